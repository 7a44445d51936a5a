import Verif.Props.SteerCustomDuring
import Verif.Props.KinDuringExactEx
import Verif.Props.KinDuringMapEx

/-!
# Searches with a goal test on maps that change: the hypotheses of C122 are met
-/

namespace PathPlanning
namespace TDurEx
open Spec KinEx

/-- The goal test that asks for the pose `7` and stops there. -/
def T : KGoalTest (Fin 5) (Fin 9) Nat P where
  terminate st n := if st.kin n = 7 then (some 0, true) else (none, false)
  heurGoal := none

theorem T_stops : StopsAtAccepted T := by
  intro st n h
  by_cases hx : st.kin n = 7
  · simp [T, hx]
  · simp [T, hx] at h

theorem T_accepts {k : Fin 9} {w : Nat} (h : PoseAccepted T k w) : k = 7 := by
  obtain ⟨st, n, rfl, e⟩ := h
  by_contra hx
  simp [T, hx] at e

theorem T_always : PoseAlwaysAccepted T 7 := by
  intro st n e
  simp [T, e]

def next (A : KAlgo (Fin 5) (Fin 9) Nat) (us : Nat → Fin 9 → Fin 9 → CRes Bool) (st : KSt (Fin 5) (Fin 9) Nat P) :
    Option (KSt (Fin 5) (Fin 9) Nat P) :=
  match kIterateT (A.withUsable (us st.s.expansions)) cfg T st with
  | .more st' => some st'
  | .done _ _ => none

theorem loop_next {A : KAlgo (Fin 5) (Fin 9) Nat} {us : Nat → Fin 9 → Fin 9 → CRes Bool} {n : Nat}
    {st st' : KSt (Fin 5) (Fin 9) Nat P} (h : next A us st = some st') :
    kLoopTDuring A us cfg T (n + 1) st = kLoopTDuring A us cfg T n st' := by
  unfold next at h
  rw [kLoopTDuring]
  split at h <;> rename_i e
  · cases h; rw [e]
  · cases h

/-- The last iteration: the pose asked for is at the top of the queue. -/
theorem last_iter {A : KAlgo (Fin 5) (Fin 9) Nat} {us : Nat → Fin 9 → Fin 9 → CRes Bool} {fin : KSt (Fin 5) (Fin 9) Nat P}
    {l : List (Fin 5)} (hn : P.next fin.s.opn = some (3, P.empty)) (hk : fin.kin 3 = 7) (hcd : fin.s.cands = [])
    (hb : ∀ lab : Labels (Fin 5) Nat, (∀ m, (lab m).prev = (fin.s.lab m).prev) → backtrack lab [0] 3 = .ok l) :
    ∃ st', kIterateT (A.withUsable (us fin.s.expansions)) cfg T fin = .done (.ok l) st' ∧ st'.kin = fin.kin ∧
      st'.s.expansions = fin.s.expansions + 1 := by
  generalize us fin.s.expansions = u
  unfold kIterateT
  rw [hn]
  set st1 : KSt (Fin 5) (Fin 9) Nat P := { fin with
    s := popNode ((A.withUsable u).alg fin.s.lab fin.kin) (tCfg cfg T fin.kin) fin.s 3 P.empty } with hs1
  have e : ∀ m, (st1.s.lab m).prev = (fin.s.lab m).prev := by
    intro m
    rw [hs1]
    unfold popNode setLab
    simp only
    split_ifs with h
    · rw [h]
    · rfl
  have hk1 : st1.kin 3 = 7 := hk
  have ht : T.terminate st1 3 = (some 0, true) := by simp [T, hk1]
  have ha : cfg.abort fin.s.expansions = false := rfl
  have hx : st1.s.expansions = fin.s.expansions + 1 := rfl
  have hc1 : st1.s.cands = [] := hcd
  have hfin : finish cfg (kTest (A.withUsable u) T st1 3).s = .ok l := by
    have : (kTest (A.withUsable u) T st1 3).s.cands = [(3, 0)] := by
      unfold kTest; rw [ht]; simp only [addCandidate, hc1]; rfl
    have hl : ∀ m, ((kTest (A.withUsable u) T st1 3).s.lab m).prev = (fin.s.lab m).prev := by
      unfold kTest; rw [ht]; exact e
    unfold finish
    rw [this]
    exact hb _ hl
  have e2 : (kTest (A.withUsable u) T st1 3).kin = fin.kin ∧
      (kTest (A.withUsable u) T st1 3).s.expansions = fin.s.expansions + 1 := by
    unfold kTest; rw [ht]; exact ⟨rfl, rfl⟩
  simp only [ha, ← hs1, ht, hfin, Bool.false_eq_true, if_false, if_true]
  exact ⟨_, rfl, e2.1, e2.2⟩

/-! ### Without heuristic, a step is blocked -/

def st4 : Option (KSt (Fin 5) (Fin 9) Nat P) :=
  (next KDurEx2.A KDurEx2.blocking (kInit KDurEx2.A P cfg kin0)).bind fun s => (next KDurEx2.A KDurEx2.blocking s).bind
    fun s => (next KDurEx2.A KDurEx2.blocking s).bind (next KDurEx2.A KDurEx2.blocking)

theorem st4_some : st4.isSome = true := by decide +kernel

/-- The state before the fifth iteration. -/
def fin4 : KSt (Fin 5) (Fin 9) Nat P := st4.get st4_some

theorem fin4_next : P.next fin4.s.opn = some (3, P.empty) := by rfl

theorem fin4_kin : fin4.kin 0 = 0 ∧ fin4.kin 2 = 4 ∧ fin4.kin 3 = 7 := by decide +kernel

theorem fin4_exp : fin4.s.expansions = 4 := by decide +kernel

theorem fin4_cands : fin4.s.cands = [] := by decide +kernel

theorem fin4_prev : (fin4.s.lab 3).prev = some 2 ∧ (fin4.s.lab 2).prev = some 0 ∧ (fin4.s.lab 0).prev = none := by
  decide +kernel

theorem run4 (n : Nat) : kLoopTDuring KDurEx2.A KDurEx2.blocking cfg T (n + 4) (kInit KDurEx2.A P cfg kin0) =
    kLoopTDuring KDurEx2.A KDurEx2.blocking cfg T n fin4 := by
  have h : st4 = some fin4 := (Option.some_get st4_some).symm
  unfold st4 at h
  simp only [Option.bind_eq_some_iff] at h
  obtain ⟨a, h1, b, h2, c, h3, h4⟩ := h
  rw [loop_next (n := n + 3) h1, loop_next (n := n + 2) h2, loop_next (n := n + 1) h3, loop_next (n := n) h4]

theorem finds4 : ∃ st', kFindTestDuring KDurEx2.A KDurEx2.blocking P cfg T kin0 5 = some (.ok [0, 4, 7], st') ∧
    st'.s.expansions = 5 := by
  obtain ⟨p3, p2, p0⟩ := fin4_prev
  obtain ⟨st', h, hk, hx⟩ := last_iter (A := KDurEx2.A) (us := KDurEx2.blocking) (fin := fin4) (l := [0, 2, 3]) fin4_next
    fin4_kin.2.2 fin4_cands (by
    intro lab e
    unfold backtrack
    rw [backtrackFrom, if_neg (by decide), dif_neg (by decide), e 3, p3]
    simp only [e 2, p2]
    rw [if_neg (by decide), backtrackFrom, if_neg (by decide), dif_neg (by decide), e 2, p2]
    simp only [e 0, p0]
    rw [if_neg (by decide), backtrackFrom, if_pos (by decide)])
  refine ⟨st', ?_, by rw [hx, fin4_exp]⟩
  unfold kFindTestDuring
  rw [run4 1, kLoopTDuring, h]
  simp only [Option.map_some, hk, List.map_cons, List.map_nil, fin4_kin]

/-- Everything is blocked before the pose asked for is reached. -/
theorem stuck : ∃ st', kFindTestDuring KinEx.A KDurEx.closing P cfg T kin0 4 = some (.ok [], st') ∧ st'.s.expansions = 3 :=
  ⟨_, rfl, rfl⟩

/-- On the map of the beginning it is reachable. -/
theorem reachable : Reachable (KinEx.A.withUsable (KDurEx.closing 0)) [0] kin0 7 := by
  have s1 : Reachable (KinEx.A.withUsable (KDurEx.closing 0)) [0] kin0 0 := .start (s := 0) (List.mem_singleton.2 rfl)
  have s2 : Reachable (KinEx.A.withUsable (KDurEx.closing 0)) [0] kin0 4 :=
    .step s1 (c := 5) (n := 2) ⟨_, List.mem_cons_of_mem _ (List.mem_singleton.2 rfl), [], rfl, rfl⟩ rfl
  exact .step s2 (c := 4) (n := 3) ⟨_, List.mem_cons_self .., [], rfl, rfl⟩ rfl

end TDurEx

open Spec TDurEx in
/-- The hypotheses of `TDur.path` and `TDur.exact_blocking` are met by a search during which a step is blocked. -/
example : ∃ st' : KSt (Fin 5) (Fin 9) Nat KinEx.P,
    (∃ d, Drive (KDurEx2.A.withUsable (KDurEx2.blocking 0)) [0, 4, 7] d) ∧
    (∀ k ∈ ([0, 4, 7] : List (Fin 9)),
      Reachable (onSome KDurEx2.A KDurEx2.blocking st'.s.expansions) [0] KinEx.kin0 k) := by
  obtain ⟨st', h, _⟩ := finds4
  have h1 := TDur.exact_blocking KDurEx2.costOk prioLawful prioMin KinEx.minTop_ok (fun _ _ => rfl) rfl (fun _ => rfl)
    (fun j k k' h => by
      simp only [KDurEx2.blocking, CRes.ok.injEq, decide_eq_true_eq] at h ⊢
      omega) h (by decide)
  have h2 := TDur.path KDurEx2.costOk prioLawful KinEx.minTop_ok h (by decide)
  exact ⟨st', h1.1, h2.2.2.1⟩

open Spec TDurEx in
/-- The hypotheses of `TDur.complete` are met: the search gives up, although the pose asked for was reachable at first. -/
example : Reachable (KinEx.A.withUsable (KDurEx.closing 0)) [0] KinEx.kin0 7 ∧
    ∃ (st' : KSt (Fin 5) (Fin 9) Nat KinEx.P) (κ : Fin 5 → Option (Fin 9)),
    st'.s.expansions = 3 ∧ ClosedUnder KinEx.A KDurEx.closing st'.s.expansions [0] KinEx.kin0 κ ∧ ∀ n, κ n ≠ some 7 := by
  obtain ⟨st', h, hx⟩ := stuck
  obtain ⟨κ, h1, h2⟩ := TDur.complete KinEx.costOk prioLawful KinEx.minTop_ok (fun _ => rfl) T_stops h
  exact ⟨reachable, st', κ, hx, h1, fun n hn => h2 n 7 hn T_always⟩

/-! ### A corridor that stays free -/

section
open Spec KDur
variable {clamp : ℝ → ℝ} {P : DynP} {distThr angThr : ℝ} {m : GridMap ℝ} {skips : Nat} {b : Bres ℝ} {S : SteerCfg}
  {O : OpenList (PadCell m.width m.height) ℝ} {cfg : SCfg (PadCell m.width m.height) ℝ} {start : Pose}
  {datas : Nat → List UInt8} {E : Nat}

theorem straight_reachAt (hc : ClampSpec clamp) (hP : StraightOnly P) {so : SOpts} (hθ : start.theta = 0)
    {k : SNode} (h : ReachAt (DynAdv clamp P so) m datas E skips start start k) :
    (∃ j : Nat, k.x = ⌊start.x⌋ + (j : ℝ)) ∧ k.y = ⌊start.y⌋ ∧ k.theta = 0 ∧ k.steer = 0 ∧ k.custom = 0 := by
  induction h with
  | start h =>
    obtain ⟨h1, h2, h3, h4, _, h6⟩ := h
    rw [if_pos ⟨rfl, rfl⟩] at h6
    exact ⟨⟨0, by simpa using h1⟩, h2, h6.trans hθ, h3, h4⟩
  | step _ hs _ ih =>
    obtain ⟨⟨j, h1⟩, h2, h3, h4, h5⟩ := ih
    obtain ⟨_, _, hs⟩ := hs
    obtain ⟨r1, r2, r3, r4, _, r6⟩ := straight_adv hc hP hs.1 h3 h4 h5
    exact ⟨⟨j + 1, by rw [r1, h1]; push_cast; ring⟩, r2.trans h2, r3, r4, r6⟩

/-- **C122, a corridor.**  If the callback changes cells as it likes, but the row of the start stays free, a vehicle that can only
drive straight ahead is given a path to every column of cells ahead of it, whatever else happens on the map. -/
theorem TDur.corridor (hc : ClampSpec clamp) (hP : StraightOnly P) (hm : SteerMapOk m P.stepLen)
    (hdata : ∀ j, m.width * m.height ≤ (datas j).length)
    (L : Lawful O) (ht : TopOk cfg.top) (hab : ∀ i, cfg.abort i = false) (hst : P.maxSteer < 90) (hla : P.la ≠ 0)
    (h1 : IntPose start) (hθ : start.theta = 0) (hin : InsidePad m.width m.height ⟨start.x, start.y, 0, true, 0, 0, 0⟩)
    (hfree0 : ptOccupied m ⌊start.x⌋ ⌊start.y⌋ = .ok false)
    (hfree : ∀ j x, ptOccupied (shown m (datas j)) x ⌊start.y⌋ = .ok false) {X : Int} (hx : ⌊start.x⌋ ≤ X)
    (hX : X < m.width + 32) :
    ∃ fuel q E kl, padFindTestDuring clamp (dynSteerAlgo clamp P distThr angThr m skips b S) skips b datas O cfg (rightOf O X)
        P.reversed start fuel = some (.ok q, E) ∧ q.getLast? = some kl ∧ X ≤ ⌊kl.x⌋ ∧
      ∀ k ∈ q, k.y = ⌊start.y⌋ ∧ k.theta = 0 := by
  have hd : 0 ≤ P.distStep := by rw [hP.dist]; exact hP.res.le
  obtain ⟨fuel, r, E, e1, e2, e3⟩ := TDur.dyn_ends (distThr := distThr) (angThr := angThr) (skips := skips) (b := b) (S := S)
    (T := rightOf O X) hc hd hP.res hm hdata L ht h1
  have hok : ∃ q, r = .ok q := by
    cases r with
    | ok q => exact ⟨q, rfl⟩
    | ub => exact absurd rfl e2
    | throw e =>
      exfalso
      rcases (e3 e rfl).2 with h | ⟨k, c, k', h3, ⟨_, _, h4⟩, h5⟩
      · exact h hin
      · obtain ⟨⟨j, q1⟩, q2, q3, q4, q5⟩ := straight_reachAt hc hP hθ h3
        obtain ⟨r1, r2, _⟩ := straight_adv hc hP h4.1 q3 q4 q5
        have f1 : ⌊k'.x⌋ = ⌊start.x⌋ + j + 1 := by
          have : k'.x = ((⌊start.x⌋ + j + 1 : Int) : ℝ) := by rw [r1, q1]; push_cast; ring
          rw [this, Int.floor_intCast]
        have f2 : ⌊k'.y⌋ = ⌊start.y⌋ := by rw [r2, q2, Int.floor_intCast]
        unfold InsidePad at hin
        unfold OnEdge at h5
        simp only at hin
        omega
  obtain ⟨q, rfl⟩ := hok
  have hne : q ≠ [] := by
    rintro rfl
    obtain ⟨T, hT, hacc⟩ := TDur.dyn_complete hc hd hP.res hm hdata L ht hab rightOf_stops h1 e1
    have key : ∀ j : Nat, ⌊start.x⌋ + j ≤ X → ∃ k, T k ∧ k.x = ⌊start.x⌋ + (j : ℝ) ∧ k.forward = true := by
      intro j
      induction j with
      | zero =>
        intro _
        obtain ⟨k, hk, hs, hf⟩ := hT.init hfree0 true
        exact ⟨k, hk, by simpa using hs.1, hf⟩
      | succ j ih =>
        intro hj
        obtain ⟨k, hk, hkx, hkf⟩ := ih (by push_cast at hj; omega)
        obtain ⟨_, q2, q3, q4, q5⟩ := straight_reachAt hc hP hθ (hT.reach k hk)
        obtain ⟨c, k', hadv⟩ := straight_next (so := S.so) hc hP q3 q4 q5 hkf
        obtain ⟨r1, r2, r3, r4, r5, r6⟩ := straight_adv hc hP hadv q3 q4 q5
        have f1 : ⌊k'.x⌋ = ⌊start.x⌋ + j + 1 := by
          have : k'.x = ((⌊start.x⌋ + j + 1 : Int) : ℝ) := by rw [r1, hkx]; push_cast; ring
          rw [this, Int.floor_intCast]
        have f2 : ⌊k'.y⌋ = ⌊start.y⌋ := by rw [r2, q2, Int.floor_intCast]
        have hin' : InsidePad m.width m.height k' := by
          unfold InsidePad at hin ⊢
          simp only at hin
          push_cast at hj
          omega
        obtain ⟨k'', hk'', hh⟩ := hT.closed k c k' hk hadv hadv
          (fun i _ => lineOk_of_row (shown_ok hm hdata i).wf (hfree i) (by rw [q2, Int.floor_intCast]) f2
            (by rw [q2, truncC_cast])) hin'
        obtain ⟨⟨j', q1'⟩, _⟩ := straight_reachAt hc hP hθ (hT.reach k'' hk'')
        rcases hh with ⟨g1, _, g3, _⟩ | ⟨g1, g2, _⟩
        · refine ⟨k'', hk'', ?_, g3.trans r5⟩
          have : ⌊k''.x⌋ = ⌊start.x⌋ + j' := by
            have : k''.x = ((⌊start.x⌋ + j' : Int) : ℝ) := by rw [q1']; push_cast; ring
            rw [this, Int.floor_intCast]
          have hjj : j' = j + 1 := by omega
          rw [q1', hjj]
        · rw [g1.1, Int.floor_intCast] at g2
          omega
    obtain ⟨n, hn⟩ : ∃ n : Nat, X = ⌊start.x⌋ + n := ⟨(X - ⌊start.x⌋).toNat, by omega⟩
    obtain ⟨k, hk, hkx, _⟩ := key n (by omega)
    refine hacc k hk (rightOf_always ?_)
    rw [hkx, hn]; push_cast; exact le_refl _
  obtain ⟨q0, hq, _, t2, _, _, _, kl, t3, k, w, t4, t5, t6⟩ :=
    TDur.dyn_path hc hd hP.res hm hdata ⟨hP.steer, hst⟩ hla L ht h1 e1 hne
  rw [hP.rev] at hq
  simp only [Bool.false_eq_true, if_false] at hq
  subst hq
  refine ⟨fuel, q, E, kl, e1, t3, ?_, fun k hk => ?_⟩
  · rw [← t4.1]
    exact Int.le_floor.2 (rightOf_accepts t6)
  · obtain ⟨_, q2, q3, _⟩ := straight_reachAt hc hP hθ (t2 k hk)
    exact ⟨q2, q3⟩

end

namespace SteerEx
open Spec KDur

/-- After the first expansion the second row of the map of four by two cells is occupied. -/
def closingData (j : Nat) : List UInt8 := if j = 0 then map.data else [0, 0, 0, 0, 255, 255, 255, 255]

theorem row_free (j : Nat) (x : Int) : ptOccupied (shown map (closingData j)) x 0 = .ok false := by
  have tw : toI32 map.width = 4 := by decide +kernel
  have th : toI32 map.height = 2 := by decide +kernel
  unfold ptOccupied
  show (if x < 0 ∨ (0 : Int) < 0 ∨ toI32 map.width ≤ x ∨ toI32 map.height ≤ 0 then CRes.ok false else
    (shown map (closingData j)).isOccupied ⟨x.toNat, (0 : Int).toNat⟩) = _
  rw [tw, th]
  split_ifs with h
  · rfl
  · push Not at h
    obtain ⟨a, _, c, _⟩ := h
    obtain ⟨x, rfl⟩ := Int.eq_ofNat_of_zero_le a
    have hx : x < 4 := by omega
    unfold closingData
    split_ifs <;> interval_cases x <;> rfl

/-- The map really changes, and only by obstacles that appear. -/
theorem closing_blocks : OnlyBlocked map closingData ∧ closingData 0 = map.data ∧ closingData 1 ≠ map.data := by
  refine ⟨?_, rfl, by decide⟩
  intro j x y hx hy h
  have hx : x < 4 := hx
  have hy : y < 2 := hy
  unfold closingData at h ⊢
  rw [if_neg (by omega)]
  split_ifs at h <;> interval_cases x <;> interval_cases y <;> first | rfl | cases h

theorem closing_length (j : Nat) : map.width * map.height ≤ (closingData j).length := by
  unfold closingData
  split_ifs <;> decide

/-- The hypotheses of `TDur.corridor`, and with it those of `TDur.dyn_ends`, `TDur.dyn_path` and `TDur.dyn_complete`, are met. -/
theorem example_corridor {clamp : ℝ → ℝ} (hc : ClampSpec clamp) :
    ∃ fuel q E kl, padFindTestDuring clamp (dynSteerAlgo clamp P (1 / 10) (1 / 10) map 0 bres S) 0 bres closingData
      PriorityManager cfg (rightOf PriorityManager 3) P.reversed ⟨0, 0, 0⟩ fuel = some (.ok q, E) ∧ q.getLast? = some kl ∧
      3 ≤ ⌊kl.x⌋ ∧ ∀ k ∈ q, k.y = (⌊(0 : ℝ)⌋ : Int) ∧ k.theta = 0 := by
  refine TDur.corridor hc ⟨rfl, rfl, rfl, rfl, rfl, by norm_num [P], by norm_num [P]⟩ map_ok closing_length prioLawful
    SearchEx.topRef_ok (fun _ => rfl) (by norm_num [P]) ?_ ?_ rfl ?_ (free _ _) (fun j x => ?_) ?_ ?_
  · norm_num [P]
  · norm_num [IntPose]
  · norm_num [InsidePad, map]
  · rw [show ⌊(⟨0, 0, 0⟩ : Pose).y⌋ = 0 from Int.floor_zero]; exact row_free j x
  · norm_num
  · norm_num [map]

/-- The hypotheses of `TDur.dyn_exact_blocking` are met by the same search. -/
example {clamp : ℝ → ℝ} (hc : ClampSpec clamp) :
    ∃ fuel q E, padFindTestDuring clamp (dynSteerAlgo clamp P (1 / 10) (1 / 10) map 0 bres S) 0 bres closingData
      PriorityManager cfg (rightOf PriorityManager 3) P.reversed ⟨0, 0, 0⟩ fuel = some (.ok q, E) ∧ q ≠ [] ∧
      ∀ x y, [x, y] <:+: q → LineOk map 0 x y := by
  obtain ⟨fuel, q, E, kl, h1, h2, _⟩ := example_corridor hc
  have hne : q ≠ [] := by rintro rfl; simp at h2
  obtain ⟨q0, hq, _, h3, _⟩ := TDur.dyn_exact_blocking hc (by norm_num [P]) (by norm_num [P]) map_ok closing_length
    (by norm_num [P]) (by norm_num [P]) prioLawful prioMin SearchEx.topRef_ok (fun _ _ => rfl) rfl closing_blocks.2.1
    closing_blocks.1 (by norm_num [IntPose]) h1 hne
  have : q = q0 := hq
  subst this
  exact ⟨fuel, q, E, h1, hne, fun x y hxy => (h3 x y hxy).1⟩

end SteerEx
end PathPlanning
