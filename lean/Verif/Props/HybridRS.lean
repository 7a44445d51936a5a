import Verif.Spec.HybridRS
import Verif.Props.HybridSearch
import Verif.Props.SteerSearch2
import Verif.Props.RSBox

/-!
# C79: steering searches with Reeds-Shepp expansion
-/

noncomputable section
namespace PathPlanning
open Spec

/-! ### Loops with fuel -/

/-- With more fuel a result stays. -/
def Stable {α : Type} (f : Nat → CRes (Option α)) : Prop := ∀ n m, n ≤ m → f n = .ok none ∨ f m = f n

theorem untilDone_ok {α : Type} {f : Nat → CRes (Option α)} {a : α} (h : untilDone f = .ok a) : ∃ n, f n = .ok (some a) := by
  classical
  unfold untilDone at h
  split_ifs at h with hx
  refine ⟨Nat.find hx, ?_⟩
  cases hf : f (Nat.find hx) with
  | throw e => rw [hf] at h; cases h
  | ub => rw [hf] at h; cases h
  | ok o =>
    rw [hf] at h
    cases o with
    | none => cases h
    | some b => simp only [CRes.ok.injEq] at h; rw [h]

theorem untilDone_of {α : Type} {f : Nat → CRes (Option α)} (hs : Stable f) {n : Nat} {a : α} (h : f n = .ok (some a)) :
    untilDone f = .ok a := by
  classical
  have hx : ∃ n, f n ≠ .ok none := ⟨n, by rw [h]; simp⟩
  unfold untilDone
  rw [dif_pos hx]
  have h1 := Nat.find_spec hx
  have h2 : Nat.find hx ≤ n := Nat.find_min' hx (by rw [h]; simp)
  rcases hs _ _ h2 with h3 | h3
  · exact absurd h3 h1
  · rw [← h3, h]

namespace RSExp
open RS

theorem collect_stable (E : RSEnv) : ∀ (f f' : Nat) (c : Curve), f ≤ f' →
    c.collect E f = .ok none ∨ c.collect E f' = c.collect E f := by
  intro f
  induction f with
  | zero =>
    intro f' c _
    rw [Curve.collect]
    by_cases hn : c.hasNext.1 = true
    · left; rw [if_pos hn]
    · right
      rw [if_neg hn]
      cases f' with
      | zero => rw [Curve.collect, if_neg hn]
      | succ f' => rw [Curve.collect, if_neg hn]
  | succ f ih =>
    intro f' c hle
    obtain ⟨f', rfl⟩ : ∃ m, f' = m + 1 := ⟨f' - 1, by omega⟩
    rw [Curve.collect, Curve.collect]
    by_cases hn : c.hasNext.1 = true
    · rw [if_pos hn, if_pos hn]
      cases hx : c.hasNext.2.next E with
      | throw e => right; rfl
      | ub => right; rfl
      | ok r =>
        simp only [CRes.ok_bind]
        rcases ih f' r.2 (by omega) with h | h
        · left; rw [h]; rfl
        · right; rw [h]
    · right; rw [if_neg hn, if_neg hn]

theorem expand_stable (clamp : ℝ → ℝ) (N : Int) (ef eb : Bool) (st : St) (s t : Node) (map : MapIf) :
    Stable fun fuel => st.expand clamp fuel N ef eb s t map := by
  intro n m hle
  simp only
  unfold St.expand
  simp only
  split_ifs
  · right; rfl
  · right; rfl
  · cases hx : expStep N st.thr s.h with
    | throw e => right; rfl
    | ub => right; rfl
    | ok r =>
      obtain ⟨a, thr⟩ := r
      simp only [CRes.ok_bind]
      split_ifs
      · unfold St.find
        simp only
        cases hf : (prepare st.gen).findPath clamp s.pose t.pose map false with
        | throw e => right; rfl
        | ub => right; rfl
        | ok g =>
          obtain ⟨g', r⟩ := g
          simp only [CRes.ok_bind]
          cases r with
          | none => right; rfl
          | some k =>
            simp only
            rcases collect_stable ((prepare st.gen).env clamp map false) n m (k.reset ((prepare st.gen).env clamp map false)) hle with h | h
            · left; rw [h]; rfl
            · right; rw [h]
      · right; rfl
  · right; rfl

end RSExp

/-! ### The expansion as part of a search -/

section
open RSExp
variable {clamp : ℝ → ℝ} (hC : ClampSpec clamp) (hopen : ∀ t, -Real.pi < clamp t)
variable {n : Int} (hN : 0 ≤ n) (hN2 : n < 2147483648) {ef eb : Bool} {m : GridMap ℝ} (h0 : 0 < m.res) (h1 : m.res ≤ 13 / 10)

theorem rs_step {x x' : St} (hx : ExpReach clamp n ef eb x) {k kg : SNode} {h : ℝ} (hh : 0 ≤ h) {b : Bool}
    (he : (rsExp clamp n ef eb m).expand x k h kg = .ok (b, x')) : ExpReach clamp n ef eb x' := by
  obtain ⟨fuel, hf⟩ := untilDone_ok he
  exact .step hx hh hf

theorem rs_calls {H : ℝ → Prop} (hH : ∀ h, H h → 0 ≤ h) {x x' : St} (hx : ExpReach clamp n ef eb x)
    (h : ExpCalls (rsExp clamp n ef eb m) H x x') : ExpReach clamp n ef eb x' := by
  induction h with
  | refl => exact hx
  | step _ hh he ih => exact rs_step ih (hH _ hh) he

include hC hopen hN hN2 h0 h1

theorem rs_defined {x : St} (hx : ExpReach clamp n ef eb x) (k kg : SNode) {h : ℝ} (hh : 0 ≤ h) :
    ∃ b x', (rsExp clamp n ef eb m).expand x k h kg = .ok (b, x') := by
  obtain ⟨f, hf⟩ := expand_defined hC hopen hN hN2 hx (map := Sampling.mapIf m) h0 h1
    ⟨⟨k.x, k.y, k.theta⟩, h, k.forward⟩ ⟨⟨kg.x, kg.y, kg.theta⟩, 0, kg.forward⟩ hh
  obtain ⟨b, x', e⟩ := hf f (le_refl _)
  exact ⟨b, x', untilDone_of (expand_stable _ _ _ _ _ _ _ _) e⟩

theorem rs_sound {x x' : St} (hx : ExpReach clamp n ef eb x) {k kg : SNode} {h : ℝ}
    (he : (rsExp clamp n ef eb m).expand x k h kg = .ok (true, x')) :
    ef = true ∧ k.forward = true ∧ ∃ ps, ps ≠ [] ∧ (rsExp clamp n ef eb m).get x' = ps.map wayNode ∧
      ForwardWay m (poseOf k) (poseOf kg) ps := by
  obtain ⟨fuel, hf⟩ := untilDone_ok he
  obtain ⟨e1, e2, o, o', t1, L, t3, p1, p2, p3, p4, p5, p6, ps, p7, p8, p9⟩ :=
    expand_sound hC hopen hN hN2 hx (map := Sampling.mapIf m) h0 h1 hf
  refine ⟨e1, e2, ps, p7, ?_, o, o', t1, L, t3, p1, p2, p3, p4, p5, p6, p9⟩
  show x'.get.map _ = _
  rw [p8, List.map_map]
  rfl

omit hC hopen hN hN2 h1 in
/-- The first way point is the pose itself. -/
theorem ForwardWay.first {p q e : Pose} {es : List Pose} (h : ForwardWay m p q (e :: es)) : SameConfig e p := by
  obtain ⟨o, o', t1, L, t3, _, _, _, _, _, _, hw⟩ := h
  simp only [cscForward, waypoints, elemWaypoints, List.range_succ_eq_map, List.map_cons, List.cons_append] at hw
  rw [List.forall₂_cons] at hw
  have : drive (13 / 10 / m.res) p (.turn o .fwd) (((0 : Nat) : ℝ) * (15 / 100 / m.res / (13 / 10 / m.res))) = p := by
    cases o <;> simp [drive]
  rw [this] at hw
  exact hw.1

end

/-! ### Searches -/

section
open RSExp
variable {clamp : ℝ → ℝ} {m : GridMap ℝ} {skips : Nat} {b : Bres ℝ} {S : SteerCfg} {pd : Nat}
  {mvs : List (SNode → List SNode → Option (ℝ × SNode))} {isg : SNode → SNode → Option SNode → Bool} {D : ℝ}
  {adv : SNode → ℝ → SNode → Prop} {cs : List ℝ}
  {O : OpenList (PadCell m.width m.height) ℝ} {cfg : SCfg (PadCell m.width m.height) ℝ} {start goal : Pose}
  {n : Int} {ef eb : Bool}

theorem Started.startFree {sp s gp g : List (PadCell m.width m.height)} (hst : Started clamp m start goal sp s gp g)
    {v : PadCell m.width m.height} (hv : v ∈ s) : ptOccupied m ⌊start.x⌋ ⌊start.y⌋ = .ok false := by
  obtain ⟨h1, h2⟩ := (hst.hs v).1 hv
  obtain ⟨c1, c2, _⟩ := (poseCells_mem hst.hsp v).1 h1
  rw [← c1, ← c2]; exact h2

theorem Started.goalFree {sp s gp g : List (PadCell m.width m.height)} (hst : Started clamp m start goal sp s gp g)
    {v : PadCell m.width m.height} (hv : v ∈ g) : ptOccupied m ⌊goal.x⌋ ⌊goal.y⌋ = .ok false := by
  obtain ⟨h1, h2⟩ := (hst.hg v).1 hv
  obtain ⟨c1, c2, _⟩ := (poseCells_mem hst.hgp v).1 h1
  rw [← c1, ← c2]; exact h2

theorem Started.goalPose (hc : ClampSpec clamp) (hm : SteerMapOk m D) (hs : StepBound mvs D) (ho : Offers mvs adv m.res)
    {sp s gp g : List (PadCell m.width m.height)} (hst : Started clamp m start goal sp s gp g) {kg : SNode}
    (h : ∃ v ∈ g, kg = padContent sp s gp g start goal v ∨ (steerLookup clamp m.width m.height kg = .ok (some v) ∧
      Reachable (padAlgo clamp m skips b S mvs pd isg) s (padContent sp s gp g start goal) kg)) :
    GoalPose clamp adv m skips start goal kg := by
  obtain ⟨v, hv, e3⟩ := h
  obtain ⟨h1, h2⟩ := (hst.hg v).1 hv
  obtain ⟨c1, c2, c3⟩ := (poseCells_mem hst.hgp v).1 h1
  rcases e3 with rfl | ⟨e3, e4⟩
  · left
    refine ⟨?_, ?_, ?_, rfl, rfl, rfl⟩
    · show ((v.x : Int) : ℝ) = _; rw [c1]
    · show ((v.y : Int) : ℝ) = _; rw [c2]
    · simp only [padContent, hv, if_true]
  · right
    obtain ⟨a1, a2, a3, _⟩ := (steerLookup_iff hc hm.sizes.1 hm.sizes.2).1 e3
    exact ⟨hst.reach hc hm hs ho e4, by omega, by omega, by rw [a3, c3]⟩

/-- **C79.** Every steering search with Reeds-Shepp expansion ends.  Whatever searches were run before (state `x` of the expansion): it
ends exactly as a search without expansion, or it returns a path whose last part is an expansion - or it runs into undefined behaviour,
and this only if an expansion leads from the start pose itself to the goal. -/
theorem pad_hybrid (hc : ClampSpec clamp) (hopen : ∀ t, -Real.pi < clamp t) (hm : SteerMapOk m D) (hs : StepBound mvs D)
    (ho : Offers mvs adv m.res)
    (ok : KCostOk (padAlgo clamp m skips b S mvs pd isg) cs) (L : Lawful O) (ht : TopOk cfg.top)
    (hN : 0 ≤ n) (hN2 : n < 2147483648) (h0 : 0 < m.res) (h13 : m.res ≤ 13 / 10) (hheur : ∀ a b, 0 ≤ S.heur a b)
    (h1 : IntPose start) (h2 : IntPose goal) {x : St} (hx : ExpReach clamp n ef eb x) :
    ∃ fuel r x', padFindPathX clamp (padAlgo clamp m skips b S mvs pd isg) (rsExp clamp n ef eb m) O cfg start goal x fuel =
        some (r, x') ∧
      ((ExpReach clamp n ef eb x' ∧
        ∃ f', padFindPath clamp (padAlgo clamp m skips b S mvs pd isg) O cfg start goal f' = some r) ∨
       (ExpReach clamp n ef eb x' ∧ ef = true ∧ ∃ q, r = .ok q ∧
        HybridPath clamp adv m skips start goal ((∀ k g, S.heur k g = 0) ∧ cfg.heurGoal = none ∧ Nonempty (MinFirst O)) q) ∨
       (r = .ub ∧ ef = true ∧ ∃ k kg ps, StartPose start goal k ∧ k.forward = true ∧ GoalPose clamp adv m skips start goal kg ∧
        ForwardWay m (poseOf k) (poseOf kg) ps)) := by
  rcases padInit_cases hc hm h1 h2 with ⟨sp, s, gp, g, e, p1, p2, p3, p4⟩ | ⟨e, he, h3, h4⟩
  · have hst : Started clamp m start goal sp s gp g := ⟨e, p1, p2, p3, p4⟩
    obtain ⟨fuel, r, x', q1, q2⟩ := hybrid_search (P := O) (E := rsExp clamp n ef eb m) (cfg := { cfg with start := s, goal := g })
      (kin0 := padContent sp s gp g start goal) ok L ht x
    have hH : ∀ h, (∃ a c, h = (padAlgo clamp m skips b S mvs pd isg).heur a c) → 0 ≤ h := by
      rintro h ⟨a, c, rfl⟩; exact hheur a c
    have hreach : ∀ {x1 k h kg}, AskedFor (padAlgo clamp m skips b S mvs pd isg) (rsExp clamp n ef eb m) s g
        (padContent sp s gp g start goal) x x1 k h kg → ExpReach clamp n ef eb x1 ∧ 0 ≤ h ∧ RoadReach adv m skips start goal k ∧
        GoalPose clamp adv m skips start goal kg := by
      intro x1 k h kg ha
      refine ⟨rs_calls hH hx ha.calls, ?_, hst.reach hc hm hs ho ha.reach, hst.goalPose hc hm hs ho ha.goal⟩
      obtain ⟨c, rfl⟩ := ha.heur
      exact hheur _ _
    refine ⟨fuel, r, x', ?_, ?_⟩
    · unfold padFindPathX; rw [e]; exact q1
    rcases q2 with ⟨c1, f', c2⟩ | ⟨e', r1, x1, k, h, kg, c1, c2⟩ | ⟨r1, c1⟩ | ⟨q, k, kg, r1, x1, h, l, e1, es, c1, c2, c3, c4, c5, c6, c7, c8, c9, c10⟩
    · exact .inl ⟨rs_calls hH hx c1, f', by unfold padFindPath; rw [e]; exact c2⟩
    · obtain ⟨u1, u2, _⟩ := hreach c1
      obtain ⟨bb, y, hy⟩ := rs_defined hc hopen hN hN2 h0 h13 (ef := ef) (eb := eb) u1 k kg u2
      rw [hy] at c2; cases c2
    · rcases c1 with ⟨x1, k, h, kg, c1, c2⟩ | ⟨x1, x2, v, h, kg, hv, c1, c2⟩ | ⟨x1, k, h, kg, c1, x2, c2, c3⟩
      · obtain ⟨u1, u2, _⟩ := hreach c1
        obtain ⟨bb, y, hy⟩ := rs_defined hc hopen hN hN2 h0 h13 (ef := ef) (eb := eb) u1 k kg u2
        rw [hy] at c2; cases c2
      · obtain ⟨u1, u2, u3, u4⟩ := hreach c1
        obtain ⟨w1, w2, ps, w3, w4, w5⟩ := rs_sound hc hopen hN hN2 h0 h13 u1 c2
        exact .inr (.inr ⟨r1, w1, _, kg, ps, hst.startPose hv, w2, u4, w5⟩)
      · obtain ⟨u1, u2, u3, u4⟩ := hreach c1
        obtain ⟨w1, w2, ps, w3, w4, w5⟩ := rs_sound hc hopen hN hN2 h0 h13 u1 c2
        rw [c3] at w4
        exact absurd (List.map_eq_nil_iff.1 w4.symm) w3
    · obtain ⟨u1, u2, u3, u4⟩ := hreach c1
      obtain ⟨w1, w2, ps, w3, w4, w5⟩ := rs_sound hc hopen hN hN2 h0 h13 u1 c2
      refine .inr (.inl ⟨rs_step u1 u2 c2, w1, q, r1, ?_⟩)
      rw [c3] at w4
      cases ps with
      | nil => exact absurd rfl w3
      | cons a as =>
        simp only [List.map_cons, List.cons.injEq] at w4
        obtain ⟨rfl, rfl⟩ := w4
        have hin : ∀ k, Reachable (padAlgo clamp m skips b S mvs pd isg) s (padContent sp s gp g start goal) k →
          InsidePad m.width m.height k := fun k hr => reachable_inside hc hm (fun _ _ => padContent_inside _) hr
        have hall : ∀ y ∈ l ++ [k], Reachable (padAlgo clamp m skips b S mvs pd isg) s (padContent sp s gp g start goal) y := by
          intro y hy
          rcases List.mem_append.1 hy with hy | hy
          · exact c8 y hy
          · rw [List.mem_singleton.1 hy]; exact c1.reach
        obtain ⟨d, t1⟩ := c6
        obtain ⟨pp1, pp2⟩ := cellTrace_pairs t1
        obtain ⟨v, hv, t2⟩ := c7
        refine ⟨l, k, a, as, kg, c4, c5, ⟨_, t2, hst.startPose hv⟩, fun y hy => hst.reach hc hm hs ho (hall y hy), ?_, ?_, ?_, ?_,
          hst.startFree hv, ?_, w2, u4, ForwardWay.first h0 w5, w5⟩
        · intro y z hxy
          obtain ⟨x', c, hx, hl⟩ := pp1 y z hxy
          have hrx : Reachable (padAlgo clamp m skips b S mvs pd isg) s (padContent sp s gp g start goal) x' := by
            rcases hx with rfl | hx
            · exact hall x' (hxy.subset (by simp))
            · exact hx.2
          obtain ⟨c0, hr, _⟩ := legal_road hm hs ho (hin x' hrx) hl
          refine ⟨x', c0, ?_, hst.reach hc hm hs ho hrx, hr⟩
          rcases hx with rfl | hx
          · exact ⟨rfl, rfl, rfl, rfl⟩
          · exact sameState_of_sameCell hc hm hx.1
        · intro y z hxy
          obtain ⟨c, hl⟩ := pp2 y z hxy
          obtain ⟨c0, hr, _⟩ := legal_road hm hs ho (hin y (hall y (hxy.subset (by simp)))) hl
          exact ⟨c0, hr⟩
        · rintro ⟨ex1, ex2, ex3⟩ y z hxy
          obtain ⟨d', hd⟩ := c10 ⟨ex1, ex2, fun a => add_zero a, ex3⟩
          obtain ⟨c, hl⟩ := drive_pairs hd y z hxy
          obtain ⟨c0, hr, _⟩ := legal_road hm hs ho (hin y (hall y (hxy.subset (by simp)))) hl
          exact ⟨c0, hr⟩
        · refine lt_of_lt_of_eq c9 ?_
          simp only [Fintype.card_prod, Fintype.card_fin, Fintype.card_bool]
          ring
        · obtain ⟨vg, hvg, _⟩ := c1.goal
          exact hst.goalFree hvg
  · refine ⟨0, .throw e, x, ?_, .inl ⟨hx, 0, ?_⟩⟩
    · unfold padFindPathX; rw [he]
    · unfold padFindPath; rw [he]

end
end PathPlanning

namespace PathPlanning
open Spec RSExp

section
variable {clamp : ℝ → ℝ} {m : GridMap ℝ} {skips : Nat} {b : Bres ℝ} {S : SteerCfg} {pd : Nat}
  {mvs : List (SNode → List SNode → Option (ℝ × SNode))} {isg : SNode → SNode → Option SNode → Bool} {D : ℝ}
  {O : OpenList (PadCell m.width m.height) ℝ} {cfg : SCfg (PadCell m.width m.height) ℝ} {start goal : Pose}
  {n : Int} {eb : Bool}

theorem padInit_free (hc : ClampSpec clamp) {p : Pose} (h1 : IntPose p)
    (hin : InsidePad m.width m.height ⟨p.x, p.y, 0, true, 0, 0, 0⟩) (hf : ptOccupied m ⌊p.x⌋ ⌊p.y⌋ = .ok false) :
    ∃ a c : PadCell m.width m.height, getPoses clamp m.width m.height p = .ok [a, c] ∧ notOccupied m [a, c] = .ok [a, c] ∧
      (a.x = ⌊p.x⌋ ∧ a.y = ⌊p.y⌋ ∧ a.t = 15 ∧ a.fwd = true) ∧ (c.x = ⌊p.x⌋ ∧ c.y = ⌊p.y⌋ ∧ c.t = 15 ∧ c.fwd = false) := by
  rcases getPoses_cases (w := m.width) (h := m.height) hc h1 with ⟨ns, e, a, c, rfl, ha, hc'⟩ | ⟨e, _, _, h⟩
  · refine ⟨a, c, e, ?_, ha, hc'⟩
    simp [notOccupied, ha, hc', hf, CRes.pure_eq, CRes.ok_bind]
  · exact absurd hin h

/-- **C79, finding.** The very first search of a process, with forward expansion: if a forward motion "turn, straight, turn" leads from
the start to the goal (through a rectangle of free cells), the search runs into undefined behaviour, namely the attempt to trace the
start node back to its predecessor. -/
theorem start_expansion_ub (hc : ClampSpec clamp) (hopen : ∀ t, -Real.pi < clamp t)
    (hN : 0 ≤ n) (hN2 : n < 2147483648) (h0 : 0 < m.res) (h13 : m.res ≤ 13 / 10) (hheur : ∀ a b, 0 ≤ S.heur a b)
    (h1 : IntPose start) (h2 : IntPose goal)
    (hi1 : InsidePad m.width m.height ⟨start.x, start.y, 0, true, 0, 0, 0⟩)
    (hi2 : InsidePad m.width m.height ⟨goal.x, goal.y, 0, true, 0, 0, 0⟩)
    (hf1 : ptOccupied m ⌊start.x⌋ ⌊start.y⌋ = .ok false) (hf2 : ptOccupied m ⌊goal.x⌋ ⌊goal.y⌋ = .ok false)
    (hfirst : ∀ u v k, ∃ o, O.next (O.add (O.add O.empty u k) v k) = some (u, o)) (hab : cfg.abort 0 = false)
    {x0 x1 y0 y1 : Int} (hb : FreeBox (Sampling.mapIf m) x0 x1 y0 y1)
    (o o' : RS.Ori) (t1 L t3 : ℝ) (p1 : 0 < t1) (pL : 0 ≤ L) (p3 : 0 < t3) (hsum : t1 + t3 < Real.pi)
    {p q : Pose} (hp : p = ⟨⌊start.x⌋, ⌊start.y⌋, start.theta⟩) (hq : q = ⟨⌊goal.x⌋, ⌊goal.y⌋, goal.theta⟩)
    (hcen : 2 * (13 / 10 / m.res) ≤ eucl (turnCentre (13 / 10 / m.res) o p) (turnCentre (13 / 10 / m.res) o' q))
    (hc1 : CircleIn (13 / 10 / m.res) (turnCentre (13 / 10 / m.res) o p) x0 x1 y0 y1)
    (hc2 : CircleIn (13 / 10 / m.res) (turnCentre (13 / 10 / m.res) o' q) x0 x1 y0 y1)
    (hgoal : SameConfig (driveAll (13 / 10 / m.res) p (cscForward o o' t1 L t3)) q)
    (hd : 2 ≤ eucl p.pt q.pt) (hcost : (t1 + t3) * (13 / 10 / m.res) * (13 / 10) + L < 999999)
    {junk : ℝ} {junkF : Bool} {x : St} (hx : St.new n true eb junk junkF = .ok x) (fuel : Nat) :
    ∃ x', padFindPathX clamp (padAlgo clamp m skips b S mvs pd isg) (rsExp clamp n true eb m) O cfg start goal x (fuel + 1) =
      some (.ub, x') := by
  obtain ⟨a, a', ea, ea2, ha, ha'⟩ := padInit_free hc h1 hi1 hf1
  obtain ⟨g, g', eg, eg2, hg, hg'⟩ := padInit_free hc h2 hi2 hf2
  have hinit : padInit clamp m start goal = .ok ([a, a'], [a, a'], [g, g'], [g, g']) := by
    unfold padInit
    simp [ea, ea2, eg, eg2, CRes.pure_eq, CRes.ok_bind]
  have hcell : ¬ (⌊start.x⌋ = ⌊goal.x⌋ ∧ ⌊start.y⌋ = ⌊goal.y⌋) := by
    rintro ⟨e1, e2⟩
    have : eucl p.pt q.pt = 0 := by
      rw [hp, hq]; unfold eucl dist2 Pose.pt; simp [e1, e2]
    linarith
  have hag : a ∉ [g, g'] := by
    simp only [List.mem_cons, List.not_mem_nil, or_false, not_or]
    constructor <;> rintro rfl <;> apply hcell
    · exact ⟨by omega, by omega⟩
    · exact ⟨by omega, by omega⟩
  set kin := padContent [a, a'] [a, a'] [g, g'] [g, g'] start goal with hkin
  have hka : kin a = ⟨⌊start.x⌋, ⌊start.y⌋, start.theta, true, 0, 0, 0⟩ := by
    rw [hkin]; unfold padContent; simp only [hag, if_false]
    simp [initContent, ha]
  have hkg : ∀ v ∈ [g, g'], ∃ f, kin v = ⟨⌊goal.x⌋, ⌊goal.y⌋, goal.theta, f, 0, 0, 0⟩ := by
    intro v hv
    refine ⟨v.fwd, ?_⟩
    rw [hkin]; unfold padContent; simp only [hv, if_true, or_true, initContent]
    simp only [List.mem_cons, List.not_mem_nil, or_false] at hv
    rcases hv with rfl | rfl
    · rw [hg.1, hg.2.1]
    · rw [hg'.1, hg'.2.1]
  obtain ⟨f1, hk1⟩ := hkg g (by simp)
  obtain ⟨f2, hk2⟩ := hkg g' (by simp)
  unfold padFindPathX
  rw [hinit]
  simp only
  unfold xFindPath
  rw [xSearch]
  set A := padAlgo clamp m skips b S mvs pd isg with hA
  set cfg' : SCfg (PadCell m.width m.height) ℝ := { cfg with start := [a, a'], goal := [g, g'] } with hcfg
  set st := kInit A O cfg' kin with hst
  have hlabel : ∀ v, (st.s.lab v).prev = none := by
    intro v
    rw [hst]
    simp only [kInit, initSearch, hcfg, List.foldl, addStart, setLab, freshLabels]
    split_ifs <;> rfl
  have hne : a' ≠ a := by
    rintro rfl
    have := ha.2.2.2
    rw [ha'.2.2.2] at this
    cases this
  obtain ⟨oo, hnext⟩ : ∃ oo, O.next st.s.opn = some (a, oo) := by
    obtain ⟨oo, h⟩ := hfirst a a' (((0 : ℝ) + 0 : ℝ) : WithTop ℝ)
    refine ⟨oo, ?_⟩
    rw [← h, hst]
    simp [kInit, initSearch, hcfg, List.foldl, addStart, setLab, freshLabels, hne, Algo.total, KAlgo.alg, Label.fresh, hA, padAlgo,
      Algo.addW]
  have hexp : st.s.expansions = 0 := by
    rw [hst]; simp [kInit, initSearch, hcfg, List.foldl, addStart]
  have habt : cfg'.abort st.s.expansions = false := by rw [hexp]; exact hab
  have hkst : st.kin = kin := rfl
  -- the two calls of the expansion
  have hxr : ExpReach clamp n true eb x := .new hx
  set lab := (popNode (A.alg st.s.lab st.kin) cfg' st.s a oo).lab with hlab
  set h := (lab a).h with hh
  have hh0 : 0 ≤ h := by
    rw [hh, hlab]
    simp only [popNode, setLab, if_true, hcfg]
    exact hheur _ _
  have hprev : (lab a).prev = none := by
    rw [hlab]; simp only [popNode, setLab, if_true]; exact hlabel a
  obtain ⟨b1, x1', hx1⟩ := rs_defined hc hopen hN hN2 h0 h13 (ef := true) (eb := eb) hxr (kin a) (kin g) hh0
  have hthr : b1 = false ∧ x1'.thr = ⟨n + 1, n, h, h⟩ := by
    obtain ⟨f, hf⟩ := untilDone_ok hx1
    rw [new_eq] at hx
    injection hx with hx
    rcases expand_cases hf with ⟨_, _, ⟨hh, _⟩ | ⟨_, hh⟩⟩ | ⟨at', thr, _, hs, hr⟩
    · cases hh
    · simp only [hka] at hh; cases hh
    · have hs' : expStep n (expInit n junk) h = .ok (at', thr) := by rw [← hx] at hs; exact hs
      unfold expStep expInit at hs'
      simp only [show (-1 : ℝ) < 0 by norm_num, if_true, CRes.pure_eq, CRes.ok.injEq, Prod.mk.injEq] at hs'
      obtain ⟨rfl, rfl⟩ := hs'
      rcases hr with ⟨e1, e2, _⟩ | ⟨e1, _⟩
      · exact ⟨e1, by rw [e2]⟩
      · cases e1
  obtain ⟨rfl, hthr⟩ := hthr
  have hxr1 : ExpReach clamp n true eb x1' := rs_step hxr hh0 hx1
  have hatt : expStep n x1'.thr h = .ok (true, ⟨0, n, h, h⟩) := by
    rw [hthr]
    unfold expStep
    simp only [not_lt.2 hh0, if_false, lt_irrefl, CRes.pure_eq, CRes.ok_bind]
    rw [if_neg (by omega)]
  obtain ⟨f, hf⟩ := expand_complete_box hc hopen hN hN2 hxr1 (map := Sampling.mapIf m) h0 h13 hb
    ⟨⟨(kin a).x, (kin a).y, (kin a).theta⟩, h, (kin a).forward⟩ ⟨⟨(kin g').x, (kin g').y, (kin g').theta⟩, 0, (kin g').forward⟩
    hh0 (by rw [hka]) hatt o o' t1 L t3 p1 pL p3 hsum (by rw [hka, hk2]; rw [hp, hq] at hcen; exact hcen)
    (by rw [hka]; rw [hp] at hc1; exact hc1) (by rw [hk2]; rw [hq] at hc2; exact hc2)
    (by rw [hka, hk2]; rw [hp, hq] at hgoal; exact hgoal) (by rw [hka, hk2]; rw [hp, hq] at hd; exact hd) hcost
  obtain ⟨x2, hx2⟩ := hf f (le_refl _)
  have hx2' : (rsExp clamp n true eb m).expand x1' (kin a) h (kin g') = .ok (true, x2) :=
    untilDone_of (expand_stable _ _ _ _ _ _ _ _) hx2
  have hloop : xLoop (rsExp clamp n true eb m) cfg'.start lab st.kin a cfg'.goal x = .ub := by
    show xLoop (rsExp clamp n true eb m) [a, a'] lab kin a [g, g'] x = .ub
    rw [xLoop, ← hh, hx1]
    simp only [CRes.bind, Bool.false_eq_true, if_false]
    rw [xLoop, ← hh, hx2']
    simp only [CRes.bind, if_true]
    unfold xPath
    cases (rsExp clamp n true eb m).get x2 with
    | nil => rfl
    | cons e es =>
      simp only [backtrackCopy, hprev]
      rfl
  refine ⟨x, ?_⟩
  have hxi : xIterate A (rsExp clamp n true eb m) cfg' st x = .done .ub x := by
    unfold xIterate
    rw [hnext]
    simp only [habt, Bool.false_eq_true, if_false]
    rw [← hlab, hloop]
  rw [hxi]

end
end PathPlanning
