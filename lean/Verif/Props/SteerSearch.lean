import Verif.Lemmas.SteerSearch
import Verif.Props.KinSearchEx

/-!
# Searches with a steering neighbourhood (C70 - C73)
-/

noncomputable section
namespace PathPlanning
open Spec

/-! ### The two neighbourhoods -/

/-- The longest step of `DynamicSteeringNeighborhood` in cells. -/
def DynP.stepLen (P : DynP) : ℝ := max (P.distStep / P.resolution) (abs P.la / P.resolution)

theorem scaled_some {res : ℝ} {r : Option (ℝ × SNode)} {c : ℝ} {k : SNode} :
    scaled res r = some (c, k) ↔ ∃ c0, r = some (c0, k) ∧ 0 ≤ c0 ∧ c = c0 * res := by
  unfold scaled
  cases r with
  | none => simp
  | some p =>
    obtain ⟨c0, s⟩ := p
    simp only
    split_ifs with h
    · constructor
      · intro e; cases e
      · rintro ⟨c1, e, h1, _⟩
        simp only [Option.some.injEq, Prod.mk.injEq] at e
        obtain ⟨rfl, _⟩ := e
        exact absurd h1 (not_le.2 h)
    · simp only [Option.some.injEq, Prod.mk.injEq]
      constructor
      · rintro ⟨rfl, rfl⟩; exact ⟨c0, ⟨rfl, rfl⟩, not_lt.1 h, rfl⟩
      · rintro ⟨c1, ⟨rfl, rfl⟩, _, rfl⟩; exact ⟨rfl, rfl⟩

theorem dynMoves_spec {clamp : ℝ → ℝ} {P : DynP} {so : SOpts} {res : ℝ} {k k' : SNode} {c : ℝ} :
    (∃ mv ∈ dynMoves clamp P so res, ∃ ps, mv k ps = some (c, k')) ↔ ∃ c0, DynAdv clamp P so k c0 k' ∧ c = c0 * res := by
  unfold dynMoves DynAdv
  constructor
  · rintro ⟨mv, hmv, ps, e⟩
    obtain ⟨⟨i, st⟩, hm, rfl⟩ := List.mem_map.1 hmv
    obtain ⟨c0, e1, e2, e3⟩ := scaled_some.1 e
    obtain ⟨h1, h2, h3⟩ := moveList_mem hm
    simp only at h1 h2 h3 e1
    refine ⟨c0, ⟨i, st, ?_, ?_, ?_, h3, e1, e2⟩, e3⟩
    · split_ifs at h2 <;> omega
    · intro hf; simpa [hf] using h1
    · intro hf; simpa [hf] using h2
  · rintro ⟨c0, ⟨i, st, h1, h2, h3, h4, e1, e2⟩, rfl⟩
    refine ⟨_, List.mem_map.2 ⟨(i, st), ?_, rfl⟩, [], scaled_some.2 ⟨c0, e1, e2, rfl⟩⟩
    unfold moveList
    refine List.mem_flatMap.2 ⟨i, ?_, List.mem_map.2 ⟨st, ?_, rfl⟩⟩
    · rw [List.mem_range'_1]
      cases hf : P.allowForward <;> cases hb : P.allowBackward <;> simp [hf, hb] at h2 h3 ⊢ <;> omega
    · rw [List.mem_range]; omega

theorem steerMoves_spec {clamp : ℝ → ℝ} {P : SteerP} {so : SOpts} {garbage : Nat × Nat → Int} {res : ℝ} {k k' : SNode}
    {c : ℝ} (h : ∃ mv ∈ steerMoves clamp P so garbage res, ∃ ps, mv k ps = some (c, k')) :
    ∃ c0, SteerAdv clamp P so k c0 k' ∧ c = c0 * res := by
  obtain ⟨mv, hmv, ps, e⟩ := h
  obtain ⟨⟨i, st⟩, hm, rfl⟩ := List.mem_map.1 hmv
  obtain ⟨c0, e1, e2, e3⟩ := scaled_some.1 e
  obtain ⟨h1, h2, h3⟩ := moveList_mem hm
  exact ⟨c0, ⟨i, st, _, ps, h2, h3, e1, e2⟩, e3⟩

theorem dynMoves_stepBound {clamp : ℝ → ℝ} {P : DynP} {so : SOpts} {res : ℝ} (hd : 0 ≤ P.distStep)
    (hr : 0 < P.resolution) : StepBound (dynMoves clamp P so res) P.stepLen := by
  intro mv hmv k ps c k' e
  obtain ⟨c0, ⟨i, st, _, _, _, _, e1, _⟩, _⟩ := dynMoves_spec.1 ⟨mv, hmv, ps, e⟩
  obtain ⟨_, _, _, _, h' | h'⟩ := dynAdvance_inv e1
  · obtain ⟨_, _, _, _, hx, hy, _⟩ := h'
    refine le_trans (le_of_eq ?_) (le_max_right _ _)
    unfold nodeDist
    rw [hx, hy]
    have : (k.x - (k.x + -P.la / P.resolution * Real.cos k.theta)) ^ 2 +
        (k.y - (k.y + -P.la / P.resolution * Real.sin k.theta)) ^ 2 = (P.la / P.resolution) ^ 2 := by
      have := Real.sin_sq_add_cos_sq k.theta
      calc _ = (P.la / P.resolution) ^ 2 * (Real.sin k.theta ^ 2 + Real.cos k.theta ^ 2) := by ring
        _ = _ := by rw [this]; ring
    rw [this, Real.sqrt_sq_eq_abs, abs_div, abs_of_pos hr]
  · obtain ⟨_, _, hmv, _⟩ := h'
    exact (steerMove_chord clamp _ _ _ hd hr _ _ _ _ _ hmv).trans (le_max_left _ _)

theorem steerMoves_stepBound {clamp : ℝ → ℝ} {P : SteerP} {so : SOpts} {garbage : Nat × Nat → Int} {res : ℝ}
    (hd : 0 ≤ P.distStep) (hr : 0 < P.resolution) : StepBound (steerMoves clamp P so garbage res) P.distPx := by
  intro mv hmv k ps c k' e
  obtain ⟨c0, ⟨i, st, g, ps', _, _, e1, _⟩, _⟩ := steerMoves_spec ⟨mv, hmv, ps, e⟩
  obtain ⟨_, _, _, _, hmv, _⟩ := advance_inv e1
  exact steerMove_chord clamp _ _ _ hd hr _ _ _ _ _ hmv

/-- The costs a search with this neighbourhood can add. -/
def dynCosts (P : DynP) (so : SOpts) (res : ℝ) : List ℝ :=
  open Classical in
  (([P.distPx, P.distPx * so.penaltyTurn, P.distPx * so.penaltyBackward, P.distPx * so.penaltyTurn * so.penaltyBackward,
    abs ((-P.la) / P.resolution) * so.penaltyBackward]).filter (0 ≤ ·)).map (· * res)

def steerCosts (P : SteerP) (so : SOpts) (res : ℝ) : List ℝ :=
  open Classical in
  (([P.distPx, P.distPx * so.penaltyTurn, P.distPx * so.penaltyBackward,
    P.distPx * so.penaltyTurn * so.penaltyBackward]).filter (0 ≤ ·)).map (· * res)

theorem dyn_costOk {clamp : ℝ → ℝ} {P : DynP} {distThr angThr : ℝ} {m : GridMap ℝ} {skips : Nat} {b : Bres ℝ}
    {S : SteerCfg} (hres : 0 ≤ m.res) :
    KCostOk (dynSteerAlgo clamp P distThr angThr m skips b S) (dynCosts P S.so m.res) where
  costs mv hmv k ps c k' e := by
    classical
    obtain ⟨c0, ⟨i, st, _, _, _, _, e1, e2⟩, rfl⟩ := dynMoves_spec.1 ⟨mv, hmv, ps, e⟩
    unfold dynCosts
    refine List.mem_map.2 ⟨c0, List.mem_filter.2 ⟨?_, by simpa using e2⟩, rfl⟩
    obtain ⟨_, _, _, _, h' | h'⟩ := dynAdvance_inv e1
    · rw [h'.2.2.2.2.2.2.2.2.2]; simp
    · rw [h'.2.2.2.2.2]; split_ifs <;> simp
  infl c hc a := by
    classical
    unfold dynCosts at hc
    obtain ⟨c0, h0, rfl⟩ := List.mem_map.1 hc
    have : 0 ≤ c0 := by simpa using (List.mem_filter.1 h0).2
    show a ≤ a + c0 * m.res
    have := mul_nonneg this hres
    linarith
  mono a b c h := by
    show a + c ≤ b + c
    linarith

theorem steer_costOk {clamp : ℝ → ℝ} {P : SteerP} {distance : Int} {garbage : Nat × Nat → Int} {m : GridMap ℝ}
    {skips : Nat} {b : Bres ℝ} {S : SteerCfg} (hres : 0 ≤ m.res) :
    KCostOk (steerAlgo clamp P distance garbage m skips b S) (steerCosts P S.so m.res) where
  costs mv hmv k ps c k' e := by
    classical
    obtain ⟨c0, ⟨i, st, g, ps', _, _, e1, e2⟩, rfl⟩ := steerMoves_spec ⟨mv, hmv, ps, e⟩
    unfold steerCosts
    refine List.mem_map.2 ⟨c0, List.mem_filter.2 ⟨?_, by simpa using e2⟩, rfl⟩
    obtain ⟨_, _, _, _, _, _, _, _, _, hc⟩ := advance_inv e1
    rw [hc]; split_ifs <;> simp
  infl c hc a := by
    classical
    unfold steerCosts at hc
    obtain ⟨c0, h0, rfl⟩ := List.mem_map.1 hc
    have : 0 ≤ c0 := by simpa using (List.mem_filter.1 h0).2
    show a ≤ a + c0 * m.res
    have := mul_nonneg this hres
    linarith
  mono a b c h := by
    show a + c ≤ b + c
    linarith

/-! ### Translation of the general notions -/

section
variable {clamp : ℝ → ℝ} {m : GridMap ℝ} {skips : Nat} {b : Bres ℝ} {S : SteerCfg} {pd : Nat}
  {mvs : List (SNode → List SNode → Option (ℝ × SNode))} {isg : SNode → SNode → Option SNode → Bool} {D : ℝ}
  {adv : SNode → ℝ → SNode → Prop} {cs : List ℝ}
  {O : OpenList (PadCell m.width m.height) ℝ} {cfg : SCfg (PadCell m.width m.height) ℝ}

/-- The moves of a neighbourhood are steps offered by `adv`, with the cost multiplied by the resolution. -/
def Offers (mvs : List (SNode → List SNode → Option (ℝ × SNode))) (adv : SNode → ℝ → SNode → Prop) (res : ℝ) : Prop :=
  ∀ k k' c, (∃ mv ∈ mvs, ∃ ps, mv k ps = some (c, k')) → ∃ c0, adv k c0 k' ∧ c = c0 * res

theorem legal_road (hm : SteerMapOk m D) (hs : StepBound mvs D) (ho : Offers mvs adv m.res) {k k' : SNode} {c : ℝ}
    (hk : InsidePad m.width m.height k) (hl : LegalStep (padAlgo clamp m skips b S mvs pd isg) k c k') :
    ∃ c0, RoadStep adv m skips k c0 k' ∧ c = c0 * m.res := by
  obtain ⟨mv, hmv, ps, e, hu⟩ := hl
  obtain ⟨c0, ha, hcc⟩ := ho k k' c ⟨mv, hmv, ps, e⟩
  obtain ⟨u, h1, h2⟩ := steerUsable_iff hm skips b hk (intNode_of_step hm hk (hs mv hmv _ _ _ _ e))
  have hu' : steerUsable m skips b k k' = .ok true := hu
  rw [h1] at hu'
  injection hu' with hu'
  obtain ⟨h3, h4⟩ := h2.1 hu'
  refine ⟨c0, ⟨ha, ?_, h4⟩, hcc⟩
  unfold InsidePad OnEdge
  omega

/-- A search that got past its initialisation. -/
structure Started (clamp : ℝ → ℝ) (m : GridMap ℝ) (start goal : Pose) (sp s gp g : List (PadCell m.width m.height)) : Prop where
  init : padInit clamp m start goal = .ok (sp, s, gp, g)
  hsp : poseCells start sp
  hgp : poseCells goal gp
  hs : ∀ n, n ∈ s ↔ n ∈ sp ∧ ptOccupied m n.x n.y = .ok false
  hg : ∀ n, n ∈ g ↔ n ∈ gp ∧ ptOccupied m n.x n.y = .ok false

variable {start goal : Pose} {sp s gp g : List (PadCell m.width m.height)}

theorem poseCells_mem {w h : Nat} {p : Pose} {ns : List (PadCell w h)} (hp : poseCells p ns) (n : PadCell w h) :
    n ∈ ns ↔ n.x = ⌊p.x⌋ ∧ n.y = ⌊p.y⌋ ∧ n.t = 15 := by
  obtain ⟨a, c, rfl, ⟨a1, a2, a3, a4⟩, ⟨c1, c2, c3, c4⟩⟩ := hp
  simp only [List.mem_cons, List.not_mem_nil, or_false]
  constructor
  · rintro (rfl | rfl)
    · exact ⟨a1, a2, a3⟩
    · exact ⟨c1, c2, c3⟩
  · rintro ⟨h1, h2, h3⟩
    cases hf : n.fwd with
    | true => left; exact PadCell.ext' (h1.trans a1.symm) (h2.trans a2.symm) (h3.trans a3.symm) (hf.trans a4.symm)
    | false => right; exact PadCell.ext' (h1.trans c1.symm) (h2.trans c2.symm) (h3.trans c3.symm) (hf.trans c4.symm)

theorem Started.startPose (h : Started clamp m start goal sp s gp g) {n : PadCell m.width m.height} (hn : n ∈ s) :
    StartPose start goal (padContent sp s gp g start goal n) := by
  obtain ⟨h1, h2⟩ := (h.hs n).1 hn
  obtain ⟨e1, e2, e3⟩ := (poseCells_mem h.hsp n).1 h1
  refine ⟨?_, ?_, rfl, rfl, rfl, ?_⟩
  · show ((n.x : Int) : ℝ) = _; rw [e1]
  · show ((n.y : Int) : ℝ) = _; rw [e2]
  · have hiff : n ∈ g ↔ ⌊start.x⌋ = ⌊goal.x⌋ ∧ ⌊start.y⌋ = ⌊goal.y⌋ := by
      rw [h.hg, poseCells_mem h.hgp, e1, e2]
      exact ⟨fun q => ⟨q.1.1, q.1.2.1⟩, fun q => ⟨⟨q.1, q.2, e3⟩, by rw [e1, e2] at h2; exact h2⟩⟩
    simp only [padContent, hn, if_true, hiff]

theorem Started.reach (hc : ClampSpec clamp) (hm : SteerMapOk m D) (hs : StepBound mvs D) (ho : Offers mvs adv m.res)
    (h : Started clamp m start goal sp s gp g) {k : SNode}
    (hr : Reachable (padAlgo clamp m skips b S mvs pd isg) s (padContent sp s gp g start goal) k) :
    RoadReach adv m skips start goal k := by
  induction hr with
  | start hn => exact .start (h.startPose hn)
  | step hr hl hn ih =>
    have hi := reachable_inside hc hm (fun _ _ => padContent_inside _) hr
    obtain ⟨c0, h1, _⟩ := legal_road hm hs ho hi hl
    exact .step ih h1 (inside_of_lookup hc hm.sizes.1 hm.sizes.2 hn)

theorem sameState_of_sameCell (hc : ClampSpec clamp) (hm : SteerMapOk m D) {k k' : SNode}
    (h : SameCell (padAlgo clamp m skips b S mvs pd isg) k k') : SameState clamp k k' := by
  obtain ⟨n, h1, h2⟩ := h
  obtain ⟨a1, a2, a3, a4⟩ := (steerLookup_iff hc hm.sizes.1 hm.sizes.2).1 h1
  obtain ⟨b1, b2, b3, b4⟩ := (steerLookup_iff hc hm.sizes.1 hm.sizes.2).1 h2
  exact ⟨by omega, by omega, by rw [← a4, b4], by rw [a3, b3]⟩

theorem append_last {α : Type} {l l' : List α} {a b : α} (h : l ++ [a] = l' ++ [b]) : l = l' ∧ a = b := by
  simpa using List.append_inj' h rfl

/-- The last pair of a list, or an earlier one. -/
theorem infix_snoc {α : Type} {a b k : α} {l : List α} (h : [a, b] <:+: l ++ [k]) :
    [a, b] <:+: l ∨ (b = k ∧ ∃ l', l = l' ++ [a]) := by
  obtain ⟨p, q, e⟩ := h
  rcases List.eq_nil_or_concat q with rfl | ⟨q', z, rfl⟩
  · right
    have : (p ++ [a]) ++ [b] = l ++ [k] := by simpa using e
    obtain ⟨e1, e2⟩ := append_last this
    exact ⟨e2, p, e1.symm⟩
  · left
    have : (p ++ [a, b] ++ q') ++ [z] = l ++ [k] := by simpa using e
    exact ⟨p, q', (append_last this).1⟩

theorem cellTrace_pairs {N K C : Type} {A : KAlgo N K C} {st : List N} {kin0 : N → K} {q : List K} {d : C}
    (h : CellTrace A st kin0 q d) :
    (∀ x y, [x, y] <:+: q → ∃ x' c, (x' = x ∨ (SameCell A x' x ∧ Reachable A st kin0 x')) ∧ LegalStep A x' c y) ∧
    ∀ x y, [x, y] <+: q → ∃ c, LegalStep A x c y := by
  induction h with
  | start hs =>
    constructor
    · intro x y hx; exact absurd hx.length_le (by simp)
    · intro x y hx; exact absurd hx.length_le (by simp)
  | @exact l k c k' d _ hl ih =>
    constructor
    · intro x y hx
      rcases infix_snoc hx with hx | ⟨rfl, l', e⟩
      · exact ih.1 x y hx
      · obtain ⟨_, rfl⟩ := append_last e
        exact ⟨k, c, .inl rfl, hl⟩
    · intro x y hx
      cases l with
      | nil =>
        obtain ⟨r, e⟩ := hx
        simp only [List.nil_append, List.cons_append, List.cons.injEq] at e
        obtain ⟨rfl, rfl, _⟩ := e
        exact ⟨c, hl⟩
      | cons z l =>
        apply ih.2 x y
        obtain ⟨r, e⟩ := hx
        cases l with
        | nil => simp at e; obtain ⟨rfl, rfl, _⟩ := e; exact ⟨[], by simp⟩
        | cons z2 l => simp at e; obtain ⟨rfl, rfl, _⟩ := e; exact ⟨l ++ [k], by simp⟩
  | @jump l k k1 c k' d _ hne hsc hre hl ih =>
    constructor
    · intro x y hx
      rcases infix_snoc hx with hx | ⟨rfl, l', e⟩
      · exact ih.1 x y hx
      · obtain ⟨_, rfl⟩ := append_last e
        exact ⟨k1, c, .inr ⟨hsc, hre⟩, hl⟩
    · intro x y hx
      cases l with
      | nil => exact absurd rfl hne
      | cons z l =>
        apply ih.2 x y
        obtain ⟨r, e⟩ := hx
        cases l with
        | nil => simp at e; obtain ⟨rfl, rfl, _⟩ := e; exact ⟨[], by simp⟩
        | cons z2 l => simp at e; obtain ⟨rfl, rfl, _⟩ := e; exact ⟨l ++ [k], by simp⟩

theorem drive_pairs {N K C : Type} {A : KAlgo N K C} {q : List K} {d : C} (h : Drive A q d) :
    ∀ x y, [x, y] <:+: q → ∃ c, LegalStep A x c y := by
  induction h with
  | start k => intro x y hx; exact absurd hx.length_le (by simp)
  | @step l k c k' d mv _ hmv hm hu ih =>
    intro x y hx
    rcases infix_snoc hx with hx | ⟨rfl, l', e⟩
    · exact ih x y hx
    · obtain ⟨_, rfl⟩ := append_last e
      exact ⟨c, mv, hmv, _, hm, hu⟩

/-! ### General theorems for searches on the chunk manager -/

/-- Every search ends, without undefined behaviour; it throws only if start or goal do not lie on the padded map (or on its
outermost left or bottom line), or if a legal step leads onto these lines. -/
theorem pad_search_ends (hc : ClampSpec clamp) (hm : SteerMapOk m D) (hs : StepBound mvs D) (ho : Offers mvs adv m.res)
    (ok : KCostOk (padAlgo clamp m skips b S mvs pd isg) cs) (L : Lawful O) (ht : TopOk cfg.top)
    (h1 : IntPose start) (h2 : IntPose goal) :
    ∃ fuel r, padFindPath clamp (padAlgo clamp m skips b S mvs pd isg) O cfg start goal fuel = some r ∧ r ≠ .ub ∧
      ∀ e, r = .throw e → (e = "OutsideMapException" ∨ e = "std::out_of_range") ∧
        (¬ InsidePad m.width m.height ⟨start.x, start.y, 0, true, 0, 0, 0⟩ ∨
          ¬ InsidePad m.width m.height ⟨goal.x, goal.y, 0, true, 0, 0, 0⟩ ∨
          ∃ k c k', RoadReach adv m skips start goal k ∧ RoadStep adv m skips k c k' ∧ OnEdge m.width m.height k') := by
  rcases padInit_cases hc hm h1 h2 with ⟨sp, s, gp, g, e, p1, p2, p3, p4⟩ | ⟨e, he, h3, h4⟩
  · have hst : Started clamp m start goal sp s gp g := ⟨e, p1, p2, p3, p4⟩
    obtain ⟨fuel, r, q1, q2, q3⟩ := kin_search_ends (P := O) (cfg := { cfg with start := s, goal := g })
      (kin0 := padContent sp s gp g start goal) ok L ht
    refine ⟨fuel, r, ?_, ?_, ?_⟩
    · unfold padFindPath; rw [e]; exact q1
    · intro hr
      exact pad_no_ub hc hm hs (fun _ _ => padContent_inside _) (q3 hr)
    · intro e' hr
      obtain ⟨t1, k, c, k', t2, t3, t4⟩ := pad_throws hc hm hs (fun _ _ => padContent_inside _) (q2 e' hr)
      obtain ⟨c0, t5, _⟩ := legal_road hm hs ho (reachable_inside hc hm (fun _ _ => padContent_inside _) t2) t3
      exact ⟨t1, .inr (.inr ⟨k, c0, k', hst.reach hc hm hs ho t2, t5, t4⟩)⟩
  · refine ⟨0, .throw e, ?_, by simp, ?_⟩
    · unfold padFindPath; rw [he]
    · intro e' hr
      cases hr
      exact ⟨h3, h4.elim .inl (fun h => .inr (.inl h))⟩

theorem padFindPath_ok (hc : ClampSpec clamp) (hm : SteerMapOk m D) {A : KAlgo (PadCell m.width m.height) SNode ℝ}
    (h1 : IntPose start) (h2 : IntPose goal) {fuel : Nat} {q : List SNode}
    (h : padFindPath clamp A O cfg start goal fuel = some (.ok q)) :
    ∃ sp s gp g, Started clamp m start goal sp s gp g ∧
      kFindPath A O { cfg with start := s, goal := g } (padContent sp s gp g start goal) fuel = some (.ok q) := by
  rcases padInit_cases hc hm h1 h2 with ⟨sp, s, gp, g, e, p1, p2, p3, p4⟩ | ⟨e, he, _⟩
  · refine ⟨sp, s, gp, g, ⟨e, p1, p2, p3, p4⟩, ?_⟩
    unfold padFindPath at h
    rw [e] at h
    exact h
  · unfold padFindPath at h
    rw [he] at h
    simp at h

theorem Started.goalMet (hc : ClampSpec clamp) (hm : SteerMapOk m D) (hs : StepBound mvs D) (ho : Offers mvs adv m.res)
    (h : Started clamp m start goal sp s gp g) {k : SNode} {w : ℝ}
    (hg : GoalMet (padAlgo clamp m skips b S mvs pd isg) s g (padContent sp s gp g start goal) k w) :
    RoadReach adv m skips start goal k ∧
      ∃ kg pv, isg kg k pv = true ∧ w = nodeDist kg k ∧ GoalPose clamp adv m skips start goal kg := by
  obtain ⟨hr, n, hn, kg, pv, e1, e2, e3⟩ := hg
  refine ⟨h.reach hc hm hs ho hr, kg, pv, e1, e2, ?_⟩
  obtain ⟨h1, h2⟩ := (h.hg n).1 hn
  obtain ⟨c1, c2, c3⟩ := (poseCells_mem h.hgp n).1 h1
  rcases e3 with rfl | ⟨e3, e4⟩
  · left
    refine ⟨?_, ?_, ?_, rfl, rfl, rfl⟩
    · show ((n.x : Int) : ℝ) = _; rw [c1]
    · show ((n.y : Int) : ℝ) = _; rw [c2]
    · simp only [padContent, hn, if_true]
  · right
    have e3' : steerLookup clamp m.width m.height kg = .ok (some n) := e3
    obtain ⟨a1, a2, a3, _⟩ := (steerLookup_iff hc hm.sizes.1 hm.sizes.2).1 e3'
    exact ⟨h.reach hc hm hs ho e4, by omega, by omega, by rw [a3, c3]⟩

/-- What a returned path is. -/
theorem pad_path (hc : ClampSpec clamp) (hm : SteerMapOk m D) (hs : StepBound mvs D) (ho : Offers mvs adv m.res)
    (ok : KCostOk (padAlgo clamp m skips b S mvs pd isg) cs) (L : Lawful O) (ht : TopOk cfg.top)
    (h1 : IntPose start) (h2 : IntPose goal) {fuel : Nat} {q : List SNode}
    (h : padFindPath clamp (padAlgo clamp m skips b S mvs pd isg) O cfg start goal fuel = some (.ok q)) (hne : q ≠ []) :
    (∃ k0, q.head? = some k0 ∧ StartPose start goal k0) ∧
    (∀ k ∈ q, RoadReach adv m skips start goal k) ∧
    (∀ x y, [x, y] <:+: q → ∃ x' c, SameState clamp x' x ∧ RoadReach adv m skips start goal x' ∧ RoadStep adv m skips x' c y) ∧
    (∀ x y, [x, y] <+: q → ∃ c, RoadStep adv m skips x c y) ∧
    q.length ≤ (m.width + 63) * (m.height + 63) * 64 ∧
    ∃ kl, q.getLast? = some kl ∧ ∃ k kg pv, SameState clamp k kl ∧ (cfg.useCands = false → k = kl) ∧
      RoadReach adv m skips start goal k ∧ isg kg k pv = true ∧ GoalPose clamp adv m skips start goal kg := by
  obtain ⟨sp, s, gp, g, hst, hk⟩ := padFindPath_ok hc hm h1 h2 h
  obtain ⟨⟨d, t1⟩, ⟨n, hn, t2⟩, t3, t4, kl, t5, ⟨k, w, t6, t7⟩, t8⟩ := kin_path (cfg := { cfg with start := s, goal := g }) ok L ht hk hne
  have hin : ∀ k, Reachable (padAlgo clamp m skips b S mvs pd isg) s (padContent sp s gp g start goal) k →
      InsidePad m.width m.height k := fun k hr => reachable_inside hc hm (fun _ _ => padContent_inside _) hr
  obtain ⟨p1, p2⟩ := cellTrace_pairs t1
  refine ⟨⟨_, t2, hst.startPose hn⟩, fun k hk => hst.reach hc hm hs ho (t3 k hk), ?_, ?_, ?_, kl, t5, ?_⟩
  · intro x y hxy
    obtain ⟨x', c, hx, hl⟩ := p1 x y hxy
    have hrx : Reachable (padAlgo clamp m skips b S mvs pd isg) s (padContent sp s gp g start goal) x' := by
      rcases hx with rfl | hx
      · exact t3 x' (hxy.subset (by simp))
      · exact hx.2
    obtain ⟨c0, hr, _⟩ := legal_road hm hs ho (hin x' hrx) hl
    refine ⟨x', c0, ?_, hst.reach hc hm hs ho hrx, hr⟩
    rcases hx with rfl | hx
    · exact ⟨rfl, rfl, rfl, rfl⟩
    · exact sameState_of_sameCell hc hm hx.1
  · intro x y hxy
    obtain ⟨c, hl⟩ := p2 x y hxy
    obtain ⟨c0, hr, _⟩ := legal_road hm hs ho (hin x (t3 x (hxy.subset (by simp)))) hl
    exact ⟨c0, hr⟩
  · refine t4.trans (le_of_eq ?_)
    simp only [Fintype.card_prod, Fintype.card_fin, Fintype.card_bool]
    ring
  · by_cases hu : cfg.useCands = false
    · obtain ⟨w', hg⟩ := t8 hu
      obtain ⟨r1, kg, pv, r2, _, r3⟩ := hst.goalMet hc hm hs ho hg
      exact ⟨kl, kg, pv, ⟨rfl, rfl, rfl, rfl⟩, fun _ => rfl, r1, r2, r3⟩
    · obtain ⟨r1, kg, pv, r2, _, r3⟩ := hst.goalMet hc hm hs ho t6
      refine ⟨k, kg, pv, ?_, fun e => absurd e hu, r1, r2, r3⟩
      rcases t7 with rfl | t7
      · exact ⟨rfl, rfl, rfl, rfl⟩
      · exact sameState_of_sameCell hc hm t7

/-- Without heuristic every step of a returned path begins at the pose before it. -/
theorem pad_exact (hc : ClampSpec clamp) (hm : SteerMapOk m D) (hs : StepBound mvs D) (ho : Offers mvs adv m.res)
    (ok : KCostOk (padAlgo clamp m skips b S mvs pd isg) cs) (L : Lawful O) (M : MinFirst O) (ht : TopOk cfg.top)
    (hheur : ∀ k g, S.heur k g = 0) (hhg : cfg.heurGoal = none) (h1 : IntPose start) (h2 : IntPose goal) {fuel : Nat} {q : List SNode}
    (h : padFindPath clamp (padAlgo clamp m skips b S mvs pd isg) O cfg start goal fuel = some (.ok q)) :
    (∀ x y, [x, y] <:+: q → ∃ c, RoadStep adv m skips x c y) ∧
    ∀ kl, q.getLast? = some kl → ∃ kg pv, isg kg kl pv = true ∧ GoalPose clamp adv m skips start goal kg := by
  by_cases hne : q = []
  · subst hne
    exact ⟨fun x y hx => absurd hx.length_le (by simp), by simp⟩
  obtain ⟨sp, s, gp, g, hst, hk⟩ := padFindPath_ok hc hm h1 h2 h
  obtain ⟨_, _, t3, _⟩ := kin_path (cfg := { cfg with start := s, goal := g }) ok L ht hk hne
  obtain ⟨⟨d, t1⟩, _, kl, w, t5, t6⟩ := kin_exact_without_heuristic (cfg := { cfg with start := s, goal := g }) ok L M ht hheur hhg (fun a => add_zero a) hk hne
  constructor
  · intro x y hxy
    obtain ⟨c, hl⟩ := drive_pairs t1 x y hxy
    obtain ⟨c0, hr, _⟩ := legal_road hm hs ho
      (reachable_inside hc hm (fun _ _ => padContent_inside _) (t3 x (hxy.subset (by simp)))) hl
    exact ⟨c0, hr⟩
  · intro kl' hkl
    rw [t5] at hkl
    cases hkl
    obtain ⟨_, kg, pv, r2, _, r3⟩ := hst.goalMet hc hm hs ho t6
    exact ⟨kg, pv, r2, r3⟩

end
end PathPlanning
