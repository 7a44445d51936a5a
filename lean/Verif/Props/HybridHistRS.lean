import Verif.Props.HybridHist
import Verif.Props.HybridEx
import Verif.Props.SteerHistory2

/-!
# C105: later steering searches with Reeds-Shepp expansion
-/

noncomputable section
namespace PathPlanning
open Spec RSExp

section
variable {clamp : ℝ → ℝ} {m : GridMap ℝ} {skips : Nat} {b : Bres ℝ} {S : SteerCfg} {pd : Nat}
  {mvs : List (SNode → List SNode → Option (ℝ × SNode))} {isg : SNode → SNode → Option SNode → Bool} {D : ℝ}
  {adv : SNode → ℝ → SNode → Prop} {cs : List ℝ}
  {O : OpenList (PadCell m.width m.height) ℝ} {cfg : SCfg (PadCell m.width m.height) ℝ} {start goal : Pose}
  {lab : Labels (PadCell m.width m.height) ℝ} {old : PadCell m.width m.height → SNode}
  {n : Int} {ef eb : Bool} {X : Type} {E : KExp X SNode ℝ}

/-- After `setMap` this is the search of `Model/HybridSearch.lean`. -/
theorem padFindXOn_fresh (A : KAlgo (PadCell m.width m.height) SNode ℝ) (x : X) (fuel : Nat) :
    (padFindXOn clamp A E O cfg (fun _ => Label.fresh A.zero) initContent start goal x fuel).map (fun y => (y.1, y.2.2)) =
      padFindPathX clamp A E O cfg start goal x fuel := by
  have e : padInitOn clamp m initContent start goal = padInit clamp m start goal := by
    unfold padInitOn padInit
    simp only [notOccupiedOn_init]
  unfold padFindXOn padFindPathX
  rw [e]
  cases padInit clamp m start goal with
  | throw e => rfl
  | ub => rfl
  | ok y =>
    obtain ⟨sp, s, gp, g⟩ := y
    simp only
    have hcon : padContentOn initContent sp s gp g start goal = padContent sp s gp g start goal := by
      funext n
      simp [padContentOn, padContent, initContent]
    rw [hcon, xFindOn_fresh, Option.map_map]
    rfl

/-- The cell of a start or goal node is tested. -/
theorem StartedOn.free (hi : InCell old) {v : PadCell m.width m.height}
    (h : ptOccupied m (truncC (old v).x) (truncC (old v).y) = .ok false) : ptOccupied m v.x v.y = .ok false := by
  obtain ⟨i1, i2⟩ := hi v
  by_cases hx : v.x < 0
  · unfold ptOccupied; rw [if_pos (.inl hx)]
  by_cases hy : v.y < 0
  · unfold ptOccupied; rw [if_pos (.inr (.inl hy))]
  have hx' : (0 : ℝ) ≤ (old v).x := Int.floor_nonneg.1 (by omega)
  have hy' : (0 : ℝ) ≤ (old v).y := Int.floor_nonneg.1 (by omega)
  rw [truncC_nonneg hx', truncC_nonneg hy', i1, i2] at h
  exact h

variable {sp s gp g : List (PadCell m.width m.height)}

theorem StartedOn.startFree (hi : InCell old) (hst : StartedOn clamp m old start goal sp s gp g) {v : PadCell m.width m.height}
    (hv : v ∈ s) : ptOccupied m ⌊start.x⌋ ⌊start.y⌋ = .ok false := by
  obtain ⟨h1, h2⟩ := (hst.hs v).1 hv
  obtain ⟨c1, c2, _⟩ := (poseCells_mem hst.hsp v).1 h1
  rw [← c1, ← c2]; exact StartedOn.free hi h2

theorem StartedOn.goalFree (hi : InCell old) (hst : StartedOn clamp m old start goal sp s gp g) {v : PadCell m.width m.height}
    (hv : v ∈ g) : ptOccupied m ⌊goal.x⌋ ⌊goal.y⌋ = .ok false := by
  obtain ⟨h1, h2⟩ := (hst.hg v).1 hv
  obtain ⟨c1, c2, _⟩ := (poseCells_mem hst.hgp v).1 h1
  rw [← c1, ← c2]; exact StartedOn.free hi h2

theorem StartedOn.goalPose (hc : ClampSpec clamp) (hm : SteerMapOk m D) (hs : StepBound mvs D) (ho : Offers mvs adv m.res)
    (hi : InCell old) (hst : StartedOn clamp m old start goal sp s gp g) {kg : SNode}
    (h : ∃ v ∈ g, kg = padContentOn old sp s gp g start goal v ∨ (steerLookup clamp m.width m.height kg = .ok (some v) ∧
      Reachable (padAlgo clamp m skips b S mvs pd isg) s (padContentOn old sp s gp g start goal) kg)) :
    LaterGoal clamp adv m skips (LaterStart old start goal) goal kg := by
  obtain ⟨v, hv, e3⟩ := h
  obtain ⟨g1, _⟩ := (hst.hg v).1 hv
  obtain ⟨c1, c2, c3⟩ := (poseCells_mem hst.hgp v).1 g1
  rcases e3 with rfl | ⟨e3, e4⟩
  · refine ⟨?_, ?_, .inl ?_⟩
    · rw [← c1]; exact (hi v).1
    · rw [← c2]; exact (hi v).2
    · simp only [padContentOn, hv, if_true]
  · obtain ⟨a1, a2, a3, _⟩ := (steerLookup_iff hc hm.sizes.1 hm.sizes.2).1 e3
    exact ⟨by omega, by omega, .inr ⟨hst.reach hc hm hs ho hi e4, by rw [a3, c3]⟩⟩

/-- **C105 (histories).**  A search with expansion, whatever its result, gives a used object. -/
theorem padUsed_findX (hc : ClampSpec clamp) (hm : SteerMapOk m D) (ok : KCostOk (padAlgo clamp m skips b S mvs pd isg) cs)
    (L : Lawful O) (ht : TopOk cfg.top) (hu : PadUsed (padAlgo clamp m skips b S mvs pd isg) O lab old) {x x' : X} {fuel : Nat} {r st}
    (h : padFindXOn clamp (padAlgo clamp m skips b S mvs pd isg) E O cfg lab old start goal x fuel = some (r, some st, x')) :
    PadUsed (padAlgo clamp m skips b S mvs pd isg) O st.s.lab st.kin := by
  obtain ⟨⟨Ss, hku⟩, hi⟩ := padUsed_spec hc hm ok L hu
  unfold padFindXOn at h
  cases hin : padInitOn clamp m old start goal with
  | throw e => rw [hin] at h; simp at h
  | ub => rw [hin] at h; simp at h
  | ok y =>
    obtain ⟨sp, s, gp, g⟩ := y
    rw [hin] at h
    simp only [Option.map_eq_some_iff] at h
    obtain ⟨⟨r', st', x1⟩, h3, h4⟩ := h
    simp only [Prod.mk.injEq, Option.some.injEq] at h4
    obtain ⟨_, rfl, _⟩ := h4
    obtain ⟨⟨pc, hd⟩, _⟩ := later_hybrid (cfg := { cfg with start := s, goal := g }) ok L ht hku h3
    exact .left hu (fun n => padContentOn_written n) rfl rfl rfl rfl hd

/-- **C105 (later steering searches with Reeds-Shepp expansion end).** -/
theorem later_pad_hybrid_ends (hc : ClampSpec clamp) (hm : SteerMapOk m D)
    (ok : KCostOk (padAlgo clamp m skips b S mvs pd isg) cs) (L : Lawful O) (ht : TopOk cfg.top)
    (h1 : IntPose start) (h2 : IntPose goal) (hu : PadUsed (padAlgo clamp m skips b S mvs pd isg) O lab old) (x : X) :
    ∃ fuel y, padFindXOn clamp (padAlgo clamp m skips b S mvs pd isg) E O cfg lab old start goal x fuel = some y := by
  obtain ⟨⟨Ss, hku⟩, hi⟩ := padUsed_spec hc hm ok L hu
  unfold padFindXOn
  rcases padInitOn_cases (old := old) hc hm h1 h2 with ⟨sp, s, gp, g, hst⟩ | ⟨e, he, _⟩
  · obtain ⟨fuel, y, hy⟩ := later_hybrid_ends (E := E) (cfg := { cfg with start := s, goal := g })
      (kin0 := padContentOn old sp s gp g start goal) ok L ht hku x
    exact ⟨fuel, _, by rw [hst.init]; simp only; rw [hy]; rfl⟩
  · exact ⟨0, _, by rw [he]⟩

/-- **C105 (what they return).**  After any history of searches, with or without expansion: the search ends exactly as a search without
expansion on the same nodes, or it returns a path of legal steps of this search whose last part is a forward way to the goal, or a
forward way led from the start pose itself to the goal: then the result is undefined behaviour, or the way, possibly after poses of
earlier searches. -/
theorem later_pad_hybrid (hc : ClampSpec clamp) (hopen : ∀ t, -Real.pi < clamp t) (hm : SteerMapOk m D) (hs : StepBound mvs D)
    (ho : Offers mvs adv m.res)
    (ok : KCostOk (padAlgo clamp m skips b S mvs pd isg) cs) (L : Lawful O) (ht : TopOk cfg.top)
    (hN : 0 ≤ n) (hN2 : n < 2147483648) (h0 : 0 < m.res) (h13 : m.res ≤ 13 / 10) (hheur : ∀ a b, 0 ≤ S.heur a b)
    (h1 : IntPose start) (h2 : IntPose goal) (hu : PadUsed (padAlgo clamp m skips b S mvs pd isg) O lab old)
    {x x' : St} (hx : ExpReach clamp n ef eb x) {fuel : Nat} {r : CRes (List SNode)} {st}
    (h : padFindXOn clamp (padAlgo clamp m skips b S mvs pd isg) (rsExp clamp n ef eb m) O cfg lab old start goal x fuel =
      some (r, st, x')) :
    (ExpReach clamp n ef eb x' ∧
      ∃ f', padFindOn clamp (padAlgo clamp m skips b S mvs pd isg) O cfg lab old start goal f' = some (r, st)) ∨
    (ExpReach clamp n ef eb x' ∧ ef = true ∧ ∃ q, r = .ok q ∧
      LaterHybridPath clamp adv m skips (LaterStart old start goal) start goal q) ∨
    (ef = true ∧ (r ≠ .ub → ExpReach clamp n ef eb x') ∧ LaterStartWay clamp adv m skips (LaterStart old start goal) start goal r ∧
      ((∀ v, v.x = ⌊start.x⌋ → v.y = ⌊start.y⌋ → (lab v).prev = none) → r = .ub)) := by
  obtain ⟨⟨Ss, hku⟩, hi⟩ := padUsed_spec hc hm ok L hu
  rcases padInitOn_cases (old := old) hc hm h1 h2 with ⟨sp, s, gp, g, hst⟩ | ⟨e, he, _⟩
  swap
  · unfold padFindXOn at h
    rw [he] at h
    simp only [Option.some.injEq, Prod.mk.injEq] at h
    obtain ⟨rfl, rfl, rfl⟩ := h
    exact .inl ⟨hx, 0, by unfold padFindOn; rw [he]⟩
  unfold padFindXOn at h
  rw [hst.init] at h
  simp only [Option.map_eq_some_iff] at h
  obtain ⟨⟨r', st', x1'⟩, h3, h4⟩ := h
  simp only [Prod.mk.injEq] at h4
  obtain ⟨rfl, rfl, rfl⟩ := h4
  obtain ⟨_, _, q2⟩ := later_hybrid (cfg := { cfg with start := s, goal := g }) ok L ht hku h3
  have hH : ∀ h, (∃ a c, h = (padAlgo clamp m skips b S mvs pd isg).heur a c) → 0 ≤ h := by
    rintro h ⟨a, c, rfl⟩; exact hheur a c
  have hreach : ∀ {x1 k h kg}, AskedFor (padAlgo clamp m skips b S mvs pd isg) (rsExp clamp n ef eb m) s g
      (padContentOn old sp s gp g start goal) x x1 k h kg → ExpReach clamp n ef eb x1 ∧ 0 ≤ h ∧
      RoadFrom adv m skips (LaterStart old start goal) k ∧ LaterGoal clamp adv m skips (LaterStart old start goal) goal kg := by
    intro x1 k h kg ha
    refine ⟨rs_calls hH hx ha.calls, ?_, hst.reach hc hm hs ho hi ha.reach, hst.goalPose hc hm hs ho hi ha.goal⟩
    obtain ⟨c, rfl⟩ := ha.heur
    exact hheur _ _
  rcases q2 with ⟨c1, f', r0, c2, c3⟩ | ⟨e', r1, x1, k, h, kg, c1, c2⟩ | ⟨r1, c1⟩ |
    ⟨x2, ⟨x1, v, h, kg, e1, es, hv, c1, c2, c3, c4, c5⟩, c6⟩ |
    ⟨q, k, kg, r1, x1, h, l, e1, es, c1, c2, c3, c4, c5, c6, c7, c8, c9, _⟩
  · refine .inl ⟨rs_calls hH hx c1, f', ?_⟩
    unfold padFindOn
    rw [hst.init]
    simp only
    rw [c2, c3]
    cases r0 <;> rfl
  · obtain ⟨u1, u2, _⟩ := hreach c1
    obtain ⟨bb, y, hy⟩ := rs_defined hc hopen hN hN2 h0 h13 (ef := ef) (eb := eb) u1 k kg u2
    rw [hy] at c2; cases c2
  · rcases c1 with ⟨x1, k, h, kg, c1, c2⟩ | ⟨x1, k, h, kg, c1, x2, c2, c3⟩
    · obtain ⟨u1, u2, _⟩ := hreach c1
      obtain ⟨bb, y, hy⟩ := rs_defined hc hopen hN hN2 h0 h13 (ef := ef) (eb := eb) u1 k kg u2
      rw [hy] at c2; cases c2
    · obtain ⟨u1, u2, u3, u4⟩ := hreach c1
      obtain ⟨w1, w2, ps, w3, w4, w5⟩ := rs_sound hc hopen hN hN2 h0 h13 u1 c2
      rw [c3] at w4
      exact absurd (List.map_eq_nil_iff.1 w4.symm) w3
  · obtain ⟨u1, u2, u3, u4⟩ := hreach c1
    obtain ⟨w1, w2, ps, w3, w4, w5⟩ := rs_sound hc hopen hN hN2 h0 h13 u1 c2
    rw [c3] at w4
    cases ps with
    | nil => exact absurd rfl w3
    | cons a as =>
      simp only [List.map_cons, List.cons.injEq] at w4
      obtain ⟨rfl, rfl⟩ := w4
      refine .inr (.inr ⟨w1, fun hne => by rw [c6 hne]; exact rs_step u1 u2 c2, ⟨_, kg, a, as, hst.startPose hv,
        (laterStart_near hi (hst.startPose hv)).1, (laterStart_near hi (hst.startPose hv)).2.1, hst.startFree hi hv, ?_, w2, u4,
        ForwardWay.first h0 w5, w5, ?_⟩, fun hall => c4 ?_⟩)
      · obtain ⟨vg, hvg, _⟩ := c1.goal
        exact hst.goalFree hi hvg
      · rcases c5 with c5 | c5 | ⟨l, c5, s', hs', c7⟩
        · exact .inl c5
        · exact .inr (.inl c5)
        · exact .inr (.inr ⟨l, c5, _, c7, hst.startPose hs'⟩)
      · obtain ⟨g1, _⟩ := (hst.hs v).1 hv
        obtain ⟨d1, d2, _⟩ := (poseCells_mem hst.hsp v).1 g1
        exact hall v d1 d2
  · obtain ⟨u1, u2, u3, u4⟩ := hreach c1
    obtain ⟨w1, w2, ps, w3, w4, w5⟩ := rs_sound hc hopen hN hN2 h0 h13 u1 c2
    refine .inr (.inl ⟨rs_step u1 u2 c2, w1, q, r1, ?_⟩)
    rw [c3] at w4
    cases ps with
    | nil => exact absurd rfl w3
    | cons a as =>
      simp only [List.map_cons, List.cons.injEq] at w4
      obtain ⟨rfl, rfl⟩ := w4
      have hin : ∀ k, Reachable (padAlgo clamp m skips b S mvs pd isg) s (padContentOn old sp s gp g start goal) k →
        InsidePad m.width m.height k := fun k hr => reachable_inside hc hm (fun n _ => hi.inside n) hr
      have hall : ∀ y ∈ l ++ [k], Reachable (padAlgo clamp m skips b S mvs pd isg) s (padContentOn old sp s gp g start goal) y := by
        intro y hy
        rcases List.mem_append.1 hy with hy | hy
        · exact c8 y hy
        · rw [List.mem_singleton.1 hy]; exact c1.reach
      obtain ⟨d, t1⟩ := c6
      obtain ⟨pp1, pp2⟩ := cellTrace_pairs t1
      obtain ⟨v, hv, t2⟩ := c7
      refine ⟨l, k, a, as, kg, c4, c5, ⟨_, t2, hst.startPose hv⟩, fun y hy => hst.reach hc hm hs ho hi (hall y hy), ?_, ?_, ?_,
        hst.startFree hi hv, ?_, w2, u4, ForwardWay.first h0 w5, w5⟩
      · intro y z hxy
        obtain ⟨x', c, hx, hl⟩ := pp1 y z hxy
        have hrx : Reachable (padAlgo clamp m skips b S mvs pd isg) s (padContentOn old sp s gp g start goal) x' := by
          rcases hx with rfl | hx
          · exact hall x' (hxy.subset (by simp))
          · exact hx.2
        obtain ⟨c0, hr, _⟩ := legal_road hm hs ho (hin x' hrx) hl
        refine ⟨x', c0, ?_, hst.reach hc hm hs ho hi hrx, hr⟩
        rcases hx with rfl | hx
        · exact ⟨rfl, rfl, rfl, rfl⟩
        · exact sameState_of_sameCell hc hm hx.1
      · intro y z hxy
        obtain ⟨c, hl⟩ := pp2 y z hxy
        obtain ⟨c0, hr, _⟩ := legal_road hm hs ho (hin y (hall y (hxy.subset (by simp)))) hl
        exact ⟨c0, hr⟩
      · refine lt_of_lt_of_eq c9 ?_
        simp only [Fintype.card_prod, Fintype.card_fin, Fintype.card_bool]
        ring
      · obtain ⟨vg, hvg, _⟩ := c1.goal
        exact hst.goalFree hi hvg

end

/-- The three outcomes of `later_pad_hybrid`. -/
def LaterOutcome (clamp : ℝ → ℝ) (adv : SNode → ℝ → SNode → Prop) (m : GridMap ℝ) (skips : Nat) (old : PadCell m.width m.height → SNode)
    (lab : Labels (PadCell m.width m.height) ℝ) (start goal : Pose) (n : Int) (ef eb : Bool) (plain : Prop) (r : CRes (List SNode))
    (x' : St) : Prop :=
  (ExpReach clamp n ef eb x' ∧ plain) ∨
  (ExpReach clamp n ef eb x' ∧ ef = true ∧ ∃ q, r = .ok q ∧
    LaterHybridPath clamp adv m skips (LaterStart old start goal) start goal q) ∨
  (ef = true ∧ (r ≠ .ub → ExpReach clamp n ef eb x') ∧ LaterStartWay clamp adv m skips (LaterStart old start goal) start goal r ∧
    ((∀ v, v.x = ⌊start.x⌋ → v.y = ⌊start.y⌋ → (lab v).prev = none) → r = .ub))

section
variable {clamp : ℝ → ℝ} {m : GridMap ℝ} {skips : Nat} {b : Bres ℝ} {S : SteerCfg}
  {O : OpenList (PadCell m.width m.height) ℝ} {cfg : SCfg (PadCell m.width m.height) ℝ} {start goal : Pose}
  {lab : Labels (PadCell m.width m.height) ℝ} {old : PadCell m.width m.height → SNode} {n : Int} {ef eb : Bool}

section
variable {P : DynP} {distThr angThr : ℝ}

/-- **C105 (`DynamicSteeringNeighborhood`).** -/
theorem dyn_later_hybrid (hc : ClampSpec clamp) (hopen : ∀ t, -Real.pi < clamp t) (hd : 0 ≤ P.distStep) (hr : 0 < P.resolution)
    (hm : SteerMapOk m P.stepLen) (L : Lawful O) (ht : TopOk cfg.top) (hN : 0 ≤ n) (hN2 : n < 2147483648) (h0 : 0 < m.res)
    (h13 : m.res ≤ 13 / 10) (hheur : ∀ a b, 0 ≤ S.heur a b) (h1 : IntPose start) (h2 : IntPose goal)
    (hu : PadUsed (dynSteerAlgo clamp P distThr angThr m skips b S) O lab old) {x : St} (hx : ExpReach clamp n ef eb x) :
    (∃ fuel y, padFindXOn clamp (dynSteerAlgo clamp P distThr angThr m skips b S) (rsExp clamp n ef eb m) O cfg lab old start goal x
        fuel = some y) ∧
    ∀ fuel r st x', padFindXOn clamp (dynSteerAlgo clamp P distThr angThr m skips b S) (rsExp clamp n ef eb m) O cfg lab old start goal x
        fuel = some (r, st, x') →
      (∀ st', st = some st' → PadUsed (dynSteerAlgo clamp P distThr angThr m skips b S) O st'.s.lab st'.kin) ∧
      LaterOutcome clamp (DynAdv clamp P S.so) m skips old lab start goal n ef eb
        (∃ f', padFindOn clamp (dynSteerAlgo clamp P distThr angThr m skips b S) O cfg lab old start goal f' = some (r, st)) r x' := by
  refine ⟨later_pad_hybrid_ends hc hm (dyn_costOk hm.res) L ht h1 h2 hu x, fun fuel r st x' h => ⟨?_, ?_⟩⟩
  · rintro st' rfl
    exact padUsed_findX hc hm (dyn_costOk hm.res) L ht hu h
  · exact later_pad_hybrid hc hopen hm (dynMoves_stepBound hd hr) dyn_offers (dyn_costOk hm.res) L ht hN hN2 h0 h13 hheur h1 h2 hu hx h

end

section
variable {P : SteerP} {distance : Int} {garbage : Nat × Nat → Int}

/-- **C105 (`SteeringNeighborhood`).** -/
theorem steer_later_hybrid (hc : ClampSpec clamp) (hopen : ∀ t, -Real.pi < clamp t) (hd : 0 ≤ P.distStep) (hr : 0 < P.resolution)
    (hm : SteerMapOk m P.distPx) (L : Lawful O) (ht : TopOk cfg.top) (hN : 0 ≤ n) (hN2 : n < 2147483648) (h0 : 0 < m.res)
    (h13 : m.res ≤ 13 / 10) (hheur : ∀ a b, 0 ≤ S.heur a b) (h1 : IntPose start) (h2 : IntPose goal)
    (hu : PadUsed (steerAlgo clamp P distance garbage m skips b S) O lab old) {x : St} (hx : ExpReach clamp n ef eb x) :
    (∃ fuel y, padFindXOn clamp (steerAlgo clamp P distance garbage m skips b S) (rsExp clamp n ef eb m) O cfg lab old start goal x
        fuel = some y) ∧
    ∀ fuel r st x', padFindXOn clamp (steerAlgo clamp P distance garbage m skips b S) (rsExp clamp n ef eb m) O cfg lab old start goal x
        fuel = some (r, st, x') →
      (∀ st', st = some st' → PadUsed (steerAlgo clamp P distance garbage m skips b S) O st'.s.lab st'.kin) ∧
      LaterOutcome clamp (SteerAdv clamp P S.so) m skips old lab start goal n ef eb
        (∃ f', padFindOn clamp (steerAlgo clamp P distance garbage m skips b S) O cfg lab old start goal f' = some (r, st)) r x' := by
  refine ⟨later_pad_hybrid_ends hc hm (steer_costOk hm.res) L ht h1 h2 hu x, fun fuel r st x' h => ⟨?_, ?_⟩⟩
  · rintro st' rfl
    exact padUsed_findX hc hm (steer_costOk hm.res) L ht hu h
  · exact later_pad_hybrid hc hopen hm (steerMoves_stepBound hd hr) steer_offers (steer_costOk hm.res) L ht hN hN2 h0 h13 hheur h1 h2
      hu hx h

end
end

/-! ### Concrete cases -/

namespace SteerEx

/-- After a successful search without expansion a search with expansion: it ends, and is one of the three. -/
theorem example_later_hybrid {clamp : ℝ → ℝ} (hc : ClampSpec clamp) (hopen : ∀ t, -Real.pi < clamp t) :
    ∃ lab old x fuel r st x', PadUsed (dynSteerAlgo clamp P (1 / 10) (1 / 10) map 0 bres S) PriorityManager lab old ∧
      (∃ v, (lab v).dist ≠ ⊤) ∧ St.new 250 true true 0 true = .ok x ∧
      padFindXOn clamp (dynSteerAlgo clamp P (1 / 10) (1 / 10) map 0 bres S) (rsExp clamp 250 true true map) PriorityManager cfg lab old
        ⟨0, 0, 0⟩ ⟨3, 0, Real.pi⟩ x fuel = some (r, st, x') ∧
      LaterOutcome clamp (DynAdv clamp P S.so) map 0 old lab ⟨0, 0, 0⟩ ⟨3, 0, Real.pi⟩ 250 true true
        (∃ f', padFindOn clamp (dynSteerAlgo clamp P (1 / 10) (1 / 10) map 0 bres S) PriorityManager cfg lab old
          ⟨0, 0, 0⟩ ⟨3, 0, Real.pi⟩ f' = some (r, st)) r x' := by
  obtain ⟨f0, q0, st0, h1, h2, h3⟩ := example_used hc
  have i1 : IntPose ⟨0, 0, 0⟩ := by norm_num [IntPose]
  have i2 : IntPose ⟨3, 0, Real.pi⟩ := by norm_num [IntPose]
  obtain ⟨x, hx⟩ : ∃ x, St.new 250 true true 0 true = .ok x := ⟨_, new_eq _ _ _ _ _⟩
  have hx' : ExpReach clamp 250 true true x := .new hx
  obtain ⟨⟨fuel, ⟨r, st, x'⟩, e⟩, h4⟩ := dyn_later_hybrid (P := P) (distThr := 1 / 10) (angThr := 1 / 10) (skips := 0) (b := bres) (S := S)
    (cfg := cfg) (start := ⟨0, 0, 0⟩) (goal := ⟨3, 0, Real.pi⟩) (n := 250) hc hopen (by norm_num [P]) (by norm_num [P]) map_ok prioLawful
    SearchEx.topRef_ok (by norm_num) (by norm_num) (by norm_num [map]) (by norm_num [map]) (fun _ _ => by simp [S]) i1 i2 h3 hx'
  refine ⟨_, _, x, fuel, r, st, x', h3, ?_, hx, e, (h4 _ _ _ _ e).2⟩
  obtain ⟨sp, s, gp, g, p, st', hst, hk, e1, e2⟩ := padFindOn_ok hc map_ok i1 i2 h1
  cases e1
  have hp : p ≠ [] := by rintro rfl; exact h2 e2
  obtain ⟨_, ⟨n, hn, _⟩, _, _, _, h5, _⟩ := later_kin_path (cfg := { cfg with start := s, goal := g }) (dyn_costOk map_ok.res) prioLawful
    SearchEx.topRef_ok .setMap hk hp
  obtain ⟨a, ha⟩ := List.exists_mem_of_ne_nil p hp
  refine ⟨n, ?_⟩
  have := ((later_kin_done (cfg := { cfg with start := s, goal := g }) (dyn_costOk map_ok.res) prioLawful SearchEx.topRef_ok .setMap hk).ok
    p rfl).1 st0.s.lab st0.kin
  rw [this.s0 n hn]
  exact WithTop.coe_ne_top

end SteerEx
end PathPlanning
