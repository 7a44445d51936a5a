import Verif.Props.KinCustomHist
import Verif.Props.SteerHistory2
import Verif.Props.SteerCustom
import Verif.Model.CustomHistory

/-!
# C97: later searches with a goal test and a steering neighbourhood
-/

noncomputable section
namespace PathPlanning
open Spec

section
variable {clamp : ℝ → ℝ} {m : GridMap ℝ} {skips : Nat} {b : Bres ℝ} {S : SteerCfg} {pd : Nat}
  {mvs : List (SNode → List SNode → Option (ℝ × SNode))} {isg : SNode → SNode → Option SNode → Bool} {D : ℝ}
  {adv : SNode → ℝ → SNode → Prop} {cs : List ℝ}
  {O : OpenList (PadCell m.width m.height) ℝ} {cfg : SCfg (PadCell m.width m.height) ℝ} {start : Pose} {node : SNode}
  {T : KGoalTest (PadCell m.width m.height) SNode ℝ O} {rev : Bool}
  {lab : Labels (PadCell m.width m.height) ℝ} {old : PadCell m.width m.height → SNode}
  {sp s : List (PadCell m.width m.height)} {kin : PadCell m.width m.height → SNode} {Start : SNode → Prop}

/-! ### Histories -/

theorem padRunTestOn_used {A : KAlgo (PadCell m.width m.height) SNode ℝ} (hu : PadUsed A O lab old)
    (hw : ∀ n, (kin n).x = (old n).x ∧ (kin n).y = (old n).y ∧ (kin n).steer = (old n).steer) {fuel : Nat} {r st}
    (h : padRunTestOn A O cfg T rev lab s kin fuel = some (r, some st)) : PadUsed A O st.s.lab st.kin := by
  unfold padRunTestOn at h
  simp only [Option.map_eq_some_iff] at h
  obtain ⟨⟨r', st'⟩, h3, h4⟩ := h
  simp only [Prod.mk.injEq, Option.some.injEq] at h4
  obtain ⟨_, rfl⟩ := h4
  obtain ⟨pc, hd⟩ := during_kLoopT h3
  exact .left hu hw rfl rfl rfl rfl hd

/-- **C97 (histories).**  A call of `findPath(from, goal_test)`, whatever its result, gives a used object. -/
theorem padUsed_test {A : KAlgo (PadCell m.width m.height) SNode ℝ} (hu : PadUsed A O lab old) {fuel : Nat} {r st}
    (h : padFindTestOn clamp A O cfg T rev lab old start fuel = some (r, some st)) : PadUsed A O st.s.lab st.kin := by
  unfold padFindTestOn at h
  cases hi : padStartOn clamp m old start.x start.y with
  | throw e => rw [hi] at h; simp at h
  | ub => rw [hi] at h; simp at h
  | ok x =>
    obtain ⟨sp, s⟩ := x
    rw [hi] at h
    exact padRunTestOn_used hu (fun n => padContentOn_written n) h

/-- **C97 (histories).**  And so does `findPathWithStartConfiguration`. -/
theorem padUsed_config {A : KAlgo (PadCell m.width m.height) SNode ℝ} (hu : PadUsed A O lab old) {fuel : Nat} {r st}
    (h : padFindConfigOn clamp A O cfg T rev lab old node fuel = some (r, some st)) : PadUsed A O st.s.lab st.kin := by
  unfold padFindConfigOn at h
  cases hi : padStartOn clamp m old node.x node.y with
  | throw e => rw [hi] at h; simp at h
  | ub => rw [hi] at h; simp at h
  | ok x =>
    obtain ⟨sp, s⟩ := x
    rw [hi] at h
    exact padRunTestOn_used (kin := padNodeOn old sp s node) hu (fun n => ⟨rfl, rfl, rfl⟩) h

/-! ### After `setMap` -/

theorem padStartOn_init (x y : ℝ) : padStartOn clamp m initContent x y = padStartNodes clamp m x y := by
  unfold padStartOn padStartNodes
  simp only [notOccupiedOn_init]

theorem padRunTestOn_fresh (A : KAlgo (PadCell m.width m.height) SNode ℝ) (fuel : Nat) :
    (padRunTestOn A O cfg T rev (fun _ => Label.fresh A.zero) s kin fuel).map Prod.fst =
      (kFindTest A O { cfg with start := s } T kin fuel).map fun r =>
        match r.1 with
        | .ok q => .ok (if rev then q.reverse else q)
        | .throw e => .throw e
        | .ub => .ub := by
  unfold padRunTestOn
  rw [kFindTestOn_fresh]
  simp only [Option.map_map]
  congr 1
  funext x
  obtain ⟨r, st⟩ := x
  cases r <;> rfl

/-- **C97.**  After `setMap` this is the search of `Model/KinCustom.lean`. -/
theorem padFindTestOn_fresh (A : KAlgo (PadCell m.width m.height) SNode ℝ) (fuel : Nat) :
    (padFindTestOn clamp A O cfg T rev (fun _ => Label.fresh A.zero) initContent start fuel).map Prod.fst =
      padFindTest clamp A O cfg T rev start fuel := by
  unfold padFindTestOn padFindTest
  rw [padStartOn_init]
  cases padStartNodes clamp m start.x start.y with
  | throw e => rfl
  | ub => rfl
  | ok x =>
    obtain ⟨sp, s⟩ := x
    simp only
    rw [padRunTestOn_fresh]
    have hcon : padContentOn initContent sp s [] [] start start = padStart sp s start.theta := by
      funext n
      simp [padContentOn, padStart, initContent]
    rw [hcon]
    congr 1

theorem padFindConfigOn_fresh (A : KAlgo (PadCell m.width m.height) SNode ℝ) (fuel : Nat) :
    (padFindConfigOn clamp A O cfg T rev (fun _ => Label.fresh A.zero) initContent node fuel).map Prod.fst =
      padFindConfig clamp A O cfg T rev node fuel := by
  unfold padFindConfigOn padFindConfig
  rw [padStartOn_init]
  cases padStartNodes clamp m node.x node.y with
  | throw e => rfl
  | ub => rfl
  | ok x =>
    obtain ⟨sp, s⟩ := x
    simp only
    rw [padRunTestOn_fresh]
    have hcon : padNodeOn initContent sp s node = padStartNode sp s node := rfl
    rw [hcon]
    congr 1

/-! ### The search on given start nodes -/

theorem road_of_reach (hc : ClampSpec clamp) (hm : SteerMapOk m D) (hs : StepBound mvs D) (ho : Offers mvs adv m.res)
    (hin : ∀ n, InsidePad m.width m.height (kin n)) (hS : ∀ n ∈ s, Start (kin n)) {k : SNode}
    (hr : Reachable (padAlgo clamp m skips b S mvs pd isg) s kin k) : RoadFrom adv m skips Start k := by
  induction hr with
  | start hn => exact .start (hS _ hn)
  | step hr hl hn ih =>
    have hk := reachable_inside hc hm (fun n _ => hin n) hr
    obtain ⟨c0, h1, _⟩ := legal_road hm hs ho hk hl
    exact .step ih h1 (inside_of_lookup hc hm.sizes.1 hm.sizes.2 hn)

theorem padRun_ends (hc : ClampSpec clamp) (hm : SteerMapOk m D) (hs : StepBound mvs D) (ho : Offers mvs adv m.res)
    (ok : KCostOk (padAlgo clamp m skips b S mvs pd isg) cs) (L : Lawful O) (ht : TopOk cfg.top)
    (hin : ∀ n, InsidePad m.width m.height (kin n)) (hS : ∀ n ∈ s, Start (kin n))
    {Ss} (hu : KUsed (padAlgo clamp m skips b S mvs pd isg) cs O Ss lab) :
    ∃ fuel r st, padRunTestOn (padAlgo clamp m skips b S mvs pd isg) O cfg T rev lab s kin fuel = some (r, st) ∧ r ≠ .ub ∧
      ∀ e, r = .throw e → (e = "OutsideMapException" ∨ e = "std::out_of_range") ∧
          ∃ k c k', RoadFrom adv m skips Start k ∧ RoadStep adv m skips k c k' ∧ OnEdge m.width m.height k' := by
  obtain ⟨fuel, r, st, q1, q2, q3⟩ := later_custom_ends (cfg := { cfg with start := s }) (kin0 := kin) ok L ht T hu
  refine ⟨fuel, (match (generalizing := false) r with
    | .ok p => .ok (if rev then (p.map st.kin).reverse else p.map st.kin)
    | .throw e => .throw e
    | .ub => .ub), some st, ?_, ?_, ?_⟩
  · unfold padRunTestOn
    rw [q1]
    cases r <;> rfl
  · cases r with
    | ok p => simp
    | throw e => simp
    | ub => exact absurd (q3 rfl) (pad_no_ub hc hm hs (fun n _ => hin n))
  · intro e' hr
    cases r with
    | ok p => simp at hr
    | ub => simp at hr
    | throw e =>
      simp only [CRes.throw.injEq] at hr
      subst hr
      obtain ⟨t1, k, c, k', t2, t3, t4⟩ := pad_throws hc hm hs (fun n _ => hin n) (q2 e rfl)
      obtain ⟨c0, t5, _⟩ := legal_road hm hs ho (reachable_inside hc hm (fun n _ => hin n) t2) t3
      exact ⟨t1, k, c0, k', road_of_reach hc hm hs ho hin hS t2, t5, t4⟩

theorem padRun_path (hc : ClampSpec clamp) (hm : SteerMapOk m D) (hs : StepBound mvs D) (ho : Offers mvs adv m.res)
    (ok : KCostOk (padAlgo clamp m skips b S mvs pd isg) cs) (L : Lawful O) (ht : TopOk cfg.top)
    (hin : ∀ n, InsidePad m.width m.height (kin n)) (hS : ∀ n ∈ s, Start (kin n))
    {Ss} (hu : KUsed (padAlgo clamp m skips b S mvs pd isg) cs O Ss lab) {fuel : Nat} {q : List SNode} {st}
    (h : padRunTestOn (padAlgo clamp m skips b S mvs pd isg) O cfg T rev lab s kin fuel = some (.ok q, st)) (hne : q ≠ []) :
    ∃ q0, q = (if rev then q0.reverse else q0) ∧
    (∃ n ∈ s, q0.head? = some (kin n)) ∧
    (∀ k ∈ q0, RoadFrom adv m skips Start k) ∧
    (∀ x y, [x, y] <:+: q0 → ∃ x' c, SameState clamp x' x ∧ RoadFrom adv m skips Start x' ∧
      RoadStep adv m skips x' c y ∧ ([x, y] <+: q0 → x' = x)) ∧
    q0.length ≤ (m.width + 63) * (m.height + 63) * 64 ∧
    ∃ kl, q0.getLast? = some kl ∧ ∃ k w, SameState clamp k kl ∧ RoadFrom adv m skips Start k ∧ PoseAccepted T k w := by
  unfold padRunTestOn at h
  simp only [Option.map_eq_some_iff] at h
  obtain ⟨⟨r, st'⟩, hk, h4⟩ := h
  simp only [Prod.mk.injEq] at h4
  obtain ⟨h4, _⟩ := h4
  cases r with
  | throw e => simp at h4
  | ub => simp at h4
  | ok p =>
    simp only [CRes.ok.injEq] at h4
    have hne0 : p ≠ [] := by
      rintro rfl
      apply hne
      rw [← h4]
      cases rev <;> rfl
    obtain ⟨⟨d, t1, _⟩, ⟨n, hn, t2⟩, t3, tnd, t4, _, nl, w, k, t5, _, _, t6, t7, t8⟩ :=
      later_custom_path (cfg := { cfg with start := s }) ok L ht hu hk hne0
    have hins : ∀ k, Reachable (padAlgo clamp m skips b S mvs pd isg) s kin k → InsidePad m.width m.height k :=
      fun k hr => reachable_inside hc hm (fun n _ => hin n) hr
    have hreach : ∀ k, Reachable (padAlgo clamp m skips b S mvs pd isg) s kin k → RoadFrom adv m skips Start k :=
      fun k hr => road_of_reach hc hm hs ho hin hS hr
    obtain ⟨p1, p2⟩ := cellTrace_pairs t1
    refine ⟨p.map st'.kin, h4.symm, ⟨n, hn, t2⟩, fun k hk => hreach k (t3 k hk), ?_, ?_, st'.kin nl, ?_, ?_⟩
    · intro x y hxy
      by_cases hp : [x, y] <+: p.map st'.kin
      · obtain ⟨c, hl⟩ := p2 x y hp
        have hrx := t3 x (hxy.subset (by simp))
        obtain ⟨c0, hr, _⟩ := legal_road hm hs ho (hins x hrx) hl
        exact ⟨x, c0, ⟨rfl, rfl, rfl, rfl⟩, hreach x hrx, hr, fun _ => rfl⟩
      · obtain ⟨x', c, hx, hl⟩ := p1 x y hxy
        have hrx : Reachable (padAlgo clamp m skips b S mvs pd isg) s kin x' := by
          rcases hx with rfl | hx
          · exact t3 x' (hxy.subset (by simp))
          · exact hx.2
        obtain ⟨c0, hr, _⟩ := legal_road hm hs ho (hins x' hrx) hl
        refine ⟨x', c0, ?_, hreach x' hrx, hr, fun e => absurd e hp⟩
        rcases hx with rfl | hx
        · exact ⟨rfl, rfl, rfl, rfl⟩
        · exact sameState_of_sameCell hc hm hx.1
    · rw [List.length_map]
      refine t4.trans (le_of_eq ?_)
      simp only [Fintype.card_prod, Fintype.card_fin, Fintype.card_bool]
      ring
    · rw [List.getLast?_map, t5]; rfl
    · refine ⟨k, w, ?_, hreach k t6, t7⟩
      rcases t8 with rfl | t8
      · exact ⟨rfl, rfl, rfl, rfl⟩
      · exact sameState_of_sameCell hc hm t8

/-! ### Start nodes -/

/-- What the initialisation does. -/
theorem padStartOn_cases (hc : ClampSpec clamp) (hm : SteerMapOk m D) (h1 : IntPose start) :
    (∃ sp s, padStartOn clamp m old start.x start.y = .ok (sp, s) ∧ poseCells start sp ∧
      ∀ n, n ∈ s ↔ n ∈ sp ∧ ptOccupied m (truncC (old n).x) (truncC (old n).y) = .ok false) ∨
    (∃ e, padStartOn clamp m old start.x start.y = .throw e ∧ (e = "OutsideMapException" ∨ e = "std::out_of_range") ∧
      ¬ InsidePad m.width m.height ⟨start.x, start.y, 0, true, 0, 0, 0⟩) := by
  have hg : getPoses clamp m.width m.height ⟨start.x, start.y, 0⟩ = getPoses clamp m.width m.height start := rfl
  rcases getPoses_cases (w := m.width) (h := m.height) hc h1 with ⟨sp, e1, p1⟩ | ⟨e, e1, e2, e3⟩
  · obtain ⟨s, e3, hs⟩ := notOccupiedOn_spec (old := old) hm.wf sp
    left
    refine ⟨sp, s, ?_, p1, hs⟩
    unfold padStartOn; rw [hg, e1]; simp only [CRes.ok_bind, e3]; rfl
  · right
    refine ⟨e, ?_, e2, e3⟩
    unfold padStartOn; rw [hg, e1]; rfl

theorem padContentOn_start (hp : poseCells start sp)
    (hs : ∀ n, n ∈ s ↔ n ∈ sp ∧ ptOccupied m (truncC (old n).x) (truncC (old n).y) = .ok false) {n : PadCell m.width m.height}
    (hn : n ∈ s) : LaterStart old start start (padContentOn old sp s [] [] start start n) := by
  obtain ⟨h1, _⟩ := (hs n).1 hn
  obtain ⟨e1, e2, e3⟩ := (poseCells_mem hp n).1 h1
  refine ⟨n, e1, e2, e3, rfl, rfl, rfl, rfl, rfl, ?_, ?_⟩
  · simp [padContentOn, h1]
  · simp [padContentOn, hn]

theorem padNodeOn_start (hp : poseCells ⟨node.x, node.y, node.theta⟩ sp)
    (hs : ∀ n, n ∈ s ↔ n ∈ sp ∧ ptOccupied m (truncC (old n).x) (truncC (old n).y) = .ok false) {n : PadCell m.width m.height}
    (hn : n ∈ s) : LaterConfig old node (padNodeOn old sp s node n) := by
  obtain ⟨h1, _⟩ := (hs n).1 hn
  obtain ⟨e1, e2, e3⟩ := (poseCells_mem hp n).1 h1
  refine ⟨n, e1, e2, e3, rfl, rfl, rfl, rfl, ?_, ?_, ?_⟩
  · simp [padNodeOn, hn]
  · simp [padNodeOn, h1]
  · simp [padNodeOn, hn]

theorem InCell.insideNode {w h : Nat} {old : PadCell w h → SNode} (hi : InCell old) {sp s : List (PadCell w h)} (n : PadCell w h) :
    InsidePad w h (padNodeOn old sp s node n) := by
  have := n.bounds
  obtain ⟨h1, h2⟩ := hi n
  unfold InsidePad padNodeOn
  simp only [h1, h2]
  omega

/-- The requested start is free: the test looks at the cell of the stored pose. -/
theorem startFree (hi : InCell old) (hp : poseCells start sp)
    (hs : ∀ n, n ∈ s ↔ n ∈ sp ∧ ptOccupied m (truncC (old n).x) (truncC (old n).y) = .ok false) {n : PadCell m.width m.height}
    (hn : n ∈ s) (hin : 0 ≤ ⌊start.x⌋ ∧ 0 ≤ ⌊start.y⌋) : ptOccupied m ⌊start.x⌋ ⌊start.y⌋ = .ok false := by
  obtain ⟨h3, h4⟩ := (hs n).1 hn
  obtain ⟨c1, c2, _⟩ := (poseCells_mem hp n).1 h3
  obtain ⟨i1, i2⟩ := hi n
  have hx : (0 : ℝ) ≤ (old n).x := by
    have : 0 ≤ ⌊(old n).x⌋ := by omega
    exact Int.floor_nonneg.1 this
  have hy : (0 : ℝ) ≤ (old n).y := by
    have : 0 ≤ ⌊(old n).y⌋ := by omega
    exact Int.floor_nonneg.1 this
  rw [truncC_nonneg hx, truncC_nonneg hy, i1, i2, c1, c2] at h4
  exact h4

/-- **C97 (the first pose).** -/
theorem laterConfig_near {w h : Nat} {old : PadCell w h → SNode} (hi : InCell old) {k : SNode} (hk : LaterConfig old node k) :
    ⌊k.x⌋ = ⌊node.x⌋ ∧ ⌊k.y⌋ = ⌊node.y⌋ ∧ abs (k.x - node.x) < 1 ∧ abs (k.y - node.y) < 1 := by
  obtain ⟨n, e1, e2, _, e3, e4, _⟩ := hk
  obtain ⟨i1, i2⟩ := hi n
  have h1 : ⌊k.x⌋ = ⌊node.x⌋ := by rw [e3, i1, e1]
  have h2 : ⌊k.y⌋ = ⌊node.y⌋ := by rw [e4, i2, e2]
  exact ⟨h1, h2, Int.abs_sub_lt_one_of_floor_eq_floor h1, Int.abs_sub_lt_one_of_floor_eq_floor h2⟩

/-- **C97 (later searches end).**  After any history every call of `findPath(from, goal_test)` ends without undefined behaviour, whatever
the goal test does; it throws only if the start does not lie on the padded map, or if a legal step leads onto its outermost line. -/
theorem later_pad_custom_ends (hc : ClampSpec clamp) (hm : SteerMapOk m D) (hs : StepBound mvs D) (ho : Offers mvs adv m.res)
    (ok : KCostOk (padAlgo clamp m skips b S mvs pd isg) cs) (L : Lawful O) (ht : TopOk cfg.top) (h1 : IntPose start)
    (hu : PadUsed (padAlgo clamp m skips b S mvs pd isg) O lab old) :
    ∃ fuel r st, padFindTestOn clamp (padAlgo clamp m skips b S mvs pd isg) O cfg T rev lab old start fuel = some (r, st) ∧
      r ≠ .ub ∧ ∀ e, r = .throw e → (e = "OutsideMapException" ∨ e = "std::out_of_range") ∧
        (¬ InsidePad m.width m.height ⟨start.x, start.y, 0, true, 0, 0, 0⟩ ∨
          ∃ k c k', RoadFrom adv m skips (LaterStart old start start) k ∧ RoadStep adv m skips k c k' ∧
            OnEdge m.width m.height k') := by
  obtain ⟨⟨Ss, hku⟩, hi⟩ := padUsed_spec hc hm ok L hu
  rcases padStartOn_cases (old := old) hc hm h1 with ⟨sp, s, e1, hp, hmem⟩ | ⟨e, he, h3, h4⟩
  · obtain ⟨fuel, r, st, q1, q2, q3⟩ := padRun_ends (cfg := cfg) (T := T) (rev := rev) (Start := LaterStart old start start)
      (kin := padContentOn old sp s [] [] start start) hc hm hs ho ok L ht (fun n => hi.inside n)
      (fun n hn => padContentOn_start hp hmem hn) hku
    refine ⟨fuel, r, st, ?_, q2, fun e he => ?_⟩
    · unfold padFindTestOn; rw [e1]; exact q1
    · obtain ⟨a1, a2⟩ := q3 e he
      exact ⟨a1, .inr a2⟩
  · refine ⟨0, .throw e, none, ?_, by simp, ?_⟩
    · unfold padFindTestOn; rw [he]
    · intro e' hr
      cases hr
      exact ⟨h3, .inl h4⟩

/-- **C97 (later paths).**  What a path is that `findPath(from, goal_test)` returns after any history. -/
theorem later_pad_custom_path (hc : ClampSpec clamp) (hm : SteerMapOk m D) (hs : StepBound mvs D) (ho : Offers mvs adv m.res)
    (ok : KCostOk (padAlgo clamp m skips b S mvs pd isg) cs) (L : Lawful O) (ht : TopOk cfg.top) (h1 : IntPose start)
    (hu : PadUsed (padAlgo clamp m skips b S mvs pd isg) O lab old) {fuel : Nat} {q : List SNode} {st}
    (h : padFindTestOn clamp (padAlgo clamp m skips b S mvs pd isg) O cfg T rev lab old start fuel = some (.ok q, st))
    (hne : q ≠ []) :
    ∃ q0, q = (if rev then q0.reverse else q0) ∧
    (∃ k0, q0.head? = some k0 ∧ LaterStart old start start k0 ∧ ⌊k0.x⌋ = ⌊start.x⌋ ∧ ⌊k0.y⌋ = ⌊start.y⌋) ∧
    (∀ k ∈ q0, RoadFrom adv m skips (LaterStart old start start) k) ∧
    (∀ x y, [x, y] <:+: q0 → ∃ x' c, SameState clamp x' x ∧ RoadFrom adv m skips (LaterStart old start start) x' ∧
      RoadStep adv m skips x' c y ∧ ([x, y] <+: q0 → x' = x)) ∧
    q0.length ≤ (m.width + 63) * (m.height + 63) * 64 ∧
    (0 ≤ ⌊start.x⌋ ∧ 0 ≤ ⌊start.y⌋ → ptOccupied m ⌊start.x⌋ ⌊start.y⌋ = .ok false) ∧
    ∃ kl, q0.getLast? = some kl ∧ ∃ k w, SameState clamp k kl ∧ RoadFrom adv m skips (LaterStart old start start) k ∧
      PoseAccepted T k w := by
  obtain ⟨⟨Ss, hku⟩, hi⟩ := padUsed_spec hc hm ok L hu
  rcases padStartOn_cases (old := old) hc hm h1 with ⟨sp, s, e1, hp, hmem⟩ | ⟨e, he, h3, h4⟩
  · unfold padFindTestOn at h
    rw [e1] at h
    have hS : ∀ n ∈ s, LaterStart old start start (padContentOn old sp s [] [] start start n) :=
      fun n hn => padContentOn_start hp hmem hn
    obtain ⟨q0, a1, ⟨n, hn, a2⟩, a3, a4, a5, a6⟩ := padRun_path (Start := LaterStart old start start) hc hm hs ho ok L ht
      (fun n => hi.inside n) hS hku h hne
    obtain ⟨f1, f2, _⟩ := laterStart_near hi (hS n hn)
    exact ⟨q0, a1, ⟨_, a2, hS n hn, f1, f2⟩, a3, a4, a5, startFree hi hp hmem hn, a6⟩
  · unfold padFindTestOn at h
    rw [he] at h
    simp at h

/-- **C97.**  The same for `findPathWithStartConfiguration`. -/
theorem later_pad_config_ends (hc : ClampSpec clamp) (hm : SteerMapOk m D) (hs : StepBound mvs D) (ho : Offers mvs adv m.res)
    (ok : KCostOk (padAlgo clamp m skips b S mvs pd isg) cs) (L : Lawful O) (ht : TopOk cfg.top)
    (h1 : IntPose ⟨node.x, node.y, node.theta⟩)
    (hu : PadUsed (padAlgo clamp m skips b S mvs pd isg) O lab old) :
    ∃ fuel r st, padFindConfigOn clamp (padAlgo clamp m skips b S mvs pd isg) O cfg T rev lab old node fuel = some (r, st) ∧
      r ≠ .ub ∧ ∀ e, r = .throw e → (e = "OutsideMapException" ∨ e = "std::out_of_range") ∧
        (¬ InsidePad m.width m.height ⟨node.x, node.y, 0, true, 0, 0, 0⟩ ∨
          ∃ k c k', RoadFrom adv m skips (LaterConfig old node) k ∧ RoadStep adv m skips k c k' ∧
            OnEdge m.width m.height k') := by
  obtain ⟨⟨Ss, hku⟩, hi⟩ := padUsed_spec hc hm ok L hu
  rcases padStartOn_cases (old := old) hc hm h1 with ⟨sp, s, e1, hp, hmem⟩ | ⟨e, he, h3, h4⟩
  · obtain ⟨fuel, r, st, q1, q2, q3⟩ := padRun_ends (cfg := cfg) (T := T) (rev := rev) (Start := LaterConfig old node)
      (kin := padNodeOn old sp s node) hc hm hs ho ok L ht (fun n => hi.insideNode n)
      (fun n hn => padNodeOn_start hp hmem hn) hku
    refine ⟨fuel, r, st, ?_, q2, fun e he => ?_⟩
    · unfold padFindConfigOn; rw [e1]; exact q1
    · obtain ⟨a1, a2⟩ := q3 e he
      exact ⟨a1, .inr a2⟩
  · refine ⟨0, .throw e, none, ?_, by simp, ?_⟩
    · unfold padFindConfigOn; rw [he]
    · intro e' hr
      cases hr
      exact ⟨h3, .inl h4⟩

theorem later_pad_config_path (hc : ClampSpec clamp) (hm : SteerMapOk m D) (hs : StepBound mvs D) (ho : Offers mvs adv m.res)
    (ok : KCostOk (padAlgo clamp m skips b S mvs pd isg) cs) (L : Lawful O) (ht : TopOk cfg.top)
    (h1 : IntPose ⟨node.x, node.y, node.theta⟩)
    (hu : PadUsed (padAlgo clamp m skips b S mvs pd isg) O lab old) {fuel : Nat} {q : List SNode} {st}
    (h : padFindConfigOn clamp (padAlgo clamp m skips b S mvs pd isg) O cfg T rev lab old node fuel = some (.ok q, st))
    (hne : q ≠ []) :
    ∃ q0, q = (if rev then q0.reverse else q0) ∧
    (∃ k0, q0.head? = some k0 ∧ LaterConfig old node k0 ∧ ⌊k0.x⌋ = ⌊node.x⌋ ∧ ⌊k0.y⌋ = ⌊node.y⌋) ∧
    (∀ k ∈ q0, RoadFrom adv m skips (LaterConfig old node) k) ∧
    (∀ x y, [x, y] <:+: q0 → ∃ x' c, SameState clamp x' x ∧ RoadFrom adv m skips (LaterConfig old node) x' ∧
      RoadStep adv m skips x' c y ∧ ([x, y] <+: q0 → x' = x)) ∧
    q0.length ≤ (m.width + 63) * (m.height + 63) * 64 ∧
    (0 ≤ ⌊node.x⌋ ∧ 0 ≤ ⌊node.y⌋ → ptOccupied m ⌊node.x⌋ ⌊node.y⌋ = .ok false) ∧
    ∃ kl, q0.getLast? = some kl ∧ ∃ k w, SameState clamp k kl ∧ RoadFrom adv m skips (LaterConfig old node) k ∧
      PoseAccepted T k w := by
  obtain ⟨⟨Ss, hku⟩, hi⟩ := padUsed_spec hc hm ok L hu
  rcases padStartOn_cases (old := old) hc hm h1 with ⟨sp, s, e1, hp, hmem⟩ | ⟨e, he, h3, h4⟩
  · unfold padFindConfigOn at h
    change (match padStartOn clamp m old node.x node.y with
      | .throw e => _
      | .ub => _
      | .ok (sp, s) => _) = _ at h
    have e1 : padStartOn clamp m old node.x node.y = .ok (sp, s) := e1
    rw [e1] at h
    have hS : ∀ n ∈ s, LaterConfig old node (padNodeOn old sp s node n) := fun n hn => padNodeOn_start hp hmem hn
    obtain ⟨q0, a1, ⟨n, hn, a2⟩, a3, a4, a5, a6⟩ := padRun_path (Start := LaterConfig old node) hc hm hs ho ok L ht
      (fun n => hi.insideNode n) hS hku h hne
    obtain ⟨f1, f2, _⟩ := laterConfig_near hi (hS n hn)
    exact ⟨q0, a1, ⟨_, a2, hS n hn, f1, f2⟩, a3, a4, a5, startFree hi hp hmem hn, a6⟩
  · have he : padStartOn clamp m old node.x node.y = .throw e := he
    unfold padFindConfigOn at h
    rw [he] at h
    simp at h

end
end PathPlanning
