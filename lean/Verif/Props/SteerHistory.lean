import Verif.Props.KinHist
import Verif.Props.SteerSearch2
import Verif.Spec.SteerHistory

/-!
# Later searches with a steering neighbourhood (C92)
-/

noncomputable section
namespace PathPlanning
open Spec

section
variable {clamp : ℝ → ℝ} {m : GridMap ℝ} {skips : Nat} {b : Bres ℝ} {S : SteerCfg} {pd : Nat}
  {mvs : List (SNode → List SNode → Option (ℝ × SNode))} {isg : SNode → SNode → Option SNode → Bool} {D : ℝ}
  {adv : SNode → ℝ → SNode → Prop} {cs : List ℝ}
  {O : OpenList (PadCell m.width m.height) ℝ} {cfg : SCfg (PadCell m.width m.height) ℝ}
  {start goal : Pose} {lab : Labels (PadCell m.width m.height) ℝ} {old : PadCell m.width m.height → SNode}

/-- Stored positions lie in the cell of their node. -/
def InCell {w h : Nat} (old : PadCell w h → SNode) : Prop := ∀ n, ⌊(old n).x⌋ = n.x ∧ ⌊(old n).y⌋ = n.y

theorem InCell.inside {w h : Nat} {old : PadCell w h → SNode} (hi : InCell old) {sp s gp g : List (PadCell w h)} (n : PadCell w h) :
    InsidePad w h (padContentOn old sp s gp g start goal n) := by
  have := n.bounds
  obtain ⟨h1, h2⟩ := hi n
  unfold InsidePad padContentOn
  simp only [h1, h2]
  omega

theorem InCell.init {w h : Nat} : InCell (initContent (w := w) (h := h)) := fun n => by
  simp [initContent]

theorem notOccupiedOn_spec (hm : m.WellFormed) : ∀ ns : List (PadCell m.width m.height),
    ∃ r, notOccupiedOn m old ns = .ok r ∧
      ∀ n, n ∈ r ↔ n ∈ ns ∧ ptOccupied m (truncC (old n).x) (truncC (old n).y) = .ok false := by
  intro ns
  induction ns with
  | nil => exact ⟨[], rfl, by simp⟩
  | cons n ns ih =>
    obtain ⟨r, e, hr⟩ := ih
    obtain ⟨o, ho⟩ := (pt_total m hm (truncC (old n).x) (truncC (old n).y)).2.2
    rw [notOccupiedOn, ho, e]
    refine ⟨if o then r else n :: r, rfl, fun k => ?_⟩
    cases o with
    | true =>
      simp only [if_true, hr, List.mem_cons]
      constructor
      · rintro ⟨a, b⟩; exact ⟨.inr a, b⟩
      · rintro ⟨rfl | a, b⟩
        · rw [ho] at b; cases b
        · exact ⟨a, b⟩
    | false =>
      simp only [Bool.false_eq_true, if_false, hr, List.mem_cons]
      constructor
      · rintro (rfl | ⟨a, b⟩)
        · exact ⟨.inl rfl, ho⟩
        · exact ⟨.inr a, b⟩
      · rintro ⟨rfl | a, b⟩
        · exact .inl rfl
        · exact .inr ⟨a, b⟩

/-- A later search that got past its initialisation. -/
structure StartedOn (clamp : ℝ → ℝ) (m : GridMap ℝ) (old : PadCell m.width m.height → SNode) (start goal : Pose)
    (sp s gp g : List (PadCell m.width m.height)) : Prop where
  init : padInitOn clamp m old start goal = .ok (sp, s, gp, g)
  hsp : poseCells start sp
  hgp : poseCells goal gp
  hs : ∀ n, n ∈ s ↔ n ∈ sp ∧ ptOccupied m (truncC (old n).x) (truncC (old n).y) = .ok false
  hg : ∀ n, n ∈ g ↔ n ∈ gp ∧ ptOccupied m (truncC (old n).x) (truncC (old n).y) = .ok false

theorem padInitOn_cases (hc : ClampSpec clamp) (hm : SteerMapOk m D) (h1 : IntPose start) (h2 : IntPose goal) :
    (∃ sp s gp g, StartedOn clamp m old start goal sp s gp g) ∨
    (∃ e, padInitOn clamp m old start goal = .throw e ∧ (e = "OutsideMapException" ∨ e = "std::out_of_range") ∧
      (¬ InsidePad m.width m.height ⟨start.x, start.y, 0, true, 0, 0, 0⟩ ∨
        ¬ InsidePad m.width m.height ⟨goal.x, goal.y, 0, true, 0, 0, 0⟩)) := by
  rcases getPoses_cases (w := m.width) (h := m.height) hc h1 with ⟨sp, e1, p1⟩ | ⟨e, e1, e2, e3⟩
  swap
  · right; unfold padInitOn; rw [e1]; exact ⟨e, rfl, e2, .inl e3⟩
  obtain ⟨s, e3, hs⟩ := notOccupiedOn_spec (old := old) hm.wf sp
  rcases getPoses_cases (w := m.width) (h := m.height) hc h2 with ⟨gp, g1, p2⟩ | ⟨e, g1, g2, g3⟩
  swap
  · right; unfold padInitOn; rw [e1]; simp only [CRes.ok_bind, e3, g1]; exact ⟨e, rfl, g2, .inr g3⟩
  obtain ⟨g, g3, hg⟩ := notOccupiedOn_spec (old := old) hm.wf gp
  left
  refine ⟨sp, s, gp, g, ?_, p1, p2, hs, hg⟩
  unfold padInitOn
  rw [e1]
  simp only [CRes.ok_bind, e3, g1, g3]
  rfl

variable {sp s gp g : List (PadCell m.width m.height)}

theorem StartedOn.startPose (h : StartedOn clamp m old start goal sp s gp g) {n : PadCell m.width m.height} (hn : n ∈ s) :
    LaterStart old start goal (padContentOn old sp s gp g start goal n) := by
  obtain ⟨h1, h2⟩ := (h.hs n).1 hn
  obtain ⟨e1, e2, e3⟩ := (poseCells_mem h.hsp n).1 h1
  refine ⟨n, e1, e2, e3, rfl, rfl, rfl, rfl, rfl, ?_, ?_⟩
  · simp [padContentOn, h1]
  · have hiff : n ∈ g ↔ ⌊start.x⌋ = ⌊goal.x⌋ ∧ ⌊start.y⌋ = ⌊goal.y⌋ := by
      rw [h.hg, poseCells_mem h.hgp, e1, e2]
      exact ⟨fun q => ⟨q.1.1, q.1.2.1⟩, fun q => ⟨⟨q.1, q.2, e3⟩, h2⟩⟩
    simp only [padContentOn, hn, if_true, hiff]

theorem StartedOn.reach (hc : ClampSpec clamp) (hm : SteerMapOk m D) (hs : StepBound mvs D) (ho : Offers mvs adv m.res)
    (hi : InCell old) (h : StartedOn clamp m old start goal sp s gp g) {k : SNode}
    (hr : Reachable (padAlgo clamp m skips b S mvs pd isg) s (padContentOn old sp s gp g start goal) k) :
    RoadFrom adv m skips (LaterStart old start goal) k := by
  induction hr with
  | start hn => exact .start (h.startPose hn)
  | step hr hl hn ih =>
    have hin := reachable_inside hc hm (fun n _ => hi.inside n) hr
    obtain ⟨c0, h1, _⟩ := legal_road hm hs ho hin hl
    exact .step ih h1 (inside_of_lookup hc hm.sizes.1 hm.sizes.2 hn)

theorem padFindOn_ok (hc : ClampSpec clamp) (hm : SteerMapOk m D) {A : KAlgo (PadCell m.width m.height) SNode ℝ}
    (h1 : IntPose start) (h2 : IntPose goal) {fuel : Nat} {q : List SNode} {st}
    (h : padFindOn clamp A O cfg lab old start goal fuel = some (.ok q, st)) :
    ∃ sp s gp g p st', StartedOn clamp m old start goal sp s gp g ∧
      kFindOn A O { cfg with start := s, goal := g } lab (padContentOn old sp s gp g start goal) fuel = some (.ok p, st') ∧
      st = some st' ∧ q = p.map st'.kin := by
  rcases padInitOn_cases (old := old) hc hm h1 h2 with ⟨sp, s, gp, g, hst⟩ | ⟨e, he, _⟩
  · unfold padFindOn at h
    rw [hst.init] at h
    simp only [Option.map_eq_some_iff] at h
    obtain ⟨⟨r, st'⟩, h3, h4⟩ := h
    simp only [Prod.mk.injEq] at h4
    obtain ⟨h4, h5⟩ := h4
    cases r with
    | ok p =>
      simp only [CRes.ok.injEq] at h4
      exact ⟨sp, s, gp, g, p, st', hst, h3, h5.symm, h4.symm⟩
    | throw e => simp at h4
    | ub => simp at h4
  · unfold padFindOn at h
    rw [he] at h
    simp at h

/-- What holds after every history. -/
theorem padUsed_spec (hc : ClampSpec clamp) (hm : SteerMapOk m D)
    (ok : KCostOk (padAlgo clamp m skips b S mvs pd isg) cs) (L : Lawful O)
    (h : PadUsed (padAlgo clamp m skips b S mvs pd isg) O lab old) :
    (∃ Ss, KUsed (padAlgo clamp m skips b S mvs pd isg) cs O Ss lab) ∧ InCell old := by
  induction h with
  | setMap => exact ⟨⟨_, .setMap⟩, InCell.init⟩
  | @left lab old kin cfg pc st A' _ hw h0 ha hmv hl hd ih =>
    obtain ⟨⟨Ss, hu⟩, hi⟩ := ih
    have ok' : KCostOk A' cs := ok.other ha hmv
    refine ⟨⟨_, .left hu h0 ha ok' hd⟩, fun n => ?_⟩
    have hh : KHist A' cs (cfg.start ++ Ss) lab := fun l k =>
      (KHist.other h0 ha (KUsed_hist L hu) l k).mono fun s hs => List.mem_append_right _ hs
    have hmid := (during_mid ok' L hh (fun s hs => List.mem_append_left _ hs) hd).1
    have hw' : ⌊(kin n).x⌋ = n.x ∧ ⌊(kin n).y⌋ = n.y := by rw [(hw n).1, (hw n).2.1]; exact hi n
    by_cases hns : n ∈ cfg.start
    · rw [hmid.startKin n hns]; exact hw'
    · by_cases hT : Touched cfg.start lab st.s.lab n
      · have h3 := (hmid.stored n hns hT).1
        rw [hl] at h3
        have h3 : steerLookup clamp m.width m.height (st.kin n) = .ok (some n) := h3
        obtain ⟨a1, a2, _⟩ := (steerLookup_iff hc hm.sizes.1 hm.sizes.2).1 h3
        exact ⟨a1.symm, a2.symm⟩
      · rw [hmid.newKin n hT]; exact hw'

theorem padContentOn_written {w h : Nat} {old : PadCell w h → SNode} {sp s gp g : List (PadCell w h)} (n : PadCell w h) :
    (padContentOn old sp s gp g start goal n).x = (old n).x ∧ (padContentOn old sp s gp g start goal n).y = (old n).y ∧
      (padContentOn old sp s gp g start goal n).steer = (old n).steer := ⟨rfl, rfl, rfl⟩

/-- **C92 (histories).**  A call of `findPath`, whatever its result, gives a used object. -/
theorem padUsed_find {A : KAlgo (PadCell m.width m.height) SNode ℝ} (hu : PadUsed A O lab old) {fuel : Nat} {r st}
    (h : padFindOn clamp A O cfg lab old start goal fuel = some (r, some st)) : PadUsed A O st.s.lab st.kin := by
  unfold padFindOn at h
  cases hi : padInitOn clamp m old start goal with
  | throw e => rw [hi] at h; simp at h
  | ub => rw [hi] at h; simp at h
  | ok x =>
    obtain ⟨sp, s, gp, g⟩ := x
    rw [hi] at h
    simp only [Option.map_eq_some_iff] at h
    obtain ⟨⟨r', st'⟩, h3, h4⟩ := h
    simp only [Prod.mk.injEq, Option.some.injEq] at h4
    obtain ⟨_, rfl⟩ := h4
    obtain ⟨pc, hd⟩ := during_kFindOn h3
    exact .left hu (fun n => padContentOn_written n) rfl rfl rfl rfl hd

/-- **C92 (histories).**  If the goal cannot be looked up, the start nodes `s` have been labelled and written already. -/
theorem padUsed_noGoal {A : KAlgo (PadCell m.width m.height) SNode ℝ} (hu : PadUsed A O lab old)
    {sp s gp : List (PadCell m.width m.height)} :
    PadUsed A O (kInitOn A O { cfg with start := s } lab (padContentOn old sp s gp [] start goal)).s.lab
      (padContentOn old sp s gp [] start goal) :=
  PadUsed.left (A' := A) (cfg := { cfg with start := s }) hu (fun n => padContentOn_written n) rfl rfl rfl rfl .init

/-- **C92 (the first pose).**  The pose a later search begins with lies in the cell of the requested start. -/
theorem laterStart_near {w h : Nat} {old : PadCell w h → SNode} (hi : InCell old) {k : SNode} (hk : LaterStart old start goal k) :
    ⌊k.x⌋ = ⌊start.x⌋ ∧ ⌊k.y⌋ = ⌊start.y⌋ ∧ abs (k.x - start.x) < 1 ∧ abs (k.y - start.y) < 1 := by
  obtain ⟨n, e1, e2, _, e3, e4, _⟩ := hk
  obtain ⟨i1, i2⟩ := hi n
  have h1 : ⌊k.x⌋ = ⌊start.x⌋ := by rw [e3, i1, e1]
  have h2 : ⌊k.y⌋ = ⌊start.y⌋ := by rw [e4, i2, e2]
  exact ⟨h1, h2, Int.abs_sub_lt_one_of_floor_eq_floor h1, Int.abs_sub_lt_one_of_floor_eq_floor h2⟩

/-- **C92 (later searches end).** -/
theorem later_pad_ends (hc : ClampSpec clamp) (hm : SteerMapOk m D) (hs : StepBound mvs D) (ho : Offers mvs adv m.res)
    (ok : KCostOk (padAlgo clamp m skips b S mvs pd isg) cs) (L : Lawful O) (ht : TopOk cfg.top)
    (h1 : IntPose start) (h2 : IntPose goal) (hu : PadUsed (padAlgo clamp m skips b S mvs pd isg) O lab old) :
    ∃ fuel r st, padFindOn clamp (padAlgo clamp m skips b S mvs pd isg) O cfg lab old start goal fuel = some (r, st) ∧ r ≠ .ub ∧
      ∀ e, r = .throw e → (e = "OutsideMapException" ∨ e = "std::out_of_range") ∧
        (¬ InsidePad m.width m.height ⟨start.x, start.y, 0, true, 0, 0, 0⟩ ∨
          ¬ InsidePad m.width m.height ⟨goal.x, goal.y, 0, true, 0, 0, 0⟩ ∨
          ∃ k c k', RoadFrom adv m skips (LaterStart old start goal) k ∧ RoadStep adv m skips k c k' ∧
            OnEdge m.width m.height k') := by
  obtain ⟨⟨Ss, hku⟩, hi⟩ := padUsed_spec hc hm ok L hu
  rcases padInitOn_cases (old := old) hc hm h1 h2 with ⟨sp, s, gp, g, hst⟩ | ⟨e, he, h3, h4⟩
  · obtain ⟨fuel, r, st, q1, q2, q3⟩ := later_kin_ends (P := O) (cfg := { cfg with start := s, goal := g })
      (kin0 := padContentOn old sp s gp g start goal) ok L ht hku
    have hsome : ∀ r', r' = (match r with
        | .ok p => .ok (p.map st.kin)
        | .throw e => .throw e
        | .ub => .ub : CRes (List SNode)) →
        padFindOn clamp (padAlgo clamp m skips b S mvs pd isg) O cfg lab old start goal fuel = some (r', some st) := by
      intro r' hr'
      unfold padFindOn
      rw [hst.init]
      rw [hr']
      simp only [q1, Option.map_some]
      cases r <;> rfl
    refine ⟨fuel, _, some st, hsome _ rfl, ?_, ?_⟩
    · cases r with
      | ok p => simp
      | throw e => simp
      | ub => exact absurd (q3 rfl) (pad_no_ub hc hm hs (fun n _ => hi.inside n))
    · intro e' hr
      cases r with
      | ok p => simp at hr
      | ub => simp at hr
      | throw e =>
        simp only [CRes.throw.injEq] at hr
        subst hr
        obtain ⟨t1, k, c, k', t2, t3, t4⟩ := pad_throws hc hm hs (fun n _ => hi.inside n) (q2 e rfl)
        obtain ⟨c0, t5, _⟩ := legal_road hm hs ho (reachable_inside hc hm (fun n _ => hi.inside n) t2) t3
        exact ⟨t1, .inr (.inr ⟨k, c0, k', hst.reach hc hm hs ho hi t2, t5, t4⟩)⟩
  · refine ⟨0, .throw e, none, ?_, by simp, ?_⟩
    · unfold padFindOn; rw [he]
    · intro e' hr
      cases hr
      exact ⟨h3, h4.elim .inl (fun h => .inr (.inl h))⟩

/-- **C92 (later paths).**  What a path returned after any history is. -/
theorem later_pad_path (hc : ClampSpec clamp) (hm : SteerMapOk m D) (hs : StepBound mvs D) (ho : Offers mvs adv m.res)
    (ok : KCostOk (padAlgo clamp m skips b S mvs pd isg) cs) (L : Lawful O) (ht : TopOk cfg.top)
    (h1 : IntPose start) (h2 : IntPose goal) (hu : PadUsed (padAlgo clamp m skips b S mvs pd isg) O lab old)
    {fuel : Nat} {q : List SNode} {st}
    (h : padFindOn clamp (padAlgo clamp m skips b S mvs pd isg) O cfg lab old start goal fuel = some (.ok q, st)) (hne : q ≠ []) :
    (∃ k0, q.head? = some k0 ∧ LaterStart old start goal k0 ∧ ⌊k0.x⌋ = ⌊start.x⌋ ∧ ⌊k0.y⌋ = ⌊start.y⌋) ∧
    (∀ k ∈ q, RoadFrom adv m skips (LaterStart old start goal) k) ∧
    (∀ x y, [x, y] <:+: q → ∃ x' c, SameState clamp x' x ∧ RoadFrom adv m skips (LaterStart old start goal) x' ∧
      RoadStep adv m skips x' c y) ∧
    (∀ x y, [x, y] <+: q → ∃ c, RoadStep adv m skips x c y) ∧
    q.length ≤ (m.width + 63) * (m.height + 63) * 64 ∧
    ∃ kl, q.getLast? = some kl ∧ ∃ k kg pv, SameState clamp k kl ∧ (cfg.useCands = false → k = kl) ∧
      RoadFrom adv m skips (LaterStart old start goal) k ∧ isg kg k pv = true ∧
      LaterGoal clamp adv m skips (LaterStart old start goal) goal kg := by
  obtain ⟨⟨Ss, hku⟩, hi⟩ := padUsed_spec hc hm ok L hu
  obtain ⟨sp, s, gp, g, p, st', hst, hk, e1, rfl⟩ := padFindOn_ok hc hm h1 h2 h
  obtain ⟨⟨d, t1, _⟩, ⟨n, hn, t2⟩, t3, tnd, t4, _, kl, t5, ⟨k, w, t6, t7⟩, t8⟩ :=
    later_kin_path (cfg := { cfg with start := s, goal := g }) ok L ht hku hk (by rintro rfl; exact hne rfl)
  have hin : ∀ k, Reachable (padAlgo clamp m skips b S mvs pd isg) s (padContentOn old sp s gp g start goal) k →
      InsidePad m.width m.height k := fun k hr => reachable_inside hc hm (fun n _ => hi.inside n) hr
  have hreach : ∀ k, Reachable (padAlgo clamp m skips b S mvs pd isg) s (padContentOn old sp s gp g start goal) k →
      RoadFrom adv m skips (LaterStart old start goal) k := fun k hr => hst.reach hc hm hs ho hi hr
  have hgm : ∀ k w, GoalMet (padAlgo clamp m skips b S mvs pd isg) s g (padContentOn old sp s gp g start goal) k w →
      RoadFrom adv m skips (LaterStart old start goal) k ∧ ∃ kg pv, isg kg k pv = true ∧
        LaterGoal clamp adv m skips (LaterStart old start goal) goal kg := by
    rintro k w ⟨hr, n, hn, kg, pv, e1, e2, e3⟩
    refine ⟨hreach k hr, kg, pv, e1, ?_⟩
    obtain ⟨g1, g2⟩ := (hst.hg n).1 hn
    obtain ⟨c1, c2, c3⟩ := (poseCells_mem hst.hgp n).1 g1
    rcases e3 with rfl | ⟨e3, e4⟩
    · refine ⟨?_, ?_, .inl ?_⟩
      · rw [← c1]; exact (hi n).1
      · rw [← c2]; exact (hi n).2
      · simp only [padContentOn, hn, if_true]
    · have e3' : steerLookup clamp m.width m.height kg = .ok (some n) := e3
      obtain ⟨a1, a2, a3, _⟩ := (steerLookup_iff hc hm.sizes.1 hm.sizes.2).1 e3'
      exact ⟨by omega, by omega, .inr ⟨hreach kg e4, by rw [a3, c3]⟩⟩
  obtain ⟨p1, p2⟩ := cellTrace_pairs t1
  have hls := hst.startPose hn
  obtain ⟨f1, f2, _⟩ := laterStart_near hi hls
  refine ⟨⟨_, t2, hls, f1, f2⟩, fun k hk => hreach k (t3 k hk), ?_, ?_, ?_, kl, t5, ?_⟩
  · intro x y hxy
    obtain ⟨x', c, hx, hl⟩ := p1 x y hxy
    have hrx : Reachable (padAlgo clamp m skips b S mvs pd isg) s (padContentOn old sp s gp g start goal) x' := by
      rcases hx with rfl | hx
      · exact t3 x' (hxy.subset (by simp))
      · exact hx.2
    obtain ⟨c0, hr, _⟩ := legal_road hm hs ho (hin x' hrx) hl
    refine ⟨x', c0, ?_, hreach x' hrx, hr⟩
    rcases hx with rfl | hx
    · exact ⟨rfl, rfl, rfl, rfl⟩
    · exact sameState_of_sameCell hc hm hx.1
  · intro x y hxy
    obtain ⟨c, hl⟩ := p2 x y hxy
    obtain ⟨c0, hr, _⟩ := legal_road hm hs ho (hin x (t3 x (hxy.subset (by simp)))) hl
    exact ⟨c0, hr⟩
  · rw [List.length_map]
    refine t4.trans (le_of_eq ?_)
    simp only [Fintype.card_prod, Fintype.card_fin, Fintype.card_bool]
    ring
  · by_cases hu : cfg.useCands = false
    · obtain ⟨w', hg⟩ := t8 hu
      obtain ⟨r1, kg, pv, r2, r3⟩ := hgm _ _ hg
      exact ⟨kl, kg, pv, ⟨rfl, rfl, rfl, rfl⟩, fun _ => rfl, r1, r2, r3⟩
    · obtain ⟨r1, kg, pv, r2, r3⟩ := hgm _ _ t6
      refine ⟨k, kg, pv, ?_, fun e => absurd e hu, r1, r2, r3⟩
      rcases t7 with rfl | t7
      · exact ⟨rfl, rfl, rfl, rfl⟩
      · exact sameState_of_sameCell hc hm t7

/-- A start in the map whose cell is occupied gives no path, in every history. -/
theorem later_pad_occupied (hc : ClampSpec clamp) (hm : SteerMapOk m D)
    (ok : KCostOk (padAlgo clamp m skips b S mvs pd isg) cs) (L : Lawful O) (ht : TopOk cfg.top)
    (h1 : IntPose start) (h2 : IntPose goal) (hu : PadUsed (padAlgo clamp m skips b S mvs pd isg) O lab old)
    (hin : 0 ≤ ⌊start.x⌋ ∧ 0 ≤ ⌊start.y⌋) (hocc : ptOccupied m ⌊start.x⌋ ⌊start.y⌋ = .ok true)
    {fuel : Nat} {q : List SNode} {st}
    (h : padFindOn clamp (padAlgo clamp m skips b S mvs pd isg) O cfg lab old start goal fuel = some (.ok q, st)) : q = [] := by
  obtain ⟨⟨Ss, hku⟩, hi⟩ := padUsed_spec hc hm ok L hu
  obtain ⟨sp, s, gp, g, p, st', hst, hk, e1, rfl⟩ := padFindOn_ok hc hm h1 h2 h
  have hs : s = [] := by
    rw [List.eq_nil_iff_forall_not_mem]
    intro n hn
    obtain ⟨h3, h4⟩ := (hst.hs n).1 hn
    obtain ⟨c1, c2, _⟩ := (poseCells_mem hst.hsp n).1 h3
    obtain ⟨i1, i2⟩ := hi n
    have hx : (0 : ℝ) ≤ (old n).x := by
      have : 0 ≤ ⌊(old n).x⌋ := by omega
      exact Int.floor_nonneg.1 this
    have hy : (0 : ℝ) ≤ (old n).y := by
      have : 0 ≤ ⌊(old n).y⌋ := by omega
      exact Int.floor_nonneg.1 this
    rw [truncC_nonneg hx, truncC_nonneg hy, i1, i2, c1, c2, hocc] at h4
    cases h4
  by_contra hne
  obtain ⟨_, ⟨n, hn, _⟩, _⟩ := later_kin_path (cfg := { cfg with start := s, goal := g }) ok L ht hku hk
    (by rintro rfl; exact hne rfl)
  have hn' : n ∈ s := hn
  rw [hs] at hn'; cases hn'

end
end PathPlanning
