import Verif.Spec.KinCustomDuring
import Verif.Props.KinCustomDuring
import Verif.Props.SteerCustom
import Verif.Props.SteerDuringExact

/-!
# Steering searches with a goal test on a grid map that changes meanwhile (C122)
-/

noncomputable section
namespace PathPlanning.TDur
open PathPlanning Spec KDur
set_option linter.unusedSectionVars false

variable {clamp : ℝ → ℝ} {m : GridMap ℝ} {skips : Nat} {b : Bres ℝ} {S : SteerCfg} {pd : Nat}
  {mvs : List (SNode → List SNode → Option (ℝ × SNode))} {isg : SNode → SNode → Option SNode → Bool} {D : ℝ}
  {adv : SNode → ℝ → SNode → Prop} {cs : List ℝ} {datas : Nat → List UInt8} {E : Nat}
  {O : OpenList (PadCell m.width m.height) ℝ} {cfg : SCfg (PadCell m.width m.height) ℝ}
  {start : Pose} {T : KGoalTest (PadCell m.width m.height) SNode ℝ O} {rev : Bool}

/-- **C122.**  The search ends however the callback changes the cells of the map and whatever the goal test does, without undefined
behaviour; it throws only if the start is not on the padded map (or on its outermost left or bottom line), or if a step accepted
by the map of some moment leads onto these lines. -/
theorem pad_ends (hc : ClampSpec clamp) (hm : SteerMapOk m D) (hd : ∀ j, m.width * m.height ≤ (datas j).length)
    (hs : StepBound mvs D) (ho : Offers mvs adv m.res)
    (ok : KCostOk (padAlgo clamp m skips b S mvs pd isg) cs) (L : Lawful O) (ht : TopOk cfg.top) (h1 : IntPose start) :
    ∃ fuel r E, padFindTestDuring clamp (padAlgo clamp m skips b S mvs pd isg) skips b datas O cfg T rev start fuel =
        some (r, E) ∧ r ≠ .ub ∧
      ∀ e, r = .throw e → (e = "OutsideMapException" ∨ e = "std::out_of_range") ∧
        (¬ InsidePad m.width m.height ⟨start.x, start.y, 0, true, 0, 0, 0⟩ ∨
          ∃ k c k', ReachAt adv m datas E skips start start k ∧ RoadStepAt adv m datas E skips k c k' ∧
            OnEdge m.width m.height k') := by
  rcases padStartNodes_cases hc hm h1 with ⟨sp, s, e, hst⟩ | ⟨e, he, h3, h4⟩
  · obtain ⟨fuel, r, st', q1⟩ := ends (P := O) (cfg := { cfg with start := s })
      (us := fun k => steerUsable (shown m (datas k)) skips b)
      (kin0 := padContent sp s sp s start start) ok L ht T
    obtain ⟨q2, q3⟩ := throws (cfg := { cfg with start := s }) ok L ht q1
    set E := st'.s.expansions with hE
    have hask : ∀ j, ∀ k k', Asked (some' clamp m skips b S mvs pd isg datas E) s (padContent sp s sp s start start) k k' →
        InsidePad m.width m.height k ∧ IntNode k' ∧ ∃ u, steerUsable (shown m (datas j)) skips b k k' = .ok u ∧
          (u = true → -32 ≤ ⌊k'.x⌋ ∧ ⌊k'.x⌋ < m.width + 32 ∧ -32 ≤ ⌊k'.y⌋ ∧ ⌊k'.y⌋ < m.height + 32) := by
      rintro j k k' ⟨hr, mv, hmv, ps, c, e⟩
      have hi := inside hc hm (fun _ _ => padContent_inside _) hr
      have hk' := intNode_of_step hm hi (hs mv hmv _ _ _ _ e)
      obtain ⟨u, hu, hiff⟩ := steerUsable_iff (shown_ok hm hd j) skips b hi hk'
      exact ⟨hi, hk', u, hu, fun e => (hiff.1 e).1⟩
    have hrun : padFindTestDuring clamp (padAlgo clamp m skips b S mvs pd isg) skips b datas O cfg T rev start fuel =
        some ((match (generalizing := false) r with
          | .ok q => .ok (if rev then q.reverse else q)
          | .throw e => .throw e
          | .ub => .ub), E) := by
      unfold padFindTestDuring; rw [e]; simp only [padStart_eq, q1, Option.map_some, ← hE]; cases r <;> rfl
    refine ⟨fuel, _, E, hrun, ?_, ?_⟩
    · intro hr
      cases r with
      | ok q => cases hr
      | throw e => cases hr
      | ub =>
        obtain ⟨j, _, k, k', ha, hb⟩ := q3 rfl
        obtain ⟨hi, hk', u, hu, _⟩ := hask j k k' ha
        rcases hb with hb | ⟨_, hb⟩
        · rw [hu] at hb; cases hb
        · have hb' : steerLookup clamp m.width m.height k' = .ub := hb
          obtain ⟨t, _, htl, he⟩ := steerLookup_eq (w := m.width) (h := m.height) hc hk'
          rw [he] at hb'
          rcases padLookup_cases (w := m.width) (h := m.height) ⌊k'.x⌋ ⌊k'.y⌋ t k'.forward htl with ⟨n, q⟩ | ⟨q, _⟩ | ⟨q, _⟩ <;>
            rw [q] at hb' <;> cases hb'
    · intro e' hr
      cases r with
      | ok q => cases hr
      | ub => cases hr
      | throw e'' =>
      cases hr
      obtain ⟨j, hj, k, k', ha, hb⟩ := q2 e' rfl
      obtain ⟨hi, hk', u, hu, hu2⟩ := hask j k k' ha
      rcases hb with hb | ⟨hb1, hb⟩
      · rw [hu] at hb; cases hb
      have hb' : steerLookup clamp m.width m.height k' = .throw e' := hb
      obtain ⟨t, _, htl, he⟩ := steerLookup_eq (w := m.width) (h := m.height) hc hk'
      rw [he] at hb'
      rw [hu] at hb1
      injection hb1 with hb1
      have hrng := hu2 hb1
      obtain ⟨hreach, mv, hmv, ps, c, hmove⟩ := ha
      obtain ⟨c0, hstep, _⟩ := legal_at (adv := adv) (E := E) hm hd hs ho hi
        (show LegalStep (some' clamp m skips b S mvs pd isg datas E) k c k' from
          ⟨mv, hmv, ps, hmove, onSome_iff.2 ⟨j, hj, by rw [hu, hb1]⟩⟩)
      have hex : OnEdge m.width m.height k' → ∃ k c k', ReachAt adv m datas E skips start start k ∧
          RoadStepAt adv m datas E skips k c k' ∧ OnEdge m.width m.height k' :=
        fun hh => ⟨k, c0, k', reachAt hc hm hd hs ho hst hreach, hstep, hh⟩
      rcases padLookup_cases (w := m.width) (h := m.height) ⌊k'.x⌋ ⌊k'.y⌋ t k'.forward htl with ⟨n, q⟩ | ⟨q, hedge⟩ | ⟨q, hedge⟩
      · rw [q] at hb'; cases hb'
      · rw [q] at hb'; cases hb'
        exact ⟨.inr rfl, .inr (hex hedge)⟩
      · rw [q] at hb'; cases hb'
        exact ⟨.inl rfl, .inr (hex ⟨hrng.1, hrng.2.1, hrng.2.2.1, hrng.2.2.2, by omega⟩)⟩
  · refine ⟨0, .throw e, 0, ?_, by simp, ?_⟩
    · unfold padFindTestDuring; rw [he]
    · intro e' hr
      cases hr
      exact ⟨h3, .inl h4⟩

/-- A returned path is that of the search on the start nodes, turned round for a reversed neighbourhood. -/
theorem padFindTestDuring_ok (hc : ClampSpec clamp) (hm : SteerMapOk m D) (h1 : IntPose start)
    {A : KAlgo (PadCell m.width m.height) SNode ℝ} {fuel : Nat} {q : List SNode}
    (h : padFindTestDuring clamp A skips b datas O cfg T rev start fuel = some (.ok q, E)) :
    ∃ sp s q0 st', Started clamp m start start sp s sp s ∧ q = (if rev then q0.reverse else q0) ∧
      E = st'.s.expansions ∧
      kFindTestDuring A (fun k => steerUsable (shown m (datas k)) skips b) O { cfg with start := s } T
        (padContent sp s sp s start start) fuel = some (.ok q0, st') := by
  rcases padStartNodes_cases hc hm h1 with ⟨sp, s, e, hst⟩ | ⟨e, he, _⟩
  · unfold padFindTestDuring at h
    rw [e] at h
    simp only [padStart_eq] at h
    obtain ⟨⟨r, st'⟩, hr, h⟩ := Option.map_eq_some_iff.1 h
    simp only [Prod.mk.injEq] at h
    obtain ⟨h, rfl⟩ := h
    cases r with
    | ok q0 => simp only [CRes.ok.injEq] at h; exact ⟨sp, s, q0, st', hst, h.symm, rfl, hr⟩
    | throw e => simp at h
    | ub => simp at h
  · unfold padFindTestDuring at h
    rw [he] at h
    simp at h

/-- **C122.**  A returned path (turned round for a reversed neighbourhood) begins at the start, which was not occupied at the
beginning; each of its steps was accepted by the map of some moment during the search; it ends at a pose the goal test accepted, or
in the state of one. -/
theorem pad_path (hc : ClampSpec clamp) (hm : SteerMapOk m D) (hd : ∀ j, m.width * m.height ≤ (datas j).length)
    (hs : StepBound mvs D) (ho : Offers mvs adv m.res)
    (ok : KCostOk (padAlgo clamp m skips b S mvs pd isg) cs) (L : Lawful O) (ht : TopOk cfg.top)
    (h1 : IntPose start) {fuel : Nat} {q : List SNode}
    (h : padFindTestDuring clamp (padAlgo clamp m skips b S mvs pd isg) skips b datas O cfg T rev start fuel =
      some (.ok q, E)) (hne : q ≠ []) :
    ∃ q0, q = (if rev then q0.reverse else q0) ∧
    (∃ k0, q0.head? = some k0 ∧ StartPose start start k0) ∧
    (∀ k ∈ q0, ReachAt adv m datas E skips start start k) ∧
    (∀ x y, [x, y] <:+: q0 → ∃ x' c, SameState clamp x' x ∧ ReachAt adv m datas E skips start start x' ∧
      RoadStepAt adv m datas E skips x' c y ∧ ([x, y] <+: q0 → x' = x)) ∧
    q0.length ≤ (m.width + 63) * (m.height + 63) * 64 ∧
    ptOccupied m ⌊start.x⌋ ⌊start.y⌋ = .ok false ∧
    ∃ kl, q0.getLast? = some kl ∧ ∃ k w, SameState clamp k kl ∧ ReachAt adv m datas E skips start start k ∧
      PoseAccepted T k w := by
  obtain ⟨sp, s, q0, st', hst, hq, rfl, hk⟩ := padFindTestDuring_ok hc hm h1 h
  have hne0 : q0 ≠ [] := by
    rintro rfl
    apply hne
    rw [hq]
    cases rev <;> rfl
  obtain ⟨⟨d, t1⟩, ⟨n, hn, t2⟩, t3, t4, nl, w, kl, k, t5, _, _, t6, t7, t8⟩ :=
    path (cfg := { cfg with start := s }) ok L ht hk hne0
  have hin : ∀ k, Reachable (some' clamp m skips b S mvs pd isg datas st'.s.expansions) s (padContent sp s sp s start start) k →
      InsidePad m.width m.height k := fun k hr => inside hc hm (fun _ _ => padContent_inside _) hr
  have hsame : ∀ {a c : SNode}, SameCell (padAlgo clamp m skips b S mvs pd isg) a c → SameState clamp a c :=
    fun hh => sameState_of_sameCell hc hm hh
  obtain ⟨p1, p2⟩ := cellTrace_pairs t1
  refine ⟨q0, hq, ⟨_, t2, hst.startPose hn⟩, fun k hk => reachAt hc hm hd hs ho hst (t3 k hk), ?_, ?_, ?_, kl, t5, ?_⟩
  · intro x y hxy
    by_cases hp : [x, y] <+: q0
    · obtain ⟨c, hl⟩ := p2 x y hp
      have hrx := t3 x (hxy.subset (by simp))
      obtain ⟨c0, hr, _⟩ := legal_at hm hd hs ho (hin x hrx) hl
      exact ⟨x, c0, ⟨rfl, rfl, rfl, rfl⟩, reachAt hc hm hd hs ho hst hrx, hr, fun _ => rfl⟩
    · obtain ⟨x', c, hx, hl⟩ := p1 x y hxy
      have hrx : Reachable (some' clamp m skips b S mvs pd isg datas st'.s.expansions) s
          (padContent sp s sp s start start) x' := by
        rcases hx with rfl | hx
        · exact t3 x' (hxy.subset (by simp))
        · exact hx.2
      obtain ⟨c0, hr, _⟩ := legal_at hm hd hs ho (hin x' hrx) hl
      refine ⟨x', c0, ?_, reachAt hc hm hd hs ho hst hrx, hr, fun e => absurd e hp⟩
      rcases hx with rfl | hx
      · exact ⟨rfl, rfl, rfl, rfl⟩
      · exact hsame hx.1
  · refine t4.trans (le_of_eq ?_)
    simp only [Fintype.card_prod, Fintype.card_fin, Fintype.card_bool]
    ring
  · obtain ⟨a1, a2⟩ := (hst.hs n).1 hn
    obtain ⟨e1, e2, _⟩ := (poseCells_mem hst.hsp n).1 a1
    rw [← e1, ← e2]; exact a2
  · refine ⟨k, w, ?_, reachAt hc hm hd hs ho hst t6, t7⟩
    rcases t8 with rfl | t8
    · exact ⟨rfl, rfl, rfl, rfl⟩
    · exact hsame t8

/-- **C122 (giving up).**  Without time limit, and if the test stops the search only at poses it accepts, an empty result means that
there is a set of reached poses with both driving directions at the start that cannot be left by a step that the maps of all
moments accept, and in which the test does not always accept a pose. -/
theorem pad_complete (hc : ClampSpec clamp) (hm : SteerMapOk m D) (hd : ∀ j, m.width * m.height ≤ (datas j).length)
    (hs : StepBound mvs D) (ho : Offers mvs adv m.res)
    (ok : KCostOk (padAlgo clamp m skips b S mvs pd isg) cs) (L : Lawful O) (ht : TopOk cfg.top)
    (hab : ∀ i, cfg.abort i = false) (hT : StopsAtAccepted T)
    {next : SNode → ℝ → SNode → Prop}
    (hnext : ∀ k c k', next k c k' → ∃ mv ∈ mvs, ∀ ps, mv k ps = some (c * m.res, k'))
    (h1 : IntPose start) {fuel : Nat}
    (h : padFindTestDuring clamp (padAlgo clamp m skips b S mvs pd isg) skips b datas O cfg T rev start fuel =
      some (.ok [], E)) :
    ∃ X, EnclosedAll clamp adv m datas E skips next start X ∧ ∀ k, X k → ¬ PoseAlwaysAccepted T k := by
  obtain ⟨sp, s, q0, st', hst, hq, rfl, hk⟩ := padFindTestDuring_ok hc hm h1 h
  have hq0 : q0 = [] := by cases rev <;> simpa using hq.symm
  subst hq0
  obtain ⟨κ, hsat, hacc⟩ := complete (cfg := { cfg with start := s }) ok L ht hab hT hk
  refine ⟨fun k => ∃ n, κ n = some k, ⟨?_, ?_, ?_⟩, fun k ⟨n, hn⟩ => hacc n k hn⟩
  · intro hocc f
    obtain ⟨n, hn, e1, e2, e3, e4⟩ := mem_poseCells hst.hsp f
    have hns : n ∈ s := (hst.hs n).2 ⟨hn, by rw [e1, e2]; exact hocc⟩
    refine ⟨_, ⟨n, hsat.init n hns⟩, hst.startPose hns, ?_⟩
    simp [padContent, hn, e4]
  · rintro k ⟨n, hn⟩
    exact reachAt hc hm hd hs ho hst (hsat.reach n k hn)
  · rintro k c k' ⟨n, hn⟩ hnx hadv hline hin
    obtain ⟨mv, hmv, hmv2⟩ := hnext k c k' hnx
    obtain ⟨ps, hps⟩ := hsat.moves n k hn mv hmv
    obtain ⟨v, hv⟩ := lookup_of_inside hc hm.sizes.1 hm.sizes.2 hin
    have hik : InsidePad m.width m.height k := inside hc hm (fun _ _ => padContent_inside _) (hsat.reach n k hn)
    have hus : ∀ j < st'.s.expansions, steerUsable (shown m (datas j)) skips b k k' = .ok true := by
      intro j hj
      obtain ⟨u, hu, hui⟩ := steerUsable_iff (shown_ok hm hd j) skips b hik
        (intNode_of_step hm hik (hs mv hmv k [] _ _ (hmv2 [])))
      rw [hu]
      congr 1
      rw [hui]
      refine ⟨?_, hline j hj⟩
      unfold InsidePad at hin
      show -32 ≤ ⌊k'.x⌋ ∧ ⌊k'.x⌋ < m.width + 32 ∧ -32 ≤ ⌊k'.y⌋ ∧ ⌊k'.y⌋ < m.height + 32
      omega
    obtain ⟨k'', hk''⟩ := Option.ne_none_iff_exists'.1 (hps _ _ v (hmv2 ps) hus hv)
    refine ⟨k'', ⟨v, hk''⟩, ?_⟩
    obtain ⟨a1, a2, a3, a4⟩ := (steerLookup_iff hc hm.sizes.1 hm.sizes.2).1 hv
    rcases hsat.cell v k'' hk'' with hvs | hvl
    · right
      have e := hsat.init v hvs
      rw [hk''] at e
      injection e with e
      have hvs' : v ∈ s := hvs
      have hsp := ((hst.hs v).1 hvs').1
      obtain ⟨c1, c2, c3⟩ := (poseCells_mem hst.hsp v).1 hsp
      refine ⟨by rw [e]; exact hst.startPose hvs', ?_, ?_, ?_, ?_⟩
      · rw [e]; simp [padContent, initContent]; omega
      · rw [e]; simp [padContent, initContent]; omega
      · rw [e]; simp only [padContent, hsp, true_or, if_true]; exact a4
      · rw [a3, c3]
    · left
      exact sameState_of_sameCell (S := S) (b := b) (skips := skips) (mvs := mvs) (pd := pd) (isg := isg) hc hm
        ⟨v, hvl, hv⟩

/-- **C122 (obstacles appear).**  Without heuristic, if the callback only adds obstacles: every step of a returned path begins at
the pose before it and is free on the map of the beginning; the last pose itself was accepted by the goal test. -/
theorem pad_exact_blocking (hc : ClampSpec clamp) (hm : SteerMapOk m D) (hd : ∀ j, m.width * m.height ≤ (datas j).length)
    (hs : StepBound mvs D) (ho : Offers mvs adv m.res)
    (ok : KCostOk (padAlgo clamp m skips b S mvs pd isg) cs) (L : Lawful O) (M : MinFirst O) (ht : TopOk cfg.top)
    (hheur : ∀ k g, S.heur k g = 0) (hhg : T.heurGoal = none) (hfirst : datas 0 = m.data) (hblock : OnlyBlocked m datas)
    (h1 : IntPose start) {fuel : Nat} {q : List SNode}
    (h : padFindTestDuring clamp (padAlgo clamp m skips b S mvs pd isg) skips b datas O cfg T rev start fuel =
      some (.ok q, E)) (hne : q ≠ []) :
    ∃ q0, q = (if rev then q0.reverse else q0) ∧
    (∃ k0, q0.head? = some k0 ∧ StartPose start start k0) ∧
    (∀ x y, [x, y] <:+: q0 → ∃ c, RoadStep adv m skips x c y) ∧
    ∃ kl w, q0.getLast? = some kl ∧ PoseAccepted T kl w := by
  obtain ⟨sp, s, q0, st', hst, hq, rfl, hk⟩ := padFindTestDuring_ok hc hm h1 h
  have hne0 : q0 ≠ [] := by
    rintro rfl
    apply hne
    rw [hq]
    cases rev <;> rfl
  obtain ⟨_, _, t3, _⟩ := path (cfg := { cfg with start := s }) ok L ht hk hne0
  obtain ⟨⟨d, t1⟩, ⟨n, hn, t2⟩, kl, w, t5, t6, _⟩ := exact_blocking (cfg := { cfg with start := s }) ok L M ht hheur hhg
    (fun a => add_zero a) (fun j k k' => usable_mono (free_mono hm hd hblock j)) hk hne0
  have hA : (padAlgo clamp m skips b S mvs pd isg).withUsable (steerUsable (shown m (datas 0)) skips b) =
      padAlgo clamp m skips b S mvs pd isg := by rw [hfirst]; rfl
  have t1' : Drive (padAlgo clamp m skips b S mvs pd isg) q0 d := hA ▸ t1
  refine ⟨q0, hq, ⟨_, t2, hst.startPose hn⟩, ?_, kl, w, t5, t6⟩
  intro x y hxy
  obtain ⟨c, hl⟩ := drive_pairs t1' x y hxy
  obtain ⟨c0, hr, _⟩ := legal_road hm hs ho
    (inside hc hm (fun _ _ => padContent_inside _) (t3 x (hxy.subset (by simp)))) hl
  exact ⟨c0, hr⟩

/-- If the cells keep the values they had at the beginning, the search is the ordinary one. -/
theorem pad_unchanged (hd : ∀ j, datas j = m.data) {fuel : Nat} :
    (padFindTestDuring clamp (padAlgo clamp m skips b S mvs pd isg) skips b datas O cfg T rev start fuel).map Prod.fst =
      padFindTest clamp (padAlgo clamp m skips b S mvs pd isg) O cfg T rev start fuel := by
  unfold padFindTestDuring padFindTest
  cases padStartNodes clamp m start.x start.y with
  | throw e => rfl
  | ub => rfl
  | ok x =>
    obtain ⟨sp, s⟩ := x
    simp only
    rw [unchanged, Option.map_map]
    · rfl
    · intro j
      show steerUsable (shown m (datas j)) skips b = steerUsable m skips b
      rw [hd]; rfl

/-! ### `DynamicSteeringNeighborhood` -/

section
variable {P : DynP} {distThr angThr : ℝ}

/-- **C122 for `DynamicSteeringNeighborhood`**: end. -/
theorem dyn_ends (hc : ClampSpec clamp) (hd : 0 ≤ P.distStep) (hr : 0 < P.resolution) (hm : SteerMapOk m P.stepLen)
    (hdata : ∀ j, m.width * m.height ≤ (datas j).length) (L : Lawful O) (ht : TopOk cfg.top) (h1 : IntPose start) :
    ∃ fuel r E, padFindTestDuring clamp (dynSteerAlgo clamp P distThr angThr m skips b S) skips b datas O cfg T P.reversed
        start fuel = some (r, E) ∧ r ≠ .ub ∧
      ∀ e, r = .throw e → (e = "OutsideMapException" ∨ e = "std::out_of_range") ∧
        (¬ InsidePad m.width m.height ⟨start.x, start.y, 0, true, 0, 0, 0⟩ ∨
          ∃ k c k', ReachAt (DynAdv clamp P S.so) m datas E skips start start k ∧
            RoadStepAt (DynAdv clamp P S.so) m datas E skips k c k' ∧ OnEdge m.width m.height k') :=
  pad_ends hc hm hdata (dynMoves_stepBound hd hr) dyn_offers (dyn_costOk hm.res) L ht h1

/-- **C122 for `DynamicSteeringNeighborhood`**: what a returned path is. -/
theorem dyn_path (hc : ClampSpec clamp) (hd : 0 ≤ P.distStep) (hr : 0 < P.resolution) (hm : SteerMapOk m P.stepLen)
    (hdata : ∀ j, m.width * m.height ≤ (datas j).length) (hst : 0 ≤ P.maxSteer ∧ P.maxSteer < 90) (hla : P.la ≠ 0)
    (L : Lawful O) (ht : TopOk cfg.top) (h1 : IntPose start) {fuel : Nat} {q : List SNode}
    (h : padFindTestDuring clamp (dynSteerAlgo clamp P distThr angThr m skips b S) skips b datas O cfg T P.reversed start fuel =
      some (.ok q, E)) (hne : q ≠ []) :
    ∃ q0, q = (if P.reversed then q0.reverse else q0) ∧
    (∃ k0, q0.head? = some k0 ∧ StartPose start start k0) ∧
    (∀ k ∈ q0, ReachAt (DynAdv clamp P S.so) m datas E skips start start k) ∧
    (∀ x y, [x, y] <:+: q0 → ∃ x', SameState clamp x' x ∧ ([x, y] <+: q0 → x' = x) ∧
      ReachAt (DynAdv clamp P S.so) m datas E skips start start x' ∧
      (∃ j < E, LineOk (shown m (datas j)) skips x' y) ∧
      DrivesTo P.la P.resolution ((y.steer : ℝ) / 180 * Real.pi) (driveSign P.reversed y.forward)
        (if P.reversed = false ∧ x'.depth < 1 ∧ y.forward = false then P.la else P.distStep) x' y) ∧
    q0.length ≤ (m.width + 63) * (m.height + 63) * 64 ∧ ptOccupied m ⌊start.x⌋ ⌊start.y⌋ = .ok false ∧
    ∃ kl, q0.getLast? = some kl ∧ ∃ k w, SameState clamp k kl ∧
      ReachAt (DynAdv clamp P S.so) m datas E skips start start k ∧ PoseAccepted T k w := by
  obtain ⟨q0, hq, t1, t2, t3, t5, t6, t7⟩ :=
    pad_path hc hm hdata (dynMoves_stepBound hd hr) dyn_offers (dyn_costOk hm.res) L ht h1 h hne
  refine ⟨q0, hq, t1, t2, ?_, t5, t6, t7⟩
  intro x y hxy
  obtain ⟨x', c, hs, hre, ⟨j, hj, hst'⟩, hpre⟩ := t3 x y hxy
  obtain ⟨f1, f2, f3⟩ := dynAdv_facts hc hst hla hd hr hst'
  exact ⟨x', hs, hpre, hre, ⟨j, hj, f3⟩, f1⟩

/-- **C122 for `DynamicSteeringNeighborhood`**: a search that gives up. -/
theorem dyn_complete (hc : ClampSpec clamp) (hd : 0 ≤ P.distStep) (hr : 0 < P.resolution) (hm : SteerMapOk m P.stepLen)
    (hdata : ∀ j, m.width * m.height ≤ (datas j).length)
    (L : Lawful O) (ht : TopOk cfg.top) (hab : ∀ i, cfg.abort i = false) (hT : StopsAtAccepted T)
    (h1 : IntPose start) {fuel : Nat}
    (h : padFindTestDuring clamp (dynSteerAlgo clamp P distThr angThr m skips b S) skips b datas O cfg T P.reversed start fuel =
      some (.ok [], E)) :
    ∃ X, EnclosedAll clamp (DynAdv clamp P S.so) m datas E skips (DynAdv clamp P S.so) start X ∧
      ∀ k, X k → ¬ PoseAlwaysAccepted T k :=
  pad_complete hc hm hdata (dynMoves_stepBound hd hr) dyn_offers (dyn_costOk hm.res) L ht hab hT
    (fun _ _ _ h => dynAdv_next h) h1 h

/-- **C122 for `DynamicSteeringNeighborhood`**: without heuristic, and if the callback only adds obstacles, the path can be driven
as it is on the map of the beginning, and its last pose is one the goal test accepted. -/
theorem dyn_exact_blocking (hc : ClampSpec clamp) (hd : 0 ≤ P.distStep) (hr : 0 < P.resolution)
    (hm : SteerMapOk m P.stepLen) (hdata : ∀ j, m.width * m.height ≤ (datas j).length)
    (hst : 0 ≤ P.maxSteer ∧ P.maxSteer < 90) (hla : P.la ≠ 0)
    (L : Lawful O) (M : MinFirst O) (ht : TopOk cfg.top) (hheur : ∀ k g, S.heur k g = 0) (hhg : T.heurGoal = none)
    (hfirst : datas 0 = m.data) (hblock : OnlyBlocked m datas) (h1 : IntPose start) {fuel : Nat} {q : List SNode}
    (h : padFindTestDuring clamp (dynSteerAlgo clamp P distThr angThr m skips b S) skips b datas O cfg T P.reversed start fuel =
      some (.ok q, E)) (hne : q ≠ []) :
    ∃ q0, q = (if P.reversed then q0.reverse else q0) ∧
    (∃ k0, q0.head? = some k0 ∧ StartPose start start k0) ∧
    (∀ x y, [x, y] <:+: q0 → LineOk m skips x y ∧ nodeDist x y ≤ P.stepLen ∧
      DrivesTo P.la P.resolution ((y.steer : ℝ) / 180 * Real.pi) (driveSign P.reversed y.forward)
        (if P.reversed = false ∧ x.depth < 1 ∧ y.forward = false then P.la else P.distStep) x y) ∧
    ∃ kl w, q0.getLast? = some kl ∧ PoseAccepted T kl w := by
  obtain ⟨q0, hq, t1, t2, t3⟩ := pad_exact_blocking hc hm hdata (dynMoves_stepBound hd hr) dyn_offers (dyn_costOk hm.res) L M ht
    hheur hhg hfirst hblock h1 h hne
  refine ⟨q0, hq, t1, fun x y hxy => ?_, t3⟩
  obtain ⟨c, hs⟩ := t2 x y hxy
  obtain ⟨f1, f2, f3⟩ := dynAdv_facts hc hst hla hd hr hs
  exact ⟨f3, f2, f1⟩

end
end PathPlanning.TDur
