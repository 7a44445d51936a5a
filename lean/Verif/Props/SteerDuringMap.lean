import Verif.Spec.SteerDuringMap
import Verif.Props.KinDuringMap
import Verif.Props.SteerSearch2

/-!
# Searches with the steering neighbourhoods on a grid map that changes meanwhile (C120)
-/

noncomputable section
namespace PathPlanning.KDur
open PathPlanning Spec
set_option linter.unusedSectionVars false

variable {clamp : ℝ → ℝ} {m : GridMap ℝ} {skips : Nat} {b : Bres ℝ} {S : SteerCfg} {pd : Nat}
  {mvs : List (SNode → List SNode → Option (ℝ × SNode))} {isg : SNode → SNode → Option SNode → Bool} {D : ℝ}
  {adv : SNode → ℝ → SNode → Prop} {cs : List ℝ} {datas : Nat → List UInt8} {E : Nat}
  {O : OpenList (PadCell m.width m.height) ℝ} {cfg : SCfg (PadCell m.width m.height) ℝ}
  {start goal : Pose} {sp s gp g : List (PadCell m.width m.height)}

/-- The maps of all moments are as large as the first. -/
theorem shown_ok (hm : SteerMapOk m D) (hd : ∀ j, m.width * m.height ≤ (datas j).length) (j : Nat) :
    SteerMapOk (shown m (datas j)) D := ⟨hm.size, hd j, hm.w, hm.h, hm.D, hm.res⟩

/-- The search with what one of the maps accepts. -/
abbrev some' (clamp : ℝ → ℝ) (m : GridMap ℝ) (skips : Nat) (b : Bres ℝ) (S : SteerCfg)
    (mvs : List (SNode → List SNode → Option (ℝ × SNode))) (pd : Nat) (isg : SNode → SNode → Option SNode → Bool)
    (datas : Nat → List UInt8) (E : Nat) : KAlgo (PadCell m.width m.height) SNode ℝ :=
  onSome (padAlgo clamp m skips b S mvs pd isg) (fun k => steerUsable (shown m (datas k)) skips b) E

theorem inside (hc : ClampSpec clamp) (hm : SteerMapOk m D) {start : List (PadCell m.width m.height)}
    {kin0 : PadCell m.width m.height → SNode} (h0 : ∀ s ∈ start, InsidePad m.width m.height (kin0 s)) {k : SNode}
    (hr : Reachable (some' clamp m skips b S mvs pd isg datas E) start kin0 k) : InsidePad m.width m.height k := by
  cases hr with
  | start hs => exact h0 _ hs
  | step _ _ hl => exact inside_of_lookup hc hm.sizes.1 hm.sizes.2 hl

theorem legal_at (hm : SteerMapOk m D) (hd : ∀ j, m.width * m.height ≤ (datas j).length) (hs : StepBound mvs D)
    (ho : Offers mvs adv m.res) {k k' : SNode} {c : ℝ} (hk : InsidePad m.width m.height k)
    (hl : LegalStep (some' clamp m skips b S mvs pd isg datas E) k c k') :
    ∃ c0, RoadStepAt adv m datas E skips k c0 k' ∧ c = c0 * m.res := by
  obtain ⟨mv, hmv, ps, e, hu⟩ := hl
  obtain ⟨j, hj, hu⟩ := onSome_iff.1 hu
  obtain ⟨c0, h1, h2⟩ := legal_road (clamp := clamp) (m := shown m (datas j)) (skips := skips) (b := b) (S := S) (mvs := mvs)
    (pd := pd) (isg := isg) (adv := adv) (shown_ok hm hd j) hs ho hk ⟨mv, hmv, ps, e, hu⟩
  exact ⟨c0, ⟨j, hj, h1⟩, h2⟩

theorem reachAt (hc : ClampSpec clamp) (hm : SteerMapOk m D) (hd : ∀ j, m.width * m.height ≤ (datas j).length)
    (hs : StepBound mvs D) (ho : Offers mvs adv m.res) (h : Started clamp m start goal sp s gp g) {k : SNode}
    (hr : Reachable (some' clamp m skips b S mvs pd isg datas E) s (padContent sp s gp g start goal) k) :
    ReachAt adv m datas E skips start goal k := by
  induction hr with
  | start hn => exact .start (h.startPose hn)
  | step hr hl hn ih =>
    obtain ⟨c0, h1, _⟩ := legal_at hm hd hs ho (inside hc hm (fun _ _ => padContent_inside _) hr) hl
    exact .step ih h1 (inside_of_lookup hc hm.sizes.1 hm.sizes.2 hn)

/-- **C120.**  A steering search ends however the callback changes the cells of the map, without undefined behaviour; it throws only if
start or goal are not on the padded map (or on its outermost left or bottom line), or if a step accepted by the map of some
moment leads onto these lines. -/
theorem pad_ends (hc : ClampSpec clamp) (hm : SteerMapOk m D) (hd : ∀ j, m.width * m.height ≤ (datas j).length)
    (hs : StepBound mvs D) (ho : Offers mvs adv m.res)
    (ok : KCostOk (padAlgo clamp m skips b S mvs pd isg) cs) (L : Lawful O) (ht : TopOk cfg.top)
    (h1 : IntPose start) (h2 : IntPose goal) :
    ∃ fuel r E, padFindPathDuring clamp (padAlgo clamp m skips b S mvs pd isg) skips b datas O cfg start goal fuel = some (r, E) ∧
      r ≠ .ub ∧
      ∀ e, r = .throw e → (e = "OutsideMapException" ∨ e = "std::out_of_range") ∧
        (¬ InsidePad m.width m.height ⟨start.x, start.y, 0, true, 0, 0, 0⟩ ∨
          ¬ InsidePad m.width m.height ⟨goal.x, goal.y, 0, true, 0, 0, 0⟩ ∨
          ∃ k c k', ReachAt adv m datas E skips start goal k ∧ RoadStepAt adv m datas E skips k c k' ∧
            OnEdge m.width m.height k') := by
  rcases padInit_cases hc hm h1 h2 with ⟨sp, s, gp, g, e, p1, p2, p3, p4⟩ | ⟨e, he, h3, h4⟩
  · have hst : Started clamp m start goal sp s gp g := ⟨e, p1, p2, p3, p4⟩
    obtain ⟨fuel, r, E, q1⟩ := ends (P := O) (cfg := { cfg with start := s, goal := g })
      (us := fun k => steerUsable (shown m (datas k)) skips b)
      (kin0 := padContent sp s gp g start goal) ok L ht
    obtain ⟨q2, q3⟩ := throws (cfg := { cfg with start := s, goal := g }) ok L ht q1
    have hask : ∀ j, ∀ k k', Asked (some' clamp m skips b S mvs pd isg datas E) s (padContent sp s gp g start goal) k k' →
        InsidePad m.width m.height k ∧ IntNode k' ∧ ∃ u, steerUsable (shown m (datas j)) skips b k k' = .ok u ∧
          (u = true → -32 ≤ ⌊k'.x⌋ ∧ ⌊k'.x⌋ < m.width + 32 ∧ -32 ≤ ⌊k'.y⌋ ∧ ⌊k'.y⌋ < m.height + 32) := by
      rintro j k k' ⟨hr, mv, hmv, ps, c, e⟩
      have hi := inside hc hm (fun _ _ => padContent_inside _) hr
      have hk' := intNode_of_step hm hi (hs mv hmv _ _ _ _ e)
      obtain ⟨u, hu, hiff⟩ := steerUsable_iff (shown_ok hm hd j) skips b hi hk'
      exact ⟨hi, hk', u, hu, fun e => (hiff.1 e).1⟩
    refine ⟨fuel, r, E, ?_, ?_, ?_⟩
    · unfold padFindPathDuring; rw [e]; exact q1
    · intro hr
      obtain ⟨j, _, k, k', ha, hb⟩ := q3 hr
      obtain ⟨hi, hk', u, hu, _⟩ := hask j k k' ha
      rcases hb with hb | ⟨_, hb⟩
      · rw [hu] at hb; cases hb
      · have hb' : steerLookup clamp m.width m.height k' = .ub := hb
        obtain ⟨t, _, htl, he⟩ := steerLookup_eq (w := m.width) (h := m.height) hc hk'
        rw [he] at hb'
        rcases padLookup_cases (w := m.width) (h := m.height) ⌊k'.x⌋ ⌊k'.y⌋ t k'.forward htl with ⟨n, q⟩ | ⟨q, _⟩ | ⟨q, _⟩ <;>
          rw [q] at hb' <;> cases hb'
    · intro e' hr
      obtain ⟨j, hj, k, k', ha, hb⟩ := q2 e' hr
      obtain ⟨hi, hk', u, hu, hu2⟩ := hask j k k' ha
      rcases hb with hb | ⟨hb1, hb⟩
      · rw [hu] at hb; cases hb
      have hb' : steerLookup clamp m.width m.height k' = .throw e' := hb
      obtain ⟨t, _, htl, he⟩ := steerLookup_eq (w := m.width) (h := m.height) hc hk'
      rw [he] at hb'
      rw [hu] at hb1
      injection hb1 with hb1
      have hrng := hu2 hb1
      obtain ⟨hreach, mv, hmv, ps, c, hmove⟩ := ha
      obtain ⟨c0, hstep, _⟩ := legal_at (adv := adv) (E := E) hm hd hs ho hi
        (show LegalStep (some' clamp m skips b S mvs pd isg datas E) k c k' from
          ⟨mv, hmv, ps, hmove, onSome_iff.2 ⟨j, hj, by rw [hu, hb1]⟩⟩)
      have hex : OnEdge m.width m.height k' → ∃ k c k', ReachAt adv m datas E skips start goal k ∧
          RoadStepAt adv m datas E skips k c k' ∧ OnEdge m.width m.height k' :=
        fun hh => ⟨k, c0, k', reachAt hc hm hd hs ho hst hreach, hstep, hh⟩
      rcases padLookup_cases (w := m.width) (h := m.height) ⌊k'.x⌋ ⌊k'.y⌋ t k'.forward htl with ⟨n, q⟩ | ⟨q, q2⟩ | ⟨q, q2⟩
      · rw [q] at hb'; cases hb'
      · rw [q] at hb'; cases hb'
        exact ⟨.inr rfl, .inr (.inr (hex q2))⟩
      · rw [q] at hb'; cases hb'
        exact ⟨.inl rfl, .inr (.inr (hex ⟨hrng.1, hrng.2.1, hrng.2.2.1, hrng.2.2.2, by omega⟩))⟩
  · refine ⟨0, .throw e, 0, ?_, by simp, ?_⟩
    · unfold padFindPathDuring; rw [he]
    · intro e' hr
      cases hr
      exact ⟨h3, h4.elim .inl (fun h => .inr (.inl h))⟩

theorem find_started (hc : ClampSpec clamp) (hm : SteerMapOk m D) {A : KAlgo (PadCell m.width m.height) SNode ℝ}
    (h1 : IntPose start) (h2 : IntPose goal) {fuel : Nat} {q : List SNode}
    (h : padFindPathDuring clamp A skips b datas O cfg start goal fuel = some (.ok q, E)) :
    ∃ sp s gp g, Started clamp m start goal sp s gp g ∧
      kFindPathDuring A (fun k => steerUsable (shown m (datas k)) skips b) O { cfg with start := s, goal := g }
        (padContent sp s gp g start goal) fuel = some (.ok q, E) := by
  rcases padInit_cases hc hm h1 h2 with ⟨sp, s, gp, g, e, p1, p2, p3, p4⟩ | ⟨e, he, _⟩
  · refine ⟨sp, s, gp, g, ⟨e, p1, p2, p3, p4⟩, ?_⟩
    unfold padFindPathDuring at h
    rw [e] at h
    exact h
  · unfold padFindPathDuring at h
    rw [he] at h
    simp at h

theorem goalMetAt (hc : ClampSpec clamp) (hm : SteerMapOk m D) (hd : ∀ j, m.width * m.height ≤ (datas j).length)
    (hs : StepBound mvs D) (ho : Offers mvs adv m.res)
    (h : Started clamp m start goal sp s gp g) {k : SNode} {w : ℝ}
    (hg : GoalMet (some' clamp m skips b S mvs pd isg datas E) s g (padContent sp s gp g start goal) k w) :
    ReachAt adv m datas E skips start goal k ∧
      ∃ kg pv, isg kg k pv = true ∧ GoalPoseAt clamp adv m datas E skips start goal kg := by
  obtain ⟨hr, n, hn, kg, pv, e1, e2, e3⟩ := hg
  refine ⟨reachAt hc hm hd hs ho h hr, kg, pv, e1, ?_⟩
  obtain ⟨h1, h2⟩ := (h.hg n).1 hn
  obtain ⟨c1, c2, c3⟩ := (poseCells_mem h.hgp n).1 h1
  rcases e3 with rfl | ⟨e3, e4⟩
  · left
    refine ⟨?_, ?_, ?_, rfl, rfl, rfl⟩
    · show ((n.x : Int) : ℝ) = _; rw [c1]
    · show ((n.y : Int) : ℝ) = _; rw [c2]
    · simp only [padContent, hn, if_true]
  · right
    have e3' : steerLookup clamp m.width m.height kg = .ok (some n) := e3
    obtain ⟨a1, a2, a3, _⟩ := (steerLookup_iff hc hm.sizes.1 hm.sizes.2).1 e3'
    exact ⟨reachAt hc hm hd hs ho h e4, by omega, by omega, by rw [a3, c3]⟩

/-- **C120.**  A returned path begins at the start; each of its steps was accepted by the map of some moment during the search. -/
theorem pad_path (hc : ClampSpec clamp) (hm : SteerMapOk m D) (hd : ∀ j, m.width * m.height ≤ (datas j).length)
    (hs : StepBound mvs D) (ho : Offers mvs adv m.res)
    (ok : KCostOk (padAlgo clamp m skips b S mvs pd isg) cs) (L : Lawful O) (ht : TopOk cfg.top)
    (h1 : IntPose start) (h2 : IntPose goal) {fuel : Nat} {q : List SNode}
    (h : padFindPathDuring clamp (padAlgo clamp m skips b S mvs pd isg) skips b datas O cfg start goal fuel = some (.ok q, E))
    (hne : q ≠ []) :
    (∃ k0, q.head? = some k0 ∧ StartPose start goal k0) ∧
    (∀ k ∈ q, ReachAt adv m datas E skips start goal k) ∧
    (∀ x y, [x, y] <:+: q → ∃ x' c, SameState clamp x' x ∧ ReachAt adv m datas E skips start goal x' ∧
      RoadStepAt adv m datas E skips x' c y) ∧
    (∀ x y, [x, y] <+: q → ∃ c, RoadStepAt adv m datas E skips x c y) ∧
    q.length ≤ (m.width + 63) * (m.height + 63) * 64 ∧
    ∃ kl, q.getLast? = some kl ∧ ∃ k kg pv, SameState clamp k kl ∧ (cfg.useCands = false → k = kl) ∧
      ReachAt adv m datas E skips start goal k ∧ isg kg k pv = true ∧ GoalPoseAt clamp adv m datas E skips start goal kg := by
  obtain ⟨sp, s, gp, g, hst, hk⟩ := find_started hc hm h1 h2 h
  obtain ⟨⟨d, t1⟩, ⟨n, hn, t2⟩, t3, t4, kl, t5, ⟨k, w, t6, t7⟩, t8⟩ := path (cfg := { cfg with start := s, goal := g }) ok L ht hk hne
  have hin : ∀ k, Reachable (some' clamp m skips b S mvs pd isg datas E) s (padContent sp s gp g start goal) k →
      InsidePad m.width m.height k := fun k hr => inside hc hm (fun _ _ => padContent_inside _) hr
  obtain ⟨p1, p2⟩ := cellTrace_pairs t1
  have hsame : ∀ {a c : SNode}, SameCell (padAlgo clamp m skips b S mvs pd isg) a c → SameState clamp a c :=
    fun hh => sameState_of_sameCell hc hm hh
  refine ⟨⟨_, t2, hst.startPose hn⟩, fun k hk => reachAt hc hm hd hs ho hst (t3 k hk), ?_, ?_, ?_, kl, t5, ?_⟩
  · intro x y hxy
    obtain ⟨x', c, hx, hl⟩ := p1 x y hxy
    have hrx : Reachable (some' clamp m skips b S mvs pd isg datas E) s (padContent sp s gp g start goal) x' := by
      rcases hx with rfl | hx
      · exact t3 x' (hxy.subset (by simp))
      · exact hx.2
    obtain ⟨c0, hr, _⟩ := legal_at hm hd hs ho (hin x' hrx) hl
    refine ⟨x', c0, ?_, reachAt hc hm hd hs ho hst hrx, hr⟩
    rcases hx with rfl | hx
    · exact ⟨rfl, rfl, rfl, rfl⟩
    · exact hsame hx.1
  · intro x y hxy
    obtain ⟨c, hl⟩ := p2 x y hxy
    obtain ⟨c0, hr, _⟩ := legal_at hm hd hs ho (hin x (t3 x (hxy.subset (by simp)))) hl
    exact ⟨c0, hr⟩
  · refine t4.trans (le_of_eq ?_)
    simp only [Fintype.card_prod, Fintype.card_fin, Fintype.card_bool]
    ring
  · by_cases hu : cfg.useCands = false
    · obtain ⟨w', hg⟩ := t8 hu
      obtain ⟨r1, kg, pv, r2, r3⟩ := goalMetAt hc hm hd hs ho hst hg
      exact ⟨kl, kg, pv, ⟨rfl, rfl, rfl, rfl⟩, fun _ => rfl, r1, r2, r3⟩
    · obtain ⟨r1, kg, pv, r2, r3⟩ := goalMetAt hc hm hd hs ho hst t6
      refine ⟨k, kg, pv, ?_, fun e => absurd e hu, r1, r2, r3⟩
      rcases t7 with rfl | t7
      · exact ⟨rfl, rfl, rfl, rfl⟩
      · exact hsame t7

/-- **C120.**  If the search gives up although its time was not limited, it is in a dead end for all steps that the maps of all
moments accept. -/
theorem pad_complete (hc : ClampSpec clamp) (hm : SteerMapOk m D) (hd : ∀ j, m.width * m.height ≤ (datas j).length)
    (hs : StepBound mvs D) (ho : Offers mvs adv m.res)
    (ok : KCostOk (padAlgo clamp m skips b S mvs pd isg) cs) (L : Lawful O) (ht : TopOk cfg.top)
    (hab : ∀ i, cfg.abort i = false) (hrefl : ∀ k pv, isg k k pv = true)
    {next : SNode → ℝ → SNode → Prop}
    (hnext : ∀ k c k', next k c k' → ∃ mv ∈ mvs, ∀ ps, mv k ps = some (c * m.res, k'))
    (h1 : IntPose start) (h2 : IntPose goal) {fuel : Nat}
    (h : padFindPathDuring clamp (padAlgo clamp m skips b S mvs pd isg) skips b datas O cfg start goal fuel = some (.ok [], E)) :
    ∃ T, DeadEndAll clamp adv m datas E skips next isg start goal T := by
  obtain ⟨sp, s, gp, g, hst, hk⟩ := find_started hc hm h1 h2 h
  obtain ⟨κ, hsat, hgn, hgt⟩ := complete (cfg := { cfg with start := s, goal := g }) ok L ht hab hrefl hk
  refine ⟨fun k => ∃ n, κ n = some k, ?_, ?_, ?_, ?_⟩
  · intro hocc f
    obtain ⟨n, hn, e1, e2, e3, e4⟩ := mem_poseCells hst.hsp f
    have hns : n ∈ s := (hst.hs n).2 ⟨hn, by rw [e1, e2]; exact hocc⟩
    refine ⟨_, ⟨n, hsat.init n hns⟩, hst.startPose hns, ?_⟩
    simp [padContent, hn, e4]
  · rintro k ⟨n, hn⟩
    exact reachAt hc hm hd hs ho hst (hsat.reach n k hn)
  · rintro k c k' ⟨n, hn⟩ hnx hadv hline hin
    obtain ⟨mv, hmv, hmv2⟩ := hnext k c k' hnx
    obtain ⟨ps, hps⟩ := hsat.moves n k hn mv hmv
    obtain ⟨v, hv⟩ := lookup_of_inside hc hm.sizes.1 hm.sizes.2 hin
    have hik : InsidePad m.width m.height k := inside hc hm (fun _ _ => padContent_inside _) (hsat.reach n k hn)
    have hus : ∀ j < E, steerUsable (shown m (datas j)) skips b k k' = .ok true := by
      intro j hj
      obtain ⟨u, hu, hui⟩ := steerUsable_iff (shown_ok hm hd j) skips b hik
        (intNode_of_step hm hik (hs mv hmv k [] _ _ (hmv2 [])))
      rw [hu]
      congr 1
      rw [hui]
      refine ⟨?_, hline j hj⟩
      unfold InsidePad at hin
      show -32 ≤ ⌊k'.x⌋ ∧ ⌊k'.x⌋ < m.width + 32 ∧ -32 ≤ ⌊k'.y⌋ ∧ ⌊k'.y⌋ < m.height + 32
      omega
    obtain ⟨k'', hk''⟩ := Option.ne_none_iff_exists'.1 (hps _ _ v (hmv2 ps) hus hv)
    refine ⟨k'', ⟨v, hk''⟩, ?_⟩
    obtain ⟨a1, a2, a3, a4⟩ := (steerLookup_iff hc hm.sizes.1 hm.sizes.2).1 hv
    rcases hsat.cell v k'' hk'' with hvs | hvl
    · right
      have e := hsat.init v hvs
      rw [hk''] at e
      injection e with e
      have hvs' : v ∈ s := hvs
      have hsp := ((hst.hs v).1 hvs').1
      obtain ⟨c1, c2, c3⟩ := (poseCells_mem hst.hsp v).1 hsp
      refine ⟨by rw [e]; exact hst.startPose hvs', ?_, ?_, ?_, ?_⟩
      · rw [e]; simp [padContent, initContent]; omega
      · rw [e]; simp [padContent, initContent]; omega
      · rw [e]; simp only [padContent, hsp, true_or, if_true]; exact a4
      · rw [a3, c3]
    · left
      exact sameState_of_sameCell (S := S) (b := b) (skips := skips) (mvs := mvs) (pd := pd) (isg := isg) hc hm
        ⟨v, hvl, hv⟩
  · rintro hocc k ⟨n, hn⟩ f
    obtain ⟨v, hv, e1, e2, e3, e4⟩ := mem_poseCells hst.hgp f
    have hvg : v ∈ g := (hst.hg v).2 ⟨hv, by rw [e1, e2]; exact hocc⟩
    constructor
    · obtain ⟨pv, hpv⟩ := hgt n k hn v hvg
      refine ⟨pv, ?_⟩
      have : padContent sp s gp g start goal v = goalNode goal f := by
        unfold padContent goalNode
        simp only [hvg, hv, or_true, if_true, e4, initContent, e1, e2]
      rw [← this]; exact hpv
    · rintro ⟨q1, q2, q3, q4⟩
      rcases hsat.cell n k hn with hns | hnl
      · have e := hsat.init n hns
        rw [hn] at e
        injection e with e
        apply q4
        rw [e]
        exact hst.startPose hns
      · have hnl' : steerLookup clamp m.width m.height k = .ok (some n) := hnl
        obtain ⟨a1, a2, a3, a4⟩ := (steerLookup_iff hc hm.sizes.1 hm.sizes.2).1 hnl'
        rw [a3] at q3
        injection q3 with q3
        have hng : n ∈ g := by
          refine (hst.hg n).2 ⟨(poseCells_mem hst.hgp n).2 ⟨by omega, by omega, q3⟩, ?_⟩
          rw [show n.x = ⌊goal.x⌋ by omega, show n.y = ⌊goal.y⌋ by omega]; exact hocc
        have := hgn n hng
        rw [hn] at this
        cases this

section
variable {P : DynP} {distThr angThr : ℝ}

/-- **C120 for `DynamicSteeringNeighborhood`**: end. -/
theorem dyn_ends (hc : ClampSpec clamp) (hd : 0 ≤ P.distStep) (hr : 0 < P.resolution) (hm : SteerMapOk m P.stepLen)
    (hdata : ∀ j, m.width * m.height ≤ (datas j).length) (L : Lawful O) (ht : TopOk cfg.top) (h1 : IntPose start)
    (h2 : IntPose goal) :
    ∃ fuel r E, padFindPathDuring clamp (dynSteerAlgo clamp P distThr angThr m skips b S) skips b datas O cfg start goal fuel =
        some (r, E) ∧ r ≠ .ub ∧
      ∀ e, r = .throw e → (e = "OutsideMapException" ∨ e = "std::out_of_range") ∧
        (¬ InsidePad m.width m.height ⟨start.x, start.y, 0, true, 0, 0, 0⟩ ∨
          ¬ InsidePad m.width m.height ⟨goal.x, goal.y, 0, true, 0, 0, 0⟩ ∨
          ∃ k c k', ReachAt (DynAdv clamp P S.so) m datas E skips start goal k ∧
            RoadStepAt (DynAdv clamp P S.so) m datas E skips k c k' ∧ OnEdge m.width m.height k') :=
  pad_ends hc hm hdata (dynMoves_stepBound hd hr) dyn_offers (dyn_costOk hm.res) L ht h1 h2

/-- **C120 for `DynamicSteeringNeighborhood`**: what a returned path is. -/
theorem dyn_path (hc : ClampSpec clamp) (hd : 0 ≤ P.distStep) (hr : 0 < P.resolution) (hm : SteerMapOk m P.stepLen)
    (hdata : ∀ j, m.width * m.height ≤ (datas j).length) (hst : 0 ≤ P.maxSteer ∧ P.maxSteer < 90) (hla : P.la ≠ 0)
    (L : Lawful O) (ht : TopOk cfg.top) (h1 : IntPose start) (h2 : IntPose goal) {fuel : Nat} {q : List SNode}
    (h : padFindPathDuring clamp (dynSteerAlgo clamp P distThr angThr m skips b S) skips b datas O cfg start goal fuel =
      some (.ok q, E)) (hne : q ≠ []) :
    (∃ k0, q.head? = some k0 ∧ StartPose start goal k0) ∧
    (∀ k ∈ q, ReachAt (DynAdv clamp P S.so) m datas E skips start goal k) ∧
    (∀ x y, [x, y] <:+: q → ∃ x', SameState clamp x' x ∧ ([x, y] <+: q → x' = x) ∧
      ReachAt (DynAdv clamp P S.so) m datas E skips start goal x' ∧
      (∃ j < E, LineOk (shown m (datas j)) skips x' y) ∧
      DrivesTo P.la P.resolution ((y.steer : ℝ) / 180 * Real.pi) (driveSign P.reversed y.forward)
        (if P.reversed = false ∧ x'.depth < 1 ∧ y.forward = false then P.la else P.distStep) x' y) ∧
    q.length ≤ (m.width + 63) * (m.height + 63) * 64 ∧
    ∃ kl, q.getLast? = some kl ∧ ∃ k kg, SameState clamp k kl ∧ (cfg.useCands = false → k = kl) ∧
      ReachAt (DynAdv clamp P S.so) m datas E skips start goal k ∧
      GoalPoseAt clamp (DynAdv clamp P S.so) m datas E skips start goal kg ∧
      (∃ z : Int, abs (kg.theta - k.theta + z * (2 * Real.pi)) ≤ angThr) ∧ nodeDist kg k * P.resolution < distThr := by
  obtain ⟨t1, t2, t3, t4, t5, kl, t6, k, kg, pv, t7, t8, t9, t10, t11⟩ :=
    pad_path hc hm hdata (dynMoves_stepBound hd hr) dyn_offers (dyn_costOk hm.res) L ht h1 h2 h hne
  refine ⟨t1, t2, ?_, t5, kl, t6, k, kg, t7, t8, t9, t11, (dynIsGoal_iff _ _ _ _ _).1 t10⟩
  intro x y hxy
  obtain ⟨x', c, hs, hre, ⟨j, hj, hst'⟩, hx⟩ : ∃ x' c, SameState clamp x' x ∧
      ReachAt (DynAdv clamp P S.so) m datas E skips start goal x' ∧
      RoadStepAt (DynAdv clamp P S.so) m datas E skips x' c y ∧ ([x, y] <+: q → x' = x) := by
    by_cases hp : [x, y] <+: q
    · obtain ⟨c, hc'⟩ := t4 x y hp
      exact ⟨x, c, ⟨rfl, rfl, rfl, rfl⟩, t2 x (hxy.subset (by simp)), hc', fun _ => rfl⟩
    · obtain ⟨x', c, e1, e2, e3⟩ := t3 x y hxy
      exact ⟨x', c, e1, e2, e3, fun e => absurd e hp⟩
  obtain ⟨f1, f2, f3⟩ := dynAdv_facts hc hst hla hd hr hst'
  exact ⟨x', hs, hx, hre, ⟨j, hj, f3⟩, f1⟩

/-- **C120 for `DynamicSteeringNeighborhood`**: a search that gives up. -/
theorem dyn_complete (hc : ClampSpec clamp) (hd : 0 ≤ P.distStep) (hr : 0 < P.resolution) (hm : SteerMapOk m P.stepLen)
    (hdata : ∀ j, m.width * m.height ≤ (datas j).length)
    (L : Lawful O) (ht : TopOk cfg.top) (hab : ∀ i, cfg.abort i = false) (hdt : 0 < distThr) (hat : 0 ≤ angThr)
    (h1 : IntPose start) (h2 : IntPose goal) {fuel : Nat}
    (h : padFindPathDuring clamp (dynSteerAlgo clamp P distThr angThr m skips b S) skips b datas O cfg start goal fuel =
      some (.ok [], E)) :
    ∃ T, DeadEndAll clamp (DynAdv clamp P S.so) m datas E skips (DynAdv clamp P S.so)
      (fun g k _ => dynIsGoal P.resolution distThr angThr g k) start goal T :=
  pad_complete hc hm hdata (dynMoves_stepBound hd hr) dyn_offers (dyn_costOk hm.res) L ht hab
    (fun k _ => dynIsGoal_refl hdt hat k) (fun _ _ _ h => dynAdv_next h) h1 h2 h

end

/-- If the cells keep the values they had at the beginning, the search is the ordinary one. -/
theorem pad_unchanged (hd : ∀ j, datas j = m.data) {fuel : Nat} :
    (padFindPathDuring clamp (padAlgo clamp m skips b S mvs pd isg) skips b datas O cfg start goal fuel).map Prod.fst =
      padFindPath clamp (padAlgo clamp m skips b S mvs pd isg) O cfg start goal fuel := by
  unfold padFindPathDuring padFindPath
  cases padInit clamp m start goal with
  | throw e => rfl
  | ub => rfl
  | ok x =>
    obtain ⟨sp, s, gp, g⟩ := x
    refine unchanged ?_
    intro j
    show steerUsable (shown m (datas j)) skips b = steerUsable m skips b
    rw [hd]; rfl

end PathPlanning.KDur
