import Verif.Model.Reversed
import Verif.Spec.Reversed
import Verif.Props.SteerSearch3
import Verif.Props.SearchCustom3

/-!
# C78: reversed searches
-/

noncomputable section
namespace PathPlanning
open Spec

/-- Driving a motion backwards. -/
theorem DrivesTo.back {L res φ dir ds : ℝ} {a b : SNode} (h : DrivesTo L res φ dir ds a b) :
    DrivesTo L res φ (-dir) ds b a := by
  obtain ⟨x, y, θ, ⟨h1, h2, h3⟩, e1, e2, e3, e4, e5, k, e6⟩ := h
  have hsub : ∀ s : ℝ, HasDerivAt (fun s => ds - s) (-1) s := fun s => by
    simpa using (hasDerivAt_id s).const_sub ds
  have hper : ∀ t : ℝ, Real.cos (t + k * (2 * Real.pi)) = Real.cos t := fun t => Real.cos_add_int_mul_two_pi t k
  have hper' : ∀ t : ℝ, Real.sin (t + k * (2 * Real.pi)) = Real.sin t := fun t => Real.sin_add_int_mul_two_pi t k
  refine ⟨fun s => x (ds - s), fun s => y (ds - s), fun s => θ (ds - s) + k * (2 * Real.pi), ⟨?_, ?_, ?_⟩, ?_, ?_, ?_, ?_, ?_, -k, ?_⟩
  · intro s
    have := (h1 (ds - s)).comp s (hsub s)
    rw [hper]
    exact this.congr_deriv (by ring)
  · intro s
    have := (h2 (ds - s)).comp s (hsub s)
    rw [hper']
    exact this.congr_deriv (by ring)
  · intro s
    have := ((h3 (ds - s)).comp s (hsub s)).add_const (k * (2 * Real.pi))
    exact this.congr_deriv (by ring)
  · simpa using e4
  · simpa using e5
  · simp only [sub_zero]; exact e6.symm
  · simpa using e1
  · simpa using e2
  · simp only [sub_self]; rw [e3]; push_cast; ring

theorem driveSign_neg (f : Bool) : -driveSign true f = driveSign false f := by
  unfold driveSign
  cases f <;> simp

theorem infix_reverse {α : Type} {x y : α} {q : List α} (h : [x, y] <:+: q.reverse) : [y, x] <:+: q := by
  have := List.reverse_infix.2 h
  simpa using this

theorem reverse_ok {Q α : Type} {search : Q → Q → Option (CRes (List α))} {src dst : Q} {q : List α}
    (h : findPathBetween true search src dst = some (.ok q)) : search dst src = some (.ok q.reverse) := by
  unfold findPathBetween at h
  rw [if_pos rfl] at h
  cases hs : search dst src with
  | none => rw [hs] at h; cases h
  | some r =>
    rw [hs] at h
    cases r with
    | ok p =>
      simp only [Option.map_some, reverseResult, Option.some.injEq, CRes.ok.injEq] at h
      rw [← h, List.reverse_reverse]
    | throw e => cases h
    | ub => cases h

section
variable {clamp : ℝ → ℝ} {P : DynP} {distThr angThr : ℝ} {m : GridMap ℝ} {skips : Nat} {b : Bres ℝ} {S : SteerCfg}
  {O : OpenList (PadCell m.width m.height) ℝ} {cfg : SCfg (PadCell m.width m.height) ℝ} {src dst : Pose}

/-- **C78.**  A reversed search with `DynamicSteeringNeighborhood` and without heuristic: the path leads from the neighbourhood of
`from` to the corner of the cell of `to`, and every pose says how to leave it. -/
theorem dyn_reversed_exact (hc : ClampSpec clamp) (hd : 0 ≤ P.distStep) (hr : 0 < P.resolution) (hm : SteerMapOk m P.stepLen)
    (hst : 0 ≤ P.maxSteer ∧ P.maxSteer < 90) (hla : P.la ≠ 0) (hrev : P.reversed = true)
    (L : Lawful O) (M : MinFirst O) (ht : TopOk cfg.top) (hheur : ∀ k g, S.heur k g = 0) (hhg : cfg.heurGoal = none)
    (h1 : IntPose src) (h2 : IntPose dst) {fuel : Nat} {q : List SNode}
    (h : findPathBetween P.reversed (fun a c => padFindPath clamp (dynSteerAlgo clamp P distThr angThr m skips b S) O cfg a c fuel)
      src dst = some (.ok q)) (hne : q ≠ []) :
    CommandsLeave P.la P.resolution P.distStep q ∧
    (∀ x y, [x, y] <:+: q → LineOk m skips y x ∧ nodeDist x y ≤ P.stepLen) ∧
    (∃ kl, q.getLast? = some kl ∧ StartPose dst src kl) ∧
    ∃ k0 kg, q.head? = some k0 ∧ GoalPose clamp (DynAdv clamp P S.so) m skips dst src kg ∧
      (∃ z : Int, abs (kg.theta - k0.theta + z * (2 * Real.pi)) ≤ angThr) ∧ nodeDist kg k0 * P.resolution < distThr := by
  rw [hrev] at h
  have h := reverse_ok h
  have hne' : q.reverse ≠ [] := by simpa using hne
  obtain ⟨t1, t2⟩ := dyn_exact hc hd hr hm hst hla L M ht hheur hhg h2 h1 h
  obtain ⟨⟨kl, u1, u2⟩, _, _, _, k0, u3, _⟩ := dyn_path hc hd hr hm hst hla L ht h2 h1 h hne'
  have key : ∀ x y, [x, y] <:+: q → [y, x] <:+: q.reverse := fun x y hxy =>
    infix_reverse (q := q.reverse) (by rwa [List.reverse_reverse])
  refine ⟨fun x y hxy => ?_, fun x y hxy => ?_, ⟨kl, by rw [← List.head?_reverse]; exact u1, u2⟩, ?_⟩
  · obtain ⟨_, _, w⟩ := t1 y x (key x y hxy)
    rw [hrev, if_neg (by simp)] at w
    rw [← driveSign_neg]
    exact DrivesTo.back w
  · obtain ⟨w1, w2, _⟩ := t1 y x (key x y hxy)
    refine ⟨w1, ?_⟩
    unfold nodeDist at w2 ⊢
    rwa [show (x.x - y.x) ^ 2 = (y.x - x.x) ^ 2 by ring, show (x.y - y.y) ^ 2 = (y.y - x.y) ^ 2 by ring]
  · obtain ⟨kg, w⟩ := t2 k0 u3
    exact ⟨k0, kg, by rw [← List.getLast?_reverse]; exact u3, w⟩

/-- **C78 with a heuristic**: driving from a pose with its own steering angle and in its own direction leads to a pose in the same state
(cell, heading slot, direction) as the next one - exactly to the last one from the one before. -/
theorem dyn_reversed_path (hc : ClampSpec clamp) (hd : 0 ≤ P.distStep) (hr : 0 < P.resolution) (hm : SteerMapOk m P.stepLen)
    (hst : 0 ≤ P.maxSteer ∧ P.maxSteer < 90) (hla : P.la ≠ 0) (hrev : P.reversed = true)
    (L : Lawful O) (ht : TopOk cfg.top) (h1 : IntPose src) (h2 : IntPose dst) {fuel : Nat} {q : List SNode}
    (h : findPathBetween P.reversed (fun a c => padFindPath clamp (dynSteerAlgo clamp P distThr angThr m skips b S) O cfg a c fuel)
      src dst = some (.ok q)) (hne : q ≠ []) :
    (∀ x y, [x, y] <:+: q → ∃ y', SameState clamp y' y ∧ ([x, y] <:+ q → y' = y) ∧ LineOk m skips y' x ∧
      DrivesTo P.la P.resolution ((x.steer : ℝ) / 180 * Real.pi) (driveSign false x.forward) P.distStep x y') ∧
    (∀ k ∈ q, abs k.steer ≤ P.maxSteer) ∧
    (∃ kl, q.getLast? = some kl ∧ StartPose dst src kl) ∧
    ∃ k0 k kg, q.head? = some k0 ∧ SameState clamp k k0 ∧ (cfg.useCands = false → k = k0) ∧
      GoalPose clamp (DynAdv clamp P S.so) m skips dst src kg ∧
      (∃ z : Int, abs (kg.theta - k.theta + z * (2 * Real.pi)) ≤ angThr) ∧ nodeDist kg k * P.resolution < distThr := by
  rw [hrev] at h
  have h := reverse_ok h
  have hne' : q.reverse ≠ [] := by simpa using hne
  obtain ⟨⟨kl, u1, u2⟩, u5, u6, _, k0, u3, k, kg, u7, u8, _, u9, u10⟩ := dyn_path hc hd hr hm hst hla L ht h2 h1 h hne'
  have key : ∀ x y, [x, y] <:+: q → [y, x] <:+: q.reverse := fun x y hxy =>
    infix_reverse (q := q.reverse) (by rwa [List.reverse_reverse])
  refine ⟨fun x y hxy => ?_, fun k hk => (u5 k (by simpa using hk)).2, ⟨kl, by rw [← List.head?_reverse]; exact u1, u2⟩,
    k0, k, kg, by rw [← List.getLast?_reverse]; exact u3, u7, u8, u9, u10⟩
  obtain ⟨_, _, y', w1, w2, _, w3, w⟩ := u6 y x (key x y hxy)
  refine ⟨y', w1, fun hs => w2 ?_, w3, ?_⟩
  · have := List.reverse_prefix.2 hs
    simpa using this
  · rw [hrev, if_neg (by simp)] at w
    rw [← driveSign_neg]
    exact DrivesTo.back w

end

section
variable {clamp : ℝ → ℝ} {P : SteerP} {distance : Int} {garbage : Nat × Nat → Int} {m : GridMap ℝ} {skips : Nat}
  {b : Bres ℝ} {S : SteerCfg}
  {O : OpenList (PadCell m.width m.height) ℝ} {cfg : SCfg (PadCell m.width m.height) ℝ} {src dst : Pose}

/-- **C78 for `SteeringNeighborhood`**, without heuristic. -/
theorem steer_reversed_exact (hc : ClampSpec clamp) (hd : 0 ≤ P.distStep) (hr : 0 < P.resolution) (hm : SteerMapOk m P.distPx)
    (hst : 0 ≤ P.maxSteer ∧ P.maxSteer < 90) (hla : P.la ≠ 0) (hrev : P.reversed = true)
    (L : Lawful O) (M : MinFirst O) (ht : TopOk cfg.top) (hheur : ∀ k g, S.heur k g = 0) (hhg : cfg.heurGoal = none)
    (h1 : IntPose src) (h2 : IntPose dst) {fuel : Nat} {q : List SNode}
    (h : findPathBetween P.reversed (fun a c => padFindPath clamp (steerAlgo clamp P distance garbage m skips b S) O cfg a c fuel)
      src dst = some (.ok q)) (hne : q ≠ []) :
    CommandsLeave P.la P.resolution P.distStep q ∧
    (∀ x y, [x, y] <:+: q → LineOk m skips y x ∧ nodeDist x y ≤ P.distPx ∧ (P.size = 3 → x.forward = true)) ∧
    (∃ kl, q.getLast? = some kl ∧ StartPose dst src kl) ∧
    ∃ k0 kg pv, q.head? = some k0 ∧ GoalPose clamp (SteerAdv clamp P S.so) m skips dst src kg ∧
      steerIsGoal P distance kg k0 pv = true := by
  rw [hrev] at h
  have h := reverse_ok h
  have hne' : q.reverse ≠ [] := by simpa using hne
  obtain ⟨t1, t2⟩ := steer_exact hc hd hr hm hst hla L M ht hheur hhg h2 h1 h
  obtain ⟨⟨kl, u1, u2⟩, _, _, _, k0, u3, _⟩ := steer_path hc hd hr hm hst hla L ht h2 h1 h hne'
  have key : ∀ x y, [x, y] <:+: q → [y, x] <:+: q.reverse := fun x y hxy =>
    infix_reverse (q := q.reverse) (by rwa [List.reverse_reverse])
  refine ⟨fun x y hxy => ?_, fun x y hxy => ?_, ⟨kl, by rw [← List.head?_reverse]; exact u1, u2⟩, ?_⟩
  · obtain ⟨_, _, _, w⟩ := t1 y x (key x y hxy)
    rw [hrev] at w
    rw [← driveSign_neg]
    exact DrivesTo.back w
  · obtain ⟨w1, w2, w3, _⟩ := t1 y x (key x y hxy)
    refine ⟨w1, ?_, w3⟩
    unfold nodeDist at w2 ⊢
    rwa [show (x.x - y.x) ^ 2 = (y.x - x.x) ^ 2 by ring, show (x.y - y.y) ^ 2 = (y.y - x.y) ^ 2 by ring]
  · obtain ⟨kg, pv, w1, w2⟩ := t2 k0 u3
    exact ⟨k0, kg, pv, by rw [← List.getLast?_reverse]; exact u3, w1, w2⟩

end

/-! ### Searches that are not reversed -/

section
variable {clamp : ℝ → ℝ} {P : SteerP} {distance : Int} {garbage : Nat × Nat → Int} {m : GridMap ℝ} {skips : Nat}
  {b : Bres ℝ} {S : SteerCfg}
  {O : OpenList (PadCell m.width m.height) ℝ} {cfg : SCfg (PadCell m.width m.height) ℝ} {src dst : Pose}

/-- **C78, the other convention**: the path of a search that is not reversed says at every pose how it was reached. -/
theorem steer_forward_exact (hc : ClampSpec clamp) (hd : 0 ≤ P.distStep) (hr : 0 < P.resolution) (hm : SteerMapOk m P.distPx)
    (hst : 0 ≤ P.maxSteer ∧ P.maxSteer < 90) (hla : P.la ≠ 0) (hrev : P.reversed = false)
    (L : Lawful O) (M : MinFirst O) (ht : TopOk cfg.top) (hheur : ∀ k g, S.heur k g = 0) (hhg : cfg.heurGoal = none)
    (h1 : IntPose src) (h2 : IntPose dst) {fuel : Nat} {q : List SNode}
    (h : findPathBetween P.reversed (fun a c => padFindPath clamp (steerAlgo clamp P distance garbage m skips b S) O cfg a c fuel)
      src dst = some (.ok q)) (hne : q ≠ []) :
    CommandsReach P.la P.resolution P.distStep q ∧ (∃ k0, q.head? = some k0 ∧ StartPose src dst k0) ∧
    ∃ kl kg pv, q.getLast? = some kl ∧ GoalPose clamp (SteerAdv clamp P S.so) m skips src dst kg ∧
      steerIsGoal P distance kg kl pv = true := by
  rw [hrev] at h
  unfold findPathBetween at h
  rw [if_neg (by simp)] at h
  obtain ⟨t1, t2⟩ := steer_exact hc hd hr hm hst hla L M ht hheur hhg h1 h2 h
  obtain ⟨u1, _, _, _, kl, u3, _⟩ := steer_path hc hd hr hm hst hla L ht h1 h2 h hne
  obtain ⟨kg, pv, w1, w2⟩ := t2 kl u3
  refine ⟨fun x y hxy => ?_, u1, kl, kg, pv, u3, w1, w2⟩
  obtain ⟨_, _, _, w⟩ := t1 x y hxy
  rwa [hrev] at w

end

/-! ### Goal tests -/

section
variable {N C : Type} [DecidableEq N] [LinearOrder C] [Fintype N] {A : Algo N C} {P : OpenList N C}

/-- **C78, finding.**  A reversed search with a goal test also begins at `from`: the path returned ends at `from`, and begins at an
accepted node.  The paths of `getPathCandidates` are not turned round: the first of them is the returned path backwards. -/
theorem reversed_goal_test_ends_at_from (ok : CostOk A) (L : Lawful P) (cfg : SCfg N C) (ht : TopOk cfg.top)
    (T : GoalTest N C P) {fuel : Nat} {r} {st' : SSt N C P}
    (hrun : findPathCustom A P cfg T (freshLabels A) fuel = some (r, st')) :
    ∃ p ps, findPathToTest true (fun start => (findPathCustom A P { cfg with start := start } T (freshLabels A) fuel).map Prod.fst)
        cfg.start = some (.ok p) ∧ getPathCandidates cfg st' = .ok ps ∧ ps.head?.getD [] = p.reverse ∧
      (p ≠ [] → ∃ t s w, p.head? = some t ∧ p.getLast? = some s ∧ s ∈ cfg.start ∧ Accepts T t w) := by
  obtain ⟨ps, qs, h1, h2, _, h4, h5⟩ := custom_candidates_listed ok L cfg ht T hrun
  obtain ⟨f2, p2, st2, g1, g2, g3⟩ := custom_search_valid ok L cfg ht T
  have := custom_result_unique hrun g1
  simp only [Prod.mk.injEq] at this
  obtain ⟨hr, rfl⟩ := this
  rw [hr] at h5
  simp only [CRes.ok.injEq] at h5
  refine ⟨p2.reverse, ps, ?_, h1, by rw [List.reverse_reverse, h5], fun hne => ?_⟩
  · unfold findPathToTest
    rw [if_pos rfl]
    simp only [hrun, hr, Option.map_some, reverseResult]
  · have hne' : p2 ≠ [] := by simpa using hne
    rcases g3 with ⟨h, _⟩ | ⟨t, w, d, hw, hm, _⟩
    · exact absurd h hne'
    · obtain ⟨s, hs1, hs2⟩ : ∃ s, p2.head? = some s ∧ s ∈ cfg.start := by
        clear hne hne' g1 g2 h5 hr hm
        induction hw with
        | start h => exact ⟨_, rfl, h⟩
        | step hw' _ ih =>
          obtain ⟨s, e1, e2⟩ := ih
          refine ⟨s, ?_, e2⟩
          rw [List.head?_append, e1]; rfl
      have hl : p2.getLast? = some t := by
        cases hw with
        | start _ => rfl
        | step _ _ => simp
      exact ⟨t, s, w, by rw [List.head?_reverse]; exact hl, by rw [List.getLast?_reverse]; exact hs1, hs2, g2 _ hm⟩

end

end PathPlanning
