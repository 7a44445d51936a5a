import Verif.Props.FloatSteer

/-!
# C109: searches with a heuristic, maps, and `double`
-/

noncomputable section

namespace PathPlanning.Drift
open Spec

variable {F : Fmt} {lib : Lib} {clamp : ℝ → ℝ} {w h : Nat} {res e X : ℝ}
variable {P : OpenList (PadCell w h) F.D} {cfg : SCfg (PadCell w h) F.D} {kin0 : PadCell w h → SNode}

/-! ### With a heuristic -/

theorem reachable_bounds {N : Type} {A : KAlgo N SNode F.D} {start : List N} {k0 : N → SNode}
    (hus : ∀ k k', A.usable k k' = .ok true → |k'.x| ≤ X ∧ |k'.y| ≤ X)
    (hth : ∀ mv ∈ A.moves, ∀ k ps c k', mv k ps = some (c, k') → |k.x| ≤ X → |k.y| ≤ X → |k.theta| ≤ 4 → |k'.theta| ≤ 4)
    (hst : ∀ s ∈ start, |(k0 s).theta| ≤ 4 ∧ |(k0 s).x| ≤ X ∧ |(k0 s).y| ≤ X) {k : SNode} (hk : Reachable A start k0 k) :
    |k.theta| ≤ 4 ∧ |k.x| ≤ X ∧ |k.y| ≤ X := by
  induction hk with
  | start hs => exact hst _ hs
  | @step k c k' n hk hl hn ih =>
    obtain ⟨mv, hmv, ps, he, hu⟩ := hl
    obtain ⟨ux, uy⟩ := hus _ _ hu
    exact ⟨hth mv hmv k ps c k' he ih.2.1 ih.2.2 ih.1, ux, uy⟩

theorem dyn_move_near {Q : DynP} {S : FSteerCfg F} (ok : ArithOk F lib clamp e (5 + 3 * (Q.distStep / Q.la)))
    (hm : 0 ≤ Q.maxSteer ∧ Q.maxSteer ≤ 60) (hla : 0 < Q.la) (hres : 0 < Q.resolution) (hds : 0 ≤ Q.distStep)
    {mv : SNode → List SNode → Option (F.D × SNode)} (hmv : mv ∈ (dynSteerAlgoF F lib clamp Q w h res S).moves)
    {k k' : SNode} {ps : List SNode} {c : F.D} (he : mv k ps = some (c, k')) (hx : |k.x| ≤ X) (hy : |k.y| ≤ X)
    (ht : |k.theta| ≤ 4) :
    DrivesNear Q.la Q.resolution (posErr F.u Q.la Q.resolution (maxLen Q) X) (headErr F.u Q.la (maxLen Q) e)
      (cmdFor Q.reversed (if k.depth < 1 then firstLen Q k' else Q.distStep) k') k k' ∧ |k'.theta| ≤ 4 := by
  have hp := Real.pi_lt_d2
  obtain ⟨m, _, rfl⟩ := List.mem_map.1 hmv
  obtain ⟨c0, e0, _, rfl⟩ := scaledF_some he
  obtain ⟨s1, s2⟩ := dyn_step_near ok.u ok.lib ok.e0 hm hla hres hds ok.clamp hx hy ht e0
  have hlen : dynLen Q k k' = if k.depth < 1 then firstLen Q k' else Q.distStep := by
    unfold dynLen firstLen
    by_cases a : Q.reversed = false <;> by_cases b : k.depth < 1 <;> by_cases d : k'.forward = false <;> simp [a, b, d]
  have hle : dynLen Q k k' ≤ maxLen Q := by
    unfold dynLen maxLen; split_ifs <;> simp
  refine ⟨?_, ?_⟩
  · rw [← hlen]
    exact s1.weaken (posErr_mono F.u_nonneg hres hle) (headErr_mono F.u_nonneg hla hle)
  · rcases s2 with s2 | s2
    · have := ok.e1; linarith
    · rw [s2]; exact ht

theorem steer_move_near {Q : SteerP} {garbage : Nat × Nat → Int} {S : FSteerCfg F}
    (ok : ArithOk F lib clamp e (5 + 3 * (Q.distStep / Q.la)))
    (hm : 0 ≤ Q.maxSteer ∧ Q.maxSteer ≤ 60) (hla : 0 < Q.la) (hres : 0 < Q.resolution) (hds : 0 ≤ Q.distStep)
    {mv : SNode → List SNode → Option (F.D × SNode)} (hmv : mv ∈ (steerAlgoF F lib clamp Q garbage w h res S).moves)
    {k k' : SNode} {ps : List SNode} {c : F.D} (he : mv k ps = some (c, k')) (hx : |k.x| ≤ X) (hy : |k.y| ≤ X)
    (ht : |k.theta| ≤ 4) :
    DrivesNear Q.la Q.resolution (posErr F.u Q.la Q.resolution Q.distStep X) (headErr F.u Q.la Q.distStep e)
      (cmdFor Q.reversed Q.distStep k') k k' ∧ |k'.theta| ≤ 4 := by
  have hp := Real.pi_lt_d2
  obtain ⟨m, _, rfl⟩ := List.mem_map.1 hmv
  obtain ⟨c0, e0, _, rfl⟩ := scaledF_some he
  obtain ⟨s1, s2⟩ := steer_step_near ok.u ok.lib ok.e0 hm hla hres hds ok.clamp hx hy ht e0
  exact ⟨s1, by have := ok.e1; linarith⟩

/-- **C109 with a heuristic.** Each pose of the path is, up to one rounding error, where the vehicle gets with the stored command from
the previous pose or from another pose of its state; the first step starts at the first pose itself. -/
theorem dyn_search_steps {Q : DynP} {S : FSteerCfg F} (ok : ArithOk F lib clamp e (5 + 3 * (Q.distStep / Q.la)))
    (hm : 0 ≤ Q.maxSteer ∧ Q.maxSteer ≤ 60) (hla : 0 < Q.la) (hres : 0 < Q.resolution) (hds : 0 ≤ Q.distStep) (hr : 0 ≤ res)
    (L : Lawful P) (ht : TopOk cfg.top)
    (hus : ∀ k k', S.usable k k' = .ok true → |k'.x| ≤ X ∧ |k'.y| ≤ X)
    (hst : ∀ s ∈ cfg.start, |(kin0 s).theta| ≤ 4 ∧ |(kin0 s).x| ≤ X ∧ |(kin0 s).y| ≤ X)
    {fuel : Nat} {path : List SNode} (hf : kFindPath (dynSteerAlgoF F lib clamp Q w h res S) P cfg kin0 fuel = some (.ok path))
    (a b : SNode) (hab : [a, b] <:+: path) :
    ∃ a', (a' = a ∨ ∃ n, steerLookupF F clamp w h a' = .ok (some n) ∧ steerLookupF F clamp w h a = .ok (some n)) ∧
      ([a, b] <+: path → a' = a) ∧ ∃ len, (len = Q.la ∨ len = Q.distStep) ∧
      DrivesNear Q.la Q.resolution (posErr F.u Q.la Q.resolution (maxLen Q) X) (headErr F.u Q.la (maxLen Q) e)
        (cmdFor Q.reversed len b) a' b := by
  have hne : path ≠ [] := by rintro rfl; simp at hab
  obtain ⟨cs, hcs⟩ := dynF_costOk (F := F) (lib := lib) (clamp := clamp) (P := Q) (w := w) (h := h) (res := res) (S := S) hm.1 hr
  obtain ⟨⟨d, htr⟩, _, hreach, _⟩ := kin_path hcs L ht hf hne
  have hb : ∀ k, Reachable (dynSteerAlgoF F lib clamp Q w h res S) cfg.start kin0 k → |k.theta| ≤ 4 ∧ |k.x| ≤ X ∧ |k.y| ≤ X :=
    fun k hk => reachable_bounds (X := X) hus (fun mv hmv k ps c k' he kx ky kt =>
      (dyn_move_near ok hm hla hres hds hmv he kx ky kt).2) hst hk
  have hlen : ∀ k : SNode, (if k.depth < 1 then firstLen Q b else Q.distStep) = Q.la ∨
      (if k.depth < 1 then firstLen Q b else Q.distStep) = Q.distStep := by
    intro k; unfold firstLen; split_ifs <;> simp
  have ha : a ∈ path := hab.subset (by simp)
  by_cases hpre : [a, b] <+: path
  · obtain ⟨c, mv, hmv, ps, he, hu⟩ := (cellTrace_pairs htr).2 a b hpre
    obtain ⟨b1, b2, b3⟩ := hb a (hreach a ha)
    exact ⟨a, .inl rfl, fun _ => rfl, _, hlen a, (dyn_move_near ok hm hla hres hds hmv he b2 b3 b1).1⟩
  · obtain ⟨a', c, hsame, mv, hmv, ps, he, hu⟩ := (cellTrace_pairs htr).1 a b hab
    obtain ⟨b1, b2, b3⟩ : |a'.theta| ≤ 4 ∧ |a'.x| ≤ X ∧ |a'.y| ≤ X := by
      rcases hsame with rfl | ⟨_, hre⟩
      · exact hb _ (hreach _ ha)
      · exact hb _ hre
    refine ⟨a', ?_, fun hp => absurd hp hpre, _, hlen a', (dyn_move_near ok hm hla hres hds hmv he b2 b3 b1).1⟩
    rcases hsame with rfl | ⟨hs, _⟩
    · exact .inl rfl
    · exact .inr hs

/-- The same for `SteeringNeighborhood`. -/
theorem steer_search_steps {Q : SteerP} {garbage : Nat × Nat → Int} {S : FSteerCfg F}
    (ok : ArithOk F lib clamp e (5 + 3 * (Q.distStep / Q.la)))
    (hm : 0 ≤ Q.maxSteer ∧ Q.maxSteer ≤ 60) (hla : 0 < Q.la) (hres : 0 < Q.resolution) (hds : 0 ≤ Q.distStep) (hr : 0 ≤ res)
    (L : Lawful P) (ht : TopOk cfg.top)
    (hus : ∀ k k', S.usable k k' = .ok true → |k'.x| ≤ X ∧ |k'.y| ≤ X)
    (hst : ∀ s ∈ cfg.start, |(kin0 s).theta| ≤ 4 ∧ |(kin0 s).x| ≤ X ∧ |(kin0 s).y| ≤ X)
    {fuel : Nat} {path : List SNode} (hf : kFindPath (steerAlgoF F lib clamp Q garbage w h res S) P cfg kin0 fuel = some (.ok path))
    (a b : SNode) (hab : [a, b] <:+: path) :
    ∃ a', (a' = a ∨ ∃ n, steerLookupF F clamp w h a' = .ok (some n) ∧ steerLookupF F clamp w h a = .ok (some n)) ∧
      ([a, b] <+: path → a' = a) ∧
      DrivesNear Q.la Q.resolution (posErr F.u Q.la Q.resolution Q.distStep X) (headErr F.u Q.la Q.distStep e)
        (cmdFor Q.reversed Q.distStep b) a' b := by
  have hne : path ≠ [] := by rintro rfl; simp at hab
  obtain ⟨cs, hcs⟩ := steerF_costOk (F := F) (lib := lib) (clamp := clamp) (P := Q) (garbage := garbage) (w := w) (h := h) (res := res)
    (S := S) hm.1 hr
  obtain ⟨⟨d, htr⟩, _, hreach, _⟩ := kin_path hcs L ht hf hne
  have hb : ∀ k, Reachable (steerAlgoF F lib clamp Q garbage w h res S) cfg.start kin0 k → |k.theta| ≤ 4 ∧ |k.x| ≤ X ∧ |k.y| ≤ X :=
    fun k hk => reachable_bounds (X := X) hus (fun mv hmv k ps c k' he kx ky kt =>
      (steer_move_near ok hm hla hres hds hmv he kx ky kt).2) hst hk
  have ha : a ∈ path := hab.subset (by simp)
  by_cases hpre : [a, b] <+: path
  · obtain ⟨c, mv, hmv, ps, he, hu⟩ := (cellTrace_pairs htr).2 a b hpre
    obtain ⟨b1, b2, b3⟩ := hb a (hreach a ha)
    exact ⟨a, .inl rfl, fun _ => rfl, (steer_move_near ok hm hla hres hds hmv he b2 b3 b1).1⟩
  · obtain ⟨a', c, hsame, mv, hmv, ps, he, hu⟩ := (cellTrace_pairs htr).1 a b hab
    obtain ⟨b1, b2, b3⟩ : |a'.theta| ≤ 4 ∧ |a'.x| ≤ X ∧ |a'.y| ≤ X := by
      rcases hsame with rfl | ⟨_, hre⟩
      · exact hb _ (hreach _ ha)
      · exact hb _ hre
    refine ⟨a', ?_, fun hp => absurd hp hpre, (steer_move_near ok hm hla hres hds hmv he b2 b3 b1).1⟩
    rcases hsame with rfl | ⟨hs, _⟩
    · exact .inl rfl
    · exact .inr hs

/-! ### Coordinates on a map -/

/-- The poses the line test accepts lie in the padded map. -/
theorem usable_bounds {m : GridMap ℝ} {skips : Nat} {b : Bres ℝ} {k k' : SNode} (hk : steerUsable m skips b k k' = .ok true) :
    |k'.x| ≤ max (m.width : ℝ) m.height + 32 ∧ |k'.y| ≤ max (m.width : ℝ) m.height + 32 := by
  unfold steerUsable steerContains at hk
  have hfl : ∀ z : ℝ, ∀ n, GMgr.floorI z = .ok n → n = ⌊z⌋ := by
    intro z n hz
    unfold GMgr.floorI at hz
    split_ifs at hz
    simpa using hz.symm
  cases hx : GMgr.floorI k'.x with
  | throw => rw [hx] at hk; exact absurd hk (by simp [Bind.bind, CRes.bind])
  | ub => rw [hx] at hk; exact absurd hk (by simp [Bind.bind, CRes.bind])
  | ok x =>
  cases hy : GMgr.floorI k'.y with
  | throw => rw [hx, hy] at hk; exact absurd hk (by simp [Bind.bind, CRes.bind])
  | ub => rw [hx, hy] at hk; exact absurd hk (by simp [Bind.bind, CRes.bind])
  | ok y =>
  rw [hx, hy] at hk
  by_cases hc : (DMgr.setMap m.width m.height).contains x y = true
  · have hw : ∀ n : Nat, toI32 (wrapU n) ≤ (n : Int) := by
      intro n
      unfold toI32 wrapU u32
      split_ifs <;> omega
    unfold DMgr.contains DMgr.setMap at hc
    simp only [Bool.not_eq_true', Bool.or_eq_false_iff, decide_eq_false_iff_not, not_lt, not_le] at hc
    obtain ⟨⟨⟨c1, c2⟩, c3⟩, c4⟩ := hc
    have c3' := c3.trans_le (hw _)
    have c4' := c4.trans_le (hw _)
    rw [hfl _ _ hx] at c1 c3'
    rw [hfl _ _ hy] at c2 c4'
    have key : ∀ (z : ℝ) (n : Nat), -32 ≤ ⌊z⌋ → ⌊z⌋ < ((n + 32 : Nat) : Int) → |z| ≤ n + 32 := by
      intro z n h1 h2
      have h3 := Int.floor_le z
      have h4 := Int.lt_floor_add_one z
      have h5 : ((-32 : Int) : ℝ) ≤ (⌊z⌋ : ℝ) := by exact_mod_cast h1
      have h6 : ((⌊z⌋ + 1 : Int) : ℝ) ≤ (((n + 32 : Nat) : Int) : ℝ) := by exact_mod_cast h2
      push_cast at h5 h6
      rw [abs_le]
      have : (0 : ℝ) ≤ n := Nat.cast_nonneg n
      constructor <;> linarith
    have hwm : (m.width : ℝ) ≤ max (m.width : ℝ) m.height := le_max_left _ _
    have hhm : (m.height : ℝ) ≤ max (m.width : ℝ) m.height := le_max_right _ _
    exact ⟨(key _ _ c1 c3').trans (by linarith), (key _ _ c2 c4').trans (by linarith)⟩
  · rw [Bool.not_eq_true] at hc
    simp [Bind.bind, CRes.bind, hc] at hk

/-! ### `double` -/

/-- **C109 in numbers.** With `double` (53 digits), library functions accurate to two units in the last place and a normalisation
of angles accurate to `10^-12`: on maps of at most ten thousand cells a side, with steps and wheel base of at most a hundred cells and
steps at most ten times as long as the wheel base, a vehicle that executes a path of at most a thousand steps is never further than
a thousandth of a cell (in each coordinate) and a millionth of a radian from the computed poses. -/
theorem double_drift {L res' D X' e' : ℝ} {n : ℕ} (hL : 0 < L) (hres : 0 < res') (hD : 0 ≤ D) (h1 : L ≤ 100 * res')
    (h2 : D ≤ 100 * res') (h3 : D ≤ 10 * L) (hX : X' ≤ 11000) (he0 : 0 ≤ e') (he : e' ≤ 1 / 10 ^ 12) (hn : n ≤ 1000) :
    driftErr (posErr ((2 : ℝ)⁻¹ ^ 53) L res' D X') (headErr ((2 : ℝ)⁻¹ ^ 53) L D e') (D / res') n ≤ 1 / 1000 ∧
      n * headErr ((2 : ℝ)⁻¹ ^ 53) L D e' ≤ 1 / 10 ^ 6 := by
  have a1 : L / res' ≤ 100 := by rw [div_le_iff₀ hres]; linarith
  have a2 : D / res' ≤ 100 := by rw [div_le_iff₀ hres]; linarith
  have a3 : D / L ≤ 10 := by rw [div_le_iff₀ hL]; linarith
  have a4 : 0 ≤ D / res' := by positivity
  have a5 : 0 ≤ D / L := by positivity
  have hn' : (n : ℝ) ≤ 1000 := by exact_mod_cast hn
  have hn0 : (0 : ℝ) ≤ n := Nat.cast_nonneg n
  have p1 : posErr ((2 : ℝ)⁻¹ ^ 53) L res' D X' ≤ 1 / 10 ^ 10 := by
    unfold posErr
    have : 600 * (L / res') + 90 * (D / res') + X' ≤ 80000 := by linarith
    refine (mul_le_mul_of_nonneg_left this (by positivity)).trans ?_
    norm_num
  have t1 : headErr ((2 : ℝ)⁻¹ ^ 53) L D e' ≤ 2 / 10 ^ 12 := by
    unfold headErr
    have : 86 * (D / L) + 4 ≤ 864 := by linarith
    have := mul_le_mul_of_nonneg_left this (show (0 : ℝ) ≤ (2 : ℝ)⁻¹ ^ 53 by positivity)
    have h7 : (2 : ℝ)⁻¹ ^ 53 * 864 ≤ 1 / 10 ^ 12 := by norm_num
    linarith
  have t0 : 0 ≤ headErr ((2 : ℝ)⁻¹ ^ 53) L D e' := headErr_nonneg (by positivity) hL hD he0
  set t := headErr ((2 : ℝ)⁻¹ ^ 53) L D e'
  constructor
  · unfold driftErr
    have b1 : (n : ℝ) * posErr ((2 : ℝ)⁻¹ ^ 53) L res' D X' ≤ n * (1 / 10 ^ 10) := mul_le_mul_of_nonneg_left p1 hn0
    have b2 : D / res' * t ≤ 100 * (2 / 10 ^ 12) := mul_le_mul a2 t1 t0 (by norm_num)
    have b3 : (n : ℝ) * (n - 1) / 2 ≤ 500000 := by nlinarith
    have b4 : 0 ≤ D / res' * t := by positivity
    rcases le_or_gt 0 ((n : ℝ) * (n - 1) / 2) with b5 | b5
    · have : D / res' * t * ((n : ℝ) * (n - 1) / 2) ≤ 100 * (2 / 10 ^ 12) * 500000 := mul_le_mul b2 b3 b5 (by norm_num)
      have : (100 : ℝ) * (2 / 10 ^ 12) * 500000 = 1 / 10000 := by norm_num
      have : (n : ℝ) * (1 / 10 ^ 10) ≤ 1 / 10 ^ 7 := by
        have := mul_le_mul_of_nonneg_right hn' (show (0 : ℝ) ≤ 1 / 10 ^ 10 by positivity)
        refine this.trans ?_
        norm_num
      have : (1 : ℝ) / 10 ^ 7 + 1 / 10000 ≤ 1 / 1000 := by norm_num
      linarith
    · have : D / res' * t * ((n : ℝ) * (n - 1) / 2) ≤ 0 := mul_nonpos_of_nonneg_of_nonpos b4 b5.le
      have : (n : ℝ) * (1 / 10 ^ 10) ≤ 1 / 1000 := by
        have := mul_le_mul_of_nonneg_right hn' (show (0 : ℝ) ≤ 1 / 10 ^ 10 by positivity)
        refine this.trans ?_
        norm_num
      linarith
  · have : (n : ℝ) * t ≤ 1000 * (2 / 10 ^ 12) := mul_le_mul hn' t1 t0 (by norm_num)
    refine this.trans ?_
    norm_num

theorem _root_.PathPlanning.Spec.PoseNear.weaken {p t p' t' : ℝ} {a b : SNode} (h : PoseNear p t a b) (hp : p ≤ p') (ht : t ≤ t') :
    PoseNear p' t' a b := by
  obtain ⟨h1, h2, k, h3⟩ := h
  exact ⟨h1.trans hp, h2.trans hp, k, h3.trans ht⟩

section double
variable {r : ℝ → ℤ} {hr : WholeRounding r} {m : GridMap ℝ}
variable {O : OpenList (PadCell m.width m.height) (doubleFmt r hr).D} {cfg : SCfg (PadCell m.width m.height) (doubleFmt r hr).D}
  {kin0 : PadCell m.width m.height → SNode}

/-- **C109, `double`.** A search without heuristic with `DynamicSteeringNeighborhood` and the line test of the map manager, all of whose
numbers are rounded to `double`: a vehicle that executes the steering commands of a path of at most a thousand steps is never further
than a thousandth of a cell, in each coordinate, and a millionth of a radian from the poses of the path. -/
theorem dyn_search_double {Q : DynP} {S : FSteerCfg (doubleFmt r hr)} {skips : Nat} {b : Bres ℝ}
    (ok : ArithOk (doubleFmt r hr) lib clamp e (5 + 3 * (Q.distStep / Q.la))) (he : e ≤ 1 / 10 ^ 12)
    (hm : 0 ≤ Q.maxSteer ∧ Q.maxSteer ≤ 60) (hla : 0 < Q.la) (hres : 0 < Q.resolution) (hds : 0 ≤ Q.distStep)
    (h1 : Q.la ≤ 100 * Q.resolution) (h2 : Q.distStep ≤ 100 * Q.resolution) (h3 : Q.distStep ≤ 10 * Q.la)
    (hw : m.width ≤ 10000) (hh : m.height ≤ 10000) (hr0 : 0 ≤ m.res)
    (L : Lawful O) (M : MinFirst O) (ht : TopOk cfg.top) (hheur : ∀ k g, S.heur k g = 0) (hhg : cfg.heurGoal = none)
    (hus : S.usable = steerUsable m skips b)
    (hst : ∀ s ∈ cfg.start, (kin0 s).depth = 0 ∧ |(kin0 s).theta| ≤ 4 ∧ |(kin0 s).x| ≤ 11000 ∧ |(kin0 s).y| ≤ 11000)
    {fuel : Nat} {path : List SNode}
    (hf : kFindPath (dynSteerAlgoF (doubleFmt r hr) lib clamp Q m.width m.height m.res S) O cfg kin0 fuel = some (.ok path))
    (hne : path ≠ []) (hlen : path.length ≤ 1001) :
    ∃ s ∈ cfg.start, ∃ qs, path = kin0 s :: qs ∧
      (∃ ps, Executes Q.la Q.resolution (kin0 s) (commands Q.reversed (firstLen Q) Q.distStep qs) ps) ∧
      ∀ ps, Executes Q.la Q.resolution (kin0 s) (commands Q.reversed (firstLen Q) Q.distStep qs) ps →
        ps.length = qs.length ∧ ∀ i (h : i < ps.length) (h' : i < qs.length), PoseNear (1 / 1000) (1 / 10 ^ 6) ps[i] qs[i] := by
  have hb : ∀ k k', S.usable k k' = .ok true → |k'.x| ≤ 11000 ∧ |k'.y| ≤ 11000 := by
    intro k k' hk
    rw [hus] at hk
    obtain ⟨b1, b2⟩ := usable_bounds hk
    have : max (m.width : ℝ) m.height ≤ 10000 := max_le (by exact_mod_cast hw) (by exact_mod_cast hh)
    constructor <;> linarith
  obtain ⟨s, hs, qs, rfl, ex, al⟩ := dyn_search_drift ok hm hla hres hds hr0 L M ht hheur hhg hb hst hf hne
  refine ⟨s, hs, qs, rfl, ex, fun ps hp => ?_⟩
  obtain ⟨a1, a2⟩ := al ps hp
  refine ⟨a1, fun i h h' => ?_⟩
  have hm1 : maxLen Q ≤ 100 * Q.resolution := max_le h2 h1
  have hm2 : maxLen Q ≤ 10 * Q.la := max_le h3 (by linarith)
  have hi : i + 1 ≤ 1000 := by simp only [List.length_cons] at hlen; omega
  obtain ⟨d1, d2⟩ := double_drift (n := i + 1) hla hres (hds.trans (le_max_left _ _)) h1 hm1 hm2 (le_refl (11000 : ℝ)) ok.e0 he hi
  refine (a2 i h h').weaken d1 ?_
  have : ((i + 1 : ℕ) : ℝ) = (i : ℝ) + 1 := by push_cast; ring
  rw [this] at d2
  exact d2

end double

end PathPlanning.Drift
