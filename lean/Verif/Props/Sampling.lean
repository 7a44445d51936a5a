import Verif.Spec.Sampling
import Verif.Spec.Shapes
import Verif.Props.RSArc

/-!
# Goal regions (C48)
-/

namespace PathPlanning.Sampling
open Spec

variable {clamp : ℝ → ℝ}

/-- What a region yields is determined by its state. -/
theorem yields_unique {S : Type} {R : Region S} {s : S} {g : ℝ} {l l' : List (Pose × ℝ)}
    (h : Yields R s g l) (h' : Yields R s g l') : l = l' := by
  induction h generalizing l' with
  | done e =>
    cases h' with
    | done _ => rfl
    | more e' _ => rw [e] at e'; cases e'
  | more e _ ih =>
    cases h' with
    | done e' => rw [e] at e'; cases e'
    | more e' h2 =>
      rw [e] at e'
      cases e'
      rw [ih h2]

/-- The `i`-th goal of a ring. -/
noncomputable def ringPose (clamp : ℝ → ℝ) (r : Ring) (rnd : Nat → ℝ) (i : Nat) : Pose :=
  let rad := r.radius + (rnd i - 1 / 2) * r.width
  let alpha := (i : ℝ) * r.step
  ⟨r.center.x + rad * Real.cos alpha, r.center.y + rad * Real.sin alpha,
    clamp (alpha + (r.direction - 1 / 2) * Real.pi)⟩

theorem ring_yields (rnd : Nat → ℝ) (g : ℝ) : ∀ (k : Nat) (r : Ring), r.counter + k = r.samples →
    Yields (ringRegion clamp rnd) r g
      ((List.range' r.counter k).map fun (i : Nat) => (ringPose clamp r rnd i, g)) := by
  intro k
  induction k with
  | zero =>
    intro r hr
    refine .done ?_
    have : r.counter ≥ r.samples := by omega
    simp [ringRegion, Ring.next, this]
  | succ k ih =>
    intro r hr
    rw [List.range'_succ, List.map_cons]
    have hlt : ¬ r.counter ≥ r.samples := by omega
    refine .more (s' := { r with counter := r.counter + 1 }) ?_ ?_
    · simp [ringRegion, Ring.next, hlt, ringPose]
    · exact ih { r with counter := r.counter + 1 } (by simp only; omega)

/-- **C48 (ring).**  After `init(n)` a ring region yields exactly `n` goals and then ends, whatever happened to the object
before.  The `i`-th goal lies in direction `2 π i / n` from the centre, at a distance that differs from the configured
radius by at most half the width; its heading is perpendicular to that direction, counter-clockwise for a non-negative
radius and clockwise for a negative one.  The gain of the caller is left alone. -/
theorem ring_spec (hC : ClampSpec clamp) (center : P2) (radius width : ℝ) (rnd : Nat → ℝ)
    (hrnd : ∀ i, 0 ≤ rnd i ∧ rnd i ≤ 1) (r : Ring) (hc : r.center = center) (hr : r.radius = |radius|)
    (hw : r.width = width) (hd : r.direction = if radius < 0 then 0 else 1) (n : Nat) (g : ℝ) :
    ∃ l, Yields (ringRegion clamp rnd) (r.init n) g l ∧ l.length = n ∧
      ∀ (i : Nat) (p : Pose) (g' : ℝ), l[i]? = some (p, g') → g' = g ∧
        (∃ ρ, abs (ρ - |radius|) ≤ |width| / 2 ∧
          p.x = center.x + ρ * Real.cos (2 * Real.pi * i / n) ∧
          p.y = center.y + ρ * Real.sin (2 * Real.pi * i / n)) ∧
        AngEq p.theta (2 * Real.pi * i / n + (if radius < 0 then -(Real.pi / 2) else Real.pi / 2)) := by
  refine ⟨_, ring_yields rnd g n (r.init n) (by simp [Ring.init]), by simp, ?_⟩
  intro i p g' hp
  rw [List.getElem?_map] at hp
  cases hi : (List.range' (r.init n).counter n)[i]? with
  | none => rw [hi] at hp; cases hp
  | some j =>
    rw [hi] at hp
    simp only [Option.map_some, Option.some.injEq, Prod.mk.injEq] at hp
    obtain ⟨rfl, rfl⟩ := hp
    have hj : j = i := by
      rw [List.getElem?_range'] at hi
      · simp only [Ring.init, Option.some.injEq] at hi; omega
      · have := (List.getElem?_eq_some_iff.1 hi).1; simpa using this
    subst hj
    have hal : (j : ℝ) * (r.init n).step = 2 * Real.pi * j / n := by simp only [Ring.init]; ring
    refine ⟨rfl, ⟨|radius| + (rnd j - 1 / 2) * width, ?_, ?_, ?_⟩, ?_⟩
    · rw [add_sub_cancel_left, abs_mul]
      have h1 : |rnd j - 1 / 2| ≤ 1 / 2 := by
        rw [abs_le]; constructor <;> linarith [(hrnd j).1, (hrnd j).2]
      have := mul_le_mul_of_nonneg_right h1 (abs_nonneg width)
      linarith
    · simp only [ringPose, hal]; simp [Ring.init, hc, hr, hw]
    · simp only [ringPose, hal]; simp [Ring.init, hc, hr, hw]
    · simp only [ringPose, hal]
      obtain ⟨k, hk⟩ := hC.mod (2 * Real.pi * j / n + ((r.init n).direction - 1 / 2) * Real.pi)
      refine ⟨k, ?_⟩
      rw [hk]
      have : (r.init n).direction = r.direction := rfl
      rw [this, hd]
      split_ifs <;> ring

/-- The constructor establishes the fields used above; without `init` the region yields 20 goals. -/
theorem ring_new (center : P2) (radius width : ℝ) :
    (Ring.new center radius width).center = center ∧ (Ring.new center radius width).radius = |radius| ∧
    (Ring.new center radius width).width = width ∧
    (Ring.new center radius width).direction = (if radius < 0 then 0 else 1) ∧
    (Ring.new center radius width).init 20 = Ring.new center radius width := by
  refine ⟨rfl, rfl, rfl, rfl, ?_⟩
  simp [Ring.new, Ring.init]

/-- A ring never changes its centre, radius, width and direction: every state reachable through `init` and `getNextGoal`
meets the hypotheses of `ring_spec`. -/
theorem ring_fields_kept (r : Ring) (n : Nat) (rnd : ℝ) :
    (let q := r.init n; q.center = r.center ∧ q.radius = r.radius ∧ q.width = r.width ∧ q.direction = r.direction) ∧
    (∀ p q, r.next clamp rnd = some (p, q) →
      q.center = r.center ∧ q.radius = r.radius ∧ q.width = r.width ∧ q.direction = r.direction) := by
  refine ⟨⟨rfl, rfl, rfl, rfl⟩, ?_⟩
  intro p q h
  unfold Ring.next at h
  split at h
  · cases h
  · simp only [Option.some.injEq, Prod.mk.injEq] at h
    obtain ⟨_, rfl⟩ := h
    exact ⟨rfl, rfl, rfl, rfl⟩

/-- **C48, finding.**  A ring wider than twice its radius yields goals on the far side of the centre: with the smallest
random number the goal lies exactly opposite to where its heading is tangential. -/
theorem ring_wide_crosses_centre (center : P2) (radius width : ℝ) (hr : 0 ≤ radius) (hw : 2 * radius < width) (n : Nat)
    (hn : 0 < n) :
    ∃ p q, ((Ring.new center radius width).init n).next clamp 0 = some (p, q) ∧ p.x < center.x ∧ p.y = center.y := by
  have hlt : ¬ ((Ring.new center radius width).init n).counter ≥ ((Ring.new center radius width).init n).samples := by
    simp [Ring.init]; omega
  refine ⟨_, _, by unfold Ring.next; rw [if_neg hlt], ?_, ?_⟩
  · simp [Ring.init, Ring.new, abs_of_nonneg hr]
    linarith
  · simp [Ring.init, Ring.new]

/-! ### Centroid region -/

theorem diff_eq {c n : Nat} (hc : c ≤ n) (hn : n < 2 ^ 31) :
    toI32 (wrapU (c + u32 - n / 2)) = (c : Int) - (n / 2 : Nat) := by
  unfold toI32 wrapU u32
  split_ifs <;> omega

/-- The direction from the robot to the centre. -/
noncomputable def approach (src center : P2) : ℝ := atan2 (center.y - src.y) (center.x - src.x)

theorem centroid_yields (hC : ClampSpec clamp) : ∀ (k : Nat) (c : Centroid) (θ0 : ℝ) (g : ℝ),
    c.counter + k = c.samples → c.samples < 2 ^ 31 → AngEq c.theta (θ0 + c.counter * c.step) →
    ∃ l, Yields (centroidRegion clamp) c g l ∧ l.length = k ∧
      ∀ (i : Nat) (p : Pose) (g' : ℝ), l[i]? = some (p, g') →
        p.x = c.center.x - c.radius * Real.cos p.theta ∧ p.y = c.center.y - c.radius * Real.sin p.theta ∧
        AngEq p.theta (θ0 + (c.counter + i : ℕ) * c.step) ∧
        g' = 1 + 2 * |(((c.counter + i + 1 : ℕ) : ℝ) - ((c.samples / 2 : ℕ) : ℝ))| / c.samples := by
  intro k
  induction k with
  | zero =>
    intro c θ0 g hk _ _
    refine ⟨[], .done ?_, rfl, by intro i p g' h; simp at h⟩
    have : c.counter ≥ c.samples := by omega
    simp [centroidRegion, Centroid.next, this]
  | succ k ih =>
    intro c θ0 g hk hn hθ
    have hlt : ¬ c.counter ≥ c.samples := by omega
    set c' : Centroid := { c with counter := c.counter + 1, theta := clamp (c.theta + c.step) } with hc'
    obtain ⟨l, hl, hlen, hsp⟩ := ih c' θ0 (1 + 2 * |((toI32 (wrapU (c.counter + 1 + u32 - c.samples / 2)) : Int) : ℝ)| / c.samples)
      (by simp [hc']; omega) hn (by
        obtain ⟨a, ha⟩ := hC.mod (c.theta + c.step)
        obtain ⟨b, hb⟩ := hθ
        refine ⟨a + b, ?_⟩
        simp only [hc']
        rw [ha, hb]; push_cast; ring)
    refine ⟨_, .more (s' := c') (by simp [centroidRegion, Centroid.next, hlt, hc']; rfl) hl, by simp [hlen], ?_⟩
    intro i p g' hp
    cases i with
    | zero =>
      simp only [List.getElem?_cons_zero, Option.some.injEq, Prod.mk.injEq] at hp
      obtain ⟨rfl, rfl⟩ := hp
      refine ⟨rfl, rfl, by simpa using hθ, ?_⟩
      rw [diff_eq (by omega) hn]
      rw [Int.cast_sub, Int.cast_natCast, Int.cast_natCast, Nat.add_zero]
    | succ i =>
      rw [List.getElem?_cons_succ] at hp
      obtain ⟨h1, h2, h3, h4⟩ := hsp i p g' hp
      refine ⟨h1, h2, ?_, ?_⟩
      · have : (c'.counter + i : ℕ) = c.counter + (i + 1) := by simp [hc']; omega
        rw [this] at h3; exact h3
      · have : c'.counter + i + 1 = c.counter + (i + 1) + 1 := by simp [hc']; omega
        rw [this] at h4; exact h4

/-- **C48 (approach region).**  After `init(n)` (any history before) with an opening angle of at least `10^-6` and
`2 ≤ n`: exactly `n` goals, then the end.  Goal `i` lies at the configured radius from the centre, faces it, and its
heading is `-|angle|/2 + i |angle|/(n-1)` from the direct approach. -/
theorem centroid_spec (hC : ClampSpec clamp) (c : Centroid) (n : Nat) (hn : 2 ≤ n) (hn' : n < 2 ^ 31)
    (ha : 1 / 1000000 ≤ |c.angle|) (g : ℝ) :
    ∃ l, Yields (centroidRegion clamp) (c.init n) g l ∧ l.length = n ∧
      ∀ (i : Nat) (p : Pose) (g' : ℝ), l[i]? = some (p, g') →
        c.center = ⟨p.x + c.radius * Real.cos p.theta, p.y + c.radius * Real.sin p.theta⟩ ∧
        AngEq p.theta (approach c.src c.center - |c.angle| / 2 + i * (|c.angle| / (n - 1))) ∧
        g' = 1 + 2 * |((i : ℝ) + 1 - ((n / 2 : ℕ) : ℝ))| / n := by
  have hcond : ¬ (|c.angle| < 1 / 1000000 ∨ n ≤ 1) := by
    rintro (h | h)
    · linarith
    · omega
  have hi : c.init n = { c with counter := 0, samples := n, theta := approach c.src c.center - 1 / 2 * |c.angle|, angle := abs c.angle, step := (abs c.angle) / ((n : ℝ) - 1) } := by
    unfold Centroid.init; rw [if_neg hcond]; rfl
  obtain ⟨l, h1, h2, h3⟩ := centroid_yields hC n (c.init n) (approach c.src c.center - |c.angle| / 2) g
    (by rw [hi]; simp) (by rw [hi]; exact hn') (by rw [hi]; exact ⟨0, by simp; ring⟩)
  refine ⟨l, h1, h2, ?_⟩
  intro i p g' hp
  obtain ⟨e1, e2, e3, e4⟩ := h3 i p g' hp
  rw [hi] at e1 e2 e3 e4
  simp only [zero_add] at e1 e2 e3 e4
  refine ⟨?_, e3, ?_⟩
  · rw [e1, e2]; simp
  · rw [e4]; push_cast; rfl

/-- **C48 (approach region, degenerate).**  With an opening angle below `10^-6` or fewer than two samples there is exactly
one goal, the direct approach. -/
theorem centroid_single (c : Centroid) (n : Nat) (h : |c.angle| < 1 / 1000000 ∨ n ≤ 1) (g : ℝ) :
    Yields (centroidRegion clamp) (c.init n) g
      [(⟨c.center.x - c.radius * Real.cos (approach c.src c.center),
         c.center.y - c.radius * Real.sin (approach c.src c.center), approach c.src c.center⟩, 3)] := by
  have hi : c.init n = { c with counter := 0, samples := 1, theta := approach c.src c.center, angle := abs c.angle, step := 0 } := by
    unfold Centroid.init; rw [if_pos h]; rfl
  rw [hi]
  refine .more (s' := { c with counter := 1, samples := 1, theta := clamp (approach c.src c.center + 0), angle := abs c.angle, step := 0 }) ?_ (.done ?_)
  · have hd : toI32 (wrapU (0 + 1 + u32 - 1 / 2)) = 1 := by decide
    simp only [centroidRegion, Centroid.next]
    rw [if_neg (by decide), hd]
    norm_num
  · simp [centroidRegion, Centroid.next]

/-- The distance of every goal from the centre is the configured radius. -/
theorem facing_distance {center : P2} {r : ℝ} {p : Pose}
    (h : center = ⟨p.x + r * Real.cos p.theta, p.y + r * Real.sin p.theta⟩) : eucl p.pt center = |r| := by
  subst h
  unfold eucl dist2 Pose.pt
  have : (p.x - (p.x + r * Real.cos p.theta)) ^ 2 + (p.y - (p.y + r * Real.sin p.theta)) ^ 2 = r ^ 2 := by
    have := Real.sin_sq_add_cos_sq p.theta
    nlinarith
  simp only [this, Real.sqrt_sq_eq_abs]

/-- **C48, findings on the gain** (documented: 1.0 for the direct approach up to 2.0 at the largest angle).  The formula of
`centroid_spec` is off by one: (1) with a single sample, the direct approach, the gain is 3 (`centroid_single`);
(2) for odd `n` the direct approach (the middle sample) does not get the smallest gain; (3) mirrored approaches have
different gains. -/
theorem centroid_gain_skewed (n k : Nat) (hk : 1 ≤ k) (hn : n = 2 * k + 1) :
    (1 + 2 * |((k : ℝ) + 1 - ((n / 2 : ℕ) : ℝ))| / n > 1 + 2 * |(((k - 1 : ℕ) : ℝ) + 1 - ((n / 2 : ℕ) : ℝ))| / n) ∧
    (1 + 2 * |((0 : ℝ) + 1 - ((n / 2 : ℕ) : ℝ))| / n ≠ 1 + 2 * |(((n - 1 : ℕ) : ℝ) + 1 - ((n / 2 : ℕ) : ℝ))| / n) := by
  have h2 : n / 2 = k := by omega
  have hn0 : (0 : ℝ) < n := by rw [hn]; positivity
  have hk1 : (1 : ℝ) ≤ k := by exact_mod_cast hk
  have e1 : ((k - 1 : ℕ) : ℝ) = k - 1 := by push_cast [hk]; rfl
  have e2 : ((n - 1 : ℕ) : ℝ) = 2 * k := by rw [hn]; push_cast; simp
  rw [h2, e1, e2]
  constructor
  · have a1 : |(k : ℝ) + 1 - k| = 1 := by simp
    have a2 : |(k : ℝ) - 1 + 1 - k| = 0 := by simp
    rw [a1, a2]
    have : (0 : ℝ) < 2 * 1 / n := by positivity
    rw [mul_zero, zero_div]
    linarith
  · have a1 : |(0 : ℝ) + 1 - k| = k - 1 := by rw [abs_of_nonpos] <;> linarith
    have a2 : |2 * (k : ℝ) + 1 - k| = k + 1 := by rw [abs_of_nonneg] <;> linarith
    rw [a1, a2]
    intro h
    field_simp at h
    linarith

/-- Two calls of `init` are as good as one: nothing of the history of the object survives. -/
theorem centroid_history (c d : Centroid) (n : Nat) (h1 : c.src = d.src) (h2 : c.center = d.center)
    (h3 : c.radius = d.radius) (h4 : |c.angle| = |d.angle|) : c.init n = d.init n := by
  unfold Centroid.init
  rw [h1, h2, h4]
  simp only
  split_ifs <;> simp [h3, h2, h1]

/-- Neither `init` nor `getNextGoal` changes the configuration. -/
theorem centroid_fields_kept (c : Centroid) (n : Nat) :
    (let q := c.init n; q.center = c.center ∧ q.src = c.src ∧ q.radius = c.radius ∧ |q.angle| = |c.angle|) ∧
    (∀ p g q, c.next clamp = some (p, g, q) →
      q.center = c.center ∧ q.src = c.src ∧ q.radius = c.radius ∧ |q.angle| = |c.angle|) := by
  refine ⟨?_, ?_⟩
  · unfold Centroid.init
    simp only
    split_ifs <;> simp
  · intro p g q h
    unfold Centroid.next at h
    split at h
    · cases h
    · simp only [Option.some.injEq, Prod.mk.injEq] at h
      obtain ⟨_, _, rfl⟩ := h
      exact ⟨rfl, rfl, rfl, rfl⟩

/-- Non-vacuity: a normaliser exists, hence concrete regions with five goals. -/
example : ∃ clamp : ℝ → ℝ, ∃ l, Yields (ringRegion clamp (fun _ => 1 / 4)) ((Ring.new ⟨1, 2⟩ (-3) 1).init 5) 1 l ∧
    l.length = 5 := by
  obtain ⟨clamp, hC⟩ := RS.clampSpec_exists
  obtain ⟨l, h1, h2, _⟩ := ring_spec hC ⟨1, 2⟩ (-3) 1 (fun _ => 1 / 4) (fun _ => by norm_num)
    (Ring.new ⟨1, 2⟩ (-3) 1) rfl rfl rfl rfl 5 1
  exact ⟨clamp, l, h1, h2⟩

example : ∃ clamp : ℝ → ℝ, ∃ l, Yields (centroidRegion clamp) ((Centroid.new ⟨0, 0⟩ ⟨4, 3⟩ 1 (-1) 7 8).init 5) 1 l ∧
    l.length = 5 := by
  obtain ⟨clamp, hC⟩ := RS.clampSpec_exists
  obtain ⟨l, h1, h2, _⟩ := centroid_spec hC (Centroid.new ⟨0, 0⟩ ⟨4, 3⟩ 1 (-1) 7 8) 5 (by norm_num) (by norm_num)
    (by norm_num [Centroid.new]) 1
  exact ⟨clamp, l, h1, h2⟩

/-! ### Pose list -/

/-- **C48 (pose list).**  The region yields the poses of the message in order, whatever number of samples is asked for,
with the gains of the message if it says so and has as many of them, otherwise with the caller's gain; the vector of
gains is never read out of bounds. -/
theorem poseList_next (p : PoseList) (n : Nat) (u : Bool) (ps : List Pose) (gs : List ℝ)
    (hp : p.poses = some (u, ps, gs)) (i : Nat) (g : ℝ) :
    PoseList.next { p.init n with counter := i } g = .ok
      (if h : i < ps.length then
        some (ps[i], if u = true ∧ ps.length = gs.length then gs.getD i 0 else g, { p.init n with counter := i + 1 })
       else none) := by
  unfold PoseList.next PoseList.init
  simp only [hp]
  by_cases h : i < ps.length
  · rw [if_neg (by omega), dif_pos h]
    by_cases hu : u = true ∧ ps.length = gs.length
    · have hb : (u && decide (ps.length = gs.length)) = true := by simp [hu.1, hu.2]
      simp only [hb, if_true]
      rw [vget_of_lt (by omega), vget_of_lt h]
      simp only [CRes.ok_bind, CRes.pure_eq, if_pos hu]
      simp [List.getD, List.getElem?_eq_getElem (show i < gs.length by omega)]
    · have hb : (u && decide (ps.length = gs.length)) = false := by
        cases u <;> simp_all
      simp only [hb, Bool.false_eq_true, if_false]
      rw [vget_of_lt h]
      simp only [CRes.ok_bind, CRes.pure_eq, if_neg hu]
  · rw [if_pos (by omega), dif_neg h]

private theorem hands_from (p : PoseList) (u : Bool) (ps : List Pose) (gs : List ℝ) (hp : p.poses = some (u, ps, gs))
    (hu : p.useGain = true → ps.length = gs.length) (k : Nat) :
    ∀ (i : Nat) (g : ℝ), i + k = ps.length → Hands { p with counter := i } g
      (if p.useGain then (ps.drop i).zip (gs.drop i) else (ps.drop i).map fun q => (q, g)) := by
  induction k with
  | zero =>
    intro i g hi
    have hd : ps.drop i = [] := List.drop_eq_nil_of_le (by omega)
    have : (if p.useGain then (ps.drop i).zip (gs.drop i) else (ps.drop i).map fun q => (q, g)) = [] := by
      rw [hd]; simp
    rw [this]
    refine .done ?_
    unfold PoseList.next
    simp only [hp]
    rw [if_pos (by omega)]
  | succ k ih =>
    intro i g hi
    have hi' : i < ps.length := by omega
    have hps : ps.drop i = ps[i] :: ps.drop (i + 1) := List.drop_eq_getElem_cons hi'
    cases hg : p.useGain with
    | true =>
      have hl := hu hg
      have hgs : gs.drop i = gs[i]'(by omega) :: gs.drop (i + 1) := List.drop_eq_getElem_cons (by omega)
      have h := ih (i + 1) (gs[i]'(by omega)) (by omega)
      rw [hg] at h
      simp only [if_true] at h ⊢
      rw [hps, hgs, List.zip_cons_cons]
      refine .more ?_ h
      unfold PoseList.next
      simp only [hp, hg, if_true]
      rw [if_neg (by omega), vget_of_lt (show i < gs.length by omega), vget_of_lt hi']
      rfl
    | false =>
      have h := ih (i + 1) g (by omega)
      rw [hg] at h
      simp only [Bool.false_eq_true, if_false] at h ⊢
      rw [hps, List.map_cons]
      refine .more ?_ h
      unfold PoseList.next
      simp only [hp, hg, Bool.false_eq_true, if_false]
      rw [if_neg (by omega), vget_of_lt hi']
      rfl

/-- **C48 (pose list).**  After `init`, whatever happened before, the calls of `getNextGoal` hand out every pose of the
message once, in order; the gain is that of the message if it says so and has as many gains as poses, otherwise the
caller's. -/
theorem poseList_yields (p : PoseList) (n : Nat) (u : Bool) (ps : List Pose) (gs : List ℝ) (hp : p.poses = some (u, ps, gs))
    (g : ℝ) : Hands (p.init n) g (if u = true ∧ ps.length = gs.length then ps.zip gs else ps.map fun q => (q, g)) := by
  have hi : (p.init n).useGain = (u && decide (ps.length = gs.length)) := by
    unfold PoseList.init
    simp only [hp]
  have h := hands_from (p.init n) u ps gs hp (by rw [hi]; simp) ps.length 0 g (by omega)
  have he : ({ p.init n with counter := 0 } : PoseList) = p.init n := rfl
  rw [he, hi] at h
  simp only [List.drop_zero, Bool.and_eq_true, decide_eq_true_eq] at h
  exact h

/-- Without a message no goal is handed out. -/
theorem poseList_null (p : PoseList) (hp : p.poses = none) (g : ℝ) : Hands p g [] := by
  refine .done ?_
  unfold PoseList.next
  rw [hp]

/-- Before `init`, a new region hands out every pose once, in order, always with the caller's gain. -/
theorem poseList_new (u : Bool) (ps : List Pose) (gs : List ℝ) (g : ℝ) :
    Hands (PoseList.new (some (u, ps, gs))) g (ps.map fun q => (q, g)) := by
  have h := hands_from (PoseList.new (some (u, ps, gs))) u ps gs rfl (fun h => by cases h) ps.length 0 g (by omega)
  simpa [PoseList.new] using h

/-- Before `init`, a centroid region yields no goal. -/
theorem centroid_new (clamp : ℝ → ℝ) (src center : P2) (radius angle junk1 junk2 g : ℝ) :
    Yields (centroidRegion clamp) (Centroid.new src center radius angle junk1 junk2) g [] := by
  refine .done ?_
  simp [centroidRegion, Centroid.next, Centroid.new]

/-- Non-vacuity: a message with two poses and their gains, a region used before. -/
example : Hands (PoseList.init { PoseList.new (some (true, [⟨1, 2, 0⟩, ⟨3, 4, 1⟩], [5, 6])) with counter := 1 } 9) 7
    [(⟨1, 2, 0⟩, 5), (⟨3, 4, 1⟩, 6)] := by
  have h := poseList_yields { PoseList.new (some (true, [⟨1, 2, 0⟩, ⟨3, 4, 1⟩], [5, 6])) with counter := 1 } 9 _ _ _ rfl 7
  simpa using h

end PathPlanning.Sampling
