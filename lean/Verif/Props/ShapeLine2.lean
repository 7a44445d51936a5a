import Verif.Props.ShapeLine

/-!
# C43, C47: distance to a segment and sampling of a line
-/

noncomputable section

namespace PathPlanning.Shapes
open Spec RS

theorem eucl_lerp (a b : P2) (t u : ℝ) : eucl (lerp a b t) (lerp a b u) = |t - u| * eucl b a := by
  unfold eucl lerp dist2
  simp only
  rw [show (a.x + t * (b.x - a.x) - (a.x + u * (b.x - a.x))) ^ 2 +
      (a.y + t * (b.y - a.y) - (a.y + u * (b.y - a.y))) ^ 2 =
      (t - u) ^ 2 * ((b.x - a.x) ^ 2 + (b.y - a.y) ^ 2) by ring,
    Real.sqrt_mul (sq_nonneg _), Real.sqrt_sq_eq_abs]

theorem lerp_zero (a b : P2) : lerp a b 0 = a := by ext <;> simp [lerp]
theorem lerp_one (a b : P2) : lerp a b 1 = b := by ext <;> simp [lerp]

/-- What the tolerance test says for a point of the line. -/
theorem onSegment_lerp (l : Ln) (h : l.s ≠ l.e) (t : ℝ) (tol : ℝ) (ht : 0 < tol) :
    l.onSegment (lerp l.s l.e t) tol = true ↔
      -(tol / 2) < t * eucl l.e l.s ∧ (t - 1) * eucl l.e l.s < tol / 2 := by
  have hl' : 0 < eucl l.e l.s := len_pos h
  have e1 : (lerp l.s l.e t - l.s).length = |t| * eucl l.e l.s := by
    rw [len_eq]; conv_lhs => rw [← lerp_zero l.s l.e]
    rw [lerp_zero]
    have := eucl_lerp l.s l.e t 0
    rw [lerp_zero, sub_zero] at this; exact this
  have e2 : (lerp l.s l.e t - l.e).length = |t - 1| * eucl l.e l.s := by
    rw [len_eq]
    have := eucl_lerp l.s l.e t 1
    rw [lerp_one] at this; exact this
  unfold Ln.onSegment
  simp only [e1, e2, decide_eq_true_eq]
  rw [show (l.e - l.s).length = eucl l.e l.s from rfl]
  set L := eucl l.e l.s
  rcases lt_trichotomy t 0 with h0 | h0 | h0
  · rw [abs_of_neg h0, abs_of_neg (by linarith : t - 1 < 0)]
    rw [show -t * L + -(t - 1) * L - L = -2 * (t * L) by ring, abs_of_pos (by nlinarith)]
    constructor
    · intro h1; exact ⟨by linarith, by nlinarith⟩
    · rintro ⟨h1, _⟩; linarith
  · subst h0; simp only [abs_zero, zero_mul, zero_sub, abs_neg, abs_one, one_mul, zero_add, sub_self]
    constructor
    · intro _; exact ⟨by linarith, by linarith⟩
    · intro _; exact ht
  · rw [abs_of_pos h0]
    rcases le_or_gt t 1 with h1 | h1
    · rw [abs_of_nonpos (by linarith : t - 1 ≤ 0), show t * L + -(t - 1) * L - L = 0 by ring, abs_zero]
      constructor
      · intro _; exact ⟨by nlinarith, by nlinarith⟩
      · intro _; exact ht
    · rw [abs_of_pos (by linarith : 0 < t - 1), show t * L + (t - 1) * L - L = 2 * ((t - 1) * L) by ring,
        abs_of_pos (by nlinarith)]
      constructor
      · intro h2; exact ⟨by nlinarith, by linarith⟩
      · rintro ⟨_, h2⟩; linarith

/-- Pythagoras at the foot point. -/
theorem dist2_foot (l : Ln) (h : l.s ≠ l.e) (p : P2) (t : ℝ) : dist2 p (lerp l.s l.e t) =
    dist2 p (l.foot p) + (t - footParam l p) ^ 2 * dist2 l.e l.s := by
  have hperp := (foot_spec l h p).2.1
  rw [foot_eq l h] at hperp ⊢
  unfold dotP lerp at hperp
  unfold dist2 lerp
  simp only [P2.sub_x, P2.sub_y] at hperp ⊢
  linear_combination -2 * (t - footParam l p) * hperp

/-- **C43.** `distanceTo` is the distance to the point returned by `nearestPointTo`, never more than the
distance to any point of the segment, and that point lies within `5e-6` (half the tolerance) of the
segment — exactly on it unless the foot point lies beyond an end by less than that. -/
theorem nearest_spec (l : Ln) (h : l.s ≠ l.e) (p : P2) :
    l.distanceTo p = eucl p (l.nearest p) ∧
    (∀ q, OnSeg l.s l.e q → l.distanceTo p ≤ eucl p q) ∧
    ∃ q, OnSeg l.s l.e q ∧ eucl q (l.nearest p) ≤ 1 / 200000 ∧
      (q = l.nearest p ∨ (l.nearest p = l.foot p ∧ ¬ OnSeg l.s l.e (l.foot p))) := by
  have hl' : 0 < eucl l.e l.s := len_pos h
  have hd : 0 < dist2 l.e l.s := by rw [← eucl_sq]; positivity
  set t := footParam l p with ht
  have hf : l.foot p = lerp l.s l.e t := foot_eq l h p
  have htol : (0 : ℝ) < distEps := by unfold distEps; norm_num
  by_cases hon : l.onSegment (l.foot p) = true
  · have e1 : l.distanceTo p = eucl p (l.foot p) := by
      unfold Ln.distanceTo; simp only [hon, if_true]; rw [len_eq, eucl_comm]
    have e2 : l.nearest p = l.foot p := by unfold Ln.nearest; simp only [hon, if_true]
    rw [hf, onSegment_lerp l h t _ htol] at hon
    obtain ⟨h1, h2⟩ := hon
    refine ⟨by rw [e1, e2], ?_, ?_⟩
    · rintro q ⟨u, _, _, rfl⟩
      rw [e1]; exact (foot_spec l h p).2.2.2 _ ⟨u, rfl⟩
    · rcases lt_or_ge t 0 with h0 | h0
      · refine ⟨l.s, ⟨0, le_rfl, zero_le_one, (lerp_zero _ _).symm⟩, ?_, Or.inr ⟨e2, ?_⟩⟩
        · rw [e2, hf]
          have := eucl_lerp l.s l.e 0 t
          rw [lerp_zero] at this
          rw [this, zero_sub, abs_neg, abs_of_neg h0]
          unfold distEps at h1; linarith
        · rintro ⟨u, hu0, hu1, e⟩
          rw [hf] at e
          have e3 := eucl_lerp l.s l.e t u
          rw [e, eucl_self] at e3
          have : |t - u| = 0 := by
            rcases mul_eq_zero.1 e3.symm with h | h
            · exact h
            · linarith
          rw [abs_eq_zero] at this; linarith
      rcases le_or_gt t 1 with h3 | h3
      · exact ⟨l.foot p, ⟨t, h0, h3, hf⟩, by rw [e2, eucl_self]; norm_num, Or.inl e2.symm⟩
      · refine ⟨l.e, ⟨1, zero_le_one, le_rfl, (lerp_one _ _).symm⟩, ?_, Or.inr ⟨e2, ?_⟩⟩
        · rw [e2, hf]
          have := eucl_lerp l.s l.e 1 t
          rw [lerp_one] at this
          rw [this, abs_of_neg (by linarith : (1:ℝ) - t < 0)]
          unfold distEps at h2; linarith
        · rintro ⟨u, hu0, hu1, e⟩
          rw [hf] at e
          have e3 := eucl_lerp l.s l.e t u
          rw [e, eucl_self] at e3
          have : |t - u| = 0 := by
            rcases mul_eq_zero.1 e3.symm with h | h
            · exact h
            · linarith
          rw [abs_eq_zero] at this; linarith
  · have e1 : l.distanceTo p = min (eucl p l.s) (eucl p l.e) := by
      unfold Ln.distanceTo; simp only [hon]; rfl
    have e2 : l.nearest p = if eucl p l.s < eucl p l.e then l.s else l.e := by
      unfold Ln.nearest; simp only [hon]; rfl
    have hon' := hon
    rw [hf, onSegment_lerp l h t _ htol] at hon'
    have hout : t < 0 ∨ 1 < t := by
      by_contra hc
      push Not at hc
      apply hon'
      constructor
      · have := mul_nonneg hc.1 hl'.le; linarith
      · have : (t - 1) * eucl l.e l.s ≤ 0 := mul_nonpos_of_nonpos_of_nonneg (by linarith) hl'.le
        linarith
    refine ⟨?_, ?_, ?_⟩
    · rw [e1, e2]; split_ifs with hc
      · rw [min_eq_left hc.le]
      · rw [min_eq_right (not_lt.1 hc)]
    · rintro q ⟨u, hu0, hu1, rfl⟩
      rw [e1]
      have hu := dist2_foot l h p u
      rcases hout with h0 | h0
      · apply (min_le_left _ _).trans
        apply Real.sqrt_le_sqrt
        have h00 := dist2_foot l h p 0
        rw [lerp_zero] at h00
        rw [hu, h00]
        have : (0 - t) ^ 2 ≤ (u - t) ^ 2 := by nlinarith
        nlinarith
      · apply (min_le_right _ _).trans
        apply Real.sqrt_le_sqrt
        have h00 := dist2_foot l h p 1
        rw [lerp_one] at h00
        rw [hu, h00]
        have : (1 - t) ^ 2 ≤ (u - t) ^ 2 := by nlinarith
        nlinarith
    · refine ⟨l.nearest p, ?_, by rw [eucl_self]; norm_num, Or.inl rfl⟩
      rw [e2]; split_ifs
      · exact ⟨0, le_rfl, zero_le_one, (lerp_zero _ _).symm⟩
      · exact ⟨1, zero_le_one, le_rfl, (lerp_one _ _).symm⟩

/-! ### Sampling -/

theorem fill_length (θ : ℝ) (step : P2) : ∀ (n i : Nat) (p : P2) (v : List PPose),
    (Ln.fill θ step n i p v).length = v.length := by
  intro n
  induction n with
  | zero => intros; rfl
  | succ n ih => intro i p v; unfold Ln.fill; rw [ih, List.length_modify]

theorem modify_ne {α : Type} (f : α → α) (v : List α) {i j : Nat} (h : i ≠ j) :
    (v.modify i f)[j]? = v[j]? := by
  rw [List.getElem?_modify]; simp [h]

theorem modify_eq {α : Type} (f : α → α) (v : List α) (j : Nat) :
    (v.modify j f)[j]? = v[j]?.map f := by
  rw [List.getElem?_modify]; simp

theorem fill_get (θ : ℝ) (step : P2) : ∀ (n i : Nat) (p : P2) (v : List PPose) (j : Nat),
    (Ln.fill θ step n i p v)[j]? = if i ≤ j ∧ j < i + n then
      v[j]?.map (fun q => { q with pos := p + step.smul ((j - i : Nat) : ℝ), theta := θ }) else v[j]? := by
  intro n
  induction n with
  | zero => intro i p v j; rw [if_neg (by omega)]; rfl
  | succ n ih =>
    intro i p v j
    unfold Ln.fill
    rw [ih]
    by_cases h1 : i + 1 ≤ j ∧ j < i + 1 + n
    · rw [if_pos h1, if_pos (by omega), modify_ne _ _ (by omega)]
      congr 1
      funext q
      congr 1
      have : j - i = (j - (i + 1)) + 1 := by omega
      rw [this]
      ext <;> simp [P2.smul] <;> ring
    · rw [if_neg h1]
      by_cases h2 : j = i
      · subst h2
        rw [if_pos (by omega), modify_eq]
        simp only [Nat.sub_self, Nat.cast_zero]
        congr 1
        funext q
        congr 1
        ext <;> simp [P2.smul]
      · rw [if_neg (by omega), modify_ne _ _ (by omega)]

theorem resizeV_ok {α : Type} {v w : List α} {n : Int} {d : α} (h : resizeV v n d = .ok w) :
    0 ≤ n ∧ w.length = n.toNat ∧ ∀ j, j < n.toNat → w[j]? = some ((v[j]?).getD d) := by
  unfold resizeV at h
  split_ifs at h with hn
  injection h with h; subst h
  refine ⟨by omega, ?_, ?_⟩
  · simp only [List.length_append, List.length_take, List.length_replicate]; omega
  · intro j hj
    by_cases hjv : j < v.length
    · rw [List.getElem?_append_left (by simp; omega), List.getElem?_take, if_pos hj,
        List.getElem?_eq_getElem hjv]; rfl
    · rw [List.getElem?_append_right (by simp; omega), List.getElem?_replicate, if_pos (by simp; omega),
        List.getElem?_eq_none (by omega)]; rfl

theorem resizeV_defined {α : Type} (v : List α) {n : Int} (d : α) (hn : 0 ≤ n) :
    ∃ w, resizeV v n d = .ok w := by
  unfold resizeV; rw [if_neg (by omega)]; exact ⟨_, rfl⟩

theorem unit_step (l : Ln) (h : l.s ≠ l.e) (r k : ℝ) :
    l.s + ((unit (l.e - l.s)).smul r).smul k = lerp l.s l.e (k * r / eucl l.e l.s) ∧
    l.e + (((unit (l.e - l.s)).smul r).smul (-1)).smul k = lerp l.s l.e (1 - k * r / eucl l.e l.s) := by
  have hl' : eucl l.e l.s ≠ 0 := (len_pos h).ne'
  unfold unit P2.smul lerp
  rw [show (l.e - l.s).length = eucl l.e l.s from rfl]
  constructor
  · ext
    · simp only [P2.add_x, P2.sub_x]; field_simp
    · simp only [P2.add_y, P2.sub_y]; field_simp
  · ext
    · simp only [P2.add_x, P2.sub_x]; field_simp; ring
    · simp only [P2.add_y, P2.sub_y]; field_simp; ring

/-- The poses the caller expects from `toPoses`: equidistant on the segment, in driving order, heading
along the line. -/
def LinePose (l : Ln) (backward : Bool) (dist : ℝ) (q : PPose) : Prop :=
  OnSeg l.s l.e q.pos ∧ eucl (if backward then l.e else l.s) q.pos = dist ∧
    q.theta = atan2 (l.e.y - l.s.y) (l.e.x - l.s.x)

/-- **C47** for lines. With a positive resolution (at least `1e-10`) and a segment of `len/resolution < 2^31` the call is
defined. Without start pose: `n = ⌊len/resolution⌋` poses, the `i`-th at distance
`(i+1)·resolution` from the beginning, all on the segment.
With start pose: `n+1` entries, the first `n` at the distances `i·resolution` — but the last entry is
never written (next theorem). -/
theorem toPoses_spec (l : Ln) (h : l.s ≠ l.e) (res : ℝ) (hr : 1 / 10000000000 ≤ res) (n : Nat)
    (hn : n = ⌊eucl l.e l.s / res⌋₊) (hb : n + 1 < 2 ^ 31) (old : List PPose) (moveDir : Int)
    (ws : Bool) : ∃ v, l.toPoses res old moveDir ws = .ok v ∧
      v.length = n + (if ws then 1 else 0) ∧
      (∀ i, i < n → ∃ q, v[i]? = some q ∧
        LinePose l (decide (moveDir = -1)) ((i + (if ws then 0 else 1) : Nat) * res) q) ∧
      (ws = true → v[n]? = some ((old[n]?).getD {})) := by
  have hl' : 0 < eucl l.e l.s := len_pos h
  have hr0 : 0 < res := lt_of_lt_of_le (by norm_num) hr
  have hq : 0 ≤ eucl l.e l.s / res := by positivity
  have hnf : ((n : ℤ)) = ⌊eucl l.e l.s / res⌋ := by
    rw [hn]; exact Int.natCast_floor_eq_floor hq
  have hcast : castI (eucl l.e l.s / res) = .ok (n : Int) := by
    unfold castI
    rw [truncC_nonneg hq, ← hnf, if_pos ⟨by omega, by omega⟩]
  have hnle : (n : ℝ) * res ≤ eucl l.e l.s := by
    have : (n : ℝ) ≤ eucl l.e l.s / res := by rw [hn]; exact Nat.floor_le hq
    rwa [le_div_iff₀ hr0] at this
  set step := (unit (l.e - l.s)).smul res with hstep
  set θ := atan2 (l.e - l.s).y (l.e - l.s).x with hθ
  -- position facts
  have hpos : ∀ k : ℕ, k ≤ n → ∀ bw : Bool,
      OnSeg l.s l.e ((if bw then l.e else l.s) + (if bw then step.smul (-1) else step).smul (k : ℝ)) ∧
      eucl (if bw then l.e else l.s) ((if bw then l.e else l.s) +
        (if bw then step.smul (-1) else step).smul (k : ℝ)) = k * res := by
    intro k hk bw
    have hk' : (k : ℝ) * res / eucl l.e l.s ≤ 1 := by
      rw [div_le_one hl']
      have : (k : ℝ) ≤ n := by exact_mod_cast hk
      nlinarith
    have hk0 : 0 ≤ (k : ℝ) * res / eucl l.e l.s := by positivity
    obtain ⟨u1, u2⟩ := unit_step l h res k
    cases bw
    · simp only [Bool.false_eq_true, if_false]
      rw [u1]
      refine ⟨⟨_, hk0, hk', rfl⟩, ?_⟩
      have := eucl_lerp l.s l.e 0 (k * res / eucl l.e l.s)
      rw [lerp_zero] at this
      rw [this, zero_sub, abs_neg, abs_of_nonneg hk0]; field_simp
    · simp only [if_true]
      rw [u2]
      refine ⟨⟨_, by linarith, by linarith, rfl⟩, ?_⟩
      have := eucl_lerp l.s l.e 1 (1 - k * res / eucl l.e l.s)
      rw [lerp_one] at this
      rw [this, sub_sub_cancel, abs_of_nonneg hk0]; field_simp
  have hdef : l.toPoses res old moveDir ws = (do
      let (v, p) ← (if ws then (fun v => (v, if decide (moveDir = -1) then l.e else l.s)) <$>
          resizeV old ((n : Int) + 1) ({} : PPose)
        else (fun v => (v, (if decide (moveDir = -1) then l.e else l.s) +
          (if decide (moveDir = -1) then step.smul (-1) else step))) <$> resizeV old (n : Int) ({} : PPose))
      pure (Ln.fill θ (if decide (moveDir = -1) then step.smul (-1) else step) n 0 p v)) := by
    unfold Ln.toPoses
    rw [if_neg (by rw [abs_of_pos hr0]; linarith)]
    simp only
    rw [show (l.e - l.s).length = eucl l.e l.s from rfl, hcast]
    simp only [CRes.ok_bind, Int.toNat_natCast]
    by_cases hm : moveDir = -1
    · simp [hm]; rfl
    · simp [hm]; rfl
  rw [hdef]
  set bw := decide (moveDir = -1)
  cases ws with
  | true =>
    obtain ⟨w, hw⟩ := resizeV_defined old (n := (n : Int) + 1) ({} : PPose) (by omega)
    obtain ⟨_, w1, w2⟩ := resizeV_ok hw
    rw [show ((n : Int) + 1).toNat = n + 1 by omega] at w1 w2
    simp only [if_true, hw, CRes.map_ok, CRes.ok_bind, CRes.pure_eq]
    refine ⟨_, rfl, by rw [fill_length, w1], ?_, ?_⟩
    · intro i hi
      refine ⟨_, by rw [fill_get, if_pos (by omega), w2 i (by omega)]; rfl, ?_⟩
      obtain ⟨a1, a2⟩ := hpos i hi.le bw
      exact ⟨a1, by simpa using a2, rfl⟩
    · intro _
      rw [fill_get, if_neg (by omega), w2 n (by omega)]
  | false =>
    obtain ⟨w, hw⟩ := resizeV_defined old (n := (n : Int)) ({} : PPose) (by omega)
    obtain ⟨_, w1, w2⟩ := resizeV_ok hw
    rw [Int.toNat_natCast] at w1 w2
    simp only [Bool.false_eq_true, if_false, hw, CRes.map_ok, CRes.ok_bind, CRes.pure_eq]
    refine ⟨_, rfl, by rw [fill_length, w1]; simp, ?_, by intro h; cases h⟩
    intro i hi
    refine ⟨_, by rw [fill_get, if_pos (by omega), w2 i hi]; rfl, ?_⟩
    obtain ⟨a1, a2⟩ := hpos (i + 1) (by omega) bw
    have hv : ∀ p st : P2, p + st + st.smul ((i - 0 : Nat) : ℝ) = p + st.smul ((i + 1 : Nat) : ℝ) := by
      intro p st; ext <;> simp [P2.smul] <;> ring
    refine ⟨?_, ?_, rfl⟩
    · simp only [hv]; exact a1
    · simp only [hv]; exact a2

/-- **C47 (finding).** `Line::toPoses` with its default `with_start_pose = true` on an empty vector: the
last pose is the default pose `(0,0,0)` instead of a pose of the line — for every line that does not
pass through the origin it is off the line. -/
theorem toPoses_last_garbage (l : Ln) (h : l.s ≠ l.e) (res : ℝ) (hr : 1 / 10000000000 ≤ res)
    (hb : ⌊eucl l.e l.s / res⌋₊ + 1 < 2 ^ 31) (moveDir : Int) (h0 : ¬ OnLine l.s l.e ⟨0, 0⟩) :
    ∃ v q, l.toPoses res [] moveDir true = .ok v ∧ v.getLast? = some q ∧ q.pos = ⟨0, 0⟩ ∧
      ¬ OnLine l.s l.e q.pos := by
  obtain ⟨v, h1, h2, _, h4⟩ := toPoses_spec l h res hr _ rfl hb [] moveDir true
  refine ⟨v, {}, h1, ?_, rfl, h0⟩
  rw [List.getLast?_eq_getElem?, h2]
  simpa using h4 rfl

theorem fillPts_length (step : P2) : ∀ (n i : Nat) (p : P2) (v : List P2),
    (Ln.fillPts step n i p v).length = v.length := by
  intro n
  induction n with
  | zero => intros; rfl
  | succ n ih => intro i p v; unfold Ln.fillPts; rw [ih, List.length_set]

theorem fillPts_get (step : P2) : ∀ (n i : Nat) (p : P2) (v : List P2) (j : Nat), i + n ≤ v.length →
    (Ln.fillPts step n i p v)[j]? = if i ≤ j ∧ j < i + n then
      some (p + step.smul ((j - i : Nat) : ℝ)) else v[j]? := by
  intro n
  induction n with
  | zero => intro i p v j _; rw [if_neg (by omega)]; rfl
  | succ n ih =>
    intro i p v j hv
    unfold Ln.fillPts
    rw [ih _ _ _ _ (by rw [List.length_set]; omega)]
    by_cases h1 : i + 1 ≤ j ∧ j < i + 1 + n
    · rw [if_pos h1, if_pos (by omega)]
      congr 1
      have : j - i = (j - (i + 1)) + 1 := by omega
      rw [this]
      ext <;> simp [P2.smul] <;> ring
    · rw [if_neg h1]
      by_cases h2 : j = i
      · subst h2
        rw [if_pos (by omega), List.getElem?_set_self (by omega)]
        congr 1
        ext <;> simp [P2.smul]
      · rw [if_neg (by omega), List.getElem?_set_ne (by omega)]

/-- **C47** for lines: `toPoints` returns `⌊len/resolution⌋ + 1` points, the `i`-th at distance
`i·resolution` from the start, and the end point as the last one; all lie on the segment. -/
theorem toPoints_spec (l : Ln) (h : l.s ≠ l.e) (res : ℝ) (hr0 : 0 < res) (n : Nat)
    (hn : n = ⌊eucl l.e l.s / res⌋₊) (hb : n + 1 < 2 ^ 31) (old : List P2) :
    ∃ v, l.toPoints res old = .ok v ∧ v.length = n + 1 ∧ v[n]? = some l.e ∧
      (∀ i, i < n → ∃ q, v[i]? = some q ∧ eucl l.s q = i * res) ∧ ∀ q ∈ v, OnSeg l.s l.e q := by
  have hl' : 0 < eucl l.e l.s := len_pos h
  have hq : 0 ≤ eucl l.e l.s / res := by positivity
  have hnf : ((n : ℤ)) = ⌊eucl l.e l.s / res⌋ := by
    rw [hn]; exact Int.natCast_floor_eq_floor hq
  have hcast : castI (eucl l.e l.s / res) = .ok (n : Int) := by
    unfold castI
    rw [truncC_nonneg hq, ← hnf, if_pos ⟨by omega, by omega⟩]
  have hnle : (n : ℝ) * res ≤ eucl l.e l.s := by
    have : (n : ℝ) ≤ eucl l.e l.s / res := by rw [hn]; exact Nat.floor_le hq
    rwa [le_div_iff₀ hr0] at this
  obtain ⟨w, hw⟩ := resizeV_defined old (n := (n : Int) + 1) (⟨0, 0⟩ : P2) (by omega)
  obtain ⟨_, w1, w2⟩ := resizeV_ok hw
  rw [show ((n : Int) + 1).toNat = n + 1 by omega] at w1 w2
  have hdef : l.toPoints res old = vset (Ln.fillPts ((unit (l.e - l.s)).smul res) n 0 l.s w) n l.e := by
    unfold Ln.toPoints
    rw [if_neg hr0.ne']
    simp only
    rw [show (l.e - l.s).length = eucl l.e l.s from rfl, hcast]
    simp only [CRes.ok_bind, hw, Int.toNat_natCast]
    rw [if_neg (by omega)]
  rw [hdef, vset, if_pos (by rw [fillPts_length, w1]; omega)]
  have hget : ∀ i, i < n → (Ln.fillPts ((unit (l.e - l.s)).smul res) n 0 l.s w)[i]? =
      some (lerp l.s l.e (i * res / eucl l.e l.s)) := by
    intro i hi
    rw [fillPts_get _ _ _ _ _ _ (by omega), if_pos (by omega), (unit_step l h res _).1]
    simp
  have hk : ∀ i, i < n → 0 ≤ (i : ℝ) * res / eucl l.e l.s ∧ (i : ℝ) * res / eucl l.e l.s ≤ 1 := by
    intro i hi
    refine ⟨by positivity, ?_⟩
    rw [div_le_one hl']
    have : (i : ℝ) ≤ n := by exact_mod_cast hi.le
    nlinarith
  refine ⟨_, rfl, by rw [List.length_set, fillPts_length, w1], ?_, ?_, ?_⟩
  · rw [List.getElem?_set_self (by rw [fillPts_length, w1]; omega)]
  · intro i hi
    refine ⟨_, by rw [List.getElem?_set_ne (by omega)]; exact hget i hi, ?_⟩
    have := eucl_lerp l.s l.e 0 (i * res / eucl l.e l.s)
    rw [lerp_zero] at this
    rw [this, zero_sub, abs_neg, abs_of_nonneg (hk i hi).1]; field_simp
  · intro q hq
    obtain ⟨i, hi, rfl⟩ := List.getElem_of_mem hq
    have e := List.getElem?_eq_getElem hi
    rw [List.length_set, fillPts_length, w1] at hi
    by_cases hin : i = n
    · subst hin
      rw [List.getElem?_set_self (by rw [fillPts_length, w1]; omega)] at e
      injection e with e; rw [← e]
      exact ⟨1, zero_le_one, le_rfl, (lerp_one _ _).symm⟩
    · rw [List.getElem?_set_ne (by omega), hget i (by omega)] at e
      injection e with e; rw [← e]
      exact ⟨_, (hk i (by omega)).1, (hk i (by omega)).2, rfl⟩

/-- Concrete instance: the segment from `(1,0)` to `(1,10)` with resolution 1. -/
theorem toPoses_example : ∃ v : List PPose, (⟨⟨1, 0⟩, ⟨1, 10⟩⟩ : Ln).toPoses 1 [] 1 false = .ok v ∧
    v.length = 10 := by
  have he : eucl (⟨1, 10⟩ : P2) ⟨1, 0⟩ = 10 := by
    unfold eucl dist2; norm_num
    rw [show (100 : ℝ) = 10 ^ 2 by norm_num, Real.sqrt_sq (by norm_num)]
  have hne : (⟨⟨1, 0⟩, ⟨1, 10⟩⟩ : Ln).s ≠ (⟨⟨1, 0⟩, ⟨1, 10⟩⟩ : Ln).e := by
    intro h; have := congrArg P2.y h; norm_num at this
  have h10 : 10 = ⌊eucl (⟨⟨1, 0⟩, ⟨1, 10⟩⟩ : Ln).e (⟨⟨1, 0⟩, ⟨1, 10⟩⟩ : Ln).s / (1:ℝ)⌋₊ := by
    rw [show eucl (⟨⟨1, 0⟩, ⟨1, 10⟩⟩ : Ln).e (⟨⟨1, 0⟩, ⟨1, 10⟩⟩ : Ln).s = 10 from he, div_one]
    norm_num
  obtain ⟨v, h1, h2, _⟩ := toPoses_spec _ hne 1 (by norm_num) 10 h10 (by norm_num) [] 1 false
  exact ⟨v, h1, by simpa using h2⟩

end PathPlanning.Shapes
