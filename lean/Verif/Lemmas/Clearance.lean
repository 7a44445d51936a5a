import Verif.Spec.Clearance
import Verif.Spec.Line
import Verif.Spec.Ring
import Verif.Spec.ReedsShepp
import Verif.Props.RSCircle
import Mathlib.Tactic.Linarith
import Mathlib.Tactic.FieldSimp
import Mathlib.Algebra.Order.Round
import Mathlib.Analysis.SpecialFunctions.Trigonometric.Bounds
import Mathlib.Analysis.SpecialFunctions.Trigonometric.Inverse

/-!
# Digital lines and digital circles stay close to the ideal ones
-/

noncomputable section

namespace PathPlanning.Clear
open Spec

/-! ### Lines -/

/-- A chain whose values grow by at most one per step takes every value between the first and the
last. -/
theorem ivt {α : Type} (f : α → Int) {k : Int} : ∀ (l : List α) (p q : α), l.head? = some p →
    l.getLast? = some q → l.IsChain (fun a b => f b ≤ f a + 1) → f p ≤ k → k ≤ f q →
    ∃ c ∈ l, f c = k
  | [], _, _, h, _, _, _, _ => by simp at h
  | [a], p, q, h, h', _, h1, h2 => by
    simp at h h'; subst h; subst h'
    exact ⟨a, by simp, by omega⟩
  | a :: b :: l, p, q, h, h', hc, h1, h2 => by
    simp only [List.head?_cons, Option.some.injEq] at h
    subst h
    rw [List.isChain_cons_cons] at hc
    by_cases hk : f a = k
    · exact ⟨a, by simp, hk⟩
    · obtain ⟨c, hc', e⟩ := ivt f (b :: l) b q rfl (by simpa using h') hc.2 (by omega) h2
      exact ⟨c, by simp at hc' ⊢; tauto, e⟩

/-- The two-sided version. -/
theorem ivt' {α : Type} (f : α → Int) {k : Int} (l : List α) (p q : α) (hp : l.head? = some p)
    (hq : l.getLast? = some q) (hc : l.IsChain (fun a b => |f b - f a| ≤ 1))
    (h : (f p ≤ k ∧ k ≤ f q) ∨ (f q ≤ k ∧ k ≤ f p)) : ∃ c ∈ l, f c = k := by
  rcases h with h | h
  · refine ivt f l p q hp hq (hc.imp fun a b hab => ?_) h.1 h.2
    have := (abs_le.1 hab).2; omega
  · obtain ⟨c, hc', e⟩ := ivt (fun a => - f a) (k := -k) l p q hp hq (hc.imp fun a b hab => by
      have := (abs_le.1 hab).1; show - f b ≤ - f a + 1; omega) (by show - f p ≤ _; omega)
      (by show _ ≤ - f q; omega)
    exact ⟨c, hc', by omega⟩

/-- Along the longer axis. -/
theorem cover_axis {α : Type} (f g : α → Int) (l : List α) (p q : α) (hp : l.head? = some p)
    (hq : l.getLast? = some q) (hc : l.IsChain (fun a b => |f b - f a| ≤ 1))
    (hm : |g q - g p| ≤ |f q - f p|)
    (hn : ∀ c ∈ l, 2 * |(f c - f p) * (g q - g p) - (g c - g p) * (f q - f p)| ≤ |f q - f p|)
    (t : ℝ) (h0 : 0 ≤ t) (h1 : t ≤ 1) :
    ∃ c ∈ l, abs (((f p : ℝ) + t * (f q - f p)) - f c) ≤ 1 ∧
      abs (((g p : ℝ) + t * (g q - g p)) - g c) ≤ 1 := by
  have hmR : abs ((g q : ℝ) - g p) ≤ abs ((f q : ℝ) - f p) := by exact_mod_cast hm
  set F : ℝ := (f p : ℝ) + t * (f q - f p) with hF
  have hk : |F - round F| ≤ 1 / 2 := abs_sub_round F
  have hpm : p ∈ l := List.mem_of_mem_head? hp
  by_cases hz : f q = f p
  · have hz' : g q = g p := by
      rw [hz] at hm; simp at hm; omega
    refine ⟨p, hpm, ?_, ?_⟩
    · rw [hF, hz]; simp
    · rw [hz']; simp
  obtain ⟨c, hcm, he⟩ : ∃ c ∈ l, f c = round F := by
    refine ivt' f l p q hp hq hc ?_
    have hb := abs_le.1 hk
    rcases le_total (f p) (f q) with hle | hle
    · left
      have : (f p : ℝ) ≤ f q := by exact_mod_cast hle
      constructor
      · have : (f p : ℝ) ≤ F := by rw [hF]; nlinarith
        have h2 : (f p : ℝ) < round F + 1 := by linarith
        have h3 : f p < round F + 1 := by exact_mod_cast h2
        omega
      · have : F ≤ (f q : ℝ) := by rw [hF]; nlinarith
        have h2 : (round F : ℝ) < f q + 1 := by linarith
        have h3 : round F < f q + 1 := by exact_mod_cast h2
        omega
    · right
      have : (f q : ℝ) ≤ f p := by exact_mod_cast hle
      constructor
      · have : (f q : ℝ) ≤ F := by rw [hF]; nlinarith
        have h2 : (f q : ℝ) < round F + 1 := by linarith
        have h3 : f q < round F + 1 := by exact_mod_cast h2
        omega
      · have : F ≤ (f p : ℝ) := by rw [hF]; nlinarith
        have h2 : (round F : ℝ) < f p + 1 := by linarith
        have h3 : round F < f p + 1 := by exact_mod_cast h2
        omega
  have hne : (f q : ℝ) - f p ≠ 0 := by
    intro h; apply hz; have : (f q : ℝ) = f p := by linarith
    exact_mod_cast this
  have hpos : 0 < abs ((f q : ℝ) - f p) := abs_pos.2 hne
  refine ⟨c, hcm, ?_, ?_⟩
  · rw [he]; linarith
  · have hnR : 2 * abs (((f c : ℝ) - f p) * (g q - g p) - (g c - g p) * (f q - f p)) ≤
        abs ((f q : ℝ) - f p) := by exact_mod_cast hn c hcm
    have hkc : |F - f c| ≤ 1 / 2 := by rw [he]; exact hk
    set D : ℝ := (f q : ℝ) - f p
    set G : ℝ := (g q : ℝ) - g p
    have key : ((g p : ℝ) + t * G - g c) * D =
        (((f c : ℝ) - f p) * G - (g c - g p) * D) + (F - f c) * G := by
      rw [hF]; ring
    have hb : abs (((g p : ℝ) + t * G - g c) * D) ≤ abs D := by
      rw [key]
      refine (abs_add_le _ _).trans ?_
      rw [abs_mul]
      have : |F - f c| * |G| ≤ 1 / 2 * |D| :=
        mul_le_mul hkc hmR (abs_nonneg _) (by norm_num)
      linarith
    rw [abs_mul] at hb
    nlinarith

/-- Every point of the ideal line between the end cells of a digital line is within one row and one
column of a cell of the line. -/
theorem line_cover {p q : Int × Int} {cells : List (Int × Int)} (h : DigitalLine p q cells) (t : ℝ)
    (h0 : 0 ≤ t) (h1 : t ≤ 1) : ∃ c ∈ cells,
      abs (((p.1 : ℝ) + t * (q.1 - p.1)) - c.1) ≤ 1 ∧ abs (((p.2 : ℝ) + t * (q.2 - p.2)) - c.2) ≤ 1 := by
  rcases le_total |q.2 - p.2| |q.1 - p.1| with hm | hm
  · refine cover_axis (fun c : Int × Int => c.1) (fun c : Int × Int => c.2) cells p q h.first h.last
      (h.chain.imp fun a b hab => hab.2.1) hm (fun c hc => ?_) t h0 h1
    have := h.near c hc
    unfold WithinHalfCell at this
    rw [max_eq_left hm] at this
    exact this
  · obtain ⟨c, hc, a1, a2⟩ := cover_axis (fun c : Int × Int => c.2) (fun c : Int × Int => c.1) cells p q
      h.first h.last (h.chain.imp fun a b hab => hab.2.2) hm (fun c hc => by
        have := h.near c hc
        unfold WithinHalfCell at this
        rw [max_eq_right hm] at this
        rw [abs_sub_comm]
        exact this) t h0 h1
    exact ⟨c, hc, a2, a1⟩

/-! ### Circles -/

theorem octant_bounds {c s d e : ℝ} (hs : 0 ≤ s) (hsc : s ≤ c) (hcp : 7 / 10 ≤ c)
    (h1 : c ^ 2 + s ^ 2 = 1) (he : 0 ≤ e) (he1 : e < 1) (hd : -1 ≤ d) (hdev : d * (2 * c) < 1 + 2 * s) :
    d < 2 ∧ abs (e * c + d * s) < 2 := by
  have hc0 : 0 < c := by linarith
  have hcs : c + s ≤ 143 / 100 := by nlinarith [sq_nonneg (c - s)]
  have hec : e * c ≤ c := by nlinarith
  have hec0 : 0 ≤ e * c := by positivity
  constructor
  · by_contra hlt
    push Not at hlt
    have : 2 * (2 * c) ≤ d * (2 * c) := mul_le_mul_of_nonneg_right hlt (by linarith)
    linarith
  · rw [abs_lt]
    constructor
    · have : -1 * s ≤ d * s := mul_le_mul_of_nonneg_right hd hs
      linarith
    · rcases le_total d 0 with h0 | h0
      · have : d * s ≤ 0 := mul_nonpos_of_nonpos_of_nonneg h0 hs
        linarith
      · have : d * s ≤ d * c := mul_le_mul_of_nonneg_left hsc h0
        linarith

/-- One octant: with `c ≥ s ≥ 0` the direction, the digital circle of radius `R` has a cell `(a,b)` with
`b = ⌊R s⌋`, at most one cell inside and less than two outside, and within 2 of the ray. -/
theorem ring_octant {R : Int} (hR : 1 ≤ R) {c s : ℝ} (hs : 0 ≤ s) (hsc : s ≤ c)
    (h1 : c ^ 2 + s ^ 2 = 1) : ∃ a b : Int, 0 ≤ b ∧ b ≤ a ∧ a ^ 2 + b ^ 2 < R ^ 2 + R ∧
      R ^ 2 + R ≤ (a + 1) ^ 2 + b ^ 2 ∧ (b : ℝ) ≤ R * s ∧ R * s < b + 1 ∧ R * c - 1 ≤ a ∧
      a < R * c + 2 ∧ abs (b * c - a * s) < 2 := by
  have hc0 : 0 < c := by nlinarith
  have hR' : (1 : ℝ) ≤ R := by exact_mod_cast hR
  have hc1 : c ≤ 1 := by nlinarith
  have hc2 : 1 / 2 ≤ c ^ 2 := by nlinarith
  obtain ⟨b, hb⟩ : ∃ b : Int, b = ⌊(R : ℝ) * s⌋ := ⟨_, rfl⟩
  have hb1 : (b : ℝ) ≤ R * s := by rw [hb]; exact Int.floor_le _
  have hb2 : (R : ℝ) * s < b + 1 := by rw [hb]; exact Int.lt_floor_add_one _
  have hb0 : 0 ≤ b := by rw [hb]; exact Int.floor_nonneg.2 (by positivity)
  have hb0' : (0 : ℝ) ≤ b := by exact_mod_cast hb0
  have hs2 : s ^ 2 ≤ 1 / 2 := by nlinarith
  have h2b : 2 * b ^ 2 ≤ R ^ 2 := by
    have : (b : ℝ) ^ 2 ≤ (R * s) ^ 2 := pow_le_pow_left₀ hb0' hb1 2
    have h3 : 2 * (b : ℝ) ^ 2 ≤ (R : ℝ) ^ 2 := by nlinarith [sq_nonneg (R : ℝ)]
    exact_mod_cast h3
  obtain ⟨N, hN⟩ : ∃ N : Nat, (N : Int) = R ^ 2 + R - 1 - b ^ 2 :=
    ⟨(R ^ 2 + R - 1 - b ^ 2).toNat, Int.toNat_of_nonneg (by nlinarith [sq_nonneg b])⟩
  obtain ⟨a, ha⟩ : ∃ a : Int, a = (Nat.sqrt N : Int) := ⟨_, rfl⟩
  have ha0 : 0 ≤ a := by rw [ha]; positivity
  have e1 : a ^ 2 ≤ N := by rw [ha]; exact_mod_cast Nat.sqrt_le' N
  have e2 : (N : Int) < (a + 1) ^ 2 := by rw [ha]; exact_mod_cast Nat.lt_succ_sqrt' N
  have r1 : a ^ 2 + b ^ 2 < R ^ 2 + R := by linarith
  have r2 : R ^ 2 + R ≤ (a + 1) ^ 2 + b ^ 2 := by
    have : R ^ 2 + R - 1 - b ^ 2 + 1 ≤ (a + 1) ^ 2 := by rw [← hN]; omega
    linarith
  have hba : b ≤ a := by
    by_contra hlt
    have : a + 1 ≤ b := by omega
    have := pow_le_pow_left₀ (by omega : (0 : Int) ≤ a + 1) this 2
    linarith
  have ha0' : (0 : ℝ) ≤ a := by exact_mod_cast ha0
  have r1' : (a : ℝ) ^ 2 + b ^ 2 < R ^ 2 + R := by exact_mod_cast r1
  have r2' : (R : ℝ) ^ 2 + R ≤ (a + 1) ^ 2 + b ^ 2 := by exact_mod_cast r2
  have l1 : (R : ℝ) * c - 1 ≤ a := by
    by_contra hlt
    push Not at hlt
    have h3 : ((a : ℝ) + 1) ^ 2 ≤ (R * c) ^ 2 := pow_le_pow_left₀ (by linarith) (by linarith) 2
    have h4 : (b : ℝ) ^ 2 ≤ (R * s) ^ 2 := pow_le_pow_left₀ hb0' hb1 2
    have h5 : ((R : ℝ) * c) ^ 2 + (R * s) ^ 2 = R ^ 2 := by
      calc _ = (R : ℝ) ^ 2 * (c ^ 2 + s ^ 2) := by ring
        _ = _ := by rw [h1]; ring
    linarith
  -- the outer bound
  have hsq : (a : ℝ) ^ 2 < (R * c) ^ 2 + R * (1 + 2 * s) := by
    have h5 : ((R : ℝ) * c) ^ 2 + (R * s) ^ 2 = R ^ 2 := by
      calc _ = (R : ℝ) ^ 2 * (c ^ 2 + s ^ 2) := by ring
        _ = _ := by rw [h1]; ring
    by_cases hx : 1 ≤ (R : ℝ) * s
    · have : ((R : ℝ) * s - 1) ^ 2 ≤ b ^ 2 := pow_le_pow_left₀ (by linarith) (by linarith) 2
      nlinarith
    · have : ((R : ℝ) * s) ^ 2 ≤ R * s := by
        have : 0 ≤ (R : ℝ) * s := by positivity
        nlinarith
      nlinarith [sq_nonneg (b : ℝ), mul_nonneg (by linarith : (0 : ℝ) ≤ R) hs]
  have hdev : (a - R * c) * (2 * c) < 1 + 2 * s := by
    by_cases hx : (a : ℝ) ≤ R * c
    · nlinarith
    · push Not at hx
      have h6 : (a - R * c) * (2 * (R * c)) < R * (1 + 2 * s) := by
        have : (a - R * c) * (2 * (R * c)) ≤ (a - R * c) * (a + R * c) :=
          mul_le_mul_of_nonneg_left (by linarith) (by linarith)
        nlinarith
      have : R * ((a - R * c) * (2 * c)) < R * (1 + 2 * s) := by nlinarith
      exact lt_of_mul_lt_mul_left this (by linarith)
  have hcp : (7 : ℝ) / 10 ≤ c := by nlinarith
  obtain ⟨k1, k2⟩ := octant_bounds hs hsc hcp h1 (d := a - R * c) (e := R * s - b) (by linarith)
    (by linarith) (by linarith) hdev
  refine ⟨a, b, hb0, hba, r1, r2, hb1, hb2, l1, by linarith, ?_⟩
  have : (b : ℝ) * c - a * s = -((R * s - b) * c + (a - R * c) * s) := by ring
  rw [this, abs_neg]
  exact k2

/-- A vector with positive part along the direction `φ` and a small one across it has a direction close
to `φ`. -/
theorem turn_to (u v φ : ℝ) (hd : 0 < u * Real.cos φ + v * Real.sin φ) :
    ∃ Δ ρ : ℝ, 0 < ρ ∧ ρ ^ 2 = u ^ 2 + v ^ 2 ∧ u = ρ * Real.cos (φ + Δ) ∧ v = ρ * Real.sin (φ + Δ) ∧
      abs Δ * ρ ≤ Real.pi / 2 * abs (v * Real.cos φ - u * Real.sin φ) := by
  set D := u * Real.cos φ + v * Real.sin φ with hD
  set X := v * Real.cos φ - u * Real.sin φ with hX
  have cs := Real.sin_sq_add_cos_sq φ
  have hsum : D ^ 2 + X ^ 2 = u ^ 2 + v ^ 2 := by
    rw [hD, hX]
    calc _ = (u ^ 2 + v ^ 2) * (Real.sin φ ^ 2 + Real.cos φ ^ 2) := by ring
      _ = _ := by rw [cs]; ring
  have hpos : 0 < u ^ 2 + v ^ 2 := by rw [← hsum]; positivity
  set ρ := Real.sqrt (u ^ 2 + v ^ 2) with hρ
  have hρ0 : 0 < ρ := Real.sqrt_pos.2 hpos
  have hρ2 : ρ ^ 2 = u ^ 2 + v ^ 2 := Real.sq_sqrt hpos.le
  have hx : |X| ≤ ρ := by
    rw [← Real.sqrt_sq_eq_abs, hρ]
    exact Real.sqrt_le_sqrt (by rw [← hsum]; nlinarith [sq_nonneg D])
  have hx1 : -1 ≤ X / ρ := by rw [le_div_iff₀ hρ0]; linarith [(abs_le.1 hx).1]
  have hx2 : X / ρ ≤ 1 := by rw [div_le_one hρ0]; exact (abs_le.1 hx).2
  refine ⟨Real.arcsin (X / ρ), ρ, hρ0, hρ2, ?_⟩
  have sΔ : Real.sin (Real.arcsin (X / ρ)) = X / ρ := Real.sin_arcsin hx1 hx2
  have cΔ : Real.cos (Real.arcsin (X / ρ)) = D / ρ := by
    rw [Real.cos_arcsin]
    have : 1 - (X / ρ) ^ 2 = (D / ρ) ^ 2 := by
      rw [div_pow, div_pow, hρ2, ← hsum]
      rw [← hsum] at hpos
      field_simp
      ring
    rw [this, Real.sqrt_sq (by positivity)]
  refine ⟨?_, ?_, ?_⟩
  · rw [Real.cos_add, sΔ, cΔ]
    have : ρ * (Real.cos φ * (D / ρ) - Real.sin φ * (X / ρ)) = Real.cos φ * D - Real.sin φ * X := by
      field_simp
    rw [this, hD, hX]
    linear_combination (-u) * cs
  · rw [Real.sin_add, sΔ, cΔ]
    have : ρ * (Real.sin φ * (D / ρ) + Real.cos φ * (X / ρ)) = Real.sin φ * D + Real.cos φ * X := by
      field_simp
    rw [this, hD, hX]
    linear_combination (-v) * cs
  · have hb1 := Real.neg_pi_div_two_le_arcsin (X / ρ)
    have hb2 := Real.arcsin_le_pi_div_two (X / ρ)
    have hpi := Real.pi_pos
    have key : 2 / Real.pi * |Real.arcsin (X / ρ)| ≤ |X / ρ| := by
      conv_rhs => rw [← sΔ]
      rcases le_total 0 (Real.arcsin (X / ρ)) with h0 | h0
      · rw [abs_of_nonneg h0, abs_of_nonneg (Real.sin_nonneg_of_nonneg_of_le_pi h0 (by linarith))]
        exact Real.mul_le_sin h0 hb2
      · have := Real.mul_le_sin (x := -Real.arcsin (X / ρ)) (by linarith) (by linarith)
        rw [abs_of_nonpos h0]
        refine this.trans ?_
        rw [Real.sin_neg]
        exact neg_le_abs _
    rw [abs_div, abs_of_pos hρ0, le_div_iff₀ hρ0] at key
    have e : Real.pi / 2 * (2 / Real.pi * |Real.arcsin (X / ρ)| * ρ) = |Real.arcsin (X / ρ)| * ρ := by
      field_simp
    have h3 := mul_le_mul_of_nonneg_left key (by positivity : 0 ≤ Real.pi / 2)
    linarith

/-- A number and its sign. -/
theorem signed (x : ℝ) (w : Int) : ∃ u : Int, |u| = |w| ∧
    ((0 ≤ x ∧ u = w) ∨ (x < 0 ∧ u = -w)) := by
  rcases le_or_gt 0 x with h | h
  · exact ⟨w, rfl, Or.inl ⟨h, rfl⟩⟩
  · exact ⟨-w, abs_neg w, Or.inr ⟨h, rfl⟩⟩

/-- One coordinate of a point of the circle and of the chosen cell. -/
theorem coord {R w u : Int} {x r f : ℝ} (hf : 0 ≤ f) (hf1 : f < 1) (hr : (R : ℝ) ≤ r) (hr1 : r < R + 1)
    (hx1 : |x| ≤ 1) (h1 : R * |x| - 1 ≤ w) (h2 : w < R * |x| + 2)
    (hu : (0 ≤ x ∧ u = w) ∨ (x < 0 ∧ u = -w)) : -2 ≤ f + r * x - u ∧ f + r * x - u < 3 := by
  rcases hu with ⟨hx, rfl⟩ | ⟨hx, rfl⟩
  · rw [abs_of_nonneg hx] at *
    have e : f + r * x - u = f + (r - R) * x + (R * x - u) := by ring
    have p1 : 0 ≤ (r - R) * x := mul_nonneg (by linarith) hx
    have p2 : (r - R) * x ≤ 1 := by nlinarith
    rw [e]; constructor <;> linarith
  · rw [abs_of_neg hx] at *
    push_cast
    have e : f + r * x - -(w : ℝ) = f - (r - R) * -x - (R * -x - w) := by ring
    have p1 : 0 ≤ (r - R) * -x := mul_nonneg (by linarith) (by linarith)
    have p2 : (r - R) * -x ≤ 1 := by nlinarith
    rw [e]; constructor <;> linarith

/-- For every direction the digital circle has a cell close to the point of the circle in that
direction, and seen from the centre in nearly that direction. -/
theorem ring_cover {R : Int} (hR : 1 ≤ R) (φ : ℝ) : ∃ u v : Int,
    (∀ c : Int × Int, RingCell R c (c.1 + u, c.2 + v)) ∧
    0 < (u : ℝ) * Real.cos φ + v * Real.sin φ ∧
    abs ((v : ℝ) * Real.cos φ - u * Real.sin φ) < 2 ∧
    ∀ r f g : ℝ, (R : ℝ) ≤ r → r < R + 1 → 0 ≤ f → f < 1 → 0 ≤ g → g < 1 →
      (-2 ≤ f + r * Real.cos φ - u ∧ f + r * Real.cos φ - u < 3) ∧
      (-2 ≤ g + r * Real.sin φ - v ∧ g + r * Real.sin φ - v < 3) := by
  have cs := Real.sin_sq_add_cos_sq φ
  have hc1 : |Real.cos φ| ≤ 1 := Real.abs_cos_le_one φ
  have hs1 : |Real.sin φ| ≤ 1 := Real.abs_sin_le_one φ
  have hR' : (1 : ℝ) ≤ R := by exact_mod_cast hR
  have main : ∀ x y : ℝ, |y| ≤ |x| → x ^ 2 + y ^ 2 = 1 → |x| ≤ 1 → |y| ≤ 1 → ∃ u v : Int,
      (max |u| |v| = |u| ∧ min |u| |v| = |v|) ∧ |u| ^ 2 + |v| ^ 2 < R ^ 2 + R ∧
      R ^ 2 + R ≤ (|u| + 1) ^ 2 + |v| ^ 2 ∧ 0 < (u : ℝ) * x + v * y ∧ abs ((v : ℝ) * x - u * y) < 2 ∧
      ∀ r f g : ℝ, (R : ℝ) ≤ r → r < R + 1 → 0 ≤ f → f < 1 → 0 ≤ g → g < 1 →
        (-2 ≤ f + r * x - u ∧ f + r * x - u < 3) ∧ (-2 ≤ g + r * y - v ∧ g + r * y - v < 3) := by
    intro x y hxy h1 hx1 hy1
    obtain ⟨a, b, hb0, hba, r1, r2, b1, b2, a1, a2, hX⟩ := ring_octant hR (abs_nonneg y) hxy
      (by rw [sq_abs, sq_abs]; exact h1)
    obtain ⟨u, hu, hu'⟩ := signed x a
    obtain ⟨v, hv, hv'⟩ := signed y b
    have ha0 : 0 ≤ a := by omega
    rw [abs_of_nonneg ha0] at hu
    rw [abs_of_nonneg hb0] at hv
    refine ⟨u, v, ?_, by rw [hu, hv]; exact r1, by rw [hu, hv]; exact r2, ?_, ?_, ?_⟩
    · rw [hu, hv]; exact ⟨max_eq_left hba, min_eq_right hba⟩
    · have e : (u : ℝ) * x + v * y = a * |x| + b * |y| := by
        rcases hu' with ⟨hx, rfl⟩ | ⟨hx, rfl⟩ <;> rcases hv' with ⟨hy, rfl⟩ | ⟨hy, rfl⟩ <;>
          simp only [abs_of_nonneg, abs_of_neg, *] <;> push_cast <;> ring
      rw [e]
      have hpos : 0 < |x| := by
        rcases (abs_nonneg x).lt_or_eq with h | h
        · exact h
        · rw [← h] at hxy
          have hy0 : y = 0 := abs_nonpos_iff.1 hxy
          have hx0 : x = 0 := abs_eq_zero.1 h.symm
          rw [hx0, hy0] at h1; norm_num at h1
      have ha1 : 1 ≤ a := by
        by_contra hlt
        have : a = 0 := by omega
        subst this
        have : b = 0 := by omega
        subst this
        nlinarith
      have ha1' : (1 : ℝ) ≤ a := by exact_mod_cast ha1
      have hb0' : (0 : ℝ) ≤ b := by exact_mod_cast hb0
      have := mul_nonneg hb0' (abs_nonneg y)
      nlinarith
    · have e : abs ((v : ℝ) * x - u * y) = abs ((b : ℝ) * |x| - a * |y|) := by
        rcases hu' with ⟨hx, rfl⟩ | ⟨hx, rfl⟩ <;> rcases hv' with ⟨hy, rfl⟩ | ⟨hy, rfl⟩ <;>
          simp only [abs_of_nonneg, abs_of_neg, *] <;> push_cast
        · rw [← abs_neg]; congr 1; ring
        · rw [← abs_neg]; congr 1; ring
        · congr 1; ring
      rw [e]; exact hX
    · intro r f g hr hr1 hf hf1 hg hg1
      exact ⟨coord hf hf1 hr hr1 hx1 a1 a2 hu',
        coord hg hg1 hr hr1 hy1 (by linarith) (by linarith) hv'⟩
  rcases le_total |Real.sin φ| |Real.cos φ| with h | h
  · obtain ⟨u, v, ⟨m1, m2⟩, r1, r2, d, x, b⟩ := main _ _ h (by linarith) hc1 hs1
    refine ⟨u, v, fun c => ?_, d, x, b⟩
    unfold RingCell
    simp only [add_sub_cancel_left]
    rw [m1, m2]; exact ⟨r1, r2⟩
  · obtain ⟨u, v, ⟨m1, m2⟩, r1, r2, d, x, b⟩ := main _ _ h (by linarith) hs1 hc1
    refine ⟨v, u, fun c => ?_, by linarith, by rw [abs_sub_comm]; exact x, ?_⟩
    · unfold RingCell
      simp only [add_sub_cancel_left]
      rw [max_comm, min_comm, m1, m2]; exact ⟨r1, r2⟩
    · intro r f g hr hr1 hf hf1 hg hg1
      obtain ⟨q1, q2⟩ := b r g f hr hr1 hg hg1 hf hf1
      exact ⟨q2, q1⟩

/-- From coordinates to cells. -/
theorem floor_near {x : ℝ} {n d : Int} (h1 : -(d : ℝ) ≤ x - n) (h2 : x - n < d + 1) :
    |⌊x⌋ - n| ≤ d := by
  rw [abs_le]
  constructor
  · have : ((n - d : Int) : ℝ) ≤ x := by push_cast; linarith
    have := Int.le_floor.2 this
    omega
  · have : x < ((n + d + 1 : Int) : ℝ) := by push_cast; linarith
    have := Int.floor_lt.2 this
    omega

end PathPlanning.Clear
