import Verif.Props.Area
import Mathlib.Data.List.Nodup
import Mathlib.Data.List.Flatten

/-!
# Property C10: the cells of a circular area
-/

set_option linter.unusedSectionVars false

namespace PathPlanning

open Spec

theorem mem_horizontalLine {y x0 x1 a b : Int} :
    (a, b) ∈ horizontalLine y x0 x1 ↔ b = y ∧ min x0 x1 ≤ a ∧ a ≤ max x0 x1 := by
  unfold horizontalLine
  by_cases h : x0 > x1
  · simp only [h, if_true, List.mem_map, List.mem_range, Prod.mk.injEq]
    constructor
    · rintro ⟨k, hk, rfl, rfl⟩; omega
    · rintro ⟨rfl, h1, h2⟩
      exact ⟨(a - x1).toNat, by omega, by omega, rfl⟩
  · simp only [h, if_false, List.mem_map, List.mem_range, Prod.mk.injEq]
    constructor
    · rintro ⟨k, hk, rfl, rfl⟩; omega
    · rintro ⟨rfl, h1, h2⟩
      exact ⟨(a - x0).toNat, by omega, by omega, rfl⟩

theorem nodup_horizontalLine (y x0 x1 : Int) : (horizontalLine y x0 x1).Nodup := by
  unfold horizontalLine
  by_cases h : x0 > x1 <;> simp only [h, if_true, if_false] <;>
  · refine List.Nodup.map ?_ List.nodup_range
    intro a b hab
    simp only [Prod.mk.injEq] at hab
    omega

theorem mem_symLine {x y a b : Int} :
    (a, b) ∈ horizontalLine x (-y) y ↔ b = x ∧ |a| ≤ |y| := by
  rw [mem_horizontalLine, abs_le]
  rcases abs_cases y with ⟨h, _⟩ | ⟨h, _⟩ <;> rw [h] <;> omega

/-- Loop invariant of the midpoint algorithm. -/
structure CInv (r x y f ddx ddy : Int) : Prop where
  hf : f = (x + 1) ^ 2 + y ^ 2 - y - r ^ 2
  hdx : ddx = 2 * x + 1
  hdy : ddy = -2 * y
  x0 : 0 ≤ x
  xr : x ≤ r
  y0 : x < r → 0 ≤ y
  yr : y ≤ r
  cov : x < r → ∀ b : Int, x ^ 2 + b ^ 2 ≤ r ^ 2 → |b| ≤ y
  out : x < r → (x ^ 2 + y ^ 2 - y ≤ r ^ 2 ∨ (y ≤ x ∧ (x + y) ^ 2 ≤ 2 * r ^ 2 + 2 * r))

/-- What is known about the row of half-width `w` drawn at offset `a`. -/
structure RowOk (r a w : Int) : Prop where
  cov : ∀ b : Int, a ^ 2 + b ^ 2 ≤ r ^ 2 → |b| ≤ |w|
  le : |w| ≤ r
  oct : (a + |w|) ^ 2 ≤ 2 * r ^ 2 + 2 * r

theorem abs_lt_of_sq {b y : Int} (hy : 0 ≤ y) (h : b ^ 2 < (y + 1) ^ 2) : |b| ≤ y := by
  have := abs_lt_of_sq_lt_sq h (by omega)
  omega

theorem CInv.step {r x y f ddx ddy : Int} (hr : 1 ≤ r) (h : CInv r x y f ddx ddy) (hx : x < r) :
    (f ≥ 0 → CInv r (x + 1) (y - 1) (f + (ddy + 2) + (ddx + 2)) (ddx + 2) (ddy + 2) ∧
      RowOk r (x + 1) (y - 1)) ∧
    (¬ f ≥ 0 → CInv r (x + 1) y (f + (ddx + 2)) (ddx + 2) ddy ∧ RowOk r (x + 1) y) := by
  obtain ⟨hf, hdx, hdy, x0, xr, y0, yr, cov, out⟩ := h
  have y0 := y0 hx
  have cov := cov hx
  have out := out hx
  constructor
  · intro hge
    rcases Int.lt_or_le 0 y with hy | hy
    · -- y ≥ 1
      have c' : ∀ b : Int, (x + 1) ^ 2 + b ^ 2 ≤ r ^ 2 → |b| ≤ y - 1 := by
        intro b hb
        apply abs_lt_of_sq (by omega)
        have : (y - 1 + 1) ^ 2 = y ^ 2 := by ring
        rw [this]
        by_contra hc
        have : y ^ 2 ≤ b ^ 2 := not_lt.1 hc
        have : (x + 1) ^ 2 + y ^ 2 - y - r ^ 2 ≤ -y := by linarith
        omega
      have o' : (x + 1) ^ 2 + (y - 1) ^ 2 - (y - 1) ≤ r ^ 2 ∨
          (y - 1 ≤ x + 1 ∧ (x + 1 + (y - 1)) ^ 2 ≤ 2 * r ^ 2 + 2 * r) := by
        have e : x + 1 + (y - 1) = x + y := by ring
        rw [e]
        rcases out with o | ⟨o1, o2⟩
        · by_cases hyx : x + 2 ≤ y
          · left
            have : (x + 1) ^ 2 + (y - 1) ^ 2 - (y - 1) = (x ^ 2 + y ^ 2 - y) + (2 * x + 3 - 2 * y) := by
              ring
            rw [this]; omega
          · right
            refine ⟨by omega, ?_⟩
            have : (x + y) ^ 2 = 2 * (x ^ 2 + y ^ 2 - y) + 2 * y - (x - y) ^ 2 := by ring
            rw [this]
            have := sq_nonneg (x - y)
            linarith
        · right; exact ⟨by omega, o2⟩
      refine ⟨⟨by rw [hf, hdx, hdy]; ring, by rw [hdx]; ring, by rw [hdy]; ring, by omega, by omega,
        fun _ => by omega, by omega, fun _ => c', fun _ => o'⟩, ⟨?_, ?_, ?_⟩⟩
      · rw [abs_of_nonneg (by omega : 0 ≤ y - 1)]; exact c'
      · rw [abs_of_nonneg (by omega : 0 ≤ y - 1)]; omega
      · rw [abs_of_nonneg (by omega : 0 ≤ y - 1)]
        rcases o' with o | ⟨_, o⟩
        · have : (x + 1 + (y - 1)) ^ 2 =
              2 * ((x + 1) ^ 2 + (y - 1) ^ 2 - (y - 1)) + 2 * (y - 1) - (x + 1 - (y - 1)) ^ 2 := by ring
          rw [this]
          have := sq_nonneg (x + 1 - (y - 1))
          linarith
        · exact o
    · -- y = 0: last row
      have hy0 : y = 0 := by omega
      subst hy0
      have hxr : r ≤ x + 1 := by
        by_contra hc
        have h1 : x + 1 < r := not_le.1 hc
        have : (x + 1) ^ 2 < r ^ 2 := by nlinarith
        omega
      have hxr' : x + 1 = r := by omega
      refine ⟨⟨by rw [hf, hdx, hdy]; ring, by rw [hdx]; ring, by rw [hdy]; ring, by omega, by omega,
        fun h => by omega, by omega, fun h => by omega, fun h => by omega⟩, ⟨?_, ?_, ?_⟩⟩
      · intro b hb
        rw [hxr'] at hb
        have : b ^ 2 ≤ 0 := by linarith
        have hb0 : b = 0 := by
          have := sq_nonneg b
          exact pow_eq_zero_iff (two_ne_zero) |>.1 (by omega)
        subst hb0; simp
      · norm_num; exact hr
      · rw [hxr']; norm_num; nlinarith
  · intro hlt
    have hlt' : (x + 1) ^ 2 + y ^ 2 - y - r ^ 2 < 0 := by rw [← hf]; omega
    have c' : ∀ b : Int, (x + 1) ^ 2 + b ^ 2 ≤ r ^ 2 → |b| ≤ y := by
      intro b hb
      apply cov
      nlinarith
    refine ⟨⟨by rw [hf, hdx]; ring, by rw [hdx]; ring, hdy, by omega, by omega, fun _ => y0, yr,
      fun _ => c', fun _ => Or.inl (by linarith)⟩, ⟨?_, ?_, ?_⟩⟩
    · rw [abs_of_nonneg y0]; exact c'
    · rw [abs_of_nonneg y0]; exact yr
    · rw [abs_of_nonneg y0]
      have : (x + 1 + y) ^ 2 = 2 * ((x + 1) ^ 2 + y ^ 2 - y) + 2 * y - (x + 1 - y) ^ 2 := by ring
      rw [this]
      have := sq_nonneg (x + 1 - y)
      linarith

/-- The rows drawn by the loop, described by a half-width function. -/
def circleRows (g : Nat → Int) (x : Int) (n : Nat) : List (Int × Int) :=
  (List.range n).flatMap fun (k : Nat) =>
    horizontalLine (x + 1 + (k : Int)) (-g k) (g k) ++
      horizontalLine (-(x + 1 + (k : Int))) (-g k) (g k)

theorem circleLoop_spec {r : Int} (hr : 1 ≤ r) (n : Nat) : ∀ {x y f ddx ddy : Int}
    (acc : List (Int × Int)), CInv r x y f ddx ddy → (r - x).toNat < n →
    ∃ g : Nat → Int, circleLoop r n f ddx ddy x y acc =
        some (acc ++ circleRows g x (r - x).toNat) ∧
      ∀ k : Nat, (k : Int) < r - x → RowOk r (x + 1 + (k : Int)) (g k) := by
  induction n with
  | zero => intro x y f ddx ddy acc _ h; omega
  | succ n ih =>
    intro x y f ddx ddy acc hinv hn
    rw [circleLoop]
    by_cases hx : x < r
    · simp only [hx, if_true]
      have glue : ∀ (w : Int) (g : Nat → Int), RowOk r (x + 1) w →
          (∀ k : Nat, (k : Int) < r - (x + 1) → RowOk r (x + 1 + 1 + (k : Int)) (g k)) →
          ∃ g' : Nat → Int,
            acc ++ horizontalLine (x + 1) (-w) w ++ horizontalLine (-(x + 1)) (-w) w ++
              circleRows g (x + 1) (r - (x + 1)).toNat = acc ++ circleRows g' x (r - x).toNat ∧
            ∀ k : Nat, (k : Int) < r - x → RowOk r (x + 1 + (k : Int)) (g' k) := by
        intro w g hw hg
        refine ⟨fun k => if k = 0 then w else g (k - 1), ?_, ?_⟩
        · have : (r - x).toNat = (r - (x + 1)).toNat + 1 := by omega
          unfold circleRows
          rw [this, List.range_succ_eq_map, List.flatMap_cons, List.flatMap_map]
          simp only [Nat.cast_zero, add_zero, if_true, List.append_assoc]
          congr 3
          apply List.flatMap_congr
          intro k _
          have e : x + 1 + ((k.succ : Nat) : Int) = x + 1 + 1 + (k : Int) := by push_cast; ring
          simp only [e, Nat.succ_ne_zero, if_false, Nat.succ_eq_add_one, Nat.add_sub_cancel]
        · intro k hk
          rcases k with _ | k
          · simpa using hw
          · have := hg k (by push_cast at hk; omega)
            have e : x + 1 + ((k + 1 : Nat) : Int) = x + 1 + 1 + (k : Int) := by push_cast; ring
            rw [e]; simpa using this
      by_cases hf : f ≥ 0
      · obtain ⟨i1, i2⟩ := (hinv.step hr hx).1 hf
        simp only [hf, if_true]
        obtain ⟨g, e, hg⟩ := ih (acc ++ horizontalLine (x + 1) (-(y - 1)) (y - 1) ++
          horizontalLine (-(x + 1)) (-(y - 1)) (y - 1)) i1 (by omega)
        obtain ⟨g', e', hg'⟩ := glue _ g i2 hg
        exact ⟨g', by rw [e, e'], hg'⟩
      · obtain ⟨i1, i2⟩ := (hinv.step hr hx).2 hf
        simp only [hf, if_false]
        obtain ⟨g, e, hg⟩ := ih (acc ++ horizontalLine (x + 1) (-y) y ++
          horizontalLine (-(x + 1)) (-y) y) i1 (by omega)
        obtain ⟨g', e', hg'⟩ := glue _ g i2 hg
        exact ⟨g', by rw [e, e'], hg'⟩
    · simp only [hx, if_false]
      have : (r - x).toNat = 0 := by omega
      exact ⟨fun _ => 0, by simp [circleRows, this], fun k hk => by omega⟩

theorem mem_circleRows {g : Nat → Int} {x : Int} {n : Nat} {a b : Int} :
    (a, b) ∈ circleRows g x n ↔
      ∃ k : Nat, k < n ∧ (b = x + 1 + (k : Int) ∨ b = -(x + 1 + (k : Int))) ∧ |a| ≤ |g k| := by
  simp only [circleRows, List.mem_flatMap, List.mem_range, List.mem_append, mem_symLine]
  constructor
  · rintro ⟨k, hk, h | h⟩
    · exact ⟨k, hk, Or.inl h.1, h.2⟩
    · exact ⟨k, hk, Or.inr h.1, h.2⟩
  · rintro ⟨k, hk, h | h, h'⟩
    · exact ⟨k, hk, Or.inl ⟨h, h'⟩⟩
    · exact ⟨k, hk, Or.inr ⟨h, h'⟩⟩

/-- **C10.** For every cell radius `r ≥ 1` the construction terminates (any fuel above `r`) and the
resulting cells cover the whole disc `a² + b² ≤ r²`, stay in the square `|a|,|b| ≤ r` and in the
octagon `(|a|+|b|)² ≤ 2r²+2r`, are symmetric in both axes, and contain no cell twice. -/
theorem circleCells_cover (r : Int) (hr : 1 ≤ r) :
    ∃ cs, (∀ fuel : Nat, r < fuel → circleCells fuel r = some cs) ∧
      (∀ a b : Int, a ^ 2 + b ^ 2 ≤ r ^ 2 → (a, b) ∈ cs) ∧
      (∀ a b : Int, (a, b) ∈ cs → |a| ≤ r ∧ |b| ≤ r ∧ (|a| + |b|) ^ 2 ≤ 2 * r ^ 2 + 2 * r) ∧
      (∀ a b : Int, (a, b) ∈ cs → (-a, b) ∈ cs ∧ (a, -b) ∈ cs) ∧
      cs.Nodup := by
  have hinit : CInv r 0 r (1 - r) 1 (-2 * r) := by
    refine ⟨by ring, by ring, rfl, le_rfl, by omega, fun _ => by omega, le_rfl, ?_, ?_⟩
    · intro _ b hb
      rw [zero_pow two_ne_zero, zero_add] at hb
      exact abs_le_of_sq_le_sq hb (by omega)
    · intro _; left; rw [zero_pow two_ne_zero]; omega
  -- the result does not depend on the fuel
  obtain ⟨g, e, hg⟩ := circleLoop_spec hr ((r - 0).toNat + 1) (horizontalLine 0 (-r) (0 + r)) hinit
    (by omega)
  have mono : ∀ (n k : Nat) {x y f ddx ddy : Int} {acc cs : List (Int × Int)},
      circleLoop r n f ddx ddy x y acc = some cs →
      circleLoop r (n + k) f ddx ddy x y acc = some cs := by
    intro n k
    induction n with
    | zero => intro x y f ddx ddy acc cs h; simp [circleLoop] at h
    | succ n ih =>
      intro x y f ddx ddy acc cs h
      rw [Nat.succ_add, circleLoop]
      rw [circleLoop] at h
      by_cases hx : x < r
      · simp only [hx, if_true] at h ⊢
        by_cases hf : f ≥ 0
        · simp only [hf, if_true] at h ⊢; exact ih h
        · simp only [hf, if_false] at h ⊢; exact ih h
      · simpa only [hx, if_false] using h
  rw [zero_add] at e
  refine ⟨horizontalLine 0 (-r) r ++ circleRows g 0 (r - 0).toNat, ?_, ?_, ?_, ?_, ?_⟩
  · intro fuel hf
    obtain ⟨k, rfl⟩ : ∃ k, fuel = (r - 0).toNat + 1 + k := ⟨fuel - ((r - 0).toNat + 1), by omega⟩
    rw [circleCells, zero_add]
    exact mono _ k e
  · intro a b hab
    rw [List.mem_append, mem_symLine, mem_circleRows]
    have ha2 := sq_nonneg a
    have hbr : |b| ≤ r := abs_le_of_sq_le_sq (by linarith) (by omega)
    by_cases hb : b = 0
    · left
      refine ⟨hb, ?_⟩
      subst hb
      rw [abs_of_nonneg (by omega : 0 ≤ r)]
      exact abs_le_of_sq_le_sq (by linarith) (by omega)
    · right
      have hb1 : 1 ≤ |b| := Int.one_le_abs hb
      refine ⟨(|b| - 1).toNat, by omega, ?_, ?_⟩
      · have e : (0 : Int) + 1 + ((|b| - 1).toNat : Int) = |b| := by omega
        rw [e]
        rcases abs_choice b with h | h <;> omega
      · have e : (0 : Int) + 1 + ((|b| - 1).toNat : Int) = |b| := by omega
        have := (hg (|b| - 1).toNat (by omega)).cov a
        rw [e, sq_abs] at this
        exact this (by linarith)
  · intro a b hab
    rw [List.mem_append, mem_symLine, mem_circleRows] at hab
    rcases hab with ⟨rfl, h⟩ | ⟨k, hk, hb, h⟩
    · rw [abs_of_nonneg (by omega : 0 ≤ r)] at h
      refine ⟨h, by simp; omega, ?_⟩
      rw [abs_zero, add_zero, sq_abs]
      have : a ^ 2 ≤ r ^ 2 := sq_le_sq' (by have := abs_le.1 h; omega) (by have := abs_le.1 h; omega)
      nlinarith
    · have row := hg k (by omega)
      have hbk : |b| = 0 + 1 + (k : Int) := by
        rcases hb with rfl | rfl
        · rw [abs_of_nonneg (by omega)]
        · rw [abs_neg, abs_of_nonneg (by omega)]
      refine ⟨h.trans row.le, by omega, ?_⟩
      rw [hbk]
      refine le_trans ?_ row.oct
      have h0 := abs_nonneg a
      rw [add_comm]
      exact pow_le_pow_left₀ (by omega) (by omega) 2
  · intro a b hab
    rw [List.mem_append, mem_symLine, mem_circleRows] at hab
    simp only [List.mem_append, mem_symLine, mem_circleRows, abs_neg]
    rcases hab with ⟨rfl, h⟩ | ⟨k, hk, hb, h⟩
    · exact ⟨Or.inl ⟨rfl, h⟩, Or.inl ⟨by simp, h⟩⟩
    · exact ⟨Or.inr ⟨k, hk, hb, h⟩, Or.inr ⟨k, hk, by omega, h⟩⟩
  · rw [List.nodup_append']
    refine ⟨nodup_horizontalLine _ _ _, ?_, ?_⟩
    · unfold circleRows
      rw [List.nodup_flatMap]
      constructor
      · intro k _
        rw [List.nodup_append']
        refine ⟨nodup_horizontalLine _ _ _, nodup_horizontalLine _ _ _, ?_⟩
        intro ⟨a, b⟩ h1 h2
        rw [mem_symLine] at h1 h2
        omega
      · refine List.Pairwise.imp ?_ List.nodup_range
        intro i j hij
        simp only [Function.onFun]
        intro ⟨a, b⟩ h1 h2
        simp only [List.mem_append, mem_symLine] at h1 h2
        omega
    · intro ⟨a, b⟩ h1 h2
      rw [mem_symLine] at h1
      rw [mem_circleRows] at h2
      omega

example : (1 : Int) ≤ 3 := by decide

/-- A test, not a theorem: the area of radius 4 contains cells outside the disc, e.g. (4,2) — the
"sometimes too much cells" of the source comment. -/
example : ((circleCells 5 4).map fun cs => decide ((2, 4) ∈ cs)) = some true := by decide +kernel

section num
variable {K : Type} [Field K] [LinearOrder K] [IsStrictOrderedRing K] [FloorRing K]

/-- **C10, degenerate cases.** (Re-)initialising an area in any state `s0` — the constructor is the
case of a default state — with a radius `≤ 0` or a centre reported off the map leaves no cell; with a
positive radius `≤ resolution` exactly the centre cell. -/
theorem circleArea_init_degenerate (s0 : CircleSt) (m : GridMap K) (px py radius : K) (b : Bool)
    (c : UCell) (fuel : Nat) (h : m.point2cell px py = .ok (b, c)) :
    ((b = false ∨ radius ≤ 0) → ∃ s, CircleSt.initC s0 fuel m px py radius = .ok (some s) ∧
      s.cells = [] ∧ s.counter = 0 ∧ s.value = s0.value ∧ s.cx = s0.cx ∧ s.cy = s0.cy) ∧
    (b = true → 0 < radius → radius ≤ m.res →
      ∃ s, CircleSt.initC s0 fuel m px py radius = .ok (some s) ∧ s.cells = [(0, 0)] ∧
        s.cx = toI32 c.x ∧ s.cy = toI32 c.y ∧ s.counter = 0 ∧ s.value = s0.value) := by
  constructor
  · intro hb
    have : (!b || decide (radius ≤ 0)) = true := by rcases hb with h | h <;> simp [h]
    exact ⟨{ s0 with cells := [], counter := 0 }, by
      simp only [CircleSt.initC, h, CRes.ok_bind, this, if_true]; rfl, rfl, rfl, rfl, rfl, rfl⟩
  · intro hb h0 h1
    subst hb
    refine ⟨{ s0 with cells := [(0, 0)], cx := toI32 c.x, cy := toI32 c.y, counter := 0 },
      ?_, rfl, rfl, rfl, rfl, rfl⟩
    simp [CircleSt.initC, CircleSt.setCenter, h, not_le.2 h0, h1]

/-- **C10, degenerate cases** of the constructor. -/
theorem circleArea_degenerate (m : GridMap K) (px py radius : K) (b : Bool) (c : UCell) (fuel : Nat)
    (h : m.point2cell px py = .ok (b, c)) :
    ((b = false ∨ radius ≤ 0) → ∃ s, CircleSt.ctor fuel m px py radius = .ok (some s) ∧ s.cells = []) ∧
    (b = true → 0 < radius → radius ≤ m.res →
      ∃ s, CircleSt.ctor fuel m px py radius = .ok (some s) ∧ s.cells = [(0, 0)] ∧
        s.cx = toI32 c.x ∧ s.cy = toI32 c.y) := by
  obtain ⟨h1, h2⟩ := circleArea_init_degenerate ⟨0, [], 0, 0, 0, []⟩ m px py radius b c fuel h
  exact ⟨fun hb => (h1 hb).imp fun s hs => ⟨hs.1, hs.2.1⟩,
    fun a b c => (h2 a b c).imp fun s hs => ⟨hs.1, hs.2.1, hs.2.2.1, hs.2.2.2.1⟩⟩

/-- **C10, (re-)initialisation.** From any earlier state `s0`, for a centre in an in-map cell and a
radius of more than one cell, `init` succeeds, the centre cell is recorded, the iteration starts anew,
and the stored offsets are exactly the ones of `circleCells_cover` for the cell radius
`⌊radius/resolution⌋` (nothing of the previous area survives). -/
theorem circleArea_init (s0 : CircleSt) (m : GridMap K) (hr : 0 < m.res) (hw : m.width < 2 ^ 31)
    (hh : m.height < 2 ^ 31) (x y : Nat) (hx : x < m.width) (hy : y < m.height) (px py radius : K)
    (hp : InCell m.ox m.oy m.res x y px py) (hrad : m.res < radius)
    (hmax : radius / m.res < 2 ^ 31) (fuel : Nat) (hf : ⌊radius / m.res⌋ < fuel) :
    ∃ s cs, CircleSt.initC s0 fuel m px py radius = .ok (some s) ∧
      circleCells fuel ⌊radius / m.res⌋ = some cs ∧ s.cells = cs ∧ s.cx = x ∧ s.cy = y ∧
      1 ≤ ⌊radius / m.res⌋ ∧ s.counter = 0 ∧ s.value = s0.value := by
  have h := GridMap.point2cell_of_inCell m hr hw hh x y hx hy px py hp
  have h1 : 1 ≤ radius / m.res := by rw [le_div_iff₀ hr]; linarith
  have hfl : 1 ≤ ⌊radius / m.res⌋ := by rw [Int.le_floor]; simpa using h1
  have hfm : ⌊radius / m.res⌋ < 2147483648 := by
    rw [Int.floor_lt]; norm_num at hmax ⊢; exact hmax
  obtain ⟨cs, hcs, -⟩ := circleCells_cover _ hfl
  have hci : castI (radius / m.res) = .ok ⌊radius / m.res⌋ := by
    unfold castI
    rw [truncC_nonneg (by linarith), if_pos ⟨by omega, hfm⟩]
  have h0 : 0 < radius := lt_trans hr hrad
  refine ⟨{ s0 with cells := cs, cx := x, cy := y, counter := 0 }, cs, ?_, hcs fuel hf, rfl, rfl, rfl,
    hfl, rfl, rfl⟩
  simp [CircleSt.initC, CircleSt.setCenter, h, not_le.2 h0, not_le.2 hrad, hci,
    hcs fuel hf, toI32_small (show x < 2147483648 by omega), toI32_small (show y < 2147483648 by omega)]

/-- **C10, whole constructor.** -/
theorem circleArea_ctor (m : GridMap K) (hr : 0 < m.res) (hw : m.width < 2 ^ 31)
    (hh : m.height < 2 ^ 31) (x y : Nat) (hx : x < m.width) (hy : y < m.height) (px py radius : K)
    (hp : InCell m.ox m.oy m.res x y px py) (hrad : m.res < radius)
    (hmax : radius / m.res < 2 ^ 31) (fuel : Nat) (hf : ⌊radius / m.res⌋ < fuel) :
    ∃ s cs, CircleSt.ctor fuel m px py radius = .ok (some s) ∧
      circleCells fuel ⌊radius / m.res⌋ = some cs ∧ s.cells = cs ∧ s.cx = x ∧ s.cy = y ∧
      1 ≤ ⌊radius / m.res⌋ := by
  obtain ⟨s, cs, h1, h2, h3, h4, h5, h6, -⟩ := circleArea_init ⟨0, [], 0, 0, 0, []⟩ m hr hw hh x y hx hy
    px py radius hp hrad hmax fuel hf
  exact ⟨s, cs, h1, h2, h3, h4, h5, h6⟩

/-- **C11.** Initialising a `CircleBuffer` gives the cells of the `CircleArea`, with one stored value
per cell, all equal to the current value. -/
theorem circleBuffer_init (s0 : CircleSt) (m : GridMap K) (px py radius : K) (fuel : Nat)
    {s : CircleSt} (h : CircleSt.initC s0 fuel m px py radius = .ok (some s)) :
    CircleSt.initBuffer s0 fuel m px py radius =
      .ok (some { s with values := List.replicate s.cells.length s.value }) := by
  unfold CircleSt.initBuffer
  rw [h]; rfl

example : ∃ m : GridMap ℚ, 0 < m.res ∧ m.width < 2 ^ 31 ∧ m.height < 2 ^ 31 ∧ 3 < m.width ∧
    4 < m.height ∧ InCell m.ox m.oy m.res 3 4 (7/4 : ℚ) (9/4) ∧ m.res < (3/2 : ℚ) ∧
    (3/2 : ℚ) / m.res < 2 ^ 31 :=
  ⟨GridMap.mk' 8 6 (1/2 : ℚ), by norm_num [GridMap.mk', InCell]⟩

end num
end PathPlanning
