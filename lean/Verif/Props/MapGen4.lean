import Verif.Props.MapGen3

/-!
# The map generators (C55): the picture
-/

namespace PathPlanning.MapGen
open Spec

theorem quot {W a k r r' : Int} (h1 : 0 ≤ r) (h2 : r < W) (h3 : 0 ≤ r') (h4 : r' < W) (he : a * W + r = k * W + r') :
    a = k ∧ r = r' := by
  have hW : 0 < W := by omega
  have e1 : (a * W + r) / W = a := by rw [add_comm, Int.add_mul_ediv_right _ _ hW.ne', Int.ediv_eq_zero_of_lt h1 h2]; omega
  have e2 : (k * W + r') / W = k := by rw [add_comm, Int.add_mul_ediv_right _ _ hW.ne', Int.ediv_eq_zero_of_lt h3 h4]; omega
  have : a = k := by rw [← e1, ← e2, he]
  exact ⟨this, by rw [this] at he; omega⟩

/-- The widths used: rooms of at least one pixel, walls of at least one pixel, walls at most a quarter of the width. -/
def GoodWidth (W b : Int) : Prop := 2 ≤ W ∧ 1 ≤ b ∧ b ≤ max 1 (W.tdiv 4)

/-- Neighbouring rooms: side by side or one above the other, in one of the two orders. -/
theorem adj4_cases {a b : Room} (h : Adj4 1 a b) :
    (b = (a.1 + 1, a.2) ∨ a = (b.1 + 1, b.2)) ∨ (b = (a.1, a.2 + 1) ∨ a = (b.1, b.2 + 1)) := by
  rcases h with ⟨h1, h2⟩ | ⟨h1, h2⟩
  · rcases (abs_eq (by norm_num : (0 : Int) ≤ 1)).1 h1 with h1 | h1
    · exact .inl (.inl (Prod.ext (by simp; omega) (by simp; omega)))
    · exact .inl (.inr (Prod.ext (by simp; omega) (by simp; omega)))
  · rcases (abs_eq (by norm_num : (0 : Int) ≤ 1)).1 h2 with h2 | h2
    · exact .inr (.inl (Prod.ext (by simp; omega) (by simp; omega)))
    · exact .inr (.inr (Prod.ext (by simp; omega) (by simp; omega)))

theorem half_even {half : Int → Int} (hh : HalfRound half) (z : Int) : half (z + z) = z := by
  have := abs_le.1 (hh (z + z)); omega

/-- The middle rectangle of two rooms side by side, relative to the left one. -/
theorem middle_x {half : Int → Int} (hh : HalfRound half) {W b : Int} (hg : GoodWidth W b) (k y : Int) :
    ∃ m, b ≤ m ∧ m ≤ W - b ∧
      middle half (rectFor W b (k, y)) (rectFor W b (k + 1, y)) =
        ⟨k * W + b.tdiv 2 + m, y * W + b.tdiv 2, W - b, W - b⟩ ∧
      middle half (rectFor W b (k + 1, y)) (rectFor W b (k, y)) =
        ⟨k * W + b.tdiv 2 + m, y * W + b.tdiv 2, W - b, W - b⟩ := by
  obtain ⟨g1, g2, g3⟩ := hg
  have hz := abs_le.1 (hh ((k * W + b.tdiv 2) + ((k + 1) * W + b.tdiv 2)))
  have e : (k + 1) * W = k * W + W := by ring
  have hq : W.tdiv 4 = W / 4 := Int.tdiv_eq_ediv_of_nonneg (by omega)
  rw [hq] at g3
  refine ⟨half ((k * W + b.tdiv 2) + ((k + 1) * W + b.tdiv 2)) - (k * W + b.tdiv 2), ?_, ?_, ?_, ?_⟩
  · rw [e] at hz ⊢
    generalize half (k * W + b.tdiv 2 + (k * W + W + b.tdiv 2)) = t at hz ⊢
    omega
  · rw [e] at hz ⊢
    generalize half (k * W + b.tdiv 2 + (k * W + W + b.tdiv 2)) = t at hz ⊢
    omega
  · simp only [middle, rectFor, half_even hh, Rect.mk.injEq, and_true, true_and]
    ring
  · simp only [middle, rectFor, half_even hh, Rect.mk.injEq, and_true, true_and]
    rw [add_comm ((k + 1) * W + b.tdiv 2)]
    ring

/-- The middle rectangle of two rooms one above the other. -/
theorem middle_y {half : Int → Int} (hh : HalfRound half) {W b : Int} (hg : GoodWidth W b) (x k : Int) :
    ∃ m, b ≤ m ∧ m ≤ W - b ∧
      middle half (rectFor W b (x, k)) (rectFor W b (x, k + 1)) =
        ⟨x * W + b.tdiv 2, k * W + b.tdiv 2 + m, W - b, W - b⟩ ∧
      middle half (rectFor W b (x, k + 1)) (rectFor W b (x, k)) =
        ⟨x * W + b.tdiv 2, k * W + b.tdiv 2 + m, W - b, W - b⟩ := by
  obtain ⟨m, h1, h2, h3, h4⟩ := middle_x hh hg k x
  refine ⟨m, h1, h2, ?_, ?_⟩
  · simp only [middle, rectFor, Rect.mk.injEq] at h3 ⊢
    exact ⟨h3.2.1, h3.1, trivial, trivial⟩
  · simp only [middle, rectFor, Rect.mk.injEq] at h4 ⊢
    exact ⟨h4.2.1, h4.1, trivial, trivial⟩

/-- The offset of a pixel coordinate in the middle rectangle falls into the room or wall `k`, or into the room part of
the next one. -/
theorem mid_part {W b k a m r t : Int} (hb : 1 ≤ b) (hbW : b ≤ W) (h1 : b ≤ m) (h2 : m ≤ W - b) (ht : t = a * W + r) (hr0 : 0 ≤ r)
    (hr1 : r < W) (hm0 : k * W + m ≤ t) (hm1 : t < k * W + m + (W - b)) : (a = k ∧ m ≤ r) ∨ (a = k + 1 ∧ r < W - b) := by
  by_cases hc : t - k * W < W
  · left
    obtain ⟨e1, e2⟩ := quot (W := W) (a := a) (k := k) hr0 hr1 (show 0 ≤ t - k * W by omega) hc (by omega)
    exact ⟨e1, by omega⟩
  · right
    have e : (k + 1) * W = k * W + W := by ring
    obtain ⟨e1, e2⟩ := quot (W := W) (a := a) (k := k + 1) hr0 hr1 (show 0 ≤ t - (k + 1) * W by omega) (by omega) (by omega)
    exact ⟨e1, by omega⟩

/-- A coordinate in a room. -/
theorem room_part {W b k a r t : Int} (hb : 1 ≤ b) (ht : t = a * W + r) (hr0 : 0 ≤ r)
    (hr1 : r < W) (hm0 : k * W ≤ t) (hm1 : t < k * W + (W - b)) : a = k ∧ r < W - b := by
  obtain ⟨e1, e2⟩ := quot (W := W) (a := a) (k := k) hr0 hr1 (show 0 ≤ t - k * W by omega) (by omega) (by omega)
  exact ⟨e1, by omega⟩

/-- The rooms and corridors in terms of the coordinates: `px` is painted by a link between neighbours, in units of rooms.
`(c.1, r.1)`: room column and offset of the pixel (after subtracting half the wall). -/
theorem carve_cases {half : Int → Int} (hh : HalfRound half) {W b : Int} (hg : GoodWidth W b) {l : Room × Room}
    (hl : Adj4 1 l.1 l.2) {px : Int × Int} {c r : Room} (hx : px.1 - b.tdiv 2 = c.1 * W + r.1) (hx0 : 0 ≤ r.1) (hx1 : r.1 < W)
    (hy : px.2 - b.tdiv 2 = c.2 * W + r.2) (hy0 : 0 ≤ r.2) (hy1 : r.2 < W) {R : Rect} (hR : R ∈ carve half W b l)
    (hin : InRect R px) :
    (r.1 < W - b ∧ r.2 < W - b) ∨
    (W - b ≤ r.1 ∧ r.2 < W - b ∧ (l = (c, (c.1 + 1, c.2)) ∨ l = ((c.1 + 1, c.2), c))) ∨
    (r.1 < W - b ∧ W - b ≤ r.2 ∧ (l = (c, (c.1, c.2 + 1)) ∨ l = ((c.1, c.2 + 1), c))) := by
  obtain ⟨g1, g2, g3⟩ := hg
  have hg : GoodWidth W b := ⟨g1, g2, g3⟩
  have hq : W.tdiv 4 = W / 4 := Int.tdiv_eq_ediv_of_nonneg (by omega)
  have hbW : b ≤ W := by rw [hq] at g3; omega
  have hroom : ∀ q : Room, InRect (rectFor W b q) px → r.1 < W - b ∧ r.2 < W - b := by
    intro q hq
    simp only [InRect, rectFor] at hq
    exact ⟨(room_part (k := q.1) g2 hx hx0 hx1 (by omega) (by omega)).2,
      (room_part (k := q.2) g2 hy hy0 hy1 (by omega) (by omega)).2⟩
  have hmx : ∀ k y m : Int, b ≤ m → m ≤ W - b → InRect ⟨k * W + b.tdiv 2 + m, y * W + b.tdiv 2, W - b, W - b⟩ px →
      (r.1 < W - b ∧ r.2 < W - b) ∨ (W - b ≤ r.1 ∧ r.2 < W - b ∧ c = (k, y)) := by
    intro k y m h1 h2 hi
    simp only [InRect] at hi
    obtain ⟨e1, e2⟩ := room_part (k := y) g2 hy hy0 hy1 (by omega) (by omega)
    rcases mid_part (k := k) (m := m) g2 hbW h1 h2 hx hx0 hx1 (by omega) (by omega) with ⟨e3, e4⟩ | ⟨e3, e4⟩
    · by_cases hc : r.1 < W - b
      · exact .inl ⟨hc, e2⟩
      · exact .inr ⟨by omega, e2, Prod.ext e3 e1⟩
    · exact .inl ⟨e4, e2⟩
  have hmy : ∀ x k m : Int, b ≤ m → m ≤ W - b → InRect ⟨x * W + b.tdiv 2, k * W + b.tdiv 2 + m, W - b, W - b⟩ px →
      (r.1 < W - b ∧ r.2 < W - b) ∨ (r.1 < W - b ∧ W - b ≤ r.2 ∧ c = (x, k)) := by
    intro x k m h1 h2 hi
    simp only [InRect] at hi
    obtain ⟨e1, e2⟩ := room_part (k := x) g2 hx hx0 hx1 (by omega) (by omega)
    rcases mid_part (k := k) (m := m) g2 hbW h1 h2 hy hy0 hy1 (by omega) (by omega) with ⟨e3, e4⟩ | ⟨e3, e4⟩
    · by_cases hc : r.2 < W - b
      · exact .inl ⟨e2, hc⟩
      · exact .inr ⟨e2, by omega, Prod.ext e1 e3⟩
    · exact .inl ⟨e2, e4⟩
  simp only [carve, List.mem_cons, List.not_mem_nil, or_false] at hR
  rcases hR with rfl | rfl | rfl
  · exact .inl (hroom _ hin)
  · obtain ⟨p, q⟩ := l
    simp only at hl hin ⊢
    rcases adj4_cases hl with (rfl | rfl) | (rfl | rfl)
    · obtain ⟨m, h1, h2, h3, _⟩ := middle_x hh hg p.1 p.2
      rw [h3] at hin
      rcases hmx _ _ _ h1 h2 hin with h4 | ⟨h4, h5, rfl⟩
      · exact .inl h4
      · exact .inr (.inl ⟨h4, h5, .inl rfl⟩)
    · obtain ⟨m, h1, h2, _, h3⟩ := middle_x hh hg q.1 q.2
      rw [h3] at hin
      rcases hmx _ _ _ h1 h2 hin with h4 | ⟨h4, h5, rfl⟩
      · exact .inl h4
      · exact .inr (.inl ⟨h4, h5, .inr rfl⟩)
    · obtain ⟨m, h1, h2, h3, _⟩ := middle_y hh hg p.1 p.2
      rw [h3] at hin
      rcases hmy _ _ _ h1 h2 hin with h4 | ⟨h4, h5, rfl⟩
      · exact .inl h4
      · exact .inr (.inr ⟨h4, h5, .inl rfl⟩)
    · obtain ⟨m, h1, h2, _, h3⟩ := middle_y hh hg q.1 q.2
      rw [h3] at hin
      rcases hmy _ _ _ h1 h2 hin with h4 | ⟨h4, h5, rfl⟩
      · exact .inl h4
      · exact .inr (.inr ⟨h4, h5, .inr rfl⟩)
  · exact .inl (hroom _ hin)

theorem carved_mono {half : Int → Int} {W b rows cols : Int} {links : List (Room × Room)} {l : Room × Room} (hl : l ∈ links)
    {R : Rect} (hR : R ∈ carve half W b l) {px : Int × Int} (hin : InRect R px)
    (him : (0 ≤ px.1 ∧ px.1 < cols) ∧ (0 ≤ px.2 ∧ px.2 < rows)) : Carved half W b rows cols links px :=
  ⟨him, l, hl, R, hR, hin⟩

/-- The picture is large enough for the rooms of the grid. -/
def Fits (W w h rows cols : Int) : Prop := h * W ≤ cols ∧ w * W ≤ rows

theorem room_in_image {W b w h rows cols : Int} (hg : GoodWidth W b) (hf : Fits W w h rows cols) {p : Room}
    (hp : InGrid w h p) {px : Int × Int}
    (hx : p.1 * W + b.tdiv 2 ≤ px.1 ∧ px.1 < p.1 * W + b.tdiv 2 + (W - b))
    (hy : p.2 * W + b.tdiv 2 ≤ px.2 ∧ px.2 < p.2 * W + b.tdiv 2 + (W - b)) :
    (0 ≤ px.1 ∧ px.1 < cols) ∧ (0 ≤ px.2 ∧ px.2 < rows) := by
  obtain ⟨g1, g2, g3⟩ := hg
  obtain ⟨⟨p1, p2⟩, p3, p4⟩ := hp
  have e1 : (p.1 + 1) * W ≤ h * W := mul_le_mul_of_nonneg_right (by omega) (by omega)
  have e2 : (p.2 + 1) * W ≤ w * W := mul_le_mul_of_nonneg_right (by omega) (by omega)
  have e3 : 0 ≤ p.1 * W := mul_nonneg p1 (by omega)
  have e4 : 0 ≤ p.2 * W := mul_nonneg p3 (by omega)
  rw [add_mul] at e1 e2
  have hb : b.tdiv 2 = b / 2 := Int.tdiv_eq_ediv_of_nonneg (by omega)
  rw [hb] at hx hy
  obtain ⟨f1, f2⟩ := hf
  omega

/-- **C55 (walls).**  Between two neighbouring rooms every pixel of the wall is painted if the rooms are linked, and none
otherwise. -/
theorem wall_iff {half : Int → Int} (hh : HalfRound half) {W b w h rows cols : Int} (hg : GoodWidth W b)
    (hf : Fits W w h rows cols) {links : List (Room × Room)} (hl : ∀ l ∈ links, Adj4 1 l.1 l.2) {p q : Room}
    (hp : InGrid w h p) (hq : InGrid w h q) (hpq : Adj4 1 p q) {px : Int × Int}
    (hb : Between (rectFor W b p) (rectFor W b q) px) :
    Carved half W b rows cols links px ↔ Linked links p q := by
  wlog hord : q = (p.1 + 1, p.2) ∨ q = (p.1, p.2 + 1) generalizing p q with H
  · have hsw : p = (q.1 + 1, q.2) ∨ p = (q.1, q.2 + 1) := by
      rcases adj4_cases hpq with (h1 | h1) | (h1 | h1)
      · exact absurd (.inl h1) hord
      · exact .inl h1
      · exact absurd (.inr h1) hord
      · exact .inr h1
    have hqp : Adj4 1 q p := by
      rcases hsw with e | e <;> rw [e] <;> simp [Adj4]
    have := H hq hp hqp (by
      obtain ⟨b1, b2, b3, b4⟩ := hb
      exact ⟨by rw [min_comm, max_comm]; exact b1, by rw [min_comm, max_comm]; exact b2, b4, b3⟩) hsw
    rw [this]
    exact or_comm
  have hg' := hg
  obtain ⟨g1, g2, g3⟩ := hg
  have hq4 : W.tdiv 4 = W / 4 := Int.tdiv_eq_ediv_of_nonneg (by omega)
  have hb2 : b.tdiv 2 = b / 2 := Int.tdiv_eq_ediv_of_nonneg (by omega)
  have hbW : b ≤ W := by rw [hq4] at g3; omega
  obtain ⟨⟨p1, p2⟩, p3, p4⟩ := hp
  obtain ⟨⟨q1, q2⟩, q3, q4⟩ := hq
  have ex : (p.1 + 1) * W = p.1 * W + W := by ring
  have ey : (p.2 + 1) * W = p.2 * W + W := by ring
  have e3 : 0 ≤ p.1 * W := mul_nonneg p1 (by omega)
  have e4 : 0 ≤ p.2 * W := mul_nonneg p3 (by omega)
  have hx1 : (p.1 + 1) * W ≤ h * W := mul_le_mul_of_nonneg_right (by omega) (by omega)
  have hy1 : (p.2 + 1) * W ≤ w * W := mul_le_mul_of_nonneg_right (by omega) (by omega)
  obtain ⟨f1, f2⟩ := hf
  rcases hord with rfl | rfl
  · simp only [Between, rectFor, InRect, ex] at hb
    have c1 : p.1 * W + b.tdiv 2 + (W - b) ≤ px.1 ∧ px.1 < p.1 * W + b.tdiv 2 + W := by
      generalize p.1 * W = u at hb ⊢
      generalize p.2 * W = u' at hb ⊢
      omega
    have c2 : p.2 * W + b.tdiv 2 ≤ px.2 ∧ px.2 < p.2 * W + b.tdiv 2 + (W - b) := by
      generalize p.1 * W = u at hb ⊢
      generalize p.2 * W = u' at hb ⊢
      omega
    constructor
    · rintro ⟨_, l, hlm, R, hR, hi⟩
      rcases carve_cases hh hg' (hl l hlm) (c := p) (r := (px.1 - b.tdiv 2 - p.1 * W, px.2 - b.tdiv 2 - p.2 * W))
        (by simp) (by simp only; omega) (by simp only; omega) (by simp) (by simp only; omega) (by simp only; omega) hR hi
        with ⟨k1, _⟩ | ⟨_, _, rfl | rfl⟩ | ⟨k1, _⟩
      · simp only at k1; omega
      · exact .inl hlm
      · exact .inr hlm
      · simp only at k1; omega
    · intro hlk
      obtain ⟨m, m1, m2, m3, m4⟩ := middle_x hh hg' p.1 p.2
      have hin : InRect ⟨p.1 * W + b.tdiv 2 + m, p.2 * W + b.tdiv 2, W - b, W - b⟩ px := by
        simp only [InRect]; omega
      have him : (0 ≤ px.1 ∧ px.1 < cols) ∧ (0 ≤ px.2 ∧ px.2 < rows) := by
        have hx2 : (p.1 + 1 + 1) * W ≤ h * W := mul_le_mul_of_nonneg_right (by omega) (by omega)
        have : (p.1 + 1 + 1) * W = p.1 * W + W + W := by ring
        rw [hb2] at c1 c2
        omega
      rcases hlk with hlk | hlk
      · exact carved_mono hlk (R := _) (by simp only [carve]; exact List.mem_cons_of_mem _ (List.mem_cons_self ..))
          (by rw [m3]; exact hin) him
      · exact carved_mono hlk (R := _) (by simp only [carve]; exact List.mem_cons_of_mem _ (List.mem_cons_self ..))
          (by rw [m4]; exact hin) him
  · simp only [Between, rectFor, InRect, ey] at hb
    have c1 : p.2 * W + b.tdiv 2 + (W - b) ≤ px.2 ∧ px.2 < p.2 * W + b.tdiv 2 + W := by
      generalize p.1 * W = u at hb ⊢
      generalize p.2 * W = u' at hb ⊢
      omega
    have c2 : p.1 * W + b.tdiv 2 ≤ px.1 ∧ px.1 < p.1 * W + b.tdiv 2 + (W - b) := by
      generalize p.1 * W = u at hb ⊢
      generalize p.2 * W = u' at hb ⊢
      omega
    constructor
    · rintro ⟨_, l, hlm, R, hR, hi⟩
      rcases carve_cases hh hg' (hl l hlm) (c := p) (r := (px.1 - b.tdiv 2 - p.1 * W, px.2 - b.tdiv 2 - p.2 * W))
        (by simp) (by simp only; omega) (by simp only; omega) (by simp) (by simp only; omega) (by simp only; omega) hR hi
        with ⟨_, k1⟩ | ⟨_, k1, _⟩ | ⟨_, _, rfl | rfl⟩
      · simp only at k1; omega
      · simp only at k1; omega
      · exact .inl hlm
      · exact .inr hlm
    · intro hlk
      obtain ⟨m, m1, m2, m3, m4⟩ := middle_y hh hg' p.1 p.2
      have hin : InRect ⟨p.1 * W + b.tdiv 2, p.2 * W + b.tdiv 2 + m, W - b, W - b⟩ px := by
        simp only [InRect]; omega
      have him : (0 ≤ px.1 ∧ px.1 < cols) ∧ (0 ≤ px.2 ∧ px.2 < rows) := by
        have hx2 : (p.2 + 1 + 1) * W ≤ w * W := mul_le_mul_of_nonneg_right (by omega) (by omega)
        have : (p.2 + 1 + 1) * W = p.2 * W + W + W := by ring
        rw [hb2] at c1 c2
        omega
      rcases hlk with hlk | hlk
      · exact carved_mono hlk (R := _) (by simp only [carve]; exact List.mem_cons_of_mem _ (List.mem_cons_self ..))
          (by rw [m3]; exact hin) him
      · exact carved_mono hlk (R := _) (by simp only [carve]; exact List.mem_cons_of_mem _ (List.mem_cons_self ..))
          (by rw [m4]; exact hin) him

/-- **C55 (rooms).**  Every pixel of a room with a passage is painted. -/
theorem room_open {half : Int → Int} {W b w h rows cols : Int} (hg : GoodWidth W b)
    (hf : Fits W w h rows cols) {links : List (Room × Room)} {p q : Room} (hp : InGrid w h p) (hl : Linked links p q)
    {px : Int × Int} (hx : InRect (rectFor W b p) px) : Carved half W b rows cols links px := by
  have him := room_in_image hg hf hp (px := px) hx.1 hx.2
  rcases hl with hl | hl
  · exact carved_mono hl (R := rectFor W b p) (by simp [carve]) hx him
  · exact carved_mono hl (R := rectFor W b p) (by simp [carve]) hx him

end PathPlanning.MapGen
