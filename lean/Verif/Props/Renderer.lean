import Verif.Model.Renderer
import Verif.Spec.Renderer
import Mathlib.Tactic.FieldSimp
import Mathlib.Algebra.Order.Field.Rat

/-!
# C82: the rendered map
-/

namespace PathPlanning.Render
open Spec

variable {Col : Type}

theorem set_ok {o : Img Col} {r c : Int} (hr : 0 ≤ r) (hr' : r < o.rows) (hc : 0 ≤ c) (hc' : c < o.cols) (col : Col) :
    o.set r c col = .ok { o with px := fun r' c' => if r' = r ∧ c' = c then col else o.px r' c' } := by
  unfold Img.set
  rw [if_pos ⟨hr, hr', hc, hc'⟩]

/-- Filling a list of pixels that all lie in the image. -/
theorem fillPixels (g : Geo) (col : Col) (l : List (Nat × Nat)) :
    ∀ o : Img Col, o.rows = g.imgH → o.cols = g.imgW → (∀ p ∈ l, (p.1 : Int) < o.cols ∧ (p.2 : Int) < o.rows) →
    ∃ o', l.foldlM (fun o p => fillPixel g o p.1 p.2 col) o = .ok o' ∧ o'.rows = o.rows ∧ o'.cols = o.cols ∧
      ∀ r c : Int, ((∃ p ∈ l, r = o.rows - 1 - p.2 ∧ c = p.1) → o'.px r c = col) ∧
        ((¬ ∃ p ∈ l, r = o.rows - 1 - p.2 ∧ c = p.1) → o'.px r c = o.px r c) := by
  induction l with
  | nil => intro o _ _ _; exact ⟨o, rfl, rfl, rfl, fun r c => ⟨fun ⟨p, hp, _⟩ => by simp at hp, fun _ => rfl⟩⟩
  | cons p l ih =>
    intro o hr hc hin
    obtain ⟨hp1, hp2⟩ := hin p (by simp)
    have h1 : fillPixel g o p.1 p.2 col =
        .ok { o with px := fun r' c' => if r' = o.rows - 1 - p.2 ∧ c' = p.1 then col else o.px r' c' } := by
      unfold fillPixel
      simp only
      rw [if_neg (by rw [hr, hc] at *; omega)]
      exact set_ok (by omega) (by omega) (by omega) hp1 col
    rw [List.foldlM_cons, h1, CRes.ok_bind]
    obtain ⟨o', e1, e2, e3, e4⟩ := ih { o with px := fun r' c' =>
        if r' = o.rows - 1 - p.2 ∧ c' = p.1 then col else o.px r' c' } hr hc
      (fun q hq => hin q (List.mem_cons_of_mem _ hq))
    refine ⟨o', e1, e2, e3, fun r c => ?_⟩
    obtain ⟨f1, f2⟩ := e4 r c
    by_cases hex : ∃ p ∈ l, r = o.rows - 1 - p.2 ∧ c = p.1
    · refine ⟨fun _ => f1 hex, fun hn => absurd ?_ hn⟩
      obtain ⟨q, hq, h⟩ := hex
      exact ⟨q, List.mem_cons_of_mem _ hq, h⟩
    · rw [f2 hex]
      by_cases hpp : r = o.rows - 1 - p.2 ∧ c = p.1
      · refine ⟨fun _ => by simp only [hpp, and_self, if_true], fun hn => absurd ⟨p, by simp, hpp⟩ hn⟩
      · refine ⟨fun ⟨q, hq, h⟩ => ?_, fun _ => by simp only [hpp, if_false]⟩
        rcases List.mem_cons.1 hq with rfl | hq
        · exact absurd h hpp
        · exact absurd ⟨q, hq, h⟩ hex

/-- One pixel of `fill` on an image at least as large as the one expected: never an access outside of the image; the pixel
gets the colour exactly if it lies in the part of the size remembered in `setMap`, and no other pixel changes. -/
theorem fillPixel_spec (g : Geo) (o : Img Col) (dx dy : Nat) (col : Col) (hr : (g.imgH : Int) ≤ o.rows)
    (hc : (g.imgW : Int) ≤ o.cols) :
    ∃ o', fillPixel g o dx dy col = .ok o' ∧ o'.rows = o.rows ∧ o'.cols = o.cols ∧ ∀ r c, o'.px r c =
      if r = o.rows - 1 - dy ∧ c = dx ∧ 0 ≤ r ∧ r < g.imgH ∧ c < g.imgW then col else o.px r c := by
  unfold fillPixel
  simp only
  split_ifs with h
  · refine ⟨o, rfl, rfl, rfl, fun r c => ?_⟩
    rw [if_neg (by omega)]
  · rw [set_ok (by omega) (by omega) (by omega) (by omega) col]
    refine ⟨_, rfl, rfl, rfl, fun r c => ?_⟩
    by_cases hp : r = o.rows - 1 - dy ∧ c = dx
    · simp only [hp, and_self, if_true, true_and]
      rw [if_pos (by omega)]
    · simp only [hp, if_false]
      rw [if_neg (by tauto)]

theorem mem_blockPixels {n x y : Nat} {p : Nat × Nat} :
    p ∈ blockPixels n x y ↔ (n * x ≤ p.1 ∧ p.1 < n * x + n) ∧ (n * y ≤ p.2 ∧ p.2 < n * y + n) := by
  unfold blockPixels
  simp only [List.mem_flatMap, List.mem_map, List.mem_range]
  constructor
  · rintro ⟨j, hj, i, hi, rfl⟩; simp only; omega
  · rintro ⟨⟨h1, h2⟩, h3, h4⟩
    exact ⟨p.2 - n * y, by omega, p.1 - n * x, by omega, by ext <;> simp <;> omega⟩

/-- One call of `fill`: the square of the cell gets the colour; for more than two pixels per cell a frame is drawn
around it (first column and lowest row of the square, and the column and the row after it). -/
theorem fill_spec {w h n x y : Nat} (hn : 0 < n) (hx : x < w) (hy : y < h) (grid col : Col) (o : Img Col)
    (hr : o.rows = (h * n : Nat)) (hc : o.cols = (w * n : Nat)) :
    ∃ o', fill (Geo.setMap n w h) grid n o x y col = .ok o' ∧ o'.rows = o.rows ∧ o'.cols = o.cols ∧
      ∀ r c, o'.px r c =
        if 2 < n ∧ ((o.rows - 1 - n * y - n ≤ r ∧ r ≤ o.rows - 1 - n * y ∧ (n * x : Int) ≤ c ∧ c ≤ n * x + n) ∧
          (r = o.rows - 1 - n * y - n ∨ r = o.rows - 1 - n * y ∨ c = n * x ∨ c = n * x + n)) then grid
        else if (n * x ≤ c ∧ c < n * x + n) ∧ (o.rows - n * y - n ≤ r ∧ r < o.rows - n * y) then col
        else o.px r c := by
  have hxn : n * x + n ≤ w * n := by
    calc n * x + n = n * (x + 1) := by ring
      _ ≤ n * w := Nat.mul_le_mul_left _ hx
      _ = w * n := by ring
  have hyn : n * y + n ≤ h * n := by
    calc n * y + n = n * (y + 1) := by ring
      _ ≤ n * h := Nat.mul_le_mul_left _ hy
      _ = h * n := by ring
  by_cases h1 : n = 1
  · subst h1
    unfold fill
    rw [if_pos rfl]
    rw [set_ok (by omega) (by omega) (by omega) (by omega) col]
    refine ⟨_, rfl, rfl, rfl, fun r c => ?_⟩
    rw [if_neg (by omega)]
    simp only [Nat.cast_one, one_mul]
    by_cases hh : r = o.rows - 1 - y ∧ c = x
    · rw [if_pos hh, if_pos (by omega)]
    · rw [if_neg hh, if_neg (by omega)]
  · have hmem : ∀ p ∈ blockPixels n x y, (p.1 : Int) < o.cols ∧ (p.2 : Int) < o.rows := by
      intro p hp
      have := mem_blockPixels.1 hp
      omega
    obtain ⟨o', e1, e2, e3, e4⟩ := fillPixels (Geo.setMap n w h) col (blockPixels n x y) o
      (by rw [hr]; rfl) (by rw [hc]; rfl) hmem
    have hin : ∀ r c : Int, (∃ p ∈ blockPixels n x y, r = o.rows - 1 - p.2 ∧ c = p.1) ↔
        ((n * x ≤ c ∧ c < n * x + n) ∧ (o.rows - n * y - n ≤ r ∧ r < o.rows - n * y)) := by
      intro r c
      constructor
      · rintro ⟨p, hp, rfl, rfl⟩
        have := mem_blockPixels.1 hp
        have e1 : ((n * x : Nat) : Int) = n * x := by push_cast; rfl
        have e2 : ((n * y : Nat) : Int) = n * y := by push_cast; rfl
        omega
      · intro hh
        have e1 : ((n * x : Nat) : Int) = n * x := by push_cast; rfl
        have e2 : ((n * y : Nat) : Int) = n * y := by push_cast; rfl
        refine ⟨(c.toNat, (o.rows - 1 - r).toNat), mem_blockPixels.2 ?_, ?_, ?_⟩ <;> simp only <;> omega
    have hpx : ∀ r c, o'.px r c =
        if (n * x ≤ c ∧ c < n * x + n) ∧ (o.rows - n * y - n ≤ r ∧ r < o.rows - n * y) then col else o.px r c := by
      intro r c
      by_cases hh : (n * x ≤ c ∧ c < n * x + n) ∧ (o.rows - n * y - n ≤ r ∧ r < o.rows - n * y)
      · rw [if_pos hh]; exact (e4 r c).1 ((hin r c).2 hh)
      · rw [if_neg hh]; exact (e4 r c).2 (fun h => hh ((hin r c).1 h))
    unfold fill
    rw [if_neg h1, e1, CRes.ok_bind]
    by_cases h2 : n > 2
    · rw [if_pos h2]
      refine ⟨_, rfl, e2, e3, fun r c => ?_⟩
      simp only [Img.rectOutline, hpx, e2, Nat.cast_mul, gt_iff_lt.1 h2, true_and]
      congr 1
      rw [show o.rows - 1 - (n : Int) * y - n + n = o.rows - 1 - n * y by ring]
    · rw [if_neg h2]
      refine ⟨_, rfl, e2, e3, fun r c => ?_⟩
      rw [hpx, if_neg (c := 2 < n ∧ _) (by omega)]

/-- The squares of the cells: the cell whose square contains a pixel. -/
theorem inSquare_iff {n : Int} (hn : 0 < n) (rows x y r c : Int) :
    InSquare n rows x y r c ↔ x = c / n ∧ y = (rows - 1 - r) / n := by
  unfold InSquare
  constructor
  · rintro ⟨⟨h1, h2⟩, h3, h4⟩
    refine ⟨?_, ?_⟩
    · symm
      rw [Int.ediv_eq_iff_of_pos hn]
      constructor <;> nlinarith
    · symm
      rw [Int.ediv_eq_iff_of_pos hn]
      constructor <;> nlinarith
  · rintro ⟨rfl, rfl⟩
    have a1 := Int.mul_ediv_self_le (x := c) hn.ne'
    have a2 := Int.lt_mul_ediv_self_add (x := c) hn
    have b1 := Int.mul_ediv_self_le (x := rows - 1 - r) hn.ne'
    have b2 := Int.lt_mul_ediv_self_add (x := rows - 1 - r) hn
    refine ⟨⟨a1, by linarith⟩, by linarith, by linarith⟩

theorem mem_cells {w h : Nat} {p : Nat × Nat} : p ∈ cells w h ↔ p.1 < w ∧ p.2 < h := by
  unfold cells
  simp only [List.mem_flatMap, List.mem_map, List.mem_range]
  constructor
  · rintro ⟨y, hy, x, hx, rfl⟩; exact ⟨hx, hy⟩
  · rintro ⟨hx, hy⟩; exact ⟨p.2, hy, p.1, hx, rfl⟩

/-- **C82 (every cell at its place).**  Painting a `w × h` map into an image of `w·n × h·n` pixels never writes outside
of the image, and afterwards every pixel of the square of a cell (row 0 of the map at the bottom) has the colour of that
cell, except for the raster lines, which for more than two pixels per cell separate the cells. -/
theorem renderCells_pixel {w h n : Nat} (hn : 0 < n) (grid : Col) (colour : Nat → Nat → Col) (o : Img Col)
    (hr : o.rows = (h * n : Nat)) (hc : o.cols = (w * n : Nat)) :
    ∃ o', renderCells (Geo.setMap n w h) grid n colour o = .ok o' ∧ o'.rows = o.rows ∧ o'.cols = o.cols ∧
      ∀ (x y : Nat) (r c : Int), x < w → y < h → InSquare n o.rows x y r c →
        (2 < n → OnRaster n o.rows r c → o'.px r c = grid) ∧
        (¬ (2 < n ∧ OnRaster n o.rows r c) → o'.px r c = colour x y) := by
  have hn' : (0 : Int) < n := by exact_mod_cast hn
  -- general statement over the list of cells
  have main : ∀ l : List (Nat × Nat), (∀ p ∈ l, p.1 < w ∧ p.2 < h) → ∀ o : Img Col,
      o.rows = (h * n : Nat) → o.cols = (w * n : Nat) →
      ∃ o', l.foldlM (fun o p => fill (Geo.setMap n w h) grid n o p.1 p.2 (colour p.1 p.2)) o = .ok o' ∧
        o'.rows = o.rows ∧ o'.cols = o.cols ∧
        ∀ (x y : Nat) (r c : Int), InSquare n o.rows x y r c →
          (2 < n → OnRaster n o.rows r c → ((x, y) ∈ l ∨ o.px r c = grid) → o'.px r c = grid) ∧
          (¬ (2 < n ∧ OnRaster n o.rows r c) →
            o'.px r c = if (x, y) ∈ l then colour x y else o.px r c) := by
    intro l
    induction l with
    | nil =>
      intro _ o _ _
      exact ⟨o, rfl, rfl, rfl, fun x y r c _ => ⟨fun _ _ h => h.resolve_left (by simp), fun _ => by simp⟩⟩
    | cons p l ih =>
      intro hin o hr hc
      obtain ⟨hp1, hp2⟩ := hin p (by simp)
      obtain ⟨o1, f1, f2, f3, f4⟩ := fill_spec hn hp1 hp2 grid (colour p.1 p.2) o hr hc
      obtain ⟨o', e1, e2, e3, e4⟩ := ih (fun q hq => hin q (List.mem_cons_of_mem _ hq)) o1 (f2.trans hr) (f3.trans hc)
      refine ⟨o', by rw [List.foldlM_cons, f1, CRes.ok_bind, e1], e2.trans f2, e3.trans f3, fun x y r c hsq => ?_⟩
      obtain ⟨g1, g2⟩ := e4 x y r c (by rw [f2]; exact hsq)
      rw [f2] at g1 g2
      have hsq' := (inSquare_iff hn' _ _ _ _ _).1 hsq
      -- the frame of any cell lies on the raster
      have hframe : ∀ q : Nat × Nat, (r = o.rows - 1 - n * q.2 - n ∨ r = o.rows - 1 - n * q.2 ∨ c = n * q.1 ∨
          c = n * q.1 + n) → OnRaster n o.rows r c := by
        intro q hq
        unfold OnRaster
        rcases hq with h | h | h | h
        · right; exact ⟨q.2 + 1, by rw [h]; ring⟩
        · right; exact ⟨q.2, by rw [h]; ring⟩
        · left; exact ⟨q.1, h⟩
        · left; exact ⟨q.1 + 1, by rw [h]; ring⟩
      have hblock : ((n * p.1 ≤ c ∧ c < n * p.1 + n) ∧ (o.rows - n * p.2 - n ≤ r ∧ r < o.rows - n * p.2)) ↔
          (x, y) = p := by
        have := inSquare_iff hn' o.rows p.1 p.2 r c
        unfold InSquare at this
        rw [this, ← hsq'.1, ← hsq'.2]
        constructor
        · rintro ⟨h1, h2⟩; ext <;> simp only <;> omega
        · rintro rfl; exact ⟨rfl, rfl⟩
      constructor
      · intro h2n hras hor
        refine g1 h2n hras ?_
        by_cases hxl : (x, y) ∈ l
        · exact .inl hxl
        · right
          rw [f4]
          split_ifs with c1 c2
          · rfl
          · exfalso
            have hpe := hblock.1 c2
            apply c1
            refine ⟨h2n, ?_⟩
            obtain ⟨⟨a1, a2⟩, a3, a4⟩ := c2
            refine ⟨⟨by linarith, by linarith, a1, by linarith⟩, ?_⟩
            rcases hras with ⟨k, hk⟩ | ⟨k, hk⟩
            · right; right; left
              have : x = c / n := hsq'.1
              rw [hk, Int.mul_ediv_cancel_left _ hn'.ne'] at this
              rw [hk, ← this, ← hpe]
            · right; left
              have : (y : Int) = (o.rows - 1 - r) / n := hsq'.2
              rw [hk, Int.mul_ediv_cancel_left _ hn'.ne'] at this
              rw [← hpe]
              simp only
              rw [this, ← hk]; ring
          · rcases hor with hor | hor
            · rcases List.mem_cons.1 hor with h | h
              · exact absurd (hblock.2 h) c2
              · exact absurd h hxl
            · exact hor
      · intro hno
        rw [g2 hno]
        by_cases hxl : (x, y) ∈ l
        · rw [if_pos hxl, if_pos (List.mem_cons_of_mem _ hxl)]
        · rw [if_neg hxl, f4, if_neg (fun hh => hno ⟨hh.1, hframe p hh.2.2⟩)]
          by_cases hpe : (x, y) = p
          · rw [if_pos (hblock.2 hpe), if_pos (by rw [hpe]; simp), ← hpe]
          · rw [if_neg (fun h => hpe (hblock.1 h)), if_neg]
            intro hm
            rcases List.mem_cons.1 hm with h | h
            · exact hpe h
            · exact hxl h
  obtain ⟨o', e1, e2, e3, e4⟩ := main (cells w h) (fun p hp => mem_cells.1 hp) o hr hc
  refine ⟨o', e1, e2, e3, fun x y r c hx hy hsq => ?_⟩
  obtain ⟨g1, g2⟩ := e4 x y r c hsq
  have hm : (x, y) ∈ cells w h := mem_cells.2 ⟨hx, hy⟩
  refine ⟨fun a b => g1 a b (.inl hm), fun a => ?_⟩
  rw [g2 a, if_pos hm]

/-- Every pixel of such an image lies in the square of exactly one cell of the map. -/
theorem squares_cover {w h n : Nat} (hn : 0 < n) (r c : Int) (hr : 0 ≤ r) (hr' : r < (h * n : Nat)) (hc : 0 ≤ c)
    (hc' : c < (w * n : Nat)) :
    ∃! p : Nat × Nat, (p.1 < w ∧ p.2 < h) ∧ InSquare n (h * n : Nat) p.1 p.2 r c := by
  have hn' : (0 : Int) < n := by exact_mod_cast hn
  have a0 : 0 ≤ c / n := Int.ediv_nonneg hc hn'.le
  have b0 : 0 ≤ (((h * n : Nat) : Int) - 1 - r) / n := Int.ediv_nonneg (by omega) hn'.le
  have a1 : c / n < w := by rw [Int.ediv_lt_iff_lt_mul hn']; exact_mod_cast hc'
  have b1 : (((h * n : Nat) : Int) - 1 - r) / n < h := by
    rw [Int.ediv_lt_iff_lt_mul hn']; push_cast; linarith
  refine ⟨((c / n).toNat, ((((h * n : Nat) : Int) - 1 - r) / n).toNat), ⟨⟨?_, ?_⟩, ?_⟩, ?_⟩
  · simp only; omega
  · simp only; omega
  · rw [inSquare_iff hn']; simp only; omega
  · rintro ⟨x, y⟩ ⟨_, hsq⟩
    rw [inSquare_iff hn'] at hsq
    ext <;> simp only at hsq ⊢ <;> omega

end PathPlanning.Render
