import Verif.Spec.GridClearance
import Verif.Props.SearchHist
import Verif.Props.GridPath
import Verif.Props.GridRound
import Verif.Props.LegacyAStar
import Verif.Props.DistTrans2

/-!
# Grid paths as motions of a disc (C108)

A holonomic robot follows a path of cells in straight lines from centre to centre.  On a map on which every obstacle was grown by `d` cells,
how large may the robot be?
-/

noncomputable section

namespace PathPlanning
open Spec

theorem chain_clear {adj : Int × Int → Int × Int → Prop} {d : Int} {r : ℝ} {obstacle : Int × Int → Prop}
    (hone : ∀ c o, FarFrom d obstacle c → obstacle o → ¬ DiscMeets r (cellCentre c) o)
    (hstep : ∀ u v p o, adj u v → FarFrom d obstacle u → FarFrom d obstacle v → OnStep (cellCentre u) (cellCentre v) p → obstacle o →
      ¬ DiscMeets r p o) {l : List (Int × Int)} (hc : l.IsChain adj) (hf : ∀ c ∈ l, FarFrom d obstacle c) :
    DiscClear r obstacle l := by
  rintro p o (⟨c, hm, rfl⟩ | ⟨u, v, hm, hp⟩) ho
  · exact hone c o (hf c hm) ho
  · have h1 : adj u v := by
      have := hc.infix hm
      simpa using this
    exact hstep u v p o h1 (hf u (hm.subset (by simp))) (hf v (hm.subset (by simp))) hp ho

/-- A point of the disc is no further away than `r` in each coordinate. -/
theorem disc_coord {r : ℝ} (hr : 0 ≤ r) {a b : ℝ} (h : a ^ 2 + b ^ 2 ≤ r ^ 2) : |a| ≤ r ∧ |b| ≤ r :=
  ⟨abs_le_of_sq_le_sq (by nlinarith [sq_nonneg b]) hr, abs_le_of_sq_le_sq (by nlinarith [sq_nonneg a]) hr⟩

/-- An obstacle that is not within `d` of the cell is more than `d` away in one coordinate. -/
theorem not_within {d : Int} {o c : Int × Int} (h : ¬ CellsWithin d o c) :
    (o.1 ≤ c.1 - d - 1 ∨ c.1 + d + 1 ≤ o.1) ∨ (o.2 ≤ c.2 - d - 1 ∨ c.2 + d + 1 ≤ o.2) := by
  unfold CellsWithin at h
  by_contra hn
  push Not at hn
  exact h ⟨abs_le.2 ⟨by omega, by omega⟩, abs_le.2 ⟨by omega, by omega⟩⟩

/-- One coordinate: the obstacle starts `d + 1` cells above, or ends `d` cells below, the cell `c`; a point `p` at most `s` away from the
centre of `c` is at least `d + 1/2 - s` away from it. -/
theorem coord_far {d c o : Int} {p z r s : ℝ} (h : o ≤ c - d - 1 ∨ c + d + 1 ≤ o) (hz1 : (o : ℝ) ≤ z) (hz2 : z < o + 1)
    (hp : |p - ((c : ℝ) + 1 / 2)| ≤ s) (hzp : |z - p| ≤ r) (hr : r < d + 1 / 2 - s) : False := by
  obtain ⟨a1, a2⟩ := abs_le.1 hp
  obtain ⟨b1, b2⟩ := abs_le.1 hzp
  rcases h with h | h
  · have : (o : ℝ) ≤ c - d - 1 := by exact_mod_cast h
    linarith
  · have : (c : ℝ) + d + 1 ≤ o := by exact_mod_cast h
    linarith

/-- **Standing at a cell.** -/
theorem centre_clear {d : Int} {r : ℝ} (hr0 : 0 ≤ r) (hr : r < d + 1 / 2) {c o : Int × Int} (h : ¬ CellsWithin d o c) :
    ¬ DiscMeets r (cellCentre c) o := by
  rintro ⟨z, ⟨z1, z2, z3, z4⟩, hz⟩
  obtain ⟨c1, c2⟩ := disc_coord hr0 hz
  rcases not_within h with h | h
  · exact coord_far h z1 z2 (p := (cellCentre c).x) (s := 0) (by simp [cellCentre]) c1 (by linarith)
  · exact coord_far h z3 z4 (p := (cellCentre c).y) (s := 0) (by simp [cellCentre]) c2 (by linarith)

/-- **A step of any width `D`**: half of the step is lost. -/
theorem wide_step_clear {d D : Int} {r : ℝ} (hD : 0 ≤ D) (hr0 : 0 ≤ r) (hr : r < d + (1 - D) / 2) {u v o : Int × Int} {p : P2}
    (ha : |v.1 - u.1| ≤ D ∧ |v.2 - u.2| ≤ D) (hu : ¬ CellsWithin d o u) (hv : ¬ CellsWithin d o v)
    (hp : OnStep (cellCentre u) (cellCentre v) p) : ¬ DiscMeets r p o := by
  rintro ⟨z, ⟨z1, z2, z3, z4⟩, hz⟩
  obtain ⟨c1, c2⟩ := disc_coord hr0 hz
  obtain ⟨t, t0, t1, px, py⟩ := hp
  simp only [cellCentre] at px py
  have hD' : (0 : ℝ) ≤ D := by exact_mod_cast hD
  have k1 : |(v.1 : ℝ) - u.1| ≤ D := by exact_mod_cast ha.1
  have k2 : |(v.2 : ℝ) - u.2| ≤ D := by exact_mod_cast ha.2
  have half : ∀ {s a : ℝ}, 0 ≤ s → s ≤ 1 / 2 → |a| ≤ D → |s * a| ≤ (D : ℝ) / 2 := by
    intro s a hs hs2 h
    rw [abs_mul, abs_of_nonneg hs]
    nlinarith [abs_nonneg a]
  rcases le_total t (1 / 2) with ht | ht
  · rcases not_within hu with h | h
    · refine coord_far h z1 z2 (s := (D : ℝ) / 2) ?_ c1 (by linarith)
      rw [px]; have := half t0 ht k1
      convert this using 2; ring
    · refine coord_far h z3 z4 (s := (D : ℝ) / 2) ?_ c2 (by linarith)
      rw [py]; have := half t0 ht k2
      convert this using 2; ring
  · rcases not_within hv with h | h
    · refine coord_far h z1 z2 (s := (D : ℝ) / 2) ?_ c1 (by linarith)
      rw [px]; have := half (s := 1 - t) (a := (u.1 : ℝ) - v.1) (by linarith) (by linarith) (by rw [abs_sub_comm]; exact k1)
      convert this using 2; ring
    · refine coord_far h z3 z4 (s := (D : ℝ) / 2) ?_ c2 (by linarith)
      rw [py]; have := half (s := 1 - t) (a := (u.2 : ℝ) - v.2) (by linarith) (by linarith) (by rw [abs_sub_comm]; exact k2)
      convert this using 2; ring

/-- The obstacle is on the same side of both ends of the step. -/
theorem same_side {d u v o : Int} {t p z r : ℝ} (h : (o ≤ u - d - 1 ∧ o ≤ v - d - 1) ∨ (u + d + 1 ≤ o ∧ v + d + 1 ≤ o))
    (t0 : 0 ≤ t) (t1 : t ≤ 1) (hp : p = (u : ℝ) + 1 / 2 + t * (v - u)) (hz1 : (o : ℝ) ≤ z) (hz2 : z < o + 1) (hzp : |z - p| ≤ r)
    (hr : r < d + 1 / 2) : False := by
  obtain ⟨b1, b2⟩ := abs_le.1 hzp
  rcases h with ⟨h1, h2⟩ | ⟨h1, h2⟩
  · have e1 : (o : ℝ) ≤ u - d - 1 := by exact_mod_cast h1
    have e2 : (o : ℝ) ≤ v - d - 1 := by exact_mod_cast h2
    nlinarith
  · have e1 : (u : ℝ) + d + 1 ≤ o := by exact_mod_cast h1
    have e2 : (v : ℝ) + d + 1 ≤ o := by exact_mod_cast h2
    nlinarith

theorem corner_far {d r a b : ℝ} (hd : 0 ≤ d) (hr : r ^ 2 < 2 * d ^ 2) (h : a ^ 2 + b ^ 2 ≤ r ^ 2) (hab : 2 * d ≤ a + b) : False := by
  nlinarith [sq_nonneg (a - b)]

/-- **A straight step of width 1.** -/
theorem straight_step_clear {d : Int} {r : ℝ} (hd : 0 ≤ d) (hr0 : 0 ≤ r) (hr : r < d + 1 / 2) {u v o : Int × Int} {p : P2}
    (ha : Adj4 1 u v) (hu : ¬ CellsWithin d o u) (hv : ¬ CellsWithin d o v)
    (hp : OnStep (cellCentre u) (cellCentre v) p) : ¬ DiscMeets r p o := by
  rintro ⟨z, ⟨z1, z2, z3, z4⟩, hz⟩
  obtain ⟨c1, c2⟩ := disc_coord hr0 hz
  obtain ⟨t, t0, t1, px, py⟩ := hp
  simp only [cellCentre] at px py
  have px' : p.x = (u.1 : ℝ) + 1 / 2 + t * (v.1 - u.1) := by rw [px]; ring
  have py' : p.y = (u.2 : ℝ) + 1 / 2 + t * (v.2 - u.2) := by rw [py]; ring
  have hu' := not_within hu
  have hv' := not_within hv
  have key : ((o.1 ≤ u.1 - d - 1 ∧ o.1 ≤ v.1 - d - 1) ∨ (u.1 + d + 1 ≤ o.1 ∧ v.1 + d + 1 ≤ o.1)) ∨
      ((o.2 ≤ u.2 - d - 1 ∧ o.2 ≤ v.2 - d - 1) ∨ (u.2 + d + 1 ≤ o.2 ∧ v.2 + d + 1 ≤ o.2)) := by
    rcases ha with ⟨h1, h2⟩ | ⟨h2, h1⟩ <;> rcases (abs_eq (by norm_num)).1 h1 with h1 | h1 <;> omega
  rcases key with h | h
  · exact same_side h t0 t1 px' z1 z2 c1 hr
  · exact same_side h t0 t1 py' z3 z4 c2 hr

/-- **A step to one of the eight neighbours**: a diagonal step cuts the corner of the grown obstacle. -/
theorem king_step_clear {d : Int} {r : ℝ} (hd : 0 ≤ d) (hr0 : 0 ≤ r) (hr : r < d + 1 / 2) (hr2 : r ^ 2 < 2 * (d : ℝ) ^ 2)
    {u v o : Int × Int} {p : P2} (ha : |v.1 - u.1| ≤ 1 ∧ |v.2 - u.2| ≤ 1) (hu : ¬ CellsWithin d o u) (hv : ¬ CellsWithin d o v)
    (hp : OnStep (cellCentre u) (cellCentre v) p) : ¬ DiscMeets r p o := by
  rintro ⟨z, ⟨z1, z2, z3, z4⟩, hz⟩
  obtain ⟨c1, c2⟩ := disc_coord hr0 hz
  obtain ⟨t, t0, t1, px, py⟩ := hp
  simp only [cellCentre] at px py
  have px' : p.x = (u.1 : ℝ) + 1 / 2 + t * (v.1 - u.1) := by rw [px]; ring
  have py' : p.y = (u.2 : ℝ) + 1 / 2 + t * (v.2 - u.2) := by rw [py]; ring
  have hd' : (0 : ℝ) ≤ d := by exact_mod_cast hd
  by_cases hx : (o.1 ≤ u.1 - d - 1 ∧ o.1 ≤ v.1 - d - 1) ∨ (u.1 + d + 1 ≤ o.1 ∧ v.1 + d + 1 ≤ o.1)
  · exact same_side hx t0 t1 px' z1 z2 c1 hr
  by_cases hy : (o.2 ≤ u.2 - d - 1 ∧ o.2 ≤ v.2 - d - 1) ∨ (u.2 + d + 1 ≤ o.2 ∧ v.2 + d + 1 ≤ o.2)
  · exact same_side hy t0 t1 py' z3 z4 c2 hr
  have hu' := not_within hu
  have hv' := not_within hv
  obtain ⟨a1, a2⟩ := abs_le.1 ha.1
  obtain ⟨b1, b2⟩ := abs_le.1 ha.2
  -- the step is diagonal, and the obstacle is beside it: four directions, two sides
  have key : (v.1 = u.1 + 1 ∨ v.1 = u.1 - 1) ∧ (v.2 = u.2 + 1 ∨ v.2 = u.2 - 1) := by omega
  have side : ∀ {a b : ℝ}, a ^ 2 + b ^ 2 ≤ r ^ 2 → ¬ (2 * (d : ℝ) ≤ a + b) := fun h h2 => corner_far hd' hr2 h h2
  have s1 := side hz
  have s2 := side (a := -(z.x - p.x)) (b := z.y - p.y) (by rw [neg_sq]; exact hz)
  have s3 := side (a := z.x - p.x) (b := -(z.y - p.y)) (by rw [neg_sq]; exact hz)
  have s4 := side (a := -(z.x - p.x)) (b := -(z.y - p.y)) (by rw [neg_sq, neg_sq]; exact hz)
  have fin : ∀ {x y : Int}, o.1 = x → o.2 = y → (o.1 : ℝ) = x ∧ (o.2 : ℝ) = y := by
    rintro _ _ rfl rfl; exact ⟨rfl, rfl⟩
  rcases key with ⟨hx1 | hx1, hy1 | hy1⟩ <;> rw [hx1] at px' hx hv' <;> rw [hy1] at py' hy hv' <;> push_cast at px' py'
  · have : (o.1 = u.1 + 1 + d ∧ o.2 = u.2 - d) ∨ (o.1 = u.1 - d ∧ o.2 = u.2 + 1 + d) := by omega
    rcases this with ⟨e1, e2⟩ | ⟨e1, e2⟩ <;> obtain ⟨f1, f2⟩ := fin e1 e2 <;> push_cast at f1 f2
    · exact s3 (by linarith)
    · exact s2 (by linarith)
  · have : (o.1 = u.1 + 1 + d ∧ o.2 = u.2 + d) ∨ (o.1 = u.1 - d ∧ o.2 = u.2 - 1 - d) := by omega
    rcases this with ⟨e1, e2⟩ | ⟨e1, e2⟩ <;> obtain ⟨f1, f2⟩ := fin e1 e2 <;> push_cast at f1 f2
    · exact s1 (by linarith)
    · exact s4 (by linarith)
  · have : (o.1 = u.1 + d ∧ o.2 = u.2 + 1 + d) ∨ (o.1 = u.1 - 1 - d ∧ o.2 = u.2 - d) := by omega
    rcases this with ⟨e1, e2⟩ | ⟨e1, e2⟩ <;> obtain ⟨f1, f2⟩ := fin e1 e2 <;> push_cast at f1 f2
    · exact s1 (by linarith)
    · exact s4 (by linarith)
  · have : (o.1 = u.1 + d ∧ o.2 = u.2 - 1 - d) ∨ (o.1 = u.1 - 1 - d ∧ o.2 = u.2 + d) := by omega
    rcases this with ⟨e1, e2⟩ | ⟨e1, e2⟩ <;> obtain ⟨f1, f2⟩ := fin e1 e2 <;> push_cast at f1 f2
    · exact s3 (by linarith)
    · exact s2 (by linarith)

/-- The radius a disc may have on a map grown by `d`, for paths of the 8-neighbourhood. -/
theorem king_path_clear {d : Int} {r : ℝ} (hd : 0 ≤ d) (hr0 : 0 ≤ r) (hr : r < d + 1 / 2) (hr2 : r ^ 2 < 2 * (d : ℝ) ^ 2)
    {obstacle : Int × Int → Prop} {adj : Int × Int → Int × Int → Prop} (hadj : ∀ u v, adj u v → |v.1 - u.1| ≤ 1 ∧ |v.2 - u.2| ≤ 1)
    {l : List (Int × Int)} (hc : l.IsChain adj) (hf : ∀ c ∈ l, FarFrom d obstacle c) : DiscClear r obstacle l :=
  chain_clear (fun _ _ hc ho => centre_clear hr0 hr (hc _ ho))
    (fun u v _ _ ha hu hv hp ho => king_step_clear hd hr0 hr hr2 (hadj u v ha) (hu _ ho) (hv _ ho) hp) hc hf

/-- … for paths of the 4-neighbourhood. -/
theorem straight_path_clear {d : Int} {r : ℝ} (hd : 0 ≤ d) (hr0 : 0 ≤ r) (hr : r < d + 1 / 2)
    {obstacle : Int × Int → Prop} {l : List (Int × Int)} (hc : l.IsChain (Adj4 1)) (hf : ∀ c ∈ l, FarFrom d obstacle c) :
    DiscClear r obstacle l :=
  chain_clear (fun _ _ hc ho => centre_clear hr0 hr (hc _ ho))
    (fun _ _ _ _ ha hu hv hp ho => straight_step_clear hd hr0 hr ha (hu _ ho) (hv _ ho) hp) hc hf

/-- … for paths of steps of any width. -/
theorem wide_path_clear {d D : Int} {r : ℝ} (hD : 0 ≤ D) (hr0 : 0 ≤ r) (hr : r < d + (1 - D) / 2)
    {obstacle : Int × Int → Prop} {adj : Int × Int → Int × Int → Prop} (hadj : ∀ u v, adj u v → |v.1 - u.1| ≤ D ∧ |v.2 - u.2| ≤ D)
    {l : List (Int × Int)} (hc : l.IsChain adj) (hf : ∀ c ∈ l, FarFrom d obstacle c) : DiscClear r obstacle l := by
  have hD' : (0 : ℝ) ≤ D := by exact_mod_cast hD
  exact chain_clear (fun _ _ hc ho => centre_clear hr0 (by linarith) (hc _ ho))
    (fun u v _ _ ha hu hv hp ho => wide_step_clear hD hr0 hr (hadj u v ha) (hu _ ho) (hv _ ho) hp) hc hf

theorem adj4_within {D : Int} (hD : 0 ≤ D) {u v : Int × Int} (h : Adj4 D u v) : |v.1 - u.1| ≤ D ∧ |v.2 - u.2| ≤ D := by
  rcases h with ⟨h1, h2⟩ | ⟨h2, h1⟩
  · exact ⟨h1.le, by rw [h2]; simpa using hD⟩
  · exact ⟨by rw [h2]; simpa using hD, h1.le⟩

theorem adj8_within {D : Int} (hD : 0 ≤ D) {u v : Int × Int} (h : Adj8 D u v) : |v.1 - u.1| ≤ D ∧ |v.2 - u.2| ≤ D := by
  obtain ⟨_, h1, h2⟩ := h
  refine ⟨?_, ?_⟩
  · rcases h1 with h1 | h1
    · rw [h1]; simpa using hD
    · exact h1.le
  · rcases h2 with h2 | h2
    · rw [h2]; simpa using hD
    · exact h2.le

theorem fits_clear {adj : Int × Int → Int × Int → Prop} {d : Int} {r : ℝ} (h : Fits adj d r) {obstacle : Int × Int → Prop}
    {l : List (Int × Int)} (hc : l.IsChain adj) (hf : ∀ c ∈ l, FarFrom d obstacle c) : DiscClear r obstacle l := by
  obtain ⟨hd, hr0, ⟨rfl, hr⟩ | ⟨rfl, hr, hr2⟩ | ⟨D, hD, hadj, hr⟩⟩ := h
  · exact straight_path_clear hd hr0 hr hc hf
  · exact king_path_clear hd hr0 hr hr2 (fun _ _ => adj8_within (by norm_num)) hc hf
  · refine wide_path_clear hD hr0 hr ?_ hc hf
    rcases hadj with rfl | rfl
    · exact fun _ _ => adj4_within hD
    · exact fun _ _ => adj8_within hD

/-- **The bound of the diagonal is sharp**: a diagonal step past a corner of the grown obstacle touches the obstacle with every disc of radius
at least `√2 d`; without growing (`d = 0`) the path runs through the point where two obstacles meet. -/
theorem corner_touches {d : Int} {r : ℝ} (hr : 2 * (d : ℝ) ^ 2 ≤ r ^ 2) :
    ∃ u v o : Int × Int, Adj8 1 u v ∧ ¬ CellsWithin d o u ∧ ¬ CellsWithin d o v ∧
      ∃ p, OnStep (cellCentre u) (cellCentre v) p ∧ DiscMeets r p o := by
  refine ⟨(0, 0), (1, -1), (d + 1, d), ⟨by decide, .inr rfl, .inr rfl⟩, ?_, ?_, ⟨1, 0⟩, ⟨1 / 2, by norm_num, by norm_num, ?_, ?_⟩,
    ⟨(d : ℝ) + 1, d⟩, ?_, ?_⟩
  · rintro ⟨h, _⟩
    simp only [sub_zero] at h
    have := (abs_le.1 h).2; omega
  · rintro ⟨_, h⟩
    have := (abs_le.1 h).2; simp only at this; omega
  · simp [cellCentre]; norm_num
  · simp [cellCentre]
  · simp [PtInCell]
  · simp only [add_sub_cancel_right, sub_zero]; linarith

/-- **The bound of the straight step is sharp.** -/
theorem straight_touches {d : Int} {r : ℝ} (hd : 0 ≤ d) (hr : (d : ℝ) + 1 / 2 ≤ r) :
    ∃ u v o : Int × Int, Adj4 1 u v ∧ ¬ CellsWithin d o u ∧ ¬ CellsWithin d o v ∧
      ∃ p, OnStep (cellCentre u) (cellCentre v) p ∧ DiscMeets r p o := by
  have hd' : (0 : ℝ) ≤ d := by exact_mod_cast hd
  refine ⟨(0, 0), (1, 0), (0, d + 1), .inl ⟨rfl, rfl⟩, ?_, ?_, ⟨1 / 2, 1 / 2⟩, ⟨0, le_refl _, by norm_num, ?_, ?_⟩,
    ⟨1 / 2, (d : ℝ) + 1⟩, ?_, ?_⟩
  · rintro ⟨_, h⟩
    have := (abs_le.1 h).2; simp only at this; omega
  · rintro ⟨_, h⟩
    have := (abs_le.1 h).2; simp only at this; omega
  · simp [cellCentre]
  · simp [cellCentre]
  · simp [PtInCell]; norm_num
  · simp only [sub_self]; nlinarith

/-- **Wide steps jump over obstacles**: a step of width `D ≥ 2 d + 2` can run through the middle of an obstacle cell. -/
theorem wide_touches {d D : Int} (hd : 0 ≤ d) (hD : 2 * d + 2 ≤ D) :
    ∃ u v o : Int × Int, Adj4 D u v ∧ ¬ CellsWithin d o u ∧ ¬ CellsWithin d o v ∧
      OnStep (cellCentre u) (cellCentre v) (cellCentre o) := by
  have hD0 : (0 : ℝ) < D := by exact_mod_cast (by omega : (0 : Int) < D)
  have hDd : (d : ℝ) + 1 ≤ D := by exact_mod_cast (by omega : d + 1 ≤ D)
  have hd' : (0 : ℝ) ≤ d := by exact_mod_cast hd
  refine ⟨(0, 0), (D, 0), (d + 1, 0), .inl ⟨?_, rfl⟩, ?_, ?_, ((d : ℝ) + 1) / D, by positivity, ?_, ?_, ?_⟩
  · simp only [sub_zero]; exact abs_of_nonneg (by omega)
  · rintro ⟨h, _⟩
    have := (abs_le.1 h).2; simp only at this; omega
  · rintro ⟨h, _⟩
    have := (abs_le.1 h).1; simp only at this; omega
  · rw [div_le_one hD0]; exact hDd
  · simp only [cellCentre]; push_cast; field_simp; ring
  · simp [cellCentre]

/-! ## The generic search -/

section
variable {K : Type} [LinearOrder K] [Zero K] [Add K] [Mul K] {w h : Nat} {free : GNode w h → Bool} {res : K} {dirs : List (Dir K)} {D : Int}
  {heur dist : GNode w h → GNode w h → K} {adj : Int × Int → Int × Int → Prop}

/-- Every obstacle was grown by `d` cells before the search: no cell of the map within `d` of an obstacle is free. -/
def Grown (free : GNode w h → Bool) (d : Int) (obstacle : Int × Int → Prop) : Prop :=
  ∀ o (n : GNode w h), obstacle o → CellsWithin d o n.cell → free n = false

/-- The directions are steps of the neighbourhood. -/
def StepsOf (dirs : List (Dir K)) (adj : Int × Int → Int × Int → Prop) : Prop :=
  ∀ dr ∈ dirs, ∀ u v : Int × Int, v.1 = u.1 + dr.dx → v.2 = u.2 + dr.dy → adj u v

omit [LinearOrder K] in
theorem walk_far (hd : StepsOf dirs adj) {d : Int} {obstacle : Int × Int → Prop} (hg : Grown free d obstacle) {start : List (GNode w h)}
    (hs : ∀ s ∈ start, FarFrom d obstacle s.cell) {n : GNode w h} {l : List (GNode w h)} {c : K}
    (hw : WalkTo (gridAlgo free res dirs D heur dist) start n l c) :
    (l.map GNode.cell).IsChain adj ∧ (∀ c ∈ l.map GNode.cell, FarFrom d obstacle c) ∧ (l.map GNode.cell).getLast? = some n.cell := by
  induction hw with
  | start h => exact ⟨by simp, by simpa using hs _ h, rfl⟩
  | @step u v l d' c hw he ih =>
    obtain ⟨i1, i2, i3⟩ := ih
    obtain ⟨hf, dr, hdr, e1, e2, -⟩ := mem_gridSucc.1 he
    have ha : adj u.cell v.cell := hd dr hdr _ _ e1 e2
    have hv : FarFrom d obstacle v.cell := by
      intro o ho hc
      rw [hg o v ho hc] at hf; cases hf
    rw [List.map_append]
    refine ⟨?_, ?_, by simp⟩
    · rw [List.isChain_append]
      refine ⟨i1, by simp, ?_⟩
      intro x hx y hy
      rw [i3] at hx
      simp only [Option.mem_def, Option.some.injEq] at hx
      simp only [List.map_cons, List.map_nil, List.head?_cons, Option.mem_def, Option.some.injEq] at hy
      rw [← hx, ← hy]; exact ha
    · intro c hc
      rcases List.mem_append.1 hc with hc | hc
      · exact i2 c hc
      · simp only [List.map_cons, List.map_nil, List.mem_singleton] at hc
        rw [hc]; exact hv

/-- **C108 (generic search).**  On a map on which every obstacle was grown by `d` cells, every path a search returns — the first one or a
later one on the same object, with any open list, heuristic, candidate option, time limit and arithmetic of costs — can be followed by a disc
of the radius the neighbourhood leaves, provided it fits at the start cells (which the search does not test). -/
theorem grid_search_clear (ok : CostOk (gridAlgo free res dirs D heur dist)) {P : OpenList (GNode w h) K} (L : Lawful P)
    (hd : StepsOf dirs adj) {d : Int} {r : ℝ} (hfit : Fits adj d r) {obstacle : Int × Int → Prop} (hg : Grown free d obstacle)
    {S : List (GNode w h)} {lab : Labels (GNode w h) K} (hu : Used (gridAlgo free res dirs D heur dist) P S lab)
    (cfg : SCfg (GNode w h) K) (ht : TopOk cfg.top) (hx : ∀ k n g, cfg.canExpand k n g = none)
    (hs : ∀ s ∈ cfg.start, FarFrom d obstacle s.cell) :
    ∃ fuel p st', findPathNodes (gridAlgo free res dirs D heur dist) P cfg lab fuel = some (.ok p, st') ∧
      DiscClear r obstacle (p.map GNode.cell) ∧ (p ≠ [] → ∃ s ∈ cfg.start, p.head? = some s) := by
  obtain ⟨fuel, p, st', h1, h2, -⟩ := later_search_sound ok L hu cfg ht
    ⟨fun k s g _ => hx k s g, fun k n g e he => by rw [hx] at he; cases he⟩
  refine ⟨fuel, p, st', h1, ?_, ?_⟩
  · rcases h2 with rfl | ⟨t, l, c, hw, ⟨rfl, -⟩ | ⟨g, -, k, e, he, -⟩⟩
    · exact fits_clear hfit (by simp) (by simp)
    · obtain ⟨i1, i2, -⟩ := walk_far hd hg hs hw.walk
      exact fits_clear hfit i1 i2
    · rw [hx] at he; cases he
  · intro hp
    rcases h2 with rfl | ⟨t, l, c, hw, ⟨rfl, -⟩ | ⟨g, -, k, e, he, -⟩⟩
    · exact absurd rfl hp
    · clear h1 hp
      induction hw with
      | @start s h => exact ⟨s, h, rfl⟩
      | @step u v l d c hw he hlt ih =>
        obtain ⟨s, hs, e⟩ := ih
        refine ⟨s, hs, ?_⟩
        rw [List.head?_append, e]; rfl
    · rw [hx] at he; cases he

end

/-- The directions of the code. -/
theorem steps4 {D : Int} (hD : 0 ≤ D) : StepsOf (dirs4 (K := ℝ) D) (Adj4 D) := fun dr h u v e1 e2 =>
  ((dirs4_exact hD u v dr.delta).1 ⟨dr, h, e1, e2, rfl⟩).1

theorem steps8 {D : Int} (hD : 0 < D) : StepsOf (dirs8 (Real.sqrt 2) D) (Adj8 D) := fun dr h u v e1 e2 =>
  ((dirs8_exact hD u v dr.delta).1 ⟨dr, h, e1, e2, rfl⟩).1

theorem stepsF {F : Fmt} {dirs : List (Dir F.D)} {adj : Int × Int → Int × Int → Prop} {k : ℕ} (h : DirsNear F dirs adj k) :
    StepsOf dirs adj := fun dr hd u v e1 e2 => (h.sound u v dr hd e1 e2).1

/-- Not growing the obstacles at all leaves a point robot nothing with the 8-neighbourhood and everything below half a cell with the
4-neighbourhood. -/
theorem fits_zero {r : ℝ} : ¬ Fits (Adj8 1) 0 r ∧ (Fits (Adj4 1) 0 r ↔ 0 ≤ r ∧ r < 1 / 2) := by
  have h41 : ¬ Adj4 1 (0, 0) (1, 1) := by unfold Adj4; decide
  have h81 : Adj8 1 (0, 0) (1, 1) := by unfold Adj8; decide
  refine ⟨?_, ?_, ?_⟩
  · rintro ⟨-, h0, ⟨h, -⟩ | ⟨-, -, h⟩ | ⟨D, hD, h, hr⟩⟩
    · rw [h] at h81; exact h41 h81
    · norm_num at h; nlinarith [sq_nonneg r]
    · have hD2 : D < 1 := by
        have : (D : ℝ) < 1 := by push_cast at hr; linarith
        exact_mod_cast this
      have : D = 0 := by omega
      subst this
      rcases h with h | h
      · rw [h] at h81; revert h81; unfold Adj4; decide
      · rw [h] at h81; revert h81; unfold Adj8; decide
  · rintro ⟨-, h0, ⟨-, h⟩ | ⟨h, -⟩ | ⟨D, hD, h, hr⟩⟩
    · exact ⟨h0, by push_cast at h; linarith⟩
    · rw [h] at h41; exact absurd h81 h41
    · have : (0 : ℝ) ≤ D := by exact_mod_cast hD
      exact ⟨h0, by push_cast at hr; linarith⟩
  · rintro ⟨h0, h1⟩
    exact ⟨le_refl _, h0, .inl ⟨rfl, by push_cast; linarith⟩⟩

/-! ## The legacy A* search and the distance transform -/

/-- **C108 (legacy A*).**  All cells of the stored route but the goal cell are free, so a disc that also fits at the goal can follow it. -/
theorem legacy_clear {F K : Type} [LinearOrder F] [Field K] [LinearOrder K] [IsStrictOrderedRing K] [FloorRing K] {A : Legacy.Arith F} {m : GridMap K} {o : Legacy.OL F}
    (hA : Legacy.AStarObj A m o) (start goal : Int × Int) {fuel : Nat} (hf : m.width * m.height < fuel) (pl : Legacy.Plan F)
    (hr : Legacy.planPath A m fuel o start goal = .ok (some pl)) {d : Int} {r : ℝ} (hd : 0 ≤ d) (hr0 : 0 ≤ r) (hr1 : r < d + 1 / 2)
    (hr2 : r ^ 2 < 2 * (d : ℝ) ^ 2) {obstacle : Int × Int → Prop}
    (hgrown : ∀ ob c, obstacle ob → CellsWithin d ob c → ¬ Legacy.FreeCell m c) (hgoal : FarFrom d obstacle goal) :
    DiscClear r obstacle pl.path := by
  obtain ⟨h1, h2⟩ := Legacy.planPath_valid hA start goal hf pl hr
  cases hfd : pl.found with
  | false =>
    rw [h2 hfd]
    exact king_path_clear hd hr0 hr1 hr2 (adj := EightAdjacent) (fun _ _ h => h.2) (by simp) (by simp)
  | true =>
    obtain ⟨hroute, -, -⟩ := h1 hfd
    refine king_path_clear hd hr0 hr1 hr2 (fun _ _ h => h.2) hroute.steps ?_
    intro c hc
    have hne : pl.path ≠ [] := List.ne_nil_of_mem hc
    rw [← List.dropLast_append_getLast hne] at hc
    rcases List.mem_append.1 hc with hc | hc
    · exact fun ob hob hw => hgrown ob c hob hw (hroute.free c hc)
    · simp only [List.mem_singleton] at hc
      have := hroute.last
      rw [List.getLast?_eq_some_getLast hne, Option.some.injEq] at this
      rw [hc, this]; exact hgoal

/-- **C108 (distance transform).** -/
theorem dt_clear {w h : Nat} {occ : Int × Int → Bool} {goal : Int × Int} (hg : DT.InArr w h goal) {fuel : Nat} {c : DT.Costs}
    (hl : DT.loop w h fuel (DT.init occ goal) = some c) {start : Int × Int} {x : ℝ} (hx : c start = DT.fin x) {n : Nat}
    {p : List (Int × Int)} (hp : DT.backtrack w h DT.nb8 c goal n start = some p) {d : Int} {r : ℝ} (hd : 0 ≤ d) (hr0 : 0 ≤ r)
    (hr1 : r < d + 1 / 2) (hr2 : r ^ 2 < 2 * (d : ℝ) ^ 2) {obstacle : Int × Int → Prop}
    (hgrown : ∀ ob c, obstacle ob → CellsWithin d ob c → occ c = true) (hgoal : FarFrom d obstacle goal) :
    DiscClear r obstacle p := by
  obtain ⟨-, -, h3, h4, -⟩ := DT.dt_path hg hl hx hp
  refine king_path_clear hd hr0 hr1 hr2 (adj := Touch) (fun u v h => ⟨?_, ?_⟩) h4 ?_
  · rw [abs_sub_comm]; exact h.2.1
  · rw [abs_sub_comm]; exact h.2.2
  · intro v hv
    rcases h3 v hv with rfl | ⟨-, h⟩
    · exact hgoal
    · intro ob hob hw
      rw [hgrown ob v hob hw] at h; cases h

end PathPlanning
