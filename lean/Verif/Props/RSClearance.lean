import Verif.Lemmas.Clearance
import Verif.Props.RSBox
import Verif.Props.RSMotionClear
import Verif.Props.RSFind
import Verif.Props.RSWeight

/-!
# C100: how near the tested cells an accepted curve stays

`find_path` tests cells of a digital line between the truncated end points of a straight, and cells of a
digital circle of truncated radius about the truncated centre of a turn.  The curve itself runs through
other cells.  How far away can they be?
-/

noncomputable section

namespace PathPlanning.RS
open Spec

theorem ptInCell_eq {p : P2} {c : Int × Int} (h : PtInCell p c) : c = (⌊p.x⌋, ⌊p.y⌋) := by
  obtain ⟨h1, h2, h3, h4⟩ := h
  ext
  · exact (Int.floor_eq_iff.2 ⟨h1, h2⟩).symm
  · exact (Int.floor_eq_iff.2 ⟨h3, h4⟩).symm

/-! ### One segment -/

theorem onTrack_point {E : RSEnv} {q : Pose} {l : Lin} (h : OnTrack E q (.line l)) {s : ℝ} (h0 : 0 ≤ s)
    (h1 : s ≤ amountOf (.line l)) : ∃ t : ℝ, 0 ≤ t ∧ t ≤ 1 ∧
      (drive E.radius q (elemOf (.line l)) s).x = l.start.x + t * (l.stop.x - l.start.x) ∧
      (drive E.radius q (elemOf (.line l)) s).y = l.start.y + t * (l.stop.y - l.start.y) := by
  obtain ⟨a1, a2, a3, a4, _⟩ := h
  simp only [amountOf] at h1
  set L := eucl l.start.pt l.stop.pt with hL
  have hL0 : 0 ≤ L := Real.sqrt_nonneg _
  simp only [elemOf, Spec.drive]
  rcases hL0.lt_or_eq with hp | hz
  · refine ⟨s / L, by positivity, by rw [div_le_one hp]; exact h1, ?_, ?_⟩
    · rw [a3, a1]; field_simp
    · rw [a4, a2]; field_simp
  · have : s = 0 := by linarith
    subst this
    exact ⟨0, le_refl _, zero_le_one, by rw [a1]; ring, by rw [a2]; ring⟩

theorem mix_gt {a b t m : ℝ} (h0 : 0 ≤ t) (h1 : t ≤ 1) (ha : m < a) (hb : m < b) :
    m < a + t * (b - a) := by
  rcases h0.lt_or_eq with h | h
  · nlinarith
  · rw [← h]; linarith

/-- A straight that passed the test: every point of it lies in a cell at most two rows and columns away
from a tested cell; one if its end points have no negative coordinates. -/
theorem line_near {E : RSEnv} {m : MapIf} {q : Pose} {l : Lin} (ht : OnTrack E q (.line l))
    (hc : SegClear m (.line l)) {s : ℝ} (h0 : 0 ≤ s) (h1 : s ≤ amountOf (.line l)) (c : Int × Int)
    (hin : PtInCell (drive E.radius q (elemOf (.line l)) s).pt c) :
    ∃ c', InBox (truncC l.start.x, truncC l.start.y) (truncC l.stop.x, truncC l.stop.y) c' ∧
      (m.inMap c'.1 c'.2 = true → m.free c'.1 c'.2 = true) ∧ CellsWithin 2 c c' ∧
      (0 ≤ l.start.x → 0 ≤ l.start.y → 0 ≤ l.stop.x → 0 ≤ l.stop.y → CellsWithin 1 c c') := by
  obtain ⟨_, cells, hd, hfree⟩ := hc
  obtain ⟨t, t0, t1, ex, ey⟩ := onTrack_point ht h0 h1
  obtain ⟨c', hm, b1, b2⟩ := Clear.line_cover hd t t0 t1
  have hcell := ptInCell_eq hin
  simp only [Pose.pt] at hcell
  rw [ex, ey] at hcell
  refine ⟨c', hd.box c' hm, hfree c' hm, ?_, ?_⟩
  · have key : ∀ a b : ℝ, ∀ n : Int, abs (((truncC a : Int) : ℝ) + t * ((truncC b : Int) - (truncC a : Int)) - n) ≤ 1 →
        |⌊a + t * (b - a)⌋ - n| ≤ 2 := by
      intro a b n hn
      obtain ⟨n1, n2⟩ := abs_le.1 hn
      obtain ⟨a1, a2⟩ := truncC_near a
      obtain ⟨q1, q2⟩ := truncC_near b
      have u1 := mix_gt t0 t1 (a := a - truncC a) (b := b - truncC b) (m := -1) (by linarith) (by linarith)
      have u2 := mix_gt t0 t1 (a := truncC a - a) (b := truncC b - b) (m := -1) (by linarith) (by linarith)
      refine Clear.floor_near ?_ ?_ <;> push_cast <;> nlinarith
    rw [hcell]
    exact ⟨key _ _ _ b1, key _ _ _ b2⟩
  · intro p1 p2 p3 p4
    have key : ∀ a b : ℝ, 0 ≤ a → 0 ≤ b → ∀ n : Int, abs (((truncC a : Int) : ℝ) + t * ((truncC b : Int) - (truncC a : Int)) - n) ≤ 1 →
        |⌊a + t * (b - a)⌋ - n| ≤ 1 := by
      intro a b ha hb n hn
      rw [truncC_nonneg ha, truncC_nonneg hb] at hn
      obtain ⟨n1, n2⟩ := abs_le.1 hn
      have a1 := Int.floor_le a
      have a2 := Int.lt_floor_add_one a
      have q1 := Int.floor_le b
      have q2 := Int.lt_floor_add_one b
      have u2 := mix_gt t0 t1 (a := ⌊a⌋ - a) (b := ⌊b⌋ - b) (m := -1) (by linarith) (by linarith)
      have u1 : 0 ≤ (a - ⌊a⌋) + t * ((b - ⌊b⌋) - (a - ⌊a⌋)) := by nlinarith
      refine Clear.floor_near ?_ ?_ <;> push_cast <;> nlinarith
    rw [hcell]
    exact ⟨key _ _ p1 p3 _ b1, key _ _ p2 p4 _ b2⟩

/-- A turn that passed the test: a point of it, more than `π/(R-1)` of turning away from both ends (`R`
the radius in whole cells), lies in a cell at most two rows and columns away from a cell of the map that
was tested free. -/
theorem circ_near {E : RSEnv} (hE : E.Sane) {m : MapIf}
    (hpos : ∀ x y, m.inMap x y = true → 0 ≤ x ∧ 0 ≤ y) {q : Pose} {k : Circ}
    (ht : OnTrack E q (.circ k)) (hc : SegClear m (.circ k)) (hR : 2 ≤ ⌊E.radius⌋) {s : ℝ}
    (h0 : Real.pi / (⌊E.radius⌋ - 1) ≤ s)
    (h1 : s ≤ amountOf (.circ k) - Real.pi / (⌊E.radius⌋ - 1)) (c : Int × Int)
    (hin : PtInCell (drive E.radius q (elemOf (.circ k)) s).pt c) :
    ∃ c' : Int × Int, m.inMap c'.1 c'.2 = true ∧ m.free c'.1 c'.2 = true ∧ CellsWithin 2 c c' := by
  obtain ⟨hr, hfit, hq⟩ := ht
  simp only [SegClear] at hc
  have hrad : (1 : ℝ) ≤ E.radius := hE.radius
  have hRad : truncC k.radius = ⌊E.radius⌋ := by rw [hr]; exact truncC_nonneg (by linarith)
  rw [hRad] at hc
  set R := ⌊E.radius⌋ with hRdef
  have hR' : (2 : ℝ) ≤ R := by exact_mod_cast hR
  have hRpos : (0 : ℝ) < R - 1 := by linarith
  have hpi := Real.pi_pos
  -- the centre has no negative coordinates
  have left := hc (truncC k.center.x - R) (truncC k.center.y) (by
    unfold RingCell
    simp only [sub_self, abs_zero]
    rw [show truncC k.center.x - R - truncC k.center.x = -R by ring, abs_neg, abs_of_nonneg (by omega : 0 ≤ R),
      max_eq_left (by omega), min_eq_right (by omega)]
    constructor <;> nlinarith)
  have below := hc (truncC k.center.x) (truncC k.center.y - R) (by
    unfold RingCell
    simp only [sub_self, abs_zero]
    rw [show truncC k.center.y - R - truncC k.center.y = -R by ring, abs_neg, abs_of_nonneg (by omega : 0 ≤ R),
      max_eq_right (by omega), min_eq_left (by omega)]
    constructor <;> nlinarith)
  have cx0 : 1 ≤ truncC k.center.x := by have := (hpos _ _ left.1).1; omega
  have cy0 : 1 ≤ truncC k.center.y := by have := (hpos _ _ below.1).2; omega
  have cx : 0 ≤ k.center.x := by
    by_contra hlt; push Not at hlt
    have := truncC_near k.center.x
    have h3 : (1 : ℝ) ≤ truncC k.center.x := by exact_mod_cast cx0
    linarith [this.2]
  have cy : 0 ≤ k.center.y := by
    by_contra hlt; push Not at hlt
    have := truncC_near k.center.y
    have h3 : (1 : ℝ) ≤ truncC k.center.y := by exact_mod_cast cy0
    linarith [this.2]
  -- the point
  have hP := hq.drive E.radius (elemOf (.circ k)) s
  have e2 : drive E.radius (k.confAt k.aStart) (elemOf (.circ k)) s =
      k.confAt (k.aStart + oriSign k.ori * dirSign k.dir * s) := by
    rw [← hr]; exact k.drive_confAt _ _
  rw [e2] at hP
  set σ : ℝ := oriSign k.ori * dirSign k.dir with hσ
  have hσ1 : σ = 1 ∨ σ = -1 := by
    rw [hσ]; cases k.ori <;> cases k.dir <;> norm_num [oriSign, dirSign]
  set φ := k.aStart + σ * s with hφ
  obtain ⟨px, py, _⟩ := hP
  have hcell := ptInCell_eq hin
  simp only [Pose.pt] at hcell
  rw [px, py] at hcell
  simp only [Circ.confAt] at hcell
  obtain ⟨u, v, hring, hdot, hX, hco⟩ := Clear.ring_cover (R := R) (by omega) φ
  obtain ⟨⟨x1, x2⟩, ⟨y1, y2⟩⟩ := hco E.radius (k.center.x - ⌊k.center.x⌋) (k.center.y - ⌊k.center.y⌋)
    (Int.floor_le _) (Int.lt_floor_add_one _) (by linarith [Int.floor_le k.center.x])
    (by linarith [Int.lt_floor_add_one k.center.x]) (by linarith [Int.floor_le k.center.y])
    (by linarith [Int.lt_floor_add_one k.center.y])
  have tx : truncC k.center.x = ⌊k.center.x⌋ := truncC_nonneg cx
  have ty : truncC k.center.y = ⌊k.center.y⌋ := truncC_nonneg cy
  have rc := hring (truncC k.center.x, truncC k.center.y)
  obtain ⟨hmap, hfree⟩ := hc _ _ rc
  refine ⟨(truncC k.center.x + u, truncC k.center.y + v), hmap, hfree ?_, ?_⟩
  · -- the arc passes over the cell
    obtain ⟨Δ, ρ, hρ, hρ2, eu, ev, hΔ⟩ := Clear.turn_to u v φ hdot
    have hacc := (ringCell_accurate (by omega) rc).1
    simp only [add_sub_cancel_left] at hacc
    have hρR : (R : ℝ) - 1 < ρ := by
      by_contra hle; push Not at hle
      have h5 : ρ ^ 2 ≤ ((R : ℝ) - 1) ^ 2 := pow_le_pow_left₀ hρ.le hle 2
      have h6 : ((R : ℝ) - 1) ^ 2 < (u : ℝ) ^ 2 + (v : ℝ) ^ 2 := by exact_mod_cast hacc
      linarith
    have hΔR : |Δ| ≤ Real.pi / (R - 1) := by
      rw [le_div_iff₀ hRpos]
      have h7 : |Δ| * (R - 1) ≤ |Δ| * ρ := mul_le_mul_of_nonneg_left hρR.le (abs_nonneg _)
      have h8 : Real.pi / 2 * |(v : ℝ) * Real.cos φ - u * Real.sin φ| ≤ Real.pi / 2 * 2 :=
        mul_le_mul_of_nonneg_left hX.le (by positivity)
      linarith
    obtain ⟨d1, d2⟩ := abs_le.1 hΔR
    simp only [amountOf] at h1
    have hδ : 0 < Real.pi / ((R : ℝ) - 1) := by positivity
    have harc0 : 0 < |k.arc| := by linarith
    have harc : k.arc = σ * |k.arc| := by
      rw [hfit.1]; exact (computeArc_signed hE.clamp k).1
    have hσΔ : |σ * Δ| ≤ Real.pi / (R - 1) := by
      rcases hσ1 with h | h <;> rw [h] <;> simpa using hΔR
    obtain ⟨d3, d4⟩ := abs_le.1 hσΔ
    refine ⟨(s + σ * Δ) / |k.arc|, div_nonneg (by linarith) harc0.le, ?_, ρ, hρ, ?_⟩
    · rw [div_le_one harc0]; linarith
    have e3 : k.aStart + (s + σ * Δ) / |k.arc| * k.arc = φ + Δ := by
      have : (s + σ * Δ) / |k.arc| * k.arc = σ * (s + σ * Δ) := by
        conv_lhs => rw [harc]
        rw [abs_mul, abs_abs]
        have : |σ| = 1 := by rcases hσ1 with h | h <;> rw [h] <;> simp
        rw [this]
        field_simp
      rw [this, hφ]
      have : σ * σ = 1 := by rcases hσ1 with h | h <;> rw [h] <;> norm_num
      linear_combination Δ * this
    rw [e3]
    simp only [add_sub_cancel_left]
    exact ⟨eu, ev⟩
  · rw [hcell, hr]
    constructor
    · refine Clear.floor_near ?_ ?_ <;> rw [tx] <;> push_cast <;> linarith
    · refine Clear.floor_near ?_ ?_ <;> rw [ty] <;> push_cast <;> linarith

/-! ### The curve found -/

theorem Track.at {E : RSEnv} {goal : Pose} (l1 : List Seg) (s : Seg) (l2 : List Seg) : ∀ {q : Pose},
    Track E q (l1 ++ s :: l2) goal →
      OnTrack E (driveAll E.radius q (l1.map fun s => (elemOf s, amountOf s))) s := by
  induction l1 with
  | nil => intro q h; exact h.1
  | cons a l ih => intro q h; exact ih h.2

theorem motion_split {k : Curve} {pre post : List (Elem × ℝ)} {x : Elem × ℝ}
    (h : motion k = pre ++ x :: post) : ∃ l1 s l2, k.seq = l1 ++ s :: l2 ∧
      pre = l1.map (fun s => (elemOf s, amountOf s)) ∧ x = (elemOf s, amountOf s) := by
  unfold motion at h
  obtain ⟨l1, l', e, h1, h2⟩ := List.map_eq_append_iff.1 h
  obtain ⟨s, l2, e', h3, h4⟩ := List.map_eq_cons_iff.1 h2
  exact ⟨l1, s, l2, by rw [e, e'], h1.symm, h3.symm⟩

section
variable (g g' : Gen) (clamp : ℝ → ℝ) (start goal : Pose) (map : MapIf)
  (hE : (g.env clamp map false).Sane) (halt : ∀ c ∈ g.curves, Alternating (elemsOf c.seq)) (k : Curve)
  (h : g.findPath clamp start goal map false = .ok (g', some k))
include hE halt h

/-- **C100.** On every straight of a curve returned by `find_path` (obstacles not ignored), every point
lies in a cell that is at most two rows and two columns away from a cell in the bounding box of the
straight's end cells which, if it is in the map, is free; at most one, if the straight's end points have
no negative coordinates. -/
theorem findPath_straight_near (pre post : List (Elem × ℝ)) (d : Dir) (L : ℝ)
    (hm : motion k = pre ++ (.straight d, L) :: post) (s : ℝ) (h0 : 0 ≤ s) (h1 : s ≤ L) (c : Int × Int)
    (hin : PtInCell (drive (g.radius / map.res) (driveAll (g.radius / map.res) start pre)
      (.straight d) s).pt c) :
    let A := driveAll (g.radius / map.res) start pre
    let B := drive (g.radius / map.res) A (.straight d) L
    ∃ c' : Int × Int, InBox (truncC A.x, truncC A.y) (truncC B.x, truncC B.y) c' ∧
      (map.inMap c'.1 c'.2 = true → map.free c'.1 c'.2 = true) ∧ CellsWithin 2 c c' ∧
      (0 ≤ A.x → 0 ≤ A.y → 0 ≤ B.x → 0 ≤ B.y → CellsWithin 1 c c') := by
  intro A B
  obtain ⟨l1, sg, l2, e, rfl, ex⟩ := motion_split hm
  have ht := findPath_track g g' clamp start goal map false hE halt k h
  rw [e] at ht
  have hon := Track.at l1 sg l2 ht
  have hcl := findPath_clear g g' clamp start goal map hE k h sg (by rw [e]; simp)
  cases sg with
  | circ c => simp [elemOf] at ex
  | line l =>
    have hr : (g.env clamp map false).radius = g.radius / map.res := rfl
    simp only [elemOf, Prod.mk.injEq, Elem.straight.injEq] at ex
    obtain ⟨rfl, rfl⟩ := ex
    obtain ⟨c', b1, b2, b3, b4⟩ := line_near hon hcl h0 h1 c hin
    obtain ⟨a1, a2, a3, a4, _⟩ := hon
    have eB : B.x = l.stop.x ∧ B.y = l.stop.y := by
      have : B = drive (g.radius / map.res) A (.straight l.dir) (amountOf (.line l)) := rfl
      rw [this]
      simp only [Spec.drive, amountOf]
      rw [hr] at a1 a2 a3 a4
      constructor
      · have : A.x = l.start.x := a1.symm
        rw [this]; linear_combination -a3
      · have : A.y = l.start.y := a2.symm
        rw [this]; linear_combination -a4
    have eA : A.x = l.start.x ∧ A.y = l.start.y := ⟨a1.symm, a2.symm⟩
    rw [eA.1, eA.2, eB.1, eB.2]
    exact ⟨c', b1, b2, b3, b4⟩

/-- **C100.** On every turn of a curve returned by `find_path` (obstacles not ignored; a map whose cells
have no negative coordinates; a radius of at least two cells), every point more than `π/(R-1)` of turning
away from both ends of the turn — `R` the radius in whole cells — lies in a cell at most two rows and two
columns away from a cell of the map that is free. -/
theorem findPath_turn_near (hpos : ∀ x y, map.inMap x y = true → 0 ≤ x ∧ 0 ≤ y)
    (hR : 2 ≤ g.radius / map.res) (pre post : List (Elem × ℝ)) (o : Ori) (d : Dir) (L : ℝ)
    (hm : motion k = pre ++ (.turn o d, L) :: post) (s : ℝ)
    (h0 : Real.pi / (⌊g.radius / map.res⌋ - 1) ≤ s) (h1 : s ≤ L - Real.pi / (⌊g.radius / map.res⌋ - 1))
    (c : Int × Int)
    (hin : PtInCell (drive (g.radius / map.res) (driveAll (g.radius / map.res) start pre)
      (.turn o d) s).pt c) :
    ∃ c' : Int × Int, map.inMap c'.1 c'.2 = true ∧ map.free c'.1 c'.2 = true ∧ CellsWithin 2 c c' := by
  obtain ⟨l1, sg, l2, e, rfl, ex⟩ := motion_split hm
  have ht := findPath_track g g' clamp start goal map false hE halt k h
  rw [e] at ht
  have hon := Track.at l1 sg l2 ht
  have hcl := findPath_clear g g' clamp start goal map hE k h sg (by rw [e]; simp)
  cases sg with
  | line l => simp [elemOf] at ex
  | circ kk =>
    simp only [elemOf, Prod.mk.injEq, Elem.turn.injEq] at ex
    obtain ⟨⟨rfl, rfl⟩, rfl⟩ := ex
    exact circ_near hE hpos hon hcl (Int.le_floor.2 (by exact_mod_cast hR)) h0 h1 c hin

/-- **C100.** What a safety margin of two cells buys: if every free cell of the map has only unobstructed
cells within two rows and columns, then the turns of the curve (up to `π/(R-1)` from their ends) and its
straights (as far as their bounding boxes are in the map) pass through unobstructed cells only. -/
theorem findPath_margin (real : Int → Int → Bool)
    (hinf : ∀ x y, map.inMap x y = true → map.free x y = true →
      ∀ x' y', |x' - x| ≤ 2 → |y' - y| ≤ 2 → real x' y' = true)
    (hpos : ∀ x y, map.inMap x y = true → 0 ≤ x ∧ 0 ≤ y) (hR : 2 ≤ g.radius / map.res)
    (pre post : List (Elem × ℝ)) (e : Elem) (L : ℝ) (hm : motion k = pre ++ (e, L) :: post) (s : ℝ)
    (h0 : 0 ≤ s) (h1 : s ≤ L)
    (hturn : ∀ o d, e = .turn o d → Real.pi / (⌊g.radius / map.res⌋ - 1) ≤ s ∧
      s ≤ L - Real.pi / (⌊g.radius / map.res⌋ - 1))
    (hbox : ∀ d, e = .straight d →
      let A := driveAll (g.radius / map.res) start pre
      let B := drive (g.radius / map.res) A e L
      ∀ c', InBox (truncC A.x, truncC A.y) (truncC B.x, truncC B.y) c' → map.inMap c'.1 c'.2 = true)
    (c : Int × Int)
    (hin : PtInCell (drive (g.radius / map.res) (driveAll (g.radius / map.res) start pre) e s).pt c) :
    real c.1 c.2 = true := by
  cases e with
  | straight d =>
    obtain ⟨c', b1, b2, b3, _⟩ := findPath_straight_near g g' clamp start goal map hE halt k h pre post d L
      hm s h0 h1 c hin
    have hi := hbox d rfl c' b1
    exact hinf _ _ hi (b2 hi) _ _ b3.1 b3.2
  | turn o d =>
    obtain ⟨t1, t2⟩ := hturn o d rfl
    obtain ⟨c', b1, b2, b3⟩ := findPath_turn_near g g' clamp start goal map hE halt k h hpos hR pre post o d
      L hm s t1 t2 c hin
    exact hinf _ _ b1 b2 _ _ b3.1 b3.2

/-- **C100.** For straights a margin of one cell is enough where coordinates are not negative. -/
theorem findPath_margin_straight (real : Int → Int → Bool)
    (hinf : ∀ x y, map.inMap x y = true → map.free x y = true →
      ∀ x' y', |x' - x| ≤ 1 → |y' - y| ≤ 1 → real x' y' = true)
    (pre post : List (Elem × ℝ)) (d : Dir) (L : ℝ) (hm : motion k = pre ++ (.straight d, L) :: post) (s : ℝ)
    (h0 : 0 ≤ s) (h1 : s ≤ L)
    (hbox : let A := driveAll (g.radius / map.res) start pre
      let B := drive (g.radius / map.res) A (.straight d) L
      0 ≤ A.x ∧ 0 ≤ A.y ∧ 0 ≤ B.x ∧ 0 ≤ B.y ∧
      ∀ c', InBox (truncC A.x, truncC A.y) (truncC B.x, truncC B.y) c' → map.inMap c'.1 c'.2 = true)
    (c : Int × Int)
    (hin : PtInCell (drive (g.radius / map.res) (driveAll (g.radius / map.res) start pre)
      (.straight d) s).pt c) :
    real c.1 c.2 = true := by
  obtain ⟨c', b1, b2, _, b3⟩ := findPath_straight_near g g' clamp start goal map hE halt k h pre post d L
    hm s h0 h1 c hin
  obtain ⟨p1, p2, p3, p4, hb⟩ := hbox
  have b3 := b3 p1 p2 p3 p4
  have hi := hb c' b1
  exact hinf _ _ hi (b2 hi) _ _ b3.1 b3.2

end

end PathPlanning.RS
