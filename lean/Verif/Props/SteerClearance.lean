import Verif.Spec.DriveClearance
import Verif.Lemmas.ChordBound
import Verif.Lemmas.Clearance
import Verif.Props.RSClearance
import Verif.Props.DynLine
import Verif.Props.SteerSearch2

/-!
# C101: how near the tested cells a driven step of a steering search stays
-/

noncomputable section

namespace PathPlanning
open Spec

/-- The cells of the line do not depend on the map. -/
theorem lineCell_map {K K' : Type} (m : GridMap K) (m' : GridMap K') (x0 y0 x1 y1 : Int) {l : Nat}
    (hl : l ≤ lineLength x0 y0 x1 y1) : lineCell m x0 y0 x1 y1 l = lineCell m' x0 y0 x1 y1 l := by
  have h1 := lineCells_eq m x0 y0 x1 y1 _ (Nat.lt_succ_self _)
  have h2 := lineCells_eq m' x0 y0 x1 y1 _ (Nat.lt_succ_self _)
  rw [h1, Option.some.injEq] at h2
  have := List.map_inj_left.1 h2 l (List.mem_range.2 (by omega))
  exact this

/-- A point of the ideal line between two cells is near a cell of the digital line. -/
theorem lineCell_cover {K : Type} (m : GridMap K) (x0 y0 x1 y1 : Int) (t : ℝ) (h0 : 0 ≤ t) (h1 : t ≤ 1) :
    ∃ l ≤ lineLength x0 y0 x1 y1, abs (((x0 : ℝ) + t * (x1 - x0)) - (lineCell m x0 y0 x1 y1 l).1) ≤ 1 ∧
      abs (((y0 : ℝ) + t * (y1 - y0)) - (lineCell m x0 y0 x1 y1 l).2) ≤ 1 := by
  obtain ⟨c, hc, a1, a2⟩ := Clear.line_cover (RS.lineList_digital x0 y0 x1 y1) t h0 h1
  obtain ⟨l, hl, rfl⟩ := List.mem_map.1 hc
  have hl := List.mem_range.1 hl
  have e : lineCell m x0 y0 x1 y1 l = ((Bres.start (GridMap.mk' 1 1 (1 : ℚ)) x0 y0 x1 y1).after l).cell :=
    lineCell_map m _ x0 y0 x1 y1 (by omega)
  refine ⟨l, by omega, ?_, ?_⟩
  · rw [e]; exact a1
  · rw [e]; exact a2

/-- Cells of a digital line are at most as many rows and columns apart as steps lie between them. -/
theorem lineCell_steps {K : Type} (m : GridMap K) (x0 y0 x1 y1 : Int) (l : Nat) : ∀ n,
    l + n ≤ lineLength x0 y0 x1 y1 → CellsWithin n (lineCell m x0 y0 x1 y1 (l + n)) (lineCell m x0 y0 x1 y1 l)
  | 0, _ => by simp [CellsWithin]
  | n + 1, h => by
    obtain ⟨i1, i2⟩ := lineCell_steps m x0 y0 x1 y1 l n (by omega)
    have hch := (RS.lineList_digital x0 y0 x1 y1).chain
    rw [List.isChain_iff_getElem] at hch
    have ha := hch (l + n) (by simp [RS.lineList]; omega)
    simp only [RS.lineList, List.getElem_map, List.getElem_range] at ha
    have e1 : lineCell m x0 y0 x1 y1 (l + n) = ((Bres.start (GridMap.mk' 1 1 (1 : ℚ)) x0 y0 x1 y1).after (l + n)).cell :=
      lineCell_map m _ x0 y0 x1 y1 (by omega)
    have e2 : lineCell m x0 y0 x1 y1 (l + (n + 1)) =
        ((Bres.start (GridMap.mk' 1 1 (1 : ℚ)) x0 y0 x1 y1).after (l + n + 1)).cell :=
      lineCell_map m _ x0 y0 x1 y1 (by omega)
    rw [← e1, ← e2] at ha
    obtain ⟨_, a1, a2⟩ := ha
    have := abs_le.1 i1; have := abs_le.1 i2; have := abs_le.1 a1; have := abs_le.1 a2
    constructor <;> rw [abs_le] <;> push_cast <;> constructor <;> omega

theorem notOccupied_of_free {m : GridMap ℝ} (wf : m.WellFormed) {c : Int × Int}
    (h : ptFreeOrUnknown m c.1 c.2 = .ok true) : NotOccupied m c := fun hin =>
  (((pt_spec m wf c.1 c.2).1 hin).2.2).1 h

/-- The cell of the start pose is not occupied: the line test truncates its coordinates, which makes no
difference on the map. -/
theorem lineOk_start {m : GridMap ℝ} (wf : m.WellFormed) {skips : Nat} {a b : SNode} (h : LineOk m skips a b) :
    NotOccupied m (⌊a.x⌋, ⌊a.y⌋) := by
  intro hin
  have hb := (GridMap.isInMap_iff m wf.w wf.h _ _).1 hin
  have hx : truncC a.x = ⌊a.x⌋ := truncC_nonneg (Int.floor_nonneg.1 hb.1)
  have hy : truncC a.y = ⌊a.y⌋ := truncC_nonneg (Int.floor_nonneg.1 (by omega))
  have h1 := h.1
  rw [hx, hy] at h1
  exact notOccupied_of_free wf (c := (⌊a.x⌋, ⌊a.y⌋)) h1 hin

/-- Every cell of the line is near a cell that is not occupied. -/
theorem lineOk_near {m : GridMap ℝ} (wf : m.WellFormed) {skips : Nat} {a b : SNode} (h : LineOk m skips a b)
    (hs : m.isInMap (⌊a.x⌋ + 32) (⌊a.y⌋ + 32) = true) (he : m.isInMap (⌊b.x⌋ + 32) (⌊b.y⌋ + 32) = true) {l : Nat}
    (hl : l ≤ lineLength ⌊a.x⌋ ⌊a.y⌋ ⌊b.x⌋ ⌊b.y⌋) :
    ∃ c', CellsWithin skips (lineCell m ⌊a.x⌋ ⌊a.y⌋ ⌊b.x⌋ ⌊b.y⌋ l) c' ∧ NotOccupied m c' := by
  rcases Nat.eq_zero_or_pos l with rfl | hp
  · refine ⟨(⌊a.x⌋, ⌊a.y⌋), ?_, lineOk_start wf h⟩
    have e : lineCell m ⌊a.x⌋ ⌊a.y⌋ ⌊b.x⌋ ⌊b.y⌋ 0 = (⌊a.x⌋, ⌊a.y⌋) := rfl
    rw [e]; simp [CellsWithin]
  · have hm : (l - 1) % (skips + 1) < skips + 1 := Nat.mod_lt _ (Nat.succ_pos _)
    have hle := Nat.mod_le (l - 1) (skips + 1)
    set r := (l - 1) % (skips + 1) with hr
    refine ⟨lineCell m ⌊a.x⌋ ⌊a.y⌋ ⌊b.x⌋ ⌊b.y⌋ (l - r), ?_, notOccupied_of_free wf (h.2 hs he _ ?_)⟩
    · have := lineCell_steps m ⌊a.x⌋ ⌊a.y⌋ ⌊b.x⌋ ⌊b.y⌋ (l - r) r (by omega)
      rw [Nat.sub_add_cancel (by omega)] at this
      exact ⟨this.1.trans (by omega), this.2.trans (by omega)⟩
    · refine ⟨l - r, by omega, by omega, ?_, rfl⟩
      have : l - r - 1 = (skips + 1) * ((l - 1) / (skips + 1)) := by
        have := Nat.div_add_mod (l - 1) (skips + 1)
        omega
      rw [this]; exact Nat.mul_mod_right _ _

theorem coord_near {a b p : ℝ} {t δ : ℝ} {n : Int} (t0 : 0 ≤ t) (t1 : t ≤ 1)
    (hn : abs (((⌊a⌋ : Int) : ℝ) + t * ((⌊b⌋ : Int) - (⌊a⌋ : Int)) - n) ≤ 1)
    (hp : abs (p - (a + t * (b - a))) ≤ δ) : |⌊p⌋ - n| ≤ 1 + ⌈δ⌉ := by
  obtain ⟨n1, n2⟩ := abs_le.1 hn
  obtain ⟨p1, p2⟩ := abs_le.1 hp
  have a1 := Int.floor_le a
  have a2 := Int.lt_floor_add_one a
  have q1 := Int.floor_le b
  have q2 := Int.lt_floor_add_one b
  have hd := Int.le_ceil δ
  have u1 : 0 ≤ (1 - t) * (a - ⌊a⌋) + t * (b - ⌊b⌋) :=
    add_nonneg (mul_nonneg (by linarith) (by linarith)) (mul_nonneg t0 (by linarith))
  have u2 : (1 - t) * (a - ⌊a⌋) + t * (b - ⌊b⌋) < 1 := by
    rcases eq_or_lt_of_le t0 with rfl | ht
    · linarith
    · have : t * (b - ⌊b⌋) < t * 1 := mul_lt_mul_of_pos_left (by linarith) ht
      have : (1 - t) * (a - ⌊a⌋) ≤ (1 - t) * 1 := mul_le_mul_of_nonneg_left (by linarith) (by linarith)
      linarith
  refine Clear.floor_near ?_ ?_ <;> push_cast <;> nlinarith

variable {m : GridMap ℝ} {skips : Nat} {a b : SNode} {L res φ dir ds : ℝ}

/-- **C101, one step.** Let the line test accept the step from `a` to `b`, both more than 32 cells away
from the right and the upper border, and let the vehicle drive from `a` to `b`.  Every point of the driven
stretch lies in a cell at most `skips + 1` plus the bulge of the arc (in rows and in columns) away from a
cell that is not an occupied cell of the map. -/
theorem drive_near (wf : m.WellFormed) (h : LineOk m skips a b)
    (hs : FarFromEdge m a) (he : FarFromEdge m b)
    (hL : 0 < L) (hr : 0 < res) (hdir : dir = 1 ∨ dir = -1) (hd : DrivesTo L res φ dir ds a b)
    {p : P2} (hp : OnDrive L res φ dir ds a p) {c : Int × Int} (hc : PtInCell p c) :
    ∃ c', CellsWithin (skips + 1 + arcMargin L res φ ds) c c' ∧ NotOccupied m c' := by
  obtain ⟨x, y, θ, s, hm, ex, ey, et, s0, s1, px, py⟩ := hp
  obtain ⟨x', y', θ', hm', ex', ey', et', dx, dy, _⟩ := hd
  obtain ⟨ux, uy, _⟩ := Clear.motion_unique hm' hm (by rw [ex, ex']) (by rw [ey, ey']) (by rw [et, et']) ds
  rw [ux] at dx; rw [uy] at dy
  obtain ⟨cx, cy⟩ := Clear.motion_chord hm hL hr hdir s0 s1
  rw [ex, dx, ← px] at cx
  rw [ey, dy, ← py] at cy
  have t0 : 0 ≤ s / ds := div_nonneg s0 (s0.trans s1)
  have t1 : s / ds ≤ 1 := div_le_one_of_le₀ s1 (s0.trans s1)
  obtain ⟨l, hl, l1, l2⟩ := lineCell_cover m ⌊a.x⌋ ⌊a.y⌋ ⌊b.x⌋ ⌊b.y⌋ _ t0 t1
  obtain ⟨c', ⟨w1, w2⟩, hno⟩ := lineOk_near wf h hs he hl
  refine ⟨c', ⟨?_, ?_⟩, hno⟩
  · have := coord_near t0 t1 l1 cx
    rw [RS.ptInCell_eq hc]
    have h1 := abs_le.1 this; have h2 := abs_le.1 w1
    unfold arcMargin
    rw [abs_le]; simp only; constructor <;> omega
  · have := coord_near t0 t1 l2 cy
    rw [RS.ptInCell_eq hc]
    have h1 := abs_le.1 this; have h2 := abs_le.1 w2
    unfold arcMargin
    rw [abs_le]; simp only; constructor <;> omega

/-- The bulge grows with the steering angle and the distance. -/
theorem arcMargin_mono {φ' ds' : ℝ} (hL : 0 < L) (hr : 0 < res) (h1 : abs (Real.tan φ) ≤ abs (Real.tan φ'))
    (h0 : 0 ≤ ds) (h2 : ds ≤ ds') : arcMargin L res φ ds ≤ arcMargin L res φ' ds' := by
  unfold arcMargin
  refine Int.ceil_mono (div_le_div_of_nonneg_right ?_ (by positivity))
  exact mul_le_mul (pow_le_pow_left₀ h0 h2 2) h1 (abs_nonneg _) (by positivity)

theorem tan_steer {s M : Int} (h : |s| ≤ M) (hM : M < 90) :
    abs (Real.tan ((s : ℝ) / 180 * Real.pi)) ≤ abs (Real.tan ((M : ℝ) / 180 * Real.pi)) := by
  have hpi := Real.pi_pos
  have key : ∀ t : Int, 0 ≤ t → t ≤ M →
      Real.tan ((t : ℝ) / 180 * Real.pi) ≤ Real.tan ((M : ℝ) / 180 * Real.pi) ∧ 0 ≤ Real.tan ((t : ℝ) / 180 * Real.pi) := by
    intro t h0 h1
    have h0' : (0 : ℝ) ≤ t := by exact_mod_cast h0
    have h1' : (t : ℝ) ≤ M := by exact_mod_cast h1
    have h2' : (M : ℝ) < 90 := by exact_mod_cast hM
    have c1 : (t : ℝ) / 180 * Real.pi ≤ (M : ℝ) / 180 * Real.pi :=
      mul_le_mul_of_nonneg_right (by linarith) hpi.le
    have c2 : (M : ℝ) / 180 * Real.pi < Real.pi / 2 := by
      have : (M : ℝ) / 180 * Real.pi < 1 / 2 * Real.pi := mul_lt_mul_of_pos_right (by linarith) hpi
      linarith
    have c0 : 0 ≤ (t : ℝ) / 180 * Real.pi := by positivity
    refine ⟨Real.strictMonoOn_tan.monotoneOn ⟨by linarith, by linarith⟩ ⟨by linarith, c2⟩ c1, ?_⟩
    exact Real.tan_nonneg_of_nonneg_of_le_pi_div_two c0 (by linarith)
  have habs := abs_le.1 h
  have hM0 : 0 ≤ M := by omega
  rw [abs_of_nonneg (key M hM0 le_rfl).2]
  rcases le_total 0 s with h0 | h0
  · rw [abs_of_nonneg (key s h0 habs.2).2]; exact (key s h0 habs.2).1
  · obtain ⟨e1, e2⟩ := key (-s) (by omega) (by omega)
    have : Real.tan ((s : ℝ) / 180 * Real.pi) = - Real.tan (((-s : Int) : ℝ) / 180 * Real.pi) := by
      rw [← Real.tan_neg]; congr 1; push_cast; ring
    rw [this, abs_neg, abs_of_nonneg e2]; exact e1

theorem driveSign_cases (r f : Bool) : driveSign r f = 1 ∨ driveSign r f = -1 := by
  unfold driveSign; split <;> simp

theorem _root_.PathPlanning.Spec.CellsWithin.mono {d d' : Int} {c c' : Int × Int} (h : CellsWithin d c c') (hd : d ≤ d') : CellsWithin d' c c' :=
  ⟨h.1.trans hd, h.2.trans hd⟩

/-- **C101, one step on a map with a safety margin.** -/
theorem inflated_clear {d : Int} {obstacle : Int × Int → Prop} (hi : Inflated m d obstacle) {c c' : Int × Int}
    (h : CellsWithin d c c') (hn : NotOccupied m c') : ¬ obstacle c := by
  intro ho
  obtain ⟨h1, h2⟩ := hi c c' ho h
  have := hn h1
  rw [h2] at this
  cases this

/-! ### Paths of `DynamicSteeringNeighborhood` -/

section
variable {clamp : ℝ → ℝ} {P : DynP} {distThr angThr : ℝ} {m : GridMap ℝ} {skips : Nat} {b : Bres ℝ} {S : SteerCfg}
  {O : OpenList (PadCell m.width m.height) ℝ} {cfg : SCfg (PadCell m.width m.height) ℝ} {start goal : Pose}

/-- How far from a tested cell the vehicle can be, with the parameters of the neighbourhood. -/
def dynMargin (P : DynP) (skips : Nat) : Int :=
  skips + 1 + arcMargin P.la P.resolution ((P.maxSteer : ℝ) / 180 * Real.pi) (max P.distStep P.la)

theorem dyn_step_near (wf : m.WellFormed) (hd : 0 ≤ P.distStep) (hr : 0 < P.resolution) (hst : P.maxSteer < 90)
    (hla : 0 < P.la) {x y : SNode} {ds : ℝ} (hl : LineOk m skips x y) (hx : FarFromEdge m x) (hy : FarFromEdge m y)
    (hsy : |y.steer| ≤ P.maxSteer) (hds : ds = P.la ∨ ds = P.distStep)
    (hdr : DrivesTo P.la P.resolution ((y.steer : ℝ) / 180 * Real.pi) (driveSign P.reversed y.forward) ds x y)
    {p : P2} (hp : OnDrive P.la P.resolution ((y.steer : ℝ) / 180 * Real.pi) (driveSign P.reversed y.forward) ds x p)
    {c : Int × Int} (hc : PtInCell p c) : ∃ c', CellsWithin (dynMargin P skips) c c' ∧ NotOccupied m c' := by
  obtain ⟨c', h1, h2⟩ := drive_near wf hl hx hy hla hr (driveSign_cases _ _) hdr hp hc
  refine ⟨c', h1.mono ?_, h2⟩
  have h3 : 0 ≤ ds := by rcases hds with rfl | rfl <;> linarith
  have h4 : ds ≤ max P.distStep P.la := by rcases hds with rfl | rfl <;> simp
  have := arcMargin_mono (φ := (y.steer : ℝ) / 180 * Real.pi) hla hr (tan_steer hsy hst) h3 h4
  unfold dynMargin
  linarith

/-- **C101.** A path found with `DynamicSteeringNeighborhood`, with or without a heuristic: wherever two
consecutive poses are well inside the map, the vehicle drives to the second from a pose in the state of
the first, and every point it drives over lies in a cell at most `dynMargin` rows and columns away from a
cell that is not an occupied cell of the map. -/
theorem dyn_path_near (hc : ClampSpec clamp) (hd : 0 ≤ P.distStep) (hr : 0 < P.resolution) (hm : SteerMapOk m P.stepLen)
    (hst : 0 ≤ P.maxSteer ∧ P.maxSteer < 90) (hla : 0 < P.la)
    (L : Lawful O) (ht : TopOk cfg.top) (h1 : IntPose start) (h2 : IntPose goal) {fuel : Nat} {q : List SNode}
    (h : padFindPath clamp (dynSteerAlgo clamp P distThr angThr m skips b S) O cfg start goal fuel = some (.ok q))
    (x y : SNode) (hxy : [x, y] <:+: q) (hx : FarFromEdge m x) (hy : FarFromEdge m y) :
    ∃ x' ds, SameState clamp x' x ∧ ([x, y] <+: q → x' = x) ∧ (ds = P.la ∨ ds = P.distStep) ∧
      DrivesTo P.la P.resolution ((y.steer : ℝ) / 180 * Real.pi) (driveSign P.reversed y.forward) ds x' y ∧
      ∀ p c, OnDrive P.la P.resolution ((y.steer : ℝ) / 180 * Real.pi) (driveSign P.reversed y.forward) ds x' p →
        PtInCell p c → ∃ c', CellsWithin (dynMargin P skips) c c' ∧ NotOccupied m c' := by
  have hne : q ≠ [] := by rintro rfl; simp at hxy
  obtain ⟨_, t2, t3, _⟩ := dyn_path hc hd hr hm hst hla.ne' L ht h1 h2 h hne
  obtain ⟨_, _, x', s1, s2, _, s4, s5⟩ := t3 x y hxy
  have hsy := (t2 y (hxy.subset (by simp))).2
  have hx' : FarFromEdge m x' := by
    unfold FarFromEdge
    rw [s1.1, s1.2.1]; exact hx
  have hds : ∀ Q : Prop, ∀ [Decidable Q], (if Q then P.la else P.distStep) = P.la ∨ (if Q then P.la else P.distStep) = P.distStep := by
    intro Q _; split <;> simp
  exact ⟨x', _, s1, s2, hds _, s5, fun p c hp hcell =>
    dyn_step_near hm.wf hd hr hst.2 hla s4 hx' hy hsy (hds _) s5 hp hcell⟩

/-- **C101.** A search without heuristic on a map in which everything within `dynMargin` cells of an
obstacle is occupied: as long as the poses of the path are well inside the map, driving along the path
never touches a cell with an obstacle. -/
theorem dyn_path_safe (hc : ClampSpec clamp) (hd : 0 ≤ P.distStep) (hr : 0 < P.resolution) (hm : SteerMapOk m P.stepLen)
    (hst : 0 ≤ P.maxSteer ∧ P.maxSteer < 90) (hla : 0 < P.la)
    (L : Lawful O) (M : MinFirst O) (ht : TopOk cfg.top) (hheur : ∀ k g, S.heur k g = 0) (hhg : cfg.heurGoal = none)
    (h1 : IntPose start) (h2 : IntPose goal) {fuel : Nat} {q : List SNode}
    (h : padFindPath clamp (dynSteerAlgo clamp P distThr angThr m skips b S) O cfg start goal fuel = some (.ok q))
    {obstacle : Int × Int → Prop} (hi : Inflated m (dynMargin P skips) obstacle) (hin : ∀ k ∈ q, FarFromEdge m k)
    (x y : SNode) (hxy : [x, y] <:+: q) :
    DrivesTo P.la P.resolution ((y.steer : ℝ) / 180 * Real.pi) (driveSign P.reversed y.forward)
      (if P.reversed = false ∧ x.depth < 1 ∧ y.forward = false then P.la else P.distStep) x y ∧
    ∀ p c, OnDrive P.la P.resolution ((y.steer : ℝ) / 180 * Real.pi) (driveSign P.reversed y.forward)
      (if P.reversed = false ∧ x.depth < 1 ∧ y.forward = false then P.la else P.distStep) x p →
      PtInCell p c → ¬ obstacle c := by
  have hne : q ≠ [] := by rintro rfl; simp at hxy
  obtain ⟨_, t2, _⟩ := dyn_path hc hd hr hm hst hla.ne' L ht h1 h2 h hne
  obtain ⟨e, _⟩ := dyn_exact hc hd hr hm hst hla.ne' L M ht hheur hhg h1 h2 h
  obtain ⟨e1, _, e3⟩ := e x y hxy
  refine ⟨e3, fun p c hp hcell => ?_⟩
  obtain ⟨c', b1, b2⟩ := dyn_step_near hm.wf hd hr hst.2 hla e1 (hin x (hxy.subset (by simp)))
    (hin y (hxy.subset (by simp))) (t2 y (hxy.subset (by simp))).2 (by split <;> simp) e3 hp hcell
  exact inflated_clear hi b1 b2

end

/-! ### Paths of `SteeringNeighborhood` -/

section
variable {clamp : ℝ → ℝ} {P : SteerP} {distance : Int} {garbage : Nat × Nat → Int} {m : GridMap ℝ} {skips : Nat}
  {b : Bres ℝ} {S : SteerCfg}
  {O : OpenList (PadCell m.width m.height) ℝ} {cfg : SCfg (PadCell m.width m.height) ℝ} {start goal : Pose}

/-- How far from a tested cell the vehicle can be, with the parameters of the neighbourhood. -/
def steerMargin (P : SteerP) (skips : Nat) : Int :=
  skips + 1 + arcMargin P.la P.resolution ((P.maxSteer : ℝ) / 180 * Real.pi) P.distStep

theorem steer_step_near (wf : m.WellFormed) (hd : 0 ≤ P.distStep) (hr : 0 < P.resolution) (hst : P.maxSteer < 90)
    (hla : 0 < P.la) {x y : SNode} (hl : LineOk m skips x y) (hx : FarFromEdge m x) (hy : FarFromEdge m y)
    (hsy : |y.steer| ≤ P.maxSteer)
    (hdr : DrivesTo P.la P.resolution ((y.steer : ℝ) / 180 * Real.pi) (driveSign P.reversed y.forward) P.distStep x y)
    {p : P2} (hp : OnDrive P.la P.resolution ((y.steer : ℝ) / 180 * Real.pi) (driveSign P.reversed y.forward)
      P.distStep x p)
    {c : Int × Int} (hc : PtInCell p c) : ∃ c', CellsWithin (steerMargin P skips) c c' ∧ NotOccupied m c' := by
  obtain ⟨c', h1, h2⟩ := drive_near wf hl hx hy hla hr (driveSign_cases _ _) hdr hp hc
  refine ⟨c', h1.mono ?_, h2⟩
  have := arcMargin_mono (φ := (y.steer : ℝ) / 180 * Real.pi) hla hr (tan_steer hsy hst) hd le_rfl
  unfold steerMargin
  linarith

/-- **C101.** The same for `SteeringNeighborhood`. -/
theorem steer_path_near (hc : ClampSpec clamp) (hd : 0 ≤ P.distStep) (hr : 0 < P.resolution) (hm : SteerMapOk m P.distPx)
    (hst : 0 ≤ P.maxSteer ∧ P.maxSteer < 90) (hla : 0 < P.la)
    (L : Lawful O) (ht : TopOk cfg.top) (h1 : IntPose start) (h2 : IntPose goal) {fuel : Nat} {q : List SNode}
    (h : padFindPath clamp (steerAlgo clamp P distance garbage m skips b S) O cfg start goal fuel = some (.ok q))
    (x y : SNode) (hxy : [x, y] <:+: q) (hx : FarFromEdge m x) (hy : FarFromEdge m y) :
    ∃ x', SameState clamp x' x ∧ ([x, y] <+: q → x' = x) ∧
      DrivesTo P.la P.resolution ((y.steer : ℝ) / 180 * Real.pi) (driveSign P.reversed y.forward) P.distStep x' y ∧
      ∀ p c, OnDrive P.la P.resolution ((y.steer : ℝ) / 180 * Real.pi) (driveSign P.reversed y.forward) P.distStep x' p →
        PtInCell p c → ∃ c', CellsWithin (steerMargin P skips) c c' ∧ NotOccupied m c' := by
  have hne : q ≠ [] := by rintro rfl; simp at hxy
  obtain ⟨_, t2, t3, _⟩ := steer_path hc hd hr hm hst hla.ne' L ht h1 h2 h hne
  obtain ⟨_, _, _, x', s1, s2, _, s4, s5⟩ := t3 x y hxy
  have hsy := (t2 y (hxy.subset (by simp))).2
  have hx' : FarFromEdge m x' := by
    unfold FarFromEdge
    rw [s1.1, s1.2.1]; exact hx
  exact ⟨x', s1, s2, s5, fun p c hp hcell => steer_step_near hm.wf hd hr hst.2 hla s4 hx' hy hsy s5 hp hcell⟩

/-- **C101.** Without heuristic, on a map with a safety margin. -/
theorem steer_path_safe (hc : ClampSpec clamp) (hd : 0 ≤ P.distStep) (hr : 0 < P.resolution) (hm : SteerMapOk m P.distPx)
    (hst : 0 ≤ P.maxSteer ∧ P.maxSteer < 90) (hla : 0 < P.la)
    (L : Lawful O) (M : MinFirst O) (ht : TopOk cfg.top) (hheur : ∀ k g, S.heur k g = 0) (hhg : cfg.heurGoal = none)
    (h1 : IntPose start) (h2 : IntPose goal) {fuel : Nat} {q : List SNode}
    (h : padFindPath clamp (steerAlgo clamp P distance garbage m skips b S) O cfg start goal fuel = some (.ok q))
    {obstacle : Int × Int → Prop} (hi : Inflated m (steerMargin P skips) obstacle) (hin : ∀ k ∈ q, FarFromEdge m k)
    (x y : SNode) (hxy : [x, y] <:+: q) :
    DrivesTo P.la P.resolution ((y.steer : ℝ) / 180 * Real.pi) (driveSign P.reversed y.forward) P.distStep x y ∧
    ∀ p c, OnDrive P.la P.resolution ((y.steer : ℝ) / 180 * Real.pi) (driveSign P.reversed y.forward) P.distStep x p →
      PtInCell p c → ¬ obstacle c := by
  have hne : q ≠ [] := by rintro rfl; simp at hxy
  obtain ⟨_, t2, _⟩ := steer_path hc hd hr hm hst hla.ne' L ht h1 h2 h hne
  obtain ⟨e, _⟩ := steer_exact hc hd hr hm hst hla.ne' L M ht hheur hhg h1 h2 h
  obtain ⟨e1, _, _, e3⟩ := e x y hxy
  refine ⟨e3, fun p c hp hcell => ?_⟩
  obtain ⟨c', b1, b2⟩ := steer_step_near hm.wf hd hr hst.2 hla e1 (hin x (hxy.subset (by simp)))
    (hin y (hxy.subset (by simp))) (t2 y (hxy.subset (by simp))).2 e3 hp hcell
  exact inflated_clear hi b1 b2

end
end PathPlanning
