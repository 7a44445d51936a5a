import Verif.Model.Evaluator
import Verif.Props.Renderer2
import Verif.Props.GridMap

/-!
# C84, C85, C86: mouse input, map editing and files, video of the evaluation tool
-/

namespace PathPlanning.Eval
open Spec

/-! ### Mouse -/

theorem tdiv_nonneg {a : Int} (ha : 0 ≤ a) : a.tdiv SCALE = a / 8 := by
  unfold SCALE
  rw [Int.tdiv_eq_ediv_of_nonneg ha]

/-- The cell in whose square a pixel lies, in terms of the pixel's coordinates. -/
theorem shown_iff {h px py x y : Int} :
    InSquare SCALE (h * SCALE) x y py px ↔ x = px / 8 ∧ y = h - 1 - py / 8 := by
  rw [inSquare_of]
  unfold SCALE
  constructor <;> rintro ⟨h1, h2⟩ <;> refine ⟨h1, ?_⟩ <;> omega
where
  inSquare_of : InSquare SCALE (h * SCALE) x y py px ↔ x = px / SCALE ∧ y = (h * SCALE - 1 - py) / SCALE :=
    Render.inSquare_iff (by decide) _ _ _ _ _

/-- **C84, finding.**  Clicking into the square of a cell sets the start (or goal) to the cell *above* it: right column,
wrong row. -/
theorem clickCell_above {h px py x y : Int} (hpx : 0 ≤ px) (hpy : 0 ≤ py)
    (hs : InSquare SCALE (h * SCALE) x y py px) : clickCell h px py = (x, y + 1) := by
  obtain ⟨rfl, rfl⟩ := shown_iff.1 hs
  unfold clickCell
  rw [tdiv_nonneg hpx, tdiv_nonneg hpy]
  ext <;> simp only <;> omega

/-- **C84, finding.**  A click into the top row of the map sets a start that is not on the map. -/
theorem clickCell_off_map {h px py x : Int} (hpx : 0 ≤ px) (hpy : 0 ≤ py)
    (hs : InSquare SCALE (h * SCALE) x (h - 1) py px) : (clickCell h px py).2 = h := by
  rw [clickCell_above hpx hpy hs]; simp

/-- **C84 (heading).**  Dragging sets the heading that points along the drag on the screen, where the vertical pixel
coordinate grows downwards. -/
theorem dragAngle_spec (sx sy x y : Int) (hne : ¬ (x = sx ∧ y = sy)) :
    ∃ len : ℝ, 0 < len ∧ (x : ℝ) = sx + len * Real.cos (dragAngle sx sy x y) ∧
      (y : ℝ) = sy - len * Real.sin (dragAngle sx sy x y) ∧ dragAngle sx sy x y ∈ Set.Ioc (-Real.pi) Real.pi := by
  set z : ℂ := ⟨((x - sx : Int) : ℝ), ((sy - y : Int) : ℝ)⟩ with hz
  have hz0 : z ≠ 0 := by
    intro h
    have h1 := congrArg Complex.re h
    have h2 := congrArg Complex.im h
    simp only [hz, Complex.zero_re, Complex.zero_im, Int.cast_eq_zero] at h1 h2
    exact hne ⟨by omega, by omega⟩
  refine ⟨‖z‖, norm_pos_iff.2 hz0, ?_, ?_, Complex.arg_mem_Ioc z⟩
  · have h := Complex.norm_mul_cos_arg z
    show (x : ℝ) = sx + ‖z‖ * Real.cos (Complex.arg z)
    rw [h, hz]; push_cast; ring
  · have h := Complex.norm_mul_sin_arg z
    show (y : ℝ) = sy - ‖z‖ * Real.sin (Complex.arg z)
    rw [h, hz]; push_cast; ring

section
variable {K : Type} [Field K] [LinearOrder K] [IsStrictOrderedRing K] [FloorRing K]

theorem trunc_div8 {a : Int} (ha : 0 ≤ a) : truncC ((a : K) / ((SCALE : Int) : K)) = a / 8 := by
  have h8 : ((SCALE : Int) : K) = 8 := by norm_num [SCALE]
  rw [h8, truncC_nonneg (div_nonneg (by exact_mod_cast ha) (by norm_num)), Int.floor_eq_iff]
  constructor
  · rw [le_div_iff₀ (by norm_num)]
    exact_mod_cast (by omega : a / 8 * 8 ≤ a)
  · rw [div_lt_iff₀ (by norm_num)]
    exact_mod_cast (by omega : a < (a / 8 + 1) * 8)

/-- **C84 (obstacles).**  The corner of an obstacle is the cell shown at the pixel, except that a pixel in the top row of
a cell's square counts as the cell above. -/
theorem obstacleCorner_spec {h px py x y : Int} (hpx : 0 ≤ px) (hpy : 0 ≤ py) (hy : 0 ≤ y)
    (hs : InSquare SCALE (h * SCALE) x y py px) :
    obstacleCorner K h px py = if SCALE ∣ py then (x, y + 1) else (x, y) := by
  obtain ⟨rfl, rfl⟩ := shown_iff.1 hs
  have e : truncC ((h : K) - (py : K) / ((SCALE : Int) : K)) = h - (py + 7) / 8 := by
    have h8 : ((SCALE : Int) : K) = 8 := by norm_num [SCALE]
    have hle : (py : K) / 8 ≤ h := by
      rw [div_le_iff₀ (by norm_num)]; exact_mod_cast (by omega : py ≤ h * 8)
    rw [h8, truncC_nonneg (by linarith), Int.floor_eq_iff]
    constructor
    · have : (py : K) / 8 ≤ (((py + 7) / 8 : Int) : K) := by
        rw [div_le_iff₀ (by norm_num)]; exact_mod_cast (by omega : py ≤ (py + 7) / 8 * 8)
      push_cast at this ⊢
      linarith
    · have : (((py + 7) / 8 : Int) : K) - 1 < (py : K) / 8 := by
        rw [lt_div_iff₀ (by norm_num)]
        have : (((py + 7) / 8 - 1) * 8 : Int) < py := by omega
        exact_mod_cast this
      push_cast at this ⊢
      linarith
  unfold obstacleCorner
  rw [e, trunc_div8 hpx]
  by_cases hd : SCALE ∣ py
  · rw [if_pos hd]
    unfold SCALE at hd
    ext <;> simp only
    omega
  · rw [if_neg hd]
    unfold SCALE at hd
    ext <;> simp only
    omega

/-- **C84 (obstacles).**  Dragging with the left (right) button from a pixel of cell `(x0,y0)` to a pixel of cell
`(x1,y1)`, neither in the top pixel row of its square, blackens (whitens) exactly the cells of the rectangle spanned by
the two cells. -/
theorem drawObstacle_rect (o : Render.Img UInt8) {h : Int} (left : Bool) {sx sy x y x0 y0 x1 y1 : Int}
    (hsx : 0 ≤ sx) (hsy : 0 ≤ sy) (hx : 0 ≤ x) (hy : 0 ≤ y) (hy0 : 0 ≤ y0) (hy1 : 0 ≤ y1)
    (hs0 : InSquare SCALE (h * SCALE) x0 y0 sy sx) (hs1 : InSquare SCALE (h * SCALE) x1 y1 y x)
    (hn0 : ¬ SCALE ∣ sy) (hn1 : ¬ SCALE ∣ y) (r c : Int) :
    (drawObstacle K o h left sx sy x y).px r c =
      if (min x0 x1 ≤ c ∧ c ≤ max x0 x1) ∧ (min y0 y1 ≤ r ∧ r ≤ max y0 y1) then (if left then 0 else 255)
      else o.px r c := by
  unfold drawObstacle
  rw [obstacleCorner_spec hsx hsy hy0 hs0, obstacleCorner_spec hx hy hy1 hs1, if_neg hn0, if_neg hn1]
  simp only [Render.Img.rectFilled]
  congr 1
  rw [eq_iff_iff]
  tauto

end

/-! ### Map editing -/

theorem mem_cells {w h : Nat} {p : Nat × Nat} : p ∈ cells w h ↔ p.1 < w ∧ p.2 < h := by
  unfold cells
  simp only [List.mem_flatMap, List.mem_map, List.mem_range]
  constructor
  · rintro ⟨y, hy, x, hx, rfl⟩; exact ⟨hx, hy⟩
  · rintro ⟨hx, hy⟩; exact ⟨p.2, hy, p.1, hx, rfl⟩

section
variable {K : Type}

/-- **C85 (map from image).**  On a map with the evaluator's thresholds (20 and 50, no "no information" value),
`generateMap` makes exactly the black cells of the image occupied and all others free; no assertion fails. -/
theorem generateMap_spec (o : Nat → Nat → UInt8) (m : GridMap K) (hsz : m.width * m.height < 2 ^ 32)
    (hlen : m.width * m.height ≤ m.data.length) (hl : m.lower = 20) (hu : m.upper = 50) (hni : m.noInfo = -1) :
    ∃ m', generateMap o m.width m.height m = .ok m' ∧ m'.width = m.width ∧ m'.height = m.height ∧
      m'.res = m.res ∧ m'.ox = m.ox ∧ m'.oy = m.oy ∧
      ∀ x y, x < m.width → y < m.height →
        (m'.isFree ⟨x, y⟩ = .ok (decide (o y x ≠ 0))) ∧ (m'.isOccupied ⟨x, y⟩ = .ok (decide (o y x = 0))) ∧
        (m'.isNoInformation ⟨x, y⟩ = .ok false) := by
  -- reading a stored byte
  have hbyte : ∀ m' : GridMap K, m'.lower = 20 → m'.upper = 50 → m'.noInfo = -1 → ∀ c : UCell, ∀ b : Bool,
      m'.getValue c = .ok (if b then 255 else 0) →
      m'.isFree c = .ok (!b) ∧ m'.isOccupied c = .ok b ∧ m'.isNoInformation c = .ok false := by
    intro m' h1 h2 h3 c b hv
    unfold GridMap.isFree GridMap.isOccupied GridMap.isNoInformation
    rw [hv]
    simp only [CRes.ok_bind, CRes.pure_eq, GridMap.freeByte, GridMap.occByte, GridMap.noInfByte,
      GridMap.isNoInfoByte, h1, h2, h3]
    cases b <;> exact ⟨rfl, rfl, rfl⟩
  have main : ∀ l : List (Nat × Nat), (∀ p ∈ l, p.1 < m.width ∧ p.2 < m.height) → ∀ (m1 : GridMap K) (a : AbsMap),
      m1.Rel a → a.w = m.width → a.h = m.height → m1.lower = 20 → m1.upper = 50 → m1.noInfo = -1 →
      ∃ m2 a2, l.foldlM (fun (m : GridMap K) (p : Nat × Nat) =>
        if o p.2 p.1 = 0 then
          (m.setValue ⟨p.1, p.2⟩ 255).bind fun m =>
          (m.isFree ⟨p.1, p.2⟩).bind fun f => if f then .ub else .ok m
        else
          (m.setValue ⟨p.1, p.2⟩ 0).bind fun m =>
          (m.isFree ⟨p.1, p.2⟩).bind fun f => if f then .ok m else .ub) m1 = .ok m2 ∧
        m2.Rel a2 ∧ a2.w = m.width ∧ a2.h = m.height ∧
        (m2.lower = 20 ∧ m2.upper = 50 ∧ m2.noInfo = -1) ∧ (m2.res = m1.res ∧ m2.ox = m1.ox ∧ m2.oy = m1.oy) ∧
        ∀ x y, a2.cell x y = if (x, y) ∈ l then (if o y x = 0 then 255 else 0) else a.cell x y := by
    intro l
    induction l with
    | nil => intro _ m1 a hrel hw hh h1 h2 h3; exact ⟨m1, a, rfl, hrel, hw, hh, ⟨h1, h2, h3⟩, ⟨rfl, rfl, rfl⟩, by simp⟩
    | cons p l ih =>
      intro hin m1 a hrel hw hh h1 h2 h3
      obtain ⟨hp1, hp2⟩ := hin p (by simp)
      -- one cell
      have hone : ∀ v : UInt8, ∃ m', m1.setValue ⟨p.1, p.2⟩ v = .ok m' ∧
          m'.Rel (a.apply (.write p.1 p.2 v)) ∧ m'.lower = 20 ∧ m'.upper = 50 ∧ m'.noInfo = -1 ∧
          m'.res = m1.res ∧ m'.ox = m1.ox ∧ m'.oy = m1.oy := by
        intro v
        obtain ⟨m', hm', hrel'⟩ := hrel.step (op := .write p.1 p.2 v) ⟨by rw [hw]; exact hp1, by rw [hh]; exact hp2⟩
        change m1.setValue ⟨p.1, p.2⟩ v = .ok m' at hm'
        refine ⟨m', hm', hrel', ?_⟩
        unfold GridMap.setValue at hm'
        rw [CRes.bind_eq_ok] at hm'
        obtain ⟨d, _, hd⟩ := hm'
        cases hd
        exact ⟨h1, h2, h3, rfl, rfl, rfl⟩
      obtain ⟨m', e1, e2, e3, e4, e5, e6, e7, e8⟩ := hone (if o p.2 p.1 = 0 then 255 else 0)
      have hget : m'.getValue ⟨p.1, p.2⟩ = .ok (if o p.2 p.1 = 0 then 255 else 0) := by
        have := e2.get (x := p.1) (y := p.2) (by show p.1 < a.w; rw [hw]; exact hp1) (by show p.2 < a.h; rw [hh]; exact hp2)
        rw [this]; simp [AbsMap.apply]
      have hb := hbyte m' e3 e4 e5 ⟨p.1, p.2⟩ (decide (o p.2 p.1 = 0)) (by rw [hget]; simp)
      obtain ⟨m2, a2, f1, f2, f3, f4, f5, f6, f7⟩ := ih (fun q hq => hin q (List.mem_cons_of_mem _ hq)) m'
        (a.apply (.write p.1 p.2 (if o p.2 p.1 = 0 then 255 else 0))) e2 hw hh e3 e4 e5
      refine ⟨m2, a2, ?_, f2, f3, f4, f5, ⟨f6.1.trans e6, f6.2.1.trans e7, f6.2.2.trans e8⟩, ?_⟩
      · rw [List.foldlM_cons]
        by_cases hz : o p.2 p.1 = 0
        · rw [if_pos hz] at e1 ⊢
          rw [e1]
          simp only [CRes.bind, hb.1, hz, decide_true, Bool.not_true, Bool.false_eq_true, if_false]
          exact f1
        · rw [if_neg hz] at e1 ⊢
          rw [e1]
          simp only [CRes.bind, hb.1, hz, decide_false, Bool.not_false, if_true]
          exact f1
      · intro x y
        rw [f7 x y]
        by_cases hl : (x, y) ∈ l
        · rw [if_pos hl, if_pos (List.mem_cons_of_mem _ hl)]
        · rw [if_neg hl]
          by_cases hpe : (x, y) = p
          · subst hpe
            simp [AbsMap.apply]
          · have : ¬ (x = p.1 ∧ y = p.2) := fun h => hpe (by ext <;> simp [h.1, h.2])
            have hm : (x, y) ∉ p :: l := by
              intro h
              rcases List.mem_cons.1 h with h | h
              · exact hpe h
              · exact hl h
            rw [if_neg hm]
            simp [AbsMap.apply, this]
  have hrel0 : m.Rel ⟨m.width, m.height, fun x y => m.data.getD (y * m.width + x) 0⟩ := by
    refine ⟨rfl, rfl, by simpa [u32] using hsz, hlen, ?_⟩
    intro x y hx hy
    have := GridMap.cell_lt hx hy
    simp only at this hx hy ⊢
    have hb : y * m.width + x < m.data.length := by omega
    simp [hb]
  obtain ⟨m2, a2, f1, f2, f3, f4, f5, f6, f7⟩ := main (cells m.width m.height) (fun p hp => mem_cells.1 hp) m _ hrel0
    rfl rfl hl hu hni
  refine ⟨m2, f1, f2.hw.trans f3, f2.hh.trans f4, f6.1, f6.2.1, f6.2.2, ?_⟩
  intro x y hx hy
  have hg := f2.get (x := x) (y := y) (by rw [f3]; exact hx) (by rw [f4]; exact hy)
  rw [f7, if_pos (mem_cells.2 ⟨hx, hy⟩)] at hg
  have := hbyte m2 f5.1 f5.2.1 f5.2.2 ⟨x, y⟩ (decide (o y x = 0)) (by rw [hg]; simp)
  refine ⟨?_, this.2.1, this.2.2⟩
  rw [this.1]
  by_cases hz : o y x = 0 <;> simp [hz]

/-- **C85 (inversion).**  Inverting twice restores the image; on black and white images one inversion exchanges free and
occupied cells; grey cells stay free. -/
theorem invert_spec (o : Nat → Nat → UInt8) (y x : Nat) :
    invertImg (invertImg o) y x = o y x ∧
    (invertImg o y x = 0 ↔ o y x = 255) ∧
    (o y x = 0 ∨ o y x = 255 → (invertImg o y x ≠ 0 ↔ o y x = 0)) := by
  unfold invertImg
  generalize o y x = v
  have key : ∀ n : Fin 256, (255 : UInt8) - (255 - UInt8.ofNat n) = UInt8.ofNat n ∧
      ((255 : UInt8) - UInt8.ofNat n = 0 ↔ UInt8.ofNat n = 255) ∧
      (UInt8.ofNat n = 0 ∨ UInt8.ofNat n = 255 → ((255 : UInt8) - UInt8.ofNat n ≠ 0 ↔ UInt8.ofNat n = 0)) := by
    decide +kernel
  have h := key ⟨v.toNat, v.toNat_lt⟩
  simpa only [UInt8.ofNat_toNat] using h

end

/-! ### Files -/

section
variable {K : Type} [DecidableEq K] [One K] [Zero K] [NatCast K] [Sub K]

/-- **C85 (files).**  A new evaluator with the same size and resolution restores exactly what the last save stored, and
leaves the files alone. -/
theorem construct_restores (halfPi : K) (s : St K) :
    construct halfPi (saveMap s) s.w s.h s.res = .ok (s, saveMap s) := by
  simp [construct, saveMap, loadMap]

/-- **C85, finding (files).**  A new evaluator with another size or another resolution overwrites the saved map by an
empty one: whatever was stored is lost. -/
theorem construct_overwrites (halfPi : K) (s : St K) (w h : Nat) (res : K) (hne : ¬ (w = s.w ∧ h = s.h ∧ res = s.res)) :
    ∃ s', construct halfPi (saveMap s) w h res = .ok (s', saveMap s') ∧ (∀ y x, s'.img y x = 255) ∧
      s'.w = w ∧ s'.h = h ∧ s'.res = res ∧ s'.start = (1, 1, halfPi) ∧ s'.goal = ((w : K) - 1, (h : K) - 1, 0) := by
  refine ⟨(initDefault halfPi w h res).1, ?_, fun _ _ => rfl, rfl, rfl, rfl, rfl, rfl⟩
  unfold construct loadMap saveMap
  simp only
  by_cases hs : w ≠ s.w ∨ h ≠ s.h
  · rw [if_pos hs]; rfl
  · rw [if_neg hs]
    push Not at hs
    have : s.res ≠ res := fun h => hne ⟨hs.1, hs.2, h.symm⟩
    rw [if_pos this]; rfl

/-- **C85, finding (files).**  An image without its YAML file makes the constructor throw. -/
theorem construct_throws (halfPi : K) (w h : Nat) (res : K) (img : Nat → Nat → UInt8) :
    construct halfPi ⟨some (w, h, img), none⟩ w h res = .throw "YAML::BadFile" := by
  simp [construct, loadMap]

end

/-! ### Video -/

/-- Numbers of the frames written between the first and the last: after the first one every `max 1 skip`-th. -/
theorem draws_spec (skip : Int) (fps : Nat) : ∀ n : Nat,
    (Video.draws skip fps 0 (n + 1) Video.new).frames =
      List.replicate (4 * fps) 0 ++ (List.range' 1 n).filter (fun (i : Nat) => decide (((i : Int) - 1) % max 1 skip = 0)) ∧
    (Video.draws skip fps 0 (n + 1) Video.new).image = n + 2 ∧
    (Video.draws skip fps 0 (n + 1) Video.new).firstOrLast = false ∧
    ((n = 0 ∧ (Video.draws skip fps 0 (n + 1) Video.new).skipped = 0) ∨
      (0 < n ∧ (Video.draws skip fps 0 (n + 1) Video.new).skipped = skip - ((n : Int) - 1) % max 1 skip)) := by
  intro n
  induction n with
  | zero =>
    have : Video.draws skip fps 0 1 Video.new = ⟨2, false, 0, List.replicate (4 * fps) 0⟩ := by
      simp [Video.draws, Video.draw, Video.new]
    rw [this]
    exact ⟨by simp, by simp, rfl, .inl ⟨rfl, rfl⟩⟩
  | succ n ih =>
    obtain ⟨i1, i2, i3, i4⟩ := ih
    have hstep : Video.draws skip fps 0 (n + 1 + 1) Video.new =
        (Video.draws skip fps 0 (n + 1) Video.new).draw skip fps (n + 1) := by
      unfold Video.draws
      rw [List.range'_concat]
      simp
    rw [hstep]
    set v := Video.draws skip fps 0 (n + 1) Video.new with hv
    have hd : v.draw skip fps (n + 1) =
        if v.skipped - 1 ≤ 0 then ⟨v.image + 1, false, skip, v.frames ++ [n + 1]⟩
        else ⟨v.image + 1, false, v.skipped - 1, v.frames⟩ := by
      unfold Video.draw
      have : ¬ v.image = 1 := by rw [i2]; omega
      simp only [this, if_false, i3, Bool.false_eq_true]
    have hM : (1 : Int) ≤ max 1 skip := le_max_left _ _
    -- whether this call is recorded
    have hrec : v.skipped - 1 ≤ 0 ↔ ((n : Int)) % max 1 skip = 0 := by
      rcases i4 with ⟨rfl, h⟩ | ⟨hn, h⟩
      · rw [h]; simp
      · rw [h]
        rcases le_or_gt skip 1 with hs | hs
        · rw [max_eq_left hs]
          simp only [Int.emod_one, iff_true]; omega
        · rw [max_eq_right hs.le]
          have h0 := Int.emod_nonneg ((n : Int) - 1) (by omega : skip ≠ 0)
          have h1 := Int.emod_lt_of_pos ((n : Int) - 1) (by omega : 0 < skip)
          have h2 : ((n : Int)) % skip = (((n : Int) - 1) % skip + 1) % skip := by
            rw [Int.emod_add_emod]; congr 1; ring
          rw [h2]
          rcases eq_or_ne (((n : Int) - 1) % skip + 1) skip with he | he
          · rw [he, Int.emod_self]; simp; omega
          · have h3 : (((n : Int) - 1) % skip + 1) % skip = ((n : Int) - 1) % skip + 1 :=
              Int.emod_eq_of_lt (by omega) (by omega)
            rw [h3]; omega
    have hfilter : (List.range' 1 (n + 1)).filter (fun (i : Nat) => decide (((i : Int) - 1) % max 1 skip = 0)) =
        (List.range' 1 n).filter (fun (i : Nat) => decide (((i : Int) - 1) % max 1 skip = 0)) ++
          (if ((n : Int)) % max 1 skip = 0 then [n + 1] else []) := by
      rw [List.range'_concat, List.filter_append]
      congr 1
      simp only [one_mul, List.filter_cons, List.filter_nil, decide_eq_true_eq]
      have e : (((1 + n : Nat) : Int) - 1) = n := by push_cast; ring
      rw [e]
      by_cases hc : (n : Int) % max 1 skip = 0
      · simp [hc, Nat.add_comm]
      · simp [hc]
    rw [hd, hfilter]
    by_cases hc : (n : Int) % max 1 skip = 0
    · rw [if_pos (hrec.2 hc), if_pos hc]
      refine ⟨by simp only [i1, List.append_assoc], by simp only [i2]; push_cast; ring, rfl, .inr ⟨by omega, ?_⟩⟩
      simp only
      rw [show ((n + 1 : Nat) : Int) - 1 = n by push_cast; ring, hc]; ring
    · rw [if_neg (fun h => hc (hrec.1 h)), if_neg hc]
      refine ⟨by simp only [i1, List.append_nil], by simp only [i2]; push_cast; ring, rfl, .inr ⟨by omega, ?_⟩⟩
      simp only
      rw [show ((n + 1 : Nat) : Int) - 1 = n by push_cast; ring]
      rcases i4 with ⟨rfl, h⟩ | ⟨hn, h⟩
      · exact absurd (by simp) hc
      · rw [h]
        rcases le_or_gt skip 1 with hs | hs
        · rw [max_eq_left hs] at hc; exact absurd (Int.emod_one _) hc
        · rw [max_eq_right hs.le] at hc ⊢
          have h0 := Int.emod_nonneg ((n : Int) - 1) (by omega : skip ≠ 0)
          have h1 := Int.emod_lt_of_pos ((n : Int) - 1) (by omega : 0 < skip)
          have h2 : ((n : Int)) % skip = (((n : Int) - 1) % skip + 1) % skip := by
            rw [Int.emod_add_emod]; congr 1; ring
          have h3 : ((n : Int) - 1) % skip + 1 ≠ skip := by
            intro he; rw [he, Int.emod_self] at h2; exact hc h2
          have h4 : (((n : Int) - 1) % skip + 1) % skip = ((n : Int) - 1) % skip + 1 :=
            Int.emod_eq_of_lt (by omega) (by omega)
          rw [h2, h4]; ring

/-- **C86 (video).**  The video of a run with `n` calls of `draw` during the search consists of four seconds of the first
picture, every `max 1 skip`-th picture after it, and four seconds of the last one. -/
theorem video_run (skip : Int) (fps n : Nat) :
    (Video.run skip fps n).frames =
      List.replicate (4 * fps) 0 ++
        (List.range' 1 n).filter (fun (i : Nat) => decide (((i : Int) - 1) % max 1 skip = 0)) ++
        List.replicate (4 * fps) (n + 1) := by
  obtain ⟨h1, h2, h3, _⟩ := draws_spec skip fps n
  unfold Video.run
  simp only
  set v := Video.draws skip fps 0 (n + 1) Video.new with hv
  have : ¬ v.image = 1 := by rw [h2]; omega
  unfold Video.draw
  simp only [this, if_false, if_true, h1]

/-- **C86, finding.**  The label in the picture says `(skip + 1)x`, and `RENDER(T, speed)` passes `speed - 1`, but between
two recorded pictures there are `max 1 skip` steps: a video for double speed records every picture. -/
theorem video_speed (fps n : Nat) : (Video.run 1 fps n).frames = (Video.run 0 fps n).frames ∧
    (Video.run 1 fps n).frames.length = 8 * fps + n := by
  rw [video_run, video_run]
  refine ⟨by simp, ?_⟩
  have : ∀ l : List Nat, l.filter (fun (i : Nat) => decide (((i : Int) - 1) % max 1 1 = 0)) = l := by
    intro l
    rw [List.filter_eq_self]
    intro a _
    simp
  rw [this]
  simp only [List.length_append, List.length_replicate, List.length_range']
  ring

/-! ### Concrete cases -/

/-- Pixel (12, 3) lies in the square of cell (1, 9) of a map with ten rows; clicking it selects row 10, off the map. -/
example : InSquare SCALE (10 * SCALE) 1 9 3 12 ∧ clickCell 10 12 3 = (1, 10) := by
  constructor
  · rw [shown_iff]; decide
  · decide

example : ∃ m', generateMap (fun y x => if x = y then 0 else 7) 2 2
    (((GridMap.mk' 2 2 (1 : ℚ)).setLower 20).setUpper 50) = .ok m' ∧
    m'.isFree ⟨0, 0⟩ = .ok false ∧ m'.isFree ⟨1, 0⟩ = .ok true := by
  obtain ⟨m', h1, _, _, _, _, _, h2⟩ := generateMap_spec (fun y x => if x = y then 0 else 7)
    (((GridMap.mk' 2 2 (1 : ℚ)).setLower 20).setUpper 50) (by decide) (by decide) rfl rfl rfl
  exact ⟨m', h1, (h2 0 0 (by decide) (by decide)).1, (h2 1 0 (by decide) (by decide)).1⟩

example : (Video.run 3 1 8).frames = [0, 0, 0, 0, 1, 4, 7, 9, 9, 9, 9] := by rw [video_run]; decide

end PathPlanning.Eval
