import Verif.Spec.SteerSearch
import Verif.Props.ChunkManager2
import Verif.Props.DynLine
import Verif.Props.Steering3

/-!
# Lemmas about the search with a steering neighbourhood on the chunk manager
-/

noncomputable section
namespace PathPlanning
open Spec

namespace PadCell
variable {w h : Nat}

theorem ext' {c d : PadCell w h} (h1 : c.x = d.x) (h2 : c.y = d.y) (h3 : c.t = d.t) (h4 : c.fwd = d.fwd) : c = d := by
  obtain ⟨a, b, t, f⟩ := c
  obtain ⟨a', b', t', f'⟩ := d
  simp only [x, y, PadCell.t, fwd] at h1 h2 h3 h4
  have e1 : a = a' := Fin.ext (by omega)
  have e2 : b = b' := Fin.ext (by omega)
  have e3 : t = t' := Fin.ext h3
  rw [e1, e2, e3, h4]

theorem bounds (c : PadCell w h) : -31 ≤ c.x ∧ c.x < w + 32 ∧ -31 ≤ c.y ∧ c.y < h + 32 ∧ c.t < 32 := by
  obtain ⟨a, b, t, f⟩ := c
  have := a.2
  have := b.2
  have := t.2
  simp only [x, y, PadCell.t]
  omega

end PadCell

section
variable {w h : Nat} {x y : Int} {t : Nat} {f : Bool}

theorem padLookup_ok (c : PadCell w h) : padLookup w h c.x c.y c.t c.fwd = .ok (some c) := by
  unfold padLookup
  rw [dif_pos c.bounds]
  congr 2
  apply PadCell.ext' <;> simp only [PadCell.x, PadCell.y, PadCell.t, PadCell.fwd]
  · omega
  · omega

theorem padLookup_iff {c : PadCell w h} :
    padLookup w h x y t f = .ok (some c) ↔ c.x = x ∧ c.y = y ∧ c.t = t ∧ c.fwd = f := by
  constructor
  · intro hh
    unfold padLookup at hh
    split_ifs at hh with h1
    injection hh with hh
    injection hh with hh
    subst hh
    refine ⟨?_, ?_, rfl, rfl⟩ <;> simp only [PadCell.x, PadCell.y] <;> omega
  · rintro ⟨rfl, rfl, rfl, rfl⟩
    exact padLookup_ok c

theorem padLookup_good (hr : -31 ≤ x ∧ x < w + 32 ∧ -31 ≤ y ∧ y < h + 32 ∧ t < 32) :
    ∃ c : PadCell w h, padLookup w h x y t f = .ok (some c) := by
  unfold padLookup
  rw [dif_pos hr]
  exact ⟨_, rfl⟩

theorem padLookup_cases (x y : Int) (t : Nat) (f : Bool) (ht : t < 32) :
    (∃ c : PadCell w h, padLookup w h x y t f = .ok (some c)) ∨
    ((padLookup w h x y t f : CRes (Option (PadCell w h))) = .throw "std::out_of_range" ∧
      -32 ≤ x ∧ x < w + 32 ∧ -32 ≤ y ∧ y < h + 32 ∧ (x = -32 ∨ y = -32)) ∨
    ((padLookup w h x y t f : CRes (Option (PadCell w h))) = .throw "OutsideMapException" ∧
      ¬ (-31 ≤ x ∧ x < w + 32 ∧ -31 ≤ y ∧ y < h + 32)) := by
  by_cases h1 : -31 ≤ x ∧ x < w + 32 ∧ -31 ≤ y ∧ y < h + 32 ∧ t < 32
  · exact .inl (padLookup_good h1)
  · right
    unfold padLookup
    rw [dif_neg h1]
    by_cases h2 : -32 ≤ x ∧ x < w + 32 ∧ -32 ≤ y ∧ y < 0 ∧ y < h + 32 ∧ t < 32
    · left; rw [if_pos h2]; exact ⟨rfl, by omega⟩
    · right; rw [if_neg h2]; exact ⟨rfl, by omega⟩

end

section
variable {clamp : ℝ → ℝ} {w h : Nat}

/-- Coordinates that fit into an `int`. -/
def IntNode (k : SNode) : Prop :=
  -2147483648 ≤ ⌊k.x⌋ ∧ ⌊k.x⌋ < 2147483648 ∧ -2147483648 ≤ ⌊k.y⌋ ∧ ⌊k.y⌋ < 2147483648

theorem steerLookup_eq (hc : ClampSpec clamp) {k : SNode} (hk : IntNode k) :
    ∃ t, angle2index clamp 32 k.theta = .ok t ∧ t < 32 ∧
      steerLookup clamp w h k = padLookup w h ⌊k.x⌋ ⌊k.y⌋ t k.forward := by
  obtain ⟨t, ht, ht2, _⟩ := angle2index_in_range hc (slots := 32) (by norm_num) (by norm_num) k.theta
  refine ⟨t, ht, ht2, ?_⟩
  unfold steerLookup GMgr.floorI
  rw [if_pos ⟨hk.1, hk.2.1⟩, if_pos ⟨hk.2.2.1, hk.2.2.2⟩, ht]
  rfl

theorem steerLookup_iff (hc : ClampSpec clamp) (hw : w + 64 < 2 ^ 31) (hh : h + 64 < 2 ^ 31) {k : SNode}
    {n : PadCell w h} :
    steerLookup clamp w h k = .ok (some n) ↔
      n.x = ⌊k.x⌋ ∧ n.y = ⌊k.y⌋ ∧ angle2index clamp 32 k.theta = .ok n.t ∧ n.fwd = k.forward := by
  by_cases hk : IntNode k
  · obtain ⟨t, ht, _, e⟩ := steerLookup_eq (w := w) (h := h) hc hk
    rw [e, padLookup_iff, ht]
    simp only [CRes.ok.injEq]
    exact ⟨fun ⟨a, b, c, d⟩ => ⟨a, b, c.symm, d⟩, fun ⟨a, b, c, d⟩ => ⟨a, b, c.symm, d⟩⟩
  · constructor
    · intro e
      exfalso
      unfold steerLookup GMgr.floorI at e
      obtain ⟨x1, e1, e⟩ := CRes.bind_eq_ok.1 e
      obtain ⟨y1, e2, e⟩ := CRes.bind_eq_ok.1 e
      split_ifs at e1 e2 with h1 h2
      exact hk ⟨h1.1, h1.2, h2.1, h2.2⟩
    · rintro ⟨a, b, _, _⟩
      exfalso
      have := n.bounds
      apply hk
      unfold IntNode
      omega

theorem inside_of_lookup (hc : ClampSpec clamp) (hw : w + 64 < 2 ^ 31) (hh : h + 64 < 2 ^ 31) {k : SNode}
    {n : PadCell w h} (e : steerLookup clamp w h k = .ok (some n)) : InsidePad w h k := by
  obtain ⟨h1, h2, _, _⟩ := (steerLookup_iff hc hw hh).1 e
  have := n.bounds
  unfold InsidePad
  omega

theorem lookup_of_inside (hc : ClampSpec clamp) (hw : w + 64 < 2 ^ 31) (hh : h + 64 < 2 ^ 31) {k : SNode}
    (hi : InsidePad w h k) : ∃ n, steerLookup clamp w h k = .ok (some n) := by
  obtain ⟨h1, h2, h3, h4⟩ := hi
  obtain ⟨t, _, ht, e⟩ := steerLookup_eq (w := w) (h := h) hc (k := k) ⟨by omega, by omega, by omega, by omega⟩
  rw [e]
  exact padLookup_good ⟨h1, h2, h3, h4, ht⟩

end

/-! ### The map tests -/

section
variable {m : GridMap ℝ} {D : ℝ}

theorem _root_.PathPlanning.Spec.SteerMapOk.sizes (hm : SteerMapOk m D) : m.width + 64 < 2 ^ 31 ∧ m.height + 64 < 2 ^ 31 := by
  have h1 := hm.w
  have h2 := hm.h
  have h3 := hm.D
  constructor
  · have : (m.width : ℝ) + 64 < 2 ^ 31 := by linarith
    exact_mod_cast this
  · have : (m.height : ℝ) + 64 < 2 ^ 31 := by linarith
    exact_mod_cast this

theorem _root_.PathPlanning.Spec.SteerMapOk.wf (hm : SteerMapOk m D) : m.WellFormed := by
  obtain ⟨h1, h2⟩ := hm.sizes
  exact ⟨by omega, by omega, hm.size, hm.len⟩

theorem steerContains_iff (hm : SteerMapOk m D) {k : SNode} (hk : IntNode k) :
    ∃ c, steerContains m.width m.height k = .ok c ∧
      (c = true ↔ -32 ≤ ⌊k.x⌋ ∧ ⌊k.x⌋ < m.width + 32 ∧ -32 ≤ ⌊k.y⌋ ∧ ⌊k.y⌋ < m.height + 32) := by
  unfold steerContains GMgr.floorI
  rw [if_pos ⟨hk.1, hk.2.1⟩, if_pos ⟨hk.2.2.1, hk.2.2.2⟩]
  exact ⟨_, rfl, DMgr.contains_iff hm.sizes (DMgr.inv_setMap _ _) _ _⟩

/-- The test of a step is total; it is true iff the end is on the padded map and the line test succeeds.  The state of the
line walker plays no role. -/
theorem steerUsable_iff (hm : SteerMapOk m D) (skips : Nat) (b : Bres ℝ) {k k' : SNode} (hk : InsidePad m.width m.height k)
    (hk' : IntNode k') :
    ∃ u, steerUsable m skips b k k' = .ok u ∧
      (u = true ↔ (-32 ≤ ⌊k'.x⌋ ∧ ⌊k'.x⌋ < m.width + 32 ∧ -32 ≤ ⌊k'.y⌋ ∧ ⌊k'.y⌋ < m.height + 32) ∧
        LineOk m skips k k') := by
  obtain ⟨c, hc, hciff⟩ := steerContains_iff hm hk'
  unfold steerUsable
  rw [hc]
  simp only [CRes.ok_bind]
  by_cases hcc : c = true
  swap
  · have : c = false := by simpa using hcc
    subst this
    refine ⟨false, rfl, ?_⟩
    constructor
    · intro e; cases e
    · intro e; exact absurd (hciff.2 e.1) (by simp)
  · subst hcc
    have hr := hciff.1 rfl
    simp only [Bool.not_true, Bool.false_eq_true, if_false]
    have wf := hm.wf
    have iff1 := GridMap.isInMap_iff m wf.w wf.h (⌊k.x⌋ + 32) (⌊k.y⌋ + 32)
    have iff2 := GridMap.isInMap_iff m wf.w wf.h (⌊k'.x⌋ + 32) (⌊k'.y⌋ + 32)
    obtain ⟨i1, i2, i3, i4⟩ := hk
    by_cases hin : m.isInMap (⌊k.x⌋ + 32) (⌊k.y⌋ + 32) = true ∧ m.isInMap (⌊k'.x⌋ + 32) (⌊k'.y⌋ + 32) = true
    · obtain ⟨_, ⟨r, hr1, hr2⟩, _⟩ := dynLine_iff_partial b m wf skips k.x k.y k'.x k'.y hin.1 hin.2
        ((⌊k'.x⌋ - ⌊k.x⌋).natAbs + (⌊k'.y⌋ - ⌊k.y⌋).natAbs + 1) (by unfold lineLength; omega)
      rw [hr1]
      refine ⟨r, rfl, ?_⟩
      rw [hr2]
      unfold LineOk
      constructor
      · rintro ⟨h1, h2⟩; exact ⟨hr, h2, fun _ _ => h1⟩
      · rintro ⟨_, h2, h1⟩; exact ⟨h1 hin.1 hin.2, h2⟩
    · obtain ⟨_, e, _⟩ := dynLine_near_edge b m wf skips k.x k.y k'.x k'.y (by
        by_contra hcon
        apply hin
        rw [iff1, iff2]
        omega) ((⌊k'.x⌋ - ⌊k.x⌋).natAbs + (⌊k'.y⌋ - ⌊k.y⌋).natAbs + 1) (by omega)
      obtain ⟨r, hr1⟩ := (pt_total m wf (truncC k.x) (truncC k.y)).2.1
      rw [e, hr1]
      refine ⟨r, rfl, ?_⟩
      unfold LineOk
      rw [hr1]
      constructor
      · intro hrr; subst hrr; exact ⟨hr, rfl, fun h1 h2 => absurd ⟨h1, h2⟩ hin⟩
      · rintro ⟨_, h2, _⟩; injection h2

end

/-! ### Reachable poses -/

section
variable {clamp : ℝ → ℝ} {m : GridMap ℝ} {skips : Nat} {b : Bres ℝ} {S : SteerCfg} {pd : Nat}
  {mvs : List (SNode → List SNode → Option (ℝ × SNode))} {isg : SNode → SNode → Option SNode → Bool} {D : ℝ}

/-- No step is longer than `D` cells. -/
def StepBound (mvs : List (SNode → List SNode → Option (ℝ × SNode))) (D : ℝ) : Prop :=
  ∀ mv ∈ mvs, ∀ k ps c k', mv k ps = some (c, k') → nodeDist k k' ≤ D

theorem abs_le_nodeDist (a b : SNode) : |a.x - b.x| ≤ nodeDist a b ∧ |a.y - b.y| ≤ nodeDist a b := by
  unfold nodeDist
  constructor
  · rw [← Real.sqrt_sq_eq_abs]; exact Real.sqrt_le_sqrt (by nlinarith [sq_nonneg (a.y - b.y)])
  · rw [← Real.sqrt_sq_eq_abs]; exact Real.sqrt_le_sqrt (by nlinarith [sq_nonneg (a.x - b.x)])

theorem intNode_of_step (hm : SteerMapOk m D) {k k' : SNode} (hk : InsidePad m.width m.height k)
    (hd : nodeDist k k' ≤ D) : IntNode k' := by
  obtain ⟨a, c⟩ := abs_le_nodeDist k k'
  rw [abs_le] at a c
  obtain ⟨i1, i2, i3, i4⟩ := hk
  have hw := hm.w
  have hh := hm.h
  have hD : D < 2 ^ 31 - 64 := by
    have : (0 : ℝ) ≤ m.width := Nat.cast_nonneg _
    linarith
  have f1 : (-31 : ℝ) ≤ k.x := by have := Int.le_floor.1 i1; exact_mod_cast this
  have f3 : (-31 : ℝ) ≤ k.y := by have := Int.le_floor.1 i3; exact_mod_cast this
  have f2 : k.x < m.width + 32 := by have := Int.floor_lt.1 i2; exact_mod_cast this
  have f4 : k.y < m.height + 32 := by have := Int.floor_lt.1 i4; exact_mod_cast this
  refine ⟨Int.le_floor.2 ?_, Int.floor_lt.2 ?_, Int.le_floor.2 ?_, Int.floor_lt.2 ?_⟩ <;> push_cast <;> linarith

/-- Every pose the search can reach lies on the padded map, off the bad lines. -/
theorem reachable_inside (hc : ClampSpec clamp) (hm : SteerMapOk m D) {start : List (PadCell m.width m.height)}
    {kin0 : PadCell m.width m.height → SNode} (h0 : ∀ s ∈ start, InsidePad m.width m.height (kin0 s)) {k : SNode}
    (hr : Reachable (padAlgo clamp m skips b S mvs pd isg) start kin0 k) : InsidePad m.width m.height k := by
  cases hr with
  | start hs => exact h0 _ hs
  | step _ _ hl => exact inside_of_lookup hc hm.sizes.1 hm.sizes.2 hl

theorem asked_facts (hc : ClampSpec clamp) (hm : SteerMapOk m D) (hs : StepBound mvs D)
    {start : List (PadCell m.width m.height)} {kin0 : PadCell m.width m.height → SNode}
    (h0 : ∀ s ∈ start, InsidePad m.width m.height (kin0 s)) {k k' : SNode}
    (ha : Asked (padAlgo clamp m skips b S mvs pd isg) start kin0 k k') :
    InsidePad m.width m.height k ∧ IntNode k' := by
  obtain ⟨hr, mv, hmv, ps, c, e⟩ := ha
  have hi := reachable_inside hc hm h0 hr
  exact ⟨hi, intNode_of_step hm hi (hs mv hmv _ _ _ _ e)⟩

/-- The map operations throw only for poses on the bad lines. -/
theorem pad_throws (hc : ClampSpec clamp) (hm : SteerMapOk m D) (hs : StepBound mvs D)
    {start : List (PadCell m.width m.height)} {kin0 : PadCell m.width m.height → SNode}
    (h0 : ∀ s ∈ start, InsidePad m.width m.height (kin0 s)) {e : String}
    (ht : MapThrows (padAlgo clamp m skips b S mvs pd isg) start kin0 e) :
    (e = "OutsideMapException" ∨ e = "std::out_of_range") ∧
    ∃ k c k', Reachable (padAlgo clamp m skips b S mvs pd isg) start kin0 k ∧
      LegalStep (padAlgo clamp m skips b S mvs pd isg) k c k' ∧ OnEdge m.width m.height k' := by
  obtain ⟨k, k', ha, h1⟩ := ht
  obtain ⟨hi, hk'⟩ := asked_facts hc hm hs h0 ha
  obtain ⟨u, hu, huiff⟩ := steerUsable_iff hm skips b hi hk'
  have hu2 : (padAlgo clamp m skips b S mvs pd isg).usable k k' = .ok u := hu
  rw [hu2] at h1
  rcases h1 with h1 | ⟨h1, h2⟩
  · cases h1
  injection h1 with h1
  obtain ⟨hr, _⟩ := huiff.1 h1
  obtain ⟨t, _, htl, he⟩ := steerLookup_eq (w := m.width) (h := m.height) hc hk'
  have h3 : steerLookup clamp m.width m.height k' = .throw e := h2
  rw [he] at h3
  obtain ⟨hreach, mv, hmv, ps, c, hmove⟩ := ha
  have hex : OnEdge m.width m.height k' → ∃ k c k', Reachable (padAlgo clamp m skips b S mvs pd isg) start kin0 k ∧
      LegalStep (padAlgo clamp m skips b S mvs pd isg) k c k' ∧ OnEdge m.width m.height k' :=
    fun hh => ⟨k, c, k', hreach, ⟨mv, hmv, ps, hmove, by rw [hu2, h1]⟩, hh⟩
  rcases padLookup_cases (w := m.width) (h := m.height) ⌊k'.x⌋ ⌊k'.y⌋ t k'.forward htl with ⟨n, q⟩ | ⟨q, q2⟩ | ⟨q, q2⟩
  · rw [q] at h3; cases h3
  · rw [q] at h3; cases h3
    exact ⟨.inr rfl, hex q2⟩
  · rw [q] at h3; cases h3
    refine ⟨.inl rfl, hex ⟨hr.1, hr.2.1, hr.2.2.1, hr.2.2.2, by omega⟩⟩

theorem pad_no_ub (hc : ClampSpec clamp) (hm : SteerMapOk m D) (hs : StepBound mvs D)
    {start : List (PadCell m.width m.height)} {kin0 : PadCell m.width m.height → SNode}
    (h0 : ∀ s ∈ start, InsidePad m.width m.height (kin0 s)) :
    ¬ MapUb (padAlgo clamp m skips b S mvs pd isg) start kin0 := by
  rintro ⟨k, k', ha, h1⟩
  obtain ⟨hi, hk'⟩ := asked_facts hc hm hs h0 ha
  obtain ⟨u, hu, _⟩ := steerUsable_iff hm skips b hi hk'
  have hu2 : (padAlgo clamp m skips b S mvs pd isg).usable k k' = .ok u := hu
  rw [hu2] at h1
  rcases h1 with h1 | ⟨_, h2⟩
  · cases h1
  have h3 : steerLookup clamp m.width m.height k' = .ub := h2
  obtain ⟨t, _, htl, he⟩ := steerLookup_eq (w := m.width) (h := m.height) hc hk'
  rw [he] at h3
  rcases padLookup_cases (w := m.width) (h := m.height) ⌊k'.x⌋ ⌊k'.y⌋ t k'.forward htl with ⟨n, q⟩ | ⟨q, _⟩ | ⟨q, _⟩ <;>
    rw [q] at h3 <;> cases h3

/-- If no reachable pose has a legal step onto the bad lines, the map operations never fail. -/
theorem pad_mapOk (hc : ClampSpec clamp) (hm : SteerMapOk m D) (hs : StepBound mvs D)
    {start : List (PadCell m.width m.height)} {kin0 : PadCell m.width m.height → SNode}
    (h0 : ∀ s ∈ start, InsidePad m.width m.height (kin0 s))
    (hedge : ∀ k c k', Reachable (padAlgo clamp m skips b S mvs pd isg) start kin0 k →
      LegalStep (padAlgo clamp m skips b S mvs pd isg) k c k' → ¬ OnEdge m.width m.height k') :
    MapOk (padAlgo clamp m skips b S mvs pd isg) start kin0 where
  usable k k' ha := by
    obtain ⟨hi, hk'⟩ := asked_facts hc hm hs h0 ha
    obtain ⟨u, hu, _⟩ := steerUsable_iff hm skips b hi hk'
    exact ⟨u, hu⟩
  lookup k k' ha hus := by
    obtain ⟨hi, hk'⟩ := asked_facts hc hm hs h0 ha
    obtain ⟨u, hu, huiff⟩ := steerUsable_iff hm skips b hi hk'
    have hu2 : (padAlgo clamp m skips b S mvs pd isg).usable k k' = .ok u := hu
    rw [hu2] at hus
    injection hus with hus
    obtain ⟨hr, _⟩ := huiff.1 hus
    obtain ⟨hreach, mv, hmv, ps, c, hmove⟩ := ha
    have := hedge k c k' hreach ⟨mv, hmv, ps, hmove, by rw [hu2, hus]⟩
    obtain ⟨n, hn⟩ := lookup_of_inside hc hm.sizes.1 hm.sizes.2 (k := k') (by
      unfold OnEdge at this
      unfold InsidePad
      omega)
    exact ⟨some n, hn⟩

end

/-! ### Start and goal -/

section
variable {clamp : ℝ → ℝ} {m : GridMap ℝ} {D : ℝ}

/-- The heading slot of `getPoses`. -/
theorem angle2index_zero (hc : ClampSpec clamp) : angle2index clamp 32 0 = .ok 15 := by
  rw [angle2index_iff hc (by norm_num) (by norm_num)]
  have hp := Real.pi_pos
  have : clamp 0 = 0 := clamp_of_mem hc (by linarith) hp
  rw [this]
  norm_num
  constructor <;> nlinarith

/-- The nodes of a pose. -/
def poseCells {w h : Nat} (p : Pose) (ns : List (PadCell w h)) : Prop :=
  ∃ a b : PadCell w h, ns = [a, b] ∧ (a.x = ⌊p.x⌋ ∧ a.y = ⌊p.y⌋ ∧ a.t = 15 ∧ a.fwd = true) ∧
    (b.x = ⌊p.x⌋ ∧ b.y = ⌊p.y⌋ ∧ b.t = 15 ∧ b.fwd = false)

theorem getPoses_cases {w h : Nat} (hc : ClampSpec clamp) {p : Pose} (hp : IntPose p) :
    (∃ ns, getPoses clamp w h p = .ok ns ∧ poseCells p ns) ∨
    (∃ e, getPoses clamp w h p = .throw e ∧ (e = "OutsideMapException" ∨ e = "std::out_of_range") ∧
      ¬ (-31 ≤ ⌊p.x⌋ ∧ ⌊p.x⌋ < w + 32 ∧ -31 ≤ ⌊p.y⌋ ∧ ⌊p.y⌋ < h + 32)) := by
  have key : ∀ f, steerLookup clamp w h ⟨p.x, p.y, 0, f, 0, 0, 0⟩ = padLookup w h ⌊p.x⌋ ⌊p.y⌋ 15 f := by
    intro f
    obtain ⟨t, h1, h2, h3⟩ := steerLookup_eq (w := w) (h := h) hc (k := ⟨p.x, p.y, 0, f, 0, 0, 0⟩) hp
    rw [h3]
    have : t = 15 := by
      have h1' : angle2index clamp 32 0 = .ok t := h1
      rw [angle2index_zero hc] at h1'
      injection h1' with h1'
      exact h1'.symm
    rw [this]
  unfold getPoses
  rw [key, key]
  rcases padLookup_cases (w := w) (h := h) ⌊p.x⌋ ⌊p.y⌋ 15 true (by norm_num) with ⟨a, q⟩ | ⟨q, q2⟩ | ⟨q, q2⟩
  · left
    obtain ⟨a1, a2, a3, a4⟩ := padLookup_iff.1 q
    have hb := a.bounds
    obtain ⟨c, q'⟩ := padLookup_good (w := w) (h := h) (x := ⌊p.x⌋) (y := ⌊p.y⌋) (t := 15) (f := false) (by omega)
    rw [q, q']
    exact ⟨_, rfl, a, c, rfl, ⟨a1, a2, a3, a4⟩, padLookup_iff.1 q'⟩
  · right
    rw [q]
    exact ⟨_, rfl, .inr rfl, by omega⟩
  · right
    rw [q]
    exact ⟨_, rfl, .inl rfl, q2⟩

theorem notOccupied_spec (hm : m.WellFormed) : ∀ ns : List (PadCell m.width m.height),
    ∃ r, notOccupied m ns = .ok r ∧ ∀ n, n ∈ r ↔ n ∈ ns ∧ ptOccupied m n.x n.y = .ok false := by
  intro ns
  induction ns with
  | nil => exact ⟨[], rfl, by simp⟩
  | cons n ns ih =>
    obtain ⟨r, e, hr⟩ := ih
    obtain ⟨o, ho⟩ := (pt_total m hm n.x n.y).2.2
    rw [notOccupied, ho, e]
    refine ⟨if o then r else n :: r, rfl, fun k => ?_⟩
    cases o with
    | true =>
      simp only [if_true, hr, List.mem_cons]
      constructor
      · rintro ⟨a, b⟩; exact ⟨.inr a, b⟩
      · rintro ⟨rfl | a, b⟩
        · rw [ho] at b; cases b
        · exact ⟨a, b⟩
    | false =>
      simp only [Bool.false_eq_true, if_false, hr, List.mem_cons]
      constructor
      · rintro (rfl | ⟨a, b⟩)
        · exact ⟨.inl rfl, ho⟩
        · exact ⟨.inr a, b⟩
      · rintro ⟨rfl | a, b⟩
        · exact .inl rfl
        · exact .inr ⟨a, b⟩

/-- What the initialisation does. -/
theorem padInit_cases (hc : ClampSpec clamp) (hm : SteerMapOk m D) {start goal : Pose} (h1 : IntPose start)
    (h2 : IntPose goal) :
    (∃ sp s gp g, padInit clamp m start goal = .ok (sp, s, gp, g) ∧ poseCells start sp ∧ poseCells goal gp ∧
      (∀ n, n ∈ s ↔ n ∈ sp ∧ ptOccupied m n.x n.y = .ok false) ∧
      ∀ n, n ∈ g ↔ n ∈ gp ∧ ptOccupied m n.x n.y = .ok false) ∨
    (∃ e, padInit clamp m start goal = .throw e ∧ (e = "OutsideMapException" ∨ e = "std::out_of_range") ∧
      (¬ (-31 ≤ ⌊start.x⌋ ∧ ⌊start.x⌋ < m.width + 32 ∧ -31 ≤ ⌊start.y⌋ ∧ ⌊start.y⌋ < m.height + 32) ∨
        ¬ (-31 ≤ ⌊goal.x⌋ ∧ ⌊goal.x⌋ < m.width + 32 ∧ -31 ≤ ⌊goal.y⌋ ∧ ⌊goal.y⌋ < m.height + 32))) := by
  unfold padInit
  rcases getPoses_cases (w := m.width) (h := m.height) hc h1 with ⟨sp, e1, p1⟩ | ⟨e, e1, e2, e3⟩
  swap
  · right; rw [e1]; exact ⟨e, rfl, e2, .inl e3⟩
  obtain ⟨s, e3, hs⟩ := notOccupied_spec hm.wf sp
  rcases getPoses_cases (w := m.width) (h := m.height) hc h2 with ⟨gp, g1, p2⟩ | ⟨e, g1, g2, g3⟩
  swap
  · right; rw [e1]; simp only [CRes.ok_bind, e3, g1]; exact ⟨e, rfl, g2, .inr g3⟩
  obtain ⟨g, g3, hg⟩ := notOccupied_spec hm.wf gp
  left
  rw [e1]
  simp only [CRes.ok_bind, e3, g1, g3]
  exact ⟨sp, s, gp, g, rfl, p1, p2, hs, hg⟩

theorem padContent_inside {w h : Nat} {sp s gp g : List (PadCell w h)} {start goal : Pose} (n : PadCell w h) :
    InsidePad w h (padContent sp s gp g start goal n) := by
  have := n.bounds
  unfold InsidePad padContent initContent
  simp only [Int.floor_intCast]
  omega

end

end PathPlanning
