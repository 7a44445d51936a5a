import Verif.Props.Area
import Verif.Props.Circle

/-!
# C09, C11: areas without cells, writing and reading through an area
-/

set_option linter.unusedSectionVars false

namespace PathPlanning

open Spec

namespace MapArea
variable {S K : Type}

/-- `setAreaValue(area)` with an area whose value is constant does the same as `setAreaValue(area, v)`. -/
theorem writeArea_const (A : MapArea S) (v : UInt8) (hv : ∀ s, A.getValue s = .ok v) (m : GridMap K) (fuel : Nat)
    (s : S) : A.writeArea m fuel s = A.setAreaValue m v fuel s := by
  have gen : ∀ (fuel : Nat) (s : S) (m : GridMap K), A.writeLoop fuel s m = A.setLoop v fuel s m := by
    intro fuel
    induction fuel with
    | zero => intro s m; rfl
    | succ n ih =>
      intro s m
      rw [writeLoop, setLoop]
      simp only [hv, CRes.ok_bind, ih]
  unfold writeArea setAreaValue
  simp only [gen]

variable [Field K] [LinearOrder K] [IsStrictOrderedRing K] [FloorRing K]

/-- Reading the map through an area that ignores the values is defined and only iterates. -/
theorem readLoop_ignores {A : MapArea S} (hset : ∀ s v, A.setValue s v = .ok s) {m : GridMap K} (wf : m.WellFormed)
    {s : S} {cs : List (Int × Int)} (hy : Yields A s cs) (fuel : Nat) (hf : cs.length < fuel) :
    A.readLoop m fuel s = .ok (some ((fun s => (A.next s).2)^[cs.length + 1] s)) := by
  induction hy generalizing fuel with
  | done h =>
    obtain ⟨n, rfl⟩ : ∃ n, fuel = n + 1 := ⟨fuel - 1, by omega⟩
    simp [readLoop, h]
  | @step s c cs h1 h2 _ ih =>
    simp only [List.length_cons] at hf
    obtain ⟨n, rfl⟩ : ∃ n, fuel = n + 1 := ⟨fuel - 1, by omega⟩
    rw [readLoop]
    simp only [h1, if_true, h2, CRes.ok_bind]
    rw [List.length_cons, Function.iterate_succ_apply]
    by_cases hin : m.isInMap c.1 c.2 = true
    · obtain ⟨w, hw, _⟩ := byte_ok wf hin
      rw [if_pos hin]
      simp only [hw, CRes.ok_bind, hset]
      exact ih n (by omega)
    · rw [if_neg hin]; exact ih n (by omega)

end MapArea

section num
variable {K : Type} [Field K] [LinearOrder K] [IsStrictOrderedRing K] [FloorRing K]

/-- **C11.** `setAreaValue(robotArea)` clears the cells of the footprint on the map to 0 and changes
nothing else. -/
theorem robotArea_write {m : GridMap K} (wf : m.WellFormed) (s : RobotSt) (hi : s.init = true) (fuel : Nat)
    (hf : s.cells.length < fuel) : ∃ m', robotArea.writeArea m fuel s = .ok (some m') ∧ m'.WellFormed ∧
      m'.width = m.width ∧ m'.height = m.height ∧
      ∀ x y, x < m.width → y < m.height → m'.getValue ⟨x, y⟩ =
        if ((x : Int), (y : Int)) ∈ s.cells.map (fun c => (s.x + c.1, s.y + c.2)) then .ok 0
        else m.getValue ⟨x, y⟩ := by
  obtain ⟨s0, hb, hy, _⟩ := robotArea_visits_all s hi
  obtain ⟨m', h1, h2, h3, h4, _, _, _, _, _, _, h5⟩ :=
    MapArea.setAreaValue_exact wf hb hy 0 fuel (by simpa using hf)
  exact ⟨m', by rw [MapArea.writeArea_const robotArea 0 (fun _ => rfl)]; exact h1, h2, h3, h4, h5⟩

/-- **C11 (finding).** `getAreaValues(robotArea)` is defined but the values of the map are dropped: the
area differs from before only in the position of its iterator. -/
theorem robotArea_read {m : GridMap K} (wf : m.WellFormed) (s : RobotSt) (hi : s.init = true) (fuel : Nat)
    (hf : s.cells.length < fuel) :
    robotArea.readArea m fuel s = .ok (some { s with idx := s.cells.length }) := by
  have hb : robotArea.begin s = .ok { s with idx := -1 } := by simp [robotArea, hi]
  have hy := robotArea_yields_from { s with idx := -1 } 0 (by simp) (Nat.zero_le _)
  simp only [List.drop_zero] at hy
  unfold MapArea.readArea
  rw [hb, CRes.ok_bind, MapArea.readLoop_ignores (fun _ _ => rfl) wf hy fuel (by simpa using hf)]
  have it : ∀ (n : Nat) (s : RobotSt), (fun s => (robotArea.next s).2)^[n] s = { s with idx := s.idx + n } := by
    intro n
    induction n with
    | zero => intro s; simp
    | succ n ih =>
      intro s
      rw [Function.iterate_succ_apply, ih]
      simp only [robotArea]
      congr 1
      push_cast; ring
  rw [it]
  simp only [List.length_map]
  congr 3
  push_cast; ring

/-- **C09.** The iteration of a circle completes exactly if the circle has no cells. -/
theorem circleArea_drain_iff (s : CircleSt) (fuel : Nat) (r : List (Int × Int)) :
    circleArea.drain fuel s = .ok (some r) ↔ s.cells = [] ∧ r = [] ∧ fuel ≠ 0 := by
  by_cases hne : s.cells = []
  · rcases fuel with _ | n
    · simp [MapArea.drain, MapArea.drainLoop, circleArea]
    · have : circleArea.drain (n + 1) s = .ok (some []) := by simp [MapArea.drain, MapArea.drainLoop, circleArea, hne]
      rw [this]
      constructor
      · intro h; injection h with h; injection h with h; exact ⟨hne, h.symm, by omega⟩
      · rintro ⟨_, rfl, _⟩; rfl
  · constructor
    · intro h; exact absurd h (circleArea_iteration_never_completes s hne fuel r)
    · intro h; exact absurd h.1 hne

/-- **C09.** The same for lines. -/
theorem lineArea_drain_iff (s : LineSt) (fuel : Nat) (r : List (Int × Int)) :
    lineArea.drain fuel s = .ok (some r) ↔ s.cells = [] ∧ r = [] ∧ fuel ≠ 0 := by
  by_cases hne : s.cells = []
  · rcases fuel with _ | n
    · simp [MapArea.drain, MapArea.drainLoop, lineArea]
    · have : lineArea.drain (n + 1) s = .ok (some []) := by simp [MapArea.drain, MapArea.drainLoop, lineArea, hne]
      rw [this]
      constructor
      · intro h; injection h with h; injection h with h; exact ⟨hne, h.symm, by omega⟩
      · rintro ⟨_, rfl, _⟩; rfl
  · constructor
    · intro h; exact absurd h (lineArea_iteration_never_completes s hne fuel r)
    · intro h; exact absurd h.1 hne

/-- **C09.** A circle around a point off the map, or with a radius of 0 or less: it has no cells, counts as
free and as not occupied, writing through it changes nothing, and the whole map passes the test. -/
theorem circle_off_map (fuel n : Nat) (m : GridMap K) (px py radius : K) {b : Bool} {c : UCell}
    (h : m.point2cell px py = .ok (b, c)) (ho : b = false ∨ radius ≤ 0) :
    ∃ s, CircleSt.ctor fuel m px py radius = .ok (some s) ∧ s.value = 0 ∧
      circleArea.isAreaFree m (n + 1) s = .ok (some true) ∧
      circleArea.isAreaOccupied m (n + 1) s = .ok (some false) ∧
      (∀ v, circleArea.setAreaValue m v (n + 1) s = .ok (some m)) ∧
      circleArea.writeArea m (n + 1) s = .ok (some m) := by
  have : (!b || decide (radius ≤ 0)) = true := by rcases ho with h | h <;> simp [h]
  refine ⟨⟨0, [], 0, 0, 0, []⟩, by
    simp only [CircleSt.ctor, CircleSt.initC, h, CRes.ok_bind, this, if_true]; rfl, rfl, ?_, ?_, ?_, ?_⟩
  · simp [MapArea.isAreaFree, MapArea.freeLoop, circleArea]
  · simp [MapArea.isAreaOccupied, MapArea.occLoop, circleArea]
  · intro v; simp [MapArea.setAreaValue, MapArea.setLoop, circleArea]
  · simp [MapArea.writeArea, MapArea.writeLoop, circleArea]

/-- The constructor of a circle fixes the value 0 and sets the iterator to the beginning. -/
theorem circle_ctor_value (fuel : Nat) (m : GridMap K) (px py radius : K) {s : CircleSt}
    (h : CircleSt.ctor fuel m px py radius = .ok (some s)) : s.value = 0 ∧ s.counter = 0 ∧ s.values = [] := by
  unfold CircleSt.ctor CircleSt.initC at h
  obtain ⟨r, h1, h⟩ := CRes.bind_eq_ok.1 h
  split at h
  · simp only [CRes.pure_eq] at h; injection h with h; injection h with h; subst h; exact ⟨rfl, rfl, rfl⟩
  · obtain ⟨s1, h2, h⟩ := CRes.bind_eq_ok.1 h
    have hs1 : s1.value = 0 ∧ s1.counter = 0 ∧ s1.values = [] := by
      unfold CircleSt.setCenter at h2
      rw [h1, CRes.ok_bind] at h2
      split at h2 <;> (simp only [CRes.pure_eq] at h2; injection h2 with h2; subst h2; exact ⟨rfl, rfl, rfl⟩)
    split at h
    · simp only [CRes.pure_eq] at h; injection h with h; injection h with h; subst h; exact hs1
    · obtain ⟨cr, _, h⟩ := CRes.bind_eq_ok.1 h
      split at h
      · simp at h
      · simp only [CRes.pure_eq] at h; injection h with h; injection h with h; subst h; exact hs1

end num

/-- Non-vacuity: a footprint of three cells, one of them off the map, is written and read. -/
example : ∃ (s : RobotSt) (m m' : GridMap ℚ), m.WellFormed ∧ s.cells.length = 3 ∧
    robotArea.writeArea m 4 s = .ok (some m') ∧ robotArea.readArea m 4 s = .ok (some { s with idx := 3 }) := by
  have wf : (GridMap.mk' 4 3 1 : GridMap ℚ).WellFormed := ⟨by decide, by decide, by decide, by decide +kernel⟩
  obtain ⟨m', h, _⟩ := robotArea_write wf (RobotSt.setPosition ⟨0, 0, false, 7, [(0, 1), (1, 1), (0, 0)]⟩ 3 1) rfl 4
    (by decide)
  exact ⟨_, _, m', wf, rfl, h, robotArea_read wf _ rfl 4 (by decide)⟩

end PathPlanning
