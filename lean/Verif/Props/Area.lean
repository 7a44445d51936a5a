import Verif.Model.Area
import Verif.Props.Bresenham

/-!
# Properties C08, C09, C11, C12: map areas
-/

set_option linter.unusedSectionVars false

namespace PathPlanning

open Spec

namespace MapArea
variable {S K : Type}

/-- From state `s` on, `while(next()) getCell(...)` is defined and visits exactly the cells `cs`, in
this order, and then stops. -/
inductive Yields (A : MapArea S) : S → List (Int × Int) → Prop
  | done {s} : (A.next s).1 = false → Yields A s []
  | step {s c cs} : (A.next s).1 = true → A.getCell (A.next s).2 = .ok c →
      Yields A (A.next s).2 cs → Yields A s (c :: cs)

theorem Yields.drainLoop {A : MapArea S} {s : S} {cs : List (Int × Int)} (h : Yields A s cs) :
    ∀ (fuel : Nat) (acc : List (Int × Int)), cs.length < fuel →
      A.drainLoop fuel s acc = .ok (some (acc ++ cs)) := by
  induction h with
  | done h => 
    intro fuel acc hf
    obtain ⟨n, rfl⟩ : ∃ n, fuel = n + 1 := ⟨fuel - 1, by omega⟩
    simp [MapArea.drainLoop, h]
  | step h1 h2 _ ih =>
    intro fuel acc hf
    obtain ⟨n, rfl⟩ : ∃ n, fuel = n + 1 := ⟨fuel - 1, by omega⟩
    simp only [List.length_cons] at hf
    simp [MapArea.drainLoop, h1, h2, ih n _ (by omega)]

/-- What `f` answers on the in-map cell `c`. -/
def onCell (f : UCell → CRes Bool) (c : Int × Int) : CRes Bool := f ⟨c.1.toNat, c.2.toNat⟩

variable [Field K] [LinearOrder K] [IsStrictOrderedRing K] [FloorRing K]

theorem wrap_cell {m : GridMap K} (wf : m.WellFormed) {c : Int × Int}
    (hc : m.isInMap c.1 c.2 = true) :
    (⟨wrapI c.1, wrapI c.2⟩ : UCell) = ⟨c.1.toNat, c.2.toNat⟩ ∧ c.1.toNat < m.width ∧
      c.2.toNat < m.height := by
  have h := (GridMap.isInMap_iff m wf.w wf.h _ _).1 hc
  have := wf.w
  have := wf.h
  rw [wrapI_of_lt h.1 (by omega), wrapI_of_lt h.2.2.1 (by omega)]
  exact ⟨rfl, by omega, by omega⟩

theorem byte_ok {m : GridMap K} (wf : m.WellFormed) {c : Int × Int}
    (hc : m.isInMap c.1 c.2 = true) :
    ∃ v, m.getValue ⟨wrapI c.1, wrapI c.2⟩ = .ok v ∧
      m.getValue ⟨c.1.toNat, c.2.toNat⟩ = .ok v := by
  obtain ⟨h1, h2, h3⟩ := wrap_cell wf hc
  rw [h1]
  obtain ⟨v, hv⟩ := GridMap.read_ok m wf.size wf.len h2 h3
  exact ⟨v, hv, hv⟩

/-- **C08.** For every area iteration yielding the cells `cs` and every well-formed map,
`isAreaFree` terminates, has no undefined behaviour, and is true iff every cell of `cs` that lies in
the map is free. -/
theorem isAreaFree_iff {A : MapArea S} {m : GridMap K} (wf : m.WellFormed) {s s0 : S}
    {cs : List (Int × Int)} (hb : A.begin s = .ok s0) (hy : Yields A s0 cs) (fuel : Nat)
    (hf : cs.length < fuel) :
    ∃ r, A.isAreaFree m fuel s = .ok (some r) ∧
      (r = true ↔ ∀ c ∈ cs, m.isInMap c.1 c.2 = true → onCell m.isFree c = .ok true) := by
  simp only [isAreaFree, hb, CRes.ok_bind]
  clear hb
  induction hy generalizing fuel with
  | done h =>
    obtain ⟨n, rfl⟩ : ∃ n, fuel = n + 1 := ⟨fuel - 1, by omega⟩
    exact ⟨true, by simp [freeLoop, h], by simp⟩
  | @step s c cs h1 h2 _ ih =>
    simp only [List.length_cons] at hf
    obtain ⟨n, rfl⟩ : ∃ n, fuel = n + 1 := ⟨fuel - 1, by omega⟩
    obtain ⟨r, hr, hiff⟩ := ih n (by omega)
    rw [freeLoop]
    simp only [h1, if_true, h2, CRes.ok_bind]
    by_cases hin : m.isInMap c.1 c.2 = true
    · obtain ⟨v, e1, e2⟩ := byte_ok wf hin
      simp only [hin, if_true, GridMap.isFree, e1, CRes.ok_bind, CRes.pure_eq, List.mem_cons,
        forall_eq_or_imp, onCell, e2, CRes.ok.injEq, true_imp_iff]
      cases hfb : m.freeByte v
      · exact ⟨false, by simp, by simp⟩
      · simp only [Bool.not_true, Bool.false_eq_true, if_false, true_and]
        exact ⟨r, hr, hiff⟩
    · simp only [hin, Bool.false_eq_true, if_false, List.mem_cons, forall_eq_or_imp,
        false_imp_iff, true_and]
      exact ⟨r, hr, hiff⟩

/-- **C08.** `isAreaOccupied` is true iff some in-map cell of the area is occupied. -/
theorem isAreaOccupied_iff {A : MapArea S} {m : GridMap K} (wf : m.WellFormed) {s s0 : S}
    {cs : List (Int × Int)} (hb : A.begin s = .ok s0) (hy : Yields A s0 cs) (fuel : Nat)
    (hf : cs.length < fuel) :
    ∃ r, A.isAreaOccupied m fuel s = .ok (some r) ∧
      (r = true ↔ ∃ c ∈ cs, m.isInMap c.1 c.2 = true ∧ onCell m.isOccupied c = .ok true) := by
  simp only [isAreaOccupied, hb, CRes.ok_bind]
  clear hb
  induction hy generalizing fuel with
  | done h =>
    obtain ⟨n, rfl⟩ : ∃ n, fuel = n + 1 := ⟨fuel - 1, by omega⟩
    exact ⟨false, by simp [occLoop, h], by simp⟩
  | @step s c cs h1 h2 _ ih =>
    simp only [List.length_cons] at hf
    obtain ⟨n, rfl⟩ : ∃ n, fuel = n + 1 := ⟨fuel - 1, by omega⟩
    obtain ⟨r, hr, hiff⟩ := ih n (by omega)
    rw [occLoop]
    simp only [h1, if_true, h2, CRes.ok_bind]
    by_cases hin : m.isInMap c.1 c.2 = true
    · obtain ⟨v, e1, e2⟩ := byte_ok wf hin
      simp only [hin, if_true, GridMap.isOccupied, e1, CRes.ok_bind, CRes.pure_eq, List.mem_cons,
        exists_eq_or_imp, onCell, e2, CRes.ok.injEq, true_and]
      cases hfb : m.occByte v
      · simp only [Bool.false_eq_true, if_false, false_or]
        exact ⟨r, hr, hiff⟩
      · exact ⟨true, by simp, by simp⟩
    · simp only [hin, Bool.false_eq_true, if_false, List.mem_cons, exists_eq_or_imp,
        false_and, false_or]
      exact ⟨r, hr, hiff⟩

/-- **C08, what `isAreaNoInformation` really computes**: it is true iff NO in-map cell of the area is
without information — the opposite of its name. -/
theorem isAreaNoInformation_iff_none {A : MapArea S} {m : GridMap K} (wf : m.WellFormed) {s s0 : S}
    {cs : List (Int × Int)} (hb : A.begin s = .ok s0) (hy : Yields A s0 cs) (fuel : Nat)
    (hf : cs.length < fuel) :
    ∃ r, A.isAreaNoInformation m fuel s = .ok (some r) ∧
      (r = true ↔ ∀ c ∈ cs, m.isInMap c.1 c.2 = true → onCell m.isNoInformation c = .ok false) := by
  simp only [isAreaNoInformation, hb, CRes.ok_bind]
  clear hb
  induction hy generalizing fuel with
  | done h =>
    obtain ⟨n, rfl⟩ : ∃ n, fuel = n + 1 := ⟨fuel - 1, by omega⟩
    exact ⟨true, by simp [noInfoLoop, h], by simp⟩
  | @step s c cs h1 h2 _ ih =>
    simp only [List.length_cons] at hf
    obtain ⟨n, rfl⟩ : ∃ n, fuel = n + 1 := ⟨fuel - 1, by omega⟩
    obtain ⟨r, hr, hiff⟩ := ih n (by omega)
    rw [noInfoLoop]
    simp only [h1, if_true, h2, CRes.ok_bind]
    by_cases hin : m.isInMap c.1 c.2 = true
    · obtain ⟨v, e1, e2⟩ := byte_ok wf hin
      simp only [hin, if_true, GridMap.isNoInformation, e1, CRes.ok_bind, CRes.pure_eq,
        List.mem_cons, forall_eq_or_imp, onCell, e2, CRes.ok.injEq, true_imp_iff]
      cases hfb : m.noInfByte v
      · simp only [Bool.false_eq_true, if_false, true_and]
        exact ⟨r, hr, hiff⟩
      · exact ⟨false, by simp, by simp⟩
    · simp only [hin, Bool.false_eq_true, if_false, List.mem_cons, forall_eq_or_imp,
        false_imp_iff, true_and]
      exact ⟨r, hr, hiff⟩

/-- **C08 is false of the code for `isAreaNoInformation`**: whenever the area has an in-map cell and
*all* its in-map cells carry no information, the answer is `false`. -/
theorem isAreaNoInformation_wrong {A : MapArea S} {m : GridMap K} (wf : m.WellFormed) {s s0 : S}
    {cs : List (Int × Int)} (hb : A.begin s = .ok s0) (hy : Yields A s0 cs) (fuel : Nat)
    (hf : cs.length < fuel) (c : Int × Int) (hc : c ∈ cs) (hin : m.isInMap c.1 c.2 = true)
    (hall : ∀ c ∈ cs, m.isInMap c.1 c.2 = true → onCell m.isNoInformation c = .ok true) :
    A.isAreaNoInformation m fuel s = .ok (some false) := by
  obtain ⟨r, hr, hiff⟩ := isAreaNoInformation_iff_none wf hb hy fuel hf
  cases r
  · exact hr
  · have := hiff.1 rfl c hc hin
    rw [hall c hc hin] at this
    simp at this

theorem setValue_spec {m : GridMap K} (wf : m.WellFormed) {c : Int × Int}
    (hc : m.isInMap c.1 c.2 = true) (v : UInt8) :
    ∃ m', m.setValue ⟨wrapI c.1, wrapI c.2⟩ v = .ok m' ∧ m'.WellFormed ∧
      m'.width = m.width ∧ m'.height = m.height ∧ m'.res = m.res ∧ m'.ox = m.ox ∧ m'.oy = m.oy ∧
      m'.lower = m.lower ∧ m'.upper = m.upper ∧ m'.noInfo = m.noInfo ∧
      ∀ x y, x < m.width → y < m.height → m'.getValue ⟨x, y⟩ =
        if ((x : Int), (y : Int)) = c then .ok v else m.getValue ⟨x, y⟩ := by
  obtain ⟨e, hx, hy⟩ := wrap_cell wf hc
  have hu : u32 = 2 ^ 32 := by decide
  have idx : ∀ x y, x < m.width → y < m.height → m.index ⟨x, y⟩ = y * m.width + x := by
    intro x y hx hy
    have h1 := GridMap.cell_lt hx hy
    have := wf.size
    unfold GridMap.index wrapU
    rw [Nat.mod_eq_of_lt (a := y * m.width) (by omega), Nat.mod_eq_of_lt (by simp only; omega)]
  have hb : c.2.toNat * m.width + c.1.toNat < m.data.length :=
    lt_of_lt_of_le (GridMap.cell_lt hx hy) wf.len
  refine ⟨{ m with data := m.data.set (c.2.toNat * m.width + c.1.toNat) v }, ?_,
    ⟨wf.w, wf.h, wf.size, by simpa using wf.len⟩, rfl, rfl, rfl, rfl, rfl, rfl, rfl, rfl, ?_⟩
  · rw [e]; simp [GridMap.setValue, vset, idx _ _ hx hy, hb]
  · intro x y hx' hy'
    have hi : ∀ d, GridMap.index { m with data := d } ⟨x, y⟩ = y * m.width + x := fun d => idx x y hx' hy'
    have hin := (GridMap.isInMap_iff m wf.w wf.h _ _).1 hc
    rw [GridMap.getValue, GridMap.getValue, hi, idx x y hx' hy']
    simp only [vget]
    rw [List.getElem?_set]
    have hb' : y * m.width + x < m.data.length := lt_of_lt_of_le (GridMap.cell_lt hx' hy') wf.len
    by_cases hq : ((x : Int), (y : Int)) = c
    · have q1 : c.1 = x := by rw [← hq]
      have q2 : c.2 = y := by rw [← hq]
      simp [hq, q1, q2, hb']
    · have : ¬ (c.2.toNat * m.width + c.1.toNat = y * m.width + x) := by
        intro h
        have := GridMap.cell_inj hx hx' h
        apply hq
        ext <;> simp only <;> omega
      simp [hq, this]

/-- **C11.** `setAreaValue(area, v)` terminates without undefined behaviour; afterwards every in-map
cell of the area holds `v`, every other cell of the map holds its old value, and nothing else of
the map changed. -/
theorem setAreaValue_exact {A : MapArea S} {m : GridMap K} (wf : m.WellFormed) {s s0 : S}
    {cs : List (Int × Int)} (hb : A.begin s = .ok s0) (hy : Yields A s0 cs) (v : UInt8)
    (fuel : Nat) (hf : cs.length < fuel) :
    ∃ m', A.setAreaValue m v fuel s = .ok (some m') ∧ m'.WellFormed ∧
      m'.width = m.width ∧ m'.height = m.height ∧ m'.res = m.res ∧ m'.ox = m.ox ∧ m'.oy = m.oy ∧
      m'.lower = m.lower ∧ m'.upper = m.upper ∧ m'.noInfo = m.noInfo ∧
      ∀ x y, x < m.width → y < m.height → m'.getValue ⟨x, y⟩ =
        if ((x : Int), (y : Int)) ∈ cs then .ok v else m.getValue ⟨x, y⟩ := by
  simp only [setAreaValue, hb, CRes.ok_bind]
  clear hb
  induction hy generalizing fuel m with
  | done h =>
    obtain ⟨n, rfl⟩ : ∃ n, fuel = n + 1 := ⟨fuel - 1, by omega⟩
    exact ⟨m, by simp [setLoop, h], wf, rfl, rfl, rfl, rfl, rfl, rfl, rfl, rfl, by simp⟩
  | @step s c cs h1 h2 _ ih =>
    simp only [List.length_cons] at hf
    obtain ⟨n, rfl⟩ : ∃ n, fuel = n + 1 := ⟨fuel - 1, by omega⟩
    rw [setLoop]
    simp only [h1, if_true, h2, CRes.ok_bind]
    by_cases hin : m.isInMap c.1 c.2 = true
    · obtain ⟨m1, e1, wf1, a1, a2, a3, a4, a5, a6, a7, a8, a9⟩ := setValue_spec wf hin v
      obtain ⟨m2, e2, wf2, b1, b2, b3, b4, b5, b6, b7, b8, b9⟩ := ih wf1 n (by omega)
      refine ⟨m2, by simp [hin, e1, e2], wf2, b1.trans a1, b2.trans a2, b3.trans a3, b4.trans a4,
        b5.trans a5, b6.trans a6, b7.trans a7, b8.trans a8, ?_⟩
      intro x y hx hy
      rw [b9 x y (a1 ▸ hx) (a2 ▸ hy), a9 x y hx hy]
      by_cases q1 : ((x : Int), (y : Int)) ∈ cs
      · simp [q1]
      · by_cases q2 : ((x : Int), (y : Int)) = c <;> simp [q1, q2]
    · obtain ⟨m2, e2, wf2, b1, b2, b3, b4, b5, b6, b7, b8, b9⟩ := ih wf n (by omega)
      refine ⟨m2, by simp [hin, e2], wf2, b1, b2, b3, b4, b5, b6, b7, b8, ?_⟩
      intro x y hx hy
      rw [b9 x y hx hy]
      have : ((x : Int), (y : Int)) ≠ c := by
        intro h
        apply hin
        rw [GridMap.isInMap_iff m wf.w wf.h, ← h]
        simp only
        omega
      simp [this]

end MapArea

/-! ## C12 — the robot footprint iterator -/

theorem robotArea_yields_from (s : RobotSt) (k : Nat) (hk : s.idx = (k : Int) - 1)
    (hle : k ≤ s.cells.length) :
    MapArea.Yields robotArea s ((s.cells.drop k).map fun c => (s.x + c.1, s.y + c.2)) := by
  obtain ⟨d, hd⟩ : ∃ d, d = s.cells.length - k := ⟨_, rfl⟩
  induction d generalizing s k with
  | zero =>
    have : s.cells.drop k = [] := List.drop_eq_nil_iff.2 (by omega)
    rw [this]
    refine .done ?_
    simp [robotArea]; omega
  | succ d ih =>
    have hlt : k < s.cells.length := by omega
    rw [List.drop_eq_getElem_cons hlt, List.map_cons]
    have hidx : (robotArea.next s).2 = { s with idx := (k : Int) } := by
      simp [robotArea]; omega
    refine .step ?_ ?_ ?_
    · simp [robotArea]; omega
    · rw [hidx]; simp [robotArea, vget_of_lt hlt]
    · rw [hidx]
      have := ih { s with idx := (k : Int) } (k + 1) (by simp) (by simp only; omega) (by simp only; omega)
      simpa using this

/-- **C12.** From any state with a set position (in particular: again and again, also after an
interrupted iteration), the robot footprint iteration visits precisely the footprint cells, in
order, shifted by the position. -/
theorem robotArea_visits_all (s : RobotSt) (hi : s.init = true) :
    ∃ s0, robotArea.begin s = .ok s0 ∧
      MapArea.Yields robotArea s0 (s.cells.map fun c => (s.x + c.1, s.y + c.2)) ∧
      ∀ fuel, s.cells.length < fuel → robotArea.drain fuel s =
        .ok (some (s.cells.map fun c => (s.x + c.1, s.y + c.2))) := by
  have hy := robotArea_yields_from { s with idx := -1 } 0 (by simp) (Nat.zero_le _)
  simp only [List.drop_zero] at hy
  have hb : robotArea.begin s = .ok { s with idx := -1 } := by simp [robotArea, hi]
  refine ⟨_, hb, hy, fun fuel hf => ?_⟩
  rw [MapArea.drain, hb]
  simpa using hy.drainLoop fuel [] (by simpa using hf)

example : (RobotSt.setPosition ⟨0, 0, false, 7, [(0, 1), (-1, 2)]⟩ 4 5).init = true := rfl

/-- Without a position `begin` fails its assertion. -/
theorem robotArea_needs_position (s : RobotSt) (hi : s.init = false) (fuel : Nat) :
    robotArea.drain fuel s = .ub := by
  simp [MapArea.drain, robotArea, hi]

/-- Non-vacuity of the C08/C11 theorems: a footprint of three cells, one of them off the map,
on a 4×3 map. -/
example : ∃ (s s0 : RobotSt) (cs : List (Int × Int)) (m : GridMap ℚ), m.WellFormed ∧
    robotArea.begin s = .ok s0 ∧ MapArea.Yields robotArea s0 cs ∧ cs = [(3, 2), (4, 2), (3, 1)] := by
  refine ⟨RobotSt.setPosition ⟨0, 0, false, 7, [(0, 1), (1, 1), (0, 0)]⟩ 3 1, _, _,
    GridMap.mk' 4 3 1, ⟨by decide, by decide, by decide, by decide +kernel⟩,
    (robotArea_visits_all _ rfl).choose_spec.1, (robotArea_visits_all _ rfl).choose_spec.2.1, rfl⟩

/-! ## C09 — circle and line area iterators -/

/-- Common behaviour: an iterator that increments before the cell is read. -/
theorem preIncrement_ub {S : Type} (A : MapArea S) (cells : S → List (Int × Int))
    (counter : S → Nat)
    (hn : ∀ s, counter s < (cells s).length → (A.next s).1 = true ∧
      cells (A.next s).2 = cells s ∧ counter (A.next s).2 = counter s + 1)
    (hu : ∀ s, (cells s).length ≤ counter s → A.getCell s = .ub)
    (fuel : Nat) : ∀ (s : S) (acc : List (Int × Int)) (r : List (Int × Int)),
    counter s < (cells s).length → A.drainLoop fuel s acc ≠ .ok (some r) := by
  induction fuel with
  | zero => intro s acc r _; simp [MapArea.drainLoop]
  | succ fuel ih =>
    intro s acc r hs
    obtain ⟨h1, h2, h3⟩ := hn s hs
    rw [MapArea.drainLoop]
    simp only [h1, if_true]
    rcases Nat.lt_or_ge (counter (A.next s).2) (cells (A.next s).2).length with hlt | hge
    · cases hc : A.getCell (A.next s).2 with
      | ok c => simpa using ih (A.next s).2 (acc ++ [c]) r hlt
      | throw e => simp
      | ub => simp
    · rw [hu _ hge]; simp

/-- **C09 is false of the code (circles).** Iterating any non-empty circle area to its end never
completes: the last `getCell` reads one past the end of the cell vector. -/
theorem circleArea_iteration_never_completes (s : CircleSt) (hne : s.cells ≠ []) (fuel : Nat)
    (r : List (Int × Int)) : circleArea.drain fuel s ≠ .ok (some r) := by
  rw [MapArea.drain]
  show circleArea.drainLoop fuel { s with counter := 0 } [] ≠ _
  refine preIncrement_ub circleArea CircleSt.cells CircleSt.counter ?_ ?_ fuel _ _ _
    (by simpa using List.length_pos_iff.2 hne)
  · intro s hs; simp [circleArea, hs]
  · intro s hs; simp [circleArea, vget_of_ge hs]

/-- ... precisely, it is undefined behaviour as soon as the loop may run long enough. -/
theorem circleArea_iteration_ub (s : CircleSt) (hne : s.cells ≠ []) (fuel : Nat)
    (hf : s.cells.length ≤ fuel) : circleArea.drain fuel s = .ub := by
  have gen : ∀ (fuel : Nat) (s : CircleSt) (acc : List (Int × Int)), s.counter < s.cells.length →
      s.cells.length - s.counter ≤ fuel → circleArea.drainLoop fuel s acc = .ub := by
    intro fuel
    induction fuel with
    | zero => intro s acc h1 h2; omega
    | succ fuel ih =>
      intro s acc h1 h2
      have hn : circleArea.next s = (true, { s with counter := s.counter + 1 }) := by
        simp [circleArea, h1]
      rw [MapArea.drainLoop]
      simp only [hn, if_true]
      rcases Nat.lt_or_ge (s.counter + 1) s.cells.length with hlt | hge
      · have hc : circleArea.getCell { s with counter := s.counter + 1 } =
            .ok ((s.cells[s.counter + 1]).1 + s.cx, (s.cells[s.counter + 1]).2 + s.cy) := by
          simp [circleArea, vget_of_lt hlt]
        rw [hc]
        simp only [CRes.ok_bind]
        exact ih _ _ (by simpa using hlt) (by simp only; omega)
      · have hc : circleArea.getCell { s with counter := s.counter + 1 } = .ub := by
          simp [circleArea, vget_of_ge hge]
        rw [hc]; rfl
  have := gen fuel { s with counter := 0 } [] (by simpa using List.length_pos_iff.2 hne) (by simpa using hf)
  simpa [MapArea.drain, circleArea] using this

/-- **C09 is false of the code (lines).** -/
theorem lineArea_iteration_never_completes (s : LineSt) (hne : s.cells ≠ []) (fuel : Nat)
    (r : List (Int × Int)) : lineArea.drain fuel s ≠ .ok (some r) := by
  rw [MapArea.drain]
  show lineArea.drainLoop fuel { s with counter := 0 } [] ≠ _
  refine preIncrement_ub lineArea LineSt.cells LineSt.counter ?_ ?_ fuel _ _ _
    (by simpa using List.length_pos_iff.2 hne)
  · intro s hs; simp [lineArea, hs]
  · intro s hs; simp [lineArea, vget_of_ge hs]

/-- Consequence for the area functions: with a non-empty circle area `isAreaFree` never answers
"free" and `setAreaValue` never completes. -/
theorem circleArea_functions_fail {K : Type} (m : GridMap K) (s : CircleSt) (hne : s.cells ≠ [])
    (fuel : Nat) (v : UInt8) :
    circleArea.isAreaFree m fuel s ≠ .ok (some true) ∧
    ∀ m', circleArea.setAreaValue m v fuel s ≠ .ok (some m') := by
  have hn : ∀ s : CircleSt, s.counter < s.cells.length →
      circleArea.next s = (true, { s with counter := s.counter + 1 }) := by
    intro s h1; simp [circleArea, h1]
  have hu : ∀ s : CircleSt, s.cells.length ≤ s.counter → circleArea.getCell s = .ub := by
    intro s hs; simp [circleArea, vget_of_ge hs]
  have h0 : 0 < s.cells.length := List.length_pos_iff.2 hne
  constructor
  · have gen : ∀ (fuel : Nat) (s : CircleSt), s.counter < s.cells.length →
        circleArea.freeLoop m fuel s ≠ .ok (some true) := by
      intro fuel
      induction fuel with
      | zero => intro s _; simp [MapArea.freeLoop]
      | succ fuel ih =>
        intro s h1
        rw [MapArea.freeLoop]
        simp only [hn s h1, if_true]
        rcases Nat.lt_or_ge (s.counter + 1) s.cells.length with hlt | hge
        · have := ih { s with counter := s.counter + 1 } hlt
          cases hc : circleArea.getCell { s with counter := s.counter + 1 } with
          | ok c =>
            simp only [CRes.ok_bind]
            split
            · cases hfree : m.isFree ⟨wrapI c.1, wrapI c.2⟩ with
              | ok f => cases f <;> simp [this]
              | throw e => simp
              | ub => simp
            · exact this
          | throw e => simp
          | ub => simp
        · rw [hu _ hge]; simp
    simpa [MapArea.isAreaFree, circleArea] using gen fuel { s with counter := 0 } h0
  · intro m'
    have gen : ∀ (fuel : Nat) (s : CircleSt) (m : GridMap K), s.counter < s.cells.length →
        circleArea.setLoop v fuel s m ≠ .ok (some m') := by
      intro fuel
      induction fuel with
      | zero => intro s m _; simp [MapArea.setLoop]
      | succ fuel ih =>
        intro s m h1
        rw [MapArea.setLoop]
        simp only [hn s h1, if_true]
        rcases Nat.lt_or_ge (s.counter + 1) s.cells.length with hlt | hge
        · cases hc : circleArea.getCell { s with counter := s.counter + 1 } with
          | ok c =>
            simp only [CRes.ok_bind]
            split
            · cases hset : m.setValue ⟨wrapI c.1, wrapI c.2⟩ v with
              | ok m1 => simpa using ih { s with counter := s.counter + 1 } m1 hlt
              | throw e => simp
              | ub => simp
            · exact ih { s with counter := s.counter + 1 } m hlt
          | throw e => simp
          | ub => simp
        · rw [hu _ hge]; simp
    simpa [MapArea.setAreaValue, circleArea] using gen fuel { s with counter := 0 } m h0

/-- **C11 is false of the code for `CircleBuffer`**: for every buffer with at least one cell, saving the
map content under it (`getAreaValues`) never completes, and neither does writing it back
(`setAreaValue(buffer)`), whatever the map. -/
theorem circleBuffer_save_fails {K : Type} (m : GridMap K) (s : CircleSt) (hne : s.cells ≠ [])
    (fuel : Nat) :
    (∀ s', circleBuffer.readArea m fuel s ≠ .ok (some s')) ∧
    ∀ m', circleBuffer.writeArea m fuel s ≠ .ok (some m') := by
  have hn : ∀ s : CircleSt, s.counter < s.cells.length →
      circleBuffer.next s = (true, { s with counter := s.counter + 1 }) := by
    intro s h1; simp [circleBuffer, circleArea, h1]
  have hu : ∀ s : CircleSt, s.cells.length ≤ s.counter → circleBuffer.getCell s = .ub := by
    intro s hs; simp [circleBuffer, circleArea, vget_of_ge hs]
  have h0 : 0 < s.cells.length := List.length_pos_iff.2 hne
  constructor
  · intro s'
    have gen : ∀ (fuel : Nat) (s : CircleSt), s.counter < s.cells.length →
        circleBuffer.readLoop m fuel s ≠ .ok (some s') := by
      intro fuel
      induction fuel with
      | zero => intro s _; simp [MapArea.readLoop]
      | succ fuel ih =>
        intro s h1
        rw [MapArea.readLoop]
        simp only [hn s h1, if_true]
        rcases Nat.lt_or_ge (s.counter + 1) s.cells.length with hlt | hge
        · cases hc : circleBuffer.getCell { s with counter := s.counter + 1 } with
          | ok c =>
            simp only [CRes.ok_bind]
            split
            · cases hv : m.getValue ⟨wrapI c.1, wrapI c.2⟩ with
              | ok v =>
                simp only [CRes.ok_bind]
                cases hs : circleBuffer.setValue { s with counter := s.counter + 1 } v with
                | ok s1 =>
                  simp only [CRes.ok_bind]
                  have hs1 : s1.counter = s.counter + 1 ∧ s1.cells = s.cells := by
                    simp only [circleBuffer] at hs
                    obtain ⟨vs, -, he⟩ := CRes.bind_eq_ok.1 hs
                    rw [CRes.pure_eq, CRes.ok.injEq] at he
                    subst he
                    exact ⟨rfl, rfl⟩
                  exact ih s1 (by rw [hs1.1, hs1.2]; exact hlt)
                | throw e => simp
                | ub => simp
              | throw e => simp
              | ub => simp
            · exact ih _ hlt
          | throw e => simp
          | ub => simp
        · rw [hu _ hge]; simp
    simpa [MapArea.readArea, circleBuffer, circleArea] using gen fuel { s with counter := 0 } h0
  · intro m'
    have gen : ∀ (fuel : Nat) (s : CircleSt) (m : GridMap K), s.counter < s.cells.length →
        circleBuffer.writeLoop fuel s m ≠ .ok (some m') := by
      intro fuel
      induction fuel with
      | zero => intro s m _; simp [MapArea.writeLoop]
      | succ fuel ih =>
        intro s m h1
        rw [MapArea.writeLoop]
        simp only [hn s h1, if_true]
        rcases Nat.lt_or_ge (s.counter + 1) s.cells.length with hlt | hge
        · cases hc : circleBuffer.getCell { s with counter := s.counter + 1 } with
          | ok c =>
            simp only [CRes.ok_bind]
            split
            · cases hv : circleBuffer.getValue { s with counter := s.counter + 1 } with
              | ok v =>
                simp only [CRes.ok_bind]
                cases hset : m.setValue ⟨wrapI c.1, wrapI c.2⟩ v with
                | ok m1 => simpa using ih { s with counter := s.counter + 1 } m1 hlt
                | throw e => simp
                | ub => simp
              | throw e => simp
              | ub => simp
            · exact ih { s with counter := s.counter + 1 } m hlt
          | throw e => simp
          | ub => simp
        · rw [hu _ hge]; simp
    simpa [MapArea.writeArea, circleBuffer, circleArea] using gen fuel { s with counter := 0 } m h0

/-- **C09 (partial).** What does hold: an empty area is iterated correctly, and the area's cells
after the first one are visited in order before the invalid access.  Missing: the first cell and a
defined end. -/
theorem circleArea_visits_tail_partial (s : CircleSt) (n : Nat) (hn : n + 1 < s.cells.length) :
    circleArea.begin s = .ok { s with counter := 0 } ∧
    (circleArea.next ((fun t => (circleArea.next t).2)^[n] { s with counter := 0 })).1 = true ∧
    circleArea.getCell ((fun t => (circleArea.next t).2)^[n + 1] { s with counter := 0 }) =
      .ok ((s.cells[n + 1]).1 + s.cx, (s.cells[n + 1]).2 + s.cy) := by
  refine ⟨rfl, ?_⟩
  have : ∀ k, k ≤ s.cells.length → (fun t => (circleArea.next t).2)^[k] { s with counter := 0 } =
      { s with counter := k } := by
    intro k
    induction k with
    | zero => intro _; rfl
    | succ k ih =>
      intro hk
      rw [Function.iterate_succ_apply', ih (by omega)]
      simp only [circleArea]
      rw [if_pos (by omega)]
  rw [this _ (by omega), this _ (by omega)]
  refine ⟨?_, by simp [circleArea, vget_of_lt hn]⟩
  simp only [circleArea]
  rw [if_pos (by omega)]

example : (⟨0, [(0, 0), (1, 0)], 3, 3, 0, []⟩ : CircleSt).cells ≠ [] := by simp

end PathPlanning
