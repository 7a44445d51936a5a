import Verif.Props.RSFind
import Verif.Props.Bresenham

/-!
# C39, line segments: which cells are tested
-/

noncomputable section

namespace PathPlanning.RS
open Spec

/-- The cells of the digital line drawn by the library (`Props/Bresenham.lean`); the map argument of
the iterator plays no role. -/
def lineList (x0 y0 x1 y1 : Int) : List (Int × Int) :=
  (List.range (lineLength x0 y0 x1 y1 + 1)).map
    fun l => ((Bres.start (GridMap.mk' 1 1 (1 : ℚ)) x0 y0 x1 y1).after l).cell

theorem lineList_digital (x0 y0 x1 y1 : Int) :
    DigitalLine (x0, y0) (x1, y1) (lineList x0 y0 x1 y1) := by
  have hl := Bres.len_cast x0 y0 x1 y1
  set m := GridMap.mk' 1 1 (1 : ℚ)
  refine ⟨?_, ?_, by simp [lineList], ?_, ?_, ?_⟩
  · simp [lineList, List.range_succ_eq_map, Bres.after, Bres.start, Bres.cell]
  · simp only [lineList, List.range_succ, List.map_append, List.map_cons, List.map_nil,
      List.getLast?_append, List.getLast?_singleton, Option.some_or, Option.some.injEq]
    obtain ⟨i, j, hat⟩ := Bres.at_after m x0 y0 x1 y1 _ le_rfl
    have hd := hat.done_iff.2 hl
    rw [hat.hx1, hat.hy1] at hd
    simp [Bres.cell, m, hd.1, hd.2]
  · rw [List.isChain_iff_getElem]
    intro k hk
    simp only [lineList, List.length_map, List.length_range] at hk
    simp only [lineList, List.getElem_map, List.getElem_range]
    obtain ⟨i, j, hat⟩ := Bres.at_after m x0 y0 x1 y1 k (by omega)
    obtain ⟨-, i', j', hat', h1, h2, h3⟩ := hat.step (by omega)
    rw [Bres.after_succ]
    exact hat.adj hat' h1 h2 h3
  · intro c hc
    simp only [lineList, List.mem_map, List.mem_range] at hc
    obtain ⟨k, hk, rfl⟩ := hc
    obtain ⟨i, j, hat⟩ := Bres.at_after m x0 y0 x1 y1 k (by omega)
    exact hat.box
  · intro c hc
    simp only [lineList, List.mem_map, List.mem_range] at hc
    obtain ⟨k, hk, rfl⟩ := hc
    obtain ⟨i, j, hat⟩ := Bres.at_after m x0 y0 x1 y1 k (by omega)
    exact hat.half

/-- A tested cell stops the line: it is in the map, not free, and obstacles count. -/
def blocks (E : RSEnv) (p : Int × Int) : Bool :=
  E.map.inMap p.1 p.2 && (!E.map.free p.1 p.2 && !E.ignore)

/-- The price of a cell: `max(min_cell_cost, value)`, nothing for cells off the map. -/
def cellCost (E : RSEnv) (p : Int × Int) : ℝ :=
  if E.map.inMap p.1 p.2 then ((max E.minCell (E.map.value p.1 p.2) : Nat) : ℝ) else 0

/-- Testing a list of cells in order. -/
def scanLine (E : RSEnv) : List (Int × Int) → ℝ → Bool × ℝ
  | [], cost => (true, cost)
  | p :: ps, cost => if blocks E p then (false, cost) else scanLine E ps (cost + cellCost E p)

theorem loop_scan (E : RSEnv) (x1 y1 dx dy sx sy : Int) (fuel : Nat) :
    ∀ (x0 y0 err : Int) (acc cells : List (Int × Int)) (cost : ℝ),
    lineLoop x1 y1 dx dy sx sy fuel x0 y0 err acc = some cells →
    ∃ rest, cells = acc ++ rest ∧
      Lin.loop E x1 y1 dx dy sx sy fuel x0 y0 err cost = some (scanLine E rest cost) := by
  induction fuel with
  | zero => intro x0 y0 err acc cells cost h; simp [lineLoop] at h
  | succ fuel ih =>
    intro x0 y0 err acc cells cost h
    rw [lineLoop] at h
    rw [Lin.loop]
    have hcost : (if E.map.inMap x0 y0 then cost + ((max E.minCell (E.map.value x0 y0) : Nat) : ℝ)
        else cost) = cost + cellCost E (x0, y0) := by
      unfold cellCost; simp only; split_ifs <;> simp
    by_cases hend : x0 = x1 ∧ y0 = y1
    · simp only [if_pos hend, Option.some.injEq] at h
      refine ⟨[(x0, y0)], h.symm, ?_⟩
      simp only [scanLine, blocks]
      split_ifs <;> simp [hcost]
      all_goals simp_all
    · simp only [if_neg hend] at h
      by_cases hb : blocks E (x0, y0) = true
      · have hb' : (E.map.inMap x0 y0 && (!E.map.free x0 y0 && !E.ignore)) = true := hb
        rw [if_pos hb']
        obtain ⟨rest, e, _⟩ := ih _ _ _ _ _ cost h
        exact ⟨(x0, y0) :: rest, by rw [e]; simp, by simp [scanLine, hb]⟩
      · have hb' : ¬ (E.map.inMap x0 y0 && (!E.map.free x0 y0 && !E.ignore)) = true := hb
        rw [if_neg hb']
        obtain ⟨rest, e, hl⟩ := ih _ _ _ _ _ (cost + cellCost E (x0, y0)) h
        refine ⟨(x0, y0) :: rest, by rw [e]; simp, ?_⟩
        simp only [hcost, if_neg hend, hl, scanLine, hb]
        simp

theorem check_scan (E : RSEnv) (x0 y0 x1 y1 : Int) :
    Lin.check E x0 y0 x1 y1 = some (scanLine E (lineList x0 y0 x1 y1) 0) := by
  have h := lineCells_eq (GridMap.mk' 1 1 (1 : ℚ)) x0 y0 x1 y1
    ((x1 - x0).natAbs + (y1 - y0).natAbs + 1) (by unfold lineLength; omega)
  obtain ⟨rest, e, hl⟩ := loop_scan E x1 y1 _ _ _ _ _ _ _ _ [] _ 0 h
  rw [List.nil_append] at e
  subst e
  exact hl

theorem scanLine_iff (E : RSEnv) (cells : List (Int × Int)) :
    ∀ cost : ℝ, ((scanLine E cells cost).1 = true ↔ ∀ p ∈ cells, blocks E p = false) ∧
      ((scanLine E cells cost).1 = true →
        (scanLine E cells cost).2 = cost + (cells.map (cellCost E)).sum) := by
  induction cells with
  | nil => intro cost; simp [scanLine]
  | cons p ps ih =>
    intro cost
    obtain ⟨h1, h2⟩ := ih (cost + cellCost E p)
    cases hb : blocks E p with
    | true => simp [scanLine, hb]
    | false =>
      simp only [scanLine, hb, Bool.false_eq_true, if_false, List.mem_cons, forall_eq_or_imp,
        true_and, List.map_cons, List.sum_cons]
      exact ⟨h1, fun h => by rw [h2 h]; ring⟩

/-- The loop of `LineSegment::weight` terminates, for every map. -/
theorem lineCheck_terminates (E : RSEnv) (x0 y0 x1 y1 : Int) :
    (Lin.check E x0 y0 x1 y1).isSome = true := by rw [check_scan]; rfl

/-- **C39, lines.** For any two cells there is a digital line between them such that, for every map
and settings, the test succeeds iff obstacles are ignored or every cell of the line that lies in the
map is free; and then the cell sum is `Σ max(min_cell_cost, value)` over the cells of the line in the
map. -/
theorem lineCheck_spec (x0 y0 x1 y1 : Int) :
    ∃ cells, DigitalLine (x0, y0) (x1, y1) cells ∧ ∀ E : RSEnv,
      ∃ r, Lin.check E x0 y0 x1 y1 = some r ∧
        (r.1 = true ↔ (E.ignore = true ∨
          ∀ p ∈ cells, E.map.inMap p.1 p.2 = true → E.map.free p.1 p.2 = true)) ∧
        (r.1 = true → r.2 = ((cells.filter fun p => E.map.inMap p.1 p.2).map
          fun p => ((max E.minCell (E.map.value p.1 p.2) : Nat) : ℝ)).sum) := by
  refine ⟨_, lineList_digital x0 y0 x1 y1, fun E => ⟨_, check_scan E x0 y0 x1 y1, ?_, ?_⟩⟩
  · rw [(scanLine_iff E _ 0).1]
    constructor
    · intro h
      by_cases hi : E.ignore = true
      · exact Or.inl hi
      · right
        intro p hp hm
        have := h p hp
        unfold blocks at this
        cases hf : E.map.free p.1 p.2 <;> simp_all
    · rintro (h | h) p hp
      · simp [blocks, h]
      · unfold blocks
        cases hm : E.map.inMap p.1 p.2
        · simp
        · simp [h p hp hm]
  · intro h
    rw [(scanLine_iff E _ 0).2 h, zero_add]
    generalize lineList x0 y0 x1 y1 = cells
    induction cells with
    | nil => rfl
    | cons p ps ih =>
      rw [List.filter_cons, List.map_cons, List.sum_cons, ih]
      unfold cellCost
      split_ifs <;> simp

/-- **C39, finding.** Cells off the map do not matter, except the first one: a straight segment may
leave the map and is still accepted. -/
theorem lineCheck_off_map (E : RSEnv) (x0 y0 x1 y1 : Int)
    (h : ∀ x y, E.map.inMap x y = true → E.map.free x y = true) :
    ∃ s, Lin.check E x0 y0 x1 y1 = some (true, s) := by
  obtain ⟨cells, _, hs⟩ := lineCheck_spec x0 y0 x1 y1
  obtain ⟨r, h1, h2, _⟩ := hs E
  have : r.1 = true := h2.2 (Or.inr fun p _ hm => h _ _ hm)
  exact ⟨r.2, by rw [h1, ← this]⟩

end PathPlanning.RS
