import Verif.Props.Symmetry
import Verif.Props.SearchExamples

/-!
# C118: a concrete moved map
-/

namespace PathPlanning
open Spec
namespace SymmetryEx

/-- The wall of `SearchEx` turned by a quarter and shifted by (2,1) on a map of 6 x 5 cells; everything else is occupied. -/
def free' (n : GNode 6 5) : Bool :=
  decide (2 ≤ n.1.val ∧ n.1.val ≤ 4 ∧ 1 ≤ n.2.val) && !(n.1.val == 3 && decide (n.2.val < 4))

/-- Exchange the coordinates, then shift by (2,1). -/
def M : Motion := ⟨true, false, false, 2, 1⟩

theorem moved : Moved M (freeCell SearchEx.free) (freeCell free') := by
  rintro ⟨x, y⟩
  constructor
  · rintro ⟨n, hn, hf⟩
    revert hn hf
    obtain ⟨⟨a, ha⟩, ⟨b, hb⟩⟩ := n
    intro hn hf
    simp only [GNode.cell, Prod.mk.injEq] at hn
    refine ⟨(⟨b + 2, by omega⟩, ⟨a + 1, by omega⟩), ?_, ?_⟩
    · simp only [GNode.cell, M, Motion.act]
      rw [← hn.1, ← hn.2]; simp
    · simp only [SearchEx.free, free', Bool.not_eq_true', Bool.and_eq_false_iff, beq_eq_false_iff_ne, decide_eq_false_iff_not,
        Bool.and_eq_true, decide_eq_true_eq] at hf ⊢
      omega
  · rintro ⟨n, hn, hf⟩
    obtain ⟨⟨a, ha⟩, ⟨b, hb⟩⟩ := n
    simp only [GNode.cell, M, Motion.act, if_true, Bool.false_eq_true, if_false, Prod.mk.injEq] at hn
    simp only [free', Bool.not_eq_true', Bool.and_eq_false_iff, beq_eq_false_iff_ne, decide_eq_false_iff_not,
      Bool.and_eq_true, decide_eq_true_eq] at hf
    refine ⟨(⟨b - 1, by omega⟩, ⟨a - 2, by omega⟩), ?_, ?_⟩
    · simp only [GNode.cell, Prod.mk.injEq]
      omega
    · simp only [SearchEx.free, Bool.not_eq_true', Bool.and_eq_false_iff, beq_eq_false_iff_ne, decide_eq_false_iff_not]
      omega

noncomputable def cfg' : SCfg (GNode 6 5) ℝ where
  start := [(2, 1)]
  goal := [(4, 1)]
  useCands := false
  oversearch := 0
  accept := none
  abort _ := false
  canExpand _ _ _ := none
  top := SearchEx.topRef

noncomputable abbrev A' : Algo (GNode 6 5) ℝ := gridAlgo free' (1 / 20) (dirs8 (Real.sqrt 2) 1) 1 (GridHeur.l2.fn (1 / 20)) gridHypot

/-- Both searches find a path around the wall, of the same length in cells up to the estimate at the end. -/
example : ∃ fuel p st fuel' p' st', findPathNodes SearchEx.A SearchEx.P SearchEx.cfg (freshLabels SearchEx.A) fuel = some (.ok p, st) ∧
    findPathNodes A' PriorityManager cfg' (freshLabels A') fuel' = some (.ok p', st') ∧ p ≠ [] ∧ p' ≠ [] ∧
    ∃ t t', p.getLast? = some t ∧ p'.getLast? = some t' ∧
      gridLen (p.map GNode.cell) + GridHeur.l2.fn 1 t (0, 2) / 1 =
        gridLen (p'.map GNode.cell) + GridHeur.l2.fn (1 / 20) t' (4, 1) / (1 / 20) := by
  obtain ⟨fuel, p, st, h1, h2⟩ := SearchEx.finds_path
  obtain ⟨fuel', p', st', h3, -⟩ := search_terminates_valid (A := A') (P := PriorityManager)
    (grid_exact (by norm_num) (euclid8 (by norm_num))).ok prioLawful cfg' SearchEx.topRef_ok
    ⟨fun _ _ _ _ => rfl, fun _ _ _ _ h => by cases h⟩
  obtain ⟨e1, e2⟩ := Symmetry.moved_same (M := M) (free := SearchEx.free) (free' := free') (res := 1) (res' := 1 / 20) (by norm_num) (by norm_num)
    moved (D := 1) (by norm_num) (.inr ⟨rfl, rfl⟩) .l2 prioLawful prioMin prioLawful prioMin SearchEx.topRef_ok (fun _ _ _ => rfl) rfl (fun _ => rfl)
    (cfg' := cfg') SearchEx.topRef_ok (fun _ _ _ => rfl) rfl (fun _ => rfl) (s := (0, 0)) (g := (0, 2)) rfl rfl (s' := (2, 1)) (g' := (4, 1))
    rfl rfl (by decide) (by decide) h1 h3
  exact ⟨fuel, p, st, fuel', p', st', h1, h3, h2, fun e => h2 (e1.2 e), e2 h2⟩

end SymmetryEx
end PathPlanning
