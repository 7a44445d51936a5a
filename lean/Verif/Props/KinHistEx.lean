import Verif.Props.KinHist
import Verif.Props.KinSearchEx

/-!
# Later searches over stored poses: a concrete history
-/

namespace PathPlanning
namespace KinEx
open Spec

/-- The nodes after the last iteration of the first search. -/
def after : SSt (Fin 5) Nat P := popNode (A.alg fin.s.lab fin.kin) cfg fin.s 3 P.empty

theorem last_iter_after : kIterate A cfg fin = .done (.ok [0, 1, 2, 3]) { s := after, kin := fin.kin } := by
  obtain ⟨p3, p2, p1, p0⟩ := fin_prev
  unfold kIterate after
  rw [fin_next]
  set s1 := popNode (A.alg fin.s.lab fin.kin) cfg fin.s 3 P.empty with hs1
  have e : ∀ m, (s1.lab m).prev = (fin.s.lab m).prev := by
    intro m
    rw [hs1]
    unfold popNode setLab
    simp only
    split_ifs with h
    · rw [h]
    · rfl
  have hb : backtrack s1.lab [0] 3 = .ok [0, 1, 2, 3] := by
    unfold backtrack
    rw [backtrackFrom, if_neg (by decide), dif_neg (by decide), e 3, p3]
    simp only [e 2, p2]
    rw [if_neg (by decide), backtrackFrom, if_neg (by decide), dif_neg (by decide), e 2, p2]
    simp only [e 1, p1]
    rw [if_neg (by decide), backtrackFrom, if_neg (by decide), dif_neg (by decide), e 1, p1]
    simp only [e 0, p0]
    rw [if_neg (by decide), backtrackFrom, if_pos (by decide)]
  have hg : goalLoop (A.alg s1.lab fin.kin) (A.cfg cfg fin.kin) 3 cfg.goal s1 =
      .ok ⟨true, [0, 1, 2, 3], s1⟩ := by
    show goalLoop (A.alg s1.lab fin.kin) (A.cfg cfg fin.kin) 3 [4] s1 = _
    unfold goalLoop
    rw [if_pos (by simp [KAlgo.alg, A, fin_kin.2.2.2]), if_neg (by simp [KAlgo.cfg, cfg])]
    have : (A.cfg cfg fin.kin).start = [0] := rfl
    rw [this, hb]; rfl
  have ha : cfg.abort fin.s.expansions = false := rfl
  simp only [ha, ← hs1, hg, Bool.false_eq_true, if_false]
  rfl

theorem first : kFindOn A P cfg (fun _ => Label.fresh A.zero) kin0 5 =
    some (.ok [0, 1, 2, 3], { s := after, kin := fin.kin }) := by
  have : kFindOn A P cfg (fun _ => Label.fresh A.zero) kin0 5 = kLoop A cfg (1 + 4) (kInit A P cfg kin0) := rfl
  rw [this, run4 1, kLoop, last_iter_after]

/-- The nodes after the first search are those of a used object. -/
theorem used : ∃ cs, KCostOk A cs ∧ KUsed A cs P [0] after.lab :=
  ⟨_, costOk, KUsed.find costOk .setMap first⟩

/-- The same search again. -/
def again : Option (CRes (List (Fin 5)) × KSt (Fin 5) (Fin 9) Nat P) := kFindOn A P cfg after.lab fin.kin 2

theorem again_some : ∃ st, again = some (.ok [], st) := by
  have h : (match again with
    | some (.ok [], _) => true
    | _ => false) = true := by decide +kernel
  match e : again, h with
  | some (.ok [], st), _ => exact ⟨st, rfl⟩


end KinEx

open Spec in
/-- **C92, finding.**  Repeating a successful search on the same object returns an empty path, although the vehicle can reach the goal from
the start pose: the hypothesis `lab v ≤ …` in `SaturatedFrom` is not vacuous, and `kin_complete` is false for later searches. -/
theorem later_kin_repeat : ∃ (A : KAlgo (Fin 5) (Fin 9) Nat) (P : OpenList (Fin 5) Nat) (cfg : SCfg (Fin 5) Nat)
    (kin0 : Fin 5 → Fin 9) (cs : List Nat) (p : List (Fin 5)) (st st' : KSt (Fin 5) (Fin 9) Nat P) (fuel : Nat),
    KCostOk A cs ∧ Nonempty (Lawful P) ∧ TopOk cfg.top ∧ MapOk A cfg.start kin0 ∧
    kFindOn A P cfg (fun _ => Label.fresh A.zero) kin0 5 = some (.ok p, st) ∧ p ≠ [] ∧
    (∀ s ∈ cfg.start, st.kin s = kin0 s) ∧ (∀ g ∈ cfg.goal, st.kin g = kin0 g) ∧
    kFindOn A P cfg st.s.lab st.kin fuel = some (.ok [], st') := by
  obtain ⟨st', h⟩ := KinEx.again_some
  refine ⟨KinEx.A, KinEx.P, KinEx.cfg, KinEx.kin0, _, _, _, st', 2, KinEx.costOk, ⟨prioLawful⟩, KinEx.minTop_ok,
    ⟨fun _ _ _ => ⟨true, rfl⟩, fun _ _ _ _ => ⟨_, rfl⟩⟩, KinEx.first, by simp, ?_, ?_, h⟩
  · have h0 : KinEx.fin.kin 0 = KinEx.kin0 0 := by decide +kernel
    intro s hs
    simp only [KinEx.cfg, List.mem_singleton] at hs
    subst hs; exact h0
  · have h0 : KinEx.fin.kin 4 = KinEx.kin0 4 := by decide +kernel
    intro s hs
    simp only [KinEx.cfg, List.mem_singleton] at hs
    subst hs; exact h0

end PathPlanning
