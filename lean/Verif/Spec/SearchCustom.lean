import Verif.Spec.Search

/-!
# Specification: searches with a user supplied goal test
-/

namespace PathPlanning

variable {N C : Type} {P : OpenList N C}

/-- Asked about `n`, the goal test may hand `n` to the search as a candidate with weight `w`. -/
def Accepts (T : GoalTest N C P) (n : N) (w : C) : Prop := ∃ st, (T.terminate st n).1 = some w

/-- Asked about `n`, the goal test always hands `n` to the search as a candidate. -/
def AlwaysAccepts (T : GoalTest N C P) (n : N) : Prop := ∀ st, (T.terminate st n).1 ≠ none

/-- The goal test stops the search only at nodes it also accepts. -/
def StopsOnlyAtCandidates (T : GoalTest N C P) : Prop :=
  ∀ st n, (T.terminate st n).2 = true → (T.terminate st n).1 ≠ none

/-- The goal test of a region: it accepts the nodes of the region, and stops there; everything else it ignores. -/
def TestsRegion (T : GoalTest N C P) (R : N → Prop) : Prop :=
  ∀ st n, (R n → ∃ w, T.terminate st n = (some w, true)) ∧ (¬ R n → T.terminate st n = (none, false))

/-- `ps` are paths to the nodes of `cs`, in the same order. -/
def PathsTo (A : Algo N C) (start : List N) (ps : List (List N)) (cs : List (N × C)) : Prop :=
  List.Forall₂ (fun p x => ∃ d, WalkTo A start x.1 p d) ps cs

end PathPlanning
