import Verif.Spec.GridPath

/-!
# Specification: cells of a map that changes

`free k c`: the cell `c` is free on the `k`-th of the maps in question.
-/

namespace PathPlanning.Spec

/-- Free on at least one of the first `n` maps. -/
def FreeAtSomeTime (n : Nat) (free : Nat → Int × Int → Prop) (c : Int × Int) : Prop := ∃ k < n, free k c

/-- Free on all of the first `n` maps. -/
def FreeAllTheTime (n : Nat) (free : Nat → Int × Int → Prop) (c : Int × Int) : Prop := ∀ k < n, free k c

/-- From map to map cells are blocked, never cleared. -/
def OnlyBlocking (free : Nat → Int × Int → Prop) : Prop := ∀ k c, free (k + 1) c → free k c

/-- From map to map cells are cleared, never blocked. -/
def OnlyClearing (free : Nat → Int × Int → Prop) : Prop := ∀ k c, free k c → free (k + 1) c

end PathPlanning.Spec
