import Verif.Model.Ownership

/-!
# What "no memory errors" means

Written without reference to the code of constructors and destructors.
-/

namespace PathPlanning.Spec

open Own

/-- The pointers an object contains to memory it is responsible for. -/
def ptrs : Obj → List Nat
  | .curve segs => segs
  | .gen curves _ => curves.flatten
  | .cmap areas => areas
  | .mgr _ _ _ data => data.toList
  | .dyn chunks => chunks.flatMap fun c => c.toList.flatMap fun p => [p.1, p.2]
  | .astar nodes => nodes.toList.flatMap fun p => [p.1, p.2]
  | .costs data => data.toList
  | .maze a => [a]

/-- A state without leaks and without dangling or shared pointers. -/
structure Clean (s : St) : Prop where
  /-- every live block is referenced by an existing object, every referenced block is live -/
  live_iff : ∀ a, (s.heap.mem a).isSome ↔ ∃ i o, s.obj i = some o ∧ a ∈ ptrs o
  /-- two objects never reference the same block -/
  unshared : ∀ i j o p a, s.obj i = some o → s.obj j = some p → a ∈ ptrs o → a ∈ ptrs p → i = j
  /-- no object references a block twice -/
  once : ∀ i o, s.obj i = some o → (ptrs o).Nodup
  /-- a collision map has 128 areas, and they point back to the map itself -/
  parents : ∀ i as, s.obj i = some (.cmap as) → as.length = 128 ∧
    ∀ a ∈ as, ∃ b, s.heap.mem a = some b ∧ b.parent = i
  /-- the node array of a manager has one element for every node of the current map size -/
  arrays : ∀ i k w h a, s.obj i = some (.mgr k w h (some a)) →
    ∃ b, s.heap.mem a = some b ∧ b.size = k.count w h

/-- The operation is not a compiler-generated member-wise copy. -/
def Explicit : Op → Prop
  | .memberwise _ _ => False
  | _ => True

/-- The node count of the map fits into 32 bits for the kind of manager with the most nodes per
cell, and the width and height fit into an `int`. -/
def FitsOp : Op → Prop
  | .setMap _ w h => w * h * 64 < 2 ^ 32 ∧ w < 2 ^ 31 ∧ h < 2 ^ 31
  | _ => True

/-- A state some history without member-wise copies leads to. -/
def Legit (s : St) : Prop :=
  ∃ ops, (∀ op ∈ ops, Explicit op ∧ FitsOp op) ∧ run St.init ops = .ok s

/-- A node pointer (address of the array, position) that may be dereferenced. -/
def Valid (s : St) (p : Nat × Nat) : Prop := ∃ b, s.heap.mem p.1 = some b ∧ p.2 < b.size

end PathPlanning.Spec
