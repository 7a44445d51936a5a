import Mathlib.Algebra.Order.Floor.Ring
import Mathlib.Tactic.Ring
import Mathlib.Tactic.Linarith

/-!
# Outcomes of C++ code and machine-integer conversions

Not part of the modelled library: this file fixes how C++ evaluation is represented.
-/

namespace PathPlanning

/-- Result of evaluating a piece of C++ code: a value, a thrown C++ exception (identified by its
class name), or undefined behaviour (out-of-bounds access, failed `assert`, invalid conversion,
dereference of an unset pointer, signed overflow, ...). -/
inductive CRes (α : Type) where
  | ok (a : α)
  | throw (e : String)
  | ub
deriving DecidableEq, Repr

namespace CRes

variable {α β : Type}

/-- Sequencing: exceptions and undefined behaviour propagate. -/
def bind (x : CRes α) (f : α → CRes β) : CRes β :=
  match x with
  | ok a => f a
  | throw e => throw e
  | ub => ub

instance : Monad CRes where
  pure := ok
  bind := bind

/-- The evaluation ended normally. -/
def isOk : CRes α → Bool
  | ok _ => true
  | _ => false

@[simp] theorem pure_eq (a : α) : (pure a : CRes α) = ok a := rfl
@[simp] theorem ok_bind (a : α) (f : α → CRes β) : ((ok a : CRes α) >>= f) = f a := rfl
@[simp] theorem throw_bind (e : String) (f : α → CRes β) :
    ((throw e : CRes α) >>= f) = throw e := rfl
@[simp] theorem ub_bind (f : α → CRes β) : ((ub : CRes α) >>= f) = ub := rfl
@[simp] theorem map_ok (a : α) (f : α → β) : f <$> (ok a : CRes α) = ok (f a) := rfl

theorem bind_eq_ok {x : CRes α} {f : α → CRes β} {b : β} :
    (x >>= f) = ok b ↔ ∃ a, x = ok a ∧ f a = ok b := by
  cases x <;> simp

end CRes

/-- `2^32`, the modulus of `unsigned int`. -/
def u32 : Nat := 4294967296

/-- Reduction of a mathematical value to `unsigned int` (well defined wrap-around). -/
def wrapU (n : Nat) : Nat := n % u32

/-- `(int)u` for an `unsigned int` value `u` (two's complement, as on all supported compilers). -/
def toI32 (u : Nat) : Int := if u < 2147483648 then (u : Int) else (u : Int) - 4294967296

/-- `(unsigned int)i` for an `int` value: reduction modulo `2^32`. -/
def wrapI (z : Int) : Nat := (z % 4294967296).toNat

theorem wrapI_of_lt {z : Int} (h0 : 0 ≤ z) (h1 : z < 4294967296) : wrapI z = z.toNat := by
  unfold wrapI; rw [Int.emod_eq_of_lt h0 h1]

section Field
variable {K : Type} [Field K] [LinearOrder K] [IsStrictOrderedRing K] [FloorRing K]

/-- C++ truncation towards zero of a floating value (here: an exact number). -/
def truncC (d : K) : Int := if 0 ≤ d then ⌊d⌋ else ⌈d⌉

/-- `(unsigned int)d`: truncation; undefined behaviour if the truncated value is not
representable in 32 bits unsigned ([conv.fpint]). -/
def castU (d : K) : CRes Nat :=
  if 0 ≤ truncC d ∧ truncC d < 4294967296 then .ok (truncC d).toNat else .ub

/-- `(int)d`: truncation; undefined behaviour if not representable in 32 bits signed. -/
def castI (d : K) : CRes Int :=
  if -2147483648 ≤ truncC d ∧ truncC d < 2147483648 then .ok (truncC d) else .ub

end Field

/-- Index access `v[i]` of a `std::vector`: out of bounds is undefined behaviour. -/
def vget {α : Type} (v : List α) (i : Nat) : CRes α :=
  match v[i]? with
  | some a => .ok a
  | none => .ub

/-- Index write `v[i] = a` of a `std::vector`: out of bounds is undefined behaviour. -/
def vset {α : Type} (v : List α) (i : Nat) (a : α) : CRes (List α) :=
  if i < v.length then .ok (v.set i a) else .ub

theorem vget_of_lt {α : Type} {v : List α} {i : Nat} (h : i < v.length) :
    vget v i = .ok v[i] := by
  simp [vget, h]

theorem vget_of_ge {α : Type} {v : List α} {i : Nat} (h : v.length ≤ i) :
    vget v i = .ub := by
  simp [vget, h]

theorem toI32_small {u : Nat} (h : u < 2147483648) : toI32 u = u := by simp [toI32, h]

section
variable {K : Type} [Field K] [LinearOrder K] [IsStrictOrderedRing K] [FloorRing K]

omit [IsStrictOrderedRing K] in
theorem truncC_nonneg {d : K} (h : 0 ≤ d) : truncC d = ⌊d⌋ := by simp [truncC, h]

theorem truncC_eq_zero {d : K} (h1 : -1 < d) (h2 : d < 1) : truncC d = 0 := by
  unfold truncC
  split
  · rw [Int.floor_eq_iff]; constructor <;> simp_all
  · rw [Int.ceil_eq_iff]; constructor <;> simp <;> linarith

theorem truncC_neg {d : K} (h : d ≤ -1) : truncC d < 0 := by
  have hd : d < 0 := by linarith
  rw [truncC, if_neg (by linarith)]
  rw [← Int.le_sub_one_iff, Int.ceil_le]; simpa using h

theorem castU_floor {d : K} {n : Nat} (h1 : (n : K) ≤ d) (h2 : d < n + 1) (hn : n < u32) :
    castU d = .ok n := by
  have h0 : (0 : K) ≤ d := le_trans (Nat.cast_nonneg n) h1
  have : truncC d = n := by
    rw [truncC_nonneg h0, Int.floor_eq_iff]; exact ⟨by simpa using h1, by simpa using h2⟩
  unfold castU; rw [this]; unfold u32 at hn
  rw [if_pos ⟨by omega, by omega⟩]; simp

theorem castU_eq_ok {d : K} {n : Nat} (h : castU d = .ok n) :
    n < u32 ∧ -1 < d ∧ d < n + 1 ∧ ((n : K) ≤ d ∨ (n = 0)) := by
  unfold castU at h
  split at h
  · rename_i hc
    injection h with h
    have hn : truncC d = n := by omega
    refine ⟨by unfold u32; omega, ?_, ?_, ?_⟩
    · by_contra hh
      have := truncC_neg (d := d) (by linarith)
      omega
    · unfold truncC at hn; split at hn
      · have := (Int.floor_eq_iff.1 hn).2; simpa using this
      · rename_i hneg
        have : (0:K) ≤ n := Nat.cast_nonneg n
        linarith
    · unfold truncC at hn; split at hn
      · left; have := (Int.floor_eq_iff.1 hn).1; simpa using this
      · right
        rename_i hneg
        have h1 := (Int.ceil_eq_iff.1 hn).1
        by_contra hne
        have : (1:K) ≤ n := by exact_mod_cast Nat.one_le_iff_ne_zero.2 hne
        push_cast at h1
        linarith
  · cases h

end

end PathPlanning
