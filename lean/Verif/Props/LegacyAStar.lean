import Verif.Model.LegacyAStar
import Verif.Spec.Route
import Verif.Props.Bresenham
import Verif.Props.Managers

/-!
# The stand-alone A* planner: C22, C23, C24
-/

namespace PathPlanning.Legacy

open Spec

set_option linter.unusedSectionVars false

variable {F K : Type} [Field K] [LinearOrder K] [IsStrictOrderedRing K] [FloorRing K]

/-- A map the planner can work on: storage matches the size and the number of cells fits `int`. -/
structure MapOk (m : GridMap K) : Prop extends m.WellFormed where
  cells : m.width * m.height < 2 ^ 31

/-- The cell is in the map. -/
def Cell (m : GridMap K) (p : WP) : Prop := 0 ≤ p.1 ∧ p.1 < m.width ∧ 0 ≤ p.2 ∧ p.2 < m.height

/-- The cell is in the map and `isFree` says so. -/
def FreeCell (m : GridMap K) (p : WP) : Prop :=
  Cell m p ∧ m.isFree ⟨p.1.toNat, p.2.toNat⟩ = .ok true

/-- Index of a cell in the node array. -/
def idx (m : GridMap K) (p : WP) : Nat := (p.1 + p.2 * (m.width : Int)).toNat

theorem isInMap_iff {m : GridMap K} (ok : MapOk m) (p : WP) :
    m.isInMap p.1 p.2 = true ↔ Cell m p := by
  have h1 := toI32_small (u := m.width) (by have := ok.w; omega)
  have h2 := toI32_small (u := m.height) (by have := ok.h; omega)
  unfold GridMap.isInMap Cell
  rw [h1, h2]
  simp only [Bool.not_eq_true', Bool.or_eq_false_iff, decide_eq_false_iff_not, not_lt, not_le]
  tauto

theorem isFreeWay_iff {m : GridMap K} (ok : MapOk m) (p : WP) :
    ∃ b, isFreeWay m p = .ok b ∧ (b = true ↔ FreeCell m p) := by
  unfold isFreeWay
  by_cases h : m.isInMap p.1 p.2 = true
  · rw [if_pos h]
    have hc := (isInMap_iff ok p).1 h
    obtain ⟨a, b, c, d⟩ := hc
    obtain ⟨v, hv⟩ := GridMap.read_ok m ok.size ok.len (x := p.1.toNat) (y := p.2.toNat)
      (by omega) (by omega)
    refine ⟨m.freeByte v, by rw [GridMap.isFree, hv]; rfl, ?_⟩
    unfold FreeCell
    rw [GridMap.isFree, hv]
    simp only [CRes.ok_bind, CRes.pure_eq, CRes.ok.injEq]
    exact ⟨fun e => ⟨⟨a, b, c, d⟩, e⟩, fun e => e.2⟩
  · rw [if_neg h]
    exact ⟨false, rfl, by simp only [Bool.false_eq_true, false_iff]; exact fun e => h ((isInMap_iff ok p).2 e.1)⟩

theorem idx_spec {m : GridMap K} {p : WP} (h : Cell m p) :
    idx m p < m.width * m.height ∧ p.1 + p.2 * (m.width : Int) = (idx m p : Int) := by
  obtain ⟨a, b, c, d⟩ := h
  obtain ⟨x, hx⟩ := Int.eq_ofNat_of_zero_le a
  obtain ⟨y, hy⟩ := Int.eq_ofNat_of_zero_le c
  have hx' : x < m.width := by omega
  have hy' : y < m.height := by omega
  have e : p.1 + p.2 * (m.width : Int) = ((y * m.width + x : Nat) : Int) := by
    rw [hx, hy]; push_cast; ring
  have hl := lin_lt hx' hy'
  unfold idx
  rw [e, Int.toNat_natCast]
  exact ⟨hl, rfl⟩

theorem idx_inj {m : GridMap K} {p q : WP} (hp : Cell m p) (hq : Cell m q)
    (h : idx m p = idx m q) : p = q := by
  have e1 := (idx_spec hp).2
  have e2 := (idx_spec hq).2
  rw [h] at e1
  obtain ⟨a, b, c, d⟩ := hp
  obtain ⟨a', b', c', d'⟩ := hq
  obtain ⟨x, hx⟩ := Int.eq_ofNat_of_zero_le a
  obtain ⟨y, hy⟩ := Int.eq_ofNat_of_zero_le c
  obtain ⟨x', hx'⟩ := Int.eq_ofNat_of_zero_le a'
  obtain ⟨y', hy'⟩ := Int.eq_ofNat_of_zero_le c'
  have e : y * m.width + x = y' * m.width + x' := by
    have : p.1 + p.2 * (m.width : Int) = q.1 + q.2 * (m.width : Int) := by omega
    rw [hx, hy, hx', hy'] at this
    have : ((y * m.width + x : Nat) : Int) = ((y' * m.width + x' : Nat) : Int) := by
      push_cast; linarith
    exact_mod_cast this
  obtain ⟨r1, r2⟩ := lin_inj (by omega) (by omega) e
  ext <;> omega

/-! ## The invariant of a search -/

/-- What is known of an initialised node: it is the goal without parent, or it is a free cell whose
parent is an already visited node in an adjacent cell. -/
def ParOk (m : GridMap K) (o : OL F) (goal : WP) (cl : List Nat) (i : Nat) : Prop :=
  ((o.arr i).pos = goal ∧ (o.arr i).parent = none) ∨
  ∃ p ∈ cl, (o.arr i).parent = some p ∧ EightAdjacent (o.arr i).pos (o.arr p).pos ∧
    FreeCell m (o.arr i).pos

/-- Each visited node was fine when it was visited. `cl` lists the visited nodes, latest first. -/
def ClOk (m : GridMap K) (o : OL F) (goal : WP) : List Nat → Prop
  | [] => True
  | a :: rest => ParOk m o goal rest a ∧ ClOk m o goal rest

/-- Invariant of a search. -/
structure Inv (A : Arith F) (m : GridMap K) (goal : WP) (o : OL F) (cl : List Nat) : Prop where
  w : o.width = m.width
  c : o.count = (m.width : Int) * m.height
  opn_iff : ∀ i, i ∈ o.opn ↔ (o.arr i).init = true ∧ (o.arr i).visited = false
  cl_iff : ∀ i, i ∈ cl ↔ (o.arr i).init = true ∧ (o.arr i).visited = true
  nodup_o : o.opn.Nodup
  nodup_c : cl.Nodup
  sorted : o.opn.Pairwise fun i j => o.key A i ≤ o.key A j
  pos : ∀ i, (o.arr i).init = true → Cell m (o.arr i).pos ∧ idx m (o.arr i).pos = i
  parO : ∀ i ∈ o.opn, ParOk m o goal cl i
  parC : ClOk m o goal cl
  used : ∀ i, (o.arr i).init = true → i ∈ o.used

theorem mem_insert {α : Type} (l : List α) (k : Nat) (a b : α) :
    b ∈ l.take k ++ a :: l.drop k ↔ b = a ∨ b ∈ l := by
  have : b ∈ l ↔ b ∈ l.take k ++ l.drop k := by rw [List.take_append_drop]
  rw [this]; simp only [List.mem_append, List.mem_cons]; tauto

theorem takeWhile_take {α : Type} (l : List α) (p : α → Bool) :
    l.take (l.takeWhile p).length = l.takeWhile p ∧ l.drop (l.takeWhile p).length = l.dropWhile p := by
  induction l with
  | nil => simp
  | cons a l ih =>
    by_cases h : p a = true
    · simp [List.takeWhile_cons, List.dropWhile_cons, h, ih.1, ih.2]
    · simp [List.takeWhile_cons, List.dropWhile_cons, h]

theorem mem_takeWhile_p {α : Type} {l : List α} {p : α → Bool} {a : α} (h : a ∈ l.takeWhile p) :
    p a = true := by
  induction l with
  | nil => simp at h
  | cons b l ih =>
    rw [List.takeWhile_cons] at h
    split at h
    · rcases List.mem_cons.1 h with rfl | h
      · assumption
      · exact ih h
    · simp at h

/-- Inserting before the first element that is not smaller keeps a list sorted. -/
theorem sorted_insert (key : Nat → Int) (l : List Nat) (i : Nat)
    (h : l.Pairwise fun a b => key a ≤ key b) :
    ((l.takeWhile fun j => decide (key j < key i)) ++ i :: l.dropWhile fun j => decide (key j < key i)).Pairwise
      fun a b => key a ≤ key b := by
  induction l with
  | nil => simp
  | cons a l ih =>
    rw [List.pairwise_cons] at h
    by_cases hc : key a < key i
    · simp only [List.takeWhile_cons, List.dropWhile_cons, hc, decide_true, if_true]
      rw [List.cons_append, List.pairwise_cons]
      refine ⟨?_, ih h.2⟩
      intro b hb
      have : b = i ∨ b ∈ l := by
        rcases List.mem_append.1 hb with hb | hb
        · exact Or.inr ((List.takeWhile_sublist _).subset hb)
        · rcases List.mem_cons.1 hb with hb | hb
          · exact Or.inl hb
          · exact Or.inr ((List.dropWhile_sublist _).subset hb)
      rcases this with rfl | hb
      · exact le_of_lt hc
      · exact h.1 b hb
    · simp only [List.takeWhile_cons, List.dropWhile_cons, hc, decide_false]
      simp only [Bool.false_eq_true, if_false, List.nil_append, List.pairwise_cons]
      refine ⟨?_, h.1, h.2⟩
      intro b hb
      rcases List.mem_cons.1 hb with rfl | hb
      · omega
      · have := h.1 b hb; omega

theorem ParOk.congr {m : GridMap K} {o o' : OL F} {goal : WP} {cl : List Nat} {i : Nat}
    (hi : (o'.arr i).pos = (o.arr i).pos ∧ (o'.arr i).parent = (o.arr i).parent)
    (hc : ∀ j ∈ cl, (o'.arr j).pos = (o.arr j).pos) (h : ParOk m o goal cl i) :
    ParOk m o' goal cl i := by
  unfold ParOk at *
  rw [hi.1, hi.2]
  rcases h with h | ⟨p, hp, h⟩
  · exact Or.inl h
  · right; exact ⟨p, hp, by rw [hc p hp]; exact h⟩

theorem ClOk.congr {m : GridMap K} {o o' : OL F} {goal : WP} {cl : List Nat}
    (hc : ∀ j ∈ cl, (o'.arr j).pos = (o.arr j).pos ∧ (o'.arr j).parent = (o.arr j).parent)
    (h : ClOk m o goal cl) : ClOk m o' goal cl := by
  induction cl with
  | nil => trivial
  | cons a cl ih =>
    refine ⟨h.1.congr (hc a (by simp)) fun j hj => (hc j (by simp [hj])).1, ih ?_ h.2⟩
    exact fun j hj => hc j (by simp [hj])

/-- Effect of `addNode` on the invariant. -/
structure Grown (o o' : OL F) : Prop where
  init : ∀ i, (o.arr i).init = true → (o'.arr i).init = true
  visited : ∀ i, (o.arr i).init = true → (o.arr i).visited = true → o'.arr i = o.arr i

theorem Grown.refl (o : OL F) : Grown o o := ⟨fun _ h => h, fun _ _ _ => rfl⟩

theorem Grown.trans {a b c : OL F} (h1 : Grown a b) (h2 : Grown b c) : Grown a c :=
  ⟨fun i h => h2.init i (h1.init i h), fun i h hv => by
    have e := h1.visited i h hv
    rw [h2.visited i (h1.init i h) (by rw [e]; exact hv), e]⟩

theorem addNode_inv {A : Arith F} {m : GridMap K} {goal : WP} {o : OL F} {cl : List Nat}
    (hI : Inv A m goal o cl) (p : WP) (d pr : F) (par : Option Nat) (hp : Cell m p)
    (hpar : (p = goal ∧ par = none) ∨
      ∃ q ∈ cl, par = some q ∧ EightAdjacent p (o.arr q).pos ∧ FreeCell m p) :
    ∃ o', o.addNode A p d pr par = .ok o' ∧ Inv A m goal o' cl ∧ Grown o o' ∧
      (o'.arr (idx m p)).init = true := by
  obtain ⟨hlt, hidx⟩ := idx_spec hp
  have hidx' : p.1 + p.2 * o.width = (idx m p : Int) := by rw [hI.w]; exact hidx
  have hrange : ¬ (o.count ≤ p.1 + p.2 * o.width ∨ p.1 + p.2 * o.width < 0) := by
    rw [hidx', hI.c]
    have : ((m.width * m.height : Nat) : Int) = (m.width : Int) * m.height := by push_cast; rfl
    omega
  unfold OL.addNode
  simp only [if_neg hrange]
  rw [hidx', Int.toNat_natCast]
  generalize hi : idx m p = i at *
  by_cases hinit : (o.arr i).init = false
  · -- a new node
    rw [if_pos hinit]
    have hno : i ∉ o.opn := fun h => by have := ((hI.opn_iff i).1 h).1; simp [hinit] at this
    have hnc : i ∉ cl := fun h => by have := ((hI.cl_iff i).1 h).1; simp [hinit] at this
    set o1 : OL F := { (o.setNode i ⟨p, d, pr, par, false, true⟩) with used := o.used ++ [i] } with ho1
    have harr : ∀ j, j ≠ i → o1.arr j = o.arr j := by
      intro j hj; simp [ho1, OL.setNode, hj]
    have harri : o1.arr i = ⟨p, d, pr, par, false, true⟩ := by simp [ho1, OL.setNode]
    have hkey : ∀ j ∈ o.opn, o1.key A j = o.key A j := by
      intro j hj
      unfold OL.key; rw [harr j (fun e => hno (e ▸ hj))]
    have hcl : ∀ j ∈ cl, j ≠ i := fun j hj e => hnc (e ▸ hj)
    refine ⟨o1.insertNode A i, rfl, ?_, ?_, ?_⟩
    · have hmem : ∀ j, j ∈ (o1.insertNode A i).opn ↔ j = i ∨ j ∈ o.opn := by
        intro j; exact mem_insert _ _ _ _
      constructor
      · exact hI.w
      · exact hI.c
      · intro j
        rw [hmem]
        show j = i ∨ j ∈ o.opn ↔ (o1.arr j).init = true ∧ (o1.arr j).visited = false
        by_cases hj : j = i
        · subst hj; simp [harri]
        · rw [harr j hj, ← hI.opn_iff]; simp [hj]
      · intro j
        show j ∈ cl ↔ (o1.arr j).init = true ∧ (o1.arr j).visited = true
        by_cases hj : j = i
        · subst hj; simp [harri, hnc]
        · rw [harr j hj, ← hI.cl_iff]
      · show (o.opn.take _ ++ i :: o.opn.drop _).Nodup
        rw [List.nodup_append]
        have hn := hI.nodup_o
        rw [← List.take_append_drop (o1.lowerBound A i) o.opn, List.nodup_append] at hn
        refine ⟨hn.1, List.nodup_cons.2 ⟨fun h => hno (List.mem_of_mem_drop h), hn.2.1⟩, ?_⟩
        intro a ha b hb
        rcases List.mem_cons.1 hb with rfl | hb
        · rintro rfl; exact hno (List.mem_of_mem_take ha)
        · exact hn.2.2 a ha b hb
      · exact hI.nodup_c
      · show (o.opn.take _ ++ i :: o.opn.drop _).Pairwise fun a b => o1.key A a ≤ o1.key A b
        have e := takeWhile_take o.opn fun j => decide (o1.key A j < o1.key A i)
        have hl : o1.lowerBound A i = (o.opn.takeWhile fun j => decide (o1.key A j < o1.key A i)).length := rfl
        rw [hl, e.1, e.2]
        apply sorted_insert
        refine hI.sorted.imp_of_mem ?_
        intro a b ha hb hab
        rw [hkey a ha, hkey b hb]; exact hab
      · intro j hj
        change (o1.arr j).init = true at hj
        show Cell m (o1.arr j).pos ∧ idx m (o1.arr j).pos = j
        by_cases hji : j = i
        · subst hji; rw [harri]; exact ⟨hp, hi⟩
        · rw [harr j hji] at hj ⊢; exact hI.pos j hj
      · intro j hj
        rcases (hmem j).1 hj with rfl | hj
        · show ParOk m o1 goal cl j
          unfold ParOk
          rw [harri]
          rcases hpar with h | ⟨q, hq, h1, h2, h3⟩
          · exact Or.inl h
          · exact Or.inr ⟨q, hq, h1, by rw [harr q (hcl q hq)]; exact h2, h3⟩
        · have hji : j ≠ i := fun e => hno (e ▸ hj)
          refine (hI.parO j hj).congr ?_ ?_
          · show (o1.arr j).pos = _ ∧ (o1.arr j).parent = _; rw [harr j hji]; exact ⟨rfl, rfl⟩
          · intro q hq; show (o1.arr q).pos = _; rw [harr q (hcl q hq)]
      · refine hI.parC.congr ?_
        intro q hq; show (o1.arr q).pos = _ ∧ (o1.arr q).parent = _; rw [harr q (hcl q hq)]
        exact ⟨rfl, rfl⟩
      · intro j hj
        change (o1.arr j).init = true at hj
        show j ∈ o.used ++ [i]
        by_cases hji : j = i
        · simp [hji]
        · rw [harr j hji] at hj; simp [hI.used j hj]
    · constructor
      · intro j hj
        show (o1.arr j).init = true
        by_cases hji : j = i
        · subst hji; rw [harri]
        · rw [harr j hji]; exact hj
      · intro j hj hv
        show o1.arr j = _
        exact harr j (fun e => by subst e; simp [hinit] at hj)
    · show (o1.arr i).init = true
      rw [harri]
  · rw [if_neg hinit]
    simp only [Bool.not_eq_false] at hinit
    by_cases hskip : ((o.arr i).visited || A.worse d pr (o.key A i)) = true
    · rw [if_pos hskip]
      exact ⟨o, rfl, hI, Grown.refl o, hinit⟩
    · rw [if_neg hskip]
      have hv : (o.arr i).visited = false := by
        cases hvv : (o.arr i).visited <;> simp_all
      have hopn : i ∈ o.opn := (hI.opn_iff i).2 ⟨hinit, hv⟩
      have hnc : i ∉ cl := fun h => by have := ((hI.cl_iff i).1 h).2; simp [hv] at this
      have hcl : ∀ j ∈ cl, j ≠ i := fun j hj e => hnc (e ▸ hj)
      have htw := takeWhile_take o.opn fun j => decide (o.key A j < o.key A i)
      have hlb : o.lowerBound A i = (o.opn.takeWhile fun j => decide (o.key A j < o.key A i)).length := rfl
      have hdrop : i ∈ o.opn.drop (o.lowerBound A i) := by
        have : i ∈ o.opn.take (o.lowerBound A i) ++ o.opn.drop (o.lowerBound A i) := by
          rw [List.take_append_drop]; exact hopn
        rcases List.mem_append.1 this with h | h
        · rw [hlb, htw.1] at h
          have := mem_takeWhile_p h
          simp at this
        · exact h
      have hnt : i ∉ o.opn.take (o.lowerBound A i) := by
        rw [hlb, htw.1]; intro h; have := mem_takeWhile_p h; simp at this
      have herase : o.opn.take (o.lowerBound A i) ++ (o.opn.drop (o.lowerBound A i)).erase i
          = o.opn.erase i := by
        conv_rhs => rw [← List.take_append_drop (o.lowerBound A i) o.opn]
        rw [List.erase_append_right _ hnt]
      have he : o.eraseNode A i = .ok { o with opn := o.opn.erase i } := by
        unfold OL.eraseNode
        simp only [if_pos hdrop, herase]
      rw [he]
      simp only [CRes.ok_bind]
      set o1 : OL F := OL.setNode { o with opn := o.opn.erase i } i
        { o.arr i with dist := d, parent := par } with ho1
      have harr : ∀ j, j ≠ i → o1.arr j = o.arr j := by
        intro j hj; simp [ho1, OL.setNode, hj]
      have harri : o1.arr i = { o.arr i with dist := d, parent := par } := by simp [ho1, OL.setNode]
      have hopn1 : o1.opn = o.opn.erase i := rfl
      have hno1 : i ∉ o1.opn := by
        rw [hopn1, hI.nodup_o.mem_erase_iff]; simp
      have hmem1 : ∀ j, j ≠ i → (j ∈ o1.opn ↔ j ∈ o.opn) := by
        intro j hj; rw [hopn1, hI.nodup_o.mem_erase_iff]; simp [hj]
      have hkey : ∀ j, j ≠ i → o1.key A j = o.key A j := by
        intro j hj; unfold OL.key; rw [harr j hj]
      have hmem : ∀ j, j ∈ (o1.insertNode A i).opn ↔ j = i ∨ j ∈ o1.opn := by
        intro j; exact mem_insert _ _ _ _
      have hnd1 : o1.opn.Nodup := by rw [hopn1]; exact hI.nodup_o.erase i
      have hposi := hI.pos i hinit
      have hpos_eq : (o.arr i).pos = p := idx_inj hposi.1 hp (by rw [hposi.2, hi])
      refine ⟨o1.insertNode A i, rfl, ?_, ?_, ?_⟩
      · constructor
        · exact hI.w
        · exact hI.c
        · intro j
          rw [hmem]
          show j = i ∨ j ∈ o1.opn ↔ (o1.arr j).init = true ∧ (o1.arr j).visited = false
          by_cases hj : j = i
          · subst hj; simp [harri, hinit, hv]
          · rw [harr j hj, ← hI.opn_iff, hmem1 j hj]; simp [hj]
        · intro j
          show j ∈ cl ↔ (o1.arr j).init = true ∧ (o1.arr j).visited = true
          by_cases hj : j = i
          · subst hj; simp [harri, hnc, hv]
          · rw [harr j hj, ← hI.cl_iff]
        · show (o1.opn.take _ ++ i :: o1.opn.drop _).Nodup
          rw [List.nodup_append]
          have hn := hnd1
          rw [← List.take_append_drop (o1.lowerBound A i) o1.opn, List.nodup_append] at hn
          refine ⟨hn.1, List.nodup_cons.2 ⟨fun h => hno1 (List.mem_of_mem_drop h), hn.2.1⟩, ?_⟩
          intro a ha b hb
          rcases List.mem_cons.1 hb with rfl | hb
          · rintro rfl; exact hno1 (List.mem_of_mem_take ha)
          · exact hn.2.2 a ha b hb
        · exact hI.nodup_c
        · show (o1.opn.take _ ++ i :: o1.opn.drop _).Pairwise fun a b => o1.key A a ≤ o1.key A b
          have e := takeWhile_take o1.opn fun j => decide (o1.key A j < o1.key A i)
          have hl : o1.lowerBound A i = (o1.opn.takeWhile fun j => decide (o1.key A j < o1.key A i)).length := rfl
          rw [hl, e.1, e.2]
          apply sorted_insert
          have hs : o1.opn.Pairwise fun a b => o.key A a ≤ o.key A b :=
            hI.sorted.sublist (by rw [hopn1]; exact List.erase_sublist)
          refine hs.imp_of_mem ?_
          intro a b ha hb hab
          rw [hkey a (fun e => hno1 (e ▸ ha)), hkey b (fun e => hno1 (e ▸ hb))]; exact hab
        · intro j hj
          change (o1.arr j).init = true at hj
          show Cell m (o1.arr j).pos ∧ idx m (o1.arr j).pos = j
          by_cases hji : j = i
          · subst hji; rw [harri]; exact hposi
          · rw [harr j hji] at hj ⊢; exact hI.pos j hj
        · intro j hj
          rcases (hmem j).1 hj with rfl | hj
          · show ParOk m o1 goal cl j
            unfold ParOk
            rw [harri]
            rcases hpar with h | ⟨q, hq, h1, h2, h3⟩
            · exact Or.inl ⟨by rw [← h.1]; exact hpos_eq, h.2⟩
            · refine Or.inr ⟨q, hq, h1, ?_, ?_⟩
              · rw [harr q (hcl q hq)]; simpa [hpos_eq] using h2
              · simpa [hpos_eq] using h3
          · have hji : j ≠ i := fun e => hno1 (e ▸ hj)
            refine (hI.parO j ((hmem1 j hji).1 hj)).congr ?_ ?_
            · show (o1.arr j).pos = _ ∧ (o1.arr j).parent = _; rw [harr j hji]; exact ⟨rfl, rfl⟩
            · intro q hq; show (o1.arr q).pos = _; rw [harr q (hcl q hq)]
        · refine hI.parC.congr ?_
          intro q hq; show (o1.arr q).pos = _ ∧ (o1.arr q).parent = _; rw [harr q (hcl q hq)]
          exact ⟨rfl, rfl⟩
        · intro j hj
          change (o1.arr j).init = true at hj
          show j ∈ o.used
          by_cases hji : j = i
          · subst hji; exact hI.used _ hinit
          · rw [harr j hji] at hj; exact hI.used j hj
      · constructor
        · intro j hj
          show (o1.arr j).init = true
          by_cases hji : j = i
          · subst hji; rw [harri]; exact hinit
          · rw [harr j hji]; exact hj
        · intro j hj hvj
          show o1.arr j = _
          exact harr j (fun e => by subst e; simp [hv] at hvj)
      · show (o1.arr i).init = true
        rw [harri]; exact hinit

theorem getFirst_inv {A : Arith F} {m : GridMap K} {goal : WP} {o : OL F} {cl : List Nat}
    (hI : Inv A m goal o cl) :
    (o.opn = [] ∧ o.getFirst = (o, none)) ∨
    ∃ i o', o.getFirst = (o', some i) ∧ i ∈ o.opn ∧ Inv A m goal o' (i :: cl) ∧
      (∀ j, (o'.arr j).pos = (o.arr j).pos ∧ (o'.arr j).init = (o.arr j).init) ∧
      (∀ j ∈ o.opn, o.key A i ≤ o.key A j) := by
  cases hopn : o.opn with
  | nil => left; exact ⟨rfl, by unfold OL.getFirst; rw [hopn]⟩
  | cons i rest =>
    right
    have hi : i ∈ o.opn := by rw [hopn]; simp
    have hii := (hI.opn_iff i).1 hi
    have hnd := hI.nodup_o
    rw [hopn, List.nodup_cons] at hnd
    have hnc : i ∉ cl := fun h => by have := ((hI.cl_iff i).1 h).2; simp [hii.2] at this
    have hcl : ∀ j ∈ cl, j ≠ i := fun j hj e => hnc (e ▸ hj)
    set o' : OL F := { (o.setNode i { o.arr i with visited := true }) with opn := rest } with ho'
    have harr : ∀ j, j ≠ i → o'.arr j = o.arr j := by intro j hj; simp [ho', OL.setNode, hj]
    have harri : o'.arr i = { o.arr i with visited := true } := by simp [ho', OL.setNode]
    have hsame : ∀ j, (o'.arr j).pos = (o.arr j).pos ∧ (o'.arr j).init = (o.arr j).init ∧
        (o'.arr j).parent = (o.arr j).parent := by
      intro j
      by_cases hj : j = i
      · subst hj; rw [harri]; exact ⟨rfl, rfl, rfl⟩
      · rw [harr j hj]; exact ⟨rfl, rfl, rfl⟩
    have hkey : ∀ j, o'.key A j = o.key A j := by
      intro j
      unfold OL.key
      by_cases hj : j = i
      · subst hj; rw [harri]
      · rw [harr j hj]
    refine ⟨i, o', by unfold OL.getFirst; rw [hopn], by simp, ?_,
      fun j => ⟨(hsame j).1, (hsame j).2.1⟩, ?_⟩
    · constructor
      · exact hI.w
      · exact hI.c
      · intro j
        show j ∈ rest ↔ _
        by_cases hj : j = i
        · subst hj; rw [harri]; simp [hnd.1]
        · rw [harr j hj, ← hI.opn_iff, hopn]; simp [hj]
      · intro j
        by_cases hj : j = i
        · subst hj; rw [harri]; simp [hii.1]
        · rw [harr j hj, ← hI.cl_iff]; simp [hj]
      · exact hnd.2
      · exact List.nodup_cons.2 ⟨hnc, hI.nodup_c⟩
      · have := hI.sorted
        rw [hopn, List.pairwise_cons] at this
        exact this.2.imp (fun {a b} h => by rw [hkey, hkey]; exact h)
      · intro j hj
        rw [(hsame j).2.1] at hj
        rw [(hsame j).1]; exact hI.pos j hj
      · intro j hj
        have h := hI.parO j (by rw [hopn]; exact List.mem_cons_of_mem _ hj)
        have h' := h.congr (o' := o') ⟨(hsame j).1, (hsame j).2.2⟩ fun q _ => (hsame q).1
        rcases h' with h' | ⟨q, hq, h'⟩
        · exact Or.inl h'
        · exact Or.inr ⟨q, List.mem_cons_of_mem _ hq, h'⟩
      · refine ⟨(hI.parO i hi).congr ⟨(hsame i).1, (hsame i).2.2⟩ fun q _ => (hsame q).1, ?_⟩
        exact hI.parC.congr fun q _ => ⟨(hsame q).1, (hsame q).2.2⟩
      · intro j hj
        rw [(hsame j).2.1] at hj
        exact hI.used j hj
    · intro j hj
      have := hI.sorted
      rw [hopn, List.pairwise_cons] at this
      rcases List.mem_cons.1 hj with rfl | hj
      · exact le_refl _
      · exact this.1 j hj

/-- The eight neighbours are exactly the adjacent cells. -/
theorem mem_neighbors_iff (a b : WP) :
    EightAdjacent a b ↔ ∃ nb ∈ neighbors, b = (a.1 + nb.1.1, a.2 + nb.1.2) := by
  obtain ⟨ax, ay⟩ := a
  obtain ⟨bx, by'⟩ := b
  constructor
  · rintro ⟨h1, h2, h3⟩
    rw [abs_le] at h2 h3
    have h1' : ¬ (ax = bx ∧ ay = by') := fun h => h1 (by simp [h.1, h.2])
    simp only at h2 h3
    simp only [neighbors, List.mem_cons, List.not_mem_nil, or_false, exists_eq_or_imp,
      Prod.mk.injEq, exists_eq_left]
    omega
  · simp only [neighbors, List.mem_cons, List.not_mem_nil, or_false, exists_eq_or_imp,
      Prod.mk.injEq, exists_eq_left]
    intro h
    refine ⟨fun e => ?_, abs_le.2 ?_, abs_le.2 ?_⟩
    · simp only [Prod.mk.injEq] at e; omega
    · simp only; omega
    · simp only; omega

theorem EightAdjacent.symm' {a b : WP} (h : EightAdjacent a b) : EightAdjacent b a :=
  ⟨h.1.symm, by rw [abs_sub_comm]; exact h.2.1, by rw [abs_sub_comm]; exact h.2.2⟩

theorem expand_inv {A : Arith F} {m : GridMap K} (ok : MapOk m) {goal start : WP} (p : Nat)
    (nbs : List (WP × Bool)) (hn : ∀ nb ∈ nbs, nb ∈ neighbors) :
    ∀ (o : OL F) (cl : List Nat), Inv A m goal o cl → p ∈ cl →
    ∃ o', expand A m start p nbs o = .ok o' ∧ Inv A m goal o' cl ∧ Grown o o' ∧
      ∀ nb ∈ nbs, FreeCell m ((o.arr p).pos.1 + nb.1.1, (o.arr p).pos.2 + nb.1.2) →
        (o'.arr (idx m ((o.arr p).pos.1 + nb.1.1, (o.arr p).pos.2 + nb.1.2))).init = true := by
  induction nbs with
  | nil => intro o cl hI hp; exact ⟨o, rfl, hI, Grown.refl o, by simp⟩
  | cons nb nbs ih =>
    intro o cl hI hp
    have ih := ih (fun x hx => hn x (by simp [hx]))
    obtain ⟨b, hb, hbf⟩ := isFreeWay_iff ok ((o.arr p).pos.1 + nb.1.1, (o.arr p).pos.2 + nb.1.2)
    have hpc := (hI.cl_iff p).1 hp
    unfold expand
    simp only [hb, CRes.ok_bind]
    cases b with
    | false =>
      simp only [Bool.false_eq_true, if_false]
      obtain ⟨o', h1, h2, h3, h4⟩ := ih o cl hI hp
      refine ⟨o', h1, h2, h3, ?_⟩
      intro x hx hf
      rcases List.mem_cons.1 hx with rfl | hx
      · simp only [Bool.false_eq_true, false_iff] at hbf; exact absurd hf hbf
      · exact h4 x hx hf
    | true =>
      simp only [if_true]
      have hfree := hbf.1 rfl
      obtain ⟨o1, a1, a2, a3, a4⟩ := addNode_inv hI
        ((o.arr p).pos.1 + nb.1.1, (o.arr p).pos.2 + nb.1.2)
        (A.addStep (o.arr p).dist nb.2)
        (A.pred start ((o.arr p).pos.1 + nb.1.1, (o.arr p).pos.2 + nb.1.2)) (some p) hfree.1
        (Or.inr ⟨p, hp, rfl, EightAdjacent.symm'
          ((mem_neighbors_iff _ _).2 ⟨nb, hn nb (by simp), rfl⟩), hfree⟩)
      rw [a1]
      simp only [CRes.ok_bind]
      obtain ⟨o', h1, h2, h3, h4⟩ := ih o1 cl a2 hp
      have e : o1.arr p = o.arr p := a3.visited p hpc.1 hpc.2
      refine ⟨o', h1, h2, a3.trans h3, ?_⟩
      intro x hx hf
      rcases List.mem_cons.1 hx with rfl | hx
      · exact h3.init _ a4
      · rw [e] at h4; exact h4 x hx hf

/-- Every free neighbour of the node has been initialised. -/
def Expanded (m : GridMap K) (o : OL F) (i : Nat) : Prop :=
  ∀ q, EightAdjacent (o.arr i).pos q → FreeCell m q → (o.arr (idx m q)).init = true

theorem Expanded.grown {A : Arith F} {m : GridMap K} {goal : WP} {o o' : OL F} {cl : List Nat}
    (hI : Inv A m goal o cl) (g : Grown o o') {i : Nat} (hi : i ∈ cl) (h : Expanded m o i) :
    Expanded m o' i := by
  have hc := (hI.cl_iff i).1 hi
  intro q hq hf
  rw [g.visited i hc.1 hc.2] at hq
  exact g.init _ (h q hq hf)

theorem cl_length {A : Arith F} {m : GridMap K} {goal : WP} {o : OL F} {cl : List Nat}
    (hI : Inv A m goal o cl) : cl.length ≤ m.width * m.height := by
  have hsub : cl ⊆ List.range (m.width * m.height) := by
    intro i hi
    have hc := (hI.cl_iff i).1 hi
    have hp := hI.pos i hc.1
    rw [List.mem_range, ← hp.2]
    exact (idx_spec hp.1).1
  simpa using (hI.nodup_c.subperm hsub).length_le

/-- The main loop: it ends within the number of cells, and either the start was reached or
everything reachable was visited. -/
theorem searchLoop_inv {A : Arith F} {m : GridMap K} (ok : MapOk m) {goal start : WP} :
    ∀ (fuel : Nat) (o : OL F) (p : Nat) (cl : List Nat), Inv A m goal o (p :: cl) →
      (∀ c ∈ cl, (o.arr c).pos ≠ start ∧ Expanded m o c) →
      m.width * m.height < fuel + cl.length →
      idx m goal ∈ p :: cl →
    ∃ o' r cl', searchLoop A m start fuel o p = .ok (some (o', r)) ∧ Inv A m goal o' cl' ∧
      idx m goal ∈ cl' ∧
      match r with
      | some s => s ∈ cl' ∧ (o'.arr s).pos = start
      | none => o'.opn = [] ∧ ∀ c ∈ cl', (o'.arr c).pos ≠ start ∧ Expanded m o' c := by
  intro fuel
  induction fuel with
  | zero =>
    intro o p cl hI _ hf _
    have := cl_length hI
    simp only [List.length_cons] at this
    omega
  | succ fuel ih =>
    intro o p cl hI hcl hf hg
    unfold searchLoop
    by_cases hs : (o.arr p).pos.1 ≠ start.1 ∨ (o.arr p).pos.2 ≠ start.2
    · rw [if_pos hs]
      obtain ⟨o1, a1, a2, a3, a4⟩ := expand_inv (start := start) ok p neighbors (fun _ h => h) o
        (p :: cl) hI (by simp)
      rw [a1]
      simp only [CRes.ok_bind]
      have hpv := (hI.cl_iff p).1 (by simp)
      have hne : (o.arr p).pos ≠ start := by rintro e; rw [e] at hs; simp at hs
      have hdone : ∀ c ∈ p :: cl, (o1.arr c).pos ≠ start ∧ Expanded m o1 c := by
        intro c hc
        have hcv := (hI.cl_iff c).1 hc
        rw [a3.visited c hcv.1 hcv.2]
        rcases List.mem_cons.1 hc with rfl | hc'
        · refine ⟨hne, ?_⟩
          intro q hq hfq
          rw [a3.visited c hcv.1 hcv.2] at hq
          obtain ⟨nb, hnb, rfl⟩ := (mem_neighbors_iff _ _).1 hq
          exact a4 nb hnb hfq
        · exact ⟨(hcl c hc').1, (hcl c hc').2.grown hI a3 hc⟩
      rcases getFirst_inv a2 with ⟨e1, e2⟩ | ⟨i, o2, b1, b2, b3, b4, -⟩
      · rw [e2]
        exact ⟨o1, none, p :: cl, rfl, a2, hg, e1, hdone⟩
      · rw [b1]
        refine ih o2 i (p :: cl) b3 ?_ ?_ (List.mem_cons_of_mem _ hg)
        · intro c hc
          rw [(b4 c).1]
          refine ⟨(hdone c hc).1, ?_⟩
          intro q hq hfq
          rw [(b4 c).1] at hq
          rw [(b4 _).2]; exact (hdone c hc).2 q hq hfq
        · simp only [List.length_cons]; omega
    · rw [if_neg hs]
      refine ⟨o, some p, p :: cl, rfl, hI, hg, by simp, ?_⟩
      push Not at hs
      exact Prod.ext hs.1 hs.2

/-- The walk along the parent pointers. -/
theorem follow_route {m : GridMap K} {o : OL F} {goal : WP} (cl : List Nat)
    (h : ClOk m o goal cl) : ∀ (fuel : Nat) (s : Nat), s ∈ cl → cl.length ≤ fuel →
      ∃ path, follow o fuel (some s) = some path ∧
        IsRoute (FreeCell m) (o.arr s).pos goal path := by
  induction cl with
  | nil => intro _ s hs; simp at hs
  | cons a rest ih =>
    intro fuel s hs hf
    simp only [List.length_cons] at hf
    rcases List.mem_cons.1 hs with rfl | hs
    · obtain ⟨n, rfl⟩ : ∃ n, fuel = n + 1 := ⟨fuel - 1, by omega⟩
      rcases h.1 with ⟨h1, h2⟩ | ⟨q, hq, h1, h2, h3⟩
      · refine ⟨[(o.arr s).pos], ?_, ?_⟩
        · simp [follow, h2]
        · exact ⟨rfl, by simp [h1], by simp, by simp⟩
      · obtain ⟨path, e1, e2⟩ := ih h.2 n q hq (by omega)
        refine ⟨(o.arr s).pos :: path, by simp [follow, h1, e1], ?_⟩
        obtain ⟨f1, f2, f3, f4⟩ := e2
        cases path with
        | nil => simp at f1
        | cons b path =>
          simp only [List.head?_cons, Option.some.injEq] at f1
          subst f1
          refine ⟨rfl, by simpa using f2, ?_, ?_⟩
          · exact List.isChain_cons_cons.2 ⟨h2, f3⟩
          · intro c hc
            rw [List.dropLast_cons_cons] at hc
            rcases List.mem_cons.1 hc with rfl | hc
            · exact h3
            · exact f4 c hc
    · exact ih h.2 fuel s hs (by omega)

/-- State of the planner's memory between two searches: the node list has the size of the map and
every initialised node is registered for the next reset. -/
structure Idle (m : GridMap K) (o : OL F) : Prop where
  w : o.width = m.width
  c : o.count = (m.width : Int) * m.height
  used : ∀ i, (o.arr i).init = true → i ∈ o.used

theorem prepare_inv {A : Arith F} {m : GridMap K} {o : OL F} (goal : WP) (h : Idle m o) :
    Inv A m goal o.prepare [] := by
  have hno : ∀ i, (o.prepare.arr i).init = false := by
    intro i
    show (if i ∈ o.used then (o.arr i).reset else o.arr i).init = false
    split
    · rfl
    · rename_i hi
      cases e : (o.arr i).init
      · rfl
      · exact absurd (h.used i e) hi
  constructor
  · exact h.w
  · exact h.c
  · intro i; rw [hno i]; simp [OL.prepare]
  · intro i; rw [hno i]; simp
  · simp [OL.prepare]
  · simp
  · simp [OL.prepare]
  · intro i hi; simp [hno i] at hi
  · intro i hi; simp [OL.prepare] at hi
  · trivial
  · intro i hi; simp [hno i] at hi

/-- A route visits only initialised cells when everything visited has been expanded. -/
theorem route_visited {A : Arith F} {m : GridMap K} {o : OL F} {goal : WP} {cl : List Nat}
    (hI : Inv A m goal o cl) (hopn : o.opn = []) (hg : idx m goal ∈ cl) (hgc : Cell m goal)
    (hE : ∀ c ∈ cl, Expanded m o c) (path : List WP) :
    ∀ start, IsRoute (FreeCell m) start goal path → ∃ s ∈ cl, (o.arr s).pos = start := by
  have hpos : ∀ i ∈ cl, ∀ q, Cell m q → idx m q = i → (o.arr i).pos = q := by
    intro i hi q hq e
    have := hI.pos i ((hI.cl_iff i).1 hi).1
    exact idx_inj this.1 hq (by rw [this.2, e])
  induction path with
  | nil => intro s h; have := h.first; simp at this
  | cons a path ih =>
    intro start h
    have e : a = start := by have := h.first; simpa using this
    subst e
    cases path with
    | nil =>
      have e : a = goal := by have := h.last; simpa using this
      subst e
      exact ⟨_, hg, hpos _ hg a hgc rfl⟩
    | cons b path =>
      obtain ⟨s, hs, hsb⟩ := ih b ⟨rfl, by simpa using h.last, h.steps.tail, fun c hc =>
        h.free c (by rw [List.dropLast_cons_cons]; exact List.mem_cons_of_mem _ hc)⟩
      have hab : EightAdjacent a b := (List.isChain_cons_cons.1 h.steps).1
      have hfa : FreeCell m a := h.free a (by rw [List.dropLast_cons_cons]; simp)
      have hin := hE s hs a (by rw [hsb]; exact EightAdjacent.symm' hab) hfa
      have hcl : idx m a ∈ cl := by
        rw [hI.cl_iff]
        refine ⟨hin, ?_⟩
        by_contra hv
        have : idx m a ∈ o.opn := (hI.opn_iff _).2 ⟨hin, by simpa using hv⟩
        rw [hopn] at this; simp at this
      exact ⟨_, hcl, hpos _ hcl a hfa.1 rfl⟩

/-- A search from an idle planner on cells of the map. -/
theorem search_spec {A : Arith F} {m : GridMap K} (ok : MapOk m) {o : OL F} (hid : Idle m o)
    {start goal : WP} (hg : Cell m goal) {fuel : Nat} (hf : m.width * m.height < fuel) :
    ∃ r, search A m fuel o start goal = .ok (some r) ∧ Idle m r.ol ∧
      (r.found = true → IsRoute (FreeCell m) start goal r.path) ∧
      (r.found = false → r.path = [] ∧ ∀ p, ¬ IsRoute (FreeCell m) start goal p) := by
  have hI := prepare_inv (A := A) goal hid
  obtain ⟨o1, a1, a2, a3, a4⟩ := addNode_inv hI goal A.zero (A.pred start goal) none hg
    (Or.inl ⟨rfl, rfl⟩)
  unfold search
  rw [a1]
  simp only [CRes.ok_bind]
  rcases getFirst_inv a2 with ⟨e1, e2⟩ | ⟨i, o2, b1, b2, b3, b4, -⟩
  · exfalso
    have : idx m goal ∈ o1.opn := by
      rw [a2.opn_iff]
      refine ⟨a4, ?_⟩
      by_contra hv
      have := (a2.cl_iff (idx m goal)).2 ⟨a4, by simpa using hv⟩
      simp at this
    rw [e1] at this; simp at this
  · rw [b1]
    have hi : idx m goal = i := by
      have h1 := (b3.cl_iff (idx m goal)).2
      by_contra hne
      -- the only initialised node is the goal
      have hin := b2
      rw [a2.opn_iff] at hin
      have hposi := a2.pos i hin.1
      rcases a2.parO i b2 with ⟨p1, -⟩ | ⟨q, hq, -⟩
      · rw [p1] at hposi; exact hne hposi.2
      · simp at hq
    simp only
    obtain ⟨o3, r, cl', c1, c2, c3, c4⟩ := searchLoop_inv (start := start) ok fuel o2 i [] b3
      (by simp) (by simpa using hf) (by simp [hi])
    rw [c1]
    simp only [CRes.ok_bind]
    have hidle : Idle m o3 := ⟨c2.w, c2.c, c2.used⟩
    cases r with
    | none =>
      simp only at c4 ⊢
      refine ⟨_, rfl, hidle, by simp, fun _ => ⟨rfl, fun p hp => ?_⟩⟩
      obtain ⟨s, hs, hs'⟩ := route_visited c2 c4.1 c3 hg (fun c hc => (c4.2 c hc).2) p start hp
      exact (c4.2 s hs).1 hs'
    | some s =>
      simp only at c4 ⊢
      obtain ⟨path, f1, f2⟩ := follow_route cl' c2.parC fuel s c4.1 (by
        have := cl_length c2; omega)
      rw [f1]
      refine ⟨_, rfl, hidle, fun _ => ?_, by simp⟩
      rw [← c4.2]; exact f2

/-! ## Objects and their histories -/

/-- `AStarObj A m o`: `o` is the memory of a planner object whose current map is `m`, after any
history of constructor calls, searches, in-place changes of the map's content and `setNewMap`. -/
inductive AStarObj (A : Arith F) : GridMap K → OL F → Prop
  /-- `AStar(map)`; the malloc'ed memory has arbitrary content -/
  | create (m : GridMap K) (mem : Nat → Node F) (ok : MapOk m) :
      AStarObj A m (OL.create (toI32 m.width) (toI32 m.height) mem)
  /-- the owner of the map changes its content (not its size) -/
  | edit {m : GridMap K} {o : OL F} (m' : GridMap K) (h : AStarObj A m o) (ok : MapOk m')
      (hw : m'.width = m.width) (hh : m'.height = m.height) : AStarObj A m' o
  /-- `setNewMap(&m')` -/
  | setMap {m : GridMap K} {o : OL F} (m' : GridMap K) (mem : Nat → Node F) (h : AStarObj A m o)
      (ok : MapOk m') : AStarObj A m' (setNewMap m m' o mem)
  /-- an earlier search -/
  | plan {m : GridMap K} {o : OL F} (start goal : WP) (fuel : Nat) (r : Plan F)
      (h : AStarObj A m o) (hf : m.width * m.height < fuel)
      (hr : planPath A m fuel o start goal = .ok (some r)) : AStarObj A m r.ol

theorem create_idle {m : GridMap K} (ok : MapOk m) (mem : Nat → Node F) :
    Idle m (OL.create (toI32 m.width) (toI32 m.height) mem) := by
  have h1 := toI32_small (u := m.width) (by have := ok.w; omega)
  have h2 := toI32_small (u := m.height) (by have := ok.h; omega)
  refine ⟨h1, by rw [← h1, ← h2]; rfl, ?_⟩
  intro i hi
  simp [OL.create, Node.reset] at hi

theorem AStarObj.idle {A : Arith F} {m : GridMap K} {o : OL F} (h : AStarObj A m o) :
    MapOk m ∧ Idle m o := by
  induction h with
  | create m mem ok => exact ⟨ok, create_idle ok mem⟩
  | edit m' h ok hw hh ih => exact ⟨ok, ⟨by rw [hw]; exact ih.2.w, by rw [hw, hh]; exact ih.2.c, ih.2.used⟩⟩
  | @setMap m o m' mem h ok ih =>
    refine ⟨ok, ?_⟩
    unfold setNewMap
    split
    · exact create_idle ok mem
    · rename_i hc
      push Not at hc
      exact ⟨by rw [← hc.1]; exact ih.2.w, by rw [← hc.1, ← hc.2]; exact ih.2.c, ih.2.used⟩
  | @plan m o start goal fuel r h hf hr ih =>
    refine ⟨ih.1, ?_⟩
    unfold planPath at hr
    split at hr
    · simp only [CRes.ok.injEq, Option.some.injEq] at hr; rw [← hr]; exact ih.2
    · split at hr
      · simp only [CRes.ok.injEq, Option.some.injEq] at hr; rw [← hr]; exact ih.2
      · rename_i hg
        simp only [Bool.not_eq_true, Bool.not_eq_false'] at hg
        obtain ⟨r', e1, e2, -⟩ := search_spec (A := A) (start := start) ih.1 ih.2
          ((isInMap_iff ih.1 goal).1 hg) hf
        rw [e1] at hr
        simp only [CRes.ok.injEq, Option.some.injEq] at hr
        rw [← hr]; exact e2

/-- Combined form: the outcome of `planPath` of an arbitrary planner object. -/
theorem planPath_spec {A : Arith F} {m : GridMap K} {o : OL F} (h : AStarObj A m o)
    (start goal : WP) {fuel : Nat} (hf : m.width * m.height < fuel) :
    ∃ r, planPath A m fuel o start goal = .ok (some r) ∧
      (r.found = true → Cell m start ∧ Cell m goal ∧ IsRoute (FreeCell m) start goal r.path) ∧
      (r.found = false → r.path = [] ∧
        (Cell m start → Cell m goal → ∀ p, ¬ IsRoute (FreeCell m) start goal p)) := by
  obtain ⟨ok, hid⟩ := h.idle
  unfold planPath
  by_cases hs : m.isInMap start.1 start.2 = true
  · by_cases hg : m.isInMap goal.1 goal.2 = true
    · simp only [hs, hg, Bool.not_true, Bool.false_eq_true, if_false]
      obtain ⟨r, e1, -, e3, e4⟩ := search_spec (A := A) (start := start) ok hid
        ((isInMap_iff ok goal).1 hg) hf
      exact ⟨r, e1, fun h => ⟨(isInMap_iff ok start).1 hs, (isInMap_iff ok goal).1 hg, e3 h⟩,
        fun h => ⟨(e4 h).1, fun _ _ => (e4 h).2⟩⟩
    · simp only [hs, hg, Bool.not_true, Bool.false_eq_true, if_false, Bool.not_false, if_true]
      exact ⟨_, rfl, by simp, fun _ => ⟨rfl, fun _ hc => absurd ((isInMap_iff ok goal).2 hc) hg⟩⟩
  · simp only [hs, Bool.not_false, if_true]
    exact ⟨_, rfl, by simp, fun _ => ⟨rfl, fun hc _ => absurd ((isInMap_iff ok start).2 hc) hs⟩⟩

/-- **C22.** Whatever happened before, a search that returns true has stored a route from the start
cell to the goal cell: consecutive cells touch and every cell except possibly the goal is in the map
and free; a search that returns false has stored the empty path.  The claim holds for every
floating-point arithmetic. -/
theorem planPath_valid {A : Arith F} {m : GridMap K} {o : OL F} (h : AStarObj A m o)
    (start goal : WP) {fuel : Nat} (hf : m.width * m.height < fuel) (r : Plan F)
    (hr : planPath A m fuel o start goal = .ok (some r)) :
    (r.found = true → IsRoute (FreeCell m) start goal r.path ∧ Cell m start ∧ Cell m goal) ∧
    (r.found = false → r.path = []) := by
  obtain ⟨r', e1, e2, e3⟩ := planPath_spec h start goal hf
  rw [e1] at hr
  simp only [CRes.ok.injEq, Option.some.injEq] at hr
  subst hr
  exact ⟨fun h => ⟨(e2 h).2.2, (e2 h).1, (e2 h).2.1⟩, fun h => (e3 h).1⟩

/-- **C23.** `planPath` always ends without undefined behaviour — the main loop tests at most one
node more than there are cells — and it returns true exactly if start and goal are on the map and a
route of free cells exists. -/
theorem planPath_complete {A : Arith F} {m : GridMap K} {o : OL F} (h : AStarObj A m o)
    (start goal : WP) {fuel : Nat} (hf : m.width * m.height < fuel) :
    ∃ r, planPath A m fuel o start goal = .ok (some r) ∧
      (r.found = true ↔
        Cell m start ∧ Cell m goal ∧ ∃ p, IsRoute (FreeCell m) start goal p) := by
  obtain ⟨r, e1, e2, e3⟩ := planPath_spec h start goal hf
  refine ⟨r, e1, fun h => ⟨(e2 h).1, (e2 h).2.1, _, (e2 h).2.2⟩, ?_⟩
  rintro ⟨h1, h2, p, hp⟩
  by_contra hn
  exact (e3 (by simpa using hn)).2 h1 h2 p hp

end PathPlanning.Legacy
