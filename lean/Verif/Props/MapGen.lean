import Verif.Spec.MapGen

/-!
# The Hilbert curve (C55)
-/

namespace PathPlanning.MapGen
open Spec

theorem Sweep.ne_nil {p q : Room} {S : Room → Prop} {l : List Room} (h : Sweep p q S l) : l ≠ [] := by
  intro e; have := h.head; rw [e] at this; cases this

/-- Two sweeps one step apart. -/
theorem Sweep.append {p q p' q' : Room} {S S' : Room → Prop} {l l' : List Room} (h : Sweep p q S l)
    (h' : Sweep p' q' S' l') (ha : Adj4 1 q p') (hd : ∀ c, S c → ¬ S' c) :
    Sweep p q' (fun c => S c ∨ S' c) (l ++ l') := by
  refine ⟨?_, ?_, ?_, ?_, ?_⟩
  · rw [List.head?_append, h.head]; rfl
  · rw [List.getLast?_append, h'.last]; rfl
  · rw [List.isChain_append]
    refine ⟨h.chain, h'.chain, ?_⟩
    intro x hx y hy
    rw [h.last] at hx; rw [h'.head] at hy
    cases hx; cases hy; exact ha
  · rw [List.nodup_append]
    refine ⟨h.nodup, h'.nodup, ?_⟩
    rintro a hx b hy rfl
    exact hd a ((h.mem a).1 hx) ((h'.mem a).1 hy)
  · intro c; rw [List.mem_append, h.mem, h'.mem]

/-- The steps of a path. -/
def stepsOf (l : List Room) : List (Room × Room) := l.zip l.tail

theorem stepsOf_append {l l' : List Room} {q p' : Room} (h : l.getLast? = some q) (h' : l'.head? = some p') :
    stepsOf (l ++ l') = stepsOf l ++ (q, p') :: stepsOf l' := by
  induction l with
  | nil => cases h
  | cons a l ih =>
    cases l with
    | nil =>
      simp only [List.getLast?_singleton, Option.some.injEq] at h
      subst h
      cases l' with
      | nil => cases h'
      | cons b l' =>
        simp only [List.head?_cons, Option.some.injEq] at h'
        subst h'
        simp [stepsOf]
    | cons b l =>
      have := ih (by rw [List.getLast?_cons_cons] at h; exact h)
      simp only [stepsOf, List.cons_append, List.tail_cons, List.zip_cons_cons] at this ⊢
      rw [this]

/-- The first, the last and the smallest room of the square of side `D` swept for a direction. -/
def hEnd (d : Dir) (p : Room) (D : Int) : Room :=
  match d with
  | .up => (p.1 + (D - 1), p.2)
  | .left => (p.1, p.2 + (D - 1))
  | .right => (p.1, p.2 - (D - 1))
  | .down => (p.1 - (D - 1), p.2)

def hCorner (d : Dir) (p : Room) (D : Int) : Room :=
  match d with
  | .up => p
  | .left => p
  | .right => (p.1 - (D - 1), p.2 - (D - 1))
  | .down => (p.1 - (D - 1), p.2 - (D - 1))

/-- What one call of `hilbert_level` does. -/
def Hil (f : HSt → HSt) (d : Dir) (D : Int) : Prop :=
  ∀ s, ∃ path, Sweep s.cur (hEnd d s.cur D) (Square (hCorner d s.cur D) D) path ∧
    f s = ⟨hEnd d s.cur D, s.links ++ stepsOf path⟩

theorem dirOf_adj (p : Room) (d : Dir) : Adj4 1 p (d.of p) := by
  cases d <;> simp [Adj4, Dir.of]

theorem sweep_congr {p q : Room} {S S' : Room → Prop} {l : List Room} (h : Sweep p q S l) {p' q' : Room} (hp : p = p')
    (hq : q = q') (hs : ∀ c, S c ↔ S' c) : Sweep p' q' S' l := by
  subst hp; subst hq
  exact ⟨h.head, h.last, h.chain, h.nodup, fun c => by rw [h.mem, hs]⟩

/-- Four calls joined by three moves. -/
theorem hil_four {f1 f2 f3 f4 : HSt → HSt} {d d1 d2 d3 d4 m1 m2 m3 : Dir} {D : Int} (hD : 0 < D) (h1 : Hil f1 d1 D)
    (h2 : Hil f2 d2 D) (h3 : Hil f3 d3 D) (h4 : Hil f4 d4 D)
    (hd : (d, d1, m1, d2, m2, d3, m3, d4) = (.left, .up, .right, .left, .down, .left, .left, .down) ∨
      (d, d1, m1, d2, m2, d3, m3, d4) = (.right, .down, .left, .right, .up, .right, .right, .up) ∨
      (d, d1, m1, d2, m2, d3, m3, d4) = (.up, .left, .down, .up, .right, .up, .up, .right) ∨
      (d, d1, m1, d2, m2, d3, m3, d4) = (.down, .right, .up, .down, .left, .down, .down, .left)) :
    Hil (fun s => f4 (move m3 (f3 (move m2 (f2 (move m1 (f1 s))))))) d (2 * D) := by
  intro s
  obtain ⟨l1, a1, b1⟩ := h1 s
  obtain ⟨l2, a2, b2⟩ := h2 (move m1 (f1 s))
  obtain ⟨l3, a3, b3⟩ := h3 (move m2 (f2 (move m1 (f1 s))))
  obtain ⟨l4, a4, b4⟩ := h4 (move m3 (f3 (move m2 (f2 (move m1 (f1 s))))))
  have c1 : (move m1 (f1 s)).cur = m1.of (hEnd d1 s.cur D) := by rw [b1]; rfl
  have e1 : (move m1 (f1 s)).links = s.links ++ stepsOf l1 ++ [(hEnd d1 s.cur D, m1.of (hEnd d1 s.cur D))] := by rw [b1]; rfl
  rw [c1] at a2 b2
  rw [e1] at b2
  have c2 : (move m2 (f2 (move m1 (f1 s)))).cur = m2.of (hEnd d2 (m1.of (hEnd d1 s.cur D)) D) := by rw [b2]; rfl
  have e2 := congrArg HSt.links (congrArg (move m2) b2)
  rw [c2] at a3 b3
  rw [e2] at b3
  have c3 : (move m3 (f3 (move m2 (f2 (move m1 (f1 s)))))).cur =
      m3.of (hEnd d3 (m2.of (hEnd d2 (m1.of (hEnd d1 s.cur D)) D)) D) := by rw [b3]; rfl
  have e3 := congrArg HSt.links (congrArg (move m3) b3)
  rw [c3] at a4 b4
  rw [e3] at b4
  have j1 := stepsOf_append a3.last a4.head
  have j2 := stepsOf_append (l' := l3 ++ l4) a2.last (by rw [List.head?_append, a3.head]; rfl)
  have j3 := stepsOf_append (l' := l2 ++ (l3 ++ l4)) a1.last (by rw [List.head?_append, a2.head]; rfl)
  have s34 := Sweep.append a3 a4 (dirOf_adj _ _) (by
    intro c
    rcases hd with hd | hd | hd | hd <;> cases hd <;>
      simp only [Square, hCorner, hEnd, Dir.of] <;> omega)
  have s234 := Sweep.append a2 s34 (dirOf_adj _ _) (by
    intro c
    rcases hd with hd | hd | hd | hd <;> cases hd <;>
      simp only [Square, hCorner, hEnd, Dir.of] <;> omega)
  have s1234 := Sweep.append a1 s234 (dirOf_adj _ _) (by
    intro c
    rcases hd with hd | hd | hd | hd <;> cases hd <;>
      simp only [Square, hCorner, hEnd, Dir.of] <;> omega)
  have hend : hEnd d4 (m3.of (hEnd d3 (m2.of (hEnd d2 (m1.of (hEnd d1 s.cur D)) D)) D)) D = hEnd d s.cur (2 * D) := by
    rcases hd with hd | hd | hd | hd <;> cases hd <;> simp only [hEnd, Dir.of, Prod.mk.injEq] <;> constructor <;> ring
  refine ⟨l1 ++ (l2 ++ (l3 ++ l4)), sweep_congr s1234 rfl hend ?_, ?_⟩
  · intro c
    rcases hd with hd | hd | hd | hd <;> cases hd <;>
      simp only [Square, hCorner, hEnd, Dir.of] <;> omega
  · show f4 _ = _
    rw [b4, hend, j3, j2, j1]
    simp only [move, List.append_assoc, List.cons_append, List.nil_append]

theorem hil_base (d : Dir) : Hil (hilbert 0 d) d 2 := by
  intro s
  cases d
  · refine ⟨[s.cur, (s.cur.1, s.cur.2 + 1), (s.cur.1 + 1, s.cur.2 + 1), (s.cur.1 + 1, s.cur.2)], ⟨rfl, rfl, ?_, ?_, ?_⟩, ?_⟩
    · simp [Adj4]
    · simp [Prod.ext_iff]
    · intro c
      simp only [List.mem_cons, List.not_mem_nil, or_false, Prod.ext_iff, Square, hCorner]
      omega
    · simp [hilbert, move, stepsOf, Dir.of, hEnd]
  · refine ⟨[s.cur, (s.cur.1 + 1, s.cur.2), (s.cur.1 + 1, s.cur.2 + 1), (s.cur.1, s.cur.2 + 1)], ⟨rfl, rfl, ?_, ?_, ?_⟩, ?_⟩
    · simp [Adj4]
    · simp [Prod.ext_iff]
    · intro c
      simp only [List.mem_cons, List.not_mem_nil, or_false, Prod.ext_iff, Square, hCorner]
      omega
    · simp [hilbert, move, stepsOf, Dir.of, hEnd]
  · refine ⟨[s.cur, (s.cur.1, s.cur.2 - 1), (s.cur.1 - 1, s.cur.2 - 1), (s.cur.1 - 1, s.cur.2)], ⟨rfl, rfl, ?_, ?_, ?_⟩, ?_⟩
    · simp [Adj4]
    · simp [Prod.ext_iff]; omega
    · intro c
      simp only [List.mem_cons, List.not_mem_nil, or_false, Prod.ext_iff, Square, hCorner]
      omega
    · simp [hilbert, move, stepsOf, Dir.of, hEnd]
  · refine ⟨[s.cur, (s.cur.1 - 1, s.cur.2), (s.cur.1 - 1, s.cur.2 - 1), (s.cur.1, s.cur.2 - 1)], ⟨rfl, rfl, ?_, ?_, ?_⟩, ?_⟩
    · simp [Adj4]
    · simp [Prod.ext_iff]; omega
    · intro c
      simp only [List.mem_cons, List.not_mem_nil, or_false, Prod.ext_iff, Square, hCorner]
      omega
    · simp [hilbert, move, stepsOf, Dir.of, hEnd]

theorem hil_all : ∀ (n : Nat) (d : Dir), Hil (hilbert n d) d (2 ^ (n + 1)) := by
  intro n
  induction n with
  | zero => intro d; exact hil_base d
  | succ n ih =>
    intro d
    have hp : (0 : Int) < 2 ^ (n + 1) := by positivity
    have e : (2 : Int) ^ (n + 1 + 1) = 2 * 2 ^ (n + 1) := by ring
    rw [e]
    cases d
    · exact hil_four hp (ih .left) (ih .up) (ih .up) (ih .right) (.inr (.inr (.inl rfl)))
    · exact hil_four hp (ih .up) (ih .left) (ih .left) (ih .down) (.inl rfl)
    · exact hil_four hp (ih .right) (ih .down) (ih .down) (ih .left) (.inr (.inr (.inr rfl)))
    · exact hil_four hp (ih .down) (ih .right) (ih .right) (ih .up) (.inr (.inl rfl))

/-- **C55.**  `hilbert_level(n)` started at a room removes exactly the walls along a path of unit steps that meets every
room of the square of side `2^n` to the right of and below the start exactly once, and ends in its upper right corner;
the path has `4^n` rooms. -/
theorem hilbert_spec (n : Nat) (s : HSt) :
    ∃ path, Sweep s.cur (s.cur.1 + (2 ^ (n + 1) - 1), s.cur.2) (Square s.cur (2 ^ (n + 1))) path ∧
      path.length = 4 ^ (n + 1) ∧ hilbert n .up s = ⟨(s.cur.1 + (2 ^ (n + 1) - 1), s.cur.2), s.links ++ path.zip path.tail⟩ := by
  obtain ⟨path, h1, h2⟩ := hil_all n .up s
  refine ⟨path, h1, ?_, h2⟩
  have hfin : path.toFinset = (Finset.Ico s.cur.1 (s.cur.1 + 2 ^ (n + 1))) ×ˢ (Finset.Ico s.cur.2 (s.cur.2 + 2 ^ (n + 1))) := by
    ext c
    rw [List.mem_toFinset, h1.mem]
    simp [Square, hCorner, Finset.mem_product]
  have hc := congrArg Finset.card hfin
  rw [List.toFinset_card_of_nodup h1.nodup, Finset.card_product, Int.card_Ico, Int.card_Ico] at hc
  rw [hc]
  have e1 : s.cur.1 + (2 : Int) ^ (n + 1) - s.cur.1 = ((2 ^ (n + 1) : Nat) : Int) := by push_cast; ring
  have e2 : s.cur.2 + (2 : Int) ^ (n + 1) - s.cur.2 = ((2 ^ (n + 1) : Nat) : Int) := by push_cast; ring
  rw [e1, e2, Int.toNat_natCast, ← Nat.mul_pow]

/-- **C55 (run).**  `HilbertCurve::run` opens the 65536 rooms (1,1) … (256,256) along one path. -/
theorem hilbertRun_spec : ∃ path, Sweep (1, 1) (256, 1) (Square (1, 1) 256) path ∧ path.length = 65536 ∧
    hilbertRun.links = path.zip path.tail := by
  obtain ⟨path, h1, h2, h3⟩ := hilbert_spec 7 ⟨(1, 1), []⟩
  refine ⟨path, ?_, ?_, ?_⟩
  · have e : (2 : Int) ^ (7 + 1) = 256 := by norm_num
    rw [e] at h1
    exact h1
  · rw [h2]; norm_num
  · unfold hilbertRun; rw [h3]; rfl

theorem mem_zip_tail {l : List Room} {a b : Room} (h : (a, b) ∈ l.zip l.tail) : a ∈ l ∧ b ∈ l :=
  ⟨(List.of_mem_zip h).1, List.mem_of_mem_tail (List.of_mem_zip h).2⟩

/-- **C55, finding.**  Whatever the map, the curve never opens a room of the first row or column, and it does leave every
map of at most 256 rooms in a row or column. -/
theorem hilbertRun_fixed : (∀ a b, Linked hilbertRun.links a b → 1 ≤ a.1 ∧ 1 ≤ a.2) ∧
    ∀ w h : Int, (w ≤ 256 ∨ h ≤ 256) → ∃ a b, Linked hilbertRun.links a b ∧ ¬ InGrid w h a := by
  obtain ⟨path, h1, h2, h3⟩ := hilbertRun_spec
  refine ⟨?_, ?_⟩
  · intro a b hab
    rw [h3] at hab
    have : a ∈ path := by
      rcases hab with hab | hab
      · exact (mem_zip_tail hab).1
      · exact (mem_zip_tail hab).2
    have := (h1.mem a).1 this
    simp only [Square] at this
    omega
  · intro w h hwh
    have hm : ((256 : Int), (256 : Int)) ∈ path := (h1.mem _).2 (by simp [Square])
    -- every room but the last has a successor
    obtain ⟨i, hi, he⟩ := List.getElem_of_mem hm
    have hl : i + 1 < path.length := by
      by_contra hc
      have h5 := h1.last
      rw [List.getLast?_eq_getElem?, List.getElem?_eq_getElem (by omega)] at h5
      have h4 : path.length - 1 = i := by omega
      simp only [h4, he, Option.some.injEq] at h5
      exact absurd h5 (by decide)
    refine ⟨(256, 256), path[i + 1], .inl ?_, ?_⟩
    · rw [h3]
      refine List.mem_iff_getElem.2 ⟨i, by simp; omega, ?_⟩
      simp [he]
    · simp only [InGrid]
      omega

end PathPlanning.MapGen
