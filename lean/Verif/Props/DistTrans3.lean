import Verif.Props.DistTrans2

/-!
# The path of the distance transform over 4 or 8 neighbours, in plain coordinates (C53)
-/

namespace PathPlanning.DT
open PathPlanning Spec

theorem nb4_edge {u v : Cell} : (∃ o ∈ nb4, v = (u.1 + o.1, u.2 + o.2)) ↔
    (v.2 = u.2 ∧ (v.1 = u.1 + 1 ∨ v.1 = u.1 - 1)) ∨ (v.1 = u.1 ∧ (v.2 = u.2 + 1 ∨ v.2 = u.2 - 1)) := by
  obtain ⟨a, b⟩ := u
  obtain ⟨x, y⟩ := v
  unfold nb4
  simp only [List.mem_cons, List.not_mem_nil, or_false, exists_eq_or_imp, exists_eq_left, Prod.mk.injEq]
  omega

theorem nb8_touch_iff {u v : Cell} : (∃ o ∈ nb8, v = (u.1 + o.1, u.2 + o.2)) ↔ Touch u v :=
  ⟨fun ⟨_, ho, e⟩ => e ▸ nb8_touch ho u, touch_nb8⟩

theorem shape {w h : Nat} {nbs : List Cell} {adj : Cell → Cell → Prop}
    (hadj : ∀ u v, (∃ o ∈ nbs, v = (u.1 + o.1, u.2 + o.2)) ↔ adj u v) {c : Costs} {goal : Cell} {n : Nat} {start : Cell}
    {p : List Cell} (hp : backtrack w h nbs c goal n start = some p) :
    p.head? = some start ∧
    p.IsChain (fun u v => adj u v ∧ InArr w h v ∧ c v < c u ∧ ∀ k, adj u k → InArr w h k → c v ≤ c k) ∧
    ∀ z, p.getLast? = some z → z = goal ∨ ∀ k, adj z k → InArr w h k → c z ≤ c k := by
  obtain ⟨h1, h2, h3⟩ := backtrack_spec hp
  refine ⟨h1, ?_, ?_⟩
  · refine h2.imp ?_
    rintro u v ⟨a1, a2, a3, a4⟩
    refine ⟨(hadj u v).1 a1, a2, a3, ?_⟩
    intro k hk hin
    obtain ⟨o, ho, rfl⟩ := (hadj u k).2 hk
    exact a4 o ho hin
  · intro z hz
    rcases h3 z hz with e | e
    · exact .inl e
    · right
      intro k hk hin
      obtain ⟨o, ho, rfl⟩ := (hadj z k).2 hk
      exact e o ho hin

/-- **C53 (4 neighbours).**  Whatever the costs are, the path begins at the start, each step goes to the cheapest of the up to four
cells that share an edge and lie in the map, which is cheaper than where it came from, and the path ends at the goal or where no
such cell is cheaper. -/
theorem shape4 {w h : Nat} {c : Costs} {goal : Cell} {n : Nat} {start : Cell} {p : List Cell}
    (hp : backtrack w h nb4 c goal n start = some p) :
    let adj : Cell → Cell → Prop := fun u v =>
      (v.2 = u.2 ∧ (v.1 = u.1 + 1 ∨ v.1 = u.1 - 1)) ∨ (v.1 = u.1 ∧ (v.2 = u.2 + 1 ∨ v.2 = u.2 - 1))
    p.head? = some start ∧
    p.IsChain (fun u v => adj u v ∧ InArr w h v ∧ c v < c u ∧ ∀ k, adj u k → InArr w h k → c v ≤ c k) ∧
    ∀ z, p.getLast? = some z → z = goal ∨ ∀ k, adj z k → InArr w h k → c z ≤ c k :=
  shape (fun _ _ => nb4_edge) hp

/-- **C53 (8 neighbours).**  The same over the up to eight cells that touch. -/
theorem shape8 {w h : Nat} {c : Costs} {goal : Cell} {n : Nat} {start : Cell} {p : List Cell}
    (hp : backtrack w h nb8 c goal n start = some p) :
    p.head? = some start ∧
    p.IsChain (fun u v => Touch u v ∧ InArr w h v ∧ c v < c u ∧ ∀ k, Touch u k → InArr w h k → c v ≤ c k) ∧
    ∀ z, p.getLast? = some z → z = goal ∨ ∀ k, Touch z k → InArr w h k → c z ≤ c k :=
  shape (fun _ _ => nb8_touch_iff) hp

/-- On a map of one row the path over 4 neighbours follows falling costs to the goal. -/
example : ∃ p, backtrack 4 1 nb4 (fun v => fin (v.1 : ℝ)) (0, 0) 5 (3, 0) = some p ∧
    ∀ z, p.getLast? = some z → z = (0, 0) ∨ ∀ k : Cell, k = (z.1 - 1, z.2) → InArr 4 1 k → fin (z.1 : ℝ) ≤ fin (k.1 : ℝ) := by
  obtain ⟨p, hp⟩ := backtrack_terminates 4 1 nb4 (fun v => fin (v.1 : ℝ)) (0, 0) (3, 0)
  refine ⟨p, hp, fun z hz => ((shape4 hp).2.2 z hz).imp id fun h k hk => h k (.inl ⟨by rw [hk], .inr (by rw [hk])⟩)⟩

end PathPlanning.DT
