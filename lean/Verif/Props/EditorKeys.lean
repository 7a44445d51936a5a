import Verif.Props.Editor2

/-!
# Every key of the editor (C115)
-/

namespace PathPlanning.Editor
open PathPlanning

/-- **C115 (mode keys).**  s, g, f, m, n and o choose what the mouse does next: nothing else changes but the request to draw. -/
theorem key_modes (maze curve : Gen) (e : Ed) : ∀ km ∈ [('s', Mode.start), ('g', Mode.goal), ('f', Mode.focus), ('m', Mode.maze),
    ('n', Mode.curve), ('o', Mode.obstacle)],
    e.run maze curve [.key km.1.toNat] = .ok { e with mode := km.2, repaint := true } := by
  intro km h
  simp only [List.mem_cons, List.not_mem_nil, or_false] at h
  rcases h with rfl | rfl | rfl | rfl | rfl | rfl <;> rfl

/-- **C115 (t).**  t switches the text on or off; twice is not at all. -/
theorem key_text (maze curve : Gen) (e : Ed) :
    e.run maze curve [.key 't'.toNat] = .ok { e with info := !e.info, repaint := true } ∧
    e.run maze curve [.key 't'.toNat, .key 't'.toNat] = .ok { e with repaint := true } := by
  refine ⟨rfl, ?_⟩
  have : e.run maze curve [.key 't'.toNat, .key 't'.toNat] = .ok { e with info := !!e.info, repaint := true } := rfl
  rw [this, Bool.not_not]

/-- **C115 (+, -, z, h, p).**  The keys of the display only ask for a new drawing. -/
theorem key_display (maze curve : Gen) (e : Ed) : ∀ k ∈ ['+', '-', 'z', 'h', 'p'],
    e.run maze curve [.key k.toNat] = .ok { e with repaint := true } := by
  intro k h
  simp only [List.mem_cons, List.not_mem_nil, or_false] at h
  rcases h with rfl | rfl | rfl | rfl | rfl <;> rfl

/-- **C115 (space, escape, any other key).**  They change nothing; what the caller is told tells them apart: space asks to go on,
escape to leave. -/
theorem key_idle (e : Ed) {k : Nat} (hk : ∀ c ∈ ['s', 'g', 'f', 'm', 'n', 'o', 't', '+', '-', 'z', 'h', 'p', 'c', 'i'], k ≠ c.toNat) :
    e.key k = .ok (e, if k = ' '.toNat then .skip else if k = 27 then .exit else .none) := by
  simp only [List.mem_cons, List.not_mem_nil, or_false, forall_eq_or_imp, forall_eq] at hk
  obtain ⟨h1, h2, h3, h4, h5, h6, h7, h8, h9, h10, h11, h12, h13, h14⟩ := hk
  change k ≠ 115 at h1; change k ≠ 103 at h2; change k ≠ 102 at h3; change k ≠ 109 at h4; change k ≠ 110 at h5
  change k ≠ 111 at h6; change k ≠ 116 at h7; change k ≠ 43 at h8; change k ≠ 45 at h9; change k ≠ 122 at h10
  change k ≠ 104 at h11; change k ≠ 112 at h12; change k ≠ 99 at h13; change k ≠ 105 at h14
  unfold Ed.key
  rw [if_neg (by simp [h8, h9, h10, h11]), if_neg h1, if_neg h2, if_neg h3, if_neg h4, if_neg h5, if_neg h6, if_neg h13,
    if_neg h14, if_neg h12, if_neg h7]
  show (if k = 32 then _ else _) = CRes.ok (e, if k = 32 then _ else _)
  by_cases h : k = 32
  · rw [if_pos h, if_pos h]
  · rw [if_neg h, if_neg h]
    by_cases h' : k = 27
    · rw [if_pos h', if_pos h']
    · rw [if_neg h', if_neg h']

/-- Space changes nothing and says so. -/
example (e : Ed) : e.key 32 = .ok (e, .skip) := by
  have := key_idle e (k := 32) (by decide)
  simpa using this

end PathPlanning.Editor
