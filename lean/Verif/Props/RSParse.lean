import Verif.Spec.ReedsShepp

/-!
# C37: the pattern parser of the curve generator
-/

noncomputable section

namespace PathPlanning.RS
open Spec

/-- The segment object created for an element. -/
def newSeg : Elem → Seg
  | .straight d => .line (Lin.new d)
  | .turn o d => .circ (Circ.new o d)

theorem elemOf_newSeg (e : Elem) : elemOf (newSeg e) = e := by cases e <;> rfl

theorem parseLoop_append (st : PState) (a b : List Char) :
    parseLoop st (a ++ b) = match parseLoop st a with
      | .go s => parseLoop s b
      | .error => .error
      | .ub => .ub := by
  induction a generalizing st with
  | nil => rfl
  | cons c a ih =>
    simp only [List.cons_append, parseLoop]
    cases parseChar st c <;> simp [ih]

/-- What one more letter adds. -/
theorem elems_snoc (s : List Char) (ch : Char) :
    elems (s ++ [ch]) = elems s ++
      (match some ch with
        | some 'S' => [Elem.straight (dirAfter s)]
        | some 'L' => [.turn .left (dirAfter s)]
        | some 'R' => [.turn .right (dirAfter s)]
        | _ => []) := by
  unfold elems
  rw [List.length_append, List.length_singleton, List.range_succ, List.filterMap_append]
  congr 1
  · apply List.filterMap_congr
    intro i hi
    have hi := List.mem_range.1 hi
    rw [List.getElem?_append_left hi, List.take_append_of_le_length (by omega)]
  · simp only [List.filterMap_cons, List.filterMap_nil]
    rw [List.getElem?_append_right (le_refl _)]
    simp only [Nat.sub_self, List.getElem?_cons_zero, List.take_left']
    split <;> rename_i h <;> (split at h <;> simp_all)

theorem dirAfter_snoc_ne (s : List Char) {ch : Char} (h : ch ≠ '|') :
    dirAfter (s ++ [ch]) = dirAfter s := by
  unfold dirAfter
  rw [List.count_append, List.count_singleton]
  simp [h]

theorem dirAfter_snoc_bar (s : List Char) :
    dirAfter (s ++ ['|']) = if dirAfter s = .fwd then .bwd else .fwd := by
  unfold dirAfter
  rw [List.count_append, List.count_singleton]
  simp only [beq_self_eq_true, if_true]
  rcases Nat.mod_two_eq_zero_or_one (s.count '|') with h | h
  · have h' : ¬ (s.count '|' + 1) % 2 = 0 := by omega
    simp [h, h']
  · have h' : (s.count '|' + 1) % 2 = 0 := by omega
    simp [h, h']

theorem elems_snoc_none (s : List Char) {ch : Char} (h1 : ch ≠ 'S') (h2 : ch ≠ 'L') (h3 : ch ≠ 'R') :
    elems (s ++ [ch]) = elems s := by
  rw [elems_snoc]
  split <;> simp_all

theorem endsInTurn_iff {segs : List Seg} {s : List Char} (h : segs = (elems s).map newSeg) :
    EndsInTurn s ↔ ∃ c, segs.getLast? = some (.circ c) := by
  subst h
  unfold EndsInTurn
  rw [List.getLast?_map]
  constructor
  · rintro ⟨o, d, h⟩; exact ⟨_, by rw [h]; rfl⟩
  · rintro ⟨c, h⟩
    cases hl : (elems s).getLast? with
    | none => rw [hl] at h; cases h
    | some e =>
      rw [hl] at h
      cases e with
      | straight d => simp [newSeg] at h
      | turn o d => exact ⟨o, d, rfl⟩

/-- An open sub-pattern. -/
def OpenSub (s : List Char) : Prop :=
  ∃ s0 t, s = s0 ++ '(' :: t ∧ Pattern s0 ∧ (∀ ch ∈ t, ch = 'b' ∨ ch = 'p') ∧
    ('b' ∈ t → EndsInTurn s0)

/-- Loop invariant of the parser. -/
structure PInv (s : List Char) (st : PState) : Prop where
  dir : st.dir = dirAfter s
  segs : st.segs = (elems s).map newSeg
  shape : if st.sub then OpenSub s else Pattern s

theorem elems_append_inert (s t : List Char) (h : ∀ ch ∈ t, ch ≠ 'S' ∧ ch ≠ 'L' ∧ ch ≠ 'R') :
    elems (s ++ t) = elems s := by
  induction t using List.reverseRecOn with
  | nil => simp
  | append_singleton t ch ih =>
    rw [← List.append_assoc]
    have := h ch (by simp)
    rw [elems_snoc_none _ this.1 this.2.1 this.2.2, ih]
    intro c hc; exact h c (by simp [hc])

theorem elems_open (s0 t : List Char) (ht : ∀ ch ∈ t, ch = 'b' ∨ ch = 'p') :
    elems (s0 ++ '(' :: t) = elems s0 := by
  apply elems_append_inert
  intro ch hc
  rcases List.mem_cons.1 hc with rfl | hc
  · decide
  · rcases ht ch hc with rfl | rfl <;> decide

theorem endsInTurn_open (s0 t : List Char) (ht : ∀ ch ∈ t, ch = 'b' ∨ ch = 'p') :
    EndsInTurn (s0 ++ '(' :: t) ↔ EndsInTurn s0 := by
  unfold EndsInTurn; rw [elems_open s0 t ht]

theorem OpenSub.snoc {s : List Char} {ch : Char} (h : OpenSub s) (hc : ch = 'b' ∨ ch = 'p')
    (hb : ch = 'b' → EndsInTurn s) : OpenSub (s ++ [ch]) := by
  obtain ⟨s0, t, rfl, h1, h2, h3⟩ := h
  refine ⟨s0, t ++ [ch], by simp, h1, ?_, ?_⟩
  · intro c hc'
    rcases List.mem_append.1 hc' with h | h
    · exact h2 c h
    · rw [List.mem_singleton.1 h]; exact hc
  · intro hm
    rcases List.mem_append.1 hm with h | h
    · exact h3 h
    · have := List.mem_singleton.1 h
      exact (endsInTurn_open s0 t h2).1 (hb this.symm)

theorem OpenSub.close {s : List Char} (h : OpenSub s) : Pattern (s ++ [')']) := by
  obtain ⟨s0, t, rfl, h1, h2, h3⟩ := h
  exact Pattern.sub h1 h2 h3

theorem PInv.step {s : List Char} {st st' : PState} (h : PInv s st) {ch : Char}
    (hs : parseChar st ch = .go st') : PInv (s ++ [ch]) st' := by
  obtain ⟨hd, hseg, hshape⟩ := h
  unfold parseChar at hs
  cases hsub : st.sub with
  | true =>
    rw [hsub] at hshape hs
    simp only [if_true] at hshape hs
    split at hs
    · cases hs
    · split at hs
      · rename_i hne hb
        subst hb
        split at hs
        · cases hs
        · rename_i c hl
          injection hs with hs; subst hs
          refine ⟨by rw [dirAfter_snoc_ne _ (by decide)]; exact hd,
            by rw [elems_snoc_none _ (by decide) (by decide) (by decide)]; exact hseg, ?_⟩
          rw [hsub]; simp only [if_true]
          exact hshape.snoc (Or.inl rfl) (fun _ => (endsInTurn_iff hseg).2 ⟨c, hl⟩)
        · cases hs
      · split at hs
        · rename_i hp
          subst hp
          injection hs with hs; subst hs
          refine ⟨by rw [dirAfter_snoc_ne _ (by decide)]; exact hd,
            by rw [elems_snoc_none _ (by decide) (by decide) (by decide)]; exact hseg, ?_⟩
          rw [hsub]; simp only [if_true]
          exact hshape.snoc (Or.inr rfl) (fun h => absurd h (by decide))
        · split at hs
          · rename_i hp
            subst hp
            injection hs with hs; subst hs
            refine ⟨by rw [dirAfter_snoc_ne _ (by decide)]; exact hd,
              by rw [elems_snoc_none _ (by decide) (by decide) (by decide)]; exact hseg, ?_⟩
            simpa using hshape.close
          · cases hs
  | false =>
    rw [hsub] at hshape hs
    simp only [Bool.false_eq_true, if_false] at hshape hs
    split at hs
    · rename_i hp
      subst hp
      injection hs with hs; subst hs
      refine ⟨by rw [dirAfter_snoc_ne _ (by decide)]; exact hd,
        by rw [elems_snoc_none _ (by decide) (by decide) (by decide)]; exact hseg, ?_⟩
      simp only [if_true]
      exact ⟨s, [], rfl, hshape, by simp, by simp⟩
    · split at hs
      · cases hs
      · split at hs
        · rename_i hp
          subst hp
          injection hs with hs; subst hs
          refine ⟨by rw [dirAfter_snoc_ne _ (by decide)]; exact hd,
            by rw [elems_snoc]; simp [hseg, hd, newSeg], ?_⟩
          simpa [hsub] using hshape.letter (ch := 'S') (by decide)
        · split at hs
          · rename_i hp
            subst hp
            injection hs with hs; subst hs
            refine ⟨by rw [dirAfter_snoc_ne _ (by decide)]; exact hd,
              by rw [elems_snoc]; simp [hseg, hd, newSeg], ?_⟩
            simpa [hsub] using hshape.letter (ch := 'R') (by decide)
          · split at hs
            · rename_i hp
              subst hp
              injection hs with hs; subst hs
              refine ⟨by rw [dirAfter_snoc_ne _ (by decide)]; exact hd,
                by rw [elems_snoc]; simp [hseg, hd, newSeg], ?_⟩
              simpa [hsub] using hshape.letter (ch := 'L') (by decide)
            · split at hs
              · rename_i hp
                subst hp
                injection hs with hs; subst hs
                refine ⟨by rw [dirAfter_snoc_bar, ← hd],
                  by rw [elems_snoc_none _ (by decide) (by decide) (by decide)]; exact hseg, ?_⟩
                simpa [hsub] using hshape.letter (ch := '|') (by decide)
              · cases hs

theorem PInv.init : PInv [] {} :=
  ⟨by simp [dirAfter], by simp [elems], by simpa using Pattern.nil⟩

theorem parseLoop_snoc (st : PState) (s : List Char) (ch : Char) :
    parseLoop st (s ++ [ch]) = match parseLoop st s with
      | .go s' => parseChar s' ch
      | .error => .error
      | .ub => .ub := by
  rw [parseLoop_append]
  cases h : parseLoop st s with
  | go s' => simp only [parseLoop]; cases parseChar s' ch <;> rfl
  | error => rfl
  | ub => rfl

theorem parseLoop_inv (s : List Char) {st : PState} (h : parseLoop {} s = .go st) : PInv s st := by
  induction s using List.reverseRecOn generalizing st with
  | nil =>
    simp only [parseLoop] at h
    injection h with h; subst h
    exact PInv.init
  | append_singleton s ch ih =>
    rw [parseLoop_snoc] at h
    cases hs : parseLoop {} s with
    | go st0 => rw [hs] at h; exact (ih hs).step h
    | error => rw [hs] at h; cases h
    | ub => rw [hs] at h; cases h

theorem parseLoop_sub {s0 t : List Char} {st : PState} (h : parseLoop {} s0 = .go st)
    (hsub : st.sub = false) (ht : ∀ ch ∈ t, ch = 'b' ∨ ch = 'p') (hb : 'b' ∈ t → EndsInTurn s0) :
    parseLoop {} (s0 ++ '(' :: t) = .go { st with sub := true } := by
  induction t using List.reverseRecOn with
  | nil =>
    rw [parseLoop_snoc, h]
    simp [parseChar, hsub]
  | append_singleton t ch ih =>
    have e : s0 ++ '(' :: (t ++ [ch]) = (s0 ++ '(' :: t) ++ [ch] := by simp
    have ih := ih (fun c hc => ht c (by simp [hc])) (fun hc => hb (by simp [hc]))
    rw [e, parseLoop_snoc, ih]
    rcases ht ch (by simp) with rfl | rfl
    · obtain ⟨c, hc⟩ := (endsInTurn_iff (parseLoop_inv _ h).segs).1 (hb (by simp))
      simp [parseChar, hc]
    · simp [parseChar]

theorem parseLoop_of_pattern {s : List Char} (h : Pattern s) :
    ∃ st, parseLoop {} s = .go st ∧ st.sub = false := by
  induction h with
  | nil => exact ⟨{}, rfl, rfl⟩
  | @letter s ch _ hch ih =>
    obtain ⟨st, h1, h2⟩ := ih
    rw [parseLoop_snoc, h1]
    simp only [List.mem_cons, List.not_mem_nil, or_false] at hch
    rcases hch with rfl | rfl | rfl | rfl <;> simp [parseChar, h2]
  | @sub s t _ ht hb ih =>
    obtain ⟨st, h1, h2⟩ := ih
    refine ⟨{ st with sub := false }, ?_, rfl⟩
    rw [parseLoop_snoc, parseLoop_sub h1 h2 ht hb]
    simp [parseChar]

/-- **C37.** For every string: it is accepted exactly if it is a pattern; then exactly one curve is
appended, with one fresh segment per letter, in pattern order, and the driving direction reversed
exactly at each `|`.  The value returned for an accepted string is `false` (the header promises
`true`). -/
theorem parse_accepts_iff (g g' : Gen) (s : List Char) :
    g.parse s = .ok (false, g') ↔
      Pattern s ∧ g' = { g with curves := g.curves ++ [{ seq := (elems s).map newSeg }] } := by
  unfold Gen.parse
  constructor
  · intro h
    cases hp : parseLoop {} s with
    | ub => rw [hp] at h; cases h
    | error => rw [hp] at h; simp at h
    | go st =>
      have inv := parseLoop_inv s hp
      rw [hp] at h
      simp only at h
      have hshape := inv.shape
      cases hsub : st.sub with
      | true => rw [hsub] at h; simp at h
      | false =>
        rw [hsub] at h hshape
        simp only [Bool.false_eq_true, if_false, CRes.ok.injEq, Prod.mk.injEq, true_and] at h hshape
        exact ⟨hshape, by rw [← h, inv.segs]⟩
  · rintro ⟨hp, rfl⟩
    obtain ⟨st, h1, h2⟩ := parseLoop_of_pattern hp
    rw [h1]
    simp only [h2, Bool.false_eq_true, if_false]
    rw [(parseLoop_inv s h1).segs]

/-- **C37.** A rejected string leaves the generator unchanged. -/
theorem parse_reject (g g' : Gen) (s : List Char) (h : g.parse s = .ok (true, g')) :
    g' = g ∧ ¬ Pattern s := by
  refine ⟨?_, fun hp => ?_⟩
  · unfold Gen.parse at h
    cases hp : parseLoop {} s with
    | ub => rw [hp] at h; cases h
    | error => rw [hp] at h; simp at h; exact h.symm
    | go st =>
      rw [hp] at h; simp only at h
      split at h <;> simp at h
      exact h.symm
  · have := (parse_accepts_iff g _ s).2 ⟨hp, rfl⟩
    rw [this] at h; simp at h

/-- **C37.** Every string that is not a pattern is rejected, except that a `b` inside a parenthesis
which comes before any letter `S`, `L`, `R` fails an assertion (reads segment `-1`). -/
theorem parse_defined_iff (g : Gen) (s : List Char) :
    g.parse s = .ub ↔ ∃ s0 t rest, s = s0 ++ '(' :: t ++ 'b' :: rest ∧ Pattern s0 ∧
      elems s0 = [] ∧ ∀ ch ∈ t, ch = 'p' := by
  constructor
  · intro h
    unfold Gen.parse at h
    replace h : parseLoop {} s = .ub := by
      cases hp : parseLoop {} s with
      | ub => rfl
      | error => rw [hp] at h; simp at h
      | go st => rw [hp] at h; simp only at h; split at h <;> cases h
    clear * - h
    -- find the first bad character
    induction s using List.reverseRecOn with
    | nil => simp [parseLoop] at h
    | append_singleton s ch ih =>
      rw [parseLoop_snoc] at h
      cases hs : parseLoop {} s with
      | error => rw [hs] at h; cases h
      | ub =>
        obtain ⟨s0, t, rest, e, h1⟩ := ih hs
        exact ⟨s0, t, rest ++ [ch], by rw [e]; simp, h1⟩
      | go st =>
        rw [hs] at h
        have inv := parseLoop_inv s hs
        simp only at h
        unfold parseChar at h
        cases hsub : st.sub with
        | false => rw [hsub] at h; simp only [Bool.false_eq_true, if_false] at h; split_ifs at h
        | true =>
          have hshape := inv.shape
          rw [hsub] at h hshape
          simp only [if_true] at h hshape
          obtain ⟨s0, t, e, h1, h2, h3⟩ := hshape
          split_ifs at h with a1 a2
          subst a2
          split at h
          · rename_i hl
            have hseg : st.segs = [] := List.getLast?_eq_none_iff.1 hl
            have hel : elems s0 = [] := by
              rw [inv.segs, e, elems_open s0 t h2] at hseg
              simpa using hseg
            refine ⟨s0, t, [], by rw [e], h1, hel, ?_⟩
            intro c hc
            rcases h2 c hc with rfl | h
            · obtain ⟨o, d, hd⟩ := h3 hc
              rw [hel] at hd; cases hd
            · exact h
          · cases h
          · cases h
  · rintro ⟨s0, t, rest, rfl, hp, hel, ht⟩
    obtain ⟨st, h1, h2⟩ := parseLoop_of_pattern hp
    have h3 : parseLoop {} (s0 ++ '(' :: t) = .go { st with sub := true } :=
      parseLoop_sub h1 h2 (fun c hc => Or.inr (ht c hc)) (fun hb => by
        exact absurd (ht _ hb) (by decide))
    have hseg : st.segs = [] := by rw [(parseLoop_inv _ h1).segs, hel]; rfl
    have h4 : parseLoop {} (s0 ++ '(' :: t ++ ['b']) = .ub := by
      rw [parseLoop_snoc, h3]; simp [parseChar, hseg]
    unfold Gen.parse
    have e : s0 ++ '(' :: t ++ 'b' :: rest = (s0 ++ '(' :: t ++ ['b']) ++ rest := by simp
    rw [e, parseLoop_append, h4]

/-- **C37.** No other outcome exists. -/
theorem parse_total (g : Gen) (s : List Char) :
    g.parse s = .ub ∨ g.parse s = .ok (true, g) ∨
      g.parse s = .ok (false, { g with curves := g.curves ++ [{ seq := (elems s).map newSeg }] }) := by
  unfold Gen.parse
  cases hp : parseLoop {} s with
  | ub => simp
  | error => simp
  | go st =>
    simp only
    cases hsub : st.sub with
    | true => simp
    | false => right; right; simp [(parseLoop_inv s hp).segs]

/-- The pattern `L|R(pb)S` used by the library's clients is in the language, so the hypotheses are
met. -/
example : Pattern "L|R(pb)SL".toList := by
  have h : Pattern ['L', '|', 'R'] :=
    ((Pattern.nil.letter (ch := 'L') (by decide)).letter (ch := '|') (by decide)).letter
      (ch := 'R') (by decide)
  have h2 : Pattern (['L', '|', 'R'] ++ '(' :: ['p', 'b'] ++ [')']) :=
    Pattern.sub h (by decide) (fun _ => ⟨.right, .bwd, by decide⟩)
  exact (h2.letter (ch := 'S') (by decide)).letter (ch := 'L') (by decide)

example : elems "L|R(pb)S|L".toList =
    [.turn .left .fwd, .turn .right .bwd, .straight .bwd, .turn .left .fwd] := by decide

/-- A test: `(b)` at the start is the undefined case, `S(b)` is rejected. -/
example : ({} : Gen).parse "(b)".toList = .ub ∧ ({} : Gen).parse "S(b)".toList = .ok (true, {}) := by
  constructor
  · simp [Gen.parse, parseLoop, parseChar]
  · simp [Gen.parse, parseLoop, parseChar]

end PathPlanning.RS
