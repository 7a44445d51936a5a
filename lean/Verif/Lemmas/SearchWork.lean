import Verif.Lemmas.SearchCount
import Verif.Props.SearchOpt

/-!
# The work of a search with a consistent heuristic
-/

namespace PathPlanning
set_option linter.unusedSectionVars false

variable {N C : Type} [DecidableEq N] [LinearOrder C] [Fintype N]
variable [AddCommMonoid C] [IsOrderedCancelAddMonoid C]
variable {A : Algo N C} {P : OpenList N C}

/-- The nodes marked as open. -/
def openNodes (lab : Labels N C) : Finset N := Finset.univ.filter fun n => (lab n).opn = true

theorem addW_lt (hE : ExactCosts A) {a b : WithTop C} (h : a < b) (c : C) : A.addW a c < A.addW b c := by
  induction a with
  | top => exact absurd h not_top_lt
  | coe a =>
    induction b with
    | top => exact WithTop.coe_lt_top _
    | coe b =>
      rw [addW_coe, addW_coe, WithTop.coe_lt_coe, hE.add, hE.add]
      exact add_lt_add_left (WithTop.coe_lt_coe.1 h) c

theorem walk_nonneg (hE : ExactCosts A) {start : List N} {n : N} {l : List N} {d : C} (h : WalkTo A start n l d) : 0 ≤ d := by
  induction h with
  | start _ => exact hE.zero.ge
  | step _ hm ih => rw [hE.add]; exact add_nonneg ih (hE.nonneg _ _ _ hm)

/-- Invariant between the iterations; `F` is the key taken last. -/
structure WorkInv (A : Algo N C) (M : MinFirst P) (Q : Counts P) (cfg : SCfg N C) (st : SSt N C P) : Prop where
  low : ∃ F : WithTop C, (∀ n k, M.ent st.opn n k → F ≤ k) ∧
    ∀ u, (st.lab u).closed = true → u ∉ cfg.start → A.addW (st.lab u).dist (hval A cfg.goal u) ≤ F
  nopn : ∀ u, (st.lab u).closed = true → (st.lab u).opn = false
  exp : ∀ u, (st.lab u).expanded = (st.lab u).closed
  count : Q.size st.opn + st.multi = (openNodes st.lab).card + st.updates
  work : st.touched ≤ edgesFrom A (expandedNodes st.lab)

/-- The same while the neighbours of `cur` are processed. -/
structure XWork (A : Algo N C) (M : MinFirst P) (Q : Counts P) (cfg : SCfg N C) (F : WithTop C) (cur : N) (b : Nat) (s : Finset N)
    (st : SSt N C P) : Prop where
  ent : ∀ n k, M.ent st.opn n k → F ≤ k
  low : ∀ u, (st.lab u).closed = true → u ∉ cfg.start → A.addW (st.lab u).dist (hval A cfg.goal u) ≤ F
  cur : F ≤ A.addW (st.lab cur).dist (hval A cfg.goal cur)
  nopn : ∀ u, (st.lab u).closed = true → (st.lab u).opn = false
  exp : ∀ u, (st.lab u).expanded = (st.lab u).closed
  count : Q.size st.opn + st.multi = (openNodes st.lab).card + st.updates
  work : st.touched ≤ b
  nodes : expandedNodes st.lab = s

theorem XWork.process (hE : ExactCosts A) {L : Lawful P} {M : MinFirst P} {Q : Counts P} {cfg : SCfg N C} {g0 : N} {gs : List N}
    (hg : cfg.goal = g0 :: gs) (hcons : Consistent A (hval A cfg.goal)) {F : WithTop C} {cur nb : N} {c : C} {b : Nat} {s : Finset N}
    {done : List (N × C)} {st : SSt N C P} (hX : XInv A L cfg.start cur done st) (h : XWork A M Q cfg F cur b s st)
    (he : (nb, c) ∈ A.succ cur) :
    XWork A M Q cfg F cur (b + 1) s (processNeighbor A cfg.goal st cur nb c) := by
  have hu : (st.lab cur).dist ≠ ⊤ := (hX.core.reach cur).2 (.inr hX.curOk.1)
  obtain ⟨_, _, _, hcase⟩ := process_cases (goal := cfg.goal) hX.core (nb := nb) (c := c) hu
  obtain ⟨q1, q2, q3, q4⟩ := process_count (A := A) cfg.goal st cur nb c
  have hopnnb : (processNeighbor A cfg.goal st cur nb c).touched = st.touched →
      (processNeighbor A cfg.goal st cur nb c).opn = st.opn ∧ (processNeighbor A cfg.goal st cur nb c).updates = st.updates := by
    intro ht
    rcases q4 with ⟨h1, h2, h3⟩ | ⟨k, h1, h2, h3⟩
    · exact ⟨h1, h3⟩
    · omega
  have hnot : ¬ A.addW (st.lab cur).dist c < (st.lab nb).dist →
      (processNeighbor A cfg.goal st cur nb c).touched = st.touched := by
    intro hn
    have hlab0 : (setLab st.lab nb { st.lab nb with watched := true } cur).dist = (st.lab cur).dist := by
      by_cases e : cur = nb
      · subst e; simp [setLab]
      · simp [setLab, e]
    have hreach : (st.lab nb).opn = true ∨ (st.lab nb).closed = true := by
      rw [← hX.core.reach nb]
      intro htop
      rw [htop] at hn
      exact hn (lt_top_iff_ne_top.2 (by rw [Ne, addW_eq_top]; exact hu))
    unfold processNeighbor
    simp only [hlab0, hn, decide_false, Bool.not_false, Bool.and_true, Bool.or_false]
    rcases hreach with h1 | h1
    · split <;> simp [h1]
    · simp [h1]
  have hyes : A.addW (st.lab cur).dist c < (st.lab nb).dist →
      (processNeighbor A cfg.goal st cur nb c).touched = st.touched + 1 ∧
      (processNeighbor A cfg.goal st cur nb c).updates = if (st.lab nb).opn then st.updates + 1 else st.updates := by
    intro hcl
    have hlab0 : (setLab st.lab nb { st.lab nb with watched := true } cur).dist = (st.lab cur).dist := by
      by_cases e : cur = nb
      · subst e; simp [setLab]
      · simp [setLab, e]
    unfold processNeighbor
    simp only [hlab0, hcl, decide_true, Bool.not_true, Bool.and_false, Bool.or_true, if_true, Bool.false_eq_true, if_false]
    exact ⟨trivial, trivial⟩
  rcases hcase with ⟨hncl, hop, hsame⟩ | ⟨hcl, hop, hv, hvc, hvh, hother⟩
  · have ht := hnot hncl
    have hupd := (hopnnb ht).2
    generalize processNeighbor A cfg.goal st cur nb c = st' at *
    have hon : openNodes st'.lab = openNodes st.lab := by
      unfold openNodes
      simp only [fun m => (hsame m).1.2.2.1]
    refine ⟨?_, ?_, ?_, ?_, ?_, ?_, ?_, ?_⟩
    · rw [hop]; exact h.ent
    · intro u hu1 hu2
      rw [(hsame u).1.2.2.2] at hu1; rw [(hsame u).1.1]; exact h.low u hu1 hu2
    · rw [(hsame cur).1.1]; exact h.cur
    · intro u hu1
      rw [(hsame u).1.2.2.2] at hu1; rw [(hsame u).1.2.2.1]; exact h.nopn u hu1
    · intro u; rw [q3, (hsame u).1.2.2.2]; exact h.exp u
    · rw [hop, q2, hupd, hon]; exact h.count
    · rw [ht]; exact h.work.trans (Nat.le_succ b)
    · rw [← h.nodes]; unfold expandedNodes; simp only [q3]
  · obtain ⟨ht, hupd⟩ := hyes hcl
    -- the neighbour has not been closed
    have hkey : F ≤ A.addW (A.addW (st.lab cur).dist c) (hval A cfg.goal nb) := by
      refine h.cur.trans ?_
      obtain ⟨d, hd⟩ := WithTop.ne_top_iff_exists.1 hu
      rw [← hd, addW_coe, addW_coe, addW_coe, WithTop.coe_le_coe, hE.add, hE.add, hE.add, add_assoc]
      exact add_le_add_right (hcons.tri cur nb c he) d
    have hnc : (st.lab nb).closed = false := by
      cases hc : (st.lab nb).closed with
      | false => rfl
      | true =>
        exfalso
        by_cases hs : nb ∈ cfg.start
        · have h0 := hX.core.s0 nb hs
          rw [h0] at hcl
          obtain ⟨d, hd⟩ := WithTop.ne_top_iff_exists.1 hu
          rw [← hd, addW_coe, WithTop.coe_lt_coe, hE.add, hE.zero] at hcl
          have hd0 : (0 : C) ≤ d := by
            obtain ⟨l, d', hb⟩ := hX.core.back cur hu
            have := hb.cost_le hE.ok hX.core.s0
            rw [← hd, WithTop.coe_le_coe] at this
            exact (walk_nonneg hE hb.walk).trans this
          exact absurd hcl (not_lt.2 (add_nonneg hd0 (hE.nonneg _ _ _ he)))
        · have h1 := h.low nb hc hs
          exact absurd (addW_lt hE hcl (hval A cfg.goal nb)) (not_lt.2 (h1.trans hkey))
    generalize processNeighbor A cfg.goal st cur nb c = st' at *
    have hne : cur ≠ nb := by
      rintro rfl
      rw [hX.curOk.1] at hnc
      cases hnc
    have htot : A.total (st'.lab nb) = A.addW (A.addW (st.lab cur).dist c) (hval A cfg.goal nb) := by
      unfold Algo.total hval
      rw [hvh g0 gs hg, hg, hv.1]
    refine ⟨?_, ?_, ?_, ?_, ?_, ?_, ?_, ?_⟩
    · intro n k hk
      rw [hop] at hk
      rcases (M.add_ent _ _ _ _ _).1 hk with ⟨rfl, rfl⟩ | hk
      · rw [htot]; exact hkey
      · exact h.ent n k hk
    · intro u hu1 hu2
      by_cases e : u = nb
      · subst e; rw [hvc, hnc] at hu1; cases hu1
      · rw [hother u e] at hu1 ⊢; exact h.low u hu1 hu2
    · rw [hother cur hne]; exact h.cur
    · intro u hu1
      by_cases e : u = nb
      · subst e; rw [hvc, hnc] at hu1; cases hu1
      · rw [hother u e] at hu1 ⊢; exact h.nopn u hu1
    · intro u
      by_cases e : u = nb
      · subst e; rw [q3, hvc]; exact h.exp u
      · rw [hother u e]; exact h.exp u
    · have hcount := h.count
      rw [hop, Q.add, q2, hupd]
      have hmem : openNodes st'.lab = insert nb (openNodes st.lab) := by
        ext n
        simp only [openNodes, Finset.mem_filter, Finset.mem_univ, true_and, Finset.mem_insert]
        by_cases e : n = nb
        · subst e; simp [hv.2.2]
        · rw [hother n e]; simp [e]
      rw [hmem]
      by_cases ho : (st.lab nb).opn = true
      · rw [if_pos ho, Finset.insert_eq_of_mem (by simp [openNodes, ho])]
        omega
      · rw [if_neg ho, Finset.card_insert_of_notMem (by simp [openNodes, ho])]
        omega
    · rw [ht]; exact Nat.succ_le_succ h.work
    · rw [← h.nodes]; unfold expandedNodes; simp only [q3]

theorem XWork.fold (hE : ExactCosts A) {L : Lawful P} {M : MinFirst P} {Q : Counts P} {cfg : SCfg N C} {g0 : N} {gs : List N}
    (hg : cfg.goal = g0 :: gs) (hcons : Consistent A (hval A cfg.goal)) {F : WithTop C} {cur : N} {s : Finset N} :
    ∀ (es done : List (N × C)) (b : Nat) (st : SSt N C P), XInv A L cfg.start cur done st → XWork A M Q cfg F cur b s st →
      (∀ e ∈ es, e ∈ A.succ cur) →
      XWork A M Q cfg F cur (b + es.length) s (es.foldl (fun s e => processNeighbor A cfg.goal s cur e.1 e.2) st) := by
  intro es
  induction es with
  | nil => intro done b st _ h _; exact h
  | cons e es ih =>
    intro done b st hX h hes
    have h1 := hX.process (goal := cfg.goal) hE.ok (nb := e.1) (c := e.2) (hes e (by simp))
    have h2 := h.process hE hg hcons hX (hes e (by simp))
    have := ih _ _ _ h1.1 h2 (fun x hx => hes x (List.mem_cons_of_mem _ hx))
    rw [List.length_cons, show b + (es.length + 1) = b + 1 + es.length by omega]
    exact this

/-- Offering neighbours that are all known at least as cheaply changes no counter and no relevant label. -/
theorem stale_fold (ok : CostOk A) {L : Lawful P} {start goal : List N} {cur : N} : ∀ (es done : List (N × C)) (st : SSt N C P),
    XInv A L start cur done st → (∀ e ∈ es, e ∈ A.succ cur) →
    (∀ e ∈ es, (st.lab e.1).dist ≤ A.addW (st.lab cur).dist e.2) →
    let st' := es.foldl (fun s e => processNeighbor A goal s cur e.1 e.2) st
    st'.opn = st.opn ∧ st'.touched = st.touched ∧ st'.updates = st.updates ∧ st'.multi = st.multi ∧
      ∀ m, (st'.lab m).dist = (st.lab m).dist ∧ (st'.lab m).opn = (st.lab m).opn ∧ (st'.lab m).closed = (st.lab m).closed ∧
        (st'.lab m).expanded = (st.lab m).expanded := by
  intro es
  induction es with
  | nil => intro done st _ _ _; exact ⟨rfl, rfl, rfl, rfl, fun _ => ⟨rfl, rfl, rfl, rfl⟩⟩
  | cons e es ih =>
    intro done st hX hes hle
    have hu : (st.lab cur).dist ≠ ⊤ := (hX.core.reach cur).2 (.inr hX.curOk.1)
    obtain ⟨_, _, _, hcase⟩ := process_cases (goal := goal) hX.core (nb := e.1) (c := e.2) hu
    obtain ⟨q1, q2, q3, q4⟩ := process_count (A := A) goal st cur e.1 e.2
    have hncl : ¬ A.addW (st.lab cur).dist e.2 < (st.lab e.1).dist := not_lt.2 (hle e (by simp))
    have ht : (processNeighbor A goal st cur e.1 e.2).touched = st.touched ∧
        (processNeighbor A goal st cur e.1 e.2).updates = st.updates := by
      have hlab0 : (setLab st.lab e.1 { st.lab e.1 with watched := true } cur).dist = (st.lab cur).dist := by
        by_cases e' : cur = e.1
        · subst e'; simp [setLab]
        · simp [setLab, e']
      have hreach : (st.lab e.1).opn = true ∨ (st.lab e.1).closed = true := by
        rw [← hX.core.reach e.1]
        intro htop
        rw [htop] at hncl
        exact hncl (lt_top_iff_ne_top.2 (by rw [Ne, addW_eq_top]; exact hu))
      unfold processNeighbor
      simp only [hlab0, hncl, decide_false, Bool.not_false, Bool.and_true, Bool.or_false]
      rcases hreach with h1 | h1
      · split <;> simp [h1]
      · simp [h1]
    rcases hcase with ⟨_, hop, hsame⟩ | ⟨hcl, _⟩
    · have h1 := (hX.process (goal := goal) ok (nb := e.1) (c := e.2) (hes e (by simp))).1
      obtain ⟨k1, k2, k3, k4, k5⟩ := ih _ _ h1 (fun x hx => hes x (List.mem_cons_of_mem _ hx))
        (fun x hx => by rw [(hsame x.1).1.1, (hsame cur).1.1]; exact hle x (List.mem_cons_of_mem _ hx))
      refine ⟨k1.trans hop, k2.trans ht.1, k3.trans ht.2, k4.trans q2, fun m => ?_⟩
      obtain ⟨j1, j2, j3, j4⟩ := k5 m
      exact ⟨j1.trans (hsame m).1.1, j2.trans (hsame m).1.2.2.1, j3.trans (hsame m).1.2.2.2, j4.trans (q3 m)⟩
    · exact absurd hcl hncl

theorem WorkInv.congr {M : MinFirst P} {Q : Counts P} {cfg : SCfg N C} {st st' : SSt N C P} (h : WorkInv A M Q cfg st)
    (h1 : st'.lab = st.lab) (h2 : st'.opn = st.opn) (h4 : st'.multi = st.multi) (h5 : st'.touched = st.touched)
    (h6 : st'.updates = st.updates) : WorkInv A M Q cfg st' := by
  refine ⟨?_, ?_, ?_, ?_, ?_⟩
  · rw [h1, h2]; exact h.low
  · rw [h1]; exact h.nopn
  · rw [h1]; exact h.exp
  · rw [h1, h2, h4, h6]; exact h.count
  · rw [h1, h5]; exact h.work

theorem XWork.congr {M : MinFirst P} {Q : Counts P} {cfg : SCfg N C} {F : WithTop C} {cur : N} {b : Nat} {s : Finset N}
    {st st' : SSt N C P} (h : XWork A M Q cfg F cur b s st)
    (h1 : st'.lab = st.lab) (h2 : st'.opn = st.opn) (h4 : st'.multi = st.multi) (h5 : st'.touched = st.touched)
    (h6 : st'.updates = st.updates) : XWork A M Q cfg F cur b s st' := by
  refine ⟨?_, ?_, ?_, ?_, ?_, ?_, ?_, ?_⟩
  · rw [h2]; exact h.ent
  · rw [h1]; exact h.low
  · rw [h1]; exact h.cur
  · rw [h1]; exact h.nopn
  · rw [h1]; exact h.exp
  · rw [h1, h2, h4, h6]; exact h.count
  · rw [h5]; exact h.work
  · rw [h1]; exact h.nodes

/-- Taking a node: an entry that is out of date, or a node taken for the first time. -/
theorem WorkInv.pop {L : Lawful P} {M : MinFirst P} {Q : Counts P} {cfg : SCfg N C} {st : SSt N C P} (h : WorkInv A M Q cfg st)
    (hS : SInv A L cfg.start st) (hent : EntInv A M cfg st) {cur : N} {o : P.O} (hn : P.next st.opn = some (cur, o)) :
    WorkInv A M Q cfg (popNode A cfg st cur o) ∧
    (((st.lab cur).closed = true) ∨
      (cur ∉ expandedNodes st.lab ∧ ∃ F, XWork A M Q cfg F cur (edgesFrom A (expandedNodes st.lab)) (insert cur (expandedNodes st.lab))
        (popNode A cfg st cur o))) := by
  obtain ⟨k, hk, hmin, hsub, hsup⟩ := M.next_some _ _ _ hn
  obtain ⟨F, hF1, hF2⟩ := h.low
  have hq := Q.next _ _ _ hn
  have hcount := h.count
  have hoth : ∀ n, n ≠ cur → (popNode A cfg st cur o).lab n = st.lab n := fun n hne => setLab_ne _ _ hne
  have hself : ((popNode A cfg st cur o).lab cur).dist = (st.lab cur).dist ∧ ((popNode A cfg st cur o).lab cur).opn = false ∧
      ((popNode A cfg st cur o).lab cur).closed = true ∧ ((popNode A cfg st cur o).lab cur).expanded = true := by
    simp [popNode, setLab]
  have hd : ∀ n, ((popNode A cfg st cur o).lab n).dist = (st.lab n).dist := by
    intro n
    by_cases e : n = cur
    · rw [e]; exact hself.1
    · rw [hoth n e]
  have hnopn : ∀ u, ((popNode A cfg st cur o).lab u).closed = true → ((popNode A cfg st cur o).lab u).opn = false := by
    intro u hu
    by_cases e : u = cur
    · rw [e]; exact hself.2.1
    · rw [hoth u e] at hu ⊢; exact h.nopn u hu
  have hexp : ∀ u, ((popNode A cfg st cur o).lab u).expanded = ((popNode A cfg st cur o).lab u).closed := by
    intro u
    by_cases e : u = cur
    · rw [e, hself.2.2.1, hself.2.2.2]
    · rw [hoth u e]; exact h.exp u
  have hnodes : expandedNodes (popNode A cfg st cur o).lab = insert cur (expandedNodes st.lab) := by
    ext n
    simp only [expandedNodes, Finset.mem_filter, Finset.mem_univ, true_and, Finset.mem_insert]
    by_cases e : n = cur
    · subst e; simp [hself.2.2.2]
    · rw [hoth n e]; simp [e]
  have hopen : openNodes (popNode A cfg st cur o).lab = (openNodes st.lab).erase cur := by
    ext n
    simp only [openNodes, Finset.mem_filter, Finset.mem_univ, true_and, Finset.mem_erase]
    by_cases e : n = cur
    · subst e; simp [hself.2.1]
    · rw [hoth n e]; simp [e]
  have hmulti : (popNode A cfg st cur o).multi = if (st.lab cur).expanded then st.multi + 1 else st.multi := rfl
  have hwork : (popNode A cfg st cur o).touched ≤ edgesFrom A (expandedNodes (popNode A cfg st cur o).lab) := by
    refine h.work.trans ?_
    rw [hnodes]
    exact Finset.sum_le_sum_of_subset (Finset.subset_insert _ _)
  have hlow : ∀ u, ((popNode A cfg st cur o).lab u).closed = true → u ∉ cfg.start →
      A.addW ((popNode A cfg st cur o).lab u).dist (hval A cfg.goal u) ≤ k := by
    intro u hu1 hu2
    rw [hd]
    by_cases e : u = cur
    · subst e; exact hent.lower u k hk hu2
    · rw [hoth u e] at hu1
      exact (hF2 u hu1 hu2).trans (hF1 cur k hk)
  have hents : ∀ n k', M.ent (popNode A cfg st cur o).opn n k' → k ≤ k' := fun n k' hk' => hmin n k' (hsub n k' hk')
  have hcnt : Q.size (popNode A cfg st cur o).opn + (popNode A cfg st cur o).multi =
      (openNodes (popNode A cfg st cur o).lab).card + (popNode A cfg st cur o).updates := by
    show Q.size o + _ = _ + st.updates
    rw [hmulti, hopen]
    by_cases hc : (st.lab cur).closed = true
    · rw [if_pos (by rw [h.exp]; exact hc), Finset.erase_eq_of_notMem (by simp [openNodes, h.nopn cur hc])]
      omega
    · have hop : (st.lab cur).opn = true := by
        have := (hS.core.reach cur).1 (hS.memReach cur (L.next_some _ _ _ hn).1)
        simpa [hc] using this
      have hm : cur ∈ openNodes st.lab := by simp [openNodes, hop]
      rw [if_neg (by rw [h.exp]; exact hc), Finset.card_erase_of_mem hm]
      have := Finset.card_pos.2 ⟨cur, hm⟩
      omega
  refine ⟨⟨⟨k, hents, hlow⟩, hnopn, hexp, hcnt, hwork⟩, ?_⟩
  by_cases hc : (st.lab cur).closed = true
  · exact .inl hc
  · right
    have hop : (st.lab cur).opn = true := by
      have := (hS.core.reach cur).1 (hS.memReach cur (L.next_some _ _ _ hn).1)
      simpa [hc] using this
    refine ⟨by simp [expandedNodes, h.exp, hc], k, hents, hlow, ?_, hnopn, hexp, hcnt, h.work, hnodes⟩
    obtain ⟨k', h1, h2⟩ := hent.upper cur hop
    rw [hd]
    exact (hmin cur k' h1).trans h2

/-- The whole invariant. -/
structure LinInv (A : Algo N C) (L : Lawful P) (M : MinFirst P) (Q : Counts P) (cfg : SCfg N C) (st : SSt N C P) : Prop where
  s : SInv A L cfg.start st
  ent : EntInv A M cfg st
  w : WorkInv A M Q cfg st

theorem LinInv.more (hE : ExactCosts A) {L : Lawful P} {M : MinFirst P} {Q : Counts P} {cfg : SCfg N C} (hx : ExpansionOk cfg)
    {g0 : N} {gs : List N} (hg : cfg.goal = g0 :: gs) (hcons : Consistent A (hval A cfg.goal)) {st st' : SSt N C P}
    (h : LinInv A L M Q cfg st) (hi : iterate A cfg (poseTest A cfg) st = .more st') : LinInv A L M Q cfg st' := by
  obtain ⟨cur, o, t, hn, hX, ht1, hlab, hopn, hXt, hterm, _, rfl⟩ := pose_more hx h.s hi
  obtain ⟨q1, q2, q3, q4, q5, q6⟩ := poseTest_quiet (A := A) cfg _ _ _ ht1
  have hp := h.ent.pop (A := A) hn
  have hd : ∀ n, ((popNode A cfg st cur o).lab n).dist = (st.lab n).dist := (pop_spec h.s hn).2.1
  refine ⟨(expand_spec hE.ok hXt).1, EntInv.fold (L := L) hg hE _ [] _ hXt (fun e he => he) ?_, ?_⟩
  · constructor
    · rw [hlab, hopn]; exact hp.lower
    · rw [hlab, hopn]; exact hp.upper
  · obtain ⟨hw, hc⟩ := h.w.pop (A := A) h.s h.ent hn
    have hw' : WorkInv A M Q cfg t.st := hw.congr q1 q2 q4 q5 q6
    rcases hc with hc | ⟨hnew, F, hF⟩
    · -- out of date
      have hrel := h.s.relaxed cur hc (h.w.nopn cur hc)
      obtain ⟨k1, k2, k3, k4, k5⟩ := stale_fold hE.ok (goal := cfg.goal) (A.succ cur) [] t.st hXt (fun e he => he)
        (fun e he => by rw [hlab, hd, hd]; exact hrel e.1 e.2 he)
      unfold expandNode
      generalize (A.succ cur).foldl (fun s e => processNeighbor A cfg.goal s cur e.1 e.2) t.st = st' at *
      have e1 : expandedNodes st'.lab = expandedNodes t.st.lab := by
        unfold expandedNodes
        simp only [fun m => (k5 m).2.2.2]
      have e2 : openNodes st'.lab = openNodes t.st.lab := by
        unfold openNodes
        simp only [fun m => (k5 m).2.1]
      obtain ⟨F, hF1, hF2⟩ := hw'.low
      refine ⟨⟨F, by rw [k1]; exact hF1, ?_⟩, ?_, ?_, ?_, ?_⟩
      · intro u h1 h2
        rw [(k5 u).2.2.1] at h1
        rw [(k5 u).1]
        exact hF2 u h1 h2
      · intro u h1
        rw [(k5 u).2.2.1] at h1
        rw [(k5 u).2.1]
        exact hw'.nopn u h1
      · intro u
        rw [(k5 u).2.2.1, (k5 u).2.2.2]
        exact hw'.exp u
      · rw [k1, k3, k4, e2]; exact hw'.count
      · rw [k2, e1]; exact hw'.work
    · have hf := (hF.congr q1 q2 q4 q5 q6).fold hE hg hcons (A.succ cur) [] _ _ hXt (fun e he => he)
      refine ⟨⟨F, hf.ent, hf.low⟩, hf.nopn, hf.exp, hf.count, ?_⟩
      have hn' : expandedNodes (expandNode A cfg.goal t.st cur).lab = insert cur (expandedNodes st.lab) := hf.nodes
      rw [hn']
      refine hf.work.trans ?_
      unfold edgesFrom
      rw [Finset.sum_insert hnew]
      omega

theorem init_keys (hE : ExactCosts A) (M : MinFirst P) (cfg : SCfg N C) :
    ∀ n k, M.ent (initSearch A P cfg (freshLabels A)).opn n k → k = ((0 : C) : WithTop C) := by
  have key : ∀ (ss : List N) (st : SSt N C P), (∀ n, (st.lab n).h = A.zero) →
      (∀ n k, M.ent st.opn n k → k = ((0 : C) : WithTop C)) →
      ∀ n k, M.ent (ss.foldl (addStart A) st).opn n k → k = ((0 : C) : WithTop C) := by
    intro ss
    induction ss with
    | nil => intro st _ h; exact h
    | cons s ss ih =>
      intro st h1 h2
      refine ih (addStart A st s) ?_ ?_
      · intro n
        by_cases e : n = s
        · subst e; simp [addStart, setLab, h1]
        · simp [addStart, setLab, h1, e]
      · intro n k hk
        have hop : (addStart A st s).opn = P.add st.opn s ((0 : C) : WithTop C) := by
          show P.add st.opn s _ = _
          rw [Algo.total]
          simp only [h1 s, addW_coe, hE.zero, hE.add, add_zero]
        rw [hop] at hk
        rcases (M.add_ent _ _ _ _ _).1 hk with ⟨_, e⟩ | hk
        · exact e
        · exact h2 n k hk
  exact key cfg.start _ (fun n => rfl) (fun n k h => absurd h (M.empty_ent n k))

theorem LinInv.init (hE : ExactCosts A) (L : Lawful P) (M : MinFirst P) (Q : Counts P) (cfg : SCfg N C) (hnd : cfg.start.Nodup)
    (hH : ∀ s ∈ cfg.start, 0 ≤ hval A cfg.goal s) : LinInv A L M Q cfg (initSearch A P cfg (freshLabels A)) := by
  obtain ⟨k1, k2, k3, k4, k5⟩ := init_facts (A := A) (L := L) (cfg := cfg)
  obtain ⟨c1, c2, c3, c4, c5, c6⟩ := init_count (A := A) Q cfg (freshLabels A)
  have hS := init_inv (A := A) (L := L) (cfg := cfg)
  have hent := EntInv.init (A := A) (M := M) (cfg := cfg) hE hH L
  have hkeys := init_keys hE M cfg
  generalize initSearch A P cfg (freshLabels A) = st at *
  have hcl : ∀ u, (st.lab u).closed = false := by
    intro u
    by_cases hu : u ∈ cfg.start
    · rw [k1 u hu]; rfl
    · rw [k2 u hu]; rfl
  refine ⟨hS, hent, ⟨((0 : C) : WithTop C), ?_, ?_⟩, ?_, ?_, ?_, ?_⟩
  · intro n k hk; rw [hkeys n k hk]
  · intro u hu; rw [hcl] at hu; cases hu
  · intro u hu; rw [hcl] at hu; cases hu
  · intro u; rw [c6, hcl]; rfl
  · have : openNodes st.lab = cfg.start.toFinset := by
      ext n
      simp only [openNodes, Finset.mem_filter, Finset.mem_univ, true_and, List.mem_toFinset]
      by_cases hu : n ∈ cfg.start
      · rw [k1 n hu]; simp [hu]
      · rw [k2 n hu]; simp [hu]
    rw [this, c1, c3, c5, List.toFinset_card_of_nodup hnd]
  · rw [c4]; exact Nat.zero_le _

end PathPlanning
