import Verif.Lemmas.SearchTest

/-!
# Invariants of searches on an object that has been used before
-/

namespace PathPlanning
set_option linter.unusedSectionVars false

variable {N C : Type} [DecidableEq N] [LinearOrder C] [Fintype N]
variable {A : Algo N C} {P : OpenList N C}

/-- What is known of the labels between two searches. -/
structure Hist (A : Algo N C) (S : List N) (lab : Labels N C) : Prop where
  low : ∀ n, (A.zero : WithTop C) ≤ (lab n).dist
  reach : ∀ n, (lab n).dist ≠ ⊤ ↔ ((lab n).opn = true ∨ (lab n).closed = true)
  nself : ∀ n, (lab n).prev ≠ some n
  cost : ∀ n, (lab n).dist ≠ ⊤ → ∃ d, Reach A S n d ∧ (lab n).dist = (d : WithTop C)

/-- `n` has been entered by this search, which began with the labels `lab0`. -/
def Touched (start : List N) (lab0 lab : Labels N C) (n : N) : Prop := n ∈ start ∨ (lab n).dist < (lab0 n).dist

/-- Structural invariant of the labels during such a search. -/
structure HCore (A : Algo N C) (S start : List N) (lab0 lab : Labels N C) : Prop extends Hist A S lab where
  sub : ∀ s ∈ start, s ∈ S
  le0 : ∀ n, (lab n).dist ≤ (lab0 n).dist
  s0 : ∀ s ∈ start, (lab s).dist = (A.zero : WithTop C)
  back : ∀ n, Touched start lab0 lab n → ∃ l d, Back A start lab n l d ∧ ∀ m ∈ l, Touched start lab0 lab m
  small : ∀ n, Touched start lab0 lab n → ∃ (S : Finset N) (k : Nat) (d : C), n ∈ S ∧
    (∀ m ∈ S, (lab m).dist ≤ (lab n).dist) ∧ k + 1 ≤ S.card ∧ d ∈ walkCosts A k ∧
    (lab n).dist = (d : WithTop C)

variable {S start : List N} {lab0 lab : Labels N C}

theorem HCore.fin (h : HCore A S start lab0 lab) {n : N} (hn : Touched start lab0 lab n) : (lab n).dist ≠ ⊤ := by
  obtain ⟨_, _, d, _, _, _, _, h5⟩ := h.small n hn
  rw [h5]; exact WithTop.coe_ne_top

theorem HCore.congr {lab' : Labels N C} (h : HCore A S start lab0 lab)
    (hd : ∀ m, (lab' m).dist = (lab m).dist ∧ (lab' m).prev = (lab m).prev)
    (hm : ∀ m, ((lab' m).opn = true ∨ (lab' m).closed = true) ↔
      ((lab m).opn = true ∨ (lab m).closed = true)) : HCore A S start lab0 lab' where
  sub := h.sub
  cost n := by rw [(hd n).1]; exact h.cost n
  le0 n := by rw [(hd n).1]; exact h.le0 n
  s0 s hs := by rw [(hd s).1]; exact h.s0 s hs
  nself n := by rw [(hd n).2]; exact h.nself n
  low n := by rw [(hd n).1]; exact h.low n
  back n hn := by
    unfold Touched at hn
    rw [(hd n).1] at hn
    obtain ⟨l, d, hb, ht⟩ := h.back n hn
    refine ⟨l, d, hb.congr fun m _ => hd m, fun m hm => ?_⟩
    have := ht m hm
    unfold Touched at this ⊢
    rw [(hd m).1]; exact this
  reach n := by rw [(hd n).1, hm n]; exact h.reach n
  small n hn := by
    unfold Touched at hn
    rw [(hd n).1] at hn
    obtain ⟨S, k, d, h1, h2, h3⟩ := h.small n hn
    refine ⟨S, k, d, h1, fun m hmS => ?_, ?_⟩
    · rw [(hd m).1, (hd n).1]; exact h2 m hmS
    · rw [(hd n).1]; exact h3

/-- Relaxing an edge keeps the invariant. -/
theorem HCore.relax (ok : CostOk A) (h : HCore A S start lab0 lab) {u v : N} {c : C}
    (hu : Touched start lab0 lab u) (he : (v, c) ∈ A.succ u)
    (hcl : A.addW (lab u).dist c < (lab v).dist) {lab' : Labels N C}
    (hv : (lab' v).dist = A.addW (lab u).dist c ∧ (lab' v).prev = some u ∧ (lab' v).opn = true)
    (ho : ∀ m, m ≠ v → (lab' m).dist = (lab m).dist ∧ (lab' m).prev = (lab m).prev ∧
      (lab' m).opn = (lab m).opn ∧ (lab' m).closed = (lab m).closed) :
    HCore A S start lab0 lab' := by
  have hvs : v ∉ start := by
    intro hs
    rw [h.s0 v hs] at hcl
    exact absurd ((h.low u).trans (le_addW ok he _)) (not_le.2 hcl)
  have hne : u ≠ v := by
    rintro rfl
    exact absurd (le_addW ok he _) (not_le.2 hcl)
  have hnetop : A.addW (lab u).dist c ≠ ⊤ := by rw [Ne, addW_eq_top]; exact h.fin hu
  obtain ⟨lu, du, hbu, htu⟩ := h.back u hu
  have hvl : v ∉ lu := by
    intro hm
    have := hbu.dist_le ok v hm
    exact absurd (this.trans (le_addW ok he _)) (not_le.2 hcl)
  have hle : ∀ m, (lab' m).dist ≤ (lab m).dist := by
    intro m
    by_cases hm : m = v
    · subst hm; rw [hv.1]; exact hcl.le
    · rw [(ho m hm).1]
  have hbv : Back A start lab' v (lu ++ [v]) (A.add du c) := by
    refine .step hvs hv.2.1 (hbu.congr fun m hm => ?_) he ?_
    · have : m ≠ v := fun e => hvl (e ▸ hm)
      exact ⟨(ho m this).1, (ho m this).2.1⟩
    · rw [hv.1, (ho u hne).1]
  have hT' : ∀ m, Touched start lab0 lab m → Touched start lab0 lab' m := fun m ht => ht.imp id fun ht => (hle m).trans_lt ht
  have hTv : Touched start lab0 lab' v := .inr (by rw [hv.1]; exact lt_of_lt_of_le hcl (h.le0 v))
  have htv : ∀ m ∈ lu ++ [v], Touched start lab0 lab' m := by
    intro m hm
    rcases List.mem_append.1 hm with hm | hm
    · exact hT' m (htu m hm)
    · rw [List.mem_singleton.1 hm]; exact hTv
  have hT : ∀ m, m ≠ v → Touched start lab0 lab' m → Touched start lab0 lab m := by
    intro m hm ht
    unfold Touched at ht
    rw [(ho m hm).1] at ht
    exact ht
  refine ⟨⟨?_, ?_, ?_, ?_⟩, h.sub, fun n => (hle n).trans (h.le0 n), ?_, ?_, ?_⟩
  · intro n
    by_cases hn : n = v
    · subst hn; rw [hv.1]; exact (h.low u).trans (le_addW ok he _)
    · rw [(ho n hn).1]; exact h.low n
  · intro n
    by_cases hnv : n = v
    · subst hnv; rw [hv.1, hv.2.2]; simp [hnetop]
    · rw [(ho n hnv).1, (ho n hnv).2.2.1, (ho n hnv).2.2.2]; exact h.reach n
  · intro n
    by_cases hn : n = v
    · subst hn; rw [hv.2.1]; intro e; cases e; exact hne rfl
    · rw [(ho n hn).2.1]; exact h.nself n
  · intro n
    by_cases hn : n = v
    · subst hn; intro _
      obtain ⟨d, h1, h2⟩ := h.cost u (h.fin hu)
      exact ⟨A.add d c, h1.step he, by rw [hv.1, h2]; rfl⟩
    · rw [(ho n hn).1]; exact h.cost n
  · intro s hs
    rw [(ho s fun e => hvs (e ▸ hs)).1]; exact h.s0 s hs
  · intro n hn
    have key : ∀ m l d, Back A start lab m l d → (∀ x ∈ l, Touched start lab0 lab x) →
        ∃ l d, Back A start lab' m l d ∧ ∀ x ∈ l, Touched start lab0 lab' x := by
      intro m l d hb
      induction hb with
      | start hs => intro ht; exact ⟨_, _, .start hs, fun x hx => hT' x (ht x hx)⟩
      | @step m p l d c' hm hp hb hem hlem ih =>
        intro ht
        by_cases hmv : m = v
        · subst hmv; exact ⟨_, _, hbv, htv⟩
        · obtain ⟨l', d', hb', ht'⟩ := ih fun x hx => ht x (List.mem_append_left _ hx)
          refine ⟨_, _, .step hm (by rw [(ho m hmv).2.1, hp]) hb' hem ?_, ?_⟩
          · rw [(ho m hmv).1]
            exact (addW_mono ok (hle p) _).trans hlem
          · intro x hx
            rcases List.mem_append.1 hx with hx | hx
            · exact ht' x hx
            · rw [List.mem_singleton.1 hx]; exact hT' m (ht m (by simp))
    by_cases hnv : n = v
    · subst hnv; exact ⟨_, _, hbv, htv⟩
    · obtain ⟨l, d, hb, ht⟩ := h.back n (hT n hnv hn)
      exact key n l d hb ht
  · intro n hn
    by_cases hnv : n = v
    · subst hnv
      obtain ⟨S, k, d, h1, h2, h3, h4, h5⟩ := h.small u hu
      have hnS : n ∉ S := by
        intro hm
        exact absurd ((h2 n hm).trans (le_addW ok he _)) (not_le.2 hcl)
      refine ⟨insert n S, k + 1, A.add d c, Finset.mem_insert_self _ _, ?_, ?_,
        walkCosts_step h4 he, ?_⟩
      · intro m hm
        rcases Finset.mem_insert.1 hm with e | hmS
        · subst e; exact le_refl _
        · rw [hv.1]
          exact (hle m).trans ((h2 m hmS).trans (le_addW ok he _))
      · rw [Finset.card_insert_of_notMem hnS]; omega
      · rw [hv.1, h5]; rfl
    · obtain ⟨S, k, d, h1, h2, h3⟩ := h.small n (hT n hnv hn)
      refine ⟨S, k, d, h1, fun m hm => ?_, ?_⟩
      · rw [(ho n hnv).1]; exact (hle m).trans (h2 m hm)
      · rw [(ho n hnv).1]; exact h3

theorem Back.ofNself {n l d} (hs : ∀ n, (lab n).prev ≠ some n) (h : Back A start lab n l d) :
    ∀ (S : Finset N) (path : List N), (∀ m ∈ l, m ∉ S) →
      backtrackFrom lab start n S (n :: path) = .ok (l ++ path) := by
  induction h with
  | start hs =>
    intro S path _
    rw [backtrackFrom]; simp [hs]
  | @step n p l d c hn hp hb he hle ih =>
    intro S path hS
    rw [backtrackFrom]
    have hnS : n ∉ S := hS n (by simp)
    have hnl : n ∉ l := Back.not_mem_prev hn hp hb he hle
    have := ih (insert n S) (n :: path) (by
      intro m hm hmS
      rcases Finset.mem_insert.1 hmS with h1 | h1
      · subst h1; exact hnl hm
      · exact hS m (List.mem_append_left _ hm) h1)
    simp [hn, hnS, hp, hs p, this]

theorem Back.backtrack {n l d} (hs : ∀ n, (lab n).prev ≠ some n) (h : Back A start lab n l d) :
    backtrack lab start n = .ok l := by
  unfold PathPlanning.backtrack
  rw [h.ofNself hs ∅ [] (by simp)]
  simp

theorem Back.backtrackCopy {n l d} (hs : ∀ n, (lab n).prev ≠ some n) (h : Back A start lab n l d) (hn : n ∉ start) :
    backtrackCopy lab start n = .ok l := by
  cases h with
  | start hs => exact absurd hs hn
  | @step _ p l d c hn hp hb he hle =>
    unfold PathPlanning.backtrackCopy
    simp only [hp, hs p, if_false]
    exact hb.ofNself hs ∅ [n] (by simp)

/-- State invariant. -/
structure HInv (A : Algo N C) (L : Lawful P) (S start : List N) (lab0 : Labels N C) (st : SSt N C P) : Prop where
  core : HCore A S start lab0 st.lab
  mem : ∀ n, L.mem st.opn n → Touched start lab0 st.lab n
  cands : ∀ x ∈ st.cands, Touched start lab0 st.lab x.1

theorem Touched.le {lab' : Labels N C} {n : N} (h : Touched start lab0 lab n) (hle : (lab' n).dist ≤ (lab n).dist) :
    Touched start lab0 lab' n := h.imp id fun h => hle.trans_lt h

/-- Processing one neighbour of a node entered by this search. -/
theorem HInv.process (ok : CostOk A) {L : Lawful P} {goal : List N} {cur nb : N} {c : C}
    {st : SSt N C P} (h : HInv A L S start lab0 st) (hcur : Touched start lab0 st.lab cur) (he : (nb, c) ∈ A.succ cur) :
    let st' := processNeighbor A goal st cur nb c
    HInv A L S start lab0 st' ∧ Touched start lab0 st'.lab cur ∧
      (∀ n, (st'.lab n).dist ≤ (st.lab n).dist) ∧ st'.cands = st.cands ∧
      potential A st'.lab ≤ potential A st.lab ∧
      (potential A st'.lab = potential A st.lab → st'.opn = st.opn) := by
  intro st'
  obtain ⟨hc1, hc2, hc3, hcase⟩ := process_cases_of (A := A) (goal := goal) h.core.reach (nb := nb) (c := c) (h.core.fin hcur)
  rcases hcase with ⟨hncl, hop, hsame⟩ | ⟨hcl, hop, hv, hvc, hvh, hother⟩
  · have hd : ∀ m, (st'.lab m).dist = (st.lab m).dist := fun m => (hsame m).1.1
    have hc : HCore A S start lab0 st'.lab := h.core.congr (fun m => ⟨hd m, (hsame m).1.2.1⟩)
      (fun m => by rw [(hsame m).1.2.2.1, (hsame m).1.2.2.2])
    refine ⟨⟨hc, ?_, ?_⟩, hcur.le (hd _).le, fun n => (hd n).le, hc1, ?_, fun _ => hop⟩
    · intro n hn; rw [hop] at hn; exact (h.mem n hn).le (hd n).le
    · intro x hx; rw [hc1] at hx; exact (h.cands x hx).le (hd _).le
    · unfold potential; simp only [hd]; exact le_refl _
  · have hle : ∀ n, (st'.lab n).dist ≤ (st.lab n).dist := by
      intro n
      by_cases e : n = nb
      · subst e; exact (le_of_eq hv.1).trans hcl.le
      · exact (le_of_eq (by rw [hother n e]))
    have hcore : HCore A S start lab0 st'.lab := by
      refine h.core.relax ok hcur he hcl hv (fun m hm => ?_)
      rw [hother m hm]; exact ⟨rfl, rfl, rfl, rfl⟩
    have hne : cur ≠ nb := by
      rintro rfl
      exact absurd (le_addW ok he _) (not_le.2 hcl)
    have hnb : Touched start lab0 st'.lab nb := .inr (by rw [hv.1]; exact lt_of_lt_of_le hcl (h.core.le0 nb))
    refine ⟨⟨hcore, ?_, ?_⟩, hcur.le (hle _), hle, hc1, ?_, ?_⟩
    · intro n hn
      rw [hop] at hn
      rcases (L.add_mem _ _ _ _).1 hn with e | h1
      · rw [e]; exact hnb
      · exact (h.mem n h1).le (hle n)
    · intro x hx; rw [hc1] at hx; exact (h.cands x hx).le (hle _)
    · unfold potential
      refine Finset.sum_le_sum fun n _ => Finset.card_le_card ?_
      intro d hd
      simp only [Finset.mem_filter] at hd ⊢
      exact ⟨hd.1, lt_of_lt_of_le hd.2 (hle n)⟩
    · intro heq
      exfalso
      have : potential A st'.lab < potential A st.lab := by
        unfold potential
        refine Finset.sum_lt_sum (fun n _ => Finset.card_le_card ?_) ⟨nb, Finset.mem_univ _, ?_⟩
        · intro d hd
          simp only [Finset.mem_filter] at hd ⊢
          exact ⟨hd.1, lt_of_lt_of_le hd.2 (hle n)⟩
        · apply Finset.card_lt_card
          obtain ⟨S, k, d, h1, h2, h3, h4, h5⟩ := hcore.small nb hnb
          have hdW : d ∈ walkCosts A (Fintype.card N) :=
            walkCosts_mono (by have := Finset.card_le_univ S; omega) h4
          refine ⟨fun x hx => ?_, fun hs => ?_⟩
          · simp only [Finset.mem_filter] at hx ⊢
            exact ⟨hx.1, lt_of_lt_of_le hx.2 (hle nb)⟩
          · have hmem : d ∈ (walkCosts A (Fintype.card N)).filter
                (fun x : C => (x : WithTop C) < (st.lab nb).dist) := by
              refine Finset.mem_filter.2 ⟨hdW, ?_⟩
              rw [← h5, hv.1]; exact hcl
            have := (Finset.mem_filter.1 (hs hmem)).2
            rw [h5] at this
            exact lt_irrefl _ this
      omega

theorem HInv.fold (ok : CostOk A) {L : Lawful P} {goal : List N} {cur : N} :
    ∀ (es : List (N × C)) (st : SSt N C P), HInv A L S start lab0 st → Touched start lab0 st.lab cur → (∀ e ∈ es, e ∈ A.succ cur) →
      let st' := es.foldl (fun s e => processNeighbor A goal s cur e.1 e.2) st
      HInv A L S start lab0 st' ∧ (∀ n, (st'.lab n).dist ≤ (st.lab n).dist) ∧ st'.cands = st.cands ∧
        potential A st'.lab ≤ potential A st.lab ∧ (potential A st'.lab = potential A st.lab → st'.opn = st.opn) := by
  intro es
  induction es with
  | nil => intro st h _ _; exact ⟨h, fun _ => le_refl _, rfl, le_refl _, fun _ => rfl⟩
  | cons e es ih =>
    intro st h hc hes
    obtain ⟨h1, h2, h3, h4, h5, h6⟩ := h.process (goal := goal) ok (nb := e.1) (c := e.2) hc (hes e (List.mem_cons_self))
    obtain ⟨g1, g2, g3, g4, g5⟩ := ih _ h1 h2 (fun x hx => hes x (List.mem_cons_of_mem _ hx))
    intro st'
    refine ⟨g1, fun n => (g2 n).trans (h3 n), g3.trans h4, g4.trans h5, fun heq => ?_⟩
    have e1 : potential A st'.lab ≤ _ := g4
    have : potential A (processNeighbor A goal st cur e.1 e.2).lab = potential A st.lab := by
      have e2 := h5; have : potential A st'.lab = potential A st.lab := heq; omega
    exact (g5 (by rw [this]; exact heq)).trans (h6 this)

/-- Popping a node. -/
theorem HInv.pop {L : Lawful P} {cfg : SCfg N C} {st : SSt N C P} (h : HInv A L S cfg.start lab0 st) {cur : N} {o : P.O}
    (hn : P.next st.opn = some (cur, o)) :
    let st1 := popNode A cfg st cur o
    HInv A L S cfg.start lab0 st1 ∧ Touched cfg.start lab0 st1.lab cur ∧ (∀ n, (st1.lab n).dist = (st.lab n).dist) ∧
      st1.cands = st.cands := by
  obtain ⟨hk, hsub, hsup⟩ := L.next_some _ _ _ hn
  have hcur := h.mem cur hk
  intro st1
  have hself : st1.lab cur = { st.lab cur with
      opn := false, closed := true, expanded := true
      h := match cfg.goal with
        | [] => match cfg.heurGoal with
          | none => (st.lab cur).h
          | some H => H cur
        | g :: _ => A.heur cur g } := by
    exact setLab_self _ _ _
  have hoth : ∀ n, n ≠ cur → st1.lab n = st.lab n := fun n hne => setLab_ne _ _ hne
  have hd : ∀ n, (st1.lab n).dist = (st.lab n).dist := by
    intro n
    by_cases e : n = cur
    · subst e; rw [hself]
    · rw [hoth n e]
  have hc : HCore A S cfg.start lab0 st1.lab := by
    refine h.core.congr (fun m => ⟨hd m, ?_⟩) (fun m => ?_)
    · by_cases e : m = cur
      · subst e; rw [hself]
      · rw [hoth m e]
    · by_cases e : m = cur
      · subst e
        rw [hself]
        have := (h.core.reach m).1 (h.core.fin hcur)
        simp [this]
      · rw [hoth m e]
  exact ⟨⟨hc, fun n hn' => (h.mem n (hsub n hn')).le (hd n).le, fun x hx => (h.cands x hx).le (hd _).le⟩, hcur.le (hd _).le, hd, rfl⟩

/-- A goal test only touches the candidates and ends with a path from a start node. -/
structure HTestOk (A : Algo N C) (P : OpenList N C) (start : List N) (Good : N → C → Prop)
    (Res : List N → N → List N → Prop) (test : SSt N C P → N → CRes (TestOut N C P)) : Prop where
  out : ∀ (st : SSt N C P) cur l d, (∀ n, (st.lab n).prev ≠ some n) → Back A start st.lab cur l d →
    ∃ t, test st cur = .ok t ∧ t.st.lab = st.lab ∧ t.st.opn = st.opn ∧
      (∀ x ∈ t.st.cands, x ∈ st.cands ∨ (x.1 = cur ∧ Good cur x.2)) ∧
      (t.term = true → t.result ≠ [] → Res l cur t.result)

/-- What is known when the search loop ends. -/
structure HDone (A : Algo N C) (S : List N) (cfg : SCfg N C) (lab0 : Labels N C) (Good : N → C → Prop) (Res : List N → N → List N → Prop)
    (r : CRes (List N)) (st : SSt N C P) : Prop where
  core : HCore A S cfg.start lab0 st.lab
  cands : ∀ x ∈ st.cands, Touched cfg.start lab0 st.lab x.1
  good : ∀ x ∈ st.cands, Good x.1 x.2
  res : ∃ p, r = .ok p ∧ ((p = [] ∧ st.cands = []) ∨ (∃ cur l d, p ≠ [] ∧ Back A cfg.start st.lab cur l d ∧
    (∀ m ∈ l, Touched cfg.start lab0 st.lab m) ∧ Res l cur p) ∨
    (∃ x l d, x ∈ st.cands ∧ (∀ y ∈ st.cands, x.2 ≤ y.2) ∧ Back A cfg.start st.lab x.1 l d ∧
      (∀ m ∈ l, Touched cfg.start lab0 st.lab m) ∧ p = l))

theorem hdone_finish {cfg : SCfg N C} (ht : TopOk cfg.top) {Good : N → C → Prop}
    {Res : List N → N → List N → Prop} {st : SSt N C P} (hc : HCore A S cfg.start lab0 st.lab)
    (hcl : ∀ x ∈ st.cands, Touched cfg.start lab0 st.lab x.1) (hg : ∀ x ∈ st.cands, Good x.1 x.2) :
    HDone A S cfg lab0 Good Res (finish cfg st) st := by
  refine ⟨hc, hcl, hg, ?_⟩
  unfold finish
  cases h : cfg.top st.cands with
  | none => exact ⟨[], rfl, .inl ⟨rfl, (ht.none_iff _).1 h⟩⟩
  | some x =>
    have hx := ht.mem _ _ h
    obtain ⟨l, d, hb, htl⟩ := hc.back x.1 (hcl x hx)
    exact ⟨l, hb.backtrack hc.nself, .inr (.inr ⟨x, l, d, hx, ht.min _ _ h, hb, htl, rfl⟩)⟩

/-- One iteration keeps the invariant, makes progress, or ends correctly. -/
theorem hist_iterate (ok : CostOk A) {L : Lawful P} {cfg : SCfg N C} (ht : TopOk cfg.top)
    {Good : N → C → Prop} {Res : List N → N → List N → Prop}
    {test : SSt N C P → N → CRes (TestOut N C P)} (hok : HTestOk A P cfg.start Good Res test) {st : SSt N C P}
    (h : HInv A L S cfg.start lab0 st) (hg : ∀ x ∈ st.cands, Good x.1 x.2) :
    match iterate A cfg test st with
    | .more st' => HInv A L S cfg.start lab0 st' ∧ (∀ x ∈ st'.cands, Good x.1 x.2) ∧
        (potential A st'.lab < potential A st.lab ∨
          (potential A st'.lab = potential A st.lab ∧ L.size st'.opn < L.size st.opn))
    | .done r st' => HDone A S cfg lab0 Good Res r st' := by
  unfold iterate
  cases hn : P.next st.opn with
  | none => exact hdone_finish ht h.core h.cands hg
  | some co =>
    obtain ⟨cur, o⟩ := co
    simp only
    by_cases hab : cfg.abort st.expansions
    · simp only [hab, if_true]
      exact hdone_finish ht h.core h.cands hg
    · simp only [hab, if_false, Bool.false_eq_true]
      obtain ⟨hx, hcur, hd, hcs⟩ := h.pop hn
      obtain ⟨l, d, hb, hbt⟩ := hx.core.back cur hcur
      obtain ⟨t, ht1, hlab, hopn, hcand, hres⟩ := hok.out _ cur l d hx.core.nself hb
      simp only [ht1]
      have hcore : HCore A S cfg.start lab0 t.st.lab := by rw [hlab]; exact hx.core
      have hcur' : Touched cfg.start lab0 t.st.lab cur := by rw [hlab]; exact hcur
      have hclosed : ∀ x ∈ t.st.cands, Touched cfg.start lab0 t.st.lab x.1 := by
        intro x hx1
        rcases hcand x hx1 with h1 | h1
        · rw [hlab]; exact hx.cands x h1
        · rw [h1.1]; exact hcur'
      have hgood : ∀ x ∈ t.st.cands, Good x.1 x.2 := by
        intro x hx1
        rcases hcand x hx1 with h1 | h1
        · exact hg x (hcs ▸ h1)
        · rw [h1.1]; exact h1.2
      by_cases hterm : t.term = true
      · simp only [hterm, if_true]
        by_cases hr : t.result ≠ []
        · rw [if_pos hr]
          exact ⟨hcore, hclosed, hgood, t.result, rfl, .inr (.inl ⟨cur, l, d, hr, by rw [hlab]; exact hb, by rw [hlab]; exact hbt, hres hterm hr⟩)⟩
        · rw [if_neg hr]
          exact hdone_finish ht hcore hclosed hgood
      · simp only [hterm, if_false, Bool.false_eq_true]
        by_cases hov : (cfg.useCands && !t.st.cands.isEmpty &&
            decide (A.addW t.st.firstW cfg.oversearch < A.total (t.st.lab cur))) = true
        · simp only [hov, if_true]
          exact hdone_finish ht hcore hclosed hgood
        · simp only [hov, if_false, Bool.false_eq_true]
          have hX : HInv A L S cfg.start lab0 t.st := ⟨hcore, by rw [hlab, hopn]; exact hx.mem, hclosed⟩
          obtain ⟨g1, g2, g3, g4, g5⟩ := HInv.fold (goal := cfg.goal) ok (A.succ cur) _ hX hcur' (fun e he => he)
          have hpot : potential A t.st.lab = potential A st.lab := by
            unfold potential; rw [hlab]; simp only [hd]
          refine ⟨g1, by rw [show (expandNode A cfg.goal t.st cur).cands = _ from g3]; exact hgood, ?_⟩
          rcases lt_or_eq_of_le g4 with h7 | h7
          · left; rw [← hpot]; exact h7
          · right
            refine ⟨by rw [← hpot]; exact h7, ?_⟩
            rw [show (expandNode A cfg.goal t.st cur).opn = _ from g5 h7, hopn]
            exact L.next_size _ _ _ hn

/-- Every run ends, correctly. -/
theorem hist_loop (ok : CostOk A) {L : Lawful P} {cfg : SCfg N C} (ht : TopOk cfg.top)
    {Good : N → C → Prop} {Res : List N → N → List N → Prop}
    {test : SSt N C P → N → CRes (TestOut N C P)} (hok : HTestOk A P cfg.start Good Res test) (st : SSt N C P)
    (h : HInv A L S cfg.start lab0 st) (hg : ∀ x ∈ st.cands, Good x.1 x.2) :
    ∃ fuel r st', searchLoop A cfg test fuel st = some (r, st') ∧ HDone A S cfg lab0 Good Res r st' := by
  have hs := hist_iterate ok ht hok h hg
  cases hi : iterate A cfg test st with
  | done r st' =>
    rw [hi] at hs
    exact ⟨1, r, st', by rw [searchLoop, hi], hs⟩
  | more st' =>
    rw [hi] at hs
    obtain ⟨h1, h2, h4⟩ := hs
    obtain ⟨fuel, r, st2, h5, h6⟩ := hist_loop ok ht hok st' h1 h2
    exact ⟨fuel + 1, r, st2, by rw [searchLoop, hi]; exact h5, h6⟩
termination_by (potential A st.lab, L.size st.opn)
decreasing_by
  rcases h4 with h4 | ⟨h4, h5⟩
  · exact Prod.Lex.left _ _ h4
  · rw [h4]; exact Prod.Lex.right _ h5

theorem Reach.mono {S S' : List N} (hS : ∀ s ∈ S, s ∈ S') {n : N} {d : C} (h : Reach A S n d) : Reach A S' n d := by
  induction h with
  | start hs => exact .start (hS _ hs)
  | step _ he ih => exact .step ih he

theorem Hist.mono {S' : List N} (h : Hist A S lab) (hS : ∀ s ∈ S, s ∈ S') : Hist A S' lab where
  low := h.low
  reach := h.reach
  nself := h.nself
  cost n hn := by
    obtain ⟨d, h1, h2⟩ := h.cost n hn
    exact ⟨d, h1.mono hS, h2⟩

/-- The state after `init` and `initStartPose` on used labels. -/
theorem hist_init (L : Lawful P) (cfg : SCfg N C) (h : Hist A S lab0) (hS : ∀ s ∈ cfg.start, s ∈ S) :
    HInv A L S cfg.start lab0 (initSearch A P cfg lab0) ∧ (initSearch A P cfg lab0).cands = [] := by
  have key : ∀ (ss done : List N) (st : SSt N C P), (∀ s ∈ ss, s ∈ S) → Hist A S st.lab →
      (∀ n ∈ done, (st.lab n).dist = (A.zero : WithTop C)) → (∀ n, n ∉ done → (st.lab n).dist = (lab0 n).dist) →
      (∀ n, L.mem st.opn n → n ∈ done) → st.cands = [] →
      let st' := ss.foldl (addStart A) st
      Hist A S st'.lab ∧ (∀ n ∈ done ++ ss, (st'.lab n).dist = (A.zero : WithTop C)) ∧
      (∀ n, n ∉ done ++ ss → (st'.lab n).dist = (lab0 n).dist) ∧ (∀ n, L.mem st'.opn n → n ∈ done ++ ss) ∧ st'.cands = [] := by
    intro ss
    induction ss with
    | nil => intro done st _ h1 h2 h3 h4 h5; simpa using ⟨h1, h2, h3, h4, h5⟩
    | cons s ss ih =>
      intro done st hss h1 h2 h3 h4 h5
      have hs : (addStart A st s).lab s = { st.lab s with dist := (A.zero : WithTop C), opn := true } := setLab_self _ _ _
      have ho : ∀ n, n ≠ s → (addStart A st s).lab n = st.lab n := fun n hn => setLab_ne _ _ hn
      have := ih (done ++ [s]) (addStart A st s) (fun x hx => hss x (List.mem_cons_of_mem _ hx)) ?_ ?_ ?_ ?_ h5
      · simpa using this
      · refine ⟨fun n => ?_, fun n => ?_, fun n => ?_, fun n => ?_⟩ <;> by_cases e : n = s
        · rw [e, hs]
        · rw [ho n e]; exact h1.low n
        · rw [e, hs]; simp
        · rw [ho n e]; exact h1.reach n
        · rw [e, hs]; exact h1.nself s
        · rw [ho n e]; exact h1.nself n
        · intro _; rw [e, hs]; exact ⟨_, .start (hss s List.mem_cons_self), rfl⟩
        · rw [ho n e]; exact h1.cost n
      · intro n hn
        by_cases e : n = s
        · rw [e, hs]
        · rw [ho n e]; simp [e] at hn; exact h2 n hn
      · intro n hn
        simp only [List.mem_append, List.mem_singleton, not_or] at hn
        rw [ho n hn.2]; exact h3 n hn.1
      · intro n hk
        rcases (L.add_mem _ _ _ _).1 hk with e | h6
        · simp [e]
        · simp [h4 n h6]
  obtain ⟨k1, k2, k3, k4, k5⟩ := key cfg.start []
    { lab := lab0, opn := P.empty, cands := [], firstW := (A.zero : WithTop C),
      expansions := 0, multi := 0, touched := 0, updates := 0 } hS h (by simp) (by intro n _; rfl)
    (by intro n hk; exact absurd hk (L.empty_mem n)) rfl
  simp only [List.nil_append] at k2 k3 k4
  refine ⟨⟨⟨k1, hS, ?_, k2, ?_, ?_⟩, fun n hn => .inl (k4 n hn), ?_⟩, k5⟩
  · intro n
    by_cases hn : n ∈ cfg.start
    · exact (k2 n hn).le.trans (h.low n)
    · exact (k3 n hn).le
  · rintro n (hn | hn)
    · exact ⟨_, _, .start hn, fun m hm => .inl (by rw [List.mem_singleton.1 hm]; exact hn)⟩
    · by_cases hs : n ∈ cfg.start
      · exact ⟨_, _, .start hs, fun m hm => .inl (by rw [List.mem_singleton.1 hm]; exact hs)⟩
      · exact absurd hn (k3 n hs).not_lt
  · intro n hn
    have hs : n ∈ cfg.start := by
      rcases hn with hn | hn
      · exact hn
      · by_contra hs
        exact absurd hn (k3 n hs).not_lt
    refine ⟨{n}, 0, A.zero, by simp, ?_, by simp, by simp [walkCosts], k2 n hs⟩
    intro m hm; simp only [Finset.mem_singleton] at hm; rw [hm]
  · intro x hx
    have : x ∈ (initSearch A P cfg lab0).cands := hx
    rw [show (initSearch A P cfg lab0).cands = [] from k5] at this; cases this

end PathPlanning
