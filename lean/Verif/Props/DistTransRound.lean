import Verif.Model.DistTransRound
import Verif.Props.DistTrans3
import Verif.Props.GridRound2

/-!
# The distance transformation with any monotone addition: rounds needed, and what the costs are
-/

noncomputable section

namespace PathPlanning.DTR

open Spec
open DT (Cell cellsFwd cellsBwd mem_cellsFwd mem_cellsBwd Usable)

set_option linter.unusedSectionVars false

section generic
variable {R : Type} [LinearOrder R] [Add R] [Zero R]

/-- Adding the length of a step keeps the order and makes no cost smaller. -/
structure StepOk (one diag : R) : Prop where
  mono : ∀ s, (s = one ∨ s = diag) → ∀ a b : R, a ≤ b → a + s ≤ b + s
  infl : ∀ s, (s = one ∨ s = diag) → ∀ a : R, a ≤ a + s

/-- The length of a step. -/
def st (one diag : R) (u v : Cell) : R := if u.1 = v.1 ∨ u.2 = v.2 then one else diag

theorem st_or (one diag : R) (u v : Cell) : st one diag u v = one ∨ st one diag u v = diag := by
  unfold st; split_ifs <;> simp

theorem fin_add (x y : R) : fin x + fin y = fin (x + y) := rfl
theorem big_add (y : R) : big + fin y = big := rfl
theorem inf_add (y : R) : inf + fin y = inf := rfl
theorem fin_lt_big (x : R) : fin x < big := by
  unfold fin big; rw [WithTop.coe_lt_coe]; exact WithTop.coe_lt_top x
theorem big_lt_inf : big < (inf : Val R) := WithTop.coe_lt_top _
theorem fin_lt_fin {x y : R} : fin x < fin y ↔ x < y := by
  unfold fin; rw [WithTop.coe_lt_coe, WithTop.coe_lt_coe]
theorem fin_le_fin {x y : R} : fin x ≤ fin y ↔ x ≤ y := by
  unfold fin; rw [WithTop.coe_le_coe, WithTop.coe_le_coe]
theorem fin_inj {x y : R} : fin x = fin y ↔ x = y := by
  unfold fin; simp

theorem val_cases (v : Val R) : v = inf ∨ v = big ∨ ∃ x, v = fin x := by
  induction v using WithTop.recTopCoe with
  | top => exact Or.inl rfl
  | coe v =>
    induction v using WithTop.recTopCoe with
    | top => exact Or.inr (Or.inl rfl)
    | coe v => exact Or.inr (Or.inr ⟨v, rfl⟩)

variable {one diag : R}

theorem StepOk.val_mono (ok : StepOk one diag) {s : R} (hs : s = one ∨ s = diag) {a b : Val R} (hab : a ≤ b) :
    a + fin s ≤ b + fin s := by
  rcases val_cases b with rfl | rfl | ⟨y, rfl⟩
  · exact le_top
  · rcases val_cases a with rfl | rfl | ⟨x, rfl⟩
    · exact absurd hab (not_le.2 big_lt_inf)
    · exact le_refl _
    · rw [big_add, fin_add]; exact (fin_lt_big _).le
  · rcases val_cases a with rfl | rfl | ⟨x, rfl⟩
    · exact absurd hab (not_le.2 ((fin_lt_big _).trans big_lt_inf))
    · exact absurd hab (not_le.2 (fin_lt_big _))
    · rw [fin_add, fin_add, fin_le_fin]
      exact ok.mono s hs _ _ (fin_le_fin.1 hab)

theorem dmin_le {offs : List (Cell × R)} {c : Costs R} {v : Cell} {o : Cell × R} (ho : o ∈ offs) :
    dmin offs c v ≤ c (v.1 + o.1.1, v.2 + o.1.2) + fin o.2 := by
  unfold dmin
  induction offs with
  | nil => exact absurd ho (by simp)
  | cons a as ih =>
    simp only [List.map_cons, List.foldr_cons]
    rcases List.mem_cons.1 ho with rfl | ho
    · exact min_le_left _ _
    · exact (min_le_right _ _).trans (ih ho)

theorem dmin_attained (offs : List (Cell × R)) (c : Costs R) (v : Cell) (hne : dmin offs c v ≠ inf) :
    ∃ o ∈ offs, dmin offs c v = c (v.1 + o.1.1, v.2 + o.1.2) + fin o.2 := by
  unfold dmin at *
  induction offs with
  | nil => exact absurd rfl hne
  | cons a as ih =>
    simp only [List.map_cons, List.foldr_cons] at *
    rcases min_choice (c (v.1 + a.1.1, v.2 + a.1.2) + fin a.2)
      ((as.map fun o => c (v.1 + o.1.1, v.2 + o.1.2) + fin o.2).foldr min inf) with e | e
    · exact ⟨a, by simp, e⟩
    · rw [e] at hne ⊢
      obtain ⟨o, ho, h⟩ := ih hne
      exact ⟨o, by simp [ho], h⟩

theorem offs_step {o : Cell × R} (ho : o ∈ offsFwd one diag ++ offsBwd one diag) (v : Cell) :
    Touch (v.1 + o.1.1, v.2 + o.1.2) v ∧ o.2 = st one diag (v.1 + o.1.1, v.2 + o.1.2) v := by
  unfold offsFwd offsBwd at ho
  simp only [List.cons_append, List.nil_append, List.mem_cons, List.not_mem_nil, or_false] at ho
  rcases ho with rfl | rfl | rfl | rfl | rfl | rfl | rfl | rfl
  all_goals
    refine ⟨⟨?_, ?_, ?_⟩, ?_⟩
    · intro e
      have := congrArg Prod.fst e
      have := congrArg Prod.snd e
      simp at *
    · simp
    · simp
    · simp [st]

theorem touch_offs {u v : Cell} (h : Touch u v) :
    ∃ o ∈ offsFwd one diag ++ offsBwd one diag, (v.1 + o.1.1, v.2 + o.1.2) = u ∧ o.2 = st one diag u v := by
  obtain ⟨hne, h1, h2⟩ := h
  obtain ⟨u1, u2⟩ := u
  obtain ⟨v1, v2⟩ := v
  simp only [abs_le] at h1 h2
  have hne' : ¬ (u1 = v1 ∧ u2 = v2) := fun e => hne (by rw [e.1, e.2])
  have key : ∀ (a b : Int) (l : R), ((a, b), l) ∈ offsFwd one diag ++ offsBwd one diag → u1 = v1 + a → u2 = v2 + b →
      ∃ o ∈ offsFwd one diag ++ offsBwd one diag, (v1 + o.1.1, v2 + o.1.2) = (u1, u2) ∧ o.2 = st one diag (u1, u2) (v1, v2) := by
    intro a b l hm e1 e2
    refine ⟨_, hm, by simp [e1, e2], ?_⟩
    rw [e1, e2]
    exact (offs_step hm (v1, v2)).2
  have hx : u1 = v1 - 1 ∨ u1 = v1 ∨ u1 = v1 + 1 := by omega
  have hy : u2 = v2 - 1 ∨ u2 = v2 ∨ u2 = v2 + 1 := by omega
  rcases hx with hx | hx | hx <;> rcases hy with hy | hy | hy
  · exact key (-1) (-1) diag (by simp [offsFwd]) (by omega) (by omega)
  · exact key (-1) 0 one (by simp [offsFwd]) (by omega) (by omega)
  · exact key (-1) 1 diag (by simp [offsBwd]) (by omega) (by omega)
  · exact key 0 (-1) one (by simp [offsFwd]) (by omega) (by omega)
  · exact absurd ⟨hx, hy⟩ hne'
  · exact key 0 1 one (by simp [offsBwd]) (by omega) (by omega)
  · exact key 1 (-1) diag (by simp [offsFwd]) (by omega) (by omega)
  · exact key 1 0 one (by simp [offsBwd]) (by omega) (by omega)
  · exact key 1 1 diag (by simp [offsBwd]) (by omega) (by omega)

/-! ### Rounds -/

theorem relaxCell_le (offs : List (Cell × R)) (s : Costs R × Bool) (v k : Cell) : (relaxCell offs s v).1 k ≤ s.1 k := by
  unfold relaxCell
  split_ifs with h1 h2
  · exact le_refl _
  · by_cases hk : k = v
    · subst hk; simp only [Function.update_self]; exact h2.le
    · simp only [Function.update_of_ne hk, le_refl]
  · exact le_refl _

theorem foldl_le (offs : List (Cell × R)) (l : List Cell) (s : Costs R × Bool) (k : Cell) :
    (l.foldl (relaxCell offs) s).1 k ≤ s.1 k := by
  induction l generalizing s with
  | nil => exact le_refl _
  | cons v l ih => exact (ih _).trans (relaxCell_le offs s v k)

theorem foldl_inf (offs : List (Cell × R)) (l : List Cell) (s : Costs R × Bool) (k : Cell) (hk : s.1 k = inf) :
    (l.foldl (relaxCell offs) s).1 k = inf := by
  induction l generalizing s with
  | nil => exact hk
  | cons v l ih =>
    apply ih
    unfold relaxCell
    split_ifs with h1 h2
    · exact hk
    · by_cases hkv : k = v
      · subst hkv; exact absurd hk h1
      · simp only [Function.update_of_ne hkv]; exact hk
    · exact hk

/-- A sweep brings every cell of its list below the cost, before the sweep, of each neighbour it looks at, plus the
step. -/
theorem foldl_relaxed (ok : StepOk one diag) {offs : List (Cell × R)} (ho : ∀ o ∈ offs, o.2 = one ∨ o.2 = diag)
    (l : List Cell) (s : Costs R × Bool) {v : Cell} (hv : v ∈ l) (hi : (l.foldl (relaxCell offs) s).1 v ≠ inf) :
    ∀ o ∈ offs, (l.foldl (relaxCell offs) s).1 v ≤ s.1 (v.1 + o.1.1, v.2 + o.1.2) + fin o.2 := by
  induction l generalizing s with
  | nil => cases hv
  | cons a l ih =>
    intro o hmem
    rcases List.mem_cons.1 hv with rfl | hv
    · have hsv : s.1 v ≠ inf := fun e => hi (foldl_inf offs _ s v e)
      refine (foldl_le offs l _ v).trans ?_
      unfold relaxCell
      rw [if_neg hsv]
      split_ifs with h2
      · simp only [Function.update_self]; exact dmin_le hmem
      · exact (not_lt.1 h2).trans (dmin_le hmem)
    · exact (ih (relaxCell offs s a) hv hi o hmem).trans (ok.val_mono (ho o hmem) (relaxCell_le offs s a _))

theorem pass_le (w h : Nat) (c : Costs R) (v : Cell) : (pass one diag w h c).1 v ≤ c v :=
  (foldl_le _ _ _ v).trans (foldl_le _ _ _ v)

theorem offs_len {o : Cell × R} (ho : o ∈ offsFwd one diag ++ offsBwd one diag) : o.2 = one ∨ o.2 = diag := by
  rw [(offs_step ho (0, 0)).2]; exact st_or _ _ _ _

/-- A round brings every cell below the cost, before the round, of each neighbour plus the step. -/
theorem pass_relaxed (ok : StepOk one diag) {w h : Nat} {c : Costs R} {u v : Cell} (hv : Interior w h v) (ht : Touch u v)
    (hi : (pass one diag w h c).1 v ≠ inf) : (pass one diag w h c).1 v ≤ c u + fin (st one diag u v) := by
  obtain ⟨o, ho, e1, e2⟩ := touch_offs (one := one) (diag := diag) ht
  rw [← e2, ← e1]
  unfold pass at *
  rcases List.mem_append.1 ho with hm | hm
  · refine (foldl_le _ _ _ v).trans ?_
    refine foldl_relaxed ok (fun o h => offs_len (List.mem_append_left _ h)) _ _ (mem_cellsFwd.2 hv) ?_ o hm
    intro e
    exact hi (foldl_inf _ _ _ v e)
  · refine (foldl_relaxed ok (fun o h => offs_len (List.mem_append_right _ h)) _ _ (mem_cellsBwd.2 hv) hi o hm).trans ?_
    exact ok.val_mono (offs_len ho) (foldl_le _ _ _ _)

theorem pass_inv (w h : Nat) (Q : Costs R → Prop)
    (hQ : ∀ offs c v, (∀ o ∈ offs, o ∈ offsFwd one diag ++ offsBwd one diag) → Interior w h v → c v ≠ inf →
      dmin offs c v < c v → Q c → Q (Function.update c v (dmin offs c v))) (c : Costs R) (h0 : Q c) :
    Q (pass one diag w h c).1 := by
  have key : ∀ offs (ho : ∀ o ∈ offs, o ∈ offsFwd one diag ++ offsBwd one diag) (l : List Cell)
      (hl : ∀ v ∈ l, Interior w h v) (s : Costs R × Bool), Q s.1 → Q (l.foldl (relaxCell offs) s).1 := by
    intro offs ho l
    induction l with
    | nil => intro _ s hs; exact hs
    | cons v l ih =>
      intro hl s hs
      apply ih (fun u hu => hl u (by simp [hu]))
      unfold relaxCell
      split_ifs with h1 h2
      · exact hs
      · exact hQ offs s.1 v ho (hl v (by simp)) h1 h2 hs
      · exact hs
  unfold pass
  apply key (offsBwd one diag) (by simp +contextual) _ (fun v hv => mem_cellsBwd.1 hv)
  exact key (offsFwd one diag) (by simp +contextual) _ (fun v hv => mem_cellsFwd.1 hv) _ h0

/-- If the flag is set at the end, some cell got cheaper. -/
theorem foldl_changed (offs : List (Cell × R)) (l : List Cell) (s : Costs R × Bool)
    (hc : (l.foldl (relaxCell offs) s).2 = true) : s.2 = true ∨ ∃ v, (l.foldl (relaxCell offs) s).1 v < s.1 v := by
  induction l generalizing s with
  | nil => exact Or.inl hc
  | cons a l ih =>
    rcases ih _ hc with e | ⟨v, hv⟩
    · unfold relaxCell at e
      split_ifs at e with h1 h2
      · exact Or.inl e
      · refine Or.inr ⟨a, lt_of_le_of_lt (foldl_le offs l _ a) ?_⟩
        unfold relaxCell
        rw [if_neg h1, if_pos h2]
        simpa using h2
      · exact Or.inl e
    · exact Or.inr ⟨v, lt_of_lt_of_le hv (relaxCell_le offs s a v)⟩

theorem pass_changed {w h : Nat} {c : Costs R} (hc : (pass one diag w h c).2 = true) :
    ∃ v, (pass one diag w h c).1 v < c v := by
  unfold pass at *
  rcases foldl_changed _ _ _ hc with e | ⟨v, hv⟩
  · rcases foldl_changed _ _ _ e with e | ⟨v, hv⟩
    · cases e
    · exact ⟨v, lt_of_le_of_lt (foldl_le _ _ _ v) hv⟩
  · exact ⟨v, lt_of_lt_of_le hv (foldl_le _ _ _ v)⟩

/-! ### Walks as lists of cells (last cell first) -/

inductive SW (one diag : R) (okc : Cell → Prop) (goal : Cell) : List Cell → R → Prop
  | nil : SW one diag okc goal [goal] 0
  | snoc {u v : Cell} {l : List Cell} {x : R} (hw : SW one diag okc goal (u :: l) x) (ht : Touch u v) (hv : okc v) :
      SW one diag okc goal (v :: u :: l) (x + st one diag u v)

variable {okc : Cell → Prop} {goal : Cell}

theorem SW.ne_nil {l : List Cell} {x : R} (hw : SW one diag okc goal l x) : l ≠ [] := by
  cases hw <;> simp

/-- The part of a walk up to a cell on it costs no more. -/
theorem SW.prefix (ok : StepOk one diag) {l : List Cell} {x : R} (hw : SW one diag okc goal l x) {v : Cell} (hv : v ∈ l) :
    ∃ l' y, SW one diag okc goal (v :: l') y ∧ (v :: l') <:+ l ∧ y ≤ x := by
  induction hw with
  | nil =>
    have : v = goal := by simpa using hv
    subst this
    exact ⟨[], 0, .nil, List.suffix_refl _, le_refl _⟩
  | @snoc u k l x hw ht hk ih =>
    rcases List.mem_cons.1 hv with rfl | hv
    · exact ⟨u :: l, _, .snoc hw ht hk, List.suffix_refl _, le_refl _⟩
    · obtain ⟨l', y, h1, h2, h3⟩ := ih hv
      exact ⟨l', y, h1, h2.trans (List.suffix_cons _ _), h3.trans (ok.infl _ (st_or _ _ _ _) _)⟩

/-- A walk can be replaced by one without repeated cells which costs no more. -/
theorem SW.simple (ok : StepOk one diag) {l : List Cell} {x : R} (hw : SW one diag okc goal l x) {v : Cell}
    (hv : l.head? = some v) : ∃ l' y, SW one diag okc goal (v :: l') y ∧ (v :: l').Nodup ∧ y ≤ x := by
  induction hw generalizing v with
  | nil =>
    have : goal = v := by simpa using hv
    subst this
    exact ⟨[], 0, .nil, by simp, le_refl _⟩
  | @snoc u k l x hw ht hk ih =>
    have : k = v := by simpa using hv
    subst this
    obtain ⟨l', y, h1, h2, h3⟩ := ih (v := u) rfl
    by_cases hm : k ∈ u :: l'
    · obtain ⟨l'', z, g1, g2, g3⟩ := h1.prefix ok hm
      exact ⟨l'', z, g1, g2.sublist.nodup h2, g3.trans (h3.trans (ok.infl _ (st_or _ _ _ _) _))⟩
    · exact ⟨u :: l', _, .snoc h1 ht hk, List.nodup_cons.2 ⟨hm, h2⟩, ok.mono _ (st_or _ _ _ _) _ _ h3⟩

theorem SW.cells {l : List Cell} {x : R} (hw : SW one diag okc goal l x) : ∀ v ∈ l, v = goal ∨ okc v := by
  induction hw with
  | nil => simp
  | @snoc u k l x hw ht hk ih =>
    intro v hv
    rcases List.mem_cons.1 hv with rfl | hv
    · exact Or.inr hk
    · exact ih v hv

theorem interior_card {w h : Nat} {l : List Cell} (hl : l.Nodup) (hi : ∀ v ∈ l, v = goal ∨ Interior w h v) :
    l.length ≤ (w - 2) * (h - 2) + 1 := by
  classical
  have hsub : l.toFinset ⊆ insert goal (cellsFwd w h).toFinset := by
    intro v hv
    rcases hi v (List.mem_toFinset.1 hv) with e | e
    · simp [e]
    · exact Finset.mem_insert_of_mem (List.mem_toFinset.2 (mem_cellsFwd.2 e))
  have h1 := Finset.card_le_card hsub
  rw [List.toFinset_card_of_nodup hl] at h1
  refine h1.trans ((Finset.card_insert_le _ _).trans ?_)
  have h2 := List.toFinset_card_le (cellsFwd w h)
  have h3 : (cellsFwd w h).length = (w - 2) * (h - 2) := by
    unfold cellsFwd
    simp [List.length_flatMap, Nat.mul_comm]
  omega

theorem SW.zero_le (ok : StepOk one diag) {l : List Cell} {x : R} (hw : SW one diag okc goal l x) : 0 ≤ x := by
  induction hw with
  | nil => exact le_refl _
  | snoc hw ht hk ih => exact ih.trans (ok.infl _ (st_or _ _ _ _) _)

/-! ### What the costs are -/

structure Inv (one diag : R) (w h : Nat) (occ : Cell → Bool) (goal : Cell) (c : Costs R) : Prop where
  goal_zero : c goal = fin 0
  occupied : ∀ v, c v = inf ↔ occ v = true ∧ v ≠ goal
  walk : ∀ v x, c v = fin x → ∃ l, SW one diag (Usable w h occ) goal (v :: l) x

theorem init_inv (w h : Nat) (occ : Cell → Bool) (goal : Cell) : Inv one diag w h occ goal (init occ goal : Costs R) where
  goal_zero := by simp [init]
  occupied v := by
    unfold init
    by_cases hv : v = goal
    · subst hv; simp [fin, inf]
    · rw [Function.update_of_ne hv]
      cases ho : occ v
      · simp [big_lt_inf.ne]
      · simp [hv]
  walk v x hx := by
    unfold init at hx
    by_cases hv : v = goal
    · subst hv
      rw [Function.update_self, fin_inj] at hx
      subst hx; exact ⟨[], SW.nil⟩
    · rw [Function.update_of_ne hv] at hx
      split_ifs at hx
      · exact absurd hx.symm ((fin_lt_big x).trans big_lt_inf).ne
      · exact absurd hx.symm (fin_lt_big x).ne

theorem pass_keeps_inv (ok : StepOk one diag) (w h : Nat) (occ : Cell → Bool) (goal : Cell) (c : Costs R)
    (hc : Inv one diag w h occ goal c) : Inv one diag w h occ goal (pass one diag w h c).1 := by
  apply pass_inv w h (Inv one diag w h occ goal) ?_ c hc
  intro offs c v ho hv hi hd hc
  obtain ⟨o, hmem, e⟩ := dmin_attained offs c v (fun e => by
    rw [e] at hd; exact absurd hd (not_lt.2 le_top))
  obtain ⟨ht, hlen⟩ := offs_step (ho o hmem) v
  set u : Cell := (v.1 + o.1.1, v.2 + o.1.2) with hu
  rw [hlen] at e
  obtain ⟨x, hx⟩ : ∃ x, c u = fin x := by
    rcases val_cases (c u) with e1 | e1 | ⟨x, e1⟩
    · rw [e1, inf_add] at e
      rw [e] at hd; exact absurd hd (not_lt.2 le_top)
    · rw [e1, big_add] at e
      rw [e] at hd
      rcases val_cases (c v) with e2 | e2 | ⟨y, e2⟩
      · exact absurd e2 hi
      · rw [e2] at hd; exact absurd hd (lt_irrefl _)
      · rw [e2] at hd; exact absurd hd (not_lt.2 (fin_lt_big y).le)
    · exact ⟨x, e1⟩
  obtain ⟨l, hw⟩ := hc.walk u x hx
  rw [hx, fin_add] at e
  have hvg : v ≠ goal := by
    rintro rfl
    rw [hc.goal_zero, e, fin_lt_fin] at hd
    exact absurd hd (not_lt.2 ((hw.zero_le ok).trans (ok.infl _ (st_or _ _ _ _) _)))
  have hocc : occ v = false := by
    by_contra hne
    exact hi ((hc.occupied v).2 ⟨by simpa using hne, hvg⟩)
  refine ⟨?_, ?_, ?_⟩
  · rw [Function.update_of_ne (Ne.symm hvg)]; exact hc.goal_zero
  · intro k
    by_cases hk : k = v
    · subst hk
      rw [Function.update_self, e]
      simp [hocc, ((fin_lt_big (x + st one diag u k)).trans big_lt_inf).ne]
    · rw [Function.update_of_ne hk]; exact hc.occupied k
  · intro k y hy
    by_cases hk : k = v
    · subst hk
      rw [Function.update_self, e, fin_inj] at hy
      rw [← hy]
      exact ⟨_, SW.snoc hw ht ⟨hv, hocc⟩⟩
    · rw [Function.update_of_ne hk] at hy; exact hc.walk k y hy

/-- Costs are at most those of all walks of at most `k` steps. -/
def Upto (one diag : R) (w h : Nat) (occ : Cell → Bool) (goal : Cell) (k : Nat) (c : Costs R) : Prop :=
  ∀ v l x, SW one diag (Usable w h occ) goal (v :: l) x → l.length ≤ k → c v ≤ fin x

theorem pass_upto (ok : StepOk one diag) {w h : Nat} {occ : Cell → Bool} {goal : Cell} {k : Nat} {c : Costs R}
    (hi : Inv one diag w h occ goal c) (hc : Upto one diag w h occ goal k c) :
    Upto one diag w h occ goal (k + 1) (pass one diag w h c).1 := by
  intro v l x hw hl
  cases hw with
  | nil => exact (pass_le w h c goal).trans (hi.goal_zero.le)
  | @snoc u _ l x hw ht hv =>
    have h1 := hc u l x hw (by simpa using hl)
    have hi' := pass_keeps_inv ok w h occ goal c hi
    have hne : (pass one diag w h c).1 v ≠ inf := by
      intro e
      have := ((hi'.occupied v).1 e).1
      rw [hv.2] at this; cases this
    exact (pass_relaxed ok hv.1 ht hne).trans (ok.val_mono (st_or _ _ _ _) h1)

/-- The costs are the minimum over all walks. -/
structure Least (one diag : R) (w h : Nat) (occ : Cell → Bool) (goal : Cell) (c : Costs R) : Prop where
  inv : Inv one diag w h occ goal c
  least : ∀ v l x, SW one diag (Usable w h occ) goal (v :: l) x → c v ≤ fin x

theorem upto_least (ok : StepOk one diag) {w h : Nat} {occ : Cell → Bool} {goal : Cell} {c : Costs R}
    (hi : Inv one diag w h occ goal c) (hc : Upto one diag w h occ goal ((w - 2) * (h - 2)) c) :
    Least one diag w h occ goal c := by
  refine ⟨hi, fun v l x hw => ?_⟩
  obtain ⟨l', y, h1, h2, h3⟩ := hw.simple ok rfl
  have h4 := interior_card (w := w) (h := h) h2 (fun k hk => (h1.cells k hk).imp_right (·.1))
  exact (hc v l' y h1 (by simpa using h4)).trans (fin_le_fin.2 h3)

/-- Once the costs are minimal a round changes nothing. -/
theorem least_done (ok : StepOk one diag) {w h : Nat} {occ : Cell → Bool} {goal : Cell} {c : Costs R}
    (hl : Least one diag w h occ goal c) : (pass one diag w h c).2 = false := by
  by_contra hne
  obtain ⟨v, hv⟩ := pass_changed (by simpa using hne)
  have hi := pass_keeps_inv ok w h occ goal c hl.inv
  rcases val_cases ((pass one diag w h c).1 v) with e | e | ⟨x, e⟩
  · rw [e] at hv; exact absurd hv (not_lt.2 le_top)
  · rw [e] at hv
    rcases val_cases (c v) with e2 | e2 | ⟨y, e2⟩
    · have h1 := (hi.occupied v).2 ((hl.inv.occupied v).1 e2)
      rw [e] at h1; exact absurd h1 big_lt_inf.ne
    · rw [e2] at hv; exact lt_irrefl _ hv
    · rw [e2] at hv; exact absurd hv (not_lt.2 (fin_lt_big y).le)
  · obtain ⟨l, hw⟩ := hi.walk v x e
    have := hl.least v l x hw
    rw [e] at hv
    exact absurd hv (not_lt.2 this)

theorem loop_succ (w h n : Nat) (c : Costs R) : loop one diag w h (n + 1) c =
    if (pass one diag w h c).2 then loop one diag w h n (pass one diag w h c).1 else some (pass one diag w h c).1 := rfl

theorem loop_some (ok : StepOk one diag) {w h : Nat} {occ : Cell → Bool} {goal : Cell} (n k : Nat) {c : Costs R}
    (hi : Inv one diag w h occ goal c) (hc : Upto one diag w h occ goal k c) (hn : (w - 2) * (h - 2) + 1 ≤ n + k)
    (hn0 : 0 < n) : ∃ c', loop one diag w h n c = some c' := by
  induction n generalizing k c with
  | zero => omega
  | succ n ih =>
    rw [loop_succ]
    by_cases hp : (pass one diag w h c).2 = true
    · rw [if_pos hp]
      by_cases hn1 : n = 0
      · subst hn1
        have := least_done ok (upto_least ok hi (fun v l x hw hl => hc v l x hw (by omega)))
        rw [this] at hp; cases hp
      · exact ih (k + 1) (pass_keeps_inv ok w h occ goal c hi) (pass_upto ok hi hc) (by omega) (by omega)
    · rw [if_neg hp]; exact ⟨_, rfl⟩

theorem foldl_flag (offs : List (Cell × R)) (l : List Cell) (s : Costs R × Bool) (hs : s.2 = true) :
    (l.foldl (relaxCell offs) s).2 = true := by
  induction l generalizing s with
  | nil => exact hs
  | cons a l ih =>
    apply ih
    unfold relaxCell; split_ifs <;> first | exact hs | rfl

theorem foldl_unchanged (offs : List (Cell × R)) (l : List Cell) (s : Costs R × Bool)
    (hc : (l.foldl (relaxCell offs) s).2 = false) : l.foldl (relaxCell offs) s = s := by
  induction l generalizing s with
  | nil => rfl
  | cons a l ih =>
    have e := ih _ hc
    have hc' : (relaxCell offs s a).2 = false := by
      have h1 : (l.foldl (relaxCell offs) (relaxCell offs s a)).2 = false := hc
      rwa [e] at h1
    show l.foldl (relaxCell offs) (relaxCell offs s a) = s
    rw [e]
    unfold relaxCell at hc' ⊢
    by_cases h1 : s.1 a = inf
    · rw [if_pos h1]
    · rw [if_neg h1] at hc' ⊢
      by_cases h2 : dmin offs s.1 a < s.1 a
      · rw [if_pos h2] at hc'; exact absurd hc' (by simp)
      · rw [if_neg h2]

theorem pass_unchanged {w h : Nat} {c : Costs R} (hc : (pass one diag w h c).2 = false) : (pass one diag w h c).1 = c := by
  unfold pass at *
  have e := foldl_unchanged _ _ _ hc
  rw [e] at hc ⊢
  rw [foldl_unchanged _ _ _ hc]

/-- A round that changes nothing has found the minimum. -/
theorem done_least (ok : StepOk one diag) {w h : Nat} {occ : Cell → Bool} {goal : Cell} {c : Costs R}
    (hi : Inv one diag w h occ goal c) (hp : (pass one diag w h c).2 = false) : Least one diag w h occ goal c := by
  have e := pass_unchanged hp
  have key : ∀ k, Upto one diag w h occ goal k c := by
    intro k
    induction k with
    | zero =>
      intro v l x hw hl
      cases hw with
      | nil => exact hi.goal_zero.le
      | snoc hw ht hv => simp at hl
    | succ k ih => rw [← e]; exact pass_upto ok hi ih
  exact ⟨hi, fun v l x hw => key l.length v l x hw (le_refl _)⟩

theorem loop_least (ok : StepOk one diag) {w h : Nat} {occ : Cell → Bool} {goal : Cell} {n : Nat} {c c' : Costs R}
    (hi : Inv one diag w h occ goal c) (hl : loop one diag w h n c = some c') : Least one diag w h occ goal c' := by
  induction n generalizing c with
  | zero => cases hl
  | succ n ih =>
    rw [loop_succ] at hl
    split_ifs at hl with hp
    · exact ih (pass_keeps_inv ok w h occ goal c hi) hl
    · simp only [Option.some.injEq] at hl
      have hp' : (pass one diag w h c).2 = false := by simpa using hp
      rw [pass_unchanged hp'] at hl
      subst hl
      exact done_least ok hi hp'

/-- **Rounds**: the loop ends within `(w-2)(h-2) + 1` rounds. -/
theorem loop_ends (ok : StepOk one diag) (w h : Nat) (occ : Cell → Bool) (goal : Cell) (n : Nat)
    (hn : (w - 2) * (h - 2) + 1 ≤ n) : ∃ c, loop one diag w h n (init occ goal : Costs R) = some c := by
  refine loop_some ok n 0 (init_inv w h occ goal) ?_ hn (by omega)
  intro v l x hw hl
  cases hw with
  | nil => exact (init_inv (one := one) (diag := diag) w h occ goal).goal_zero.le
  | snoc hw ht hv => simp at hl

end generic

end PathPlanning.DTR
