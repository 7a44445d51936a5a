import Verif.Spec.DistTrans
import Mathlib.Data.DFinsupp.WellFounded
import Mathlib.Order.WellFoundedSet
import Mathlib.Order.WellQuasiOrder
import Mathlib.Tactic.Ring
import Mathlib.Tactic.Linarith

/-!
# C53: the distance transformation
-/

noncomputable section

namespace PathPlanning.DT

open Spec

theorem mem_cellsFwd {w h : Nat} {v : Cell} : v ∈ cellsFwd w h ↔ Interior w h v := by
  unfold cellsFwd Interior
  simp only [List.mem_flatMap, List.mem_range, List.mem_map]
  constructor
  · rintro ⟨r, hr, c, hc, rfl⟩
    simp only []
    omega
  · rintro ⟨h1, h2, h3, h4⟩
    refine ⟨(v.2 - 1).toNat, by omega, (v.1 - 1).toNat, by omega, ?_⟩
    ext <;> simp only [] <;> omega

theorem mem_cellsBwd {w h : Nat} {v : Cell} : v ∈ cellsBwd w h ↔ Interior w h v := by
  rw [← mem_cellsFwd]
  unfold cellsFwd cellsBwd
  simp

/-! ### Values -/

theorem fin_add (x y : ℝ) : fin x + fin y = fin (x + y) := by
  unfold fin; push_cast; rfl
theorem big_add (y : ℝ) : big + fin y = big := by
  unfold fin big
  rw [← WithTop.coe_add, WithTop.top_add]
theorem inf_add (y : ℝ) : inf + fin y = inf := by
  unfold fin inf; rw [WithTop.top_add]
theorem fin_lt_big (x : ℝ) : fin x < big := by
  unfold fin big; rw [WithTop.coe_lt_coe]; exact WithTop.coe_lt_top x
theorem big_lt_inf : big < inf := WithTop.coe_lt_top _
theorem fin_lt_fin {x y : ℝ} : fin x < fin y ↔ x < y := by
  unfold fin; rw [WithTop.coe_lt_coe, WithTop.coe_lt_coe]
theorem fin_le_fin {x y : ℝ} : fin x ≤ fin y ↔ x ≤ y := by
  unfold fin; rw [WithTop.coe_le_coe, WithTop.coe_le_coe]
theorem fin_inj {x y : ℝ} : fin x = fin y ↔ x = y := by
  unfold fin; simp

theorem val_cases (v : Val) : v = inf ∨ v = big ∨ ∃ x, v = fin x := by
  induction v using WithTop.recTopCoe with
  | top => exact Or.inl rfl
  | coe v =>
    induction v using WithTop.recTopCoe with
    | top => exact Or.inr (Or.inl rfl)
    | coe v => exact Or.inr (Or.inr ⟨v, rfl⟩)

theorem dmin_le {offs : List (Cell × ℝ)} {c : Costs} {v : Cell} {o : Cell × ℝ} (ho : o ∈ offs) :
    dmin offs c v ≤ c (v.1 + o.1.1, v.2 + o.1.2) + fin o.2 := by
  unfold dmin
  induction offs with
  | nil => exact absurd ho (by simp)
  | cons a as ih =>
    simp only [List.map_cons, List.foldr_cons]
    rcases List.mem_cons.1 ho with rfl | ho
    · exact min_le_left _ _
    · exact (min_le_right _ _).trans (ih ho)

theorem dmin_attained (offs : List (Cell × ℝ)) (c : Costs) (v : Cell) (hne : dmin offs c v ≠ inf) :
    ∃ o ∈ offs, dmin offs c v = c (v.1 + o.1.1, v.2 + o.1.2) + fin o.2 := by
  unfold dmin at *
  induction offs with
  | nil => exact absurd rfl hne
  | cons a as ih =>
    simp only [List.map_cons, List.foldr_cons] at *
    rcases min_choice (c (v.1 + a.1.1, v.2 + a.1.2) + fin a.2)
      ((as.map fun o => c (v.1 + o.1.1, v.2 + o.1.2) + fin o.2).foldr min inf) with e | e
    · exact ⟨a, by simp, e⟩
    · rw [e] at hne ⊢
      obtain ⟨o, ho, h⟩ := ih hne
      exact ⟨o, by simp [ho], h⟩

theorem offs_step {o : Cell × ℝ} (ho : o ∈ offsFwd ++ offsBwd) (v : Cell) :
    Touch (v.1 + o.1.1, v.2 + o.1.2) v ∧ o.2 = stepLen (v.1 + o.1.1, v.2 + o.1.2) v := by
  unfold offsFwd offsBwd at ho
  simp only [List.cons_append, List.nil_append, List.mem_cons, List.not_mem_nil, or_false] at ho
  rcases ho with rfl | rfl | rfl | rfl | rfl | rfl | rfl | rfl
  all_goals
    refine ⟨⟨?_, ?_, ?_⟩, ?_⟩
    · intro e
      have := congrArg Prod.fst e
      have := congrArg Prod.snd e
      simp at *
    · simp
    · simp
    · simp [stepLen]

theorem touch_offs {u v : Cell} (h : Touch u v) :
    ∃ o ∈ offsFwd ++ offsBwd, (v.1 + o.1.1, v.2 + o.1.2) = u ∧ o.2 = stepLen u v := by
  obtain ⟨hne, h1, h2⟩ := h
  obtain ⟨u1, u2⟩ := u
  obtain ⟨v1, v2⟩ := v
  simp only [abs_le] at h1 h2
  have hne' : ¬ (u1 = v1 ∧ u2 = v2) := fun e => hne (by rw [e.1, e.2])
  have key : ∀ (a b : Int) (l : ℝ), ((a, b), l) ∈ offsFwd ++ offsBwd → u1 = v1 + a → u2 = v2 + b →
      ∃ o ∈ offsFwd ++ offsBwd, (v1 + o.1.1, v2 + o.1.2) = (u1, u2) ∧ o.2 = stepLen (u1, u2) (v1, v2) := by
    intro a b l hm e1 e2
    refine ⟨_, hm, by simp [e1, e2], ?_⟩
    rw [e1, e2]
    exact (offs_step hm (v1, v2)).2
  have hx : u1 = v1 - 1 ∨ u1 = v1 ∨ u1 = v1 + 1 := by omega
  have hy : u2 = v2 - 1 ∨ u2 = v2 ∨ u2 = v2 + 1 := by omega
  rcases hx with hx | hx | hx <;> rcases hy with hy | hy | hy
  · exact key (-1) (-1) (Real.sqrt 2) (by simp [offsFwd]) (by omega) (by omega)
  · exact key (-1) 0 1 (by simp [offsFwd]) (by omega) (by omega)
  · exact key (-1) 1 (Real.sqrt 2) (by simp [offsBwd]) (by omega) (by omega)
  · exact key 0 (-1) 1 (by simp [offsFwd]) (by omega) (by omega)
  · exact absurd ⟨hx, hy⟩ hne'
  · exact key 0 1 1 (by simp [offsBwd]) (by omega) (by omega)
  · exact key 1 (-1) (Real.sqrt 2) (by simp [offsFwd]) (by omega) (by omega)
  · exact key 1 0 1 (by simp [offsBwd]) (by omega) (by omega)
  · exact key 1 1 (Real.sqrt 2) (by simp [offsBwd]) (by omega) (by omega)

/-! ### One pass -/

/-- What a sequence of relaxations does: costs only fall, infinite ones stay; if the flag is still false, nothing changed
and every cell of the list is relaxed. -/
theorem foldl_relax (offs : List (Cell × ℝ)) (l : List Cell) (s : Costs × Bool) :
    (∀ v, (l.foldl (relaxCell offs) s).1 v ≤ s.1 v) ∧
    ((l.foldl (relaxCell offs) s).2 = false → s.2 = false ∧ (l.foldl (relaxCell offs) s).1 = s.1 ∧
      ∀ v ∈ l, s.1 v = inf ∨ s.1 v ≤ dmin offs s.1 v) ∧
    ((l.foldl (relaxCell offs) s).2 = true → s.2 = true ∨ ∃ v ∈ l, (l.foldl (relaxCell offs) s).1 v < s.1 v) := by
  induction l generalizing s with
  | nil => exact ⟨fun v => le_refl _, fun h => ⟨h, rfl, by simp⟩, fun h => Or.inl h⟩
  | cons v l ih =>
    simp only [List.foldl_cons]
    obtain ⟨h1, h2, h3⟩ := ih (relaxCell offs s v)
    by_cases hi : s.1 v = inf
    · have e : relaxCell offs s v = s := by unfold relaxCell; rw [if_pos hi]
      rw [e] at h1 h2 h3 ⊢
      refine ⟨h1, fun h => ?_, fun h => ?_⟩
      · obtain ⟨a, b, d⟩ := h2 h
        exact ⟨a, b, fun u hu => by
          rcases List.mem_cons.1 hu with rfl | hu
          · exact Or.inl hi
          · exact d u hu⟩
      · rcases h3 h with a | ⟨u, hu, b⟩
        · exact Or.inl a
        · exact Or.inr ⟨u, by simp [hu], b⟩
    · by_cases hd : dmin offs s.1 v < s.1 v
      · have e : relaxCell offs s v = (Function.update s.1 v (dmin offs s.1 v), true) := by
          unfold relaxCell; rw [if_neg hi, if_pos hd]
        rw [e] at h1 h2 h3 ⊢
        have hle : ∀ u, Function.update s.1 v (dmin offs s.1 v) u ≤ s.1 u := by
          intro u
          by_cases huv : u = v
          · subst huv; simp [hd.le]
          · simp [huv]
        refine ⟨fun u => (h1 u).trans (hle u), fun h => ?_, fun _ => Or.inr ⟨v, by simp, ?_⟩⟩
        · exact absurd (h2 h).1 (by simp)
        · refine lt_of_le_of_lt (h1 v) ?_
          simpa using hd
      · have e : relaxCell offs s v = s := by unfold relaxCell; rw [if_neg hi, if_neg hd]
        rw [e] at h1 h2 h3 ⊢
        refine ⟨h1, fun h => ?_, fun h => ?_⟩
        · obtain ⟨a, b, d⟩ := h2 h
          exact ⟨a, b, fun u hu => by
            rcases List.mem_cons.1 hu with rfl | hu
            · exact Or.inr (not_lt.1 hd)
            · exact d u hu⟩
        · rcases h3 h with a | ⟨u, hu, b⟩
          · exact Or.inl a
          · exact Or.inr ⟨u, by simp [hu], b⟩

/-- An invariant of single relaxations is an invariant of a pass. -/
theorem pass_inv (w h : Nat) (Q : Costs → Prop)
    (hQ : ∀ offs c v, (∀ o ∈ offs, o ∈ offsFwd ++ offsBwd) → Interior w h v → c v ≠ inf → dmin offs c v < c v → Q c →
      Q (Function.update c v (dmin offs c v))) (c : Costs) (h0 : Q c) : Q (pass w h c).1 := by
  have key : ∀ offs (ho : ∀ o ∈ offs, o ∈ offsFwd ++ offsBwd) (l : List Cell) (hl : ∀ v ∈ l, Interior w h v)
      (s : Costs × Bool), Q s.1 → Q (l.foldl (relaxCell offs) s).1 := by
    intro offs ho l
    induction l with
    | nil => intro _ s hs; exact hs
    | cons v l ih =>
      intro hl s hs
      apply ih (fun u hu => hl u (by simp [hu]))
      unfold relaxCell
      split_ifs with h1 h2
      · exact hs
      · exact hQ offs s.1 v ho (hl v (by simp)) h1 h2 hs
      · exact hs
  unfold pass
  apply key offsBwd (by simp +contextual) _ (fun v hv => mem_cellsBwd.1 hv)
  exact key offsFwd (by simp +contextual) _ (fun v hv => mem_cellsFwd.1 hv) _ h0

theorem pass_le (w h : Nat) (c : Costs) (v : Cell) : (pass w h c).1 v ≤ c v := by
  unfold pass
  exact ((foldl_relax _ _ _).1 v).trans ((foldl_relax _ _ _).1 v)

/-- If a pass changes nothing, every interior cell satisfies the triangle inequality with all its eight neighbours. -/
theorem pass_fixed {w h : Nat} {c : Costs} (hp : (pass w h c).2 = false) :
    (pass w h c).1 = c ∧ ∀ u v, Interior w h v → Touch u v → c v = inf ∨ c v ≤ c u + fin (stepLen u v) := by
  unfold pass at *
  obtain ⟨_, h2, _⟩ := foldl_relax offsBwd (cellsBwd w h) ((cellsFwd w h).foldl (relaxCell offsFwd) (c, false))
  obtain ⟨a, b, d⟩ := h2 hp
  obtain ⟨_, h2', _⟩ := foldl_relax offsFwd (cellsFwd w h) (c, false)
  obtain ⟨_, b', d'⟩ := h2' a
  rw [b'] at d b
  refine ⟨b, fun u v hv ht => ?_⟩
  obtain ⟨o, ho, e1, e2⟩ := touch_offs ht
  rcases List.mem_append.1 ho with ho | ho
  · rcases d' v (mem_cellsFwd.2 hv) with e | e
    · exact Or.inl e
    · right
      have := e.trans (dmin_le ho)
      rwa [e1, e2] at this
  · rcases d v (mem_cellsBwd.2 hv) with e | e
    · exact Or.inl e
    · right
      have := e.trans (dmin_le ho)
      rwa [e1, e2] at this

theorem pass_changed {w h : Nat} {c : Costs} (hp : (pass w h c).2 = true) :
    ∃ v, Interior w h v ∧ (pass w h c).1 v < c v := by
  unfold pass at *
  obtain ⟨h1, _, h3⟩ := foldl_relax offsBwd (cellsBwd w h) ((cellsFwd w h).foldl (relaxCell offsFwd) (c, false))
  obtain ⟨h1', _, h3'⟩ := foldl_relax offsFwd (cellsFwd w h) (c, false)
  rcases h3 hp with a | ⟨v, hv, a⟩
  · rcases h3' a with b | ⟨v, hv, b⟩
    · exact absurd b (by simp)
    · exact ⟨v, mem_cellsFwd.1 hv, lt_of_le_of_lt (h1 v) b⟩
  · exact ⟨v, mem_cellsBwd.1 hv, lt_of_lt_of_le a (h1' v)⟩

/-! ### Termination -/

/-- The values that can occur. -/
def Vals : Set Val := (fun p : Nat × Nat => fin (p.1 + p.2 * Real.sqrt 2)) '' Set.univ ∪ {big, inf}

theorem vals_wf : Vals.IsWF := by
  apply Set.IsPWO.isWF
  apply Set.IsPWO.union
  · apply Set.IsPWO.image_of_monotone
    · exact Set.isPWO_of_wellQuasiOrderedLE _
    · intro p q hpq
      rw [fin_le_fin]
      have h1 : (p.1 : ℝ) ≤ q.1 := by exact_mod_cast hpq.1
      have h2 : (p.2 : ℝ) ≤ q.2 := by exact_mod_cast hpq.2
      have := mul_le_mul_of_nonneg_right h2 (Real.sqrt_nonneg 2)
      linarith
  · exact (Set.toFinite _).isPWO

theorem vals_add {x : Val} (hx : x ∈ Vals) (u v : Cell) : x + fin (stepLen u v) ∈ Vals := by
  rcases hx with ⟨⟨m, n⟩, _, rfl⟩ | hx
  · left
    unfold stepLen
    split_ifs
    · refine ⟨(m + 1, n), trivial, ?_⟩
      simp only [fin_add]; congr 1; push_cast; ring
    · refine ⟨(m, n + 1), trivial, ?_⟩
      simp only [fin_add]; congr 1; push_cast; ring
  · right
    rcases hx with rfl | rfl
    · rw [big_add]; simp
    · rw [inf_add]; simp

theorem init_vals (occ : Cell → Bool) (goal v : Cell) : init occ goal v ∈ Vals := by
  unfold init
  by_cases hv : v = goal
  · subst hv; left; exact ⟨(0, 0), trivial, by simp⟩
  · right
    rw [Function.update_of_ne hv]
    split_ifs <;> simp

theorem pass_vals (w h : Nat) (c : Costs) (hc : ∀ v, c v ∈ Vals) : ∀ v, (pass w h c).1 v ∈ Vals := by
  apply pass_inv w h (fun c => ∀ v, c v ∈ Vals) ?_ c hc
  intro offs c v ho hv hi hd hc u
  by_cases huv : u = v
  · subst huv
    rw [Function.update_self]
    obtain ⟨o, hmem, e⟩ := dmin_attained offs c u (fun e => by
      rw [e] at hd; exact absurd hd (not_lt.2 le_top))
    rw [e, (offs_step (ho o hmem) u).2]
    exact vals_add (hc _) _ _
  · rw [Function.update_of_ne huv]; exact hc u

/-- **Termination**: for every map, size and goal the loop ends. -/
theorem loop_terminates (w h : Nat) (occ : Cell → Bool) (goal : Cell) :
    ∃ fuel c, loop w h fuel (init occ goal) = some c := by
  have hwf : WellFoundedLT Vals := ⟨vals_wf⟩
  have key : ∀ (f : Fin w × Fin h → Vals) (c : Costs), (∀ v, c v ∈ Vals) →
      (∀ i : Fin w × Fin h, (f i : Val) = c ((i.1 : Nat), (i.2 : Nat))) → ∃ fuel c', loop w h fuel c = some c' := by
    intro f
    induction f using WellFoundedLT.induction with
    | ind f ih =>
      intro c hc hf
      cases hp : (pass w h c).2 with
      | false => exact ⟨1, (pass w h c).1, by simp [loop, hp]⟩
      | true =>
        obtain ⟨v, hv, hlt⟩ := pass_changed hp
        have hcv := pass_vals w h c hc
        obtain ⟨fuel, c', hl⟩ := ih (fun i => ⟨(pass w h c).1 ((i.1 : Nat), (i.2 : Nat)), hcv _⟩) (by
          rw [Pi.lt_def]
          refine ⟨fun i => ?_, ?_⟩
          · show (pass w h c).1 ((i.1 : Nat), (i.2 : Nat)) ≤ (f i : Val)
            rw [hf i]; exact pass_le w h c _
          · obtain ⟨h1, h2, h3, h4⟩ := hv
            refine ⟨(⟨v.1.toNat, by omega⟩, ⟨v.2.toNat, by omega⟩), ?_⟩
            show (pass w h c).1 ((v.1.toNat : Int), (v.2.toNat : Int)) < (f _ : Val)
            rw [hf]
            have e1 : ((v.1.toNat : Int), (v.2.toNat : Int)) = v := by
              ext <;> simp only [] <;> omega
            simp only [e1]
            exact hlt) (pass w h c).1 hcv (fun i => rfl)
        exact ⟨fuel + 1, c', by simp [loop, hp, hl]⟩
  exact key (fun i => ⟨init occ goal ((i.1 : Nat), (i.2 : Nat)), init_vals _ _ _⟩) _ (init_vals occ goal) (fun i => rfl)

/-! ### Exactness -/

/-- The cells a walk may use. -/
def Usable (w h : Nat) (occ : Cell → Bool) (v : Cell) : Prop := Interior w h v ∧ occ v = false

/-- The invariant of the relaxation. -/
structure Inv (w h : Nat) (occ : Cell → Bool) (goal : Cell) (c : Costs) : Prop where
  goal_zero : c goal = fin 0
  occupied : ∀ v, c v = inf ↔ occ v = true ∧ v ≠ goal
  walk : ∀ v x, c v = fin x → Walk (Usable w h occ) goal v x

theorem _root_.PathPlanning.Spec.Walk.nonneg {ok : Int × Int → Prop} {goal v : Int × Int} {L : ℝ}
    (h : Walk ok goal v L) : 0 ≤ L := by
  induction h with
  | nil => exact le_refl _
  | @snoc u v L hw ht hv ih =>
    have : 0 ≤ stepLen u v := by unfold stepLen; split_ifs <;> simp
    linarith

theorem stepLen_ge_one (u v : Int × Int) : 1 ≤ stepLen u v := by
  unfold stepLen
  split_ifs
  · exact le_refl _
  · rw [Real.one_le_sqrt]; norm_num

theorem stepLen_le_sqrt2 (u v : Int × Int) : stepLen u v ≤ Real.sqrt 2 := by
  unfold stepLen
  split_ifs
  · rw [Real.one_le_sqrt]; norm_num
  · exact le_refl _

/-- A walk to another cell has length at least 1. -/
theorem _root_.PathPlanning.Spec.Walk.one_le {ok : Int × Int → Prop} {goal v : Int × Int} {L : ℝ}
    (h : Walk ok goal v L) (hv : v ≠ goal) : 1 ≤ L := by
  cases h with
  | nil => exact absurd rfl hv
  | @snoc u _ L hw ht hv =>
    have := hw.nonneg
    have := stepLen_ge_one u v
    linarith

theorem init_inv (w h : Nat) (occ : Cell → Bool) (goal : Cell) : Inv w h occ goal (init occ goal) where
  goal_zero := by simp [init]
  occupied v := by
    unfold init
    by_cases hv : v = goal
    · subst hv; simp [fin, inf]
    · rw [Function.update_of_ne hv]
      cases ho : occ v
      · simp [big_lt_inf.ne]
      · simp [hv]
  walk v x hx := by
    unfold init at hx
    by_cases hv : v = goal
    · subst hv
      rw [Function.update_self, fin_inj] at hx
      subst hx; exact Walk.nil
    · rw [Function.update_of_ne hv] at hx
      split_ifs at hx
      · exact absurd hx.symm ((fin_lt_big x).trans big_lt_inf).ne
      · exact absurd hx.symm (fin_lt_big x).ne

theorem pass_keeps_inv (w h : Nat) (occ : Cell → Bool) (goal : Cell) (c : Costs) (hc : Inv w h occ goal c) :
    Inv w h occ goal (pass w h c).1 := by
  apply pass_inv w h (Inv w h occ goal) ?_ c hc
  intro offs c v ho hv hi hd hc
  obtain ⟨o, hmem, e⟩ := dmin_attained offs c v (fun e => by
    rw [e] at hd; exact absurd hd (not_lt.2 le_top))
  obtain ⟨ht, hlen⟩ := offs_step (ho o hmem) v
  set u : Cell := (v.1 + o.1.1, v.2 + o.1.2) with hu
  rw [hlen] at e
  -- the new value is finite and the length of a walk
  obtain ⟨x, hx⟩ : ∃ x, c u = fin x := by
    rcases val_cases (c u) with e1 | e1 | ⟨x, e1⟩
    · rw [e1, inf_add] at e
      rw [e] at hd; exact absurd hd (not_lt.2 le_top)
    · rw [e1, big_add] at e
      rw [e] at hd
      rcases val_cases (c v) with e2 | e2 | ⟨y, e2⟩
      · exact absurd e2 hi
      · rw [e2] at hd; exact absurd hd (lt_irrefl _)
      · rw [e2] at hd; exact absurd hd (not_lt.2 (fin_lt_big y).le)
    · exact ⟨x, e1⟩
  have hw := hc.walk u x hx
  rw [hx, fin_add] at e
  have hvg : v ≠ goal := by
    rintro rfl
    rw [hc.goal_zero, e, fin_lt_fin] at hd
    have := hw.nonneg
    have := stepLen_ge_one u v
    linarith
  have hocc : occ v = false := by
    by_contra hne
    exact hi ((hc.occupied v).2 ⟨by simpa using hne, hvg⟩)
  refine ⟨?_, ?_, ?_⟩
  · rw [Function.update_of_ne (Ne.symm hvg)]; exact hc.goal_zero
  · intro k
    by_cases hk : k = v
    · subst hk
      rw [Function.update_self, e]
      simp [hocc, ((fin_lt_big (x + stepLen u k)).trans big_lt_inf).ne]
    · rw [Function.update_of_ne hk]; exact hc.occupied k
  · intro k y hy
    by_cases hk : k = v
    · subst hk
      rw [Function.update_self, e, fin_inj] at hy
      rw [← hy]
      exact Walk.snoc hw ht ⟨hv, hocc⟩
    · rw [Function.update_of_ne hk] at hy; exact hc.walk k y hy

theorem loop_inv {w h : Nat} {occ : Cell → Bool} {goal : Cell} {fuel : Nat} {c c' : Costs}
    (hc : Inv w h occ goal c) (hl : loop w h fuel c = some c') :
    Inv w h occ goal c' ∧ ∀ u v, Interior w h v → Touch u v → c' v = inf ∨ c' v ≤ c' u + fin (stepLen u v) := by
  induction fuel generalizing c with
  | zero => simp [loop] at hl
  | succ n ih =>
    unfold loop at hl
    simp only [] at hl
    split_ifs at hl with hp
    · exact ih (pass_keeps_inv w h occ goal c hc) hl
    · simp only [Option.some.injEq] at hl
      subst hl
      have hp' : (pass w h c).2 = false := by simpa using hp
      obtain ⟨e, ht⟩ := pass_fixed hp'
      rw [e]
      exact ⟨hc, ht⟩

/-- **Exactness.**  After the transformation
* a cell has infinite cost exactly if it is occupied and not the goal;
* a finite cost is the length of a walk from the goal through free interior cells;
* every such walk is at least as long as the cost of its end: the cost is the length of a shortest walk. -/
theorem dt_exact {w h : Nat} {occ : Cell → Bool} {goal : Cell} {fuel : Nat} {c : Costs}
    (hl : loop w h fuel (init occ goal) = some c) :
    (∀ v, c v = inf ↔ occ v = true ∧ v ≠ goal) ∧
    (∀ v x, c v = fin x → Walk (Usable w h occ) goal v x) ∧
    (∀ v L, Walk (Usable w h occ) goal v L → ∃ x, c v = fin x ∧ x ≤ L) := by
  obtain ⟨hinv, htri⟩ := loop_inv (init_inv w h occ goal) hl
  refine ⟨hinv.occupied, hinv.walk, ?_⟩
  intro v L hw
  induction hw with
  | nil => exact ⟨0, hinv.goal_zero, le_refl _⟩
  | @snoc u v L hw ht hv ih =>
    obtain ⟨x, hx, hxL⟩ := ih
    by_cases hvg : v = goal
    · subst hvg
      have := hw.nonneg
      have := stepLen_ge_one u v
      exact ⟨0, hinv.goal_zero, by linarith⟩
    · rcases htri u v hv.1 ht with e | e
      · have := (hinv.occupied v).1 e
        rw [hv.2] at this
        exact absurd this.1 (by simp)
      · rw [hx, fin_add] at e
        rcases val_cases (c v) with e1 | e1 | ⟨y, e1⟩
        · rw [e1] at e; exact absurd e (not_le.2 ((fin_lt_big _).trans big_lt_inf))
        · rw [e1] at e; exact absurd e (not_le.2 (fin_lt_big _))
        · rw [e1, fin_le_fin] at e
          exact ⟨y, e1, by linarith⟩

/-- A free cell keeps `max()` exactly if no walk leads there. -/
theorem dt_unreached_iff {w h : Nat} {occ : Cell → Bool} {goal : Cell} {fuel : Nat} {c : Costs}
    (hl : loop w h fuel (init occ goal) = some c) (v : Cell) :
    c v = big ↔ (occ v = false ∧ v ≠ goal ∧ ∀ L, ¬ Walk (Usable w h occ) goal v L) := by
  obtain ⟨h1, h2, h3⟩ := dt_exact hl
  constructor
  · intro e
    have hvg : v ≠ goal := by
      rintro rfl
      obtain ⟨x, hx, _⟩ := h3 v 0 Walk.nil
      rw [hx] at e; exact absurd e (fin_lt_big x).ne
    refine ⟨?_, hvg, fun L hw => ?_⟩
    · by_contra hne
      have := (h1 v).2 ⟨by simpa using hne, hvg⟩
      rw [e] at this; exact absurd this big_lt_inf.ne
    · obtain ⟨x, hx, _⟩ := h3 v L hw
      rw [hx] at e; exact absurd e (fin_lt_big x).ne
  · rintro ⟨a, b, d⟩
    rcases val_cases (c v) with e1 | e1 | ⟨y, e1⟩
    · rw [((h1 v).1 e1).1] at a; exact absurd a (by simp)
    · exact e1
    · exact absurd (h2 v y e1) (d y)

end PathPlanning.DT
