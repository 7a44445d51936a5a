import Verif.Props.DistTransRound
import Verif.Spec.DistTransRound

/-!
# C125: the distance transformation in floating point
-/

noncomputable section

namespace PathPlanning.DTR

open Spec
open DT (Cell cellsFwd cellsBwd mem_cellsFwd mem_cellsBwd Usable InArr arr mem_arr arr_card nb8 nb8_touch touch_nb8
  stepLen_ge_one stepLen_le_sqrt2)

set_option linter.unusedSectionVars false

section generic
variable {R : Type} [LinearOrder R] [Add R] [Zero R]

/-- `bestNb` yields the cell itself or a neighbour in the map with a smaller cost; no neighbour in the map has a smaller
cost than it. -/
theorem bestNb_spec (w h : Nat) (nbs : List Cell) (c : Costs R) (cur : Cell) :
    (bestNb w h nbs c cur = cur ∨ (∃ o ∈ nbs, bestNb w h nbs c cur = (cur.1 + o.1, cur.2 + o.2)) ∧
      InArr w h (bestNb w h nbs c cur) ∧ c (bestNb w h nbs c cur) < c cur) ∧
    ∀ o ∈ nbs, InArr w h (cur.1 + o.1, cur.2 + o.2) → c (bestNb w h nbs c cur) ≤ c (cur.1 + o.1, cur.2 + o.2) := by
  unfold bestNb
  have key : ∀ (l : List Cell) (b : Cell), (∀ o ∈ l, o ∈ nbs) →
      (b = cur ∨ (∃ o ∈ nbs, b = (cur.1 + o.1, cur.2 + o.2)) ∧ InArr w h b ∧ c b < c cur) →
      let r := l.foldl (fun best o =>
        let xx := cur.1 + o.1
        let yy := cur.2 + o.2
        if 0 ≤ xx ∧ 0 ≤ yy ∧ xx < w ∧ yy < h then
          if c (xx, yy) < c best then (xx, yy) else best
        else best) b
      (r = cur ∨ (∃ o ∈ nbs, r = (cur.1 + o.1, cur.2 + o.2)) ∧ InArr w h r ∧ c r < c cur) ∧ c r ≤ c b ∧
      ∀ o ∈ l, InArr w h (cur.1 + o.1, cur.2 + o.2) → c r ≤ c (cur.1 + o.1, cur.2 + o.2) := by
    intro l
    induction l with
    | nil => intro b _ hb; exact ⟨hb, le_refl _, by simp⟩
    | cons o l ih =>
      intro b hl hb
      simp only [List.foldl_cons]
      by_cases h1 : 0 ≤ cur.1 + o.1 ∧ 0 ≤ cur.2 + o.2 ∧ cur.1 + o.1 < w ∧ cur.2 + o.2 < h
      · rw [if_pos h1]
        by_cases h2 : c (cur.1 + o.1, cur.2 + o.2) < c b
        · rw [if_pos h2]
          have hbc : c b ≤ c cur := by
            rcases hb with e | e
            · rw [e]
            · exact e.2.2.le
          obtain ⟨a, b', d⟩ := ih (cur.1 + o.1, cur.2 + o.2) (fun k hk => hl k (by simp [hk]))
            (Or.inr ⟨⟨o, hl o (by simp), rfl⟩, h1, lt_of_lt_of_le h2 hbc⟩)
          refine ⟨a, b'.trans h2.le, ?_⟩
          intro k hk hin
          rcases List.mem_cons.1 hk with rfl | hk
          · exact b'
          · exact d k hk hin
        · rw [if_neg h2]
          obtain ⟨a, b', d⟩ := ih b (fun k hk => hl k (by simp [hk])) hb
          refine ⟨a, b', ?_⟩
          intro k hk hin
          rcases List.mem_cons.1 hk with rfl | hk
          · exact b'.trans (not_lt.1 h2)
          · exact d k hk hin
      · rw [if_neg h1]
        obtain ⟨a, b', d⟩ := ih b (fun k hk => hl k (by simp [hk])) hb
        refine ⟨a, b', ?_⟩
        intro k hk hin
        rcases List.mem_cons.1 hk with rfl | hk
        · exact absurd hin h1
        · exact d k hk hin
  obtain ⟨a, _, d⟩ := key nbs cur (fun _ h => h) (Or.inl rfl)
  exact ⟨a, d⟩

open Classical in
/-- **Back-tracking terminates** for all costs, after at most `w * h` steps. -/
theorem backtrack_terminates (w h : Nat) (nbs : List Cell) (c : Costs R) (goal start : Cell) :
    ∃ p, backtrack w h nbs c goal (w * h + 1) start = some p := by
  have key : ∀ n cur, ((arr w h).filter (fun v => c v < c cur)).card < n →
      ∃ p, backtrack w h nbs c goal n cur = some p := by
    intro n
    induction n with
    | zero => intro cur h; omega
    | succ n ih =>
      intro cur hn
      unfold backtrack
      split_ifs with h1
      · exact ⟨_, rfl⟩
      · simp only []
        split_ifs with h2
        · exact ⟨_, rfl⟩
        · rcases (bestNb_spec w h nbs c cur).1 with e | ⟨_, hin, hlt⟩
          · exact absurd e h2
          · obtain ⟨p, hp⟩ := ih (bestNb w h nbs c cur) (by
              refine lt_of_lt_of_le (Finset.card_lt_card ?_) (Nat.lt_succ_iff.1 hn)
              rw [Finset.ssubset_iff_of_subset]
              · exact ⟨bestNb w h nbs c cur, by simp [mem_arr.2 hin, hlt], by simp⟩
              · intro v hv
                simp only [Finset.mem_filter] at hv ⊢
                exact ⟨hv.1, hv.2.trans hlt⟩)
            exact ⟨cur :: p, by simp [hp]⟩
  apply key
  have := (Finset.card_filter_le (arr w h) (fun v => c v < c start)).trans (arr_card w h)
  omega


variable {one diag : R}

/-- From a reached cell other than the goal some neighbour is cheaper by the length of a step. -/
theorem descend (ok : StepOk one diag) {w h : Nat} {occ : Cell → Bool} {goal : Cell} (hg : InArr w h goal) {c : Costs R}
    (hl : Least one diag w h occ goal c) {v : Cell} {x : R} (hx : c v = fin x) (hv : v ≠ goal) :
    ∃ o ∈ nb8, InArr w h (v.1 + o.1, v.2 + o.2) ∧ ∃ y, c (v.1 + o.1, v.2 + o.2) = fin y ∧
      y + st one diag (v.1 + o.1, v.2 + o.2) v ≤ x := by
  obtain ⟨l, hw⟩ := hl.inv.walk v x hx
  cases hw with
  | nil => exact absurd rfl hv
  | @snoc u _ l x' hw ht hok =>
    have hle := hl.least u l x' hw
    have ht' : Touch v u := ⟨ht.1.symm, by rw [abs_sub_comm]; exact ht.2.1, by rw [abs_sub_comm]; exact ht.2.2⟩
    obtain ⟨o, ho, e⟩ := touch_nb8 ht'
    obtain ⟨y, hy⟩ : ∃ y, c u = fin y := by
      rcases val_cases (c u) with e1 | e1 | e1
      · rw [e1] at hle; exact absurd hle (not_le.2 ((fin_lt_big _).trans big_lt_inf))
      · rw [e1] at hle; exact absurd hle (not_le.2 (fin_lt_big _))
      · exact e1
    rw [hy, fin_le_fin] at hle
    refine ⟨o, ho, ?_, y, ?_, ?_⟩
    · rw [← e]
      cases hw with
      | nil => exact hg
      | snoc _ _ hu =>
        obtain ⟨a, b, d, f⟩ := hu.1
        exact ⟨by omega, by omega, by omega, by omega⟩
    · rw [← e]; exact hy
    · rw [← e]; exact ok.mono _ (st_or _ _ _ _) _ _ hle

end generic

/-! ### Exact arithmetic -/

theorem stepOk_real : StepOk (1 : ℝ) (Real.sqrt 2) where
  mono s _ a b hab := by linarith
  infl s hs a := by
    have : 0 ≤ s := by rcases hs with rfl | rfl <;> simp
    linarith

theorem walk_of_sw {okc : Cell → Prop} {goal : Cell} {l : List Cell} {x : ℝ} (hw : SW (1 : ℝ) (Real.sqrt 2) okc goal l x)
    {v : Cell} (hv : l.head? = some v) : Walk okc goal v x := by
  induction hw generalizing v with
  | nil =>
    have : goal = v := by simpa using hv
    subst this; exact .nil
  | @snoc u k l x hw ht hk ih =>
    have : k = v := by simpa using hv
    subst this
    exact .snoc (ih rfl) ht hk

theorem sw_of_walk {okc : Cell → Prop} {goal v : Cell} {L : ℝ} (hw : Walk okc goal v L) :
    ∃ l, SW (1 : ℝ) (Real.sqrt 2) okc goal (v :: l) L := by
  induction hw with
  | nil => exact ⟨[], .nil⟩
  | snoc hw ht hv ih =>
    obtain ⟨l, h⟩ := ih
    exact ⟨_, .snoc h ht hv⟩

theorem sw_le {okc : Cell → Prop} {goal : Cell} {l : List Cell} {x : ℝ} (hw : SW (1 : ℝ) (Real.sqrt 2) okc goal l x) :
    x ≤ Real.sqrt 2 * (l.length - 1 : ℝ) := by
  induction hw with
  | nil => simp
  | @snoc u k l x hw ht hk ih =>
    have := stepLen_le_sqrt2 u k
    have e : st (1 : ℝ) (Real.sqrt 2) u k = stepLen u k := rfl
    rw [e]
    push_cast [List.length_cons] at ih ⊢
    nlinarith

/-- The exact transformation is the generic one over the reals. -/
theorem loop_real (w h n : Nat) (c : DT.Costs) : DT.loop w h n c = loop (1 : ℝ) (Real.sqrt 2) w h n c := by
  induction n generalizing c with
  | zero => rfl
  | succ n ih =>
    have e : DT.pass w h c = pass (1 : ℝ) (Real.sqrt 2) w h c := rfl
    show (if (DT.pass w h c).2 then DT.loop w h n (DT.pass w h c).1 else some (DT.pass w h c).1) = _
    rw [loop_succ, e, ih]

/-- In exact arithmetic too the loop ends within `(w-2)(h-2) + 1` rounds. -/
theorem exact_rounds (w h : Nat) (occ : Cell → Bool) (goal : Cell) (n : Nat) (hn : (w - 2) * (h - 2) + 1 ≤ n) :
    ∃ c, DT.loop w h n (DT.init occ goal) = some c := by
  rw [loop_real]
  exact loop_ends stepOk_real w h occ goal n hn

/-! ### Rounded arithmetic -/

variable {F : Fmt}

theorem one_nonneg (F : Fmt) : 0 ≤ (F.rd 1).1 := (F.fl_bounds (by norm_num : (0 : ℝ) ≤ 1)).2.2
theorem sqrt2_nonneg (F : Fmt) : 0 ≤ (sqrt2F F).1 := (F.fl_bounds (Real.sqrt_nonneg 2)).2.2

theorem stepOk_round (F : Fmt) : StepOk (F.rd 1) (sqrt2F F) where
  mono s _ a b hab := by
    have h : a.1 ≤ b.1 := hab
    show F.fl (a.1 + s.1) ≤ F.fl (b.1 + s.1)
    exact F.ok.mono (by linarith)
  infl s hs a := by
    have h : 0 ≤ s.1 := by
      rcases hs with rfl | rfl
      · exact one_nonneg F
      · exact sqrt2_nonneg F
    show a.1 ≤ F.fl (a.1 + s.1)
    calc a.1 = F.fl a.1 := a.2.symm
      _ ≤ _ := F.ok.mono (by linarith)

theorem st_near (F : Fmt) (u v : Cell) : (1 - F.u) ^ 1 * stepLen u v ≤ (st (F.rd 1) (sqrt2F F) u v).1 ∧
    (st (F.rd 1) (sqrt2F F) u v).1 ≤ (1 + F.u) ^ 1 * stepLen u v := by
  unfold st stepLen
  rw [pow_one, pow_one]
  split_ifs
  · obtain ⟨a, b, _⟩ := F.fl_bounds (by norm_num : (0 : ℝ) ≤ 1)
    exact ⟨a, b⟩
  · obtain ⟨a, b, _⟩ := F.fl_bounds (Real.sqrt_nonneg 2)
    exact ⟨a, b⟩

theorem step_near (F : Fmt) {x : F.D} {L : ℝ} {k : ℕ} (hk : 1 ≤ k) (hL : 0 ≤ L) (h1 : (1 - F.u) ^ k * L ≤ x.1)
    (h2 : x.1 ≤ (1 + F.u) ^ k * L) (u v : Cell) :
    (1 - F.u) ^ (k + 1) * (L + stepLen u v) ≤ (x + st (F.rd 1) (sqrt2F F) u v).1 ∧
    (x + st (F.rd 1) (sqrt2F F) u v).1 ≤ (1 + F.u) ^ (k + 1) * (L + stepLen u v) := by
  have hs : 0 ≤ stepLen u v := by linarith [stepLen_ge_one u v]
  obtain ⟨a, b⟩ := st_near F u v
  obtain ⟨a, b⟩ := F.near_mono hk hs a b
  exact F.fl_near (by linarith) (by rw [mul_add]; linarith) (by rw [mul_add]; linarith)

/-- A walk computed in rounded arithmetic is a walk, of nearly that length. -/
theorem near_of {okc : Cell → Prop} {goal : Cell} {l : List Cell} {x : F.D} (hw : SW (F.rd 1) (sqrt2F F) okc goal l x) :
    ∃ L, 0 ≤ L ∧ SW (1 : ℝ) (Real.sqrt 2) okc goal l L ∧ (1 - F.u) ^ l.length * L ≤ x.1 ∧
      x.1 ≤ (1 + F.u) ^ l.length * L := by
  induction hw with
  | nil => exact ⟨0, le_refl _, .nil, by simp [Fmt.zero_val], by simp [Fmt.zero_val]⟩
  | @snoc u k l x hw ht hk ih =>
    obtain ⟨L, h0, h1, h2, h3⟩ := ih
    obtain ⟨a, b⟩ := step_near F (by simp) h0 h2 h3 u k
    refine ⟨L + stepLen u k, by linarith [stepLen_ge_one u k], .snoc h1 ht hk, a, b⟩

theorem near_to {okc : Cell → Prop} {goal : Cell} {l : List Cell} {L : ℝ} (hw : SW (1 : ℝ) (Real.sqrt 2) okc goal l L) :
    0 ≤ L ∧ ∃ x : F.D, SW (F.rd 1) (sqrt2F F) okc goal l x ∧ (1 - F.u) ^ l.length * L ≤ x.1 ∧
      x.1 ≤ (1 + F.u) ^ l.length * L := by
  induction hw with
  | nil => exact ⟨le_refl _, 0, .nil, by simp [Fmt.zero_val], by simp [Fmt.zero_val]⟩
  | @snoc u k l L hw ht hk ih =>
    obtain ⟨h0, x, h1, h2, h3⟩ := ih
    obtain ⟨a, b⟩ := step_near F (by simp) h0 h2 h3 u k
    exact ⟨by have := stepLen_ge_one u k; show 0 ≤ L + stepLen u k; linarith, _, .snoc h1 ht hk, a, b⟩

/-- Shortest walks exist wherever there is a walk. -/
theorem shortest_exists (w h : Nat) (occ : Cell → Bool) (goal v : Cell) {L : ℝ}
    (hw : Walk (FreeInterior w h occ) goal v L) : ∃ L', ShortestWalk (FreeInterior w h occ) goal v L' ∧ L' ≤ L := by
  obtain ⟨fuel, c, hl⟩ := DT.loop_terminates w h occ goal
  obtain ⟨_, h2, h3⟩ := DT.dt_exact hl
  obtain ⟨x, hx, hxL⟩ := h3 v L hw
  refine ⟨x, ⟨h2 v x hx, fun L' hw' => ?_⟩, hxL⟩
  obtain ⟨y, hy, hyL⟩ := h3 v L' hw'
  rw [hx, DT.fin_inj] at hy
  rw [hy]; exact hyL

/-- The number of rounds in the worst case, and of roundings in a cost. -/
def cellsIn (w h : Nat) : Nat := (w - 2) * (h - 2) + 1

/-- **Rounding never keeps the loop running**: it ends within `(w-2)(h-2) + 1` rounds. -/
theorem round_ends (F : Fmt) (w h : Nat) (occ : Cell → Bool) (goal : Cell) (n : Nat) (hn : (w - 2) * (h - 2) + 1 ≤ n) :
    ∃ c, loopF F w h n occ goal = some c := loop_ends (stepOk_round F) w h occ goal n hn

theorem round_least {w h n : Nat} {occ : Cell → Bool} {goal : Cell} {c : Costs F.D} (hl : loopF F w h n occ goal = some c) :
    Least (F.rd 1) (sqrt2F F) w h occ goal c := loop_least (stepOk_round F) (init_inv w h occ goal) hl

theorem least_near {w h : Nat} {occ : Cell → Bool} {goal : Cell} {c : Costs F.D}
    (hl : Least (F.rd 1) (sqrt2F F) w h occ goal c) {v : Cell} {x : F.D} (hx : c v = fin x) :
    ∃ L, ShortestWalk (FreeInterior w h occ) goal v L ∧ 0 ≤ L ∧ (1 - F.u) ^ (cellsIn w h) * L ≤ x.1 ∧
      x.1 ≤ (1 + F.u) ^ (cellsIn w h) * L ∧ L ≤ Real.sqrt 2 * (w - 2 : ℕ) * (h - 2 : ℕ) := by
  have hu := F.u_nonneg
  have hu1 := F.u_lt
  obtain ⟨l, hw⟩ := hl.inv.walk v x hx
  obtain ⟨l', y, h1, h2, h3⟩ := hw.simple (stepOk_round F) rfl
  have hxy : x = y := le_antisymm (by
    have := hl.least v l' y h1
    rwa [hx, fin_le_fin] at this) h3
  subst hxy
  obtain ⟨L1, h0, g1, g2, g3⟩ := near_of h1
  have hlen : (v :: l').length ≤ cellsIn w h := interior_card h2 (fun k hk => (h1.cells k hk).imp_right (·.1))
  obtain ⟨L, hs, hLL⟩ := shortest_exists w h occ goal v (walk_of_sw g1 rfl)
  -- a simple shortest walk
  obtain ⟨m, hm⟩ := sw_of_walk hs.1
  obtain ⟨m', L2, k1, k2, k3⟩ := hm.simple stepOk_real rfl
  have e2 : L = L2 := le_antisymm (hs.2 _ (walk_of_sw k1 rfl)) k3
  subst e2
  have hlen2 : (v :: m').length ≤ cellsIn w h := interior_card k2 (fun k hk => (k1.cells k hk).imp_right (·.1))
  obtain ⟨hL0, z, z1, z2, z3⟩ := near_to (F := F) k1
  have hxz : x ≤ z := by
    have := hl.least v m' z z1
    rwa [hx, fin_le_fin] at this
  refine ⟨L, hs, hL0, ?_, ?_, ?_⟩
  · calc (1 - F.u) ^ (cellsIn w h) * L ≤ (1 - F.u) ^ (cellsIn w h) * L1 :=
        mul_le_mul_of_nonneg_left hLL (pow_nonneg (by linarith) _)
      _ ≤ (1 - F.u) ^ (v :: l').length * L1 :=
        mul_le_mul_of_nonneg_right (pow_le_pow_of_le_one (by linarith) (by linarith) hlen) h0
      _ ≤ x.1 := g2
  · have hxz' : x.1 ≤ z.1 := hxz
    calc x.1 ≤ z.1 := hxz'
      _ ≤ (1 + F.u) ^ (v :: m').length * L := z3
      _ ≤ (1 + F.u) ^ (cellsIn w h) * L :=
        mul_le_mul_of_nonneg_right (pow_le_pow_right₀ (by linarith) hlen2) hL0
  · refine (sw_le k1).trans ?_
    rw [mul_assoc]
    refine mul_le_mul_of_nonneg_left ?_ (Real.sqrt_nonneg 2)
    have : ((v :: m').length : ℝ) ≤ ((w - 2) * (h - 2) + 1 : ℕ) := by exact_mod_cast hlen2
    push_cast at this
    push_cast
    linarith

/-- **What the costs are.** -/
theorem round_costs {w h n : Nat} {occ : Cell → Bool} {goal : Cell} {c : Costs F.D} (hl : loopF F w h n occ goal = some c) :
    (∀ v, c v = inf ↔ occ v = true ∧ v ≠ goal) ∧
    (∀ v, c v = big ↔ occ v = false ∧ v ≠ goal ∧ NoWalk (FreeInterior w h occ) goal v) ∧
    (∀ v x, c v = fin x → ∃ L, ShortestWalk (FreeInterior w h occ) goal v L ∧
      (1 - F.u) ^ ((w - 2) * (h - 2) + 1) * L ≤ x.1 ∧ x.1 ≤ (1 + F.u) ^ ((w - 2) * (h - 2) + 1) * L) := by
  have hlst := round_least hl
  refine ⟨hlst.inv.occupied, fun v => ⟨fun e => ?_, fun ⟨h1, h2, h3⟩ => ?_⟩, fun v x hx => ?_⟩
  · have hvg : v ≠ goal := by
      rintro rfl
      rw [hlst.inv.goal_zero] at e; exact absurd e (fin_lt_big _).ne
    refine ⟨?_, hvg, fun L hw => ?_⟩
    · by_contra hne
      have := (hlst.inv.occupied v).2 ⟨by simpa using hne, hvg⟩
      rw [e] at this; exact absurd this big_lt_inf.ne
    · obtain ⟨l, hw⟩ := sw_of_walk hw
      obtain ⟨_, z, z1, _⟩ := near_to (F := F) hw
      have := hlst.least v l z z1
      rw [e] at this
      exact absurd this (not_le.2 (fin_lt_big _))
  · rcases val_cases (c v) with e | e | ⟨x, e⟩
    · have := ((hlst.inv.occupied v).1 e).1
      rw [h1] at this; cases this
    · exact e
    · obtain ⟨L, hs, _⟩ := least_near hlst e
      exact absurd hs.1 (h3 L)
  · obtain ⟨L, h1, _, h2, h3, _⟩ := least_near hlst hx
    exact ⟨L, h1, h2, h3⟩

/-! ### Back-tracking over rounded costs -/

/-- As long as `4 k u ≤ 1` adding a step still makes a cost larger. -/
theorem step_lt {w h : Nat} (hu4 : 4 * (cellsIn w h : ℝ) * F.u ≤ 1) {occ : Cell → Bool} {goal : Cell} {c : Costs F.D}
    (hl : Least (F.rd 1) (sqrt2F F) w h occ goal c) {v : Cell} {x : F.D} (hx : c v = fin x) (s t : Cell) :
    x < x + st (F.rd 1) (sqrt2F F) s t := by
  have hu := F.u_nonneg
  have hu1 := F.u_lt
  obtain ⟨L, _, hL0, _, h2, h3⟩ := least_near hl hx
  have hk1 : (1 : ℝ) ≤ cellsIn w h := by unfold cellsIn; push_cast; have : (0:ℝ) ≤ ((w-2:ℕ):ℝ) * ((h-2:ℕ):ℝ) := by positivity
                                         linarith
  have hb : (1 + F.u) ^ (cellsIn w h) * L ≤ (3 / 2) * L := by
    have := ratio_bound hu (a := 0) (b := cellsIn w h) (by push_cast; nlinarith) hL0
      (x := (1 + F.u) ^ (cellsIn w h) * L) (by simp)
    push_cast at this
    nlinarith
  have hs2 : Real.sqrt 2 ≤ 3 / 2 := by
    rw [Real.sqrt_le_left (by norm_num)]; norm_num
  have hN : ((w - 2 : ℕ) : ℝ) * ((h - 2 : ℕ) : ℝ) = cellsIn w h - 1 := by unfold cellsIn; push_cast; ring
  have hLb : L ≤ (3 / 2) * ((cellsIn w h : ℝ) - 1) := by
    rw [← hN]
    rw [mul_assoc] at h3
    exact h3.trans (mul_le_mul_of_nonneg_right hs2 (by positivity))
  have hxb : x.1 ≤ (9 / 4) * ((cellsIn w h : ℝ) - 1) := by linarith
  have hst : 1 - F.u ≤ (st (F.rd 1) (sqrt2F F) s t).1 := by
    have h1 := (st_near F s t).1
    have h2 := stepLen_ge_one s t
    rw [pow_one] at h1
    nlinarith
  have hx0 : 0 ≤ x.1 := by
    obtain ⟨l, hw⟩ := hl.inv.walk v x hx
    exact hw.zero_le (stepOk_round F)
  show x.1 < F.fl (x.1 + (st (F.rd 1) (sqrt2F F) s t).1)
  have h4 := (F.fl_bounds (x := x.1 + (st (F.rd 1) (sqrt2F F) s t).1) (by linarith)).1
  have h5 : (1 - F.u) * (x.1 + (1 - F.u)) ≤ (1 - F.u) * (x.1 + (st (F.rd 1) (sqrt2F F) s t).1) :=
    mul_le_mul_of_nonneg_left (by linarith) (by linarith)
  have h6 : F.u * x.1 ≤ F.u * ((9 / 4) * ((cellsIn w h : ℝ) - 1)) := mul_le_mul_of_nonneg_left hxb hu
  nlinarith

theorem st_one_le (F : Fmt) (u v : Cell) (a : F.D) : a + F.rd 1 ≤ a + st (F.rd 1) (sqrt2F F) u v := by
  show F.fl (a.1 + (F.rd 1).1) ≤ F.fl (a.1 + (st (F.rd 1) (sqrt2F F) u v).1)
  apply F.ok.mono
  unfold st
  split_ifs
  · exact le_refl _
  · have : (F.rd 1).1 ≤ (sqrt2F F).1 := F.ok.mono (by rw [Real.one_le_sqrt]; norm_num)
    linarith

theorem path_core {w h : Nat} (hu4 : 4 * (cellsIn w h : ℝ) * F.u ≤ 1) {occ : Cell → Bool} {goal : Cell}
    (hg : InArr w h goal) {c : Costs F.D} (hl : Least (F.rd 1) (sqrt2F F) w h occ goal c) {start : Cell} {x : F.D}
    (hx : c start = fin x) {n : Nat} {p : List Cell} (hp : backtrack w h nb8 c goal n start = some p) :
    p.head? = some start ∧ p.getLast? = some goal ∧ (∀ v ∈ p, v = goal ∨ (Interior w h v ∧ occ v = false)) ∧
      p.IsChain Touch ∧ p.Nodup ∧ (∀ v ∈ p, c v ≤ c start) ∧
      (1 - F.u) ^ p.length * ((p.length : ℝ) - 1) ≤ x.1 ∧ cellsLen p ≤ Real.sqrt 2 * ((p.length : ℝ) - 1) := by
  have hu := F.u_nonneg
  have hu1 := F.u_lt
  induction n generalizing start x p with
  | zero => simp [backtrack] at hp
  | succ n ih =>
    have hx0 : 0 ≤ x.1 := by
      obtain ⟨l, hw⟩ := hl.inv.walk start x hx
      exact hw.zero_le (stepOk_round F)
    unfold backtrack at hp
    split_ifs at hp with hsg
    · simp only [Option.some.injEq] at hp
      subst hp
      refine ⟨rfl, by simp [hsg], by simp [hsg], List.isChain_singleton _, by simp, by simp, ?_, ?_⟩
      · simpa using hx0
      · simp [cellsLen]
    · simp only [] at hp
      obtain ⟨hs1, hmin⟩ := bestNb_spec w h nb8 c start
      obtain ⟨o, ho, hin, y, hy, hyx⟩ := descend (stepOk_round F) hg hl hx hsg
      have hbest := hmin o ho hin
      rw [hy] at hbest
      have hlt : y < x := lt_of_lt_of_le (step_lt hu4 hl hy (start.1 + o.1, start.2 + o.2) start) hyx
      have hne : bestNb w h nb8 c start ≠ start := by
        intro e
        rw [e, hx, fin_le_fin] at hbest
        exact absurd hbest (not_le.2 hlt)
      rw [if_neg hne] at hp
      simp only [Option.map_eq_some_iff] at hp
      obtain ⟨q, hq, rfl⟩ := hp
      obtain ⟨z, hz⟩ : ∃ z, c (bestNb w h nb8 c start) = fin z := by
        rcases val_cases (c (bestNb w h nb8 c start)) with e | e | e
        · rw [e] at hbest; exact absurd hbest (not_le.2 ((fin_lt_big _).trans big_lt_inf))
        · rw [e] at hbest; exact absurd hbest (not_le.2 (fin_lt_big _))
        · exact e
      rw [hz, fin_le_fin] at hbest
      obtain ⟨a, b, d, e, nd, le, f, g⟩ := ih hz hq
      have htouch : Touch start (bestNb w h nb8 c start) := by
        rcases hs1 with e' | ⟨⟨o', ho', e'⟩, _⟩
        · exact absurd e' hne
        · rw [e']; exact nb8_touch ho' start
      have hzx : c (bestNb w h nb8 c start) < c start := by
        rw [hz, hx, fin_lt_fin]; exact lt_of_le_of_lt hbest hlt
      cases q with
      | nil => simp at a
      | cons k ks =>
        simp only [List.head?_cons, Option.some.injEq] at a
        subst a
        refine ⟨rfl, by simpa using b, ?_, List.isChain_cons_cons.2 ⟨htouch, e⟩, ?_, ?_, ?_, ?_⟩
        · intro v hv
          rcases List.mem_cons.1 hv with rfl | hv
          · right
            obtain ⟨l, hw⟩ := hl.inv.walk v x hx
            cases hw with
            | nil => exact absurd rfl hsg
            | snoc _ _ hu => exact hu
          · exact d v hv
        · refine List.nodup_cons.2 ⟨fun hm => ?_, nd⟩
          exact absurd (le start hm) (not_le.2 hzx)
        · intro v hv
          rcases List.mem_cons.1 hv with rfl | hv
          · exact le_refl _
          · exact (le v hv).trans hzx.le
        · -- one more step
          have h1 : z + F.rd 1 ≤ x := by
            refine ((stepOk_round F).mono _ (Or.inl rfl) _ _ hbest).trans ?_
            exact (st_one_le F _ _ y).trans hyx
          have h2 : F.fl (z.1 + (F.rd 1).1) ≤ x.1 := h1
          have hz0 : 0 ≤ z.1 := by
            obtain ⟨l, hw⟩ := hl.inv.walk _ z hz
            exact hw.zero_le (stepOk_round F)
          have h3 := (F.fl_bounds (x := z.1 + (F.rd 1).1) (by linarith [one_nonneg F])).1
          have h4 : 1 - F.u ≤ (F.rd 1).1 := by
            have := (F.fl_bounds (by norm_num : (0 : ℝ) ≤ 1)).1
            show 1 - F.u ≤ F.fl 1
            linarith
          set m := (bestNb w h nb8 c start :: ks).length with hm
          have hm1 : 1 ≤ m := by rw [hm]; simp
          have h5 : (1 - F.u) ^ m ≤ 1 - F.u := by
            calc (1 - F.u) ^ m ≤ (1 - F.u) ^ 1 := pow_le_pow_of_le_one (by linarith) (by linarith) hm1
              _ = _ := pow_one _
          have e1 : (start :: bestNb w h nb8 c start :: ks).length = m + 1 := by simp [hm]
          rw [e1]
          push_cast
          calc (1 - F.u) ^ (m + 1) * ((m : ℝ) + 1 - 1) = (1 - F.u) * ((1 - F.u) ^ m * ((m : ℝ) - 1) + (1 - F.u) ^ m) := by ring
            _ ≤ (1 - F.u) * (z.1 + (F.rd 1).1) := mul_le_mul_of_nonneg_left (by linarith) (by linarith)
            _ ≤ x.1 := h3.trans h2
        · simp only [cellsLen]
          have h5 := stepLen_le_sqrt2 start (bestNb w h nb8 c start)
          push_cast [List.length_cons] at g ⊢
          nlinarith

/-- **The path over rounded costs**: from every cell a walk leads to, back-tracking reaches the goal, over free interior
cells without repetition, and the path is at most `√2` times as long as a shortest walk, up to the rounding errors. -/
theorem round_path {w h n : Nat} (hu4 : 4 * (((w - 2) * (h - 2) + 1 : ℕ) : ℝ) * F.u ≤ 1) {occ : Cell → Bool} {goal : Cell}
    (hg : 0 ≤ goal.1 ∧ 0 ≤ goal.2 ∧ goal.1 < w ∧ goal.2 < h) {c : Costs F.D} (hl : loopF F w h n occ goal = some c)
    {start : Cell} {L : ℝ} (hw : Walk (FreeInterior w h occ) goal start L) :
    ∃ p, backtrack w h nb8 c goal (w * h + 1) start = some p ∧ p.head? = some start ∧ p.getLast? = some goal ∧
      (∀ v ∈ p, v = goal ∨ FreeInterior w h occ v) ∧ p.IsChain Touch ∧ p.Nodup ∧
      cellsLen p ≤ Real.sqrt 2 * ((1 + 4 * (((w - 2) * (h - 2) + 1 : ℕ) : ℝ) * F.u) * L) := by
  have hu := F.u_nonneg
  have hu1 := F.u_lt
  have hlst := round_least hl
  obtain ⟨p, hp⟩ := backtrack_terminates w h nb8 c goal start
  obtain ⟨x, hx⟩ : ∃ x, c start = fin x := by
    obtain ⟨l, hw⟩ := sw_of_walk hw
    obtain ⟨_, z, z1, _⟩ := near_to (F := F) hw
    have h1 := hlst.least start l z z1
    rcases val_cases (c start) with e | e | e
    · rw [e] at h1; exact absurd h1 (not_le.2 ((fin_lt_big _).trans big_lt_inf))
    · rw [e] at h1; exact absurd h1 (not_le.2 (fin_lt_big _))
    · exact e
  obtain ⟨h1, h2, h3, h4, h5, _, h7, h8⟩ := path_core hu4 hg hlst hx hp
  refine ⟨p, hp, h1, h2, h3, h4, h5, h8.trans (mul_le_mul_of_nonneg_left ?_ (Real.sqrt_nonneg 2))⟩
  obtain ⟨L', hs, hL0, _, g2, _⟩ := least_near hlst hx
  have hLL := hs.2 L hw
  have hlen : p.length ≤ cellsIn w h := interior_card h5 (fun k hk => (h3 k hk).imp_right (·.1))
  have hp1 : 1 ≤ p.length := by
    cases p with
    | nil => simp at h1
    | cons _ _ => simp
  have hp1' : (0 : ℝ) ≤ (p.length : ℝ) - 1 := by
    have : (1 : ℝ) ≤ p.length := by exact_mod_cast hp1
    linarith
  have h9 : (1 - F.u) ^ (cellsIn w h) * ((p.length : ℝ) - 1) ≤ (1 + F.u) ^ (cellsIn w h) * L' := by
    refine le_trans ?_ (h7.trans g2)
    exact mul_le_mul_of_nonneg_right (pow_le_pow_of_le_one (by linarith) (by linarith) hlen) hp1'
  have h10 := ratio_bound hu (a := cellsIn w h) (b := cellsIn w h) (by
    have : 4 * (cellsIn w h : ℝ) * F.u ≤ 1 := hu4
    nlinarith) hL0 h9
  have e : 1 + 2 * (((cellsIn w h : ℝ) + cellsIn w h) * F.u) = 1 + 4 * (((w - 2) * (h - 2) + 1 : ℕ) : ℝ) * F.u := by
    unfold cellsIn; ring
  rw [e] at h10
  exact h10.trans (mul_le_mul_of_nonneg_left hLL (by positivity))

end PathPlanning.DTR
