import Verif.Props.MapGen

/-!
# The maze generator (C55): rooms and passages
-/

namespace PathPlanning.MapGen
open Spec

variable {w h : Int} {v : List Bool} {p q : Room} {rnd : Nat → Nat}

/-- The entry of a room is set. -/
def IsV (h : Int) (v : List Bool) (p : Room) : Prop := v[(p.2 * h + p.1).toNat]? = some true

theorem idx_in (hp : InGrid w h p) : idx w h p = p.2 * h + p.1 ∧ 0 ≤ p.2 * h + p.1 ∧ p.2 * h + p.1 < w * h := by
  obtain ⟨⟨h1, h2⟩, h3, h4⟩ := hp
  refine ⟨?_, by nlinarith, ?_⟩
  · unfold idx; rw [if_neg (by omega)]
  · nlinarith [mul_le_mul_of_nonneg_right (show p.2 + 1 ≤ w by omega) (show (0 : Int) ≤ h by omega)]

theorem idx_inj (hp : InGrid w h p) (hq : InGrid w h q) (he : p.2 * h + p.1 = q.2 * h + q.1) : p = q := by
  obtain ⟨⟨h1, h2⟩, h3, h4⟩ := hp
  obtain ⟨⟨g1, g2⟩, g3, g4⟩ := hq
  have e2 : p.2 = q.2 := by
    have a : (p.2 * h + p.1) / h = p.2 := by
      rw [add_comm, Int.add_mul_ediv_right _ _ (by omega), Int.ediv_eq_zero_of_lt h1 h2]; omega
    have b : (q.2 * h + q.1) / h = q.2 := by
      rw [add_comm, Int.add_mul_ediv_right _ _ (by omega), Int.ediv_eq_zero_of_lt g1 g2]; omega
    rw [← a, ← b, he]
  refine Prod.ext ?_ e2
  rw [e2] at he; omega

theorem read_in (hl : v.length = (w * h).toNat) (hp : InGrid w h p) :
    ∃ b, readV v (idx w h p) = .ok b ∧ (b = true ↔ IsV h v p) := by
  obtain ⟨e, h0, h1⟩ := idx_in hp
  have hi : (p.2 * h + p.1).toNat < v.length := by rw [hl]; omega
  refine ⟨v[(p.2 * h + p.1).toNat], ?_, ?_⟩
  · unfold readV; rw [e, if_neg (by omega)]; exact vget_of_lt hi
  · unfold IsV; rw [List.getElem?_eq_getElem hi]; simp

theorem write_in (hl : v.length = (w * h).toNat) (hp : InGrid w h p) (hn : ¬ IsV h v p) :
    ∃ v', writeV v (idx w h p) true = .ok v' ∧ v'.length = (w * h).toNat ∧ v'.count true = v.count true + 1 ∧
      ∀ q, InGrid w h q → (IsV h v' q ↔ q = p ∨ IsV h v q) := by
  obtain ⟨e, h0, h1⟩ := idx_in hp
  have hi : (p.2 * h + p.1).toNat < v.length := by rw [hl]; omega
  have hf : v[(p.2 * h + p.1).toNat] = false := by
    unfold IsV at hn; rw [List.getElem?_eq_getElem hi] at hn; simpa using hn
  refine ⟨v.set (p.2 * h + p.1).toNat true, ?_, by simpa using hl, ?_, ?_⟩
  · unfold writeV vset; rw [e, if_neg (by omega), if_pos hi]
  · rw [List.count_set hi, hf]; simp
  · intro q hq
    obtain ⟨_, g0, g1⟩ := idx_in hq
    unfold IsV
    by_cases hpq : q = p
    · subst hpq; simp [hi]
    · have : (p.2 * h + p.1).toNat ≠ (q.2 * h + q.1).toNat := by
        intro hc
        exact hpq (idx_inj hq hp (by omega))
      rw [List.getElem?_set_ne this]
      simp [hpq]

theorem adj4_iff : Adj4 1 p q ↔ ∃ n < 4, q = step p n := by
  constructor
  · rintro (⟨h1, h2⟩ | ⟨h1, h2⟩)
    · rcases (abs_eq (by norm_num : (0 : Int) ≤ 1)).1 h1 with h1 | h1
      · exact ⟨2, by norm_num, Prod.ext (by simp [step, dir]; omega) (by simp [step, dir]; omega)⟩
      · exact ⟨0, by norm_num, Prod.ext (by simp [step, dir]; omega) (by simp [step, dir]; omega)⟩
    · rcases (abs_eq (by norm_num : (0 : Int) ≤ 1)).1 h2 with h2 | h2
      · exact ⟨3, by norm_num, Prod.ext (by simp [step, dir]; omega) (by simp [step, dir]; omega)⟩
      · exact ⟨1, by norm_num, Prod.ext (by simp [step, dir]; omega) (by simp [step, dir]; omega)⟩
  · rintro ⟨n, hn, rfl⟩
    have : n = 0 ∨ n = 1 ∨ n = 2 ∨ n = 3 := by omega
    rcases this with rfl | rfl | rfl | rfl <;> simp [Adj4, step, dir]

theorem step_out (hp : InGrid w h p) {n : Nat} (hn : n < 4) (ho : ¬ InGrid w h (step p n)) :
    idx w h (step p n) = -1 := by
  unfold idx
  rw [if_pos]
  have : n = 0 ∨ n = 1 ∨ n = 2 ∨ n = 3 := by omega
  simp only [InGrid] at hp ho
  rcases this with rfl | rfl | rfl | rfl <;> simp only [step, dir] at ho ⊢ <;> omega

theorem open_iff (hl : v.length = (w * h).toNat) (hp : InGrid w h p) {n : Nat} (hn : n < 4) :
    ∃ b, open? w h v p n = .ok b ∧ (b = true ↔ InGrid w h (step p n) ∧ ¬ IsV h v (step p n)) := by
  unfold open?
  simp only
  by_cases ho : InGrid w h (step p n)
  · obtain ⟨e, h0, _⟩ := idx_in ho
    obtain ⟨b, hb, hbv⟩ := read_in hl ho
    refine ⟨!b, by rw [if_neg (by omega), hb]; rfl, ?_⟩
    rw [← hbv]; simp [ho]
  · refine ⟨false, by rw [step_out hp hn ho]; rfl, by simp [ho]⟩

theorem has_iff (hl : v.length = (w * h).toNat) (hp : InGrid w h p) : ∀ (ns : List Nat), (∀ n ∈ ns, n < 4) →
    ∃ b, hasUnvisited w h v p ns = .ok b ∧
      (b = true ↔ ∃ n ∈ ns, InGrid w h (step p n) ∧ ¬ IsV h v (step p n)) := by
  intro ns
  induction ns with
  | nil => intro _; exact ⟨false, rfl, by simp⟩
  | cons n ns ih =>
    intro hns
    obtain ⟨b, hb, hbv⟩ := open_iff (v := v) hl hp (hns n (by simp))
    obtain ⟨c, hc, hcv⟩ := ih fun m hm => hns m (by simp [hm])
    cases b with
    | true => exact ⟨true, by simp [hasUnvisited, hb], by simp only [true_iff]; exact ⟨n, by simp, hbv.1 rfl⟩⟩
    | false =>
      refine ⟨c, by simp [hasUnvisited, hb, hc], ?_⟩
      rw [hcv]
      constructor
      · rintro ⟨m, hm, hx⟩; exact ⟨m, by simp [hm], hx⟩
      · rintro ⟨m, hm, hx⟩
        rcases List.mem_cons.1 hm with rfl | hm
        · exact absurd (hbv.2 hx) (by simp)
        · exact ⟨m, hm, hx⟩

/-- `hasUnvisitedNeighbor` means what it says. -/
theorem hasUnvisited_iff (hl : v.length = (w * h).toNat) (hp : InGrid w h p) :
    ∃ b, hasUnvisited w h v p [0, 1, 2, 3] = .ok b ∧ (b = true ↔ ∃ q, Adj4 1 p q ∧ InGrid w h q ∧ ¬ IsV h v q) := by
  obtain ⟨b, hb, hbv⟩ := has_iff (v := v) hl hp [0, 1, 2, 3] (by simp)
  refine ⟨b, hb, ?_⟩
  rw [hbv]
  constructor
  · rintro ⟨n, hn, hx⟩
    exact ⟨step p n, adj4_iff.2 ⟨n, by simp at hn; omega, rfl⟩, hx⟩
  · rintro ⟨q, hq, hx⟩
    obtain ⟨n, hn, rfl⟩ := adj4_iff.1 hq
    exact ⟨n, by simp; omega, hx⟩

/-- The random numbers take every value modulo 4 again and again. -/
def Fair (rnd : Nat → Nat) : Prop := ∀ pos n, n < 4 → ∃ k, rnd (pos + k) % 4 = n

theorem tryDir_spec (hl : v.length = (w * h).toNat) (hp : InGrid w h p) {n : Nat} (hn : n < 4) :
    (InGrid w h (step p n) ∧ ¬ IsV h v (step p n) → tryDir w h v p n = .ok (some (step p n))) ∧
    (¬ (InGrid w h (step p n) ∧ ¬ IsV h v (step p n)) → tryDir w h v p n = .ok none) := by
  obtain ⟨b, hb, hbv⟩ := open_iff (v := v) hl hp hn
  refine ⟨fun hx => ?_, fun hx => ?_⟩
  · have : b = true := hbv.2 hx
    subst this
    unfold tryDir
    simp only [hb, CRes.ok_bind, if_true]
    rw [if_neg]
    · rfl
    · have := hx.1; simp only [InGrid] at this; omega
  · have : b = false := by cases b with
      | true => exact absurd (hbv.1 rfl) hx
      | false => rfl
    subst this
    unfold tryDir
    simp [hb]

open Classical in
theorem firstExit_some {P : Nat → Prop} {k : Nat} (hk : firstExit P = some k) : P k ∧ ∀ j < k, ¬ P j := by
  unfold firstExit at hk
  split_ifs at hk with hx
  simp only [Option.some.injEq] at hk
  subst hk
  exact ⟨Nat.find_spec hx, fun j hj => Nat.find_min hx hj⟩

theorem firstExit_none {P : Nat → Prop} : firstExit P = none ↔ ∀ k, ¬ P k := by
  unfold firstExit
  split_ifs with hx
  · obtain ⟨k, hk⟩ := hx
    simp only [reduceCtorEq, false_iff, not_forall, not_not]
    exact ⟨k, hk⟩
  · simp only [true_iff]
    exact fun k hk => hx ⟨k, hk⟩

theorem pickNeighbor_spec (hl : v.length = (w * h).toNat) (hp : InGrid w h p) (pos : Nat)
    (hu : ∃ q, Adj4 1 p q ∧ InGrid w h q ∧ ¬ IsV h v q) :
    ∃ r, pickNeighbor rnd w h v p pos = .ok r ∧ (Fair rnd → r ≠ none) ∧
      ∀ q pos', r = some (q, pos') → Adj4 1 p q ∧ InGrid w h q ∧ ¬ IsV h v q := by
  obtain ⟨b, hb, hbv⟩ := hasUnvisited_iff (v := v) hl hp
  have : b = true := hbv.2 hu
  subst this
  unfold pickNeighbor
  simp only [hb, CRes.ok_bind, Bool.not_true, Bool.false_eq_true, if_false]
  cases hk : firstExit fun k => tryDir w h v p (rnd (pos + k) % 4) ≠ .ok none with
  | some k =>
    have hf := (firstExit_some hk).1
    obtain ⟨t1, t2⟩ := tryDir_spec (v := v) hl hp (n := rnd (pos + k) % 4) (Nat.mod_lt _ (by norm_num))
    by_cases hx : InGrid w h (step p (rnd (pos + k) % 4)) ∧ ¬ IsV h v (step p (rnd (pos + k) % 4))
    · refine ⟨some (step p (rnd (pos + k) % 4), pos + k + 1), by simp only [t1 hx, CRes.ok_bind]; rfl,
        fun _ => by simp, ?_⟩
      intro q pos' he
      simp only [Option.some.injEq, Prod.mk.injEq] at he
      obtain ⟨rfl, _⟩ := he
      exact ⟨adj4_iff.2 ⟨_, Nat.mod_lt _ (by norm_num), rfl⟩, hx⟩
    · exact absurd (t2 hx) hf
  | none =>
    refine ⟨none, rfl, ?_, by intro q pos' he; cases he⟩
    intro hfair
    exfalso
    obtain ⟨q, hq, hx⟩ := hu
    obtain ⟨n, hn, rfl⟩ := adj4_iff.1 hq
    obtain ⟨k, hk'⟩ := hfair pos n hn
    refine firstExit_none.1 hk k ?_
    rw [hk', (tryDir_spec (v := v) hl hp hn).1 hx]
    simp

/-! ### The depth-first search -/

/-- The state of the loop. -/
structure Dfs (w h : Int) (start : Room) (s : MSt) : Prop where
  len : s.visited.length = (w * h).toNat
  exp : s.expanded = s.visited.count true
  cur : InGrid w h s.cur ∧ IsV h s.visited s.cur
  stack : ∀ p ∈ s.stack, InGrid w h p ∧ IsV h s.visited p
  link : ∀ l ∈ s.links, (InGrid w h l.1 ∧ IsV h s.visited l.1) ∧ (InGrid w h l.2 ∧ IsV h s.visited l.2) ∧ Adj4 1 l.1 l.2
  nlinks : (s.links.length : Int) + 1 = s.expanded
  conn : ∀ p, InGrid w h p → IsV h s.visited p → Relation.ReflTransGen (Linked s.links) start p
  fresh : (s.links.map fun l => s(l.1, l.2)).Nodup
  front : ∀ p q, InGrid w h p → IsV h s.visited p → Adj4 1 p q → InGrid w h q → ¬ IsV h s.visited q →
    p = s.cur ∨ p ∈ s.stack

/-- The rooms form one piece. -/
theorem grid_connected {S : Room → Prop} {start : Room} (hs : InGrid w h start) (h0 : S start)
    (hS : ∀ p q, InGrid w h p → S p → Adj4 1 p q → InGrid w h q → S q) : ∀ p, InGrid w h p → S p := by
  have key : ∀ (n : Nat) (p : Room), InGrid w h p → (p.1 - start.1).natAbs + (p.2 - start.2).natAbs = n → S p := by
    intro n
    induction n with
    | zero =>
      intro p hp hn
      have : p = start := Prod.ext (by omega) (by omega)
      rw [this]; exact h0
    | succ n ih =>
      intro p hp hn
      have goStep : ∀ k < 4, InGrid w h (step p k) →
          ((step p k).1 - start.1).natAbs + ((step p k).2 - start.2).natAbs = n → S p := by
        intro k hk hin hd
        refine hS (step p k) p hin (ih _ hin hd) ?_ hp
        have : Adj4 1 p (step p k) := adj4_iff.2 ⟨k, hk, rfl⟩
        simp only [Adj4] at this ⊢
        rw [abs_sub_comm, abs_sub_comm p.2]
        rcases this with ⟨a, b⟩ | ⟨a, b⟩
        · exact .inl ⟨a, b.symm⟩
        · exact .inr ⟨a.symm, b⟩
      simp only [InGrid] at hp hs
      rcases lt_trichotomy p.1 start.1 with hx | hx | hx
      · exact goStep 2 (by norm_num) (by simp only [InGrid, step, dir]; omega) (by simp only [step, dir]; omega)
      · rcases lt_trichotomy p.2 start.2 with hy | hy | hy
        · exact goStep 3 (by norm_num) (by simp only [InGrid, step, dir]; omega) (by simp only [step, dir]; omega)
        · omega
        · exact goStep 1 (by norm_num) (by simp only [InGrid, step, dir]; omega) (by simp only [step, dir]; omega)
      · exact goStep 0 (by norm_num) (by simp only [InGrid, step, dir]; omega) (by simp only [step, dir]; omega)
  intro p hp
  exact key _ p hp rfl

theorem count_full (hl : v.length = (w * h).toNat) (hall : ∀ p, InGrid w h p → IsV h v p) (hh : 0 < h) (hw : 0 ≤ w) :
    (v.count true : Int) = w * h := by
  have : v.count true = v.length := by
    rw [List.count_eq_length]
    intro b hb
    obtain ⟨i, hi, rfl⟩ := List.getElem_of_mem hb
    have hN : (i : Int) < w * h := by
      have : (0 : Int) ≤ w * h := mul_nonneg hw hh.le
      omega
    have hx := Int.emod_nonneg (i : Int) hh.ne'
    have hx' := Int.emod_lt_of_pos (i : Int) hh
    have hd := Int.mul_ediv_add_emod (i : Int) h
    have := hall ((i : Int) % h, (i : Int) / h) ⟨⟨hx, hx'⟩, Int.ediv_nonneg (by omega) hh.le,
      Int.ediv_lt_of_lt_mul hh hN⟩
    unfold IsV at this
    have e : ((i : Int) / h * h + (i : Int) % h).toNat = i := by rw [mul_comm, hd]; simp
    simp only [e] at this
    rw [List.getElem?_eq_getElem hi] at this
    simpa using this.symm
  rw [this, hl]
  have : (0 : Int) ≤ w * h := mul_nonneg hw hh.le
  omega

theorem all_visited (hl : v.length = (w * h).toNat) (hc : (v.count true : Int) = w * h) (p : Room) (hp : InGrid w h p) :
    IsV h v p := by
  obtain ⟨_, h0, h1⟩ := idx_in hp
  have hi : (p.2 * h + p.1).toNat < v.length := by rw [hl]; omega
  have : v.count true = v.length := by rw [hl]; omega
  rw [List.count_eq_length] at this
  unfold IsV
  rw [List.getElem?_eq_getElem hi, ← this _ (List.getElem_mem hi)]

theorem linked_mono {links : List (Room × Room)} {x : Room × Room} {a b : Room}
    (hab : Relation.ReflTransGen (Linked links) a b) : Relation.ReflTransGen (Linked (x :: links)) a b := by
  refine Relation.ReflTransGen.mono (r := Linked links) ?_ _ _ hab
  rintro c d (hcd | hcd)
  · exact .inl (List.mem_cons_of_mem _ hcd)
  · exact .inr (List.mem_cons_of_mem _ hcd)

/-- Entering an unvisited neighbour. -/
theorem Dfs.enter {start : Room} {s : MSt} (d : Dfs w h start s) {next : Room} (ha : Adj4 1 s.cur next)
    (hn : InGrid w h next) (hv : ¬ IsV h s.visited next) (pos : Nat) :
    ∃ s', mark w h { s with stack := s.cur :: s.stack, links := (s.cur, next) :: s.links, cur := next, pos := pos } next
      = .ok s' ∧ Dfs w h start s' ∧ s'.expanded = s.expanded + 1 ∧ s'.stack.length = s.stack.length + 1 := by
  obtain ⟨v', e1, e2, e3, e4⟩ := write_in d.len hn hv
  refine ⟨{ visited := v', expanded := s.expanded + 1, stack := s.cur :: s.stack, links := (s.cur, next) :: s.links,
            cur := next, pos := pos }, ?_, ?_, rfl, rfl⟩
  · unfold mark; simp only [e1, CRes.ok_bind]; rfl
  have keep : ∀ p, InGrid w h p ∧ IsV h s.visited p → InGrid w h p ∧ IsV h v' p :=
    fun p hp => ⟨hp.1, (e4 p hp.1).2 (.inr hp.2)⟩
  refine ⟨e2, by simp only [d.exp, e3]; push_cast; ring, ⟨hn, (e4 next hn).2 (.inl rfl)⟩, ?_, ?_, ?_, ?_, ?_, ?_⟩
  · intro p hp
    rcases List.mem_cons.1 hp with rfl | hp
    · exact keep _ d.cur
    · exact keep _ (d.stack p hp)
  · intro l hl
    rcases List.mem_cons.1 hl with rfl | hl
    · exact ⟨keep _ d.cur, ⟨hn, (e4 next hn).2 (.inl rfl)⟩, ha⟩
    · obtain ⟨a1, a2, a3⟩ := d.link l hl
      exact ⟨keep _ a1, keep _ a2, a3⟩
  · have := d.nlinks
    simp only [List.length_cons]; push_cast; omega
  · intro p hp hpv
    rcases (e4 p hp).1 hpv with rfl | hpv
    · exact Relation.ReflTransGen.tail (linked_mono (d.conn _ d.cur.1 d.cur.2)) (.inl (by simp))
    · exact linked_mono (d.conn p hp hpv)
  · rw [List.map_cons, List.nodup_cons]
    refine ⟨?_, d.fresh⟩
    intro hc
    obtain ⟨l, hl, he⟩ := List.mem_map.1 hc
    obtain ⟨a1, a2, _⟩ := d.link l hl
    rcases Sym2.eq_iff.1 he with ⟨_, h2⟩ | ⟨h1, _⟩
    · exact hv (by have := a2.2; rw [h2] at this; exact this)
    · exact hv (by have := a1.2; rw [h1] at this; exact this)
  · intro p q hp hpv haq hq hqv
    have hqv' : ¬ IsV h s.visited q := fun hc => hqv ((e4 q hq).2 (.inr hc))
    rcases (e4 p hp).1 hpv with rfl | hpv
    · exact .inl rfl
    · rcases d.front p q hp hpv haq hq hqv' with rfl | hm
      · exact .inr (by simp)
      · exact .inr (by simp [hm])

theorem Dfs.le {start : Room} {s : MSt} (d : Dfs w h start s) (hN : 0 ≤ w * h) : s.expanded ≤ w * h := by
  have := List.count_le_length (a := true) (l := s.visited)
  rw [d.exp]; rw [d.len] at this; omega

theorem runLoop_spec {start : Room} (hstart : InGrid w h start) : ∀ (fuel : Nat) (s : MSt), Dfs w h start s →
    IsV h s.visited start →
    ∃ r, runLoop rnd w h fuel s = .ok r ∧ (∀ s', r = some s' → Dfs w h start s' ∧ s'.expanded = w * h) ∧
      (Fair rnd → 2 * (w * h - s.expanded) + s.stack.length < fuel → r ≠ none) := by
  have hN : 0 ≤ w * h := by
    obtain ⟨⟨a, b⟩, c, d⟩ := hstart
    exact mul_nonneg (by omega) (by omega)
  have hh : 0 < h := by obtain ⟨⟨a, b⟩, c, d⟩ := hstart; omega
  have hw : 0 ≤ w := by obtain ⟨⟨a, b⟩, c, d⟩ := hstart; omega
  intro fuel
  induction fuel with
  | zero =>
    intro s d _
    exact ⟨none, rfl, (by intro s' hs; cases hs), fun _ hlt => by have := d.le hN; push_cast at hlt; omega⟩
  | succ n ih =>
    intro s d hsv
    have hle := d.le hN
    unfold runLoop
    by_cases hlt : s.expanded < w * h
    · rw [if_pos hlt]
      obtain ⟨a, ha, hav⟩ := hasUnvisited_iff (v := s.visited) d.len d.cur.1
      simp only [ha, CRes.ok_bind]
      cases a with
      | true =>
        simp only [if_true]
        obtain ⟨r, hr, hfair, hq⟩ := pickNeighbor_spec (rnd := rnd) (v := s.visited) d.len d.cur.1 s.pos (hav.1 rfl)
        simp only [hr, CRes.ok_bind]
        cases r with
        | none => exact ⟨none, rfl, (by intro s' hs; cases hs), fun hf _ => absurd rfl (hfair hf)⟩
        | some qp =>
          obtain ⟨next, pos⟩ := qp
          obtain ⟨q1, q2, q3⟩ := hq next pos rfl
          obtain ⟨b, hb, hbv⟩ := read_in (v := s.visited) d.len q2
          have : b = false := by cases b with
            | true => exact absurd (hbv.1 rfl) q3
            | false => rfl
          subst this
          obtain ⟨s', m1, m2, m3, m4⟩ := d.enter q1 q2 q3 pos
          simp only [hb, CRes.ok_bind, Bool.false_eq_true, if_false, m1]
          obtain ⟨r, i1, i2, i3⟩ := ih s' m2 (by
            by_contra hc
            exact hc (by
              have hx := m2
              unfold mark at m1
              obtain ⟨v', e1, e2, e3, e4⟩ := write_in d.len q2 q3
              simp only [e1, CRes.ok_bind, CRes.pure_eq, CRes.ok.injEq] at m1
              rw [← m1]
              exact (e4 start hstart).2 (.inr hsv)))
          refine ⟨r, i1, i2, fun hf hlt' => i3 hf ?_⟩
          rw [m3, m4]; push_cast at hlt' ⊢; omega
      | false =>
        simp only [Bool.false_eq_true, if_false]
        have hno : ¬ ∃ q, Adj4 1 s.cur q ∧ InGrid w h q ∧ ¬ IsV h s.visited q := fun hc => by
          have := hav.2 hc; cases this
        cases hst : s.stack with
        | cons p ps =>
          simp only
          have d' : Dfs w h start { s with stack := ps, cur := p } := by
            refine ⟨d.len, d.exp, d.stack p (by rw [hst]; simp), fun x hx => d.stack x (by rw [hst]; simp [hx]), d.link,
              d.nlinks, d.conn, d.fresh, ?_⟩
            intro x y hx hxv hxy hy hyv
            rcases d.front x y hx hxv hxy hy hyv with rfl | hm
            · exact absurd ⟨y, hxy, hy, hyv⟩ hno
            · rw [hst] at hm
              rcases List.mem_cons.1 hm with rfl | hm
              · exact .inl rfl
              · exact .inr hm
          obtain ⟨r, i1, i2, i3⟩ := ih _ d' hsv
          refine ⟨r, i1, i2, fun hf hlt' => i3 hf ?_⟩
          simp only [List.length_cons] at hlt' ⊢; push_cast at hlt' ⊢; omega
        | nil =>
          exfalso
          have hall : ∀ p, InGrid w h p → IsV h s.visited p := by
            refine grid_connected hstart hsv ?_
            intro p q hp hpv hpq hq
            by_contra hqv
            rcases d.front p q hp hpv hpq hq hqv with rfl | hm
            · exact hno ⟨q, hpq, hq, hqv⟩
            · rw [hst] at hm; cases hm
          have := count_full d.len hall hh hw
          rw [← d.exp] at this
          omega
    · rw [if_neg hlt, if_pos (by omega)]
      exact ⟨some s, rfl, by intro s' hs; cases hs; exact ⟨d, by omega⟩, fun _ _ => by simp⟩

end PathPlanning.MapGen
