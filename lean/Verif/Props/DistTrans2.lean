import Verif.Props.DistTrans
import Mathlib.Data.Finset.Prod
import Mathlib.Data.Finset.Card

/-!
# C53 (back-tracking) and C54 (the obstacle heuristic)
-/

noncomputable section

namespace PathPlanning.DT

open Spec

/-- Cell of the `w × h` array. -/
def InArr (w h : Nat) (v : Cell) : Prop := 0 ≤ v.1 ∧ 0 ≤ v.2 ∧ v.1 < w ∧ v.2 < h

/-- `bestNb` yields the cell itself or a neighbour in the map with a smaller cost; no neighbour in the map has a smaller
cost than it. -/
theorem bestNb_spec (w h : Nat) (nbs : List Cell) (c : Costs) (cur : Cell) :
    (bestNb w h nbs c cur = cur ∨ (∃ o ∈ nbs, bestNb w h nbs c cur = (cur.1 + o.1, cur.2 + o.2)) ∧
      InArr w h (bestNb w h nbs c cur) ∧ c (bestNb w h nbs c cur) < c cur) ∧
    ∀ o ∈ nbs, InArr w h (cur.1 + o.1, cur.2 + o.2) → c (bestNb w h nbs c cur) ≤ c (cur.1 + o.1, cur.2 + o.2) := by
  unfold bestNb
  have key : ∀ (l : List Cell) (b : Cell), (∀ o ∈ l, o ∈ nbs) →
      (b = cur ∨ (∃ o ∈ nbs, b = (cur.1 + o.1, cur.2 + o.2)) ∧ InArr w h b ∧ c b < c cur) →
      let r := l.foldl (fun best o =>
        let xx := cur.1 + o.1
        let yy := cur.2 + o.2
        if 0 ≤ xx ∧ 0 ≤ yy ∧ xx < w ∧ yy < h then
          if c (xx, yy) < c best then (xx, yy) else best
        else best) b
      (r = cur ∨ (∃ o ∈ nbs, r = (cur.1 + o.1, cur.2 + o.2)) ∧ InArr w h r ∧ c r < c cur) ∧ c r ≤ c b ∧
      ∀ o ∈ l, InArr w h (cur.1 + o.1, cur.2 + o.2) → c r ≤ c (cur.1 + o.1, cur.2 + o.2) := by
    intro l
    induction l with
    | nil => intro b _ hb; exact ⟨hb, le_refl _, by simp⟩
    | cons o l ih =>
      intro b hl hb
      simp only [List.foldl_cons]
      by_cases h1 : 0 ≤ cur.1 + o.1 ∧ 0 ≤ cur.2 + o.2 ∧ cur.1 + o.1 < w ∧ cur.2 + o.2 < h
      · rw [if_pos h1]
        by_cases h2 : c (cur.1 + o.1, cur.2 + o.2) < c b
        · rw [if_pos h2]
          have hbc : c b ≤ c cur := by
            rcases hb with e | e
            · rw [e]
            · exact e.2.2.le
          obtain ⟨a, b', d⟩ := ih (cur.1 + o.1, cur.2 + o.2) (fun k hk => hl k (by simp [hk]))
            (Or.inr ⟨⟨o, hl o (by simp), rfl⟩, h1, lt_of_lt_of_le h2 hbc⟩)
          refine ⟨a, b'.trans h2.le, ?_⟩
          intro k hk hin
          rcases List.mem_cons.1 hk with rfl | hk
          · exact b'
          · exact d k hk hin
        · rw [if_neg h2]
          obtain ⟨a, b', d⟩ := ih b (fun k hk => hl k (by simp [hk])) hb
          refine ⟨a, b', ?_⟩
          intro k hk hin
          rcases List.mem_cons.1 hk with rfl | hk
          · exact b'.trans (not_lt.1 h2)
          · exact d k hk hin
      · rw [if_neg h1]
        obtain ⟨a, b', d⟩ := ih b (fun k hk => hl k (by simp [hk])) hb
        refine ⟨a, b', ?_⟩
        intro k hk hin
        rcases List.mem_cons.1 hk with rfl | hk
        · exact absurd hin h1
        · exact d k hk hin
  obtain ⟨a, _, d⟩ := key nbs cur (fun _ h => h) (Or.inl rfl)
  exact ⟨a, d⟩

/-- The cells of the array. -/
def arr (w h : Nat) : Finset Cell :=
  (Finset.range w ×ˢ Finset.range h).image fun p => ((p.1 : Int), (p.2 : Int))

theorem mem_arr {w h : Nat} {v : Cell} : v ∈ arr w h ↔ InArr w h v := by
  unfold arr InArr
  simp only [Finset.mem_image, Finset.mem_product, Finset.mem_range, Prod.exists]
  constructor
  · rintro ⟨a, b, ⟨ha, hb⟩, rfl⟩
    simp only []; omega
  · rintro ⟨h1, h2, h3, h4⟩
    refine ⟨v.1.toNat, v.2.toNat, ⟨by omega, by omega⟩, ?_⟩
    ext <;> simp only [] <;> omega

theorem arr_card (w h : Nat) : (arr w h).card ≤ w * h := by
  unfold arr
  refine Finset.card_image_le.trans ?_
  simp

open Classical in
/-- **Back-tracking terminates** for all costs, after at most `w * h` steps. -/
theorem backtrack_terminates (w h : Nat) (nbs : List Cell) (c : Costs) (goal start : Cell) :
    ∃ p, backtrack w h nbs c goal (w * h + 1) start = some p := by
  have key : ∀ n cur, ((arr w h).filter (fun v => c v < c cur)).card < n →
      ∃ p, backtrack w h nbs c goal n cur = some p := by
    intro n
    induction n with
    | zero => intro cur h; omega
    | succ n ih =>
      intro cur hn
      unfold backtrack
      split_ifs with h1
      · exact ⟨_, rfl⟩
      · simp only []
        split_ifs with h2
        · exact ⟨_, rfl⟩
        · rcases (bestNb_spec w h nbs c cur).1 with e | ⟨_, hin, hlt⟩
          · exact absurd e h2
          · obtain ⟨p, hp⟩ := ih (bestNb w h nbs c cur) (by
              refine lt_of_lt_of_le (Finset.card_lt_card ?_) (Nat.lt_succ_iff.1 hn)
              rw [Finset.ssubset_iff_of_subset]
              · exact ⟨bestNb w h nbs c cur, by simp [mem_arr.2 hin, hlt], by simp⟩
              · intro v hv
                simp only [Finset.mem_filter] at hv ⊢
                exact ⟨hv.1, hv.2.trans hlt⟩)
            exact ⟨cur :: p, by simp [hp]⟩
  apply key
  have := (Finset.card_filter_le (arr w h) (fun v => c v < c start)).trans (arr_card w h)
  omega

/-- **Shape of the path**: it begins at the start; each step goes to a neighbour in the map with strictly smaller cost;
it ends at the goal or at a cell none of whose neighbours in the map has a smaller cost. -/
theorem backtrack_spec {w h : Nat} {nbs : List Cell} {c : Costs} {goal : Cell} {n : Nat} {start : Cell} {p : List Cell}
    (hp : backtrack w h nbs c goal n start = some p) :
    p.head? = some start ∧
    p.IsChain (fun u v => (∃ o ∈ nbs, v = (u.1 + o.1, u.2 + o.2)) ∧ InArr w h v ∧ c v < c u ∧
      ∀ o ∈ nbs, InArr w h (u.1 + o.1, u.2 + o.2) → c v ≤ c (u.1 + o.1, u.2 + o.2)) ∧
    (∀ z, p.getLast? = some z → z = goal ∨ ∀ o ∈ nbs, InArr w h (z.1 + o.1, z.2 + o.2) →
      c z ≤ c (z.1 + o.1, z.2 + o.2)) := by
  induction n generalizing start p with
  | zero => simp [backtrack] at hp
  | succ n ih =>
    unfold backtrack at hp
    split_ifs at hp with h1
    · simp only [Option.some.injEq] at hp
      subst hp
      exact ⟨rfl, List.isChain_singleton _, fun z hz => Or.inl (by simp at hz; rw [← hz, h1])⟩
    · simp only [] at hp
      obtain ⟨hs1, hs2⟩ := bestNb_spec w h nbs c start
      split_ifs at hp with h2
      · simp only [Option.some.injEq] at hp
        subst hp
        refine ⟨rfl, List.isChain_singleton _, fun z hz => Or.inr ?_⟩
        simp at hz
        subst hz
        rw [h2] at hs2
        exact hs2
      · simp only [Option.map_eq_some_iff] at hp
        obtain ⟨q, hq, rfl⟩ := hp
        obtain ⟨a, b, d⟩ := ih hq
        cases q with
        | nil => simp at a
        | cons k ks =>
          simp only [List.head?_cons, Option.some.injEq] at a
          subst a
          refine ⟨rfl, List.isChain_cons_cons.2 ⟨?_, b⟩, ?_⟩
          · rcases hs1 with e | ⟨e1, e2, e3⟩
            · exact absurd e h2
            · exact ⟨e1, e2, e3, hs2⟩
          · intro z hz
            apply d z
            simpa using hz

/-- Length of a path over touching cells. -/
def pathLen : List Cell → ℝ
  | u :: v :: l => stepLen u v + pathLen (v :: l)
  | _ => 0

theorem nb8_touch {o : Cell} (ho : o ∈ nb8) (u : Cell) : Touch u (u.1 + o.1, u.2 + o.2) := by
  unfold nb8 at ho
  simp only [List.mem_cons, List.not_mem_nil, or_false] at ho
  rcases ho with rfl | rfl | rfl | rfl | rfl | rfl | rfl | rfl
  all_goals
    refine ⟨?_, ?_, ?_⟩
    · intro e
      have e1 := congrArg Prod.fst e
      have e2 := congrArg Prod.snd e
      simp at e1 e2
    · simp
    · simp

theorem touch_nb8 {u v : Cell} (h : Touch u v) : ∃ o ∈ nb8, v = (u.1 + o.1, u.2 + o.2) := by
  obtain ⟨hne, h1, h2⟩ := h
  obtain ⟨u1, u2⟩ := u
  obtain ⟨v1, v2⟩ := v
  simp only [abs_le] at h1 h2
  have hne' : ¬ (u1 = v1 ∧ u2 = v2) := fun e => hne (by rw [e.1, e.2])
  refine ⟨(v1 - u1, v2 - u2), ?_, by ext <;> simp⟩
  have hx : v1 - u1 = -1 ∨ v1 - u1 = 0 ∨ v1 - u1 = 1 := by omega
  have hy : v2 - u2 = -1 ∨ v2 - u2 = 0 ∨ v2 - u2 = 1 := by omega
  unfold nb8
  rcases hx with hx | hx | hx <;> rcases hy with hy | hy | hy <;> rw [hx, hy] <;> first | (simp; done) | skip
  exact absurd ⟨by omega, by omega⟩ hne'

/-- Every cell with a finite cost `x`, other than the goal, has a neighbour in the map with cost at most `x - 1`. -/
theorem dt_descend {w h : Nat} {occ : Cell → Bool} {goal : Cell} (hg : InArr w h goal) {fuel : Nat} {c : Costs}
    (hl : loop w h fuel (init occ goal) = some c) {v : Cell} {x : ℝ} (hx : c v = fin x) (hv : v ≠ goal) :
    ∃ o ∈ nb8, InArr w h (v.1 + o.1, v.2 + o.2) ∧ ∃ y, c (v.1 + o.1, v.2 + o.2) = fin y ∧
      y + stepLen (v.1 + o.1, v.2 + o.2) v ≤ x := by
  obtain ⟨_, h2, h3⟩ := dt_exact hl
  have hw := h2 v x hx
  cases hw with
  | nil => exact absurd rfl hv
  | @snoc u _ L hw ht hv =>
    obtain ⟨y, hy, hyL⟩ := h3 u L hw
    have ht' : Touch v u := ⟨ht.1.symm, by rw [abs_sub_comm]; exact ht.2.1, by rw [abs_sub_comm]; exact ht.2.2⟩
    obtain ⟨o, ho, e⟩ := touch_nb8 ht'
    refine ⟨o, ho, ?_, y, ?_, ?_⟩
    · rw [← e]
      cases hw with
      | nil => exact hg
      | snoc _ _ hu =>
        obtain ⟨a, b, d, f⟩ := hu.1
        exact ⟨by omega, by omega, by omega, by omega⟩
    · rw [← e]; exact hy
    · rw [← e]; linarith

/-- **The path of the 8-neighbourhood search**: if the start has finite cost `x`, the path ends at the goal, all its cells
except possibly the goal are free interior cells, and it is at most `√2 x` long (`x` is the length of a shortest
walk). -/
theorem dt_path {w h : Nat} {occ : Cell → Bool} {goal : Cell} (hg : InArr w h goal) {fuel : Nat} {c : Costs}
    (hl : loop w h fuel (init occ goal) = some c) {start : Cell} {x : ℝ} (hx : c start = fin x) {n : Nat}
    {p : List Cell} (hp : backtrack w h nb8 c goal n start = some p) :
    p.head? = some start ∧ p.getLast? = some goal ∧ (∀ v ∈ p, v = goal ∨ (Interior w h v ∧ occ v = false)) ∧
      p.IsChain Touch ∧ pathLen p ≤ Real.sqrt 2 * x := by
  obtain ⟨h1, h2, h3⟩ := dt_exact hl
  induction n generalizing start x p with
  | zero => simp [backtrack] at hp
  | succ n ih =>
    have hx0 : 0 ≤ x := (h2 start x hx).nonneg
    have hs2 : (0 : ℝ) ≤ Real.sqrt 2 := Real.sqrt_nonneg 2
    unfold backtrack at hp
    split_ifs at hp with hsg
    · simp only [Option.some.injEq] at hp
      subst hp
      refine ⟨rfl, by simp [hsg], by simp [hsg], List.isChain_singleton _, ?_⟩
      simp only [pathLen]; positivity
    · simp only [] at hp
      obtain ⟨hs1, hmin⟩ := bestNb_spec w h nb8 c start
      obtain ⟨o, ho, hin, y, hy, hyx⟩ := dt_descend hg hl hx hsg
      have hbest := hmin o ho hin
      rw [hy] at hbest
      have hone := stepLen_ge_one (start.1 + o.1, start.2 + o.2) start
      have hne : bestNb w h nb8 c start ≠ start := by
        intro e
        rw [e, hx, fin_le_fin] at hbest
        linarith
      rw [if_neg hne] at hp
      simp only [Option.map_eq_some_iff] at hp
      obtain ⟨q, hq, rfl⟩ := hp
      obtain ⟨z, hz⟩ : ∃ z, c (bestNb w h nb8 c start) = fin z := by
        rcases val_cases (c (bestNb w h nb8 c start)) with e | e | e
        · rw [e] at hbest; exact absurd hbest (not_le.2 ((fin_lt_big _).trans big_lt_inf))
        · rw [e] at hbest; exact absurd hbest (not_le.2 (fin_lt_big _))
        · exact e
      rw [hz, fin_le_fin] at hbest
      obtain ⟨a, b, d, e, f⟩ := ih hz hq
      have htouch : Touch start (bestNb w h nb8 c start) := by
        rcases hs1 with e' | ⟨⟨o', ho', e'⟩, _⟩
        · exact absurd e' hne
        · rw [e']; exact nb8_touch ho' start
      cases q with
      | nil => simp at a
      | cons k ks =>
        simp only [List.head?_cons, Option.some.injEq] at a
        subst a
        refine ⟨rfl, by simpa using b, ?_, List.isChain_cons_cons.2 ⟨htouch, e⟩, ?_⟩
        · intro v hv
          rcases List.mem_cons.1 hv with rfl | hv
          · right
            have hw := h2 v x hx
            cases hw with
            | nil => exact absurd rfl hsg
            | snoc _ _ hu => exact hu
          · exact d v hv
        · simp only [pathLen]
          have h5 := stepLen_le_sqrt2 start (bestNb w h nb8 c start)
          have h6 : Real.sqrt 2 * (z + 1) ≤ Real.sqrt 2 * x := mul_le_mul_of_nonneg_left (by linarith) hs2
          linarith

/-- The whole algorithm succeeds whenever a walk through free interior cells connects start and goal. -/
theorem dt_complete (w h : Nat) (occ : Cell → Bool) (goal start : Cell) (hg : InArr w h goal) (L : ℝ)
    (hw : Walk (fun v => Interior w h v ∧ occ v = false) goal start L) :
    ∃ fuel c p, loop w h fuel (init occ goal) = some c ∧ backtrack w h nb8 c goal (w * h + 1) start = some p ∧
      p.head? = some start ∧ p.getLast? = some goal ∧ pathLen p ≤ Real.sqrt 2 * L := by
  obtain ⟨fuel, c, hl⟩ := loop_terminates w h occ goal
  obtain ⟨p, hp⟩ := backtrack_terminates w h nb8 c goal start
  obtain ⟨x, hx, hxL⟩ := (dt_exact hl).2.2 start L hw
  obtain ⟨a, b, _, _, f⟩ := dt_path hg hl hx hp
  exact ⟨fuel, c, p, hl, hp, a, b, f.trans (mul_le_mul_of_nonneg_left hxL (Real.sqrt_nonneg 2))⟩

/-- Finding: an unreachable start is not reported: the "path" consists of the start alone. -/
theorem dt_unreachable_path {w h : Nat} {occ : Cell → Bool} {goal : Cell} {fuel : Nat} {c : Costs}
    (hl : loop w h fuel (init occ goal) = some c) {start : Cell} (hs : start ≠ goal) (hso : occ start = false)
    (hu : ∀ L, ¬ Walk (fun v => Interior w h v ∧ occ v = false) goal start L)
    (hn : ∀ v L, Touch start v → ¬ Walk (fun v => Interior w h v ∧ occ v = false) goal v L) (n : Nat) :
    backtrack w h nb8 c goal (n + 1) start = some [start] := by
  obtain ⟨h1, h2, h3⟩ := dt_exact hl
  have hb : c start = big := (dt_unreached_iff hl start).2 ⟨hso, hs, hu⟩
  have : bestNb w h nb8 c start = start := by
    by_contra hne
    rcases (bestNb_spec w h nb8 c start).1 with e | ⟨⟨o, ho, e⟩, _, hlt⟩
    · exact hne e
    · rw [e, hb] at hlt
      rcases val_cases (c (start.1 + o.1, start.2 + o.2)) with e1 | e1 | ⟨y, e1⟩
      · rw [e1] at hlt; exact absurd hlt (not_lt.2 big_lt_inf.le)
      · rw [e1] at hlt; exact absurd hlt (lt_irrefl _)
      · exact hn _ y (nb8_touch ho start) (h2 _ y e1)
  unfold backtrack
  rw [if_neg hs]
  simp [this]

/-- A 4 × 4 map with two occupied cells between `(1,1)` and `(2,2)`. -/
def exOcc4 (v : Cell) : Bool := decide (v = (1, 2) ∨ v = (2, 1))

/-- Finding: with the 4-neighbourhood the back-tracking may stop although the cost of the start is finite, because the
costs are computed for 8 neighbours: here the only step is a diagonal one. -/
theorem dt_four_neighbours_stuck : ∃ fuel c, loop 4 4 fuel (init exOcc4 (1, 1)) = some c ∧
    c (2, 2) = fin (Real.sqrt 2) ∧ ∀ n, backtrack 4 4 nb4 c (1, 1) (n + 1) (2, 2) = some [(2, 2)] := by
  obtain ⟨fuel, c, hl⟩ := loop_terminates 4 4 exOcc4 (1, 1)
  obtain ⟨h1, h2, h3⟩ := dt_exact hl
  have hlen : stepLen ((1, 1) : Cell) (2, 2) = Real.sqrt 2 := by simp [stepLen]
  have hw : Walk (Usable 4 4 exOcc4) (1, 1) (2, 2) (Real.sqrt 2) := by
    have := Walk.snoc (ok := Usable 4 4 exOcc4) (goal := (1, 1)) (v := (2, 2)) Walk.nil (by unfold Touch; decide)
      ⟨by unfold Interior; decide, by decide⟩
    rwa [hlen, zero_add] at this
  -- every walk to `(2,2)` has at least this length
  have hmin : ∀ v L, Walk (Usable 4 4 exOcc4) (1, 1) v L → v = (2, 2) → Real.sqrt 2 ≤ L := by
    intro v L hw
    induction hw with
    | nil => intro e; exact absurd e (by decide)
    | @snoc u v L hw ht hv ih =>
      intro e
      subst e
      have hu : u = (1, 1) ∨ Usable 4 4 exOcc4 u := by
        cases hw with
        | nil => exact Or.inl rfl
        | snoc _ _ hu => exact Or.inr hu
      have hL := hw.nonneg
      rcases hu with rfl | hu
      · rw [hlen]; linarith
      · obtain ⟨⟨a, b, d, e⟩, f⟩ := hu
        obtain ⟨g1, g2, g3⟩ := ht
        obtain ⟨u1, u2⟩ := u
        simp only [] at a b d e
        have hx : u1 = 1 ∨ u1 = 2 := by omega
        have hy : u2 = 1 ∨ u2 = 2 := by omega
        rcases hx with rfl | rfl <;> rcases hy with rfl | rfl
        · rw [hlen]; linarith
        · exact absurd f (by decide)
        · exact absurd f (by decide)
        · exact absurd rfl g1
  obtain ⟨x, hx, hxL⟩ := h3 _ _ hw
  have hxe : x = Real.sqrt 2 := le_antisymm hxL (hmin _ _ (h2 _ _ hx) rfl)
  rw [hxe] at hx
  refine ⟨fuel, c, hl, hx, ?_⟩
  have hno : ∀ v, v = (1, 2) ∨ v = (2, 1) ∨ v = (3, 2) ∨ v = (2, 3) → ¬ c v < c (2, 2) := by
    intro v hv hlt
    rw [hx] at hlt
    rcases val_cases (c v) with e | e | ⟨y, e⟩
    · rw [e] at hlt; exact absurd hlt (not_lt.2 ((fin_lt_big _).trans big_lt_inf).le)
    · rw [e] at hlt; exact absurd hlt (not_lt.2 (fin_lt_big _).le)
    · have hw := h2 v y e
      cases hw with
      | nil => rcases hv with e | e | e | e <;> exact absurd e (by decide)
      | snoc _ _ hu =>
        obtain ⟨⟨a, b, d, e⟩, f⟩ := hu
        rcases hv with rfl | rfl | rfl | rfl
        · exact absurd f (by decide)
        · exact absurd f (by decide)
        · exact absurd b (by decide)
        · exact absurd e (by decide)
  have hbest : bestNb 4 4 nb4 c (2, 2) = (2, 2) := by
    by_contra hne
    rcases (bestNb_spec 4 4 nb4 c (2, 2)).1 with e | ⟨⟨o, ho, e⟩, _, hlt⟩
    · exact hne e
    · refine hno _ ?_ hlt
      rw [e]
      unfold nb4 at ho
      simp only [List.mem_cons, List.not_mem_nil, or_false] at ho
      rcases ho with rfl | rfl | rfl | rfl <;> decide
  intro n
  unfold backtrack
  rw [if_neg (by decide)]
  simp [hbest]

/-! ### C54: `HeuristicHolonomicObstacles` -/

/-- The heuristic value of a cell with finite cost. -/
theorem holoCompute_fin (padding : Nat) (c : Costs) (res : ℝ) (v : Cell) :
    (∀ x, c (v.1 + padding, v.2 + padding) = fin x → holoCompute padding (some c) res v = some (x * res)) ∧
    (c (v.1 + padding, v.2 + padding) = big → holoCompute padding (some c) res v = some 0) ∧
    (c (v.1 + padding, v.2 + padding) = inf → holoCompute padding (some c) res v = none) := by
  refine ⟨fun x hx => ?_, fun hx => ?_, fun hx => ?_⟩ <;> simp only [holoCompute, hx]
  · rfl
  · rfl
  · rfl

/-- Before `setMap` (which no search of the library calls) the heuristic is 0. -/
theorem holo_unset (padding : Nat) (res : ℝ) (v : Cell) : holoCompute padding none res v = some 0 := rfl

/-- **Lower bound for interior walks** (map without padding): the heuristic of a cell is finite and at most the length of
every walk from the goal through free cells which are not on the border of the map. -/
theorem holo_le_interior_walk_partial {W H : Nat} {occ : Cell → Bool} {goal : Cell} {fuel : Nat} {c : Costs}
    (hs : holoSetMap W H 0 occ goal fuel = some c) {res : ℝ} (hr : 0 ≤ res) {v : Cell} {L : ℝ}
    (hw : Walk (fun v => Interior W H v ∧ occ v = false) goal v L) :
    ∃ hval, holoCompute 0 (some c) res v = some hval ∧ hval ≤ L * res := by
  have hs' : loop W H fuel (init occ goal) = some c := by
    unfold holoSetMap at hs
    simpa using hs
  obtain ⟨x, hx, hxL⟩ := (dt_exact hs').2.2 v L hw
  have := (holoCompute_fin 0 c res v).1 x (by simpa using hx)
  exact ⟨x * res, this, mul_le_mul_of_nonneg_right hxL hr⟩

/-- The map of the counterexample: 5 × 6 cells, a wall with a gap at the far end. -/
def exOccB (v : Cell) : Bool := decide (v = (2, 1) ∨ v = (2, 2) ∨ v = (2, 3))

/-- Finding: the heuristic is **not** a lower bound.  The border rows and columns are never relaxed, so a short way along
the border is not seen: here `(1,1)` and `(3,1)` are connected by a walk of length `2√2 < 3` through the free cell
`(2,0)` on the border, but the heuristic is at least 6. -/
theorem holo_overestimates : ∃ fuel c, holoSetMap 5 6 0 exOccB (1, 1) fuel = some c ∧
    (∃ hval, holoCompute 0 (some c) 1 (3, 1) = some hval ∧ 6 ≤ hval) ∧
    ∃ L, Walk (fun v => InArr 5 6 v ∧ exOccB v = false) (1, 1) (3, 1) L ∧ L < 3 := by
  obtain ⟨fuel, c, hl⟩ := loop_terminates 5 6 exOccB (1, 1)
  obtain ⟨h1, h2, h3⟩ := dt_exact hl
  refine ⟨fuel, c, by unfold holoSetMap; simpa using hl, ?_, ?_⟩
  · -- a potential function bounding the length of interior walks from below
    let φ : Cell → Int := fun v => if v.1 ≤ 1 then v.2 - 1 else if v.1 = 2 then 3 else 3 + (4 - v.2)
    have hφ : ∀ v L, Walk (Usable 5 6 exOccB) (1, 1) v L → (φ v : ℝ) ≤ L := by
      intro v L hw
      induction hw with
      | nil => simp [φ]
      | @snoc u v L hw ht hv ih =>
        have hu : u = (1, 1) ∨ Usable 5 6 exOccB u := by
          cases hw with
          | nil => exact Or.inl rfl
          | snoc _ _ hu => exact Or.inr hu
        have hstep : φ v ≤ φ u + 1 := by
          have hu2 : u.1 = 2 → u.2 = 4 ∧ True := by
            intro e
            rcases hu with rfl | hu
            · simp at e
            · obtain ⟨⟨a, b, d, f⟩, g⟩ := hu
              obtain ⟨u1, u2⟩ := u
              simp only [] at *
              subst e
              have : u2 ≠ 1 ∧ u2 ≠ 2 ∧ u2 ≠ 3 := by
                refine ⟨?_, ?_, ?_⟩ <;> rintro rfl <;> exact absurd g (by decide)
              push_cast at f
              exact ⟨by omega, trivial⟩
          have hv2 : v.1 = 2 → v.2 = 4 ∧ True := by
            intro e
            obtain ⟨⟨a, b, d, f⟩, g⟩ := hv
            obtain ⟨u1, u2⟩ := v
            simp only [] at *
            subst e
            have : u2 ≠ 1 ∧ u2 ≠ 2 ∧ u2 ≠ 3 := by
              refine ⟨?_, ?_, ?_⟩ <;> rintro rfl <;> exact absurd g (by decide)
            push_cast at f
            exact ⟨by omega, trivial⟩
          obtain ⟨_, g1, g2⟩ := ht
          rw [abs_le] at g1 g2
          have hb : 1 ≤ u.2 ∧ u.2 ≤ 4 ∧ 1 ≤ u.1 := by
            rcases hu with rfl | hu
            · decide
            · obtain ⟨⟨a, b, d, f⟩, _⟩ := hu
              push_cast at f
              exact ⟨by omega, by omega, by omega⟩
          have hbv : 1 ≤ v.2 ∧ v.2 ≤ 4 ∧ 1 ≤ v.1 := by
            obtain ⟨⟨a, b, d, f⟩, _⟩ := hv
            push_cast at f
            exact ⟨by omega, by omega, by omega⟩
          simp only [φ]
          by_cases c1 : u.1 = 2
          · obtain ⟨e1, _⟩ := hu2 c1
            split_ifs <;> omega
          · by_cases c2 : v.1 = 2
            · obtain ⟨e1, _⟩ := hv2 c2
              split_ifs <;> omega
            · split_ifs <;> omega
        have h4 : (φ v : ℝ) ≤ (φ u : ℝ) + 1 := by exact_mod_cast hstep
        have := stepLen_ge_one u v
        linarith
    have hwalk : ∃ L, Walk (Usable 5 6 exOccB) (1, 1) (3, 1) L := by
      have stp : ∀ {u v : Cell}, (∃ L, Walk (Usable 5 6 exOccB) (1, 1) u L) → Touch u v → Usable 5 6 exOccB v →
          ∃ L, Walk (Usable 5 6 exOccB) (1, 1) v L := fun ⟨L, hw⟩ ht hv => ⟨_, Walk.snoc hw ht hv⟩
      have w0 : ∃ L, Walk (Usable 5 6 exOccB) (1, 1) (1, 1) L := ⟨0, Walk.nil⟩
      have w1 := stp (v := (1, 2)) w0 (by unfold Touch; decide) ⟨by unfold Interior; decide, by decide⟩
      have w2 := stp (v := (1, 3)) w1 (by unfold Touch; decide) ⟨by unfold Interior; decide, by decide⟩
      have w3 := stp (v := (2, 4)) w2 (by unfold Touch; decide) ⟨by unfold Interior; decide, by decide⟩
      have w4 := stp (v := (3, 3)) w3 (by unfold Touch; decide) ⟨by unfold Interior; decide, by decide⟩
      have w5 := stp (v := (3, 2)) w4 (by unfold Touch; decide) ⟨by unfold Interior; decide, by decide⟩
      exact stp (v := (3, 1)) w5 (by unfold Touch; decide) ⟨by unfold Interior; decide, by decide⟩
    obtain ⟨L, hw⟩ := hwalk
    obtain ⟨x, hx, _⟩ := h3 _ _ hw
    refine ⟨x * 1, (holoCompute_fin 0 c 1 (3, 1)).1 x (by simpa using hx), ?_⟩
    have := hφ _ _ (h2 _ _ hx)
    have e : φ (3, 1) = 6 := by decide
    rw [e] at this
    norm_num at this ⊢
    exact this
  · refine ⟨0 + stepLen (1, 1) (2, 0) + stepLen (2, 0) (3, 1), ?_, ?_⟩
    · exact Walk.snoc (Walk.snoc Walk.nil (by unfold Touch; decide) ⟨by unfold InArr; decide, by decide⟩)
        (by unfold Touch; decide) ⟨by unfold InArr; decide, by decide⟩
    · have : stepLen ((1, 1) : Cell) (2, 0) = Real.sqrt 2 := by simp [stepLen]
      have : stepLen ((2, 0) : Cell) (3, 1) = Real.sqrt 2 := by simp [stepLen]
      have h2 : Real.sqrt 2 < 1.5 := by
        rw [Real.sqrt_lt' (by norm_num)]; norm_num
      norm_num at h2
      simp only [*]
      linarith

/-- Finding: with a padded manager (`padding = 32` in `DynamicDirectionalStateSpaceManager`) obstacles and goal are
misaligned: the heuristic of cell `v` is infinite exactly if the cell `v + (padding, padding)` is occupied, instead of
`v` itself. -/
theorem holo_padding_shift {W H padding : Nat} {occ : Cell → Bool} {goal : Cell} {fuel : Nat} {c : Costs}
    (hs : holoSetMap W H padding occ goal fuel = some c) (res : ℝ) (v : Cell) (hv : v ≠ goal) :
    holoCompute padding (some c) res v = none ↔ occ (v.1 + padding, v.2 + padding) = true := by
  obtain ⟨h1, _, _⟩ := dt_exact hs
  have hne : ((v.1 + padding, v.2 + padding) : Cell) ≠ (goal.1 + padding, goal.2 + padding) := by
    intro e
    apply hv
    have e1 := congrArg Prod.fst e
    have e2 := congrArg Prod.snd e
    simp at e1 e2
    ext <;> assumption
  obtain ⟨a, b, d⟩ := holoCompute_fin padding c res v
  constructor
  · intro e
    rcases val_cases (c (v.1 + padding, v.2 + padding)) with e1 | e1 | ⟨x, e1⟩
    · exact ((h1 _).1 e1).1
    · rw [b e1] at e; exact absurd e (by simp)
    · rw [a x e1] at e; exact absurd e (by simp)
  · intro e
    exact d ((h1 _).2 ⟨e, hne⟩)

/-- The heuristic always terminates its precomputation. -/
theorem holo_terminates (W H padding : Nat) (occ : Cell → Bool) (goal : Cell) :
    ∃ fuel c, holoSetMap W H padding occ goal fuel = some c :=
  loop_terminates _ _ _ _

end PathPlanning.DT
