import Verif.Spec.DistTrans
import Verif.Spec.Symmetry
import Verif.Props.DistTrans2
import Verif.Props.MapChange
import Verif.Props.Symmetry

/-!
# C127: the distance transformation as a metric; changes of the map; agreement with A\*
-/

noncomputable section

namespace PathPlanning.DT
open Spec

namespace Metric

variable {w h w' h' : Nat} {occ occ' : Cell → Bool} {g g' v : Cell} {fuel fuel' fuel'' : Nat} {c c' d : Costs}

/-! ### Walks -/

theorem touch_comm {u v : Cell} (ht : Touch u v) : Touch v u := by
  obtain ⟨h1, h2, h3⟩ := ht
  exact ⟨fun e => h1 e.symm, by rw [abs_sub_comm]; exact h2, by rw [abs_sub_comm]; exact h3⟩

theorem stepLen_comm (u v : Cell) : stepLen u v = stepLen v u := by
  unfold stepLen
  simp only [eq_comm]

theorem walk_mono {ok ok' : Cell → Prop} (hm : ∀ c, ok c → ok' c) {a b : Cell} {L : ℝ} (hw : Walk ok a b L) : Walk ok' a b L := by
  induction hw with
  | nil => exact .nil
  | snoc _ ht hv ih => exact .snoc ih ht (hm _ hv)

theorem walk_trans {ok : Cell → Prop} {a b e : Cell} {L M : ℝ} (h1 : Walk ok a b L) (h2 : Walk ok b e M) : Walk ok a e (L + M) := by
  induction h2 with
  | nil => simpa using h1
  | snoc _ ht hv ih => rw [← add_assoc]; exact .snoc ih ht hv

theorem walk_end {ok : Cell → Prop} {a b : Cell} {L : ℝ} (h1 : Walk ok a b L) : b = a ∨ ok b := by
  cases h1 with
  | nil => exact .inl rfl
  | snoc _ _ hv => exact .inr hv

theorem walk_reverse {ok : Cell → Prop} {a b : Cell} {L : ℝ} (ha : ok a) (h1 : Walk ok a b L) : Walk ok b a L := by
  induction h1 with
  | nil => exact .nil
  | @snoc u v L hw ht hv ih =>
    have hu : ok u := by
      rcases walk_end hw with rfl | hu
      · exact ha
      · exact hu
    have h3 := walk_trans (Walk.snoc (Walk.nil (ok := ok) (goal := v)) (touch_comm ht) hu) ih
    rw [stepLen_comm v u] at h3
    have e : 0 + stepLen u v + L = L + stepLen u v := by ring
    rwa [e] at h3

/-! ### What determines a field -/

/-- Two fields at two cells, related by walks and by occupied cells. -/
theorem le_of_walks {v v' : Cell} (hl : loop w h fuel (init occ g) = some c) (hl' : loop w' h' fuel' (init occ' g') = some c')
    (hw : ∀ L, Walk (Usable w h occ) g v L → ∃ L', L' ≤ L ∧ Walk (Usable w' h' occ') g' v' L')
    (ho : occ v = false ∨ v = g → occ' v' = false ∨ v' = g') : c' v' ≤ c v := by
  obtain ⟨a1, a2, a3⟩ := dt_exact hl
  obtain ⟨b1, b2, b3⟩ := dt_exact hl'
  rcases val_cases (c v) with e | e | ⟨x, e⟩
  · rw [e]; exact le_top
  · rw [e]
    rcases val_cases (c' v') with e' | e' | ⟨y, e'⟩
    · exfalso
      obtain ⟨f1, f2⟩ := (b1 v').1 e'
      have : occ v = false ∨ v = g := by
        by_contra hn
        push Not at hn
        have := (a1 v).2 ⟨by simpa using hn.1, hn.2⟩
        rw [e] at this; exact absurd this big_lt_inf.ne
      rcases ho this with k | k
      · rw [f1] at k; cases k
      · exact f2 k
    · rw [e']
    · rw [e']; exact (fin_lt_big y).le
  · obtain ⟨L', hL, hw'⟩ := hw x (a2 v x e)
    obtain ⟨y, hy, hyx⟩ := b3 v' L' hw'
    rw [e, hy, fin_le_fin]; linarith

/-! ### C127 -/

/-- **C127 (zero).**  The field is zero at the goal only. -/
theorem zero_iff (hl : loop w h fuel (init occ g) = some c) (v : Cell) : c v = fin 0 ↔ v = g := by
  constructor
  · intro e
    have hw := (dt_exact hl).2.1 v 0 e
    by_contra hne
    have := hw.one_le hne
    linarith
  · rintro rfl
    obtain ⟨x, hx, hx0⟩ := (dt_exact hl).2.2 v 0 .nil
    have := ((dt_exact hl).2.1 v x hx).nonneg
    rw [hx, le_antisymm hx0 this]

/-- **C127 (there and back).**  The field for `g` at `v` is the field for `v` at `g`, for free cells `g` and `v` off the border. -/
theorem symmetric (hl : loop w h fuel (init occ g) = some c) (hl' : loop w h fuel' (init occ v) = some c')
    (hg : Interior w h g ∧ occ g = false) (hv : Interior w h v ∧ occ v = false) : c v = c' g :=
  le_antisymm
    (le_of_walks hl' hl (fun L hw => ⟨L, le_rfl, walk_reverse hv hw⟩) fun _ => .inl hv.2)
    (le_of_walks hl hl' (fun L hw => ⟨L, le_rfl, walk_reverse hg hw⟩) fun _ => .inl hg.2)

/-- **C127 (triangle inequality).**  `c` is the field for `g`, `d` that for `v`: if `v` is reached from `g` and `u` from `v`, then
`u` is reached from `g` and the distances obey the triangle inequality. -/
theorem triangle (hl : loop w h fuel (init occ g) = some c) (hl' : loop w h fuel' (init occ v) = some d) {u : Cell} {x y : ℝ}
    (hx : c v = fin x) (hy : d u = fin y) : ∃ z, c u = fin z ∧ z ≤ x + y :=
  (dt_exact hl).2.2 u (x + y) (walk_trans ((dt_exact hl).2.1 v x hx) ((dt_exact hl').2.1 u y hy))

/-- **C127 (a consistent heuristic).**  Between touching free cells off the border the field changes by at most the length of the
step, and one is reached exactly if the other is. -/
theorem consistent (hl : loop w h fuel (init occ g) = some c) {u v : Cell} (hu : Interior w h u ∧ occ u = false)
    (hv : Interior w h v ∧ occ v = false) (ht : Touch u v) :
    ((∃ x, c u = fin x) ↔ ∃ y, c v = fin y) ∧ ∀ x y, c u = fin x → c v = fin y → abs (x - y) ≤ stepLen u v := by
  obtain ⟨-, a2, a3⟩ := dt_exact hl
  have h1 : ∀ x, c u = fin x → ∃ y, c v = fin y ∧ y ≤ x + stepLen u v := fun x hx => a3 v _ (.snoc (a2 u x hx) ht hv)
  have h2 : ∀ y, c v = fin y → ∃ x, c u = fin x ∧ x ≤ y + stepLen u v := fun y hy => by
    rw [stepLen_comm]; exact a3 u _ (.snoc (a2 v y hy) (touch_comm ht) hu)
  refine ⟨⟨fun ⟨x, hx⟩ => ?_, fun ⟨y, hy⟩ => ?_⟩, fun x y hx hy => ?_⟩
  · obtain ⟨y, hy, -⟩ := h1 x hx; exact ⟨y, hy⟩
  · obtain ⟨x, hx, -⟩ := h2 y hy; exact ⟨x, hx⟩
  · obtain ⟨y', e1, i1⟩ := h1 x hx
    obtain ⟨x', e2, i2⟩ := h2 y hy
    rw [hy] at e1; rw [hx] at e2
    have := fin_inj.1 e1; have := fin_inj.1 e2
    rw [abs_le]
    constructor <;> linarith

/-- **C127 (obstacles removed).**  If no cell becomes occupied, no value of the field grows. -/
theorem freed (hf : ∀ a, occ' a = true → occ a = true) (hl : loop w h fuel (init occ g) = some c)
    (hl' : loop w h fuel' (init occ' g) = some c') (a : Cell) : c' a ≤ c a := by
  have hno : ∀ a, occ a = false → occ' a = false := fun a ha => by
    by_contra hn
    rw [hf a (by simpa using hn)] at ha; cases ha
  exact le_of_walks hl hl' (fun L hw => ⟨L, le_rfl, walk_mono (fun e he => ⟨he.1, hno e he.2⟩) hw⟩) fun k => k.imp_left (hno a)

theorem touch_act (M : Motion) {u v : Cell} (ht : Touch u v) : Touch (M.act u) (M.act v) := by
  obtain ⟨h1, h2, h3⟩ := ht
  obtain ⟨e1, e2⟩ := Symmetry.act_abs M v u
  refine ⟨fun e => h1 (Symmetry.act_inj M e), ?_, ?_⟩
  · rw [e1]; split_ifs <;> assumption
  · rw [e2]; split_ifs <;> assumption

theorem stepLen_act (M : Motion) (u v : Cell) : stepLen (M.act u) (M.act v) = stepLen u v := by
  obtain ⟨e1, e2⟩ := Symmetry.act_abs M v u
  unfold stepLen
  have k : ((M.act u).1 = (M.act v).1 ∨ (M.act u).2 = (M.act v).2) ↔ (u.1 = v.1 ∨ u.2 = v.2) := by
    rw [Symmetry.eq_iff_abs, e1, Symmetry.eq_iff_abs (a := (M.act u).2), e2, Symmetry.eq_iff_abs (a := u.1),
      Symmetry.eq_iff_abs (a := u.2)]
    split_ifs
    · exact or_comm
    · rfl
  simp only [k]

theorem walk_act (M : Motion) {ok ok' : Cell → Prop} (hm : Moved M ok ok') {a b : Cell} {L : ℝ} (hw : Walk ok a b L) :
    Walk ok' (M.act a) (M.act b) L := by
  induction hw with
  | nil => exact .nil
  | @snoc u v L _ ht hv ih => rw [← stepLen_act M]; exact .snoc ih (touch_act M ht) ((hm v).1 hv)

/-- **C127 (turned, mirrored and shifted maps).**  If the free cells off the border of the second map are those of the first, turned,
mirrored or shifted, the field for the moved goal is the moved field: the same cells are reached, at the same distance. -/
theorem moved (M : Motion) (hm : Moved M (Usable w h occ) (Usable w' h' occ')) (hl : loop w h fuel (init occ g) = some c)
    (hl' : loop w' h' fuel' (init occ' (M.act g)) = some c') (a : Cell) (x : ℝ) : c a = fin x ↔ c' (M.act a) = fin x := by
  obtain ⟨-, a2, a3⟩ := dt_exact hl
  obtain ⟨-, b2, b3⟩ := dt_exact hl'
  have fwd : ∀ x, c a = fin x → ∃ y, c' (M.act a) = fin y ∧ y ≤ x := fun x hx => b3 _ x (walk_act M hm (a2 a x hx))
  have bwd : ∀ y, c' (M.act a) = fin y → ∃ x, c a = fin x ∧ x ≤ y := fun y hy => by
    have := walk_act (Symmetry.back M) (Symmetry.moved_back hm) (b2 _ y hy)
    rw [Symmetry.back_act, Symmetry.back_act] at this
    exact a3 _ y this
  constructor
  · intro hx
    obtain ⟨y, hy, i1⟩ := fwd x hx
    obtain ⟨x', hx', i2⟩ := bwd y hy
    rw [hx] at hx'
    have := fin_inj.1 hx'
    rw [hy, le_antisymm i1 (by linarith)]
  · intro hx
    obtain ⟨y, hy, i1⟩ := bwd x hx
    obtain ⟨x', hx', i2⟩ := fwd y hy
    rw [hx] at hx'
    have := fin_inj.1 hx'
    rw [hy, le_antisymm i1 (by linarith)]

/-! ### Agreement with A\* -/

theorem adj8_touch (u v : Cell) : Adj8 1 u v ↔ Touch u v := by
  unfold Adj8 Touch
  constructor
  · rintro ⟨h1, h2, h3⟩
    refine ⟨h1, ?_, ?_⟩
    · rcases h2 with e | e
      · rw [e]; simp
      · rw [abs_sub_comm, e]
    · rcases h3 with e | e
      · rw [e]; simp
      · rw [abs_sub_comm, e]
  · rintro ⟨h1, h2, h3⟩
    rw [abs_le] at h2 h3
    refine ⟨h1, ?_, ?_⟩
    · by_cases e : v.1 = u.1
      · exact .inl e
      · exact .inr (by rw [abs_eq (by norm_num)]; omega)
    · by_cases e : v.2 = u.2
      · exact .inl e
      · exact .inr (by rw [abs_eq (by norm_num)]; omega)

theorem eucl_step {u v : Cell} (ht : Touch u v) : cellEucl u v = stepLen u v := by
  obtain ⟨h1, h2, h3⟩ := ht
  unfold stepLen
  rw [Symmetry.eucl_abs, abs_sub_comm v.1, abs_sub_comm v.2]
  have k1 : |u.1 - v.1| = 0 ∨ |u.1 - v.1| = 1 := by have := abs_nonneg (u.1 - v.1); omega
  have k2 : |u.2 - v.2| = 0 ∨ |u.2 - v.2| = 1 := by have := abs_nonneg (u.2 - v.2); omega
  rcases k1 with e1 | e1 <;> rcases k2 with e2 | e2 <;> rw [e1, e2]
  · exfalso; rw [abs_eq_zero, sub_eq_zero] at e1 e2; exact h1 (Prod.ext e1 e2)
  · rw [abs_eq_zero, sub_eq_zero] at e1; simp [e1]
  · rw [abs_eq_zero, sub_eq_zero] at e2; simp [e2]
  · have n1 : u.1 ≠ v.1 := fun e => by rw [e] at e1; simp at e1
    have n2 : u.2 ≠ v.2 := fun e => by rw [e] at e2; simp at e2
    simp [n1, n2]; norm_num

theorem interior_map {v : Cell} (hi : Interior w h v) : (0 ≤ v.1 ∧ v.1 < w) ∧ (0 ≤ v.2 ∧ v.2 < h) := by
  unfold Interior at hi; omega

theorem walk_path {f : Cell → Prop} (hf : ∀ a, Usable w h occ a → f a) {a b : Cell} {L : ℝ} (hw : Walk (Usable w h occ) a b L) :
    ∃ q, FreePath w h f (Adj8 1) a b q ∧ gridLen q = L := by
  induction hw with
  | nil => exact ⟨[a], ⟨rfl, rfl, by simp, by simp⟩, rfl⟩
  | @snoc u v L _ ht hv ih =>
    obtain ⟨q, hq, e⟩ := ih
    have hv' := interior_map hv.1
    refine ⟨q ++ [v], ⟨?_, by simp, ?_, ?_⟩, by rw [gridLen_snoc q u v hq.last, e, eucl_step ht]⟩
    · have := hq.head
      cases q with
      | nil => cases this
      | cons z q => simpa using this
    · refine List.isChain_append.2 ⟨hq.chain, by simp, ?_⟩
      intro x hx y hy
      rw [hq.last] at hx
      simp at hx hy
      subst hx; subst hy
      exact (adj8_touch _ _).2 ht
    · intro z hz
      have hz' : z ∈ q.tail ++ [v] := by
        have := hq.head
        cases q with
        | nil => cases this
        | cons z q => simpa using hz
      rcases List.mem_append.1 hz' with k | k
      · exact hq.free z k
      · simp at k; subst k; exact ⟨hv'.1, hv'.2, hf _ hv⟩

theorem path_walk {f : Cell → Prop} (hf : ∀ a, f a → Usable w h occ a) {a b : Cell} {q : List Cell} (hq : FreePath w h f (Adj8 1) a b q) :
    Walk (Usable w h occ) a b (gridLen q) := by
  suffices H : ∀ (q : List Cell) (p : Cell) (L : ℝ) (u : Cell), Walk (Usable w h occ) p u L → (u :: q).IsChain (Adj8 1) →
      (∀ e ∈ q, f e) → ∀ b, (u :: q).getLast? = some b → Walk (Usable w h occ) p b (L + gridLen (u :: q)) by
    obtain ⟨h1, h2, h3, h4⟩ := hq
    cases q with
    | nil => cases h1
    | cons u q =>
      simp at h1; subst h1
      have := H q u 0 u .nil h3 (fun e he => (h4 e (by simpa using he)).2.2) b h2
      rwa [zero_add] at this
  intro q
  induction q with
  | nil =>
    intro p L u hw _ _ b hb
    simp at hb; subst hb
    simpa [gridLen] using hw
  | cons z q ih =>
    intro p L u hw hc hfree b hb
    rw [List.isChain_cons_cons] at hc
    have ht := (adj8_touch _ _).1 hc.1
    have := ih p (L + stepLen u z) z (.snoc hw ht (hf z (hfree z (by simp)))) hc.2 (fun e he => hfree e (by simp [he])) b
      (by simpa using hb)
    rw [gridLen, eucl_step ht]
    rwa [add_assoc] at this

section astar

open MapChange

variable {free : GNode w h → Bool} {res : ℝ} {P : OpenList (GNode w h) ℝ} {cfg : SCfg (GNode w h) ℝ} {s t : GNode w h}

/-- **C127 (the field is an upper bound of A\*).**  The same map for both: wherever the field for the goal is finite, A\* (eight
neighbours, Euclidean heuristic) from there finds a path, which, completed by the goal cell, is at most as long as the field
says. -/
theorem astar_le (hfree : ∀ n : GNode w h, free n = !occ n.cell) (hr : 0 < res) (L : Lawful P) (F : MinFirst P) (ht : TopOk cfg.top)
    (hx : ∀ k n g, cfg.canExpand k n g = none) (hab : ∀ k, cfg.abort k = false) (huse : cfg.useCands = false)
    (hs : cfg.start = [s]) (hg : cfg.goal = [t]) (hfs : free s = true) (hft : free t = true) (hi : Interior w h t.cell)
    {p : List (GNode w h)} {st} (hrun : findPathNodes (aStar free res) P cfg (freshLabels (aStar free res)) fuel = some (.ok p, st))
    (hl : loop w h fuel' (init occ t.cell) = some c) {x : ℝ} (hx' : c s.cell = fin x) :
    p ≠ [] ∧ gridLen (upTo t.cell (p.map GNode.cell)) ≤ x := by
  have hut : Usable w h occ t.cell := ⟨hi, by have := hfree t; rw [hft] at this; simpa using this.symm⟩
  have hf : ∀ a, Usable w h occ a → freeCell free a := fun a ha => by
    obtain ⟨⟨i1, i2⟩, i3, i4⟩ := interior_map ha.1
    refine ⟨(⟨a.1.toNat, by omega⟩, ⟨a.2.toNat, by omega⟩), ?_, ?_⟩
    · have : ∀ z : Int, 0 ≤ z → ((z.toNat : Nat) : Int) = z := fun z hz => Int.toNat_of_nonneg hz
      exact Prod.ext (this _ i1) (this _ i3)
    · rw [hfree]
      have : GNode.cell ((⟨a.1.toNat, by omega⟩, ⟨a.2.toNat, by omega⟩) : GNode w h) = a :=
        Prod.ext (Int.toNat_of_nonneg i1) (Int.toNat_of_nonneg i3)
      rw [this, ha.2]; rfl
  have hw := walk_reverse hut ((dt_exact hl).2.1 _ x hx')
  obtain ⟨q, hq, e⟩ := walk_path hf hw
  have hp : p ≠ [] := by
    rintro rfl
    exact grid_none hr.le (by norm_num) (.inr ⟨rfl, rfl⟩) .l2 L cfg ht hx hab hs hg hrun q t hq (by unfold NearCell; simp)
  refine ⟨hp, ?_⟩
  have := (upTo_shortest hr.le L F ht hx huse hs hg hft hrun hp).2 q hq
  rw [e] at this
  exact le_of_mul_le_mul_right this hr

/-- **C127 (agreement).**  If moreover the border of the map is occupied, the two agree: A\* finds a path from a free cell exactly if the
field for the goal is finite there, and the length of the path, completed by the goal cell, is the value of the field. -/
theorem astar_eq (hfree : ∀ n : GNode w h, free n = !occ n.cell) (hborder : ∀ n : GNode w h, free n = true → Interior w h n.cell)
    (hr : 0 < res) (L : Lawful P) (F : MinFirst P) (ht : TopOk cfg.top)
    (hx : ∀ k n g, cfg.canExpand k n g = none) (hab : ∀ k, cfg.abort k = false) (huse : cfg.useCands = false)
    (hs : cfg.start = [s]) (hg : cfg.goal = [t]) (hfs : free s = true) (hft : free t = true)
    {p : List (GNode w h)} {st} (hrun : findPathNodes (aStar free res) P cfg (freshLabels (aStar free res)) fuel = some (.ok p, st))
    (hl : loop w h fuel' (init occ t.cell) = some c) :
    (p = [] ↔ c s.cell = big) ∧ (p ≠ [] → c s.cell = fin (gridLen (upTo t.cell (p.map GNode.cell)))) := by
  have hf : ∀ a, freeCell free a → Usable w h occ a := by
    rintro _ ⟨n, rfl, hn⟩
    exact ⟨hborder n hn, by have := hfree n; rw [hn] at this; simpa using this.symm⟩
  have hs' : Usable w h occ s.cell := hf _ ⟨s, rfl, hfs⟩
  have up : ∀ x, c s.cell = fin x → p ≠ [] ∧ gridLen (upTo t.cell (p.map GNode.cell)) ≤ x := fun x hx' =>
    astar_le hfree hr L F ht hx hab huse hs hg hfs hft (hborder t hft) hrun hl hx'
  have down : p ≠ [] → c s.cell = fin (gridLen (upTo t.cell (p.map GNode.cell))) := fun hp => by
    obtain ⟨y, hy, i⟩ := (dt_exact hl).2.2 s.cell _
      (walk_reverse hs' (path_walk hf (upTo_shortest hr.le L F ht hx huse hs hg hft hrun hp).1))
    rw [hy, le_antisymm i (up y hy).2]
  refine ⟨⟨fun hp => ?_, fun e => by_contra fun hp => ?_⟩, down⟩
  · rcases val_cases (c s.cell) with e | e | ⟨x, e⟩
    · have := ((dt_exact hl).1 s.cell).1 e
      rw [hs'.2] at this; cases this.1
    · exact e
    · exact absurd hp (up x e).1
  · rw [down hp] at e
    exact absurd e (fin_lt_big _).ne

/-- **C127 (a perfect heuristic).**  For a map with occupied border and no padding the obstacle heuristic of the goal is what A\* will
find: the length of the path, completed by the goal cell, in units of the resolution. -/
theorem heuristic_perfect (hfree : ∀ n : GNode w h, free n = !occ n.cell) (hborder : ∀ n : GNode w h, free n = true → Interior w h n.cell)
    (hr : 0 < res) (L : Lawful P) (F : MinFirst P) (ht : TopOk cfg.top)
    (hx : ∀ k n g, cfg.canExpand k n g = none) (hab : ∀ k, cfg.abort k = false) (huse : cfg.useCands = false)
    (hs : cfg.start = [s]) (hg : cfg.goal = [t]) (hfs : free s = true) (hft : free t = true)
    {p : List (GNode w h)} {st} (hrun : findPathNodes (aStar free res) P cfg (freshLabels (aStar free res)) fuel = some (.ok p, st))
    (hp : p ≠ []) (hset : holoSetMap w h 0 occ t.cell fuel' = some c) :
    holoCompute 0 (some c) res s.cell = some (gridLen (upTo t.cell (p.map GNode.cell)) * res) := by
  have hl : loop w h fuel' (init occ t.cell) = some c := by
    unfold holoSetMap at hset
    simpa using hset
  have e := (astar_eq hfree hborder hr L F ht hx hab huse hs hg hfs hft hrun hl).2 hp
  exact (holoCompute_fin 0 c res s.cell).1 _ (by simpa using e)

end astar

end Metric

end PathPlanning.DT
