import Verif.Spec.Symmetry
import Verif.Props.MapChange

/-!
# C118: searches on moved maps; distances found are a metric
-/

namespace PathPlanning
open Spec

namespace Symmetry

variable {w h w' h' : Nat}

theorem act_surj (M : Motion) (c : Int × Int) : ∃ d, M.act d = c := by
  obtain ⟨s, fx, fy, dx, dy⟩ := M
  cases s
  · refine ⟨((if fx then -(c.1 - dx) else c.1 - dx), (if fy then -(c.2 - dy) else c.2 - dy)), ?_⟩
    cases fx <;> cases fy <;> simp [Motion.act]
  · refine ⟨((if fy then -(c.2 - dy) else c.2 - dy), (if fx then -(c.1 - dx) else c.1 - dx)), ?_⟩
    cases fx <;> cases fy <;> simp [Motion.act]

/-- Distances in the two coordinates are kept or exchanged. -/
theorem act_abs (M : Motion) (u v : Int × Int) : |(M.act v).1 - (M.act u).1| = (if M.swap then |v.2 - u.2| else |v.1 - u.1|) ∧
    |(M.act v).2 - (M.act u).2| = (if M.swap then |v.1 - u.1| else |v.2 - u.2|) := by
  obtain ⟨s, fx, fy, dx, dy⟩ := M
  have key : ∀ a b d : Int, |-a + d - (-b + d)| = |a - b| := fun a b d => by
    rw [show -a + d - (-b + d) = -(a - b) by ring, abs_neg]
  have key2 : ∀ a b d : Int, |a + d - (b + d)| = |a - b| := fun a b d => by rw [add_sub_add_right_eq_sub]
  constructor <;> cases s <;> cases fx <;> cases fy <;>
    simp only [Motion.act, key, key2, if_true, if_false, Bool.false_eq_true]

theorem eq_iff_abs {a b : Int} : a = b ↔ |a - b| = 0 := by rw [abs_eq_zero, sub_eq_zero]

theorem act_inj (M : Motion) {u v : Int × Int} (e : M.act u = M.act v) : u = v := by
  obtain ⟨h1, h2⟩ := act_abs M v u
  rw [e] at h1 h2
  simp only [sub_self, abs_zero] at h1 h2
  cases hs : M.swap <;> simp only [hs, if_true, if_false, Bool.false_eq_true] at h1 h2
  · exact Prod.ext (eq_iff_abs.2 h1.symm) (eq_iff_abs.2 h2.symm)
  · exact Prod.ext (eq_iff_abs.2 h2.symm) (eq_iff_abs.2 h1.symm)

theorem adj4_act (M : Motion) (D : Int) (u v : Int × Int) : Adj4 D (M.act u) (M.act v) ↔ Adj4 D u v := by
  obtain ⟨h1, h2⟩ := act_abs M u v
  unfold Adj4
  rw [eq_iff_abs (a := (M.act v).2), eq_iff_abs (a := (M.act v).1), eq_iff_abs (a := v.2), eq_iff_abs (a := v.1), h1, h2]
  cases M.swap <;> simp only [if_true, if_false, Bool.false_eq_true]
  constructor <;> rintro (⟨a, b⟩ | ⟨a, b⟩) <;> simp [a, b]

theorem adj8_act (M : Motion) (D : Int) (u v : Int × Int) : Adj8 D (M.act u) (M.act v) ↔ Adj8 D u v := by
  obtain ⟨h1, h2⟩ := act_abs M u v
  unfold Adj8
  rw [eq_iff_abs (a := (M.act v).2), eq_iff_abs (a := (M.act v).1), eq_iff_abs (a := v.2), eq_iff_abs (a := v.1), h1, h2]
  have hn : M.act u ≠ M.act v ↔ u ≠ v := not_congr ⟨fun e => act_inj M e, fun e => by rw [e]⟩
  rw [hn]
  cases M.swap <;> simp only [if_true, if_false, Bool.false_eq_true]
  constructor <;> rintro ⟨a, b, c⟩ <;> exact ⟨a, c, b⟩

theorem near_act (M : Motion) (D : Int) (u v : Int × Int) : NearCell D (M.act u) (M.act v) ↔ NearCell D u v := by
  obtain ⟨h1, h2⟩ := act_abs M v u
  unfold NearCell
  rw [h1, h2]
  cases M.swap <;> simp only [if_true, if_false, Bool.false_eq_true]
  constructor <;> rintro ⟨a, b⟩ <;> exact ⟨b, a⟩

theorem eucl_abs (u v : Int × Int) : cellEucl u v = Real.sqrt (((|v.1 - u.1| : Int) : ℝ) ^ 2 + ((|v.2 - u.2| : Int) : ℝ) ^ 2) := by
  unfold cellEucl
  rw [Int.cast_abs, Int.cast_abs, sq_abs, sq_abs]

theorem eucl_act (M : Motion) (u v : Int × Int) : cellEucl (M.act u) (M.act v) = cellEucl u v := by
  obtain ⟨h1, h2⟩ := act_abs M u v
  rw [eucl_abs, eucl_abs, h1, h2]
  cases M.swap <;> simp only [if_true, if_false, Bool.false_eq_true]
  rw [add_comm]

theorem gridLen_act (M : Motion) : ∀ p : List (Int × Int), gridLen (p.map M.act) = gridLen p
  | [] => rfl
  | [_] => rfl
  | u :: v :: l => by
    have ih := gridLen_act M (v :: l)
    simp only [List.map_cons, gridLen] at ih ⊢
    rw [ih, eucl_act]

/-- The free cells of a grid lie on it. -/
theorem freeCell_in {free : GNode w h → Bool} {c : Int × Int} (hc : freeCell free c) : (0 ≤ c.1 ∧ c.1 < w) ∧ (0 ≤ c.2 ∧ c.2 < h) := by
  obtain ⟨n, rfl, -⟩ := hc
  exact ⟨⟨by simp [GNode.cell], by simp [GNode.cell]⟩, ⟨by simp [GNode.cell], by simp [GNode.cell]⟩⟩

/-- A path on the first map, moved. -/
theorem freePath_act {M : Motion} {free : GNode w h → Bool} {free' : GNode w' h' → Bool} (hm : Moved M (freeCell free) (freeCell free'))
    {adj : Int × Int → Int × Int → Prop} (ha : ∀ u v, adj (M.act u) (M.act v) ↔ adj u v) {s t : Int × Int} {p : List (Int × Int)} :
    FreePath w h (freeCell free) adj s t p ↔ FreePath w' h' (freeCell free') adj (M.act s) (M.act t) (p.map M.act) := by
  have hinj : Function.Injective M.act := fun _ _ => act_inj M
  constructor
  · intro hp
    refine ⟨by rw [List.head?_map, hp.head]; rfl, by rw [List.getLast?_map, hp.last]; rfl, ?_, ?_⟩
    · rw [List.isChain_map]
      exact hp.chain.imp fun a b hab => (ha a b).2 hab
    · intro c hc
      rw [← List.map_tail, List.mem_map] at hc
      obtain ⟨d, hd, rfl⟩ := hc
      have := (hm d).1 (hp.free d hd).2.2
      exact ⟨(freeCell_in this).1, (freeCell_in this).2, this⟩
  · intro hp
    refine ⟨?_, ?_, ?_, ?_⟩
    · have := hp.head
      rw [List.head?_map] at this
      exact Option.map_injective hinj this
    · have := hp.last
      rw [List.getLast?_map] at this
      exact Option.map_injective hinj this
    · have := hp.chain
      rw [List.isChain_map] at this
      exact this.imp fun a b hab => (ha a b).1 hab
    · intro c hc
      have hc' : M.act c ∈ (p.map M.act).tail := by rw [← List.map_tail]; exact List.mem_map_of_mem hc
      have := (hm c).2 (hp.free _ hc').2.2
      exact ⟨(freeCell_in this).1, (freeCell_in this).2, this⟩

/-- The end of a path from a node is a node. -/
theorem end_node {free : GNode w h → Bool} {adj : Int × Int → Int × Int → Prop} {s : GNode w h} {t : Int × Int} {p : List (Int × Int)}
    (hp : FreePath w h (freeCell free) adj s.cell t p) : ∃ n : GNode w h, n.cell = t := by
  have hl := hp.last
  have hh := hp.head
  cases p with
  | nil => cases hl
  | cons a l =>
    cases l with
    | nil =>
      simp only [List.head?_cons, Option.some.injEq, List.getLast?_singleton] at hh hl
      exact ⟨s, by rw [← hh, hl]⟩
    | cons b l =>
      have : t ∈ (a :: b :: l).tail := by
        rw [List.getLast?_cons_cons] at hl
        exact List.mem_of_getLast? hl
      obtain ⟨n, hn, -⟩ := (hp.free t this).2.2
      exact ⟨n, hn⟩

/-- The estimates only depend on the distances in the two coordinates, and are proportional to the resolution. -/
theorem heur_act (k : GridHeur) {M : Motion} {res res' : ℝ} (hr : 0 ≤ res) (hr' : 0 ≤ res') {t g : GNode w h} {t' g' : GNode w' h'} (ht : t'.cell = M.act t.cell)
    (hg : g'.cell = M.act g.cell) : k.fn res' t' g' * res = k.fn res t g * res' := by
  obtain ⟨h1, h2⟩ := act_abs M g.cell t.cell
  rw [← ht, ← hg] at h1 h2
  have c1 : ∀ {w h : Nat} (a b : GNode w h), dX a b = ((a.cell.1 - b.cell.1 : Int) : ℝ) := fun a b => by
    unfold dX GNode.cell; push_cast; rfl
  have c2 : ∀ {w h : Nat} (a b : GNode w h), dY a b = ((a.cell.2 - b.cell.2 : Int) : ℝ) := fun a b => by
    unfold dY GNode.cell; push_cast; rfl
  have e1 : |dX t' g'| = if M.swap then |dY t g| else |dX t g| := by
    rw [c1, c1, c2, ← Int.cast_abs, ← Int.cast_abs, ← Int.cast_abs, h1]; cases M.swap <;> simp
  have e2 : |dY t' g'| = if M.swap then |dX t g| else |dY t g| := by
    rw [c1, c2, c2, ← Int.cast_abs, ← Int.cast_abs, ← Int.cast_abs, h2]; cases M.swap <;> simp
  have l2 : Real.sqrt (dX t' g' ^ 2 + dY t' g' ^ 2) = Real.sqrt (dX t g ^ 2 + dY t g ^ 2) := by
    rw [← sq_abs (dX t' g'), ← sq_abs (dY t' g'), e1, e2]
    cases M.swap <;> simp only [if_true, if_false, Bool.false_eq_true, sq_abs]
    rw [add_comm]
  have li : max |dX t' g'| |dY t' g'| = max |dX t g| |dY t g| := by
    rw [e1, e2]
    cases M.swap <;> simp only [if_true, if_false, Bool.false_eq_true]
    exact max_comm _ _
  have k2 : hL2 res' t' g' = res' * Real.sqrt (dX t g ^ 2 + dY t g ^ 2) := by unfold hL2; rw [l2]
  have ki : hLInf res' t' g' = res' * max |dX t g| |dY t g| := by unfold hLInf; rw [li]
  cases k with
  | zero => simp [GridHeur.fn, hZero]
  | l2 => simp only [GridHeur.fn]; rw [k2]; unfold hL2; ring
  | linf => simp only [GridHeur.fn]; rw [ki]; unfold hLInf; ring
  | maxL2Linf =>
    simp only [GridHeur.fn, hMax]
    rw [k2, ki]
    unfold hL2 hLInf
    rw [← mul_max_of_nonneg _ _ hr', ← mul_max_of_nonneg _ _ hr]
    ring

variable {free : GNode w h → Bool} {free' : GNode w' h' → Bool} {M : Motion}

/-- Half of the comparison: what the first search found can be found on the moved map. -/
theorem moved_half {res res' : ℝ} (hr : 0 < res) (hr' : 0 < res')
    (hm : Moved M (freeCell free) (freeCell free')) {dirs : List (Dir ℝ)} {D : Int} (hD : 0 < D) {adj : Int × Int → Int × Int → Prop}
    (hcase : (dirs = dirs4 D ∧ adj = Adj4 D) ∨ (dirs = dirs8 (Real.sqrt 2) D ∧ adj = Adj8 D)) (k : GridHeur)
    {P : OpenList (GNode w h) ℝ} (L : Lawful P) (F : MinFirst P) {P' : OpenList (GNode w' h') ℝ} (L' : Lawful P') (F' : MinFirst P')
    {cfg : SCfg (GNode w h) ℝ} (ht : TopOk cfg.top) (hx : ∀ k n g, cfg.canExpand k n g = none) (huse : cfg.useCands = false)
    {cfg' : SCfg (GNode w' h') ℝ} (ht' : TopOk cfg'.top) (hx' : ∀ k n g, cfg'.canExpand k n g = none) (huse' : cfg'.useCands = false)
    (hab' : ∀ k, cfg'.abort k = false)
    {s g : GNode w h} (hs : cfg.start = [s]) (hg : cfg.goal = [g])
    {s' g' : GNode w' h'} (hs' : cfg'.start = [s']) (hg' : cfg'.goal = [g']) (es : s'.cell = M.act s.cell) (eg : g'.cell = M.act g.cell)
    {fuel fuel' : Nat} {p : List (GNode w h)} {p' : List (GNode w' h')} {st st'}
    (hrun : findPathNodes (gridAlgo free res dirs D (k.fn res) gridHypot) P cfg
      (freshLabels (gridAlgo free res dirs D (k.fn res) gridHypot)) fuel = some (.ok p, st)) (hp : p ≠ [])
    (hrun' : findPathNodes (gridAlgo free' res' dirs D (k.fn res') gridHypot) P' cfg'
      (freshLabels (gridAlgo free' res' dirs D (k.fn res') gridHypot)) fuel' = some (.ok p', st')) :
    p' ≠ [] ∧ ∃ (t : GNode w h) (t' : GNode w' h'), (p.map GNode.cell).getLast? = some t.cell ∧ (p'.map GNode.cell).getLast? = some t'.cell ∧
      (gridLen (p'.map GNode.cell) * res' + k.fn res' t' g') * res ≤ (gridLen (p.map GNode.cell) * res + k.fn res t g) * res' := by
  have ha : ∀ u v, adj (M.act u) (M.act v) ↔ adj u v := by
    rcases hcase with ⟨-, rfl⟩ | ⟨-, rfl⟩
    · exact adj4_act M D
    · exact adj8_act M D
  obtain ⟨t, h1, h2, -, -⟩ := grid_search_shortest hr.le hD hcase k L F cfg ht hx huse hs hg hrun hp
  have h1' := (freePath_act hm ha).1 h1
  rw [← es] at h1'
  obtain ⟨n, hn⟩ := end_node h1'
  have h2' : NearCell D g'.cell n.cell := by rw [eg, hn, near_act]; exact h2
  rw [← hn] at h1'
  have hp' : p' ≠ [] := by
    rintro rfl
    exact MapChange.grid_none hr'.le hD hcase k L' cfg' ht' hx' hab' hs' hg' hrun' _ _ h1' h2'
  obtain ⟨t', h3, h4, h5, -⟩ := grid_search_shortest hr'.le hD hcase k L' F' cfg' ht' hx' huse' hs' hg' hrun' hp'
  refine ⟨hp', t, t', h1.last, h3.last, ?_⟩
  have := mul_le_mul_of_nonneg_right (h5 _ n h1' h2') hr.le
  rw [gridLen_act] at this
  have e := heur_act (k := k) (res := res) (res' := res') hr.le hr'.le hn eg
  calc _ ≤ _ := this
    _ = gridLen (p.map GNode.cell) * res' * res + k.fn res' n g' * res := by ring
    _ = gridLen (p.map GNode.cell) * res' * res + k.fn res t g * res' := by rw [e]
    _ = _ := by ring

/-- The map moved back. -/
def back (M : Motion) : Motion :=
  if M.swap then ⟨true, M.flipY, M.flipX, if M.flipY then M.dy else -M.dy, if M.flipX then M.dx else -M.dx⟩
  else ⟨false, M.flipX, M.flipY, if M.flipX then M.dx else -M.dx, if M.flipY then M.dy else -M.dy⟩

theorem back_act (M : Motion) (c : Int × Int) : (back M).act (M.act c) = c := by
  obtain ⟨s, fx, fy, dx, dy⟩ := M
  cases s <;> cases fx <;> cases fy <;> simp [back, Motion.act]

theorem act_back (M : Motion) (c : Int × Int) : M.act ((back M).act c) = c := by
  obtain ⟨d, rfl⟩ := act_surj M c
  rw [back_act]

theorem moved_back {f f' : Int × Int → Prop} (hm : Moved M f f') : Moved (back M) f' f := by
  intro c
  rw [hm, act_back]

/-- **C118 (turned, mirrored, shifted and scaled maps).**  Two grid maps, the second a turned, mirrored or shifted copy of the first, of
any size and with any resolutions: with the same neighbourhood, step width and heuristic, and any open lists, a search finds a
path on the first map exactly if the corresponding search finds one on the second, and the lengths of the two paths plus the
estimates at their ends, in units of the resolution, are equal. -/
theorem moved_same {res res' : ℝ} (hr : 0 < res) (hr' : 0 < res')
    (hm : Moved M (freeCell free) (freeCell free')) {dirs : List (Dir ℝ)} {D : Int} (hD : 0 < D) {adj : Int × Int → Int × Int → Prop}
    (hcase : (dirs = dirs4 D ∧ adj = Adj4 D) ∨ (dirs = dirs8 (Real.sqrt 2) D ∧ adj = Adj8 D)) (k : GridHeur)
    {P : OpenList (GNode w h) ℝ} (L : Lawful P) (F : MinFirst P) {P' : OpenList (GNode w' h') ℝ} (L' : Lawful P') (F' : MinFirst P')
    {cfg : SCfg (GNode w h) ℝ} (ht : TopOk cfg.top) (hx : ∀ k n g, cfg.canExpand k n g = none) (huse : cfg.useCands = false)
    (hab : ∀ k, cfg.abort k = false)
    {cfg' : SCfg (GNode w' h') ℝ} (ht' : TopOk cfg'.top) (hx' : ∀ k n g, cfg'.canExpand k n g = none) (huse' : cfg'.useCands = false)
    (hab' : ∀ k, cfg'.abort k = false)
    {s g : GNode w h} (hs : cfg.start = [s]) (hg : cfg.goal = [g])
    {s' g' : GNode w' h'} (hs' : cfg'.start = [s']) (hg' : cfg'.goal = [g']) (es : s'.cell = M.act s.cell) (eg : g'.cell = M.act g.cell)
    {fuel fuel' : Nat} {p : List (GNode w h)} {p' : List (GNode w' h')} {st st'}
    (hrun : findPathNodes (gridAlgo free res dirs D (k.fn res) gridHypot) P cfg
      (freshLabels (gridAlgo free res dirs D (k.fn res) gridHypot)) fuel = some (.ok p, st))
    (hrun' : findPathNodes (gridAlgo free' res' dirs D (k.fn res') gridHypot) P' cfg'
      (freshLabels (gridAlgo free' res' dirs D (k.fn res') gridHypot)) fuel' = some (.ok p', st')) :
    (p = [] ↔ p' = []) ∧ (p ≠ [] → ∃ (t : GNode w h) (t' : GNode w' h'), p.getLast? = some t ∧ p'.getLast? = some t' ∧
      gridLen (p.map GNode.cell) + k.fn res t g / res = gridLen (p'.map GNode.cell) + k.fn res' t' g' / res') := by
  have es' : s.cell = (back M).act s'.cell := by rw [es, back_act]
  have eg' : g.cell = (back M).act g'.cell := by rw [eg, back_act]
  have fwd := fun hp => moved_half hr hr' hm hD hcase k L F L' F' ht hx huse ht' hx' huse' hab' hs hg hs' hg' es eg hrun hp hrun'
  have bwd := fun hp => moved_half hr' hr (moved_back hm) hD hcase k L' F' L F ht' hx' huse' ht hx huse hab hs' hg' hs hg es' eg' hrun' hp hrun
  refine ⟨⟨fun e => by_contra fun hp => (bwd hp).1 e, fun e => by_contra fun hp => (fwd hp).1 e⟩, fun hp => ?_⟩
  obtain ⟨hp', t, t', h1, h2, h3⟩ := fwd hp
  obtain ⟨-, u', u, h4, h5, h6⟩ := bwd hp'
  have hl : ∀ {w h : Nat} {q : List (GNode w h)} {u : GNode w h}, (q.map GNode.cell).getLast? = some u.cell → q.getLast? = some u := by
    intro w h q u hu
    rw [List.getLast?_map] at hu
    cases e : q.getLast? with
    | none => rw [e] at hu; cases hu
    | some v =>
      rw [e] at hu
      simp only [Option.map_some, Option.some.injEq] at hu
      rw [GNode.cell_inj hu]
  have e1 : u = t := GNode.cell_inj (Option.some.inj (h5.symm.trans h1))
  have e2 : u' = t' := GNode.cell_inj (Option.some.inj (h4.symm.trans h2))
  subst e1 e2
  refine ⟨u, u', hl h1, hl h2, ?_⟩
  have := le_antisymm h6 h3
  field_simp
  linarith

/-! ### Distances found by A* are a metric -/

section metric
open MapChange

variable {res : ℝ} {P : OpenList (GNode w h) ℝ} {cfg cfg1 cfg2 : SCfg (GNode w h) ℝ} {s v g : GNode w h}

theorem gridLen_append : ∀ (p q : List (Int × Int)) (u : Int × Int), p.getLast? = some u → q.head? = some u →
    gridLen (p ++ q.tail) = gridLen p + gridLen q
  | [], _, _, h, _ => by cases h
  | [a], q, u, h, h' => by
    simp only [List.getLast?_singleton, Option.some.injEq] at h
    subst h
    cases q with
    | nil => cases h'
    | cons b q =>
      simp only [List.head?_cons, Option.some.injEq] at h'
      subst h'
      simp [gridLen]
  | a :: b :: p, q, u, h, h' => by
    rw [List.getLast?_cons_cons] at h
    have ih := gridLen_append (b :: p) q u h h'
    simp only [List.cons_append, gridLen] at ih ⊢
    rw [ih]; ring

theorem freePath_append {f : Int × Int → Prop} {adj : Int × Int → Int × Int → Prop} {a b c : Int × Int} {p q : List (Int × Int)}
    (hp : FreePath w h f adj a b p) (hq : FreePath w h f adj b c q) : FreePath w h f adj a c (p ++ q.tail) := by
  have hpn : p ≠ [] := by rintro rfl; have := hp.head; cases this
  cases q with
  | nil => have := hq.head; cases this
  | cons x q =>
    have hx : x = b := by have := hq.head; simpa using this
    subst hx
    refine ⟨by rw [List.head?_append_of_ne_nil _ hpn]; exact hp.head, ?_, ?_, ?_⟩
    · cases q with
      | nil =>
        have := hq.last
        simp only [List.getLast?_singleton, Option.some.injEq] at this
        subst this
        simpa using hp.last
      | cons y q =>
        rw [List.tail_cons, List.getLast?_append_of_ne_nil _ (by simp)]
        have := hq.last
        rwa [List.getLast?_cons_cons] at this
    · refine List.isChain_append.2 ⟨hp.chain, hq.chain.tail, ?_⟩
      intro z hz y hy
      rw [hp.last] at hz
      simp only [Option.mem_def, Option.some.injEq] at hz
      subst hz
      cases q with
      | nil => cases hy
      | cons y' q =>
        simp only [List.tail_cons, List.head?_cons, Option.mem_def, Option.some.injEq] at hy
        subst hy
        exact (List.isChain_cons_cons.1 hq.chain).1
    · rw [List.tail_append_of_ne_nil hpn]
      intro z hz
      rcases List.mem_append.1 hz with hz | hz
      · exact hp.free z hz
      · exact hq.free z hz

/-- **C118 (triangle inequality).**  If A\* finds a way from `s` to `v` and one from `v` to `g` (`v` and `g` free), it finds one from
`s` to `g`, and the way found is at most as long as the other two together (each way completed by its last cell). -/
theorem triangle (hr : 0 < res) (L : Lawful P) (F : MinFirst P)
    (ht : TopOk cfg.top) (hx : ∀ k n g, cfg.canExpand k n g = none) (hab : ∀ k, cfg.abort k = false) (huse : cfg.useCands = false)
    (ht1 : TopOk cfg1.top) (hx1 : ∀ k n g, cfg1.canExpand k n g = none) (huse1 : cfg1.useCands = false)
    (ht2 : TopOk cfg2.top) (hx2 : ∀ k n g, cfg2.canExpand k n g = none) (huse2 : cfg2.useCands = false)
    (hs : cfg.start = [s]) (hg : cfg.goal = [g]) (hs1 : cfg1.start = [s]) (hg1 : cfg1.goal = [v]) (hs2 : cfg2.start = [v])
    (hg2 : cfg2.goal = [g]) (hfv : free v = true) (hfg : free g = true)
    {fuel fuel1 fuel2 : Nat} {p p1 p2 : List (GNode w h)} {st st1 st2}
    (hrun : findPathNodes (aStar free res) P cfg (freshLabels (aStar free res)) fuel = some (.ok p, st))
    (hrun1 : findPathNodes (aStar free res) P cfg1 (freshLabels (aStar free res)) fuel1 = some (.ok p1, st1)) (hp1 : p1 ≠ [])
    (hrun2 : findPathNodes (aStar free res) P cfg2 (freshLabels (aStar free res)) fuel2 = some (.ok p2, st2)) (hp2 : p2 ≠ []) :
    p ≠ [] ∧ gridLen (upTo g.cell (p.map GNode.cell)) ≤
      gridLen (upTo v.cell (p1.map GNode.cell)) + gridLen (upTo g.cell (p2.map GNode.cell)) := by
  obtain ⟨a1, -⟩ := upTo_shortest hr.le L F ht1 hx1 huse1 hs1 hg1 hfv hrun1 hp1
  obtain ⟨a2, -⟩ := upTo_shortest hr.le L F ht2 hx2 huse2 hs2 hg2 hfg hrun2 hp2
  have a3 := freePath_append a1 a2
  have hp : p ≠ [] := by
    rintro rfl
    exact grid_none hr.le (by norm_num) (.inr ⟨rfl, rfl⟩) .l2 L cfg ht hx hab hs hg hrun _ _ a3 (by unfold NearCell; simp)
  refine ⟨hp, ?_⟩
  obtain ⟨-, b⟩ := upTo_shortest hr.le L F ht hx huse hs hg hfg hrun hp
  have := le_of_mul_le_mul_right (b _ a3) hr
  rwa [gridLen_append _ _ _ a1.last a2.head] at this

theorem cellEucl_nonneg (u v : Int × Int) : 0 ≤ cellEucl u v := Real.sqrt_nonneg _

theorem cellEucl_pos {u v : Int × Int} (hne : u ≠ v) : 0 < cellEucl u v := by
  unfold cellEucl
  apply Real.sqrt_pos.2
  by_contra hcon
  push Not at hcon
  have h1 : ((v.1 - u.1 : Int) : ℝ) = 0 := by nlinarith [sq_nonneg ((v.1 - u.1 : Int) : ℝ), sq_nonneg ((v.2 - u.2 : Int) : ℝ)]
  have h2 : ((v.2 - u.2 : Int) : ℝ) = 0 := by nlinarith [sq_nonneg ((v.1 - u.1 : Int) : ℝ), sq_nonneg ((v.2 - u.2 : Int) : ℝ)]
  exact hne (Prod.ext (by have := Int.cast_eq_zero.1 h1; omega) (by have := Int.cast_eq_zero.1 h2; omega))

theorem gridLen_nonneg : ∀ p : List (Int × Int), 0 ≤ gridLen p
  | [] => le_refl _
  | [_] => le_refl _
  | u :: v :: l => by
    have := gridLen_nonneg (v :: l)
    have := cellEucl_nonneg u v
    simp only [gridLen]
    linarith

/-- **C118 (zero).**  The way found from a free cell to itself has length zero, every other way found has positive length. -/
theorem zero_iff (hr : 0 < res) (L : Lawful P) (F : MinFirst P) (ht : TopOk cfg.top) (hx : ∀ k n g, cfg.canExpand k n g = none)
    (huse : cfg.useCands = false) (hs : cfg.start = [s]) (hg : cfg.goal = [g]) (hfg : free g = true)
    {fuel : Nat} {p : List (GNode w h)} {st}
    (hrun : findPathNodes (aStar free res) P cfg (freshLabels (aStar free res)) fuel = some (.ok p, st)) (hp : p ≠ []) :
    gridLen (upTo g.cell (p.map GNode.cell)) = 0 ↔ s = g := by
  obtain ⟨a1, a2⟩ := upTo_shortest hr.le L F ht hx huse hs hg hfg hrun hp
  constructor
  · intro h0
    by_contra hne
    have hc : s.cell ≠ g.cell := fun e => hne (GNode.cell_inj e)
    set q := upTo g.cell (p.map GNode.cell) with hq
    match hq' : q with
    | [] => cases a1.head
    | [a] =>
      have e1 := a1.head
      have e2 := a1.last
      simp only [List.head?_cons, List.getLast?_singleton, Option.some.injEq] at e1 e2
      exact hc (e1.symm.trans e2)
    | a :: b :: l =>
      have := (List.isChain_cons_cons.1 a1.chain).1
      have h1 := cellEucl_pos this.1
      have h2 := gridLen_nonneg (b :: l)
      simp only [gridLen] at h0
      linarith
  · rintro rfl
    have hself : FreePath w h (freeCell free) (Adj8 1) s.cell s.cell [s.cell] :=
      ⟨rfl, rfl, by simp, by simp⟩
    have := le_of_mul_le_mul_right (a2 _ hself) hr
    simp only [gridLen] at this
    exact le_antisymm this (gridLen_nonneg _)

end metric

/-! ### The older A* -/

/-- A route of the older planner, moved. -/
theorem route_moved {f f' : Int × Int → Prop} (hm : Moved M f f') {s g : Int × Int} {p : List (Int × Int)}
    (hp : IsRoute f s g p) : IsRoute f' (M.act s) (M.act g) (p.map M.act) := by
  refine ⟨by rw [List.head?_map, hp.first]; rfl, by rw [List.getLast?_map, hp.last]; rfl, ?_, ?_⟩
  · rw [List.isChain_map]
    refine hp.steps.imp fun a b hab => ?_
    obtain ⟨h1, h2⟩ := act_abs M a b
    have hn : M.act a ≠ M.act b := fun e => hab.1 (act_inj M e)
    obtain ⟨-, h3, h4⟩ := hab
    cases hs : M.swap <;> simp only [hs, if_true, if_false, Bool.false_eq_true] at h1 h2
    · exact ⟨hn, by rw [h1]; exact h3, by rw [h2]; exact h4⟩
    · exact ⟨hn, by rw [h1]; exact h4, by rw [h2]; exact h3⟩
  · intro c hc
    rw [← List.map_dropLast, List.mem_map] at hc
    obtain ⟨d, hd, rfl⟩ := hc
    exact (hm d).1 (hp.free d hd)

/-- **C118 (the older A\*).**  `planPath` on a turned, mirrored or shifted copy of a map succeeds exactly if it succeeds on the map,
whatever the arithmetic of the two planners does. -/
theorem legacy_moved {A A' : Legacy.Arith F} {K : Type} [Field K] [LinearOrder K] [IsStrictOrderedRing K] [FloorRing K] {m m' : GridMap K}
    {o o' : Legacy.OL F} (h : Legacy.AStarObj A m o) (h' : Legacy.AStarObj A' m' o')
    (hm : Moved M (Legacy.FreeCell m) (Legacy.FreeCell m')) (start goal : Legacy.WP)
    (hs : Legacy.Cell m start ↔ Legacy.Cell m' (M.act start)) (hg : Legacy.Cell m goal ↔ Legacy.Cell m' (M.act goal))
    {fuel : Nat} (hf : m.width * m.height < fuel) (hf' : m'.width * m'.height < fuel) :
    ∃ r r', Legacy.planPath A m fuel o start goal = .ok (some r) ∧
      Legacy.planPath A' m' fuel o' (M.act start) (M.act goal) = .ok (some r') ∧ r.found = r'.found := by
  obtain ⟨r, e1, e2⟩ := Legacy.planPath_complete h start goal hf
  obtain ⟨r', e3, e4⟩ := Legacy.planPath_complete h' (M.act start) (M.act goal) hf'
  refine ⟨r, r', e1, e3, ?_⟩
  rw [Bool.eq_iff_iff, e2, e4, hs, hg]
  constructor
  · rintro ⟨c1, c2, p, hp⟩
    exact ⟨c1, c2, _, route_moved hm hp⟩
  · rintro ⟨c1, c2, p, hp⟩
    have := route_moved (moved_back hm) hp
    rw [back_act, back_act] at this
    exact ⟨c1, c2, _, this⟩

end Symmetry
end PathPlanning
