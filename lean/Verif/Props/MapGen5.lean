import Verif.Props.MapGen4

/-!
# The map generators (C55): every room can be reached; findings
-/

namespace PathPlanning.MapGen
open Spec

/-- One step between white pixels. -/
def PixStep (O : Int × Int → Prop) (a b : Int × Int) : Prop := Adj4 1 a b ∧ O a ∧ O b

theorem PixStep.symm {O : Int × Int → Prop} {a b : Int × Int} (h : PixStep O a b) : PixStep O b a := by
  refine ⟨?_, h.2.2, h.2.1⟩
  rcases h.1 with ⟨h1, h2⟩ | ⟨h1, h2⟩
  · exact .inl ⟨by rw [abs_sub_comm]; exact h1, h2.symm⟩
  · exact .inr ⟨h1.symm, by rw [abs_sub_comm]; exact h2⟩

theorem conn_symm {O : Int × Int → Prop} {a b : Int × Int} (h : Relation.ReflTransGen (PixStep O) a b) :
    Relation.ReflTransGen (PixStep O) b a := by
  induction h with
  | refl => exact .refl
  | tail _ hbc ih => exact Relation.ReflTransGen.head hbc.symm ih

theorem line_x {O : Int × Int → Prop} {x y : Int} : ∀ n : Nat, (∀ t : Int, 0 ≤ t → t ≤ n → O (x + t, y)) →
    Relation.ReflTransGen (PixStep O) (x, y) (x + n, y) := by
  intro n
  induction n with
  | zero => intro _; simp; exact .refl
  | succ n ih =>
    intro hO
    refine Relation.ReflTransGen.tail (ih fun t h0 h1 => hO t h0 (by push_cast; omega)) ⟨?_, hO n (by omega) (by push_cast; omega), ?_⟩
    · refine .inl ⟨?_, rfl⟩
      simp only
      push_cast
      rw [show x + ((n : Int) + 1) - (x + n) = 1 by ring]; rfl
    · have := hO (n + 1) (by omega) (by push_cast; omega)
      push_cast; exact this

theorem line_y {O : Int × Int → Prop} {x y : Int} : ∀ n : Nat, (∀ t : Int, 0 ≤ t → t ≤ n → O (x, y + t)) →
    Relation.ReflTransGen (PixStep O) (x, y) (x, y + n) := by
  intro n
  induction n with
  | zero => intro _; simp; exact .refl
  | succ n ih =>
    intro hO
    refine Relation.ReflTransGen.tail (ih fun t h0 h1 => hO t h0 (by push_cast; omega)) ⟨?_, hO n (by omega) (by push_cast; omega), ?_⟩
    · refine .inr ⟨rfl, ?_⟩
      simp only
      push_cast
      rw [show y + ((n : Int) + 1) - (y + n) = 1 by ring]; rfl
    · have := hO (n + 1) (by omega) (by push_cast; omega)
      push_cast; exact this

/-- The upper left pixel of a room. -/
def corner (W b : Int) (p : Room) : Int × Int := ((rectFor W b p).x, (rectFor W b p).y)

variable {half : Int → Int} {W b w h rows cols : Int} {links : List (Room × Room)}

theorem room_conn (hg : GoodWidth W b) (hf : Fits W w h rows cols) {p q : Room} (hp : InGrid w h p)
    (hl : Linked links p q) {px : Int × Int} (hx : InRect (rectFor W b p) px) :
    Relation.ReflTransGen (PixStep (Carved half W b rows cols links)) (corner W b p) px := by
  have ho : ∀ y, InRect (rectFor W b p) y → Carved half W b rows cols links y := fun y hy => room_open hg hf hp hl hy
  simp only [InRect, rectFor] at hx ho
  obtain ⟨a, ha⟩ : ∃ a : Nat, px.1 = p.1 * W + b.tdiv 2 + a := ⟨(px.1 - (p.1 * W + b.tdiv 2)).toNat, by omega⟩
  obtain ⟨c, hc⟩ : ∃ c : Nat, px.2 = p.2 * W + b.tdiv 2 + c := ⟨(px.2 - (p.2 * W + b.tdiv 2)).toNat, by omega⟩
  have e : px = (p.1 * W + b.tdiv 2 + a, p.2 * W + b.tdiv 2 + c) := Prod.ext ha hc
  rw [e]
  refine Relation.ReflTransGen.trans (line_x a ?_) (line_y c ?_)
  · intro t h0 h1; apply ho; simp only [rectFor]; omega
  · intro t h0 h1; apply ho; simp only [rectFor]; omega

theorem link_conn (hh : HalfRound half) (hg : GoodWidth W b) (hf : Fits W w h rows cols)
    (hl : ∀ l ∈ links, Adj4 1 l.1 l.2) {p q : Room} (hp : InGrid w h p) (hq : InGrid w h q) (hpq : Linked links p q) :
    Relation.ReflTransGen (PixStep (Carved half W b rows cols links)) (corner W b p) (corner W b q) := by
  have hadj : Adj4 1 p q := by
    rcases hpq with hx | hx
    · exact hl _ hx
    · have := hl _ hx
      rcases this with ⟨h1, h2⟩ | ⟨h1, h2⟩
      · exact .inl ⟨by rw [abs_sub_comm]; exact h1, h2.symm⟩
      · exact .inr ⟨h1.symm, by rw [abs_sub_comm]; exact h2⟩
  wlog hord : q = (p.1 + 1, p.2) ∨ q = (p.1, p.2 + 1) generalizing p q with H
  · have hsw : p = (q.1 + 1, q.2) ∨ p = (q.1, q.2 + 1) := by
      rcases adj4_cases hadj with (h1 | h1) | (h1 | h1)
      · exact absurd (.inl h1) hord
      · exact .inl h1
      · exact absurd (.inr h1) hord
      · exact .inr h1
    have hqp : Adj4 1 q p := by rcases hsw with e | e <;> rw [e] <;> simp [Adj4]
    exact conn_symm (H hq hp hpq.symm hqp hsw)
  have hg' := hg
  obtain ⟨g1, g2, g3⟩ := hg
  have hq4 : W.tdiv 4 = W / 4 := Int.tdiv_eq_ediv_of_nonneg (by omega)
  rw [hq4] at g3
  have hrp : ∀ y, InRect (rectFor W b p) y → Carved half W b rows cols links y := fun y hy => room_open hg' hf hp hpq hy
  have hrq : ∀ y, InRect (rectFor W b q) y → Carved half W b rows cols links y := fun y hy => room_open hg' hf hq hpq.symm hy
  have hwl : ∀ y, Between (rectFor W b p) (rectFor W b q) y → Carved half W b rows cols links y :=
    fun y hy => (wall_iff hh hg' hf hl hp hq hadj hy).2 hpq
  have ex : (p.1 + 1) * W = p.1 * W + W := by ring
  have ey : (p.2 + 1) * W = p.2 * W + W := by ring
  obtain ⟨n, hn⟩ : ∃ n : Nat, W = n := ⟨W.toNat, by omega⟩
  rcases hord with rfl | rfl
  · have := line_x (O := Carved half W b rows cols links) (x := p.1 * W + b.tdiv 2) (y := p.2 * W + b.tdiv 2) n (by
      intro t h0 h1
      simp only [InRect, rectFor, Between, ex] at hrp hrq hwl
      rcases lt_or_ge t (W - b) with k1 | k1
      · apply hrp; simp only; omega
      · rcases lt_or_ge t W with k2 | k2
        · apply hwl; simp only; omega
        · apply hrq; simp only; omega)
    have e : corner W b (p.1 + 1, p.2) = (p.1 * W + b.tdiv 2 + n, p.2 * W + b.tdiv 2) := by
      simp only [corner, rectFor, ex, Prod.mk.injEq, and_true]; omega
    rw [e]; exact this
  · have := line_y (O := Carved half W b rows cols links) (x := p.1 * W + b.tdiv 2) (y := p.2 * W + b.tdiv 2) n (by
      intro t h0 h1
      simp only [InRect, rectFor, Between, ey] at hrp hrq hwl
      rcases lt_or_ge t (W - b) with k1 | k1
      · apply hrp; simp only; omega
      · rcases lt_or_ge t W with k2 | k2
        · apply hwl; simp only; omega
        · apply hrq; simp only; omega)
    have e : corner W b (p.1, p.2 + 1) = (p.1 * W + b.tdiv 2, p.2 * W + b.tdiv 2 + n) := by
      simp only [corner, rectFor, ey, Prod.mk.injEq, true_and]; omega
    rw [e]; exact this

/-- **C55 (solvable).**  If the passages connect all rooms (of which there are at least two), then in the picture any two
pixels of rooms are joined by a way of white pixels. -/
theorem picture_connected (hh : HalfRound half) (hg : GoodWidth W b) (hf : Fits W w h rows cols)
    (hl : ∀ l ∈ links, Adj4 1 l.1 l.2) (ht : (mazeGraph w h links).Connected) (h2 : ∃ a b, InGrid w h a ∧ InGrid w h b ∧ a ≠ b)
    {p q : Room} (hp : InGrid w h p) (hq : InGrid w h q) {a c : Int × Int} (ha : InRect (rectFor W b p) a)
    (hc : InRect (rectFor W b q) c) : Relation.ReflTransGen (PixStep (Carved half W b rows cols links)) a c := by
  have hex : ∀ x : {p : Room // InGrid w h p}, ∃ y, Linked links x.1 y := by
    intro x
    obtain ⟨u, u', hu, hu', hne⟩ := h2
    obtain ⟨y, hy, hxy⟩ : ∃ y : {p : Room // InGrid w h p}, x ≠ y ∧ (mazeGraph w h links).Reachable x y := by
      by_cases hxu : x = ⟨u, hu⟩
      · exact ⟨⟨u', hu'⟩, fun e => hne (by rw [hxu] at e; simpa using e), ht.preconnected _ _⟩
      · exact ⟨⟨u, hu⟩, hxu, ht.preconnected _ _⟩
    obtain ⟨walk⟩ := hxy
    cases walk with
    | nil => exact absurd rfl hy
    | cons hadj _ => exact ⟨_, hadj.2⟩
  have hcorner : ∀ x y : {p : Room // InGrid w h p}, (mazeGraph w h links).Reachable x y →
      Relation.ReflTransGen (PixStep (Carved half W b rows cols links)) (corner W b x.1) (corner W b y.1) := by
    rintro x y ⟨walk⟩
    induction walk with
    | nil => exact .refl
    | @cons u v _ hadj _ ih => exact (link_conn hh hg hf hl u.2 v.2 hadj.2).trans ih
  obtain ⟨p', hp'⟩ := hex ⟨p, hp⟩
  obtain ⟨q', hq'⟩ := hex ⟨q, hq⟩
  exact ((conn_symm (room_conn hg hf hp hp' ha)).trans (hcorner ⟨p, hp⟩ ⟨q, hq⟩ (ht.preconnected _ _))).trans
    (room_conn hg hf hq hq' hc)

section
variable {K : Type} [Field K] [LinearOrder K] [IsStrictOrderedRing K] [FloorRing K] {rnd : Nat → Nat}

/-- **C55 (maze).**  A finished maze with rooms of width at least 2: the pixels of any two rooms are joined by a way of
white pixels (so start and goal are connected), and of the wall between two neighbouring rooms either all pixels are
white (if they are linked) or none. -/
theorem maze_picture (hh : HalfRound half) {width : Int} (hw : 2 ≤ width) (hr : 0 ≤ rows ∧ rows ≤ 2147483648)
    (hc : 0 ≤ cols ∧ cols ≤ 2147483648) {m : Maze} (hm : Maze.new width rows cols = .ok m) {sx sy : K} (hx0 : 0 ≤ sx)
    (hx1 : sx / (m.width : K) < ((cols / width : Int) : K)) (hy0 : 0 ≤ sy)
    (hy1 : sy / (m.width : K) < ((rows / width : Int) : K)) {fuel : Nat} {s : MSt} (hs : m.run rnd sx sy fuel = .ok (some s)) :
    ((2 ≤ rows / width ∨ 2 ≤ cols / width) → ∀ p q, InGrid (rows / width) (cols / width) p →
      InGrid (rows / width) (cols / width) q → ∀ a c, InRect (rectFor m.width m.border p) a → InRect (rectFor m.width m.border q) c →
        Relation.ReflTransGen (PixStep (Carved half m.width m.border rows cols s.links)) a c) ∧
    (∀ p q, InGrid (rows / width) (cols / width) p → InGrid (rows / width) (cols / width) q → Adj4 1 p q →
      ∀ px, Between (rectFor m.width m.border p) (rectFor m.width m.border q) px →
        (Carved half m.width m.border rows cols s.links px ↔ Linked s.links p q)) := by
  obtain ⟨r, e1, e2, _⟩ := run_spec (rnd := rnd) (by omega : 1 ≤ width) hr hc hm hx0 hx1 hy0 hy1 fuel
  rw [hs, CRes.ok.injEq] at e1
  obtain ⟨t1, t2⟩ := e2 s e1.symm
  have hmw : m.width = width ∧ m.border = max 1 (width.tdiv 4) := by
    rw [new_spec (by omega) hr.1 hc.1, CRes.ok.injEq] at hm
    subst hm
    exact ⟨max_eq_right hw, rfl⟩
  obtain ⟨w1, w2⟩ := hmw
  have hg : GoodWidth m.width m.border := by
    rw [w1, w2]; exact ⟨hw, le_max_left _ _, le_refl _⟩
  have hf : Fits m.width (rows / width) (cols / width) rows cols := by
    rw [w1]
    exact ⟨Int.ediv_mul_le _ (by omega), Int.ediv_mul_le _ (by omega)⟩
  have hin : 0 < cols / width ∧ 0 < rows / width := by
    have hwp : (0 : K) ≤ (m.width : K) := by rw [w1]; exact_mod_cast (by omega : (0 : Int) ≤ width)
    have a1 := lt_of_le_of_lt (div_nonneg hx0 hwp) hx1
    have a2 := lt_of_le_of_lt (div_nonneg hy0 hwp) hy1
    exact ⟨by exact_mod_cast a1, by exact_mod_cast a2⟩
  refine ⟨?_, ?_⟩
  · intro h2 p q hp hq a c ha hc'
    refine picture_connected hh hg hf (fun l hl => (t2 l hl).2.2) t1.connected ?_ hp hq ha hc'
    rcases h2 with h2 | h2
    · exact ⟨(0, 0), (0, 1), ⟨⟨le_refl _, hin.1⟩, le_refl _, hin.2⟩, ⟨⟨le_refl _, hin.1⟩, by norm_num, by simp; omega⟩,
        by simp⟩
    · exact ⟨(0, 0), (1, 0), ⟨⟨le_refl _, hin.1⟩, le_refl _, hin.2⟩, ⟨⟨by norm_num, by simp; omega⟩, le_refl _, hin.2⟩,
        by simp⟩
  · intro p q hp hq hpq px hb
    exact wall_iff hh hg hf (fun l hl => (t2 l hl).2.2) hp hq hpq hb

/-- **C55, concrete maze.**  An 8 by 8 picture with rooms of width 4, started at the origin with the random numbers
0, 1, 2, …: the run ends, and its passages form a tree on the four rooms. -/
theorem run_example : ∃ (m : Maze) (s : MSt), Maze.new 4 8 8 = .ok m ∧ m.run (K := ℚ) id 0 0 10 = .ok (some s) ∧
    (mazeGraph 2 2 s.links).IsTree := by
  have hf : Fair id := by
    intro pos n hn
    exact ⟨4 * pos + n - pos, by simp only [id]; omega⟩
  obtain ⟨r, e1, e2, e3⟩ := run_spec (K := ℚ) (rnd := id) (width := 4) (rows := 8) (cols := 8) (by norm_num) (by norm_num)
    (by norm_num) (new_spec (by norm_num) (by norm_num) (by norm_num)) (sx := 0) (sy := 0) (by norm_num) (by norm_num)
    (by norm_num) (by norm_num) 10
  have : r ≠ none := e3 hf (by norm_num)
  cases r with
  | none => exact absurd rfl this
  | some s =>
    refine ⟨_, s, new_spec (by norm_num) (by norm_num) (by norm_num), e1, ?_⟩
    have := (e2 s rfl).1
    exact this

/-- **C55 (Hilbert curve).**  If the picture has at least 257 rooms in each row and column, the pixels of the rooms (1,1) to
(256,256) are joined by ways of white pixels, and of the walls between neighbouring rooms exactly those along the curve
are gone. -/
theorem hilbert_picture (hh : HalfRound half) (hW : 2 ≤ W) (hf : Fits W w h rows cols) (hw : 257 ≤ w) (hh' : 257 ≤ h) :
    (∀ p q, Square (1, 1) 256 p → Square (1, 1) 256 q → ∀ a c, InRect (rectFor W 1 p) a → InRect (rectFor W 1 q) c →
      Relation.ReflTransGen (PixStep (Carved half W 1 rows cols hilbertRun.links)) a c) ∧
    (∀ p q, InGrid w h p → InGrid w h q → Adj4 1 p q → ∀ px, Between (rectFor W 1 p) (rectFor W 1 q) px →
      (Carved half W 1 rows cols hilbertRun.links px ↔ Linked hilbertRun.links p q)) := by
  obtain ⟨path, h1, h2, h3⟩ := hilbertRun_spec
  have hg : GoodWidth W 1 := ⟨hW, le_refl _, le_max_left _ _⟩
  have hadj : ∀ l ∈ hilbertRun.links, Adj4 1 l.1 l.2 := by
    intro l hl
    rw [h3] at hl
    obtain ⟨i, hi, rfl⟩ := List.getElem_of_mem hl
    simp only [List.length_zip, List.length_tail] at hi
    simp only [List.getElem_zip, List.getElem_tail]
    exact List.isChain_iff_getElem.1 h1.chain i (by omega)
  have hstep : ∀ (i : Nat) (hi : i + 1 < path.length), Linked hilbertRun.links path[i] path[i + 1] := by
    intro i hi
    left
    rw [h3]
    refine List.mem_iff_getElem.2 ⟨i, by simp; omega, by simp⟩
  have hin : ∀ p, Square (1, 1) 256 p → InGrid w h p := by
    intro p hp
    simp only [Square] at hp
    simp only [InGrid]
    omega
  have hmem : ∀ (i : Nat) (hi : i < path.length), InGrid w h path[i] := fun i hi =>
    hin _ ((h1.mem _).1 (List.getElem_mem hi))
  have h0 : 0 < path.length := by omega
  have hreach : ∀ (i : Nat) (hi : i < path.length),
      Relation.ReflTransGen (PixStep (Carved half W 1 rows cols hilbertRun.links)) (corner W 1 path[0]) (corner W 1 path[i]) := by
    intro i
    induction i with
    | zero => intro _; exact .refl
    | succ i ih =>
      intro hi
      exact (ih (by omega)).trans (link_conn hh hg hf hadj (hmem i (by omega)) (hmem (i + 1) hi) (hstep i hi))
  have hlink : ∀ (i : Nat) (hi : i < path.length), ∃ y, Linked hilbertRun.links path[i] y := by
    intro i hi
    by_cases hlast : i + 1 < path.length
    · exact ⟨_, hstep i hlast⟩
    · obtain ⟨j, rfl⟩ : ∃ j, i = j + 1 := ⟨i - 1, by omega⟩
      exact ⟨_, (hstep j hi).symm⟩
  refine ⟨?_, fun p q hp hq hpq px hb => wall_iff hh hg hf hadj hp hq hpq hb⟩
  intro p q hp hq a c ha hc
  obtain ⟨i, hi, rfl⟩ := List.getElem_of_mem ((h1.mem p).2 hp)
  obtain ⟨j, hj, rfl⟩ := List.getElem_of_mem ((h1.mem q).2 hq)
  obtain ⟨y, hy⟩ := hlink i hi
  obtain ⟨z, hz⟩ := hlink j hj
  exact ((conn_symm (room_conn hg hf (hmem i hi) hy ha)).trans ((conn_symm (hreach i hi)).trans (hreach j hj))).trans
    (room_conn hg hf (hmem j hj) hz hc)

/-! ### Findings -/

/-- **C55, finding.**  A start pose in the picture but beyond the last complete room of a row makes `run` write outside
the array. -/
theorem start_beyond_ub {width : Int} (hw : 2 ≤ width) (hr : 0 ≤ rows) (hc : 0 ≤ cols ∧ cols ≤ 2147483647) {m : Maze}
    (hm : Maze.new width rows cols = .ok m) {sx sy : K} (hx0 : ((cols / width * width : Int) : K) ≤ sx) (hx1 : sx < cols)
    (fuel : Nat) : m.run rnd sx sy fuel = .ub := by
  rw [new_spec (by omega) hr hc.1, CRes.ok.injEq] at hm
  subst hm
  have hwp : (0 : K) < ((max 2 width : Int) : K) := by exact_mod_cast (by omega : (0 : Int) < max 2 width)
  have hmx : max 2 width = width := max_eq_right hw
  have hfl : ⌊sx / ((max 2 width : Int) : K)⌋ = cols / width := by
    rw [Int.floor_eq_iff, le_div_iff₀ hwp, div_lt_iff₀ hwp, hmx]
    refine ⟨by push_cast at hx0; exact hx0, lt_of_lt_of_le hx1 ?_⟩
    have := Int.lt_ediv_add_one_mul_self cols (show 0 < width by omega)
    have h2 : cols ≤ (cols / width + 1) * width := this.le
    exact_mod_cast h2
  have h0 : 0 ≤ cols / width := Int.ediv_nonneg hc.1 (by omega)
  have hle : cols / width ≤ cols := Int.ediv_le_self _ hc.1
  have hsx : 0 ≤ sx / ((max 2 width : Int) : K) := by
    by_contra hneg
    have : ⌊sx / ((max 2 width : Int) : K)⌋ < 0 := Int.floor_lt.2 (by rw [Int.cast_zero]; exact not_le.1 hneg)
    omega
  have hcx : castI (sx / ((max 2 width : Int) : K)) = .ok (cols / width) := by
    unfold castI
    rw [truncC_nonneg hsx, hfl, if_pos ⟨by omega, by omega⟩]
  unfold Maze.run
  simp only [hcx, CRes.ok_bind]
  cases hy : castI (sy / ((max 2 width : Int) : K)) with
  | ok y =>
    simp only [CRes.ok_bind]
    unfold mark writeV idx
    simp
  | throw e => unfold castI at hy; split_ifs at hy
  | ub => rfl

theorem nextCell_in {w h : Int} {p : Room} (hp : InGrid w h p) : InGrid w h (nextCell w h p) := by
  simp only [InGrid] at hp ⊢
  unfold nextCell
  simp only
  split_ifs <;> simp only at * <;> omega

/-- **C55, finding.**  `run` works only once: a second run on the same object (more than one room) never ends. -/
theorem second_run_diverges {w h : Int} {start : Room} {s : MSt} (d : Dfs w h start s) (he : s.expanded = w * h)
    (hN : 2 ≤ w * h) {p : Room} (hp : InGrid w h p) (pos : Nat) (fuel : Nat) :
    ∃ s2, mark w h ⟨s.visited, 0, [], p, [], pos⟩ p = .ok s2 ∧ runLoop rnd w h fuel s2 = .ok none := by
  have hall := all_visited d.len (by rw [← d.exp]; exact he)
  obtain ⟨e, h0, h1⟩ := idx_in hp
  have hi : (p.2 * h + p.1).toNat < s.visited.length := by rw [d.len]; omega
  refine ⟨⟨s.visited.set (p.2 * h + p.1).toNat true, 1, [], p, [], pos⟩, ?_, ?_⟩
  · unfold mark writeV vset
    simp only [e, if_neg (not_lt.2 h0), if_pos hi, CRes.ok_bind]; rfl
  have hlen : (s.visited.set (p.2 * h + p.1).toNat true).length = (w * h).toNat := by simpa using d.len
  have hall' : ∀ q, InGrid w h q → IsV h (s.visited.set (p.2 * h + p.1).toNat true) q := by
    intro q hq
    have := hall q hq
    unfold IsV at this ⊢
    by_cases hx : (p.2 * h + p.1).toNat = (q.2 * h + q.1).toNat
    · rw [← hx]; simp [hi]
    · rw [List.getElem?_set_ne hx]; exact this
  cases fuel with
  | zero => rfl
  | succ n =>
    unfold runLoop
    rw [if_pos (by simp only; omega)]
    obtain ⟨a, ha, hav⟩ := hasUnvisited_iff hlen hp
    have : a = false := by
      cases a with
      | false => rfl
      | true =>
        obtain ⟨q, _, hq, hqv⟩ := hav.1 rfl
        exact absurd (hall' q hq) hqv
    subst this
    simp only [ha, CRes.ok_bind, Bool.false_eq_true, if_false]
    have hpick : pickCell rnd w h (s.visited.set (p.2 * h + p.1).toNat true) pos = .ok none := by
      simp only [InGrid] at hp
      unfold pickCell
      rw [if_neg (by omega)]
      have hin : ∀ k, InGrid w h ((nextCell w h)^[k] ((rnd pos : Int).tmod h, (rnd (pos + 1) : Int).tmod w)) := by
        intro k
        induction k with
        | zero =>
          refine ⟨⟨Int.tmod_nonneg _ (by omega), Int.tmod_lt_of_pos _ (by omega)⟩, Int.tmod_nonneg _ (by omega),
            Int.tmod_lt_of_pos _ (by omega)⟩
        | succ k ih => rw [Function.iterate_succ_apply']; exact nextCell_in ih
      have : firstExit (fun k => readV (s.visited.set (p.2 * h + p.1).toNat true)
          (idx w h ((nextCell w h)^[k] ((rnd pos : Int).tmod h, (rnd (pos + 1) : Int).tmod w))) ≠ .ok true) = none := by
        rw [firstExit_none]
        intro k hk
        obtain ⟨b', hb', hbv⟩ := read_in hlen (hin k)
        rw [hb', hbv.2 (hall' _ (hin k))] at hk
        exact hk rfl
      simp only [this]
    rw [hpick]
    rfl

/-- **C55, finding.**  With a constructor argument of 1 (which the evaluator passes for small widths) the rooms are two
pixels wide but as many as there are pixels: the rooms of the right half lie outside the picture. -/
theorem width_one_outside (hr : 0 ≤ rows) (hc : 0 ≤ cols) : ∃ m, Maze.new 1 rows cols = .ok m ∧ m.w = rows ∧ m.h = cols ∧
    ∀ p, InGrid m.w m.h p → cols ≤ 2 * p.1 → ∀ px, InRect (rectFor m.width m.border p) px →
      ∀ half links, ¬ Carved half m.width m.border rows cols links px := by
  refine ⟨_, new_spec (by norm_num) hr hc, by simp, by simp, ?_⟩
  intro p hp hpc px hin half links hcv
  have := hcv.1
  have e1 : max 1 (Int.tdiv 1 4) = 1 := by decide
  have e2 : Int.tdiv 1 2 = 0 := by decide
  have e3 : max 2 (1 : Int) = 2 := by decide
  simp only [InRect, rectFor, e1, e2, e3] at hin
  omega

/-- **C55, finding.**  A picture of a single room stays as it is. -/
theorem single_room_untouched {width : Int} (hw : 1 ≤ width) (hr : 0 ≤ rows) (hc : 0 ≤ cols) (h1 : rows / width = 1)
    (h2 : cols / width = 1) {m : Maze} (hm : Maze.new width rows cols = .ok m) {sx sy : K} (hx0 : 0 ≤ sx)
    (hx1 : sx < m.width) (hy0 : 0 ≤ sy) (hy1 : sy < m.width) (n : Nat) :
    ∃ s, m.run rnd sx sy (n + 1) = .ok (some s) ∧ s.links = [] := by
  rw [new_spec hw hr hc, CRes.ok.injEq] at hm
  subst hm
  simp only at hx1 hy1
  have hwp : (0 : K) < ((max 2 width : Int) : K) := by exact_mod_cast (by omega : (0 : Int) < max 2 width)
  obtain ⟨x, cx, _, x0, x1⟩ := castI_room (n := 1) (div_nonneg hx0 hwp.le) (by rw [div_lt_iff₀ hwp]; simpa using hx1) (by norm_num)
  obtain ⟨y, cy, _, y0, y1⟩ := castI_room (n := 1) (div_nonneg hy0 hwp.le) (by rw [div_lt_iff₀ hwp]; simpa using hy1) (by norm_num)
  have ex : x = 0 := by omega
  have ey : y = 0 := by omega
  subst ex; subst ey
  unfold Maze.run
  simp only [cx, cy, CRes.ok_bind, h1, h2]
  refine ⟨⟨[true], 1, [], (0, 0), [], 0⟩, ?_, rfl⟩
  have : mark 1 1 ⟨List.replicate (1 * 1 : Int).toNat false, 0, [], (0, 0), [], 0⟩ (0, 0) =
      .ok ⟨[true], 1, [], (0, 0), [], 0⟩ := rfl
  rw [this]
  simp only [CRes.ok_bind]
  unfold runLoop
  simp

end

end PathPlanning.MapGen
