import Verif.Props.MapGen2
import Verif.Props.Collision

/-!
# The maze generator (C55): the whole run
-/

namespace PathPlanning.MapGen
open Spec

variable {w h : Int} {rnd : Nat → Nat}

theorem mem_rooms (p : Room) : p ∈ rooms w h ↔ InGrid w h p := by
  unfold rooms
  simp only [List.mem_flatMap, List.mem_map, List.mem_range, InGrid]
  constructor
  · rintro ⟨y, hy, x, hx, rfl⟩
    simp only
    omega
  · rintro ⟨⟨h1, h2⟩, h3, h4⟩
    exact ⟨p.2.toNat, by omega, p.1.toNat, by omega, Prod.ext (by simp; omega) (by simp; omega)⟩

theorem fold_clear : ∀ (l : List Room) (v : List Bool), v.length = (w * h).toNat → (∀ p ∈ l, InGrid w h p) →
    ∃ v', l.foldlM (fun v p => writeV v (idx w h p) false) v = .ok v' ∧ v'.length = (w * h).toNat ∧
      ∀ i : Nat, v'[i]? = some true → v[i]? = some true ∧ ∀ p ∈ l, (p.2 * h + p.1).toNat ≠ i := by
  intro l
  induction l with
  | nil => intro v hv _; exact ⟨v, rfl, hv, fun i hi => ⟨hi, by simp⟩⟩
  | cons p l ih =>
    intro v hv hl
    obtain ⟨e, h0, h1⟩ := idx_in (hl p (by simp))
    have hi : (p.2 * h + p.1).toNat < v.length := by rw [hv]; omega
    obtain ⟨v', a1, a2, a3⟩ := ih (v.set (p.2 * h + p.1).toNat false) (by simpa using hv) fun q hq => hl q (by simp [hq])
    refine ⟨v', ?_, a2, ?_⟩
    · rw [List.foldlM_cons]
      unfold writeV vset at a1 ⊢
      simp only [e, if_neg (not_lt.2 h0), if_pos hi, CRes.ok_bind]
      exact a1
    · intro i hvi
      obtain ⟨b1, b2⟩ := a3 i hvi
      by_cases hpi : (p.2 * h + p.1).toNat = i
      · subst hpi
        simp [hi] at b1
      · rw [List.getElem?_set_ne hpi] at b1
        refine ⟨b1, ?_⟩
        intro q hq
        rcases List.mem_cons.1 hq with rfl | hq
        · exact hpi
        · exact b2 q hq

/-- After construction no room is visited. -/
theorem initVisited_spec (hw : 0 ≤ w) (hh : 0 ≤ h) :
    initVisited w h = .ok (List.replicate (w * h).toNat false) := by
  have hN : 0 ≤ w * h := mul_nonneg hw hh
  obtain ⟨v', a1, a2, a3⟩ := fold_clear (w := w) (h := h) (rooms w h) (List.replicate (w * h).toNat true) (by simp)
    fun p hp => (mem_rooms p).1 hp
  unfold initVisited
  rw [if_neg (by omega), a1]
  congr 1
  refine List.eq_replicate_iff.2 ⟨a2, ?_⟩
  intro b hb
  obtain ⟨i, hi, rfl⟩ := List.getElem_of_mem hb
  cases hx : v'[i] with
  | false => rfl
  | true =>
    exfalso
    obtain ⟨_, b2⟩ := a3 i (by rw [List.getElem?_eq_getElem hi, hx])
    have hpos : 0 < h := by
      rcases hh.lt_or_eq with h1 | h1
      · exact h1
      · rw [a2, ← h1] at hi; simp at hi
    have hN' : (i : Int) < w * h := by omega
    have e1 := Int.emod_nonneg (i : Int) hpos.ne'
    have e2 := Int.emod_lt_of_pos (i : Int) hpos
    have e3 := Int.mul_ediv_add_emod (i : Int) h
    refine b2 ((i : Int) % h, (i : Int) / h) ((mem_rooms _).2 ⟨⟨e1, e2⟩, Int.ediv_nonneg (by omega) hpos.le,
      Int.ediv_lt_of_lt_mul hpos hN'⟩) ?_
    simp only
    rw [mul_comm, e3]; simp

theorem new_spec {width rows cols : Int} (hw : 1 ≤ width) (hr : 0 ≤ rows) (hc : 0 ≤ cols) :
    Maze.new width rows cols = .ok ⟨max 2 width, max 1 (width.tdiv 4), rows / width, cols / width, rows, cols,
      List.replicate (rows / width * (cols / width)).toNat false⟩ := by
  unfold Maze.new
  rw [if_neg (by omega)]
  simp only [Int.tdiv_eq_ediv_of_nonneg hr, Int.tdiv_eq_ediv_of_nonneg hc]
  rw [initVisited_spec (Int.ediv_nonneg hr (by omega)) (Int.ediv_nonneg hc (by omega))]
  rfl

theorem not_isV_replicate {n : Nat} (p : Room) : ¬ IsV h (List.replicate n false) p := by
  unfold IsV
  rw [List.getElem?_replicate]
  split_ifs <;> simp

/-- The state after marking the first room. -/
theorem first_dfs {p : Room} (hp : InGrid w h p) :
    ∃ s, mark w h ⟨List.replicate (w * h).toNat false, 0, [], p, [], 0⟩ p = .ok s ∧ Dfs w h p s ∧ IsV h s.visited p ∧
      s.expanded = 1 ∧ s.stack = [] := by
  obtain ⟨v', e1, e2, e3, e4⟩ := write_in (v := List.replicate (w * h).toNat false) (by simp) hp (not_isV_replicate p)
  refine ⟨⟨v', 1, [], p, [], 0⟩, by unfold mark; simp only [e1, CRes.ok_bind]; rfl, ?_, (e4 p hp).2 (.inl rfl), rfl, rfl⟩
  have hone : ∀ q, InGrid w h q → IsV h v' q → q = p := by
    intro q hq hqv
    rcases (e4 q hq).1 hqv with h1 | h1
    · exact h1
    · exact absurd h1 (not_isV_replicate q)
  refine ⟨e2, ?_, ⟨hp, (e4 p hp).2 (.inl rfl)⟩, by simp, by simp, by simp, ?_, by simp, ?_⟩
  · rw [e3]; simp [List.count_replicate]
  · intro q hq hqv
    rw [hone q hq hqv]
  · intro q r hq hqv _ _ _
    exact .inl (hone q hq hqv)

theorem grid_card (hw : 0 ≤ w) (hh : 0 ≤ h) : Finite {p : Room // InGrid w h p} ∧
    (Nat.card {p : Room // InGrid w h p} : Int) = w * h := by
  have e : {p : Room | InGrid w h p} = ((Finset.Ico (0 : Int) h) ×ˢ (Finset.Ico (0 : Int) w) : Finset (Int × Int)) := by
    ext p; simp [InGrid]
  have hfin : Set.Finite {p : Room | InGrid w h p} := by rw [e]; exact Finset.finite_toSet _
  refine ⟨hfin.to_subtype, ?_⟩
  have hc : Nat.card {p : Room // InGrid w h p} = Set.ncard {p : Room | InGrid w h p} := rfl
  rw [hc, e, Set.ncard_coe_finset, Finset.card_product, Int.card_Ico, Int.card_Ico]
  push_cast
  rw [Int.toNat_of_nonneg (by omega), Int.toNat_of_nonneg (by omega)]
  ring

/-- The passages form a spanning tree. -/
theorem Dfs.tree {start : Room} {s : MSt} (d : Dfs w h start s) (hs : InGrid w h start) (he : s.expanded = w * h) :
    (mazeGraph w h s.links).IsTree := by
  have hh : 0 ≤ h := by obtain ⟨⟨a, b⟩, c, d⟩ := hs; omega
  have hw : 0 ≤ w := by obtain ⟨⟨a, b⟩, c, d⟩ := hs; omega
  obtain ⟨hfin, hcard⟩ := grid_card hw hh
  rw [SimpleGraph.isTree_iff_connected_and_card]
  have hall := all_visited d.len (by rw [← d.exp]; exact he)
  have hreach : ∀ p : {p : Room // InGrid w h p}, (mazeGraph w h s.links).Reachable ⟨start, hs⟩ p := by
    rintro ⟨p, hp⟩
    have hc := d.conn p hp (hall p hp)
    induction hc with
    | refl => exact SimpleGraph.Reachable.refl _
    | @tail b c hb hbc ih =>
      have hbin : InGrid w h b := by
        rcases hbc with hbc | hbc
        · exact (d.link _ hbc).1.1
        · exact (d.link _ hbc).2.1.1
      refine (ih hbin).trans ?_
      by_cases hne : b = c
      · subst hne; exact SimpleGraph.Reachable.refl _
      · refine SimpleGraph.Adj.reachable (G := mazeGraph w h s.links) ⟨?_, hbc⟩
        intro hx; exact hne (by simpa using hx)
  haveI : Nonempty {p : Room // InGrid w h p} := ⟨⟨start, hs⟩⟩
  refine ⟨⟨fun a b => (hreach a).symm.trans (hreach b)⟩, ?_⟩
  -- the edges are the links
  have hedge : (Sym2.map Subtype.val) '' (mazeGraph w h s.links).edgeSet = {e | e ∈ s.links.map fun l => s(l.1, l.2)} := by
    ext e
    constructor
    · rintro ⟨x, hx, rfl⟩
      induction x using Sym2.ind with
      | _ a b =>
        rw [SimpleGraph.mem_edgeSet] at hx
        simp only [Sym2.map_mk, Set.mem_ofPred_eq, List.mem_map]
        rcases hx.2 with hl | hl
        · exact ⟨_, hl, rfl⟩
        · exact ⟨_, hl, Sym2.eq_swap⟩
    · intro hx
      simp only [Set.mem_ofPred_eq, List.mem_map] at hx
      obtain ⟨l, hl, rfl⟩ := hx
      obtain ⟨a1, a2, a3⟩ := d.link l hl
      refine ⟨s(⟨l.1, a1.1⟩, ⟨l.2, a2.1⟩), ?_, rfl⟩
      rw [SimpleGraph.mem_edgeSet]
      refine ⟨?_, .inl hl⟩
      intro hc
      have hc' : l.1 = l.2 := by simpa using hc
      rw [hc'] at a3
      simp [Adj4] at a3
  have h1 : Nat.card (mazeGraph w h s.links).edgeSet = s.links.length := by
    show Set.ncard _ = _
    rw [← Set.ncard_image_of_injective _ (Sym2.map.injective Subtype.val_injective), hedge]
    have : {e | e ∈ s.links.map fun l => s(l.1, l.2)} = ((s.links.map fun l => s(l.1, l.2)).toFinset : Set (Sym2 Room)) := by
      ext e; simp
    rw [this, Set.ncard_coe_finset, List.toFinset_card_of_nodup d.fresh, List.length_map]
  have := d.nlinks
  rw [h1]
  omega

section
variable {K : Type} [Field K] [LinearOrder K] [IsStrictOrderedRing K] [FloorRing K]

theorem castI_room {x : K} {n : Int} (h0 : 0 ≤ x) (h1 : x < n) (hn : n ≤ 2147483648) :
    ∃ z, castI x = .ok z ∧ z = ⌊x⌋ ∧ 0 ≤ z ∧ z < n := by
  have a : 0 ≤ ⌊x⌋ := Int.floor_nonneg.2 h0
  have b : ⌊x⌋ < n := Int.floor_lt.2 h1
  refine ⟨⌊x⌋, ?_, rfl, a, b⟩
  unfold castI
  rw [truncC_nonneg h0, if_pos ⟨by omega, by omega⟩]

/-- **C55.**  A maze of rooms of width at least 1, started from a pose in the area of complete rooms: `run` never accesses
memory out of bounds and never fails an assertion; with random numbers that take every value modulo 4 again and again it
ends after at most `2 N` steps; when it ends, every passage joins two neighbouring rooms of the map and any two rooms are
joined by exactly one way (the passages form a tree on all rooms).  The goal and the random numbers are arbitrary. -/
theorem run_spec {width rows cols : Int} (hw : 1 ≤ width) (hr : 0 ≤ rows ∧ rows ≤ 2147483648)
    (hc : 0 ≤ cols ∧ cols ≤ 2147483648) {m : Maze} (hm : Maze.new width rows cols = .ok m) {sx sy : K} (hx0 : 0 ≤ sx)
    (hx1 : sx / (m.width : K) < ((cols / width : Int) : K)) (hy0 : 0 ≤ sy)
    (hy1 : sy / (m.width : K) < ((rows / width : Int) : K)) (fuel : Nat) :
    ∃ r, m.run rnd sx sy fuel = .ok r ∧
      (∀ s, r = some s → (mazeGraph (rows / width) (cols / width) s.links).IsTree ∧
        ∀ l ∈ s.links, InGrid (rows / width) (cols / width) l.1 ∧ InGrid (rows / width) (cols / width) l.2 ∧
          Adj4 1 l.1 l.2) ∧
      (Fair rnd → 2 * (rows / width * (cols / width)) < fuel → r ≠ none) := by
  rw [new_spec hw hr.1 hc.1, CRes.ok.injEq] at hm
  subst hm
  simp only at hx1 hy1
  have hwp : (0 : K) ≤ ((max 2 width : Int) : K) := by exact_mod_cast (by omega : (0 : Int) ≤ max 2 width)
  have hcd : cols / width ≤ cols := Int.ediv_le_self _ hc.1
  have hrd : rows / width ≤ rows := Int.ediv_le_self _ hr.1
  obtain ⟨x, cx, _, x0, x1⟩ := castI_room (div_nonneg hx0 hwp) hx1 (by omega)
  obtain ⟨y, cy, _, y0, y1⟩ := castI_room (div_nonneg hy0 hwp) hy1 (by omega)
  have hin : InGrid (rows / width) (cols / width) (x, y) := ⟨⟨x0, x1⟩, y0, y1⟩
  obtain ⟨s, e1, e2, e3, e4, e5⟩ := first_dfs hin
  unfold Maze.run
  simp only [cx, cy, CRes.ok_bind, e1]
  obtain ⟨r, r1, r2, r3⟩ := runLoop_spec (rnd := rnd) hin fuel s e2 e3
  refine ⟨r, r1, ?_, ?_⟩
  · intro s' hs'
    obtain ⟨d, de⟩ := r2 s' hs'
    exact ⟨d.tree hin de, fun l hl => ⟨(d.link l hl).1.1, (d.link l hl).2.1.1, (d.link l hl).2.2⟩⟩
  · intro hf hlt
    refine r3 hf ?_
    rw [e4, e5]; simp only [List.length_nil]; push_cast; omega

end

end PathPlanning.MapGen
