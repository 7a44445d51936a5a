import Verif.Props.CustomDuring2
import Verif.Props.SearchCustomEx

/-!
# Grid searches with a goal test on a map that changes meanwhile (C123)
-/

namespace PathPlanning.CDur
open PathPlanning During Spec
set_option linter.unusedSectionVars false

variable {w h : Nat}

/-- **C123 (grid searches).**  4- or 8-neighbourhood of any step width, any goal test, any heuristic and heuristic goal, and a map on
which the caller's callback blocks and clears cells at will while the search runs (`free k` is the map at expansion number `k`).  The
search ends normally.  A path it returns leads to an accepted cell and each of its cells after the first was free on the map of one
moment of the search, the cells at distinct moments.  If the test stops only at cells it accepts and there is no time limit, an empty
result means that no cell which the test always accepts could be reached on cells that were free all the time. -/
theorem grid {res : ℝ} (hr : 0 ≤ res) {dirs : List (Dir ℝ)} {D : Int} (hD : 0 < D) {adj : Int × Int → Int × Int → Prop}
    (hcase : (dirs = dirs4 D ∧ adj = Adj4 D) ∨ (dirs = dirs8 (Real.sqrt 2) D ∧ adj = Adj8 D))
    (heur : GNode w h → GNode w h → ℝ) {P : OpenList (GNode w h) ℝ} (L : Lawful P)
    (cfg : SCfg (GNode w h) ℝ) (ht : TopOk cfg.top) {s : GNode w h} (hs : cfg.start = [s])
    (T : GoalTest (GNode w h) ℝ P) (free0 : GNode w h → Bool) (free : Nat → GNode w h → Bool) :
    let A := gridAlgo free0 res dirs D heur gridHypot
    let maps := fun k => gridSucc (free k) res dirs
    (∃ fuel p st', findPathCustomDuring A maps P cfg T (freshLabels A) fuel = some (.ok p, st')) ∧
    ∀ fuel p st', findPathCustomDuring A maps P cfg T (freshLabels A) fuel = some (.ok p, st') →
      (p ≠ [] → ∃ (t : GNode w h) (wt : ℝ), Accepts T t wt ∧
        FreePath w h (FreeAtSomeTime st'.expansions fun k => freeCell (free k)) adj s.cell t.cell (p.map GNode.cell) ∧
        ∃ J : Nat → Nat, (∀ i z, p[i + 1]? = some z → J i < st'.expansions ∧ free (J i) z = true) ∧
          ∀ i j, i + 1 < p.length → j + 1 < p.length → J i = J j → i = j) ∧
      ((∀ k, cfg.abort k = false) → StopsOnlyAtCandidates T → p = [] → ∀ (q : List (Int × Int)) (t' : GNode w h),
        FreePath w h (FreeAllTheTime st'.expansions fun k => freeCell (free k)) adj s.cell t'.cell q → ¬ AlwaysAccepts T t') := by
  intro A maps
  have he : EuclidDirs dirs := by
    rcases hcase with ⟨rfl, _⟩ | ⟨rfl, _⟩
    · exact euclid4 hD.le
    · exact euclid8 hD.le
  have hde : DirsExact dirs adj := by
    rcases hcase with ⟨rfl, rfl⟩ | ⟨rfl, rfl⟩
    · exact dirs4_exact hD.le
    · exact dirs8_exact hD
  have hE : ∀ k, ExactCosts (A.withSucc (maps k)) := fun k => grid_exact (free := free k) hr he
  have okE : ∀ k, CostOk (A.withSucc (maps k)) := fun k => (hE k).ok
  refine ⟨ends (A := A) (gridSucc (fun _ => true) res dirs)
    (grid_exact (free := fun _ => true) (D := D) (heur := heur) (dist := gridHypot) hr he).ok L cfg ht T ?_, ?_⟩
  · rintro k u ⟨v, c⟩ hm
    exact mem_gridSucc.2 ⟨rfl, (mem_gridSucc.1 hm).2⟩
  intro fuel p st' hrun
  constructor
  · intro hp
    obtain ⟨h1, h2⟩ := sound okE L cfg ht T hrun
    rcases h2 with ⟨rfl, _⟩ | ⟨t, wt, d, h3, h4, _⟩
    · exact absurd rfl hp
    rw [hs] at h3
    have h3' : WalkTo (gridAlgo (ever free st'.expansions) res dirs D heur gridHypot) [s] t p d := walk_imp seen_ever h3
    obtain ⟨hfp, _⟩ := walkTo_freePath hde h3'
    refine ⟨t, wt, h1 _ h4, MapChange.freePath_mono hfp fun c => freeCell_ever, ?_⟩
    obtain ⟨J, g1, g2⟩ := moments okE L cfg ht T hrun
    refine ⟨J, fun i z hz => ?_, g2⟩
    have hlt : i + 1 < p.length := (List.getElem?_eq_some_iff.1 hz).1
    obtain ⟨k1, c, k2⟩ := g1 i p[i] z (List.getElem?_eq_getElem (by omega)) hz
    exact ⟨k1, (mem_gridSucc.1 k2).1⟩
  · rintro hab hT rfl q t' hq ha
    refine complete okE L cfg ht hab T hT hrun (gridSucc (always free st'.expansions) res dirs)
      (fun k hk => always_map hk) ⟨t', gridLen q * res, ?_, ha⟩
    rw [hs]
    obtain ⟨n, hn, hrch⟩ := freePath_reach (res := res) (D := D) (heur := heur) (dist := gridHypot) hde q (freePath_always hq)
    have := GNode.cell_inj hn
    subst this
    exact hrch

/-- **C123 (grid searches, region).**  If the goal test accepts and stops at exactly the cells of a region and the open list is the
priority queue, a returned path enters the region and is at least as short as every path into the region that was free all the time. -/
theorem grid_shortest {res : ℝ} (hr : 0 ≤ res) {dirs : List (Dir ℝ)} {D : Int} (hD : 0 < D) {adj : Int × Int → Int × Int → Prop}
    (hcase : (dirs = dirs4 D ∧ adj = Adj4 D) ∨ (dirs = dirs8 (Real.sqrt 2) D ∧ adj = Adj8 D))
    (heur : GNode w h → GNode w h → ℝ) {P : OpenList (GNode w h) ℝ} (L : Lawful P) (M : MinFirst P)
    (cfg : SCfg (GNode w h) ℝ) (ht : TopOk cfg.top) {s : GNode w h} (hs : cfg.start = [s])
    (T : GoalTest (GNode w h) ℝ P) {R : GNode w h → Prop} (hT : TestsRegion T R)
    (free0 : GNode w h → Bool) (free : Nat → GNode w h → Bool) {fuel : Nat} {p : List (GNode w h)} {st' : SSt (GNode w h) ℝ P}
    (hrun : findPathCustomDuring (gridAlgo free0 res dirs D heur gridHypot) (fun k => gridSucc (free k) res dirs) P cfg T
      (freshLabels (gridAlgo free0 res dirs D heur gridHypot)) fuel = some (.ok p, st')) (hp : p ≠ []) :
    ∃ t : GNode w h, R t ∧
      FreePath w h (FreeAtSomeTime st'.expansions fun k => freeCell (free k)) adj s.cell t.cell (p.map GNode.cell) ∧
      ∀ (q : List (Int × Int)) (t' : GNode w h),
        FreePath w h (FreeAllTheTime st'.expansions fun k => freeCell (free k)) adj s.cell t'.cell q → R t' →
        gridLen (p.map GNode.cell) * res ≤ gridLen q * res := by
  have he : EuclidDirs dirs := by
    rcases hcase with ⟨rfl, _⟩ | ⟨rfl, _⟩
    · exact euclid4 hD.le
    · exact euclid8 hD.le
  have hde : DirsExact dirs adj := by
    rcases hcase with ⟨rfl, rfl⟩ | ⟨rfl, rfl⟩
    · exact dirs4_exact hD.le
    · exact dirs8_exact hD
  have okE : ∀ k, CostOk ((gridAlgo free0 res dirs D heur gridHypot).withSucc (gridSucc (free k) res dirs)) :=
    fun k => (grid_exact (free := free k) hr he).ok
  obtain ⟨t, d, h1, h2, h3⟩ := region_shortest okE (fun a => by show a + (0 : ℝ) = a; ring) L M cfg ht T hT hrun hp
    (gridSucc (always free st'.expansions) res dirs)
    (grid_exact (free := always free st'.expansions) (D := D) (heur := heur) (dist := gridHypot) hr he).ok
    (fun k hk => always_map hk)
  rw [hs] at h1 h3
  have h1' : WalkTo (gridAlgo (ever free st'.expansions) res dirs D heur gridHypot) [s] t p d := walk_imp seen_ever h1
  obtain ⟨hfp, hd⟩ := walkTo_freePath hde h1'
  refine ⟨t, h2, MapChange.freePath_mono hfp fun c => freeCell_ever, fun q t' hq hR => ?_⟩
  obtain ⟨n, hn, hrch⟩ := freePath_reach (res := res) (D := D) (heur := heur) (dist := gridHypot) hde q (freePath_always hq)
  have := GNode.cell_inj hn
  subst this
  have := h3 n _ hrch hR
  rwa [hd] at this

/-! ### A concrete search -/

namespace Ex

/-- `grid` and `grid_shortest` apply: the row behind the wall is the region, and the callback blocks a cell while the search runs; the
way around the wall stays free, so a path is found. -/
example : ∃ fuel p st' t, findPathCustomDuring SearchEx.A (fun k => gridSucc (During.Ex.some4 k) 1 (dirs8 (Real.sqrt 2) 1)) SearchEx.P
      SearchEx.cfg SearchEx.rowTest (freshLabels SearchEx.A) fuel = some (.ok p, st') ∧ p ≠ [] ∧ SearchEx.behind t ∧
    gridLen (p.map GNode.cell) ≤ gridLen [(0, 0), (1, 0), (2, 0), (3, 1), (2, 2)] := by
  obtain ⟨⟨fuel, p, st', hrun⟩, H⟩ := grid (res := 1) (by norm_num) (D := 1) (by norm_num) (.inr ⟨rfl, rfl⟩) (GridHeur.l2.fn 1)
    (P := SearchEx.P) prioLawful SearchEx.cfg SearchEx.topRef_ok (s := ((0, 0) : SearchEx.W)) rfl SearchEx.rowTest SearchEx.free
    During.Ex.some4
  obtain ⟨_, h2⟩ := H fuel p st' hrun
  have hq : ∀ E, FreePath 4 3 (FreeAllTheTime E fun k => freeCell (During.Ex.some4 k)) (Adj8 1) (GNode.cell ((0, 0) : SearchEx.W))
      (GNode.cell ((2, 2) : SearchEx.W)) [(0, 0), (1, 0), (2, 0), (3, 1), (2, 2)] := by
    intro E
    have key : ∀ n : SearchEx.W, SearchEx.free n = true → n ≠ (0, 2) → FreeAllTheTime E (fun k => freeCell (During.Ex.some4 k)) n.cell := by
      intro n hn hne k _
      refine ⟨n, rfl, ?_⟩
      unfold During.Ex.some4
      rw [hn]
      simp [hne]
    refine ⟨rfl, rfl, by simp [Adj8], ?_⟩
    intro c hc
    simp only [List.tail_cons, List.mem_cons, List.not_mem_nil, or_false] at hc
    rcases hc with rfl | rfl | rfl | rfl
    · exact ⟨by simp, by simp, key ((1 : Fin 4), (0 : Fin 3)) (by decide) (by decide)⟩
    · exact ⟨by simp, by simp, key ((2 : Fin 4), (0 : Fin 3)) (by decide) (by decide)⟩
    · exact ⟨by simp, by simp, key ((3 : Fin 4), (1 : Fin 3)) (by decide) (by decide)⟩
    · exact ⟨by simp, by simp, key ((2 : Fin 4), (2 : Fin 3)) (by decide) (by decide)⟩
  have hb : SearchEx.behind ((2, 2) : SearchEx.W) := by unfold SearchEx.behind; decide
  have hp : p ≠ [] := fun e => h2 (fun _ => rfl) SearchEx.rowTest_stops e _ (2, 2) (hq _) (fun st => by
    obtain ⟨wt, e⟩ := (SearchEx.rowTest_region st ((2, 2) : SearchEx.W)).1 hb
    rw [e]; simp)
  obtain ⟨t, h3, _, h4⟩ := grid_shortest (res := 1) (by norm_num) (D := 1) (by norm_num) (.inr ⟨rfl, rfl⟩) (GridHeur.l2.fn 1)
    (P := SearchEx.P) prioLawful prioMin SearchEx.cfg SearchEx.topRef_ok (s := ((0, 0) : SearchEx.W)) rfl SearchEx.rowTest
    SearchEx.rowTest_region SearchEx.free During.Ex.some4 hrun hp
  have := h4 _ (2, 2) (hq _) hb
  rw [mul_one, mul_one] at this
  exact ⟨fuel, p, st', t, hrun, hp, h3, this⟩

end Ex

end PathPlanning.CDur
