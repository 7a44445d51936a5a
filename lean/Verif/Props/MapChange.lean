import Verif.Spec.MapChange
import Verif.Props.GridPath
import Verif.Props.LegacyAStar
import Verif.Model.SteerSearch
import Verif.Model.CellCost

/-!
# What a change of the map does to a search (C111)
-/

namespace PathPlanning.MapChange
open Spec
set_option linter.unusedSectionVars false

/-! ### The values of the cells matter only through their class -/

section classes

theorem mapFree_recolour {m : GridMap ℝ} {d : List UInt8} {lo up : UInt8} {ni : Int} (h : SameClasses m (recolour m d lo up ni)) :
    mapFree m = mapFree (recolour m d lo up ni) := by
  funext n
  unfold mapFree
  rw [(h n.1 n.2 n.1.2 n.2.2).1]

/-- **C111 (grid searches).**  The generic search returns the same result and leaves the same state on two maps whose cells
have the same classes, whatever their values; also the search with a goal test. -/
theorem grid_classes {m : GridMap ℝ} {d : List UInt8} {lo up : UInt8} {ni : Int} (h : SameClasses m (recolour m d lo up ni))
    (dirs : List (Dir ℝ)) (D : Int) (heur dist : GNode m.width m.height → GNode m.width m.height → ℝ)
    (P : OpenList (GNode m.width m.height) ℝ) (cfg : SCfg (GNode m.width m.height) ℝ)
    (lab : GNode m.width m.height → Label (GNode m.width m.height) ℝ) (fuel : Nat) :
    findPathNodes (gridAlgo (mapFree m) m.res dirs D heur dist) P cfg lab fuel =
      findPathNodes (gridAlgo (mapFree (recolour m d lo up ni)) m.res dirs D heur dist) P cfg lab fuel ∧
    ∀ T, findPathCustom (gridAlgo (mapFree m) m.res dirs D heur dist) P cfg T lab fuel =
      findPathCustom (gridAlgo (mapFree (recolour m d lo up ni)) m.res dirs D heur dist) P cfg T lab fuel := by
  rw [mapFree_recolour h]
  exact ⟨rfl, fun _ => rfl⟩

/-- **C111.** `getCost` never throws; it is 0 without a cost function, and between 0 and 255/127 with one. -/
theorem getCost_range {m : GridMap ℝ} (hl : m.data.length = m.width * m.height) (hs : m.width * m.height < 2 ^ 32) (b : Bool)
    (n : GNode m.width m.height) : ∃ c, getCost b m ⟨n.1, n.2⟩ = .ok c ∧ 0 ≤ c ∧ c ≤ 255 / 127 ∧ (b = false → c = 0) := by
  cases b with
  | false => exact ⟨0, rfl, le_refl _, by norm_num, fun _ => rfl⟩
  | true =>
    have hx := n.1.isLt
    have hy := n.2.isLt
    have h1 : (n.2 : Nat) * m.width + n.1 < m.width * m.height := GridMap.cell_lt hx hy
    have hi : m.index ⟨n.1, n.2⟩ = (n.2 : Nat) * m.width + n.1 := by
      unfold GridMap.index wrapU u32
      simp only
      rw [Nat.mod_eq_of_lt (a := (n.2 : Nat) * m.width) (by omega), Nat.mod_eq_of_lt (by omega)]
    unfold getCost GridMap.getValue
    rw [if_pos rfl, hi, vget_of_lt (by omega), CRes.ok_bind]
    generalize m.data[(n.2 : Nat) * m.width + n.1] = v
    have hv : (v.toNat : ℝ) ≤ 255 := by
      have := v.toNat_lt
      exact_mod_cast (by omega : v.toNat ≤ 255)
    have h0 : (0 : ℝ) ≤ v.toNat := Nat.cast_nonneg _
    simp only
    rw [if_neg (by push Not; positivity)]
    exact ⟨_, rfl, by positivity, by rw [div_mul_eq_mul_div, div_le_div_iff₀ (by norm_num) (by norm_num)]; linarith, fun h => by cases h⟩

theorem isFreeWay_recolour {m : GridMap ℝ} {d : List UInt8} {lo up : UInt8} {ni : Int} (h : SameClasses m (recolour m d lo up ni))
    (ok : Legacy.MapOk m) : Legacy.isFreeWay m = Legacy.isFreeWay (recolour m d lo up ni) := by
  funext p
  unfold Legacy.isFreeWay
  have : (recolour m d lo up ni).isInMap p.1 p.2 = m.isInMap p.1 p.2 := rfl
  rw [this]
  by_cases hi : m.isInMap p.1 p.2 = true
  · rw [if_pos hi, if_pos hi]
    have hc := (Legacy.isInMap_iff ok p).1 hi
    exact (h _ _ (by have := hc.1; have := hc.2; omega) (by have := hc.1; have := hc.2; omega)).1
  · rw [if_neg hi, if_neg hi]

/-- **C111 (A\*).**  `planPath` returns the same result and leaves the same state on maps whose cells have the same classes. -/
theorem legacy_classes {F : Type} {m : GridMap ℝ} {d : List UInt8} {lo up : UInt8} {ni : Int}
    (h : SameClasses m (recolour m d lo up ni)) (ok : Legacy.MapOk m) (A : Legacy.Arith F) (fuel : Nat) (o : Legacy.OL F)
    (start goal : Legacy.WP) :
    Legacy.planPath A m fuel o start goal = Legacy.planPath A (recolour m d lo up ni) fuel o start goal := by
  have hw := isFreeWay_recolour h ok
  have he : ∀ p l (o : Legacy.OL F), Legacy.expand A m start p l o = Legacy.expand A (recolour m d lo up ni) start p l o := by
    intro p l
    induction l with
    | nil => intro o; rfl
    | cons nb l ih =>
      intro o
      unfold Legacy.expand
      rw [hw]
      simp only [ih]
  have hs : ∀ n (o : Legacy.OL F) p, Legacy.searchLoop A m start n o p = Legacy.searchLoop A (recolour m d lo up ni) start n o p := by
    intro n
    induction n with
    | zero => intro o p; rfl
    | succ n ih =>
      intro o p
      unfold Legacy.searchLoop
      simp only [he, ih]
  unfold Legacy.planPath Legacy.search
  simp only [hs]
  rfl

/-- The iterator ignores its map. -/
theorem dynScan_map {hit hit' : Int → Int → CRes Bool} (hh : hit = hit') (skips : Int) (o : Option (GridMap ℝ)) :
    ∀ n skip (b : Bres ℝ), dynScan hit skips n skip b = dynScan hit' skips n skip { b with map := o } := by
  subst hh
  intro n
  induction n with
  | zero => intro skip b; rfl
  | succ n ih =>
    intro skip b
    have e1 : ({ b with map := o } : Bres ℝ).next = (b.next.1, { b.next.2 with map := o }) := by
      unfold Bres.next
      simp only
      split_ifs <;> rfl
    unfold dynScan
    rw [e1]
    simp only [ih]

theorem ptFreeOrUnknown_recolour {m : GridMap ℝ} {d : List UInt8} {lo up : UInt8} {ni : Int}
    (h : SameClasses m (recolour m d lo up ni)) (hw : m.width < 2 ^ 31) (hh : m.height < 2 ^ 31) :
    ptFreeOrUnknown m = ptFreeOrUnknown (recolour m d lo up ni) := by
  funext x y
  unfold ptFreeOrUnknown
  have e1 : (recolour m d lo up ni).width = m.width := rfl
  have e2 : (recolour m d lo up ni).height = m.height := rfl
  rw [e1, e2, toI32_small hw, toI32_small hh]
  by_cases hc : x < 0 ∨ y < 0 ∨ (m.width : Int) ≤ x ∨ (m.height : Int) ≤ y
  · rw [if_pos hc, if_pos hc]
  · rw [if_neg hc, if_neg hc, (h x.toNat y.toNat (by omega) (by omega)).2]

theorem usable_recolour {m : GridMap ℝ} {d : List UInt8} {lo up : UInt8} {ni : Int}
    (h : SameClasses m (recolour m d lo up ni)) (hw : m.width < 2 ^ 31) (hh : m.height < 2 ^ 31) (skips : Nat) (b : Bres ℝ) :
    steerUsable m skips b = steerUsable (recolour m d lo up ni) skips b := by
  funext k k'
  unfold steerUsable dynLineFreeOrUnknown
  have hs : ∀ f s, dynScan (fun x y => do let f ← ptFreeOrUnknown m x y; pure (!f)) skips f s (dynSetGrid b m k.x k.y k'.x k'.y) =
      dynScan (fun x y => do let f ← ptFreeOrUnknown (recolour m d lo up ni) x y; pure (!f)) skips f s
        (dynSetGrid b (recolour m d lo up ni) k.x k.y k'.x k'.y) := by
    intro f s
    rw [ptFreeOrUnknown_recolour h hw hh]
    unfold dynSetGrid Bres.setGrid
    have e1 : ∀ x y, (recolour m d lo up ni).isInMap x y = m.isInMap x y := fun _ _ => rfl
    rw [e1, e1]
    split_ifs
    · rfl
    · exact dynScan_map rfl _ (some (recolour m d lo up ni)) _ _ _
  simp only [hs]
  rw [ptFreeOrUnknown_recolour h hw hh]
  rfl

/-- **C111 (steering searches).**  The searches with both steering neighbourhoods return the same result on maps whose cells
have the same classes. -/
theorem steer_classes {m : GridMap ℝ} {d : List UInt8} {lo up : UInt8} {ni : Int} (h : SameClasses m (recolour m d lo up ni))
    (hw : m.width < 2 ^ 31) (hh : m.height < 2 ^ 31) (clamp : ℝ → ℝ) (skips : Nat) (b : Bres ℝ) (S : SteerCfg)
    (O : OpenList (PadCell m.width m.height) ℝ) (cfg : SCfg (PadCell m.width m.height) ℝ) (kin0 : PadCell m.width m.height → SNode)
    (fuel : Nat) :
    (∀ (Q : DynP) (dt at' : ℝ), kFindPath (dynSteerAlgo clamp Q dt at' m skips b S) O cfg kin0 fuel =
      kFindPath (dynSteerAlgo clamp Q dt at' (recolour m d lo up ni) skips b S) O cfg kin0 fuel) ∧
    ∀ (Q : SteerP) (dist : Int) (garbage : Nat × Nat → Int), kFindPath (steerAlgo clamp Q dist garbage m skips b S) O cfg kin0 fuel =
      kFindPath (steerAlgo clamp Q dist garbage (recolour m d lo up ni) skips b S) O cfg kin0 fuel := by
  unfold dynSteerAlgo steerAlgo padAlgo
  rw [usable_recolour h hw hh]
  exact ⟨fun _ _ _ => rfl, fun _ _ _ => rfl⟩

end classes

/-! ### Fewer obstacles never harm a grid search -/

section freed

theorem freePath_mono {w h : Nat} {f f' : Int × Int → Prop} {adj : Int × Int → Int × Int → Prop} {s t : Int × Int} {p : List (Int × Int)}
    (hp : FreePath w h f adj s t p) (hf : ∀ c, f c → f' c) : FreePath w h f' adj s t p :=
  ⟨hp.head, hp.last, hp.chain, fun c hc => ⟨(hp.free c hc).1, (hp.free c hc).2.1, hf c (hp.free c hc).2.2⟩⟩

theorem region_near {w h : Nat} {free : GNode w h → Bool} {res : ℝ} {dirs : List (Dir ℝ)} {D : Int} {heur dist : GNode w h → GNode w h → ℝ}
    {g t : GNode w h} (hn : NearCell D g.cell t.cell) : InGoalRegion (gridAlgo free res dirs D heur dist) [g] t := by
  refine ⟨g, by simp, ?_⟩
  show gridIsGoal D g t = true
  unfold gridIsGoal
  unfold NearCell GNode.cell at hn
  simpa using hn

/-- A search that comes back empty-handed: there is no path. -/
theorem grid_none {w h : Nat} {free : GNode w h → Bool} {res : ℝ} (hr : 0 ≤ res)
    {dirs : List (Dir ℝ)} {D : Int} (hD : 0 < D) {adj : Int × Int → Int × Int → Prop}
    (hcase : (dirs = dirs4 D ∧ adj = Adj4 D) ∨ (dirs = dirs8 (Real.sqrt 2) D ∧ adj = Adj8 D))
    (k : GridHeur) {P : OpenList (GNode w h) ℝ} (L : Lawful P)
    (cfg : SCfg (GNode w h) ℝ) (ht : TopOk cfg.top) (hx : ∀ k n g, cfg.canExpand k n g = none)
    (hab : ∀ k, cfg.abort k = false) {s g : GNode w h} (hs : cfg.start = [s]) (hg : cfg.goal = [g]) {fuel : Nat} {st'}
    (hrun : findPathNodes (gridAlgo free res dirs D (k.fn res) gridHypot) P cfg
      (freshLabels (gridAlgo free res dirs D (k.fn res) gridHypot)) fuel = some (.ok [], st')) :
    ∀ (q : List (Int × Int)) (t : GNode w h), FreePath w h (freeCell free) adj s.cell t.cell q → ¬ NearCell D g.cell t.cell := by
  have he : EuclidDirs dirs := by
    rcases hcase with ⟨rfl, _⟩ | ⟨rfl, _⟩
    · exact euclid4 hD.le
    · exact euclid8 hD.le
  have hde : DirsExact dirs adj := by
    rcases hcase with ⟨rfl, rfl⟩ | ⟨rfl, rfl⟩
    · exact dirs4_exact hD.le
    · exact dirs8_exact hD
  intro q t hq hn
  have hxo : ExpansionOk cfg := ⟨fun k s g _ => hx k s g, fun k n g e h => by rw [hx] at h; cases h⟩
  refine search_complete (grid_exact hr he).ok L cfg ht hxo hab hrun ?_
  obtain ⟨n, hn', hrch⟩ := freePath_reach (res := res) (D := D) (heur := k.fn res) (dist := gridHypot) hde q hq
  have := GNode.cell_inj hn'
  subst this
  rw [hs, hg]
  exact ⟨n, _, hrch, region_near hn⟩

/-- **C111 (obstacles removed, grid searches).**  If every free cell stays free, a search that found a path finds one again,
and its length plus the estimate at its end does not grow. -/
theorem grid_freed {m : GridMap ℝ} {d : List UInt8} {lo up : UInt8} {ni : Int} (hf : OnlyFreed m (recolour m d lo up ni)) (hr : 0 ≤ m.res)
    {dirs : List (Dir ℝ)} {D : Int} (hD : 0 < D) {adj : Int × Int → Int × Int → Prop}
    (hcase : (dirs = dirs4 D ∧ adj = Adj4 D) ∨ (dirs = dirs8 (Real.sqrt 2) D ∧ adj = Adj8 D))
    (k : GridHeur) {P : OpenList (GNode m.width m.height) ℝ} (L : Lawful P) (M : MinFirst P)
    (cfg : SCfg (GNode m.width m.height) ℝ) (ht : TopOk cfg.top) (hx : ∀ k n g, cfg.canExpand k n g = none)
    (hab : ∀ k, cfg.abort k = false) (huse : cfg.useCands = false) {s g : GNode m.width m.height} (hs : cfg.start = [s]) (hg : cfg.goal = [g])
    {fuel fuel' : Nat} {p p' : List (GNode m.width m.height)} {st st'}
    (hrun : findPathNodes (gridAlgo (mapFree m) m.res dirs D (k.fn m.res) gridHypot) P cfg
      (freshLabels (gridAlgo (mapFree m) m.res dirs D (k.fn m.res) gridHypot)) fuel = some (.ok p, st)) (hp : p ≠ [])
    (hrun' : findPathNodes (gridAlgo (mapFree (recolour m d lo up ni)) m.res dirs D (k.fn m.res) gridHypot) P cfg
      (freshLabels (gridAlgo (mapFree (recolour m d lo up ni)) m.res dirs D (k.fn m.res) gridHypot)) fuel' = some (.ok p', st')) :
    ∃ t t' : GNode m.width m.height, p.getLast? = some t ∧ p'.getLast? = some t' ∧
      gridLen (p'.map GNode.cell) * m.res + k.fn m.res t' g ≤ gridLen (p.map GNode.cell) * m.res + k.fn m.res t g := by
  have hmono : ∀ c, freeCell (mapFree m) c → freeCell (mapFree (recolour m d lo up ni) : GNode m.width m.height → Bool) c := by
    rintro c ⟨n, rfl, hn⟩
    exact ⟨n, rfl, decide_eq_true (hf n.1 n.2 n.1.2 n.2.2 (of_decide_eq_true hn))⟩
  obtain ⟨t, h1, h2, -, -⟩ := grid_search_shortest hr hD hcase k L M cfg ht hx huse hs hg hrun hp
  have h1' := freePath_mono h1 hmono
  have hp' : p' ≠ [] := by
    rintro rfl
    exact grid_none hr hD hcase k L cfg ht hx hab hs hg hrun' _ _ h1' h2
  obtain ⟨t', h3, h4, h5, -⟩ := grid_search_shortest hr hD hcase k L M cfg ht hx huse hs hg hrun' hp'
  have hl : ∀ {q : List (GNode m.width m.height)} {u : GNode m.width m.height}, (q.map GNode.cell).getLast? = some u.cell → q.getLast? = some u := by
    intro q u hu
    rw [List.getLast?_map] at hu
    cases e : q.getLast? with
    | none => rw [e] at hu; cases hu
    | some v =>
      rw [e] at hu
      simp only [Option.map_some, Option.some.injEq] at hu
      rw [GNode.cell_inj hu]
  exact ⟨t, t', hl h1.last, hl h3.last, h5 _ t h1' h2⟩

/-- **C111 (obstacles removed, A\*).**  If every free cell stays free, `planPath` succeeds again. -/
theorem legacy_freed {F K : Type} [Field K] [LinearOrder K] [IsStrictOrderedRing K] [FloorRing K] {A A' : Legacy.Arith F} {m m' : GridMap K} {o o' : Legacy.OL F} (h : Legacy.AStarObj A m o)
    (h' : Legacy.AStarObj A' m' o') (hw : m'.width = m.width) (hh : m'.height = m.height) (hf : OnlyFreed m m') (start goal : Legacy.WP)
    {fuel : Nat} (hfu : m.width * m.height < fuel) {r : Legacy.Plan F} (hr : Legacy.planPath A m fuel o start goal = .ok (some r))
    (hfound : r.found = true) :
    ∃ r', Legacy.planPath A' m' fuel o' start goal = .ok (some r') ∧ r'.found = true := by
  obtain ⟨r1, e1, e2⟩ := Legacy.planPath_complete h start goal hfu
  rw [hr] at e1
  simp only [CRes.ok.injEq, Option.some.injEq] at e1
  subst e1
  obtain ⟨c1, c2, q, hq⟩ := e2.1 hfound
  obtain ⟨r', e3, e4⟩ := Legacy.planPath_complete h' start goal (fuel := fuel) (by rw [hw, hh]; exact hfu)
  have hc : ∀ c, Legacy.Cell m c → Legacy.Cell m' c := by
    intro c hc
    unfold Legacy.Cell at *
    rw [hw, hh]; exact hc
  refine ⟨r', e3, e4.2 ⟨hc _ c1, hc _ c2, q, hq.first, hq.last, hq.steps, fun c hcm => ?_⟩⟩
  obtain ⟨f1, f2⟩ := hq.free c hcm
  refine ⟨hc _ f1, hf _ _ ?_ ?_ f2⟩ <;> unfold Legacy.Cell at f1 <;> omega

end freed

/-! ### There and back -/

section back
variable {w h : Nat}

theorem adj8_of_near {g t : Int × Int} (hn : NearCell 1 g t) (hne : t ≠ g) : Adj8 1 t g := by
  unfold NearCell at hn
  unfold Adj8
  have e1 := abs_le.1 hn.1
  have e2 := abs_le.1 hn.2
  refine ⟨hne, ?_, ?_⟩
  · rcases (by omega : g.1 - t.1 = -1 ∨ g.1 - t.1 = 0 ∨ g.1 - t.1 = 1) with e | e | e
    · right; rw [e]; rfl
    · left; omega
    · right; rw [e]; rfl
  · rcases (by omega : g.2 - t.2 = -1 ∨ g.2 - t.2 = 0 ∨ g.2 - t.2 = 1) with e | e | e
    · right; rw [e]; rfl
    · left; omega
    · right; rw [e]; rfl

theorem cellEucl_self (u : Int × Int) : cellEucl u u = 0 := by simp [cellEucl]

theorem cellEucl_comm (u v : Int × Int) : cellEucl u v = cellEucl v u := by
  unfold cellEucl
  congr 1
  push_cast; ring

theorem hL2_cell (res : ℝ) (t g : GNode w h) : GridHeur.l2.fn res t g = cellEucl t.cell g.cell * res := by
  unfold GridHeur.fn hL2 cellEucl dX dY GNode.cell
  simp only
  rw [mul_comm]
  congr 2
  push_cast; ring

/-- A path to a neighbour of the goal, completed. -/
theorem upTo_path {f : Int × Int → Prop} {s t g : Int × Int} {p : List (Int × Int)} (hp : FreePath w h f (Adj8 1) s t p)
    (hn : NearCell 1 g t) (hg : (0 ≤ g.1 ∧ g.1 < w) ∧ (0 ≤ g.2 ∧ g.2 < h) ∧ f g) :
    FreePath w h f (Adj8 1) s g (upTo g p) ∧ gridLen (upTo g p) = gridLen p + cellEucl t g := by
  unfold upTo
  by_cases e : p.getLast? = some g
  · rw [if_pos e]
    have : t = g := by have := hp.last; rw [e] at this; exact (Option.some.inj this).symm
    subst this
    exact ⟨hp, by rw [cellEucl_self, add_zero]⟩
  · rw [if_neg e]
    have hne : t ≠ g := by rintro rfl; exact e hp.last
    have hpn : p ≠ [] := by rintro rfl; have := hp.head; cases this
    refine ⟨⟨?_, by simp, ?_, ?_⟩, gridLen_snoc p t g hp.last⟩
    · rw [List.head?_append_of_ne_nil _ hpn]; exact hp.head
    · refine List.isChain_append.2 ⟨hp.chain, by simp, ?_⟩
      intro x hx y hy
      rw [hp.last] at hx
      simp only [Option.mem_def, Option.some.injEq, List.head?_cons] at hx hy
      subst hx hy
      exact adj8_of_near hn hne
    · rw [List.tail_append_of_ne_nil hpn]
      intro c hc
      rcases List.mem_append.1 hc with hc | hc
      · exact hp.free c hc
      · rw [List.mem_singleton] at hc; subst hc; exact hg

theorem adj8_symm {u v : Int × Int} (h : Adj8 1 u v) : Adj8 1 v u := by
  unfold Adj8 at *
  obtain ⟨h1, h2, h3⟩ := h
  refine ⟨h1.symm, ?_, ?_⟩
  · rcases h2 with h2 | h2
    · exact .inl h2.symm
    · rw [abs_sub_comm] at h2; exact .inr h2
  · rcases h3 with h3 | h3
    · exact .inl h3.symm
    · rw [abs_sub_comm] at h3; exact .inr h3

theorem gridLen_reverse (p : List (Int × Int)) : gridLen p.reverse = gridLen p := by
  induction p with
  | nil => rfl
  | cons a p ih =>
    rw [List.reverse_cons]
    cases p with
    | nil => simp [gridLen]
    | cons b p =>
      rw [gridLen_snoc _ b a (by simp), ih, cellEucl_comm]
      simp only [gridLen]; ring

theorem freePath_reverse {f : Int × Int → Prop} {s g : Int × Int} {p : List (Int × Int)} (hp : FreePath w h f (Adj8 1) s g p)
    (hs : (0 ≤ s.1 ∧ s.1 < w) ∧ (0 ≤ s.2 ∧ s.2 < h) ∧ f s) : FreePath w h f (Adj8 1) g s p.reverse := by
  refine ⟨by rw [List.head?_reverse]; exact hp.last, by rw [List.getLast?_reverse]; exact hp.head, ?_, ?_⟩
  · rw [List.isChain_reverse]
    exact hp.chain.imp fun _ _ h => adj8_symm h
  · intro c hc
    have hc : c ∈ p := List.mem_reverse.1 (List.mem_of_mem_tail hc)
    cases p with
    | nil => cases hc
    | cons a p =>
      have : a = s := by have := hp.head; simpa using this
      rcases List.mem_cons.1 hc with rfl | hc
      · subst this; exact hs
      · exact hp.free c hc

variable {free : GNode w h → Bool} {res : ℝ} {P : OpenList (GNode w h) ℝ} {cfg cfg' : SCfg (GNode w h) ℝ} {s g : GNode w h}

/-- The A\* search on a grid: eight neighbours, step width 1, Euclidean distance. -/
noncomputable abbrev aStar (free : GNode w h → Bool) (res : ℝ) : Algo (GNode w h) ℝ :=
  gridAlgo free res (dirs8 (Real.sqrt 2) 1) 1 (GridHeur.l2.fn res) gridHypot

/-- **C111 (exact).**  A\* with eight neighbours and the Euclidean heuristic: the path returned, completed by the goal cell, is
a shortest path from the start to the goal itself (if the goal cell is free). -/
theorem upTo_shortest (hr : 0 ≤ res) (L : Lawful P) (M : MinFirst P) (ht : TopOk cfg.top) (hx : ∀ k n g, cfg.canExpand k n g = none)
    (huse : cfg.useCands = false) (hs : cfg.start = [s]) (hg : cfg.goal = [g]) (hfree : free g = true)
    {fuel : Nat} {p : List (GNode w h)} {st'}
    (hrun : findPathNodes (aStar free res) P cfg (freshLabels (aStar free res)) fuel = some (.ok p, st')) (hp : p ≠ []) :
    FreePath w h (freeCell free) (Adj8 1) s.cell g.cell (upTo g.cell (p.map GNode.cell)) ∧
      ∀ q, FreePath w h (freeCell free) (Adj8 1) s.cell g.cell q → gridLen (upTo g.cell (p.map GNode.cell)) * res ≤ gridLen q * res := by
  obtain ⟨t, h1, h2, h3, -⟩ := grid_search_shortest hr (by norm_num) (.inr ⟨rfl, rfl⟩) .l2 L M cfg ht hx huse hs hg hrun hp
  obtain ⟨e1, e2⟩ := upTo_path h1 h2 ⟨⟨by simp [GNode.cell], by simp [GNode.cell]⟩, ⟨by simp [GNode.cell], by simp [GNode.cell]⟩, g, rfl, hfree⟩
  refine ⟨e1, fun q hq => ?_⟩
  have := h3 q g hq (by unfold NearCell; simp)
  rw [hL2_cell, hL2_cell, cellEucl_self, zero_mul, add_zero, ← add_mul, ← e2] at this
  exact this

/-- **C111 (there and back).**  A\* from `s` to `g` finds a path exactly if it finds one from `g` to `s` (both cells free), and
the two paths, completed by the last cell, have the same length. -/
theorem there_and_back (hr : 0 < res) (L : Lawful P) (M : MinFirst P)
    (ht : TopOk cfg.top) (hx : ∀ k n g, cfg.canExpand k n g = none) (hab : ∀ k, cfg.abort k = false) (huse : cfg.useCands = false)
    (ht' : TopOk cfg'.top) (hx' : ∀ k n g, cfg'.canExpand k n g = none) (hab' : ∀ k, cfg'.abort k = false) (huse' : cfg'.useCands = false)
    (hs : cfg.start = [s]) (hg : cfg.goal = [g]) (hs' : cfg'.start = [g]) (hg' : cfg'.goal = [s]) (hfs : free s = true) (hfg : free g = true)
    {fuel fuel' : Nat} {p p' : List (GNode w h)} {st st'}
    (hrun : findPathNodes (aStar free res) P cfg (freshLabels (aStar free res)) fuel = some (.ok p, st))
    (hrun' : findPathNodes (aStar free res) P cfg' (freshLabels (aStar free res)) fuel' = some (.ok p', st')) :
    (p = [] ↔ p' = []) ∧
      (p ≠ [] → gridLen (upTo g.cell (p.map GNode.cell)) = gridLen (upTo s.cell (p'.map GNode.cell))) := by
  have bs : (0 ≤ s.cell.1 ∧ s.cell.1 < w) ∧ (0 ≤ s.cell.2 ∧ s.cell.2 < h) ∧ freeCell free s.cell :=
    ⟨⟨by simp [GNode.cell], by simp [GNode.cell]⟩, ⟨by simp [GNode.cell], by simp [GNode.cell]⟩, s, rfl, hfs⟩
  have bg : (0 ≤ g.cell.1 ∧ g.cell.1 < w) ∧ (0 ≤ g.cell.2 ∧ g.cell.2 < h) ∧ freeCell free g.cell :=
    ⟨⟨by simp [GNode.cell], by simp [GNode.cell]⟩, ⟨by simp [GNode.cell], by simp [GNode.cell]⟩, g, rfl, hfg⟩
  have self : ∀ c : Int × Int, NearCell 1 c c := fun c => by unfold NearCell; simp
  have k1 : p ≠ [] → p' ≠ [] := by
    rintro hp rfl
    obtain ⟨e1, -⟩ := upTo_shortest hr.le L M ht hx huse hs hg hfg hrun hp
    exact grid_none hr.le (by norm_num) (.inr ⟨rfl, rfl⟩) .l2 L cfg' ht' hx' hab' hs' hg' hrun' _ _ (freePath_reverse e1 bs) (self _)
  have k2 : p' ≠ [] → p ≠ [] := by
    rintro hp rfl
    obtain ⟨e1, -⟩ := upTo_shortest hr.le L M ht' hx' huse' hs' hg' hfs hrun' hp
    exact grid_none hr.le (by norm_num) (.inr ⟨rfl, rfl⟩) .l2 L cfg ht hx hab hs hg hrun _ _ (freePath_reverse e1 bg) (self _)
  refine ⟨⟨fun e => by_contra fun hp => k2 hp e, fun e => by_contra fun hp => k1 hp e⟩, fun hp => ?_⟩
  obtain ⟨e1, e2⟩ := upTo_shortest hr.le L M ht hx huse hs hg hfg hrun hp
  obtain ⟨e3, e4⟩ := upTo_shortest hr.le L M ht' hx' huse' hs' hg' hfs hrun' (k1 hp)
  have i1 := e2 _ (freePath_reverse e3 bg)
  have i2 := e4 _ (freePath_reverse e1 bs)
  rw [gridLen_reverse] at i1 i2
  exact le_antisymm (le_of_mul_le_mul_right i1 hr) (le_of_mul_le_mul_right i2 hr)

end back

end PathPlanning.MapChange
