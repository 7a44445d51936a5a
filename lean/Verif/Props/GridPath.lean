import Verif.Props.SearchExamples
import Verif.Spec.GridPath

/-!
# The search on a grid against the specification of grid paths (C25, C27)
-/

namespace PathPlanning
open Spec

variable {w h : Nat}

/-- The cell of a node. -/
def GNode.cell (n : GNode w h) : Int × Int := (((n.1 : Nat) : Int), ((n.2 : Nat) : Int))

theorem GNode.cell_inj {n m : GNode w h} (e : n.cell = m.cell) : n = m := by
  unfold GNode.cell at e
  have h1 := (Prod.mk.inj e).1
  have h2 := (Prod.mk.inj e).2
  exact Prod.ext (Fin.ext (by omega)) (Fin.ext (by omega))

/-- A table of directions offers exactly the steps `adj`, each at its Euclidean length. -/
def DirsExact (dirs : List (Dir ℝ)) (adj : Int × Int → Int × Int → Prop) : Prop :=
  ∀ u v : Int × Int, ∀ c : ℝ, (∃ d ∈ dirs, v.1 = u.1 + d.dx ∧ v.2 = u.2 + d.dy ∧ c = d.delta) ↔
    adj u v ∧ c = cellEucl u v

/-- **C27 (steps).**  `DirectNeighborhood<4, D>` offers exactly the four axis steps of width `D`,
each at its Euclidean length. -/
theorem dirs4_exact {D : Int} (hD : 0 ≤ D) : DirsExact (dirs4 D) (Adj4 D) := by
  have h0 : (0 : ℝ) ≤ D := by exact_mod_cast hD
  have h1 : Real.sqrt ((D : ℝ) ^ 2) = D := Real.sqrt_sq h0
  intro u v c
  constructor
  · rintro ⟨d, hd, e1, e2, rfl⟩
    simp only [dirs4, List.mem_cons, List.not_mem_nil, or_false] at hd
    have hh : cellEucl u v = Real.sqrt ((d.dx : ℝ) ^ 2 + (d.dy : ℝ) ^ 2) := by
      unfold cellEucl
      rw [show v.1 - u.1 = d.dx by omega, show v.2 - u.2 = d.dy by omega]
    rw [hh]
    unfold Adj4
    rw [show v.1 - u.1 = d.dx by omega, show v.2 - u.2 = d.dy by omega]
    rcases hd with rfl | rfl | rfl | rfl <;>
      simp [h1, abs_of_nonneg hD] <;> simp at e1 e2 <;> omega
  · rintro ⟨ha, rfl⟩
    unfold Adj4 at ha
    rcases ha with ⟨ha, hb⟩ | ⟨hb, ha⟩
    · rcases abs_eq hD |>.1 ha with he | he
      · refine ⟨⟨D, 0, (D : ℝ)⟩, by simp [dirs4], by simp; omega, by simp; omega, ?_⟩
        unfold cellEucl; rw [he, hb]; simp [h1]
      · refine ⟨⟨-D, 0, (D : ℝ)⟩, by simp [dirs4], by simp; omega, by simp; omega, ?_⟩
        unfold cellEucl; rw [he, hb]; simp [h1]
    · rcases abs_eq hD |>.1 ha with he | he
      · refine ⟨⟨0, D, (D : ℝ)⟩, by simp [dirs4], by simp; omega, by simp; omega, ?_⟩
        unfold cellEucl; rw [he, hb]; simp [h1]
      · refine ⟨⟨0, -D, (D : ℝ)⟩, by simp [dirs4], by simp; omega, by simp; omega, ?_⟩
        unfold cellEucl; rw [he, hb]; simp [h1]

/-- **C27 (steps).**  `DirectNeighborhood<8, D>` offers exactly the eight king steps of width `D`,
each at its Euclidean length. -/
theorem dirs8_exact {D : Int} (hD : 0 < D) : DirsExact (dirs8 (Real.sqrt 2) D) (Adj8 D) := by
  have h0 : (0 : ℝ) ≤ D := by exact_mod_cast hD.le
  have h1 : Real.sqrt ((D : ℝ) ^ 2) = D := Real.sqrt_sq h0
  have h2 : Real.sqrt ((D : ℝ) ^ 2 + (D : ℝ) ^ 2) = Real.sqrt 2 * D := by
    rw [← two_mul, Real.sqrt_mul (by norm_num), h1]
  intro u v c
  have hne : u ≠ v ↔ ¬ (v.1 = u.1 ∧ v.2 = u.2) := by
    rw [Ne, Prod.ext_iff]
    constructor <;> intro hh hc <;> exact hh ⟨hc.1.symm, hc.2.symm⟩
  constructor
  · rintro ⟨d, hd, e1, e2, rfl⟩
    simp only [dirs8, List.mem_cons, List.not_mem_nil, or_false] at hd
    have hh : cellEucl u v = Real.sqrt ((d.dx : ℝ) ^ 2 + (d.dy : ℝ) ^ 2) := by
      unfold cellEucl
      rw [show v.1 - u.1 = d.dx by omega, show v.2 - u.2 = d.dy by omega]
    rw [hh]
    unfold Adj8
    rw [hne, show v.1 - u.1 = d.dx by omega, show v.2 - u.2 = d.dy by omega]
    rcases hd with rfl | rfl | rfl | rfl | rfl | rfl | rfl | rfl <;>
      simp [h1, h2, abs_of_pos hD] <;> simp at e1 e2 <;> omega
  · rintro ⟨⟨hn, hx, hy⟩, rfl⟩
    rw [hne] at hn
    have hx' : v.1 - u.1 = 0 ∨ v.1 - u.1 = D ∨ v.1 - u.1 = -D := by
      rcases hx with hx | hx
      · left; omega
      · right; exact (abs_eq hD.le).1 hx
    have hy' : v.2 - u.2 = 0 ∨ v.2 - u.2 = D ∨ v.2 - u.2 = -D := by
      rcases hy with hy | hy
      · left; omega
      · right; exact (abs_eq hD.le).1 hy
    have key : ∀ (a b : Int) (c : ℝ), (⟨a, b, c⟩ : Dir ℝ) ∈ dirs8 (Real.sqrt 2) D →
        v.1 - u.1 = a → v.2 - u.2 = b → cellEucl u v = c →
        ∃ d ∈ dirs8 (Real.sqrt 2) D, v.1 = u.1 + d.dx ∧ v.2 = u.2 + d.dy ∧ cellEucl u v = d.delta := by
      intro a b c hm ha hb hc
      exact ⟨_, hm, by simp only; omega, by simp only; omega, hc⟩
    rcases hx' with hx' | hx' | hx' <;> rcases hy' with hy' | hy' | hy'
    · exact absurd ⟨by omega, by omega⟩ hn
    all_goals
      first
      | exact key 0 D D (by simp [dirs8]) hx' hy' (by unfold cellEucl; rw [hx', hy']; simp [h1])
      | exact key 0 (-D) D (by simp [dirs8]) hx' hy' (by unfold cellEucl; rw [hx', hy']; simp [h1])
      | exact key D 0 D (by simp [dirs8]) hx' hy' (by unfold cellEucl; rw [hx', hy']; simp [h1])
      | exact key (-D) 0 D (by simp [dirs8]) hx' hy' (by unfold cellEucl; rw [hx', hy']; simp [h1])
      | exact key D D (Real.sqrt 2 * D) (by simp [dirs8]) hx' hy'
          (by unfold cellEucl; rw [hx', hy']; simp [h2])
      | exact key D (-D) (Real.sqrt 2 * D) (by simp [dirs8]) hx' hy'
          (by unfold cellEucl; rw [hx', hy']; simp [h2])
      | exact key (-D) D (Real.sqrt 2 * D) (by simp [dirs8]) hx' hy'
          (by unfold cellEucl; rw [hx', hy']; simp [h2])
      | exact key (-D) (-D) (Real.sqrt 2 * D) (by simp [dirs8]) hx' hy'
          (by unfold cellEucl; rw [hx', hy']; simp [h2])

/-- No step is offered twice. -/
theorem dirs_nodup {D : Int} (hD : 0 < D) :
    ((dirs4 (K := ℝ) D).map fun d => (d.dx, d.dy)).Nodup ∧
    ((dirs8 (Real.sqrt 2) D).map fun d => (d.dx, d.dy)).Nodup := by
  simp [dirs4, dirs8]
  omega

/-- Free cells of a map as a predicate on integer cells. -/
def freeCell (free : GNode w h → Bool) (c : Int × Int) : Prop :=
  ∃ n : GNode w h, n.cell = c ∧ free n = true

theorem gridLen_snoc (l : List (Int × Int)) (u v : Int × Int) (hu : l.getLast? = some u) :
    gridLen (l ++ [v]) = gridLen l + cellEucl u v := by
  induction l with
  | nil => cases hu
  | cons a l ih =>
    cases l with
    | nil =>
      simp at hu; subst hu
      simp [gridLen]
    | cons b l =>
      rw [List.getLast?_cons_cons] at hu
      have := ih hu
      simp only [List.cons_append, gridLen] at this ⊢
      rw [this]; ring

section
variable {free : GNode w h → Bool} {res : ℝ} {dirs : List (Dir ℝ)} {D : Int}
  {heur dist : GNode w h → GNode w h → ℝ} {adj : Int × Int → Int × Int → Prop}

theorem walkTo_freePath (hd : DirsExact dirs adj) {s n : GNode w h} {l : List (GNode w h)} {c : ℝ}
    (hw : WalkTo (gridAlgo free res dirs D heur dist) [s] n l c) :
    FreePath w h (freeCell free) adj s.cell n.cell (l.map GNode.cell) ∧
      c = gridLen (l.map GNode.cell) * res := by
  induction hw with
  | @start s' hs =>
    simp only [List.mem_singleton] at hs
    subst hs
    refine ⟨⟨rfl, rfl, by simp, by simp⟩, ?_⟩
    show (0 : ℝ) = _
    simp [gridLen]
  | @step u v l d c hw he ih =>
    obtain ⟨⟨i1, i2, i3, i4⟩, i5⟩ := ih
    obtain ⟨hf, dr, hdr, e1, e2, ec⟩ := mem_gridSucc.1 he
    obtain ⟨ha, hc⟩ := (hd u.cell v.cell dr.delta).1 ⟨dr, hdr, e1, e2, rfl⟩
    have hne : l.map GNode.cell ≠ [] := by simpa using hw.ne_nil
    have hm : (l ++ [v]).map GNode.cell = l.map GNode.cell ++ [v.cell] := by simp
    rw [hm]
    refine ⟨⟨?_, by simp, ?_, ?_⟩, ?_⟩
    · rw [List.head?_append, i1]; rfl
    · rw [List.isChain_append]
      refine ⟨i3, by simp, ?_⟩
      intro a ha' b hb
      rw [i2] at ha'
      simp only [Option.mem_def, Option.some.injEq, List.head?_cons] at ha' hb
      subst ha'; subst hb
      exact ha
    · rw [List.tail_append_of_ne_nil hne]
      intro m hm
      rcases List.mem_append.1 hm with h1 | h1
      · exact i4 m h1
      · simp only [List.mem_singleton] at h1
        subst h1
        have hx := v.1.isLt
        have hy := v.2.isLt
        refine ⟨?_, ?_, v, rfl, hf⟩ <;> simp only [GNode.cell] <;> omega
    · show d + c = _
      rw [gridLen_snoc _ _ _ i2, i5, ec, hc]; ring

theorem freePath_reach (hd : DirsExact dirs adj) {s : GNode w h} (p : List (Int × Int)) :
    ∀ {t : Int × Int}, FreePath w h (freeCell free) adj s.cell t p →
    ∃ n : GNode w h, n.cell = t ∧
      Reach (gridAlgo free res dirs D heur dist) [s] n (gridLen p * res) := by
  induction p using List.reverseRecOn with
  | nil => intro t hp; cases hp.head
  | append_singleton p v ih =>
    intro t hp
    have ht : v = t := by have := hp.last; simpa using this
    subst ht
    by_cases hpe : p = []
    · subst hpe
      have hs : v = s.cell := by have := hp.head; simpa using this
      refine ⟨s, hs.symm, ?_⟩
      have : gridLen ([] ++ [v]) * res = 0 := by simp [gridLen]
      rw [this]
      exact Reach.start (by simp)
    · obtain ⟨u, hu⟩ : ∃ u, p.getLast? = some u := by
        cases hh : p.getLast? with
        | none => exact absurd (List.getLast?_eq_none_iff.1 hh) hpe
        | some u => exact ⟨u, rfl⟩
      have hch := List.isChain_append.1 hp.chain
      have hp' : FreePath w h (freeCell free) adj s.cell u p := by
        refine ⟨?_, hu, hch.1, ?_⟩
        · have := hp.head
          rw [List.head?_append] at this
          cases hpp : p.head? with
          | none => exact absurd (List.head?_eq_none_iff.1 hpp) hpe
          | some a => rw [hpp] at this; simpa using this
        · intro c hc
          apply hp.free
          rw [List.tail_append_of_ne_nil hpe]
          exact List.mem_append_left _ hc
      obtain ⟨n, hn, hr⟩ := ih hp'
      have hadj : adj u v := hch.2.2 u (by rw [hu]; simp) v (by simp)
      obtain ⟨_, _, m, hm, hfm⟩ := hp.free v (by
        rw [List.tail_append_of_ne_nil hpe]; exact List.mem_append_right _ (by simp))
      refine ⟨m, hm, ?_⟩
      rw [gridLen_snoc _ _ _ hu, add_mul]
      refine Reach.step hr (mem_gridSucc.2 ⟨hfm, ?_⟩)
      obtain ⟨dr, hdr, e1, e2, e3⟩ := (hd u v (cellEucl u v)).2 ⟨hadj, rfl⟩
      rw [← hn, ← hm] at e1
      rw [← hn, ← hm] at e2
      exact ⟨dr, hdr, e1, e2, by rw [e3]⟩

end

/-- **C25 + C27 on grid maps, against the specification of grid paths.**  For the 4- or the
8-neighbourhood, any step width, any of the listed heuristics and any min-priority open list, the
path returned is a path of free cells from the start to within the step width of the goal, and no
such path is better in length plus estimate at its end; in particular none that reaches the goal
cell itself is shorter. -/
theorem grid_search_shortest {free : GNode w h → Bool} {res : ℝ} (hr : 0 ≤ res)
    {dirs : List (Dir ℝ)} {D : Int} (hD : 0 < D) {adj : Int × Int → Int × Int → Prop}
    (hcase : (dirs = dirs4 D ∧ adj = Adj4 D) ∨ (dirs = dirs8 (Real.sqrt 2) D ∧ adj = Adj8 D))
    (k : GridHeur) {P : OpenList (GNode w h) ℝ} (L : Lawful P) (M : MinFirst P)
    (cfg : SCfg (GNode w h) ℝ) (ht : TopOk cfg.top) (hx : ∀ k n g, cfg.canExpand k n g = none)
    (huse : cfg.useCands = false) {s g : GNode w h} (hs : cfg.start = [s]) (hg : cfg.goal = [g])
    {fuel : Nat} {p : List (GNode w h)} {st'}
    (hrun : findPathNodes (gridAlgo free res dirs D (k.fn res) gridHypot) P cfg
      (freshLabels (gridAlgo free res dirs D (k.fn res) gridHypot)) fuel = some (.ok p, st'))
    (hp : p ≠ []) :
    ∃ t : GNode w h, FreePath w h (freeCell free) adj s.cell t.cell (p.map GNode.cell) ∧
      NearCell D g.cell t.cell ∧
      (∀ (q : List (Int × Int)) (t' : GNode w h),
        FreePath w h (freeCell free) adj s.cell t'.cell q → NearCell D g.cell t'.cell →
        gridLen (p.map GNode.cell) * res + k.fn res t g ≤ gridLen q * res + k.fn res t' g) ∧
      (∀ q, FreePath w h (freeCell free) adj s.cell g.cell q →
        gridLen (p.map GNode.cell) * res ≤ gridLen q * res) := by
  have he : EuclidDirs dirs := by
    rcases hcase with ⟨rfl, _⟩ | ⟨rfl, _⟩
    · exact euclid4 hD.le
    · exact euclid8 hD.le
  have hde : DirsExact dirs adj := by
    rcases hcase with ⟨rfl, rfl⟩ | ⟨rfl, rfl⟩
    · exact dirs4_exact hD.le
    · exact dirs8_exact hD
  obtain ⟨t, d, h1, _, _, _, _, hnear, hopt⟩ :=
    grid_search_optimal hr he k L M cfg ht hx huse hs hg hrun hp
  obtain ⟨hfp, hd⟩ := walkTo_freePath hde h1
  have hnc : ∀ t : GNode w h, ((((g.1 : Nat) : Int) - (t.1 : Nat)).natAbs ≤ D ∧
      (((g.2 : Nat) : Int) - (t.2 : Nat)).natAbs ≤ D) ↔ NearCell D g.cell t.cell := by
    intro t
    unfold NearCell GNode.cell
    simp only [Int.natCast_natAbs]
  have hmain : ∀ (q : List (Int × Int)) (t' : GNode w h),
        FreePath w h (freeCell free) adj s.cell t'.cell q → NearCell D g.cell t'.cell →
        gridLen (p.map GNode.cell) * res + k.fn res t g ≤ gridLen q * res + k.fn res t' g := by
    intro q t' hq hn
    obtain ⟨n, hn', hrch⟩ := freePath_reach (res := res) (D := D) (heur := k.fn res)
      (dist := gridHypot) hde q hq
    have := GNode.cell_inj hn'
    subst this
    have := hopt n _ hrch ((hnc n).2 hn)
    rwa [hd] at this
  refine ⟨t, hfp, (hnc t).1 hnear, hmain, ?_⟩
  intro q hq
  have hself : NearCell D g.cell g.cell := by
    unfold NearCell; simp [hD.le]
  have h0 : k.fn res g g = 0 := by
    cases k <;> simp [GridHeur.fn, hZero, hL2, hLInf, hMax, dX, dY]
  have hnn : 0 ≤ k.fn res t g := by
    cases k with
    | zero => exact le_refl _
    | l2 => exact mul_nonneg hr (Real.sqrt_nonneg _)
    | linf => exact mul_nonneg hr (le_max_of_le_left (abs_nonneg _))
    | maxL2Linf => exact le_max_of_le_right (mul_nonneg hr (Real.sqrt_nonneg _))
  have := hmain q g hq hself
  rw [h0] at this
  linarith

/-- The theorem applies to the concrete search around the wall. -/
example : ∃ fuel p st' , findPathNodes SearchEx.A SearchEx.P SearchEx.cfg
      (freshLabels SearchEx.A) fuel = some (.ok p, st') ∧ p ≠ [] ∧
    ∀ q, FreePath 4 3 (freeCell SearchEx.free) (Adj8 1) (0, 0) (0, 2) q →
      gridLen (p.map GNode.cell) ≤ gridLen q := by
  obtain ⟨fuel, p, st', h1, h2⟩ := SearchEx.finds_path
  obtain ⟨t, _, _, _, h3⟩ := grid_search_shortest (free := SearchEx.free) (res := 1)
    (by norm_num) (D := 1) (by norm_num) (.inr ⟨rfl, rfl⟩) .l2 prioLawful prioMin SearchEx.cfg
    SearchEx.topRef_ok (fun _ _ _ => rfl) rfl (s := (0, 0)) (g := (0, 2)) rfl rfl h1 h2
  refine ⟨fuel, p, st', h1, h2, fun q hq => ?_⟩
  have := h3 q hq
  simpa using this

/-- There is such a path to compare with. -/
example : FreePath 4 3 (freeCell SearchEx.free) (Adj8 1) (0, 0) (0, 2)
    [(0, 0), (1, 0), (2, 0), (3, 1), (2, 2), (1, 2), (0, 2)] := by
  refine ⟨rfl, rfl, ?_, ?_⟩
  · simp [Adj8]
  · intro c hc
    simp only [List.tail_cons, List.mem_cons, List.not_mem_nil, or_false] at hc
    rcases hc with rfl | rfl | rfl | rfl | rfl | rfl
    · exact ⟨by simp, by simp, ((1 : Fin 4), (0 : Fin 3)), by decide, by decide⟩
    · exact ⟨by simp, by simp, ((2 : Fin 4), (0 : Fin 3)), by decide, by decide⟩
    · exact ⟨by simp, by simp, ((3 : Fin 4), (1 : Fin 3)), by decide, by decide⟩
    · exact ⟨by simp, by simp, ((2 : Fin 4), (2 : Fin 3)), by decide, by decide⟩
    · exact ⟨by simp, by simp, ((1 : Fin 4), (2 : Fin 3)), by decide, by decide⟩
    · exact ⟨by simp, by simp, ((0 : Fin 4), (2 : Fin 3)), by decide, by decide⟩

end PathPlanning
