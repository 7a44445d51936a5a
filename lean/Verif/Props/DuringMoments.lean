import Verif.Props.DuringGrid
import Verif.Lemmas.SearchCount

/-!
# Grid searches on a map that changes: distinct steps were looked up at distinct moments (C116)
-/

namespace PathPlanning
open PathPlanning Spec
set_option linter.unusedSectionVars false

section
variable {N C : Type} [DecidableEq N] [LinearOrder C] [Fintype N]

/-- Every step of the path `p` is a step to a free neighbour at one of the first `E` moments, no two steps at the same: `J i` is the
moment of the step from `p[i]` to `p[i + 1]`. -/
def Spec.SteppedAt (maps : Nat → N → List (N × C)) (E : Nat) (p : List N) (J : Nat → Nat) : Prop :=
  (∀ i y z, p[i]? = some y → p[i + 1]? = some z → J i < E ∧ ∃ c, (z, c) ∈ maps (J i) y) ∧
  ∀ i j, i + 1 < p.length → j + 1 < p.length → J i = J j → i = j

namespace During
section general
variable {A : Algo N C} {P : OpenList N C} {maps : Nat → N → List (N × C)}

theorem process_prev (A : Algo N C) (goal : List N) (st : SSt N C P) (cur n : N) (c : C) (m : N) :
    ((processNeighbor A goal st cur n c).lab m).prev = (st.lab m).prev ∨
      (m = n ∧ ((processNeighbor A goal st cur n c).lab m).prev = some cur) := by
  unfold processNeighbor
  simp only
  by_cases hm : m = n
  · subst hm
    split_ifs <;> simp [setLab_self]
  · left
    split_ifs <;> simp [setLab_ne _ _ hm]

theorem fold_prev (A : Algo N C) (goal : List N) (cur : N) (m : N) : ∀ (es : List (N × C)) (st : SSt N C P),
    ((es.foldl (fun s e => processNeighbor A goal s cur e.1 e.2) st).lab m).prev = (st.lab m).prev ∨
      (((es.foldl (fun s e => processNeighbor A goal s cur e.1 e.2) st).lab m).prev = some cur ∧ ∃ c, (m, c) ∈ es) := by
  intro es
  induction es with
  | nil => intro st; exact .inl rfl
  | cons e es ih =>
    intro st
    rw [List.foldl_cons]
    rcases ih (processNeighbor A goal st cur e.1 e.2) with h | ⟨h, c, hc⟩
    · rcases process_prev A goal st cur e.1 e.2 m with h2 | ⟨h2, h3⟩
      · exact .inl (h.trans h2)
      · exact .inr ⟨h.trans h3, e.2, by rw [h2]; exact List.mem_cons_self ..⟩
    · exact .inr ⟨h, c, List.mem_cons_of_mem _ hc⟩

/-- `who j`: the node expanded by iteration `j`; every predecessor pointer was set by one of them. -/
def Moments (maps : Nat → N → List (N × C)) (st : SSt N C P) : Prop :=
  ∃ who : Nat → Option N, ∀ n c, (st.lab n).prev = some c → ∃ j < st.expansions, who j = some c ∧ ∃ w, (n, w) ∈ maps j c

theorem pop_prev (A : Algo N C) (cfg : SCfg N C) (st : SSt N C P) (cur : N) (o : P.O) (m : N) :
    ((popNode A cfg st cur o).lab m).prev = (st.lab m).prev := by
  unfold popNode
  simp only
  by_cases e : m = cur
  · subst e; rw [setLab_self]
  · rw [setLab_ne _ _ e]

theorem poseTest_lab {cfg : SCfg N C} {st : SSt N C P} {cur : N} {t : TestOut N C P} (h : poseTest A cfg st cur = .ok t) :
    t.st.lab = st.lab ∧ t.st.expansions = st.expansions :=
  ⟨(poseTest_quiet (A := A) cfg st cur t h).1, (poseTest_quiet (A := A) cfg st cur t h).2.2.1⟩

/-- For any goal test that changes neither labels nor counters. -/
theorem Moments.moreQ {cfg : SCfg N C} {test : SSt N C P → N → CRes (TestOut N C P)}
    (hq : ∀ st cur t, test st cur = .ok t → t.st.lab = st.lab ∧ t.st.expansions = st.expansions) {st st' : SSt N C P}
    (h : Moments maps st) (hi : iterate (A.withSucc (maps st.expansions)) cfg test st = .more st') : Moments maps st' := by
  obtain ⟨cur, o, t, hn, _, ht1, _, _, rfl⟩ := iterate_more hi
  obtain ⟨hl, he⟩ := hq _ _ _ ht1
  obtain ⟨who, h⟩ := h
  have hx : (expandNode (A.withSucc (maps st.expansions)) cfg.goal t.st cur).expansions = st.expansions + 1 := by
    rw [expandNode_expansions, he]; rfl
  refine ⟨fun j => if j = st.expansions then some cur else who j, fun n c hp => ?_⟩
  rw [hx]
  rcases fold_prev (A.withSucc (maps st.expansions)) cfg.goal cur n ((A.withSucc (maps st.expansions)).succ cur) t.st with e | ⟨e, w, hw⟩
  · have hp' : (st.lab n).prev = some c := by
      rw [← pop_prev (A.withSucc (maps st.expansions)) cfg st cur o n, ← hl, ← e]; exact hp
    obtain ⟨j, hj, g⟩ := h n c hp'
    exact ⟨j, by omega, by simpa only [if_neg (show j ≠ st.expansions by omega)] using g⟩
  · have : some cur = some c := e.symm.trans hp
    cases this
    exact ⟨st.expansions, by omega, if_pos rfl, w, hw⟩

theorem Moments.more {cfg : SCfg N C} {st st' : SSt N C P} (h : Moments maps st)
    (hi : iterate (A.withSucc (maps st.expansions)) cfg (poseTest A cfg) st = .more st') : Moments maps st' :=
  Moments.moreQ (fun _ _ _ ht => poseTest_lab ht) h hi

theorem Moments.init (L : Lawful P) (cfg : SCfg N C) : Moments maps (initSearch A P cfg (freshLabels A)) := by
  refine ⟨fun _ => none, fun n c hp => ?_⟩
  exfalso
  obtain ⟨k1, k2, _⟩ := init_facts (A := A) (L := L) (cfg := cfg)
  by_cases hn : n ∈ cfg.start
  · rw [k1 n hn] at hp; cases hp
  · rw [k2 n hn] at hp; cases hp

theorem Moments.path {B : Algo N C} {E : Nat} {start : List N} {lab : Labels N C} {st : SSt N C P} {n : N} {p : List N} {d : C}
    (h : Moments maps st) (hE : st.expansions ≤ E) (hlab : ∀ n, (lab n).prev = (st.lab n).prev)
    (hb : Back B start lab n p d) : ∃ J, SteppedAt maps E p J := by
  classical
  obtain ⟨who, h⟩ := h
  have hnd := hb.nodup
  have key : ∀ i, i + 1 < p.length → ∃ u v, p[i]? = some u ∧ p[i + 1]? = some v ∧ (lab v).prev = some u := by
    clear hnd
    induction hb with
    | start hs => intro i hi; simp at hi
    | @step n p l d c hn hp hb he hle ih =>
      intro i hi
      rw [List.length_append, List.length_singleton] at hi
      have hlast : l.getLast? = some p := by
        cases hb with
        | start _ => rfl
        | step _ _ _ _ _ => simp
      by_cases e : i + 1 < l.length
      · obtain ⟨u, v, q1, q2, q3⟩ := ih i e
        exact ⟨u, v, by rw [List.getElem?_append_left (by omega)]; exact q1,
          by rw [List.getElem?_append_left e]; exact q2, q3⟩
      · have e2 : i + 1 = l.length := by omega
        refine ⟨p, n, ?_, ?_, hp⟩
        · rw [List.getElem?_append_left (by omega), ← hlast, List.getLast?_eq_getElem?]
          congr 1; omega
        · rw [List.getElem?_append_right (by omega), e2]; simp
  have key2 : ∀ i, ∃ j, i + 1 < p.length → j < E ∧ ∃ u v, p[i]? = some u ∧ p[i + 1]? = some v ∧ who j = some u ∧
      ∃ w, (v, w) ∈ maps j u := by
    intro i
    by_cases hi : i + 1 < p.length
    · obtain ⟨u, v, q1, q2, q3⟩ := key i hi
      obtain ⟨j, hj, g1, g2⟩ := h v u (by rw [← hlab]; exact q3)
      exact ⟨j, fun _ => ⟨by omega, u, v, q1, q2, g1, g2⟩⟩
    · exact ⟨0, fun h => absurd h hi⟩
  choose J hJ using key2
  refine ⟨J, fun i y z hy hz => ?_, fun i j hi hj e => ?_⟩
  · obtain ⟨hlt, u, v, q1, q2, _, w, g2⟩ := hJ i (List.getElem?_eq_some_iff.1 hz).1
    rw [q1] at hy; cases hy
    rw [q2] at hz; cases hz
    exact ⟨hlt, w, g2⟩
  · obtain ⟨_, u, _, q1, _, g1, _⟩ := hJ i hi
    obtain ⟨_, u', _, q1', _, g1', _⟩ := hJ j hj
    rw [e, g1'] at g1
    cases g1
    have H := List.nodup_iff_getElem?_ne_getElem?.1 hnd
    by_contra hne
    rcases Nat.lt_or_gt_of_ne hne with h1 | h1
    · exact H i j h1 (by omega) (by rw [q1, q1'])
    · exact H j i h1 (by omega) (by rw [q1, q1'])

/-- **C116 (moments).**  The steps of a returned path were free on the maps of distinct moments of the search. -/
theorem moments (ok : ∀ k, CostOk (A.withSucc (maps k))) (L : Lawful P) (cfg : SCfg N C) (ht : TopOk cfg.top)
    (hx : ∀ k n g, cfg.canExpand k n g = none) {fuel : Nat} {p : List N} {st' : SSt N C P}
    (hrun : findPathDuring A maps P cfg (freshLabels A) fuel = some (.ok p, st')) : ∃ J, SteppedAt maps st'.expansions p J := by
  have hxo : ExpansionOk cfg := ⟨fun k s g _ => hx k s g, fun k n g e h => by rw [hx] at h; cases h⟩
  obtain ⟨_, st1, ⟨h1, hM⟩, h2⟩ := run_last (A := A) (maps := maps)
    (Inv := fun st => VLoop (A.withSucc (seen maps st'.expansions)) (fun _ => []) L cfg st ∧ Moments maps st)
    (E := st'.expansions) (fun st st2 hk h hi => ⟨(h.1.more (seen_ok ok _) hxo (s := maps st.expansions)
      (fun u e he => List.mem_flatMap.2 ⟨st.expansions, List.mem_range.2 hk, he⟩) (fun _ e he => by cases he)
      (by rw [poseTest_withSucc]; exact hi)).1, h.2.more hi⟩) fuel _ st' p hrun (le_refl _) ⟨VLoop.init, Moments.init L cfg⟩
  have h2' : iterate ((A.withSucc (seen maps st'.expansions)).withSucc (maps st1.expansions)) cfg
      (poseTest (A.withSucc (seen maps st'.expansions)) cfg) st1 = .done (.ok p) st' := by
    rw [poseTest_withSucc]; exact h2
  have hE : st1.expansions ≤ st'.expansions := done_expansions (A := A.withSucc (maps st1.expansions)) (by rw [poseTest_withSucc]; exact h2)
  have none' : ∀ E, ∃ J, SteppedAt maps E ([] : List N) J := fun E =>
    ⟨fun _ => 0, fun i y z hy => by simp at hy, fun i j hi => by simp at hi⟩
  generalize hB : A.withSucc (seen maps st'.expansions) = B at h1 h2'
  rcases iterate_done h2' with ⟨hn, rfl, hr⟩ | ⟨hab, rfl, hr⟩ | ⟨cur, o, hn, hh⟩
  · rcases finish_spec (A := B) ht h1.inv.core h1.inv.cands with ⟨_, q⟩ | ⟨x, l, d, _, _, q3, q4⟩
    · rw [q] at hr; cases hr; exact none' _
    · rw [q4] at hr; cases hr; exact hM.path (le_refl _) (fun _ => rfl) q3
  · rcases finish_spec (A := B) ht h1.inv.core h1.inv.cands with ⟨_, q⟩ | ⟨x, l, d, _, _, q3, q4⟩
    · rw [q] at hr; cases hr; exact none' _
    · rw [q4] at hr; cases hr; exact hM.path (le_refl _) (fun _ => rfl) q3
  · obtain ⟨hX, hd, hoth, hcs, hf, he⟩ := h1.inv.pop hn
    change (poseTest B cfg (popNode B cfg st1 cur o) cur = .ub ∧ _) ∨
      (∃ e, poseTest B cfg (popNode B cfg st1 cur o) cur = .throw e ∧ _) ∨
      ∃ t, poseTest B cfg (popNode B cfg st1 cur o) cur = .ok t ∧ _ at hh
    obtain ⟨t, g1, g2, g3, g4, g5, g6, g7, g8, g9, g10, g11⟩ :=
      poseTest_spec (A := B) hxo _ cur hX.core hX.curOk.1
    have hcore : Core B cfg.start t.st.lab := by rw [g2]; exact hX.core
    have hclosed : ∀ x ∈ t.st.cands, (t.st.lab x.1).closed = true := by
      intro x hx1
      rw [g2]
      rcases g6 x hx1 with h1 | h1
      · exact hX.cands x h1
      · rw [h1.1]; exact hX.curOk.1
    have hprev : ∀ n, (t.st.lab n).prev = (st1.lab n).prev := fun n => by rw [g2]; exact pop_prev B cfg st1 cur o n
    have fin : ∀ {q : List N}, CRes.ok q = finish cfg t.st → ∃ J, SteppedAt maps st'.expansions q J := by
      intro q hr
      rcases finish_spec (A := B) ht hcore hclosed with ⟨_, e⟩ | ⟨x, l, d, _, _, q3, q4⟩
      · rw [e] at hr; cases hr; exact none' _
      · rw [q4] at hr; cases hr; exact hM.path hE hprev q3
    rw [g1] at hh
    rcases hh with ⟨hh, _⟩ | ⟨e, hh, _⟩ | ⟨t', hh, _, h3⟩
    · cases hh
    · cases hh
    · cases hh
      rcases h3 with ⟨h4, h5, h6⟩ | ⟨h4, h5, h6⟩ | ⟨_, _, _, _, h6⟩
      · cases h6
        obtain ⟨d, hb, _⟩ := g9 h4 hx
        exact hM.path hE (fun n => pop_prev B cfg st1 cur o n) hb
      · exact fin h6
      · exact fin h6

/-- **C116 (moments).**  If from moment `k` on nothing is free around any node, a path returned has at most `k` steps. -/
theorem frozen (ok : ∀ k, CostOk (A.withSucc (maps k))) (L : Lawful P) (cfg : SCfg N C) (ht : TopOk cfg.top)
    (hx : ∀ k n g, cfg.canExpand k n g = none) {fuel : Nat} {p : List N} {st' : SSt N C P}
    (hrun : findPathDuring A maps P cfg (freshLabels A) fuel = some (.ok p, st')) {k : Nat}
    (hk : ∀ j, k ≤ j → ∀ u, maps j u = []) : p.length ≤ k + 1 := by
  obtain ⟨J, h1, h2⟩ := moments ok L cfg ht hx hrun
  have hb : ∀ i, i + 1 < p.length → J i < k := by
    intro i hi
    obtain ⟨_, c, hc⟩ := h1 i p[i] p[i + 1] (by simp) (by simp)
    by_contra hge
    rw [hk (J i) (by omega)] at hc
    cases hc
  have hinj : Set.InjOn J (Finset.range (p.length - 1) : Set Nat) := by
    intro i hi j hj e
    simp only [Finset.coe_range, Set.mem_Iio] at hi hj
    exact h2 i j (by omega) (by omega) e
  have hsub : (Finset.range (p.length - 1)).image J ⊆ Finset.range k := by
    intro x hx
    obtain ⟨i, hi, rfl⟩ := Finset.mem_image.1 hx
    have := Finset.mem_range.1 hi
    exact Finset.mem_range.2 (hb i (by omega))
  have := Finset.card_le_card hsub
  rw [Finset.card_image_of_injOn hinj, Finset.card_range, Finset.card_range] at this
  omega

/-- **C116 (moments, grid searches).**  The cells of a returned path after the first were free on the maps of distinct moments
of the search. -/
theorem grid_moments {w h : Nat} {res : ℝ} (hr : 0 ≤ res) {dirs : List (Dir ℝ)} {D : Int} (hD : 0 < D)
    {adj : Int × Int → Int × Int → Prop}
    (hcase : (dirs = dirs4 D ∧ adj = Adj4 D) ∨ (dirs = dirs8 (Real.sqrt 2) D ∧ adj = Adj8 D))
    (kh : GridHeur) {P : OpenList (GNode w h) ℝ} (L : Lawful P)
    (cfg : SCfg (GNode w h) ℝ) (ht : TopOk cfg.top) (hx : ∀ k n g, cfg.canExpand k n g = none)
    (free0 : GNode w h → Bool) (free : Nat → GNode w h → Bool) {fuel : Nat} {p : List (GNode w h)} {st' : SSt (GNode w h) ℝ P}
    (hrun : findPathDuring (gridAlgo free0 res dirs D (kh.fn res) gridHypot) (fun k => gridSucc (free k) res dirs) P cfg
      (freshLabels (gridAlgo free0 res dirs D (kh.fn res) gridHypot)) fuel = some (.ok p, st')) :
    ∃ J : Nat → Nat, (∀ i z, p[i + 1]? = some z → J i < st'.expansions ∧ free (J i) z = true) ∧
      ∀ i j, i + 1 < p.length → j + 1 < p.length → J i = J j → i = j := by
  have he : EuclidDirs dirs := by
    rcases hcase with ⟨rfl, _⟩ | ⟨rfl, _⟩
    · exact euclid4 hD.le
    · exact euclid8 hD.le
  obtain ⟨J, h1, h2⟩ := moments (A := gridAlgo free0 res dirs D (kh.fn res) gridHypot)
    (fun k => (grid_exact (free := free k) (D := D) (heur := kh.fn res) (dist := gridHypot) hr he).ok) L cfg ht hx hrun
  refine ⟨J, fun i z hz => ?_, h2⟩
  have hlt : i + 1 < p.length := (List.getElem?_eq_some_iff.1 hz).1
  obtain ⟨hj, c, hc⟩ := h1 i p[i] z (by simp) hz
  exact ⟨hj, (mem_gridSucc.1 hc).1⟩

end general
end During
end

namespace During
namespace Ex

theorem costs (k : Nat) : CostOk (A.withSucc (gridSucc (blocked k) 1 (dirs4 1))) where
  infl u v c hc a := by
    obtain ⟨-, d, hd, -, -, rfl⟩ := mem_gridSucc.1 hc
    show a ≤ a + d.delta * 1
    have : 0 ≤ d.delta := by
      simp only [dirs4, List.mem_cons, List.not_mem_nil, or_false] at hd
      rcases hd with rfl | rfl | rfl | rfl <;> simp
    omega
  mono a b c h := Int.add_le_add_right h c

/-- The hypotheses of `moments` are met by the search of `stale`, whose path has two steps. -/
example : ∃ st' J, SteppedAt (fun k => gridSucc (blocked k) (1 : Int) (dirs4 1)) st'.expansions
    ([(0, 0), (1, 0), (2, 0)] : List (GNode 4 1)) J ∧ findPathDuring A (fun k => gridSucc (blocked k) 1 (dirs4 1))
      (PriorityManager : OpenList (GNode 4 1) Int) cfg (freshLabels A) 4 = some (.ok [(0, 0), (1, 0), (2, 0)], st') := by
  obtain ⟨st', h, _⟩ := stale
  obtain ⟨J, hJ⟩ := moments (A := A) (P := PriorityManager) (costs) prioLawful cfg KinEx.minTop_ok (fun _ _ _ => rfl) h
  exact ⟨st', J, hJ, h⟩

end Ex
end During
end PathPlanning
