import Verif.Props.HybridSearch
import Verif.Lemmas.KinCount

/-!
# Which expansions a search has tried
-/

namespace PathPlanning
open Spec
set_option linter.unusedSectionVars false

variable {N K C X : Type} [DecidableEq N] [LinearOrder C] [Fintype N]
variable {P : OpenList N C} {A : KAlgo N K C} {E : KExp X K C} {cs : List C} {L : Lawful P} {cfg : SCfg N C} {kin0 : N → K}

/-- A move changes the pose of a node only when it puts the node on the open list. -/
theorem kTry_settled {goal : List N} {cur : N} {mv} {st st' : KSt N K C P} (hk : kTry A goal cur mv st = .ok st') (u : N)
    (hu : (st'.s.lab u).opn = false) :
    (st.s.lab u).opn = false ∧ (st'.s.lab u).closed = (st.s.lab u).closed ∧ st'.kin u = st.kin u := by
  unfold kTry at hk
  cases hm : mv (st.kin cur) (kPreds st.s.lab st.kin cur A.predDepth) with
  | none =>
    rw [hm] at hk
    simp only [CRes.ok.injEq] at hk
    subst hk; exact ⟨hu, rfl, rfl⟩
  | some ck =>
    obtain ⟨c, k⟩ := ck
    rw [hm] at hk
    simp only at hk
    cases hus : A.usable (st.kin cur) k with
    | throw e => rw [hus] at hk; cases hk
    | ub => rw [hus] at hk; cases hk
    | ok b =>
      rw [hus] at hk
      simp only [CRes.bind] at hk
      cases b with
      | false =>
        simp only [Bool.false_eq_true, if_false, CRes.ok.injEq] at hk
        subst hk; exact ⟨hu, rfl, rfl⟩
      | true =>
        simp only [if_true] at hk
        cases hlk : A.lookup k with
        | throw e => rw [hlk] at hk; cases hk
        | ub => rw [hlk] at hk; cases hk
        | ok r =>
          rw [hlk] at hk
          simp only at hk
          cases r with
          | none =>
            simp only [CRes.ok.injEq] at hk
            subst hk; exact ⟨hu, rfl, rfl⟩
          | some n =>
            simp only at hk
            have hdist : ((setLab st.s.lab n { st.s.lab n with watched := true }) cur).dist = (st.s.lab cur).dist := by
              by_cases e : cur = n
              · subst e; simp [setLab]
              · simp [setLab, e]
            by_cases hp : processAdds A st.s cur n c = true
            · rw [if_pos hp] at hk
              by_cases e : n = cur
              · rw [if_pos e] at hk; cases hk
              · rw [if_neg e] at hk
                cases hk
                simp only at hu ⊢
                unfold processNeighbor at hu ⊢
                simp only [Algo.addW, KAlgo.alg, hdist] at hu ⊢
                unfold processAdds at hp
                simp only [Bool.and_eq_true, Bool.not_eq_true', Bool.or_eq_true] at hp
                obtain ⟨p1, p2⟩ := hp
                rw [if_neg (by rw [p1]; simp), if_pos (by simpa using p2)] at hu ⊢
                by_cases e2 : u = n
                · subst e2; simp [setLab] at hu
                · simp only [setLab, e2, if_false] at hu ⊢
                  exact ⟨hu, by trivial⟩
            · rw [if_neg hp] at hk
              cases hk
              simp only at hu ⊢
              have hlab : (processNeighbor (A.alg st.s.lab st.kin) goal st.s cur n c).lab =
                  setLab st.s.lab n { st.s.lab n with watched := true } := by
                unfold processNeighbor
                simp only [Algo.addW, KAlgo.alg, hdist]
                unfold processAdds at hp
                simp only [Bool.and_eq_true, Bool.not_eq_true', Bool.or_eq_true, not_and_or, Bool.not_eq_false] at hp
                by_cases h1 : ((st.s.lab n).closed && !decide ((st.s.lab cur).dist.map (fun a => A.add a c) < (st.s.lab n).dist)) = true
                · rw [if_pos h1]
                · rw [if_neg h1]
                  rcases hp with hp | hp
                  · exact absurd (by simpa using hp) h1
                  · rw [if_neg (by simpa [Bool.or_eq_true, not_or] using hp)]
              rw [hlab] at hu ⊢
              by_cases e2 : u = n
              · subst e2; simp only [setLab, if_true] at hu ⊢; exact ⟨hu, by trivial⟩
              · simp only [setLab, e2, if_false] at hu ⊢; exact ⟨hu, by trivial⟩

theorem kExpand_settled {goal : List N} {cur : N} : ∀ (ms : List (K → List K → Option (C × K))) (st st' : KSt N K C P),
    kExpand A goal cur ms st = .ok st' → ∀ u, (st'.s.lab u).opn = false →
    (st.s.lab u).opn = false ∧ (st'.s.lab u).closed = (st.s.lab u).closed ∧ st'.kin u = st.kin u := by
  intro ms
  induction ms with
  | nil => intro st st' hk u hu; cases hk; exact ⟨hu, rfl, rfl⟩
  | cons mv ms ih =>
    intro st st' hk u hu
    rw [kExpand] at hk
    cases hk1 : kTry A goal cur mv st with
    | throw e => rw [hk1] at hk; cases hk
    | ub => rw [hk1] at hk; cases hk
    | ok st1 =>
      rw [hk1] at hk
      obtain ⟨i1, i2, i3⟩ := ih st1 st' hk u hu
      obtain ⟨j1, j2, j3⟩ := kTry_settled hk1 u i1
      exact ⟨j1, i2.trans j2, i3.trans j3⟩

/-- The heuristic values a search passes to its expansion. -/
def HVal (A : KAlgo N K C) (h : C) : Prop := ∃ a b, h = A.heur a b

/-- Every settled node was refused by the expansion, for all goals, as long as no goal node was reached. -/
def Refused (A : KAlgo N K C) (E : KExp X K C) (cfg : SCfg N C) (kin0 : N → K) (x0 : X) (st : KSt N K C P) (x : X) : Prop :=
  (∀ g ∈ cfg.goal, (st.s.lab g).dist = ⊤) → ∀ u, (st.s.lab u).closed = true → (st.s.lab u).opn = false →
    ∃ x1 x2 h, (cfg.goal ≠ [] → ∃ b, h = A.heur (st.kin u) b) ∧ ExpCalls E (HVal A) x0 x1 ∧ RefusesAll E (st.kin u) h (cfg.goal.map kin0) x1 x2 ∧
      ExpCalls E (HVal A) x2 x

theorem xLoop_refuses {start : List N} {lab : Labels N C} {kin : N → K} {cur : N} : ∀ (gs : List N) (x x' : X),
    xLoop E start lab kin cur gs x = .ok (none, x') → RefusesAll E (kin cur) (lab cur).h (gs.map kin) x x' := by
  intro gs
  induction gs with
  | nil => intro x x' h; cases h; rfl
  | cons g gs ih =>
    intro x x' h
    rw [xLoop] at h
    cases he : E.expand x (kin cur) (lab cur).h (kin g) with
    | throw e => rw [he] at h; cases h
    | ub => rw [he] at h; cases h
    | ok r =>
      obtain ⟨b, x1⟩ := r
      rw [he] at h
      simp only [CRes.bind] at h
      cases b with
      | true =>
        simp only [if_true] at h
        cases hp : xPath E start lab kin cur x1 with
        | throw e => rw [hp] at h; cases h
        | ub => rw [hp] at h; cases h
        | ok q => rw [hp] at h; cases h
      | false =>
        simp only [Bool.false_eq_true, if_false] at h
        exact ⟨x1, he, ih x1 x' h⟩

theorem RefusesAll.calls {H : C → Prop} {k : K} {h : C} (hh : H h) : ∀ {kgs : List K} {x x1 x2 : X},
    ExpCalls E H x x1 → RefusesAll E k h kgs x1 x2 → ExpCalls E H x x2
  | [], _, _, _, hc, hr => by rw [← (show _ = _ from hr)]; exact hc
  | _ :: _, _, _, _, hc, ⟨_, he, hr⟩ => RefusesAll.calls hh (hc.step hh he) hr

theorem Refused.later {x0 x x' : X} {st : KSt N K C P} (h : Refused A E cfg kin0 x0 st x) (hc : ExpCalls E (HVal A) x x') :
    Refused A E cfg kin0 x0 st x' := by
  intro hg u h1 h2
  obtain ⟨x1, x2, hh, a, b, c, d⟩ := h hg u h1 h2
  exact ⟨x1, x2, hh, a, b, c, d.trans hc⟩

/-- The node taken off the open list, after it has been refused. -/
theorem Refused.pop {x0 x x' : X} {st : KSt N K C P} (hI : KInv A cs L cfg kin0 nopend st) (hx0 : ExpCalls E (HVal A) x0 x)
    (h : Refused A E cfg kin0 x0 st x) {cur : N} {o : P.O} (hn : P.next st.s.opn = some (cur, o))
    (hl : xLoop E cfg.start (popNode (A.alg st.s.lab st.kin) cfg st.s cur o).lab st.kin cur cfg.goal x = .ok (none, x')) :
    ExpCalls E (HVal A) x0 x' ∧
      Refused A E cfg kin0 x0 { s := popNode (A.alg st.s.lab st.kin) cfg st.s cur o, kin := st.kin } x' := by
  obtain ⟨_, hd, _, hoth, _⟩ := kpop_spec hI hn (B := A.alg st.s.lab st.kin)
  have hr := xLoop_refuses _ _ _ hl
  have hh : cfg.goal ≠ [] → ∃ b, ((popNode (A.alg st.s.lab st.kin) cfg st.s cur o).lab cur).h = A.heur (st.kin cur) b := by
    intro hg
    cases hgo : cfg.goal with
    | nil => exact absurd hgo hg
    | cons g gs =>
      refine ⟨st.kin g, ?_⟩
      simp only [popNode, setLab, if_true, hgo]
      rfl
  have hcalls : ExpCalls E (HVal A) x x' := by
    by_cases hg : cfg.goal = []
    · rw [hg] at hr
      have : x = x' := hr
      rw [← this]; exact .refl
    · obtain ⟨b, hb⟩ := hh hg
      exact RefusesAll.calls ⟨_, b, hb⟩ .refl hr
  refine ⟨hx0.trans hcalls, ?_⟩
  intro hg u h1 h2
  simp only at hg h1 h2
  have hg' : ∀ g ∈ cfg.goal, (st.s.lab g).dist = ⊤ := fun g hgg => by rw [← hd g]; exact hg g hgg
  by_cases e : u = cur
  · subst e
    refine ⟨x, x', _, hh, hx0, ?_, .refl⟩
    have : cfg.goal.map st.kin = cfg.goal.map kin0 := List.map_congr_left fun g hgg => hI.newKin g (hg' g hgg)
    rw [← this]; exact hr
  · rw [hoth u e] at h1 h2
    obtain ⟨x1, x2, w, a, b, c, d⟩ := h hg' u h1 h2
    exact ⟨x1, x2, w, a, b, c, d.trans hcalls⟩

theorem Refused.congr {x0 x : X} {s s' : SSt N C P} {kin : N → K} (h : Refused A E cfg kin0 x0 ⟨s, kin⟩ x) (e : s'.lab = s.lab) :
    Refused A E cfg kin0 x0 ⟨s', kin⟩ x := by
  intro hg u h1 h2
  simp only [e] at hg h1 h2
  exact h hg u h1 h2

/-- A search that gives up: every settled node was refused. -/
theorem xSearch_refused (ok : Spec.KCostOk A cs) (ht : TopOk cfg.top) {x0 : X} : ∀ (f : Nat) (st : KSt N K C P) (x x' : X),
    KInv A cs L cfg kin0 nopend st → (cfg.useCands = false → st.s.cands = []) → ExpCalls E (HVal A) x0 x →
    Refused A E cfg kin0 x0 st x → (∀ i, cfg.abort i = false) → xSearch A E cfg f st x = some (.ok [], x') →
    ∃ st', KDone A cs L cfg kin0 (.ok []) st' ∧ Refused A E cfg kin0 x0 st' x' := by
  intro f
  induction f with
  | zero => intro st x x' _ _ _ _ _ h; simp [xSearch] at h
  | succ f ih =>
    intro st x x' hI hno hx0 hR hab h
    have hs := kIterate_spec ok ht hI hno
    rw [xSearch] at h
    unfold xIterate at h
    cases hn : P.next st.s.opn with
    | none =>
      have hi : kIterate A cfg st = .done (finish cfg st.s) st := by unfold kIterate; rw [hn]
      rw [hn] at h
      simp only [hi, Option.some.injEq, Prod.mk.injEq] at h
      obtain ⟨h1, rfl⟩ := h
      rw [hi] at hs
      simp only at hs
      cases hf : finish cfg st.s with
      | throw e => rw [hf] at h1; cases h1
      | ub => rw [hf] at h1; cases h1
      | ok p =>
        rw [hf] at h1 hs
        cases p with
        | cons a l => simp [contents] at h1
        | nil => exact ⟨st, hs, hR⟩
    | some co =>
      obtain ⟨cur, o⟩ := co
      rw [hn] at h
      simp only [hab, Bool.false_eq_true, if_false] at h
      cases hl : xLoop E cfg.start (popNode (A.alg st.s.lab st.kin) cfg st.s cur o).lab st.kin cur cfg.goal x with
      | throw e => rw [hl] at h; simp at h
      | ub => rw [hl] at h; simp at h
      | ok r =>
        obtain ⟨oq, x1⟩ := r
        rw [hl] at h
        cases oq with
        | some q =>
          exfalso
          simp only [Option.some.injEq, Prod.mk.injEq, CRes.ok.injEq] at h
          obtain ⟨rfl, rfl⟩ := h
          rcases xLoop_cases (E := E) (start := cfg.start) (lab := (popNode (A.alg st.s.lab st.kin) cfg st.s cur o).lab) (kin := st.kin)
            (cur := cur) (fun _ => True) trivial cfg.goal x with ⟨x2, e, _⟩ | ⟨g, _, x2, _, ⟨e, _, e2⟩ | ⟨_, e2⟩ | ⟨x3, _, e2⟩⟩
          · rw [e] at hl; cases hl
          · rw [e2] at hl; cases hl
          · rw [e2] at hl; cases hl
          · rw [e2] at hl
            unfold xPath at hl
            cases hget : E.get x3 with
            | nil => rw [hget] at hl; cases hl
            | cons a as =>
              rw [hget] at hl
              simp only at hl
              cases hb : backtrackCopy (popNode (A.alg st.s.lab st.kin) cfg st.s cur o).lab cfg.start cur with
              | throw e => rw [hb] at hl; cases hl
              | ub => rw [hb] at hl; cases hl
              | ok p =>
                rw [hb] at hl
                simp [CRes.bind] at hl
        | none =>
          simp only at h
          obtain ⟨hx1, hR1⟩ := hR.pop hI hx0 hn hl
          rcases kIterate_cases (A := A) (cfg := cfg) st with ⟨st', e, cur', o', t, hn', _, htt, _, hk⟩ | ⟨r, st', e, hkin, hc⟩
          · rw [hn] at hn'
            simp only [Option.some.injEq, Prod.mk.injEq] at hn'
            obtain ⟨rfl, rfl⟩ := hn'
            rw [e] at h hs
            simp only at h hs
            refine ih st' x1 x' hs.1 hs.2.1 hx1 ?_ hab h
            obtain ⟨q1, _⟩ := goalLoop_quiet _ _ _ _ _ htt
            have hR2 : Refused A E cfg kin0 x0 { s := t.st, kin := st.kin } x1 := hR1.congr q1
            have hdist : ∀ g, (st'.s.lab g).dist = ⊤ → (t.st.lab g).dist = ⊤ := by
              intro g hg
              have := hs.2.2.1 g
              rw [hg, top_le_iff] at this
              rw [q1, (kpop_spec hI hn (B := A.alg st.s.lab st.kin)).2.1 g]
              exact this
            intro hg u h1 h2
            obtain ⟨k1, k2, k3⟩ := kExpand_settled _ _ _ hk u h2
            rw [k2] at h1
            have := hR2 (fun g hgg => hdist g (hg g hgg)) u h1 k1
            rw [k3]; exact this
          · rw [e] at h hs
            simp only [Option.some.injEq, Prod.mk.injEq] at h hs
            obtain ⟨h1, rfl⟩ := h
            have hres : r = .ok [] := by
              cases r with
              | throw e => cases h1
              | ub => cases h1
              | ok p =>
                cases p with
                | nil => rfl
                | cons a l => simp [contents] at h1
            rw [hres] at hs
            refine ⟨st', hs, ?_⟩
            obtain ⟨s', kin'⟩ := st'
            simp only at hkin hc
            subst hkin
            rcases hc with rfl | ⟨cur', o', hn', hc⟩
            · have hcalls : Refused A E cfg kin0 x0 st x1 := by
                have hr := xLoop_refuses _ _ _ hl
                intro hg u h1 h2
                have hd := (kpop_spec hI hn (B := A.alg st.s.lab st.kin)).2.1
                have ho := (kpop_spec hI hn (B := A.alg st.s.lab st.kin)).2.2.2.1
                have := hR1 (fun g hgg => by simp only; rw [hd g]; exact hg g hgg) u
                  (by
                    simp only
                    by_cases e : u = cur
                    · subst e; simp [popNode, setLab]
                    · rw [ho u e]; exact h1)
                  (by
                    simp only
                    by_cases e : u = cur
                    · subst e; simp [popNode, setLab]
                    · rw [ho u e]; exact h2)
                exact this
              exact hcalls
            · rw [hn] at hn'
              simp only [Option.some.injEq, Prod.mk.injEq] at hn'
              obtain ⟨rfl, rfl⟩ := hn'
              rcases hc with rfl | ⟨t, htt, rfl⟩
              · exact hR1
              · exact hR1.congr (goalLoop_quiet _ _ _ _ _ htt).1

theorem kInit_open (L : Lawful P) (u : N) : ((kInit A P cfg kin0).s.lab u).closed = false := by
  obtain ⟨k1, k2, _⟩ := init_facts (A := A.alg (fun _ => Label.fresh A.zero) kin0) (L := L) (cfg := cfg)
  show ((initSearch (A.alg (fun _ => Label.fresh A.zero) kin0) P cfg
    (freshLabels (A.alg (fun _ => Label.fresh A.zero) kin0))).lab u).closed = false
  by_cases hu : u ∈ cfg.start
  · rw [k1 u hu]; rfl
  · rw [k2 u hu]; rfl

/-- **C104.** A search with analytic expansion that gives up, although its time was not limited: the poses it stored cannot be left by a
legal move, none of them passes the goal test, and the expansion, asked for a way from each of them to the goal, refused. -/
theorem hybrid_complete (ok : Spec.KCostOk A cs) (L : Lawful P) (ht : TopOk cfg.top) (hab : ∀ i, cfg.abort i = false)
    (hrefl : ∀ k pv, A.isGoal k k pv = true) {x x' : X} {fuel : Nat} (h : xFindPath A E P cfg kin0 x fuel = some (.ok [], x')) :
    ∃ κ, Saturated A cfg.start kin0 κ ∧ (∀ g ∈ cfg.goal, κ g = none) ∧
      (∀ n k, κ n = some k → ∀ g ∈ cfg.goal, ∃ pv, A.isGoal (kin0 g) k pv = false) ∧
      ∀ n k, κ n = some k → ∃ x1 x2 h, (cfg.goal ≠ [] → ∃ b, h = A.heur k b) ∧
        ExpCalls E (fun h => ∃ a b, h = A.heur a b) x x1 ∧ RefusesAll E k h (cfg.goal.map kin0) x1 x2 ∧
        ExpCalls E (fun h => ∃ a b, h = A.heur a b) x2 x' := by
  classical
  obtain ⟨h1, h2⟩ := kInit_inv (A := A) (cs := cs) (L := L) (cfg := cfg) (kin0 := kin0)
  obtain ⟨st', hd, hR⟩ := xSearch_refused (x0 := x) ok ht fuel _ x x' h1 (fun _ => h2) .refl (by
    intro _ u hu
    rw [kInit_open L] at hu
    cases hu) hab h
  obtain ⟨κ, k1, k2, k3, k4, k5⟩ := kdone_complete hd hab hrefl
  refine ⟨κ, k1, k2, k3, fun n k hn => ?_⟩
  have hk := k5 n
  rw [hn] at hk
  split_ifs at hk with hdn
  simp only [Option.some.injEq] at hk
  obtain ⟨c1, c2⟩ := k4 n (by rw [hn]; simp)
  rw [hk]
  refine hR (fun g hg => ?_) n c1 c2
  have := k5 g
  rw [k2 g hg] at this
  by_contra hne
  rw [if_neg hne] at this
  cases this

end PathPlanning
