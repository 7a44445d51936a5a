import Verif.Spec.HybridSearch
import Verif.Props.KinSearch

/-!
# Properties of searches with analytic expansion
-/

namespace PathPlanning
open Spec
set_option linter.unusedSectionVars false

variable {N K C X : Type} [DecidableEq N] [LinearOrder C] [Fintype N]
variable {P : OpenList N C} {A : KAlgo N K C} {E : KExp X K C} {cs : List C} {L : Lawful P} {cfg : SCfg N C} {kin0 : N → K}

/-- With the fuel of the search without expansion the search with expansion ends as well. -/
theorem xSearch_ends : ∀ (f : Nat) (st : KSt N K C P) (x : X) (y), kLoop A cfg f st = some y →
    ∃ z, xSearch A E cfg f st x = some z := by
  intro f
  induction f with
  | zero => intro st x y h; simp [kLoop] at h
  | succ f ih =>
    intro st x y h
    rw [kLoop] at h
    rw [xSearch]
    have key : ∀ x', ∃ z, (match (match kIterate A cfg st with
        | .more st' => XIter.more st' x'
        | .done r st' => .done (contents st'.kin r) x' : XIter N K C X P) with
      | .done r x' => some (r, x')
      | .more st' x' => xSearch A E cfg f st' x') = some z := by
      intro x'
      cases hi : kIterate A cfg st with
      | done r st' => exact ⟨_, rfl⟩
      | more st' => rw [hi] at h; exact ih st' x' y h
    unfold xIterate
    cases hn : P.next st.s.opn with
    | none => exact key x
    | some co =>
      obtain ⟨cur, o⟩ := co
      simp only
      by_cases hab : cfg.abort st.s.expansions = true
      · rw [if_pos hab]; exact key x
      · rw [if_neg hab]
        cases hx : xLoop E cfg.start (popNode (A.alg st.s.lab st.kin) cfg st.s cur o).lab st.kin cur cfg.goal x with
        | throw e => exact ⟨_, rfl⟩
        | ub => exact ⟨_, rfl⟩
        | ok r =>
          obtain ⟨q, x'⟩ := r
          cases q with
          | none => exact key x'
          | some q => exact ⟨_, rfl⟩

/-- More fuel does not change a result. -/
theorem xSearch_fuel : ∀ (f g : Nat) (st : KSt N K C P) (x : X) (y z), xSearch A E cfg f st x = some y →
    xSearch A E cfg g st x = some z → y = z := by
  intro f
  induction f with
  | zero => intro g st x y z h; simp [xSearch] at h
  | succ f ih =>
    intro g st x y z h1 h2
    cases g with
    | zero => simp [xSearch] at h2
    | succ g =>
      rw [xSearch] at h1 h2
      cases hi : xIterate A E cfg st x with
      | done r x' => rw [hi] at h1 h2; simp only [Option.some.injEq] at h1 h2; rw [← h1, ← h2]
      | more st' x' => rw [hi] at h1 h2; exact ih g st' x' y z h1 h2

theorem _root_.PathPlanning.Spec.ExpCalls.trans {H : C → Prop} {x x1 x2 : X} (h1 : ExpCalls E H x x1) (h2 : ExpCalls E H x1 x2) : ExpCalls E H x x2 := by
  induction h2 with
  | refl => exact h1
  | step _ h e ih => exact ih.step h e

/-- The expansions tried at one node. -/
theorem xLoop_cases {start : List N} {lab : Labels N C} {kin : N → K} {cur : N} (H : C → Prop) (hH : H (lab cur).h) :
    ∀ (gs : List N) (x : X),
      (∃ x', xLoop E start lab kin cur gs x = .ok (none, x') ∧ ExpCalls E H x x') ∨
      ∃ g ∈ gs, ∃ x1, ExpCalls E H x x1 ∧
        ((∃ e, E.expand x1 (kin cur) (lab cur).h (kin g) = .throw e ∧ xLoop E start lab kin cur gs x = .throw e) ∨
         (E.expand x1 (kin cur) (lab cur).h (kin g) = .ub ∧ xLoop E start lab kin cur gs x = .ub) ∨
         ∃ x2, E.expand x1 (kin cur) (lab cur).h (kin g) = .ok (true, x2) ∧
          xLoop E start lab kin cur gs x = (xPath E start lab kin cur x2).bind fun q => .ok (some q, x2)) := by
  intro gs
  induction gs with
  | nil => intro x; exact .inl ⟨x, rfl, .refl⟩
  | cons g gs ih =>
    intro x
    cases he : E.expand x (kin cur) (lab cur).h (kin g) with
    | throw e =>
      exact .inr ⟨g, by simp, x, .refl, .inl ⟨e, he, by rw [xLoop, he]; rfl⟩⟩
    | ub => exact .inr ⟨g, by simp, x, .refl, .inr (.inl ⟨he, by rw [xLoop, he]; rfl⟩)⟩
    | ok r =>
      obtain ⟨b, x2⟩ := r
      cases b with
      | true =>
        exact .inr ⟨g, by simp, x, .refl, .inr (.inr ⟨x2, he, by rw [xLoop, he]; rfl⟩)⟩
      | false =>
        have e1 : xLoop E start lab kin cur (g :: gs) x = xLoop E start lab kin cur gs x2 := by rw [xLoop, he]; rfl
        have hc : ExpCalls E H x x2 := ExpCalls.refl.step hH he
        rw [e1]
        rcases ih x2 with ⟨x', h1, h2⟩ | ⟨g', hg, x1, h1, h2⟩
        · exact .inl ⟨x', h1, hc.trans h2⟩
        · exact .inr ⟨g', by simp [hg], x1, hc.trans h1, h2⟩

/-- What a finished iteration or run is: an end of the search without expansion, a failing expansion, or an expansion. -/
def XOut (A : KAlgo N K C) (E : KExp X K C) (P : OpenList N C) (cfg : SCfg N C) (kin0 : N → K) (x x' : X) (r : CRes (List K)) : Prop :=
  (∃ e, r = .throw e ∧ ExpFails A E cfg.start cfg.goal kin0 x (· = .throw e)) ∨
  (r = .ub ∧ (ExpFails A E cfg.start cfg.goal kin0 x (· = .ub) ∨ ExpandsStart A E cfg.start cfg.goal kin0 x ∨
    ExpFails A E cfg.start cfg.goal kin0 x fun r => ∃ x2, r = .ok (true, x2) ∧ E.get x2 = [])) ∨
  ∃ q k kg, r = .ok q ∧ EndsExpanded A E (Exact A P cfg) cfg.start cfg.goal kin0 x x' q k kg

theorem xIterate_spec (ok : Spec.KCostOk A cs) {st : KSt N K C P} (h : KInv A cs L cfg kin0 nopend st)
    (hM : Exact A P cfg → ∀ M, KMono A M cfg kin0 nopend st) (x : X) :
    (∃ x', ExpCalls E (fun h => ∃ a b, h = A.heur a b) x x' ∧ xIterate A E cfg st x = match kIterate A cfg st with
      | .more st' => .more st' x'
      | .done r st' => .done (contents st'.kin r) x') ∨
    ∃ r x', xIterate A E cfg st x = .done r x' ∧ XOut A E P cfg kin0 x x' r := by
  unfold xIterate
  cases hn : P.next st.s.opn with
  | none => exact .inl ⟨x, .refl, rfl⟩
  | some co =>
    obtain ⟨cur, o⟩ := co
    simp only
    by_cases hab : cfg.abort st.s.expansions = true
    · rw [if_pos hab]; exact .inl ⟨x, .refl, rfl⟩
    · rw [if_neg hab]
      obtain ⟨hx, hd, hp, hoth, hcs, hf, he, hopn1⟩ := kpop_spec h hn (B := A.alg st.s.lab st.kin)
      have hXE : Exact A P cfg → ∀ n, n ∉ cfg.start →
          ((popNode (A.alg st.s.lab st.kin) cfg st.s cur o).lab n).dist ≠ ⊤ →
          XEdge A (popNode (A.alg st.s.lab st.kin) cfg st.s cur o).lab st.kin n := by
        rintro he
        obtain ⟨M⟩ := he.2.2.2
        rcases kpop_mono he.1 he.2.1 h (hM he M) hn with ⟨_, q⟩ | q
        · exact q.edge
        · exact q.edge
      have hcur : (st.s.lab cur).dist ≠ ⊤ := h.memReach cur (L.next_some _ _ _ hn).1
      have hh : cfg.goal ≠ [] → ∃ b, ((popNode (A.alg st.s.lab st.kin) cfg st.s cur o).lab cur).h = A.heur (st.kin cur) b := by
        intro hg
        cases hgo : cfg.goal with
        | nil => exact absurd hgo hg
        | cons g gs =>
          refine ⟨st.kin g, ?_⟩
          simp only [popNode, setLab, if_true, hgo]
          rfl
      have hgk : ∀ g ∈ cfg.goal, ∃ g' ∈ cfg.goal, st.kin g = kin0 g' ∨
          (A.lookup (st.kin g) = .ok (some g') ∧ Reachable A cfg.start kin0 (st.kin g)) := by
        intro g hg
        refine ⟨g, hg, ?_⟩
        by_cases hgs : g ∈ cfg.start
        · exact .inl (h.startKin g hgs)
        · by_cases hgd : (st.s.lab g).dist = ⊤
          · exact .inl (h.newKin g hgd)
          · exact .inr (h.edge g hgs hgd).reachable
      generalize popNode (A.alg st.s.lab st.kin) cfg st.s cur o = s1 at *
      by_cases hg0 : cfg.goal = []
      · rw [hg0]
        exact .inl ⟨x, .refl, rfl⟩
      obtain ⟨b, hb⟩ := hh hg0
      rcases xLoop_cases (E := E) (start := cfg.start) (lab := s1.lab) (kin := st.kin) (cur := cur)
        (fun h => ∃ a b, h = A.heur a b) ⟨_, _, hb⟩ cfg.goal x with ⟨x', h1, h2⟩ | ⟨g, hg, x1, h1, h2⟩
      · exact .inl ⟨x', h2, by rw [h1]; rfl⟩
      · have hask : AskedFor A E cfg.start cfg.goal kin0 x x1 (st.kin cur) (s1.lab cur).h (st.kin g) :=
          ⟨h1, h.reachable hcur, hgk g hg, b, hb⟩
        right
        rcases h2 with ⟨e, h2, h3⟩ | ⟨h2, h3⟩ | ⟨x2, h2, h3⟩
        · rw [h3]
          exact ⟨_, _, rfl, .inl ⟨e, rfl, x1, _, _, _, hask, h2⟩⟩
        · rw [h3]
          exact ⟨_, _, rfl, .inr (.inl ⟨rfl, .inl ⟨x1, _, _, _, hask, h2⟩⟩)⟩
        · rw [h3]
          unfold xPath
          cases hget : E.get x2 with
          | nil => exact ⟨_, _, rfl, .inr (.inl ⟨rfl, .inr (.inr ⟨x1, _, _, _, hask, x2, h2, hget⟩)⟩)⟩
          | cons e es =>
            simp only
            by_cases hcs : cur ∈ cfg.start
            · have hpn : (s1.lab cur).prev = none := by
                rw [hp cur]; exact (h.core st.s.lab st.kin).sp cur hcs
              refine ⟨.ub, x, ?_, .inr (.inl ⟨rfl, .inr (.inl ?_)⟩)⟩
              · simp [backtrackCopy, hpn, CRes.bind]
              · rw [h.startKin cur hcs] at hask h2
                exact ⟨x1, x2, cur, _, _, hcs, hask, h2⟩
            · have hcd : (s1.lab cur).dist ≠ ⊤ := by rw [hd cur]; exact hcur
              obtain ⟨l, d, hbk⟩ := (hx.core s1.lab st.kin).back cur hcd
              have hbc := backtrackCopy_ok (hx.core s1.lab st.kin).sp hbk hcs
              obtain ⟨d', t1, _, s, hs, t2⟩ := hbk.cellTrace (st := ⟨s1, st.kin⟩) ok hx.core hx.startKin hx.edge hcd
              obtain ⟨l', hl, hne⟩ := hbk.last
              subst hl
              rw [hbc]
              refine ⟨_, x2, rfl, .inr (.inr ⟨_, st.kin cur, st.kin g, rfl, x1, _, l'.map st.kin, e, es, hask, h2, hget, ?_, ?_,
                ⟨d', ?_⟩, ⟨s, hs, ?_⟩, ?_, ?_, ?_⟩)⟩
              · simp
              · simpa using hne hcs
              · simpa using t1
              · cases l' with
                | nil => exact absurd rfl (hne hcs)
                | cons a t => simpa using t2
              · intro y hy
                obtain ⟨v, hv, rfl⟩ := List.mem_map.1 hy
                have hvd := hbk.reached (st := ⟨s1, st.kin⟩) ok hx.core hx.edge hcd v (by simp [hv])
                exact h.reachable (by rw [← hd v]; exact hvd)
              · have := hbk.nodup.length_le_card
                simp only [List.length_append, List.length_singleton, List.length_map] at this ⊢
                omega
              · intro he
                obtain ⟨l2, d2, u1, u2, _⟩ := hbk.drive (st := ⟨s1, st.kin⟩) (hx.core s1.lab st.kin).sp (hXE he) hcd
                refine ⟨d2, ?_⟩
                rw [← u1] at u2
                simpa using u2

/-- Every run ends: like the search without expansion, or with an expansion. -/
theorem xSearch_spec (ok : Spec.KCostOk A cs) (ht : TopOk cfg.top) : ∀ (f : Nat) (st : KSt N K C P) (x x' : X) (r),
    KInv A cs L cfg kin0 nopend st → (cfg.useCands = false → st.s.cands = []) →
    (Exact A P cfg → ∀ M, KMono A M cfg kin0 nopend st) → xSearch A E cfg f st x = some (r, x') →
    (ExpCalls E (fun h => ∃ a b, h = A.heur a b) x x' ∧ ∃ f' r0 st', kLoop A cfg f' st = some (r0, st') ∧ r = contents st'.kin r0) ∨
      XOut A E P cfg kin0 x x' r := by
  intro f
  induction f with
  | zero => intro st x x' r _ _ _ h; simp [xSearch] at h
  | succ f ih =>
    intro st x x' r hI hn hM h
    rw [xSearch] at h
    rcases xIterate_spec (E := E) ok hI hM x with ⟨x1, h1, h2⟩ | ⟨r1, x1, h1, h2⟩
    · rw [h2] at h
      have hs := kIterate_spec ok ht hI hn
      cases hi : kIterate A cfg st with
      | done r0 st' =>
        rw [hi] at h
        simp only [Option.some.injEq, Prod.mk.injEq] at h
        obtain ⟨rfl, rfl⟩ := h
        exact .inl ⟨h1, 1, r0, st', by rw [kLoop, hi], rfl⟩
      | more st' =>
        rw [hi] at h hs
        have hM' : Exact A P cfg → ∀ M, KMono A M cfg kin0 nopend st' := by
          intro he M
          have := kIterate_mono ok ht he.1 he.2.1 he.2.2.1 hI (hM he M)
          rw [hi] at this
          exact this
        rcases ih st' x1 x' r hs.1 hs.2.1 hM' h with ⟨h3, f', r0, st2, h4, h5⟩ | h3
        · exact .inl ⟨h1.trans h3, f' + 1, r0, st2, by rw [kLoop, hi]; exact h4, h5⟩
        · right
          have up : ∀ {x2 k h kg}, AskedFor A E cfg.start cfg.goal kin0 x1 x2 k h kg → AskedFor A E cfg.start cfg.goal kin0 x x2 k h kg :=
            fun a => ⟨h1.trans a.calls, a.reach, a.goal, a.heur⟩
          rcases h3 with ⟨e, h4, x2, k, hh, kg, h5, h6⟩ | ⟨h4, h5⟩ | ⟨q, k, kg, h4, x2, hh, l, e, es, h5, h6⟩
          · exact .inl ⟨e, h4, x2, k, hh, kg, up h5, h6⟩
          · refine .inr (.inl ⟨h4, ?_⟩)
            rcases h5 with ⟨x2, k, hh, kg, h6, h7⟩ | ⟨x2, x3, s, hh, kg, h6, h7, h8⟩ | ⟨x2, k, hh, kg, h6, h7⟩
            · exact .inl ⟨x2, k, hh, kg, up h6, h7⟩
            · exact .inr (.inl ⟨x2, x3, s, hh, kg, h6, up h7, h8⟩)
            · exact .inr (.inr ⟨x2, k, hh, kg, up h6, h7⟩)
          · exact .inr (.inr ⟨q, k, kg, h4, x2, hh, l, e, es, up h5, h6⟩)
    · rw [h1] at h
      simp only [Option.some.injEq, Prod.mk.injEq] at h
      obtain ⟨rfl, rfl⟩ := h
      exact .inr h2

/-- **Searches with analytic expansion.**  Every search ends; it ends either exactly as the search without expansion, or because an
expansion misbehaved, or - with undefined behaviour - because an expansion succeeded at a start node (or gave no pose), or with a path
that consists of legal steps and an expansion to the goal. -/
theorem hybrid_search (ok : Spec.KCostOk A cs) (L : Lawful P) (ht : TopOk cfg.top) (x : X) :
    ∃ fuel r x', xFindPath A E P cfg kin0 x fuel = some (r, x') ∧
      ((ExpCalls E (fun h => ∃ a b, h = A.heur a b) x x' ∧ ∃ f', kFindPath A P cfg kin0 f' = some r) ∨ XOut A E P cfg kin0 x x' r) := by
  obtain ⟨h1, h2⟩ := kInit_inv (A := A) (cs := cs) (L := L) (cfg := cfg) (kin0 := kin0)
  obtain ⟨fuel, r0, st', h3, h4⟩ := kLoop_spec ok ht _ h1 (fun _ => h2)
  obtain ⟨⟨r, x'⟩, hz⟩ := xSearch_ends (E := E) fuel _ x _ h3
  refine ⟨fuel, r, x', hz, ?_⟩
  rcases xSearch_spec ok ht fuel _ x x' r h1 (fun _ => h2) (fun he M => kInit_mono L he.2.2.1) hz with ⟨h5, f', r1, st1, h6, h7⟩ | h5
  · refine .inl ⟨h5, f', ?_⟩
    unfold kFindPath
    rw [h6, h7]
    cases r1 <;> rfl
  · exact .inr h5

/-- The same for a given run. -/
theorem hybrid_result (ok : Spec.KCostOk A cs) (L : Lawful P) (ht : TopOk cfg.top) {x x' : X} {fuel : Nat} {r : CRes (List K)}
    (h : xFindPath A E P cfg kin0 x fuel = some (r, x')) :
    (ExpCalls E (fun h => ∃ a b, h = A.heur a b) x x' ∧ ∃ f', kFindPath A P cfg kin0 f' = some r) ∨ XOut A E P cfg kin0 x x' r := by
  obtain ⟨f, r1, x1, h1, h2⟩ := hybrid_search (E := E) (kin0 := kin0) ok L ht x
  have := xSearch_fuel _ _ _ _ _ _ h h1
  simp only [Prod.mk.injEq] at this
  obtain ⟨rfl, rfl⟩ := this
  exact h2

end PathPlanning
