import Verif.Spec.HybridHistory
import Verif.Props.HybridSearch
import Verif.Props.KinHist

/-!
# C105: later searches with analytic expansion
-/

namespace PathPlanning
open Spec
set_option linter.unusedSectionVars false

variable {N K C X : Type} [DecidableEq N] [LinearOrder C] [Fintype N]
variable {P : OpenList N C} {A : KAlgo N K C} {E : KExp X K C} {cs : List C} {L : Lawful P} {cfg : SCfg N C} {kin0 : N → K}
variable {S : List N} {lab : Labels N C}

/-! ### The nodes do not matter for the result -/

theorem xIterateS_erase (st : KSt N K C P) (x : X) :
    xIterate A E cfg st x = match xIterateS A E cfg st x with
      | .more st' x' => .more st' x'
      | .done r _ x' => .done r x' := by
  unfold xIterate xIterateS
  simp only
  cases hk : kIterate A cfg st with
  | more st' =>
    cases hn : P.next st.s.opn with
    | none => rfl
    | some co =>
      obtain ⟨cur, o⟩ := co
      simp only
      by_cases hab : cfg.abort st.s.expansions = true
      · rw [if_pos hab, if_pos hab]
      · rw [if_neg hab, if_neg hab]
        rcases xLoop E cfg.start (popNode (A.alg st.s.lab st.kin) cfg st.s cur o).lab st.kin cur cfg.goal x with ⟨⟨_ | q, x'⟩⟩ | e | _ <;> rfl
  | done r st' =>
    cases hn : P.next st.s.opn with
    | none => rfl
    | some co =>
      obtain ⟨cur, o⟩ := co
      simp only
      by_cases hab : cfg.abort st.s.expansions = true
      · rw [if_pos hab, if_pos hab]
      · rw [if_neg hab, if_neg hab]
        rcases xLoop E cfg.start (popNode (A.alg st.s.lab st.kin) cfg st.s cur o).lab st.kin cur cfg.goal x with ⟨⟨_ | q, x'⟩⟩ | e | _ <;> rfl

theorem xSearchS_erase : ∀ (f : Nat) (st : KSt N K C P) (x : X),
    xSearch A E cfg f st x = (xSearchS A E cfg f st x).map fun y => (y.1, y.2.2) := by
  intro f
  induction f with
  | zero => intro st x; rfl
  | succ f ih =>
    intro st x
    rw [xSearch, xSearchS, xIterateS_erase]
    cases xIterateS A E cfg st x with
    | more st' x' => exact ih st' x'
    | done r st' x' => rfl

/-- On freshly initialised nodes this is the search of `Model/HybridSearch.lean`. -/
theorem xFindOn_fresh (x : X) (fuel : Nat) :
    xFindPath A E P cfg kin0 x fuel = (xFindOn A E P cfg (fun _ => Label.fresh A.zero) kin0 x fuel).map fun y => (y.1, y.2.2) :=
  xSearchS_erase _ _ _

/-- With the fuel of the search without expansion the search with expansion ends as well. -/
theorem xSearchS_ends {f : Nat} {st : KSt N K C P} (x : X) {y} (h : kLoop A cfg f st = some y) :
    ∃ z, xSearchS A E cfg f st x = some z := by
  obtain ⟨z, hz⟩ := xSearch_ends (E := E) f st x y h
  rw [xSearchS_erase, Option.map_eq_some_iff] at hz
  obtain ⟨w, hw, _⟩ := hz
  exact ⟨w, hw⟩

/-- More fuel does not change a result. -/
theorem xSearchS_fuel : ∀ (f g : Nat) (st : KSt N K C P) (x : X) (y z), xSearchS A E cfg f st x = some y →
    xSearchS A E cfg g st x = some z → y = z := by
  intro f
  induction f with
  | zero => intro g st x y z h; simp [xSearchS] at h
  | succ f ih =>
    intro g st x y z h1 h2
    cases g with
    | zero => simp [xSearchS] at h2
    | succ g =>
      rw [xSearchS] at h1 h2
      cases hi : xIterateS A E cfg st x with
      | done r st' x' => rw [hi] at h1 h2; simp only [Option.some.injEq] at h1 h2; rw [← h1, ← h2]
      | more st' x' => rw [hi] at h1 h2; exact ih g st' x' y z h1 h2

/-! ### Backtracking along stored predecessors -/

theorem backtrackFrom_head {lb : Labels N C} {start : List N} (cur : N) (cont : Finset N) (path : List N)
    (hp : path.head? = some cur) :
    backtrackFrom lb start cur cont path = .ub ∨ backtrackFrom lb start cur cont path = .ok [] ∨
      ∃ l t, backtrackFrom lb start cur cont path = .ok l ∧ l = t ++ path ∧ ∃ s ∈ start, l.head? = some s := by
  rw [backtrackFrom]
  by_cases h1 : cur ∈ start
  · rw [if_pos h1]
    exact .inr (.inr ⟨path, [], rfl, rfl, cur, h1, hp⟩)
  rw [if_neg h1]
  by_cases h2 : cur ∈ cont
  · rw [dif_pos h2]; exact .inr (.inl rfl)
  rw [dif_neg h2]
  cases hq : (lb cur).prev with
  | none => exact .inl rfl
  | some p =>
    simp only
    by_cases h3 : (lb p).prev = some p
    · rw [if_pos h3]; exact .inl rfl
    · rw [if_neg h3]
      rcases backtrackFrom_head p (insert cur cont) (p :: path) rfl with h | h | ⟨l, t, h, h4, h5⟩
      · exact .inl h
      · exact .inr (.inl h)
      · exact .inr (.inr ⟨l, t ++ [p], h, by simp [h4], h5⟩)
termination_by (Finset.univ \ cont).card
decreasing_by
  apply Finset.card_lt_card
  refine ⟨fun x hx => ?_, fun hs => ?_⟩
  · simp only [Finset.mem_sdiff, Finset.mem_univ, Finset.mem_insert, true_and, not_or] at hx ⊢
    exact hx.2
  · have := hs (Finset.mem_sdiff.2 ⟨Finset.mem_univ cur, h2⟩)
    simp at this

/-- The predecessors of start nodes are not changed. -/
def StartPrev (start : List N) (lab : Labels N C) (st : KSt N K C P) : Prop := ∀ s ∈ start, (st.s.lab s).prev = (lab s).prev

theorem kTry_startPrev (ok : KCostOk A cs) {goal : List N} {lab0 : Labels N C} {st st' : KSt N K C P} {cur : N} {mv}
    (hmv : mv ∈ A.moves) (h : KMid A cs L cfg S lab0 kin0 st) (hcur : Touched cfg.start lab0 st.s.lab cur)
    (hp : StartPrev cfg.start lab st) (hk : kTry A goal cur mv st = .ok st') : StartPrev cfg.start lab st' := by
  unfold kTry at hk
  cases hm : mv (st.kin cur) (kPreds st.s.lab st.kin cur A.predDepth) with
  | none => rw [hm] at hk; cases hk; exact hp
  | some ck =>
    obtain ⟨c, k⟩ := ck
    rw [hm] at hk
    simp only at hk
    cases hus : A.usable (st.kin cur) k with
    | throw e => rw [hus] at hk; cases hk
    | ub => rw [hus] at hk; cases hk
    | ok b =>
      rw [hus] at hk
      simp only [CRes.bind] at hk
      cases b with
      | false => cases hk; exact hp
      | true =>
        simp only [if_true] at hk
        cases hlk : A.lookup k with
        | throw e => rw [hlk] at hk; cases hk
        | ub => rw [hlk] at hk; cases hk
        | ok r =>
          rw [hlk] at hk
          simp only at hk
          cases r with
          | none => cases hk; exact hp
          | some n =>
            simp only at hk
            have hcs : c ∈ cs := ok.costs mv hmv _ _ _ _ hm
            have hC := h.core st.s.lab st.kin
            have hu : (st.s.lab cur).dist ≠ ⊤ := hC.fin hcur
            obtain ⟨c1, c2, c3, hcase⟩ := process_cases_reach (A := A.alg st.s.lab st.kin)
              (goal := goal) (c := c) (hC.reach n) hu
            have key : ∀ s ∈ cfg.start, ((processNeighbor (A.alg st.s.lab st.kin) goal st.s cur n c).lab s).prev = (lab s).prev := by
              intro s hs
              simp only [KAlgo.alg_addW] at hcase
              rcases hcase with ⟨_, _, hsame⟩ | ⟨hcl, _, _, _, _, hother⟩
              · rw [(hsame s).1.2.1]; exact hp s hs
              · have hne : s ≠ n := by
                  rintro rfl
                  rw [hC.s0 s hs] at hcl
                  exact absurd ((hC.low cur).trans (ok.le_addW hcs _)) (not_le.2 hcl)
                rw [hother s hne]; exact hp s hs
            split at hk
            · split at hk
              · cases hk
              · cases hk; exact key
            · cases hk; exact key

theorem during_startPrev (ok : KCostOk A cs) (L : Lawful P) (hh : KHist A cs S lab) (hS : ∀ s ∈ cfg.start, s ∈ S) {pc}
    {st : KSt N K C P} (h : During A P cfg lab kin0 pc st) : StartPrev cfg.start lab st := by
  induction h with
  | init =>
    have key : ∀ (ss : List N) (st : SSt N C P) (n : N), ((ss.foldl (addStart (A.alg lab kin0)) st).lab n).prev = (st.lab n).prev := by
      intro ss
      induction ss with
      | nil => intro st n; rfl
      | cons s ss ih =>
        intro st n
        rw [List.foldl_cons, ih]
        by_cases e : n = s
        · subst e; simp [addStart, setLab]
        · simp [addStart, setLab, e]
    intro s _
    exact key _ _ s
  | @pop st cur o hg _ hn ih =>
    intro s hs
    rw [← ih s hs]
    by_cases e : s = cur
    · subst e; simp [popNode, setLab]
    · simp [popNode, setLab, e]
  | cands _ e1 _ _ ih => intro s hs; rw [e1]; exact ih s hs
  | @move cur mv ms st st' hd hk ih =>
    obtain ⟨h1, h2⟩ := during_mid ok L hh hS hd
    obtain ⟨h3, h4⟩ := h2 cur (mv :: ms) rfl
    exact kTry_startPrev ok (h4 mv (by simp)) h1 h3 ih hk
  | loop _ ih => exact ih

/-! ### One iteration, one search -/

/-- What a search that is ended by the expansion results in. -/
def XOutOn (A : KAlgo N K C) (E : KExp X K C) (cfg : SCfg N C) (lab : Labels N C) (kin0 : N → K) (x x' : X) (r : CRes (List K)) :
    Prop :=
  (∃ e, r = .throw e ∧ ExpFails A E cfg.start cfg.goal kin0 x (· = .throw e)) ∨
  (r = .ub ∧ (ExpFails A E cfg.start cfg.goal kin0 x (· = .ub) ∨
    ExpFails A E cfg.start cfg.goal kin0 x fun r => ∃ x2, r = .ok (true, x2) ∧ E.get x2 = [])) ∨
  (∃ x2, ExpandsStartLater A E cfg.start cfg.goal lab kin0 x x2 r ∧ (r ≠ .ub → x' = x2)) ∨
  ∃ q k kg, r = .ok q ∧ EndsExpanded A E False cfg.start cfg.goal kin0 x x' q k kg

theorem xIterateS_spec (ok : Spec.KCostOk A cs) (hh : KHist A cs S lab) (hS : ∀ s ∈ cfg.start, s ∈ S) {st : KSt N K C P}
    (h : KHInv A cs L cfg S lab kin0 noMove noTest st) (hdu : During A P cfg lab kin0 none st) (x : X) :
    (∃ x', ExpCalls E (fun h => ∃ a b, h = A.heur a b) x x' ∧ xIterateS A E cfg st x = match kIterate A cfg st with
      | .more st' => .more st' x'
      | .done r st' => .done (contents st'.kin r) st' x') ∨
    ∃ r st' x', xIterateS A E cfg st x = .done r st' x' ∧ XOutOn A E cfg lab kin0 x x' r ∧ ∃ pc, During A P cfg lab kin0 pc st' := by
  unfold xIterateS
  cases hn : P.next st.s.opn with
  | none => exact .inl ⟨x, .refl, rfl⟩
  | some co =>
    obtain ⟨cur, o⟩ := co
    simp only
    by_cases hab : cfg.abort st.s.expansions = true
    · rw [if_pos hab]; exact .inl ⟨x, .refl, rfl⟩
    · rw [if_neg hab]
      obtain ⟨hx, hd, hcs, hopn1, hcurT⟩ := khpop_spec h hn (B := A.alg st.s.lab st.kin)
      have hdu1 : During A P cfg lab kin0 (some (cur, A.moves))
          { st with s := popNode (A.alg st.s.lab st.kin) cfg st.s cur o } := During.pop cfg.heurGoal hdu hn
      have hsp := during_startPrev ok L hh hS hdu1
      have hgoalh : cfg.goal ≠ [] → ∃ b, ((popNode (A.alg st.s.lab st.kin) cfg st.s cur o).lab cur).h = A.heur (st.kin cur) b := by
        intro hg
        cases hgo : cfg.goal with
        | nil => exact absurd hgo hg
        | cons g gs =>
          refine ⟨st.kin g, ?_⟩
          simp only [popNode, setLab, if_true, hgo]
          rfl
      have hgk : ∀ g ∈ cfg.goal, ∃ g' ∈ cfg.goal, st.kin g = kin0 g' ∨
          (A.lookup (st.kin g) = .ok (some g') ∧ Reachable A cfg.start kin0 (st.kin g)) := by
        intro g hg
        refine ⟨g, hg, ?_⟩
        by_cases hgs : g ∈ cfg.start
        · exact .inl (h.startKin g hgs)
        · by_cases hgd : Touched cfg.start lab st.s.lab g
          · exact .inr (h.edge g hgs hgd).reachable
          · exact .inl (h.newKin g hgd)
      generalize popNode (A.alg st.s.lab st.kin) cfg st.s cur o = s1 at *
      by_cases hg0 : cfg.goal = []
      · rw [hg0]
        exact .inl ⟨x, .refl, rfl⟩
      obtain ⟨b, hb⟩ := hgoalh hg0
      rcases xLoop_cases (E := E) (start := cfg.start) (lab := s1.lab) (kin := st.kin) (cur := cur)
        (fun h => ∃ a b, h = A.heur a b) ⟨_, _, hb⟩ cfg.goal x with ⟨x', h1, h2⟩ | ⟨g, hg, x1, h1, h2⟩
      · exact .inl ⟨x', h2, by rw [h1]; rfl⟩
      · have hask : AskedFor A E cfg.start cfg.goal kin0 x x1 (st.kin cur) (s1.lab cur).h (st.kin g) :=
          ⟨h1, h.reachable hcurT, hgk g hg, b, hb⟩
        right
        rcases h2 with ⟨e, h2, h3⟩ | ⟨h2, h3⟩ | ⟨x2, h2, h3⟩
        · rw [h3]
          exact ⟨_, _, _, rfl, .inl ⟨e, rfl, x1, _, _, _, hask, h2⟩, _, hdu1⟩
        · rw [h3]
          exact ⟨_, _, _, rfl, .inr (.inl ⟨rfl, .inl ⟨x1, _, _, _, hask, h2⟩⟩), _, hdu1⟩
        · rw [h3]
          unfold xPath
          cases hget : E.get x2 with
          | nil => exact ⟨_, _, _, rfl, .inr (.inl ⟨rfl, .inr ⟨x1, _, _, _, hask, x2, h2, hget⟩⟩), _, hdu1⟩
          | cons e es =>
            simp only
            by_cases hcs : cur ∈ cfg.start
            · have hk0 := h.startKin cur hcs
              have hpn : (s1.lab cur).prev = (lab cur).prev := hsp cur hcs
              have hst : ∀ r, ((lab cur).prev = none → r = .ub) → (r = .ub ∨ r = .ok (e :: es) ∨
                  ∃ l, r = .ok (l ++ [E.turn (kin0 cur) e] ++ e :: es) ∧ ∃ s' ∈ cfg.start, l.head? = some (kin0 s')) →
                  ExpandsStartLater A E cfg.start cfg.goal lab kin0 x x2 r := by
                intro r hr1 hr2
                rw [hk0] at hask h2
                exact ⟨x1, cur, _, _, e, es, hcs, hask, h2, hget, hr1, hr2⟩
              unfold backtrackCopy
              rw [hpn]
              cases hp : (lab cur).prev with
              | none =>
                exact ⟨_, _, _, rfl, .inr (.inr (.inl ⟨x2, hst _ (fun _ => rfl) (.inl rfl), fun hne => absurd rfl hne⟩)), _, hdu1⟩
              | some p =>
                simp only
                by_cases hsl : (s1.lab p).prev = some p
                · rw [if_pos hsl]
                  exact ⟨_, _, _, rfl, .inr (.inr (.inl ⟨x2, hst _ (fun _ => rfl) (.inl rfl), fun hne => absurd rfl hne⟩)), _, hdu1⟩
                · rw [if_neg hsl]
                  rcases backtrackFrom_head (lb := s1.lab) (start := cfg.start) p ∅ [p, cur] rfl with h4 | h4 | ⟨l, t, h4, h5, s', hs', h6⟩
                  · rw [h4]
                    exact ⟨_, _, _, rfl, .inr (.inr (.inl ⟨x2, hst _ (fun _ => rfl) (.inl rfl), fun hne => absurd rfl hne⟩)), _, hdu1⟩
                  · rw [h4]
                    exact ⟨.ok (e :: es), _, x2, rfl, .inr (.inr (.inl ⟨x2, hst _ (fun hc => by rw [hp] at hc; cases hc)
                      (.inr (.inl rfl)), fun _ => rfl⟩)), _, hdu1⟩
                  · rw [h4]
                    have hne : l ≠ [] := by rw [h5]; simp
                    have hlast : l.dropLast = t ++ [p] := by
                      rw [h5, show t ++ [p, cur] = (t ++ [p]) ++ [cur] by simp, List.dropLast_concat]
                    refine ⟨.ok (l.dropLast.map st.kin ++ [E.turn (kin0 cur) e] ++ e :: es), _, x2, ?_,
                      .inr (.inr (.inl ⟨x2, hst _ (fun hc => by rw [hp] at hc; cases hc)
                      (.inr (.inr ⟨l.dropLast.map st.kin, rfl, s', hs', ?_⟩)), fun _ => rfl⟩)), _, hdu1⟩
                    · simp only [CRes.bind, if_neg hne, hk0]
                    · rw [← h.startKin s' hs', hlast]
                      rw [h5] at h6
                      cases t with
                      | nil => simp only [List.nil_append, List.head?_cons, Option.some.injEq] at h6; simp [h6]
                      | cons a t => simp only [List.cons_append, List.head?_cons, Option.some.injEq] at h6; simp [h6]
            · have hcT : Touched cfg.start lab s1.lab cur := (touched_congr (hd cur)).2 hcurT
              obtain ⟨l, d, hbk, hall⟩ := (hx.core s1.lab st.kin).back cur hcT
              have hbc := hbk.backtrackCopy (hx.core s1.lab st.kin).nself hcs
              obtain ⟨d', t1, _, s, hs, t2⟩ := hbk.cellTraceHist (st := ⟨s1, st.kin⟩) ok hx.core hx.startKin hx.edge hall
              obtain ⟨l', hl, hne⟩ := hbk.last
              subst hl
              rw [hbc]
              refine ⟨_, _, x2, rfl, .inr (.inr (.inr ⟨_, st.kin cur, st.kin g, rfl, x1, _, l'.map st.kin, e, es, hask, h2, hget, ?_, ?_,
                ⟨d', ?_⟩, ⟨s, hs, ?_⟩, ?_, ?_, fun h => h.elim⟩)), _, hdu1⟩
              · simp
              · simpa using hne hcs
              · simpa using t1
              · cases l' with
                | nil => exact absurd rfl (hne hcs)
                | cons a t => simpa using t2
              · intro y hy
                obtain ⟨v, hv, rfl⟩ := List.mem_map.1 hy
                exact h.reachable ((touched_congr (hd v)).1 (hall v (by simp [hv])))
              · have := hbk.nodup.length_le_card
                simp only [List.length_append, List.length_singleton, List.length_map] at this ⊢
                omega

theorem xSearchS_spec (ok : Spec.KCostOk A cs) (ht : TopOk cfg.top) (hh : KHist A cs S lab) (hS : ∀ s ∈ cfg.start, s ∈ S) :
    ∀ (f : Nat) (st st' : KSt N K C P) (x x' : X) (r), KHInv A cs L cfg S lab kin0 noMove noTest st →
      (cfg.useCands = false → st.s.cands = []) → During A P cfg lab kin0 none st → xSearchS A E cfg f st x = some (r, st', x') →
    (∃ pc, During A P cfg lab kin0 pc st') ∧
    ((ExpCalls E (fun h => ∃ a b, h = A.heur a b) x x' ∧ ∃ f' r0, kLoop A cfg f' st = some (r0, st') ∧ r = contents st'.kin r0) ∨
      XOutOn A E cfg lab kin0 x x' r) := by
  intro f
  induction f with
  | zero => intro st st' x x' r _ _ _ h; simp [xSearchS] at h
  | succ f ih =>
    intro st st' x x' r hI hn hdu h
    rw [xSearchS] at h
    rcases xIterateS_spec (E := E) ok hh hS hI hdu x with ⟨x1, h1, h2⟩ | ⟨r1, st1, x1, h1, h2, h3⟩
    · rw [h2] at h
      have hs := khIterate_spec ok ht hI hn
      have hd := hdu.iterate
      cases hi : kIterate A cfg st with
      | done r0 st0 =>
        rw [hi] at h hd
        simp only [Option.some.injEq, Prod.mk.injEq] at h
        obtain ⟨rfl, rfl, rfl⟩ := h
        exact ⟨hd, .inl ⟨h1, 1, r0, by rw [kLoop, hi], rfl⟩⟩
      | more st1 =>
        rw [hi] at h hs hd
        obtain ⟨hpc, hr⟩ := ih st1 st' x1 x' r hs.1 hs.2.1 hd h
        refine ⟨hpc, ?_⟩
        rcases hr with ⟨h3, f', r0, h4, h5⟩ | h3
        · exact .inl ⟨h1.trans h3, f' + 1, r0, by rw [kLoop, hi]; exact h4, h5⟩
        · right
          have up : ∀ {x2 k h kg}, AskedFor A E cfg.start cfg.goal kin0 x1 x2 k h kg → AskedFor A E cfg.start cfg.goal kin0 x x2 k h kg :=
            fun a => ⟨h1.trans a.calls, a.reach, a.goal, a.heur⟩
          rcases h3 with ⟨e, h4, x2, k, hh, kg, h5, h6⟩ | ⟨h4, h5⟩ | ⟨x3, ⟨x2, s, hh, kg, e, es, h4, h5, h6⟩, h7⟩ |
            ⟨q, k, kg, h4, x2, hh, l, e, es, h5, h6⟩
          · exact .inl ⟨e, h4, x2, k, hh, kg, up h5, h6⟩
          · refine .inr (.inl ⟨h4, ?_⟩)
            rcases h5 with ⟨x2, k, hh, kg, h6, h7⟩ | ⟨x2, k, hh, kg, h6, h7⟩
            · exact .inl ⟨x2, k, hh, kg, up h6, h7⟩
            · exact .inr ⟨x2, k, hh, kg, up h6, h7⟩
          · exact .inr (.inr (.inl ⟨x3, ⟨x2, s, hh, kg, e, es, h4, up h5, h6⟩, h7⟩))
          · exact .inr (.inr (.inr ⟨q, k, kg, h4, x2, hh, l, e, es, up h5, h6⟩))
    · rw [h1] at h
      simp only [Option.some.injEq, Prod.mk.injEq] at h
      obtain ⟨rfl, rfl, rfl⟩ := h
      exact ⟨h3, .inr h2⟩

/-- **C105 (later searches with expansion end).**  After any history - searches with or without expansion - every search with analytic
expansion ends. -/
theorem later_hybrid_ends (ok : Spec.KCostOk A cs) (L : Lawful P) (ht : TopOk cfg.top) (h : KUsed A cs P S lab) (x : X) :
    ∃ fuel y, xFindOn A E P cfg lab kin0 x fuel = some y := by
  obtain ⟨f, r, st, h1, _⟩ := later_kin_ends (cfg := cfg) (kin0 := kin0) ok L ht h
  obtain ⟨z, hz⟩ := xSearchS_ends (E := E) x h1
  exact ⟨f, z, hz⟩

/-- **C105 (what later searches with expansion return).**  A finished search leaves the nodes in a state a search without expansion
could have left them in; it ends either exactly as the search without expansion on the same nodes, or because an expansion misbehaved,
or with an expansion from a start node - then the result is undefined behaviour or contains stored poses of earlier searches -, or
with a path of legal steps of *this* search and an expansion to its goal. -/
theorem later_hybrid (ok : Spec.KCostOk A cs) (L : Lawful P) (ht : TopOk cfg.top) (h : KUsed A cs P S lab) {x x' : X} {fuel : Nat}
    {r : CRes (List K)} {st : KSt N K C P} (hr : xFindOn A E P cfg lab kin0 x fuel = some (r, st, x')) :
    (∃ pc, During A P cfg lab kin0 pc st) ∧ KUsed A cs P (cfg.start ++ S) st.s.lab ∧
    ((ExpCalls E (fun h => ∃ a b, h = A.heur a b) x x' ∧
        ∃ f' r0, kFindOn A P cfg lab kin0 f' = some (r0, st) ∧ r = contents st.kin r0) ∨
      XOutOn A E cfg lab kin0 x x' r) := by
  have hh : KHist A cs (cfg.start ++ S) lab := fun l k =>
    (KUsed_hist L h l k).mono fun s hs => List.mem_append_right _ hs
  have hS : ∀ s ∈ cfg.start, s ∈ cfg.start ++ S := fun s hs => List.mem_append_left _ hs
  obtain ⟨h1, h2⟩ := khInit_inv (P := P) (L := L) (kin0 := kin0) hh hS
  obtain ⟨⟨pc, hd⟩, h3⟩ := xSearchS_spec ok ht hh hS fuel _ st x x' r h1 (fun _ => h2) .init hr
  exact ⟨⟨pc, hd⟩, .left h rfl rfl ok hd, h3⟩

end PathPlanning
