import Verif.Spec.HybridDuring
import Verif.Props.HybridSearch
import Verif.Props.KinDuringMap
import Verif.Lemmas.KinDuringMono

/-!
# Searches with analytic expansion on a map that changes meanwhile (C121)
-/

namespace PathPlanning.XDur
open Spec KDur
set_option linter.unusedSectionVars false

variable {N K C X : Type} [DecidableEq N] [LinearOrder C] [Fintype N]
variable {P : OpenList N C} {A : KAlgo N K C} {us : Nat → K → K → CRes Bool} {Es : Nat → KExp X K C} {cs : List C} {L : Lawful P}
  {cfg : SCfg N C} {kin0 : N → K}

/-- With the fuel of the search without expansion the search with expansion ends as well. -/
theorem ends_of : ∀ (f : Nat) (st : KSt N K C P) (x : X) (y), kLoopDuring A us cfg f st = some y →
    ∃ z, xSearchDuring A us Es cfg f st x = some z := by
  intro f
  induction f with
  | zero => intro st x y h; simp [kLoopDuring] at h
  | succ f ih =>
    intro st x y h
    rw [kLoopDuring] at h
    rw [xSearchDuring]
    have key : ∀ x', ∃ z, (match (match kIterate (A.withUsable (us st.s.expansions)) cfg st with
        | .more st' => XIter.more st' x'
        | .done r st' => .done (contents st'.kin r) x' : XIter N K C X P) with
      | .done r x' => some (r, x', st.s.expansions)
      | .more st' x' => xSearchDuring A us Es cfg f st' x') = some z := by
      intro x'
      cases hi : kIterate (A.withUsable (us st.s.expansions)) cfg st with
      | done r st' => exact ⟨_, rfl⟩
      | more st' => rw [hi] at h; exact ih st' x' y h
    unfold xIterate
    cases hn : P.next st.s.opn with
    | none => exact key x
    | some co =>
      obtain ⟨cur, o⟩ := co
      simp only
      by_cases hab : cfg.abort st.s.expansions = true
      · rw [if_pos hab]; exact key x
      · rw [if_neg hab]
        cases hx : xLoop (Es st.s.expansions) cfg.start
          (popNode ((A.withUsable (us st.s.expansions)).alg st.s.lab st.kin) cfg st.s cur o).lab st.kin cur cfg.goal x with
        | throw e => exact ⟨_, rfl⟩
        | ub => exact ⟨_, rfl⟩
        | ok r =>
          obtain ⟨q, x'⟩ := r
          cases q with
          | none => exact key x'
          | some q => exact ⟨_, rfl⟩

/-- More fuel does not change a result. -/
theorem fuel_unique : ∀ (f g : Nat) (st : KSt N K C P) (x : X) (y z), xSearchDuring A us Es cfg f st x = some y →
    xSearchDuring A us Es cfg g st x = some z → y = z := by
  intro f
  induction f with
  | zero => intro g st x y z h; simp [xSearchDuring] at h
  | succ f ih =>
    intro g st x y z h1 h2
    cases g with
    | zero => simp [xSearchDuring] at h2
    | succ g =>
      rw [xSearchDuring] at h1 h2
      cases hi : xIterate (A.withUsable (us st.s.expansions)) (Es st.s.expansions) cfg st x with
      | done r x' => rw [hi] at h1 h2; simp only [Option.some.injEq] at h1 h2; rw [← h1, ← h2]
      | more st' x' => rw [hi] at h1 h2; exact ih g st' x' y z h1 h2

theorem calls_at {n j : Nat} (hj : j < n) {H : C → Prop} {x x1 x2 : X} (h1 : ExpCallsAt Es n H x x1)
    (h2 : ExpCalls (Es j) H x1 x2) : ExpCallsAt Es n H x x2 := by
  induction h2 with
  | refl => exact h1
  | step _ h e ih => exact ih.step hj h e

/-- What a run is that ends with the expansion, in the iteration number `n`. -/
def Out (A : KAlgo N K C) (us : Nat → K → K → CRes Bool) (Es : Nat → KExp X K C) (P : OpenList N C) (cfg : SCfg N C) (kin0 : N → K)
    (n : Nat) (x x' : X) (r : CRes (List K)) : Prop :=
  (∃ e, r = .throw e ∧ ExpFailsAt (onSome A us (n + 1)) Es n cfg.start cfg.goal kin0 x (· = .throw e)) ∨
  (r = .ub ∧ (ExpFailsAt (onSome A us (n + 1)) Es n cfg.start cfg.goal kin0 x (· = .ub) ∨
    ExpandsStartAt (onSome A us (n + 1)) Es n cfg.start cfg.goal kin0 x ∨
    ExpFailsAt (onSome A us (n + 1)) Es n cfg.start cfg.goal kin0 x fun r => ∃ x2, r = .ok (true, x2) ∧ (Es n).get x2 = [])) ∨
  ∃ q k kg, r = .ok q ∧
    EndsExpandedAt (onSome A us (n + 1)) Es n (Exact A P cfg ∧ OnlyFewer us) cfg.start cfg.goal kin0 x x' q k kg

/-- One iteration, with the maps up to the end of the run. -/
theorem iterate_spec {n : Nat} (ok : Spec.KCostOk A cs) {st : KSt N K C P} (hn1 : st.s.expansions ≤ n)
    (h : VKInv (onSome A us (n + 1)) (all us (n + 1)) cs L cfg kin0 nopend st)
    (hM : Exact A P cfg ∧ OnlyFewer us → ∀ M, VKMono (onSome A us (n + 1)) (us st.s.expansions) M cfg kin0 nopend st)
    {x0 x : X} (hx0 : ExpCallsAt Es (n + 1) (fun h => ∃ a b, h = A.heur a b) x0 x) :
    (∃ x', ExpCallsAt Es (n + 1) (fun h => ∃ a b, h = A.heur a b) x0 x' ∧
      xIterate (A.withUsable (us st.s.expansions)) (Es st.s.expansions) cfg st x =
      match kIterate (A.withUsable (us st.s.expansions)) cfg st with
      | .more st' => .more st' x'
      | .done r st' => .done (contents st'.kin r) x') ∨
    ∃ r x', xIterate (A.withUsable (us st.s.expansions)) (Es st.s.expansions) cfg st x = .done r x' ∧
      (st.s.expansions = n → Out A us Es P cfg kin0 n x0 x' r) := by
  have okU : KCostOk (onSome A us (n + 1)) cs := costOk_wu ok _
  unfold xIterate
  cases hn : P.next st.s.opn with
  | none => exact .inl ⟨x, hx0, rfl⟩
  | some co =>
    obtain ⟨cur, o⟩ := co
    simp only
    by_cases hab : cfg.abort st.s.expansions = true
    · rw [if_pos hab]; exact .inl ⟨x, hx0, rfl⟩
    · rw [if_neg hab]
      obtain ⟨hx, hd, hp, hoth, hcs, hf, he, hopn1⟩ := vkpop_spec h hn (B := A.alg st.s.lab st.kin)
      have hXE : Exact A P cfg ∧ OnlyFewer us → ∀ n', n' ∉ cfg.start →
          ((popNode (A.alg st.s.lab st.kin) cfg st.s cur o).lab n').dist ≠ ⊤ →
          XEdge (onSome A us (n + 1)) (popNode (A.alg st.s.lab st.kin) cfg st.s cur o).lab st.kin n' := by
        intro he
        obtain ⟨M⟩ := he.1.2.2.2
        rcases vkpop_mono (A := onSome A us (n + 1)) he.1.1 he.1.2.1 h (hM he M) hn with ⟨_, q⟩ | q
        · exact q.edge
        · exact q.edge
      have hcur : (st.s.lab cur).dist ≠ ⊤ := h.memReach cur (L.next_some _ _ _ hn).1
      have hh : cfg.goal ≠ [] → ∃ b, ((popNode (A.alg st.s.lab st.kin) cfg st.s cur o).lab cur).h = A.heur (st.kin cur) b := by
        intro hg
        cases hgo : cfg.goal with
        | nil => exact absurd hgo hg
        | cons g gs =>
          refine ⟨st.kin g, ?_⟩
          simp only [popNode, setLab, if_true, hgo]
          rfl
      have hgk : ∀ g ∈ cfg.goal, ∃ g' ∈ cfg.goal, st.kin g = kin0 g' ∨
          (A.lookup (st.kin g) = .ok (some g') ∧ Reachable (onSome A us (n + 1)) cfg.start kin0 (st.kin g)) := by
        intro g hg
        exact ⟨g, hg, (h.goalKin g).imp id And.right⟩
      rw [show (A.withUsable (us st.s.expansions)).alg st.s.lab st.kin = A.alg st.s.lab st.kin from rfl]
      generalize popNode (A.alg st.s.lab st.kin) cfg st.s cur o = s1 at *
      by_cases hg0 : cfg.goal = []
      · rw [hg0]
        exact .inl ⟨x, hx0, rfl⟩
      obtain ⟨b, hb⟩ := hh hg0
      rcases xLoop_cases (E := Es st.s.expansions) (start := cfg.start) (lab := s1.lab) (kin := st.kin) (cur := cur)
        (fun h => ∃ a b, h = A.heur a b) ⟨_, _, hb⟩ cfg.goal x with ⟨x', h1, h2⟩ | ⟨g, hg, x1, h1, h2⟩
      · exact .inl ⟨x', calls_at (by omega) hx0 h2, by rw [h1]; rfl⟩
      · have hask : AskedForAt (onSome A us (n + 1)) Es (n + 1) cfg.start cfg.goal kin0 x0 x1 (st.kin cur) (s1.lab cur).h (st.kin g) :=
          ⟨calls_at (by omega) hx0 h1, h.reachable hcur, hgk g hg, b, hb⟩
        right
        rcases h2 with ⟨e, h2, h3⟩ | ⟨h2, h3⟩ | ⟨x2, h2, h3⟩
        · rw [h3]
          exact ⟨_, _, rfl, fun hn2 => .inl ⟨e, rfl, x1, _, _, _, hask, by rw [← hn2]; exact h2⟩⟩
        · rw [h3]
          exact ⟨_, _, rfl, fun hn2 => .inr (.inl ⟨rfl, .inl ⟨x1, _, _, _, hask, by rw [← hn2]; exact h2⟩⟩)⟩
        · rw [h3]
          unfold xPath
          cases hget : (Es st.s.expansions).get x2 with
          | nil => exact ⟨_, _, rfl, fun hn2 => .inr (.inl ⟨rfl, .inr (.inr ⟨x1, _, _, _, hask, x2, by rw [← hn2]; exact h2,
              by rw [← hn2]; exact hget⟩)⟩)⟩
          | cons e es =>
            simp only
            by_cases hcs : cur ∈ cfg.start
            · have hpn : (s1.lab cur).prev = none := by
                rw [hp cur]; exact (h.core st.s.lab st.kin).sp cur hcs
              refine ⟨.ub, x, ?_, fun hn2 => .inr (.inl ⟨rfl, .inr (.inl ?_)⟩)⟩
              · simp [backtrackCopy, hpn, CRes.bind]
              · rw [h.startKin cur hcs] at hask h2
                exact ⟨x1, x2, cur, _, _, hcs, hask, by rw [← hn2]; exact h2⟩
            · have hcd : (s1.lab cur).dist ≠ ⊤ := by rw [hd cur]; exact hcur
              obtain ⟨l, d, hbk⟩ := (hx.core s1.lab st.kin).back cur hcd
              have hbc := backtrackCopy_ok (hx.core s1.lab st.kin).sp hbk hcs
              obtain ⟨d', t1, _, s, hs, t2⟩ := hbk.cellTrace (st := ⟨s1, st.kin⟩) okU hx.core hx.startKin hx.edge hcd
              obtain ⟨l', hl, hne⟩ := hbk.last
              subst hl
              rw [hbc]
              refine ⟨_, x2, rfl, fun hn2 => ?_⟩
              rw [hn2] at h2 hget
              refine .inr (.inr ⟨_, st.kin cur, st.kin g, rfl, x1, _, l'.map st.kin, e, es, hask, h2, hget, ?_, ?_,
                ⟨d', ?_⟩, ⟨s, hs, ?_⟩, ?_, ?_, ?_⟩)
              · simp [hn2]
              · simpa using hne hcs
              · simpa using t1
              · cases l' with
                | nil => exact absurd rfl (hne hcs)
                | cons a t => simpa using t2
              · intro y hy
                obtain ⟨v, hv, rfl⟩ := List.mem_map.1 hy
                have hvd := hbk.reached (st := ⟨s1, st.kin⟩) okU hx.core hx.edge hcd v (by simp [hv])
                exact h.reachable (by rw [← hd v]; exact hvd)
              · have := hbk.nodup.length_le_card
                simp only [List.length_append, List.length_singleton, List.length_map] at this ⊢
                omega
              · intro he
                obtain ⟨l2, d2, u1, u2, _⟩ := hbk.drive (st := ⟨s1, st.kin⟩) (hx.core s1.lab st.kin).sp (hXE he) hcd
                refine ⟨d2, ?_⟩
                rw [← u1] at u2
                simpa using u2

/-- A run ends no earlier than it begins. -/
theorem run_le : ∀ (f : Nat) (st : KSt N K C P) (x x' : X) (r) (n : Nat), xSearchDuring A us Es cfg f st x = some (r, x', n) →
    st.s.expansions ≤ n := by
  intro f
  induction f with
  | zero => intro st x x' r n h; simp [xSearchDuring] at h
  | succ f ih =>
    intro st x x' r n h
    rw [xSearchDuring] at h
    cases hi : xIterate (A.withUsable (us st.s.expansions)) (Es st.s.expansions) cfg st x with
    | done r1 x1 =>
      rw [hi] at h
      simp only [Option.some.injEq, Prod.mk.injEq] at h
      exact h.2.2.le
    | more st1 x1 =>
      rw [hi] at h
      have h1 := ih _ _ _ _ _ h
      have : kIterate (A.withUsable (us st.s.expansions)) cfg st = .more st1 := by
        have key : ∀ x2, (match kIterate (A.withUsable (us st.s.expansions)) cfg st with
            | .more st' => XIter.more st' x2
            | .done r st' => .done (contents st'.kin r) x2 : XIter N K C X P) = .more st1 x1 →
            kIterate (A.withUsable (us st.s.expansions)) cfg st = .more st1 := by
          intro x2 h
          cases hk : kIterate (A.withUsable (us st.s.expansions)) cfg st with
          | done r st' => rw [hk] at h; cases h
          | more st' => rw [hk] at h; cases h; rfl
        unfold xIterate at hi
        cases hn : P.next st.s.opn with
        | none => rw [hn] at hi; exact key _ hi
        | some co =>
          obtain ⟨cur, o⟩ := co
          rw [hn] at hi
          simp only at hi
          by_cases hab : cfg.abort st.s.expansions = true
          · rw [if_pos hab] at hi; exact key _ hi
          · rw [if_neg hab] at hi
            cases hx : xLoop (Es st.s.expansions) cfg.start
              (popNode ((A.withUsable (us st.s.expansions)).alg st.s.lab st.kin) cfg st.s cur o).lab st.kin cur cfg.goal x with
            | throw e => rw [hx] at hi; cases hi
            | ub => rw [hx] at hi; cases hi
            | ok y =>
              obtain ⟨q, x2⟩ := y
              rw [hx] at hi
              cases q with
              | none => exact key _ hi
              | some q => cases hi
      have := more_expansions this
      omega

/-- The last iteration counts at most one expansion. -/
theorem done_le {A : KAlgo N K C} {st st' : KSt N K C P} {r : CRes (List N)} (h : kIterate A cfg st = .done r st') :
    st'.s.expansions ≤ st.s.expansions + 1 := by
  unfold kIterate at h
  cases hn : P.next st.s.opn with
  | none => rw [hn] at h; cases h; exact Nat.le_succ _
  | some co =>
    obtain ⟨cur, o⟩ := co
    rw [hn] at h
    simp only at h
    by_cases hab : cfg.abort st.s.expansions = true
    · rw [if_pos hab] at h; cases h; exact Nat.le_succ _
    rw [if_neg hab] at h
    have hp : (popNode (A.alg st.s.lab st.kin) cfg st.s cur o).expansions ≤ st.s.expansions + 1 := le_refl _
    cases ht : goalLoop (A.alg (popNode (A.alg st.s.lab st.kin) cfg st.s cur o).lab st.kin) (A.cfg cfg st.kin) cur cfg.goal
        (popNode (A.alg st.s.lab st.kin) cfg st.s cur o) with
    | throw e => rw [ht] at h; cases h; exact hp
    | ub => rw [ht] at h; cases h; exact hp
    | ok t =>
      have hexp := During.goalLoop_expansions _ _ _ ht
      rw [← hexp] at hp
      rw [ht] at h
      simp only at h
      split_ifs at h
      · cases h; exact hp
      · cases h; exact hp
      · cases h; exact hp
      · cases hk : kExpand A cfg.goal cur A.moves { st with s := t.st } with
        | throw e => rw [hk] at h; cases h; exact hp
        | ub => rw [hk] at h; cases h; exact hp
        | ok s2 => rw [hk] at h; cases h

/-- Every run ends like the search without expansion, or with an expansion. -/
theorem search_spec (ok : Spec.KCostOk A cs) (ht : TopOk cfg.top) (x0 : X) : ∀ (f : Nat) (st : KSt N K C P) (x x' : X) (r) (n : Nat),
    VKInv (onSome A us (n + 1)) (all us (n + 1)) cs L cfg kin0 nopend st → (cfg.useCands = false → st.s.cands = []) →
    (Exact A P cfg ∧ OnlyFewer us → ∀ M, VKMono (onSome A us (n + 1)) (us st.s.expansions) M cfg kin0 nopend st) →
    ExpCallsAt Es (n + 1) (fun h => ∃ a b, h = A.heur a b) x0 x →
    xSearchDuring A us Es cfg f st x = some (r, x', n) →
    (ExpCallsAt Es (n + 1) (fun h => ∃ a b, h = A.heur a b) x0 x' ∧
      ∃ f' r0 st', kLoopDuring A us cfg f' st = some (r0, st') ∧ r = contents st'.kin r0 ∧
        n ≤ st'.s.expansions ∧ st'.s.expansions ≤ n + 1) ∨
      Out A us Es P cfg kin0 n x0 x' r := by
  intro f
  induction f with
  | zero => intro st x x' r n _ _ _ _ h; simp [xSearchDuring] at h
  | succ f ih =>
    intro st x x' r n hI hn hM hx0 h
    have hle := run_le _ _ _ _ _ _ h
    have okU : KCostOk (onSome A us (n + 1)) cs := costOk_wu ok _
    have hup : ∀ k k', us st.s.expansions k k' = .ok true → (onSome A us (n + 1)).usable k k' = .ok true :=
      fun k k' e => onSome_iff.2 ⟨_, by omega, e⟩
    have hlo : ∀ k k', all us (n + 1) k k' = .ok true → us st.s.expansions k k' = .ok true := fun k k' e => all_iff.1 e _ (by omega)
    rw [xSearchDuring] at h
    rcases iterate_spec (Es := Es) ok hle hI hM hx0 with ⟨x1, h1, h2⟩ | ⟨r1, x1, h1, h2⟩
    · rw [h2] at h
      have hs := vkIterate_spec okU hup hlo ht hI hn
      rw [show (onSome A us (n + 1)).withUsable (us st.s.expansions) = A.withUsable (us st.s.expansions) from rfl] at hs
      cases hi : kIterate (A.withUsable (us st.s.expansions)) cfg st with
      | done r0 st' =>
        rw [hi] at h
        simp only [Option.some.injEq, Prod.mk.injEq] at h
        obtain ⟨rfl, rfl, rfl⟩ := h
        refine .inl ⟨h1, 1, r0, st', by rw [kLoopDuring, hi], rfl, done_expansions hi, done_le hi⟩
      | more st' =>
        rw [hi] at h hs
        have hme := more_expansions hi
        have hM' : Exact A P cfg ∧ OnlyFewer us → ∀ M, VKMono (onSome A us (n + 1)) (us st'.s.expansions) M cfg kin0 nopend st' := by
          intro he M
          have := vkIterate_mono okU hup hlo ht he.1.1 he.1.2.1 he.1.2.2.1 hI (hM he M)
          rw [show (onSome A us (n + 1)).withUsable (us st.s.expansions) = A.withUsable (us st.s.expansions) from rfl, hi] at this
          refine this.weaken fun k k' e => ?_
          rw [hme] at e
          exact he.2 _ _ _ e
        rcases ih st' x1 x' r n hs.1 hs.2.1 hM' h1 h with ⟨h3, f', r0, st2, h4, h5⟩ | h3
        · exact .inl ⟨h3, f' + 1, r0, st2, by rw [kLoopDuring, hi]; exact h4, h5⟩
        · exact .inr h3
    · rw [h1] at h
      simp only [Option.some.injEq, Prod.mk.injEq] at h
      obtain ⟨rfl, rfl, e⟩ := h
      exact .inr (h2 e)

/-- **C121.**  A search with analytic expansion ends however the callback changes the map.  It ends either exactly like the search
without expansion on the changing map, or because an expansion misbehaved, or - with undefined behaviour - because an expansion
succeeded at a start node (or gave no pose), or with a path that consists of steps, each accepted by one of the maps, and of an
expansion that the map of the last moment accepted. -/
theorem hybrid (ok : Spec.KCostOk A cs) (L : Lawful P) (ht : TopOk cfg.top) (x : X) :
    ∃ fuel r x' n, xFindPathDuring A us Es P cfg kin0 x fuel = some (r, x', n) ∧
      ((ExpCallsAt Es (n + 1) (fun h => ∃ a b, h = A.heur a b) x x' ∧
        ∃ f' E, kFindPathDuring A us P cfg kin0 f' = some (r, E) ∧ n ≤ E ∧ E ≤ n + 1) ∨ Out A us Es P cfg kin0 n x x' r) := by
  obtain ⟨g1, g2⟩ := vkInit_inv (A := A.withUsable fun _ _ => .ok true) (i := fun _ _ => .ok false) (cs := cs) (L := L)
    (cfg := cfg) (kin0 := kin0)
  obtain ⟨fuel, r0, st', h3⟩ := loop_ends (us := us) ok L ht _ g1 (fun _ => g2)
  rw [show kInit (A.withUsable fun _ _ => .ok true) P cfg kin0 = kInit A P cfg kin0 from rfl] at h3
  obtain ⟨⟨r, x', n⟩, hz⟩ := ends_of (Es := Es) fuel _ x _ h3
  refine ⟨fuel, r, x', n, hz, ?_⟩
  obtain ⟨h1, h2⟩ := vkInit_inv (A := onSome A us (n + 1)) (i := all us (n + 1)) (cs := cs) (L := L)
    (cfg := cfg) (kin0 := kin0)
  rcases search_spec (A := A) (us := us) (Es := Es) ok ht x fuel _ x x' r n h1 (fun _ => h2)
    (fun he M => vkInit_mono (A := onSome A us (n + 1)) L he.1.2.2.1) .refl hz with ⟨h5, f', r1, st1, h6, h7, h8⟩ | h5
  · refine .inl ⟨h5, f', st1.s.expansions, ?_, h8⟩
    unfold kFindPathDuring
    rw [show kInit A P cfg kin0 = kInit (onSome A us (n + 1)) P cfg kin0 from rfl, h6, h7]
    cases r1 <;> rfl
  · exact .inr h5

/-- The same for a given run. -/
theorem result (ok : Spec.KCostOk A cs) (L : Lawful P) (ht : TopOk cfg.top) {x x' : X} {fuel n : Nat} {r : CRes (List K)}
    (h : xFindPathDuring A us Es P cfg kin0 x fuel = some (r, x', n)) :
    (ExpCallsAt Es (n + 1) (fun h => ∃ a b, h = A.heur a b) x x' ∧
      ∃ f' E, kFindPathDuring A us P cfg kin0 f' = some (r, E) ∧ n ≤ E ∧ E ≤ n + 1) ∨ Out A us Es P cfg kin0 n x x' r := by
  obtain ⟨f, r1, x1, n1, h1, h2⟩ := hybrid (us := us) (Es := Es) (kin0 := kin0) ok L ht x
  have := fuel_unique _ _ _ _ _ _ h h1
  simp only [Prod.mk.injEq] at this
  obtain ⟨rfl, rfl, rfl⟩ := this
  exact h2

/-- On a map that does not change, this is the search of `Model/HybridSearch.lean`. -/
theorem unchanged (u : K → K → CRes Bool) (E : KExp X K C) : ∀ (f : Nat) (st : KSt N K C P) (x : X),
    (xSearchDuring A (fun _ => u) (fun _ => E) cfg f st x).map (fun r => (r.1, r.2.1)) = xSearch (A.withUsable u) E cfg f st x := by
  intro f
  induction f with
  | zero => intro st x; rfl
  | succ f ih =>
    intro st x
    rw [xSearchDuring, xSearch]
    cases xIterate (A.withUsable u) E cfg st x with
    | done r x' => rfl
    | more st' x' => exact ih st' x'

end PathPlanning.XDur
