import Verif.Spec.KinMoments
import Verif.Props.KinDuringMap

/-!
# Which iteration stored which pose (C120, C122)
-/

namespace PathPlanning.KDur
open PathPlanning Spec
set_option linter.unusedSectionVars false

variable {N K C : Type} [DecidableEq N] [LinearOrder C] [Fintype N]
variable {A : KAlgo N K C} {P : OpenList N C} {cfg : SCfg N C} {kin0 : N → K} {us : Nat → K → K → CRes Bool}

/-- What the moves of `cur` do to the stored poses. -/
def Stores (A : KAlgo N K C) (cur : N) (st st' : KSt N K C P) : Prop :=
  st'.kin cur = st.kin cur ∧ ∀ n, ((st'.s.lab n).prev = (st.s.lab n).prev ∧ st'.kin n = st.kin n) ∨
    ((st'.s.lab n).prev = some cur ∧ ∃ c, LegalStep A (st.kin cur) c (st'.kin n))

theorem Stores.refl (A : KAlgo N K C) (cur : N) (st : KSt N K C P) : Stores A cur st st := ⟨rfl, fun _ => .inl ⟨rfl, rfl⟩⟩

theorem Stores.trans {cur : N} {s t u : KSt N K C P} (h : Stores A cur s t) (g : Stores A cur t u) : Stores A cur s u := by
  refine ⟨g.1.trans h.1, fun n => ?_⟩
  rcases g.2 n with ⟨g1, g2⟩ | ⟨g1, c, g2⟩
  · rcases h.2 n with ⟨h1, h2⟩ | ⟨h1, c, h2⟩
    · exact .inl ⟨g1.trans h1, g2.trans h2⟩
    · exact .inr ⟨g1.trans h1, c, by rw [g2]; exact h2⟩
  · exact .inr ⟨g1, c, by rw [← h.1]; exact g2⟩

/-- The predecessor is set exactly if the node is added to the open list. -/
theorem process_prev (A : KAlgo N K C) (goal : List N) (st : KSt N K C P) (cur n : N) (c : C) :
    (∀ m, m ≠ n → ((processNeighbor (A.alg st.s.lab st.kin) goal st.s cur n c).lab m).prev = (st.s.lab m).prev) ∧
    ((processNeighbor (A.alg st.s.lab st.kin) goal st.s cur n c).lab n).prev =
      if processAdds A st.s cur n c then some cur else (st.s.lab n).prev := by
  have hz : ∀ (f : Labels N C) (m : N) (l : Label N C) (x : N), setLab f m l x = if x = m then l else f x := by
    intro f m l x
    by_cases e : x = m
    · subst e; rw [if_pos rfl]; exact setLab_self _ _ _
    · rw [if_neg e]; exact setLab_ne _ _ e
  have hcd : (setLab st.s.lab n { st.s.lab n with watched := true } cur).dist = (st.s.lab cur).dist := by
    rw [hz]
    by_cases e : cur = n
    · rw [if_pos e, e]
    · rw [if_neg e]
  have hcl : (decide ((A.alg st.s.lab st.kin).addW (setLab st.s.lab n { st.s.lab n with watched := true } cur).dist c <
      (st.s.lab n).dist)) = decide ((st.s.lab cur).dist.map (fun a => A.add a c) < (st.s.lab n).dist) := by
    rw [hcd]; rfl
  unfold processNeighbor processAdds
  simp only [hcl]
  generalize decide ((st.s.lab cur).dist.map (fun a => A.add a c) < (st.s.lab n).dist) = b
  refine ⟨fun m hm => ?_, ?_⟩
  · split_ifs <;> simp [hz, hm]
  · cases b <;> cases (st.s.lab n).closed <;> cases (st.s.lab n).opn <;> simp [hz]

theorem kTry_stores {goal : List N} {cur : N} {mv} (hmv : mv ∈ A.moves) {st st' : KSt N K C P}
    (hk : kTry A goal cur mv st = .ok st') : Stores A cur st st' := by
  unfold kTry at hk
  cases hm : mv (st.kin cur) (kPreds st.s.lab st.kin cur A.predDepth) with
  | none => rw [hm] at hk; cases hk; exact .refl _ _ _
  | some ck =>
    obtain ⟨c, k⟩ := ck
    rw [hm] at hk
    simp only at hk
    cases hus : A.usable (st.kin cur) k with
    | throw e => rw [hus] at hk; cases hk
    | ub => rw [hus] at hk; cases hk
    | ok b =>
      rw [hus] at hk
      simp only [CRes.bind] at hk
      cases b with
      | false => simp only [Bool.false_eq_true, if_false] at hk; cases hk; exact .refl _ _ _
      | true =>
        simp only [if_true] at hk
        cases hlk : A.lookup k with
        | throw e => rw [hlk] at hk; cases hk
        | ub => rw [hlk] at hk; cases hk
        | ok r =>
          rw [hlk] at hk
          simp only at hk
          cases r with
          | none => simp only at hk; cases hk; exact .refl _ _ _
          | some n =>
            simp only at hk
            obtain ⟨p1, p2⟩ := process_prev A goal st cur n c
            by_cases hp : processAdds A st.s cur n c = true
            · rw [if_pos hp] at hk p2
              by_cases e : n = cur
              · rw [if_pos e] at hk; cases hk
              · rw [if_neg e] at hk
                cases hk
                refine ⟨if_neg (fun h => e h.symm), fun m => ?_⟩
                by_cases hmn : m = n
                · right
                  subst hmn
                  refine ⟨p2, c, mv, hmv, kPreds st.s.lab st.kin cur A.predDepth, ?_, ?_⟩
                  · rw [hm]; simp only [if_true]
                  · simp only [if_true]; exact hus
                · left
                  exact ⟨p1 m hmn, if_neg hmn⟩
            · rw [if_neg hp] at hk p2
              cases hk
              refine ⟨rfl, fun m => .inl ⟨?_, rfl⟩⟩
              by_cases hmn : m = n
              · subst hmn; exact p2
              · exact p1 m hmn

theorem kExpand_stores {goal : List N} {cur : N} : ∀ (ms : List (K → List K → Option (C × K))) (st st' : KSt N K C P),
    (∀ mv ∈ ms, mv ∈ A.moves) → kExpand A goal cur ms st = .ok st' → Stores A cur st st' := by
  intro ms
  induction ms with
  | nil => intro st st' _ hk; cases hk; exact .refl _ _ _
  | cons mv ms ih =>
    intro st st' hms hk
    rw [PathPlanning.kExpand] at hk
    cases hk1 : kTry A goal cur mv st with
    | throw e => rw [hk1] at hk; cases hk
    | ub => rw [hk1] at hk; cases hk
    | ok st1 =>
      rw [hk1] at hk
      exact (kTry_stores (hms mv (by simp)) hk1).trans (ih st1 st' (fun m hm => hms m (by simp [hm])) hk)

/-- An iteration that goes on expands the node it takes from the open list. -/
theorem more_stores {st st' : KSt N K C P} (h : kIterate A cfg st = .more st') :
    ∃ cur o, P.next st.s.opn = some (cur, o) ∧ st'.s.expansions = st.s.expansions + 1 ∧ Stores A cur st st' := by
  have he := more_expansions h
  unfold kIterate at h
  cases hn : P.next st.s.opn with
  | none => rw [hn] at h; cases h
  | some co =>
    obtain ⟨cur, o⟩ := co
    rw [hn] at h
    simp only at h
    by_cases hab : cfg.abort st.s.expansions = true
    · rw [if_pos hab] at h; cases h
    rw [if_neg hab] at h
    refine ⟨cur, o, rfl, he, ?_⟩
    cases ht : goalLoop (A.alg (popNode (A.alg st.s.lab st.kin) cfg st.s cur o).lab st.kin) (A.cfg cfg st.kin) cur cfg.goal
        (popNode (A.alg st.s.lab st.kin) cfg st.s cur o) with
    | throw e => rw [ht] at h; cases h
    | ub => rw [ht] at h; cases h
    | ok t =>
      have hlab := (goalLoop_quiet _ _ _ _ _ ht).1
      rw [ht] at h
      simp only at h
      split_ifs at h
      cases hk : kExpand A cfg.goal cur A.moves { st with s := t.st } with
      | throw e => rw [hk] at h; cases h
      | ub => rw [hk] at h; cases h
      | ok s2 =>
        rw [hk] at h
        cases h
        obtain ⟨h1, h2⟩ := kExpand_stores _ _ _ (fun _ h => h) hk
        refine ⟨h1, fun n => ?_⟩
        have hpp : ((popNode (A.alg st.s.lab st.kin) cfg st.s cur o).lab n).prev = (st.s.lab n).prev := by
          unfold popNode
          simp only
          by_cases e : n = cur
          · subst e; rw [setLab_self]
          · rw [setLab_ne _ _ e]
        rcases h2 n with ⟨h3, h4⟩ | h3
        · left
          refine ⟨h3.trans ?_, h4⟩
          show (t.st.lab n).prev = _
          rw [hlab, hpp]
        · exact .inr h3

/-- `who j`: the node expanded by iteration `j`, with its pose at that time; every predecessor pointer was set by one of them. -/
def MomentsOf (A : KAlgo N K C) (us : Nat → K → K → CRes Bool) (U : KAlgo N K C) (start : List N) (kin0 : N → K)
    (who : Nat → Option (N × K)) (st : KSt N K C P) : Prop :=
  ∀ n c, (st.s.lab n).prev = some c → ∃ j < st.s.expansions, ∃ k, who j = some (c, k) ∧
    (∃ d, LegalStep (A.withUsable (us j)) k d (st.kin n)) ∧ Reachable U start kin0 k ∧
    ((c ∈ start ∧ k = kin0 c) ∨ (c ∉ start ∧ A.lookup k = .ok (some c)))

def Moments (A : KAlgo N K C) (us : Nat → K → K → CRes Bool) (U : KAlgo N K C) (start : List N) (kin0 : N → K)
    (st : KSt N K C P) : Prop := ∃ who, MomentsOf A us U start kin0 who st

/-- An expansion more. -/
theorem Moments.more {U : KAlgo N K C} {start : List N} {cur : N} {st st' : KSt N K C P} (h : Moments A us U start kin0 st)
    (he : st'.s.expansions = st.s.expansions + 1) (hs : Stores (A.withUsable (us st.s.expansions)) cur st st')
    (hr : Reachable U start kin0 (st.kin cur))
    (hc : (cur ∈ start ∧ st.kin cur = kin0 cur) ∨ (cur ∉ start ∧ A.lookup (st.kin cur) = .ok (some cur))) :
    Moments A us U start kin0 st' := by
  obtain ⟨who, h⟩ := h
  refine ⟨fun j => if j = st.s.expansions then some (cur, st.kin cur) else who j, ?_⟩
  intro n c hp
  rcases hs.2 n with ⟨h1, h2⟩ | ⟨h1, d, h2⟩
  · obtain ⟨j, hj, k, g1, g2, g3, g4⟩ := h n c (h1 ▸ hp)
    have hne : j ≠ st.s.expansions := by omega
    exact ⟨j, by omega, k, by simp only [if_neg hne]; exact g1, by rw [h2]; exact g2, g3, g4⟩
  · rw [h1] at hp
    cases hp
    exact ⟨st.s.expansions, by omega, st.kin cur, if_pos rfl, ⟨d, h2⟩, hr, hc⟩

/-- A state with the same predecessors and poses and not fewer expansions. -/
theorem Moments.same {U : KAlgo N K C} {start : List N} {st st' : KSt N K C P} (h : Moments A us U start kin0 st)
    (he : st.s.expansions ≤ st'.s.expansions) (hp : ∀ n, (st'.s.lab n).prev = (st.s.lab n).prev) (hk : st'.kin = st.kin) :
    Moments A us U start kin0 st' := by
  obtain ⟨who, h⟩ := h
  refine ⟨who, fun n c e => ?_⟩
  obtain ⟨j, hj, k, g⟩ := h n c (hp n ▸ e)
  exact ⟨j, by omega, k, by rw [hk]; exact g⟩

theorem Moments.init (L : Lawful P) (U : KAlgo N K C) : Moments A us U cfg.start kin0 (kInit A P cfg kin0) := by
  refine ⟨fun _ => none, fun n c hp => ?_⟩
  exfalso
  obtain ⟨k1, k2, _⟩ :=
    init_facts (A := A.full [] (fun _ => Label.fresh A.zero) kin0) (L := L) (cfg := cfg)
  have hp' : ((initSearch (A.full [] (fun _ => Label.fresh A.zero) kin0) P cfg
      (freshLabels (A.full [] (fun _ => Label.fresh A.zero) kin0))).lab n).prev = some c := hp
  by_cases hn : n ∈ cfg.start
  · rw [k1 n hn] at hp'; cases hp'
  · rw [k2 n hn] at hp'; cases hp'

/-- The path collected through the predecessors, and the moments of its steps. -/
theorem Moments.path {B : Algo N C} {E : Nat} {start : List N} {st : KSt N K C P} {n : N} {p : List N} {d : C}
    (h : Moments A us (onSome A us E) start kin0 st) (hE : st.s.expansions ≤ E)
    (hb : Back B start st.s.lab n p d) (hsk : ∀ s ∈ start, st.kin s = kin0 s)
    (hin : ∀ v ∈ p, v ∉ start → A.lookup (st.kin v) = .ok (some v)) :
    ∃ J, TakenAt A us E start kin0 (p.map st.kin) J := by
  classical
  obtain ⟨who, h⟩ := h
  have hnd := hb.nodup
  -- the step to each further node of the path
  have key : ∀ i, i + 1 < p.length → ∃ u v, p[i]? = some u ∧ p[i + 1]? = some v ∧ (st.s.lab v).prev = some u ∧
      (0 < i → u ∉ start) := by
    clear hnd hin
    induction hb with
    | start hs => intro i hi; simp at hi
    | @step n p l d c hn hp hb he hle ih =>
      intro i hi
      rw [List.length_append, List.length_singleton] at hi
      have hlast : l.getLast? = some p := by
        obtain ⟨l', hl', _⟩ := hb.last
        rw [hl']; simp
      by_cases e : i + 1 < l.length
      · obtain ⟨u, v, q1, q2, q3⟩ := ih i e
        exact ⟨u, v, by rw [List.getElem?_append_left (by omega)]; exact q1,
          by rw [List.getElem?_append_left e]; exact q2, q3⟩
      · have e2 : i + 1 = l.length := by omega
        refine ⟨p, n, ?_, ?_, hp, fun hi0 => ?_⟩
        · rw [List.getElem?_append_left (by omega), ← hlast, List.getLast?_eq_getElem?]
          congr 1; omega
        · rw [List.getElem?_append_right (by omega), e2]; simp
        · cases hb with
          | start hs => simp at e2; omega
          | step hn' => exact hn'
  have key2 : ∀ i, ∃ j, i + 1 < p.length → j < E ∧ ∃ u v k, p[i]? = some u ∧ p[i + 1]? = some v ∧ who j = some (u, k) ∧
      (∃ d, LegalStep (A.withUsable (us j)) k d (st.kin v)) ∧ Reachable (onSome A us E) start kin0 k ∧
      ((u ∈ start ∧ k = kin0 u) ∨ (u ∉ start ∧ A.lookup k = .ok (some u))) ∧ (0 < i → u ∉ start) := by
    intro i
    by_cases hi : i + 1 < p.length
    · obtain ⟨u, v, q1, q2, q3, q4⟩ := key i hi
      obtain ⟨j, hj, k, g1, g2, g3, g4⟩ := h v u q3
      exact ⟨j, fun _ => ⟨by omega, u, v, k, q1, q2, g1, g2, g3, g4, q4⟩⟩
    · exact ⟨0, fun h => absurd h hi⟩
  choose J hJ using key2
  have hfirst : ∀ u, p[0]? = some u → u ∈ start := by
    intro u hu
    have : p.head? = some u := by rw [List.head?_eq_getElem?]; exact hu
    have key : ∀ {n p d}, Back B start st.s.lab n p d → p.head? = some u → u ∈ start := by
      intro n p d hb
      induction hb with
      | start hs => intro e; cases e; exact hs
      | step _ _ hb' _ _ ih =>
        intro e
        refine ih ?_
        obtain ⟨l', rfl, _⟩ := hb'.last
        simpa using e
    exact key hb this
  refine ⟨J, fun i y z hy hz => ?_, fun i j hi hj e => ?_⟩
  · have hi : i + 1 < p.length := by
      have := (List.getElem?_eq_some_iff.1 hz).1
      rwa [List.length_map] at this
    obtain ⟨hlt, u, v, k, q1, q2, g1, ⟨c, g2⟩, g3, g4, q4⟩ := hJ i hi
    rw [List.getElem?_map, q1] at hy
    cases hy
    rw [List.getElem?_map, q2] at hz
    cases hz
    refine ⟨hlt, k, c, ?_, g3, g2⟩
    rcases g4 with ⟨g4, g5⟩ | ⟨g4, g5⟩
    · left; rw [g5, hsk u g4]
    · right
      refine ⟨?_, u, g5, hin u (List.mem_of_getElem? q1) g4⟩
      rcases Nat.eq_zero_or_pos i with h0 | h0
      · subst h0; exact absurd (hfirst u q1) g4
      · exact h0
  · rw [List.length_map] at hi hj
    obtain ⟨_, u, _, k, q1, _, g1, _⟩ := hJ i hi
    obtain ⟨_, u', _, k', q1', _, g1', _⟩ := hJ j hj
    rw [e, g1'] at g1
    cases g1
    exact (List.nodup_iff_getElem?_ne_getElem?.1 hnd |> fun H => by
      by_contra hne
      rcases Nat.lt_or_gt_of_ne hne with h1 | h1
      · exact H i j h1 (by omega) (by rw [q1, q1'])
      · exact H j i h1 (by omega) (by rw [q1, q1']))

end PathPlanning.KDur
