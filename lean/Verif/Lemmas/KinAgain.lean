import Verif.Lemmas.KinCount
import Verif.Spec.KinSearch
import Verif.Model.KinHistory

/-!
# Start nodes whose moves have been used up

Lemmas for `Props/KinAgain.lean`: what earlier searches leave at the start nodes of a search with a steering neighbourhood.
-/

namespace PathPlanning.Again
open Spec
set_option linter.unusedSectionVars false

variable {N K C : Type} [DecidableEq N] [LinearOrder C]
variable {P : OpenList N C} {A : KAlgo N K C} {cs : List C}

/-- The node is marked open or closed. -/
def Seen (lab : Labels N C) (n : N) : Prop := (lab n).opn = true ∨ (lab n).closed = true

/-- The move `mv` from the pose `k0` leads nowhere, or to a node that is already known at a cost that is not larger. -/
def UsedUp (A : KAlgo N K C) (lab : Labels N C) (k0 : K) (mv : K → List K → Option (C × K)) : Prop :=
  mv k0 [] = none ∨ ∃ c k, mv k0 [] = some (c, k) ∧ (A.usable k0 k = .ok false ∨ A.usable k0 k = .ok true ∧
    (A.lookup k = .ok none ∨ ∃ v, A.lookup k = .ok (some v) ∧ (lab v).dist ≤ ((A.add A.zero c : C) : WithTop C) ∧ Seen lab v))

/-- How labels change during searches. -/
structure Keep (A : KAlgo N K C) (lab lab' : Labels N C) : Prop where
  low : ∀ n, (A.zero : WithTop C) ≤ (lab' n).dist
  le : ∀ n, Seen lab n → (lab' n).dist ≤ (lab n).dist ∧ Seen lab' n
  prev : ∀ n, Seen lab n → (lab n).dist = (A.zero : WithTop C) → (lab' n).prev = (lab n).prev

theorem Keep.refl {lab : Labels N C} (h : ∀ n, (A.zero : WithTop C) ≤ (lab n).dist) : Keep A lab lab :=
  ⟨h, fun _ h => ⟨le_rfl, h⟩, fun _ _ _ => rfl⟩

theorem Keep.zero {lab lab' : Labels N C} (h : Keep A lab lab') {n : N} (hs : Seen lab n) (hd : (lab n).dist = (A.zero : WithTop C)) :
    (lab' n).dist = (A.zero : WithTop C) :=
  le_antisymm (hd ▸ (h.le n hs).1) (h.low n)

theorem Keep.trans {l1 l2 l3 : Labels N C} (h : Keep A l1 l2) (g : Keep A l2 l3) : Keep A l1 l3 where
  low := g.low
  le n hs := ⟨(g.le n (h.le n hs).2).1.trans (h.le n hs).1, (g.le n (h.le n hs).2).2⟩
  prev n hs hd := (g.prev n (h.le n hs).2 (h.zero hs hd)).trans (h.prev n hs hd)

theorem UsedUp.keep {lab lab' : Labels N C} (h : Keep A lab lab') {k0 : K} {mv} (hu : UsedUp A lab k0 mv) : UsedUp A lab' k0 mv := by
  rcases hu with hu | ⟨c, k, h1, h2 | ⟨h2, h3 | ⟨v, h3, h4, h5⟩⟩⟩
  · exact .inl hu
  · exact .inr ⟨c, k, h1, .inl h2⟩
  · exact .inr ⟨c, k, h1, .inr ⟨h2, .inl h3⟩⟩
  · exact .inr ⟨c, k, h1, .inr ⟨h2, .inr ⟨v, h3, (h.le v h5).1.trans h4, (h.le v h5).2⟩⟩⟩

theorem addW_low (ok : KCostOk A cs) {d : WithTop C} {c : C} (hc : c ∈ cs) (h : (A.zero : WithTop C) ≤ d) :
    (A.zero : WithTop C) ≤ d.map (fun a => A.add a c) := by
  cases d with
  | top => exact le_top
  | coe d =>
    have h' : A.zero ≤ d := WithTop.coe_le_coe.1 h
    exact WithTop.coe_le_coe.2 (h'.trans (ok.infl c hc d))

theorem keep_watch {lab : Labels N C} {nb : N} (hl : ∀ n, (A.zero : WithTop C) ≤ (lab n).dist) :
    Keep A lab (setLab lab nb { lab nb with watched := true }) := by
  refine ⟨fun n => ?_, fun n hs => ?_, fun n _ _ => ?_⟩ <;> by_cases e : n = nb
  · subst e; simpa [setLab] using hl n
  · simpa [setLab, e] using hl n
  · subst e; exact ⟨by simp [setLab], by simpa [setLab, Seen] using hs⟩
  · exact ⟨by simp [setLab, e], by simpa [setLab, e, Seen] using hs⟩
  · subst e; simp [setLab]
  · simp [setLab, e]

theorem keep_new {lab lab1 : Labels N C} {nb : N} {l : Label N C} {d : WithTop C} (hl : ∀ n, (A.zero : WithTop C) ≤ (lab n).dist)
    (hd : (A.zero : WithTop C) ≤ d) (h1 : ¬ ((lab nb).closed && !decide (d < (lab nb).dist)) = true)
    (h2 : (!(lab nb).opn || decide (d < (lab nb).dist)) = true) (hl1 : ∀ n, n ≠ nb → lab1 n = lab n) (hld : l.dist = d)
    (hlo : l.opn = true) : Keep A lab (setLab lab1 nb l) := by
  have hlt : Seen lab nb → d < (lab nb).dist := by
    intro hs
    simp only [Bool.and_eq_true, Bool.not_eq_true', decide_eq_false_iff_not, not_and, not_not, Bool.or_eq_true, decide_eq_true_eq] at h1 h2
    rcases h2 with h2 | h2
    · rcases hs with hs | hs
      · rw [hs] at h2; cases h2
      · exact h1 hs
    · exact h2
  refine ⟨fun n => ?_, fun n hs => ?_, fun n hs hz => ?_⟩ <;> by_cases e : n = nb
  · subst e; simpa [setLab, hld] using hd
  · simpa [setLab, e, hl1 n e] using hl n
  · subst e; exact ⟨by simpa [setLab, hld] using (hlt hs).le, by simp [setLab, Seen, hlo]⟩
  · exact ⟨by simp [setLab, e, hl1 n e], by simpa [setLab, e, Seen, hl1 n e] using hs⟩
  · subst e; exact absurd (hlt hs) (by rw [hz]; exact not_lt.2 hd)
  · simp [setLab, e, hl1 n e]

theorem keep_process (ok : KCostOk A cs) {lab0 : Labels N C} {kin : N → K} {goal : List N} {st : SSt N C P} {cur nb : N} {c : C}
    (hc : c ∈ cs) (hl : ∀ n, (A.zero : WithTop C) ≤ (st.lab n).dist) :
    Keep A st.lab (processNeighbor (A.alg lab0 kin) goal st cur nb c).lab := by
  have hd := addW_low ok hc (hl cur)
  have hcur : (setLab st.lab nb { st.lab nb with watched := true } cur).dist = (st.lab cur).dist := by
    unfold setLab; split_ifs with e
    · rw [e]
    · rfl
  unfold processNeighbor
  simp only [hcur, Algo.addW, KAlgo.alg]
  by_cases h1 : ((st.lab nb).closed && !decide ((st.lab cur).dist.map (fun a => A.add a c) < (st.lab nb).dist)) = true
  on_goal 2 => by_cases h2 : (!(st.lab nb).opn || decide ((st.lab cur).dist.map (fun a => A.add a c) < (st.lab nb).dist)) = true
  · rw [if_pos h1]
    exact keep_watch hl
  · rw [if_neg h1, if_pos h2]
    exact keep_new hl hd h1 h2 (fun n e => by simp [setLab, e]) rfl rfl
  · rw [if_neg h1, if_neg h2]
    exact keep_watch hl

theorem keep_pop {lab0 : Labels N C} {kin : N → K} {cfg : SCfg N C} {st : SSt N C P} {cur : N} {o : P.O}
    (hl : ∀ n, (A.zero : WithTop C) ≤ (st.lab n).dist) : Keep A st.lab (popNode (A.alg lab0 kin) cfg st cur o).lab := by
  refine ⟨fun n => ?_, fun n hs => ?_, fun n _ _ => ?_⟩ <;> by_cases e : n = cur
  · subst e; simpa [popNode, setLab] using hl n
  · simpa [popNode, setLab, e] using hl n
  · subst e; exact ⟨by simp [popNode, setLab], by simp [popNode, setLab, Seen]⟩
  · exact ⟨by simp [popNode, setLab, e], by simpa [popNode, setLab, e, Seen] using hs⟩
  · subst e; simp [popNode, setLab]
  · simp [popNode, setLab, e]

/-- The nodes at the beginning of a search. -/
theorem keep_init {lab kin} (cfg : SCfg N C) (hl : ∀ n, (A.zero : WithTop C) ≤ (lab n).dist) :
    Keep A lab (initSearch (A.alg lab kin) P cfg lab).lab ∧
    (∀ n ∈ cfg.start, ((initSearch (A.alg lab kin) P cfg lab).lab n).opn = true ∧
      ((initSearch (A.alg lab kin) P cfg lab).lab n).dist = (A.zero : WithTop C)) ∧
    (∀ n, ((initSearch (A.alg lab kin) P cfg lab).lab n).prev = (lab n).prev) ∧
    (initSearch (A.alg lab kin) P cfg lab).cands = [] := by
  unfold initSearch
  have key : ∀ (ss : List N) (st : SSt N C P), (∀ n, (A.zero : WithTop C) ≤ (st.lab n).dist) →
      Keep A st.lab (ss.foldl (addStart (A.alg lab kin)) st).lab ∧
      (∀ n, n ∈ ss ∨ ((st.lab n).opn = true ∧ (st.lab n).dist = (A.zero : WithTop C)) →
        ((ss.foldl (addStart (A.alg lab kin)) st).lab n).opn = true ∧
        ((ss.foldl (addStart (A.alg lab kin)) st).lab n).dist = (A.zero : WithTop C)) ∧
      (∀ n, ((ss.foldl (addStart (A.alg lab kin)) st).lab n).prev = (st.lab n).prev) ∧
      (ss.foldl (addStart (A.alg lab kin)) st).cands = st.cands := by
    intro ss
    induction ss with
    | nil =>
      intro st h
      exact ⟨Keep.refl h, fun n hn => hn.resolve_left (by simp), fun _ => rfl, rfl⟩
    | cons s ss ih =>
      intro st h
      have k1 : Keep A st.lab (addStart (A.alg lab kin) st s).lab := by
        refine ⟨fun n => ?_, fun n hs => ?_, fun n _ _ => ?_⟩ <;> by_cases e : n = s
        · subst e; simp [addStart, setLab, KAlgo.alg]
        · simpa [addStart, setLab, e] using h n
        · subst e; exact ⟨by simpa [addStart, setLab, KAlgo.alg] using h n, by simp [addStart, setLab, Seen]⟩
        · exact ⟨by simp [addStart, setLab, e], by simpa [addStart, setLab, e, Seen] using hs⟩
        · subst e; simp [addStart, setLab]
        · simp [addStart, setLab, e]
      obtain ⟨i1, i2, i3, i4⟩ := ih (addStart (A.alg lab kin) st s) k1.low
      refine ⟨k1.trans i1, fun n hn => i2 n ?_, fun n => ?_, i4⟩
      · by_cases e : n = s
        · right; subst e; simp [addStart, setLab, KAlgo.alg]
        · rcases hn with hn | hn
          · exact .inl ((List.mem_cons.1 hn).resolve_left e)
          · right; simpa [addStart, setLab, e] using hn
      · rw [List.foldl_cons, i3 n]
        unfold addStart setLab
        simp only
        split_ifs with e
        · rw [e]
        · rfl
  obtain ⟨h1, h2, h3, h4⟩ := key cfg.start
    { lab := lab, opn := P.empty, cands := [], firstW := ((A.alg lab kin).zero : WithTop C), expansions := 0, multi := 0, touched := 0, updates := 0 } hl
  exact ⟨h1, fun n hn => h2 n (.inl hn), h3, h4⟩

theorem init_mem (L : Lawful P) {B : Algo N C} (cfg : SCfg N C) (lab : Labels N C) (n : N) :
    L.mem (initSearch B P cfg lab).opn n ↔ n ∈ cfg.start := by
  unfold initSearch
  have key : ∀ (ss : List N) (st : SSt N C P), L.mem (ss.foldl (addStart B) st).opn n ↔ n ∈ ss ∨ L.mem st.opn n := by
    intro ss
    induction ss with
    | nil => intro st; simp
    | cons s ss ih =>
      intro st
      rw [List.foldl_cons, ih]
      simp only [addStart, L.add_mem, List.mem_cons]
      tauto
  rw [key]
  simp [L.empty_mem]

/-- What is known of the start nodes. -/
structure Starts (A : KAlgo N K C) (start : List N) (lab : Labels N C) : Prop where
  low : ∀ n, (A.zero : WithTop C) ≤ (lab n).dist
  zero : ∀ s ∈ start, (lab s).dist = (A.zero : WithTop C)
  prev : ∀ s ∈ start, (lab s).prev = none
  seen : ∀ s ∈ start, Seen lab s

theorem Starts.keep {start : List N} {lab lab' : Labels N C} (h : Starts A start lab) (k : Keep A lab lab') : Starts A start lab' where
  low := k.low
  zero s hs := k.zero (h.seen s hs) (h.zero s hs)
  prev s hs := (k.prev s (h.seen s hs) (h.zero s hs)).trans (h.prev s hs)
  seen s hs := (k.le s (h.seen s hs)).2

/-- One move of an iteration of any search: labels are kept, the contents of start nodes too; if the node is a start node, the move is
used up. -/
theorem kTry_keep (ok : KCostOk A cs) {start goal : List N} {kin0 : N → K} {cur : N} {mv} (hmv : mv ∈ A.moves) {st st' : KSt N K C P}
    (h : Starts A start st.s.lab) (hkin : ∀ s ∈ start, st.kin s = kin0 s) (hk : kTry A goal cur mv st = .ok st') :
    Keep A st.s.lab st'.s.lab ∧ (∀ s ∈ start, st'.kin s = kin0 s) ∧ (cur ∈ start → UsedUp A st'.s.lab (kin0 cur) mv) ∧
      (∀ n, (st'.s.lab n).opn = true → (st.s.lab n).opn = true ∨ st'.s.opn = P.add st.s.opn n ((A.alg st.s.lab st.kin).total (st'.s.lab n))) ∧
      (st'.s.opn = st.s.opn ∨ ∃ n d, st'.s.opn = P.add st.s.opn n d) ∧ st'.s.cands = st.s.cands ∧
      (∀ s ∈ start, (st'.s.lab s).opn = (st.s.lab s).opn) := by
  have hp : cur ∈ start → kPreds st.s.lab st.kin cur A.predDepth = [] := by
    intro hc
    cases A.predDepth with
    | zero => rfl
    | succ n => unfold kPreds; rw [h.prev cur hc]
  unfold kTry at hk
  cases hm : mv (st.kin cur) (kPreds st.s.lab st.kin cur A.predDepth) with
  | none =>
    rw [hm] at hk
    cases hk
    refine ⟨Keep.refl h.low, hkin, fun hc => .inl ?_, fun _ h => .inl h, .inl rfl, rfl, fun _ _ => rfl⟩
    rw [← hkin cur hc, ← hp hc, hm]
  | some ck =>
    obtain ⟨c, k⟩ := ck
    rw [hm] at hk
    have hcs : c ∈ cs := ok.costs mv hmv _ _ _ _ hm
    have hm' : cur ∈ start → mv (kin0 cur) [] = some (c, k) := by
      intro hc; rw [← hkin cur hc, ← hp hc, hm]
    simp only at hk
    cases hus : A.usable (st.kin cur) k with
    | throw e => rw [hus] at hk; cases hk
    | ub => rw [hus] at hk; cases hk
    | ok b =>
      rw [hus] at hk
      simp only [CRes.bind] at hk
      cases b with
      | false =>
        simp only [Bool.false_eq_true, if_false] at hk
        cases hk
        exact ⟨Keep.refl h.low, hkin, fun hc => .inr ⟨c, k, hm' hc, .inl (by rw [← hkin cur hc, hus])⟩, fun _ h => .inl h, .inl rfl, rfl,
          fun _ _ => rfl⟩
      | true =>
        simp only [if_true] at hk
        cases hlk : A.lookup k with
        | throw e => rw [hlk] at hk; cases hk
        | ub => rw [hlk] at hk; cases hk
        | ok r =>
          rw [hlk] at hk
          simp only at hk
          cases r with
          | none =>
            cases hk
            exact ⟨Keep.refl h.low, hkin, fun hc => .inr ⟨c, k, hm' hc, .inr ⟨by rw [← hkin cur hc, hus], .inl hlk⟩⟩, fun _ h => .inl h,
              .inl rfl, rfl, fun _ _ => rfl⟩
          | some v =>
            simp only at hk
            have hkeep : Keep A st.s.lab (processNeighbor (A.alg st.s.lab st.kin) goal st.s cur v c).lab := keep_process ok hcs h.low
            have hcur : (setLab st.s.lab v { st.s.lab v with watched := true } cur).dist = (st.s.lab cur).dist := by
              unfold setLab; split_ifs with e
              · rw [e]
              · rfl
            have hd := addW_low ok hcs (h.low cur)
            by_cases hpa : processAdds A st.s cur v c = true
            · rw [if_pos hpa] at hk
              have hvs : v ∉ start := by
                intro hv
                have h1 := h.zero v hv
                unfold processAdds at hpa
                rw [h1] at hpa
                simp only [not_lt.2 hd, decide_false, Bool.not_false, Bool.and_true, Bool.or_false, Bool.and_eq_true,
                  Bool.not_eq_true'] at hpa
                rcases h.seen v hv with e | e
                · rw [e] at hpa; exact absurd hpa.2 (by simp)
                · rw [e] at hpa; exact absurd hpa.1 (by simp)
              by_cases e : v = cur
              · rw [if_pos e] at hk; cases hk
              rw [if_neg e] at hk
              cases hk
              have hs' : processNeighbor (A.alg st.s.lab st.kin) goal st.s cur v c =
                  { st.s with
                    lab := setLab (setLab st.s.lab v { st.s.lab v with watched := true }) v
                      { st.s.lab v with
                        watched := true
                        prev := some cur
                        dist := (st.s.lab cur).dist.map (fun a => A.add a c)
                        h := match goal with
                          | [] => (st.s.lab v).h
                          | g :: _ => A.heur (st.kin v) (st.kin g)
                        opn := true }
                    opn := P.add st.s.opn v ((A.alg st.s.lab st.kin).total
                      { st.s.lab v with
                        watched := true
                        prev := some cur
                        dist := (st.s.lab cur).dist.map (fun a => A.add a c)
                        h := match goal with
                          | [] => (st.s.lab v).h
                          | g :: _ => A.heur (st.kin v) (st.kin g)
                        opn := true })
                    touched := st.s.touched + 1
                    updates := if (st.s.lab v).opn then st.s.updates + 1 else st.s.updates } := by
                unfold processAdds at hpa
                unfold processNeighbor
                simp only [hcur, Algo.addW, KAlgo.alg] at hpa ⊢
                simp only [Bool.and_eq_true] at hpa
                rw [if_neg (by have := hpa.1; rw [Bool.not_eq_true'] at this; rw [this]; simp), if_pos hpa.2]
                cases goal <;> rfl
              refine ⟨hkeep, fun s hs => ?_, fun hc => .inr ⟨c, k, hm' hc, .inr ⟨by rw [← hkin cur hc, hus], .inr ⟨v, hlk, ?_, ?_⟩⟩⟩,
                fun n hn => ?_, ?_, ?_, fun s hs => ?_⟩
              · show (if s = v then k else st.kin s) = _
                rw [if_neg (fun e' : s = v => hvs (e' ▸ hs))]; exact hkin s hs
              · show ((processNeighbor (A.alg st.s.lab st.kin) goal st.s cur v c).lab v).dist ≤ _
                rw [hs']
                simp only [setLab, if_true]
                rw [h.zero cur hc]; exact le_rfl
              · show Seen (processNeighbor (A.alg st.s.lab st.kin) goal st.s cur v c).lab v
                rw [hs']; simp [Seen, setLab]
              · have hn' : ((processNeighbor (A.alg st.s.lab st.kin) goal st.s cur v c).lab n).opn = true := hn
                show _ ∨ (processNeighbor (A.alg st.s.lab st.kin) goal st.s cur v c).opn =
                  P.add st.s.opn n ((A.alg st.s.lab st.kin).total ((processNeighbor (A.alg st.s.lab st.kin) goal st.s cur v c).lab n))
                rw [hs'] at hn' ⊢
                by_cases e2 : n = v
                · right; subst e2; simp [setLab]
                · left; simpa [setLab, e2] using hn'
              · right
                exact ⟨v, _, by show (processNeighbor (A.alg st.s.lab st.kin) goal st.s cur v c).opn = _; rw [hs']⟩
              · show (processNeighbor (A.alg st.s.lab st.kin) goal st.s cur v c).cands = _
                rw [hs']
              · show ((processNeighbor (A.alg st.s.lab st.kin) goal st.s cur v c).lab s).opn = _
                rw [hs']
                simp [setLab, show s ≠ v from fun e => hvs (e ▸ hs)]
            · rw [if_neg hpa] at hk
              cases hk
              have hs' : processNeighbor (A.alg st.s.lab st.kin) goal st.s cur v c =
                  { st.s with lab := setLab st.s.lab v { st.s.lab v with watched := true } } := by
                unfold processAdds at hpa
                unfold processNeighbor
                simp only [hcur, Algo.addW, KAlgo.alg] at hpa ⊢
                by_cases h1 : ((st.s.lab v).closed && !decide ((st.s.lab cur).dist.map (fun a => A.add a c) < (st.s.lab v).dist)) = true
                · rw [if_pos h1]
                · rw [if_neg h1, if_neg]
                  intro h2
                  exact hpa (by rw [h2, Bool.and_true, Bool.not_eq_true']; simpa only [Bool.not_eq_true] using h1)
              refine ⟨hkeep, hkin, fun hc => .inr ⟨c, k, hm' hc, .inr ⟨by rw [← hkin cur hc, hus], .inr ⟨v, hlk, ?_, ?_⟩⟩⟩,
                fun n hn => ?_, ?_, ?_, fun s hs => ?_⟩
              · show ((processNeighbor (A.alg st.s.lab st.kin) goal st.s cur v c).lab v).dist ≤ _
                rw [hs']
                have e0 : (setLab st.s.lab v { st.s.lab v with watched := true } v).dist = (st.s.lab v).dist := by simp [setLab]
                show (setLab st.s.lab v { st.s.lab v with watched := true } v).dist ≤ _
                rw [e0]
                by_contra hlt
                apply hpa
                unfold processAdds
                rw [h.zero cur hc]
                have : ((A.add A.zero c : C) : WithTop C) < (st.s.lab v).dist := not_le.1 hlt
                simp [this]
              · have hseen : Seen st.s.lab v := by
                  by_contra hn
                  apply hpa
                  unfold Seen at hn
                  simp only [not_or, Bool.not_eq_true] at hn
                  unfold processAdds
                  simp [hn.1, hn.2]
                exact (hkeep.le v hseen).2
              · left
                have hn' : ((processNeighbor (A.alg st.s.lab st.kin) goal st.s cur v c).lab n).opn = true := hn
                rw [hs'] at hn'
                by_cases e2 : n = v
                · subst e2; simpa [setLab] using hn'
                · simpa [setLab, e2] using hn'
              · left; show (processNeighbor (A.alg st.s.lab st.kin) goal st.s cur v c).opn = _; rw [hs']
              · show (processNeighbor (A.alg st.s.lab st.kin) goal st.s cur v c).cands = _
                rw [hs']
              · show ((processNeighbor (A.alg st.s.lab st.kin) goal st.s cur v c).lab s).opn = _
                rw [hs']
                by_cases e2 : s = v
                · subst e2; simp [setLab]
                · simp [setLab, e2]

/-- A used-up move of a start node changes nothing but the mark of having been watched. -/
theorem kTry_usedUp {start goal : List N} {kin0 : N → K} {cur : N} {mv} {st : KSt N K C P}
    (h : Starts A start st.s.lab) (hkin : st.kin cur = kin0 cur) (hc : cur ∈ start) (hu : UsedUp A st.s.lab (kin0 cur) mv) :
    ∃ s', kTry A goal cur mv st = .ok { s := s', kin := st.kin } ∧ s'.opn = st.s.opn ∧ s'.cands = st.s.cands ∧
      s'.expansions = st.s.expansions ∧ ∀ n, (s'.lab n).dist = (st.s.lab n).dist ∧ (s'.lab n).prev = (st.s.lab n).prev ∧
        (s'.lab n).opn = (st.s.lab n).opn ∧ (s'.lab n).closed = (st.s.lab n).closed := by
  have hp : kPreds st.s.lab st.kin cur A.predDepth = [] := by
    cases A.predDepth with
    | zero => rfl
    | succ n => unfold kPreds; rw [h.prev cur hc]
  unfold kTry
  rw [hp, hkin]
  rcases hu with hu | ⟨c, k, h1, h2 | ⟨h2, h3 | ⟨v, h3, h4, h5⟩⟩⟩
  · rw [hu]; exact ⟨st.s, rfl, rfl, rfl, rfl, fun _ => ⟨rfl, rfl, rfl, rfl⟩⟩
  · rw [h1]; simp only [h2, CRes.bind, Bool.false_eq_true, if_false]
    exact ⟨st.s, rfl, rfl, rfl, rfl, fun _ => ⟨rfl, rfl, rfl, rfl⟩⟩
  · rw [h1]; simp only [h2, h3, CRes.bind, if_true]
    exact ⟨st.s, rfl, rfl, rfl, rfl, fun _ => ⟨rfl, rfl, rfl, rfl⟩⟩
  · rw [h1]; simp only [h2, h3, CRes.bind, if_true]
    have hcur : (setLab st.s.lab v { st.s.lab v with watched := true } cur).dist = (st.s.lab cur).dist := by
      unfold setLab; split_ifs with e
      · rw [e]
      · rfl
    have hle : ¬ (st.s.lab cur).dist.map (fun a => A.add a c) < (st.s.lab v).dist := by
      rw [h.zero cur hc]; exact not_lt.2 h4
    have hpa : processAdds A st.s cur v c = false := by
      unfold processAdds
      simp only [hle, decide_false]
      rcases h5 with e | e <;> simp [e]
    have hs' : processNeighbor (A.alg st.s.lab st.kin) goal st.s cur v c =
        { st.s with lab := setLab st.s.lab v { st.s.lab v with watched := true } } := by
      unfold processNeighbor
      simp only [hcur, Algo.addW, KAlgo.alg]
      simp only [hle, decide_false, Bool.not_false, Bool.and_true, Bool.or_false]
      by_cases e : (st.s.lab v).closed = true
      · rw [if_pos e]
      · rw [if_neg e, if_neg]
        rw [h5.resolve_right e]; simp
    rw [hpa]
    simp only [Bool.false_eq_true, if_false]
    refine ⟨_, rfl, by rw [hs'], by rw [hs'], by rw [hs'], fun n => ?_⟩
    rw [hs']
    by_cases e : n = v
    · subst e; simp [setLab]
    · simp [setLab, e]

section
variable [Fintype N]

/-- Progress of a search: the moves of `cur` in `ms` have not been tried yet. -/
structure ZInv (A : KAlgo N K C) (L : Lawful P) (start : List N) (kin0 : N → K) (cur : N) (ms : List (K → List K → Option (C × K)))
    (st : KSt N K C P) : Prop where
  starts : Starts A start st.s.lab
  kin : ∀ s ∈ start, st.kin s = kin0 s
  mem : ∀ s ∈ start, (st.s.lab s).opn = true → L.mem st.s.opn s
  used : ∀ s ∈ start, ∀ mv ∈ A.moves, (st.s.lab s).opn = true ∨ (s = cur ∧ mv ∈ ms) ∨ UsedUp A st.s.lab (kin0 s) mv

variable {L : Lawful P} {start : List N} {kin0 : N → K} {cfg : SCfg N C}

theorem ZInv.expand (ok : KCostOk A cs) {goal : List N} {cur : N} : ∀ (ms : List (K → List K → Option (C × K))) (st st' : KSt N K C P),
    (∀ mv ∈ ms, mv ∈ A.moves) → ZInv A L start kin0 cur ms st → kExpand A goal cur ms st = .ok st' →
    ZInv A L start kin0 cur [] st' ∧ Keep A st.s.lab st'.s.lab ∧ st'.s.cands = st.s.cands := by
  intro ms
  induction ms with
  | nil => intro st st' _ h hk; cases hk; exact ⟨h, Keep.refl h.starts.low, rfl⟩
  | cons mv ms ih =>
    intro st st' hms h hk
    rw [kExpand] at hk
    cases hk1 : kTry A goal cur mv st with
    | throw e => rw [hk1] at hk; cases hk
    | ub => rw [hk1] at hk; cases hk
    | ok st1 =>
      rw [hk1] at hk
      simp only [CRes.bind] at hk
      obtain ⟨i1, i2, i3, _, i5, i6, i7⟩ := kTry_keep ok (hms mv (by simp)) h.starts h.kin hk1
      have h1 : ZInv A L start kin0 cur ms st1 := by
        refine ⟨h.starts.keep i1, i2, fun s hs ho => ?_, fun s hs mv' hmv' => ?_⟩
        · rw [i7 s hs] at ho
          have := h.mem s hs ho
          rcases i5 with e | ⟨n, d, e⟩
          · rw [e]; exact this
          · rw [e]; exact (L.add_mem _ _ _ _).2 (.inr this)
        · rw [i7 s hs]
          rcases h.used s hs mv' hmv' with e | ⟨e1, e2⟩ | e
          · exact .inl e
          · rcases List.mem_cons.1 e2 with e2 | e2
            · subst e1; subst e2; exact .inr (.inr (i3 hs))
            · exact .inr (.inl ⟨e1, e2⟩)
          · exact .inr (.inr (e.keep i1))
      obtain ⟨j1, j2, j3⟩ := ih st1 st' (fun m hm => hms m (by simp [hm])) h1 hk
      exact ⟨j1, i1.trans j2, j3.trans i6⟩

theorem ZInv.pop {cfg : SCfg N C} {st : KSt N K C P} {cur : N} {o : P.O} {c0 : N} (h : ZInv A L start kin0 c0 [] st)
    (hn : P.next st.s.opn = some (cur, o)) (t : SSt N C P)
    (hlab : t.lab = (popNode (A.alg st.s.lab st.kin) cfg st.s cur o).lab) (hopn : t.opn = o) :
    ZInv A L start kin0 cur A.moves { s := t, kin := st.kin } ∧ Keep A st.s.lab t.lab ∧
      (cur ∉ start → ZInv A L start kin0 cur [] { s := t, kin := st.kin }) := by
  have hk : Keep A st.s.lab t.lab := by rw [hlab]; exact keep_pop h.starts.low
  have ho : ∀ n, (t.lab n).opn = true → n ≠ cur ∧ (st.s.lab n).opn = true := by
    intro n hno
    rw [hlab] at hno
    by_cases e : n = cur
    · subst e; simp [popNode, setLab] at hno
    · exact ⟨e, by simpa [popNode, setLab, e] using hno⟩
  have ho' : ∀ n, n ≠ cur → (t.lab n).opn = (st.s.lab n).opn := by
    intro n e
    rw [hlab]; simp [popNode, setLab, e]
  have hm : ∀ s ∈ start, (t.lab s).opn = true → L.mem t.opn s := by
    intro s hs hso
    obtain ⟨e1, e2⟩ := ho s hso
    rw [hopn]
    exact ((L.next_some _ _ _ hn).2.2 s (h.mem s hs e2)).resolve_left e1
  have hu : ∀ s ∈ start, ∀ mv ∈ A.moves, s = cur ∨ (t.lab s).opn = true ∨ UsedUp A t.lab (kin0 s) mv := by
    intro s hs mv hmv
    by_cases e : s = cur
    · exact .inl e
    · right
      rw [ho' s e]
      rcases h.used s hs mv hmv with e1 | ⟨_, e1⟩ | e1
      · exact .inl e1
      · cases e1
      · exact .inr (e1.keep hk)
  refine ⟨⟨h.starts.keep hk, h.kin, hm, fun s hs mv hmv => ?_⟩, hk, fun hc => ⟨h.starts.keep hk, h.kin, hm, fun s hs mv hmv => ?_⟩⟩
  · rcases hu s hs mv hmv with e | e | e
    · exact .inr (.inl ⟨e, hmv⟩)
    · exact .inl e
    · exact .inr (.inr e)
  · rcases hu s hs mv hmv with e | e | e
    · exact absurd hs (e ▸ hc)
    · exact .inl e
    · exact .inr (.inr e)

/-- Every search keeps labels in the sense of `Keep`, whatever its end. -/
theorem kLoop_keep (ok : KCostOk A cs) : ∀ (f : Nat) (st : KSt N K C P) (r t), (∀ n, (A.zero : WithTop C) ≤ (st.s.lab n).dist) →
    kLoop A cfg f st = some (r, t) → Keep A st.s.lab t.s.lab := by
  have hexp : ∀ (goal : List N) (cur : N) (ms : List (K → List K → Option (C × K))), (∀ mv ∈ ms, mv ∈ A.moves) →
      ∀ (st st' : KSt N K C P), (∀ n, (A.zero : WithTop C) ≤ (st.s.lab n).dist) → kExpand A goal cur ms st = .ok st' →
      Keep A st.s.lab st'.s.lab := by
    intro goal cur ms
    induction ms with
    | nil => intro _ st st' h hk; cases hk; exact Keep.refl h
    | cons mv ms ih =>
      intro hms st st' h hk
      rw [kExpand] at hk
      cases hk1 : kTry A goal cur mv st with
      | throw e => rw [hk1] at hk; cases hk
      | ub => rw [hk1] at hk; cases hk
      | ok st1 =>
        rw [hk1] at hk
        simp only [CRes.bind] at hk
        have h1 := (kTry_keep (start := []) (kin0 := st.kin) ok (hms mv (by simp))
          ⟨h, fun _ h => absurd h (by simp), fun _ h => absurd h (by simp), fun _ h => absurd h (by simp)⟩ (fun _ h => absurd h (by simp)) hk1).1
        exact h1.trans (ih (fun m hm => hms m (by simp [hm])) st1 st' h1.low hk)
  intro f
  induction f with
  | zero => intro st r t _ h; simp [kLoop] at h
  | succ f ih =>
    intro st r t hl h
    rw [kLoop] at h
    rcases kIterate_cases (A := A) (cfg := cfg) st with ⟨st', hi, cur, o, t1, _, _, h3, _, h4⟩ | ⟨r1, st', hi, _, h2⟩
    · rw [hi] at h
      have e1 := (goalLoop_quiet _ _ _ _ _ h3).1
      have k1 : Keep A st.s.lab t1.st.lab := by rw [e1]; exact keep_pop hl
      have k2 := hexp _ _ _ (fun _ h => h) _ _ k1.low h4
      exact (k1.trans k2).trans (ih st' r t k2.low h)
    · rw [hi] at h
      simp only [Option.some.injEq, Prod.mk.injEq] at h
      obtain ⟨_, rfl⟩ := h
      rcases h2 with h2 | ⟨cur, o, _, h2 | ⟨t1, h3, h2⟩⟩
      · rw [h2]; exact Keep.refl hl
      · rw [h2]; exact keep_pop hl
      · rw [h2, (goalLoop_quiet _ _ _ _ _ h3).1]; exact keep_pop hl

/-- Without candidates a goal loop that ends the search returns the nodes up to the current one. -/
theorem goalLoop_start {B : Algo N C} {cfg : SCfg N C} {cur : N} (hu : cfg.useCands = false) (hc : cur ∈ cfg.start) :
    ∀ (gs : List N) (st : SSt N C P) (t), goalLoop B cfg cur gs st = .ok t → t.term = true → t.result = [cur] := by
  intro gs
  induction gs with
  | nil => intro st t h ht; cases h; cases ht
  | cons g gs ih =>
    intro st t h ht
    rw [goalLoop] at h
    by_cases hg : B.isGoal g cur = true
    · simp only [hg, if_true, hu, Bool.false_eq_true, if_false] at h
      have hb : backtrack st.lab cfg.start cur = .ok [cur] := by
        unfold backtrack
        rw [backtrackFrom, if_pos hc]
      rw [hb] at h
      cases h; rfl
    · simp only [hg, if_false, Bool.false_eq_true] at h
      exact ih st t h ht

/-- The first search: at its end the moves of every start node that has left the open list are used up, unless it was found to be in the
goal region itself. -/
theorem first_run (ok : KCostOk A cs) (hu : cfg.useCands = false) : ∀ (f : Nat) (st : KSt N K C P) (c0 : N) (p : List N) (t : KSt N K C P),
    ZInv A L cfg.start kin0 c0 [] st → kLoop A cfg f st = some (.ok p, t) → p.length ≠ 1 → ∃ c1, ZInv A L cfg.start kin0 c1 [] t := by
  intro f
  induction f with
  | zero => intro st c0 p t _ h; simp [kLoop] at h
  | succ f ih =>
    intro st c0 p t hz h hp
    rw [kLoop] at h
    unfold kIterate at h
    cases hn : P.next st.s.opn with
    | none =>
      rw [hn] at h
      simp only [Option.some.injEq, Prod.mk.injEq] at h
      obtain ⟨_, rfl⟩ := h
      exact ⟨c0, hz⟩
    | some co =>
      obtain ⟨cur, o⟩ := co
      rw [hn] at h
      simp only at h
      by_cases hab : cfg.abort st.s.expansions = true
      · rw [if_pos hab] at h
        simp only [Option.some.injEq, Prod.mk.injEq] at h
        obtain ⟨_, rfl⟩ := h
        exact ⟨c0, hz⟩
      · rw [if_neg hab] at h
        cases hg : goalLoop (A.alg (popNode (A.alg st.s.lab st.kin) cfg st.s cur o).lab st.kin) (A.cfg cfg st.kin) cur cfg.goal
            (popNode (A.alg st.s.lab st.kin) cfg st.s cur o) with
        | throw e =>
          rw [hg] at h
          simp only [Option.some.injEq, Prod.mk.injEq] at h
          exact absurd h.1 (by simp)
        | ub =>
          rw [hg] at h
          simp only [Option.some.injEq, Prod.mk.injEq] at h
          exact absurd h.1 (by simp)
        | ok t1 =>
          rw [hg] at h
          simp only at h
          have hq := goalLoop_quiet _ _ _ _ _ hg
          obtain ⟨z1, _, z3⟩ := hz.pop hn t1.st hq.1 (hq.2.1.trans rfl)
          have huc : (A.cfg cfg st.kin).useCands = false := hu
          by_cases htm : t1.term = true
          · have hcs : cur ∉ cfg.start := by
              intro hc
              have hr := goalLoop_start (cfg := A.cfg cfg st.kin) huc hc _ _ _ hg htm
              rw [if_pos htm, hr] at h
              simp only [ne_eq, List.cons_ne_nil, not_false_eq_true, if_true, Option.some.injEq, Prod.mk.injEq, CRes.ok.injEq] at h
              rw [← h.1] at hp
              exact hp rfl
            refine ⟨cur, ?_⟩
            rw [if_pos htm] at h
            split_ifs at h <;> (simp only [Option.some.injEq, Prod.mk.injEq] at h; obtain ⟨_, rfl⟩ := h; exact z3 hcs)
          · rw [if_neg htm] at h
            simp only [hu, Bool.false_and, Bool.false_eq_true, if_false] at h
            cases hx : kExpand A cfg.goal cur A.moves { s := t1.st, kin := st.kin } with
            | throw e =>
              rw [hx] at h
              simp only [Option.some.injEq, Prod.mk.injEq] at h
              exact absurd h.1 (by simp)
            | ub =>
              rw [hx] at h
              simp only [Option.some.injEq, Prod.mk.injEq] at h
              exact absurd h.1 (by simp)
            | ok st2 =>
              rw [hx] at h
              simp only at h
              exact ih st2 cur p t (z1.expand ok A.moves _ _ (fun _ h => h) hx).1 h hp

/-- All start nodes are used up. -/
structure Stuck (A : KAlgo N K C) (start : List N) (kin0 : N → K) (lab : Labels N C) : Prop where
  starts : Starts A start lab
  used : ∀ s ∈ start, ∀ mv ∈ A.moves, UsedUp A lab (kin0 s) mv

theorem Stuck.keep {lab lab' : Labels N C} (h : Stuck A start kin0 lab) (k : Keep A lab lab') : Stuck A start kin0 lab' :=
  ⟨h.starts.keep k, fun s hs mv hmv => (h.used s hs mv hmv).keep k⟩

theorem stuck_expand (ok : KCostOk A cs) {goal : List N} {cur : N} (hc : cur ∈ start) : ∀ (ms : List (K → List K → Option (C × K)))
    (st : KSt N K C P), (∀ mv ∈ ms, mv ∈ A.moves) → Stuck A start kin0 st.s.lab → st.kin cur = kin0 cur →
    ∃ s', kExpand A goal cur ms st = .ok { s := s', kin := st.kin } ∧ s'.opn = st.s.opn ∧ s'.cands = st.s.cands ∧
      Stuck A start kin0 s'.lab := by
  intro ms
  induction ms with
  | nil => intro st _ h _; exact ⟨st.s, rfl, rfl, rfl, h⟩
  | cons mv ms ih =>
    intro st hms h hk
    obtain ⟨s1, h1, h2, h3, _, h5⟩ := kTry_usedUp (A := A) (goal := goal) (mv := mv) h.starts hk hc (h.used cur hc mv (hms mv (by simp)))
    have hkeep : Keep A st.s.lab s1.lab :=
      ⟨fun n => by rw [(h5 n).1]; exact h.starts.low n,
        fun n hs => ⟨(h5 n).1.le, by unfold Seen at hs ⊢; rw [(h5 n).2.2.1, (h5 n).2.2.2]; exact hs⟩, fun n _ _ => (h5 n).2.1⟩
    obtain ⟨s2, g1, g2, g3, g4⟩ := ih { s := s1, kin := st.kin } (fun m hm => hms m (by simp [hm])) (h.keep hkeep) hk
    refine ⟨s2, ?_, g2.trans h2, g3.trans h3, g4⟩
    rw [kExpand, h1]
    exact g1

/-- A search from used-up start nodes. -/
theorem stuck_run (ok : KCostOk A cs) (ht : TopOk cfg.top) (hsub : ∀ s ∈ cfg.start, s ∈ start) : ∀ (n : Nat) (st : KSt N K C P),
    L.size st.s.opn < n → Stuck A start kin0 st.s.lab → (∀ s ∈ cfg.start, st.kin s = kin0 s) →
    (∀ g ∈ cfg.goal, ∀ s ∈ cfg.start, A.isGoal (st.kin g) (kin0 s) none = false) → (∀ m, L.mem st.s.opn m → m ∈ cfg.start) →
    st.s.cands = [] → ∃ st', kLoop A cfg n st = some (.ok [], st') := by
  intro n
  induction n with
  | zero => intro st h; exact absurd h (Nat.not_lt_zero _)
  | succ n ih =>
    intro st hn h hk hg hm hcd
    rw [kLoop]
    unfold kIterate
    have hfin : ∀ s : SSt N C P, s.cands = [] → finish cfg s = .ok [] := by
      intro s e
      rw [finish, e, (ht.none_iff _).2 rfl]
    cases hnx : P.next st.s.opn with
    | none => simp only; rw [hfin _ hcd]; exact ⟨_, rfl⟩
    | some co =>
      obtain ⟨cur, o⟩ := co
      simp only
      by_cases hab : cfg.abort st.s.expansions = true
      · rw [if_pos hab, hfin _ hcd]; exact ⟨_, rfl⟩
      · rw [if_neg hab]
        obtain ⟨m1, m2, _⟩ := L.next_some _ _ _ hnx
        have hc := hm cur m1
        have hcs := hsub cur hc
        have hkeep : Keep A st.s.lab (popNode (A.alg st.s.lab st.kin) cfg st.s cur o).lab := keep_pop h.starts.low
        have h1 := h.keep hkeep
        have hgl : ∀ gs, (∀ g ∈ gs, g ∈ cfg.goal) → goalLoop (A.alg (popNode (A.alg st.s.lab st.kin) cfg st.s cur o).lab st.kin)
            (A.cfg cfg st.kin) cur gs (popNode (A.alg st.s.lab st.kin) cfg st.s cur o) =
            .ok ⟨false, [], popNode (A.alg st.s.lab st.kin) cfg st.s cur o⟩ := by
          intro gs
          induction gs with
          | nil => intro _; rfl
          | cons g gs ihg =>
            intro hgs
            rw [goalLoop, if_neg]
            · exact ihg fun g' hg' => hgs g' (by simp [hg'])
            · show ¬ A.isGoal (st.kin g) (st.kin cur) _ = true
              rw [h1.starts.prev cur hcs, hk cur hc]
              simpa using hg g (hgs g (by simp)) cur hc
        rw [hgl cfg.goal fun _ h => h]
        simp only [Bool.false_eq_true, if_false]
        have hc0 : (popNode (A.alg st.s.lab st.kin) cfg st.s cur o).cands = [] := hcd
        rw [hc0]
        simp only [List.isEmpty_nil, Bool.not_true, Bool.and_false, Bool.false_and, Bool.false_eq_true, if_false]
        obtain ⟨s2, g1, g2, g3, g4⟩ := stuck_expand (goal := cfg.goal) ok hcs A.moves
          { s := popNode (A.alg st.s.lab st.kin) cfg st.s cur o, kin := st.kin } (fun _ h => h) h1 (hk cur hc)
        rw [g1]
        simp only
        have ho : s2.opn = o := g2
        refine ih { s := s2, kin := st.kin } ?_ g4 hk hg (fun m hmm => ?_) (g3.trans hc0)
        · show L.size s2.opn < n
          rw [ho]
          have := L.next_size _ _ _ hnx
          omega
        · have hmm' : L.mem s2.opn m := hmm
          rw [ho] at hmm'
          exact hm m (m2 m hmm')

end

end PathPlanning.Again
