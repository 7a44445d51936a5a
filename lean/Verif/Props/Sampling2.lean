import Verif.Props.Sampling
import Verif.Props.RSHistory

/-!
# The sampling planner (C49)
-/

namespace PathPlanning.Sampling
open Spec

variable {clamp : ℝ → ℝ} {m : GridMap ℝ} {S : Type}

/-- The state of the planner after the attempts `out`. -/
structure Inv (out : List (ℝ × RS.Curve)) (s : PSt S) : Prop where
  count : s.count = out.length
  none : s.best = none → s.minCost = 999999 ∧
    ∀ (j : Nat) (cost : ℝ) (c : RS.Curve), out[j]? = some (cost, c) → c.isValid = true → 999999 ≤ cost
  some : ∀ i c, s.best = some (i, c) → i < out.length ∧ IsBest out i c ∧ ∃ x, out[i]? = some (s.minCost, x)
  heap : CleanHeap s.heap out.length (s.best.map Prod.fst)

theorem Inv.min_le {out : List (ℝ × RS.Curve)} {s : PSt S} (h : Inv out s) (j : Nat) (cost : ℝ) (c : RS.Curve)
    (hj : out[j]? = .some (cost, c)) (hv : c.isValid = true) : s.minCost ≤ cost := by
  cases hb : s.best with
  | none => rw [(h.none hb).1]; exact (h.none hb).2 j cost c hj hv
  | some b =>
    obtain ⟨i, k⟩ := b
    obtain ⟨_, ⟨c0, e1, _, _, e2, _⟩, x, hx⟩ := h.some i k hb
    rw [e1] at hx
    have : c0 = s.minCost := by cases hx; rfl
    rw [← this]
    exact e2 j cost c hj hv

theorem Inv.min_lt {out : List (ℝ × RS.Curve)} {s : PSt S} (h : Inv out s) : s.minCost ≤ 999999 := by
  cases hb : s.best with
  | none => rw [(h.none hb).1]
  | some b =>
    obtain ⟨i, k⟩ := b
    obtain ⟨_, ⟨c0, e1, _, e3, _, _⟩, x, hx⟩ := h.some i k hb
    rw [e1] at hx
    have : c0 = s.minCost := by cases hx; rfl
    rw [← this]; exact e3.le

theorem getElem?_snoc {α : Type} {l : List α} {a b : α} {j : Nat} (h : (l ++ [a])[j]? = some b) :
    (j < l.length ∧ l[j]? = some b) ∨ (j = l.length ∧ a = b) := by
  rcases lt_trichotomy j l.length with hj | hj | hj
  · left; rw [List.getElem?_append_left hj] at h; exact ⟨hj, h⟩
  · right; subst hj; simp at h; exact ⟨rfl, h⟩
  · rw [List.getElem?_eq_none (by simp; omega)] at h; cases h

/-- Adding a worse or invalid attempt. -/
theorem IsBest.keep {out : List (ℝ × RS.Curve)} {i : Nat} {k : RS.Curve} (h : IsBest out i k) (cost : ℝ) (c : RS.Curve)
    (hw : ∀ c0 x, out[i]? = .some (c0, x) → c.isValid = true → c0 ≤ cost) : IsBest (out ++ [(cost, c)]) i k := by
  obtain ⟨c0, e1, e2, e3, e4, e5⟩ := h
  have hi : i < out.length := (List.getElem?_eq_some_iff.1 e1).1
  refine ⟨c0, by rw [List.getElem?_append_left hi]; exact e1, e2, e3, ?_, ?_⟩
  · intro j cost' c' hj hv
    rcases getElem?_snoc hj with ⟨_, hj'⟩ | ⟨_, hj'⟩
    · exact e4 j cost' c' hj' hv
    · cases hj'; exact hw c0 k e1 hv
  · intro j cost' c' hji hj hv
    rcases getElem?_snoc hj with ⟨_, hj'⟩ | ⟨hj1, _⟩
    · exact e5 j cost' c' hji hj' hv
    · omega

theorem CleanHeap.del_lt {ev : List HeapEv} {n : Nat} {k : Option Nat} (h : CleanHeap ev n k) {i : Nat}
    (hi : HeapEv.del i ∈ ev) : i < n := by
  have := List.count_pos_iff.2 hi
  rw [h.dels i] at this
  by_contra hc
  rw [if_neg (by tauto)] at this
  omega

theorem CleanHeap.new_mem {ev : List HeapEv} {n : Nat} {k : Option Nat} (h : CleanHeap ev n k) {i : Nat} (hi : i < n) :
    HeapEv.new i ∈ ev := by
  rw [← List.count_pos_iff, h.news i, if_pos hi]; omega

/-- Allocate object `n` and release it at once. -/
theorem CleanHeap.drop {ev : List HeapEv} {n : Nat} {k : Option Nat} (h : CleanHeap ev n k) (hk : ∀ i, k = some i → i < n) :
    CleanHeap (ev ++ [.new n] ++ [.del n]) (n + 1) k := by
  refine ⟨?_, ?_, ?_⟩
  · intro i
    rw [List.count_append, List.count_append, h.news i]
    by_cases hi : i = n
    · subst hi; simp
    · have h1 : ¬ n = i := fun e => hi e.symm
      by_cases hl : i < n
      · simp [h1, hl, show i < n + 1 by omega]
      · simp [h1, hl, show ¬ i < n + 1 by omega]
  · intro i
    rw [List.count_append, List.count_append, h.dels i]
    by_cases hi : i = n
    · subst hi
      have : k ≠ some i := fun e => absurd (hk i e) (lt_irrefl i)
      simp [this]
    · have h1 : ¬ n = i := fun e => hi e.symm
      by_cases hl : i < n
      · simp [h1, hl, show i < n + 1 by omega]
      · simp [h1, hl, show ¬ i < n + 1 by omega]
  · intro i hi
    rcases List.mem_append.1 hi with hi | hi
    · rcases List.mem_append.1 hi with hi | hi
      · exact ((h.order i hi).trans (List.sublist_append_left _ _)).trans (List.sublist_append_left _ _)
      · simp at hi
    · simp only [List.mem_singleton, HeapEv.del.injEq] at hi
      subst hi
      rw [List.append_assoc]
      exact List.sublist_append_right _ _

/-- The events: allocate object `n`, release the one kept before. -/
def swapEv (ev : List HeapEv) (n : Nat) (k : Option Nat) : List HeapEv :=
  match k with | some i => ev ++ [.new n] ++ [.del i] | none => ev ++ [.new n]

/-- Allocate object `n`, keep it, release the one kept before. -/
theorem CleanHeap.swap {ev : List HeapEv} {n : Nat} {k : Option Nat} (h : CleanHeap ev n k) (hk : ∀ i, k = some i → i < n) :
    CleanHeap (swapEv ev n k) (n + 1) (some n) := by
  cases k with
  | none =>
    refine ⟨?_, ?_, ?_⟩
    · intro i
      simp only [swapEv]
      rw [List.count_append, h.news i]
      by_cases hi : i = n
      · subst hi; simp
      · have h1 : ¬ n = i := fun e => hi e.symm
        by_cases hl : i < n
        · simp [h1, hl, show i < n + 1 by omega]
        · simp [h1, hl, show ¬ i < n + 1 by omega]
    · intro i
      simp only [swapEv]
      rw [List.count_append, h.dels i]
      by_cases hi : i = n
      · subst hi; simp
      · have h1 : ¬ n = i := fun e => hi e.symm
        by_cases hl : i < n
        · simp [h1, hl, show i < n + 1 by omega]
        · simp [hl, show ¬ i < n + 1 by omega]
    · intro i hi
      simp only [swapEv] at hi ⊢
      rcases List.mem_append.1 hi with hi | hi
      · exact (h.order i hi).trans (List.sublist_append_left _ _)
      · simp at hi
  | some a =>
    have ha := hk a rfl
    refine ⟨?_, ?_, ?_⟩
    · intro i
      simp only [swapEv]
      rw [List.count_append, List.count_append, h.news i]
      by_cases hi : i = n
      · subst hi; simp
      · have h1 : ¬ n = i := fun e => hi e.symm
        by_cases hl : i < n
        · simp [h1, hl, show i < n + 1 by omega]
        · simp [h1, hl, show ¬ i < n + 1 by omega]
    · intro i
      simp only [swapEv]
      rw [List.count_append, List.count_append, h.dels i]
      by_cases hi : i = n
      · subst hi
        have : ¬ a = i := by omega
        simp [this]
      · have h1 : ¬ n = i := fun e => hi e.symm
        by_cases hl : i < n
        · by_cases hia : a = i
          · subst hia; simp [hl, h1, show a < n + 1 by omega]
          · simp [h1, hl, hia, show i < n + 1 by omega]
        · have : ¬ a = i := by omega
          simp [hl, show ¬ i < n + 1 by omega, this]
    · intro i hi
      simp only [swapEv] at hi ⊢
      rcases List.mem_append.1 hi with hi | hi
      · rcases List.mem_append.1 hi with hi | hi
        · exact ((h.order i hi).trans (List.sublist_append_left _ _)).trans (List.sublist_append_left _ _)
        · simp at hi
      · simp only [List.mem_singleton, HeapEv.del.injEq] at hi
        subst hi
        have h1 : List.Sublist [HeapEv.new i] (ev ++ [.new n]) :=
          List.singleton_sublist.2 (List.mem_append_left _ (CleanHeap.new_mem h ha))
        exact h1.append (List.Sublist.refl [HeapEv.del i])

theorem Inv.keep_lt {out : List (ℝ × RS.Curve)} {s : PSt S} (h : Inv out s) (i : Nat)
    (hi : s.best.map Prod.fst = .some i) : i < out.length := by
  cases hb : s.best with
  | none => rw [hb] at hi; cases hi
  | some b =>
    rw [hb] at hi
    simp only [Option.map_some, Option.some.injEq] at hi
    subst hi
    exact (h.some b.1 b.2 hb).1

/-- An attempt that is not taken. -/
theorem Inv.reject {out : List (ℝ × RS.Curve)} {s : PSt S} (h : Inv out s) (cost : ℝ) (c : RS.Curve)
    (hw : c.isValid = true → s.minCost ≤ cost) :
    Inv (out ++ [(cost, c)]) { s with heap := s.heap ++ [.new s.count] ++ [.del s.count], count := s.count + 1 } := by
  refine ⟨by simp [h.count], ?_, ?_, ?_⟩
  · intro hb
    refine ⟨(h.none hb).1, ?_⟩
    intro j cost' c' hj hv
    rcases getElem?_snoc hj with ⟨_, hj'⟩ | ⟨_, hj'⟩
    · exact (h.none hb).2 j cost' c' hj' hv
    · cases hj'; rw [← (h.none hb).1]; exact hw hv
  · intro i k hb
    obtain ⟨h1, h2, x, h3⟩ := h.some i k hb
    refine ⟨by simp; omega, IsBest.keep h2 cost c ?_, x, ?_⟩
    · intro c0 y hy hv
      rw [h3] at hy; cases hy; exact hw hv
    · rw [List.getElem?_append_left h1]; exact h3
  · have := CleanHeap.drop h.heap h.keep_lt
    simp only [h.count, List.length_append, List.length_singleton]
    exact this

/-- An attempt that is taken. -/
theorem Inv.accept {out : List (ℝ × RS.Curve)} {s : PSt S} (h : Inv out s) (cost : ℝ) (c : RS.Curve)
    (hv : c.isValid = true) (hw : cost < s.minCost) (heap : List HeapEv)
    (hh : heap = match s.best with
      | .some b => s.heap ++ [.new s.count] ++ [.del b.1]
      | .none => s.heap ++ [.new s.count]) :
    Inv (out ++ [(cost, c)]) { s with heap := heap, count := s.count + 1, best := .some (s.count, c), minCost := cost } := by
  refine ⟨by simp [h.count], ?_, ?_, ?_⟩
  · intro hb; cases hb
  · intro i k hb
    simp only [Option.some.injEq, Prod.mk.injEq] at hb
    obtain ⟨rfl, rfl⟩ := hb
    have hlast : (out ++ [(cost, c)])[s.count]? = .some (cost, c) := by rw [h.count]; simp
    refine ⟨by simp [h.count], ⟨cost, hlast, hv, lt_of_lt_of_le hw h.min_lt, ?_, ?_⟩, c, hlast⟩
    · intro j cost' c' hj hv'
      rcases getElem?_snoc hj with ⟨_, hj'⟩ | ⟨_, hj'⟩
      · exact hw.le.trans (h.min_le j cost' c' hj' hv')
      · cases hj'; exact le_refl _
    · intro j cost' c' hji hj hv'
      rcases getElem?_snoc hj with ⟨_, hj'⟩ | ⟨hj', _⟩
      · exact lt_of_lt_of_le hw (h.min_le j cost' c' hj' hv')
      · rw [h.count] at hji; omega
  · have := CleanHeap.swap h.heap h.keep_lt
    simp only [List.length_append, List.length_singleton, Option.map_some, h.count]
    rw [hh, h.count]
    cases hb : s.best with
    | none => rw [hb] at this; exact this
    | some b => rw [hb] at this; exact this

theorem tryGoal_spec {start goal : Pose} {s s' : PSt S} {out : List (ℝ × RS.Curve)} (h : Inv out s)
    (hr : tryGoal clamp m start goal s = .ok s') :
    s'.reg = s.reg ∧ s'.gain = s.gain ∧
    ((m.isInMapD goal.x goal.y = false ∧ s'.gen = s.gen ∧ Inv out s') ∨
     (m.isInMapD goal.x goal.y = true ∧
       s.gen.findPath clamp start (pos2map m goal) (mapIf m) false = .ok (s'.gen, none) ∧ Inv out s') ∨
     ∃ c, m.isInMapD goal.x goal.y = true ∧
       s.gen.findPath clamp start (pos2map m goal) (mapIf m) false = .ok (s'.gen, .some c) ∧
       Inv (out ++ [(s.gain * c.weight, c)]) s') := by
  unfold tryGoal at hr
  simp only at hr
  by_cases hm : m.isInMapD goal.x goal.y = true
  · rw [if_neg (by simp [hm])] at hr
    rw [CRes.bind_eq_ok] at hr
    obtain ⟨⟨g1, r⟩, hf, hr⟩ := hr
    cases r with
    | none =>
      simp only [CRes.pure_eq, CRes.ok.injEq] at hr
      subst hr
      exact ⟨rfl, rfl, .inr (.inl ⟨hm, hf, ⟨h.count, h.none, h.some, h.heap⟩⟩)⟩
    | some c =>
      simp only at hr
      have hg : Inv out { s with gen := g1 } := ⟨h.count, h.none, h.some, h.heap⟩
      by_cases hv : c.isValid = true
      · rw [if_pos hv] at hr
        by_cases hc : s.gain * c.weight < s.minCost
        · rw [if_pos hc] at hr
          simp only [CRes.pure_eq, CRes.ok.injEq] at hr
          have := hg.accept (s.gain * c.weight) c hv hc _ rfl
          subst hr
          refine ⟨rfl, rfl, .inr (.inr ⟨c, hm, hf, ?_⟩)⟩
          exact this
        · rw [if_neg hc] at hr
          simp only [CRes.pure_eq, CRes.ok.injEq] at hr
          have := hg.reject (s.gain * c.weight) c (fun _ => not_lt.1 hc)
          subst hr
          exact ⟨rfl, rfl, .inr (.inr ⟨c, hm, hf, this⟩)⟩
      · rw [if_neg hv] at hr
        simp only [CRes.pure_eq, CRes.ok.injEq] at hr
        have := hg.reject (s.gain * c.weight) c (fun e => absurd e hv)
        subst hr
        exact ⟨rfl, rfl, .inr (.inr ⟨c, hm, hf, this⟩)⟩
  · rw [if_pos (by simpa using hm)] at hr
    simp only [CRes.ok.injEq] at hr
    subst hr
    exact ⟨rfl, rfl, .inl ⟨by simpa using hm, rfl, h⟩⟩

theorem planLoop_spec {R : Region S} {start : Pose} {gs : List (Pose × ℝ)} :
    ∀ {fuel : Nat} {s : PSt S} {r : Option (PSt S)} {out : List (ℝ × RS.Curve)}, Inv out s → Yields R s.reg s.gain gs →
    gs.length < fuel → planLoop R clamp m start fuel s = .ok r →
    ∃ s' out', r = .some s' ∧ Attempts clamp m start s.gen gs out' s'.gen ∧ Inv (out ++ out') s' := by
  induction gs with
  | nil =>
    intro fuel s r out h hy hf hr
    obtain ⟨n, rfl⟩ : ∃ n, fuel = n + 1 := ⟨fuel - 1, by omega⟩
    cases hy with
    | done e =>
      unfold planLoop at hr
      rw [e] at hr
      simp only [CRes.ok.injEq] at hr
      exact ⟨s, [], hr.symm, .nil, by simpa using h⟩
  | cons pg gs ih =>
    intro fuel s r out h hy hf hr
    obtain ⟨n, rfl⟩ : ∃ n, fuel = n + 1 := ⟨fuel - 1, by omega⟩
    cases hy with
    | @more _ _ p g' reg' _ e hy =>
      unfold planLoop at hr
      rw [e] at hr
      simp only [CRes.bind_eq_ok] at hr
      obtain ⟨s1, h1, hr⟩ := hr
      have h0 : Inv out { s with reg := reg', gain := g' } := ⟨h.count, h.none, h.some, h.heap⟩
      obtain ⟨e1, e2, hcase⟩ := tryGoal_spec h0 h1
      have hy' : Yields R s1.reg s1.gain gs := by rw [e1, e2]; exact hy
      simp only [List.length_cons] at hf
      rcases hcase with ⟨a1, a2, a3⟩ | ⟨a1, a2, a3⟩ | ⟨c, a1, a2, a3⟩
      · obtain ⟨s', out', i1, i2, i3⟩ := ih a3 hy' (by omega) hr
        refine ⟨s', out', i1, .off a1 ?_, i3⟩
        rw [a2] at i2; exact i2
      · obtain ⟨s', out', i1, i2, i3⟩ := ih a3 hy' (by omega) hr
        exact ⟨s', out', i1, .miss a1 a2 i2, i3⟩
      · obtain ⟨s', out', i1, i2, i3⟩ := ih a3 hy' (by omega) hr
        refine ⟨s', (g' * c.weight, c) :: out', i1, .hit a1 a2 i2, ?_⟩
        rw [List.append_assoc] at i3; exact i3

/-- **C49.**  `createPath` asks the generator for a curve to every goal of the region that is on the map.  It returns
none exactly if no curve obtained is valid with cost (gain times weight) below 999999, and otherwise the first one of
least cost.  Every other curve obtained is released exactly once, and the one returned is not. -/
theorem createPath_spec {R : Region S} {gen : RS.Gen} {start : Pose} {reg : S} {samples : Int} {gs : List (Pose × ℝ)}
    (hin : m.isInMapD start.x start.y = true) (hy : Yields R (R.init reg (wrapI samples)) 1 gs) {fuel : Nat}
    (hf : gs.length < fuel) {r : Option (PSt S)} (hr : createPath R clamp m gen start reg samples fuel = .ok r) :
    ∃ s' out, r = .some s' ∧ Attempts clamp m (pos2map m start) gen gs out s'.gen ∧
      (s'.best = none ↔ ∀ (j : Nat) (cost : ℝ) (c : RS.Curve), out[j]? = .some (cost, c) → c.isValid = true → 999999 ≤ cost) ∧
      (∀ i c, s'.best = .some (i, c) → IsBest out i c) ∧
      CleanHeap s'.heap out.length (s'.best.map Prod.fst) := by
  unfold createPath at hr
  simp only [hin, Bool.not_true, Bool.false_eq_true, if_false] at hr
  obtain ⟨s', out, h1, h2, h3⟩ := planLoop_spec (out := []) (gs := gs) (by
    refine ⟨rfl, fun _ => ⟨rfl, by intro j cost c hj; simp at hj⟩, (by intro i c hc; cases hc), ⟨?_, ?_, ?_⟩⟩
    · intro i; simp
    · intro i; simp
    · intro i hi; simp at hi) (by exact hy) hf hr
  rw [List.nil_append] at h3
  refine ⟨s', out, h1, h2, ⟨fun hb => (h3.none hb).2, ?_⟩, fun i c hc => (h3.some i c hc).2.1, h3.heap⟩
  intro hall
  cases hb : s'.best with
  | none => rfl
  | some b =>
    obtain ⟨i, c⟩ := b
    obtain ⟨_, ⟨cost, e1, e2, e3, _⟩, _⟩ := h3.some i c hb
    exact absurd (hall i cost c e1 e2) (not_le.2 e3)

/-- **C49.**  A start outside the map (as judged by `isInMap`) yields no path, and nothing is allocated. -/
theorem createPath_off_map {R : Region S} {gen : RS.Gen} {start : Pose} {reg : S} {samples : Int}
    (hin : m.isInMapD start.x start.y = false) (fuel : Nat) :
    ∃ s', createPath R clamp m gen start reg samples fuel = .ok (.some s') ∧ s'.best = none ∧ s'.heap = [] ∧ s'.reg = reg := by
  refine ⟨_, by unfold createPath; simp only [hin]; rfl, rfl, rfl, rfl⟩

/-! ### A generator without history -/

/-- The curve the generator offers for a goal: cost and curve. -/
noncomputable def offer (clamp : ℝ → ℝ) (m : GridMap ℝ) (gen : RS.Gen) (start : Pose) (pg : Pose × ℝ) :
    Option (ℝ × RS.Curve) :=
  if m.isInMapD pg.1.x pg.1.y then
    match gen.findPath clamp start (pos2map m pg.1) (mapIf m) false with
    | .ok (_, some c) => some (pg.2 * c.weight, c)
    | _ => none
  else none

/-- **C49.**  For a generator whose curves come from `parse` (and any later use of it) the attempts are the offers for the
individual goals: the searches do not influence one another. -/
theorem attempts_eq_offers {start : Pose} {gen g' : RS.Gen} {gs : List (Pose × ℝ)} {out : List (ℝ × RS.Curve)}
    (hg : gen.Fresh) (h : Attempts clamp m start gen gs out g') :
    out = gs.filterMap (offer clamp m gen start) ∧ g'.Fresh := by
  have hoff : ∀ (g1 g2 : RS.Gen), (∀ (s q : Pose) (mp : RS.MapIf) (ig : Bool),
      RS.found (g1.findPath clamp s q mp ig) = RS.found (g2.findPath clamp s q mp ig)) →
      offer clamp m g1 start = offer clamp m g2 start := by
    intro g1 g2 he
    funext pg
    unfold offer
    have := he start (pos2map m pg.1) (mapIf m) false
    split_ifs with hi
    · cases h1 : g1.findPath clamp start (pos2map m pg.1) (mapIf m) false with
      | ok r1 =>
        cases h2 : g2.findPath clamp start (pos2map m pg.1) (mapIf m) false with
        | ok r2 =>
          rw [h1, h2] at this
          simp only [RS.found, CRes.ok.injEq] at this
          obtain ⟨a1, b1⟩ := r1
          obtain ⟨a2, b2⟩ := r2
          simp only at this
          subst this
          cases b1 <;> rfl
        | throw e => rw [h1, h2] at this; simp [RS.found] at this
        | ub => rw [h1, h2] at this; simp [RS.found] at this
      | throw e =>
        cases h2 : g2.findPath clamp start (pos2map m pg.1) (mapIf m) false with
        | ok r2 => rw [h1, h2] at this; simp [RS.found] at this
        | throw e => rfl
        | ub => rfl
      | ub =>
        cases h2 : g2.findPath clamp start (pos2map m pg.1) (mapIf m) false with
        | ok r2 => rw [h1, h2] at this; simp [RS.found] at this
        | throw e => rfl
        | ub => rfl
    · rfl
  induction h with
  | nil => exact ⟨rfl, hg⟩
  | @off g p k l out g' hm _ ih =>
    obtain ⟨i1, i2⟩ := ih hg
    refine ⟨?_, i2⟩
    rw [List.filterMap_cons]
    have : offer clamp m g start (p, k) = none := by unfold offer; simp [hm]
    rw [this]; exact i1
  | @miss g p k l out g' g1 hm hf _ ih =>
    obtain ⟨f1, f2⟩ := RS.findPath_history g g1 clamp _ _ _ _ _ hg hf
    obtain ⟨i1, i2⟩ := ih f1
    refine ⟨?_, i2⟩
    rw [List.filterMap_cons]
    have : offer clamp m g start (p, k) = none := by unfold offer; simp [hm, hf]
    rw [this, i1, hoff g1 g f2]
  | @hit g p k l out g' g1 c hm hf _ ih =>
    obtain ⟨f1, f2⟩ := RS.findPath_history g g1 clamp _ _ _ _ _ hg hf
    obtain ⟨i1, i2⟩ := ih f1
    refine ⟨?_, i2⟩
    rw [List.filterMap_cons]
    have : offer clamp m g start (p, k) = some (k * c.weight, c) := by unfold offer; simp [hm, hf]
    rw [this, i1, hoff g1 g f2]

/-- **C49 (summary).**  With a generator whose curves come from `parse`: a path is returned exactly if some sampled goal on
the map has a valid curve of cost below 999999; the path returned is a curve `find_path` returns for one of the sampled
goals, it is valid, and no valid curve offered for any sampled goal costs less. -/
theorem createPath_best {R : Region S} {gen : RS.Gen} (hg : gen.Fresh) {start : Pose} {reg : S} {samples : Int}
    {gs : List (Pose × ℝ)} (hin : m.isInMapD start.x start.y = true)
    (hy : Yields R (R.init reg (wrapI samples)) 1 gs) {fuel : Nat} (hf : gs.length < fuel) {s' : PSt S}
    (hr : createPath R clamp m gen start reg samples fuel = .ok (.some s')) :
    (s'.best = none ↔ ∀ pg ∈ gs, ∀ cost c, offer clamp m gen (pos2map m start) pg = .some (cost, c) → c.isValid = true →
      999999 ≤ cost) ∧
    (∀ i c, s'.best = .some (i, c) → c.isValid = true ∧ ∃ pg ∈ gs, ∃ cost,
      offer clamp m gen (pos2map m start) pg = .some (cost, c) ∧
      ∀ pg' ∈ gs, ∀ cost' c', offer clamp m gen (pos2map m start) pg' = .some (cost', c') → c'.isValid = true →
        cost ≤ cost') := by
  obtain ⟨s1, out, h1, h2, h3, h4, _⟩ := createPath_spec hin hy hf hr
  cases h1
  obtain ⟨ho, _⟩ := attempts_eq_offers hg h2
  have hmem : ∀ x : ℝ × RS.Curve, x ∈ out ↔ ∃ pg ∈ gs, offer clamp m gen (pos2map m start) pg = .some x := by
    intro x; rw [ho, List.mem_filterMap]
  refine ⟨?_, ?_⟩
  · rw [h3]
    constructor
    · intro hall pg hpg cost c he hv
      obtain ⟨j, hj⟩ := List.mem_iff_getElem?.1 ((hmem (cost, c)).2 ⟨pg, hpg, he⟩)
      exact hall j cost c hj hv
    · intro hall j cost c hj hv
      obtain ⟨pg, hpg, he⟩ := (hmem (cost, c)).1 (List.mem_iff_getElem?.2 ⟨j, hj⟩)
      exact hall pg hpg cost c he hv
  · intro i c hb
    obtain ⟨cost, e1, e2, _, e4, _⟩ := h4 i c hb
    obtain ⟨pg, hpg, he⟩ := (hmem (cost, c)).1 (List.mem_iff_getElem?.2 ⟨i, e1⟩)
    refine ⟨e2, pg, hpg, cost, he, ?_⟩
    intro pg' hpg' cost' c' he' hv'
    obtain ⟨j, hj⟩ := List.mem_iff_getElem?.1 ((hmem (cost', c')).2 ⟨pg', hpg', he'⟩)
    exact e4 j cost' c' hj hv'

end PathPlanning.Sampling
