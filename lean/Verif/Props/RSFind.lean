import Verif.Props.RSCurve
import Verif.Props.RSParse

/-!
# C38 and the end-to-end statements about `find_path`
-/

noncomputable section

namespace PathPlanning.RS
open Spec

/-! ### When the code is defined -/

/-- A pattern `find_path` can work with: not three or four elements, or beginning and ending with a
turn. -/
def Usable (es : List Elem) : Prop :=
  (es.length = 3 ∨ es.length = 4) → (∃ o d rest, es = .turn o d :: rest) ∧
    (∃ pre o d, es = pre ++ [.turn o d])

/-- A check fails an assertion only for a pattern of three or four elements that begins or ends with
a straight element (and distant poses). -/
theorem check_defined (E : RSEnv) (c : Curve) (h : Usable (elemsOf c.seq)) :
    ∃ c', c.check E = .ok c' := by
  by_cases h3 : c.seq.length < 3 ∨ c.seq.length > 4
  · exact ⟨{ c with weight := NOT_FREE }, by unfold Curve.check; rw [if_pos h3]⟩
  by_cases hd : c.start.distTo c.goal < 2
  · exact ⟨{ c with weight := NOT_FREE }, by unfold Curve.check; rw [if_neg h3, if_pos hd]⟩
  have hl : (elemsOf c.seq).length = 3 ∨ (elemsOf c.seq).length = 4 := by
    simp only [elemsOf, List.length_map]; omega
  obtain ⟨⟨o, d, rest, h1⟩, ⟨pre, o', d', h2⟩⟩ := h hl
  rcases check_shape E c h3 hd with ⟨a, l, b, hs, hc⟩ | ⟨a, m, b, hs, hc⟩ | ⟨a, m, n, b, hs, hc⟩ |
    ⟨a, s, t, b, hs, _, hc⟩ | ⟨hb, hc⟩
  · exact ⟨_, hc⟩
  · exact ⟨_, hc⟩
  · exact ⟨_, hc⟩
  · exact ⟨_, hc⟩
  · exfalso
    rcases hb with ⟨l, r, hs⟩ | ⟨p, l, hs⟩
    · rw [hs] at h1; simp [elemsOf, elemOf] at h1
    · rw [hs] at h2
      have := congrArg List.getLast? h2
      simp [elemsOf, elemOf] at this

/-- Finding: such a pattern is accepted by the parser, and makes `find_path` fail an assertion. -/
theorem check_ub (E : RSEnv) (c : Curve) (hl : c.seq.length = 3 ∨ c.seq.length = 4)
    (hd : 2 ≤ c.start.distTo c.goal)
    (hb : (∃ d rest, elemsOf c.seq = .straight d :: rest) ∨
      (∃ pre d, elemsOf c.seq = pre ++ [.straight d])) : c.check E = .ub := by
  rcases check_shape E c (by omega) (by linarith) with ⟨a, l, b, hs, hc⟩ | ⟨a, m, b, hs, hc⟩ |
    ⟨a, m, n, b, hs, hc⟩ | ⟨a, s, t, b, hs, _, hc⟩ | ⟨_, hc⟩
  all_goals first
    | exact hc
    | (exfalso
       rw [hs] at hb
       rcases hb with ⟨d, r, hb⟩ | ⟨pre, d, hb⟩
       · simp [elemsOf, elemOf] at hb
       · have := congrArg List.getLast? hb
         simp [elemsOf, elemOf] at this)

/-- Poses less than two cells apart, or a pattern that does not have three or four elements: no
curve. -/
theorem check_rejects (E : RSEnv) (c : Curve)
    (h : c.start.distTo c.goal < 2 ∨ ¬ (c.seq.length = 3 ∨ c.seq.length = 4)) :
    c.check E = .ok { c with weight := NOT_FREE } := by
  unfold Curve.check
  by_cases h3 : c.seq.length < 3 ∨ c.seq.length > 4
  · rw [if_pos h3]
  · rw [if_neg h3]
    rcases h with h | h
    · rw [if_pos h]
    · omega

/-! ### The choice -/

/-- A curve is eligible: collision-free and not turning too much. -/
def Eligible (m : ℝ) (c : Curve) : Prop := c.weight < NOT_FREE ∧ c.curveArc < m

/-- `k` is the result of testing `c` between `start` and `goal`. -/
def Tested (E : RSEnv) (start goal : Pose) (c k : Curve) : Prop :=
  Curve.check E { c with start := start, goal := goal } = .ok k

theorem findLoop_spec (E : RSEnv) (m : ℝ) (start goal : Pose) (cs : List Curve) :
    ∀ (acc : List Curve) (best : Option Curve) (bw : ℝ) (cs' : List Curve) (r : Option Curve),
    findLoop E (some m) start goal cs acc best bw = .ok (cs', r) →
    ∃ ks, cs' = acc ++ ks ∧ List.Forall₂ (Tested E start goal) cs ks ∧
      ((r = best ∧ ∀ k ∈ ks, k.curveArc < m → bw ≤ k.weight) ∨
       (∃ pre k post, ks = pre ++ k :: post ∧ r = some k ∧ k.weight < bw ∧ k.curveArc < m ∧
         (∀ j ∈ pre, j.curveArc < m → k.weight < j.weight) ∧
         (∀ j ∈ post, j.curveArc < m → k.weight ≤ j.weight))) := by
  induction cs with
  | nil =>
    intro acc best bw cs' r h
    simp only [findLoop, CRes.ok.injEq, Prod.mk.injEq] at h
    exact ⟨[], by simp [h.1], .nil, Or.inl ⟨h.2.symm, by simp⟩⟩
  | cons c cs ih =>
    intro acc best bw cs' r h
    simp only [findLoop, CRes.bind_eq_ok] at h
    obtain ⟨k, hk, h⟩ := h
    by_cases hw : k.weight < bw
    · rw [if_pos hw] at h
      by_cases hm : k.curveArc < m
      · rw [if_pos hm] at h
        obtain ⟨ks, e, hf, hr⟩ := ih _ _ _ _ _ h
        refine ⟨k :: ks, by rw [e]; simp, .cons hk hf, Or.inr ?_⟩
        rcases hr with ⟨rfl, hall⟩ | ⟨pre, k', post, rfl, rfl, h1, h2, h3, h4⟩
        · exact ⟨[], k, ks, rfl, rfl, hw, hm, by simp, hall⟩
        · refine ⟨k :: pre, k', post, rfl, rfl, h1.trans hw, h2, ?_, h4⟩
          intro j hj hjm
          rcases List.mem_cons.1 hj with rfl | hj
          · exact h1
          · exact h3 j hj hjm
      · rw [if_neg hm] at h
        obtain ⟨ks, e, hf, hr⟩ := ih _ _ _ _ _ h
        refine ⟨k :: ks, by rw [e]; simp, .cons hk hf, ?_⟩
        rcases hr with ⟨rfl, hall⟩ | ⟨pre, k', post, rfl, rfl, h1, h2, h3, h4⟩
        · refine Or.inl ⟨rfl, ?_⟩
          intro j hj hjm
          rcases List.mem_cons.1 hj with rfl | hj
          · exact absurd hjm hm
          · exact hall j hj hjm
        · refine Or.inr ⟨k :: pre, k', post, rfl, rfl, h1, h2, ?_, h4⟩
          intro j hj hjm
          rcases List.mem_cons.1 hj with rfl | hj
          · exact absurd hjm hm
          · exact h3 j hj hjm
    · rw [if_neg hw] at h
      push Not at hw
      obtain ⟨ks, e, hf, hr⟩ := ih _ _ _ _ _ h
      refine ⟨k :: ks, by rw [e]; simp, .cons hk hf, ?_⟩
      rcases hr with ⟨rfl, hall⟩ | ⟨pre, k', post, rfl, rfl, h1, h2, h3, h4⟩
      · refine Or.inl ⟨rfl, ?_⟩
        intro j hj hjm
        rcases List.mem_cons.1 hj with rfl | hj
        · exact hw
        · exact hall j hj hjm
      · refine Or.inr ⟨k :: pre, k', post, rfl, rfl, h1, h2, ?_, h4⟩
        intro j hj hjm
        rcases List.mem_cons.1 hj with rfl | hj
        · exact h1.trans_le hw
        · exact h3 j hj hjm

theorem findLoop_defined (E : RSEnv) (m : ℝ) (start goal : Pose) (cs : List Curve)
    (h : ∀ c ∈ cs, Usable (elemsOf c.seq)) :
    ∀ (acc : List Curve) (best : Option Curve) (bw : ℝ),
    ∃ r, findLoop E (some m) start goal cs acc best bw = .ok r := by
  induction cs with
  | nil => intro acc best bw; exact ⟨_, rfl⟩
  | cons c cs ih =>
    intro acc best bw
    obtain ⟨k, hk⟩ := check_defined E { c with start := start, goal := goal } (h c (by simp))
    have ih := ih (fun d hd => h d (by simp [hd]))
    simp only [findLoop, hk, CRes.ok_bind]
    split_ifs <;> exact ih _ _ _

/-- **C38.** `find_path` on a generator with a maximum arc `m`: it tests every curve; it returns one
that is eligible and of minimum weight among the eligible ones — the first such in the order of the
patterns — and none exactly if no curve is eligible. -/
theorem findPath_best (g g' : Gen) (clamp : ℝ → ℝ) (start goal : Pose) (map : MapIf) (ig : Bool)
    (m : ℝ) (hm : g.maxArc = some m) (r : Option Curve)
    (h : g.findPath clamp start goal map ig = .ok (g', r)) :
    List.Forall₂ (Tested (g.env clamp map ig) start goal) g.curves g'.curves ∧
    (r = none ↔ ∀ k ∈ g'.curves, ¬ Eligible m k) ∧
    ∀ k, r = some k → ∃ pre post, g'.curves = pre ++ k :: post ∧ Eligible m k ∧
      (∀ j ∈ pre, Eligible m j → k.weight < j.weight) ∧
      (∀ j ∈ post, Eligible m j → k.weight ≤ j.weight) := by
  unfold Gen.findPath at h
  cases hc : g.curves with
  | nil => rw [hc] at h; cases h
  | cons c0 cs0 =>
    rw [hc] at h
    simp only [CRes.bind_eq_ok, hm] at h
    obtain ⟨⟨cs', r'⟩, h1, h2⟩ := h
    simp only [CRes.pure_eq, CRes.ok.injEq, Prod.mk.injEq] at h2
    obtain ⟨rfl, rfl⟩ := h2
    obtain ⟨ks, e, hf, hr⟩ := findLoop_spec _ m start goal _ _ _ _ _ _ h1
    simp only [List.nil_append] at e
    subst e
    refine ⟨hf, ?_, ?_⟩
    · rcases hr with ⟨rfl, hall⟩ | ⟨pre, k, post, rfl, rfl, a1, a2, a3, a4⟩
      · exact ⟨fun _ k hk he => absurd he.1 (not_lt.2 (hall k hk he.2)), fun _ => rfl⟩
      · exact ⟨fun hn => (by cases hn), fun hn => absurd ⟨a1, a2⟩ (hn k (by simp))⟩
    · intro k hk
      rcases hr with ⟨rfl, hall⟩ | ⟨pre, k', post, rfl, rfl, a1, a2, a3, a4⟩
      · cases hk
      · injection hk with hk; subst hk
        exact ⟨pre, post, rfl, ⟨a1, a2⟩, fun j hj he => a3 j hj he.2, fun j hj he => a4 j hj he.2⟩

/-- **C38.** `find_path` is defined whenever at least one pattern was parsed, a maximum arc was set and
every pattern of three or four elements begins and ends with a turn. -/
theorem findPath_defined (g : Gen) (clamp : ℝ → ℝ) (start goal : Pose) (map : MapIf) (ig : Bool)
    (m : ℝ) (hm : g.maxArc = some m) (hne : g.curves ≠ [])
    (hu : ∀ c ∈ g.curves, Usable (elemsOf c.seq)) :
    ∃ r, g.findPath clamp start goal map ig = .ok r := by
  unfold Gen.findPath
  cases hc : g.curves with
  | nil => exact absurd hc hne
  | cons c cs =>
    obtain ⟨r, hr⟩ := findLoop_defined (g.env clamp map ig) m start goal (c :: cs)
      (by rw [← hc]; exact hu) [] none NOT_FREE
    exact ⟨_, by simp only [hm, hr, CRes.ok_bind]; rfl⟩

theorem findLoop_uninit (E : RSEnv) (start goal : Pose) (cs : List Curve) :
    ∀ (acc : List Curve) (best : Option Curve) (bw : ℝ) (r : List Curve × Option Curve),
    findLoop E none start goal cs acc best bw = .ok r → r.2 = best := by
  induction cs with
  | nil => intro acc best bw r h; simp only [findLoop, CRes.ok.injEq] at h; rw [← h]
  | cons c cs ih =>
    intro acc best bw r h
    simp only [findLoop, CRes.bind_eq_ok] at h
    obtain ⟨k, hk, h⟩ := h
    split_ifs at h with hw
    exact ih _ _ _ _ h

/-- **C38, finding.** `set_max_curve_arc` is mandatory: without it `find_path` never finds anything in a
defined way — as soon as a curve is collision-free it reads an uninitialised member. -/
theorem findPath_needs_maxArc (g g' : Gen) (clamp : ℝ → ℝ) (start goal : Pose) (map : MapIf)
    (ig : Bool) (hm : g.maxArc = none) (r : Option Curve)
    (h : g.findPath clamp start goal map ig = .ok (g', r)) : r = none := by
  unfold Gen.findPath at h
  cases hc : g.curves with
  | nil => rw [hc] at h; cases h
  | cons c cs =>
    rw [hc] at h
    simp only [CRes.bind_eq_ok, hm] at h
    obtain ⟨⟨cs', r'⟩, h1, h2⟩ := h
    simp only [CRes.pure_eq, CRes.ok.injEq, Prod.mk.injEq] at h2
    obtain ⟨_, rfl⟩ := h2
    exact findLoop_uninit _ _ _ _ _ _ _ _ h1

/-- The constructor leaves the maximum arc unset. -/
example : ({} : Gen).maxArc = none := rfl

/-! ### The result is a motion from start to goal -/

theorem forall₂_mem {α β : Type} {R : α → β → Prop} {l : List α} {l' : List β}
    (h : List.Forall₂ R l l') {b : β} (hb : b ∈ l') : ∃ a ∈ l, R a b := by
  induction h with
  | nil => cases hb
  | @cons x y xs ys hxy _ ih =>
    rcases List.mem_cons.1 hb with rfl | hb
    · exact ⟨x, by simp, hxy⟩
    · obtain ⟨a, ha, hr⟩ := ih hb
      exact ⟨a, by simp [ha], hr⟩

theorem check_start (E : RSEnv) (c c' : Curve) (h : c.check E = .ok c') :
    c'.start = c.start ∧ c'.goal = c.goal := by
  unfold Curve.check at h
  simp only at h
  split_ifs at h
  · injection h with h; subst h; exact ⟨rfl, rfl⟩
  · injection h with h; subst h; exact ⟨rfl, rfl⟩
  · simp only [CRes.bind_eq_ok] at h
    obtain ⟨s, _, r, _, h⟩ := h
    simp only [CRes.pure_eq, CRes.ok.injEq] at h
    subst h; exact ⟨rfl, rfl⟩

/-- **C60.** The curve returned by `find_path` — from any state of a generator whose patterns change
sides between consecutive turns — consists of the elements of one of the patterns, and driving those
elements, with radius `m_circle_radius / resolution` and the lengths and angles stored in the curve,
leads exactly from `start` to `goal`. -/
theorem findPath_motion (g g' : Gen) (clamp : ℝ → ℝ) (hC : ClampSpec clamp) (start goal : Pose)
    (map : MapIf) (ig : Bool) (hr : 0 < g.radius / map.res)
    (halt : ∀ c ∈ g.curves, Alternating (elemsOf c.seq)) (k : Curve)
    (h : g.findPath clamp start goal map ig = .ok (g', some k)) :
    k.start = start ∧ k.goal = goal ∧ (∃ c ∈ g.curves, elemsOf k.seq = elemsOf c.seq) ∧
    (∀ e ∈ motion k, 0 ≤ e.2) ∧
    SameConfig (driveAll (g.radius / map.res) start (motion k)) goal := by
  cases hm : g.maxArc with
  | none => exact absurd (findPath_needs_maxArc g g' clamp start goal map ig hm _ h) (by simp)
  | some m =>
    obtain ⟨hf, _, hb⟩ := findPath_best g g' clamp start goal map ig m hm _ h
    obtain ⟨pre, post, e, he, _⟩ := hb k rfl
    obtain ⟨c, hc, ht⟩ := forall₂_mem hf (b := k) (by rw [e]; simp)
    obtain ⟨h1, h2⟩ := check_start _ _ _ ht
    obtain ⟨t1, t2⟩ := check_track (E := g.env clamp map ig) hC hr _ k ht he.1 (halt c hc)
    refine ⟨h1, h2, ⟨c, hc, t2⟩, ?_, t1.reaches⟩
    intro x hx
    simp only [motion, List.mem_map] at hx
    obtain ⟨s, _, rfl⟩ := hx
    cases s
    · exact Real.sqrt_nonneg _
    · exact abs_nonneg _

end PathPlanning.RS
