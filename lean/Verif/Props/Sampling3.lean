import Verif.Props.Sampling2
import Verif.Props.RSMotionClear

/-!
# The sampling planner: definedness and the path returned (C49)
-/

namespace PathPlanning.Sampling
open Spec

variable {clamp : ℝ → ℝ} {m : GridMap ℝ} {S : Type}

theorem found_ok {r : CRes (RS.Gen × Option RS.Curve)} {o : Option RS.Curve} (h : RS.found r = .ok o) :
    ∃ g, r = .ok (g, o) := by
  cases r with
  | ok x =>
    simp only [RS.found, CRes.ok.injEq] at h
    exact ⟨x.1, by rw [← h]⟩
  | throw e => simp [RS.found] at h
  | ub => simp [RS.found] at h

/-- All queries of a generator are defined. -/
def Answers (clamp : ℝ → ℝ) (g : RS.Gen) : Prop :=
  ∀ (s q : Pose) (mp : RS.MapIf) (ig : Bool), ∃ o, RS.found (g.findPath clamp s q mp ig) = .ok o

theorem tryGoal_defined {start goal : Pose} {s : PSt S} (hg : s.gen.Fresh) (ha : Answers clamp s.gen) :
    ∃ s', tryGoal clamp m start goal s = .ok s' ∧ s'.gen.Fresh ∧ Answers clamp s'.gen ∧ s'.reg = s.reg ∧
      s'.gain = s.gain := by
  unfold tryGoal
  simp only
  by_cases hm : m.isInMapD goal.x goal.y = true
  · rw [if_neg (by simp [hm])]
    obtain ⟨o, ho⟩ := ha start (pos2map m goal) (mapIf m) false
    obtain ⟨g1, h1⟩ := found_ok ho
    obtain ⟨f1, f2⟩ := RS.findPath_history s.gen g1 clamp _ _ _ _ _ hg h1
    have ha1 : Answers clamp g1 := by
      intro a b c d
      rw [f2 a b c d]; exact ha a b c d
    rw [h1]
    simp only [CRes.ok_bind]
    cases o with
    | none => exact ⟨_, rfl, f1, ha1, rfl, rfl⟩
    | some c =>
      simp only
      split_ifs
      · exact ⟨_, rfl, f1, ha1, rfl, rfl⟩
      · exact ⟨_, rfl, f1, ha1, rfl, rfl⟩
      · exact ⟨_, rfl, f1, ha1, rfl, rfl⟩
  · rw [if_pos (by simpa using hm)]
    exact ⟨s, rfl, hg, ha, rfl, rfl⟩

theorem planLoop_defined {R : Region S} {start : Pose} {gs : List (Pose × ℝ)} :
    ∀ {fuel : Nat} {s : PSt S}, s.gen.Fresh → Answers clamp s.gen → Yields R s.reg s.gain gs → gs.length < fuel →
    ∃ s', planLoop R clamp m start fuel s = .ok (some s') := by
  induction gs with
  | nil =>
    intro fuel s hg ha hy hf
    obtain ⟨n, rfl⟩ : ∃ n, fuel = n + 1 := ⟨fuel - 1, by omega⟩
    cases hy with
    | done e => exact ⟨s, by unfold planLoop; rw [e]⟩
  | cons pg gs ih =>
    intro fuel s hg ha hy hf
    obtain ⟨n, rfl⟩ : ∃ n, fuel = n + 1 := ⟨fuel - 1, by omega⟩
    cases hy with
    | @more _ _ p g' reg' _ e hy =>
      obtain ⟨s1, h1, h2, h3, h4, h5⟩ := tryGoal_defined (m := m) (start := start) (goal := p)
        (s := { s with reg := reg', gain := g' }) hg ha
      simp only [List.length_cons] at hf
      obtain ⟨s', hs'⟩ := ih h2 h3 (by rw [h4, h5]; exact hy) (show gs.length < n by omega)
      exact ⟨s', by unfold planLoop; rw [e]; simp only [h1, CRes.ok_bind]; exact hs'⟩

/-- **C49.**  With a generator whose patterns come from `parse`, each beginning and ending with a turn, and whose maximal
arc is set, `createPath` returns for every start, map and region that yields finitely many goals. -/
theorem createPath_defined {R : Region S} {gen : RS.Gen} (hg : gen.Fresh) {a : ℝ} (hm : gen.maxArc = some a)
    (hne : gen.curves ≠ []) (hu : ∀ c ∈ gen.curves, RS.Usable (RS.elemsOf c.seq)) (start : Pose) (reg : S)
    (samples : Int) {gs : List (Pose × ℝ)} (hy : Yields R (R.init reg (wrapI samples)) 1 gs) {fuel : Nat}
    (hf : gs.length < fuel) : ∃ s', createPath R clamp m gen start reg samples fuel = .ok (some s') := by
  have ha : Answers clamp gen := by
    intro s q mp ig
    obtain ⟨r, hr⟩ := RS.findPath_defined gen clamp s q mp ig a hm hne hu
    exact ⟨r.2, by rw [hr]; rfl⟩
  unfold createPath
  simp only
  split_ifs with hin
  · exact ⟨_, rfl⟩
  · exact planLoop_defined (gs := gs) hg ha hy hf

/-- **C49 (the path returned).**  The curve returned by `createPath` drives a car of the configured turning radius from the
start pose (in map coordinates) exactly to one of the goals the region yielded, over free cells of the map only. -/
theorem createPath_drives {R : Region S} {gen : RS.Gen} (hg : gen.Fresh) {start : Pose} {reg : S} {samples : Int}
    {gs : List (Pose × ℝ)} (hin : m.isInMapD start.x start.y = true)
    (hy : Yields R (R.init reg (wrapI samples)) 1 gs) {fuel : Nat} (hf : gs.length < fuel)
    (hE : (gen.env clamp (mapIf m) false).Sane) (hr : 0 < gen.radius / m.res)
    (halt : ∀ c ∈ gen.curves, Alternating (RS.elemsOf c.seq)) {s' : PSt S}
    (hc : createPath R clamp m gen start reg samples fuel = .ok (some s')) {i : Nat} {k : RS.Curve}
    (hb : s'.best = some (i, k)) :
    ∃ pg ∈ gs, m.isInMapD pg.1.x pg.1.y = true ∧ k.start = pos2map m start ∧ k.goal = pos2map m pg.1 ∧
      SameConfig (driveAll (gen.radius / m.res) (pos2map m start) (motion k)) (pos2map m pg.1) ∧
      (∀ e ∈ motion k, 0 ≤ e.2) ∧ MotionClear (mapIf m) (gen.radius / m.res) (pos2map m start) (motion k) := by
  obtain ⟨_, pg, hpg, cost, ho, _⟩ := (createPath_best hg hin hy hf hc).2 i k hb
  unfold offer at ho
  by_cases him : m.isInMapD pg.1.x pg.1.y = true
  · rw [if_pos him] at ho
    cases hfp : gen.findPath clamp (pos2map m start) (pos2map m pg.1) (mapIf m) false with
    | ok r =>
      obtain ⟨g1, o⟩ := r
      cases o with
      | none => rw [hfp] at ho; cases ho
      | some c =>
        rw [hfp] at ho
        simp only [Option.some.injEq, Prod.mk.injEq] at ho
        obtain ⟨_, rfl⟩ := ho
        obtain ⟨a1, a2, _, a4, a5⟩ := RS.findPath_motion gen g1 clamp hE.clamp _ _ (mapIf m) false hr halt c hfp
        exact ⟨pg, hpg, him, a1, a2, a5, a4, RS.findPath_motionClear gen g1 clamp _ _ (mapIf m) hE halt c hfp⟩
    | throw e => rw [hfp] at ho; cases ho
    | ub => rw [hfp] at ho; cases ho
  · rw [if_neg him] at ho; cases ho

/-- **C49, concrete run.**  The generator for the pattern `LSL`, twenty samples on a ring of radius 3 and a map of one cell:
`createPath` returns. -/
theorem createPath_example (clamp : ℝ → ℝ) (rnd : Nat → ℝ) : ∃ (gen : RS.Gen) (gs : List (Pose × ℝ)) (s' : PSt Ring),
    gen.Fresh ∧ gs.length = 20 ∧ (GridMap.mk (K := ℝ) 1 1 1 0 0 [0] 50 254 (-1)).isInMapD 0 0 = true ∧
    Yields (ringRegion clamp rnd) ((ringRegion clamp rnd).init (Ring.new ⟨0, 0⟩ 3 1) (wrapI 20)) 1 gs ∧
    createPath (ringRegion clamp rnd) clamp (GridMap.mk (K := ℝ) 1 1 1 0 0 [0] 50 254 (-1)) gen ⟨0, 0, 0⟩
      (Ring.new ⟨0, 0⟩ 3 1) 20 21 = .ok (some s') := by
  obtain ⟨_, g, g', k, hp, _, _, _⟩ := RS.findPath_example
  have hg : g.Fresh := RS.parse_fresh _ g _ false (by intro c hc; cases hc) hp
  have hw : wrapI 20 = 20 := by decide
  have hy := ring_yields (clamp := clamp) rnd 1 20 ((Ring.new ⟨0, 0⟩ 3 1).init 20) (by simp [Ring.init])
  have hp' : RS.Gen.parse { maxArc := some 13 } "LSL".toList = .ok (false, { maxArc := some 13, curves := [{ seq := [.circ (RS.Circ.new .left .fwd), .line (RS.Lin.new .fwd), .circ (RS.Circ.new .left .fwd)] }] }) := rfl
  rw [hp'] at hp
  simp only [CRes.ok.injEq, Prod.mk.injEq, true_and] at hp
  obtain ⟨s', hs'⟩ := createPath_defined (R := ringRegion clamp rnd) (clamp := clamp)
    (m := GridMap.mk (K := ℝ) 1 1 1 0 0 [0] 50 254 (-1)) hg (a := 13) (by rw [← hp]) (by rw [← hp]; simp) (by
      rw [← hp]
      intro c hc
      simp only [List.mem_singleton] at hc
      subst hc
      intro _
      exact ⟨⟨_, _, _, rfl⟩, ⟨[_, _], _, _, rfl⟩⟩) ⟨0, 0, 0⟩ (Ring.new ⟨0, 0⟩ 3 1) 20
    (gs := _) (by rw [hw]; exact hy) (fuel := 21) (by simp)
  refine ⟨g, _, s', hg, ?_, ?_, (by rw [hw]; exact hy), hs'⟩
  · simp
  · norm_num [GridMap.isInMapD]

/-- **C49, finding.**  The test for the start pose looks at the upper bounds of the map only: no start left of or below the
map is rejected, however far away it is. -/
theorem start_below_accepted (hr : 0 < m.res) (hw : 0 < m.width) (hh : 0 < m.height) (start : Pose) (hx : start.x ≤ m.ox)
    (hy : start.y ≤ m.oy) : m.isInMapD start.x start.y = true := by
  have h1 : (start.x - m.ox) / m.res ≤ 0 := div_nonpos_of_nonpos_of_nonneg (by linarith) hr.le
  have h2 : (start.y - m.oy) / m.res ≤ 0 := div_nonpos_of_nonpos_of_nonneg (by linarith) hr.le
  have h3 : (0 : ℝ) < m.width := by exact_mod_cast hw
  have h4 : (0 : ℝ) < m.height := by exact_mod_cast hh
  unfold GridMap.isInMapD
  simp only [Bool.and_eq_true, decide_eq_true_eq]
  exact ⟨by linarith, by linarith⟩

/-- **C49, finding.**  The bound 999999 is a limit on the cost: a valid curve of that cost or more is not returned, even if
it is the only one. -/
theorem expensive_discarded {R : Region S} {gen : RS.Gen} (hg : gen.Fresh) {start : Pose} {reg : S} {samples : Int}
    {gs : List (Pose × ℝ)} (hin : m.isInMapD start.x start.y = true)
    (hy : Yields R (R.init reg (wrapI samples)) 1 gs) {fuel : Nat} (hf : gs.length < fuel) {s' : PSt S}
    (hr : createPath R clamp m gen start reg samples fuel = .ok (some s'))
    (hexp : ∀ pg ∈ gs, ∀ cost c, offer clamp m gen (pos2map m start) pg = some (cost, c) → 999999 ≤ cost) :
    s'.best = none :=
  (createPath_best hg hin hy hf hr).1.2 fun pg hpg cost c h _ => hexp pg hpg cost c h

end PathPlanning.Sampling
