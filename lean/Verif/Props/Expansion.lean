import Verif.Spec.Expansion
import Verif.Props.RSOpt4
import Verif.Props.RSMotionClear
import Verif.Props.Schedule

/-!
# C69: the analytic expansion
-/

noncomputable section

namespace PathPlanning.RSExp
open Spec RS

/-- The curve of a pattern turn, straight, turn. -/
def cscCurve (o o' : Ori) (d : Dir) : Curve :=
  { seq := [.circ (Circ.new o d), .line (Lin.new d), .circ (Circ.new o' d)] }

/-- The forward generator as constructed. -/
def gen0 : Gen :=
  { curves := [cscCurve .left .left .fwd, cscCurve .left .right .fwd, cscCurve .right .left .fwd,
      cscCurve .right .right .fwd], maxArc := some Real.pi }

/-- The backward generator as constructed. -/
def gen0B : Gen :=
  { curves := [cscCurve .left .left .bwd, cscCurve .left .right .bwd, cscCurve .right .left .bwd,
      cscCurve .right .right .bwd], maxArc := some Real.pi }

theorem genFor_fwd : genFor ["LSL", "LSR", "RSL", "RSR"] = .ok gen0 := rfl
theorem genFor_bwd : genFor ["|LSL", "|LSR", "|RSL", "|RSR"] = .ok gen0B := rfl

theorem new_eq (N : Int) (ef eb : Bool) (junk : ℝ) (junkF : Bool) :
    St.new N ef eb junk junkF =
      .ok ⟨if ef then gen0 else {}, if eb then gen0B else {}, [], expInit N junk, junkF⟩ := by
  unfold St.new
  rw [genFor_fwd, genFor_bwd]
  cases ef <;> cases eb <;> rfl

/-! ### The generator in any reachable state -/

/-- The generator behaves as the one built by the constructor. -/
structure GenOk (clamp : ℝ → ℝ) (g : Gen) : Prop where
  fresh : (prepare g).Fresh
  same : prepare g = { prepare gen0 with curves := g.curves }
  found : ∀ (start goal : Pose) (map : MapIf) (ig : Bool),
    found ((prepare g).findPath clamp start goal map ig) =
      found ((prepare gen0).findPath clamp start goal map ig)

theorem gen0_fresh : gen0.Fresh := by
  have h : ∀ (pats : List String) (g g' : Gen), g.Fresh →
      pats.foldlM (fun g s => do let r ← Gen.parse g s.toList; pure r.2) g = CRes.ok g' → g'.Fresh := by
    intro pats
    induction pats with
    | nil => intro g g' hg h; simp only [List.foldlM_nil, CRes.pure_eq, CRes.ok.injEq] at h; subst h; exact hg
    | cons p ps ih =>
      intro g g' hg h
      simp only [List.foldlM_cons, CRes.bind_eq_ok] at h
      obtain ⟨g1, ⟨⟨b, g2⟩, h1, h2⟩, h3⟩ := h
      simp only [CRes.pure_eq, CRes.ok.injEq] at h2
      subst h2
      exact ih _ _ (parse_fresh g g2 _ b hg h1) h3
  have h2 := genFor_fwd
  unfold genFor at h2
  rw [CRes.bind_eq_ok] at h2
  obtain ⟨g, h3, h4⟩ := h2
  have := h _ {} g (by intro c hc; cases hc) h3
  simp only [CRes.pure_eq, CRes.ok.injEq] at h4
  intro c hc
  rw [← h4] at hc
  exact this c hc

theorem genOk_init (clamp : ℝ → ℝ) : GenOk clamp gen0 := ⟨gen0_fresh, rfl, fun _ _ _ _ => rfl⟩

theorem GenOk.step {clamp : ℝ → ℝ} {g g' : Gen} (h : GenOk clamp g) {start goal : Pose} {map : MapIf} {ig : Bool}
    {r : Option Curve} (hf : (prepare g).findPath clamp start goal map ig = .ok (g', r)) : GenOk clamp g' := by
  obtain ⟨e, _⟩ := findPath_alike _ _ _ _ _ _ _ _ h.fresh hf
  obtain ⟨f, hh⟩ := findPath_history _ _ _ _ _ _ _ _ h.fresh hf
  have hp : prepare g' = g' := by rw [e]; rfl
  refine ⟨by rw [hp]; exact f, ?_, ?_⟩
  · rw [hp, e, h.same]
  · intro s t m i
    rw [hp, hh, h.found]

theorem found_some {x : CRes (Gen × Option Curve)} {r : Option Curve} (h : RS.found x = .ok r) :
    ∃ g, x = .ok (g, r) := by
  cases x with
  | ok a => simp only [RS.found, CRes.ok.injEq] at h; exact ⟨a.1, by rw [← h]⟩
  | throw e => cases h
  | ub => cases h

theorem GenOk.env {clamp : ℝ → ℝ} {g : Gen} (h : GenOk clamp g) (map : MapIf) (ig : Bool) :
    (prepare g).env clamp map ig = (prepare gen0).env clamp map ig := by rw [h.same]; rfl

/-- The throttle: never called yet, or in its invariant. -/
def ThrOk (N : Int) (s : ExpSt ℝ) : Prop := (s.initial < 0 ∧ s.current = N ∧ s.n = N) ∨ ExpInv N s

theorem thrOk_step {N : Int} (hN : 0 ≤ N) (hN2 : N < 2147483648) {s : ExpSt ℝ} (h : ThrOk N s) {c : ℝ}
    (hc : 0 ≤ c) : ∃ b s', expStep N s c = .ok (b, s') ∧ ThrOk N s' := by
  rcases h with ⟨h1, h2, h3⟩ | h
  · refine ⟨false, ⟨s.current + 1, s.n, c, c⟩, ?_, Or.inr ⟨hc, le_refl _, by simp only; omega, by simp only; omega⟩⟩
    unfold expStep
    simp only [h1, if_true]; rfl
  · obtain ⟨b, s', g1, g2, _⟩ := expStep_spec hN hN2 h hc
    exact ⟨b, s', g1, Or.inr g2⟩

/-- Everything the statements need of a reachable state. -/
structure StOk (clamp : ℝ → ℝ) (N : Int) (ef : Bool) (st : St) : Prop where
  gen : ef = true → GenOk clamp st.gen
  thr : ThrOk N st.thr

theorem find_cases {clamp : ℝ → ℝ} {fuel : Nat} {st st' : St} {s t : Pose} {map : MapIf} {b : Bool}
    (h : st.find clamp fuel s t map = .ok (some (b, st'))) :
    ∃ g' r, (prepare st.gen).findPath clamp s t map false = .ok (g', r) ∧ st'.gen = g' ∧ st'.thr = st.thr ∧
      st'.forward = st.forward ∧
      ((r = none ∧ b = false ∧ st'.poses = st.poses) ∨
        ∃ k ps, r = some k ∧ b = k.isValid ∧ st'.poses = ps ∧
          (k.reset ((prepare st.gen).env clamp map false)).collect ((prepare st.gen).env clamp map false) fuel =
            .ok (some ps)) := by
  unfold St.find at h
  simp only [CRes.bind_eq_ok] at h
  obtain ⟨⟨g', r⟩, h1, h2⟩ := h
  refine ⟨g', r, h1, ?_⟩
  cases r with
  | none =>
    simp only [CRes.pure_eq, CRes.ok.injEq, Option.some.injEq, Prod.mk.injEq] at h2
    obtain ⟨rfl, rfl⟩ := h2
    exact ⟨rfl, rfl, rfl, Or.inl ⟨rfl, rfl, rfl⟩⟩
  | some k =>
    simp only [CRes.bind_eq_ok] at h2
    obtain ⟨ps, h3, h4⟩ := h2
    simp only [CRes.pure_eq, CRes.ok.injEq] at h4
    cases ps with
    | none => cases h4
    | some ps =>
      simp only [Option.map_some, Option.some.injEq, Prod.mk.injEq] at h4
      obtain ⟨rfl, rfl⟩ := h4
      exact ⟨rfl, rfl, rfl, Or.inr ⟨k, ps, rfl, rfl, rfl, h3⟩⟩

theorem expand_cases {clamp : ℝ → ℝ} {fuel : Nat} {N : Int} {ef eb : Bool} {st st' : St} {s t : Node}
    {map : MapIf} {b : Bool} (h : st.expand clamp fuel N ef eb s t map = .ok (some (b, st'))) :
    (b = false ∧ st' = { st with forward := s.forward } ∧ ((ef = false ∧ s.forward = true) ∨
      (eb = false ∧ s.forward = false))) ∨
    ∃ a thr, ((ef = true ∧ s.forward = true) ∨ (eb = true ∧ s.forward = false)) ∧
      expStep N st.thr s.h = .ok (a, thr) ∧
      ((b = false ∧ st' = { st with forward := s.forward, thr := thr } ∧ (a = false ∨ s.forward = false)) ∨
       (a = true ∧ ef = true ∧ s.forward = true ∧
        St.find clamp fuel { st with forward := s.forward, thr := thr } s.pose t.pose map = .ok (some (b, st')))) := by
  unfold St.expand at h
  simp only at h
  by_cases h1 : (!ef && s.forward) = true
  · rw [if_pos h1] at h
    simp only [CRes.ok.injEq, Option.some.injEq, Prod.mk.injEq] at h
    obtain ⟨rfl, rfl⟩ := h
    exact Or.inl ⟨rfl, rfl, Or.inl (by simpa using h1)⟩
  rw [if_neg h1] at h
  by_cases h2 : (!eb && !s.forward) = true
  · rw [if_pos h2] at h
    simp only [CRes.ok.injEq, Option.some.injEq, Prod.mk.injEq] at h
    obtain ⟨rfl, rfl⟩ := h
    exact Or.inl ⟨rfl, rfl, Or.inr (by simpa using h2)⟩
  rw [if_neg h2, CRes.bind_eq_ok] at h
  obtain ⟨⟨a, thr⟩, h3, h4⟩ := h
  refine Or.inr ⟨a, thr, ?_, h3, ?_⟩
  · cases ef <;> cases eb <;> cases hs : s.forward <;> simp_all
  · simp only at h4
    cases a with
    | false =>
      simp only [Bool.false_eq_true, if_false, CRes.pure_eq, CRes.ok.injEq, Option.some.injEq, Prod.mk.injEq] at h4
      obtain ⟨rfl, rfl⟩ := h4
      exact Or.inl ⟨rfl, rfl, Or.inl rfl⟩
    | true =>
      simp only [if_true] at h4
      cases hs : s.forward with
      | false =>
        rw [hs] at h4
        simp only [Bool.false_eq_true, if_false, CRes.pure_eq, CRes.ok.injEq, Option.some.injEq, Prod.mk.injEq] at h4
        obtain ⟨rfl, rfl⟩ := h4
        exact Or.inl ⟨rfl, rfl, Or.inr rfl⟩
      | true =>
        rw [hs] at h4
        simp only [if_true] at h4
        refine Or.inr ⟨rfl, ?_, rfl, h4⟩
        cases ef
        · simp [hs] at h1
        · rfl

theorem reach_ok {clamp : ℝ → ℝ} {N : Int} (hN : 0 ≤ N) (hN2 : N < 2147483648) {ef eb : Bool} {st : St}
    (h : ExpReach clamp N ef eb st) : StOk clamp N ef st := by
  induction h with
  | @new junk junkF st h =>
    rw [new_eq] at h
    injection h with h
    subst h
    refine ⟨fun he => by simp only [he, if_true]; exact genOk_init clamp, Or.inl ⟨?_, rfl, rfl⟩⟩
    simp [expInit]
  | @step st st' fuel s t map b _ hh hx ih =>
    rcases expand_cases hx with ⟨_, rfl, _⟩ | ⟨a, thr, _, h1, h2⟩
    · exact ⟨ih.gen, ih.thr⟩
    · obtain ⟨b', s', g1, g2⟩ := thrOk_step hN hN2 ih.thr hh
      rw [h1] at g1
      simp only [CRes.ok.injEq, Prod.mk.injEq] at g1
      obtain ⟨rfl, rfl⟩ := g1
      rcases h2 with ⟨_, rfl, _⟩ | ⟨_, he, _, h3⟩
      · exact ⟨ih.gen, g2⟩
      · obtain ⟨g', r, f1, f2, f3, _⟩ := find_cases h3
        refine ⟨fun _ => ?_, by rw [f3]; exact g2⟩
        rw [f2]
        exact (ih.gen he).step f1

/-! ### What a success means -/

theorem gen0_sane {clamp : ℝ → ℝ} (hC : ClampSpec clamp) (hopen : ∀ t, -Real.pi < clamp t) (map : MapIf)
    (h0 : 0 < map.res) (h1 : map.res ≤ 13 / 10) (ig : Bool) : ((prepare gen0).env clamp map ig).Sane where
  clamp := hC
  open' := hopen
  res := h0
  maxDist := by simp only [Gen.env, prepare]; positivity
  radius := by
    simp only [Gen.env, prepare]
    rw [le_div_iff₀ h0]; linarith
  costF := by simp [Gen.env, prepare, gen0]
  costB := by simp [Gen.env, prepare]
  costC := by simp only [Gen.env, prepare]; norm_num
  costS := by simp [Gen.env, prepare, gen0]

theorem gen0_elems {c : Curve} (hc : c ∈ (prepare gen0).curves) :
    ∃ o o', elemsOf c.seq = [.turn o .fwd, .straight .fwd, .turn o' .fwd] := by
  simp only [prepare, gen0, List.mem_cons, List.not_mem_nil, or_false] at hc
  rcases hc with rfl | rfl | rfl | rfl <;> exact ⟨_, _, rfl⟩

theorem curveArc_csc {k : Curve} {o o' : Ori} (h : elemsOf k.seq = [.turn o .fwd, .straight .fwd, .turn o' .fwd]) :
    ∃ t1 L t3, motion k = cscForward o o' t1 L t3 ∧ k.curveArc = t1 + t3 := by
  rcases hs : k.seq with _ | ⟨a, _ | ⟨b, _ | ⟨c, _ | ⟨d, r⟩⟩⟩⟩ <;> rw [hs] at h <;> simp [elemsOf] at h
  obtain ⟨h1, h2, h3⟩ := h
  cases a with
  | line l => simp [elemOf] at h1
  | circ a =>
    cases b with
    | circ b => simp [elemOf] at h2
    | line l =>
      cases c with
      | line l => simp [elemOf] at h3
      | circ c =>
        refine ⟨|a.arc|, eucl l.start.pt l.stop.pt, |c.arc|, ?_, ?_⟩
        · simp [motion, hs, cscForward, h1, h2, h3, amountOf]
        · simp [Curve.curveArc, hs]

/-- More fuel does not change the poses read. -/
theorem collect_mono (E : RSEnv) : ∀ (f f' : Nat) (c : Curve) (ps : List Pose), c.collect E f = .ok (some ps) →
    f ≤ f' → c.collect E f' = .ok (some ps) := by
  intro f
  induction f with
  | zero =>
    intro f' c ps h _
    rw [Curve.collect] at h
    by_cases hn : c.hasNext.1 = true
    · rw [if_pos hn] at h; cases h
    · rw [if_neg hn] at h
      cases f' with
      | zero => rw [Curve.collect, if_neg hn, h]
      | succ f' => rw [Curve.collect, if_neg hn, h]
  | succ f ih =>
    intro f' c ps h hle
    obtain ⟨f', rfl⟩ : ∃ m, f' = m + 1 := ⟨f' - 1, by omega⟩
    rw [Curve.collect] at h ⊢
    by_cases hn : c.hasNext.1 = true
    · rw [if_pos hn] at h ⊢
      simp only [CRes.bind_eq_ok] at h ⊢
      obtain ⟨r, h1, rest, h2, h3⟩ := h
      simp only [CRes.pure_eq, CRes.ok.injEq] at h3
      cases rest with
      | none => cases h3
      | some rest => exact ⟨r, h1, some rest, ih f' _ _ h2 (by omega), by rw [← h3]; rfl⟩
    · rw [if_neg hn] at h ⊢; exact h

section
variable {clamp : ℝ → ℝ} (hC : ClampSpec clamp) (hopen : ∀ t, -Real.pi < clamp t)
variable {N : Int} (hN : 0 ≤ N) (hN2 : N < 2147483648)
include hC hopen hN hN2

/-- **C69.** Whatever happened before: if the expansion reports success, then forward expansion is
enabled, the node is a forward node, and the path it hands out consists of the way points of a forward
motion "turn, straight, turn" with radius 1.3 m and turned angles below 180 degrees in total, which leads
a car exactly from the node's pose to the goal pose; its cells, driven from there, have been tested; there is at least one way
point, all flagged forward. -/
theorem expand_sound {ef eb : Bool} {st st' : St} (hst : ExpReach clamp N ef eb st) {map : MapIf}
    (h0 : 0 < map.res) (h1 : map.res ≤ 13 / 10) {fuel : Nat} {start goal : Node}
    (h : st.expand clamp fuel N ef eb start goal map = .ok (some (true, st'))) :
    ef = true ∧ start.forward = true ∧ ∃ o o' t1 L t3, 0 ≤ t1 ∧ 0 ≤ L ∧ 0 ≤ t3 ∧ t1 + t3 < Real.pi ∧
      SameConfig (driveAll (13 / 10 / map.res) start.pose (cscForward o o' t1 L t3)) goal.pose ∧
      MotionClear map (13 / 10 / map.res) start.pose (cscForward o o' t1 L t3) ∧
      ∃ ps, ps ≠ [] ∧ st'.get = ps.map (fun p => (p, true)) ∧
        List.Forall₂ SameConfig ps
          (waypoints (13 / 10 / map.res) (15 / 100 / map.res) start.pose (cscForward o o' t1 L t3)) := by
  have ok := reach_ok hN hN2 hst
  rcases expand_cases h with ⟨h2, _⟩ | ⟨a, thr, _, h3, h4⟩
  · cases h2
  rcases h4 with ⟨h4, _⟩ | ⟨_, he, hfw, hf⟩
  · cases h4
  refine ⟨he, hfw, ?_⟩
  have hg := ok.gen he
  obtain ⟨g', r, f1, _, _, f4, f5⟩ := find_cases hf
  rcases f5 with ⟨_, f5, _⟩ | ⟨k, ps, rfl, hv, hps, hcol⟩
  · cases f5
  simp only at f1 f4
  have hfound := hg.found start.pose goal.pose map false
  rw [f1] at hfound
  obtain ⟨g0', f0⟩ := found_some hfound.symm
  have sane := gen0_sane hC hopen map h0 h1 false
  have halt : ∀ c ∈ (prepare gen0).curves, Alternating (elemsOf c.seq) := by
    intro c hc
    obtain ⟨o, o', e⟩ := gen0_elems hc
    rw [e]; simp [Alternating]
  have hr : 0 < (prepare gen0).radius / map.res := by simp only [prepare]; positivity
  obtain ⟨_, _, ⟨c, hc, hel⟩, hnn, hdrive⟩ := findPath_motion (prepare gen0) g0' clamp hC _ _ map false hr halt k f0
  obtain ⟨o, o', e⟩ := gen0_elems hc
  obtain ⟨t1, L, t3, hm, harc⟩ := curveArc_csc (hel.trans e)
  obtain ⟨_, _, hb⟩ := findPath_best (prepare gen0) g0' clamp _ _ map false Real.pi rfl _ f0
  obtain ⟨_, _, _, helig, _⟩ := hb k rfl
  have hclear := findPath_motionClear (prepare gen0) g0' clamp _ _ map sane halt k f0
  obtain ⟨ps', hps', hway⟩ := findPath_waypoints (prepare gen0) g0' clamp _ _ map false sane halt k f0
  rw [hg.env] at hcol
  have hpp : ps' = ps := by
    have h5 := hps' (max ps'.length fuel) (le_max_left _ _)
    have h6 := collect_mono ((prepare gen0).env clamp map false) fuel (max ps'.length fuel) _ ps hcol (le_max_right _ _)
    rw [h5] at h6
    simpa using h6
  subst hpp
  rw [hm] at hnn hdrive hway hclear
  refine ⟨o, o', t1, L, t3, hnn (.turn o .fwd, t1) (by simp [cscForward]),
    hnn (.straight .fwd, L) (by simp [cscForward]), hnn (.turn o' .fwd, t3) (by simp [cscForward]),
    by rw [← harc]; exact helig.2, hdrive, hclear, ps', ?_, ?_, hway⟩
  · intro hnil
    rw [hnil] at hway
    have := hway.length_eq
    simp [waypoints, cscForward, elemWaypoints] at this
  · unfold St.get
    rw [hps, f4]
    simp [hfw]

end

/-- **C69, finding.** No expansion ever succeeds at a node that is driven to backwards, also if backward
expansion is enabled. -/
theorem expand_backward {clamp : ℝ → ℝ} {N : Int} {ef eb : Bool} {st st' : St} {map : MapIf} {fuel : Nat}
    {start goal : Node} {b : Bool} (hb : start.forward = false)
    (h : st.expand clamp fuel N ef eb start goal map = .ok (some (b, st'))) : b = false := by
  rcases expand_cases h with ⟨h, _⟩ | ⟨a, thr, _, _, ⟨h, _⟩ | ⟨_, _, h, _⟩⟩
  · exact h
  · exact h
  · rw [hb] at h; cases h

/-- **C69, finding.** With forward expansion disabled no expansion ever succeeds. -/
theorem expand_disabled {clamp : ℝ → ℝ} {N : Int} {eb : Bool} {st st' : St} {map : MapIf} {fuel : Nat}
    {start goal : Node} {b : Bool} (h : st.expand clamp fuel N false eb start goal map = .ok (some (b, st'))) :
    b = false := by
  rcases expand_cases h with ⟨h, _⟩ | ⟨a, thr, _, _, ⟨h, _⟩ | ⟨_, h, _, _⟩⟩
  · exact h
  · exact h
  · cases h

theorem gen0_usable {c : Curve} (hc : c ∈ (prepare gen0).curves) : Usable (elemsOf c.seq) := by
  obtain ⟨o, o', e⟩ := gen0_elems hc
  rw [e]
  exact fun _ => ⟨⟨_, _, _, rfl⟩, ⟨[.turn o .fwd, .straight .fwd], _, _, rfl⟩⟩

section
variable {clamp : ℝ → ℝ} (hC : ClampSpec clamp) (hopen : ∀ t, -Real.pi < clamp t)
variable {N : Int} (hN : 0 ≤ N) (hN2 : N < 2147483648)
include hC hopen hN hN2

/-- **C69.** A call never has undefined behaviour and terminates, whatever happened before. -/
theorem expand_defined {ef eb : Bool} {st : St} (hst : ExpReach clamp N ef eb st) {map : MapIf}
    (h0 : 0 < map.res) (h1 : map.res ≤ 13 / 10) (start goal : Node) (hh : 0 ≤ start.h) :
    ∃ n, ∀ fuel, n ≤ fuel → ∃ b st', st.expand clamp fuel N ef eb start goal map = .ok (some (b, st')) := by
  have ok := reach_ok hN hN2 hst
  obtain ⟨a, thr, t1, _⟩ := thrOk_step hN hN2 ok.thr hh
  unfold St.expand
  simp only
  by_cases h2 : (!ef && start.forward) = true
  · exact ⟨0, fun fuel _ => ⟨_, _, by rw [if_pos h2]⟩⟩
  by_cases h3 : (!eb && !start.forward) = true
  · exact ⟨0, fun fuel _ => ⟨_, _, by rw [if_neg h2, if_pos h3]⟩⟩
  simp only [if_neg h2, if_neg h3, t1, CRes.ok_bind]
  cases a with
  | false => exact ⟨0, fun fuel _ => ⟨_, _, rfl⟩⟩
  | true =>
    cases hf : start.forward with
    | false => exact ⟨0, fun fuel _ => ⟨_, _, rfl⟩⟩
    | true =>
      have he : ef = true := by cases ef; simp [hf] at h2; rfl
      have hg := ok.gen he
      obtain ⟨r, hr⟩ := findPath_defined (prepare gen0) clamp start.pose goal.pose map false Real.pi rfl
        (by simp [prepare, gen0]) (fun c hc => gen0_usable hc)
      have hfound := hg.found start.pose goal.pose map false
      rw [hr] at hfound
      obtain ⟨g', f1⟩ := found_some hfound
      simp only [if_true]
      unfold St.find
      simp only [f1, CRes.ok_bind]
      rcases hrr : r.2 with _ | k
      · exact ⟨0, fun fuel _ => ⟨_, _, rfl⟩⟩
      · have sane := gen0_sane hC hopen map h0 h1 false
        have halt : ∀ c ∈ (prepare gen0).curves, Alternating (elemsOf c.seq) := by
          intro c hc
          obtain ⟨o, o', e⟩ := gen0_elems hc
          rw [e]; simp [Alternating]
        obtain ⟨ps, hps, _⟩ := findPath_waypoints (prepare gen0) r.1 clamp _ _ map false sane halt k
          (by rw [hr, ← hrr])
        refine ⟨ps.length, fun fuel hle => ?_⟩
        simp only [hg.env, hps fuel hle, CRes.ok_bind]
        exact ⟨_, _, rfl⟩

/-- **C69.** The curve generator's memory does not matter: two objects with any two histories whose
throttles agree give the same answer and the same path. -/
theorem expand_history {ef eb : Bool} {st1 st2 st1' st2' : St} (h1 : ExpReach clamp N ef eb st1)
    (h2 : ExpReach clamp N ef eb st2) (hthr : st1.thr = st2.thr) {map : MapIf}
    (hr0 : 0 < map.res) (hr1 : map.res ≤ 13 / 10) {fuel1 fuel2 : Nat} {start goal : Node} {b1 b2 : Bool}
    (e1 : st1.expand clamp fuel1 N ef eb start goal map = .ok (some (b1, st1')))
    (e2 : st2.expand clamp fuel2 N ef eb start goal map = .ok (some (b2, st2'))) :
    b1 = b2 ∧ st1'.thr = st2'.thr ∧ (b1 = true → st1'.get = st2'.get) := by
  have ok1 := reach_ok hN hN2 h1
  have ok2 := reach_ok hN hN2 h2
  rcases expand_cases e1 with ⟨rfl, rfl, c1⟩ | ⟨a1, t1, c1, s1, d1⟩ <;>
    rcases expand_cases e2 with ⟨rfl, rfl, c2⟩ | ⟨a2, t2, c2, s2, d2⟩
  · exact ⟨rfl, hthr, fun h => by cases h⟩
  · exfalso
    rcases c1 with ⟨p, q⟩ | ⟨p, q⟩ <;> rcases c2 with ⟨p', q'⟩ | ⟨p', q'⟩ <;> simp_all
  · exfalso
    rcases c1 with ⟨p, q⟩ | ⟨p, q⟩ <;> rcases c2 with ⟨p', q'⟩ | ⟨p', q'⟩ <;> simp_all
  · rw [hthr, s2] at s1
    simp only [CRes.ok.injEq, Prod.mk.injEq] at s1
    obtain ⟨rfl, rfl⟩ := s1
    rcases d1 with ⟨rfl, rfl, n1⟩ | ⟨n1, he, hf, f1⟩ <;> rcases d2 with ⟨rfl, rfl, n2⟩ | ⟨n2, he', hf', f2⟩
    · exact ⟨rfl, rfl, fun h => by cases h⟩
    · exfalso
      subst n2
      rcases n1 with n | n
      · cases n
      · rw [hf'] at n; cases n
    · exfalso
      subst n1
      rcases n2 with n | n
      · cases n
      · rw [hf] at n; cases n
    · obtain ⟨g1, r1, p1, p2, p3, p4, p5⟩ := find_cases f1
      obtain ⟨g2, r2, q1, q2, q3, q4, q5⟩ := find_cases f2
      have u1 := (ok1.gen he).found start.pose goal.pose map false
      have u2 := (ok2.gen he).found start.pose goal.pose map false
      simp only at p1 q1
      rw [p1] at u1; rw [q1] at u2
      have : r1 = r2 := by
        have := u1.trans u2.symm
        simpa [RS.found] using this
      subst this
      refine ⟨?_, by rw [p3, q3], ?_⟩
      · rcases p5 with ⟨x, y, z⟩ | ⟨k, ps, x, y, z, w⟩ <;> rcases q5 with ⟨x', y', z'⟩ | ⟨k', ps', x', y', z', w'⟩
        · rw [y, y']
        · rw [x] at x'; cases x'
        · rw [x] at x'; cases x'
        · rw [x] at x'; cases x'; rw [y, y']
      · intro hb
        rcases p5 with ⟨x, y, z⟩ | ⟨k, ps, x, y, z, w⟩
        · rw [y] at hb; cases hb
        rcases q5 with ⟨x', y', z'⟩ | ⟨k', ps', x', y', z', w'⟩
        · rw [x] at x'; cases x'
        · rw [x] at x'; cases x'
          simp only [(ok1.gen he).env] at w
          simp only [(ok2.gen he).env] at w'
          have m1 := collect_mono _ fuel1 (max fuel1 fuel2) _ ps w (le_max_left _ _)
          have m2 := collect_mono _ fuel2 (max fuel1 fuel2) _ ps' w' (le_max_right _ _)
          rw [m1] at m2
          have : ps = ps' := by simpa using m2
          unfold St.get
          rw [p4, q4, z, z', this]

end

/-- The throttle lets every call through. -/
structure Off (s : ExpSt ℝ) : Prop where
  init : 0 ≤ s.initial
  min : s.min = 0
  n : s.n = 0
  cur : 0 ≤ s.current

theorem off_step {N : Int} {s : ExpSt ℝ} (h : Off s) {c : ℝ} (hc : 0 ≤ c) :
    expStep N s c = .ok (true, ⟨0, 0, s.initial, 0⟩) := by
  unfold expStep
  simp only
  rw [if_neg (not_lt.2 h.init), if_neg (by rw [h.min]; exact not_lt.2 hc)]
  simp only [CRes.pure_eq, CRes.ok_bind]
  rw [if_neg (by rw [h.n]; have := h.cur; omega)]
  simp [h.min, h.n]

/-- How that state comes about: a call with heuristic value 0 after one with a positive value. -/
theorem off_zero {N : Int} {s s' : ExpSt ℝ} (h : ExpInv N s) (hpos : 0 < s.min) (hcur : 0 ≤ s.current) {b : Bool}
    (hs : expStep N s 0 = .ok (b, s')) : Off s' := by
  have hi : ¬ s.initial < 0 := not_lt.2 (h.pos.trans h.le)
  have hc : castI ((N : ℝ) * (0 / s.initial)) = .ok 0 := by
    rw [zero_div, mul_zero]
    have := truncC_nonneg (le_refl (0 : ℝ))
    unfold castI
    rw [this]
    simp
  unfold expStep at hs
  simp only [hi, if_false, hpos, if_true, hc, CRes.ok_bind, CRes.pure_eq] at hs
  rw [if_neg (by omega)] at hs
  simp only [CRes.ok.injEq, Prod.mk.injEq] at hs
  obtain ⟨_, rfl⟩ := hs
  exact ⟨h.pos.trans h.le, rfl, rfl, le_refl _⟩

/-- Counter of a reachable throttle. -/
theorem reach_cur {clamp : ℝ → ℝ} {N : Int} (hN : 0 ≤ N) (hN2 : N < 2147483648) {ef eb : Bool} {st : St}
    (h : ExpReach clamp N ef eb st) : 0 ≤ st.thr.current := by
  induction h with
  | new h => rw [new_eq] at h; injection h with h; subst h; exact hN
  | @step st st' fuel s t map b hr hh hx ih =>
    rcases expand_cases hx with ⟨_, rfl, _⟩ | ⟨a, thr, _, h1, h2⟩
    · exact ih
    · have hthr : 0 ≤ thr.current := by
        rcases (reach_ok hN hN2 hr).thr with ⟨i1, i2, i3⟩ | hi
        · unfold expStep at h1
          simp only [i1, if_true, CRes.pure_eq, CRes.ok.injEq, Prod.mk.injEq] at h1
          rw [← h1.2]; simp only; omega
        · obtain ⟨b', s', g1, _, _, _, g5, _⟩ := expStep_spec hN hN2 hi hh
          rw [h1] at g1
          simp only [CRes.ok.injEq, Prod.mk.injEq] at g1
          obtain ⟨rfl, rfl⟩ := g1
          rw [g5]; split_ifs <;> omega
      rcases h2 with ⟨_, rfl, _⟩ | ⟨_, _, _, h3⟩
      · exact hthr
      · obtain ⟨g', r, _, _, f3, _⟩ := find_cases h3
        rw [f3]; exact hthr

theorem off_later {clamp : ℝ → ℝ} {N : Int} {ef eb : Bool} {st st' : St} (h : ExpLater clamp N ef eb st st')
    (ho : Off st.thr) : Off st'.thr := by
  induction h with
  | refl => exact ho
  | @step st1 st2 fuel s t map b _ hh hx ih =>
    rcases expand_cases hx with ⟨_, rfl, _⟩ | ⟨a, thr, _, h1, h2⟩
    · exact ih
    · rw [off_step ih hh] at h1
      simp only [CRes.ok.injEq, Prod.mk.injEq] at h1
      obtain ⟨rfl, rfl⟩ := h1
      have hn : Off ⟨0, 0, st1.thr.initial, 0⟩ := ⟨ih.init, rfl, rfl, le_refl _⟩
      rcases h2 with ⟨_, rfl, _⟩ | ⟨_, _, _, h3⟩
      · exact hn
      · obtain ⟨g', r, _, _, f3, _⟩ := find_cases h3
        rw [f3]; exact hn

/-- **C69, finding.** The throttle is never reset: once a search has expanded a node with heuristic value 0
(after one with a positive value), every later call for a forward node, in every later search, runs the
curve generator — also the one for the start node of the next search, which is fatal if it succeeds
(`expansion_at_start_ub`). -/
theorem expand_unthrottled {clamp : ℝ → ℝ} {N : Int} (hN : 0 ≤ N) (hN2 : N < 2147483648) {eb : Bool}
    {st st1 st2 : St} (hst : ExpReach clamp N true eb st) (hpos : 0 < st.thr.min) (hinit : 0 ≤ st.thr.initial)
    {fuel : Nat} {near goal : Node} {map : MapIf} {b : Bool} (hz : near.h = 0) (hnf : near.forward = true)
    (h1 : st.expand clamp fuel N true eb near goal map = .ok (some (b, st1)))
    (h2 : ExpLater clamp N true eb st1 st2)
    (start goal' : Node) (hh : 0 ≤ start.h) (hf : start.forward = true) (fuel' : Nat) (map' : MapIf) :
    ∃ thr, st2.expand clamp fuel' N true eb start goal' map' =
      St.find clamp fuel' { st2 with forward := true, thr := thr } start.pose goal'.pose map' := by
  have hi : ExpInv N st.thr := by
    rcases (reach_ok hN hN2 hst).thr with ⟨i, _, _⟩ | h
    · linarith
    · exact h
  have ho1 : Off st1.thr := by
    rcases expand_cases h1 with ⟨_, _, ⟨h, _⟩ | ⟨_, h⟩⟩ | ⟨a, thr, _, s1, d1⟩
    · cases h
    · rw [hnf] at h; cases h
    · rw [hz] at s1
      have := off_zero hi hpos (reach_cur hN hN2 hst) s1
      rcases d1 with ⟨_, rfl, _⟩ | ⟨_, _, _, h3⟩
      · exact this
      · obtain ⟨g', r, _, _, f3, _⟩ := find_cases h3
        rw [f3]; exact this
  have ho := off_later h2 ho1
  refine ⟨⟨0, 0, st2.thr.initial, 0⟩, ?_⟩
  unfold St.expand
  simp only [hf, Bool.not_true, Bool.false_and, Bool.and_false, Bool.false_eq_true, if_false, off_step ho hh,
    CRes.ok_bind, if_true]

/-! ### Completeness in free space -/

/-- A car does not get farther than it drives. -/
theorem drive_dist {r : ℝ} (hr : 0 ≤ r) (q : Pose) (e : Elem) (a : ℝ) (ha : 0 ≤ a) :
    eucl q.pt (drive r q e a).pt ≤ (match e with | .straight _ => a | .turn _ _ => a * r) := by
  cases e with
  | straight d =>
    simp only
    have : dist2 q.pt (drive r q (.straight d) a).pt = a ^ 2 := by
      unfold dist2 Pose.pt drive
      simp only
      have hd : dirSign d ^ 2 = 1 := by cases d <;> simp [dirSign]
      have hcs := Real.sin_sq_add_cos_sq q.theta
      calc (q.x - (q.x + dirSign d * a * Real.cos q.theta)) ^ 2 + (q.y - (q.y + dirSign d * a * Real.sin q.theta)) ^ 2
          = dirSign d ^ 2 * a ^ 2 * (Real.sin q.theta ^ 2 + Real.cos q.theta ^ 2) := by ring
        _ = a ^ 2 := by rw [hd, hcs]; ring
    unfold eucl
    rw [this, Real.sqrt_sq ha]
  | turn o d =>
    simp only
    unfold eucl
    rw [Real.sqrt_le_left (by positivity)]
    unfold dist2 Pose.pt drive
    simp only
    set h := q.theta + oriSign o * dirSign d * a with hh
    have ho : oriSign o ^ 2 = 1 := by cases o <;> simp [oriSign]
    have hd : dirSign d ^ 2 = 1 := by cases d <;> simp [dirSign]
    have hcs := Real.sin_sq_add_cos_sq q.theta
    have hcs' := Real.sin_sq_add_cos_sq h
    have hdiff : Real.cos (h - q.theta) = Real.cos h * Real.cos q.theta + Real.sin h * Real.sin q.theta :=
      Real.cos_sub h q.theta
    have hb := Real.one_sub_sq_div_two_le_cos (x := h - q.theta)
    have he : (h - q.theta) ^ 2 = a ^ 2 := by
      rw [hh]
      calc (q.theta + oriSign o * dirSign d * a - q.theta) ^ 2 = oriSign o ^ 2 * dirSign d ^ 2 * a ^ 2 := by ring
        _ = a ^ 2 := by rw [ho, hd]; ring
    rw [he, hdiff] at hb
    calc (q.x - (q.x + oriSign o * r * (Real.sin h - Real.sin q.theta))) ^ 2 +
          (q.y - (q.y - oriSign o * r * (Real.cos h - Real.cos q.theta))) ^ 2
        = oriSign o ^ 2 * r ^ 2 * ((Real.sin h ^ 2 + Real.cos h ^ 2) + (Real.sin q.theta ^ 2 + Real.cos q.theta ^ 2) -
            2 * (Real.cos h * Real.cos q.theta + Real.sin h * Real.sin q.theta)) := by ring
      _ ≤ (a * r) ^ 2 := by
          rw [ho, hcs, hcs']
          nlinarith [sq_nonneg r]

/-- **C67/C69.** With a maximum arc `m`: a turn-straight-turn motion that turns less than `m` in total is
not missed. -/
theorem findPath_csc_bounded (g g' : Gen) (clamp : ℝ → ℝ) (start goal : Pose) (map : MapIf) (ig : Bool)
    (hE : (g.env clamp map ig).Sane) (hf : (g.env clamp map ig).NoObstacle)
    (hu : g.useMapCost = false) (m : ℝ) (hm : g.maxArc = some m)
    (c : Curve) (hc : c ∈ g.curves) (o o' : Ori) (d d' d'' : Dir) (t1 L t3 : ℝ)
    (hel : elemsOf c.seq = [.turn o d, .straight d', .turn o' d'']) (h1 : 0 < t1) (hL : 0 ≤ L) (h3 : 0 < t3)
    (hsum : t1 + t3 < m)
    (hcen : 2 * (g.radius / map.res) ≤ eucl (turnCentre (g.radius / map.res) o start)
      (turnCentre (g.radius / map.res) o' goal))
    (hg : SameConfig (driveAll (g.radius / map.res) start
      [(.turn o d, t1), (.straight d', L), (.turn o' d'', t3)]) goal)
    (hd : 2 ≤ eucl start.pt goal.pt)
    (hcost : motionCost ⟨g.costF, g.costB, g.costC, g.costS⟩ (g.radius / map.res)
      [(.turn o d, t1), (.straight d', L), (.turn o' d'', t3)] < 999999)
    (r : Option Curve) (h : g.findPath clamp start goal map ig = .ok (g', r)) :
    ∃ k, r = some k ∧ k.weight ≤ motionCost ⟨g.costF, g.costB, g.costC, g.costS⟩ (g.radius / map.res)
      [(.turn o d, t1), (.straight d', L), (.turn o' d'', t3)] := by
  obtain ⟨hfa, hnone, hsome⟩ := findPath_best g g' clamp start goal map ig m hm r h
  obtain ⟨k, hk, ht⟩ := forall₂_mem_left hfa hc
  have hdist : start.distTo goal = eucl start.pt goal.pt := distTo_eq start goal
  obtain ⟨k', hk', w1, w2⟩ := check_optimal hE hf hu { c with start := start, goal := goal }
    [(.turn o d, t1), (.straight d', L), (.turn o' d'', t3)] (by simp only; rw [hel]; rfl)
    (Covered.csc h1 hL h3 hcen) hg (by simp only; rw [hdist]; exact hd) hcost
  have hkk : k = k' := by
    have := ht.symm.trans hk'
    injection this
  subst hkk
  -- the arc of the only curve
  have harc : k.curveArc ≤ t1 + t3 := by
    have hlen : c.seq.length = 3 := by
      have := congrArg List.length hel; simpa [elemsOf] using this
    have hdd : ¬ start.distTo goal < 2 := by rw [hdist]; linarith
    rcases check_shape (g.env clamp map ig) { c with start := start, goal := goal } (by simp only; omega) hdd with
      ⟨a, l, b, hs, hcc⟩ | ⟨a, mm, b, hs, hcc⟩ |
      ⟨a, mm, n, b, hs, hcc⟩ | ⟨a, s, t, b, hs, _, hcc⟩ | ⟨hbad, hcc⟩
    · simp only at hs
      rw [hs] at hel
      simp only [elemsOf, List.map, elemOf, List.cons.injEq, Elem.turn.injEq, Elem.straight.injEq,
        and_true] at hel
      obtain ⟨⟨rfl, rfl⟩, rfl, rfl, rfl⟩ := hel
      obtain ⟨a', l', b', hct, ra, rb, da, db, dl, q1, q2, q3⟩ := csc_unique (E := g.env clamp map ig) hE.clamp
        (lt_of_lt_of_le one_pos hE.radius) a b l start goal h1 hL h3 hg hcen
      have hkeq := ht.symm.trans hcc
      injection hkeq with hkeq
      rw [hkeq]
      simp only [Curve.curveArc]
      unfold handleCSC
      rw [hct]
      simp only [List.foldl]
      linarith
    · simp only at hs; rw [hs] at hel; simp [elemsOf, elemOf] at hel
    · simp only at hs; rw [hs] at hel; simp [elemsOf] at hel
    · simp only at hs; rw [hs] at hel; simp [elemsOf] at hel
    · simp only at hbad
      rcases hbad with ⟨x, r, hx⟩ | ⟨x, r, hx⟩
      · rw [hx] at hel; simp [elemsOf, elemOf] at hel
      · rw [hx] at hel
        have := congrArg List.getLast? hel
        simp [elemsOf, elemOf] at this
  have helig : Eligible m k := ⟨lt_of_le_of_lt w1 hcost, by linarith⟩
  cases r with
  | none => exact absurd helig (hnone.1 rfl k hk)
  | some k2 =>
    refine ⟨k2, rfl, le_trans ?_ w1⟩
    obtain ⟨pre, post, e, he, hpre, hpost⟩ := hsome k2 rfl
    rw [e] at hk
    rcases List.mem_append.1 hk with hp | hp
    · exact (hpre k hp helig).le
    · rcases List.mem_cons.1 hp with rfl | hp
      · exact le_refl _
      · exact hpost k hp helig

/-- **C69.** In free space an attempt succeeds whenever a forward motion "turn, straight, turn" (positive
angles, below 180 degrees in total, turning circles that do not overlap) leads from the node to the goal and
the goal is at least two cells away. -/
theorem expand_complete {clamp : ℝ → ℝ} (hC : ClampSpec clamp) (hopen : ∀ t, -Real.pi < clamp t)
    {N : Int} (hN : 0 ≤ N) (hN2 : N < 2147483648) {eb : Bool} {st : St}
    (hst : ExpReach clamp N true eb st) {map : MapIf} (h0 : 0 < map.res) (h1 : map.res ≤ 13 / 10)
    (hfree : ∀ x y, map.inMap x y = true ∧ map.free x y = true) (start goal : Node)
    (hh : 0 ≤ start.h) (hfw : start.forward = true) {thr : ExpSt ℝ}
    (hatt : expStep N st.thr start.h = .ok (true, thr))
    (o o' : Ori) (t1 L t3 : ℝ) (p1 : 0 < t1) (pL : 0 ≤ L) (p3 : 0 < t3) (hsum : t1 + t3 < Real.pi)
    (hcen : 2 * (13 / 10 / map.res) ≤ eucl (turnCentre (13 / 10 / map.res) o start.pose)
      (turnCentre (13 / 10 / map.res) o' goal.pose))
    (hgoal : SameConfig (driveAll (13 / 10 / map.res) start.pose (cscForward o o' t1 L t3)) goal.pose)
    (hd : 2 ≤ eucl start.pose.pt goal.pose.pt)
    (hcost : (t1 + t3) * (13 / 10 / map.res) * (13 / 10) + L < 999999) :
    ∃ n, ∀ fuel, n ≤ fuel → ∃ st', st.expand clamp fuel N true eb start goal map = .ok (some (true, st')) := by
  have ok := reach_ok hN hN2 hst
  have hg := ok.gen rfl
  have sane := gen0_sane hC hopen map h0 h1 false
  obtain ⟨n, hn⟩ := expand_defined hC hopen hN hN2 hst h0 h1 start goal hh
  refine ⟨n, fun fuel hle => ?_⟩
  obtain ⟨b, st', hx⟩ := hn fuel hle
  cases b with
  | true => exact ⟨st', hx⟩
  | false =>
    exfalso
    rcases expand_cases hx with ⟨_, _, ⟨h, _⟩ | ⟨_, h⟩⟩ | ⟨a, thr', _, s1, d1⟩
    · cases h
    · rw [hfw] at h; cases h
    rw [hatt] at s1
    simp only [CRes.ok.injEq, Prod.mk.injEq] at s1
    obtain ⟨rfl, rfl⟩ := s1
    rcases d1 with ⟨_, _, h | h⟩ | ⟨_, _, _, hf⟩
    · cases h
    · rw [hfw] at h; cases h
    obtain ⟨g', r, f1, _, _, _, f5⟩ := find_cases hf
    have u := hg.found start.pose goal.pose map false
    simp only at f1
    rw [f1] at u
    obtain ⟨g0', f0⟩ := found_some u.symm
    have hmem : cscCurve o o' .fwd ∈ (prepare gen0).curves := by
      cases o <;> cases o' <;> simp [prepare, gen0]
    have hno : ((prepare gen0).env clamp map false).NoObstacle := Or.inr hfree
    have hmc : motionCost ⟨(prepare gen0).costF, (prepare gen0).costB, (prepare gen0).costC, (prepare gen0).costS⟩
        ((prepare gen0).radius / map.res) (cscForward o o' t1 L t3) =
        (t1 + t3) * (13 / 10 / map.res) * (13 / 10) + L := by
      simp [motionCost, cscForward, elemCost, CostFactors.ofDir, prepare, gen0]; ring
    obtain ⟨k, rfl, hk⟩ := findPath_csc_bounded (prepare gen0) g0' clamp start.pose goal.pose map false sane hno rfl
      Real.pi rfl (cscCurve o o' .fwd) hmem o o' .fwd .fwd .fwd t1 L t3 rfl p1 pL p3 hsum hcen hgoal hd
      (by have := hmc; unfold cscForward at this; rw [this]; exact hcost) r f0
    rcases f5 with ⟨h, _⟩ | ⟨k', ps, hkk, hv, _, _⟩
    · cases h
    · cases hkk
      -- the curve is valid
      have halt : ∀ c ∈ (prepare gen0).curves, Alternating (elemsOf c.seq) := by
        intro c hc
        obtain ⟨o, o', e⟩ := gen0_elems hc
        rw [e]; simp [Alternating]
      have hr0 : 0 < (prepare gen0).radius / map.res := by simp only [prepare]; positivity
      have hw := findPath_cost (prepare gen0) g0' clamp _ _ map false sane hno rfl Real.pi rfl k f0
      obtain ⟨_, _, ⟨c, hc, hel⟩, hnn, hdrive⟩ := findPath_motion (prepare gen0) g0' clamp hC _ _ map false hr0 halt k f0
      obtain ⟨q, q', e⟩ := gen0_elems hc
      obtain ⟨u1, UL, u3, hm, _⟩ := curveArc_csc (hel.trans e)
      rw [hm] at hw hnn hdrive
      have n1 := hnn (.turn q .fwd, u1) (by simp [cscForward])
      have nL := hnn (.straight .fwd, UL) (by simp [cscForward])
      have n3 := hnn (.turn q' .fwd, u3) (by simp [cscForward])
      simp only at n1 nL n3
      have hlt := findPath_best (prepare gen0) g0' clamp _ _ map false Real.pi rfl _ f0
      obtain ⟨_, _, _, helig, _⟩ := hlt.2.2 k rfl
      set R := (prepare gen0).radius / map.res with hR
      simp only [cscForward, driveAll] at hdrive
      set A := drive R start.pose (.turn q .fwd) u1 with hA
      set B := drive R A (.straight .fwd) UL with hB
      set Cc := drive R B (.turn q' .fwd) u3 with hCc
      have d1 := drive_dist hr0.le start.pose (.turn q .fwd) u1 n1
      have d2 := drive_dist hr0.le A (.straight .fwd) UL nL
      have d3 := drive_dist hr0.le B (.turn q' .fwd) u3 n3
      rw [← hA] at d1; rw [← hB] at d2; rw [← hCc] at d3
      simp only at d1 d2 d3
      have hCg : Cc.pt = goal.pose.pt := by
        unfold Pose.pt; rw [hdrive.1, hdrive.2.1]
      rw [hCg] at d3
      have tr1 := eucl_triangle start.pose.pt A.pt goal.pose.pt
      have tr2 := eucl_triangle A.pt B.pt goal.pose.pt
      have hw' : k.weight = u1 * R * (13 / 10) + UL + u3 * R * (13 / 10) := by
        rw [hw]
        simp [motionCost, cscForward, elemCost, CostFactors.ofDir, prepare, gen0]; ring
      have q1 : 0 ≤ u1 * R := mul_nonneg n1 hr0.le
      have q3 : 0 ≤ u3 * R := mul_nonneg n3 hr0.le
      have hbig : 2 ≤ k.weight := by rw [hw']; nlinarith
      have : k.isValid = true := by
        unfold Curve.isValid
        rw [if_neg (by linarith)]
        exact decide_eq_true helig.1
      rw [this] at hv; cases hv

/-- **Concrete run.** On a free map (one metre per cell), the second call of a new object, at a forward
node 20 cells of straight driving and two turns of 45 degrees away from the goal, succeeds. -/
theorem expand_example : ∃ (clamp : ℝ → ℝ) (st st' : St) (start goal : Node) (fuel : Nat),
    ExpReach clamp 10 true true st ∧
    st.expand clamp fuel 10 true true start goal freeMap = .ok (some (true, st')) := by
  obtain ⟨clamp, hC, hopen⟩ : ∃ clamp, ClampSpec clamp ∧ ∀ t, -Real.pi < clamp t := by
    refine ⟨fun t => toIocMod Real.two_pi_pos (-Real.pi) t, ⟨fun t => ?_, fun t => ?_, fun t => ?_⟩, fun t => ?_⟩
    · exact (toIocMod_mem_Ioc Real.two_pi_pos (-Real.pi) t).1.le
    · have := (toIocMod_mem_Ioc Real.two_pi_pos (-Real.pi) t).2; linarith
    · refine ⟨-toIocDiv Real.two_pi_pos (-Real.pi) t, ?_⟩
      have := toIocMod_add_toIocDiv_zsmul Real.two_pi_pos (-Real.pi) t
      rw [zsmul_eq_mul] at this
      push_cast; linarith
    · exact (toIocMod_mem_Ioc Real.two_pi_pos (-Real.pi) t).1
  have hpi := Real.pi_pos
  have hpi4 := Real.pi_le_four
  set p0 : Pose := ⟨0, 0, 0⟩ with hp0
  set r : ℝ := 13 / 10 / freeMap.res with hr
  have hr' : r = 13 / 10 := by rw [hr]; simp [freeMap]
  set A := Spec.drive r p0 (.turn .left .fwd) (Real.pi / 4) with hA
  set B := Spec.drive r A (.straight .fwd) 20 with hB
  set G := Spec.drive r B (.turn .left .fwd) (Real.pi / 4) with hG
  have hr0 : 0 ≤ r := by rw [hr']; norm_num
  have hAB : eucl A.pt B.pt = 20 := by
    have : dist2 A.pt B.pt = 20 ^ 2 := by
      rw [hB]
      unfold dist2 Pose.pt Spec.drive
      simp only [dirSign]
      have := Real.sin_sq_add_cos_sq A.theta
      calc (A.x - (A.x + 1 * 20 * Real.cos A.theta)) ^ 2 + (A.y - (A.y + 1 * 20 * Real.sin A.theta)) ^ 2
          = 400 * (Real.sin A.theta ^ 2 + Real.cos A.theta ^ 2) := by ring
        _ = 20 ^ 2 := by rw [this]; norm_num
    unfold eucl
    rw [this, Real.sqrt_sq (by norm_num)]
  have hcent : eucl (turnCentre r .left p0) (turnCentre r .left G) = 20 := by
    have e1 : turnCentre r .left G = turnCentre r .left B := turnCentre_turn r .left .fwd B _
    have e2 : turnCentre r .left A = turnCentre r .left p0 := turnCentre_turn r .left .fwd p0 _
    rw [e1, ← e2, ← hAB]
    have hth : B.theta = A.theta := rfl
    unfold eucl dist2 turnCentre Pose.pt
    rw [hth]
    simp only
    congr 1
    ring
  let st0 : St := ⟨gen0, gen0B, [], expInit 10 0, true⟩
  let nd : Node := ⟨p0, 1, true⟩
  let gl : Node := ⟨G, 0, true⟩
  let st1 : St := ⟨gen0, gen0B, [], ⟨11, 10, 1, 1⟩, true⟩
  have h0 : ExpReach clamp 10 true true st0 := ExpReach.new (junk := 0) (junkF := true) (by rw [new_eq]; rfl)
  have hs1 : expStep 10 st0.thr 1 = .ok (false, (⟨11, 10, 1, 1⟩ : ExpSt ℝ)) := by
    simp [expStep, expInit, st0]
  have h1 : ExpReach clamp 10 true true st1 := by
    refine ExpReach.step (start := nd) (goal := gl) (fuel := 0) (map := freeMap) (b := false) h0 (by simp [nd]) ?_
    unfold St.expand
    simp only [nd, Bool.not_true, Bool.false_and, Bool.and_false, Bool.false_eq_true, if_false]
    have : expStep 10 st0.thr 1 = .ok (false, (⟨11, 10, 1, 1⟩ : ExpSt ℝ)) := hs1
    rw [this]
    rfl
  have hatt : expStep 10 st1.thr nd.h = .ok (true, (⟨0, 10, 1, 1⟩ : ExpSt ℝ)) := by
    simp [expStep, st1, nd]
  have d1 := drive_dist hr0 p0 (.turn .left .fwd) (Real.pi / 4) (by positivity)
  have d3 := drive_dist hr0 B (.turn .left .fwd) (Real.pi / 4) (by positivity)
  rw [← hA] at d1; rw [← hG] at d3
  simp only at d1 d3
  have tr1 := eucl_triangle A.pt p0.pt B.pt
  have tr2 := eucl_triangle p0.pt G.pt B.pt
  rw [eucl_comm A.pt p0.pt] at tr1
  rw [eucl_comm G.pt B.pt] at tr2
  rw [hr'] at d1 d3
  obtain ⟨n, hn⟩ := expand_complete hC hopen (N := 10) (by norm_num) (by norm_num) h1 (map := freeMap)
    (by simp [freeMap]) (by simp [freeMap]; norm_num) (fun _ _ => ⟨rfl, rfl⟩) nd gl (by simp [nd]) rfl hatt
    .left .left (Real.pi / 4) 20 (Real.pi / 4) (by positivity) (by norm_num) (by positivity) (by linarith)
    (by show 2 * r ≤ eucl (turnCentre r .left p0) (turnCentre r .left G); rw [hcent, hr']; norm_num)
    ⟨rfl, rfl, 0, by simp [driveAll, cscForward]; rfl⟩
    (by show 2 ≤ eucl p0.pt G.pt; linarith)
    (by simp only [freeMap]; nlinarith)
  obtain ⟨st', hst'⟩ := hn n (le_refl _)
  exact ⟨clamp, st1, st', nd, gl, n, h1, hst'⟩

end PathPlanning.RSExp
