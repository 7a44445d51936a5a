import Verif.Props.KinDuringExact
import Verif.Props.SteerDuringMap

/-!
# Steering searches without heuristic on a grid map on which obstacles appear (C120)
-/

noncomputable section
namespace PathPlanning.KDur
open PathPlanning Spec
set_option linter.unusedSectionVars false

/-! ### A line that is free stays free when obstacles vanish -/

theorem next_map {K : Type} (b : Bres K) (M : Option (GridMap K)) :
    ({ b with map := M } : Bres K).next = (b.next.1, { b.next.2 with map := M }) := by
  unfold Bres.next
  by_cases h : b.x = b.x1 ∧ b.y = b.y1
  · rw [if_pos h, if_pos h]
  · rw [if_neg h, if_neg h]
    by_cases h1 : 2 * b.err > b.dy
    · simp only [h1, if_true]
      split_ifs <;> rfl
    · simp only [h1, if_false]
      split_ifs <;> rfl

theorem dynScan_mono {K : Type} {hit hit' : Int → Int → CRes Bool} (h : ∀ x y, hit' x y = .ok false → hit x y = .ok false)
    {skips : Int} (M : Option (GridMap K)) : ∀ (fuel : Nat) (skip : Int) (b : Bres K),
    dynScan hit' skips fuel skip b = .ok (some false) → dynScan hit skips fuel skip { b with map := M } = .ok (some false) := by
  intro fuel
  induction fuel with
  | zero => intro skip b e; simp [dynScan] at e
  | succ fuel ih =>
    intro skip b e
    unfold dynScan at e ⊢
    rw [next_map]
    simp only at e ⊢
    by_cases hn : b.next.1 = true
    · rw [if_pos hn] at e ⊢
      obtain ⟨f, hf, e⟩ := CRes.bind_eq_ok.1 e
      cases f with
      | true => rw [if_pos rfl] at e; cases e
      | false =>
        rw [if_neg (by simp)] at e
        refine CRes.bind_eq_ok.2 ⟨false, ?_, ?_⟩
        · by_cases hs : skip = 0
          · rw [if_pos hs] at hf ⊢; exact h _ _ hf
          · rw [if_neg hs]
        · rw [if_neg (by simp)]; exact ih _ _ e
    · rw [if_neg hn]; rfl

variable {clamp : ℝ → ℝ} {m : GridMap ℝ} {skips : Nat} {b : Bres ℝ} {S : SteerCfg} {pd : Nat}
  {mvs : List (SNode → List SNode → Option (ℝ × SNode))} {isg : SNode → SNode → Option SNode → Bool} {D : ℝ}
  {adv : SNode → ℝ → SNode → Prop} {cs : List ℝ} {datas : Nat → List UInt8} {E : Nat}
  {O : OpenList (PadCell m.width m.height) ℝ} {cfg : SCfg (PadCell m.width m.height) ℝ}
  {start goal : Pose}

theorem setGrid_map (m : GridMap ℝ) (d d' : List UInt8) (b : Bres ℝ) (sx sy ex ey : ℝ) :
    ∃ M, dynSetGrid b (shown m d) sx sy ex ey = { dynSetGrid b (shown m d') sx sy ex ey with map := M } := by
  unfold dynSetGrid Bres.setGrid
  have e : ∀ x y, (shown m d').isInMap x y = (shown m d).isInMap x y := fun _ _ => rfl
  rw [e, e]
  split_ifs
  · exact ⟨b.map, rfl⟩
  · exact ⟨some (shown m d), rfl⟩

/-- A step accepted by a map is accepted by every map with fewer obstacles. -/
theorem usable_mono {d d' : List UInt8}
    (h : ∀ x y, ptFreeOrUnknown (shown m d') x y = .ok true → ptFreeOrUnknown (shown m d) x y = .ok true) {k k' : SNode}
    (hu : steerUsable (shown m d') skips b k k' = .ok true) : steerUsable (shown m d) skips b k k' = .ok true := by
  unfold steerUsable at hu ⊢
  obtain ⟨c, hc, hu⟩ := CRes.bind_eq_ok.1 hu
  refine CRes.bind_eq_ok.2 ⟨c, hc, ?_⟩
  cases c with
  | false => simp at hu
  | true =>
    simp only [Bool.not_true, Bool.false_eq_true, if_false] at hu ⊢
    obtain ⟨r, hr, hu⟩ := CRes.bind_eq_ok.1 hu
    cases r with
    | none => cases hu
    | some r =>
      simp only [CRes.pure_eq, CRes.ok.injEq] at hu
      subst hu
      refine CRes.bind_eq_ok.2 ⟨some true, ?_, rfl⟩
      unfold dynLineFreeOrUnknown at hr ⊢
      obtain ⟨f, hf, hr⟩ := CRes.bind_eq_ok.1 hr
      cases f with
      | none => cases hr
      | some f =>
        cases f with
        | true => cases hr
        | false =>
          obtain ⟨M, hM⟩ := setGrid_map m d d' b k.x k.y k'.x k'.y
          refine CRes.bind_eq_ok.2 ⟨some false, ?_, ?_⟩
          · rw [hM]
            refine dynScan_mono ?_ M _ _ _ hf
            intro x y e
            obtain ⟨g, hg, e⟩ := CRes.bind_eq_ok.1 e
            cases g with
            | false => cases e
            | true => exact CRes.bind_eq_ok.2 ⟨true, h x y hg, rfl⟩
          · obtain ⟨g, hg, e⟩ := CRes.bind_eq_ok.1 hr
            simp only [CRes.pure_eq, CRes.ok.injEq, Option.some.injEq] at e
            subst e
            exact CRes.bind_eq_ok.2 ⟨true, h _ _ hg, rfl⟩

theorem free_mono (hm : SteerMapOk m D) (hd : ∀ j, m.width * m.height ≤ (datas j).length) (hb : OnlyBlocked m datas) (j : Nat)
    (x y : Int) (h : ptFreeOrUnknown (shown m (datas (j + 1))) x y = .ok true) :
    ptFreeOrUnknown (shown m (datas j)) x y = .ok true := by
  unfold ptFreeOrUnknown at h ⊢
  have e1 : (shown m (datas (j + 1))).width = m.width := rfl
  have e2 : (shown m (datas (j + 1))).height = m.height := rfl
  have e3 : (shown m (datas j)).width = m.width := rfl
  have e4 : (shown m (datas j)).height = m.height := rfl
  rw [e1, e2] at h
  rw [e3, e4]
  by_cases hx : x < 0 ∨ y < 0 ∨ toI32 m.width ≤ x ∨ toI32 m.height ≤ y
  · rw [if_pos hx]
  · rw [if_neg hx] at h ⊢
    obtain ⟨hw, hh⟩ := hm.sizes
    rw [toI32_small (by omega), toI32_small (by omega)] at hx
    obtain ⟨o, ho⟩ : ∃ o, (shown m (datas j)).isOccupied ⟨x.toNat, y.toNat⟩ = .ok o := by
      unfold GridMap.isOccupied
      obtain ⟨v, hv⟩ := GridMap.read_ok (m := shown m (datas j)) (x := x.toNat) (y := y.toNat) hm.size (hd j)
        (by show x.toNat < m.width; omega) (by show y.toNat < m.height; omega)
      exact ⟨_, by rw [hv]; rfl⟩
    refine CRes.bind_eq_ok.2 ⟨o, ho, ?_⟩
    cases o with
    | false => rfl
    | true =>
      have := hb j x.toNat y.toNat (by omega) (by omega) ho
      rw [this] at h
      cases h

/-- **C120 (obstacles appear).**  Without heuristic, if the callback only adds obstacles (so that during the first expansion the map
is as at the beginning): every step of a returned path begins at the pose before it and is free on the map of the beginning; the
last pose passes the goal test. -/
theorem pad_exact_blocking (hc : ClampSpec clamp) (hm : SteerMapOk m D) (hd : ∀ j, m.width * m.height ≤ (datas j).length)
    (hs : StepBound mvs D) (ho : Offers mvs adv m.res)
    (ok : KCostOk (padAlgo clamp m skips b S mvs pd isg) cs) (L : Lawful O) (M : MinFirst O) (ht : TopOk cfg.top)
    (hheur : ∀ k g, S.heur k g = 0) (hhg : cfg.heurGoal = none) (hfirst : datas 0 = m.data) (hblock : OnlyBlocked m datas)
    (h1 : IntPose start) (h2 : IntPose goal) {fuel : Nat} {q : List SNode}
    (h : padFindPathDuring clamp (padAlgo clamp m skips b S mvs pd isg) skips b datas O cfg start goal fuel = some (.ok q, E)) :
    (∀ x y, [x, y] <:+: q → ∃ c, RoadStep adv m skips x c y) ∧
    ∀ kl, q.getLast? = some kl → ∃ kg pv, isg kg kl pv = true ∧ GoalPose clamp adv m skips start goal kg := by
  by_cases hne : q = []
  · subst hne
    exact ⟨fun x y hx => absurd hx.length_le (by simp), by simp⟩
  obtain ⟨sp, s, gp, g, hst, hk⟩ := find_started hc hm h1 h2 h
  obtain ⟨_, _, t3, _⟩ := path (cfg := { cfg with start := s, goal := g }) ok L ht hk hne
  obtain ⟨⟨d, t1⟩, _, kl, w, t5, t6⟩ := exact_blocking (cfg := { cfg with start := s, goal := g }) ok L M ht hheur hhg
    (fun a => add_zero a) (fun j k k' => usable_mono (free_mono hm hd hblock j)) hk hne
  have hA : (padAlgo clamp m skips b S mvs pd isg).withUsable (steerUsable (shown m (datas 0)) skips b) =
      padAlgo clamp m skips b S mvs pd isg := by rw [hfirst]; rfl
  have t1' : Drive (padAlgo clamp m skips b S mvs pd isg) q d := hA ▸ t1
  have t6' : GoalMet (padAlgo clamp m skips b S mvs pd isg) s g (padContent sp s gp g start goal) kl w := hA ▸ t6
  constructor
  · intro x y hxy
    obtain ⟨c, hl⟩ := drive_pairs t1' x y hxy
    obtain ⟨c0, hr, _⟩ := legal_road hm hs ho
      (inside hc hm (fun _ _ => padContent_inside _) (t3 x (hxy.subset (by simp)))) hl
    exact ⟨c0, hr⟩
  · intro kl' hkl
    rw [t5] at hkl
    cases hkl
    obtain ⟨_, kg, pv, r2, _, r3⟩ := hst.goalMet hc hm hs ho t6'
    exact ⟨kg, pv, r2, r3⟩

/-- **C120 for `DynamicSteeringNeighborhood`**: without heuristic, and if the callback only adds obstacles, the path can be driven as
it is on the map of the beginning. -/
theorem dyn_exact_blocking {P : DynP} {distThr angThr : ℝ} (hc : ClampSpec clamp) (hd : 0 ≤ P.distStep) (hr : 0 < P.resolution)
    (hm : SteerMapOk m P.stepLen) (hdata : ∀ j, m.width * m.height ≤ (datas j).length)
    (hst : 0 ≤ P.maxSteer ∧ P.maxSteer < 90) (hla : P.la ≠ 0)
    (L : Lawful O) (M : MinFirst O) (ht : TopOk cfg.top) (hheur : ∀ k g, S.heur k g = 0) (hhg : cfg.heurGoal = none)
    (hfirst : datas 0 = m.data) (hblock : OnlyBlocked m datas)
    (h1 : IntPose start) (h2 : IntPose goal) {fuel : Nat} {q : List SNode}
    (h : padFindPathDuring clamp (dynSteerAlgo clamp P distThr angThr m skips b S) skips b datas O cfg start goal fuel =
      some (.ok q, E)) :
    (∀ x y, [x, y] <:+: q → LineOk m skips x y ∧ nodeDist x y ≤ P.stepLen ∧
      DrivesTo P.la P.resolution ((y.steer : ℝ) / 180 * Real.pi) (driveSign P.reversed y.forward)
        (if P.reversed = false ∧ x.depth < 1 ∧ y.forward = false then P.la else P.distStep) x y) ∧
    ∀ kl, q.getLast? = some kl → ∃ kg, GoalPose clamp (DynAdv clamp P S.so) m skips start goal kg ∧
      (∃ z : Int, abs (kg.theta - kl.theta + z * (2 * Real.pi)) ≤ angThr) ∧ nodeDist kg kl * P.resolution < distThr := by
  obtain ⟨t1, t2⟩ := pad_exact_blocking hc hm hdata (dynMoves_stepBound hd hr) dyn_offers (dyn_costOk hm.res) L M ht hheur hhg
    hfirst hblock h1 h2 h
  constructor
  · intro x y hxy
    obtain ⟨c, hs⟩ := t1 x y hxy
    obtain ⟨f1, f2, f3⟩ := dynAdv_facts hc hst hla hd hr hs
    exact ⟨f3, f2, f1⟩
  · intro kl hkl
    obtain ⟨kg, pv, e1, e2⟩ := t2 kl hkl
    exact ⟨kg, e2, (dynIsGoal_iff _ _ _ _ _).1 e1⟩

end PathPlanning.KDur
