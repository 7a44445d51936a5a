import Verif.Spec.HybridClearance
import Verif.Props.HybridEx
import Verif.Props.RSMotionCsc
import Verif.Props.SteerClearance

/-!
# C103: hybrid paths keep away from obstacles, from the start to the goal
-/

noncomputable section
namespace PathPlanning
open Spec RSExp

/-- A cell tested free is not an occupied cell, with a sensible choice of thresholds. -/
theorem notOccupied_of_mapIf {m : GridMap ℝ} (hth : m.lower < m.upper) {c : Int × Int}
    (h : (Sampling.mapIf m).inMap c.1 c.2 = true → (Sampling.mapIf m).free c.1 c.2 = true) : NotOccupied m c := by
  intro hin
  have hf := h hin
  simp only [Sampling.mapIf, decide_eq_true_eq] at hf
  unfold GridMap.isFree at hf
  unfold GridMap.isOccupied
  cases hv : m.getValue ⟨c.1.toNat, c.2.toNat⟩ with
  | ok v =>
    rw [hv] at hf
    simp only [CRes.ok_bind, CRes.pure_eq, CRes.ok.injEq, GridMap.freeByte, GridMap.occByte] at hf ⊢
    cases hn : m.isNoInfoByte v
    · rw [hn] at hf
      simp only [Bool.false_eq_true, if_false, decide_eq_true_eq] at hf
      simp only [Bool.false_eq_true, if_false, decide_eq_false_iff_not, UInt8.not_le]
      exact UInt8.lt_of_le_of_lt hf hth
    · simp
  | throw e => rw [hv] at hf; cases hf
  | ub => rw [hv] at hf; cases hf

theorem notOccupied_of_pt {m : GridMap ℝ} (wf : m.WellFormed) {c : Int × Int} (h : ptOccupied m c.1 c.2 = .ok false) :
    NotOccupied m c := fun hin => by
  rw [← ((pt_spec m wf c.1 c.2).1 hin).2.1]; exact h

section
variable {clamp : ℝ → ℝ} {m : GridMap ℝ} {skips : Nat} {start goal : Pose} {adv : SNode → ℝ → SNode → Prop} {D : ℝ}

/-- Where the expansion begins: the last step before it was tested up to this pose. -/
theorem lineOk_end {a b : SNode} (wf : m.WellFormed) (h : LineOk m skips a b) (ha : FarFromEdge m a) (hb : FarFromEdge m b) :
    ∃ c, CellsWithin (skips + 1) (⌊b.x⌋, ⌊b.y⌋) c ∧ NotOccupied m c := by
  obtain ⟨l, hl, l1, l2⟩ := lineCell_cover m ⌊a.x⌋ ⌊a.y⌋ ⌊b.x⌋ ⌊b.y⌋ 1 zero_le_one le_rfl
  obtain ⟨c, h3, h4⟩ := lineOk_near wf h ha hb hl
  refine ⟨c, ?_, h4⟩
  rw [add_comm]
  refine RS.cellsWithin_trans (b := lineCell m ⌊a.x⌋ ⌊a.y⌋ ⌊b.x⌋ ⌊b.y⌋ l) ?_ h3
  rw [show (⌊a.x⌋ : ℝ) + 1 * ((⌊b.x⌋ : ℝ) - (⌊a.x⌋ : ℝ)) = (⌊b.x⌋ : ℝ) by ring] at l1
  rw [show (⌊a.y⌋ : ℝ) + 1 * ((⌊b.y⌋ : ℝ) - (⌊a.y⌋ : ℝ)) = (⌊b.y⌋ : ℝ) by ring] at l2
  exact ⟨by exact_mod_cast l1, by exact_mod_cast l2⟩

theorem goalPose_cell {k : SNode} (h : GoalPose clamp adv m skips start goal k) : ⌊k.x⌋ = ⌊goal.x⌋ ∧ ⌊k.y⌋ = ⌊goal.y⌋ := by
  rcases h with ⟨h1, h2, _⟩ | ⟨_, h1, h2, _⟩
  · rw [h1, h2]; simp
  · exact ⟨h1, h2⟩

/-- How far from a cell that is not occupied the vehicle can be during an expansion. -/
def expMargin (m : GridMap ℝ) (skips : Nat) : Int := turnGap (13 / 10 / m.res) + (skips + 1)

theorem hybrid_safe {ex : Prop} {safe : SNode → SNode → Prop} {obstacle : Int × Int → Prop} {q : List SNode}
    (wf : m.WellFormed) (hth : m.lower < m.upper) (hres : 2 ≤ 13 / 10 / m.res)
    (h : HybridPath clamp adv m skips start goal ex q) (hi : Inflated m (expMargin m skips) obstacle)
    (hin : ∀ k ∈ q, (∃ k', RoadReach adv m skips start goal k' ∧ k'.x = k.x ∧ k'.y = k.y) → FarFromEdge m k)
    (hstep : ∀ x c y, RoadStep adv m skips x c y → FarFromEdge m x → FarFromEdge m y → safe x y) :
    SafeHybridPath clamp adv m skips start goal ex safe obstacle q := by
  obtain ⟨l, k, e, es, kg, hq, hl, hstart, hre, t1, t2, t3, _, f1, f2, _, hg, he, o, o', a1, L, a3, w1, w2, w3, w4, w5, w6, w7⟩ := h
  have hfar : ∀ y ∈ l ++ [k], FarFromEdge m y := by
    intro y hy
    rcases List.mem_append.1 hy with hy | hy
    · exact hin y (by rw [hq]; simp [hy]) ⟨y, hre y (by simp [hy]), rfl, rfl⟩
    · rw [List.mem_singleton.1 hy]
      have := hin { k with theta := e.theta } (by rw [hq]; simp) ⟨k, hre k (by simp), rfl, rfl⟩
      exact this
  have hsame : ∀ {x' x : SNode}, SameState clamp x' x → FarFromEdge m x → FarFromEdge m x' := by
    intro x' x hs hx
    unfold FarFromEdge
    rw [hs.1, hs.2.1]; exact hx
  refine ⟨l, k, e, es, kg, hq, hl, he, hstart, ?_, ?_, hg, o, o', a1, L, a3, w1, w2, w3, w4, w5, w7, ?_⟩
  · intro x y hxy
    have hx := hfar x (hxy.subset (by simp))
    have hy := hfar y (hxy.subset (by simp))
    by_cases hex : ex
    · obtain ⟨c, hc⟩ := t3 hex x y hxy
      exact ⟨x, ⟨rfl, rfl, rfl, rfl⟩, fun _ => rfl, hstep x c y hc hx hy⟩
    · obtain ⟨x', c, s1, _, s3⟩ := t1 x y hxy
      exact ⟨x', s1, fun h => absurd h hex, hstep x' c y s3 (hsame s1 hx) hy⟩
  · intro x y hxy
    obtain ⟨c, hc⟩ := t2 x y hxy
    exact hstep x c y hc (hfar x (hxy.subset (by simp))) (hfar y (hxy.subset (by simp)))
  · intro p c hp hcell
    obtain ⟨l', z, rfl⟩ : ∃ l' z, l = l' ++ [z] := ⟨l.dropLast, l.getLast hl, (List.dropLast_append_getLast hl).symm⟩
    have hzk : [z, k] <:+: l' ++ [z] ++ [k] := ⟨l', [], by simp⟩
    obtain ⟨z', c0, s1, _, s3⟩ := t1 z k hzk
    have hs := lineOk_end wf s3.2.2 (hsame s1 (hfar z (hzk.subset (by simp)))) (hfar k (by simp))
    have hg' : ∃ c, CellsWithin ((skips : Int) + 1) (⌊(poseOf kg).x⌋, ⌊(poseOf kg).y⌋) c ∧ NotOccupied m c := by
      obtain ⟨g1, g2⟩ := goalPose_cell hg
      refine ⟨(⌊goal.x⌋, ⌊goal.y⌋), ?_, notOccupied_of_pt wf f2⟩
      simp only [poseOf, g1, g2]
      constructor <;> simp <;> omega
    obtain ⟨c', b1, b2⟩ := RS.csc_near (map := Sampling.mapIf m) (Ok := NotOccupied m) (D := (skips : Int) + 1)
      (fun x y h => by
        have := (GridMap.isInMap_iff m wf.w wf.h x y).1 h
        omega) hres (fun c h => notOccupied_of_mapIf hth h) (by omega) w6 w5 hs hg' hp hcell
    exact inflated_clear hi b1 b2

end

section
variable {clamp : ℝ → ℝ} {m : GridMap ℝ} {skips : Nat} {b : Bres ℝ} {S : SteerCfg}
  {O : OpenList (PadCell m.width m.height) ℝ} {cfg : SCfg (PadCell m.width m.height) ℝ} {start goal : Pose}
  {n : Int} {ef eb : Bool}

/-- **C103** for `DynamicSteeringNeighborhood`.  On a map in which everything within `dynMargin` and `expMargin` cells of an
obstacle is occupied, a search with Reeds-Shepp expansion finds what the search without expansion finds (see C101), or a path
that can be driven to the goal without touching a cell with an obstacle, if those of its poses that the
neighbourhood reaches are well inside the map. -/
theorem dyn_hybrid_safe {P : DynP} {distThr angThr : ℝ} (hc : ClampSpec clamp) (hopen : ∀ t, -Real.pi < clamp t)
    (hd : 0 ≤ P.distStep) (hr : 0 < P.resolution) (hm : SteerMapOk m P.stepLen)
    (hst : 0 ≤ P.maxSteer ∧ P.maxSteer < 90) (hla : 0 < P.la)
    (L : Lawful O) (ht : TopOk cfg.top) (hN : 0 ≤ n) (hN2 : n < 2147483648) (h0 : 0 < m.res) (h2r : 2 ≤ 13 / 10 / m.res)
    (hth : m.lower < m.upper) (hheur : ∀ a b, 0 ≤ S.heur a b) (h1 : IntPose start) (h2 : IntPose goal) {x : St}
    (hx : ExpReach clamp n ef eb x) {fuel : Nat} {q : List SNode} {x' : St}
    (h : padFindPathX clamp (dynSteerAlgo clamp P distThr angThr m skips b S) (rsExp clamp n ef eb m) O cfg start goal x fuel =
      some (.ok q, x'))
    {obstacle : Int × Int → Prop} (hi : Inflated m (max (dynMargin P skips) (expMargin m skips)) obstacle)
    (hin : ∀ k ∈ q, (∃ k', RoadReach (DynAdv clamp P S.so) m skips start goal k' ∧ k'.x = k.x ∧ k'.y = k.y) → FarFromEdge m k) :
    (∃ f', padFindPath clamp (dynSteerAlgo clamp P distThr angThr m skips b S) O cfg start goal f' = some (.ok q)) ∨
    SafeHybridPath clamp (DynAdv clamp P S.so) m skips start goal
      ((∀ k g, S.heur k g = 0) ∧ cfg.heurGoal = none ∧ Nonempty (MinFirst O))
      (fun x y => ∃ ds, (ds = P.la ∨ ds = P.distStep) ∧ abs y.steer ≤ P.maxSteer ∧
        SafeDrive P.la P.resolution ((y.steer : ℝ) / 180 * Real.pi) (driveSign P.reversed y.forward) ds obstacle x y)
      obstacle q := by
  have h13 : m.res ≤ 13 / 10 := by
    rw [le_div_iff₀ h0] at h2r; linarith
  rcases dyn_hybrid hc hopen hd hr hm L ht hN hN2 h0 h13 hheur h1 h2 hx h with ⟨_, p⟩ | ⟨_, _, q', e, p⟩ | ⟨e, _⟩
  · exact .inl p
  · simp only [CRes.ok.injEq] at e
    subst e
    refine .inr (hybrid_safe hm.wf hth h2r p (fun o c ho hw => hi o c ho (hw.mono (le_max_right _ _))) hin ?_)
    intro x c y hs hx hy
    obtain ⟨d1, d2, _, d4⟩ := dyn_hybrid_steps hc hd hr hst hla.ne' hs
    have hds : ∀ Q : Prop, ∀ [Decidable Q], (if Q then P.la else P.distStep) = P.la ∨ (if Q then P.la else P.distStep) = P.distStep := by
      intro Q _; split <;> simp
    refine ⟨_, hds _, d1, d4, fun p c hp hcell => ?_⟩
    obtain ⟨c', b1, b2⟩ := dyn_step_near hm.wf hd hr hst.2 hla d2 hx hy d1 (hds _) d4 hp hcell
    exact inflated_clear hi (b1.mono (le_max_left _ _)) b2
  · cases e

/-- **C103** for `SteeringNeighborhood`. -/
theorem steer_hybrid_safe {P : SteerP} {distance : Int} {garbage : Nat × Nat → Int} (hc : ClampSpec clamp)
    (hopen : ∀ t, -Real.pi < clamp t) (hd : 0 ≤ P.distStep) (hr : 0 < P.resolution) (hm : SteerMapOk m P.distPx)
    (hst : 0 ≤ P.maxSteer ∧ P.maxSteer < 90) (hla : 0 < P.la)
    (L : Lawful O) (ht : TopOk cfg.top) (hN : 0 ≤ n) (hN2 : n < 2147483648) (h0 : 0 < m.res) (h2r : 2 ≤ 13 / 10 / m.res)
    (hth : m.lower < m.upper) (hheur : ∀ a b, 0 ≤ S.heur a b) (h1 : IntPose start) (h2 : IntPose goal) {x : St}
    (hx : ExpReach clamp n ef eb x) {fuel : Nat} {q : List SNode} {x' : St}
    (h : padFindPathX clamp (steerAlgo clamp P distance garbage m skips b S) (rsExp clamp n ef eb m) O cfg start goal x fuel =
      some (.ok q, x'))
    {obstacle : Int × Int → Prop} (hi : Inflated m (max (steerMargin P skips) (expMargin m skips)) obstacle)
    (hin : ∀ k ∈ q, (∃ k', RoadReach (SteerAdv clamp P S.so) m skips start goal k' ∧ k'.x = k.x ∧ k'.y = k.y) → FarFromEdge m k) :
    (∃ f', padFindPath clamp (steerAlgo clamp P distance garbage m skips b S) O cfg start goal f' = some (.ok q)) ∨
    SafeHybridPath clamp (SteerAdv clamp P S.so) m skips start goal
      ((∀ k g, S.heur k g = 0) ∧ cfg.heurGoal = none ∧ Nonempty (MinFirst O))
      (fun x y => abs y.steer ≤ P.maxSteer ∧
        SafeDrive P.la P.resolution ((y.steer : ℝ) / 180 * Real.pi) (driveSign P.reversed y.forward) P.distStep obstacle x y)
      obstacle q := by
  have h13 : m.res ≤ 13 / 10 := by
    rw [le_div_iff₀ h0] at h2r; linarith
  rcases steer_hybrid hc hopen hd hr hm L ht hN hN2 h0 h13 hheur h1 h2 hx h with ⟨_, p⟩ | ⟨_, _, q', e, p⟩ | ⟨e, _⟩
  · exact .inl p
  · simp only [CRes.ok.injEq] at e
    subst e
    refine .inr (hybrid_safe hm.wf hth h2r p (fun o c ho hw => hi o c ho (hw.mono (le_max_right _ _))) hin ?_)
    intro x c y hs hx hy
    obtain ⟨d1, d2, d3, _⟩ := steerAdv_facts hc hst hla.ne' hd hr hs
    obtain ⟨⟨i, step, g, ps, _, _, e, _⟩, _⟩ := hs
    have hsy := advance_steer_bounded hst.1 e
    refine ⟨hsy, d1, fun p c hp hcell => ?_⟩
    obtain ⟨c', b1, b2⟩ := steer_step_near hm.wf hd hr hst.2 hla d3 hx hy hsy d1 hp hcell
    exact inflated_clear hi (b1.mono (le_max_left _ _)) b2
  · cases e

end
end PathPlanning
