import Verif.Props.LaterClearance
import Verif.Props.HybridRun

/-!
# C107: a concrete case
-/

noncomputable section
namespace PathPlanning
open Spec RSExp

theorem laterStart_init {w h : Nat} {start goal : Pose} {k : SNode} (hk : LaterStart (initContent (w := w) (h := h)) start goal k) :
    StartPose start goal k := by
  obtain ⟨n, e1, e2, _, e3, e4, e5, e6, e7, _, e9⟩ := hk
  refine ⟨?_, ?_, e5, e6, e7, e9⟩
  · rw [e3, ← e1]; rfl
  · rw [e4, ← e2]; rfl

theorem roadFrom_reach {adv : SNode → ℝ → SNode → Prop} {m : GridMap ℝ} {skips : Nat} {Start : SNode → Prop} {start goal : Pose}
    (hS : ∀ k, Start k → StartPose start goal k) {k : SNode} (h : RoadFrom adv m skips Start k) :
    RoadReach adv m skips start goal k := by
  induction h with
  | start h => exact .start (hS _ h)
  | step _ h2 h3 ih => exact .step ih h2 h3

/-- The result of a search does not depend on the fuel. -/
theorem pad_unique {clamp : ℝ → ℝ} {m : GridMap ℝ} {A : KAlgo (PadCell m.width m.height) SNode ℝ}
    {O : OpenList (PadCell m.width m.height) ℝ} {cfg : SCfg (PadCell m.width m.height) ℝ} {start goal : Pose} {f f' : Nat}
    {r r' : CRes (List SNode)} (h : padFindPath clamp A O cfg start goal f = some r)
    (h' : padFindPath clamp A O cfg start goal f' = some r') : r = r' := by
  unfold padFindPath at h h'
  cases hi : padInit clamp m start goal with
  | throw e => rw [hi] at h h'; rw [← Option.some.inj h, ← Option.some.inj h']
  | ub => rw [hi] at h h'; rw [← Option.some.inj h, ← Option.some.inj h']
  | ok t =>
    obtain ⟨sp, s, gp, g⟩ := t
    rw [hi] at h h'
    unfold kFindPath at h h'
    simp only [Option.map_eq_some_iff] at h h'
    obtain ⟨a, ha, rfl⟩ := h
    obtain ⟨c, hc', rfl⟩ := h'
    rw [kLoop_fuel _ _ _ _ _ ha hc']

namespace HybridRun
variable {clamp : ℝ → ℝ}

/-- The search with expansion of `hybrid_run`, as a search on an object after `setMap`: the hypotheses of `dyn_later_hybrid_safe` are
met with a path that is not empty. -/
theorem later_run (hc : ClampSpec clamp) (hopen : ∀ t, -Real.pi < clamp t) :
    ∃ x fuel q st x', St.new 0 true true 0 true = .ok x ∧
      PadUsed (dynSteerAlgo clamp hP (1 / 10) (1 / 10) hmap 0 hbres hS) PriorityManager (fun _ => Label.fresh 0) initContent ∧
      padFindXOn clamp (dynSteerAlgo clamp hP (1 / 10) (1 / 10) hmap 0 hbres hS) (rsExp clamp 0 true true hmap) PriorityManager hcfg
        (fun _ => Label.fresh 0) initContent hstart hgoal x fuel = some (.ok q, st, x') ∧ q ≠ [] ∧
      Inflated hmap (max (dynMargin hP 0) (expMargin hmap 0)) (fun o => o = (58, 30)) ∧
      (SafeLaterHybridPath clamp (DynAdv clamp hP hS.so) hmap 0 (LaterStart (w := hmap.width) (h := hmap.height) initContent hstart hgoal)
          hgoal (DynSafe hP fun o => o = (58, 30)) (fun o => o = (58, 30)) q ∨
        SafeLaterStartWay clamp (DynAdv clamp hP hS.so) hmap 0 (LaterStart (w := hmap.width) (h := hmap.height) initContent hstart hgoal)
          hgoal (fun o => o = (58, 30)) q) := by
  obtain ⟨x, fuel, q, x', hx, hrun, hq, _, f', hplain⟩ := hybrid_run hc hopen
  have hne : q ≠ [] := by
    obtain ⟨l, k, e, es, kg, hq, _⟩ := hq
    rw [hq]; simp
  obtain ⟨i1, i2, in1, in2⟩ := ends
  rw [← padFindXOn_fresh] at hrun
  simp only [Option.map_eq_some_iff] at hrun
  obtain ⟨⟨r, st, x1⟩, h4, h5⟩ := hrun
  simp only [Prod.mk.injEq] at h5
  obtain ⟨rfl, rfl⟩ := h5
  have hu : PadUsed (dynSteerAlgo clamp hP (1 / 10) (1 / 10) hmap 0 hbres hS) PriorityManager (fun _ => Label.fresh 0) initContent :=
    .setMap
  refine ⟨x, fuel, q, st, x1, hx, hu, h4, hne, inflated, ?_⟩
  rcases dyn_later_hybrid_safe hc hopen (by norm_num [hP]) (by norm_num [hP]) hmap_ok (by norm_num [hP]) (by norm_num [hP]) prioLawful
    SearchEx.topRef_ok (le_refl 0) (by norm_num) (by norm_num [hmap, ClearEx.boxMap]) (by rw [radius]; norm_num)
    (show (50 : UInt8) < 200 by decide) (fun _ _ => le_refl _) i1 i2 hu (.new hx) h4 inflated (by
      rintro k _ ⟨k', h1, h2, h3⟩
      have := far hc (roadFrom_reach (fun _ h => laterStart_init h) h1)
      unfold FarFromEdge at this ⊢
      rw [← h2, ← h3]; exact this) with ⟨f2, hp, _⟩ | h | h
  · exfalso
    have hp' := congrArg (Option.map Prod.fst) hp
    have e := padFindOn_fresh (clamp := clamp) (O := PriorityManager) (cfg := hcfg) (start := hstart) (goal := hgoal)
      (dynSteerAlgo clamp hP (1 / 10) (1 / 10) hmap 0 hbres hS) f2
    have : (.ok q : CRes (List SNode)) = .ok [] := pad_unique (e.symm.trans hp') hplain
    exact hne (CRes.ok.inj this)
  · exact .inl h
  · exact .inr h

end HybridRun
end PathPlanning
