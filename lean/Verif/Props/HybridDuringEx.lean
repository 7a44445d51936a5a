import Verif.Props.HybridDuringRS
import Verif.Props.HybridRun

/-!
# C121: the hypotheses are met; an expansion on the present map after steps of an older one
-/

noncomputable section
namespace PathPlanning
open Spec RSExp

namespace XDur

/-- On a grid map that does not change, this is the search of C79. -/
theorem pad_unchanged {clamp : ℝ → ℝ} {m : GridMap ℝ} {skips : Nat} {b : Bres ℝ} {S : SteerCfg} {pd : Nat}
    {mvs : List (SNode → List SNode → Option (ℝ × SNode))} {isg : SNode → SNode → Option SNode → Bool} {datas : Nat → List UInt8}
    {O : OpenList (PadCell m.width m.height) ℝ} {cfg : SCfg (PadCell m.width m.height) ℝ} {start goal : Pose} {n : Int} {ef eb : Bool}
    (h : ∀ j, datas j = m.data) (x : St) (fuel : Nat) :
    (padFindPathXDuring clamp (padAlgo clamp m skips b S mvs pd isg) skips b n ef eb datas O cfg start goal x fuel).map
      (fun r => (r.1, r.2.1)) =
    padFindPathX clamp (padAlgo clamp m skips b S mvs pd isg) (rsExp clamp n ef eb m) O cfg start goal x fuel := by
  obtain rfl : datas = fun _ => m.data := funext h
  unfold padFindPathXDuring padFindPathX
  cases padInit clamp m start goal with
  | throw e => rfl
  | ub => rfl
  | ok r =>
    obtain ⟨sp, s, gp, g⟩ := r
    exact unchanged (A := padAlgo clamp m skips b S mvs pd isg) (cfg := { cfg with start := s, goal := g })
      (steerUsable (shown m m.data) skips b) (rsExp clamp n ef eb (shown m m.data)) fuel _ x

end XDur

/-- A search as in `XDur.dyn_hybrid_during` that returns a path with an expansion. -/
theorem XDur.example_path {clamp : ℝ → ℝ} (hc : ClampSpec clamp) (hopen : ∀ t, -Real.pi < clamp t) :
    ∃ x fuel q x' i, St.new 0 true true 0 true = .ok x ∧
      padFindPathXDuring clamp (dynSteerAlgo clamp HybridRun.hP (1 / 10) (1 / 10) HybridRun.hmap 0 HybridRun.hbres HybridRun.hS) 0 HybridRun.hbres
        0 true true (fun _ => HybridRun.hmap.data) PriorityManager HybridRun.hcfg HybridRun.hstart HybridRun.hgoal x fuel =
        some (.ok q, x', i) ∧
      HybridPath clamp (DynAdv clamp HybridRun.hP HybridRun.hS.so) HybridRun.hmap 0 HybridRun.hstart HybridRun.hgoal True q := by
  obtain ⟨x, fuel, q, x', h1, h2, h3, _⟩ := HybridRun.hybrid_run hc hopen
  have hu := XDur.pad_unchanged (clamp := clamp) (m := HybridRun.hmap) (datas := fun _ => HybridRun.hmap.data) (n := 0) (ef := true)
    (eb := true) (fun _ => rfl)
    (skips := 0) (b := HybridRun.hbres) (S := HybridRun.hS) (mvs := dynMoves clamp HybridRun.hP HybridRun.hS.so HybridRun.hmap.res) (pd := 0)
    (isg := fun g k _ => dynIsGoal HybridRun.hP.resolution (1 / 10) (1 / 10) g k) (O := PriorityManager) (cfg := HybridRun.hcfg)
    (start := HybridRun.hstart) (goal := HybridRun.hgoal) x fuel
  replace hu := hu.trans h2
  rw [Option.map_eq_some_iff] at hu
  obtain ⟨⟨r, x1, i⟩, g1, g2⟩ := hu
  cases g2
  exact ⟨x, fuel, q, x1, i, h1, g1, h3⟩

/-- All hypotheses of `XDur.dyn_hybrid_during` hold for it. -/
example {clamp : ℝ → ℝ} (hc : ClampSpec clamp) (hopen : ∀ t, -Real.pi < clamp t) : True := by
  obtain ⟨x, fuel, q, x', i, hx, h, _⟩ := XDur.example_path hc hopen
  have := XDur.dyn_hybrid_during (Q := HybridRun.hP) (datas := fun _ => HybridRun.hmap.data) (skips := 0) (b := HybridRun.hbres) (S := HybridRun.hS)
    (n := 0) (ef := true) (eb := true) (cfg := HybridRun.hcfg) (distThr := 1 / 10) (angThr := 1 / 10)
    hc hopen (by norm_num [HybridRun.hP]) (by norm_num [HybridRun.hP]) HybridRun.hmap_ok
    (fun _ => HybridRun.hmap_ok.len) prioLawful SearchEx.topRef_ok le_rfl (by norm_num)
    (by norm_num [HybridRun.hmap, ClearEx.boxMap]) (by norm_num [HybridRun.hmap, ClearEx.boxMap]) (fun _ _ => le_rfl)
    HybridRun.ends.1 HybridRun.ends.2.1 (.new hx)
  trivial

namespace XDurEx

/-- During the first iteration the map accepts every step, afterwards none. -/
def us (j : Nat) (_ _ : Fin 9) : CRes Bool := .ok (decide (j = 0))

/-- An expansion that succeeds at pose 4, but not during the first iteration. -/
def Es (j : Nat) : KExp Nat (Fin 9) Nat where
  expand x k _ _ := .ok (decide (k = 4 ∧ 1 ≤ j), x + 1)
  get _ := [4, 8]
  turn k _ := k

theorem first : xIterate (KinEx.A.withUsable (us 0)) (Es 0) KinEx.cfg (kInit KinEx.A KinEx.P KinEx.cfg KinEx.kin0) 0 =
    .more HybridEx.st1 1 := by
  have h : HybridEx.toy1 = some HybridEx.st1 := (Option.some_get HybridEx.toy1_some).symm
  unfold HybridEx.toy1 KinEx.next at h
  have hA : KinEx.A.withUsable (us 0) = KinEx.A := rfl
  rw [hA]
  have hk : kIterate KinEx.A KinEx.cfg (kInit KinEx.A KinEx.P KinEx.cfg KinEx.kin0) = .more HybridEx.st1 := by
    cases hi : kIterate KinEx.A KinEx.cfg (kInit KinEx.A KinEx.P KinEx.cfg KinEx.kin0) with
    | more s => rw [hi] at h; cases h; rfl
    | done r s => rw [hi] at h; cases h
  have hn : KinEx.P.next (kInit KinEx.A KinEx.P KinEx.cfg KinEx.kin0).s.opn = some (0, KinEx.P.empty) := by rfl
  unfold xIterate
  rw [hn, hk]
  rfl

theorem st1_exp : HybridEx.st1.s.expansions = 1 := by decide +kernel

/-- **C121, finding.**  The path `0, 4` with the expansion `4, 8` is returned although the map of the last moment - the one that
accepted the expansion - does not accept the step from `0` to `4`: old steps are not tested again. -/
theorem run : xFindPathDuring KinEx.A us Es KinEx.P KinEx.cfg KinEx.kin0 0 2 = some (.ok [0, 4, 4, 8], 2, 1) ∧
    ∀ c, ¬ LegalStep (KinEx.A.withUsable (us 1)) 0 c 4 := by
  refine ⟨?_, ?_⟩
  swap
  · rintro c ⟨mv, _, ps, _, h⟩
    simp [KAlgo.withUsable, us] at h
  unfold xFindPathDuring
  rw [xSearchDuring]
  have e0 : (kInit KinEx.A KinEx.P KinEx.cfg KinEx.kin0).s.expansions = 0 := by rfl
  rw [e0, first]
  simp only
  rw [xSearchDuring, st1_exp]
  have hn := HybridEx.st1_next
  cases hx : KinEx.P.next HybridEx.st1.s.opn with
  | none => rw [hx] at hn; cases hn
  | some co =>
    obtain ⟨c, o⟩ := co
    rw [hx] at hn
    simp only [Option.map_some, Option.some.injEq] at hn
    subst hn
    have hi : xIterate (KinEx.A.withUsable (us 1)) (Es 1) KinEx.cfg HybridEx.st1 1 = .done (.ok [0, 4, 4, 8]) 2 := by
      unfold xIterate
      rw [hx]
      simp only
      rw [if_neg (by decide)]
      set lab := (popNode ((KinEx.A.withUsable (us 1)).alg HybridEx.st1.s.lab HybridEx.st1.kin) KinEx.cfg HybridEx.st1.s 2 o).lab with hlab
      have e : ∀ m, (lab m).prev = (HybridEx.st1.s.lab m).prev := by
        intro m
        rw [hlab]
        unfold popNode setLab
        simp only
        split_ifs with h
        · rw [h]
        · rfl
      have hb : backtrackCopy lab [0] 2 = .ok [0, 2] := by
        unfold backtrackCopy
        rw [e 2, HybridEx.st1_prev.1]
        simp only [e 0, HybridEx.st1_prev.2]
        rw [if_neg (by decide), backtrackFrom, if_pos (by decide)]
      have hl : xLoop (Es 1) KinEx.cfg.start lab HybridEx.st1.kin 2 KinEx.cfg.goal 1 = .ok (some [0, 4, 4, 8], 2) := by
        show xLoop (Es 1) [0] lab HybridEx.st1.kin 2 [4] 1 = _
        rw [xLoop]
        simp only [Es, CRes.bind, HybridEx.st1_kin.2.1, le_refl, and_true, decide_true, if_true, xPath, hb]
        simp [HybridEx.st1_kin]
      rw [hl]
    rw [hi]

/-- The hypotheses of `XDur.result` are met by it, and the path ends with an expansion of the map of the last moment. -/
theorem ends_expanded : ∃ x' k kg, EndsExpandedAt (onSome KinEx.A us 2) Es 1 (Exact KinEx.A KinEx.P KinEx.cfg ∧ OnlyFewer us) [0] [4]
    KinEx.kin0 0 x' [0, 4, 4, 8] k kg := by
  rcases XDur.result (Es := Es) KinEx.costOk prioLawful KinEx.minTop_ok run.1 with ⟨_, f', E, h, _⟩ | ⟨e, h, _⟩ | ⟨h, _⟩ | ⟨q, k, kg, h, h2⟩
  · obtain ⟨_, _, _, _, kl, h5, _, h6⟩ := KDur.path (A := KinEx.A) KinEx.costOk prioLawful KinEx.minTop_ok h (by simp)
    obtain ⟨w, _, g, _, kg, pv, h7, _⟩ := h6 rfl
    simp only [List.getLast?_cons_cons, List.getLast?_singleton, Option.some.injEq] at h5
    rw [← h5] at h7
    simp [KinEx.A, onSome] at h7
  · cases h
  · cases h
  · cases h
    exact ⟨_, k, kg, h2⟩

end XDurEx
end PathPlanning
