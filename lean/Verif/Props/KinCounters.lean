import Verif.Lemmas.KinCount
import Verif.Model.KinCounters
import Verif.Props.SteerSearch3
import Verif.Props.Counters

/-!
# The counters and the work of steering searches (C102)
-/

namespace PathPlanning
open Spec
set_option linter.unusedSectionVars false

section
variable {N K C : Type} [DecidableEq N] [LinearOrder C] [Fintype N]
variable {P : OpenList N C} {A : KAlgo N K C} {cs : List C} {cfg : SCfg N C} {kin0 : N → K}

theorem kFindPathStats_fst (fuel : Nat) : (kFindPathStats A P cfg kin0 fuel).map Prod.fst = kFindPath A P cfg kin0 fuel := by
  unfold kFindPathStats kFindPath
  rw [Option.map_map]
  congr 1

theorem kStats_loop {fuel : Nat} {q : CRes (List K)} {s : Stats} (h : kFindPathStats A P cfg kin0 fuel = some (q, s)) :
    ∃ r st', kLoop A cfg fuel (kInit A P cfg kin0) = some (r, st') ∧ s = ⟨st'.s.expansions, st'.s.multi, st'.s.touched⟩ ∧
      ((∃ p, q = .ok p) → ∃ p, r = .ok p) := by
  unfold kFindPathStats at h
  rw [Option.map_eq_some_iff] at h
  obtain ⟨⟨r, st'⟩, h1, h2⟩ := h
  simp only [Prod.mk.injEq] at h2
  refine ⟨r, st', h1, h2.2.symm, ?_⟩
  rintro ⟨p, rfl⟩
  cases r with
  | ok p => exact ⟨p, rfl⟩
  | throw e => cases h2.1
  | ub => cases h2.1

/-- **C102 (balance).**  After every search that returns, with every heuristic and open list: the nodes taken from the open list and the
entries still in it are exactly the start nodes and the insertions counted by `getTouchedNodes`, and `getExpansions` exceeds
`getMultiExpansions` by a number of different nodes, so by at most the number of states. -/
theorem kin_counters (Q : Counts P) {fuel : Nat} {q : List K} {s : Stats}
    (h : kFindPathStats A P cfg kin0 fuel = some (.ok q, s)) :
    (∃ left, s.expansions + left = cfg.start.length + s.touched) ∧ s.multi ≤ s.expansions ∧
      s.expansions ≤ s.multi + Fintype.card N := by
  obtain ⟨r, st', h1, rfl, _⟩ := kStats_loop h
  have hb := Balance.init (A := A.alg (fun _ => Label.fresh A.zero) kin0) Q cfg
    (freshLabels (A.alg (fun _ => Label.fresh A.zero) kin0))
  have e : (expandedNodes (freshLabels (A.alg (fun _ => Label.fresh A.zero) kin0))).card = 0 := by
    rw [Finset.card_eq_zero]
    ext n
    simp [expandedNodes, freshLabels, Label.fresh]
  rw [e] at hb
  have hb' := Balance.kLoop (A := A) (cfg := cfg) fuel (kInit A P cfg kin0) hb r st' h1
  have e1 := hb'.size
  have e2 := hb'.exp
  have e3 := Finset.card_le_univ (expandedNodes st'.s.lab)
  refine ⟨⟨Q.size st'.s.opn, ?_⟩, ?_, ?_⟩
  · show st'.s.expansions + _ = _ + st'.s.touched
    omega
  · show st'.s.multi ≤ st'.s.expansions
    omega
  · show st'.s.expansions ≤ st'.s.multi + _
    omega

/-- At the end every node marked as open is in the open list. -/
theorem done_openMem {L : Lawful P} {st st' : KSt N K C P} {r : CRes (List N)} (h : KInv A cs L cfg kin0 nopend st)
    (hi : kIterate A cfg st = .done r st') : ∀ n, (st'.s.lab n).opn = true → L.mem st'.s.opn n := by
  rcases kIterate_cases (A := A) (cfg := cfg) st with ⟨st1, e, _⟩ | ⟨r1, st1, e, _, hc⟩
  · rw [hi] at e; cases e
  · rw [hi] at e
    cases e
    rcases hc with hc | ⟨cur, o, hn, hc | ⟨t, ht, hc⟩⟩
    · rw [hc]; exact h.openMem
    · rw [hc]; exact (kpop_spec h hn (B := A.alg st.s.lab st.kin)).1.openMem
    · obtain ⟨h1, h2, _⟩ := goalLoop_quiet _ _ _ _ _ ht
      rw [hc, h1, h2]; exact (kpop_spec h hn (B := A.alg st.s.lab st.kin)).1.openMem

theorem kLoop_openMem {L : Lawful P} (ok : KCostOk A cs) (ht : TopOk cfg.top) : ∀ (fuel : Nat) (st : KSt N K C P),
    KInv A cs L cfg kin0 nopend st → (cfg.useCands = false → st.s.cands = []) → ∀ r st', kLoop A cfg fuel st = some (r, st') →
    ∀ n, (st'.s.lab n).opn = true → L.mem st'.s.opn n := by
  intro fuel
  induction fuel with
  | zero => intro st _ _ r st' h; simp [kLoop] at h
  | succ fuel ih =>
    intro st hI noc r st' h
    have h1 := kIterate_spec ok ht hI noc
    rw [kLoop] at h
    cases hi : kIterate A cfg st with
    | done r1 st1 =>
      rw [hi] at h
      simp only [Option.some.injEq, Prod.mk.injEq] at h
      rw [← h.2]
      exact done_openMem hI hi
    | more st1 =>
      rw [hi] at h h1
      exact ih st1 h1.1 h1.2.1 r st' h

/-- **C102 (work).**  Without heuristic, on freshly initialised nodes and with a min-priority open list, a search ends within
`|start| + moves · states + 1` iterations: each of the expanded states inserts at most one entry per move, and only the first time it is
expanded.  `getTouchedNodes` is at most `moves · e` and `getExpansions` at most `|start| + moves · e` where `e`, the number of
different nodes expanded, is `getExpansions - getMultiExpansions`; a node is expanded again at most once per insertion. -/
theorem kin_work (ok : KCostOk A cs) (L : Lawful P) (M : MinFirst P) (Q : Counts P) (ht : TopOk cfg.top)
    (hheur : ∀ k g, A.heur k g = A.zero) (hhg : cfg.heurGoal = none) (hadd : ∀ a, A.add a A.zero = a) (hnd : cfg.start.Nodup)
    {fuel : Nat} (hf : cfg.start.length + A.moves.length * Fintype.card N + 1 ≤ fuel) :
    ∃ q s, kFindPathStats A P cfg kin0 fuel = some (q, s) ∧
      s.multi ≤ s.expansions ∧ s.expansions ≤ s.multi + Fintype.card N ∧
      s.multi ≤ s.touched ∧ s.touched ≤ A.moves.length * (s.expansions - s.multi) ∧
      s.expansions ≤ cfg.start.length + A.moves.length * (s.expansions - s.multi) := by
  obtain ⟨r, st', h1, hw, hb⟩ := KCount.kLoop (M := M) (Q := Q) (L := L) (kin0 := kin0) ok ht hheur hhg hadd fuel
    (kInit A P cfg kin0) (KCount.init hadd hnd) (by omega)
  have e1 := hb.size
  have e2 := hb.exp
  have e3 := Finset.card_le_univ (expandedNodes st'.s.lab)
  have e4 := hw.work
  have e5 := hw.bound hb
  refine ⟨_, ⟨st'.s.expansions, st'.s.multi, st'.s.touched⟩, by unfold kFindPathStats; rw [h1]; rfl, ?_, ?_, ?_, ?_, ?_⟩
  · show st'.s.multi ≤ st'.s.expansions
    omega
  · show st'.s.expansions ≤ st'.s.multi + _
    omega
  · show st'.s.multi ≤ st'.s.touched
    have hmem := kLoop_openMem (L := L) ok ht fuel _ kInit_inv.1 (fun _ => (kInit_inv (L := L) (cs := cs)).2) r st' h1
    have hopen := members_le_size L Q (openNodes st'.s.lab) st'.s.opn (fun n hn => hmem n (by simpa [openNodes] using hn))
    have hs : Q.size st'.s.opn + st'.s.multi = (openNodes st'.s.lab).card + st'.s.updates := hw.stale
    have hu := hb.upd
    omega
  · show st'.s.touched ≤ A.moves.length * (st'.s.expansions - st'.s.multi)
    rw [show st'.s.expansions - st'.s.multi = (expandedNodes st'.s.lab).card by omega]
    exact e4
  · show st'.s.expansions ≤ _ + A.moves.length * (st'.s.expansions - st'.s.multi)
    rw [show st'.s.expansions - st'.s.multi = (expandedNodes st'.s.lab).card by omega]
    exact e5

end

/-! ### Steering searches on the chunk manager -/

noncomputable section
section
variable {clamp : ℝ → ℝ} {m : GridMap ℝ} {skips : Nat} {b : Bres ℝ} {S : SteerCfg}
  {O : OpenList (PadCell m.width m.height) ℝ} {cfg : SCfg (PadCell m.width m.height) ℝ} {start goal : Pose}
  {sp s gp g : List (PadCell m.width m.height)}

theorem padLookup_fwd {w h : Nat} {x y : Int} {t : Nat} {f : Bool} {n : PadCell w h} (e : padLookup w h x y t f = .ok (some n)) :
    n.fwd = f := by
  unfold padLookup at e
  split at e
  · simp only [CRes.ok.injEq, Option.some.injEq] at e
    rw [← e]; rfl
  · split at e <;> cases e

theorem steerLookup_fwd {w h : Nat} {k : SNode} {n : PadCell w h} (e : steerLookup clamp w h k = .ok (some n)) :
    n.fwd = k.forward := by
  unfold steerLookup at e
  obtain ⟨x, _, e⟩ := CRes.bind_eq_ok.1 e
  obtain ⟨y, _, e⟩ := CRes.bind_eq_ok.1 e
  obtain ⟨t, _, e⟩ := CRes.bind_eq_ok.1 e
  exact padLookup_fwd e

theorem getPoses_two {w h : Nat} {p : Pose} {l : List (PadCell w h)} (e : getPoses clamp w h p = .ok l) : l.Nodup ∧ l.length = 2 := by
  unfold getPoses at e
  obtain ⟨x, hx, e⟩ := CRes.bind_eq_ok.1 e
  obtain ⟨y, hy, e⟩ := CRes.bind_eq_ok.1 e
  cases x with
  | none => cases e
  | some x =>
    cases y with
    | none => cases e
    | some y =>
      cases e
      have h1 := steerLookup_fwd hx
      have h2 := steerLookup_fwd hy
      refine ⟨?_, rfl⟩
      simp only [List.nodup_cons, List.mem_singleton, List.not_mem_nil, not_false_eq_true, List.nodup_nil, and_true]
      rintro rfl
      rw [h1] at h2
      cases h2

theorem notOccupied_sublist : ∀ {ns l : List (PadCell m.width m.height)}, notOccupied m ns = .ok l → l.Sublist ns := by
  intro ns
  induction ns with
  | nil => intro l e; cases e; exact List.Sublist.slnil
  | cons n ns ih =>
    intro l e
    rw [notOccupied] at e
    obtain ⟨o, _, e⟩ := CRes.bind_eq_ok.1 e
    obtain ⟨r, hr, e⟩ := CRes.bind_eq_ok.1 e
    cases e
    cases o with
    | true => exact (ih hr).cons _
    | false => exact (ih hr).cons_cons _

theorem padInit_start (e : padInit clamp m start goal = .ok (sp, s, gp, g)) : s.Nodup ∧ s.length ≤ 2 := by
  unfold padInit at e
  obtain ⟨a, ha, e⟩ := CRes.bind_eq_ok.1 e
  obtain ⟨a', ha', e⟩ := CRes.bind_eq_ok.1 e
  obtain ⟨c, _, e⟩ := CRes.bind_eq_ok.1 e
  obtain ⟨c', _, e⟩ := CRes.bind_eq_ok.1 e
  cases e
  obtain ⟨h1, h2⟩ := getPoses_two ha
  have h3 := notOccupied_sublist ha'
  exact ⟨h3.nodup h1, h2 ▸ h3.length_le⟩

theorem padFindPathStats_fst {A : KAlgo (PadCell m.width m.height) SNode ℝ} (fuel : Nat) :
    (padFindPathStats clamp A O cfg start goal fuel).map Prod.fst = padFindPath clamp A O cfg start goal fuel := by
  unfold padFindPathStats padFindPath
  cases padInit clamp m start goal with
  | throw e => rfl
  | ub => rfl
  | ok x =>
    obtain ⟨sp, s, gp, g⟩ := x
    exact kFindPathStats_fst (A := A) (P := O) fuel

/-- The number of states of a map of `w` by `h` cells. -/
def padStates (w h : Nat) : Nat := (w + 63) * (h + 63) * 64

theorem card_padCell (w h : Nat) : Fintype.card (PadCell w h) = padStates w h := by
  simp only [Fintype.card_prod, Fintype.card_fin, Fintype.card_bool, padStates]
  ring

theorem moveList_length (lo hi n : Nat) : (moveList lo hi n).length = (hi - lo) * (n + 1) := by
  unfold moveList
  rw [List.length_flatMap]
  simp

/-- Everything counted in a search without heuristic on the chunk manager. -/
theorem pad_work {A : KAlgo (PadCell m.width m.height) SNode ℝ} {cs : List ℝ} (ok : KCostOk A cs) (L : Lawful O) (M : MinFirst O)
    (Q : Counts O) (ht : TopOk cfg.top) (hheur : ∀ k g, A.heur k g = A.zero) (hhg : cfg.heurGoal = none)
    (hadd : ∀ a, A.add a A.zero = a) {n fuel : Nat} (hn : A.moves.length ≤ n) (hf : 3 + n * padStates m.width m.height ≤ fuel) :
    ∃ q s, padFindPathStats clamp A O cfg start goal fuel = some (q, s) ∧
      s.multi ≤ s.expansions ∧ s.expansions ≤ s.multi + padStates m.width m.height ∧
      s.multi ≤ s.touched ∧ s.touched ≤ n * (s.expansions - s.multi) ∧ s.expansions ≤ 2 + n * (s.expansions - s.multi) := by
  unfold padFindPathStats
  cases hi : padInit clamp m start goal with
  | throw e => exact ⟨_, _, rfl, by simp, by simp, by simp, by simp, by simp⟩
  | ub => exact ⟨_, _, rfl, by simp, by simp, by simp, by simp, by simp⟩
  | ok x =>
    obtain ⟨sp, s, gp, g⟩ := x
    obtain ⟨h1, h2⟩ := padInit_start hi
    have hmul : A.moves.length * padStates m.width m.height ≤ n * padStates m.width m.height := Nat.mul_le_mul_right _ hn
    obtain ⟨q, st, e, k1, k2, k5, k3, k4⟩ := kin_work (P := O) (A := A) (cfg := { cfg with start := s, goal := g })
      (kin0 := padContent sp s gp g start goal) ok L M Q ht hheur hhg hadd h1 (fuel := fuel) (by
        rw [card_padCell]
        show s.length + _ + 1 ≤ _
        omega)
    rw [card_padCell] at k2
    have hm2 : A.moves.length * (st.expansions - st.multi) ≤ n * (st.expansions - st.multi) := Nat.mul_le_mul_right _ hn
    have k4' : st.expansions ≤ s.length + A.moves.length * (st.expansions - st.multi) := k4
    exact ⟨q, st, e, k1, k2, k5, k3.trans hm2, by omega⟩

variable {P : DynP} {distThr angThr : ℝ}

/-- **C102 for `DynamicSteeringNeighborhood`.**  Without heuristic a search on a map of `w` by `h` cells ends within
`3 + 6 (steps + 1) (w + 63) (h + 63) 64` iterations; the number of different states it expands is `getExpansions` minus
`getMultiExpansions`, and `getTouchedNodes` is at most `6 (steps + 1)` times that number. -/
theorem dyn_work (hres : 0 ≤ m.res) (L : Lawful O) (M : MinFirst O) (Q : Counts O) (ht : TopOk cfg.top)
    (hheur : ∀ k g, S.heur k g = 0) (hhg : cfg.heurGoal = none) {fuel : Nat}
    (hf : 3 + 6 * (P.steerSteps + 1) * padStates m.width m.height ≤ fuel) :
    ∃ q s, padFindPathStats clamp (dynSteerAlgo clamp P distThr angThr m skips b S) O cfg start goal fuel = some (q, s) ∧
      s.multi ≤ s.expansions ∧ s.expansions ≤ s.multi + padStates m.width m.height ∧
      s.multi ≤ s.touched ∧ s.touched ≤ 6 * (P.steerSteps + 1) * (s.expansions - s.multi) ∧
      s.expansions ≤ 2 + 6 * (P.steerSteps + 1) * (s.expansions - s.multi) := by
  refine pad_work (dyn_costOk hres) L M Q ht hheur hhg (fun a => add_zero a) ?_ hf
  show (dynMoves clamp P S.so m.res).length ≤ _
  unfold dynMoves
  rw [List.length_map, moveList_length]
  refine Nat.mul_le_mul_right _ ?_
  split <;> split <;> omega

variable {P : SteerP} {distance : Int} {garbage : Nat × Nat → Int}

/-- **C102 for `SteeringNeighborhood`.** -/
theorem steer_work (hres : 0 ≤ m.res) (L : Lawful O) (M : MinFirst O) (Q : Counts O) (ht : TopOk cfg.top)
    (hheur : ∀ k g, S.heur k g = 0) (hhg : cfg.heurGoal = none) {fuel : Nat}
    (hf : 3 + P.size * (P.steerSteps + 1) * padStates m.width m.height ≤ fuel) :
    ∃ q s, padFindPathStats clamp (steerAlgo clamp P distance garbage m skips b S) O cfg start goal fuel = some (q, s) ∧
      s.multi ≤ s.expansions ∧ s.expansions ≤ s.multi + padStates m.width m.height ∧
      s.multi ≤ s.touched ∧ s.touched ≤ P.size * (P.steerSteps + 1) * (s.expansions - s.multi) ∧
      s.expansions ≤ 2 + P.size * (P.steerSteps + 1) * (s.expansions - s.multi) := by
  refine pad_work (steer_costOk hres) L M Q ht hheur hhg (fun a => add_zero a) ?_ hf
  show (steerMoves clamp P S.so garbage m.res).length ≤ _
  unfold steerMoves
  rw [List.length_map, moveList_length]
  exact Nat.mul_le_mul_right _ (by omega)

/-- The balance for every heuristic. -/
theorem pad_counters {A : KAlgo (PadCell m.width m.height) SNode ℝ} (Q : Counts O) {fuel : Nat} {q : List SNode} {st : Stats}
    (h : padFindPathStats clamp A O cfg start goal fuel = some (.ok q, st)) :
    (∃ left n, n ≤ 2 ∧ st.expansions + left = n + st.touched) ∧ st.multi ≤ st.expansions ∧
      st.expansions ≤ st.multi + padStates m.width m.height := by
  unfold padFindPathStats at h
  cases hi : padInit clamp m start goal with
  | throw e => rw [hi] at h; cases h
  | ub => rw [hi] at h; cases h
  | ok x =>
    obtain ⟨sp, s, gp, g⟩ := x
    rw [hi] at h
    obtain ⟨⟨left, e1⟩, e2, e3⟩ := kin_counters Q h
    rw [card_padCell] at e3
    exact ⟨⟨left, s.length, (padInit_start hi).2, e1⟩, e2, e3⟩

end

/-- The hypotheses are met on every map with a resolution: `PriorityQueueManager`, no heuristic. -/
example (clamp : ℝ → ℝ) (m : GridMap ℝ) (hres : 0 ≤ m.res) (P : DynP) (b : Bres ℝ) (start goal : Pose) :=
  dyn_work (clamp := clamp) (skips := 0) (b := b) (S := ⟨{}, fun _ _ => 0, none⟩) (P := P) (distThr := 1) (angThr := 1)
    (start := start) (goal := goal) (O := PriorityManager)
    (cfg := { start := [], goal := [], useCands := false, oversearch := 0, accept := none, abort := fun _ => false,
              canExpand := fun _ _ _ => none, top := KinEx.minTop }) hres prioLawful prioMin prioCounts KinEx.minTop_ok
    (fun _ _ => rfl) rfl le_rfl

end

/-! ### With a heuristic the bound does not hold -/

namespace KCountEx

/-- Two chains that meet: `0 → 3` costs 5, `1 → 2` and `2 → 3` cost 1, then `3 → 4 → 5 → 6`; the heuristic is 20 at node 2 and 0
elsewhere.  There is one move, and the goal is never reached. -/
def A (heur : Fin 7 → Nat) : KAlgo (Fin 7) (Fin 7) Nat where
  zero := 0
  add := (· + ·)
  moves := [fun k _ => if k = 0 then some (5, 3) else if k = 6 then none else some (1, k + 1)]
  predDepth := 0
  usable _ _ := .ok true
  lookup k := .ok (some k)
  heur k _ := heur k
  isGoal _ _ _ := false
  distTo _ _ := 0
  accept := none

def cfg : SCfg (Fin 7) Nat where
  start := [0, 1]
  goal := [6]
  useCands := false
  oversearch := 0
  accept := none
  abort _ := false
  canExpand _ _ _ := none
  top := KinEx.minTop

theorem costOk (h) : KCostOk (A h) [1, 5] where
  costs mv hmv k ps c k' e := by
    simp only [A, List.mem_singleton] at hmv
    subst hmv
    simp only at e
    split at e
    · cases e; simp
    · split at e
      · cases e
      · cases e; simp
  infl c _ a := Nat.le_add_right a c
  mono a b c h := Nat.add_le_add_right h c

/-- **C102, finding.**  With a heuristic nodes are expanded again and insert their neighbours again: nine insertions, although the
seven nodes have one move each. -/
theorem more_than_moves :
    (kFindPathStats (A fun k => if k = 2 then 20 else 0) (PriorityManager : OpenList (Fin 7) Nat) cfg id 12).map
      (fun x => (x.1, x.2.expansions, x.2.multi, x.2.touched)) = some (.ok [], 11, 4, 9) := by decide +kernel

/-- Without heuristic (the hypotheses of `kin_work` are met). -/
theorem without : ∃ q s, kFindPathStats (A fun _ => 0) (PriorityManager : OpenList (Fin 7) Nat) cfg id 10 = some (q, s) ∧
    s.touched ≤ s.expansions - s.multi := by
  obtain ⟨q, s, h, _, _, _, h1, _⟩ := kin_work (P := (PriorityManager : OpenList (Fin 7) Nat)) (cfg := cfg) (kin0 := id)
    (costOk fun _ => 0) prioLawful prioMin prioCounts KinEx.minTop_ok (fun _ _ => rfl) rfl (fun _ => rfl) (by decide)
    (fuel := 10) (by decide)
  exact ⟨q, s, h, by simpa [A] using h1⟩

end KCountEx

end PathPlanning
