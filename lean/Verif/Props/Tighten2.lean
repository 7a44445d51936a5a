import Verif.Props.Steering3
import Verif.Props.Vec

/-!
# More theorems tightened after surviving mutations (C51, C52, C65)
-/

noncomputable section

/-! ### Vectors -/

namespace PathPlanning

/-- **C51.** Division by a number undoes multiplication by it, for points and (positions of) poses. -/
theorem sdiv_smul (a : P2) (p : Pose) {f : ℝ} (hf : f ≠ 0) :
    (a.smul f).sdiv f = a ∧ (a.sdiv f).smul f = a ∧ ((p.smul f).sdiv f).pt = p.pt ∧ ((p.sdiv f).smul f).pt = p.pt := by
  refine ⟨?_, ?_, ?_, ?_⟩ <;> simp [P2.ext_iff, P2.smul, P2.sdiv, Pose.smul, Pose.sdiv, Pose.pt, hf]

/-- **C51.** The default pose is the origin: adding or subtracting it does not move a position, and the distance to it is
the distance to the origin. -/
theorem default_pose (p : Pose) :
    (p.add Pose.zero).pt = p.pt ∧ (p.sub Pose.zero).pt = p.pt ∧ p.distTo Pose.zero = p.pt.length ∧
      Pose.zero.theta = 0 := by
  refine ⟨?_, ?_, ?_, rfl⟩
  · simp [Pose.add, Pose.zero, Pose.pt]
  · simp [Pose.sub, Pose.zero, Pose.pt]
  · simp [Pose.distTo, Pose.zero, Pose.pt, P2.length, sq]

example : ((⟨3, 5⟩ : P2).smul 2).sdiv 2 = ⟨3, 5⟩ := (sdiv_smul ⟨3, 5⟩ Pose.zero two_ne_zero).1

/-! ### `NonHolonomicNeighborhood` -/

/-- The turn of each of the ten moves in units of the steering angle. -/
def Spec.turnOf : Nat → ℝ
  | 1 | 4 => -1
  | 2 | 5 => 1
  | 6 | 8 => -1 / 2
  | 7 | 9 => 1 / 2
  | _ => 0

/-- **C65.** The exact change of heading in each move of the non-holonomic neighbourhood (modulo full turns): none for the
moves 0 and 3, `steerangle / 10` degrees to either side for 1, 2, 4, 5, half of it for 6 to 9. -/
theorem nhAdvance_turn_exact {clamp : ℝ → ℝ} (hclamp : ClampSpec clamp) {distPx : ℝ} {sa : Int} {rev : Bool} {sds : Int}
    {rot : ℝ} {ini : Bool} {ref : SNode} {preds : List SNode} {i : Nat} {c : ℝ} {s : SNode}
    (h : nhAdvance clamp distPx sa rev sds rot ini ref preds i = some (c, s)) :
    ∃ k : Int, s.theta = ref.theta + Spec.turnOf i * ((sa : ℝ) / 10 * Real.pi / 180) + k * (2 * Real.pi) := by
  obtain ⟨_, _, _, _, _, ht, _⟩ := nhAdvance_inv h
  obtain ⟨k1, h1⟩ := hclamp.mod (ref.theta + nhTurn i * ((sa : ℝ) / 10 * Real.pi / 180) + rot)
  obtain ⟨k2, h2⟩ := hclamp.mod (clamp (ref.theta + nhTurn i * ((sa : ℝ) / 10 * Real.pi / 180) + rot) - rot)
  have e : nhTurn i = Spec.turnOf i := by
    match i with
    | 0 | 1 | 2 | 3 | 4 | 5 | 6 | 7 | 8 | 9 => simp [nhTurn, Spec.turnOf]
    | n + 10 => simp [nhTurn, Spec.turnOf]
  refine ⟨k1 + k2, ?_⟩
  rw [ht, h2, h1, e]
  push_cast
  ring

/-- **C65.** `NonHolonomicNeighborhood::isGoal`: both coordinates within half a step of the goal, and the headings, up to
full turns, within (strictly less than) 22.5 degrees. -/
theorem nhIsGoal_iff {clamp : ℝ → ℝ} (hclamp : ClampSpec clamp) (distPx : ℝ) (goal ref : SNode) :
    nhIsGoal clamp distPx goal ref = true ↔
      (2 * |goal.x - ref.x| ≤ distPx ∧ 2 * |goal.y - ref.y| ≤ distPx) ∧
      ∃ k : Int, 8 * |goal.theta - ref.theta + k * (2 * Real.pi)| < Real.pi := by
  have hpi := Real.pi_pos
  unfold nhIsGoal
  simp only [Bool.and_eq_true, decide_eq_true_eq]
  have key : |clamp (goal.theta - ref.theta)| < Real.pi / 8 ↔
      ∃ k : Int, 8 * |goal.theta - ref.theta + k * (2 * Real.pi)| < Real.pi := by
    obtain ⟨k, hk⟩ := hclamp.mod (goal.theta - ref.theta)
    have lo := hclamp.lo (goal.theta - ref.theta)
    have hi := hclamp.hi (goal.theta - ref.theta)
    constructor
    · intro h
      refine ⟨k, ?_⟩
      rw [← hk]; linarith
    · rintro ⟨m, hm⟩
      have hm' : |goal.theta - ref.theta + m * (2 * Real.pi)| < Real.pi / 8 := by linarith
      have e : m = k := by
        have e1 : goal.theta - ref.theta + (m : ℝ) * (2 * Real.pi) =
            clamp (goal.theta - ref.theta) + ((m - k : Int) : ℝ) * (2 * Real.pi) := by
          rw [hk]; push_cast; ring
        rw [e1, abs_lt] at hm'
        by_contra hne
        rcases lt_or_gt_of_ne (sub_ne_zero.2 hne) with h0 | h0
        · have : ((m - k : Int) : ℝ) ≤ -1 := by exact_mod_cast (by omega : m - k ≤ -1)
          nlinarith [hm'.1]
        · have : (1 : ℝ) ≤ ((m - k : Int) : ℝ) := by exact_mod_cast (by omega : 1 ≤ m - k)
          nlinarith [hm'.2]
      rw [hk, ← e]; exact hm'
  rw [key]
  constructor
  · rintro ⟨⟨a, b⟩, c⟩; exact ⟨⟨by linarith, by linarith⟩, c⟩
  · rintro ⟨⟨a, b⟩, c⟩; exact ⟨⟨by linarith, by linarith⟩, c⟩

/-! ### The successors that are offered -/

section offers
variable {N : Type} [DecidableEq N]

/-- The successor `(cost, s)` of a pose is admissible on a map: not of negative cost, inside, reached over a line that is
not blocked, and stored in the node `n`. -/
def Spec.Admissible (map : SMap N) (ref : SNode) (cs : ℝ × SNode) (n : N) : Prop :=
  0 ≤ cs.1 ∧ map.contains cs.2.x cs.2.y = true ∧ map.lineFree ref.x ref.y cs.2.x cs.2.y = true ∧
    map.lookup cs.2.x cs.2.y cs.2.theta cs.2.steer cs.2.forward = some n

/-- A search that records the nodes it is offered, with their costs, and takes none of them. -/
def recorder (a : List (N × ℝ)) (_ n : N) (c : ℝ) : List (N × ℝ) × Bool := (a ++ [(n, c)], false)

theorem tryNeighbor_recorder (map : SMap N) (ref : N) (res : Option (ℝ × SNode)) (a : List (N × ℝ)) (st : SStore N) :
    (tryNeighbor map recorder ref res (a, st)).2 = st ∧
    ((∃ cs n, res = some cs ∧ Spec.Admissible map (st.node ref) cs n ∧
        (tryNeighbor map recorder ref res (a, st)).1 = a ++ [(n, cs.1)]) ∨
      ((∀ cs n, res = some cs → ¬ Spec.Admissible map (st.node ref) cs n) ∧
        (tryNeighbor map recorder ref res (a, st)).1 = a)) := by
  unfold tryNeighbor
  cases res with
  | none => exact ⟨rfl, Or.inr ⟨fun _ _ h => by simp at h, rfl⟩⟩
  | some cs =>
    obtain ⟨c, s⟩ := cs
    simp only []
    by_cases h1 : c < 0
    · rw [if_pos h1]
      refine ⟨rfl, Or.inr ⟨?_, rfl⟩⟩
      rintro _ n ⟨⟩ h
      exact absurd h.1 (not_le.2 h1)
    rw [if_neg h1]
    by_cases h2 : map.contains s.x s.y = true
    swap
    · rw [if_neg h2]
      refine ⟨rfl, Or.inr ⟨?_, rfl⟩⟩
      rintro _ n ⟨⟩ h
      exact h2 h.2.1
    rw [if_pos h2]
    by_cases h3 : map.lineFree (st.node ref).x (st.node ref).y s.x s.y = true
    swap
    · rw [if_neg h3]
      refine ⟨rfl, Or.inr ⟨?_, rfl⟩⟩
      rintro _ n ⟨⟩ h
      exact h3 h.2.2.1
    rw [if_pos h3]
    cases hl : map.lookup s.x s.y s.theta s.steer s.forward with
    | none =>
      refine ⟨rfl, Or.inr ⟨?_, rfl⟩⟩
      rintro _ n ⟨⟩ h
      exact absurd (hl.symm.trans h.2.2.2) (by simp)
    | some n =>
      refine ⟨rfl, Or.inl ⟨(c, s), n, rfl, ⟨not_lt.1 h1, h2, h3, hl⟩, rfl⟩⟩

/-- **C52.** The successors of a pose that `SteeringNeighborhood::iterateFreeNeighbors` hands to the search: exactly the
admissible results of `advance` for the index pairs of the two loops, each with the cost of the move. -/
theorem iterateFree_offers (clamp : ℝ → ℝ) (P : SteerP) (so : SOpts) (garbage : Nat × Nat → Int) (map : SMap N)
    (ref : N) (st : SStore N) (n : N) (c : ℝ) :
    (n, c) ∈ (iterateFree clamp P so garbage map recorder ref ([], st)).1 ↔
      ∃ i step s, i < P.size ∧ step ≤ P.steerSteps ∧
        advance clamp P so (garbage (i, step)) (st.node ref) (st.preds ref (P.straightDirSwitch - 1).toNat) i step =
          some (c, s) ∧ Spec.Admissible map (st.node ref) (c, s) n := by
  have gen : ∀ (l : List (Nat × Nat)) (a : List (N × ℝ)),
      ∀ r, r = l.foldl (fun a m => tryNeighbor map recorder ref (advance clamp P so (garbage m) (a.2.node ref)
        (a.2.preds ref (P.straightDirSwitch - 1).toNat) m.1 m.2) a) (a, st) →
      ((n, c) ∈ r.1 ↔ (n, c) ∈ a ∨ ∃ m ∈ l, ∃ s, advance clamp P so (garbage m) (st.node ref)
        (st.preds ref (P.straightDirSwitch - 1).toNat) m.1 m.2 = some (c, s) ∧
          Spec.Admissible map (st.node ref) (c, s) n) := by
    intro l
    induction l with
    | nil => intro a r hr; rw [hr]; simp
    | cons m l ih =>
      intro a r hr
      rw [List.foldl_cons] at hr
      obtain ⟨e2, e1⟩ := tryNeighbor_recorder map ref (advance clamp P so (garbage m) (st.node ref)
        (st.preds ref (P.straightDirSwitch - 1).toNat) m.1 m.2) a st
      generalize tryNeighbor map recorder ref (advance clamp P so (garbage m) (st.node ref)
        (st.preds ref (P.straightDirSwitch - 1).toNat) m.1 m.2) (a, st) = w at e1 e2 hr
      obtain ⟨w1, w2⟩ := w
      simp only at e1 e2
      subst e2
      rw [ih w1 r hr]
      rcases e1 with ⟨cs, n', h1, h2, h3⟩ | ⟨h1, h3⟩
      · rw [h3, List.mem_append, List.mem_singleton]
        constructor
        · rintro ((h | h) | ⟨m', hm', s, hs⟩)
          · exact Or.inl h
          · obtain ⟨rfl, rfl⟩ := Prod.mk.inj h
            exact Or.inr ⟨m, List.mem_cons_self, cs.2, h1, h2⟩
          · exact Or.inr ⟨m', List.mem_cons_of_mem _ hm', s, hs⟩
        · rintro (h | ⟨m', hm', s, hs, ha⟩)
          · exact Or.inl (Or.inl h)
          · rcases List.mem_cons.1 hm' with rfl | hm'
            · rw [h1] at hs
              obtain rfl := Option.some.inj hs
              have := h2.2.2.2.symm.trans ha.2.2.2
              obtain rfl := Option.some.inj this
              exact Or.inl (Or.inr rfl)
            · exact Or.inr ⟨m', hm', s, hs, ha⟩
      · rw [h3]
        constructor
        · rintro (h | ⟨m', hm', s, hs⟩)
          · exact Or.inl h
          · exact Or.inr ⟨m', List.mem_cons_of_mem _ hm', s, hs⟩
        · rintro (h | ⟨m', hm', s, hs, ha⟩)
          · exact Or.inl h
          · rcases List.mem_cons.1 hm' with rfl | hm'
            · exact absurd ha (h1 _ _ hs)
            · exact Or.inr ⟨m', hm', s, hs, ha⟩
  unfold iterateFree
  rw [gen _ [] _ rfl]
  simp only [List.not_mem_nil, false_or]
  constructor
  · rintro ⟨⟨i, step⟩, hm, s, hs⟩
    unfold moveList at hm
    obtain ⟨i', hi', hm⟩ := List.mem_flatMap.1 hm
    obtain ⟨s', hs', e⟩ := List.mem_map.1 hm
    obtain ⟨rfl, rfl⟩ := Prod.mk.inj e
    rw [List.mem_range'_1] at hi'
    rw [List.mem_range] at hs'
    exact ⟨i', s', s, by omega, by omega, hs⟩
  · rintro ⟨i, step, s, hi, hst, hs⟩
    refine ⟨(i, step), ?_, s, hs⟩
    unfold moveList
    refine List.mem_flatMap.2 ⟨i, List.mem_range'_1.2 ⟨by omega, by omega⟩, List.mem_map.2 ⟨step, ?_, rfl⟩⟩
    rw [List.mem_range]; omega

end offers

end PathPlanning
