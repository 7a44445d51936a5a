import Verif.Props.Search

/-!
# The assert of `processNeighbor`

`assert(neighbor != current)` (SearchAlgorithm.hpp:644) stands in the branch that stores a neighbour in the open list.
-/

namespace PathPlanning

variable {N C : Type} [DecidableEq N] [LinearOrder C] {A : Algo N C} {P : OpenList N C}

/-- The condition under which `processNeighbor(current, neighbor, cost)` reaches the assert (SearchAlgorithm.hpp:636-644):
not (closed and not closer), and (not open or closer). -/
def ReachesAssert (A : Algo N C) (st : SSt N C P) (cur nb : N) (c : C) : Prop :=
  ((st.lab nb).closed = false ∨ A.addW (st.lab cur).dist c < (st.lab nb).dist) ∧
    ((st.lab nb).opn = false ∨ A.addW (st.lab cur).dist c < (st.lab nb).dist)

/-- The condition is the model's: without it the call only marks the neighbour as watched, with it the neighbour is added to
the open list. -/
theorem processNeighbor_reaches (goal : List N) (st : SSt N C P) {cur nb : N} (hne : nb ≠ cur) (c : C) :
    (ReachesAssert A st cur nb c → ∃ k, (processNeighbor A goal st cur nb c).opn = P.add st.opn nb k) ∧
    (¬ ReachesAssert A st cur nb c → processNeighbor A goal st cur nb c =
      { st with lab := setLab st.lab nb { st.lab nb with watched := true } }) := by
  have hcur : setLab st.lab nb { st.lab nb with watched := true } cur = st.lab cur := by
    simp [setLab, Ne.symm hne]
  unfold ReachesAssert processNeighbor
  simp only [hcur]
  cases hcl : (st.lab nb).closed <;> cases ho : (st.lab nb).opn <;>
    by_cases hlt : A.addW (st.lab cur).dist c < (st.lab nb).dist <;> simp [hlt]
  all_goals exact ⟨_, rfl⟩

/-- Handling one neighbour keeps every closed node closed. -/
theorem processNeighbor_closed (goal : List N) (st : SSt N C P) (cur nb : N) (c : C) (m : N)
    (h : (st.lab m).closed = true) : ((processNeighbor A goal st cur nb c).lab m).closed = true := by
  unfold processNeighbor
  simp only
  split
  · by_cases hm : m = nb
    · subst hm; simpa [setLab] using h
    · simpa [setLab, hm] using h
  · split
    · by_cases hm : m = nb
      · subst hm; simpa [setLab] using h
      · simpa [setLab, hm] using h
    · by_cases hm : m = nb
      · subst hm; simpa [setLab] using h
      · simpa [setLab, hm] using h

/-- **C29/C34 (no assert fails).**  While the node taken from the open list is expanded, in the state reached after any
number of its neighbours, the next neighbour does not reach the assert if it is that node itself: with non-negative costs
a node never becomes its own predecessor. -/
theorem expand_assert (ok : CostOk A) (cfg : SCfg N C) (st : SSt N C P) (cur : N) (o : P.O)
    (cands : List (N × C)) (firstW : WithTop C) {pre post : List (N × C)} {e : N × C}
    (hsucc : A.succ cur = pre ++ e :: post) (he : e.1 = cur) :
    ¬ ReachesAssert A (pre.foldl (fun s x => processNeighbor A cfg.goal s cur x.1 x.2)
      { popNode A cfg st cur o with cands := cands, firstW := firstW }) cur e.1 e.2 := by
  have key : ∀ (l : List (N × C)) (s : SSt N C P), (s.lab cur).closed = true →
      ((l.foldl (fun s x => processNeighbor A cfg.goal s cur x.1 x.2) s).lab cur).closed = true := by
    intro l
    induction l with
    | nil => intro s hs; exact hs
    | cons x xs ih => intro s hs; exact ih _ (processNeighbor_closed _ _ _ _ _ _ hs)
  have hcl := key pre { popNode A cfg st cur o with cands := cands, firstW := firstW }
    (by simp [popNode, setLab])
  rw [he]
  rintro ⟨h1 | h1, -⟩
  · rw [hcl] at h1; cases h1
  · refine absurd h1 (not_lt.2 (le_addW (u := cur) (v := e.1) ok ?_ _))
    rw [hsucc]; simp

/-- The hypotheses are met: a node with a loop of cost 0 beside another neighbour. -/
example : ∃ A : Algo (Fin 2) Nat, CostOk A ∧ A.succ 0 = [(1, 3)] ++ (0, 0) :: [] :=
  ⟨⟨0, (· + ·), fun n => if n = 0 then [(1, 3), (0, 0)] else [], fun _ _ => 0, fun _ _ => false, fun _ _ => 0⟩,
    ⟨fun _ _ _ _ _ => Nat.le_add_right _ _, fun _ _ _ h => Nat.add_le_add_right h _⟩, rfl⟩

end PathPlanning
