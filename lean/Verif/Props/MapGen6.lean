import Verif.Props.MapGen5

/-!
# Maze generator: the scan for an unvisited room
-/

namespace PathPlanning.MapGen
open Spec
variable {w h : Int} {rnd : Nat → Nat}

/-- The scan goes through the rooms row by row, and from the last one back to the first. -/
theorem nextCell_index {p : Room} (hp : InGrid w h p) :
    (nextCell w h p).2 * h + (nextCell w h p).1 = (p.2 * h + p.1 + 1) % (w * h) := by
  simp only [InGrid] at hp
  unfold nextCell
  simp only
  have hw : 0 < w := by omega
  have hh : 0 < h := by omega
  by_cases h1 : p.1 + 1 = h
  · rw [if_pos h1]
    simp only
    have e : p.2 * h + p.1 + 1 = (p.2 + 1) * h := by linear_combination h1
    by_cases h2 : p.2 + 1 = w
    · rw [if_pos h2, e, h2, Int.emod_self]; simp
    · rw [if_neg h2, e, Int.emod_eq_of_lt (by have := mul_nonneg (show (0:Int) ≤ p.2 + 1 by omega) hh.le; exact this) (by apply mul_lt_mul_of_pos_right _ hh; omega)]
      simp
  · rw [if_neg h1]
    simp only
    rw [if_neg (by omega), Int.emod_eq_of_lt]
    · ring
    · have : 0 ≤ p.2 * h := mul_nonneg hp.2.1 hh.le
      omega
    · have : (p.2 + 1) * h ≤ w * h := mul_le_mul_of_nonneg_right (by omega) hh.le
      have e : (p.2 + 1) * h = p.2 * h + h := by ring
      omega

theorem scan_index {p : Room} (hp : InGrid w h p) (k : Nat) : InGrid w h ((nextCell w h)^[k] p) ∧
    ((nextCell w h)^[k] p).2 * h + ((nextCell w h)^[k] p).1 = (p.2 * h + p.1 + k) % (w * h) := by
  induction k with
  | zero =>
    obtain ⟨_, h1, h2⟩ := idx_in hp
    refine ⟨hp, ?_⟩
    simp only [Function.iterate_zero, id, Nat.cast_zero, add_zero]
    exact (Int.emod_eq_of_lt h1 h2).symm
  | succ k ih =>
    rw [Function.iterate_succ_apply']
    refine ⟨nextCell_in ih.1, ?_⟩
    rw [nextCell_index ih.1, ih.2, Int.emod_add_emod]
    push_cast
    ring_nf

/-- The scan meets every room. -/
theorem scan_meets {p q : Room} (hp : InGrid w h p) (hq : InGrid w h q) : ∃ k, (nextCell w h)^[k] p = q := by
  obtain ⟨_, p1, p2⟩ := idx_in hp
  obtain ⟨_, q1, q2⟩ := idx_in hq
  refine ⟨((q.2 * h + q.1) - (p.2 * h + p.1) + w * h).toNat, ?_⟩
  obtain ⟨h1, h2⟩ := scan_index hp ((q.2 * h + q.1) - (p.2 * h + p.1) + w * h).toNat
  apply idx_inj h1 hq
  rw [h2, Int.toNat_of_nonneg (by omega)]
  have : p.2 * h + p.1 + (q.2 * h + q.1 - (p.2 * h + p.1) + w * h) = (q.2 * h + q.1) + w * h := by ring
  rw [this, Int.add_emod_right, Int.emod_eq_of_lt q1 q2]

/-- **C55.**  As long as some room is unvisited, `getRandomUnvisitedCell` ends and returns an unvisited room of the maze,
whatever the random numbers are. -/
theorem pickCell_spec {v : List Bool} (hl : v.length = (w * h).toNat) (pos : Nat)
    (hu : ∃ q, InGrid w h q ∧ v[(q.2 * h + q.1).toNat]? = some false) :
    ∃ q, pickCell rnd w h v pos = .ok (some (q, pos + 2)) ∧ InGrid w h q ∧ v[(q.2 * h + q.1).toNat]? = some false := by
  obtain ⟨q, hq, hqv⟩ := hu
  have hwh := hq
  simp only [InGrid] at hwh
  have hp0 : InGrid w h ((rnd pos : Int).tmod h, (rnd (pos + 1) : Int).tmod w) :=
    ⟨⟨Int.tmod_nonneg _ (by omega), Int.tmod_lt_of_pos _ (by omega)⟩, Int.tmod_nonneg _ (by omega),
      Int.tmod_lt_of_pos _ (by omega)⟩
  have hread : ∀ p, InGrid w h p → ∃ b, readV v (idx w h p) = .ok b ∧ v[(p.2 * h + p.1).toNat]? = some b := by
    intro p hp
    obtain ⟨e, h0, h1⟩ := idx_in hp
    have hi : (p.2 * h + p.1).toNat < v.length := by omega
    refine ⟨v[(p.2 * h + p.1).toNat], ?_, List.getElem?_eq_getElem hi⟩
    unfold readV vget
    rw [e, if_neg (not_lt.2 h0)]
    simp [hi]
  obtain ⟨k0, hk0⟩ := scan_meets hp0 hq
  have hex : ∃ k, readV v (idx w h ((nextCell w h)^[k] ((rnd pos : Int).tmod h, (rnd (pos + 1) : Int).tmod w))) ≠
      .ok true := by
    refine ⟨k0, ?_⟩
    rw [hk0]
    obtain ⟨b, hb, hb2⟩ := hread q hq
    rw [hqv] at hb2
    cases hb2
    rw [hb]; simp
  unfold pickCell
  rw [if_neg (by omega)]
  simp only
  cases hk : firstExit fun k => readV v (idx w h ((nextCell w h)^[k]
      ((rnd pos : Int).tmod h, (rnd (pos + 1) : Int).tmod w))) ≠ .ok true with
  | none => exact absurd hex (by rw [firstExit_none] at hk; exact fun ⟨k, h1⟩ => hk k h1)
  | some k =>
    have hx := (firstExit_some hk).1
    have hin := (scan_index hp0 k).1
    obtain ⟨b, hb, hb2⟩ := hread _ hin
    refine ⟨_, by simp only [hb, CRes.ok_bind]; rfl, hin, ?_⟩
    rw [hb2]
    cases b with
    | false => rfl
    | true => exact absurd hb hx

example : ∃ q, pickCell (fun _ => 7) 2 3 [true, true, false, true, true, true] 0 = .ok (some (q, 2)) ∧
    InGrid 2 3 q ∧ [true, true, false, true, true, true][(q.2 * 3 + q.1).toNat]? = some false :=
  pickCell_spec rfl 0 ⟨(2, 0), by simp [InGrid], rfl⟩

end PathPlanning.MapGen
