import Verif.Props.ChunkManager
import Verif.Model.SteerSearch

/-!
# The lookup of the chunk manager as a function
-/

namespace PathPlanning
namespace DMgr
variable {w h : Nat}

/-- Lookups on the line `x = -32` (at `y >= 0`) throw `OutsideMapException` in every state that was reached without them. -/
theorem lookup_left {d : DMgr} (junk : Int × Int × Nat) (hs : Sized w h) (hi : Inv w h d) (y : Int) (hy : 0 ≤ y)
    (hy2 : y < h + 32) (t : Nat) (ht : t < 32) (f : Bool) :
    (d.lookup junk (-32) y t f).2 = .throw "OutsideMapException" := by
  have hcon : d.contains (-32) y = true :=
    (contains_iff hs hi _ _).2 ⟨by omega, by omega, by omega, hy2⟩
  have hb : (y / 32 + 1).toNat < (h + 64) / 32 + 1 := by omega
  have hb1 : 1 ≤ (y / 32 + 1).toNat := by omega
  have hbd := slots_bound hs
  have hmul : (y / 32 + 1).toNat * ((w + 64) / 32 + 1) ≤
      ((w + 64) / 32 + 1) * ((h + 64) / 32 + 1) := by
    rw [mul_comm]; exact Nat.mul_le_mul_left _ (by omega)
  have hpos : 1 ≤ (y / 32 + 1).toNat * ((w + 64) / 32 + 1) := Nat.mul_pos hb1 (by omega)
  have es : d.slot (-32) y = (y / 32 + 1).toNat * ((w + 64) / 32 + 1) - 1 := by
    unfold slot
    rw [chunkCoord_m32, chunkCoord_eq (by omega : -31 ≤ y), hi.ecw]
    have e1 : (y / 32 + 1) * (((w + 64) / 32 + 1 : Nat) : Int) + (-2 + 1) =
        (((y / 32 + 1).toNat * ((w + 64) / 32 + 1) - 1 : Nat) : Int) := by
      rw [Nat.cast_sub hpos]
      push_cast
      rw [Int.toNat_of_nonneg (by omega)]; ring
    rw [e1, Int.emod_eq_of_lt (by omega) (by omega), Int.toNat_natCast]
  have hthrow : ∀ c : Chunk, c.ox ≠ -32 → (-32 < c.ox ∨ c.ox = -64) →
      c.lookup (-32) y t f = .throw "OutsideMapException" := by
    intro c _ h2
    unfold Chunk.lookup
    apply chunkIndex_throw
    omega
  unfold lookup
  rw [if_neg (by rw [hcon]; simp; omega)]
  have elt : d.slot (-32) y < d.chunks.length := by rw [es, hi.len]; omega
  obtain ⟨oc, hoc⟩ : ∃ oc, d.chunks[d.slot (-32) y]? = some oc := ⟨_, List.getElem?_eq_getElem elt⟩
  cases oc with
  | some c =>
    obtain ⟨_, hox, _⟩ := hi.ok _ c hoc
    have e2 : d.slot (-32) y = ((y / 32 + 1).toNat - 1) * d.chunksW + (w + 64) / 32 := by
      rw [es, hi.ecw, Nat.sub_mul]
      have : (w + 64) / 32 + 1 ≤ (y / 32 + 1).toNat * ((w + 64) / 32 + 1) := Nat.le_mul_of_pos_left _ hb1
      omega
    obtain ⟨dm1, _⟩ := slot_divmod (d := d) (a := (w + 64) / 32) (b := (y / 32 + 1).toNat - 1) (by rw [hi.ecw]; omega)
    rw [e2, dm1] at hox
    simp only [hoc]
    rw [hthrow c (by omega) (by omega)]; rfl
  | none =>
    obtain ⟨c, hc, hox, hoy, hg⟩ := chunk_new (chunkCoord (-32) * 32) (chunkCoord y * 32) junk
    rw [chunkCoord_m32] at hox
    simp only [hoc, hc]
    rw [hthrow c (by omega) (by omega)]; rfl

/-- Lookups on the line `y = -32`, or on `x = -32` below 0, leave the chunk table. -/
theorem lookup_bottom {d : DMgr} (junk : Int × Int × Nat) (hs : Sized w h) (hi : Inv w h d) (x y : Int)
    (hx : -32 ≤ x) (hx2 : x < w + 32) (hy : -32 ≤ y) (hy2 : y < 0) (h32 : x = -32 ∨ y = -32) (t : Nat) (ht : t < 32)
    (f : Bool) : d.lookup junk x y t f = (d, .throw "std::out_of_range") := by
  have hcon : d.contains x y = true := (contains_iff hs hi _ _).2 ⟨hx, hx2, hy, by omega⟩
  have hcw1 : (w + 64) / 32 + 1 ≤ 67108865 := by have := hs.1; omega
  have hch : (h + 64) / 32 + 1 ≤ 67108865 := by have := hs.2; omega
  have hmul : ((w + 64) / 32 + 1) * ((h + 64) / 32 + 1) ≤ 67108865 * 67108865 :=
    Nat.mul_le_mul hcw1 hch
  have hxc : x = -32 ∧ chunkCoord x = -2 ∨ -31 ≤ x ∧ chunkCoord x = x / 32 := by
    by_cases e : x = -32
    · left; rw [e]; exact ⟨rfl, chunkCoord_m32⟩
    · right; exact ⟨by omega, chunkCoord_eq (by omega)⟩
  have hyc : y = -32 ∧ chunkCoord y = -2 ∨ -31 ≤ y ∧ chunkCoord y = -1 := by
    by_cases e : y = -32
    · left; rw [e]; exact ⟨rfl, chunkCoord_m32⟩
    · right; refine ⟨by omega, ?_⟩; rw [chunkCoord_eq (by omega)]; omega
  have hval : ∃ v : Int, (chunkCoord y + 1) * (((w + 64) / 32 + 1 : Nat) : Int) + (chunkCoord x + 1) = v ∧
      -67108867 ≤ v ∧ v < 0 := by
    refine ⟨_, rfl, ?_⟩
    rcases hyc with ⟨_, e⟩ | ⟨_, e⟩ <;> rw [e]
    · rw [show ((-2 + 1 : Int)) * (((w + 64) / 32 + 1 : Nat) : Int) = -(((w + 64) / 32 + 1 : Nat) : Int) by ring]
      rcases hxc with ⟨_, e'⟩ | ⟨_, e'⟩ <;> rw [e'] <;> omega
    · rw [show ((-1 + 1 : Int)) * (((w + 64) / 32 + 1 : Nat) : Int) = 0 by ring]
      rcases hxc with ⟨_, e'⟩ | ⟨_, e'⟩ <;> rw [e'] <;> omega
  have hslot : d.chunks.length ≤ d.slot x y := by
    obtain ⟨v, hv, h1, h2⟩ := hval
    unfold slot
    rw [hi.ecw, hi.len, hv, ← Int.add_emod_right, Int.emod_eq_of_lt (by omega) (by omega)]
    omega
  unfold lookup
  rw [if_neg (by rw [hcon]; simp; omega)]
  simp only [List.getElem?_eq_none hslot]

/-- **The chunk manager answers like a function.**  For every map size and every history of lookups that avoids the lines
`x = -32` and `y = -32` (the first access to them throws), every lookup answers as `padLookup` says: it returns the pointer
of the state `padLookup` names (which carries the requested coordinates), or throws the same exception.  Chunks created
by earlier lookups make no difference. -/
theorem chunk_lookup_refines (junk : Int × Int × Nat) (hs : Sized w h) (rs : List Req) (hr : Avoids32 rs) (x y : Int)
    (t : Nat) (f : Bool) :
    (∃ c : PadCell w h, padLookup w h x y t f = .ok (some c) ∧ c.x = x ∧ c.y = y ∧ c.t = t ∧ c.fwd = f ∧
      ((run junk (setMap w h) rs).lookup junk x y t f).2 = .ok (ref w ⟨x, y, t, f⟩)) ∨
    ∃ e, padLookup w h x y t f = .throw e ∧ ((run junk (setMap w h) rs).lookup junk x y t f).2 = .throw e := by
  obtain ⟨hi, _⟩ := run_inv junk hs rs _ (inv_setMap w h) hr
  unfold padLookup
  split_ifs with h1 h2
  · left
    obtain ⟨d', e, _⟩ := lookup_good junk hs hi ⟨x, y, t, f⟩ h1
    refine ⟨_, rfl, ?_, ?_, rfl, rfl, by rw [e]⟩
    · simp only [PadCell.x]; omega
    · simp only [PadCell.y]; omega
  · right
    refine ⟨_, rfl, ?_⟩
    rw [lookup_bottom junk hs hi x y h2.1 h2.2.1 h2.2.2.1 h2.2.2.2.1 (by omega) t h2.2.2.2.2.2 f]
  · right
    refine ⟨_, rfl, ?_⟩
    by_cases hc : (run junk (setMap w h) rs).contains x y = false ∨ 32 ≤ t
    · rw [lookup_outside _ _ _ _ _ _ hc]
    · push Not at hc
      obtain ⟨c1, c2, c3, c4⟩ := (contains_iff hs hi x y).1 (by simpa using hc.1)
      have : x = -32 := by omega
      subst this
      exact lookup_left junk hs hi y (by omega) c4 t hc.2 f

/-- Different cells have different pointers. -/
theorem ref_inj {r r' : Req} (hs : Sized w h) (hr : GoodReq w h r) (hr' : GoodReq w h r') (he : ref w r' = ref w r) :
    r' = r := by
  obtain ⟨_, _, _, _, _, hinj, _⟩ := lookup_exact_partial (0, 0, 0) hs [] [] (by simp [Avoids32]) (by simp [Avoids32]) r hr
  exact hinj r' hr' he

end DMgr
end PathPlanning
