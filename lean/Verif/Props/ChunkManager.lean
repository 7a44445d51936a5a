import Verif.Props.Managers
import Mathlib.Algebra.Order.ToIntervalMod

/-!
# C21: the chunked state manager
-/

namespace PathPlanning

/-- Non-vacuity of the contract of the external angle clamp (C20). -/
noncomputable example : ∃ clamp, ClampSpec clamp := by
  have hp : (0 : ℝ) < 2 * Real.pi := by have := Real.pi_pos; linarith
  refine ⟨toIcoMod hp (-Real.pi), fun t => left_le_toIcoMod hp _ _, fun t => ?_, fun t => ?_⟩
  · have := toIcoMod_lt_right hp (-Real.pi) t; linarith
  · refine ⟨-toIcoDiv hp (-Real.pi) t, ?_⟩
    have := toIcoMod_add_toIcoDiv_zsmul hp (-Real.pi) t
    rw [zsmul_eq_mul] at this; push_cast; linarith

/-! ### Chunks -/

/-- The index of a state in its chunk. -/
def cidx (a b t : Nat) (f : Bool) : Nat := a + b * 32 + t * 32 * 32 + (if f then 0 else 32 * 32 * 32)

theorem cidx_lt {a b t : Nat} {f : Bool} (ha : a < 32) (hb : b < 32) (ht : t < 32) :
    cidx a b t f < 2 * (32 * 32 * 32) := by unfold cidx; split <;> omega

theorem cidx_inj {a b t a' b' t' : Nat} {f f' : Bool} (ha : a < 32) (hb : b < 32) (ht : t < 32)
    (ha' : a' < 32) (hb' : b' < 32) (ht' : t' < 32) (h : cidx a b t f = cidx a' b' t' f') :
    a = a' ∧ b = b' ∧ t = t' ∧ f = f' := by
  unfold cidx at h
  cases f <;> cases f' <;> simp only [Bool.false_eq_true, if_false, if_true] at h <;>
    refine ⟨by omega, by omega, by omega, ?_⟩ <;> first | rfl | omega

theorem chunkIndex_ok {ox oy mx my : Int} {t : Nat} {f : Bool} (h1 : ox ≤ mx) (h2 : mx < ox + 32)
    (h3 : oy ≤ my) (h4 : my < oy + 32) :
    chunkIndex ox oy mx my t f = .ok (cidx (mx - ox).toNat (my - oy).toNat t f) := by
  unfold chunkIndex cidx
  simp only
  rw [if_neg (by omega)]

theorem chunkIndex_throw {ox oy mx my : Int} {t : Nat} {f : Bool}
    (h : ¬ (ox ≤ mx ∧ mx < ox + 32 ∧ oy ≤ my ∧ my < oy + 32)) :
    chunkIndex ox oy mx my t f = .throw "OutsideMapException" := by
  unfold chunkIndex
  simp only
  rw [if_pos (by omega)]

/-- A chunk whose nodes carry the coordinates they should. -/
def Chunk.Good (c : Chunk) : Prop :=
  ∀ mx my t (f : Bool), c.ox ≤ mx → mx < c.ox + 32 → c.oy ≤ my → my < c.oy + 32 → t < 32 →
    c.data[cidx (mx - c.ox).toNat (my - c.oy).toNat t f]? = some (mx, my, t)

theorem chunk_new (ox oy : Int) (junk : Int × Int × Nat) :
    ∃ c, Chunk.new ox oy junk = .ok c ∧ c.ox = ox ∧ c.oy = oy ∧ c.Good := by
  obtain ⟨a', e1, e2, e3, _⟩ := initLoop_ok
    (ix := fun k : Nat × Nat × Nat × Bool => chunkIndex ox oy (ox + k.1) (oy + k.2.1) k.2.2.1 k.2.2.2)
    (val := fun k => (ox + k.1, oy + k.2.1, k.2.2.1))
    (f := fun k : Nat × Nat × Nat × Bool => cidx k.1 k.2.1 k.2.2.1 k.2.2.2)
    (keys4 32 32 32) (List.replicate (2 * (32 * 32 * 32)) junk)
    (by
      rintro ⟨x, y, t, f⟩ hk
      obtain ⟨hx, hy, ht⟩ := mem_keys4.1 hk
      simp only
      rw [chunkIndex_ok (by omega) (by omega) (by omega) (by omega)]
      congr 2 <;> omega)
    (by
      rintro ⟨x, y, t, f⟩ hk
      obtain ⟨hx, hy, ht⟩ := mem_keys4.1 hk
      rw [List.length_replicate]
      exact cidx_lt hx hy ht)
    (by
      rintro ⟨x, y, t, f⟩ hk ⟨x', y', t', f'⟩ hk' he
      obtain ⟨hx, hy, ht⟩ := mem_keys4.1 hk
      obtain ⟨hx', hy', ht'⟩ := mem_keys4.1 hk'
      obtain ⟨rfl, rfl, rfl, rfl⟩ := cidx_inj hx hy ht hx' hy' ht' he
      rfl)
  refine ⟨⟨ox, oy, a'⟩, by simp only [Chunk.new]; rw [e1]; rfl, rfl, rfl, ?_⟩
  intro mx my t f h1 h2 h3 h4 ht
  simp only at h1 h2 h3 h4 ⊢
  have := e3 ((mx - ox).toNat, (my - oy).toNat, t, f) (mem_keys4.2 ⟨by omega, by omega, ht⟩)
  simp only at this
  rw [this]
  congr 2
  · omega
  · congr 1; omega

/-! ### The manager -/

namespace DMgr

/-- Sizes for which all the integer arithmetic stays in range. -/
def Sized (w h : Nat) : Prop := w + 64 < 2 ^ 31 ∧ h + 64 < 2 ^ 31

/-- Invariant: the table has its size, and the chunk in each table slot is the one belonging to
that slot. -/
structure Inv (w h : Nat) (d : DMgr) : Prop where
  ew : d.w = w
  eh : d.h = h
  ecw : d.chunksW = (w + 64) / 32 + 1
  len : d.chunks.length = ((w + 64) / 32 + 1) * ((h + 64) / 32 + 1)
  ok : ∀ (s : Nat) (c : Chunk), d.chunks[s]? = some (some c) → c.Good ∧
    c.ox = ((s % d.chunksW : Nat) : Int) * 32 - 32 ∧ c.oy = ((s / d.chunksW : Nat) : Int) * 32 - 32

theorem inv_setMap (w h : Nat) : Inv w h (setMap w h) := by
  refine ⟨rfl, rfl, by simp [setMap], by simp [setMap], ?_⟩
  intro s c h
  simp only [setMap, List.getElem?_replicate] at h
  split at h <;> cases h

variable {w h : Nat}

theorem contains_iff {d : DMgr} (hs : Sized w h) (hi : Inv w h d) (x y : Int) :
    d.contains x y = true ↔ -32 ≤ x ∧ x < w + 32 ∧ -32 ≤ y ∧ y < h + 32 := by
  obtain ⟨h1, h2⟩ := hs
  unfold contains
  rw [hi.ew, hi.eh, wrapU_lt (by omega), wrapU_lt (by omega), toI32_small (by omega),
    toI32_small (by omega)]
  simp; omega

/-- Chunk coordinates for coordinates from -31 on: rounding down. -/
theorem chunkCoord_eq {x : Int} (hx : -31 ≤ x) : chunkCoord x = x / 32 := by
  unfold chunkCoord
  split
  · have : x.tdiv 32 = 0 := by
      have h1 : x = -(-x) := by omega
      rw [h1, Int.neg_tdiv, Int.tdiv_eq_zero_of_lt (by omega) (by omega)]; rfl
    rw [this]; omega
  · rw [Int.tdiv_eq_ediv_of_nonneg (by omega)]

theorem slots_bound (hs : Sized w h) :
    ((w + 64) / 32 + 1) * ((h + 64) / 32 + 1) < 18446744073709551616 := by
  obtain ⟨h1, h2⟩ := hs
  have a : (w + 64) / 32 + 1 ≤ 67108865 := by omega
  have b : (h + 64) / 32 + 1 ≤ 67108865 := by omega
  calc _ ≤ 67108865 * 67108865 := Nat.mul_le_mul a b
    _ < _ := by norm_num

/-- Table index of a coordinate pair from -31 on: no wrap-around, column and row of the chunk. -/
theorem slot_eq {d : DMgr} (hs : Sized w h) (hi : Inv w h d) {x y : Int} (hx : -31 ≤ x)
    (hx2 : x < w + 32) (hy : -31 ≤ y) (hy2 : y < h + 32) :
    d.slot x y = (y / 32 + 1).toNat * d.chunksW + (x / 32 + 1).toNat ∧
    (x / 32 + 1).toNat < d.chunksW ∧ d.slot x y < d.chunks.length := by
  have hcw := hi.ecw
  have ha : (x / 32 + 1).toNat < (w + 64) / 32 + 1 := by omega
  have hb : (y / 32 + 1).toNat < (h + 64) / 32 + 1 := by omega
  have hlt := lin_lt ha hb
  have hbd := slots_bound hs
  have e : d.slot x y = (y / 32 + 1).toNat * d.chunksW + (x / 32 + 1).toNat := by
    unfold slot
    rw [chunkCoord_eq hx, chunkCoord_eq hy, hcw]
    have e1 : (y / 32 + 1) * (((w + 64) / 32 + 1 : Nat) : Int) + (x / 32 + 1) =
        (((y / 32 + 1).toNat * ((w + 64) / 32 + 1) + (x / 32 + 1).toNat : Nat) : Int) := by
      push_cast
      rw [Int.toNat_of_nonneg (by omega), Int.toNat_of_nonneg (by omega)]
    rw [e1, Int.emod_eq_of_lt (by omega) (by omega), Int.toNat_natCast]
  refine ⟨e, by omega, ?_⟩
  rw [e, hi.len, hcw]; exact hlt

/-- The pointer that a request is answered with. -/
def ref (w : Nat) (r : Req) : NRef :=
  ((r.y / 32 + 1).toNat * ((w + 64) / 32 + 1) + (r.x / 32 + 1).toNat,
    cidx (r.x % 32).toNat (r.y % 32).toNat r.t r.fwd)

/-- The request addresses a state of the padded map, and is not on the outermost padding line
`x = -32` or `y = -32`. -/
def GoodReq (w h : Nat) (r : Req) : Prop :=
  -31 ≤ r.x ∧ r.x < w + 32 ∧ -31 ≤ r.y ∧ r.y < h + 32 ∧ r.t < 32

theorem slot_divmod {d : DMgr} {a b : Nat} (ha : a < d.chunksW) :
    (b * d.chunksW + a) % d.chunksW = a ∧ (b * d.chunksW + a) / d.chunksW = b := by
  constructor
  · rw [add_comm, Nat.add_mul_mod_self_right, Nat.mod_eq_of_lt ha]
  · rw [add_comm, Nat.add_mul_div_right _ _ (by omega), Nat.div_eq_of_lt ha, zero_add]

/-- One lookup of a good request. -/
theorem lookup_good {d : DMgr} (junk : Int × Int × Nat) (hs : Sized w h) (hi : Inv w h d) (r : Req)
    (hr : GoodReq w h r) :
    ∃ d', d.lookup junk r.x r.y r.t r.fwd = (d', .ok (ref w r)) ∧ Inv w h d' ∧
      d'.node (ref w r) = some (r.x, r.y, r.t) ∧
      (∀ p n, d.node p = some n → d'.node p = some n) := by
  obtain ⟨hx1, hx2, hy1, hy2, ht⟩ := hr
  obtain ⟨es, ea, elt⟩ := slot_eq hs hi hx1 hx2 hy1 hy2
  obtain ⟨dm1, dm2⟩ := slot_divmod (d := d) (b := (r.y / 32 + 1).toNat) ea
  have hcon : ¬ (d.contains r.x r.y = false ∨ 32 ≤ r.t) := by
    have := (contains_iff hs hi r.x r.y).2 ⟨by omega, hx2, by omega, hy2⟩
    rw [this]; simp; omega
  have href1 : (ref w r).1 = d.slot r.x r.y := by rw [es, hi.ecw]; rfl
  have horx : r.x / 32 * 32 = ((d.slot r.x r.y % d.chunksW : Nat) : Int) * 32 - 32 := by
    rw [es, dm1]; omega
  have hory : r.y / 32 * 32 = ((d.slot r.x r.y / d.chunksW : Nat) : Int) * 32 - 32 := by
    rw [es, dm2]; omega
  have hidx : ∀ c : Chunk, c.ox = r.x / 32 * 32 → c.oy = r.y / 32 * 32 →
      c.lookup r.x r.y r.t r.fwd = .ok (ref w r).2 ∧
      (c.Good → c.data[(ref w r).2]? = some (r.x, r.y, r.t)) := by
    intro c h1 h2
    have q : (ref w r).2 = cidx (r.x - c.ox).toNat (r.y - c.oy).toNat r.t r.fwd := by
      unfold ref; simp only; rw [h1, h2]
      congr 1 <;> congr 1 <;> omega
    refine ⟨?_, fun hg => ?_⟩
    · unfold Chunk.lookup
      rw [chunkIndex_ok (by omega) (by omega) (by omega) (by omega), q]
    · rw [q]; exact hg _ _ _ _ (by omega) (by omega) (by omega) (by omega) ht
  unfold lookup
  rw [if_neg hcon]
  simp only
  obtain ⟨oc, hoc⟩ : ∃ oc, d.chunks[d.slot r.x r.y]? = some oc :=
    ⟨_, List.getElem?_eq_getElem elt⟩
  cases oc with
  | some c =>
    obtain ⟨hg, hox, hoy⟩ := hi.ok _ c hoc
    obtain ⟨l1, l2⟩ := hidx c (hox.trans horx.symm) (hoy.trans hory.symm)
    rw [hoc]
    refine ⟨d, ?_, hi, ?_, fun p n hp => hp⟩
    · simp only [l1, CRes.ok_bind, CRes.pure_eq]
      rw [← href1]
    · simp [node, href1, hoc, l2 hg]
  | none =>
    obtain ⟨c, hc, hox, hoy, hg⟩ := chunk_new (chunkCoord r.x * 32) (chunkCoord r.y * 32) junk
    rw [chunkCoord_eq hx1] at hox
    rw [chunkCoord_eq hy1] at hoy
    obtain ⟨l1, l2⟩ := hidx c hox hoy
    rw [hoc]
    simp only [hc]
    refine ⟨{ d with chunks := d.chunks.set (d.slot r.x r.y) (some c) }, ?_, ?_, ?_, ?_⟩
    · simp only [l1, CRes.ok_bind, CRes.pure_eq]
      rw [← href1]
    · refine ⟨hi.ew, hi.eh, hi.ecw, by simpa using hi.len, ?_⟩
      intro s c' hc'
      by_cases hss : d.slot r.x r.y = s
      · subst hss
        simp only [List.getElem?_set_self elt, Option.some.injEq] at hc'
        subst hc'
        exact ⟨hg, hox.trans horx, hoy.trans hory⟩
      · simp only [List.getElem?_set_ne hss] at hc'
        exact hi.ok s c' hc'
    · simp [node, href1, elt, l2 hg]
    · intro p n hp
      by_cases hss : d.slot r.x r.y = p.1
      · exfalso
        simp [node, ← hss, hoc] at hp
      · simpa [node, List.getElem?_set_ne hss] using hp

/-- A lookup outside `contains` (or of a bad slot) throws and changes nothing, in every state. -/
theorem lookup_outside (d : DMgr) (junk : Int × Int × Nat) (x y : Int) (t : Nat) (f : Bool)
    (hc : d.contains x y = false ∨ 32 ≤ t) :
    d.lookup junk x y t f = (d, .throw "OutsideMapException") := by
  unfold lookup; rw [if_pos hc]

/-- A history that avoids the padding lines `x = -32` and `y = -32`. -/
def Avoids32 (rs : List Req) : Prop := ∀ r ∈ rs, r.x ≠ -32 ∧ r.y ≠ -32

theorem run_inv (junk : Int × Int × Nat) (hs : Sized w h) :
    ∀ (rs : List Req) (d : DMgr), Inv w h d → Avoids32 rs →
      Inv w h (run junk d rs) ∧ ∀ p n, d.node p = some n → (run junk d rs).node p = some n := by
  intro rs
  induction rs with
  | nil => intro d hi _; exact ⟨hi, fun p n hp => hp⟩
  | cons r rs ih =>
    intro d hi hav
    have hav' : Avoids32 rs := fun r' hr' => hav r' (List.mem_cons_of_mem _ hr')
    by_cases hg : GoodReq w h r
    · obtain ⟨d', e, hi', _, hpres⟩ := lookup_good junk hs hi r hg
      obtain ⟨i2, p2⟩ := ih d' hi' hav'
      refine ⟨by simpa [run, e] using i2, fun p n hp => ?_⟩
      simpa [run, e] using p2 p n (hpres p n hp)
    · have hout : d.contains r.x r.y = false ∨ 32 ≤ r.t := by
        by_contra hn
        push Not at hn
        obtain ⟨h1, h2⟩ := hn
        have h3 := (contains_iff hs hi r.x r.y).1 (by simpa using h1)
        have := hav r (by simp)
        exact hg ⟨by omega, h3.2.1, by omega, h3.2.2.2, h2⟩
      have e := lookup_outside d junk r.x r.y r.t r.fwd hout
      simpa [run, e] using ih d hi hav'

/-- **C21 (partial).** For every map size, every history `rs` of lookups (in and out of the map)
that avoids the padding lines `-32`, and every state of the padded map except those lines:
the lookup succeeds and returns a pointer that does not depend on the history, the node behind it
carries exactly the requested cell and slot, and it still does after every further such history
`rs2`; two different states get different pointers; requests outside throw and leave the manager
unchanged.  Missing: the lines `x = -32` and `y = -32`, for which `contains` also holds and where
the claim is false (theorems below). -/
theorem lookup_exact_partial (junk : Int × Int × Nat) (hs : Sized w h) (rs rs2 : List Req)
    (h1 : Avoids32 rs) (h2 : Avoids32 rs2) (r : Req) (hr : GoodReq w h r) :
    let d := run junk (setMap w h) rs
    ∃ d', d.lookup junk r.x r.y r.t r.fwd = (d', .ok (ref w r)) ∧
      d'.node (ref w r) = some (r.x, r.y, r.t) ∧
      (run junk d' rs2).node (ref w r) = some (r.x, r.y, r.t) ∧
      ((run junk d' rs2).lookup junk r.x r.y r.t r.fwd).2 = .ok (ref w r) ∧
      (∀ r', GoodReq w h r' → ref w r' = ref w r → r' = r) ∧
      (∀ (x y : Int) (t : Nat) (f : Bool), ¬ (-32 ≤ x ∧ x < w + 32 ∧ -32 ≤ y ∧ y < h + 32 ∧ t < 32) →
        d.lookup junk x y t f = (d, .throw "OutsideMapException")) := by
  intro d
  obtain ⟨hi, _⟩ := run_inv junk hs rs _ (inv_setMap w h) h1
  obtain ⟨d', e1, hi', e2, _⟩ := lookup_good junk hs hi r hr
  obtain ⟨hi2, p2⟩ := run_inv junk hs rs2 d' hi' h2
  obtain ⟨d3, e3, _⟩ := lookup_good junk hs hi2 r hr
  refine ⟨d', e1, e2, p2 _ _ e2, by rw [e3], ?_, ?_⟩
  · intro r' hr' he
    obtain ⟨d4, _, hi4, e4, pres⟩ := lookup_good junk hs hi' r' hr'
    have := pres _ _ e2
    rw [he, this] at e4
    injection e4 with e4
    obtain ⟨a, b⟩ := Prod.mk.inj e4
    obtain ⟨b, c⟩ := Prod.mk.inj b
    have hid := congrArg Prod.snd he
    simp only [ref] at hid
    obtain ⟨_, _, _, hf⟩ := cidx_inj (by omega) (by omega) hr'.2.2.2.2 (by omega) (by omega)
      hr.2.2.2.2 hid
    cases r; cases r'; simp_all
  · intro x y t f hn
    apply lookup_outside
    by_contra hc
    push Not at hc
    have := (contains_iff hs hi x y).1 (by simpa using hc.1)
    omega

/-! ### The outermost padding lines -/

theorem chunkCoord_m32 : chunkCoord (-32) = -2 := by decide

/-- **C21 is false on the line `x = -32`** although `contains(-32, y)` holds: for every map, in the
fresh manager, the lookup throws `OutsideMapException` (`y >= 0`) - after having put a chunk
with the wrong origin into the table slot of another chunk. -/
theorem lookup_minus32_throws (junk : Int × Int × Nat) (hs : Sized w h) (y : Int) (hy : 0 ≤ y)
    (hy2 : y < h + 32) (t : Nat) (ht : t < 32) (f : Bool) :
    (setMap w h).contains (-32) y = true ∧
    ∃ c : Chunk, c.ox = -64 ∧ c.oy = y / 32 * 32 ∧
      (setMap w h).lookup junk (-32) y t f =
        ({ setMap w h with
            chunks := (setMap w h).chunks.set ((y / 32 + 1).toNat * ((w + 64) / 32 + 1) - 1) (some c) },
          .throw "OutsideMapException") := by
  have hi := inv_setMap w h
  have hcon : (setMap w h).contains (-32) y = true :=
    (contains_iff hs hi _ _).2 ⟨by omega, by omega, by omega, hy2⟩
  refine ⟨hcon, ?_⟩
  have hb : (y / 32 + 1).toNat < (h + 64) / 32 + 1 := by omega
  have hb1 : 1 ≤ (y / 32 + 1).toNat := by omega
  have hbd := slots_bound hs
  have hmul : (y / 32 + 1).toNat * ((w + 64) / 32 + 1) ≤
      ((w + 64) / 32 + 1) * ((h + 64) / 32 + 1) := by
    rw [mul_comm]; exact Nat.mul_le_mul_left _ (by omega)
  have hpos : 1 ≤ (y / 32 + 1).toNat * ((w + 64) / 32 + 1) := Nat.mul_pos hb1 (by omega)
  have es : (setMap w h).slot (-32) y = (y / 32 + 1).toNat * ((w + 64) / 32 + 1) - 1 := by
    unfold slot
    rw [chunkCoord_m32, chunkCoord_eq (by omega : -31 ≤ y), hi.ecw]
    have e1 : (y / 32 + 1) * (((w + 64) / 32 + 1 : Nat) : Int) + (-2 + 1) =
        (((y / 32 + 1).toNat * ((w + 64) / 32 + 1) - 1 : Nat) : Int) := by
      rw [Nat.cast_sub hpos]
      push_cast
      rw [Int.toNat_of_nonneg (by omega)]; ring
    rw [e1, Int.emod_eq_of_lt (by omega) (by omega), Int.toNat_natCast]
  obtain ⟨c, hc, hox, hoy, hg⟩ := chunk_new (chunkCoord (-32) * 32) (chunkCoord y * 32) junk
  refine ⟨c, by rw [hox, chunkCoord_m32]; rfl, by rw [hoy, chunkCoord_eq (by omega)], ?_⟩
  unfold lookup
  rw [if_neg (by rw [hcon]; simp; omega)]
  have hl : (setMap w h).chunks[(setMap w h).slot (-32) y]? = some none := by
    rw [es]
    simp only [setMap, List.getElem?_replicate]
    rw [if_pos]
    have a1 : (w + 2 * 32) / 32 + 1 = (w + 64) / 32 + 1 := by omega
    have a2 : (h + 2 * 32) / 32 + 1 = (h + 64) / 32 + 1 := by omega
    rw [a1, a2]; omega
  simp only [hl, hc]
  have hthrow : c.lookup (-32) y t f = .throw "OutsideMapException" := by
    unfold Chunk.lookup
    apply chunkIndex_throw
    rw [hox, chunkCoord_m32]; omega
  rw [hthrow, es]
  rfl

/-- Consequence: that failed lookup breaks later lookups of valid cells.  For every map whose width
is not a multiple of 32, after `lookup(-32, y)` the state `((w/32+1)*32, y-32)`, which the fresh
manager serves, is answered with `OutsideMapException`. -/
theorem lookup_minus32_poisons (junk : Int × Int × Nat) (hs : Sized w h) (hw : w % 32 ≠ 0) (y : Int)
    (hy : 32 ≤ y) (hy2 : y < h + 32) (t : Nat) (ht : t < 32) (f : Bool) :
    let r : Req := ⟨((w / 32 + 1) * 32 : Nat), y - 32, t, f⟩
    let d := ((setMap w h).lookup junk (-32) y t f).1
    ((setMap w h).lookup junk r.x r.y r.t r.fwd).2 = .ok (ref w r) ∧
    (d.lookup junk r.x r.y r.t r.fwd).2 = .throw "OutsideMapException" := by
  intro r d
  have hg : GoodReq w h r := by
    refine ⟨?_, ?_, ?_, ?_, ht⟩ <;> simp only [r] <;> omega
  have hi := inv_setMap w h
  refine ⟨?_, ?_⟩
  · obtain ⟨d', e, _⟩ := lookup_good junk hs hi r hg
    rw [e]
  · obtain ⟨_, c, hox, hoy, e⟩ := lookup_minus32_throws junk hs y (by omega) hy2 t ht f
    have hd : d = { setMap w h with
        chunks := (setMap w h).chunks.set ((y / 32 + 1).toNat * ((w + 64) / 32 + 1) - 1)
          (some c) } := by
      simp only [d]; rw [e]
    have hslot : d.slot r.x r.y = (setMap w h).slot r.x r.y := by rw [hd]; rfl
    have hcont : d.contains r.x r.y = (setMap w h).contains r.x r.y := by rw [hd]; rfl
    obtain ⟨es, ea, elt⟩ := slot_eq hs hi hg.1 hg.2.1 hg.2.2.1 hg.2.2.2.1
    have hpos : ((w + 64) / 32 + 1) ≤ (y / 32 + 1).toNat * ((w + 64) / 32 + 1) :=
      Nat.le_mul_of_pos_left _ (by omega)
    have es' : (setMap w h).slot r.x r.y = (y / 32 + 1).toNat * ((w + 64) / 32 + 1) - 1 := by
      rw [es, hi.ecw]
      simp only [r]
      have a1 : ((y - 32) / 32 + 1).toNat = (y / 32 + 1).toNat - 1 := by omega
      have a2 : ((((w / 32 + 1) * 32 : Nat) : Int) / 32 + 1).toNat = (w + 64) / 32 := by omega
      rw [a1, a2, Nat.sub_mul]; omega
    have hcc := (contains_iff hs hi r.x r.y).2 ⟨by have := hg.1; omega, hg.2.1,
      by have := hg.2.2.1; omega, hg.2.2.2.1⟩
    have hlk : d.chunks[d.slot r.x r.y]? = some (some c) := by
      rw [hslot, es', hd]
      rw [es'] at elt
      exact List.getElem?_set_self elt
    unfold lookup
    rw [if_neg (by rw [hcont, hcc]; simp only [r]; simp; omega)]
    simp only [hlk]
    have hthrow : c.lookup r.x r.y r.t r.fwd = .throw "OutsideMapException" := by
      unfold Chunk.lookup
      apply chunkIndex_throw
      rw [hox]; simp only [r]; omega
    rw [hthrow]; rfl

/-- On the line `y = -32` (and on `x = -32` with `y < 0`) the lookup leaves the documented
behaviour altogether: `std::out_of_range` from the chunk table. -/
theorem lookup_bottom_out_of_range (junk : Int × Int × Nat) (hs : Sized w h) (x : Int)
    (hx : -31 ≤ x) (hx2 : x < w + 32) (t : Nat) (ht : t < 32) (f : Bool) :
    (setMap w h).contains x (-32) = true ∧
    (setMap w h).lookup junk x (-32) t f = (setMap w h, .throw "std::out_of_range") := by
  have hi := inv_setMap w h
  have hcon : (setMap w h).contains x (-32) = true :=
    (contains_iff hs hi _ _).2 ⟨by omega, hx2, by omega, by omega⟩
  refine ⟨hcon, ?_⟩
  have hbd := slots_bound hs
  have hcw1 : (w + 64) / 32 + 1 ≤ 67108865 := by have := hs.1; omega
  have hch : (h + 64) / 32 + 1 ≤ 67108865 := by have := hs.2; omega
  have hmul : ((w + 64) / 32 + 1) * ((h + 64) / 32 + 1) ≤ 67108865 * 67108865 :=
    Nat.mul_le_mul hcw1 hch
  have hslot : (setMap w h).chunks.length ≤ (setMap w h).slot x (-32) := by
    unfold slot
    rw [chunkCoord_m32, chunkCoord_eq hx, hi.ecw, hi.len]
    have e1 : ((-2 + 1) * (((w + 64) / 32 + 1 : Nat) : Int) + (x / 32 + 1)) % 18446744073709551616 =
        (-(((w + 64) / 32 + 1 : Nat) : Int) + (x / 32 + 1)) + 18446744073709551616 := by
      rw [show ((-2 + 1 : Int)) * (((w + 64) / 32 + 1 : Nat) : Int) =
        -(((w + 64) / 32 + 1 : Nat) : Int) by ring]
      rw [← Int.add_emod_right, Int.emod_eq_of_lt (by omega) (by omega)]
    rw [e1]; omega
  unfold lookup
  rw [if_neg (by rw [hcon]; simp; omega)]
  simp only [List.getElem?_eq_none hslot]

/-! ### `hasNode` -/

/-- `hasNode(x,y)` does not look at the chunk of `(x,y)`: in every reachable state its answer for
non-negative coordinates is whether the chunk serving `(x-32, y-32)` exists. -/
theorem hasNode_shifted (junk : Int × Int × Nat) (hs : Sized w h) (rs : List Req)
    (h1 : Avoids32 rs) (x y : Int) (hx : 0 ≤ x) (hx2 : x < w + 32) (hy : 0 ≤ y) (hy2 : y < h + 32)
    (t : Nat) (ht : t < 32) :
    let d := run junk (setMap w h) rs
    d.hasNode x y t = .ok ((d.chunks[(y / 32).toNat * d.chunksW + (x / 32).toNat]?).getD none).isSome := by
  intro d
  obtain ⟨hi, _⟩ := run_inv junk hs rs _ (inv_setMap w h) h1
  have hcon : d.contains x y = true := (contains_iff hs hi _ _).2 ⟨by omega, hx2, by omega, hy2⟩
  obtain ⟨s1, s2⟩ := hs
  have hbd := slots_bound ⟨s1, s2⟩
  have ha : (x / 32).toNat < (w + 64) / 32 + 1 := by omega
  have hb : (y / 32).toNat < (h + 64) / 32 + 1 := by omega
  have hlt := lin_lt ha hb
  have ex : toI32 (wrapI x / 32) = ((x / 32).toNat : Int) := by
    rw [wrapI_of_lt hx (by omega), toI32_small (by omega)]; omega
  have ey : toI32 (wrapI y / 32) = ((y / 32).toNat : Int) := by
    rw [wrapI_of_lt hy (by omega), toI32_small (by omega)]; omega
  have es : ((((y / 32).toNat : Int) * d.chunksW + ((x / 32).toNat : Int)) %
      18446744073709551616).toNat = (y / 32).toNat * d.chunksW + (x / 32).toNat := by
    rw [hi.ecw]
    rw [show (((y / 32).toNat : Int) * (((w + 64) / 32 + 1 : Nat) : Int) + ((x / 32).toNat : Int)) =
      (((y / 32).toNat * ((w + 64) / 32 + 1) + (x / 32).toNat : Nat) : Int) by push_cast; ring]
    rw [Int.emod_eq_of_lt (by omega) (by omega), Int.toNat_natCast]
  have hl : (y / 32).toNat * d.chunksW + (x / 32).toNat < d.chunks.length := by
    rw [hi.len, hi.ecw]; exact hlt
  unfold hasNode
  rw [if_neg (by rw [hcon]; simp; omega)]
  simp only [ex, ey, es]
  rw [List.getElem?_eq_getElem hl]
  simp

/-- In particular a node that was just looked up is reported missing, on every map. -/
theorem hasNode_misses (junk : Int × Int × Nat) (hs : Sized w h) (r : Req) (hr : GoodReq w h r)
    (hx : 0 ≤ r.x) (hy : 0 ≤ r.y) :
    (run junk (setMap w h) [r]).hasNode r.x r.y r.t = .ok false := by
  have hav : Avoids32 [r] := by
    intro r' hr'
    rw [List.mem_singleton] at hr'; subst hr'
    constructor <;> omega
  rw [hasNode_shifted junk hs [r] hav r.x r.y hx hr.2.1 hy hr.2.2.2.1 r.t hr.2.2.2.2]
  have hi := inv_setMap w h
  obtain ⟨es, ea, elt⟩ := slot_eq hs hi hr.1 hr.2.1 hr.2.2.1 hr.2.2.2.1
  have hrun : (run junk (setMap w h) [r]).chunksW = (setMap w h).chunksW ∧
      ∀ s, s ≠ (setMap w h).slot r.x r.y →
        (run junk (setMap w h) [r]).chunks[s]? = (setMap w h).chunks[s]? := by
    simp only [run, lookup]
    split
    · exact ⟨rfl, fun s _ => rfl⟩
    · split
      · exact ⟨rfl, fun s _ => rfl⟩
      · exact ⟨rfl, fun s _ => rfl⟩
      · split
        · exact ⟨rfl, fun s hne => List.getElem?_set_ne hne.symm⟩
        · exact ⟨rfl, fun s _ => rfl⟩
        · exact ⟨rfl, fun s _ => rfl⟩
  rw [hrun.1, hrun.2]
  · simp only [setMap, List.getElem?_replicate]
    split <;> rfl
  · rw [es]
    intro he
    have h1 : (r.y / 32 + 1).toNat = (r.y / 32).toNat + 1 := by omega
    have h2 : (r.x / 32 + 1).toNat = (r.x / 32).toNat + 1 := by omega
    rw [h1, h2, Nat.add_mul] at he
    omega

/-- Non-vacuity: a 100 x 50 map; a request in the padding, one in the map. -/
example : Sized 100 50 ∧ GoodReq 100 50 ⟨-31, 81, 31, true⟩ ∧ GoodReq 100 50 ⟨99, 0, 0, false⟩ ∧
    ref 100 ⟨-31, 81, 31, true⟩ ≠ ref 100 ⟨99, 0, 0, false⟩ ∧ 100 % 32 ≠ 0 := by
  refine ⟨by unfold Sized; decide, by unfold GoodReq; decide, by unfold GoodReq; decide, by decide, by decide⟩

end DMgr
end PathPlanning
