import Verif.Spec.FloatClearance
import Verif.Props.FloatSteer2
import Verif.Props.SteerClearance

/-!
# C110: a vehicle that executes a path computed in floating point touches no obstacle
-/

noncomputable section

namespace PathPlanning.Drift
open Spec

variable {m : GridMap ℝ} {skips : Nat} {L res : ℝ}

/-- One step: the vehicle drives from near `a` to near `b`, and the line test accepted the step from `a` to `b`. -/
theorem exec_near (wf : m.WellFormed) {a b a' b' : SNode} {φ dir ds D T δ : ℝ} (h : LineOk m skips a b)
    (hs : FarFromEdge m a) (he : FarFromEdge m b) (hL : 0 < L) (hr : 0 < res) (hdir : dir = 1 ∨ dir = -1)
    (ha : |a'.x - a.x| ≤ δ ∧ |a'.y - a.y| ≤ δ) (hb : |b'.x - b.x| ≤ δ ∧ |b'.y - b.y| ≤ δ)
    (hT : |Real.tan φ| ≤ T) (h0 : 0 ≤ ds) (hD : ds ≤ D) (hd : DrivesTo L res φ dir ds a' b')
    {p : P2} (hp : OnDrive L res φ dir ds a' p) {c : Int × Int} (hc : PtInCell p c) :
    ∃ c', CellsWithin (execMargin skips L res D T δ) c c' ∧ NotOccupied m c' := by
  obtain ⟨x, y, θ, s, hm, ex, ey, et, s0, s1, px, py⟩ := hp
  obtain ⟨x', y', θ', hm', ex', ey', et', dx, dy, _⟩ := hd
  obtain ⟨ux, uy, _⟩ := Clear.motion_unique hm' hm (by rw [ex, ex']) (by rw [ey, ey']) (by rw [et, et']) ds
  rw [ux] at dx; rw [uy] at dy
  obtain ⟨cx, cy⟩ := Clear.motion_chord hm hL hr hdir s0 s1
  rw [ex, dx, ← px] at cx
  rw [ey, dy, ← py] at cy
  have t0 : 0 ≤ s / ds := div_nonneg s0 (s0.trans s1)
  have t1 : s / ds ≤ 1 := div_le_one_of_le₀ s1 (s0.trans s1)
  have hbulge : ds ^ 2 * |Real.tan φ| / (8 * L * res) ≤ D ^ 2 * T / (8 * L * res) := by
    refine div_le_div_of_nonneg_right ?_ (by positivity)
    exact mul_le_mul (pow_le_pow_left₀ h0 hD 2) hT (abs_nonneg _) (by positivity)
  have shift : ∀ {u u' v v' w : ℝ}, |u' - u| ≤ δ → |v' - v| ≤ δ →
      |w - (u' + s / ds * (v' - u'))| ≤ ds ^ 2 * |Real.tan φ| / (8 * L * res) →
      abs (w - (u + s / ds * (v - u))) ≤ D ^ 2 * T / (8 * L * res) + δ := by
    intro u u' v v' w h1 h2 h3
    have e : w - (u + s / ds * (v - u)) = (w - (u' + s / ds * (v' - u'))) + ((1 - s / ds) * (u' - u) + s / ds * (v' - v)) := by ring
    rw [e]
    refine (abs_add_le _ _).trans (add_le_add (h3.trans hbulge) ?_)
    refine (abs_add_le _ _).trans ?_
    rw [abs_mul, abs_mul, abs_of_nonneg t0, abs_of_nonneg (by linarith : (0 : ℝ) ≤ 1 - s / ds)]
    have k1 := mul_le_mul_of_nonneg_left h1 (by linarith : (0 : ℝ) ≤ 1 - s / ds)
    have k2 := mul_le_mul_of_nonneg_left h2 t0
    linarith
  obtain ⟨l, hl, l1, l2⟩ := lineCell_cover m ⌊a.x⌋ ⌊a.y⌋ ⌊b.x⌋ ⌊b.y⌋ _ t0 t1
  obtain ⟨c', ⟨w1, w2⟩, hno⟩ := lineOk_near wf h hs he hl
  refine ⟨c', ⟨?_, ?_⟩, hno⟩
  · have := PathPlanning.coord_near t0 t1 l1 (shift ha.1 hb.1 cx)
    rw [RS.ptInCell_eq hc]
    have h1 := abs_le.1 this; have h2 := abs_le.1 w1
    unfold execMargin
    rw [abs_le]; simp only; constructor <;> omega
  · have := PathPlanning.coord_near t0 t1 l2 (shift ha.2 hb.2 cy)
    rw [RS.ptInCell_eq hc]
    have h1 := abs_le.1 this; have h2 := abs_le.1 w2
    unfold execMargin
    rw [abs_le]; simp only; constructor <;> omega

theorem passes_index {a : SNode} {cs : List Cmd} {p : P2} (h : Passes L res a cs p) :
    ∃ (ps : List SNode) (i : ℕ) (hi : i < cs.length) (hp : i < ps.length), Executes L res a cs ps ∧
      OnDrive L res cs[i].φ cs[i].dir cs[i].len ((a :: ps)[i]'(by simp; omega)) p ∧
      DrivesTo L res cs[i].φ cs[i].dir cs[i].len ((a :: ps)[i]'(by simp; omega)) ps[i] := by
  induction h with
  | @here a c cs p h =>
    obtain ⟨ps, hps⟩ := exec_exists (L := L) (res := res) (c :: cs) a
    cases hps with
    | @cons _ b _ _ ps hd he =>
      exact ⟨b :: ps, 0, by simp, by simp, .cons hd he, h, hd⟩
  | @later a b c cs p hd _ ih =>
    obtain ⟨ps, i, hi, hp, he, h1, h2⟩ := ih
    exact ⟨b :: ps, i + 1, by simp; omega, by simp; omega, .cons hd he, h1, h2⟩

theorem pair_infix {α : Type} (l : List α) (i : ℕ) (h : i + 1 < l.length) : [l[i], l[i + 1]] <:+: l := by
  refine ⟨l.take i, l.drop (i + 2), ?_⟩
  have h1 : l.drop i = l[i] :: l[i + 1] :: l.drop (i + 2) := by
    rw [List.drop_eq_getElem_cons (by omega), List.drop_eq_getElem_cons (show i + 1 < l.length by omega)]
  rw [List.append_assoc, List.cons_append, List.cons_append, List.nil_append, ← h1, List.take_append_drop]

/-- A list of commands whose computed poses were accepted by the line test. -/
theorem passes_near (wf : m.WellFormed) {pe te D T δ : ℝ} {q : SNode} {cs : List Cmd} {qs : List SNode} (hL : 0 < L) (hr : 0 < res)
    (hte : 0 ≤ te) (hn : NearChain L res pe te D q cs qs) (hδ : ∀ n ≤ qs.length, driftErr pe te (D / res) n ≤ δ)
    (hline : ∀ x y, [x, y] <:+: q :: qs → LineOk m skips x y) (hfar : ∀ k ∈ q :: qs, FarFromEdge m k)
    (hcs : ∀ c ∈ cs, |Real.tan c.φ| ≤ T ∧ (c.dir = 1 ∨ c.dir = -1) ∧ 0 ≤ c.len ∧ c.len ≤ D)
    {p : P2} (hp : Passes L res q cs p) {c : Int × Int} (hc : PtInCell p c) :
    ∃ c', CellsWithin (execMargin skips L res D T δ) c c' ∧ NotOccupied m c' := by
  obtain ⟨ps, i, hi, hip, he, ho, hd⟩ := passes_index hp
  obtain ⟨hlen, hnear⟩ := drift_zero hr hn he hte ⟨by simp, by simp, 0, by simp⟩
  obtain ⟨k1, k2, k3, k4⟩ := hcs _ (List.getElem_mem hi)
  have hiq : i < qs.length := by omega
  have hb := (hnear i hip hiq)
  have hδ0 : 0 ≤ δ := by
    have := hδ 0 (Nat.zero_le _)
    simpa [driftErr] using this
  have ha : abs (((q :: ps)[i]'(by simp; omega)).x - ((q :: qs)[i]'(by simp; omega)).x) ≤ δ ∧
      abs (((q :: ps)[i]'(by simp; omega)).y - ((q :: qs)[i]'(by simp; omega)).y) ≤ δ := by
    cases i with
    | zero => simp [hδ0]
    | succ j =>
      obtain ⟨a1, a2, _⟩ := hnear j (by omega) (by omega)
      have hd := hδ (j + 1) (by omega)
      exact ⟨a1.trans hd, a2.trans hd⟩
  have hpair := pair_infix (q :: qs) i (by simp; omega)
  have hd' := hδ (i + 1) (by omega)
  exact exec_near wf (hline _ _ hpair) (hfar _ (List.getElem_mem _)) (hfar _ (List.getElem_mem _)) hL hr k2 ha
    ⟨hb.1.trans hd', hb.2.1.trans hd'⟩ k1 k3 k4 hd ho hc

theorem lookupF_inside {F : Fmt} {clamp : ℝ → ℝ} {w h : Nat} {k : SNode} {n : PadCell w h}
    (hk : steerLookupF F clamp w h k = .ok (some n)) : InsidePad w h k := by
  unfold steerLookupF GMgr.floorI at hk
  split_ifs at hk with h1 h2
  · cases ht : angle2indexF F clamp 32 k.theta with
    | throw => rw [ht] at hk; exact absurd hk (by simp [Bind.bind, CRes.bind])
    | ub => rw [ht] at hk; exact absurd hk (by simp [Bind.bind, CRes.bind])
    | ok t =>
      rw [ht] at hk
      simp only [CRes.ok_bind] at hk
      unfold padLookup at hk
      split_ifs at hk with h3
      exact ⟨h3.1, h3.2.1, h3.2.2.1, h3.2.2.2.1⟩
  all_goals exact absurd hk (by simp [Bind.bind, CRes.bind])

theorem usable_line {D : ℝ} (hm : SteerMapOk m D) {b : Bres ℝ} {k k' : SNode} (hk : InsidePad m.width m.height k)
    (hk' : InsidePad m.width m.height k') (hu : steerUsable m skips b k k' = .ok true) : LineOk m skips k k' := by
  have hw := hm.w; have hh := hm.h; have hD := hm.D
  have w1 : (m.width : Int) + 64 < 2 ^ 31 := by
    have : ((m.width : Int) : ℝ) + 64 < 2 ^ 31 := by push_cast; linarith
    exact_mod_cast this
  have h1 : (m.height : Int) + 64 < 2 ^ 31 := by
    have : ((m.height : Int) : ℝ) + 64 < 2 ^ 31 := by push_cast; linarith
    exact_mod_cast this
  have hint : IntNode k' := by
    unfold InsidePad at hk'
    unfold IntNode
    omega
  obtain ⟨u, e, hiff⟩ := steerUsable_iff hm skips b hk hint
  rw [hu] at e
  have hu' : u = true := by injection e with e; exact e.symm
  exact (hiff.1 hu').2

theorem reachable_inside {F : Fmt} {clamp : ℝ → ℝ} {S : FSteerCfg F} {mvs : List (SNode → List SNode → Option (F.D × SNode))} {pd w h : Nat}
    {st : List (PadCell w h)} {kin0 : PadCell w h → SNode} (hst : ∀ s ∈ st, InsidePad w h (kin0 s)) {k : SNode}
    (hk : Reachable (padAlgoF F clamp w h S mvs pd) st kin0 k) : InsidePad w h k := by
  cases hk with
  | start hs => exact hst _ hs
  | step _ _ hn => exact lookupF_inside hn

section search
variable {F : Fmt} {lib : Lib} {clamp : ℝ → ℝ} {e X δ D0 : ℝ} {O : OpenList (PadCell m.width m.height) F.D}
  {cfg : SCfg (PadCell m.width m.height) F.D} {kin0 : PadCell m.width m.height → SNode} {b : Bres ℝ} {S : FSteerCfg F}

/-- **C110** for `DynamicSteeringNeighborhood`. -/
theorem dyn_exec_safe {Q : DynP} (ok : ArithOk F lib clamp e (5 + 3 * (Q.distStep / Q.la)))
    (hm : 0 ≤ Q.maxSteer ∧ Q.maxSteer ≤ 60) (hla : 0 < Q.la) (hres : 0 < Q.resolution) (hds : 0 ≤ Q.distStep) (hmap : SteerMapOk m D0)
    (L : Lawful O) (M : MinFirst O) (ht : TopOk cfg.top) (hheur : ∀ k g, S.heur k g = 0) (hhg : cfg.heurGoal = none)
    (hus : S.usable = steerUsable m skips b) (hX : max (m.width : ℝ) m.height + 32 ≤ X)
    (hst : ∀ s ∈ cfg.start, (kin0 s).depth = 0 ∧ |(kin0 s).theta| ≤ 4 ∧ InsidePad m.width m.height (kin0 s))
    {fuel : Nat} {path : List SNode}
    (hf : kFindPath (dynSteerAlgoF F lib clamp Q m.width m.height m.res S) O cfg kin0 fuel = some (.ok path)) (hne : path ≠ [])
    (hδ : ∀ n < path.length, driftErr (posErr F.u Q.la Q.resolution (maxLen Q) X) (headErr F.u Q.la (maxLen Q) e) (maxLen Q / Q.resolution) n ≤ δ)
    {obstacle : Int × Int → Prop}
    (hi : Inflated m (execMargin skips Q.la Q.resolution (maxLen Q) |Real.tan ((Q.maxSteer : ℝ) / 180 * Real.pi)| δ) obstacle)
    (hin : ∀ k ∈ path, FarFromEdge m k) :
    ∃ s ∈ cfg.start, ∃ qs, path = kin0 s :: qs ∧
      ∀ p c, Passes Q.la Q.resolution (kin0 s) (commands Q.reversed (firstLen Q) Q.distStep qs) p → PtInCell p c → ¬ obstacle c := by
  obtain ⟨cs, hcs⟩ := dynF_costOk (F := F) (lib := lib) (clamp := clamp) (P := Q) (w := m.width) (h := m.height) (res := m.res) (S := S) hm.1 hmap.res
  obtain ⟨⟨d, hd⟩, ⟨s, hs, hh⟩, _⟩ := kin_exact_without_heuristic hcs L M ht hheur hhg zero_addF hf hne
  obtain ⟨_, _, hreach, _⟩ := kin_path hcs L ht hf hne
  obtain ⟨q, qs, rfl⟩ := List.exists_cons_of_ne_nil hne
  simp only [List.head?_cons, Option.some.injEq] at hh
  subst hh
  obtain ⟨s1, s2, s3⟩ := hst s hs
  have hinside : ∀ k ∈ kin0 s :: qs, InsidePad m.width m.height k := fun k hk => reachable_inside (fun s hs => (hst s hs).2.2) (hreach k hk)
  have hbound : ∀ k : SNode, InsidePad m.width m.height k → |k.x| ≤ X ∧ |k.y| ≤ X := by
    intro k ⟨h1, h2, h3, h4⟩
    have a1 := Int.floor_le k.x; have a2 := Int.lt_floor_add_one k.x
    have b1 := Int.floor_le k.y; have b2 := Int.lt_floor_add_one k.y
    have c1 : (-31 : ℝ) ≤ (⌊k.x⌋ : ℝ) := by exact_mod_cast h1
    have c2 : ((⌊k.x⌋ : Int) : ℝ) + 1 ≤ m.width + 32 := by exact_mod_cast h2
    have c3 : (-31 : ℝ) ≤ (⌊k.y⌋ : ℝ) := by exact_mod_cast h3
    have c4 : ((⌊k.y⌋ : Int) : ℝ) + 1 ≤ m.height + 32 := by exact_mod_cast h4
    have d1 := le_max_left (m.width : ℝ) m.height
    have d2 := le_max_right (m.width : ℝ) m.height
    have d3 : (0 : ℝ) ≤ m.width := Nat.cast_nonneg _
    constructor <;> rw [abs_le] <;> constructor <;> linarith
  have hchain := dyn_chain ok hm hla hres hds hd s1 s2 (fun k hk => hbound k (hinside k hk))
  have hpairs := drive_pairs hd
  have hlegal : ∀ x y, [x, y] <:+: kin0 s :: qs → LineOk m skips x y ∧ |y.steer| ≤ Q.maxSteer := by
    intro x y hxy
    obtain ⟨c, mv, hmv, ps, he, hu⟩ := hpairs x y hxy
    have hu' : steerUsable m skips b x y = .ok true := by rw [← hus]; exact hu
    refine ⟨usable_line hmap (hinside x (hxy.subset (by simp))) (hinside y (hxy.subset (by simp))) hu', ?_⟩
    obtain ⟨m', _, rfl⟩ := List.mem_map.1 hmv
    obtain ⟨c0, e0, _, rfl⟩ := scaledF_some he
    exact (dynAdvanceF_inv hm.1 e0).1
  have hsteer : ∀ y ∈ qs, |y.steer| ≤ Q.maxSteer := by
    intro y hy
    obtain ⟨i, hi', rfl⟩ := List.getElem_of_mem hy
    exact (hlegal _ _ (pair_infix (kin0 s :: qs) i (by simp; omega))).2
  refine ⟨s, hs, qs, rfl, fun p c hp hc => ?_⟩
  have hcmd : ∀ c ∈ commands Q.reversed (firstLen Q) Q.distStep qs, |Real.tan c.φ| ≤ |Real.tan ((Q.maxSteer : ℝ) / 180 * Real.pi)| ∧
      (c.dir = 1 ∨ c.dir = -1) ∧ 0 ≤ c.len ∧ c.len ≤ maxLen Q := by
    have key : ∀ (len : ℝ), 0 ≤ len → len ≤ maxLen Q → ∀ y ∈ qs,
        |Real.tan (cmdFor Q.reversed len y).φ| ≤ |Real.tan ((Q.maxSteer : ℝ) / 180 * Real.pi)| ∧
          ((cmdFor Q.reversed len y).dir = 1 ∨ (cmdFor Q.reversed len y).dir = -1) ∧ 0 ≤ (cmdFor Q.reversed len y).len ∧
          (cmdFor Q.reversed len y).len ≤ maxLen Q := fun len l0 l1 y hy =>
      ⟨tan_steer (hsteer y hy) (by omega), driveSign_cases _ _, l0, l1⟩
    cases qs with
    | nil => intro c hc; simp [commands] at hc
    | cons y ys =>
      intro c hc
      simp only [commands, List.mem_cons, List.mem_map] at hc
      rcases hc with rfl | ⟨z, hz, rfl⟩
      · refine key _ ?_ ?_ y (by simp)
        · unfold firstLen; split_ifs <;> linarith
        · unfold firstLen maxLen; split_ifs <;> simp
      · exact key _ hds (le_max_left _ _) z (List.mem_cons_of_mem _ hz)
  obtain ⟨c', r1, r2⟩ := passes_near hmap.wf (T := |Real.tan ((Q.maxSteer : ℝ) / 180 * Real.pi)|) (δ := δ) hla hres
    (headErr_nonneg F.u_nonneg hla (hla.le.trans (le_max_right _ _)) ok.e0) hchain
    (fun n hn => hδ n (by simp; omega)) (fun x y hxy => (hlegal x y hxy).1) hin hcmd hp hc
  exact inflated_clear hi r1 r2

/-- **C110** for `SteeringNeighborhood`. -/
theorem steer_exec_safe {Q : SteerP} {garbage : Nat × Nat → Int} (ok : ArithOk F lib clamp e (5 + 3 * (Q.distStep / Q.la)))
    (hm : 0 ≤ Q.maxSteer ∧ Q.maxSteer ≤ 60) (hla : 0 < Q.la) (hres : 0 < Q.resolution) (hds : 0 ≤ Q.distStep) (hmap : SteerMapOk m D0)
    (L : Lawful O) (M : MinFirst O) (ht : TopOk cfg.top) (hheur : ∀ k g, S.heur k g = 0) (hhg : cfg.heurGoal = none)
    (hus : S.usable = steerUsable m skips b) (hX : max (m.width : ℝ) m.height + 32 ≤ X)
    (hst : ∀ s ∈ cfg.start, (kin0 s).depth = 0 ∧ |(kin0 s).theta| ≤ 4 ∧ InsidePad m.width m.height (kin0 s))
    {fuel : Nat} {path : List SNode}
    (hf : kFindPath (steerAlgoF F lib clamp Q garbage m.width m.height m.res S) O cfg kin0 fuel = some (.ok path)) (hne : path ≠ [])
    (hδ : ∀ n < path.length, driftErr (posErr F.u Q.la Q.resolution Q.distStep X) (headErr F.u Q.la Q.distStep e) (Q.distStep / Q.resolution) n ≤ δ)
    {obstacle : Int × Int → Prop}
    (hi : Inflated m (execMargin skips Q.la Q.resolution Q.distStep |Real.tan ((Q.maxSteer : ℝ) / 180 * Real.pi)| δ) obstacle)
    (hin : ∀ k ∈ path, FarFromEdge m k) :
    ∃ s ∈ cfg.start, ∃ qs, path = kin0 s :: qs ∧
      ∀ p c, Passes Q.la Q.resolution (kin0 s) (qs.map (cmdFor Q.reversed Q.distStep)) p → PtInCell p c → ¬ obstacle c := by
  obtain ⟨cs, hcs⟩ := steerF_costOk (F := F) (lib := lib) (clamp := clamp) (P := Q) (garbage := garbage) (w := m.width) (h := m.height)
    (res := m.res) (S := S) hm.1 hmap.res
  obtain ⟨⟨d, hd⟩, ⟨s, hs, hh⟩, _⟩ := kin_exact_without_heuristic hcs L M ht hheur hhg zero_addF hf hne
  obtain ⟨_, _, hreach, _⟩ := kin_path hcs L ht hf hne
  obtain ⟨q, qs, rfl⟩ := List.exists_cons_of_ne_nil hne
  simp only [List.head?_cons, Option.some.injEq] at hh
  subst hh
  obtain ⟨s1, s2, s3⟩ := hst s hs
  have hinside : ∀ k ∈ kin0 s :: qs, InsidePad m.width m.height k := fun k hk => reachable_inside (fun s hs => (hst s hs).2.2) (hreach k hk)
  have hbound : ∀ k : SNode, InsidePad m.width m.height k → |k.x| ≤ X ∧ |k.y| ≤ X := by
    intro k ⟨h1, h2, h3, h4⟩
    have a1 := Int.floor_le k.x; have a2 := Int.lt_floor_add_one k.x
    have b1 := Int.floor_le k.y; have b2 := Int.lt_floor_add_one k.y
    have c1 : (-31 : ℝ) ≤ (⌊k.x⌋ : ℝ) := by exact_mod_cast h1
    have c2 : ((⌊k.x⌋ : Int) : ℝ) + 1 ≤ m.width + 32 := by exact_mod_cast h2
    have c3 : (-31 : ℝ) ≤ (⌊k.y⌋ : ℝ) := by exact_mod_cast h3
    have c4 : ((⌊k.y⌋ : Int) : ℝ) + 1 ≤ m.height + 32 := by exact_mod_cast h4
    have d1 := le_max_left (m.width : ℝ) m.height
    have d2 := le_max_right (m.width : ℝ) m.height
    have d3 : (0 : ℝ) ≤ m.width := Nat.cast_nonneg _
    constructor <;> rw [abs_le] <;> constructor <;> linarith
  have hchain := steer_chain ok hm hla hres hds hd s1 s2 (fun k hk => hbound k (hinside k hk))
  have hpairs := drive_pairs hd
  have hlegal : ∀ x y, [x, y] <:+: kin0 s :: qs → LineOk m skips x y ∧ |y.steer| ≤ Q.maxSteer := by
    intro x y hxy
    obtain ⟨c, mv, hmv, ps, he, hu⟩ := hpairs x y hxy
    have hu' : steerUsable m skips b x y = .ok true := by rw [← hus]; exact hu
    refine ⟨usable_line hmap (hinside x (hxy.subset (by simp))) (hinside y (hxy.subset (by simp))) hu', ?_⟩
    obtain ⟨m', _, rfl⟩ := List.mem_map.1 hmv
    obtain ⟨c0, e0, _, rfl⟩ := scaledF_some he
    exact (advanceF_inv hm.1 e0).1
  have hsteer : ∀ y ∈ qs, |y.steer| ≤ Q.maxSteer := by
    intro y hy
    obtain ⟨i, hi', rfl⟩ := List.getElem_of_mem hy
    exact (hlegal _ _ (pair_infix (kin0 s :: qs) i (by simp; omega))).2
  refine ⟨s, hs, qs, rfl, fun p c hp hc => ?_⟩
  obtain ⟨c', r1, r2⟩ := passes_near hmap.wf (T := |Real.tan ((Q.maxSteer : ℝ) / 180 * Real.pi)|) (δ := δ) hla hres
    (headErr_nonneg F.u_nonneg hla hds ok.e0) hchain
    (fun n hn => hδ n (by simp; omega)) (fun x y hxy => (hlegal x y hxy).1) hin (fun c hc => by
      obtain ⟨z, hz, rfl⟩ := List.mem_map.1 hc
      exact ⟨tan_steer (hsteer z hz) (by omega), driveSign_cases _ _, hds, le_rfl⟩) hp hc
  exact inflated_clear hi r1 r2

end search

section double
variable {r : ℝ → ℤ} {hr : WholeRounding r} {lib : Lib} {clamp : ℝ → ℝ} {e D0 : ℝ}
variable {O : OpenList (PadCell m.width m.height) (doubleFmt r hr).D} {cfg : SCfg (PadCell m.width m.height) (doubleFmt r hr).D}
  {kin0 : PadCell m.width m.height → SNode} {b : Bres ℝ} {S : FSteerCfg (doubleFmt r hr)}

/-- **C110, `double`.** A search without heuristic with `DynamicSteeringNeighborhood`, all of whose numbers are rounded to `double`,
on a map whose obstacles are surrounded by a margin of occupied cells (the margin of exact arithmetic with a thousandth of a cell
added): a vehicle that executes the steering commands of the path never passes through a cell with an obstacle. -/
theorem dyn_double_safe {Q : DynP} (ok : ArithOk (doubleFmt r hr) lib clamp e (5 + 3 * (Q.distStep / Q.la))) (he : e ≤ 1 / 10 ^ 12)
    (hm : 0 ≤ Q.maxSteer ∧ Q.maxSteer ≤ 60) (hla : 0 < Q.la) (hres : 0 < Q.resolution) (hds : 0 ≤ Q.distStep) (hmap : SteerMapOk m D0)
    (h1 : Q.la ≤ 100 * Q.resolution) (h2 : Q.distStep ≤ 100 * Q.resolution) (h3 : Q.distStep ≤ 10 * Q.la)
    (hw : m.width ≤ 10000) (hh : m.height ≤ 10000)
    (L : Lawful O) (M : MinFirst O) (ht : TopOk cfg.top) (hheur : ∀ k g, S.heur k g = 0) (hhg : cfg.heurGoal = none)
    (hus : S.usable = steerUsable m skips b)
    (hst : ∀ s ∈ cfg.start, (kin0 s).depth = 0 ∧ |(kin0 s).theta| ≤ 4 ∧ InsidePad m.width m.height (kin0 s))
    {fuel : Nat} {path : List SNode}
    (hf : kFindPath (dynSteerAlgoF (doubleFmt r hr) lib clamp Q m.width m.height m.res S) O cfg kin0 fuel = some (.ok path)) (hne : path ≠ [])
    (hlen : path.length ≤ 1001) {obstacle : Int × Int → Prop}
    (hi : Inflated m (execMargin skips Q.la Q.resolution (max Q.distStep Q.la) |Real.tan ((Q.maxSteer : ℝ) / 180 * Real.pi)| (1 / 1000)) obstacle)
    (hin : ∀ k ∈ path, FarFromEdge m k) :
    ∃ s ∈ cfg.start, ∃ qs, path = kin0 s :: qs ∧
      ∀ p c, Passes Q.la Q.resolution (kin0 s) (commands Q.reversed (firstLen Q) Q.distStep qs) p → PtInCell p c → ¬ obstacle c := by
  have hmx : max (m.width : ℝ) m.height ≤ 10000 := max_le (by exact_mod_cast hw) (by exact_mod_cast hh)
  refine dyn_exec_safe (X := 11000) ok hm hla hres hds hmap L M ht hheur hhg hus (by linarith) hst hf hne ?_ hi hin
  intro n hn
  have hm1 : maxLen Q ≤ 100 * Q.resolution := max_le h2 h1
  have hm2 : maxLen Q ≤ 10 * Q.la := max_le h3 (by linarith)
  exact (double_drift (n := n) hla hres (hds.trans (le_max_left _ _)) h1 hm1 hm2 (le_refl (11000 : ℝ)) ok.e0 he (by omega)).1

end double

end PathPlanning.Drift
