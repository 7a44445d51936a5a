import Verif.Model.DrawThread
import Mathlib.Tactic.Common

/-!
# C114 — requests to the drawing thread
-/

namespace PathPlanning.DrawThread

variable {ι : Type} [DecidableEq ι]

theorem Steps.append {s s' s'' : St ι} {es fs : List (Ev ι)} (h : Steps s es s') (h' : Steps s' fs s'') :
    Steps s (es ++ fs) s'' := by
  induction h with
  | nil => exact h'
  | cons h1 _ ih => exact .cons h1 (ih h')

theorem Steps.split {es fs : List (Ev ι)} : ∀ {s s'' : St ι}, Steps s (es ++ fs) s'' → ∃ s', Steps s es s' ∧ Steps s' fs s'' := by
  induction es with
  | nil => intro s s'' h; exact ⟨s, .nil, h⟩
  | cons e es ih =>
    intro s s'' h
    cases h with
    | cons h1 h2 =>
      obtain ⟨s', a, b⟩ := ih h2
      exact ⟨s', .cons h1 a, b⟩

theorem Steps.cons_inv {s s'' : St ι} {e : Ev ι} {es : List (Ev ι)} (h : Steps s (e :: es) s'') :
    ∃ s', Step s e s' ∧ Steps s' es s'' := by
  cases h with
  | cons h1 h2 => exact ⟨_, h1, h2⟩

/-- Invariant of all executions: who holds the mutex, and a sleeping worker with the flag set is going to be notified. -/
structure Inv (s : St ι) : Prop where
  lockW : s.lock = some none ↔ s.w = .test ∨ s.w = .drawing ∨ s.w = .clear ∨ s.w = .leave
  lockC : ∀ i, s.lock = some (some i) ↔ s.c i = .holding ∨ s.c i = .release
  drawn : s.w = .drawing ∨ s.w = .clear → s.cond = true
  left : s.w = .leave → s.cond = false
  wake : s.w = .asleep → s.cond = true → ∃ i, s.c i = .release ∨ s.c i = .notify
  set : ∀ i, s.c i = .release → s.cond = true
  stop : s.w = .unwind ∨ s.w = .done → s.intr = true

theorem inv_init (g : Bool) : Inv (init (ι := ι) g) := by
  constructor <;> simp [init]

theorem St.to_c (s : St ι) (i j : ι) (p : CPc) : (s.to i p).c j = if j = i then p else s.c j := rfl

theorem inv_step {s s' : St ι} {e : Ev ι} (hI : Inv s) (h : Step s e s') : Inv s' := by
  obtain ⟨h1, h2, h3, h4, h5, h6, h7⟩ := hI
  cases h with
  | topStop hw hi => constructor <;> first | exact h6 | simp_all
  | topGo hw hi => constructor <;> first | exact h6 | simp_all
  | enter hw hl => constructor <;> simp_all
  | testDraw hw hc => constructor <;> simp_all
  | testWait hw hc hi =>
    have hl := h1.2 (.inl hw)
    constructor <;> simp_all
  | testStop hw hc hi =>
    have hl := h1.2 (.inl hw)
    constructor <;> simp_all
  | spurious hw => constructor <;> first | exact h6 | simp_all
  | wakeStop hw hi => constructor <;> first | exact h6 | simp_all
  | unwind hw hl => constructor <;> simp_all
  | rewake hw hl => constructor <;> simp_all
  | drawEnd hw => constructor <;> simp_all
  | clear hw =>
    have hl := h1.2 (.inr (.inr (.inl hw)))
    constructor <;> simp_all
  | leave hw =>
    have hl := h1.2 (.inr (.inr (.inr hw)))
    constructor <;> simp_all
  | @call i hc =>
    refine ⟨h1, fun j => ?_, h3, h4, fun a b => ?_, fun j hj => ?_, h7⟩
    · have := h2 j
      simp only [St.to_c]; split_ifs with hji
      · subst hji; simp_all [St.to]
      · exact this
    · obtain ⟨j, hj⟩ := h5 a b
      refine ⟨j, ?_⟩
      have hji : j ≠ i := by rintro rfl; simp_all
      simpa [St.to_c, hji] using hj
    · simp only [St.to_c] at hj; split_ifs at hj; exact h6 j hj
  | @seen i hc hs =>
    refine ⟨h1, fun j => ?_, h3, h4, fun _ _ => ⟨i, .inr (by simp [St.to_c])⟩, fun _ _ => hs, h7⟩
    have := h2 j
    simp only [St.to_c]; split_ifs with hji
    · subst hji; simp_all [St.to]
    · exact this
  | @unseen i hc hs =>
    refine ⟨h1, fun j => ?_, h3, h4, fun _ b => ?_, fun j hj => ?_, h7⟩
    · have := h2 j
      simp only [St.to_c]; split_ifs with hji
      · subst hji; simp_all [St.to]
      · exact this
    · simp [St.to, hs] at b
    · simp only [St.to_c] at hj; split_ifs at hj; exact h6 j hj
  | @want i hc hl =>
    refine ⟨?_, fun j => ?_, h3, h4, fun a b => ?_, fun j hj => ?_, h7⟩
    · simp only [St.to]
      constructor
      · intro h; simp at h
      · intro h; rw [h1.2 h] at hl; cases hl
    · have := h2 j
      simp only [St.to_c, Option.some.injEq]
      split_ifs with hji
      · subst hji; simp
      · constructor
        · intro h; exact absurd h.symm hji
        · intro h; rw [this.2 h] at hl; cases hl
    · obtain ⟨j, hj⟩ := h5 a b
      refine ⟨j, ?_⟩
      have hji : j ≠ i := by rintro rfl; simp_all
      simpa [St.to_c, hji] using hj
    · simp only [St.to_c] at hj; split_ifs at hj; exact h6 j hj
  | @set i hc =>
    have hl := (h2 i).2 (.inl hc)
    refine ⟨h1, fun j => ?_, fun _ => rfl, fun hw => ?_, fun a _ => ⟨i, .inl (by simp [St.to_c])⟩, fun _ _ => rfl, h7⟩
    · have := h2 j
      simp only [St.to_c]; split_ifs with hji
      · subst hji; simp_all [St.to]
      · exact this
    · have := h1.2 (.inr (.inr (.inr hw)))
      rw [hl] at this; simp at this
  | @release i hc =>
    have hl := (h2 i).2 (.inr hc)
    have hnw : ¬ (s.w = .test ∨ s.w = .drawing ∨ s.w = .clear ∨ s.w = .leave) := by
      intro h; rw [h1.2 h] at hl; simp at hl
    refine ⟨?_, fun j => ?_, h3, h4, fun a b => ⟨i, .inr (by simp [St.to_c])⟩, fun j hj => ?_, h7⟩
    · constructor
      · intro h; cases h
      · intro h; exact absurd h hnw
    · have := h2 j
      simp only [St.to_c]
      split_ifs with hji
      · subst hji; simp
      · constructor
        · intro h; cases h
        · intro h
          have := this.2 h
          rw [hl] at this
          simp only [Option.some.injEq] at this
          exact absurd this.symm hji
    · exact h6 i hc
  | @notify i hc =>
    refine ⟨?_, fun j => ?_, fun h => ?_, fun h => ?_, fun a b => ?_, fun j hj => ?_, fun h => ?_⟩
    · simp only [St.to]
      by_cases hw : s.w = .asleep
      · rw [if_pos hw]; simp_all
      · rw [if_neg hw]; exact h1
    · have := h2 j
      simp only [St.to_c]; split_ifs with hji
      · subst hji; simp_all [St.to]
      · exact this
    · simp only at h
      split_ifs at h
      · simp at h
      · exact h3 h
    · simp only at h
      split_ifs at h
      exact h4 h
    · simp only at a
      split_ifs at a with ha
      exact absurd a ha
    · simp only [St.to_c] at hj; split_ifs at hj; exact h6 j hj
    · simp only at h
      split_ifs at h
      · simp at h
      · exact h7 h
  | interrupt => constructor <;> first | exact h6 | simp_all

theorem inv_steps {s s' : St ι} {es : List (Ev ι)} (hI : Inv s) (h : Steps s es s') : Inv s' := by
  induction h with
  | nil => exact hI
  | cons h1 _ ih => exact ih (inv_step hI h1)

theorem inv_run {g : Bool} {es : List (Ev ι)} {s : St ι} (h : Run g es s) : Inv s := inv_steps (inv_init g) h

/-- A request is pending: the flag is set and the worker has not begun to draw. -/
def Pending (s : St ι) : Prop := s.cond = true ∧ s.w ≠ .drawing ∧ s.w ≠ .clear ∧ s.w ≠ .leave

theorem pending_step {s s' : St ι} {e : Ev ι} (hp : Pending s) (h : Step s e s') (he : e ≠ .drawStart) :
    Pending s' := by
  obtain ⟨p1, p2, p3, p4⟩ := hp
  cases h with
  | testDraw hw hc => exact absurd rfl he
  | clear hw => exact absurd hw p3
  | notify hc =>
    refine ⟨p1, ?_, ?_, ?_⟩ <;> simp only <;> split_ifs <;> simp_all
  | set hc => exact ⟨rfl, p2, p3, p4⟩
  | _ => refine ⟨?_, ?_, ?_, ?_⟩ <;> simp_all [St.to]

theorem pending_steps {s s' : St ι} {es : List (Ev ι)} (hI : Inv s) (hp : Pending s) (h : Steps s es s')
    (he : Ev.drawStart ∉ es) : Pending s' := by
  induction h with
  | nil => exact hp
  | cons h1 _ ih =>
    exact ih (inv_step hI h1) (pending_step hp h1 fun h => he (by simp [h])) fun h => he (by simp [h])

theorem pending_set {s s' : St ι} {i : ι} (hI : Inv s) (h : Step s (.set i) s') : Pending s' := by
  cases h with
  | set hc =>
    have hl := (hI.lockC i).2 (.inl hc)
    refine ⟨rfl, ?_, ?_, ?_⟩ <;> intro hw
    · have := hI.lockW.2 (.inr (.inl hw)); rw [hl] at this; simp at this
    · have := hI.lockW.2 (.inr (.inr (.inl hw))); rw [hl] at this; simp at this
    · have := hI.lockW.2 (.inr (.inr (.inr hw))); rw [hl] at this; simp at this

theorem run_pending {g : Bool} {pre mid : List (Ev ι)} {i : ι} {s : St ι} (h : Run g (pre ++ .set i :: mid) s)
    (hd : Ev.drawStart ∉ mid) : Inv s ∧ Pending s := by
  obtain ⟨s0, h0, h1⟩ := h.split
  obtain ⟨s1, h2, h3⟩ := h1.cons_inv
  have i0 := inv_run h0
  have i1 := inv_step i0 h2
  exact ⟨inv_steps i1 h3, pending_steps i1 (pending_set i0 h2) h3 hd⟩

/-- **C114 (an accepted request is drawn).**  In every execution, when the flag has been set by a request, it is not reset
before a drawing has begun afterwards. -/
theorem request_served {g : Bool} {pre mid post : List (Ev ι)} {i : ι} {s : St ι}
    (h : Run g (pre ++ .set i :: mid ++ .clear :: post) s) : Ev.drawStart ∈ mid := by
  by_contra hd
  obtain ⟨s1, h1, h2⟩ := Steps.split (es := pre ++ .set i :: mid) h
  obtain ⟨s2, h3, _⟩ := h2.cons_inv
  obtain ⟨-, p⟩ := run_pending h1 hd
  cases h3 with
  | clear hw => exact p.2.2.1 hw

/-- **C114 (no wake-up is lost).**  While an accepted request waits for its drawing, the worker sleeps only as long as some
client has not yet reached `notify_one()`. -/
theorem no_lost_wakeup {g : Bool} {pre mid : List (Ev ι)} {i : ι} {s : St ι} (h : Run g (pre ++ .set i :: mid) s)
    (hd : Ev.drawStart ∉ mid) (hw : s.w = .asleep) : ∃ j, s.c j = .release ∨ s.c j = .notify := by
  obtain ⟨hI, hp⟩ := run_pending h hd
  exact hI.wake hw hp.1

/-- Steps of the worker. -/
def Ev.ofWorker : Ev ι → Bool
  | .drawStart | .drawEnd | .clear | .stop | .worker => true
  | _ => false

/-- Own steps the worker may still need before it draws or ends. -/
def rank : WPc → Nat
  | .asleep => 4
  | .top => 3
  | .enter | .woken | .unwind => 2
  | .test => 1
  | _ => 0

/-- **C114 (the worker cannot dawdle).**  After a request has set the flag, the worker makes at most four steps of its own,
whatever the schedule, before it begins to draw (or ends). -/
theorem at_most_four {g : Bool} {pre mid : List (Ev ι)} {i : ι} {s : St ι} (h : Run g (pre ++ .set i :: mid) s)
    (hd : Ev.drawStart ∉ mid) : mid.countP Ev.ofWorker ≤ 4 := by
  have key : ∀ {s s' : St ι} {es : List (Ev ι)}, Steps s es s' → Inv s → Pending s → Ev.drawStart ∉ es →
      es.countP Ev.ofWorker + rank s'.w ≤ rank s.w := by
    intro s s' es h
    induction h with
    | nil => intro _ _ _; simp
    | @cons s s1 s2 e es h1 _ ih =>
      intro hI hp hd
      have := ih (inv_step hI h1) (pending_step hp h1 fun h => hd (by simp [h])) fun h => hd (by simp [h])
      have hstep : rank s1.w + (if Ev.ofWorker e = true then 1 else 0) ≤ rank s.w := by
        obtain ⟨p1, p2, p3, p4⟩ := hp
        cases h1 with
        | testDraw hw hc => exact absurd (by simp) hd
        | notify hc =>
          by_cases hw : s.w = .asleep <;> simp [hw, rank, Ev.ofWorker]
        | testWait hw hc => rw [p1] at hc; cases hc
        | testStop hw hc => rw [p1] at hc; cases hc
        | drawEnd hw => exact absurd hw p2
        | clear hw => exact absurd hw p3
        | leave hw => exact absurd hw p4
        | topStop hw => simp [hw, rank, Ev.ofWorker]
        | topGo hw => simp [hw, rank, Ev.ofWorker]
        | enter hw => simp [hw, rank, Ev.ofWorker]
        | spurious hw => simp [hw, rank, Ev.ofWorker]
        | wakeStop hw => simp [hw, rank, Ev.ofWorker]
        | unwind hw => simp [hw, rank, Ev.ofWorker]
        | rewake hw => simp [hw, rank, Ev.ofWorker]
        | call hc => simp [St.to, Ev.ofWorker]
        | seen hc => simp [St.to, Ev.ofWorker]
        | unseen hc => simp [St.to, Ev.ofWorker]
        | want hc => simp [St.to, Ev.ofWorker]
        | set hc => simp [St.to, Ev.ofWorker]
        | release hc => simp [St.to, Ev.ofWorker]
        | interrupt => simp [Ev.ofWorker]
      rw [List.countP_cons]
      omega
  obtain ⟨s0, h0, h1⟩ := h.split
  obtain ⟨s1, h2, h3⟩ := h1.cons_inv
  have i0 := inv_run h0
  have := key h3 (inv_step i0 h2) (pending_set i0 h2) hd
  have hr : rank s1.w ≤ 4 := by cases s1.w <;> simp [rank]
  omega

/-- Steps that finish calls already begun and steps of the worker; nobody calls or interrupts. -/
def Quiet (es : List (Ev ι)) : Prop := ∀ e ∈ es, (∀ i, e ≠ .call i) ∧ e ≠ .interrupt

/-- The holder of the mutex, if it is a client, can give it back. -/
theorem release_lock {s : St ι} (hI : Inv s) (hw : s.lock ≠ some none) : ∃ es s', Steps s es s' ∧ Quiet es ∧ s'.lock = none ∧
    s'.w = s.w ∧ s'.intr = s.intr ∧ Ev.drawStart ∉ es ∧ (s.cond = true → s'.cond = true) := by
  cases hl : s.lock with
  | none => exact ⟨[], s, .nil, by simp [Quiet], hl, rfl, rfl, by simp, fun h => h⟩
  | some o =>
    cases o with
    | none => exact absurd hl hw
    | some i =>
      rcases (hI.lockC i).1 hl with hc | hc
      · refine ⟨[.set i, .other i], _, .cons (.set hc) (.cons (.release (i := i) (by simp [St.to])) .nil), ?_, rfl, rfl, rfl, by simp, fun _ => rfl⟩
        intro e he
        rcases List.mem_cons.1 he with rfl | he
        · simp
        · simp at he; subst he; simp
      · refine ⟨[.other i], _, .cons (.release hc) .nil, ?_, rfl, rfl, rfl, by simp, fun h => h⟩
        intro e he
        simp at he; subst he; simp

theorem Quiet.append {es fs : List (Ev ι)} (h : Quiet es) (h' : Quiet fs) : Quiet (es ++ fs) := by
  intro e he
  rcases List.mem_append.1 he with he | he
  · exact h e he
  · exact h' e he

/-- **C114 (a request can always be drawn).**  From every state in which an accepted request waits and the worker was not
interrupted, the drawing is reached by letting the worker run and the calls already begun return. -/
theorem request_reachable {g : Bool} {pre mid : List (Ev ι)} {i : ι} {s : St ι} (h : Run g (pre ++ .set i :: mid) s)
    (hd : Ev.drawStart ∉ mid) (hi : s.intr = false) : ∃ es s', Steps s es s' ∧ Quiet es ∧ Ev.drawStart ∈ es := by
  obtain ⟨hI, hp⟩ := run_pending h hd
  clear h hd
  have q1 : Quiet [(Ev.worker : Ev ι)] := by intro e he; simp at he; subst he; simp
  have q2 : Quiet [(Ev.drawStart : Ev ι)] := by intro e he; simp at he; subst he; simp
  have fromTest : ∀ s : St ι, s.cond = true → s.w = .test → ∃ es s', Steps s es s' ∧ Quiet es ∧ Ev.drawStart ∈ es :=
    fun s hc hw => ⟨[.drawStart], _, .cons (.testDraw hw hc) .nil, q2, by simp⟩
  have fromEnter : ∀ s : St ι, Inv s → s.cond = true → s.w = .enter ∨ s.w = .woken →
      ∃ es s', Steps s es s' ∧ Quiet es ∧ Ev.drawStart ∈ es := by
    intro s hI hc hw
    have hnl : s.lock ≠ some none := by
      intro hl
      have := hI.lockW.1 hl
      rcases hw with hw | hw <;> simp [hw] at this
    obtain ⟨es, s1, a1, a2, a3, a4, a5, a6, a7⟩ := release_lock hI hnl
    rcases hw with hw | hw
    · obtain ⟨fs, s2, b1, b2, b3⟩ := fromTest { s1 with w := .test, lock := some none } (a7 hc) rfl
      exact ⟨es ++ .worker :: fs, s2, a1.append (.cons (.enter (a4.trans hw) a3) b1),
        a2.append (Quiet.append q1 b2), by simp [b3]⟩
    · obtain ⟨fs, s2, b1, b2, b3⟩ := fromTest { s1 with w := .test, lock := some none } (a7 hc) rfl
      exact ⟨es ++ .worker :: fs, s2, a1.append (.cons (.rewake (a4.trans hw) a3) b1),
        a2.append (Quiet.append q1 b2), by simp [b3]⟩
  obtain ⟨p1, p2, p3, p4⟩ := hp
  cases hw : s.w with
  | top =>
    have st : Step s .worker { s with w := .enter } := .topGo hw hi
    obtain ⟨fs, s2, b1, b2, b3⟩ := fromEnter _ (inv_step hI st) p1 (.inl rfl)
    exact ⟨.worker :: fs, s2, .cons st b1, Quiet.append q1 b2, by simp [b3]⟩
  | enter => exact fromEnter s hI p1 (.inl hw)
  | test => exact fromTest s p1 hw
  | asleep =>
    obtain ⟨j, hj⟩ := hI.wake hw p1
    have q3 : Quiet [(Ev.ret j : Ev ι)] := by intro e he; simp at he; subst he; simp
    have q4 : Quiet [(Ev.other j : Ev ι)] := by intro e he; simp at he; subst he; simp
    rcases hj with hj | hj
    · have st : Step s (.other j) { s.to j .notify with lock := none } := .release hj
      have st2 : Step { s.to j .notify with lock := none } (.ret j)
          { St.to { s.to j .notify with lock := none } j .idle with
            w := if s.w = .asleep then .woken else s.w } := .notify (by simp [St.to])
      obtain ⟨fs, s2, b1, b2, b3⟩ := fromEnter _ (inv_step (inv_step hI st) st2) p1 (.inr (by simp [hw]))
      exact ⟨.other j :: .ret j :: fs, s2, .cons st (.cons st2 b1), Quiet.append q4 (Quiet.append q3 b2), by simp [b3]⟩
    · have st2 : Step s (.ret j) { s.to j .idle with w := if s.w = .asleep then .woken else s.w } := .notify hj
      obtain ⟨fs, s2, b1, b2, b3⟩ := fromEnter _ (inv_step hI st2) p1 (.inr (by simp [hw]))
      exact ⟨.ret j :: fs, s2, .cons st2 b1, Quiet.append q3 b2, by simp [b3]⟩
  | woken => exact fromEnter s hI p1 (.inr hw)
  | drawing => exact absurd hw p2
  | clear => exact absurd hw p3
  | leave => exact absurd hw p4
  | unwind => have := hI.stop (.inl hw); rw [hi] at this; cases this
  | done => have := hI.stop (.inr hw); rw [hi] at this; cases this

/-- **C114 (mutual exclusion).**  While the worker draws or resets the flag, no client is between taking and releasing the
mutex; and no two clients are. -/
theorem draw_exclusive {g : Bool} {es : List (Ev ι)} {s : St ι} (h : Run g es s) :
    (s.w = .drawing ∨ s.w = .clear → ∀ i, s.c i ≠ .holding ∧ s.c i ≠ .release) ∧
    (∀ i j, s.c i = .holding ∨ s.c i = .release → s.c j = .holding ∨ s.c j = .release → i = j) := by
  have hI := inv_run h
  refine ⟨fun hw i => ?_, fun i j hi hj => ?_⟩
  · have hl := hI.lockW.2 (by tauto)
    constructor <;> intro hc
    · have := (hI.lockC i).2 (.inl hc); rw [hl] at this; simp at this
    · have := (hI.lockC i).2 (.inr hc); rw [hl] at this; simp at this
  · have h1 := (hI.lockC i).2 hi
    have h2 := (hI.lockC j).2 hj
    rw [h1] at h2
    simpa using h2

theorem quiet_one {e : Ev ι} (h : (∀ i, e ≠ .call i) ∧ e ≠ .interrupt) : Quiet [e] := by
  intro f hf; simp at hf; subst hf; exact h

/-- Whoever holds the mutex can give it back without new calls. -/
theorem free_lock {s : St ι} (hI : Inv s) (i : ι) : ∃ es s', Steps s es s' ∧ Quiet es ∧ s'.lock = none ∧
    (s.c i = .want → s'.c i = .want) := by
  by_cases hw : s.lock = some none
  · have leave : ∀ s : St ι, s.w = .leave → ∃ es s', Steps s es s' ∧ Quiet es ∧ s'.lock = none ∧ (s.c i = .want → s'.c i = .want) :=
      fun s h => ⟨[.worker], _, .cons (.leave h) .nil, quiet_one (by simp), rfl, fun h => h⟩
    have clear : ∀ s : St ι, s.w = .clear → ∃ es s', Steps s es s' ∧ Quiet es ∧ s'.lock = none ∧ (s.c i = .want → s'.c i = .want) := by
      intro s h
      obtain ⟨es, s', a, b, c, d⟩ := leave { s with w := .leave, cond := false } rfl
      exact ⟨.clear :: es, s', .cons (.clear h) a, Quiet.append (quiet_one (by simp)) b, c, d⟩
    have draw : ∀ s : St ι, s.w = .drawing → ∃ es s', Steps s es s' ∧ Quiet es ∧ s'.lock = none ∧ (s.c i = .want → s'.c i = .want) := by
      intro s h
      obtain ⟨es, s', a, b, c, d⟩ := clear { s with w := .clear } rfl
      exact ⟨.drawEnd :: es, s', .cons (.drawEnd h) a, Quiet.append (quiet_one (by simp)) b, c, d⟩
    rcases hI.lockW.1 hw with h | h | h | h
    · by_cases hc : s.cond = true
      · obtain ⟨es, s', a, b, c, d⟩ := draw { s with w := .drawing } rfl
        exact ⟨.drawStart :: es, s', .cons (.testDraw h hc) a, Quiet.append (quiet_one (by simp)) b, c, d⟩
      · have hc : s.cond = false := by simpa using hc
        cases hi : s.intr with
        | false => exact ⟨[.worker], _, .cons (.testWait h hc hi) .nil, quiet_one (by simp), rfl, fun h => h⟩
        | true => exact ⟨[.stop], _, .cons (.testStop h hc hi) .nil, quiet_one (by simp), rfl, fun h => h⟩
    · exact draw s h
    · exact clear s h
    · exact leave s h
  · cases hl : s.lock with
    | none => exact ⟨[], s, .nil, by simp [Quiet], hl, fun h => h⟩
    | some o =>
      cases o with
      | none => exact absurd hl hw
      | some j =>
        rcases (hI.lockC j).1 hl with hc | hc
        · refine ⟨[.set j, .other j], _, .cons (.set hc) (.cons (.release (i := j) (by simp [St.to])) .nil),
            Quiet.append (quiet_one (by simp)) (quiet_one (by simp)), rfl, fun h => ?_⟩
          have hij : i ≠ j := by rintro rfl; rw [h] at hc; cases hc
          simpa [St.to, hij] using h
        · refine ⟨[.other j], _, .cons (.release hc) .nil, quiet_one (by simp), rfl, fun h => ?_⟩
          have hij : i ≠ j := by rintro rfl; rw [h] at hc; cases hc
          simpa [St.to, hij] using h

/-- **C114 (no deadlock).**  From every state of every execution, every call of `drawInParallel` that has begun can return, with
steps of the worker and of calls already begun only — also after the worker has ended. -/
theorem call_returns {g : Bool} {es : List (Ev ι)} {s : St ι} (h : Run g es s) (i : ι) :
    ∃ fs s', Steps s fs s' ∧ Quiet fs ∧ s'.c i = .idle := by
  have fromNotify : ∀ s : St ι, s.c i = .notify → ∃ fs s', Steps s fs s' ∧ Quiet fs ∧ s'.c i = .idle :=
    fun s hc => ⟨[.ret i], _, .cons (.notify hc) .nil, quiet_one (by simp), by simp [St.to]⟩
  have fromRelease : ∀ s : St ι, s.c i = .release → ∃ fs s', Steps s fs s' ∧ Quiet fs ∧ s'.c i = .idle := by
    intro s hc
    obtain ⟨fs, s', a, b, c⟩ := fromNotify { s.to i .notify with lock := none } (by simp [St.to])
    exact ⟨.other i :: fs, s', .cons (.release hc) a, Quiet.append (quiet_one (by simp)) b, c⟩
  have fromHolding : ∀ s : St ι, s.c i = .holding → ∃ fs s', Steps s fs s' ∧ Quiet fs ∧ s'.c i = .idle := by
    intro s hc
    obtain ⟨fs, s', a, b, c⟩ := fromRelease { s.to i .release with cond := true } (by simp [St.to])
    exact ⟨.set i :: fs, s', .cons (.set hc) a, Quiet.append (quiet_one (by simp)) b, c⟩
  have fromWant : ∀ s : St ι, Inv s → s.c i = .want → ∃ fs s', Steps s fs s' ∧ Quiet fs ∧ s'.c i = .idle := by
    intro s hI hc
    obtain ⟨es, s1, a1, a2, a3, a4⟩ := free_lock hI i
    obtain ⟨fs, s', a, b, c⟩ := fromHolding { s1.to i .holding with lock := some (some i) } (by simp [St.to])
    exact ⟨es ++ .other i :: fs, s', a1.append (.cons (.want (a4 hc) a3) a),
      a2.append (Quiet.append (quiet_one (by simp)) b), c⟩
  have hI := inv_run h
  cases hc : s.c i with
  | idle => exact ⟨[], s, .nil, by simp [Quiet], hc⟩
  | called =>
    cases hs : s.cond with
    | true =>
      obtain ⟨fs, s', a, b, c⟩ := fromNotify (s.to i .notify) (by simp [St.to])
      exact ⟨.seen i :: fs, s', .cons (.seen hc hs) a, Quiet.append (quiet_one (by simp)) b, c⟩
    | false =>
      have st : Step s (.other i) (s.to i .want) := .unseen hc hs
      obtain ⟨fs, s', a, b, c⟩ := fromWant (s.to i .want) (inv_step hI st) (by simp [St.to])
      exact ⟨.other i :: fs, s', .cons st a, Quiet.append (quiet_one (by simp)) b, c⟩
  | want => exact fromWant s hI hc
  | holding => exact fromHolding s hc
  | release => exact fromRelease s hc
  | notify => exact fromNotify s hc

/-- While the flag is not set and nobody sets it, no drawing begins. -/
theorem no_draw_unset {s s' : St ι} {es : List (Ev ι)} (h : Steps s es s') (hc : s.cond = false) (hs : ∀ i, Ev.set i ∉ es) :
    Ev.drawStart ∉ es ∧ s'.cond = false := by
  induction h with
  | nil => exact ⟨by simp, hc⟩
  | @cons s s1 s2 e es h1 _ ih =>
    have hc1 : s1.cond = false := by
      cases h1 with
      | @set i hh => exact absurd (by simp) (hs i)
      | clear hw => rfl
      | _ => simpa [St.to] using hc
    obtain ⟨a, b⟩ := ih hc1 fun i hi => hs i (by simp [hi])
    refine ⟨fun hm => ?_, b⟩
    rcases List.mem_cons.1 hm with hm | hm
    · subst hm
      cases h1 with
      | testDraw hw hcc => rw [hc] at hcc; cases hcc
    · exact a hm

/-- **C114 (nothing is drawn without a request).**  Between the end of a drawing and the next one there is a request; and before
the first one if the flag happened to be false at the beginning. -/
theorem drawn_requested {g : Bool} {mid post : List (Ev ι)} {s : St ι} :
    (∀ pre, Run g (pre ++ .clear :: mid ++ .drawStart :: post) s → ∃ i, Ev.set i ∈ mid) ∧
    (g = false → Run g (mid ++ .drawStart :: post) s → ∃ i, Ev.set i ∈ mid) := by
  constructor
  · intro pre h
    by_contra hn
    push Not at hn
    rw [List.append_assoc] at h
    obtain ⟨s0, h0, h1⟩ := h.split
    obtain ⟨s1, h2, h3⟩ := Steps.cons_inv h1
    have hc : s1.cond = false := by cases h2; rfl
    obtain ⟨s2, h4, h5⟩ := Steps.split h3
    obtain ⟨s3, h6, -⟩ := h5.cons_inv
    obtain ⟨-, hc2⟩ := no_draw_unset h4 hc hn
    cases h6 with
    | testDraw hw hcc => rw [hc2] at hcc; cases hcc
  · intro hg h
    subst hg
    by_contra hn
    push Not at hn
    obtain ⟨s2, h4, h5⟩ := Steps.split h
    obtain ⟨s3, h6, -⟩ := h5.cons_inv
    obtain ⟨-, hc2⟩ := no_draw_unset h4 rfl hn
    cases h6 with
    | testDraw hw hcc => rw [hc2] at hcc; cases hcc

/-- **C114 (interruption).**  After `interrupt()` at most one more drawing begins. -/
theorem interrupt_one_more {g : Bool} {pre mid : List (Ev ι)} {s : St ι} (h : Run g (pre ++ .interrupt :: mid) s) :
    mid.countP (fun e => decide (e = Ev.drawStart)) ≤ 1 := by
  let r : WPc → Nat := fun w => match w with
    | .drawing | .clear | .leave | .top | .unwind | .done => 0
    | _ => 1
  have key : ∀ {s s' : St ι} {es : List (Ev ι)}, Steps s es s' → s.intr = true →
      es.countP (fun e => decide (e = Ev.drawStart)) + r s'.w ≤ r s.w := by
    intro s s' es h
    induction h with
    | nil => intro _; simp
    | @cons s s1 s2 e es h1 _ ih =>
      intro hi
      have hi1 : s1.intr = true := by cases h1 <;> simp_all [St.to]
      have := ih hi1
      have hstep : r s1.w + (if decide (e = Ev.drawStart) = true then 1 else 0) ≤ r s.w := by
        cases h1 with
        | topGo hw hn => rw [hi] at hn; cases hn
        | testWait hw hc hn => rw [hi] at hn; cases hn
        | notify hc =>
          by_cases hw : s.w = .asleep <;> simp [hw, r]
        | call hc => simp [St.to]
        | seen hc => simp [St.to]
        | unseen hc => simp [St.to]
        | want hc => simp [St.to]
        | set hc => simp [St.to]
        | release hc => simp [St.to]
        | interrupt => simp
        | topStop hw => simp [hw, r]
        | enter hw => simp [hw, r]
        | testDraw hw => simp [hw, r]
        | testStop hw => simp [hw, r]
        | spurious hw => simp [hw, r]
        | wakeStop hw => simp [hw, r]
        | unwind hw => simp [hw, r]
        | rewake hw => simp [hw, r]
        | drawEnd hw => simp [hw, r]
        | clear hw => simp [hw, r]
        | leave hw => simp [hw, r]
      rw [List.countP_cons]
      omega
  obtain ⟨s0, h0, h1⟩ := h.split
  obtain ⟨s1, h2, h3⟩ := h1.cons_inv
  have hi : s1.intr = true := by cases h2; rfl
  have hk := key h3 hi
  have hr : r s1.w ≤ 1 := by cases s1.w <;> simp [r]
  omega

/-! ### Findings -/

/-- **C114, finding (a request is lost).**  A request made while the worker draws finds the flag set and changes nothing; the
worker then resets the flag and no drawing follows until somebody makes another request. -/
theorem request_lost (g : Bool) (hg : g = false) (i : ι) : ∃ (es : List (Ev ι)) (s : St ι), Run g es s ∧
    (∃ pre post, es = pre ++ .call i :: post ∧ Ev.ret i ∈ post ∧ Ev.drawStart ∉ post) ∧ (∀ j, s.c j = .idle) ∧
    (∀ fs s', Steps s fs s' → (∀ j, Ev.set j ∉ fs) → Ev.drawStart ∉ fs) := by
  subst hg
  obtain ⟨s, hr, hc, hq⟩ : ∃ s : St ι, Run false ([.call i, .other i, .other i, .set i, .other i, .ret i, .worker, .worker,
      .drawStart] ++ .call i :: [.seen i, .ret i, .drawEnd, .clear]) s ∧ s.cond = false ∧ ∀ j, s.c j = .idle := by
    refine ⟨_, Steps.cons (.call (i := i) rfl) (.cons (.unseen (i := i) (by simp [St.to]) rfl)
      (.cons (.want (i := i) (by simp [St.to]) rfl) (.cons (.set (i := i) (by simp [St.to]))
      (.cons (.release (i := i) (by simp [St.to])) (.cons (.notify (i := i) (by simp [St.to]))
      (.cons (.topGo rfl rfl) (.cons (.enter rfl rfl) (.cons (.testDraw rfl rfl)
      (.cons (.call (i := i) (by simp [St.to])) (.cons (.seen (i := i) (by simp [St.to]) rfl)
      (.cons (.notify (i := i) (by simp [St.to])) (.cons (.drawEnd rfl) (.cons (.clear rfl) .nil))))))))))))), rfl, ?_⟩
    intro j
    by_cases hj : j = i <;> simp [St.to, hj, init]
  exact ⟨_, s, hr, ⟨_, _, rfl, by simp, by simp⟩, hq, fun fs s' h hs => (no_draw_unset h hc hs).1⟩

/-- **C114, finding (uninitialised flag).**  If `draw_cond_state` happens to be true at the beginning, the worker draws although
nobody made a request. -/
theorem draws_uninvited : ∃ s : St ι, Run true [.worker, .worker, .drawStart] s :=
  ⟨_, .cons (.topGo rfl rfl) (.cons (.enter rfl rfl) (.cons (.testDraw rfl rfl) .nil))⟩

/-- **C114, finding (data race).**  The flag is read in `drawInParallel` without the mutex: a client may be about to read it while
the worker is about to write it. -/
theorem flag_race (i : ι) : ∃ (es : List (Ev ι)) (s : St ι), Run true es s ∧ s.w = .clear ∧ s.c i = .called :=
  ⟨[.worker, .worker, .drawStart, .drawEnd, .call i], _,
    .cons (.topGo rfl rfl) (.cons (.enter rfl rfl) (.cons (.testDraw rfl rfl) (.cons (.drawEnd rfl) (.cons (.call (i := i) rfl) .nil)))),
    rfl, by simp [St.to]⟩

end PathPlanning.DrawThread
