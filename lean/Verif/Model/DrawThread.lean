import Verif.Prelude

/-!
# Model of the drawing thread of the evaluator

Sources: `/repo/src/evaluation/evaluator.cpp:354-377` (`drawThread`, `drawInParallel`), `:160-165` (destructor),
`/repo/include/cslibs_path_planning/evaluation/evaluator.h:201-206` (`mut`, `draw_cond`, `draw_cond_state`, `worker`).

One worker runs `drawThread`; any number of clients (type `ι`) call `drawInParallel`, each any number of times; somebody may
interrupt the worker.  The scheduler interleaves atomic steps arbitrarily.  `boost::condition_variable::wait` may return
spuriously and is an interruption point.  `draw(true)` itself is a step that begins and a step that ends.  (The line that
starts the worker is commented out in the constructor, evaluator.cpp:155; the model is what happens if it is not.)
-/

namespace PathPlanning.DrawThread

/-- Where the worker is in `drawThread`. -/
inductive WPc
  /-- before `interruption_requested()` (line 357) -/
  | top
  /-- before taking `mut` (line 358) -/
  | enter
  /-- holding `mut`, before `while(!draw_cond_state)` (line 359) -/
  | test
  /-- in `draw_cond.wait(lock)`, `mut` released (line 360) -/
  | asleep
  /-- in `draw_cond.wait(lock)`, woken, before taking `mut` again -/
  | woken
  /-- in `draw(true)`, holding `mut` (line 363) -/
  | drawing
  /-- before `draw_cond_state = false`, holding `mut` (line 364) -/
  | clear
  /-- before the release of `mut` at the end of the block (line 365) -/
  | leave
  /-- interrupted in `wait`, before taking `mut` again -/
  | unwind
  /-- the thread has ended -/
  | done
deriving DecidableEq

/-- Where a client is in `drawInParallel`. -/
inductive CPc
  /-- not in the function -/
  | idle
  /-- before `if(!draw_cond_state)`, without `mut` (line 371) -/
  | called
  /-- before taking `mut` (line 373) -/
  | want
  /-- holding `mut`, before `draw_cond_state = true` (line 374) -/
  | holding
  /-- before the release of `mut` (line 375) -/
  | release
  /-- before `draw_cond.notify_one()` (line 376) -/
  | notify
deriving DecidableEq

/-- Shared state and positions; `lock` is the owner of `mut` (`some none`: the worker), `intr` the interruption request. -/
structure St (ι : Type) where
  cond : Bool
  lock : Option (Option ι)
  w : WPc
  c : ι → CPc
  intr : Bool

/-- What can be observed. -/
inductive Ev (ι : Type)
  | call (i : ι)
  | seen (i : ι)
  | set (i : ι)
  | ret (i : ι)
  | drawStart
  | drawEnd
  | clear
  | interrupt
  | stop
  | other (i : ι)
  | worker
deriving DecidableEq

variable {ι : Type} [DecidableEq ι]

/-- Another position of client `i`. -/
def St.to (s : St ι) (i : ι) (p : CPc) : St ι := { s with c := fun j => if j = i then p else s.c j }

/-- After the constructor: nobody runs; `draw_cond_state` is not initialised, so it has an arbitrary value. -/
def init (garbage : Bool) : St ι := ⟨garbage, none, .top, fun _ => .idle, false⟩

/-- The atomic steps of `drawThread` (evaluator.cpp:354-366), `drawInParallel` (368-377) and `worker.interrupt()` (163). -/
inductive Step : St ι → Ev ι → St ι → Prop
  /-- line 357, interruption requested -/
  | topStop {s : St ι} : s.w = .top → s.intr = true → Step s .stop { s with w := .done }
  /-- line 357, not requested -/
  | topGo {s : St ι} : s.w = .top → s.intr = false → Step s .worker { s with w := .enter }
  /-- line 358 -/
  | enter {s : St ι} : s.w = .enter → s.lock = none → Step s .worker { s with w := .test, lock := some none }
  /-- lines 359, 363 -/
  | testDraw {s : St ι} : s.w = .test → s.cond = true → Step s .drawStart { s with w := .drawing }
  /-- lines 359-360: releases the mutex and sleeps -/
  | testWait {s : St ι} : s.w = .test → s.cond = false → s.intr = false →
      Step s .worker { s with w := .asleep, lock := none }
  /-- line 360 with an interruption requested: `wait` throws, the mutex is released, the thread ends -/
  | testStop {s : St ι} : s.w = .test → s.cond = false → s.intr = true → Step s .stop { s with w := .done, lock := none }
  /-- spurious wake-up -/
  | spurious {s : St ι} : s.w = .asleep → Step s .worker { s with w := .woken }
  /-- interrupted while waiting -/
  | wakeStop {s : St ι} : s.w = .asleep → s.intr = true → Step s .worker { s with w := .unwind }
  /-- the exception leaves `drawThread` after `mut` was taken and released again -/
  | unwind {s : St ι} : s.w = .unwind → s.lock = none → Step s .stop { s with w := .done }
  /-- `wait` takes the mutex again -/
  | rewake {s : St ι} : s.w = .woken → s.lock = none → Step s .worker { s with w := .test, lock := some none }
  /-- `draw(true)` returns (line 363) -/
  | drawEnd {s : St ι} : s.w = .drawing → Step s .drawEnd { s with w := .clear }
  /-- line 364 -/
  | clear {s : St ι} : s.w = .clear → Step s .clear { s with w := .leave, cond := false }
  /-- line 365 -/
  | leave {s : St ι} : s.w = .leave → Step s .worker { s with w := .top, lock := none }
  /-- a client calls `drawInParallel` -/
  | call {s : St ι} {i : ι} : s.c i = .idle → Step s (.call i) (s.to i .called)
  /-- line 371, flag already set -/
  | seen {s : St ι} {i : ι} : s.c i = .called → s.cond = true → Step s (.seen i) (s.to i .notify)
  /-- line 371, flag not set -/
  | unseen {s : St ι} {i : ι} : s.c i = .called → s.cond = false → Step s (.other i) (s.to i .want)
  /-- line 373 -/
  | want {s : St ι} {i : ι} : s.c i = .want → s.lock = none →
      Step s (.other i) { s.to i .holding with lock := some (some i) }
  /-- line 374 -/
  | set {s : St ι} {i : ι} : s.c i = .holding → Step s (.set i) { s.to i .release with cond := true }
  /-- line 375 -/
  | release {s : St ι} {i : ι} : s.c i = .release → Step s (.other i) { s.to i .notify with lock := none }
  /-- line 376: wakes the worker if it waits -/
  | notify {s : St ι} {i : ι} : s.c i = .notify →
      Step s (.ret i) { s.to i .idle with w := if s.w = .asleep then .woken else s.w }
  /-- `worker.interrupt()` (line 161) -/
  | interrupt {s : St ι} : Step s .interrupt { s with intr := true }

/-- Several steps with their events. -/
inductive Steps : St ι → List (Ev ι) → St ι → Prop
  | nil {s : St ι} : Steps s [] s
  | cons {s s' s'' : St ι} {e : Ev ι} {es : List (Ev ι)} : Step s e s' → Steps s' es s'' → Steps s (e :: es) s''

/-- An execution: the events so far and the state now. -/
def Run (garbage : Bool) (es : List (Ev ι)) (s : St ι) : Prop := Steps (init garbage) es s

end PathPlanning.DrawThread
