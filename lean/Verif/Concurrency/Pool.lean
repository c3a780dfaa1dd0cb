import Verif.Core.Res
/-!
# The thread pool: src/runtime/inside/thread_pool.cpp, include/runtime/inside/thread_pool.h

Any number of workers and of client threads calling `ThreadPool::run`. Tasks are numbered in the order in which
their `run` calls take a worker. Steps are the stretches executed under one mutex: `load` and `recycling_thread` under
`running_core_mutex`, everything a worker does between waking up and waiting again under its own `task_mutex`
(which it holds while the task runs, so `Thread::run` on it blocks).
Waiting on a condition variable in a loop is a step that is disabled until the condition holds: every change of a
condition is followed by `notify_all` under the mutex. A task that throws ends the process and is not modelled.
A pool of size 0 runs the task in the caller (thread_pool.cpp:69-71) and is not modelled here.
-/
namespace Verif.Concurrency

/-- a worker: its `task` and where its `operating` loop is, thread_pool.cpp:41-52 -/
inductive WPc where
  /-- waiting for a task, mutex free, `task == nullptr` -/
  | idle
  /-- `task` set by `Thread::run`, the worker not yet awake; mutex free -/
  | assigned (t : Nat)
  /-- inside `task(signet)`; mutex held -/
  | running (t : Nat)
  /-- `task(signet)` returned, `after_task` not yet called; mutex held -/
  | executed (t : Nat)
  /-- `after_task` (`recycling_thread`) returned, `task` not yet cleared; mutex held -/
  | recycled (t : Nat)
  deriving DecidableEq, Repr

/-- a client thread: between calls, or inside `ThreadPool::run` after `load` returned worker `w` for task `t` -/
inductive CPc where
  | ready
  | loaded (w t : Nat)
  deriving DecidableEq, Repr

/-- the pool, its workers and clients; `next` numbers the tasks; `started` and `ended` record `(task, worker)` pairs -/
structure Pool where
  free : List Nat
  workers : List WPc
  clients : List CPc
  next : Nat
  started : List (Nat × Nat)
  ended : List (Nat × Nat)

namespace Pool

/-- `ThreadPool(pool_size)`, thread_pool.cpp:54-60, used by `m` client threads -/
def init (n m : Nat) : Pool := ⟨List.range n, List.replicate n .idle, List.replicate m .ready, 0, [], []⟩

inductive Step : Pool → Pool → Prop
  /-- `run` up to `load`'s return: pop the front of `running_core`, thread_pool.cpp:68-79, 97-103 -/
  | load {s : Pool} (c w : Nat) (rest : List Nat) : s.clients[c]? = some .ready → s.free = w :: rest →
      Step s { s with free := rest, clients := s.clients.set c (.loaded w s.next), next := s.next + 1 }
  /-- `Thread::run` on the loaded worker once its mutex is free: sets `task` (replacing a task that is there),
  thread_pool.cpp:21-27 -/
  | assign {s : Pool} (c w t : Nat) (p : WPc) : s.clients[c]? = some (.loaded w t) → s.workers[w]? = some p →
      (p = .idle ∨ ∃ t', p = .assigned t') →
      Step s { s with clients := s.clients.set c .ready, workers := s.workers.set w (.assigned t) }
  /-- the worker wakes up, sees its task and starts it, thread_pool.cpp:43-46 -/
  | start {s : Pool} (w t : Nat) : s.workers[w]? = some (.assigned t) →
      Step s { s with workers := s.workers.set w (.running t), started := (t, w) :: s.started }
  /-- the task returns -/
  | finish {s : Pool} (w t : Nat) : s.workers[w]? = some (.running t) →
      Step s { s with workers := s.workers.set w (.executed t), ended := (t, w) :: s.ended }
  /-- `after_task(signet)`: `recycling_thread`, thread_pool.cpp:47, 121-125 -/
  | recycle {s : Pool} (w t : Nat) : s.workers[w]? = some (.executed t) →
      Step s { s with workers := s.workers.set w (.recycled t), free := w :: s.free }
  /-- `task = nullptr; …; task_cond.notify_all()` and back to waiting, thread_pool.cpp:48-51, 43-44 -/
  | clear {s : Pool} (w t : Nat) : s.workers[w]? = some (.recycled t) →
      Step s { s with workers := s.workers.set w .idle }

/-- reachable with `n` workers and `m` clients -/
inductive Reach (n m : Nat) : Pool → Prop
  | init : Reach n m (init n m)
  | step {s t : Pool} : Reach n m s → Step s t → Reach n m t

/-- `ThreadPool::join` may return: `running_core.size() == thread_pool.size()`, thread_pool.cpp:105-108 -/
def CanJoin (s : Pool) : Prop := s.free.length = s.workers.length

end Pool

/-! ## Destruction of one worker: `Thread::~Thread`, thread_pool.cpp:15-19, against `operating`, 41-52 -/

/-- the worker -/
inductive DPc where
  /-- holding the mutex, about to evaluate `is_running && !task` -/
  | check
  /-- found it true, still holding the mutex, about to call `wait` -/
  | toWait
  /-- inside `wait` -/
  | waiting
  /-- past the waiting loop, about to evaluate `if (!is_running) break` -/
  | checkRun
  /-- left the loop -/
  | exited
  deriving DecidableEq, Repr

/-- one `Thread` object: flag, pending task, worker, how far the destructor is (0 not begun, 1 flag cleared,
2 notified and in `core.join()`, 3 returned), tasks that have run -/
structure Worker where
  isRunning : Bool
  task : Option Nat
  pc : DPc
  dtor : Nat
  ran : List Nat

namespace Worker
/-- a new thread, thread_pool.cpp:10-13 -/
def init : Worker := ⟨true, none, .check, 0, []⟩

/-- steps of the worker, of a client assigning a task, and of the destructor (which never locks `task_mutex`) -/
inductive Step : Worker → Worker → Prop
  /-- `Thread::run` while the worker sleeps (its mutex is free only then), thread_pool.cpp:21-27 -/
  | run {s : Worker} (t : Nat) : s.pc = .waiting → s.dtor = 0 → Step s { s with task := some t, pc := .check }
  /-- `while (is_running && !task)`, thread_pool.cpp:44 -/
  | checkWait {s : Worker} : s.pc = .check → s.isRunning = true → s.task = none → Step s { s with pc := .toWait }
  | checkGo {s : Worker} : s.pc = .check → ¬(s.isRunning = true ∧ s.task = none) → Step s { s with pc := .checkRun }
  /-- `task_cond.wait(locker)` blocks -/
  | sleep {s : Worker} : s.pc = .toWait → Step s { s with pc := .waiting }
  /-- `if (!is_running) break;`, thread_pool.cpp:45 -/
  | stop {s : Worker} : s.pc = .checkRun → s.isRunning = false → Step s { s with pc := .exited }
  /-- run the task and clear it, thread_pool.cpp:46-51, then `while (is_running)` again, thread_pool.cpp:43 -/
  | work {s : Worker} (t : Nat) : s.pc = .checkRun → s.isRunning = true → s.task = some t →
      Step s { s with task := none, pc := .check, ran := t :: s.ran }
  /-- `is_running = false`, thread_pool.cpp:16 -/
  | dtorFlag {s : Worker} : s.dtor = 0 → Step s { s with isRunning := false, dtor := 1 }
  /-- `task_cond.notify_all()`, thread_pool.cpp:17: wakes the worker if it sleeps, otherwise has no effect -/
  | dtorNotify {s : Worker} : s.dtor = 1 →
      Step s { s with dtor := 2, pc := if s.pc = .waiting then .check else s.pc }
  /-- `core.join()` returns when the worker has left, thread_pool.cpp:18 -/
  | dtorJoin {s : Worker} : s.dtor = 2 → s.pc = .exited → Step s { s with dtor := 3 }

inductive Reach : Worker → Prop
  | init : Reach init
  | step {s t : Worker} : Reach s → Step s t → Reach t
end Worker
end Verif.Concurrency
