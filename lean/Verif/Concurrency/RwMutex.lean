import Verif.Core.Res
/-!
# The read/write lock: include/utils/mutex.h:15-72

Every member function runs under `m_mutex_counter`, so each stretch between locking and unlocking (or waiting) is one
step. Waiting on a condition variable releases the mutex; a notified (or spuriously woken) thread evaluates its
predicate again under the mutex, which is another step. Any number of threads.
-/
namespace Verif.Concurrency

/-- where a thread is -/
inductive RPc where
  /-- holds nothing -/
  | idle
  /-- blocked in `m_cond_read.wait` -/
  | rWait
  /-- woken from `m_cond_read.wait`, about to evaluate the predicate -/
  | rWoken
  /-- returned from `lock_read` -/
  | reading
  /-- blocked in `m_cond_write.wait` -/
  | wWait
  /-- woken from `m_cond_write.wait`, about to evaluate the predicate -/
  | wWoken
  /-- returned from `lock_write` -/
  | writing
  deriving DecidableEq, Repr

/-- `m_read_count`, `m_write_count`, `m_writing` (mutex.h:66-68) and the threads -/
structure RW where
  pcs : List RPc
  rc : Nat
  wc : Nat
  writing : Bool

namespace RW

/-- a fresh lock and `n` threads -/
def init (n : Nat) : RW := ⟨List.replicate n .idle, 0, 0, false⟩

/-- `m_cond_read.notify_all()` -/
def wakeReaders (l : List RPc) : List RPc := l.map fun p => if p = .rWait then .rWoken else p

/-- `m_cond_write.notify_one()`: one blocked thread, if any, is woken; which one is not specified -/
inductive WakeOne : List RPc → List RPc → Prop
  | some {l : List RPc} (j : Nat) : l[j]? = some .wWait → WakeOne l (l.set j .wWoken)
  | none {l : List RPc} : .wWait ∉ l → WakeOne l l

/-- predicate and effect at the end of `lock_read`, mutex.h:27-32: `m_write_count == 0`, then `++m_read_count` -/
def tryRead (s : RW) (i : Nat) : RW :=
  if s.wc = 0 then { s with pcs := s.pcs.set i .reading, rc := s.rc + 1 } else { s with pcs := s.pcs.set i .rWait }

/-- predicate and effect at the end of `lock_write`, mutex.h:38-39: `m_read_count == 0 && !m_writing`, then
`m_writing = true` -/
def tryWrite (s : RW) (i : Nat) : RW :=
  if s.rc = 0 ∧ s.writing = false then { s with pcs := s.pcs.set i .writing, writing := true }
  else { s with pcs := s.pcs.set i .wWait }

/-- one step of thread `i` -/
inductive Step : RW → RW → Prop
  /-- `lock_read`, mutex.h:27-32 -/
  | lockRead {s : RW} (i : Nat) : s.pcs[i]? = some .idle → Step s (s.tryRead i)
  /-- `wait` of `lock_read` returns and evaluates the predicate, mutex.h:30 -/
  | recheckRead {s : RW} (i : Nat) : s.pcs[i]? = some .rWoken → Step s (s.tryRead i)
  /-- `lock_write`, mutex.h:34-40 -/
  | lockWrite {s : RW} (i : Nat) : s.pcs[i]? = some .idle → Step s (tryWrite { s with wc := s.wc + 1 } i)
  /-- `wait` of `lock_write` returns and evaluates the predicate, mutex.h:38 -/
  | recheckWrite {s : RW} (i : Nat) : s.pcs[i]? = some .wWoken → Step s (s.tryWrite i)
  /-- `release_read`, mutex.h:42-49 -/
  | releaseRead {s : RW} (i : Nat) (l : List RPc) : s.pcs[i]? = some .reading →
      (if s.rc - 1 = 0 ∧ 0 < s.wc then WakeOne (s.pcs.set i .idle) l else l = s.pcs.set i .idle) →
      Step s { s with pcs := l, rc := s.rc - 1 }
  /-- `release_write`, mutex.h:51-63 -/
  | releaseWrite {s : RW} (i : Nat) (l : List RPc) : s.pcs[i]? = some .writing →
      (if s.wc - 1 = 0 then l = wakeReaders (s.pcs.set i .idle) else WakeOne (s.pcs.set i .idle) l) →
      Step s { s with pcs := l, wc := s.wc - 1, writing := false }
  /-- spurious wake-ups, which condition variables allow -/
  | spuriousRead {s : RW} (i : Nat) : s.pcs[i]? = some .rWait → Step s { s with pcs := s.pcs.set i .rWoken }
  | spuriousWrite {s : RW} (i : Nat) : s.pcs[i]? = some .wWait → Step s { s with pcs := s.pcs.set i .wWoken }

/-- reachable states -/
inductive Reach (n : Nat) : RW → Prop
  | init : Reach n (init n)
  | step {s t : RW} : Reach n s → Step s t → Reach n t

end RW
end Verif.Concurrency
