import Verif.Common
import Mathlib.Logic.Function.Basic

/-!
# Model of `mml/tools/ThreadPool.h`

A labelled transition system.  Any number `N` of workers, any number `M` of client threads and one call of the
destructor run concurrently; every schedule is a path of `Step`.  Every acquisition of `queue_mutex`, every
release, every access to shared state and every notification is a separate step, so that other threads may
run in between; only the exceptions-mutex sections, each of which contains a single access, are one step.

Simplifications.  The memory model is sequential consistency.  A task is a number, given in the order of the
pushes; it is any code that ends, by returning or by throwing, and that may call `enqueue` on the pool any
number of times while it runs, but does not call `wait_for_tasks` or the destructor (a task that waits for
itself never ends).  The error callback is any code that ends.  As C++ requires, no client call is in
progress when the destructor is called and none is made afterwards; tasks may still enqueue.  Failure to
create threads and exhaustion of memory are not modelled.  The field `trace` records what happened and is
read by no step.
-/

set_option autoImplicit false

namespace Verif.Pool

/-- Program counter of a worker, `mml/tools/ThreadPool.h:125-177`. -/
inductive WPc where
  /-- line 130, or inside `wait` after waking up: about to acquire `queue_mutex` -/
  | lockWait
  /-- line 132: holds the mutex, about to evaluate the predicate -/
  | evalPred
  /-- line 132: blocked on `condition`, mutex released -/
  | sleeping
  /-- line 134: holds the mutex, the predicate was true -/
  | checked
  /-- line 139: holds the mutex, task popped, counter not yet incremented -/
  | popped (t : Nat)
  /-- line 140: holds the mutex, about to release it -/
  | inced (t : Nat)
  /-- line 144: running the task -/
  | running (t : Nat)
  /-- line 209, called by the task: about to acquire the mutex -/
  | spawnLock (t : Nat)
  /-- line 210: holds the mutex, about to push -/
  | spawnHold (t : Nat)
  /-- line 211: holds the mutex, pushed -/
  | spawnRelease (t : Nat)
  /-- line 212: about to notify one worker -/
  | spawnNotify (t : Nat)
  /-- lines 146-152: the task threw, exception not yet recorded -/
  | threw (t : Nat)
  /-- lines 154-158: about to copy the callback -/
  | callbackCopy (t : Nat)
  /-- lines 159-166: about to call the callback -/
  | callbackRun (t : Nat)
  /-- line 170: about to decrement the counter -/
  | finishing (t : Nat)
  /-- line 171: the counter became zero, about to acquire the mutex -/
  | notifyLock
  /-- lines 172-174: holds the mutex, about to test the queue and notify -/
  | notifyHold
  /-- line 175: holds the mutex, about to release it -/
  | notifyRelease
  /-- line 135: returned -/
  | exited
  deriving DecidableEq

/-- Program counter of a client thread inside `enqueue` (`mml/tools/ThreadPool.h:206-213`) or
`wait_for_tasks` (lines 221-226). -/
inductive CPc where
  | idle
  | enqLock
  | enqHold
  | enqRelease
  | enqNotify
  | waitLock
  | waitEval
  | waitSleep
  | waitRelease
  deriving DecidableEq

/-- Program counter of the destructor call, `mml/tools/ThreadPool.h:182-194`. -/
inductive DPc where
  | notCalled
  | lock
  | store
  | release
  | notify
  | join (k : Nat)
  | done
  deriving DecidableEq

/-- Who holds `queue_mutex`. -/
inductive Holder where
  | worker (i : Nat)
  | client (c : Nat)
  | destructor
  deriving DecidableEq

/-- What an observer sees. -/
inductive Event where
  /-- task `t` is pushed (line 210) -/
  | enq (t : Nat)
  /-- worker `w` takes task `t` from the queue (lines 137-138) -/
  | start (w t : Nat)
  /-- the body of `t` ends on worker `w`; `threw` tells whether by an exception (line 144) -/
  | ended (w t : Nat) (threw : Bool)
  /-- the exception of `t` is pushed (line 151) -/
  | recorded (t : Nat)
  /-- the callback is called with the exception of `t` (line 161) -/
  | callback (t : Nat)
  /-- `get_exception` returned the exception of the task, or `nullptr` (lines 284-291) -/
  | gotException (t : Option Nat)
  /-- `clear_exceptions` (lines 294-298) -/
  | cleared
  /-- client `c` calls `wait_for_tasks` -/
  | waitCall (c : Nat)
  /-- `wait_for_tasks` of client `c` returns -/
  | waitReturn (c : Nat)
  /-- the destructor is called -/
  | dtorCall
  /-- the destructor returns -/
  | dtorReturn
  deriving DecidableEq

/-- Shared state (`mml/tools/ThreadPool.h:93-113`), the program counters and the ghost fields `nextId`
and `trace`.  A thread whose program counter is `sleeping` or `waitSleep` is in the wait set of its
condition variable. -/
structure State where
  mutex : Option Holder
  tasks : List Nat
  stop : Bool
  inFlight : Int
  exceptions : List Nat
  hasCallback : Bool
  wpc : Nat → WPc
  cpc : Nat → CPc
  dpc : DPc
  nextId : Nat
  trace : List Event

/-- State after the constructor with `N` threads, `mml/tools/ThreadPool.h:119-178`.  (For `N = 0` the
constructor throws; see `construct`.) -/
def init (N : Nat) : State where
  mutex := none
  tasks := []
  stop := false
  inFlight := 0
  exceptions := []
  hasCallback := false
  wpc := fun i => if i < N then .lockWait else .exited
  cpc := fun _ => .idle
  dpc := .notCalled
  nextId := 0
  trace := []

/-- The constructor as a whole, `mml/tools/ThreadPool.h:119-178`: no threads is an error. -/
def construct (N : Nat) : Outcome State :=
  if N = 0 then .exn .invalidArgument else .ret (init N)

/-- `notify_all` on `condition`: every worker blocked on it goes on to reacquire the mutex. -/
def wakeWorkers (f : Nat → WPc) : Nat → WPc := fun i => if f i = .sleeping then .lockWait else f i

/-- `notify_all` on `tasks_done_condition`. -/
def wakeClients (f : Nat → CPc) : Nat → CPc := fun c => if f c = .waitSleep then .waitLock else f c

/-- Steps that a thread inside the pool's code takes by itself. -/
inductive Internal (N : Nat) : State → State → Prop
  /-- line 130 or return from the wait set: acquire the mutex -/
  | wLock {s : State} (i : Nat) (hi : i < N) (hpc : s.wpc i = .lockWait) (hm : s.mutex = none) :
      Internal N s { s with mutex := some (.worker i), wpc := Function.update s.wpc i .evalPred }
  /-- line 132: predicate false, sleep and release -/
  | wSleep {s : State} (i : Nat) (hi : i < N) (hpc : s.wpc i = .evalPred)
      (hp : ¬ (s.stop = true ∨ s.tasks ≠ [])) :
      Internal N s { s with mutex := none, wpc := Function.update s.wpc i .sleeping }
  /-- line 132: predicate true -/
  | wPass {s : State} (i : Nat) (hi : i < N) (hpc : s.wpc i = .evalPred) (hp : s.stop = true ∨ s.tasks ≠ []) :
      Internal N s { s with wpc := Function.update s.wpc i .checked }
  /-- lines 134-135: return, releasing the mutex -/
  | wExit {s : State} (i : Nat) (hi : i < N) (hpc : s.wpc i = .checked) (hp : s.stop = true ∧ s.tasks = []) :
      Internal N s { s with mutex := none, wpc := Function.update s.wpc i .exited }
  /-- lines 137-138: take the front task -/
  | wPop {s : State} (i : Nat) (hi : i < N) (hpc : s.wpc i = .checked) (hp : ¬ (s.stop = true ∧ s.tasks = []))
      (t : Nat) (rest : List Nat) (ht : s.tasks = t :: rest) :
      Internal N s { s with tasks := rest, wpc := Function.update s.wpc i (.popped t),
                            trace := s.trace ++ [.start i t] }
  /-- line 139 -/
  | wInc {s : State} (i : Nat) (hi : i < N) (t : Nat) (hpc : s.wpc i = .popped t) :
      Internal N s { s with inFlight := s.inFlight + 1, wpc := Function.update s.wpc i (.inced t) }
  /-- line 140 -/
  | wUnlock {s : State} (i : Nat) (hi : i < N) (t : Nat) (hpc : s.wpc i = .inced t) :
      Internal N s { s with mutex := none, wpc := Function.update s.wpc i (.running t) }
  /-- line 144: the task returns -/
  | wReturn {s : State} (i : Nat) (hi : i < N) (t : Nat) (hpc : s.wpc i = .running t) :
      Internal N s { s with wpc := Function.update s.wpc i (.finishing t), trace := s.trace ++ [.ended i t false] }
  /-- line 144: the task throws -/
  | wThrow {s : State} (i : Nat) (hi : i < N) (t : Nat) (hpc : s.wpc i = .running t) :
      Internal N s { s with wpc := Function.update s.wpc i (.threw t), trace := s.trace ++ [.ended i t true] }
  /-- lines 149-152 -/
  | wRecord {s : State} (i : Nat) (hi : i < N) (t : Nat) (hpc : s.wpc i = .threw t) :
      Internal N s { s with exceptions := s.exceptions ++ [t], wpc := Function.update s.wpc i (.callbackCopy t),
                            trace := s.trace ++ [.recorded t] }
  /-- lines 154-159: no callback is set -/
  | wNoCallback {s : State} (i : Nat) (hi : i < N) (t : Nat) (hpc : s.wpc i = .callbackCopy t)
      (hc : s.hasCallback = false) :
      Internal N s { s with wpc := Function.update s.wpc i (.finishing t) }
  /-- lines 154-159: a callback is set -/
  | wCallback {s : State} (i : Nat) (hi : i < N) (t : Nat) (hpc : s.wpc i = .callbackCopy t)
      (hc : s.hasCallback = true) :
      Internal N s { s with wpc := Function.update s.wpc i (.callbackRun t) }
  /-- lines 160-166: call it; whatever it throws is ignored -/
  | wCallbackDone {s : State} (i : Nat) (hi : i < N) (t : Nat) (hpc : s.wpc i = .callbackRun t) :
      Internal N s { s with wpc := Function.update s.wpc i (.finishing t), trace := s.trace ++ [.callback t] }
  /-- line 170: the counter becomes zero -/
  | wDecZero {s : State} (i : Nat) (hi : i < N) (t : Nat) (hpc : s.wpc i = .finishing t) (h : s.inFlight - 1 = 0) :
      Internal N s { s with inFlight := s.inFlight - 1, wpc := Function.update s.wpc i .notifyLock }
  /-- line 170: the counter does not become zero -/
  | wDec {s : State} (i : Nat) (hi : i < N) (t : Nat) (hpc : s.wpc i = .finishing t) (h : s.inFlight - 1 ≠ 0) :
      Internal N s { s with inFlight := s.inFlight - 1, wpc := Function.update s.wpc i .lockWait }
  /-- line 171 -/
  | wNotifyLock {s : State} (i : Nat) (hi : i < N) (hpc : s.wpc i = .notifyLock) (hm : s.mutex = none) :
      Internal N s { s with mutex := some (.worker i), wpc := Function.update s.wpc i .notifyHold }
  /-- lines 172-174: the queue is empty, notify all waiters -/
  | wNotifyAll {s : State} (i : Nat) (hi : i < N) (hpc : s.wpc i = .notifyHold) (h : s.tasks = []) :
      Internal N s { s with cpc := wakeClients s.cpc, wpc := Function.update s.wpc i .notifyRelease }
  /-- line 172: the queue is not empty -/
  | wNoNotify {s : State} (i : Nat) (hi : i < N) (hpc : s.wpc i = .notifyHold) (h : s.tasks ≠ []) :
      Internal N s { s with wpc := Function.update s.wpc i .notifyRelease }
  /-- line 175 -/
  | wNotifyUnlock {s : State} (i : Nat) (hi : i < N) (hpc : s.wpc i = .notifyRelease) :
      Internal N s { s with mutex := none, wpc := Function.update s.wpc i .lockWait }
  /-- line 209, in a task -/
  | sLock {s : State} (i : Nat) (hi : i < N) (t : Nat) (hpc : s.wpc i = .spawnLock t) (hm : s.mutex = none) :
      Internal N s { s with mutex := some (.worker i), wpc := Function.update s.wpc i (.spawnHold t) }
  /-- line 210, in a task -/
  | sPush {s : State} (i : Nat) (hi : i < N) (t : Nat) (hpc : s.wpc i = .spawnHold t) :
      Internal N s { s with tasks := s.tasks ++ [s.nextId], nextId := s.nextId + 1,
                            wpc := Function.update s.wpc i (.spawnRelease t), trace := s.trace ++ [.enq s.nextId] }
  /-- line 211, in a task -/
  | sUnlock {s : State} (i : Nat) (hi : i < N) (t : Nat) (hpc : s.wpc i = .spawnRelease t) :
      Internal N s { s with mutex := none, wpc := Function.update s.wpc i (.spawnNotify t) }
  /-- line 212, in a task: some worker `j` is blocked and is woken -/
  | sNotify {s : State} (i : Nat) (hi : i < N) (t : Nat) (hpc : s.wpc i = .spawnNotify t)
      (j : Nat) (hj : s.wpc j = .sleeping) :
      Internal N s { s with wpc := Function.update (Function.update s.wpc i (.running t)) j .lockWait }
  /-- line 212, in a task: no worker is blocked -/
  | sNotifyNone {s : State} (i : Nat) (hi : i < N) (t : Nat) (hpc : s.wpc i = .spawnNotify t)
      (hj : ∀ j, s.wpc j ≠ .sleeping) :
      Internal N s { s with wpc := Function.update s.wpc i (.running t) }
  /-- line 209 -/
  | eLock {s : State} (c : Nat) (hpc : s.cpc c = .enqLock) (hm : s.mutex = none) :
      Internal N s { s with mutex := some (.client c), cpc := Function.update s.cpc c .enqHold }
  /-- line 210 -/
  | ePush {s : State} (c : Nat) (hpc : s.cpc c = .enqHold) :
      Internal N s { s with tasks := s.tasks ++ [s.nextId], nextId := s.nextId + 1,
                            cpc := Function.update s.cpc c .enqRelease, trace := s.trace ++ [.enq s.nextId] }
  /-- line 211 -/
  | eUnlock {s : State} (c : Nat) (hpc : s.cpc c = .enqRelease) :
      Internal N s { s with mutex := none, cpc := Function.update s.cpc c .enqNotify }
  /-- line 212: some worker `j` is blocked and is woken -/
  | eNotify {s : State} (c : Nat) (hpc : s.cpc c = .enqNotify) (j : Nat) (hj : s.wpc j = .sleeping) :
      Internal N s { s with wpc := Function.update s.wpc j .lockWait, cpc := Function.update s.cpc c .idle }
  /-- line 212: no worker is blocked -/
  | eNotifyNone {s : State} (c : Nat) (hpc : s.cpc c = .enqNotify) (hj : ∀ j, s.wpc j ≠ .sleeping) :
      Internal N s { s with cpc := Function.update s.cpc c .idle }
  /-- line 222, or return from the wait set: acquire the mutex -/
  | cLock {s : State} (c : Nat) (hpc : s.cpc c = .waitLock) (hm : s.mutex = none) :
      Internal N s { s with mutex := some (.client c), cpc := Function.update s.cpc c .waitEval }
  /-- lines 223-225: predicate false, sleep and release -/
  | cSleep {s : State} (c : Nat) (hpc : s.cpc c = .waitEval) (hp : ¬ (s.tasks = [] ∧ s.inFlight = 0)) :
      Internal N s { s with mutex := none, cpc := Function.update s.cpc c .waitSleep }
  /-- lines 223-225: predicate true -/
  | cPass {s : State} (c : Nat) (hpc : s.cpc c = .waitEval) (hp : s.tasks = [] ∧ s.inFlight = 0) :
      Internal N s { s with cpc := Function.update s.cpc c .waitRelease }
  /-- line 226: release the mutex and return -/
  | cReturn {s : State} (c : Nat) (hpc : s.cpc c = .waitRelease) :
      Internal N s { s with mutex := none, cpc := Function.update s.cpc c .idle,
                            trace := s.trace ++ [.waitReturn c] }
  /-- line 186 -/
  | dLock {s : State} (hpc : s.dpc = .lock) (hm : s.mutex = none) :
      Internal N s { s with mutex := some .destructor, dpc := .store }
  /-- line 187 -/
  | dStore {s : State} (hpc : s.dpc = .store) : Internal N s { s with stop := true, dpc := .release }
  /-- line 188 -/
  | dUnlock {s : State} (hpc : s.dpc = .release) : Internal N s { s with mutex := none, dpc := .notify }
  /-- line 189 -/
  | dNotify {s : State} (hpc : s.dpc = .notify) :
      Internal N s { s with wpc := wakeWorkers s.wpc, dpc := .join 0 }
  /-- lines 192-193: worker `k` has returned -/
  | dJoin {s : State} (k : Nat) (hpc : s.dpc = .join k) (hk : k < N) (hw : s.wpc k = .exited) :
      Internal N s { s with dpc := .join (k + 1) }
  /-- line 194 -/
  | dDone {s : State} (hpc : s.dpc = .join N) :
      Internal N s { s with dpc := .done, trace := s.trace ++ [.dtorReturn] }

/-- Steps that the environment takes: calls by clients, by tasks, and spurious wakeups. -/
inductive External (N M : Nat) : State → State → Prop
  /-- a client calls `enqueue` -/
  | callEnqueue {s : State} (c : Nat) (hc : c < M) (hpc : s.cpc c = .idle) (hd : s.dpc = .notCalled) :
      External N M s { s with cpc := Function.update s.cpc c .enqLock }
  /-- a client calls `wait_for_tasks` -/
  | callWait {s : State} (c : Nat) (hc : c < M) (hpc : s.cpc c = .idle) (hd : s.dpc = .notCalled) :
      External N M s { s with cpc := Function.update s.cpc c .waitLock, trace := s.trace ++ [.waitCall c] }
  /-- a running task calls `enqueue` -/
  | callSpawn {s : State} (i : Nat) (hi : i < N) (t : Nat) (hpc : s.wpc i = .running t) :
      External N M s { s with wpc := Function.update s.wpc i (.spawnLock t) }
  /-- the destructor is called, with no client call in progress -/
  | callDestructor {s : State} (hd : s.dpc = .notCalled) (hc : ∀ c, s.cpc c = .idle) :
      External N M s { s with dpc := .lock, trace := s.trace ++ [.dtorCall] }
  /-- spurious wakeup of a worker -/
  | spuriousWorker {s : State} (i : Nat) (hpc : s.wpc i = .sleeping) :
      External N M s { s with wpc := Function.update s.wpc i .lockWait }
  /-- spurious wakeup of a waiting client -/
  | spuriousClient {s : State} (c : Nat) (hpc : s.cpc c = .waitSleep) :
      External N M s { s with cpc := Function.update s.cpc c .waitLock }
  /-- lines 262-265: `set_error_callback` -/
  | setCallback {s : State} (b : Bool) : External N M s { s with hasCallback := b }
  /-- lines 284-291: `get_exception`, an exception is there -/
  | getException {s : State} (t : Nat) (rest : List Nat) (h : s.exceptions = t :: rest) :
      External N M s { s with exceptions := rest, trace := s.trace ++ [.gotException (some t)] }
  /-- lines 284-291: `get_exception`, none is there -/
  | getNoException {s : State} (h : s.exceptions = []) :
      External N M s { s with trace := s.trace ++ [.gotException none] }
  /-- lines 294-298: `clear_exceptions` -/
  | clearExceptions {s : State} : External N M s { s with exceptions := [], trace := s.trace ++ [.cleared] }

/-- One step of some thread. -/
def Step (N M : Nat) (s s' : State) : Prop := Internal N s s' ∨ External N M s s'

/-- The states that some schedule of `N` workers and `M` client threads reaches. -/
inductive Reachable (N M : Nat) : State → Prop
  | init : Reachable N M (init N)
  | step {s s' : State} : Reachable N M s → Step N M s s' → Reachable N M s'

/-- `mml/tools/ThreadPool.h:230-233`, `has_tasks`: read under the mutex. -/
def State.hasTasks (s : State) : Bool := !s.tasks.isEmpty || decide (s.inFlight > 0)

/-- `mml/tools/ThreadPool.h:269-272`, `has_exceptions`. -/
def State.hasExceptions (s : State) : Bool := !s.exceptions.isEmpty

/-- `mml/tools/ThreadPool.h:276-279`, `exception_count`. -/
def State.exceptionCount (s : State) : Nat := s.exceptions.length

end Verif.Pool
