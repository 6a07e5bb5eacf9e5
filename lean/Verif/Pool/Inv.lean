import Verif.Pool.Spec
import Mathlib.Algebra.BigOperators.Intervals
import Mathlib.Data.Int.Order.Basic

set_option autoImplicit false

namespace Verif.Pool

/-- The worker holds `queue_mutex`. -/
def WPc.holds : WPc → Bool
  | .evalPred | .checked | .popped _ | .inced _ | .spawnHold _ | .spawnRelease _ | .notifyHold
  | .notifyRelease => true
  | _ => false

def CPc.holds : CPc → Bool
  | .enqHold | .enqRelease | .waitEval | .waitRelease => true
  | _ => false

def DPc.holds : DPc → Bool
  | .store | .release => true
  | _ => false

/-- Between the increment and the decrement of the counter. -/
def WPc.counted : WPc → Bool
  | .inced _ | .running _ | .spawnLock _ | .spawnHold _ | .spawnRelease _ | .spawnNotify _ | .threw _
  | .callbackCopy _ | .callbackRun _ | .finishing _ => true
  | _ => false

/-- The task whose body has not ended. -/
def WPc.busy : WPc → Option Nat
  | .popped t | .inced t | .running t | .spawnLock t | .spawnHold t | .spawnRelease t | .spawnNotify t => some t
  | _ => none

/-- The task the worker works on. -/
def WPc.task : WPc → Option Nat
  | .popped t | .inced t | .running t | .spawnLock t | .spawnHold t | .spawnRelease t | .spawnNotify t
  | .threw t | .callbackCopy t | .callbackRun t | .finishing t => some t
  | _ => none

/-- The worker will notify the waiters, or hand that duty on. -/
def WPc.active : WPc → Bool
  | .popped _ | .inced _ | .running _ | .spawnLock _ | .spawnHold _ | .spawnRelease _ | .spawnNotify _
  | .threw _ | .callbackCopy _ | .callbackRun _ | .finishing _ | .notifyLock | .notifyHold => true
  | _ => false

/-- Awake, and going to look at the queue before anything else. -/
def WPc.woken : WPc → Bool
  | .lockWait | .evalPred | .checked => true
  | _ => false

/-- Has pushed and not yet notified. -/
def WPc.pending : WPc → Bool
  | .spawnRelease _ | .spawnNotify _ => true
  | _ => false

def CPc.pending : CPc → Bool
  | .enqRelease | .enqNotify => true
  | _ => false

def DPc.stopped : DPc → Bool
  | .release | .notify | .join _ | .done => true
  | _ => false

/-- `wait_for_tasks` is in progress. -/
def CPc.waiting : CPc → Bool
  | .waitLock | .waitEval | .waitSleep | .waitRelease => true
  | _ => false

structure InvA (N M : Nat) (s : State) : Prop where
  outside : ∀ i, N ≤ i → s.wpc i = .exited
  outsideC : ∀ c, M ≤ c → s.cpc c = .idle
  mw : ∀ i, (s.wpc i).holds = true ↔ s.mutex = some (.worker i)
  mc : ∀ c, (s.cpc c).holds = true ↔ s.mutex = some (.client c)
  md : s.dpc.holds = true ↔ s.mutex = some .destructor
  dtor : s.dpc ≠ .notCalled → ∀ c, s.cpc c = .idle
  stopI : s.stop = true ↔ s.dpc.stopped = true
  exitI : ∀ i, i < N → s.wpc i = .exited → s.stop = true
  stopSleep : s.stop = true → ∀ i, s.wpc i = .sleeping → s.dpc = .release ∨ s.dpc = .notify

set_option maxHeartbeats 4000000 in
theorem invA {N M : Nat} {s : State} (h : Reachable N M s) : InvA N M s := by
  induction h with
  | init =>
    constructor <;> simp [init] <;> grind [WPc.holds, CPc.holds, DPc.holds, DPc.stopped]
  | @step s s' _ hs ih =>
    obtain ⟨h1, h2, h3, h4, h5, h6, h7, h8, h9⟩ := ih
    rcases hs with hs | hs <;> cases hs <;> constructor <;> dsimp only [wakeWorkers, wakeClients] <;>
      grind [WPc.holds, CPc.holds, DPc.holds, DPc.stopped]

end Verif.Pool
