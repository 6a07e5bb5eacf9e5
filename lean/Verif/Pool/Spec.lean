import Verif.Pool.Model

/-!
# What a user of the pool relies on, in terms of the events of a trace

Nothing here mentions the pool's internal state.
-/

set_option autoImplicit false

namespace Verif.Pool

/-- The tasks enqueued, in the order of the `enqueue` calls. -/
def enqueued (tr : List Event) : List Nat :=
  tr.filterMap fun e => match e with | .enq t => some t | _ => none

/-- The tasks taken by workers, in the order in which they were taken. -/
def started (tr : List Event) : List Nat :=
  tr.filterMap fun e => match e with | .start _ t => some t | _ => none

/-- The tasks whose bodies ended, in that order. -/
def finished (tr : List Event) : List Nat :=
  tr.filterMap fun e => match e with | .ended _ t _ => some t | _ => none

/-- The tasks whose bodies ended by an exception. -/
def failed (tr : List Event) : List Nat :=
  tr.filterMap fun e => match e with | .ended _ t true => some t | _ => none

/-- The tasks whose exception was captured, in the order of capture. -/
def captured (tr : List Event) : List Nat :=
  tr.filterMap fun e => match e with | .recorded t => some t | _ => none

/-- The tasks with whose exception the callback was called. -/
def calledBack (tr : List Event) : List Nat :=
  tr.filterMap fun e => match e with | .callback t => some t | _ => none

/-- At the end of `tr` no task is queued or running, and every exception thrown has been captured. -/
def Quiescent (tr : List Event) : Prop :=
  (∀ t ∈ enqueued tr, t ∈ finished tr) ∧ ∀ t ∈ failed tr, t ∈ captured tr

/-- The captured exceptions that are still available: those captured, without those handed out by
`get_exception` (oldest first) and those discarded by `clear_exceptions`. -/
def available (tr : List Event) : List Nat :=
  tr.foldl (fun q e => match e with
    | .recorded t => q ++ [t]
    | .gotException _ => q.tail
    | .cleared => []
    | _ => q) []

/-- Client `c` is inside `wait_for_tasks` at the end of `tr`. -/
def InWait (c : Nat) (tr : List Event) : Prop :=
  ∃ p q, tr = p ++ Event.waitCall c :: q ∧ Event.waitCall c ∉ q ∧ Event.waitReturn c ∉ q

/-- The last call of `wait_for_tasks` by `c` in `tr`, which has not returned in `tr`, was followed by an
instant of quiescence. -/
def Passed (c : Nat) (tr : List Event) : Prop :=
  ∃ p a b, tr = p ++ Event.waitCall c :: (a ++ b) ∧ Event.waitCall c ∉ a ++ b ∧
    Event.waitReturn c ∉ a ++ b ∧ Quiescent (p ++ Event.waitCall c :: a)

end Verif.Pool
