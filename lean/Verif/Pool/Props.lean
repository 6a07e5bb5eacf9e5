import Verif.Pool.Progress
import Mathlib.Logic.Relation

/-!
# Properties C15-C19: the thread pool

Every theorem ranges over all states that any schedule of `N` workers and `M` client threads reaches, so over
every interleaving, every choice of the thread a notification wakes, and every spurious wakeup.
-/

set_option autoImplicit false

namespace Verif.Pool

/-- C15.  Tasks are taken in the order in which they were enqueued, each at most once and by one worker; the
body of a task ends at most once, on the worker that took it; the tasks not yet taken are exactly those that
are still queued. -/
theorem tasks_taken_in_order_once {N M : Nat} {s : State} (h : Reachable N M s) :
    started s.trace <+: enqueued s.trace ∧
    (enqueued s.trace).Nodup ∧
    (finished s.trace).Nodup ∧
    (∀ i j t, Event.start i t ∈ s.trace → Event.start j t ∈ s.trace → i = j) ∧
    (∀ w t b, Event.ended w t b ∈ s.trace → Event.start w t ∈ s.trace) ∧
    enqueued s.trace = started s.trace ++ s.tasks := by
  have hB := invB h
  have hn := nodup_of_range (hB.q1.trans hB.q2)
  exact ⟨⟨_, hB.q1⟩, by rw [hB.q2]; exact List.nodup_range, hB.finI, fun i j t hi hj => start_unique hn hi hj,
    hB.endI, hB.q1.symm⟩

/-- C15, order of starts.  If `t` was enqueued before `u` and `u` has been taken then `t` has been taken, and
was taken before `u`. -/
theorem earlier_task_taken_first {N M : Nat} {s : State} (h : Reachable N M s) {a b c : List Nat} {t u : Nat}
    (ho : enqueued s.trace = a ++ t :: b ++ u :: c) (hu : u ∈ started s.trace) :
    ∃ d, started s.trace = a ++ t :: b ++ u :: d := by
  obtain ⟨⟨r, hp⟩, hn, -⟩ := tasks_taken_in_order_once h
  have hlen : (a ++ t :: b).length < (started s.trace).length := by
    by_contra hc
    have hpre : started s.trace <+: a ++ t :: b := by
      refine List.prefix_of_prefix_length_le ⟨r, hp⟩ ⟨u :: c, ho.symm⟩ (by omega)
    have hmem := hpre.subset hu
    rw [ho] at hn
    exact (List.nodup_append.1 hn).2.2 u hmem u (by simp) rfl
  have h2 : a ++ t :: b ++ [u] <+: started s.trace := by
    refine List.prefix_of_prefix_length_le ⟨c, ?_⟩ ⟨r, hp⟩ ?_
    · rw [ho]; simp
    · simp at hlen ⊢; omega
  obtain ⟨d, hd⟩ := h2
  exact ⟨d, by rw [← hd]; simp⟩

/-- C16.  When `wait_for_tasks` returns, there was an instant between this call and its return at which every
task enqueued so far had ended and every exception thrown had been captured. -/
theorem wait_for_tasks_barrier {N M : Nat} {s : State} (h : Reachable N M s) {pre post : List Event} {c : Nat}
    (htr : s.trace = pre ++ Event.waitReturn c :: post) :
    ∃ p a b, pre = p ++ Event.waitCall c :: (a ++ b) ∧ Event.waitCall c ∉ a ++ b ∧ Event.waitReturn c ∉ a ++ b ∧
      Quiescent (p ++ Event.waitCall c :: a) :=
  barrier h pre c post htr

/-- C16.  In particular every task enqueued before the call has ended before the return. -/
theorem wait_for_tasks_all_finished {N M : Nat} {s : State} (h : Reachable N M s) {p q post : List Event} {c : Nat}
    (htr : s.trace = p ++ Event.waitCall c :: (q ++ Event.waitReturn c :: post))
    (hq : Event.waitCall c ∉ q) :
    (∀ t ∈ enqueued p, t ∈ finished (p ++ Event.waitCall c :: q)) ∧
      ∀ t ∈ failed p, t ∈ captured (p ++ Event.waitCall c :: q) := by
  obtain ⟨p', a, b, he, h1, h2, hqq⟩ := barrier h (p ++ Event.waitCall c :: q) c post (by simpa using htr)
  have hpp : p = p' ∧ q = a ++ b := by
    rcases List.append_eq_append_iff.1 he with ⟨x, hx, hy⟩ | ⟨x, hx, hy⟩
    · cases x with
      | nil => simp at hx hy; exact ⟨hx.symm, hy⟩
      | cons y ys =>
        exfalso
        have : Event.waitCall c ∈ q := by
          simp only [List.cons_append, List.cons.injEq] at hy
          rw [hy.2]; simp
        exact hq this
    · cases x with
      | nil => simp at hx hy; exact ⟨hx, hy.symm⟩
      | cons y ys =>
        exfalso
        have : Event.waitCall c ∈ a ++ b := by
          simp only [List.cons_append, List.cons.injEq] at hy
          rw [hy.2]; simp
        exact h1 this
  obtain ⟨rfl, rfl⟩ := hpp
  have hsplit : p ++ Event.waitCall c :: (a ++ b) = (p ++ Event.waitCall c :: a) ++ b := by simp
  have hle : p ++ Event.waitCall c :: a = p ++ (Event.waitCall c :: a) := rfl
  constructor
  · intro t ht
    rw [hsplit, finished_append]
    exact List.mem_append.2 (.inl (hqq.1 t (by rw [hle, enqueued_append]; exact List.mem_append.2 (.inl ht))))
  · intro t ht
    rw [hsplit, captured_append]
    exact List.mem_append.2 (.inl (hqq.2 t (by rw [hle, failed_append]; exact List.mem_append.2 (.inl ht))))

/-- C16, `has_tasks`.  Read while no worker holds the mutex, `has_tasks` answers false only when every task
enqueued has ended. -/
theorem has_tasks_false {N M : Nat} {s : State} (h : Reachable N M s) (hm : ∀ i, s.mutex ≠ some (.worker i))
    (hf : s.hasTasks = false) : Quiescent s.trace := by
  simp only [State.hasTasks, Bool.or_eq_false_iff, Bool.not_eq_false', List.isEmpty_iff,
    decide_eq_false_iff_not] at hf
  refine quiescent_of_zero h hf.1 ?_ hm
  have := cnt_nonneg N s.wpc WPc.counted
  rw [← flight h] at this
  omega

/-- C17.  No deadlock and no lost wakeup: in every reachable state in which no thread inside the pool can take
a step, nothing is left to do.  No client is inside `enqueue` or `wait_for_tasks`, no task is queued, every
task has ended, every worker sleeps or has returned, and the destructor has not been called or has returned. -/
theorem no_deadlock {N M : Nat} (hN : 0 < N) {s : State} (h : Reachable N M s) (hstuck : ∀ s', ¬ Internal N s s') :
    (∀ c, s.cpc c = .idle) ∧ s.tasks = [] ∧ Quiescent s.trace ∧
      (∀ i, i < N → s.wpc i = .sleeping ∨ s.wpc i = .exited) ∧
      (s.dpc = .notCalled ∨ (s.dpc = .done ∧ ∀ i, i < N → s.wpc i = .exited)) := by
  obtain ⟨hc, ht, hw, hd⟩ := quiet_of_stuck hN h hstuck
  refine ⟨hc, ht, quiescent_of h ht fun i hi t => ?_, hw, ?_⟩
  · rcases hw i hi with h | h <;> simp [State.ph, h, WPc.phase]
  · exact hd.imp id fun hd => ⟨hd, (joined h).2 hd⟩

/-- C17.  The threads inside the pool cannot go on for ever by themselves: an execution with finitely many
calls and spurious wakeups ends, whatever the scheduler does.  With `no_deadlock`, every waiter returns. -/
theorem pool_terminates {N M : Nat} {s : State} (h : Reachable N M s) :
    ¬ ∃ run : Nat → State, run 0 = s ∧ ∀ n, Internal N (run n) (run (n + 1)) := by
  rintro ⟨run, h0, hrun⟩
  have hreach : ∀ n, Reachable N M (run n) := by
    intro n
    induction n with
    | zero => rw [h0]; exact h
    | succ n ih => exact .step ih (.inl (hrun n))
  have hle : ∀ n, (run n).weight N M + n ≤ (run 0).weight N M := by
    intro n
    induction n with
    | zero => simp
    | succ n ih => have := weight_lt (hreach n) (hrun n); omega
  have := hle ((run 0).weight N M + 1)
  omega

/-- C17.  From every reachable state the pool's own steps lead to a state with nothing left to do. -/
theorem pool_settles {N M : Nat} (hN : 0 < N) {s : State} (h : Reachable N M s) :
    ∃ s', Relation.ReflTransGen (Internal N) s s' ∧ (∀ c, s'.cpc c = .idle) ∧ s'.tasks = [] ∧
      Quiescent s'.trace ∧ (s'.dpc = .notCalled ∨ s'.dpc = .done) := by
  generalize hk : s.weight N M = k
  induction k using Nat.strong_induction_on generalizing s with
  | _ k ih =>
    by_cases hstuck : ∀ s', ¬ Internal N s s'
    · obtain ⟨a, b, c, d, e⟩ := no_deadlock hN h hstuck
      exact ⟨s, .refl, a, b, c, e.imp id And.left⟩
    · simp only [not_forall, not_not] at hstuck
      obtain ⟨s1, h1⟩ := hstuck
      have hlt := weight_lt h h1
      obtain ⟨s', h2, h3⟩ := ih _ (hk ▸ hlt) (Reachable.step h (.inl h1)) rfl
      exact ⟨s', .head h1 h2, h3⟩

/-- C17.  While a worker sleeps, every queued task has its own awake worker about to look at the queue, or its
own notification still to come: no worker sleeps while a task waits in vain for one. -/
theorem no_idle_worker {N M : Nat} {s : State} (h : Reachable N M s) (hs : ∃ i, s.wpc i = .sleeping) :
    (s.tasks.length : Int) ≤ cnt N s.wpc WPc.woken + cnt N s.wpc WPc.pending + cnt M s.cpc CPc.pending :=
  util h hs

/-- C17.  After `stop`, a worker still sleeps only until the destructor's notification. -/
theorem stop_wakes_workers {N M : Nat} {s : State} (h : Reachable N M s) {i : Nat} (hw : s.wpc i = .sleeping)
    (hs : s.stop = true) : s.dpc = .release ∨ s.dpc = .notify :=
  (invA h).stopSleep hs i hw

/-- C18.  When the destructor returns, every task ever enqueued has ended, every exception was captured, no
task starts, ends or is enqueued afterwards, and every worker has returned. -/
theorem destructor_drains_and_joins {N M : Nat} (hN : 0 < N) {s : State} (h : Reachable N M s)
    {pre post : List Event} (htr : s.trace = pre ++ Event.dtorReturn :: post) :
    Quiescent pre ∧ started post = [] ∧ enqueued post = [] ∧ finished post = [] ∧
      ∀ i, i < N → s.wpc i = .exited := by
  obtain ⟨h1, h2⟩ := dtor_return hN h
  obtain ⟨a, b, c, d⟩ := h2 pre post htr
  exact ⟨a, b, c, d, (joined h).2 (h1 (by rw [htr]; simp))⟩

/-- C19.  Exceptions are captured exactly once each: an exception is captured only of a task that threw, at
most once; and once the worker is past the handler, or nothing is running, it has been captured.  The callback
is called at most once per captured exception. -/
theorem exceptions_captured_once {N M : Nat} {s : State} (h : Reachable N M s) :
    (captured s.trace).Nodup ∧ (∀ t ∈ captured s.trace, t ∈ failed s.trace) ∧
    (∀ t ∈ failed s.trace, t ∈ captured s.trace ∨ ∃ w, w < N ∧ s.wpc w = .threw t) ∧
    (calledBack s.trace).Nodup ∧ (∀ t ∈ calledBack s.trace, t ∈ captured s.trace) := by
  have hB := invB h
  refine ⟨hB.capN, hB.capF, ?_, hB.cbN, hB.cbC⟩
  intro t ht
  refine (hB.capI t ht).imp id ?_
  rintro ⟨w, hw, hp⟩
  refine ⟨w, hw, ?_⟩
  simp only [State.ph] at hp
  cases hx : s.wpc w <;> rw [hx] at hp <;> simp_all [WPc.phase]

/-- C19.  `get_exception` returns the oldest exception not yet returned or cleared, and `nullptr` exactly when
there is none; `has_exceptions` and `exception_count` are exact. -/
theorem exceptions_fifo {N M : Nat} {s : State} (h : Reachable N M s) :
    (∀ pre o post, s.trace = pre ++ Event.gotException o :: post → o = (available pre).head?) ∧
    (s.hasExceptions = true ↔ available s.trace ≠ []) ∧
    s.exceptionCount = (available s.trace).length := by
  refine ⟨got_exception h, ?_, ?_⟩
  · simp [State.hasExceptions, exceptions_eq h]
  · simp [State.exceptionCount, exceptions_eq h]

/-- The constructor refuses an empty pool and accepts every other. -/
theorem construct_spec (N : Nat) :
    (N = 0 → construct N = .exn .invalidArgument) ∧ (0 < N → construct N = .ret (init N)) := by
  constructor
  · rintro rfl; rfl
  · intro h; rw [construct, if_neg (by omega)]

/-! ### The hypotheses are met

A run with one worker and one client: the client enqueues a task, which enqueues another; the first returns,
the second throws; the client waits, fetches the exception, and the pool is destroyed. -/

/-- Finds the side conditions of a step from a concrete state. -/
macro "go" : tactic => `(tactic| first | rfl | decide | simp)

theorem sample_run : ∃ s, Reachable 1 1 s ∧
    s.trace = [.enq 0, .start 0 0, .enq 1, .waitCall 0, .ended 0 0 false, .start 0 1, .ended 0 1 true, .recorded 1,
      .waitReturn 0, .gotException (some 1), .dtorCall, .dtorReturn] := by
  have r := Reachable.init (N := 1) (M := 1)
  have r := r.step (.inl (.wLock 0 (by go) (by go) (by go)))
  have r := r.step (.inl (.wSleep 0 (by go) (by go) (by go)))
  have r := r.step (.inr (.callEnqueue 0 (by go) (by go) (by go)))
  have r := r.step (.inl (.eLock 0 (by go) (by go)))
  have r := r.step (.inl (.ePush 0 (by go)))
  have r := r.step (.inl (.eUnlock 0 (by go)))
  have r := r.step (.inl (.eNotify 0 (by go) 0 (by go)))
  have r := r.step (.inl (.wLock 0 (by go) (by go) (by go)))
  have r := r.step (.inl (.wPass 0 (by go) (by go) (by go)))
  have r := r.step (.inl (.wPop 0 (by go) (by go) (by simp [init]) 0 [] (by go)))
  have r := r.step (.inl (.wInc 0 (by go) 0 (by go)))
  have r := r.step (.inl (.wUnlock 0 (by go) 0 (by go)))
  have r := r.step (.inr (.callSpawn 0 (by go) 0 (by go)))
  have r := r.step (.inl (.sLock 0 (by go) 0 (by go) (by go)))
  have r := r.step (.inl (.sPush 0 (by go) 0 (by go)))
  have r := r.step (.inl (.sUnlock 0 (by go) 0 (by go)))
  have r := r.step (.inl (.sNotifyNone 0 (by go) 0 (by go) (by
    intro j; cases j <;> simp [Function.update, init])))
  have r := r.step (.inr (.callWait 0 (by go) (by go) (by go)))
  have r := r.step (.inl (.cLock 0 (by go) (by go)))
  have r := r.step (.inl (.cSleep 0 (by go) (by simp [init])))
  have r := r.step (.inl (.wReturn 0 (by go) 0 (by go)))
  have r := r.step (.inl (.wDecZero 0 (by go) 0 (by go) (by simp [init])))
  have r := r.step (.inl (.wNotifyLock 0 (by go) (by go) (by go)))
  have r := r.step (.inl (.wNoNotify 0 (by go) (by go) (by simp [init])))
  have r := r.step (.inl (.wNotifyUnlock 0 (by go) (by go)))
  have r := r.step (.inl (.wLock 0 (by go) (by go) (by go)))
  have r := r.step (.inl (.wPass 0 (by go) (by go) (by simp [init])))
  have r := r.step (.inl (.wPop 0 (by go) (by go) (by simp [init]) 1 [] (by go)))
  have r := r.step (.inl (.wInc 0 (by go) 1 (by go)))
  have r := r.step (.inl (.wUnlock 0 (by go) 1 (by go)))
  have r := r.step (.inl (.wThrow 0 (by go) 1 (by go)))
  have r := r.step (.inl (.wRecord 0 (by go) 1 (by go)))
  have r := r.step (.inl (.wNoCallback 0 (by go) 1 (by go) (by go)))
  have r := r.step (.inl (.wDecZero 0 (by go) 1 (by go) (by simp [init])))
  have r := r.step (.inl (.wNotifyLock 0 (by go) (by go) (by go)))
  have r := r.step (.inl (.wNotifyAll 0 (by go) (by go) (by go)))
  have r := r.step (.inl (.wNotifyUnlock 0 (by go) (by go)))
  have r := r.step (.inl (.cLock 0 (by go) (by go)))
  have r := r.step (.inl (.cPass 0 (by go) ⟨by go, by simp [init]⟩))
  have r := r.step (.inl (.cReturn 0 (by go)))
  have r := r.step (.inr (.getException 1 [] (by go)))
  have r := r.step (.inr (.callDestructor (by go) (by
    intro c; cases c <;> simp [Function.update, init, wakeClients])))
  have r := r.step (.inl (.dLock (by go) (by go)))
  have r := r.step (.inl (.dStore (by go)))
  have r := r.step (.inl (.dUnlock (by go)))
  have r := r.step (.inl (.dNotify (by go)))
  have r := r.step (.inl (.wLock 0 (by go) (by go) (by go)))
  have r := r.step (.inl (.wPass 0 (by go) (by go) (by go)))
  have r := r.step (.inl (.wExit 0 (by go) (by go) (by go)))
  have r := r.step (.inl (.dJoin 0 (by go) (by go) (by go)))
  have r := r.step (.inl (.dDone (by go)))
  exact ⟨_, r, by simp [init]⟩

/-- The hypotheses of the theorems above are met by the final state of the run: a `wait_for_tasks` that
returned, a destructor that returned, a task that threw, an exception fetched. -/
example : ∃ (s : State) (p q post pre : List Event), Reachable 1 1 s ∧
    s.trace = p ++ Event.waitCall 0 :: (q ++ Event.waitReturn 0 :: post) ∧ Event.waitCall 0 ∉ q ∧
    enqueued p = [0, 1] ∧ s.trace = pre ++ [Event.dtorReturn] ∧ started s.trace = [0, 1] ∧
    failed s.trace = [1] ∧ captured s.trace = [1] := by
  obtain ⟨s, h, ht⟩ := sample_run
  refine ⟨s, [.enq 0, .start 0 0, .enq 1], [.ended 0 0 false, .start 0 1, .ended 0 1 true, .recorded 1],
    [.gotException (some 1), .dtorCall, .dtorReturn], _, h, ht, by decide, rfl,
    ht.trans (List.dropLast_append_getLast (by simp)).symm, ?_, ?_, ?_⟩ <;> rw [ht] <;> rfl

/-- A state with a sleeping worker and a queued task, with the notification still to come. -/
example : ∃ s, Reachable 2 1 s ∧ (∃ i, s.wpc i = .sleeping) ∧ s.tasks.length = 1 := by
  have r := Reachable.init (N := 2) (M := 1)
  have r := r.step (.inl (.wLock 0 (by go) (by go) (by go)))
  have r := r.step (.inl (.wSleep 0 (by go) (by go) (by go)))
  have r := r.step (.inr (.callEnqueue 0 (by go) (by go) (by go)))
  have r := r.step (.inl (.eLock 0 (by go) (by go)))
  have r := r.step (.inl (.ePush 0 (by go)))
  exact ⟨_, r, ⟨0, rfl⟩, rfl⟩

/-- A state in which no thread can take a step: the worker sleeps and nothing was ever enqueued. -/
example : ∃ s, Reachable 1 1 s ∧ ∀ s', ¬ Internal 1 s s' := by
  have r := Reachable.init (N := 1) (M := 1)
  have r := r.step (.inl (.wLock 0 (by go) (by go) (by go)))
  have r := r.step (.inl (.wSleep 0 (by go) (by go) (by go)))
  refine ⟨_, r, ?_⟩
  intro s' hs
  cases hs <;> rename_i h1 <;> simp_all [init, Function.update] 

end Verif.Pool
