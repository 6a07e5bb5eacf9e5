import Verif.Pool.Inv
import Mathlib.Data.List.Nodup

set_option autoImplicit false

namespace Verif.Pool

theorem enqueued_append (a b : List Event) : enqueued (a ++ b) = enqueued a ++ enqueued b := by
  simp [enqueued]
theorem started_append (a b : List Event) : started (a ++ b) = started a ++ started b := by
  simp [started]
theorem finished_append (a b : List Event) : finished (a ++ b) = finished a ++ finished b := by
  simp [finished]
theorem failed_append (a b : List Event) : failed (a ++ b) = failed a ++ failed b := by
  simp [failed]
theorem captured_append (a b : List Event) : captured (a ++ b) = captured a ++ captured b := by
  simp [captured]
theorem calledBack_append (a b : List Event) : calledBack (a ++ b) = calledBack a ++ calledBack b := by
  simp [calledBack]

theorem mem_started {tr : List Event} {t : Nat} : t ∈ started tr ↔ ∃ w, Event.start w t ∈ tr := by
  simp only [started, List.mem_filterMap]
  constructor
  · rintro ⟨e, he, h⟩
    cases e <;> simp at h
    subst h
    exact ⟨_, he⟩
  · rintro ⟨w, h⟩
    exact ⟨_, h, rfl⟩

theorem mem_finished {tr : List Event} {t : Nat} : t ∈ finished tr ↔ ∃ w b, Event.ended w t b ∈ tr := by
  simp only [finished, List.mem_filterMap]
  constructor
  · rintro ⟨e, he, h⟩
    cases e <;> simp at h
    subst h
    exact ⟨_, _, he⟩
  · rintro ⟨w, b, h⟩
    exact ⟨_, h, rfl⟩

theorem start_unique {tr : List Event} (hn : (started tr).Nodup) {i j t : Nat}
    (hi : Event.start i t ∈ tr) (hj : Event.start j t ∈ tr) : i = j := by
  induction tr with
  | nil => simp at hi
  | cons e tr ih =>
    rcases List.mem_cons.1 hi with h1 | h1 <;> rcases List.mem_cons.1 hj with h2 | h2
    · rw [← h1] at h2; injection h2 with h2; exact h2.symm
    · subst h1
      simp only [started, List.filterMap_cons, List.nodup_cons] at hn
      exact absurd (mem_started.2 ⟨j, h2⟩) hn.1
    · subst h2
      simp only [started, List.filterMap_cons, List.nodup_cons] at hn
      exact absurd (mem_started.2 ⟨i, h1⟩) hn.1
    · refine ih ?_ h1 h2
      have : (started ([e] ++ tr)).Nodup := hn
      rw [started_append] at this
      exact (List.nodup_append.1 this).2.1

/-- What matters of a worker's program counter for the history of its task. -/
inductive Phase where
  | free
  | body (t : Nat)
  | threw (t : Nat)
  | cb (t : Nat)
  | fin (t : Nat)
  deriving DecidableEq

def WPc.phase : WPc → Phase
  | .popped t | .inced t | .running t | .spawnLock t | .spawnHold t | .spawnRelease t | .spawnNotify t => .body t
  | .threw t => .threw t
  | .callbackCopy t | .callbackRun t => .cb t
  | .finishing t => .fin t
  | _ => .free

def Phase.task : Phase → Option Nat
  | .free => none
  | .body t | .threw t | .cb t | .fin t => some t

def Event.neutral : Event → Bool
  | .enq _ | .start _ _ | .ended _ _ _ | .recorded _ | .callback _ => false
  | _ => true

/-- The steps, as far as tasks and their histories are concerned. -/
inductive Abs (N : Nat) (ph ph' : Nat → Phase) (s s' : State) : Prop
  | silent (h : ph' = ph) (h1 : s'.trace = s.trace) (h2 : s'.tasks = s.tasks) (h3 : s'.nextId = s.nextId)
  | event (e : Event) (he : e.neutral = true) (h : ph' = ph) (h1 : s'.trace = s.trace ++ [e])
      (h2 : s'.tasks = s.tasks) (h3 : s'.nextId = s.nextId)
  | enq (h : ph' = ph) (h1 : s'.trace = s.trace ++ [.enq s.nextId]) (h2 : s'.tasks = s.tasks ++ [s.nextId])
      (h3 : s'.nextId = s.nextId + 1)
  | start (i t : Nat) (hi : i < N) (hp : ph i = .free) (h : ph' = Function.update ph i (.body t))
      (h1 : s'.trace = s.trace ++ [.start i t]) (h2 : s.tasks = t :: s'.tasks) (h3 : s'.nextId = s.nextId)
  | ret (i t : Nat) (hi : i < N) (hp : ph i = .body t) (h : ph' = Function.update ph i (.fin t))
      (h1 : s'.trace = s.trace ++ [.ended i t false]) (h2 : s'.tasks = s.tasks) (h3 : s'.nextId = s.nextId)
  | throw (i t : Nat) (hi : i < N) (hp : ph i = .body t) (h : ph' = Function.update ph i (.threw t))
      (h1 : s'.trace = s.trace ++ [.ended i t true]) (h2 : s'.tasks = s.tasks) (h3 : s'.nextId = s.nextId)
  | record (i t : Nat) (hi : i < N) (hp : ph i = .threw t) (h : ph' = Function.update ph i (.cb t))
      (h1 : s'.trace = s.trace ++ [.recorded t]) (h2 : s'.tasks = s.tasks) (h3 : s'.nextId = s.nextId)
  | callback (i t : Nat) (hi : i < N) (hp : ph i = .cb t) (h : ph' = Function.update ph i (.fin t))
      (h1 : s'.trace = s.trace ++ [.callback t]) (h2 : s'.tasks = s.tasks) (h3 : s'.nextId = s.nextId)
  | leave (i t : Nat) (hi : i < N) (p : Phase) (hp : ph i = .cb t ∧ p = .fin t ∨ ph i = .fin t ∧ p = .free)
      (h : ph' = Function.update ph i p)
      (h1 : s'.trace = s.trace) (h2 : s'.tasks = s.tasks) (h3 : s'.nextId = s.nextId)

def State.ph (s : State) : Nat → Phase := fun j => (s.wpc j).phase

theorem ph_update (s : State) (i : Nat) (x : WPc) :
    (fun j => (Function.update s.wpc i x j).phase) = Function.update s.ph i x.phase := by
  funext j
  by_cases h : j = i
  · subst h; simp
  · simp [h, State.ph]

theorem ph_update_same (s : State) (i : Nat) (x : WPc) (h : x.phase = (s.wpc i).phase) :
    (fun j => (Function.update s.wpc i x j).phase) = s.ph := by
  rw [ph_update, h]; exact Function.update_eq_self i s.ph

theorem ph_wake (s : State) : (fun j => (wakeWorkers s.wpc j).phase) = s.ph := by
  funext j
  simp only [wakeWorkers, State.ph]
  split
  · next h => rw [h]; rfl
  · rfl

theorem abs_of_step {N M : Nat} {s s' : State} (hs : Step N M s s') : Abs N s.ph s'.ph s s' := by
  rcases hs with hs | hs
  · cases hs with
    | wLock i hi hpc => exact .silent (ph_update_same _ _ _ (by rw [hpc]; rfl)) rfl rfl rfl
    | wSleep i hi hpc => exact .silent (ph_update_same _ _ _ (by rw [hpc]; rfl)) rfl rfl rfl
    | wPass i hi hpc => exact .silent (ph_update_same _ _ _ (by rw [hpc]; rfl)) rfl rfl rfl
    | wExit i hi hpc => exact .silent (ph_update_same _ _ _ (by rw [hpc]; rfl)) rfl rfl rfl
    | wPop i hi hpc hp t rest ht =>
      exact .start i t hi (by simp [State.ph, hpc, WPc.phase]) (ph_update _ _ _) rfl ht rfl
    | wInc i hi t hpc => exact .silent (ph_update_same _ _ _ (by rw [hpc]; rfl)) rfl rfl rfl
    | wUnlock i hi t hpc => exact .silent (ph_update_same _ _ _ (by rw [hpc]; rfl)) rfl rfl rfl
    | wReturn i hi t hpc => exact .ret i t hi (by simp [State.ph, hpc, WPc.phase]) (ph_update _ _ _) rfl rfl rfl
    | wThrow i hi t hpc => exact .throw i t hi (by simp [State.ph, hpc, WPc.phase]) (ph_update _ _ _) rfl rfl rfl
    | wRecord i hi t hpc => exact .record i t hi (by simp [State.ph, hpc, WPc.phase]) (ph_update _ _ _) rfl rfl rfl
    | wNoCallback i hi t hpc =>
      exact .leave i t hi (.fin t) (.inl ⟨by simp [State.ph, hpc, WPc.phase], rfl⟩) (ph_update _ _ _) rfl rfl rfl
    | wCallback i hi t hpc => exact .silent (ph_update_same _ _ _ (by rw [hpc]; rfl)) rfl rfl rfl
    | wCallbackDone i hi t hpc =>
      exact .callback i t hi (by simp [State.ph, hpc, WPc.phase]) (ph_update _ _ _) rfl rfl rfl
    | wDecZero i hi t hpc =>
      exact .leave i t hi .free (.inr ⟨by simp [State.ph, hpc, WPc.phase], rfl⟩) (ph_update _ _ _) rfl rfl rfl
    | wDec i hi t hpc =>
      exact .leave i t hi .free (.inr ⟨by simp [State.ph, hpc, WPc.phase], rfl⟩) (ph_update _ _ _) rfl rfl rfl
    | wNotifyLock i hi hpc => exact .silent (ph_update_same _ _ _ (by rw [hpc]; rfl)) rfl rfl rfl
    | wNotifyAll i hi hpc => exact .silent (ph_update_same _ _ _ (by rw [hpc]; rfl)) rfl rfl rfl
    | wNoNotify i hi hpc => exact .silent (ph_update_same _ _ _ (by rw [hpc]; rfl)) rfl rfl rfl
    | wNotifyUnlock i hi hpc => exact .silent (ph_update_same _ _ _ (by rw [hpc]; rfl)) rfl rfl rfl
    | sLock i hi t hpc => exact .silent (ph_update_same _ _ _ (by rw [hpc]; rfl)) rfl rfl rfl
    | sPush i hi t hpc => exact .enq (ph_update_same _ _ _ (by rw [hpc]; rfl)) rfl rfl rfl
    | sUnlock i hi t hpc => exact .silent (ph_update_same _ _ _ (by rw [hpc]; rfl)) rfl rfl rfl
    | sNotify i hi t hpc j hj =>
      refine .silent ?_ rfl rfl rfl
      have h1 := ph_update_same s i (.running t) (by rw [hpc]; rfl)
      funext k
      have h2 := congrFun h1 k
      by_cases hk : k = j
      · subst hk; simp [State.ph, hj, WPc.phase]
      · simpa [State.ph, hk] using h2
    | sNotifyNone i hi t hpc => exact .silent (ph_update_same _ _ _ (by rw [hpc]; rfl)) rfl rfl rfl
    | eLock => exact .silent rfl rfl rfl rfl
    | ePush => exact .enq rfl rfl rfl rfl
    | eUnlock => exact .silent rfl rfl rfl rfl
    | eNotify c hc j hpc => exact .silent (ph_update_same _ _ _ (by rw [hpc]; rfl)) rfl rfl rfl
    | eNotifyNone => exact .silent rfl rfl rfl rfl
    | cLock => exact .silent rfl rfl rfl rfl
    | cSleep => exact .silent rfl rfl rfl rfl
    | cPass => exact .silent rfl rfl rfl rfl
    | cReturn => exact .event _ rfl rfl rfl rfl rfl
    | dLock => exact .silent rfl rfl rfl rfl
    | dStore => exact .silent rfl rfl rfl rfl
    | dUnlock => exact .silent rfl rfl rfl rfl
    | dNotify => exact .silent (ph_wake s) rfl rfl rfl
    | dJoin => exact .silent rfl rfl rfl rfl
    | dDone => exact .event _ rfl rfl rfl rfl rfl
  · cases hs with
    | callEnqueue => exact .silent rfl rfl rfl rfl
    | callWait => exact .event _ rfl rfl rfl rfl rfl
    | callSpawn i hi t hpc => exact .silent (ph_update_same _ _ _ (by rw [hpc]; rfl)) rfl rfl rfl
    | callDestructor => exact .event _ rfl rfl rfl rfl rfl
    | spuriousWorker i hpc => exact .silent (ph_update_same _ _ _ (by rw [hpc]; rfl)) rfl rfl rfl
    | spuriousClient => exact .silent rfl rfl rfl rfl
    | setCallback => exact .silent rfl rfl rfl rfl
    | getException => exact .event _ rfl rfl rfl rfl rfl
    | getNoException => exact .event _ rfl rfl rfl rfl rfl
    | clearExceptions => exact .event _ rfl rfl rfl rfl rfl

structure InvB (N : Nat) (ph : Nat → Phase) (s : State) : Prop where
  q1 : started s.trace ++ s.tasks = enqueued s.trace
  q2 : enqueued s.trace = List.range s.nextId
  startI : ∀ w t, Event.start w t ∈ s.trace → t ∈ finished s.trace ∨ (w < N ∧ ph w = .body t)
  taskI : ∀ i t, (ph i).task = some t → Event.start i t ∈ s.trace
  busyI : ∀ i t, ph i = .body t → t ∉ finished s.trace
  finI : (finished s.trace).Nodup
  endI : ∀ w t b, Event.ended w t b ∈ s.trace → Event.start w t ∈ s.trace
  capI : ∀ t, t ∈ failed s.trace → t ∈ captured s.trace ∨ ∃ w, w < N ∧ ph w = .threw t
  threwI : ∀ w t, ph w = .threw t → t ∈ failed s.trace ∧ t ∉ captured s.trace
  capN : (captured s.trace).Nodup
  capF : ∀ t, t ∈ captured s.trace → t ∈ failed s.trace
  cbN : (calledBack s.trace).Nodup
  cbC : ∀ t, t ∈ calledBack s.trace → t ∈ captured s.trace
  cbI : ∀ w t, ph w = .cb t → t ∈ captured s.trace ∧ t ∉ calledBack s.trace

theorem nodup_of_range {a b : List Nat} {n : Nat} (h : a ++ b = List.range n) : a.Nodup := by
  have := List.nodup_range (n := n)
  rw [← h] at this
  exact (List.nodup_append.1 this).1

section single
variable (w t : Nat) (b : Bool)
theorem enqueued_enq : enqueued [.enq t] = [t] := rfl
theorem enqueued_start : enqueued [.start w t] = [] := rfl
theorem enqueued_ended : enqueued [.ended w t b] = [] := rfl
theorem enqueued_recorded : enqueued [.recorded t] = [] := rfl
theorem enqueued_callback : enqueued [.callback t] = [] := rfl
theorem started_enq : started [.enq t] = [] := rfl
theorem started_start : started [.start w t] = [t] := rfl
theorem started_ended : started [.ended w t b] = [] := rfl
theorem started_recorded : started [.recorded t] = [] := rfl
theorem started_callback : started [.callback t] = [] := rfl
theorem finished_enq : finished [.enq t] = [] := rfl
theorem finished_start : finished [.start w t] = [] := rfl
theorem finished_ended : finished [.ended w t b] = [t] := rfl
theorem finished_recorded : finished [.recorded t] = [] := rfl
theorem finished_callback : finished [.callback t] = [] := rfl
theorem failed_enq : failed [.enq t] = [] := rfl
theorem failed_start : failed [.start w t] = [] := rfl
theorem failed_ended_true : failed [.ended w t true] = [t] := rfl
theorem failed_ended_false : failed [.ended w t false] = [] := rfl
theorem failed_recorded : failed [.recorded t] = [] := rfl
theorem failed_callback : failed [.callback t] = [] := rfl
theorem captured_enq : captured [.enq t] = [] := rfl
theorem captured_start : captured [.start w t] = [] := rfl
theorem captured_ended : captured [.ended w t b] = [] := rfl
theorem captured_recorded : captured [.recorded t] = [t] := rfl
theorem captured_callback : captured [.callback t] = [] := rfl
theorem calledBack_enq : calledBack [.enq t] = [] := rfl
theorem calledBack_start : calledBack [.start w t] = [] := rfl
theorem calledBack_ended : calledBack [.ended w t b] = [] := rfl
theorem calledBack_recorded : calledBack [.recorded t] = [] := rfl
theorem calledBack_callback : calledBack [.callback t] = [t] := rfl
end single

theorem neutral_nil {e : Event} (he : e.neutral = true) :
    enqueued [e] = [] ∧ started [e] = [] ∧ finished [e] = [] ∧ failed [e] = [] ∧ captured [e] = [] ∧
      calledBack [e] = [] := by
  cases e <;> simp [Event.neutral] at he <;> exact ⟨rfl, rfl, rfl, rfl, rfl, rfl⟩

theorem neutral_mem {e : Event} (he : e.neutral = true) {tr : List Event} :
    (∀ w t, Event.start w t ∈ tr ++ [e] ↔ Event.start w t ∈ tr) ∧
    (∀ w t b, Event.ended w t b ∈ tr ++ [e] ↔ Event.ended w t b ∈ tr) := by
  cases e <;> simp [Event.neutral] at he <;> simp

theorem capI_of {N : Nat} {ph : Nat → Phase} {F C : List Nat}
    (h8 : ∀ t ∈ F, t ∈ C ∨ ∃ w, w < N ∧ ph w = .threw t) {i : Nat} {x : Phase} (hp : ∀ t, ph i ≠ .threw t) :
    ∀ t ∈ F, t ∈ C ∨ ∃ w, w < N ∧ Function.update ph i x w = .threw t := by
  intro t ht
  rcases h8 t ht with h | ⟨w, hw, hw'⟩
  · exact .inl h
  · refine .inr ⟨w, hw, ?_⟩
    rw [Function.update_of_ne (by rintro rfl; exact hp t hw')]
    exact hw'

set_option maxHeartbeats 1000000 in
theorem invB {N M : Nat} {s : State} (h : Reachable N M s) : InvB N s.ph s := by
  induction h with
  | init =>
    have hp : ∀ i, (init N).ph i = .free := by
      intro i; simp only [State.ph, init]; split <;> rfl
    constructor <;> (try simp only [hp]) <;>
      simp [Phase.task, init, started, enqueued, finished, failed, captured, calledBack]
  | @step s s' hr hs ih =>
    have hn := nodup_of_range (ih.q1.trans ih.q2)
    have uniq : ∀ i j t, (s.ph i).task = some t → (s.ph j).task = some t → i = j :=
      fun i j t hi hj => start_unique hn (ih.taskI i t hi) (ih.taskI j t hj)
    have ub : ∀ i j t, s.ph i = .body t → s.ph j = .body t → i = j :=
      fun i j t hi hj => uniq i j t (by rw [hi]; rfl) (by rw [hj]; rfl)
    have ut : ∀ i j t, s.ph i = .threw t → s.ph j = .threw t → i = j :=
      fun i j t hi hj => uniq i j t (by rw [hi]; rfl) (by rw [hj]; rfl)
    have uc : ∀ i j t, s.ph i = .cb t → s.ph j = .cb t → i = j :=
      fun i j t hi hj => uniq i j t (by rw [hi]; rfl) (by rw [hj]; rfl)
    have hb : ∀ i t, s.ph i = .body t → Event.start i t ∈ s.trace := fun i t h => ih.taskI i t (by rw [h]; rfl)
    have hfs : ∀ t, t ∈ finished s.trace → t ∈ started s.trace := by
      intro t ht
      obtain ⟨w, b, h⟩ := mem_finished.1 ht
      exact mem_started.2 ⟨w, ih.endI w t b h⟩
    have hnew : ∀ t rest, s.tasks = t :: rest → t ∉ started s.trace := by
      intro t rest ht hmem
      have hd := List.nodup_range (n := s.nextId)
      rw [← ih.q2, ← ih.q1, ht] at hd
      exact (List.nodup_append.1 hd).2.2 t hmem t (by simp) rfl
    have hff : ∀ t, t ∈ failed s.trace → t ∈ finished s.trace := by
      intro t ht
      simp only [failed, List.mem_filterMap] at ht
      obtain ⟨e, he, h⟩ := ht
      cases e with
      | ended w t' b =>
        cases b <;> simp at h
        subst h
        exact mem_finished.2 ⟨_, _, he⟩
      | _ => simp at h
    obtain ⟨h1, h2, h3, h4, h5, h6, h7, h8, h9, h10, h11, h12, h13, h14⟩ := ih
    have ha := abs_of_step hs
    generalize hph : s.ph = ph at *
    generalize hph' : s'.ph = ph' at *
    cases ha with
    | silent h e1 e2 e3 => subst h; constructor <;> simp only [e1, e2, e3] <;> assumption
    | event e he h e1 e2 e3 =>
      subst h
      obtain ⟨n1, n2, n3, n4, n5, n6⟩ := neutral_nil he
      constructor <;> simp only [e1, e2, e3, started_append, enqueued_append, finished_append, failed_append,
        captured_append, calledBack_append, n1, n2, n3, n4, n5, n6, List.append_nil, (neutral_mem he).1,
        (neutral_mem he).2] <;> assumption
    | enq h e1 e2 e3 =>
      subst h
      constructor <;> simp only [e1, e2, e3, started_append, enqueued_append, finished_append, failed_append,
        captured_append, calledBack_append, enqueued_enq, started_enq, finished_enq, failed_enq, captured_enq,
        calledBack_enq, List.append_nil] <;> first | assumption | grind [List.range_succ]
    | start i t hi hp h e1 e2 e3 =>
      subst h
      constructor <;> simp only [e1, e3, started_append, enqueued_append, finished_append, failed_append,
        captured_append, calledBack_append, enqueued_start, started_start, finished_start, failed_start, captured_start,
        calledBack_start, List.append_nil] <;> first
        | assumption
        | exact capI_of h8 (by simp [hp])
        | grind [Phase.task]
    | ret i t hi hp h e1 e2 e3 =>
      subst h
      constructor <;> simp only [e1, e2, e3, started_append, enqueued_append, finished_append, failed_append,
        captured_append, calledBack_append, enqueued_ended, started_ended, finished_ended, failed_ended_false,
        captured_ended, calledBack_ended, List.append_nil] <;> first
        | assumption
        | exact capI_of h8 (by simp [hp])
        | grind [Phase.task]
    | throw i t hi hp h e1 e2 e3 =>
      subst h
      constructor <;> simp only [e1, e2, e3, started_append, enqueued_append, finished_append, failed_append,
        captured_append, calledBack_append, enqueued_ended, started_ended, finished_ended, failed_ended_true,
        captured_ended, calledBack_ended, List.append_nil] <;> first
        | assumption
        | (intro t' ht'
           rcases List.mem_append.1 ht' with h | h
           · exact capI_of h8 (by simp [hp]) t' h
           · exact .inr ⟨i, hi, by rw [Function.update_self, List.mem_singleton.1 h]⟩)
        | grind [Phase.task]
    | record i t hi hp h e1 e2 e3 =>
      subst h
      constructor <;> simp only [e1, e2, e3, started_append, enqueued_append, finished_append, failed_append,
        captured_append, calledBack_append, enqueued_recorded, started_recorded, finished_recorded, failed_recorded,
        captured_recorded, calledBack_recorded, List.append_nil] <;> first
        | assumption
        | (intro t' ht'
           rcases h8 t' ht' with h | ⟨w, hw, hw'⟩
           · exact .inl (List.mem_append.2 (.inl h))
           · by_cases hwi : w = i
             · subst hwi
               have : t = t' := by rw [hp] at hw'; injection hw'
               exact .inl (List.mem_append.2 (.inr (by rw [this]; exact List.mem_singleton.2 rfl)))
             · exact .inr ⟨w, hw, by rw [Function.update_of_ne hwi]; exact hw'⟩)
        | grind [Phase.task]
    | callback i t hi hp h e1 e2 e3 =>
      subst h
      constructor <;> simp only [e1, e2, e3, started_append, enqueued_append, finished_append, failed_append,
        captured_append, calledBack_append, enqueued_callback, started_callback, finished_callback, failed_callback,
        captured_callback, calledBack_callback, List.append_nil] <;> first
        | assumption
        | exact capI_of h8 (by simp [hp])
        | grind [Phase.task]
    | leave i t hi p hp h e1 e2 e3 =>
      subst h
      constructor <;> (try simp only [e1, e2, e3]) <;> first
        | assumption
        | exact capI_of h8 (by rcases hp with hp | hp <;> simp [hp])
        | grind [Phase.task]

end Verif.Pool
