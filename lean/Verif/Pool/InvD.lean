import Verif.Pool.InvC

set_option autoImplicit false

namespace Verif.Pool

theorem append_single_cases {α : Type} {tr pre post : List α} {e x : α} (h : tr ++ [e] = pre ++ x :: post) :
    (post = [] ∧ pre = tr ∧ x = e) ∨ ∃ post', tr = pre ++ x :: post' ∧ post = post' ++ [e] := by
  rcases List.eq_nil_or_concat post with rfl | ⟨q, y, rfl⟩
  · have := List.append_inj' h rfl
    exact .inl ⟨rfl, this.1.symm, by have := this.2; simp at this; exact this.symm⟩
  · refine .inr ⟨q, ?_⟩
    have h' : tr ++ [e] = (pre ++ x :: q) ++ [y] := by simpa [List.concat_eq_append] using h
    have := List.append_inj' h' rfl
    have h2 := this.2
    simp at h2
    exact ⟨this.1, by rw [h2, List.concat_eq_append]⟩

/-- What each step adds to the trace. -/
theorem step_trace {N M : Nat} {s s' : State} (hs : Step N M s s') :
    s'.trace = s.trace ∨ ∃ e, s'.trace = s.trace ++ [e] ∧
      (∀ c, e = .waitReturn c → s.cpc c = .waitRelease) ∧ (e = .dtorReturn → s.dpc = .join N) ∧
      (∀ o, e = .gotException o → o = s.exceptions.head?) ∧
      ((∃ w t, e = .start w t) ∨ (∃ t, e = .enq t) ∨ (∃ w t b, e = .ended w t b) → s.dpc = .done →
        ∃ i, (i < N ∧ s.wpc i ≠ .exited) ∨ ∃ c, s.cpc c ≠ .idle) := by
  rcases hs with hs | hs <;> cases hs <;>
    first
      | exact .inl rfl
      | (refine .inr ⟨_, rfl, ?_, ?_, ?_, ?_⟩
         · intro c h; first | (injection h with h; subst h; assumption) | (cases h; done)
         · intro h; first | (cases h; done) | assumption
         · intro o h; first | (injection h with h; subst h; rename_i h1; rw [h1]; rfl) | (cases h; done)
         · intro h _
           first
            | (simp at h; done)
            | exact ⟨_, .inl ⟨by assumption, by simp [*]⟩⟩
            | (rename_i h1 _; exact ⟨0, .inr ⟨_, by rw [h1]; simp⟩⟩))

theorem InWait.snoc {c : Nat} {tr : List Event} (h : InWait c tr) {e : Event} (h1 : e ≠ .waitCall c)
    (h2 : e ≠ .waitReturn c) : InWait c (tr ++ [e]) := by
  obtain ⟨p, q, rfl, a, b⟩ := h
  exact ⟨p, q ++ [e], by simp, by simp [a, h1.symm], by simp [b, h2.symm]⟩

theorem Passed.snoc {c : Nat} {tr : List Event} (h : Passed c tr) {e : Event} (h1 : e ≠ .waitCall c)
    (h2 : e ≠ .waitReturn c) : Passed c (tr ++ [e]) := by
  obtain ⟨p, a, b, rfl, ha, hb, hq⟩ := h
  refine ⟨p, a, b ++ [e], by simp, ?_, ?_, hq⟩
  · rw [← List.append_assoc]; simp only [List.mem_append] at *; simp [ha, h1.symm]
  · rw [← List.append_assoc]; simp only [List.mem_append] at *; simp [hb, h2.symm]

/-- A client inside `wait_for_tasks` has called it. -/
theorem inWait {N M : Nat} {s : State} (h : Reachable N M s) :
    ∀ c, (s.cpc c).waiting = true → InWait c s.trace := by
  induction h with
  | init => intro c hc; cases hc
  | @step s s' hr hs ih =>
    rcases hs with hs | hs <;> cases hs <;> intro c hc <;> dsimp only at hc ⊢
    case inr.callWait c' hc' hpc hd =>
      by_cases hcc : c = c'
      · subst hcc
        exact ⟨s.trace, [], rfl, by simp, by simp⟩
      · rw [Function.update_of_ne hcc] at hc
        exact (ih c hc).snoc (by simpa using fun h => hcc h.symm) (by simp)
    case inl.cReturn c' hpc =>
      by_cases hcc : c = c'
      · subst hcc
        rw [Function.update_self] at hc; cases hc
      · rw [Function.update_of_ne hcc] at hc
        exact (ih c hc).snoc (by simp) (by simpa using fun h => hcc h.symm)
    case inl.wNotifyAll =>
      refine ih c ?_
      simp only [wakeClients] at hc
      split at hc
      · next h => rw [h]; rfl
      · exact hc
    all_goals
      have hc' : (s.cpc c).waiting = true := by
        first
          | exact hc
          | (simp only [Function.update_apply] at hc
             split at hc
             · next h => subst h; first | (cases hc; done) | (simp only [*]; rfl)
             · exact hc)
      first
        | exact ih c hc'
        | exact (ih c hc').snoc (by simp) (by simp)

theorem quiescent_of {N M : Nat} {s : State} (h : Reachable N M s) (ht : s.tasks = [])
    (hb : ∀ i, i < N → ∀ t, s.ph i ≠ .body t ∧ s.ph i ≠ .threw t) : Quiescent s.trace := by
  have hB := invB h
  constructor
  · intro t hmem
    rw [← hB.q1, ht, List.append_nil] at hmem
    obtain ⟨w, hw⟩ := mem_started.1 hmem
    rcases hB.startI w t hw with h | ⟨h1, h2⟩
    · exact h
    · exact absurd h2 (hb w h1 t).1
  · intro t hmem
    rcases hB.capI t hmem with h | ⟨w, h1, h2⟩
    · exact h
    · exact absurd h2 (hb w h1 t).2

/-- When the counter is zero, the queue empty, and no worker holds the mutex, everything has ended. -/
theorem quiescent_of_zero {N M : Nat} {s : State} (h : Reachable N M s) (ht : s.tasks = [])
    (hz : s.inFlight = 0) (hm : ∀ i, s.mutex ≠ some (.worker i)) : Quiescent s.trace := by
  refine quiescent_of h ht fun i hi t => ?_
  have hnc : (s.wpc i).counted ≠ true := by
    intro hc
    have := cnt_pos_iff.2 ⟨i, hi, hc⟩
    rw [← flight h, hz] at this
    exact absurd this (by decide)
  have hnh : (s.wpc i).holds ≠ true := fun hc => hm i (((invA h).mw i).1 hc)
  simp only [State.ph]
  cases hp : s.wpc i <;> rw [hp] at hnc hnh <;> simp_all [WPc.phase, WPc.counted, WPc.holds]

theorem InWait.passed {c : Nat} {tr : List Event} (h : InWait c tr) (hq : Quiescent tr) : Passed c tr := by
  obtain ⟨p, q, rfl, h1, h2⟩ := h
  exact ⟨p, q, [], by simp, by simpa using h1, by simpa using h2, hq⟩

theorem passed {N M : Nat} {s : State} (h : Reachable N M s) :
    ∀ c, s.cpc c = .waitRelease → Passed c s.trace := by
  induction h with
  | init => intro c hc; cases hc
  | @step s s' hr hs ih =>
    have hA := invA hr
    rcases hs with hs | hs <;> cases hs <;> intro c hc <;> dsimp only at hc ⊢
    case inl.cPass c' hpc hp =>
      by_cases hcc : c = c'
      · subst hcc
        have hm : s.mutex = some (.client c) := (hA.mc c).1 (by rw [hpc]; rfl)
        refine (inWait hr c (by rw [hpc]; rfl)).passed
          (quiescent_of_zero hr hp.1 hp.2 fun i hi => ?_)
        rw [hm] at hi; cases hi
      · rw [Function.update_of_ne hcc] at hc
        exact ih c hc
    case inr.callWait c' hc' hpc hd =>
      by_cases hcc : c = c'
      · subst hcc
        rw [Function.update_self] at hc; cases hc
      · rw [Function.update_of_ne hcc] at hc
        exact (ih c hc).snoc (by simpa using fun h => hcc h.symm) (by simp)
    case inl.cReturn c' hpc =>
      by_cases hcc : c = c'
      · subst hcc
        rw [Function.update_self] at hc; cases hc
      · rw [Function.update_of_ne hcc] at hc
        exact (ih c hc).snoc (by simp) (by simpa using fun h => hcc h.symm)
    case inl.wNotifyAll =>
      refine ih c ?_
      simp only [wakeClients] at hc
      split at hc
      · cases hc
      · exact hc
    all_goals
      have hc' : s.cpc c = .waitRelease := by
        first
          | exact hc
          | (simp only [Function.update_apply] at hc
             split at hc
             · cases hc
             · exact hc)
      first
        | exact ih c hc'
        | exact (ih c hc').snoc (by simp) (by simp)

/-- Every return of `wait_for_tasks` was preceded by an instant of quiescence after its call. -/
theorem barrier {N M : Nat} {s : State} (h : Reachable N M s) :
    ∀ pre c post, s.trace = pre ++ Event.waitReturn c :: post → Passed c pre := by
  induction h with
  | init => intro pre c post h; simp [init] at h
  | @step s s' hr hs ih =>
    intro pre c post htr
    rcases step_trace hs with h | ⟨e, h, hret, -⟩
    · exact ih pre c post (h ▸ htr)
    · rw [h] at htr
      rcases append_single_cases htr with ⟨rfl, rfl, he⟩ | ⟨post', h1, -⟩
      · exact passed hr c (hret c he.symm)
      · exact ih pre c post' h1

/-- Workers joined so far have exited. -/
theorem joined {N M : Nat} {s : State} (h : Reachable N M s) :
    (∀ k, s.dpc = .join k → k ≤ N ∧ ∀ i, i < k → s.wpc i = .exited) ∧
      (s.dpc = .done → ∀ i, i < N → s.wpc i = .exited) := by
  induction h with
  | init => exact ⟨(by intro k h; cases h), (by intro h; cases h)⟩
  | @step s s' hr hs ih =>
    obtain ⟨ih1, ih2⟩ := ih
    have key : ∀ s'' : State, s''.dpc = s.dpc → (∀ i, s.wpc i = .exited → s''.wpc i = .exited) →
        (∀ k, s''.dpc = .join k → k ≤ N ∧ ∀ i, i < k → s''.wpc i = .exited) ∧
          (s''.dpc = .done → ∀ i, i < N → s''.wpc i = .exited) := by
      intro s'' hd hw
      rw [hd]
      exact ⟨fun k hk => ⟨(ih1 k hk).1, fun i hi => hw i ((ih1 k hk).2 i hi)⟩, fun h i hi => hw i (ih2 h i hi)⟩
    rcases hs with hs | hs <;> cases hs
    case inl.dLock => exact ⟨(by intro k h; cases h), (by intro h; cases h)⟩
    case inl.dStore => exact ⟨(by intro k h; cases h), (by intro h; cases h)⟩
    case inl.dUnlock => exact ⟨(by intro k h; cases h), (by intro h; cases h)⟩
    case inl.dNotify =>
      refine ⟨?_, by intro h; cases h⟩
      intro k h
      injection h with h
      subst h
      exact ⟨Nat.zero_le _, fun i hi => absurd hi (Nat.not_lt_zero _)⟩
    case inl.dJoin k hpc hk hw =>
      refine ⟨?_, by intro h; cases h⟩
      intro k' h
      injection h with h
      subst h
      refine ⟨hk, fun i hi => ?_⟩
      rcases Nat.lt_succ_iff_lt_or_eq.1 hi with h | rfl
      · exact (ih1 k hpc).2 i h
      · exact hw
    case inl.dDone hpc =>
      exact ⟨(by intro k h; cases h), fun _ => (ih1 N hpc).2⟩
    case inr.callDestructor => exact ⟨(by intro k h; cases h), (by intro h; cases h)⟩
    all_goals
      refine key _ rfl ?_
      intro j hj
      dsimp only
      first
        | exact hj
        | (simp only [Function.update_apply]
           split
           · next h => subst h; first | rfl | (simp_all; done)
           · first
              | exact hj
              | (split
                 · next h => subst h; simp_all; done
                 · exact hj))

theorem quiescent_all_exited {N M : Nat} (hN : 0 < N) {s : State} (h : Reachable N M s)
    (hex : ∀ i, i < N → s.wpc i = .exited) : Quiescent s.trace := by
  refine quiescent_of h ?_ fun i hi t => ?_
  · by_contra hc
    obtain ⟨i, hi, hne⟩ := last hN h hc
    exact hne (hex i hi)
  · simp [State.ph, hex i hi, WPc.phase]

theorem dtor_return {N M : Nat} (hN : 0 < N) {s : State} (h : Reachable N M s) :
    (Event.dtorReturn ∈ s.trace → s.dpc = .done) ∧
    ∀ pre post, s.trace = pre ++ Event.dtorReturn :: post →
      Quiescent pre ∧ started post = [] ∧ enqueued post = [] ∧ finished post = [] := by
  induction h with
  | init => exact ⟨by simp [init], by intro pre post h; simp [init] at h⟩
  | @step s s' hr hs ih =>
    have hmono : s.dpc = .done → s'.dpc = .done := by
      intro hd
      rcases hs with hs | hs <;> cases hs <;> simp_all
    rcases step_trace hs with h | ⟨e, h, -, hret, -, hen⟩
    · rw [h]
      exact ⟨fun hm => hmono (ih.1 hm), ih.2⟩
    · rw [h]
      constructor
      · intro hm
        rcases List.mem_append.1 hm with hm | hm
        · exact hmono (ih.1 hm)
        · have he : e = .dtorReturn := (List.mem_singleton.1 hm).symm
          have hd := hret he
          subst he
          rcases hs with hs | hs <;> cases hs <;> simp_all
      · intro pre post htr
        rcases append_single_cases htr with ⟨rfl, rfl, he⟩ | ⟨post', h1, h2⟩
        · refine ⟨?_, rfl, rfl, rfl⟩
          exact quiescent_all_exited hN hr ((joined hr).1 N (hret he.symm)).2
        · obtain ⟨hq, a, b, c⟩ := ih.2 pre post' h1
          have hdone : s.dpc = .done := ih.1 (by rw [h1]; simp)
          have hno : ¬ ((∃ w t, e = .start w t) ∨ (∃ t, e = .enq t) ∨ (∃ w t b, e = .ended w t b)) := by
            intro hx
            obtain ⟨i, ⟨hi, hne⟩ | ⟨c, hc⟩⟩ := hen hx hdone
            · exact hne ((joined hr).2 hdone i hi)
            · exact hc ((invA hr).dtor (by rw [hdone]; simp) c)
          refine ⟨hq, ?_, ?_, ?_⟩
          · rw [h2, started_append, a]; cases e <;> simp_all [started]
          · rw [h2, enqueued_append, b]; cases e <;> simp_all [enqueued]
          · rw [h2, finished_append, c]; cases e <;> simp_all [finished]

theorem available_snoc (tr : List Event) (e : Event) : available (tr ++ [e]) =
    (match e with
    | .recorded t => available tr ++ [t]
    | .gotException _ => (available tr).tail
    | .cleared => []
    | _ => available tr) := by
  cases e <;> simp [available]

theorem exceptions_eq {N M : Nat} {s : State} (h : Reachable N M s) : s.exceptions = available s.trace := by
  induction h with
  | init => rfl
  | @step s s' hr hs ih =>
    rcases hs with hs | hs <;> cases hs <;> first
      | exact ih
      | (rename_i h; rw [available_snoc]; dsimp only; rw [← ih, h]; rfl)
      | (rw [available_snoc]; dsimp only; rw [← ih])
      | (rw [available_snoc])

theorem got_exception {N M : Nat} {s : State} (h : Reachable N M s) :
    ∀ pre o post, s.trace = pre ++ Event.gotException o :: post → o = (available pre).head? := by
  induction h with
  | init => intro pre c post h; simp [init] at h
  | @step s s' hr hs ih =>
    intro pre o post htr
    rcases step_trace hs with h | ⟨e, h, -, -, hret, -⟩
    · exact ih pre o post (h ▸ htr)
    · rw [h] at htr
      rcases append_single_cases htr with ⟨rfl, rfl, he⟩ | ⟨post', h1, -⟩
      · rw [← exceptions_eq hr]; exact hret o he.symm
      · exact ih pre o post' h1

end Verif.Pool
