import Verif.ODE.StepperLemmas
import Mathlib.Tactic.ComputeDegree
import Mathlib.Tactic.LinearCombination

/-! # Helper lemmas: one attempt of each stepper, sessions, dense output -/

set_option autoImplicit false

namespace Verif.ODE

open Outcome

variable {n : ℕ}

theorem fdiv_pos (a : ℝ) {b : ℝ} (h : b ≠ 0) : Interp.fdiv a b = .ret (a / b) := by
  rw [Interp.fdiv, if_neg h]

/-- The state of a stepper with FSAL: a stored derivative is the one at the current point. -/
def Ready (f : ℝ → (Fin n → ℝ) → Fin n → ℝ) (s : Stepper) (t : ℝ) (x : Fin n → ℝ) : Prop :=
  s.n = n ∧ (s.haveFSAL = true → s.last = List.ofFn (f t x))

theorem Ready.start {f : ℝ → (Fin n → ℝ) → Fin n → ℝ} {s : Stepper} {t : ℝ} {x : Fin n → ℝ}
    (h : Ready f s t x) (b : Bool) :
    (if b && s.haveFSAL then s.last else List.ofFn (f t x)) = List.ofFn (f t x) := by
  cases hb : b <;> cases hF : s.haveFSAL <;> simp
  exact h.2 hF

/-- What an accepting attempt leaves behind. -/
structure Accepted (f : ℝ → (Fin n → ℝ) → Fin n → ℝ) (clc : Calc) (sys : System) (t : ℝ)
    (x : Fin n → ℝ) (h : ℝ) (r : Stepped) (o last : Fin n → ℝ) : Prop where
  nn : r.st.n = n
  acc : r.res.accepted = true
  done : r.res.hDone = h
  rx : r.x = List.ofFn o
  rd : r.dxdt = List.ofFn last
  clc : ∃ e : Fin n → ℝ, clc sys t (List.ofFn x) (List.ofFn (f t x)) h (zeros n) (zeros n)
    = .ret (List.ofFn o, List.ofFn e)
  first : r.st.first = List.ofFn (f t x)
  last : r.st.last = List.ofFn last
  xOld : r.st.xOld = List.ofFn x
  xEnd : r.st.xEnd = List.ofFn o
  tOld : r.st.tOld = t
  hDone : r.st.hDone = h
  ready : r.st.stepReady = true

theorem passes_iff {clc : Calc} {sys : System} {f : ℝ → (Fin n → ℝ) → Fin n → ℝ} {eps t : ℝ}
    {x : Fin n → ℝ} {h m : ℝ} {o e : Fin n → ℝ} (heps : 0 < eps)
    (hc : clc sys t (List.ofFn x) (List.ofFn (f t x)) h (zeros n) (zeros n)
      = .ret (List.ofFn o, List.ofFn e)) (hm : Largest x (f t x) e h m) :
    Passes clc sys f eps t x h ↔ m / eps ≤ 1 := by
  rw [hm.test heps]
  constructor
  · rintro ⟨o', e', h1, h2⟩ i
    rw [hc] at h1
    have h3 : List.ofFn e = List.ofFn e' := (Prod.mk.inj (Outcome.ret.inj h1)).2
    rw [List.ofFn_injective h3]
    exact h2 i
  · intro h1
    exact ⟨o, e, hc, h1⟩

section

variable {sys : System} {f : ℝ → (Fin n → ℝ) → Fin n → ℝ} (hs : Computes sys f)
include hs

theorem dp5Attempt_cases {s : Stepper} {t : ℝ} {x : Fin n → ℝ} (hr : Ready f s t x) {eps : ℝ}
    (heps : eps ≠ 0) (b : Bool) (h : ℝ) :
    ∃ (o e : Fin n → ℝ) (m : ℝ),
      dp5Step sys t (List.ofFn x) (List.ofFn (f t x)) h (zeros n) (zeros n) = .ret (List.ofFn o, List.ofFn e) ∧
      Largest x (f t x) e h m ∧
      (m / eps ≤ 1 → ∃ r, dp5Attempt sys s t (List.ofFn x) (List.ofFn (f t x)) eps b h = .ret (.inl r) ∧
        Accepted f dp5Step sys t x h r o (f (t + h) o) ∧
        ∃ g, 2 / 10 ≤ g ∧ g ≤ 10 ∧ r.res.hNext = h * g) ∧
      (1 < m / eps → ∃ c, 2 / 10 ≤ c ∧ c ≤ 9 / 10 ∧
        dp5Attempt sys s t (List.ofFn x) (List.ofFn (f t x)) eps b h = .ret (.inr (h * c))) := by
  obtain ⟨o, e, m, h1, h2, h3⟩ := dp5_tries sys f hs t x h
  have ho : o = dp5T.step dp5T.b f t x h := by
    rw [dp5Step_eq hs t x h (zeros_length n) (zeros_length n)] at h1
    exact (List.ofFn_injective (Prod.mk.inj (Outcome.ret.inj h1)).1).symm
  refine ⟨o, e, m, h1, h3, fun hm => ?_, fun hm => ?_⟩
  · refine ⟨⟨{ s with first := List.ofFn (f t x), last := List.ofFn (f (t + h) o), xOld := List.ofFn x, xEnd := List.ofFn o, tOld := t, hDone := h, stepReady := true, haveFSAL := true, errOld := max (m / eps) (1 / 10 ^ 4) },
        List.ofFn o, List.ofFn (f (t + h) o),
        ⟨true, h, h * growth (2 / 10) 10 (9 / 10) (17 / 100) (m / eps) (s.errOld ^ (4 / 100 : ℝ)), m / eps⟩⟩, ?_,
      ⟨hr.1, rfl, rfl, rfl, rfl, ⟨e, h1⟩, rfl, rfl, rfl, rfl, rfl, rfl, rfl⟩,
      _, (growth_bounds (9 / 10) (17 / 100) (m / eps) (s.errOld ^ (4 / 100 : ℝ)) (by norm_num)).1,
      (growth_bounds _ _ _ _ (by norm_num)).2, rfl⟩
    rw [dp5Attempt, hr.start b, hr.1, h2, Outcome.bind_ret, fdiv_pos _ heps, Outcome.bind_ret, if_pos hm, ho]
  · obtain ⟨h4, h5⟩ := shrink_bounds (a := 17 / 100) (by norm_num) hm
    refine ⟨_, h4, h5, ?_⟩
    rw [dp5Attempt, hr.start b, hr.1, h2, Outcome.bind_ret, fdiv_pos _ heps, Outcome.bind_ret,
      if_neg (not_le.mpr hm)]

theorem ckAttempt_cases {s : Stepper} {t : ℝ} {x : Fin n → ℝ} (hn : s.n = n) {eps : ℝ}
    (heps : eps ≠ 0) (b : Bool) (h : ℝ) :
    ∃ (o e : Fin n → ℝ) (m : ℝ),
      ckStep sys t (List.ofFn x) (List.ofFn (f t x)) h (zeros n) (zeros n) = .ret (List.ofFn o, List.ofFn e) ∧
      Largest x (f t x) e h m ∧
      (m / eps ≤ 1 → ∃ r, ckAttempt sys s t (List.ofFn x) (List.ofFn (f t x)) eps b h = .ret (.inl r) ∧
        Accepted f ckStep sys t x h r o (f (t + h) o) ∧
        ∃ g, 9 / 10 ≤ g ∧ g ≤ 5 ∧ r.res.hNext = h * g) ∧
      (1 < m / eps → ∃ c, 1 / 10 ≤ c ∧ c ≤ 9 / 10 ∧
        ckAttempt sys s t (List.ofFn x) (List.ofFn (f t x)) eps b h = .ret (.inr (h * c))) := by
  obtain ⟨o, e, m, h1, h2, h3⟩ := ck_tries sys f hs t x h
  refine ⟨o, e, m, h1, h3, fun hm => ?_, fun hm => ?_⟩
  · obtain ⟨g, h4, h5, h6⟩ := ckNext_eq (h := h) hm
    refine ⟨⟨{ s with first := List.ofFn (f t x), last := List.ofFn (f (t + h) o), xOld := List.ofFn x, xEnd := List.ofFn o, tOld := t, hDone := h, stepReady := true },
        List.ofFn o, List.ofFn (f (t + h) o), ⟨true, h, ckNext h (m / eps), m / eps⟩⟩, ?_,
      ⟨hn, rfl, rfl, rfl, rfl, ⟨e, h1⟩, rfl, rfl, rfl, rfl, rfl, rfl, rfl⟩, g, h4, h5, h6⟩
    rw [ckAttempt, hn, h2, Outcome.bind_ret, fdiv_pos _ heps, Outcome.bind_ret, if_pos hm,
      hs.2 _ _ _ (by simp), Outcome.bind_ret]
  · obtain ⟨c, h4, h5, h6⟩ := ckReduce_eq (h := h) hm
    refine ⟨c, h4, h5, ?_⟩
    rw [ckAttempt, hn, h2, Outcome.bind_ret, fdiv_pos _ heps, Outcome.bind_ret,
      if_neg (not_le.mpr hm), h6]

theorem dp8Attempt_cases {s : Stepper} {t : ℝ} {x : Fin n → ℝ} (hr : Ready f s t x) {eps : ℝ}
    (heps : eps ≠ 0) (b : Bool) (h : ℝ) :
    ∃ (o e : Fin n → ℝ) (m : ℝ),
      dp8Step sys t (List.ofFn x) (List.ofFn (f t x)) h (zeros n) (zeros n) = .ret (List.ofFn o, List.ofFn e) ∧
      Largest x (f t x) e h m ∧
      (m / eps ≤ 1 → ∃ r, dp8Attempt sys s t (List.ofFn x) (List.ofFn (f t x)) eps b h = .ret (.inl r) ∧
        Accepted f dp8Step sys t x h r o (dp8T.stg f t x h 12) ∧
        ∃ g, 2 / 10 ≤ g ∧ g ≤ 6 ∧ r.res.hNext = h * g) ∧
      (1 < m / eps → ∃ c, 2 / 10 ≤ c ∧ c ≤ 9 / 10 ∧
        dp8Attempt sys s t (List.ofFn x) (List.ofFn (f t x)) eps b h = .ret (.inr (h * c))) := by
  obtain ⟨o, e, m, h1, h2, h3⟩ := dp8_tries sys f hs t x h
  refine ⟨o, e, m, h1, h3, fun hm => ?_, fun hm => ?_⟩
  · refine ⟨⟨{ s with first := List.ofFn (f t x), last := List.ofFn (dp8T.stg f t x h 12), xOld := List.ofFn x, xEnd := List.ofFn o, tOld := t, hDone := h, stepReady := true, haveFSAL := true, errOld := max (m / eps) (1 / 10 ^ 4) },
        List.ofFn o, List.ofFn (dp8T.stg f t x h 12),
        ⟨true, h, h * growth (2 / 10) 6 (9 / 10) (1 / 8) (m / eps) 1, m / eps⟩⟩, ?_,
      ⟨hr.1, rfl, rfl, rfl, rfl, ⟨e, h1⟩, rfl, rfl, rfl, rfl, rfl, rfl, rfl⟩,
      _, (growth_bounds (9 / 10) (1 / 8) (m / eps) 1 (by norm_num)).1,
      (growth_bounds _ _ _ _ (by norm_num)).2, rfl⟩
    rw [dp8Attempt, hr.start b, hr.1, h2, Outcome.bind_ret, fdiv_pos _ heps, Outcome.bind_ret, if_pos hm]
  · obtain ⟨h4, h5⟩ := shrink_bounds (a := 1 / 8) (by norm_num) hm
    refine ⟨_, h4, h5, ?_⟩
    rw [dp8Attempt, hr.start b, hr.1, h2, Outcome.bind_ret, fdiv_pos _ heps, Outcome.bind_ret,
      if_neg (not_le.mpr hm)]

end

/-- What every attempt does gives what the whole loop does. -/
theorem doStep_of_attempts {clc : Calc} {sys : System} {f : ℝ → (Fin n → ℝ) → Fin n → ℝ} {t : ℝ}
    {x : Fin n → ℝ} {eps : ℝ} (heps : 0 < eps) {lo hi c0 : ℝ} (hc0 : 0 < c0)
    {last : ℝ → (Fin n → ℝ) → Fin n → ℝ} {attempt : Bool → ℝ → Outcome (Stepped ⊕ ℝ)}
    (hatt : ∀ b h, ∃ (o e : Fin n → ℝ) (m : ℝ),
      clc sys t (List.ofFn x) (List.ofFn (f t x)) h (zeros n) (zeros n) = .ret (List.ofFn o, List.ofFn e) ∧
      Largest x (f t x) e h m ∧
      (m / eps ≤ 1 → ∃ r, attempt b h = .ret (.inl r) ∧
        Accepted f clc sys t x h r o (last h o) ∧ ∃ g, lo ≤ g ∧ g ≤ hi ∧ r.res.hNext = h * g) ∧
      (1 < m / eps → ∃ c, c0 ≤ c ∧ c ≤ 9 / 10 ∧ attempt b h = .ret (.inr (h * c)))) (htry : ℝ) :
    (∃ r x', retryLoop attempt (attempts htry) true htry = .ret r ∧
        GoodStep clc lo hi sys f eps htry t x r x' ∧
        Accepted f clc sys t x r.res.hDone r x' (last r.res.hDone x')) ∨
    (retryLoop attempt (attempts htry) true htry = .exn (.mml "ODESolverError") ∧
        GaveUp clc (epsR / c0) sys f eps htry t x) := by
  rcases retryLoop_rule (attempt := attempt) (test := Passes clc sys f eps t x)
    (P := fun h r => ∃ o, Accepted f clc sys t x h r o (last h o) ∧
      ∃ g, lo ≤ g ∧ g ≤ hi ∧ r.res.hNext = h * g) hc0
    (fun b h => by
      obtain ⟨o, e, m, h1, h2, h3, h4⟩ := hatt b h
      rw [passes_iff heps h1 h2]
      rcases le_or_gt (m / eps) 1 with h5 | h5
      · obtain ⟨r, h6, h7, h8⟩ := h3 h5
        exact .inl ⟨h5, r, h6, o, h7, h8⟩
      · exact .inr ⟨not_le.mpr h5, h4 h5⟩)
    (attempts htry) true htry (attempts_enough htry) (.inl (attempts_pos htry)) with
    ⟨c, r, h1, h2, h3, ⟨o, h4, h5⟩, h6, h7⟩ | ⟨h1, h2, c, h3, h4, h5, h6⟩
  · have hd := h4.done
    refine .inl ⟨r, o, h3, ⟨h4.acc, h4.rx, ⟨c, h1, h2, hd⟩, ?_, ?_, ?_, ?_⟩, ?_⟩
    · rw [hd]; exact h4.clc
    · rw [hd]; exact h6
    · intro h; rw [hd, h7 h, mul_one]
    · rw [hd]; exact h5
    · rw [hd]; exact h4
  · exact .inr ⟨h1, h2, c, h3, h4, (lt_div_iff₀ hc0).mpr h6, h5⟩

theorem Accepted.ready' {f : ℝ → (Fin n → ℝ) → Fin n → ℝ} {clc : Calc} {sys : System} {t : ℝ}
    {x : Fin n → ℝ} {h : ℝ} {r : Stepped} {o : Fin n → ℝ}
    (ha : Accepted f clc sys t x h r o (f (t + h) o)) : Ready f r.st (t + r.res.hDone) o :=
  ⟨ha.nn, fun _ => by rw [ha.done, ha.last]⟩

theorem dp5_session {sys : System} {f : ℝ → (Fin n → ℝ) → Fin n → ℝ} (hs : Computes sys f) {s : Stepper}
    {t : ℝ} {x : Fin n → ℝ} (h : Session dp5DoStep sys f s t x) : Ready f s t x := by
  induction h with
  | new t x => exact ⟨hs.1, by simp [Stepper.new]⟩
  | reset s t x _ ih => exact ⟨ih.1, by simp [Stepper.resetFSAL]⟩
  | @step s t x htry eps r x' _ hr hx ih =>
    obtain ⟨b, h, ha⟩ := retryLoop_inl _ _ _ hr
    have heps : eps ≠ 0 := by
      rintro rfl
      rw [dp5Attempt] at ha
      obtain ⟨tr, _, ha⟩ := bind_eq_ret ha
      simp [Interp.fdiv] at ha
    obtain ⟨o, e, m, h1, h2, h3, h4⟩ := dp5Attempt_cases hs ih heps b h
    rcases le_or_gt (m / eps) 1 with h5 | h5
    · obtain ⟨r', h6, h7, h8⟩ := h3 h5
      rw [ha] at h6
      have : r = r' := Sum.inl.inj (Outcome.ret.inj h6)
      subst this
      have ho : o = x' := List.ofFn_injective (h7.rx.symm.trans hx)
      rw [← ho, h7.acc, if_pos rfl]
      exact h7.ready'
    · obtain ⟨c, _, _, h6⟩ := h4 h5
      rw [ha] at h6
      exact absurd (Outcome.ret.inj h6) (by simp)

theorem ck_session {sys : System} {f : ℝ → (Fin n → ℝ) → Fin n → ℝ} (hs : Computes sys f) {s : Stepper}
    {t : ℝ} {x : Fin n → ℝ} (h : Session ckDoStep sys f s t x) : s.n = n := by
  induction h with
  | new t x => exact hs.1
  | reset s t x _ ih => exact ih
  | @step s t x htry eps r x' _ hr hx ih =>
    obtain ⟨b, h, ha⟩ := retryLoop_inl _ _ _ hr
    have heps : eps ≠ 0 := by
      rintro rfl
      rw [ckAttempt] at ha
      obtain ⟨tr, _, ha⟩ := bind_eq_ret ha
      simp [Interp.fdiv] at ha
    obtain ⟨o, e, m, h1, h2, h3, h4⟩ := ckAttempt_cases hs ih (x := x) (t := t) heps b h
    rcases le_or_gt (m / eps) 1 with h5 | h5
    · obtain ⟨r', h6, h7, h8⟩ := h3 h5
      rw [ha] at h6
      have : r = r' := Sum.inl.inj (Outcome.ret.inj h6)
      subst this
      exact h7.nn
    · obtain ⟨c, _, _, h6⟩ := h4 h5
      rw [ha] at h6
      exact absurd (Outcome.ret.inj h6) (by simp)

/-! ## Dense output -/

open Polynomial in
/-- The cubic with given values and derivatives at `t` and `t + h`. -/
noncomputable def cubic (t h x0 d0 x1 d1 : ℝ) : Polynomial ℝ :=
  C x0 * (2 * (C (1 / h) * (X - C t)) ^ 3 - 3 * (C (1 / h) * (X - C t)) ^ 2 + 1)
  + C (h * d0) * ((C (1 / h) * (X - C t)) ^ 3 - 2 * (C (1 / h) * (X - C t)) ^ 2 + C (1 / h) * (X - C t))
  + C x1 * (3 * (C (1 / h) * (X - C t)) ^ 2 - 2 * (C (1 / h) * (X - C t)) ^ 3)
  + C (h * d1) * ((C (1 / h) * (X - C t)) ^ 3 - (C (1 / h) * (X - C t)) ^ 2)

theorem cubic_spec {h : ℝ} (hh : h ≠ 0) (t x0 d0 x1 d1 : ℝ) :
    (cubic t h x0 d0 x1 d1).natDegree ≤ 3 ∧ (cubic t h x0 d0 x1 d1).eval t = x0 ∧
    (cubic t h x0 d0 x1 d1).derivative.eval t = d0 ∧ (cubic t h x0 d0 x1 d1).eval (t + h) = x1 ∧
    (cubic t h x0 d0 x1 d1).derivative.eval (t + h) = d1 := by
  refine ⟨?_, ?_, ?_, ?_, ?_⟩
  · unfold cubic
    compute_degree
  · simp [cubic]
  · simp [cubic, Polynomial.derivative_pow]
    field_simp
  · simp [cubic]
    field_simp
    ring
  · simp [cubic, Polynomial.derivative_pow]
    field_simp
    ring

theorem Accepted.dense {f : ℝ → (Fin n → ℝ) → Fin n → ℝ} {clc : Calc} {sys : System} {t : ℝ}
    {x : Fin n → ℝ} {h : ℝ} {r : Stepped} {o l : Fin n → ℝ} (ha : Accepted f clc sys t x h r o l)
    (hh : h ≠ 0) :
    ∃ P, Hermite P t (t + h) x (f t x) o l ∧
      ∀ s, r.st.interpolate s = .ret (List.ofFn fun i => (P i).eval s) := by
  refine ⟨fun i => cubic t h (x i) (f t x i) (o i) (l i), fun i => cubic_spec hh _ _ _ _ _, fun s => ?_⟩
  rw [Stepper.interpolate, ha.ready, if_neg (by simp), ha.hDone, fdiv_pos _ hh, Outcome.bind_ret, ha.nn]
  refine fill_ofFn (zeros_length n) fun i => ?_
  rw [ha.xOld, index_ofFn_fin, Outcome.bind_ret, ha.first, index_ofFn_fin, Outcome.bind_ret, ha.xEnd,
    index_ofFn_fin, Outcome.bind_ret, ha.last, index_ofFn_fin, Outcome.bind_ret, ha.tOld]
  congr 1
  simp only [cubic, Polynomial.eval_add, Polynomial.eval_sub, Polynomial.eval_mul, Polynomial.eval_pow, Polynomial.eval_C, Polynomial.eval_X, Polynomial.eval_ofNat, Polynomial.eval_one]
  ring

end Verif.ODE
