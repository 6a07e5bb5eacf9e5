import Verif.ODE.StepperMore
import Verif.ODE.FixedProps

/-!
# The adaptive Runge–Kutta steppers (C92)

`doStep` and `interpolate` of `DormandPrince5_Stepper`, `CashKarp_Stepper` and `DormandPrince8_Stepper`.
-/

set_option autoImplicit false

namespace Verif.ODE

open Outcome

variable {n : ℕ}

section

variable {sys : System} {f : ℝ → (Fin n → ℝ) → Fin n → ℝ} (hs : Computes sys f)
include hs

/-- The Dormand–Prince 5 stepper, in every state a caller can bring it to: `doStep` terminates.  Either it
takes a step of the Dormand–Prince method whose error estimate is within the tolerance and returns the
derivative at the new point, or it throws because steps shorter than `5 Eps` still fail the test. -/
theorem dp5_step {s : Stepper} {t : ℝ} {x : Fin n → ℝ} (h : Session dp5DoStep sys f s t x) {eps : ℝ}
    (heps : 0 < eps) (htry : ℝ) :
    (∃ r x', dp5DoStep sys s t (List.ofFn x) (List.ofFn (f t x)) htry eps = .ret r ∧
      GoodStep dp5Step (2 / 10) 10 sys f eps htry t x r x' ∧
      r.dxdt = List.ofFn (f (t + r.res.hDone) x')) ∨
    (dp5DoStep sys s t (List.ofFn x) (List.ofFn (f t x)) htry eps = .exn (.mml "ODESolverError") ∧
      GaveUp dp5Step (5 * epsR) sys f eps htry t x) := by
  have hr := dp5_session hs h
  rcases doStep_of_attempts (lo := 2 / 10) (hi := 10) heps (by norm_num : (0 : ℝ) < 2 / 10)
    (last := fun h o => f (t + h) o)
    (fun b h => dp5Attempt_cases hs hr heps.ne' b h) htry with ⟨r, x', h1, h2, h3⟩ | ⟨h1, h2⟩
  · exact .inl ⟨r, x', h1, h2, h3.rd⟩
  · refine .inr ⟨h1, ?_⟩
    rwa [show epsR / (2 / 10) = 5 * epsR by ring] at h2

/-- The same for the Cash–Karp stepper, with the growth factor between 0.9 and 5. -/
theorem ck_step {s : Stepper} {t : ℝ} {x : Fin n → ℝ} (h : Session ckDoStep sys f s t x) {eps : ℝ}
    (heps : 0 < eps) (htry : ℝ) :
    (∃ r x', ckDoStep sys s t (List.ofFn x) (List.ofFn (f t x)) htry eps = .ret r ∧
      GoodStep ckStep (9 / 10) 5 sys f eps htry t x r x' ∧
      r.dxdt = List.ofFn (f (t + r.res.hDone) x')) ∨
    (ckDoStep sys s t (List.ofFn x) (List.ofFn (f t x)) htry eps = .exn (.mml "ODESolverError") ∧
      GaveUp ckStep (10 * epsR) sys f eps htry t x) := by
  have hr := ck_session hs h
  rcases doStep_of_attempts (lo := 9 / 10) (hi := 5) heps (by norm_num : (0 : ℝ) < 1 / 10)
    (last := fun h o => f (t + h) o)
    (fun b h => ckAttempt_cases hs hr heps.ne' b h) htry with ⟨r, x', h1, h2, h3⟩ | ⟨h1, h2⟩
  · exact .inl ⟨r, x', h1, h2, h3.rd⟩
  · refine .inr ⟨h1, ?_⟩
    rwa [show epsR / (1 / 10) = 10 * epsR by ring] at h2

/-- Dense output: after a step, `interpolate` is the cubic polynomial with the values and derivatives of
the step at both its ends. -/
theorem dp5_dense {s : Stepper} {t : ℝ} {x : Fin n → ℝ} (h : Session dp5DoStep sys f s t x) {eps htry : ℝ}
    (heps : 0 < eps) (hh : htry ≠ 0) {r : Stepped}
    (hr : dp5DoStep sys s t (List.ofFn x) (List.ofFn (f t x)) htry eps = .ret r) :
    ∃ P x', r.x = List.ofFn x' ∧
      Hermite P t (t + r.res.hDone) x (f t x) x' (f (t + r.res.hDone) x') ∧
      ∀ u, r.st.interpolate u = .ret (List.ofFn fun i => (P i).eval u) := by
  have hr' := dp5_session hs h
  rcases doStep_of_attempts (lo := 2 / 10) (hi := 10) heps (by norm_num : (0 : ℝ) < 2 / 10)
    (last := fun h o => f (t + h) o)
    (fun b h => dp5Attempt_cases hs hr' heps.ne' b h) htry with ⟨r', x', h1, h2, h3⟩ | ⟨h1, h2⟩
  · rw [dp5DoStep, h1] at hr
    cases hr
    obtain ⟨c, hc, _, h4⟩ := h2.2.2.1
    obtain ⟨P, hP, hu⟩ := h3.dense (by rw [h4]; exact mul_ne_zero hh hc.ne')
    exact ⟨P, x', h3.rx, hP, hu⟩
  · rw [dp5DoStep, h1] at hr
    cases hr

theorem ck_dense {s : Stepper} {t : ℝ} {x : Fin n → ℝ} (h : Session ckDoStep sys f s t x) {eps htry : ℝ}
    (heps : 0 < eps) (hh : htry ≠ 0) {r : Stepped}
    (hr : ckDoStep sys s t (List.ofFn x) (List.ofFn (f t x)) htry eps = .ret r) :
    ∃ P x', r.x = List.ofFn x' ∧
      Hermite P t (t + r.res.hDone) x (f t x) x' (f (t + r.res.hDone) x') ∧
      ∀ u, r.st.interpolate u = .ret (List.ofFn fun i => (P i).eval u) := by
  have hr' := ck_session hs h
  rcases doStep_of_attempts (lo := 9 / 10) (hi := 5) heps (by norm_num : (0 : ℝ) < 1 / 10)
    (last := fun h o => f (t + h) o)
    (fun b h => ckAttempt_cases hs hr' heps.ne' b h) htry with ⟨r', x', h1, h2, h3⟩ | ⟨h1, h2⟩
  · rw [ckDoStep, h1] at hr
    cases hr
    obtain ⟨c, hc, _, h4⟩ := h2.2.2.1
    obtain ⟨P, hP, hu⟩ := h3.dense (by rw [h4]; exact mul_ne_zero hh hc.ne')
    exact ⟨P, x', h3.rx, hP, hu⟩
  · rw [ckDoStep, h1] at hr
    cases hr

/-- A negative tolerance switches the error control off: the trial step is always accepted. -/
theorem dp5_negative_tolerance {s : Stepper} {t : ℝ} {x : Fin n → ℝ} (h : Session dp5DoStep sys f s t x)
    {eps : ℝ} (heps : eps < 0) (htry : ℝ) :
    ∃ r, dp5DoStep sys s t (List.ofFn x) (List.ofFn (f t x)) htry eps = .ret r ∧
      r.res.accepted = true ∧ r.res.hDone = htry ∧ r.res.hNext = htry * 10 := by
  have hr := dp5_session hs h
  obtain ⟨o, e, m, h1, h2, h3⟩ := dp5_tries sys f hs t x htry
  have hm : m / eps ≤ 0 := div_nonpos_of_nonneg_of_nonpos h3.1 heps.le
  refine ⟨⟨{ s with first := List.ofFn (f t x), last := List.ofFn (f (t + htry) (dp5T.step dp5T.b f t x htry)), xOld := List.ofFn x, xEnd := List.ofFn o, tOld := t, hDone := htry, stepReady := true, haveFSAL := true, errOld := max (m / eps) (1 / 10 ^ 4) },
        List.ofFn o, List.ofFn (f (t + htry) (dp5T.step dp5T.b f t x htry)),
        ⟨true, htry, htry * growth (2 / 10) 10 (9 / 10) (17 / 100) (m / eps) (s.errOld ^ (4 / 100 : ℝ)), m / eps⟩⟩, ?_, rfl, rfl, ?_⟩
  · rw [dp5DoStep]
    obtain ⟨k, hk⟩ : ∃ k, attempts htry = k + 1 := ⟨⌈9 * |htry| / epsR⌉₊ + 1, rfl⟩
    rw [hk, retryLoop, dp5Attempt, hr.start true, hr.1, h2, Outcome.bind_ret, fdiv_pos _ heps.ne,
      Outcome.bind_ret, if_pos (by linarith), Outcome.bind_ret]
  · simp only [growth, if_pos hm]
    norm_num

end

/-- Asking for dense output before a step, or after a reset, throws. -/
theorem interpolate_before_step (sys : System) (s : Stepper) (u : ℝ) :
    (Stepper.new sys).interpolate u = .exn (.mml "ODESolverError") ∧
    s.resetFSAL.interpolate u = .exn (.mml "ODESolverError") := by
  constructor <;> rw [Stepper.interpolate, if_pos (by rfl)]

/-- From a point of the exact solution of a smooth system every sufficiently short trial step is accepted
as it is, and its error is of sixth order. -/
theorem dp5_short_steps {sys : System} {f : ℝ → (Fin n → ℝ) → Fin n → ℝ} (hs : Computes sys f)
    (hf : ContDiff ℝ 5 (pair f)) {T1 T2 : ℝ} {y : ℝ → Fin n → ℝ} (hy : IsSolution f T1 T2 y) :
    ∃ C, ∀ eps, 0 < eps → ∃ h₀, 0 < h₀ ∧ ∀ t ∈ Set.Icc T1 T2, ∀ h, |h| ≤ h₀ → t + h ∈ Set.Icc T1 T2 →
      ∀ s, Session dp5DoStep sys f s t (y t) →
        ∃ r x', dp5DoStep sys s t (List.ofFn (y t)) (List.ofFn (f t (y t))) h eps = .ret r ∧
          r.res.hDone = h ∧ r.x = List.ofFn x' ∧ ∀ i, |x' i - y (t + h) i| ≤ C * |h| ^ 6 := by
  obtain ⟨C, h₀, hh₀, H⟩ := dormandPrince5_local_orders n sys f hs (by exact_mod_cast hf) T1 T2 y hy
  refine ⟨C, fun eps heps => ?_⟩
  refine ⟨min (min h₀ 1) (eps / 10 ^ 30 / (2 * |C| + 1)), by positivity, fun t ht h hh hth s hS => ?_⟩
  have hb1 : |h| ≤ h₀ := hh.trans ((min_le_left _ _).trans (min_le_left _ _))
  have hb2 : |h| ≤ 1 := hh.trans ((min_le_left _ _).trans (min_le_right _ _))
  have hb3 : |h| ≤ eps / 10 ^ 30 / (2 * |C| + 1) := hh.trans (min_le_right _ _)
  obtain ⟨o, e, h1, h2⟩ := H t ht h hb1 hth (zeros n) (zeros n) (zeros_length n) (zeros_length n)
  have hpass : Passes dp5Step sys f eps t (y t) h := by
    refine ⟨o, e, h1, fun i => ?_⟩
    obtain ⟨h3, h4⟩ := h2 i
    have h5 : |e i| ≤ C * |h| ^ 6 + C * |h| ^ 5 := by
      have : e i = (o i - y (t + h) i) - ((o i - e i) - y (t + h) i) := by ring
      rw [this]
      exact (abs_sub _ _).trans (add_le_add h3 h4)
    have h6 : |h| ^ 6 ≤ |h| := by
      simpa using pow_le_pow_of_le_one (abs_nonneg h) hb2 (by norm_num : 1 ≤ 6)
    have h7 : |h| ^ 5 ≤ |h| := by
      simpa using pow_le_pow_of_le_one (abs_nonneg h) hb2 (by norm_num : 1 ≤ 5)
    have h8 : C * |h| ^ 6 ≤ |C| * |h| :=
      (mul_le_mul_of_nonneg_right (le_abs_self C) (by positivity)).trans
        (mul_le_mul_of_nonneg_left h6 (abs_nonneg C))
    have h9 : C * |h| ^ 5 ≤ |C| * |h| :=
      (mul_le_mul_of_nonneg_right (le_abs_self C) (by positivity)).trans
        (mul_le_mul_of_nonneg_left h7 (abs_nonneg C))
    have h10 : (2 * |C| + 1) * |h| ≤ eps / 10 ^ 30 := by
      rw [le_div_iff₀ (by positivity)] at hb3
      linarith
    have h11 : eps * (1 / 10 ^ 30) ≤ eps * (|y t i| + |h * f t (y t) i| + 1 / 10 ^ 30) :=
      mul_le_mul_of_nonneg_left (by have := abs_nonneg (y t i); have := abs_nonneg (h * f t (y t) i); linarith)
        heps.le
    have := abs_nonneg h
    have h12 : eps / 10 ^ 30 = eps * (1 / 10 ^ 30) := by ring
    nlinarith
  rcases dp5_step hs hS heps h with ⟨r, x', h3, h4, -⟩ | ⟨-, h4⟩
  · have hd := h4.2.2.2.2.2.1 hpass
    obtain ⟨e', h5⟩ := h4.2.2.2.1
    rw [hd, h1] at h5
    have : o = x' := List.ofFn_injective (Prod.mk.inj (Outcome.ret.inj h5)).1
    refine ⟨r, x', h3, hd, h4.2.1, fun i => ?_⟩
    rw [← this]
    exact (h2 i).1
  · exact absurd hpass h4.1

/-! ### The hypotheses are met: the harmonic oscillator -/

example : Session dp5DoStep oscSys (newton (m := 1) (fun _ q => -q)) (Stepper.new oscSys) 0 (osc 0) :=
  Session.new 0 (osc 0)

example : ∃ h : ℝ, 0 < h ∧ ∃ (r : Stepped) (x' : Fin (1 + 1) → ℝ) (r' : Stepped) (x'' : Fin (1 + 1) → ℝ),
    dp5DoStep oscSys (Stepper.new oscSys) 0 (List.ofFn (osc 0))
      (List.ofFn (newton (m := 1) (fun _ q => -q) 0 (osc 0))) h (1 / 10 ^ 10) = .ret r ∧
    r.x = List.ofFn x' ∧ r.res.hDone = h ∧
    Session dp5DoStep oscSys (newton (m := 1) (fun _ q => -q)) r.st h x' ∧
    (dp5DoStep oscSys r.st h (List.ofFn x') (List.ofFn (newton (m := 1) (fun _ q => -q) h x')) 1 (-1)
      = .ret r' ∧ r'.x = List.ofFn x'') := by
  obtain ⟨C, hC⟩ := dp5_short_steps osc_computes (contDiff_newton (osc_smooth 5)) osc_solution
  obtain ⟨h₀, hh₀, H⟩ := hC (1 / 10 ^ 10) (by positivity)
  have hm : min h₀ 1 ≤ 1 := min_le_right _ _
  have hm0 : 0 < min h₀ 1 := lt_min hh₀ one_pos
  obtain ⟨r, x', h1, h2, h3, -⟩ := H 0 ⟨le_rfl, by norm_num⟩ (min h₀ 1)
    (by rw [abs_of_pos hm0]; exact min_le_left _ _) ⟨by linarith, by linarith⟩ _ (Session.new 0 (osc 0))
  have hS := Session.step _ _ _ (Session.new 0 (osc 0)) h1 h3
  have hacc : r.res.accepted = true := by
    rcases dp5_step osc_computes (Session.new 0 (osc 0)) (by positivity : (0 : ℝ) < 1 / 10 ^ 10) (min h₀ 1) with
      ⟨r1, x1, h11, h12, -⟩ | ⟨h11, -⟩
    · rw [h1] at h11; cases h11; exact h12.1
    · rw [h1] at h11; cases h11
  rw [hacc, if_pos rfl, h2, zero_add] at hS
  have hr := dp5_session osc_computes hS
  obtain ⟨r', h4, -, -, -⟩ := dp5_negative_tolerance osc_computes hS (eps := -1) (by norm_num) 1
  obtain ⟨b, h5, ha⟩ := retryLoop_inl _ _ _ h4
  obtain ⟨o, e, m, _, h7, h8, h9⟩ := dp5Attempt_cases osc_computes hr (eps := -1) (by norm_num) b h5
  have hm' : m / (-1 : ℝ) ≤ 1 := by have := h7.1; rw [div_neg, div_one]; linarith
  obtain ⟨r'', h10, h11, -⟩ := h8 hm'
  rw [ha] at h10
  have e : r' = r'' := Sum.inl.inj (Outcome.ret.inj h10)
  exact ⟨min h₀ 1, hm0, r, x', r', o, h1, h3, h2, hS, h4, e ▸ h11.rx⟩

/-! ## The Dormand–Prince 8 stepper -/

/-- The first step after construction or a reset is a step of the Dormand–Prince 8 method within the
tolerance, as for the other steppers.  The full claim, that this holds for every later step too and that
the returned derivative is the one at the new point, is false: see `dp8_wrong_derivative`. -/
theorem dp8_first_step_partial {sys : System} {f : ℝ → (Fin n → ℝ) → Fin n → ℝ} (hs : Computes sys f)
    {s : Stepper} (hn : s.n = n) (hF : s.haveFSAL = false) (t : ℝ) (x : Fin n → ℝ) {eps : ℝ}
    (heps : 0 < eps) (htry : ℝ) :
    (∃ r x', dp8DoStep sys s t (List.ofFn x) (List.ofFn (f t x)) htry eps = .ret r ∧
      GoodStep dp8Step (2 / 10) 6 sys f eps htry t x r x') ∨
    (dp8DoStep sys s t (List.ofFn x) (List.ofFn (f t x)) htry eps = .exn (.mml "ODESolverError") ∧
      GaveUp dp8Step (5 * epsR) sys f eps htry t x) := by
  have hr : Ready f s t x := ⟨hn, by rw [hF]; simp⟩
  rcases doStep_of_attempts (lo := 2 / 10) (hi := 6) heps (by norm_num : (0 : ℝ) < 2 / 10)
    (last := fun h _ => dp8T.stg f t x h 12)
    (fun b h => dp8Attempt_cases hs hr heps.ne' b h) htry with ⟨r, x', h1, h2, h3⟩ | ⟨h1, h2⟩
  · exact .inl ⟨r, x', h1, h2⟩
  · refine .inr ⟨h1, ?_⟩
    rwa [show epsR / (2 / 10) = 5 * epsR by ring] at h2

/-- The equation `x' = x` as a system. -/
def growSys : System := ⟨1, fun _ x _ => ret x⟩

theorem grow_computes : Computes growSys (fun _ (x : Fin 1 → ℝ) => x) := ⟨rfl, fun _ _ _ _ => rfl⟩

/-- The stages of the eighth-order method for `x' = x`, `x = 1`, `h = 1`. -/
def growStages : List ℚ :=
  dp8T.a.foldl (fun ks row => ks ++ [1 + (List.zipWith (· * ·) row ks).sum]) []

theorem growStages_ok : ∀ i : Fin 13, growStages.getD i 0
    = 1 + ∑ j ∈ Finset.range i, dp8T.A i j * growStages.getD j 0 := by decide +kernel

theorem grow_stg (i : ℕ) (hi : i < 13) :
    dp8T.stg (fun _ (x : Fin 1 → ℝ) => x) 0 (fun _ => 1) 1 i = fun _ => ((growStages.getD i 0 : ℚ) : ℝ) := by
  induction i using Nat.strong_induction_on with
  | _ i ih =>
    rw [Tableau.stg_eq]
    funext k
    have := growStages_ok ⟨i, hi⟩
    dsimp only at this
    rw [this, Pi.add_apply, one_smul, Finset.sum_apply]
    push_cast
    congr 1
    refine Finset.sum_congr rfl fun j hj => ?_
    have hj' := Finset.mem_range.mp hj
    rw [Pi.smul_apply, ih j hj' (by omega), smul_eq_mul]

theorem grow_step (b : List ℚ) :
    dp8T.step b (fun _ (x : Fin 1 → ℝ) => x) 0 (fun _ => 1) 1
      = fun _ => ((1 + ∑ j ∈ Finset.range 13, b.getD j 0 * growStages.getD j 0 : ℚ) : ℝ) := by
  rw [Tableau.step, show dp8T.a.length = 13 from rfl]
  funext k
  rw [Pi.add_apply, one_smul, Finset.sum_apply]
  push_cast
  congr 1
  refine Finset.sum_congr rfl fun j hj => ?_
  rw [Pi.smul_apply, grow_stg j (Finset.mem_range.mp hj), smul_eq_mul]

/-- The eighth-order stepper treats its last stage as the derivative at the new point, which it is not
(the last stage is evaluated at another point): for `x' = x`, after a step of size 1 from `x = 1`, the
returned derivative differs from the returned state.  The next step starts from this derivative. -/
theorem dp8_wrong_derivative : ∃ r x', dp8DoStep growSys (Stepper.new growSys) 0 [1] [1] 1 1 = .ret r ∧
    r.res.accepted = true ∧ r.res.hDone = 1 ∧ r.x = [x'] ∧
    growSys.derivs 1 r.x r.dxdt = .ret [x'] ∧ r.dxdt ≠ [x'] ∧
    r.st.haveFSAL = true ∧ r.st.last ≠ [x'] := by
  have hr : Ready (fun _ (x : Fin 1 → ℝ) => x) (Stepper.new growSys) 0 (fun _ => 1) :=
    ⟨rfl, by simp [Stepper.new]⟩
  obtain ⟨o, e, m, h1, h2, h3, -⟩ := dp8Attempt_cases grow_computes hr (eps := 1) one_ne_zero true 1
  have h4 := dp8Step_eq grow_computes 0 (fun _ => 1) 1 (zeros_length 1) (zeros_length 1)
  rw [h4] at h1
  have ho := List.ofFn_injective (Prod.mk.inj (Outcome.ret.inj h1)).1
  have he := List.ofFn_injective (Prod.mk.inj (Outcome.ret.inj h1)).2
  have hm : m / 1 ≤ 1 := by
    rw [h2.test one_pos]
    intro i
    rw [← he, Pi.sub_apply, grow_step, grow_step, ← Rat.cast_sub, ← Rat.cast_abs]
    have h5 : |(1 + ∑ j ∈ Finset.range 13, dp8T.b.getD j 0 * growStages.getD j 0 : ℚ)
        - (1 + ∑ j ∈ Finset.range 13, DP8.b7.getD j 0 * growStages.getD j 0)| ≤ 1 := by decide +kernel
    have h6 : ((|(1 + ∑ j ∈ Finset.range 13, dp8T.b.getD j 0 * growStages.getD j 0 : ℚ)
        - (1 + ∑ j ∈ Finset.range 13, DP8.b7.getD j 0 * growStages.getD j 0)| : ℚ) : ℝ) ≤ 1 := by
      exact_mod_cast h5
    have := tinyR_pos
    simp only [abs_one, mul_one, one_mul]
    linarith
  obtain ⟨r, h5, h6, -⟩ := h3 hm
  have hne : dp8T.stg (fun _ (x : Fin 1 → ℝ) => x) 0 (fun _ => 1) 1 12 0 ≠ o 0 := by
    rw [grow_stg 12 (by norm_num), ← ho, grow_step]
    dsimp only
    rw [Ne, Rat.cast_inj]
    decide +kernel
  have hrun : dp8DoStep growSys (Stepper.new growSys) 0 [1] [1] 1 1 = .ret r := by
    have e1 : ([1] : List ℝ) = List.ofFn (fun _ : Fin 1 => (1 : ℝ)) := by simp
    rw [e1, dp8DoStep]
    obtain ⟨k, hk⟩ : ∃ k, attempts 1 = k + 1 := ⟨⌈9 * |(1 : ℝ)| / epsR⌉₊ + 1, rfl⟩
    rw [hk, retryLoop, h5, Outcome.bind_ret]
  have hx : r.x = [o 0] := by rw [h6.rx]; simp
  refine ⟨r, o 0, hrun, h6.acc, h6.done, hx, by rw [hx]; rfl, ?_, ?_, ?_⟩
  · rw [h6.rd]
    simpa using hne
  · rw [dp8Attempt] at h5
    obtain ⟨tr, _, h5⟩ := bind_eq_ret h5
    obtain ⟨e', _, h5⟩ := bind_eq_ret h5
    split_ifs at h5
    · cases h5; rfl
    · exact absurd (Outcome.ret.inj h5) (by simp)
  · rw [h6.last]
    simpa using hne

end Verif.ODE
