import Verif.ODE.FixedLemmas
import Mathlib.Analysis.SpecialFunctions.Trigonometric.Deriv
import Mathlib.Analysis.Calculus.Deriv.Prod

/-!
# The fixed-step solver (C88, C89)

`C88`: every one-step method, used through `ODESystemFixedStepSolver::integrate`, converges to the exact
solution with its documented order.  `C89`: what the solver stores.
-/

set_option autoImplicit false

namespace Verif.ODE

open Outcome Mat

/-! ## C88: orders of convergence -/

theorem euler_global_order : GlobalOrder eulerStep 1 := euler_performs.globalOrder euler_order
theorem eulerCromer_global_order : GlobalOrder eulerCromerStep 2 :=
  eulerCromer_performs.globalOrder heun_order
theorem midpoint_global_order : GlobalOrder midpointStep 2 := midpoint_performs.globalOrder mid_order
theorem rk4_global_order : GlobalOrder rk4Step 4 := rk4_performs.globalOrder rk4_order
theorem cashKarp_global_order : GlobalOrder ckStep 5 := ck_performs.globalOrder ck_order
theorem dormandPrince5_global_order : GlobalOrder dp5Step 5 := dp5_performs.globalOrder dp5_order

/-- The eighth-order method: its order conditions hold for the decimal coefficients of the code up to
`10⁻¹⁶`, so that the error is at most a constant times `|h|^8 + 10⁻¹⁶`, for right-hand sides whose
derivatives up to order 8 are bounded. -/
theorem dormandPrince8_global_order_partial {n : ℕ} {sys : System} {f : ℝ → (Fin n → ℝ) → Fin n → ℝ}
    (hs : Computes sys f) (hf : ContDiff ℝ 8 (pair f)) {M : ℝ}
    (hM : ∀ j ≤ 8, ∀ z, ‖iteratedFDeriv ℝ j (pair f) z‖ ≤ M) {T1 T2 : ℝ} {y : ℝ → Fin n → ℝ}
    (hy : IsSolution f T1 T2 y) :
    ∃ C, ∀ h₀, Accurate sys dp8Step T1 T2 y (fun h => h ^ 8 + 1 / 10 ^ 16) h₀ C :=
  accurate_eps (p := 7) hs dp8T.a.length (fun i j => (dp8T.A i j : ℝ))
    (fun _ j => (dp8T.b.getD j 0 : ℝ)) (fun i => (dp8T.C i : ℝ)) (dp8_performs n sys f hs)
    (by positivity) (fun _ => dp8_order) (by exact_mod_cast hf) hM hy

/-- The mechanics integrators, on a system `q' = v`, `v' = a (t, q)`, have order 2. -/
theorem verlet_global_order {m : ℕ} {a : ℝ → (Fin m → ℝ) → Fin m → ℝ} {sys : System}
    (hs : Computes sys (newton a)) (ha : ContDiff ℝ 2 (fun z : ℝ × (Fin m → ℝ) => a z.1 z.2))
    {T1 T2 : ℝ} {y : ℝ → Fin (m + m) → ℝ} (hy : IsSolution (newton a) T1 T2 y) :
    ∃ C h₀, 0 < h₀ ∧ Accurate sys verletStep T1 T2 y (fun h => h ^ 2) h₀ C := by
  refine newton_accurate hs (fun t x h xOut xErr hO hE => ?_) ha hy
  have := verletStep_eq hs t (lower x) (upper x) h hO hE
  rwa [append_lower_upper] at this

theorem leapfrog_global_order {m : ℕ} {a : ℝ → (Fin m → ℝ) → Fin m → ℝ} {sys : System}
    (hs : Computes sys (newton a)) (ha : ContDiff ℝ 2 (fun z : ℝ × (Fin m → ℝ) => a z.1 z.2))
    {T1 T2 : ℝ} {y : ℝ → Fin (m + m) → ℝ} (hy : IsSolution (newton a) T1 T2 y) :
    ∃ C h₀, 0 < h₀ ∧ Accurate sys leapfrogStep T1 T2 y (fun h => h ^ 2) h₀ C := by
  refine newton_accurate hs (fun t x h xOut xErr hO hE => ?_) ha hy
  have := leapfrogStep_eq hs t (lower x) (upper x) h hO hE
  rwa [append_lower_upper, leapVel_newton] at this

/-- The error estimates: the value minus its estimate is the solution of the embedded lower-order
method. -/
theorem eulerCromer_local_orders : LocalOrders eulerCromerStep 2 1 :=
  eulerCromer_performs.localOrders heun_order euler_order (by omega)
theorem cashKarp_local_orders : LocalOrders ckStep 5 4 :=
  ck_performs.localOrders ck_order ckStar_order (by omega)
theorem dormandPrince5_local_orders : LocalOrders dp5Step 5 4 :=
  dp5_performs.localOrders dp5_order dp5Star_order (by omega)

theorem dormandPrince8_local_orders_partial {n : ℕ} {sys : System} {f : ℝ → (Fin n → ℝ) → Fin n → ℝ}
    (hs : Computes sys f) (hf : ContDiff ℝ 8 (pair f)) {M : ℝ}
    (hM : ∀ j ≤ 8, ∀ z, ‖iteratedFDeriv ℝ j (pair f) z‖ ≤ M) {T1 T2 : ℝ} {y : ℝ → Fin n → ℝ}
    (hy : IsSolution f T1 T2 y) :
    ∃ C, ∀ t ∈ Set.Icc T1 T2, ∀ h, t + h ∈ Set.Icc T1 T2 → ∀ xOut xErr : List ℝ, xOut.length = n →
      xErr.length = n → ∃ o e : Fin n → ℝ,
        dp8Step sys t (List.ofFn (y t)) (List.ofFn (f t (y t))) h xOut xErr
          = .ret (List.ofFn o, List.ofFn e) ∧
        ∀ i, |o i - y (t + h) i| ≤ C * |h| * (|h| ^ 8 + 1 / 10 ^ 16) ∧
          |(o i - e i) - y (t + h) i| ≤ C * |h| * (|h| ^ 7 + 1 / 10 ^ 16) := by
  obtain ⟨C, hC, H⟩ := tableau_local_eps (p := 7) (by positivity) dp8_order (by exact_mod_cast hf) hM hy
  obtain ⟨C', hC', H'⟩ := tableau_local_eps (p := 6) (by positivity) dp87_order
    (hf.of_le (by exact_mod_cast (by omega : (7 : ℕ) ≤ 8))) (fun j hj => hM j (by omega)) hy
  refine ⟨max C C', fun t ht h hth xOut xErr hO hE =>
    ⟨_, _, dp8_performs n sys f hs t (y t) h xOut xErr hO hE, fun i => ⟨?_, ?_⟩⟩⟩
  · have h3 := (norm_le_pi_norm _ i).trans (H t ht h hth)
    rw [Pi.sub_apply, Real.norm_eq_abs, mul_assoc] at h3
    rw [mul_assoc]
    exact h3.trans (mul_le_mul_of_nonneg_right (le_max_left _ _) (by positivity))
  · have h3 := (norm_le_pi_norm _ i).trans (H' t ht h hth)
    rw [Pi.sub_apply, Real.norm_eq_abs, mul_assoc] at h3
    dsimp only
    rw [Pi.sub_apply, sub_sub_cancel, mul_assoc]
    exact h3.trans (mul_le_mul_of_nonneg_right (le_max_right _ _) (by positivity))

/-! ### The hypotheses are met: the harmonic oscillator -/

/-- `q' = v`, `v' = -q`, as the user writes it. -/
def oscSys : System := ⟨2, fun _ x _ => do
  let q ← index x 0
  let v ← index x 1
  ret [v, -q]⟩

theorem osc_computes : Computes oscSys (newton (m := 1) (fun _ q => -q)) := by
  refine ⟨rfl, fun t x d _ => ?_⟩
  have h0 : index (List.ofFn x) 0 = .ret (x 0) := index_ofFn_fin x 0
  have h1 : index (List.ofFn x) 1 = .ret (x 1) := index_ofFn_fin x 1
  change (index (List.ofFn x) 0 >>= fun q => index (List.ofFn x) 1 >>= fun v => ret [v, -q]) = _
  rw [h0, Outcome.bind_ret, h1, Outcome.bind_ret]
  rfl

theorem osc_smooth (p : ℕ) : ContDiff ℝ p (fun z : ℝ × (Fin 1 → ℝ) => -z.2) := contDiff_snd.neg

/-- Its solution with `q = 1`, `v = 0` at time `0`. -/
noncomputable def osc (t : ℝ) : Fin (1 + 1) → ℝ :=
  Fin.append (fun _ : Fin 1 => Real.cos t) (fun _ : Fin 1 => -Real.sin t)

theorem osc_solution : IsSolution (newton (m := 1) (fun _ q => -q)) 0 10 osc := by
  intro t _
  refine HasDerivAt.hasDerivWithinAt ?_
  rw [hasDerivAt_pi]
  intro i
  refine Fin.addCases (fun j => ?_) (fun j => ?_) i
  · simp only [osc, newton, Fin.append_left, upper_append]
    exact Real.hasDerivAt_cos t
  · simp only [osc, newton, Fin.append_right, lower_append]
    exact (Real.hasDerivAt_sin t).neg

theorem osc_fits : Fits 2 1000 := ⟨by norm_num, by norm_num, by norm_num, by norm_num⟩

example : ∃ C h₀, 0 < h₀ ∧ Accurate oscSys rk4Step 0 10 osc (fun h => h ^ 4) h₀ C :=
  rk4_global_order _ _ _ osc_computes (contDiff_newton (osc_smooth 4)) _ _ _ osc_solution

example : ∃ C h₀, 0 < h₀ ∧ Accurate oscSys leapfrogStep 0 10 osc (fun h => h ^ 2) h₀ C :=
  leapfrog_global_order osc_computes (osc_smooth 2) osc_solution

/-- A system with bounded derivatives of all orders: `x' = cos t`. -/
noncomputable def cosSys : System := ⟨1, fun t _ _ => ret [Real.cos t]⟩

theorem cos_computes : Computes cosSys (fun t (_ : Fin 1 → ℝ) _ => Real.cos t) :=
  ⟨rfl, fun _ _ _ _ => rfl⟩

theorem cos_bounded : ∃ M, ∀ j ≤ 8, ∀ z, ‖iteratedFDeriv ℝ j
    (pair (fun t (_ : Fin 1 → ℝ) (_ : Fin 1) => Real.cos t)) z‖ ≤ M := by
  set g : (ℝ × (Fin 1 → ℝ)) →L[ℝ] ℝ := ContinuousLinearMap.fst ℝ ℝ (Fin 1 → ℝ) with hg
  set c : ℝ → (Fin 1 → ℝ) := fun t _ => Real.cos t with hc
  have hcd : ContDiff ℝ 8 c := by
    rw [contDiff_pi]; exact fun _ => Real.contDiff_cos
  refine ⟨1, fun j hj z => ?_⟩
  rw [show pair (fun t (_ : Fin 1 → ℝ) (_ : Fin 1) => Real.cos t) = c ∘ g from rfl,
    g.iteratedFDeriv_comp_right hcd z (by exact_mod_cast hj)]
  refine (ContinuousMultilinearMap.norm_compContinuousLinearMap_le _ _).trans ?_
  rw [Finset.prod_const, Finset.card_univ, Fintype.card_fin]
  have h1 : ‖g‖ ≤ 1 := g.opNorm_le_bound zero_le_one (fun x => by rw [one_mul]; exact norm_fst_le x)
  refine mul_le_one₀ ?_ (by positivity) (pow_le_one₀ (norm_nonneg _) h1)
  rw [norm_iteratedFDeriv_eq_norm_iteratedDeriv]
  refine (pi_norm_le_iff_of_nonneg zero_le_one).mpr fun i => ?_
  have e : ∀ j, iteratedDeriv j c = fun t _ => iteratedDeriv j Real.cos t := by
    intro j
    induction j with
    | zero => rfl
    | succ j ih =>
      funext t
      rw [iteratedDeriv_succ, ih]
      refine (hasDerivAt_pi.mpr fun i => ?_).deriv
      rw [iteratedDeriv_succ]
      exact (Real.differentiable_iteratedDeriv_cos j t).hasDerivAt
  rw [e]
  exact Real.abs_iteratedDeriv_cos_le_one j _

example : ∃ C, ∀ h₀, Accurate (n := 1) cosSys dp8Step 0 10 (fun t _ => Real.sin t)
    (fun h => h ^ 8 + 1 / 10 ^ 16) h₀ C := by
  obtain ⟨M, hM⟩ := cos_bounded
  refine dormandPrince8_global_order_partial cos_computes ?_ hM ?_
  · rw [contDiff_pi]; exact fun _ => Real.contDiff_cos.comp contDiff_fst
  · intro t _
    exact (hasDerivAt_pi.mpr fun _ => Real.hasDerivAt_sin t).hasDerivWithinAt

/-! ## C89: what the solver stores -/

/-- The solver starts from the initial condition and applies the step calculator `N` times, on the
equidistant grid, ending at `t2`; it stores exactly those `N + 1` states. -/
theorem fixed_stores {n : ℕ} {sys : System} {f : ℝ → (Fin n → ℝ) → Fin n → ℝ} (hs : Computes sys f)
    {clc : Calc} {Φ E : ℝ → (Fin n → ℝ) → ℝ → Fin n → ℝ}
    (hcalc : ∀ t x h xOut xErr, xOut.length = n → xErr.length = n →
      clc sys t (List.ofFn x) (List.ofFn (f t x)) h xOut xErr
        = .ret (List.ofFn (Φ t x h), List.ofFn (E t x h)))
    (x₀ : Fin n → ℝ) (t1 t2 : ℝ) {N : ℕ} (hN : 0 < N) (hfit : Fits n N) {h : ℝ} (hh : h = (t2 - t1) / N)
    (X : ℕ → Fin n → ℝ) (hX0 : X 0 = x₀) (hX : ∀ k, X (k + 1) = Φ (t1 + k * h) (X k) h) :
    ∃ sol, integrateFixed sys clc (List.ofFn x₀) t1 t2 N = .ret sol ∧ Reads sol N t1 t2 X ∧
      sol.getTValue N = .ret t2 ∧ sol.getXValuesAtEnd = .ret (List.ofFn (X N)) := by
  subst hh
  obtain ⟨T, Y, h1, h2⟩ := integrateFixed_run hs hcalc hfit.1 x₀ t1 t2 N hfit.shape X hX0 hX
  refine ⟨_, h1, reads_mk h2, ?_, ?_⟩
  · rw [(reads_mk h2).2 N le_rfl |>.1]
    have : (N : ℝ) ≠ 0 := by positivity
    congr 1
    field_simp
    ring
  · rw [Sol.getXValuesAtEnd, if_neg (by simp [Sol.mk']; omega)]
    refine fill_ofFn (by simp [Sol.mk', zeros]) fun i => ?_
    have e : ((Sol.mk' 0 0 n (N + 1) (N + 1) t1 t2 T Y).count - 1).toNat = N := by simp [Sol.mk']
    rw [e, ← (h2 N le_rfl).2 i]
    exact Dense.get_ofFn Y i.2 (by omega)

/-- Splitting an integration at a grid point does not change the stored states. -/
theorem fixed_restart {n : ℕ} {sys : System} {f : ℝ → (Fin n → ℝ) → Fin n → ℝ} (hs : Computes sys f)
    {clc : Calc} {Φ E : ℝ → (Fin n → ℝ) → ℝ → Fin n → ℝ}
    (hcalc : ∀ t x h xOut xErr, xOut.length = n → xErr.length = n →
      clc sys t (List.ofFn x) (List.ofFn (f t x)) h xOut xErr
        = .ret (List.ofFn (Φ t x h), List.ofFn (E t x h)))
    (x₀ : Fin n → ℝ) (t1 h : ℝ) {N M : ℕ} (hN : 0 < N) (hM : 0 < M) (hfit : Fits n (N + M)) :
    ∃ sol sol1 sol2 xm, integrateFixed sys clc (List.ofFn x₀) t1 (t1 + (N + M) * h) (N + M) = .ret sol ∧
      integrateFixed sys clc (List.ofFn x₀) t1 (t1 + N * h) N = .ret sol1 ∧
      sol1.getXValuesAtEnd = .ret xm ∧
      integrateFixed sys clc xm (t1 + N * h) (t1 + (N + M) * h) M = .ret sol2 ∧
      (∀ k : ℕ, k ≤ N → ∀ i : Fin n, sol.getXValue k i.val = sol1.getXValue k i.val) ∧
      ∀ k : ℕ, k ≤ M → ∀ i : Fin n, sol.getXValue (N + k : ℕ) i.val = sol2.getXValue k i.val := by
  have hN' : (N : ℝ) ≠ 0 := by positivity
  have hM' : (M : ℝ) ≠ 0 := by positivity
  have hNM : ((N + M : ℕ) : ℝ) ≠ 0 := by positivity
  have fitN : Fits n N := ⟨hfit.1, hfit.2.1, by have := hfit.2.2.1; omega,
    (Nat.mul_le_mul_left n (by omega)).trans hfit.2.2.2⟩
  have fitM : Fits n M := ⟨hfit.1, hfit.2.1, by have := hfit.2.2.1; omega,
    (Nat.mul_le_mul_left n (by omega)).trans hfit.2.2.2⟩
  set X : ℕ → Fin n → ℝ := fun k => Nat.rec x₀ (fun k x => Φ (t1 + k * h) x h) k with hX
  obtain ⟨s, a1, a2, a3, a4⟩ := fixed_stores hs hcalc x₀ t1 (t1 + (N + M) * h) (N := N + M) (by omega) hfit
    (h := h) (by push_cast; field_simp; ring) X rfl (fun k => rfl)
  obtain ⟨s1, b1, b2, b3, b4⟩ := fixed_stores hs hcalc x₀ t1 (t1 + N * h) hN fitN
    (h := h) (by field_simp; ring) X rfl (fun k => rfl)
  obtain ⟨s2, c1, c2, c3, c4⟩ := fixed_stores hs hcalc (X N) (t1 + N * h) (t1 + (N + M) * h) hM fitM
    (h := h) (by field_simp; ring) (fun k => X (N + k)) rfl (fun k => by
      change Φ (t1 + (N + k : ℕ) * h) (X (N + k)) h = _
      rw [show t1 + N * h + k * h = t1 + (N + k : ℕ) * h by push_cast; ring])
  refine ⟨s, s1, s2, _, by exact_mod_cast a1, b1, b4, c1, fun k hk i => ?_, fun k hk i => ?_⟩
  · rw [(a2.2 k (by omega)).2, (b2.2 k hk).2]
  · rw [(a2.2 (N + k) (by omega)).2, (c2.2 k hk).2]

/-- A linear quantity the right-hand side conserves is conserved by every stored state. -/
theorem fixed_linear_invariant {n : ℕ} {sys : System} {f : ℝ → (Fin n → ℝ) → Fin n → ℝ}
    (hs : Computes sys f) (w : Fin n → ℝ) (hw : ∀ t x, ∑ i, w i * f t x i = 0) {clc : Calc}
    (hclc : clc ∈ [eulerStep, eulerCromerStep, midpointStep, rk4Step, ckStep, dp5Step, dp8Step])
    (x₀ : Fin n → ℝ) (t1 t2 : ℝ) {N : ℕ} (hN : 0 < N) (hfit : Fits n N) :
    ∃ sol X, integrateFixed sys clc (List.ofFn x₀) t1 t2 N = .ret sol ∧ Reads sol N t1 t2 X ∧
      ∀ k ≤ N, ∑ i, w i * X k i = ∑ i, w i * x₀ i := by
  have key : ∀ (T : Tableau) (b : List ℚ) (E : _), Performs clc T b E → ∃ sol X,
      integrateFixed sys clc (List.ofFn x₀) t1 t2 N = .ret sol ∧ Reads sol N t1 t2 X ∧
      ∀ k ≤ N, ∑ i, w i * X k i = ∑ i, w i * x₀ i := by
    intro T b E hp
    set h := (t2 - t1) / N with hh
    obtain ⟨sol, h1, h2, -⟩ := fixed_stores hs (hp n sys f hs) x₀ t1 t2 hN hfit hh
      (fun k => Nat.rec x₀ (fun k x => T.step b f (t1 + k * h) x h) k) rfl (fun k => rfl)
    refine ⟨sol, _, h1, h2, fun k hk => ?_⟩
    induction k with
    | zero => rfl
    | succ k ih =>
      rw [← ih (by omega)]
      change ∑ i, w i * T.step b f _ (Nat.rec x₀ (fun k x => T.step b f (t1 + k * h) x h) k) h i = _
      generalize (Nat.rec x₀ (fun k x => T.step b f (t1 + k * h) x h) k : Fin n → ℝ) = x
      have e : ∀ j, ∑ i, w i * T.stg f (t1 + k * h) x h j i = 0 := fun j => by rw [T.stg_eq]; exact hw _ _
      simp only [Tableau.step, Pi.add_apply, Pi.smul_apply, smul_eq_mul, mul_add, Finset.sum_add_distrib,
        Finset.sum_apply, Finset.mul_sum]
      rw [add_eq_left, Finset.sum_comm]
      refine Finset.sum_eq_zero fun j _ => ?_
      have := congrArg (fun v => h * (b.getD j 0 : ℝ) * v) (e j)
      simp only [Finset.mul_sum, mul_zero] at this
      rw [← this]
      exact Finset.sum_congr rfl fun i _ => by ring
  simp only [List.mem_cons, List.not_mem_nil, or_false] at hclc
  rcases hclc with rfl | rfl | rfl | rfl | rfl | rfl | rfl
  exacts [key _ _ _ euler_performs, key _ _ _ eulerCromer_performs, key _ _ _ midpoint_performs,
    key _ _ _ rk4_performs, key _ _ _ ck_performs, key _ _ _ dp5_performs, key _ _ _ dp8_performs]

/-- An initial condition of the wrong dimension is rejected. -/
theorem fixed_wrong_dimension {sys : System} {init : List ℝ} (clc : Calc) {N : ℕ} (t1 t2 : ℝ)
    (hfit : Fits sys.dim N) (hne : init.length ≠ sys.dim) :
    integrateFixed sys clc init t1 t2 N = .exn (.mml "ArgumentError") := by
  rw [integrateFixed, Sol.new_eq t1 t2 hfit.1 hfit.shape, Outcome.bind_ret, Sol.fillValues,
    if_neg (by omega), if_pos (by simpa [Sol.mk'] using hne)]
  rfl

/-- A non-positive system dimension, a negative number of steps, and a number of steps the solution
object cannot hold, 100000 or more among them, are rejected. -/
theorem fixed_rejects {sys : System} (clc : Calc) (init : List ℝ) (t1 t2 : ℝ) {N : ℤ}
    (hbad : N < 0 ∨ sys.dim = 0 ∨ 100000 < sys.dim ∨ 100000 ≤ N ∨ 100000000 < sys.dim * (N + 1))
    (hne : ¬ (sys.dim = 0 ∧ N = -1)) :
    ∃ e, integrateFixed sys clc init t1 t2 N = .exn e := by
  rw [integrateFixed, Sol.new, vresize]
  by_cases h1 : N + 1 < 0
  · rw [if_pos h1]; exact ⟨_, rfl⟩
  · rw [if_neg h1, Outcome.bind_ret, Dense.resize, if_neg (by simp; omega)]
    by_cases h2 : (sys.dim : ℤ) ≤ 0 ∨ N + 1 ≤ 0
    · rw [if_pos h2]; exact ⟨_, rfl⟩
    · rw [if_neg h2]
      push Not at h2
      have e : ((N + 1).toNat : ℤ) = N + 1 := Int.toNat_of_nonneg (by omega)
      have h3 : 100000 < sys.dim ∨ 100000 < (N + 1).toNat ∨ 100000000 < sys.dim * (N + 1).toNat := by
        rcases hbad with h | h | h | h | h
        · omega
        · omega
        · exact Or.inl h
        · exact Or.inr (Or.inl (by omega))
        · right; right
          rw [← e] at h
          exact_mod_cast h
      simp only [Int.toNat_natCast, Dense.validate]
      by_cases h4 : 100000 < sys.dim ∨ 100000 < (N + 1).toNat
      · rw [if_pos (by omega)]; exact ⟨_, rfl⟩
      · rw [if_neg (by omega), if_pos (by omega)]; exact ⟨_, rfl⟩

example : ∃ e, integrateFixed oscSys rk4Step [1, 0] 0 10 100000 = .exn e :=
  fixed_rejects _ _ _ _ (by right; right; right; left; norm_num) (by norm_num)

example : integrateFixed oscSys rk4Step [1] 0 10 (1000 : ℕ) = .exn (.mml "ArgumentError") :=
  fixed_wrong_dimension _ _ _ osc_fits (by simp [oscSys])

example : ∃ sol sol1 sol2 xm,
    integrateFixed oscSys rk4Step (List.ofFn ![1, 0]) 0 (0 + ((300 : ℕ) + (700 : ℕ)) * (1 / 100))
      ((300 : ℕ) + (700 : ℕ)) = .ret sol ∧
      integrateFixed oscSys rk4Step (List.ofFn ![1, 0]) 0 (0 + (300 : ℕ) * (1 / 100)) (300 : ℕ) = .ret sol1 ∧
      sol1.getXValuesAtEnd = .ret xm ∧
      integrateFixed oscSys rk4Step xm (0 + (300 : ℕ) * (1 / 100))
        (0 + ((300 : ℕ) + (700 : ℕ)) * (1 / 100)) (700 : ℕ) = .ret sol2 ∧
      (∀ k : ℕ, k ≤ 300 → ∀ i : Fin 2, sol.getXValue k i.val = sol1.getXValue k i.val) ∧
      ∀ k : ℕ, k ≤ 700 → ∀ i : Fin 2, sol.getXValue (300 + k : ℕ) i.val = sol2.getXValue k i.val :=
  fixed_restart osc_computes (rk4_performs 2 oscSys _ osc_computes) ![1, 0] 0 (1 / 100) (by norm_num)
    (by norm_num) osc_fits

/-- A reaction `A → B`: the total is conserved. -/
def decaySys : System := ⟨2, fun _ x _ => do
  let a ← index x 0
  ret [-a, a]⟩

example : ∃ sol X, integrateFixed decaySys dp5Step (List.ofFn ![1, 0]) 0 10 (1000 : ℕ) = .ret sol ∧
    Reads sol 1000 0 10 X ∧ ∀ k ≤ 1000, ∑ i, ![(1 : ℝ), 1] i * X k i = ∑ i, ![(1 : ℝ), 1] i * ![(1 : ℝ), 0] i := by
  have hs : Computes decaySys (fun _ (x : Fin 2 → ℝ) => ![-x 0, x 0]) := by
    refine ⟨rfl, fun t x d _ => ?_⟩
    have h0 : index (List.ofFn x) 0 = .ret (x 0) := index_ofFn_fin x 0
    change (index (List.ofFn x) 0 >>= fun a => ret [-a, a]) = _
    rw [h0]
    simp
  exact fixed_linear_invariant hs ![1, 1] (fun t x => by simp) (by simp) _ _ _ (by norm_num) osc_fits

end Verif.ODE
