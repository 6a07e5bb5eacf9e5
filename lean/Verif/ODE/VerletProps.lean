import Verif.ODE.FixedProps
import Mathlib.Analysis.Calculus.FDeriv.Prod
import Mathlib.Analysis.Calculus.FDeriv.Comp
import Mathlib.Analysis.SpecialFunctions.ExpDeriv

/-!
# The mechanics integrators: velocity Verlet and leapfrog (C90)
-/

set_option autoImplicit false

namespace Verif.ODE

open Outcome Mat

/-- Both integrators, given accelerations that depend on time and positions only, perform the same
step. -/
theorem verlet_eq_leapfrog {m : ℕ} {a : ℝ → (Fin m → ℝ) → Fin m → ℝ} {sys : System}
    (hs : Computes sys (newton a)) (t h : ℝ) (q v : Fin m → ℝ) {xOut xErr : List ℝ}
    (hO : xOut.length = m + m) (hE : xErr.length = m + m) :
    verletStep sys t (List.ofFn (Fin.append q v)) (List.ofFn (newton a t (Fin.append q v))) h xOut xErr
      = leapfrogStep sys t (List.ofFn (Fin.append q v)) (List.ofFn (newton a t (Fin.append q v))) h xOut
          xErr := by
  rw [verletStep_eq hs t q v h hO hE, leapfrogStep_eq hs t q v h hO hE, leapVel_newton]

/-- What a step computes: `q' = q + h v + h²/2 a(t, q)` and `v' = v + h/2 (a(t, q) + a(t + h, q'))`. -/
theorem verlet_formula {m : ℕ} {a : ℝ → (Fin m → ℝ) → Fin m → ℝ} {sys : System}
    (hs : Computes sys (newton a)) (t h : ℝ) (q v : Fin m → ℝ) {xOut xErr : List ℝ}
    (hO : xOut.length = m + m) (hE : xErr.length = m + m) :
    ∃ q' v' : Fin m → ℝ,
      verletStep sys t (List.ofFn (Fin.append q v)) (List.ofFn (newton a t (Fin.append q v))) h xOut xErr
        = .ret (List.ofFn (Fin.append q' v'), List.ofFn (0 : Fin (m + m) → ℝ)) ∧
      (∀ i, q' i = q i + h * v i + h ^ 2 / 2 * a t q i) ∧
      ∀ i, v' i = v i + h / 2 * (a t q i + a (t + h) q' i) := by
  refine ⟨_, _, verletStep_eq hs t q v h hO hE, fun i => ?_, fun i => ?_⟩
  · simp [newPos]
  · simp [newVel]; ring

/-- Time reversibility: a step of `h` followed by a step of `-h` returns to the start exactly. -/
theorem verlet_reversible {m : ℕ} {a : ℝ → (Fin m → ℝ) → Fin m → ℝ} {sys : System}
    (hs : Computes sys (newton a)) (t h : ℝ) (q v : Fin m → ℝ) {xOut xErr : List ℝ}
    (hO : xOut.length = m + m) (hE : xErr.length = m + m) :
    ∃ y : Fin (m + m) → ℝ, ∃ e,
      verletStep sys t (List.ofFn (Fin.append q v)) (List.ofFn (newton a t (Fin.append q v))) h xOut xErr
        = .ret (List.ofFn y, e) ∧
      verletStep sys (t + h) (List.ofFn y) (List.ofFn (newton a (t + h) y)) (-h) xOut xErr
        = .ret (List.ofFn (Fin.append q v), e) := by
  refine ⟨_, _, verletStep_eq hs t q v h hO hE, ?_⟩
  rw [verletStep_eq hs (t + h) _ _ (-h) hO hE]
  set q' := newPos (newton a) t q v h with hq'
  set v' := newVel (newton a) t q v h with hv'
  have e1 : newPos (newton a) (t + h) q' v' (-h) = q := by
    funext i
    simp only [newPos, acc_newton, Pi.add_apply, Pi.smul_apply, smul_eq_mul]
    have h1 : q' i = q i + h * v i + h ^ 2 / 2 * a t q i := by simp [hq', newPos]
    have h2 : v' i = v i + h / 2 * (a t q i + a (t + h) q' i) := by
      simp [hv', newVel, ← hq']; ring
    rw [h2, h1]; ring
  have e2 : newVel (newton a) (t + h) q' v' (-h) = v := by
    funext i
    simp only [newVel, acc_newton, Pi.add_apply, Pi.smul_apply, smul_eq_mul, e1]
    have h2 : v' i = v i + h / 2 * (a t q i + a (t + h) q' i) := by
      simp [hv', newVel, ← hq']; ring
    rw [h2, show t + h + -h = t by ring]; ring
  rw [e1, e2]

/-- One step as a map of the phase space. -/
noncomputable def phaseMap {m : ℕ} (a : ℝ → (Fin m → ℝ) → Fin m → ℝ) (t h : ℝ)
    (z : (Fin m → ℝ) × (Fin m → ℝ)) : (Fin m → ℝ) × (Fin m → ℝ) :=
  (newPos (newton a) t z.1 z.2 h, newVel (newton a) t z.1 z.2 h)

/-- The symplectic form `Σ dq ∧ dv`. -/
def symp {m : ℕ} (z w : (Fin m → ℝ) × (Fin m → ℝ)) : ℝ := ∑ i, (z.1 i * w.2 i - w.1 i * z.2 i)

/-- Symplecticity: where the force is differentiable with symmetric derivative (a force with a
potential), the derivative of the step preserves the symplectic form. -/
theorem verlet_symplectic {m : ℕ} {a : ℝ → (Fin m → ℝ) → Fin m → ℝ} (t h : ℝ) (q v : Fin m → ℝ)
    {A A' : (Fin m → ℝ) →L[ℝ] (Fin m → ℝ)} (hA : HasFDerivAt (a t) A q)
    (hA' : HasFDerivAt (a (t + h)) A' (newPos (newton a) t q v h))
    (hsym : ∀ x y, ∑ i, x i * A y i = ∑ i, A x i * y i)
    (hsym' : ∀ x y, ∑ i, x i * A' y i = ∑ i, A' x i * y i) :
    ∃ D : ((Fin m → ℝ) × (Fin m → ℝ)) →L[ℝ] ((Fin m → ℝ) × (Fin m → ℝ)),
      HasFDerivAt (phaseMap a t h) D (q, v) ∧ ∀ z w, symp (D z) (D w) = symp z w := by
  set p1 := ContinuousLinearMap.fst ℝ (Fin m → ℝ) (Fin m → ℝ) with hp1
  set p2 := ContinuousLinearMap.snd ℝ (Fin m → ℝ) (Fin m → ℝ) with hp2
  have d1 : HasFDerivAt (fun z : (Fin m → ℝ) × (Fin m → ℝ) => a t z.1) (A.comp p1) (q, v) :=
    HasFDerivAt.comp (g := a t) (q, v) hA hasFDerivAt_fst
  have dP : HasFDerivAt (fun z : (Fin m → ℝ) × (Fin m → ℝ) => newPos (newton a) t z.1 z.2 h)
      (p1 + h • p2 + (h ^ 2 / 2) • A.comp p1) (q, v) := by
    simp only [newPos, acc_newton]
    exact (hasFDerivAt_fst.add (hasFDerivAt_snd.const_smul h)).add (d1.const_smul (h ^ 2 / 2))
  set P := p1 + h • p2 + (h ^ 2 / 2) • A.comp p1 with hP
  have d2 : HasFDerivAt (fun z : (Fin m → ℝ) × (Fin m → ℝ) => a (t + h) (newPos (newton a) t z.1 z.2 h))
      (A'.comp P) (q, v) := HasFDerivAt.comp (g := a (t + h)) (q, v) hA' dP
  have dV : HasFDerivAt (fun z : (Fin m → ℝ) × (Fin m → ℝ) => newVel (newton a) t z.1 z.2 h)
      (p2 + (h / 2) • (A.comp p1 + A'.comp P)) (q, v) := by
    simp only [newVel, acc_newton]
    exact hasFDerivAt_snd.add ((d1.add d2).const_smul (h / 2))
  refine ⟨_, dP.prodMk dV, fun z w => ?_⟩
  have eP : ∀ z, P z = z.1 + h • (z.2 + (h / 2) • A z.1) := by
    intro z
    simp only [hP, hp1, hp2, ContinuousLinearMap.add_apply, ContinuousLinearMap.smul_apply,
      ContinuousLinearMap.comp_apply, ContinuousLinearMap.coe_fst', ContinuousLinearMap.coe_snd']
    rw [smul_add, smul_smul, ← add_assoc, show h * (h / 2) = h ^ 2 / 2 by ring]
  have s1 := hsym z.1 w.1
  have s2 := hsym' (P z) (P w)
  simp only [symp, ContinuousLinearMap.prod_apply, ContinuousLinearMap.add_apply,
    ContinuousLinearMap.smul_apply, ContinuousLinearMap.comp_apply, Pi.add_apply, Pi.smul_apply,
    smul_eq_mul, hp1, hp2, ContinuousLinearMap.coe_fst', ContinuousLinearMap.coe_snd']
  have eq : ∀ i, P z i * (w.2 i + h / 2 * (A w.1 i + A' (P w) i))
        - P w i * (z.2 i + h / 2 * (A z.1 i + A' (P z) i))
      = (z.1 i * w.2 i - w.1 i * z.2 i) + h / 2 * (z.1 i * A w.1 i - A z.1 i * w.1 i)
        + h / 2 * (P z i * A' (P w) i - A' (P z) i * P w i) := by
    intro i
    have e1 : P z i = z.1 i + h * (z.2 i + h / 2 * A z.1 i) := congrFun (eP z) i
    have e2 : P w i = w.1 i + h * (w.2 i + h / 2 * A w.1 i) := congrFun (eP w) i
    generalize A' (P w) i = α at *
    generalize A' (P z) i = β at *
    rw [e1, e2]
    ring
  have z1 : ∑ i, (z.1 i * A w.1 i - A z.1 i * w.1 i) = 0 := by
    rw [Finset.sum_sub_distrib, s1, sub_self]
  have z2 : ∑ i, (P z i * A' (P w) i - A' (P z) i * P w i) = 0 := by
    rw [Finset.sum_sub_distrib, s2, sub_self]
  rw [Finset.sum_congr rfl (fun i _ => eq i), Finset.sum_add_distrib, Finset.sum_add_distrib,
    ← Finset.mul_sum, ← Finset.mul_sum, z1, z2, mul_zero, add_zero, add_zero]

/-- Long-time stability: for independent oscillators `q'' = -ω² q`, every stored state of either
integrator lies on the ellipse `v² + ω² (1 - h² ω² / 4) q² = const`, for any number of steps. -/
theorem verlet_oscillator {m : ℕ} {ω : ℝ} {sys : System} (hs : Computes sys (newton (m := m) (fun _ q => -(ω ^ 2 • q))))
    {clc : Calc} (hclc : clc = verletStep ∨ clc = leapfrogStep) (q₀ v₀ : Fin m → ℝ) (t1 t2 : ℝ) {N : ℕ}
    (hN : 0 < N) (hfit : Fits (m + m) N) {h : ℝ} (hh : h = (t2 - t1) / N) :
    ∃ sol X, integrateFixed sys clc (List.ofFn (Fin.append q₀ v₀)) t1 t2 N = .ret sol ∧
      Reads sol N t1 t2 X ∧ ∀ k ≤ N, ∀ i : Fin m,
        upper (X k) i ^ 2 + ω ^ 2 * (1 - h ^ 2 * ω ^ 2 / 4) * lower (X k) i ^ 2
          = v₀ i ^ 2 + ω ^ 2 * (1 - h ^ 2 * ω ^ 2 / 4) * q₀ i ^ 2 := by
  set a : ℝ → (Fin m → ℝ) → Fin m → ℝ := fun _ q => -(ω ^ 2 • q) with ha
  set Φ : ℝ → (Fin (m + m) → ℝ) → ℝ → Fin (m + m) → ℝ := fun t x h =>
    Fin.append (newPos (newton a) t (lower x) (upper x) h) (newVel (newton a) t (lower x) (upper x) h)
    with hΦ
  have hcalc : ∀ t x h xOut xErr, xOut.length = m + m → xErr.length = m + m →
      clc sys t (List.ofFn x) (List.ofFn (newton a t x)) h xOut xErr
        = .ret (List.ofFn (Φ t x h), List.ofFn ((fun _ _ _ => 0 : ℝ → (Fin (m + m) → ℝ) → ℝ → Fin (m + m) → ℝ) t x h)) := by
    intro t x h xOut xErr hO hE
    rcases hclc with rfl | rfl
    · have := verletStep_eq hs t (lower x) (upper x) h hO hE
      rwa [append_lower_upper] at this
    · have := leapfrogStep_eq hs t (lower x) (upper x) h hO hE
      rwa [append_lower_upper, leapVel_newton] at this
  set X : ℕ → Fin (m + m) → ℝ := fun k => Nat.rec (Fin.append q₀ v₀) (fun k x => Φ (t1 + k * h) x h) k
    with hX
  obtain ⟨sol, h1, h2, -⟩ := fixed_stores hs hcalc (Fin.append q₀ v₀) t1 t2 hN hfit hh X rfl (fun k => rfl)
  refine ⟨sol, X, h1, h2, fun k hk i => ?_⟩
  clear hk
  induction k with
  | zero =>
    change upper (Fin.append q₀ v₀) i ^ 2 + _ * lower (Fin.append q₀ v₀) i ^ 2 = _
    rw [upper_append, lower_append]
  | succ k ih =>
    rw [← ih]
    have e1 : lower (X (k + 1)) i = lower (X k) i + h * upper (X k) i + h ^ 2 / 2 * -(ω ^ 2 * lower (X k) i) := by
      change lower (Φ (t1 + k * h) (X k) h) i = _
      simp [hΦ, newPos, ha]
    have e2 : upper (X (k + 1)) i
        = upper (X k) i + h / 2 * (-(ω ^ 2 * lower (X k) i) + -(ω ^ 2 * lower (X (k + 1)) i)) := by
      change upper (Φ (t1 + k * h) (X k) h) i
        = upper (X k) i + h / 2 * (-(ω ^ 2 * lower (X k) i) + -(ω ^ 2 * lower (Φ (t1 + k * h) (X k) h) i))
      simp [hΦ, newVel, ha]; ring
    rw [e2, e1]
    ring

/-- Where the acceleration depends on the velocity the integrators are not second order: for `q' = v`,
`v' = -v` no constant bounds the error of all sufficiently small steps by `C |t2 - t1| h²`. -/
def dragSys : System := ⟨2, fun _ x _ => do
  let v ← index x 1
  ret [v, -v]⟩

/-- The right-hand side `dragSys` computes. -/
def drag (_ : ℝ) (x : Fin (1 + 1) → ℝ) : Fin (1 + 1) → ℝ := Fin.append (upper x) (-upper x)

theorem drag_computes : Computes dragSys drag := by
  refine ⟨rfl, fun t x d _ => ?_⟩
  have h1 : index (List.ofFn x) 1 = .ret (x 1) := index_ofFn_fin x 1
  change (index (List.ofFn x) 1 >>= fun v => ret [v, -v]) = _
  rw [h1, Outcome.bind_ret]
  rfl

noncomputable def dragSol (t : ℝ) : Fin (1 + 1) → ℝ :=
  Fin.append (fun _ : Fin 1 => -Real.exp (-t)) (fun _ : Fin 1 => Real.exp (-t))

theorem drag_solution : IsSolution drag 0 1 dragSol := by
  intro t _
  have he : HasDerivAt (fun t : ℝ => Real.exp (-t)) (-Real.exp (-t)) t := by
    have := (Real.hasDerivAt_exp (-t)).comp t (hasDerivAt_neg t)
    rw [mul_neg_one] at this
    exact this
  refine HasDerivAt.hasDerivWithinAt ?_
  rw [hasDerivAt_pi]
  intro i
  refine Fin.addCases (fun j => ?_) (fun j => ?_) i
  · simp only [dragSol, drag, Fin.append_left, upper_append]
    have := he.neg
    rw [neg_neg] at this
    exact this
  · simp only [dragSol, drag, Fin.append_right, upper_append, Pi.neg_apply]
    exact he

theorem exp_neg_lower {h : ℝ} (h0 : 0 ≤ h) (h1 : h ≤ 1) : 1 - h + 5 / 18 * h ^ 2 ≤ Real.exp (-h) := by
  have h2 := Real.exp_bound (x := -h) (by rw [abs_neg, abs_of_nonneg h0]; exact h1) (n := 3) (by norm_num)
  rw [abs_neg, abs_of_nonneg h0] at h2
  simp [Finset.sum_range_succ, Nat.factorial] at h2
  have h3 := (abs_le.mp h2).1
  have h4 : h ^ 3 ≤ h ^ 2 * 1 := by
    rw [pow_succ]; exact mul_le_mul_of_nonneg_left h1 (by positivity)
  norm_num at h3
  linarith

theorem drag_step {clc : Calc} (hclc : clc = verletStep ∨ clc = leapfrogStep) (h : ℝ) :
    ∃ sol, ∃ v : ℝ, integrateFixed dragSys clc (List.ofFn (dragSol 0)) 0 h (1 : ℕ) = .ret sol ∧
      sol.getXValue (1 : ℕ) (1 : ℕ) = .ret v ∧ (v = 1 - h ∨ v = 1 - h + h ^ 2 / 4) := by
  set Φ : ℝ → (Fin (1 + 1) → ℝ) → ℝ → Fin (1 + 1) → ℝ := fun t x h =>
    Fin.append (newPos drag t (lower x) (upper x) h)
      (open Classical in if clc = verletStep then newVel drag t (lower x) (upper x) h
        else leapVel drag t (lower x) (upper x) h) with hΦ
  have hcalc : ∀ t x h xOut xErr, xOut.length = 1 + 1 → xErr.length = 1 + 1 →
      clc dragSys t (List.ofFn x) (List.ofFn (drag t x)) h xOut xErr
        = .ret (List.ofFn (Φ t x h),
          List.ofFn ((fun _ _ _ => 0 : ℝ → (Fin (1 + 1) → ℝ) → ℝ → Fin (1 + 1) → ℝ) t x h)) := by
    intro t x h xOut xErr hO hE
    by_cases hv : clc = verletStep
    · rw [hΦ]
      dsimp only
      rw [if_pos hv, hv]
      have := verletStep_eq drag_computes t (lower x) (upper x) h hO hE
      rwa [append_lower_upper] at this
    · rw [hΦ]
      dsimp only
      rw [if_neg hv]
      rw [hclc.resolve_left hv]
      have := leapfrogStep_eq drag_computes t (lower x) (upper x) h hO hE
      rwa [append_lower_upper] at this
  obtain ⟨sol, h1, h2, -⟩ := fixed_stores drag_computes hcalc (dragSol 0) 0 h (N := 1) (by norm_num)
    ⟨by norm_num, by norm_num, by norm_num, by norm_num⟩ (h := h) (by simp)
    (fun k => Nat.rec (dragSol 0) (fun k x => Φ (0 + k * h) x h) k) rfl (fun k => rfl)
  refine ⟨sol, upper (Φ (0 + (0 : ℕ) * h) (dragSol 0) h) 0, h1, (h2.2 1 le_rfl).2 (Fin.natAdd 1 0), ?_⟩
  have hu : upper (dragSol 0) = fun _ => 1 := by rw [dragSol, upper_append]; simp
  have hacc : ∀ t q v, acc drag t q v = -v := by intro t q v; simp [acc, drag]
  rw [hΦ]
  dsimp only
  rw [upper_append]
  by_cases hv : clc = verletStep
  · left
    rw [if_pos hv]
    simp only [newVel, hacc, hu, Pi.add_apply, Pi.smul_apply, Pi.neg_apply, smul_eq_mul]
    ring
  · right
    rw [if_neg hv]
    simp only [leapVel, hacc, hu, Pi.add_apply, Pi.smul_apply, Pi.neg_apply, smul_eq_mul]
    ring

theorem verlet_velocity_dependent_not_second_order {clc : Calc}
    (hclc : clc = verletStep ∨ clc = leapfrogStep) :
    ¬ ∃ C h₀, 0 < h₀ ∧ Accurate dragSys clc 0 1 dragSol (fun h => h ^ 2) h₀ C := by
  rintro ⟨C, h₀, hh₀, H⟩
  set h := min (min h₀ 1) (1 / (72 * (|C| + 1))) with hh
  have hpos : 0 < h := by
    have : 0 < |C| + 1 := by positivity
    exact lt_min (lt_min hh₀ one_pos) (by positivity)
  have hle1 : h ≤ 1 := (min_le_left _ _).trans (min_le_right _ _)
  have hle0 : h ≤ h₀ := (min_le_left _ _).trans (min_le_left _ _)
  have hle2 : h ≤ 1 / (72 * (|C| + 1)) := min_le_right _ _
  obtain ⟨sol, X, h1, h2, h3⟩ := H 0 ⟨le_rfl, zero_le_one⟩ h ⟨hpos.le, hle1⟩ 1 one_pos
    ⟨by norm_num, by norm_num, by norm_num, by norm_num⟩ (by simpa [abs_of_pos hpos] using hle0)
  obtain ⟨sol', v, h4, h5, h6⟩ := drag_step hclc h
  have e := Outcome.ret.inj (h1.symm.trans h4)
  subst e
  have h7 := Outcome.ret.inj (((h2.2 1 le_rfl).2 (Fin.natAdd 1 0)).symm.trans h5)
  have h8 := h3 1 le_rfl (Fin.natAdd 1 0)
  rw [h7] at h8
  simp only [Nat.cast_one, sub_zero, div_one, one_mul, zero_add, dragSol, Fin.append_right,
    abs_of_pos hpos] at h8
  have h9 := exp_neg_lower hpos.le hle1
  have h10 : Real.exp (-h) - v ≤ C * h * h ^ 2 := (neg_sub v _ ▸ neg_le_abs _).trans h8
  have h11 : C * h ≤ 1 / 72 := by
    have hC : C ≤ |C| + 1 := by linarith [le_abs_self C]
    have hp : 0 < |C| + 1 := by positivity
    calc C * h ≤ (|C| + 1) * h := mul_le_mul_of_nonneg_right hC hpos.le
      _ ≤ (|C| + 1) * (1 / (72 * (|C| + 1))) := mul_le_mul_of_nonneg_left hle2 hp.le
      _ = 1 / 72 := by field_simp
  have h12 : C * h * h ^ 2 ≤ 1 / 72 * h ^ 2 := mul_le_mul_of_nonneg_right h11 (by positivity)
  have h13 : 0 < h ^ 2 := by positivity
  rcases h6 with rfl | rfl <;> linarith

/-- In an odd dimension the last component of the output is never written, whatever the system and the
state. -/
theorem verlet_odd_dimension_ignored {sys : System} {k : ℕ} (hd : sys.dim = 2 * k + 1) {clc : Calc}
    (hclc : clc = verletStep ∨ clc = leapfrogStep) {t h : ℝ} {x dxdt xOut xErr : List ℝ}
    {r : List ℝ × List ℝ} (hr : clc sys t x dxdt h xOut xErr = .ret r) :
    r.1[2 * k]? = xOut[2 * k]? := by
  rcases hclc with rfl | rfl
  · exact verletStep_odd hd hr
  · exact leapfrogStep_odd hd hr

/-- Through the solver: `x' = 1`, `x(0) = 5` gives `x(1) = 0` instead of `6`. -/
theorem verlet_odd_dimension_wrong {clc : Calc} (hclc : clc = verletStep ∨ clc = leapfrogStep) :
    ∃ sol, integrateFixed ⟨1, fun _ _ _ => ret [1]⟩ clc [5] 0 1 1 = .ret sol ∧
      sol.getXValue 0 0 = .ret 5 ∧ sol.getXValue 1 0 = .ret 0 := by
  have hone : ∀ d : ℝ → List ℝ → List ℝ → Outcome (List ℝ),
      clc ⟨1, d⟩ = fun t x _ h xOut xErr => (d (t + h) xOut (zeros 1) >>= fun _ =>
        fill 1 xErr (fun _ => ret 0) >>= fun e => ret (xOut, e)) := by
    intro d
    funext t x dxdt h xOut xErr
    rcases hclc with rfl | rfl
    · simp only [verletStep, show (1 : ℕ) / 2 = 0 from rfl, fill, fillHigh, forRange, Outcome.bind_ret]
    · simp only [leapfrogStep, show (1 : ℕ) / 2 = 0 from rfl, fill, fillHigh, forRange, Outcome.bind_ret]
  have h0 := Sol.new_eq (n := 1) (N := 1) 0 1 one_pos
    (Or.inr ⟨by norm_num, by norm_num, by norm_num, by norm_num, by norm_num⟩)
  have h1 := Sol.fillValues_eq (ok := 0) (bad := 0) (n := 1) (c := 2) (m := 0) (k := 0) (t1 := 0)
    (t2 := 1) (fun _ => 0) (fun _ _ => 0) (by norm_num) 0 ![5]
  have h2 := Sol.fillValues_eq (ok := 0) (bad := 0) (n := 1) (c := 2) (m := 1) (k := 1) (t1 := 0)
    (t2 := 1) (fun j => if j = 0 then 0 else 0)
    (fun i j => if h : j = 0 ∧ i < 1 then ![5] ⟨i, h.2⟩ else 0) (by norm_num) (0 + (1 - 0) / 1) ![0]
  have e1 : ([5] : List ℝ) = List.ofFn (![5] : Fin 1 → ℝ) := by simp
  have e2 : (zeros 1 : List ℝ) = List.ofFn (![0] : Fin 1 → ℝ) := by simp [zeros]
  have e3 : fill 1 (zeros 1) (fun _ => ret 0) = .ret (List.ofFn (![0] : Fin 1 → ℝ)) :=
    fill_ofFn (zeros_length 1) (fun i => by simp)
  refine ⟨Sol.mk' 0 0 1 2 2 0 1 (fun j => if j = 1 then 0 + (1 - 0) / 1 else if j = 0 then 0 else 0)
    (fun i j => if h : j = 1 ∧ i < 1 then ![0] ⟨i, h.2⟩ else
      if h : j = 0 ∧ i < 1 then ![5] ⟨i, h.2⟩ else 0), ?_,
    (Sol.getXValue_eq (k := 0) (i := 0) _ _ le_rfl (by norm_num) (by norm_num)).trans (by simp),
    (Sol.getXValue_eq (k := 1) (i := 0) _ _ le_rfl (by norm_num) (by norm_num)).trans (by simp)⟩
  rw [integrateFixed]
  dsimp only
  rw [show (1 : ℤ) = ((1 : ℕ) : ℤ) from rfl, h0, Outcome.bind_ret, e1]
  rw [Nat.cast_zero] at h1
  rw [h1, Outcome.bind_ret, Int.toNat_natCast]
  simp only [forRange, Outcome.bind_ret, fixedBody, hone, e3, Int.cast_natCast]
  rw [e2]
  push_cast at h2 ⊢
  simp only [zero_add] at h2 ⊢
  rw [show max 0 1 = 1 from rfl, h2]
  rfl

/-! ## The hypotheses are met -/

example : ∃ y : Fin (1 + 1) → ℝ, ∃ e,
    verletStep oscSys 0 (List.ofFn (Fin.append ![1] ![0]))
        (List.ofFn (newton (m := 1) (fun _ q => -q) 0 (Fin.append ![1] ![0]))) (1 / 10) [0, 0] [0, 0]
      = .ret (List.ofFn y, e) ∧
    verletStep oscSys (0 + 1 / 10) (List.ofFn y) (List.ofFn (newton (m := 1) (fun _ q => -q) (0 + 1 / 10) y))
      (-(1 / 10)) [0, 0] [0, 0] = .ret (List.ofFn (Fin.append ![1] ![0]), e) :=
  verlet_reversible osc_computes 0 (1 / 10) ![1] ![0] rfl rfl

example : ∃ D : ((Fin 1 → ℝ) × (Fin 1 → ℝ)) →L[ℝ] ((Fin 1 → ℝ) × (Fin 1 → ℝ)),
    HasFDerivAt (phaseMap (fun _ q => -q) 0 (1 / 10)) D (![1], ![0]) ∧ ∀ z w, symp (D z) (D w) = symp z w :=
  verlet_symplectic 0 (1 / 10) ![1] ![0]
    (A := -ContinuousLinearMap.id ℝ _) (A' := -ContinuousLinearMap.id ℝ _)
    ((-ContinuousLinearMap.id ℝ (Fin 1 → ℝ)).hasFDerivAt) ((-ContinuousLinearMap.id ℝ (Fin 1 → ℝ)).hasFDerivAt)
    (fun x y => by simp) (fun x y => by simp)

example : ∃ sol X, integrateFixed oscSys leapfrogStep (List.ofFn (Fin.append ![1] ![0])) 0 10 (1000 : ℕ) = .ret sol ∧
    Reads (n := 1 + 1) sol 1000 0 10 X ∧ ∀ k ≤ 1000, ∀ i : Fin 1,
      upper (X k) i ^ 2 + 1 ^ 2 * (1 - ((10 - 0) / (1000 : ℕ)) ^ 2 * 1 ^ 2 / 4) * lower (X k) i ^ 2
        = ![(0 : ℝ)] i ^ 2 + 1 ^ 2 * (1 - ((10 - 0) / (1000 : ℕ)) ^ 2 * 1 ^ 2 / 4) * ![(1 : ℝ)] i ^ 2 :=
  verlet_oscillator (ω := 1) (by simpa using osc_computes) (Or.inr rfl) ![1] ![0] 0 10 (by norm_num) osc_fits rfl

end Verif.ODE
