import Verif.Deriv.Mixed
import Mathlib.LinearAlgebra.Matrix.ToLin

/-!
# The Jacobians (C73)
-/

set_option autoImplicit false

namespace Verif.Deriv

open Verif

/-! ## Lemmas -/

theorem contDiff_affine {N : ℕ} (A : Fin N → ℝ) (c : ℝ) (n : ℕ) : ContDiff ℝ n fun q : Fin N → ℝ => ∑ k, A k * q k + c := by
  fun_prop

theorem fderiv_affine {N : ℕ} (A : Fin N → ℝ) (c : ℝ) (p v : Fin N → ℝ) :
    fderiv ℝ (fun q : Fin N → ℝ => ∑ k, A k * q k + c) p v = ∑ k, A k * v k := by
  have h : HasFDerivAt (fun q : Fin N → ℝ => ∑ k, A k * q k + c)
      (∑ k, A k • (ContinuousLinearMap.proj (R := ℝ) (φ := fun _ => ℝ) k : (Fin N → ℝ) →L[ℝ] ℝ)) p := by
    refine HasFDerivAt.add_const c (HasFDerivAt.fun_sum fun k _ => ?_)
    exact (hasFDerivAt_apply k p).const_mul (A k)
  rw [h.fderiv]
  simp

/-- Derivatives of affine functions of order two and more vanish. -/
theorem smoothAt_affine {N : ℕ} (A : Fin N → ℝ) (c : ℝ) (n : ℕ) (p : Fin N → ℝ) (r : ℝ) :
    SmoothAt (fun q : Fin N → ℝ => ∑ k, A k * q k + c) p r (n + 2) 0 := by
  refine ⟨fun q _ => (contDiff_affine A c (n + 2)).contDiffAt, fun q _ => ?_⟩
  rw [← norm_iteratedFDeriv_fderiv]
  have h : fderiv ℝ (fun q : Fin N → ℝ => ∑ k, A k * q k + c) = fun _ => fderiv ℝ (fun q : Fin N → ℝ => ∑ k, A k * q k + c) 0 := by
    funext q
    ext v
    simp only [fderiv_affine]
  rw [h, iteratedFDeriv_const_of_ne (by omega)]
  simp

/-! ## Jacobians of functions of any dimension -/

/-- The step used by the Jacobians of functions without a fixed dimension: `h`, or the default for a zero step. -/
noncomputable def dynStep (default h : ℝ) : ℝ := if h = 0 then default else |h|

theorem nDer4PartialDyn_order {N M : ℕ} (eps : ℝ) (heps : 0 < eps) (f : (Fin N → ℝ) → Fin M → ℝ) (k : Fin M) (j : Fin N) (p : Fin N → ℝ) (h B : ℝ)
    (hf : SmoothAt (fun q => f q k) p (2 * dynStep (eps ^ (1 / 5 : ℝ)) h) 5 B) :
    ∃ v, nDer4PartialDyn eps f k j p h = .ret v ∧
      |v - fderiv ℝ (fun q => f q k) p (Pi.single j 1)| ≤ 1 / 18 * B * dynStep (eps ^ (1 / 5 : ℝ)) h ^ 4 := by
  set g := if h = 0 then eps ^ (1 / 5 : ℝ) else h with hg
  have hg0 : g ≠ 0 := by
    by_cases h0 : h = 0
    · rw [hg, if_pos h0]
      positivity
    · rwa [hg, if_neg h0]
  have hs : dynStep (eps ^ (1 / 5 : ℝ)) h = |g| := by
    by_cases h0 : h = 0
    · rw [hg, dynStep, if_pos h0, if_pos h0, abs_of_pos (by positivity)]
    · rw [hg, dynStep, if_neg h0, if_neg h0]
  rw [hs] at hf ⊢
  have hpos : 0 < |g| := abs_pos.mpr hg0
  obtain ⟨v, e, h1, h2⟩ := nDer4Partial_order eps (fun q => f q k) j p |g| B (some |g|) false rfl hpos hf
  refine ⟨v, ?_, h2⟩
  rw [nDer4Partial, Option.getD_some, unchecked, if_neg hpos.ne'] at h1
  have h3 : nDer4Value (along (fun q => f q k) p j) (p j) |g| = some v := by
    simp only [Outcome.ret.injEq, Prod.mk.injEq] at h1
    exact h1.1
  simp only [nDer4PartialDyn, ← hg]
  rw [if_neg (by simpa using hg0)]
  simp only [nDer4Value, along, Option.bind_eq_bind, Option.bind_some, Option.some.injEq] at h3
  rw [← h3]
  congr 1
  rcases abs_choice g with hc | hc
  · rw [hc]
    field_simp
    ring
  · rw [hc]
    have e1 : p j + -g = p j - g := by ring
    have e2 : p j - -g = p j + g := by ring
    have e3 : p j + 2 * -g = p j - 2 * g := by ring
    have e4 : p j - 2 * -g = p j + 2 * g := by ring
    rw [e1, e2, e3, e4]
    field_simp
    ring

theorem nDer2PartialDyn_order {N M : ℕ} (eps : ℝ) (heps : 0 < eps) (f : (Fin N → ℝ) → Fin M → ℝ) (k : Fin M) (j : Fin N) (p : Fin N → ℝ) (h B : ℝ)
    (hf : SmoothAt (fun q => f q k) p (1 * dynStep (eps ^ (1 / 3 : ℝ)) h) 3 B) :
    ∃ v, nDer2PartialDyn eps f k j p h = .ret v ∧
      |v - fderiv ℝ (fun q => f q k) p (Pi.single j 1)| ≤ 1 / 6 * B * dynStep (eps ^ (1 / 3 : ℝ)) h ^ 2 := by
  set g := if h = 0 then eps ^ (1 / 3 : ℝ) else h with hg
  have hg0 : g ≠ 0 := by
    by_cases h0 : h = 0
    · rw [hg, if_pos h0]
      positivity
    · rwa [hg, if_neg h0]
  have hs : dynStep (eps ^ (1 / 3 : ℝ)) h = |g| := by
    by_cases h0 : h = 0
    · rw [hg, dynStep, if_pos h0, if_pos h0, abs_of_pos (by positivity)]
    · rw [hg, dynStep, if_neg h0, if_neg h0]
  rw [hs] at hf ⊢
  have hpos : 0 < |g| := abs_pos.mpr hg0
  obtain ⟨v, e, h1, h2⟩ := nDer2Partial_order eps (fun q => f q k) j p |g| B (some |g|) false rfl hpos hf
  refine ⟨v, ?_, h2⟩
  rw [nDer2Partial, Option.getD_some, unchecked, if_neg hpos.ne'] at h1
  have h3 : nDer2Value (along (fun q => f q k) p j) (p j) |g| = some v := by
    simp only [Outcome.ret.injEq, Prod.mk.injEq] at h1
    exact h1.1
  simp only [nDer2PartialDyn, ← hg]
  rw [if_neg (by simpa using hg0)]
  simp only [nDer2Value, along, Option.bind_eq_bind, Option.bind_some, Option.some.injEq] at h3
  rw [← h3]
  congr 1
  rcases abs_choice g with hc | hc
  · rw [hc]
  · rw [hc]
    have e1 : p j + -g = p j - g := by ring
    have e2 : p j - -g = p j + g := by ring
    rw [e1, e2]
    field_simp
    ring

/-- Row `a`, column `b` of a list of rows. -/
def Entries {N M : ℕ} (l : List (List ℝ)) (J : Fin M → Fin N → ℝ) : Prop :=
  ∃ hl : l.length = M, ∀ a : Fin M, ∃ hr : (l[a.val]'(by rw [hl]; exact a.isLt)).length = N, ∀ b : Fin N,
    (l[a.val]'(by rw [hl]; exact a.isLt))[b.val]'(by rw [hr]; exact b.isLt) = J a b

theorem collect_entries {N M : ℕ} (rule : Fin M → Fin N → Outcome ℝ) (P : Fin M → Fin N → ℝ → Prop)
    (h : ∀ a b, ∃ v, rule a b = .ret v ∧ P a b v) :
    ∃ l J, collect (fun a => collect fun b => rule a b) = .ret l ∧ Entries l J ∧ ∀ a b, P a b (J a b) := by
  choose J h1 h2 using h
  obtain ⟨l, h3, h4⟩ := collect_spec (fun a => collect fun b => rule a b)
    (fun a (row : List ℝ) => ∃ hr : row.length = N, ∀ b : Fin N, row[b.val]'(by rw [hr]; exact b.isLt) = J a b) fun a =>
    collect_spec (fun b => rule a b) (fun b (v : ℝ) => v = J a b) fun b => ⟨J a b, h1 a b, rfl⟩
  exact ⟨l, J, h3, h4, h2⟩

/-- **C73.**  `calcJacobianDyn` returns the matrix of the partial derivatives to fourth order in its step. -/
theorem calcJacobianDyn_order {N M : ℕ} (eps : ℝ) (heps : 0 < eps) (f : (Fin N → ℝ) → Fin M → ℝ) (p : Fin N → ℝ) (h B : ℝ)
    (hf : ∀ a, SmoothAt (fun q => f q a) p (2 * dynStep (eps ^ (1 / 5 : ℝ)) h) 5 B) :
    ∃ l J, calcJacobianDyn eps f p h = .ret l ∧ Entries l J ∧ ∀ a b,
      |J a b - fderiv ℝ f p (Pi.single b 1) a| ≤ 1 / 18 * B * dynStep (eps ^ (1 / 5 : ℝ)) h ^ 4 := by
  refine collect_entries (fun a b => nDer4PartialDyn eps f a b p h)
    (fun a b v => |v - fderiv ℝ f p (Pi.single b 1) a| ≤ 1 / 18 * B * dynStep (eps ^ (1 / 5 : ℝ)) h ^ 4) fun a b => ?_
  have hs : 0 ≤ dynStep (eps ^ (1 / 5 : ℝ)) h := by rw [dynStep]; split <;> positivity
  rw [fderiv_component fun a => (hf a).differentiableAt (by positivity)]
  exact nDer4PartialDyn_order eps heps f a b p h B (hf a)

/-- **C73.**  `calcJacobianDyn2` returns the matrix of the partial derivatives to second order in its step. -/
theorem calcJacobianDyn2_order {N M : ℕ} (eps : ℝ) (heps : 0 < eps) (f : (Fin N → ℝ) → Fin M → ℝ) (p : Fin N → ℝ) (h B : ℝ)
    (hf : ∀ a, SmoothAt (fun q => f q a) p (1 * dynStep (eps ^ (1 / 3 : ℝ)) h) 3 B) :
    ∃ l J, calcJacobianDyn2 eps f p h = .ret l ∧ Entries l J ∧ ∀ a b,
      |J a b - fderiv ℝ f p (Pi.single b 1) a| ≤ 1 / 6 * B * dynStep (eps ^ (1 / 3 : ℝ)) h ^ 2 := by
  refine collect_entries (fun a b => nDer2PartialDyn eps f a b p h)
    (fun a b v => |v - fderiv ℝ f p (Pi.single b 1) a| ≤ 1 / 6 * B * dynStep (eps ^ (1 / 3 : ℝ)) h ^ 2) fun a b => ?_
  have hs : 0 ≤ dynStep (eps ^ (1 / 3 : ℝ)) h := by rw [dynStep]; split <;> positivity
  rw [fderiv_component fun a => (hf a).differentiableAt (by positivity)]
  exact nDer2PartialDyn_order eps heps f a b p h B (hf a)

/-! ## Jacobians of right-hand sides and maps -/

theorem odeStep_pos {N : ℕ} (eps h : ℝ) (heps : 0 < eps) (x : Fin N → ℝ) (j : Fin N) : 0 < odeStep eps h x j := by
  rw [odeStep]
  split
  · positivity
  · have := Real.sqrt_pos.mpr heps
    positivity

theorem odeColumn_eq {N : ℕ} (F : (Fin N → ℝ) → Fin N → ℝ) (eps h : ℝ) (heps : 0 < eps) (x : Fin N → ℝ) (J : Fin N → Fin N → ℝ) (j : Fin N) :
    odeColumn F eps h x (x, J) j = .ret (x, fun a b => if b = j then (F (Function.update x j (x j + odeStep eps h x j)) a -
      F (Function.update x j (x j - odeStep eps h x j)) a) / (2 * odeStep eps h x j) else J a b) := by
  have := odeStep_pos eps h heps x j
  simp [odeColumn, this.ne', Function.update_idem, Function.update_eq_self]

theorem odeFold_eq {N : ℕ} (F : (Fin N → ℝ) → Fin N → ℝ) (eps h : ℝ) (heps : 0 < eps) (x : Fin N → ℝ) : ∀ (l : List (Fin N)) (J : Fin N → Fin N → ℝ),
    l.foldlM (odeColumn F eps h x) (x, J) = .ret (x, fun a b => if b ∈ l then (F (Function.update x b (x b + odeStep eps h x b)) a -
      F (Function.update x b (x b - odeStep eps h x b)) a) / (2 * odeStep eps h x b) else J a b)
  | [], J => by simp [Outcome.pure_eq]
  | j :: l, J => by
    rw [List.foldlM_cons, odeColumn_eq F eps h heps, Outcome.bind_ret, odeFold_eq F eps h heps x l]
    congr 2
    funext a b
    by_cases hb : b ∈ l
    · simp [hb]
    · by_cases hj : b = j
      · subst hj
        simp [hb]
      · simp [hb, hj]

/-- **C73.**  `calcJacobianODE` and `calcJacobianMap` return the matrix of the partial derivatives to second order in the step of the
variable, although all rounds of their loop work on one moving copy of the point. -/
theorem calcJacobianODE_order {N : ℕ} (F : (Fin N → ℝ) → Fin N → ℝ) (eps h : ℝ) (heps : 0 < eps) (x : Fin N → ℝ) (r B : ℝ) (hr0 : 0 ≤ r)
    (hr : ∀ j, odeStep eps h x j ≤ r) (hf : ∀ a, SmoothAt (fun q => F q a) x r 3 B) :
    ∃ J, calcJacobianODE F eps h x = .ret J ∧ ∀ a b, |J a b - fderiv ℝ F x (Pi.single b 1) a| ≤ 1 / 6 * B * odeStep eps h x b ^ 2 := by
  refine ⟨_, by rw [calcJacobianODE, odeFold_eq F eps h heps]; rfl, fun a b => ?_⟩
  simp only [List.mem_finRange, if_true]
  rw [fderiv_component fun a => (hf a).differentiableAt hr0]
  have hs := odeStep_pos eps h heps x b
  obtain ⟨v, e, h1, h2⟩ := nDer2Partial_order eps (fun q => F q a) b x (odeStep eps h x b) B (some (odeStep eps h x b)) false rfl hs
    ((hf a).mono (by rw [one_mul]; exact hr b))
  rw [nDer2Partial, Option.getD_some, unchecked, if_neg hs.ne'] at h1
  have h3 : nDer2Value (along (fun q => F q a) x b) (x b) (odeStep eps h x b) = some v := by
    simp only [Outcome.ret.injEq, Prod.mk.injEq] at h1
    exact h1.1
  simp only [nDer2Value, along, Option.bind_eq_bind, Option.bind_some, Option.some.injEq] at h3
  rw [h3]
  exact h2

/-! ## Exactness -/

/-- **C73.**  The Jacobians without a fixed dimension of an affine map are its matrix, with any step. -/
theorem calcJacobianDyn_affine {N M : ℕ} (eps : ℝ) (heps : 0 < eps) (A : Fin M → Fin N → ℝ) (c : Fin M → ℝ) (p : Fin N → ℝ) (h : ℝ) :
    (∃ l, calcJacobianDyn eps (fun q a => ∑ k, A a k * q k + c a) p h = .ret l ∧ Entries l A) ∧
    ∃ l, calcJacobianDyn2 eps (fun q a => ∑ k, A a k * q k + c a) p h = .ret l ∧ Entries l A := by
  have hd : ∀ a b, fderiv ℝ (fun q a => ∑ k, A a k * q k + c a) p (Pi.single b 1) a = A a b := fun a b => by
    rw [fderiv_component fun a => (contDiff_affine (A a) (c a) 1).contDiffAt.differentiableAt (by simp), fderiv_affine]
    simp [Pi.single_apply]
  constructor
  · obtain ⟨l, J, h1, h2, h3⟩ := calcJacobianDyn_order eps heps (fun q a => ∑ k, A a k * q k + c a) p h 0
      fun a => smoothAt_affine (A a) (c a) 3 p _
    have hJ : J = A := by
      funext a b
      rw [← hd a b]
      exact eq_of_abs_le (h3 a b)
    exact ⟨l, h1, hJ ▸ h2⟩
  · obtain ⟨l, J, h1, h2, h3⟩ := calcJacobianDyn2_order eps heps (fun q a => ∑ k, A a k * q k + c a) p h 0
      fun a => smoothAt_affine (A a) (c a) 1 p _
    have hJ : J = A := by
      funext a b
      rw [← hd a b]
      exact eq_of_abs_le (h3 a b)
    exact ⟨l, h1, hJ ▸ h2⟩

/-- **C73.**  The Jacobian of an affine right-hand side or map is its matrix, with any step. -/
theorem calcJacobianODE_affine {N : ℕ} (eps : ℝ) (heps : 0 < eps) (A : Fin N → Fin N → ℝ) (c : Fin N → ℝ) (x : Fin N → ℝ) (h : ℝ) :
    calcJacobianODE (fun q a => ∑ k, A a k * q k + c a) eps h x = .ret A := by
  obtain ⟨J, h1, h3⟩ := calcJacobianODE_order (fun q a => ∑ k, A a k * q k + c a) eps h heps x (∑ j, odeStep eps h x j) 0
    (Finset.sum_nonneg fun j _ => (odeStep_pos eps h heps x j).le)
    (fun j => Finset.single_le_sum (f := fun j => odeStep eps h x j) (fun j _ => (odeStep_pos eps h heps x j).le) (Finset.mem_univ j))
    fun a => smoothAt_affine (A a) (c a) 1 x _
  rw [h1]
  congr 1
  funext a b
  have hd : fderiv ℝ (fun q a => ∑ k, A a k * q k + c a) x (Pi.single b 1) a = A a b := by
    rw [fderiv_component fun a => (contDiff_affine (A a) (c a) 1).contDiffAt.differentiableAt (by simp), fderiv_affine]
    simp [Pi.single_apply]
  rw [← hd]
  exact eq_of_abs_le (h3 a b)

/-- A case with a map that is not affine: the hypotheses hold for the Hénon map. -/
example (eps : ℝ) (heps : 0 < eps) : ∃ B J, calcJacobianODE (fun q : Fin 2 → ℝ => ![1 - 1.4 * q 0 ^ 2 + q 1, 0.3 * q 0]) eps 0 ![1, 2] = .ret J ∧
    ∀ a b, |J a b - fderiv ℝ (fun q : Fin 2 → ℝ => ![1 - 1.4 * q 0 ^ 2 + q 1, 0.3 * q 0]) ![1, 2] (Pi.single b 1) a| ≤
      1 / 6 * B * odeStep eps 0 ![1, 2] b ^ 2 := by
  obtain ⟨B0, h0⟩ := smoothAt_of_contDiff (fun q : Fin 2 → ℝ => 1 - 1.4 * q 0 ^ 2 + q 1) 3 (by fun_prop) ![1, 2] (∑ j, odeStep eps 0 ![1, 2] j)
  obtain ⟨B1, h1⟩ := smoothAt_of_contDiff (fun q : Fin 2 → ℝ => 0.3 * q 0) 3 (by fun_prop) ![1, 2] (∑ j, odeStep eps 0 ![1, 2] j)
  refine ⟨max B0 B1, calcJacobianODE_order _ eps 0 heps ![1, 2] (∑ j, odeStep eps 0 ![1, 2] j) (max B0 B1)
    (Finset.sum_nonneg fun j _ => (odeStep_pos eps 0 heps ![1, 2] j).le)
    (fun j => Finset.single_le_sum (f := fun j => odeStep eps 0 ![1, 2] j) (fun j _ => (odeStep_pos eps 0 heps ![1, 2] j).le) (Finset.mem_univ j))
    fun a => ?_⟩
  fin_cases a
  · exact ⟨h0.diff, fun q hq => (h0.bound q hq).trans (le_max_left _ _)⟩
  · exact ⟨h1.diff, fun q hq => (h1.bound q hq).trans (le_max_right _ _)⟩

end Verif.Deriv
