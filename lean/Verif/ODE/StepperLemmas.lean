import Verif.ODE.StepperSpec
import Verif.ODE.VerletLemmas
import Mathlib.Tactic.Linarith
import Mathlib.Tactic.Positivity
import Mathlib.Tactic.FieldSimp

/-! # Helper lemmas: the adaptive steppers -/

set_option autoImplicit false

namespace Verif.ODE

open Outcome

variable {n : ℕ}

theorem epsR_pos : 0 < epsR := by unfold epsR; positivity
theorem tinyR_pos : 0 < tinyR := by unfold tinyR; positivity

/-! ## The retry loop -/

theorem retryLoop_inl {R : Type} {attempt : Bool → ℝ → Outcome (R ⊕ ℝ)} {r : R} :
    ∀ (fuel : ℕ) (b : Bool) (h : ℝ), retryLoop attempt fuel b h = .ret r →
      ∃ b h, attempt b h = .ret (.inl r)
  | 0, _, _, hr => by cases hr
  | k + 1, b, h, hr => by
    rw [retryLoop] at hr
    obtain ⟨a, ha, hr⟩ := bind_eq_ret hr
    cases a with
    | inl r' => exact ⟨b, h, by rw [ha]; rw [Outcome.ret.inj hr]⟩
    | inr h' =>
      dsimp only at hr
      split_ifs at hr
      · exact retryLoop_inl k false h' hr

theorem retryLoop_rule {R : Type} {attempt : Bool → ℝ → Outcome (R ⊕ ℝ)} {P : ℝ → R → Prop}
    {test : ℝ → Prop} {c0 : ℝ} (hc0 : 0 < c0)
    (hatt : ∀ b h, (test h ∧ ∃ r, attempt b h = .ret (.inl r) ∧ P h r) ∨
      (¬ test h ∧ ∃ c, c0 ≤ c ∧ c ≤ 9 / 10 ∧ attempt b h = .ret (.inr (h * c)))) :
    ∀ (fuel : ℕ) (b : Bool) (h : ℝ), |h| * (9 / 10) ^ fuel < epsR → (0 < fuel ∨ epsR ≤ |h|) →
      (∃ c r, 0 < c ∧ c ≤ 1 ∧ retryLoop attempt fuel b h = .ret r ∧ P (h * c) r ∧ test (h * c) ∧
        (test h → c = 1)) ∨
      (retryLoop attempt fuel b h = .exn (.mml "ODESolverError") ∧ ¬ test h ∧
        ∃ c, 0 < c ∧ c ≤ 1 ∧ ¬ test (h * c) ∧ |h * c| * c0 < epsR)
  | 0, _, h, hf, h0 => by
    rcases h0 with h0 | h0
    · omega
    · simp at hf; linarith
  | k + 1, b, h, hf, _ => by
    rcases hatt b h with ⟨ht, r, hr, hP⟩ | ⟨ht, c, hc1, hc2, hr⟩
    · refine .inl ⟨1, r, one_pos, le_rfl, ?_, by rwa [mul_one], by rwa [mul_one], fun _ => rfl⟩
      rw [retryLoop, hr]
      rfl
    · have hcpos : 0 < c := lt_of_lt_of_le hc0 hc1
      by_cases hs : |h * c| < epsR
      · refine .inr ⟨?_, ht, 1, one_pos, le_rfl, by rwa [mul_one], ?_⟩
        · rw [retryLoop, hr, Outcome.bind_ret]
          exact if_pos hs
        · rw [mul_one]
          rw [abs_mul, abs_of_pos hcpos] at hs
          exact lt_of_le_of_lt (mul_le_mul_of_nonneg_left hc1 (abs_nonneg h)) hs
      · have e : retryLoop attempt (k + 1) b h = retryLoop attempt k false (h * c) := by
          rw [retryLoop, hr, Outcome.bind_ret]
          exact if_neg hs
        have hf' : |h * c| * (9 / 10) ^ k < epsR := by
          refine lt_of_le_of_lt ?_ hf
          rw [abs_mul, abs_of_pos hcpos, pow_succ]
          have : |h| * c ≤ |h| * (9 / 10) := mul_le_mul_of_nonneg_left hc2 (abs_nonneg h)
          calc |h| * c * (9 / 10) ^ k ≤ |h| * (9 / 10) * (9 / 10) ^ k :=
                mul_le_mul_of_nonneg_right this (by positivity)
            _ = |h| * ((9 / 10) ^ k * (9 / 10)) := by ring
        rw [e]
        rcases retryLoop_rule hc0 hatt k false (h * c) hf' (.inr (not_lt.mp hs)) with
          ⟨c', r, h1, h2, h3, h4, h5, h6⟩ | ⟨h1, h2, c', h3, h4, h5, h6⟩
        · refine .inl ⟨c * c', r, by positivity, by nlinarith, h3, by rwa [← mul_assoc],
            by rwa [← mul_assoc], fun h => absurd h ht⟩
        · exact .inr ⟨h1, ht, c * c', by positivity, by nlinarith, by rwa [← mul_assoc],
            by rwa [← mul_assoc]⟩

theorem attempts_enough (h : ℝ) : |h| * (9 / 10) ^ attempts h < epsR := by
  have h1 : 1 + (attempts h : ℝ) * (1 / 9) ≤ (1 + 1 / 9) ^ attempts h :=
    one_add_mul_le_pow (by norm_num) _
  have h2 : 9 * |h| / epsR ≤ attempts h := by
    refine (Nat.le_ceil _).trans ?_
    rw [attempts]
    push_cast
    linarith
  have h3 : |h| / epsR < (1 + 1 / 9 : ℝ) ^ attempts h := by
    have : |h| / epsR = (9 * |h| / epsR) * (1 / 9) := by ring
    linarith
  have h4 : (9 / 10 : ℝ) ^ attempts h = ((1 + 1 / 9 : ℝ) ^ attempts h)⁻¹ := by
    rw [← inv_pow]; norm_num
  have h5 : (0 : ℝ) < (1 + 1 / 9 : ℝ) ^ attempts h := by positivity
  rw [h4, ← div_eq_mul_inv, div_lt_iff₀ h5]
  rw [div_lt_iff₀ epsR_pos] at h3
  linarith

theorem attempts_pos (h : ℝ) : 0 < attempts h := by unfold attempts; omega

/-! ## The step size factors -/

theorem growth_bounds {lo hi : ℝ} (c a e g : ℝ) (h : lo ≤ hi) :
    lo ≤ growth lo hi c a e g ∧ growth lo hi c a e g ≤ hi := by
  unfold growth
  split_ifs
  · exact ⟨le_max_left _ _, max_le h le_rfl⟩
  · exact ⟨le_max_left _ _, max_le h (min_le_left _ _)⟩

theorem shrink_bounds {a e : ℝ} (ha : 0 ≤ a) (he : 1 < e) :
    2 / 10 ≤ shrink (2 / 10) (9 / 10) a e ∧ shrink (2 / 10) (9 / 10) a e ≤ 9 / 10 := by
  unfold shrink
  refine ⟨le_max_left _ _, max_le (by norm_num) ?_⟩
  have : e ^ (-a) ≤ 1 := Real.rpow_le_one_of_one_le_of_nonpos he.le (by linarith)
  linarith

theorem ckReduce_eq {h e : ℝ} (he : 1 < e) :
    ∃ c, 1 / 10 ≤ c ∧ c ≤ 9 / 10 ∧ ckReduce h e = h * c := by
  have h1 : e ^ (-(1 / 4) : ℝ) ≤ 1 := Real.rpow_le_one_of_one_le_of_nonpos he.le (by norm_num)
  refine ⟨max (9 / 10 * e ^ (-(1 / 4) : ℝ)) (1 / 10), le_max_right _ _, max_le (by linarith) (by norm_num), ?_⟩
  unfold ckReduce
  split_ifs with h0
  · rw [mul_max_of_nonneg _ _ h0]
    congr 1 <;> ring
  · rw [← neg_neg h, neg_mul, mul_max_of_nonneg _ _ (by linarith : 0 ≤ -h), ← min_neg_neg]
    congr 1 <;> ring

theorem ckNext_eq {h e : ℝ} (he : e ≤ 1) : ∃ g, 9 / 10 ≤ g ∧ g ≤ 5 ∧ ckNext h e = h * g := by
  unfold ckNext
  split_ifs with h0
  · have hpos : 0 < e := lt_trans (by norm_num) h0
    refine ⟨9 / 10 * e ^ (-(2 / 10) : ℝ), ?_, ?_, by ring⟩
    · have : 1 ≤ e ^ (-(2 / 10) : ℝ) :=
        Real.one_le_rpow_of_pos_of_le_one_of_nonpos hpos he (by norm_num)
      linarith
    · have h1 : e ^ (-(2 / 10) : ℝ) ≤ 50 / 9 := by
        have h2 : ((50 / 9 : ℝ) ^ 5) ^ (-(2 / 10) : ℝ) = (50 / 9)⁻¹ := by
          rw [← Real.rpow_natCast, ← Real.rpow_mul (by norm_num)]
          norm_num
          try rw [Real.rpow_neg_one]
        have h3 : (((50 / 9 : ℝ) ^ 5)⁻¹) ^ (-(2 / 10) : ℝ) = 50 / 9 := by
          rw [Real.inv_rpow (by norm_num), h2, inv_inv]
        rw [← h3]
        refine Real.rpow_le_rpow_of_nonpos (by positivity) ?_ (by norm_num)
        refine le_trans ?_ h0.le
        norm_num
      linarith
  · exact ⟨5, by norm_num, le_rfl, by ring⟩

/-! ## The error test -/

/-- `m` is the largest of the scaled errors (and zero). -/
def Largest (x k E : Fin n → ℝ) (h m : ℝ) : Prop :=
  0 ≤ m ∧ (∀ i, |E i| / (|x i| + |h * k i| + tinyR) ≤ m) ∧
    (m = 0 ∨ ∃ i, m = |E i| / (|x i| + |h * k i| + tinyR))

theorem err_run (x k : Fin n → ℝ) (h : ℝ) (row : List ℚ) (ks : List (List ℝ)) (E : Fin n → ℝ)
    (hE : ∀ i : Fin n, estimate h row ks i = .ret (E i)) :
    ∃ m, forRange n 0 (errBody (List.ofFn x) (List.ofFn k) h row ks) = .ret m ∧ Largest x k E h m := by
  obtain ⟨m, hm, h1, h2, h3⟩ := forRange_rule
    (fun j (m : ℝ) => 0 ≤ m ∧ (∀ i : Fin n, i.val < j → |E i| / (|x i| + |h * k i| + tinyR) ≤ m) ∧
      (m = 0 ∨ ∃ i, m = |E i| / (|x i| + |h * k i| + tinyR))) n 0
    (errBody (List.ofFn x) (List.ofFn k) h row ks) ⟨le_rfl, fun i hi => by omega, .inl rfl⟩
    (by
      rintro j m hj ⟨h1, h2, h3⟩
      refine ⟨max m (|E ⟨j, hj⟩| / (|x ⟨j, hj⟩| + |h * k ⟨j, hj⟩| + tinyR)), ?_, le_max_of_le_left h1,
        fun i hi => ?_, ?_⟩
      · have := hE ⟨j, hj⟩
        dsimp only at this
        rw [errBody, this, Outcome.bind_ret, index_ofFn x hj, Outcome.bind_ret, index_ofFn k hj,
          Outcome.bind_ret]
      · rcases Nat.lt_succ_iff_lt_or_eq.mp hi with h4 | h4
        · exact le_max_of_le_left (h2 i h4)
        · have : i = ⟨j, hj⟩ := Fin.ext h4
          rw [this]
          exact le_max_right _ _
      · rcases le_total m (|E ⟨j, hj⟩| / (|x ⟨j, hj⟩| + |h * k ⟨j, hj⟩| + tinyR)) with h4 | h4
        · exact .inr ⟨⟨j, hj⟩, max_eq_right h4⟩
        · rw [max_eq_left h4]
          exact h3)
  exact ⟨m, hm, h1, fun i => h2 i i.2, h3⟩

theorem Largest.test {x k E : Fin n → ℝ} {h m eps : ℝ} (hm : Largest x k E h m) (heps : 0 < eps) :
    m / eps ≤ 1 ↔ ∀ i, |E i| ≤ eps * (|x i| + |h * k i| + tinyR) := by
  have hp : ∀ i, 0 < |x i| + |h * k i| + tinyR := fun i => by
    have := tinyR_pos; positivity
  rw [div_le_one heps]
  constructor
  · intro h1 i
    exact (div_le_iff₀ (hp i)).mp ((hm.2.1 i).trans h1)
  · intro h1
    rcases hm.2.2 with h2 | ⟨i, h2⟩
    · rw [h2]; exact heps.le
    · rw [h2]
      exact (div_le_iff₀ (hp i)).mpr (h1 i)

/-! ## The three trials -/

/-- What the trial of a stepper computes when the first stage is the derivative at the start. -/
def Tries (trial : System → ℕ → ℝ → List ℝ → List ℝ → ℝ → Outcome Trial) (clc : Calc)
    (L : ∀ {n : ℕ}, (ℝ → (Fin n → ℝ) → Fin n → ℝ) → ℝ → (Fin n → ℝ) → ℝ → Fin n → ℝ) : Prop :=
  ∀ {n : ℕ} (sys : System) (f : ℝ → (Fin n → ℝ) → Fin n → ℝ), Computes sys f → ∀ t x h,
    ∃ (o e : Fin n → ℝ) (m : ℝ),
      clc sys t (List.ofFn x) (List.ofFn (f t x)) h (zeros n) (zeros n) = .ret (List.ofFn o, List.ofFn e) ∧
      trial sys n t (List.ofFn x) (List.ofFn (f t x)) h
        = .ret ⟨List.ofFn (f t x), List.ofFn (L f t x h), List.ofFn o, m⟩ ∧
      Largest x (f t x) e h m

theorem ck_tries : Tries ckTrial ckStep (fun f t x _ => f t x) := by
  intro n sys f hs t x h
  have h0 : ckT.stg f t x h 0 = f t x := ckT.stg_zero f t x h rfl
  obtain ⟨v1, e1, d1⟩ := ckT.stage_run hs t x h 1 (out := zeros n) (zeros_length n)
    (row := [CK.a21]) rfl rfl (c := CK.c2) rfl (ks := [List.ofFn (ckT.stg f t x h 0)]) rfl
  obtain ⟨v2, e2, d2⟩ := ckT.stage_run hs t x h 2 (out := List.ofFn v1) (by simp)
    (row := [CK.a31, CK.a32]) rfl rfl (c := CK.c3) rfl (ks := [List.ofFn (ckT.stg f t x h 0), List.ofFn (ckT.stg f t x h 1)]) rfl
  obtain ⟨v3, e3, d3⟩ := ckT.stage_run hs t x h 3 (out := List.ofFn v2) (by simp)
    (row := [CK.a41, CK.a42, CK.a43]) rfl rfl (c := CK.c4) rfl (ks := [List.ofFn (ckT.stg f t x h 0), List.ofFn (ckT.stg f t x h 1), List.ofFn (ckT.stg f t x h 2)]) rfl
  obtain ⟨v4, e4, d4⟩ := ckT.stage_run hs t x h 4 (out := List.ofFn v3) (by simp)
    (row := [CK.a51, CK.a52, CK.a53, CK.a54]) rfl rfl (c := CK.c5) rfl (ks := [List.ofFn (ckT.stg f t x h 0), List.ofFn (ckT.stg f t x h 1), List.ofFn (ckT.stg f t x h 2), List.ofFn (ckT.stg f t x h 3)]) rfl
  obtain ⟨v5, e5, d5⟩ := ckT.stage_run hs t x h 5 (out := List.ofFn v4) (by simp)
    (row := [CK.a61, CK.a62, CK.a63, CK.a64, CK.a65]) rfl rfl (c := CK.c6) rfl (ks := [List.ofFn (ckT.stg f t x h 0), List.ofFn (ckT.stg f t x h 1), List.ofFn (ckT.stg f t x h 2), List.ofFn (ckT.stg f t x h 3), List.ofFn (ckT.stg f t x h 4)]) rfl
  obtain ⟨m, hm, hL⟩ := err_run x (ckT.stg f t x h 0) h [CK.e1, CK.e3, CK.e4, CK.e5, CK.e6]
    [List.ofFn (ckT.stg f t x h 0), List.ofFn (ckT.stg f t x h 2), List.ofFn (ckT.stg f t x h 3), List.ofFn (ckT.stg f t x h 4), List.ofFn (ckT.stg f t x h 5)]
    (ckT.step ckT.b f t x h - ckT.step ckStar f t x h) (by
    intro i
    rw [estimate, combine_eq _ (fun j => ckT.stg f t x h ([0, 2, 3, 4, 5].getD j 0)) (r := 5) (le_refl 5)
      (ks := [List.ofFn (ckT.stg f t x h 0), List.ofFn (ckT.stg f t x h 2), List.ofFn (ckT.stg f t x h 3), List.ofFn (ckT.stg f t x h 4), List.ofFn (ckT.stg f t x h 5)]) rfl,
      Outcome.bind_ret]
    simp only [Tableau.step, show ckT.a.length = 6 from rfl, Finset.sum_range_succ,
      Finset.sum_range_zero, Pi.add_apply, Pi.sub_apply, Pi.smul_apply, smul_eq_mul, Pi.zero_apply,
      List.length_cons, List.length_nil, List.getD_cons_zero, List.getD_cons_succ, ckT, ckStar,
      CK.e1, CK.e3, CK.e4, CK.e5, CK.e6, CK.b2, CK.b5, CK.bstar2]
    push_cast
    congr 1
    ring
    )
  refine ⟨_, _, m, ckStep_eq hs t x h (zeros_length n) (zeros_length n), ?_, by rw [h0] at hL; exact hL⟩
  rw [ckTrial, ← h0, e1, Outcome.bind_ret, d1, Outcome.bind_ret, e2, Outcome.bind_ret, d2, Outcome.bind_ret, e3, Outcome.bind_ret, d3, Outcome.bind_ret, e4, Outcome.bind_ret, d4, Outcome.bind_ret, e5, Outcome.bind_ret, d5, Outcome.bind_ret,
    fill_ofFn (g := ckT.step ckT.b f t x h) (zeros_length n), Outcome.bind_ret, hm, Outcome.bind_ret]
  · simp only [h0]
  · intro i
    rw [advance, index_ofFn_fin, Outcome.bind_ret,
      combine_eq _ (fun j => ckT.stg f t x h ([0, 2, 3, 5].getD j 0)) (r := 4) (le_refl 4)
      (ks := [List.ofFn (ckT.stg f t x h 0), List.ofFn (ckT.stg f t x h 2), List.ofFn (ckT.stg f t x h 3), List.ofFn (ckT.stg f t x h 5)]) rfl,
      Outcome.bind_ret]
    simp only [Tableau.step, show ckT.a.length = 6 from rfl, Finset.sum_range_succ,
      Finset.sum_range_zero, Pi.add_apply, Pi.smul_apply, smul_eq_mul, Pi.zero_apply,
      List.length_cons, List.length_nil, List.getD_cons_zero, List.getD_cons_succ, ckT,
      CK.b2, CK.b5]
    push_cast
    congr 1
    ring

theorem dp5_last (f : ℝ → (Fin n → ℝ) → Fin n → ℝ) (t : ℝ) (x : Fin n → ℝ) (h : ℝ) :
    f (t + h) (dp5T.step dp5T.b f t x h) = dp5T.stg f t x h 6 := by
  rw [dp5T.stg_eq f t x h 6, show dp5T.C 6 = 1 from rfl, Rat.cast_one, one_mul]
  congr 1
  rw [Tableau.step, show dp5T.a.length = 6 + 1 from rfl, Finset.sum_range_succ]
  have : dp5T.b.getD 6 0 = 0 := rfl
  rw [this, Rat.cast_zero, zero_smul, add_zero]
  congr 2

theorem dp5_tries : Tries dp5Trial dp5Step (fun f t x h => f (t + h) (dp5T.step dp5T.b f t x h)) := by
  intro n sys f hs t x h
  have h0 : dp5T.stg f t x h 0 = f t x := dp5T.stg_zero f t x h rfl
  obtain ⟨v1, e1, d1⟩ := dp5T.stage_run hs t x h 1 (out := zeros n) (zeros_length n)
    (row := [DP5.a21]) rfl rfl (c := DP5.c2) rfl (ks := [List.ofFn (dp5T.stg f t x h 0)]) rfl
  obtain ⟨v2, e2, d2⟩ := dp5T.stage_run hs t x h 2 (out := List.ofFn v1) (by simp)
    (row := [DP5.a31, DP5.a32]) rfl rfl (c := DP5.c3) rfl (ks := [List.ofFn (dp5T.stg f t x h 0), List.ofFn (dp5T.stg f t x h 1)]) rfl
  obtain ⟨v3, e3, d3⟩ := dp5T.stage_run hs t x h 3 (out := List.ofFn v2) (by simp)
    (row := [DP5.a41, DP5.a42, DP5.a43]) rfl rfl (c := DP5.c4) rfl (ks := [List.ofFn (dp5T.stg f t x h 0), List.ofFn (dp5T.stg f t x h 1), List.ofFn (dp5T.stg f t x h 2)]) rfl
  obtain ⟨v4, e4, d4⟩ := dp5T.stage_run hs t x h 4 (out := List.ofFn v3) (by simp)
    (row := [DP5.a51, DP5.a52, DP5.a53, DP5.a54]) rfl rfl (c := DP5.c5) rfl (ks := [List.ofFn (dp5T.stg f t x h 0), List.ofFn (dp5T.stg f t x h 1), List.ofFn (dp5T.stg f t x h 2), List.ofFn (dp5T.stg f t x h 3)]) rfl
  obtain ⟨v5, e5, d5⟩ := dp5T.stage_run hs t x h 5 (out := List.ofFn v4) (by simp)
    (row := [DP5.a61, DP5.a62, DP5.a63, DP5.a64, DP5.a65]) rfl rfl (c := DP5.c6) rfl (ks := [List.ofFn (dp5T.stg f t x h 0), List.ofFn (dp5T.stg f t x h 1), List.ofFn (dp5T.stg f t x h 2), List.ofFn (dp5T.stg f t x h 3), List.ofFn (dp5T.stg f t x h 4)]) rfl
  obtain ⟨m, hm, hL⟩ := err_run x (dp5T.stg f t x h 0) h [DP5.e1, DP5.e3, DP5.e4, DP5.e5, DP5.e6, DP5.e7]
    [List.ofFn (dp5T.stg f t x h 0), List.ofFn (dp5T.stg f t x h 2), List.ofFn (dp5T.stg f t x h 3), List.ofFn (dp5T.stg f t x h 4), List.ofFn (dp5T.stg f t x h 5), List.ofFn (dp5T.stg f t x h 6)]
    (dp5T.step dp5T.b f t x h - dp5T.step dp5Star f t x h) (by
    intro i
    rw [estimate, combine_eq _ (fun j => dp5T.stg f t x h ([0, 2, 3, 4, 5, 6].getD j 0)) (r := 6) (le_refl 6)
      (ks := [List.ofFn (dp5T.stg f t x h 0), List.ofFn (dp5T.stg f t x h 2), List.ofFn (dp5T.stg f t x h 3), List.ofFn (dp5T.stg f t x h 4), List.ofFn (dp5T.stg f t x h 5), List.ofFn (dp5T.stg f t x h 6)]) rfl,
      Outcome.bind_ret]
    simp only [Tableau.step, show dp5T.a.length = 7 from rfl, Finset.sum_range_succ,
      Finset.sum_range_zero, Pi.add_apply, Pi.sub_apply, Pi.smul_apply, smul_eq_mul, Pi.zero_apply,
      List.length_cons, List.length_nil, List.getD_cons_zero, List.getD_cons_succ, dp5T, dp5Star,
      DP5.e1, DP5.e3, DP5.e4, DP5.e5, DP5.e6, DP5.e7, DP5.b2, DP5.bstar2]
    push_cast
    congr 1
    ring)
  refine ⟨_, _, m, dp5Step_eq hs t x h (zeros_length n) (zeros_length n), ?_, by rw [h0] at hL; exact hL⟩
  rw [dp5Trial, ← h0, e1, Outcome.bind_ret, d1, Outcome.bind_ret, e2, Outcome.bind_ret, d2, Outcome.bind_ret, e3, Outcome.bind_ret, d3, Outcome.bind_ret, e4, Outcome.bind_ret, d4, Outcome.bind_ret, e5, Outcome.bind_ret, d5, Outcome.bind_ret,
    fill_ofFn (g := dp5T.step dp5T.b f t x h) (zeros_length n), Outcome.bind_ret,
    hs.2 _ _ _ (zeros_length n), Outcome.bind_ret, dp5_last f t x h, hm, Outcome.bind_ret]
  · simp only [h0, dp5_last f t x h]
  · intro i
    rw [advance, index_ofFn_fin, Outcome.bind_ret,
      combine_eq _ (fun j => dp5T.stg f t x h ([0, 2, 3, 4, 5].getD j 0)) (r := 5) (le_refl 5)
      (ks := [List.ofFn (dp5T.stg f t x h 0), List.ofFn (dp5T.stg f t x h 2), List.ofFn (dp5T.stg f t x h 3), List.ofFn (dp5T.stg f t x h 4), List.ofFn (dp5T.stg f t x h 5)]) rfl,
      Outcome.bind_ret]
    simp only [Tableau.step, show dp5T.a.length = 7 from rfl, Finset.sum_range_succ,
      Finset.sum_range_zero, Pi.add_apply, Pi.smul_apply, smul_eq_mul, Pi.zero_apply,
      List.length_cons, List.length_nil, List.getD_cons_zero, List.getD_cons_succ, dp5T,
      DP5.b2, DP5.b7]
    push_cast
    congr 1
    ring

theorem dp8_tries : Tries dp8Trial dp8Step (fun f t x h => dp8T.stg f t x h 12) := by
  intro n sys f hs t x h
  have h0 : dp8T.stg f t x h 0 = f t x := dp8T.stg_zero f t x h rfl
  obtain ⟨v1, e1, d1⟩ := dp8T.stage_run hs t x h 1 (out := zeros n) (zeros_length n)
    (row := DP8.a2) rfl rfl (c := DP8.c.getD 1 0) rfl (ks := [List.ofFn (dp8T.stg f t x h 0)]) rfl
  obtain ⟨v2, e2, d2⟩ := dp8T.stage_run hs t x h 2 (out := List.ofFn v1) (by simp)
    (row := DP8.a3) rfl rfl (c := DP8.c.getD 2 0) rfl (ks := [List.ofFn (dp8T.stg f t x h 0), List.ofFn (dp8T.stg f t x h 1)]) rfl
  obtain ⟨v3, e3, d3⟩ := dp8T.stage_run hs t x h 3 (out := List.ofFn v2) (by simp)
    (row := DP8.a4) rfl rfl (c := DP8.c.getD 3 0) rfl (ks := [List.ofFn (dp8T.stg f t x h 0), List.ofFn (dp8T.stg f t x h 1), List.ofFn (dp8T.stg f t x h 2)]) rfl
  obtain ⟨v4, e4, d4⟩ := dp8T.stage_run hs t x h 4 (out := List.ofFn v3) (by simp)
    (row := DP8.a5) rfl rfl (c := DP8.c.getD 4 0) rfl (ks := [List.ofFn (dp8T.stg f t x h 0), List.ofFn (dp8T.stg f t x h 1), List.ofFn (dp8T.stg f t x h 2), List.ofFn (dp8T.stg f t x h 3)]) rfl
  obtain ⟨v5, e5, d5⟩ := dp8T.stage_run hs t x h 5 (out := List.ofFn v4) (by simp)
    (row := DP8.a6) rfl rfl (c := DP8.c.getD 5 0) rfl (ks := [List.ofFn (dp8T.stg f t x h 0), List.ofFn (dp8T.stg f t x h 1), List.ofFn (dp8T.stg f t x h 2), List.ofFn (dp8T.stg f t x h 3), List.ofFn (dp8T.stg f t x h 4)]) rfl
  obtain ⟨v6, e6, d6⟩ := dp8T.stage_run hs t x h 6 (out := List.ofFn v5) (by simp)
    (row := DP8.a7) rfl rfl (c := DP8.c.getD 6 0) rfl (ks := [List.ofFn (dp8T.stg f t x h 0), List.ofFn (dp8T.stg f t x h 1), List.ofFn (dp8T.stg f t x h 2), List.ofFn (dp8T.stg f t x h 3), List.ofFn (dp8T.stg f t x h 4), List.ofFn (dp8T.stg f t x h 5)]) rfl
  obtain ⟨v7, e7, d7⟩ := dp8T.stage_run hs t x h 7 (out := List.ofFn v6) (by simp)
    (row := DP8.a8) rfl rfl (c := DP8.c.getD 7 0) rfl (ks := [List.ofFn (dp8T.stg f t x h 0), List.ofFn (dp8T.stg f t x h 1), List.ofFn (dp8T.stg f t x h 2), List.ofFn (dp8T.stg f t x h 3), List.ofFn (dp8T.stg f t x h 4), List.ofFn (dp8T.stg f t x h 5), List.ofFn (dp8T.stg f t x h 6)]) rfl
  obtain ⟨v8, e8, d8⟩ := dp8T.stage_run hs t x h 8 (out := List.ofFn v7) (by simp)
    (row := DP8.a9) rfl rfl (c := DP8.c.getD 8 0) rfl (ks := [List.ofFn (dp8T.stg f t x h 0), List.ofFn (dp8T.stg f t x h 1), List.ofFn (dp8T.stg f t x h 2), List.ofFn (dp8T.stg f t x h 3), List.ofFn (dp8T.stg f t x h 4), List.ofFn (dp8T.stg f t x h 5), List.ofFn (dp8T.stg f t x h 6), List.ofFn (dp8T.stg f t x h 7)]) rfl
  obtain ⟨v9, e9, d9⟩ := dp8T.stage_run hs t x h 9 (out := List.ofFn v8) (by simp)
    (row := DP8.a10) rfl rfl (c := DP8.c.getD 9 0) rfl (ks := [List.ofFn (dp8T.stg f t x h 0), List.ofFn (dp8T.stg f t x h 1), List.ofFn (dp8T.stg f t x h 2), List.ofFn (dp8T.stg f t x h 3), List.ofFn (dp8T.stg f t x h 4), List.ofFn (dp8T.stg f t x h 5), List.ofFn (dp8T.stg f t x h 6), List.ofFn (dp8T.stg f t x h 7), List.ofFn (dp8T.stg f t x h 8)]) rfl
  obtain ⟨v10, e10, d10⟩ := dp8T.stage_run hs t x h 10 (out := List.ofFn v9) (by simp)
    (row := DP8.a11) rfl rfl (c := DP8.c.getD 10 0) rfl (ks := [List.ofFn (dp8T.stg f t x h 0), List.ofFn (dp8T.stg f t x h 1), List.ofFn (dp8T.stg f t x h 2), List.ofFn (dp8T.stg f t x h 3), List.ofFn (dp8T.stg f t x h 4), List.ofFn (dp8T.stg f t x h 5), List.ofFn (dp8T.stg f t x h 6), List.ofFn (dp8T.stg f t x h 7), List.ofFn (dp8T.stg f t x h 8), List.ofFn (dp8T.stg f t x h 9)]) rfl
  obtain ⟨v11, e11, d11⟩ := dp8T.stage_run hs t x h 11 (out := List.ofFn v10) (by simp)
    (row := DP8.a12) rfl rfl (c := DP8.c.getD 11 0) rfl (ks := [List.ofFn (dp8T.stg f t x h 0), List.ofFn (dp8T.stg f t x h 1), List.ofFn (dp8T.stg f t x h 2), List.ofFn (dp8T.stg f t x h 3), List.ofFn (dp8T.stg f t x h 4), List.ofFn (dp8T.stg f t x h 5), List.ofFn (dp8T.stg f t x h 6), List.ofFn (dp8T.stg f t x h 7), List.ofFn (dp8T.stg f t x h 8), List.ofFn (dp8T.stg f t x h 9), List.ofFn (dp8T.stg f t x h 10)]) rfl
  obtain ⟨v12, e12, d12⟩ := dp8T.stage_run hs t x h 12 (out := List.ofFn v11) (by simp)
    (row := DP8.a13) rfl rfl (c := DP8.c.getD 12 0) rfl (ks := [List.ofFn (dp8T.stg f t x h 0), List.ofFn (dp8T.stg f t x h 1), List.ofFn (dp8T.stg f t x h 2), List.ofFn (dp8T.stg f t x h 3), List.ofFn (dp8T.stg f t x h 4), List.ofFn (dp8T.stg f t x h 5), List.ofFn (dp8T.stg f t x h 6), List.ofFn (dp8T.stg f t x h 7), List.ofFn (dp8T.stg f t x h 8), List.ofFn (dp8T.stg f t x h 9), List.ofFn (dp8T.stg f t x h 10), List.ofFn (dp8T.stg f t x h 11)]) rfl
  obtain ⟨m, hm, hL⟩ := err_run x (dp8T.stg f t x h 0) h (diffs DP8.b8 DP8.b7)
    [List.ofFn (dp8T.stg f t x h 0), List.ofFn (dp8T.stg f t x h 1), List.ofFn (dp8T.stg f t x h 2), List.ofFn (dp8T.stg f t x h 3), List.ofFn (dp8T.stg f t x h 4), List.ofFn (dp8T.stg f t x h 5), List.ofFn (dp8T.stg f t x h 6), List.ofFn (dp8T.stg f t x h 7), List.ofFn (dp8T.stg f t x h 8), List.ofFn (dp8T.stg f t x h 9), List.ofFn (dp8T.stg f t x h 10), List.ofFn (dp8T.stg f t x h 11), List.ofFn (dp8T.stg f t x h 12)]
    (dp8T.step dp8T.b f t x h - dp8T.step DP8.b7 f t x h) (by
    intro i
    rw [estimate, combine_eq _ (dp8T.stg f t x h) (r := 13) (le_refl 13)
      (ks := [List.ofFn (dp8T.stg f t x h 0), List.ofFn (dp8T.stg f t x h 1), List.ofFn (dp8T.stg f t x h 2), List.ofFn (dp8T.stg f t x h 3), List.ofFn (dp8T.stg f t x h 4), List.ofFn (dp8T.stg f t x h 5), List.ofFn (dp8T.stg f t x h 6), List.ofFn (dp8T.stg f t x h 7), List.ofFn (dp8T.stg f t x h 8), List.ofFn (dp8T.stg f t x h 9), List.ofFn (dp8T.stg f t x h 10), List.ofFn (dp8T.stg f t x h 11), List.ofFn (dp8T.stg f t x h 12)]) rfl,
      Outcome.bind_ret]
    rw [Tableau.step, Tableau.step, add_sub_add_left_eq_sub, ← smul_sub, ← Finset.sum_sub_distrib,
      show dp8T.a.length = 13 from rfl, Pi.smul_apply, Finset.sum_apply, smul_eq_mul]
    congr 2
    refine Finset.sum_congr rfl fun j hj => ?_
    rw [← sub_smul, ← Rat.cast_sub]
    have hj' : j < 13 := Finset.mem_range.mp hj
    rw [Pi.smul_apply, smul_eq_mul]
    congr 2
    interval_cases j <;> rfl)
  refine ⟨_, _, m, dp8Step_eq hs t x h (zeros_length n) (zeros_length n), ?_, by rw [h0] at hL; exact hL⟩
  rw [dp8Trial, ← h0, e1, Outcome.bind_ret, d1, Outcome.bind_ret, e2, Outcome.bind_ret, d2, Outcome.bind_ret, e3, Outcome.bind_ret, d3, Outcome.bind_ret, e4, Outcome.bind_ret, d4, Outcome.bind_ret, e5, Outcome.bind_ret, d5, Outcome.bind_ret, e6, Outcome.bind_ret, d6, Outcome.bind_ret, e7, Outcome.bind_ret, d7, Outcome.bind_ret, e8, Outcome.bind_ret, d8, Outcome.bind_ret, e9, Outcome.bind_ret, d9, Outcome.bind_ret, e10, Outcome.bind_ret, d10, Outcome.bind_ret, e11, Outcome.bind_ret, d11, Outcome.bind_ret, e12, Outcome.bind_ret, d12, Outcome.bind_ret,
    fill_advance (by simp) x h _ (dp8T.stg f t x h) (r := 13) rfl
      (ks := [List.ofFn (dp8T.stg f t x h 0), List.ofFn (dp8T.stg f t x h 1), List.ofFn (dp8T.stg f t x h 2), List.ofFn (dp8T.stg f t x h 3), List.ofFn (dp8T.stg f t x h 4), List.ofFn (dp8T.stg f t x h 5), List.ofFn (dp8T.stg f t x h 6), List.ofFn (dp8T.stg f t x h 7), List.ofFn (dp8T.stg f t x h 8), List.ofFn (dp8T.stg f t x h 9), List.ofFn (dp8T.stg f t x h 10), List.ofFn (dp8T.stg f t x h 11), List.ofFn (dp8T.stg f t x h 12)]) rfl, Outcome.bind_ret, hm, Outcome.bind_ret]
  rfl

end Verif.ODE
