import Verif.Deriv.Side

/-!
# Derivatives by Richardson extrapolation (C72)

`NDerRichardson`, `NSecDerRichardson` and `NThirdDerRichardson`, and their `Adaptive` aliases.  The function differentiated
is taken to have a finite value everywhere.
-/

set_option autoImplicit false

namespace Verif.Deriv

open Verif

/-! ## The model -/

/-- The inner loop (DerivationRealFunction.h:607-626): one column of the tableau.  The list is the part of the previous column
still to be used, `last` the entry of this column above, and the result lists the new entries with the error and answer
so far.  Simplified: the two columns that are read are kept instead of the square array, and a zero divisor is undefined. -/
noncomputable def richColumn (con2 : ℝ) : List ℝ → ℝ → ℝ → ℝ → ℝ → Outcome (List ℝ × ℝ × ℝ)
  | [], _, _, err, ans => .ret ([], err, ans)
  | p :: ps, last, fac, err, ans =>
    if fac - 1 = 0 then .ub
    else
      (richColumn con2 ps ((last * fac - p) / (fac - 1)) (fac * con2)
        (if max |(last * fac - p) / (fac - 1) - last| |(last * fac - p) / (fac - 1) - p| ≤ err then
          max |(last * fac - p) / (fac - 1) - last| |(last * fac - p) / (fac - 1) - p| else err)
        (if max |(last * fac - p) / (fac - 1) - last| |(last * fac - p) / (fac - 1) - p| ≤ err then
          (last * fac - p) / (fac - 1) else ans)).bind fun r =>
      .ret ((last * fac - p) / (fac - 1) :: r.1, r.2.1, r.2.2)

/-- The outer loop (DerivationRealFunction.h:600-631) with `n` rounds left; `prev` is the last column of the tableau. -/
noncomputable def richLoop (base : ℝ → ℝ) (con : ℝ) : ℕ → List ℝ → ℝ → ℝ → ℝ → Outcome (ℝ × ℝ)
  | 0, _, _, err, ans => .ret (ans, err)
  | n + 1, prev, hh, err, ans =>
    if con = 0 then .ub
    else (richColumn (con * con) prev (base (hh / con)) (con * con) err ans).bind fun r =>
      if 2 * r.2.1 ≤ |(base (hh / con) :: r.1).getLastD 0 - prev.getLastD 0| then .ret (r.2.2, r.2.1)
      else richLoop base con n (base (hh / con) :: r.1) (hh / con) r.2.1 r.2.2

/-- The body common to the three functions (DerivationRealFunction.h:578-635, 654-701, 720-771): `base t` is the difference
quotient with step `t`, `big` the largest finite value.  The result is the derivative and its error estimate.  A negative
depth makes the constructor of the tableau throw; depth zero writes the first entry of an empty tableau. -/
noncomputable def richardson (big : ℝ) (base : ℝ → ℝ) (h : ℝ) (maxIter : ℤ) (con : ℝ) : Outcome (ℝ × ℝ) :=
  if h = 0 then .ret (0, big)
  else if maxIter < 0 then .exn .lengthError
  else if maxIter = 0 then .ub
  else richLoop base con (maxIter.toNat - 1) [base h] h big (base h)

/-- The difference quotient of `NDerRichardson` (DerivationRealFunction.h:595, 604). -/
noncomputable def richBase1 (f : ℝ → ℝ) (x t : ℝ) : ℝ := (f (x + t) - f (x - t)) / (2 * t)

/-- The difference quotient of `NSecDerRichardson` (DerivationRealFunction.h:671, 678). -/
noncomputable def richBase2 (f : ℝ → ℝ) (x t : ℝ) : ℝ := (f (x + t) - 2 * f x + f (x - t)) / (t * t)

/-- The difference quotient of `NThirdDerRichardson` (DerivationRealFunction.h:737-738, 745-746). -/
noncomputable def richBase3 (f : ℝ → ℝ) (x t : ℝ) : ℝ :=
  (f (x + 2 * t) - 2 * f (x + t) + 2 * f (x - t) - f (x - 2 * t)) / (2 * (t * t * t))

/-- `NDerRichardson` (DerivationRealFunction.h:578-635). -/
noncomputable def nDerRichardson (big : ℝ) (f : ℝ → ℝ) (x h : ℝ) (maxIter : ℤ) (con : ℝ) : Outcome (ℝ × ℝ) :=
  richardson big (richBase1 f x) h maxIter con

/-- `NSecDerRichardson` (DerivationRealFunction.h:654-701). -/
noncomputable def nSecDerRichardson (big : ℝ) (f : ℝ → ℝ) (x h : ℝ) (maxIter : ℤ) (con : ℝ) : Outcome (ℝ × ℝ) :=
  richardson big (richBase2 f x) h maxIter con

/-- `NThirdDerRichardson` (DerivationRealFunction.h:720-771). -/
noncomputable def nThirdDerRichardson (big : ℝ) (f : ℝ → ℝ) (x h : ℝ) (maxIter : ℤ) (con : ℝ) : Outcome (ℝ × ℝ) :=
  richardson big (richBase3 f x) h maxIter con

/-- `NDerAdaptive` (DerivationRealFunction.h:792-795). -/
noncomputable def nDerAdaptive (big : ℝ) (f : ℝ → ℝ) (x : ℝ) : Outcome (ℝ × ℝ) := nDerRichardson big f x (1 / 10) 10 (7 / 5)

/-- `NSecDerAdaptive` (DerivationRealFunction.h:802-805). -/
noncomputable def nSecDerAdaptive (big : ℝ) (f : ℝ → ℝ) (x : ℝ) : Outcome (ℝ × ℝ) :=
  nSecDerRichardson big f x (1 / 10) 10 (7 / 5)

/-- `NThirdDerAdaptive` (DerivationRealFunction.h:812-815). -/
noncomputable def nThirdDerAdaptive (big : ℝ) (f : ℝ → ℝ) (x : ℝ) : Outcome (ℝ × ℝ) :=
  nThirdDerRichardson big f x (1 / 5) 10 (7 / 5)

/-! ## Every entry of the tableau is close to the derivative -/

/-- How much the extrapolations of a tableau of depth `n` can magnify the error of the difference quotients. -/
noncomputable def magnify (c : ℝ) (n : ℕ) : ℝ := ∏ m ∈ Finset.range n, (c ^ (m + 1) + 1) / (c ^ (m + 1) - 1)

theorem magnify_step {c : ℝ} (hc : 1 < c) (n : ℕ) : 1 ≤ (c ^ (n + 1) + 1) / (c ^ (n + 1) - 1) := by
  have h1 : 1 < c ^ (n + 1) := one_lt_pow₀ hc (by omega)
  rw [le_div_iff₀ (by linarith)]
  linarith

theorem magnify_mono {c : ℝ} (hc : 1 < c) : Monotone (magnify c) := by
  refine monotone_nat_of_le_succ fun n => ?_
  rw [magnify, magnify, Finset.prod_range_succ]
  exact le_mul_of_one_le_right (Finset.prod_nonneg fun m _ => by linarith [magnify_step hc m]) (magnify_step hc n)

theorem one_le_magnify {c : ℝ} (hc : 1 < c) (n : ℕ) : 1 ≤ magnify c n := by
  have := magnify_mono hc (Nat.zero_le n)
  simpa [magnify] using this

theorem extrapolate_close {c D E last p : ℝ} (hc : 1 < c) (j : ℕ) (hl : |last - D| ≤ magnify c j * E)
    (hp : |p - D| ≤ magnify c j * E) :
    |(last * c ^ (j + 1) - p) / (c ^ (j + 1) - 1) - D| ≤ magnify c (j + 1) * E := by
  have h1 : 1 < c ^ (j + 1) := one_lt_pow₀ hc (by omega)
  have h2 : (0 : ℝ) < c ^ (j + 1) - 1 := by linarith
  have e : (last * c ^ (j + 1) - p) / (c ^ (j + 1) - 1) - D =
      ((last - D) * c ^ (j + 1) - (p - D)) / (c ^ (j + 1) - 1) := by
    field_simp
    ring
  rw [e, abs_div, abs_of_pos h2, div_le_iff₀ h2, magnify, Finset.prod_range_succ, ← magnify]
  have e2 : magnify c j * ((c ^ (j + 1) + 1) / (c ^ (j + 1) - 1)) * E * (c ^ (j + 1) - 1) =
      magnify c j * E * c ^ (j + 1) + magnify c j * E := by
    field_simp
  rw [e2]
  refine (abs_sub _ _).trans (add_le_add ?_ hp)
  rw [abs_mul, abs_of_pos (by linarith : (0 : ℝ) < c ^ (j + 1))]
  exact mul_le_mul_of_nonneg_right hl (by linarith)

/-- Every entry of the column list, `j` being the index of its first one. -/
def ColClose (c D E : ℝ) : ℕ → List ℝ → Prop
  | _, [] => True
  | j, p :: ps => |p - D| ≤ magnify c j * E ∧ ColClose c D E (j + 1) ps

theorem richColumn_close {c D E : ℝ} (hc : 1 < c) {N : ℕ} : ∀ (ps : List ℝ) (j : ℕ) (last err ans : ℝ),
    j + ps.length ≤ N → ColClose c D E j ps → |last - D| ≤ magnify c j * E → |ans - D| ≤ magnify c N * E → 0 ≤ E →
    ∃ r, richColumn c ps last (c ^ (j + 1)) err ans = .ret r ∧ r.1.length = ps.length ∧ ColClose c D E (j + 1) r.1 ∧
      |r.2.2 - D| ≤ magnify c N * E ∧ r.2.1 ≤ err := by
  intro ps
  induction ps with
  | nil => intro j last err ans _ _ _ ha _; exact ⟨_, rfl, rfl, trivial, ha, le_rfl⟩
  | cons p ps ih =>
    intro j last err ans hN hps hl ha hE
    have hN' : j + 1 + ps.length ≤ N := by
      rw [List.length_cons] at hN
      omega
    have h1 : 1 < c ^ (j + 1) := one_lt_pow₀ hc (by omega)
    have hv := extrapolate_close hc j hl hps.1
    have hle : magnify c (j + 1) * E ≤ magnify c N * E :=
      mul_le_mul_of_nonneg_right (magnify_mono hc (by omega)) hE
    simp only [richColumn]
    rw [if_neg (by linarith)]
    obtain ⟨r, h2, h3, h4, h5, h6⟩ := ih (j + 1) ((last * c ^ (j + 1) - p) / (c ^ (j + 1) - 1))
      (if max |(last * c ^ (j + 1) - p) / (c ^ (j + 1) - 1) - last| |(last * c ^ (j + 1) - p) / (c ^ (j + 1) - 1) - p| ≤ err then
        max |(last * c ^ (j + 1) - p) / (c ^ (j + 1) - 1) - last| |(last * c ^ (j + 1) - p) / (c ^ (j + 1) - 1) - p| else err)
      (if max |(last * c ^ (j + 1) - p) / (c ^ (j + 1) - 1) - last| |(last * c ^ (j + 1) - p) / (c ^ (j + 1) - 1) - p| ≤ err then
        (last * c ^ (j + 1) - p) / (c ^ (j + 1) - 1) else ans) hN' hps.2 hv
      (by split_ifs; exacts [hv.trans hle, ha]) hE
    rw [show c ^ (j + 1) * c = c ^ (j + 1 + 1) by ring, h2]
    refine ⟨_, rfl, by simp [h3], ⟨hv, h4⟩, h5, h6.trans ?_⟩
    split_ifs with hi
    exacts [hi, le_rfl]

theorem richLoop_close {base : ℝ → ℝ} {con D E h0 : ℝ} (hcon : 1 < con * con) (hE : 0 ≤ E)
    (hb : ∀ t, t ≠ 0 → |t| ≤ |h0| → |base t - D| ≤ E) {N : ℕ} : ∀ (n : ℕ) (prev : List ℝ) (hh err ans : ℝ),
    n + prev.length ≤ N + 1 → ColClose (con * con) D E 0 prev → hh ≠ 0 → |hh| ≤ |h0| →
    |ans - D| ≤ magnify (con * con) N * E →
    ∃ v e, richLoop base con n prev hh err ans = .ret (v, e) ∧ |v - D| ≤ magnify (con * con) N * E ∧ e ≤ err := by
  intro n
  induction n with
  | zero => intro prev hh err ans _ _ _ _ ha; exact ⟨_, _, rfl, ha, le_rfl⟩
  | succ n ih =>
    intro prev hh err ans hN hp hh0 hhb ha
    have hc0 : con ≠ 0 := by
      rintro rfl
      norm_num at hcon
    have hc1 : 1 < |con| := by
      rw [← sq] at hcon
      exact (one_lt_sq_iff_one_lt_abs _).mp hcon
    have hlt : |hh / con| ≤ |h0| := by
      rw [abs_div]
      exact (div_le_self (abs_nonneg _) hc1.le).trans hhb
    have hb1 := hb (hh / con) (div_ne_zero hh0 hc0) hlt
    have hb0 : |base (hh / con) - D| ≤ magnify (con * con) 0 * E := by simpa [magnify] using hb1
    obtain ⟨r, h1, h2, h3, h4, h5⟩ := richColumn_close hcon (N := N) prev 0 (base (hh / con)) err ans (by omega) hp hb0 ha hE
    rw [zero_add, pow_one] at h1
    simp only [richLoop]
    rw [if_neg hc0, h1]
    dsimp only [Outcome.bind]
    split_ifs with hbr
    · exact ⟨_, _, rfl, h4, h5⟩
    · obtain ⟨v, e, h6, h7, h8⟩ := ih (base (hh / con) :: r.1) (hh / con) r.2.1 r.2.2 (by simp [h2]; omega) ⟨hb0, h3⟩
        (div_ne_zero hh0 hc0) hlt h4
      exact ⟨v, e, h6, h7, h8.trans h5⟩

/-- With steps shrinking, the result is within the magnified error of the difference quotients. -/
theorem richardson_close (big : ℝ) (base : ℝ → ℝ) (D E h : ℝ) (maxIter : ℕ) (con : ℝ) (hh : h ≠ 0) (hm : 0 < maxIter)
    (hcon : 1 < |con|) (hE : 0 ≤ E) (hb : ∀ t, t ≠ 0 → |t| ≤ |h| → |base t - D| ≤ E) :
    ∃ v e, richardson big base h maxIter con = .ret (v, e) ∧ |v - D| ≤ magnify (con * con) (maxIter - 1) * E ∧ e ≤ big := by
  have hc : 1 < con * con := by
    rw [← sq]
    exact (one_lt_sq_iff_one_lt_abs _).mpr hcon
  simp only [richardson]
  rw [if_neg hh, if_neg (by omega), if_neg (by omega)]
  have h0 := hb h hh le_rfl
  refine richLoop_close hc hE hb _ _ _ _ _ (by simp) ⟨by simpa [magnify] using h0, trivial⟩ hh le_rfl ?_
  exact h0.trans (le_mul_of_one_le_left hE (one_le_magnify hc _))

/-! ## Order of accuracy -/

theorem richBase_neg (f : ℝ → ℝ) (x t : ℝ) : richBase1 f x (-t) = richBase1 f x t ∧
    richBase2 f x (-t) = richBase2 f x t ∧ richBase3 f x (-t) = richBase3 f x t := by
  refine ⟨?_, ?_, ?_⟩
  · rw [richBase1, richBase1, show x + -t = x - t by ring, show x - -t = x + t by ring,
      show 2 * -t = -(2 * t) by ring, div_neg]
    ring
  · rw [richBase2, richBase2, show x + -t = x - t by ring, show x - -t = x + t by ring, neg_mul_neg]
    ring
  · rw [richBase3, richBase3, show x + 2 * -t = x - 2 * t by ring, show x - 2 * -t = x + 2 * t by ring,
      show x + -t = x - t by ring, show x - -t = x + t by ring, show 2 * (-t * -t * -t) = -(2 * (t * t * t)) by ring, div_neg]
    ring

theorem even_abs {b : ℝ → ℝ} (hb : ∀ t, b (-t) = b t) (t : ℝ) : b t = b |t| := by
  rcases abs_choice t with h | h <;> rw [h]
  exact (hb t).symm

/-- **C72.**  `NDerRichardson` is the first derivative up to a multiple of `M * h ^ 2`, whatever entry of the tableau it settles on;
`M` bounds the derivative of order 3 within the points used. -/
theorem nDerRichardson_order (big : ℝ) (f : ℝ → ℝ) (x h M : ℝ) (maxIter : ℕ) (con : ℝ) (hh : h ≠ 0) (hm : 0 < maxIter)
    (hcon : 1 < |con|) (hf : Smooth (fun y => some (f y)) f x (1 * |h|) 3 M) :
    ∃ v e, nDerRichardson big f x h maxIter con = .ret (v, e) ∧ e ≤ big ∧
      |v - deriv f x| ≤
        (∏ m ∈ Finset.range (maxIter - 1), ((con * con) ^ (m + 1) + 1) / ((con * con) ^ (m + 1) - 1)) * (1 / 6 * M * h ^ 2) := by
  have hM : 0 ≤ M := (abs_nonneg _).trans (hf.bound x (by rw [sub_self, abs_zero]; positivity))
  obtain ⟨v, e, h1, h2, h3⟩ := richardson_close big (richBase1 f x) (deriv f x) (1 / 6 * M * h ^ 2) h maxIter con hh hm hcon
    (by positivity) fun t ht htb => by
      rw [even_abs (fun t => (richBase_neg f x t).1) t]
      have ht' : 0 < |t| := abs_pos.mpr ht
      have hv := nDer2_value (f := fun y => some (f y)) (g := f) (x := x) ht' fun y _ => rfl
      have hb : nDer2Value (fun y => some (f y)) x |t| = some (richBase1 f x |t|) := by
        simp only [nDer2Value, richBase1, Option.bind_eq_bind, Option.bind_some]
      rw [hb, Option.some.injEq] at hv
      rw [hv]
      have hr : ∀ y, |y - x| ≤ 1 * |t| → |y - x| ≤ 1 * |h| := fun y hy => by linarith
      have := nDer2_stencil f x |t| M ht' (fun y hy => by exact_mod_cast hf.diff y (hr y hy)) fun y hy => hf.bound y (hr y hy)
      rw [iteratedDeriv_one] at this
      refine this.trans (mul_le_mul_of_nonneg_left ?_ (by positivity))
      rw [← sq_abs h]
      exact pow_le_pow_left₀ ht'.le htb 2
  exact ⟨v, e, h1, h3, h2⟩

/-- **C72.**  `NSecDerRichardson` is the second derivative up to a multiple of `M * h ^ 2`, whatever entry of the tableau it settles on;
`M` bounds the derivative of order 4 within the points used. -/
theorem nSecDerRichardson_order (big : ℝ) (f : ℝ → ℝ) (x h M : ℝ) (maxIter : ℕ) (con : ℝ) (hh : h ≠ 0) (hm : 0 < maxIter)
    (hcon : 1 < |con|) (hf : Smooth (fun y => some (f y)) f x (1 * |h|) 4 M) :
    ∃ v e, nSecDerRichardson big f x h maxIter con = .ret (v, e) ∧ e ≤ big ∧
      |v - iteratedDeriv 2 f x| ≤
        (∏ m ∈ Finset.range (maxIter - 1), ((con * con) ^ (m + 1) + 1) / ((con * con) ^ (m + 1) - 1)) * (1 / 12 * M * h ^ 2) := by
  have hM : 0 ≤ M := (abs_nonneg _).trans (hf.bound x (by rw [sub_self, abs_zero]; positivity))
  obtain ⟨v, e, h1, h2, h3⟩ := richardson_close big (richBase2 f x) (iteratedDeriv 2 f x) (1 / 12 * M * h ^ 2) h maxIter con hh hm hcon
    (by positivity) fun t ht htb => by
      rw [even_abs (fun t => (richBase_neg f x t).2.1) t]
      have ht' : 0 < |t| := abs_pos.mpr ht
      have hv := nSecDer2_value (f := fun y => some (f y)) (g := f) (x := x) ht' fun y _ => rfl
      have hb : nSecDer2Value (fun y => some (f y)) x |t| = some (richBase2 f x |t|) := by
        simp only [nSecDer2Value, richBase2, Option.bind_eq_bind, Option.bind_some, Option.some.injEq]
        ring
      rw [hb, Option.some.injEq] at hv
      rw [hv]
      have hr : ∀ y, |y - x| ≤ 1 * |t| → |y - x| ≤ 1 * |h| := fun y hy => by linarith
      have := nSecDer2_stencil f x |t| M ht' (fun y hy => by exact_mod_cast hf.diff y (hr y hy)) fun y hy => hf.bound y (hr y hy)
      skip
      refine this.trans (mul_le_mul_of_nonneg_left ?_ (by positivity))
      rw [← sq_abs h]
      exact pow_le_pow_left₀ ht'.le htb 2
  exact ⟨v, e, h1, h3, h2⟩

/-- **C72.**  `NThirdDerRichardson` is the third derivative up to a multiple of `M * h ^ 2`, whatever entry of the tableau it settles on;
`M` bounds the derivative of order 5 within the points used. -/
theorem nThirdDerRichardson_order (big : ℝ) (f : ℝ → ℝ) (x h M : ℝ) (maxIter : ℕ) (con : ℝ) (hh : h ≠ 0) (hm : 0 < maxIter)
    (hcon : 1 < |con|) (hf : Smooth (fun y => some (f y)) f x (2 * |h|) 5 M) :
    ∃ v e, nThirdDerRichardson big f x h maxIter con = .ret (v, e) ∧ e ≤ big ∧
      |v - iteratedDeriv 3 f x| ≤
        (∏ m ∈ Finset.range (maxIter - 1), ((con * con) ^ (m + 1) + 1) / ((con * con) ^ (m + 1) - 1)) * (17 / 60 * M * h ^ 2) := by
  have hM : 0 ≤ M := (abs_nonneg _).trans (hf.bound x (by rw [sub_self, abs_zero]; positivity))
  obtain ⟨v, e, h1, h2, h3⟩ := richardson_close big (richBase3 f x) (iteratedDeriv 3 f x) (17 / 60 * M * h ^ 2) h maxIter con hh hm hcon
    (by positivity) fun t ht htb => by
      rw [even_abs (fun t => (richBase_neg f x t).2.2) t]
      have ht' : 0 < |t| := abs_pos.mpr ht
      have hv := nThirdDer2_value (f := fun y => some (f y)) (g := f) (x := x) ht' fun y _ => rfl
      have hb : nThirdDer2Value (fun y => some (f y)) x |t| = some (richBase3 f x |t|) := by
        simp only [nThirdDer2Value, richBase3, Option.bind_eq_bind, Option.bind_some, Option.some.injEq]
        ring
      rw [hb, Option.some.injEq] at hv
      rw [hv]
      have hr : ∀ y, |y - x| ≤ 2 * |t| → |y - x| ≤ 2 * |h| := fun y hy => by linarith
      have := nThirdDer2_stencil f x |t| M ht' (fun y hy => by exact_mod_cast hf.diff y (hr y hy)) fun y hy => hf.bound y (hr y hy)
      skip
      refine this.trans (mul_le_mul_of_nonneg_left ?_ (by positivity))
      rw [← sq_abs h]
      exact pow_le_pow_left₀ ht'.le htb 2
  exact ⟨v, e, h1, h3, h2⟩

/-- **C72.**  With the default parameters the three derivatives are within `10` times the error of the plain difference
quotient of step `0.1` (`0.2` for the third derivative). -/
theorem adaptive_order (big : ℝ) (f : ℝ → ℝ) (x M1 M2 M3 : ℝ) (h1 : Smooth (fun y => some (f y)) f x (1 / 10) 3 M1)
    (h2 : Smooth (fun y => some (f y)) f x (1 / 10) 4 M2) (h3 : Smooth (fun y => some (f y)) f x (2 / 5) 5 M3) :
    (∃ v e, nDerAdaptive big f x = .ret (v, e) ∧ |v - deriv f x| ≤ 10 * (1 / 6 * M1 * (1 / 10) ^ 2)) ∧
    (∃ v e, nSecDerAdaptive big f x = .ret (v, e) ∧ |v - iteratedDeriv 2 f x| ≤ 10 * (1 / 12 * M2 * (1 / 10) ^ 2)) ∧
    (∃ v e, nThirdDerAdaptive big f x = .ret (v, e) ∧ |v - iteratedDeriv 3 f x| ≤ 10 * (17 / 60 * M3 * (1 / 5) ^ 2)) := by
  have hk : (∏ m ∈ Finset.range (10 - 1), (((7 / 5 : ℝ) * (7 / 5)) ^ (m + 1) + 1) / (((7 / 5 : ℝ) * (7 / 5)) ^ (m + 1) - 1)) ≤ 10 := by
    norm_num [Finset.prod_range_succ]
  have hc : (1 : ℝ) < |7 / 5| := by
    rw [abs_of_pos] <;> norm_num
  have hM : ∀ {r : ℝ} {n : ℕ} {M : ℝ}, 0 ≤ r → Smooth (fun y => some (f y)) f x r n M → 0 ≤ M := fun hr hs =>
    (abs_nonneg _).trans (hs.bound x (by rwa [sub_self, abs_zero]))
  refine ⟨?_, ?_, ?_⟩
  · obtain ⟨v, e, a, -, b⟩ := nDerRichardson_order big f x (1 / 10) M1 10 (7 / 5) (by norm_num) (by norm_num) hc
      (by rwa [abs_of_pos (by norm_num), one_mul])
    exact ⟨v, e, a, b.trans (mul_le_mul_of_nonneg_right hk (by have := hM (by norm_num) h1; positivity))⟩
  · obtain ⟨v, e, a, -, b⟩ := nSecDerRichardson_order big f x (1 / 10) M2 10 (7 / 5) (by norm_num) (by norm_num) hc
      (by rwa [abs_of_pos (by norm_num), one_mul])
    exact ⟨v, e, a, b.trans (mul_le_mul_of_nonneg_right hk (by have := hM (by norm_num) h2; positivity))⟩
  · obtain ⟨v, e, a, -, b⟩ := nThirdDerRichardson_order big f x (1 / 5) M3 10 (7 / 5) (by norm_num) (by norm_num) hc
      (by rw [abs_of_pos (by norm_num)]; norm_num; exact h3)
    exact ⟨v, e, a, b.trans (mul_le_mul_of_nonneg_right hk (by have := hM (by norm_num) h3; positivity))⟩

/-- The hypotheses hold for the sine, all of whose derivatives are bounded by one. -/
example (big : ℝ) (x : ℝ) : ∃ v e, nDerAdaptive big Real.sin x = .ret (v, e) ∧ |v - Real.cos x| ≤ 1 / 60 := by
  have hs : ∀ (r : ℝ) (n : ℕ), Smooth (fun y => some (Real.sin y)) Real.sin x r n 1 := fun r n =>
    ⟨fun _ _ => rfl, fun _ _ => Real.contDiff_sin.contDiffAt, fun y _ => Real.abs_iteratedDeriv_sin_le_one n y⟩
  obtain ⟨⟨v, e, h1, h2⟩, -⟩ := adaptive_order big Real.sin x 1 1 1 (hs _ _) (hs _ _) (hs _ _)
  refine ⟨v, e, h1, ?_⟩
  rw [Real.deriv_sin] at h2
  norm_num at h2 ⊢
  exact h2

/-! ## Exactness -/

theorem richColumn_const {c v : ℝ} (hc : 1 < c) : ∀ (n j : ℕ) (err ans : ℝ), 0 ≤ err →
    richColumn c (List.replicate n v) v (c ^ (j + 1)) err ans =
      .ret (List.replicate n v, (if n = 0 then err else 0), (if n = 0 then ans else v)) := by
  intro n
  induction n with
  | zero => intro j err ans _; rfl
  | succ n ih =>
    intro j err ans he
    have h1 : 1 < c ^ (j + 1) := one_lt_pow₀ hc (by omega)
    have hv : (v * c ^ (j + 1) - v) / (c ^ (j + 1) - 1) = v := by
      have : c ^ (j + 1) - 1 ≠ 0 := by linarith
      field_simp
    rw [List.replicate_succ, richColumn, if_neg (by linarith), hv, sub_self, abs_zero, max_self, if_pos he, if_pos he,
      show c ^ (j + 1) * c = c ^ (j + 1 + 1) by ring, ih (j + 1) 0 v le_rfl]
    simp [Outcome.bind]

theorem richColumn_quadratic {c c0 p last err ans : ℝ} (hc : 1 < c) (n : ℕ) (herr : 0 ≤ err)
    (hpl : last * c - p = c0 * (c - 1)) :
    richColumn c (p :: List.replicate n c0) last c err ans =
      .ret (List.replicate (n + 1) c0,
        (if n = 0 then (if max |c0 - last| |c0 - p| ≤ err then max |c0 - last| |c0 - p| else err) else 0),
        (if n = 0 then (if max |c0 - last| |c0 - p| ≤ err then c0 else ans) else c0)) := by
  have hv : (last * c - p) / (c - 1) = c0 := by
    rw [hpl]
    have : c - 1 ≠ 0 := by linarith
    field_simp
  have he : 0 ≤ (if max |c0 - last| |c0 - p| ≤ err then max |c0 - last| |c0 - p| else err) := by
    split_ifs
    exacts [le_max_of_le_left (abs_nonneg _), herr]
  rw [richColumn, if_neg (by linarith), hv, show c * c = c ^ (1 + 1) by ring, richColumn_const hc n 1 _ _ he]
  simp [Outcome.bind, List.replicate_succ]

theorem richLoop_exact {base : ℝ → ℝ} {c0 c1 con : ℝ} (hcon : 1 < con * con)
    (hb : ∀ t, t ≠ 0 → base t = c0 + c1 * t ^ 2) : ∀ (n k : ℕ) (hh err : ℝ), hh ≠ 0 → 0 ≤ err →
    ∃ e, richLoop base con n (base hh :: List.replicate (k + 1) c0) hh err c0 = .ret (c0, e) ∧ (n ≠ 0 → e = 0) ∧
      (err = 0 → e = 0) := by
  intro n
  induction n with
  | zero => intro k hh err _ _; exact ⟨err, rfl, fun h => absurd rfl h, id⟩
  | succ n ih =>
    intro k hh err hh0 he
    have hc0 : con ≠ 0 := by
      rintro rfl
      norm_num at hcon
    have hpl : base (hh / con) * (con * con) - base hh = c0 * (con * con - 1) := by
      rw [hb _ hh0, hb _ (div_ne_zero hh0 hc0)]
      field_simp
      ring
    rw [richLoop, if_neg hc0, richColumn_quadratic hcon (k + 1) he hpl]
    simp only [Outcome.bind, Nat.succ_ne_zero, if_false]
    split_ifs with hbr
    · exact ⟨0, rfl, fun _ => rfl, fun _ => rfl⟩
    · obtain ⟨e, h1, -, h2⟩ := ih (k + 1) (hh / con) 0 (div_ne_zero hh0 hc0) le_rfl
      exact ⟨e, h1, fun _ => h2 rfl, fun _ => h2 rfl⟩

/-- On a difference quotient that is quadratic in the step the result is exact. -/
theorem richardson_exact {big : ℝ} {base : ℝ → ℝ} {c0 c1 h : ℝ} {maxIter : ℕ} {con : ℝ} (hh : h ≠ 0) (hm : 2 ≤ maxIter)
    (hcon : 1 < |con|) (hb : ∀ t, t ≠ 0 → base t = c0 + c1 * t ^ 2) (hbig : |base h - c0| ≤ big) :
    ∃ e, richardson big base h maxIter con = .ret (c0, e) ∧ (3 ≤ maxIter → e = 0) := by
  have hc : 1 < con * con := by
    rw [← sq]
    exact (one_lt_sq_iff_one_lt_abs _).mpr hcon
  have hc0 : con ≠ 0 := by
    rintro rfl
    norm_num at hcon
  obtain ⟨m, rfl⟩ : ∃ m, maxIter = m + 2 := ⟨maxIter - 2, by omega⟩
  have hbig0 : 0 ≤ big := (abs_nonneg _).trans hbig
  have hpl : base (h / con) * (con * con) - base h = c0 * (con * con - 1) := by
    rw [hb _ hh, hb _ (div_ne_zero hh hc0)]
    field_simp
    ring
  have hle : |c0 - base (h / con)| ≤ |c0 - base h| := by
    rw [hb _ hh, hb _ (div_ne_zero hh hc0), show c0 - (c0 + c1 * (h / con) ^ 2) = -(c1 * (h / con) ^ 2) by ring,
      show c0 - (c0 + c1 * h ^ 2) = -(c1 * h ^ 2) by ring, abs_neg, abs_neg, abs_mul, abs_mul]
    refine mul_le_mul_of_nonneg_left ?_ (abs_nonneg _)
    rw [abs_of_nonneg (by positivity), abs_of_nonneg (by positivity), div_pow, sq con]
    exact div_le_self (by positivity) hc.le
  have hmax : max |c0 - base (h / con)| |c0 - base h| = |c0 - base h| := max_eq_right hle
  simp only [richardson]
  rw [if_neg hh, if_neg (by omega), if_neg (by omega), show ((m + 2 : ℕ) : ℤ).toNat - 1 = m + 1 by omega, richLoop, if_neg hc0,
    show [base h] = base h :: List.replicate 0 c0 from rfl, richColumn_quadratic hc 0 hbig0 hpl, hmax]
  have hbig' : |c0 - base h| ≤ big := by rwa [abs_sub_comm]
  simp only [Outcome.bind, if_true, if_pos hbig']
  split_ifs with hbr
  · refine ⟨_, rfl, fun _ => ?_⟩
    simp only [List.replicate_succ, List.replicate_zero, List.getLastD_cons, List.getLastD_nil] at hbr
    have := abs_nonneg (c0 - base h)
    linarith
  · obtain ⟨e, h1, h2, -⟩ := richLoop_exact hc hb m 0 (h / con) |c0 - base h| (div_ne_zero hh hc0) (abs_nonneg _)
    exact ⟨e, h1, fun h3 => h2 (by omega)⟩

theorem poly_taylor_coeffs (p : Polynomial ℝ) (n : ℕ) (hp : p.natDegree ≤ n) (x : ℝ) :
    ∃ a : ℕ → ℝ, (∀ t, p.eval (x + t) = ∑ k ∈ Finset.range (n + 1), a k * t ^ k) ∧
      (∀ t, p.eval (x - t) = ∑ k ∈ Finset.range (n + 1), a k * (-t) ^ k) ∧ p.eval x = a 0 ∧
      ∀ k, (k.factorial : ℝ) * a k = (Polynomial.derivative^[k] p).eval x := by
  have hT : ∀ t, p.eval (x + t) = ∑ k ∈ Finset.range (n + 1), (Polynomial.taylor x p).coeff k * t ^ k := fun t => by
    rw [add_comm, ← Polynomial.taylor_eval]
    exact Polynomial.eval_eq_sum_range' (by rw [Polynomial.natDegree_taylor]; omega) t
  refine ⟨fun k => (Polynomial.taylor x p).coeff k, hT, fun t => by rw [sub_eq_add_neg]; exact hT _,
    (Polynomial.taylor_coeff_zero ..).symm, fun k => ?_⟩
  beta_reduce
  rw [Polynomial.taylor_coeff, ← Polynomial.factorial_smul_hasseDeriv]
  simp [nsmul_eq_mul]

/-- **C72.**  `NDerRichardson` is exact on polynomials of degree up to four from depth two on, and says so from depth three
on.  The last hypothesis is that the error of the first difference quotient is not beyond the largest finite number. -/
theorem nDerRichardson_exact (big : ℝ) (p : Polynomial ℝ) (hp : p.natDegree ≤ 4) (x h : ℝ) (maxIter : ℕ) (con : ℝ)
    (hh : h ≠ 0) (hm : 2 ≤ maxIter) (hcon : 1 < |con|)
    (hbig : |(p.eval (x + h) - p.eval (x - h)) / (2 * h) - p.derivative.eval x| ≤ big) :
    ∃ e, nDerRichardson big (fun y => p.eval y) x h maxIter con = .ret (p.derivative.eval x, e) ∧ (3 ≤ maxIter → e = 0) := by
  obtain ⟨a, hT, hN, hT0, ha⟩ := poly_taylor_coeffs p 4 hp x
  have h1 : p.derivative.eval x = a 1 := by
    have := ha 1
    simp at this
    exact this.symm
  rw [h1] at hbig ⊢
  refine richardson_exact (c1 := a 3) hh hm hcon (fun t ht => ?_) hbig
  simp only [richBase1, hT, hN, Finset.sum_range_succ, Finset.sum_range_zero]
  field_simp
  ring

/-- **C72.**  `NSecDerRichardson` is exact on polynomials of degree up to five. -/
theorem nSecDerRichardson_exact (big : ℝ) (p : Polynomial ℝ) (hp : p.natDegree ≤ 5) (x h : ℝ) (maxIter : ℕ) (con : ℝ)
    (hh : h ≠ 0) (hm : 2 ≤ maxIter) (hcon : 1 < |con|)
    (hbig : |(p.eval (x + h) - 2 * p.eval x + p.eval (x - h)) / (h * h) - p.derivative.derivative.eval x| ≤ big) :
    ∃ e, nSecDerRichardson big (fun y => p.eval y) x h maxIter con = .ret (p.derivative.derivative.eval x, e) ∧
      (3 ≤ maxIter → e = 0) := by
  obtain ⟨a, hT, hN, hT0, ha⟩ := poly_taylor_coeffs p 5 hp x
  have h1 : p.derivative.derivative.eval x = 2 * a 2 := by
    have := ha 2
    simp [Nat.factorial] at this
    exact this.symm
  rw [h1] at hbig ⊢
  refine richardson_exact (c1 := 2 * a 4) hh hm hcon (fun t ht => ?_) hbig
  simp only [richBase2, hT, hN, hT0, Finset.sum_range_succ, Finset.sum_range_zero]
  field_simp
  ring

/-- **C72.**  `NThirdDerRichardson` is exact on polynomials of degree up to six. -/
theorem nThirdDerRichardson_exact (big : ℝ) (p : Polynomial ℝ) (hp : p.natDegree ≤ 6) (x h : ℝ) (maxIter : ℕ) (con : ℝ)
    (hh : h ≠ 0) (hm : 2 ≤ maxIter) (hcon : 1 < |con|)
    (hbig : |(p.eval (x + 2 * h) - 2 * p.eval (x + h) + 2 * p.eval (x - h) - p.eval (x - 2 * h)) / (2 * (h * h * h)) -
      p.derivative.derivative.derivative.eval x| ≤ big) :
    ∃ e, nThirdDerRichardson big (fun y => p.eval y) x h maxIter con = .ret (p.derivative.derivative.derivative.eval x, e) ∧
      (3 ≤ maxIter → e = 0) := by
  obtain ⟨a, hT, hN, hT0, ha⟩ := poly_taylor_coeffs p 6 hp x
  have h1 : p.derivative.derivative.derivative.eval x = 6 * a 3 := by
    have := ha 3
    simp [Nat.factorial] at this
    linarith
  rw [h1] at hbig ⊢
  refine richardson_exact (c1 := 30 * a 5) hh hm hcon (fun t ht => ?_) hbig
  simp only [richBase3, hT, hN, hT0, Finset.sum_range_succ, Finset.sum_range_zero]
  field_simp
  ring

/-- The hypotheses hold for `X ^ 4 + X` at one, with the default parameters. -/
example : ∃ e, nDerRichardson 1000 (fun y => (Polynomial.X ^ 4 + Polynomial.X : Polynomial ℝ).eval y) 1 (1 / 10) 10 (7 / 5) =
    .ret (5, e) ∧ e = 0 := by
  have hd : (Polynomial.X ^ 4 + Polynomial.X : Polynomial ℝ).derivative.eval 1 = 5 := by norm_num
  obtain ⟨e, h1, h2⟩ := nDerRichardson_exact 1000 (Polynomial.X ^ 4 + Polynomial.X) (by
    refine (Polynomial.natDegree_add_le _ _).trans ?_
    simp) 1 (1 / 10) 10 (7 / 5) (by norm_num) (by norm_num) (by rw [abs_of_pos] <;> norm_num) (by
      rw [hd]
      norm_num [abs_of_pos])
  rw [hd] at h1
  exact ⟨e, h1, h2 (by norm_num)⟩

/-! ## What the guards do, and what the error estimate does not say -/

/-- **C72.**  A zero step gives zero with the largest error; a negative depth throws; depth zero, or a shrinking factor of
zero or of modulus one with at least two rounds, is undefined behaviour. -/
theorem richardson_guards (big : ℝ) (base : ℝ → ℝ) (h : ℝ) (maxIter : ℤ) (con : ℝ) :
    richardson big base 0 maxIter con = .ret (0, big) ∧
    (h ≠ 0 → maxIter < 0 → richardson big base h maxIter con = .exn .lengthError) ∧
    (h ≠ 0 → richardson big base h 0 con = .ub) ∧
    (h ≠ 0 → 2 ≤ maxIter → con = 0 ∨ |con| = 1 → richardson big base h maxIter con = .ub) := by
  refine ⟨by simp [richardson], fun h0 h1 => by simp [richardson, h0, h1], fun h0 => by simp [richardson, h0], ?_⟩
  intro h0 h1 h2
  obtain ⟨m, hm⟩ : ∃ m : ℕ, maxIter.toNat - 1 = m + 1 := ⟨maxIter.toNat - 2, by omega⟩
  rw [richardson, if_neg h0, if_neg (by omega), if_neg (by omega), hm, richLoop]
  rcases h2 with h2 | h2
  · rw [if_pos h2]
  · have hc : con * con = 1 := by rw [← sq, ← sq_abs, h2, one_pow]
    have hc0 : con ≠ 0 := by
      rintro rfl
      norm_num at h2
    rw [if_neg hc0, hc, richColumn, if_pos (by norm_num)]
    rfl

/-- **C72, negated.**  The reported error does not bound the true one: for `y ^ 5 - (5 / 16) y ^ 3 + y / 64` at zero, whose
derivative is `1 / 64`, the extrapolation with step one halved each time returns zero with an error of zero, at every depth
from three on. -/
theorem richardson_error_not_bound (big : ℝ) (hbig : 1 ≤ big) (n : ℕ) :
    deriv (fun y : ℝ => y ^ 5 - 5 / 16 * y ^ 3 + y / 64) 0 = 1 / 64 ∧
    nDerRichardson big (fun y => y ^ 5 - 5 / 16 * y ^ 3 + y / 64) 0 1 (n + 3 : ℕ) 2 = .ret (0, 0) := by
  constructor
  · have : HasDerivAt (fun y : ℝ => y ^ 5 - 5 / 16 * y ^ 3 + y / 64) (5 * 0 ^ 4 * 1 - 5 / 16 * (3 * 0 ^ 2 * 1) + 1 / 64) 0 := by
      have h1 := ((hasDerivAt_id (0 : ℝ)).fun_pow 5)
      have h2 := (((hasDerivAt_id (0 : ℝ)).fun_pow 3).const_mul (5 / 16))
      have h3 := ((hasDerivAt_id (0 : ℝ)).div_const 64)
      simpa using (h1.fun_sub h2).fun_add h3
    rw [this.deriv]
    norm_num
  · have hb : ∀ t : ℝ, t ≠ 0 → richBase1 (fun y => y ^ 5 - 5 / 16 * y ^ 3 + y / 64) 0 t = t ^ 4 - 5 / 16 * t ^ 2 + 1 / 64 := by
      intro t ht
      rw [richBase1]
      field_simp
      ring
    have e0 := hb 1 (by norm_num)
    have e1 := hb (1 / 2) (by norm_num)
    have e2 := hb (1 / 2 / 2) (by norm_num)
    norm_num at e0 e1 e2
    rw [nDerRichardson, richardson, if_neg (by norm_num), if_neg (by omega), if_neg (by omega),
      show ((n + 3 : ℕ) : ℤ).toNat - 1 = n + 1 + 1 by omega]
    have b1 : (15 / 16 : ℝ) ≤ big := by linarith
    norm_num [richLoop, richColumn, Outcome.bind, e0, e1, e2, b1]

end Verif.Deriv
