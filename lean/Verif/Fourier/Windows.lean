import Verif.Fourier.Dct
import Mathlib.Tactic.Linarith
import Mathlib.Tactic.Positivity

/-!
# Window functions: model and property C64

`mml/algorithms/FourierWindowing.h`.  An element is `none` when the code divides zero by zero (a NaN).
-/

set_option autoImplicit false

noncomputable section

namespace Verif.Fourier.Windows

open Real (pi)

/-- `FourierValidation::ValidateWindowSize` (Fourier.h:144-148). -/
def validateWindowSize (n : ℤ) : Outcome Unit := if n ≤ 0 then .exn .invalidArgument else .ret ()

/-- Division of floating-point numbers, `none` for a division by zero (a NaN or an infinity). -/
def fdiv (a b : ℝ) : Option ℝ := if b = 0 then none else some (a / b)

/-- `Windows::Rectangular` (FourierWindowing.h:59-63). -/
def rectangular (n : ℤ) : Outcome (List (Option ℝ)) := do
  validateWindowSize n
  .ret (List.replicate n.toNat (some 1))

/-- `Windows::Hann` (FourierWindowing.h:75-86). -/
def hann (n : ℤ) : Outcome (List (Option ℝ)) := do
  validateWindowSize n
  if n = 1 then .ret [some 1]
  else .ret (tab n.toNat fun i => (fdiv (2 * pi * i) (n - 1)).map fun a => 1 / 2 * (1 - Real.cos a))

/-- `Windows::Hamming` (FourierWindowing.h:98-109). -/
def hamming (n : ℤ) : Outcome (List (Option ℝ)) := do
  validateWindowSize n
  if n = 1 then .ret [some 1]
  else .ret (tab n.toNat fun i => (fdiv (2 * pi * i) (n - 1)).map fun a => 54 / 100 - 46 / 100 * Real.cos a)

/-- `Windows::Blackman` (FourierWindowing.h:121-134). -/
def blackman (n : ℤ) : Outcome (List (Option ℝ)) := do
  validateWindowSize n
  if n = 1 then .ret [some 1]
  else .ret (tab n.toNat fun i => (fdiv (2 * pi * i) (n - 1)).map fun a =>
    42 / 100 - 1 / 2 * Real.cos a + 8 / 100 * Real.cos (2 * a))

/-- `Windows::Bartlett` (FourierWindowing.h:146-157). -/
def bartlett (n : ℤ) : Outcome (List (Option ℝ)) := do
  validateWindowSize n
  if n = 1 then .ret [some 1]
  else .ret (tab n.toNat fun i => (fdiv (2 * i) (n - 1)).map fun a => 1 - |a - 1|)

/-- `Windows::Welch` (FourierWindowing.h:169-182). -/
def welch (n : ℤ) : Outcome (List (Option ℝ)) := do
  validateWindowSize n
  if n = 1 then .ret [some 1]
  else .ret (tab n.toNat fun i => (fdiv (2 * i) (n - 1)).map fun a => 1 - (a - 1) * (a - 1))

/-- The loop of the series for the Bessel function (FourierWindowing.h:211-219): `k` is the loop counter,
`j` the number of iterations left. -/
def besselLoop (xHalf : ℝ) : ℕ → ℕ → ℝ → ℝ → ℝ
  | 0, _, _, sum => sum
  | j + 1, k, term, sum =>
    let term := term * (xHalf / k)
    let term := term * (xHalf / k)
    let sum := sum + term
    if term < 1 / 10 ^ 12 * sum then sum else besselLoop xHalf j (k + 1) term sum

/-- The lambda `bessel_i0` (FourierWindowing.h:206-222). -/
def besselI0 (x : ℝ) : ℝ := besselLoop (x / 2) 50 1 1 1

/-- `Windows::Kaiser` (FourierWindowing.h:201-234).  There is no special case for `n = 1`. -/
def kaiser (n : ℤ) (beta : ℝ) : Outcome (List (Option ℝ)) := do
  validateWindowSize n
  if beta < 0 then .exn .invalidArgument
  else .ret (tab n.toNat fun i => (fdiv (2 * i) (n - 1)).map fun a =>
    besselI0 (beta * Real.sqrt (1 - (a - 1) * (a - 1))) / besselI0 beta)

/-- `Windows::Gaussian` (FourierWindowing.h:251-265).  There is no special case for `n = 1`. -/
def gaussian (n : ℤ) (sigma : ℝ) : Outcome (List (Option ℝ)) := do
  validateWindowSize n
  if sigma ≤ 0 then .exn .invalidArgument
  else .ret (tab n.toNat fun i => (fdiv (i - (n - 1) / 2) (sigma * (n - 1) / 2)).map fun x =>
    Real.exp (-(1 / 2) * x * x))

/-! ## Specification -/

/-- A window of length `n`: all values are numbers between 0 and 1, and it is symmetric. -/
structure IsWindow (n : ℤ) (w : List (Option ℝ)) : Prop where
  length : (w.length : ℤ) = n
  number : ∀ i < w.length, ∃ v, w.getD i none = some v ∧ 0 ≤ v ∧ v ≤ 1
  symmetric : w.reverse = w

/-! ## Proofs -/

theorem tab_isWindow (m : ℕ) (g : ℕ → ℝ) (h : ∀ i < m, 0 ≤ g i ∧ g i ≤ 1)
    (hs : ∀ i < m, g (m - 1 - i) = g i) (f : ℕ → Option ℝ) (hf : ∀ i < m, f i = some (g i)) :
    IsWindow m (tab m f) := by
  refine ⟨by simp, ?_, ?_⟩
  · intro i hi
    rw [length_tab] at hi
    exact ⟨g i, by rw [getD_tab _ _ _ hi, hf i hi], h i hi⟩
  · apply List.ext_getElem?
    intro i
    by_cases hi : i < m
    · rw [List.getElem?_reverse (by simpa using hi), getElem?_tab, getElem?_tab, length_tab, if_pos (by omega),
        if_pos hi, hf _ (by omega), hf i hi, hs i hi]
    · rw [List.getElem?_eq_none (by simp; omega), List.getElem?_eq_none (by simp; omega)]

theorem one_isWindow : IsWindow 1 [some 1] := by
  refine ⟨by simp, ?_, by simp⟩
  intro i hi
  have : i = 0 := by simpa using hi
  subst this
  exact ⟨1, by simp, by norm_num, le_rfl⟩

theorem fdiv_eq (a : ℝ) {n : ℤ} (hn : n ≠ 1) : fdiv a ((n : ℝ) - 1) = some (a / ((n : ℝ) - 1)) := by
  rw [fdiv, if_neg]
  intro h
  exact hn (by exact_mod_cast sub_eq_zero.1 h)

/-- Angle of the mirrored sample. -/
theorem mirror (m i : ℕ) (hm : 2 ≤ m) (hi : i < m) (c : ℝ) :
    c * ((m - 1 - i : ℕ) : ℝ) / ((m : ℝ) - 1) = c - c * i / ((m : ℝ) - 1) := by
  have h0 : ((m : ℝ) - 1) ≠ 0 := by
    have : (2 : ℝ) ≤ m := by exact_mod_cast hm
    linarith
  have : ((m - 1 - i : ℕ) : ℝ) = (m : ℝ) - 1 - i := by
    rw [Nat.cast_sub (by omega), Nat.cast_sub (by omega)]; push_cast; ring
  rw [this]; field_simp

theorem frac_bounds (m i : ℕ) (hm : 2 ≤ m) (hi : i < m) :
    0 ≤ 2 * (i : ℝ) / ((m : ℝ) - 1) ∧ 2 * (i : ℝ) / ((m : ℝ) - 1) ≤ 2 := by
  have h0 : (0 : ℝ) < (m : ℝ) - 1 := by
    have : (2 : ℝ) ≤ m := by exact_mod_cast hm
    linarith
  have h1 : (i : ℝ) ≤ (m : ℝ) - 1 := by
    have : (i : ℝ) + 1 ≤ m := by exact_mod_cast hi
    linarith
  exact ⟨by positivity, by rw [div_le_iff₀ h0]; linarith⟩

/-- **C64.**  Every size is either rejected (not positive) or gives a window. -/
theorem windows_reject (n : ℤ) (hn : n ≤ 0) (b : ℝ) :
    rectangular n = .exn .invalidArgument ∧ hann n = .exn .invalidArgument ∧ hamming n = .exn .invalidArgument ∧
    blackman n = .exn .invalidArgument ∧ bartlett n = .exn .invalidArgument ∧ welch n = .exn .invalidArgument ∧
    kaiser n b = .exn .invalidArgument ∧ gaussian n b = .exn .invalidArgument := by
  simp [rectangular, hann, hamming, blackman, bartlett, welch, kaiser, gaussian, validateWindowSize, hn]

theorem cos_window (F : ℝ → ℝ) (hF : ∀ c : ℝ, -1 ≤ c → c ≤ 1 → 0 ≤ F c ∧ F c ≤ 1) (n : ℤ) (hn : 0 < n) (h1 : n ≠ 1)
    (f : ℕ → Option ℝ) (hf : ∀ i, f i = some (F (Real.cos (2 * pi * i / ((n : ℝ) - 1))))) :
    IsWindow n (tab n.toNat f) := by
  obtain ⟨m, rfl⟩ : ∃ m : ℕ, n = m := ⟨n.toNat, by omega⟩
  rw [Int.toNat_natCast]
  refine tab_isWindow m (fun i => F (Real.cos (2 * pi * i / ((m : ℝ) - 1)))) ?_ ?_ _ ?_
  · intro i _
    exact hF _ (Real.neg_one_le_cos _) (Real.cos_le_one _)
  · intro i hi
    rw [mirror m i (by omega) hi, Real.cos_two_pi_sub]
  · intro i _
    rw [hf i, Int.cast_natCast]

theorem rectangular_isWindow (n : ℤ) (hn : 0 < n) : ∃ w, rectangular n = .ret w ∧ IsWindow n w := by
  obtain ⟨m, rfl⟩ : ∃ m : ℕ, n = m := ⟨n.toNat, by omega⟩
  refine ⟨_, by simp only [rectangular, validateWindowSize, if_neg (show ¬ (m : ℤ) ≤ 0 by omega), Outcome.bind_ret]; rfl, ?_⟩
  rw [Int.toNat_natCast, replicate_eq_tab]
  exact tab_isWindow m (fun _ => 1) (fun _ _ => ⟨by norm_num, le_rfl⟩) (fun _ _ => rfl) _ (fun _ _ => rfl)

theorem hann_isWindow (n : ℤ) (hn : 0 < n) : ∃ w, hann n = .ret w ∧ IsWindow n w := by
  simp only [hann, validateWindowSize, if_neg (show ¬ n ≤ 0 by omega), Outcome.bind_ret]
  by_cases h : n = 1
  · subst h; exact ⟨_, if_pos rfl, one_isWindow⟩
  · rw [if_neg h]
    refine ⟨_, rfl, cos_window (fun c => 1 / 2 * (1 - c)) ?_ n hn h _ fun i => by rw [fdiv_eq _ h]; rfl⟩
    intro c h1 h2
    constructor <;> linarith

theorem hamming_isWindow (n : ℤ) (hn : 0 < n) : ∃ w, hamming n = .ret w ∧ IsWindow n w := by
  simp only [hamming, validateWindowSize, if_neg (show ¬ n ≤ 0 by omega), Outcome.bind_ret]
  by_cases h : n = 1
  · subst h; exact ⟨_, if_pos rfl, one_isWindow⟩
  · rw [if_neg h]
    refine ⟨_, rfl, cos_window (fun c => 54 / 100 - 46 / 100 * c) ?_ n hn h _ fun i => by rw [fdiv_eq _ h]; rfl⟩
    intro c h1 h2
    constructor <;> linarith

theorem blackman_isWindow (n : ℤ) (hn : 0 < n) : ∃ w, blackman n = .ret w ∧ IsWindow n w := by
  simp only [blackman, validateWindowSize, if_neg (show ¬ n ≤ 0 by omega), Outcome.bind_ret]
  by_cases h : n = 1
  · subst h; exact ⟨_, if_pos rfl, one_isWindow⟩
  · rw [if_neg h]
    refine ⟨_, rfl, cos_window (fun c => 42 / 100 - 1 / 2 * c + 8 / 100 * (2 * c ^ 2 - 1)) ?_ n hn h _ fun i => by
      rw [fdiv_eq _ h]
      simp only [Option.map_some, Real.cos_two_mul]⟩
    intro c h1 h2
    constructor
    · nlinarith [mul_nonneg (sub_nonneg.2 h2) (sub_nonneg.2 h2)]
    · nlinarith [mul_nonneg (sub_nonneg.2 h2) (by linarith : (0 : ℝ) ≤ 1 + c)]

theorem bartlett_isWindow (n : ℤ) (hn : 0 < n) : ∃ w, bartlett n = .ret w ∧ IsWindow n w := by
  simp only [bartlett, validateWindowSize, if_neg (show ¬ n ≤ 0 by omega), Outcome.bind_ret]
  by_cases h : n = 1
  · subst h; exact ⟨_, if_pos rfl, one_isWindow⟩
  · rw [if_neg h]
    obtain ⟨m, rfl⟩ : ∃ m : ℕ, n = m := ⟨n.toNat, by omega⟩
    rw [Int.toNat_natCast]
    refine ⟨_, rfl, tab_isWindow m (fun i => 1 - |2 * (i : ℝ) / ((m : ℝ) - 1) - 1|) ?_ ?_ _ ?_⟩
    · intro i hi
      obtain ⟨h1, h2⟩ := frac_bounds m i (by omega) hi
      have : |2 * (i : ℝ) / ((m : ℝ) - 1) - 1| ≤ 1 := by rw [abs_le]; constructor <;> linarith
      exact ⟨by linarith, by linarith [abs_nonneg (2 * (i : ℝ) / ((m : ℝ) - 1) - 1)]⟩
    · intro i hi
      rw [mirror m i (by omega) hi, ← abs_neg]
      congr 2; ring
    · intro i _
      rw [fdiv_eq _ h]
      simp

theorem welch_isWindow (n : ℤ) (hn : 0 < n) : ∃ w, welch n = .ret w ∧ IsWindow n w := by
  simp only [welch, validateWindowSize, if_neg (show ¬ n ≤ 0 by omega), Outcome.bind_ret]
  by_cases h : n = 1
  · subst h; exact ⟨_, if_pos rfl, one_isWindow⟩
  · rw [if_neg h]
    obtain ⟨m, rfl⟩ : ∃ m : ℕ, n = m := ⟨n.toNat, by omega⟩
    rw [Int.toNat_natCast]
    refine ⟨_, rfl, tab_isWindow m
      (fun i => 1 - (2 * (i : ℝ) / ((m : ℝ) - 1) - 1) * (2 * (i : ℝ) / ((m : ℝ) - 1) - 1)) ?_ ?_ _ ?_⟩
    · intro i hi
      obtain ⟨h1, h2⟩ := frac_bounds m i (by omega) hi
      constructor
      · nlinarith
      · nlinarith [mul_self_nonneg (2 * (i : ℝ) / ((m : ℝ) - 1) - 1)]
    · intro i hi
      rw [mirror m i (by omega) hi]
      ring
    · intro i _
      rw [fdiv_eq _ h]
      simp

theorem gaussian_isWindow_partial (n : ℤ) (hn : 1 < n) (sigma : ℝ) (hs : 0 < sigma) :
    ∃ w, gaussian n sigma = .ret w ∧ IsWindow n w := by
  simp only [gaussian, validateWindowSize, if_neg (show ¬ n ≤ 0 by omega), Outcome.bind_ret, if_neg (not_le.2 hs)]
  obtain ⟨m, rfl⟩ : ∃ m : ℕ, n = m := ⟨n.toNat, by omega⟩
  rw [Int.toNat_natCast]
  have h0 : (0 : ℝ) < (m : ℝ) - 1 := by
    have : (2 : ℝ) ≤ m := by exact_mod_cast hn
    linarith
  have h1 : sigma * ((m : ℝ) - 1) / 2 ≠ 0 := by positivity
  refine ⟨_, rfl, tab_isWindow m (fun i => Real.exp (-(1 / 2) * ((i - ((m : ℝ) - 1) / 2) / (sigma * ((m : ℝ) - 1) / 2)) *
    ((i - ((m : ℝ) - 1) / 2) / (sigma * ((m : ℝ) - 1) / 2)))) ?_ ?_ _ ?_⟩
  · intro i hi
    refine ⟨(Real.exp_pos _).le, ?_⟩
    rw [Real.exp_le_one_iff]
    nlinarith [mul_self_nonneg ((i - ((m : ℝ) - 1) / 2) / (sigma * ((m : ℝ) - 1) / 2))]
  · intro i hi
    have : ((m - 1 - i : ℕ) : ℝ) = (m : ℝ) - 1 - i := by
      rw [Nat.cast_sub (by omega), Nat.cast_sub (by omega)]; push_cast; ring
    rw [this]
    congr 1; ring
  · intro i _
    simp only [fdiv, Int.cast_natCast]
    rw [if_neg h1]; rfl

/-! The Kaiser window -/

theorem besselLoop_ge (xh : ℝ) (hx : 0 ≤ xh) : ∀ j k term sum, 0 ≤ term → sum ≤ besselLoop xh j k term sum := by
  intro j
  induction j with
  | zero => intro k term sum _; exact le_rfl
  | succ j ih =>
    intro k term sum ht
    rw [besselLoop]
    have h1 : 0 ≤ term * (xh / k) * (xh / k) := by positivity
    split_ifs
    · linarith
    · exact le_trans (by linarith) (ih (k + 1) _ (sum + term * (xh / k) * (xh / k)) h1)

theorem besselI0_ge_one (x : ℝ) (hx : 0 ≤ x) : 1 ≤ besselI0 x :=
  besselLoop_ge _ (by linarith) _ _ _ _ zero_le_one

/-- The series is monotone although the loop may stop earlier for the smaller argument: the ratio of the last
term to the sum grows with the argument. -/
theorem besselLoop_mono (x y : ℝ) (hx : 0 ≤ x) (hxy : x ≤ y) : ∀ j k s t S T, 0 ≤ s → 0 < S → 0 < T → s ≤ t → S ≤ T →
    s * T ≤ t * S → besselLoop x j k s S ≤ besselLoop y j k t T := by
  intro j
  induction j with
  | zero => intro k s t S T _ _ _ _ h _; exact h
  | succ j ih =>
    intro k s t S T hs hS hT hst hST hr
    have hxk : 0 ≤ x / k := by positivity
    have hxy' : x / k ≤ y / k := div_le_div_of_nonneg_right hxy (Nat.cast_nonneg k)
    have ht : 0 ≤ t := hs.trans hst
    have hyk : 0 ≤ y / k := hxk.trans hxy'
    set a := x / (k : ℝ) with ha
    set b := y / (k : ℝ) with hb
    have h1 : 0 ≤ s * a * a := by positivity
    have h1' : 0 ≤ t * b * b := by positivity
    have h2 : s * a * a ≤ t * b * b := by
      have h3 : s * a ≤ t * b := mul_le_mul hst hxy' hxk ht
      exact mul_le_mul h3 hxy' hxk (by positivity)
    have hab : a * a ≤ b * b := mul_le_mul hxy' hxy' hxk hyk
    have hcross : s * a * a * T ≤ t * b * b * S := by
      have h3 : (s * T) * (a * a) ≤ (t * S) * (b * b) := mul_le_mul hr hab (by positivity) (by positivity)
      nlinarith [h3]
    have hnew : s * a * a * (T + t * b * b) ≤ t * b * b * (S + s * a * a) := by nlinarith [hcross]
    rw [besselLoop, besselLoop]
    simp only [← ha, ← hb]
    by_cases hc : t * b * b < 1 / 10 ^ 12 * (T + t * b * b)
    · have hc' : s * a * a < 1 / 10 ^ 12 * (S + s * a * a) := by
        have hT' : 0 < T + t * b * b := by linarith
        have hS' : 0 < S + s * a * a := by linarith
        have h4 : s * a * a * (T + t * b * b) < (1 / 10 ^ 12 * (S + s * a * a)) * (T + t * b * b) := by
          calc s * a * a * (T + t * b * b) ≤ t * b * b * (S + s * a * a) := hnew
            _ < (1 / 10 ^ 12 * (T + t * b * b)) * (S + s * a * a) := mul_lt_mul_of_pos_right hc hS'
            _ = _ := by ring
        exact lt_of_mul_lt_mul_right h4 hT'.le
      rw [if_pos hc, if_pos hc']
      linarith
    · rw [if_neg hc]
      by_cases hc' : s * a * a < 1 / 10 ^ 12 * (S + s * a * a)
      · rw [if_pos hc']
        refine le_trans ?_ (besselLoop_ge y (hx.trans hxy) j (k + 1) _ _ h1')
        linarith
      · rw [if_neg hc']
        exact ih (k + 1) _ _ _ _ h1 (by linarith) (by linarith) h2 (by linarith) hnew

theorem besselI0_mono (x y : ℝ) (hx : 0 ≤ x) (hxy : x ≤ y) : besselI0 x ≤ besselI0 y :=
  besselLoop_mono _ _ (by linarith) (by linarith) _ _ _ _ _ _ zero_le_one one_pos one_pos le_rfl le_rfl le_rfl

theorem kaiser_isWindow_partial (n : ℤ) (hn : 1 < n) (beta : ℝ) (hb : 0 ≤ beta) :
    ∃ w, kaiser n beta = .ret w ∧ IsWindow n w := by
  simp only [kaiser, validateWindowSize, if_neg (show ¬ n ≤ 0 by omega), Outcome.bind_ret, if_neg (not_lt.2 hb)]
  obtain ⟨m, rfl⟩ : ∃ m : ℕ, n = m := ⟨n.toNat, by omega⟩
  rw [Int.toNat_natCast]
  have hpos : 0 < besselI0 beta := lt_of_lt_of_le one_pos (besselI0_ge_one _ hb)
  refine ⟨_, rfl, tab_isWindow m (fun i => besselI0 (beta * Real.sqrt (1 - (2 * (i : ℝ) / ((m : ℝ) - 1) - 1) *
    (2 * (i : ℝ) / ((m : ℝ) - 1) - 1))) / besselI0 beta) ?_ ?_ _ ?_⟩
  · intro i hi
    have h1 : Real.sqrt (1 - (2 * (i : ℝ) / ((m : ℝ) - 1) - 1) * (2 * (i : ℝ) / ((m : ℝ) - 1) - 1)) ≤ 1 := by
      rw [Real.sqrt_le_iff]
      refine ⟨zero_le_one, ?_⟩
      linarith [mul_self_nonneg (2 * (i : ℝ) / ((m : ℝ) - 1) - 1)]
    have h2 : 0 ≤ beta * Real.sqrt (1 - (2 * (i : ℝ) / ((m : ℝ) - 1) - 1) * (2 * (i : ℝ) / ((m : ℝ) - 1) - 1)) := by
      positivity
    constructor
    · exact div_nonneg (le_trans zero_le_one (besselI0_ge_one _ h2)) hpos.le
    · rw [div_le_one hpos]
      exact besselI0_mono _ _ h2 (mul_le_of_le_one_right hb h1)
  · intro i hi
    rw [mirror m i (by omega) hi]
    congr 4; ring
  · intro i _
    rw [fdiv_eq _ (by omega)]
    simp

/-- The two parametrised windows have no special case for length 1: the only element is 0/0. -/
theorem kaiser_gaussian_one_nan : kaiser 1 5 = .ret [none] ∧ gaussian 1 (1 / 2) = .ret [none] := by
  constructor
  · simp only [kaiser, validateWindowSize]
    norm_num
    simp [tab, fdiv]
  · simp only [gaussian, validateWindowSize]
    norm_num
    simp [tab, fdiv]

/-- Cases that meet the hypotheses; the Hann window of length 3 is (0, 1, 0). -/
example : ∃ w, kaiser 8 5 = .ret w ∧ IsWindow 8 w := kaiser_isWindow_partial 8 (by norm_num) 5 (by norm_num)

example : hann 3 = .ret [some 0, some 1, some 0] := by
  have h1 : (2 * pi * 1 / 2 : ℝ) = pi := by ring
  have h2 : (2 * pi * 2 / 2 : ℝ) = 2 * pi := by ring
  simp [hann, validateWindowSize, tab, List.range_succ, fdiv]
  norm_num [h1, h2, Real.cos_two_pi, Real.cos_pi]

end Verif.Fourier.Windows
