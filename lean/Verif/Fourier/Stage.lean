import Verif.Fourier.Lemmas

/-! # Helper lemmas: one pass of the butterflies, and all passes -/

set_option autoImplicit false

noncomputable section

namespace Verif.Fourier

open Real (pi)
open Complex (I)

/-- What one pass makes of an array. -/
def stageOut (wp : ℂ) (L : ℕ) (f : ℕ → ℂ) (p : ℕ) : ℂ :=
  if p % (2 * L) < L then f p + wp ^ (p % (2 * L)) * f (p + L)
  else f (p - L) - wp ^ (p % (2 * L) - L) * f p

theorem butterfly_tab {n i L : ℕ} (w : ℂ) (f : ℕ → ℂ) (h : i + L < n) (hL : 0 < L) :
    butterfly w L (tab n f) i =
      .ret (tab n (fun k => if k = i then f i + w * f (i + L) else if k = i + L then f i - w * f (i + L) else f k)) := by
  simp only [butterfly, index_tab f h, index_tab f (show i < n by omega), Outcome.bind_ret, store_tab _ h,
    store_tab _ (show i < n by omega)]

theorem mod_cases {L p m c : ℕ} (hL : 0 < L) (h1 : p % L = m) (h2 : p / (2 * L) = c) :
    p = m + 2 * L * c ∨ p = m + 2 * L * c + L := by
  have h3 := Nat.div_add_mod p (2 * L)
  have h4 : p % (2 * L) < 2 * L := Nat.mod_lt _ (by omega)
  have h5 : p % (2 * L) % L = m := by rw [Nat.mod_mod_of_dvd _ ⟨2, by ring⟩, h1]
  rw [h2] at h3
  generalize p % (2 * L) = r at *
  by_cases h : r < L
  · rw [Nat.mod_eq_of_lt h] at h5
    left; omega
  · have e : r % L = r - L := by rw [Nat.mod_eq_sub_mod (by omega), Nat.mod_eq_of_lt (by omega)]
    right; omega

theorem pos_facts {L m c : ℕ} (hm : m < L) :
    (m + 2 * L * c) % (2 * L) = m ∧ (m + 2 * L * c) % L = m ∧ (m + 2 * L * c) / (2 * L) = c ∧
      (m + 2 * L * c + L) % (2 * L) = m + L ∧ (m + 2 * L * c + L) % L = m ∧ (m + 2 * L * c + L) / (2 * L) = c := by
  refine ⟨?_, ?_, ?_, ?_, ?_, ?_⟩
  · rw [Nat.add_mul_mod_self_left, Nat.mod_eq_of_lt (by omega)]
  · rw [show m + 2 * L * c = m + L * (2 * c) by ring, Nat.add_mul_mod_self_left, Nat.mod_eq_of_lt hm]
  · rw [Nat.add_mul_div_left _ _ (by omega), Nat.div_eq_of_lt (by omega), Nat.zero_add]
  · rw [show m + 2 * L * c + L = (m + L) + 2 * L * c by ring, Nat.add_mul_mod_self_left,
      Nat.mod_eq_of_lt (by omega)]
  · rw [show m + 2 * L * c + L = m + L * (2 * c + 1) by ring, Nat.add_mul_mod_self_left, Nat.mod_eq_of_lt hm]
  · rw [show m + 2 * L * c + L = (m + L) + 2 * L * c by ring, Nat.add_mul_div_left _ _ (by omega),
      Nat.div_eq_of_lt (by omega), Nat.zero_add]

/-- State within a pass: residues below `m` done, and residue `m` done in the first `c` blocks. -/
def partway (wp : ℂ) (L : ℕ) (f : ℕ → ℂ) (m c p : ℕ) : ℂ :=
  if p % L < m ∨ (p % L = m ∧ p / (2 * L) < c) then stageOut wp L f p else f p

theorem inner_loop (wp : ℂ) (L B : ℕ) (f : ℕ → ℂ) (m : ℕ) (hm : m < L) :
    forStep m (2 * L * B) (2 * L) (tab (2 * L * B) (partway wp L f m 0))
        (fun data i => butterfly (wp ^ m) L data i) =
      .ret (tab (2 * L * B) (partway wp L f (m + 1) 0)) := by
  have hcnt : (2 * L * B - m + (2 * L - 1)) / (2 * L) = B := by
    rcases Nat.eq_zero_or_pos B with rfl | hB
    · rw [Nat.mul_zero, Nat.zero_sub, Nat.zero_add, Nat.div_eq_of_lt (by omega)]
    · have h1 : 2 * L ≤ 2 * L * B := Nat.le_mul_of_pos_right _ hB
      rw [show 2 * L * B - m + (2 * L - 1) = (2 * L - 1 - m) + 2 * L * B by omega,
        Nat.add_mul_div_left _ _ (by omega), Nat.div_eq_of_lt (by omega), Nat.zero_add]
  rw [forStep, hcnt]
  obtain ⟨t, ht, hP⟩ := forRange_rule
    (fun c v => v = tab (2 * L * B) (partway wp L f m c)) B (tab (2 * L * B) (partway wp L f m 0))
    (fun s i => butterfly (wp ^ m) L s (m + 2 * L * i)) rfl
    (by
      rintro c v hc rfl
      have hlt : m + 2 * L * c + L < 2 * L * B := by
        have : 2 * L * (c + 1) ≤ 2 * L * B := Nat.mul_le_mul_left _ hc
        rw [Nat.mul_add] at this; omega
      refine ⟨_, butterfly_tab _ _ hlt (by omega), ?_⟩
      obtain ⟨a1, a2, a3, b1, b2, b3⟩ := pos_facts (c := c) hm
      have gi : partway wp L f m c (m + 2 * L * c) = f (m + 2 * L * c) := by
        rw [partway, a2, a3, if_neg (by omega)]
      have gj : partway wp L f m c (m + 2 * L * c + L) = f (m + 2 * L * c + L) := by
        rw [partway, b2, b3, if_neg (by omega)]
      refine tab_congr fun p hp => ?_
      rw [gi, gj]
      by_cases h1 : p = m + 2 * L * c
      · rw [if_pos h1, h1, partway, a2, a3, if_pos (by omega), stageOut, a1, if_pos hm]
      · rw [if_neg h1]
        by_cases h2 : p = m + 2 * L * c + L
        · rw [if_pos h2, h2, partway, b2, b3, if_pos (by omega), stageOut, b1, if_neg (by omega)]
          simp only [Nat.add_sub_cancel]
        · rw [if_neg h2]
          have h3 : ¬ (p % L = m ∧ p / (2 * L) = c) := fun h =>
            (mod_cases (by omega) h.1 h.2).elim h1 h2
          rw [partway, partway]
          by_cases h4 : p % L < m ∨ (p % L = m ∧ p / (2 * L) < c)
          · rw [if_pos h4, if_pos (by omega)]
          · rw [if_neg h4, if_neg (by omega)])
  rw [ht, hP]
  congr 1
  refine tab_congr fun p hp => ?_
  have hlt : p / (2 * L) < B := Nat.div_lt_of_lt_mul hp
  rw [partway, partway]
  by_cases h : p % L < m + 1
  · rw [if_pos (by omega), if_pos (by omega)]
  · rw [if_neg (by omega), if_neg (by simp only [Nat.not_lt_zero, and_false, or_false]; omega)]

/-- The twiddle increment of a pass. -/
def twiddle (isign : ℤ) (L : ℕ) : ℂ := Complex.exp (((-isign * pi / L : ℝ) : ℂ) * I)

theorem mk_cos_sin (t : ℝ) : (⟨Real.cos t, Real.sin t⟩ : ℂ) = Complex.exp ((t : ℂ) * I) := by
  apply Complex.ext
  · simp [Complex.exp_ofReal_mul_I_re]
  · simp [Complex.exp_ofReal_mul_I_im]

theorem fftStage_tab (isign : ℤ) (L B : ℕ) (hL : 0 < L) (f : ℕ → ℂ) :
    fftStage isign (2 * L * B) L (tab (2 * L * B) f) =
      .ret (tab (2 * L * B) (stageOut (twiddle isign L) L f)) := by
  obtain ⟨t, ht, hP⟩ := forRange_rule
    (fun m (s : List ℂ × ℂ) => s = (tab (2 * L * B) (partway (twiddle isign L) L f m 0), twiddle isign L ^ m)) L
    (tab (2 * L * B) f, (1 : ℂ))
    (fun (s : List ℂ × ℂ) m => do
      let data ← forStep m (2 * L * B) (2 * L) s.1 (fun data i => butterfly s.2 L data i)
      .ret (data, s.2 * twiddle isign L))
    (by
      simp only [pow_zero, Prod.mk.injEq, and_true]
      refine tab_congr fun p _ => ?_
      rw [partway, if_neg (by simp)])
    (by
      rintro m s hm rfl
      exact ⟨_, by simp only [inner_loop _ _ _ _ _ hm, Outcome.bind_ret]; rfl, by rw [pow_succ]⟩)
  have hw : (⟨Real.cos (-isign * pi / L), Real.sin (-isign * pi / L)⟩ : ℂ) = twiddle isign L := mk_cos_sin _
  simp only [fftStage]
  rw [hw, ht, Outcome.bind_ret, hP]
  congr 1
  refine tab_congr fun p _ => ?_
  rw [partway, if_pos (Or.inl (Nat.mod_lt _ hL))]

/-! ## All passes -/

/-- `exp(-isign 2πi k t / L)`. -/
def wexp (isign : ℤ) (L : ℕ) (k t : ℕ) : ℂ := Complex.exp (-isign * (2 * pi * I) * k * t / L)

/-- The transform of the block `b` of length `2^s` of bit-reversed data. -/
def blockOut (isign : ℤ) (s : ℕ) (y : ℕ → ℂ) (p : ℕ) : ℂ :=
  ∑ t ∈ Finset.range (2 ^ s),
    y (2 ^ s * (p / 2 ^ s) + rev s t) * wexp isign (2 ^ s) (p % 2 ^ s) t

theorem blockOut_zero (isign : ℤ) (y : ℕ → ℂ) : blockOut isign 0 y = y := by
  funext p
  simp [blockOut, rev, wexp]

theorem sum_range_two_mul {M : Type} [AddCommMonoid M] (n : ℕ) (g : ℕ → M) :
    ∑ t ∈ Finset.range (2 * n), g t =
      ∑ t ∈ Finset.range n, g (2 * t) + ∑ t ∈ Finset.range n, g (2 * t + 1) := by
  induction n with
  | zero => simp
  | succ n ih =>
    rw [show 2 * (n + 1) = 2 * n + 1 + 1 by ring, Finset.sum_range_succ, Finset.sum_range_succ, ih,
      Finset.sum_range_succ, Finset.sum_range_succ]
    abel

theorem exp_int_mul_two_pi_I (z : ℤ) : Complex.exp (z * (2 * pi * I)) = 1 := Complex.exp_int_mul_two_pi_mul_I z

theorem exp_odd_pi (isign : ℤ) (h : Odd isign) : Complex.exp (-isign * (pi * I)) = -1 := by
  obtain ⟨k, rfl⟩ := h
  have : (-(((2 * k + 1 : ℤ)) : ℂ) * (pi * I)) = ((-k - 1 : ℤ) : ℂ) * (2 * pi * I) + pi * I := by
    push_cast; ring
  rw [this, Complex.exp_add, exp_int_mul_two_pi_I, Complex.exp_pi_mul_I, one_mul]

theorem wexp_even (isign : ℤ) (L k t : ℕ) (hL : 0 < L) :
    wexp isign (2 * L) k (2 * t) = wexp isign L k t := by
  have : (L : ℂ) ≠ 0 := by exact_mod_cast hL.ne'
  rw [wexp, wexp]; congr 1; push_cast; field_simp

theorem wexp_odd (isign : ℤ) (L k t : ℕ) (hL : 0 < L) :
    wexp isign (2 * L) k (2 * t + 1) = twiddle isign L ^ k * wexp isign L k t := by
  have : (L : ℂ) ≠ 0 := by exact_mod_cast hL.ne'
  rw [wexp, wexp, twiddle, ← Complex.exp_nat_mul, ← Complex.exp_add]
  congr 1; push_cast; field_simp; ring

theorem wexp_shift (isign : ℤ) (L k t : ℕ) (hL : 0 < L) : wexp isign L (k + L) t = wexp isign L k t := by
  have : (L : ℂ) ≠ 0 := by exact_mod_cast hL.ne'
  have e : (-isign * (2 * pi * I) * ((k + L : ℕ) : ℂ) * t / L : ℂ) =
      -isign * (2 * pi * I) * k * t / L + ((-isign * t : ℤ) : ℂ) * (2 * pi * I) := by
    push_cast; field_simp; ring
  rw [wexp, e, Complex.exp_add, exp_int_mul_two_pi_I, mul_one, wexp]

theorem twiddle_shift (isign : ℤ) (h : Odd isign) (L k : ℕ) (hL : 0 < L) :
    twiddle isign L ^ (k + L) = - twiddle isign L ^ k := by
  have : (L : ℂ) ≠ 0 := by exact_mod_cast hL.ne'
  have e : twiddle isign L ^ L = -1 := by
    rw [twiddle, ← Complex.exp_nat_mul, ← exp_odd_pi isign h]
    congr 1; push_cast; field_simp
  rw [pow_add, e]; ring

/-- One pass doubles the block length. -/
theorem stageOut_blockOut (isign : ℤ) (h : Odd isign) (s : ℕ) (y : ℕ → ℂ) :
    stageOut (twiddle isign (2 ^ s)) (2 ^ s) (blockOut isign s y) = blockOut isign (s + 1) y := by
  funext p
  have hL : 0 < 2 ^ s := by positivity
  have hp : 2 ^ (s + 1) = 2 * 2 ^ s := by rw [pow_succ]; ring
  have key : ∀ k b : ℕ, ∑ t ∈ Finset.range (2 ^ (s + 1)),
      y (2 ^ (s + 1) * b + rev (s + 1) t) * wexp isign (2 ^ (s + 1)) k t =
      ∑ t ∈ Finset.range (2 ^ s), y (2 ^ s * (2 * b) + rev s t) * wexp isign (2 ^ s) k t +
        twiddle isign (2 ^ s) ^ k *
        ∑ t ∈ Finset.range (2 ^ s), y (2 ^ s * (2 * b + 1) + rev s t) * wexp isign (2 ^ s) k t := by
    intro k b
    rw [hp, sum_range_two_mul, Finset.mul_sum]
    congr 1
    · refine Finset.sum_congr rfl fun t _ => ?_
      rw [wexp_even _ _ _ _ hL, rev, show 2 * t % 2 = 0 by omega, show 2 * t / 2 = t by omega]
      congr 2; ring
    · refine Finset.sum_congr rfl fun t _ => ?_
      rw [wexp_odd _ _ _ _ hL, rev, show (2 * t + 1) % 2 = 1 by omega, show (2 * t + 1) / 2 = t by omega,
        show 2 * 2 ^ s * b + (1 * 2 ^ s + rev s t) = 2 ^ s * (2 * b + 1) + rev s t by ring]
      ring
  obtain ⟨b, r, hr, rfl⟩ : ∃ b r, r < 2 * 2 ^ s ∧ p = 2 * 2 ^ s * b + r :=
    ⟨p / (2 * 2 ^ s), p % (2 * 2 ^ s), Nat.mod_lt _ (by omega), (Nat.div_add_mod _ _).symm⟩
  have hmod : (2 * 2 ^ s * b + r) % (2 * 2 ^ s) = r := by
    rw [Nat.mul_add_mod, Nat.mod_eq_of_lt hr]
  have hdiv : (2 * 2 ^ s * b + r) / (2 * 2 ^ s) = b := by
    rw [Nat.mul_add_div (by omega), Nat.div_eq_of_lt hr, Nat.add_zero]
  have blk : ∀ c q, q < 2 ^ s → blockOut isign s y (2 ^ s * c + q) =
      ∑ t ∈ Finset.range (2 ^ s), y (2 ^ s * c + rev s t) * wexp isign (2 ^ s) q t := by
    intro c q hq
    rw [blockOut, Nat.mul_add_div hL, Nat.div_eq_of_lt hq, Nat.add_zero, Nat.mul_add_mod, Nat.mod_eq_of_lt hq]
  rw [blockOut, key]
  rw [hp, hmod, hdiv, stageOut, hmod]
  by_cases hlt : r < 2 ^ s
  · rw [if_pos hlt, show 2 * 2 ^ s * b + r + 2 ^ s = 2 ^ s * (2 * b + 1) + r by ring,
      show 2 * 2 ^ s * b + r = 2 ^ s * (2 * b) + r by ring, blk _ _ hlt, blk _ _ hlt]
  · obtain ⟨q, rfl⟩ : ∃ q, r = q + 2 ^ s := ⟨r - 2 ^ s, by omega⟩
    have hq : q < 2 ^ s := by omega
    rw [if_neg hlt, show 2 * 2 ^ s * b + (q + 2 ^ s) - 2 ^ s = 2 ^ s * (2 * b) + q by
        rw [show 2 * 2 ^ s * b = 2 ^ s * (2 * b) by ring]; omega,
      show 2 * 2 ^ s * b + (q + 2 ^ s) = 2 ^ s * (2 * b + 1) + q by ring,
      Nat.add_sub_cancel, blk _ _ hq, blk _ _ hq, twiddle_shift isign h _ _ hL]
    simp only [wexp_shift _ _ _ _ hL]
    ring

theorem fftStages_tab (isign : ℤ) (h : Odd isign) (m : ℕ) (y : ℕ → ℂ) :
    ∀ d s fuel, s + d = m → d < fuel →
      fftStages isign (2 ^ m) fuel (2 ^ s) (tab (2 ^ m) (blockOut isign s y)) =
        .ret (tab (2 ^ m) (blockOut isign m y)) := by
  intro d
  induction d with
  | zero =>
    intro s fuel hs hf
    obtain ⟨fuel, rfl⟩ : ∃ k, fuel = k + 1 := ⟨fuel - 1, by omega⟩
    obtain rfl : s = m := by omega
    rw [fftStages, if_neg (by omega)]
  | succ d ih =>
    intro s fuel hs hf
    obtain ⟨fuel, rfl⟩ : ∃ k, fuel = k + 1 := ⟨fuel - 1, by omega⟩
    have hlt : 2 ^ s < 2 ^ m := Nat.pow_lt_pow_right (by omega) (by omega)
    rw [fftStages, if_pos hlt]
    have e : 2 ^ m = 2 * 2 ^ s * 2 ^ d := by
      rw [← hs]; ring
    have := fftStage_tab isign (2 ^ s) (2 ^ d) (by positivity) (blockOut isign s y)
    rw [← e, stageOut_blockOut isign h] at this
    rw [this, Outcome.bind_ret, show 2 * 2 ^ s = 2 ^ (s + 1) by rw [pow_succ]; ring]
    exact ih (s + 1) fuel (by omega) (by omega)

/-- The whole in-place transform. -/
theorem fftTransform_tab (isign : ℤ) (h : Odd isign) (m : ℕ) (x : ℕ → ℂ) :
    fftTransform (tab (2 ^ m) x) isign =
      .ret (tab (2 ^ m) (fun k => ∑ t ∈ Finset.range (2 ^ m), x t * wexp isign (2 ^ m) k t)) := by
  have hpos : 0 < 2 ^ m := by positivity
  have hpow : isPowerOfTwo (2 ^ m) = true := (isPowerOfTwo_iff _).2 ⟨m, rfl⟩
  simp only [fftTransform, length_tab, validateFFTSize, validateNonEmpty, validatePowerOfTwo, hpow,
    if_neg hpos.ne', Bool.not_true, Bool.false_eq_true, if_false, Outcome.bind_ret, bitReversalPermute_tab]
  have := fftStages_tab isign h m (fun i => x (rev m i)) m 0 (2 ^ m + 1) (by omega)
    (by have := Nat.lt_two_pow_self (n := m); omega)
  rw [blockOut_zero, pow_zero] at this
  rw [this]
  congr 1
  refine tab_congr fun p hp => ?_
  rw [blockOut]
  refine Finset.sum_congr rfl fun t ht => ?_
  rw [Nat.div_eq_of_lt hp, Nat.mod_eq_of_lt hp, Nat.mul_zero, Nat.zero_add,
    rev_rev m t (Finset.mem_range.1 ht)]

end Verif.Fourier
