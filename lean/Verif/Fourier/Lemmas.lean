import Verif.Fourier.Model
import Verif.LoopLemmas
import Mathlib.RingTheory.RootsOfUnity.Complex

/-! # Helper lemmas on the Fourier model: loops, bit reversal, stages -/

set_option autoImplicit false

noncomputable section

namespace Verif.Fourier

open Real (pi)

/-! ## Powers of two -/

theorem isPowerOfTwo_iff (n : ℕ) : isPowerOfTwo n = true ↔ ∃ m, n = 2 ^ m := by
  simp only [isPowerOfTwo, Bool.and_eq_true, decide_eq_true_eq, beq_iff_eq]
  constructor
  · induction n using Nat.strong_induction_on with
    | _ n ih =>
      rintro ⟨hpos, h⟩
      have hd : (n &&& (n - 1)) / 2 = n / 2 &&& (n - 1) / 2 := Nat.and_div_two
      rw [h] at hd
      rcases Nat.mod_two_eq_zero_or_one n with h0 | h1
      · have e : (n - 1) / 2 = n / 2 - 1 := by omega
        rw [e] at hd
        obtain ⟨m, hm⟩ := ih (n / 2) (by omega) ⟨by omega, by simpa using hd.symm⟩
        exact ⟨m + 1, by rw [pow_succ]; omega⟩
      · have e : (n - 1) / 2 = n / 2 := by omega
        rw [e, Nat.and_self] at hd
        exact ⟨0, by simp at hd ⊢; omega⟩
  · rintro ⟨m, rfl⟩
    refine ⟨by positivity, ?_⟩
    apply Nat.eq_of_testBit_eq
    intro i
    rw [Nat.testBit_and, Nat.testBit_two_pow_sub_one, Nat.testBit_two_pow]
    by_cases h : m = i <;> simp [h]

/-! ## Bit reversal -/

/-- `rev s t`: the `s` low bits of `t` in reverse order. -/
def rev : ℕ → ℕ → ℕ
  | 0, _ => 0
  | s + 1, t => (t % 2) * 2 ^ s + rev s (t / 2)

theorem rev_lt (s t : ℕ) : rev s t < 2 ^ s := by
  induction s generalizing t with
  | zero => simp [rev]
  | succ s ih =>
    have := ih (t / 2)
    have h2 : t % 2 < 2 := Nat.mod_lt _ (by omega)
    rw [rev, pow_succ]
    interval_cases h : t % 2 <;> omega

/-- The other recurrence: splitting off the highest bit. -/
theorem rev_high (s t e : ℕ) (he : e < 2) (ht : t < 2 ^ s) : rev (s + 1) (e * 2 ^ s + t) = 2 * rev s t + e := by
  induction s generalizing t with
  | zero =>
    have : t = 0 := by simpa using ht
    subst this
    simp [rev]; omega
  | succ s ih =>
    have hp : 2 ^ (s + 1) = 2 * 2 ^ s := by rw [pow_succ]; ring
    have h1 : (e * 2 ^ (s + 1) + t) % 2 = t % 2 := by
      rw [hp, show e * (2 * 2 ^ s) = 2 * (e * 2 ^ s) by ring]; omega
    have h2 : (e * 2 ^ (s + 1) + t) / 2 = e * 2 ^ s + t / 2 := by
      rw [hp, show e * (2 * 2 ^ s) = 2 * (e * 2 ^ s) by ring]; omega
    rw [rev, h1, h2, ih (t / 2) (by omega)]
    conv_rhs => rw [rev]
    rw [hp]; ring

theorem rev_rev (s t : ℕ) (ht : t < 2 ^ s) : rev s (rev s t) = t := by
  induction s generalizing t with
  | zero => simp only [rev]; simp at ht; omega
  | succ s ih =>
    conv_lhs => rw [rev.eq_2 t s]
    have hp : 2 ^ (s + 1) = 2 * 2 ^ s := by rw [pow_succ]; ring
    rw [rev_high s _ _ (Nat.mod_lt _ (by omega)) (rev_lt _ _), ih _ (by omega)]
    omega

/-- The increment loop on `s` bits. -/
theorem bitRev_while (s i fuel : ℕ) (hf : s < fuel) (hi : i + 1 < 2 ^ s) :
    (whileFuel (fun (s : ℕ × ℕ) => if s.2 ≤ s.1 then some (s.1 - s.2, s.2 / 2) else none) fuel
      (rev s i, 2 ^ s / 2)).map (fun s => s.1 + s.2) = some (rev s (i + 1)) := by
  induction s generalizing i fuel with
  | zero => simp at hi
  | succ s ih =>
    obtain ⟨fuel, rfl⟩ : ∃ k, fuel = k + 1 := ⟨fuel - 1, by omega⟩
    have hp : 2 ^ (s + 1) = 2 * 2 ^ s := by rw [pow_succ]; ring
    have hh : 2 ^ (s + 1) / 2 = 2 ^ s := by omega
    have hlt := rev_lt s (i / 2)
    rw [hh, whileFuel]
    rcases Nat.mod_two_eq_zero_or_one i with h0 | h1
    · have e : rev (s + 1) i = rev s (i / 2) := by rw [rev, h0]; simp
      have e' : rev (s + 1) (i + 1) = 2 ^ s + rev s (i / 2) := by
        rw [rev, show (i + 1) % 2 = 1 by omega, show (i + 1) / 2 = i / 2 by omega]; simp
      rw [e, e']
      simp only [if_neg (show ¬ 2 ^ s ≤ rev s (i / 2) by omega), Option.map_some]
      congr 1; omega
    · have e : rev (s + 1) i = 2 ^ s + rev s (i / 2) := by rw [rev, h1]; simp
      have e' : rev (s + 1) (i + 1) = rev s (i / 2 + 1) := by
        rw [rev, show (i + 1) % 2 = 0 by omega, show (i + 1) / 2 = i / 2 + 1 by omega]; simp
      rw [e, e']
      simp only [if_pos (show 2 ^ s ≤ 2 ^ s + rev s (i / 2) by omega)]
      rw [show 2 ^ s + rev s (i / 2) - 2 ^ s = rev s (i / 2) by omega]
      exact ih (i / 2) fuel (by omega) (by omega)

theorem bitRevIncrement_eq (s i : ℕ) (hi : i + 1 < 2 ^ s) :
    bitRevIncrement (2 ^ s) (rev s i) = some (rev s (i + 1)) :=
  bitRev_while s i _ (by have := Nat.lt_two_pow_self (n := s); omega) hi

theorem swapElems_tab {α : Type} {n i j : ℕ} (f : ℕ → α) (hi : i < n) (hj : j < n) (hij : i ≠ j) :
    swapElems (tab n f) i j = .ret (tab n (fun k => if k = i then f j else if k = j then f i else f k)) := by
  simp only [swapElems, index_tab f hi, index_tab f hj, Outcome.bind_ret, store_tab _ hi, store_tab _ hj]
  congr 1
  refine tab_congr fun k _ => ?_
  by_cases h1 : k = i
  · subst h1; simp [hij]
  · by_cases h2 : k = j
    · subst h2; simp [h1]
    · simp [h1, h2]

theorem rev_zero (s : ℕ) : rev s 0 = 0 := by
  induction s with
  | zero => rfl
  | succ s ih => simp [rev, ih]

/-- The permutation loop applies the bit reversal. -/
theorem bitReversalPermute_tab (m : ℕ) (x : ℕ → ℂ) :
    bitReversalPermute (tab (2 ^ m) x) = .ret (tab (2 ^ m) (fun i => x (rev m i))) := by
  have hpos : 0 < 2 ^ m := by positivity
  obtain ⟨t, ht, hP⟩ := forRange_rule
    (fun i (s : List ℂ × ℕ) => s.2 = rev m i ∧
      s.1 = tab (2 ^ m) (fun k => if k < i ∨ rev m k < i then x (rev m k) else x k))
    (2 ^ m - 1) (tab (2 ^ m) x, 0)
    (bitRevStep (2 ^ m))
    (by simp [rev_zero])
    (by
      rintro i ⟨v, j⟩ hi ⟨hj, hv⟩
      simp only at hj hv
      subst hj hv
      have hjlt := rev_lt m i
      have hrr := rev_rev m i (by omega)
      simp only [bitRevStep, bitRevIncrement_eq m i (by omega)]
      by_cases h : i < rev m i
      · refine ⟨(tab (2 ^ m) (fun k => if k < i + 1 ∨ rev m k < i + 1 then x (rev m k) else x k),
          rev m (i + 1)), ?_, rfl, rfl⟩
        simp only [if_pos h, swapElems_tab _ (show i < 2 ^ m by omega) hjlt (by omega : i ≠ rev m i),
          Outcome.bind_ret]
        congr 2
        refine tab_congr fun k hk => ?_
        have hkk := rev_rev m k hk
        by_cases h1 : k = i
        · subst h1
          rw [if_pos rfl, hrr, if_neg (by omega), if_pos (by omega)]
        · rw [if_neg h1]
          by_cases h2 : k = rev m i
          · subst h2
            rw [if_pos rfl, hrr, if_neg (by omega), if_pos (Or.inr (by omega))]
          · rw [if_neg h2]
            have h3 : rev m k ≠ i := fun h => h2 (by rw [← h, hkk])
            by_cases h4 : k < i ∨ rev m k < i
            · rw [if_pos h4, if_pos (by omega)]
            · rw [if_neg h4, if_neg (by omega)]
      · refine ⟨(tab (2 ^ m) (fun k => if k < i + 1 ∨ rev m k < i + 1 then x (rev m k) else x k),
          rev m (i + 1)), ?_, rfl, rfl⟩
        simp only [if_neg h, Outcome.bind_ret]
        congr 2
        refine tab_congr fun k hk => ?_
        have hkk := rev_rev m k hk
        by_cases h4 : k < i ∨ rev m k < i
        · rw [if_pos h4, if_pos (by omega)]
        · rw [if_neg h4]
          by_cases h5 : k < i + 1 ∨ rev m k < i + 1
          · rw [if_pos h5]
            rcases h5 with h5 | h5
            · have : k = i := by omega
              subst this
              have : rev m k = k := by omega
              rw [this]
            · have h6 : rev m k = i := by omega
              have h7 : k = rev m i := by rw [← h6, hkk]
              have : rev m i = i := by omega
              rw [h6, h7, this]
          · rw [if_neg h5])
  rw [bitReversalPermute]
  simp only [length_tab, ht, Outcome.bind_ret]
  rw [hP.2]
  congr 1
  refine tab_congr fun k hk => ?_
  by_cases h : k < 2 ^ m - 1 ∨ rev m k < 2 ^ m - 1
  · rw [if_pos h]
  · rw [if_neg h]
    have := rev_lt m k
    have : rev m k = k := by omega
    rw [this]

end Verif.Fourier
