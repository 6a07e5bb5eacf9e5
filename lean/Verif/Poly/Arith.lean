import Verif.Poly.Lemmas
import Mathlib.Algebra.Polynomial.Derivative
import Mathlib.Algebra.CharP.Defs
import Mathlib.Algebra.CharZero.Defs
import Mathlib.Data.Nat.Cast.Field

/-! # Helper lemmas: the arithmetic operations in closed form -/

set_option autoImplicit false

namespace Verif.Poly

open Polynomial

variable {K : Type} [Field K] [DecidableEq K]

theorem neg_tab (n : ℕ) (f : ℕ → K) : neg (tab n f) = .ret (tab n (fun i => -f i)) := by
  simp only [neg, length_tab, replicate_eq_tab]
  rw [forRange_fill n n le_rfl _ (fun i => -f i)]
  · congr 1
    exact tab_congr fun i hi => if_pos hi
  · intro i hi r
    simp only [index_tab f hi, Outcome.bind_ret]

/-- The loops of `+` and `-`: each step adds `c i` to element `i`. -/
theorem forRange_addAt (n N : ℕ) (hn : n ≤ N) (g c : ℕ → K) (body : List K → ℕ → Outcome (List K))
    (h : ∀ i < n, ∀ f, body (tab N f) i = .ret (tab N (fun k => if k = i then f k + c i else f k))) :
    forRange n (tab N g) body = .ret (tab N (fun k => if k < n then g k + c k else g k)) := by
  induction n with
  | zero => simp [forRange]
  | succ n ih =>
    rw [forRange, ih (by omega) (fun i hi => h i (by omega)), Outcome.bind_ret, h n (by omega)]
    congr 1
    refine tab_congr fun i hi => ?_
    by_cases h1 : i = n
    · subst h1; simp
    · rw [if_neg h1]
      by_cases h2 : i < n
      · rw [if_pos h2, if_pos (by omega)]
      · rw [if_neg h2, if_neg (by omega)]

theorem addStep (n N i : ℕ) (hi : i < N) (g f : ℕ → K) (s : K) :
    (if i < n then Outcome.index (tab n f) i >>= fun c => addAt (tab N g) i (s * c) else .ret (tab N g)) =
      .ret (tab N (fun k => if k = i then g k + (if i < n then s * f i else 0) else g k)) := by
  split
  · next h => rw [index_tab f h, Outcome.bind_ret, addAt_tab g hi]
  · next h =>
    congr 1
    refine tab_congr fun k _ => ?_
    by_cases hk : k = i <;> simp [hk]

theorem add_tab (n m : ℕ) (f g : ℕ → K) :
    add (tab n f) (tab m g) =
      .ret (tab (max n m) (fun i => (if i < n then f i else 0) + (if i < m then g i else 0))) := by
  simp only [add, length_tab, replicate_eq_tab]
  rw [forRange_addAt (max n m) (max n m) le_rfl _
    (fun i => (if i < n then f i else 0) + (if i < m then g i else 0))]
  · congr 1
    refine tab_congr fun i hi => ?_
    rw [if_pos hi, zero_add]
  · intro i hi w
    have h1 := addStep n (max n m) i hi w f 1
    simp only [one_mul] at h1
    have h2 := addStep m (max n m) i hi (fun k => if k = i then w k + (if i < n then f i else 0) else w k) g 1
    simp only [one_mul] at h2
    simp only [addBody, length_tab]
    rw [h1, Outcome.bind_ret, h2]
    congr 1
    refine tab_congr fun k _ => ?_
    by_cases hk : k = i
    · subst hk; simp [add_assoc]
    · simp [hk]

theorem sub_tab (n m : ℕ) (f g : ℕ → K) :
    sub (tab n f) (tab m g) =
      .ret (tab (max n m) (fun i => (if i < n then f i else 0) - (if i < m then g i else 0))) := by
  simp only [sub, length_tab, replicate_eq_tab]
  rw [forRange_addAt (max n m) (max n m) le_rfl _
    (fun i => (if i < n then f i else 0) - (if i < m then g i else 0))]
  · congr 1
    refine tab_congr fun i hi => ?_
    rw [if_pos hi, zero_add]
  · intro i hi w
    have h1 := addStep n (max n m) i hi w f 1
    simp only [one_mul] at h1
    have h2 := addStep m (max n m) i hi (fun k => if k = i then w k + (if i < n then f i else 0) else w k) g (-1)
    simp only [neg_one_mul] at h2
    simp only [subBody, length_tab]
    rw [h1, Outcome.bind_ret, h2]
    congr 1
    refine tab_congr fun k _ => ?_
    by_cases hk : k = i
    · subst hk
      simp only [if_true]
      split <;> split <;> ring
    · simp [hk]

theorem pl_update (n : ℕ) (g : ℕ → K) (i : ℕ) (hi : i < n) (a : K) :
    pl n (fun k => if k = i then g k + a else g k) = pl n g + C a * X ^ i := by
  ext k
  rw [coeff_add, pl_coeff, pl_coeff, coeff_C_mul, coeff_X_pow]
  by_cases h : k = i
  · subst h; simp [hi]
  · simp [h]

theorem mul_tab (n m : ℕ) (hnm : 0 < n + m) (f g : ℕ → K) :
    ∃ h, mul (tab n f) (tab m g) = .ret (tab (n + m - 1) h) ∧ pl (n + m - 1) h = pl n f * pl m g := by
  simp only [mul, length_tab, replicate_eq_tab, if_neg (show ¬ n + m = 0 by omega)]
  obtain ⟨t, ht, h, rfl, hh⟩ := forRange_rule
    (fun i (v : List K) => ∃ h, v = tab (n + m - 1) h ∧ pl (n + m - 1) h = pl i f * pl m g)
    n (tab (n + m - 1) (fun _ => 0))
    (fun r i =>
      forRange m r (fun r j => do
        let x ← Outcome.index (tab n f) i
        let y ← Outcome.index (tab m g) j
        addAt r (i + j) (x * y)))
    ⟨_, rfl, by rw [pl_zero, zero_mul]; unfold pl; simp⟩
    (by
      rintro i _ hi ⟨h, rfl, hh⟩
      obtain ⟨t, ht, h', rfl, hh'⟩ := forRange_rule
        (fun j (v : List K) => ∃ h', v = tab (n + m - 1) h' ∧
          pl (n + m - 1) h' = pl i f * pl m g + C (f i) * X ^ i * pl j g)
        m (tab (n + m - 1) h)
        (fun r j => do
          let x ← Outcome.index (tab n f) i
          let y ← Outcome.index (tab m g) j
          addAt r (i + j) (x * y))
        ⟨h, rfl, by rw [hh, pl_zero, mul_zero, add_zero]⟩
        (by
          rintro j _ hj ⟨h', rfl, hh'⟩
          refine ⟨_, by rw [index_tab f hi, Outcome.bind_ret, index_tab g hj, Outcome.bind_ret,
            addAt_tab _ (by omega)], _, rfl, ?_⟩
          rw [pl_update _ _ _ (by omega), hh', pl_succ, C_mul, pow_add]
          ring)
      exact ⟨_, ht, h', rfl, by rw [hh', pl_succ]; ring⟩)
  exact ⟨h, ht, hh⟩

theorem derivative_tab (n : ℕ) (f : ℕ → K) :
    derivative (tab n f) = .ret (tab (n - 1) (fun i => f (i + 1) * ((i + 1 : ℕ) : K))) := by
  simp only [derivative, length_tab]
  split
  · next h =>
    rw [show n - 1 = 0 by omega]; simp [tab]
  · next h =>
    obtain ⟨t, ht, rfl⟩ := forFromTo_rule
      (fun i (v : List K) => v = tab (n - 1) (fun k => if k + 1 < i then f (k + 1) * ((k + 1 : ℕ) : K) else 0))
      1 (n - 1 + 1) (by omega) (List.replicate (n - 1) (0 : K))
      (fun r i => do
        let c ← Outcome.index (tab n f) i
        Outcome.store r (i - 1) (c * i))
      (by rw [replicate_eq_tab]; exact tab_congr fun i _ => by simp)
      (by
        rintro i _ h1 h2 rfl
        refine ⟨_, by rw [index_tab f (by omega), Outcome.bind_ret, store_tab _ (by omega)], ?_⟩
        refine tab_congr fun k hk => ?_
        by_cases hki : k = i - 1
        · rw [if_pos hki, if_pos (by omega)]
          rw [show k + 1 = i by omega]
        · rw [if_neg hki]
          by_cases hlt : k + 1 < i
          · rw [if_pos hlt, if_pos (by omega)]
          · rw [if_neg hlt, if_neg (by omega)])
    rw [ht]
    congr 1
    refine tab_congr fun i hi => ?_
    rw [if_pos (by omega)]

theorem integral_tab (n : ℕ) (f : ℕ → K) :
    integral (tab n f) = .ret (tab (n + 1) (fun i => if i = 0 then 0 else f (i - 1) / (i : K))) := by
  simp only [integral, length_tab, replicate_eq_tab]
  obtain ⟨t, ht, rfl⟩ := forRange_rule
    (fun i (v : List K) => v = tab (n + 1) (fun k => if k = 0 then 0 else if k ≤ i then f (k - 1) / (k : K) else 0))
    n (tab (n + 1) (fun _ => (0 : K)))
    (fun r i => do
      let c ← Outcome.index (tab n f) i
      Outcome.store r (i + 1) (c / (i + 1 : ℕ)))
    (tab_congr fun i _ => by by_cases h : i = 0 <;> simp [h])
    (by
      rintro i _ h1 rfl
      refine ⟨_, by rw [index_tab f (by omega), Outcome.bind_ret, store_tab _ (by omega)], ?_⟩
      refine tab_congr fun k hk => ?_
      by_cases hki : k = i + 1
      · subst hki
        simp
      · rw [if_neg hki]
        by_cases h0 : k = 0
        · simp [h0]
        · rw [if_neg h0, if_neg h0]
          by_cases hlt : k ≤ i
          · rw [if_pos hlt, if_pos (by omega)]
          · rw [if_neg hlt, if_neg (by omega)])
  rw [ht]
  congr 1
  refine tab_congr fun i hi => ?_
  by_cases h0 : i = 0
  · simp [h0]
  · rw [if_neg h0, if_neg h0, if_pos (by omega)]

end Verif.Poly
