import Verif.LinAlg.BandSolve
import Verif.LinAlg.LUSolve
import Verif.Mat.PackedProps

/-! # Helper lemmas for the band solver -/

set_option autoImplicit false

namespace Verif.LinAlg.BandLU

open Verif.Mat

variable {K : Type} [Field K] [LinearOrder K] [IsStrictOrderedRing K]

/-! ## Closed forms of the loops -/

theorem pairEq {α β : Type} {a a' : α} {b b' : β} (h1 : a = a') (h2 : b = b') : (a, b) = (a', b') := by rw [h1, h2]

/-- The contents of `_au` after copying. -/
def copyF (n m1 : ℕ) (A : ℕ → ℕ → K) (i j : ℕ) : K := if m1 ≤ j + i ∧ j + i - m1 < n then A i (j + i - m1) else 0

theorem copyRow_ofFn {n m1 mm : ℕ} (a : Band K) (A : ℕ → ℕ → K) (ha : ∀ i < n, ∀ j < n, a.get i j = .ret (A i j))
    (f : ℕ → ℕ → K) (x : K) {i : ℕ} (hi : i < n) :
    copyRow a n m1 mm (Dense.ofFn n mm f, x) i =
      .ret (Dense.ofFn n mm (fun p q => if p = i then copyF n m1 A i q else f p q),
        if ∑ j ∈ Finset.range mm, |copyF n m1 A i j| > x then ∑ j ∈ Finset.range mm, |copyF n m1 A i j| else x) := by
  obtain ⟨t, ht, rfl⟩ := forRange_rule
    (fun k (s : Dense K × K) => s = (Dense.ofFn n mm (fun p q => if p = i ∧ q < k then copyF n m1 A i q else f p q),
      ∑ j ∈ Finset.range k, |copyF n m1 A i j|)) mm (Dense.ofFn n mm f, (0 : K)) (copyStep a n m1 i)
    (by simp)
    (by
      rintro k _ hk rfl
      have hset : ∀ x, Dense.set (Dense.ofFn n mm (fun p q => if p = i ∧ q < k then copyF n m1 A i q else f p q)) i k x =
          .ret (Dense.ofFn n mm (fun p q => if p = i ∧ q = k then x else if p = i ∧ q < k then copyF n m1 A i q else f p q)) :=
        fun x => Dense.set_ofFn _ hi hk x
      have hfin : Dense.ofFn n mm (fun p q => if p = i ∧ q = k then copyF n m1 A i k else
            if p = i ∧ q < k then copyF n m1 A i q else f p q) =
          Dense.ofFn n mm (fun p q => if p = i ∧ q < k + 1 then copyF n m1 A i q else f p q) := by
        refine Dense.ofFn_congr fun p _ q _ => ?_
        by_cases h1 : p = i ∧ q = k
        · rw [if_pos h1, if_pos (by omega), h1.2]
        · rw [if_neg h1]
          by_cases h2 : p = i ∧ q < k
          · rw [if_pos h2, if_pos (by omega)]
          · rw [if_neg h2, if_neg (by omega)]
      refine ⟨_, ?_, rfl⟩
      rw [Finset.sum_range_succ, ← hfin, copyStep]
      by_cases h : m1 ≤ k + i ∧ k + i - m1 < n
      · rw [if_pos h, ha i hi _ h.2, Outcome.bind_ret, hset, Outcome.bind_ret]
        have : copyF n m1 A i k = A i (k + i - m1) := by rw [copyF, if_pos h]
        rw [this]
      · rw [if_neg h, hset, Outcome.bind_ret]
        have : copyF n m1 A i k = 0 := by rw [copyF, if_neg h]
        rw [this, abs_zero, add_zero])
  rw [copyRow]
  simp only
  rw [ht, Outcome.bind_ret]
  refine congrArg Outcome.ret (pairEq ?_ rfl)
  dsimp only
  refine Dense.ofFn_congr fun p _ q hq => ?_
  by_cases h : p = i
  · rw [if_pos ⟨h, hq⟩, if_pos h]
  · rw [if_neg (by tauto), if_neg h]

theorem shiftRow_ofFn {n m1 m2 : ℕ} (f : ℕ → ℕ → K) {i : ℕ} (hi : i < n) (him : i < m1) :
    shiftRow m1 (m1 + m2 + 1) (Dense.ofFn n (m1 + m2 + 1) f, m1 - i) i =
      .ret (Dense.ofFn n (m1 + m2 + 1) (fun p q => if p = i then (if q < m2 + 1 + i then f i (q + m1 - i) else 0)
        else f p q), m1 - (i + 1)) := by
  obtain ⟨t, ht, rfl⟩ := forFromTo_rule
    (fun j m => m = Dense.ofFn n (m1 + m2 + 1) (fun p q => if p = i ∧ q + (m1 - i) < j then f i (q + (m1 - i)) else f p q))
    (m1 - i) (m1 + m2 + 1) (by omega) (Dense.ofFn n (m1 + m2 + 1) f)
    (fun au j => do
      let x ← au.get i j
      au.set i (j - (m1 - i)) x)
    (Dense.ofFn_congr fun p _ q _ => by rw [if_neg (by omega)])
    (by
      rintro j _ hj1 hj2 rfl
      refine ⟨_, by rw [Dense.get_ofFn _ hi hj2, Outcome.bind_ret, Dense.set_ofFn _ hi (by omega), if_neg (by omega)], ?_⟩
      refine Dense.ofFn_congr fun p _ q _ => ?_
      by_cases h1 : p = i ∧ q = j - (m1 - i)
      · rw [if_pos h1, if_pos (by omega), show q + (m1 - i) = j by omega]
      · rw [if_neg h1]
        by_cases h2 : p = i ∧ q + (m1 - i) < j
        · rw [if_pos h2, if_pos (by omega)]
        · rw [if_neg h2, if_neg (by omega)])
  rw [shiftRow]
  simp only
  rw [ht, Outcome.bind_ret, Dense.forFromTo_cols _ _ i _ (fun _ => 0) hi le_rfl _ (fun j _ _ m => rfl), Outcome.bind_ret]
  refine congrArg Outcome.ret (pairEq (Dense.ofFn_congr fun p _ q hq => ?_) (by omega))
  by_cases h : p = i
  · rw [if_pos h, if_pos h]
    by_cases h2 : q < m2 + 1 + i
    · rw [if_neg (by omega), if_pos (by omega), if_pos h2, show q + (m1 - i) = q + m1 - i by omega]
    · rw [if_pos (by omega), if_neg h2]
  · rw [if_neg h, if_neg h, if_neg (by omega)]

/-- The contents of `_au` before the decomposition. -/
def startF (n m1 m2 : ℕ) (A : ℕ → ℕ → K) (i q : ℕ) : K :=
  if i < m1 then (if q < m2 + 1 + i then copyF n m1 A i (q + m1 - i) else 0) else copyF n m1 A i q

theorem shift_ofFn {n m1 m2 : ℕ} (hm : m1 ≤ n) (A : ℕ → ℕ → K) :
    forRange m1 (Dense.ofFn n (m1 + m2 + 1) (copyF n m1 A), m1) (shiftRow m1 (m1 + m2 + 1)) =
      .ret (Dense.ofFn n (m1 + m2 + 1) (startF n m1 m2 A), 0) := by
  obtain ⟨t, ht, rfl⟩ := forRange_rule
    (fun k (s : Dense K × ℕ) => s = (Dense.ofFn n (m1 + m2 + 1) (fun i q => if i < k then startF n m1 m2 A i q
      else copyF n m1 A i q), m1 - k)) m1 (Dense.ofFn n (m1 + m2 + 1) (copyF n m1 A), m1) (shiftRow m1 (m1 + m2 + 1))
    (by simp)
    (by
      rintro k _ hk rfl
      refine ⟨_, shiftRow_ofFn _ (by omega) hk, ?_⟩
      refine pairEq (Dense.ofFn_congr fun p _ q _ => ?_) rfl
      by_cases h : p = k
      · subst h
        simp only [if_true, Nat.lt_irrefl, if_false, Nat.lt_succ_self, startF, hk]
      · rw [if_neg h]
        by_cases h2 : p < k
        · rw [if_pos h2, if_pos (by omega)]
        · rw [if_neg h2, if_neg (by omega)])
  rw [ht]
  refine congrArg Outcome.ret (pairEq (Dense.ofFn_congr fun p _ q _ => ?_) (by simp))
  by_cases h : p < m1
  · rw [if_pos h]
  · rw [if_neg h, startF, if_neg h]

theorem pivot_spec {n mm k l : ℕ} (f : ℕ → ℕ → K) (hmm : 0 < mm) (hkl : k + 1 ≤ l) (hl : l ≤ n) :
    ∃ i, forFromTo (k + 1) l (f k 0, k) (pivotStep (Dense.ofFn n mm f)) = .ret (f i 0, i) ∧ k ≤ i ∧ i < l ∧
      ∀ r, k ≤ r → r < l → |f r 0| ≤ |f i 0| := by
  obtain ⟨q, hq, h1, h2, h3, h4⟩ := forFromTo_rule
    (fun j (s : K × ℕ) => s.1 = f s.2 0 ∧ k ≤ s.2 ∧ s.2 < l ∧ ∀ r, k ≤ r → r < j → |f r 0| ≤ |s.1|)
    (k + 1) l hkl (f k 0, k) (pivotStep (Dense.ofFn n mm f))
    ⟨rfl, le_rfl, by simp only; omega, fun r h1 h2 => by rw [show r = k by omega]⟩
    (by
      rintro j ⟨x, i⟩ hj1 hj2 ⟨h1, h2, h3, h4⟩
      simp only at h1 h2 h3 h4
      refine ⟨_, by rw [pivotStep, Dense.get_ofFn _ (by omega) hmm, Outcome.bind_ret], ?_⟩
      simp only
      by_cases hx : |f j 0| > |x|
      · rw [if_pos hx]
        refine ⟨rfl, by simp only; omega, hj2, fun r hr1 hr2 => ?_⟩
        rcases Nat.lt_succ_iff_lt_or_eq.1 hr2 with h | h
        · exact (h4 r hr1 h).trans hx.le
        · rw [h]
      · rw [if_neg hx]
        refine ⟨h1, h2, h3, fun r hr1 hr2 => ?_⟩
        rcases Nat.lt_succ_iff_lt_or_eq.1 hr2 with h | h
        · exact h4 r hr1 h
        · rw [h]; exact not_lt.1 hx)
  obtain ⟨x, i⟩ := q
  simp only at h1 h2 h3 h4
  subst h1
  exact ⟨i, hq, h2, h3, h4⟩

/-- One row of `_au` after elimination. -/
def elimRow (mm : ℕ) (f : ℕ → ℕ → K) (k r q : ℕ) : K := if q + 1 < mm then f r (q + 1) - f r 0 / f k 0 * f k (q + 1) else 0

theorem elimStep_ofFn {n mm N m1 k i : ℕ} (f g : ℕ → ℕ → K) (hmm : 0 < mm) (hk : k < n) (hki : k < i) (hi : i < n)
    (hkN : k < N) (him : i - k - 1 < m1) (hp : f k 0 ≠ 0) :
    elimStep mm k (Dense.ofFn n mm f, Dense.ofFn N m1 g) i =
      .ret (Dense.ofFn n mm (fun r q => if r = i then elimRow mm f k i q else f r q),
        Dense.ofFn N m1 (fun r t => if r = k ∧ t = i - k - 1 then f i 0 / f k 0 else g r t)) := by
  rw [elimStep]
  simp only
  rw [Dense.get_ofFn _ hi hmm, Outcome.bind_ret, Dense.get_ofFn _ hk hmm, Outcome.bind_ret, divU, if_neg hp,
    Outcome.bind_ret, Dense.set_ofFn _ hkN him, Outcome.bind_ret]
  obtain ⟨t, ht, rfl⟩ := forFromTo_rule
    (fun j m => m = Dense.ofFn n mm (fun r q => if r = i ∧ q + 1 < j then elimRow mm f k i q else f r q))
    1 mm (by omega) (Dense.ofFn n mm f)
    (fun au j => do
      let y ← au.get i j
      let z ← au.get k j
      au.set i (j - 1) (y - f i 0 / f k 0 * z))
    (Dense.ofFn_congr fun p _ q _ => by rw [if_neg (by omega)])
    (by
      rintro j _ hj1 hj2 rfl
      refine ⟨_, by
        rw [Dense.get_ofFn _ hi hj2, Outcome.bind_ret, Dense.get_ofFn _ hk hj2, Outcome.bind_ret,
          Dense.set_ofFn _ hi (by omega), if_neg (by omega), if_neg (by omega)], ?_⟩
      refine Dense.ofFn_congr fun p _ q _ => ?_
      by_cases h1 : p = i ∧ q = j - 1
      · rw [if_pos h1, if_pos (by omega), elimRow, if_pos (by omega), show q + 1 = j by omega]
      · rw [if_neg h1]
        by_cases h2 : p = i ∧ q + 1 < j
        · rw [if_pos h2, if_pos (by omega)]
        · rw [if_neg h2, if_neg (by omega)])
  rw [ht, Outcome.bind_ret, Dense.set_ofFn _ hi (by omega), Outcome.bind_ret]
  refine congrArg Outcome.ret (pairEq (Dense.ofFn_congr fun p _ q hq => ?_) rfl)
  by_cases h1 : p = i
  · rw [if_pos h1]
    by_cases h2 : q = mm - 1
    · rw [if_pos ⟨h1, h2⟩, elimRow, if_neg (by omega)]
    · rw [if_neg (by omega), if_pos (by omega)]
  · rw [if_neg h1, if_neg (by omega), if_neg (by omega)]

theorem elim_ofFn {n mm N m1 k l : ℕ} (f g : ℕ → ℕ → K) (hmm : 0 < mm) (hk : k < n) (hkl : k + 1 ≤ l) (hl : l ≤ n)
    (hlm : l ≤ m1 + k + 1) (hkN : k + 1 < l → k < N) (hp : f k 0 ≠ 0) :
    forFromTo (k + 1) l (Dense.ofFn n mm f, Dense.ofFn N m1 g) (elimStep mm k) =
      .ret (Dense.ofFn n mm (fun r q => if k < r ∧ r < l then elimRow mm f k r q else f r q),
        Dense.ofFn N m1 (fun r t => if r = k ∧ t + k + 1 < l then f (t + k + 1) 0 / f k 0 else g r t)) := by
  obtain ⟨t, ht, rfl⟩ := forFromTo_rule
    (fun i (s : Dense K × Dense K) => s =
      (Dense.ofFn n mm (fun r q => if k < r ∧ r < i then elimRow mm f k r q else f r q),
        Dense.ofFn N m1 (fun r t => if r = k ∧ t + k + 1 < i then f (t + k + 1) 0 / f k 0 else g r t)))
    (k + 1) l hkl (Dense.ofFn n mm f, Dense.ofFn N m1 g) (elimStep mm k)
    (pairEq (Dense.ofFn_congr fun p _ q _ => by rw [if_neg (by omega)])
      (Dense.ofFn_congr fun p _ q _ => by rw [if_neg (by omega)]))
    (by
      rintro i _ hi1 hi2 rfl
      have hf : ∀ q, (if k < k ∧ k < i then elimRow mm f k k q else f k q) = f k q := fun q => by rw [if_neg (by omega)]
      have hf2 : ∀ q, (if k < i ∧ i < i then elimRow mm f k i q else f i q) = f i q := fun q => by rw [if_neg (by omega)]
      refine ⟨_, elimStep_ofFn _ _ hmm hk (by omega) (by omega) (hkN (by omega)) (by omega) (by rw [hf]; exact hp), ?_⟩
      refine pairEq (Dense.ofFn_congr fun p _ q _ => ?_) (Dense.ofFn_congr fun p _ q _ => ?_)
      · by_cases h1 : p = i
        · subst h1
          rw [if_pos rfl, if_pos (by omega)]
          unfold elimRow
          simp only [Nat.lt_irrefl, and_false, false_and, if_false]
        · rw [if_neg h1]
          by_cases h2 : k < p ∧ p < i
          · rw [if_pos h2, if_pos (by omega)]
          · rw [if_neg h2, if_neg (by omega)]
      · by_cases h1 : p = k ∧ q = i - k - 1
        · rw [if_pos h1, hf, hf2, if_pos (by omega), show q + k + 1 = i by omega]
        · rw [if_neg h1]
          by_cases h2 : p = k ∧ q + k + 1 < i
          · rw [if_pos h2, if_pos (by omega)]
          · rw [if_neg h2, if_neg (by omega)])
  exact ht

/-! ## The matrix that the compact storage stands for -/

/-- The column of the first stored element of row `r` after `k` rounds. -/
def off (m1 k r : ℕ) : ℕ := if r < k then r else max k (r - m1)

/-- The full matrix after `k` rounds. -/
def W (mm m1 k : ℕ) (f : ℕ → ℕ → K) (r c : ℕ) : K :=
  if off m1 k r ≤ c ∧ c < off m1 k r + mm then f r (c - off m1 k r) else 0

theorem W_start {n m1 m2 : ℕ} (A : ℕ → ℕ → K)
    (hb : ∀ i < n, ∀ j < n, (i > j + m1 ∨ j > i + m2) → A i j = 0) {r c : ℕ} (hr : r < n) (hc : c < n) :
    W (m1 + m2 + 1) m1 0 (startF n m1 m2 A) r c = A r c := by
  have hoff : off m1 0 r = r - m1 := by rw [off, if_neg (by omega)]; omega
  rw [W, hoff]
  by_cases h : r - m1 ≤ c ∧ c < r - m1 + (m1 + m2 + 1)
  · rw [if_pos h, startF]
    by_cases hr1 : r < m1
    · rw [if_pos hr1]
      by_cases h2 : c - (r - m1) < m2 + 1 + r
      · rw [if_pos h2, copyF, if_pos (by omega)]
        congr 1
        omega
      · rw [if_neg h2, hb r hr c hc (by omega)]
    · rw [if_neg hr1, copyF, if_pos (by omega)]
      congr 1
      omega
  · rw [if_neg h, hb r hr c hc (by omega)]

theorem off_swap {m1 k i : ℕ} (hki : k ≤ i) (him : i ≤ k + m1) (r : ℕ) : off m1 k (Equiv.swap k i r) = off m1 k r := by
  rw [Equiv.swap_apply_def]
  split
  · subst_vars
    rw [off, off, if_neg (by omega), if_neg (by omega)]; omega
  · split
    · subst_vars
      rw [off, off, if_neg (by omega), if_neg (by omega)]; omega
    · rfl

theorem W_swap {mm m1 k i : ℕ} (f : ℕ → ℕ → K) (hki : k ≤ i) (him : i ≤ k + m1) (r c : ℕ) :
    W mm m1 k (fun p q => f (Equiv.swap k i p) q) r c = W mm m1 k f (Equiv.swap k i r) c := by
  rw [W, W, off_swap hki him]

/-- Elimination subtracts a multiple of the pivot row. -/
theorem W_elim {n mm m1 k l : ℕ} (f : ℕ → ℕ → K) (hmm : 0 < mm) (hl : l = min n (m1 + k + 1)) (hp : f k 0 ≠ 0)
    {r : ℕ} (hr : r < n) (c : ℕ) :
    W mm m1 (k + 1) (fun r q => if k < r ∧ r < l then elimRow mm f k r q else f r q) r c =
      W mm m1 k f r c - (if k < r ∧ r < l then f r 0 / f k 0 else 0) * W mm m1 k f k c := by
  by_cases h : k < r ∧ r < l
  · have h1 : off m1 (k + 1) r = k + 1 := by rw [off, if_neg (by omega)]; omega
    have h2 : off m1 k r = k := by rw [off, if_neg (by omega)]; omega
    have h3 : off m1 k k = k := by rw [off, if_neg (by omega)]; omega
    rw [if_pos h, W, W, W, h1, h2, h3]
    beta_reduce
    rw [if_pos h]
    by_cases hc : k ≤ c ∧ c < k + mm
    · rw [if_pos hc, if_pos hc]
      by_cases hck : c = k
      · subst hck
        rw [if_neg (by omega), Nat.sub_self, div_mul_cancel₀ _ hp, sub_self]
      · rw [if_pos (by omega), elimRow, if_pos (by omega), show c - (k + 1) + 1 = c - k by omega]
    · rw [if_neg hc, if_neg hc, mul_zero, sub_zero]
      by_cases hc2 : c = k + mm
      · rw [if_pos (by omega), elimRow, if_neg (by omega)]
      · rw [if_neg (by omega)]
  · have h1 : off m1 (k + 1) r = off m1 k r := by
      rw [off, off]
      by_cases hrk : r < k
      · rw [if_pos hrk, if_pos (by omega)]
      · rw [if_neg hrk]
        by_cases hrk2 : r = k
        · rw [if_pos (by omega)]; omega
        · rw [if_neg (by omega)]; omega
    rw [if_neg h, zero_mul, sub_zero, W, W, h1]
    beta_reduce
    rw [if_neg h]

/-! ## The forward substitution as a map -/

/-- The right-hand side after `k` rounds of the forward substitution. -/
def T (n m1 : ℕ) (g : ℕ → ℕ → K) (ix : ℕ → ℕ) : ℕ → (ℕ → K) → ℕ → K
  | 0, b => b
  | k + 1, b => fun r => if k < r ∧ r < min n (m1 + k + 1) then
      T n m1 g ix k b (Equiv.swap k (ix k) r) - g k (r - k - 1) * T n m1 g ix k b (Equiv.swap k (ix k) k)
    else T n m1 g ix k b (Equiv.swap k (ix k) r)

omit [LinearOrder K] [IsStrictOrderedRing K] in
theorem T_congr {n m1 : ℕ} {g g' : ℕ → ℕ → K} {ix ix' : ℕ → ℕ} (k : ℕ)
    (h1 : ∀ t < k, ix t = ix' t) (h2 : ∀ t < k, ∀ j < m1, g t j = g' t j) (b : ℕ → K) :
    T n m1 g ix k b = T n m1 g' ix' k b := by
  induction k with
  | zero => rfl
  | succ k ih =>
    funext r
    simp only [T]
    rw [ih (fun t ht => h1 t (by omega)) (fun t ht => h2 t (by omega)), h1 k (by omega)]
    split
    · rw [h2 k (by omega) _ (by omega)]
    · rfl

omit [LinearOrder K] [IsStrictOrderedRing K] in
/-- Right-hand sides that are zero in the rounds done are only permuted. -/
theorem T_inverse {n m1 : ℕ} (g : ℕ → ℕ → K) (ix : ℕ → ℕ) (k : ℕ) (hk : k ≤ n) (hix : ∀ t < k, t ≤ ix t ∧ ix t < n)
    (w : ℕ → K) (hw : ∀ r < k, w r = 0) :
    ∃ b, (∀ r < n, T n m1 g ix k b r = w r) ∧ ∀ r < n, ∃ r' < n, b r = w r' := by
  induction k generalizing w with
  | zero => exact ⟨w, fun _ _ => rfl, fun r hr => ⟨r, hr, rfl⟩⟩
  | succ k ih =>
    obtain ⟨h1, h2⟩ := hix k (by omega)
    obtain ⟨b, hb1, hb2⟩ := ih (by omega) (fun t ht => hix t (by omega)) (fun r => w (Equiv.swap k (ix k) r))
      (fun r hr => by rw [LU.swap_fix h1 hr]; exact hw r (by omega))
    refine ⟨b, fun r hr => ?_, fun r hr => ?_⟩
    · have e : ∀ r < n, T n m1 g ix k b (Equiv.swap k (ix k) r) = w r := by
        intro r hr
        rw [hb1 _ (swap_lt (by omega) h2 hr), Equiv.swap_apply_self]
      simp only [T]
      rw [e r hr, e k (by omega), hw k (by omega), mul_zero, sub_zero, ite_self]
    · obtain ⟨r', hr', e⟩ := hb2 r hr
      exact ⟨_, swap_lt (by omega) h2 hr', e⟩

/-! ## The decomposition -/

/-- What holds after `k` rounds. -/
structure Inv (n m1 mm : ℕ) (A : ℕ → ℕ → K) (k : ℕ) (f g : ℕ → ℕ → K) (ix : ℕ → ℕ) (d : K) : Prop where
  piv : ∀ t < k, t ≤ ix t ∧ ix t < min n (m1 + t + 1)
  diag : ∀ t < k, f t 0 ≠ 0
  solve : ∀ x b : ℕ → K, (∀ r < n, ∑ c ∈ Finset.range n, W mm m1 k f r c * x c = T n m1 g ix k b r) →
    ∀ r < n, ∑ c ∈ Finset.range n, A r c * x c = b r
  sq : d * d = 1
  det : Matrix.det (Matrix.of fun i j : Fin n => W mm m1 k f i j) = d * Matrix.det (Matrix.of fun i j : Fin n => A i j)

theorem Inv.start {n m1 m2 : ℕ} (A : ℕ → ℕ → K) (hb : ∀ i < n, ∀ j < n, (i > j + m1 ∨ j > i + m2) → A i j = 0)
    (g : ℕ → ℕ → K) (ix : ℕ → ℕ) : Inv n m1 (m1 + m2 + 1) A 0 (startF n m1 m2 A) g ix 1 := by
  refine ⟨fun t h => by omega, fun t h => by omega, fun x b h r hr => ?_, one_mul 1, ?_⟩
  · rw [← show T n m1 g ix 0 b r = b r from rfl, ← h r hr]
    exact Finset.sum_congr rfl fun c hc => by rw [W_start A hb hr (Finset.mem_range.1 hc)]
  · rw [one_mul]
    congr 1
    ext i j
    rw [Matrix.of_apply, Matrix.of_apply, W_start A hb i.2 j.2]

theorem Inv.step {n m1 mm k i : ℕ} {A f g : ℕ → ℕ → K} {ix : ℕ → ℕ} {d : K} (h : Inv n m1 mm A k f g ix d) (hmm : 0 < mm)
    (hk : k < n) (hki : k ≤ i) (hi : i < min n (m1 + k + 1)) (hp : f i 0 ≠ 0) :
    Inv n m1 mm A (k + 1)
      (fun r q => if k < r ∧ r < min n (m1 + k + 1) then elimRow mm (fun p q => f (Equiv.swap k i p) q) k r q
        else f (Equiv.swap k i r) q)
      (fun r t => if r = k ∧ t + k + 1 < min n (m1 + k + 1) then f (Equiv.swap k i (t + k + 1)) 0 / f i 0 else g r t)
      (fun t => if t = k then i else ix t) (if i ≠ k then -d else d) := by
  have hpk : f (Equiv.swap k i k) 0 ≠ 0 := by rwa [Equiv.swap_apply_left]
  have hW : ∀ r < n, ∀ c, W mm m1 (k + 1) (fun r q => if k < r ∧ r < min n (m1 + k + 1) then
        elimRow mm (fun p q => f (Equiv.swap k i p) q) k r q else f (Equiv.swap k i r) q) r c =
      W mm m1 k f (Equiv.swap k i r) c -
        (if k < r ∧ r < min n (m1 + k + 1) then f (Equiv.swap k i r) 0 / f i 0 else 0) *
          W mm m1 k f (Equiv.swap k i k) c := by
    intro r hr c
    have := W_elim (m1 := m1) (fun p q => f (Equiv.swap k i p) q) hmm (l := min n (m1 + k + 1)) rfl hpk hr c
    rw [W_swap f hki (by omega), W_swap f hki (by omega)] at this
    rw [this]
    congr 3
    rw [Equiv.swap_apply_left]
  refine ⟨fun t ht => ?_, fun t ht => ?_, fun x b hx => ?_, ?_, ?_⟩
  · by_cases htk : t = k
    · simp only [htk, if_true]; exact ⟨hki, hi⟩
    · simp only [htk, if_false]; exact h.piv t (by omega)
  · rw [if_neg (by omega)]
    by_cases htk : t = k
    · rw [htk, Equiv.swap_apply_left]; exact hp
    · rw [LU.swap_fix hki (by omega)]; exact h.diag t (by omega)
  · refine h.solve x b fun r hr => ?_
    have hT : T n m1 (fun r t => if r = k ∧ t + k + 1 < min n (m1 + k + 1) then
        f (Equiv.swap k i (t + k + 1)) 0 / f i 0 else g r t) (fun t => if t = k then i else ix t) k b =
        T n m1 g ix k b :=
      T_congr k (fun t ht => by rw [if_neg (by omega)]) (fun t ht j _ => by rw [if_neg (by omega)]) b
    have key : ∀ r < n, ∑ c ∈ Finset.range n, W mm m1 k f (Equiv.swap k i r) c * x c =
        T n m1 g ix k b (Equiv.swap k i r) := by
      have hk' : ∑ c ∈ Finset.range n, W mm m1 k f (Equiv.swap k i k) c * x c = T n m1 g ix k b (Equiv.swap k i k) := by
        have := hx k hk
        simp only [T, hT] at this
        rw [if_neg (by omega)] at this
        simp only [if_true] at this
        rw [← this]
        refine Finset.sum_congr rfl fun c _ => ?_
        rw [hW k hk, if_neg (by omega), zero_mul, sub_zero]
      intro r hr
      have h1 := hx r hr
      simp only [T, hT, if_true] at h1
      simp only [hW r hr, sub_mul] at h1
      rw [Finset.sum_sub_distrib] at h1
      simp only [mul_assoc] at h1
      rw [← Finset.mul_sum, hk'] at h1
      by_cases hc : k < r ∧ r < min n (m1 + k + 1)
      · rw [if_pos hc, if_pos hc, if_pos (by simp only [true_and]; omega), show r - k - 1 + k + 1 = r by omega] at h1
        exact sub_left_inj.1 h1
      · rw [if_neg hc, if_neg hc, zero_mul, sub_zero] at h1
        exact h1
    have := key (Equiv.swap k i r) (swap_lt hk (by omega) hr)
    rwa [Equiv.swap_apply_self] at this
  · split
    · rw [neg_mul_neg]; exact h.sq
    · exact h.sq
  · have hin : i < n := by omega
    let kf : Fin n := ⟨k, hk⟩
    let mf : Fin n := ⟨i, hin⟩
    have e1 : Matrix.det (Matrix.of fun p q : Fin n => W mm m1 (k + 1) (fun r q => if k < r ∧ r < min n (m1 + k + 1) then
        elimRow mm (fun p q => f (Equiv.swap k i p) q) k r q else f (Equiv.swap k i r) q) p q) =
        Matrix.det (Matrix.of fun p q : Fin n => W mm m1 k f (Equiv.swap k i p) q) := by
      refine Matrix.det_eq_of_forall_row_eq_smul_add_const
        (fun p : Fin n => - (if k < (p : ℕ) ∧ (p : ℕ) < min n (m1 + k + 1) then f (Equiv.swap k i p) 0 / f i 0 else 0)) kf ?_ ?_
      · simp [kf]
      · intro p q
        rw [Matrix.of_apply, Matrix.of_apply, Matrix.of_apply, hW p p.2 q]
        ring
    have e2 : (Matrix.of fun p q : Fin n => W mm m1 k f (Equiv.swap k i p) q) =
        (Matrix.of fun p q : Fin n => W mm m1 k f p q).submatrix (Equiv.swap kf mf) id := by
      ext p q
      rw [Matrix.submatrix_apply, Matrix.of_apply, Matrix.of_apply]
      congr 1
      rw [Equiv.swap_apply_def, Equiv.swap_apply_def]
      simp only [Fin.ext_iff, kf, mf]
      split
      · rfl
      · split <;> rfl
    rw [e1, e2, Matrix.det_permute, h.det]
    by_cases hik : i = k
    · subst hik
      simp [kf, mf]
    · have hne : kf ≠ mf := fun e => hik (Fin.ext_iff.1 e).symm
      rw [Equiv.Perm.sign_swap hne, if_pos hik]
      simp

end Verif.LinAlg.BandLU
