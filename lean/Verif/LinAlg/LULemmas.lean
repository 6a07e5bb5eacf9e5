import Verif.LinAlg.LU
import Verif.LinAlg.GJLemmas
import Mathlib.LinearAlgebra.Matrix.Block

/-! # Helper lemmas for the LU solvers -/

set_option autoImplicit false

namespace Verif.LinAlg.LU

open Verif.Mat

variable {K : Type} [Field K] [LinearOrder K]

/-! ## Closed forms of the loops -/

section
omit [LinearOrder K]

/-- The matrix after eliminating column `k`. -/
def elimF (k : ℕ) (f : ℕ → ℕ → K) (r c : ℕ) : K :=
  if k < r then (if c = k then f r k / f k k else if k < c then f r c - f r k / f k k * f k c else f r c) else f r c

end

theorem exchange_ofFn {n k m : ℕ} (f : ℕ → ℕ → K) (d : K) (w : ℕ → K) (hk : k < n) (hm : m < n) :
    exchange n k m (Dense.ofFn n n f) d (tab n w) =
      .ret (Dense.ofFn n n (fun r c => f (Equiv.swap k m r) c), if k ≠ m then -d else d,
        tab n (fun r => if r = m then w k else w r)) := by
  rw [exchange]
  by_cases h : k = m
  · subst h
    rw [if_neg (by simp), if_neg (by simp), Equiv.swap_self]
    refine congrArg Outcome.ret (Prod.ext rfl (Prod.ext rfl ?_))
    exact tab_congr fun i _ => by split <;> simp_all
  · have e := swapRowsIf_ofFn (r := n) (c := n) f hm hk
    rw [swapRowsIf, if_pos (fun h' => h h'.symm)] at e
    simp only [Dense.ofFn_cols] at e
    rw [if_pos h, if_pos h, e, Outcome.bind_ret, index_tab _ hk, Outcome.bind_ret, store_tab _ hm, Outcome.bind_ret,
      Equiv.swap_comm m k]

theorem elimStep_ofFn {n k i : ℕ} (z : Outcome (Dense K)) (f : ℕ → ℕ → K) (hk : k < n) (hi : i < n) (hki : k < i)
    (hp : f k k ≠ 0) :
    elimStep n k z (Dense.ofFn n n f) i =
      .ret (Dense.ofFn n n (fun r c => if r = i then elimF k f i c else f r c)) := by
  rw [elimStep, Dense.get_ofFn _ hi hk, Outcome.bind_ret, Dense.get_ofFn _ hk hk, Outcome.bind_ret, if_neg hp,
    Dense.set_ofFn _ hi hk, Outcome.bind_ret]
  obtain ⟨t, ht, rfl⟩ := forFromTo_rule
    (fun j m => m = Dense.ofFn n n (fun r c => if r = i then
      (if c = k then f i k / f k k else if k < c ∧ c < j then f i c - f i k / f k k * f k c else f i c) else f r c))
    (k + 1) n (by omega)
    (Dense.ofFn n n (fun p q => if p = i ∧ q = k then f i k / f k k else f p q))
    (fun lu j => do
      let y ← lu.get i j
      let z ← lu.get k j
      lu.set i j (y - f i k / f k k * z))
    (by
      refine Dense.ofFn_congr fun p _ q _ => ?_
      by_cases h1 : p = i
      · subst h1
        by_cases h2 : q = k
        · simp [h2]
        · simp only [h2, and_false, if_false, if_true]
          rw [if_neg (by omega)]
      · simp [h1])
    (by
      rintro j _ hj hjn rfl
      refine ⟨_, by rw [Dense.get_ofFn _ hi hjn, Outcome.bind_ret, Dense.get_ofFn _ hk hjn, Outcome.bind_ret,
        Dense.set_ofFn _ hi hjn], ?_⟩
      refine Dense.ofFn_congr fun p _ q _ => ?_
      by_cases h1 : p = i
      · subst h1
        by_cases h2 : q = j
        · subst h2
          rw [if_pos ⟨rfl, rfl⟩, if_pos rfl, if_neg (by omega), if_neg (by omega), if_neg (by omega), if_pos rfl,
            if_neg (by omega), if_pos (by omega)]
        · rw [if_neg (by tauto)]
          simp only [if_true]
          by_cases h3 : q = k
          · rw [if_pos h3, if_pos h3]
          · rw [if_neg h3, if_neg h3]
            by_cases h4 : k < q ∧ q < j
            · rw [if_pos h4, if_pos (by omega)]
            · rw [if_neg h4, if_neg (by omega)]
      · rw [if_neg (by tauto), if_neg h1, if_neg h1])
  rw [ht]
  congr 1
  refine Dense.ofFn_congr fun p _ q hq => ?_
  by_cases h1 : p = i
  · rw [if_pos h1, if_pos h1, elimF, if_pos hki]
    by_cases h3 : q = k
    · rw [if_pos h3, if_pos h3]
    · rw [if_neg h3, if_neg h3]
      by_cases h4 : k < q
      · rw [if_pos h4, if_pos (by omega)]
      · rw [if_neg h4, if_neg (by omega)]
  · rw [if_neg h1, if_neg h1]

theorem elim_ofFn {n k : ℕ} (z : Outcome (Dense K)) (f : ℕ → ℕ → K) (hk : k < n) (hp : f k k ≠ 0) :
    forFromTo (k + 1) n (Dense.ofFn n n f) (elimStep n k z) = .ret (Dense.ofFn n n (elimF k f)) := by
  obtain ⟨t, ht, rfl⟩ := forFromTo_rule
    (fun i m => m = Dense.ofFn n n (fun r c => if r < i then elimF k f r c else f r c))
    (k + 1) n (by omega) (Dense.ofFn n n f) (elimStep n k z)
    (Dense.ofFn_congr fun p _ q _ => by
      by_cases h : p < k + 1
      · rw [if_pos h, elimF, if_neg (by omega)]
      · rw [if_neg h])
    (by
      rintro i _ hi hin rfl
      refine ⟨_, elimStep_ofFn z _ hk hin (by omega) ?_, ?_⟩
      · rw [if_pos (by omega), elimF, if_neg (by omega)]; exact hp
      · refine Dense.ofFn_congr fun p _ q _ => ?_
        by_cases h1 : p = i
        · subst h1
          rw [if_pos rfl, if_pos (by omega)]
          have hkp : k < p := by omega
          simp only [elimF, hkp, lt_irrefl, if_true, if_false]
        · rw [if_neg h1]
          by_cases h2 : p < i
          · rw [if_pos h2, if_pos (by omega)]
          · rw [if_neg h2, if_neg (by omega)])
  rw [ht]
  congr 1
  exact Dense.ofFn_congr fun p hp' q _ => by rw [if_pos hp']

/-! ## The scaling loop and the pivot search -/

variable [IsStrictOrderedRing K]

theorem rowMax_spec {n : ℕ} (f : ℕ → ℕ → K) {i : ℕ} (hi : i < n) :
    ∃ s, rowMax n (Dense.ofFn n n f) i = .ret s ∧ 0 ≤ s ∧ (∀ j < n, |f i j| ≤ s) ∧ (s = 0 ∨ ∃ j < n, s = |f i j|) := by
  obtain ⟨t, ht, h0, h1, h2⟩ := forRange_rule
    (fun k s => 0 ≤ s ∧ (∀ j < k, |f i j| ≤ s) ∧ (s = 0 ∨ ∃ j < n, s = |f i j|)) n (0 : K)
    (fun big j => do
      let x ← (Dense.ofFn n n f).get i j
      .ret (if |x| > big then |x| else big))
    ⟨le_rfl, fun j h => by omega, Or.inl rfl⟩
    (by
      rintro j s hj ⟨g0, g1, g2⟩
      refine ⟨_, by rw [Dense.get_ofFn _ hi hj, Outcome.bind_ret], ?_⟩
      by_cases h : |f i j| > s
      · rw [if_pos h]
        refine ⟨abs_nonneg _, fun q hq => ?_, Or.inr ⟨j, hj, rfl⟩⟩
        rcases Nat.lt_succ_iff_lt_or_eq.1 hq with h3 | rfl
        · exact (g1 q h3).trans h.le
        · exact le_rfl
      · rw [if_neg h]
        refine ⟨g0, fun q hq => ?_, g2⟩
        rcases Nat.lt_succ_iff_lt_or_eq.1 hq with h3 | rfl
        · exact g1 q h3
        · exact not_lt.1 h)
  exact ⟨t, ht, h0, h1, h2⟩

/-- `ρ i` is the largest absolute value of row `i`, and is positive. -/
def RowScale (n : ℕ) (A : ℕ → ℕ → K) (ρ : ℕ → K) : Prop :=
  ∀ i < n, 0 < ρ i ∧ (∀ j < n, |A i j| ≤ ρ i) ∧ ∃ j < n, ρ i = |A i j|

theorem scale_sat {n : ℕ} (A : ℕ → ℕ → K) (E : Exn → Prop)
    (hE : (∃ i < n, ∀ j < n, A i j = 0) → E (.mml "SingularMatrixError")) :
    (forRange n ((0 : K), List.replicate n (0 : K)) (scaleStep n (Dense.ofFn n n A))).Sat
      (fun s => ∃ ρ : ℕ → K, RowScale n A ρ ∧ s.2 = tab n (fun i => 1 / ρ i) ∧ (0 < n → 0 < s.1) ∧
        ∀ M, 0 ≤ M → (∀ r < n, ∀ c < n, |A r c| ≤ M) → s.1 ≤ M) E := by
  have hex : ∀ i, ∃ s, i < n → rowMax n (Dense.ofFn n n A) i = .ret s ∧ 0 ≤ s ∧ (∀ j < n, |A i j| ≤ s) ∧
      (s = 0 ∨ ∃ j < n, s = |A i j|) := by
    intro i
    by_cases hi : i < n
    · obtain ⟨s, hs⟩ := rowMax_spec A hi
      exact ⟨s, fun _ => hs⟩
    · exact ⟨0, fun h => absurd h hi⟩
  choose ρ hρ using hex
  have := forRange_sat (fun i (s : K × List K) => s.2 = tab n (fun t => if t < i then 1 / ρ t else 0) ∧
      (∀ t < i, ρ t ≠ 0) ∧ 0 ≤ s.1 ∧ (∀ t < i, ρ t ≤ s.1) ∧ (s.1 = 0 ∨ ∃ t < n, s.1 = ρ t)) E n
    ((0 : K), List.replicate n (0 : K)) (scaleStep n (Dense.ofFn n n A))
    ⟨by rw [replicate_eq_tab]; exact tab_congr fun t _ => by rw [if_neg (by omega)], fun t h => by omega, le_rfl,
      fun t h => by omega, Or.inl rfl⟩
    (by
      rintro i ⟨norm, vv⟩ hi ⟨h1, h2, h3, h4, h5⟩
      simp only at h1 h3 h4 h5
      subst h1
      obtain ⟨hr, hr0, hr1, hr2⟩ := hρ i hi
      rw [scaleStep, hr, Outcome.bind_ret]
      by_cases hz : ρ i = 0
      · rw [if_pos hz]
        refine hE ⟨i, hi, fun j hj => ?_⟩
        have := hr1 j hj
        rw [hz] at this
        exact abs_eq_zero.1 (le_antisymm this (abs_nonneg _))
      rw [if_neg hz]
      simp only
      rw [store_tab _ hi, Outcome.bind_ret]
      refine ⟨tab_congr fun t _ => ?_, fun t ht => ?_, ?_, fun t ht => ?_, ?_⟩
      · by_cases hti : t = i
        · subst hti; rw [if_pos rfl, if_pos (by omega)]
        · rw [if_neg hti]
          by_cases h6 : t < i
          · rw [if_pos h6, if_pos (by omega)]
          · rw [if_neg h6, if_neg (by omega)]
      · rcases Nat.lt_succ_iff_lt_or_eq.1 ht with h6 | rfl
        · exact h2 t h6
        · exact hz
      · simp only
        split
        · exact hr0
        · exact h3
      · simp only
        rcases Nat.lt_succ_iff_lt_or_eq.1 ht with h6 | rfl
        · split
          · next h7 => exact (h4 t h6).trans h7.le
          · exact h4 t h6
        · split
          · exact le_rfl
          · next h7 => exact not_lt.1 h7
      · simp only
        split
        · exact Or.inr ⟨i, hi, rfl⟩
        · exact h5)
  refine this.imp ?_
  rintro ⟨norm, vv⟩ ⟨h1, h2, h3, h4, h5⟩
  simp only at h1 h3 h4 h5
  have hscale : RowScale n A ρ := by
    intro i hi
    obtain ⟨_, hr0, hr1, hr2⟩ := hρ i hi
    exact ⟨lt_of_le_of_ne hr0 (Ne.symm (h2 i hi)), hr1, hr2.resolve_left (h2 i hi)⟩
  refine ⟨ρ, hscale, ?_, fun hn => ?_, fun M hM hall => ?_⟩
  · simp only
    rw [h1]
    exact tab_congr fun t ht => by rw [if_pos ht]
  · exact (hscale 0 hn).1.trans_le (h4 0 hn)
  · rcases h5 with h5 | ⟨t, ht, h5⟩
    · simp only; rw [h5]; exact hM
    · obtain ⟨_, _, j, hj, hrj⟩ := hscale t ht
      simp only
      rw [h5, hrj]
      exact hall t ht j hj

theorem pivot_spec {n k : ℕ} (w : ℕ → K) (f : ℕ → ℕ → K) (hk : k < n) :
    ∃ q, forFromTo k n ((0 : K), k) (pivotStep (tab n w) (Dense.ofFn n n f) k) = .ret q ∧ k ≤ q.2 ∧ q.2 < n ∧
      ∀ i, k ≤ i → i < n → |w i * f i k| ≤ |w q.2 * f q.2 k| := by
  obtain ⟨q, hq, h1, h2, h3, h4⟩ := forFromTo_rule
    (fun i (s : K × ℕ) => k ≤ s.2 ∧ s.2 < n ∧ s.1 ≤ |w s.2 * f s.2 k| ∧ ∀ t, k ≤ t → t < i → |w t * f t k| ≤ s.1)
    k n hk.le ((0 : K), k) (pivotStep (tab n w) (Dense.ofFn n n f) k)
    ⟨le_rfl, hk, abs_nonneg _, fun t h1 h2 => by omega⟩
    (by
      rintro i s hi hin ⟨g1, g2, g3, g4⟩
      refine ⟨_, by rw [pivotStep, index_tab _ hin, Outcome.bind_ret, Dense.get_ofFn _ hin hk, Outcome.bind_ret], ?_⟩
      by_cases h : |w i * f i k| > s.1
      · rw [if_pos h]
        refine ⟨hi, hin, le_rfl, fun t h1 h2 => ?_⟩
        rcases Nat.lt_succ_iff_lt_or_eq.1 h2 with h3 | rfl
        · exact (g4 t h1 h3).trans h.le
        · exact le_rfl
      · rw [if_neg h]
        refine ⟨g1, g2, g3, fun t h1 h2 => ?_⟩
        rcases Nat.lt_succ_iff_lt_or_eq.1 h2 with h3 | rfl
        · exact g4 t h1 h3
        · exact not_lt.1 h)
  exact ⟨q, hq, h1, h2, fun i hi hin => (h4 i hi hin).trans h3⟩

/-! ## The invariant of the decomposition -/

section
omit [LinearOrder K] [IsStrictOrderedRing K]

/-- The part of row `r` of the permuted matrix accounted for after `k` rounds. -/
def partialProd (k : ℕ) (f : ℕ → ℕ → K) (r c : ℕ) : K :=
  (∑ t ∈ Finset.range (min k r), f r t * (if t ≤ c then f t c else 0)) + if min k r ≤ c then f r c else 0

/-- What holds after `k` rounds. -/
structure Inv (n : ℕ) (A : ℕ → ℕ → K) (k : ℕ) (f : ℕ → ℕ → K) (ix : ℕ → ℕ) (d : K) : Prop where
  prod : ∀ r < n, ∀ c < n, A (permAcc id ix k r) c = partialProd k f r c
  piv : ∀ t < k, t ≤ ix t ∧ ix t < n
  diag : ∀ t < k, f t t ≠ 0
  sq : d * d = 1
  det : Matrix.det (Matrix.of fun i j : Fin n => A (permAcc id ix k i) j) =
    d * Matrix.det (Matrix.of fun i j : Fin n => A i j)

theorem swap_fix {k m r : ℕ} (hkm : k ≤ m) (hr : r < k) : Equiv.swap k m r = r :=
  Equiv.swap_apply_of_ne_of_ne (by omega) (by omega)

theorem swap_ge {k m r : ℕ} (hkm : k ≤ m) (hr : k ≤ r) : k ≤ Equiv.swap k m r := by
  rw [Equiv.swap_apply_def]; split
  · exact hkm
  · split <;> omega

theorem partialProd_swap {k m : ℕ} (f : ℕ → ℕ → K) (hkm : k ≤ m) (r c : ℕ) :
    partialProd k (fun r c => f (Equiv.swap k m r) c) r c = partialProd k f (Equiv.swap k m r) c := by
  have hmin : min k (Equiv.swap k m r) = min k r := by
    rcases Nat.lt_or_ge r k with h | h
    · rw [swap_fix hkm h]
    · have := swap_ge hkm h; omega
  rw [partialProd, partialProd, hmin]
  congr 1
  refine Finset.sum_congr rfl fun t ht => ?_
  have ht' : t < k := by have := Finset.mem_range.1 ht; omega
  rw [swap_fix hkm ht']

theorem partialProd_elim {k : ℕ} (f : ℕ → ℕ → K) (hp : f k k ≠ 0) (r c : ℕ) :
    partialProd (k + 1) (elimF k f) r c = partialProd k f r c := by
  have hrow : ∀ t ≤ k, ∀ c, elimF k f t c = f t c := fun t ht c => by rw [elimF, if_neg (by omega)]
  rcases Nat.lt_or_ge k r with h | h
  · have h1 : min (k + 1) r = k + 1 := by omega
    have h2 : min k r = k := by omega
    rw [partialProd, partialProd, h1, h2, Finset.sum_range_succ]
    have hs : ∑ t ∈ Finset.range k, elimF k f r t * (if t ≤ c then elimF k f t c else 0) =
        ∑ t ∈ Finset.range k, f r t * (if t ≤ c then f t c else 0) := by
      refine Finset.sum_congr rfl fun t ht => ?_
      have ht' := Finset.mem_range.1 ht
      rw [hrow t ht'.le, elimF, if_pos h, if_neg (by omega), if_neg (by omega)]
    rw [hs, hrow k le_rfl, add_assoc]
    congr 1
    simp only [elimF, if_pos h, if_true]
    by_cases hc : c = k
    · subst hc
      rw [if_pos le_rfl, if_neg (by omega), if_pos le_rfl, add_zero, div_mul_cancel₀ _ hp]
    · rw [if_neg hc]
      by_cases hck : k < c
      · rw [if_pos hck.le, if_pos (by omega), if_pos hck, if_pos hck.le]; ring
      · rw [if_neg (by omega), if_neg (by omega), if_neg (by omega)]; ring
  · have h1 : min (k + 1) r = r := by omega
    have h2 : min k r = r := by omega
    rw [partialProd, partialProd, h1, h2, hrow r h]
    congr 1
    refine Finset.sum_congr rfl fun t ht => ?_
    have ht' := Finset.mem_range.1 ht
    rw [hrow t (by omega), hrow r h]

theorem Inv.zero (n : ℕ) (A : ℕ → ℕ → K) (ix : ℕ → ℕ) : Inv n A 0 A ix 1 :=
  ⟨fun r _ c _ => by simp [permAcc, partialProd], fun t h => by omega, fun t h => by omega, one_mul 1, by
    simp [permAcc]⟩

theorem Inv.step {n k m : ℕ} {A f : ℕ → ℕ → K} {ix : ℕ → ℕ} {d : K} (h : Inv n A k f ix d) (hk : k < n) (hkm : k ≤ m)
    (hm : m < n) (hp : f m k ≠ 0) :
    Inv n A (k + 1) (elimF k (fun r c => f (Equiv.swap k m r) c)) (fun t => if t = k then m else ix t)
      (if k ≠ m then -d else d) := by
  have hperm : permAcc id (fun t => if t = k then m else ix t) (k + 1) = permAcc id ix k * Equiv.swap k m := by
    rw [permAcc, if_pos rfl, permAcc_congr (ir' := id) (ic' := ix) k]
    · rfl
    · intro l hl
      rw [if_neg (by omega)]
      exact ⟨rfl, rfl⟩
  have hpk : (fun r c => f (Equiv.swap k m r) c) k k ≠ 0 := by
    simp only [Equiv.swap_apply_left]; exact hp
  refine ⟨fun r hr c hc => ?_, fun t ht => ?_, fun t ht => ?_, ?_, ?_⟩
  · rw [hperm, Equiv.Perm.mul_apply, h.prod _ (swap_lt hk hm hr) c hc, partialProd_elim _ hpk, partialProd_swap f hkm]
  · beta_reduce
    by_cases htk : t = k
    · rw [if_pos htk]; omega
    · rw [if_neg htk]; exact h.piv t (by omega)
  · rw [elimF, if_neg (by omega)]
    by_cases htk : t = k
    · subst htk; exact hpk
    · rw [swap_fix hkm (by omega)]; exact h.diag t (by omega)
  · split
    · rw [neg_mul_neg]; exact h.sq
    · exact h.sq
  · have e : (Matrix.of fun i j : Fin n => A (permAcc id (fun t => if t = k then m else ix t) (k + 1) i) j) =
        Matrix.submatrix (Matrix.of fun i j : Fin n => A (permAcc id ix k i) j)
          (Equiv.swap (⟨k, hk⟩ : Fin n) ⟨m, hm⟩) id := by
      ext i j
      rw [Matrix.submatrix_apply, Matrix.of_apply, Matrix.of_apply, hperm, Equiv.Perm.mul_apply]
      have : ((Equiv.swap (⟨k, hk⟩ : Fin n) ⟨m, hm⟩ i : Fin n) : ℕ) = Equiv.swap k m i := by
        simp only [Equiv.swap_apply_def, Fin.ext_iff]
        split
        · rfl
        · split <;> rfl
      rw [this]
      rfl
    rw [e, Matrix.det_permute, h.det]
    by_cases hkm' : k = m
    · subst hkm'
      simp
    · rw [Equiv.Perm.sign_swap (by simpa [Fin.ext_iff] using hkm'), if_pos hkm']
      simp

/-- Upper triangular systems have solutions. -/
theorem exists_upper (k : ℕ) (U : ℕ → ℕ → K) (hd : ∀ t < k, U t t ≠ 0) (g : ℕ → K) :
    ∃ y : ℕ → K, ∀ t < k, ∑ c ∈ Finset.range k, (if t ≤ c then U t c else 0) * y c = g t := by
  induction k generalizing g with
  | zero => exact ⟨0, fun t h => by omega⟩
  | succ k ih =>
    obtain ⟨y, hy⟩ := ih (fun t ht => hd t (by omega)) (fun t => g t - U t k * (g k / U k k))
    refine ⟨fun c => if c = k then g k / U k k else y c, fun t ht => ?_⟩
    beta_reduce
    rw [Finset.sum_range_succ, if_pos (show t ≤ k by omega), if_pos rfl,
      Finset.sum_congr rfl (g := fun c => (if t ≤ c then U t c else 0) * y c) fun c hc => by
        have := Finset.mem_range.1 hc
        rw [if_neg (show ¬ c = k by omega)]]
    rcases Nat.lt_succ_iff_lt_or_eq.1 ht with h | rfl
    · rw [hy t h]; ring
    · rw [Finset.sum_eq_zero fun c hc => by
        have := Finset.mem_range.1 hc
        rw [if_neg (show ¬ t ≤ c by omega), zero_mul], zero_add, mul_div_cancel₀ _ (hd t (by omega))]

/-- Some combination of the columns of `A`, in which one column has coefficient one, has the residuals `f r k`. -/
theorem Inv.exists_comb {n k : ℕ} {A f : ℕ → ℕ → K} {ix : ℕ → ℕ} {d : K} (h : Inv n A k f ix d) (hk : k < n) :
    ∃ v : ℕ → K, v k = 1 ∧ ∀ r < n, ∑ c ∈ Finset.range n, A (permAcc id ix k r) c * v c = if r < k then 0 else f r k := by
  obtain ⟨y, hy⟩ := exists_upper k f h.diag (fun t => - f t k)
  let v : ℕ → K := fun c => if c < k then y c else if c = k then 1 else 0
  have hU : ∀ g : ℕ → K, ∑ c ∈ Finset.range n, g c * v c = (∑ c ∈ Finset.range k, g c * y c) + g k := by
    intro g
    rw [← Finset.sum_range_add_sum_Ico _ (show k + 1 ≤ n by omega), Finset.sum_range_succ]
    rw [Finset.sum_eq_zero (s := Finset.Ico (k + 1) n) fun c hc => by
      have := Finset.mem_Ico.1 hc
      simp only [v]
      rw [if_neg (by omega), if_neg (by omega), mul_zero], add_zero]
    congr 1
    · refine Finset.sum_congr rfl fun c hc => ?_
      simp only [v]
      rw [if_pos (Finset.mem_range.1 hc)]
    · simp [v]
  have hUt : ∀ t < k, ∑ c ∈ Finset.range n, (if t ≤ c then f t c else 0) * v c = 0 := by
    intro t ht
    rw [hU fun c => if t ≤ c then f t c else 0, hy t ht, if_pos ht.le]
    ring
  refine ⟨v, by simp [v], fun r hr => ?_⟩
  have expand : ∑ c ∈ Finset.range n, A (permAcc id ix k r) c * v c =
      (∑ t ∈ Finset.range (min k r), f r t * ∑ c ∈ Finset.range n, (if t ≤ c then f t c else 0) * v c) +
      ∑ c ∈ Finset.range n, (if min k r ≤ c then f r c else 0) * v c := by
    rw [Finset.sum_congr rfl fun c hc => by rw [h.prod r hr c (Finset.mem_range.1 hc), partialProd, add_mul],
      Finset.sum_add_distrib]
    congr 1
    simp only [Finset.sum_mul, Finset.mul_sum]
    rw [Finset.sum_comm]
    exact Finset.sum_congr rfl fun t _ => Finset.sum_congr rfl fun c _ => by ring
  rw [expand, Finset.sum_eq_zero fun t ht => by
    have := Finset.mem_range.1 ht
    rw [hUt t (by omega), mul_zero], zero_add]
  by_cases hrk : r < k
  · rw [if_pos hrk, show min k r = r by omega, hUt r hrk]
  · rw [if_neg hrk, show min k r = k by omega, hU fun c => if k ≤ c then f r c else 0, if_pos le_rfl,
      Finset.sum_eq_zero fun c hc => by
        have := Finset.mem_range.1 hc
        rw [if_neg (show ¬ k ≤ c by omega), zero_mul], zero_add]

end

/-- Some combination of the columns of `A` in which one column has coefficient one is smaller than `bound`. -/
def ColNear (n : ℕ) (A : ℕ → ℕ → K) (bound : K) : Prop :=
  ∃ v : ℕ → K, (∃ k < n, v k = 1) ∧ ∀ r < n, |∑ c ∈ Finset.range n, A r c * v c| < bound

/-- The state between two rounds. -/
def State (n : ℕ) (A : ℕ → ℕ → K) (ρ : ℕ → K) (k : ℕ) (s : LU K × List K) : Prop :=
  ∃ (f : ℕ → ℕ → K) (ix : ℕ → ℕ) (w : ℕ → K), s.1.lu = Dense.ofFn n n f ∧ s.1.indx = tab n ix ∧ s.2 = tab n w ∧
    Inv n A k f ix s.1.d ∧ ∀ r, k ≤ r → r < n → w r = 1 / ρ (permAcc id ix k r)

theorem step_sat {n : ℕ} (A : ℕ → ℕ → K) (ρ : ℕ → K) (hρ : RowScale n A ρ) (z : Outcome (Dense K)) (thr : K)
    (E : Exn → Prop) (hthr : 0 < thr)
    (hE : (∀ q, (∀ r < n, ∀ r' < n, ρ r / ρ r' ≤ q) → ColNear n A (q * thr)) → E (.mml "SingularMatrixError"))
    (k : ℕ) (hk : k < n) (s : LU K × List K) (hs : State n A ρ k s) :
    (step n z thr s k).Sat (State n A ρ (k + 1)) E := by
  obtain ⟨⟨lu, indx, d⟩, vv⟩ := s
  obtain ⟨f, ix, w, hlu, hix, hvv, hinv, hw⟩ := hs
  simp only at hlu hix hvv hinv
  subst hlu hix hvv
  obtain ⟨⟨big, m⟩, hq, hkm, hm, hbest⟩ := pivot_spec w f hk
  simp only at hkm hm hbest
  rw [step]
  simp only
  rw [hq, Outcome.bind_ret]
  simp only
  rw [exchange_ofFn f d w hk hm, Outcome.bind_ret, store_tab _ hk, Outcome.bind_ret, Dense.get_ofFn _ hk hk,
    Outcome.bind_ret, Equiv.swap_apply_left]
  by_cases hsmall : |f m k| < thr
  · rw [if_pos hsmall]
    refine hE fun q hq => ?_
    obtain ⟨v, hv1, hv⟩ := hinv.exists_comb hk
    have hlt : ∀ l < k, id l < n ∧ ix l < n := fun l hl => ⟨by simp only [id]; omega, (hinv.piv l hl).2⟩
    have hq1 : 1 ≤ q := by
      have := hq 0 (by omega) 0 (by omega)
      rwa [div_self (hρ 0 (by omega)).1.ne'] at this
    refine ⟨v, ⟨k, hk, hv1⟩, fun r hr => ?_⟩
    -- every row is the image of some row under the permutation
    obtain ⟨r', hr', rfl⟩ : ∃ r' < n, permAcc id ix k r' = r := by
      have hsurj := Finset.surj_on_of_inj_on_of_card_le (s := Finset.range n) (t := Finset.range n)
        (fun a _ => permAcc id ix k a) (fun a ha => Finset.mem_range.2 (permAcc_lt k hlt (Finset.mem_range.1 ha)))
        (fun a b _ _ hab => (permAcc id ix k).injective hab) le_rfl r (Finset.mem_range.2 hr)
      obtain ⟨a, ha, hra⟩ := hsurj
      exact ⟨a, Finset.mem_range.1 ha, hra.symm⟩
    rw [hv r' hr']
    have hpos : 0 < q * thr := mul_pos (lt_of_lt_of_le one_pos hq1) hthr
    by_cases hrk : r' < k
    · rw [if_pos hrk, abs_zero]; exact hpos
    · rw [if_neg hrk]
      have h1 := hbest r' (by omega) hr'
      rw [hw r' (by omega) hr', hw m hkm hm, abs_mul, abs_mul] at h1
      have hp1 := (hρ _ (permAcc_lt k hlt hr')).1
      have hp2 := (hρ _ (permAcc_lt k hlt hm)).1
      rw [abs_of_pos (one_div_pos.2 hp1), abs_of_pos (one_div_pos.2 hp2)] at h1
      have h2 : |f r' k| ≤ ρ (permAcc id ix k r') / ρ (permAcc id ix k m) * |f m k| := by
        have := mul_le_mul_of_nonneg_left h1 hp1.le
        rw [← mul_assoc, mul_one_div_cancel hp1.ne', one_mul] at this
        refine this.trans (le_of_eq ?_)
        ring
      have h3 := hq _ (permAcc_lt k hlt hr') _ (permAcc_lt k hlt hm)
      calc |f r' k| ≤ ρ (permAcc id ix k r') / ρ (permAcc id ix k m) * |f m k| := h2
        _ ≤ q * |f m k| := mul_le_mul_of_nonneg_right h3 (abs_nonneg _)
        _ < q * thr := mul_lt_mul_of_pos_left hsmall (lt_of_lt_of_le one_pos hq1)
  rw [if_neg hsmall]
  have hp : f m k ≠ 0 := by
    intro h0
    rw [h0, abs_zero] at hsmall
    exact hsmall hthr
  rw [elim_ofFn z _ hk (by simp only [Equiv.swap_apply_left]; exact hp), Outcome.bind_ret]
  refine ⟨_, _, _, rfl, rfl, rfl, hinv.step hk hkm hm hp, fun r hr hrn => ?_⟩
  have hperm : permAcc id (fun t => if t = k then m else ix t) (k + 1) = permAcc id ix k * Equiv.swap k m := by
    rw [permAcc, if_pos rfl, permAcc_congr (ir' := id) (ic' := ix) k]
    · rfl
    · intro l hl
      rw [if_neg (by omega)]
      exact ⟨rfl, rfl⟩
  rw [hperm, Equiv.Perm.mul_apply]
  by_cases hrm : r = m
  · subst hrm
    rw [if_pos rfl, Equiv.swap_apply_right, hw k le_rfl hk]
  · rw [if_neg hrm, Equiv.swap_apply_of_ne_of_ne (by omega) hrm, hw r (by omega) hrn]

/-- A decomposition of `A`. -/
def Decomp (n : ℕ) (A : ℕ → ℕ → K) (s : LU K) : Prop :=
  ∃ (f : ℕ → ℕ → K) (ix : ℕ → ℕ), s.lu = Dense.ofFn n n f ∧ s.indx = tab n ix ∧ Inv n A n f ix s.d

theorem create_sat {n : ℕ} (A : ℕ → ℕ → K) (z : Outcome (Dense K)) (eps : K) (heps : 0 < eps) (hn : n ≠ 0)
    (E : Exn → Prop)
    (hE : (∀ M m, 0 < m → (∀ r < n, ∀ c < n, |A r c| ≤ M) → (∀ r < n, ∃ c < n, m ≤ |A r c|) →
      ColNear n A (M / m * (eps * M * n))) → E (.mml "SingularMatrixError")) :
    (create z eps (Dense.ofFn n n A)).Sat (Decomp n A) E := by
  rw [create, if_neg (by simp), if_neg (by simpa using hn)]
  simp only [Dense.ofFn_rows]
  refine (scale_sat A E ?_).bind ?_
  · rintro ⟨i, hi, hz⟩
    refine hE fun M m hm _ hrow => ?_
    obtain ⟨c, hc, h⟩ := hrow i hi
    rw [hz c hc, abs_zero] at h
    exact absurd (hm.trans_le h) (lt_irrefl _)
  rintro ⟨norm, vv⟩ ⟨ρ, hρ, hvv, hnorm, hle⟩
  simp only at hvv hnorm hle
  subst hvv
  have hn' : (0 : K) < n := by
    have : 0 < n := by omega
    exact_mod_cast this
  have hpos := hnorm (by omega)
  have hthr : 0 < eps * norm * n := mul_pos (mul_pos heps hpos) hn'
  have := forRange_sat (State n A ρ) E n ((⟨Dense.ofFn n n A, List.replicate n 0, 1⟩ : LU K), tab n fun i => 1 / ρ i)
    (step n z (eps * norm * n))
    ⟨A, fun _ => 0, _, rfl, by rw [replicate_eq_tab], rfl, Inv.zero n A _, fun r _ _ => by simp [permAcc]⟩
    (fun k s hk hs => step_sat A ρ hρ z _ E hthr (fun hnear => hE fun M m hm hM hrow => by
      have hM0 : 0 ≤ M := (abs_nonneg _).trans (hM 0 (by omega) 0 (by omega))
      obtain ⟨v, hv1, hv⟩ := hnear (M / m) (fun r hr r' hr' => by
        obtain ⟨h1, _, j, hj, h3⟩ := hρ r hr
        obtain ⟨h1', h2', _⟩ := hρ r' hr'
        obtain ⟨c, hc, h4⟩ := hrow r' hr'
        refine div_le_div₀ hM0 (by rw [h3]; exact hM r hr j hj) hm (h4.trans (h2' c hc)))
      refine ⟨v, hv1, fun r hr => (hv r hr).trans_le ?_⟩
      refine mul_le_mul_of_nonneg_left ?_ (div_nonneg hM0 hm.le)
      exact mul_le_mul_of_nonneg_right (mul_le_mul_of_nonneg_left (hle M hM0 hM) heps.le) hn'.le) k hk s hs)
  refine this.bind ?_
  rintro s ⟨f, ix, w, h1, h2, _, h4, _⟩
  exact ⟨f, ix, h1, h2, h4⟩

end Verif.LinAlg.LU
