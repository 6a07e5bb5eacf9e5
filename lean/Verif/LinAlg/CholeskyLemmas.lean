import Verif.LinAlg.Cholesky
import Verif.LinAlg.LULemmas
import Verif.Mat.DenseProps

/-! # Helper lemmas for the Cholesky solver -/

set_option autoImplicit false

namespace Verif.LinAlg.Chol

open Verif.Mat

variable {K : Type} [Field K] [LinearOrder K] [IsStrictOrderedRing K]

/-- What holds of the matrix when the loops have reached `(i, j)`. -/
structure Part (n : ℕ) (A : ℕ → ℕ → K) (i j : ℕ) (f : ℕ → ℕ → K) : Prop where
  upper : ∀ r < n, ∀ c < n, r < c → f r c = A r c
  prod : ∀ c r, c ≤ r → r < n → (c < i ∨ c = i ∧ r < j) → ∑ k ∈ Finset.range (c + 1), f c k * f r k = A c r
  pos : ∀ c < n, (c < i ∨ c = i ∧ c < j) → 0 < f c c
  rest : ∀ c < n, ¬ (c < i ∨ c = i ∧ c < j) → f c c = A c c

/-- `s` is the value that `S` takes at `v`, where `S` has the upper triangle of `A`. -/
def form (n : ℕ) (A : ℕ → ℕ → K) (v : ℕ → K) : K :=
  ∑ r ∈ Finset.range n, ∑ c ∈ Finset.range n, v r * A (min r c) (max r c) * v c

/-- A quadratic form whose matrix is a product. -/
theorem sum_squares (s t : Finset ℕ) (F : ℕ → ℕ → K) (v : ℕ → K) :
    ∑ r ∈ s, ∑ c ∈ s, v r * (∑ k ∈ t, F r k * F c k) * v c = ∑ k ∈ t, (∑ r ∈ s, v r * F r k) ^ 2 := by
  have : ∀ k, (∑ r ∈ s, v r * F r k) ^ 2 = ∑ r ∈ s, ∑ c ∈ s, v r * F r k * (v c * F c k) := by
    intro k; rw [sq, Finset.sum_mul_sum]
  simp only [this]
  symm
  rw [Finset.sum_comm]
  refine Finset.sum_congr rfl fun r _ => ?_
  rw [Finset.sum_comm]
  refine Finset.sum_congr rfl fun c _ => ?_
  rw [Finset.mul_sum, Finset.sum_mul]
  exact Finset.sum_congr rfl fun k _ => by ring

theorem Part.not_pos {n i : ℕ} {A f : ℕ → ℕ → K} (h : Part n A i i f) (hi : i < n)
    (hs : f i i - ∑ k ∈ Finset.range i, f i k * f i k ≤ 0) : ∃ v : ℕ → K, (∃ k < n, v k ≠ 0) ∧ form n A v ≤ 0 := by
  obtain ⟨y, hy⟩ := LU.exists_upper i (fun t c => f c t) (fun t ht => (h.pos t (by omega) (Or.inl ht)).ne')
    (fun t => - f i t)
  let v : ℕ → K := fun c => if c < i then y c else if c = i then 1 else 0
  have hv1 : v i = 1 := by simp [v]
  refine ⟨v, ⟨i, hi, by simp [v]⟩, ?_⟩
  -- only the indices up to `i` matter
  have hcut : form n A v = ∑ r ∈ Finset.range (i + 1), ∑ c ∈ Finset.range (i + 1), v r * A (min r c) (max r c) * v c := by
    have hz : ∀ c, i < c → v c = 0 := fun c hc => by simp only [v]; rw [if_neg (by omega), if_neg (by omega)]
    rw [form, ← Finset.sum_range_add_sum_Ico _ (show i + 1 ≤ n by omega),
      Finset.sum_eq_zero (s := Finset.Ico (i + 1) n) fun r hr => Finset.sum_eq_zero fun c _ => by
        rw [hz r (by have := Finset.mem_Ico.1 hr; omega), zero_mul, zero_mul], add_zero]
    refine Finset.sum_congr rfl fun r _ => ?_
    rw [← Finset.sum_range_add_sum_Ico _ (show i + 1 ≤ n by omega),
      Finset.sum_eq_zero (s := Finset.Ico (i + 1) n) fun c hc => by
        rw [hz c (by have := Finset.mem_Ico.1 hc; omega), mul_zero], add_zero]
  let F : ℕ → ℕ → K := fun p k => if k ≤ p then f p k else 0
  have hS : ∀ p ≤ i, ∀ q ≤ i, A (min p q) (max p q) = ∑ k ∈ Finset.range i, F p k * F q k +
      if p = i ∧ q = i then f i i - ∑ k ∈ Finset.range i, f i k * f i k else 0 := by
    have hle : ∀ p q, p ≤ q → q ≤ i → A p q = ∑ k ∈ Finset.range i, F p k * F q k +
      if p = i ∧ q = i then f i i - ∑ k ∈ Finset.range i, f i k * f i k else 0 := by
      intro p q hpq hq
      by_cases hp : p = i
      · obtain rfl : q = i := by omega
        subst hp
        rw [if_pos ⟨rfl, rfl⟩, ← h.rest p hi (by omega), Finset.sum_congr rfl (fun k hk => by
          have := Finset.mem_range.1 hk
          simp only [F]
          rw [if_pos (by omega)])]
        ring
      · rw [if_neg (by omega), add_zero, ← h.prod p q hpq (by omega) (by omega),
          ← Finset.sum_range_add_sum_Ico _ (show p + 1 ≤ i by omega),
          Finset.sum_eq_zero (s := Finset.Ico (p + 1) i) fun k hk => by
            have := Finset.mem_Ico.1 hk
            simp only [F]
            rw [if_neg (by omega), zero_mul], add_zero]
        refine Finset.sum_congr rfl fun k hk => ?_
        have := Finset.mem_range.1 hk
        simp only [F]
        rw [if_pos (by omega), if_pos (by omega)]
    intro p hp q hq
    rcases le_total p q with hpq | hpq
    · rw [min_eq_left hpq, max_eq_right hpq]; exact hle p q hpq hq
    · rw [min_eq_right hpq, max_eq_left hpq, hle q p hpq hp]
      congr 1
      · exact Finset.sum_congr rfl fun k _ => mul_comm _ _
      · simp only [and_comm]
  have hsum : form n A v = ∑ k ∈ Finset.range i, (∑ r ∈ Finset.range (i + 1), v r * F r k) ^ 2 +
      (f i i - ∑ k ∈ Finset.range i, f i k * f i k) := by
    rw [hcut, ← sum_squares]
    have e : ∀ r ∈ Finset.range (i + 1), ∑ c ∈ Finset.range (i + 1), v r * A (min r c) (max r c) * v c =
        (∑ c ∈ Finset.range (i + 1), v r * (∑ k ∈ Finset.range i, F r k * F c k) * v c) +
          if r = i then (f i i - ∑ k ∈ Finset.range i, f i k * f i k) else 0 := by
      intro r hr
      have hr' := Finset.mem_range.1 hr
      have e2 : ∀ c ∈ Finset.range (i + 1), v r * A (min r c) (max r c) * v c =
          v r * (∑ k ∈ Finset.range i, F r k * F c k) * v c +
            if c = i then (if r = i then (f i i - ∑ k ∈ Finset.range i, f i k * f i k) else 0) else 0 := by
        intro c hc
        have hc' := Finset.mem_range.1 hc
        rw [hS r (by omega) c (by omega)]
        by_cases h1 : c = i
        · by_cases h2 : r = i
          · subst h1; subst h2
            rw [if_pos ⟨rfl, rfl⟩, if_pos rfl, if_pos rfl, hv1]; ring
          · rw [if_neg (by tauto), if_pos h1, if_neg h2, add_zero, add_zero]
        · rw [if_neg (by tauto), if_neg h1, add_zero, add_zero]
      rw [Finset.sum_congr rfl e2, Finset.sum_add_distrib, Finset.sum_ite_eq', if_pos (Finset.mem_range.2 (by omega))]
    rw [Finset.sum_congr rfl e, Finset.sum_add_distrib, Finset.sum_ite_eq', if_pos (Finset.mem_range.2 (by omega))]
  rw [hsum, Finset.sum_eq_zero, zero_add]
  · exact hs
  intro k hk
  have hk' := Finset.mem_range.1 hk
  rw [Finset.sum_range_succ, hv1, one_mul]
  have := hy k hk'
  rw [Finset.sum_congr rfl (fun c hc => by
    have hc' := Finset.mem_range.1 hc
    rw [show v c * F c k = (if k ≤ c then f c k else 0) * y c by simp only [v, F]; rw [if_pos hc', mul_comm]]), this]
  simp only [F]
  rw [if_pos hk'.le, neg_add_cancel]
  ring

theorem inner_sat {n : ℕ} (sqrt : K → K) (hsq : ∀ x, 0 < x → 0 < sqrt x ∧ sqrt x * sqrt x = x) (A : ℕ → ℕ → K)
    (E : Exn → Prop) (hE : (∃ v : ℕ → K, (∃ k < n, v k ≠ 0) ∧ form n A v ≤ 0) → E (.mml "SingularMatrixError"))
    {i j : ℕ} (hij : i ≤ j) (hj : j < n) (f : ℕ → ℕ → K) (h : Part n A i j f) :
    (inner sqrt i (Dense.ofFn n n f) j).Sat (fun m => ∃ g, m = Dense.ofFn n n g ∧ Part n A i (j + 1) g) E := by
  have hi : i < n := by omega
  rw [inner, Dense.get_ofFn _ hi hj, Outcome.bind_ret, forRange_sum i _ _ (fun k => - (f i k * f j k)) (by
    intro k hk s
    rw [Dense.get_ofFn _ hi (by omega), Outcome.bind_ret, Dense.get_ofFn _ hj (by omega), Outcome.bind_ret,
      sub_eq_add_neg]), Outcome.bind_ret, Finset.sum_neg_distrib, ← sub_eq_add_neg]
  by_cases e : i = j
  · subst e
    rw [if_pos rfl]
    split
    · rename_i hs
      exact hE (h.not_pos hi hs)
    · rename_i hs
      obtain ⟨hs1, hs2⟩ := hsq _ (not_le.1 hs)
      rw [Dense.set_ofFn _ hi hi]
      refine ⟨_, rfl, fun r hr c hc hrc => ?_, fun c r hcr hr hd => ?_, fun c hc hd => ?_, fun c hc hd => ?_⟩
      · rw [if_neg (by omega)]; exact h.upper r hr c hc hrc
      · by_cases hci : c = i
        · obtain rfl : r = c := by omega
          subst hci
          rw [Finset.sum_range_succ, if_pos ⟨rfl, rfl⟩, hs2, Finset.sum_congr rfl (fun k hk => by
            have := Finset.mem_range.1 hk
            rw [if_neg (by omega)]), h.rest r hr (by omega)]
          ring
        · rw [← h.prod c r hcr hr (by omega)]
          refine Finset.sum_congr rfl fun k hk => ?_
          have := Finset.mem_range.1 hk
          rw [if_neg (by omega), if_neg (by omega)]
      · by_cases hci : c = i
        · rw [if_pos ⟨hci, hci⟩]; exact hs1
        · rw [if_neg (by omega)]; exact h.pos c hc (by omega)
      · rw [if_neg (by omega)]; exact h.rest c hc (by omega)
  · rw [if_neg e, Dense.get_ofFn _ hi hi, Outcome.bind_ret]
    have hp := h.pos i hi (by omega)
    rw [divU, if_neg hp.ne', Outcome.bind_ret, Dense.set_ofFn _ hj hi]
    refine ⟨_, rfl, fun r hr c hc hrc => ?_, fun c r hcr hr hd => ?_, fun c hc hd => ?_, fun c hc hd => ?_⟩
    · rw [if_neg (by omega)]; exact h.upper r hr c hc hrc
    · by_cases hci : c = i ∧ r = j
      · obtain ⟨rfl, rfl⟩ := hci
        rw [Finset.sum_range_succ, if_neg (by omega), if_pos ⟨rfl, rfl⟩, mul_div_cancel₀ _ hp.ne',
          Finset.sum_congr rfl (fun k hk => by
            have := Finset.mem_range.1 hk
            rw [if_neg (by omega), if_neg (by omega)]), h.upper c hi r hr (by omega)]
        ring
      · rw [← h.prod c r hcr hr (by omega)]
        refine Finset.sum_congr rfl fun k hk => ?_
        have := Finset.mem_range.1 hk
        rw [if_neg (by omega), if_neg (by omega)]
    · rw [if_neg (by omega)]; exact h.pos c hc (by omega)
    · rw [if_neg (by omega)]; exact h.rest c hc (by omega)

/-- `L` is the lower triangular factor, with positive diagonal, of the symmetric matrix with `A`'s upper triangle. -/
structure Factor (n : ℕ) (A L : ℕ → ℕ → K) : Prop where
  zero : ∀ r < n, ∀ c < n, r < c → L r c = 0
  pos : ∀ c < n, 0 < L c c
  prod : ∀ r < n, ∀ c < n, ∑ k ∈ Finset.range n, L r k * L c k = A (min r c) (max r c)

theorem zero_upper {n : ℕ} (f : ℕ → ℕ → K) :
    forRange n (Dense.ofFn n n f) (fun el i => forFromTo (i + 1) n el (fun el j => el.set i j 0)) =
      .ret (Dense.ofFn n n (fun r c => if r < c then 0 else f r c)) := by
  rw [Dense.forRange_row n f (fun r c => if r < c then 0 else f r c) le_rfl]
  · congr 1
    exact Dense.ofFn_congr fun i hi j _ => by rw [if_pos hi]
  · intro i hi g hg
    rw [Dense.forFromTo_cols (i + 1) n i g (fun _ => 0) hi le_rfl _ (fun j _ _ m => rfl)]
    congr 1
    refine Dense.ofFn_congr fun p _ q hq => ?_
    by_cases hp : p = i
    · rw [if_pos hp, if_pos hp]
      by_cases hpq : i < q
      · rw [if_pos ⟨hpq, hq⟩, if_pos hpq]
      · rw [if_neg (by omega), if_neg hpq, hg i le_rfl q hq]
    · rw [if_neg hp, if_neg hp]

theorem new_sat {n : ℕ} (sqrt : K → K) (hsq : ∀ x, 0 < x → 0 < sqrt x ∧ sqrt x * sqrt x = x) (symTol : K)
    (A : ℕ → ℕ → K) (hn : n ≠ 0) (hsym : (Dense.ofFn n n A).isSymmetric symTol = .ret true) (E : Exn → Prop)
    (hE : (∃ v : ℕ → K, (∃ k < n, v k ≠ 0) ∧ form n A v ≤ 0) → E (.mml "SingularMatrixError")) :
    (new sqrt symTol (Dense.ofFn n n A)).Sat (fun s => ∃ L, s.el = Dense.ofFn n n L ∧ Factor n A L) E := by
  rw [new, if_neg (by simp), if_neg (by simpa using hn), hsym, Outcome.bind_ret]
  simp only [Bool.not_true, Dense.ofFn_rows]
  rw [if_neg (by simp)]
  refine Outcome.Sat.bind (Q := fun m => ∃ f, m = Dense.ofFn n n f ∧ Part n A n n f) ?_ ?_
  · refine Outcome.Sat.imp (forRange_sat (fun i m => ∃ f, m = Dense.ofFn n n f ∧ Part n A i i f) E n _ _ ?_ ?_) ?_
    · exact ⟨A, rfl, fun _ _ _ _ _ => rfl, fun c r _ _ h => by omega, fun c _ h => by omega, fun _ _ _ => rfl⟩
    · rintro i _ hi ⟨f, rfl, hf⟩
      refine Outcome.Sat.imp (forFromTo_sat (fun j m => ∃ f, m = Dense.ofFn n n f ∧ Part n A i j f) E i n hi.le _ _
        ⟨f, rfl, hf⟩ ?_) ?_
      · rintro j _ hij hj ⟨f, rfl, hf⟩
        exact inner_sat sqrt hsq A E hE hij hj f hf
      · rintro _ ⟨f, rfl, hf⟩
        exact ⟨f, rfl, hf.upper, fun c r h1 h2 h3 => hf.prod c r h1 h2 (by omega), fun c h1 h2 => hf.pos c h1 (by omega),
          fun c h1 h2 => hf.rest c h1 (by omega)⟩
    · rintro _ ⟨f, rfl, hf⟩
      exact ⟨f, rfl, hf⟩
  · rintro _ ⟨f, rfl, hf⟩
    rw [zero_upper, Outcome.bind_ret]
    refine ⟨fun r c => if r < c then 0 else f r c, rfl, fun r _ c _ h => by rw [if_pos h], fun c hc => ?_, ?_⟩
    · rw [if_neg (lt_irrefl _)]; exact hf.pos c hc (Or.inl hc)
    · have key : ∀ r c, r ≤ c → c < n → ∑ k ∈ Finset.range n, (if r < k then 0 else f r k) * (if c < k then 0 else f c k) =
          A r c := by
        intro r c hrc hc
        rw [← hf.prod r c hrc hc (by omega), ← Finset.sum_range_add_sum_Ico _ (show r + 1 ≤ n by omega),
          Finset.sum_eq_zero (s := Finset.Ico (r + 1) n) fun k hk => by
            have := Finset.mem_Ico.1 hk
            rw [if_pos (by omega), zero_mul], add_zero]
        refine Finset.sum_congr rfl fun k hk => ?_
        have := Finset.mem_range.1 hk
        rw [if_neg (by omega), if_neg (by omega)]
      intro r hr c hc
      rcases le_total r c with h | h
      · rw [min_eq_left h, max_eq_right h]; exact key r c h hc
      · rw [min_eq_right h, max_eq_left h, ← key c r h hr]
        exact Finset.sum_congr rfl fun k _ => mul_comm _ _

theorem Factor.form_pos {n : ℕ} {A L : ℕ → ℕ → K} (h : Factor n A L) (v : ℕ → K) (hv : ∃ k < n, v k ≠ 0) :
    0 < form n A v := by
  have e : form n A v = ∑ k ∈ Finset.range n, (∑ r ∈ Finset.range n, v r * L r k) ^ 2 := by
    rw [← sum_squares, form]
    refine Finset.sum_congr rfl fun r hr => Finset.sum_congr rfl fun c hc => ?_
    rw [h.prod r (Finset.mem_range.1 hr) c (Finset.mem_range.1 hc)]
  -- the last index with a non-zero value
  obtain ⟨p, hp, hmax⟩ : ∃ p, (p < n ∧ v p ≠ 0) ∧ ∀ q, p < q → q < n → v q = 0 := by
    obtain ⟨k, hk⟩ := hv
    obtain ⟨p, hp, hmax⟩ := Finset.exists_max_image ((Finset.range n).filter (fun k => v k ≠ 0)) id ⟨k, by simpa using hk⟩
    refine ⟨p, by simpa using hp, fun q h1 h2 => ?_⟩
    by_contra hq
    exact absurd (hmax q (by simp [h2, hq])) (not_le.2 h1)
  rw [e]
  refine Finset.sum_pos' (fun k _ => sq_nonneg _) ⟨p, Finset.mem_range.2 hp.1, ?_⟩
  have hone : ∑ r ∈ Finset.range n, v r * L r p = v p * L p p := by
    refine Finset.sum_eq_single_of_mem p (Finset.mem_range.2 hp.1) fun r hr hrp => ?_
    have hr' := Finset.mem_range.1 hr
    rcases Nat.lt_or_ge r p with h1 | h1
    · rw [h.zero r hr' p hp.1 h1, mul_zero]
    · rw [hmax r (by omega) hr', zero_mul]
  rw [hone]
  exact sq_pos_of_ne_zero (mul_ne_zero hp.2 (h.pos p hp.1).ne')

/-! ## Solving -/

theorem forward_spec {n : ℕ} (L : ℕ → ℕ → K) (hd : ∀ t < n, L t t ≠ 0) (b z : ℕ → K) :
    ∃ y, forRange n (tab n z) (forwardStep ⟨Dense.ofFn n n L⟩ (tab n b)) = .ret (tab n y) ∧
      ∀ r < n, ∑ k ∈ Finset.range (r + 1), L r k * y k = b r := by
  obtain ⟨t, ht, y, rfl, h⟩ := forRange_rule
    (fun i (v : List K) => ∃ y : ℕ → K, v = tab n y ∧ ∀ r < i, ∑ k ∈ Finset.range (r + 1), L r k * y k = b r)
    n (tab n z) (forwardStep ⟨Dense.ofFn n n L⟩ (tab n b)) ⟨z, rfl, fun r h => by omega⟩
    (by
      rintro i _ hi ⟨y, rfl, h⟩
      refine ⟨_, by
        rw [forwardStep]
        simp only
        rw [index_tab _ hi, Outcome.bind_ret, forRange_sum i _ _ (fun k => - (L i k * y k)) (by
          intro k hk s
          rw [Dense.get_ofFn _ hi (by omega), Outcome.bind_ret, index_tab _ (by omega), Outcome.bind_ret,
            sub_eq_add_neg]), Outcome.bind_ret, Dense.get_ofFn _ hi hi, Outcome.bind_ret, divU, if_neg (hd i hi),
          Outcome.bind_ret, store_tab _ hi], _, rfl, fun r hr => ?_⟩
      have hold : ∀ r m, m ≤ i → ∑ k ∈ Finset.range m, L r k *
          (if k = i then (b i + ∑ k ∈ Finset.range i, -(L i k * y k)) / L i i else y k) =
          ∑ k ∈ Finset.range m, L r k * y k := by
        intro r m hm
        refine Finset.sum_congr rfl fun k hk => ?_
        have := Finset.mem_range.1 hk
        rw [if_neg (by omega)]
      by_cases hri : r = i
      · subst hri
        rw [Finset.sum_range_succ, hold r r le_rfl, if_pos rfl, mul_div_cancel₀ _ (hd r hi), Finset.sum_neg_distrib]
        ring
      · rw [hold r (r + 1) (by omega)]; exact h r (by omega))
  exact ⟨y, ht, h⟩

theorem back_spec {n : ℕ} (L : ℕ → ℕ → K) (hd : ∀ t < n, L t t ≠ 0) (y : ℕ → K) :
    ∃ x, forDown 0 n (tab n y) (backStep ⟨Dense.ofFn n n L⟩ n) = .ret (tab n x) ∧
      ∀ r < n, ∑ k ∈ Finset.Ico r n, L k r * x k = y r := by
  obtain ⟨t, ht, x, rfl, _, h2⟩ := forDown_rule
    (fun i (v : List K) => ∃ x : ℕ → K, v = tab n x ∧ (∀ r < i, x r = y r) ∧
      ∀ r, i ≤ r → r < n → ∑ c ∈ Finset.Ico r n, L c r * x c = y r)
    0 n (by omega) (tab n y) (backStep ⟨Dense.ofFn n n L⟩ n)
    ⟨y, rfl, fun _ _ => rfl, fun r h1 h2 => by omega⟩
    (by
      rintro i _ _ hi ⟨x, rfl, h1, h2⟩
      refine ⟨_, by
        rw [backStep]
        simp only
        rw [index_tab _ hi, Outcome.bind_ret, forFromTo_sum (i + 1) n _ _ (fun j => - (L j i * x j)) (by
          intro j h4 h5 s
          rw [Dense.get_ofFn _ h5 hi, Outcome.bind_ret, index_tab _ (by omega), Outcome.bind_ret,
            sub_eq_add_neg]), Outcome.bind_ret, Dense.get_ofFn _ hi hi, Outcome.bind_ret, divU, if_neg (hd i hi),
          Outcome.bind_ret, store_tab _ hi], _, rfl, fun r hr => ?_, fun r hr hrn => ?_⟩
      · rw [if_neg (by omega)]; exact h1 r (by omega)
      · have hrest : ∀ a, i < a → ∑ c ∈ Finset.Ico a n, L c r *
            (if c = i then (x i + ∑ j ∈ Finset.Ico (i + 1) n, -(L j i * x j)) / L i i else x c) =
            ∑ c ∈ Finset.Ico a n, L c r * x c := by
          intro a ha
          refine Finset.sum_congr rfl fun c hc => ?_
          have := Finset.mem_Ico.1 hc
          rw [if_neg (by omega)]
        by_cases hri : r = i
        · subst hri
          rw [Finset.sum_eq_sum_Ico_succ_bot hrn, hrest _ (by omega), if_pos rfl, mul_div_cancel₀ _ (hd r hrn),
            Finset.sum_neg_distrib, h1 r (by omega)]
          ring
        · rw [hrest r (by omega)]; exact h2 r (by omega) hrn)
  exact ⟨x, ht, fun r hr => h2 r (by omega) hr⟩

theorem solveInto_spec {n : ℕ} {A L : ℕ → ℕ → K} (h : Factor n A L) (b : ℕ → K) (x0 : List K) :
    ∃ x, solveInto ⟨Dense.ofFn n n L⟩ (tab n b) x0 = .ret (tab n x) ∧
      ∀ r < n, ∑ c ∈ Finset.range n, A (min r c) (max r c) * x c = b r := by
  have hd : ∀ t < n, L t t ≠ 0 := fun t ht => (h.pos t ht).ne'
  obtain ⟨z, hz⟩ : ∃ z : ℕ → K, x0.take n ++ List.replicate (n - x0.length) 0 = tab n z := by
    have hl : (x0.take n ++ List.replicate (n - x0.length) (0 : K)).length = n := by
      simp only [List.length_append, List.length_take, List.length_replicate]; omega
    obtain ⟨m, f, e⟩ := exists_tab (x0.take n ++ List.replicate (n - x0.length) (0 : K)) 0
    rw [e, length_tab] at hl
    exact ⟨f, hl ▸ e⟩
  obtain ⟨y, hy, hy'⟩ := forward_spec L hd b z
  obtain ⟨x, hx, hx'⟩ := back_spec L hd y
  refine ⟨x, ?_, fun r hr => ?_⟩
  · rw [solveInto, if_neg (by simp)]
    simp only [Dense.ofFn_rows]
    rw [hz, hy, Outcome.bind_ret]
    exact hx
  · have hrow : ∀ k < n, ∑ c ∈ Finset.range n, L c k * x c = y k := by
      intro k hk
      rw [← hx' k hk, ← Finset.sum_range_add_sum_Ico _ hk.le, Finset.sum_eq_zero (s := Finset.range k) fun c hc => by
        have := Finset.mem_range.1 hc
        rw [h.zero c (by omega) k hk this, zero_mul], zero_add]
    calc ∑ c ∈ Finset.range n, A (min r c) (max r c) * x c
        = ∑ c ∈ Finset.range n, ∑ k ∈ Finset.range n, L r k * (L c k * x c) := by
          refine Finset.sum_congr rfl fun c hc => ?_
          rw [← h.prod r hr c (Finset.mem_range.1 hc), Finset.sum_mul]
          exact Finset.sum_congr rfl fun k _ => by ring
      _ = ∑ k ∈ Finset.range n, L r k * y k := by
          rw [Finset.sum_comm]
          refine Finset.sum_congr rfl fun k hk => ?_
          rw [← hrow k (Finset.mem_range.1 hk), Finset.mul_sum]
      _ = b r := by
          rw [← hy' r hr, ← Finset.sum_range_add_sum_Ico _ (show r + 1 ≤ n by omega),
            Finset.sum_eq_zero (s := Finset.Ico (r + 1) n) fun k hk => by
              have := Finset.mem_Ico.1 hk
              rw [h.zero r hr k this.2 (by omega), zero_mul], add_zero]

end Verif.LinAlg.Chol
