import Verif.Mat.DenseSpec
import Verif.LoopLemmas

/-! # Helper lemmas for the dense matrix: the storage as a function of two indices -/

set_option autoImplicit false

namespace Verif.Mat.Dense

variable {K : Type}

/-- The matrix whose element `(i, j)` is `f i j`. -/
def ofFn (r c : ℕ) (f : ℕ → ℕ → K) : Dense K := ⟨r, c, tab (r * c) (fun t => f (t / c) (t % c))⟩

@[simp] theorem ofFn_rows (r c : ℕ) (f : ℕ → ℕ → K) : (ofFn r c f).rows = r := rfl
@[simp] theorem ofFn_cols (r c : ℕ) (f : ℕ → ℕ → K) : (ofFn r c f).cols = c := rfl

theorem idx_lt {r c i j : ℕ} (hi : i < r) (hj : j < c) : i * c + j < r * c := by
  have : (i + 1) * c ≤ r * c := Nat.mul_le_mul_right c hi
  have e : (i + 1) * c = i * c + c := Nat.succ_mul i c
  omega

theorem idx_div {c i j : ℕ} (hj : j < c) : (i * c + j) / c = i := by
  rw [Nat.add_comm, Nat.add_mul_div_right _ _ (by omega), Nat.div_eq_of_lt hj, Nat.zero_add]

theorem idx_mod {c i j : ℕ} (hj : j < c) : (i * c + j) % c = j := by
  rw [Nat.add_comm, Nat.add_mul_mod_self_right, Nat.mod_eq_of_lt hj]

theorem get_ofFn {r c : ℕ} (f : ℕ → ℕ → K) {i j : ℕ} (hi : i < r) (hj : j < c) :
    (ofFn r c f).get i j = .ret (f i j) := by
  simp only [get, ofFn, idx]
  rw [index_tab _ (idx_lt hi hj), idx_div hj, idx_mod hj]

theorem ofFn_congr {r c : ℕ} {f g : ℕ → ℕ → K} (h : ∀ i < r, ∀ j < c, f i j = g i j) :
    ofFn r c f = ofFn r c g := by
  simp only [ofFn, Dense.mk.injEq, true_and]
  refine tab_congr fun t ht => ?_
  have hc : 0 < c := by
    rcases Nat.eq_zero_or_pos c with h | h
    · subst h; simp at ht
    · exact h
  exact h _ (Nat.div_lt_of_lt_mul (by rwa [Nat.mul_comm] at ht)) _ (Nat.mod_lt _ hc)

theorem set_ofFn {r c : ℕ} (f : ℕ → ℕ → K) {i j : ℕ} (hi : i < r) (hj : j < c) (a : K) :
    (ofFn r c f).set i j a = .ret (ofFn r c (fun p q => if p = i ∧ q = j then a else f p q)) := by
  simp only [set, ofFn, idx]
  rw [store_tab _ (idx_lt hi hj), Outcome.bind_ret]
  congr 2
  refine tab_congr fun t ht => ?_
  have hc : 0 < c := by omega
  by_cases h : t = i * c + j
  · subst h
    rw [if_pos rfl, idx_div hj, idx_mod hj, if_pos ⟨rfl, rfl⟩]
  · rw [if_neg h, if_neg]
    rintro ⟨h1, h2⟩
    apply h
    rw [← h1, ← h2, Nat.mul_comm]
    exact (Nat.div_add_mod t c).symm

theorem get_ofFn_ub_row {r c : ℕ} (f : ℕ → ℕ → K) {i j : ℕ} (hi : r ≤ i) :
    (ofFn r c f).get i j = .ub := by
  have : r * c ≤ i * c := Nat.mul_le_mul_right c hi
  simp only [get, ofFn, idx, Outcome.index, getElem?_tab]
  rw [if_neg (by omega)]

theorem swap_ofFn {r c : ℕ} (f : ℕ → ℕ → K) {i j k l : ℕ} (hi : i < r) (hj : j < c) (hk : k < r) (hl : l < c) :
    (ofFn r c f).swap i j k l = .ret (ofFn r c (fun p q =>
      if p = k ∧ q = l then f i j else if p = i ∧ q = j then f k l else f p q)) := by
  simp only [swap]
  rw [get_ofFn f hi hj, Outcome.bind_ret, get_ofFn f hk hl, Outcome.bind_ret, set_ofFn f hi hj,
    Outcome.bind_ret, set_ofFn _ hk hl]

theorem eq_ofFn [Nonempty K] (m : Dense K) (h : m.data.length = m.rows * m.cols) :
    m = ofFn m.rows m.cols (fun i j => m.data.getD (i * m.cols + j) (Classical.arbitrary K)) := by
  obtain ⟨r, c, d⟩ := m
  simp only [ofFn, Dense.mk.injEq, true_and]
  simp only at h
  conv_lhs => rw [eq_tab d (Classical.arbitrary K)]
  rw [h]
  refine tab_congr fun t ht => ?_
  congr 1
  rw [Nat.mul_comm]
  exact (Nat.div_add_mod t c).symm

/-! ## Loops over rows -/

theorem forRange_row {r c : ℕ} (n : ℕ) (f F : ℕ → ℕ → K) (hn : n ≤ r) (body : Dense K → ℕ → Outcome (Dense K))
    (hb : ∀ i < n, ∀ g : ℕ → ℕ → K, (∀ p, i ≤ p → ∀ j < c, g p j = f p j) →
      body (ofFn r c g) i = .ret (ofFn r c (fun p j => if p = i then F i j else g p j))) :
    forRange n (ofFn r c f) body = .ret (ofFn r c (fun i j => if i < n then F i j else f i j)) := by
  obtain ⟨t, ht, rfl⟩ := forRange_rule
    (fun k (m : Dense K) => m = ofFn r c (fun i j => if i < k then F i j else f i j)) n (ofFn r c f) body
    (by simp)
    (by
      rintro i _ hi rfl
      refine ⟨_, hb i hi _ (fun p hp j _ => by rw [if_neg (by omega)]), ?_⟩
      refine ofFn_congr fun p _ q _ => ?_
      by_cases h1 : p = i
      · subst h1; simp
      · rw [if_neg h1]
        by_cases h2 : p < i
        · rw [if_pos h2, if_pos (by omega)]
        · rw [if_neg h2, if_neg (by omega)])
  exact ht

theorem forFromTo_cols {r c : ℕ} (a b i : ℕ) (g : ℕ → ℕ → K) (h : ℕ → K) (hi : i < r) (hb' : b ≤ c)
    (body : Dense K → ℕ → Outcome (Dense K))
    (hb : ∀ j, a ≤ j → j < b → ∀ m : Dense K, body m j = m.set i j (h j)) :
    forFromTo a b (ofFn r c g) body =
      .ret (ofFn r c (fun p q => if p = i then (if a ≤ q ∧ q < b then h q else g i q) else g p q)) := by
  rcases Nat.lt_or_ge b a with hab | hab
  · rw [forFromTo, show b - a = 0 by omega, forRange]
    congr 1
    refine ofFn_congr fun p _ q _ => ?_
    rw [if_neg (c := a ≤ q ∧ q < b) (by omega)]
    split
    · next h => rw [h]
    · rfl
  obtain ⟨t, ht, rfl⟩ := forFromTo_rule
    (fun k (m : Dense K) => m = ofFn r c
      (fun p q => if p = i then (if a ≤ q ∧ q < k then h q else g i q) else g p q)) a b hab (ofFn r c g) body
    (by
      refine ofFn_congr fun p _ q _ => ?_
      rw [if_neg (c := a ≤ q ∧ q < a) (by omega)]
      split
      · next h => rw [h]
      · rfl)
    (by
      rintro j _ h1 h2 rfl
      refine ⟨_, by rw [hb j h1 h2, set_ofFn _ hi (by omega)], ?_⟩
      refine ofFn_congr fun p _ q _ => ?_
      by_cases hp : p = i
      · subst hp
        by_cases hq : q = j
        · subst hq; simp [h1]
        · by_cases h3 : a ≤ q ∧ q < j
          · simp only [if_pos h3, if_true, hq, and_false, if_false]
            rw [if_pos (by omega)]
          · simp only [if_neg h3, if_true, hq, and_false, if_false]
            rw [if_neg (by omega)]
      · simp [hp])
  exact ht

theorem forRange_cols {r c : ℕ} (b i : ℕ) (g : ℕ → ℕ → K) (h : ℕ → K) (hi : i < r) (hb' : b ≤ c)
    (body : Dense K → ℕ → Outcome (Dense K))
    (hb : ∀ j < b, ∀ m : Dense K, body m j = m.set i j (h j)) :
    forRange b (ofFn r c g) body =
      .ret (ofFn r c (fun p q => if p = i then (if q < b then h q else g i q) else g p q)) := by
  have := forFromTo_cols 0 b i g h hi hb' body (fun j _ hj m => hb j hj m)
  simp only [forFromTo, Nat.sub_zero, Nat.zero_add] at this
  rw [this]
  simp

/-! ## New matrices -/

theorem newFill_spec {r c : ℕ} (h : Shape r c) (a : K) :
    newFill (r : ℤ) (c : ℤ) a = .ret (ofFn r c (fun _ _ => a)) := by
  rcases h with ⟨rfl, rfl⟩ | ⟨h1, h2, h3, h4, h5⟩
  · simp [newFill, ofFn, tab]
  · simp only [newFill, validate, Int.toNat_natCast]
    rw [if_neg (by omega), if_neg (by omega), if_neg (by omega), if_neg (by omega), Outcome.bind_ret,
      replicate_eq_tab]
    rfl

theorem new_spec [Zero K] {r c : ℕ} (h : Shape r c) :
    (new (r : ℤ) (c : ℤ) : Outcome (Dense K)) = .ret (ofFn r c (fun _ _ => 0)) := newFill_spec h 0

theorem Shape.symm {r c : ℕ} (h : Shape r c) : Shape c r := by
  rcases h with ⟨rfl, rfl⟩ | ⟨h1, h2, h3, h4, h5⟩
  · exact Or.inl ⟨rfl, rfl⟩
  · exact Or.inr ⟨h2, h1, h4, h3, by rwa [Nat.mul_comm]⟩

theorem mapData_ofFn [Zero K] {r c : ℕ} (h : Shape r c) (f : ℕ → ℕ → K) (φ : K → K) :
    (ofFn r c f).mapData φ = .ret (ofFn r c (fun i j => φ (f i j))) := by
  simp only [mapData, ofFn_rows, ofFn_cols]
  rw [new_spec h, Outcome.bind_ret]
  simp only [ofFn, length_tab]
  rw [forRange_fill (r * c) (r * c) le_rfl _ (fun t => φ (f (t / c) (t % c)))
    _ (fun i hi d => by rw [index_tab _ hi, Outcome.bind_ret]), Outcome.bind_ret]
  congr 2
  exact tab_congr fun t ht => by rw [if_pos ht]

theorem zipData_ofFn [Zero K] {r c : ℕ} (h : Shape r c) (f g : ℕ → ℕ → K) (φ : K → K → K) :
    (ofFn r c f).zipData (ofFn r c g) φ = .ret (ofFn r c (fun i j => φ (f i j) (g i j))) := by
  simp only [zipData, ofFn_rows, ofFn_cols, ne_eq, not_true_eq_false, or_self, if_false]
  rw [new_spec h, Outcome.bind_ret]
  simp only [ofFn, length_tab]
  rw [forRange_fill (r * c) (r * c) le_rfl _ (fun t => φ (f (t / c) (t % c)) (g (t / c) (t % c)))
    _ (fun i hi d => by rw [index_tab _ hi, Outcome.bind_ret, index_tab _ hi, Outcome.bind_ret]),
    Outcome.bind_ret]
  congr 2
  exact tab_congr fun t ht => by rw [if_pos ht]

theorem zipDataInPlace_ofFn {r c : ℕ} (f g : ℕ → ℕ → K) (φ : K → K → K) :
    (ofFn r c f).zipDataInPlace (ofFn r c g) φ = .ret (ofFn r c (fun i j => φ (f i j) (g i j))) := by
  simp only [zipDataInPlace, ofFn_rows, ofFn_cols, ne_eq, not_true_eq_false, or_self, if_false]
  simp only [ofFn, length_tab]
  obtain ⟨t, ht, rfl⟩ := forRange_rule
    (fun k (d : List K) => d = tab (r * c) (fun t => if t < k then φ (f (t / c) (t % c)) (g (t / c) (t % c))
      else f (t / c) (t % c))) (r * c) (tab (r * c) (fun t => f (t / c) (t % c)))
    (fun d i => do
      let x ← Outcome.index d i
      let y ← Outcome.index (tab (r * c) (fun t => g (t / c) (t % c))) i
      Outcome.store d i (φ x y))
    (by simp)
    (by
      rintro i _ hi rfl
      refine ⟨_, by
        rw [index_tab _ hi, Outcome.bind_ret, index_tab _ hi, Outcome.bind_ret, store_tab _ hi], ?_⟩
      refine tab_congr fun t _ => ?_
      rw [if_neg (show ¬ i < i by omega)]
      by_cases h1 : t = i
      · subst h1; simp
      · rw [if_neg h1]
        by_cases h2 : t < i
        · rw [if_pos h2, if_pos (by omega)]
        · rw [if_neg h2, if_neg (by omega)])
  rw [ht, Outcome.bind_ret]
  congr 2
  exact tab_congr fun t ht => by rw [if_pos ht]

/-! ## Products -/

section
variable [CommRing K]

theorem mul_ofFn {r k c : ℕ} (h : Shape r c) (f g : ℕ → ℕ → K) :
    (ofFn r k f).mul (ofFn k c g) =
      .ret (ofFn r c (fun i j => ∑ t ∈ Finset.range k, f i t * g t j)) := by
  simp only [mul, ofFn_rows, ofFn_cols, ne_eq, not_true_eq_false, if_false]
  rw [new_spec h, Outcome.bind_ret]
  rw [forRange_row r _ (fun i j => ∑ t ∈ Finset.range k, f i t * g t j) le_rfl]
  · congr 1
    exact ofFn_congr fun i hi j _ => by rw [if_pos hi]
  · intro i hi G hG
    rw [forRange_cols c i G (fun j => ∑ t ∈ Finset.range k, f i t * g t j) hi le_rfl]
    · congr 1
      refine ofFn_congr fun p _ q hq => ?_
      rw [if_pos hq]
    · intro j hj m
      rw [forRange_sum k 0 _ (fun t => f i t * g t j), Outcome.bind_ret, zero_add]
      intro t ht s
      rw [get_ofFn f hi ht, Outcome.bind_ret, get_ofFn g ht hj, Outcome.bind_ret]

theorem mulVec_ofFn {r c : ℕ} (f : ℕ → ℕ → K) (v : ℕ → K) :
    (ofFn r c f).mulVec (tab c v) = .ret (tab r (fun i => ∑ j ∈ Finset.range c, f i j * v j)) := by
  simp only [mulVec, ofFn_rows, ofFn_cols, length_tab, ne_eq, not_true_eq_false, if_false]
  rw [replicate_eq_tab, forRange_fill r r le_rfl _ (fun i => ∑ j ∈ Finset.range c, f i j * v j)]
  · congr 1
    exact tab_congr fun i hi => by rw [if_pos hi]
  · intro i hi d
    rw [forRange_sum c 0 _ (fun t => f i t * v t), Outcome.bind_ret, zero_add]
    intro t ht s
    rw [get_ofFn f hi ht, Outcome.bind_ret, index_tab _ ht, Outcome.bind_ret]

theorem vecMul_ofFn {r c : ℕ} (f : ℕ → ℕ → K) (v : ℕ → K) :
    vecMul (tab r v) (ofFn r c f) = .ret (tab c (fun j => ∑ i ∈ Finset.range r, v i * f i j)) := by
  simp only [vecMul, ofFn_rows, ofFn_cols, length_tab, ne_eq, not_true_eq_false, if_false]
  rw [replicate_eq_tab, forRange_fill c c le_rfl _ (fun j => ∑ i ∈ Finset.range r, v i * f i j)]
  · congr 1
    exact tab_congr fun i hi => by rw [if_pos hi]
  · intro j hj d
    rw [forRange_sum r 0 _ (fun t => v t * f t j), Outcome.bind_ret, zero_add]
    intro t ht s
    rw [index_tab _ ht, Outcome.bind_ret, get_ofFn f ht hj, Outcome.bind_ret]

theorem trace_ofFn {r : ℕ} (f : ℕ → ℕ → K) :
    (ofFn r r f).trace = .ret (∑ i ∈ Finset.range r, f i i) := by
  simp only [trace, ofFn_rows, ofFn_cols, ne_eq, not_true_eq_false, if_false]
  rw [forRange_sum r 0 _ (fun t => f t t), zero_add]
  intro t ht s
  rw [get_ofFn f ht ht, Outcome.bind_ret]

end

/-! ## Transposes -/

theorem forRange_rowOfT {r c : ℕ} (i n : ℕ) (g : ℕ → ℕ → K) (h : ℕ → K) (hi : i < c) (hn : n ≤ r)
    (body : Dense K → ℕ → Outcome (Dense K))
    (hb : ∀ j < n, ∀ m : Dense K, body m j = m.set j i (h j)) :
    forRange n (ofFn r c g) body =
      .ret (ofFn r c (fun p q => if q = i ∧ p < n then h p else g p q)) := by
  obtain ⟨t, ht, rfl⟩ := forRange_rule
    (fun k (m : Dense K) => m = ofFn r c (fun p q => if q = i ∧ p < k then h p else g p q)) n (ofFn r c g) body
    (by simp)
    (by
      rintro j _ h1 rfl
      refine ⟨_, by rw [hb j h1, set_ofFn _ (by omega) hi], ?_⟩
      refine ofFn_congr fun p _ q _ => ?_
      by_cases hp : p = j ∧ q = i
      · rw [if_pos hp, if_pos (by omega), hp.1]
      · rw [if_neg hp]
        by_cases h2 : q = i ∧ p < j
        · rw [if_pos h2, if_pos (by omega)]
        · rw [if_neg h2, if_neg (by omega)])
  exact ht

theorem transpose_ofFn [Zero K] {r c : ℕ} (h : Shape r c) (f : ℕ → ℕ → K) :
    (ofFn r c f).transpose = .ret (ofFn c r (fun i j => f j i)) := by
  simp only [transpose, ofFn_rows, ofFn_cols]
  rw [new_spec h.symm, Outcome.bind_ret]
  obtain ⟨t, ht, rfl⟩ := forRange_rule
    (fun k (m : Dense K) => m = ofFn c r (fun p q => if q < k then f q p else 0)) r
    (ofFn c r (fun _ _ => 0))
    (fun m i => forRange c m (fun m j => do
      let x ← (ofFn r c f).get i j
      m.set j i x))
    (by simp)
    (by
      rintro i _ hi rfl
      refine ⟨_, forRange_rowOfT i c _ (fun j => f i j) hi le_rfl _ (fun j hj m => by
        rw [get_ofFn f hi hj, Outcome.bind_ret]), ?_⟩
      refine ofFn_congr fun p hp q _ => ?_
      by_cases h1 : q = i
      · subst h1; simp [hp]
      · rw [if_neg (by omega)]
        by_cases h2 : q < i
        · rw [if_pos h2, if_pos (by omega)]
        · rw [if_neg h2, if_neg (by omega)])
  rw [ht]
  congr 1
  exact ofFn_congr fun p _ q hq => by rw [if_pos hq]

theorem transposeInPlace_ofFn {n : ℕ} (f : ℕ → ℕ → K) :
    (ofFn n n f).transposeInPlace = .ret (ofFn n n (fun i j => f j i)) := by
  simp only [transposeInPlace, ofFn_rows, ofFn_cols, ne_eq, not_true_eq_false, if_false]
  -- after `i` rows, every pair with the smaller index below `i` has been exchanged
  obtain ⟨t, ht, rfl⟩ := forRange_rule
    (fun k (m : Dense K) => m = ofFn n n (fun p q => if min p q < k then f q p else f p q)) n (ofFn n n f)
    (fun m i => forFromTo (i + 1) m.cols m (fun m j => m.swap i j j i))
    (by simp)
    (by
      rintro i _ hi rfl
      simp only [ofFn_cols]
      obtain ⟨t, ht, rfl⟩ := forFromTo_rule
        (fun k (m : Dense K) => m = ofFn n n (fun p q =>
          if min p q < i ∨ (min p q = i ∧ max p q < k) then f q p else f p q)) (i + 1) n (by omega)
        (ofFn n n (fun p q => if min p q < i then f q p else f p q)) (fun m j => m.swap i j j i)
        (by
          refine ofFn_congr fun p _ q _ => ?_
          by_cases h1 : min p q < i
          · rw [if_pos h1, if_pos (Or.inl h1)]
          · rw [if_neg h1]
            by_cases h2 : min p q = i ∧ max p q < i + 1
            · rw [if_pos (Or.inr h2), show p = q by omega]
            · rw [if_neg (by omega)])
        (by
          rintro j _ h1 h2 rfl
          refine ⟨_, swap_ofFn _ hi h2 h2 hi, ?_⟩
          refine ofFn_congr fun p _ q _ => ?_
          by_cases ha : p = j ∧ q = i
          · obtain ⟨rfl, rfl⟩ := ha
            rw [if_pos ⟨rfl, rfl⟩, if_neg (by omega), if_pos (by omega)]
          · rw [if_neg ha]
            by_cases hb : p = i ∧ q = j
            · obtain ⟨rfl, rfl⟩ := hb
              rw [if_pos ⟨rfl, rfl⟩, if_neg (by omega), if_pos (by omega)]
            · rw [if_neg hb]
              by_cases hc : min p q < i ∨ (min p q = i ∧ max p q < j)
              · rw [if_pos hc, if_pos (by omega)]
              · rw [if_neg hc, if_neg (by omega)])
      refine ⟨_, ht, ?_⟩
      refine ofFn_congr fun p hp q hq => ?_
      by_cases h1 : min p q < i + 1
      · rw [if_pos h1, if_pos (by omega)]
      · rw [if_neg h1, if_neg (by omega)])
  rw [ht]
  congr 1
  exact ofFn_congr fun p hp q _ => by rw [if_pos (by omega)]

end Verif.Mat.Dense
