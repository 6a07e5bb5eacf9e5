import Verif.Util.VecProps

/-! # The outer product and the mixed real/complex operations -/

set_option autoImplicit false

namespace Verif.Util

open Verif.Mat Verif.Mat.Dense

variable {K : Type}

/-- Two nested counted loops that assign every element of an `r × c` matrix once. -/
theorem forRange_fill2 {r c : ℕ} (f F : ℕ → ℕ → K) (body : Dense K → ℕ → ℕ → Outcome (Dense K))
    (hb : ∀ i < r, ∀ j < c, ∀ g : ℕ → ℕ → K, g i j = f i j →
      body (ofFn r c g) i j = .ret (ofFn r c (fun p q => if p = i ∧ q = j then F i j else g p q))) :
    forRange r (ofFn r c f) (fun m i => forRange c m (fun m j => body m i j)) = .ret (ofFn r c F) := by
  rw [forRange_row r f F le_rfl]
  · congr 1
    exact ofFn_congr fun i hi j _ => by rw [if_pos hi]
  · intro i hi g hg
    obtain ⟨t, ht, rfl⟩ := forRange_rule
      (fun j m => m = ofFn r c (fun p q => if p = i ∧ q < j then F i q else g p q)) c (ofFn r c g) (fun m j => body m i j)
      (by simp)
      (by
        rintro j _ hj rfl
        refine ⟨_, hb i hi j hj _ ?_, ofFn_congr fun p _ q _ => ?_⟩
        · simp [hg i le_rfl j hj]
        · by_cases h1 : p = i
          · subst h1
            by_cases h2 : q = j
            · subst h2; simp
            · by_cases h3 : q < j
              · simp [h2, h3, show q < j + 1 by omega]
              · simp [h2, h3, show ¬ q < j + 1 by omega]
          · simp [h1])
    rw [ht]
    congr 1
    refine ofFn_congr fun p _ q hq => ?_
    by_cases h1 : p = i <;> simp [h1, hq]

/-! ## Vectors -/

theorem mixLoop_ofFn {A B : Type} (op : A → B → ℂ) {n : ℕ} (a : Fin n → A) (b : Fin n → B) :
    mixLoop op (List.ofFn a) (List.ofFn b) = .ret (List.ofFn fun i => op (a i) (b i)) := by
  rw [mixLoop, List.length_ofFn, replicate_eq_tab, forRange_fill n n le_rfl _ (fun i => if h : i < n then op (a ⟨i, h⟩) (b ⟨i, h⟩) else 0)]
  · congr 1
    apply List.ext_getElem
    · simp
    · intro i h1 h2
      simp [tab] at h1 ⊢
      simp [h1]
  · intro i hi r
    simp [index_ofFn _ hi, hi]

/-- **Mixed sums, differences and multiples of vectors**: sizes are compared first; then every element is the sum, difference or product of the
corresponding elements, the real one promoted to a complex number. -/
theorem mixedVec_spec :
    (∀ (a : List ℂ) (b : List ℝ), a.length ≠ b.length → addVecCR a b = .exn (.mml "VectorDimensionError") ∧
      subVecCR a b = .exn (.mml "VectorDimensionError") ∧ addVecRC b a = .exn (.mml "VectorDimensionError") ∧
      subVecRC b a = .exn (.mml "VectorDimensionError")) ∧
    ∀ (n : ℕ) (a : Fin n → ℂ) (b : Fin n → ℝ) (z : ℂ),
      addVecCR (List.ofFn a) (List.ofFn b) = .ret (List.ofFn fun i => a i + (b i : ℂ)) ∧
      addVecRC (List.ofFn b) (List.ofFn a) = .ret (List.ofFn fun i => (b i : ℂ) + a i) ∧
      subVecCR (List.ofFn a) (List.ofFn b) = .ret (List.ofFn fun i => a i - (b i : ℂ)) ∧
      subVecRC (List.ofFn b) (List.ofFn a) = .ret (List.ofFn fun i => (b i : ℂ) - a i) ∧
      mulVecS z (List.ofFn b) = .ret (List.ofFn fun i => z * (b i : ℂ)) := by
  refine ⟨fun a b h => ⟨by rw [addVecCR, if_pos h], by rw [subVecCR, if_pos h], by rw [addVecRC, if_pos h.symm], by rw [subVecRC, if_pos h.symm]⟩,
    fun n a b z => ⟨?_, ?_, ?_, ?_, ?_⟩⟩
  · rw [addVecCR, if_neg (by simp), mixLoop_ofFn]
  · rw [addVecRC, if_neg (by simp), mixLoop_ofFn]
  · rw [subVecCR, if_neg (by simp), mixLoop_ofFn]
  · rw [subVecRC, if_neg (by simp), mixLoop_ofFn]
  · rw [mulVecS, List.length_ofFn, replicate_eq_tab, forRange_fill n n le_rfl _ (fun i => if h : i < n then z * (b ⟨i, h⟩ : ℂ) else 0)]
    · congr 1
      apply List.ext_getElem
      · simp
      · intro i h1 h2
        simp [tab] at h1 ⊢
        simp [h1]
    · intro i hi r
      simp [index_ofFn _ hi, hi]

/-! ## Matrices -/

/-- **Outer product**: element `(i, j)` is `aᵢ bⱼ`. -/
theorem outerProduct_spec [CommRing K] (n m : ℕ) (a : Fin n → K) (b : Fin m → K) (hs : Shape n m) :
    ∃ M, outerProduct (List.ofFn a) (List.ofFn b) = .ret M ∧ M.rows = n ∧ M.cols = m ∧
      ∀ (i : Fin n) (j : Fin m), M.get i j = .ret (a i * b j) := by
  refine ⟨ofFn n m (fun i j => if h : i < n ∧ j < m then a ⟨i, h.1⟩ * b ⟨j, h.2⟩ else 0), ?_, rfl, rfl, fun i j => ?_⟩
  · rw [outerProduct, List.length_ofFn, List.length_ofFn, new_spec hs, Outcome.bind_ret]
    refine forRange_fill2 _ _ (fun r i j => do
      let x ← Outcome.index (List.ofFn a) i
      let y ← Outcome.index (List.ofFn b) j
      r.set i j (x * y)) fun i hi j hj g _ => ?_
    rw [index_ofFn _ hi, Outcome.bind_ret, index_ofFn _ hj, Outcome.bind_ret, set_ofFn g hi hj, dif_pos ⟨hi, hj⟩]
  · rw [get_ofFn _ i.2 j.2, dif_pos ⟨i.2, j.2⟩]

theorem accLoop_ofFn (op : ℂ → ℂ → ℂ) {r c : ℕ} (f : ℕ → ℕ → ℂ) (g : ℕ → ℕ → ℝ) :
    accLoop op (ofFn r c f) (ofFn r c g) = .ret (ofFn r c fun i j => op (f i j) (g i j : ℂ)) := by
  rw [accLoop, ofFn_rows, ofFn_cols]
  refine forRange_fill2 f _ (fun m i j => do
    let x ← m.get i j
    let y ← (ofFn r c g).get i j
    m.set i j (op x (y : ℂ))) fun i hi j hj G hG => ?_
  rw [get_ofFn G hi hj, Outcome.bind_ret, get_ofFn g hi hj, Outcome.bind_ret, set_ofFn G hi hj, hG]

/-- **Mixed sums, differences and multiples of matrices**: the dimensions are compared first; then every element is the sum, difference or product of
the corresponding elements. -/
theorem mixedMat_spec :
    (∀ (a : Dense ℂ) (b : Dense ℝ), a.rows ≠ b.rows ∨ a.cols ≠ b.cols → addMatCR a b = .exn (.mml "MatrixDimensionError") ∧
      subMatCR a b = .exn (.mml "MatrixDimensionError") ∧ addMatRC b a = .exn (.mml "MatrixDimensionError") ∧
      subMatRC b a = .exn (.mml "MatrixDimensionError")) ∧
    ∀ (r c : ℕ) (a : Dense ℂ) (b : Dense ℝ) (f : ℕ → ℕ → ℂ) (g : ℕ → ℕ → ℝ) (z : ℂ), Is a r c f → Is b r c g →
      ∃ m₁ m₂ m₃ m₄ m₅, addMatCR a b = .ret m₁ ∧ addMatRC b a = .ret m₂ ∧ subMatCR a b = .ret m₃ ∧ subMatRC b a = .ret m₄ ∧ mulMatS z b = .ret m₅ ∧
        Is m₁ r c (fun i j => f i j + (g i j : ℂ)) ∧ Is m₂ r c (fun i j => (g i j : ℂ) + f i j) ∧ Is m₃ r c (fun i j => f i j - (g i j : ℂ)) ∧
        Is m₄ r c (fun i j => (g i j : ℂ) - f i j) ∧ Is m₅ r c (fun i j => z * (g i j : ℂ)) := by
  refine ⟨fun a b h => ⟨by rw [addMatCR, sameDim, if_pos h], by rw [subMatCR, sameDim, if_pos h],
    by rw [addMatRC, sameDim, if_pos (h.imp Ne.symm Ne.symm)], by rw [subMatRC, sameDim, if_pos (h.imp Ne.symm Ne.symm)]⟩,
    fun r c a b f g z ha hb => ?_⟩
  obtain ⟨hs, rfl⟩ := is_unique.1 ha
  obtain ⟨-, rfl⟩ := is_unique.1 hb
  have hI : ∀ F : ℕ → ℕ → ℂ, Is (ofFn r c F) r c F := fun F => is_unique.2 ⟨hs, rfl⟩
  refine ⟨_, _, _, _, _, ?_, ?_, ?_, ?_, ?_, hI _, hI _, hI _, hI _, hI _⟩
  · rw [addMatCR, sameDim, if_neg (by simp), accLoop_ofFn]
  · rw [addMatRC, sameDim, if_neg (by simp), accLoop_ofFn]
    congr 1
    exact ofFn_congr fun i _ j _ => add_comm _ _
  · rw [subMatCR, sameDim, if_neg (by simp), accLoop_ofFn]
  · rw [subMatRC, sameDim, if_neg (by simp), ofFn_rows, ofFn_cols]
    refine forRange_fill2 f _ (fun m i j => do
      let x ← (ofFn r c g).get i j
      let y ← (ofFn r c f).get i j
      m.set i j ((x : ℂ) - y)) fun i hi j hj G hG => ?_
    rw [get_ofFn g hi hj, Outcome.bind_ret, get_ofFn f hi hj, Outcome.bind_ret, set_ofFn G hi hj]
  · simp only [mulMatS, ofFn_rows, ofFn_cols]
    rw [new_spec hs, Outcome.bind_ret, ofFn_rows, ofFn_cols]
    refine forRange_fill2 _ _ (fun m i j => do
      let y ← (ofFn r c g).get i j
      m.set i j (z * (y : ℂ))) fun i hi j hj G hG => ?_
    rw [get_ofFn g hi hj, Outcome.bind_ret, set_ofFn G hi hj]

/-! ## Products -/

theorem mulElem_ofFn {A B : Type} (op : A → B → ℂ) {r k c i j : ℕ} (f : ℕ → ℕ → A) (g : ℕ → ℕ → B) (G : ℕ → ℕ → ℂ) (hi : i < r) (hj : j < c) :
    mulElem op (ofFn r k f) (ofFn k c g) (ofFn r c G) i j =
      .ret (ofFn r c (fun p q => if p = i ∧ q = j then ∑ t ∈ Finset.range k, op (f i t) (g t j) else G p q)) := by
  rw [mulElem, set_ofFn G hi hj, Outcome.bind_ret, ofFn_cols]
  obtain ⟨t, ht, rfl⟩ := forRange_rule
    (fun n m => m = ofFn r c (fun p q => if p = i ∧ q = j then ∑ t ∈ Finset.range n, op (f i t) (g t j) else G p q)) k
    (ofFn r c (fun p q => if p = i ∧ q = j then 0 else G p q)) (fun m k_1 => do
      let s ← m.get i j
      let x ← (ofFn r k f).get i k_1
      let y ← (ofFn k c g).get k_1 j
      m.set i j (s + op x y)) (by simp)
    (by
      rintro n _ hn rfl
      refine ⟨_, by rw [get_ofFn _ hi hj, Outcome.bind_ret, get_ofFn f hi hn, Outcome.bind_ret, get_ofFn g hn hj, Outcome.bind_ret,
        set_ofFn _ hi hj], ofFn_congr fun p _ q _ => ?_⟩
      by_cases h : p = i ∧ q = j
      · obtain ⟨rfl, rfl⟩ := h; simp [Finset.sum_range_succ]
      · simp [h])
  exact ht

theorem mulMat_ofFn {A B : Type} (op : A → B → ℂ) {r k c : ℕ} (hs : Shape r c) (f : ℕ → ℕ → A) (g : ℕ → ℕ → B) :
    mulMat op (ofFn r k f) (ofFn k c g) = .ret (ofFn r c fun i j => ∑ t ∈ Finset.range k, op (f i t) (g t j)) := by
  simp only [mulMat, ofFn_rows, ofFn_cols, ne_eq, not_true_eq_false, if_false]
  rw [new_spec hs, Outcome.bind_ret, ofFn_rows, ofFn_cols]
  exact forRange_fill2 _ _ (fun m i j => mulElem op (ofFn r k f) (ofFn k c g) m i j) fun i hi j hj G _ => mulElem_ofFn op f g G hi hj

/-- **Mixed products of matrices**: refused unless the inner dimensions agree; element `(i, j)` is `∑ₜ aᵢₜ bₜⱼ`. -/
theorem mixedMul_spec :
    (∀ (a : Dense ℂ) (b : Dense ℝ), a.cols ≠ b.rows → mulMatCR a b = .exn (.mml "MatrixDimensionError")) ∧
    (∀ (a : Dense ℝ) (b : Dense ℂ), a.cols ≠ b.rows → mulMatRC a b = .exn (.mml "MatrixDimensionError")) ∧
    (∀ (r k c : ℕ) (a : Dense ℂ) (b : Dense ℝ) (f : ℕ → ℕ → ℂ) (g : ℕ → ℕ → ℝ), Is a r k f → Is b k c g → Shape r c →
      ∃ m, mulMatCR a b = .ret m ∧ Is m r c (fun i j => ∑ t ∈ Finset.range k, f i t * (g t j : ℂ))) ∧
    (∀ (r k c : ℕ) (a : Dense ℝ) (b : Dense ℂ) (f : ℕ → ℕ → ℝ) (g : ℕ → ℕ → ℂ), Is a r k f → Is b k c g → Shape r c →
      ∃ m, mulMatRC a b = .ret m ∧ Is m r c (fun i j => ∑ t ∈ Finset.range k, (f i t : ℂ) * g t j)) := by
  refine ⟨fun a b h => by rw [mulMatCR, mulMat, if_pos h], fun a b h => by rw [mulMatRC, mulMat, if_pos h], fun r k c a b f g ha hb hs => ?_,
    fun r k c a b f g ha hb hs => ?_⟩ <;>
  · obtain ⟨-, rfl⟩ := is_unique.1 ha
    obtain ⟨-, rfl⟩ := is_unique.1 hb
    refine ⟨_, mulMat_ofFn _ hs f g, is_unique.2 ⟨hs, rfl⟩⟩

theorem acc_loop (M n i : ℕ) (hi : i < M) (F : ℕ → ℂ) (G : ℕ → ℂ) (body : List ℂ → ℕ → Outcome (List ℂ))
    (hb : ∀ j < n, ∀ H : ℕ → ℂ, body (tab M H) j = Outcome.store (tab M H) i (H i + F j)) :
    forRange n (tab M (fun k => if k = i then 0 else G k)) body =
      .ret (tab M (fun k => if k = i then ∑ t ∈ Finset.range n, F t else G k)) := by
  obtain ⟨t, ht, rfl⟩ := forRange_rule (fun j r => r = tab M (fun k => if k = i then ∑ t ∈ Finset.range j, F t else G k)) n
    (tab M (fun k => if k = i then 0 else G k)) body (by simp)
    (by
      rintro j _ hj rfl
      refine ⟨_, by rw [hb j hj, store_tab _ hi], tab_congr fun k _ => ?_⟩
      by_cases h : k = i
      · subst h; simp [Finset.sum_range_succ]
      · simp [h])
  exact ht

theorem mulMatVec_ofFn {A B : Type} (op : A → B → ℂ) {r c : ℕ} (f : ℕ → ℕ → A) (v : ℕ → B) :
    mulMatVec op (ofFn r c f) (tab c v) = .ret (tab r fun i => ∑ j ∈ Finset.range c, op (f i j) (v j)) := by
  simp only [mulMatVec, ofFn_rows, ofFn_cols, length_tab, ne_eq, not_true_eq_false, if_false]
  rw [replicate_eq_tab]
  obtain ⟨t, ht, rfl⟩ := forRange_rule
    (fun n s => s = tab r (fun i => if i < n then ∑ j ∈ Finset.range c, op (f i j) (v j) else 0)) r (tab r fun _ => 0)
    (fun s i => matVecElem op (ofFn r c f) (tab c v) s i) (by simp)
    (by
      rintro i _ hi rfl
      refine ⟨_, by
        rw [matVecElem, store_tab _ hi, Outcome.bind_ret, ofFn_cols, acc_loop r c i hi (fun j => op (f i j) (v j))]
        intro j hj H
        rw [index_tab _ hi, Outcome.bind_ret, get_ofFn f hi hj, Outcome.bind_ret, index_tab _ hj, Outcome.bind_ret], tab_congr fun k _ => ?_⟩
      by_cases h : k = i
      · subst h; simp
      · by_cases h2 : k < i
        · simp [h, h2, show k < i + 1 by omega]
        · simp [h, h2, show ¬ k < i + 1 by omega])
  rw [ht]
  congr 1
  exact tab_congr fun i hi => by rw [if_pos hi]

theorem mulVecMat_ofFn {A B : Type} (op : A → B → ℂ) {r c : ℕ} (v : ℕ → A) (f : ℕ → ℕ → B) :
    mulVecMat op (tab r v) (ofFn r c f) = .ret (tab c fun i => ∑ j ∈ Finset.range r, op (v j) (f j i)) := by
  simp only [mulVecMat, ofFn_rows, ofFn_cols, length_tab, ne_eq, not_true_eq_false, if_false]
  rw [replicate_eq_tab]
  obtain ⟨t, ht, rfl⟩ := forRange_rule
    (fun n s => s = tab c (fun i => if i < n then ∑ j ∈ Finset.range r, op (v j) (f j i) else 0)) c (tab c fun _ => 0)
    (fun s i => vecMatElem op (tab r v) (ofFn r c f) s i) (by simp)
    (by
      rintro i _ hi rfl
      refine ⟨_, by
        rw [vecMatElem, store_tab _ hi, Outcome.bind_ret, ofFn_rows, acc_loop c r i hi (fun j => op (v j) (f j i))]
        intro j hj H
        rw [index_tab _ hi, Outcome.bind_ret, index_tab _ hj, Outcome.bind_ret, get_ofFn f hj hi, Outcome.bind_ret], tab_congr fun k _ => ?_⟩
      by_cases h : k = i
      · subst h; simp
      · by_cases h2 : k < i
        · simp [h, h2, show k < i + 1 by omega]
        · simp [h, h2, show ¬ k < i + 1 by omega])
  rw [ht]
  congr 1
  exact tab_congr fun i hi => by rw [if_pos hi]

theorem ofFn_eq_tab {α : Type} {n : ℕ} (v : ℕ → α) : tab n v = List.ofFn (fun i : Fin n => v i) := by
  apply List.ext_getElem
  · simp
  · intro i h1 h2; simp [tab]

/-- **Mixed products of a matrix and a vector**, on either side: refused unless the sizes agree; the elements are the row (column) sums. -/
theorem mixedMatVec_spec :
    (∀ (a : Dense ℝ) (b : List ℂ), a.cols ≠ b.length → mulMatVecRC a b = .exn (.mml "MatrixDimensionError")) ∧
    (∀ (a : Dense ℂ) (b : List ℝ), a.cols ≠ b.length → mulMatVecCR a b = .exn (.mml "MatrixDimensionError")) ∧
    (∀ (a : List ℂ) (b : Dense ℝ), a.length ≠ b.rows → mulVecMatCR a b = .exn (.mml "MatrixDimensionError")) ∧
    (∀ (a : List ℝ) (b : Dense ℂ), a.length ≠ b.rows → mulVecMatRC a b = .exn (.mml "MatrixDimensionError")) ∧
    ∀ (r c : ℕ) (M : Dense ℝ) (N : Dense ℂ) (f : ℕ → ℕ → ℝ) (g : ℕ → ℕ → ℂ), Is M r c f → Is N r c g →
      (∀ v : ℕ → ℂ, mulMatVecRC M (List.ofFn fun i : Fin c => v i) = .ret (List.ofFn fun i : Fin r => ∑ j ∈ Finset.range c, (f i j : ℂ) * v j)) ∧
      (∀ v : ℕ → ℝ, mulMatVecCR N (List.ofFn fun i : Fin c => v i) = .ret (List.ofFn fun i : Fin r => ∑ j ∈ Finset.range c, g i j * (v j : ℂ))) ∧
      (∀ v : ℕ → ℂ, mulVecMatCR (List.ofFn fun i : Fin r => v i) M = .ret (List.ofFn fun i : Fin c => ∑ j ∈ Finset.range r, v j * (f j i : ℂ))) ∧
      (∀ v : ℕ → ℝ, mulVecMatRC (List.ofFn fun i : Fin r => v i) N = .ret (List.ofFn fun i : Fin c => ∑ j ∈ Finset.range r, (v j : ℂ) * g j i)) := by
  refine ⟨fun a b h => by rw [mulMatVecRC, mulMatVec, if_pos h], fun a b h => by rw [mulMatVecCR, mulMatVec, if_pos h],
    fun a b h => by rw [mulVecMatCR, mulVecMat, if_pos h], fun a b h => by rw [mulVecMatRC, mulVecMat, if_pos h], fun r c M N f g hM hN => ?_⟩
  obtain ⟨-, rfl⟩ := is_unique.1 hM
  obtain ⟨-, rfl⟩ := is_unique.1 hN
  refine ⟨fun v => ?_, fun v => ?_, fun v => ?_, fun v => ?_⟩
  · rw [← ofFn_eq_tab, mulMatVecRC, mulMatVec_ofFn, ofFn_eq_tab]
  · rw [← ofFn_eq_tab, mulMatVecCR, mulMatVec_ofFn, ofFn_eq_tab]
  · rw [← ofFn_eq_tab, mulVecMatCR, mulVecMat_ofFn, ofFn_eq_tab]
  · rw [← ofFn_eq_tab, mulVecMatRC, mulVecMat_ofFn, ofFn_eq_tab]

/-- The hypotheses of the matrix theorems are met by a complex and a real 2 by 2 matrix. -/
example : Shape 2 2 ∧ Is (⟨2, 2, [Complex.I, 0, 1, Complex.I]⟩ : Dense ℂ) 2 2 (fun i j => if i = j then Complex.I else if i = 1 then 1 else 0) ∧
    Is (⟨2, 2, [1, 2, 3, 4]⟩ : Dense ℝ) 2 2 (fun i j => 2 * (i : ℝ) + (j : ℝ) + 1) := by
  have hs : Shape 2 2 := by simp [Shape]
  refine ⟨hs, ⟨⟨rfl, hs⟩, rfl, rfl, fun i hi j hj => ?_⟩, ⟨rfl, hs⟩, rfl, rfl, fun i hi j hj => ?_⟩ <;>
    interval_cases i <;> interval_cases j <;> simp [Dense.get, Dense.idx, Outcome.index] <;> norm_num

end Verif.Util
