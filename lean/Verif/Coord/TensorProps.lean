import Verif.Coord.TensorLemmas

/-!
# Tensors: construction, arithmetic, evaluation and contraction (C102)
-/

set_option autoImplicit false

namespace Verif.Coord

open Verif

namespace Tensor

variable {r N : ℕ}

/-! ## Construction and access -/

/-- The constructor: with numbers that are not negative and add up to the rank the tensor is zero, the lower indices come first, and there are as many
upper indices as asked for; numbers with another sum are refused. -/
theorem new_spec (a b : ℕ) :
    (a + b = r → ∃ t, new r N a b = .ret t ∧ (∀ m, t.coeff m = 0) ∧ t.numCovar = a ∧ t.numContravar = b ∧
      (∀ i, t.isContravar i = true ↔ a ≤ i.1) ∧ (Finset.univ.filter fun i => t.isContravar i = true).card = b) ∧
    (a + b ≠ r → new r N a b = .exn (.mml "TensorCovarContravarNumError")) := by
  refine ⟨fun h => ?_, fun h => ?_⟩
  · refine ⟨⟨fun _ => 0, b, a, fun i => decide ((a : ℤ) ≤ i)⟩, ?_, fun _ => rfl, rfl, rfl, fun i => by simp, ?_⟩
    · rw [new, if_neg (by omega), if_neg (by push_cast [← h]; omega), if_neg (by omega)]
    · simp only [decide_eq_true_eq, Nat.cast_le]
      subst h
      have : (Finset.univ.filter fun i : Fin (a + b) => a ≤ i.1) = Finset.univ.map (Fin.natAddEmb a) := by
        ext i
        simp only [Finset.mem_filter, Finset.mem_univ, true_and, Finset.mem_map, Fin.natAddEmb_apply]
        constructor
        · intro h
          exact ⟨⟨i.1 - a, by omega⟩, by ext; simp; omega⟩
        · rintro ⟨k, rfl⟩
          simp
      rw [this]
      simp
  · rw [new, if_neg (by omega), if_pos (by norm_cast; omega)]

/-- Beside it: a mixed tensor of rank two. -/
example : ∃ t, new 2 3 1 1 = .ret t ∧ t.isContravar 0 = false ∧ t.isContravar 1 = true := by
  obtain ⟨t, h, -, -, -, hv, -⟩ := (new_spec (r := 2) (N := 3) 1 1).1 rfl
  refine ⟨t, h, ?_, ?_⟩
  · rw [← Bool.not_eq_true, hv]; simp
  · rw [hv]; simp

/-- **Disagreement.**  Only `Tensor2` refuses negative numbers: the constructors of the others write outside their array. -/
theorem new_negative : new 2 3 (-1) 3 = .exn (.mml "TensorCovarContravarNumError") ∧ new 3 3 (-1) 4 = .ub ∧ new 4 3 5 (-1) = .ub ∧ new 5 3 (-1) 6 = .ub := by
  refine ⟨?_, ?_, ?_, ?_⟩ <;> simp [new]

theorem position_two (m : Fin 2 → Fin N) : position m = m 0 * N + m 1 := by
  simp [position, List.ofFn_succ]

theorem position_three (m : Fin 3 → Fin N) : position m = (m 0 * N + m 1) * N + m 2 := by
  simp [position, List.ofFn_succ]

/-- The constructor with values: row by row, zeros for what is missing; too many values are refused. -/
theorem ofList_spec (a b : ℕ) (values : List ℝ) (h : a + b = r) :
    (values.length ≤ N ^ r → ∃ t, ofList r N a b values = .ret t ∧ (∀ m, t.coeff m = values.getD (position m) 0) ∧
      ∀ i, t.isContravar i = true ↔ a ≤ i.1) ∧
    (values.length > N ^ r → ofList r N a b values = .exn (.mml "TensorCovarContravarNumError")) := by
  obtain ⟨t, ht, -, -, -, hv, -⟩ := (new_spec (r := r) (N := N) a b).1 h
  refine ⟨fun hl => ⟨{ t with coeff := fun m => values.getD (position m) 0 }, ?_, fun _ => rfl, hv⟩, fun hl => ?_⟩
  · rw [ofList, ht, Outcome.bind_ret, if_neg (by omega)]
  · rw [ofList, ht, Outcome.bind_ret, if_pos hl]

/-- Beside it: element `(1, 0)` of the tensor made from the list `1, 2, 3` is the third value and element `(1, 1)` is zero. -/
example : ∃ t, ofList 2 2 2 0 [1, 2, 3] = .ret t ∧ t.coeff ![1, 0] = 3 ∧ t.coeff ![1, 1] = 0 := by
  obtain ⟨t, h, hc, -⟩ := (ofList_spec (r := 2) (N := 2) 2 0 [1, 2, 3] rfl).1 (by norm_num)
  exact ⟨t, by exact_mod_cast h, by rw [hc, position_two]; simp, by rw [hc, position_two]; simp⟩

/-- `at` returns the element for indices in range and throws for all others. -/
theorem at_spec (t : Tensor r N) (m : Fin r → ℤ) :
    (∀ k : Fin r → Fin N, (∀ j, m j = (k j : ℤ)) → t.at_ m = .ret (t.coeff k)) ∧
    ((∃ j, m j < 0 ∨ (N : ℤ) ≤ m j) → t.at_ m = .exn (.mml "TensorIndexError")) := by
  refine ⟨fun k hk => ?_, fun ⟨j, hj⟩ => ?_⟩
  · have : ∀ j, 0 ≤ m j ∧ m j < N := fun j => by rw [hk]; have := (k j).2; omega
    rw [at_, dif_pos this]
    congr 2
    funext j
    ext
    simp [hk]
  · rw [at_, dif_neg]
    intro h
    have := h j
    omega

example (t : Tensor 2 2) : t.at_ ![1, 0] = .ret (t.coeff ![1, 0]) ∧ t.at_ ![1, 2] = .exn (.mml "TensorIndexError") :=
  ⟨(at_spec t _).1 ![1, 0] (by intro j; fin_cases j <;> simp), (at_spec t _).2 ⟨1, by simp⟩⟩

/-- What is written is read back, and nothing else changes. -/
theorem set_spec (t : Tensor r N) (m k : Fin r → Fin N) (a : ℝ) : (t.set m a).coeff k = if k = m then a else t.coeff k := by
  simp [set, Function.update_apply]

/-! ## Arithmetic -/

/-- Sums, differences and multiples of tensors of rank two, element by element; tensors with different numbers of indices are refused. -/
theorem arith_spec (a b : Tensor 2 N) (c : ℝ) (ha : 0 ≤ a.numCovar ∧ 0 ≤ a.numContravar ∧ a.numCovar + a.numContravar = 2) :
    (a.numCovar = b.numCovar ∧ a.numContravar = b.numContravar →
      (∃ t, a.add b = .ret t ∧ (∀ m, t.coeff m = a.coeff m + b.coeff m) ∧ t.numCovar = a.numCovar ∧ t.numContravar = a.numContravar) ∧
      ∃ t, a.sub b = .ret t ∧ (∀ m, t.coeff m = a.coeff m - b.coeff m) ∧ t.numCovar = a.numCovar ∧ t.numContravar = a.numContravar) ∧
    (¬(a.numCovar = b.numCovar ∧ a.numContravar = b.numContravar) →
      a.add b = .exn (.mml "TensorCovarContravarArithmeticError") ∧ a.sub b = .exn (.mml "TensorCovarContravarArithmeticError")) ∧
    ∃ t, a.smul c = .ret t ∧ (∀ m, t.coeff m = c * a.coeff m) ∧ t.numCovar = a.numCovar ∧ t.numContravar = a.numContravar := by
  have hn : new 2 N a.numCovar a.numContravar = .ret ⟨fun _ => 0, a.numContravar, a.numCovar, fun i => decide (a.numCovar ≤ i)⟩ := by
    rw [new, if_neg (by omega), if_neg (by push_cast; omega), if_neg (by omega)]
  refine ⟨fun ⟨h1, h2⟩ => ⟨?_, ?_⟩, fun h => ⟨?_, ?_⟩, ?_⟩
  · exact ⟨⟨fun m => a.coeff m + b.coeff m, a.numContravar, a.numCovar, fun i => decide (a.numCovar ≤ i)⟩, by rw [add, if_neg (by omega), hn, Outcome.bind_ret],
      fun _ => rfl, rfl, rfl⟩
  · exact ⟨⟨fun m => a.coeff m - b.coeff m, a.numContravar, a.numCovar, fun i => decide (a.numCovar ≤ i)⟩, by rw [sub, if_neg (by omega), hn, Outcome.bind_ret],
      fun _ => rfl, rfl, rfl⟩
  · rw [add, if_pos (by omega)]
  · rw [sub, if_pos (by omega)]
  · exact ⟨⟨fun m => a.coeff m * c, a.numContravar, a.numCovar, fun i => decide (a.numCovar ≤ i)⟩, by rw [smul, hn, Outcome.bind_ret], fun m => mul_comm _ _, rfl, rfl⟩

/-- **Disagreement.**  The arithmetic operations forget which index is upper: the double of a tensor whose first index is upper and whose second is
lower has its first index lower and its second upper, and a tensor `T^i_j` can be added to a tensor `T_i^j`. -/
theorem arith_variance :
    ∃ t u : Tensor 2 2, (∃ s, new 2 2 1 1 = .ret s ∧ t = (s.setContravar 0 true).setContravar 1 false ∧ u = s) ∧
      (∃ d, t.smul 2 = .ret d ∧ t.isContravar 0 = true ∧ d.isContravar 0 = false) ∧ t.isContravar ≠ u.isContravar ∧ ∃ d, t.add u = .ret d := by
  have hn : new 2 2 1 1 = .ret ⟨fun _ => 0, 1, 1, fun i => decide ((1 : ℤ) ≤ i)⟩ := by simp [new]
  refine ⟨_, _, ⟨_, hn, rfl, rfl⟩, ⟨_, by rw [smul]; simp only [setContravar]; rw [hn, Outcome.bind_ret], ?_, ?_⟩, ?_, ?_⟩
  · simp [setContravar]
  · simp
  · intro h
    have := congrFun h 0
    simp [setContravar] at this
  · exact ⟨_, by rw [add, if_neg (by simp [setContravar])]; simp only [setContravar]; rw [hn, Outcome.bind_ret]⟩

/-! ## Evaluation -/

/-- The value on the base vectors number `k` is element `k`. -/
theorem eval_basis (t : Tensor r N) (k : Fin r → Fin N) : t.eval (fun j => Pi.single (k j) 1) = t.coeff k := by
  rw [eval, Finset.sum_eq_single k]
  · simp
  · intro m _ hm
    obtain ⟨j, hj⟩ := Function.ne_iff.1 hm
    rw [Finset.prod_eq_zero (Finset.mem_univ j) (by simp [Pi.single_apply, hj]), mul_zero]
  · simp

/-- The value is linear in every argument. -/
theorem eval_linear (t : Tensor r N) (v : Fin r → Fin N → ℝ) (j : Fin r) (x y : Fin N → ℝ) (a b : ℝ) :
    t.eval (Function.update v j (a • x + b • y)) = a * t.eval (Function.update v j x) + b * t.eval (Function.update v j y) := by
  have h : ∀ (z : Fin N → ℝ) (m : Fin r → Fin N), ∏ k, Function.update v j z k (m k) = z (m j) * ∏ k ∈ Finset.univ.erase j, v k (m k) := by
    intro z m
    rw [← Finset.mul_prod_erase _ _ (Finset.mem_univ j), Function.update_self]
    congr 1
    refine Finset.prod_congr rfl fun k hk => ?_
    rw [Function.update_of_ne (Finset.ne_of_mem_erase hk)]
  simp only [eval, h, Finset.mul_sum, ← Finset.sum_add_distrib]
  refine Finset.sum_congr rfl fun m _ => ?_
  simp only [Pi.add_apply, Pi.smul_apply, smul_eq_mul]
  ring

/-- The value does not depend on the coordinates: vectors for the lower indices go by `A`, covectors for the upper ones by its inverse `B`. -/
theorem eval_from {t u : Tensor r N} {A B : Matrix (Fin N) (Fin N) ℝ} (hAB : A * B = 1) (hu : IsFrom t A B u) (v w : Fin r → Fin N → ℝ)
    (hw : ∀ j, w j = if t.isContravar j then Matrix.vecMul (v j) B else Matrix.mulVec A (v j)) : u.eval w = t.eval v := by
  have hBA : B * A = 1 := mul_eq_one_comm.1 hAB
  have key : ∀ j k, ∑ m, factor A B (t.isContravar j) m k * w j m = v j k := by
    intro j k
    rw [hw]
    cases h : t.isContravar j
    · have : ∑ m, factor A B false m k * (Matrix.mulVec A (v j)) m = Matrix.mulVec (B * A) (v j) k := by
        rw [← Matrix.mulVec_mulVec]
        rfl
      simp only [Bool.false_eq_true, if_false]
      rw [this, hBA, Matrix.one_mulVec]
    · have : ∑ m, factor A B true m k * (Matrix.vecMul (v j) B) m = Matrix.vecMul (v j) (B * A) k := by
        rw [← Matrix.vecMul_vecMul]
        simp only [factor, if_true]
        exact Finset.sum_congr rfl fun m _ => mul_comm _ _
      simp only [if_true]
      rw [this, hBA, Matrix.vecMul_one]
  simp only [eval, hu.2]
  have h1 : ∀ k : Fin r → Fin N, ∏ j, v j (k j) = ∑ m : Fin r → Fin N, ∏ j, factor A B (t.isContravar j) (m j) (k j) * w j (m j) := by
    intro k
    rw [Finset.prod_congr rfl fun j _ => (key j (k j)).symm, Finset.prod_univ_sum, Fintype.piFinset_univ]
  simp only [h1, Finset.mul_sum, Finset.sum_mul]
  rw [Finset.sum_comm]
  refine Finset.sum_congr rfl fun k _ => Finset.sum_congr rfl fun m _ => ?_
  rw [Finset.prod_mul_distrib]
  ring

/-! ## Contraction -/

/-- `Contract` of `Tensor2`: the sum of the diagonal of a mixed tensor, the same in all coordinates; others are refused. -/
theorem trace_spec (t : Tensor 2 N) :
    (t.numCovar = 1 ∧ t.numContravar = 1 → t.trace = .ret (∑ i, t.coeff ![i, i])) ∧
    (¬(t.numCovar = 1 ∧ t.numContravar = 1) → t.trace = .exn (.mml "TensorCovarContravarNumError")) := by
  refine ⟨fun ⟨h1, h2⟩ => by rw [trace, if_neg (by omega)], fun h => by rw [trace, if_pos (by omega)]⟩

theorem trace_from {t u : Tensor 2 N} {A B : Matrix (Fin N) (Fin N) ℝ} (hAB : A * B = 1) (hu : IsFrom t A B u)
    (hmix : t.isContravar 0 ≠ t.isContravar 1) : ∑ i, u.coeff ![i, i] = ∑ i, t.coeff ![i, i] := by
  have h := contractCoeff_from hAB hu 1 0 (by simpa using hmix) (fun k => k.elim0)
  have e : ∀ (x : Tensor 2 N) (a : Fin 0 → Fin N), contractCoeff x ((1 : Fin 2).succAbove 0) 1 a = ∑ i, x.coeff ![i, i] := by
    intro x a
    rw [contractCoeff]
    refine Finset.sum_congr rfl fun s _ => congrArg _ ?_
    rw [tuple_insert]
    funext k
    fin_cases k <;> rfl
  simp only [e] at h
  simpa using h

theorem minmax (i1 i2 : Fin (r + 2)) (h : i1 ≠ i2) : ∃ j : Fin (r + 1), min i1 i2 = (max i1 i2).succAbove j :=
  (Fin.exists_succAbove_eq (show min i1 i2 ≠ max i1 i2 by simpa [inf_eq_sup] using h)).imp fun _ => Eq.symm

/-- The sums are over the elements that have the same index at the two places. -/
theorem contractCoeff_spec (t : Tensor (r + 2) N) (i1 i2 : Fin (r + 2)) (h : i1 ≠ i2) (a : Fin r → Fin N) (m : Fin N → Fin (r + 2) → Fin N)
    (hm : ∀ s, Spliced i1 i2 s a (m s)) : contractCoeff t i1 i2 a = ∑ s, t.coeff (m s) :=
  Finset.sum_congr rfl fun s _ => by rw [(tuple_spliced i1 i2 h s a).unique h (hm s)]

theorem spliced_comm {i1 i2 : Fin (r + 2)} {s : Fin N} {a : Fin r → Fin N} {m : Fin (r + 2) → Fin N} (h : Spliced i1 i2 s a m) :
    Spliced i2 i1 s a m := by
  obtain ⟨h1, h2, e, h3, h4⟩ := h
  exact ⟨h2, h1, e, fun k => (h3 k).symm, h4⟩

theorem contractCoeff_minmax (t : Tensor (r + 2) N) (i1 i2 : Fin (r + 2)) (h : i1 ≠ i2) (a : Fin r → Fin N) (m : Fin N → Fin (r + 2) → Fin N)
    (hm : ∀ s, Spliced i1 i2 s a (m s)) : contractCoeff t (min i1 i2) (max i1 i2) a = ∑ s, t.coeff (m s) := by
  rcases le_total i1 i2 with hl | hl
  · rw [min_eq_left hl, max_eq_right hl]
    exact contractCoeff_spec t i1 i2 h a m hm
  · rw [min_eq_right hl, max_eq_left hl]
    exact contractCoeff_spec t i2 i1 h.symm a m fun s => spliced_comm (hm s)

/-- `Contract` of `Tensor3`: equal indices are refused, the order of the two does not matter, and the elements are the sums over the elements that have the
same index at the two places. -/
theorem contract3_spec (t : Tensor 3 N) (i1 i2 : Fin 3) :
    (i1 = i2 → t.contract3 i1 i2 = .exn (.mml "TensorIndexError")) ∧ t.contract3 i1 i2 = t.contract3 i2 i1 ∧
    (i1 ≠ i2 → ∃ v, t.contract3 i1 i2 = .ret v ∧ ∀ a (m : Fin N → Fin 3 → Fin N), (∀ s, Spliced i1 i2 s ![a] (m s)) → v a = ∑ s, t.coeff (m s)) := by
  refine ⟨fun h => by rw [contract3, if_pos h], ?_, fun h => ⟨_, by rw [contract3, if_neg h], fun a m hm => contractCoeff_minmax (r := 1) t i1 i2 h ![a] m hm⟩⟩
  rw [contract3, contract3, min_comm, max_comm]
  simp only [eq_comm]

/-- Beside it: contracting the first and the last index. -/
example (t : Tensor 3 2) : ∃ v, t.contract3 2 0 = .ret v ∧ ∀ a, v a = t.coeff ![0, a, 0] + t.coeff ![1, a, 1] := by
  obtain ⟨v, h1, h2⟩ := (contract3_spec t 2 0).2.2 (by decide)
  refine ⟨v, h1, fun a => ?_⟩
  rw [h2 a (fun s => ![s, a, s]) fun s => ⟨rfl, rfl, OrderEmbedding.ofStrictMono (fun _ => 1) (fun a b h => by omega), fun k => by decide +revert, fun k => by
    fin_cases k; rfl⟩]
  simp

/-- The vector contracted from a tensor in new coordinates is the contracted vector in the new coordinates, when one of the two indices is upper and the
other lower; `j` is the index that is left. -/
theorem contract3_from {t u : Tensor 3 N} {A B : Matrix (Fin N) (Fin N) ℝ} (hAB : A * B = 1) (hu : IsFrom t A B u) {i1 i2 j : Fin 3}
    (hmix : t.isContravar i1 ≠ t.isContravar i2) (hj : j ≠ i1 ∧ j ≠ i2) :
    ∃ v w, t.contract3 i1 i2 = .ret v ∧ u.contract3 i1 i2 = .ret w ∧ ∀ a, w a = ∑ b, factor A B (t.isContravar j) a b * v b := by
  have hne : i1 ≠ i2 := fun h => hmix (by rw [h])
  refine ⟨_, _, by rw [contract3, if_neg hne], by rw [contract3, if_neg hne], fun a => ?_⟩
  obtain ⟨k, hk⟩ := minmax i1 i2 hne
  have hmm : t.isContravar (min i1 i2) ≠ t.isContravar (max i1 i2) := by
    rcases le_total i1 i2 with hl | hl
    · rwa [min_eq_left hl, max_eq_right hl]
    · rw [min_eq_right hl, max_eq_left hl]
      exact hmix.symm
  have h := contractCoeff_from hAB hu (max i1 i2) k (by rw [← hk]; exact hmm) ![a]
  rw [← hk] at h
  have hj' : (max i1 i2).succAbove (k.succAbove 0) = j := by
    have e1 : (max i1 i2).succAbove (k.succAbove 0) ≠ max i1 i2 := Fin.succAbove_ne _ _
    have e2 : (max i1 i2).succAbove (k.succAbove 0) ≠ min i1 i2 := by
      rw [hk]
      exact fun h => Fin.succAbove_ne k 0 (Fin.succAbove_right_injective h)
    generalize (max i1 i2).succAbove (k.succAbove 0) = x at e1 e2
    clear hmm h hk hmix
    revert e1 e2 hj hne
    clear hu
    revert i1 i2 j x
    decide
  rw [h, ← (Equiv.funUnique (Fin 1) (Fin N)).symm.sum_comp]
  refine Finset.sum_congr rfl fun b _ => ?_
  simp only [Finset.univ_unique, Finset.prod_singleton, Fin.default_eq_zero, hj']
  congr 1

/-- `Contract` of `Tensor4` and `Tensor5`: equal indices are refused, and the order of the two does not matter. -/
theorem contract_spec (t : Tensor (r + 2) N) (i1 i2 : Fin (r + 2)) :
    (i1 = i2 → t.contract i1 i2 = .exn (.mml "TensorIndexError")) ∧
    ∀ c, t.contract i1 i2 = .ret c → i1 ≠ i2 ∧ t.contract i2 i1 = .ret c ∧
      (∀ a (m : Fin N → Fin (r + 2) → Fin N), (∀ s, Spliced i1 i2 s a (m s)) → c.coeff a = ∑ s, t.coeff (m s)) ∧
      ∃ e : Fin r ↪o Fin (r + 2), (∀ k, e k ≠ i1 ∧ e k ≠ i2) ∧ ∀ k, c.isContravar k = t.isContravar (e k) := by
  refine ⟨fun h => by rw [contract, if_pos h], fun c hc => ?_⟩
  have hne : i1 ≠ i2 := by
    rintro rfl
    rw [contract, if_pos rfl] at hc
    simp at hc
  have hl : ∀ (d d' : Fin (r + 2)) (k : Fin r), (left (min i1 i2) (max i1 i2)).getD k.1 d = (left (min i1 i2) (max i1 i2)).getD k.1 d' := by
    intro d d' k
    have hmn : min i1 i2 ≠ max i1 i2 := by simpa [inf_eq_sup] using hne
    obtain ⟨j, hj⟩ := minmax i1 i2 hne
    rw [hj, left_eq]
    simp [List.getD_eq_getElem?_getD]
  refine ⟨hne, ?_, ?_⟩
  · rw [← hc, contract, contract, if_neg hne, if_neg hne.symm, min_comm i2 i1, max_comm i2 i1]
    simp only [hl i2 i1]
  · rw [contract, if_neg hne] at hc
    simp only at hc
    cases h : new r N (drop (drop (t.numCovar, t.numContravar) (t.isContravar (min i1 i2))) (t.isContravar (max i1 i2))).1
      (drop (drop (t.numCovar, t.numContravar) (t.isContravar (min i1 i2))) (t.isContravar (max i1 i2))).2 with
    | ub => rw [h] at hc; simp at hc
    | exn e => rw [h] at hc; simp at hc
    | ret res =>
      rw [h, Outcome.bind_ret] at hc
      rw [← Outcome.ret.inj hc]
      refine ⟨fun a m hm => contractCoeff_minmax t i1 i2 hne a m hm, ?_⟩
      have hmn : min i1 i2 ≠ max i1 i2 := by simpa [inf_eq_sup] using hne
      obtain ⟨e, he, -, hk⟩ := left_getD (min i1 i2) (max i1 i2) hmn i1
      refine ⟨e, fun k => ?_, fun k => by simp only [hk k]⟩
      have := he k
      rcases le_total i1 i2 with hl | hl
      · rwa [min_eq_left hl, max_eq_right hl] at this
      · rw [min_eq_right hl, max_eq_left hl] at this
        exact this.symm

/-- It returns a result for a tensor whose numbers of indices are what its flags say. -/
theorem contract_returns (t : Tensor (r + 2) N) (i1 i2 : Fin (r + 2)) (h : i1 ≠ i2)
    (h1 : t.numContravar = (Finset.univ.filter fun i => t.isContravar i = true).card) (h2 : t.numCovar = (Finset.univ.filter fun i => t.isContravar i = false).card) :
    ∃ c, t.contract i1 i2 = .ret c := by
  have hmn : min i1 i2 ≠ max i1 i2 := by simpa [inf_eq_sup] using h
  generalize ha : min i1 i2 = a at hmn
  generalize hb : max i1 i2 = b at hmn
  have hs : (Finset.univ.filter fun i => t.isContravar i = true).card + (Finset.univ.filter fun i => t.isContravar i = false).card = r + 2 := by
    have := Finset.card_filter_add_card_filter_not (s := (Finset.univ : Finset (Fin (r + 2)))) (fun i => t.isContravar i = true)
    simpa using this
  have hpair : ∀ v : Bool, t.isContravar a = v → t.isContravar b = v → 2 ≤ (Finset.univ.filter fun i => t.isContravar i = v).card := by
    intro v hva hvb
    refine (Finset.card_pair hmn).symm.le.trans (Finset.card_le_card fun x hx => ?_)
    simp only [Finset.mem_insert, Finset.mem_singleton] at hx
    rcases hx with rfl | rfl <;> simp [hva, hvb]
  have hone : ∀ (v : Bool) x, t.isContravar x = v → 1 ≤ (Finset.univ.filter fun i => t.isContravar i = v).card := by
    intro v x hx
    exact Finset.card_pos.2 ⟨x, by simp [hx]⟩
  have hn : ∀ p q : ℤ, 0 ≤ p → 0 ≤ q → p + q = r → ∃ res, new r N p q = .ret res := by
    intro p q hp hq hpq
    exact ⟨_, by rw [new, if_neg (by omega), if_neg (by omega), if_neg (by omega)]⟩
  have : ∃ res, new r N (drop (drop (t.numCovar, t.numContravar) (t.isContravar a)) (t.isContravar b)).1
      (drop (drop (t.numCovar, t.numContravar) (t.isContravar a)) (t.isContravar b)).2 = .ret res := by
    cases hva : t.isContravar a <;> cases hvb : t.isContravar b <;> simp only [drop, Bool.false_eq_true, if_false, if_true]
    · have := hpair false hva hvb
      exact hn _ _ (by omega) (by omega) (by omega)
    · have e1 := hone false a hva
      have e2 := hone true b hvb
      exact hn _ _ (by omega) (by omega) (by omega)
    · have e1 := hone true a hva
      have e2 := hone false b hvb
      exact hn _ _ (by omega) (by omega) (by omega)
    · have := hpair true hva hvb
      exact hn _ _ (by omega) (by omega) (by omega)
  obtain ⟨res, hres⟩ := this
  exact ⟨_, by rw [contract, if_neg h, ha, hb]; simp only; rw [hres, Outcome.bind_ret]⟩

/-- Contracting an upper with a lower index commutes with a change of coordinates. -/
theorem contract_from {t u : Tensor (r + 2) N} {A B : Matrix (Fin N) (Fin N) ℝ} (hAB : A * B = 1) (hu : IsFrom t A B u)
    (hc1 : u.numContravar = t.numContravar) (hc2 : u.numCovar = t.numCovar) {i1 i2 : Fin (r + 2)} (hmix : t.isContravar i1 ≠ t.isContravar i2)
    {c : Tensor r N} (hc : t.contract i1 i2 = .ret c) : ∃ d, u.contract i1 i2 = .ret d ∧ IsFrom c A B d := by
  have hne : i1 ≠ i2 := fun h => hmix (by rw [h])
  rw [contract, if_neg hne] at hc ⊢
  rw [hc1, hc2, hu.1]
  simp only at hc ⊢
  cases h : new r N (drop (drop (t.numCovar, t.numContravar) (t.isContravar (min i1 i2))) (t.isContravar (max i1 i2))).1
      (drop (drop (t.numCovar, t.numContravar) (t.isContravar (min i1 i2))) (t.isContravar (max i1 i2))).2 with
  | ub => rw [h] at hc; simp at hc
  | exn e => rw [h] at hc; simp at hc
  | ret res =>
    rw [h, Outcome.bind_ret] at hc
    rw [Outcome.bind_ret]
    refine ⟨_, rfl, ?_, fun a => ?_⟩
    · rw [← Outcome.ret.inj hc]
    · rw [← Outcome.ret.inj hc]
      obtain ⟨k, hk⟩ := minmax i1 i2 hne
      have hmm : t.isContravar (min i1 i2) ≠ t.isContravar (max i1 i2) := by
        rcases le_total i1 i2 with hl | hl
        · rwa [min_eq_left hl, max_eq_right hl]
        · rw [min_eq_right hl, max_eq_left hl]
          exact hmix.symm
      have h := contractCoeff_from hAB hu (max i1 i2) k (by rw [← hk]; exact hmm) a
      simp only [hk]
      rw [h]
      refine Finset.sum_congr rfl fun b _ => ?_
      congr 1
      refine Finset.prod_congr rfl fun j _ => ?_
      rw [left_eq]
      simp [List.getD_eq_getElem?_getD]

/-- Beside it: the contraction of a tensor with one upper and three lower indices. -/
example : ∃ t c, new 4 3 3 1 = .ret t ∧ t.isContravar 0 ≠ t.isContravar 3 ∧ t.contract 0 3 = .ret c := by
  obtain ⟨t, h, -, h1, h2, h3, h4⟩ := (new_spec (r := 4) (N := 3) 3 1).1 rfl
  have e : ∀ i : Fin 4, t.isContravar i = decide (3 ≤ i.1) := fun i => by
    rw [Bool.eq_iff_iff, h3, decide_eq_true_eq]
  obtain ⟨c, hc⟩ := contract_returns t 0 3 (by decide) (by rw [h2, h4]) (by rw [h1]; simp only [e]; decide)
  exact ⟨t, c, by exact_mod_cast h, by rw [e, e]; decide, hc⟩

/-- **Disagreement.**  Nothing keeps the user from contracting two lower indices, and the result then depends on the coordinates: with `A = 2` in one
dimension the contraction of the tensor with element one becomes an eighth, but the vector it should be is a half. -/
theorem contract3_covariant :
    ∃ (t u : Tensor 3 1) (A B : Matrix (Fin 1) (Fin 1) ℝ), A * B = 1 ∧ IsFrom t A B u ∧ (∀ i, t.isContravar i = false) ∧
      ∃ v w, t.contract3 0 1 = .ret v ∧ u.contract3 0 1 = .ret w ∧ ¬∀ a, w a = ∑ b, factor A B false a b * v b := by
  refine ⟨⟨fun _ => 1, 0, 3, fun _ => false⟩, ⟨fun _ => 1 / 8, 0, 3, fun _ => false⟩, Matrix.of fun _ _ => 2, Matrix.of fun _ _ => 1 / 2, ?_, ⟨rfl, fun m => ?_⟩, fun _ => rfl, _, _, by
    rw [contract3, if_neg (by decide)], by rw [contract3, if_neg (by decide)], fun h => ?_⟩
  · ext i j
    rw [Matrix.mul_apply, Subsingleton.elim i j]
    simp
  · simp [factor]
    norm_num
  · have := h 0
    simp [contractCoeff, factor] at this

end Tensor

end Verif.Coord
