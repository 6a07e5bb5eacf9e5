import Verif.Interp.Lemmas
import Verif.Interp.Floater
import Verif.LoopLemmas

/-!
# The barycentric interpolation computes a blend of polynomials
-/

set_option autoImplicit false

namespace Verif.Interp

open Verif Finset Polynomial Lagrange

variable {n d : ℕ} {x : ℕ → ℝ}

/-- The points of window `i`. -/
abbrev win (d i : ℕ) : Finset ℕ := Ico i (i + d + 1)

theorem Distinct.ne_of_ne (h : Distinct n x) {i j : ℕ} (hi : i < n) (hj : j < n) (hij : i ≠ j) : x i ≠ x j := by
  rcases Nat.lt_or_gt_of_ne hij with h' | h'
  · exact h i j h' hj
  · exact (h j i h' hi).symm

theorem Distinct.injOn (h : Distinct n x) {i : ℕ} (hi : i + d < n) : Set.InjOn x (win d i) := by
  intro a ha b hb hab
  rw [coe_Ico, Set.mem_Ico] at ha hb
  by_contra hne
  exact h.ne_of_ne (by omega) (by omega) hne hab

/-- The weight of a point. -/
noncomputable def fhWeight (n d : ℕ) (x : ℕ → ℝ) (k : ℕ) : ℝ :=
  ∑ i ∈ range (n - d), if i ≤ k ∧ k ≤ i + d then (-1) ^ i * nodalWeight (win d i) x k else 0

theorem window_eq (i k : ℕ) (hi : i + d < n) (hk : k < n) :
    forFromTo i (min (i + d) ((tab n x).length - 1) + 1) 1 (windowStep (tab n x) k) =
      .ret (∏ j ∈ (win d i).erase k, (x k - x j)) := by
  rw [length_tab, min_eq_left (by omega)]
  obtain ⟨t, ht, hP⟩ := forFromTo_rule (fun m t => t = ∏ j ∈ (Ico i m).erase k, (x k - x j)) i (i + d + 1) (by omega) 1
    (windowStep (tab n x) k) (by simp) (fun j t h1 h2 hP => by
      refine ⟨_, ?_, rfl⟩
      have hs : Ico i (j + 1) = insert j (Ico i j) := by
        ext m
        simp only [mem_Ico, mem_insert]
        omega
      have hnot : j ∉ Ico i j := by simp
      rw [windowStep]
      split_ifs with hjk
      · rw [hP, hs, hjk, erase_insert_eq_erase]
      · rw [index_tab x hk, Outcome.bind_ret, index_tab x (by omega), Outcome.bind_ret, hP, hs, erase_insert_of_ne hjk,
          prod_insert (by simp), mul_comm])
  rw [ht, hP]

theorem weight_eq (hx : Distinct n x) (hd : d < n) (k : ℕ) (hk : k < n) : weight (tab n x) d k = .ret (fhWeight n d x k) := by
  have hmax : (if k ≥ n - d then n - d - 1 else k) = min k (n - d - 1) := by
    split_ifs <;> omega
  have hsign : (if (k - d) % 2 = 1 then -1 else 1 : ℝ) = (-1) ^ (k - d) := by
    split_ifs with h
    · exact (Odd.neg_one_pow (Nat.odd_iff.mpr h)).symm
    · exact (Even.neg_one_pow (Nat.even_iff.mpr (by omega))).symm
  rw [weight, length_tab, hmax, hsign]
  obtain ⟨t, ht, hP⟩ := forFromTo_rule
    (fun m t => t = ((-1) ^ m, ∑ i ∈ Ico (k - d) m, (-1) ^ i * nodalWeight (win d i) x k)) (k - d) (min k (n - d - 1) + 1) (by omega)
    ((-1) ^ (k - d), 0) (weightStep (tab n x) d k) (by simp) (fun i t h1 h2 hP => by
      have hne : ∏ j ∈ (win d i).erase k, (x k - x j) ≠ 0 := prod_ne_zero_iff.mpr fun j hj => by
        rw [mem_erase, mem_Ico] at hj
        exact sub_ne_zero.mpr (hx.ne_of_ne hk (by omega) (Ne.symm hj.1))
      refine ⟨_, ?_, rfl⟩
      rw [weightStep, window_eq i k (by omega) hk, Outcome.bind_ret, fdiv, if_neg hne, Outcome.bind_ret, hP]
      rw [sum_Ico_succ_top (by omega), pow_succ, mul_neg_one, nodalWeight, prod_inv_distrib, div_eq_mul_inv])
  rw [ht, hP, Outcome.bind_ret, fhWeight, ← sum_filter]
  refine congrArg Outcome.ret ?_
  dsimp only
  refine sum_congr ?_ fun _ _ => rfl
  ext i
  simp only [mem_Ico, mem_filter, mem_range]
  omega

/-- The object made from a table. -/
noncomputable def fhObj (n d : ℕ) (x y : ℕ → ℝ) : Bary := ⟨tab n x, tab n y, d, tab n (fhWeight n d x)⟩

theorem bary_new_eq (hx : Distinct n x) (hd : d < n) (y : ℕ → ℝ) :
    Bary.new (tab n x) (tab n y) d = .ret (fhObj n d x y) := by
  rw [Bary.new, length_tab, if_neg (by omega), if_neg (by omega), Int.toNat_natCast, replicate_eq_tab]
  have : forRange n (tab n fun _ => (0 : ℝ)) (weightsStep (tab n x) d) = .ret (tab n (fhWeight n d x)) := by
    obtain ⟨t, ht, hP⟩ := forRange_rule (fun m t => t = tab n fun k => if k < m then fhWeight n d x k else 0) n
      (tab n fun _ => (0 : ℝ)) (weightsStep (tab n x) d) (by simp) (fun k t hk hP => by
        refine ⟨_, ?_, rfl⟩
        rw [weightsStep, weight_eq hx hd k hk, Outcome.bind_ret, hP, store_tab _ hk]
        refine congrArg _ (tab_congr fun j _ => ?_)
        split_ifs <;> first | rfl | (congr 1; omega) | omega)
    rw [ht, hP]
    exact congrArg _ (tab_congr fun j hj => if_pos hj)
  rw [this]
  rfl

/-- At a point of the table the value given there is returned. -/
theorem fh_node (hx : Distinct n x) (y : ℕ → ℝ) (k : ℕ) (hk : k < n) : (fhObj n d x y).eval (x k) = .ret (y k) := by
  rw [Bary.eval, fhObj]
  dsimp only
  rw [length_tab]
  obtain ⟨t, ht, hP⟩ := forRange_rule
    (fun m (t : (ℝ × ℝ) ⊕ ℝ) => (m ≤ k → ∃ s, t = .inl s) ∧ (k < m → t = .inr (y k))) n (.inl (0, 0))
    ((fhObj n d x y).step (x k)) ⟨fun _ => ⟨_, rfl⟩, fun h => by omega⟩ (fun i t hi hP => by
      rcases Nat.lt_trichotomy i k with h | rfl | h
      · obtain ⟨s, rfl⟩ := hP.1 h.le
        refine ⟨.inl (s.1 + fhWeight n d x i / (x k - x i) * y i, s.2 + fhWeight n d x i / (x k - x i)), ?_, fun _ => ⟨_, rfl⟩, fun h' => by omega⟩
        rw [Bary.step, fhObj]
        dsimp only
        rw [index_tab x hi, Outcome.bind_ret, if_neg (sub_ne_zero.mpr (hx.ne_of_ne hk hi (by omega))), index_tab _ hi, Outcome.bind_ret,
          index_tab _ hi, Outcome.bind_ret]
      · obtain ⟨s, rfl⟩ := hP.1 le_rfl
        refine ⟨.inr (y i), ?_, fun h => by omega, fun _ => rfl⟩
        rw [Bary.step, fhObj]
        dsimp only
        rw [index_tab x hi, Outcome.bind_ret, if_pos (sub_self _), index_tab _ hi, Outcome.bind_ret]
      · rw [hP.2 h]
        exact ⟨_, rfl, fun h' => by omega, fun _ => rfl⟩)
  rw [fhObj] at ht
  rw [ht, hP.2 hk]
  rfl

/-- The sums computed away from the points of the table. -/
theorem fh_between (y : ℕ → ℝ) (z : ℝ) (hz : ∀ i < n, z ≠ x i) :
    (fhObj n d x y).eval z = fdiv (∑ k ∈ range n, fhWeight n d x k / (z - x k) * y k) (∑ k ∈ range n, fhWeight n d x k / (z - x k)) := by
  rw [Bary.eval, fhObj]
  dsimp only
  rw [length_tab]
  obtain ⟨t, ht, hP⟩ := forRange_rule
    (fun m (t : (ℝ × ℝ) ⊕ ℝ) => t = .inl (∑ k ∈ range m, fhWeight n d x k / (z - x k) * y k, ∑ k ∈ range m, fhWeight n d x k / (z - x k)))
    n (.inl (0, 0)) ((fhObj n d x y).step z) (by simp) (fun i t hi hP => by
      refine ⟨_, ?_, rfl⟩
      rw [hP, Bary.step, fhObj]
      dsimp only
      rw [index_tab x hi, Outcome.bind_ret, if_neg (sub_ne_zero.mpr (hz i hi)), index_tab _ hi, Outcome.bind_ret,
        index_tab _ hi, Outcome.bind_ret, sum_range_succ, sum_range_succ])
  rw [fhObj] at ht
  rw [ht, hP]
  rfl

/-- The sums are blends of the interpolating polynomials of the windows. -/
theorem fh_blend (hd : d < n) (y : ℕ → ℝ) (z : ℝ) (hz : ∀ i < n, z ≠ x i) :
    ∑ k ∈ range n, fhWeight n d x k / (z - x k) * y k = ∑ i ∈ range (n - d), lam d x z i * (interpolate (win d i) x y).eval z := by
  have h1 : ∀ i ∈ range (n - d), lam d x z i * (interpolate (win d i) x y).eval z =
      ∑ k ∈ range n, if i ≤ k ∧ k ≤ i + d then (-1) ^ i * (nodalWeight (win d i) x k * (z - x k)⁻¹ * y k) else 0 := by
    intro i hi
    rw [mem_range] at hi
    have hzi : ∀ j ∈ win d i, z ≠ x j := fun j hj => hz j (by rw [mem_Ico] at hj; omega)
    rw [eval_interpolate_not_at_node y hzi, eval_nodal, lam, ← mul_assoc, div_mul_cancel₀ _ (prod_ne_zero_iff.mpr fun j hj =>
      sub_ne_zero.mpr (hzi j hj)), mul_sum, ← sum_filter]
    refine sum_congr ?_ fun _ _ => rfl
    ext k
    simp only [mem_Ico, mem_filter, mem_range]
    omega
  rw [sum_congr rfl h1, sum_comm]
  refine sum_congr rfl fun k _ => ?_
  rw [fhWeight, div_eq_mul_inv, sum_mul, sum_mul]
  refine sum_congr rfl fun i _ => ?_
  split_ifs
  · ring
  · ring

theorem fh_blend_one (hx : Distinct n x) (hd : d < n) (z : ℝ) (hz : ∀ i < n, z ≠ x i) :
    ∑ k ∈ range n, fhWeight n d x k / (z - x k) = ∑ i ∈ range (n - d), lam d x z i := by
  have := fh_blend hd (fun _ => 1) z hz
  simp only [mul_one] at this
  rw [this]
  refine sum_congr rfl fun i hi => ?_
  rw [mem_range] at hi
  have h1 : (1 : ℝ[X]) = interpolate (win d i) x fun _ => 1 :=
    eq_interpolate_of_eval_eq (fun _ => 1) (hx.injOn (by omega)) (by
      rw [degree_one, Nat.card_Ico]
      exact_mod_cast (by omega : 0 < i + d + 1 - i)) (fun _ _ => eval_one)
  rw [← h1, eval_one, mul_one]

theorem interp_window (hx : Distinct n x) {i : ℕ} (hi : i + d < n) (p : ℝ[X]) (hp : p.natDegree ≤ d) :
    interpolate (win d i) x (fun k => p.eval (x k)) = p := by
  refine (eq_interpolate_of_eval_eq _ (hx.injOn hi) ?_ fun _ _ => rfl).symm
  refine lt_of_le_of_lt degree_le_natDegree ?_
  rw [Nat.card_Ico]
  exact_mod_cast (by omega : p.natDegree < i + d + 1 - i)

/-! ### The quotient of two polynomials -/

/-- The points outside window `i`. -/
abbrev outside (n d i : ℕ) : Finset ℕ := range n \ win d i

/-- The denominator. -/
noncomputable def fhQ (n d : ℕ) (x : ℕ → ℝ) : ℝ[X] := ∑ i ∈ range (n - d), C ((-1) ^ i) * nodal (outside n d i) x

/-- The numerator. -/
noncomputable def fhP (n d : ℕ) (x y : ℕ → ℝ) : ℝ[X] :=
  ∑ i ∈ range (n - d), C ((-1) ^ i) * nodal (outside n d i) x * interpolate (win d i) x y

theorem card_outside {i : ℕ} (hi : i + d < n) : (outside n d i).card = n - d - 1 := by
  rw [card_sdiff_of_subset fun j hj => by rw [mem_Ico] at hj; rw [mem_range]; omega, card_range, Nat.card_Ico]
  omega

theorem nodal_split {i : ℕ} (hi : i + d < n) (z : ℝ) :
    (nodal (range n) x).eval z = (nodal (outside n d i) x).eval z * ∏ j ∈ win d i, (z - x j) := by
  rw [eval_nodal, eval_nodal, prod_sdiff fun j hj => by rw [mem_Ico] at hj; rw [mem_range]; omega]

theorem lam_nodal {i : ℕ} (hi : i + d < n) (z : ℝ) (hz : ∀ i < n, z ≠ x i) :
    lam d x z i * (nodal (range n) x).eval z = (-1) ^ i * (nodal (outside n d i) x).eval z := by
  have hne : ∏ j ∈ win d i, (z - x j) ≠ 0 := prod_ne_zero_iff.mpr fun j hj => by
    rw [mem_Ico] at hj
    exact sub_ne_zero.mpr (hz j (by omega))
  rw [nodal_split hi, lam]
  field_simp

theorem fhQ_eval (z : ℝ) (hz : ∀ i < n, z ≠ x i) :
    (fhQ n d x).eval z = (∑ i ∈ range (n - d), lam d x z i) * (nodal (range n) x).eval z := by
  rw [fhQ, eval_finsetSum, sum_mul]
  refine sum_congr rfl fun i hi => ?_
  rw [mem_range] at hi
  rw [eval_mul, eval_C, lam_nodal (by omega) z hz]

theorem fhP_eval (y : ℕ → ℝ) (z : ℝ) (hz : ∀ i < n, z ≠ x i) :
    (fhP n d x y).eval z =
      (∑ i ∈ range (n - d), lam d x z i * (interpolate (win d i) x y).eval z) * (nodal (range n) x).eval z := by
  rw [fhP, eval_finsetSum, sum_mul]
  refine sum_congr rfl fun i hi => ?_
  rw [mem_range] at hi
  rw [eval_mul, eval_mul, eval_C, mul_right_comm (lam d x z i), lam_nodal (by omega) z hz]

theorem fhP_node (hx : Distinct n x) (y : ℕ → ℝ) {k : ℕ} (hk : k < n) : (fhP n d x y).eval (x k) = (fhQ n d x).eval (x k) * y k := by
  rw [fhP, fhQ, eval_finsetSum, eval_finsetSum, sum_mul]
  refine sum_congr rfl fun i hi => ?_
  rw [mem_range] at hi
  rw [eval_mul, eval_mul, eval_C]
  by_cases h : k ∈ win d i
  · rw [eval_interpolate_at_node y (hx.injOn (by omega)) h]
  · rw [eval_nodal_at_node (mem_sdiff.mpr ⟨mem_range.mpr hk, h⟩)]
    ring

/-- The denominator has no zeros when the points increase. -/
theorem fhQ_ne_inc (hx : Increasing n x) (hd : d < n) (z : ℝ) : (fhQ n d x).eval z ≠ 0 := by
  have hdis : Distinct n x := fun i j hij hj => (hx i j hij hj).ne
  by_cases hz : ∀ i < n, z ≠ x i
  · rw [fhQ_eval z hz]
    have hne : (nodal (range n) x).eval z ≠ 0 := by
      rw [eval_nodal]
      exact prod_ne_zero_iff.mpr fun j hj => sub_ne_zero.mpr (hz j (mem_range.mp hj))
    refine mul_ne_zero ?_ hne
    -- the number of points on the left
    obtain ⟨c, hc, hl, hr⟩ : ∃ c ≤ n, (∀ j < c, x j < z) ∧ ∀ j, c ≤ j → j < n → z < x j := by
      classical
      by_cases hex : ∃ j, j < n ∧ z < x j
      · refine ⟨Nat.find hex, (Nat.find_spec hex).1.le, fun j hj => ?_, fun j h1 h2 => ?_⟩
        · have hjn : j < n := hj.trans (Nat.find_spec hex).1
          have := Nat.find_min hex hj
          push Not at this
          exact lt_of_le_of_ne (this hjn) (hz j hjn).symm
        · rcases Nat.eq_or_lt_of_le h1 with h | h
          · rw [← h]
            exact (Nat.find_spec hex).2
          · exact (Nat.find_spec hex).2.trans (hx _ _ h h2)
      · push Not at hex
        exact ⟨n, le_rfl, fun j hj => lt_of_le_of_ne (hex j hj) (hz j hj).symm, fun j h1 h2 => by omega⟩
    intro h0
    have := lam_pos hx hd hc hl hr
    rw [h0, mul_zero] at this
    exact lt_irrefl _ this
  · push Not at hz
    obtain ⟨k, hk, rfl⟩ := hz
    -- only the windows containing the point contribute, all with one sign
    have hterm : ∀ i ∈ range (n - d), 0 ≤ (-1 : ℝ) ^ (n - d - 1) * ((-1) ^ i * (nodal (outside n d i) x).eval (x k)) ∧
        (k ∈ win d i → 0 < (-1 : ℝ) ^ (n - d - 1) * ((-1) ^ i * (nodal (outside n d i) x).eval (x k))) := by
      intro i hi
      rw [mem_range] at hi
      by_cases h : k ∈ win d i
      · have hpos : 0 < (-1 : ℝ) ^ (n - d - 1) * ((-1) ^ i * (nodal (outside n d i) x).eval (x k)) := by
          rw [mem_Ico] at h
          have hset : outside n d i = range i ∪ Ico (i + d + 1) n := by
            ext m
            simp only [mem_sdiff, mem_range, mem_Ico, mem_union]
            omega
          have hdisj : Disjoint (range i) (Ico (i + d + 1) n) := disjoint_left.mpr fun m h1 h2 => by
            rw [mem_range] at h1
            rw [mem_Ico] at h2
            omega
          rw [eval_nodal, hset, prod_union hdisj, prod_flip (fun j => x k - x j) (fun j => x j - x k) (Ico (i + d + 1) n)
            fun j _ => (neg_sub _ _).symm, Nat.card_Ico]
          have p1 : 0 < ∏ j ∈ range i, (x k - x j) := prod_pos fun j hj => by
            rw [mem_range] at hj
            exact sub_pos.mpr (hx j k (by omega) hk)
          have p2 : 0 < ∏ j ∈ Ico (i + d + 1) n, (x j - x k) := prod_pos fun j hj => by
            rw [mem_Ico] at hj
            exact sub_pos.mpr (hx k j (by omega) hj.2)
          have hs : (-1 : ℝ) ^ (n - d - 1) * (-1) ^ i * (-1) ^ (n - (i + d + 1)) = 1 := by
            rw [← pow_add, ← pow_add]
            exact Even.neg_one_pow (Nat.even_iff.mpr (by omega))
          have e : (-1 : ℝ) ^ (n - d - 1) * ((-1) ^ i * ((∏ j ∈ range i, (x k - x j)) *
              ((-1) ^ (n - (i + d + 1)) * ∏ j ∈ Ico (i + d + 1) n, (x j - x k)))) =
              ((-1 : ℝ) ^ (n - d - 1) * (-1) ^ i * (-1) ^ (n - (i + d + 1))) *
                ((∏ j ∈ range i, (x k - x j)) * ∏ j ∈ Ico (i + d + 1) n, (x j - x k)) := by ring
          rw [e, hs, one_mul]
          exact mul_pos p1 p2
        exact ⟨hpos.le, fun _ => hpos⟩
      · rw [eval_nodal_at_node (mem_sdiff.mpr ⟨mem_range.mpr hk, h⟩)]
        exact ⟨by simp, fun h' => absurd h' h⟩
    have hsum : 0 < (-1 : ℝ) ^ (n - d - 1) * (fhQ n d x).eval (x k) := by
      rw [fhQ, eval_finsetSum, mul_sum]
      simp only [eval_mul, eval_C]
      refine sum_pos' (fun i hi => (hterm i hi).1) ⟨min k (n - d - 1), mem_range.mpr (by omega), (hterm _ (mem_range.mpr (by omega))).2 ?_⟩
      rw [mem_Ico]
      omega
    intro h0
    rw [h0, mul_zero] at hsum
    exact lt_irrefl _ hsum

theorem fhQ_ne {n d : ℕ} {x : ℕ → ℝ} (hx : Increasing n x ∨ Decreasing n x) (hd : d < n) (z : ℝ) : (fhQ n d x).eval z ≠ 0 := by
  rcases hx with hx | hx
  · exact fhQ_ne_inc hx hd z
  · have hneg : Increasing n fun i => -x i := fun i j hij hj => neg_lt_neg (hx i j hij hj)
    have h1 := fhQ_ne_inc hneg hd (-z)
    have e : (fhQ n d fun i => -x i).eval (-z) = (-1) ^ (n - d - 1) * (fhQ n d x).eval z := by
      rw [fhQ, fhQ, eval_finsetSum, eval_finsetSum, mul_sum]
      refine sum_congr rfl fun i hi => ?_
      rw [mem_range] at hi
      rw [eval_mul, eval_mul, eval_C, eval_C, eval_nodal, eval_nodal,
        prod_flip (fun j => -z - -x j) (fun j => z - x j) _ fun j _ => by ring, card_outside (by omega)]
      ring
    intro h0
    rw [e, h0, mul_zero] at h1
    exact h1 rfl

theorem sorted_distinct {n : ℕ} {x : ℕ → ℝ} (hx : Increasing n x ∨ Decreasing n x) : Distinct n x :=
  hx.elim (fun h => h.ordered.distinct) fun h => h.ordered.distinct

/-- The value everywhere, for points in order. -/
theorem fh_eval (hx : Increasing n x ∨ Decreasing n x) (hd : d < n) (y : ℕ → ℝ) (z : ℝ) :
    (fhObj n d x y).eval z = .ret ((fhP n d x y).eval z / (fhQ n d x).eval z) := by
  have hdis := sorted_distinct hx
  have hQ := fhQ_ne hx hd z
  by_cases hz : ∀ i < n, z ≠ x i
  · rw [fh_between y z hz, fh_blend hd y z hz, fh_blend_one hdis hd z hz]
    rw [fhQ_eval z hz] at hQ ⊢
    rw [fdiv, if_neg (left_ne_zero_of_mul hQ), fhP_eval y z hz, mul_div_mul_right _ _ (right_ne_zero_of_mul hQ)]
  · push Not at hz
    obtain ⟨k, hk, rfl⟩ := hz
    rw [fh_node hdis y k hk, fhP_node hdis y hk, mul_div_cancel_left₀ _ hQ]

end Verif.Interp
