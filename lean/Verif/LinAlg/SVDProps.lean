import Verif.LinAlg.SVDLemmas
import Verif.LinAlg.GJProps
import Mathlib.Data.List.GetD

/-!
# C108: the SVD solver

`Holds s m n U w V` says what the members of the solver are, `IsSVD m n A U w V` that they are a singular value decomposition of
`A` (`SVDSpec.lean`).  That `decompose` produces one is an assumption.
-/

set_option autoImplicit false

namespace Verif.LinAlg.SVD

open Verif.Mat Finset

variable {m n : ℕ} {A U V : ℕ → ℕ → ℝ} {w : ℕ → ℝ} {s : Fac}

theorem Holds.eq (h : Holds s m n U w V) : Dense.Shape m n ∧ Dense.Shape n n ∧ s = ⟨Dense.ofFn m n U, tab n w, Dense.ofFn n n V⟩ := by
  obtain ⟨h1, h2⟩ := Dense.is_unique.1 h.u
  obtain ⟨h3, h4⟩ := Dense.is_unique.1 h.v
  refine ⟨h1, h3, ?_⟩
  cases s
  simp only at h2 h4
  rw [h2, h4, ← h.w]

/-! ## The constructor -/

/-- **C108.**  Whatever order and signs `decompose` returns, the constructor's result is again a singular value decomposition of
the same matrix, with the same singular values in descending order, and among the elements of each pair of vectors at most half
are negative. -/
theorem new_spec (decompose : Dense ℝ → Outcome Fac) (a : Dense ℝ) (ha : Dense.Is a m n A) (hn : 0 < n) (s₀ : Fac)
    (hd : decompose a = .ret s₀) (h₀ : Holds s₀ m n U w V) (hA : IsSVD m n A U w V) :
    ∃ s U' w' V', new decompose a = .ret s ∧ Holds s m n U' w' V' ∧ IsSVD m n A U' w' V' ∧
      (∀ i j, i < j → j < n → w' j ≤ w' i) ∧ (∃ π : Equiv.Perm ℕ, (∀ k, π k < n ↔ k < n) ∧ ∀ k, w' k = w (π k)) ∧
      (∀ k < n, ((range m).filter fun i => U' i k < 0).card + ((range n).filter fun i => V' i k < 0).card ≤ (m + n) / 2) := by
  obtain ⟨hs1, hs2, rfl⟩ := h₀.eq
  obtain ⟨-, hr, hc, -⟩ := ha
  have hm : 0 < m := by rcases hs1 with ⟨_, h⟩ | ⟨h, _⟩ <;> omega
  obtain ⟨D, E, h1, ⟨π, hπ, hD⟩, h3, h4, h5⟩ := reorder_eq m n (fun j => ⟨w j, fun i => U i j, fun i => V i j⟩)
  have key : ∀ k, (E k).w = w (π k) ∧ ∃ c : ℝ, c * c = 1 ∧ (∀ i, (E k).u i = c * U i (π k)) ∧ ∀ i, (E k).v i = c * V i (π k) := by
    intro k
    rcases h4 k with h | h
    · rw [h, hD]; exact ⟨rfl, 1, by norm_num, fun i => by simp, fun i => by simp⟩
    · rw [h, hD]; exact ⟨rfl, -1, by norm_num, fun i => by simp, fun i => by simp⟩
  have hlt : ∀ k, k < n → π k < n := fun k hk => (hπ k).2 hk
  refine ⟨rep m n E, fun i j => (E j).u i, fun j => (E j).w, fun i j => (E j).v i, ?_,
    ⟨Dense.is_ofFn hs1 _, rfl, Dense.is_ofFn hs2 _⟩, ⟨?_, ?_, ?_, ?_⟩, ?_, ⟨π, hπ, fun k => (key k).1⟩, h5⟩
  · rw [new, hr, hc, if_neg (by omega), hd, Outcome.bind_ret]
    exact h1
  · intro j hj k hk hwj hwk
    obtain ⟨ej, c, hc2, hu, -⟩ := key j
    obtain ⟨ek, d, hd2, hu', -⟩ := key k
    rw [ej] at hwj
    rw [ek] at hwk
    have : ∀ i ∈ range m, (E j).u i * (E k).u i = (c * d) * (U i (π j) * U i (π k)) := fun i _ => by rw [hu, hu']; ring
    rw [Finset.sum_congr rfl this, ← Finset.mul_sum, hA.orthoU _ (hlt j hj) _ (hlt k hk) hwj hwk]
    by_cases hjk : j = k
    · subst hjk
      obtain ⟨-, -⟩ := key j
      rw [if_pos rfl, if_pos rfl, mul_one]
      by_cases hz : ∃ i, U i (π j) ≠ 0
      · obtain ⟨i, hi⟩ := hz
        have : c = d := mul_right_cancel₀ hi (by rw [← hu, ← hu'])
        rw [← this, hc2]
      · push Not at hz
        have := hA.orthoU _ (hlt j hj) _ (hlt j hj) hwj hwj
        simp [hz] at this
    · rw [if_neg (fun h => hjk (π.injective h)), if_neg hjk, mul_zero]
  · intro j hj k hk
    obtain ⟨-, c, hc2, -, hu⟩ := key j
    obtain ⟨-, d, hd2, -, hu'⟩ := key k
    have : ∀ i ∈ range n, (E j).v i * (E k).v i = (c * d) * (V i (π j) * V i (π k)) := fun i _ => by rw [hu, hu']; ring
    rw [Finset.sum_congr rfl this, ← Finset.mul_sum, hA.orthoV _ (hlt j hj) _ (hlt k hk)]
    by_cases hjk : j = k
    · subst hjk
      rw [if_pos rfl, if_pos rfl, mul_one]
      by_cases hz : ∃ i, V i (π j) ≠ 0
      · obtain ⟨i, hi⟩ := hz
        have : c = d := mul_right_cancel₀ hi (by rw [← hu, ← hu'])
        rw [← this, hc2]
      · push Not at hz
        have := hA.orthoV _ (hlt j hj) _ (hlt j hj)
        simp [hz] at this
    · rw [if_neg (fun h => hjk (π.injective h)), if_neg hjk, mul_zero]
  · intro j hj
    rw [(key j).1]; exact hA.nonneg _ (hlt j hj)
  · intro i hi j hj
    rw [hA.prod i hi j hj]
    refine (Finset.sum_equiv π (s := range n) (t := range n) (fun k => by simp [hπ]) fun k hk => ?_).symm
    obtain ⟨h1, c, hc2, hu, hv⟩ := key k
    rw [h1, hu, hv]
    linear_combination (U i (π k) * w (π k) * V j (π k)) * hc2
  · intro i j hij hj
    have e : ∀ k, (E k).w = (D k).w := fun k => by rw [(key k).1, hD]
    simp only [e]
    exact h3 i j hij hj

/-- **C108.**  The constructor refuses an empty matrix. -/
theorem new_empty (decompose : Dense ℝ → Outcome Fac) (a : Dense ℝ) (h : a.rows = 0 ∨ a.cols = 0) :
    new decompose a = .exn (.mml "MatrixDimensionError") := by rw [new, if_pos h]

/-! ## Thresholds, rank and nullity -/

theorem threshold_eq (eps thresh : ℝ) (hn : 0 < n) (h : Holds s m n U w V) :
    threshold eps thresh s = .ret (limit m n eps thresh w) := by
  obtain ⟨-, -, rfl⟩ := h.eq
  rw [threshold, limit]
  by_cases ht : thresh ≥ 0
  · rw [if_pos ht, if_pos ht]
  · rw [if_neg ht, if_neg ht, index_tab _ hn, Outcome.bind_ret]
    rfl

theorem limit_nonneg (eps thresh : ℝ) (he : 0 ≤ eps) (hn : 0 < n) (hA : IsSVD m n A U w V) : 0 ≤ limit m n eps thresh w := by
  rw [limit]
  split_ifs with h
  · exact h
  · have := hA.nonneg 0 hn
    positivity

theorem cut_pos {t : ℝ} (ht : 0 ≤ t) (x : ℝ) : 0 < (if x > t then x else 0) ↔ x > t := by
  split_ifs with h
  · simp [h, lt_of_le_of_lt ht h]
  · simp [h]

/-- **C108.**  `Rank` is the rank of the matrix with the singular values up to the threshold replaced by zero. -/
theorem rank_spec (eps thresh : ℝ) (he : 0 ≤ eps) (hn : 0 < n) (h : Holds s m n U w V) (hA : IsSVD m n A U w V) :
    rank eps thresh s = .ret (toM m n (cutoff n U w V (limit m n eps thresh w))).rank := by
  rw [(hA.cut _).rank_eq, rank, threshold_eq eps thresh hn h, Outcome.bind_ret]
  have hl := limit_nonneg eps thresh he hn hA
  obtain ⟨-, -, rfl⟩ := h.eq
  rw [forRange_sum _ 0 _ (fun j => if w j > limit m n eps thresh w then 1 else 0), zero_add, Finset.card_filter]
  · simp only [cut_pos hl]
    rfl
  · intro i hi c
    rw [index_tab _ (show i < n from hi), Outcome.bind_ret]
    split_ifs <;> rfl

/-- **C108.**  `Nullity` is the number of columns less the rank. -/
theorem nullity_spec (eps thresh : ℝ) (hn : 0 < n) (h : Holds s m n U w V) :
    ∃ r k, rank eps thresh s = .ret r ∧ nullity eps thresh s = .ret k ∧ r + k = n := by
  rw [rank, nullity, threshold_eq eps thresh hn h, Outcome.bind_ret, Outcome.bind_ret]
  obtain ⟨-, -, rfl⟩ := h.eq
  refine ⟨_, _, forRange_sum _ 0 _ (fun j => if w j > limit m n eps thresh w then 1 else 0) ?_,
    forRange_sum _ 0 _ (fun j => if w j ≤ limit m n eps thresh w then 1 else 0) ?_, ?_⟩
  · intro i hi c
    rw [index_tab _ (show i < n from hi), Outcome.bind_ret]
    split_ifs <;> rfl
  · intro i hi c
    rw [index_tab _ (show i < n from hi), Outcome.bind_ret]
    split_ifs <;> rfl
  · rw [zero_add, zero_add, ← Finset.sum_add_distrib]
    have : ∀ j ∈ range n, ((if w j > limit m n eps thresh w then 1 else 0) + (if w j ≤ limit m n eps thresh w then 1 else 0) : ℕ) = 1 := by
      intro j _
      by_cases hj : w j ≤ limit m n eps thresh w
      · rw [if_neg (not_lt.2 hj), if_pos hj]
      · rw [if_pos (not_le.1 hj), if_neg hj]
    show ∑ j ∈ range n, _ = n
    rw [Finset.sum_congr rfl this]; simp

theorem cutoff_eq (hA : IsSVD m n A U w V) (t : ℝ) (ht : ∀ k < n, w k = 0 ∨ w k > t) {i j : ℕ} (hi : i < m) (hj : j < n) :
    cutoff n U w V t i j = A i j := by
  rw [hA.prod i hi j hj, cutoff]
  refine Finset.sum_congr rfl fun k hk => ?_
  rcases ht k (mem_range.1 hk) with h | h
  · rw [h]; simp
  · rw [if_pos h]

/-- **C108.**  If every singular value is zero or above the threshold, `Rank` is the rank of the matrix. -/
theorem rank_exact (eps thresh : ℝ) (he : 0 ≤ eps) (hn : 0 < n) (h : Holds s m n U w V) (hA : IsSVD m n A U w V)
    (ht : ∀ k < n, w k = 0 ∨ w k > limit m n eps thresh w) : rank eps thresh s = .ret (toM m n A).rank := by
  rw [rank_spec eps thresh he hn h hA]
  congr 2
  ext i j
  exact cutoff_eq hA _ ht i.2 j.2

/-- **C108.**  `inv_condition` is the least singular value over the greatest, and zero for a matrix of lower rank. -/
theorem invCondition_spec (hn : 0 < n) (h : Holds s m n U w V) (hA : IsSVD m n A U w V)
    (hs : ∀ i j, i < j → j < n → w j ≤ w i) :
    ∃ c, invCondition s = .ret c ∧ 0 ≤ c ∧ c ≤ 1 ∧ (c = 0 ↔ (toM m n A).rank < n) ∧
      ((toM m n A).rank = n → c = w (n - 1) / w 0 ∧ (∀ k < n, w (n - 1) ≤ w k) ∧ ∀ k < n, w k ≤ w 0) := by
  obtain ⟨-, -, rfl⟩ := h.eq
  have hlast : ∀ k < n, w (n - 1) ≤ w k := fun k hk => by
    by_cases e : k = n - 1
    · rw [e]
    · exact hs k (n - 1) (by omega) (by omega)
  have hfirst : ∀ k < n, w k ≤ w 0 := fun k hk => by
    by_cases e : k = 0
    · rw [e]
    · exact hs 0 k (by omega) hk
  have hrk := hA.rank_eq
  have hcard : ((range n).filter fun k => 0 < w k).card = n ↔ 0 < w (n - 1) := by
    constructor
    · intro hc
      have : (range n).filter (fun k => 0 < w k) = range n := Finset.eq_of_subset_of_card_le (Finset.filter_subset _ _) (by simp [hc])
      have h2 : n - 1 ∈ (range n).filter (fun k => 0 < w k) := by rw [this]; exact mem_range.2 (by omega)
      exact (Finset.mem_filter.1 h2).2
    · intro hp
      rw [Finset.filter_true_of_mem (fun k hk => lt_of_lt_of_le hp (hlast k (mem_range.1 hk)))]; simp
  have hle : ((range n).filter fun k => 0 < w k).card ≤ n := (Finset.card_filter_le _ _).trans (by simp)
  have e1 : Outcome.index (tab n w) 0 = .ret (w 0) := index_tab _ hn
  have e2 : Outcome.index (tab n w) (n - 1) = .ret (w (n - 1)) := index_tab _ (by omega)
  rw [invCondition]
  simp only [Dense.ofFn_cols]
  rw [e1, Outcome.bind_ret, e2, Outcome.bind_ret, hrk]
  by_cases hp : 0 < w (n - 1)
  · have h0 : 0 < w 0 := lt_of_lt_of_le hp (hlast 0 hn)
    rw [if_neg (by push Not; exact ⟨h0, hp⟩), divU, if_neg h0.ne']
    refine ⟨_, rfl, by positivity, by rw [div_le_one h0]; exact hlast 0 hn, ?_, fun _ => ⟨rfl, hlast, hfirst⟩⟩
    rw [hcard.2 hp]
    constructor
    · intro h
      exact absurd h (by positivity)
    · intro h; omega
  · rw [if_pos (Or.inr (not_lt.1 hp))]
    refine ⟨0, rfl, le_rfl, zero_le_one, ?_, fun h => absurd (hcard.1 h) hp⟩
    have := mt hcard.1 hp
    exact ⟨fun _ => by omega, fun _ => rfl⟩

/-! ## The solver -/

/-- **C108.**  `Solve` refuses a right-hand side whose length is not the number of rows. -/
theorem solve_dims (eps thresh : ℝ) (h : Holds s m n U w V) (b : List ℝ) (hb : b.length ≠ m) :
    solve eps thresh s b = .exn (.mml "VectorDimensionError") := by
  obtain ⟨-, -, rfl⟩ := h.eq
  rw [solve, if_pos (by simpa using hb)]

theorem solve_eq (eps thresh : ℝ) (he : 0 ≤ eps) (hn : 0 < n) (h : Holds s m n U w V) (hA : IsSVD m n A U w V) (b : ℕ → ℝ) :
    solve eps thresh s (tab m b) =
      .ret (tab n (sol m n U (fun k => if w k > limit m n eps thresh w then w k else 0) V b)) := by
  have hl := limit_nonneg eps thresh he hn hA
  have hte := threshold_eq eps thresh hn h
  obtain ⟨-, -, rfl⟩ := h.eq
  rw [solve, if_neg (by simp), hte, Outcome.bind_ret]
  generalize limit m n eps thresh w = t at hl
  set w' : ℕ → ℝ := fun k => if w k > t then w k else 0 with hw'
  rw [replicate_eq_tab]
  simp only [Dense.ofFn_cols]
  rw [forRange_fill n n le_rfl _ (fun k => if 0 < w' k then cU m U b k / w' k else 0)]
  swap
  · intro j hj tmp
    rw [coord]
    simp only [Dense.ofFn_rows]
    rw [index_tab _ hj, Outcome.bind_ret]
    by_cases hw : w j > t
    · have hpos := lt_of_le_of_lt hl hw
      rw [if_pos hw, forRange_sum m 0 _ (fun i => U i j * b i), zero_add, Outcome.bind_ret, divU, if_neg hpos.ne',
        Outcome.bind_ret, if_pos (by simp only [hw', if_pos hw]; exact hpos)]
      · simp only [hw', if_pos hw]; rfl
      · intro i hi s
        rw [Dense.get_ofFn _ hi hj, Outcome.bind_ret, index_tab _ hi, Outcome.bind_ret]
    · rw [if_neg hw, if_neg (by simp only [hw', if_neg hw]; simp)]
  rw [Outcome.bind_ret, tab_congr (f := fun k => if k < n then (if 0 < w' k then cU m U b k / w' k else 0) else 0)
      (g := fun k => if 0 < w' k then cU m U b k / w' k else 0) (fun i hi => if_pos hi),
    forRange_fill n n le_rfl _ (sol m n U w' V b)]
  · congr 1
    exact tab_congr fun i hi => by rw [if_pos hi]
  · intro j hj x
    rw [component]
    simp only [Dense.ofFn_cols]
    rw [forRange_sum n 0 _ (fun k => V j k * (if 0 < w' k then cU m U b k / w' k else 0)), zero_add, Outcome.bind_ret, sol]
    intro k hk s
    rw [Dense.get_ofFn _ hj hk, Outcome.bind_ret, index_tab _ hk, Outcome.bind_ret]

/-- **C108.**  `Solve` returns the vector of least Euclidean norm among those that minimise `‖A' x - b‖`, where `A'` is the matrix
with the singular values up to the threshold replaced by zero; it is the only one of that norm. -/
theorem solve_spec (eps thresh : ℝ) (he : 0 ≤ eps) (hn : 0 < n) (h : Holds s m n U w V) (hA : IsSVD m n A U w V) (b : ℕ → ℝ) :
    ∃ x, solve eps thresh s (tab m b) = .ret (tab n x) ∧
      (∀ z, resid2 m n (cutoff n U w V (limit m n eps thresh w)) b x ≤ resid2 m n (cutoff n U w V (limit m n eps thresh w)) b z) ∧
      ∀ z, resid2 m n (cutoff n U w V (limit m n eps thresh w)) b z ≤ resid2 m n (cutoff n U w V (limit m n eps thresh w)) b x →
        ∑ j ∈ range n, x j ^ 2 ≤ ∑ j ∈ range n, z j ^ 2 ∧
        (∑ j ∈ range n, z j ^ 2 = ∑ j ∈ range n, x j ^ 2 → ∀ j < n, z j = x j) :=
  ⟨_, solve_eq eps thresh he hn h hA b, fun z => ((hA.cut _).least b z).1, fun z hz =>
    ⟨(((hA.cut _).least b z).2 hz).1, fun e => (((hA.cut _).least b z).2 hz).2 e.le⟩⟩

theorem resid2_congr {B : ℕ → ℕ → ℝ} (h : ∀ i < m, ∀ j < n, B i j = A i j) (b x : ℕ → ℝ) :
    resid2 m n B b x = resid2 m n A b x := by
  refine Finset.sum_congr rfl fun i hi => ?_
  rw [Finset.sum_congr rfl fun j hj => by rw [h i (mem_range.1 hi) j (mem_range.1 hj)]]

/-- **C108.**  If every singular value is zero or above the threshold, `Solve` returns the vector of least norm among those that
minimise `‖A x - b‖`. -/
theorem solve_exact (eps thresh : ℝ) (he : 0 ≤ eps) (hn : 0 < n) (h : Holds s m n U w V) (hA : IsSVD m n A U w V)
    (ht : ∀ k < n, w k = 0 ∨ w k > limit m n eps thresh w) (b : ℕ → ℝ) :
    ∃ x, solve eps thresh s (tab m b) = .ret (tab n x) ∧ (∀ z, resid2 m n A b x ≤ resid2 m n A b z) ∧
      ∀ z, resid2 m n A b z ≤ resid2 m n A b x → ∑ j ∈ range n, x j ^ 2 ≤ ∑ j ∈ range n, z j ^ 2 ∧
        (∑ j ∈ range n, z j ^ 2 = ∑ j ∈ range n, x j ^ 2 → ∀ j < n, z j = x j) := by
  obtain ⟨x, h1, h2, h3⟩ := solve_spec eps thresh he hn h hA b
  have e : ∀ z, resid2 m n (cutoff n U w V (limit m n eps thresh w)) b z = resid2 m n A b z := fun z =>
    resid2_congr (fun i hi j hj => cutoff_eq hA _ ht hi hj) b z
  simp only [e] at h2 h3
  exact ⟨x, h1, h2, h3⟩

/-- **C108.**  If the matrix has full rank (and all its singular values are above the threshold) and the system can be solved,
`Solve` returns the solution. -/
theorem solve_system (eps thresh : ℝ) (he : 0 ≤ eps) (hn : 0 < n) (h : Holds s m n U w V) (hA : IsSVD m n A U w V)
    (ht : ∀ k < n, w k > limit m n eps thresh w) (b z : ℕ → ℝ) (hz : ∀ i < m, ∑ j ∈ range n, A i j * z j = b i) :
    solve eps thresh s (tab m b) = .ret (tab n z) := by
  have hl := limit_nonneg eps thresh he hn hA
  rw [solve_eq eps thresh he hn h hA b]
  congr 1
  refine tab_congr fun j hj => ?_
  rw [sol, ← hA.expand z hj]
  refine Finset.sum_congr rfl fun k hk => ?_
  have hw := ht k (mem_range.1 hk)
  rw [if_pos hw, if_pos (lt_of_le_of_lt hl hw)]
  congr 1
  rw [div_eq_iff (lt_of_le_of_lt hl hw).ne', cU]
  have e : ∀ i ∈ range m, U i k * b i = ∑ q ∈ range n, U i k * U i q * (w q * cV n V z q) := fun i hi => by
    rw [← hz i (mem_range.1 hi), hA.apply z (mem_range.1 hi), Finset.mul_sum]
    exact Finset.sum_congr rfl fun q _ => by ring
  rw [Finset.sum_congr rfl e, Finset.sum_comm]
  have e2 : ∀ q ∈ range n, ∑ i ∈ range m, U i k * U i q * (w q * cV n V z q) = (if k = q then 1 else 0) * (w q * cV n V z q) :=
    fun q hq => by rw [← Finset.sum_mul, hA.orthoU k (mem_range.1 hk) q (mem_range.1 hq) (lt_of_le_of_lt hl (ht k (mem_range.1 hk)))
      (lt_of_le_of_lt hl (ht q (mem_range.1 hq)))]
  rw [Finset.sum_congr rfl e2, sum_delta n (mem_range.1 hk), mul_comm]

/-! ## Bases of the range and of the null space -/

/-- The indices below `n` that satisfy `p`, in order. -/
noncomputable def sel (n : ℕ) (p : ℕ → Prop) [DecidablePred p] : List ℕ := (List.range n).filter (fun k => decide (p k))

theorem putCol_eq {r c n : ℕ} (f F : ℕ → ℕ → ℝ) {j k : ℕ} (hj : j < n) (hk : k < c) :
    putCol r (Dense.ofFn r n f) j (Dense.ofFn r c F, k) =
      .ret (Dense.ofFn r c (fun p q => if q = k then f p j else F p q), k + 1) := by
  rw [putCol, forRange_eq_fromTo, QR.forFromTo_col le_rfl F (fun p => f p j), Outcome.bind_ret]
  · congr 2
    refine Dense.ofFn_congr fun p hp q _ => ?_
    by_cases hq : q = k
    · rw [if_pos ⟨hq, Nat.zero_le _, hp⟩, if_pos hq]
    · rw [if_neg (by tauto), if_neg hq]
  · intro i _ hi g _ _
    rw [Dense.get_ofFn _ hi hj, Outcome.bind_ret, Dense.set_ofFn _ hi hk]

theorem sel_succ (j : ℕ) (p : ℕ → Prop) [DecidablePred p] : sel (j + 1) p = if p j then sel j p ++ [j] else sel j p := by
  rw [sel, List.range_succ, List.filter_append]
  by_cases h : p j
  · simp [h, sel]
  · simp [h, sel]

theorem sel_length_le {j n : ℕ} (h : j ≤ n) (p : ℕ → Prop) [DecidablePred p] : (sel j p).length ≤ (sel n p).length := by
  induction n, h using Nat.le_induction with
  | base => exact le_rfl
  | succ n _ ih =>
    rw [sel_succ]
    split_ifs
    · rw [List.length_append]; omega
    · exact ih

theorem pick_eq {r n : ℕ} (f F : ℕ → ℕ → ℝ) (p : ℕ → Prop) [DecidablePred p] (body : Dense ℝ × ℕ → ℕ → Outcome (Dense ℝ × ℕ))
    (hb : ∀ o, ∀ j < n, body o j = if p j then putCol r (Dense.ofFn r n f) j o else .ret o) :
    ∃ G, forRange n (Dense.ofFn r (sel n p).length F, 0) body = .ret (Dense.ofFn r (sel n p).length G, (sel n p).length) ∧
      ∀ i < r, ∀ q < (sel n p).length, G i q = f i ((sel n p).getD q 0) := by
  obtain ⟨t, ht, G, rfl, hG⟩ := forRange_rule
    (fun j (o : Dense ℝ × ℕ) => ∃ G, o = (Dense.ofFn r (sel n p).length G, (sel j p).length) ∧
      ∀ i < r, ∀ q < (sel j p).length, G i q = f i ((sel j p).getD q 0)) n (Dense.ofFn r (sel n p).length F, 0) body
    ⟨F, by simp [sel], fun i _ q hq => by simp [sel] at hq⟩
    (by
      rintro j o hj ⟨G, rfl, hG⟩
      rw [hb _ j hj]
      by_cases hp : p j
      · have hlen : (sel j p).length < (sel n p).length := by
          have := sel_length_le (show j + 1 ≤ n by omega) p
          rw [sel_succ, if_pos hp, List.length_append] at this
          simpa using this
        rw [if_pos hp]
        refine ⟨_, putCol_eq f G hj hlen, _, by rw [sel_succ, if_pos hp, List.length_append]; rfl, fun i hi q hq => ?_⟩
        rw [sel_succ, if_pos hp, List.length_append, List.length_singleton] at hq
        rw [sel_succ, if_pos hp]
        by_cases e : q = (sel j p).length
        · rw [if_pos e, e]; simp [List.getD]
        · rw [if_neg e, hG i hi q (by omega), List.getD_append _ _ _ _ (by omega)]
      · rw [if_neg hp]
        exact ⟨_, rfl, G, by rw [sel_succ, if_neg hp], fun i hi q hq => by
          rw [sel_succ, if_neg hp] at hq ⊢; exact hG i hi q hq⟩)
  exact ⟨G, ht, hG⟩

theorem sel_card (n : ℕ) (p : ℕ → Prop) [DecidablePred p] : (sel n p).length = ((range n).filter p).card := by
  induction n with
  | zero => rfl
  | succ n ih =>
    rw [sel_succ, Finset.range_add_one, Finset.filter_insert]
    by_cases h : p n
    · rw [if_pos h, if_pos h, Finset.card_insert_of_notMem (by simp), List.length_append, ih]; rfl
    · rw [if_neg h, if_neg h, ih]

theorem sel_mem {n : ℕ} {p : ℕ → Prop} [DecidablePred p] {k : ℕ} : k ∈ sel n p ↔ k < n ∧ p k := by
  simp [sel]

theorem sel_get {n : ℕ} {p : ℕ → Prop} [DecidablePred p] {q : ℕ} (h : q < (sel n p).length) :
    (sel n p).getD q 0 < n ∧ p ((sel n p).getD q 0) := by
  rw [List.getD_eq_getElem _ _ h]
  exact sel_mem.1 (List.getElem_mem h)

theorem sel_inj {n : ℕ} {p : ℕ → Prop} [DecidablePred p] {q q' : ℕ} (h : q < (sel n p).length) (h' : q' < (sel n p).length)
    (e : (sel n p).getD q 0 = (sel n p).getD q' 0) : q = q' := by
  rw [List.getD_eq_getElem _ _ h, List.getD_eq_getElem _ _ h'] at e
  have hn : (sel n p).Nodup := List.nodup_range.filter _
  exact (List.Nodup.getElem_inj_iff hn).1 e

theorem sum_sel (n : ℕ) (p : ℕ → Prop) [DecidablePred p] (g : ℕ → ℝ) :
    ∑ q ∈ range (sel n p).length, g ((sel n p).getD q 0) = ∑ k ∈ range n, if p k then g k else 0 := by
  rw [← Finset.sum_filter]
  refine Finset.sum_bij (fun q _ => (sel n p).getD q 0) (fun q hq => ?_) (fun q hq q' hq' e => ?_) (fun k hk => ?_) (fun q hq => rfl)
  · have := sel_get (mem_range.1 hq)
    exact Finset.mem_filter.2 ⟨mem_range.2 this.1, this.2⟩
  · exact sel_inj (mem_range.1 hq) (mem_range.1 hq') e
  · have hk' := Finset.mem_filter.1 hk
    obtain ⟨q, hq, e⟩ := List.mem_iff_getElem.1 (sel_mem (n := n) (p := p).2 ⟨mem_range.1 hk'.1, hk'.2⟩)
    exact ⟨q, mem_range.2 hq, by rw [List.getD_eq_getElem _ _ hq, e]⟩

theorem shape_sub {r c k : ℕ} (h : Dense.Shape r c) (hk : k ≤ c) (h0 : 0 < k) : Dense.Shape r k := by
  rcases h with ⟨_, h⟩ | ⟨h1, h2, h3, h4, h5⟩
  · omega
  · exact Or.inr ⟨h1, h0, h3, by omega, (Nat.mul_le_mul_left r hk).trans h5⟩

/-- The null matrix of the constructor with a zero dimension. -/
theorem new_zero_cols (r : ℕ) : (Dense.new (K := ℝ) r (0 : ℕ)) = .ret (Dense.ofFn 0 0 fun _ _ => 0) := by
  rw [Dense.new, Dense.newFill, if_neg (by omega), if_pos (Or.inr Nat.cast_zero)]
  rfl

theorem rank_card (eps t : ℝ) (ht : 0 ≤ t) (h : Holds s m n U w V) : rank eps t s = .ret (sel n fun k => w k > t).length := by
  obtain ⟨-, -, rfl⟩ := h.eq
  rw [rank, threshold, if_pos ht, Outcome.bind_ret, sel_card, Finset.card_filter,
    forRange_sum _ 0 _ (fun j => if w j > t then 1 else 0), zero_add]
  · rfl
  · intro i hi c
    rw [index_tab _ (show i < n from hi), Outcome.bind_ret]
    split_ifs <;> rfl

theorem nullity_card (eps t : ℝ) (ht : 0 ≤ t) (h : Holds s m n U w V) : nullity eps t s = .ret (sel n fun k => w k ≤ t).length := by
  obtain ⟨-, -, rfl⟩ := h.eq
  rw [nullity, threshold, if_pos ht, Outcome.bind_ret, sel_card, Finset.card_filter,
    forRange_sum _ 0 _ (fun j => if w j ≤ t then 1 else 0), zero_add]
  · rfl
  · intro i hi c
    rw [index_tab _ (show i < n from hi), Outcome.bind_ret]
    split_ifs <;> rfl

/-- **C108.**  `Range` returns an orthonormal basis of the range of the matrix with the singular values up to the threshold
replaced by zero: as many columns as the rank, orthonormal, each in the range, and every vector of the range a combination of
them.  For rank zero the matrix returned is empty. -/
theorem range_spec (eps thresh : ℝ) (he : 0 ≤ eps) (hn : 0 < n) (h : Holds s m n U w V) (hA : IsSVD m n A U w V) :
    ∃ d r R, rangeBasis eps thresh s = .ret d ∧ rank eps thresh s = .ret r ∧
      (0 < r → Dense.Is d m r R) ∧ (r = 0 → d.rows = 0 ∧ d.cols = 0) ∧
      (∀ j < r, ∀ k < r, ∑ i ∈ range m, R i j * R i k = if j = k then 1 else 0) ∧
      (∀ q < r, ∃ z : ℕ → ℝ, ∀ i < m, ∑ j ∈ range n, cutoff n U w V (limit m n eps thresh w) i j * z j = R i q) ∧
      (∀ z : ℕ → ℝ, ∃ c : ℕ → ℝ, ∀ i < m,
        ∑ j ∈ range n, cutoff n U w V (limit m n eps thresh w) i j * z j = ∑ q ∈ range r, R i q * c q) := by
  have hl := limit_nonneg eps thresh he hn hA
  have hte := threshold_eq eps thresh hn h
  have hrk : rank eps thresh s = rank eps (limit m n eps thresh w) s := by
    rw [rank, rank, hte, threshold, if_pos hl]
  have hcard := rank_card eps _ hl h
  obtain ⟨hsh, -, hs⟩ := h.eq
  have hA' := hA.cut (limit m n eps thresh w)
  generalize limit m n eps thresh w = t at *
  set p : ℕ → Prop := fun k => w k > t with hp
  have hR : ∃ d, rangeBasis eps thresh s = .ret d ∧ (0 < (sel n p).length →
      Dense.Is d m (sel n p).length fun i q => U i ((sel n p).getD q 0)) ∧ ((sel n p).length = 0 → d.rows = 0 ∧ d.cols = 0) := by
    rw [rangeBasis, hte, Outcome.bind_ret, hcard, Outcome.bind_ret]
    subst hs
    simp only [Dense.ofFn_rows, Dense.ofFn_cols]
    have hbody : ∀ o, ∀ j < n, (do
        let wj ← Outcome.index (tab n w) j
        if wj > t then putCol m (Dense.ofFn m n U) j o else Outcome.ret o) =
        if p j then putCol m (Dense.ofFn m n U) j o else .ret o := fun o j hj => by rw [index_tab _ hj, Outcome.bind_ret]
    by_cases h0 : (sel n p).length = 0
    · rw [h0, new_zero_cols, Outcome.bind_ret]
      have hnp : ∀ j < n, ¬ p j := fun j hj hpj => by
        have := sel_mem (n := n) (p := p).2 ⟨hj, hpj⟩
        rw [List.length_eq_zero_iff.1 h0] at this
        simp at this
      obtain ⟨t', ht', rfl⟩ := forRange_rule (fun _ (o : Dense ℝ × ℕ) => o = (Dense.ofFn 0 0 (fun _ _ => 0), 0)) n
        (Dense.ofFn 0 0 (fun _ _ => 0), 0) (fun o j => do
          let wj ← Outcome.index (tab n w) j
          if wj > t then putCol m (Dense.ofFn m n U) j o else Outcome.ret o) rfl
        (by rintro i o hi rfl; exact ⟨_, by rw [hbody _ i hi, if_neg (hnp i hi)], rfl⟩)
      rw [ht', Outcome.bind_ret]
      exact ⟨_, rfl, fun h => by omega, fun _ => ⟨rfl, rfl⟩⟩
    · have hle : (sel n p).length ≤ n := by rw [sel_card]; exact (Finset.card_filter_le _ _).trans (by simp)
      have hsh' := shape_sub hsh hle (by omega)
      rw [Dense.new_spec hsh', Outcome.bind_ret]
      obtain ⟨G, hG, hG'⟩ := pick_eq U (fun _ _ => 0) p _ hbody
      rw [hG, Outcome.bind_ret]
      refine ⟨_, rfl, fun _ => ?_, fun h => absurd h h0⟩
      rw [Dense.ofFn_congr (g := fun i q => U i ((sel n p).getD q 0)) hG']
      exact Dense.is_ofFn hsh' _
  obtain ⟨d, hd, hd1, hd2⟩ := hR
  refine ⟨d, _, _, hd, hrk.trans hcard, hd1, hd2, fun j hj k hk => ?_, fun q hq => ?_, fun z => ?_⟩
  · rw [hA.orthoU _ (sel_get hj).1 _ (sel_get hk).1 (lt_of_le_of_lt hl (sel_get hj).2) (lt_of_le_of_lt hl (sel_get hk).2)]
    by_cases e : j = k
    · rw [if_pos (by rw [e]), if_pos e]
    · rw [if_neg (fun e' => e (sel_inj hj hk e')), if_neg e]
  · obtain ⟨h1, h2⟩ := sel_get hq
    set k0 := (sel n p).getD q 0
    refine ⟨fun j => ∑ k ∈ range n, V j k * ((if k0 = k then 1 else 0) * (1 / w k)), fun i hi => ?_⟩
    have hw0 : w k0 ≠ 0 := (lt_of_le_of_lt hl h2).ne'
    rw [hA'.apply _ hi]
    have : ∀ k ∈ range n, U i k * ((if w k > t then w k else 0) * cV n V (fun j => ∑ k ∈ range n, V j k * ((if k0 = k then 1 else 0) * (1 / w k))) k)
        = (if k0 = k then 1 else 0) * U i k := fun k hk => by
      rw [hA'.coords _ (mem_range.1 hk)]
      by_cases e : k0 = k
      · rw [← e, if_pos h2, if_pos rfl]; field_simp
      · rw [if_neg e]; ring
    rw [Finset.sum_congr rfl this, sum_delta n h1]
  · refine ⟨fun q => w ((sel n p).getD q 0) * cV n V z ((sel n p).getD q 0), fun i hi => ?_⟩
    rw [hA'.apply _ hi, sum_sel n p (fun k => U i k * (w k * cV n V z k))]
    refine Finset.sum_congr rfl fun k _ => ?_
    by_cases e : w k > t
    · rw [if_pos e, if_pos e]
    · rw [if_neg e, if_neg e]; ring

/-- **C108.**  `Nullspace` returns an orthonormal basis of the null space of the matrix with the singular values up to the
threshold replaced by zero: as many columns as the nullity, orthonormal, and the vectors sent to zero are the combinations of the
columns.  For nullity zero the matrix returned is empty. -/
theorem nullspace_spec (eps thresh : ℝ) (he : 0 ≤ eps) (hn : 0 < n) (h : Holds s m n U w V) (hA : IsSVD m n A U w V) :
    ∃ d r R, nullBasis eps thresh s = .ret d ∧ nullity eps thresh s = .ret r ∧
      (0 < r → Dense.Is d n r R) ∧ (r = 0 → d.rows = 0 ∧ d.cols = 0) ∧
      (∀ j < r, ∀ k < r, ∑ i ∈ range n, R i j * R i k = if j = k then 1 else 0) ∧
      ∀ z : ℕ → ℝ, (∀ i < m, ∑ j ∈ range n, cutoff n U w V (limit m n eps thresh w) i j * z j = 0) ↔
        ∃ c : ℕ → ℝ, ∀ j < n, z j = ∑ q ∈ range r, R j q * c q := by
  have hl := limit_nonneg eps thresh he hn hA
  have hte := threshold_eq eps thresh hn h
  have hrk : nullity eps thresh s = nullity eps (limit m n eps thresh w) s := by
    rw [nullity, nullity, hte, threshold, if_pos hl]
  have hcard := nullity_card eps _ hl h
  obtain ⟨hsh0, hsh, hs⟩ := h.eq
  have hA' := hA.cut (limit m n eps thresh w)
  generalize limit m n eps thresh w = t at *
  set p : ℕ → Prop := fun k => w k ≤ t with hp
  have hR : ∃ d, nullBasis eps thresh s = .ret d ∧ (0 < (sel n p).length →
      Dense.Is d n (sel n p).length fun i q => V i ((sel n p).getD q 0)) ∧ ((sel n p).length = 0 → d.rows = 0 ∧ d.cols = 0) := by
    rw [nullBasis, hte, Outcome.bind_ret, hcard, Outcome.bind_ret]
    subst hs
    simp only [Dense.ofFn_rows, Dense.ofFn_cols]
    have hbody : ∀ o, ∀ j < n, (do
        let wj ← Outcome.index (tab n w) j
        if wj ≤ t then putCol n (Dense.ofFn n n V) j o else Outcome.ret o) =
        if p j then putCol n (Dense.ofFn n n V) j o else .ret o := fun o j hj => by rw [index_tab _ hj, Outcome.bind_ret]
    by_cases h0 : (sel n p).length = 0
    · rw [h0, new_zero_cols, Outcome.bind_ret]
      have hnp : ∀ j < n, ¬ p j := fun j hj hpj => by
        have := sel_mem (n := n) (p := p).2 ⟨hj, hpj⟩
        rw [List.length_eq_zero_iff.1 h0] at this
        simp at this
      obtain ⟨t', ht', rfl⟩ := forRange_rule (fun _ (o : Dense ℝ × ℕ) => o = (Dense.ofFn 0 0 (fun _ _ => 0), 0)) n
        (Dense.ofFn 0 0 (fun _ _ => 0), 0) (fun o j => do
          let wj ← Outcome.index (tab n w) j
          if wj ≤ t then putCol n (Dense.ofFn n n V) j o else Outcome.ret o) rfl
        (by rintro i o hi rfl; exact ⟨_, by rw [hbody _ i hi, if_neg (hnp i hi)], rfl⟩)
      rw [ht', Outcome.bind_ret]
      exact ⟨_, rfl, fun h => by omega, fun _ => ⟨rfl, rfl⟩⟩
    · have hle : (sel n p).length ≤ n := by rw [sel_card]; exact (Finset.card_filter_le _ _).trans (by simp)
      have hsh' := shape_sub hsh hle (by omega)
      rw [Dense.new_spec hsh', Outcome.bind_ret]
      obtain ⟨G, hG, hG'⟩ := pick_eq V (fun _ _ => 0) p _ hbody
      rw [hG, Outcome.bind_ret]
      refine ⟨_, rfl, fun _ => ?_, fun h => absurd h h0⟩
      rw [Dense.ofFn_congr (g := fun i q => V i ((sel n p).getD q 0)) hG']
      exact Dense.is_ofFn hsh' _
  obtain ⟨d, hd, hd1, hd2⟩ := hR
  refine ⟨d, _, _, hd, hrk.trans hcard, hd1, hd2, fun j hj k hk => ?_, fun z => ⟨fun hz => ?_, ?_⟩⟩
  · rw [hA.orthoV _ (sel_get hj).1 _ (sel_get hk).1]
    by_cases e : j = k
    · rw [if_pos (by rw [e]), if_pos e]
    · rw [if_neg (fun e' => e (sel_inj hj hk e')), if_neg e]
  · have hz' : ∑ k ∈ range n, ((if w k > t then w k else 0) * cV n V z k) ^ 2 = 0 := by
      rw [← norm_comb' _ (hA'.ortho_ne (cV n V z))]
      refine Finset.sum_eq_zero fun i hi => ?_
      rw [← hA'.apply z (mem_range.1 hi), hz i (mem_range.1 hi)]; ring
    have hk0 : ∀ k < n, w k > t → cV n V z k = 0 := fun k hk hw => by
      have := (Finset.sum_eq_zero_iff_of_nonneg (fun i _ => sq_nonneg _)).1 hz' k (mem_range.2 hk)
      rw [if_pos hw, pow_eq_zero_iff two_ne_zero, mul_eq_zero] at this
      exact this.resolve_left (lt_of_le_of_lt hl hw).ne'
    refine ⟨fun q => cV n V z ((sel n p).getD q 0), fun j hj => ?_⟩
    rw [sum_sel n p (fun k => V j k * cV n V z k), ← hA.expand z hj]
    refine Finset.sum_congr rfl fun k hk => ?_
    by_cases e : w k ≤ t
    · rw [if_pos e]
    · rw [if_neg e, hk0 k (mem_range.1 hk) (not_le.1 e), mul_zero]
  · rintro ⟨c, hc⟩ i hi
    have hk0 : ∀ k < n, w k > t → cV n V z k = 0 := fun k hk hw => by
      rw [cV]
      have : ∀ j ∈ range n, V j k * z j = ∑ q ∈ range (sel n p).length, V j k * V j ((sel n p).getD q 0) * c q := fun j hj => by
        rw [hc j (mem_range.1 hj), Finset.mul_sum]
        exact Finset.sum_congr rfl fun q _ => by ring
      rw [Finset.sum_congr rfl this, Finset.sum_comm]
      refine Finset.sum_eq_zero fun q hq => ?_
      obtain ⟨h1, h2⟩ := sel_get (mem_range.1 hq)
      rw [← Finset.sum_mul, hA.orthoV k hk _ h1, if_neg, zero_mul]
      intro e
      rw [← e] at h2
      exact absurd h2 (not_le.2 hw)
    rw [hA'.apply z hi]
    refine Finset.sum_eq_zero fun k hk => ?_
    by_cases e : w k > t
    · rw [hk0 k (mem_range.1 hk) e]; ring
    · rw [if_neg e]; ring

/-! ## A concrete case: `diag(2, 0)`, returned by `decompose` in ascending order -/

def exA (i j : ℕ) : ℝ := if i = 0 ∧ j = 0 then 2 else 0
def exQ (i j : ℕ) : ℝ := if i = j then 1 else 0
def exQ' (i j : ℕ) : ℝ := if i + j = 1 then 1 else 0
def exW (k : ℕ) : ℝ := if k = 0 then 2 else 0
def exW' (k : ℕ) : ℝ := if k = 1 then 2 else 0

theorem ex_isSVD : IsSVD 2 2 exA exQ exW exQ := by
  constructor
  · intro j hj k hk _ _; interval_cases j <;> interval_cases k <;> simp [exQ, Finset.sum_range_succ]
  · intro j hj k hk; interval_cases j <;> interval_cases k <;> simp [exQ, Finset.sum_range_succ]
  · intro j hj; interval_cases j <;> simp [exW]
  · intro i hi j hj; interval_cases i <;> interval_cases j <;> simp [exQ, exA, exW, Finset.sum_range_succ]

theorem ex_isSVD' : IsSVD 2 2 exA exQ' exW' exQ' := by
  constructor
  · intro j hj k hk _ _; interval_cases j <;> interval_cases k <;> simp [exQ', Finset.sum_range_succ]
  · intro j hj k hk; interval_cases j <;> interval_cases k <;> simp [exQ', Finset.sum_range_succ]
  · intro j hj; interval_cases j <;> simp [exW']
  · intro i hi j hj; interval_cases i <;> interval_cases j <;> simp [exQ', exA, exW', Finset.sum_range_succ]

theorem ex_shape : Dense.Shape 2 2 := by simp [Dense.Shape]

theorem ex_holds (U V : ℕ → ℕ → ℝ) (w : ℕ → ℝ) : Holds ⟨Dense.ofFn 2 2 U, tab 2 w, Dense.ofFn 2 2 V⟩ 2 2 U w V :=
  ⟨Dense.is_ofFn ex_shape _, rfl, Dense.is_ofFn ex_shape _⟩

example := new_spec (fun _ => .ret ⟨Dense.ofFn 2 2 exQ', tab 2 exW', Dense.ofFn 2 2 exQ'⟩) _ (Dense.is_ofFn ex_shape exA) (by norm_num) _ rfl
  (ex_holds _ _ _) ex_isSVD'

theorem ex_gap : ∀ k < 2, exW k = 0 ∨ exW k > limit 2 2 0 1 exW := by
  intro k hk
  have : limit 2 2 0 1 exW = 1 := by rw [limit, if_pos (by norm_num)]
  rw [this]
  interval_cases k <;> simp [exW]

example := rank_exact 0 1 le_rfl (by norm_num) (ex_holds _ _ _) ex_isSVD ex_gap
example := solve_spec 0 1 le_rfl (by norm_num) (ex_holds _ _ _) ex_isSVD (fun i => i)
example := solve_exact 0 1 le_rfl (by norm_num) (ex_holds _ _ _) ex_isSVD ex_gap (fun i => i)
example := range_spec 0 1 le_rfl (by norm_num) (ex_holds _ _ _) ex_isSVD
example := nullspace_spec 0 1 le_rfl (by norm_num) (ex_holds _ _ _) ex_isSVD
example := rank_spec 0 1 le_rfl (by norm_num) (ex_holds _ _ _) ex_isSVD
example := nullity_spec 0 1 (by norm_num) (ex_holds exQ exQ exW)
example := solve_dims 0 1 (ex_holds exQ exQ exW) [1, 2, 3] (by simp)

/-- A wide matrix, `(3 0)`, has a decomposition too; the second column of `U` is zero. -/
example : IsSVD 1 2 (fun _ j => if j = 0 then 3 else 0) (fun _ j => if j = 0 then 1 else 0) (fun k => if k = 0 then 3 else 0) exQ := by
  constructor
  · intro j hj k hk; interval_cases j <;> interval_cases k <;> simp
  · intro j hj k hk; interval_cases j <;> interval_cases k <;> simp [exQ, Finset.sum_range_succ]
  · intro j hj; interval_cases j <;> simp
  · intro i hi j hj; interval_cases j <;> simp [exQ, Finset.sum_range_succ]

/-- The identity: a full-rank system. -/
example : ∃ z : ℕ → ℝ, solve 0 (1 / 2) ⟨Dense.ofFn 2 2 exQ, tab 2 (fun _ => 1), Dense.ofFn 2 2 exQ⟩ (tab 2 fun i => i + 3) = .ret (tab 2 z) ∧
    z 1 = 4 := by
  refine ⟨fun i => i + 3, solve_system (A := exQ) 0 (1 / 2) le_rfl (by norm_num) (ex_holds _ _ _) ?_ ?_ _ _ ?_, by norm_num⟩
  · constructor
    · intro j hj k hk _ _; interval_cases j <;> interval_cases k <;> simp [exQ, Finset.sum_range_succ]
    · intro j hj k hk; interval_cases j <;> interval_cases k <;> simp [exQ, Finset.sum_range_succ]
    · intro j hj; norm_num
    · intro i hi j hj; interval_cases i <;> interval_cases j <;> simp [exQ, Finset.sum_range_succ]
  · intro k _
    rw [limit, if_pos (by norm_num)]; norm_num
  · intro i hi; interval_cases i <;> simp [exQ, Finset.sum_range_succ]

end Verif.LinAlg.SVD
