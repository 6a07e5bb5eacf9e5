import Verif.LinAlg.BandSolveLemmas

/-! # The band solver: the decomposition and the substitutions as a whole -/

set_option autoImplicit false

namespace Verif.LinAlg.BandLU

open Verif.Mat

variable {K : Type} [Field K] [LinearOrder K] [IsStrictOrderedRing K]

/-! ## The copying loop -/

theorem rowSum_le {n m1 mm : ℕ} (A : ℕ → ℕ → K) (i : ℕ) :
    ∑ j ∈ Finset.range mm, |copyF n m1 A i j| ≤ ∑ c ∈ Finset.range n, |A i c| := by
  have e : ∑ j ∈ Finset.range mm, |copyF n m1 A i j| =
      ∑ j ∈ (Finset.range mm).filter (fun j => m1 ≤ j + i ∧ j + i - m1 < n), |A i (j + i - m1)| := by
    rw [Finset.sum_filter]
    refine Finset.sum_congr rfl fun j _ => ?_
    rw [copyF]
    split
    · rfl
    · rw [abs_zero]
  rw [e, ← Finset.sum_image (f := fun c => |A i c|) (g := fun j => j + i - m1)]
  · refine Finset.sum_le_sum_of_subset_of_nonneg (fun c hc => ?_) fun _ _ _ => abs_nonneg _
    simp only [Finset.mem_image, Finset.mem_filter, Finset.mem_range] at hc ⊢
    omega
  · intro a ha b hb hab
    simp only [Finset.coe_filter, Finset.mem_range, Set.mem_setOf_eq] at ha hb hab
    omega

theorem le_rowSum {n m1 m2 : ℕ} (A : ℕ → ℕ → K) (hb : ∀ i < n, ∀ j < n, (i > j + m1 ∨ j > i + m2) → A i j = 0)
    {i c : ℕ} (hi : i < n) (hc : c < n) : |A i c| ≤ ∑ j ∈ Finset.range (m1 + m2 + 1), |copyF n m1 A i j| := by
  by_cases h : i > c + m1 ∨ c > i + m2
  · rw [hb i hi c hc h, abs_zero]
    exact Finset.sum_nonneg fun _ _ => abs_nonneg _
  · have := Finset.single_le_sum (f := fun j => |copyF n m1 A i j|) (s := Finset.range (m1 + m2 + 1)) (fun _ _ => abs_nonneg _)
      (Finset.mem_range.2 (show c + m1 - i < m1 + m2 + 1 by omega))
    refine le_trans (le_of_eq ?_) this
    simp only [copyF]
    rw [if_pos (by omega), show c + m1 - i + i - m1 = c by omega]

theorem copy_spec {n m1 m2 : ℕ} (a : Band K) (A : ℕ → ℕ → K) (ha : ∀ i < n, ∀ j < n, a.get i j = .ret (A i j))
    (hb : ∀ i < n, ∀ j < n, (i > j + m1 ∨ j > i + m2) → A i j = 0) :
    ∃ x, forRange n (Dense.ofFn n (m1 + m2 + 1) (fun _ _ => (0 : K)), (0 : K)) (copyRow a n m1 (m1 + m2 + 1)) =
        .ret (Dense.ofFn n (m1 + m2 + 1) (copyF n m1 A), x) ∧ 0 ≤ x ∧ (∀ i < n, ∀ c < n, |A i c| ≤ x) ∧
      ∀ N, 0 ≤ N → (∀ i < n, ∑ c ∈ Finset.range n, |A i c| ≤ N) → x ≤ N := by
  obtain ⟨⟨t, x⟩, ht, h1, h2, h3, h4⟩ := forRange_rule
    (fun k (s : Dense K × K) => s.1 = Dense.ofFn n (m1 + m2 + 1) (fun p q => if p < k then copyF n m1 A p q else 0) ∧
      0 ≤ s.2 ∧ (∀ i < k, ∀ c < n, |A i c| ≤ s.2) ∧
      ∀ N, 0 ≤ N → (∀ i < n, ∑ c ∈ Finset.range n, |A i c| ≤ N) → s.2 ≤ N)
    n (Dense.ofFn n (m1 + m2 + 1) (fun _ _ => (0 : K)), (0 : K)) (copyRow a n m1 (m1 + m2 + 1))
    ⟨by simp, le_rfl, fun i h => by omega, fun N h _ => h⟩
    (by
      rintro k ⟨t, x⟩ hk ⟨h1, h2, h3, h4⟩
      simp only at h1 h2 h3 h4
      subst h1
      refine ⟨_, copyRow_ofFn a A ha _ x hk, ?_, ?_, ?_, ?_⟩
      · dsimp only
        refine Dense.ofFn_congr fun p _ q _ => ?_
        by_cases hp : p = k
        · rw [if_pos hp, if_pos (by omega), hp]
        · rw [if_neg hp]
          by_cases h : p < k
          · rw [if_pos h, if_pos (by omega)]
          · rw [if_neg h, if_neg (by omega)]
      · simp only
        split
        · exact Finset.sum_nonneg fun _ _ => abs_nonneg _
        · exact h2
      · intro i hi c hc
        simp only
        rcases Nat.lt_succ_iff_lt_or_eq.1 hi with h | rfl
        · split
          · exact (h3 i h c hc).trans (le_of_lt ‹_›)
          · exact h3 i h c hc
        · split
          · exact le_rowSum A hb hk hc
          · exact (le_rowSum A hb hk hc).trans (not_lt.1 ‹_›)
      · intro N hN hrow
        simp only
        split
        · exact (rowSum_le A k).trans (hrow k hk)
        · exact h4 N hN hrow)
  simp only at h1 h2 h3 h4
  subst h1
  refine ⟨x, ?_, h2, h3, h4⟩
  rw [ht]
  congr 2
  exact Dense.ofFn_congr fun p hp q _ => by rw [if_pos hp]

/-! ## The decomposition loop -/

/-- A pivot column of small elements gives a small combination of the columns. -/
theorem Inv.near {n m1 mm k : ℕ} {A f g : ℕ → ℕ → K} {ix : ℕ → ℕ} {d : K} (h : Inv n m1 mm A k f g ix d) (hmm : 0 < mm)
    (hk : k < n) (thr : K) (hthr : 0 < thr) (hsmall : ∀ r, k ≤ r → r < min n (m1 + k + 1) → |f r 0| < thr) :
    LU.ColNear n A thr := by
  have hoff : ∀ t < k, off m1 k t = t := fun t ht => by rw [off, if_pos ht]
  have hW0 : ∀ t < k, ∀ c < t, W mm m1 k f t c = 0 := fun t ht c hc => by
    rw [W, hoff t ht, if_neg (by omega)]
  have hWr : ∀ r, k ≤ r → ∀ c < k, W mm m1 k f r c = 0 := fun r hr c hc => by
    rw [W, if_neg]
    rw [off, if_neg (by omega)]
    omega
  obtain ⟨y, hy⟩ := LU.exists_upper k (W mm m1 k f) (fun t ht => by
    rw [W, hoff t ht, if_pos (by omega), Nat.sub_self]; exact h.diag t ht) (fun t => - W mm m1 k f t k)
  let v : ℕ → K := fun c => if c < k then y c else if c = k then 1 else 0
  have hU : ∀ g : ℕ → K, ∑ c ∈ Finset.range n, g c * v c = (∑ c ∈ Finset.range k, g c * y c) + g k := by
    intro g
    rw [← Finset.sum_range_add_sum_Ico _ (show k + 1 ≤ n by omega), Finset.sum_range_succ]
    rw [Finset.sum_eq_zero (s := Finset.Ico (k + 1) n) fun c hc => by
      have := Finset.mem_Ico.1 hc
      simp only [v]
      rw [if_neg (by omega), if_neg (by omega), mul_zero], add_zero]
    congr 1
    · refine Finset.sum_congr rfl fun c hc => ?_
      simp only [v]
      rw [if_pos (Finset.mem_range.1 hc)]
    · simp [v]
  have hres : ∀ r < n, ∑ c ∈ Finset.range n, W mm m1 k f r c * v c = if r < k then 0 else W mm m1 k f r k := by
    intro r _
    rw [hU]
    by_cases hr : r < k
    · rw [if_pos hr]
      have := hy r hr
      rw [Finset.sum_congr rfl (g := fun c => W mm m1 k f r c * y c) fun c _ => by
        by_cases hc : r ≤ c
        · rw [if_pos hc]
        · rw [if_neg hc, hW0 r hr c (by omega)]] at this
      rw [this]; ring
    · rw [if_neg hr, Finset.sum_eq_zero fun c hc => by
        rw [hWr r (by omega) c (Finset.mem_range.1 hc), zero_mul], zero_add]
  obtain ⟨b, hb1, hb2⟩ := T_inverse (m1 := m1) g ix k hk.le (fun t ht => ⟨(h.piv t ht).1, by have := (h.piv t ht).2; omega⟩)
    (fun r => if r < k then 0 else W mm m1 k f r k) (fun r hr => if_pos hr)
  have hsol := h.solve v b (fun r hr => by rw [hres r hr, hb1 r hr])
  refine ⟨v, ⟨k, hk, by simp [v]⟩, fun r hr => ?_⟩
  rw [hsol r hr]
  obtain ⟨r', hr', e⟩ := hb2 r hr
  rw [e]
  split
  · rw [abs_zero]; exact hthr
  · rw [W]
    split
    · rename_i h1 h2
      rw [off, if_neg (by omega)] at h2
      have h3 : off m1 k r' = k := by rw [off, if_neg (by omega)]; omega
      rw [h3, Nat.sub_self]
      exact hsmall r' (by omega) (by omega)
    · rw [abs_zero]; exact hthr

/-- The state between two rounds. -/
def State (n m1 m2 N : ℕ) (A : ℕ → ℕ → K) (k : ℕ) (s : BandLU K × ℕ) : Prop :=
  ∃ (f g : ℕ → ℕ → K) (jx : ℕ → ℕ) (d : K),
    s = (⟨n, m1, m2, Dense.ofFn n (m1 + m2 + 1) f, Dense.ofFn N m1 g, tab n jx, d⟩, min n (m1 + k)) ∧
    Inv n m1 (m1 + m2 + 1) A k f g (fun t => jx t - 1) d

theorem step_sat {n m1 m2 N : ℕ} (A : ℕ → ℕ → K) (hN : m1 ≠ 0 → N = n) (thr : K) (hthr : 0 < thr) (E : Exn → Prop)
    (hE : LU.ColNear n A thr → E (.mml "SingularMatrixError")) (k : ℕ) (hk : k < n) (s : BandLU K × ℕ)
    (hs : State n m1 m2 N A k s) :
    (step n (m1 + m2 + 1) thr s k).Sat (State n m1 m2 N A (k + 1)) E := by
  obtain ⟨f, g, jx, d, rfl, hinv⟩ := hs
  have hl : (if min n (m1 + k) < n then min n (m1 + k) + 1 else min n (m1 + k)) = min n (m1 + k + 1) := by
    split <;> omega
  obtain ⟨i, hi, hki, hil, hmax⟩ := pivot_spec (n := n) (mm := m1 + m2 + 1) (k := k) (l := min n (m1 + k + 1)) f (by omega)
    (by omega) (by omega)
  rw [step]
  simp only
  rw [Dense.get_ofFn _ hk (by omega), Outcome.bind_ret, hl, hi, Outcome.bind_ret]
  simp only
  rw [store_tab _ hk, Outcome.bind_ret]
  by_cases hsmall : |f i 0| < thr
  · rw [if_pos hsmall]
    exact hE (hinv.near (by omega) hk thr hthr fun r h1 h2 => (hmax r h1 h2).trans_lt hsmall)
  rw [if_neg hsmall]
  have hp : f i 0 ≠ 0 := by
    intro h0
    rw [h0, abs_zero] at hsmall
    exact hsmall hthr
  have hsw : exchange (m1 + m2 + 1) k i (Dense.ofFn n (m1 + m2 + 1) f) =
      .ret (Dense.ofFn n (m1 + m2 + 1) (fun p q => f (Equiv.swap k i p) q)) := by
    rw [← swapRowsIf_ofFn f hk (by omega), swapRowsIf, exchange]
    by_cases hik : i = k
    · subst hik; simp
    · rw [if_pos hik, if_pos (fun h => hik h.symm)]; rfl
  rw [hsw, Outcome.bind_ret, elim_ofFn _ _ (by omega) hk (by omega) (by omega) (by omega)
    (fun h => by rw [hN (by omega)]; exact hk) (by simp only [Equiv.swap_apply_left]; exact hp), Outcome.bind_ret]
  simp only [Equiv.swap_apply_left]
  refine ⟨_, _, _, _, rfl, ?_⟩
  have := hinv.step (by omega) hk hki hil hp
  have e : (fun t => (if t = k then i + 1 else jx t) - 1) = fun t => if t = k then i else jx t - 1 := by
    funext t; split <;> rfl
  rw [e]
  exact this

/-- A decomposition of `A`. -/
def Decomp (n m1 m2 : ℕ) (A : ℕ → ℕ → K) (s : BandLU K) : Prop :=
  ∃ (f g : ℕ → ℕ → K) (N : ℕ) (jx : ℕ → ℕ) (d : K), (m1 ≠ 0 → N = n) ∧
    s = ⟨n, m1, m2, Dense.ofFn n (m1 + m2 + 1) f, Dense.ofFn N m1 g, tab n jx, d⟩ ∧
    Inv n m1 (m1 + m2 + 1) A n f g (fun t => jx t - 1) d

/-- The constructor up to the rearrangement. -/
theorem new_copied {n m1 m2 : ℕ} (eps : K) (data : Dense K) (A : ℕ → ℕ → K)
    (ha : ∀ i < n, ∀ j < n, (⟨n, m1, m2, data⟩ : Band K).get i j = .ret (A i j))
    (hsh : Dense.Shape n (m1 + m2 + 1)) :
    ∃ x N, (m1 ≠ 0 → N = n) ∧ 0 ≤ x ∧ (∀ i < n, ∀ c < n, |A i c| ≤ x) ∧
      (∀ M, 0 ≤ M → (∀ i < n, ∑ c ∈ Finset.range n, |A i c| ≤ M) → x ≤ M) ∧
      new eps ⟨n, m1, m2, data⟩ = (do
        let sh ← forRange m1 (Dense.ofFn n (m1 + m2 + 1) (copyF n m1 A), m1) (shiftRow m1 (m1 + m2 + 1))
        let s ← forRange n ((⟨n, m1, m2, sh.1, Dense.ofFn N m1 (fun _ _ => 0), tab n (fun _ => 0), 1⟩ : BandLU K), m1)
          (step n (m1 + m2 + 1) (eps * x * n))
        .ret s.1) := by
  have hb : ∀ i < n, ∀ j < n, (i > j + m1 ∨ j > i + m2) → A i j = 0 := by
    intro i hi j hj h
    have := ha i hi j hj
    rw [Band.get, if_pos h] at this
    exact (Outcome.ret.inj this).symm
  obtain ⟨x, hx, h0, h1, h2⟩ := copy_spec (n := n) (m1 := m1) (m2 := m2) ⟨n, m1, m2, data⟩ A ha hb
  obtain ⟨N, hN, hal⟩ : ∃ N, (m1 ≠ 0 → N = n) ∧
      (Dense.new (n : ℤ) (m1 : ℤ) : Outcome (Dense K)) = .ret (Dense.ofFn N m1 (fun _ _ => 0)) := by
    by_cases h : m1 = 0
    · refine ⟨0, fun h' => absurd h h', ?_⟩
      subst h
      simp [Dense.new, Dense.newFill, Dense.ofFn, tab]
    · refine ⟨n, fun _ => rfl, Dense.new_spec (Or.inr ?_)⟩
      rcases hsh with h3 | ⟨h3, h4, h5, h6, h7⟩
      · omega
      · refine ⟨h3, by omega, h5, by omega, le_trans (Nat.mul_le_mul_left _ (by omega)) h7⟩
  refine ⟨x, N, hN, h0, h1, h2, ?_⟩
  rw [new]
  simp only
  have hau := Dense.new_spec (K := K) hsh
  rw [hau, Outcome.bind_ret, hal, Outcome.bind_ret, hx, Outcome.bind_ret]
  simp only
  rw [replicate_eq_tab]

/-- The constructor up to the decomposition. -/
theorem new_eq {n m1 m2 : ℕ} (eps : K) (data : Dense K) (A : ℕ → ℕ → K)
    (ha : ∀ i < n, ∀ j < n, (⟨n, m1, m2, data⟩ : Band K).get i j = .ret (A i j))
    (hsh : Dense.Shape n (m1 + m2 + 1)) (hm : m1 ≤ n) :
    ∃ x N, (m1 ≠ 0 → N = n) ∧ 0 ≤ x ∧ (∀ i < n, ∀ c < n, |A i c| ≤ x) ∧
      (∀ M, 0 ≤ M → (∀ i < n, ∑ c ∈ Finset.range n, |A i c| ≤ M) → x ≤ M) ∧
      new eps ⟨n, m1, m2, data⟩ = (do
        let s ← forRange n ((⟨n, m1, m2, Dense.ofFn n (m1 + m2 + 1) (startF n m1 m2 A), Dense.ofFn N m1 (fun _ _ => 0),
          tab n (fun _ => 0), 1⟩ : BandLU K), m1) (step n (m1 + m2 + 1) (eps * x * n))
        .ret s.1) := by
  obtain ⟨x, N, hN, h0, h1, h2, e⟩ := new_copied eps data A ha hsh
  refine ⟨x, N, hN, h0, h1, h2, ?_⟩
  rw [e, shift_ofFn hm, Outcome.bind_ret]

/-- With more subdiagonals than rows the rearrangement leaves the storage. -/
theorem new_wide {n m1 m2 : ℕ} (eps : K) (data : Dense K) (A : ℕ → ℕ → K)
    (ha : ∀ i < n, ∀ j < n, (⟨n, m1, m2, data⟩ : Band K).get i j = .ret (A i j))
    (hsh : Dense.Shape n (m1 + m2 + 1)) (hm : n < m1) : new eps ⟨n, m1, m2, data⟩ = .ub := by
  obtain ⟨x, N, _, _, _, _, e⟩ := new_copied eps data A ha hsh
  rw [e, forRange_ub (fun k (s : Dense K × ℕ) => ∃ f, s = (Dense.ofFn n (m1 + m2 + 1) f, m1 - k)) m1 n hm _ _
    ⟨copyF n m1 A, by simp⟩ ?_ ?_, Outcome.bind_ub]
  · rintro k _ hk ⟨f, rfl⟩
    exact ⟨_, shiftRow_ofFn f hk (by omega), _, rfl⟩
  · rintro _ ⟨f, rfl⟩
    rw [shiftRow]
    simp only
    rw [forFromTo_ub (fun _ m => m = Dense.ofFn n (m1 + m2 + 1) f) _ _ (m1 - n) le_rfl (by omega) _ _ rfl
      (fun i t h1 h2 => by omega) (by rintro _ rfl; rw [Dense.get_ofFn_ub_row f le_rfl, Outcome.bind_ub]),
      Outcome.bind_ub]

/-- The zero matrix has threshold zero. -/
theorem new_zero {n m1 m2 : ℕ} (eps : K) (data : Dense K)
    (ha : ∀ i < n, ∀ j < n, (⟨n, m1, m2, data⟩ : Band K).get i j = .ret 0)
    (hsh : Dense.Shape n (m1 + m2 + 1)) (hm : m1 ≤ n) (h1 : 0 < m1) (h2 : 2 ≤ n) : new eps ⟨n, m1, m2, data⟩ = .ub := by
  obtain ⟨x, N, hN, hx0, _, hxle, e⟩ := new_eq eps data (fun _ _ => 0) ha hsh hm
  have hx : x = 0 := le_antisymm (hxle 0 le_rfl fun i _ => by simp) hx0
  have hN' := hN (by omega)
  subst hN'
  rw [e, forRange_ub (fun k s => k = 0 → s = _) N 0 (by omega) _ _ (fun _ => rfl) (fun i t hi => by omega) ?_,
    Outcome.bind_ub]
  intro t ht
  rw [ht rfl, hx, mul_zero, zero_mul]
  have hs : startF N m1 m2 (fun _ _ => (0 : K)) = fun _ _ => 0 := by
    funext i j
    simp [startF, copyF]
  have hl : (if m1 < N then m1 + 1 else m1) = min N (m1 + 1) := by split <;> omega
  obtain ⟨i, hi, _, hil, _⟩ := pivot_spec (K := K) (n := N) (mm := m1 + m2 + 1) (k := 0) (l := min N (m1 + 1))
    (fun _ _ => 0) (by omega) (by omega) (by omega)
  rw [step]
  simp only [hs]
  rw [Dense.get_ofFn _ (by omega) (by omega), Outcome.bind_ret, hl, hi, Outcome.bind_ret]
  simp only
  rw [store_tab _ (by omega), Outcome.bind_ret, if_neg (by simp)]
  have hsw : exchange (m1 + m2 + 1) 0 i (Dense.ofFn N (m1 + m2 + 1) (fun _ _ => (0 : K))) =
      .ret (Dense.ofFn N (m1 + m2 + 1) (fun _ _ => 0)) := by
    have := swapRowsIf_ofFn (c := m1 + m2 + 1) (fun _ _ => (0 : K)) (show 0 < N by omega) (show i < N by omega)
    rw [← this, swapRowsIf, exchange]
    by_cases hik : i = 0
    · subst hik; simp
    · rw [if_pos hik, if_pos (fun h => hik h.symm)]; rfl
  rw [hsw, Outcome.bind_ret, forFromTo_ub (fun k s => k = 0 + 1 → s = _) _ _ (0 + 1) le_rfl (by omega) _ _ (fun _ => rfl)
    (fun i t h1 h2 => by omega) ?_, Outcome.bind_ub]
  intro t ht
  rw [ht rfl, elimStep]
  simp only
  rw [Dense.get_ofFn _ (by omega) (by omega), Outcome.bind_ret, Dense.get_ofFn _ (by omega) (by omega), Outcome.bind_ret,
    divU, if_pos rfl, Outcome.bind_ub]

theorem new_sat {n m1 m2 : ℕ} (eps : K) (heps : 0 < eps) (data : Dense K) (A : ℕ → ℕ → K)
    (ha : ∀ i < n, ∀ j < n, (⟨n, m1, m2, data⟩ : Band K).get i j = .ret (A i j))
    (hsh : Dense.Shape n (m1 + m2 + 1)) (hm : m1 ≤ n) (hA : ∃ i < n, ∃ j < n, A i j ≠ 0) (E : Exn → Prop)
    (hE : (∀ M, (∀ i < n, ∑ c ∈ Finset.range n, |A i c| ≤ M) → LU.ColNear n A (eps * M * n)) →
      E (.mml "SingularMatrixError")) :
    (new eps ⟨n, m1, m2, data⟩).Sat (Decomp n m1 m2 A) E := by
  have hb : ∀ i < n, ∀ j < n, (i > j + m1 ∨ j > i + m2) → A i j = 0 := by
    intro i hi j hj h
    have := ha i hi j hj
    rw [Band.get, if_pos h] at this
    exact (Outcome.ret.inj this).symm
  obtain ⟨x, N, hN, h0, h1, h2, e⟩ := new_eq eps data A ha hsh hm
  obtain ⟨i, hi, j, hj, hne⟩ := hA
  have hx : 0 < x := (abs_pos.2 hne).trans_le (h1 i hi j hj)
  have hn' : (0 : K) < n := by
    have : 0 < n := by omega
    exact_mod_cast this
  rw [e]
  refine (forRange_sat (State n m1 m2 N A) E n _ _ ?_
    (fun k s hk hs => step_sat A hN _ (mul_pos (mul_pos heps hx) hn') E ?_ k hk s hs)).bind ?_
  · exact ⟨_, _, _, _, by rw [show min n (m1 + 0) = m1 by omega], Inv.start A hb _ _⟩
  · rintro ⟨v, hv1, hv⟩
    refine hE fun M hM => ⟨v, hv1, fun r hr => (hv r hr).trans_le ?_⟩
    have hM0 : 0 ≤ M := (Finset.sum_nonneg fun _ _ => abs_nonneg _).trans (hM i hi)
    exact mul_le_mul_of_nonneg_right (mul_le_mul_of_nonneg_left (h2 M hM0 hM) heps.le) hn'.le
  · rintro s ⟨f, g, jx, d, rfl, hinv⟩
    exact ⟨f, g, N, jx, d, hN, rfl, hinv⟩

/-! ## The substitutions -/

theorem forward_spec {n m1 m2 N : ℕ} (au : Dense K) (g : ℕ → ℕ → K) (jx : ℕ → ℕ) (d : K) (hN : m1 ≠ 0 → N = n)
    (hm : m1 ≤ n) (hix : ∀ t < n, t ≤ jx t - 1 ∧ jx t - 1 < min n (m1 + t + 1)) (b : ℕ → K) :
    ∃ l, forRange n (tab n b, m1) (forwardStep ⟨n, m1, m2, au, Dense.ofFn N m1 g, tab n jx, d⟩) =
      .ret (tab n (T n m1 g (fun t => jx t - 1) n b), l) := by
  obtain ⟨t, ht, rfl⟩ := forRange_rule
    (fun k (s : List K × ℕ) => s = (tab n (T n m1 g (fun t => jx t - 1) k b), min n (m1 + k))) n (tab n b, m1)
    (forwardStep ⟨n, m1, m2, au, Dense.ofFn N m1 g, tab n jx, d⟩)
    (by rw [show min n (m1 + 0) = m1 by omega]; rfl)
    (by
      rintro k _ hk rfl
      obtain ⟨h1, h2⟩ := hix k hk
      have hl : (if min n (m1 + k) < n then min n (m1 + k) + 1 else min n (m1 + k)) = min n (m1 + k + 1) := by
        split <;> omega
      generalize hu : T n m1 g (fun t => jx t - 1) k b = u
      have hsw : exchangeRhs (tab n u) k (jx k - 1) = .ret (tab n fun r => u (Equiv.swap k (jx k - 1) r)) := by
        rw [exchangeRhs]
        by_cases h : jx k - 1 = k
        · rw [if_neg (by omega), h]; simp
        · rw [if_pos h, index_tab _ hk, Outcome.bind_ret, index_tab _ (by omega), Outcome.bind_ret, store_tab _ hk,
            Outcome.bind_ret, store_tab _ (by omega)]
          congr 1
          refine tab_congr fun r _ => ?_
          rw [Equiv.swap_apply_def]
          by_cases h3 : r = k
          · rw [if_pos h3, if_neg (by omega), if_pos h3]
          · rw [if_neg h3, if_neg h3]
            split <;> rfl
      rw [forwardStep]
      simp only
      rw [index_tab _ hk, Outcome.bind_ret, hsw, Outcome.bind_ret, hl]
      obtain ⟨t, ht, rfl⟩ := forFromTo_rule
        (fun j (v : List K) => v = tab n (fun r => if k < r ∧ r < j then
            u (Equiv.swap k (jx k - 1) r) - g k (r - k - 1) * u (Equiv.swap k (jx k - 1) k)
          else u (Equiv.swap k (jx k - 1) r)))
        (k + 1) (min n (m1 + k + 1)) (by omega) (tab n fun r => u (Equiv.swap k (jx k - 1) r))
        (fun x j2 => do
          let y ← Outcome.index x j2
          let m ← (Dense.ofFn N m1 g).get k (j2 - k - 1)
          let z ← Outcome.index x k
          Outcome.store x j2 (y - m * z))
        (tab_congr fun r _ => by rw [if_neg (by omega)])
        (by
          rintro j _ hj1 hj2 rfl
          have : N = n := hN (by omega)
          refine ⟨_, by
            rw [index_tab _ (by omega), Outcome.bind_ret, Dense.get_ofFn _ (by omega) (by omega), Outcome.bind_ret,
              index_tab _ hk, Outcome.bind_ret, store_tab _ (by omega)], ?_⟩
          refine tab_congr fun r _ => ?_
          by_cases hr : r = j
          · subst hr
            simp only [if_true, Nat.lt_irrefl, and_false, false_and, if_false]
            rw [if_pos (by omega)]
          · rw [if_neg hr]
            by_cases h3 : k < r ∧ r < j
            · rw [if_pos h3, if_pos (by omega)]
            · rw [if_neg h3, if_neg (by omega)])
      refine ⟨_, by rw [ht, Outcome.bind_ret], ?_⟩
      refine pairEq (tab_congr fun r _ => ?_) rfl
      simp only [T, hu])
  exact ⟨_, ht⟩

omit [IsStrictOrderedRing K] [LinearOrder K] in
theorem W_row {mm m1 n : ℕ} (f : ℕ → ℕ → K) (x : ℕ → K) {r : ℕ} (hr : r < n) :
    ∑ c ∈ Finset.range n, W mm m1 n f r c * x c = ∑ k ∈ Finset.range (min mm (n - r)), f r k * x (k + r) := by
  have hoff : off m1 n r = r := by rw [off, if_pos hr]
  rw [← Finset.sum_range_add_sum_Ico _ hr.le, Finset.sum_eq_zero fun c hc => by
    have := Finset.mem_range.1 hc
    rw [W, hoff, if_neg (by omega), zero_mul], zero_add, Finset.sum_Ico_eq_sum_range]
  symm
  refine Finset.sum_subset_zero_on_sdiff (fun t ht => ?_) (fun t ht => ?_) (fun t ht => ?_)
  · simp only [Finset.mem_range] at ht ⊢; omega
  · simp only [Finset.mem_sdiff, Finset.mem_range] at ht
    rw [W, hoff, if_neg (by omega), zero_mul]
  · have := Finset.mem_range.1 ht
    rw [W, hoff, if_pos (by omega), show r + t - r = t by omega, add_comm r t]

theorem back_spec {n m1 m2 : ℕ} (f : ℕ → ℕ → K) (al : Dense K) (indx : List ℕ) (d : K) (hd : ∀ t < n, f t 0 ≠ 0)
    (y : ℕ → K) :
    ∃ x l, forDown 0 n (tab n y, 1) (backStep ⟨n, m1, m2, Dense.ofFn n (m1 + m2 + 1) f, al, indx, d⟩ (m1 + m2 + 1)) =
        .ret (tab n x, l) ∧
      ∀ r < n, ∑ k ∈ Finset.range (min (m1 + m2 + 1) (n - r)), f r k * x (k + r) = y r := by
  obtain ⟨t, ht, x, rfl, _, h2⟩ := forDown_rule
    (fun i (s : List K × ℕ) => ∃ x : ℕ → K, s = (tab n x, min (m1 + m2 + 1) (n - i + 1)) ∧ (∀ r < i, x r = y r) ∧
      ∀ r, i ≤ r → r < n → ∑ k ∈ Finset.range (min (m1 + m2 + 1) (n - r)), f r k * x (k + r) = y r)
    0 n (by omega) (tab n y, 1) (backStep ⟨n, m1, m2, Dense.ofFn n (m1 + m2 + 1) f, al, indx, d⟩ (m1 + m2 + 1))
    ⟨y, pairEq rfl (by omega), fun _ _ => rfl, fun r h1 h2 => by omega⟩
    (by
      rintro i _ _ hi ⟨x, rfl, h1, h2⟩
      have hl : min (m1 + m2 + 1) (n - (i + 1) + 1) = min (m1 + m2 + 1) (n - i) := by omega
      have hl2 : (if min (m1 + m2 + 1) (n - i) < m1 + m2 + 1 then min (m1 + m2 + 1) (n - i) + 1
          else min (m1 + m2 + 1) (n - i)) = min (m1 + m2 + 1) (n - i + 1) := by split <;> omega
      refine ⟨_, by
        rw [backStep]
        simp only
        rw [index_tab _ hi, Outcome.bind_ret, hl, forFromTo_sum 1 _ _ _ (fun k => - (f i k * x (k + i))) (by
          intro j h4 h5 s
          rw [Dense.get_ofFn _ hi (by omega), Outcome.bind_ret, index_tab _ (by omega), Outcome.bind_ret,
            sub_eq_add_neg]), Outcome.bind_ret, Dense.get_ofFn _ hi (by omega), Outcome.bind_ret, divU, if_neg (hd i hi),
          Outcome.bind_ret, store_tab _ hi, Outcome.bind_ret, hl2], _, rfl, fun r hr => ?_, fun r hr hrn => ?_⟩
      · rw [if_neg (by omega)]; exact h1 r (by omega)
      · by_cases hri : r = i
        · subst hri
          rw [← Finset.sum_range_add_sum_Ico _ (show 1 ≤ min (m1 + m2 + 1) (n - r) by omega), Finset.sum_range_one,
            Nat.zero_add, if_pos rfl, mul_div_cancel₀ _ (hd r hrn), h1 r (by omega), Finset.sum_neg_distrib]
          have : ∑ k ∈ Finset.Ico 1 (min (m1 + m2 + 1) (n - r)), f r k * (if k + r = r then
              (y r + -∑ i ∈ Finset.Ico 1 (min (m1 + m2 + 1) (n - r)), f r i * x (i + r)) / f r 0 else x (k + r)) =
              ∑ k ∈ Finset.Ico 1 (min (m1 + m2 + 1) (n - r)), f r k * x (k + r) :=
            Finset.sum_congr rfl fun k hk => by
              have := Finset.mem_Ico.1 hk
              rw [if_neg (by omega)]
          rw [this]
          ring
        · rw [← h2 r (by omega) hrn]
          exact Finset.sum_congr rfl fun k hk => by rw [if_neg (by omega)])
  exact ⟨x, _, ht, fun r hr => h2 r (by omega) hr⟩

theorem solveInto_spec {n m1 m2 : ℕ} {A : ℕ → ℕ → K} {s : BandLU K} (hm : m1 ≤ n) (h : Decomp n m1 m2 A s) (b x0 : ℕ → K) :
    ∃ x, solveInto s (tab n b) (tab n x0) = .ret (true, tab n x) ∧ ∀ r < n, ∑ c ∈ Finset.range n, A r c * x c = b r := by
  obtain ⟨f, g, N, jx, d, hN, rfl, hinv⟩ := h
  obtain ⟨l, hl⟩ := forward_spec (m2 := m2) (Dense.ofFn n (m1 + m2 + 1) f) g jx d hN hm hinv.piv b
  obtain ⟨x, l', hx, hx'⟩ := back_spec (m1 := m1) (m2 := m2) f (Dense.ofFn N m1 g) (tab n jx) d hinv.diag
    (T n m1 g (fun t => jx t - 1) n b)
  refine ⟨x, ?_, hinv.solve x b fun r hr => ?_⟩
  · rw [solveInto, if_neg (by simp)]
    simp only
    rw [hl, Outcome.bind_ret]
    simp only
    rw [hx, Outcome.bind_ret]
  · rw [W_row f x hr, hx' r hr]

theorem solveM_spec {n m1 m2 m : ℕ} {A : ℕ → ℕ → K} {s : BandLU K} (hm : m1 ≤ n) (h : Decomp n m1 m2 A s)
    (B g0 : ℕ → ℕ → K) :
    ∃ X v, forRange m (Dense.ofFn n m g0, List.replicate n (0 : K)) (solveColumn s (Dense.ofFn n m B)) =
        .ret (Dense.ofFn n m X, v) ∧
      ∀ r < n, ∀ c < m, ∑ k ∈ Finset.range n, A r k * X k c = B r c := by
  have hsn : s.n = n := by obtain ⟨f, g, N, jx, d, hN, rfl, hinv⟩ := h; rfl
  obtain ⟨⟨t, v⟩, ht, X, h0, h1, h2⟩ := forRange_rule
    (fun j (s : Dense K × List K) => ∃ X : ℕ → ℕ → K, s.1 = Dense.ofFn n m X ∧ (∃ x, s.2 = tab n x) ∧
      ∀ r < n, ∀ c < j, ∑ k ∈ Finset.range n, A r k * X k c = B r c)
    m (Dense.ofFn n m g0, List.replicate n (0 : K)) (solveColumn s (Dense.ofFn n m B))
    ⟨g0, rfl, ⟨_, replicate_eq_tab n 0⟩, fun r _ c hc => by omega⟩
    (by
      rintro j ⟨t, v⟩ hj ⟨X, h0, ⟨x0, h1⟩, h2⟩
      simp only at h0 h1
      subst h0 h1
      obtain ⟨x, hx, hx'⟩ := solveInto_spec hm h (fun i => B i j) x0
      have e : tab n (fun k => if k < n then B k j else 0) = tab n (fun i => B i j) :=
        tab_congr fun i hi => by rw [if_pos hi]
      refine ⟨_, by
        rw [solveColumn, hsn, replicate_eq_tab, forRange_fill n n le_rfl _ (fun i => B i j) _ (by
          intro i hi r
          rw [Dense.get_ofFn _ hi hj, Outcome.bind_ret]), Outcome.bind_ret, e]
        simp only
        rw [hx, Outcome.bind_ret]
        simp only
        rw [Dense.forRange_rowOfT j n X x hj le_rfl _ (fun i hi m => by rw [index_tab _ hi, Outcome.bind_ret]),
          Outcome.bind_ret], fun p q => if q = j ∧ p < n then x p else X p q, rfl, ⟨x, rfl⟩, fun r hr c hc => ?_⟩
      by_cases hcj : c = j
      · subst hcj
        rw [← hx' r hr]
        refine Finset.sum_congr rfl fun k hk => ?_
        beta_reduce
        rw [if_pos ⟨rfl, Finset.mem_range.1 hk⟩]
      · simp only [hcj, false_and, if_false]
        exact h2 r hr c (by omega))
  simp only at h0
  subst h0
  exact ⟨X, v, ht, h2⟩

theorem det_spec {n m1 m2 : ℕ} {A : ℕ → ℕ → K} {s : BandLU K} (h : Decomp n m1 m2 A s) :
    s.det = .ret (Matrix.det (Matrix.of fun i j : Fin n => A i j)) := by
  obtain ⟨f, g, N, jx, d, hN, rfl, hinv⟩ := h
  have e1 : det ⟨n, m1, m2, Dense.ofFn n (m1 + m2 + 1) f, Dense.ofFn N m1 g, tab n jx, d⟩ =
      .ret (d * ∏ i ∈ Finset.range n, f i 0) := by
    rw [det]
    simp only
    obtain ⟨t, ht, rfl⟩ := forRange_rule (fun k (x : K) => x = d * ∏ i ∈ Finset.range k, f i 0) n d
      (fun dd i => do
        let x ← (Dense.ofFn n (m1 + m2 + 1) f).get i 0
        .ret (dd * x))
      (by simp)
      (by
        rintro k _ hk rfl
        exact ⟨_, by rw [Dense.get_ofFn _ hk (by omega), Outcome.bind_ret], by rw [Finset.prod_range_succ, mul_assoc]⟩)
    exact ht
  rw [e1]
  congr 1
  have hU : Matrix.det (Matrix.of fun i j : Fin n => W (m1 + m2 + 1) m1 n f i j) = ∏ i ∈ Finset.range n, f i 0 := by
    rw [Matrix.det_of_upperTriangular, ← Fin.prod_univ_eq_prod_range (fun i => f i 0) n]
    · refine Finset.prod_congr rfl fun i _ => ?_
      rw [Matrix.of_apply, W, off, if_pos i.2, if_pos (by omega), Nat.sub_self]
    · intro i j hij
      rw [Matrix.of_apply, W, off, if_pos i.2, if_neg]
      have : (j : ℕ) < i := hij
      omega
  rw [← hU, hinv.det, ← mul_assoc, hinv.sq, one_mul]

end Verif.LinAlg.BandLU
