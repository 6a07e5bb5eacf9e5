import Verif.LinAlg.QR
import Verif.LinAlg.QRRefl
import Verif.LinAlg.LUSolve
import Verif.LoopLemmas
import Verif.Mat.DenseMore

/-! # Helper lemmas: the loops of the QR solver and the invariant of the reduction -/

set_option autoImplicit false

namespace Verif.LinAlg.QR

open Verif.Mat Finset

/-- Column `k` from the diagonal down. -/
noncomputable def V (f : ℕ → ℕ → ℝ) (k i : ℕ) : ℝ := if k ≤ i then f i k else 0

/-- Column `j` of `R`. -/
noncomputable def R (f : ℕ → ℕ → ℝ) (d : ℕ → ℝ) (j i : ℕ) : ℝ := if i < j then f i j else if i = j then d j else 0

theorem sum_V (f : ℕ → ℕ → ℝ) {k m : ℕ} (hk : k ≤ m) (x : ℕ → ℝ) :
    ∑ i ∈ Ico k m, f i k * x i = dot m (V f k) x := by
  rw [dot, ← sum_range_add_sum_Ico _ hk, sum_eq_zero (s := range k), zero_add]
  · refine sum_congr rfl fun i hi => ?_
    rw [V, if_pos (mem_Ico.1 hi).1]
  · intro i hi
    rw [V, if_neg (by have := mem_range.1 hi; omega), zero_mul]

theorem forFromTo_upd {M a b : ℕ} (hb : b ≤ M) (x h : ℕ → ℝ) (body : List ℝ → ℕ → Outcome (List ℝ))
    (hbody : ∀ i, a ≤ i → i < b → ∀ y : ℕ → ℝ, y i = x i → body (tab M y) i = .ret (tab M fun k => if k = i then h i else y k)) :
    forFromTo a b (tab M x) body = .ret (tab M fun k => if a ≤ k ∧ k < b then h k else x k) := by
  rcases Nat.lt_or_ge b a with hab | hab
  · rw [forFromTo, show b - a = 0 by omega, forRange]
    congr 1
    exact tab_congr fun i _ => by rw [if_neg (by omega)]
  obtain ⟨t, ht, hP⟩ := forFromTo_rule
    (fun i v => v = tab M (fun k => if a ≤ k ∧ k < i then h k else x k)) a b hab (tab M x) body
    (tab_congr fun i _ => by rw [if_neg (by omega)])
    (by
      rintro i v hai hib rfl
      refine ⟨_, hbody i hai hib _ (by rw [if_neg (by omega)]), ?_⟩
      refine tab_congr fun k hk => ?_
      by_cases h1 : k = i
      · subst h1; rw [if_pos rfl, if_pos (by omega)]
      · rw [if_neg h1]
        by_cases h2 : a ≤ k ∧ k < i
        · rw [if_pos h2, if_pos (by omega)]
        · rw [if_neg h2, if_neg (by omega)])
  rw [ht, hP]

/-- A loop that rewrites the elements `a … b-1` of column `j`. -/
theorem forFromTo_col {m n a b j : ℕ} (hb : b ≤ m) (f : ℕ → ℕ → ℝ) (h : ℕ → ℝ)
    (body : Dense ℝ → ℕ → Outcome (Dense ℝ))
    (hbody : ∀ i, a ≤ i → i < b → ∀ g : ℕ → ℕ → ℝ, g i j = f i j → (∀ p q, q ≠ j → g p q = f p q) →
      body (Dense.ofFn m n g) i = .ret (Dense.ofFn m n fun p q => if p = i ∧ q = j then h i else g p q)) :
    forFromTo a b (Dense.ofFn m n f) body =
      .ret (Dense.ofFn m n fun p q => if q = j ∧ a ≤ p ∧ p < b then h p else f p q) := by
  rcases Nat.lt_or_ge b a with hab | hab
  · rw [forFromTo, show b - a = 0 by omega, forRange]
    congr 1
    exact Dense.ofFn_congr fun i _ k _ => by rw [if_neg (by omega)]
  obtain ⟨t, ht, hP⟩ := forFromTo_rule
    (fun i v => v = Dense.ofFn m n (fun p q => if q = j ∧ a ≤ p ∧ p < i then h p else f p q)) a b hab
    (Dense.ofFn m n f) body
    (Dense.ofFn_congr fun i _ k _ => by rw [if_neg (by omega)])
    (by
      rintro i v hai hib rfl
      refine ⟨_, hbody i hai hib _ (by rw [if_neg (by omega)]) (fun p q hq => by rw [if_neg (by tauto)]), ?_⟩
      refine Dense.ofFn_congr fun p _ q _ => ?_
      by_cases h1 : p = i ∧ q = j
      · obtain ⟨rfl, rfl⟩ := h1; rw [if_pos ⟨rfl, rfl⟩, if_pos (by omega)]
      · rw [if_neg h1]
        by_cases h2 : q = j ∧ a ≤ p ∧ p < i
        · rw [if_pos h2, if_pos (by omega)]
        · rw [if_neg h2, if_neg (by omega)])
  rw [ht, hP]

theorem colDot_eq {m n : ℕ} (f : ℕ → ℕ → ℝ) {k j : ℕ} (hk : k < n) (hj : j < n) (hkm : k ≤ m) :
    colDot m (Dense.ofFn m n f) k j = .ret (dot m (V f k) (fun i => f i j)) := by
  rw [colDot, forFromTo_sum k m _ _ (fun i => f i k * f i j), zero_add, sum_V f hkm]
  intro i _ hi s
  rw [Dense.get_ofFn _ hi hk, Outcome.bind_ret, Dense.get_ofFn _ hi hj, Outcome.bind_ret]

theorem divCol_eq {m n : ℕ} (f : ℕ → ℕ → ℝ) {k : ℕ} (hk : k < n) (s : ℝ) :
    divCol m (Dense.ofFn m n f) k s =
      .ret (Dense.ofFn m n fun p q => if q = k ∧ k ≤ p ∧ p < m then f p k / s else f p q) := by
  refine forFromTo_col le_rfl f (fun p => f p k / s) _ fun i hi1 hi2 g hg _ => ?_
  rw [Dense.get_ofFn _ hi2 hk, Outcome.bind_ret, Dense.set_ofFn _ hi2 hk, hg]

theorem colScale_eq {m n : ℕ} (f : ℕ → ℕ → ℝ) {k : ℕ} (hk : k < n) (hkm : k ≤ m) :
    ∃ s, colScale m (Dense.ofFn m n f) k = .ret s ∧ 0 ≤ s ∧ (∀ i, k ≤ i → i < m → |f i k| ≤ s) ∧
      (s = 0 ∨ ∃ i, k ≤ i ∧ i < m ∧ |f i k| = s) := by
  obtain ⟨s, hs, h1, h2, h3⟩ := forFromTo_rule
    (fun i (s : ℝ) => 0 ≤ s ∧ (∀ t, k ≤ t → t < i → |f t k| ≤ s) ∧ (s = 0 ∨ ∃ t, k ≤ t ∧ t < i ∧ |f t k| = s))
    k m hkm (0 : ℝ) (fun s i => do
      let x ← (Dense.ofFn m n f).get i k
      Outcome.ret (max s |x|))
    ⟨le_rfl, fun t h1 h2 => by omega, Or.inl rfl⟩
    (by
      rintro i s hi1 hi2 ⟨h1, h2, h3⟩
      refine ⟨max s |f i k|, by rw [Dense.get_ofFn _ hi2 hk, Outcome.bind_ret], le_max_of_le_left h1, fun t ht1 ht2 => ?_, ?_⟩
      · by_cases hti : t = i
        · subst hti; exact le_max_right _ _
        · exact (h2 t ht1 (by omega)).trans (le_max_left _ _)
      · rcases le_total s |f i k| with hle | hle
        · rw [max_eq_right hle]
          exact Or.inr ⟨i, hi1, by omega, rfl⟩
        · rw [max_eq_left hle]
          rcases h3 with h3 | ⟨t, h4, h5, h6⟩
          · exact Or.inl h3
          · exact Or.inr ⟨t, h4, by omega, h6⟩)
  exact ⟨s, hs, h1, h2, h3⟩

theorem applyCol_eq {m n : ℕ} (f : ℕ → ℕ → ℝ) {k j : ℕ} (hk : k < n) (hj : j < n) (hkj : k ≠ j) (hkm : k ≤ m) {ck : ℝ}
    (hc : ck ≠ 0) :
    applyCol m k ck (Dense.ofFn m n f) j =
      .ret (Dense.ofFn m n fun p q => if q = j then house m (V f k) ck (fun i => f i j) p else f p q) := by
  rw [applyCol, colDot_eq f hk hj hkm, Outcome.bind_ret, divU, if_neg hc, Outcome.bind_ret,
    forFromTo_col le_rfl f (fun p => f p j - dot m (V f k) (fun i => f i j) / ck * f p k)]
  · congr 1
    refine Dense.ofFn_congr fun p hp q _ => ?_
    by_cases hq : q = j
    · subst hq
      by_cases hkp : k ≤ p
      · rw [if_pos ⟨rfl, hkp, hp⟩, if_pos rfl, house, V, if_pos hkp]
      · rw [if_neg (by tauto), if_pos rfl, house, V, if_neg hkp]; ring
    · rw [if_neg (by tauto), if_neg hq]
  · intro i hi1 hi2 g hg hg'
    rw [Dense.get_ofFn _ hi2 hj, Outcome.bind_ret, Dense.get_ofFn _ hi2 hk, Outcome.bind_ret, Dense.set_ofFn _ hi2 hj,
      hg, hg' i k hkj]

theorem applyCols_eq {m n : ℕ} (f : ℕ → ℕ → ℝ) {k : ℕ} (hk : k < n) (hkm : k ≤ m) {ck : ℝ} (hc : ck ≠ 0) :
    forFromTo (k + 1) n (Dense.ofFn m n f) (applyCol m k ck) =
      .ret (Dense.ofFn m n fun p q => if k < q then house m (V f k) ck (fun i => f i q) p else f p q) := by
  obtain ⟨t, ht, hP⟩ := forFromTo_rule
    (fun j v => v = Dense.ofFn m n (fun p q => if k < q ∧ q < j then house m (V f k) ck (fun i => f i q) p else f p q))
    (k + 1) n (by omega) (Dense.ofFn m n f) (applyCol m k ck)
    (Dense.ofFn_congr fun i _ k _ => by rw [if_neg (by omega)])
    (by
      rintro j v hj1 hj2 rfl
      refine ⟨_, applyCol_eq _ hk hj2 (by omega) hkm hc, Dense.ofFn_congr fun p _ q _ => ?_⟩
      have e1 : V (fun p q => if k < q ∧ q < j then house m (V f k) ck (fun i => f i q) p else f p q) k = V f k := by
        funext i
        simp only [V]
        rw [if_neg (show ¬(k < k ∧ k < j) by omega)]
      have e2 : (fun i => if k < j ∧ j < j then house m (V f k) ck (fun i => f i j) i else f i j) = fun i => f i j := by
        funext i
        rw [if_neg (by omega)]
      rw [e1, e2]
      by_cases hq : q = j
      · subst hq; rw [if_pos rfl, if_pos (by omega)]
      · rw [if_neg hq]
        by_cases h2 : k < q ∧ q < j
        · rw [if_pos h2, if_pos (by omega)]
        · rw [if_neg h2, if_neg (by omega)])
  rw [ht, hP]
  congr 1
  refine Dense.ofFn_congr fun p _ q hq => ?_
  by_cases h : k < q
  · rw [if_pos h, if_pos ⟨h, hq⟩]
  · rw [if_neg h, if_neg (by tauto)]

theorem reflectVec_eq {m n : ℕ} (f : ℕ → ℕ → ℝ) (c : ℕ → ℝ) (d : List ℝ) (sing : Bool) (refl : ℕ) {k : ℕ} (hk : k < n)
    (hkm : k ≤ m) (x : ℕ → ℝ) :
    reflectVec ⟨Dense.ofFn m n f, tab n c, d, sing, refl⟩ m (tab m x) k = .ret (tab m (H m (V f) c k x)) := by
  rw [reflectVec, H]
  simp only
  rw [index_tab _ hk, Outcome.bind_ret]
  by_cases hc : c k ≠ 0
  · rw [if_pos hc, if_pos hc, forFromTo_sum k m _ _ (fun i => f i k * x i), zero_add, sum_V f hkm, Outcome.bind_ret,
      forFromTo_upd le_rfl x (fun p => x p - dot m (V f k) x / c k * f p k)]
    · congr 1
      refine tab_congr fun p hp => ?_
      by_cases hkp : k ≤ p
      · rw [if_pos ⟨hkp, hp⟩, house, V, if_pos hkp]
      · rw [if_neg (by tauto), house, V, if_neg hkp]; ring
    · intro i hi1 hi2 y hy
      rw [index_tab _ hi2, Outcome.bind_ret, Dense.get_ofFn _ hi2 hk, Outcome.bind_ret, store_tab _ hi2, hy]
    · intro i hi1 hi2 s
      rw [Dense.get_ofFn _ hi2 hk, Outcome.bind_ret, index_tab _ hi2, Outcome.bind_ret]
  · rw [if_neg hc, if_neg hc]

theorem ncols_le (m n : ℕ) : ncols m n ≤ n := by rw [ncols]; split_ifs <;> omega

theorem qtLoop_eq {m n : ℕ} (hnm : n ≤ m) (f : ℕ → ℕ → ℝ) (c : ℕ → ℝ) (d : List ℝ) (sing : Bool) (refl : ℕ) (x : ℕ → ℝ)
    {L : ℕ} (hL : L ≤ n) :
    forRange L (tab m x) (reflectVec ⟨Dense.ofFn m n f, tab n c, d, sing, refl⟩ m) = .ret (tab m (Qt m (V f) c L x)) := by
  induction L with
  | zero => rfl
  | succ L ih => rw [forRange, ih (by omega), Outcome.bind_ret, reflectVec_eq f c d sing refl (by omega) (by omega), Qt]

theorem qmLoop_eq {m n : ℕ} (hnm : n ≤ m) (f : ℕ → ℕ → ℝ) (c : ℕ → ℝ) (d : List ℝ) (sing : Bool) (refl : ℕ) (x : ℕ → ℝ)
    {L : ℕ} (hL : L ≤ n) :
    forDown 0 L (tab m x) (reflectVec ⟨Dense.ofFn m n f, tab n c, d, sing, refl⟩ m) = .ret (tab m (Qm m (V f) c L x)) := by
  obtain ⟨t, ht, y, rfl, hy⟩ := forDown_rule
    (fun i v => ∃ y : ℕ → ℝ, v = tab m y ∧ Qm m (V f) c i y = Qm m (V f) c L x)
    0 L (by omega) (tab m x) (reflectVec ⟨Dense.ofFn m n f, tab n c, d, sing, refl⟩ m)
    ⟨x, rfl, rfl⟩
    (by
      rintro i v _ hi ⟨y, rfl, hy⟩
      exact ⟨_, reflectVec_eq f c d sing refl (by omega) (by omega) y, _, rfl, hy⟩)
  rw [ht, ← hy]
  rfl

end Verif.LinAlg.QR
