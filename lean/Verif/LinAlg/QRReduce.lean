import Verif.LinAlg.QRLemmas

/-! # Helper lemmas: the invariant of the Householder reduction -/

set_option autoImplicit false

namespace Verif.LinAlg.QR

open Verif.Mat Finset

/-- The state after the columns before `k`. -/
structure Inv (eps : ℝ) (m n : ℕ) (A : ℕ → ℕ → ℝ) (k : ℕ) (s : QR) (f : ℕ → ℕ → ℝ) (c d : ℕ → ℝ) : Prop where
  qr : s.qr = Dense.ofFn m n f
  hc : s.c = tab n c
  hd : s.d = tab n d
  good : Good m (V f) c n
  cz : ∀ j, k ≤ j → c j = 0
  err : ∀ j < k, dot m (fun i => Qt m (V f) c k (fun i => A i j) i - R f d j i)
    (fun i => Qt m (V f) c k (fun i => A i j) i - R f d j i) ≤ m * eps ^ 2
  exact : s.sing = false → ∀ j < k, (∀ i < m, Qt m (V f) c k (fun i => A i j) i = R f d j i) ∧ d j ≠ 0 ∧ c j ≠ 0
  rest : ∀ j, k ≤ j → j < n → ∀ i < m, f i j = Qt m (V f) c k (fun i => A i j) i
  refl : s.sing = false → s.refl = k
  flag : s.sing = true → ∃ j < k, ∃ z : ℕ → ℝ, ∑ i ∈ range m, (A i j - ∑ t ∈ range j, z t * A i t) ^ 2 ≤ m * eps ^ 2

/-- A triangular system with nonzero diagonal has a solution. -/
theorem tri_exists (f : ℕ → ℕ → ℝ) (d : ℕ → ℝ) (k : ℕ) (hd : ∀ j < k, d j ≠ 0) (y : ℕ → ℝ) :
    ∃ z : ℕ → ℝ, ∀ i < k, ∑ t ∈ range k, z t * R f d t i = y i := by
  induction k generalizing y with
  | zero => exact ⟨y, fun i hi => by omega⟩
  | succ k ih =>
    obtain ⟨z, hz⟩ := ih (fun j hj => hd j (by omega)) (fun i => y i - y k / d k * R f d k i)
    refine ⟨fun t => if t = k then y k / d k else z t, fun i hi => ?_⟩
    have e : ∑ t ∈ range k, (if t = k then y k / d k else z t) * R f d t i = ∑ t ∈ range k, z t * R f d t i :=
      sum_congr rfl fun t ht => by rw [if_neg (by have := mem_range.1 ht; omega)]
    rw [sum_range_succ, e]
    beta_reduce
    rw [if_pos rfl]
    by_cases hik : i = k
    · subst hik
      rw [sum_eq_zero, zero_add, R, if_neg (by omega), if_pos rfl, div_mul_cancel₀ _ (hd i (by omega))]
      intro t ht
      have := mem_range.1 ht
      rw [R, if_neg (by omega), if_neg (by omega), mul_zero]
    · rw [hz i (by omega)]; ring

/-- A column that is small after the reflections is close to a combination of the columns before it. -/
theorem near_comb {m n k : ℕ} {W : ℕ → ℕ → ℝ} {c : ℕ → ℝ} {A f : ℕ → ℕ → ℝ} {d : ℕ → ℝ} (hg : Good m W c n)
    {L : ℕ} (hL : L ≤ n) (hex : ∀ j < k, (∀ i < m, Qt m W c L (fun i => A i j) i = R f d j i) ∧ d j ≠ 0)
    {B : ℝ} (hB : ∑ i ∈ Ico k m, (Qt m W c L (fun i => A i k) i) ^ 2 ≤ B) (hkm : k ≤ m) :
    ∃ z : ℕ → ℝ, ∑ i ∈ range m, (A i k - ∑ t ∈ range k, z t * A i t) ^ 2 ≤ B := by
  obtain ⟨z, hz⟩ := tri_exists f d k (fun j hj => (hex j hj).2) (Qt m W c L (fun i => A i k))
  refine ⟨z, ?_⟩
  have e1 : ∑ i ∈ range m, (A i k - ∑ t ∈ range k, z t * A i t) ^ 2 =
      dot m (fun i => A i k - ∑ t ∈ range k, z t * A i t) (fun i => A i k - ∑ t ∈ range k, z t * A i t) :=
    sum_congr rfl fun i _ => sq _
  have e2 : Qt m W c L (fun i => A i k - ∑ t ∈ range k, z t * A i t) =
      fun i => Qt m W c L (fun i => A i k) i - ∑ t ∈ range k, z t * Qt m W c L (fun i => A i t) i := by
    rw [Qt_sub, Qt_comb L (range k) z (fun t i => A i t)]
  rw [e1, ← dot_Qt hg hL, e2, dot, ← sum_range_add_sum_Ico _ hkm, sum_eq_zero (s := range k), zero_add]
  · refine le_trans (le_of_eq (sum_congr rfl fun i hi => ?_)) hB
    have hi := mem_Ico.1 hi
    rw [sum_eq_zero, sub_zero, sq]
    intro t ht
    have ht := mem_range.1 ht
    rw [(hex t ht).1 i hi.2, R, if_neg (by omega), if_neg (by omega), mul_zero]
  · intro i hi
    have hi := mem_range.1 hi
    rw [sum_congr rfl fun t ht => by rw [(hex t (mem_range.1 ht)).1 i (by omega)], hz i hi, sub_self, zero_mul]

theorem V_R {f : ℕ → ℕ → ℝ} {m k j : ℕ} (W : ℕ → ℝ) (hW : ∀ i < k, W i = 0) (d : ℕ → ℝ) (hj : j < k) :
    dot m W (R f d j) = 0 := by
  refine sum_eq_zero fun i _ => ?_
  by_cases h : i < k
  · rw [hW i h, zero_mul]
  · rw [R, if_neg (by omega), if_neg (by omega), mul_zero]

theorem sigma_sq {v sum : ℝ} (h : 0 ≤ sum) : sigma v sum * sigma v sum = sum := by
  unfold sigma
  split_ifs
  · exact Real.mul_self_sqrt h
  · rw [neg_mul_neg]; exact Real.mul_self_sqrt h

theorem sigma_mul {v sum : ℝ} : 0 ≤ sigma v sum * v := by
  have := Real.sqrt_nonneg sum
  unfold sigma
  split_ifs with h
  · exact mul_nonneg this h
  · push Not at h; nlinarith

/-- The reflection vector of a column. -/
noncomputable def wvec (g : ℕ → ℝ) (k : ℕ) (scale σ : ℝ) (i : ℕ) : ℝ :=
  if k ≤ i then g i / scale + (if i = k then σ else 0) else 0

theorem reflect_vec {m k : ℕ} (hk : k < m) (g : ℕ → ℝ) {scale : ℝ} (hs : 0 < scale)
    (hex : ∃ i, k ≤ i ∧ i < m ∧ |g i| = scale) :
    let sum := ∑ i ∈ Ico k m, g i / scale * (g i / scale)
    let σ := sigma (g k / scale) sum
    let c := σ * (g k / scale + σ)
    0 < c ∧ σ ≠ 0 ∧ dot m (wvec g k scale σ) (wvec g k scale σ) = 2 * c ∧
      dot m (wvec g k scale σ) g = scale * c := by
  intro sum σ c
  have hsum : 0 < sum := by
    obtain ⟨i, h1, h2, h3⟩ := hex
    refine sum_pos' (fun i _ => mul_self_nonneg _) ⟨i, mem_Ico.2 ⟨h1, h2⟩, mul_self_pos.2 ?_⟩
    refine div_ne_zero ?_ hs.ne'
    rintro h0
    rw [h0, abs_zero] at h3
    exact hs.ne h3
  have hσ : σ * σ = sum := sigma_sq hsum.le
  have hσ0 : σ ≠ 0 := fun h => by rw [h, zero_mul] at hσ; exact hsum.ne hσ
  have hm : 0 ≤ σ * (g k / scale) := sigma_mul
  have hcpos : 0 < c := by
    show 0 < σ * (g k / scale + σ)
    rw [mul_add, hσ]; linarith
  have key : ∀ y : ℕ → ℝ, dot m (wvec g k scale σ) y = ∑ i ∈ Ico k m, g i / scale * y i + σ * y k := by
    intro y
    rw [dot, ← sum_range_add_sum_Ico _ hk.le, sum_eq_zero (s := range k), zero_add]
    · have : ∀ i ∈ Ico k m, wvec g k scale σ i * y i = g i / scale * y i + if i = k then σ * y k else 0 := by
        intro i hi
        rw [wvec, if_pos (mem_Ico.1 hi).1]
        by_cases h : i = k
        · subst h; rw [if_pos rfl, if_pos rfl]; ring
        · rw [if_neg h, if_neg h]; ring
      rw [sum_congr rfl this, sum_add_distrib, sum_ite_eq', if_pos (mem_Ico.2 ⟨le_rfl, hk⟩)]
    · intro i hi
      rw [wvec, if_neg (by have := mem_range.1 hi; omega), zero_mul]
  refine ⟨hcpos, hσ0, ?_, ?_⟩
  · rw [key]
    have : ∑ i ∈ Ico k m, g i / scale * wvec g k scale σ i = sum + g k / scale * σ := by
      have : ∀ i ∈ Ico k m, g i / scale * wvec g k scale σ i =
          g i / scale * (g i / scale) + if i = k then g k / scale * σ else 0 := by
        intro i hi
        rw [wvec, if_pos (mem_Ico.1 hi).1]
        by_cases h : i = k
        · subst h; rw [if_pos rfl, if_pos rfl]; ring
        · rw [if_neg h, if_neg h]; ring
      rw [sum_congr rfl this, sum_add_distrib, sum_ite_eq', if_pos (mem_Ico.2 ⟨le_rfl, hk⟩)]
    rw [this, wvec, if_pos le_rfl, if_pos rfl, ← hσ]
    show _ = 2 * (σ * (g k / scale + σ))
    ring
  · rw [key]
    have : ∑ i ∈ Ico k m, g i / scale * g i = scale * sum := by
      rw [mul_sum]
      exact sum_congr rfl fun i _ => by field_simp
    rw [this, ← hσ]
    show _ = scale * (σ * (g k / scale + σ))
    field_simp
    ring

/-- The elements after the reflection of column `k`. -/
noncomputable def fnew (m : ℕ) (f : ℕ → ℕ → ℝ) (k : ℕ) (w : ℕ → ℝ) (ck : ℝ) (p q : ℕ) : ℝ :=
  if k < q then house m w ck (fun i => f i q) p else if q = k ∧ k ≤ p then w p else f p q

theorem fnew_lt {m : ℕ} (f : ℕ → ℕ → ℝ) {k q : ℕ} (w : ℕ → ℝ) (ck : ℝ) (h : q < k) (p : ℕ) :
    fnew m f k w ck p q = f p q := by
  rw [fnew, if_neg (by omega), if_neg (by omega)]

theorem fnew_self {m : ℕ} (f : ℕ → ℕ → ℝ) (k : ℕ) (w : ℕ → ℝ) (ck : ℝ) (p : ℕ) :
    fnew m f k w ck p k = if k ≤ p then w p else f p k := by
  rw [fnew, if_neg (by omega)]
  simp

theorem V_fnew {m : ℕ} (f : ℕ → ℕ → ℝ) {k j : ℕ} (w : ℕ → ℝ) (ck : ℝ) (hj : j < k) : V (fnew m f k w ck) j = V f j := by
  funext i
  rw [V, V, fnew_lt f w ck hj]

theorem V_fnew_self {m : ℕ} (f : ℕ → ℕ → ℝ) {k : ℕ} (w : ℕ → ℝ) (hw : ∀ i < k, w i = 0) (ck : ℝ) :
    V (fnew m f k w ck) k = w := by
  funext i
  rw [V, fnew_self]
  by_cases h : k ≤ i
  · rw [if_pos h, if_pos h]
  · rw [if_neg h, hw i (by omega)]

theorem R_fnew {m : ℕ} (f : ℕ → ℕ → ℝ) {k j : ℕ} (w : ℕ → ℝ) (ck : ℝ) (d : ℕ → ℝ) (x : ℝ) (hj : j < k) :
    R (fnew m f k w ck) (fun t => if t = k then x else d t) j = R f d j := by
  funext i
  rw [R, R, fnew_lt f w ck hj, if_neg (by omega : ¬ j = k)]

theorem reflect_eq {m n k : ℕ} (hk : k < n) (hkm : k < m) (f : ℕ → ℕ → ℝ) (c d : ℕ → ℝ) (sing : Bool) (refl : ℕ)
    {scale : ℝ} (hs : 0 < scale) (hex : ∃ i, k ≤ i ∧ i < m ∧ |f i k| = scale) :
    ∃ σ ck, σ ≠ 0 ∧ 0 < ck ∧
      dot m (wvec (fun i => f i k) k scale σ) (wvec (fun i => f i k) k scale σ) = 2 * ck ∧
      dot m (wvec (fun i => f i k) k scale σ) (fun i => f i k) = scale * ck ∧
      reflect m n scale ⟨Dense.ofFn m n f, tab n c, tab n d, sing, refl⟩ k =
        .ret ⟨Dense.ofFn m n (fnew m f k (wvec (fun i => f i k) k scale σ) ck),
          tab n (fun t => if t = k then ck else c t), tab n (fun t => if t = k then -scale * σ else d t), sing, refl + 1⟩ := by
  obtain ⟨h1, h2, h3, h4⟩ := reflect_vec hkm (fun i => f i k) hs hex
  refine ⟨_, _, h2, h1, h3, h4, ?_⟩
  rw [reflect]
  simp only
  rw [divCol_eq f hk, Outcome.bind_ret, colDot_eq _ hk hk hkm.le, Outcome.bind_ret, Dense.get_ofFn _ hkm hk,
    Outcome.bind_ret, Dense.set_ofFn _ hkm hk, Outcome.bind_ret, store_tab _ hk, Outcome.bind_ret, store_tab _ hk,
    Outcome.bind_ret, if_pos ⟨rfl, le_rfl, hkm⟩]
  have e1 : dot m (V (fun p q => if q = k ∧ k ≤ p ∧ p < m then f p k / scale else f p q) k)
      (fun i => if k = k ∧ k ≤ i ∧ i < m then f i k / scale else f i k) =
      ∑ i ∈ Ico k m, f i k / scale * (f i k / scale) := by
    rw [← sum_V _ hkm.le]
    refine sum_congr rfl fun i hi => ?_
    have := mem_Ico.1 hi
    rw [if_pos ⟨rfl, this⟩]
  rw [e1]
  generalize hσ : sigma (f k k / scale) (∑ i ∈ Ico k m, f i k / scale * (f i k / scale)) = σ at *
  rw [applyCols_eq _ hk hkm.le h1.ne', Outcome.bind_ret]
  congr 1
  simp only [QR.mk.injEq, and_true]
  refine Dense.ofFn_congr fun p hp q hq => ?_
  have e2 : ∀ i < m, V (fun p q => if p = k ∧ q = k then f k k / scale + σ
      else if q = k ∧ k ≤ p ∧ p < m then f p k / scale else f p q) k i = wvec (fun i => f i k) k scale σ i := by
    intro i hi
    rw [V, wvec]
    by_cases h : k ≤ i
    · rw [if_pos h, if_pos h]
      by_cases hik : i = k
      · subst hik; rw [if_pos ⟨rfl, rfl⟩, if_pos rfl]
      · rw [if_neg (by tauto), if_pos ⟨rfl, h, hi⟩, if_neg hik, add_zero]
    · rw [if_neg h, if_neg h]
  rw [fnew]
  by_cases hkq : k < q
  · rw [if_pos hkq, if_pos hkq, house, house, e2 p hp]
    rw [dot_congr e2 (fun i _ => (by rw [if_neg (by omega), if_neg (by omega)] :
      (if i = k ∧ q = k then f k k / scale + σ else if q = k ∧ k ≤ i ∧ i < m then f i k / scale else f i q) = f i q)),
      if_neg (by omega), if_neg (by omega)]
  · rw [if_neg hkq, if_neg hkq]
    by_cases hq2 : q = k ∧ k ≤ p
    · obtain ⟨rfl, hq2⟩ := hq2
      rw [if_pos (show q = q ∧ q ≤ p from ⟨rfl, hq2⟩), wvec, if_pos hq2]
      by_cases hpk : p = q
      · subst hpk; rw [if_pos ⟨rfl, rfl⟩, if_pos rfl]
      · rw [if_neg (by tauto), if_pos ⟨rfl, hq2, hp⟩, if_neg hpk, add_zero]
    · rw [if_neg (show ¬(q = k ∧ k ≤ p) from hq2), if_neg (by omega), if_neg (by omega)]

theorem dot_err_H {m k L : ℕ} {W : ℕ → ℕ → ℝ} {c : ℕ → ℝ} (hg : Good m W c L) (hk : k < L) {x r : ℕ → ℝ}
    (hr : dot m (W k) r = 0) :
    dot m (fun i => H m W c k x i - r i) (fun i => H m W c k x i - r i) = dot m (fun i => x i - r i) (fun i => x i - r i) := by
  rw [← dot_H hg hk (fun i => x i - r i), H_sub, H_fix k hr]

theorem step_inv {eps : ℝ} (heps : 0 < eps) {m n : ℕ} {A : ℕ → ℕ → ℝ} {k : ℕ} (hk : k < n) (hkm : k < m) {s : QR}
    {f : ℕ → ℕ → ℝ} {c d : ℕ → ℝ} (h : Inv eps m n A k s f c d) :
    ∃ s' f' c' d', step eps m n s k = .ret s' ∧ Inv eps m n A (k + 1) s' f' c' d' := by
  obtain ⟨qr, sc, sd, sing, refl⟩ := s
  obtain ⟨rfl, rfl, rfl⟩ : qr = _ ∧ sc = _ ∧ sd = _ := ⟨h.qr, h.hc, h.hd⟩
  obtain ⟨scale, hscale, hs0, hsle, hsex⟩ := colScale_eq f hk hkm.le
  rw [step]
  simp only
  rw [hscale, Outcome.bind_ret]
  by_cases hlt : scale < eps
  · rw [if_pos hlt, store_tab _ hk, Outcome.bind_ret, store_tab _ hk, Outcome.bind_ret]
    have hck : c k = 0 := h.cz k le_rfl
    have hcc : (fun t => if t = k then 0 else c t) = c := by
      funext t
      by_cases ht : t = k
      · subst ht; rw [if_pos rfl, hck]
      · rw [if_neg ht]
    have hQ : ∀ x, Qt m (V f) c (k + 1) x = Qt m (V f) c k x := fun x => by
      rw [Qt, H, if_neg (by simpa using hck)]
    have hR : ∀ j < k, R f (fun t => if t = k then 0 else d t) j = R f d j := by
      intro j hj
      funext i
      rw [R, R]
      rw [if_neg (show ¬ j = k by omega)]
    have hsq : ∀ i, k ≤ i → i < m → f i k * f i k ≤ eps ^ 2 := by
      intro i hki hi
      rw [← abs_mul_abs_self, sq]
      exact mul_self_le_mul_self (abs_nonneg _) ((hsle i hki hi).trans hlt.le)
    refine ⟨_, f, c, fun t => if t = k then 0 else d t, rfl, rfl, by rw [hcc], rfl, h.good,
      fun j hj => h.cz j (by omega), fun j hj => ?_, fun hf => absurd hf (by simp), fun j hj hjn i hi => ?_,
      fun hf => absurd hf (by simp), fun _ => ?_⟩
    · rw [hQ]
      by_cases hjk : j = k
      · subst hjk
        have : ∀ i ∈ range m, (Qt m (V f) c j (fun i => A i j) i - R f (fun t => if t = j then 0 else d t) j i) *
            (Qt m (V f) c j (fun i => A i j) i - R f (fun t => if t = j then 0 else d t) j i) ≤ eps ^ 2 := by
          intro i hi
          have hi := mem_range.1 hi
          rw [← h.rest j le_rfl hk i hi, R]
          by_cases h1 : i < j
          · rw [if_pos h1, sub_self, zero_mul]; positivity
          · have h3 : f i j * f i j ≤ eps ^ 2 := hsq i (by omega) hi
            rw [if_neg h1]
            by_cases h4 : i = j
            · rw [if_pos h4, if_pos rfl, sub_zero]; exact h3
            · rw [if_neg h4, sub_zero]; exact h3
        refine (sum_le_sum this).trans ?_
        rw [sum_const, card_range, nsmul_eq_mul]
      · rw [hR j (by omega)]
        exact h.err j (by omega)
    · rw [hQ]; exact h.rest j (by omega) hjn i hi
    · by_cases hsg : sing = true
      · obtain ⟨j, hj, z, hz⟩ := h.flag hsg
        exact ⟨j, by omega, z, hz⟩
      · refine ⟨k, by omega, near_comb h.good hk.le
          (fun j hj => ⟨(h.exact (by simpa using hsg) j hj).1, (h.exact (by simpa using hsg) j hj).2.1⟩) ?_ hkm.le⟩
        refine (sum_le_sum (g := fun _ => eps ^ 2) fun i hi => ?_).trans ?_
        · have := mem_Ico.1 hi
          rw [← h.rest k le_rfl hk i this.2, sq]
          exact hsq i this.1 this.2
        · rw [sum_const, Nat.card_Ico, nsmul_eq_mul]
          have : ((m - k : ℕ) : ℝ) ≤ m := by exact_mod_cast Nat.sub_le m k
          exact mul_le_mul_of_nonneg_right this (sq_nonneg _)
  · rw [if_neg hlt]
    push Not at hlt
    have hpos : 0 < scale := lt_of_lt_of_le heps hlt
    have hex : ∃ i, k ≤ i ∧ i < m ∧ |f i k| = scale := hsex.resolve_left hpos.ne'
    obtain ⟨σ, ck, hσ, hck, hww, hwf, hret⟩ := reflect_eq hk hkm f c d sing refl hpos hex
    set w := wvec (fun i => f i k) k scale σ with hw
    have hw0 : ∀ i < k, w i = 0 := fun i hi => by rw [hw, wvec, if_neg (by omega)]
    set f' := fnew m f k w ck with hf'
    set c' : ℕ → ℝ := fun t => if t = k then ck else c t with hc'
    set d' : ℕ → ℝ := fun t => if t = k then -scale * σ else d t with hd'
    have hck' : c' k = ck := if_pos rfl
    have hVk : V f' k = w := V_fnew_self f w hw0 ck
    have hgood : Good m (V f') c' n := by
      intro j hj hcj
      rcases lt_trichotomy j k with hjk | rfl | hjk
      · rw [hf', V_fnew f w ck hjk]
        rw [hc'] at hcj ⊢
        simp only [if_neg hjk.ne] at hcj ⊢
        exact h.good j hj hcj
      · rw [hVk, hck', hww]
      · rw [hc'] at hcj
        simp only [if_neg hjk.ne'] at hcj
        exact absurd (h.cz j hjk.le) hcj
    have hQ0 : ∀ x, Qt m (V f') c' k x = Qt m (V f) c k x := fun x =>
      Qt_data k (fun j hj => V_fnew f w ck hj) (fun j hj => by rw [hc']; exact if_neg hj.ne) x
    have hQ : ∀ x, Qt m (V f') c' (k + 1) x = house m w ck (Qt m (V f) c k x) := fun x => by
      rw [Qt, hQ0, H, hck', if_pos hck.ne', hVk]
    have hnew : ∀ i < m, Qt m (V f') c' (k + 1) (fun i => A i k) i = R f' d' k i := by
      intro i hi
      rw [hQ, house_congr (fun i hi => (h.rest k le_rfl hk i hi).symm) hi, house, hwf, mul_div_assoc, div_self hck.ne',
        mul_one, R, hf', fnew_self]
      rcases lt_trichotomy i k with h1 | h1 | h1
      · rw [if_pos h1, hw0 i h1, if_neg (by omega)]; ring
      · subst h1
        rw [if_neg (by omega), if_pos rfl, hd']
        simp only [if_true]
        rw [hw, wvec, if_pos le_rfl, if_pos rfl]
        field_simp
        ring
      · rw [if_neg (by omega), if_neg (by omega), hw, wvec, if_pos h1.le, if_neg (by omega)]
        field_simp
        ring
    have hHj : ∀ j < k, R f' d' j = R f d j := fun j hj => R_fnew f w ck d (-scale * σ) hj
    have hdot0 : ∀ j < k, dot m (V f' k) (R f d j) = 0 := fun j hj => by
      rw [hVk]; exact V_R w hw0 d hj
    refine ⟨_, f', c', d', hret, rfl, rfl, rfl, hgood, fun j hj => ?_, fun j hj => ?_, fun hs j hj => ?_,
      fun j hj hjn i hi => ?_, fun hs => ?_, fun hs => ?_⟩
    · rw [hc']
      simp only
      rw [if_neg (by omega)]
      exact h.cz j (by omega)
    · by_cases hjk : j = k
      · subst hjk
        rw [dot, sum_eq_zero]
        · positivity
        · intro i hi
          rw [hnew i (mem_range.1 hi), sub_self, zero_mul]
      · have hjk : j < k := by omega
        rw [hHj j hjk, Qt, dot_err_H hgood hk (hdot0 j hjk), hQ0]
        exact h.err j hjk
    · by_cases hjk : j = k
      · subst hjk
        refine ⟨hnew, ?_, ?_⟩
        · rw [hd']
          simp only [if_true]
          exact mul_ne_zero (neg_ne_zero.2 hpos.ne') hσ
        · rw [hck']; exact hck.ne'
      · have hjk : j < k := by omega
        obtain ⟨g1, g2, g3⟩ := h.exact hs j hjk
        refine ⟨fun i hi => ?_, ?_, ?_⟩
        · rw [Qt, hQ0, H_congr k g1 hi, H_fix k (hdot0 j hjk), hHj j hjk]
        · rw [hd']; simp only [if_neg hjk.ne]; exact g2
        · rw [hc']; simp only [if_neg hjk.ne]; exact g3
    · rw [hQ, hf', fnew, if_pos (by omega)]
      exact house_congr (fun i hi => h.rest j (by omega) hjn i hi) hi
    · exact congrArg (· + 1) (h.refl hs)
    · obtain ⟨j, hj, z, hz⟩ := h.flag hs
      exact ⟨j, by omega, z, hz⟩

theorem inv_zero (eps : ℝ) (m n : ℕ) (A : ℕ → ℕ → ℝ) :
    Inv eps m n A 0 ⟨Dense.ofFn m n A, List.replicate n 0, List.replicate n 0, false, 0⟩ A (fun _ => 0) (fun _ => 0) :=
  ⟨rfl, replicate_eq_tab _ _, replicate_eq_tab _ _, fun _ _ h => absurd rfl h, fun _ _ => rfl, fun j hj => by omega,
    fun _ j hj => by omega, fun _ _ _ _ _ => rfl, fun _ => rfl, fun h => absurd h (by simp)⟩

theorem loop_inv {eps : ℝ} (heps : 0 < eps) {m n : ℕ} (A : ℕ → ℕ → ℝ) {L : ℕ} (hL : L ≤ n) (hLm : L ≤ m) :
    ∃ s f c d, forRange L (⟨Dense.ofFn m n A, List.replicate n 0, List.replicate n 0, false, 0⟩ : QR) (step eps m n) =
      .ret s ∧ Inv eps m n A L s f c d := by
  induction L with
  | zero => exact ⟨_, _, _, _, rfl, inv_zero eps m n A⟩
  | succ L ih =>
    obtain ⟨s, f, c, d, h1, h2⟩ := ih (by omega) (by omega)
    obtain ⟨s', f', c', d', h3, h4⟩ := step_inv heps (by omega) (by omega) h2
    exact ⟨s', f', c', d', by rw [forRange, h1, Outcome.bind_ret, h3], h4⟩

theorem maxAbs_eq {m n : ℕ} (f : ℕ → ℕ → ℝ) :
    ∃ s, maxAbs m n (Dense.ofFn m n f) = .ret s ∧ 0 ≤ s ∧ (∀ i < m, ∀ j < n, |f i j| ≤ s) ∧
      (s = 0 ∨ ∃ i < m, ∃ j < n, |f i j| = s) := by
  obtain ⟨s, hs, h0, h1, h2⟩ := forRange_rule
    (fun i (s : ℝ) => 0 ≤ s ∧ (∀ p < i, ∀ j < n, |f p j| ≤ s) ∧ (s = 0 ∨ ∃ p < m, ∃ j < n, |f p j| = s))
    m (0 : ℝ) (fun s i => forRange n s (fun s j => do
      let x ← (Dense.ofFn m n f).get i j
      Outcome.ret (if |x| > s then |x| else s)))
    ⟨le_rfl, fun p hp => by omega, Or.inl rfl⟩
    (by
      rintro i s hi ⟨h0, h1, h2⟩
      obtain ⟨t, ht, g0, g1, g2, g3⟩ := forRange_rule
        (fun j (t : ℝ) => 0 ≤ t ∧ (∀ p < i, ∀ j < n, |f p j| ≤ t) ∧ (∀ q < j, |f i q| ≤ t) ∧
          (t = 0 ∨ ∃ p < m, ∃ j < n, |f p j| = t))
        n s (fun s j => do
          let x ← (Dense.ofFn m n f).get i j
          Outcome.ret (if |x| > s then |x| else s))
        ⟨h0, h1, fun q hq => by omega, h2⟩
        (by
          rintro j t hj ⟨g0, g1, g2, g3⟩
          refine ⟨if |f i j| > t then |f i j| else t, by rw [Dense.get_ofFn _ hi hj, Outcome.bind_ret], ?_⟩
          have hle : t ≤ (if |f i j| > t then |f i j| else t) := by split_ifs with h <;> linarith
          have hle2 : |f i j| ≤ (if |f i j| > t then |f i j| else t) := by split_ifs with h <;> linarith
          refine ⟨g0.trans hle, fun p hp q hq => (g1 p hp q hq).trans hle, fun q hq => ?_, ?_⟩
          · by_cases hqj : q = j
            · subst hqj; exact hle2
            · exact (g2 q (by omega)).trans hle
          · split_ifs
            · exact Or.inr ⟨i, hi, j, hj, rfl⟩
            · exact g3)
      refine ⟨t, ht, g0, fun p hp q hq => ?_, g3⟩
      by_cases hpi : p = i
      · subst hpi; exact g2 q hq
      · exact g1 p (by omega) q hq)
  exact ⟨s, hs, h0, h1, h2⟩

/-- What the constructor leaves. -/
structure Dec (eps : ℝ) (m n : ℕ) (A : ℕ → ℕ → ℝ) (s : QR) (f : ℕ → ℕ → ℝ) (c d : ℕ → ℝ) : Prop where
  qr : s.qr = Dense.ofFn m n f
  hc : s.c = tab n c
  hd : s.d = tab n d
  good : Good m (V f) c n
  cz : ∀ j, ncols m n ≤ j → c j = 0
  err : ∀ j < n, dot m (fun i => Qt m (V f) c n (fun i => A i j) i - R f d j i)
    (fun i => Qt m (V f) c n (fun i => A i j) i - R f d j i) ≤ m * eps ^ 2
  exact : s.sing = false → ∀ j < n, ∀ i < m, Qt m (V f) c n (fun i => A i j) i = R f d j i
  dnz : s.sing = false → ¬(m = 1 ∧ n = 1 ∧ A 0 0 = 0) → ∀ j < n, d j ≠ 0
  refl : s.sing = false → s.refl = ncols m n ∧ ∀ j < ncols m n, c j ≠ 0
  flag : s.sing = true → ∃ norm, (∃ i < m, ∃ j < n, |A i j| = norm) ∧ ∃ j < n, ∃ z : ℕ → ℝ,
    ∑ i ∈ range m, (A i j - ∑ t ∈ range j, z t * A i t) ^ 2 ≤ max (m * eps ^ 2) ((eps * norm * n) ^ 2)

theorem Qt_zero {m : ℕ} {W : ℕ → ℕ → ℝ} {c : ℕ → ℝ} (k : ℕ) {x : ℕ → ℝ} (hx : ∀ i < m, x i = 0) {i : ℕ} (hi : i < m) :
    Qt m W c k x i = 0 := by
  rw [Qt_congr k (y := fun i => ∑ j ∈ (∅ : Finset ℕ), (0 : ℝ) * (fun _ _ => 0 : ℕ → ℕ → ℝ) j i) (fun i hi => by
    simp [hx i hi]) i hi, Qt_comb]
  rfl

theorem new_dec {eps : ℝ} (heps : 0 < eps) {m n : ℕ} (hnm : n ≤ m) (hn : 0 < n) (A : ℕ → ℕ → ℝ) :
    ∃ s f c d, new eps (Dense.ofFn m n A) = .ret s ∧ Dec eps m n A s f c d := by
  obtain ⟨s, f, c, d, h1, h2⟩ := loop_inv heps (m := m) (n := n) A (ncols_le m n) ((ncols_le m n).trans hnm)
  have hrows : (Dense.ofFn m n A).rows = m := rfl
  have hcols : (Dense.ofFn m n A).cols = n := rfl
  have hcz : ∀ x, Qt m (V f) c n x = Qt m (V f) c (ncols m n) x := fun x =>
    Qt_stop (ncols_le m n) (fun k hk _ => h2.cz k hk) x
  rw [new, hrows, hcols, if_neg (by omega), h1, Outcome.bind_ret]
  by_cases hmn : m = n
  · subst hmn
    have hL : ncols m m = m - 1 := by rw [ncols, if_pos rfl]
    obtain ⟨qr, sc, sd, sing, refl⟩ := s
    obtain ⟨rfl, rfl, rfl⟩ : qr = _ ∧ sc = _ ∧ sd = _ := ⟨h2.qr, h2.hc, h2.hd⟩
    obtain ⟨norm, hnorm, g0, g1, g2⟩ := maxAbs_eq (m := m) (n := m) A
    rw [if_pos rfl, last, if_neg (by omega)]
    simp only
    rw [Dense.get_ofFn _ (by omega) (by omega), Outcome.bind_ret, store_tab _ (by omega), Outcome.bind_ret, hnorm,
      Outcome.bind_ret]
    set x := f (m - 1) (m - 1) with hx
    have hlast : ∀ i < m, Qt m (V f) c m (fun i => A i (m - 1)) i = R f (fun t => if t = m - 1 then x else d t) (m - 1) i := by
      intro i hi
      rw [hcz, ← h2.rest (m - 1) (by omega) (by omega) i hi, R]
      by_cases h3 : i < m - 1
      · rw [if_pos h3]
      · rw [if_neg h3, if_pos (by omega), if_pos rfl, hx, show i = m - 1 by omega]
    have hRj : ∀ j < m - 1, R f (fun t => if t = m - 1 then x else d t) j = R f d j := by
      intro j hj
      funext i
      rw [R, R, if_neg (show ¬ j = m - 1 by omega)]
    have hsing : (if |x| < eps * norm * m then true else sing) = false → sing = false ∧ eps * norm * m ≤ |x| := by
      intro h
      split_ifs at h with h3
      exact ⟨h, le_of_not_gt h3⟩
    refine ⟨_, f, c, fun t => if t = m - 1 then x else d t, rfl, rfl, rfl, rfl, h2.good, h2.cz, fun j hj => ?_,
      fun hs j hj i hi => ?_, fun hs hne j hj => ?_, fun hs => ?_, fun hs => ?_⟩
    · by_cases hjm : j = m - 1
      · rw [hjm, dot, sum_eq_zero]
        · positivity
        · intro i hi
          rw [hlast i (mem_range.1 hi), sub_self, zero_mul]
      · rw [hRj j (by omega), hcz]
        exact h2.err j (by omega)
    · by_cases hjm : j = m - 1
      · rw [hjm, hlast i hi]
      · rw [hRj j (by omega), hcz]
        exact ((h2.exact (hsing hs).1 j (by omega)).1 i hi)
    · obtain ⟨hs1, hs2⟩ := hsing hs
      by_cases hjm : j = m - 1
      · rw [if_pos hjm]
        have hnpos : 0 < norm := by
          rcases g0.lt_or_eq with h | h
          · exact h
          · exfalso
            have hA : ∀ i < m, ∀ j < m, A i j = 0 := fun i hi j hj => by
              have := g1 i hi j hj
              rw [← h] at this
              exact abs_eq_zero.1 (le_antisymm this (abs_nonneg _))
            by_cases hm1 : m = 1
            · exact hne ⟨hm1, hm1, hA 0 hn 0 hn⟩
            · obtain ⟨e1, e2, _⟩ := h2.exact hs1 0 (by omega)
              have := e1 0 hn
              rw [Qt_zero _ (fun i hi => hA i hi 0 hn) hn, R, if_neg (by omega), if_pos rfl] at this
              exact e2 this.symm
        intro h0
        rw [h0, abs_zero] at hs2
        have : (0 : ℝ) < m := by exact_mod_cast hn
        have : 0 < eps * norm * m := by positivity
        linarith
      · rw [if_neg hjm]
        exact (h2.exact hs1 j (by omega)).2.1
    · obtain ⟨hs1, _⟩ := hsing hs
      exact ⟨h2.refl hs1, fun j hj => (h2.exact hs1 j hj).2.2⟩
    · obtain ⟨p, hp, q, hq, hpq⟩ : ∃ i < m, ∃ j < m, |A i j| = norm := by
        rcases g2 with h0 | h
        · exact ⟨0, hn, 0, hn, by rw [h0]; exact le_antisymm (h0 ▸ g1 0 hn 0 hn) (abs_nonneg _)⟩
        · exact h
      refine ⟨norm, ⟨p, hp, q, hq, hpq⟩, ?_⟩
      by_cases hsg : sing = true
      · obtain ⟨j, hj, z, hz⟩ := h2.flag hsg
        exact ⟨j, by omega, z, hz.trans (le_max_left _ _)⟩
      · have hlt : |x| < eps * norm * m := by
          simp only at hs
          split_ifs at hs with h
          · exact h
          · exact absurd hs hsg
        obtain ⟨z, hz⟩ := near_comb (k := m - 1) (B := (eps * norm * m) ^ 2) h2.good (ncols_le m m)
          (fun j hj => ⟨(h2.exact (by simpa using hsg) j (by omega)).1, (h2.exact (by simpa using hsg) j (by omega)).2.1⟩)
          (by
            have : Ico (m - 1) m = {m - 1} := by
              ext t; rw [mem_Ico, mem_singleton]; omega
            rw [this, sum_singleton, ← h2.rest (m - 1) (by omega) (by omega) (m - 1) (by omega), ← hx, ← sq_abs]
            exact pow_le_pow_left₀ (abs_nonneg _) hlt.le 2) (by omega)
        exact ⟨m - 1, by omega, z, hz.trans (le_max_right _ _)⟩
  · rw [if_neg hmn]
    have hL : ncols m n = n := by rw [ncols, if_neg hmn]
    rw [hL] at h2
    refine ⟨s, f, c, d, rfl, h2.qr, h2.hc, h2.hd, h2.good, fun j hj => h2.cz j (by omega), h2.err,
      fun hs j hj => (h2.exact hs j hj).1, fun hs _ j hj => (h2.exact hs j hj).2.1, fun hs => ?_, fun hs => ?_⟩
    · rw [hL]
      exact ⟨h2.refl hs, fun j hj => (h2.exact hs j hj).2.2⟩
    · obtain ⟨j, hj, z, hz⟩ := h2.flag hs
      exact ⟨_, ⟨0, by omega, 0, hn, rfl⟩, j, hj, z, hz.trans (le_max_left _ _)⟩

end Verif.LinAlg.QR
