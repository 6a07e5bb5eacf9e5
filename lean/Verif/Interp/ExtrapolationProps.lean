import Verif.Interp.Extrapolation
import Verif.Interp.PolyLemmas

/-!
# Extrapolation to a zero step: proofs
-/

set_option autoImplicit false

namespace Verif.Interp.Ext

open Verif Integ Polynomial

/-! ## Neville's scheme -/

/-- All abscissas are apart by the threshold at least. -/
def Apart (n : ℕ) (x : ℕ → ℝ) : Prop := ∀ i j, i < j → j < n → (1 : ℝ) / 10 ^ 30 ≤ |x i - x j|

theorem apart_good {n : ℕ} {x : ℕ → ℝ} (h : Apart n x) {i m : ℕ} (hi : i + (m + 1) < n) : ¬ Bad (x (0 + i) - x (0 + i + (m + 1))) := by
  unfold Bad divisionThreshold
  rw [zero_add]
  exact not_lt.2 (h i (i + (m + 1)) (by omega) hi)

/-- A column with a divisor that is too small ends the extrapolation. -/
theorem column_bad (x : ℕ → ℝ) (K m : ℕ) (hm : 0 < m) (c d : ℕ → ℝ) (hb : ∃ i, i + m < K ∧ Bad (x i - x (i + m))) :
    forRange (K - m) (some (tab K c, tab K d)) (nevilleEntry Bad (tab K x) 0 m) = .ret none := by
  obtain ⟨t, ht, hP⟩ := forRange_rule
    (fun k (t : Option (List ℝ × List ℝ)) => t = none ∨ (∃ c' d', t = some (tab K c', tab K d')) ∧ ∀ i < k, ¬ Bad (x i - x (i + m)))
    (K - m) (some (tab K c, tab K d)) (nevilleEntry Bad (tab K x) 0 m)
    (Or.inr ⟨⟨c, d, rfl⟩, fun i hi => by omega⟩)
    (by
      rintro k t hk (rfl | ⟨⟨c', d', rfl⟩, hg⟩)
      · exact ⟨none, rfl, Or.inl rfl⟩
      · by_cases hbk : Bad (x k - x (k + m))
        · refine ⟨none, ?_, Or.inl rfl⟩
          simp only [nevilleEntry, zero_add]
          rw [index_tab x (show k < K by omega), index_tab x (show k + m < K by omega), index_tab c' (show k + 1 < K by omega),
            index_tab d' (show k < K by omega)]
          simp only [Outcome.bind_ret]
          rw [if_pos hbk]
        · refine ⟨some (tab K fun i => if i = k then x k * ((c' (k + 1) - d' k) / (x k - x (k + m))) else c' i,
            tab K fun i => if i = k then x (k + m) * ((c' (k + 1) - d' k) / (x k - x (k + m))) else d' i), ?_, Or.inr ⟨⟨_, _, rfl⟩, fun i hi => ?_⟩⟩
          · simp only [nevilleEntry, zero_add]
            rw [index_tab x (show k < K by omega), index_tab x (show k + m < K by omega), index_tab c' (show k + 1 < K by omega),
              index_tab d' (show k < K by omega)]
            simp only [Outcome.bind_ret]
            rw [if_neg hbk, store_tab d' (show k < K by omega), store_tab c' (show k < K by omega)]
            rfl
          · rcases Nat.lt_succ_iff_lt_or_eq.mp hi with h' | rfl
            · exact hg i h'
            · exact hbk)
  rcases hP with rfl | ⟨-, hg⟩
  · exact ht
  · obtain ⟨i, hi, hbi⟩ := hb
    exact absurd hbi (hg i (by omega))

theorem correct_range (K m : ℕ) (hm : m + 1 < K) (t : Tableau) (c d : ℕ → ℝ) (p : ℕ) (hp : p + m < K) (hns : t.ns = (p : ℤ) - 1) :
    ∃ t' p', correct K (m + 1) t (tab K c) (tab K d) = .ret t' ∧ p' + (m + 1) < K ∧ t'.ns = ((p' : ℕ) : ℤ) - 1 ∧ t'.c = tab K c ∧
      t'.d = tab K d := by
  rw [correct, hns]
  by_cases hcond : 2 * ((p : ℤ) - 1 + 1) < (K : ℤ) - ((m + 1 : ℕ) : ℤ)
  · rw [if_pos hcond]
    have hidx : indexInt (tab K c) ((p : ℤ) - 1 + 1) = .ret (c p) := by
      rw [indexInt, if_neg (by omega)]
      have : ((p : ℤ) - 1 + 1).toNat = p := by omega
      rw [this, index_tab c (by omega)]
    rw [hidx]
    simp only [Outcome.bind_ret]
    exact ⟨_, p, rfl, by omega, rfl, rfl, rfl⟩
  · rw [if_neg hcond]
    obtain ⟨q, rfl⟩ : ∃ q, p = q + 1 := ⟨p - 1, by push_cast at hcond; omega⟩
    have hidx : indexInt (tab K d) (((q + 1 : ℕ) : ℤ) - 1) = .ret (d q) := by
      rw [indexInt, if_neg (by push_cast; omega)]
      have : (((q + 1 : ℕ) : ℤ) - 1).toNat = q := by omega
      rw [this, index_tab d (by omega)]
    rw [hidx]
    simp only [Outcome.bind_ret]
    refine ⟨_, q, rfl, by omega, ?_, rfl, rfl⟩
    dsimp only
    push_cast
    ring

theorem nevLoop_bad (x y : ℕ → ℝ) (K : ℕ) (n m : ℕ) (hnm : n + m + 1 = K) (t : Tableau) (p : ℕ) (hp : p + m < K)
    (hns : t.ns = (p : ℤ) - 1) (c d : ℕ → ℝ) (hc : t.c = tab K c) (hd : t.d = tab K d) (hok : ColOk x y 0 K m c d)
    (hb : ∃ i k, m < k ∧ i + k < K ∧ Bad (x i - x (i + k))) :
    ∃ v e k, nevLoop (tab K x) K n (m + 1) t = .ret ⟨v, e, k, false⟩ ∧ m < k ∧ k < K := by
  induction n generalizing m t p c d with
  | zero =>
    obtain ⟨i, k, h1, h2, -⟩ := hb
    omega
  | succ n ih =>
    rw [nevLoop]
    rw [hc, hd]
    by_cases hcol : ∃ i, i + (m + 1) < K ∧ Bad (x i - x (i + (m + 1)))
    · rw [column_bad x K (m + 1) (by omega) c d hcol]
      simp only [Outcome.bind_ret]
      exact ⟨_, _, _, rfl, by omega, by omega⟩
    · have hgood : ∀ i, i + (m + 1) < K → ¬ Bad (x (0 + i) - x (0 + i + (m + 1))) := fun i hi hbi => hcol ⟨i, hi, by rwa [zero_add] at hbi⟩
      obtain ⟨c', d', hf, hok'⟩ := column_step x y (tab K x) 0 K m c d (fun i hi => index_tab x (by omega)) Bad hgood hok
      rw [hf]
      simp only [Outcome.bind_ret]
      obtain ⟨t', p', h1, h2, h3, h4, h5⟩ := correct_range K m (by omega) t c' d' p hp hns
      rw [h1, Outcome.bind_ret]
      obtain ⟨v, e, k, r1, r2, r3⟩ := ih (m + 1) (by omega) t' p' h2 h3 c' d' h4 h5 hok' (by
        obtain ⟨i, k, a1, a2, a3⟩ := hb
        refine ⟨i, k, ?_, a2, a3⟩
        rcases Nat.lt_or_ge (m + 1) k with h | h
        · exact h
        · exfalso
          have : k = m + 1 := by omega
          subst this
          exact hcol ⟨i, a2, a3⟩)
      exact ⟨v, e, k, r1, by omega, r3⟩

theorem nevLoop_good (x x' y : ℕ → ℝ) (K : ℕ) (hinj : Function.Injective x') (hx : ∀ i < K, x' i = x i) (hap : Apart K x) (n m : ℕ)
    (hnm : n + m + 1 = K) (t : Tableau) (ht : PolyInv x' y 0 K m t) :
    ∃ e, nevLoop (tab K x) K n (m + 1) t = .ret ⟨nev x' y 0 (K - 1), |e|, K, true⟩ ∧
      (2 ≤ K → e = nev x' y 0 (K - 1) - nev x' y 0 (K - 2) ∨ e = nev x' y 0 (K - 1) - nev x' y 1 (K - 2)) := by
  induction n generalizing m t with
  | zero =>
    obtain ⟨p, c, d, hp, -, hss, -, -, -, hdss⟩ := ht
    obtain rfl : p = 0 := by omega
    refine ⟨t.dss, ?_, fun hK => ?_⟩
    · rw [nevLoop, hss, show K - 1 = m by omega, zero_add]
    · have := hdss (by omega)
      rw [show K - 1 = m by omega, show K - 2 = m - 1 by omega]
      simpa using this
  | succ n ih =>
    obtain ⟨p, c, d, hp, hns, hss, hc, hd, hok, -⟩ := ht
    rw [nevLoop]
    have hgood : ∀ i, i + (m + 1) < K → ¬ Bad (x' (0 + i) - x' (0 + i + (m + 1))) := fun i hi => by
      rw [hx (0 + i) (by omega), hx (0 + i + (m + 1)) (by omega)]
      exact apart_good hap hi
    obtain ⟨c', d', hf, hok'⟩ := column_step x' y (tab K x) 0 K m c d (fun i hi => by rw [index_tab x (by omega), hx i (by omega)]) Bad hgood hok
    rw [hc, hd, hf]
    simp only [Outcome.bind_ret]
    obtain ⟨t', h1, h2⟩ := correct_inv x' y hinj 0 K m (by omega) t c' d' hok' p hp hns hss
    rw [h1, Outcome.bind_ret]
    exact ih (m + 1) (by omega) t' h2

theorem start_spec (x y : ℕ → ℝ) (K : ℕ) (hK : 2 ≤ K) : ∃ st c d,
    forRange K ⟨0, |x 0|, List.replicate K 0, List.replicate K 0⟩ (startStep (tab K x) (tab K y) 0) = .ret st ∧ st.ns < K ∧
      st.c = tab K c ∧ st.d = tab K d ∧ ∀ i < K, c i = y i ∧ d i = y i := by
  obtain ⟨st, hst, hns, c, d, hc, hd, hcd⟩ := forRange_rule
    (fun k (st : Start) => st.ns ≤ k - 1 ∧ ∃ c d, st.c = tab K c ∧ st.d = tab K d ∧ ∀ i, i < k → c i = y i ∧ d i = y i)
    K (⟨0, |x 0|, List.replicate K 0, List.replicate K 0⟩ : Start) (startStep (tab K x) (tab K y) 0)
    ⟨le_rfl, fun _ => 0, fun _ => 0, replicate_eq_tab K 0, replicate_eq_tab K 0, fun i hi => absurd hi (Nat.not_lt_zero _)⟩
    (by
      rintro k st hk ⟨hns, c, d, hc, hd, hcd⟩
      have hn1 : (nearest st k |x k|).ns ≤ k + 1 - 1 := by
        rw [nearest]
        split
        · dsimp only
          omega
        · omega
      have hn2 : (nearest st k |x k|).c = tab K c ∧ (nearest st k |x k|).d = tab K d := by
        rw [nearest]
        split
        · exact ⟨hc, hd⟩
        · exact ⟨hc, hd⟩
      refine ⟨⟨(nearest st k |x k|).ns, (nearest st k |x k|).dif,
        tab K fun i => if i = k then y k else c i, tab K fun i => if i = k then y k else d i⟩, ?_, hn1, _, _, rfl, rfl, ?_⟩
      · simp only [startStep, zero_add]
        rw [index_tab x hk, index_tab y hk]
        simp only [Outcome.bind_ret]
        rw [hn2.1, hn2.2, store_tab c hk, store_tab d hk]
        rfl
      · intro i hi
        rcases Nat.lt_succ_iff_lt_or_eq.mp hi with h' | rfl
        · rw [if_neg (by omega), if_neg (by omega)]
          exact hcd i h'
        · simp)
  exact ⟨st, c, d, hst, by omega, hc, hd, hcd⟩

/-- **C140.**  `NevilleExtrapolate` with abscissas apart by the threshold converges to the value at zero of the polynomial through all
the points; the error estimate is the change from the polynomial through all but the last or all but the first point. -/
theorem neville_spec (x y : ℕ → ℝ) (n : ℕ) (hn : 2 ≤ n) (hap : Apart n x) :
    ∃ e, neville (tab n y) (tab n x) = .ret ⟨(Lagrange.interpolate (Finset.range n) x y).eval 0, |e|, n, true⟩ ∧
      (e = (Lagrange.interpolate (Finset.range n) x y).eval 0 - (Lagrange.interpolate (Finset.range (n - 1)) x y).eval 0 ∨
        e = (Lagrange.interpolate (Finset.range n) x y).eval 0 - (Lagrange.interpolate (Finset.Ico 1 n) x y).eval 0) := by
  have hdist : Distinct n x := fun i j hij hj h => by
    have := hap i j hij hj
    rw [h, sub_self, abs_zero] at this
    norm_num at this
  obtain ⟨x', hinj, hxx⟩ := exists_injective n x hdist
  unfold neville
  rw [length_tab, length_tab, if_neg (by omega), index_tab x (by omega), Outcome.bind_ret]
  obtain ⟨st, c, d, h1, h2, h3, h4, h5⟩ := start_spec x y n hn
  rw [h1, Outcome.bind_ret, index_tab y h2, Outcome.bind_ret]
  obtain ⟨e, r1, r2⟩ := nevLoop_good x x' y n hinj hxx hap (n - 1) 0 (by omega) ⟨(st.ns : ℤ) - 1, y st.ns, 0, st.c, st.d⟩
    ⟨st.ns, c, d, by omega, rfl, by simp [nev_zero], h3, h4, fun i hi => by simpa [colCD] using h5 i (by omega), fun h => absurd h (lt_irrefl 0)⟩
  have hcongr : ∀ s : Finset ℕ, (∀ k ∈ s, k < n) → (Lagrange.interpolate s x' y).eval 0 = (Lagrange.interpolate s x y).eval 0 := by
    intro s hs
    have hin : Set.InjOn x s := by
      intro a ha b hb hab
      rw [← hxx a (hs a ha), ← hxx b (hs b hb)] at hab
      exact hinj hab
    congr 1
    refine (Lagrange.eq_interpolate_of_eval_eq y hin (Lagrange.degree_interpolate_lt y hinj.injOn) fun k hk => ?_)
    rw [← hxx k (hs k hk), Lagrange.eval_interpolate_at_node y hinj.injOn hk]
  have e1 : Finset.Icc 0 (0 + (n - 1)) = Finset.range n := by ext k; simp only [Finset.mem_Icc, Finset.mem_range]; omega
  have e2 : Finset.Icc 0 (0 + (n - 2)) = Finset.range (n - 1) := by ext k; simp only [Finset.mem_Icc, Finset.mem_range]; omega
  have e3 : Finset.Icc 1 (1 + (n - 2)) = Finset.Ico 1 n := by ext k; simp only [Finset.mem_Icc, Finset.mem_Ico]; omega
  unfold nev at r1 r2
  rw [e1, hcongr _ (fun k hk => Finset.mem_range.1 hk)] at r1
  have r3 := r2 hn
  rw [e1, e2, e3, hcongr _ (fun k hk => Finset.mem_range.1 hk), hcongr _ (fun k hk => by have := Finset.mem_range.1 hk; omega),
    hcongr _ (fun k hk => (Finset.mem_Ico.1 hk).2)] at r3
  exact ⟨e, r1, r3⟩

/-- Data that come from a polynomial of degree below the number of points are extrapolated exactly. -/
theorem neville_exact (p : ℝ[X]) (x : ℕ → ℝ) (n : ℕ) (hn : 2 ≤ n) (hap : Apart n x) (hp : p.degree < n) :
    ∃ e, neville (tab n fun i => p.eval (x i)) (tab n x) = .ret ⟨p.eval 0, e, n, true⟩ := by
  obtain ⟨e, h1, -⟩ := neville_spec x (fun i => p.eval (x i)) n hn hap
  refine ⟨|e|, ?_⟩
  rw [h1]
  have hin : Set.InjOn x (Finset.range n) := by
    intro a ha b hb hab
    by_contra hne
    simp only [Finset.coe_range, Set.mem_Iio] at ha hb
    rcases lt_or_gt_of_ne hne with h | h
    · have := hap a b h hb; rw [hab, sub_self, abs_zero] at this; norm_num at this
    · have := hap b a h ha; rw [hab, sub_self, abs_zero] at this; norm_num at this
  rw [← Lagrange.eq_interpolate_of_eval_eq (fun i => p.eval (x i)) hin (by rwa [Finset.card_range]) fun k _ => rfl]

/-- Otherwise it does not claim to converge: fewer than two points, tables of different lengths, or two abscissas too close. -/
theorem neville_not (xs ys : List ℝ) (h : ys.length < 2 ∨ xs.length ≠ ys.length ∨ ¬ Apart ys.length (fun i => xs.getD i 0)) :
    ∃ v e k, neville ys xs = .ret ⟨v, e, k, false⟩ := by
  by_cases hsz : ys.length < 2 ∨ xs.length ≠ ys.length
  · unfold neville
    rw [if_pos hsz]
    exact ⟨_, _, _, rfl⟩
  · have hlen : xs.length = ys.length := by by_contra hc; exact hsz (Or.inr hc)
    have hn : 2 ≤ ys.length := by by_contra hc; exact hsz (Or.inl (by omega))
    have hap : ¬ Apart ys.length (fun i => xs.getD i 0) := by
      rcases h with h | h | h
      · exact absurd (Or.inl h) hsz
      · exact absurd (Or.inr h) hsz
      · exact h
    have hxs : xs = tab ys.length (fun i => xs.getD i 0) := by
      refine List.ext_getElem (by simp [hlen]) fun i h1 h2 => ?_
      simp [tab, h1]
    have hys : ys = tab ys.length (fun i => ys.getD i 0) := by
      refine List.ext_getElem (by simp) fun i h1 h2 => ?_
      simp [tab, h1]
    set n := ys.length
    set x : ℕ → ℝ := fun i => xs.getD i 0
    set y : ℕ → ℝ := fun i => ys.getD i 0
    rw [hxs, hys]
    unfold neville
    rw [length_tab, length_tab, if_neg (by omega), index_tab x (by omega), Outcome.bind_ret]
    obtain ⟨st, c, d, h1, h2, h3, h4, h5⟩ := start_spec x y n hn
    rw [h1, Outcome.bind_ret, index_tab y h2, Outcome.bind_ret]
    have hb : ∃ i k, 0 < k ∧ i + k < n ∧ Bad (x i - x (i + k)) := by
      unfold Apart at hap
      push Not at hap
      obtain ⟨i, j, hij, hj, hlt⟩ := hap
      exact ⟨i, j - i, by omega, by omega, by rw [show i + (j - i) = j by omega]; exact hlt⟩
    obtain ⟨v, e, k, r, -, -⟩ := nevLoop_bad x y n (n - 1) 0 (by omega) ⟨(st.ns : ℤ) - 1, y st.ns, 0, st.c, st.d⟩ st.ns (by omega) rfl c d h3 h4
      (fun i hi => by simpa [colCD] using h5 i (by omega)) hb
    exact ⟨v, e, k, r⟩

/-- Not vacuous: a parabola from three points. -/
example : ∃ e, neville (tab 3 fun i => (C 5 + C 2 * X + X ^ 2 : ℝ[X]).eval ((fun i : ℕ => (i : ℝ) + 1) i)) (tab 3 fun i => (i : ℝ) + 1) =
    .ret ⟨5, e, 3, true⟩ := by
  have := neville_exact (C 5 + C 2 * X + X ^ 2) (fun i => (i : ℝ) + 1) 3 (by norm_num) (by
    intro i j hij hj
    interval_cases j <;> interval_cases i <;> norm_num) (by
    have : (C 5 + C 2 * X + X ^ 2 : ℝ[X]).degree ≤ 2 := by compute_degree
    exact lt_of_le_of_lt this (by norm_num))
  simpa using this

/-! ## Geometric steps -/

open Deriv in
theorem extLoop_close {big : ℝ} {eval : ℝ → ℝ} {con safe D E h0 : ℝ} (hcon : 1 < con * con) (hE : 0 ≤ E)
    (hb : ∀ t, t ≠ 0 → |t| ≤ |h0| → |eval t - D| ≤ E) {N : ℕ} : ∀ (n it : ℕ) (prev : List ℝ) (hh err ans : ℝ),
    n + prev.length ≤ N + 1 → ColClose (con * con) D E 0 prev → hh ≠ 0 → |hh| ≤ |h0| →
    |ans - D| ≤ magnify (con * con) N * E →
    ∃ r, extLoop big eval con safe n it prev hh err ans = .ret r ∧ |r.value - D| ≤ magnify (con * con) N * E ∧ r.err ≤ err ∧
      r.iters ≤ it + n ∧ (r.conv = true ↔ r.err < big) := by
  intro n
  induction n with
  | zero => intro it prev hh err ans _ _ _ _ ha; exact ⟨_, rfl, ha, le_rfl, le_rfl, by simp [extResult]⟩
  | succ n ih =>
    intro it prev hh err ans hN hp hh0 hhb ha
    have hc0 : con ≠ 0 := by
      rintro rfl
      norm_num at hcon
    have hc1 : 1 < |con| := by
      rw [← sq] at hcon
      exact (one_lt_sq_iff_one_lt_abs _).mp hcon
    have hlt : |hh / con| ≤ |h0| := by
      rw [abs_div]
      exact (div_le_self (abs_nonneg _) hc1.le).trans hhb
    have hb1 := hb (hh / con) (div_ne_zero hh0 hc0) hlt
    have hb0 : |eval (hh / con) - D| ≤ magnify (con * con) 0 * E := by simpa [magnify] using hb1
    obtain ⟨r, h1, h2, h3, h4, h5⟩ := richColumn_close hcon (N := N) prev 0 (eval (hh / con)) err ans (by omega) hp hb0 ha hE
    rw [zero_add, pow_one] at h1
    simp only [extLoop]
    rw [if_neg hc0, h1]
    dsimp only [Outcome.bind]
    split_ifs with hbr
    · exact ⟨_, rfl, h4, h5, by simp [extResult], by simp [extResult]⟩
    · obtain ⟨q, h6, h7, h8, h9, h10⟩ := ih (it + 1) (eval (hh / con) :: r.1) (hh / con) r.2.1 r.2.2 (by simp [h2]; omega) ⟨hb0, h3⟩
        (div_ne_zero hh0 hc0) hlt h4
      exact ⟨q, h6, h7, h8.trans h5, by omega, h10⟩

/-- **C140.**  `Extrapolate` with steps that shrink: if the approximations are within `E` of `D` for all steps up to the first one,
the result is within `E` times the product of the magnifications `(con^(2j) + 1) / (con^(2j) - 1)`, whatever entry of the tableau it
settles on; it uses at most `maxIter` evaluations, and `converged` means that an extrapolation was made. -/
theorem extrapolateTo_close (big : ℝ) (eval : ℝ → ℝ) (D E h0 con safe : ℝ) (maxIter : ℕ) (hh : 1 / 10 ^ 30 ≤ |h0|) (hm : 0 < maxIter)
    (hcon : 1 < |con|) (hE : 0 ≤ E) (hb : ∀ t, t ≠ 0 → |t| ≤ |h0| → |eval t - D| ≤ E) :
    ∃ r, extrapolateTo big eval h0 con maxIter safe = .ret r ∧
      |r.value - D| ≤ (∏ m ∈ Finset.range (maxIter - 1), ((con * con) ^ (m + 1) + 1) / ((con * con) ^ (m + 1) - 1)) * E ∧
      r.err ≤ big ∧ r.iters ≤ maxIter ∧ (r.conv = true ↔ r.err < big) := by
  have hc : 1 < con * con := by
    rw [← sq]
    exact (one_lt_sq_iff_one_lt_abs _).mpr hcon
  have h00 : h0 ≠ 0 := by
    rintro rfl
    rw [abs_zero] at hh
    norm_num at hh
  simp only [extrapolateTo]
  rw [if_neg (by unfold divisionThreshold; exact not_lt.2 hh), if_neg (by omega), if_neg (by omega)]
  have h1 := hb h0 h00 le_rfl
  obtain ⟨r, a1, a2, a3, a4, a5⟩ := extLoop_close (big := big) (safe := safe) hc hE hb (N := maxIter - 1) ((maxIter : ℤ).toNat - 1) 1 [eval h0] h0 big
    (eval h0) (by simp) ⟨by simpa [Deriv.magnify] using h1, trivial⟩ h00 le_rfl (h1.trans (le_mul_of_one_le_left hE (Deriv.one_le_magnify hc _)))
  refine ⟨r, a1, a2, a3, ?_, a5⟩
  simp only [Int.toNat_natCast] at a4
  omega

open Deriv in
theorem extLoop_exact {big : ℝ} {eval : ℝ → ℝ} {c0 c1 con safe : ℝ} (hcon : 1 < con * con)
    (hb : ∀ t, t ≠ 0 → eval t = c0 + c1 * t ^ 2) : ∀ (n k it : ℕ) (hh err : ℝ), hh ≠ 0 → 0 ≤ err →
    ∃ r, extLoop big eval con safe n it (eval hh :: List.replicate (k + 1) c0) hh err c0 = .ret r ∧ r.value = c0 ∧ (n ≠ 0 → r.err = 0) ∧
      (err = 0 → r.err = 0) := by
  intro n
  induction n with
  | zero => intro k it hh err _ _; exact ⟨_, rfl, rfl, fun h => absurd rfl h, fun h => h⟩
  | succ n ih =>
    intro k it hh err hh0 he
    have hc0 : con ≠ 0 := by
      rintro rfl
      norm_num at hcon
    have hpl : eval (hh / con) * (con * con) - eval hh = c0 * (con * con - 1) := by
      rw [hb _ hh0, hb _ (div_ne_zero hh0 hc0)]
      field_simp
      ring
    rw [extLoop, if_neg hc0, richColumn_quadratic hcon (k + 1) he hpl]
    simp only [Outcome.bind, Nat.succ_ne_zero, if_false]
    split_ifs with hbr
    · exact ⟨_, rfl, rfl, fun _ => rfl, fun _ => rfl⟩
    · obtain ⟨r, h1, h2, -, h3⟩ := ih (k + 1) (it + 1) (hh / con) 0 (div_ne_zero hh0 hc0) le_rfl
      exact ⟨r, h1, h2, fun _ => h3 rfl, fun _ => h3 rfl⟩

/-- **C140.**  `Extrapolate` is exact when the error is a multiple of the square of the step, from depth two on. -/
theorem extrapolateTo_exact {big : ℝ} {eval : ℝ → ℝ} {c0 c1 h0 : ℝ} {maxIter : ℕ} {con safe : ℝ} (hh : 1 / 10 ^ 30 ≤ |h0|) (hm : 2 ≤ maxIter)
    (hcon : 1 < |con|) (hb : ∀ t, t ≠ 0 → eval t = c0 + c1 * t ^ 2) (hbig : |eval h0 - c0| ≤ big) :
    ∃ r, extrapolateTo big eval h0 con maxIter safe = .ret r ∧ r.value = c0 := by
  have hc : 1 < con * con := by
    rw [← sq]
    exact (one_lt_sq_iff_one_lt_abs _).mpr hcon
  have hc0 : con ≠ 0 := by
    rintro rfl
    norm_num at hcon
  have h00 : h0 ≠ 0 := by
    rintro rfl
    rw [abs_zero] at hh
    norm_num at hh
  obtain ⟨m, rfl⟩ : ∃ m, maxIter = m + 2 := ⟨maxIter - 2, by omega⟩
  have hbig0 : 0 ≤ big := (abs_nonneg _).trans hbig
  have hpl : eval (h0 / con) * (con * con) - eval h0 = c0 * (con * con - 1) := by
    rw [hb _ h00, hb _ (div_ne_zero h00 hc0)]
    field_simp
    ring
  have hle : |c0 - eval (h0 / con)| ≤ |c0 - eval h0| := by
    rw [hb _ h00, hb _ (div_ne_zero h00 hc0), show c0 - (c0 + c1 * (h0 / con) ^ 2) = -(c1 * (h0 / con) ^ 2) by ring,
      show c0 - (c0 + c1 * h0 ^ 2) = -(c1 * h0 ^ 2) by ring, abs_neg, abs_neg, abs_mul, abs_mul]
    refine mul_le_mul_of_nonneg_left ?_ (abs_nonneg _)
    rw [abs_of_nonneg (by positivity), abs_of_nonneg (by positivity), div_pow, sq con]
    exact div_le_self (by positivity) hc.le
  have hmax : max |c0 - eval (h0 / con)| |c0 - eval h0| = |c0 - eval h0| := max_eq_right hle
  simp only [extrapolateTo]
  rw [if_neg (by unfold divisionThreshold; exact not_lt.2 hh), if_neg (by omega), if_neg (by omega),
    show ((m + 2 : ℕ) : ℤ).toNat - 1 = m + 1 by omega, extLoop, if_neg hc0,
    show [eval h0] = eval h0 :: List.replicate 0 c0 from rfl, Deriv.richColumn_quadratic hc 0 hbig0 hpl, hmax]
  have hbig' : |c0 - eval h0| ≤ big := by rwa [abs_sub_comm]
  simp only [Outcome.bind, if_true, if_pos hbig']
  split_ifs with hbr
  · exact ⟨_, rfl, rfl⟩
  · obtain ⟨r, h1, h2, -⟩ := extLoop_exact (big := big) (safe := safe) hc hb m 0 2 (h0 / con) |c0 - eval h0| (div_ne_zero h00 hc0) (abs_nonneg _)
    exact ⟨r, h1, h2⟩

/-- A first step below the threshold gives zero with the largest error, a negative depth throws, and depth zero is undefined. -/
theorem extrapolateTo_edge (big : ℝ) (eval : ℝ → ℝ) (h0 con safe : ℝ) (maxIter : ℤ) :
    (|h0| < 1 / 10 ^ 30 → extrapolateTo big eval h0 con maxIter safe = .ret ⟨0, big, 0, false⟩) ∧
    (1 / 10 ^ 30 ≤ |h0| → maxIter < 0 → extrapolateTo big eval h0 con maxIter safe = .exn .lengthError) ∧
    (1 / 10 ^ 30 ≤ |h0| → maxIter = 0 → extrapolateTo big eval h0 con maxIter safe = .ub) := by
  unfold extrapolateTo divisionThreshold
  refine ⟨fun h => by rw [if_pos h], fun h hm => by rw [if_neg (not_lt.2 h), if_pos hm], fun h hm => ?_⟩
  rw [if_neg (not_lt.2 h), if_neg (by omega), if_pos hm]

/-- Not vacuous: an error of three times the square of the step. -/
example : ∃ r, extrapolateTo 1000 (fun t => 2 + 3 * t ^ 2) 1 (7 / 5) (10 : ℕ) 2 = .ret r ∧ r.value = 2 :=
  extrapolateTo_exact (c1 := 3) (by norm_num) (by norm_num) (by rw [abs_of_pos] <;> norm_num) (fun t _ => rfl) (by norm_num)

/-! ## Known order -/

/-- **C140.**  If the error is exactly `c * h ^ p`, `SimpleExtrapolate` returns the limit; if moreover `r ^ p > 1`, then
`SimpleErrorEstimate` is the error of the value with the smaller step. -/
theorem simple_spec (A c h r : ℝ) (p : ℤ) (hr : r ≠ 0) (hrp : r ^ p ≠ 1) :
    simple (A + c * h ^ p) (A + c * (h / r) ^ p) r p = .ret A ∧
    (1 < r ^ p → simpleError (A + c * h ^ p) (A + c * (h / r) ^ p) r p = .ret |A + c * (h / r) ^ p - A|) := by
  have hz : r ^ p ≠ 0 := zpow_ne_zero p hr
  have h1 : r ^ p - 1 ≠ 0 := sub_ne_zero.2 hrp
  have hpw : powInt r p = .ret (r ^ p) := by
    unfold powInt
    rw [if_neg (by rintro ⟨h, -⟩; exact hr h)]
  constructor
  · unfold simple
    rw [hpw, Outcome.bind_ret, fdiv, if_neg h1, div_zpow]
    congr 1
    field_simp
    ring
  · intro hgt
    unfold simpleError
    rw [hpw, Outcome.bind_ret, fdiv, if_neg h1, div_zpow]
    congr 1
    have e1 : A + c * (h ^ p / r ^ p) - (A + c * h ^ p) = -((r ^ p - 1) * (c * (h ^ p / r ^ p))) := by
      field_simp
      ring
    rw [e1, abs_neg, abs_mul, abs_of_pos (by linarith : (0 : ℝ) < r ^ p - 1), add_sub_cancel_left]
    field_simp

/-- With a ratio of one there is no result. -/
theorem simple_one (a b : ℝ) (p : ℤ) : simple a b 1 p = .ub ∧ simpleError a b 1 p = .ub := by
  have hpw : powInt 1 p = .ret 1 := by
    unfold powInt
    rw [if_neg (by rintro ⟨h, -⟩; norm_num at h), one_zpow]
  unfold simple simpleError
  rw [hpw, Outcome.bind_ret, Outcome.bind_ret, fdiv, fdiv, sub_self, if_pos rfl, if_pos rfl]
  exact ⟨rfl, rfl⟩

/-- **With a ratio below one the error estimate is negative**, though the extrapolated value is right. -/
theorem simpleError_negative : simple (1 + 1 : ℝ) (1 + 2) (1 / 2) 1 = .ret 1 ∧ simpleError (1 + 1 : ℝ) (1 + 2) (1 / 2) 1 = .ret (-2) := by
  unfold simple simpleError powInt fdiv
  norm_num

/-- Not vacuous: the trapezoidal rule, order two, with the step halved. -/
example : simple (7 + 3 * (1 : ℝ) ^ (2 : ℤ)) (7 + 3 * (1 / 2) ^ (2 : ℤ)) 2 2 = .ret 7 := (simple_spec 7 3 1 2 2 (by norm_num) (by norm_num)).1

end Verif.Interp.Ext
