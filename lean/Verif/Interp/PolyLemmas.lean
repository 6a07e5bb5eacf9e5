import Verif.Interp.Lemmas
import Verif.Integ.RombergLemmas

/-!
# Facts about Neville's scheme in `PolynomInterpRealFunc`
-/

set_option autoImplicit false

namespace Verif.Interp

open Verif Polynomial Integ

/-- A table of different numbers continued so that all are different. -/
theorem exists_injective (n : ℕ) (x : ℕ → ℝ) (hx : Distinct n x) : ∃ x' : ℕ → ℝ, Function.Injective x' ∧ ∀ i < n, x' i = x i := by
  obtain ⟨M, hM⟩ : ∃ M : ℝ, ∀ i < n, x i < M := by
    induction n with
    | zero => exact ⟨0, fun i hi => absurd hi (Nat.not_lt_zero _)⟩
    | succ n ih =>
      obtain ⟨M, hM⟩ := ih fun i j hij hj => hx i j hij (by omega)
      refine ⟨max M (x n + 1), fun i hi => ?_⟩
      rcases Nat.lt_succ_iff_lt_or_eq.mp hi with h | rfl
      · exact lt_max_of_lt_left (hM i h)
      · exact lt_max_of_lt_right (by linarith)
  refine ⟨fun i => if i < n then x i else M + i, fun i j hij => ?_, fun i hi => if_pos hi⟩
  dsimp only at hij
  split at hij <;> split at hij
  · by_contra hne
    rcases lt_or_gt_of_ne hne with h | h
    · exact hx i j h (by assumption) hij
    · exact hx j i h (by assumption) hij.symm
  · rename_i h1 h2
    have := hM i h1
    have : (0 : ℝ) ≤ j := Nat.cast_nonneg j
    linarith
  · rename_i h1 h2
    have := hM j h2
    have : (0 : ℝ) ≤ i := Nat.cast_nonneg i
    linarith
  · exact_mod_cast add_left_cancel hij

/-- Neville's value at zero for the shifted abscissas is the value of the interpolating polynomial. -/
theorem nev_shift (x y : ℕ → ℝ) (z : ℝ) (i m : ℕ) :
    nev (fun k => x k - z) y i m = (Lagrange.interpolate (Finset.Icc i (i + m)) x y).eval z := by
  rw [nev, Lagrange.interpolate_apply, Lagrange.interpolate_apply, eval_finset_sum, eval_finset_sum]
  refine Finset.sum_congr rfl fun k _ => ?_
  rw [eval_mul, eval_mul, eval_C, eval_C, Lagrange.basis, Lagrange.basis, eval_prod, eval_prod]
  congr 1
  refine Finset.prod_congr rfl fun l _ => ?_
  simp only [Lagrange.basisDivisor, eval_mul, eval_C, eval_sub, eval_X]
  congr 1
  · congr 1
    ring
  · ring

theorem polyColumn_cd {n : ℕ} (x x' y : ℕ → ℝ) (hxx : ∀ i < n, x' i = x i) (hinj : Function.Injective x') (K s m : ℕ) (z : ℝ)
    (hs : s + K ≤ n) (c d : ℕ → ℝ) (hc : ColOk (fun k => x' k - z) y s K m c d) :
    ∃ c' d', forRange (K - (m + 1)) (tab K c, tab K d) (polyEntry ⟨tab n x, tab n y, K⟩ s z (m + 1)) =
        .ret (tab K c', tab K d') ∧ ColOk (fun k => x' k - z) y s K (m + 1) c' d' := by
  obtain ⟨t, ht, c', d', rfl, hn, hold⟩ := forRange_rule
    (fun k (t : List ℝ × List ℝ) => ∃ c' d', t = (tab K c', tab K d') ∧
      (∀ i, i < k → c' i = (colCD (fun k => x' k - z) y (m + 1) (s + i)).1 ∧ d' i = (colCD (fun k => x' k - z) y (m + 1) (s + i)).2) ∧
      (∀ i, k ≤ i → c' i = c i ∧ d' i = d i))
    (K - (m + 1)) (tab K c, tab K d) (polyEntry ⟨tab n x, tab n y, K⟩ s z (m + 1))
    ⟨c, d, rfl, fun i hi => absurd hi (Nat.not_lt_zero _), fun i _ => ⟨rfl, rfl⟩⟩
    (by
      rintro k t hk ⟨c', d', rfl, hn, hold⟩
      have hkK : k + (m + 1) < K := by omega
      refine ⟨_, ?_, fun i => if i = k then (colCD (fun k => x' k - z) y (m + 1) (s + k)).1 else c' i,
        fun i => if i = k then (colCD (fun k => x' k - z) y (m + 1) (s + k)).2 else d' i, rfl, ?_, ?_⟩
      · simp only [polyEntry, Table.X]
        rw [index_tab x (show s + k < n by omega), index_tab x (show s + k + (m + 1) < n by omega),
          index_tab c' (show k + 1 < K by omega), index_tab d' (show k < K by omega)]
        simp only [Outcome.bind_ret]
        rw [← hxx (s + k) (by omega), ← hxx (s + k + (m + 1)) (by omega)]
        have hne : x' (s + k) - z - (x' (s + k + (m + 1)) - z) ≠ 0 := by
          intro h
          have : x' (s + k) = x' (s + k + (m + 1)) := by linarith
          have := hinj this
          omega
        rw [if_neg hne, store_tab d' (show k < K by omega), store_tab c' (show k < K by omega)]
        simp only [Outcome.bind_ret]
        have h1 : c' (k + 1) = (colCD (fun k => x' k - z) y m (s + k + 1)).1 := by
          rw [(hold (k + 1) (by omega)).1, (hc (k + 1) (by omega)).1]
          rfl
        have h2 : d' k = (colCD (fun k => x' k - z) y m (s + k)).2 := by
          rw [(hold k le_rfl).2, (hc k (by omega)).2]
        rw [h1, h2]
        rfl
      · intro i hi
        rcases Nat.lt_succ_iff_lt_or_eq.mp hi with h' | rfl
        · dsimp only
          rw [if_neg (by omega), if_neg (by omega)]
          exact hn i h'
        · simp
      · intro i hi
        dsimp only
        rw [if_neg (by omega), if_neg (by omega)]
        exact hold i (by omega))
  exact ⟨c', d', ht, fun i hi => hn i (by omega)⟩

/-- The state after column `m`: the approximation uses the points `s + p, ..., s + p + m`. -/
def PolyInv (h y : ℕ → ℝ) (s K m : ℕ) (t : Tableau) : Prop :=
  ∃ (p : ℕ) (c d : ℕ → ℝ), p + m < K ∧ t.ns = (p : ℤ) - 1 ∧ t.ss = nev h y (s + p) m ∧ t.c = tab K c ∧ t.d = tab K d ∧
    ColOk h y s K m c d ∧
    (0 < m → t.dss = nev h y (s + p) m - nev h y (s + p) (m - 1) ∨ t.dss = nev h y (s + p) m - nev h y (s + p + 1) (m - 1))

theorem correct_inv (h y : ℕ → ℝ) (hh : Function.Injective h) (s K m : ℕ) (hm : m + 1 < K) (t : Tableau) (c d : ℕ → ℝ)
    (hok : ColOk h y s K (m + 1) c d) (p : ℕ) (hp : p + m < K) (hns : t.ns = (p : ℤ) - 1) (hss : t.ss = nev h y (s + p) m) :
    ∃ t', correct K (m + 1) t (tab K c) (tab K d) = .ret t' ∧ PolyInv h y s K (m + 1) t' := by
  rw [correct, hns]
  by_cases hcond : 2 * ((p : ℤ) - 1 + 1) < (K : ℤ) - ((m + 1 : ℕ) : ℤ)
  · rw [if_pos hcond]
    have hidx : indexInt (tab K c) ((p : ℤ) - 1 + 1) = .ret (c p) := by
      rw [indexInt, if_neg (by omega)]
      have : ((p : ℤ) - 1 + 1).toNat = p := by omega
      rw [this, index_tab c (by omega)]
    rw [hidx]
    simp only [Outcome.bind_ret]
    have hc : c p = nev h y (s + p) (m + 1) - nev h y (s + p) m := by
      rw [(hok p (by omega)).1, colCD_eq h y hh]
    refine ⟨_, rfl, p, c, d, by omega, rfl, ?_, rfl, rfl, hok, fun _ => Or.inl hc⟩
    dsimp only
    rw [hss, hc]
    ring
  · rw [if_neg hcond]
    obtain ⟨q, rfl⟩ : ∃ q, p = q + 1 := ⟨p - 1, by push_cast at hcond; omega⟩
    have hidx : indexInt (tab K d) (((q + 1 : ℕ) : ℤ) - 1) = .ret (d q) := by
      rw [indexInt, if_neg (by push_cast; omega)]
      have : (((q + 1 : ℕ) : ℤ) - 1).toNat = q := by omega
      rw [this, index_tab d (by omega)]
    rw [hidx]
    simp only [Outcome.bind_ret]
    have hd : d q = nev h y (s + q) (m + 1) - nev h y (s + q + 1) m := by
      rw [(hok q (by omega)).2, colCD_eq h y hh]
    refine ⟨_, rfl, q, c, d, by omega, ?_, ?_, rfl, rfl, hok, fun _ => Or.inr hd⟩
    · dsimp only
      push_cast
      ring
    · dsimp only
      rw [hss, hd, show s + (q + 1) = s + q + 1 by ring]
      ring

theorem polyCalc_eq {n : ℕ} (x y : ℕ → ℝ) (hx : Distinct n x) (K s : ℕ) (hK : 2 ≤ K) (hs : s + K ≤ n) (z : ℝ) :
    ∃ e, polyCalc ⟨tab n x, tab n y, K⟩ s z =
        .ret ((Lagrange.interpolate (Finset.Icc s (s + (K - 1))) x y).eval z, e) ∧
      (e = (Lagrange.interpolate (Finset.Icc s (s + (K - 1))) x y).eval z - (Lagrange.interpolate (Finset.Icc s (s + (K - 2))) x y).eval z ∨
        e = (Lagrange.interpolate (Finset.Icc s (s + (K - 1))) x y).eval z -
          (Lagrange.interpolate (Finset.Icc (s + 1) (s + 1 + (K - 2))) x y).eval z) := by
  obtain ⟨x', hinj, hxx⟩ := exists_injective n x hx
  have hh : Function.Injective fun k => x' k - z := fun i j hij => hinj (by simpa using hij)
  rw [polyCalc]
  simp only [Table.X, Table.Y]
  rw [index_tab x (show s < n by omega)]
  simp only [Outcome.bind_ret]
  obtain ⟨st, hst, hns, c, d, hc, hd, hcd⟩ := forRange_rule
    (fun k (st : Start) => st.ns ≤ k - 1 ∧ ∃ c d, st.c = tab K c ∧ st.d = tab K d ∧ ∀ i, i < k → c i = y (s + i) ∧ d i = y (s + i))
    K (⟨0, |z - x s|, List.replicate K 0, List.replicate K 0⟩ : Start) (polyStart ⟨tab n x, tab n y, K⟩ s z)
    ⟨le_rfl, fun _ => 0, fun _ => 0, replicate_eq_tab K 0, replicate_eq_tab K 0, fun i hi => absurd hi (Nat.not_lt_zero _)⟩
    (by
      rintro k st hk ⟨hns, c, d, hc, hd, hcd⟩
      have hn1 : (nearest st k |z - x (s + k)|).ns ≤ k + 1 - 1 := by
        rw [nearest]
        split
        · dsimp only
          omega
        · omega
      have hn2 : (nearest st k |z - x (s + k)|).c = tab K c ∧ (nearest st k |z - x (s + k)|).d = tab K d := by
        rw [nearest]
        split
        · exact ⟨hc, hd⟩
        · exact ⟨hc, hd⟩
      refine ⟨⟨(nearest st k |z - x (s + k)|).ns, (nearest st k |z - x (s + k)|).dif,
        tab K fun i => if i = k then y (s + k) else c i, tab K fun i => if i = k then y (s + k) else d i⟩, ?_, hn1, _, _, rfl, rfl, ?_⟩
      · simp only [polyStart, Table.X, Table.Y]
        rw [index_tab x (show s + k < n by omega), index_tab y (show s + k < n by omega)]
        simp only [Outcome.bind_ret]
        rw [hn2.1, hn2.2, store_tab c hk, store_tab d hk]
        rfl
      · intro i hi
        rcases Nat.lt_succ_iff_lt_or_eq.mp hi with h' | rfl
        · rw [if_neg (by omega), if_neg (by omega)]
          exact hcd i h'
        · simp)
  rw [hst]
  simp only [Outcome.bind_ret]
  rw [index_tab y (show s + st.ns < n by omega)]
  simp only [Outcome.bind_ret]
  obtain ⟨r, hr, p, c', d', hp, -, hss, -, -, -, hdss⟩ := forFromTo_rule
    (fun m t => PolyInv (fun k => x' k - z) y s K (m - 1) t) 1 K (by omega) (⟨(st.ns : ℤ) - 1, y (s + st.ns), 0, st.c, st.d⟩ : Tableau)
    (polyColumn ⟨tab n x, tab n y, K⟩ s z)
    ⟨st.ns, c, d, by omega, rfl, (nev_zero _ _ _).symm, hc, hd, fun i hi => hcd i (by omega), fun h => absurd h (lt_irrefl 0)⟩
    (by
      rintro m t hm1 hmK ⟨p, c, d, hp, hns, hss, hc, hd, hok, -⟩
      obtain ⟨m, rfl⟩ : ∃ k, m = k + 1 := ⟨m - 1, by omega⟩
      rw [Nat.add_sub_cancel] at hp hss hok
      obtain ⟨c', d', hf, hok'⟩ := polyColumn_cd x x' y hxx hinj K s m z hs c d hok
      obtain ⟨t', ht', hinv⟩ := correct_inv _ y hh s K m hmK t c' d' hok' p hp hns hss
      refine ⟨t', ?_, hinv⟩
      rw [polyColumn]
      dsimp only
      rw [hc, hd, hf]
      simp only [Outcome.bind_ret]
      exact ht')
  rw [hr]
  simp only [Outcome.bind_ret]
  obtain rfl : p = 0 := by omega
  have hcongr : ∀ i m, i + m < n → (Lagrange.interpolate (Finset.Icc i (i + m)) x' y).eval z =
      (Lagrange.interpolate (Finset.Icc i (i + m)) x y).eval z := by
    intro i m him
    have hin : Set.InjOn x (Finset.Icc i (i + m)) := by
      intro a ha b hb hab
      simp only [Finset.coe_Icc, Set.mem_Icc] at ha hb
      rw [← hxx a (by omega), ← hxx b (by omega)] at hab
      exact hinj hab
    congr 1
    refine (Lagrange.eq_interpolate_of_eval_eq y hin (Lagrange.degree_interpolate_lt y hinj.injOn) fun k hk => ?_)
    rw [← hxx k (by rw [Finset.mem_Icc] at hk; omega), Lagrange.eval_interpolate_at_node y hinj.injOn hk]
  refine ⟨r.dss, ?_, ?_⟩
  · rw [hss, nev_shift, add_zero, hcongr _ _ (by omega)]
  · have := hdss (by omega)
    simp only [nev_shift, add_zero] at this
    rw [show K - 1 - 1 = K - 2 by omega, hcongr s (K - 1) (by omega), hcongr s (K - 2) (by omega), hcongr (s + 1) (K - 2) (by omega)] at this
    exact this

end Verif.Interp
