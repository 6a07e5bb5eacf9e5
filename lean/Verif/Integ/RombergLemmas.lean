import Verif.Integ.TrapLemmas
import Verif.LoopLemmas
import Mathlib.LinearAlgebra.Lagrange

/-!
# Facts about the extrapolation in `IntegrateRomberg`
-/

set_option autoImplicit false

namespace Verif.Integ

open Verif Polynomial

/-! ## Neville's scheme -/

/-- The value at zero of the polynomial through the points `i, ..., i + m`. -/
noncomputable def nev (h s : ℕ → ℝ) (i m : ℕ) : ℝ := (Lagrange.interpolate (Finset.Icc i (i + m)) h s).eval 0

theorem nev_zero (h s : ℕ → ℝ) (i : ℕ) : nev h s i 0 = s i := by
  rw [nev, add_zero, Finset.Icc_self, Lagrange.interpolate_singleton, eval_C]

theorem nev_succ (h s : ℕ → ℝ) (hh : Function.Injective h) (i m : ℕ) :
    nev h s i (m + 1) = (h i * nev h s (i + 1) m - h (i + (m + 1)) * nev h s i m) / (h i - h (i + (m + 1))) := by
  have hne : i ≠ i + (m + 1) := by omega
  have hd : h i - h (i + (m + 1)) ≠ 0 := sub_ne_zero.mpr fun e => hne (hh e)
  have hd' : h (i + (m + 1)) - h i ≠ 0 := sub_ne_zero.mpr fun e => hne (hh e).symm
  rw [nev, Lagrange.interpolate_eq_add_interpolate_erase s (i := i) (j := i + (m + 1)) hh.injOn
    (Finset.mem_Icc.mpr ⟨le_rfl, by omega⟩) (Finset.mem_Icc.mpr ⟨by omega, le_rfl⟩) hne]
  have e1 : (Finset.Icc i (i + (m + 1))).erase (i + (m + 1)) = Finset.Icc i (i + m) := by
    ext k
    simp only [Finset.mem_erase, Finset.mem_Icc]
    omega
  have e2 : (Finset.Icc i (i + (m + 1))).erase i = Finset.Icc (i + 1) (i + 1 + m) := by
    ext k
    simp only [Finset.mem_erase, Finset.mem_Icc]
    omega
  rw [e1, e2]
  simp only [nev, eval_add, eval_mul, Lagrange.basisDivisor, eval_C, eval_sub, eval_X]
  have e3 : (h (i + (m + 1)) - h i)⁻¹ = -(h i - h (i + (m + 1)))⁻¹ := by
    rw [← inv_neg, neg_sub]
  rw [e3]
  field_simp
  ring

/-- The columns of the tableau, corrections `c` and `d`. -/
noncomputable def colCD (h s : ℕ → ℝ) : ℕ → ℕ → ℝ × ℝ
  | 0, i => (s i, s i)
  | m + 1, i =>
    (h i * (((colCD h s m (i + 1)).1 - (colCD h s m i).2) / (h i - h (i + (m + 1)))),
      h (i + (m + 1)) * (((colCD h s m (i + 1)).1 - (colCD h s m i).2) / (h i - h (i + (m + 1)))))

theorem colCD_eq (h s : ℕ → ℝ) (hh : Function.Injective h) (m i : ℕ) :
    colCD h s (m + 1) i = (nev h s i (m + 1) - nev h s i m, nev h s i (m + 1) - nev h s (i + 1) m) := by
  have key : ∀ m i, (colCD h s m (i + 1)).1 - (colCD h s m i).2 = nev h s (i + 1) m - nev h s i m →
      colCD h s (m + 1) i = (nev h s i (m + 1) - nev h s i m, nev h s i (m + 1) - nev h s (i + 1) m) := by
    intro m i hw
    have hne : i ≠ i + (m + 1) := by omega
    have hd : h i - h (i + (m + 1)) ≠ 0 := sub_ne_zero.mpr fun e => hne (hh e)
    rw [colCD, hw, nev_succ h s hh]
    ext
    · dsimp only
      field_simp
      ring
    · dsimp only
      field_simp
      ring
  induction m generalizing i with
  | zero =>
    refine key 0 i ?_
    simp only [colCD, nev_zero]
  | succ m ih =>
    refine key (m + 1) i ?_
    rw [ih (i + 1), ih i]
    dsimp only
    ring

/-! ## The loops -/

/-- Two arrays agree with column `m` as far as it reaches. -/
def ColOk (h s : ℕ → ℝ) (o K m : ℕ) (c d : ℕ → ℝ) : Prop :=
  ∀ i, i + m < K → c i = (colCD h s m (o + i)).1 ∧ d i = (colCD h s m (o + i)).2

theorem column_step (h s : ℕ → ℝ) (hl : List ℝ) (o K m : ℕ) (c d : ℕ → ℝ) (hL : ∀ i < o + K, Outcome.index hl i = .ret (h i))
    (bad : ℝ → Prop) (hsep : ∀ i, i + (m + 1) < K → ¬ bad (h (o + i) - h (o + i + (m + 1))))
    (hc : ColOk h s o K m c d) :
    ∃ c' d', forRange (K - (m + 1)) (some (tab K c, tab K d)) (nevilleEntry bad hl o (m + 1)) =
        .ret (some (tab K c', tab K d')) ∧ ColOk h s o K (m + 1) c' d' := by
  obtain ⟨t, ht, c', d', rfl, hn, hold⟩ := forRange_rule
    (fun k t => ∃ c' d', t = some (tab K c', tab K d') ∧
      (∀ i, i < k → c' i = (colCD h s (m + 1) (o + i)).1 ∧ d' i = (colCD h s (m + 1) (o + i)).2) ∧
      (∀ i, k ≤ i → c' i = c i ∧ d' i = d i))
    (K - (m + 1)) (some (tab K c, tab K d)) (nevilleEntry bad hl o (m + 1))
    ⟨c, d, rfl, fun i hi => absurd hi (Nat.not_lt_zero _), fun i _ => ⟨rfl, rfl⟩⟩
    (by
      rintro k t hk ⟨c', d', rfl, hn, hold⟩
      have hkK : k + (m + 1) < K := by omega
      refine ⟨_, ?_, fun i => if i = k then (colCD h s (m + 1) (o + k)).1 else c' i,
        fun i => if i = k then (colCD h s (m + 1) (o + k)).2 else d' i, rfl, ?_, ?_⟩
      · simp only [nevilleEntry]
        rw [hL (o + k) (by omega), hL (o + k + (m + 1)) (by omega),
          index_tab c' (show k + 1 < K by omega), index_tab d' (show k < K by omega)]
        simp only [Outcome.bind_ret]
        rw [if_neg (hsep k hkK), store_tab d' (show k < K by omega), store_tab c' (show k < K by omega)]
        simp only [Outcome.bind_ret]
        have h1 : c' (k + 1) = (colCD h s m (o + k + 1)).1 := by
          rw [(hold (k + 1) (by omega)).1, (hc (k + 1) (by omega)).1]
          rfl
        have h2 : d' k = (colCD h s m (o + k)).2 := by
          rw [(hold k le_rfl).2, (hc k (by omega)).2]
        rw [h1, h2]
        rfl
      · intro i hi
        rcases Nat.lt_succ_iff_lt_or_eq.mp hi with h' | rfl
        · dsimp only
          rw [if_neg (by omega), if_neg (by omega)]
          exact hn i h'
        · simp
      · intro i hi
        dsimp only
        rw [if_neg (by omega), if_neg (by omega)]
        exact hold i (by omega))
  exact ⟨c', d', ht, fun i hi => hn i (by omega)⟩

theorem tableauLoop_eq (h s : ℕ → ℝ) (hh : Function.Injective h) (hl : List ℝ) (o K : ℕ) (hL : ∀ i < o + K, Outcome.index hl i = .ret (h i))
    (bad : ℝ → Prop) (hsep : ∀ i m, i + (m + 1) < K → ¬ bad (h (o + i) - h (o + i + (m + 1))))
    (n m : ℕ) (hnm : n + m + 1 = K) (c d : ℕ → ℝ) (hc : ColOk h s o K m c d) (dss : ℝ)
    (hdss : n = 0 → 0 < m → dss = nev h s o m - nev h s (o + 1) (m - 1)) :
    ∃ e, tableauLoop bad hl K o n (m + 1) ⟨(n : ℤ) - 1, nev h s (o + n) m, dss, tab K c, tab K d⟩ =
        .ret (nev h s o (K - 1), e, true) ∧ (2 ≤ K → e = nev h s o (K - 1) - nev h s (o + 1) (K - 2)) ∧
        (K = 1 → e = dss) := by
  induction n generalizing m c d dss with
  | zero =>
    refine ⟨dss, ?_, ?_, fun _ => rfl⟩
    · rw [tableauLoop, ← hnm]
      simp
    · intro hK
      rw [hdss rfl (by omega), show K - 1 = m by omega, show K - 2 = m - 1 by omega]
  | succ n ih =>
    obtain ⟨c', d', hf, hok⟩ := column_step h s hl o K m c d hL bad (fun i => hsep i m) hc
    rw [tableauLoop]
    dsimp only
    rw [hf]
    simp only [Outcome.bind_ret]
    rw [correct]
    dsimp only
    rw [if_neg (by push_cast; omega)]
    have hidx : indexInt (tab K d') (((n + 1 : ℕ) : ℤ) - 1) = .ret (d' n) := by
      rw [indexInt, if_neg (by push_cast; omega)]
      have : (((n + 1 : ℕ) : ℤ) - 1).toNat = n := by omega
      rw [this, index_tab d' (by omega)]
    rw [hidx]
    simp only [Outcome.bind_ret]
    have hd : d' n = nev h s (o + n) (m + 1) - nev h s (o + (n + 1)) m := by
      rw [(hok n (by omega)).2, colCD_eq h s hh]
      rfl
    obtain ⟨e, he, h2, h1⟩ := ih (m + 1) (by omega) c' d' hok (d' n) (by
      rintro rfl _
      rw [hd]
      rfl)
    refine ⟨e, ?_, h2, fun hK => by omega⟩
    rw [← he]
    congr 2
    · push_cast; ring
    · rw [hd]; ring

theorem extrapolate_eq (h s : ℕ → ℝ) (hh : StrictAnti h) (hpos : ∀ i, 0 ≤ h i) (hl sl : List ℝ) (o K : ℕ) (hK : 1 ≤ K)
    (hL : ∀ i < o + K, Outcome.index hl i = .ret (h i)) (hLs : ∀ i < o + K, Outcome.index sl i = .ret (s i))
    (bad : ℝ → Prop) (hsep : ∀ i m, i + (m + 1) < K → ¬ bad (h (o + i) - h (o + i + (m + 1)))) (dss : ℝ) :
    ∃ e, extrapolate bad hl sl K o dss = .ret (nev h s o (K - 1), e, true) ∧
      (2 ≤ K → e = nev h s o (K - 1) - nev h s (o + 1) (K - 2)) ∧ (K = 1 → e = dss) := by
  rw [extrapolate, hL (o) (by omega), Outcome.bind_ret]
  obtain ⟨st, hst, hns, -, c, d, hc, hd, hcd⟩ := forRange_rule
    (fun k (st : Start) => st.ns = k - 1 ∧ st.dif = h (o + st.ns) ∧ ∃ c d, st.c = tab K c ∧ st.d = tab K d ∧
      ∀ i, i < k → c i = s (o + i) ∧ d i = s (o + i))
    K (⟨0, |h o|, List.replicate K 0, List.replicate K 0⟩ : Start) (startStep hl sl o)
    ⟨rfl, abs_of_nonneg (hpos o), fun _ => 0, fun _ => 0, replicate_eq_tab K 0, replicate_eq_tab K 0,
      fun i hi => absurd hi (Nat.not_lt_zero _)⟩
    (by
      rintro k st hk ⟨hns, hdif, c, d, hc, hd, hcd⟩
      have hnear : nearest st k |h (o + k)| = { st with ns := k, dif := h (o + k) } := by
        rw [nearest, abs_of_nonneg (hpos _), hdif]
        rcases Nat.eq_zero_or_pos k with rfl | hk0
        · rw [hns, if_neg (by simp)]
          rw [hns] at hdif
          cases st
          simp_all
        · rw [if_pos (hh (by omega))]
      refine ⟨⟨k, h (o + k), tab K fun i => if i = k then s (o + k) else c i, tab K fun i => if i = k then s (o + k) else d i⟩,
        ?_, rfl, rfl, _, _, rfl, rfl, ?_⟩
      · rw [startStep, hL (o + k) (by omega), hLs (o + k) (by omega)]
        simp only [Outcome.bind_ret, hnear, hc, hd]
        rw [store_tab c hk, store_tab d hk]
        rfl
      · intro i hi
        rcases Nat.lt_succ_iff_lt_or_eq.mp hi with h' | rfl
        · rw [if_neg (by omega), if_neg (by omega)]
          exact hcd i h'
        · simp)
  rw [hst]
  simp only [Outcome.bind_ret]
  rw [hLs (o + st.ns) (by omega)]
  simp only [Outcome.bind_ret, hc, hd]
  have := tableauLoop_eq h s hh.injective hl o K hL bad hsep (K - 1) 0 (by omega) c d
    (fun i hi => hcd i (by omega)) dss (fun _ h0 => absurd h0 (lt_irrefl 0))
  rw [nev_zero] at this
  rw [hns]
  exact this

end Verif.Integ
