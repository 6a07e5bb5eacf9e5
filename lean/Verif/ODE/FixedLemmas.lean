import Verif.ODE.FixedSpec
import Verif.ODE.SolutionLemmas
import Verif.ODE.Orders
import Verif.ODE.Order8
import Verif.ODE.Reverse

/-! # Helper lemmas: the fixed-step solver -/

set_option autoImplicit false

namespace Verif.ODE

open Outcome Mat

theorem Fits.shape {n N : ℕ} (h : Fits n N) : Dense.Shape n (N + 1) :=
  Or.inr ⟨h.1, Nat.succ_pos N, h.2.1, h.2.2.1, h.2.2.2⟩

theorem reads_mk {n N ok bad : ℕ} {t1 t2 : ℝ} {T : ℕ → ℝ} {Y : ℕ → ℕ → ℝ} {X : ℕ → Fin n → ℝ}
    (h : ∀ k ≤ N, T k = t1 + k * ((t2 - t1) / N) ∧ ∀ i : Fin n, Y i k = X k i) :
    Reads (Sol.mk' ok bad n (N + 1) (N + 1) t1 t2 T Y) N t1 t2 X := by
  refine ⟨by simp [Sol.size, Sol.mk'], fun k hk => ?_⟩
  rw [Sol.getTValue_eq T Y le_rfl (by omega), (h k hk).1]
  refine ⟨rfl, fun i => ?_⟩
  rw [Sol.getXValue_eq T Y le_rfl (by omega) i.2, (h k hk).2]

/-- The solver run with a calculator that performs the steps of `prkStep`. -/
theorem integrate_prk {n : ℕ} {sys : System} {f : ℝ → (Fin n → ℝ) → Fin n → ℝ} (hs : Computes sys f)
    {clc : Calc} (s : ℕ) (a : ℕ → ℕ → ℝ) (b : Fin n → ℕ → ℝ) (c : ℕ → ℝ)
    {E : ℝ → (Fin n → ℝ) → ℝ → Fin n → ℝ}
    (hcalc : ∀ t x h xOut xErr, xOut.length = n → xErr.length = n →
      clc sys t (List.ofFn x) (List.ofFn (f t x)) h xOut xErr
        = .ret (List.ofFn (prkStep (pair f) s a b c t x h), List.ofFn (E t x h)))
    (x₀ : Fin n → ℝ) (t1 t2 : ℝ) (N : ℕ) (hS : Fits n N) :
    ∃ sol, integrateFixed sys clc (List.ofFn x₀) t1 t2 N = .ret sol ∧
      Reads sol N t1 t2 (prkIter (pair f) s a b c t1 x₀ ((t2 - t1) / N)) := by
  obtain ⟨T, Y, h1, h2⟩ := integrateFixed_run hs hcalc hS.1 x₀ t1 t2 N hS.shape
    (prkIter (pair f) s a b c t1 x₀ ((t2 - t1) / N)) rfl (fun k => rfl)
  exact ⟨_, h1, reads_mk h2⟩

theorem grid_mem {T1 T2 t1 t2 : ℝ} (h1 : t1 ∈ Set.Icc T1 T2) (h2 : t2 ∈ Set.Icc T1 T2) {N k : ℕ}
    (hN : 0 < N) (hk : k ≤ N) : t1 + k * ((t2 - t1) / N) ∈ Set.Icc T1 T2 := by
  have hN' : (0 : ℝ) < N := by exact_mod_cast hN
  have e : t1 + k * ((t2 - t1) / N) = (1 - k / N) * t1 + (k / N) * t2 := by field_simp; ring
  have h3 : (0 : ℝ) ≤ k / N := by positivity
  have h4 : (k : ℝ) / N ≤ 1 := by
    rw [div_le_one hN']; exact_mod_cast hk
  rw [e]
  exact convex_Icc T1 T2 h1 h2 (by linarith) h3 (by ring)

theorem grid_length {t1 t2 : ℝ} {N k : ℕ} (hN : 0 < N) (hk : k ≤ N) :
    k * |(t2 - t1) / N| ≤ |t2 - t1| := by
  have hN' : (0 : ℝ) < N := by exact_mod_cast hN
  rw [abs_div, abs_of_pos hN', mul_div_assoc', div_le_iff₀ hN', mul_comm]
  exact mul_le_mul_of_nonneg_left (by exact_mod_cast hk) (abs_nonneg _)

/-- Convergence of the solver for calculators that perform the steps of `prkStep`. -/
theorem accurate_prk {n : ℕ} {sys : System} {f : ℝ → (Fin n → ℝ) → Fin n → ℝ} (hs : Computes sys f)
    {clc : Calc} (s : ℕ) (a : ℕ → ℕ → ℝ) (b : Fin n → ℕ → ℝ) (c : ℕ → ℝ)
    {E : ℝ → (Fin n → ℝ) → ℝ → Fin n → ℝ}
    (hcalc : ∀ t x h xOut xErr, xOut.length = n → xErr.length = n →
      clc sys t (List.ofFn x) (List.ofFn (f t x)) h xOut xErr
        = .ret (List.ofFn (prkStep (pair f) s a b c t x h), List.ofFn (E t x h)))
    {p : ℕ} (hord : ∀ m, Order s a (b m) c (p + 1) 0) (hf : ContDiff ℝ (p + 1 : ℕ) (pair f)) {T1 T2 : ℝ}
    {y : ℝ → Fin n → ℝ} (hy : IsSolution f T1 T2 y) :
    ∃ C h₀, 0 < h₀ ∧ Accurate sys clc T1 T2 y (fun h => h ^ (p + 1)) h₀ C := by
  obtain ⟨C, h₀, hC, hh₀, H⟩ := rk_converges_both (F := pair f) (by exact_mod_cast hf) hy s a b c hord
  refine ⟨C, h₀, hh₀, fun t1 ht1 t2 ht2 N hN hfit hh => ?_⟩
  obtain ⟨sol, h1, h2⟩ := integrate_prk hs s a b c hcalc (y t1) t1 t2 N hfit
  refine ⟨sol, _, h1, h2, fun k hk i => ?_⟩
  have h3 := H t1 ht1 _ hh k (grid_mem ht1 ht2 hN hk)
  have h4 := (norm_le_pi_norm _ i).trans h3
  rw [Pi.sub_apply, Real.norm_eq_abs] at h4
  refine h4.trans ?_
  exact mul_le_mul_of_nonneg_right (mul_le_mul_of_nonneg_left (grid_length hN hk) hC) (by positivity)

theorem accurate_eps {n : ℕ} {sys : System} {f : ℝ → (Fin n → ℝ) → Fin n → ℝ} (hs : Computes sys f)
    {clc : Calc} (s : ℕ) (a : ℕ → ℕ → ℝ) (b : Fin n → ℕ → ℝ) (c : ℕ → ℝ)
    {E : ℝ → (Fin n → ℝ) → ℝ → Fin n → ℝ}
    (hcalc : ∀ t x h xOut xErr, xOut.length = n → xErr.length = n →
      clc sys t (List.ofFn x) (List.ofFn (f t x)) h xOut xErr
        = .ret (List.ofFn (prkStep (pair f) s a b c t x h), List.ofFn (E t x h)))
    {p : ℕ} {ε : ℝ} (hε : 0 ≤ ε) (hord : ∀ m, Order s a (b m) c (p + 1) ε)
    (hf : ContDiff ℝ (p + 1 : ℕ) (pair f)) {M : ℝ}
    (hM : ∀ j ≤ p + 1, ∀ z, ‖iteratedFDeriv ℝ j (pair f) z‖ ≤ M) {T1 T2 : ℝ}
    {y : ℝ → Fin n → ℝ} (hy : IsSolution f T1 T2 y) :
    ∃ C, ∀ h₀, Accurate sys clc T1 T2 y (fun h => h ^ (p + 1) + ε) h₀ C := by
  obtain ⟨C, hC, H⟩ := global_error_both (F := pair f) (by exact_mod_cast hf) hM hy s a b c hε hord
  refine ⟨C, fun h₀ t1 ht1 t2 ht2 N hN hfit hh => ?_⟩
  obtain ⟨sol, h1, h2⟩ := integrate_prk hs s a b c hcalc (y t1) t1 t2 N hfit
  refine ⟨sol, _, h1, h2, fun k hk i => ?_⟩
  have h3 := H t1 ht1 _ k (grid_mem ht1 ht2 hN hk)
  have h4 := (norm_le_pi_norm _ i).trans h3
  rw [Pi.sub_apply, Real.norm_eq_abs] at h4
  refine h4.trans ?_
  exact mul_le_mul_of_nonneg_right (mul_le_mul_of_nonneg_left (grid_length hN hk) hC) (by positivity)

theorem prkStep_tableau {n : ℕ} (T : Tableau) (b : List ℚ) (f : ℝ → (Fin n → ℝ) → Fin n → ℝ) (t : ℝ)
    (x : Fin n → ℝ) (h : ℝ) :
    prkStep (pair f) T.a.length (fun i j => (T.A i j : ℝ)) (fun _ j => (b.getD j 0 : ℝ))
      (fun i => (T.C i : ℝ)) t x h = T.step b f t x h := rfl

/-- The calculator `clc` performs the steps of the tableau method `T`, `b` and estimates the error as
`E`. -/
def Performs (clc : Calc) (T : Tableau) (b : List ℚ)
    (E : ∀ n : ℕ, (ℝ → (Fin n → ℝ) → Fin n → ℝ) → ℝ → (Fin n → ℝ) → ℝ → Fin n → ℝ) : Prop :=
  ∀ (n : ℕ) (sys : System) (f : ℝ → (Fin n → ℝ) → Fin n → ℝ), Computes sys f →
    ∀ t x h xOut xErr, xOut.length = n → xErr.length = n →
      clc sys t (List.ofFn x) (List.ofFn (f t x)) h xOut xErr
        = .ret (List.ofFn (T.step b f t x h), List.ofFn (E n f t x h))

theorem Performs.globalOrder {clc : Calc} {T : Tableau} {b : List ℚ}
    {E : ∀ n : ℕ, (ℝ → (Fin n → ℝ) → Fin n → ℝ) → ℝ → (Fin n → ℝ) → ℝ → Fin n → ℝ}
    (h : Performs clc T b E) {p : ℕ} (hord : T.HasOrder b (p + 1) 0) : GlobalOrder clc (p + 1) := by
  intro n sys f hs hf T1 T2 y hy
  exact accurate_prk hs T.a.length (fun i j => (T.A i j : ℝ)) (fun _ j => (b.getD j 0 : ℝ))
    (fun i => (T.C i : ℝ)) (h n sys f hs) (fun _ => hord) hf hy

theorem tableau_local {n : ℕ} {T : Tableau} {b : List ℚ} {p : ℕ} (hord : T.HasOrder b (p + 1) 0)
    {f : ℝ → (Fin n → ℝ) → Fin n → ℝ} (hf : ContDiff ℝ (p + 1 : ℕ) (pair f)) {T1 T2 : ℝ}
    {y : ℝ → Fin n → ℝ} (hy : IsSolution f T1 T2 y) :
    ∃ C h₀, 0 ≤ C ∧ 0 < h₀ ∧ ∀ t ∈ Set.Icc T1 T2, ∀ h, |h| ≤ h₀ → t + h ∈ Set.Icc T1 T2 →
      ‖T.step b f t (y t) h - y (t + h)‖ ≤ C * |h| ^ (p + 2) := by
  obtain ⟨C, h₀, hC, hh₀, H⟩ := rk_converges_both (F := pair f) (by exact_mod_cast hf) hy T.a.length
    (fun i j => (T.A i j : ℝ)) (fun _ j => (b.getD j 0 : ℝ)) (fun i => (T.C i : ℝ)) (fun _ => hord)
  refine ⟨C, h₀, hC, hh₀, fun t ht h hh hth => ?_⟩
  have := H t ht h hh 1 (by rw [Nat.cast_one, one_mul]; exact hth)
  rw [Nat.cast_one, one_mul, one_mul, prkIter, prkIter, prkStep_tableau, Nat.cast_zero, zero_mul,
    add_zero] at this
  calc _ ≤ _ := this
    _ = _ := by ring

theorem Performs.localOrders {clc : Calc} {T : Tableau} {b : List ℚ} {T' : Tableau} {b' : List ℚ}
    (h : Performs clc T b (fun _ f t x h => T.step b f t x h - T'.step b' f t x h)) {p q : ℕ}
    (hord : T.HasOrder b (p + 1) 0) (hord' : T'.HasOrder b' (q + 1) 0) (hqp : q ≤ p) :
    LocalOrders clc (p + 1) (q + 1) := by
  intro n sys f hs hf T1 T2 y hy
  obtain ⟨C, h₀, hC, hh₀, H⟩ := tableau_local hord hf hy
  obtain ⟨C', h₀', hC', hh₀', H'⟩ := tableau_local hord'
    (hf.of_le (by exact_mod_cast Nat.succ_le_succ hqp)) hy
  refine ⟨max C C', min h₀ h₀', lt_min hh₀ hh₀', fun t ht h1 hh hth xOut xErr hO hE => ?_⟩
  refine ⟨_, _, h n sys f hs t (y t) h1 xOut xErr hO hE, fun i => ⟨?_, ?_⟩⟩
  · have h3 := (norm_le_pi_norm _ i).trans (H t ht h1 (hh.trans (min_le_left _ _)) hth)
    rw [Pi.sub_apply, Real.norm_eq_abs] at h3
    exact h3.trans (mul_le_mul_of_nonneg_right (le_max_left _ _) (by positivity))
  · have h3 := (norm_le_pi_norm _ i).trans (H' t ht h1 (hh.trans (min_le_right _ _)) hth)
    rw [Pi.sub_apply, Real.norm_eq_abs] at h3
    dsimp only
    rw [Pi.sub_apply, sub_sub_cancel]
    exact h3.trans (mul_le_mul_of_nonneg_right (le_max_right _ _) (by positivity))

theorem euler_performs : Performs eulerStep eulerT eulerT.b (fun _ _ _ _ _ => 0) :=
  fun _ _ _ hs t x h _ _ hO hE => eulerStep_eq hs t x h hO hE
theorem eulerCromer_performs : Performs eulerCromerStep heunT heunT.b
    (fun _ f t x h => heunT.step heunT.b f t x h - eulerT.step eulerT.b f t x h) :=
  fun _ _ _ hs t x h _ _ hO hE => eulerCromerStep_eq hs t x h hO hE
theorem midpoint_performs : Performs midpointStep midT midT.b (fun _ _ _ _ _ => 0) :=
  fun _ _ _ hs t x h _ _ hO hE => midpointStep_eq hs t x h hO hE
theorem rk4_performs : Performs rk4Step rk4T rk4T.b (fun _ _ _ _ _ => 0) :=
  fun _ _ _ hs t x h _ _ hO hE => rk4Step_eq hs t x h hO hE
theorem ck_performs : Performs ckStep ckT ckT.b
    (fun _ f t x h => ckT.step ckT.b f t x h - ckT.step ckStar f t x h) :=
  fun _ _ _ hs t x h _ _ hO hE => ckStep_eq hs t x h hO hE
theorem dp5_performs : Performs dp5Step dp5T dp5T.b
    (fun _ f t x h => dp5T.step dp5T.b f t x h - dp5T.step dp5Star f t x h) :=
  fun _ _ _ hs t x h _ _ hO hE => dp5Step_eq hs t x h hO hE
theorem dp8_performs : Performs dp8Step dp8T dp8T.b
    (fun _ f t x h => dp8T.step dp8T.b f t x h - dp8T.step DP8.b7 f t x h) :=
  fun _ _ _ hs t x h _ _ hO hE => dp8Step_eq hs t x h hO hE

theorem dp8_order : dp8T.HasOrder dp8T.b 8 (1 / 10 ^ 16) := by
  have := Check.check_sound (T := ⟨dp8T.a, dp8T.b, dp8T.c⟩) (by norm_num) (by decide) check_dp8
  exact_mod_cast this

theorem dp87_order : dp8T.HasOrder DP8.b7 7 (1 / 10 ^ 16) := by
  have := Check.check_sound (T := ⟨dp8T.a, DP8.b7, dp8T.c⟩) (by norm_num) (by decide) check_dp87
  exact_mod_cast this

theorem tableau_local_eps {n : ℕ} {T : Tableau} {b : List ℚ} {p : ℕ} {ε : ℝ} (hε : 0 ≤ ε)
    (hord : T.HasOrder b (p + 1) ε) {f : ℝ → (Fin n → ℝ) → Fin n → ℝ}
    (hf : ContDiff ℝ (p + 1 : ℕ) (pair f)) {M : ℝ}
    (hM : ∀ j ≤ p + 1, ∀ z, ‖iteratedFDeriv ℝ j (pair f) z‖ ≤ M) {T1 T2 : ℝ}
    {y : ℝ → Fin n → ℝ} (hy : IsSolution f T1 T2 y) :
    ∃ C, 0 ≤ C ∧ ∀ t ∈ Set.Icc T1 T2, ∀ h, t + h ∈ Set.Icc T1 T2 →
      ‖T.step b f t (y t) h - y (t + h)‖ ≤ C * |h| * (|h| ^ (p + 1) + ε) := by
  obtain ⟨C, hC, H⟩ := global_error_both (F := pair f) (by exact_mod_cast hf) hM hy T.a.length
    (fun i j => (T.A i j : ℝ)) (fun _ j => (b.getD j 0 : ℝ)) (fun i => (T.C i : ℝ)) hε (fun _ => hord)
  refine ⟨C, hC, fun t ht h hth => ?_⟩
  have := H t ht h 1 (by rw [Nat.cast_one, one_mul]; exact hth)
  rwa [Nat.cast_one, one_mul, one_mul, prkIter, prkIter, prkStep_tableau, Nat.cast_zero, zero_mul,
    add_zero] at this

theorem contDiff_newton {m p : ℕ} {a : ℝ → (Fin m → ℝ) → Fin m → ℝ}
    (ha : ContDiff ℝ p (fun z : ℝ × (Fin m → ℝ) => a z.1 z.2)) : ContDiff ℝ p (pair (newton a)) := by
  rw [contDiff_pi]
  intro i
  refine Fin.addCases (fun j => ?_) (fun j => ?_) i
  · have e : (fun z => pair (newton a) z (Fin.castAdd m j)) = fun z => z.2 (Fin.natAdd m j) := by
      funext z; simp [pair, newton, upper]
    rw [e]
    exact (contDiff_apply ℝ ℝ (Fin.natAdd m j)).comp contDiff_snd
  · have e : (fun z => pair (newton a) z (Fin.natAdd m j)) = fun z => a z.1 (lower z.2) j := by
      funext z; exact Fin.append_right _ _ j
    rw [e]
    have h1 : ContDiff ℝ p (fun z : ℝ × (Fin (m + m) → ℝ) => ((z.1, lower z.2) : ℝ × (Fin m → ℝ))) := by
      refine contDiff_fst.prodMk ?_
      rw [contDiff_pi]
      intro k
      exact (contDiff_apply ℝ ℝ (Fin.castAdd m k)).comp contDiff_snd
    exact (contDiff_apply ℝ ℝ j).comp (ha.comp h1)

/-- Both mechanics integrators on `q' = v`, `v' = a (t, q)`. -/
theorem newton_accurate {m : ℕ} {a : ℝ → (Fin m → ℝ) → Fin m → ℝ} {sys : System} {clc : Calc}
    (hs : Computes sys (newton a))
    (hcalc : ∀ t x h xOut xErr, xOut.length = m + m → xErr.length = m + m →
      clc sys t (List.ofFn x) (List.ofFn (newton a t x)) h xOut xErr
        = .ret (List.ofFn (Fin.append (newPos (newton a) t (lower x) (upper x) h)
            (newVel (newton a) t (lower x) (upper x) h)), List.ofFn (0 : Fin (m + m) → ℝ)))
    (ha : ContDiff ℝ 2 (fun z : ℝ × (Fin m → ℝ) => a z.1 z.2)) {T1 T2 : ℝ}
    {y : ℝ → Fin (m + m) → ℝ} (hy : IsSolution (newton a) T1 T2 y) :
    ∃ C h₀, 0 < h₀ ∧ Accurate sys clc T1 T2 y (fun h => h ^ 2) h₀ C := by
  refine accurate_prk (p := 1) hs 3 (fun i j => (verletT.A i j : ℝ))
    (fun i j => (((if i.val < m then verletT.b else verletB).getD j 0 : ℚ) : ℝ))
    (fun i => (verletT.C i : ℝ)) (E := fun _ _ _ => 0) (fun t x h xOut xErr hO hE => ?_) (fun i => ?_)
    (contDiff_newton (p := 2) (by exact_mod_cast ha)) hy
  · rw [← verlet_prk, hcalc t x h xOut xErr hO hE]
  · by_cases hi : i.val < m
    · rw [if_pos hi]; exact verlet_orderX
    · rw [if_neg hi]; exact verlet_orderV

end Verif.ODE
