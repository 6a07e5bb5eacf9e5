import Verif.Integ.RombergLemmas
import Verif.Integ.TrapProps

/-!
# `IntegrateRomberg` (C75)
-/

set_option autoImplicit false

namespace Verif.Integ

open Verif Polynomial

/-! ## The loop -/

/-- The state of the stage generator before round `j`. -/
noncomputable def before (f : ℝ → ℝ) (a b : ℝ) : ℕ → Trap
  | 0 => ⟨0, 0⟩
  | j + 1 => stage f a b j

theorem next_before (f : ℝ → ℝ) (a b : ℝ) (j : ℕ) (hj : j ≤ 31) : (before f a b j).next f a b = .ret (stage f a b j) := by
  cases j with
  | zero => exact next_zero f a b 0
  | succ j => exact next_stage f a b j (by omega)

theorem quarter_anti : StrictAnti fun i : ℕ => (1 / 4 : ℝ) ^ i :=
  pow_right_strictAnti₀ (by norm_num) (by norm_num)

theorem quarter_sep (p m : ℕ) (h : p + (m + 1) ≤ 31) : divisionThreshold ≤ |(1 / 4 : ℝ) ^ p - (1 / 4 : ℝ) ^ (p + (m + 1))| := by
  have h1 : (1 / 4 : ℝ) ^ (p + (m + 1)) ≤ (1 / 4) ^ (p + 1) := quarter_anti.antitone (by omega)
  have h2 : (1 / 4 : ℝ) ^ 31 ≤ (1 / 4) ^ p := quarter_anti.antitone (by omega)
  have h3 : (1 / 4 : ℝ) ^ (p + 1) = (1 / 4) ^ p * (1 / 4) := pow_succ _ _
  have h4 : divisionThreshold ≤ 3 / 4 * (1 / 4 : ℝ) ^ 31 := by
    rw [divisionThreshold]
    norm_num
  refine le_trans ?_ (le_abs_self _)
  linarith

theorem extrapolated_eq_nev (q : ℝ) (T : ℕ → ℝ) (K j : ℕ) (h1 : 1 ≤ K) (h2 : K ≤ j + 1) :
    extrapolated q T K j = nev (fun i => q ^ i) T (j + 1 - K) (K - 1) := by
  rw [extrapolated, nev, show j + 1 - K + (K - 1) = j by omega]

/-- The answer of a Romberg integrator with estimates `T 0, T 1, ...`, factor `q` of the squared step, stopping test `stop` on
the extrapolation and its last correction, and `M` rounds, looking from round `j` on. -/
def RombergAnswer (q : ℝ) (stop : ℝ → ℝ → Prop) (T : ℕ → ℝ) (K j M : ℕ) (r : Result) : Prop :=
  ∃ i, r.iterations = i + 1 ∧ j ≤ i ∧ K ≤ i + 1 ∧ i < M ∧ r.value = extrapolated q T K i ∧
    r.error = |extrapolated q T K i - extrapolated q T (K - 1) i| ∧
    (∀ k, j ≤ k → K ≤ k + 1 → k < i → ¬ stop (extrapolated q T K k) (extrapolated q T K k - extrapolated q T (K - 1) k)) ∧
    ((r.converged = true ∧ stop (extrapolated q T K i) (extrapolated q T K i - extrapolated q T (K - 1) i)) ∨
      (r.converged = false ∧ i + 1 = M ∧
        ¬ stop (extrapolated q T K i) (extrapolated q T K i - extrapolated q T (K - 1) i)))

theorem RombergAnswer.step {q : ℝ} {stop : ℝ → ℝ → Prop} {T : ℕ → ℝ} {K : ℕ} {j M : ℕ} {r : Result}
    (h : RombergAnswer q stop T K (j + 1) M r)
    (hj : K ≤ j + 1 → ¬ stop (extrapolated q T K j) (extrapolated q T K j - extrapolated q T (K - 1) j)) :
    RombergAnswer q stop T K j M r := by
  obtain ⟨i, h1, h2, h3, h4, h5, h6, h7, h8⟩ := h
  refine ⟨i, h1, by omega, h3, h4, h5, h6, ?_, h8⟩
  intro k hk hK hi
  rcases Nat.eq_or_lt_of_le hk with rfl | h
  · exact hj hK
  · exact h7 k h hK hi

/-- The arrays of the loop before round `j`. -/
def Filled (q : ℝ) (T : ℕ → ℝ) (M j : ℕ) (s h : List ℝ) : Prop :=
  ∃ sf hf : ℕ → ℝ, s = tab M sf ∧ h = tab (M + 1) hf ∧ (∀ i < j, sf i = T i) ∧ ∀ i ≤ j, hf i = q ^ i

theorem Filled.store {q : ℝ} {T : ℕ → ℝ} {M j : ℕ} {s h : List ℝ} (hf : Filled q T M j s h) (hj : j < M) :
    ∃ s', Outcome.store s j (T j) = .ret s' ∧ (∀ i ≤ j, Outcome.index s' i = .ret (T i)) ∧
      (∀ i ≤ j, Outcome.index h i = .ret (q ^ i)) ∧ ∃ h', shrink q h j = .ret h' ∧ Filled q T M (j + 1) s' h' := by
  obtain ⟨sf, hf, rfl, rfl, hs, hh⟩ := hf
  have hs' : ∀ i ≤ j, (if i = j then T j else sf i) = T i := by
    intro i hi
    rcases Nat.lt_or_eq_of_le hi with h | rfl
    · rw [if_neg (by omega), hs i h]
    · simp
  refine ⟨tab M fun i => if i = j then T j else sf i, store_tab sf hj _, ?_, ?_,
    tab (M + 1) fun i => if i = j + 1 then q * hf j else hf i, ?_, ?_⟩
  · intro i hi
    rw [index_tab _ (by omega), hs' i hi]
  · intro i hi
    rw [index_tab _ (by omega), hh i hi]
  · rw [shrink, index_tab hf (by omega), Outcome.bind_ret, store_tab hf (by omega)]
  · refine ⟨_, _, rfl, rfl, fun i hi => hs' i (by omega), ?_⟩
    intro i hi
    rcases Nat.lt_or_eq_of_le hi with h | rfl
    · rw [if_neg (by omega), hh i (by omega)]
    · rw [if_pos rfl, hh j le_rfl, pow_succ']

/-- What the loop needs of its generator, tests and factor: the stages `T` come out in turn, and no divisor is bad. -/
structure Drives {τ : Type} (next : τ → Outcome (τ × ℝ)) (bad : ℝ → Prop) (q : ℝ) (st : ℕ → τ) (T : ℕ → ℝ) (M : ℕ) : Prop where
  next : ∀ j < M, next (st j) = .ret (st (j + 1), T j)
  pos : 0 < q
  lt_one : q < 1
  sep : ∀ p m, p + (m + 1) < M → ¬ bad (q ^ p - q ^ (p + (m + 1)))

theorem extrapolate_stage {τ : Type} {next : τ → Outcome (τ × ℝ)} {bad : ℝ → Prop} {q : ℝ} {st : ℕ → τ} {T : ℕ → ℝ} {M : ℕ}
    (D : Drives next bad q st T M) (s h : List ℝ) (K j : ℕ) (hK : 1 ≤ K) (hKj : K ≤ j + 1) (hj : j < M) (dss : ℝ)
    (hs : ∀ i ≤ j, Outcome.index s i = .ret (T i)) (hh : ∀ i ≤ j, Outcome.index h i = .ret (q ^ i)) :
    ∃ e, extrapolate bad h s K (j + 1 - K) dss = .ret (extrapolated q T K j, e, true) ∧
      (2 ≤ K → e = extrapolated q T K j - extrapolated q T (K - 1) j) ∧ (K = 1 → e = dss) := by
  obtain ⟨e, he, h2, h1⟩ := extrapolate_eq (fun i => q ^ i) T (pow_right_strictAnti₀ D.pos D.lt_one)
    (fun i => (pow_pos D.pos i).le) h s
    (j + 1 - K) K hK (fun i hi => hh i (by omega)) (fun i hi => hs i (by omega)) bad
    (fun i m him => D.sep _ m (by omega)) dss
  refine ⟨e, ?_, ?_, h1⟩
  · rw [he, extrapolated_eq_nev q T K j hK hKj]
  · intro hK2
    rw [h2 hK2, extrapolated_eq_nev q T K j hK hKj, extrapolated_eq_nev q T (K - 1) j (by omega) (by omega),
      show j + 1 - (K - 1) = j + 1 - K + 1 by omega, show K - 1 - 1 = K - 2 by omega]

theorem rombergLoop_answer {τ : Type} {next : τ → Outcome (τ × ℝ)} {bad : ℝ → Prop} {q : ℝ} {st : ℕ → τ} {T : ℕ → ℝ} {M : ℕ}
    (D : Drives next bad q st T M) (stop : ℝ → ℝ → Prop) (K : ℕ) (hK : 2 ≤ K) (n j : ℕ) (hnj : j + n = M)
    (s h : List ℝ) (ss dss : ℝ) (hf : Filled q T M j s h)
    (hlast : n = 0 → 0 < j ∧ K ≤ j ∧ ss = extrapolated q T K (j - 1) ∧
      dss = ss - extrapolated q T (K - 1) (j - 1)) (hKM : K ≤ M) :
    ∃ r, rombergLoop next bad stop q K M n j (st j) s h ss dss = .ret r ∧
      ((n = 0 ∧ r = ⟨ss, |dss|, M, false⟩) ∨ (0 < n ∧ RombergAnswer q stop T K j M r)) := by
  induction n generalizing j s h ss dss with
  | zero => exact ⟨_, rfl, Or.inl ⟨rfl, rfl⟩⟩
  | succ n ih =>
    obtain ⟨s', hs', hidx, hidh, h', hh', hfil⟩ := hf.store (by omega : j < M)
    rw [rombergLoop, D.next j (by omega), Outcome.bind_ret]
    dsimp only
    rw [hs', Outcome.bind_ret]
    by_cases hKj : j + 1 ≥ K
    · rw [if_pos hKj]
      obtain ⟨e, he, h2, -⟩ := extrapolate_stage D s' h K j (by omega) hKj (by omega) dss hidx hidh
      rw [he, Outcome.bind_ret]
      dsimp only
      rw [if_neg (by decide)]
      obtain rfl := h2 hK
      by_cases hset : stop (extrapolated q T K j) (extrapolated q T K j - extrapolated q T (K - 1) j)
      · rw [if_pos hset]
        refine ⟨_, rfl, Or.inr ⟨by omega, j, rfl, le_rfl, hKj, by omega, rfl, rfl, fun k h1 _ h2 => by omega,
          Or.inl ⟨rfl, hset⟩⟩⟩
      · rw [if_neg hset, hh', Outcome.bind_ret]
        obtain ⟨r, hr, ha⟩ := ih (j + 1) (by omega) s' h' _ _ hfil (fun _ => ⟨by omega, hKj, rfl, rfl⟩)
        refine ⟨r, hr, Or.inr ⟨by omega, ?_⟩⟩
        rcases ha with ⟨h0, rfl⟩ | ⟨_, ha⟩
        · exact ⟨j, by dsimp only; omega, le_rfl, hKj, by omega, rfl, rfl, fun k h1 _ h2 => by omega,
            Or.inr ⟨rfl, by omega, hset⟩⟩
        · exact ha.step fun _ => hset
    · rw [if_neg hKj, hh', Outcome.bind_ret]
      obtain ⟨r, hr, ha⟩ := ih (j + 1) (by omega) s' h' _ _ hfil (fun h0 => by omega)
      refine ⟨r, hr, Or.inr ⟨by omega, ?_⟩⟩
      rcases ha with ⟨h0, rfl⟩ | ⟨_, ha⟩
      · omega
      · exact ha.step fun h => absurd h hKj

theorem filled_start (q : ℝ) (T : ℕ → ℝ) (M : ℕ) :
    ∃ h, Outcome.store (List.replicate (M + 1) (0 : ℝ)) 0 1 = .ret h ∧ Filled q T M 0 (List.replicate M 0) h := by
  rw [replicate_eq_tab, replicate_eq_tab, store_tab _ (by omega)]
  refine ⟨_, rfl, _, _, rfl, rfl, fun i hi => absurd hi (Nat.not_lt_zero i), ?_⟩
  intro i hi
  obtain rfl : i = 0 := by omega
  simp

theorem rombergLoop_short {τ : Type} {next : τ → Outcome (τ × ℝ)} {bad : ℝ → Prop} {q : ℝ} {st : ℕ → τ} {T : ℕ → ℝ} {M : ℕ}
    (D : Drives next bad q st T M) (stop : ℝ → ℝ → Prop) (K : ℕ) (hKM : M < K) (n j : ℕ) (hnj : j + n = M)
    (s h : List ℝ) (hf : Filled q T M j s h) :
    rombergLoop next bad stop q K M n j (st j) s h 0 0 = .ret ⟨0, 0, M, false⟩ := by
  induction n generalizing j s h with
  | zero => simp [rombergLoop]
  | succ n ih =>
    obtain ⟨s', hs', -, -, h', hh', hfil⟩ := hf.store (by omega : j < M)
    rw [rombergLoop, D.next j (by omega), Outcome.bind_ret]
    dsimp only
    rw [hs', Outcome.bind_ret, if_neg (by omega), hh', Outcome.bind_ret]
    exact ih (j + 1) (by omega) s' h' hfil

theorem rombergLoop_one {τ : Type} {next : τ → Outcome (τ × ℝ)} {bad : ℝ → Prop} {q : ℝ} {st : ℕ → τ} {T : ℕ → ℝ} {M : ℕ}
    (D : Drives next bad q st T M) (stop : ℝ → ℝ → Prop) (hM : 1 ≤ M) (s h : List ℝ) (hf : Filled q T M 0 s h)
    (hstop : stop (T 0) 0) : rombergLoop next bad stop q 1 M M 0 (st 0) s h 0 0 = .ret ⟨T 0, 0, 1, true⟩ := by
  obtain ⟨n, rfl⟩ : ∃ n, M = n + 1 := ⟨M - 1, by omega⟩
  obtain ⟨s', hs', hidx, hidh, h', hh', hfil⟩ := hf.store (by omega : 0 < n + 1)
  rw [rombergLoop, D.next 0 (by omega), Outcome.bind_ret]
  dsimp only
  rw [hs', Outcome.bind_ret, if_pos (by omega)]
  obtain ⟨e, he', -, h1⟩ := extrapolate_stage D s' h 1 0 le_rfl (by omega) (by omega) 0 hidx hidh
  obtain rfl := h1 rfl
  rw [he', Outcome.bind_ret]
  dsimp only
  have e : extrapolated q T 1 0 = T 0 := by rw [extrapolated_eq_nev _ _ 1 0 le_rfl le_rfl, nev_zero]
  rw [if_neg (by decide), e, if_pos hstop]
  simp

theorem trap_drives (f : ℝ → ℝ) (a b : ℝ) (M : ℕ) (hM : M ≤ 32) :
    Drives (Trap.emit f a b) (fun den => |den| < divisionThreshold) (1 / 4) (before f a b)
      (fun k => trapezoid f a b (2 ^ k)) M where
  next := by
    intro j hj
    rw [Trap.emit, next_before f a b j (by omega)]
    rfl
  pos := by norm_num
  lt_one := by norm_num
  sep := by
    intro p m h
    exact not_lt.mpr (quarter_sep p m (by omega))

/-! ## The answers -/

/-- The extrapolation `ss` is accepted when its last correction is within `eps` of it, relatively or absolutely on the scale of
the spacing of floating-point numbers at one. -/
def WithinEps (eps ss dss : ℝ) : Prop := |dss| ≤ eps * |ss| + eps * (1 / 2 ^ 52)

/-- **C75.**  With `2 ≤ K ≤ JMAX ≤ 32`, `IntegrateRomberg` returns the extrapolation to step zero from the last `K` trapezoidal
sums at the first round, from round `K` on, at which it agrees with the extrapolation from `K - 1` sums to within `eps`; if
there is none, it returns the last extrapolation with `converged == false`.  In both cases the error estimate is the difference
of the two extrapolations. -/
theorem integrateRomberg_spec (M K : ℕ) (f : ℝ → ℝ) (a b eps : ℝ) (hK : 2 ≤ K) (hKM : K ≤ M) (hM : M ≤ 32) :
    ∃ r, integrateRomberg M K f a b eps = .ret r ∧
      RombergAnswer (1 / 4) (WithinEps eps) (fun k => trapezoid f a b (2 ^ k)) K 0 M r := by
  obtain ⟨h, hh, hf⟩ := filled_start (1 / 4) (fun k => trapezoid f a b (2 ^ k)) M
  rw [integrateRomberg, hh, Outcome.bind_ret]
  obtain ⟨r, hr, ha⟩ := rombergLoop_answer (trap_drives f a b M hM) (rombergSettled eps) K hK M 0 (by omega) _ h 0 0 hf
    (fun h0 => by omega) hKM
  refine ⟨r, hr, ?_⟩
  rcases ha with ⟨h0, _⟩ | ⟨_, ha⟩
  · omega
  · exact ha

example : ∃ r, integrateRomberg 20 5 Real.exp 0 1 (1 / 10 ^ 10) = .ret r ∧
    RombergAnswer (1 / 4) (WithinEps (1 / 10 ^ 10)) (fun k => trapezoid Real.exp 0 1 (2 ^ k)) 5 0 20 r :=
  integrateRomberg_spec 20 5 _ _ _ _ (by norm_num) (by norm_num) (by norm_num)

/-! ## Exactness -/

/-- Extrapolation recovers the value at zero of a polynomial in the squared step. -/
theorem extrapolated_poly (c : ℝ) (hc0 : 0 < c) (hc1 : c < 1) (q : ℝ[X]) (T : ℕ → ℝ) (hT : ∀ i, T i = q.eval (c ^ i)) (K j : ℕ)
    (hKj : K ≤ j + 1) (hq : q.natDegree < K) : extrapolated c T K j = q.eval 0 := by
  rw [extrapolated, ← Lagrange.eq_interpolate_of_eval_eq (f := q) (s := Finset.Icc (j + 1 - K) j)
    (v := fun i => c ^ i) T (pow_right_strictAnti₀ hc0 hc1).injective.injOn]
  · rw [Nat.card_Icc]
    refine lt_of_le_of_lt degree_le_natDegree ?_
    exact_mod_cast (by omega : q.natDegree < j + 1 - (j + 1 - K))
  · intro i _
    exact (hT i).symm

theorem trapezoid_quarter (p : ℝ[X]) (a b : ℝ) (i : ℕ) :
    trapezoid (fun x => p.eval x) a b (2 ^ i) = (expansion p a b).eval ((1 / 4 : ℝ) ^ i) := by
  rw [trapezoid_poly p a b _ (by positivity)]
  congr 1
  rw [one_div_pow, Nat.cast_pow, ← pow_mul, mul_comm, pow_mul]
  norm_num

/-- **C75.**  Extrapolation from `K` trapezoidal sums is exact on polynomials of degree at most `2K - 1`. -/
theorem romberg_exact (p : ℝ[X]) (a b : ℝ) (K j : ℕ) (hK : 1 ≤ K) (hKj : K ≤ j + 1) (hp : p.natDegree ≤ 2 * K - 1) :
    extrapolated (1 / 4) (fun k => trapezoid (fun x => p.eval x) a b (2 ^ k)) K j = ∫ x in a..b, p.eval x := by
  rw [extrapolated_poly (1 / 4) (by norm_num) (by norm_num) (expansion p a b) _ (trapezoid_quarter p a b) K j hKj, expansion_zero]
  have := expansion_degree p a b
  omega

/-- **C75.**  `IntegrateRomberg` computes the integral of a polynomial of degree at most `2K - 1` exactly, whatever the
tolerance and whether or not it reports convergence. -/
theorem integrateRomberg_exact (M K : ℕ) (p : ℝ[X]) (a b eps : ℝ) (hK : 2 ≤ K) (hKM : K ≤ M) (hM : M ≤ 32)
    (hp : p.natDegree ≤ 2 * K - 1) :
    ∃ r, integrateRomberg M K (fun x => p.eval x) a b eps = .ret r ∧ r.value = ∫ x in a..b, p.eval x := by
  obtain ⟨r, hr, i, _, _, h3, _, h5, _⟩ := integrateRomberg_spec M K (fun x => p.eval x) a b eps hK hKM hM
  exact ⟨r, hr, by rw [h5, romberg_exact p a b K i (by omega) h3 hp]⟩

/-- **C75.**  On polynomials of degree at most `2K - 3` it converges at round `K`, with error estimate zero. -/
theorem integrateRomberg_exact_converges (M K : ℕ) (p : ℝ[X]) (a b eps : ℝ) (hK : 2 ≤ K) (hKM : K ≤ M) (hM : M ≤ 32)
    (he : 0 ≤ eps) (hp : p.natDegree ≤ 2 * K - 3) :
    integrateRomberg M K (fun x => p.eval x) a b eps = .ret ⟨∫ x in a..b, p.eval x, 0, K, true⟩ := by
  obtain ⟨r, hr, i, h1, _, h3, h4, h5, h6, h7, h8⟩ := integrateRomberg_spec M K (fun x => p.eval x) a b eps hK hKM hM
  have hE : ∀ j, K ≤ j + 1 → extrapolated (1 / 4) (fun k => trapezoid (fun x => p.eval x) a b (2 ^ k)) K j = ∫ x in a..b, p.eval x :=
    fun j hj => romberg_exact p a b K j (by omega) hj (by omega)
  have hE' : ∀ j, K ≤ j + 1 →
      extrapolated (1 / 4) (fun k => trapezoid (fun x => p.eval x) a b (2 ^ k)) (K - 1) j = ∫ x in a..b, p.eval x :=
    fun j hj => romberg_exact p a b (K - 1) j (by omega) (by omega) (by omega)
  have hset : ∀ j, K ≤ j + 1 → WithinEps eps (extrapolated (1 / 4) (fun k => trapezoid (fun x => p.eval x) a b (2 ^ k)) K j)
      (extrapolated (1 / 4) (fun k => trapezoid (fun x => p.eval x) a b (2 ^ k)) K j -
        extrapolated (1 / 4) (fun k => trapezoid (fun x => p.eval x) a b (2 ^ k)) (K - 1) j) := by
    intro j hj
    rw [WithinEps, hE j hj, hE' j hj, sub_self, abs_zero]
    positivity
  have hi : i + 1 = K := by
    by_contra hne
    exact h7 (K - 1) (Nat.zero_le _) (by omega) (by omega) (hset (K - 1) (by omega))
  rw [hE i h3] at h5
  rw [hE i h3, hE' i h3, sub_self, abs_zero] at h6
  rw [hr]
  congr 1
  ext
  · exact h5
  · exact h6
  · rw [h1, hi]
  · rcases h8 with h8 | h8
    · exact h8.1
    · exact absurd (hset i h3) h8.2.2

example : (X ^ 7 - C 2 * X + C 1 : ℝ[X]).natDegree ≤ 2 * 5 - 3 := by compute_degree

/-! ## The corners -/

/-- **C75, corner.**  With fewer rounds than extrapolation points the answer is zero for every integrand, marked as not
converged but with error estimate zero. -/
theorem integrateRomberg_short (M K : ℕ) (f : ℝ → ℝ) (a b eps : ℝ) (hKM : M < K) (hM : M ≤ 32) :
    integrateRomberg M K f a b eps = .ret ⟨0, 0, M, false⟩ := by
  obtain ⟨h, hh, hf⟩ := filled_start (1 / 4) (fun k => trapezoid f a b (2 ^ k)) M
  rw [integrateRomberg, hh, Outcome.bind_ret]
  exact rombergLoop_short (trap_drives f a b M hM) _ K hKM M 0 (by omega) _ h hf

/-- **C75, corner.**  With `K = 1` there is nothing to compare, and the one-panel trapezoidal rule is reported as converged
with error estimate zero, for every integrand. -/
theorem integrateRomberg_one (M : ℕ) (f : ℝ → ℝ) (a b eps : ℝ) (he : 0 ≤ eps) (h1 : 1 ≤ M) (hM : M ≤ 32) :
    integrateRomberg M 1 f a b eps = .ret ⟨trapezoid f a b 1, 0, 1, true⟩ := by
  obtain ⟨h, hh, hf⟩ := filled_start (1 / 4) (fun k => trapezoid f a b (2 ^ k)) M
  rw [integrateRomberg, hh, Outcome.bind_ret]
  refine rombergLoop_one (trap_drives f a b M hM) _ h1 _ h hf ?_
  rw [rombergSettled, machEps, abs_zero]
  positivity

/-- **C75, disagreement.**  Converged, with error estimate zero, and wrong. -/
theorem integrateRomberg_one_wrong :
    ∃ r, integrateRomberg 20 1 (fun x => x ^ 2) 0 1 (1 / 10 ^ 10) = .ret r ∧ r.converged = true ∧ r.error = 0 ∧
      r.value - ∫ x in (0 : ℝ)..1, x ^ 2 = 1 / 6 := by
  refine ⟨_, integrateRomberg_one 20 _ 0 1 _ (by norm_num) (by norm_num) (by norm_num), rfl, rfl, ?_⟩
  rw [integral_pow]
  simp [trapezoid, node]
  norm_num

end Verif.Integ
