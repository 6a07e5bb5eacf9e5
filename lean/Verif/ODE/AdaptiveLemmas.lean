import Verif.ODE.AdaptiveSpec
import Verif.ODE.StepperMore

/-! # Helper lemmas: the adaptive integrator -/

set_option autoImplicit false

namespace Verif.ODE

open Outcome Mat

variable {n : ℕ}

/-- The container has capacity `c` and holds exactly the entries `l`. -/
def Holds (c : ℕ) (t1 t2 : ℝ) (s : Sol) (l : List (ℝ × (Fin n → ℝ))) : Prop :=
  l.length ≤ c ∧ ∃ T X, s = Sol.mk' 0 0 n c l.length t1 t2 T X ∧
    ∀ k (h : k < l.length), T k = l[k].1 ∧ ∀ i : Fin n, X i k = l[k].2 i

theorem Holds.sees {c : ℕ} {t1 t2 : ℝ} {s : Sol} {l : List (ℝ × (Fin n → ℝ))} (h : Holds c t1 t2 s l) :
    Sees s l := by
  obtain ⟨h1, T, X, rfl, h2⟩ := h
  exact sees_mk h1 h2

theorem Holds.new {c : ℕ} (t1 t2 : ℝ) (hn : 0 < n) (hS : Dense.Shape n (c + 1)) :
    ∃ s, Sol.new t1 t2 n c = .ret s ∧ Holds (n := n) (c + 1) t1 t2 s [] :=
  ⟨_, Sol.new_eq t1 t2 hn hS, by simp, _, _, rfl, fun k hk => absurd hk (by simp)⟩

theorem Holds.fill {c : ℕ} {t1 t2 : ℝ} {s : Sol} {l : List (ℝ × (Fin n → ℝ))} (h : Holds c t1 t2 s l)
    (hl : l.length < c) (t : ℝ) (y : Fin n → ℝ) :
    ∃ s', s.fillValues l.length t (List.ofFn y) = .ret s' ∧ Holds c t1 t2 s' (l ++ [(t, y)]) := by
  obtain ⟨h1, T, X, rfl, h2⟩ := h
  refine ⟨_, Sol.fillValues_eq T X hl t y, by simp; omega, fun j => if j = l.length then t else T j,
    fun i j => if h : j = l.length ∧ i < n then y ⟨i, h.2⟩ else X i j, ?_, fun k hk => ?_⟩
  · rw [show max l.length (l.length + 1) = (l ++ [(t, y)]).length by simp]
  · by_cases hk' : k = l.length
    · subst hk'
      simp
    · have hk2 : k < l.length := by simp at hk; omega
      have h3 := h2 k hk2
      dsimp only
      rw [if_neg hk', List.getElem_append_left hk2]
      refine ⟨h3.1, fun i => ?_⟩
      rw [dif_neg (by omega), h3.2]

theorem outLoop_run {st : Stepper} {cv : ℝ → Fin n → ℝ} (hst : ∀ u, st.interpolate u = .ret (List.ofFn (cv u)))
    {dt : ℝ} (hdt : 0 < dt) {t0 tNew t1 t2 : ℝ} {N : ℕ} (fuel : ℕ) :
    ∀ (j : ℕ) (sol : Sol) (l : List (ℝ × (Fin n → ℝ))), Holds N t1 t2 sol l →
      tNew + epsR < t0 + j * dt + (fuel - 1) * dt → 0 < fuel →
      ∃ (sol' : Sol) (j' : ℕ) (js : List ℕ),
        outLoop st dt tNew N fuel (sol, l.length, t0 + j * dt)
          = .ret (sol', l.length + js.length, t0 + j' * dt) ∧
        j ≤ j' ∧ js.Pairwise (· < ·) ∧ (∀ i : ℕ, i ∈ js ↔ j ≤ i ∧ i < j' ∧ t0 + i * dt ≤ tNew) ∧
        Holds N t1 t2 sol' (l ++ js.map (fun (i : ℕ) => (t0 + i * dt, cv (t0 + i * dt)))) ∧
        (∀ i : ℕ, j ≤ i → i < j' → t0 + i * dt ≤ tNew + epsR) ∧
        (l.length + js.length < N → tNew + epsR < t0 + j' * dt) := by
  induction fuel with
  | zero => intro j sol l _ _ h; omega
  | succ k ih =>
    intro j sol l hl hf _
    have hdone : ¬ (t0 + j * dt ≤ tNew + epsR ∧ (l.length : ℤ) < (N : ℕ)) →
        ∃ (sol' : Sol) (j' : ℕ) (js : List ℕ),
        outLoop st dt tNew N (k + 1) (sol, l.length, t0 + j * dt)
          = .ret (sol', l.length + js.length, t0 + j' * dt) ∧
        j ≤ j' ∧ js.Pairwise (· < ·) ∧ (∀ i : ℕ, i ∈ js ↔ j ≤ i ∧ i < j' ∧ t0 + i * dt ≤ tNew) ∧
        Holds N t1 t2 sol' (l ++ js.map (fun (i : ℕ) => (t0 + i * dt, cv (t0 + i * dt)))) ∧
        (∀ i : ℕ, j ≤ i → i < j' → t0 + i * dt ≤ tNew + epsR) ∧
        (l.length + js.length < N → tNew + epsR < t0 + j' * dt) := by
      intro hc
      refine ⟨sol, j, [], ?_, le_rfl, List.Pairwise.nil, fun i => ?_, by simpa using hl, fun i h1 h2 => by omega, ?_⟩
      · rw [outLoop, if_neg hc]; rfl
      · simp; omega
      · intro h1
        by_contra h2
        exact hc ⟨not_lt.mp h2, by simp at h1; exact_mod_cast h1⟩
    by_cases hc : t0 + j * dt ≤ tNew + epsR ∧ (l.length : ℤ) < (N : ℕ)
    swap
    · exact hdone hc
    have hk : 0 < k := by
      rcases Nat.eq_zero_or_pos k with rfl | hk
      · exfalso; push_cast at hf; linarith [hc.1]
      · exact hk
    have hf' : tNew + epsR < t0 + (j + 1 : ℕ) * dt + ((k : ℝ) - 1) * dt := by
      push_cast at hf ⊢; linarith
    have e : t0 + j * dt + dt = t0 + (j + 1 : ℕ) * dt := by push_cast; ring
    have hlN : l.length < N := by exact_mod_cast hc.2
    by_cases ht : t0 + j * dt ≤ tNew
    · obtain ⟨sol1, h1, h2⟩ := hl.fill hlN (t0 + j * dt) (cv (t0 + j * dt))
      obtain ⟨sol', j', js, h3, h4, h5, h6, h7, h8, h9⟩ := ih (j + 1) sol1 _ h2 hf' hk
      refine ⟨sol', j', j :: js, ?_, by omega, ?_, fun i => ?_, ?_, fun i hi1 hi2 => ?_, fun hlt => ?_⟩
      · rw [outLoop, if_pos hc]
        dsimp only
        rw [if_pos ht, hst, Outcome.bind_ret, h1, Outcome.bind_ret, e]
        rw [List.length_append, List.length_singleton] at h3
        rw [h3, List.length_cons]
        congr 3
        omega
      · refine List.pairwise_cons.mpr ⟨fun i hi => ?_, h5⟩
        have := (h6 i).mp hi
        omega
      · rw [List.mem_cons, h6]
        constructor
        · rintro (rfl | ⟨h10, h11, h12⟩)
          · exact ⟨le_rfl, by omega, ht⟩
          · exact ⟨by omega, h11, h12⟩
        · rintro ⟨h10, h11, h12⟩
          rcases Nat.lt_or_eq_of_le h10 with h13 | h13
          · exact .inr ⟨by omega, h11, h12⟩
          · exact .inl h13.symm
      · rw [List.map_cons]
        simpa using h7
      · rcases Nat.lt_or_eq_of_le hi1 with h13 | h13
        · exact h8 i (by omega) hi2
        · rw [← h13]; exact hc.1
      · refine h9 ?_
        simp at hlt ⊢
        omega
    · obtain ⟨sol', j', js, h3, h4, h5, h6, h7, h8, h9⟩ := ih (j + 1) sol l hl hf' hk
      refine ⟨sol', j', js, ?_, by omega, h5, fun i => ?_, h7, fun i hi1 hi2 => ?_, h9⟩
      · rw [outLoop, if_pos hc]
        dsimp only
        rw [if_neg ht, e, h3]
      · rw [h6]
        constructor
        · rintro ⟨h10, h11, h12⟩
          exact ⟨by omega, h11, h12⟩
        · rintro ⟨h10, h11, h12⟩
          rcases Nat.lt_or_eq_of_le h10 with h13 | h13
          · exact ⟨by omega, h11, h12⟩
          · rw [← h13] at h12
            exact absurd h12 ht
      · rcases Nat.lt_or_eq_of_le hi1 with h13 | h13
        · exact h8 i (by omega) hi2
        · rw [← h13]; exact hc.1

/-- What the integrator needs from a stepper: started anywhere, it keeps an invariant `Inv`, and a trial
step `h > 0` either throws, if `quit`, or is taken, by `min(h, Eps)` at least, or, if `rej`, is rejected and
half of it is proposed. -/
structure Drives (doStep : DoStep) (sys : System) (f : ℝ → (Fin n → ℝ) → Fin n → ℝ) (eps : ℝ)
    (ok : ℝ → (Fin n → ℝ) → ℝ → (Fin n → ℝ) → Prop) (rej : Prop) (quit : ℝ → (Fin n → ℝ) → ℝ → Prop) (lo : ℝ)
    (Inv : Stepper → ℝ → (Fin n → ℝ) → Prop) : Prop where
  start : ∀ (s : Stepper) t x, s.n = n → Inv s.resetFSAL t x
  run : ∀ s t x h, Inv s t x → 0 < h →
    (doStep sys s t (List.ofFn x) (List.ofFn (f t x)) h eps = .exn (.mml "ODESolverError") ∧ quit t x h) ∨
    ∃ r, doStep sys s t (List.ofFn x) (List.ofFn (f t x)) h eps = .ret r ∧ 0 < r.res.hNext ∧
      r.res.hDone ≤ h ∧ 0 < r.res.hDone ∧ lo * r.res.hDone ≤ r.res.hNext ∧
      ((r.res.accepted = true ∧ min h epsR ≤ r.res.hDone ∧
          ∃ x', r.x = List.ofFn x' ∧ r.dxdt = List.ofFn (f (t + r.res.hDone) x') ∧
            ok t x (t + r.res.hDone) x' ∧ Inv r.st (t + r.res.hDone) x' ∧
            ∃ P, Hermite P t (t + r.res.hDone) x (f t x) x' (f (t + r.res.hDone) x') ∧
              ∀ u, r.st.interpolate u = .ret (List.ofFn fun i => (P i).eval u)) ∨
        (rej ∧ r.res.accepted = false ∧ r.x = List.ofFn x ∧ r.dxdt = List.ofFn (f t x) ∧ r.res.hNext = h / 2 ∧
          Inv r.st t x))

/-- The invariant of the main loop. -/
structure AInv (f : ℝ → (Fin n → ℝ) → Fin n → ℝ) (ok : ℝ → (Fin n → ℝ) → ℝ → (Fin n → ℝ) → Prop)
    (rej : Prop) (Inv : Stepper → ℝ → (Fin n → ℝ) → Prop) (t0 : ℝ) (x0 : Fin n → ℝ) (tEnd dt : ℝ) (N : ℕ) (s : Adapt)
    (m : ℕ) (p : ℕ → ℝ × (Fin n → ℝ)) (js : List ℕ) (v : ℕ → Fin n → ℝ) (j : ℕ) : Prop where
  p0 : p 0 = (t0, x0)
  pm : (p m).1 = s.t
  step : ∀ k < m, (p k).1 < (p (k + 1)).1 ∧ ok (p k).1 (p k).2 (p (k + 1)).1 (p (k + 1)).2
  inv : Inv s.st s.t (p m).2
  x : s.x = List.ofFn (p m).2
  dxdt : s.dxdt = List.ofFn (f s.t (p m).2)
  hpos : 0 < s.h
  tle : s.t ≤ tEnd
  acc : s.accepted = m
  holds : Holds N t0 tEnd s.sol ((t0, x0) :: js.map (fun (i : ℕ) => (t0 + i * dt, v i)))
  idx : s.idx = js.length + 1
  tNext : s.tNext = t0 + j * dt
  j1 : 1 ≤ j
  j0 : m = 0 → j = 1
  norej : s.rejected = 0 ∨ rej
  sorted : js.Pairwise (· < ·)
  mem : ∀ i : ℕ, i ∈ js ↔ 1 ≤ i ∧ i < j ∧ t0 + i * dt ≤ s.t ∧ ¬ JustAfter m p (t0 + i * dt)
  curve : ∀ i ∈ js, OnCurve f m p (t0 + i * dt) (v i)
  seen : ∀ i : ℕ, 1 ≤ i → i < j → t0 + i * dt ≤ s.t + epsR
  ahead : js.length + 1 < N → 1 ≤ m → s.t + epsR < t0 + j * dt

theorem AInv.mono {f : ℝ → (Fin n → ℝ) → Fin n → ℝ} {ok : ℝ → (Fin n → ℝ) → ℝ → (Fin n → ℝ) → Prop}
    {m : ℕ} {p : ℕ → ℝ × (Fin n → ℝ)}
    (h : ∀ k < m, (p k).1 < (p (k + 1)).1 ∧ ok (p k).1 (p k).2 (p (k + 1)).1 (p (k + 1)).2) :
    ∀ k ≤ m, (p k).1 ≤ (p m).1 := by
  induction m with
  | zero => intro k hk; rw [Nat.le_zero.mp hk]
  | succ m ih =>
    intro k hk
    rcases Nat.lt_or_eq_of_le hk with h1 | h1
    · exact (ih (fun k hk => h k (by omega)) k (by omega)).trans (h m (by omega)).1.le
    · rw [h1]

theorem adaptBody_run {doStep : DoStep} {sys : System} {f : ℝ → (Fin n → ℝ) → Fin n → ℝ} {eps : ℝ}
    {ok : ℝ → (Fin n → ℝ) → ℝ → (Fin n → ℝ) → Prop} {rej : Prop} {quit : ℝ → (Fin n → ℝ) → ℝ → Prop} {lo : ℝ}
    {Inv : Stepper → ℝ → (Fin n → ℝ) → Prop} (hD : Drives doStep sys f eps ok rej quit lo Inv) {t0 : ℝ} {x0 : Fin n → ℝ} {tEnd dt minStep : ℝ} (hdt : 0 < dt)
    {N : ℕ} {s : Adapt} {m : ℕ} {p : ℕ → ℝ × (Fin n → ℝ)} {js : List ℕ} {v : ℕ → Fin n → ℝ} {j : ℕ}
    (hI : AInv f ok rej Inv t0 x0 tEnd dt N s m p js v j) (ht : s.t < tEnd - epsR) :
    (adaptBody doStep sys tEnd dt eps minStep N s = .exn (.mml "ODESolverError") ∧
      Stuck ok quit lo t0 x0 tEnd minStep) ∨
    ∃ s', adaptBody doStep sys tEnd dt eps minStep N s = .ret s' ∧ minStep ≤ s'.h ∧
      (∃ m' p' js' v' j', AInv f ok rej Inv t0 x0 tEnd dt N s' m' p' js' v' j') ∧
      ((s.t + min (min s.h (tEnd - s.t)) epsR ≤ s'.t) ∨ (s'.t = s.t ∧ s'.h = min s.h (tEnd - s.t) / 2)) := by
  have heps := epsR_pos
  have hh : (if s.t + s.h > tEnd then tEnd - s.t else s.h) = min s.h (tEnd - s.t) := by
    split_ifs with h
    · exact (min_eq_right (by linarith)).symm
    · exact (min_eq_left (by linarith)).symm
  have hpos : 0 < min s.h (tEnd - s.t) := lt_min hI.hpos (by linarith)
  unfold adaptBody
  rw [hh, hI.x, hI.dxdt]
  have hstuck : ∀ {d x : ℝ}, d ≤ min s.h (tEnd - s.t) → 0 < d → lo * d ≤ x → x < minStep →
      Stuck ok quit lo t0 x0 tEnd minStep := fun {d x} h1 h2 h3 h4 =>
    ⟨m, p, hI.p0, hI.step, by rw [hI.pm]; exact ht, d, h2,
      by rw [hI.pm]; linarith [min_le_right s.h (tEnd - s.t)], .inr (h3.trans_lt h4)⟩
  rcases hD.run s.st s.t (p m).2 _ hI.inv hpos with ⟨he, hq⟩ | ⟨r, hr, hnx, hd1, hd0, hlo, hacc | hrej⟩
  · left
    exact ⟨by rw [he]; rfl, m, p, hI.p0, hI.step, by rw [hI.pm]; exact ht, _, hpos,
      by rw [hI.pm]; linarith [min_le_right s.h (tEnd - s.t)], .inl (by rw [hI.pm]; exact hq)⟩
  · obtain ⟨ha, hd2, x', hx, hdx, hok, hinv, P, hP, hint⟩ := hacc
    have htn : s.t + r.res.hDone ≤ tEnd := by have := hd1.trans (min_le_right _ _); linarith
    set tNew := s.t + r.res.hDone with htNew
    have hfuel : tNew + epsR < t0 + j * dt + (((⌈|tNew + epsR - s.tNext| / |dt|⌉₊ + 2 : ℕ) : ℝ) - 1) * dt := by
      rw [hI.tNext]
      have h1 := Nat.le_ceil (|tNew + epsR - (t0 + j * dt)| / |dt|)
      rw [abs_of_pos hdt, div_le_iff₀ hdt] at h1
      have h2 := le_abs_self (tNew + epsR - (t0 + j * dt))
      rw [abs_of_pos hdt]
      push_cast
      linarith
    obtain ⟨sol', j', js1, h1, h2, h3, h4, h5, h6, h7⟩ := outLoop_run hint hdt (t0 := t0) (tNew := tNew)
      (N := N) _ j s.sol _ hI.holds hfuel (by omega)
    rw [hr, Outcome.bind_ret]
    unfold adaptAfter
    rw [if_pos ha, ← htNew]
    have hlen : ((t0, x0) :: js.map (fun (i : ℕ) => (t0 + i * dt, v i))).length = js.length + 1 := by simp
    rw [hlen, ← hI.idx, ← hI.tNext] at h1
    rw [h1, Outcome.bind_ret]
    dsimp only
    rw [Outcome.bind_ret]
    by_cases hmin : r.res.hNext < minStep
    · exact .inl ⟨by rw [if_pos hmin], hstuck hd1 hd0 hlo hmin⟩
    right
    refine ⟨_, by rw [if_neg hmin], not_lt.mp hmin, ⟨m + 1, fun k => if k ≤ m then p k else (tNew, x'),
      js ++ js1, fun i => if i < j then v i else fun c => (P c).eval (t0 + i * dt), j', ?_⟩, .inl ?_⟩
    swap
    · rw [htNew]; linarith
    have hpm1 : (if m + 1 ≤ m then p (m + 1) else (tNew, x')) = (tNew, x') := if_neg (by omega)
    have hmono := AInv.mono (f := f) hI.step
    have hfull : ∀ i, i ∈ js1 → js.length + 1 < N := by
      intro i hi
      have h8 := h5.1
      have h9 := List.length_pos_of_mem hi
      simp at h8
      omega
    have hv : ∀ i ∈ js, i < j := fun i hi => ((hI.mem i).mp hi).2.1
    have hv1 : ∀ i ∈ js1, j ≤ i := fun i hi => ((h4 i).mp hi).1
    have hJA : ∀ u, u ≤ tNew → (JustAfter (m + 1) (fun k => if k ≤ m then p k else (tNew, x')) u ↔ JustAfter m p u) := by
      intro u hu
      constructor
      · rintro ⟨k, hk1, hk2, hk3, hk4⟩
        by_cases hkm : k ≤ m
        · simp only [if_pos hkm] at hk3 hk4
          exact ⟨k, hk1, hkm, hk3, hk4⟩
        · simp only [if_neg hkm] at hk3
          linarith
      · rintro ⟨k, hk1, hk2, hk3, hk4⟩
        exact ⟨k, hk1, by omega, by simpa only [if_pos hk2] using hk3, by simpa only [if_pos hk2] using hk4⟩
    refine { p0 := ?_, pm := ?_, step := ?_, inv := ?_, x := ?_, dxdt := ?_, hpos := hnx, tle := htn, acc := ?_, holds := ?_, idx := ?_, tNext := rfl, j1 := ?_, j0 := ?_, norej := hI.norej, sorted := ?_, mem := ?_, curve := ?_, seen := ?_, ahead := ?_ }
    · simp [hI.p0]
    · simp only [hpm1]
    · intro k hk
      rcases Nat.lt_or_eq_of_le (Nat.lt_succ_iff.mp hk) with hk' | rfl
      · simp only [if_pos hk'.le, if_pos (show k + 1 ≤ m by omega)]
        exact hI.step k hk'
      · simp only [le_refl, if_true, hpm1]
        rw [hI.pm]
        exact ⟨by rw [htNew]; linarith, hok⟩
    · simpa only [hpm1] using hinv
    · simpa only [hpm1] using hx
    · simpa only [hpm1] using hdx
    · simp only [hI.acc]
    · have e1 : js.map (fun (i : ℕ) => (t0 + (i : ℝ) * dt, if i < j then v i else fun c => (P c).eval (t0 + (i : ℝ) * dt)))
          = js.map (fun (i : ℕ) => (t0 + (i : ℝ) * dt, v i)) :=
        List.map_congr_left fun i hi => by rw [if_pos (hv i hi)]
      have e2 : js1.map (fun (i : ℕ) => (t0 + (i : ℝ) * dt, if i < j then v i else fun c => (P c).eval (t0 + (i : ℝ) * dt)))
          = js1.map (fun (i : ℕ) => (t0 + (i : ℝ) * dt, fun c => (P c).eval (t0 + (i : ℝ) * dt))) :=
        List.map_congr_left fun i hi => by rw [if_neg (by have := hv1 i hi; omega)]
      rw [List.map_append, e1, e2]
      exact h5
    · have := hI.idx; dsimp only; rw [List.length_append]; omega
    · exact hI.j1.trans h2
    · intro h; omega
    · refine List.pairwise_append.mpr ⟨hI.sorted, h3, fun a ha b hb => ?_⟩
      have := hv a ha; have := hv1 b hb; omega
    · intro i
      rw [List.mem_append, hI.mem, h4]
      dsimp only
      constructor
      · rintro (⟨q1, q2, q3, q4⟩ | ⟨q1, q2, q3⟩)
        · have : t0 + i * dt ≤ tNew := by rw [htNew]; linarith
          exact ⟨q1, by omega, this, by rwa [hJA _ this]⟩
        · refine ⟨hI.j1.trans q1, q2, q3, ?_⟩
          rw [hJA _ q3]
          rintro ⟨k, hk1, hk2, hk3, hk4⟩
          have hah := hI.ahead (hfull i ((h4 i).mpr ⟨q1, q2, q3⟩)) (by omega)
          have h9 := hmono k hk2
          rw [hI.pm] at h9
          have h10 : t0 + j * dt ≤ t0 + i * dt := by
            have : (j : ℝ) ≤ i := by exact_mod_cast q1
            nlinarith
          linarith
      · rintro ⟨q1, q2, q3, q4⟩
        rw [hJA _ q3] at q4
        by_cases hij : i < j
        · left
          refine ⟨q1, hij, ?_, q4⟩
          by_contra hc
          have h9 := hI.seen i q1 hij
          refine q4 ⟨m, ?_, le_rfl, ?_, ?_⟩
          · rcases Nat.eq_zero_or_pos m with h0 | h0
            · have := hI.j0 h0; omega
            · exact h0
          · rw [hI.pm]; exact not_le.mp hc
          · rw [hI.pm]; exact h9
        · exact .inr ⟨by omega, q2, q3⟩
    · intro i hi
      rcases List.mem_append.mp hi with hi | hi
      · obtain ⟨k, hk1, hk2, hk3, Q, hQ, hv2⟩ := hI.curve i hi
        refine ⟨k, by omega, ?_, ?_, Q, ?_, ?_⟩
        · simpa only [if_pos hk1.le] using hk2
        · simpa only [if_pos (show k + 1 ≤ m by omega)] using hk3
        · simpa only [if_pos hk1.le, if_pos (show k + 1 ≤ m by omega)] using hQ
        · rw [if_pos (hv i hi)]; exact hv2
      · obtain ⟨q1, q2, q3⟩ := (h4 i).mp hi
        refine ⟨m, by omega, ?_, ?_, P, ?_, ?_⟩
        · simp only [le_refl, if_true]
          rw [hI.pm]
          rcases Nat.eq_zero_or_pos m with h0 | h0
          · have h9 := hI.pm
            rw [h0, hI.p0] at h9
            rw [← h9]
            have : (0 : ℝ) ≤ i * dt := by positivity
            simp only; linarith
          · have hah := hI.ahead (hfull i hi) h0
            have : (j : ℝ) ≤ i := by exact_mod_cast q1
            nlinarith
        · simp only [hpm1]; exact q3
        · simp only [le_refl, if_true, hpm1]
          rw [hI.pm]
          exact hP
        · rw [if_neg (by omega)]
    · intro i q1 q2
      by_cases hij : i < j
      · have := hI.seen i q1 hij
        have h9 : s.t ≤ tNew := by rw [htNew]; linarith
        dsimp only
        linarith
      · exact h6 i (by omega) q2
    · intro q1 _
      refine h7 ?_
      rw [hlen]
      rw [List.length_append] at q1
      omega
  · obtain ⟨hrj, ha, hx, hdx, hnext, hinv⟩ := hrej
    rw [hr, Outcome.bind_ret]
    unfold adaptAfter
    rw [if_neg (by rw [ha]; simp), Outcome.bind_ret]
    dsimp only
    by_cases hmin : r.res.hNext < minStep
    · exact .inl ⟨by rw [if_pos hmin], hstuck hd1 hd0 hlo hmin⟩
    right
    refine ⟨{ s with st := r.st, x := r.x, dxdt := r.dxdt, h := r.res.hNext, rejected := s.rejected + 1 },
      by rw [if_neg hmin], not_lt.mp hmin, ⟨m, p, js, v, j, ?_⟩, .inr ⟨rfl, hnext⟩⟩
    exact { hI with inv := hinv, x := hx, dxdt := hdx, hpos := hnx, norej := .inr hrj }

theorem adaptLoop_run {doStep : DoStep} {sys : System} {f : ℝ → (Fin n → ℝ) → Fin n → ℝ} {eps : ℝ}
    {ok : ℝ → (Fin n → ℝ) → ℝ → (Fin n → ℝ) → Prop} {rej : Prop} {quit : ℝ → (Fin n → ℝ) → ℝ → Prop} {lo : ℝ}
    {Inv : Stepper → ℝ → (Fin n → ℝ) → Prop} (hD : Drives doStep sys f eps ok rej quit lo Inv) {t0 : ℝ} {x0 : Fin n → ℝ} {tEnd dt minStep : ℝ} (hdt : 0 < dt)
    (hmin : 0 < minStep) {N : ℕ} (fuel : ℕ) :
    ∀ (s : Adapt) (m : ℕ) (p : ℕ → ℝ × (Fin n → ℝ)) (js : List ℕ) (v : ℕ → Fin n → ℝ) (j : ℕ),
      AInv f ok rej Inv t0 x0 tEnd dt N s m p js v j → minStep ≤ s.h → t0 ≤ s.t →
      (tEnd - s.t) / min minStep epsR * ((tEnd - t0) / minStep + 1) + min s.h (tEnd - t0) / minStep ≤ fuel →
    (adaptLoop doStep sys tEnd dt eps minStep N (fuel + 1) s = .exn (.mml "ODESolverError") ∧
      Stuck ok quit lo t0 x0 tEnd minStep) ∨
    ∃ s', adaptLoop doStep sys tEnd dt eps minStep N (fuel + 1) s = .ret s' ∧ tEnd - epsR ≤ s'.t ∧
      ∃ m' p' js' v' j', AInv f ok rej Inv t0 x0 tEnd dt N s' m' p' js' v' j' := by
  have heps := epsR_pos
  induction fuel with
  | zero =>
    intro s m p js v j hI hs ht0 hM
    right
    have hst : ¬ s.t < tEnd - epsR := by
      intro h
      have h1 : 0 < (tEnd - s.t) / min minStep epsR := div_pos (by linarith) (lt_min hmin heps)
      have h2 : 0 ≤ (tEnd - t0) / minStep := div_nonneg (by linarith) hmin.le
      have h3 : 0 ≤ min s.h (tEnd - t0) / minStep := div_nonneg (le_min hI.hpos.le (by linarith)) hmin.le
      have h4 : 0 < (tEnd - s.t) / min minStep epsR * ((tEnd - t0) / minStep + 1) := by positivity
      simp at hM
      linarith
    exact ⟨s, by rw [adaptLoop, if_neg hst], not_lt.mp hst, m, p, js, v, j, hI⟩
  | succ k ih =>
    intro s m p js v j hI hs ht0 hM
    rw [adaptLoop]
    by_cases hst : s.t < tEnd - epsR
    swap
    · exact .inr ⟨s, by rw [if_neg hst], not_lt.mp hst, m, p, js, v, j, hI⟩
    rw [if_pos hst]
    rcases adaptBody_run hD hdt (minStep := minStep) hI hst with ⟨he, hq⟩ | ⟨s', h1, h2, ⟨m', p', js', v', j', hI'⟩, h3⟩
    · left; exact ⟨by rw [he]; rfl, hq⟩
    rw [h1, Outcome.bind_ret]
    have hδ : 0 < min minStep epsR := lt_min hmin heps
    have hA : 0 ≤ (tEnd - t0) / minStep := div_nonneg (by linarith) hmin.le
    refine ih s' m' p' js' v' j' hI' h2 ?_ ?_
    · rcases h3 with h3 | h3
      · have : 0 < min (min s.h (tEnd - s.t)) epsR := lt_min (lt_min hI.hpos (by linarith)) heps
        linarith
      · rw [h3.1]; exact ht0
    · push_cast at hM
      rcases h3 with h3 | ⟨h3, h4⟩
      · have h5 : min minStep epsR ≤ min (min s.h (tEnd - s.t)) epsR :=
          le_min (le_min ((min_le_left _ _).trans hs) ((min_le_right _ _).trans (by linarith))) (min_le_right _ _)
        have h6 : (tEnd - s'.t) / min minStep epsR + 1 ≤ (tEnd - s.t) / min minStep epsR := by
          rw [div_add_one hδ.ne', div_le_div_iff_of_pos_right hδ]
          linarith
        have h7 : min s'.h (tEnd - t0) / minStep ≤ (tEnd - t0) / minStep :=
          div_le_div_of_nonneg_right (min_le_right _ _) hmin.le
        have h8 : 0 ≤ min s.h (tEnd - t0) / minStep := div_nonneg (le_min hI.hpos.le (by linarith)) hmin.le
        nlinarith
      · rw [h3]
        rw [h4] at h2
        have h5 : min s.h (tEnd - s.t) ≤ min s.h (tEnd - t0) := min_le_min_left _ (by linarith)
        have h6 : min s'.h (tEnd - t0) + minStep ≤ min s.h (tEnd - t0) := by
          have := min_le_left s'.h (tEnd - t0)
          rw [h4] at this ⊢
          linarith
        have h7 : min s'.h (tEnd - t0) / minStep + 1 ≤ min s.h (tEnd - t0) / minStep := by
          rw [div_add_one hmin.ne', div_le_div_iff_of_pos_right hmin]
          exact h6
        linarith

/-! ## The initial step -/

theorem estGuess_pos {d0 d1 : ℝ} : ∃ g, 0 < g ∧ estGuess d0 d1 = .ret g := by
  unfold estGuess
  split_ifs with h
  · exact ⟨_, by positivity, rfl⟩
  · push Not at h
    have h1 : 0 < d1 := lt_of_lt_of_le (by positivity) h.2
    have h0 : 0 < d0 := lt_of_lt_of_le (by positivity) h.1
    exact ⟨_, by positivity, fdiv_pos _ h1.ne'⟩

theorem estFinal_pos (h0 d : ℝ) : ∃ g, 0 < g ∧ estFinal h0 d = .ret g := by
  unfold estFinal
  split_ifs with h
  · exact ⟨_, lt_max_of_lt_left (by positivity), rfl⟩
  · push Not at h
    have h1 : 0 < d := lt_of_le_of_lt (by positivity) h
    rw [fdiv_pos _ h1.ne']
    exact ⟨_, Real.rpow_pos_of_pos (by positivity) _, rfl⟩

theorem est_pos {sys : System} {f : ℝ → (Fin n → ℝ) → Fin n → ℝ} (hs : Computes sys f) (x0 : Fin n → ℝ)
    {t0 tEnd : ℝ} (ht : t0 < tEnd) :
    ∃ h, 0 < h ∧ estimateInitialStep sys t0 (List.ofFn x0) tEnd = .ret h := by
  have hL : 0 < |tEnd - t0| := abs_pos.mpr (by linarith)
  unfold estimateInitialStep
  rw [hs.1, hs.2 _ _ _ (zeros_length n), Outcome.bind_ret]
  obtain ⟨d, hd, -⟩ := forRange_rule (fun _ (_ : ℝ × ℝ) => True) n (0, 0)
    (estBody (List.ofFn x0) (List.ofFn (f t0 x0))) trivial (fun i d hi _ => by
      unfold estBody
      rw [index_ofFn x0 hi, Outcome.bind_ret, index_ofFn _ hi, Outcome.bind_ret, fdiv_pos _ (by positivity),
        Outcome.bind_ret, fdiv_pos _ (by positivity), Outcome.bind_ret]
      exact ⟨_, rfl, trivial⟩)
  obtain ⟨g, hg, hg2⟩ := estGuess_pos (d0 := d.1) (d1 := d.2)
  have hm : 0 < min g |tEnd - t0| := lt_min hg hL
  rw [hd, Outcome.bind_ret, hg2, Outcome.bind_ret,
    fill_ofFn (g := fun i => x0 i + min g |tEnd - t0| * f t0 x0 i) (zeros_length n) (fun i => by
      rw [index_ofFn_fin, Outcome.bind_ret, index_ofFn_fin, Outcome.bind_ret]), Outcome.bind_ret,
    hs.2 _ _ _ (zeros_length n), Outcome.bind_ret]
  obtain ⟨d2, hd2, -⟩ := forRange_rule (fun _ (_ : ℝ) => True) n 0
    (estBody2 (List.ofFn x0) (List.ofFn (f t0 x0)) (List.ofFn (f (t0 + min g |tEnd - t0|)
      (fun i => x0 i + min g |tEnd - t0| * f t0 x0 i))) (min g |tEnd - t0|)) trivial (fun i d hi _ => by
      unfold estBody2
      rw [index_ofFn x0 hi, Outcome.bind_ret, index_ofFn _ hi, Outcome.bind_ret, index_ofFn _ hi,
        Outcome.bind_ret, fdiv_pos _ (by positivity), Outcome.bind_ret, fdiv_pos _ hm.ne', Outcome.bind_ret]
      exact ⟨_, rfl, trivial⟩)
  obtain ⟨h1, hh1, hh2⟩ := estFinal_pos (min g |tEnd - t0|) (max d.2 d2)
  rw [hd2, Outcome.bind_ret, hh2, Outcome.bind_ret]
  exact ⟨_, lt_min (lt_min (by positivity) hh1) hL, rfl⟩

theorem firstStep_pos {sys : System} {f : ℝ → (Fin n → ℝ) → Fin n → ℝ} (hs : Computes sys f) (x0 : Fin n → ℝ)
    {t0 tEnd : ℝ} (ht : t0 < tEnd) (h0 : ℝ) :
    ∃ h, 0 < h ∧ firstStep sys (List.ofFn x0) t0 tEnd h0 = .ret h := by
  unfold firstStep
  split_ifs with h
  · exact ⟨h0, h, rfl⟩
  · exact est_pos hs x0 ht

end Verif.ODE
