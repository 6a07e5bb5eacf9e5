import Verif.ODE.AdaptiveAt
import Verif.ODE.FixedProps

/-!
# The adaptive integrator (C94)

`integrate` and `integrateAt` of `ODESolverAdaptive.h` with the Dormand–Prince 5, Cash–Karp and Bulirsch–Stoer steppers.
-/

set_option autoImplicit false

namespace Verif.ODE

open Outcome Mat

variable {n : ℕ}

section

variable {sys : System} {f : ℝ → (Fin n → ℝ) → Fin n → ℝ} (hs : Computes sys f) {st : Stepper} (hst : st.n = n)
  (x0 : Fin n → ℝ) {t0 tEnd dt eps minStep : ℝ} (hdt : 0 < dt) (ht : t0 < tEnd) (heps : 0 < eps)
  (hmin : 0 < minStep) (hF : Fits n ⌈(tEnd - t0) / dt⌉₊) (h0 : ℝ)
include hs hst hdt ht heps hmin hF

/-- `integrate` with the Dormand–Prince 5 stepper, whatever the stepper was used for before, terminates.
Either it throws, having come to a point where a step not beyond the end is refused or is shorter than five
times the smallest step allowed; or it returns a solution whose entries are those of a trajectory of steps
that are all within the tolerance, from the initial point to the end, at the output times. -/
theorem dp5_integrate :
    (integrateAdaptive dp5DoStep sys st (List.ofFn x0) t0 tEnd dt eps h0 minStep = .exn (.mml "ODESolverError") ∧
      Stuck (Within dp5Step sys f eps) (fun t x h => GaveUp dp5Step (5 * epsR) sys f eps h t x) (1 / 5) t0 x0 tEnd
        minStep) ∨
    ∃ s l p, integrateAdaptive dp5DoStep sys st (List.ofFn x0) t0 tEnd dt eps h0 minStep = .ret s ∧
      Sees s.sol l ∧ Track (Within dp5Step sys f eps) t0 x0 tEnd s.accepted p ∧
      Delivers f t0 x0 tEnd dt s.accepted p l ∧ s.rejected = 0 := by
  rcases integrateAdaptive_run hs (dp5_drives hs heps) hst x0 hdt ht hmin hF h0 with h | ⟨s, l, p, h1, h2, h3⟩
  · exact .inl h
  · exact .inr ⟨s, l, p, h1, h2.sees, h2.track, h2.delivers, h3.resolve_right id⟩

/-- The same with the Cash–Karp stepper. -/
theorem ck_integrate :
    (integrateAdaptive ckDoStep sys st (List.ofFn x0) t0 tEnd dt eps h0 minStep = .exn (.mml "ODESolverError") ∧
      Stuck (Within ckStep sys f eps) (fun t x h => GaveUp ckStep (10 * epsR) sys f eps h t x) (9 / 10) t0 x0 tEnd
        minStep) ∨
    ∃ s l p, integrateAdaptive ckDoStep sys st (List.ofFn x0) t0 tEnd dt eps h0 minStep = .ret s ∧
      Sees s.sol l ∧ Track (Within ckStep sys f eps) t0 x0 tEnd s.accepted p ∧
      Delivers f t0 x0 tEnd dt s.accepted p l ∧ s.rejected = 0 := by
  rcases integrateAdaptive_run hs (ck_drives hs heps) hst x0 hdt ht hmin hF h0 with h | ⟨s, l, p, h1, h2, h3⟩
  · exact .inl h
  · exact .inr ⟨s, l, p, h1, h2.sees, h2.track, h2.delivers, h3.resolve_right id⟩

/-- With a Bulirsch–Stoer stepper the trajectory goes from the initial point to the end and the entries are
those at the output times; that its steps are within the tolerance is false (`bs_wrong_extrapolation`). -/
theorem bs_integrate_partial {seq : List ℕ} (hq : seq = evenSeq ∨ seq = bulirschSeq) :
    (integrateAdaptive (bsDoStep seq) sys st (List.ofFn x0) t0 tEnd dt eps h0 minStep
        = .exn (.mml "ODESolverError") ∧
      Stuck (fun _ _ _ _ => True) (fun _ _ _ => False) (1 / 10) t0 x0 tEnd minStep) ∨
    ∃ s l p, integrateAdaptive (bsDoStep seq) sys st (List.ofFn x0) t0 tEnd dt eps h0 minStep = .ret s ∧
      Sees s.sol l ∧ Track (fun _ _ _ _ => True) t0 x0 tEnd s.accepted p ∧
      Delivers f t0 x0 tEnd dt s.accepted p l := by
  have hq' : GoodSeq seq := by
    rcases hq with rfl | rfl
    · exact evenSeq_good
    · exact bulirschSeq_good
  rcases integrateAdaptive_run hs (bs_drives hs hq' heps) hst x0 hdt ht hmin hF h0 with h | ⟨s, l, p, h1, h2, h3⟩
  · exact .inl h
  · exact .inr ⟨s, l, p, h1, h2.sees, h2.track, h2.delivers⟩

end

section

variable {sys : System} {f : ℝ → (Fin n → ℝ) → Fin n → ℝ} (hs : Computes sys f) {st : Stepper} (hst : st.n = n)
  (x0 : Fin n → ℝ) {times : List ℝ} {eps minStep : ℝ} (hT : Ordered times) (heps : 0 < eps)
  (hmin : 0 < minStep) (hF : Fits n (times.length - 1)) (h0 : ℝ)
include hs hst hT heps hmin hF

/-- `integrateAt` with the Dormand–Prince 5 stepper and times in order terminates; it throws under the
conditions of `dp5_integrate`, or returns one entry for each time: the initial point for the first, and for
each other time a point of a trajectory, of steps within the tolerance, less than `Eps` away, or the value
of the cubic between its points. -/
theorem dp5_integrateAt :
    (integrateAt dp5DoStep sys st (List.ofFn x0) times eps h0 minStep = .exn (.mml "ODESolverError") ∧
      Stuck (Within dp5Step sys f eps) (fun t x h => GaveUp dp5Step (5 * epsR) sys f eps h t x) (1 / 5)
        (times.getD 0 0) x0 (times.getD (times.length - 1) 0) minStep) ∨
    ∃ s l p, integrateAt dp5DoStep sys st (List.ofFn x0) times eps h0 minStep = .ret s ∧ Sees s.sol l ∧
      Track (Within dp5Step sys f eps) (times.getD 0 0) x0 (times.getD (times.length - 1) 0) s.accepted p ∧
      l.length = times.length ∧ l[0]? = some (times.getD 0 0, x0) ∧
      ∀ k, 1 ≤ k → k < times.length → ∃ e, l[k]? = some e ∧ AtTime f s.accepted p (times.getD k 0) e :=
  integrateAt_run hs (dp5_drives hs heps) hst x0 hT hmin hF h0

/-- The same with the Cash–Karp stepper. -/
theorem ck_integrateAt :
    (integrateAt ckDoStep sys st (List.ofFn x0) times eps h0 minStep = .exn (.mml "ODESolverError") ∧
      Stuck (Within ckStep sys f eps) (fun t x h => GaveUp ckStep (10 * epsR) sys f eps h t x) (9 / 10)
        (times.getD 0 0) x0 (times.getD (times.length - 1) 0) minStep) ∨
    ∃ s l p, integrateAt ckDoStep sys st (List.ofFn x0) times eps h0 minStep = .ret s ∧ Sees s.sol l ∧
      Track (Within ckStep sys f eps) (times.getD 0 0) x0 (times.getD (times.length - 1) 0) s.accepted p ∧
      l.length = times.length ∧ l[0]? = some (times.getD 0 0, x0) ∧
      ∀ k, 1 ≤ k → k < times.length → ∃ e, l[k]? = some e ∧ AtTime f s.accepted p (times.getD k 0) e :=
  integrateAt_run hs (ck_drives hs heps) hst x0 hT hmin hF h0

/-- With a Bulirsch–Stoer stepper; that the steps are within the tolerance is false. -/
theorem bs_integrateAt_partial {seq : List ℕ} (hq : seq = evenSeq ∨ seq = bulirschSeq) :
    (integrateAt (bsDoStep seq) sys st (List.ofFn x0) times eps h0 minStep = .exn (.mml "ODESolverError") ∧
      Stuck (fun _ _ _ _ => True) (fun _ _ _ => False) (1 / 10)
        (times.getD 0 0) x0 (times.getD (times.length - 1) 0) minStep) ∨
    ∃ s l p, integrateAt (bsDoStep seq) sys st (List.ofFn x0) times eps h0 minStep = .ret s ∧ Sees s.sol l ∧
      Track (fun _ _ _ _ => True) (times.getD 0 0) x0 (times.getD (times.length - 1) 0) s.accepted p ∧
      l.length = times.length ∧ l[0]? = some (times.getD 0 0, x0) ∧
      ∀ k, 1 ≤ k → k < times.length → ∃ e, l[k]? = some e ∧ AtTime f s.accepted p (times.getD k 0) e := by
  have hq' : GoodSeq seq := by
    rcases hq with rfl | rfl
    · exact evenSeq_good
    · exact bulirschSeq_good
  exact integrateAt_run hs (bs_drives hs hq' heps) hst x0 hT hmin hF h0

end

/-- Fewer than two times are refused. -/
theorem integrateAt_few_times (doStep : DoStep) (sys : System) (st : Stepper) (x0 times : List ℝ)
    (eps h0 minStep : ℝ) (h : times.length < 2) :
    integrateAt doStep sys st x0 times eps h0 minStep = .exn (.mml "ODESolverError") := by
  rw [integrateAt, if_pos h]

theorem sorted_eq_range {M : ℕ} {js : List ℕ} (h1 : js.Pairwise (· < ·)) (h2 : ∀ i, i ∈ js ↔ 1 ≤ i ∧ i ≤ M) :
    js = List.range' 1 M := by
  have h3 : (List.range' 1 M).Pairwise (· < ·) := List.pairwise_lt_range'
  refine List.Perm.eq_of_pairwise (le := (· < ·)) (fun a b _ _ hab hba => absurd (hab.trans hba) (lt_irrefl _)) h1 h3 ?_
  rw [List.perm_ext_iff_of_nodup (h1.imp fun h => h.ne) (h3.imp fun h => h.ne)]
  intro a
  rw [h2, List.mem_range'_1]
  omega

/-- If no output time is just after a point of the trajectory, by at most `Eps`, the solution has an entry
for every output time `t0 + k dt` before the end and for the end, and no others. -/
theorem every_output_time {f : ℝ → (Fin n → ℝ) → Fin n → ℝ}
    {ok : ℝ → (Fin n → ℝ) → ℝ → (Fin n → ℝ) → Prop} {t0 : ℝ} {x0 : Fin n → ℝ} {tEnd dt : ℝ} {m : ℕ}
    {p : ℕ → ℝ × (Fin n → ℝ)} {l : List (ℝ × (Fin n → ℝ))} (hT : Track ok t0 x0 tEnd m p)
    (hD : Delivers f t0 x0 tEnd dt m p l) (hdt : 0 < dt) (ht : t0 + epsR < tEnd)
    (hJ : ∀ k : ℕ, 1 ≤ k → t0 + k * dt < tEnd → ¬ JustAfter m p (t0 + k * dt)) :
    l.map Prod.fst = (List.range ⌈(tEnd - t0) / dt⌉₊).map (fun (k : ℕ) => t0 + k * dt) ++ [tEnd] := by
  have heps := epsR_pos
  obtain ⟨js, v, tail, h1, h2, h3, h4, h5⟩ := hD
  have hq : 0 < (tEnd - t0) / dt := div_pos (by linarith) hdt
  have hcast := natCeil_cast hq.le
  obtain ⟨K, hK⟩ : ∃ K, ⌈(tEnd - t0) / dt⌉₊ = K + 1 := ⟨_, (Nat.succ_pred_eq_of_pos (Nat.ceil_pos.mpr hq)).symm⟩
  rw [← hcast, hK] at h5
  rw [hK]
  have hlt : ∀ i : ℕ, i ≤ K → t0 + i * dt < tEnd := by
    intro i hi
    have hiK : i < ⌈(tEnd - t0) / dt⌉₊ := by omega
    have := Nat.lt_ceil.mp hiK
    rw [lt_div_iff₀ hdt] at this
    linarith
  have hge : tEnd ≤ t0 + (K + 1 : ℕ) * dt := by
    have := Nat.le_ceil ((tEnd - t0) / dt)
    rw [div_le_iff₀ hdt, hK] at this
    linarith
  have hm : 1 ≤ m := by
    by_contra hc
    have h6 := hT.reaches
    rw [show m = 0 by omega, hT.start] at h6
    simp only at h6
    linarith
  have hin : ∀ i : ℕ, 1 ≤ i → i ≤ K → i ∈ js := by
    intro i hi1 hi2
    refine (h3 i).mpr ⟨hi1, ?_, hJ i hi1 (hlt i hi2)⟩
    by_contra hc
    exact hJ i hi1 (hlt i hi2) ⟨m, hm, le_rfl, not_le.mp hc, by have := hT.reaches; have := hlt i hi2; linarith⟩
  have hout : ∀ i ∈ js, i ≤ K + 1 := by
    intro i hi
    by_contra hc
    have h6 := ((h3 i).mp hi).2.1.trans hT.stays
    have h7 : ((K + 1 : ℕ) : ℝ) + 1 ≤ i := by exact_mod_cast not_le.mp hc
    nlinarith
  have hrange : (List.range (K + 1)).map (fun (k : ℕ) => t0 + (k : ℝ) * dt)
      = t0 :: (List.range' 1 K).map (fun (k : ℕ) => t0 + (k : ℝ) * dt) := by
    rw [List.range_eq_range', List.range'_succ]
    simp
  have hmap : ∀ js : List ℕ, (js.map (fun (j : ℕ) => (t0 + (j : ℝ) * dt, v j))).map Prod.fst
      = js.map (fun (j : ℕ) => t0 + (j : ℝ) * dt) := fun js => by simp
  rw [hrange, h1, List.map_append, List.map_cons, hmap]
  by_cases hlast : K + 1 ∈ js
  · have hjs : js = List.range' 1 (K + 1) := sorted_eq_range h2 fun i => ⟨fun hi => ⟨((h3 i).mp hi).1, hout i hi⟩,
      fun hi => by
        rcases Nat.lt_or_eq_of_le hi.2 with h6 | h6
        · exact hin i hi.1 (by omega)
        · rw [h6]; exact hlast⟩
    have hend : t0 + (K + 1 : ℕ) * dt = tEnd := le_antisymm (((h3 _).mp hlast).2.1.trans hT.stays) hge
    have htail : tail = [] := by
      rcases h5 with h5 | h5
      · rw [hjs] at h5
        simp at h5
      · exact h5.2.1
    rw [hjs, htail, List.range'_concat]
    simp at hend ⊢
    rw [add_comm (1 : ℝ)]
    exact hend
  · have hjs : js = List.range' 1 K := sorted_eq_range h2 fun i => ⟨fun hi => ⟨((h3 i).mp hi).1, by
        have := hout i hi
        rcases Nat.lt_or_eq_of_le this with h6 | h6
        · omega
        · rw [h6] at hi; exact absurd hi hlast⟩, fun hi => hin i hi.1 hi.2⟩
    have htail : tail = [(tEnd, (p m).2)] := by
      rcases h5 with h5 | h5
      · exact h5.2
      · rw [hjs] at h5
        simp at h5
    rw [hjs, htail]
    simp

/-- Integration backwards in time (`tEnd < t0`, negative output interval) takes no step: the initial state
is returned as the state at `tEnd`, whatever the system. -/
theorem backward_takes_no_step (doStep : DoStep) {sys : System} {f : ℝ → (Fin n → ℝ) → Fin n → ℝ}
    (hs : Computes sys f) (st : Stepper) (x0 : Fin n → ℝ) {t0 tEnd dt : ℝ} (eps : ℝ) {h0 : ℝ} (minStep : ℝ)
    (ht : tEnd < t0) (hdt : dt < 0) (hh : 0 < h0) (hF : Fits n ⌈(tEnd - t0) / dt⌉₊) :
    ∃ s, integrateAdaptive doStep sys st (List.ofFn x0) t0 tEnd dt eps h0 minStep = .ret s ∧
      Sees s.sol [(t0, x0), (tEnd, x0)] := by
  have hq : 0 < (tEnd - t0) / dt := div_pos_of_neg_of_neg (by linarith) hdt
  have hcast := natCeil_cast hq.le
  have heps := epsR_pos
  have hpos := Nat.ceil_pos.mpr hq
  obtain ⟨sol0, h1, h2⟩ := Holds.new (n := n) (c := ⌈(tEnd - t0) / dt⌉₊) t0 tEnd hF.1
    (.inr ⟨hF.1, by omega, hF.2.1, hF.2.2.1, hF.2.2.2⟩)
  obtain ⟨sol1, h3, h4⟩ := h2.fill (by simp) t0 x0
  obtain ⟨sol2, h5, h6⟩ := h4.fill (by simp; omega) tEnd x0
  simp only [List.length_nil, Nat.cast_zero] at h3
  unfold integrateAdaptive
  rw [fdiv_pos _ hdt.ne, Outcome.bind_ret, add_sub_cancel_right, ← hcast, hs.1, h1, Outcome.bind_ret,
    hs.2 _ _ _ (zeros_length n), Outcome.bind_ret, firstStep, if_pos hh, Outcome.bind_ret, h3, Outcome.bind_ret]
  unfold adaptFuel
  rw [adaptLoop, if_neg (by dsimp only; linarith), Outcome.bind_ret, adaptFinish, if_pos (by push_cast; omega)]
  dsimp only
  simp only [List.nil_append, List.length_singleton] at h5
  rw [h5, Outcome.bind_ret]
  exact ⟨_, rfl, h6.sees⟩

/-! ## A concrete case, and two defects -/

/-- The system at rest, in one dimension. -/
def stillSys : System := ⟨1, fun _ _ _ => ret [0]⟩

theorem still_computes : Computes stillSys (fun _ (_ : Fin 1 → ℝ) _ => 0) := ⟨rfl, fun _ _ _ _ => rfl⟩

theorem still_step (b : List ℚ) (t : ℝ) (x : Fin 1 → ℝ) (h : ℝ) :
    ckT.step b (fun _ (_ : Fin 1 → ℝ) _ => (0 : ℝ)) t x h = x := by
  unfold Tableau.step
  have : ∀ j, ckT.stg (fun _ (_ : Fin 1 → ℝ) _ => (0 : ℝ)) t x h j = 0 := fun j => by rw [Tableau.stg_eq]; rfl
  simp [this]

/-- A step of the Cash–Karp stepper for the system at rest. -/
theorem still_ck {s : Stepper} (hn : s.n = 1) (t : ℝ) (x : Fin 1 → ℝ) {h eps : ℝ} (heps : 0 < eps)
    (hh : h ≠ 0) : ∃ r, ckDoStep stillSys s t (List.ofFn x) (List.ofFn fun _ : Fin 1 => (0 : ℝ)) h eps = .ret r ∧
      r.st.n = 1 ∧ r.x = List.ofFn x ∧ r.dxdt = List.ofFn (fun _ : Fin 1 => (0 : ℝ)) ∧ r.res.accepted = true ∧
      r.res.hDone = h ∧ r.res.hNext = 5 * h ∧
      ∃ cv : ℝ → Fin 1 → ℝ, (∀ u, r.st.interpolate u = .ret (List.ofFn (cv u))) ∧ cv (t + h) = x := by
  obtain ⟨o, e, m, h1, h2, h3⟩ := ck_tries stillSys _ still_computes t x h
  have h4 := ckStep_eq still_computes t x h (xOut := zeros 1) (xErr := zeros 1) rfl rfl
  rw [still_step, still_step, sub_self, h1] at h4
  obtain ⟨h5, h6⟩ := Prod.mk.inj (Outcome.ret.inj h4)
  have ho : o = x := List.ofFn_injective h5
  have he : e = 0 := List.ofFn_injective h6
  have hm : m = 0 := by
    rcases h3.2.2 with h7 | ⟨i, h7⟩
    · exact h7
    · rw [h7, he]; simp
  have ha : ckAttempt stillSys s t (List.ofFn x) (List.ofFn fun _ : Fin 1 => (0 : ℝ)) eps true h
      = .ret (.inl ⟨{ s with first := List.ofFn fun _ : Fin 1 => (0 : ℝ), last := List.ofFn fun _ : Fin 1 => (0 : ℝ), xOld := List.ofFn x, xEnd := List.ofFn x, tOld := t, hDone := h, stepReady := true },
        List.ofFn x, List.ofFn fun _ : Fin 1 => (0 : ℝ), ⟨true, h, ckNext h 0, 0⟩⟩) := by
    rw [ckAttempt, hn, h2, Outcome.bind_ret, fdiv_pos _ heps.ne', Outcome.bind_ret, hm, zero_div, ho,
      if_pos zero_le_one, still_computes.2 _ _ _ (by simp), Outcome.bind_ret]
  have hA : Accepted (fun _ (_ : Fin 1 → ℝ) _ => (0 : ℝ)) ckStep stillSys t x h
      ⟨{ s with first := List.ofFn fun _ : Fin 1 => (0 : ℝ), last := List.ofFn fun _ : Fin 1 => (0 : ℝ), xOld := List.ofFn x, xEnd := List.ofFn x, tOld := t, hDone := h, stepReady := true },
        List.ofFn x, List.ofFn fun _ : Fin 1 => (0 : ℝ), ⟨true, h, ckNext h 0, 0⟩⟩ x (fun _ => 0) :=
    ⟨hn, rfl, rfl, rfl, rfl, ⟨e, by rw [← ho]; rw [← ho] at h1; exact h1⟩, rfl, rfl, rfl, rfl, rfl, rfl, rfl⟩
  obtain ⟨P, hP, hint⟩ := hA.dense hh
  refine ⟨_, ?_, hA.nn, rfl, rfl, rfl, rfl, ?_, fun u i => (P i).eval u, hint, ?_⟩
  · rw [ckDoStep]
    unfold attempts
    rw [retryLoop, ha, Outcome.bind_ret]
  · change ckNext h 0 = 5 * h
    rw [ckNext, if_neg (by norm_num)]
  · funext i
    exact (hP i).2.2.2.1

theorem outLoop_stop (st : Stepper) (dt tNew : ℝ) (N : ℤ) (k : ℕ) (sol : Sol) (idx : ℕ) (u : ℝ)
    (h : ¬ (u ≤ tNew + epsR)) : outLoop st dt tNew N (k + 1) (sol, idx, u) = .ret (sol, idx, u) := by
  rw [outLoop, if_neg (fun hc => h hc.1)]

/-- The system at rest, in two steps `a` and `T - a` from 0 to `T`. -/
theorem still_pass (s : Adapt) (x : Fin 1 → ℝ) (hn : s.st.n = 1) (hx : s.x = List.ofFn x)
    (hd : s.dxdt = List.ofFn fun _ : Fin 1 => (0 : ℝ)) {tEnd dt minStep : ℝ} {N : ℤ} {a : ℝ}
    (ha : (if s.t + s.h > tEnd then tEnd - s.t else s.h) = a) (ha0 : a ≠ 0) :
    ∃ (st : Stepper) (cv : ℝ → Fin 1 → ℝ), st.n = 1 ∧ (∀ u, st.interpolate u = .ret (List.ofFn (cv u))) ∧
      cv (s.t + a) = x ∧
      adaptBody ckDoStep stillSys tEnd dt 1 minStep N s = (do
        let o ← outLoop st dt (s.t + a) N (⌈|s.t + a + epsR - s.tNext| / |dt|⌉₊ + 2) (s.sol, s.idx, s.tNext)
        if 5 * a < minStep then exn (.mml "ODESolverError")
        else ret ⟨st, List.ofFn x, List.ofFn fun _ : Fin 1 => (0 : ℝ), s.t + a, 5 * a, o.1, o.2.1, o.2.2,
          s.accepted + 1, s.rejected⟩) := by
  obtain ⟨r, h1, h2, h3, h4, h5, h6, h7, cv, h8, h9⟩ := still_ck hn s.t x one_pos ha0
  refine ⟨r.st, cv, h2, h8, h9, ?_⟩
  unfold adaptBody adaptAfter
  rw [ha, hx, hd, h1, Outcome.bind_ret, if_pos h5, h3, h4, h6, h7]
  cases outLoop r.st dt (s.t + a) N (⌈|s.t + a + epsR - s.tNext| / |dt|⌉₊ + 2) (s.sol, s.idx, s.tNext) with
  | ret o => rfl
  | exn e => rfl
  | ub => rfl

/-- The start of an integration of the system at rest. -/
theorem still_start (x : Fin 1 → ℝ) {tEnd h0 minStep : ℝ} {K : ℕ} (ht : tEnd = (K : ℝ)) (hK : K < 10) (hh : 0 < h0) :
    ∃ sol, Holds (n := 1) (K + 1) 0 tEnd sol [(0, x)] ∧
      integrateAdaptive ckDoStep stillSys (Stepper.new stillSys) (List.ofFn x) 0 tEnd 1 1 h0 minStep = (do
        let s ← adaptLoop ckDoStep stillSys tEnd 1 1 minStep (K + 1 : ℕ) (adaptFuel tEnd minStep)
          ⟨(Stepper.new stillSys).resetFSAL, List.ofFn x, List.ofFn fun _ : Fin 1 => (0 : ℝ), 0, min h0 tEnd, sol, 1,
            1, 0, 0⟩
        adaptFinish tEnd (K + 1 : ℕ) s) := by
  obtain ⟨sol0, h1, h2⟩ := Holds.new (n := 1) (c := K) 0 tEnd one_pos
    (.inr ⟨one_pos, by omega, by omega, by omega, by omega⟩)
  obtain ⟨sol1, h3, h4⟩ := h2.fill (by simp) 0 x
  refine ⟨sol1, h4, ?_⟩
  simp only [List.length_nil, Nat.cast_zero] at h3
  unfold integrateAdaptive
  rw [fdiv_pos _ one_ne_zero, Outcome.bind_ret, add_sub_cancel_right, sub_zero, div_one]
  have hc : ⌈tEnd⌉ = (K : ℤ) := by rw [ht]; exact Int.ceil_natCast K
  rw [hc, still_computes.1, h1, Outcome.bind_ret, still_computes.2 _ _ _ (zeros_length 1), Outcome.bind_ret, firstStep,
    if_pos hh, Outcome.bind_ret, h3, Outcome.bind_ret, zero_add]
  rfl

/-- The output time 1 is skipped, and the end is stored twice, when the first step ends just before the
output time: the solution for the output times 0, 1, 2 has the times 0, 2, 2. -/
theorem output_time_skipped (x : Fin 1 → ℝ) :
    ∃ s, integrateAdaptive ckDoStep stillSys (Stepper.new stillSys) (List.ofFn x) 0 2 1 1 (1 - 1 / 2 ^ 53) (1 / 10)
        = .ret s ∧ Sees s.sol [(0, x), (2, x), (2, x)] := by
  have he : epsR = 1 / 2 ^ 52 := rfl
  obtain ⟨sol, hsol, h1⟩ := still_start x (tEnd := 2) (h0 := 1 - 1 / 2 ^ 53) (minStep := 1 / 10) (K := 2) rfl
    (by norm_num) (by norm_num)
  rw [h1]
  rw [min_eq_left (by norm_num)]
  unfold adaptFuel
  rw [adaptLoop, if_pos (by rw [he]; norm_num)]
  obtain ⟨st1, cv1, a1, a2, a3, a4⟩ := still_pass
    ⟨(Stepper.new stillSys).resetFSAL, List.ofFn x, List.ofFn fun _ : Fin 1 => (0 : ℝ), 0, 1 - 1 / 2 ^ 53, sol, 1, 1, 0, 0⟩ x
    (tEnd := 2) (dt := 1) (minStep := 1 / 10) (N := (2 + 1 : ℕ)) (a := 1 - 1 / 2 ^ 53) rfl rfl rfl
    (by dsimp only; rw [if_neg (by norm_num)]) (by norm_num)
  rw [a4, outLoop]
  dsimp only
  rw [if_pos ⟨by rw [he]; norm_num, by norm_num⟩, if_neg (by norm_num), outLoop_stop _ _ _ _ _ _ _ _ (by rw [he]; norm_num),
    Outcome.bind_ret, if_neg (by norm_num), Outcome.bind_ret, adaptLoop, if_pos (by dsimp only; rw [he]; norm_num)]
  obtain ⟨st2, cv2, b1, b2, b3, b4⟩ := still_pass
    ⟨st1, List.ofFn x, List.ofFn fun _ : Fin 1 => (0 : ℝ), 0 + (1 - 1 / 2 ^ 53), 5 * (1 - 1 / 2 ^ 53), sol, 1, 1 + 1, 0 + 1, 0⟩ x
    (tEnd := 2) (dt := 1) (minStep := 1 / 10) (N := (2 + 1 : ℕ)) (a := 2 - (0 + (1 - 1 / 2 ^ 53))) a1 rfl rfl
    (by dsimp only; rw [if_pos (by norm_num)]) (by norm_num)
  rw [b4, outLoop]
  dsimp only
  obtain ⟨sol2, c1, c2⟩ := hsol.fill (by simp) (1 + 1) (cv2 (1 + 1))
  obtain ⟨sol3, c3, c4⟩ := c2.fill (by simp) 2 x
  simp only [List.length_singleton, List.length_append] at c1 c3
  rw [if_pos ⟨by rw [he]; norm_num, by norm_num⟩, if_pos (by norm_num), b2, Outcome.bind_ret, c1, Outcome.bind_ret,
    outLoop_stop _ _ _ _ _ _ _ _ (by rw [he]; norm_num),
    Outcome.bind_ret, if_neg (by norm_num), Outcome.bind_ret, adaptLoop, if_neg (by dsimp only; rw [he]; norm_num),
    Outcome.bind_ret, adaptFinish, if_pos (by norm_num)]
  dsimp only
  rw [c3, Outcome.bind_ret]
  refine ⟨_, rfl, ?_⟩
  have h2 := c4.sees
  have h3 : cv2 (1 + 1) = x := by
    rw [← b3]; congr 1; norm_num
  rw [h3] at h2
  convert h2 using 2
  norm_num

/-- The integration of the system at rest from 0 to 1 reaches the end and throws nevertheless, because the
step proposed after the last one, which was shortened to end at 1, is below the smallest step allowed. -/
theorem throws_after_last_step (x : Fin 1 → ℝ) :
    integrateAdaptive ckDoStep stillSys (Stepper.new stillSys) (List.ofFn x) 0 1 1 1 (99 / 100) (1 / 2)
      = .exn (.mml "ODESolverError") := by
  have he : epsR = 1 / 2 ^ 52 := rfl
  obtain ⟨sol, hsol, h1⟩ := still_start x (tEnd := 1) (h0 := 99 / 100) (minStep := 1 / 2) (K := 1) (by norm_num)
    (by norm_num) (by norm_num)
  rw [h1]
  rw [min_eq_left (by norm_num)]
  unfold adaptFuel
  rw [adaptLoop, if_pos (by rw [he]; norm_num)]
  obtain ⟨st1, cv1, a1, a2, a3, a4⟩ := still_pass
    ⟨(Stepper.new stillSys).resetFSAL, List.ofFn x, List.ofFn fun _ : Fin 1 => (0 : ℝ), 0, 99 / 100, sol, 1, 1, 0, 0⟩ x
    (tEnd := 1) (dt := 1) (minStep := 1 / 2) (N := (1 + 1 : ℕ)) (a := 99 / 100) rfl rfl rfl
    (by dsimp only; rw [if_neg (by norm_num)]) (by norm_num)
  rw [a4]
  dsimp only
  rw [outLoop_stop _ _ _ _ _ _ _ _ (by rw [he]; norm_num),
    Outcome.bind_ret, if_neg (by norm_num), Outcome.bind_ret, adaptLoop, if_pos (by dsimp only; rw [he]; norm_num)]
  obtain ⟨st2, cv2, b1, b2, b3, b4⟩ := still_pass
    ⟨st1, List.ofFn x, List.ofFn fun _ : Fin 1 => (0 : ℝ), 0 + 99 / 100, 5 * (99 / 100), sol, 1, 1, 0 + 1, 0⟩ x
    (tEnd := 1) (dt := 1) (minStep := 1 / 2) (N := (1 + 1 : ℕ)) (a := 1 - (0 + 99 / 100)) a1 rfl rfl
    (by dsimp only; rw [if_pos (by norm_num)]) (by norm_num)
  rw [b4, outLoop]
  dsimp only
  obtain ⟨sol2, c1, c2⟩ := hsol.fill (by simp) 1 (cv2 1)
  simp only [List.length_singleton] at c1
  rw [if_pos ⟨by rw [he]; norm_num, by norm_num⟩, if_pos (by norm_num), b2, Outcome.bind_ret, c1, Outcome.bind_ret,
    outLoop_stop _ _ _ _ _ _ _ _ (by rw [he]; norm_num), Outcome.bind_ret, if_pos (by norm_num)]
  rfl

/-- With the initial step 1 the same integration delivers all three output times. -/
theorem still_integrated (x : Fin 1 → ℝ) :
    ∃ s, integrateAdaptive ckDoStep stillSys (Stepper.new stillSys) (List.ofFn x) 0 2 1 1 1 (1 / 10)
        = .ret s ∧ Sees s.sol [(0, x), (1, x), (2, x)] ∧ s.accepted = 2 := by
  have he : epsR = 1 / 2 ^ 52 := rfl
  obtain ⟨sol, hsol, h1⟩ := still_start x (tEnd := 2) (h0 := 1) (minStep := 1 / 10) (K := 2) rfl
    (by norm_num) (by norm_num)
  rw [h1]
  rw [min_eq_left (by norm_num)]
  unfold adaptFuel
  rw [adaptLoop, if_pos (by rw [he]; norm_num)]
  obtain ⟨st1, cv1, a1, a2, a3, a4⟩ := still_pass
    ⟨(Stepper.new stillSys).resetFSAL, List.ofFn x, List.ofFn fun _ : Fin 1 => (0 : ℝ), 0, 1, sol, 1, 1, 0, 0⟩ x
    (tEnd := 2) (dt := 1) (minStep := 1 / 10) (N := (2 + 1 : ℕ)) (a := 1) rfl rfl rfl
    (by dsimp only; rw [if_neg (by norm_num)]) (by norm_num)
  obtain ⟨sol1, c1, c2⟩ := hsol.fill (by simp) 1 (cv1 1)
  simp only [List.length_singleton] at c1
  rw [a4, outLoop]
  dsimp only
  rw [if_pos ⟨by rw [he]; norm_num, by norm_num⟩, if_pos (by norm_num), a2, Outcome.bind_ret, c1, Outcome.bind_ret,
    outLoop_stop _ _ _ _ _ _ _ _ (by rw [he]; norm_num),
    Outcome.bind_ret, if_neg (by norm_num), Outcome.bind_ret, adaptLoop, if_pos (by dsimp only; rw [he]; norm_num)]
  obtain ⟨st2, cv2, b1, b2, b3, b4⟩ := still_pass
    ⟨st1, List.ofFn x, List.ofFn fun _ : Fin 1 => (0 : ℝ), 0 + 1, 5 * 1, sol1, 1 + 1, 1 + 1, 0 + 1, 0⟩ x
    (tEnd := 2) (dt := 1) (minStep := 1 / 10) (N := (2 + 1 : ℕ)) (a := 2 - (0 + 1)) a1 rfl rfl
    (by dsimp only; rw [if_pos (by norm_num)]) (by norm_num)
  rw [b4, outLoop]
  dsimp only
  obtain ⟨sol2, d1, d2⟩ := c2.fill (by simp) (1 + 1) (cv2 (1 + 1))
  simp only [List.length_singleton, List.length_append] at d1
  rw [if_pos ⟨by rw [he]; norm_num, by norm_num⟩, if_pos (by norm_num), b2, Outcome.bind_ret, d1, Outcome.bind_ret,
    outLoop_stop _ _ _ _ _ _ _ _ (by rw [he]; norm_num),
    Outcome.bind_ret, if_neg (by norm_num), Outcome.bind_ret, adaptLoop, if_neg (by dsimp only; rw [he]; norm_num),
    Outcome.bind_ret, adaptFinish, if_neg (by norm_num)]
  refine ⟨_, rfl, ?_, rfl⟩
  have h2 := d2.sees
  have h3 : cv2 (1 + 1) = x := by
    rw [← b3]; congr 1; norm_num
  have h4 : cv1 1 = x := by
    rw [← a3]; congr 1; norm_num
  rw [h3, h4] at h2
  convert h2 using 2
  norm_num

/-! ## The hypotheses can be met -/

theorem osc_fits_adaptive : Fits 2 ⌈((10 : ℝ) - 0) / (1 / 10)⌉₊ := by
  have : ⌈((10 : ℝ) - 0) / (1 / 10)⌉₊ = 100 := by
    rw [show ((10 : ℝ) - 0) / (1 / 10) = ((100 : ℕ) : ℝ) by norm_num, Nat.ceil_natCast]
  rw [this]
  exact ⟨by norm_num, by norm_num, by norm_num, by norm_num⟩

/-- The oscillator from 0 to 10 with output every tenth, after any use of the stepper. -/
example (st : Stepper) (h : st.n = 2) :
    integrateAdaptive dp5DoStep oscSys st (List.ofFn ![1, 0]) 0 10 (1 / 10) (1 / 10 ^ 8) (1 / 100) (1 / 10 ^ 10)
      ≠ .ub := by
  rcases dp5_integrate osc_computes h ![1, 0] (t0 := 0) (tEnd := 10) (dt := 1 / 10) (eps := 1 / 10 ^ 8)
    (minStep := 1 / 10 ^ 10) (by norm_num) (by norm_num) (by norm_num) (by norm_num) osc_fits_adaptive (1 / 100) with
    ⟨h1, -⟩ | ⟨s, l, p, h1, -⟩ <;> rw [h1] <;> simp

theorem times_ordered : Ordered [(0 : ℝ), 1, 1, 3] where
  two := by simp
  mono := by
    intro i j hij hj
    simp at hj
    interval_cases j <;> interval_cases i <;> simp
  first := by simp
  span := by simp [epsR]; norm_num

example (st : Stepper) (h : st.n = 2) :
    integrateAt ckDoStep oscSys st (List.ofFn ![1, 0]) [0, 1, 1, 3] (1 / 10 ^ 8) (1 / 100) (1 / 10 ^ 10) ≠ .ub := by
  rcases ck_integrateAt osc_computes h ![1, 0] times_ordered (eps := 1 / 10 ^ 8) (minStep := 1 / 10 ^ 10)
    (by norm_num) (by norm_num) ⟨by norm_num, by norm_num, by simp, by simp⟩ (1 / 100) with
    ⟨h1, -⟩ | ⟨s, l, p, h1, -⟩ <;> rw [h1] <;> simp

/-- A trajectory of two steps and its three entries. -/
example : ([(0, 0), (1, 0), (2, 0)] : List (ℝ × (Fin 1 → ℝ))).map Prod.fst
    = (List.range ⌈((2 : ℝ) - 0) / 1⌉₊).map (fun (k : ℕ) => 0 + (k : ℝ) * 1) ++ [2] := by
  have hP : ∀ a b : ℝ, Hermite (n := 1) (fun _ => 0) a b 0 0 0 0 := fun a b i => by simp
  have hJ : ∀ k : ℕ, ¬ JustAfter 2 (fun k => ((k : ℝ), (0 : Fin 1 → ℝ))) (0 + (k : ℝ) * 1) := by
    rintro k ⟨i, _, _, h3, h4⟩
    simp only [zero_add, mul_one] at h3 h4
    have h5 : i + 1 ≤ k := by exact_mod_cast h3
    have h6 : ((i : ℝ) + 1) ≤ k := by exact_mod_cast h5
    rw [epsR] at h4
    norm_num at h4
    linarith
  refine every_output_time (ok := fun _ _ _ _ => True) (f := fun _ _ => 0) (t0 := 0) (x0 := 0) (m := 2)
    (p := fun k => (k, 0)) ⟨by simp, fun k _ => ⟨by simp, trivial⟩, ?_, by simp⟩
    ⟨[1, 2], fun _ => 0, [], by simp, by simp, fun j => ?_, fun j hj => ?_, .inr ⟨by norm_num, rfl, by simp, 2, by simp, by norm_num, rfl⟩⟩
    one_pos ?_ (fun k _ _ => hJ k)
  · simp [epsR]
  · refine ⟨fun h => ⟨?_, ?_, hJ j⟩, fun h => ?_⟩
    · simp at h; omega
    · simp at h ⊢
      rcases h with rfl | rfl <;> norm_num
    · have h2 : (j : ℝ) ≤ 2 := by simpa using h.2.1
      have h3 : j ≤ 2 := by exact_mod_cast h2
      have := h.1
      simp; omega
  · simp at hj
    rcases hj with rfl | rfl
    · exact ⟨0, by norm_num, by simp, by simp, fun _ => 0, hP _ _, by funext i; simp⟩
    · exact ⟨1, by norm_num, by simp, by norm_num, fun _ => 0, hP _ _, by funext i; simp⟩
  · simp [epsR]; norm_num

example : ∃ s, integrateAdaptive dp5DoStep oscSys (Stepper.new oscSys) (List.ofFn ![1, 0]) 10 0 (-(1 / 10)) 1 1 1 = .ret s ∧
    Sees s.sol [((10 : ℝ), ![1, 0]), (0, ![1, 0])] :=
  backward_takes_no_step _ osc_computes _ _ _ _ (by norm_num) (by norm_num) (by norm_num) (by
    have : ⌈((0 : ℝ) - 10) / (-(1 / 10))⌉₊ = 100 := by
      rw [show ((0 : ℝ) - 10) / (-(1 / 10)) = ((100 : ℕ) : ℝ) by norm_num, Nat.ceil_natCast]
    rw [this]
    exact ⟨by norm_num, by norm_num, by norm_num, by norm_num⟩)

end Verif.ODE
