import Verif.ODE.AdaptiveMore

/-! # Helper lemmas: `integrateAt` -/

set_option autoImplicit false

namespace Verif.ODE

open Outcome Mat

variable {n : ℕ}

theorem index_getD (l : List ℝ) {k : ℕ} (h : k < l.length) : index l k = .ret (l.getD k 0) := by
  simp [index, h, List.getD]

/-- The entry for time number `k` after a step that ends at `tNew`. -/
noncomputable def atEntry (tNew : ℝ) (x : Fin n → ℝ) (cv : ℝ → Fin n → ℝ) (u : ℝ) : ℝ × (Fin n → ℝ) :=
  if |u - tNew| < epsR then (tNew, x) else (u, cv u)

theorem outAtLoop_run {st : Stepper} {cv : ℝ → Fin n → ℝ} (hst : ∀ u, st.interpolate u = .ret (List.ofFn (cv u)))
    {times : List ℝ} {tNew t1 t2 : ℝ} (x : Fin n → ℝ) (fuel : ℕ) :
    ∀ (sol : Sol) (l : List (ℝ × (Fin n → ℝ))), Holds times.length t1 t2 sol l →
      times.length < l.length + fuel →
      ∃ (sol' : Sol) (l' : List (ℝ × (Fin n → ℝ))),
        outAtLoop st times tNew (List.ofFn x) fuel (sol, l.length) = .ret (sol', l'.length) ∧
        Holds times.length t1 t2 sol' l' ∧ l.length ≤ l'.length ∧
        (∀ k, k < l.length → l'[k]? = l[k]?) ∧
        (∀ k, l.length ≤ k → k < l'.length → times.getD k 0 ≤ tNew + epsR ∧
          l'[k]? = some (atEntry tNew x cv (times.getD k 0))) ∧
        (l'.length < times.length → tNew + epsR < times.getD l'.length 0) := by
  induction fuel with
  | zero => intro sol l hl h; have := hl.1; omega
  | succ fuel ih =>
    intro sol l hl h
    rw [outAtLoop]
    dsimp only
    by_cases h1 : l.length < times.length
    swap
    · rw [if_neg h1]
      exact ⟨sol, l, rfl, hl, le_rfl, fun _ _ => rfl, fun k h2 h3 => by omega, fun h2 => by omega⟩
    rw [if_pos h1, index_getD _ h1, Outcome.bind_ret]
    by_cases h2 : times.getD l.length 0 ≤ tNew + epsR
    swap
    · rw [if_neg h2]
      exact ⟨sol, l, rfl, hl, le_rfl, fun _ _ => rfl, fun k h2 h3 => by omega, fun _ => not_le.mp h2⟩
    rw [if_pos h2]
    have key : ∀ (e : ℝ × (Fin n → ℝ)), e = atEntry tNew x cv (times.getD l.length 0) →
        ∃ (sol' : Sol) (l' : List (ℝ × (Fin n → ℝ))),
        (do
          let sol ← sol.fillValues l.length e.1 (List.ofFn e.2)
          outAtLoop st times tNew (List.ofFn x) fuel (sol, l.length + 1)) = .ret (sol', l'.length) ∧
        Holds times.length t1 t2 sol' l' ∧ l.length ≤ l'.length ∧
        (∀ k, k < l.length → l'[k]? = l[k]?) ∧
        (∀ k, l.length ≤ k → k < l'.length → times.getD k 0 ≤ tNew + epsR ∧
          l'[k]? = some (atEntry tNew x cv (times.getD k 0))) ∧
        (l'.length < times.length → tNew + epsR < times.getD l'.length 0) := by
      intro e he
      obtain ⟨sol1, q1, q2⟩ := hl.fill h1 e.1 e.2
      obtain ⟨sol', l', w1, w2, w3, w4, w5, w6⟩ := ih sol1 _ q2 (by simp; omega)
      simp only [List.length_append, List.length_singleton] at w1 w3 w4 w5
      refine ⟨sol', l', by rw [q1, Outcome.bind_ret, w1], w2, by omega, fun k hk => ?_, fun k hk1 hk2 => ?_, w6⟩
      · rw [w4 k (by omega), List.getElem?_append_left hk]
      · rcases Nat.lt_or_eq_of_le hk1 with h3 | h3
        · exact w5 k (by omega) hk2
        · rw [← h3, w4 l.length (by omega)]
          refine ⟨h2, ?_⟩
          rw [← he]
          simp
    by_cases h3 : |times.getD l.length 0 - tNew| < epsR
    · rw [if_pos h3]
      exact key (tNew, x) (by rw [atEntry, if_pos h3])
    · rw [if_neg h3, hst, Outcome.bind_ret]
      exact key (times.getD l.length 0, cv (times.getD l.length 0)) (by rw [atEntry, if_neg h3])

/-- The invariant of the loop of `integrateAt`. -/
structure BInv (f : ℝ → (Fin n → ℝ) → Fin n → ℝ) (ok : ℝ → (Fin n → ℝ) → ℝ → (Fin n → ℝ) → Prop)
    (Inv : Stepper → ℝ → (Fin n → ℝ) → Prop) (t0 : ℝ) (x0 : Fin n → ℝ) (tEnd : ℝ) (times : List ℝ)
    (s : Adapt) (m : ℕ) (p : ℕ → ℝ × (Fin n → ℝ)) (l : List (ℝ × (Fin n → ℝ))) : Prop where
  p0 : p 0 = (t0, x0)
  pm : (p m).1 = s.t
  step : ∀ k < m, (p k).1 < (p (k + 1)).1 ∧ ok (p k).1 (p k).2 (p (k + 1)).1 (p (k + 1)).2
  inv : Inv s.st s.t (p m).2
  x : s.x = List.ofFn (p m).2
  dxdt : s.dxdt = List.ofFn (f s.t (p m).2)
  hpos : 0 < s.h
  tle : s.t ≤ tEnd
  acc : s.accepted = m
  holds : Holds times.length t0 tEnd s.sol l
  idx : s.idx = l.length
  pos : 1 ≤ l.length
  first : l[0]? = some (t0, x0)
  entries : ∀ k, 1 ≤ k → k < l.length → ∃ e, l[k]? = some e ∧ AtTime f m p (times.getD k 0) e
  start : m = 0 → l.length = 1
  ahead : 1 ≤ m → l.length < times.length → s.t + epsR < times.getD l.length 0

theorem atBody_run {doStep : DoStep} {sys : System} {f : ℝ → (Fin n → ℝ) → Fin n → ℝ} {eps : ℝ}
    {ok : ℝ → (Fin n → ℝ) → ℝ → (Fin n → ℝ) → Prop} {rej : Prop} {quit : ℝ → (Fin n → ℝ) → ℝ → Prop} {lo : ℝ}
    {Inv : Stepper → ℝ → (Fin n → ℝ) → Prop} (hD : Drives doStep sys f eps ok rej quit lo Inv)
    {times : List ℝ} (hT : Ordered times) {x0 : Fin n → ℝ} {minStep : ℝ} {s : Adapt} {m : ℕ}
    {p : ℕ → ℝ × (Fin n → ℝ)} {l : List (ℝ × (Fin n → ℝ))}
    (hI : BInv f ok Inv (times.getD 0 0) x0 (times.getD (times.length - 1) 0) times s m p l)
    (hlt : s.idx < times.length) :
    (atBody doStep sys times (times.getD (times.length - 1) 0) eps minStep s = .exn (.mml "ODESolverError") ∧
      Stuck ok quit lo (times.getD 0 0) x0 (times.getD (times.length - 1) 0) minStep) ∨
    ∃ s' m' p' l', atBody doStep sys times (times.getD (times.length - 1) 0) eps minStep s = .ret s' ∧
      BInv f ok Inv (times.getD 0 0) x0 (times.getD (times.length - 1) 0) times s' m' p' l' ∧
      (minStep ≤ s'.h ∨ s'.idx = times.length) ∧
      ((m' = m + 1 ∧ s.t < s'.t ∧ (1 ≤ m → s.t + min s.h epsR ≤ s'.t)) ∨
        (m' = m ∧ s'.t = s.t ∧ s'.h ≤ s.h / 2 ∧ s'.h ≤ (times.getD (times.length - 1) 0 - s.t) / 2)) := by
  have heps := epsR_pos
  set tEnd := times.getD (times.length - 1) 0 with htEnd
  have hidx : l.length < times.length := by rw [← hI.idx]; exact hlt
  have htt : times.getD l.length 0 ≤ tEnd := hT.mono _ _ (by omega) (by omega)
  have hst : s.t < times.getD l.length 0 := by
    rcases Nat.eq_zero_or_pos m with h0 | h0
    · have h1 := hI.pm
      rw [h0, hI.p0] at h1
      rw [hI.start h0, ← h1]
      exact hT.first
    · have := hI.ahead h0 hidx
      linarith
  have hend : s.t < tEnd - epsR := by
    rcases Nat.eq_zero_or_pos m with h0 | h0
    · have h1 := hI.pm
      rw [h0, hI.p0] at h1
      simp only at h1
      have := hT.span
      linarith
    · have := hI.ahead h0 hidx
      linarith
  have hh : (if s.t + s.h > times.getD l.length 0 then times.getD l.length 0 - s.t else s.h)
      = min s.h (times.getD l.length 0 - s.t) := by
    split_ifs with h
    · exact (min_eq_right (by linarith)).symm
    · exact (min_eq_left (by linarith)).symm
  have hpos : 0 < min s.h (times.getD l.length 0 - s.t) := lt_min hI.hpos (by linarith)
  have hstuck : ∀ {d x : ℝ}, d ≤ min s.h (times.getD l.length 0 - s.t) → 0 < d → lo * d ≤ x → x < minStep →
      Stuck ok quit lo (times.getD 0 0) x0 tEnd minStep := fun {d x} h1 h2 h3 h4 =>
    ⟨m, p, hI.p0, hI.step, by rw [hI.pm]; exact hend, d, h2,
      by rw [hI.pm]; linarith [min_le_right s.h (times.getD l.length 0 - s.t)], .inr (h3.trans_lt h4)⟩
  unfold atBody
  rw [hI.idx, index_getD _ hidx, Outcome.bind_ret, hh, hI.x, hI.dxdt]
  rcases hD.run s.st s.t (p m).2 _ hI.inv hpos with ⟨he, hq⟩ | ⟨r, hr, hnx, hd1, hd0, hlo, hacc | hrej⟩
  · left
    exact ⟨by rw [he]; rfl, m, p, hI.p0, hI.step, by rw [hI.pm]; exact hend, _, hpos,
      by rw [hI.pm]; linarith [min_le_right s.h (times.getD l.length 0 - s.t)], .inl (by rw [hI.pm]; exact hq)⟩
  · obtain ⟨ha, hd2, x', hx, hdx, hok, hinv, P, hP, hint⟩ := hacc
    have htn : s.t + r.res.hDone ≤ times.getD l.length 0 := by
      have := hd1.trans (min_le_right _ _); linarith
    set tNew := s.t + r.res.hDone with htNew
    obtain ⟨sol', l', w1, w2, w3, w4, w5, w6⟩ := outAtLoop_run hint (times := times) (tNew := tNew) x'
      (times.length + 1) s.sol l hI.holds (by omega)
    rw [hr, Outcome.bind_ret]
    unfold atAfter
    rw [if_pos ha, ← htNew, hI.idx, hx, w1, Outcome.bind_ret]
    dsimp only
    rw [Outcome.bind_ret]
    by_cases hmin : r.res.hNext < minStep ∧ tNew < tEnd - epsR
    · exact .inl ⟨by rw [if_pos hmin], hstuck hd1 hd0 hlo hmin.1⟩
    right
    have hpm1 : (if m + 1 ≤ m then p (m + 1) else (tNew, x')) = (tNew, x') := if_neg (by omega)
    refine ⟨_, m + 1, fun k => if k ≤ m then p k else (tNew, x'), l', by rw [if_neg hmin], ?_, ?_, .inl ⟨rfl, ?_, ?_⟩⟩
    · refine { p0 := ?_, pm := ?_, step := ?_, inv := ?_, x := ?_, dxdt := ?_, hpos := hnx, tle := ?_, acc := ?_, holds := w2, idx := rfl, pos := ?_, first := ?_, entries := ?_, start := ?_, ahead := ?_ }
      · simp [hI.p0]
      · simp only [hpm1]
      · intro k hk
        rcases Nat.lt_or_eq_of_le (Nat.lt_succ_iff.mp hk) with hk' | rfl
        · simp only [if_pos hk'.le, if_pos (show k + 1 ≤ m by omega)]
          exact hI.step k hk'
        · simp only [le_refl, if_true, hpm1]
          rw [hI.pm]
          exact ⟨by rw [htNew]; linarith, hok⟩
      · simpa only [hpm1] using hinv
      · simp only [hpm1]
      · simpa only [hpm1] using hdx
      · exact htn.trans htt
      · simp only [hI.acc]
      · exact hI.pos.trans w3
      · rw [w4 0 (by have := hI.pos; omega)]; exact hI.first
      · intro k hk1 hk2
        by_cases hkl : k < l.length
        · obtain ⟨e, q1, q2⟩ := hI.entries k hk1 hkl
          refine ⟨e, by rw [w4 k hkl]; exact q1, ?_⟩
          rcases q2 with ⟨i, i1, i2, i3, i4⟩ | ⟨e1, i, i1, i2, i3, Q, i4, i5⟩
          · exact .inl ⟨i, i1, by omega, by simp only [if_pos i2]; exact i3, by simp only [if_pos i2]; exact i4⟩
          · refine .inr ⟨e1, i, by omega, ?_, ?_, Q, ?_, i5⟩
            · simpa only [if_pos i1.le] using i2
            · simpa only [if_pos (show i + 1 ≤ m by omega)] using i3
            · simpa only [if_pos i1.le, if_pos (show i + 1 ≤ m by omega)] using i4
        · obtain ⟨q1, q2⟩ := w5 k (by omega) hk2
          refine ⟨_, q2, ?_⟩
          unfold atEntry
          have hkt : k < times.length := by have := w2.1; omega
          split_ifs with hc
          · exact .inl ⟨m + 1, by omega, le_rfl, by simp only [hpm1]; exact hc, by simp only [hpm1]⟩
          · refine .inr ⟨rfl, m, by omega, ?_, ?_, P, ?_, rfl⟩
            · simp only [le_refl, if_true]
              rw [hI.pm]
              exact hst.le.trans (hT.mono _ _ (by omega) hkt)
            · simp only [hpm1]; exact q1
            · simp only [le_refl, if_true, hpm1]
              rw [hI.pm]
              exact hP
      · intro h; omega
      · intro _ hl; exact w6 hl
    · by_cases hm2 : r.res.hNext < minStep
      · right
        have h2 : tEnd - epsR ≤ tNew := by
          by_contra hc
          exact hmin ⟨hm2, not_le.mp hc⟩
        change l'.length = times.length
        by_contra hc
        have h3 : l'.length < times.length := lt_of_le_of_ne w2.1 hc
        have h4 := w6 h3
        have h5 := hT.mono l'.length (times.length - 1) (by omega) (by omega)
        rw [← htEnd] at h5
        linarith
      · exact .inl (not_lt.mp hm2)
    · rw [htNew]; dsimp only; linarith
    · intro h0
      have h1 := hI.ahead h0 hidx
      have h2 : min s.h epsR ≤ min (min s.h (times.getD l.length 0 - s.t)) epsR :=
        le_min (le_min (min_le_left _ _) ((min_le_right _ _).trans (by linarith))) (min_le_right _ _)
      rw [htNew]; dsimp only; linarith
  · obtain ⟨hrj, ha, hx, hdx, hnext, hinv⟩ := hrej
    rw [hr, Outcome.bind_ret]
    unfold atAfter
    rw [if_neg (by rw [ha]; simp), Outcome.bind_ret]
    dsimp only
    by_cases hmin : r.res.hNext < minStep ∧ s.t < tEnd - epsR
    · exact .inl ⟨by rw [if_pos hmin], hstuck hd1 hd0 hlo hmin.1⟩
    right
    refine ⟨{ s with st := r.st, x := r.x, dxdt := r.dxdt, h := r.res.hNext, rejected := s.rejected + 1 },
      m, p, l, by rw [if_neg hmin], ?_, .inl ?_, .inr ⟨rfl, rfl, ?_, ?_⟩⟩
    · exact { hI with inv := hinv, x := hx, dxdt := hdx, hpos := hnx }
    · by_contra hc
      exact hmin ⟨not_le.mp hc, hend⟩
    · dsimp only
      rw [hnext]
      linarith [min_le_left s.h (times.getD l.length 0 - s.t)]
    · dsimp only
      rw [hnext]
      linarith [min_le_right s.h (times.getD l.length 0 - s.t)]

theorem atLoop_run {doStep : DoStep} {sys : System} {f : ℝ → (Fin n → ℝ) → Fin n → ℝ} {eps : ℝ}
    {ok : ℝ → (Fin n → ℝ) → ℝ → (Fin n → ℝ) → Prop} {rej : Prop} {quit : ℝ → (Fin n → ℝ) → ℝ → Prop} {lo : ℝ}
    {Inv : Stepper → ℝ → (Fin n → ℝ) → Prop} (hD : Drives doStep sys f eps ok rej quit lo Inv)
    {times : List ℝ} (hT : Ordered times) {x0 : Fin n → ℝ} {minStep L : ℝ} (hmin : 0 < minStep)
    (hL : L = times.getD (times.length - 1) 0 - times.getD 0 0) (fuel : ℕ) :
    ∀ (s : Adapt) (m : ℕ) (p : ℕ → ℝ × (Fin n → ℝ)) (l : List (ℝ × (Fin n → ℝ))),
    BInv f ok Inv (times.getD 0 0) x0 (times.getD (times.length - 1) 0) times s m p l →
    (minStep ≤ s.h ∨ s.idx = times.length) → times.getD 0 0 ≤ s.t →
    ((times.getD (times.length - 1) 0 - s.t) / min minStep epsR + (if m = 0 then 1 else 0)) * (L / minStep + 1)
      + min s.h L / minStep ≤ fuel →
    (atLoop doStep sys times (times.getD (times.length - 1) 0) eps minStep (fuel + 1) s
        = .exn (.mml "ODESolverError") ∧
      Stuck ok quit lo (times.getD 0 0) x0 (times.getD (times.length - 1) 0) minStep) ∨
    ∃ s' m' p' l', atLoop doStep sys times (times.getD (times.length - 1) 0) eps minStep (fuel + 1) s = .ret s' ∧
      BInv f ok Inv (times.getD 0 0) x0 (times.getD (times.length - 1) 0) times s' m' p' l' ∧
      s'.idx = times.length := by
  have heps := epsR_pos
  have hspan := hT.span
  set tEnd := times.getD (times.length - 1) 0 with htEnd
  have hLpos : 0 < L := by linarith
  have hA : 0 ≤ L / minStep := div_nonneg hLpos.le hmin.le
  have hδ : 0 < min minStep epsR := lt_min hmin heps
  induction fuel with
  | zero =>
    intro s m p l hI hs ht0 hM
    right
    have hidx : s.idx = times.length := by
      rcases hs with hs | hs
      · exfalso
        have h1 : 0 ≤ (tEnd - s.t) / min minStep epsR := div_nonneg (by linarith [hI.tle]) hδ.le
        have h2 : (0 : ℝ) ≤ (if m = 0 then 1 else 0) := by split_ifs <;> norm_num
        have h3 : 0 < min s.h L / minStep := div_pos (lt_min hI.hpos hLpos) hmin
        have h4 : 0 ≤ ((tEnd - s.t) / min minStep epsR + (if m = 0 then 1 else 0)) * (L / minStep + 1) := by
          positivity
        simp only [Nat.cast_zero] at hM
        linarith
      · exact hs
    exact ⟨s, m, p, l, by rw [atLoop, if_neg (by omega)], hI, hidx⟩
  | succ k ih =>
    intro s m p l hI hs ht0 hM
    rw [atLoop]
    by_cases hc : s.idx < times.length
    swap
    · right
      refine ⟨s, m, p, l, by rw [if_neg hc], hI, ?_⟩
      have := hI.holds.1
      have := hI.idx
      omega
    rw [if_pos hc]
    have hs' : minStep ≤ s.h := hs.resolve_right (by omega)
    rcases atBody_run hD hT (minStep := minStep) hI hc with ⟨he, hq⟩ | ⟨s', m', p', l', h1, hI', h2, h3⟩
    · left; exact ⟨by rw [he]; rfl, hq⟩
    rw [h1, Outcome.bind_ret]
    have ht1 : s.t ≤ s'.t := by
      rcases h3 with h3 | h3
      · exact h3.2.1.le
      · exact h3.2.1.ge
    by_cases hfin : s'.idx = times.length
    · right
      refine ⟨s', m', p', l', ?_, hI', hfin⟩
      rw [atLoop, if_neg (by omega)]
    refine ih s' m' p' l' hI' h2 (ht0.trans ht1) ?_
    push_cast at hM
    rcases h3 with ⟨hm', h3, h4⟩ | ⟨hm', h3, h4, h5⟩
    · have h7 : min s'.h L / minStep ≤ L / minStep :=
        div_le_div_of_nonneg_right (min_le_right _ _) hmin.le
      have h8 : 0 ≤ min s.h L / minStep := div_nonneg (le_min hI.hpos.le hLpos.le) hmin.le
      rw [if_neg (by omega)]
      have h6 : (tEnd - s'.t) / min minStep epsR + 1
          ≤ (tEnd - s.t) / min minStep epsR + (if m = 0 then 1 else 0) := by
        rcases Nat.eq_zero_or_pos m with h0 | h0
        · rw [if_pos h0]
          have := div_le_div_of_nonneg_right (show tEnd - s'.t ≤ tEnd - s.t by linarith) hδ.le
          linarith
        · rw [if_neg (by omega), add_zero, div_add_one hδ.ne', div_le_div_iff_of_pos_right hδ]
          have := h4 h0
          have := min_le_min_right epsR hs'
          linarith
      nlinarith
    · have h6 : min s'.h L + minStep ≤ min s.h L := by
        have hm2 : minStep ≤ s'.h := h2.resolve_right hfin
        have h8 : min s'.h L ≤ s'.h := min_le_left _ _
        refine le_min (by linarith) ?_
        have : times.getD (times.length - 1) 0 - s.t ≤ L := by rw [hL]; linarith
        linarith
      have h7 : min s'.h L / minStep + 1 ≤ min s.h L / minStep := by
        rw [div_add_one hmin.ne', div_le_div_iff_of_pos_right hmin]
        exact h6
      rw [h3, hm']
      linarith

theorem integrateAt_run {doStep : DoStep} {sys : System} {f : ℝ → (Fin n → ℝ) → Fin n → ℝ}
    (hs : Computes sys f) {eps : ℝ}
    {ok : ℝ → (Fin n → ℝ) → ℝ → (Fin n → ℝ) → Prop} {rej : Prop} {quit : ℝ → (Fin n → ℝ) → ℝ → Prop} {lo : ℝ}
    {Inv : Stepper → ℝ → (Fin n → ℝ) → Prop} (hD : Drives doStep sys f eps ok rej quit lo Inv)
    {st : Stepper} (hst : st.n = n) (x0 : Fin n → ℝ) {times : List ℝ} (hT : Ordered times) {minStep : ℝ}
    (hmin : 0 < minStep) (hF : Fits n (times.length - 1)) (h0 : ℝ) :
    (integrateAt doStep sys st (List.ofFn x0) times eps h0 minStep = .exn (.mml "ODESolverError") ∧
      Stuck ok quit lo (times.getD 0 0) x0 (times.getD (times.length - 1) 0) minStep) ∨
    ∃ s l p, integrateAt doStep sys st (List.ofFn x0) times eps h0 minStep = .ret s ∧ Sees s.sol l ∧
      Track ok (times.getD 0 0) x0 (times.getD (times.length - 1) 0) s.accepted p ∧
      l.length = times.length ∧ l[0]? = some (times.getD 0 0, x0) ∧
      ∀ k, 1 ≤ k → k < times.length → ∃ e, l[k]? = some e ∧ AtTime f s.accepted p (times.getD k 0) e := by
  have heps := epsR_pos
  have h2 := hT.two
  have hspan := hT.span
  have hlen : times.length - 1 + 1 = times.length := by omega
  obtain ⟨sol0, q1, q2⟩ := Holds.new (n := n) (c := times.length - 1) (times.getD 0 0)
    (times.getD (times.length - 1) 0) hF.1 (.inr ⟨hF.1, by omega, hF.2.1, hF.2.2.1, hF.2.2.2⟩)
  rw [hlen] at q2
  obtain ⟨h, hh1, hh2⟩ := firstStep_pos hs x0 (show times.getD 0 0 < times.getD (times.length - 1) 0 by linarith) h0
  obtain ⟨sol1, h3, h4⟩ := q2.fill (by simp; omega) (times.getD 0 0) x0
  simp only [List.length_nil, Nat.cast_zero] at h3
  unfold integrateAt
  rw [if_neg (by omega), index_getD _ (by omega), Outcome.bind_ret, index_getD _ (by omega), Outcome.bind_ret, hs.1,
    q1, Outcome.bind_ret, hs.2 _ _ _ (zeros_length n), Outcome.bind_ret, hh2, Outcome.bind_ret, h3, Outcome.bind_ret]
  have hI : BInv f ok Inv (times.getD 0 0) x0 (times.getD (times.length - 1) 0) times
      ⟨st.resetFSAL, List.ofFn x0, List.ofFn (f (times.getD 0 0) x0), times.getD 0 0, h, sol1, 1, times.getD 0 0, 0, 0⟩ 0
      (fun _ => (times.getD 0 0, x0)) [(times.getD 0 0, x0)] := by
    refine { p0 := rfl, pm := rfl, step := ?_, inv := hD.start st _ x0 hst, x := rfl, dxdt := rfl, hpos := hh1, tle := by dsimp only; linarith, acc := rfl, holds := by simpa using h4, idx := rfl, pos := le_rfl, first := rfl, entries := ?_, start := fun _ => rfl, ahead := ?_ }
    · intro k hk; omega
    · intro k hk1 hk2; simp at hk2; omega
    · intro hk; omega
  have hfin : ∀ (s' : Adapt) (m' : ℕ) (p' : ℕ → ℝ × (Fin n → ℝ)) (l' : List (ℝ × (Fin n → ℝ))),
      BInv f ok Inv (times.getD 0 0) x0 (times.getD (times.length - 1) 0) times s' m' p' l' →
      s'.idx = times.length → 
      ∃ l p, Sees s'.sol l ∧
      Track ok (times.getD 0 0) x0 (times.getD (times.length - 1) 0) s'.accepted p ∧
      l.length = times.length ∧ l[0]? = some (times.getD 0 0, x0) ∧
      ∀ k, 1 ≤ k → k < times.length → ∃ e, l[k]? = some e ∧ AtTime f s'.accepted p (times.getD k 0) e := by
    intro s' m' p' l' hI' hx
    rw [hI'.acc]
    have hl : l'.length = times.length := by rw [← hI'.idx, hx]
    refine ⟨l', p', hI'.holds.sees, ⟨hI'.p0, hI'.step, ?_, by rw [hI'.pm]; exact hI'.tle⟩, hl, hI'.first, fun k hk1 hk2 => hI'.entries k hk1 (by omega)⟩
    obtain ⟨e, e1, e2⟩ := hI'.entries (times.length - 1) (by omega) (by omega)
    have hmono := AInv.mono (f := f) hI'.step
    rcases e2 with ⟨i, i1, i2, i3, i4⟩ | ⟨e1, i, i1, i2, i3, Q, i4, i5⟩
    · have := hmono i i2
      have := (abs_lt.mp i3).2
      linarith
    · have := hmono (i + 1) (by omega)
      linarith
  unfold atFuel
  set L := times.getD (times.length - 1) 0 - times.getD 0 0 with hL
  rw [atLoop, if_pos (by dsimp only; omega)]
  rcases atBody_run hD hT (minStep := minStep) hI (by dsimp only; omega) with ⟨he, hq⟩ | ⟨s', m', p', l', b1, hI', b2, b3⟩
  · left; exact ⟨by rw [he]; rfl, hq⟩
  rw [b1, Outcome.bind_ret]
  have ht' : times.getD 0 0 ≤ s'.t := by
    rcases b3 with b3 | b3
    · exact b3.2.1.le
    · exact b3.2.1.ge
  have hδ : 0 < min minStep epsR := lt_min hmin heps
  have hA : 0 ≤ L / minStep := div_nonneg (by rw [hL]; linarith) hmin.le
  have e1 := Nat.le_ceil ((L / min minStep epsR + 1) * (L / minStep + 1) + L / minStep)
  have e2 : (times.getD (times.length - 1) 0 - s'.t) / min minStep epsR ≤ L / min minStep epsR :=
    div_le_div_of_nonneg_right (by rw [hL]; linarith) hδ.le
  have e3 : min s'.h L / minStep ≤ L / minStep := div_le_div_of_nonneg_right (min_le_right _ _) hmin.le
  have e4 : (if m' = 0 then (1 : ℝ) else 0) ≤ 1 := by split_ifs <;> norm_num
  rcases atLoop_run hD hT hmin hL (⌈(L / min minStep epsR + 1) * (L / minStep + 1) + L / minStep⌉₊ + 1) s' m' p' l' hI'
    b2 ht' (by push_cast; nlinarith) with ⟨he, hq⟩ | ⟨s'', m'', p'', l'', g1, g2, g3⟩
  · exact .inl ⟨he, hq⟩
  · right
    obtain ⟨l, p, k1⟩ := hfin s'' m'' p'' l'' g2 g3
    exact ⟨s'', l, p, g1, k1⟩

end Verif.ODE
