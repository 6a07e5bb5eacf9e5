import Verif.ODE.AdaptiveLemmas
import Verif.ODE.BulirschMore
import Verif.ODE.FixedSpec

/-! # Helper lemmas: the steppers drive the adaptive integrator -/

set_option autoImplicit false

namespace Verif.ODE

open Outcome Mat

variable {n : ℕ}

theorem retryLoop_size {R : Type} {attempt : Bool → ℝ → Outcome (R ⊕ ℝ)} {r : R} :
    ∀ (fuel : ℕ) (b : Bool) (h : ℝ), retryLoop attempt fuel b h = .ret r →
      ∃ b h', attempt b h' = .ret (.inl r) ∧ (h' = h ∨ epsR ≤ |h'|)
  | 0, _, _, hr => by cases hr
  | k + 1, b, h, hr => by
    rw [retryLoop] at hr
    obtain ⟨a, ha, hr⟩ := bind_eq_ret hr
    cases a with
    | inl r' => exact ⟨b, h, by rw [ha]; rw [Outcome.ret.inj hr], .inl rfl⟩
    | inr h' =>
      dsimp only at hr
      split_ifs at hr with hc
      · obtain ⟨b', h'', h1, h2⟩ := retryLoop_size k false h' hr
        refine ⟨b', h'', h1, .inr ?_⟩
        rcases h2 with rfl | h2
        · exact not_lt.mp hc
        · exact h2

/-- A stepper whose attempts are as described drives the integrator. -/
theorem drives_of_attempts {clc : Calc} {sys : System} {f : ℝ → (Fin n → ℝ) → Fin n → ℝ} {eps : ℝ}
    (heps : 0 < eps) {lo hi c0 : ℝ} (hlo : 0 < lo) (hc0 : 0 < c0)
    {att : System → Stepper → ℝ → List ℝ → List ℝ → ℝ → Bool → ℝ → Outcome (Stepped ⊕ ℝ)}
    {Inv : Stepper → ℝ → (Fin n → ℝ) → Prop}
    (hstart : ∀ (s : Stepper) t x, s.n = n → Inv s.resetFSAL t x)
    (hkeep : ∀ (t : ℝ) (x : Fin n → ℝ) (h : ℝ) (r : Stepped) (o : Fin n → ℝ),
      Accepted f clc sys t x h r o (f (t + h) o) → Inv r.st (t + r.res.hDone) o)
    (hatt : ∀ s t x, Inv s t x → ∀ b h, ∃ (o e : Fin n → ℝ) (m : ℝ),
      clc sys t (List.ofFn x) (List.ofFn (f t x)) h (zeros n) (zeros n) = .ret (List.ofFn o, List.ofFn e) ∧
      Largest x (f t x) e h m ∧
      (m / eps ≤ 1 → ∃ r, att sys s t (List.ofFn x) (List.ofFn (f t x)) eps b h = .ret (.inl r) ∧
        Accepted f clc sys t x h r o (f (t + h) o) ∧ ∃ g, lo ≤ g ∧ g ≤ hi ∧ r.res.hNext = h * g) ∧
      (1 < m / eps → ∃ c, c0 ≤ c ∧ c ≤ 9 / 10 ∧
        att sys s t (List.ofFn x) (List.ofFn (f t x)) eps b h = .ret (.inr (h * c)))) :
    Drives (fun sys s t x dxdt htry eps => retryLoop (att sys s t x dxdt eps) (attempts htry) true htry) sys f
      eps (Within clc sys f eps) False (fun t x h => GaveUp clc (epsR / c0) sys f eps h t x) lo Inv := by
  refine ⟨hstart, fun s t x h hI hh => ?_⟩
  rcases doStep_of_attempts heps hc0 (last := fun h o => f (t + h) o) (hatt s t x hI) h with
    ⟨r, x', h1, hG, hA⟩ | ⟨h1, h2⟩
  · right
    obtain ⟨g1, g2, ⟨c, hc1, hc2, hc3⟩, ⟨e, he⟩, hP, -, g, hg1, hg2, hg3⟩ := hG
    have hd : 0 < r.res.hDone := by rw [hc3]; positivity
    refine ⟨r, h1, ?_, ?_, hd, ?_, .inl ⟨g1, ?_, x', g2, hA.rd, ?_, hkeep t x _ r x' hA, hA.dense hd.ne'⟩⟩
    · rw [hg3]; have : 0 < g := hlo.trans_le hg1; positivity
    · rw [hc3]; nlinarith
    · rw [hg3]; nlinarith
    · obtain ⟨b, h', h3, h4⟩ := retryLoop_size _ _ _ h1
      obtain ⟨o, e', m, q1, q2, q3, q4⟩ := hatt s t x hI b h'
      rcases le_or_gt (m / eps) 1 with h5 | h5
      · obtain ⟨r', h6, h7, -⟩ := q3 h5
        rw [h3] at h6
        have hrr : r = r' := Sum.inl.inj (Outcome.ret.inj h6)
        subst hrr
        rw [h7.done]
        rcases h4 with rfl | h4
        · exact min_le_left _ _
        · have hh' : 0 < h' := by rw [← h7.done]; exact hd
          rw [abs_of_pos hh'] at h4
          exact (min_le_right _ _).trans h4
      · obtain ⟨c, _, _, h6⟩ := q4 h5
        rw [h3] at h6
        exact absurd (Outcome.ret.inj h6) (by simp)
    · obtain ⟨o', e', q1, q2⟩ := hP
      have hoe := q1
      rw [he] at hoe
      obtain ⟨r1, r2⟩ := Prod.mk.inj (Outcome.ret.inj hoe)
      rw [← List.ofFn_injective r2] at q2
      refine ⟨e, ?_, ?_⟩
      · rw [add_sub_cancel_left]; exact he
      · rw [add_sub_cancel_left]; exact q2
  · exact .inl ⟨h1, h2⟩

section

variable {sys : System} {f : ℝ → (Fin n → ℝ) → Fin n → ℝ} (hs : Computes sys f)
include hs

theorem dp5_drives {eps : ℝ} (heps : 0 < eps) :
    Drives dp5DoStep sys f eps (Within dp5Step sys f eps) False
      (fun t x h => GaveUp dp5Step (5 * epsR) sys f eps h t x) (1 / 5) (Ready f) := by
  have h := drives_of_attempts (clc := dp5Step) (sys := sys) (f := f) heps (lo := 2 / 10) (hi := 10)
    (c0 := 2 / 10) (by norm_num) (by norm_num) (att := dp5Attempt) (Inv := Ready f)
    (fun s t x hn => ⟨hn, by simp [Stepper.resetFSAL]⟩) (fun t x h r o ha => ha.ready')
    (fun s t x hI b h => dp5Attempt_cases hs hI heps.ne' b h)
  rw [show epsR / (2 / 10) = 5 * epsR by ring, show (2 / 10 : ℝ) = 1 / 5 by norm_num] at h
  exact h

theorem ck_drives {eps : ℝ} (heps : 0 < eps) :
    Drives ckDoStep sys f eps (Within ckStep sys f eps) False
      (fun t x h => GaveUp ckStep (10 * epsR) sys f eps h t x) (9 / 10) (fun s _ _ => s.n = n) := by
  have h := drives_of_attempts (clc := ckStep) (sys := sys) (f := f) heps (lo := 9 / 10) (hi := 5)
    (c0 := 1 / 10) (by norm_num) (by norm_num) (att := ckAttempt) (Inv := fun s _ _ => s.n = n)
    (fun s t x hn => hn) (fun t x h r o ha => ha.nn)
    (fun s t x hI b h => ckAttempt_cases hs hI heps.ne' b h)
  rw [show epsR / (1 / 10) = 10 * epsR by ring] at h
  exact h

theorem bs_drives {seq : List ℕ} (hq : GoodSeq seq) {eps : ℝ} (heps : 0 < eps) :
    Drives (bsDoStep seq) sys f eps (fun _ _ _ _ => True) True (fun _ _ _ => False) (1 / 10)
      (fun s _ _ => s.n = n) := by
  refine ⟨fun s t x hn => hn, fun s t x h hn hh => .inr ?_⟩
  have h0 : Table seq n h 0 ⟨List.replicate 9 (zeros s.n), List.replicate 9 0, zeros s.n, zeros s.n⟩ 0 0 := by
    rw [hn]; exact start_table seq n h
  rcases loop_run hs hq t x hh.ne' heps s hn 9 0 rfl _ _ _ h0 with ⟨r, x', h1, h2, g, hg1, hg2, hg3⟩ | h1
  · have hd := h2.done
    refine ⟨r, h1, ?_, ?_, ?_, ?_, .inl ⟨h2.acc, ?_, x', h2.rx, ?_, trivial, h2.nn, ?_⟩⟩
    · rw [hg3]; have : 0 < g := lt_of_lt_of_le (by norm_num) hg1; positivity
    · rw [hd]
    · rw [hd]; exact hh
    · rw [hg3, hd]; nlinarith
    · rw [hd]; exact min_le_left _ _
    · rw [hd]; exact h2.rd
    · rw [hd]; exact h2.dense hh.ne'
  · refine ⟨_, h1, by positivity, le_rfl, hh, ?_, .inr ⟨trivial, rfl, rfl, rfl, ?_, hn⟩⟩
    · change 1 / 10 * h ≤ h * (1 / 2)
      linarith
    · ring

end

theorem natCeil_cast {q : ℝ} (hq : 0 ≤ q) : ((⌈q⌉₊ : ℕ) : ℤ) = ⌈q⌉ := Int.natCast_ceil_eq_ceil hq

theorem nodup_full {M : ℕ} {js : List ℕ} (h1 : js.Pairwise (· < ·)) (h2 : ∀ i ∈ js, 1 ≤ i ∧ i ≤ M)
    (h3 : js.length = M) (i : ℕ) (hi : 1 ≤ i ∧ i ≤ M) : i ∈ js := by
  have hnd : js.Nodup := h1.imp fun h => h.ne
  have hsub : js.toFinset ⊆ Finset.Icc 1 M := fun a ha => by
    rw [List.mem_toFinset] at ha
    exact Finset.mem_Icc.mpr (h2 a ha)
  have heq : js.toFinset = Finset.Icc 1 M := Finset.eq_of_subset_of_card_le hsub (by
    rw [List.toFinset_card_of_nodup hnd, h3]; simp)
  rw [← List.mem_toFinset, heq]
  exact Finset.mem_Icc.mpr hi

/-- What a caller gets from a successful integration. -/
structure Integrated (f : ℝ → (Fin n → ℝ) → Fin n → ℝ) (ok : ℝ → (Fin n → ℝ) → ℝ → (Fin n → ℝ) → Prop)
    (t0 : ℝ) (x0 : Fin n → ℝ) (tEnd dt : ℝ) (s : Adapt) (l : List (ℝ × (Fin n → ℝ)))
    (p : ℕ → ℝ × (Fin n → ℝ)) : Prop where
  sees : Sees s.sol l
  track : Track ok t0 x0 tEnd s.accepted p
  delivers : Delivers f t0 x0 tEnd dt s.accepted p l

theorem finish_run {f : ℝ → (Fin n → ℝ) → Fin n → ℝ} {ok : ℝ → (Fin n → ℝ) → ℝ → (Fin n → ℝ) → Prop}
    {rej : Prop} {Inv : Stepper → ℝ → (Fin n → ℝ) → Prop} {t0 : ℝ} {x0 : Fin n → ℝ} {tEnd dt : ℝ}
    (hdt : 0 < dt) (ht : t0 < tEnd) {s : Adapt} {m : ℕ} {p : ℕ → ℝ × (Fin n → ℝ)} {js : List ℕ}
    {v : ℕ → Fin n → ℝ} {j : ℕ}
    (hI : AInv f ok rej Inv t0 x0 tEnd dt (⌈(tEnd - t0) / dt⌉₊ + 1) s m p js v j) (hr : tEnd - epsR ≤ s.t) :
    ∃ s' l, adaptFinish tEnd (⌈(tEnd - t0) / dt⌉₊ + 1 : ℕ) s = .ret s' ∧
      Integrated f ok t0 x0 tEnd dt s' l p ∧ (s'.rejected = 0 ∨ rej) := by
  have hq : 0 ≤ (tEnd - t0) / dt := div_nonneg (by linarith) hdt.le
  have hcast := natCeil_cast hq
  have hceil : tEnd ≤ t0 + ⌈(tEnd - t0) / dt⌉₊ * dt := by
    have := Nat.le_ceil ((tEnd - t0) / dt)
    rw [div_le_iff₀ hdt] at this
    linarith
  have hle := hI.holds.1
  have htr : Track ok t0 x0 tEnd m p := ⟨hI.p0, hI.step, by rw [hI.pm]; exact hr, by rw [hI.pm]; exact hI.tle⟩
  have hbound : ∀ i : ℕ, t0 + i * dt ≤ tEnd → i ≤ ⌈(tEnd - t0) / dt⌉₊ := by
    intro i hi
    have h1 : (i : ℝ) ≤ (tEnd - t0) / dt := by rw [le_div_iff₀ hdt]; linarith
    exact_mod_cast h1.trans (Nat.le_ceil _)
  have hmem : ∀ i : ℕ, i ∈ js ↔ 1 ≤ i ∧ t0 + i * dt ≤ (p m).1 ∧ ¬ JustAfter m p (t0 + i * dt) := by
    intro i
    rw [hI.mem, hI.pm]
    constructor
    · rintro ⟨q1, q2, q3, q4⟩
      exact ⟨q1, q3, q4⟩
    · rintro ⟨q1, q3, q4⟩
      refine ⟨q1, ?_, q3, q4⟩
      by_cases hf : js.length + 1 < ⌈(tEnd - t0) / dt⌉₊ + 1
      · rcases Nat.eq_zero_or_pos m with h0 | h0
        · have h9 := hI.pm
          rw [h0, hI.p0] at h9
          rw [← h9] at q3
          have : (0 : ℝ) < i * dt := by
            have : (0 : ℝ) < i := by exact_mod_cast q1
            positivity
          simp only at q3
          linarith
        · have hah := hI.ahead hf h0
          have heps := epsR_pos
          by_contra hc
          have : (j : ℝ) ≤ i := by exact_mod_cast not_lt.mp hc
          nlinarith
      · have hlen : js.length = ⌈(tEnd - t0) / dt⌉₊ := by simp at hle; omega
        have hi := nodup_full hI.sorted (fun a ha => by
          obtain ⟨w1, w2, w3, w4⟩ := (hI.mem a).mp ha
          exact ⟨w1, hbound a (w3.trans hI.tle)⟩) hlen i ⟨q1, hbound i (q3.trans hI.tle)⟩
        exact ((hI.mem i).mp hi).2.1
  unfold adaptFinish
  by_cases hf : (s.idx : ℤ) < (⌈(tEnd - t0) / dt⌉₊ + 1 : ℕ)
  · have hf' : js.length + 1 < ⌈(tEnd - t0) / dt⌉₊ + 1 := by rw [hI.idx] at hf; exact_mod_cast hf
    rw [if_pos hf]
    obtain ⟨sol', h1, h2⟩ := hI.holds.fill (by simpa using hf') tEnd (p m).2
    have hlen : ((t0, x0) :: js.map (fun (i : ℕ) => (t0 + i * dt, v i))).length = s.idx := by
      rw [hI.idx]; simp
    rw [hlen, ← hI.x] at h1
    rw [h1, Outcome.bind_ret]
    refine ⟨{ s with sol := sol', idx := s.idx + 1 }, _, rfl, ⟨h2.sees, ?_, ?_⟩, hI.norej⟩
    · change Track ok t0 x0 tEnd s.accepted p
      rw [hI.acc]; exact htr
    · change Delivers f t0 x0 tEnd dt s.accepted p _
      rw [hI.acc]
      refine ⟨js, v, [(tEnd, (p m).2)], rfl, hI.sorted, hmem, hI.curve, .inl ⟨?_, rfl⟩⟩
      rw [← hcast]
      exact_mod_cast hf'
  · rw [if_neg hf]
    have hlen : js.length = ⌈(tEnd - t0) / dt⌉₊ := by
      rw [hI.idx] at hf
      simp at hle
      push_cast at hf
      omega
    refine ⟨s, _, rfl, ⟨hI.holds.sees, by rw [hI.acc]; exact htr, ?_⟩, hI.norej⟩
    rw [hI.acc]
    have hNpos : 1 ≤ ⌈(tEnd - t0) / dt⌉₊ := Nat.one_le_ceil_iff.mpr (div_pos (by linarith) hdt)
    have hlast : ⌈(tEnd - t0) / dt⌉₊ ∈ js := nodup_full hI.sorted (fun a ha => by
          obtain ⟨w1, w2, w3, w4⟩ := (hI.mem a).mp ha
          exact ⟨w1, hbound a (w3.trans hI.tle)⟩) hlen _ ⟨hNpos, le_rfl⟩
    have hl2 := ((hI.mem _).mp hlast).2.2.1
    have hte : s.t = tEnd := le_antisymm hI.tle (hceil.trans hl2)
    have hue : t0 + ⌈(tEnd - t0) / dt⌉₊ * dt = tEnd := le_antisymm (hl2.trans hI.tle) hceil
    refine ⟨js, v, [], by simp, hI.sorted, hmem, hI.curve, .inr ⟨by rw [← hcast, hlen], rfl, by rw [hI.pm, hte],
      _, hlast, hue, ?_⟩⟩
    obtain ⟨k, hk1, hk2, hk3, P, hP, hv⟩ := hI.curve _ hlast
    rw [hue] at hk2 hk3 hv
    have hkm : k + 1 = m := by
      by_contra hc
      have h1 := (hI.step (k + 1) (by omega)).1
      have h2 := AInv.mono (f := f) hI.step (k + 1 + 1) (by omega)
      rw [hI.pm, hte] at h2
      linarith
    rw [hv]
    funext i
    have := (hP i).2.2.2.1
    rw [hkm, hI.pm, hte] at this
    exact this

theorem integrateAdaptive_run {doStep : DoStep} {sys : System} {f : ℝ → (Fin n → ℝ) → Fin n → ℝ}
    (hs : Computes sys f) {eps : ℝ}
    {ok : ℝ → (Fin n → ℝ) → ℝ → (Fin n → ℝ) → Prop} {rej : Prop} {quit : ℝ → (Fin n → ℝ) → ℝ → Prop} {lo : ℝ}
    {Inv : Stepper → ℝ → (Fin n → ℝ) → Prop} (hD : Drives doStep sys f eps ok rej quit lo Inv)
    {st : Stepper} (hst : st.n = n) (x0 : Fin n → ℝ) {t0 tEnd dt minStep : ℝ} (hdt : 0 < dt) (ht : t0 < tEnd)
    (hmin : 0 < minStep) (hF : Fits n ⌈(tEnd - t0) / dt⌉₊) (h0 : ℝ) :
    (integrateAdaptive doStep sys st (List.ofFn x0) t0 tEnd dt eps h0 minStep = .exn (.mml "ODESolverError") ∧
      Stuck ok quit lo t0 x0 tEnd minStep) ∨
    ∃ s l p, integrateAdaptive doStep sys st (List.ofFn x0) t0 tEnd dt eps h0 minStep = .ret s ∧
      Integrated f ok t0 x0 tEnd dt s l p ∧ (s.rejected = 0 ∨ rej) := by
  have hq : 0 ≤ (tEnd - t0) / dt := div_nonneg (by linarith) hdt.le
  have hcast := natCeil_cast hq
  have heps := epsR_pos
  obtain ⟨sol0, h1, h2⟩ := Holds.new (n := n) (c := ⌈(tEnd - t0) / dt⌉₊) t0 tEnd hF.1
    (.inr ⟨hF.1, by omega, hF.2.1, hF.2.2.1, hF.2.2.2⟩)
  obtain ⟨h, hh1, hh2⟩ := firstStep_pos hs x0 ht h0
  obtain ⟨sol1, h3, h4⟩ := h2.fill (by simp) t0 x0
  unfold integrateAdaptive
  rw [fdiv_pos _ hdt.ne', Outcome.bind_ret, add_sub_cancel_right, ← hcast, hs.1, h1, Outcome.bind_ret,
    hs.2 _ _ _ (zeros_length n), Outcome.bind_ret, hh2, Outcome.bind_ret]
  simp only [List.length_nil, Nat.cast_zero] at h3
  rw [h3, Outcome.bind_ret]
  have hcast2 : ((⌈(tEnd - t0) / dt⌉₊ : ℕ) : ℤ) + 1 = ((⌈(tEnd - t0) / dt⌉₊ + 1 : ℕ) : ℤ) := by push_cast; rfl
  rw [hcast2]
  set N := ⌈(tEnd - t0) / dt⌉₊ + 1 with hN
  have hI : AInv f ok rej Inv t0 x0 tEnd dt N ⟨st.resetFSAL, List.ofFn x0, List.ofFn (f t0 x0), t0,
      min h (tEnd - t0), sol1, 1, t0 + dt, 0, 0⟩ 0 (fun _ => (t0, x0)) [] (fun _ => x0) 1 := by
    refine { p0 := rfl, pm := rfl, step := ?_, inv := hD.start st t0 x0 hst, x := rfl, dxdt := rfl, hpos := lt_min hh1 (by linarith), tle := ht.le, acc := rfl, holds := ?_, idx := rfl, tNext := by simp, j1 := le_rfl, j0 := fun _ => rfl, norej := .inl rfl, sorted := List.Pairwise.nil, mem := ?_, curve := ?_, seen := ?_, ahead := ?_ }
    · intro k hk; omega
    · simpa using h4
    · intro i; simp; omega
    · intro i hi; simp at hi
    · intro i q1 q2; omega
    · intro q1 q2; omega
  have hmain : (adaptLoop doStep sys tEnd dt eps minStep N (adaptFuel (tEnd - t0) minStep)
      ⟨st.resetFSAL, List.ofFn x0, List.ofFn (f t0 x0), t0, min h (tEnd - t0), sol1, 1, t0 + dt, 0, 0⟩
        = .exn (.mml "ODESolverError") ∧ Stuck ok quit lo t0 x0 tEnd minStep) ∨
      ∃ s', adaptLoop doStep sys tEnd dt eps minStep N (adaptFuel (tEnd - t0) minStep)
        ⟨st.resetFSAL, List.ofFn x0, List.ofFn (f t0 x0), t0, min h (tEnd - t0), sol1, 1, t0 + dt, 0, 0⟩
        = .ret s' ∧ tEnd - epsR ≤ s'.t ∧
        ∃ m' p' js' v' j', AInv f ok rej Inv t0 x0 tEnd dt N s' m' p' js' v' j' := by
    unfold adaptFuel
    rw [adaptLoop]
    by_cases hc : t0 < tEnd - epsR
    · rw [if_pos hc]
      rcases adaptBody_run hD hdt (minStep := minStep) hI hc with
        ⟨he, hq⟩ | ⟨s', b1, b2, ⟨m', p', js', v', j', hI'⟩, b3⟩
      · left; exact ⟨by rw [he]; rfl, hq⟩
      · rw [b1, Outcome.bind_ret]
        have ht' : t0 ≤ s'.t := by
          rcases b3 with b3 | b3
          · have : 0 < min (min (min h (tEnd - t0)) (tEnd - t0)) epsR :=
              lt_min (lt_min (lt_min hh1 (by linarith)) (by linarith)) heps
            dsimp only at b3
            linarith
          · exact b3.1.ge
        refine adaptLoop_run hD hdt hmin _ s' m' p' js' v' j' hI' b2 ht' ?_
        have hδ : 0 < min minStep epsR := lt_min hmin heps
        have hA : 0 ≤ (tEnd - t0) / minStep := div_nonneg (by linarith) hmin.le
        have e1 := Nat.le_ceil ((tEnd - t0) / min minStep epsR * ((tEnd - t0) / minStep + 1) + (tEnd - t0) / minStep)
        have e2 : (tEnd - s'.t) / min minStep epsR ≤ (tEnd - t0) / min minStep epsR :=
          div_le_div_of_nonneg_right (by linarith) hδ.le
        have e3 : min s'.h (tEnd - t0) / minStep ≤ (tEnd - t0) / minStep :=
          div_le_div_of_nonneg_right (min_le_right _ _) hmin.le
        push_cast
        nlinarith
    · rw [if_neg hc]
      exact .inr ⟨_, rfl, not_lt.mp hc, _, _, _, _, _, hI⟩
  rcases hmain with ⟨he, hq⟩ | ⟨s', g1, g2, m', p', js', v', j', hI'⟩
  · left
    exact ⟨by rw [he]; rfl, hq⟩
  · right
    rw [g1, Outcome.bind_ret]
    obtain ⟨s'', l, k1, k2, k3⟩ := finish_run hdt ht hI' g2
    exact ⟨s'', l, p', k1, k2, k3⟩

end Verif.ODE
