import Verif.ODE.BulirschLemmas

/-! # Helper lemmas: the levels of the Bulirsch–Stoer steppers -/

set_option autoImplicit false

namespace Verif.ODE

open Outcome

variable {n : ℕ}

/-- The step sequences grow and begin with 2, 4. -/
def GoodSeq (seq : List ℕ) : Prop :=
  seq.length = 9 ∧ seq.getD 0 0 = 2 ∧ seq.getD 1 0 = 4 ∧
    ∀ k < 9, 0 < seq.getD k 0 ∧ ∀ j < k, seq.getD j 0 < seq.getD k 0

theorem evenSeq_good : GoodSeq evenSeq := by unfold GoodSeq; decide
theorem bulirschSeq_good : GoodSeq bulirschSeq := by unfold GoodSeq; decide

theorem GoodSeq.index {seq : List ℕ} (hq : GoodSeq seq) {k : ℕ} (hk : k < 9) :
    Outcome.index seq k = .ret (seq.getD k 0) := by
  have hl : k < seq.length := by rw [hq.1]; exact hk
  rw [Outcome.index, List.getD_eq_getElem?_getD, List.getElem?_eq_getElem hl]
  rfl

theorem GoodSeq.ne {seq : List ℕ} (hq : GoodSeq seq) {k : ℕ} (hk : k < 9) {h : ℝ} (hh : h ≠ 0) :
    ∀ j < k, (h / (seq.getD j 0 : ℕ)) * (h / (seq.getD j 0 : ℕ))
      - (h / (seq.getD k 0 : ℕ)) * (h / (seq.getD k 0 : ℕ)) ≠ 0 := by
  intro j hj
  have h1 : (0 : ℝ) < (seq.getD j 0 : ℕ) := by exact_mod_cast (hq.2.2.2 j (by omega)).1
  have h2 : ((seq.getD j 0 : ℕ) : ℝ) < (seq.getD k 0 : ℕ) := by exact_mod_cast (hq.2.2.2 k hk).2 j hj
  generalize ((seq.getD j 0 : ℕ) : ℝ) = a at h1 h2
  generalize ((seq.getD k 0 : ℕ) : ℝ) = b at h2
  have hb : 0 < b := h1.trans h2
  have : h / a * (h / a) - h / b * (h / b) = h ^ 2 * (b - a) * (b + a) / (a ^ 2 * b ^ 2) := by
    field_simp
    ring
  rw [this]
  have : b - a ≠ 0 := (sub_pos.mpr h2).ne'
  positivity

theorem level_run {sys : System} {f : ℝ → (Fin n → ℝ) → Fin n → ℝ} (hs : Computes sys f) {seq : List ℕ}
    (hq : GoodSeq seq) (t : ℝ) (x : Fin n → ℝ) {h eps : ℝ} (hh : h ≠ 0) (heps : 0 < eps) {k : ℕ}
    (hk : k < 9) {e : Extrap} {yz dy : Fin n → ℝ} (he : Table seq n h k e yz dy) :
    ∃ e' yz' dy' o, bsLevel sys seq n t (List.ofFn x) (List.ofFn (f t x)) h eps e k = .ret (e', o) ∧
      Table seq n h (k + 1) e' yz' dy' ∧
      ∀ m, o = some m → ∀ i, |dy' i| ≤ eps * (|x i| + |yz' i| + tinyR) := by
  have hnk := (hq.2.2.2 k hk).1
  obtain ⟨N, hN⟩ : ∃ N, seq.getD k 0 = N + 1 := ⟨seq.getD k 0 - 1, by omega⟩
  obtain ⟨e', yz', dy', h1, h2⟩ := pzextr_run hk he (midRule f t x h N) (hq.ne hk hh)
  have hne : ((seq.getD k 0 : ℕ) : ℝ) ≠ 0 := by exact_mod_cast hnk.ne'
  have hm : mmid sys n (List.ofFn x) (List.ofFn (f t x)) t h (seq.getD k 0)
      = .ret (List.ofFn (midRule f t x h N)) := by rw [hN]; exact mmid_eq hs x t h N
  have hrun : bsLevel sys seq n t (List.ofFn x) (List.ofFn (f t x)) h eps e k
      = (if 0 < k then do
          let m ← forRange n 0 (bsErrBody eps (List.ofFn x) e'.yz e'.dy)
          ret (e', if m < 1 then some m else none)
        else ret (e', none)) := by
    rw [bsLevel, hq.index hk, Outcome.bind_ret, hm, Outcome.bind_ret, fdiv_pos _ hne, Outcome.bind_ret, h1,
      Outcome.bind_ret]
  by_cases hk0 : 0 < k
  · obtain ⟨m, h3, h4, h5⟩ := bsErr_run heps x yz' dy'
    have h2' := h2
    obtain ⟨-, -, -, -, -, hyz, hdy⟩ := h2'
    rw [if_pos hk0, hyz, hdy, h3, Outcome.bind_ret] at hrun
    refine ⟨e', yz', dy', _, hrun, h2, fun m' hm' i => ?_⟩
    have hm1 : m < 1 := by
      by_contra hc
      rw [if_neg hc] at hm'
      exact absurd hm' (by simp)
    refine (h5 i).trans ?_
    have : 0 ≤ eps * (|x i| + |yz' i| + tinyR) := by have := tinyR_pos; positivity
    nlinarith
  · rw [if_neg hk0] at hrun
    exact ⟨e', yz', dy', _, hrun, h2, fun m hm => absurd hm (by simp)⟩

theorem loop_run {sys : System} {f : ℝ → (Fin n → ℝ) → Fin n → ℝ} (hs : Computes sys f) {seq : List ℕ}
    (hq : GoodSeq seq) (t : ℝ) (x : Fin n → ℝ) {h eps : ℝ} (hh : h ≠ 0) (heps : 0 < eps) (s : Stepper)
    (hn : s.n = n) (fuel : ℕ) : ∀ (k : ℕ), k + fuel = 9 → ∀ (e : Extrap) (yz dy : Fin n → ℝ),
    Table seq n h k e yz dy →
    (∃ r x', bsLoop sys seq s t (List.ofFn x) (List.ofFn (f t x)) h eps fuel k e = .ret r ∧
      Accepted f (fun _ _ _ _ _ _ _ => .ret (List.ofFn x', List.ofFn x')) sys t x h r x' (f (t + h) x') ∧
      ∃ g, 1 / 10 ≤ g ∧ g ≤ 4 ∧ r.res.hNext = h * g) ∨
    (bsLoop sys seq s t (List.ofFn x) (List.ofFn (f t x)) h eps fuel k e
      = .ret ⟨{ s with first := List.ofFn (f t x), xOld := List.ofFn x, tOld := t }, List.ofFn x,
        List.ofFn (f t x), ⟨false, h, h * (1 / 2), 999⟩⟩) := by
  subst hn
  induction fuel with
  | zero => exact fun k _ e yz dy _ => .inr rfl
  | succ fuel ih =>
    intro k hk e yz dy he
    obtain ⟨e', yz', dy', o, h1, h2, h3⟩ := level_run hs hq t x hh heps (by omega : k < 9) he
    rw [bsLoop, h1, Outcome.bind_ret]
    cases o with
    | none => exact ih (k + 1) (by omega) e' yz' dy' h2
    | some m =>
      obtain ⟨-, -, -, -, -, hyz, hdy⟩ := h2
      refine .inl ⟨⟨{ s with first := List.ofFn (f t x), last := List.ofFn (f (t + h) yz'), xOld := List.ofFn x, xEnd := e'.yz, tOld := t, hDone := h, stepReady := true }, e'.yz, List.ofFn (f (t + h) yz'), ⟨true, h, h * growth (1 / 10) 4 (9 / 10) (1 / (2 * k + 1)) m 1, m⟩⟩, yz', ?_, ?_, ?_⟩
      · dsimp only
        rw [bsAccept, hyz, hs.2 _ _ _ (by simp), Outcome.bind_ret]
      · exact ⟨rfl, rfl, rfl, hyz, rfl, ⟨yz', rfl⟩, rfl, rfl, rfl, hyz, rfl, rfl, rfl⟩
      · obtain ⟨h4, h5⟩ := growth_bounds (lo := (1 / 10 : ℝ)) (hi := 4) (9 / 10) (1 / (2 * (k : ℝ) + 1)) m 1
          (by norm_num)
        exact ⟨_, h4, h5, rfl⟩

theorem start_table (seq : List ℕ) (n : ℕ) (h : ℝ) :
    Table seq n h 0 ⟨List.replicate 9 (zeros n), List.replicate 9 0, zeros n, zeros n⟩ 0 0 := by
  have hz : zeros n = List.ofFn (0 : Fin n → ℝ) := by
    refine List.ext_getElem (by simp [zeros]) fun j h1 h2 => ?_
    simp [zeros]
  refine ⟨fun _ => 0, fun _ => 0, ?_, ?_, fun j hj => by omega, hz, hz⟩
  · dsimp only
    rw [replicate_eq_tab, hz]
  · dsimp only
    rw [replicate_eq_tab]

end Verif.ODE
