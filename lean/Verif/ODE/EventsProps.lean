import Verif.ODE.Events
import Mathlib.Tactic

/-!
# The integrator with event detection: specification and proofs
-/

set_option autoImplicit false

namespace Verif.ODE.Ev

open Outcome

variable {S X : Type}

/-! ## Specification -/

/-- What is asked of the stepper: for a positive step size, an accepted step is positive and not longer than asked for, and its dense
output joins the old state and the new one; the estimate of a first step is positive. -/
structure Fair (P : Stepper S X) : Prop where
  done : ∀ s t x h, 0 < h → (P.doStep s t x h).accepted = true → 0 < (P.doStep s t x h).hDone ∧ (P.doStep s t x h).hDone ≤ h
  left : ∀ s t x h, 0 < h → (P.doStep s t x h).accepted = true → (P.doStep s t x h).interp t = x
  right : ∀ s t x h, 0 < h → (P.doStep s t x h).accepted = true →
    (P.doStep s t x h).interp (t + (P.doStep s t x h).hDone) = (P.doStep s t x h).x
  estimate : ∀ t x, 0 < P.estimate t x

/-- The event function along a curve. -/
def along (sys : Sys X) (i : ℕ) (φ : ℝ → X) (u : ℝ) : ℝ := sys.g i u (φ u)

/-- The time `u` is a zero of `γ` in `[a, b)`, up to the tolerance: the value is within the tolerance, or the sign changes between `u`
and a later point `c` of the interval, closer than the tolerance or than `0.9 ^ 100` of the interval. -/
def Located (tol a b : ℝ) (γ : ℝ → ℝ) (u : ℝ) : Prop :=
  a ≤ u ∧ u < b ∧ (|γ u| < tol ∨ ∃ c, u < c ∧ c ≤ b ∧ γ u * γ c < 0 ∧ (c - u < tol ∨ c - u ≤ (9 / 10) ^ 100 * (b - a)))

/-- The sign of `γ` changes from `a` to `b`, in the direction `d`. -/
def Changes (γ : ℝ → ℝ) (a b : ℝ) (d : Dir) : Prop := (d = .inc ∧ γ a < 0 ∧ 0 < γ b) ∨ (d = .dec ∧ 0 < γ a ∧ γ b < 0)

/-- No event function changes sign from `a` to `b` in a direction asked for. -/
def Quiet (sys : Sys X) (φ : ℝ → X) (a b : ℝ) : Prop :=
  ∀ i < sys.m, ∀ d, Changes (along sys i φ) a b d → ¬ (sys.dir i = .both ∨ sys.dir i = d)

/-- The event of a step from `a` to `b` with dense output `φ`: its function changes sign in the direction recorded, which is one asked
for; its time is located in the step, not after that of any other such change; and its state and value are those there. -/
def Earliest (sys : Sys X) (tol : ℝ) (φ : ℝ → X) (a b : ℝ) (e : Event X) : Prop :=
  e.index < sys.m ∧ (sys.dir e.index = .both ∨ sys.dir e.index = e.dir) ∧ Changes (along sys e.index φ) a b e.dir ∧
  Located tol a b (along sys e.index φ) e.time ∧ e.state = φ e.time ∧ e.value = along sys e.index φ e.time ∧
  ∀ j < sys.m, ∀ d, Changes (along sys j φ) a b d → (sys.dir j = .both ∨ sys.dir j = d) →
    ∃ v, Located tol a b (along sys j φ) v ∧ e.time ≤ v

/-- `(a, x)` is followed by an accepted step, to `b` and `y`, with dense output `φ`. -/
def Accepts (P : Stepper S X) (a : ℝ) (x : X) (φ : ℝ → X) (b : ℝ) (y : X) : Prop :=
  ∃ (s : S) (h : ℝ), 0 < h ∧ (P.doStep s a x h).accepted = true ∧ φ = (P.doStep s a x h).interp ∧ b = a + (P.doStep s a x h).hDone ∧
    y = (P.doStep s a x h).x

/-- The course of an integration, with the events on the way: quiet steps; steps with an event after which the integration goes on as
if there had been none; and events from which it starts again, at the time of the event with the state the handler gives. -/
inductive Run (sys : Sys X) (P : Stepper S X) (tol : ℝ) (p0 : ℝ × X) : List (Event X) → ℝ × X → Prop
  | start : Run sys P tol p0 [] p0
  | quiet (es : List (Event X)) (a b : ℝ) (x y : X) (φ : ℝ → X) (h : Run sys P tol p0 es (a, x)) (ha : Accepts P a x φ b y)
      (hq : Quiet sys φ a b) : Run sys P tol p0 es (b, y)
  | cont (es : List (Event X)) (a b : ℝ) (x y : X) (φ : ℝ → X) (e : Event X) (h : Run sys P tol p0 es (a, x)) (ha : Accepts P a x φ b y)
      (he : Earliest sys tol φ a b e) (hc : sys.act e.index = .cont) : Run sys P tol p0 (es ++ [e]) (b, y)
  | restart (es : List (Event X)) (a b : ℝ) (x y : X) (φ : ℝ → X) (e : Event X) (h : Run sys P tol p0 es (a, x)) (ha : Accepts P a x φ b y)
      (he : Earliest sys tol φ a b e) (hc : sys.act e.index = .restart) :
      Run sys P tol p0 (es ++ [e]) (e.time, sys.handle e.index e.time e.state)

/-! ## The search -/

theorem clampMid_mem {l : Loc} (h : l.lo < l.hi) (t : ℝ) :
    l.lo + 1 / 10 * (l.hi - l.lo) ≤ clampMid l t ∧ clampMid l t ≤ l.hi - 1 / 10 * (l.hi - l.lo) := by
  unfold clampMid
  refine ⟨le_max_left _ _, max_le (by linarith) (min_le_left _ _)⟩

theorem locLoop_spec {tol : ℝ} (ht : 0 < tol) (γ : ℝ → ℝ) (a b : ℝ) (k : ℕ) (l : Loc) (h1 : a ≤ l.lo) (h2 : l.lo < l.hi) (h3 : l.hi ≤ b)
    (e1 : l.glo = γ l.lo) (e2 : l.ghi = γ l.hi) (hs : l.glo * l.ghi < 0) :
    ∃ u, locLoop tol γ k l = .ret u ∧ a ≤ u ∧ u < b ∧
      (|γ u| < tol ∨ ∃ c, u < c ∧ c ≤ b ∧ γ u * γ c < 0 ∧ (c - u < tol ∨ c - u ≤ (9 / 10) ^ k * (l.hi - l.lo))) := by
  induction k generalizing l with
  | zero =>
    exact ⟨_, rfl, h1, by linarith, Or.inr ⟨l.hi, h2, h3, by rw [← e1, ← e2]; exact hs, Or.inr (by simp)⟩⟩
  | succ k ih =>
    unfold locLoop
    by_cases c1 : l.hi - l.lo < tol
    · rw [if_pos c1]
      exact ⟨_, rfl, h1, by linarith, Or.inr ⟨l.hi, h2, h3, by rw [← e1, ← e2]; exact hs, Or.inl c1⟩⟩
    · rw [if_neg c1]
      have hne : l.ghi - l.glo ≠ 0 := by
        intro h
        have : l.ghi = l.glo := by linarith
        rw [this] at hs
        nlinarith [mul_self_nonneg l.glo]
      have hq : Interp.fdiv (l.glo * (l.hi - l.lo)) (l.ghi - l.glo) = .ret (l.glo * (l.hi - l.lo) / (l.ghi - l.glo)) := by
        unfold Interp.fdiv
        rw [if_neg hne]
      rw [hq, Outcome.bind_ret]
      set t := l.lo - l.glo * (l.hi - l.lo) / (l.ghi - l.glo)
      obtain ⟨m1, m2⟩ := clampMid_mem h2 t
      set tm := clampMid l t
      by_cases c2 : |γ tm| < tol
      · rw [if_pos c2]
        exact ⟨_, rfl, by linarith, by linarith, Or.inl c2⟩
      · rw [if_neg c2]
        have hg0 : γ tm ≠ 0 := by
          intro h
          rw [h, abs_zero] at c2
          exact c2 ht
        have hpow : (9 / 10 : ℝ) ^ (k + 1) = (9 / 10) ^ k * (9 / 10) := pow_succ _ _
        have hp : (0 : ℝ) ≤ (9 / 10) ^ k := by positivity
        by_cases c3 : l.glo * γ tm < 0
        · rw [if_pos c3]
          obtain ⟨u, r1, r2, r3, r4⟩ := ih ⟨l.lo, tm, l.glo, γ tm⟩ h1 (by simp only; linarith) (by simp only; linarith) e1 rfl c3
          refine ⟨u, r1, r2, r3, r4.imp_right ?_⟩
          rintro ⟨c, k1, k2, k3, k4⟩
          refine ⟨c, k1, k2, k3, k4.imp_right fun h => h.trans ?_⟩
          rw [hpow, mul_assoc]
          refine mul_le_mul_of_nonneg_left ?_ hp
          simp only
          linarith
        · rw [if_neg c3]
          have hs' : γ tm * l.ghi < 0 := by
            rcases mul_neg_iff.1 hs with ⟨p1, p2⟩ | ⟨p1, p2⟩
            · refine mul_neg_of_pos_of_neg (lt_of_le_of_ne ?_ (Ne.symm hg0)) p2
              by_contra hc
              exact c3 (mul_neg_of_pos_of_neg p1 (not_le.1 hc))
            · refine mul_neg_of_neg_of_pos (lt_of_le_of_ne ?_ hg0) p2
              by_contra hc
              exact c3 (mul_neg_of_neg_of_pos p1 (not_le.1 hc))
          obtain ⟨u, r1, r2, r3, r4⟩ := ih ⟨tm, l.hi, γ tm, l.ghi⟩ (by simp only; linarith) (by simp only; linarith) h3 rfl e2 hs'
          refine ⟨u, r1, r2, r3, r4.imp_right ?_⟩
          rintro ⟨c, k1, k2, k3, k4⟩
          refine ⟨c, k1, k2, k3, k4.imp_right fun h => h.trans ?_⟩
          rw [hpow, mul_assoc]
          refine mul_le_mul_of_nonneg_left ?_ hp
          simp only
          linarith

/-- **The search for the event time** always ends with a time in the step at which the event function vanishes up to the tolerance,
or at which it changes sign. -/
theorem locate_spec {tol a b : ℝ} (ht : 0 < tol) (hab : a < b) (γ : ℝ → ℝ) (hs : γ a * γ b < 0) :
    ∃ u, locLoop tol γ 100 ⟨a, b, γ a, γ b⟩ = .ret u ∧ Located tol a b γ u := by
  obtain ⟨u, h1, h2, h3, h4⟩ := locLoop_spec ht γ a b 100 ⟨a, b, γ a, γ b⟩ (le_refl _) hab (le_refl _) rfl rfl hs
  exact ⟨u, h1, h2, h3, h4⟩

/-! ## Detection -/

theorem actual_changes {γ : ℝ → ℝ} {a b : ℝ} (h : γ a * γ b < 0) : Changes γ a b (actual (γ a) (γ b)) := by
  unfold actual Changes
  rcases mul_neg_iff.1 h with ⟨h1, h2⟩ | ⟨h1, h2⟩
  · rw [if_neg (by intro h; linarith [h.1])]
    exact Or.inr ⟨rfl, h1, h2⟩
  · rw [if_pos ⟨h1, h2⟩]
    exact Or.inl ⟨rfl, h1, h2⟩

theorem crossing_iff {γ : ℝ → ℝ} {a b : ℝ} {want : Dir} :
    Crossing want (γ a) (γ b) ↔ ∃ d, Changes γ a b d ∧ (want = .both ∨ want = d) := by
  constructor
  · rintro ⟨h1, h2⟩
    exact ⟨_, actual_changes h1, h2⟩
  · rintro ⟨d, h1, h2⟩
    have hneg : γ a * γ b < 0 := by
      rcases h1 with ⟨-, h3, h4⟩ | ⟨-, h3, h4⟩
      · exact mul_neg_of_neg_of_pos h3 h4
      · exact mul_neg_of_pos_of_neg h3 h4
    refine ⟨hneg, h2.imp_right fun h => h.trans ?_⟩
    rcases h1 with ⟨rfl, h3, h4⟩ | ⟨rfl, h3, h4⟩
    · unfold actual; rw [if_pos ⟨h3, h4⟩]
    · unfold actual; rw [if_neg (by intro h; linarith [h.1])]

/-- **Detection in a step** with dense output `φ` from `a` to `b`, for the first `k` event functions: it always ends.  No event is
reported exactly if no event function changes sign in a direction asked for; otherwise the event reported has the earliest located
time of all those that do. -/
theorem detect_spec (sys : Sys X) {tol a b : ℝ} (ht : 0 < tol) (hab : a < b) (φ : ℝ → X) (k : ℕ) :
    ∃ u o, detect sys tol a b (fun i => along sys i φ a) (fun i => along sys i φ b) φ k = .ret (u, o) ∧
      (o = none → u = b ∧ ∀ i < k, ∀ d, Changes (along sys i φ) a b d → ¬ (sys.dir i = .both ∨ sys.dir i = d)) ∧
      (∀ i, o = some i → i < k ∧ Located tol a b (along sys i φ) u ∧
        (∃ d, Changes (along sys i φ) a b d ∧ (sys.dir i = .both ∨ sys.dir i = d)) ∧
        ∀ j < k, ∀ d, Changes (along sys j φ) a b d → (sys.dir j = .both ∨ sys.dir j = d) →
          ∃ v, locLoop tol (along sys j φ) 100 ⟨a, b, along sys j φ a, along sys j φ b⟩ = .ret v ∧ u ≤ v) := by
  induction k with
  | zero => exact ⟨b, none, rfl, fun _ => ⟨rfl, fun i hi => by omega⟩, fun i h => by cases h⟩
  | succ k ih =>
    obtain ⟨u, o, h1, h2, h3⟩ := ih
    unfold detect
    rw [h1, Outcome.bind_ret]
    by_cases hc : Crossing (sys.dir k) (along sys k φ a) (along sys k φ b)
    · rw [if_pos hc]
      obtain ⟨v, hv, hl⟩ := locate_spec ht hab (along sys k φ) hc.1
      have hv' : locLoop tol (fun u => sys.g k u (φ u)) 100 ⟨a, b, along sys k φ a, along sys k φ b⟩ = .ret v := hv
      rw [hv', Outcome.bind_ret]
      have hdk := crossing_iff.1 hc
      by_cases hvu : v < u
      · rw [if_pos hvu]
        refine ⟨v, some k, rfl, (fun h => by cases h), fun i hi => ?_⟩
        have hik : k = i := Option.some.inj hi
        subst hik
        refine ⟨by omega, hl, hdk, fun j hj d hd hw => ?_⟩
        by_cases hjk : j < k
        · cases ho : o with
          | none => exact absurd hw ((h2 ho).2 j hjk d hd)
          | some i0 =>
            obtain ⟨w, w1, w2⟩ := (h3 i0 ho).2.2.2 j hjk d hd hw
            exact ⟨w, w1, by linarith⟩
        · have : j = k := by omega
          subst this
          exact ⟨v, hv, le_refl _⟩
      · rw [if_neg hvu]
        refine ⟨u, o, rfl, fun ho => ?_, fun i hi => ?_⟩
        · exfalso
          have := (h2 ho).1
          exact hvu (by rw [this]; exact hl.2.1)
        · obtain ⟨g1, g2, g3, g4⟩ := h3 i hi
          refine ⟨by omega, g2, g3, fun j hj d hd hw => ?_⟩
          by_cases hjk : j < k
          · exact g4 j hjk d hd hw
          · have : j = k := by omega
            subst this
            exact ⟨v, hv, not_lt.1 hvu⟩
    · rw [if_neg hc]
      refine ⟨u, o, rfl, fun ho => ⟨(h2 ho).1, fun i hi d hd hw => ?_⟩, fun i hi => ?_⟩
      · by_cases hik : i < k
        · exact (h2 ho).2 i hik d hd hw
        · have : i = k := by omega
          subst this
          exact hc (crossing_iff.2 ⟨d, hd, hw⟩)
      · obtain ⟨g1, g2, g3, g4⟩ := h3 i hi
        refine ⟨by omega, g2, g3, fun j hj d hd hw => ?_⟩
        by_cases hjk : j < k
        · exact g4 j hjk d hd hw
        · have : j = k := by omega
          subst this
          exact absurd (crossing_iff.2 ⟨d, hd, hw⟩) hc

/-- Not vacuous: a line through zero. -/
example : ∃ u, locLoop (1 / 10) (fun t => t - 1 / 3) 100 ⟨0, 1, -1 / 3, 2 / 3⟩ = .ret u ∧ Located (1 / 10) 0 1 (fun t => t - 1 / 3) u := by
  have := locate_spec (tol := 1 / 10) (a := 0) (b := 1) (by norm_num) (by norm_num) (fun t => t - 1 / 3) (by norm_num)
  norm_num at this ⊢
  exact this

/-! ## The output -/

/-- The entries written: increasing times before the next output time, none after `T`, not more than `N`, the first being the start. -/
structure OutOk (t0 : ℝ) (x0 : X) (dt T : ℝ) (N : ℤ) (o : List (ℝ × X) × ℝ) : Prop where
  first : o.1.head? = some (t0, x0)
  sorted : o.1.Pairwise (fun p q => p.1 < q.1)
  next : ∀ p ∈ o.1, p.1 < o.2
  upto : ∀ p ∈ o.1, p.1 ≤ T
  grid : ∃ j : ℕ, o.2 = t0 + j * dt
  entries : ∀ p ∈ o.1, ∃ j : ℕ, p.1 = t0 + j * dt
  size : (o.1.length : ℤ) ≤ N

theorem outStep_ok {t0 : ℝ} {x0 : X} {dt T : ℝ} {N : ℤ} (hdt : 0 < dt) {φ : ℝ → X} {o o' : List (ℝ × X) × ℝ}
    (h : OutOk t0 x0 dt T N o) (hs : outStep φ dt T N o = some o') : OutOk t0 x0 dt T N o' := by
  unfold outStep at hs
  split at hs
  · next hc =>
    have ho := Option.some.inj hs
    obtain ⟨j, hj⟩ := h.grid
    have hgrid : ∃ j : ℕ, o.2 + dt = t0 + j * dt := ⟨j + 1, by rw [hj]; push_cast; ring⟩
    by_cases hT : o.2 ≤ T
    · rw [if_pos hT] at ho
      rw [← ho]
      refine ⟨?_, ?_, ?_, ?_, hgrid, ?_, ?_⟩
      · simp only
        rw [List.head?_append, h.first]
        rfl
      · simp only
        rw [List.pairwise_append]
        refine ⟨h.sorted, List.pairwise_singleton _ _, fun p hp q hq => ?_⟩
        rw [List.mem_singleton.1 hq]
        exact h.next p hp
      · intro p hp
        rcases List.mem_append.1 hp with hp | hp
        · have := h.next p hp; simp only; linarith
        · rw [List.mem_singleton.1 hp]; simp only; linarith
      · intro p hp
        rcases List.mem_append.1 hp with hp | hp
        · exact h.upto p hp
        · rw [List.mem_singleton.1 hp]; exact hT
      · intro p hp
        rcases List.mem_append.1 hp with hp | hp
        · exact h.entries p hp
        · rw [List.mem_singleton.1 hp]; exact ⟨j, hj⟩
      · simp only [List.length_append, List.length_singleton]
        push_cast
        linarith [hc.2]
    · rw [if_neg hT] at ho
      rw [← ho]
      exact ⟨h.first, h.sorted, fun p hp => by have := h.next p hp; simp only; linarith, h.upto, hgrid, h.entries, h.size⟩
  · cases hs

theorem output_spec {t0 : ℝ} {x0 : X} {dt T : ℝ} {N : ℤ} (hdt : 0 < dt) (φ : ℝ → X) (o : List (ℝ × X) × ℝ)
    (h : OutOk t0 x0 dt T N o) : ∃ o', whileLoop (outStep φ dt T N) o = .ret o' ∧ OutOk t0 x0 dt T N o' := by
  have key : ∀ (n : ℕ) (o : List (ℝ × X) × ℝ), T + epsR - o.2 < n * dt → ∃ o', whileFuel (outStep φ dt T N) (n + 1) o = some o' := by
    intro n
    induction n with
    | zero =>
      intro o ho
      refine ⟨o, ?_⟩
      rw [whileFuel]
      have : outStep φ dt T N o = none := by
        unfold outStep
        rw [if_neg (by rintro ⟨h, -⟩; simp at ho; linarith)]
      rw [this]
    | succ n ih =>
      intro o ho
      rw [whileFuel]
      cases hs : outStep φ dt T N o with
      | none => exact ⟨o, rfl⟩
      | some o' =>
        refine ih o' ?_
        unfold outStep at hs
        split at hs
        · rw [← Option.some.inj hs]
          push_cast at ho
          simp only
          linarith
        · cases hs
  obtain ⟨n, hn⟩ := exists_nat_gt ((T + epsR - o.2) / dt)
  rw [div_lt_iff₀ hdt] at hn
  obtain ⟨o', ho'⟩ := key n o hn
  have hw := whileLoop_eq ho'
  exact ⟨o', hw, (whileLoop_inv (OutOk t0 x0 dt T N) (fun s s' hs hst => outStep_ok hdt hs hst) h hw).1⟩

theorem OutOk.mono {t0 : ℝ} {x0 : X} {dt T T' : ℝ} {N : ℤ} {o : List (ℝ × X) × ℝ} (h : OutOk t0 x0 dt T N o) (hT : T ≤ T') :
    OutOk t0 x0 dt T' N o := ⟨h.first, h.sorted, h.next, fun p hp => (h.upto p hp).trans hT, h.grid, h.entries, h.size⟩

/-! ## The main loop -/

/-- The invariant of the main loop. -/
structure Inv (sys : Sys X) (P : Stepper S X) (x0 : X) (t0 tEnd dt tol : ℝ) (N : ℤ) (s : Vars S X) : Prop where
  lower : t0 ≤ s.t
  upper : s.t ≤ tEnd
  h : 0 < s.h
  g : s.gPrev = fun i => sys.g i s.t s.x
  out : OutOk t0 x0 dt s.t N (s.outs, s.tNext)
  order : s.events.Pairwise (fun e f => e.time ≤ f.time)
  past : ∀ e ∈ s.events, e.time ≤ s.t
  run : Run sys P tol (t0, x0) s.events (s.t, s.x)

/-- What is claimed of a result. -/
structure Good (sys : Sys X) (P : Stepper S X) (x0 : X) (t0 tEnd dt tol : ℝ) (N : ℤ) (r : Result X) : Prop where
  /-- the events are in chronological order -/
  order : r.events.Pairwise (fun e f => e.time ≤ f.time)
  /-- the first event that asks for it stops the integration, at its time and state -/
  stopped : r.terminated = true → ∃ es e a x φ b y, r.events = es ++ [e] ∧ Run sys P tol (t0, x0) es (a, x) ∧ Accepts P a x φ b y ∧
    Earliest sys tol φ a b e ∧ sys.act e.index = .stop ∧ r.finalTime = e.time ∧ r.finalState = e.state ∧ t0 ≤ e.time ∧ e.time < tEnd
  /-- without one the end is reached -/
  ended : r.terminated = false → Run sys P tol (t0, x0) r.events (r.finalTime, r.finalState) ∧ tEnd - epsR ≤ r.finalTime ∧ r.finalTime ≤ tEnd
  /-- the entries of the solution start with the initial point, their times do not decrease, and there are not more than `N` -/
  first : r.outs.head? = some (t0, x0)
  sorted : r.outs.Pairwise (fun p q => p.1 ≤ q.1)
  size : (r.outs.length : ℤ) ≤ N

theorem record_earliest (sys : Sys X) {tol a b : ℝ} (φ : ℝ → X) {i : ℕ} {u : ℝ} (ht : 0 < tol) (hab : a < b) (hi : i < sys.m)
    (hl : Located tol a b (along sys i φ) u) (hd : ∃ d, Changes (along sys i φ) a b d ∧ (sys.dir i = .both ∨ sys.dir i = d))
    (hj : ∀ j < sys.m, ∀ d, Changes (along sys j φ) a b d → (sys.dir j = .both ∨ sys.dir j = d) →
      ∃ v, locLoop tol (along sys j φ) 100 ⟨a, b, along sys j φ a, along sys j φ b⟩ = .ret v ∧ u ≤ v) :
    Earliest sys tol φ a b (record sys (fun i => along sys i φ a) (fun i => along sys i φ b) φ i u) := by
  obtain ⟨d, h1, h2⟩ := hd
  have hdir : (if along sys i φ a < along sys i φ b then Dir.inc else Dir.dec) = d := by
    rcases h1 with ⟨rfl, h3, h4⟩ | ⟨rfl, h3, h4⟩
    · rw [if_pos (by linarith)]
    · rw [if_neg (by linarith)]
  unfold record
  rw [hdir]
  refine ⟨hi, h2, h1, hl, rfl, rfl, fun j hjm d' hd' hw => ?_⟩
  obtain ⟨v, v1, v2⟩ := hj j hjm d' hd' hw
  have hneg : along sys j φ a * along sys j φ b < 0 := (crossing_iff.2 ⟨d', hd', hw⟩).1
  obtain ⟨w, w1, w2⟩ := locate_spec ht hab (along sys j φ) hneg
  rw [v1] at w1
  injection w1 with w1
  subst w1
  exact ⟨v, w2, v2⟩

theorem epsR_pos : (0 : ℝ) < epsR := by unfold epsR; positivity

theorem accepted_spec (sys : Sys X) {P : Stepper S X} (hP : Fair P) {x0 : X} {t0 tEnd dt tol : ℝ} {N : ℤ} (hdt : 0 < dt) (ht : 0 < tol)
    {s : Vars S X} (hs : Inv sys P x0 t0 tEnd dt tol N s) (hlt : s.t < tEnd - epsR)
    (ha : (P.doStep s.st s.t s.x (tryStep tEnd s)).accepted = true) :
    accepted sys P tEnd dt tol N s (P.doStep s.st s.t s.x (tryStep tEnd s)) = .exn (.mml "ODESolverError") ∨
    (∃ s', accepted sys P tEnd dt tol N s (P.doStep s.st s.t s.x (tryStep tEnd s)) = .ret (.inl s') ∧ Inv sys P x0 t0 tEnd dt tol N s') ∨
    (∃ r, accepted sys P tEnd dt tol N s (P.doStep s.st s.t s.x (tryStep tEnd s)) = .ret (.inr r) ∧ r.terminated = true ∧
      Good sys P x0 t0 tEnd dt tol N r) := by
  have heps := epsR_pos
  have hh : 0 < tryStep tEnd s ∧ s.t + tryStep tEnd s ≤ tEnd := by
    unfold tryStep
    split
    · exact ⟨by linarith, by linarith⟩
    · next h => exact ⟨hs.h, not_lt.1 h⟩
  set r := P.doStep s.st s.t s.x (tryStep tEnd s) with hr
  obtain ⟨d1, d2⟩ := hP.done s.st s.t s.x _ hh.1 ha
  have i1 := hP.left s.st s.t s.x _ hh.1 ha
  have i2 := hP.right s.st s.t s.x _ hh.1 ha
  rw [← hr] at d1 d2 i1 i2
  set b := s.t + r.hDone with hb
  have hbE : b ≤ tEnd := by linarith
  have hab : s.t < b := by linarith
  have gp : s.gPrev = fun i => along sys i r.interp s.t := by
    rw [hs.g]; funext i; rw [along, i1]
  have gn : (fun i => sys.g i b r.x) = fun i => along sys i r.interp b := by
    funext i; rw [along, i2]
  have hacc : Accepts P s.t s.x r.interp b r.x := ⟨s.st, tryStep tEnd s, hh.1, ha, rfl, rfl, rfl⟩
  -- the normal end of a step
  have adv : ∀ outs tNext events, OutOk t0 x0 dt b N (outs, tNext) → events.Pairwise (fun e f => e.time ≤ f.time) →
      (∀ e ∈ events, e.time ≤ b) → Run sys P tol (t0, x0) events (b, r.x) →
      advance dt N s r (fun i => sys.g i b r.x) outs tNext events = .exn (.mml "ODESolverError") ∨
      ∃ s', advance dt N s r (fun i => sys.g i b r.x) outs tNext events = .ret (.inl s') ∧ Inv sys P x0 t0 tEnd dt tol N s' := by
    intro outs tNext events o1 o2 o3 o4
    obtain ⟨o', w1, w2⟩ := output_spec hdt r.interp (outs, tNext) o1
    unfold advance
    rw [← hb, w1, Outcome.bind_ret]
    by_cases hn : r.hNext < epsR
    · rw [if_pos hn]; exact Or.inl rfl
    · rw [if_neg hn]
      refine Or.inr ⟨_, rfl, by simp only; linarith [hs.lower], hbE, by simp only; linarith [not_lt.1 hn], rfl, w2, o2, o3, o4⟩
  obtain ⟨u, o, hdet, hnone, hsome⟩ := detect_spec sys ht hab r.interp sys.m
  unfold accepted
  simp only [← hb]
  rw [gp, gn, hdet, Outcome.bind_ret]
  cases o with
  | none =>
    simp only
    rw [← gn]
    rcases adv s.outs s.tNext s.events (hs.out.mono hab.le) hs.order (fun e he => (hs.past e he).trans hab.le)
      (Run.quiet _ _ _ _ _ _ hs.run hacc (hnone rfl).2) with h | h
    · exact Or.inl h
    · exact Or.inr (Or.inl h)
  | some i =>
    obtain ⟨g1, g2, g3, g4⟩ := hsome i rfl
    simp only
    have hgen := record_earliest sys r.interp ht hab g1 g2 g3 g4
    set e := record sys (fun i => along sys i r.interp s.t) (fun i => along sys i r.interp b) r.interp i u with he
    have eu : e.time = u := rfl
    have ei : e.index = i := rfl
    have es : e.state = r.interp u := rfl
    obtain ⟨o', w1, w2⟩ := output_spec hdt r.interp (s.outs, s.tNext) (hs.out.mono g2.1)
    rw [w1, Outcome.bind_ret]
    have horder : (s.events ++ [e]).Pairwise (fun e f => e.time ≤ f.time) := by
      rw [List.pairwise_append]
      refine ⟨hs.order, List.pairwise_singleton _ _, fun f hf q hq => ?_⟩
      rw [List.mem_singleton.1 hq, eu]
      exact (hs.past f hf).trans g2.1
    have hpast : ∀ f ∈ s.events ++ [e], f.time ≤ u := by
      intro f hf
      rcases List.mem_append.1 hf with hf | hf
      · exact (hs.past f hf).trans g2.1
      · rw [List.mem_singleton.1 hf, eu]
    have hub : u < b := g2.2.1
    cases hact : sys.act i with
    | stop =>
      simp only
      refine Or.inr (Or.inr ⟨_, rfl, rfl, horder, fun _ => ⟨s.events, e, s.t, s.x, r.interp, b, r.x, rfl, hs.run, hacc, hgen, hact, rfl, rfl, ?_, ?_⟩,
        (fun h => by cases h), w2.first, w2.sorted.imp (fun h => h.le), w2.size⟩)
      · rw [eu]; linarith [hs.lower, g2.1]
      · rw [eu]; linarith
    | restart =>
      simp only
      refine Or.inr (Or.inl ⟨_, rfl, ?_⟩)
      refine ⟨?_, ?_, ?_, rfl, w2, horder, hpast, Run.restart _ _ _ _ _ _ _ hs.run hacc hgen hact⟩
      · show t0 ≤ u
        linarith [hs.lower, g2.1]
      · show u ≤ tEnd
        linarith
      · show 0 < min (P.estimate _ _) (tEnd - u)
        exact lt_min (hP.estimate _ _) (by linarith)
    | cont =>
      simp only
      rw [← gn]
      rcases adv o'.1 o'.2 (s.events ++ [e]) (w2.mono hub.le) horder (fun f hf => (hpast f hf).trans hub.le)
        (Run.cont _ _ _ _ _ _ _ hs.run hacc hgen hact) with h | h
      · exact Or.inl h
      · exact Or.inr (Or.inl h)

theorem body_spec (sys : Sys X) {P : Stepper S X} (hP : Fair P) {x0 : X} {t0 tEnd dt tol : ℝ} {N : ℤ} (hdt : 0 < dt) (ht : 0 < tol)
    {s : Vars S X} (hs : Inv sys P x0 t0 tEnd dt tol N s) (hlt : s.t < tEnd - epsR) :
    body sys P tEnd dt tol N s = .exn (.mml "ODESolverError") ∨
    (∃ s', body sys P tEnd dt tol N s = .ret (.inl s') ∧ Inv sys P x0 t0 tEnd dt tol N s') ∨
    (∃ r, body sys P tEnd dt tol N s = .ret (.inr r) ∧ r.terminated = true ∧ Good sys P x0 t0 tEnd dt tol N r) := by
  unfold body
  simp only
  by_cases ha : (P.doStep s.st s.t s.x (tryStep tEnd s)).accepted = true
  · rw [if_pos ha]
    exact accepted_spec sys hP hdt ht hs hlt ha
  · rw [if_neg ha]
    by_cases hn : (P.doStep s.st s.t s.x (tryStep tEnd s)).hNext < epsR
    · rw [if_pos hn]; exact Or.inl rfl
    · rw [if_neg hn]
      refine Or.inr (Or.inl ⟨_, rfl, ?_⟩)
      have := epsR_pos
      exact ⟨hs.lower, hs.upper, by simp only; linarith [not_lt.1 hn], hs.g, hs.out, hs.order, hs.past, hs.run⟩

theorem loop_spec (sys : Sys X) {P : Stepper S X} (hP : Fair P) {x0 : X} {t0 tEnd dt tol : ℝ} {N : ℤ} (hdt : 0 < dt) (ht : 0 < tol)
    (k : ℕ) {s : Vars S X} (hs : Inv sys P x0 t0 tEnd dt tol N s) :
    loop sys P tEnd dt tol N k s = .ub ∨ loop sys P tEnd dt tol N k s = .exn (.mml "ODESolverError") ∨
    ∃ r, loop sys P tEnd dt tol N k s = .ret r ∧ Good sys P x0 t0 tEnd dt tol N r := by
  induction k generalizing s with
  | zero => exact Or.inl rfl
  | succ k ih =>
    unfold loop
    by_cases hlt : s.t < tEnd - epsR
    · rw [if_pos hlt]
      rcases body_spec sys hP hdt ht hs hlt with h | ⟨s', h, hs'⟩ | ⟨r, h, -, hr⟩
      · rw [h]; exact Or.inr (Or.inl rfl)
      · rw [h, Outcome.bind_ret]; exact ih hs'
      · rw [h, Outcome.bind_ret]; exact Or.inr (Or.inr ⟨r, rfl, hr⟩)
    · rw [if_neg hlt]
      refine Or.inr (Or.inr ⟨_, rfl, hs.order, (fun h => by cases h), fun _ => ⟨hs.run, not_lt.1 hlt, hs.upper⟩, ?_, ?_, ?_⟩)
      · unfold finish
        simp only
        split
        · rw [List.head?_append, hs.out.first]; rfl
        · exact hs.out.first
      · unfold finish
        simp only
        split
        · rw [List.pairwise_append]
          refine ⟨hs.out.sorted.imp (fun h => h.le), List.pairwise_singleton _ _, fun p hp q hq => ?_⟩
          rw [List.mem_singleton.1 hq]
          exact (hs.out.upto p hp).trans hs.upper
        · exact hs.out.sorted.imp (fun h => h.le)
      · unfold finish
        simp only
        split
        · next h => rw [List.length_append, List.length_singleton]; push_cast; linarith
        · exact hs.out.size

/-- **Integration with events**, for every fair stepper, system, start, interval, output spacing, tolerance and first step, and
whatever the number of passes allowed: it throws that the step is too small, does not come to an end in these passes, or returns
its events in chronological order, these being the events of a course of accepted steps in which no step has a sign change asked
for without an event, ended by the first event that asks for it, or at the end of the interval; and solution entries in order, not
more than there is room for. -/
theorem integrate_spec (sys : Sys X) {P : Stepper S X} (hP : Fair P) (st : S) (x0 : X) {t0 tEnd dt tol : ℝ} (h0 : ℝ) (hT : t0 < tEnd)
    (hdt : 0 < dt) (ht : 0 < tol) (k : ℕ) :
    integrate sys P st x0 t0 tEnd dt tol h0 k = .ub ∨ integrate sys P st x0 t0 tEnd dt tol h0 k = .exn (.mml "ODESolverError") ∨
    ∃ r, integrate sys P st x0 t0 tEnd dt tol h0 k = .ret r ∧ Good sys P x0 t0 tEnd dt tol (⌈(tEnd - t0) / dt⌉ + 1) r := by
  have hq : Interp.fdiv (tEnd - t0) dt = .ret ((tEnd - t0) / dt) := by
    unfold Interp.fdiv
    rw [if_neg hdt.ne']
  unfold integrate
  rw [hq, Outcome.bind_ret]
  refine loop_spec sys hP hdt ht k ?_
  have hN : 1 ≤ ⌈(tEnd - t0) / dt⌉ := by
    rw [Int.one_le_ceil_iff]
    exact div_pos (by linarith) hdt
  refine ⟨le_refl _, hT.le, ?_, rfl, ⟨rfl, List.pairwise_singleton _ _, ?_, ?_, ⟨1, by simp [init]⟩, ?_, ?_⟩, List.Pairwise.nil, ?_, Run.start⟩
  · show 0 < min _ _
    refine lt_min ?_ (by linarith)
    split
    · assumption
    · exact hP.estimate _ _
  · intro p hp
    rw [List.mem_singleton.1 hp]
    show t0 < t0 + dt
    linarith
  · intro p hp
    rw [List.mem_singleton.1 hp]
    exact le_refl _
  · intro p hp
    rw [List.mem_singleton.1 hp]
    exact ⟨0, by simp⟩
  · show ((1 : ℕ) : ℤ) ≤ _
    push_cast
    linarith
  · intro e he; cases he

/-! ## What is missed -/

/-- The exact integrator of `x' = 1`, which accepts every step as a whole. -/
noncomputable def ramp : Stepper Unit ℝ :=
  ⟨fun _ t x h => ⟨true, h, h, x + h, fun u => x + (u - t), ()⟩, fun _ _ _ => (), fun _ _ => 1⟩

/-- Not vacuous: it is fair. -/
theorem ramp_fair : Fair ramp :=
  ⟨fun _ _ _ h hp _ => ⟨hp, le_refl h⟩, fun _ t x h _ _ => by simp [ramp], fun _ t x h _ _ => by simp [ramp], fun _ _ => one_pos⟩

/-- Not vacuous: the hypotheses are met by the ramp, with an event at `x = 1/3`. -/
example : ∃ sys : Sys ℝ, sys.m = 1 ∧ ∀ k, integrate sys ramp () 0 0 1 1 (1 / 10) 1 k = .ub ∨
    integrate sys ramp () 0 0 1 1 (1 / 10) 1 k = .exn (.mml "ODESolverError") ∨
    ∃ r, integrate sys ramp () 0 0 1 1 (1 / 10) 1 k = .ret r ∧ Good sys ramp 0 0 1 1 (1 / 10) (⌈((1 : ℝ) - 0) / 1⌉ + 1) r :=
  ⟨⟨1, fun _ _ x => x - 1 / 3, fun _ => .both, fun _ => .cont, fun _ _ x => x⟩, rfl, fun k =>
    integrate_spec _ ramp_fair () 0 1 (by norm_num) (by norm_num) (by norm_num) k⟩

theorem epsR_lt : epsR < 1 / 2 := by unfold epsR; norm_num

/-- A pass in which the ramp meets no event ends with the step. -/
theorem ramp_quiet (sys : Sys ℝ) {tEnd dt tol : ℝ} {N : ℤ} (hdt : 0 < dt) (ht : 0 < tol) {s : Vars Unit ℝ}
    (hs : Inv sys ramp 0 0 tEnd dt tol N s) (hfit : s.t + s.h ≤ tEnd) (heps : epsR ≤ s.h)
    (hq : Quiet sys (fun u => s.x + (u - s.t)) s.t (s.t + s.h)) :
    ∃ o : List (ℝ × ℝ) × ℝ, body sys ramp tEnd dt tol N s =
      .ret (.inl ⟨(), s.x + s.h, s.t + s.h, s.h, fun i => sys.g i (s.t + s.h) (s.x + s.h), o.1, o.2, s.events⟩) := by
  have hpos : 0 < s.h := lt_of_lt_of_le epsR_pos heps
  have htry : tryStep tEnd s = s.h := by unfold tryStep; rw [if_neg (by linarith)]
  set φ : ℝ → ℝ := fun u => s.x + (u - s.t) with hφ
  obtain ⟨u, o, hdet, hnone, hsome⟩ := detect_spec sys ht (show s.t < s.t + s.h by linarith) φ sys.m
  have gp : s.gPrev = fun i => along sys i φ s.t := by
    rw [hs.g]; funext i; simp [along, hφ]
  have gn : (fun i => sys.g i (s.t + s.h) (s.x + s.h)) = fun i => along sys i φ (s.t + s.h) := by
    funext i; simp [along, hφ]
  have ho : o = none := by
    cases o with
    | none => rfl
    | some i =>
      obtain ⟨g1, -, ⟨d, d1, d2⟩, -⟩ := hsome i rfl
      exact absurd d2 (hq i g1 d d1)
  subst ho
  obtain ⟨o', w1, -⟩ := output_spec hdt φ (s.outs, s.tNext) (hs.out.mono (show s.t ≤ s.t + s.h by linarith))
  refine ⟨o', ?_⟩
  unfold body accepted advance
  simp only [ramp, htry, if_true]
  rw [gn, gp, hdet, Outcome.bind_ret]
  simp only
  rw [w1, Outcome.bind_ret, if_neg (not_lt.2 heps)]

theorem init_inv (sys : Sys ℝ) {tEnd dt tol h0 : ℝ} (h0p : 0 < h0) (hT : 0 < tEnd) (hdt : 0 < dt) :
    Inv sys ramp 0 0 tEnd dt tol (⌈(tEnd - 0) / dt⌉ + 1) (init sys ramp () 0 0 tEnd dt h0) := by
  have hN : 1 ≤ ⌈(tEnd - 0) / dt⌉ := by
    rw [Int.one_le_ceil_iff]
    exact div_pos (by linarith) hdt
  refine ⟨le_refl _, hT.le, ?_, rfl, ⟨rfl, List.pairwise_singleton _ _, ?_, ?_, ⟨1, by simp [init]⟩, ?_, ?_⟩, List.Pairwise.nil, ?_, Run.start⟩
  · show 0 < min _ _
    rw [if_pos h0p]
    exact lt_min h0p (by linarith)
  · intro p hp
    rw [List.mem_singleton.1 hp]
    show (0 : ℝ) < 0 + dt
    linarith
  · intro p hp
    rw [List.mem_singleton.1 hp]
    exact le_refl _
  · intro p hp
    rw [List.mem_singleton.1 hp]
    exact ⟨0, by simp⟩
  · show ((1 : ℕ) : ℤ) ≤ _
    push_cast
    linarith
  · intro e he; cases he

/-- The event at `x = 1` of the ramp. -/
noncomputable def atOne : Sys ℝ := ⟨1, fun _ _ x => x - 1, fun _ => .both, fun _ => .stop, fun _ _ x => x⟩

/-- **An event at the end of a step is missed**: from `x = 0` the ramp runs through `x = 1` up to `x = 2`, and the event at `x = 1`,
which should stop it, is not seen, for the steps end there. -/
theorem zero_at_step_end_missed : ∃ r, integrate atOne ramp () 0 0 2 2 (1 / 10) 1 3 = .ret r ∧ r.events = [] ∧ r.terminated = false ∧
    r.finalTime = 2 ∧ r.finalState = 2 ∧ atOne.g 0 0 0 < 0 ∧ 0 < atOne.g 0 2 2 := by
  have he := epsR_pos
  have he2 := epsR_lt
  have hq : Interp.fdiv ((2 : ℝ) - 0) 2 = .ret ((2 - 0) / 2) := by
    unfold Interp.fdiv
    rw [if_neg (by norm_num)]
  have i0 := init_inv atOne (tEnd := 2) (dt := 2) (tol := 1 / 10) (h0 := 1) (by norm_num) (by norm_num) (by norm_num)
  set N : ℤ := ⌈((2 : ℝ) - 0) / 2⌉ + 1 with hN
  set s0 := init atOne ramp () 0 0 2 2 1 with hs0
  have h0 : s0.h = 1 := by simp [hs0, init]
  have t0 : s0.t = 0 := rfl
  have x0 : s0.x = 0 := rfl
  have e0 : s0.events = [] := rfl
  obtain ⟨o1, b1⟩ := ramp_quiet atOne (by norm_num) (by norm_num) i0 (by rw [t0, h0]; norm_num) (by rw [h0]; linarith) (by
    rw [t0, h0, x0]
    intro i _ d hd _
    rcases hd with ⟨-, -, h⟩ | ⟨-, h, -⟩ <;> norm_num [along, atOne] at h)
  rw [t0, h0, x0, e0] at b1
  set s1 : Vars Unit ℝ := ⟨(), 0 + 1, 0 + 1, 1, fun i => atOne.g i (0 + 1) (0 + 1), o1.1, o1.2, []⟩ with hs1
  have i1 : Inv atOne ramp 0 0 2 2 (1 / 10) N s1 := by
    rcases body_spec atOne ramp_fair (by norm_num) (by norm_num) i0 (by rw [t0]; linarith) with h | ⟨s', h, hs'⟩ | ⟨r, h, -, -⟩
    · rw [b1] at h; cases h
    · rw [b1] at h
      injection h with h
      injection h with h
      rw [h]; exact hs'
    · rw [b1] at h; injection h with h; cases h
  obtain ⟨o2, b2⟩ := ramp_quiet atOne (by norm_num) (by norm_num) i1 (by norm_num [hs1]) (by simp only [hs1]; linarith) (by
    intro i _ d hd _
    rcases hd with ⟨-, h, -⟩ | ⟨-, h, -⟩ <;> norm_num [along, atOne, hs1] at h)
  refine ⟨finish 2 N ⟨(), s1.x + s1.h, s1.t + s1.h, s1.h, fun i => atOne.g i (s1.t + s1.h) (s1.x + s1.h), o2.1, o2.2, s1.events⟩, ?_, rfl, rfl, ?_, ?_,
    by norm_num [atOne], by norm_num [atOne]⟩
  · unfold integrate
    rw [hq, Outcome.bind_ret]
    rw [loop, if_pos (by rw [← hs0, t0]; linarith), ← hN, ← hs0, b1, Outcome.bind_ret]
    simp only
    rw [loop, if_pos (by norm_num; linarith), b2, Outcome.bind_ret]
    simp only
    rw [loop, if_neg (by simp only [hs1]; linarith)]
  · norm_num [finish, hs1]
  · norm_num [finish, hs1]

/-- Events at `x = 1/4` and `x = 1/2`, after both of which the integration goes on. -/
noncomputable def twoLevels : Sys ℝ := ⟨2, fun i _ x => x - (if i = 0 then 1 / 4 else 1 / 2), fun _ => .both, fun _ => .cont, fun _ _ x => x⟩

/-- **Two events in one step**: both functions change sign in the step from `0` to `1`, and only one event is recorded. -/
theorem second_event_lost : ∃ r, integrate twoLevels ramp () 0 0 1 1 (1 / 10) 1 2 = .ret r ∧ r.events.length = 1 ∧ r.finalTime = 1 ∧
    r.finalState = 1 ∧ (∀ i < 2, Changes (along twoLevels i (fun u => u)) 0 1 .inc) := by
  have he := epsR_pos
  have he2 := epsR_lt
  have hq : Interp.fdiv ((1 : ℝ) - 0) 1 = .ret ((1 - 0) / 1) := by
    unfold Interp.fdiv
    rw [if_neg (by norm_num)]
  have i0 := init_inv twoLevels (tEnd := 1) (dt := 1) (tol := 1 / 10) (h0 := 1) (by norm_num) (by norm_num) (by norm_num)
  set N : ℤ := ⌈((1 : ℝ) - 0) / 1⌉ + 1 with hN
  set s0 := init twoLevels ramp () 0 0 1 1 1 with hs0
  have h0 : s0.h = 1 := by simp [hs0, init]
  have t0 : s0.t = 0 := rfl
  have x0 : s0.x = 0 := rfl
  have e0 : s0.events = [] := rfl
  have htry : tryStep 1 s0 = 1 := by unfold tryStep; rw [if_neg (by rw [t0, h0]; norm_num), h0]
  have hch : ∀ i < 2, Changes (along twoLevels i (fun u => u)) 0 1 .inc := by
    intro i hi
    refine Or.inl ⟨rfl, ?_, ?_⟩ <;> simp only [along, twoLevels] <;> split <;> norm_num
  obtain ⟨u, o, hdet, hnone, hsome⟩ := detect_spec twoLevels (tol := 1 / 10) (by norm_num) (show (0 : ℝ) < 1 by norm_num) (fun u => u) 2
  have hphi : (fun u : ℝ => (0 : ℝ) + (u - 0)) = fun u => u := by funext u; ring
  cases o with
  | none => exact absurd (Or.inl rfl) ((hnone rfl).2 0 (by norm_num) _ (hch 0 (by norm_num)))
  | some i =>
    obtain ⟨g1, g2, -, -⟩ := hsome i rfl
    obtain ⟨o1, w1, w1'⟩ := output_spec (by norm_num) (fun u => u) (s0.outs, s0.tNext) (i0.out.mono (show s0.t ≤ u from g2.1))
    obtain ⟨o2, w2, -⟩ := output_spec (by norm_num) (fun u => u) o1 (w1'.mono g2.2.1.le)
    have hb : ∃ e, body twoLevels ramp 1 1 (1 / 10) N s0 = .ret (.inl ⟨(), 0 + 1, 0 + 1, 1, fun i => twoLevels.g i (0 + 1) (0 + 1), o2.1, o2.2, [e]⟩) := by
      refine ⟨record twoLevels s0.gPrev (fun i => twoLevels.g i (0 + 1) (0 + 1)) (fun u => u) i u, ?_⟩
      unfold body accepted advance
      simp only [ramp, htry, if_true, t0, x0, hphi, e0]
      have gp : s0.gPrev = fun i => along twoLevels i (fun u => u) 0 := by rw [i0.g, t0, x0]; rfl
      have gn : (fun i => twoLevels.g i ((0 : ℝ) + 1) ((0 : ℝ) + 1)) = fun i => along twoLevels i (fun u => u) 1 := by
        funext i; simp [along]
      have hm : twoLevels.m = 2 := rfl
      rw [gn, gp, hm, zero_add, hdet, Outcome.bind_ret]
      simp only
      rw [w1, Outcome.bind_ret]
      have hact : twoLevels.act i = .cont := rfl
      rw [hact]
      simp only
      rw [w2, Outcome.bind_ret, if_neg (by linarith)]
      rfl
    obtain ⟨e, hb⟩ := hb
    refine ⟨finish 1 N ⟨(), 0 + 1, 0 + 1, 1, fun i => twoLevels.g i (0 + 1) (0 + 1), o2.1, o2.2, [e]⟩, ?_, rfl, ?_, ?_, hch⟩
    · unfold integrate
      rw [hq, Outcome.bind_ret, loop, if_pos (by rw [← hs0, t0]; linarith), ← hN, ← hs0, hb, Outcome.bind_ret]
      simp only
      rw [loop, if_neg (by simp only; linarith)]
    · norm_num [finish]
    · norm_num [finish]

end Verif.ODE.Ev
