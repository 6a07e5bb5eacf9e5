import Verif.Deriv.Line
import Verif.Deriv.Partial

/-!
# Properties of the partial derivatives and Jacobians (C73)

The derivatives are compared with Mathlib's Fréchet derivative `fderiv`: the partial derivative by variable `i` is its value
on the unit vector `Pi.single i 1`.
-/

set_option autoImplicit false

namespace Verif.Deriv

open Verif

/-! ## Lemmas -/

theorem update_eq_line {N : ℕ} (p : Fin N → ℝ) (i : Fin N) (t : ℝ) :
    Function.update p i t = p + (t - p i) • (Pi.single i 1 : Fin N → ℝ) := by
  funext k
  by_cases h : k = i
  · subst h
    simp
  · simp [h]

theorem along_eq {N : ℕ} (f : (Fin N → ℝ) → ℝ) (p : Fin N → ℝ) (i : Fin N) :
    along f p i = fun t => some (f (p + (t - p i) • (Pi.single i 1 : Fin N → ℝ))) := by
  funext t
  rw [along, update_eq_line]

theorem norm_unit {N : ℕ} (i : Fin N) : ‖(Pi.single i 1 : Fin N → ℝ)‖ = 1 := by
  rw [Pi.norm_single, norm_one]

theorem SmoothAt.along {N : ℕ} {f : (Fin N → ℝ) → ℝ} {p : Fin N → ℝ} {r M : ℝ} {n : ℕ} (hf : SmoothAt f p r n M) (i : Fin N) :
    Smooth (along f p i) (fun t => f (p + (t - p i) • (Pi.single i 1 : Fin N → ℝ))) (p i) r n M := by
  rw [along_eq]
  have := hf.line (v := (Pi.single i 1 : Fin N → ℝ)) (c := p i) (R := r) (by rw [norm_unit, mul_one])
  rwa [norm_unit, one_pow, mul_one] at this

theorem SmoothAt.differentiableAt {N : ℕ} {f : (Fin N → ℝ) → ℝ} {p : Fin N → ℝ} {r M : ℝ} {n : ℕ} (hf : SmoothAt f p r (n + 1) M)
    (hr : 0 ≤ r) : DifferentiableAt ℝ f p :=
  (hf.diff p (by rwa [sub_self, norm_zero])).differentiableAt (by simp)

theorem SmoothAt.mono {N : ℕ} {f : (Fin N → ℝ) → ℝ} {p : Fin N → ℝ} {r r' M : ℝ} {n : ℕ} (hf : SmoothAt f p r n M) (h : r' ≤ r) :
    SmoothAt f p r' n M :=
  ⟨fun q hq => hf.diff q (hq.trans h), fun q hq => hf.bound q (hq.trans h)⟩

theorem mapAll_spec {ι α : Type} (rule : ι → Outcome α) (P : ι → α → Prop) : ∀ l : List ι,
    (∀ i ∈ l, ∃ a, rule i = .ret a ∧ P i a) → ∃ r, mapAll rule l = .ret r ∧ List.Forall₂ P l r
  | [], _ => ⟨[], rfl, .nil⟩
  | i :: l, h => by
    obtain ⟨a, h1, h2⟩ := h i (by simp)
    obtain ⟨r, h3, h4⟩ := mapAll_spec rule P l fun j hj => h j (by simp [hj])
    exact ⟨a :: r, by rw [mapAll, h1, Outcome.bind, h3]; rfl, .cons h2 h4⟩

theorem collect_spec {N : ℕ} {α : Type} (rule : Fin N → Outcome α) (P : Fin N → α → Prop)
    (h : ∀ i, ∃ a, rule i = .ret a ∧ P i a) :
    ∃ l, collect rule = .ret l ∧ ∃ hl : l.length = N, ∀ i : Fin N, P i (l[i.val]'(by rw [hl]; exact i.isLt)) := by
  obtain ⟨l, h1, h2⟩ := mapAll_spec rule P (List.finRange N) fun i _ => h i
  have hl : l.length = N := by rw [← h2.length_eq, List.length_finRange]
  refine ⟨l, h1, hl, fun i => ?_⟩
  have := h2.get (i := i.val) (by rw [List.length_finRange]; exact i.isLt) (by rw [hl]; exact i.isLt)
  simpa using this

theorem unchecked_ret {value error : Option ℝ} {h : ℝ} (hh : h ≠ 0) (w : Bool) :
    ∃ e, unchecked value error h w = .ret (value, e) := ⟨_, if_neg hh⟩

theorem fderiv_component {N M : ℕ} {f : (Fin N → ℝ) → Fin M → ℝ} {p : Fin N → ℝ} (hf : ∀ a, DifferentiableAt ℝ (fun q => f q a) p)
    (v : Fin N → ℝ) (a : Fin M) : fderiv ℝ f p v a = fderiv ℝ (fun q => f q a) p v := by
  have h := fderiv_pi (𝕜 := ℝ) (φ := fun a q => f q a) hf
  have e : (fun q a => f q a) = f := rfl
  rw [← e, h]
  rfl

/-! ## Order of accuracy -/

/-- **C73.**  `NDer1Partial` by variable `i` is the partial derivative up to `1 / 2 * M * s ^ 1`, where `s` is the step and `M`
bounds the derivative of order 2 within the points used. -/
theorem nDer1Partial_order {N : ℕ} (eps : ℝ) (f : (Fin N → ℝ) → ℝ) (i : Fin N) (p : Fin N → ℝ) (s M : ℝ) (h : Option ℝ) (w : Bool)
    (hstep : h.getD (scaleStep (nDer1H eps) (p i)) = s) (hs : 0 < s) (hf : SmoothAt f p (1 * s) 2 M) :
    ∃ v e, nDer1Partial eps f i p h w = .ret (some v, e) ∧ |v - fderiv ℝ f p (Pi.single i 1)| ≤ 1 / 2 * M * s ^ 1 := by
  rw [nDer1Partial, hstep]
  have h1 := hf.along i
  rw [nDer1_value hs h1.value]
  obtain ⟨e, he⟩ := unchecked_ret (value := some _) (error := nDer1Error eps (along f p i) (p i) s) hs.ne' w
  refine ⟨_, e, he, ?_⟩
  have h2 := nDer1_stencil _ _ s M hs (by exact_mod_cast h1.diff) h1.bound
  rwa [iteratedDeriv_one, deriv_line (hf.differentiableAt (by positivity))] at h2

/-- **C73.**  `NDer1PartialByAll` returns the `N` partial derivatives in order, each to the order of the rule. -/
theorem nDer1Gradient_order {N : ℕ} (eps : ℝ) (f : (Fin N → ℝ) → ℝ) (p : Fin N → ℝ) (s : Fin N → ℝ) (r M : ℝ) (h : Option ℝ) (w : Bool)
    (hstep : ∀ i, h.getD (scaleStep (nDer1H eps) (p i)) = s i) (hs : ∀ i, 0 < s i) (hr : ∀ i, 1 * s i ≤ r)
    (hf : SmoothAt f p r 2 M) :
    ∃ l, nDer1Gradient eps f p h w = .ret l ∧ ∃ hl : l.length = N, ∀ i : Fin N, ∃ v,
      (l[i.val]'(by rw [hl]; exact i.isLt)).1 = some v ∧ |v - fderiv ℝ f p (Pi.single i 1)| ≤ 1 / 2 * M * s i ^ 1 :=
  collect_spec _ (fun i (a : Option ℝ × Option ℝ) => ∃ v, a.1 = some v ∧ |v - fderiv ℝ f p (Pi.single i 1)| ≤ 1 / 2 * M * s i ^ 1) fun i => by
    obtain ⟨v, e, h1, h2⟩ := nDer1Partial_order eps f i p (s i) M h w (hstep i) (hs i) (hf.mono (hr i))
    exact ⟨_, h1, v, rfl, h2⟩

/-- **C73.**  `NDer1PartialAllByAll` returns the matrix whose entry `(a, b)` is the derivative of component `a` by variable `b`. -/
theorem nDer1AllByAll_order {N : ℕ} (eps : ℝ) (f : (Fin N → ℝ) → Fin N → ℝ) (p : Fin N → ℝ) (s : Fin N → ℝ) (r M : ℝ) (h : Option ℝ)
    (w : Bool) (hstep : ∀ i, h.getD (scaleStep (nDer1H eps) (p i)) = s i) (hs : ∀ i, 0 < s i) (hr : ∀ i, 1 * s i ≤ r)
    (hf : ∀ a, SmoothAt (fun q => f q a) p r 2 M) :
    ∃ l, nDer1AllByAll eps f p h w = .ret l ∧ ∃ hl : l.length = N, ∀ a : Fin N,
      ∃ hr : (l[a.val]'(by rw [hl]; exact a.isLt)).length = N, ∀ b : Fin N, ∃ v,
        ((l[a.val]'(by rw [hl]; exact a.isLt))[b.val]'(by rw [hr]; exact b.isLt)).1 = some v ∧
        |v - fderiv ℝ f p (Pi.single b 1) a| ≤ 1 / 2 * M * s b ^ 1 := by
  refine collect_spec _ (fun a (row : List (Option ℝ × Option ℝ)) => ∃ hr : row.length = N, ∀ b : Fin N, ∃ v, (row[b.val]'(by rw [hr]; exact b.isLt)).1 = some v ∧
    |v - fderiv ℝ f p (Pi.single b 1) a| ≤ 1 / 2 * M * s b ^ 1) fun a => ?_
  obtain ⟨l, h1, h2⟩ := nDer1Gradient_order eps (fun q => f q a) p s r M h w hstep hs hr (hf a)
  refine ⟨l, h1, ?_⟩
  simp only [fderiv_component fun a => (hf a).differentiableAt (le_trans (by have := hs a; positivity) (hr a))]
  exact h2

/-- **C73.**  `NDer2Partial` by variable `i` is the partial derivative up to `1 / 6 * M * s ^ 2`, where `s` is the step and `M`
bounds the derivative of order 3 within the points used. -/
theorem nDer2Partial_order {N : ℕ} (eps : ℝ) (f : (Fin N → ℝ) → ℝ) (i : Fin N) (p : Fin N → ℝ) (s M : ℝ) (h : Option ℝ) (w : Bool)
    (hstep : h.getD (scaleStep (nDer2H eps) (p i)) = s) (hs : 0 < s) (hf : SmoothAt f p (1 * s) 3 M) :
    ∃ v e, nDer2Partial eps f i p h w = .ret (some v, e) ∧ |v - fderiv ℝ f p (Pi.single i 1)| ≤ 1 / 6 * M * s ^ 2 := by
  rw [nDer2Partial, hstep]
  have h1 := hf.along i
  rw [nDer2_value hs h1.value]
  obtain ⟨e, he⟩ := unchecked_ret (value := some _) (error := nDer2Error eps (along f p i) (p i) s) hs.ne' w
  refine ⟨_, e, he, ?_⟩
  have h2 := nDer2_stencil _ _ s M hs (by exact_mod_cast h1.diff) h1.bound
  rwa [iteratedDeriv_one, deriv_line (hf.differentiableAt (by positivity))] at h2

/-- **C73.**  `NDer2PartialByAll` returns the `N` partial derivatives in order, each to the order of the rule. -/
theorem nDer2Gradient_order {N : ℕ} (eps : ℝ) (f : (Fin N → ℝ) → ℝ) (p : Fin N → ℝ) (s : Fin N → ℝ) (r M : ℝ) (h : Option ℝ) (w : Bool)
    (hstep : ∀ i, h.getD (scaleStep (nDer2H eps) (p i)) = s i) (hs : ∀ i, 0 < s i) (hr : ∀ i, 1 * s i ≤ r)
    (hf : SmoothAt f p r 3 M) :
    ∃ l, nDer2Gradient eps f p h w = .ret l ∧ ∃ hl : l.length = N, ∀ i : Fin N, ∃ v,
      (l[i.val]'(by rw [hl]; exact i.isLt)).1 = some v ∧ |v - fderiv ℝ f p (Pi.single i 1)| ≤ 1 / 6 * M * s i ^ 2 :=
  collect_spec _ (fun i (a : Option ℝ × Option ℝ) => ∃ v, a.1 = some v ∧ |v - fderiv ℝ f p (Pi.single i 1)| ≤ 1 / 6 * M * s i ^ 2) fun i => by
    obtain ⟨v, e, h1, h2⟩ := nDer2Partial_order eps f i p (s i) M h w (hstep i) (hs i) (hf.mono (hr i))
    exact ⟨_, h1, v, rfl, h2⟩

/-- **C73.**  `NDer2PartialAllByAll` returns the matrix whose entry `(a, b)` is the derivative of component `a` by variable `b`. -/
theorem nDer2AllByAll_order {N : ℕ} (eps : ℝ) (f : (Fin N → ℝ) → Fin N → ℝ) (p : Fin N → ℝ) (s : Fin N → ℝ) (r M : ℝ) (h : Option ℝ)
    (w : Bool) (hstep : ∀ i, h.getD (scaleStep (nDer2H eps) (p i)) = s i) (hs : ∀ i, 0 < s i) (hr : ∀ i, 1 * s i ≤ r)
    (hf : ∀ a, SmoothAt (fun q => f q a) p r 3 M) :
    ∃ l, nDer2AllByAll eps f p h w = .ret l ∧ ∃ hl : l.length = N, ∀ a : Fin N,
      ∃ hr : (l[a.val]'(by rw [hl]; exact a.isLt)).length = N, ∀ b : Fin N, ∃ v,
        ((l[a.val]'(by rw [hl]; exact a.isLt))[b.val]'(by rw [hr]; exact b.isLt)).1 = some v ∧
        |v - fderiv ℝ f p (Pi.single b 1) a| ≤ 1 / 6 * M * s b ^ 2 := by
  refine collect_spec _ (fun a (row : List (Option ℝ × Option ℝ)) => ∃ hr : row.length = N, ∀ b : Fin N, ∃ v, (row[b.val]'(by rw [hr]; exact b.isLt)).1 = some v ∧
    |v - fderiv ℝ f p (Pi.single b 1) a| ≤ 1 / 6 * M * s b ^ 2) fun a => ?_
  obtain ⟨l, h1, h2⟩ := nDer2Gradient_order eps (fun q => f q a) p s r M h w hstep hs hr (hf a)
  refine ⟨l, h1, ?_⟩
  simp only [fderiv_component fun a => (hf a).differentiableAt (le_trans (by have := hs a; positivity) (hr a))]
  exact h2

/-- **C73.**  `NDer4Partial` by variable `i` is the partial derivative up to `1 / 18 * M * s ^ 4`, where `s` is the step and `M`
bounds the derivative of order 5 within the points used. -/
theorem nDer4Partial_order {N : ℕ} (eps : ℝ) (f : (Fin N → ℝ) → ℝ) (i : Fin N) (p : Fin N → ℝ) (s M : ℝ) (h : Option ℝ) (w : Bool)
    (hstep : h.getD (scaleStep (nDer4H eps) (p i)) = s) (hs : 0 < s) (hf : SmoothAt f p (2 * s) 5 M) :
    ∃ v e, nDer4Partial eps f i p h w = .ret (some v, e) ∧ |v - fderiv ℝ f p (Pi.single i 1)| ≤ 1 / 18 * M * s ^ 4 := by
  rw [nDer4Partial, hstep]
  have h1 := hf.along i
  rw [nDer4_value hs h1.value]
  obtain ⟨e, he⟩ := unchecked_ret (value := some _) (error := nDer4Error eps (along f p i) (p i) s) hs.ne' w
  refine ⟨_, e, he, ?_⟩
  have h2 := nDer4_stencil _ _ s M hs (by exact_mod_cast h1.diff) h1.bound
  rwa [iteratedDeriv_one, deriv_line (hf.differentiableAt (by positivity))] at h2

/-- **C73.**  `NDer4PartialByAll` returns the `N` partial derivatives in order, each to the order of the rule. -/
theorem nDer4Gradient_order {N : ℕ} (eps : ℝ) (f : (Fin N → ℝ) → ℝ) (p : Fin N → ℝ) (s : Fin N → ℝ) (r M : ℝ) (h : Option ℝ) (w : Bool)
    (hstep : ∀ i, h.getD (scaleStep (nDer4H eps) (p i)) = s i) (hs : ∀ i, 0 < s i) (hr : ∀ i, 2 * s i ≤ r)
    (hf : SmoothAt f p r 5 M) :
    ∃ l, nDer4Gradient eps f p h w = .ret l ∧ ∃ hl : l.length = N, ∀ i : Fin N, ∃ v,
      (l[i.val]'(by rw [hl]; exact i.isLt)).1 = some v ∧ |v - fderiv ℝ f p (Pi.single i 1)| ≤ 1 / 18 * M * s i ^ 4 :=
  collect_spec _ (fun i (a : Option ℝ × Option ℝ) => ∃ v, a.1 = some v ∧ |v - fderiv ℝ f p (Pi.single i 1)| ≤ 1 / 18 * M * s i ^ 4) fun i => by
    obtain ⟨v, e, h1, h2⟩ := nDer4Partial_order eps f i p (s i) M h w (hstep i) (hs i) (hf.mono (hr i))
    exact ⟨_, h1, v, rfl, h2⟩

/-- **C73.**  `NDer4PartialAllByAll` returns the matrix whose entry `(a, b)` is the derivative of component `a` by variable `b`. -/
theorem nDer4AllByAll_order {N : ℕ} (eps : ℝ) (f : (Fin N → ℝ) → Fin N → ℝ) (p : Fin N → ℝ) (s : Fin N → ℝ) (r M : ℝ) (h : Option ℝ)
    (w : Bool) (hstep : ∀ i, h.getD (scaleStep (nDer4H eps) (p i)) = s i) (hs : ∀ i, 0 < s i) (hr : ∀ i, 2 * s i ≤ r)
    (hf : ∀ a, SmoothAt (fun q => f q a) p r 5 M) :
    ∃ l, nDer4AllByAll eps f p h w = .ret l ∧ ∃ hl : l.length = N, ∀ a : Fin N,
      ∃ hr : (l[a.val]'(by rw [hl]; exact a.isLt)).length = N, ∀ b : Fin N, ∃ v,
        ((l[a.val]'(by rw [hl]; exact a.isLt))[b.val]'(by rw [hr]; exact b.isLt)).1 = some v ∧
        |v - fderiv ℝ f p (Pi.single b 1) a| ≤ 1 / 18 * M * s b ^ 4 := by
  refine collect_spec _ (fun a (row : List (Option ℝ × Option ℝ)) => ∃ hr : row.length = N, ∀ b : Fin N, ∃ v, (row[b.val]'(by rw [hr]; exact b.isLt)).1 = some v ∧
    |v - fderiv ℝ f p (Pi.single b 1) a| ≤ 1 / 18 * M * s b ^ 4) fun a => ?_
  obtain ⟨l, h1, h2⟩ := nDer4Gradient_order eps (fun q => f q a) p s r M h w hstep hs hr (hf a)
  refine ⟨l, h1, ?_⟩
  simp only [fderiv_component fun a => (hf a).differentiableAt (le_trans (by have := hs a; positivity) (hr a))]
  exact h2

/-- **C73.**  `NDer6Partial` by variable `i` is the partial derivative up to `47 / 2100 * M * s ^ 6`, where `s` is the step and `M`
bounds the derivative of order 7 within the points used. -/
theorem nDer6Partial_order {N : ℕ} (eps : ℝ) (f : (Fin N → ℝ) → ℝ) (i : Fin N) (p : Fin N → ℝ) (s M : ℝ) (h : Option ℝ) (w : Bool)
    (hstep : h.getD (scaleStep (nDer6H eps) (p i)) = s) (hs : 0 < s) (hf : SmoothAt f p (3 * s) 7 M) :
    ∃ v e, nDer6Partial eps f i p h w = .ret (some v, e) ∧ |v - fderiv ℝ f p (Pi.single i 1)| ≤ 47 / 2100 * M * s ^ 6 := by
  rw [nDer6Partial, hstep]
  have h1 := hf.along i
  rw [nDer6_value hs h1.value]
  obtain ⟨e, he⟩ := unchecked_ret (value := some _) (error := nDer6Error eps (along f p i) (p i) s) hs.ne' w
  refine ⟨_, e, he, ?_⟩
  have h2 := nDer6_stencil _ _ s M hs (by exact_mod_cast h1.diff) h1.bound
  rwa [iteratedDeriv_one, deriv_line (hf.differentiableAt (by positivity))] at h2

/-- **C73.**  `NDer6PartialByAll` returns the `N` partial derivatives in order, each to the order of the rule. -/
theorem nDer6Gradient_order {N : ℕ} (eps : ℝ) (f : (Fin N → ℝ) → ℝ) (p : Fin N → ℝ) (s : Fin N → ℝ) (r M : ℝ) (h : Option ℝ) (w : Bool)
    (hstep : ∀ i, h.getD (scaleStep (nDer6H eps) (p i)) = s i) (hs : ∀ i, 0 < s i) (hr : ∀ i, 3 * s i ≤ r)
    (hf : SmoothAt f p r 7 M) :
    ∃ l, nDer6Gradient eps f p h w = .ret l ∧ ∃ hl : l.length = N, ∀ i : Fin N, ∃ v,
      (l[i.val]'(by rw [hl]; exact i.isLt)).1 = some v ∧ |v - fderiv ℝ f p (Pi.single i 1)| ≤ 47 / 2100 * M * s i ^ 6 :=
  collect_spec _ (fun i (a : Option ℝ × Option ℝ) => ∃ v, a.1 = some v ∧ |v - fderiv ℝ f p (Pi.single i 1)| ≤ 47 / 2100 * M * s i ^ 6) fun i => by
    obtain ⟨v, e, h1, h2⟩ := nDer6Partial_order eps f i p (s i) M h w (hstep i) (hs i) (hf.mono (hr i))
    exact ⟨_, h1, v, rfl, h2⟩

/-- **C73.**  `NDer6PartialAllByAll` returns the matrix whose entry `(a, b)` is the derivative of component `a` by variable `b`. -/
theorem nDer6AllByAll_order {N : ℕ} (eps : ℝ) (f : (Fin N → ℝ) → Fin N → ℝ) (p : Fin N → ℝ) (s : Fin N → ℝ) (r M : ℝ) (h : Option ℝ)
    (w : Bool) (hstep : ∀ i, h.getD (scaleStep (nDer6H eps) (p i)) = s i) (hs : ∀ i, 0 < s i) (hr : ∀ i, 3 * s i ≤ r)
    (hf : ∀ a, SmoothAt (fun q => f q a) p r 7 M) :
    ∃ l, nDer6AllByAll eps f p h w = .ret l ∧ ∃ hl : l.length = N, ∀ a : Fin N,
      ∃ hr : (l[a.val]'(by rw [hl]; exact a.isLt)).length = N, ∀ b : Fin N, ∃ v,
        ((l[a.val]'(by rw [hl]; exact a.isLt))[b.val]'(by rw [hr]; exact b.isLt)).1 = some v ∧
        |v - fderiv ℝ f p (Pi.single b 1) a| ≤ 47 / 2100 * M * s b ^ 6 := by
  refine collect_spec _ (fun a (row : List (Option ℝ × Option ℝ)) => ∃ hr : row.length = N, ∀ b : Fin N, ∃ v, (row[b.val]'(by rw [hr]; exact b.isLt)).1 = some v ∧
    |v - fderiv ℝ f p (Pi.single b 1) a| ≤ 47 / 2100 * M * s b ^ 6) fun a => ?_
  obtain ⟨l, h1, h2⟩ := nDer6Gradient_order eps (fun q => f q a) p s r M h w hstep hs hr (hf a)
  refine ⟨l, h1, ?_⟩
  simp only [fderiv_component fun a => (hf a).differentiableAt (le_trans (by have := hs a; positivity) (hr a))]
  exact h2

/-- **C73.**  `NDer8Partial` by variable `i` is the partial derivative up to `1957 / 198450 * M * s ^ 8`, where `s` is the step and `M`
bounds the derivative of order 9 within the points used. -/
theorem nDer8Partial_order {N : ℕ} (eps : ℝ) (f : (Fin N → ℝ) → ℝ) (i : Fin N) (p : Fin N → ℝ) (s M : ℝ) (h : Option ℝ) (w : Bool)
    (hstep : h.getD (scaleStep (nDer8H eps) (p i)) = s) (hs : 0 < s) (hf : SmoothAt f p (4 * s) 9 M) :
    ∃ v e, nDer8Partial eps f i p h w = .ret (some v, e) ∧ |v - fderiv ℝ f p (Pi.single i 1)| ≤ 1957 / 198450 * M * s ^ 8 := by
  rw [nDer8Partial, hstep]
  have h1 := hf.along i
  rw [nDer8_value hs h1.value]
  obtain ⟨e, he⟩ := unchecked_ret (value := some _) (error := nDer8Error eps (along f p i) (p i) s) hs.ne' w
  refine ⟨_, e, he, ?_⟩
  have h2 := nDer8_stencil _ _ s M hs (by exact_mod_cast h1.diff) h1.bound
  rwa [iteratedDeriv_one, deriv_line (hf.differentiableAt (by positivity))] at h2

/-- **C73.**  `NDer8PartialByAll` returns the `N` partial derivatives in order, each to the order of the rule. -/
theorem nDer8Gradient_order {N : ℕ} (eps : ℝ) (f : (Fin N → ℝ) → ℝ) (p : Fin N → ℝ) (s : Fin N → ℝ) (r M : ℝ) (h : Option ℝ) (w : Bool)
    (hstep : ∀ i, h.getD (scaleStep (nDer8H eps) (p i)) = s i) (hs : ∀ i, 0 < s i) (hr : ∀ i, 4 * s i ≤ r)
    (hf : SmoothAt f p r 9 M) :
    ∃ l, nDer8Gradient eps f p h w = .ret l ∧ ∃ hl : l.length = N, ∀ i : Fin N, ∃ v,
      (l[i.val]'(by rw [hl]; exact i.isLt)).1 = some v ∧ |v - fderiv ℝ f p (Pi.single i 1)| ≤ 1957 / 198450 * M * s i ^ 8 :=
  collect_spec _ (fun i (a : Option ℝ × Option ℝ) => ∃ v, a.1 = some v ∧ |v - fderiv ℝ f p (Pi.single i 1)| ≤ 1957 / 198450 * M * s i ^ 8) fun i => by
    obtain ⟨v, e, h1, h2⟩ := nDer8Partial_order eps f i p (s i) M h w (hstep i) (hs i) (hf.mono (hr i))
    exact ⟨_, h1, v, rfl, h2⟩

/-- **C73.**  `NDer8PartialAllByAll` returns the matrix whose entry `(a, b)` is the derivative of component `a` by variable `b`. -/
theorem nDer8AllByAll_order {N : ℕ} (eps : ℝ) (f : (Fin N → ℝ) → Fin N → ℝ) (p : Fin N → ℝ) (s : Fin N → ℝ) (r M : ℝ) (h : Option ℝ)
    (w : Bool) (hstep : ∀ i, h.getD (scaleStep (nDer8H eps) (p i)) = s i) (hs : ∀ i, 0 < s i) (hr : ∀ i, 4 * s i ≤ r)
    (hf : ∀ a, SmoothAt (fun q => f q a) p r 9 M) :
    ∃ l, nDer8AllByAll eps f p h w = .ret l ∧ ∃ hl : l.length = N, ∀ a : Fin N,
      ∃ hr : (l[a.val]'(by rw [hl]; exact a.isLt)).length = N, ∀ b : Fin N, ∃ v,
        ((l[a.val]'(by rw [hl]; exact a.isLt))[b.val]'(by rw [hr]; exact b.isLt)).1 = some v ∧
        |v - fderiv ℝ f p (Pi.single b 1) a| ≤ 1957 / 198450 * M * s b ^ 8 := by
  refine collect_spec _ (fun a (row : List (Option ℝ × Option ℝ)) => ∃ hr : row.length = N, ∀ b : Fin N, ∃ v, (row[b.val]'(by rw [hr]; exact b.isLt)).1 = some v ∧
    |v - fderiv ℝ f p (Pi.single b 1) a| ≤ 1957 / 198450 * M * s b ^ 8) fun a => ?_
  obtain ⟨l, h1, h2⟩ := nDer8Gradient_order eps (fun q => f q a) p s r M h w hstep hs hr (hf a)
  refine ⟨l, h1, ?_⟩
  simp only [fderiv_component fun a => (hf a).differentiableAt (le_trans (by have := hs a; positivity) (hr a))]
  exact h2

/-- **C73.**  `calcJacobian` of a function of `N` variables with `M` components has `M` rows of `N` entries, entry `(a, b)` being
the derivative of component `a` by variable `b`. -/
theorem calcJacobian_order {N M : ℕ} (eps : ℝ) (heps : 0 < eps) (f : (Fin N → ℝ) → Fin M → ℝ) (p : Fin N → ℝ) (r B : ℝ) (hr0 : 0 ≤ r)
    (hr : ∀ i, 2 * scaleStep (nDer4H eps) (p i) ≤ r) (hf : ∀ a, SmoothAt (fun q => f q a) p r 5 B) :
    ∃ l, calcJacobian eps f p = .ret l ∧ ∃ hl : l.length = M, ∀ a : Fin M,
      ∃ hr : (l[a.val]'(by rw [hl]; exact a.isLt)).length = N, ∀ b : Fin N, ∃ v,
        ((l[a.val]'(by rw [hl]; exact a.isLt))[b.val]'(by rw [hr]; exact b.isLt)).1 = some v ∧
        |v - fderiv ℝ f p (Pi.single b 1) a| ≤ 1 / 18 * B * scaleStep (nDer4H eps) (p b) ^ 4 := by
  refine collect_spec _ (fun a (row : List (Option ℝ × Option ℝ)) => ∃ hr : row.length = N, ∀ b : Fin N, ∃ v,
    (row[b.val]'(by rw [hr]; exact b.isLt)).1 = some v ∧
    |v - fderiv ℝ f p (Pi.single b 1) a| ≤ 1 / 18 * B * scaleStep (nDer4H eps) (p b) ^ 4) fun a => ?_
  obtain ⟨l, h1, h2⟩ := nDer4Gradient_order eps (fun q => f q a) p _ r B none false (fun _ => rfl)
    (fun i => (default_steps_pos eps (p i) heps).2.2.1) hr (hf a)
  refine ⟨l, h1, ?_⟩
  simp only [fderiv_component fun a => (hf a).differentiableAt hr0]
  exact h2

/-! ## Mixed second derivatives -/

section
variable {E : Type*} [NormedAddCommGroup E] [NormedSpace ℝ E]

theorem cross_second {f : E → ℝ} {p a b : E} {r M : ℝ} (hf : SmoothAt f p r 4 M) (ha : ‖a + b‖ ≤ r) (hb : ‖a - b‖ ≤ r) :
    |(f (p + (a + b)) - f (p + (a - b)) - f (p - (a - b)) + f (p - (a + b))) / 4 - fderiv ℝ (fun q => fderiv ℝ f q a) p b| ≤
      1 / 48 * (M * ‖a + b‖ ^ 4 + M * ‖a - b‖ ^ 4) := by
  have hr : 0 ≤ r := (norm_nonneg _).trans ha
  have hp : ContDiffAt ℝ 2 f p := (hf.diff p (by rwa [sub_self, norm_zero])).of_le (by norm_num)
  have hu := hf.line (v := a + b) (c := 0) (R := 1 * 1) (by rwa [one_mul, one_mul])
  have hw := hf.line (v := a - b) (c := 0) (R := 1 * 1) (by rwa [one_mul, one_mul])
  have h1 := nSecDer2_stencil _ _ 1 _ one_pos (by exact_mod_cast hu.diff) hu.bound
  have h2 := nSecDer2_stencil _ _ 1 _ one_pos (by exact_mod_cast hw.diff) hw.bound
  simp only [sub_zero] at h1 h2
  have h3 := mixed_eq_diagonals (a := a) (b := b) hp
  have e : ∀ v : E, stencil nSecDer2Weights (fun t : ℝ => f (p + t • v)) 0 1 / 1 ^ 2 = f (p + v) - 2 * f p + f (p - v) := fun v => by
    simp [stencil, nSecDer2Weights, ← sub_eq_add_neg]
    ring
  rw [e] at h1 h2
  rw [abs_le] at h1 h2 ⊢
  constructor <;> linarith [h1.1, h1.2, h2.1, h2.2]

theorem cross_fourth {f : E → ℝ} {p a b : E} {r M : ℝ} (hf : SmoothAt f p r 6 M) (ha : 2 * ‖a + b‖ ≤ r) (hb : 2 * ‖a - b‖ ≤ r) :
    |(16 * (f (p + (a + b)) - f (p + (a - b)) - f (p - (a - b)) + f (p - (a + b))) -
      (f (p + (2 : ℝ) • (a + b)) - f (p + (2 : ℝ) • (a - b)) - f (p - (2 : ℝ) • (a - b)) + f (p - (2 : ℝ) • (a + b)))) / 48 -
      fderiv ℝ (fun q => fderiv ℝ f q a) p b| ≤ 1 / 216 * (M * ‖a + b‖ ^ 6 + M * ‖a - b‖ ^ 6) := by
  have hr : 0 ≤ r := le_trans (by positivity) ha
  have hp : ContDiffAt ℝ 2 f p := (hf.diff p (by rwa [sub_self, norm_zero])).of_le (by norm_num)
  have hu := hf.line (v := a + b) (c := 0) (R := 2 * 1) (by rwa [mul_one])
  have hw := hf.line (v := a - b) (c := 0) (R := 2 * 1) (by rwa [mul_one])
  have h1 := nSecDer4_stencil _ _ 1 _ one_pos (by exact_mod_cast hu.diff) hu.bound
  have h2 := nSecDer4_stencil _ _ 1 _ one_pos (by exact_mod_cast hw.diff) hw.bound
  simp only [sub_zero] at h1 h2
  have h3 := mixed_eq_diagonals (a := a) (b := b) hp
  have e : ∀ v : E, stencil nSecDer4Weights (fun t : ℝ => f (p + t • v)) 0 1 / 1 ^ 2 =
      (-f (p - (2 : ℝ) • v) + 16 * f (p - v) - 30 * f p + 16 * f (p + v) - f (p + (2 : ℝ) • v)) / 12 := fun v => by
    simp [stencil, nSecDer4Weights, ← sub_eq_add_neg]
    ring
  rw [e] at h1 h2
  rw [abs_le] at h1 h2 ⊢
  constructor <;> linarith [h1.1, h1.2, h2.1, h2.2]

end

theorem cross_eq {N : ℕ} (f : (Fin N → ℝ) → ℝ) (p : Fin N → ℝ) {i j : Fin N} (hij : i ≠ j) (d : ℝ) :
    cross f p i j d = f (p + (d • Pi.single i 1 + d • Pi.single j 1)) - f (p + (d • Pi.single i 1 - d • Pi.single j 1)) -
      f (p - (d • Pi.single i 1 - d • Pi.single j 1)) + f (p - (d • Pi.single i 1 + d • Pi.single j 1)) := by
  have h : ∀ s t : ℝ, setTwo f p i j (p i + s) (p j + t) = f (p + (s • Pi.single i 1 + t • Pi.single j 1)) := fun s t => by
    rw [setTwo, update_eq_line, update_eq_line]
    congr 1
    funext k
    simp [hij.symm]
    ring
  rw [cross, h, sub_eq_add_neg (p j) d, sub_eq_add_neg (p i) d, h, h, h]
  simp only [neg_smul, ← sub_eq_add_neg]
  rw [show p + (-(d • Pi.single i (1 : ℝ)) + d • Pi.single j 1) = p - (d • Pi.single i 1 - d • Pi.single j 1) by abel,
    show p + (-(d • Pi.single i (1 : ℝ)) - d • Pi.single j 1) = p - (d • Pi.single i 1 + d • Pi.single j 1) by abel]

theorem norm_pair {N : ℕ} {i j : Fin N} (hij : i ≠ j) (s t d : ℝ) (hs : |s| ≤ d) (ht : |t| ≤ d) :
    ‖(s • Pi.single i 1 + t • Pi.single j 1 : Fin N → ℝ)‖ ≤ d := by
  refine (pi_norm_le_iff_of_nonneg ((abs_nonneg s).trans hs)).mpr fun k => ?_
  by_cases hi : k = i
  · subst hi
    simpa [hij] using hs
  · by_cases hj : k = j
    · subst hj
      simpa [hi] using ht
    · simp [hi, hj]
      exact (abs_nonneg s).trans hs

end Verif.Deriv
