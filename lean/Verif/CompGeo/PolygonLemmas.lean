import Verif.CompGeo.Polygon
import Verif.LoopLemmas
import Mathlib.Analysis.SpecialFunctions.Complex.Arg
import Mathlib.Data.List.Rotate
import Mathlib.Algebra.BigOperators.Group.List.Basic
import Mathlib.Tactic

/-!
# Lemmas for `Polygon2D`: sums over the sides, winding numbers as angles
-/

set_option autoImplicit false

namespace Verif.CompGeo.Poly

/-- The sides of the polygon in order: from every vertex to the next one, from the last one to the first. -/
def sides (v : List Pt) : List (Pt × Pt) := v.zip (v.rotate 1)

theorem rotate_tab (n : ℕ) (f : ℕ → Pt) : (tab n f).rotate 1 = tab n (fun i => f ((i + 1) % n)) := by
  apply List.ext_getElem?
  intro k
  rw [getElem?_tab]
  by_cases h : k < n
  · rw [List.getElem?_rotate (by simpa using h), length_tab, getElem?_tab, if_pos (Nat.mod_lt _ (by omega)), if_pos h]
  · rw [if_neg h, List.getElem?_eq_none]
    simpa using h

theorem sides_tab (n : ℕ) (f : ℕ → Pt) : sides (tab n f) = tab n (fun i => (f i, f ((i + 1) % n))) := by
  rw [sides, rotate_tab]
  apply List.ext_getElem?
  intro k
  rw [getElem?_tab]
  by_cases h : k < n
  · rw [if_pos h]
    exact List.getElem?_zip_eq_some.2 ⟨by rw [getElem?_tab, if_pos h], by rw [getElem?_tab, if_pos h]⟩
  · rw [if_neg h, List.getElem?_eq_none]
    simpa using h

theorem sum_map_tab {α β : Type} [AddCommMonoid β] (n : ℕ) (f : ℕ → α) (g : α → β) :
    ((tab n f).map g).sum = ∑ i ∈ Finset.range n, g (f i) := by
  rw [tab, List.map_map]
  induction n with
  | zero => rfl
  | succ n ih => rw [List.range_succ, List.map_append, List.sum_append, ih, Finset.sum_range_succ]; simp

theorem forRange_sides {α : Type} [AddCommMonoid α] (v : List Pt) (s : α) (body : α → ℕ → Outcome α) (g : Pt → Pt → α)
    (h : ∀ i p q s, Outcome.index v i = .ret p → Outcome.index v ((i + 1) % v.length) = .ret q → body s i = .ret (s + g p q)) :
    forRange v.length s body = .ret (s + ((sides v).map fun e => g e.1 e.2).sum) := by
  obtain ⟨n, f, rfl⟩ := exists_tab v ((0, 0) : Pt)
  rw [length_tab] at *
  rw [sides_tab, sum_map_tab]
  refine forRange_sum n s body _ fun i hi t => ?_
  exact h i _ _ t (index_tab _ hi) (index_tab _ (Nat.mod_lt _ (by omega)))

theorem map_fst_sides (v : List Pt) : (sides v).map Prod.fst = v := by
  rw [sides, List.map_fst_zip (by simp)]

theorem map_snd_sides (v : List Pt) : (sides v).map Prod.snd = v.rotate 1 := by
  rw [sides, List.map_snd_zip (by simp)]

/-- Every vertex is the end of one side and the start of one side. -/
theorem sum_shift {β : Type} [AddCommMonoid β] (v : List Pt) (G : Pt → β) :
    ((sides v).map fun e => G e.2).sum = ((sides v).map fun e => G e.1).sum := by
  have h1 : (sides v).map (fun e => G e.2) = (v.rotate 1).map G := by rw [← map_snd_sides, List.map_map]; rfl
  have h2 : (sides v).map (fun e => G e.1) = v.map G := by
    conv_rhs => rw [← map_fst_sides v]
    rw [List.map_map]; rfl
  rw [h1, h2]
  exact ((List.rotate_perm v 1).map G).sum_eq

theorem sum_map_add {α β : Type} [AddCommMonoid β] (l : List α) (f g : α → β) :
    (l.map fun x => f x + g x).sum = (l.map f).sum + (l.map g).sum := by
  induction l with
  | nil => simp
  | cons a l ih => simp only [List.map_cons, List.sum_cons, ih]; abel

theorem sum_map_sub {α β : Type} [AddCommGroup β] (l : List α) (f g : α → β) :
    (l.map fun x => f x - g x).sum = (l.map f).sum - (l.map g).sum := by
  induction l with
  | nil => simp
  | cons a l ih => simp only [List.map_cons, List.sum_cons, ih]; abel

theorem sum_map_congr {α β : Type} [AddCommMonoid β] {l : List α} {f g : α → β} (h : ∀ x ∈ l, f x = g x) :
    (l.map f).sum = (l.map g).sum := by rw [List.map_congr_left h]

theorem mem_sides {v : List Pt} {e : Pt × Pt} (h : e ∈ sides v) : e.1 ∈ v ∧ e.2 ∈ v := by
  obtain ⟨h1, h2⟩ := List.of_mem_zip (show (e.1, e.2) ∈ v.zip (v.rotate 1) from h)
  exact ⟨h1, List.mem_rotate.1 h2⟩

theorem side_eq (a b p : Pt) : side a b p = (a.1 - p.1) * (b.2 - p.2) - (a.2 - p.2) * (b.1 - p.1) := by rw [side]; ring

theorem side_swap (a b p : Pt) : side b a p = -side a b p := by rw [side, side]; ring

theorem winds_swap (pt a b : Pt) : winds pt b a = -winds pt a b := by
  have := side_swap a b pt
  simp only [winds, this]
  by_cases h1 : a.2 ≤ pt.2 <;> by_cases h2 : b.2 ≤ pt.2
  · simp [h1, h2, not_lt.2 h1, not_lt.2 h2]
  · simp [h1, h2, not_le.1 h2]
    split_ifs <;> rfl
  · simp [h1, h2, not_le.1 h1]
    split_ifs <;> rfl
  · simp [h1, h2]

theorem winds_self (pt a : Pt) : winds pt a a = 0 := by
  have := winds_swap pt a a
  omega

/-- The winding number as the sum over the sides. -/
noncomputable def wind (v : List Pt) (pt : Pt) : ℤ := ((sides v).map fun e => winds pt e.1 e.2).sum

theorem sides_two (a b : Pt) : sides [a, b] = [(a, b), (b, a)] := rfl

theorem sides_three (a b c : Pt) : sides [a, b, c] = [(a, b), (b, c), (c, a)] := rfl

theorem short_cases {v : List Pt} (h : v.length < 3) : v = [] ∨ (∃ a, v = [a]) ∨ ∃ a b, v = [a, b] := by
  match v, h with
  | [], _ => exact .inl rfl
  | [a], _ => exact .inr (.inl ⟨a, rfl⟩)
  | [a, b], _ => exact .inr (.inr ⟨a, b, rfl⟩)
  | _ :: _ :: _ :: _, h => simp at h; omega

/-- An antisymmetric function of the sides sums to zero for at most two vertices. -/
theorem short_sum {β : Type} [AddCommGroup β] (g : Pt → Pt → β) (hg : ∀ a b, g b a = -g a b) (h0 : ∀ a, g a a = 0) {v : List Pt}
    (h : v.length < 3) : ((sides v).map fun e => g e.1 e.2).sum = 0 := by
  rcases short_cases h with rfl | ⟨a, rfl⟩ | ⟨a, b, rfl⟩
  · rfl
  · have : sides [a] = [(a, a)] := by simp [sides]
    simp [this, h0]
  · rw [sides_two]
    simp [hg a b]

theorem windingNumber_eq (v : List Pt) (pt : Pt) : windingNumber v pt = .ret (wind v pt) := by
  rw [windingNumber]
  by_cases h : v.length < 3
  · rw [if_pos h, wind, short_sum _ (fun a b => winds_swap pt a b) (fun a => winds_self pt a) h]
  · rw [if_neg h, forRange_sides v 0 (windingStep v pt) (fun p q => winds pt p q), zero_add, wind]
    intro i p q s h1 h2
    rw [windingStep, h1, Outcome.bind_ret, h2, Outcome.bind_ret]

/-! ## Angles -/

/-- The vector from `pt` to `p` as a complex number. -/
noncomputable def cx (pt p : Pt) : ℂ := ⟨p.1 - pt.1, p.2 - pt.2⟩

/-- The angle under which the way from `a` to `b` is seen from `pt`, counterclockwise counted positive, between `-π` and `π`. -/
noncomputable def angle (pt a b : Pt) : ℝ := Complex.arg (cx pt b / cx pt a)

/-- The argument in `(0, 2π]`. -/
noncomputable def A (z : ℂ) : ℝ := Complex.arg (-z) + Real.pi

theorem A_upper {z : ℂ} (h : 0 < z.im) : 0 < A z ∧ A z < Real.pi := by
  have h1 : Complex.arg (-z) < 0 := Complex.arg_neg_iff.2 (by simpa using h)
  have h2 := Complex.neg_pi_lt_arg (-z)
  rw [A]; constructor <;> linarith

theorem A_lower {z : ℂ} (h : z.im ≤ 0) : Real.pi ≤ A z ∧ A z ≤ 2 * Real.pi := by
  have h1 : 0 ≤ Complex.arg (-z) := Complex.arg_nonneg_iff.2 (by simpa using h)
  have h2 := Complex.arg_le_pi (-z)
  rw [A]; constructor <;> linarith

theorem exp_A (z : ℂ) : (‖z‖ : ℂ) * Complex.exp (A z * Complex.I) = z := by
  have h := Complex.norm_mul_exp_arg_mul_I (-z)
  rw [A]
  push_cast
  rw [add_mul, Complex.exp_add, Complex.exp_pi_mul_I]
  rw [norm_neg] at h
  linear_combination (-1 : ℂ) * h

theorem exp_diff {z w : ℂ} (hz : z ≠ 0) : w / z = ((‖w‖ / ‖z‖ : ℝ) : ℂ) * Complex.exp ((A w - A z : ℝ) * Complex.I) := by
  conv_lhs => rw [← exp_A w, ← exp_A z]
  have h1 : (‖z‖ : ℂ) ≠ 0 := by simpa using hz
  push_cast
  rw [sub_mul, Complex.exp_sub]
  have h2 := Complex.exp_ne_zero (A z * Complex.I)
  field_simp

/-- `arg (w / z)` is the difference of the arguments, if that is in `(-π, π]`. -/
theorem arg_div {z w : ℂ} (hz : z ≠ 0) (hw : w ≠ 0) (k : ℤ) (h1 : -Real.pi < A w - A z + 2 * Real.pi * k) (h2 : A w - A z + 2 * Real.pi * k ≤ Real.pi) :
    Complex.arg (w / z) = A w - A z + 2 * Real.pi * k := by
  have h3 : w / z = ((‖w‖ / ‖z‖ : ℝ) : ℂ) * Complex.exp ((A w - A z + 2 * Real.pi * k : ℝ) * Complex.I) := by
    rw [exp_diff hz]
    congr 1
    rw [Complex.exp_eq_exp_iff_exists_int]
    exact ⟨-k, by push_cast; ring⟩
  rw [h3, Complex.arg_real_mul _ (div_pos (norm_pos_iff.2 hw) (norm_pos_iff.2 hz)), Complex.arg_exp_mul_I]
  exact (toIocMod_eq_self Real.two_pi_pos).2 ⟨h1, by linarith⟩

theorem sin_diff {z w : ℂ} (hz : z ≠ 0) (hw : w ≠ 0) :
    z.re * w.im - z.im * w.re = ‖z‖ * ‖w‖ * Real.sin (A w - A z) := by
  have h := exp_diff (w := w) hz
  have h1 : ‖z‖ ≠ 0 := by simpa using hz
  have h2 := congrArg Complex.im h
  rw [Complex.im_ofReal_mul, Complex.exp_ofReal_mul_I_im, Complex.div_im] at h2
  have h3 : Complex.normSq z = ‖z‖ ^ 2 := Complex.normSq_eq_norm_sq z
  rw [h3] at h2
  field_simp at h2
  nlinarith [h2]

/-- `pt` is not on the segment from `a` to `b`. -/
def Off (pt a b : Pt) : Prop := pt ∉ segment ℝ a b

theorem Off.ne_left {pt a b : Pt} (h : Off pt a b) : cx pt a ≠ 0 := by
  intro h0
  have : a = pt := by
    have h1 := congrArg Complex.re h0
    have h2 := congrArg Complex.im h0
    simp only [cx, Complex.zero_re, Complex.zero_im] at h1 h2
    exact Prod.ext (by linarith) (by linarith)
  exact h (this ▸ left_mem_segment ℝ a b)

theorem Off.symm {pt a b : Pt} (h : Off pt a b) : Off pt b a := by rwa [Off, segment_symm]

theorem Off.not_opposite {pt a b : Pt} (h : Off pt a b) (r : ℝ) (hr : 0 ≤ r) : cx pt b / cx pt a ≠ ((-r : ℝ) : ℂ) := by
  intro h0
  rw [div_eq_iff h.ne_left] at h0
  have h1 := congrArg Complex.re h0
  have h2 := congrArg Complex.im h0
  rw [Complex.re_ofReal_mul] at h1
  rw [Complex.im_ofReal_mul] at h2
  simp only [cx] at h1 h2
  have hp : (1 + r) ≠ 0 := by positivity
  refine h ⟨r / (1 + r), 1 / (1 + r), by positivity, by positivity, by field_simp; ring, ?_⟩
  refine Prod.ext ?_ ?_
  · simp only [Prod.fst_add, Prod.smul_fst, smul_eq_mul]
    field_simp
    linarith
  · simp only [Prod.snd_add, Prod.smul_snd, smul_eq_mul]
    field_simp
    linarith

/-- The difference of the arguments is not an odd multiple of `π`. -/
theorem Off.diff_ne {pt a b : Pt} (h : Off pt a b) (k : ℤ) : A (cx pt b) - A (cx pt a) ≠ Real.pi + k * (2 * Real.pi) := by
  intro h0
  have h1 := exp_diff (w := cx pt b) h.ne_left
  rw [h0] at h1
  refine h.not_opposite (‖cx pt b‖ / ‖cx pt a‖) (by positivity) ?_
  rw [h1]
  have : Complex.exp (((Real.pi + k * (2 * Real.pi) : ℝ) : ℂ) * Complex.I) = -1 := by
    push_cast
    rw [add_mul, Complex.exp_add, Complex.exp_pi_mul_I]
    have := Complex.exp_int_mul_two_pi_mul_I k
    rw [show (k : ℂ) * (2 * Real.pi) * Complex.I = k * (2 * Real.pi * Complex.I) by ring, this]
    ring
  rw [this]
  push_cast
  ring

/-- The contribution of a side to the winding number makes up for the jump of the argument. -/
theorem angle_eq {pt a b : Pt} (h : Off pt a b) : angle pt a b = A (cx pt b) - A (cx pt a) + 2 * Real.pi * winds pt a b := by
  have hz := h.ne_left
  have hw := h.symm.ne_left
  have hs := sin_diff hz hw
  have hside : side a b pt = (cx pt a).re * (cx pt b).im - (cx pt a).im * (cx pt b).re := by rw [side_eq]; rfl
  rw [← hside] at hs
  have hpos : 0 < ‖cx pt a‖ * ‖cx pt b‖ := mul_pos (norm_pos_iff.2 hz) (norm_pos_iff.2 hw)
  have hpi := Real.pi_pos
  have hne := h.diff_ne
  refine arg_div hz hw _ ?_ ?_
  all_goals
    rw [winds]
    by_cases h1 : a.2 ≤ pt.2 <;> by_cases h2 : b.2 ≤ pt.2
  · rw [if_pos h1, if_neg (not_lt.2 h2)]
    obtain ⟨e1, e2⟩ := A_lower (z := cx pt a) (by simp only [cx]; linarith)
    obtain ⟨e3, e4⟩ := A_lower (z := cx pt b) (by simp only [cx]; linarith)
    have := hne (-1)
    have : A (cx pt b) - A (cx pt a) ≠ -Real.pi := fun h => this (by rw [h]; push_cast; ring)
    have : -Real.pi < A (cx pt b) - A (cx pt a) := lt_of_le_of_ne (by linarith) this.symm
    push_cast; linarith
  · rw [if_pos h1, if_pos (not_le.1 h2)]
    obtain ⟨e1, e2⟩ := A_lower (z := cx pt a) (by simp only [cx]; linarith)
    obtain ⟨e3, e4⟩ := A_upper (z := cx pt b) (by simp only [cx]; linarith)
    by_cases h3 : 0 < side a b pt
    · rw [if_pos h3]; push_cast; linarith
    · rw [if_neg h3]
      by_contra hc
      have h5 : A (cx pt b) - A (cx pt a) ≠ -Real.pi := fun h => hne (-1) (by rw [h]; push_cast; ring)
      have h4 : A (cx pt b) - A (cx pt a) < -Real.pi := lt_of_le_of_ne (by push_cast at hc; linarith) h5
      have h6 : 0 < Real.sin (A (cx pt b) - A (cx pt a) + 2 * Real.pi) := Real.sin_pos_of_pos_of_lt_pi (by linarith) (by linarith)
      rw [Real.sin_add_two_pi] at h6
      exact h3 (by rw [hs]; exact mul_pos hpos h6)
  · rw [if_neg h1, if_pos h2]
    obtain ⟨e1, e2⟩ := A_upper (z := cx pt a) (by simp only [cx]; linarith)
    obtain ⟨e3, e4⟩ := A_lower (z := cx pt b) (by simp only [cx]; linarith)
    by_cases h3 : side a b pt < 0
    · rw [if_pos h3]
      have h4 : Real.pi < A (cx pt b) - A (cx pt a) := by
        by_contra hc
        have : 0 ≤ Real.sin (A (cx pt b) - A (cx pt a)) := Real.sin_nonneg_of_nonneg_of_le_pi (by linarith) (by linarith)
        nlinarith
      push_cast; linarith
    · rw [if_neg h3]; push_cast; linarith
  · rw [if_neg h1, if_neg h2]
    obtain ⟨e1, e2⟩ := A_upper (z := cx pt a) (by simp only [cx]; linarith)
    obtain ⟨e3, e4⟩ := A_upper (z := cx pt b) (by simp only [cx]; linarith)
    push_cast; linarith
  · rw [if_pos h1, if_neg (not_lt.2 h2)]
    obtain ⟨e1, e2⟩ := A_lower (z := cx pt a) (by simp only [cx]; linarith)
    obtain ⟨e3, e4⟩ := A_lower (z := cx pt b) (by simp only [cx]; linarith)
    push_cast; linarith
  · rw [if_pos h1, if_pos (not_le.1 h2)]
    obtain ⟨e1, e2⟩ := A_lower (z := cx pt a) (by simp only [cx]; linarith)
    obtain ⟨e3, e4⟩ := A_upper (z := cx pt b) (by simp only [cx]; linarith)
    by_cases h3 : 0 < side a b pt
    · rw [if_pos h3]
      have h4 : A (cx pt b) - A (cx pt a) < -Real.pi := by
        by_contra hc
        have : 0 ≤ Real.sin (-(A (cx pt b) - A (cx pt a))) := Real.sin_nonneg_of_nonneg_of_le_pi (by linarith) (by linarith)
        rw [Real.sin_neg] at this
        nlinarith
      push_cast; linarith
    · rw [if_neg h3]; push_cast; linarith
  · rw [if_neg h1, if_pos h2]
    obtain ⟨e1, e2⟩ := A_upper (z := cx pt a) (by simp only [cx]; linarith)
    obtain ⟨e3, e4⟩ := A_lower (z := cx pt b) (by simp only [cx]; linarith)
    by_cases h3 : side a b pt < 0
    · rw [if_pos h3]; push_cast; linarith
    · rw [if_neg h3]
      by_contra hc
      have h4 : Real.pi < A (cx pt b) - A (cx pt a) := by push_cast at hc; linarith
      have h6 : 0 < Real.sin (2 * Real.pi - (A (cx pt b) - A (cx pt a))) := Real.sin_pos_of_pos_of_lt_pi (by linarith) (by linarith)
      rw [Real.sin_two_pi_sub] at h6
      exact h3 (by rw [hs]; nlinarith)
  · rw [if_neg h1, if_neg h2]
    obtain ⟨e1, e2⟩ := A_upper (z := cx pt a) (by simp only [cx]; linarith)
    obtain ⟨e3, e4⟩ := A_upper (z := cx pt b) (by simp only [cx]; linarith)
    push_cast; linarith

/-- The winding number is the sum of the angles divided by `2π`. -/
theorem wind_angle {v : List Pt} {pt : Pt} (h : ∀ e ∈ sides v, Off pt e.1 e.2) :
    2 * Real.pi * (wind v pt : ℝ) = ((sides v).map fun e => angle pt e.1 e.2).sum := by
  have h1 : ((sides v).map fun e => angle pt e.1 e.2).sum =
      ((sides v).map fun e => (A (cx pt e.2) - A (cx pt e.1)) + 2 * Real.pi * (winds pt e.1 e.2 : ℝ)).sum :=
    sum_map_congr fun e he => angle_eq (h e he)
  rw [h1, sum_map_add, sum_map_sub, sum_shift v (fun p => A (cx pt p)), sub_self, zero_add, wind]
  clear h h1
  induction sides v with
  | nil => simp
  | cons e l ih => simp only [List.map_cons, List.sum_cons, Int.cast_add]; rw [mul_add, ih]

end Verif.CompGeo.Poly
