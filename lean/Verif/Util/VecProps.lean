import Verif.Util.VecOps
import Verif.LoopLemmas
import Verif.Mat.DenseProps
import Mathlib.Tactic
import Mathlib.Data.Matrix.Mul
import Mathlib.GroupTheory.Perm.Sign
import Mathlib.Analysis.InnerProductSpace.PiL2
import Mathlib.Geometry.Euclidean.Angle.Unoriented.Basic

/-! # Vector products, angles, projections and index symbols -/

set_option autoImplicit false

namespace Verif.Util

open Verif.Mat Verif.Geom

/-! ## Helper lemmas -/

theorem index_ofFn {α : Type} {n : ℕ} (a : Fin n → α) {i : ℕ} (h : i < n) : Outcome.index (List.ofFn a) i = .ret (a ⟨i, h⟩) := by
  simp [Outcome.index, List.getElem?_ofFn, h]

theorem dot_loop {n : ℕ} (a b : Fin n → ℝ) : forRange n 0 (dotStep (List.ofFn a) (List.ofFn b)) = .ret (a ⬝ᵥ b) := by
  rw [forRange_sum n 0 _ (fun i => if h : i < n then a ⟨i, h⟩ * b ⟨i, h⟩ else 0), zero_add, Finset.sum_range]
  · simp [dotProduct]
  · intro i hi s
    simp [dotStep, index_ofFn _ hi, hi]

theorem dot_loopC {n : ℕ} (a b : Fin n → ℂ) :
    forRange n 0 (dotStepC (List.ofFn a) (List.ofFn b)) = .ret (∑ i, a i * (starRingEnd ℂ) (b i)) := by
  rw [forRange_sum n 0 _ (fun i => if h : i < n then a ⟨i, h⟩ * (starRingEnd ℂ) (b ⟨i, h⟩) else 0), zero_add, Finset.sum_range]
  · simp
  · intro i hi s
    simp [dotStepC, index_ofFn _ hi, hi]

theorem normL2_eq {n : ℕ} (a : Fin n → ℝ) : normL2 (List.ofFn a) = .ret ‖WithLp.toLp 2 a‖ := by
  have e : forRange n (0 : ℝ) (fun s i => do
      let x ← Outcome.index (List.ofFn a) i
      .ret (s + x * x)) = .ret (∑ i, a i * a i) := by
    rw [forRange_sum n 0 _ (fun i => if h : i < n then a ⟨i, h⟩ * a ⟨i, h⟩ else 0), zero_add, Finset.sum_range]
    · simp
    · intro i hi s
      simp [index_ofFn _ hi, hi]
  have h0 : 0 ≤ ∑ i, a i * a i := Finset.sum_nonneg fun i _ => mul_self_nonneg _
  simp only [normL2, List.length_ofFn]
  rw [e, Outcome.bind_ret, Quat.sqrtU, if_neg (by linarith), EuclideanSpace.norm_eq]
  congr 2
  refine Finset.sum_congr rfl fun i _ => ?_
  simp only [Real.norm_eq_abs, sq_abs]; ring

theorem inner_eq {n : ℕ} (a b : Fin n → ℝ) : inner ℝ (WithLp.toLp 2 a) (WithLp.toLp 2 b) = a ⬝ᵥ b := by
  simp only [PiLp.inner_apply, dotProduct]
  exact Finset.sum_congr rfl fun i _ => by simp [mul_comm]

theorem list_eq_ofFn {α : Type} (l : List α) {n : ℕ} (h : l.length = n) : ∃ a : Fin n → α, l = List.ofFn a := by
  subst h
  exact ⟨fun i => l.get i, (List.ofFn_get l).symm⟩

/-! ## Scalar products -/

/-- **Scalar products.**  Vectors of different sizes are refused, for vectors of one size the result is `∑ aᵢ bᵢ`, in the complex case
`∑ aᵢ conj(bᵢ)`; the fixed-size overloads compute the same. -/
theorem scalarProduct_spec :
    (∀ a b : List ℝ, a.length ≠ b.length → scalarProduct a b = .exn (.mml "VectorDimensionError")) ∧
    (∀ a b : List ℂ, a.length ≠ b.length → scalarProductC a b = .exn (.mml "VectorDimensionError")) ∧
    (∀ (n : ℕ) (a b : Fin n → ℝ), scalarProduct (List.ofFn a) (List.ofFn b) = .ret (∑ i, a i * b i) ∧
      scalarProductN n (List.ofFn a) (List.ofFn b) = .ret (∑ i, a i * b i)) ∧
    (∀ (n : ℕ) (a b : Fin n → ℂ), scalarProductC (List.ofFn a) (List.ofFn b) = .ret (∑ i, a i * (starRingEnd ℂ) (b i)) ∧
      scalarProductNC n (List.ofFn a) (List.ofFn b) = .ret (∑ i, a i * (starRingEnd ℂ) (b i))) := by
  refine ⟨fun a b h => by rw [scalarProduct, if_pos h], fun a b h => by rw [scalarProductC, if_pos h], fun n a b => ?_, fun n a b => ?_⟩
  · simp only [scalarProduct, scalarProductN, List.length_ofFn, ne_eq, not_true_eq_false, if_false, dot_loop]
    exact ⟨rfl, rfl⟩
  · rw [scalarProductC, scalarProductNC, if_neg (by simp), List.length_ofFn, dot_loopC]
    exact ⟨rfl, rfl⟩

/-- **The complex scalar product is an inner product**: exchanging the arguments conjugates it, it is linear in the first argument and the product
of a vector with itself is real and positive unless the vector is 0. -/
theorem scalarProductC_inner (n : ℕ) (a b c : Fin n → ℂ) (z : ℂ) :
    ∃ p q r s, scalarProductC (List.ofFn a) (List.ofFn b) = .ret p ∧ scalarProductC (List.ofFn b) (List.ofFn a) = .ret q ∧
      scalarProductC (List.ofFn c) (List.ofFn b) = .ret r ∧ scalarProductC (List.ofFn a) (List.ofFn a) = .ret s ∧
      q = (starRingEnd ℂ) p ∧ scalarProductC (List.ofFn (z • a + c)) (List.ofFn b) = .ret (z * p + r) ∧
      s.im = 0 ∧ 0 ≤ s.re ∧ (s = 0 ↔ a = 0) := by
  obtain ⟨-, -, -, h⟩ := scalarProduct_spec
  refine ⟨_, _, _, _, (h n a b).1, (h n b a).1, (h n c b).1, (h n a a).1, ?_, ?_, ?_, ?_, ?_⟩
  · rw [map_sum]
    exact Finset.sum_congr rfl fun i _ => by simp [mul_comm]
  · rw [(h n (z • a + c) b).1, Finset.mul_sum, ← Finset.sum_add_distrib]
    congr 1
    exact Finset.sum_congr rfl fun i _ => by simp [add_mul, mul_assoc]
  all_goals
    have e : ∑ i, a i * (starRingEnd ℂ) (a i) = ((∑ i, Complex.normSq (a i) : ℝ) : ℂ) := by
      push_cast
      exact Finset.sum_congr rfl fun i _ => Complex.mul_conj _
    rw [e]
  · exact Complex.ofReal_im _
  · rw [Complex.ofReal_re]; exact Finset.sum_nonneg fun i _ => Complex.normSq_nonneg _
  · rw [Complex.ofReal_eq_zero, Finset.sum_eq_zero_iff_of_nonneg fun i _ => Complex.normSq_nonneg _]
    simp only [Finset.mem_univ, true_implies, map_eq_zero]
    exact ⟨fun h => funext h, fun h i => by rw [h]; rfl⟩

/-! ## Angles -/

/-- **The angle between two vectors** is the Euclidean angle in `[0, π]`, for every pair of non-zero vectors of one size; the clamping never changes it.
A zero vector makes the quotient undefined, different sizes are refused. -/
theorem vectorsAngle_spec (n : ℕ) (a b : Fin n → ℝ) :
    (a ≠ 0 → b ≠ 0 →
      vectorsAngle (List.ofFn a) (List.ofFn b) = .ret (InnerProductGeometry.angle (WithLp.toLp 2 a) (WithLp.toLp 2 b)) ∧
      vectorsAngleN n (List.ofFn a) (List.ofFn b) = .ret (InnerProductGeometry.angle (WithLp.toLp 2 a) (WithLp.toLp 2 b))) ∧
    (a = 0 ∨ b = 0 → vectorsAngle (List.ofFn a) (List.ofFn b) = .ub ∧ vectorsAngleN n (List.ofFn a) (List.ofFn b) = .ub) ∧
    ∀ l m : List ℝ, l.length ≠ m.length → vectorsAngle l m = .exn (.mml "VectorDimensionError") := by
  have key : ∀ (a b : Fin n → ℝ), (a ≠ 0 → b ≠ 0 → angleFrom (a ⬝ᵥ b) ‖WithLp.toLp 2 a‖ ‖WithLp.toLp 2 b‖ =
      .ret (InnerProductGeometry.angle (WithLp.toLp 2 a) (WithLp.toLp 2 b))) ∧
      (a = 0 ∨ b = 0 → angleFrom (a ⬝ᵥ b) ‖WithLp.toLp 2 a‖ ‖WithLp.toLp 2 b‖ = .ub) := by
    intro a b
    refine ⟨fun ha hb => ?_, fun h => ?_⟩
    · have ha' : ‖WithLp.toLp 2 a‖ ≠ 0 := by simpa using ha
      have hb' : ‖WithLp.toLp 2 b‖ ≠ 0 := by simpa using hb
      have hab := abs_le.1 (abs_real_inner_div_norm_mul_norm_le_one (WithLp.toLp 2 a) (WithLp.toLp 2 b))
      rw [inner_eq] at hab
      rw [angleFrom, Interp.fdiv, if_neg (mul_ne_zero ha' hb'), Outcome.bind_ret, clamp1, if_neg (not_lt.2 hab.1), if_neg (not_lt.2 hab.2),
        Shp.acosU, if_neg (not_or.2 ⟨not_lt.2 hab.1, not_lt.2 hab.2⟩), InnerProductGeometry.angle, inner_eq]
    · have : ‖WithLp.toLp 2 a‖ * ‖WithLp.toLp 2 b‖ = 0 := by
        rcases h with rfl | rfl <;> simp
      rw [angleFrom, Interp.fdiv, if_pos this, Outcome.bind_ub]
  have e1 : vectorsAngle (List.ofFn a) (List.ofFn b) = angleFrom (a ⬝ᵥ b) ‖WithLp.toLp 2 a‖ ‖WithLp.toLp 2 b‖ := by
    simp only [vectorsAngle, scalarProduct, List.length_ofFn, ne_eq, not_true_eq_false, if_false, dot_loop, Outcome.bind_ret, normL2_eq]
  have e2 : vectorsAngleN n (List.ofFn a) (List.ofFn b) = angleFrom (a ⬝ᵥ b) ‖WithLp.toLp 2 a‖ ‖WithLp.toLp 2 b‖ := by
    simp only [vectorsAngleN, scalarProductN, dot_loop, Outcome.bind_ret, normL2_eq]
  rw [e1, e2]
  refine ⟨fun ha hb => ⟨(key a b).1 ha hb, (key a b).1 ha hb⟩, fun h => ⟨(key a b).2 h, (key a b).2 h⟩, fun l m h => by rw [vectorsAngle, if_pos h]⟩

/-- The hypotheses of the angle are met by perpendicular vectors of the plane. -/
example : (![1, 0] : Fin 2 → ℝ) ≠ 0 ∧ (![0, 2] : Fin 2 → ℝ) ≠ 0 :=
  ⟨fun h => by simpa using congrFun h 0, fun h => by simpa using congrFun h 1⟩

/-! ## Projections -/

/-- **Projections.**  For a non-zero direction `b` the vector is split into a multiple of `b` and a vector orthogonal to `b`; the zero direction
makes the quotient undefined, different sizes are refused. -/
theorem projection_spec (n : ℕ) (v b : Fin n → ℝ) :
    (b ≠ 0 → ∃ p q : Fin n → ℝ, parallelTo (List.ofFn v) (List.ofFn b) = .ret (List.ofFn p) ∧
      perpendicularTo (List.ofFn v) (List.ofFn b) = .ret (List.ofFn q) ∧ p + q = v ∧ (∃ c : ℝ, p = c • b) ∧ (∑ i, q i * b i) = 0) ∧
    (b = 0 → parallelTo (List.ofFn v) (List.ofFn b) = .ub ∧ perpendicularTo (List.ofFn v) (List.ofFn b) = .ub) ∧
    ∀ l m : List ℝ, l.length ≠ m.length → parallelTo l m = .exn (.mml "VectorDimensionError") ∧
      perpendicularTo l m = .exn (.mml "VectorDimensionError") := by
  obtain ⟨hd, -, hs, -⟩ := scalarProduct_spec
  refine ⟨fun hb => ?_, fun hb => ?_, fun l m h => ?_⟩
  · have hbb : (∑ i, b i * b i) ≠ 0 := by
      intro h0
      rw [Finset.sum_eq_zero_iff_of_nonneg fun i _ => mul_self_nonneg _] at h0
      exact hb (funext fun i => by simpa using h0 i (Finset.mem_univ _))
    set c := (∑ i, v i * b i) / (∑ i, b i * b i) with hc
    have hp : parallelTo (List.ofFn v) (List.ofFn b) = .ret (List.ofFn (c • b)) := by
      rw [parallelTo, (hs n v b).1, Outcome.bind_ret, (hs n b b).1, Outcome.bind_ret, Interp.fdiv, if_neg hbb, Outcome.bind_ret, ← hc]
      congr 1
      rw [List.map_ofFn]; rfl
    refine ⟨c • b, v - c • b, hp, ?_, by abel, ⟨c, rfl⟩, ?_⟩
    · rw [perpendicularTo, hp, Outcome.bind_ret, vecSub, if_neg (by simp)]
      congr 1
      apply List.ext_getElem
      · simp
      · intro i h1 h2; simp
    · have : ∑ i, (v - c • b) i * b i = (∑ i, v i * b i) - c * ∑ i, b i * b i := by
        rw [Finset.mul_sum, ← Finset.sum_sub_distrib]
        exact Finset.sum_congr rfl fun i _ => by simp; ring
      rw [this, hc, div_mul_cancel₀ _ hbb, sub_self]
  · subst hb
    have : parallelTo (List.ofFn v) (List.ofFn (0 : Fin n → ℝ)) = .ub := by
      rw [parallelTo, (hs n v 0).1, Outcome.bind_ret, (hs n 0 0).1, Outcome.bind_ret, Interp.fdiv, if_pos (by simp), Outcome.bind_ub]
    exact ⟨this, by rw [perpendicularTo, this, Outcome.bind_ub]⟩
  · have : parallelTo l m = .exn (.mml "VectorDimensionError") := by rw [parallelTo, hd l m h, Outcome.bind_exn]
    exact ⟨this, by rw [perpendicularTo, this, Outcome.bind_exn]⟩

/-! ## Index symbols -/

/-- **The three-index symbol** is the sign of the permutation `(1, 2, 3) ↦ (i, j, k)` and 0 for every other triple of integers. -/
theorem leviCivita3_spec :
    (∀ σ : Equiv.Perm (Fin 3), leviCivita3 ((σ 0 : ℕ) + 1) ((σ 1 : ℕ) + 1) ((σ 2 : ℕ) + 1) = (Equiv.Perm.sign σ : ℤ)) ∧
    (∀ i j k : ℤ, (¬ ∃ σ : Equiv.Perm (Fin 3), i = (σ 0 : ℕ) + 1 ∧ j = (σ 1 : ℕ) + 1 ∧ k = (σ 2 : ℕ) + 1) → leviCivita3 i j k = 0) := by
  refine ⟨by decide, fun i j k h => ?_⟩
  unfold leviCivita3
  split_ifs with h0 h1 h2 h3 h4 h5 h6
  · rfl
  · exact absurd ⟨1, by simp [h1]⟩ h
  · exact absurd ⟨finRotate 3, by obtain ⟨rfl, rfl, rfl⟩ := h2; decide⟩ h
  · exact absurd ⟨(finRotate 3)⁻¹, by obtain ⟨rfl, rfl, rfl⟩ := h3; decide⟩ h
  · exact absurd ⟨Equiv.swap 0 2, by obtain ⟨rfl, rfl, rfl⟩ := h4; decide⟩ h
  · exact absurd ⟨Equiv.swap 0 1, by obtain ⟨rfl, rfl, rfl⟩ := h5; decide⟩ h
  · exact absurd ⟨Equiv.swap 1 2, by obtain ⟨rfl, rfl, rfl⟩ := h6; decide⟩ h
  · rfl

theorem lcCheck_false : ∀ (l : List ℤ) (present : List Bool), present.length = 5 →
    (∃ x ∈ l, x < 1 ∨ 4 < x) ∨ (∃ x ∈ l, 1 ≤ x ∧ x ≤ 4 ∧ present[x.toNat]? = some true) ∨ ¬ l.Nodup → lcCheck present l = .ret false := by
  intro l
  induction l with
  | nil => intro p _ h; simp at h
  | cons x xs ih =>
    intro p hp h
    rw [lcCheck]
    by_cases hx : x < 1 ∨ x > 4
    · rw [if_pos hx]
    · rw [if_neg hx]
      push Not at hx
      have hlt : x.toNat < p.length := by omega
      have e : Outcome.index p x.toNat = .ret p[x.toNat] := by simp [Outcome.index, hlt]
      rw [e, Outcome.bind_ret]
      by_cases hb : p[x.toNat] = true
      · rw [if_pos hb]
      · rw [if_neg hb, Outcome.store, if_pos hlt, Outcome.bind_ret]
        refine ih _ (by simpa using hp) ?_
        rcases h with ⟨y, hy, hy'⟩ | ⟨y, hy, h1, h2, h3⟩ | h
        · rcases List.mem_cons.1 hy with rfl | hy
          · omega
          · exact Or.inl ⟨y, hy, hy'⟩
        · rcases List.mem_cons.1 hy with rfl | hy
          · rw [List.getElem?_eq_getElem hlt] at h3
            exact absurd (Option.some.inj h3) hb
          · refine Or.inr (Or.inl ⟨y, hy, h1, h2, ?_⟩)
            rw [List.getElem?_set]
            split_ifs <;> first | rfl | exact h3
        · rw [List.nodup_cons] at h
          by_cases hxs : x ∈ xs
          · refine Or.inr (Or.inl ⟨x, hxs, hx.1, hx.2, ?_⟩)
            rw [List.getElem?_set, if_pos rfl, if_pos hlt]
          · exact Or.inr (Or.inr fun hn => h ⟨hxs, hn⟩)

/-- **The four-index symbol** is the sign of the permutation `(1, 2, 3, 4) ↦ (i, j, k, l)` and 0 for every other quadruple of integers. -/
theorem leviCivita4_spec :
    (∀ σ : Equiv.Perm (Fin 4),
      leviCivita4 ((σ 0 : ℕ) + 1) ((σ 1 : ℕ) + 1) ((σ 2 : ℕ) + 1) ((σ 3 : ℕ) + 1) = .ret (Equiv.Perm.sign σ : ℤ)) ∧
    (∀ i j k l : ℤ, (¬ ∃ σ : Equiv.Perm (Fin 4), i = (σ 0 : ℕ) + 1 ∧ j = (σ 1 : ℕ) + 1 ∧ k = (σ 2 : ℕ) + 1 ∧ l = (σ 3 : ℕ) + 1) →
      leviCivita4 i j k l = .ret 0) := by
  refine ⟨by decide, fun i j k l h => ?_⟩
  rw [leviCivita4, lcCheck_false _ _ rfl]
  · rfl
  · by_contra hc
    push Not at hc
    obtain ⟨h1, -, h2⟩ := hc
    simp only [List.mem_cons, List.not_mem_nil, or_false, forall_eq_or_imp, forall_eq] at h1
    simp only [List.nodup_cons, List.mem_cons, List.not_mem_nil, or_false, not_or, not_false_eq_true, List.nodup_nil, and_true] at h2
    obtain ⟨⟨a1, a2⟩, ⟨b1, b2⟩, ⟨c1, c2⟩, d1, d2⟩ := h1
    obtain ⟨⟨e1, e2, e3⟩, ⟨e4, e5⟩, e6⟩ := h2
    refine h ?_
    let f : Fin 4 → Fin 4 := ![⟨(i - 1).toNat, by omega⟩, ⟨(j - 1).toNat, by omega⟩, ⟨(k - 1).toNat, by omega⟩, ⟨(l - 1).toNat, by omega⟩]
    have hf : Function.Injective f := by
      intro a b hab
      have := congrArg Fin.val hab
      fin_cases a <;> fin_cases b <;> simp [f] at this ⊢ <;> omega
    refine ⟨Equiv.ofBijective f (Finite.injective_iff_bijective.1 hf), ?_, ?_, ?_, ?_⟩ <;> simp [f] <;> omega

/-- **The contraction identities** `∑ᵢ εᵢⱼₖ εᵢₘₙ = δⱼₘ δₖₙ - δⱼₙ δₖₘ` for all indices 1 to 3, and the Kronecker delta. -/
theorem leviCivita_contraction :
    (∀ j k m n : ℤ, 1 ≤ j → j ≤ 3 → 1 ≤ k → k ≤ 3 → 1 ≤ m → m ≤ 3 → 1 ≤ n → n ≤ 3 →
      leviCivita3 1 j k * leviCivita3 1 m n + leviCivita3 2 j k * leviCivita3 2 m n + leviCivita3 3 j k * leviCivita3 3 m n =
        kroneckerDelta j m * kroneckerDelta k n - kroneckerDelta j n * kroneckerDelta k m) ∧
    (∀ i j : ℤ, (i = j → kroneckerDelta i j = 1) ∧ (i ≠ j → kroneckerDelta i j = 0)) := by
  refine ⟨fun j k m n h1 h2 h3 h4 h5 h6 h7 h8 => ?_, fun i j => ⟨fun h => by simp [kroneckerDelta, h], fun h => by simp [kroneckerDelta, h]⟩⟩
  interval_cases j <;> interval_cases k <;> interval_cases m <;> interval_cases n <;> decide

end Verif.Util
