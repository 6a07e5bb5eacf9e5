import Verif.AD.Spec
import Mathlib.Analysis.SpecialFunctions.Pow.Deriv
import Mathlib.Analysis.SpecialFunctions.Sqrt
import Mathlib.Analysis.SpecialFunctions.Trigonometric.ArctanDeriv
import Mathlib.Analysis.SpecialFunctions.Trigonometric.InverseDeriv
import Mathlib.Analysis.SpecialFunctions.Trigonometric.DerivHyp
import Mathlib.Analysis.SpecialFunctions.Complex.LogDeriv
import Mathlib.Analysis.Calculus.Deriv.Abs
import Mathlib.Analysis.Calculus.FDeriv.Prod
import Mathlib.Analysis.Calculus.FDeriv.RestrictScalars
import Mathlib.Topology.Algebra.Order.Floor

/-!
# The differentiation rules behind the operations on duals
-/

set_option autoImplicit false

namespace Verif.AD

open Verif Filter Topology

variable {n : ℕ}

/-- An expression is correct at a point when its function is differentiable there and evaluating it on duals returns, whatever
the seeds, its value and the derivative along the seeds. -/
def Correct (tiny : ℝ) (e : Expr n) (x : Fin n → ℝ) : Prop :=
  ∃ L : (Fin n → ℝ) →L[ℝ] ℝ, HasFDerivAt e.fn L x ∧
    ∀ d : Fin n → ℝ, e.dual tiny (fun i => ⟨x i, d i⟩) = .ret ⟨e.fn x, L d⟩

/-- A unary operation obeys the chain rule at `v`. -/
def Unary (op : Dual → Outcome Dual) (g : ℝ → ℝ) (v : ℝ) : Prop :=
  ∃ g' : ℝ, HasDerivAt g g' v ∧ ∀ d, op ⟨v, d⟩ = .ret ⟨g v, g' * d⟩

/-- A binary operation obeys the chain rule at `(u, v)`. -/
def Binary (op : Dual → Dual → Outcome Dual) (g : ℝ → ℝ → ℝ) (u v : ℝ) : Prop :=
  ∃ L : ℝ × ℝ →L[ℝ] ℝ, HasFDerivAt (fun p : ℝ × ℝ => g p.1 p.2) L (u, v) ∧
    ∀ d e, op ⟨u, d⟩ ⟨v, e⟩ = .ret ⟨g u v, L (d, e)⟩

theorem Correct.unary {tiny : ℝ} {a e : Expr n} {x : Fin n → ℝ} {op : Dual → Outcome Dual} {g : ℝ → ℝ}
    (ha : Correct tiny a x) (hop : Unary op g (a.fn x)) (hfn : e.fn = fun y => g (a.fn y))
    (hdual : ∀ y, e.dual tiny y = (a.dual tiny y >>= op)) : Correct tiny e x := by
  obtain ⟨L, hL, hd⟩ := ha
  obtain ⟨g', hg, ho⟩ := hop
  refine ⟨g' • L, ?_, fun d => ?_⟩
  · rw [hfn]; exact hg.comp_hasFDerivAt x hL
  · rw [hdual, hd, Outcome.bind_ret, ho, hfn]; rfl

theorem Correct.binary {tiny : ℝ} {a b e : Expr n} {x : Fin n → ℝ} {op : Dual → Dual → Outcome Dual} {g : ℝ → ℝ → ℝ}
    (ha : Correct tiny a x) (hb : Correct tiny b x) (hop : Binary op g (a.fn x) (b.fn x))
    (hfn : e.fn = fun y => g (a.fn y) (b.fn y))
    (hdual : ∀ y, e.dual tiny y = (a.dual tiny y >>= fun u => b.dual tiny y >>= fun v => op u v)) : Correct tiny e x := by
  obtain ⟨L, hL, hd⟩ := ha
  obtain ⟨M, hM, he⟩ := hb
  obtain ⟨T, hT, ho⟩ := hop
  refine ⟨T.comp (L.prod M), ?_, fun d => ?_⟩
  · rw [hfn]
    exact HasFDerivAt.comp (g := fun p : ℝ × ℝ => g p.1 p.2) x hT (hL.prodMk hM)
  · rw [hdual, hd, Outcome.bind_ret, he, Outcome.bind_ret, ho, hfn]; rfl

/-! ## Unary operations -/

theorem unary_neg (v : ℝ) : Unary (fun u => .ret u.neg) (fun t => -t) v :=
  ⟨-1, hasDerivAt_neg v, fun d => by simp [Dual.neg]⟩

theorem unary_sqrt {v : ℝ} (h : 0 < v) : Unary Dual.sqrt Real.sqrt v := by
  refine ⟨_, Real.hasDerivAt_sqrt h.ne', fun d => ?_⟩
  have hs := Real.sqrt_pos.2 h
  simp only [Dual.sqrt, stdSqrt, if_neg (not_lt.2 h.le), Outcome.bind_ret, quot, if_neg (by positivity : ¬ 2 * √v = 0)]
  congr 2; ring

theorem stdPow_smooth {v c : ℝ} (h : PowSmooth v c) :
    stdPow v c = .ret (v ^ c) ∧ stdPow v (c - 1) = .ret (v ^ (c - 1)) ∧ (v ≠ 0 ∨ 1 ≤ c) := by
  rcases h with h | ⟨k, hk, h⟩
  · exact ⟨by simp [stdPow, h], by simp [stdPow, h], .inl h.ne'⟩
  · refine ⟨?_, ?_, h⟩
    · rcases lt_trichotomy v 0 with hv | hv | hv
      · rw [stdPow, if_neg hv.not_gt, if_neg hv.ne, if_pos ⟨k, hk⟩]
      · have hc : 1 ≤ c := h.resolve_left (by simp [hv])
        simp [stdPow, hv, (by linarith : 0 < c), Real.zero_rpow (by linarith : c ≠ 0)]
      · simp [stdPow, hv]
    · rcases lt_trichotomy v 0 with hv | hv | hv
      · rw [stdPow, if_neg hv.not_gt, if_neg hv.ne, if_pos ⟨k - 1, by push_cast; rw [hk]⟩]
      · have hc : 1 ≤ c := h.resolve_left (by simp [hv])
        rcases hc.eq_or_lt with hc | hc
        · simp [stdPow, hv, ← hc]
        · simp [stdPow, hv, (by linarith : 0 < c - 1), hc, Real.zero_rpow (by linarith : c - 1 ≠ 0)]
      · simp [stdPow, hv]

theorem unary_powConst {v c : ℝ} (h : PowSmooth v c) : Unary (fun u => u.powConst c) (fun t => t ^ c) v := by
  obtain ⟨h₁, h₂, h₃⟩ := stdPow_smooth h
  refine ⟨_, Real.hasDerivAt_rpow_const h₃, fun d => ?_⟩
  simp only [Dual.powConst, h₁, h₂, Outcome.bind_ret]

theorem unary_constPow {c v : ℝ} (h : 0 < c) : Unary (fun u => Dual.constPow c u) (fun t => c ^ t) v := by
  refine ⟨_, (Real.hasStrictDerivAt_const_rpow h v).hasDerivAt, fun d => ?_⟩
  simp only [Dual.constPow, stdPow, if_pos h, stdLog, if_neg (not_le.2 h), Outcome.bind_ret]

theorem unary_exp (v : ℝ) : Unary (fun u => .ret u.exp) Real.exp v := ⟨_, Real.hasDerivAt_exp v, fun _ => rfl⟩

theorem unary_log {v : ℝ} (h : 0 < v) : Unary Dual.log Real.log v := by
  refine ⟨_, Real.hasDerivAt_log h.ne', fun d => ?_⟩
  simp only [Dual.log, stdLog, if_neg (not_le.2 h), Outcome.bind_ret, quot, if_neg h.ne']
  congr 2; ring

theorem log_ten_pos : 0 < Real.log 10 := Real.log_pos (by norm_num)

theorem unary_log10 {v : ℝ} (h : 0 < v) : Unary Dual.log10 (fun t => Real.logb 10 t) v := by
  have h10 := log_ten_pos
  refine ⟨_, (Real.hasDerivAt_log h.ne').div_const (Real.log 10), fun d => ?_⟩
  simp only [Dual.log10, stdLog, if_neg (not_le.2 h), Outcome.bind_ret, quot,
    if_neg (by positivity : ¬ v * Real.log 10 = 0)]
  congr 2; field_simp

theorem unary_sin (v : ℝ) : Unary (fun u => .ret u.sin) Real.sin v := ⟨_, Real.hasDerivAt_sin v, fun _ => rfl⟩

theorem unary_cos (v : ℝ) : Unary (fun u => .ret u.cos) Real.cos v := ⟨_, Real.hasDerivAt_cos v, fun _ => rfl⟩

theorem unary_tan {v : ℝ} (h : Real.cos v ≠ 0) : Unary Dual.tan Real.tan v := by
  refine ⟨_, Real.hasDerivAt_tan h, fun d => ?_⟩
  simp only [Dual.tan, quot, if_neg (mul_ne_zero h h), Outcome.bind_ret]
  congr 2; field_simp

theorem clear_ends {tiny v : ℝ} (ht : 0 < tiny) (h : tiny ≤ 1 - v ^ 2) : -1 < v ∧ v < 1 := by
  constructor <;> nlinarith

theorem unary_asin {tiny v : ℝ} (ht : 0 < tiny) (h : tiny ≤ 1 - v ^ 2) : Unary (Dual.asin tiny) Real.arcsin v := by
  obtain ⟨h1, h2⟩ := clear_ends ht h
  refine ⟨_, Real.hasDerivAt_arcsin h1.ne' h2.ne, fun d => ?_⟩
  have hm : max (1 - v * v) tiny = 1 - v ^ 2 := by rw [← sq]; exact max_eq_left h
  have hs : 0 < √(1 - v ^ 2) := Real.sqrt_pos.2 (by linarith)
  simp only [Dual.asin, not_or.2 ⟨h1.not_gt, h2.not_gt⟩, if_false, hm, quot, if_neg hs.ne', Outcome.bind_ret]
  congr 2; ring

theorem unary_acos {tiny v : ℝ} (ht : 0 < tiny) (h : tiny ≤ 1 - v ^ 2) : Unary (Dual.acos tiny) Real.arccos v := by
  obtain ⟨h1, h2⟩ := clear_ends ht h
  refine ⟨_, Real.hasDerivAt_arccos h1.ne' h2.ne, fun d => ?_⟩
  have hm : max (1 - v * v) tiny = 1 - v ^ 2 := by rw [← sq]; exact max_eq_left h
  have hs : 0 < √(1 - v ^ 2) := Real.sqrt_pos.2 (by linarith)
  simp only [Dual.acos, not_or.2 ⟨h1.not_gt, h2.not_gt⟩, if_false, hm, quot, if_neg hs.ne', Outcome.bind_ret]
  congr 2; ring

theorem unary_atan (v : ℝ) : Unary (fun u => .ret u.atan) Real.arctan v := by
  refine ⟨_, Real.hasDerivAt_arctan v, fun d => ?_⟩
  simp only [Dual.atan]
  congr 2; ring

theorem unary_sinh (v : ℝ) : Unary (fun u => .ret u.sinh) Real.sinh v := ⟨_, Real.hasDerivAt_sinh v, fun _ => rfl⟩

theorem unary_cosh (v : ℝ) : Unary (fun u => .ret u.cosh) Real.cosh v := ⟨_, Real.hasDerivAt_cosh v, fun _ => rfl⟩

theorem unary_tanh (v : ℝ) : Unary (fun u => .ret u.tanh) Real.tanh v := by
  have hc := (Real.cosh_pos v).ne'
  have h := (Real.hasDerivAt_sinh v).fun_div (Real.hasDerivAt_cosh v) hc
  refine ⟨_, h.congr_of_eventuallyEq (.of_forall fun t => Real.tanh_eq_sinh_div_cosh t), fun d => ?_⟩
  simp only [Dual.tanh, Real.tanh_eq_sinh_div_cosh]
  congr 3; field_simp

theorem unary_abs {v : ℝ} (h : v ≠ 0) : Unary (fun u => .ret u.abs) (fun t => |t|) v := by
  rcases h.lt_or_gt with h | h
  · exact ⟨_, hasDerivAt_abs_neg h, fun d => by simp [Dual.abs, not_le.2 h, abs_of_neg h]⟩
  · exact ⟨_, hasDerivAt_abs_pos h, fun d => by simp [Dual.abs, h.le, abs_of_pos h]⟩

theorem floor_locally {v : ℝ} (h : ∀ k : ℤ, (k : ℝ) ≠ v) : ∀ᶠ t in 𝓝 v, (⌊t⌋ : ℝ) = ⌊v⌋ := by
  have h1 : (⌊v⌋ : ℝ) < v := lt_of_le_of_ne (Int.floor_le v) (h _)
  filter_upwards [Ioo_mem_nhds h1 (Int.lt_floor_add_one v)] with t ht
  congr 1
  exact Int.floor_eq_iff.2 ⟨ht.1.le, ht.2⟩

theorem ceil_locally {v : ℝ} (h : ∀ k : ℤ, (k : ℝ) ≠ v) : ∀ᶠ t in 𝓝 v, (⌈t⌉ : ℝ) = ⌈v⌉ := by
  have h1 : v < (⌈v⌉ : ℝ) := lt_of_le_of_ne (Int.le_ceil v) (h _).symm
  have h2 : (⌈v⌉ : ℝ) - 1 < v := by linarith [Int.ceil_lt_add_one v]
  filter_upwards [Ioo_mem_nhds h2 h1] with t ht
  congr 1
  exact Int.ceil_eq_iff.2 ⟨ht.1, ht.2.le⟩

theorem unary_floor {v : ℝ} (h : ∀ k : ℤ, (k : ℝ) ≠ v) : Unary (fun u => .ret u.floor) (fun t => (⌊t⌋ : ℝ)) v :=
  ⟨0, (hasDerivAt_const v (⌊v⌋ : ℝ)).congr_of_eventuallyEq (floor_locally h), fun d => by simp [Dual.floor]⟩

theorem unary_ceil {v : ℝ} (h : ∀ k : ℤ, (k : ℝ) ≠ v) : Unary (fun u => .ret u.ceil) (fun t => (⌈t⌉ : ℝ)) v :=
  ⟨0, (hasDerivAt_const v (⌈v⌉ : ℝ)).congr_of_eventuallyEq (ceil_locally h), fun d => by simp [Dual.ceil]⟩

/-! ## Binary operations -/

theorem binary_add (u v : ℝ) : Binary (fun a b => .ret (a.add b)) (fun s t => s + t) u v :=
  ⟨_, hasFDerivAt_fst.fun_add hasFDerivAt_snd, fun d e => by simp [Dual.add]⟩

theorem binary_sub (u v : ℝ) : Binary (fun a b => .ret (a.sub b)) (fun s t => s - t) u v :=
  ⟨_, hasFDerivAt_fst.fun_sub hasFDerivAt_snd, fun d e => by simp [Dual.sub]⟩

theorem binary_mul (u v : ℝ) : Binary (fun a b => .ret (a.mul b)) (fun s t => s * t) u v :=
  ⟨_, hasFDerivAt_fst.fun_mul hasFDerivAt_snd, fun d e => by simp [Dual.mul]; ring⟩

theorem binary_div {u v : ℝ} (h : v ≠ 0) : Binary Dual.div (fun s t => s / t) u v := by
  have hi : HasFDerivAt (fun p : ℝ × ℝ => p.2⁻¹) ((-(v ^ 2)⁻¹) • ContinuousLinearMap.snd ℝ ℝ ℝ) (u, v) :=
    HasDerivAt.comp_hasFDerivAt (h₂ := fun t : ℝ => t⁻¹) (u, v) (hasDerivAt_inv h) hasFDerivAt_snd
  refine ⟨_, hasFDerivAt_fst.fun_mul hi, fun d e => ?_⟩
  simp only [Dual.div, quot, if_neg h, Outcome.bind_ret]
  congr 2
  · field_simp
  · simp; field_simp; ring

theorem binary_pow {u v : ℝ} (h : 0 < u) : Binary Dual.pow (fun s t => s ^ t) u v := by
  refine ⟨_, (Real.hasStrictFDerivAt_rpow_of_pos (u, v) h).hasFDerivAt, fun d e => ?_⟩
  have hl : ¬ u ≤ 0 := not_le.2 h
  have hp : u ^ (v - 1) = u ^ v / u := Real.rpow_sub_one h.ne' v
  unfold Dual.pow
  dsimp only
  split_ifs with he hd
  · simp [Dual.powConst, stdPow, h, he]
  · simp [Dual.constPow, stdPow, stdLog, h, hl, hd]
  · simp only [Dual.powGeneral, stdPow, if_pos h, stdLog, if_neg hl, quot, if_neg h.ne', Outcome.bind_ret]
    congr 2
    simp [hp]
    field_simp
    ring

theorem binary_atan2 {u v : ℝ} (h : 0 < v ∨ u ≠ 0) : Binary Dual.atan2 (fun s t => Complex.arg ⟨t, s⟩) u v := by
  have hz : (⟨v, u⟩ : ℂ) ∈ Complex.slitPlane := by rw [Complex.mem_slitPlane_iff]; exact h
  have hpair : HasFDerivAt (fun p : ℝ × ℝ => (⟨p.2, p.1⟩ : ℂ))
      ((Complex.equivRealProdCLM.symm : (ℝ × ℝ) →L[ℝ] ℂ).comp
        ((ContinuousLinearMap.snd ℝ ℝ ℝ).prod (ContinuousLinearMap.fst ℝ ℝ ℝ))) (u, v) :=
    ((Complex.equivRealProdCLM.symm : (ℝ × ℝ) →L[ℝ] ℂ).comp
        ((ContinuousLinearMap.snd ℝ ℝ ℝ).prod (ContinuousLinearMap.fst ℝ ℝ ℝ))).hasFDerivAt
  have hlog := (Complex.hasStrictFDerivAt_log_real hz).hasFDerivAt
  have hc := HasFDerivAt.comp (u, v) (Complex.imCLM.hasFDerivAt (x := Complex.log ⟨v, u⟩))
    (HasFDerivAt.comp (g := Complex.log) (f := fun p : ℝ × ℝ => (⟨p.2, p.1⟩ : ℂ)) (u, v) hlog hpair)
  have hne : v * v + u * u ≠ 0 := by
    rcases h with h | h
    · nlinarith [mul_self_nonneg u, mul_pos h h]
    · have := mul_self_pos.2 h
      nlinarith [mul_self_nonneg v]
  refine ⟨_, hc.congr_of_eventuallyEq (.of_forall fun p => (Complex.log_im _).symm), fun d e => ?_⟩
  simp only [Dual.atan2, quot, if_neg hne, Outcome.bind_ret]
  congr 2
  simp [Complex.inv_re, Complex.inv_im, Complex.normSq_apply, Complex.mul_im, Complex.equivRealProd_symm_apply]
  field_simp
  ring

end Verif.AD
