import Verif.Coord.VecProps
import Verif.Coord.Props
import Verif.Deriv.Mixed

/-!
# The metric tensor (C103)

Raising and lowering of indices, Christoffel symbols, covariant derivatives and the metrics of the usual coordinates.
-/

set_option autoImplicit false

namespace Verif.Coord

open Verif Deriv

variable {N : ℕ}

/-! ## Specification -/

/-- The Christoffel symbol of the first kind of a metric with the derivatives `d i j k` of element `(i, j)` by variable `k`. -/
noncomputable def firstKind (d : Fin N → Fin N → Fin N → ℝ) (i j k : Fin N) : ℝ := (d i k j + d j k i - d i j k) / 2

/-- The metric is symmetric. -/
def Symmetric (g : Metric N) : Prop := ∀ i j p, g i j p = g j i p

/-! ## The inverse -/

/-- The elements of a matrix by natural numbers. -/
def fnN (m : Matrix (Fin N) (Fin N) ℝ) (i j : ℕ) : ℝ := if h : i < N ∧ j < N then m ⟨i, h.1⟩ ⟨j, h.2⟩ else 0

theorem toDense_ofFn (m : Matrix (Fin N) (Fin N) ℝ) : toDense m = Mat.Dense.ofFn N N (fnN m) := rfl

theorem ofDense_ofFn' (f : ℕ → ℕ → ℝ) (i j : Fin N) : ofDense N (Mat.Dense.ofFn N N f) i j = f i j := by
  have h : i.1 * N + j.1 < N * N := by
    calc i.1 * N + j.1 < i.1 * N + N := by have := j.2; omega
      _ = (i.1 + 1) * N := by ring
      _ ≤ N * N := Nat.mul_le_mul_right _ i.2
  have e1 : (i.1 * N + j.1) / N = i.1 := by
    rw [mul_comm, Nat.mul_add_div (by have := i.2; omega), Nat.div_eq_of_lt j.2, add_zero]
  have e2 : (i.1 * N + j.1) % N = j.1 := by
    rw [mul_comm, Nat.mul_add_mod, Nat.mod_eq_of_lt j.2]
  rw [ofDense, Mat.Dense.ofFn]
  simp only
  rw [getD_tab _ _ _ h, e1, e2]

theorem inverseN_spec {eps : ℝ} (he : 0 < eps) (hN : 0 < N) (hN' : N ≤ 10000) {m : Matrix (Fin N) (Fin N) ℝ} (hm : m ≠ 0) :
    inverse eps m ≠ .ub ∧ (∀ e, inverse eps m = .exn e → e = .mml "SingularMatrixError") ∧
    (∀ v, inverse eps m = .ret v → m * v = 1) ∧ (m.det = 0 → inverse eps m = .exn (.mml "SingularMatrixError")) := by
  have hsh : Mat.Dense.Shape N N := Or.inr ⟨hN, hN, by omega, by omega, by nlinarith⟩
  have hI : Mat.Dense.Is (toDense m) N N (fnN m) := by
    rw [toDense_ofFn]
    exact Mat.Dense.is_ofFn hsh _
  have hne : ∃ r < N, ∃ c < N, fnN m r c ≠ 0 := by
    by_contra hn
    push Not at hn
    apply hm
    ext i j
    have := hn i i.2 j j.2
    simpa [fnN] using this
  obtain ⟨h1, h2, h3⟩ := LinAlg.invert_correct_partial eps he _ N _ hI hne
  have hr : ∀ v, inverse eps m = .ret v → m * v = 1 := by
    intro v hv
    rw [inverse] at hv
    cases h : LinAlg.invert eps (toDense m) with
    | ub => exact absurd h h1
    | exn e => rw [h] at hv; simp at hv
    | ret d =>
      rw [h, Outcome.bind_ret] at hv
      obtain ⟨hd, ⟨e, he1, he2⟩, e', he3, he4⟩ := h3 d h
      obtain ⟨r, c, f, hs, rfl⟩ := hd.exists_ofFn
      rw [toDense_ofFn] at he1 he3
      have hr3 : r = N := by
        by_contra hn
        rw [Mat.Dense.mul, if_pos (by simp only [Mat.Dense.ofFn_rows, Mat.Dense.ofFn_cols]; omega)] at he1
        simp at he1
      have hc3 : c = N := by
        by_contra hn
        rw [Mat.Dense.mul, if_pos (by simp only [Mat.Dense.ofFn_rows, Mat.Dense.ofFn_cols]; omega)] at he3
        simp at he3
      subst hr3 hc3
      rw [Mat.Dense.mul_ofFn hsh] at he1
      rw [← Outcome.ret.inj he1] at he2
      rw [← Outcome.ret.inj hv]
      ext i j
      have hg := he2.2.2.2 i i.2 j j.2
      rw [Mat.Dense.get_ofFn _ i.2 j.2] at hg
      have hg := Outcome.ret.inj hg
      rw [Matrix.mul_apply, Matrix.one_apply]
      simp only [ofDense_ofFn']
      rw [Finset.sum_range] at hg
      rw [LinAlg.δ] at hg
      simp only [Fin.val_inj] at hg
      rw [← hg]
      refine Finset.sum_congr rfl fun k _ => ?_
      simp [fnN]
  refine ⟨?_, ?_, hr, ?_⟩
  · rw [inverse]
    cases h : LinAlg.invert eps (toDense m) with
    | ub => exact absurd h h1
    | exn e => simp
    | ret d => simp
  · intro e h
    rw [inverse] at h
    cases h' : LinAlg.invert eps (toDense m) with
    | ub => exact absurd h' h1
    | exn e' =>
      rw [h', Outcome.bind_exn] at h
      rw [← Outcome.exn.inj h]
      exact h2 e' h'
    | ret d => rw [h'] at h; simp at h
  · intro hd
    rw [inverse, (LinAlg.invert_decides eps he _ N _ (fnN m) hI).1 ?_ hne, Outcome.bind_exn]
    obtain ⟨v, hv, hv0⟩ := Matrix.exists_vecMul_eq_zero_iff.2 hd
    obtain ⟨k, hk⟩ := Function.ne_iff.1 hv
    refine ⟨fun i => if h : i < N then v ⟨i, h⟩ else 0, ⟨k, k.2, by simpa using hk⟩, fun c hc => ?_⟩
    have := congrFun hv0 ⟨c, hc⟩
    rw [Finset.sum_range]
    simp only [Matrix.vecMul, dotProduct, Pi.zero_apply] at this
    rw [← this]
    refine Finset.sum_congr rfl fun i _ => ?_
    simp [fnN, hc]

/-- The elimination returns for matrices far enough from singular. -/
theorem inverseN_returns {eps : ℝ} (he : 0 < eps) (hN : 0 < N) (hN' : N ≤ 10000) {m v : Matrix (Fin N) (Fin N) ℝ} (hmv : m * v = 1) {M : ℝ}
    (hM : ∀ i j, |m i j| ≤ M) (hc : ∀ j, eps * M * N * ∑ i, |v i j| ≤ 1) : ∃ w, inverse eps m = .ret w := by
  have hsh : Mat.Dense.Shape N N := Or.inr ⟨hN, hN, by omega, by omega, by nlinarith⟩
  have hI : Mat.Dense.Is (toDense m) N N (fnN m) := by
    rw [toDense_ofFn]
    exact Mat.Dense.is_ofFn hsh _
  have hwc : LinAlg.WellConditioned eps N (fnN m) (fnN v) → ∃ w, inverse eps m = .ret w := fun h => by
    obtain ⟨d, hd⟩ := (LinAlg.invert_decides eps he _ N _ (fnN v) hI).2 hN h
    exact ⟨_, by rw [inverse, hd, Outcome.bind_ret]⟩
  refine hwc ⟨fun r hr c hc => ?_, M, ?_, fun r hr c hc => ?_, fun j hj => ?_⟩
  · rw [Finset.sum_range]
    have := congrFun (congrFun hmv ⟨r, hr⟩) ⟨c, hc⟩
    rw [Matrix.mul_apply, Matrix.one_apply] at this
    simp only [Fin.mk.injEq] at this
    rw [LinAlg.δ, ← this]
    exact Finset.sum_congr rfl fun k _ => by simp [fnN, hr, hc]
  · exact (abs_nonneg _).trans (hM ⟨0, hN⟩ ⟨0, hN⟩)
  · simpa [fnN, hr, hc] using hM ⟨r, hr⟩ ⟨c, hc⟩
  · rw [Finset.sum_range]
    refine le_of_eq_of_le ?_ (hc ⟨j, hj⟩)
    congr 1
    exact Finset.sum_congr rfl fun i _ => by simp [fnN, hj]

theorem inverse_unique {m v w : Matrix (Fin N) (Fin N) ℝ} (h1 : m * v = 1) (h2 : m * w = 1) : v = w := by
  have h3 : v * m = 1 := mul_eq_one_comm.1 h1
  rw [← Matrix.one_mul w, ← h3, Matrix.mul_assoc, h2, Matrix.mul_one]

namespace Metric

/-! ## Raising and lowering -/

/-- `GetContravariantMetric` returns the inverse of `GetCovariantMetric`; a metric that is singular at the point is refused. -/
theorem contravariant_spec {eps : ℝ} (he : 0 < eps) (hN : 0 < N) (hN' : N ≤ 10000) (g : Metric N) (p : Fin N → ℝ) (hg : g.covariant p ≠ 0) :
    g.contravariant eps p ≠ .ub ∧ (∀ e, g.contravariant eps p = .exn e → e = .mml "SingularMatrixError") ∧
    (∀ h, g.contravariant eps p = .ret h → g.covariant p * h = 1 ∧ h * g.covariant p = 1) ∧
    ((g.covariant p).det = 0 → g.contravariant eps p = .exn (.mml "SingularMatrixError")) := by
  obtain ⟨h1, h2, h3, h4⟩ := inverseN_spec he hN hN' hg
  exact ⟨h1, h2, fun h hh => ⟨h3 h hh, mul_eq_one_comm.1 (h3 h hh)⟩, h4⟩

theorem contravariant_mul {eps : ℝ} (he : 0 < eps) (hN : 0 < N) (hN' : N ≤ 10000) {g : Metric N} {p : Fin N → ℝ} (hg : g.covariant p ≠ 0)
    {h : Matrix (Fin N) (Fin N) ℝ} (hh : g.contravariant eps p = .ret h) : g.covariant p * h = 1 ∧ h * g.covariant p = 1 :=
  (contravariant_spec he hN hN' g p hg).2.2.1 h hh

/-- Raising an index and lowering it again, in either order, returns the vector; the product of the lowered vector with a vector is the value of the metric. -/
theorem raise_lower {eps : ℝ} (he : 0 < eps) (hN : 0 < N) (hN' : N ≤ 10000) (g : Metric N) (p v : Fin N → ℝ) (hg : g.covariant p ≠ 0)
    {h : Matrix (Fin N) (Fin N) ℝ} (hh : g.contravariant eps p = .ret h) :
    g.raise eps (g.lower v p) p = .ret v ∧ (∃ w, g.raise eps v p = .ret w ∧ g.lower w p = v) ∧
    ∀ w : Fin N → ℝ, ∑ i, g.lower v p i * w i = ∑ i, ∑ j, g i j p * w i * v j := by
  obtain ⟨h1, h2⟩ := contravariant_mul he hN hN' hg hh
  refine ⟨?_, ⟨Matrix.mulVec h v, ?_, ?_⟩, fun w => ?_⟩
  · rw [raise, hh, Outcome.bind_ret]
    congr 1
    change Matrix.mulVec h (Matrix.mulVec (g.covariant p) v) = v
    rw [Matrix.mulVec_mulVec, h2, Matrix.one_mulVec]
  · rw [raise, hh, Outcome.bind_ret]
    rfl
  · change Matrix.mulVec (g.covariant p) (Matrix.mulVec h v) = v
    rw [Matrix.mulVec_mulVec, h1, Matrix.one_mulVec]
  · refine Finset.sum_congr rfl fun i _ => ?_
    rw [lower, Finset.sum_mul]
    exact Finset.sum_congr rfl fun j _ => by rw [covariant]; ring

/-- Raising and then lowering the same index of a tensor of rank two returns its elements. -/
theorem raise2_lower2 {eps : ℝ} (he : 0 < eps) (hN : 0 < N) (hN' : N ≤ 10000) (g : Metric N) (t : Tensor 2 N) (index : ℤ) (p : Fin N → ℝ) (hg : g.covariant p ≠ 0)
    {h : Matrix (Fin N) (Fin N) ℝ} (hh : g.contravariant eps p = .ret h) :
    ∃ u w, g.raise2 eps t index p = .ret u ∧ g.lower2 u index p = .ret w ∧ ∀ m, w.coeff m = t.coeff m := by
  obtain ⟨h1, h2⟩ := contravariant_mul he hN hN' hg hh
  have hn : Tensor.new 2 N 1 1 = .ret ⟨fun _ => 0, 1, 1, fun i => decide ((1 : ℤ) ≤ i)⟩ := by simp [Tensor.new]
  refine ⟨_, _, by rw [raise2, hh, Outcome.bind_ret, hn, Outcome.bind_ret], by rw [lower2, hn, Outcome.bind_ret], fun m => ?_⟩
  have key : ∀ (F : Fin N → ℝ) (i : Fin N), ∑ k, g.covariant p i k * ∑ l, h k l * F l = F i := by
    intro F i
    have := congrFun (show Matrix.mulVec (g.covariant p) (Matrix.mulVec h F) = F by rw [Matrix.mulVec_mulVec, h1, Matrix.one_mulVec]) i
    exact this
  by_cases hi : index = 0
  · simp only [hi, if_true]
    have := key (fun l => t.coeff ![l, m 1]) (m 0)
    simp only [Matrix.cons_val_zero, Matrix.cons_val_one] at this ⊢
    rw [this]
    congr 1
    funext j
    fin_cases j <;> rfl
  · simp only [hi, if_false]
    have := key (fun l => t.coeff ![m 0, l]) (m 1)
    simp only [Matrix.cons_val_zero, Matrix.cons_val_one] at this ⊢
    rw [this]
    congr 1
    funext j
    fin_cases j <;> rfl

/-- **Disagreement.**  Whatever index is raised, and whatever the other one is, the result says that its first index is lower and its second upper: raising the
first index of a tensor with lower indices gives a tensor `T^i_j` that is labelled `T_i^j`, and raising both gives one that is still labelled mixed. -/
theorem raise2_variance {eps : ℝ} (g : Metric N) (t : Tensor 2 N) (p : Fin N → ℝ) {h : Matrix (Fin N) (Fin N) ℝ} (hh : g.contravariant eps p = .ret h) :
    ∃ u w, g.raise2 eps t 0 p = .ret u ∧ u.isContravar 0 = false ∧ u.isContravar 1 = true ∧
      g.raise2 eps u 1 p = .ret w ∧ w.numCovar = 1 ∧ w.numContravar = 1 ∧ w.isContravar 0 = false := by
  have hn : Tensor.new 2 N 1 1 = .ret ⟨fun _ => 0, 1, 1, fun i => decide ((1 : ℤ) ≤ i)⟩ := by simp [Tensor.new]
  refine ⟨⟨_, 1, 1, fun i => decide ((1 : ℤ) ≤ i)⟩, ⟨_, 1, 1, fun i => decide ((1 : ℤ) ≤ i)⟩, by rw [raise2, hh, Outcome.bind_ret, hn, Outcome.bind_ret], by simp, by simp, by
    rw [raise2, hh, Outcome.bind_ret, hn, Outcome.bind_ret], rfl, rfl, by simp⟩

/-- The tensor returned at a point has the components of the metric and the variance it was constructed with. -/
theorem tensor_spec (g : Metric N) (p : Fin N → ℝ) (a b : ℕ) (hab : a + b = 2) :
    ∃ t, g.tensor a b p = .ret t ∧ (∀ m, t.coeff m = g (m 0) (m 1) p) ∧ t.numContravar = a ∧ t.numCovar = b ∧ ∀ i, t.isContravar i = true ↔ b ≤ i.1 := by
  obtain ⟨t, h, -, h1, h2, h3, -⟩ := (Tensor.new_spec (r := 2) (N := N) b a).1 (by omega)
  exact ⟨{ t with coeff := fun m => g (m 0) (m 1) p }, by rw [tensor, h, Outcome.bind_ret], fun _ => rfl, h2, h1, h3⟩

/-! ## Christoffel symbols -/

/-- The Christoffel symbols of the second kind are symmetric in the lower indices, exactly, whatever the error of the difference quotients. -/
theorem christoffel2_symm (eps : ℝ) (g : Metric N) (hg : Symmetric g) (i j k : Fin N) (p : Fin N → ℝ) :
    g.christoffel2 eps i j k p = g.christoffel2 eps i k j p := by
  have e : ∀ a b, g a b = g b a := fun a b => funext fun q => hg a b q
  rw [christoffel2, christoffel2]
  congr 1
  funext h
  congr 1
  refine Finset.sum_congr rfl fun l _ => ?_
  rw [e j k]
  ring

theorem foldlM_sum (F : Fin N → Outcome ℝ) (c : Fin N → ℝ) (hF : ∀ m, F m = .ret (c m)) (G : ℝ → Fin N → ℝ → ℝ) (l : List (Fin N)) :
    ∀ s, l.foldlM (fun s m => (do let x ← F m; .ret (G s m x) : Outcome ℝ)) s = .ret (l.foldl (fun s m => G s m (c m)) s) := by
  induction l with
  | nil => intro s; rfl
  | cons a l ih =>
    intro s
    rw [List.foldlM_cons, hF a, Outcome.bind_ret, Outcome.bind_ret, ih, List.foldl_cons]

theorem foldl_add (c : Fin N → ℝ) (s : ℝ) : (List.finRange N).foldl (fun s m => s + c m) s = s + ∑ m, c m := by
  have : ∀ (l : List (Fin N)) (s : ℝ), l.foldl (fun s m => s + c m) s = s + (l.map c).sum := by
    intro l
    induction l with
    | nil => simp
    | cons a l ih => intro s; rw [List.foldl_cons, ih, List.map_cons, List.sum_cons]; ring
  rw [this, ← Fin.sum_univ_def]

/-- The symbols of the second kind: one half of the sum of the inverse metric times the derivatives. -/
theorem christoffel2_ret {eps : ℝ} {g : Metric N} {p : Fin N → ℝ} {h : Matrix (Fin N) (Fin N) ℝ} (hh : g.contravariant eps p = .ret h) (i j k : Fin N) :
    g.christoffel2 eps i j k p = .ret (∑ l, 0.5 * h i l * (der eps none (g l k) j p + der eps none (g l j) k p - der eps none (g j k) l p)) := by
  rw [christoffel2, hh, Outcome.bind_ret]

/-- Lowering the upper index of the symbols of the second kind gives those of the first kind: the textbook combination of the derivatives of the metric, exactly in terms of
the difference quotients.  So the metric is parallel: the derivative of element `(j, k)` is the sum of two symbols. -/
theorem christoffel1_spec {eps : ℝ} (he : 0 < eps) (hN : 0 < N) (hN' : N ≤ 10000) (g : Metric N) (hs : Symmetric g) (p : Fin N → ℝ) (hg : g.covariant p ≠ 0)
    {h : Matrix (Fin N) (Fin N) ℝ} (hh : g.contravariant eps p = .ret h) (i j k : Fin N) :
    g.christoffel1 eps i j k p = .ret (firstKind (fun a b c => der eps none (g a b) c p) i j k) ∧
    ∃ x y, g.christoffel1 eps i j k p = .ret x ∧ g.christoffel1 eps i k j p = .ret y ∧ der eps none (g j k) i p = x + y := by
  obtain ⟨h1, h2⟩ := contravariant_mul he hN hN' hg hh
  have e : ∀ a b, g a b = g b a := fun a b => funext fun q => hs a b q
  have main : ∀ i j k, g.christoffel1 eps i j k p = .ret (firstKind (fun a b c => der eps none (g a b) c p) i j k) := by
    intro i j k
    rw [christoffel1, foldlM_sum _ _ (fun m => christoffel2_ret hh m i j) (fun s m x => s + g m k p * x), foldl_add, zero_add]
    congr 1
    have : ∀ F : Fin N → ℝ, ∑ m, g m k p * ∑ l, h m l * F l = F k := by
      intro F
      have := congrFun (show Matrix.mulVec (g.covariant p) (Matrix.mulVec h F) = F by rw [Matrix.mulVec_mulVec, h1, Matrix.one_mulVec]) k
      rw [← this]
      refine Finset.sum_congr rfl fun m _ => ?_
      rw [e m k]
      rfl
    have h3 := this fun l => (der eps none (g l j) i p + der eps none (g l i) j p - der eps none (g i j) l p) / 2
    have h4 : ∀ m, (∑ l, 0.5 * h m l * (der eps none (g l j) i p + der eps none (g l i) j p - der eps none (g i j) l p)) =
        ∑ l, h m l * ((der eps none (g l j) i p + der eps none (g l i) j p - der eps none (g i j) l p) / 2) := fun m =>
      Finset.sum_congr rfl fun l _ => by norm_num; ring
    simp only [h4]
    rw [h3, firstKind, e k j, e k i]
    ring
  refine ⟨main i j k, _, _, main i j k, main i k j, ?_⟩
  simp only [firstKind]
  rw [e k j]
  ring

/-- The symbols of the first kind of the code differ from the true ones by at most `M * s⁴ / 12`, for a metric whose derivatives of order five are bounded by `M`. -/
theorem christoffel1_order {eps : ℝ} (he : 0 < eps) (hN : 0 < N) (hN' : N ≤ 10000) (g : Metric N) (hs : Symmetric g) (p : Fin N → ℝ) (hg : g.covariant p ≠ 0)
    {h : Matrix (Fin N) (Fin N) ℝ} (hh : g.contravariant eps p = .ret h) {s M : ℝ} (hst : ∀ j, step eps none (p j) ≤ s)
    (hf : ∀ i j, SmoothAt (g i j) p (2 * s) 5 M) (i j k : Fin N) :
    ∃ x, g.christoffel1 eps i j k p = .ret x ∧ |x - firstKind (fun a b c => fderiv ℝ (g a b) p (Pi.single c 1)) i j k| ≤ M * s ^ 4 / 12 := by
  refine ⟨_, (christoffel1_spec he hN hN' g hs p hg hh i j k).1, ?_⟩
  have hd : ∀ a b c, |der eps none (g a b) c p - fderiv ℝ (g a b) p (Pi.single c 1)| ≤ 1 / 18 * M * s ^ 4 := by
    intro a b c
    have hp := step_pos he (p c)
    have hM : 0 ≤ M := (norm_nonneg _).trans ((hf a b).bound p (by simp; linarith [hst c]))
    refine (der_order he (g a b) c p ((hf a b).mono (by linarith [hst c]))).trans ?_
    have := pow_le_pow_left₀ hp.le (hst c) 4
    exact mul_le_mul_of_nonneg_left this (by positivity)
  have h1 := abs_le.1 (hd i k j)
  have h2 := abs_le.1 (hd j k i)
  have h3 := abs_le.1 (hd i j k)
  simp only [firstKind]
  rw [abs_le]
  constructor <;> linarith [h1.1, h1.2, h2.1, h2.2, h3.1, h3.2]

/-! ## Covariant derivatives -/

/-- The covariant derivatives of a vector field and of a covector field: the terms with the Christoffel symbols cancel in the derivative of the product, exactly. -/
theorem covariant_product {eps : ℝ} (g : Metric N) (v w : (Fin N → ℝ) → Fin N → ℝ) (j : Fin N) (p : Fin N → ℝ) {h : Matrix (Fin N) (Fin N) ℝ}
    (hh : g.contravariant eps p = .ret h) :
    ∃ x y : Fin N → ℝ, (∀ i, g.derivContravar eps v i j p = .ret (x i)) ∧ (∀ i, g.derivCovar eps w i j p = .ret (y i)) ∧
      ∑ i, (x i * w p i + v p i * y i) = ∑ i, (der eps none (fun q => v q i) j p * w p i + v p i * der eps none (fun q => w q i) j p) := by
  obtain ⟨Γ, hΓ⟩ : ∃ Γ : Fin N → Fin N → ℝ, ∀ i k, g.christoffel2 eps i k j p = .ret (Γ i k) := ⟨_, fun i k => christoffel2_ret hh i k j⟩
  refine ⟨fun i => der eps none (fun q => v q i) j p + ∑ k, Γ i k * v p k, fun i => der eps none (fun q => w q i) j p - ∑ k, Γ k i * w p k, fun i => ?_, fun i => ?_, ?_⟩
  · rw [derivContravar, foldlM_sum _ _ (fun k => hΓ i k) (fun s k x => s + x * v p k), foldl_add]
  · rw [derivCovar, foldlM_sum _ _ (fun k => hΓ k i) (fun s k x => s - x * w p k)]
    simp only [sub_eq_add_neg]
    rw [foldl_add, Finset.sum_neg_distrib]
  · simp only [Finset.sum_add_distrib, add_mul, mul_sub, Finset.sum_sub_distrib, Finset.sum_mul, Finset.mul_sum]
    rw [Finset.sum_comm (f := fun i k => v p i * (Γ k i * w p k))]
    have : ∀ i k, v p k * (Γ i k * w p i) = Γ i k * v p k * w p i := fun i k => by ring
    simp only [this]
    ring

end Metric

/-! ## The metrics of the usual coordinates -/

theorem metricOf_symm (eps : ℝ) (t : Transf N) : Symmetric (metricOf eps t) := fun i j p => Finset.sum_congr rfl fun k _ => mul_comm _ _

/-- The metric of a transformation: symmetric, never negative, and for vectors of the old coordinates the product of the transformed vectors. -/
theorem metricOf_spec (eps : ℝ) (t : Transf N) (p v w : Fin N → ℝ) :
    (∑ i, ∑ j, metricOf eps t i j p * v i * w j = ∑ k, t.vecContravariant eps v p k * t.vecContravariant eps w p k) ∧
    0 ≤ ∑ i, ∑ j, metricOf eps t i j p * v i * v j ∧ Symmetric (metricOf eps t) := by
  have h : ∀ v w : Fin N → ℝ, ∑ i, ∑ j, metricOf eps t i j p * v i * w j = ∑ k, t.vecContravariant eps v p k * t.vecContravariant eps w p k := by
    intro v w
    simp only [metricOf, Transf.vecContravariant, Finset.sum_mul, Finset.sum_mul_sum]
    rw [Finset.sum_congr rfl fun i _ => Finset.sum_comm, Finset.sum_comm]
    refine Finset.sum_congr rfl fun k _ => Finset.sum_congr rfl fun i _ => ?_
    rw [Finset.mul_sum]
    exact Finset.sum_congr rfl fun j _ => by ring
  refine ⟨h v w, ?_, metricOf_symm eps t⟩
  rw [h]
  exact Finset.sum_nonneg fun k _ => mul_self_nonneg _

/-- The metric in Cartesian coordinates is the identity, and all its Christoffel symbols vanish; the same holds for the symbols of the Minkowski metric, which is its own inverse. -/
theorem metricCartesian_spec {eps : ℝ} (he : 0 < eps) (he' : eps ≤ 1 / 10) (i j k : Fin 3) (p v : Fin 3 → ℝ) :
    metricCartesian.covariant p = 1 ∧ metricCartesian.contravariant eps p = .ret 1 ∧ metricCartesian.lower v p = v ∧
    metricCartesian.christoffel2 eps i j k p = .ret 0 := by
  have h1 : metricCartesian.covariant p = 1 := by
    ext i j
    simp [Metric.covariant, metricCartesian, Matrix.one_apply]
  have h2 : metricCartesian.contravariant eps p = .ret 1 := by
    rw [Metric.contravariant, h1]
    have hne : (1 : Matrix (Fin 3) (Fin 3) ℝ) ≠ 0 := one_ne_zero
    obtain ⟨w, hw⟩ := inverseN_returns he (by norm_num) (by norm_num) (Matrix.mul_one (1 : Matrix (Fin 3) (Fin 3) ℝ)) (M := 1)
      (fun i j => by rw [Matrix.one_apply]; split_ifs <;> simp) (fun j => by
        have : ∑ i, |(1 : Matrix (Fin 3) (Fin 3) ℝ) i j| = 1 := by
          rw [Finset.sum_eq_single j] <;> simp +contextual [Matrix.one_apply]
        rw [this]; push_cast; linarith)
    rw [hw, inverse_unique ((inverseN_spec he (by norm_num) (by norm_num) hne).2.2.1 w hw) (Matrix.mul_one _)]
  refine ⟨h1, h2, ?_, ?_⟩
  · change Matrix.mulVec (metricCartesian.covariant p) v = v
    rw [h1, Matrix.one_mulVec]
  · rw [Metric.christoffel2_ret h2]
    have hz : ∀ a b c, der eps none (metricCartesian a b) c p = 0 := fun a b c => by
      rw [der_poly _ _ _ (step_pos he _).ne' ![if a = b then 1 else 0, 0, 0, 0, 0] fun u => by simp [metricCartesian]]
      simp
    simp [hz]

theorem metricMinkowski_spec {eps : ℝ} (he : 0 < eps) (he' : eps ≤ 1 / 10) (i j k : Fin 4) (p : Fin 4 → ℝ) :
    metricMinkowski.contravariant eps p = .ret (metricMinkowski.covariant p) ∧ metricMinkowski.christoffel2 eps i j k p = .ret 0 := by
  have h0 : metricMinkowski.covariant p = Matrix.diagonal ![-1, 1, 1, 1] := by
    ext i j
    fin_cases i <;> fin_cases j <;> simp [Metric.covariant, metricMinkowski, Matrix.diagonal]
  have h1 : metricMinkowski.covariant p * metricMinkowski.covariant p = 1 := by
    rw [h0, Matrix.diagonal_mul_diagonal]
    ext i j
    fin_cases i <;> fin_cases j <;> simp [Matrix.diagonal, Matrix.one_apply]
  have hne : metricMinkowski.covariant p ≠ 0 := by
    intro h
    rw [h, Matrix.mul_zero] at h1
    exact zero_ne_one h1
  have h2 : metricMinkowski.contravariant eps p = .ret (metricMinkowski.covariant p) := by
    obtain ⟨w, hw⟩ := inverseN_returns he (by norm_num) (by norm_num) h1 (M := 1)
      (fun i j => by rw [h0]; fin_cases i <;> fin_cases j <;> simp [Matrix.diagonal]) (fun j => by
        have : ∑ i, |metricMinkowski.covariant p i j| = 1 := by
          rw [h0]; fin_cases j <;> simp [Fin.sum_univ_four, Matrix.diagonal]
        rw [this]; push_cast; linarith)
    rw [Metric.contravariant, hw, inverse_unique ((inverseN_spec he (by norm_num) (by norm_num) hne).2.2.1 w hw) h1]
  refine ⟨h2, ?_⟩
  rw [Metric.christoffel2_ret h2]
  have hz : ∀ a b c, der eps none (metricMinkowski a b) c p = 0 := fun a b c => by
    rw [der_poly _ _ _ (step_pos he _).ne' ![metricMinkowski a b p, 0, 0, 0, 0] fun u => by simp [metricMinkowski]]
    simp
  simp [hz]

/-- Beside them: the hypotheses of the theorems on the inverse metric hold for the Cartesian metric with the machine epsilon of `double`. -/
example (p : Fin 3 → ℝ) : ∃ h, metricCartesian.contravariant (1 / 2 ^ 52) p = .ret h ∧ metricCartesian.covariant p ≠ 0 ∧ Symmetric metricCartesian := by
  have h := metricCartesian_spec (eps := 1 / 2 ^ 52) (by positivity) (by norm_num) 0 0 0 p p
  exact ⟨_, h.2.1, by rw [h.1]; exact one_ne_zero, fun i j q => by simp [metricCartesian, eq_comm]⟩

theorem metricCylindrical_diag (p : Fin 3 → ℝ) : metricCylindrical.covariant p = Matrix.diagonal ![1, p 0 * p 0, 1] := by
  ext i j
  fin_cases i <;> fin_cases j <;> simp [Metric.covariant, metricCylindrical, Matrix.diagonal]

theorem metricSpherical_diag (p : Fin 3 → ℝ) :
    metricSpherical.covariant p = Matrix.diagonal ![1, p 0 ^ 2, p 0 * p 0 * Real.sin (p 1) * Real.sin (p 1)] := by
  ext i j
  fin_cases i <;> fin_cases j <;> simp [Metric.covariant, metricSpherical, Matrix.diagonal]

/-- The metric of spherical coordinates is made of the products of the derivatives of the transformation to Cartesian coordinates (`sphBasis_deriv`). -/
theorem metricSpherical_induced (p : Fin 3 → ℝ) (i j : Fin 3) :
    metricSpherical i j p = (sphBasis i ⟨p 0, p 1, p 2⟩).dot (sphBasis j ⟨p 0, p 1, p 2⟩) := by
  have h1 := Real.sin_sq_add_cos_sq (p 1)
  have h2 := Real.sin_sq_add_cos_sq (p 2)
  fin_cases i <;> fin_cases j <;> simp [metricSpherical, sphBasis, Geom.V3.dot] <;>
    generalize Real.sin (p 1) = a at * <;> generalize Real.cos (p 1) = b at * <;> generalize Real.sin (p 2) = c at * <;> generalize Real.cos (p 2) = d at *
  · linear_combination (-a ^ 2) * h2 - h1
  · linear_combination (-(p 0) * a * b) * h2
  · ring
  · linear_combination (-(p 0) * a * b) * h2
  · linear_combination (-(p 0) ^ 2 * b ^ 2) * h2 - p 0 ^ 2 * h1
  · ring
  · ring
  · ring
  · linear_combination (-(p 0) ^ 2 * a ^ 2) * h2

/-- The metric of cylindrical coordinates is made of the products of the derivatives of the transformation to Cartesian coordinates. -/
theorem metricCylindrical_induced (r φ z : ℝ) :
    ∃ e : Fin 3 → Geom.V3 ℝ,
      (HasDerivAt (fun s => (cylToCart ⟨s, φ, z⟩).x) (e 0).x r ∧ HasDerivAt (fun s => (cylToCart ⟨s, φ, z⟩).y) (e 0).y r ∧ HasDerivAt (fun s => (cylToCart ⟨s, φ, z⟩).z) (e 0).z r) ∧
      (HasDerivAt (fun s => (cylToCart ⟨r, s, z⟩).x) (e 1).x φ ∧ HasDerivAt (fun s => (cylToCart ⟨r, s, z⟩).y) (e 1).y φ ∧ HasDerivAt (fun s => (cylToCart ⟨r, s, z⟩).z) (e 1).z φ) ∧
      (HasDerivAt (fun s => (cylToCart ⟨r, φ, s⟩).x) (e 2).x z ∧ HasDerivAt (fun s => (cylToCart ⟨r, φ, s⟩).y) (e 2).y z ∧ HasDerivAt (fun s => (cylToCart ⟨r, φ, s⟩).z) (e 2).z z) ∧
      ∀ i j, metricCylindrical i j ![r, φ, z] = (e i).dot (e j) := by
  refine ⟨![⟨Real.cos φ, Real.sin φ, 0⟩, ⟨r * -Real.sin φ, r * Real.cos φ, 0⟩, ⟨0, 0, 1⟩], ⟨?_, ?_, hasDerivAt_const _ _⟩, ⟨?_, ?_, hasDerivAt_const _ _⟩,
    ⟨hasDerivAt_const z (r * Real.cos φ), hasDerivAt_const z (r * Real.sin φ), hasDerivAt_id z⟩, fun i j => ?_⟩
  · exact hasDerivAt_mul_const (Real.cos φ)
  · exact hasDerivAt_mul_const (Real.sin φ)
  · exact (Real.hasDerivAt_cos φ).const_mul r
  · exact (Real.hasDerivAt_sin φ).const_mul r
  · have h1 := Real.sin_sq_add_cos_sq φ
    fin_cases i <;> fin_cases j <;> simp [metricCylindrical, Geom.V3.dot]
    · linear_combination -h1
    · ring
    · ring
    · linear_combination -r ^ 2 * h1

/-- The Christoffel symbols of cylindrical coordinates. -/
noncomputable def cylindricalSymbol (r : ℝ) (i j k : Fin 3) : ℝ :=
  if i = 0 ∧ j = 1 ∧ k = 1 then -r else if i = 1 ∧ (j = 0 ∧ k = 1 ∨ j = 1 ∧ k = 0) then 1 / r else 0

/-- Cylindrical coordinates: off the axis the contravariant metric and the Christoffel symbols are exactly the known ones; on the axis the metric is singular and refused.  The
condition on the radius says that the elimination does not take the metric for singular. -/
theorem metricCylindrical_spec {eps : ℝ} (he : 0 < eps) (p : Fin 3 → ℝ) :
    (p 0 ≠ 0 → eps * max 1 (p 0 * p 0) * 3 * max 1 (1 / (p 0 * p 0)) ≤ 1 →
      metricCylindrical.contravariant eps p = .ret (Matrix.diagonal ![1, 1 / (p 0 * p 0), 1]) ∧
      ∀ i j k, metricCylindrical.christoffel2 eps i j k p = .ret (cylindricalSymbol (p 0) i j k)) ∧
    (p 0 = 0 → ∀ i j k, metricCylindrical.contravariant eps p = .exn (.mml "SingularMatrixError") ∧
      metricCylindrical.christoffel2 eps i j k p = .exn (.mml "SingularMatrixError")) := by
  have hne : metricCylindrical.covariant p ≠ 0 := by
    intro h
    have := congrFun (congrFun h 0) 0
    simp [Metric.covariant, metricCylindrical] at this
  refine ⟨fun h0 hc => ?_, fun h0 i j k => ?_⟩
  · have hm : metricCylindrical.covariant p * Matrix.diagonal ![1, 1 / (p 0 * p 0), 1] = 1 := by
      rw [metricCylindrical_diag, Matrix.diagonal_mul_diagonal, ← Matrix.diagonal_one]
      congr 1
      funext i
      fin_cases i <;> simp
      field_simp
    have h2 : metricCylindrical.contravariant eps p = .ret (Matrix.diagonal ![1, 1 / (p 0 * p 0), 1]) := by
      obtain ⟨w, hw⟩ := inverseN_returns he (by norm_num) (by norm_num) hm (M := max 1 (p 0 * p 0)) (fun i j => by
          rw [metricCylindrical_diag]
          have h3 : |p 0| * |p 0| = p 0 * p 0 := abs_mul_abs_self _
          fin_cases i <;> fin_cases j <;> simp [Matrix.diagonal, h3]) (fun j => by
          refine le_trans (mul_le_mul_of_nonneg_left ?_ (by positivity)) hc
          have h3 : |p 0| * |p 0| = p 0 * p 0 := abs_mul_abs_self _
          have h4 : |p 0|⁻¹ * |p 0|⁻¹ = (p 0)⁻¹ * (p 0)⁻¹ := by rw [← mul_inv, ← mul_inv, h3]
          fin_cases j <;> simp [Fin.sum_univ_three, Matrix.diagonal, h4])
      rw [Metric.contravariant, hw, inverse_unique ((inverseN_spec he (by norm_num) (by norm_num) hne).2.2.1 w hw) hm]
    refine ⟨h2, fun i j k => ?_⟩
    rw [Metric.christoffel2_ret h2]
    congr 1
    have hd : ∀ a b c, der eps none (metricCylindrical a b) c p = if a = 1 ∧ b = 1 ∧ c = 0 then 2 * p 0 else 0 := by
      intro a b c
      by_cases h : a = 1 ∧ b = 1
      · obtain ⟨rfl, rfl⟩ := h
        by_cases hc : c = 0
        · subst hc
          rw [der_poly _ _ _ (step_pos he _).ne' ![0, 0, 1, 0, 0] fun u => by simp [metricCylindrical]; ring]
          simp
        · rw [der_poly _ _ _ (step_pos he _).ne' ![p 0 * p 0, 0, 0, 0, 0] fun u => by simp [metricCylindrical, Function.update_of_ne (Ne.symm hc)]]
          simp [hc]
      · rw [der_poly _ _ _ (step_pos he _).ne' ![metricCylindrical a b p, 0, 0, 0, 0] fun u => by simp [metricCylindrical, h]]
        rw [if_neg (fun h' => h ⟨h'.1, h'.2.1⟩)]
        simp
    simp only [hd, Fin.sum_univ_three, cylindricalSymbol]
    fin_cases i <;> fin_cases j <;> fin_cases k <;> simp [Matrix.diagonal] <;> first | done | (field_simp; norm_num) | norm_num | skip
  · have h2 : metricCylindrical.contravariant eps p = .exn (.mml "SingularMatrixError") := by
      refine (inverseN_spec he (by norm_num) (by norm_num) hne).2.2.2 ?_
      rw [metricCylindrical_diag, Matrix.det_diagonal]
      simp [Fin.prod_univ_three, h0]
    exact ⟨h2, by rw [Metric.christoffel2, h2, Outcome.bind_exn]⟩

/-- Beside it: at radius two, with the machine epsilon of `double`. -/
example : ∀ i j k, metricCylindrical.christoffel2 (1 / 2 ^ 52) i j k ![2, 1, 5] = .ret (cylindricalSymbol 2 i j k) := by
  have h := ((metricCylindrical_spec (eps := 1 / 2 ^ 52) (by positivity) ![2, 1, 5]).1 (by simp) (by
    simp only [Matrix.cons_val_zero]
    rw [max_eq_right (by norm_num), max_eq_left (by norm_num)]
    norm_num)).2
  simpa using h

/-- Spherical coordinates: the symbols made of derivatives by the radius are exact, and the metric is refused where it is singular, on the polar axis. -/
theorem metricSpherical_spec {eps : ℝ} (he : 0 < eps) (p : Fin 3 → ℝ) :
    (∀ h, metricSpherical.contravariant eps p = .ret h → p 0 ≠ 0 ∧ Real.sin (p 1) ≠ 0 ∧
      metricSpherical.christoffel2 eps 0 1 1 p = .ret (-p 0) ∧ metricSpherical.christoffel2 eps 0 2 2 p = .ret (-(p 0 * Real.sin (p 1) ^ 2)) ∧
      metricSpherical.christoffel2 eps 1 0 1 p = .ret (1 / p 0) ∧ metricSpherical.christoffel2 eps 2 0 2 p = .ret (1 / p 0)) ∧
    (p 0 = 0 ∨ Real.sin (p 1) = 0 → metricSpherical.contravariant eps p = .exn (.mml "SingularMatrixError")) := by
  have hne : metricSpherical.covariant p ≠ 0 := by
    intro h
    have := congrFun (congrFun h 0) 0
    simp [Metric.covariant, metricSpherical] at this
  obtain ⟨-, -, h3, h4⟩ := inverseN_spec he (by norm_num) (by norm_num) hne
  have hsing : p 0 = 0 ∨ Real.sin (p 1) = 0 → metricSpherical.contravariant eps p = .exn (.mml "SingularMatrixError") := by
    intro h
    refine h4 ?_
    rw [metricSpherical_diag, Matrix.det_diagonal]
    rcases h with h | h <;> simp [Fin.prod_univ_three, h]
  refine ⟨fun h hh => ?_, hsing⟩
  have h0 : p 0 ≠ 0 := fun h0 => by rw [hsing (.inl h0)] at hh; simp at hh
  have h1 : Real.sin (p 1) ≠ 0 := fun h0 => by rw [hsing (.inr h0)] at hh; simp at hh
  have hm : metricSpherical.covariant p * Matrix.diagonal ![1, 1 / p 0 ^ 2, 1 / (p 0 * p 0 * Real.sin (p 1) * Real.sin (p 1))] = 1 := by
    rw [metricSpherical_diag, Matrix.diagonal_mul_diagonal, ← Matrix.diagonal_one]
    congr 1
    funext i
    fin_cases i <;> simp [h0]
    field_simp
  have hd : h = Matrix.diagonal ![1, 1 / p 0 ^ 2, 1 / (p 0 * p 0 * Real.sin (p 1) * Real.sin (p 1))] := inverse_unique (h3 h hh) hm
  have d11 : der eps none (metricSpherical 1 1) 0 p = 2 * p 0 := by
    rw [der_poly _ _ _ (step_pos he _).ne' ![0, 0, 1, 0, 0] fun u => by simp [metricSpherical]]
    simp
  have d22 : der eps none (metricSpherical 2 2) 0 p = 2 * p 0 * Real.sin (p 1) ^ 2 := by
    rw [der_poly _ _ _ (step_pos he _).ne' ![0, 0, Real.sin (p 1) ^ 2, 0, 0] fun u => by simp [metricSpherical]; ring]
    simp; ring
  have hoff : ∀ a b c, a ≠ b → der eps none (metricSpherical a b) c p = 0 := by
    intro a b c hab
    rw [der_poly _ _ _ (step_pos he _).ne' ![0, 0, 0, 0, 0] fun u => ?_]
    · simp
    · simp only [metricSpherical]
      rw [if_neg (by rintro ⟨rfl, rfl⟩; exact hab rfl), if_neg (by rintro ⟨rfl, rfl⟩; exact hab rfl), if_neg (by rintro ⟨rfl, rfl⟩; exact hab rfl)]
      simp
  refine ⟨h0, h1, ?_, ?_, ?_, ?_⟩ <;> rw [Metric.christoffel2_ret hh, hd] <;> congr 1 <;> rw [Fin.sum_univ_three]
  · simp [Matrix.diagonal, hoff 0 1, d11]; ring
  · simp [Matrix.diagonal, hoff 0 2, d22]; norm_num; ring
  · simp [Matrix.diagonal, hoff 1 0, hoff 0 1, d11]; field_simp; norm_num
  · simp [Matrix.diagonal, hoff 2 0, hoff 0 2, d22]; field_simp; norm_num

end Verif.Coord
