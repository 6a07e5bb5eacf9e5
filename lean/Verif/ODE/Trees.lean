import Mathlib.Analysis.Calculus.ContDiff.Basic
import Mathlib.Algebra.BigOperators.Fin
import Mathlib.Algebra.BigOperators.Intervals
import Mathlib.Data.Real.Basic
import Mathlib.Tactic.Ring
import Mathlib.Tactic.NormNum

/-!
# Rooted trees and the coefficients of a Runge–Kutta step

Internal machinery: nothing here models code.  A plane rooted tree indexes one term of the Taylor
expansion of a Runge–Kutta step for `y' = F (t, y)`.  `dot` is the single vertex, `graft t s` is
`s` with one more child `t` hanging from its root, `tick s` is `s` with one more *time* child.
Because the children of a vertex are ordered, no symmetry factors appear.
-/

set_option autoImplicit false

namespace Verif.ODE

/-- Plane rooted trees with time leaves. -/
inductive Tree
  | dot
  | graft (t s : Tree)
  | tick (s : Tree)
  deriving DecidableEq

namespace Tree

/-- Number of vertices: the power of `h` the tree belongs to. -/
def ord : Tree → ℕ
  | dot => 1
  | graft t s => t.ord + s.ord
  | tick s => s.ord + 1

theorem ord_pos : ∀ τ : Tree, 0 < τ.ord
  | dot => Nat.one_pos
  | graft _ s => Nat.lt_of_lt_of_le s.ord_pos (Nat.le_add_left _ _)
  | tick _ => Nat.succ_pos _

/-- The product over the root's children: a time child counts `c`, a child `t` counts `κ t`. -/
def prod {R : Type*} [Monoid R] (c : R) (κ : Tree → R) : Tree → R
  | dot => 1
  | graft t s => κ t * s.prod c κ
  | tick s => c * s.prod c κ

/-- `exact τ / ord τ` is the coefficient of `τ` in the Taylor expansion of the solution. -/
def exact {R : Type*} [DivisionRing R] : Tree → R
  | dot => 1
  | graft t s => (t.exact / (t.ord : R)) * s.exact
  | tick s => s.exact

/-- The weight of `τ` in the `i`-th stage of the method with coefficients `a`, `c`. -/
def stage {R : Type*} [Semiring R] (a : ℕ → ℕ → R) (c : ℕ → R) : Tree → ℕ → R
  | dot, _ => 1
  | graft t s, i => (∑ j ∈ Finset.range i, a i j * t.stage a c j) * s.stage a c i
  | tick s, i => c i * s.stage a c i

theorem exact_eq_prod {R : Type*} [DivisionRing R] :
    ∀ τ : Tree, τ.exact = τ.prod (1 : R) (fun t => t.exact / (t.ord : R))
  | dot => rfl
  | graft _ s => by rw [exact, prod, exact_eq_prod s]
  | tick s => by rw [exact, prod, one_mul, exact_eq_prod s]

theorem stage_eq_prod {R : Type*} [Semiring R] (a : ℕ → ℕ → R) (c : ℕ → R) (i : ℕ) :
    ∀ τ : Tree, τ.stage a c i
      = τ.prod (c i) (fun t => ∑ j ∈ Finset.range i, a i j * t.stage a c j)
  | dot => rfl
  | graft _ s => by rw [stage, prod, stage_eq_prod a c i s]
  | tick s => by rw [stage, prod, stage_eq_prod a c i s]

end Tree

/-! ## Sums over the trees with a given number of vertices -/

section Sum

variable {M : Type*} [AddCommMonoid M]

/-- `∑ g τ` over the trees with `N + 1` vertices. -/
def treeSum : ℕ → (Tree → M) → M
  | 0, g => g .dot
  | N + 1, g => treeSum N (fun s => g (.tick s))
      + ∑ k : Fin (N + 1), treeSum k.val (fun t => treeSum (N - k.val) (fun s => g (.graft t s)))
termination_by N => N

theorem treeSum_zero (g : Tree → M) : treeSum 0 g = g .dot := by rw [treeSum]

theorem treeSum_succ (N : ℕ) (g : Tree → M) :
    treeSum (N + 1) g = treeSum N (fun s => g (.tick s))
      + ∑ k ∈ Finset.range (N + 1),
          treeSum k (fun t => treeSum (N - k) (fun s => g (.graft t s))) := by
  rw [treeSum, Finset.sum_range]

theorem treeSum_congr {g g' : Tree → M} : ∀ N : ℕ, (∀ τ : Tree, τ.ord = N + 1 → g τ = g' τ) →
    treeSum N g = treeSum N g' := by
  intro N
  induction N using Nat.strong_induction_on generalizing g g' with
  | _ N ih =>
    intro h
    cases N with
    | zero => rw [treeSum_zero, treeSum_zero]; exact h _ rfl
    | succ N =>
      rw [treeSum_succ, treeSum_succ]
      congr 1
      · exact ih N (Nat.lt_succ_self _) fun τ hτ => h _ (by rw [Tree.ord, hτ])
      · refine Finset.sum_congr rfl fun k hk => ?_
        have hk' := Finset.mem_range.mp hk
        refine ih k hk' fun t ht => ih (N - k) (by omega) fun s hs => h _ ?_
        rw [Tree.ord, ht, hs]; omega

theorem treeSum_hom {M' : Type*} [AddCommMonoid M'] (φ : M →+ M') (N : ℕ) (g : Tree → M) :
    φ (treeSum N g) = treeSum N (fun τ => φ (g τ)) := by
  induction N using Nat.strong_induction_on generalizing g with
  | _ N ih =>
    cases N with
    | zero => rw [treeSum_zero, treeSum_zero]
    | succ N =>
      rw [treeSum_succ, treeSum_succ, map_add, ih N (Nat.lt_succ_self _), map_sum]
      congr 1
      refine Finset.sum_congr rfl fun k hk => ?_
      have hk' := Finset.mem_range.mp hk
      rw [ih k hk']
      exact treeSum_congr k fun t _ => ih (N - k) (by omega) _

theorem treeSum_add (N : ℕ) (g g' : Tree → M) :
    treeSum N (fun τ => g τ + g' τ) = treeSum N g + treeSum N g' := by
  induction N using Nat.strong_induction_on generalizing g g' with
  | _ N ih =>
    cases N with
    | zero => simp only [treeSum_zero]
    | succ N =>
      simp only [treeSum_succ]
      rw [ih N (Nat.lt_succ_self _)]
      have : ∀ k ∈ Finset.range (N + 1),
          treeSum k (fun t => treeSum (N - k) (fun s => g (.graft t s) + g' (.graft t s)))
          = treeSum k (fun t => treeSum (N - k) (fun s => g (.graft t s)))
            + treeSum k (fun t => treeSum (N - k) (fun s => g' (.graft t s))) := by
        intro k hk
        have hk' := Finset.mem_range.mp hk
        rw [← ih k hk']
        exact treeSum_congr k fun t _ => ih (N - k) (by omega) _ _
      rw [Finset.sum_congr rfl this, Finset.sum_add_distrib]
      abel

theorem treeSum_zero_fun (N : ℕ) : treeSum N (fun _ => (0 : M)) = 0 := by
  induction N using Nat.strong_induction_on with
  | _ N ih =>
    cases N with
    | zero => rw [treeSum_zero]
    | succ N =>
      rw [treeSum_succ, ih N (Nat.lt_succ_self _), zero_add]
      refine Finset.sum_eq_zero fun k hk => ?_
      have hk' := Finset.mem_range.mp hk
      have : treeSum k (fun _ => treeSum (N - k) fun _ => (0 : M)) = treeSum k fun _ => 0 :=
        treeSum_congr k fun t _ => ih (N - k) (by omega)
      rw [this, ih k hk']

theorem treeSum_finset {ι : Type*} (S : Finset ι) (N : ℕ) (g : ι → Tree → M) :
    treeSum N (fun τ => ∑ i ∈ S, g i τ) = ∑ i ∈ S, treeSum N (g i) := by
  classical
  induction S using Finset.induction_on with
  | empty => simp only [Finset.sum_empty]; exact treeSum_zero_fun N
  | insert i S hi ih => simp only [Finset.sum_insert hi]; rw [treeSum_add, ih]

theorem treeSum_smul {E : Type*} [AddCommGroup E] [Module ℝ E] (r : ℝ) (N : ℕ) (g : Tree → E) :
    treeSum N (fun τ => r • g τ) = r • treeSum N g :=
  (treeSum_hom (DistribSMul.toAddMonoidHom E r) N g).symm

end Sum

/-! ## Elementary differentials -/

section Diff

variable {G E : Type*} [NormedAddCommGroup G] [NormedSpace ℝ G] [NormedAddCommGroup E]
  [NormedSpace ℝ E]

/-- The `m`-th Taylor coefficient of `F` at `z`, applied to the first `m` entries of `w`. -/
noncomputable def Dn (F : G → E) (z : G) (m : ℕ) (w : ℕ → G) : E :=
  ((m.factorial : ℕ) : ℝ)⁻¹ • iteratedFDeriv ℝ m F z (fun i : Fin m => w i)

theorem Dn_congr (F : G → E) (z : G) (m : ℕ) {w w' : ℕ → G} (h : ∀ i < m, w i = w' i) :
    Dn F z m w = Dn F z m w' := by
  unfold Dn
  congr 2
  funext i
  exact h i i.2

theorem Dn_update (F : G → E) (z : G) (m : ℕ) (w : ℕ → G) {j : ℕ} (hj : j < m) (v : G) :
    Dn F z m (Function.update w j v)
      = ((m.factorial : ℕ) : ℝ)⁻¹ • iteratedFDeriv ℝ m F z
          (Function.update (fun i : Fin m => w i) ⟨j, hj⟩ v) := by
  unfold Dn
  congr 2
  funext i
  by_cases h : i = (⟨j, hj⟩ : Fin m)
  · subst h; simp
  · have h' : (i : ℕ) ≠ j := fun e => h (Fin.ext e)
    rw [Function.update_of_ne h, Function.update_of_ne h']

theorem Dn_update_add (F : G → E) (z : G) (m : ℕ) (w : ℕ → G) {j : ℕ} (hj : j < m) (u v : G) :
    Dn F z m (Function.update w j (u + v))
      = Dn F z m (Function.update w j u) + Dn F z m (Function.update w j v) := by
  rw [Dn_update F z m w hj, Dn_update F z m w hj, Dn_update F z m w hj,
    ContinuousMultilinearMap.map_update_add, smul_add]

theorem Dn_update_smul (F : G → E) (z : G) (m : ℕ) (w : ℕ → G) {j : ℕ} (hj : j < m) (r : ℝ)
    (v : G) :
    Dn F z m (Function.update w j (r • v)) = r • Dn F z m (Function.update w j v) := by
  rw [Dn_update F z m w hj, Dn_update F z m w hj,
    ContinuousMultilinearMap.map_update_smul, smul_comm]

end Diff

section Ev

variable {E : Type*} [NormedAddCommGroup E] [NormedSpace ℝ E]

/-- The elementary differential of a tree whose root already has the `m` children `w 0 … w (m-1)`. -/
noncomputable def ev (F : ℝ × E → E) (z : ℝ × E) : Tree → ℕ → (ℕ → ℝ × E) → E
  | .dot, m, w => Dn F z m w
  | .graft t s, m, w => ev F z s (m + 1) (Function.update w m (0, ev F z t 0 0))
  | .tick s, m, w => ev F z s (m + 1) (Function.update w m (1, 0))

theorem ev_update_add (F : ℝ × E → E) (z : ℝ × E) : ∀ (τ : Tree) (m : ℕ) (w : ℕ → ℝ × E) (j : ℕ),
    j < m → ∀ u v : ℝ × E, ev F z τ m (Function.update w j (u + v))
      = ev F z τ m (Function.update w j u) + ev F z τ m (Function.update w j v)
  | .dot, m, w, j, hj, u, v => Dn_update_add F z m w hj u v
  | .graft t s, m, w, j, hj, u, v => by
      simp only [ev]
      have e : ∀ v : ℝ × E, Function.update (Function.update w j v) m (0, ev F z t 0 0)
          = Function.update (Function.update w m (0, ev F z t 0 0)) j v :=
        fun v => Function.update_comm (by omega) _ _ _
      rw [e, e, e]
      exact ev_update_add F z s (m + 1) _ j (by omega) u v
  | .tick s, m, w, j, hj, u, v => by
      simp only [ev]
      have e : ∀ v : ℝ × E, Function.update (Function.update w j v) m ((1 : ℝ), (0 : E))
          = Function.update (Function.update w m ((1 : ℝ), (0 : E))) j v :=
        fun v => Function.update_comm (by omega) _ _ _
      rw [e, e, e]
      exact ev_update_add F z s (m + 1) _ j (by omega) u v

theorem ev_update_smul (F : ℝ × E → E) (z : ℝ × E) : ∀ (τ : Tree) (m : ℕ) (w : ℕ → ℝ × E) (j : ℕ),
    j < m → ∀ (r : ℝ) (v : ℝ × E), ev F z τ m (Function.update w j (r • v))
      = r • ev F z τ m (Function.update w j v)
  | .dot, m, w, j, hj, r, v => Dn_update_smul F z m w hj r v
  | .graft t s, m, w, j, hj, r, v => by
      simp only [ev]
      have e : ∀ v : ℝ × E, Function.update (Function.update w j v) m (0, ev F z t 0 0)
          = Function.update (Function.update w m (0, ev F z t 0 0)) j v :=
        fun v => Function.update_comm (by omega) _ _ _
      rw [e, e]
      exact ev_update_smul F z s (m + 1) _ j (by omega) r v
  | .tick s, m, w, j, hj, r, v => by
      simp only [ev]
      have e : ∀ v : ℝ × E, Function.update (Function.update w j v) m ((1 : ℝ), (0 : E))
          = Function.update (Function.update w m ((1 : ℝ), (0 : E))) j v :=
        fun v => Function.update_comm (by omega) _ _ _
      rw [e, e]
      exact ev_update_smul F z s (m + 1) _ j (by omega) r v

/-- `v ↦ ev τ (m+1) (w with v in slot m)` as an additive map. -/
noncomputable def evHom (F : ℝ × E → E) (z : ℝ × E) (τ : Tree) (m : ℕ) (w : ℕ → ℝ × E) :
    ℝ × E →+ E where
  toFun v := ev F z τ (m + 1) (Function.update w m v)
  map_zero' := by
    have := ev_update_smul F z τ (m + 1) w m (Nat.lt_succ_self m) 0 0
    rwa [zero_smul, zero_smul] at this
  map_add' u v := ev_update_add F z τ (m + 1) w m (Nat.lt_succ_self m) u v

/-- The coefficient of `h ^ N` in `∑ q, Dn (m + q) (w 0, …, w (m-1), V, …, V)` when `V` has the
coefficients `v 1`, `v 2`, …. -/
noncomputable def coef {G : Type*} [NormedAddCommGroup G] [NormedSpace ℝ G] (F : G → E) (z : G)
    (v : ℕ → G) : ℕ → ℕ → (ℕ → G) → E
  | 0, m, w => Dn F z m w
  | N + 1, m, w => ∑ k : Fin (N + 1),
      coef F z v (N - k.val) (m + 1) (Function.update w m (v (k.val + 1)))
termination_by N => N

theorem coef_zero {G : Type*} [NormedAddCommGroup G] [NormedSpace ℝ G] (F : G → E) (z : G)
    (v : ℕ → G) (m : ℕ) (w : ℕ → G) : coef F z v 0 m w = Dn F z m w := by rw [coef]

theorem coef_succ {G : Type*} [NormedAddCommGroup G] [NormedSpace ℝ G] (F : G → E) (z : G)
    (v : ℕ → G) (N m : ℕ) (w : ℕ → G) : coef F z v (N + 1) m w
      = ∑ k ∈ Finset.range (N + 1),
          coef F z v (N - k) (m + 1) (Function.update w m (v (k + 1))) := by
  rw [coef, Finset.sum_range]

/-- The coefficients of a composition, when those of the argument are themselves sums over trees. -/
theorem coef_eq_treeSum (F : ℝ × E → E) (z : ℝ × E) (c : ℝ) (κ : Tree → ℝ) (v : ℕ → ℝ × E)
    (hv : ∀ k, v (k + 1) = (if k = 0 then c else 0, treeSum k (fun t => κ t • ev F z t 0 0))) :
    ∀ (N m : ℕ) (w : ℕ → ℝ × E),
      coef F z v N m w = treeSum N (fun τ => τ.prod c κ • ev F z τ m w) := by
  intro N
  induction N using Nat.strong_induction_on with
  | _ N ih =>
    intro m w
    cases N with
    | zero => rw [coef_zero, treeSum_zero, Tree.prod, one_smul, ev]
    | succ N =>
      rw [coef_succ, treeSum_succ]
      have hsplit : ∀ k ∈ Finset.range (N + 1),
          coef F z v (N - k) (m + 1) (Function.update w m (v (k + 1)))
          = treeSum (N - k) (fun s => (if k = 0 then c else 0) •
                (s.prod c κ • ev F z s (m + 1) (Function.update w m (1, 0))))
            + treeSum k (fun t => treeSum (N - k) (fun s =>
                (Tree.graft t s).prod c κ • ev F z (.graft t s) m w)) := by
        intro k hk
        rw [ih (N - k) (by have := Finset.mem_range.mp hk; omega)]
        have e1 : ∀ s : Tree, ev F z s (m + 1) (Function.update w m (v (k + 1)))
            = (if k = 0 then c else 0) • ev F z s (m + 1) (Function.update w m (1, 0))
              + treeSum k (fun t => κ t • ev F z (.graft t s) m w) := by
          intro s
          have e2 : v (k + 1) = (if k = 0 then c else 0) • ((1 : ℝ), (0 : E))
              + treeSum k (fun t => κ t • ((0 : ℝ), ev F z t 0 0)) := by
            rw [hv k]
            have e3 : ((0 : ℝ), treeSum k (fun t => κ t • ev F z t 0 0))
                = treeSum k (fun t => κ t • ((0 : ℝ), ev F z t 0 0)) := by
              have := treeSum_hom (AddMonoidHom.inr ℝ E) k (fun t => κ t • ev F z t 0 0)
              simp only [AddMonoidHom.inr_apply] at this
              rw [this]
              exact treeSum_congr k fun t _ => by rw [Prod.smul_mk, smul_zero]
            rw [← e3]
            rw [Prod.smul_mk, Prod.mk_add_mk, smul_zero, zero_add, add_zero, smul_eq_mul, mul_one]
          rw [e2, ev_update_add F z s (m + 1) w m (Nat.lt_succ_self m),
            ev_update_smul F z s (m + 1) w m (Nat.lt_succ_self m)]
          congr 1
          have := treeSum_hom (evHom F z s m w) k (fun t => κ t • ((0 : ℝ), ev F z t 0 0))
          rw [show ev F z s (m + 1) (Function.update w m
              (treeSum k fun t => κ t • ((0 : ℝ), ev F z t 0 0))) = evHom F z s m w
              (treeSum k fun t => κ t • ((0 : ℝ), ev F z t 0 0)) from rfl, this]
          refine treeSum_congr k fun t _ => ?_
          rw [show evHom F z s m w (κ t • ((0 : ℝ), ev F z t 0 0)) = ev F z s (m + 1)
            (Function.update w m (κ t • ((0 : ℝ), ev F z t 0 0))) from rfl,
            ev_update_smul F z s (m + 1) w m (Nat.lt_succ_self m)]
          rw [ev]
        simp only [e1, smul_add]
        rw [treeSum_add]
        congr 1
        · exact treeSum_congr _ fun s _ => by rw [smul_comm]
        · have swap : ∀ (K L : ℕ) (g : Tree → Tree → E),
              treeSum K (fun t => treeSum L (fun s => g t s))
                = treeSum L (fun s => treeSum K (fun t => g t s)) := by
            intro K
            induction K using Nat.strong_induction_on with
            | _ K ihK =>
              intro L g
              cases K with
              | zero => simp only [treeSum_zero]
              | succ K =>
                simp only [treeSum_succ]
                rw [treeSum_add, ← ihK K (Nat.lt_succ_self _) L (fun s => g (.tick s)),
                  treeSum_finset]
                congr 1
                refine Finset.sum_congr rfl fun j hj => ?_
                have hj' := Finset.mem_range.mp hj
                rw [← ihK j hj' L (fun t s' => treeSum (K - j) fun s => g (.graft t s) s')]
                exact treeSum_congr j fun t _ => ihK (K - j) (by omega) L _
          rw [swap]
          refine treeSum_congr _ fun s _ => ?_
          rw [← treeSum_smul]
          refine treeSum_congr _ fun t _ => ?_
          rw [smul_smul, Tree.prod, mul_comm]
      rw [Finset.sum_congr rfl hsplit, Finset.sum_add_distrib]
      congr 1
      rw [Finset.sum_eq_single_of_mem 0 (Finset.mem_range.mpr (Nat.succ_pos N))]
      · rw [Nat.sub_zero]
        refine treeSum_congr _ fun s _ => ?_
        rw [if_pos rfl, smul_smul, Tree.prod, ev]
      · intro k _ hk
        rw [if_neg hk]
        simp only [zero_smul]
        exact treeSum_zero_fun _

end Ev

end Verif.ODE
