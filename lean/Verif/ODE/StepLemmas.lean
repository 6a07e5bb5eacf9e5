import Verif.ODE.Model
import Verif.ODE.Global
import Verif.ODE.Check
import Verif.LoopLemmas
import Mathlib.Tactic.IntervalCases
import Mathlib.Tactic.Module

/-! # Helper lemmas: what the step calculators compute -/

set_option autoImplicit false

namespace Verif.ODE

open Outcome

variable {n : ℕ}

theorem index_ofFn {α : Type} (x : Fin n → α) {i : ℕ} (h : i < n) :
    index (List.ofFn x) i = .ret (x ⟨i, h⟩) := by
  simp [index, h]

theorem index_ofFn_fin {α : Type} (x : Fin n → α) (i : Fin n) :
    index (List.ofFn x) i = .ret (x i) := index_ofFn x i.2

theorem zeros_length (m : ℕ) : (zeros m).length = m := by simp [zeros]

theorem fill_gen {out : List ℝ} {m : ℕ} (hm : m ≤ n) (hout : out.length = n) {e : ℕ → Outcome ℝ}
    {g : ℕ → ℝ} (he : ∀ i, i < m → e i = .ret (g i)) :
    ∃ l, fill m out e = .ret l ∧ l.length = n ∧
      ∀ j, l[j]? = if j < m then some (g j) else out[j]? := by
  obtain ⟨l, hl, hP⟩ := forRange_rule
    (fun i l => l.length = n ∧ ∀ j, l[j]? = if j < i then some (g j) else out[j]?) m out
    (fun out i => do
      let v ← e i
      store out i v) ⟨hout, fun j => by simp⟩
    (by
      rintro i l hi ⟨h1, h2⟩
      refine ⟨l.set i (g i), ?_, by simpa using h1, fun j => ?_⟩
      · rw [he i hi, Outcome.bind_ret, store, if_pos (by omega)]
      · rw [List.getElem?_set, h2]
        by_cases hij : i = j
        · subst hij; rw [if_pos rfl, if_pos (by omega), if_pos (by omega)]
        · rw [if_neg hij]
          by_cases hj : j < i
          · rw [if_pos hj, if_pos (by omega)]
          · rw [if_neg hj, if_neg (by omega)])
  exact ⟨l, hl, hP⟩

theorem fill_ofFn {out : List ℝ} (hout : out.length = n) {e : ℕ → Outcome ℝ} {g : Fin n → ℝ}
    (he : ∀ i : Fin n, e i = .ret (g i)) : fill n out e = .ret (List.ofFn g) := by
  obtain ⟨l, hl, h1, h2⟩ := fill_gen (m := n) le_rfl hout (e := e)
    (g := fun i => if h : i < n then g ⟨i, h⟩ else 0)
    (fun i hi => by rw [dif_pos hi]; exact he ⟨i, hi⟩)
  rw [hl]
  congr 1
  refine List.ext_getElem? fun j => ?_
  rw [h2]
  by_cases hj : j < n
  · simp [hj]
  · rw [if_neg hj, List.getElem?_eq_none (by omega), List.getElem?_eq_none (by simp; omega)]

theorem combine_eq (row : List ℚ) (K : ℕ → Fin n → ℝ) {r : ℕ} (hr : row.length ≤ r) {ks : List (List ℝ)}
    (hks : ks = (List.range r).map (fun j => List.ofFn (K j))) (i : Fin n) :
    combine row ks i = .ret (∑ j ∈ Finset.range row.length, (row.getD j 0 : ℝ) * K j i) := by
  rw [combine, forRange_sum row.length 0 _ (fun j => (row.getD j 0 : ℝ) * K j i), zero_add]
  intro j hj s
  have h1 : index row j = .ret (row.getD j 0) := by
    rw [index, List.getElem?_eq_getElem hj, List.getD_eq_getElem _ _ hj]
  have h2 : index ks j = .ret (List.ofFn (K j)) := by
    rw [hks, index, List.getElem?_map, List.getElem?_range (by omega)]; rfl
  rw [h1, Outcome.bind_ret, h2, Outcome.bind_ret, index_ofFn_fin, Outcome.bind_ret]

theorem sum_cast_smul (r : ℕ) (q : ℕ → ℝ) (K : ℕ → Fin n → ℝ) (i : Fin n) :
    (∑ j ∈ Finset.range r, q j • K j) i = ∑ j ∈ Finset.range r, q j * K j i := by
  rw [Finset.sum_apply]
  rfl

theorem fill_advance {out : List ℝ} (hout : out.length = n) (x : Fin n → ℝ) (h : ℝ) (row : List ℚ)
    (K : ℕ → Fin n → ℝ) {r : ℕ} (hr : row.length = r) {ks : List (List ℝ)}
    (hks : ks = (List.range r).map (fun j => List.ofFn (K j))) :
    fill n out (advance (List.ofFn x) h row ks)
      = .ret (List.ofFn (x + h • ∑ j ∈ Finset.range r, (row.getD j 0 : ℝ) • K j)) := by
  refine fill_ofFn hout fun i => ?_
  rw [advance, index_ofFn_fin, Outcome.bind_ret, combine_eq row K (le_of_eq hr) hks,
    Outcome.bind_ret, Pi.add_apply, Pi.smul_apply, sum_cast_smul, hr]
  rfl

theorem fill_estimate {out : List ℝ} (hout : out.length = n) (h : ℝ) (row : List ℚ)
    (K : ℕ → Fin n → ℝ) {r : ℕ} (hr : row.length = r) {ks : List (List ℝ)}
    (hks : ks = (List.range r).map (fun j => List.ofFn (K j))) :
    fill n out (estimate h row ks)
      = .ret (List.ofFn (h • ∑ j ∈ Finset.range r, (row.getD j 0 : ℝ) • K j)) := by
  refine fill_ofFn hout fun i => ?_
  rw [estimate, combine_eq row K (le_of_eq hr) hks, Outcome.bind_ret, Pi.smul_apply, sum_cast_smul, hr]
  rfl

/-- `sys` has dimension `n`, and its `derivs` computes `f`. -/
def Computes (sys : System) (f : ℝ → (Fin n → ℝ) → Fin n → ℝ) : Prop :=
  sys.dim = n ∧ ∀ t x d, d.length = n → sys.derivs t (List.ofFn x) d = .ret (List.ofFn (f t x))

/-- The right-hand side as a function of the pair `(t, x)`. -/
def pair (f : ℝ → (Fin n → ℝ) → Fin n → ℝ) (z : ℝ × (Fin n → ℝ)) : Fin n → ℝ := f z.1 z.2

namespace Tableau

/-- The stages of the method for the system `f`. -/
noncomputable def stg (T : Tableau) (f : ℝ → (Fin n → ℝ) → Fin n → ℝ) (t : ℝ) (x : Fin n → ℝ) (h : ℝ)
    (i : ℕ) : Fin n → ℝ :=
  rkStage (pair f) (fun i j => (T.A i j : ℝ)) (fun i => (T.C i : ℝ)) t x h i

/-- The step of the method with the tableau's `a`, `c` and the weights `b`. -/
noncomputable def step (T : Tableau) (b : List ℚ) (f : ℝ → (Fin n → ℝ) → Fin n → ℝ) (t : ℝ)
    (x : Fin n → ℝ) (h : ℝ) : Fin n → ℝ :=
  x + h • ∑ j ∈ Finset.range T.a.length, (b.getD j 0 : ℝ) • T.stg f t x h j

theorem stg_eq (T : Tableau) (f : ℝ → (Fin n → ℝ) → Fin n → ℝ) (t : ℝ) (x : Fin n → ℝ) (h : ℝ) (i : ℕ) :
    T.stg f t x h i = f (t + (T.C i : ℝ) * h)
      (x + h • ∑ j ∈ Finset.range i, (T.A i j : ℝ) • T.stg f t x h j) := by
  rw [stg, rkStage_eq]; rfl

theorem stg_zero (T : Tableau) (f : ℝ → (Fin n → ℝ) → Fin n → ℝ) (t : ℝ) (x : Fin n → ℝ) (h : ℝ)
    (hc : T.C 0 = 0) : T.stg f t x h 0 = f t x := by
  rw [stg_eq, hc]; simp

/-- One unrolled stage: forming the point and evaluating the system there. -/
theorem stage_run (T : Tableau) {sys : System} {f : ℝ → (Fin n → ℝ) → Fin n → ℝ} (hs : Computes sys f)
    (t : ℝ) (x : Fin n → ℝ) (h : ℝ) (i : ℕ) {out : List ℝ} (hout : out.length = n) {row : List ℚ}
    (hrow : T.a.getD i [] = row) (hlen : row.length = i) {c : ℚ} (hc : T.C i = c) {ks : List (List ℝ)}
    (hks : ks = (List.range i).map (fun j => List.ofFn (T.stg f t x h j))) :
    ∃ v : Fin n → ℝ, fill n out (advance (List.ofFn x) h row ks) = .ret (List.ofFn v) ∧
      sys.derivs (t + c * h) (List.ofFn v) (zeros n) = .ret (List.ofFn (T.stg f t x h i)) := by
  refine ⟨_, fill_advance hout x h row (T.stg f t x h) hlen hks, ?_⟩
  rw [hs.2 _ _ _ (zeros_length n), stg_eq, hc]
  have e : ∑ j ∈ Finset.range i, (row.getD j 0 : ℝ) • T.stg f t x h j
      = ∑ j ∈ Finset.range i, (T.A i j : ℝ) • T.stg f t x h j :=
    Finset.sum_congr rfl fun j _ => by rw [← hrow]; rfl
  rw [e]

end Tableau

/-- The forward Euler method. -/
def eulerT : Tableau := ⟨[[]], [1], [0]⟩
/-- The improved Euler method. -/
def heunT : Tableau := ⟨[[], [1]], [1 / 2, 1 / 2], [0, 1]⟩
/-- The midpoint method. -/
def midT : Tableau := ⟨[[], [1 / 2]], [0, 1], [0, 1 / 2]⟩
/-- The classical fourth-order method. -/
def rk4T : Tableau := ⟨[[], [1 / 2], [0, 1 / 2], [0, 0, 1]], [1 / 6, 1 / 3, 1 / 3, 1 / 6],
  [0, 1 / 2, 1 / 2, 1]⟩
/-- The positions of a velocity Verlet step. -/
def verletT : Tableau := ⟨[[], [1 / 2], [0, 1]], [0, 1, 0], [0, 1 / 2, 1]⟩
/-- The weights of the velocities of a velocity Verlet step. -/
def verletB : List ℚ := [1 / 2, 0, 1 / 2]
/-- The Cash–Karp method. -/
def ckT : Tableau := ⟨[[], [CK.a21], [CK.a31, CK.a32], [CK.a41, CK.a42, CK.a43],
    [CK.a51, CK.a52, CK.a53, CK.a54], [CK.a61, CK.a62, CK.a63, CK.a64, CK.a65]],
  [CK.b1, CK.b2, CK.b3, CK.b4, CK.b5, CK.b6], [0, CK.c2, CK.c3, CK.c4, CK.c5, CK.c6]⟩
def ckStar : List ℚ := [CK.bstar1, CK.bstar2, CK.bstar3, CK.bstar4, CK.bstar5, CK.bstar6]
/-- The fifth-order Dormand–Prince method. -/
def dp5T : Tableau := ⟨[[], [DP5.a21], [DP5.a31, DP5.a32], [DP5.a41, DP5.a42, DP5.a43],
    [DP5.a51, DP5.a52, DP5.a53, DP5.a54], [DP5.a61, DP5.a62, DP5.a63, DP5.a64, DP5.a65],
    [DP5.a71, DP5.a72, DP5.a73, DP5.a74, DP5.a75, DP5.a76]],
  [DP5.b1, DP5.b2, DP5.b3, DP5.b4, DP5.b5, DP5.b6, DP5.b7],
  [0, DP5.c2, DP5.c3, DP5.c4, DP5.c5, DP5.c6, DP5.c7]⟩
def dp5Star : List ℚ := [DP5.bstar1, DP5.bstar2, DP5.bstar3, DP5.bstar4, DP5.bstar5, DP5.bstar6,
  DP5.bstar7]
/-- The eighth-order Prince–Dormand method. -/
def dp8T : Tableau := ⟨[[], DP8.a2, DP8.a3, DP8.a4, DP8.a5, DP8.a6, DP8.a7, DP8.a8, DP8.a9, DP8.a10,
  DP8.a11, DP8.a12, DP8.a13], DP8.b8, DP8.c⟩

section

variable {sys : System} {f : ℝ → (Fin n → ℝ) → Fin n → ℝ} (hs : Computes sys f) (t : ℝ) (x : Fin n → ℝ)
  (h : ℝ) {xOut xErr : List ℝ} (hO : xOut.length = n) (hE : xErr.length = n)

include hs hO hE

theorem eulerStep_eq : eulerStep sys t (List.ofFn x) (List.ofFn (f t x)) h xOut xErr
    = .ret (List.ofFn (eulerT.step eulerT.b f t x h), List.ofFn (0 : Fin n → ℝ)) := by
  rw [eulerStep, hs.1, fill_ofFn (g := eulerT.step eulerT.b f t x h) hO, Outcome.bind_ret,
    fill_ofFn (g := (0 : Fin n → ℝ)) hE, Outcome.bind_ret]
  · intro i; rfl
  · intro i
    rw [index_ofFn_fin, Outcome.bind_ret, index_ofFn_fin, Outcome.bind_ret]
    simp [Tableau.step, eulerT, Tableau.stg_zero, Tableau.C]

theorem eulerCromerStep_eq :
    eulerCromerStep sys t (List.ofFn x) (List.ofFn (f t x)) h xOut xErr
      = .ret (List.ofFn (heunT.step heunT.b f t x h),
          List.ofFn (heunT.step heunT.b f t x h - eulerT.step eulerT.b f t x h)) := by
  have h1 : heunT.stg f t x h 0 = f t x := heunT.stg_zero f t x h rfl
  have h2 : heunT.stg f t x h 1 = f (t + h) (x + h • f t x) := by
    rw [Tableau.stg_eq]
    simp [heunT, Tableau.C, Tableau.A] at h1 ⊢
    rw [h1]
  rw [eulerCromerStep, hs.1, fill_ofFn (g := x + h • f t x) (zeros_length n), Outcome.bind_ret,
    hs.2 _ _ _ (zeros_length n), Outcome.bind_ret,
    fill_ofFn (g := heunT.step heunT.b f t x h) hO, Outcome.bind_ret,
    fill_ofFn (g := heunT.step heunT.b f t x h - eulerT.step eulerT.b f t x h) hE, Outcome.bind_ret]
  · intro i
    rw [index_ofFn_fin, Outcome.bind_ret, index_ofFn_fin, Outcome.bind_ret]
    simp [Tableau.step, eulerT, Tableau.stg_zero, Tableau.C]
  · intro i
    rw [index_ofFn_fin, Outcome.bind_ret, index_ofFn_fin, Outcome.bind_ret, index_ofFn_fin,
      Outcome.bind_ret]
    have e : heunT.step heunT.b f t x h
        = x + h • ((1 / 2 : ℝ) • f t x + (1 / 2 : ℝ) • f (t + h) (x + h • f t x)) := by
      rw [Tableau.step, show heunT.a.length = 2 from rfl, Finset.sum_range_succ,
        Finset.sum_range_succ, Finset.sum_range_zero, h1, h2]
      simp [heunT]
    rw [e]
    congr 1
    simp only [Pi.add_apply, Pi.smul_apply, smul_eq_mul]
    ring
  · intro i
    rw [index_ofFn_fin, Outcome.bind_ret, index_ofFn_fin, Outcome.bind_ret]
    rfl

theorem midpointStep_eq : midpointStep sys t (List.ofFn x) (List.ofFn (f t x)) h xOut xErr
    = .ret (List.ofFn (midT.step midT.b f t x h), List.ofFn (0 : Fin n → ℝ)) := by
  have h1 : midT.stg f t x h 0 = f t x := midT.stg_zero f t x h rfl
  have h2 : midT.stg f t x h 1 = f (t + 1 / 2 * h) (x + (1 / 2 * h) • f t x) := by
    rw [Tableau.stg_eq, Finset.sum_range_one, h1, smul_smul]
    simp [midT, Tableau.C, Tableau.A, mul_comm]
  rw [midpointStep, hs.1, fill_ofFn (g := x + (1 / 2 * h) • f t x) (zeros_length n),
    Outcome.bind_ret, hs.2 _ _ _ (zeros_length n), Outcome.bind_ret,
    fill_ofFn (g := midT.step midT.b f t x h) hO, Outcome.bind_ret,
    fill_ofFn (g := (0 : Fin n → ℝ)) hE, Outcome.bind_ret]
  · intro i; rfl
  · intro i
    rw [index_ofFn_fin, Outcome.bind_ret, index_ofFn_fin, Outcome.bind_ret]
    have e : midT.step midT.b f t x h = x + h • f (t + 1 / 2 * h) (x + (1 / 2 * h) • f t x) := by
      rw [Tableau.step, show midT.a.length = 2 from rfl, Finset.sum_range_succ,
        Finset.sum_range_one, h1, h2]
      simp [midT]
    rw [e]; rfl
  · intro i
    rw [index_ofFn_fin, Outcome.bind_ret, index_ofFn_fin, Outcome.bind_ret]
    rfl

omit hs hO hE in
theorem rk4Third_run (x dT m v : Fin n → ℝ) :
    forRange n (List.ofFn v, List.ofFn m) (rk4Third (List.ofFn x) (List.ofFn dT) h)
      = .ret (List.ofFn (x + h • m), List.ofFn (m + dT)) := by
  obtain ⟨s, h1, h2⟩ := forRange_rule
    (fun i (s : List ℝ × List ℝ) =>
      s = (List.ofFn (fun k : Fin n => if k.val < i then (x + h • m) k else v k),
        List.ofFn (fun k : Fin n => if k.val < i then (m + dT) k else m k))) n
    (List.ofFn v, List.ofFn m) (rk4Third (List.ofFn x) (List.ofFn dT) h) (by simp)
    (by
      rintro i s hi rfl
      refine ⟨_, ?_, rfl⟩
      have hset : ∀ (a b : Fin n → ℝ), store (List.ofFn (fun k : Fin n => if k.val < i then a k else b k)) i
          (a ⟨i, hi⟩) = .ret (List.ofFn (fun k : Fin n => if k.val < i + 1 then a k else b k)) := by
        intro a b
        rw [store, if_pos (by simpa using hi)]
        congr 1
        refine List.ext_getElem? fun j => ?_
        rw [List.getElem?_set]
        by_cases hij : i = j
        · subst hij; simp [hi]
        · rw [if_neg hij]
          by_cases hj : j < n
          · simp only [List.getElem?_ofFn, hj, dif_pos]
            by_cases h1 : j < i
            · rw [if_pos h1, if_pos (by omega)]
            · rw [if_neg h1, if_neg (by omega)]
          · simp [hj]
      have h3 := hset (x + h • m) v
      have h4 := hset (m + dT) m
      rw [rk4Third, index_ofFn _ hi, Outcome.bind_ret, index_ofFn _ hi, Outcome.bind_ret]
      dsimp only
      rw [if_neg (lt_irrefl i)]
      rw [show x ⟨i, hi⟩ + h * m ⟨i, hi⟩ = (x + h • m) ⟨i, hi⟩ from rfl, h3, Outcome.bind_ret,
        index_ofFn _ hi, Outcome.bind_ret,
        show m ⟨i, hi⟩ + dT ⟨i, hi⟩ = (m + dT) ⟨i, hi⟩ from rfl, h4, Outcome.bind_ret])
  rw [h1, h2]
  have e : ∀ a b : Fin n → ℝ, (fun k : Fin n => if k.val < n then a k else b k) = a := fun a b => by
    funext k; rw [if_pos k.2]
  rw [e, e]

theorem rk4Step_eq : rk4Step sys t (List.ofFn x) (List.ofFn (f t x)) h xOut xErr
    = .ret (List.ofFn (rk4T.step rk4T.b f t x h), List.ofFn (0 : Fin n → ℝ)) := by
  have h1 : rk4T.stg f t x h 0 = f t x := rk4T.stg_zero f t x h rfl
  have h2 : rk4T.stg f t x h 1 = f (t + h * (1 / 2)) (x + (h * (1 / 2)) • rk4T.stg f t x h 0) := by
    rw [Tableau.stg_eq, Finset.sum_range_one, smul_smul]
    simp [rk4T, Tableau.C, Tableau.A, mul_comm]
  have h3 : rk4T.stg f t x h 2 = f (t + h * (1 / 2)) (x + (h * (1 / 2)) • rk4T.stg f t x h 1) := by
    rw [Tableau.stg_eq, Finset.sum_range_succ, Finset.sum_range_one, smul_add, smul_smul, smul_smul]
    simp [rk4T, Tableau.C, Tableau.A, mul_comm]
  have h4 : rk4T.stg f t x h 3 = f (t + h) (x + h • rk4T.stg f t x h 2) := by
    rw [Tableau.stg_eq, Finset.sum_range_succ, Finset.sum_range_succ, Finset.sum_range_one]
    simp [rk4T, Tableau.C, Tableau.A]
  have e : rk4T.step rk4T.b f t x h = x + (h / 6) • (f t x + rk4T.stg f t x h 3
      + (2 : ℝ) • (rk4T.stg f t x h 2 + rk4T.stg f t x h 1)) := by
    rw [Tableau.step, show rk4T.a.length = 4 from rfl, Finset.sum_range_succ,
      Finset.sum_range_succ, Finset.sum_range_succ, Finset.sum_range_one, h1]
    simp only [rk4T, List.getD_cons_zero, List.getD_cons_succ]
    funext i
    simp only [Pi.add_apply, Pi.smul_apply, smul_eq_mul]
    push_cast
    ring
  rw [rk4Step, hs.1,
    fill_ofFn (g := x + (h * (1 / 2)) • rk4T.stg f t x h 0) (zeros_length n),
    Outcome.bind_ret, hs.2 _ _ _ (zeros_length n), Outcome.bind_ret, ← h2,
    fill_ofFn (g := x + (h * (1 / 2)) • rk4T.stg f t x h 1) (by simp), Outcome.bind_ret,
    hs.2 _ _ _ (zeros_length n), Outcome.bind_ret, ← h3,
    rk4Third_run, Outcome.bind_ret, hs.2 _ _ _ (by simp), Outcome.bind_ret, ← h4,
    fill_ofFn (g := rk4T.step rk4T.b f t x h) hO, Outcome.bind_ret,
    fill_ofFn (g := (0 : Fin n → ℝ)) hE, Outcome.bind_ret]
  · intro i; rfl
  · intro i
    rw [index_ofFn_fin, Outcome.bind_ret, index_ofFn_fin, Outcome.bind_ret, index_ofFn_fin,
      Outcome.bind_ret, index_ofFn_fin, Outcome.bind_ret, e]
    rfl
  · intro i
    rw [index_ofFn_fin, Outcome.bind_ret, index_ofFn_fin, Outcome.bind_ret]
    rfl
  · intro i
    rw [index_ofFn_fin, Outcome.bind_ret, index_ofFn_fin, Outcome.bind_ret, h1]
    rfl

theorem ckStep_eq : ckStep sys t (List.ofFn x) (List.ofFn (f t x)) h xOut xErr
    = .ret (List.ofFn (ckT.step ckT.b f t x h),
        List.ofFn (ckT.step ckT.b f t x h - ckT.step ckStar f t x h)) := by
  have h0 : ckT.stg f t x h 0 = f t x := ckT.stg_zero f t x h rfl
  obtain ⟨v1, e1, d1⟩ := ckT.stage_run hs t x h 1 (out := zeros n) (zeros_length n)
    (row := [CK.a21]) rfl rfl (c := CK.c2) rfl (ks := [List.ofFn (ckT.stg f t x h 0)]) rfl
  obtain ⟨v2, e2, d2⟩ := ckT.stage_run hs t x h 2 (out := List.ofFn v1) (by simp)
    (row := [CK.a31, CK.a32]) rfl rfl (c := CK.c3) rfl (ks := [List.ofFn (ckT.stg f t x h 0), List.ofFn (ckT.stg f t x h 1)]) rfl
  obtain ⟨v3, e3, d3⟩ := ckT.stage_run hs t x h 3 (out := List.ofFn v2) (by simp)
    (row := [CK.a41, CK.a42, CK.a43]) rfl rfl (c := CK.c4) rfl (ks := [List.ofFn (ckT.stg f t x h 0), List.ofFn (ckT.stg f t x h 1), List.ofFn (ckT.stg f t x h 2)]) rfl
  obtain ⟨v4, e4, d4⟩ := ckT.stage_run hs t x h 4 (out := List.ofFn v3) (by simp)
    (row := [CK.a51, CK.a52, CK.a53, CK.a54]) rfl rfl (c := CK.c5) rfl (ks := [List.ofFn (ckT.stg f t x h 0), List.ofFn (ckT.stg f t x h 1), List.ofFn (ckT.stg f t x h 2), List.ofFn (ckT.stg f t x h 3)]) rfl
  obtain ⟨v5, e5, d5⟩ := ckT.stage_run hs t x h 5 (out := List.ofFn v4) (by simp)
    (row := [CK.a61, CK.a62, CK.a63, CK.a64, CK.a65]) rfl rfl (c := CK.c6) rfl (ks := [List.ofFn (ckT.stg f t x h 0), List.ofFn (ckT.stg f t x h 1), List.ofFn (ckT.stg f t x h 2), List.ofFn (ckT.stg f t x h 3), List.ofFn (ckT.stg f t x h 4)]) rfl
  rw [ckStep, List.length_ofFn, ← h0, e1, Outcome.bind_ret, d1, Outcome.bind_ret, e2, Outcome.bind_ret, d2, Outcome.bind_ret, e3, Outcome.bind_ret, d3, Outcome.bind_ret, e4, Outcome.bind_ret, d4, Outcome.bind_ret, e5, Outcome.bind_ret, d5, Outcome.bind_ret,
    fill_ofFn (g := ckT.step ckT.b f t x h) hO, Outcome.bind_ret,
    fill_ofFn (g := ckT.step ckT.b f t x h - ckT.step ckStar f t x h) hE, Outcome.bind_ret]
  · intro i
    rw [estimate, combine_eq _ (fun j => ckT.stg f t x h ([0, 2, 3, 4, 5].getD j 0)) (r := 5) (le_refl 5)
      (ks := [List.ofFn (ckT.stg f t x h 0), List.ofFn (ckT.stg f t x h 2), List.ofFn (ckT.stg f t x h 3), List.ofFn (ckT.stg f t x h 4), List.ofFn (ckT.stg f t x h 5)]) rfl,
      Outcome.bind_ret]
    simp only [Tableau.step, show ckT.a.length = 6 from rfl, Finset.sum_range_succ,
      Finset.sum_range_zero, Pi.add_apply, Pi.sub_apply, Pi.smul_apply, smul_eq_mul, Pi.zero_apply,
      List.length_cons, List.length_nil, List.getD_cons_zero, List.getD_cons_succ, ckT, ckStar,
      CK.e1, CK.e3, CK.e4, CK.e5, CK.e6, CK.b2, CK.b5, CK.bstar2]
    push_cast
    congr 1
    ring
  · intro i
    rw [advance, index_ofFn_fin, Outcome.bind_ret,
      combine_eq _ (fun j => ckT.stg f t x h ([0, 2, 3, 5].getD j 0)) (r := 4) (le_refl 4)
      (ks := [List.ofFn (ckT.stg f t x h 0), List.ofFn (ckT.stg f t x h 2), List.ofFn (ckT.stg f t x h 3), List.ofFn (ckT.stg f t x h 5)]) rfl,
      Outcome.bind_ret]
    simp only [Tableau.step, show ckT.a.length = 6 from rfl, Finset.sum_range_succ,
      Finset.sum_range_zero, Pi.add_apply, Pi.smul_apply, smul_eq_mul, Pi.zero_apply,
      List.length_cons, List.length_nil, List.getD_cons_zero, List.getD_cons_succ, ckT,
      CK.b2, CK.b5]
    push_cast
    congr 1
    ring

theorem dp5Step_eq : dp5Step sys t (List.ofFn x) (List.ofFn (f t x)) h xOut xErr
    = .ret (List.ofFn (dp5T.step dp5T.b f t x h),
        List.ofFn (dp5T.step dp5T.b f t x h - dp5T.step dp5Star f t x h)) := by
  have h0 : dp5T.stg f t x h 0 = f t x := dp5T.stg_zero f t x h rfl
  obtain ⟨v1, e1, d1⟩ := dp5T.stage_run hs t x h 1 (out := zeros n) (zeros_length n)
    (row := [DP5.a21]) rfl rfl (c := DP5.c2) rfl (ks := [List.ofFn (dp5T.stg f t x h 0)]) rfl
  obtain ⟨v2, e2, d2⟩ := dp5T.stage_run hs t x h 2 (out := List.ofFn v1) (by simp)
    (row := [DP5.a31, DP5.a32]) rfl rfl (c := DP5.c3) rfl (ks := [List.ofFn (dp5T.stg f t x h 0), List.ofFn (dp5T.stg f t x h 1)]) rfl
  obtain ⟨v3, e3, d3⟩ := dp5T.stage_run hs t x h 3 (out := List.ofFn v2) (by simp)
    (row := [DP5.a41, DP5.a42, DP5.a43]) rfl rfl (c := DP5.c4) rfl (ks := [List.ofFn (dp5T.stg f t x h 0), List.ofFn (dp5T.stg f t x h 1), List.ofFn (dp5T.stg f t x h 2)]) rfl
  obtain ⟨v4, e4, d4⟩ := dp5T.stage_run hs t x h 4 (out := List.ofFn v3) (by simp)
    (row := [DP5.a51, DP5.a52, DP5.a53, DP5.a54]) rfl rfl (c := DP5.c5) rfl (ks := [List.ofFn (dp5T.stg f t x h 0), List.ofFn (dp5T.stg f t x h 1), List.ofFn (dp5T.stg f t x h 2), List.ofFn (dp5T.stg f t x h 3)]) rfl
  obtain ⟨v5, e5, d5⟩ := dp5T.stage_run hs t x h 5 (out := List.ofFn v4) (by simp)
    (row := [DP5.a61, DP5.a62, DP5.a63, DP5.a64, DP5.a65]) rfl rfl (c := DP5.c6) rfl (ks := [List.ofFn (dp5T.stg f t x h 0), List.ofFn (dp5T.stg f t x h 1), List.ofFn (dp5T.stg f t x h 2), List.ofFn (dp5T.stg f t x h 3), List.ofFn (dp5T.stg f t x h 4)]) rfl
  obtain ⟨v6, e6, d6⟩ := dp5T.stage_run hs t x h 6 (out := List.ofFn v5) (by simp)
    (row := [DP5.a71, DP5.a72, DP5.a73, DP5.a74, DP5.a75, DP5.a76]) rfl rfl (c := DP5.c7) rfl (ks := [List.ofFn (dp5T.stg f t x h 0), List.ofFn (dp5T.stg f t x h 1), List.ofFn (dp5T.stg f t x h 2), List.ofFn (dp5T.stg f t x h 3), List.ofFn (dp5T.stg f t x h 4), List.ofFn (dp5T.stg f t x h 5)]) rfl
  rw [dp5Step, List.length_ofFn, fill_ofFn (g := f t x) (zeros_length n) (fun i => index_ofFn_fin _ i),
    Outcome.bind_ret, ← h0, e1, Outcome.bind_ret, d1, Outcome.bind_ret, e2, Outcome.bind_ret, d2, Outcome.bind_ret, e3, Outcome.bind_ret, d3, Outcome.bind_ret, e4, Outcome.bind_ret, d4, Outcome.bind_ret, e5, Outcome.bind_ret, d5, Outcome.bind_ret, e6, Outcome.bind_ret, d6, Outcome.bind_ret,
    fill_advance hO x h _ (dp5T.stg f t x h) (r := 7) rfl
      (ks := [List.ofFn (dp5T.stg f t x h 0), List.ofFn (dp5T.stg f t x h 1), List.ofFn (dp5T.stg f t x h 2), List.ofFn (dp5T.stg f t x h 3), List.ofFn (dp5T.stg f t x h 4), List.ofFn (dp5T.stg f t x h 5), List.ofFn (dp5T.stg f t x h 6)]) rfl, Outcome.bind_ret,
    fill_estimate hE h _ (dp5T.stg f t x h) (r := 7) rfl
      (ks := [List.ofFn (dp5T.stg f t x h 0), List.ofFn (dp5T.stg f t x h 1), List.ofFn (dp5T.stg f t x h 2), List.ofFn (dp5T.stg f t x h 3), List.ofFn (dp5T.stg f t x h 4), List.ofFn (dp5T.stg f t x h 5), List.ofFn (dp5T.stg f t x h 6)]) rfl, Outcome.bind_ret]
  congr 2
  · rw [Tableau.step, Tableau.step, add_sub_add_left_eq_sub, ← smul_sub, ← Finset.sum_sub_distrib,
      show dp5T.a.length = 7 from rfl]
    congr 2
    refine Finset.sum_congr rfl fun j hj => ?_
    rw [← sub_smul, ← Rat.cast_sub]
    have hj' := Finset.mem_range.mp hj
    congr 2
    interval_cases j <;> rfl

theorem dp8Step_eq : dp8Step sys t (List.ofFn x) (List.ofFn (f t x)) h xOut xErr
    = .ret (List.ofFn (dp8T.step dp8T.b f t x h),
        List.ofFn (dp8T.step dp8T.b f t x h - dp8T.step DP8.b7 f t x h)) := by
  have h0 : dp8T.stg f t x h 0 = f t x := dp8T.stg_zero f t x h rfl
  obtain ⟨v1, e1, d1⟩ := dp8T.stage_run hs t x h 1 (out := zeros n) (zeros_length n)
    (row := DP8.a2) rfl rfl (c := DP8.c.getD 1 0) rfl (ks := [List.ofFn (dp8T.stg f t x h 0)]) rfl
  obtain ⟨v2, e2, d2⟩ := dp8T.stage_run hs t x h 2 (out := List.ofFn v1) (by simp)
    (row := DP8.a3) rfl rfl (c := DP8.c.getD 2 0) rfl (ks := [List.ofFn (dp8T.stg f t x h 0), List.ofFn (dp8T.stg f t x h 1)]) rfl
  obtain ⟨v3, e3, d3⟩ := dp8T.stage_run hs t x h 3 (out := List.ofFn v2) (by simp)
    (row := DP8.a4) rfl rfl (c := DP8.c.getD 3 0) rfl (ks := [List.ofFn (dp8T.stg f t x h 0), List.ofFn (dp8T.stg f t x h 1), List.ofFn (dp8T.stg f t x h 2)]) rfl
  obtain ⟨v4, e4, d4⟩ := dp8T.stage_run hs t x h 4 (out := List.ofFn v3) (by simp)
    (row := DP8.a5) rfl rfl (c := DP8.c.getD 4 0) rfl (ks := [List.ofFn (dp8T.stg f t x h 0), List.ofFn (dp8T.stg f t x h 1), List.ofFn (dp8T.stg f t x h 2), List.ofFn (dp8T.stg f t x h 3)]) rfl
  obtain ⟨v5, e5, d5⟩ := dp8T.stage_run hs t x h 5 (out := List.ofFn v4) (by simp)
    (row := DP8.a6) rfl rfl (c := DP8.c.getD 5 0) rfl (ks := [List.ofFn (dp8T.stg f t x h 0), List.ofFn (dp8T.stg f t x h 1), List.ofFn (dp8T.stg f t x h 2), List.ofFn (dp8T.stg f t x h 3), List.ofFn (dp8T.stg f t x h 4)]) rfl
  obtain ⟨v6, e6, d6⟩ := dp8T.stage_run hs t x h 6 (out := List.ofFn v5) (by simp)
    (row := DP8.a7) rfl rfl (c := DP8.c.getD 6 0) rfl (ks := [List.ofFn (dp8T.stg f t x h 0), List.ofFn (dp8T.stg f t x h 1), List.ofFn (dp8T.stg f t x h 2), List.ofFn (dp8T.stg f t x h 3), List.ofFn (dp8T.stg f t x h 4), List.ofFn (dp8T.stg f t x h 5)]) rfl
  obtain ⟨v7, e7, d7⟩ := dp8T.stage_run hs t x h 7 (out := List.ofFn v6) (by simp)
    (row := DP8.a8) rfl rfl (c := DP8.c.getD 7 0) rfl (ks := [List.ofFn (dp8T.stg f t x h 0), List.ofFn (dp8T.stg f t x h 1), List.ofFn (dp8T.stg f t x h 2), List.ofFn (dp8T.stg f t x h 3), List.ofFn (dp8T.stg f t x h 4), List.ofFn (dp8T.stg f t x h 5), List.ofFn (dp8T.stg f t x h 6)]) rfl
  obtain ⟨v8, e8, d8⟩ := dp8T.stage_run hs t x h 8 (out := List.ofFn v7) (by simp)
    (row := DP8.a9) rfl rfl (c := DP8.c.getD 8 0) rfl (ks := [List.ofFn (dp8T.stg f t x h 0), List.ofFn (dp8T.stg f t x h 1), List.ofFn (dp8T.stg f t x h 2), List.ofFn (dp8T.stg f t x h 3), List.ofFn (dp8T.stg f t x h 4), List.ofFn (dp8T.stg f t x h 5), List.ofFn (dp8T.stg f t x h 6), List.ofFn (dp8T.stg f t x h 7)]) rfl
  obtain ⟨v9, e9, d9⟩ := dp8T.stage_run hs t x h 9 (out := List.ofFn v8) (by simp)
    (row := DP8.a10) rfl rfl (c := DP8.c.getD 9 0) rfl (ks := [List.ofFn (dp8T.stg f t x h 0), List.ofFn (dp8T.stg f t x h 1), List.ofFn (dp8T.stg f t x h 2), List.ofFn (dp8T.stg f t x h 3), List.ofFn (dp8T.stg f t x h 4), List.ofFn (dp8T.stg f t x h 5), List.ofFn (dp8T.stg f t x h 6), List.ofFn (dp8T.stg f t x h 7), List.ofFn (dp8T.stg f t x h 8)]) rfl
  obtain ⟨v10, e10, d10⟩ := dp8T.stage_run hs t x h 10 (out := List.ofFn v9) (by simp)
    (row := DP8.a11) rfl rfl (c := DP8.c.getD 10 0) rfl (ks := [List.ofFn (dp8T.stg f t x h 0), List.ofFn (dp8T.stg f t x h 1), List.ofFn (dp8T.stg f t x h 2), List.ofFn (dp8T.stg f t x h 3), List.ofFn (dp8T.stg f t x h 4), List.ofFn (dp8T.stg f t x h 5), List.ofFn (dp8T.stg f t x h 6), List.ofFn (dp8T.stg f t x h 7), List.ofFn (dp8T.stg f t x h 8), List.ofFn (dp8T.stg f t x h 9)]) rfl
  obtain ⟨v11, e11, d11⟩ := dp8T.stage_run hs t x h 11 (out := List.ofFn v10) (by simp)
    (row := DP8.a12) rfl rfl (c := DP8.c.getD 11 0) rfl (ks := [List.ofFn (dp8T.stg f t x h 0), List.ofFn (dp8T.stg f t x h 1), List.ofFn (dp8T.stg f t x h 2), List.ofFn (dp8T.stg f t x h 3), List.ofFn (dp8T.stg f t x h 4), List.ofFn (dp8T.stg f t x h 5), List.ofFn (dp8T.stg f t x h 6), List.ofFn (dp8T.stg f t x h 7), List.ofFn (dp8T.stg f t x h 8), List.ofFn (dp8T.stg f t x h 9), List.ofFn (dp8T.stg f t x h 10)]) rfl
  obtain ⟨v12, e12, d12⟩ := dp8T.stage_run hs t x h 12 (out := List.ofFn v11) (by simp)
    (row := DP8.a13) rfl rfl (c := DP8.c.getD 12 0) rfl (ks := [List.ofFn (dp8T.stg f t x h 0), List.ofFn (dp8T.stg f t x h 1), List.ofFn (dp8T.stg f t x h 2), List.ofFn (dp8T.stg f t x h 3), List.ofFn (dp8T.stg f t x h 4), List.ofFn (dp8T.stg f t x h 5), List.ofFn (dp8T.stg f t x h 6), List.ofFn (dp8T.stg f t x h 7), List.ofFn (dp8T.stg f t x h 8), List.ofFn (dp8T.stg f t x h 9), List.ofFn (dp8T.stg f t x h 10), List.ofFn (dp8T.stg f t x h 11)]) rfl
  rw [dp8Step, List.length_ofFn, fill_ofFn (g := f t x) (zeros_length n) (fun i => index_ofFn_fin _ i),
    Outcome.bind_ret, ← h0, e1, Outcome.bind_ret, d1, Outcome.bind_ret, e2, Outcome.bind_ret, d2, Outcome.bind_ret, e3, Outcome.bind_ret, d3, Outcome.bind_ret, e4, Outcome.bind_ret, d4, Outcome.bind_ret, e5, Outcome.bind_ret, d5, Outcome.bind_ret, e6, Outcome.bind_ret, d6, Outcome.bind_ret, e7, Outcome.bind_ret, d7, Outcome.bind_ret, e8, Outcome.bind_ret, d8, Outcome.bind_ret, e9, Outcome.bind_ret, d9, Outcome.bind_ret, e10, Outcome.bind_ret, d10, Outcome.bind_ret, e11, Outcome.bind_ret, d11, Outcome.bind_ret, e12, Outcome.bind_ret, d12, Outcome.bind_ret,
    fill_advance hO x h _ (dp8T.stg f t x h) (r := 13) rfl
      (ks := [List.ofFn (dp8T.stg f t x h 0), List.ofFn (dp8T.stg f t x h 1), List.ofFn (dp8T.stg f t x h 2), List.ofFn (dp8T.stg f t x h 3), List.ofFn (dp8T.stg f t x h 4), List.ofFn (dp8T.stg f t x h 5), List.ofFn (dp8T.stg f t x h 6), List.ofFn (dp8T.stg f t x h 7), List.ofFn (dp8T.stg f t x h 8), List.ofFn (dp8T.stg f t x h 9), List.ofFn (dp8T.stg f t x h 10), List.ofFn (dp8T.stg f t x h 11), List.ofFn (dp8T.stg f t x h 12)]) rfl, Outcome.bind_ret,
    fill_estimate hE h _ (dp8T.stg f t x h) (r := 13) rfl
      (ks := [List.ofFn (dp8T.stg f t x h 0), List.ofFn (dp8T.stg f t x h 1), List.ofFn (dp8T.stg f t x h 2), List.ofFn (dp8T.stg f t x h 3), List.ofFn (dp8T.stg f t x h 4), List.ofFn (dp8T.stg f t x h 5), List.ofFn (dp8T.stg f t x h 6), List.ofFn (dp8T.stg f t x h 7), List.ofFn (dp8T.stg f t x h 8), List.ofFn (dp8T.stg f t x h 9), List.ofFn (dp8T.stg f t x h 10), List.ofFn (dp8T.stg f t x h 11), List.ofFn (dp8T.stg f t x h 12)]) rfl, Outcome.bind_ret]
  congr 2
  · rw [Tableau.step, Tableau.step, add_sub_add_left_eq_sub, ← smul_sub, ← Finset.sum_sub_distrib,
      show dp8T.a.length = 13 from rfl]
    congr 2
    refine Finset.sum_congr rfl fun j hj => ?_
    rw [← sub_smul, ← Rat.cast_sub]
    have hj' := Finset.mem_range.mp hj
    congr 2
    interval_cases j <;> rfl

end

end Verif.ODE
