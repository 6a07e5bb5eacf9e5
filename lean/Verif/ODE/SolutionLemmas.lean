import Verif.ODE.Solution
import Verif.Mat.DenseMore
import Verif.ODE.StepLemmas

/-! # Helper lemmas: the solution container -/

set_option autoImplicit false

namespace Verif.ODE

open Outcome Mat

/-- A container of dimension `n` and capacity `c` whose slot `k` holds the time `T k` and state `X · k`. -/
def Sol.mk' (ok bad n c m : ℕ) (t1 t2 : ℝ) (T : ℕ → ℝ) (X : ℕ → ℕ → ℝ) : Sol :=
  ⟨ok, bad, n, c, m, t1, t2, tab c T, Dense.ofFn n c X⟩

theorem vresize_tab (c d : ℕ) (T : ℕ → ℝ) :
    vresize (tab c T) (d : ℤ) = .ret (tab d (fun k => if k < c then T k else 0)) := by
  rw [vresize, if_neg (by omega)]
  congr 1
  refine List.ext_getElem? fun k => ?_
  rw [getElem?_tab, Int.toNat_natCast, List.getElem?_append, List.getElem?_take, getElem?_tab,
    List.length_take, length_tab, List.getElem?_replicate]
  by_cases h1 : k < d
  · by_cases h2 : k < c
    · rw [if_pos (by omega), if_pos h1, if_pos h1, if_pos h2, if_pos h2]
    · rw [if_neg (by omega), if_pos (by omega), if_pos h1, if_neg h2]
  · rw [if_neg h1]
    by_cases h2 : k < min d c
    · omega
    · rw [if_neg h2, if_neg (by omega), if_neg h1]

theorem resize_dense {n c d : ℕ} (X : ℕ → ℕ → ℝ) (h : Dense.Shape n d) (hn : 0 < n)
    (hc : Dense.Shape n c) :
    (Dense.ofFn n c X).resize (n : ℤ) (d : ℤ) true
      = .ret (Dense.ofFn n d (fun i j => if j < c then X i j else 0)) := by
  by_cases hcd : d = c
  · subst hcd
    rw [Dense.resize, if_pos ⟨rfl, rfl⟩]
    congr 1
    exact Dense.ofFn_congr fun i hi j hj => by rw [if_pos hj]
  · rw [Dense.resize_ofFn X h hn (by omega)]
    congr 1
    exact Dense.ofFn_congr fun i hi j hj => by
      by_cases h1 : j < c
      · rw [if_pos ⟨hi, h1⟩, if_pos h1]
      · rw [if_neg (by omega), if_neg h1]

theorem Sol.new_eq {n : ℕ} {N : ℕ} (t1 t2 : ℝ) (hn : 0 < n) (h : Dense.Shape n (N + 1)) :
    Sol.new t1 t2 n N = .ret (Sol.mk' 0 0 n (N + 1) 0 t1 t2 (fun _ => 0) (fun _ _ => 0)) := by
  have h1 := vresize_tab 0 (N + 1) (fun _ => 0)
  have e : tab 0 (fun _ => (0 : ℝ)) = [] := rfl
  rw [e] at h1
  have h2 : Dense.resize (⟨0, 0, []⟩ : Dense ℝ) (n : ℤ) ((N + 1 : ℕ) : ℤ) false
      = .ret (Dense.ofFn n (N + 1) (fun _ _ => 0)) := by
    rcases h with ⟨rfl, _⟩ | ⟨h3, h4, h5, h6, h7⟩
    · omega
    · rw [Dense.resize, if_neg (by simp; omega), if_neg (by omega)]
      simp only [Int.toNat_natCast]
      rw [Dense.validate, if_neg (by omega), if_neg (by omega), Outcome.bind_ret, if_neg (by simp),
        replicate_eq_tab]
      rfl
  rw [Sol.new, show (N : ℤ) + 1 = ((N + 1 : ℕ) : ℤ) by push_cast; ring, h1, Outcome.bind_ret, h2,
    Outcome.bind_ret]
  simp [Sol.mk']

theorem fill_column {n c k : ℕ} (hk : k < c) (X : ℕ → ℕ → ℝ) (y : Fin n → ℝ) :
    forRange n (Dense.ofFn n c X) (fun xv i => do
      let yi ← index (List.ofFn y) i
      xv.set i k yi)
      = .ret (Dense.ofFn n c (fun i j => if h : j = k ∧ i < n then y ⟨i, h.2⟩ else X i j)) := by
  obtain ⟨s, h1, h2⟩ := forRange_rule
    (fun m s => s = Dense.ofFn n c
      (fun i j => if h : j = k ∧ i < n ∧ i < m then y ⟨i, h.2.1⟩ else X i j)) n (Dense.ofFn n c X)
    (fun xv i => do
      let yi ← index (List.ofFn y) i
      xv.set i k yi)
    (Dense.ofFn_congr fun i hi j hj => by rw [dif_neg (by omega)])
    (by
      rintro m s hm rfl
      refine ⟨_, by rw [index_ofFn _ hm, Outcome.bind_ret, Dense.set_ofFn _ hm hk], ?_⟩
      refine Dense.ofFn_congr fun i hi j hj => ?_
      by_cases h : i = m ∧ j = k
      · obtain ⟨rfl, rfl⟩ := h
        rw [if_pos ⟨rfl, rfl⟩, dif_pos ⟨rfl, hm, by omega⟩]
      · rw [if_neg h]
        by_cases h' : j = k ∧ i < n ∧ i < m
        · rw [dif_pos h', dif_pos (by omega)]
        · rw [dif_neg h', dif_neg (by omega)])
  rw [h1, h2]
  congr 1
  refine Dense.ofFn_congr fun i hi j hj => ?_
  by_cases h : j = k ∧ i < n
  · rw [dif_pos h, dif_pos ⟨h.1, h.2, hi⟩]
  · rw [dif_neg h, dif_neg (by omega)]

theorem Sol.fillValues_eq {ok bad n c m k : ℕ} {t1 t2 : ℝ} (T : ℕ → ℝ) (X : ℕ → ℕ → ℝ) (hk : k < c) (t : ℝ)
    (y : Fin n → ℝ) :
    (Sol.mk' ok bad n c m t1 t2 T X).fillValues k t (List.ofFn y)
      = .ret (Sol.mk' ok bad n c (max m (k + 1)) t1 t2 (fun j => if j = k then t else T j)
          (fun i j => if h : j = k ∧ i < n then y ⟨i, h.2⟩ else X i j)) := by
  rw [Sol.fillValues, if_neg (by omega), if_neg (by simp [Sol.mk']), Sol.room,
    if_neg (by simp [Sol.mk']; omega), Outcome.bind_ret]
  simp only [Sol.mk', Int.toNat_natCast]
  rw [store_tab _ hk _, Outcome.bind_ret, fill_column hk X y, Outcome.bind_ret, Sol.bump]
  have e : (if (k : ℤ) + 1 > m then (k : ℤ) + 1 else m) = ((max m (k + 1) : ℕ) : ℤ) := by
    split <;> push_cast <;> omega
  dsimp only
  rw [e]

/-- A write just past the capacity grows the container. -/
theorem Sol.fillValues_grow {ok bad n c m : ℕ} {t1 t2 : ℝ} (T : ℕ → ℝ) (X : ℕ → ℕ → ℝ)
    (hn : 0 < n) (hc : Dense.Shape n c) (hd : Dense.Shape n (3 * c / 2 + 1)) (t : ℝ) (y : Fin n → ℝ) :
    (Sol.mk' ok bad n c m t1 t2 T X).fillValues c t (List.ofFn y)
      = (Sol.mk' ok bad n (3 * c / 2 + 1) m t1 t2 (fun j => if j < c then T j else 0)
          (fun i j => if j < c then X i j else 0)).fillValues c t (List.ofFn y) := by
  have hd' : c < 3 * c / 2 + 1 := by omega
  have e : (3 * (c : ℤ) / 2 + 1) = ((3 * c / 2 + 1 : ℕ) : ℤ) := by push_cast; ring
  have h1 : (Sol.mk' ok bad n c m t1 t2 T X).extend
      = .ret (Sol.mk' ok bad n (3 * c / 2 + 1) m t1 t2 (fun j => if j < c then T j else 0)
          (fun i j => if j < c then X i j else 0)) := by
    simp only [Sol.extend, Sol.mk', e]
    rw [vresize_tab, Outcome.bind_ret, resize_dense X hd hn hc, Outcome.bind_ret]
  rw [Sol.fillValues, if_neg (by omega), if_neg (by simp [Sol.mk']), Sol.room,
    if_pos (by simp [Sol.mk']), h1]
  rw [Sol.fillValues, if_neg (by omega), if_neg (by simp [Sol.mk']), Sol.room,
    if_neg (by simp [Sol.mk']; omega)]

theorem Sol.getTValue_eq {ok bad n c m : ℕ} {t1 t2 : ℝ} (T : ℕ → ℝ) (X : ℕ → ℕ → ℝ) (hm : m ≤ c) {k : ℕ}
    (hk : k < m) : (Sol.mk' ok bad n c m t1 t2 T X).getTValue k = .ret (T k) := by
  rw [Sol.getTValue, if_neg (by simp [Sol.mk']; omega)]
  exact index_tab T (by omega)

theorem Sol.getXValue_eq {ok bad n c m : ℕ} {t1 t2 : ℝ} (T : ℕ → ℝ) (X : ℕ → ℕ → ℝ) (hm : m ≤ c) {k i : ℕ}
    (hk : k < m) (hi : i < n) : (Sol.mk' ok bad n c m t1 t2 T X).getXValue k i = .ret (X i k) := by
  rw [Sol.getXValue, if_neg (by simp [Sol.mk']; omega), if_neg (by simp [Sol.mk']; omega)]
  exact Dense.get_ofFn X hi (by omega)

/-- The fixed-step solver stores the iterates of the step map. -/
theorem integrateFixed_run {n : ℕ} {sys : System} {f : ℝ → (Fin n → ℝ) → Fin n → ℝ} (hs : Computes sys f)
    {clc : Calc} {Φ E : ℝ → (Fin n → ℝ) → ℝ → Fin n → ℝ}
    (hcalc : ∀ t x h xOut xErr, xOut.length = n → xErr.length = n →
      clc sys t (List.ofFn x) (List.ofFn (f t x)) h xOut xErr
        = .ret (List.ofFn (Φ t x h), List.ofFn (E t x h)))
    (hn : 0 < n) (x₀ : Fin n → ℝ) (t1 t2 : ℝ) (N : ℕ) (hS : Dense.Shape n (N + 1)) (X : ℕ → Fin n → ℝ)
    (hX0 : X 0 = x₀)
    (hX : ∀ k, X (k + 1) = Φ (t1 + k * ((t2 - t1) / N)) (X k) ((t2 - t1) / N)) :
    ∃ T Y, integrateFixed sys clc (List.ofFn x₀) t1 t2 N
        = .ret (Sol.mk' 0 0 n (N + 1) (N + 1) t1 t2 T Y) ∧
      ∀ k ≤ N, T k = t1 + k * ((t2 - t1) / N) ∧ ∀ i : Fin n, Y i k = X k i := by
  set h := (t2 - t1) / N with hh
  obtain ⟨r, h1, h2⟩ := forRange_rule
    (fun k (r : Run) => ∃ T Y, r.sol = Sol.mk' 0 0 n (N + 1) (k + 1) t1 t2 T Y ∧
      (∀ j ≤ k, T j = t1 + j * h ∧ ∀ i : Fin n, Y i j = X j i) ∧
      r.x = List.ofFn (X k) ∧ r.xOut.length = n ∧ r.dxdt.length = n ∧ r.xErr.length = n ∧
      r.t = t1 + k * h) N
    (⟨Sol.mk' 0 0 n (N + 1) (max 0 (0 + 1)) t1 t2 (fun j => if j = 0 then t1 else 0)
          (fun i j => if h : j = 0 ∧ i < n then x₀ ⟨i, h.2⟩ else 0), List.ofFn x₀, zeros n, zeros n, zeros n,
        t1⟩ : Run)
    (fixedBody sys clc h)
    ⟨_, _, rfl, by
      intro j hj
      have : j = 0 := by omega
      subst this
      exact ⟨by simp, fun i => by simp [hX0]⟩, by rw [hX0], zeros_length n, zeros_length n,
      zeros_length n, by simp⟩
    (by
      rintro k r hk ⟨T, Y, e1, e2, e3, e4, e5, e6, e7⟩
      refine ⟨⟨Sol.mk' 0 0 n (N + 1) (max (k + 1) (k + 1 + 1)) t1 t2
        (fun j => if j = k + 1 then r.t + h else T j)
          (fun i j => if h : j = k + 1 ∧ i < n then X (k + 1) ⟨i, h.2⟩ else Y i j),
          List.ofFn (X (k + 1)), List.ofFn (X (k + 1)), List.ofFn (f r.t (X k)),
          List.ofFn (E r.t (X k) h), r.t + h⟩, ?_, (fun j => if j = k + 1 then r.t + h else T j),
          (fun i j => if h : j = k + 1 ∧ i < n then X (k + 1) ⟨i, h.2⟩ else Y i j), ?_, ?_, rfl, by simp, by simp, by simp, ?_⟩
      · have e8 : X (k + 1) = Φ r.t (X k) h := by rw [hX, e7]
        rw [fixedBody, e3, hs.2 _ _ _ e5, Outcome.bind_ret, hcalc _ _ _ _ _ e4 e6, Outcome.bind_ret, ← e8]
        dsimp only
        have e9 : ((k : ℤ) + 1) = ((k + 1 : ℕ) : ℤ) := by push_cast; ring
        rw [e1, e9, Sol.fillValues_eq T Y (by omega), Outcome.bind_ret]
      · rw [show max (k + 1) (k + 1 + 1) = k + 1 + 1 by omega]
      · intro j hj
        dsimp only
        by_cases hjk : j = k + 1
        · subst hjk
          refine ⟨by rw [if_pos rfl, e7]; push_cast; ring, fun i => ?_⟩
          rw [dif_pos ⟨rfl, i.2⟩]
        · obtain ⟨e10, e11⟩ := e2 j (by omega)
          refine ⟨by rw [if_neg hjk, e10], fun i => ?_⟩
          rw [dif_neg (by omega), e11]
      · dsimp only; rw [e7]; push_cast; ring)
  obtain ⟨T, Y, e1, e2, -⟩ := h2
  refine ⟨T, Y, ?_, e2⟩
  rw [integrateFixed, hs.1, Sol.new_eq t1 t2 hn hS, Outcome.bind_ret]
  have e3 := Sol.fillValues_eq (ok := 0) (bad := 0) (n := n) (c := N + 1) (m := 0) (k := 0) (t1 := t1)
    (t2 := t2) (fun _ => 0) (fun _ _ => 0) (Nat.succ_pos N) t1 x₀
  rw [Nat.cast_zero] at e3
  rw [e3, Outcome.bind_ret, Int.toNat_natCast]
  rw [Int.cast_natCast, ← hh, h1, Outcome.bind_ret, e1]

end Verif.ODE
