import Verif.ODE.SolutionLemmas

/-!
# The solution container (C91)

Specification: a history of `fillValues(0, ..)`, `fillValues(1, ..)`, ... on a fresh container, read back
through the accessors.
-/

set_option autoImplicit false

namespace Verif.ODE

open Outcome Mat

/-- `sol.fillValues(k, t, x)` for the successive entries `(t, x)` of the list, `k` counting from `k0`. -/
noncomputable def fillAll {n : ℕ} (k0 : ℕ) : List (ℝ × (Fin n → ℝ)) → Sol → Outcome Sol
  | [], s => ret s
  | (t, x) :: l, s => do
    let s ← s.fillValues k0 t (List.ofFn x)
    fillAll (k0 + 1) l s

/-- What a caller sees of a container holding the entries `l`. -/
def Sees {n : ℕ} (s : Sol) (l : List (ℝ × (Fin n → ℝ))) : Prop :=
  s.size = l.length ∧
  (∀ k (h : k < l.length), s.getTValue k = .ret (l[k].1) ∧
    ∀ i : Fin n, s.getXValue k i.val = .ret (l[k].2 i)) ∧
  (∀ ind : ℤ, ind < 0 ∨ (l.length : ℤ) ≤ ind → s.getTValue ind = .exn (.mml "IndexError") ∧
    ∀ c, s.getXValue ind c = .exn (.mml "IndexError")) ∧
  (∀ k c : ℤ, c < 0 ∨ (n : ℤ) ≤ c → s.getXValue k c = .exn (.mml "IndexError")) ∧
  s.getXValuesAtEnd = (if h : l = [] then .exn (.mml "IndexError")
    else .ret (List.ofFn (l.getLast h).2))

theorem sees_mk {n ok bad c : ℕ} {t1 t2 : ℝ} {T : ℕ → ℝ} {X : ℕ → ℕ → ℝ} {l : List (ℝ × (Fin n → ℝ))}
    (hc : l.length ≤ c) (h : ∀ k (h : k < l.length), T k = l[k].1 ∧ ∀ i : Fin n, X i k = l[k].2 i) :
    Sees (Sol.mk' ok bad n c l.length t1 t2 T X) l := by
  refine ⟨rfl, fun k hk => ?_, fun ind hi => ?_, fun k c' hc' => ?_, ?_⟩
  · rw [Sol.getTValue_eq T X hc hk, (h k hk).1]
    refine ⟨rfl, fun i => ?_⟩
    rw [Sol.getXValue_eq T X hc hk i.2, (h k hk).2]
  · have : ind < 0 ∨ ind ≥ (Sol.mk' ok bad n c l.length t1 t2 T X).count := hi
    exact ⟨by rw [Sol.getTValue, if_pos this], fun c => by rw [Sol.getXValue, if_pos this]⟩
  · have : c' < 0 ∨ c' ≥ (Sol.mk' ok bad n c l.length t1 t2 T X).sysDim := hc'
    rw [Sol.getXValue, if_pos this, ite_self]
  · by_cases hl : l = []
    · subst hl
      rw [dif_pos rfl, Sol.getXValuesAtEnd, if_pos (by simp [Sol.mk'])]
    · have hpos : 0 < l.length := List.length_pos_of_ne_nil hl
      rw [dif_neg hl, Sol.getXValuesAtEnd, if_neg (by simp [Sol.mk', hl])]
      refine fill_ofFn (by simp [Sol.mk', zeros]) fun i => ?_
      have e : ((Sol.mk' ok bad n c l.length t1 t2 T X).count - 1).toNat = l.length - 1 := by
        simp [Sol.mk']
      rw [e, List.getLast_eq_getElem, ← (h (l.length - 1) (by omega)).2 i]
      exact Dense.get_ofFn X i.2 (by omega)

theorem fillAll_run {n : ℕ} (hn : 0 < n) (L M : ℕ) (hM : Dense.Shape n (M + 1))
    (hL : Dense.Shape n (3 * L / 2 + 1)) {ok bad : ℕ} {t1 t2 : ℝ} :
    ∀ (l l0 : List (ℝ × (Fin n → ℝ))) (c : ℕ) (T : ℕ → ℝ) (X : ℕ → ℕ → ℝ),
      (c = M + 1 ∨ 0 < c ∧ c ≤ 3 * L / 2 + 1) → l0.length ≤ c → l0.length + l.length ≤ L →
      (∀ k (h : k < l0.length), T k = l0[k].1 ∧ ∀ i : Fin n, X i k = l0[k].2 i) →
      ∃ c' T' X', fillAll l0.length l (Sol.mk' ok bad n c l0.length t1 t2 T X)
          = .ret (Sol.mk' ok bad n c' (l0 ++ l).length t1 t2 T' X') ∧ (l0 ++ l).length ≤ c' ∧
        (c' = M + 1 ∨ 0 < c' ∧ c' ≤ 3 * L / 2 + 1) ∧
        ∀ k (h : k < (l0 ++ l).length), T' k = (l0 ++ l)[k].1 ∧ ∀ i : Fin n, X' i k = (l0 ++ l)[k].2 i := by
  intro l
  induction l with
  | nil =>
    intro l0 c T X hc h0 hL' h
    refine ⟨c, T, X, by simp [fillAll], by simpa using h0, hc, fun k hk => ?_⟩
    have := h k (by simpa using hk)
    simpa using this
  | cons p l ih =>
    obtain ⟨t, x⟩ := p
    intro l0 c T X hc h0 hL' h
    have shape : ∀ c, 0 < c → c ≤ 3 * L / 2 + 1 → Dense.Shape n c := by
      intro c h1 h2
      rcases hL with ⟨h3, _⟩ | ⟨_, _, h5, h6, h7⟩
      · omega
      · exact Or.inr ⟨hn, h1, h5, by omega, (Nat.mul_le_mul_left n h2).trans h7⟩
    have hcS : Dense.Shape n c := by
      rcases hc with rfl | hc
      · exact hM
      · exact shape c hc.1 hc.2
    simp only [List.length_cons] at hL'
    -- after making room
    obtain ⟨c', T1, X1, e1, hc1, hc2, h1⟩ : ∃ c' T1 X1,
        (Sol.mk' ok bad n c l0.length t1 t2 T X).fillValues l0.length t (List.ofFn x)
          = (Sol.mk' ok bad n c' l0.length t1 t2 T1 X1).fillValues l0.length t (List.ofFn x) ∧
        l0.length < c' ∧ (c' = M + 1 ∨ 0 < c' ∧ c' ≤ 3 * L / 2 + 1) ∧
        ∀ k (h : k < l0.length), T1 k = l0[k].1 ∧ ∀ i : Fin n, X1 i k = l0[k].2 i := by
      rcases Nat.lt_or_eq_of_le h0 with hlt | heq
      · exact ⟨c, T, X, rfl, hlt, hc, h⟩
      · refine ⟨3 * c / 2 + 1, fun j => if j < c then T j else 0, fun i j => if j < c then X i j else 0, ?_,
          by omega, Or.inr ⟨by omega, by omega⟩, fun k hk => ?_⟩
        · have := Sol.fillValues_grow (ok := ok) (bad := bad) (n := n) (c := c) (m := l0.length)
            (t1 := t1) (t2 := t2) T X hn hcS (shape _ (by omega) (by omega)) t x
          rw [heq] at this ⊢
          exact this
        · have hk' : k < c := by omega
          simpa only [if_pos hk'] using h k hk
    have hlen : (l0 ++ [(t, x)]).length = max l0.length (l0.length + 1) := by simp
    obtain ⟨c2, T2, X2, e2, hc3, hc4, h2⟩ := ih (l0 ++ [(t, x)]) c'
      (fun j => if j = l0.length then t else T1 j)
      (fun i j => if h : j = l0.length ∧ i < n then x ⟨i, h.2⟩ else X1 i j) hc2
      (by simp; omega) (by simp; omega) (fun k hk => by
        by_cases hk' : k = l0.length
        · subst hk'
          simp
        · have hk2 : k < l0.length := by simp at hk; omega
          have h3 := h1 k hk2
          rw [if_neg hk', List.getElem_append_left hk2]
          refine ⟨h3.1, fun i => ?_⟩
          rw [dif_neg (by omega), h3.2])
    refine ⟨c2, T2, X2, ?_, ?_, hc4, ?_⟩
    · rw [fillAll, e1, Sol.fillValues_eq T1 X1 hc1, Outcome.bind_ret, ← hlen]
      rw [show l0.length + 1 = (l0 ++ [(t, x)]).length by simp, e2, List.append_assoc]
      rfl
    · simpa using hc3
    · simpa only [List.append_assoc, List.singleton_append] using h2

/-- **Read back**: a container created for `M` steps and filled with any number of entries, growing as
needed, returns exactly those entries; all other indices and components are rejected. -/
theorem solution_read_back {n M : ℕ} (hn : 0 < n) (t1 t2 : ℝ) (l : List (ℝ × (Fin n → ℝ)))
    (hM : Dense.Shape n (M + 1)) (hL : Dense.Shape n (3 * l.length / 2 + 1)) :
    ∃ s, (do let s ← Sol.new t1 t2 n M; fillAll 0 l s) = .ret s ∧ Sees s l := by
  obtain ⟨c, T, X, h1, h2, -, h3⟩ := fillAll_run hn l.length M hM hL (ok := 0) (bad := 0) (t1 := t1)
    (t2 := t2) l [] (M + 1) (fun _ => 0) (fun _ _ => 0) (Or.inl rfl) (by simp) (by simp)
    (fun k hk => absurd hk (by simp))
  refine ⟨Sol.mk' 0 0 n c ([] ++ l).length t1 t2 T X, ?_, sees_mk h2 h3⟩
  rw [Sol.new_eq t1 t2 hn hM, Outcome.bind_ret]
  exact h1

/-- Trimming with `setFinalSize` keeps the entries, and the whole time array is then the list of times. -/
theorem solution_final_size {n M : ℕ} (hn : 0 < n) (t1 t2 : ℝ) (l : List (ℝ × (Fin n → ℝ)))
    (hM : Dense.Shape n (M + 1)) (hL : Dense.Shape n (3 * l.length / 2 + 1)) (hl : l ≠ []) :
    ∃ s, (do
        let s ← Sol.new t1 t2 n M
        let s ← fillAll 0 l s
        s.setFinalSize ((l.length : ℤ) - 1)) = .ret s ∧ Sees s l ∧ s.getTValues = l.map Prod.fst := by
  have hpos : 0 < l.length := List.length_pos_of_ne_nil hl
  obtain ⟨c, T, X, h1, h2, hc, h3⟩ := fillAll_run hn l.length M hM hL (ok := 0) (bad := 0) (t1 := t1)
    (t2 := t2) l [] (M + 1) (fun _ => 0) (fun _ _ => 0) (Or.inl rfl) (by simp) (by simp)
    (fun k hk => absurd hk (by simp))
  simp only [List.nil_append] at h1 h2 h3
  have hS : ∀ d, 0 < d → d ≤ 3 * l.length / 2 + 1 → Dense.Shape n d := by
    intro d h4 h5
    rcases hL with ⟨h6, _⟩ | ⟨_, _, h7, h8, h9⟩
    · omega
    · exact Or.inr ⟨hn, h4, h7, by omega, (Nat.mul_le_mul_left n h5).trans h9⟩
  have hcS : Dense.Shape n c := by
    rcases hc with rfl | hc
    · exact hM
    · exact hS c hc.1 hc.2
  refine ⟨Sol.mk' 0 0 n l.length l.length t1 t2 (fun k => if k < c then T k else 0)
    (fun i j => if j < c then X i j else 0), ?_, sees_mk le_rfl (fun k hk => ?_), ?_⟩
  · rw [Sol.new_eq t1 t2 hn hM, Outcome.bind_ret]
    rw [show ([] : List (ℝ × (Fin n → ℝ))).length = 0 from rfl] at h1
    rw [h1, Outcome.bind_ret, Sol.setFinalSize, sub_add_cancel]
    simp only [Sol.mk']
    rw [vresize_tab, Outcome.bind_ret, resize_dense X (hS _ hpos (by omega)) hn hcS, Outcome.bind_ret]
  · have hk' : k < c := by omega
    simpa only [if_pos hk'] using h3 k hk
  · simp only [Sol.getTValues, Sol.mk']
    refine List.ext_getElem (by simp [length_tab]) fun k h4 h5 => ?_
    have hk : k < l.length := by simpa [length_tab] using h4
    have e := getElem?_tab l.length (fun k => if k < c then T k else 0) k
    rw [if_pos hk, if_pos (show k < c by omega), List.getElem?_eq_getElem h4] at e
    rw [Option.some.inj e, (h3 k hk).1, List.getElem_map]

/-- An existing entry is replaced, and no other one is touched. -/
theorem solution_overwrite {n ok bad c : ℕ} {t1 t2 : ℝ} {T : ℕ → ℝ} {X : ℕ → ℕ → ℝ}
    {l : List (ℝ × (Fin n → ℝ))} (hc : l.length ≤ c)
    (h : ∀ k (h : k < l.length), T k = l[k].1 ∧ ∀ i : Fin n, X i k = l[k].2 i) {j : ℕ} (hj : j < l.length)
    (t : ℝ) (x : Fin n → ℝ) :
    ∃ s, (Sol.mk' ok bad n c l.length t1 t2 T X).fillValues j t (List.ofFn x) = .ret s ∧
      Sees s (l.set j (t, x)) := by
  refine ⟨_, Sol.fillValues_eq T X (by omega) t x, ?_⟩
  rw [show max l.length (j + 1) = (l.set j (t, x)).length by simp; omega]
  refine sees_mk (by simpa using hc) fun k hk => ?_
  simp only [List.length_set] at hk
  rw [List.getElem_set]
  by_cases hkj : k = j
  · subst hkj
    simp
  · rw [if_neg hkj, if_neg (Ne.symm hkj)]
    refine ⟨(h k hk).1, fun i => ?_⟩
    rw [dif_neg (by omega), (h k hk).2]

/-- A state of the wrong dimension, or a negative index, is rejected. -/
theorem solution_rejects (s : Sol) (ind : ℤ) (t : ℝ) (y : List ℝ) :
    (ind < 0 → s.fillValues ind t y = .exn (.mml "IndexError")) ∧
    (0 ≤ ind → (y.length : ℤ) ≠ s.sysDim → s.fillValues ind t y = .exn (.mml "ArgumentError")) :=
  ⟨fun h => by rw [Sol.fillValues, if_pos h],
    fun h h' => by rw [Sol.fillValues, if_neg (by omega), if_pos h']⟩

/-- **Out-of-bounds write**: the container grows only once per call, so that an index beyond one and a
half times the capacity is written past the end of the storage. -/
theorem solution_far_write_ub {n M : ℕ} (hn : 0 < n) (t1 t2 : ℝ) (hM : Dense.Shape n (M + 1))
    (hG : Dense.Shape n (3 * (M + 1) / 2 + 1)) {ind : ℕ} (hind : 3 * (M + 1) / 2 + 1 ≤ ind) (t : ℝ)
    (x : Fin n → ℝ) :
    (do let s ← Sol.new t1 t2 n M; s.fillValues ind t (List.ofFn x)) = .ub := by
  rw [Sol.new_eq t1 t2 hn hM, Outcome.bind_ret]
  have e : (3 * ((M + 1 : ℕ) : ℤ) / 2 + 1) = ((3 * (M + 1) / 2 + 1 : ℕ) : ℤ) := by push_cast; ring
  rw [Sol.fillValues, if_neg (by omega), if_neg (by simp [Sol.mk']), Sol.room,
    if_pos (by simp [Sol.mk']; omega), Sol.extend]
  simp only [Sol.mk', e]
  rw [vresize_tab, Outcome.bind_ret, resize_dense _ hG hn hM, Outcome.bind_ret, Outcome.bind_ret]
  dsimp only
  rw [store, if_neg (by rw [length_tab, Int.toNat_natCast]; omega)]
  rfl

/-- **Unused tail**: `getTValues()` returns the whole storage, not the `size()` entries; after one write to
a container created for `M` steps it has `M + 1` entries, `M` of them zero. -/
theorem solution_times_unused_tail {n M : ℕ} (hn : 0 < n) (t1 t2 : ℝ) (hM : Dense.Shape n (M + 1)) (t : ℝ)
    (x : Fin n → ℝ) :
    ∃ s, (do let s ← Sol.new t1 t2 n M; s.fillValues 0 t (List.ofFn x)) = .ret s ∧ s.size = 1 ∧
      s.getTValues = t :: List.replicate M 0 := by
  have h1 := Sol.fillValues_eq (ok := 0) (bad := 0) (n := n) (c := M + 1) (m := 0) (k := 0) (t1 := t1)
    (t2 := t2) (fun _ => 0) (fun _ _ => 0) (Nat.succ_pos M) t x
  rw [Nat.cast_zero] at h1
  refine ⟨_, by rw [Sol.new_eq t1 t2 hn hM, Outcome.bind_ret, h1], rfl, ?_⟩
  simp only [Sol.getTValues, Sol.mk']
  refine List.ext_getElem? fun k => ?_
  rw [getElem?_tab]
  cases k with
  | zero => simp
  | succ k => simp [List.getElem?_replicate]

/-! ## The hypotheses are met -/

example : ∃ s, (do
    let s ← Sol.new 0 1 (2 : ℕ) (1 : ℕ)
    fillAll 0 [((0 : ℝ), ![1, 0]), (1 / 2, ![2, 1]), (3 / 4, ![3, 1]), (1, ![4, 5])] s) = .ret s ∧
    Sees s [((0 : ℝ), ![1, 0]), (1 / 2, ![2, 1]), (3 / 4, ![3, 1]), (1, ![4, 5])] :=
  solution_read_back (by norm_num) 0 1 _ (Or.inr (by norm_num)) (Or.inr (by simp))

example : (do let s ← Sol.new 0 1 (2 : ℕ) (10 : ℕ); s.fillValues (20 : ℕ) 1 (List.ofFn ![1, 2])) = .ub :=
  solution_far_write_ub (by norm_num) 0 1 (Or.inr (by norm_num)) (Or.inr (by norm_num)) (by norm_num) 1 _

end Verif.ODE
