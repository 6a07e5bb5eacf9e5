import Verif.Mat.DenseLemmas

/-! # Helper lemmas for the dense matrix: constructors, slices and rearrangements -/

set_option autoImplicit false

namespace Verif.Mat.Dense

variable {K : Type}

theorem diag_loop {n : ℕ} (f : ℕ → ℕ → K) (h : ℕ → K) (body : Dense K → ℕ → Outcome (Dense K))
    (hb : ∀ i < n, ∀ m : Dense K, body m i = m.set i i (h i)) :
    forRange n (ofFn n n f) body = .ret (ofFn n n (fun p q => if p = q then h p else f p q)) := by
  rw [forRange_row n f (fun i j => if i = j then h i else f i j) le_rfl]
  · congr 1
    exact ofFn_congr fun i hi j _ => by rw [if_pos hi]
  · intro i hi g hg
    rw [hb i hi, set_ofFn _ hi hi]
    congr 1
    refine ofFn_congr fun p _ q hq => ?_
    by_cases hp : p = i
    · subst hp
      by_cases hq' : q = p
      · subst hq'; simp
      · rw [if_neg (by omega), if_pos rfl, if_neg (by omega), hg p le_rfl q hq]
    · rw [if_neg (by omega), if_neg hp]

theorem makeUnit_ofFn [Zero K] [One K] {n : ℕ} (f : ℕ → ℕ → K) :
    (ofFn n n f).makeUnit = .ret (ofFn n n (fun p q => if p = q then 1 else 0)) := by
  simp only [makeUnit, ofFn_rows, ofFn_cols, ne_eq, not_true_eq_false, if_false]
  have e : ({ rows := n, cols := n, data := List.replicate (ofFn n n f).data.length (0 : K) } : Dense K)
      = ofFn n n (fun _ _ => 0) := by
    simp only [ofFn, length_tab, replicate_eq_tab]
  rw [e]
  exact diag_loop _ (fun _ => 1) _ (fun i _ m => rfl)

theorem identity_spec [Zero K] [One K] {n : ℕ} (h : Shape n n) (hn : 0 < n) :
    (identity (n : ℤ) : Outcome (Dense K)) = .ret (ofFn n n (fun p q => if p = q then 1 else 0)) := by
  simp only [identity]
  rw [if_neg (by omega), new_spec h, Outcome.bind_ret, makeUnit_ofFn]

theorem diagonalMatrix_spec [Zero K] {n : ℕ} (h : Shape n n) (hn : 0 < n) (v : ℕ → K) :
    diagonalMatrix (tab n v) = .ret (ofFn n n (fun p q => if p = q then v p else 0)) := by
  simp only [diagonalMatrix, length_tab]
  rw [if_neg (by omega), new_spec h, Outcome.bind_ret]
  exact diag_loop _ v _ (fun i hi m => by rw [index_tab _ hi, Outcome.bind_ret])

theorem rowVector_ofFn [Zero K] {r c : ℕ} (f : ℕ → ℕ → K) {i : ℕ} (hi : i < r) :
    (ofFn r c f).rowVector (i : ℤ) = .ret (tab c (fun j => f i j)) := by
  rw [rowVector, if_neg (by simp only [ofFn_rows, ofFn_cols]; omega)]
  simp only [ofFn_cols, Int.toNat_natCast]
  rw [replicate_eq_tab, forRange_fill c c le_rfl _ (fun j => f i j)]
  · congr 1
    exact tab_congr fun j hj => by rw [if_pos hj]
  · intro j hj d
    rw [get_ofFn f hi hj, Outcome.bind_ret]

theorem colVector_ofFn [Zero K] {r c : ℕ} (f : ℕ → ℕ → K) {j : ℕ} (hj : j < c) :
    (ofFn r c f).colVector (j : ℤ) = .ret (tab r (fun i => f i j)) := by
  rw [colVector, if_neg (by simp only [ofFn_rows, ofFn_cols]; omega)]
  simp only [ofFn_rows, Int.toNat_natCast]
  rw [replicate_eq_tab, forRange_fill r r le_rfl _ (fun i => f i j)]
  · congr 1
    exact tab_congr fun i hi => by rw [if_pos hi]
  · intro i hi d
    rw [get_ofFn f hi hj, Outcome.bind_ret]

theorem diagonal_ofFn [Zero K] {n : ℕ} (f : ℕ → ℕ → K) :
    (ofFn n n f).diagonal = .ret (tab n (fun i => f i i)) := by
  simp only [diagonal, ofFn_rows, ofFn_cols, ne_eq, not_true_eq_false, if_false]
  rw [replicate_eq_tab, forRange_fill n n le_rfl _ (fun i => f i i)]
  · congr 1
    exact tab_congr fun i hi => by rw [if_pos hi]
  · intro i hi d
    rw [get_ofFn f hi hi, Outcome.bind_ret]

theorem getLower_ofFn [Zero K] {n : ℕ} (h : Shape n n) (f : ℕ → ℕ → K) (incl : Bool) :
    (ofFn n n f).getLower incl =
      .ret (ofFn n n (fun i j => if j < i ∨ (incl = true ∧ i = j) then f i j else 0)) := by
  simp only [getLower, ofFn_rows, ofFn_cols, ne_eq, not_true_eq_false, if_false]
  rw [new_spec h, Outcome.bind_ret,
    forRange_row n _ (fun i j => if j < i ∨ (incl = true ∧ i = j) then f i j else 0) le_rfl]
  · congr 1
    exact ofFn_congr fun i hi j _ => by rw [if_pos hi]
  · intro i hi g hg
    rw [forRange_cols _ i g (fun j => f i j) hi (by split <;> omega)]
    · congr 1
      refine ofFn_congr fun p _ q hq => ?_
      by_cases hp : p = i
      · subst hp
        rw [if_pos rfl, if_pos rfl]
        cases incl
        · by_cases h1 : q < p
          · simp [h1]
          · simp [h1, hg p le_rfl q hq]
        · by_cases h1 : q < p + 1
          · rw [if_pos (by simpa using h1), if_pos (by simp; omega)]
          · rw [if_neg (by simpa using h1), if_neg (by simp; omega), hg p le_rfl q hq]
      · rw [if_neg hp, if_neg hp]
    · intro j hj m
      have : j < n := by split at hj <;> omega
      rw [get_ofFn f hi this, Outcome.bind_ret]

theorem getUpper_ofFn [Zero K] {n : ℕ} (h : Shape n n) (f : ℕ → ℕ → K) (incl : Bool) :
    (ofFn n n f).getUpper incl =
      .ret (ofFn n n (fun i j => if i < j ∨ (incl = true ∧ i = j) then f i j else 0)) := by
  simp only [getUpper, ofFn_rows, ofFn_cols, ne_eq, not_true_eq_false, if_false]
  rw [new_spec h, Outcome.bind_ret,
    forRange_row n _ (fun i j => if i < j ∨ (incl = true ∧ i = j) then f i j else 0) le_rfl]
  · congr 1
    exact ofFn_congr fun i hi j _ => by rw [if_pos hi]
  · intro i hi g hg
    rw [forFromTo_cols _ _ i g (fun j => f i j) hi le_rfl]
    · congr 1
      refine ofFn_congr fun p _ q hq => ?_
      by_cases hp : p = i
      · subst hp
        rw [if_pos rfl, if_pos rfl]
        cases incl
        · by_cases h1 : p < q
          · rw [if_pos (by simp; omega), if_pos (by simp; omega)]
          · rw [if_neg (by simp; omega), if_neg (by simp; omega), hg p le_rfl q hq]
        · by_cases h1 : p ≤ q
          · rw [if_pos (by simp; omega), if_pos (by simp; omega)]
          · rw [if_neg (by simp; omega), if_neg (by simp; omega), hg p le_rfl q hq]
      · rw [if_neg hp, if_neg hp]
    · intro j h1 h2 m
      rw [get_ofFn f hi h2, Outcome.bind_ret]

theorem initRow_ofFn {r c : ℕ} (f : ℕ → ℕ → K) {i : ℕ} (hi : i < r) (v : ℕ → K) :
    (ofFn r c f).initRow (i : ℤ) (tab c v) = .ret (ofFn r c (fun p q => if p = i then v q else f p q)) := by
  rw [initRow, if_neg (by simp only [ofFn_rows, ofFn_cols]; omega)]
  simp only [ofFn_rows, ofFn_cols, Int.toNat_natCast, length_tab, ne_eq, not_true_eq_false, if_false]
  rw [forRange_cols c i f v hi le_rfl]
  · congr 1
    exact ofFn_congr fun p _ q hq => by rw [if_pos hq]
  · intro j hj m
    rw [index_tab _ hj, Outcome.bind_ret]

theorem initCol_ofFn {r c : ℕ} (f : ℕ → ℕ → K) {j : ℕ} (hj : j < c) (v : ℕ → K) :
    (ofFn r c f).initCol (j : ℤ) (tab r v) = .ret (ofFn r c (fun p q => if q = j then v p else f p q)) := by
  rw [initCol, if_neg (by simp only [ofFn_rows, ofFn_cols]; omega)]
  simp only [ofFn_rows, ofFn_cols, Int.toNat_natCast, length_tab, ne_eq, not_true_eq_false, if_false]
  rw [forRange_rowOfT j r f v hj le_rfl]
  · congr 1
    exact ofFn_congr fun p hp q _ => by simp [hp]
  · intro i hi m
    rw [index_tab _ hi, Outcome.bind_ret]

theorem swapRows_ofFn {r c : ℕ} (f : ℕ → ℕ → K) {k l : ℕ} (hk : k < r) (hl : l < r) :
    (ofFn r c f).swapRows (k : ℤ) (l : ℤ) =
      .ret (ofFn r c (fun p q => f (if p = k then l else if p = l then k else p) q)) := by
  rw [swapRows, if_neg (by simp only [ofFn_rows, ofFn_cols]; omega)]
  simp only [ofFn_rows, ofFn_cols, Int.toNat_natCast]
  by_cases hkl : k = l
  · subst hkl
    rw [if_pos rfl]
    congr 1
    refine ofFn_congr fun p _ q _ => ?_
    by_cases h : p = k
    · simp [h]
    · simp [h]
  rw [if_neg (by omega)]
  obtain ⟨t, ht, rfl⟩ := forRange_rule
    (fun n (m : Dense K) => m = ofFn r c (fun p q =>
      if q < n then f (if p = k then l else if p = l then k else p) q else f p q)) c (ofFn r c f)
    (fun m j => m.swap k j l j)
    (by simp)
    (by
      rintro j _ hj rfl
      refine ⟨_, swap_ofFn _ hk hj hl hj, ?_⟩
      refine ofFn_congr fun p _ q _ => ?_
      by_cases hq : q = j
      · subst hq
        by_cases h1 : p = l
        · subst h1
          simp [hkl, Ne.symm hkl]
        · by_cases h2 : p = k
          · subst h2; simp [hkl]
          · simp [h1, h2]
      · rw [if_neg (by omega), if_neg (by omega)]
        by_cases h3 : q < j
        · rw [if_pos h3, if_pos (show q < j + 1 by omega)]
        · rw [if_neg h3, if_neg (show ¬q < j + 1 by omega)])
  rw [ht]
  congr 1
  exact ofFn_congr fun p _ q hq => by rw [if_pos hq]

theorem swapCols_ofFn {r c : ℕ} (f : ℕ → ℕ → K) {k l : ℕ} (hk : k < c) (hl : l < c) :
    (ofFn r c f).swapCols (k : ℤ) (l : ℤ) =
      .ret (ofFn r c (fun p q => f p (if q = k then l else if q = l then k else q))) := by
  rw [swapCols, if_neg (by simp only [ofFn_rows, ofFn_cols]; omega)]
  simp only [ofFn_rows, ofFn_cols, Int.toNat_natCast]
  by_cases hkl : k = l
  · subst hkl
    rw [if_pos rfl]
    congr 1
    refine ofFn_congr fun p _ q _ => ?_
    by_cases h : q = k
    · simp [h]
    · simp [h]
  rw [if_neg (by omega)]
  obtain ⟨t, ht, rfl⟩ := forRange_rule
    (fun n (m : Dense K) => m = ofFn r c (fun p q =>
      if p < n then f p (if q = k then l else if q = l then k else q) else f p q)) r (ofFn r c f)
    (fun m i => m.swap i k i l)
    (by simp)
    (by
      rintro j _ hj rfl
      refine ⟨_, swap_ofFn _ hj hk hj hl, ?_⟩
      refine ofFn_congr fun p _ q _ => ?_
      by_cases hq : p = j
      · subst hq
        by_cases h1 : q = l
        · subst h1
          simp [hkl, Ne.symm hkl]
        · by_cases h2 : q = k
          · subst h2; simp [hkl]
          · simp [h1, h2]
      · rw [if_neg (by omega), if_neg (by omega)]
        by_cases h3 : p < j
        · rw [if_pos h3, if_pos (show p < j + 1 by omega)]
        · rw [if_neg h3, if_neg (show ¬p < j + 1 by omega)])
  rw [ht]
  congr 1
  exact ofFn_congr fun p hp q _ => by rw [if_pos hp]

/-! ## Appending row after row -/

theorem push_row (d : List K) (c : ℕ) (h : ℕ → K) (body : List K → ℕ → Outcome (List K))
    (hb : ∀ j < c, ∀ d, body d j = .ret (d ++ [h j])) :
    forRange c d body = .ret (d ++ tab c h) := by
  induction c with
  | zero => simp [forRange, tab]
  | succ c ih =>
    rw [forRange, ih (fun j hj => hb j (by omega)), Outcome.bind_ret, hb c (by omega)]
    simp [tab, List.range_succ, List.append_assoc]

theorem tab_append_row (r c : ℕ) (f : ℕ → ℕ → K) :
    tab (r * c) (fun t => f (t / c) (t % c)) ++ tab c (fun j => f r j)
      = tab ((r + 1) * c) (fun t => f (t / c) (t % c)) := by
  have e : (r + 1) * c = r * c + c := Nat.succ_mul r c
  apply List.ext_getElem?
  intro k
  rw [getElem?_tab, List.getElem?_append, length_tab, getElem?_tab, getElem?_tab]
  by_cases h1 : k < r * c
  · simp only [if_pos h1, if_pos (show k < (r + 1) * c by omega)]
  · rw [if_neg h1]
    by_cases h2 : k < (r + 1) * c
    · have hj : k - r * c < c := by omega
      rw [if_pos hj, if_pos h2]
      have e2 : k = r * c + (k - r * c) := by omega
      conv_rhs => rw [e2]
      rw [idx_div hj, idx_mod hj]
    · rw [if_neg (by omega), if_neg h2]

theorem push_rows (r c : ℕ) (f : ℕ → ℕ → K) (body : List K → ℕ → Outcome (List K))
    (hb : ∀ i < r, ∀ d, body d i = .ret (d ++ tab c (fun j => f i j))) :
    forRange r [] body = .ret (ofFn r c f).data := by
  induction r with
  | zero => simp [forRange, ofFn, tab]
  | succ r ih =>
    rw [forRange, ih (fun j hj => hb j (by omega)), Outcome.bind_ret, hb r (by omega)]
    simp only [ofFn]
    rw [tab_append_row]

theorem submatrix_ofFn {r c : ℕ} (f : ℕ → ℕ → K) {r0 c0 nr nc : ℕ} (h1 : 0 < nr) (h2 : 0 < nc)
    (h3 : r0 + nr ≤ r) (h4 : c0 + nc ≤ c) :
    (ofFn r c f).submatrix r0 c0 nr nc = .ret (ofFn nr nc (fun i j => f (r0 + i) (c0 + j))) := by
  rw [submatrix, if_neg (by simp only [ofFn_rows, ofFn_cols]; omega), if_neg (by omega), if_neg (by simp only [ofFn_rows, ofFn_cols]; omega)]
  simp only [Int.toNat_natCast]
  rw [push_rows nr nc (fun i j => f (r0 + i) (c0 + j)), Outcome.bind_ret]
  · rfl
  · intro i hi d
    rw [push_row d nc (fun j => f (r0 + i) (c0 + j))]
    intro j hj d
    rw [get_ofFn f (by omega) (by omega), Outcome.bind_ret]

theorem fromNested_ofFn {r c : ℕ} (h : Shape r c) (hr : 0 < r) (f : ℕ → ℕ → K) :
    fromNested (tab r (fun i => tab c (fun j => f i j))) = .ret (ofFn r c f) := by
  have hS : 0 < r ∧ 0 < c ∧ r ≤ 100000 ∧ c ≤ 100000 ∧ r * c ≤ 100000000 := by
    rcases h with ⟨rfl, _⟩ | h
    · omega
    · exact h
  obtain ⟨_, hc, h3, h4, h5⟩ := hS
  obtain ⟨r, rfl⟩ : ∃ r', r = r' + 1 := ⟨r - 1, by omega⟩
  have e : tab (r + 1) (fun i => tab c (fun j => f i j))
      = tab c (fun j => f 0 j) :: tab r (fun i => tab c (fun j => f (i + 1) j)) := by
    simp [tab, List.range_succ_eq_map, Function.comp_def]
  have hne : tab c (fun j => f 0 j) ≠ [] := by
    intro h
    have := congrArg List.length h
    simp at this; omega
  have e0 : fromNested (tab (r + 1) (fun i => tab c (fun j => f i j))) = (do
      validate (r + 1) c
      let d ← forRange (r + 1) [] (nestedRow (tab (r + 1) (fun i => tab c (fun j => f i j))) c)
      .ret ⟨r + 1, c, d⟩) := by
    have hl : (tab (r + 1) (fun i => tab c (fun j => f i j))).length = r + 1 := length_tab _ _
    rw [e] at hl ⊢
    unfold fromNested
    split
    · next h => exact absurd h (by simp)
    · next t h =>
      have := List.cons.inj h
      exact absurd this.1 hne
    · next r0 t hh h =>
      have := List.cons.inj h
      rw [hl, ← this.1, length_tab]
  rw [e0, validate, if_neg (by omega), if_neg (by omega), Outcome.bind_ret, push_rows (r + 1) c f,
    Outcome.bind_ret]
  · rfl
  · intro i hi d
    rw [nestedRow, index_tab _ hi, Outcome.bind_ret, length_tab, if_neg (by simp),
      push_row d c (fun j => f i j)]
    intro j hj d
    rw [index_tab _ hj, Outcome.bind_ret]

theorem resize_ofFn [Zero K] {r c r' c' : ℕ} (f : ℕ → ℕ → K) (h : Shape r' c') (hr' : 0 < r')
    (hne : ¬(r' = r ∧ c' = c)) :
    (ofFn r c f).resize r' c' true =
      .ret (ofFn r' c' (fun i j => if i < r ∧ j < c then f i j else 0)) := by
  have hS : 0 < r' ∧ 0 < c' ∧ r' ≤ 100000 ∧ c' ≤ 100000 ∧ r' * c' ≤ 100000000 := by
    rcases h with ⟨rfl, _⟩ | h
    · omega
    · exact h
  obtain ⟨_, hc, h3, h4, h5⟩ := hS
  rw [resize, if_neg (by simp only [ofFn_rows, ofFn_cols]; omega), if_neg (by omega)]
  simp only [ofFn_rows, ofFn_cols, Int.toNat_natCast]
  rw [validate, if_neg (by omega), if_neg (by omega), Outcome.bind_ret,
    if_pos trivial]
  have e : (⟨r', c', List.replicate (r' * c') 0⟩ : Dense K) = ofFn r' c' (fun _ _ => 0) := by
    simp only [ofFn, replicate_eq_tab]
  rw [e, forRange_row (min r r') _ (fun i j => if j < c then f i j else 0) (by omega), Outcome.bind_ret]
  · congr 1
    refine ofFn_congr fun i hi j hj => ?_
    by_cases h1 : i < r
    · rw [if_pos (by omega)]
      by_cases h2 : j < c
      · rw [if_pos h2, if_pos ⟨h1, h2⟩]
      · rw [if_neg h2, if_neg (by omega)]
    · rw [if_neg (by omega), if_neg (by omega)]
  · intro i hi g hg
    rw [forRange_cols (min c c') i g (fun j => f i j) (by omega) (by omega)]
    · congr 1
      refine ofFn_congr fun p _ q hq => ?_
      by_cases hp : p = i
      · subst hp
        rw [if_pos rfl, if_pos rfl]
        by_cases h2 : q < c
        · rw [if_pos (by omega), if_pos h2]
        · rw [if_neg (by omega), if_neg h2, hg p le_rfl q hq]
      · rw [if_neg hp, if_neg hp]
    · intro j hj m
      rw [get_ofFn f (by omega) (by omega), Outcome.bind_ret]

/-! ## Tests over all elements -/

theorem allEntries_spec (rows : ℕ) (lo hi : ℕ → ℕ) (test : ℕ → ℕ → Outcome Bool) (P : ℕ → ℕ → Prop)
    [∀ i j, Decidable (P i j)]
    (h : ∀ i < rows, ∀ j, lo i ≤ j → j < hi i → test i j = .ret (decide (P i j))) :
    ∃ b : Bool, allEntries rows lo hi test = .ret b ∧
      (b = true ↔ ∀ i < rows, ∀ j, lo i ≤ j → j < hi i → P i j) := by
  obtain ⟨b, hb, hP⟩ := forRange_rule
    (fun n (b : Bool) => b = true ↔ ∀ i < n, ∀ j, lo i ≤ j → j < hi i → P i j) rows true
    (fun ok i => forFromTo (lo i) (hi i) ok (fun ok j => if ok then test i j else .ret false))
    (by simp)
    (by
      intro i ok hr hok
      by_cases hle : lo i ≤ hi i
      · obtain ⟨t, ht, hT⟩ := forFromTo_rule
          (fun n (b : Bool) => b = true ↔ (ok = true ∧ ∀ j, lo i ≤ j → j < n → P i j)) (lo i) (hi i) hle ok
          (fun ok j => if ok then test i j else .ret false)
          (by
            constructor
            · intro h
              exact ⟨h, fun j h1 h2 => absurd h1 (by omega)⟩
            · exact fun h => h.1)
          (by
            intro j b h1 h2 hb
            cases b with
            | false =>
              refine ⟨false, rfl, ?_⟩
              constructor
              · intro h; simp at h
              · rintro ⟨h3, h4⟩
                exact absurd (hb.2 ⟨h3, fun j' a b => h4 j' a (by omega)⟩) (by simp)
            | true =>
              refine ⟨decide (P i j), by rw [if_pos rfl, h i hr j h1 h2], ?_⟩
              obtain ⟨h3, h4⟩ := hb.1 rfl
              simp only [decide_eq_true_eq]
              constructor
              · intro hp
                refine ⟨h3, fun j' a b => ?_⟩
                rcases Nat.lt_or_ge j' j with h5 | h5
                · exact h4 j' a h5
                · rw [show j' = j by omega]; exact hp
              · rintro ⟨_, h6⟩
                exact h6 j h1 (by omega))
        refine ⟨t, ht, hT.trans ?_⟩
        constructor
        · rintro ⟨h1, h2⟩ i' hi' j a b
          rcases Nat.lt_or_ge i' i with h5 | h5
          · exact hok.1 h1 i' h5 j a b
          · obtain rfl : i' = i := by omega
            exact h2 j a b
        · intro h1
          exact ⟨hok.2 (fun i' hi' => h1 i' (by omega)), h1 i (by omega)⟩
      · refine ⟨ok, by rw [forFromTo, show hi i - lo i = 0 by omega, forRange], hok.trans ?_⟩
        constructor
        · intro h1 i' hi' j a b
          rcases Nat.lt_or_ge i' i with h5 | h5
          · exact h1 i' h5 j a b
          · obtain rfl : i' = i := by omega
            omega
        · intro h1 i' hi'
          exact h1 i' (by omega))
  exact ⟨b, hb, hP⟩

end Verif.Mat.Dense
