import Verif.LinAlg.SVD
import Verif.LinAlg.QRLemmas
import Mathlib.Tactic

/-! # Helper lemmas: `reorder` permutes the columns, sorts the values and changes signs in pairs -/

set_option autoImplicit false

namespace Verif.LinAlg.SVD

open Verif.Mat

/-- Singular value, left and right singular vector with the same index. -/
structure Tri where
  w : ℝ
  u : ℕ → ℝ
  v : ℕ → ℝ

/-- The state whose columns are `C`. -/
noncomputable def rep (m n : ℕ) (C : ℕ → Tri) : Fac :=
  ⟨Dense.ofFn m n (fun i j => (C j).u i), tab n (fun j => (C j).w), Dense.ofFn n n (fun i j => (C j).v i)⟩

theorem forRange_eq_fromTo {σ : Type} (n : ℕ) (s : σ) (body : σ → ℕ → Outcome σ) :
    forRange n s body = forFromTo 0 n s body := by simp [forFromTo]

theorem readCol_eq {r c : ℕ} (f : ℕ → ℕ → ℝ) {j : ℕ} (hj : j < c) (g : ℕ → ℝ) :
    readCol r (Dense.ofFn r c f) j (tab r g) = .ret (tab r (fun k => f k j)) := by
  rw [readCol, forRange_fill r r le_rfl g (fun k => f k j)]
  · congr 1
    exact tab_congr fun i hi => by rw [if_pos hi]
  · intro i hi b
    rw [Dense.get_ofFn _ hi hj, Outcome.bind_ret]

theorem writeCol_eq {r c : ℕ} (f : ℕ → ℕ → ℝ) {j : ℕ} (hj : j < c) (g : ℕ → ℝ) :
    writeCol r (Dense.ofFn r c f) j (tab r g) = .ret (Dense.ofFn r c (fun p q => if q = j then g p else f p q)) := by
  rw [writeCol, forRange_eq_fromTo, QR.forFromTo_col le_rfl f g]
  · congr 1
    refine Dense.ofFn_congr fun p hp q _ => ?_
    by_cases hq : q = j
    · rw [if_pos ⟨hq, Nat.zero_le _, hp⟩, if_pos hq]
    · rw [if_neg (by tauto), if_neg hq]
  · intro i _ hi g' _ _
    rw [index_tab _ hi, Outcome.bind_ret, Dense.set_ofFn _ hi hj]

theorem copyCol_eq {r c : ℕ} (f : ℕ → ℕ → ℝ) {j j' : ℕ} (hj : j < c) (hj' : j' < c) :
    copyCol r (Dense.ofFn r c f) j j' = .ret (Dense.ofFn r c (fun p q => if q = j then f p j' else f p q)) := by
  rw [copyCol, forRange_eq_fromTo, QR.forFromTo_col le_rfl f (fun p => f p j')]
  · congr 1
    refine Dense.ofFn_congr fun p hp q _ => ?_
    by_cases hq : q = j
    · rw [if_pos ⟨hq, Nat.zero_le _, hp⟩, if_pos hq]
    · rw [if_neg (by tauto), if_neg hq]
  · intro i _ hi g h1 h2
    rw [Dense.get_ofFn _ hi hj', Outcome.bind_ret, Dense.set_ofFn _ hi hj]
    have : g i j' = f i j' := by
      by_cases hjj : j' = j
      · rw [hjj, h1]
      · exact h2 _ _ hjj
    rw [this]

theorem negCol_eq {r c : ℕ} (f : ℕ → ℕ → ℝ) {j : ℕ} (hj : j < c) :
    negCol r (Dense.ofFn r c f) j = .ret (Dense.ofFn r c (fun p q => if q = j then -f p j else f p q)) := by
  rw [negCol, forRange_eq_fromTo, QR.forFromTo_col le_rfl f (fun p => -f p j)]
  · congr 1
    refine Dense.ofFn_congr fun p hp q _ => ?_
    by_cases hq : q = j
    · rw [if_pos ⟨hq, Nat.zero_le _, hp⟩, if_pos hq]
    · rw [if_neg (by tauto), if_neg hq]
  · intro i _ hi g h1 h2
    rw [Dense.get_ofFn _ hi hj, Outcome.bind_ret, Dense.set_ofFn _ hi hj, h1]

theorem rep_update (m n : ℕ) (C : ℕ → Tri) (j : ℕ) (t : Tri) :
    rep m n (Function.update C j t) = ⟨Dense.ofFn m n (fun p q => if q = j then t.u p else (C q).u p),
      tab n (fun q => if q = j then t.w else (C q).w), Dense.ofFn n n (fun p q => if q = j then t.v p else (C q).v p)⟩ := by
  rw [rep]
  congr 1
  · exact Dense.ofFn_congr fun p _ q _ => by rw [Function.update_apply]; split_ifs <;> rfl
  · exact tab_congr fun q _ => by rw [Function.update_apply]; split_ifs <;> rfl
  · exact Dense.ofFn_congr fun p _ q _ => by rw [Function.update_apply]; split_ifs <;> rfl

theorem shiftOne_eq (m n inc : ℕ) (C : ℕ → Tri) {j : ℕ} (hj : j < n) :
    shiftOne m n inc (rep m n C) j = .ret (rep m n (Function.update C j (C (j - inc)))) := by
  have hj' : j - inc < n := by omega
  rw [shiftOne, rep_update]
  simp only [rep]
  rw [index_tab _ hj', Outcome.bind_ret, store_tab _ hj, Outcome.bind_ret, copyCol_eq _ hj hj', Outcome.bind_ret,
    copyCol_eq _ hj hj', Outcome.bind_ret]

/-- The columns `D` are the columns `C` in another order. -/
def Perm (n : ℕ) (C D : ℕ → Tri) : Prop :=
  ∃ π : Equiv.Perm ℕ, (∀ k, π k < n ↔ k < n) ∧ ∀ k, D k = C (π k)

theorem Perm.refl (n : ℕ) (C : ℕ → Tri) : Perm n C C := ⟨Equiv.refl ℕ, fun _ => Iff.rfl, fun _ => rfl⟩

theorem Perm.trans {n : ℕ} {C D E : ℕ → Tri} (h : Perm n C D) (h' : Perm n D E) : Perm n C E := by
  obtain ⟨π, h1, h2⟩ := h
  obtain ⟨σ, h3, h4⟩ := h'
  exact ⟨σ.trans π, fun k => by rw [Equiv.trans_apply, h1, h3], fun k => by rw [h4, h2, Equiv.trans_apply]⟩

theorem perm_swap {n : ℕ} (C : ℕ → Tri) {i j : ℕ} (hi : i < n) (hj : j < n) (t : Tri) :
    Perm n (Function.update C i t) (Function.update (Function.update C i (C j)) j t) := by
  by_cases hij : i = j
  · subst hij
    simp only [Function.update_eq_self]
    exact Perm.refl _ _
  refine ⟨Equiv.swap i j, fun k => ?_, fun k => ?_⟩
  · by_cases h1 : k = i
    · subst h1; simp [hi, hj]
    · by_cases h2 : k = j
      · subst h2; simp [hi, hj]
      · rw [Equiv.swap_apply_of_ne_of_ne h1 h2]
  · by_cases h1 : k = i
    · subst h1
      rw [Equiv.swap_apply_left, Function.update_of_ne hij, Function.update_self, Function.update_of_ne (Ne.symm hij)]
    · by_cases h2 : k = j
      · subst h2
        rw [Equiv.swap_apply_right, Function.update_self, Function.update_self]
      · rw [Equiv.swap_apply_of_ne_of_ne h1 h2, Function.update_of_ne h2, Function.update_of_ne h1, Function.update_of_ne h1]

/-- The state of the inner loop of an insertion with increment 1: without the place `j` the columns up to `i` are in order, and
those behind `j` have values below `sw`. -/
def Hole (sw : ℝ) (C : ℕ → Tri) (i j : ℕ) : Prop :=
  (∀ a b, a < b → b ≤ i → a ≠ j → b ≠ j → (C b).w ≤ (C a).w) ∧ (∀ b, j < b → b ≤ i → (C b).w < sw)

theorem shift_eq (m n inc : ℕ) (hinc : 0 < inc) (t : Tri) (i : ℕ) (hi : i < n) (fuel : ℕ) (C : ℕ → Tri) (j : ℕ) (hf : j < fuel)
    (hj : inc ≤ j) (hji : j ≤ i) :
    ∃ C' j', shift m n inc t.w fuel (rep m n C) j = .ret (rep m n C', j') ∧ j' ≤ i ∧
      Perm n (Function.update C j t) (Function.update C' j' t) ∧
      (inc = 1 → Hole t.w C i j → Hole t.w C' i j' ∧ (0 < j' → t.w ≤ (C' (j' - 1)).w)) := by
  induction fuel generalizing C j with
  | zero => omega
  | succ fuel ih =>
    have hx : Outcome.index (rep m n C).w (j - inc) = .ret (C (j - inc)).w := index_tab _ (by omega)
    rw [shift, if_neg (by omega), hx, Outcome.bind_ret]
    by_cases hlt : (C (j - inc)).w < t.w
    · rw [if_pos hlt, shiftOne_eq m n inc C (by omega), Outcome.bind_ret]
      have hp : Perm n (Function.update C j t) (Function.update (Function.update C j (C (j - inc))) (j - inc) t) :=
        perm_swap C (by omega) (by omega) t
      have hh : inc = 1 → Hole t.w C i j → Hole t.w (Function.update C j (C (j - inc))) i (j - inc) := by
        rintro rfl ⟨h1, h2⟩
        refine ⟨fun a b hab hbi ha hb => ?_, fun b hb hbi => ?_⟩
        · by_cases haj : a = j
          · subst haj
            rw [Function.update_self, Function.update_of_ne (by omega)]
            exact h1 (a - 1) b (by omega) hbi (by omega) (by omega)
          · rw [Function.update_of_ne haj]
            by_cases hbj : b = j
            · subst hbj
              rw [Function.update_self]
              exact h1 a (b - 1) (by omega) (by omega) haj (by omega)
            · rw [Function.update_of_ne hbj]
              exact h1 a b hab hbi haj hbj
        · by_cases hbj : b = j
          · subst hbj; rw [Function.update_self]; exact hlt
          · rw [Function.update_of_ne hbj]; exact h2 b (by omega) hbi
      by_cases hlt' : j - inc < inc
      · rw [if_pos hlt']
        refine ⟨_, _, rfl, by omega, hp, fun h1 hH => ⟨hh h1 hH, fun h0 => ?_⟩⟩
        omega
      · rw [if_neg hlt']
        obtain ⟨C', j', h1, h2, h3, h4⟩ := ih (Function.update C j (C (j - inc))) (j - inc) (by omega) (by omega) (by omega)
        exact ⟨C', j', h1, h2, hp.trans h3, fun e hH => h4 e (hh e hH)⟩
    · rw [if_neg hlt]
      refine ⟨C, j, rfl, hji, Perm.refl _ _, fun e hH => ⟨hH, fun _ => ?_⟩⟩
      subst e
      exact not_lt.1 hlt

/-- The first `i` values are in descending order. -/
def Sorted (i : ℕ) (C : ℕ → Tri) : Prop := ∀ a b, a < b → b < i → (C b).w ≤ (C a).w

theorem insertOne_eq (m n inc : ℕ) (hinc : 0 < inc) (C : ℕ → Tri) (i : ℕ) (hi : i < n) (hii : inc ≤ i) :
    ∃ C', insertOne m n inc (rep m n C) i = .ret (rep m n C') ∧ Perm n C C' ∧ (inc = 1 → Sorted i C → Sorted (i + 1) C') := by
  obtain ⟨C', j', h1, h2, h3, h4⟩ := shift_eq m n inc hinc (C i) i hi (i + 1) C i (by omega) hii le_rfl
  have e1 : Outcome.index (rep m n C).w i = .ret (C i).w := index_tab _ hi
  have e2 : readCol m (rep m n C).u i (List.replicate m 0) = .ret (tab m (C i).u) := by
    rw [replicate_eq_tab]; exact readCol_eq _ hi _
  have e3 : readCol n (rep m n C).v i (List.replicate n 0) = .ret (tab n (C i).v) := by
    rw [replicate_eq_tab]; exact readCol_eq _ hi _
  refine ⟨Function.update C' j' (C i), ?_, by simpa using h3, ?_⟩
  · rw [insertOne, e1, Outcome.bind_ret, e2, Outcome.bind_ret, e3, Outcome.bind_ret, h1, Outcome.bind_ret, rep_update]
    simp only [rep]
    rw [store_tab _ (by omega), Outcome.bind_ret, writeCol_eq _ (by omega), Outcome.bind_ret, writeCol_eq _ (by omega),
      Outcome.bind_ret]
  · intro e hs
    obtain ⟨⟨h5, h6⟩, h7⟩ := h4 e ⟨fun a b hab hbi _ hb => hs a b hab (by omega), fun b hb hbi => by omega⟩
    intro a b hab hb
    have hb' : b ≤ i := by omega
    by_cases haj : a = j'
    · subst haj
      rw [Function.update_self, Function.update_of_ne (by omega)]
      exact (h6 b hab hb').le
    · rw [Function.update_of_ne haj]
      by_cases hbj : b = j'
      · subst hbj
        rw [Function.update_self]
        by_cases h8 : a = b - 1
        · rw [h8]; exact h7 (by omega)
        · exact (h7 (by omega)).trans (h5 a (b - 1) (by omega) (by omega) haj (by omega))
      · rw [Function.update_of_ne hbj]
        exact h5 a b hab hb' haj hbj

theorem pass_eq (m n inc : ℕ) (hinc : 0 < inc) (C : ℕ → Tri) :
    ∃ C', forFromTo inc n (rep m n C) (insertOne m n inc) = .ret (rep m n C') ∧ Perm n C C' ∧ (inc = 1 → Sorted n C') := by
  rcases Nat.lt_or_ge n inc with h | h
  · refine ⟨C, by rw [forFromTo, show n - inc = 0 by omega, forRange], Perm.refl _ _, fun e a b h1 h2 => ?_⟩
    omega
  obtain ⟨t, ht, C', rfl, h1, h2⟩ := forFromTo_rule
    (fun i s => ∃ C', s = rep m n C' ∧ Perm n C C' ∧ (inc = 1 → Sorted i C')) inc n h (rep m n C) (insertOne m n inc)
    ⟨C, rfl, Perm.refl _ _, fun e a b h1 h2 => by omega⟩
    (by
      rintro i s hi1 hi2 ⟨D, rfl, h1, h2⟩
      obtain ⟨D', h3, h4, h5⟩ := insertOne_eq m n inc hinc D i hi2 hi1
      exact ⟨_, h3, D', rfl, h1.trans h4, fun e => h5 e (h2 e)⟩)
  exact ⟨C', ht, h1, h2⟩

/-- The increments 4, 13, 40, … -/
inductive Inc : ℕ → Prop
  | four : Inc 4
  | next (k : ℕ) : Inc k → Inc (k * 3 + 1)

theorem Inc.four_le {k : ℕ} (h : Inc k) : 4 ≤ k := by
  induction h with
  | four => exact le_rfl
  | next k _ ih => omega

theorem grow_eq (n fuel inc : ℕ) (h : inc = 1 ∨ Inc inc) (hf : n < fuel + inc) (hi : 0 < inc) (h0 : 0 < fuel) :
    ∃ k, grow n fuel inc = .ret k ∧ Inc k := by
  induction fuel generalizing inc with
  | zero => omega
  | succ fuel ih =>
    have hn : Inc (inc * 3 + 1) := by
      rcases h with rfl | h
      · exact Inc.four
      · exact Inc.next _ h
    rw [grow]
    by_cases hle : inc * 3 + 1 ≤ n
    · rw [if_pos hle]
      exact ih _ (Or.inr hn) (by omega) (by omega) (by omega)
    · rw [if_neg hle]
      exact ⟨_, rfl, hn⟩

theorem passes_eq (m n fuel inc : ℕ) (h : Inc inc) (hf : inc < fuel) (C : ℕ → Tri) :
    ∃ C', passes m n fuel inc (rep m n C) = .ret (rep m n C') ∧ Perm n C C' ∧ Sorted n C' := by
  induction h generalizing fuel C with
  | four =>
    obtain ⟨f, rfl⟩ : ∃ f, fuel = f + 1 := ⟨fuel - 1, by omega⟩
    obtain ⟨C', h1, h2, h3⟩ := pass_eq m n 1 one_pos C
    refine ⟨C', ?_, h2, h3 rfl⟩
    rw [passes, show 4 / 3 = 1 from rfl, h1, Outcome.bind_ret, if_neg (by omega)]
  | next k hk ih =>
    obtain ⟨f, rfl⟩ : ∃ f, fuel = f + 1 := ⟨fuel - 1, by omega⟩
    have h4 := hk.four_le
    obtain ⟨C', h1, h2, -⟩ := pass_eq m n k (by omega) C
    obtain ⟨C'', h5, h6, h7⟩ := ih f (by omega) C'
    refine ⟨C'', ?_, h2.trans h6, h7⟩
    rw [passes, show (k * 3 + 1) / 3 = k by omega, h1, Outcome.bind_ret, if_pos (by omega), h5]

theorem negatives_eq {r c : ℕ} (f : ℕ → ℕ → ℝ) {k : ℕ} (hk : k < c) (z : ℕ) :
    negatives r (Dense.ofFn r c f) k z = .ret (z + ((Finset.range r).filter fun i => f i k < 0).card) := by
  rw [negatives, forRange_sum r z _ (fun i => if f i k < 0 then 1 else 0)]
  · rw [Finset.card_filter]
  · intro i hi s
    rw [Dense.get_ofFn _ hi hk, Outcome.bind_ret]
    split_ifs <;> rfl

/-- The columns `D` are the columns `C`, some of the pairs of vectors with both signs changed. -/
def Flipped (C D : ℕ → Tri) : Prop :=
  ∀ k, D k = C k ∨ D k = ⟨(C k).w, fun i => -(C k).u i, fun i => -(C k).v i⟩

theorem flip_eq (m n : ℕ) (C : ℕ → Tri) {k : ℕ} (hk : k < n) :
    ∃ t, flip m n (rep m n C) k = .ret (rep m n (Function.update C k t)) ∧
      (t = C k ∨ t = ⟨(C k).w, fun i => -(C k).u i, fun i => -(C k).v i⟩) ∧
      ((Finset.range m).filter fun i => t.u i < 0).card + ((Finset.range n).filter fun i => t.v i < 0).card ≤ (m + n) / 2 := by
  have e1 : ∀ z, negatives m (rep m n C).u k z = .ret (z + ((Finset.range m).filter fun i => (C k).u i < 0).card) :=
    fun z => negatives_eq _ hk z
  have e2 : ∀ z, negatives n (rep m n C).v k z = .ret (z + ((Finset.range n).filter fun i => (C k).v i < 0).card) :=
    fun z => negatives_eq _ hk z
  rw [flip, e1, Outcome.bind_ret, e2, Outcome.bind_ret, zero_add]
  by_cases hc : ((Finset.range m).filter fun i => (C k).u i < 0).card + ((Finset.range n).filter fun i => (C k).v i < 0).card
      > (m + n) / 2
  · rw [if_pos hc]
    refine ⟨⟨(C k).w, fun i => -(C k).u i, fun i => -(C k).v i⟩, ?_, Or.inr rfl, ?_⟩
    · rw [rep_update]
      simp only [rep]
      rw [negCol_eq _ hk, Outcome.bind_ret, negCol_eq _ hk, Outcome.bind_ret]
      congr 2
      refine tab_congr fun q _ => ?_
      by_cases hq : q = k
      · rw [if_pos hq, hq]
      · rw [if_neg hq]
    · have a1 : ((Finset.range m).filter fun i => -(C k).u i < 0).card + ((Finset.range m).filter fun i => (C k).u i < 0).card ≤ m := by
        rw [← Finset.card_union_of_disjoint]
        · refine (Finset.card_le_card (Finset.union_subset (Finset.filter_subset _ _) (Finset.filter_subset _ _))).trans ?_
          simp
        · rw [Finset.disjoint_filter]
          intro i _ h
          linarith
      have a2 : ((Finset.range n).filter fun i => -(C k).v i < 0).card + ((Finset.range n).filter fun i => (C k).v i < 0).card ≤ n := by
        rw [← Finset.card_union_of_disjoint]
        · refine (Finset.card_le_card (Finset.union_subset (Finset.filter_subset _ _) (Finset.filter_subset _ _))).trans ?_
          simp
        · rw [Finset.disjoint_filter]
          intro i _ h
          linarith
      show ((Finset.range m).filter fun i => -(C k).u i < 0).card + ((Finset.range n).filter fun i => -(C k).v i < 0).card ≤ _
      omega
  · rw [if_neg hc]
    exact ⟨C k, by rw [Function.update_eq_self], Or.inl rfl, not_lt.1 hc⟩

/-- At most half of the elements of a pair of vectors are negative. -/
def FewNeg (m n : ℕ) (t : Tri) : Prop :=
  ((Finset.range m).filter fun i => t.u i < 0).card + ((Finset.range n).filter fun i => t.v i < 0).card ≤ (m + n) / 2

theorem flips_eq (m n : ℕ) (C : ℕ → Tri) :
    ∃ D, forRange n (rep m n C) (flip m n) = .ret (rep m n D) ∧ Flipped C D ∧ ∀ k < n, FewNeg m n (D k) := by
  obtain ⟨t, ht, D, rfl, h1, h2, -⟩ := forRange_rule
    (fun i s => ∃ D, s = rep m n D ∧ Flipped C D ∧ (∀ k < i, FewNeg m n (D k)) ∧ ∀ k, i ≤ k → D k = C k) n (rep m n C) (flip m n)
    ⟨C, rfl, fun k => Or.inl rfl, fun k hk => by omega, fun _ _ => rfl⟩
    (by
      rintro i s hi ⟨D, rfl, h1, h2, h3⟩
      obtain ⟨t, ht, h4, h5⟩ := flip_eq m n D hi
      refine ⟨_, ht, _, rfl, fun k => ?_, fun k hk => ?_, fun k hk => ?_⟩
      · by_cases hki : k = i
        · subst hki
          rw [Function.update_self]
          rw [h3 k le_rfl] at h4
          exact h4
        · rw [Function.update_of_ne hki]; exact h1 k
      · by_cases hki : k = i
        · subst hki; rw [Function.update_self]; exact h5
        · rw [Function.update_of_ne hki]; exact h2 k (by omega)
      · rw [Function.update_of_ne (by omega)]; exact h3 k (by omega))
  exact ⟨D, ht, h1, h2⟩

theorem reorder_eq (m n : ℕ) (C : ℕ → Tri) :
    ∃ D E, reorder m n (rep m n C) = .ret (rep m n E) ∧ Perm n C D ∧ Sorted n D ∧ Flipped D E ∧ ∀ k < n, FewNeg m n (E k) := by
  obtain ⟨inc, h1, h2⟩ := grow_eq n (n + 1) 1 (Or.inl rfl) (by omega) one_pos (by omega)
  obtain ⟨D, h3, h4, h5⟩ := passes_eq m n (inc + 1) inc h2 (by omega) C
  obtain ⟨E, h6, h7, h8⟩ := flips_eq m n D
  exact ⟨D, E, by rw [reorder, h1, Outcome.bind_ret, h3, Outcome.bind_ret, h6], h4, h5, h7, h8⟩

end Verif.LinAlg.SVD
