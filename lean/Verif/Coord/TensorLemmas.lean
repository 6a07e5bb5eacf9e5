import Verif.Coord.TensorSpec
import Verif.Deriv.PartialProps
import Mathlib.Tactic

/-!
# Lemmas on the contraction of tensors (C102)
-/

set_option autoImplicit false

namespace Verif.Coord

open Verif Deriv

/-! ## Lemmas on the contraction -/

namespace Tensor

variable {r N : ℕ}

theorem left_eq (i2 : Fin (r + 2)) (j : Fin (r + 1)) :
    left (i2.succAbove j) i2 = List.ofFn fun k : Fin r => i2.succAbove (j.succAbove k) := by
  have hmono : StrictMono fun k : Fin r => i2.succAbove (j.succAbove k) := (Fin.strictMono_succAbove i2).comp (Fin.strictMono_succAbove j)
  refine List.Perm.eq_of_pairwise' (r := (· < ·)) ?_ ?_ ?_
  · exact ((List.pairwise_lt_finRange (r + 2)).filter _)
  · rw [List.pairwise_ofFn]
    exact fun i j h => hmono h
  · refine (List.perm_ext_iff_of_nodup ((List.nodup_finRange _).filter _) ?_).2 ?_
    · exact List.nodup_ofFn.2 hmono.injective
    · intro m
      simp only [left, List.mem_filter, List.mem_finRange, true_and, decide_eq_true_eq, List.mem_ofFn]
      constructor
      · rintro ⟨h1, h2⟩
        obtain ⟨m', rfl⟩ := Fin.exists_succAbove_eq h2
        have h3 : m' ≠ j := fun h => h1 (by rw [h])
        obtain ⟨k, rfl⟩ := Fin.exists_succAbove_eq h3
        exact ⟨k, rfl⟩
      · rintro ⟨k, rfl⟩
        exact ⟨fun h => Fin.succAbove_ne j k (Fin.succAbove_right_injective h), Fin.succAbove_ne _ _⟩

theorem left_comm (i1 i2 : Fin (r + 2)) : left i1 i2 = left i2 i1 := by
  rw [left, left]
  congr 1
  funext i
  simp only [and_comm]

theorem left_getD (i1 i2 : Fin (r + 2)) (h : i1 ≠ i2) (d : Fin (r + 2)) :
    ∃ e : Fin r ↪o Fin (r + 2), (∀ k, e k ≠ i1 ∧ e k ≠ i2) ∧ (∀ m, m ≠ i1 → m ≠ i2 → ∃ k, e k = m) ∧ ∀ k : Fin r, (left i1 i2).getD k.1 d = e k := by
  obtain ⟨j, rfl⟩ := Fin.exists_succAbove_eq h
  refine ⟨(Fin.succAboveOrderEmb j).trans (Fin.succAboveOrderEmb i2), fun k => ⟨?_, Fin.succAbove_ne _ _⟩, ?_, fun k => ?_⟩
  · exact fun h => Fin.succAbove_ne j k (Fin.succAbove_right_injective h)
  · intro m h1 h2
    obtain ⟨m', rfl⟩ := Fin.exists_succAbove_eq h2
    have h3 : m' ≠ j := fun h => h1 (by rw [h])
    obtain ⟨k, rfl⟩ := Fin.exists_succAbove_eq h3
    exact ⟨k, rfl⟩
  · rw [left_eq]
    simp [List.getD_eq_getElem?_getD]

theorem fold_update {α β : Type} [DecidableEq α] (e : Fin r → α) (he : Function.Injective e) (a : Fin r → β) (l : List (Fin r)) :
    ∀ f : α → β, (∀ k, (l.foldl (fun g k => Function.update g (e k) (a k)) f) (e k) = if k ∈ l then a k else f (e k)) ∧
      ∀ m, (∀ k, e k ≠ m) → (l.foldl (fun g k => Function.update g (e k) (a k)) f) m = f m := by
  induction l with
  | nil => simp
  | cons x l ih =>
    intro f
    obtain ⟨h1, h2⟩ := ih (Function.update f (e x) (a x))
    refine ⟨fun k => ?_, fun m hm => ?_⟩
    · rw [List.foldl_cons, h1 k]
      by_cases hk : k ∈ l
      · simp [hk]
      · by_cases hx : k = x
        · subst hx; simp
        · simp [hk, hx, Function.update_of_ne (fun h => hx (he h))]
    · rw [List.foldl_cons, h2 m hm, Function.update_of_ne (hm x).symm]

theorem tuple_spliced (i1 i2 : Fin (r + 2)) (h : i1 ≠ i2) (s : Fin N) (a : Fin r → Fin N) : Spliced i1 i2 s a (tuple i1 i2 s a) := by
  obtain ⟨e, he, hs, hl⟩ := left_getD i1 i2 h i1
  have hf := fold_update e e.injective a (List.finRange r) (Function.update (Function.update (fun _ => s) i1 s) i2 s)
  have ht : tuple i1 i2 s a = (List.finRange r).foldl (fun g k => Function.update g (e k) (a k)) (Function.update (Function.update (fun _ => s) i1 s) i2 s) := by
    rw [tuple]
    congr 1
    funext g k
    rw [hl k]
  rw [ht]
  refine ⟨?_, ?_, e, he, fun k => ?_⟩
  · rw [hf.2 i1 fun k => (he k).1, Function.update_of_ne h, Function.update_self]
  · rw [hf.2 i2 fun k => (he k).2, Function.update_self]
  · rw [hf.1 k, if_pos (List.mem_finRange _)]

end Tensor

theorem orderEmb_unique {r n : ℕ} (e f : Fin r ↪o Fin n) (h : Set.range e = Set.range f) : e = f := by
  have := (OrderEmbedding.range_inj (f := e) (g := f)).1 h
  exact this

/-- There is exactly one such tuple. -/
theorem Spliced.unique {r N : ℕ} {i1 i2 : Fin (r + 2)} (h : i1 ≠ i2) {s : Fin N} {a : Fin r → Fin N} {m n : Fin (r + 2) → Fin N}
    (hm : Spliced i1 i2 s a m) (hn : Spliced i1 i2 s a n) : m = n := by
  obtain ⟨m1, m2, e, he, h1⟩ := hm
  obtain ⟨n1, n2, f, hf, h2⟩ := hn
  have range : ∀ g : Fin r ↪o Fin (r + 2), (∀ k, g k ≠ i1 ∧ g k ≠ i2) → Set.range g = ({i1, i2}ᶜ : Set (Fin (r + 2))) := by
    intro g hg
    have hc : (Finset.univ.map g.toEmbedding) = ({i1, i2} : Finset (Fin (r + 2)))ᶜ := by
      refine Finset.eq_of_subset_of_card_le ?_ ?_
      · intro x hx
        obtain ⟨k, -, rfl⟩ := Finset.mem_map.1 hx
        simpa using hg k
      · rw [Finset.card_compl, Finset.card_pair h]
        simp
    ext x
    have := Finset.ext_iff.1 hc x
    simpa using this
  have hef : e = f := orderEmb_unique e f ((range e he).trans (range f hf).symm)
  subst hef
  funext x
  by_cases hx1 : x = i1
  · rw [hx1, m1, n1]
  · by_cases hx2 : x = i2
    · rw [hx2, m2, n2]
    · have : x ∈ Set.range e := by rw [range e he]; simp [hx1, hx2]
      obtain ⟨k, rfl⟩ := this
      rw [h1, h2]

namespace Tensor

variable {r N : ℕ}

theorem tuple_insert (i2 : Fin (r + 2)) (j : Fin (r + 1)) (s : Fin N) (a : Fin r → Fin N) :
    tuple (i2.succAbove j) i2 s a = i2.insertNth (α := fun _ => Fin N) s (j.insertNth (α := fun _ => Fin N) s a) := by
  refine (tuple_spliced _ _ (Fin.succAbove_ne _ _) s a).unique (Fin.succAbove_ne _ _) ⟨?_, ?_, (Fin.succAboveOrderEmb j).trans (Fin.succAboveOrderEmb i2), ?_, ?_⟩
  · simp
  · simp
  · exact fun k => ⟨fun h => Fin.succAbove_ne j k (Fin.succAbove_right_injective h), Fin.succAbove_ne _ _⟩
  · intro k
    simp

theorem sum_insert {n : ℕ} (i : Fin (n + 1)) (F : (Fin (n + 1) → Fin N) → ℝ) :
    ∑ k, F k = ∑ x, ∑ b : Fin n → Fin N, F (i.insertNth (α := fun _ => Fin N) x b) := by
  rw [← (Fin.insertNthEquiv (fun _ => Fin N) i).sum_comp, Fintype.sum_prod_type]
  rfl

theorem contractCoeff_from {t u : Tensor (r + 2) N} {A B : Matrix (Fin N) (Fin N) ℝ} (hAB : A * B = 1) (hu : IsFrom t A B u) (i2 : Fin (r + 2))
    (j : Fin (r + 1)) (hmix : t.isContravar (i2.succAbove j) ≠ t.isContravar i2) (a : Fin r → Fin N) :
    contractCoeff u (i2.succAbove j) i2 a =
      ∑ b, (∏ k, factor A B (t.isContravar (i2.succAbove (j.succAbove k))) (a k) (b k)) * contractCoeff t (i2.succAbove j) i2 b := by
  have hBA : B * A = 1 := mul_eq_one_comm.1 hAB
  have key : ∀ x y, ∑ s, factor A B (t.isContravar i2) s x * factor A B (t.isContravar (i2.succAbove j)) s y = if x = y then 1 else 0 := by
    intro x y
    have e1 := congrFun (congrFun hBA x) y
    have e2 := congrFun (congrFun hBA y) x
    rw [Matrix.mul_apply, Matrix.one_apply] at e1 e2
    cases h1 : t.isContravar i2 <;> cases h2 : t.isContravar (i2.succAbove j) <;> simp [h1, h2] at hmix
    · simpa [factor] using e1
    · simp only [factor, if_true, Bool.false_eq_true, if_false]
      rw [show (if x = y then (1 : ℝ) else 0) = if y = x then 1 else 0 by simp only [eq_comm], ← e2]
      exact Finset.sum_congr rfl fun s _ => mul_comm _ _
  simp only [contractCoeff, tuple_insert, hu.2]
  simp only [sum_insert i2 (fun k => (∏ l, factor A B (t.isContravar l) _ (k l)) * t.coeff k)]
  simp only [sum_insert j]
  simp only [Fin.prod_univ_succAbove _ i2, Fin.prod_univ_succAbove _ j, Fin.insertNth_apply_same, Fin.insertNth_apply_succAbove]
  rw [Finset.sum_comm]
  have h1 : ∀ x, (∑ s : Fin N, ∑ y : Fin N, ∑ b : Fin r → Fin N, factor A B (t.isContravar i2) s x *
      (factor A B (t.isContravar (i2.succAbove j)) s y * ∏ k, factor A B (t.isContravar (i2.succAbove (j.succAbove k))) (a k) (b k)) *
        t.coeff (i2.insertNth (α := fun _ => Fin N) x (j.insertNth (α := fun _ => Fin N) y b))) =
      ∑ b : Fin r → Fin N, (∏ k, factor A B (t.isContravar (i2.succAbove (j.succAbove k))) (a k) (b k)) *
        t.coeff (i2.insertNth (α := fun _ => Fin N) x (j.insertNth (α := fun _ => Fin N) x b)) := by
    intro x
    rw [Finset.sum_comm]
    have h2 : ∀ y, (∑ s : Fin N, ∑ b : Fin r → Fin N, factor A B (t.isContravar i2) s x *
      (factor A B (t.isContravar (i2.succAbove j)) s y * ∏ k, factor A B (t.isContravar (i2.succAbove (j.succAbove k))) (a k) (b k)) *
        t.coeff (i2.insertNth (α := fun _ => Fin N) x (j.insertNth (α := fun _ => Fin N) y b))) =
        (if x = y then 1 else 0) * ∑ b : Fin r → Fin N, (∏ k, factor A B (t.isContravar (i2.succAbove (j.succAbove k))) (a k) (b k)) *
        t.coeff (i2.insertNth (α := fun _ => Fin N) x (j.insertNth (α := fun _ => Fin N) y b)) := by
      intro y
      rw [← key x y, Finset.sum_mul_sum]
      refine Finset.sum_congr rfl fun s _ => Finset.sum_congr rfl fun b _ => ?_
      ring
    rw [Finset.sum_congr rfl fun y _ => h2 y]
    simp
  rw [Finset.sum_congr rfl fun x _ => h1 x, Finset.sum_comm]
  exact Finset.sum_congr rfl fun b _ => (Finset.mul_sum _ _ _).symm

end Tensor

end Verif.Coord
