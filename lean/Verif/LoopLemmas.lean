import Verif.Loops
import Mathlib.Algebra.BigOperators.Intervals

/-! # Helper lemmas: counted loops that sum or fill an array -/

set_option autoImplicit false

namespace Verif

theorem forRange_sum {α : Type} [AddCommMonoid α] (n : ℕ) (s : α) (body : α → ℕ → Outcome α) (f : ℕ → α)
    (h : ∀ i < n, ∀ s, body s i = .ret (s + f i)) :
    forRange n s body = .ret (s + ∑ i ∈ Finset.range n, f i) := by
  induction n with
  | zero => simp [forRange]
  | succ n ih =>
    rw [forRange, ih (fun i hi => h i (by omega)), Outcome.bind_ret, h n (by omega),
      Finset.sum_range_succ, add_assoc]

theorem forRange_fill {α : Type} (n M : ℕ) (hM : n ≤ M) (g f : ℕ → α)
    (body : List α → ℕ → Outcome (List α))
    (h : ∀ i < n, ∀ r, body r i = Outcome.store r i (f i)) :
    forRange n (tab M g) body = .ret (tab M (fun k => if k < n then f k else g k)) := by
  induction n with
  | zero => simp [forRange]
  | succ n ih =>
    rw [forRange, ih (by omega) (fun i hi => h i (by omega)), Outcome.bind_ret, h n (by omega),
      store_tab _ (by omega)]
    congr 1
    refine tab_congr fun i hi => ?_
    by_cases h1 : i = n
    · subst h1; simp
    · by_cases h2 : i < n
      · simp [h1, h2]; omega
      · rw [if_neg h1, if_neg h2, if_neg (by omega)]

theorem replicate_eq_tab {α : Type} (n : ℕ) (a : α) : List.replicate n a = tab n (fun _ => a) := by
  apply List.ext_getElem?
  intro k
  rw [getElem?_tab, List.getElem?_replicate]

theorem getD_tab {α : Type} (n : ℕ) (f : ℕ → α) (d : α) {i : ℕ} (h : i < n) : (tab n f).getD i d = f i := by
  simp only [List.getD, getElem?_tab, if_pos h, Option.getD_some]


theorem forFromTo_fill {α : Type} (a b M : ℕ) (hb : b ≤ M) (g f : ℕ → α)
    (body : List α → ℕ → Outcome (List α))
    (h : ∀ i, a ≤ i → i < b → ∀ r, body r i = Outcome.store r i (f i)) :
    forFromTo a b (tab M g) body = .ret (tab M (fun k => if a ≤ k ∧ k < b then f k else g k)) := by
  rcases Nat.lt_or_ge b a with hab | hab
  · rw [forFromTo, show b - a = 0 by omega, forRange]
    congr 1
    exact tab_congr fun i _ => by rw [if_neg (by omega)]
  obtain ⟨t, ht, hP⟩ := forFromTo_rule
    (fun i v => v = tab M (fun k => if a ≤ k ∧ k < i then f k else g k)) a b hab (tab M g) body
    (tab_congr fun i _ => by rw [if_neg (by omega)])
    (by
      rintro i v hai hib rfl
      refine ⟨_, by rw [h i hai hib, store_tab _ (by omega)], ?_⟩
      refine tab_congr fun k hk => ?_
      by_cases h1 : k = i
      · subst h1; rw [if_pos rfl, if_pos (by omega)]
      · rw [if_neg h1]
        by_cases h2 : a ≤ k ∧ k < i
        · rw [if_pos h2, if_pos (by omega)]
        · rw [if_neg h2, if_neg (by omega)])
  rw [ht, hP]

theorem forFromTo_sum {α : Type} [AddCommMonoid α] (a b : ℕ) (s : α) (body : α → ℕ → Outcome α) (f : ℕ → α)
    (h : ∀ i, a ≤ i → i < b → ∀ s, body s i = .ret (s + f i)) :
    forFromTo a b s body = .ret (s + ∑ i ∈ Finset.Ico a b, f i) := by
  rw [forFromTo, forRange_sum (b - a) s _ (fun i => f (a + i)), Finset.sum_Ico_eq_sum_range]
  intro i hi t
  exact h (a + i) (by omega) (by omega) t


theorem exists_tab {α : Type _} (v : List α) (d : α) : ∃ n f, v = tab n f := ⟨_, _, eq_tab v d⟩

end Verif
