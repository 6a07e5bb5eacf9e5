import Verif.LinAlg.TriSolveLemmas
import Verif.LinAlg.GJProps

/-!
# Properties of `TridiagonalMatrix::Solve` (C39)
-/

set_option autoImplicit false

namespace Verif.LinAlg.Tri

open Verif.Mat
open Verif.Mat.Tri (Valid Is)

variable {K : Type} [Field K] [LinearOrder K] [IsStrictOrderedRing K]

/-- `x` solves the system with matrix `A` of order `n` and right-hand side `r`. -/
def Solves (n : ℕ) (A : ℕ → ℕ → K) (x r : List K) : Prop :=
  ∀ i < n, ∃ e, r[i]? = some e ∧ ∑ j ∈ Finset.range n, A i j * x.getD j 0 = e

/-- Every row is diagonally dominant, and its diagonal element exceeds the one to its left by the tolerance `T`. -/
def Dominant (n : ℕ) (A : ℕ → ℕ → K) (T : K) : Prop :=
  ∀ i < n, (∑ j ∈ Finset.range n, if j = i then 0 else |A i j|) ≤ |A i i| ∧
    T ≤ |A i i| - ∑ j ∈ Finset.range i, |A i j|

/-! ## Lemmas -/

theorem Valid.exists_tab {m : Tri K} (hm : Valid m) :
    ∃ b d a : ℕ → K, m = ⟨m.dim, tab m.dim b, tab m.dim d, tab m.dim a⟩ := by
  obtain ⟨dim, be, di, ab⟩ := m
  obtain ⟨h1, h2, h3⟩ := hm
  simp only at h1 h2 h3
  refine ⟨fun i => be.getD i 0, fun i => di.getD i 0, fun i => ab.getD i 0, ?_⟩
  simp only [Tri.mk.injEq, true_and]
  exact ⟨h1 ▸ eq_tab be 0, h2 ▸ eq_tab di 0, h3 ▸ eq_tab ab 0⟩

theorem Is.exists_tab {m : Tri K} {n : ℕ} {A : ℕ → ℕ → K} (hm : Is m n A) :
    ∃ b d a : ℕ → K, m = ⟨n, tab n b, tab n d, tab n a⟩ ∧ ∀ i < n, ∀ j < n, A i j = Tri.entry b d a i j := by
  obtain ⟨hv, hd, hg⟩ := hm
  obtain ⟨b, d, a, e⟩ := Valid.exists_tab hv
  rw [hd] at e
  refine ⟨b, d, a, e, fun i hi j hj => ?_⟩
  have := hg i hi j hj
  rw [e, Tri.get_tab n b d a hi hj] at this
  injection this with h
  exact h.symm

/-! ## The properties -/

/-- **C39 (tridiagonal).**  `Solve(rhs, sol)` with vectors that are long enough never has undefined behaviour.  It
reports a singular matrix or stores in the first `n` elements of `sol` the solution of the system, whatever they held
before, and leaves further elements alone. -/
theorem solveInto_solves (eps : K) (heps : 0 < eps) (m : Tri K) (n : ℕ) (A : ℕ → ℕ → K) (hm : Is m n A) (hn : 0 < n)
    (rhs sol : List K) (hr : n ≤ rhs.length) (hs : n ≤ sol.length) :
    solveInto eps m rhs sol = .exn (.mml "SingularMatrixError") ∨
    ∃ x, solveInto eps m rhs sol = .ret x ∧ x.length = sol.length ∧ Solves n A x rhs ∧
      ∀ j, n ≤ j → x[j]? = sol[j]? := by
  obtain ⟨b, d, a, rfl, hA⟩ := Is.exists_tab hm
  obtain ⟨N, r, rfl⟩ := exists_tab rhs 0
  obtain ⟨M, z, rfl⟩ := exists_tab sol 0
  rw [length_tab] at hr hs
  have h := solveInto_sat eps heps hn hr hs b d a r z (fun e => e = .mml "SingularMatrixError") (fun _ => rfl)
  cases hc : solveInto eps ⟨n, tab n b, tab n d, tab n a⟩ (tab N r) (tab M z) with
  | ub => rw [hc] at h; exact h.elim
  | exn e => rw [hc] at h; exact Or.inl (congrArg _ h)
  | ret v =>
    rw [hc] at h
    obtain ⟨x, rfl, h1, _, h2⟩ := h
    refine Or.inr ⟨_, rfl, by simp, fun i hi => ⟨r i, by rw [getElem?_tab, if_pos (by omega)], ?_⟩, fun j hj => ?_⟩
    · rw [← h2 i hi]
      refine Finset.sum_congr rfl fun j hj => ?_
      have := Finset.mem_range.1 hj
      rw [hA i hi j this, getD_tab _ _ _ (by omega)]
    · rw [getElem?_tab, getElem?_tab, h1 j hj]

/-- **C39 (tridiagonal).**  `Solve(rhs)` reports a singular matrix or returns the solution, in a vector as long as
`rhs` with zeros in the places the matrix does not have. -/
theorem solve_solves (eps : K) (heps : 0 < eps) (m : Tri K) (n : ℕ) (A : ℕ → ℕ → K) (hm : Is m n A) (hn : 0 < n)
    (rhs : List K) (hr : n ≤ rhs.length) :
    solve eps m rhs = .exn (.mml "SingularMatrixError") ∨
    ∃ x, solve eps m rhs = .ret x ∧ x.length = rhs.length ∧ Solves n A x rhs ∧
      ∀ j, n ≤ j → j < rhs.length → x[j]? = some 0 := by
  rcases solveInto_solves eps heps m n A hm hn rhs (List.replicate rhs.length 0) hr (by simpa using hr) with
    h | ⟨x, h1, h2, h3, h4⟩
  · exact Or.inl h
  · refine Or.inr ⟨x, h1, by simpa using h2, h3, fun j hj hj' => ?_⟩
    rw [h4 j hj, List.getElem?_replicate, if_pos hj']

/-- **C39 (tridiagonal).**  A singular matrix is never accepted. -/
theorem solve_singular (eps : K) (heps : 0 < eps) (m : Tri K) (n : ℕ) (A : ℕ → ℕ → K) (hm : Is m n A) (hn : 0 < n)
    (hdep : RowsDependent n A) (rhs : List K) (hr : n ≤ rhs.length) :
    solve eps m rhs = .exn (.mml "SingularMatrixError") := by
  obtain ⟨b, d, a, rfl, hA⟩ := Is.exists_tab hm
  obtain ⟨N, r, rfl⟩ := exists_tab rhs 0
  rw [length_tab] at hr
  have h := solveInto_sat eps heps hn hr hr b d a r (fun _ => 0) (fun e => e = .mml "SingularMatrixError") (fun _ => rfl)
  rw [solve, length_tab, replicate_eq_tab]
  cases hc : solveInto eps ⟨n, tab n b, tab n d, tab n a⟩ (tab N r) (tab N (fun _ => 0)) with
  | ub => rw [hc] at h; exact h.elim
  | exn e => rw [hc] at h; exact congrArg _ h
  | ret v =>
    rw [hc] at h
    obtain ⟨x, _, _, hp, _⟩ := h
    have hex : ∀ c, ∃ V : ℕ → K, ∀ i < n, ∑ j ∈ Finset.range n, Tri.entry b d a i j * V j = δ K i c :=
      fun c => exists_solution b d a (fun i => δ K i c) hp
    choose V hV using hex
    refine absurd hdep (not_dependent (V := fun k c => V c k) fun i hi c _ => ?_)
    rw [← hV c i hi]
    exact Finset.sum_congr rfl fun j hj => by rw [hA i hi j (Finset.mem_range.1 hj)]

/-- **C39 (tridiagonal).**  A diagonally dominant matrix whose diagonal elements stay clear of the tolerance is
solved.  `S` bounds the diagonal elements and is at least one. -/
theorem solve_accepts (eps : K) (heps : 0 < eps) (m : Tri K) (n : ℕ) (A : ℕ → ℕ → K) (hm : Is m n A) (hn : 0 < n)
    (S : K) (hS : 1 ≤ S) (hAS : ∀ i < n, |A i i| ≤ S) (hdom : Dominant n A (S * eps)) (rhs : List K)
    (hr : n ≤ rhs.length) : ∃ x, solve eps m rhs = .ret x ∧ Solves n A x rhs := by
  rcases solve_solves eps heps m n A hm hn rhs hr with h | ⟨x, h1, _, h3, _⟩
  swap
  · exact ⟨x, h1, h3⟩
  exfalso
  obtain ⟨b, d, a, rfl, hA⟩ := Is.exists_tab hm
  obtain ⟨N, r, rfl⟩ := exists_tab rhs 0
  rw [length_tab] at hr
  have hTpos : 0 < S * eps := mul_pos (one_pos.trans_le hS) heps
  have hd : ∀ i < n, A i i = d i := fun i hi => by rw [hA i hi i hi, Tri.entry, if_pos rfl]
  have hb : ∀ i, i + 1 < n → A (i + 1) i = b (i + 1) := fun i hi => by
    rw [hA _ hi i (by omega), Tri.entry, if_neg (by omega), if_neg (by omega), if_pos rfl]
  have ha : ∀ i, i + 1 < n → A i (i + 1) = a i := fun i hi => by
    rw [hA i (by omega) _ hi, Tri.entry, if_neg (by omega), if_pos rfl]
  -- every pivot is at least as large as the element to its right and as the tolerance
  have key : ∀ j < n, S * eps ≤ |pivot b d a j| ∧ (j + 1 < n → |a j| ≤ |pivot b d a j|) := by
    intro j hj
    induction j with
    | zero =>
      obtain ⟨h1, h2⟩ := hdom 0 hj
      refine ⟨by simpa [pivot, hd 0 hj] using h2, fun hn1 => ?_⟩
      rw [pivot, ← hd 0 hj, ← ha 0 hn1]
      refine le_trans ?_ h1
      have := Finset.single_le_sum (f := fun j => if j = 0 then (0 : K) else |A 0 j|)
        (fun i _ => by beta_reduce; split <;> positivity) (Finset.mem_range.2 hn1)
      simpa using this
    | succ j ih =>
      obtain ⟨h1, h2⟩ := hdom (j + 1) hj
      obtain ⟨p1, p2⟩ := ih (by omega)
      have hp : 0 < |pivot b d a j| := hTpos.trans_le p1
      have hg : |b (j + 1) * (a j / pivot b d a j)| ≤ |b (j + 1)| := by
        rw [abs_mul, abs_div]
        exact mul_le_of_le_one_right (abs_nonneg _) ((div_le_one hp).2 (p2 hj))
      have hpiv : |d (j + 1)| - |b (j + 1)| ≤ |pivot b d a (j + 1)| := by
        rw [pivot]
        have := abs_sub_abs_le_abs_sub (d (j + 1)) (b (j + 1) * (a j / pivot b d a j))
        linarith
      have hbl : |b (j + 1)| ≤ ∑ c ∈ Finset.range (j + 1), |A (j + 1) c| := by
        rw [← hb j hj]
        exact Finset.single_le_sum (f := fun c => |A (j + 1) c|) (fun i _ => abs_nonneg _) (Finset.mem_range.2 (by omega))
      refine ⟨?_, fun hn1 => ?_⟩
      · rw [← hd _ hj] at hpiv
        linarith
      · refine le_trans ?_ hpiv
        have h3 : |b (j + 1)| + |a (j + 1)| ≤ |d (j + 1)| := by
          rw [← hb j hj, ← ha _ hn1, ← hd _ hj]
          refine le_trans ?_ h1
          have hsub : ({j, j + 2} : Finset ℕ) ⊆ Finset.range n := by
            intro t ht
            simp only [Finset.mem_insert, Finset.mem_singleton] at ht
            rw [Finset.mem_range]; omega
          have := Finset.sum_le_sum_of_subset_of_nonneg (f := fun c => if c = j + 1 then (0 : K) else |A (j + 1) c|) hsub
            (fun i _ _ => by beta_reduce; split <;> positivity)
          rw [Finset.sum_pair (by omega), if_neg (by omega), if_neg (by omega)] at this
          exact this
        linarith
  have h2 := solveInto_sat eps heps hn hr hr b d a r (fun _ => 0) (fun _ => False) (by
    rintro ⟨j, hj, _, T, hT, hlt⟩
    have hTS := hT S hS (fun i hi => by rw [← hd i hi]; exact hAS i hi)
    exact absurd (hlt.trans_le (hTS.trans (key j hj).1)) (lt_irrefl _))
  rw [solve, length_tab, replicate_eq_tab] at h
  rw [h] at h2
  exact h2

/-- **C39 (tridiagonal).**  A right-hand side shorter than the matrix is not refused: the elements it does not have are
read. -/
theorem solve_short (eps : K) (heps : 0 < eps) (hle : eps ≤ 1) (n k : ℕ) (hk : k < n) :
    ∃ m : Tri K, Is m n (δ K) ∧ solve eps m (List.replicate k 0) = .ub := by
  refine ⟨⟨n, tab n (fun _ => 0), tab n (fun _ => 1), tab n (fun _ => 0)⟩, ⟨⟨by simp, by simp, by simp⟩, rfl,
    fun i hi j hj => ?_⟩, ?_⟩
  · rw [Tri.get_tab n _ _ _ hi hj, Tri.entry, δ]
    split
    · rfl
    · split
      · rfl
      · split <;> rfl
  obtain ⟨T, hT, _, hT2⟩ := tolerance_spec eps heps n (fun _ => (1 : K))
  have hT1 : ¬ |(1 : K)| < T := by
    have := hT2 1 le_rfl (fun i _ => by simp)
    rw [abs_one, not_lt]
    linarith
  rw [solve, List.length_replicate, replicate_eq_tab, solveInto]
  simp only [length_tab]
  rw [hT, Outcome.bind_ret, index_tab _ (by omega), Outcome.bind_ret, if_neg hT1]
  rcases Nat.eq_zero_or_pos k with rfl | hk0
  · rfl
  rw [index_tab _ hk0, Outcome.bind_ret, divU, if_neg one_ne_zero, Outcome.bind_ret, store_tab _ hk0, Outcome.bind_ret,
    replicate_eq_tab, forFromTo_ub (fun _ (s : State K) => ∃ y g : ℕ → K, s = ⟨tab k y, tab n g, 1⟩) 1 n k (by omega) hk]
  · rfl
  · exact ⟨_, _, rfl⟩
  · rintro i _ h1 h2 ⟨y, g, rfl⟩
    rw [forwardStep]
    simp only
    rw [index_tab _ (by omega), Outcome.bind_ret, divU, if_neg one_ne_zero, Outcome.bind_ret, store_tab _ (by omega),
      Outcome.bind_ret, index_tab _ (by omega), Outcome.bind_ret, index_tab _ (by omega), Outcome.bind_ret, zero_mul,
      sub_zero, if_neg hT1, index_tab _ h2, Outcome.bind_ret, index_tab _ (by omega), Outcome.bind_ret, divU,
      if_neg one_ne_zero, Outcome.bind_ret, store_tab _ h2, Outcome.bind_ret]
    exact ⟨_, rfl, _, _, rfl⟩
  · rintro _ ⟨y, g, rfl⟩
    rw [forwardStep]
    simp only
    rw [index_tab _ (by omega), Outcome.bind_ret, divU, if_neg one_ne_zero, Outcome.bind_ret, store_tab _ (by omega),
      Outcome.bind_ret, index_tab _ (by omega), Outcome.bind_ret, index_tab _ (by omega), Outcome.bind_ret, zero_mul,
      sub_zero, if_neg hT1]
    have : Outcome.index (tab k fun _ => (0 : K)) k = .ub := by
      rw [Outcome.index, getElem?_tab, if_neg (lt_irrefl _)]
    rw [this, Outcome.bind_ub]

/-- **C39 (tridiagonal).**  There is no pivoting: a matrix can be invertible and still be reported as singular. -/
theorem solve_no_pivoting : ∃ (m : Tri ℚ) (A : ℕ → ℕ → ℚ), Is m 3 A ∧ ¬ RowsDependent 3 A ∧
    ∀ eps : ℚ, 0 < eps → ∀ rhs, 3 ≤ rhs.length → solve eps m rhs = .exn (.mml "SingularMatrixError") := by
  let A : ℕ → ℕ → ℚ := fun i j => if i + j = 1 ∨ i + j = 4 then 1 else 0
  refine ⟨⟨3, [0, 1, 0], [0, 0, 1], [1, 0, 0]⟩, A, ⟨⟨rfl, rfl, rfl⟩, rfl, by decide⟩,
    not_dependent (V := A) ?_, fun eps heps rhs _ => ?_⟩
  · decide +kernel
  · obtain ⟨T, hT, hT1, _⟩ := tolerance_spec eps heps 3 (fun i => if i = 2 then 1 else 0)
    have e : (tab 3 (fun i => if i = 2 then 1 else 0) : List ℚ) = [0, 0, 1] := by decide +kernel
    rw [e] at hT
    rw [solve, solveInto]
    simp only [List.length_cons, List.length_nil]
    rw [hT, Outcome.bind_ret]
    simp only [Outcome.index, List.getElem?_cons_zero, Outcome.bind_ret, abs_zero]
    rw [if_pos (heps.trans_le hT1)]

/-! ## The hypotheses are met -/

/-- A matrix that needs both kinds of substitution. -/
def exT : Tri ℚ := ⟨3, [0, 1, 1], [2, 3, 2], [1, 1, 0]⟩

example : Is exT 3 (fun i j => if i = j then (if i = 1 then 3 else 2) else if i + 1 = j ∨ j + 1 = i then 1 else 0) := by
  refine ⟨⟨rfl, rfl, rfl⟩, rfl, ?_⟩
  decide
example : solve (1 / 1000 : ℚ) exT [4, 10, 8] = .ret [1, 2, 3] := by decide +kernel
example : solve (1 / 1000 : ℚ) exT [4, 10, 8, 7] = .ret [1, 2, 3, 0] := by decide +kernel
example : solve (1 / 1000 : ℚ) ⟨3, [0, 1, 1], [1, 1, 2], [1, 1, 0]⟩ [4, 10, 8] = .exn (.mml "SingularMatrixError") := by
  decide +kernel
example : Dominant 3
    (fun i j => if i = j then (if i = 1 then 3 else 2) else if i + 1 = j ∨ j + 1 = i then (1 : ℚ) else 0) (3 / 1000) := by
  intro i hi
  interval_cases i <;> norm_num [Finset.sum_range_succ]

end Verif.LinAlg.Tri
