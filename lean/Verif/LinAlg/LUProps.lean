import Verif.LinAlg.LUSolve
import Verif.LinAlg.GJProps

/-!
# Properties of `LUSolver` and `LUSolverInPlace` (C37, C38)
-/

set_option autoImplicit false

namespace Verif.LinAlg.LU

open Verif.Mat
open Verif.Mat.Dense (Valid Is Shape ofFn)

variable {K : Type} [Field K] [LinearOrder K] [IsStrictOrderedRing K]

/-- `s` was made by one of the two constructors from the matrix `a`. -/
def Made (eps : K) (a : Dense K) (s : LU K) : Prop := new eps a = .ret s ∨ newInPlace eps a = .ret s

/-- `V` is the inverse of `A`, every element of `A` is at most `M`, every row has an element of size at least `m`,
and `A` is far enough from singular: `M / m` times the threshold `eps * M * n` times every row sum of `|V|` is at most
one. -/
def WellConditioned (eps : K) (n : ℕ) (A V : ℕ → ℕ → K) (m M : K) : Prop :=
  (∀ r < n, ∀ c < n, ∑ k ∈ Finset.range n, A r k * V k c = δ K r c) ∧
  0 < m ∧ (∀ r < n, ∀ c < n, |A r c| ≤ M) ∧ (∀ r < n, ∃ c < n, m ≤ |A r c|) ∧
  ∀ i < n, M / m * (eps * M * n) * ∑ r ∈ Finset.range n, |V i r| ≤ 1

/-! ## Lemmas -/

theorem create_cases {n : ℕ} (A : ℕ → ℕ → K) (z : Outcome (Dense K)) (eps : K) (heps : 0 < eps) (hn : n ≠ 0) :
    create z eps (ofFn n n A) = .exn (.mml "SingularMatrixError") ∨
      ∃ s, create z eps (ofFn n n A) = .ret s ∧ Decomp n A s := by
  have h := create_sat A z eps heps hn (fun e => e = .mml "SingularMatrixError") (fun _ => rfl)
  cases hc : create z eps (ofFn n n A) with
  | ub => rw [hc] at h; exact h.elim
  | exn e => rw [hc] at h; exact Or.inl (congrArg _ h)
  | ret s => rw [hc] at h; exact Or.inr ⟨s, rfl, h⟩

theorem Made.square {eps : K} {a : Dense K} {s : LU K} (h : Made eps a s) : a.rows = a.cols ∧ a.rows ≠ 0 := by
  by_contra hne
  have : ∀ z, create z eps a = .exn (.mml "MatrixDimensionError") := by
    intro z
    rw [create]
    split
    · rfl
    · rw [if_pos (by omega)]
  rcases h with h | h
  · rw [new, this] at h; cases h
  · rw [newInPlace, this] at h; cases h

theorem Made.decomp {eps : K} {a : Dense K} {s : LU K} (h : Made eps a s) (heps : 0 < eps) {n : ℕ} {A : ℕ → ℕ → K}
    (ha : Is a n n A) : n ≠ 0 ∧ Decomp n A s := by
  have h0 := h.square
  obtain ⟨hs, rfl⟩ := Dense.is_unique.1 ha
  have hn : n ≠ 0 := by simpa using h0.2
  refine ⟨hn, ?_⟩
  rcases h with h | h
  · rcases create_cases A (.exn (.mml "MatrixNumericalError")) eps heps hn with h2 | ⟨s', h2, h3⟩
    · rw [new, h2] at h; cases h
    · rw [new, h2] at h; cases h; exact h3
  · rcases create_cases A .ub eps heps hn with h2 | ⟨s', h2, h3⟩
    · rw [newInPlace, h2] at h; cases h
    · rw [newInPlace, h2] at h; cases h; exact h3

theorem WellConditioned.not_near {eps : K} {n : ℕ} {A V : ℕ → ℕ → K} {m M : K}
    (h : WellConditioned eps n A V m M) : ¬ ColNear n A (M / m * (eps * M * n)) := by
  obtain ⟨hV, _, _, _, hrow⟩ := h
  rintro ⟨v, ⟨j, hj, hvj⟩, hv⟩
  have hVA := right_inverse (A := V) (R := A) (fun r hr c hc => hV r hr c hc)
  have hcancel := mul_cancel (A := V) (R := A) (B := fun k _ => v k) (X := fun r _ => ∑ c ∈ Finset.range n, A r c * v c)
    (m := 1) hVA (fun r _ c _ => rfl) j hj 0 (by omega)
  have h1 : |v j| ≤ ∑ r ∈ Finset.range n, |V j r| * |∑ c ∈ Finset.range n, A r c * v c| := by
    rw [← hcancel]
    refine (Finset.abs_sum_le_sum_abs _ _).trans (le_of_eq (Finset.sum_congr rfl fun c _ => abs_mul _ _))
  have hex : ∃ r ∈ Finset.range n, V j r ≠ 0 := by
    by_contra hne
    push Not at hne
    rw [Finset.sum_eq_zero fun r hr => by rw [hne r hr, abs_zero, zero_mul], hvj, abs_one] at h1
    exact absurd h1 (not_le.2 one_pos)
  have h2 : ∑ r ∈ Finset.range n, |V j r| * |∑ c ∈ Finset.range n, A r c * v c| <
      ∑ r ∈ Finset.range n, |V j r| * (M / m * (eps * M * n)) := by
    obtain ⟨r, hr, hne⟩ := hex
    exact Finset.sum_lt_sum (fun r hr => mul_le_mul_of_nonneg_left (hv r (Finset.mem_range.1 hr)).le (abs_nonneg _))
      ⟨r, hr, mul_lt_mul_of_pos_left (hv r (Finset.mem_range.1 hr)) (abs_pos.2 hne)⟩
  rw [← Finset.sum_mul, mul_comm (∑ r ∈ Finset.range n, |V j r|)] at h2
  rw [hvj, abs_one] at h1
  exact absurd (h1.trans_lt (h2.trans_le (hrow j hj))) (lt_irrefl _)

/-! ## The constructors -/

/-- **C37 (LU).**  Constructing either solver from a consistent matrix never has undefined behaviour: it succeeds,
refuses a matrix that is empty or not square, or reports a singular matrix. -/
theorem new_outcomes (eps : K) (heps : 0 < eps) (a : Dense K) (ha : Valid a) :
    ((a.rows ≠ a.cols ∨ a.rows = 0) → new eps a = .exn (.mml "MatrixDimensionError") ∧
      newInPlace eps a = .exn (.mml "MatrixDimensionError")) ∧
    (a.rows = a.cols → a.rows ≠ 0 →
      (new eps a = .exn (.mml "SingularMatrixError") ∨ ∃ s, new eps a = .ret s) ∧
      (newInPlace eps a = .exn (.mml "SingularMatrixError") ∨ ∃ s, newInPlace eps a = .ret s)) := by
  refine ⟨fun h => ?_, fun h1 h2 => ?_⟩
  · have : ∀ z, create z eps a = .exn (.mml "MatrixDimensionError") := by
      intro z
      rw [create]
      split
      · rfl
      · rw [if_pos (by omega)]
    exact ⟨this _, this _⟩
  · obtain ⟨n, n', A, hs, rfl⟩ := ha.exists_ofFn
    simp only [Dense.ofFn_rows, Dense.ofFn_cols] at h1 h2
    subst h1
    exact ⟨(create_cases A _ eps heps h2).imp id fun ⟨s, h, _⟩ => ⟨s, h⟩,
      (create_cases A _ eps heps h2).imp id fun ⟨s, h, _⟩ => ⟨s, h⟩⟩

/-- **C37 (LU).**  Solving with a successfully constructed solver, any number of times and for any right-hand side of
the right length, returns the `x` with `A * x = b`; a wrong length is refused. -/
theorem solve_solves (eps : K) (heps : 0 < eps) (a : Dense K) (ha : Valid a) (s : LU K) (hs : Made eps a s)
    (b : List K) :
    (b.length = a.rows → ∃ x, s.solve b = .ret x ∧ a.mulVec x = .ret b) ∧
    (b.length ≠ a.rows → s.solve b = .exn (.mml "VectorDimensionError")) := by
  obtain ⟨h1, h2⟩ := hs.square
  obtain ⟨n, n', A, hsh, rfl⟩ := ha.exists_ofFn
  simp only [Dense.ofFn_rows, Dense.ofFn_cols] at h1 h2
  subst h1
  obtain ⟨_, hd⟩ := hs.decomp heps (Dense.is_ofFn hsh A)
  simp only [Dense.ofFn_rows]
  refine ⟨fun hb => ?_, fun hb => ?_⟩
  · obtain ⟨B, rfl⟩ : ∃ B, b = tab n B := ⟨_, hb ▸ eq_tab b 0⟩
    obtain ⟨x, hx, hx'⟩ := solveInto_spec hd B (fun _ => 0)
    refine ⟨tab n x, ?_, ?_⟩
    · rw [solve, length_tab, replicate_eq_tab, hx, Outcome.bind_ret, if_pos rfl]
    · rw [Dense.mulVec_ofFn]
      congr 1
      exact tab_congr fun r hr => hx' r hr
  · rw [solve, solveInto, if_pos (Or.inl (by rw [hd.rows]; exact hb)), Outcome.bind_ret, if_neg (by simp)]

/-- **C37 (LU).**  `bool Solve(b, x)`: true exactly when both vectors have the right length, `x` is then the solution
whatever it held before, and is otherwise left alone. -/
theorem solveInto_solves (eps : K) (heps : 0 < eps) (a : Dense K) (ha : Valid a) (s : LU K) (hs : Made eps a s)
    (b x : List K) :
    ((b.length = a.rows ∧ x.length = a.rows) → ∃ x', s.solveInto b x = .ret (true, x') ∧ a.mulVec x' = .ret b) ∧
    (¬ (b.length = a.rows ∧ x.length = a.rows) → s.solveInto b x = .ret (false, x)) := by
  obtain ⟨h1, h2⟩ := hs.square
  obtain ⟨n, n', A, hsh, rfl⟩ := ha.exists_ofFn
  simp only [Dense.ofFn_rows, Dense.ofFn_cols] at h1 h2
  subst h1
  obtain ⟨_, hd⟩ := hs.decomp heps (Dense.is_ofFn hsh A)
  simp only [Dense.ofFn_rows]
  refine ⟨fun ⟨hb, hx⟩ => ?_, fun hb => ?_⟩
  · obtain ⟨B, rfl⟩ : ∃ B, b = tab n B := ⟨_, hb ▸ eq_tab b 0⟩
    obtain ⟨X, rfl⟩ : ∃ B, x = tab n B := ⟨_, hx ▸ eq_tab x 0⟩
    obtain ⟨x, hx, hx'⟩ := solveInto_spec hd B X
    refine ⟨tab n x, hx, ?_⟩
    rw [Dense.mulVec_ofFn]
    congr 1
    exact tab_congr fun r hr => hx' r hr
  · rw [solveInto, if_pos (by rw [hd.rows]; tauto)]

/-- **C37 (LU).**  The matrix forms: `Solve(B, X)` for two objects, for one object used as both, and the returning
form of `LUSolverInPlace`, give the `X` with `A * X = B`. -/
theorem solveM_solves (eps : K) (heps : 0 < eps) (a : Dense K) (ha : Valid a) (s : LU K) (hs : Made eps a s)
    (b : Dense K) (hb : Valid b) (hr : b.rows = a.rows) :
    (∀ out, Valid out → out.rows = a.rows → out.cols = b.cols → ∃ x, s.solveM b out = .ret x ∧ a.mul x = .ret b) ∧
    (∃ x, s.solveMSame b = .ret x ∧ a.mul x = .ret b) ∧
    (∃ x, s.solveMNew b = .ret x ∧ a.mul x = .ret b) := by
  obtain ⟨h1, h2⟩ := hs.square
  obtain ⟨n, n', A, hsh, rfl⟩ := ha.exists_ofFn
  obtain ⟨n'', m, B, hsb, rfl⟩ := hb.exists_ofFn
  simp only [Dense.ofFn_rows, Dense.ofFn_cols] at h1 h2 hr
  subst h1 hr
  obtain ⟨_, hd⟩ := hs.decomp heps (Dense.is_ofFn hsh A)
  have hrows := hd.rows
  have fin : ∀ X, (∀ r < n'', ∀ c < m, ∑ k ∈ Finset.range n'', A r k * X k c = B r c) →
      (ofFn n'' n'' A).mul (ofFn n'' m X) = .ret (ofFn n'' m B) := by
    intro X hX
    rw [Dense.mul_ofFn hsb A X]
    congr 1
    exact Dense.ofFn_congr hX
  refine ⟨fun out ho h3 h4 => ?_, ?_, ?_⟩
  · obtain ⟨n3, m3, G, hso, rfl⟩ := ho.exists_ofFn
    simp only [Dense.ofFn_rows, Dense.ofFn_cols] at h3 h4
    subst h3 h4
    obtain ⟨X, hX, hX'⟩ := solveColumns_spec (m := m3) hd (fun _ => ofFn n3 m3 B) G B (fun j _ g _ => ⟨B, rfl, fun _ _ => rfl⟩)
    refine ⟨_, ?_, fin X hX'⟩
    rw [solveM, if_neg (by simp [hrows]), if_neg (by simp [hrows])]
    exact hX
  · obtain ⟨X, hX, hX'⟩ := solveColumns_spec (m := m) hd id B B (fun j hj g hg => ⟨g, rfl, fun r hr => hg r hr j hj le_rfl⟩)
    refine ⟨_, ?_, fin X hX'⟩
    rw [solveMSame, if_neg (by simp [hrows]), if_neg (by simp [hrows])]
    exact hX
  · obtain ⟨X, hX, hX'⟩ := solveColumns_spec (m := m) hd (fun _ => ofFn n'' m B) (fun _ _ => 0) B
      (fun j _ g _ => ⟨B, rfl, fun _ _ => rfl⟩)
    refine ⟨_, ?_, fin X hX'⟩
    rw [solveMNew, if_neg (by simp [hrows])]
    simp only [Dense.ofFn_rows, Dense.ofFn_cols]
    rw [Dense.new_spec hsb, Outcome.bind_ret]
    exact hX

/-- **C37 (LU).**  The matrix forms refuse wrong sizes. -/
theorem solveM_reject (eps : K) (heps : 0 < eps) (a : Dense K) (ha : Valid a) (s : LU K) (hs : Made eps a s)
    (b out : Dense K) :
    (b.rows ≠ a.rows → s.solveM b out = .exn (.mml "MatrixDimensionError") ∧
      s.solveMSame b = .exn (.mml "MatrixDimensionError") ∧ s.solveMNew b = .exn (.mml "MatrixDimensionError")) ∧
    ((out.rows ≠ a.rows ∨ out.cols ≠ b.cols) → s.solveM b out = .exn (.mml "MatrixDimensionError")) := by
  obtain ⟨h1, h2⟩ := hs.square
  obtain ⟨n, n', A, hsh, rfl⟩ := ha.exists_ofFn
  simp only [Dense.ofFn_rows, Dense.ofFn_cols] at h1 h2
  subst h1
  obtain ⟨_, hd⟩ := hs.decomp heps (Dense.is_ofFn hsh A)
  have hrows := hd.rows
  simp only [Dense.ofFn_rows]
  refine ⟨fun h => ⟨?_, ?_, ?_⟩, fun h => ?_⟩
  · rw [solveM, if_pos (by rw [hrows]; exact h)]
  · rw [solveMSame, if_pos (by rw [hrows]; exact h)]
  · rw [solveMNew, if_pos (by rw [hrows]; exact h)]
  · rw [solveM]
    split
    · rfl
    · rw [if_pos (by rw [hrows]; exact h)]

/-- **C38 (LU).**  `det()` returns the determinant of the matrix the solver was made from. -/
theorem det_correct (eps : K) (heps : 0 < eps) (a : Dense K) (n : ℕ) (A : ℕ → ℕ → K) (ha : Is a n n A) (s : LU K)
    (hs : Made eps a s) : s.det = .ret (Matrix.det (Matrix.of fun i j : Fin n => A i j)) :=
  det_spec (hs.decomp heps ha).2

/-- **C38 (LU).**  `inverse(ainv)` stores the inverse, whatever shape and contents `ainv` had. -/
theorem inverse_correct (eps : K) (heps : 0 < eps) (a : Dense K) (n : ℕ) (A : ℕ → ℕ → K) (ha : Is a n n A) (s : LU K)
    (hs : Made eps a s) (ainv : Dense K) (hv : Valid ainv) :
    ∃ v, s.inverse ainv = .ret v ∧ Valid v ∧ (∃ e, a.mul v = .ret e ∧ Is e n n (δ K)) ∧
      ∃ e, v.mul a = .ret e ∧ Is e n n (δ K) := by
  obtain ⟨hn, hd⟩ := hs.decomp heps ha
  obtain ⟨hsh, rfl⟩ := Dense.is_unique.1 ha
  have hrows := hd.rows
  obtain ⟨g, hg⟩ : ∃ g, ainv.resize n n false = .ret (ofFn n n g) := by
    obtain ⟨r, c, f, hsf, rfl⟩ := hv.exists_ofFn
    by_cases he : n = r ∧ n = c
    · obtain ⟨rfl, h⟩ := he
      subst h
      exact ⟨f, by rw [Dense.resize, if_pos (by simp)]⟩
    · obtain ⟨m', h1, h2⟩ := Dense.resize_clears (ofFn r c f) r c n n f (Dense.is_ofFn hsf f) hsh (by omega) he
      exact ⟨_, by rw [h1, (Dense.is_unique.1 h2).2]⟩
  have hid : forRange n (ofFn n n g) (fun m i => do
      let m ← forRange n m (fun m j => m.set i j 0)
      m.set i i 1) = .ret (ofFn n n (δ K)) := by
    rw [Dense.forRange_row n g (fun i j => δ K i j) le_rfl]
    · congr 1
      exact Dense.ofFn_congr fun i hi j _ => by rw [if_pos hi]
    · intro i hi g' _
      rw [Dense.forRange_cols n i g' (fun _ => 0) hi le_rfl _ (fun j _ m => rfl), Outcome.bind_ret,
        Dense.set_ofFn _ hi hi]
      congr 1
      refine Dense.ofFn_congr fun p _ q hq => ?_
      by_cases hp : p = i
      · subst hp
        by_cases hpq : q = p
        · subst hpq; simp [δ]
        · rw [if_neg (by tauto), if_pos rfl, if_pos hq, if_pos rfl, δ, if_neg (fun h => hpq h.symm)]
      · rw [if_neg (by tauto), if_neg hp, if_neg hp]
  obtain ⟨X, hX, hX'⟩ := solveColumns_spec (m := n) hd id (δ K) (δ K)
    (fun j hj g hg => ⟨g, rfl, fun r hr => hg r hr j hj le_rfl⟩)
  refine ⟨ofFn n n X, ?_, Dense.valid_ofFn hsh X, ⟨_, Dense.mul_ofFn hsh A X, ?_⟩, _, Dense.mul_ofFn hsh X A, ?_⟩
  · rw [inverse]
    simp only [hrows]
    rw [hg, Outcome.bind_ret, hid, Outcome.bind_ret, solveMSame, if_neg (by simp [hrows]), if_neg (by simp [hrows])]
    exact hX
  · exact Dense.is_unique.2 ⟨hsh, Dense.ofFn_congr hX'⟩
  · refine Dense.is_unique.2 ⟨hsh, Dense.ofFn_congr fun r hr c hc => ?_⟩
    exact right_inverse (A := X) (R := A) hX' r hr c hc

/-- **C37, C38 (LU).**  A singular matrix is never accepted, and one that is far enough from singular always is. -/
theorem new_decides (eps : K) (heps : 0 < eps) (a : Dense K) (n : ℕ) (A : ℕ → ℕ → K) (ha : Is a n n A) (hn : 0 < n) :
    (RowsDependent n A → new eps a = .exn (.mml "SingularMatrixError") ∧
      newInPlace eps a = .exn (.mml "SingularMatrixError")) ∧
    (∀ V m M, WellConditioned eps n A V m M → (∃ s, new eps a = .ret s) ∧ ∃ s, newInPlace eps a = .ret s) := by
  have inv : ∀ s, Made eps a s → ∃ V : ℕ → ℕ → K, ∀ r < n, ∀ c < n, ∑ k ∈ Finset.range n, A r k * V k c = δ K r c := by
    intro s hs
    obtain ⟨_, hd⟩ := hs.decomp heps ha
    obtain ⟨X, _, hX'⟩ := solveColumns_spec (m := n) hd id (δ K) (δ K)
      (fun j hj g hg => ⟨g, rfl, fun r hr => hg r hr j hj le_rfl⟩)
    exact ⟨X, hX'⟩
  refine ⟨fun hdep => ?_, fun V m M hw => ?_⟩
  · obtain ⟨h1, h2⟩ := (new_outcomes eps heps a ha.1).2 (by rw [ha.2.1, ha.2.2.1]) (by rw [ha.2.1]; omega)
    refine ⟨h1.resolve_right ?_, h2.resolve_right ?_⟩
    · rintro ⟨s, hs⟩
      obtain ⟨V, hV⟩ := inv s (Or.inl hs)
      exact not_dependent hV hdep
    · rintro ⟨s, hs⟩
      obtain ⟨V, hV⟩ := inv s (Or.inr hs)
      exact not_dependent hV hdep
  · obtain ⟨hsh, rfl⟩ := Dense.is_unique.1 ha
    have key : ∀ z, ∃ s, create z eps (ofFn n n A) = .ret s := by
      intro z
      have h := create_sat A z eps heps (by omega) (fun _ => False)
        (fun hnear => hw.not_near (hnear M m hw.2.1 hw.2.2.1 hw.2.2.2.1))
      cases hc : create z eps (ofFn n n A) with
      | ub => rw [hc] at h; exact h.elim
      | exn e => rw [hc] at h; exact h.elim
      | ret s => exact ⟨s, rfl⟩
    exact ⟨key _, key _⟩

/-! ## The hypotheses are met -/

example : Valid exA := ⟨rfl, Or.inr (by decide)⟩
example : (new (1 / 1000 : ℚ) exA >>= fun s => s.solve [6, 8]) = .ret [2, 3] := by decide +kernel
example : (new (1 / 1000 : ℚ) exA >>= fun s => s.det) = .ret (-8) := by decide +kernel
example : (new (1 / 1000 : ℚ) exA >>= fun s => s.inverse ⟨0, 0, []⟩) = .ret ⟨2, 2, [0, 1 / 4, 1 / 2, 0]⟩ := by
  decide +kernel
example : (newInPlace (1 / 1000 : ℚ) exA >>= fun s => s.solveMNew ⟨2, 1, [6, 8]⟩) = .ret ⟨2, 1, [2, 3]⟩ := by
  decide +kernel
example : (new (1 / 1000 : ℚ) ⟨3, 3, [0, 2, 1, 4, 0, 1, 1, 1, 1]⟩ >>= fun s => s.solve [7, 7, 6]) = .ret [1, 2, 3] := by
  decide +kernel
example : WellConditioned (1 / 1000 : ℚ) 2 (fun i j => if i = j then 0 else 2) (fun i j => if i = j then 0 else 1 / 2)
    2 2 := by
  refine ⟨?_, by norm_num, ?_, ?_, ?_⟩
  · intro r hr c hc
    interval_cases r <;> interval_cases c <;> simp [Finset.sum_range_succ, δ]
  · intro r hr c hc
    beta_reduce; split <;> simp
  · intro r hr
    refine ⟨1 - r, by omega, ?_⟩
    beta_reduce
    rw [if_neg (by omega)]
    norm_num
  · intro j hj
    interval_cases j <;> norm_num [Finset.sum_range_succ]

end Verif.LinAlg.LU
