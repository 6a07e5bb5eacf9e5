import Verif.GraphAlg.EigenCentrality
import Mathlib.Tactic

/-!
# Property C152: `EigenvectorCentrality`

`A` is the adjacency matrix the graph hands out.  A power step sends `c` to `A c` divided by its Euclidean norm.
-/

set_option autoImplicit false

namespace Verif.Graph.EigenC

variable {V : Type}

/-- Matrix times vector (specification). -/
noncomputable def mulV (n : ℕ) (A : ℕ → ℕ → ℝ) (c : ℕ → ℝ) (i : ℕ) : ℝ := ∑ j ∈ Finset.range n, A i j * c j

/-- `c'` is the direction of `A c`: `A c` is a nonnegative multiple of `c'`, which has norm 1, or both are zero. -/
def PowerStep (n : ℕ) (A : ℕ → ℕ → ℝ) (c c' : ℕ → ℝ) : Prop :=
  ∃ s : ℝ, 0 ≤ s ∧ (∀ i < n, mulV n A c i = s * c' i) ∧
    ((∑ i ∈ Finset.range n, c' i ^ 2) = 1 ∨ ∀ i < n, c' i = 0 ∧ mulV n A c i = 0)

theorem entry_eq {g : Graph V ℝ} (hg : g.WF) {i : ℕ} (hi : i < g.numVertices) (j : ℕ) :
    g.adjacencyMatrix i j = .ret (entry g i j) := by
  have : i < g.adjList.length := by rw [hg.len]; exact hi
  simp [Graph.adjacencyMatrix, Outcome.index, entry, Graph.nbrs, this]

theorem apply_eq {g : Graph V ℝ} (hg : g.WF) {A : ℕ → ℕ → ℝ}
    (hA : ∀ i < g.numVertices, ∀ j < g.numVertices, g.adjacencyMatrix i j = .ret (A i j)) (c : ℕ → ℝ) {i : ℕ}
    (hi : i < g.numVertices) : apply g c i = mulV g.numVertices A c i := by
  unfold apply mulV
  refine Finset.sum_congr rfl fun j hj => ?_
  have := hA i hi j (Finset.mem_range.1 hj)
  rw [entry_eq hg hi, Outcome.ret.injEq] at this
  rw [this]

theorem norm_sq (n : ℕ) (x : ℕ → ℝ) : norm n x ^ 2 = ∑ i ∈ Finset.range n, x i ^ 2 := by
  unfold norm
  rw [Real.sq_sqrt (Finset.sum_nonneg fun i _ => mul_self_nonneg _)]
  exact Finset.sum_congr rfl fun i _ => by ring

theorem next_step {g : Graph V ℝ} (hg : g.WF) {A : ℕ → ℕ → ℝ}
    (hA : ∀ i < g.numVertices, ∀ j < g.numVertices, g.adjacencyMatrix i j = .ret (A i j)) (c : ℕ → ℝ) :
    PowerStep g.numVertices A c (next g c) := by
  have hsq := norm_sq g.numVertices (apply g c)
  by_cases h : norm g.numVertices (apply g c) > 0
  · refine ⟨norm g.numVertices (apply g c), h.le, fun i hi => ?_, Or.inl ?_⟩
    · rw [next, if_pos h, ← apply_eq hg hA c hi]
      field_simp
    · rw [next, if_pos h]
      simp only [div_pow]
      rw [← Finset.sum_div, ← hsq, div_self (by positivity)]
  · have h0 : norm g.numVertices (apply g c) = 0 := le_antisymm (not_lt.1 h) (Real.sqrt_nonneg _)
    rw [h0, zero_pow two_ne_zero] at hsq
    have hz : ∀ i < g.numVertices, apply g c i = 0 := fun i hi => by
      have := (Finset.sum_eq_zero_iff_of_nonneg fun i _ => sq_nonneg (apply g c i)).1 hsq.symm i
        (Finset.mem_range.2 hi)
      exact pow_eq_zero_iff two_ne_zero |>.1 this
    refine ⟨0, le_refl _, fun i hi => ?_, Or.inr fun i hi => ?_⟩
    · rw [← apply_eq hg hA c hi, hz i hi, zero_mul]
    · rw [next, if_neg h, ← apply_eq hg hA c hi, hz i hi]
      exact ⟨rfl, rfl⟩

theorem next_nonneg {g : Graph V ℝ} (hg : g.WF) {A : ℕ → ℕ → ℝ}
    (hA : ∀ i < g.numVertices, ∀ j < g.numVertices, g.adjacencyMatrix i j = .ret (A i j))
    (hpos : ∀ i < g.numVertices, ∀ j < g.numVertices, 0 ≤ A i j) {c : ℕ → ℝ}
    (hc : ∀ i < g.numVertices, 0 ≤ c i) : ∀ i < g.numVertices, 0 ≤ next g c i := by
  intro i hi
  have : 0 ≤ apply g c i := by
    rw [apply_eq hg hA c hi]
    exact Finset.sum_nonneg fun j hj =>
      mul_nonneg (hpos i hi j (Finset.mem_range.1 hj)) (hc j (Finset.mem_range.1 hj))
  unfold next
  split_ifs with h
  · exact div_nonneg this h.le
  · exact this

/-- What the loop returns: the last of a chain of power steps. -/
theorem loop_eq (g : Graph V ℝ) (tol : ℝ) (k : ℕ) (c : ℕ → ℝ) :
    ∃ (m : ℕ) (it : ℕ → ℕ → ℝ), m ≤ k ∧ it 0 = c ∧ loop g tol k c = it m ∧
      (∀ j < m, it (j + 1) = next g (it j)) ∧
      (m = k ∨ ∃ j, m = j + 1 ∧ ∑ u ∈ Finset.range g.numVertices, |it (j + 1) u - it j u| < tol) := by
  induction k generalizing c with
  | zero => exact ⟨0, fun _ => c, le_refl _, rfl, rfl, fun j hj => absurd hj (by omega), Or.inl rfl⟩
  | succ k ih =>
    rw [loop]
    by_cases h : (∑ i ∈ Finset.range g.numVertices, |next g c i - c i|) < tol
    · rw [if_pos h]
      refine ⟨1, fun j => if j = 0 then c else next g c, by omega, rfl, rfl, ?_, Or.inr ⟨0, rfl, ?_⟩⟩
      · intro j hj
        obtain rfl : j = 0 := by omega
        rfl
      · simpa using h
    · rw [if_neg h]
      obtain ⟨m, it, hm, h0, hr, hst, hex⟩ := ih (next g c)
      refine ⟨m + 1, fun j => if j = 0 then c else it (j - 1), by omega, rfl, by simpa using hr, ?_, ?_⟩
      · intro j hj
        rcases j with _ | j
        · simp [h0]
        · simpa using hst j (by omega)
      · rcases hex with h | ⟨j, h, h'⟩
        · exact Or.inl (by omega)
        · exact Or.inr ⟨j + 1, by omega, by simpa using h'⟩

theorem uniform_norm {n : ℕ} (hn : 0 < n) : ∑ _i ∈ Finset.range n, (1 / Real.sqrt (n : ℝ)) ^ 2 = 1 := by
  have : (0 : ℝ) < n := by exact_mod_cast hn
  rw [Finset.sum_const, Finset.card_range, nsmul_eq_mul, div_pow, one_pow, Real.sq_sqrt this.le]
  field_simp

/-- **C152 (partial).** For every graph, iteration limit and tolerance `EigenvectorCentrality` returns one number per vertex: the
last of a chain of power steps from the uniform unit vector.  Its Euclidean norm is 1 or it is the zero vector, and it
has no negative entry if no edge weight is negative.  When it stopped on the tolerance, it is close to an eigenvector:
`A r - λ r` has 1-norm at most the tolerance times any bound `M` on the absolute column sums of `A`.  Missing, and
false for the code: that the result is normalised (`eigenvectorCentrality_zero`) and that a large enough limit
brings it close to an eigenvector (`eigenvectorCentrality_oscillates`). -/
theorem eigenvectorCentrality_partial {g : Graph V ℝ} (hg : g.WF) (hn : 0 < g.numVertices) {A : ℕ → ℕ → ℝ}
    (hA : ∀ i < g.numVertices, ∀ j < g.numVertices, g.adjacencyMatrix i j = .ret (A i j))
    (maxIterations : ℕ) (tol : ℝ) :
    ∃ (m : ℕ) (it : ℕ → ℕ → ℝ),
      eigenvectorCentrality g maxIterations tol = (List.range g.numVertices).map (it m) ∧ m ≤ maxIterations ∧
      (∀ i < g.numVertices, it 0 i = 1 / Real.sqrt g.numVertices) ∧
      (∀ j < m, PowerStep g.numVertices A (it j) (it (j + 1))) ∧
      ((∑ i ∈ Finset.range g.numVertices, it m i ^ 2) = 1 ∨ ∀ i < g.numVertices, it m i = 0) ∧
      ((∀ i < g.numVertices, ∀ j < g.numVertices, 0 ≤ A i j) → ∀ i < g.numVertices, 0 ≤ it m i) ∧
      (m = maxIterations ∨ ∀ M, (∀ j < g.numVertices, ∑ i ∈ Finset.range g.numVertices, |A i j| ≤ M) →
        ∃ lam ≥ 0, ∑ i ∈ Finset.range g.numVertices, |mulV g.numVertices A (it m) i - lam * it m i| ≤ M * tol) := by
  obtain ⟨m, it, hm, h0, hr, hst, hex⟩ := loop_eq g tol maxIterations (fun _ => 1 / Real.sqrt (g.numVertices : ℝ))
  have hps : ∀ j < m, PowerStep g.numVertices A (it j) (it (j + 1)) := fun j hj => by
    rw [hst j hj]; exact next_step hg hA (it j)
  refine ⟨m, it, ?_, hm, fun i _ => by rw [h0], hps, ?_, ?_, ?_⟩
  · rw [eigenvectorCentrality, if_neg (by omega), hr]
  · rcases m with _ | m
    · rw [h0]; exact Or.inl (uniform_norm hn)
    · obtain ⟨s, -, -, h⟩ := hps m (by omega)
      exact h.imp id fun h i hi => (h i hi).1
  · intro hpos
    have : ∀ j ≤ m, ∀ i < g.numVertices, 0 ≤ it j i := by
      intro j
      induction j with
      | zero => intro _ i _; rw [h0]; positivity
      | succ j ih =>
        intro hj
        rw [hst j (by omega)]
        exact next_nonneg hg hA hpos (ih (by omega))
    exact this m (le_refl _)
  · rcases hex with h | ⟨j, rfl, ht⟩
    · exact Or.inl h
    · right
      intro M hM
      obtain ⟨s, hs, hmul, -⟩ := hps j (by omega)
      refine ⟨s, hs, ?_⟩
      have hM0 : 0 ≤ M := (Finset.sum_nonneg fun i _ => abs_nonneg _).trans (hM 0 hn)
      have h1 : ∀ i ∈ Finset.range g.numVertices, |mulV g.numVertices A (it (j + 1)) i - s * it (j + 1) i| ≤
          ∑ v ∈ Finset.range g.numVertices, |A i v| * |it (j + 1) v - it j v| := by
        intro i hi
        rw [← hmul i (Finset.mem_range.1 hi)]
        unfold mulV
        rw [← Finset.sum_sub_distrib]
        refine (Finset.abs_sum_le_sum_abs _ _).trans (Finset.sum_le_sum fun v _ => ?_)
        rw [← mul_sub, abs_mul]
      refine (Finset.sum_le_sum h1).trans ?_
      rw [Finset.sum_comm]
      have h2 : ∀ v ∈ Finset.range g.numVertices, ∑ i ∈ Finset.range g.numVertices, |A i v| * |it (j + 1) v - it j v| ≤
          M * |it (j + 1) v - it j v| := by
        intro v hv
        rw [← Finset.sum_mul]
        exact mul_le_mul_of_nonneg_right (hM v (Finset.mem_range.1 hv)) (abs_nonneg _)
      refine (Finset.sum_le_sum h2).trans ?_
      rw [← Finset.mul_sum]
      exact mul_le_mul_of_nonneg_left ht.le hM0

/-- **C152 (disagreement).** For a graph without edges the result of at least one iteration is the zero vector, not a vector
of norm 1. -/
theorem eigenvectorCentrality_zero (n k : ℕ) (tol : ℝ) :
    eigenvectorCentrality (reached id .undirected false n [] : Graph ℕ ℝ) (k + 1) tol = List.replicate n 0 := by
  set g : Graph ℕ ℝ := reached id .undirected false n [] with hgd
  have hN : g.numVertices = n := by simp [hgd, reached, Graph.run, Graph.ofSize, Graph.numVertices]
  have hnb : ∀ i, g.nbrs i = [] := by
    intro i
    simp only [hgd, reached, Graph.run, Graph.ofSize, Graph.nbrs, List.getElem?_replicate]
    split_ifs <;> rfl
  have hap : ∀ c, apply g c = fun _ => 0 := by
    intro c
    funext i
    simp [apply, entry, hnb, fillRow]
  have hnx : ∀ c, next g c = fun _ => 0 := by
    intro c
    rw [next, if_neg (by simp [hap, norm]), hap]
  have hloop : ∀ k, loop g tol k (fun _ => 0) = fun _ => 0 := by
    intro k
    induction k with
    | zero => rfl
    | succ k ih => rw [loop, hnx, ih, ite_self]
  have : loop g tol (k + 1) (fun _ => 1 / Real.sqrt (g.numVertices : ℝ)) = fun _ => 0 := by
    rw [loop, hnx, hloop, ite_self]
  unfold eigenvectorCentrality
  rw [this]
  by_cases h0 : g.numVertices = 0
  · rw [if_pos h0]
    rw [hN] at h0
    simp [h0]
  · rw [if_neg h0, hN]
    simp

/-- The path with three vertices and unit weights; vertex 1 is in the middle. -/
noncomputable def path3 : Graph ℕ ℝ := reached id .undirected false 3 [.addEdge 0 1 1, .addEdge 1 2 1]

theorem path3_data : path3.numVertices = 3 ∧ path3.nbrs 0 = [⟨1, 1⟩] ∧ path3.nbrs 1 = [⟨0, 1⟩, ⟨2, 1⟩] ∧
    path3.nbrs 2 = [⟨1, 1⟩] := by
  refine ⟨rfl, rfl, rfl, rfl⟩

theorem path3_apply (c : ℕ → ℝ) :
    apply path3 c 0 = c 1 ∧ apply path3 c 1 = c 0 + c 2 ∧ apply path3 c 2 = c 1 := by
  obtain ⟨h, h0, h1, h2⟩ := path3_data
  refine ⟨?_, ?_, ?_⟩ <;>
    simp [apply, entry, fillRow, h, h0, h1, h2, Finset.sum_range_succ, Function.update_apply]

theorem path3_next (c : ℕ → ℝ) (hc : 0 < c 1) :
    let s := Real.sqrt (c 1 * c 1 + (c 0 + c 2) * (c 0 + c 2) + c 1 * c 1)
    0 < s ∧ next path3 c 0 = c 1 / s ∧ next path3 c 1 = (c 0 + c 2) / s ∧ next path3 c 2 = c 1 / s := by
  intro s
  obtain ⟨a0, a1, a2⟩ := path3_apply c
  have hn : norm path3.numVertices (apply path3 c) = s := by
    simp [norm, path3_data.1, Finset.sum_range_succ, a0, a1, a2, s]
  have hs : 0 < s := Real.sqrt_pos.2 (by nlinarith [mul_pos hc hc, mul_self_nonneg (c 0 + c 2)])
  refine ⟨hs, ?_, ?_, ?_⟩ <;> simp only [next, hn, hs, gt_iff_lt, if_true, a0, a1, a2]

/-- **C152 (disagreement).** On the path with three vertices the iteration alternates between two vectors and never settles:
for every even iteration limit (the default is 100) and every tolerance up to 1/10 all three centralities are equal,
although the uniform vector is not an eigenvector of the adjacency matrix and the middle vertex is the central one. -/
theorem eigenvectorCentrality_oscillates (k : ℕ) (tol : ℝ) (ht : tol ≤ 1 / 10) :
    eigenvectorCentrality path3 (2 * k) tol = [1 / Real.sqrt 3, 1 / Real.sqrt 3, 1 / Real.sqrt 3] ∧
    ¬ ∃ lam : ℝ, ∀ i < 3, apply path3 (fun _ => 1 / Real.sqrt 3) i = lam * (1 / Real.sqrt 3) := by
  set a : ℝ := 1 / Real.sqrt 3 with ha
  have h3 : (0 : ℝ) < Real.sqrt 3 := Real.sqrt_pos.2 (by norm_num)
  have ha0 : 0 < a := by positivity
  have haa : a * a = 1 / 3 := by
    rw [ha, div_mul_div_comm, Real.mul_self_sqrt (by norm_num)]; norm_num
  have hhalf : (1 / 2 : ℝ) < a := by nlinarith
  set q : ℝ := Real.sqrt 2 with hq
  have hqq : q * q = 2 := Real.mul_self_sqrt (by norm_num)
  have hq0 : 0 < q := Real.sqrt_pos.2 (by norm_num)
  have hq1 : (7 / 5 : ℝ) < q := by nlinarith
  constructor
  · -- two rounds from any vector equal to the uniform one on the three vertices
    have key : ∀ k (c : ℕ → ℝ), c 0 = a → c 1 = a → c 2 = a →
        loop path3 tol (2 * k) c 0 = a ∧ loop path3 tol (2 * k) c 1 = a ∧ loop path3 tol (2 * k) c 2 = a := by
      intro k
      induction k with
      | zero => intro c h0 h1 h2; exact ⟨h0, h1, h2⟩
      | succ k ih =>
        intro c h0 h1 h2
        obtain ⟨_, n0, n1, n2⟩ := path3_next c (by rw [h1]; exact ha0)
        have hs : Real.sqrt (c 1 * c 1 + (c 0 + c 2) * (c 0 + c 2) + c 1 * c 1) = q := by
          rw [h0, h1, h2, hq]; congr 1; nlinarith
        rw [hs, h1] at n0 n2
        rw [hs, h0, h2] at n1
        have hd1 : 0 < next path3 c 1 := by rw [n1]; positivity
        obtain ⟨_, m0, m1, m2⟩ := path3_next (next path3 c) hd1
        have e1 : (a + a) / q = q * a := by field_simp; nlinarith
        have e2 : a / q + a / q = q * a := by rw [← e1]; ring
        have hs' : Real.sqrt (next path3 c 1 * next path3 c 1 + (next path3 c 0 + next path3 c 2) *
            (next path3 c 0 + next path3 c 2) + next path3 c 1 * next path3 c 1) = q := by
          rw [n0, n1, n2, e1, e2, hq]; congr 1; rw [← hq]
          have : q * a * (q * a) = (q * q) * (a * a) := by ring
          rw [this, hqq, haa]; norm_num
        have e3 : q * a / q = a := by field_simp
        rw [hs', n1, e1, e3] at m0 m2
        rw [hs', n0, n2, e2, e3] at m1
        have hbig : (1 / 10 : ℝ) ≤ |next path3 c 1 - a| := by
          rw [n1, e1]
          refine le_trans ?_ (le_abs_self _)
          nlinarith
        have ne1 : ¬ (∑ i ∈ Finset.range path3.numVertices, |next path3 c i - c i|) < tol := by
          rw [path3_data.1, not_lt]
          refine (ht.trans hbig).trans ?_
          have := Finset.single_le_sum (f := fun i => |next path3 c i - c i|) (s := Finset.range 3)
            (fun i _ => abs_nonneg _) (Finset.mem_range.2 (show 1 < 3 by norm_num))
          simpa only [h1] using this
        have ne2 : ¬ (∑ i ∈ Finset.range path3.numVertices, |next path3 (next path3 c) i - next path3 c i|) < tol := by
          rw [path3_data.1, not_lt]
          refine (ht.trans hbig).trans ?_
          have := Finset.single_le_sum (f := fun i => |next path3 (next path3 c) i - next path3 c i|)
            (s := Finset.range 3) (fun i _ => abs_nonneg _) (Finset.mem_range.2 (show 1 < 3 by norm_num))
          simp only [m1] at this
          rwa [abs_sub_comm] at this
        rw [show 2 * (k + 1) = (2 * k + 1) + 1 by ring, loop, if_neg ne1, loop, if_neg ne2]
        exact ih _ m0 m1 m2
    obtain ⟨r0, r1, r2⟩ := key k (fun _ => 1 / Real.sqrt ((3 : ℕ) : ℝ)) (by simp [ha]) (by simp [ha]) (by simp [ha])
    rw [eigenvectorCentrality, path3_data.1, if_neg (by norm_num)]
    show [_, _, _] = _
    rw [r0, r1, r2]
  · rintro ⟨lam, h⟩
    obtain ⟨a0, a1, -⟩ := path3_apply (fun _ => a)
    have h0 := h 0 (by norm_num)
    have h1 := h 1 (by norm_num)
    rw [a0] at h0
    rw [a1] at h1
    linarith

/-! ## Non-vacuity: the hypotheses of `eigenvectorCentrality_partial` hold for the path with `A` its adjacency matrix. -/

example : path3.WF ∧ 0 < path3.numVertices ∧ ∀ i < path3.numVertices, ∀ j < path3.numVertices,
    path3.adjacencyMatrix i j = .ret (entry path3 i j) :=
  ⟨reached_wf _ _ _ _ _, by rw [path3_data.1]; norm_num, fun _ hi j _ => entry_eq (reached_wf _ _ _ _ _) hi j⟩

end Verif.Graph.EigenC
