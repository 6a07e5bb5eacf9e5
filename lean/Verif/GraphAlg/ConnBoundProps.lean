import Verif.GraphAlg.ConnBound
import Verif.GraphAlg.MeasuresProps
import Mathlib.Analysis.Complex.Trigonometric
import Mathlib.Analysis.Real.Pi.Bounds
import Mathlib.Tactic

/-!
# Property C151: `AlgebraicConnectivityBound`

The algebraic connectivity, the second smallest eigenvalue of the Laplacian of an undirected graph, is the least
value of `½ Σ (x u - x v)²` over the edges (both directions) divided by `Σ (x u)²`, over the vectors `x ≠ 0` with
sum zero.  A number is a lower bound for it when it is a lower bound for all these quotients.
-/

set_option autoImplicit false

namespace Verif.Graph.Conn

open Verif.Graph.Measure

variable {V E : Type}

open Classical in
/-- The quadratic form of the Laplacian. -/
noncomputable def form (g : Graph V E) (x : ℕ → ℝ) : ℝ :=
  1 / 2 * ∑ u ∈ Finset.range g.numVertices, ∑ v ∈ Finset.range g.numVertices,
    if Adj g u v then (x u - x v) ^ 2 else 0

/-- `b` is a lower bound on the algebraic connectivity. -/
def IsLowerBound (g : Graph V E) (b : ℝ) : Prop :=
  ∀ x : ℕ → ℝ, ∑ u ∈ Finset.range g.numVertices, x u = 0 →
    b * ∑ u ∈ Finset.range g.numVertices, x u ^ 2 ≤ form g x

theorem form_nonneg (g : Graph V E) (x : ℕ → ℝ) : 0 ≤ form g x := by
  unfold form
  refine mul_nonneg (by norm_num) (Finset.sum_nonneg fun u _ => Finset.sum_nonneg fun v _ => ?_)
  split_ifs
  · exact sq_nonneg _
  · exact le_refl _

theorem foldl_min (f : ℕ → ℕ) (l : List ℕ) (m : WithTop ℕ) :
    let r := l.foldl (fun m v => if ((f v : ℕ) : WithTop ℕ) < m then ((f v : ℕ) : WithTop ℕ) else m) m
    r ≤ m ∧ (∀ v ∈ l, r ≤ (f v : WithTop ℕ)) ∧ (r = m ∨ ∃ v ∈ l, r = (f v : WithTop ℕ)) := by
  induction l generalizing m with
  | nil => simp
  | cons a l ih =>
    intro r
    obtain ⟨h1, h2, h3⟩ := ih (if ((f a : ℕ) : WithTop ℕ) < m then ((f a : ℕ) : WithTop ℕ) else m)
    have ha : (if ((f a : ℕ) : WithTop ℕ) < m then ((f a : ℕ) : WithTop ℕ) else m) ≤ m ∧
        (if ((f a : ℕ) : WithTop ℕ) < m then ((f a : ℕ) : WithTop ℕ) else m) ≤ (f a : WithTop ℕ) := by
      split_ifs with h
      · exact ⟨h.le, le_refl _⟩
      · exact ⟨le_refl _, not_lt.1 h⟩
    refine ⟨h1.trans ha.1, ?_, ?_⟩
    · intro v hv
      rcases List.mem_cons.1 hv with rfl | hv
      · exact h1.trans ha.2
      · exact h2 v hv
    · rcases h3 with h3 | ⟨v, hv, h3⟩
      · by_cases h : ((f a : ℕ) : WithTop ℕ) < m
        · exact Or.inr ⟨a, by simp, h3.trans (if_pos h)⟩
        · exact Or.inl (h3.trans (if_neg h))
      · exact Or.inr ⟨v, List.mem_cons_of_mem _ hv, h3⟩

theorem minDegree_eq {g : Graph V E} (hg : g.WF) (hn : 0 < g.numVertices) :
    ∃ d : ℕ, minDegree g = some d ∧ (∀ v < g.numVertices, d ≤ (nbrSet g v).card) ∧
      ∃ v < g.numVertices, d = (nbrSet g v).card := by
  obtain ⟨_, h2, h3⟩ := foldl_min (fun v => (g.nbrs v).length) (List.range g.numVertices) ⊤
  have hatt : ∃ v < g.numVertices, minDegree g = ((g.nbrs v).length : WithTop ℕ) := by
    rcases h3 with h | ⟨v, hv, h⟩
    · have := h2 0 (List.mem_range.2 hn)
      rw [h] at this
      exact absurd this (by simp)
    · exact ⟨v, List.mem_range.1 hv, h⟩
  obtain ⟨v, hv, he⟩ := hatt
  refine ⟨(g.nbrs v).length, he, fun u hu => ?_, v, hv, (nbrSet_card hg v).symm⟩
  have : minDegree g ≤ ((g.nbrs u).length : WithTop ℕ) := h2 u (List.mem_range.2 hu)
  rw [he] at this
  rw [nbrSet_card hg]
  exact_mod_cast this

/-- **C151 (partial).** For every undirected graph the function returns a number that is not negative.  It is 0 for a graph of at
most one vertex and for a disconnected graph, and then it is a lower bound on the algebraic connectivity; for a
connected graph it is `2 (1 - cos (π / n))` times the least degree.  That this is a lower bound in general is false,
see `connBound_not_lower`; `connBound_complete_partial` proves it for complete graphs. -/
theorem connBound_partial {g : Graph V E} (hg : g.WF) (hs : g.Symm) :
    ∃ b, connBound g = .ret b ∧ 0 ≤ b ∧
      ((g.numVertices ≤ 1 ∨ ∃ u < g.numVertices, ∃ v < g.numVertices, ¬ Reach g u v) →
        b = 0 ∧ IsLowerBound g b) ∧
      (1 < g.numVertices → (∀ u < g.numVertices, ∀ v < g.numVertices, Reach g u v) →
        ∃ d : ℕ, (∀ v < g.numVertices, d ≤ (nbrSet g v).card) ∧
          (∃ v < g.numVertices, d = (nbrSet g v).card) ∧
          b = 2 * (1 - Real.cos (Real.pi / g.numVertices)) * d) := by
  have hzero : IsLowerBound g 0 := fun x _ => by rw [zero_mul]; exact form_nonneg g x
  unfold connBound
  by_cases hn : g.numVertices ≤ 1
  · rw [if_pos hn]
    exact ⟨0, rfl, le_refl _, fun _ => ⟨rfl, hzero⟩, fun h => absurd h (by omega)⟩
  rw [if_neg hn]
  obtain ⟨c, hc, _, hid, hlab, hsurj, _⟩ := connectedComponents_correct hg hs
  rw [hc]
  simp only
  by_cases hm : 1 < c.numComponents
  · rw [if_pos hm]
    refine ⟨0, rfl, le_refl _, fun _ => ⟨rfl, hzero⟩, fun _ hall => ?_⟩
    obtain ⟨u, hu, hu'⟩ := hsurj 0 (by omega)
    obtain ⟨v, hv, hv'⟩ := hsurj 1 hm
    have := (hid u v hu hv).2 (hall u hu v hv)
    rw [hu', hv'] at this
    simp at this
  · rw [if_neg hm]
    obtain ⟨d, hd, h1, h2⟩ := minDegree_eq hg (by omega : 0 < g.numVertices)
    rw [hd]
    have hform : (if 0 < d then 2 * (1 - Real.cos (Real.pi / g.numVertices)) * (d : ℝ) else 0) =
        2 * (1 - Real.cos (Real.pi / g.numVertices)) * d := by
      by_cases h : 0 < d
      · rw [if_pos h]
      · rw [if_neg h, show d = 0 by omega]; simp
    refine ⟨2 * (1 - Real.cos (Real.pi / g.numVertices)) * d, by simp only [hform], ?_, ?_, fun _ _ => ⟨d, h1, h2, rfl⟩⟩
    · have := Real.cos_le_one (Real.pi / g.numVertices)
      exact mul_nonneg (by linarith) (by positivity)
    · rintro (h | ⟨u, hu, v, hv, h⟩)
      · exact absurd h hn
      · exfalso
        apply h
        rw [← hid u v hu hv]
        obtain ⟨a, ha, ha'⟩ := hlab u hu
        obtain ⟨b, hb, hb'⟩ := hlab v hv
        rw [ha', hb', show a = b by omega]

/-- **C151 (partial).** For a complete graph without self loops the returned number is a lower bound on the algebraic
connectivity (which is `n`). -/
theorem connBound_complete_partial {g : Graph V E} (hg : g.WF) (hs : g.Symm) (hn : 1 < g.numVertices)
    (hK : ∀ u < g.numVertices, ∀ v < g.numVertices, (Adj g u v ↔ u ≠ v)) :
    ∃ b, connBound g = .ret b ∧ 0 < b ∧ IsLowerBound g b := by
  classical
  obtain ⟨b, hb, _, _, hconn⟩ := connBound_partial hg hs
  have hreach : ∀ u < g.numVertices, ∀ v < g.numVertices, Reach g u v := by
    intro u hu v hv
    by_cases h : u = v
    · subst h; exact ⟨0, Walk.nil hu⟩
    · exact ⟨1, (Walk.nil hu).snoc ((hK u hu v hv).2 h)⟩
  obtain ⟨d, -, ⟨w, hw, hdw⟩, rfl⟩ := hconn hn hreach
  have hd : d = g.numVertices - 1 := by
    rw [hdw]
    have : nbrSet g w = (Finset.range g.numVertices).erase w := by
      ext u
      rw [nbrSet, Finset.mem_filter, Finset.mem_erase, Finset.mem_range]
      constructor
      · rintro ⟨h1, h2⟩; exact ⟨((hK w hw u h1).1 h2).symm, h1⟩
      · rintro ⟨h1, h2⟩; exact ⟨h2, (hK w hw u h2).2 h1.symm⟩
    rw [this, Finset.card_erase_of_mem (Finset.mem_range.2 hw), Finset.card_range]
  set n := g.numVertices with hN
  have hdr : (d : ℝ) = (n : ℝ) - 1 := by rw [hd, Nat.cast_sub (by omega), Nat.cast_one]
  have hn2 : (2 : ℝ) ≤ n := by exact_mod_cast hn
  have hform : ∀ x : ℕ → ℝ, ∑ u ∈ Finset.range n, x u = 0 → form g x = n * ∑ u ∈ Finset.range n, x u ^ 2 := by
    intro x hx
    have : ∀ u ∈ Finset.range n, ∀ v ∈ Finset.range n,
        (if Adj g u v then (x u - x v) ^ 2 else 0) = x u ^ 2 - 2 * x u * x v + x v ^ 2 := by
      intro u hu v hv
      by_cases h : u = v
      · subst h
        rw [if_neg (fun h => (hK u (Finset.mem_range.1 hu) u (Finset.mem_range.1 hu)).1 h rfl)]
        ring
      · rw [if_pos ((hK u (Finset.mem_range.1 hu) v (Finset.mem_range.1 hv)).2 h)]
        ring
    unfold form
    rw [← hN, Finset.sum_congr rfl fun u hu => Finset.sum_congr rfl (this u hu)]
    simp only [Finset.sum_add_distrib, Finset.sum_sub_distrib, ← Finset.mul_sum, hx, mul_zero, Finset.sum_const,
      Finset.card_range, nsmul_eq_mul, Finset.sum_const_zero]
    ring
  have hbound : 2 * (1 - Real.cos (Real.pi / n)) * d ≤ n := by
    rw [hdr]
    by_cases h2 : n = 2
    · rw [h2]
      have : Real.cos (Real.pi / ((2 : ℕ) : ℝ)) = 0 := by
        rw [Nat.cast_ofNat]; exact Real.cos_pi_div_two
      rw [this]; norm_num
    · have h3 : (3 : ℝ) ≤ n := by exact_mod_cast (show 3 ≤ n by omega)
      have hc := Real.one_sub_sq_div_two_le_cos (x := Real.pi / n)
      have hpos : (0 : ℝ) < n := by linarith
      have hpi : Real.pi < 3.15 := Real.pi_lt_d2
      have hpi0 := Real.pi_pos
      have h1 : 2 * (1 - Real.cos (Real.pi / n)) ≤ (Real.pi / n) ^ 2 := by linarith
      refine (mul_le_mul_of_nonneg_right h1 (by linarith)).trans ?_
      rw [div_pow, div_mul_eq_mul_div, div_le_iff₀ (by positivity)]
      have hsq : Real.pi ^ 2 ≤ 10 := by nlinarith
      have : Real.pi ^ 2 * ((n : ℝ) - 1) ≤ 10 * ((n : ℝ) - 1) :=
        mul_le_mul_of_nonneg_right hsq (by linarith)
      nlinarith [mul_nonneg (show (0:ℝ) ≤ n - 3 by linarith) (show (0:ℝ) ≤ n - 3 by linarith),
        mul_nonneg (mul_nonneg (show (0:ℝ) ≤ n - 3 by linarith) (show (0:ℝ) ≤ n - 3 by linarith)) hpos.le]
  refine ⟨_, hb, ?_, fun x hx => ?_⟩
  · have hcos : Real.cos (Real.pi / n) < 1 := by
      have h0 : 0 < Real.pi / n := by positivity
      have h1 : Real.pi / n ≤ Real.pi := by
        rw [div_le_iff₀ (by linarith)]
        nlinarith [Real.pi_pos]
      rw [← Real.cos_zero]
      exact Real.cos_lt_cos_of_nonneg_of_le_pi (le_refl _) h1 h0
    have : (0 : ℝ) < d := by rw [hdr]; linarith
    exact mul_pos (by linarith) this
  · rw [hform x hx]
    exact mul_le_mul_of_nonneg_right hbound (Finset.sum_nonneg fun _ _ => sq_nonneg _)

/-- Two complete graphs on six vertices each, joined by one edge. -/
def barbell : Graph Nat Int :=
  reached id .undirected false 12
    (.addEdge 5 6 1 :: ((List.range 12).flatMap fun u => ((List.range 12).filter fun v =>
      decide (u < v ∧ (v < 6 ∨ 6 ≤ u))).map fun v => .addEdge u v 1))

theorem cos_num : (4 : ℝ) < 2 * (1 - Real.cos (Real.pi / 12)) * 5 * 12 := by
  have hpi := Real.pi_gt_d2
  have hpi' := Real.pi_lt_d2
  have hcb := Real.cos_bound (x := Real.pi / 12) (by rw [abs_of_pos (by positivity)]; linarith)
  rw [abs_of_pos (show 0 < Real.pi / 12 by positivity)] at hcb
  have h1 := (abs_le.1 hcb).2
  have hx2 : (0.0684 : ℝ) ≤ (Real.pi / 12) ^ 2 := by nlinarith
  have hx2' : (Real.pi / 12) ^ 2 ≤ 0.069 := by nlinarith
  have hx4 : (Real.pi / 12) ^ 4 ≤ 0.00477 := by
    have : (Real.pi / 12) ^ 4 = ((Real.pi / 12) ^ 2) ^ 2 := by ring
    rw [this]; nlinarith [sq_nonneg (Real.pi / 12)]
  linarith

/-- **C151 (disagreement).** `AlgebraicConnectivityBound` is not a lower bound on the algebraic connectivity: for two complete
graphs on six vertices joined by an edge it exceeds it (the bound with the least degree in place of the edge
connectivity is false). -/
theorem connBound_not_lower : ∃ b, connBound barbell = .ret b ∧ ¬ IsLowerBound barbell b := by
  classical
  have hN : barbell.numVertices = 12 := by decide +kernel
  have hcc : (connectedComponents barbell).map (fun c => c.numComponents) = some 1 := by decide +kernel
  have hmd : minDegree barbell = ((5 : ℕ) : WithTop ℕ) := by decide +kernel
  obtain ⟨c, hc, hc1⟩ := Option.map_eq_some_iff.1 hcc
  refine ⟨2 * (1 - Real.cos (Real.pi / 12)) * 5, ?_, fun hlb => ?_⟩
  · unfold connBound
    rw [hN, if_neg (by norm_num), hc]
    simp only
    rw [hc1, if_neg (by norm_num), hmd]
    show Outcome.ret (if 0 < 5 then _ else _) = _
    rw [if_pos (by norm_num)]
    norm_num
  · have h := hlb (fun u => if u < 6 then 1 else -1) (by rw [hN]; norm_num [Finset.sum_range_succ])
    have hq : ∑ u ∈ Finset.range 12, (if u < 6 then (1 : ℝ) else -1) ^ 2 = 12 := by
      norm_num [Finset.sum_range_succ]
    have hcount : ∑ u ∈ Finset.range 12, ∑ v ∈ Finset.range 12,
        (if barbell.hasEdge u v = .ret true ∧ decide (u < 6) ≠ decide (v < 6) then 4 else 0 : ℕ) = 8 := by
      decide +kernel
    have hf : form barbell (fun u => if u < 6 then 1 else -1) = 4 := by
      have : ∀ u ∈ Finset.range 12, ∀ v ∈ Finset.range 12,
          (if Adj barbell u v then ((if u < 6 then (1 : ℝ) else -1) - (if v < 6 then 1 else -1)) ^ 2 else 0) =
          ((if barbell.hasEdge u v = .ret true ∧ decide (u < 6) ≠ decide (v < 6) then 4 else 0 : ℕ) : ℝ) := by
        intro u _ v _
        by_cases ha : barbell.hasEdge u v = .ret true
        · rw [if_pos (show Adj barbell u v from ha)]
          by_cases hu : u < 6 <;> by_cases hv : v < 6 <;> simp [ha, hu, hv] <;> norm_num
        · rw [if_neg (show ¬ Adj barbell u v from ha)]
          simp [ha]
      unfold form
      rw [hN, Finset.sum_congr rfl fun u hu => Finset.sum_congr rfl (this u hu)]
      have hcast := congrArg (fun m : ℕ => (m : ℝ)) hcount
      simp only [Nat.cast_sum] at hcast
      rw [hcast]
      norm_num
    rw [hN, hq, hf] at h
    exact absurd h (not_le.2 cos_num)

/-! ## Non-vacuity: a triangle is a complete graph, and the sample graph of `Components.lean` is disconnected. -/

/-- A triangle. -/
def tri : Graph Nat Int := reached id .undirected false 3 [.addEdge 0 1 1, .addEdge 1 2 1, .addEdge 2 0 1]

example : tri.WF ∧ tri.Symm ∧ 1 < tri.numVertices ∧
    ∀ u < tri.numVertices, ∀ v < tri.numVertices, (Adj tri u v ↔ u ≠ v) :=
  ⟨reached_wf _ _ _ _ _, reached_symm _ _ _ _, by decide, by unfold Adj; decide⟩

example : (connectedComponents sampleUndirected).map (fun c => c.numComponents) = some 2 := by decide

end Verif.Graph.Conn
