import Mathlib.Tactic
import Mathlib.MeasureTheory.Integral.DominatedConvergence
import Mathlib.Analysis.SpecialFunctions.Integrals.Basic
import Verif.Integ.CubatureModel
import Verif.Integ.CubatureSpec
import Verif.Integ.GaussProps

/-!
# Lemmas on the adaptive integration over cells
-/

set_option autoImplicit false

namespace Verif.Integ.Cub

open Verif.Integ Spec

variable {C : Type}

theorem walk_append {parts : C → List C} : ∀ {vs : List (Visit C)} {s t : List (C × ℕ)} {ws : List (Visit C)},
    Walk parts s vs → Walk parts t ws → Walk parts (s ++ t) (vs ++ ws)
  | [], [], t, ws, _, h => h
  | [], _ :: _, _, _, h, _ => by simp [Walk] at h
  | _ :: _, [], _, _, h, _ => by simp [Walk] at h
  | v :: vs, (c, d) :: s, t, ws, h, h' => by
    obtain ⟨h1, h2, h3⟩ := h
    refine ⟨h1, h2, ?_⟩
    have := walk_append h3 h'
    cases hv : v.cut <;> simpa [hv, List.append_assoc] using this

theorem kept_append (a b : List (Visit C)) : kept (a ++ b) = kept a ++ kept b := by simp [kept]
theorem cuts_append (a b : List (Visit C)) : cuts (a ++ b) = cuts a + cuts b := by simp [cuts]

theorem deepest_append (a b : List (Visit C)) : deepest (a ++ b) = max (deepest a) (deepest b) := by
  unfold deepest
  induction a with
  | nil => simp
  | cons v a ih => simp only [List.cons_append, List.map_cons, List.foldr_cons, ih, max_assoc]

/-- The sum of a quantity over the cells waiting is the sum over the cells kept. -/
theorem walk_sum {parts : C → List C} (I : C → ℝ) (hI : ∀ c, I c = ((parts c).map I).sum) :
    ∀ {vs : List (Visit C)} {s : List (C × ℕ)}, Walk parts s vs →
      (s.map fun p => I p.1).sum = ((kept vs).map I).sum
  | [], [], _ => by simp [kept]
  | [], _ :: _, h => by simp [Walk] at h
  | _ :: _, [], h => by simp [Walk] at h
  | v :: vs, (c, d) :: s, h => by
    obtain ⟨h1, h2, h3⟩ := h
    have ih := walk_sum I hI h3
    cases hv : v.cut
    · rw [hv] at ih
      simp only [Bool.false_eq_true, if_false] at ih
      simp only [List.map_cons, List.sum_cons, ih]
      simp [kept, hv, h1]
    · rw [hv] at ih
      simp only [if_true, List.map_append, List.sum_append, List.map_map] at ih
      have e : ((parts c).map ((fun p : C × ℕ => I p.1) ∘ fun x => (x, d + 1))) = (parts c).map I := by
        apply List.map_congr_left; intros; rfl
      rw [e, ← hI] at ih
      simp only [List.map_cons, List.sum_cons, ih]
      simp [kept, hv]

/-- What holds of the cells waiting and passes to the parts holds of the cells visited. -/
theorem walk_all {parts : C → List C} (P : C → Prop) (hP : ∀ c, P c → ∀ q ∈ parts c, P q) :
    ∀ {vs : List (Visit C)} {s : List (C × ℕ)}, Walk parts s vs → (∀ p ∈ s, P p.1) → ∀ q ∈ kept vs, P q
  | [], _, _, _ => by simp [kept]
  | _ :: _, [], h, _ => by simp [Walk] at h
  | v :: vs, (c, d) :: s, h, hs => by
    obtain ⟨h1, h2, h3⟩ := h
    have hc : P c := hs (c, d) (by simp)
    have ih := walk_all P hP h3 (by
      intro p hp
      cases hv : v.cut <;> rw [hv] at hp
      · exact hs p (by simp at hp; simp [hp])
      · simp only [if_true, List.mem_append, List.mem_map] at hp
        rcases hp with ⟨q, hq, rfl⟩ | hp
        · exact hP c hc q hq
        · exact hs p (by simp [hp]))
    intro q hq
    cases hv : v.cut
    · simp only [kept, List.filter_cons, hv, Bool.not_false, if_true, List.map_cons, List.mem_cons] at hq
      rcases hq with rfl | hq
      · rw [h1]; exact hc
      · exact ih q hq
    · simp only [kept, List.filter_cons, hv, Bool.not_true, Bool.false_eq_true, if_false] at hq
      exact ih q hq

theorem length_kept (vs : List (Visit C)) : vs.length = (kept vs).length + cuts vs := by
  unfold kept cuts
  induction vs with
  | nil => rfl
  | cons v vs ih => cases hv : v.cut <;> simp [hv] at ih ⊢ <;> omega

theorem le_deepest {vs : List (Visit C)} {v : Visit C} (h : v ∈ vs) : v.depth ≤ deepest vs := by
  unfold deepest
  induction vs with
  | nil => cases h
  | cons w vs ih =>
    simp only [List.map_cons, List.foldr_cons]
    rcases List.mem_cons.1 h with rfl | h
    · exact le_max_left _ _
    · exact le_max_of_le_right (ih h)

/-- A cell that is accepted is not cut. -/
theorem run_accept (J : Job C) (n d : ℕ) (c : C) (b : ℤ) (h : J.Accept c) : run J n d c b = (leaf J d c, b - J.cost) := by
  cases n with
  | zero => rfl
  | succ n => rw [run, if_pos (Or.inl h)]

/-- The decision at each visit: the `k`-th visit has the budget left by the earlier ones. -/
def Decides (J : Job C) (depthMax : ℕ) (b : ℤ) (vs : List (Visit C)) : Prop :=
  ∀ (k : ℕ) (v : Visit C), vs[k]? = some v →
    (v.cut = true ↔ ¬ J.Accept v.cell ∧ v.depth < depthMax ∧ (J.cost : ℤ) * ((k : ℤ) + 1) < b)

theorem decides_append {J : Job C} {D : ℕ} {b : ℤ} {vs ws : List (Visit C)} (h : Decides J D b vs)
    (h' : Decides J D (b - J.cost * vs.length) ws) : Decides J D b (vs ++ ws) := by
  intro k v hk
  rcases Nat.lt_or_ge k vs.length with hl | hl
  · rw [List.getElem?_append_left hl] at hk
    exact h k v hk
  · rw [List.getElem?_append_right hl] at hk
    rw [h' _ v hk]
    have : (J.cost : ℤ) * ((k - vs.length : ℕ) + 1) < b - J.cost * vs.length ↔ (J.cost : ℤ) * (k + 1) < b := by
      push_cast [hl]
      constructor <;> intro h <;> nlinarith
    rw [this]

/-- The fields that are added up. -/
structure Adds (J : Job C) (vs : List (Visit C)) (a r : Result) : Prop where
  value : r.value = a.value + ((kept vs).map fun c => (J.rule c).1).sum
  err : r.err = a.err + ((kept vs).map fun c => (J.rule c).2).sum
  evals : r.evals = a.evals + J.cost * (kept vs).length
  cells : r.cells = a.cells + cuts vs
  depth : r.depth = max a.depth (deepest vs)

theorem run_fold {J : Job C} {n d : ℕ} (H : ∀ c b, ∃ vs, Walk J.split [(c, d)] vs ∧ Decides J (d + n) b vs ∧
      (run J n d c b).2 = b - J.cost * vs.length ∧ d ≤ deepest vs ∧ Adds J vs ⟨0, 0, 0, 0, 0, true⟩ (run J n d c b).1) :
    ∀ (l : List C) (a : Result) (b : ℤ), ∃ vs, Walk J.split (l.map (·, d)) vs ∧ Decides J (d + n) b vs ∧
      (l.foldl (visit (run J n d)) (a, b)).2 = b - J.cost * vs.length ∧ (l ≠ [] → d ≤ deepest vs) ∧
      Adds J vs a (l.foldl (visit (run J n d)) (a, b)).1 ∧
      (a.conv = false → (l.foldl (visit (run J n d)) (a, b)).1.conv = false)
  | [], a, b => ⟨[], by simp [Walk], by intro k v h; simp at h, by simp, by simp,
      ⟨by simp [kept], by simp [kept], by simp [kept], by simp [cuts], by simp [deepest]⟩, fun h => by simpa using h⟩
  | c :: l, a, b => by
    obtain ⟨vs, h1, h2, h3, h4, h5⟩ := H c b
    obtain ⟨ws, g1, g2, g3, g4, g5, g6⟩ := run_fold H l (a.add (run J n d c b).1) (run J n d c b).2
    refine ⟨vs ++ ws, ?_, ?_, ?_, ?_, ?_, ?_⟩
    · simpa using walk_append h1 g1
    · exact decides_append h2 (by rw [← h3]; exact g2)
    · simp only [List.foldl_cons, visit]
      rw [g3, h3, List.length_append]
      push_cast; ring
    · intro _; rw [deepest_append]; exact le_max_of_le_left h4
    · simp only [List.foldl_cons, visit]
      refine ⟨?_, ?_, ?_, ?_, ?_⟩
      · rw [g5.value, kept_append]; simp [Result.add, h5.value]; ring
      · rw [g5.err, kept_append]; simp [Result.add, h5.err]; ring
      · rw [g5.evals, kept_append]; simp [Result.add, h5.evals]; ring
      · rw [g5.cells, cuts_append]; simp [Result.add, h5.cells]; ring
      · rw [g5.depth, deepest_append]; simp [Result.add, h5.depth, max_assoc]
    · intro h
      simp only [List.foldl_cons, visit]
      exact g6 (by simp [Result.add, h])

/-- The history of a cell that is not cut. -/
theorem run_leaf (J : Job C) (n d : ℕ) (c : C) (b : ℤ) (hd : n = 0 ∨ J.Accept c ∨ b - J.cost ≤ 0) :
    Walk J.split [(c, d)] [⟨c, d, false⟩] ∧ Decides J (d + n) b [⟨c, d, false⟩] ∧
      Adds J [⟨c, d, false⟩] ⟨0, 0, 0, 0, 0, true⟩ (leaf J d c) := by
  refine ⟨by simp [Walk], ?_, ⟨?_, ?_, ?_, ?_, ?_⟩⟩
  · intro k v hk
    have hk0 : k = 0 := by
      by_contra h
      rw [List.getElem?_eq_none (by simp; omega)] at hk; cases hk
    subst hk0
    simp only [List.getElem?_cons_zero, Option.some.injEq] at hk
    subst hk
    simp only [Bool.false_eq_true, false_iff, not_and]
    intro h1 h2
    rcases hd with h | h | h
    · omega
    · exact absurd h h1
    · push_cast; omega
  all_goals simp [leaf, kept, cuts, deepest]

theorem run_conv_leaf (J : Job C) (d : ℕ) (c : C) : (leaf J d c).conv = true ↔ J.Accept c := by simp [leaf]

/-- The history of a run. -/
theorem run_history (J : Job C) (hs : ∀ c, J.split c ≠ []) : ∀ (n d : ℕ) (c : C) (b : ℤ), ∃ vs, Walk J.split [(c, d)] vs ∧ Decides J (d + n) b vs ∧
      (run J n d c b).2 = b - J.cost * vs.length ∧ d ≤ deepest vs ∧
      Adds J vs ⟨0, 0, 0, 0, 0, true⟩ (run J n d c b).1 ∧
      ((run J n d c b).1.conv = true ↔ vs = [⟨c, d, false⟩] ∧ J.Accept c)
  | 0, d, c, b => by
    obtain ⟨h1, h2, h3⟩ := run_leaf J 0 d c b (Or.inl rfl)
    exact ⟨_, h1, h2, by simp [run], by simp [deepest], h3, by simp [run, run_conv_leaf]⟩
  | n + 1, d, c, b => by
    by_cases hl : J.Accept c ∨ b - J.cost ≤ 0
    · obtain ⟨h1, h2, h3⟩ := run_leaf J (n + 1) d c b (Or.inr hl)
      have e : run J (n + 1) d c b = (leaf J d c, b - J.cost) := by rw [run, if_pos hl]
      rw [e]
      exact ⟨_, h1, h2, by simp, by simp [deepest], h3, by simp [run_conv_leaf]⟩
    · have e : run J (n + 1) d c b = (J.split c).foldl (visit (run J n (d + 1))) (start, b - J.cost) := by
        rw [run, if_neg hl]
      have H : ∀ c b, ∃ vs, Walk J.split [(c, d + 1)] vs ∧ Decides J (d + 1 + n) b vs ∧
          (run J n (d + 1) c b).2 = b - J.cost * vs.length ∧ d + 1 ≤ deepest vs ∧
          Adds J vs ⟨0, 0, 0, 0, 0, true⟩ (run J n (d + 1) c b).1 := fun c b => by
        obtain ⟨vs, h1, h2, h3, h4, h5, _⟩ := run_history J hs n (d + 1) c b
        exact ⟨vs, h1, h2, h3, h4, h5⟩
      obtain ⟨vs, h1, h2, h3, h4, h5, h6⟩ := run_fold H (J.split c) start (b - J.cost)
      have hdv := h4 (hs c)
      push Not at hl
      rw [e]
      refine ⟨⟨c, d, true⟩ :: vs, ?_, ?_, ?_, ?_, ⟨?_, ?_, ?_, ?_, ?_⟩, ?_⟩
      · refine ⟨rfl, rfl, ?_⟩
        simpa using h1
      · intro k v hk
        cases k with
        | zero =>
          simp only [List.getElem?_cons_zero, Option.some.injEq] at hk
          subst hk
          simp only [true_iff]
          exact ⟨hl.1, by simp, by push_cast; linarith [hl.2]⟩
        | succ k =>
          rw [List.getElem?_cons_succ] at hk
          rw [h2 k v hk]
          have e1 : d + 1 + n = d + (n + 1) := by omega
          have e2 : (J.cost : ℤ) * (k + 1) < b - J.cost ↔ (J.cost : ℤ) * ((k + 1 : ℕ) + 1) < b := by
            push_cast
            constructor <;> intro h <;> nlinarith
          rw [e1, e2]
      · rw [h3]; simp only [List.length_cons]; push_cast; ring
      · simp [deepest]
      · rw [h5.value]; simp [start, kept]
      · rw [h5.err]; simp [start, kept]
      · rw [h5.evals]; simp [start, kept]
      · rw [h5.cells]; simp [start, cuts]; omega
      · rw [h5.depth]
        have : deepest (⟨c, d, true⟩ :: vs) = max d (deepest vs) := by simp [deepest]
        rw [this]
        simp only [start, Nat.zero_max]
        omega
      · rw [h6 rfl]; simp

/-! ## The number of evaluations -/

/-- Once the budget is spent every cell costs one estimate. -/
theorem run_spent (J : Job C) (n d : ℕ) (c : C) (b : ℤ) (hb : b ≤ 0) : (run J n d c b).2 = b - J.cost := by
  cases n with
  | zero => rfl
  | succ n => rw [run, if_pos (Or.inr (by omega))]

theorem fold_spent (J : Job C) (n d : ℕ) : ∀ (l : List C) (a : Result) (b : ℤ), b ≤ 0 →
    (l.foldl (visit (run J n d)) (a, b)).2 = b - J.cost * l.length
  | [], a, b, _ => by simp
  | c :: l, a, b, hb => by
    simp only [List.foldl_cons, visit]
    rw [fold_spent J n d l _ _ (by rw [run_spent J n d c b hb]; omega), run_spent J n d c b hb]
    simp only [List.length_cons]; push_cast; ring

theorem fold_budget (J : Job C) (n d : ℕ) (B : ℤ) (hB : 0 ≤ B) (H : ∀ c b, 0 < b → -B ≤ (run J n d c b).2) :
    ∀ (l : List C) (a : Result) (b : ℤ), 0 < b → -B - J.cost * (l.length - 1 : ℕ) ≤ (l.foldl (visit (run J n d)) (a, b)).2
  | [], a, b, hb => by simp; omega
  | c :: l, a, b, hb => by
    simp only [List.foldl_cons, visit]
    have h1 := H c b hb
    have hc : (0 : ℤ) ≤ J.cost := by positivity
    rcases le_or_gt (run J n d c b).2 0 with h | h
    · rw [fold_spent J n d l _ _ h]
      simp only [List.length_cons, Nat.add_sub_cancel]
      nlinarith
    · have := fold_budget J n d B hB H l (a.add (run J n d c b).1) _ h
      refine le_trans ?_ this
      have : ((l.length - 1 : ℕ) : ℤ) ≤ ((c :: l).length - 1 : ℕ) := by simp
      nlinarith

theorem run_budget (J : Job C) (m : ℕ) (hm : ∀ c, (J.split c).length = m) : ∀ (n d : ℕ) (c : C) (b : ℤ), 0 < b →
    -((J.cost : ℤ) * (1 + ((m - 1 : ℕ) : ℤ) * n)) ≤ (run J n d c b).2
  | 0, d, c, b, hb => by simp [run]; omega
  | n + 1, d, c, b, hb => by
    have hc : (0 : ℤ) ≤ J.cost := by positivity
    have hp : (0 : ℤ) ≤ (J.cost : ℤ) * (((m - 1 : ℕ) : ℤ) * (n + 1)) := by positivity
    by_cases hl : J.Accept c ∨ b - J.cost ≤ 0
    · rw [run, if_pos hl]
      push_cast
      push_cast at hp
      nlinarith
    · rw [run, if_neg hl]
      push Not at hl
      have := fold_budget J n (d + 1) ((J.cost : ℤ) * (1 + ((m - 1 : ℕ) : ℤ) * n)) (by positivity)
        (fun c b hb => run_budget J m hm n (d + 1) c b hb) (J.split c) start (b - J.cost) hl.2
      rw [hm c] at this
      push_cast at this ⊢
      nlinarith

/-! ## The tensor rule -/

/-- The values at the nodes `±i`. -/
noncomputable def pair (g : ℝ → ℝ) (c h : ℝ) (i : ℕ) : ℝ :=
  if 0 < i then g (c + h * node i) + g (c - h * node i) else g (c + h * node i)

theorem sum2_eq (f : ℝ → ℝ → ℝ) (cx hx cy hy : ℝ) (i j : ℕ) :
    sum2 f cx hx cy hy i j = pair (fun x => pair (fun y => f x y) cy hy j) cx hx i := by
  unfold sum2 pair
  by_cases hi : 0 < i <;> by_cases hj : 0 < j <;> simp [hi, hj] <;> ring

theorem sum3_eq (f : ℝ → ℝ → ℝ → ℝ) (cx hx cy hy cz hz : ℝ) (i j k : ℕ) :
    sum3 f cx hx cy hy cz hz i j k =
      pair (fun x => pair (fun y => pair (fun z => f x y z) cz hz k) cy hy j) cx hx i := by
  unfold sum3 pair
  by_cases hi : 0 < i <;> by_cases hj : 0 < j <;> by_cases hk : 0 < k <;> simp [hi, hj, hk] <;> ring

theorem node_zero : node 0 = 0 := by
  show (0.0 : ℝ) = 0
  norm_num

theorem kronrod15_nodes : kronrod15 = (0, wK 0) :: sym [(node 1, wK 1), (node 2, wK 2), (node 3, wK 3),
    (node 4, wK 4), (node 5, wK 5), (node 6, wK 6), (node 7, wK 7)] := rfl

theorem gauss7_nodes : gauss7 = (0, wG 0) :: sym [(node 2, wG 2), (node 4, wG 4), (node 6, wG 6)] := by
  simp [gauss7, sym, odds, xGK15, wG7, wG, node]

theorem kronrod_pair (g : ℝ → ℝ) (a b : ℝ) : kronrod15.apply g a b =
    0.5 * (b - a) * ∑ i ∈ Finset.range 8, wK i * pair g (0.5 * (a + b)) (0.5 * (b - a)) i := by
  have e1 : (0.5 : ℝ) * (a + b) = (a + b) / 2 := by norm_num; ring
  have e2 : (0.5 : ℝ) * (b - a) = (b - a) / 2 := by norm_num; ring
  rw [e1, e2, Rule.apply, kronrod15_nodes]
  generalize (a + b) / 2 = c
  generalize (b - a) / 2 = h
  simp only [Finset.sum_range_succ, Finset.sum_range_zero, sym, pair, List.map_cons, List.map_nil, List.cons_append,
    List.nil_append, List.sum_cons, List.sum_nil, node_zero, mul_neg, sub_eq_add_neg]
  simp only [lt_irrefl, if_false, Nat.one_pos, Nat.ofNat_pos, if_true]
  ring

theorem gauss_pair (g : ℝ → ℝ) (a b : ℝ) : gauss7.apply g a b =
    0.5 * (b - a) * ∑ i ∈ Finset.range 8, wG i * pair g (0.5 * (a + b)) (0.5 * (b - a)) i := by
  have e1 : (0.5 : ℝ) * (a + b) = (a + b) / 2 := by norm_num; ring
  have e2 : (0.5 : ℝ) * (b - a) = (b - a) / 2 := by norm_num; ring
  have z1 : wG 1 = 0 := by simp [wG]
  have z3 : wG 3 = 0 := by simp [wG]
  have z5 : wG 5 = 0 := by simp [wG]
  have z7 : wG 7 = 0 := by simp [wG]
  rw [e1, e2, Rule.apply, gauss7_nodes]
  generalize (a + b) / 2 = c
  generalize (b - a) / 2 = h
  simp only [Finset.sum_range_succ, Finset.sum_range_zero, sym, pair, List.map_cons, List.map_nil, List.cons_append,
    List.nil_append, List.sum_cons, List.sum_nil, node_zero, mul_neg, sub_eq_add_neg, z1, z3, z5, z7]
  simp only [lt_irrefl, if_false, Nat.one_pos, Nat.ofNat_pos, if_true]
  ring

theorem pair_mul_sum (w : ℕ → ℝ) (r : ℝ) (g : ℝ → ℕ → ℝ) (c h : ℝ) (i : ℕ) :
    pair (fun x => r * ∑ j ∈ Finset.range 8, w j * g x j) c h i =
      r * ∑ j ∈ Finset.range 8, w j * pair (fun x => g x j) c h i := by
  unfold pair
  by_cases hi : 0 < i
  · simp only [hi, if_true, ← mul_add, ← Finset.sum_add_distrib]
  · simp only [hi, if_false]

/-- A rule given by pairs. -/
def ByPairs (r : Rule) (w : ℕ → ℝ) : Prop := ∀ g a b, r.apply g a b =
    0.5 * (b - a) * ∑ i ∈ Finset.range 8, w i * pair g (0.5 * (a + b)) (0.5 * (b - a)) i

theorem tensor2_eq {r : Rule} {w : ℕ → ℝ} (h : ByPairs r w) (f : ℝ → ℝ → ℝ) (c : Box2) :
    tensor2 w f c = r.apply (fun x => r.apply (fun y => f x y) c.y1 c.y2) c.x1 c.x2 := by
  rw [h (fun x => r.apply (fun y => f x y) c.y1 c.y2)]
  simp only [h (fun y => f _ y), pair_mul_sum, tensor2, sum2_eq]
  rw [Finset.sum_mul, Finset.mul_sum]
  refine Finset.sum_congr rfl fun i _ => ?_
  rw [Finset.sum_mul, Finset.mul_sum, Finset.mul_sum, Finset.mul_sum]
  refine Finset.sum_congr rfl fun j _ => ?_
  ring

theorem tensor3_eq {r : Rule} {w : ℕ → ℝ} (h : ByPairs r w) (f : ℝ → ℝ → ℝ → ℝ) (c : Box3) :
    tensor3 w f c =
      r.apply (fun x => r.apply (fun y => r.apply (fun z => f x y z) c.z1 c.z2) c.y1 c.y2) c.x1 c.x2 := by
  rw [h (fun x => r.apply (fun y => r.apply (fun z => f x y z) c.z1 c.z2) c.y1 c.y2)]
  have h2 : ∀ x, r.apply (fun y => r.apply (fun z => f x y z) c.z1 c.z2) c.y1 c.y2 =
      tensor2 w (fun y z => f x y z) ⟨c.y1, c.y2, c.z1, c.z2⟩ :=
    fun x => (tensor2_eq h (fun y z => f x y z) ⟨c.y1, c.y2, c.z1, c.z2⟩).symm
  have h3 : (fun x => r.apply (fun y => r.apply (fun z => f x y z) c.z1 c.z2) c.y1 c.y2) =
      fun x => (0.5 * (c.y2 - c.y1) * (0.5 * (c.z2 - c.z1))) * ∑ j ∈ Finset.range 8, w j *
        (∑ k ∈ Finset.range 8, w k * sum2 (fun y z => f x y z) (0.5 * (c.y1 + c.y2)) (0.5 * (c.y2 - c.y1))
          (0.5 * (c.z1 + c.z2)) (0.5 * (c.z2 - c.z1)) j k) := by
    funext x
    rw [h2, tensor2, mul_comm]
    congr 1
    refine Finset.sum_congr rfl fun j _ => ?_
    rw [Finset.mul_sum]
    refine Finset.sum_congr rfl fun k _ => ?_
    ring
  rw [h3]
  simp only [pair_mul_sum, tensor3, sum3_eq]
  rw [Finset.sum_mul, Finset.mul_sum]
  refine Finset.sum_congr rfl fun i _ => ?_
  rw [Finset.sum_mul, Finset.mul_sum, Finset.mul_sum, Finset.mul_sum]
  refine Finset.sum_congr rfl fun j _ => ?_
  have h4 := pair_mul_sum w 1 (fun x k => sum2 (fun y z => f x y z) (0.5 * (c.y1 + c.y2)) (0.5 * (c.y2 - c.y1))
          (0.5 * (c.z1 + c.z2)) (0.5 * (c.z2 - c.z1)) j k) (0.5 * (c.x1 + c.x2)) (0.5 * (c.x2 - c.x1)) i
  simp only [one_mul] at h4
  rw [h4, Finset.sum_mul, Finset.mul_sum, Finset.mul_sum, Finset.mul_sum, Finset.mul_sum]
  refine Finset.sum_congr rfl fun k _ => ?_
  simp only [sum2_eq]
  ring

end Verif.Integ.Cub
