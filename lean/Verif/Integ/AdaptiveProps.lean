import Verif.Integ.GaussProps

/-!
# Adaptive Gauss-Kronrod integration (C77)
-/

set_option autoImplicit false

namespace Verif.Integ

open Verif Polynomial

/-! ## Specification -/

/-- A piece of the interval of integration, with the number of bisections that led to it. -/
structure Piece where
  left : ℝ
  right : ℝ
  depth : ℕ

/-- The pieces follow one another from `a` to `b`. -/
def Covers (a b : ℝ) : List Piece → Prop
  | [] => a = b
  | p :: l => p.left = a ∧ Covers p.right b l

/-- The result of an adaptive integration with rules `K` (value) and `G` (for the estimate), `n` evaluations per piece and at
most `D` bisections on the way to any piece. -/
structure Adaptive (K G : Rule) (n D : ℕ) (f : ℝ → ℝ) (a b tolAbs tolRel : ℝ) (pieces : List Piece) (r : GKResult) : Prop where
  covers : Covers a b pieces
  width : ∀ p ∈ pieces, p.right - p.left = (b - a) / 2 ^ p.depth
  depth : ∀ p ∈ pieces, p.depth ≤ D
  total : (pieces.map fun p => (1 / 2 : ℝ) ^ p.depth).sum = 1
  value : r.value = (pieces.map fun p => K.apply f p.left p.right).sum
  error : r.error = (pieces.map fun p => |K.apply f p.left p.right - G.apply f p.left p.right|).sum
  evals : r.evals = n * pieces.length
  converged : r.converged = true ↔ ∀ p ∈ pieces, |K.apply f p.left p.right - G.apply f p.left p.right| ≤
    max (tolAbs / 2 ^ p.depth) (tolRel * |K.apply f p.left p.right|)
  stuck : ∀ p ∈ pieces, ¬ |K.apply f p.left p.right - G.apply f p.left p.right| ≤
    max (tolAbs / 2 ^ p.depth) (tolRel * |K.apply f p.left p.right|) → p.depth = D

/-! ## The recursion -/

theorem Covers.append {a b c : ℝ} {l m : List Piece} (h : Covers a b l) (h' : Covers b c m) : Covers a c (l ++ m) := by
  induction l generalizing a with
  | nil =>
    obtain rfl : a = b := h
    exact h'
  | cons p l ih => exact ⟨h.1, ih h.2⟩

theorem Covers.map {a b : ℝ} {l : List Piece} (h : Covers a b l) :
    Covers a b (l.map fun p => { p with depth := p.depth + 1 }) := by
  induction l generalizing a with
  | nil => exact h
  | cons p l ih => exact ⟨h.1, ih h.2⟩

/-- One bisection more. -/
def Piece.deeper (p : Piece) : Piece := { p with depth := p.depth + 1 }

theorem map_deeper (l : List Piece) (F : ℝ → ℝ → ℝ) :
    ((l.map Piece.deeper).map fun p => F p.left p.right) = l.map fun p => F p.left p.right := by
  rw [List.map_map]
  rfl

theorem Adaptive.join {K G : Rule} {n D : ℕ} {f : ℝ → ℝ} {a b tolAbs tolRel : ℝ} {l m : List Piece} {r s : GKResult}
    (h : Adaptive K G n D f a (0.5 * (a + b)) (tolAbs / 2) tolRel l r)
    (h' : Adaptive K G n D f (0.5 * (a + b)) b (tolAbs / 2) tolRel m s) :
    Adaptive K G n (D + 1) f a b tolAbs tolRel (l.map Piece.deeper ++ m.map Piece.deeper) (r.join s) := by
  have ht : ∀ k : ℕ, tolAbs / 2 ^ (k + 1) = tolAbs / 2 / 2 ^ k := by
    intro k
    rw [pow_succ', div_div]
  refine ⟨h.covers.map.append h'.covers.map, ?_, ?_, ?_, ?_, ?_, ?_, ?_, ?_⟩
  · intro p hp
    rcases List.mem_append.mp hp with hp | hp <;> obtain ⟨q, hq, rfl⟩ := List.mem_map.mp hp
    · have := h.width q hq
      simp only [Piece.deeper] at this ⊢
      rw [this, pow_succ', ← div_div]
      norm_num
      ring
    · have := h'.width q hq
      simp only [Piece.deeper] at this ⊢
      rw [this, pow_succ', ← div_div]
      norm_num
      ring
  · intro p hp
    rcases List.mem_append.mp hp with hp | hp <;> obtain ⟨q, hq, rfl⟩ := List.mem_map.mp hp
    · exact Nat.succ_le_succ (h.depth q hq)
    · exact Nat.succ_le_succ (h'.depth q hq)
  · have e : ∀ k : List Piece, ((k.map Piece.deeper).map fun p => (1 / 2 : ℝ) ^ p.depth) =
        k.map fun p => 1 / 2 * (1 / 2 : ℝ) ^ p.depth := by
      intro k
      rw [List.map_map]
      refine List.map_congr_left fun p _ => ?_
      simp only [Function.comp_apply, Piece.deeper, pow_succ']
    rw [List.map_append, List.sum_append, e, e, list_sum_mul, list_sum_mul, h.total, h'.total]
    norm_num
  · rw [List.map_append, List.sum_append, map_deeper l fun x y => K.apply f x y, map_deeper m fun x y => K.apply f x y,
      ← h.value, ← h'.value]
    rfl
  · rw [List.map_append, List.sum_append, map_deeper l fun x y => |K.apply f x y - G.apply f x y|,
      map_deeper m fun x y => |K.apply f x y - G.apply f x y|, ← h.error, ← h'.error]
    rfl
  · simp only [GKResult.join, h.evals, h'.evals, List.length_append, List.length_map]
    ring
  · simp only [GKResult.join, Bool.and_eq_true, h.converged, h'.converged, List.forall_mem_append, List.forall_mem_map,
      Piece.deeper, ht]
  · intro p hp
    rcases List.mem_append.mp hp with hp | hp <;> obtain ⟨q, hq, rfl⟩ := List.mem_map.mp hp
    · intro hn
      simp only [Piece.deeper, ht] at hn
      exact congrArg (· + 1) (h.stuck q hq hn)
    · intro hn
      simp only [Piece.deeper, ht] at hn
      exact congrArg (· + 1) (h'.stuck q hq hn)

theorem Adaptive.single {K G : Rule} {n D : ℕ} {f : ℝ → ℝ} {a b tolAbs tolRel : ℝ} {c : Bool}
    (hc : c = true ↔ |K.apply f a b - G.apply f a b| ≤ max tolAbs (tolRel * |K.apply f a b|)) (hD : c = false → D = 0) :
    Adaptive K G n D f a b tolAbs tolRel [⟨a, b, 0⟩] ⟨K.apply f a b, |K.apply f a b - G.apply f a b|, n, c⟩ where
  covers := ⟨rfl, rfl⟩
  width := by simp
  depth := by simp
  total := by simp
  value := by simp
  error := by simp
  evals := by simp
  converged := by simpa using hc
  stuck := by
    intro p hp hn
    obtain rfl : p = ⟨a, b, 0⟩ := by simpa using hp
    simp only [pow_zero, div_one] at hn
    refine (hD ?_).symm
    rw [← hc] at hn
    simpa using hn

theorem adaptive_eq {rule : GKRule} {n : ℕ} {K G : Rule} (he : Embedded rule.run n K G) (f : ℝ → ℝ) (D : ℕ)
    (a b tolAbs tolRel : ℝ) :
    ∃ r pieces, adaptive rule f D a b tolAbs tolRel = .ret r ∧ pieces ≠ [] ∧
      Adaptive K G n D f a b tolAbs tolRel pieces r := by
  induction D generalizing a b tolAbs with
  | zero =>
    rw [adaptive, he.2, Outcome.bind_ret]
    exact ⟨_, [⟨a, b, 0⟩], rfl, by simp, Adaptive.single (by simp) (fun _ => rfl)⟩
  | succ D ih =>
    rw [adaptive, he.2, Outcome.bind_ret]
    by_cases h : |K.apply f a b - G.apply f a b| ≤ max tolAbs (tolRel * |K.apply f a b|)
    · rw [if_pos h]
      exact ⟨_, [⟨a, b, 0⟩], rfl, by simp, Adaptive.single (by simpa using h) (fun h => by simp at h)⟩
    · rw [if_neg h]
      obtain ⟨r, l, hr, hl, ha⟩ := ih a (0.5 * (a + b)) (tolAbs / 2)
      obtain ⟨s, m, hs, hm, hb⟩ := ih (0.5 * (a + b)) b (tolAbs / 2)
      rw [hr, Outcome.bind_ret, hs, Outcome.bind_ret]
      exact ⟨_, _, rfl, by simp [hl], ha.join hb⟩

/-! ## Properties -/

/-- The pair of rules behind each choice. -/
theorem run_embedded (rule : GKRule) : ∃ n d tol, ∃ K G : Rule, IsRule K n d tol ∧ 23 ≤ d ∧ tol ≤ 2 / 10 ^ 33 ∧ 15 ≤ n ∧
    Embedded rule.run n K G := by
  cases rule with
  | gk15 => exact ⟨15, 23, _, _, _, kronrod15_isRule, le_rfl, by norm_num, le_rfl, gk15_embedded⟩
  | gk21 => exact ⟨21, 31, _, _, _, kronrod21_isRule, by norm_num, by norm_num, by norm_num, gk21_embedded⟩
  | gk31 => exact ⟨31, 47, _, _, _, kronrod31_isRule, by norm_num, by norm_num, by norm_num, gk31_embedded⟩

/-- **C77.**  `IntegrateGKAdaptive` always returns.  There are pieces obtained by bisections that cover the interval from `a` to
`b`; the value and the error estimate are the sums over them, and `converged` says that every piece meets its share of the
tolerance.  A piece that does not was reached by the full number of bisections. -/
theorem adaptive_spec (rule : GKRule) (f : ℝ → ℝ) (D : ℕ) (a b tolAbs tolRel : ℝ) :
    ∃ n K G r pieces, Embedded rule.run n K G ∧ adaptive rule f D a b tolAbs tolRel = .ret r ∧ pieces ≠ [] ∧
      Adaptive K G n D f a b tolAbs tolRel pieces r := by
  obtain ⟨n, _, _, K, G, _, _, _, _, he⟩ := run_embedded rule
  obtain ⟨r, l, h⟩ := adaptive_eq he f D a b tolAbs tolRel
  exact ⟨n, K, G, r, l, he, h⟩

example : ∃ n K G r pieces, Embedded GKRule.gk15.run n K G ∧
    adaptive .gk15 Real.sqrt 50 0 1 (1 / 10 ^ 10) (1 / 10 ^ 10) = .ret r ∧ pieces ≠ [] ∧
      Adaptive K G n 50 Real.sqrt 0 1 (1 / 10 ^ 10) (1 / 10 ^ 10) pieces r := adaptive_spec _ _ _ _ _ _ _

/-- **C77.**  A converged answer has an error estimate of at most the absolute tolerance plus the relative tolerance times the
sum of the absolute values of the pieces. -/
theorem Adaptive.error_le {K G : Rule} {n D : ℕ} {f : ℝ → ℝ} {a b tolAbs tolRel : ℝ} {l : List Piece} {r : GKResult}
    (h : Adaptive K G n D f a b tolAbs tolRel l r) (hc : r.converged = true) (hA : 0 ≤ tolAbs) (hR : 0 ≤ tolRel) :
    r.error ≤ tolAbs + tolRel * (l.map fun p => |K.apply f p.left p.right|).sum := by
  have h1 := h.converged.mp hc
  have h2 : tolAbs + tolRel * (l.map fun p => |K.apply f p.left p.right|).sum =
      (l.map fun p => tolAbs * (1 / 2 : ℝ) ^ p.depth + tolRel * |K.apply f p.left p.right|).sum := by
    rw [← list_sum_mul]
    have : tolAbs = (l.map fun p => tolAbs * (1 / 2 : ℝ) ^ p.depth).sum := by rw [list_sum_mul, h.total, mul_one]
    conv_lhs => rw [this]
    clear this h h1
    induction l with
    | nil => simp
    | cons p l ih =>
      simp only [List.map_cons, List.sum_cons, ← ih]
      ring
  rw [h.error, h2]
  refine list_sum_le _ _ _ fun p hp => (h1 p hp).trans ?_
  have e : tolAbs / 2 ^ p.depth = tolAbs * (1 / 2 : ℝ) ^ p.depth := by
    rw [one_div_pow, mul_one_div]
  have p1 : 0 ≤ tolAbs * (1 / 2 : ℝ) ^ p.depth := by positivity
  have p2 : 0 ≤ tolRel * |K.apply f p.left p.right| := by positivity
  rw [e]
  exact max_le (by linarith) (by linarith)

theorem apply_nonneg {K : Rule} (hw : ∀ p ∈ K, 0 < p.2) (f : ℝ → ℝ) (hf : ∀ x, 0 ≤ f x) (a b : ℝ) (hab : a ≤ b) :
    0 ≤ K.apply f a b := by
  refine mul_nonneg (by linarith) (List.sum_nonneg ?_)
  intro x hx
  obtain ⟨p, hp, rfl⟩ := List.mem_map.mp hx
  exact mul_nonneg (hw p hp).le (hf _)

/-- **C77.**  For an integrand that is nowhere negative, a converged answer has an error estimate within the tolerances. -/
theorem adaptive_converged (rule : GKRule) (f : ℝ → ℝ) (hf : ∀ x, 0 ≤ f x) (D : ℕ) (a b tolAbs tolRel : ℝ) (hab : a ≤ b)
    (hA : 0 ≤ tolAbs) (hR : 0 ≤ tolRel) :
    ∃ r, adaptive rule f D a b tolAbs tolRel = .ret r ∧ 0 ≤ r.value ∧
      (r.converged = true → r.error ≤ tolAbs + tolRel * r.value) := by
  obtain ⟨n, d, tol, K, G, hK, _, _, _, he⟩ := run_embedded rule
  obtain ⟨r, l, hr, _, h⟩ := adaptive_eq he f D a b tolAbs tolRel
  have hn : ∀ p ∈ l, 0 ≤ K.apply f p.left p.right := by
    intro p hp
    refine apply_nonneg hK.weights f hf _ _ ?_
    have := h.width p hp
    have : 0 ≤ (b - a) / 2 ^ p.depth := div_nonneg (by linarith) (by positivity)
    linarith
  have e : (l.map fun p => |K.apply f p.left p.right|) = l.map fun p => K.apply f p.left p.right :=
    List.map_congr_left fun p hp => abs_of_nonneg (hn p hp)
  refine ⟨r, hr, ?_, fun hc => ?_⟩
  · rw [h.value]
    refine List.sum_nonneg ?_
    intro x hx
    obtain ⟨p, hp, rfl⟩ := List.mem_map.mp hx
    exact hn p hp
  · have := h.error_le hc hA hR
    rwa [e, ← h.value] at this

theorem Covers.integral {a b : ℝ} {l : List Piece} (h : Covers a b l) (f : ℝ → ℝ)
    (hi : ∀ x y, IntervalIntegrable f MeasureTheory.volume x y) :
    (l.map fun p => ∫ x in p.left..p.right, f x).sum = ∫ x in a..b, f x := by
  induction l generalizing a with
  | nil =>
    obtain rfl : a = b := h
    simp
  | cons p l ih =>
    obtain ⟨rfl, h2⟩ := h
    rw [List.map_cons, List.sum_cons, ih h2, intervalIntegral.integral_add_adjacent_intervals (hi _ _) (hi _ _)]

theorem list_sum_abs_sub_le (l : List Piece) (F G E : Piece → ℝ) (h : ∀ p ∈ l, |F p - G p| ≤ E p) :
    |(l.map F).sum - (l.map G).sum| ≤ (l.map E).sum := by
  induction l with
  | nil => simp
  | cons p l ih =>
    simp only [List.map_cons, List.sum_cons]
    have h1 := h p (by simp)
    have h2 := ih fun q hq => h q (by simp [hq])
    rw [abs_le] at *
    constructor <;> linarith [h1.1, h1.2, h2.1, h2.2]

/-- **C77.**  If the estimate is honest on every piece, the error estimate returned bounds the error. -/
theorem Adaptive.honest {K G : Rule} {n D : ℕ} {f : ℝ → ℝ} {a b tolAbs tolRel : ℝ} {l : List Piece} {r : GKResult}
    (h : Adaptive K G n D f a b tolAbs tolRel l r) (hi : ∀ x y, IntervalIntegrable f MeasureTheory.volume x y)
    (hh : ∀ p ∈ l, |K.apply f p.left p.right - ∫ x in p.left..p.right, f x| ≤
      |K.apply f p.left p.right - G.apply f p.left p.right|) :
    |r.value - ∫ x in a..b, f x| ≤ r.error := by
  rw [h.value, h.error, ← h.covers.integral f hi]
  exact list_sum_abs_sub_le l _ _ _ hh

/-- **C77.**  On a polynomial of degree at most 23 the value is right, wherever the bisections go. -/
theorem adaptive_poly (rule : GKRule) (p : ℝ[X]) (hp : p.natDegree ≤ 23) (D : ℕ) (a b tolAbs tolRel : ℝ) :
    ∃ r pieces, adaptive rule (fun x => p.eval x) D a b tolAbs tolRel = .ret r ∧ Covers a b pieces ∧
      |r.value - ∫ x in a..b, p.eval x| ≤
        (pieces.map fun q => |q.right - q.left| / 2 * (2 / 10 ^ 33) * size p q.left q.right).sum := by
  obtain ⟨n, d, tol, K, G, hK, hd, ht, _, he⟩ := run_embedded rule
  obtain ⟨r, l, hr, _, h⟩ := adaptive_eq he (fun x => p.eval x) D a b tolAbs tolRel
  refine ⟨r, l, hr, h.covers, ?_⟩
  rw [h.value, ← h.covers.integral _ fun x y => p.continuous.intervalIntegrable _ _]
  refine list_sum_abs_sub_le l _ _ _ fun q _ => (hK.poly p (hp.trans hd) q.left q.right).trans ?_
  have := size_nonneg p q.left q.right
  gcongr

/-! ## The number of evaluations -/

/-- **C77, disagreement.**  The number of evaluations returned counts only the pieces that were kept: with `k` applications of
an `n`-point rule, `n k` evaluations, it is `n (k + 1) / 2`. -/
theorem adaptive_evals (rule : GKRule) (f : ℝ → ℝ) (D : ℕ) (a b tolAbs tolRel : ℝ) :
    ∃ n K G r k, Embedded rule.run n K G ∧ adaptive rule f D a b tolAbs tolRel = .ret r ∧
      applications rule f D a b tolAbs tolRel = .ret k ∧ 2 * r.evals = n * (k + 1) := by
  obtain ⟨n, _, _, K, G, _, _, _, _, he⟩ := run_embedded rule
  have : ∀ D a b tolAbs, ∃ r k, adaptive rule f D a b tolAbs tolRel = .ret r ∧
      applications rule f D a b tolAbs tolRel = .ret k ∧ 2 * r.evals = n * (k + 1) := by
    intro D
    induction D with
    | zero =>
      intro a b tolAbs
      rw [adaptive, applications, he.2, Outcome.bind_ret, Outcome.bind_ret]
      exact ⟨_, _, rfl, rfl, by dsimp only; ring⟩
    | succ D ih =>
      intro a b tolAbs
      rw [adaptive, applications, he.2, Outcome.bind_ret, Outcome.bind_ret]
      by_cases h : |K.apply f a b - G.apply f a b| ≤ max tolAbs (tolRel * |K.apply f a b|)
      · rw [if_pos h, if_pos h]
        exact ⟨_, _, rfl, rfl, by dsimp only; ring⟩
      · rw [if_neg h, if_neg h]
        obtain ⟨r, k, hr, hk, h1⟩ := ih a (0.5 * (a + b)) (tolAbs / 2)
        obtain ⟨s, m, hs, hm, h2⟩ := ih (0.5 * (a + b)) b (tolAbs / 2)
        rw [hr, hk, hs, hm]
        simp only [Outcome.bind_ret]
        refine ⟨_, _, rfl, rfl, ?_⟩
        simp only [GKResult.join]
        linarith
  obtain ⟨r, k, h⟩ := this D a b tolAbs
  exact ⟨n, K, G, r, k, he, h⟩

theorem kronrod15_pow14 : kronrod15.apply (fun x => x ^ 14) (-1) 1 - gauss7.apply (fun x => x ^ 14) (-1) 1 > 1 / 10 ^ 4 ∧
    |kronrod15.apply (fun x => x ^ 14) (-1) 1| ≤ 1 := by
  simp only [Rule.apply, kronrod15, gauss7, sym, odds, xGK15, wGK15, wG7, List.zip_cons_cons, List.zip_nil_right, List.map_cons,
    List.map_nil, List.cons_append, List.nil_append, List.tail_cons, List.getD_cons_zero, List.sum_cons, List.sum_nil]
  norm_num [abs_le]

/-- **C77, disagreement.**  For `x^14` on `[-1, 1]`, with one bisection allowed and tolerances `10^-10`, 45 evaluations are made
and 30 reported. -/
theorem adaptive_underreports :
    ∃ r, adaptive .gk15 (fun x => x ^ 14) 1 (-1) 1 (1 / 10 ^ 10) (1 / 10 ^ 10) = .ret r ∧ r.evals = 30 ∧
      applications .gk15 (fun x => x ^ 14) 1 (-1) 1 (1 / 10 ^ 10) (1 / 10 ^ 10) = .ret 3 := by
  have h := kronrod15_pow14
  have hn : ¬ |kronrod15.apply (fun x => x ^ 14) (-1) 1 - gauss7.apply (fun x => x ^ 14) (-1) 1| ≤
      max (1 / 10 ^ 10) (1 / 10 ^ 10 * |kronrod15.apply (fun x => x ^ 14) (-1) 1|) := by
    rw [not_le]
    refine lt_of_le_of_lt (b := 1 / 10 ^ 10) (max_le le_rfl ?_) ?_
    · nlinarith [h.2]
    · refine lt_of_lt_of_le ?_ (le_abs_self _)
      have := h.1
      refine lt_trans (by norm_num) this
  rw [adaptive, applications]
  simp only [GKRule.run, integrateGK15_eq, Outcome.bind_ret]
  rw [if_neg hn, if_neg hn]
  simp only [adaptive, applications, GKRule.run, integrateGK15_eq, Outcome.bind_ret]
  exact ⟨_, rfl, rfl, trivial⟩

end Verif.Integ
