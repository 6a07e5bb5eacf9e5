import Verif.Optim.DLemmas

/-!
# One-dimensional minimisation (C100)

`f` is any function, unless said otherwise; `zeps` is a thousandth of the machine epsilon.
-/

set_option autoImplicit false

namespace Verif.Optim

open Set

/-! ## What a located minimum is good for -/

/-- A continuous function has a local minimum near the answer, with a value that is not larger. -/
theorem located_continuous {f : ℝ → ℝ} {br : Bracket} {ε : ℝ} {r : Result} (h : Located f br ε r)
    (hf : ContinuousOn f (Icc (lo br) (hi br))) :
    ∃ m ∈ Ioo (lo br) (hi br), |r.xmin - m| ≤ ε ∧ f m ≤ r.fmin ∧ IsLocalMin f m := by
  obtain ⟨hv, -, p, q, h1, h2, h3, h4, h5, h6, h7, h8⟩ := h
  have hc : ContinuousOn f (Icc p q) := hf.mono (Icc_subset_Icc h1 h2)
  obtain ⟨m0, hm0, hmin⟩ := isCompact_Icc.exists_isMinOn (nonempty_Icc.2 (h3.trans h4).le) hc
  have hx : r.xmin ∈ Icc p q := ⟨h3.le, h4.le⟩
  have hle : f m0 ≤ f r.xmin := hmin hx
  by_cases hlt : f m0 < f r.xmin
  · have hp : p < m0 := lt_of_le_of_ne hm0.1 (fun e => by rw [← e] at hlt; linarith)
    have hq : m0 < q := lt_of_le_of_ne hm0.2 (fun e => by rw [e] at hlt; linarith)
    refine ⟨m0, ⟨by linarith, by linarith⟩, abs_le.2 ⟨by linarith, by linarith⟩, by rw [hv]; exact hle,
      hmin.isLocalMin (Icc_mem_nhds hp hq)⟩
  · have hmin' : IsMinOn f (Icc p q) r.xmin := fun y hy => (not_lt.1 hlt).trans (hmin hy)
    exact ⟨r.xmin, ⟨by linarith, by linarith⟩, by rw [sub_self, abs_zero]; linarith, by rw [hv],
      hmin'.isLocalMin (Icc_mem_nhds h3 h4)⟩

/-- For a unimodal function the answer is near the minimum. -/
theorem located_unimodal {f : ℝ → ℝ} {br : Bracket} {ε : ℝ} {r : Result} (h : Located f br ε r) {m : ℝ}
    (hu : Unimodal f (lo br) (hi br) m) : |r.xmin - m| ≤ ε := by
  obtain ⟨-, -, p, q, h1, h2, h3, h4, h5, h6, h7, h8⟩ := h
  have hp : p ≤ m := by
    by_contra hn
    have := hu.rises ⟨(not_le.1 hn).le, by linarith⟩ ⟨by linarith, by linarith⟩ h3
    linarith
  have hq : m ≤ q := by
    by_contra hn
    have := hu.falls ⟨by linarith, by linarith⟩ ⟨by linarith, (not_le.1 hn).le⟩ h4
    linarith
  exact abs_le.2 ⟨by linarith, by linarith⟩

/-! ## Bracketing -/

/-- A bracket marked valid is one. -/
theorem bracket_valid (f : ℝ → ℝ) {a b : ℝ} (hab : a ≠ b) (hv : (bracketMinimum f a b).valid = true) :
    IsBracket f (bracketMinimum f a b) := bracketLoop_inv 200 (bracketStart_inv f hab) hv

/-- For a monotone function no bracket is reported. -/
theorem bracket_monotone {f : ℝ → ℝ} (hf : StrictMono f ∨ StrictAnti f) {a b : ℝ} (hab : a ≠ b) :
    (bracketMinimum f a b).valid = false := by
  by_contra hn
  have h := bracket_valid f hab (by simpa using hn)
  have h1 := h.left
  have h2 := h.right
  rcases hf with hf | hf
  · rcases h.between with ⟨g1, g2⟩ | ⟨g1, g2⟩
    · exact absurd (hf g1) (not_lt.2 h1)
    · exact absurd (hf g1) (not_lt.2 h2)
  · rcases h.between with ⟨g1, g2⟩ | ⟨g1, g2⟩
    · exact absurd (hf g2) (not_lt.2 h2)
    · exact absurd (hf g2) (not_lt.2 h1)

/-- With equal ends all three points are that end, and the bracket is reported valid. -/
theorem bracket_equal (f : ℝ → ℝ) (a : ℝ) : bracketMinimum f a a = ⟨a, a, a, f a, f a, f a, true⟩ := by
  rw [bracketMinimum, bracketStart, if_neg (lt_irrefl _), sub_self, mul_zero, add_zero, bracketLoop, if_neg (lt_irrefl _)]

/-- The bracket found for a parabola, so that the theorems on brackets found are not empty. -/
example : (bracketMinimum (fun x => (x - 3 / 2) ^ 2) 0 1).valid = true := by
  rw [bracketMinimum, bracketStart, if_neg (by norm_num), bracketLoop, if_neg (by norm_num [gold])]

/-! ## Golden section -/

/-- If the golden section search returns, a minimum is located to the relative accuracy `2 tol / (1 - tol)`. -/
theorem golden_located {f : ℝ → ℝ} {br : Bracket} (hb : IsBracket f br) {tol : ℝ} (h1 : tol < 1) {r : Result}
    (h : golden f br tol = .ret r) : r.converged = true ∧ Located f br (2 * tol / (1 - tol) * |r.xmin|) r := by
  rw [golden] at h
  split_ifs at h
  rcases whileLoop_cases (goldStep f tol) (goldStart f br) with ⟨t, ht⟩ | ht
  · rw [ht, Outcome.bind_ret] at h
    obtain ⟨i1, i2⟩ := whileLoop_inv (GInv f br) (fun s s' hs hst => by rw [goldStep_some hst]; exact goldBody_inv hs)
      (goldStart_inv hb) ht
    rw [← Outcome.ret.inj h]
    exact ⟨by rw [goldResult]; split_ifs <;> rfl, goldResult_located h1 i1 i2⟩
  · rw [ht, Outcome.bind_ub] at h
    simp at h

/-- The golden section search returns if the bracket is away from zero, or the function is unimodal with its minimum not at zero. -/
theorem golden_returns {f : ℝ → ℝ} {br : Bracket} (hb : IsBracket f br) (hv : br.valid = true) {tol : ℝ} (h0 : 0 < tol)
    (hz : 0 < lo br ∨ hi br < 0 ∨ ∃ m, m ≠ 0 ∧ Unimodal f (lo br) (hi br) m) : ∃ r, golden f br tol = .ret r := by
  have key : ∃ t, whileLoop (goldStep f tol) (goldStart f br) = .ret t := by
    have hz' : (∃ c, 0 < c ∧ ∀ x, lo br ≤ x → x ≤ hi br → c ≤ |x|) ∨ ∃ m, m ≠ 0 ∧ Unimodal f (lo br) (hi br) m := by
      rcases hz with hz | hz | hz
      · exact Or.inl ⟨lo br, hz, fun x h1 h2 => h1.trans (le_abs_self x)⟩
      · exact Or.inl ⟨-hi br, by linarith, fun x h1 h2 => (neg_le_neg h2).trans (neg_le_abs x)⟩
      · exact Or.inr hz
    rcases hz' with ⟨c, hc, hfar⟩ | ⟨m, hm, hu⟩
    · refine gold_ends h0 hc (GInv f br) (fun s hs => goldBody_inv hs) (fun s hs => ?_) (goldStart_inv hb)
      refine ⟨s.x0, hfar _ hs.inside.1 hs.inside.2.1, hs.near ?_⟩
      rcases hs.order with ⟨a1, a2, a3⟩ | ⟨a1, a2, a3⟩
      · exact Or.inl ⟨le_rfl, by linarith⟩
      · exact Or.inr ⟨by linarith, le_rfl⟩
    · exact gold_ends h0 (abs_pos.2 hm)
        (fun s => GInv f br s ∧ ((s.x0 ≤ m ∧ m ≤ s.x3) ∨ (s.x3 ≤ m ∧ m ≤ s.x0)))
        (fun s hs => ⟨goldBody_inv hs.1, gold_keeps hu hs.1 hs.2⟩) (fun s hs => ⟨m, le_rfl, hs.1.near hs.2⟩)
        ⟨goldStart_inv hb, goldStart_keeps hu⟩
  obtain ⟨t, ht⟩ := key
  exact ⟨goldResult t, by rw [golden, if_neg (not_le.2 h0), if_neg (by simp [hv]), ht, Outcome.bind_ret]⟩

/-- If the function is unimodal with its minimum at zero, the search does not end. -/
theorem golden_zero {f : ℝ → ℝ} {br : Bracket} (hb : IsBracket f br) (hv : br.valid = true) {tol : ℝ} (h0 : 0 < tol)
    (h1 : tol ≤ 1 / 2) (hu : Unimodal f (lo br) (hi br) 0) : golden f br tol = .ub := by
  rw [golden, if_neg (not_le.2 h0), if_neg (by simp [hv]), whileLoop_ub
    (fun s => GInv f br s ∧ ((s.x0 ≤ 0 ∧ 0 ≤ s.x3) ∨ (s.x3 ≤ 0 ∧ 0 ≤ s.x0))) _ ⟨goldStart_inv hb, goldStart_keeps hu⟩, Outcome.bind_ub]
  rintro s ⟨hs, hm⟩
  refine ⟨goldBody f s, ?_, goldBody_inv hs, gold_keeps hu hs hm⟩
  rw [goldStep, if_pos]
  have hw : |s.x1| + |s.x2| < 2 * |s.x3 - s.x0| := by
    rcases hs.order with ⟨a1, a2, a3⟩ | ⟨a1, a2, a3⟩
    · rw [abs_of_pos (show 0 < s.x3 - s.x0 by linarith)]
      have g1 : |s.x1| < s.x3 - s.x0 := abs_lt.2 (by rcases hm with hm | hm <;> constructor <;> linarith)
      have g2 : |s.x2| < s.x3 - s.x0 := abs_lt.2 (by rcases hm with hm | hm <;> constructor <;> linarith)
      linarith
    · rw [abs_of_neg (show s.x3 - s.x0 < 0 by linarith)]
      have g1 : |s.x1| < -(s.x3 - s.x0) := abs_lt.2 (by rcases hm with hm | hm <;> constructor <;> linarith)
      have g2 : |s.x2| < -(s.x3 - s.x0) := abs_lt.2 (by rcases hm with hm | hm <;> constructor <;> linarith)
      linarith
  have hn : 0 ≤ |s.x1| + |s.x2| := by positivity
  nlinarith

/-- What is refused. -/
theorem golden_refuses (f : ℝ → ℝ) (br : Bracket) (a b tol : ℝ) :
    (tol ≤ 0 ∨ br.valid = false → golden f br tol = .exn (.mml "NumericInputError")) ∧
    (tol ≤ 0 → goldenAB f a b tol = .exn (.mml "NumericInputError")) ∧
    (0 < tol → (bracketMinimum f a b).valid = false → goldenAB f a b tol = .exn (.mml "OptimizationError")) ∧
    (0 < tol → (bracketMinimum f a b).valid = true → goldenAB f a b tol = golden f (bracketMinimum f a b) tol) := by
  refine ⟨fun h => ?_, fun h => ?_, fun h1 h2 => ?_, fun h1 h2 => ?_⟩
  · rw [golden]
    by_cases h1 : tol ≤ 0
    · rw [if_pos h1]
    · rw [if_neg h1, if_pos (h.resolve_left h1)]
  · rw [goldenAB, if_pos h]
  · rw [goldenAB, if_neg (not_le.2 h1), if_pos h2]
  · rw [goldenAB, if_neg (not_le.2 h1), if_neg (by simp [h2])]

/-- From an interval: an answer of the golden section search is a located minimum. -/
theorem goldenAB_located {f : ℝ → ℝ} {a b tol : ℝ} (hab : a ≠ b) (h1 : tol < 1) {r : Result} (h : goldenAB f a b tol = .ret r) :
    IsBracket f (bracketMinimum f a b) ∧ r.converged = true ∧
      Located f (bracketMinimum f a b) (2 * tol / (1 - tol) * |r.xmin|) r := by
  rw [goldenAB] at h
  split_ifs at h with c1 c2
  have hb := bracket_valid f hab (by simpa using c2)
  exact ⟨hb, golden_located hb h1 h⟩

/-- With equal ends the golden section search reports that end as a minimum, whatever the function. -/
theorem goldenAB_equal (f : ℝ → ℝ) (a : ℝ) {tol : ℝ} (h0 : 0 < tol) : goldenAB f a a tol = .ret ⟨a, f a, 0, true⟩ := by
  rw [goldenAB, if_neg (not_le.2 h0), bracket_equal, if_neg (by simp), golden, if_neg (not_le.2 h0), if_neg (by simp), goldStart]
  simp only [sub_self, mul_zero, add_zero, sub_zero, lt_irrefl, if_false, abs_zero, gt_iff_lt]
  have hs : goldStep f tol ⟨a, a, a, a, f a, f a, 0⟩ = none := by
    rw [goldStep, if_neg]
    rw [sub_self, abs_zero, not_lt]
    positivity
  rw [whileLoop_eq (fuel := 1) (t := ⟨a, a, a, a, f a, f a, 0⟩) (by rw [whileFuel, hs]), Outcome.bind_ret, goldResult, if_neg (lt_irrefl _)]

/-! ## Brent's method -/

/-- Brent's method returns a located minimum, to within `2 (tol |x| + zeps)`, or throws for lack of iterations; and given enough
iterations it returns. -/
theorem brent_located {f : ℝ → ℝ} {br : Bracket} (hb : IsBracket f br) (hv : br.valid = true) {tol zeps : ℝ} (h0 : 0 < tol)
    (hz : 0 < zeps) :
    (∀ maxIter : ℤ, 0 < maxIter → brent f zeps br tol maxIter = .exn (.mml "OptimizationError") ∨
      ∃ r, brent f zeps br tol maxIter = .ret r ∧ r.converged = true ∧ 1 ≤ r.iterations ∧ (r.iterations : ℤ) ≤ maxIter ∧
        Located f br (2 * (tol * |r.xmin| + zeps)) r) ∧
    ∃ K : ℤ, ∀ maxIter ≥ K, ∃ r, brent f zeps br tol maxIter = .ret r := by
  obtain ⟨δ, hδ, hs⟩ := brentStart_inv hb
  have hδ' : 0 < min δ zeps := lt_min hδ hz
  have hI := hs (min δ zeps) (min_le_left _ _)
  have he : ∀ maxIter : ℤ, 0 < maxIter → brent f zeps br tol maxIter = brentLoop f tol zeps maxIter.toNat 0 (brentStart f br) :=
    fun maxIter h => by rw [brent, if_neg (not_le.2 h0), if_neg (by simp [hv]), if_neg (not_le.2 h)]
  refine ⟨fun maxIter hm => ?_, ?_⟩
  · rw [he maxIter hm]
    rcases (brentLoop_spec h0 hδ' (min_le_right _ _) maxIter.toNat 0 hI).1 with h | ⟨r, r1, r2, r3, r4, r5⟩
    · exact Or.inl h
    · exact Or.inr ⟨r, r1, r2, by omega, by omega, r5⟩
  · obtain ⟨K, hK⟩ := exists_nat_gt (((brentStart f br).b - (brentStart f br).a) / min δ zeps)
    refine ⟨K + 1, fun maxIter hm => ?_⟩
    rw [he maxIter (by omega)]
    refine (brentLoop_spec h0 hδ' (min_le_right _ _) maxIter.toNat 0 hI).2 (by omega) ?_
    rw [div_lt_iff₀ hδ'] at hK
    have : (K : ℝ) ≤ (maxIter.toNat : ℝ) + 1 := by
      have : K ≤ maxIter.toNat + 1 := by omega
      exact_mod_cast this
    nlinarith

/-- An accepted parabolic step has a denominator that is not zero. -/
theorem parabola_denominator {s : Brent} (h : ¬parabolaBad s) : (parabolaPQ s).2 ≠ 0 := by
  intro h0
  apply h
  left
  rw [h0, mul_zero, zero_mul, abs_zero]
  exact abs_nonneg _

/-- What is refused. -/
theorem brent_refuses (f : ℝ → ℝ) (zeps : ℝ) (br : Bracket) (a b tol : ℝ) (maxIter : ℤ) :
    (tol ≤ 0 ∨ br.valid = false ∨ maxIter ≤ 0 → brent f zeps br tol maxIter = .exn (.mml "NumericInputError")) ∧
    (tol ≤ 0 ∨ maxIter ≤ 0 → brentAB f zeps a b tol maxIter = .exn (.mml "NumericInputError")) ∧
    (0 < tol → 0 < maxIter → (bracketMinimum f a b).valid = false → brentAB f zeps a b tol maxIter = .exn (.mml "OptimizationError")) ∧
    (0 < tol → 0 < maxIter → (bracketMinimum f a b).valid = true →
      brentAB f zeps a b tol maxIter = brent f zeps (bracketMinimum f a b) tol maxIter) := by
  refine ⟨fun h => ?_, fun h => ?_, fun h1 h2 h3 => ?_, fun h1 h2 h3 => ?_⟩
  · rw [brent]
    by_cases h1 : tol ≤ 0
    · rw [if_pos h1]
    · rw [if_neg h1]
      by_cases h2 : br.valid = false
      · rw [if_pos h2]
      · rw [if_neg h2, if_pos ((h.resolve_left h1).resolve_left h2)]
  · rw [brentAB]
    by_cases h1 : tol ≤ 0
    · rw [if_pos h1]
    · rw [if_neg h1, if_pos (h.resolve_left h1)]
  · rw [brentAB, if_neg (not_le.2 h1), if_neg (not_le.2 h2), if_pos h3]
  · rw [brentAB, if_neg (not_le.2 h1), if_neg (not_le.2 h2), if_neg (by simp [h3])]

/-- From an interval: an answer of Brent's method is a located minimum. -/
theorem brentAB_located {f : ℝ → ℝ} {a b tol zeps : ℝ} (hab : a ≠ b) (hz : 0 < zeps) {maxIter : ℤ} {r : Result}
    (h : brentAB f zeps a b tol maxIter = .ret r) :
    IsBracket f (bracketMinimum f a b) ∧ r.converged = true ∧ 1 ≤ r.iterations ∧ (r.iterations : ℤ) ≤ maxIter ∧
      Located f (bracketMinimum f a b) (2 * (tol * |r.xmin| + zeps)) r := by
  rw [brentAB] at h
  split_ifs at h with c1 c2 c3
  have hv : (bracketMinimum f a b).valid = true := by simpa using c3
  have hb := bracket_valid f hab hv
  rcases (brent_located hb hv (not_le.1 c1) hz).1 maxIter (not_le.1 c2) with e | ⟨r', r1, r2⟩
  · rw [e] at h
    simp at h
  · rw [r1] at h
    rw [← Outcome.ret.inj h]
    exact ⟨hb, r2⟩

/-! ## Brent's method with derivatives -/

/-- For a function that falls before `m` and rises after it, with a second function that has the signs of its slope, the answer is in the
bracket, within `2 (tol |x| + zeps)` of `m`, and not worse than the middle of the bracket. -/
theorem dbrent_located {f df : ℝ → ℝ} {m : ℝ} (hm : Sloped f df m) {br : Bracket} (hb : IsBracket f br) (hv : br.valid = true)
    {tol zeps : ℝ} (h0 : 0 < tol) (hz : 0 < zeps) {maxIter : ℤ} (hi0 : 0 < maxIter) :
    dbrent f df zeps br tol maxIter = .exn (.mml "OptimizationError") ∨
      ∃ r, dbrent f df zeps br tol maxIter = .ret r ∧ r.converged = true ∧ 1 ≤ r.iterations ∧ (r.iterations : ℤ) ≤ maxIter ∧
        r.fmin = f r.xmin ∧ f r.xmin ≤ f br.bx ∧ lo br ≤ r.xmin ∧ r.xmin ≤ hi br ∧ |r.xmin - m| ≤ 2 * (tol * |r.xmin| + zeps) := by
  rw [dbrent, if_neg (not_le.2 h0), if_neg (not_le.2 hi0), if_neg (by simp [hv])]
  rcases dbrentLoop_spec hm h0 hz maxIter.toNat 0 (dbrentStart_inv hb hm) with h | ⟨r, r1, r2, r3, r4, r5⟩
  · exact Or.inl h
  · exact Or.inr ⟨r, r1, r2, by omega, by omega, r5⟩

/-- From an interval. -/
theorem dbrentAB_located {f df : ℝ → ℝ} {m : ℝ} (hm : Sloped f df m) {a b tol zeps : ℝ} (hab : a ≠ b) (hz : 0 < zeps) {maxIter : ℤ}
    {r : Result} (h : dbrentAB f df zeps a b tol maxIter = .ret r) :
    r.converged = true ∧ r.fmin = f r.xmin ∧ |r.xmin - m| ≤ 2 * (tol * |r.xmin| + zeps) := by
  rw [dbrentAB] at h
  split_ifs at h with c1 c2 c3
  have hv : (bracketMinimum f a b).valid = true := by simpa using c3
  rcases dbrent_located hm (bracket_valid f hab hv) hv (not_le.1 c1) hz (not_le.1 c2) with e | ⟨r', r1, r2, r3, r4, r5, r6, r7, r8, r9⟩
  · rw [e] at h
    simp at h
  · rw [r1] at h
    rw [← Outcome.ret.inj h]
    exact ⟨r2, r5, r9⟩

/-- What is refused. -/
theorem dbrent_refuses (f df : ℝ → ℝ) (zeps : ℝ) (br : Bracket) (a b tol : ℝ) (maxIter : ℤ) :
    (tol ≤ 0 ∨ maxIter ≤ 0 ∨ br.valid = false → dbrent f df zeps br tol maxIter = .exn (.mml "NumericInputError")) ∧
    (tol ≤ 0 ∨ maxIter ≤ 0 → dbrentAB f df zeps a b tol maxIter = .exn (.mml "NumericInputError")) ∧
    (0 < tol → 0 < maxIter → (bracketMinimum f a b).valid = false →
      dbrentAB f df zeps a b tol maxIter = .exn (.mml "OptimizationError")) := by
  refine ⟨fun h => ?_, fun h => ?_, fun h1 h2 h3 => ?_⟩
  · rw [dbrent]
    by_cases h1 : tol ≤ 0
    · rw [if_pos h1]
    · rw [if_neg h1]
      by_cases h2 : maxIter ≤ 0
      · rw [if_pos h2]
      · rw [if_neg h2, if_pos ((h.resolve_left h1).resolve_left h2)]
  · rw [dbrentAB]
    by_cases h1 : tol ≤ 0
    · rw [if_pos h1]
    · rw [if_neg h1, if_pos (h.resolve_left h1)]
  · rw [dbrentAB, if_neg (not_le.2 h1), if_neg (not_le.2 h2), if_pos h3]

/-! ## Maximisation -/

/-- The answers of the maximisers: the value is that of the function, and a continuous function has a local maximum near it. -/
theorem maximise {f : ℝ → ℝ} (hf : Continuous f) {a b tol zeps : ℝ} (hab : a ≠ b) (h1 : tol < 1) (hz : 0 < zeps) {maxIter : ℤ}
    {r : Result} :
    (goldenMax f a b tol = .ret r → r.converged = true ∧ r.fmin = f r.xmin ∧
      ∃ m, |r.xmin - m| ≤ 2 * tol / (1 - tol) * |r.xmin| ∧ r.fmin ≤ f m ∧ IsLocalMax f m) ∧
    (brentMax f zeps a b tol maxIter = .ret r → r.converged = true ∧ r.fmin = f r.xmin ∧
      ∃ m, |r.xmin - m| ≤ 2 * (tol * |r.xmin| + zeps) ∧ r.fmin ≤ f m ∧ IsLocalMax f m) := by
  have key : ∀ {ε : ℝ} {br : Bracket} {r' : Result}, Located (fun x => -f x) br ε r' →
      -r'.fmin = f r'.xmin ∧ ∃ m, |r'.xmin - m| ≤ ε ∧ -r'.fmin ≤ f m ∧ IsLocalMax f m := by
    intro ε br r' hl
    obtain ⟨m, -, h2, h3, h4⟩ := located_continuous hl (hf.neg.continuousOn)
    refine ⟨by rw [hl.value]; ring, m, h2, by linarith, ?_⟩
    have := h4.neg
    simpa using this
  constructor
  · intro h
    rw [goldenMax, negResult] at h
    cases hg : goldenAB (fun x => -f x) a b tol with
    | ret r' =>
      rw [hg, Outcome.bind_ret] at h
      obtain ⟨-, g2, g3⟩ := goldenAB_located hab h1 hg
      rw [← Outcome.ret.inj h]
      exact ⟨g2, key g3⟩
    | exn e => rw [hg, Outcome.bind_exn] at h; simp at h
    | ub => rw [hg, Outcome.bind_ub] at h; simp at h
  · intro h
    rw [brentMax, negResult] at h
    cases hg : brentAB (fun x => -f x) zeps a b tol maxIter with
    | ret r' =>
      rw [hg, Outcome.bind_ret] at h
      obtain ⟨-, g2, -, -, g3⟩ := brentAB_located hab hz hg
      rw [← Outcome.ret.inj h]
      exact ⟨g2, key g3⟩
    | exn e => rw [hg, Outcome.bind_exn] at h; simp at h
    | ub => rw [hg, Outcome.bind_ub] at h; simp at h

/-! ## The hypotheses are met -/

/-- A bracket of a parabola around 2. -/
noncomputable def parBr : Bracket := ⟨0, 1, 4, 4, 1, 4, true⟩

theorem par_sloped : Sloped (fun x => (x - 2) ^ 2) (fun x => 2 * (x - 2)) 2 :=
  ⟨fun x hx y hy h => by have := mem_Iic.1 hx; have := mem_Iic.1 hy; show (y - 2) ^ 2 < (x - 2) ^ 2; nlinarith,
    fun x hx y hy h => by have := mem_Ici.1 hx; have := mem_Ici.1 hy; show (x - 2) ^ 2 < (y - 2) ^ 2; nlinarith,
    fun x hx => by show 2 * (x - 2) < 0; linarith, fun x hx => by show 0 < 2 * (x - 2); linarith⟩

theorem parBr_isBracket : IsBracket (fun x => (x - 2) ^ 2) parBr :=
  ⟨by norm_num [parBr], by norm_num [parBr], by norm_num [parBr], by norm_num [parBr], by norm_num [parBr], by norm_num [parBr]⟩

example : Unimodal (fun x => (x - 2) ^ 2) (lo parBr) (hi parBr) 2 :=
  ⟨by norm_num [lo, parBr], by norm_num [hi, parBr], par_sloped.falls.mono fun _ h => h.2, par_sloped.rises.mono fun _ h => h.1⟩

/-- Near zero: a bracket on which the golden section search does not end. -/
example : golden (fun x => x ^ 2) ⟨-1, 1 / 2, 1, 1, 1 / 4, 1, true⟩ (1 / 1000) = .ub := by
  refine golden_zero ⟨by norm_num, by norm_num, by norm_num, by norm_num, by norm_num, by norm_num⟩ rfl (by norm_num) (by norm_num)
    ⟨by norm_num [lo], by norm_num [hi], fun x hx y hy h => ?_, fun x hx y hy h => ?_⟩
  · have := hx.2; have := hy.2; show y ^ 2 < x ^ 2; nlinarith
  · have := hx.1; have := hy.1; show x ^ 2 < y ^ 2; nlinarith

end Verif.Optim
