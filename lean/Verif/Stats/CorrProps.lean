import Verif.Stats.MeanProps
import Verif.Mat.DenseLemmas

/-!
# Covariance and correlation (C46)
-/

set_option autoImplicit false

namespace Verif.Stats

open Verif

theorem ne_nil_of_two {d : List ℝ} (h : 2 ≤ d.length) : d ≠ [] := by rintro rfl; simp at h

theorem covariance_eq (x y : List ℝ) (h : 2 ≤ x.length) (hl : y.length = x.length) :
    covariance x y = .ret (coprod x y / ((x.length : ℝ) - 1)) := by
  rw [covariance, if_neg (by omega), if_neg (by omega), avg_eq (ne_nil_of_two h), Outcome.bind_ret,
    avg_eq (ne_nil_of_two (by omega)), Outcome.bind_ret,
    forRange_sum x.length 0 (covStep x y (mean x) (mean y)) (fun i => (x.getD i 0 - mean x) * (y.getD i 0 - mean y))
      fun i hi s => by rw [covStep, index_getD hi, Outcome.bind_ret, index_getD (by omega)]; rfl,
    Outcome.bind_ret, quot_of_ne (length_sub_one h).ne', zero_add, ← coprod_eq x y hl]

/-- **C46, covariance**: the sum of the products of the deviations over `n - 1`; symmetric; the covariance of data with itself is
its variance; fewer than two values and different lengths are refused. -/
theorem covariance_spec (x y : List ℝ) :
    (2 ≤ x.length → y.length = x.length →
      covariance x y = .ret ((List.zipWith (fun a b => (a - mean x) * (b - mean y)) x y).sum / ((x.length : ℝ) - 1)) ∧
      covariance x y = covariance y x ∧ covariance x x = variance x) ∧
    (x.length ≤ 1 ∨ y.length ≠ x.length → covariance x y = .exn statErr) := by
  constructor
  · intro h hl
    refine ⟨covariance_eq x y h hl, ?_, ?_⟩
    · rw [covariance_eq x y h hl, covariance_eq y x (by omega) hl.symm, coprod_comm x y hl, hl]
    · rw [covariance_eq x x h rfl, coprod_self, (avgVar_spec x h).2.1, devSum]
  · intro h
    rw [covariance]
    by_cases h0 : x.length ≤ 1
    · rw [if_pos h0]
    · rw [if_neg h0, if_pos (h.resolve_left h0)]

/-- **C46, covariance under changes of units.** -/
theorem covariance_affine (x y : List ℝ) (h : 2 ≤ x.length) (hl : y.length = x.length) (a b c e : ℝ) :
    ∃ v, covariance x y = .ret v ∧
      covariance (x.map fun t => a * t + b) (y.map fun t => c * t + e) = .ret (a * c * v) := by
  refine ⟨_, covariance_eq x y h hl, ?_⟩
  rw [covariance_eq _ _ (by simpa using h) (by simpa using hl), coprod_affine x y hl, List.length_map]
  congr 1
  ring

theorem pearson_loop (x y : List ℝ) (hl : y.length = x.length) :
    forRange x.length (0, 0, 0) (pearsonStep x y (mean x) (mean y)) = .ret (coprod x y, devSum 2 x, devSum 2 y) := by
  rw [forRange_sum x.length (0, 0, 0) (pearsonStep x y (mean x) (mean y))
    (fun i => ((x.getD i 0 - mean x) * (y.getD i 0 - mean y), (x.getD i 0 - mean x) * (x.getD i 0 - mean x),
      (y.getD i 0 - mean y) * (y.getD i 0 - mean y)))
    fun i hi s => by rw [pearsonStep, index_getD hi, Outcome.bind_ret, index_getD (by omega)]; rfl]
  congr 1
  ext
  · simp only [Prod.fst_add, Prod.fst_sum, zero_add]
    rw [← coprod_eq x y hl]
  · simp only [Prod.snd_add, Prod.snd_sum, Prod.fst_add, Prod.fst_sum, zero_add]
    rw [← coprod_eq x x rfl, coprod_self]
  · simp only [Prod.snd_add, Prod.snd_sum, zero_add]
    rw [← hl, ← coprod_eq y y rfl, coprod_self]

theorem pearson_run (x y : List ℝ) (h : 2 ≤ x.length) (hl : y.length = x.length) :
    pearson x y = pearsonFinish (coprod x y, devSum 2 x, devSum 2 y) := by
  rw [pearson, if_neg (by omega), if_neg (by omega), avg_eq (ne_nil_of_two h), Outcome.bind_ret,
    avg_eq (ne_nil_of_two (by omega)), Outcome.bind_ret, pearson_loop x y hl, Outcome.bind_ret]

/-- The data are not all equal. -/
def Varies (d : List ℝ) : Prop := ∃ a ∈ d, ∃ b ∈ d, a ≠ b

theorem Varies.two {d : List ℝ} (h : Varies d) : 2 ≤ d.length := by
  obtain ⟨a, ha, b, hb, hab⟩ := h
  match d, ha, hb with
  | [c], ha, hb => simp at ha hb; exact absurd (ha.trans hb.symm) hab
  | _ :: _ :: _, _, _ => simp

theorem Varies.pos {d : List ℝ} (h : Varies d) : 0 < devSum 2 d := by
  refine lt_of_le_of_ne (devSum_two_nonneg d) fun e => ?_
  obtain ⟨a, ha, b, hb, hab⟩ := h
  exact hab ((devSum_two_eq_zero d).1 e.symm a ha b hb)

theorem Varies.map {d : List ℝ} (h : Varies d) {f : ℝ → ℝ} (hf : ∀ a ∈ d, ∀ b ∈ d, f a = f b → a = b) : Varies (d.map f) := by
  obtain ⟨a, ha, b, hb, hab⟩ := h
  exact ⟨f a, List.mem_map_of_mem ha, f b, List.mem_map_of_mem hb, fun e => hab (hf a ha b hb e)⟩

theorem pearson_eq (x y : List ℝ) (hl : y.length = x.length) (hx : Varies x) (hy : Varies y) :
    pearson x y = .ret (coprod x y / Real.sqrt (devSum 2 x * devSum 2 y)) := by
  have h1 := hx.pos
  have h2 := hy.pos
  rw [pearson_run x y hx.two hl, pearsonFinish]
  dsimp only
  rw [if_neg h1.ne', if_neg h2.ne', stdSqrt, if_neg (not_lt.2 (by positivity)), Outcome.bind_ret,
    quot_of_ne (Real.sqrt_pos.2 (by positivity)).ne']

/-- **C46, Pearson's coefficient**: the covariance over the product of the standard deviations, and between minus one and one. -/
theorem pearson_spec (x y : List ℝ) (hl : y.length = x.length) (hx : Varies x) (hy : Varies y) :
    ∃ r c sx sy, pearson x y = .ret r ∧ covariance x y = .ret c ∧ stdDev x = .ret sx ∧ stdDev y = .ret sy ∧
      0 < sx ∧ 0 < sy ∧ r = c / (sx * sy) ∧ -1 ≤ r ∧ r ≤ 1 := by
  have h1 := hx.pos
  have h2 := hy.pos
  have hp := length_sub_one hx.two
  refine ⟨_, _, _, _, pearson_eq x y hl hx hy, covariance_eq x y hx.two hl, (avgVar_spec x hx.two).2.2.1,
    (avgVar_spec y hy.two).2.2.1, Real.sqrt_pos.2 (div_pos h1 hp), Real.sqrt_pos.2 (div_pos h2 (by rw [hl]; exact hp)), ?_, ?_⟩
  · rw [hl]
    change _ = coprod x y / _ / (Real.sqrt (devSum 2 x / _) * Real.sqrt (devSum 2 y / _))
    rw [← Real.sqrt_mul (div_pos h1 hp).le, div_mul_div_comm, Real.sqrt_div (by positivity), Real.sqrt_mul_self hp.le]
    have := (Real.sqrt_pos.2 (mul_pos h1 h2)).ne'
    field_simp
  · rw [← abs_le, abs_div, abs_of_pos (Real.sqrt_pos.2 (mul_pos h1 h2)), div_le_one (Real.sqrt_pos.2 (mul_pos h1 h2))]
    exact Real.abs_le_sqrt (coprod_sq_le x y hl)

/-- **C46, Pearson's coefficient refuses** fewer than two values, different lengths and constant data. -/
theorem pearson_refuses (x y : List ℝ) (h : x.length ≤ 1 ∨ y.length ≠ x.length ∨ ¬ Varies x ∨ ¬ Varies y) :
    pearson x y = .exn statErr := by
  by_cases h0 : x.length ≤ 1
  · rw [pearson, if_pos h0]
  by_cases h1 : y.length ≠ x.length
  · rw [pearson, if_neg h0, if_pos h1]
  push Not at h1
  have hz : ∀ d : List ℝ, ¬ Varies d → devSum 2 d = 0 := by
    intro d hd
    rw [devSum_two_eq_zero]
    intro a ha b hb
    by_contra hab
    exact hd ⟨a, ha, b, hb, hab⟩
  rw [pearson_run x y (by omega) h1, pearsonFinish]
  dsimp only
  rcases h with h | h | h | h
  · exact absurd h h0
  · exact absurd h1 h
  · rw [if_pos (hz x h)]
  · by_cases h2 : devSum 2 x = 0
    · rw [if_pos h2]
    · rw [if_neg h2, if_pos (hz y h)]

/-- **C46, symmetry of Pearson's coefficient.** -/
theorem pearson_symm (x y : List ℝ) (hl : y.length = x.length) (hx : Varies x) (hy : Varies y) : pearson x y = pearson y x := by
  rw [pearson_eq x y hl hx hy, pearson_eq y x hl.symm hy hx, coprod_comm x y hl, mul_comm]

/-- **C46, Pearson's coefficient under changes of units**: only the signs of the scale factors matter. -/
theorem pearson_affine (x y : List ℝ) (hl : y.length = x.length) (hx : Varies x) (hy : Varies y) (a b c e : ℝ)
    (ha : a ≠ 0) (hc : c ≠ 0) : ∃ r, pearson x y = .ret r ∧
      pearson (x.map fun t => a * t + b) (y.map fun t => c * t + e) = .ret (if 0 < a * c then r else -r) := by
  refine ⟨_, pearson_eq x y hl hx hy, ?_⟩
  have h1 := hx.pos
  have h2 := hy.pos
  rw [pearson_eq _ _ (by simpa using hl) (hx.map fun u _ v _ huv => by simpa [ha] using huv)
    (hy.map fun u _ v _ huv => by simpa [hc] using huv), coprod_affine x y hl, devSum_affine, devSum_affine]
  have hs : Real.sqrt (a ^ 2 * devSum 2 x * (c ^ 2 * devSum 2 y)) = |a * c| * Real.sqrt (devSum 2 x * devSum 2 y) := by
    rw [show a ^ 2 * devSum 2 x * (c ^ 2 * devSum 2 y) = (a * c) ^ 2 * (devSum 2 x * devSum 2 y) by ring,
      Real.sqrt_mul (sq_nonneg _), Real.sqrt_sq_eq_abs]
  have hq := (Real.sqrt_pos.2 (mul_pos h1 h2)).ne'
  have hac : a * c ≠ 0 := mul_ne_zero ha hc
  rw [hs]
  congr 1
  split_ifs with hpos
  · rw [abs_of_pos hpos]; field_simp
  · rw [abs_of_neg (lt_of_le_of_ne (not_lt.1 hpos) hac)]; field_simp

/-- **C46, perfect correlation.**  The coefficient is one exactly when `y` is an increasing affine function of `x`, and minus one
exactly when it is a decreasing one. -/
theorem pearson_extreme (x y : List ℝ) (hl : y.length = x.length) (hx : Varies x) (hy : Varies y) :
    (pearson x y = .ret 1 ↔ ∃ a b, 0 < a ∧ y = x.map fun t => a * t + b) ∧
    (pearson x y = .ret (-1) ↔ ∃ a b, a < 0 ∧ y = x.map fun t => a * t + b) := by
  have h1 := hx.pos
  have h2 := hy.pos
  have hq := Real.sqrt_pos.2 (mul_pos h1 h2)
  have key : ∀ s : ℝ, s * s = 1 → pearson x y = .ret s → ∃ a b, 0 < s * a ∧ y = x.map fun t => a * t + b := by
    intro s hs hr
    rw [pearson_eq x y hl hx hy] at hr
    have hr' : coprod x y = s * Real.sqrt (devSum 2 x * devSum 2 y) := by
      rw [Outcome.ret.injEq, div_eq_iff hq.ne'] at hr; exact hr
    have hcc : coprod x y ^ 2 = devSum 2 x * devSum 2 y := by
      rw [hr', mul_pow, Real.sq_sqrt (by positivity), show s ^ 2 = 1 by rw [← hs]; ring, one_mul]
    have hz : ∑ i ∈ Finset.range x.length, ((y.getD i 0 - mean y) - coprod x y / devSum 2 x * (x.getD i 0 - mean x)) ^ 2 = 0 := by
      have e : ∀ i ∈ Finset.range x.length, ((y.getD i 0 - mean y) - coprod x y / devSum 2 x * (x.getD i 0 - mean x)) ^ 2 =
          (y.getD i 0 - mean y) ^ 2 - 2 * (coprod x y / devSum 2 x) * ((x.getD i 0 - mean x) * (y.getD i 0 - mean y)) +
            (coprod x y / devSum 2 x) ^ 2 * (x.getD i 0 - mean x) ^ 2 := fun i _ => by ring
      rw [Finset.sum_congr rfl e, Finset.sum_add_distrib, Finset.sum_sub_distrib, ← Finset.mul_sum, ← Finset.mul_sum,
        ← coprod_eq x y hl, ← devSum_eq 2 x]
      have : ∑ i ∈ Finset.range x.length, (y.getD i 0 - mean y) ^ 2 = devSum 2 y := by rw [devSum_eq, hl]
      rw [this]
      field_simp
      rw [hcc]; ring
    rw [Finset.sum_eq_zero_iff_of_nonneg fun i _ => sq_nonneg _] at hz
    refine ⟨coprod x y / devSum 2 x, mean y - coprod x y / devSum 2 x * mean x, ?_, ?_⟩
    · rw [hr', ← mul_div_assoc, ← mul_assoc, hs, one_mul]
      exact div_pos hq h1
    · refine List.ext_getElem (by simpa using hl) fun i hi hi' => ?_
      have hix : i < x.length := by omega
      have := hz i (by simpa using hix)
      rw [sq_eq_zero_iff] at this
      rw [List.getElem_map]
      simp only [List.getD, List.getElem?_eq_getElem hi, List.getElem?_eq_getElem hix, Option.getD_some] at this
      linarith
  have conv : ∀ a b, a ≠ 0 → (y = x.map fun t => a * t + b) → pearson x y = .ret (if 0 < a then 1 else -1) := by
    intro a b ha he
    obtain ⟨r, hr, h⟩ := pearson_affine x x rfl hx hx 1 0 a b one_ne_zero ha
    rw [pearson_eq x x rfl hx hx, coprod_self, Real.sqrt_mul_self h1.le, div_self h1.ne', Outcome.ret.injEq] at hr
    have e : (x.map fun t => (1 : ℝ) * t + 0) = x := by simp
    rw [e, ← he, ← hr, one_mul] at h
    exact h
  refine ⟨⟨fun h => ?_, ?_⟩, ⟨fun h => ?_, ?_⟩⟩
  · obtain ⟨a, b, ha, he⟩ := key 1 (by norm_num) h
    exact ⟨a, b, by linarith, he⟩
  · rintro ⟨a, b, ha, he⟩
    rw [conv a b ha.ne' he, if_pos ha]
  · obtain ⟨a, b, ha, he⟩ := key (-1) (by norm_num) h
    exact ⟨a, b, by linarith, he⟩
  · rintro ⟨a, b, ha, he⟩
    rw [conv a b ha.ne he, if_neg ha.not_gt]

/-- **C46, `RSquared`**: the square of Pearson's coefficient, between zero and one. -/
theorem rSquared_spec (x y : List ℝ) (hl : y.length = x.length) (hx : Varies x) (hy : Varies y) :
    ∃ r, pearson x y = .ret r ∧ rSquared x y = .ret (r ^ 2) ∧ 0 ≤ r ^ 2 ∧ r ^ 2 ≤ 1 := by
  obtain ⟨r, _, _, _, hr, _, _, _, _, _, _, h1, h2⟩ := pearson_spec x y hl hx hy
  exact ⟨r, hr, by rw [rSquared, hr, Outcome.bind_ret, sq], sq_nonneg r, by nlinarith⟩

/-- **C46, the test of Pearson's coefficient**: `t = r √((n - 2) / (1 - r²))`, infinite for perfect correlation. -/
theorem pearsonWithTest_spec (x y : List ℝ) (h : 3 ≤ x.length) (hl : y.length = x.length) (hx : Varies x) (hy : Varies y) :
    ∃ r t, pearson x y = .ret r ∧ pearsonWithTest x y = .ret (r, t, x.length - 2) ∧
      (r = 1 → t = ⊤) ∧ (r = -1 → t = ⊥) ∧
      (|r| < 1 → t = ((r * Real.sqrt (((x.length : ℝ) - 2) / (1 - r ^ 2)) : ℝ) : EReal)) := by
  obtain ⟨r, _, _, _, hr, _, _, _, _, _, _, h1, h2⟩ := pearson_spec x y hl hx hy
  have hcast : ((x.length - 2 : ℕ) : ℝ) = (x.length : ℝ) - 2 := by rw [Nat.cast_sub (by omega)]; norm_num
  by_cases hr1 : r * r ≥ 1
  · refine ⟨r, if r > 0 then ⊤ else ⊥, hr, ?_, ?_, ?_, ?_⟩
    · rw [pearsonWithTest, if_neg (by omega), hr, Outcome.bind_ret, tStatistic, if_pos hr1]; rfl
    · rintro rfl; rw [if_pos one_pos]
    · rintro rfl; rw [if_neg (by norm_num)]
    · intro hlt
      rw [abs_lt] at hlt
      nlinarith
  · have hlt : r * r < 1 := not_le.1 hr1
    have h3 : (3 : ℝ) ≤ x.length := by exact_mod_cast h
    refine ⟨r, _, hr, ?_, ?_, ?_, fun _ => rfl⟩
    · rw [pearsonWithTest, if_neg (by omega), hr, Outcome.bind_ret, tStatistic, if_neg hr1, hcast,
        quot_of_ne (by linarith), Outcome.bind_ret, stdSqrt,
        if_neg (not_lt.2 (div_nonneg (by linarith) (by linarith))), Outcome.bind_ret, Outcome.bind_ret, ← sq]
    · rintro rfl; norm_num at hlt
    · rintro rfl; norm_num at hlt

/-! ## Covariance and correlation matrices -/

/-- Column `j` of a matrix with `n` rows, given by its entries. -/
def column (n : ℕ) (A : ℕ → ℕ → ℝ) (j : ℕ) : List ℝ := (List.range n).map fun i => A i j

theorem length_column (n : ℕ) (A : ℕ → ℕ → ℝ) (j : ℕ) : (column n A j).length = n := by simp [column]

theorem getD_column {n : ℕ} (A : ℕ → ℕ → ℝ) (j : ℕ) {i : ℕ} (h : i < n) : (column n A j).getD i 0 = A i j := by
  simp [column, List.getD, h]

theorem mean_column (n : ℕ) (A : ℕ → ℕ → ℝ) (j : ℕ) : mean (column n A j) = (∑ i ∈ Finset.range n, A i j) / n := by
  rw [mean, length_column]
  congr 1

theorem coprod_column (n : ℕ) (A : ℕ → ℕ → ℝ) (p q : ℕ) : coprod (column n A p) (column n A q) =
    ∑ i ∈ Finset.range n, (A i p - mean (column n A p)) * (A i q - mean (column n A q)) := by
  rw [coprod_eq _ _ (by rw [length_column, length_column]), length_column]
  exact Finset.sum_congr rfl fun i hi => by rw [getD_column A p (Finset.mem_range.1 hi), getD_column A q (Finset.mem_range.1 hi)]

open Mat in
theorem means_run {r c : ℕ} (A : ℕ → ℕ → ℝ) (hr : 2 ≤ r) :
    forRange c (List.replicate c 0) (meanStep (Dense.ofFn r c A)) = .ret (tab c fun j => mean (column r A j)) := by
  have hr0 : (r : ℝ) ≠ 0 := by exact_mod_cast (by omega : r ≠ 0)
  rw [replicate_eq_tab, forRange_fill c c le_rfl _ (fun j => mean (column r A j))]
  · congr 1
    exact tab_congr fun k hk => if_pos hk
  · intro j hj v
    rw [meanStep, Dense.ofFn_rows, forRange_sum r 0 (colStep (Dense.ofFn r c A) j) (fun i => A i j) fun i hi s => by
      rw [colStep, Dense.get_ofFn A hi hj]; rfl, Outcome.bind_ret, zero_add, quot_of_ne hr0, Outcome.bind_ret, mean_column]

open Mat in
theorem covEntry_run {r c : ℕ} (A : ℕ → ℕ → ℝ) (hr : 2 ≤ r) {p q : ℕ} (hp : p < c) (hq : q < c) (g : ℕ → ℕ → ℝ) :
    covEntry (Dense.ofFn r c A) (tab c fun j => mean (column r A j)) p (Dense.ofFn c c g) q =
      .ret (Dense.ofFn c c fun a b => if (a = p ∧ b = q) ∨ (a = q ∧ b = p) then
        coprod (column r A p) (column r A q) / ((r : ℝ) - 1) else g a b) := by
  have hr1 : (r : ℝ) - 1 ≠ 0 := by
    have : (2 : ℝ) ≤ r := by exact_mod_cast hr
    linarith
  rw [covEntry, Dense.ofFn_rows, forRange_sum r 0 _
    (fun i => (A i p - mean (column r A p)) * (A i q - mean (column r A q))) fun i hi s => by
      rw [covTerm, Dense.get_ofFn A hi hp, Outcome.bind_ret, index_tab _ hp, Outcome.bind_ret, Dense.get_ofFn A hi hq,
        Outcome.bind_ret, index_tab _ hq, Outcome.bind_ret],
    Outcome.bind_ret, zero_add, ← coprod_column, quot_of_ne hr1, Outcome.bind_ret, Dense.set_ofFn _ hp hq, Outcome.bind_ret,
    Dense.set_ofFn _ hq hp]
  congr 1
  refine Dense.ofFn_congr fun a _ b _ => ?_
  by_cases h1 : a = q ∧ b = p <;> by_cases h2 : a = p ∧ b = q <;> simp [h1, h2]

open Mat in
theorem covarianceMatrix_eq {r c : ℕ} (A : ℕ → ℕ → ℝ) (hr : 2 ≤ r) (hc : 0 < c) (hs : Dense.Shape c c) :
    covarianceMatrix (Dense.ofFn r c A) =
      .ret (Dense.ofFn c c fun p q => coprod (column r A p) (column r A q) / ((r : ℝ) - 1)) := by
  have hsym : ∀ p q, coprod (column r A p) (column r A q) = coprod (column r A q) (column r A p) := fun p q =>
    coprod_comm _ _ (by rw [length_column, length_column])
  rw [covarianceMatrix, if_neg (by simp; omega), if_neg (by simp; omega), Dense.ofFn_cols, means_run A hr, Outcome.bind_ret,
    Dense.new_spec hs, Outcome.bind_ret]
  have hinner : ∀ p < c, ∀ g : ℕ → ℕ → ℝ, forFromTo p c (Dense.ofFn c c g)
      (covEntry (Dense.ofFn r c A) (tab c fun j => mean (column r A j)) p) =
      .ret (Dense.ofFn c c fun a b => if (a = p ∧ p ≤ b) ∨ (b = p ∧ p ≤ a) then
        coprod (column r A a) (column r A b) / ((r : ℝ) - 1) else g a b) := by
    intro p hp g
    obtain ⟨t, ht, rfl⟩ := forFromTo_rule (fun q m => m = Dense.ofFn c c fun a b =>
        if (a = p ∧ p ≤ b ∧ b < q) ∨ (b = p ∧ p ≤ a ∧ a < q) then coprod (column r A a) (column r A b) / ((r : ℝ) - 1)
        else g a b) p c hp.le (Dense.ofFn c c g) (covEntry (Dense.ofFn r c A) (tab c fun j => mean (column r A j)) p)
      (Dense.ofFn_congr fun a _ b _ => by rw [if_neg (by omega)]) (by
        rintro q t h1 h2 rfl
        refine ⟨_, covEntry_run A hr hp h2 _, Dense.ofFn_congr fun a _ b _ => ?_⟩
        by_cases e1 : a = p ∧ b = q
        · rw [if_pos (.inl e1), if_pos (by omega), e1.1, e1.2]
        by_cases e2 : a = q ∧ b = p
        · rw [if_pos (.inr e2), if_pos (by omega), e2.1, e2.2, hsym]
        rw [if_neg (by tauto)]
        by_cases e3 : (a = p ∧ p ≤ b ∧ b < q) ∨ (b = p ∧ p ≤ a ∧ a < q)
        · rw [if_pos e3, if_pos (by omega)]
        · rw [if_neg e3, if_neg (by omega)])
    rw [ht]
    congr 1
    refine Dense.ofFn_congr fun a ha b hb => ?_
    by_cases e : (a = p ∧ p ≤ b) ∨ (b = p ∧ p ≤ a)
    · rw [if_pos e, if_pos (by omega)]
    · rw [if_neg e, if_neg (by omega)]
  obtain ⟨t, ht, rfl⟩ := forRange_rule (fun p m => m = Dense.ofFn c c fun a b =>
      if a < p ∨ b < p then coprod (column r A a) (column r A b) / ((r : ℝ) - 1) else 0) c (Dense.ofFn c c fun _ _ => 0)
    (fun m p => forFromTo p c m (covEntry (Dense.ofFn r c A) (tab c fun j => mean (column r A j)) p))
    (Dense.ofFn_congr fun a _ b _ => by rw [if_neg (by omega)]) (by
      rintro p t hp rfl
      refine ⟨_, hinner p hp _, Dense.ofFn_congr fun a _ b _ => ?_⟩
      by_cases e : (a = p ∧ p ≤ b) ∨ (b = p ∧ p ≤ a)
      · rw [if_pos e, if_pos (by omega)]
      · rw [if_neg e]
        by_cases e2 : a < p ∨ b < p
        · rw [if_pos e2, if_pos (by omega)]
        · rw [if_neg e2, if_neg (by omega)])
  rw [ht]
  congr 1
  exact Dense.ofFn_congr fun a ha b hb => if_pos (.inl ha)

open Mat in
/-- **C46, covariance matrix.**  Its entries are the covariances of the columns, it is symmetric, its diagonal holds the
variances, and it is positive semidefinite. -/
theorem covarianceMatrix_spec {r c : ℕ} (A : ℕ → ℕ → ℝ) (hr : 2 ≤ r) (hc : 0 < c) (hs : Dense.Shape c c) :
    ∃ C : ℕ → ℕ → ℝ, covarianceMatrix (Dense.ofFn r c A) = .ret (Dense.ofFn c c C) ∧
      (∀ p q, covariance (column r A p) (column r A q) = .ret (C p q)) ∧ (∀ p q, C p q = C q p) ∧
      (∀ p, variance (column r A p) = .ret (C p p)) ∧
      ∀ v : ℕ → ℝ, 0 ≤ ∑ p ∈ Finset.range c, ∑ q ∈ Finset.range c, v p * C p q * v q := by
  have hl : ∀ p, (column r A p).length = r := fun p => length_column r A p
  have hcov : ∀ p q, covariance (column r A p) (column r A q) =
      .ret (coprod (column r A p) (column r A q) / ((r : ℝ) - 1)) := by
    intro p q
    rw [covariance_eq _ _ (by rw [hl]; exact hr) (by rw [hl, hl]), hl]
  refine ⟨_, covarianceMatrix_eq A hr hc hs, hcov, ?_, ?_, ?_⟩
  · intro p q
    rw [coprod_comm _ _ (by rw [hl, hl])]
  · intro p
    rw [← hcov p p, (((covariance_spec _ _).1 (by rw [hl]; exact hr) rfl).2.2)]
  · intro v
    have hr1 : (0 : ℝ) ≤ (r : ℝ) - 1 := by
      have : (2 : ℝ) ≤ r := by exact_mod_cast hr
      linarith
    have e : ∑ p ∈ Finset.range c, ∑ q ∈ Finset.range c, v p * (coprod (column r A p) (column r A q) / ((r : ℝ) - 1)) * v q =
        (∑ i ∈ Finset.range r, (∑ p ∈ Finset.range c, v p * (A i p - mean (column r A p))) ^ 2) / ((r : ℝ) - 1) := by
      simp only [div_eq_mul_inv, coprod_column]
      symm
      rw [Finset.sum_mul]
      have e1 : ∀ i ∈ Finset.range r, (∑ p ∈ Finset.range c, v p * (A i p - mean (column r A p))) ^ 2 * ((r : ℝ) - 1)⁻¹ =
          ∑ p ∈ Finset.range c, ∑ q ∈ Finset.range c, v p * ((A i p - mean (column r A p)) * (A i q - mean (column r A q)) *
            ((r : ℝ) - 1)⁻¹) * v q := by
        intro i _
        rw [sq, Finset.sum_mul_sum, Finset.sum_mul]
        refine Finset.sum_congr rfl fun p _ => ?_
        rw [Finset.sum_mul]
        exact Finset.sum_congr rfl fun q _ => by ring
      rw [Finset.sum_congr rfl e1, Finset.sum_comm]
      refine Finset.sum_congr rfl fun p _ => ?_
      rw [Finset.sum_comm]
      refine Finset.sum_congr rfl fun q _ => ?_
      rw [Finset.sum_mul, Finset.mul_sum, Finset.sum_mul]
    rw [e]
    exact div_nonneg (Finset.sum_nonneg fun i _ => sq_nonneg _) hr1

open Mat in
theorem correlation_sd {c : ℕ} (C : ℕ → ℕ → ℝ) (hC : ∀ j < c, 0 < C j j) :
    forRange c (List.replicate c 0) (sdStep (Dense.ofFn c c C)) = .ret (tab c fun j => Real.sqrt (C j j)) := by
  rw [replicate_eq_tab, forRange_fill c c le_rfl _ (fun j => Real.sqrt (C j j))]
  · congr 1
    exact tab_congr fun k hk => if_pos hk
  · intro j hj v
    rw [sdStep, Dense.get_ofFn C hj hj, Outcome.bind_ret, if_neg (not_le.2 (hC j hj)), stdSqrt,
      if_neg (not_lt.2 (hC j hj).le), Outcome.bind_ret]

open Mat in
/-- **C46, correlation matrix.**  Its entries are Pearson's coefficients of the columns, it is symmetric with ones on the diagonal,
and all entries lie between minus one and one. -/
theorem correlationMatrix_spec {r c : ℕ} (A : ℕ → ℕ → ℝ) (hc : 0 < c) (hs : Dense.Shape c c)
    (hv : ∀ j < c, Varies (column r A j)) :
    ∃ R : ℕ → ℕ → ℝ, correlationMatrix (Dense.ofFn r c A) = .ret (Dense.ofFn c c R) ∧
      ∀ p < c, ∀ q < c, pearson (column r A p) (column r A q) = .ret (R p q) ∧ R p q = R q p ∧ R p p = 1 ∧ -1 ≤ R p q ∧
        R p q ≤ 1 := by
  have hr : 2 ≤ r := by
    have := (hv 0 hc).two
    rwa [length_column] at this
  have hl : ∀ p, (column r A p).length = r := fun p => length_column r A p
  have hr1 : (0 : ℝ) < (r : ℝ) - 1 := by
    have : (2 : ℝ) ≤ r := by exact_mod_cast hr
    linarith
  have hdiag : ∀ j < c, 0 < coprod (column r A j) (column r A j) / ((r : ℝ) - 1) := by
    intro j hj
    rw [coprod_self]
    exact div_pos (hv j hj).pos hr1
  have hP : ∀ p < c, ∀ q < c, pearson (column r A p) (column r A q) =
      .ret (coprod (column r A p) (column r A q) / Real.sqrt (devSum 2 (column r A p) * devSum 2 (column r A q))) :=
    fun p hp q hq => pearson_eq _ _ (by rw [hl, hl]) (hv p hp) (hv q hq)
  refine ⟨fun p q => coprod (column r A p) (column r A q) /
    Real.sqrt (devSum 2 (column r A p) * devSum 2 (column r A q)), ?_, ?_⟩
  · rw [correlationMatrix, if_neg (by simp; omega), if_neg (by simp; omega), covarianceMatrix_eq A hr hc hs, Outcome.bind_ret,
      Dense.ofFn_cols, correlation_sd _ hdiag, Outcome.bind_ret, Dense.new_spec hs, Outcome.bind_ret]
    have hentry : ∀ p < c, ∀ q < c, ∀ m : Dense ℝ, corrEntry
        (Dense.ofFn c c fun p q => coprod (column r A p) (column r A q) / ((r : ℝ) - 1))
        (tab c fun j => Real.sqrt (coprod (column r A j) (column r A j) / ((r : ℝ) - 1))) p m q =
        m.set p q (coprod (column r A p) (column r A q) / Real.sqrt (devSum 2 (column r A p) * devSum 2 (column r A q))) := by
      intro p hp q hq m
      have h1 := (hv p hp).pos
      have h2 := (hv q hq).pos
      rw [corrEntry, Dense.get_ofFn _ hp hq, Outcome.bind_ret, index_tab _ hp, Outcome.bind_ret, index_tab _ hq,
        Outcome.bind_ret, coprod_self, coprod_self, ← Real.sqrt_mul (div_pos h1 hr1).le, div_mul_div_comm,
        Real.sqrt_div (by positivity), Real.sqrt_mul_self hr1.le]
      have := (Real.sqrt_pos.2 (mul_pos h1 h2)).ne'
      rw [quot_of_ne (by positivity), Outcome.bind_ret]
      congr 1
      field_simp
    rw [Dense.forRange_row c (fun _ _ => 0) (fun p q => coprod (column r A p) (column r A q) /
      Real.sqrt (devSum 2 (column r A p) * devSum 2 (column r A q))) le_rfl]
    · congr 1
      exact Dense.ofFn_congr fun a ha b _ => if_pos ha
    · intro p hp g _
      rw [Dense.forRange_cols c p g (fun q => coprod (column r A p) (column r A q) /
        Real.sqrt (devSum 2 (column r A p) * devSum 2 (column r A q))) hp le_rfl _ fun q hq m => hentry p hp q hq m]
      congr 1
      refine Dense.ofFn_congr fun a _ b hb => ?_
      by_cases e : a = p
      · rw [if_pos e, if_pos e, if_pos hb]
      · rw [if_neg e, if_neg e]
  · intro p hp q hq
    obtain ⟨t, _, _, _, h1, _, _, _, _, _, _, h2, h3⟩ := pearson_spec _ _ (by rw [hl, hl]) (hv p hp) (hv q hq)
    have := hP p hp q hq
    rw [h1, Outcome.ret.injEq] at this
    subst this
    refine ⟨hP p hp q hq, ?_, ?_, h2, h3⟩
    · dsimp only
      rw [coprod_comm (column r A p) (column r A q) (by rw [hl, hl]), mul_comm (devSum 2 (column r A p))]
    · dsimp only
      rw [coprod_self, Real.sqrt_mul_self (hv p hp).pos.le, div_self (hv p hp).pos.ne']

open Mat in
/-- **C46, the correlation matrix is refused** when a column is constant. -/
theorem correlationMatrix_refuses {r c : ℕ} (A : ℕ → ℕ → ℝ) (hr : 2 ≤ r) (hs : Dense.Shape c c)
    (hv : ∃ j < c, ¬ Varies (column r A j)) : correlationMatrix (Dense.ofFn r c A) = .exn statErr := by
  obtain ⟨j, hj, hv⟩ := hv
  have hz : ∀ d : List ℝ, ¬ Varies d → devSum 2 d = 0 := by
    intro d hd
    rw [devSum_two_eq_zero]
    intro a ha b hb
    by_contra hab
    exact hd ⟨a, ha, b, hb, hab⟩
  rw [correlationMatrix, if_neg (by simp; omega), if_neg (by simp; omega), covarianceMatrix_eq A hr (by omega) hs,
    Outcome.bind_ret, Dense.ofFn_cols]
  set C : ℕ → ℕ → ℝ := fun p q => coprod (column r A p) (column r A q) / ((r : ℝ) - 1)
  have hj0 : C j j ≤ 0 := by
    simp only [C]
    rw [coprod_self, hz _ hv, zero_div]
  have hsat : ((forRange c (List.replicate c 0) (sdStep (Dense.ofFn c c C)))).Sat (fun _ => False) (fun e => e = statErr) := by
    refine Outcome.Sat.mono (forRange_sat (fun i (v : List ℝ) => v.length = c ∧ ∀ k < i, 0 < C k k) (fun e => e = statErr) c _ _
      (by simp) ?_) (fun v hv => absurd (hv.2 j hj) (not_lt.2 hj0)) (fun _ h => h)
    rintro i v hi ⟨hlen, hP⟩
    rw [sdStep, Dense.get_ofFn C hi hi, Outcome.bind_ret]
    by_cases hci : C i i ≤ 0
    · rw [if_pos hci]; rfl
    · rw [if_neg hci, stdSqrt, if_neg (not_lt.2 (not_le.1 hci).le), Outcome.bind_ret, Outcome.store, if_pos (by omega)]
      refine ⟨by simp [hlen], fun k hk => ?_⟩
      rcases Nat.lt_succ_iff_lt_or_eq.1 hk with hk | rfl
      · exact hP k hk
      · exact not_le.1 hci
  cases hrun : forRange c (List.replicate c 0) (sdStep (Dense.ofFn c c C)) with
  | ret t => rw [hrun] at hsat; exact hsat.elim
  | exn e => rw [hrun] at hsat; rw [show e = statErr from hsat]; rfl
  | ub => rw [hrun] at hsat; exact hsat.elim

/-! ## The hypotheses can be met -/

example : Varies [1, 2, 4] := ⟨1, by simp, 2, by simp, by norm_num⟩

example : pearson [1, 2, 4] [5, 3, -1] = .ret (-1) := by
  refine (pearson_extreme [1, 2, 4] [5, 3, -1] rfl ⟨1, by simp, 2, by simp, by norm_num⟩
    ⟨5, by simp, 3, by simp, by norm_num⟩).2.2 ⟨-2, 7, by norm_num, ?_⟩
  norm_num

example : Mat.Dense.Shape 3 3 ∧ ∀ j < 2, Varies (column 3 (fun i j => (i : ℝ) * (j + 1)) j) := by
  refine ⟨.inr (by norm_num), fun j _ => ⟨0 * (j + 1), ?_, 1 * (j + 1), ?_, ?_⟩⟩
  · exact List.mem_map.2 ⟨0, by simp, by simp⟩
  · exact List.mem_map.2 ⟨1, by simp, by simp⟩
  · have : (0 : ℝ) < j + 1 := by positivity
    linarith

end Verif.Stats
