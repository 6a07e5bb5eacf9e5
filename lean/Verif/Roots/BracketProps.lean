import Verif.Roots.BisectProps

/-!
# The bracketing helpers

C44: `BracketRoot` and `FindRootBrackets`.
-/

set_option autoImplicit false

namespace Verif.Roots

/-- **C44.**  When `BracketRoot` answers true, the function has opposite signs at the ends it leaves, which enclose the
initial interval; equal ends are refused.  It never changes the order of the ends. -/
theorem bracketRoot_spec (f : ℝ → ℝ) (x1 x2 : ℝ) (maxTry : ℤ) :
    (x1 = x2 → bracketRoot f x1 x2 maxTry = .exn (.mml "RootFindingError")) ∧
    (x1 ≠ x2 → ∃ ok a b, bracketRoot f x1 x2 maxTry = .ret (ok, a, b) ∧ Set.uIcc x1 x2 ⊆ Set.uIcc a b ∧
      (x1 < x2 → a < b) ∧ (x2 < x1 → b < a) ∧ (ok = true → f a * f b < 0)) := by
  constructor
  · intro h
    rw [bracketRoot, if_pos h]
  intro h
  have := forExit_rule
    (fun _ (s : Ends) => s.f1 = f s.x1 ∧ s.f2 = f s.x2 ∧ Set.uIcc x1 x2 ⊆ Set.uIcc s.x1 s.x2 ∧
      (x1 < x2 → s.x1 < s.x2) ∧ (x2 < x1 → s.x2 < s.x1))
    (fun s : Ends => (s.f1 = f s.x1 ∧ s.f2 = f s.x2 ∧ Set.uIcc x1 x2 ⊆ Set.uIcc s.x1 s.x2 ∧
      (x1 < x2 → s.x1 < s.x2) ∧ (x2 < x1 → s.x2 < s.x1)) ∧ s.f1 * s.f2 < 0)
    (bracketStep f) 0 maxTry.toNat ⟨x1, x2, f x1, f x2⟩ ⟨rfl, rfl, subset_rfl, id, id⟩
    (by
      rintro i ⟨a, b, fa, fb⟩ _ _ ⟨h1, h2, h3, h4, h5⟩
      dsimp only at h1 h2 h3 h4 h5
      rw [bracketStep]
      dsimp only
      split
      · rename_i hlt
        exact ⟨⟨h1, h2, h3, h4, h5⟩, hlt⟩
      have hab : a < b ∨ b < a := (lt_or_gt_of_ne h).imp h4 h5
      split
      · refine ⟨rfl, h2, h3.trans ?_, fun hx => ?_, fun hx => ?_⟩
        · apply Set.uIcc_subset_uIcc
          · rw [Set.mem_uIcc]; dsimp only
            rcases hab with hab | hab
            · left; constructor <;> norm_num <;> linarith
            · right; constructor <;> norm_num <;> linarith
          · exact Set.right_mem_uIcc
        · have := h4 hx; dsimp only; norm_num; linarith
        · have := h5 hx; dsimp only; norm_num; linarith
      · refine ⟨h1, rfl, h3.trans ?_, fun hx => ?_, fun hx => ?_⟩
        · apply Set.uIcc_subset_uIcc
          · exact Set.left_mem_uIcc
          · rw [Set.mem_uIcc]; dsimp only
            rcases hab with hab | hab
            · left; constructor <;> norm_num <;> linarith
            · right; constructor <;> norm_num <;> linarith
        · have := h4 hx; dsimp only; norm_num; linarith
        · have := h5 hx; dsimp only; norm_num; linarith)
  rw [bracketRoot, if_neg h]
  cases e : forExit (bracketStep f) 0 maxTry.toNat ⟨x1, x2, f x1, f x2⟩ with
  | inr s =>
    rw [e] at this
    obtain ⟨⟨h1, h2, h3, h4, h5⟩, h6⟩ := this
    exact ⟨_, _, _, rfl, h3, h4, h5, fun _ => by rw [← h1, ← h2]; exact h6⟩
  | inl s =>
    rw [e] at this
    obtain ⟨h1, h2, h3, h4, h5⟩ := this
    exact ⟨_, _, _, rfl, h3, h4, h5, fun hf => by cases hf⟩

/-- **C44.**  A bracket that `BracketRoot` reports contains a root of a continuous function. -/
theorem bracketRoot_root (f : ℝ → ℝ) (hf : Continuous f) (x1 x2 : ℝ) (maxTry : ℤ) (a b : ℝ)
    (h : bracketRoot f x1 x2 maxTry = .ret (true, a, b)) : ∃ z ∈ Set.uIcc a b, f z = 0 := by
  by_cases hx : x1 = x2
  · rw [(bracketRoot_spec f x1 x2 maxTry).1 hx] at h; cases h
  · obtain ⟨ok, a', b', e, -, -, -, hs⟩ := (bracketRoot_spec f x1 x2 maxTry).2 hx
    rw [e] at h
    cases h
    have hs := hs rfl
    rcases lt_or_ge (f a) 0 with h1 | h1
    · obtain ⟨z, hz, -, hz0⟩ := root_between (a := a) (b := b) hf.continuousOn Set.left_mem_uIcc Set.right_mem_uIcc h1.le
        (by nlinarith)
      exact ⟨z, hz, hz0⟩
    · obtain ⟨z, hz, -, hz0⟩ := root_between (a := b) (b := a) hf.continuousOn Set.left_mem_uIcc Set.right_mem_uIcc
        (by nlinarith) h1
      rw [Set.uIcc_comm] at hz
      exact ⟨z, hz, hz0⟩

/-- `BracketRoot` answers true on `x - 3` from `[0, 1]`. -/
example : bracketRoot (fun x => x - 3) 0 1 50 = .ret (true, 0, 1 + 1.6 * (1 - 0) + 1.6 * (1 + 1.6 * (1 - 0) - 0)) := by
  have e0 : forExit (bracketStep fun x => x - 3) 0 50 ⟨0, 1, (fun x : ℝ => x - 3) 0, (fun x : ℝ => x - 3) 1⟩ =
      .inr ⟨0, 1 + 1.6 * (1 - 0) + 1.6 * (1 + 1.6 * (1 - 0) - 0), -3, 1 + 1.6 * (1 - 0) + 1.6 * (1 + 1.6 * (1 - 0) - 0) - 3⟩ := by
    norm_num [forExit, bracketStep, abs_of_neg, abs_of_pos]
  rw [bracketRoot, if_neg (by norm_num)]
  simp only [show (50 : ℤ).toNat = 50 from rfl, e0]

/-- **C44, disagreement.**  The documentation says that the answer false means that no bracket was found; the last
expansion is not tested, so the ends left can be a bracket all the same. -/
theorem bracketRoot_misses_last : ∃ (f : ℝ → ℝ) (a b : ℝ), bracketRoot f 0 1 1 = .ret (false, a, b) ∧ f a * f b < 0 := by
  refine ⟨fun x => x - 2, 0, 1 + 1.6 * (1 - 0), ?_, by norm_num⟩
  have e0 : forExit (bracketStep fun x => x - 2) 0 1 ⟨0, 1, (fun x : ℝ => x - 2) 0, (fun x : ℝ => x - 2) 1⟩ =
      .inl ⟨0, 1 + 1.6 * (1 - 0), -2, 1 + 1.6 * (1 - 0) - 2⟩ := by
    norm_num [forExit, bracketStep, abs_of_neg, abs_of_pos]
  rw [bracketRoot, if_neg (by norm_num)]
  simp only [show (1 : ℤ).toNat = 1 from rfl, e0]

/-! ## `FindRootBrackets` -/

/-- The `i`-th sample point when `[x1, x2]` is cut into `n` equal parts. -/
noncomputable def sample (x1 x2 : ℝ) (n : ℤ) (i : ℕ) : ℝ := x1 + i * ((x2 - x1) / n)

/-- The consecutive sample pairs between which the function changes sign or vanishes, among the first `k` pairs. -/
noncomputable def signChanges (f : ℝ → ℝ) (x1 x2 : ℝ) (n : ℤ) (k : ℕ) : List (ℝ × ℝ) :=
  ((List.range k).map fun i => (sample x1 x2 n i, sample x1 x2 n (i + 1))).filter fun p => f p.2 * f p.1 ≤ 0

theorem length_resize (v : List ℝ) (n : ℕ) : (resize v n).length = n := by
  simp only [resize, List.length_append, List.length_take, List.length_replicate]; omega

theorem take_resize (v : List ℝ) {n k : ℕ} (h1 : k ≤ v.length) (h2 : k ≤ n) : (resize v n).take k = v.take k := by
  rw [resize, List.take_append_of_le_length (by simp; omega), List.take_take, min_eq_left h2]

theorem take_set_succ (v : List ℝ) {k : ℕ} (h : k < v.length) (a : ℝ) : (v.set k a).take (k + 1) = v.take k ++ [a] := by
  rw [List.take_add_one, List.take_set_of_le le_rfl]
  simp [h]

theorem signChanges_succ (f : ℝ → ℝ) (x1 x2 : ℝ) (n : ℤ) (k : ℕ) :
    signChanges f x1 x2 n (k + 1) = signChanges f x1 x2 n k ++
      if f (sample x1 x2 n (k + 1)) * f (sample x1 x2 n k) ≤ 0 then [(sample x1 x2 n k, sample x1 x2 n (k + 1))] else [] := by
  rw [signChanges, List.range_succ, List.map_append, List.filter_append, ← signChanges]
  congr 1
  simp only [List.map_cons, List.map_nil, List.filter_cons, List.filter_nil, decide_eq_true_eq]

theorem recordBracket_spec (s : Brackets) (a b : ℝ) (h1 : s.xb1.length = s.numBrackets)
    (h2 : s.xb2.length = s.numBrackets) (h3 : s.numRoots < s.numBrackets) :
    ∃ t, recordBracket s a b = .ret t ∧ t.numRoots = s.numRoots + 1 ∧ t.xb1.length = t.numBrackets ∧
      t.xb2.length = t.numBrackets ∧ t.numRoots < t.numBrackets ∧ s.numBrackets ≤ t.numBrackets ∧
      t.xb1.take t.numRoots = s.xb1.take s.numRoots ++ [a] ∧ t.xb2.take t.numRoots = s.xb2.take s.numRoots ++ [b] := by
  rw [recordBracket, Outcome.store, if_pos (by omega), Outcome.bind_ret, Outcome.store, if_pos (by omega),
    Outcome.bind_ret]
  split
  · rename_i hfull
    refine ⟨_, rfl, rfl, length_resize _ _, length_resize _ _, by dsimp only; omega, by dsimp only; omega, ?_, ?_⟩
    · dsimp only
      rw [take_resize _ (by simp; omega) (by omega), take_set_succ _ (by omega)]
    · dsimp only
      rw [take_resize _ (by simp; omega) (by omega), take_set_succ _ (by omega)]
  · refine ⟨_, rfl, rfl, by simpa using h1, by simpa using h2, by dsimp only; omega, le_rfl, ?_, ?_⟩
    · exact take_set_succ _ (by omega) a
    · exact take_set_succ _ (by omega) b

/-- **C44.**  `FindRootBrackets` never writes outside its vectors, for any number of brackets, and returns exactly the
consecutive sample pairs between which the function changes sign or vanishes, in order, at the front of the vectors. -/
theorem findRootBrackets_spec (f : ℝ → ℝ) (x1 x2 : ℝ) (n : ℤ) (v1 v2 : List ℝ) :
    ∃ k xb1 xb2, findRootBrackets f x1 x2 n v1 v2 = .ret (k, xb1, xb2) ∧
      k = (signChanges f x1 x2 n n.toNat).length ∧ xb1.take k = (signChanges f x1 x2 n n.toNat).map Prod.fst ∧
      xb2.take k = (signChanges f x1 x2 n n.toNat).map Prod.snd ∧ xb1.length = xb2.length ∧ k < xb1.length ∧
      20 ≤ xb1.length := by
  obtain ⟨s, hs, h1, h2, h3, h4, h5, h6, h7, h8, h9⟩ := forRange_rule
    (fun i (s : Brackets) => s.xb1.length = s.numBrackets ∧ s.xb2.length = s.numBrackets ∧ s.numRoots < s.numBrackets ∧
      20 ≤ s.numBrackets ∧ s.x = sample x1 x2 n i ∧ s.fp = f (sample x1 x2 n i) ∧
      s.numRoots = (signChanges f x1 x2 n i).length ∧ s.xb1.take s.numRoots = (signChanges f x1 x2 n i).map Prod.fst ∧
      s.xb2.take s.numRoots = (signChanges f x1 x2 n i).map Prod.snd) n.toNat
    (⟨resize v1 20, resize v2 20, 20, 0, x1, f x1⟩ : Brackets) (bracketsStep f ((x2 - x1) / n))
    ⟨length_resize _ _, length_resize _ _, by simp, le_rfl, by simp [sample], by simp [sample], rfl, rfl, rfl⟩
    (by
      rintro i ⟨xb1, xb2, nb, nr, x, fp⟩ hi ⟨h1, h2, h3, h4, h5, h6, h7, h8, h9⟩
      dsimp only at h1 h2 h3 h4 h5 h6 h7 h8 h9
      have hx : x + (x2 - x1) / n = sample x1 x2 n (i + 1) := by
        rw [h5, sample, sample]; push_cast; ring
      have hx' : x + (x2 - x1) / n - (x2 - x1) / n = sample x1 x2 n i := by rw [h5]; ring
      rw [bracketsStep]
      dsimp only
      rw [hx', hx, h6]
      by_cases hc : f (sample x1 x2 n (i + 1)) * f (sample x1 x2 n i) ≤ 0
      · rw [if_pos hc]
        obtain ⟨t, ht, t1, t2, t3, t4, t5, t6, t7⟩ := recordBracket_spec ⟨xb1, xb2, nb, nr, x, f (sample x1 x2 n i)⟩
          (sample x1 x2 n i) (sample x1 x2 n (i + 1)) h1 h2 h3
        dsimp only at t1 t2 t3 t4 t5 t6 t7
        rw [ht]
        refine ⟨_, rfl, t2, t3, t4, by dsimp only; omega, rfl, rfl, ?_, ?_, ?_⟩ <;> dsimp only <;>
          rw [signChanges_succ, if_pos hc]
        · simp [t1, h7]
        · rw [t6, h8, List.map_append]; rfl
        · rw [t7, h9, List.map_append]; rfl
      · rw [if_neg hc]
        refine ⟨_, rfl, h1, h2, h3, h4, rfl, rfl, ?_, ?_, ?_⟩ <;> dsimp only <;>
          rw [signChanges_succ, if_neg hc, List.append_nil]
        · exact h7
        · exact h8
        · exact h9)
  exact ⟨s.numRoots, s.xb1, s.xb2, by rw [findRootBrackets, hs, Outcome.bind_ret], h7, h8, h9, by omega, by omega, by omega⟩

/-- **C44.**  Every bracket returned contains a root of a continuous function. -/
theorem findRootBrackets_root (f : ℝ → ℝ) (hf : Continuous f) (x1 x2 : ℝ) (n : ℤ) (v1 v2 : List ℝ) (k : ℕ)
    (xb1 xb2 : List ℝ) (h : findRootBrackets f x1 x2 n v1 v2 = .ret (k, xb1, xb2)) (i : ℕ) (hi : i < k) :
    ∃ a b, xb1[i]? = some a ∧ xb2[i]? = some b ∧ f a * f b ≤ 0 ∧ ∃ z ∈ Set.uIcc a b, f z = 0 := by
  obtain ⟨k', y1, y2, e, h1, h2, h3, -⟩ := findRootBrackets_spec f x1 x2 n v1 v2
  rw [e] at h
  cases h
  have hi' : i < (signChanges f x1 x2 n n.toNat).length := by omega
  obtain ⟨p, hp⟩ : ∃ p, (signChanges f x1 x2 n n.toNat)[i]? = some p := ⟨_, List.getElem?_eq_getElem hi'⟩
  have hmem := List.mem_of_getElem? hp
  have hsign : f p.2 * f p.1 ≤ 0 := by
    rw [signChanges, List.mem_filter] at hmem
    simpa using hmem.2
  have e1 : xb1[i]? = some p.1 := by
    have : (xb1.take k)[i]? = some p.1 := by rw [h2, List.getElem?_map, hp]; rfl
    rwa [List.getElem?_take_of_lt hi] at this
  have e2 : xb2[i]? = some p.2 := by
    have : (xb2.take k)[i]? = some p.2 := by rw [h3, List.getElem?_map, hp]; rfl
    rwa [List.getElem?_take_of_lt hi] at this
  refine ⟨p.1, p.2, e1, e2, by rw [mul_comm]; exact hsign, ?_⟩
  rcases le_or_gt (f p.1) 0 with h1 | h1
  · by_cases h0 : f p.1 = 0
    · exact ⟨p.1, Set.left_mem_uIcc, h0⟩
    have h1' : f p.1 < 0 := lt_of_le_of_ne h1 h0
    obtain ⟨z, hz, -, hz0⟩ := root_between (a := p.1) (b := p.2) hf.continuousOn Set.left_mem_uIcc Set.right_mem_uIcc h1
      (by nlinarith)
    exact ⟨z, hz, hz0⟩
  · obtain ⟨z, hz, -, hz0⟩ := root_between (a := p.2) (b := p.1) hf.continuousOn Set.left_mem_uIcc Set.right_mem_uIcc
      (by nlinarith) h1.le
    rw [Set.uIcc_comm] at hz
    exact ⟨z, hz, hz0⟩

/-- **C44.**  No sign change between consecutive sample points is missed, and the sample points run from `x1` to `x2`. -/
theorem findRootBrackets_complete (f : ℝ → ℝ) (x1 x2 : ℝ) (n : ℤ) (hn : 0 < n) (v1 v2 : List ℝ) (k : ℕ)
    (xb1 xb2 : List ℝ) (h : findRootBrackets f x1 x2 n v1 v2 = .ret (k, xb1, xb2)) :
    sample x1 x2 n 0 = x1 ∧ sample x1 x2 n n.toNat = x2 ∧
    ∀ i < n.toNat, f (sample x1 x2 n i) * f (sample x1 x2 n (i + 1)) ≤ 0 →
      ∃ j < k, xb1[j]? = some (sample x1 x2 n i) ∧ xb2[j]? = some (sample x1 x2 n (i + 1)) := by
  obtain ⟨k', y1, y2, e, h1, h2, h3, -⟩ := findRootBrackets_spec f x1 x2 n v1 v2
  rw [e] at h
  cases h
  refine ⟨by simp [sample], ?_, fun i hi hs => ?_⟩
  · have hc : ((n.toNat : ℕ) : ℝ) = (n : ℝ) := by
      have : ((n.toNat : ℕ) : ℤ) = n := Int.toNat_of_nonneg hn.le
      exact_mod_cast this
    have hn' : (n : ℝ) ≠ 0 := by exact_mod_cast hn.ne'
    rw [sample, hc]
    field_simp
    ring
  · have hmem : (sample x1 x2 n i, sample x1 x2 n (i + 1)) ∈ signChanges f x1 x2 n n.toNat := by
      rw [signChanges, List.mem_filter, List.mem_map]
      refine ⟨⟨i, List.mem_range.mpr hi, rfl⟩, ?_⟩
      rw [mul_comm]
      simpa using hs
    obtain ⟨j, hj, ej⟩ := List.mem_iff_getElem.mp hmem
    have hp : (signChanges f x1 x2 n n.toNat)[j]? = some (sample x1 x2 n i, sample x1 x2 n (i + 1)) := by
      rw [List.getElem?_eq_getElem hj, ej]
    have hjk : j < k := by omega
    refine ⟨j, hjk, ?_, ?_⟩
    · have : (xb1.take k)[j]? = some (sample x1 x2 n i) := by rw [h2, List.getElem?_map, hp]; rfl
      rwa [List.getElem?_take_of_lt hjk] at this
    · have : (xb2.take k)[j]? = some (sample x1 x2 n (i + 1)) := by rw [h3, List.getElem?_map, hp]; rfl
      rwa [List.getElem?_take_of_lt hjk] at this

/-- Two brackets of `x² - 1` on `[-2, 2]` cut into four: the roots are sample points, so each is reported twice. -/
example : (signChanges (fun x => x ^ 2 - 1) (-2) 2 4 4).length = 4 := by
  norm_num [signChanges, sample, List.range_succ, List.filter_cons]

/-- **C44, disagreement.**  The documentation says that the vectors are resized to the number of brackets; they never
are: they keep at least twenty elements and always at least one that belongs to no bracket. -/
theorem findRootBrackets_not_resized (f : ℝ → ℝ) (x1 x2 : ℝ) (n : ℤ) (v1 v2 : List ℝ) :
    ∀ k xb1 xb2, findRootBrackets f x1 x2 n v1 v2 = .ret (k, xb1, xb2) → xb1.length ≠ k ∧ 20 ≤ xb1.length := by
  intro k xb1 xb2 h
  obtain ⟨k', y1, y2, e, -, -, -, -, h1, h2⟩ := findRootBrackets_spec f x1 x2 n v1 v2
  rw [e] at h
  cases h
  exact ⟨by omega, h2⟩

end Verif.Roots
