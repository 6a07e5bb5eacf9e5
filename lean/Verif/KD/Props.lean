import Verif.KD.Lemmas
import Mathlib.Tactic.NormNum
import Mathlib.Tactic.FinCases

/-!
# Properties of the KD-tree (C20, C21, C22)

`dist q p` below is the specification: the Euclidean distance.  `BuiltAll pts maxLeaf t` ranges over every tree
that `build` can produce, whatever `nth_element` does within its postcondition.
-/

set_option autoImplicit false

namespace Verif.KD

variable {n d : ℕ}

/-- Euclidean distance (specification). -/
noncomputable def dist (q p : Fin d → ℝ) : ℝ := Real.sqrt (∑ i, (q i - p i) ^ 2)

theorem dist_eq (q p : Fin d → ℝ) : dist q p = Real.sqrt (distanceSquared q p) := by
  rw [dist, distanceSquared_eq]

theorem dist_le_dist {q p p' : Fin d → ℝ} (h : distanceSquared q p ≤ distanceSquared q p') : dist q p ≤ dist q p' := by
  rw [dist_eq, dist_eq]; exact Real.sqrt_le_sqrt h

theorem dist_le_iff {q p : Fin d → ℝ} {r : ℝ} (hr : 0 ≤ r) : dist q p ≤ r ↔ distanceSquared q p ≤ r * r := by
  rw [dist_eq, ← sq]; exact Real.sqrt_le_left hr

section Built
variable [NeZero d]

theorem BuiltAll.spec {pts : Fin n → Fin d → ℝ} {maxLeaf : ℤ} {t : Tree n d} (h : BuiltAll pts maxLeaf t) :
    (∀ j, j ∈ t.points) ∧ t.points.Nodup ∧ t.Ordered pts := by
  obtain ⟨hp, ho⟩ := Built.spec h
  exact ⟨fun j => hp.mem_iff.2 (List.mem_finRange j), hp.nodup_iff.2 (List.nodup_finRange n), ho⟩

theorem BuiltAll.nil_iff {pts : Fin n → Fin d → ℝ} {maxLeaf : ℤ} {t : Tree n d} (h : BuiltAll pts maxLeaf t) :
    t = .nil ↔ n = 0 := by
  rw [Built.nil_iff h]
  constructor
  · intro h'
    have := congrArg List.length h'
    simpa using this
  · rintro rfl; rfl

/-- `build` returns for every point set once leaves may hold at least one point. -/
theorem build_terminates (pts : Fin n → Fin d → ℝ) (maxLeaf : ℤ) (hm : 1 ≤ maxLeaf) : ∃ t, BuiltAll pts maxLeaf t :=
  built_exists pts maxLeaf hm n _ 0 (by simp)

/-- With a leaf size of zero or less `build` never returns, for every nonempty point set and whatever
`nth_element` does (endless recursion: the right half of one point is that point). -/
theorem build_diverges (pts : Fin n → Fin d → ℝ) (maxLeaf : ℤ) (hm : maxLeaf ≤ 0) (hn : n ≠ 0) :
    ¬ ∃ t, BuiltAll pts maxLeaf t := by
  rintro ⟨t, ht⟩
  have := congrArg List.length (not_built pts maxLeaf hm ht)
  simp at this; exact hn this

/-- C20: on a tree built from a nonempty point set, `findNearest` succeeds and returns an input point at the
least distance, and that distance. -/
theorem findNearest_correct (pts : Fin n → Fin d → ℝ) (maxLeaf : ℤ) (t : Tree n d) (ht : BuiltAll pts maxLeaf t)
    (hn : n ≠ 0) (q : Fin d → ℝ) :
    ∃ i, (findNearest pts t q).index = some i ∧ (findNearest pts t q).found = true ∧
      (findNearest pts t q).ok = true ∧ (findNearest pts t q).distance = dist q (pts i) ∧
      ∀ j, dist q (pts i) ≤ dist q (pts j) := by
  obtain ⟨hall, hnd, ho⟩ := ht.spec
  have hgood := nearestRec_good pts q t ho (S := fun _ => False) (b := none) (fun j h => h)
  have hne : t ≠ .nil := fun h => hn (ht.nil_iff.1 h)
  have hres : ∃ i x, nearestRec pts q t none = some (i, x) := by
    rcases hb : nearestRec pts q t none with _ | ⟨i, x⟩
    · rw [hb] at hgood
      exact absurd (Or.inr (hall _)) (hgood ⟨0, Nat.pos_of_ne_zero hn⟩)
    · exact ⟨i, x, rfl⟩
  obtain ⟨i, x, hb⟩ := hres
  rw [hb] at hgood
  obtain ⟨-, hx, hmin⟩ := hgood
  subst hx
  have hf : findNearest pts t q = ⟨some i, Real.sqrt (distanceSquared q (pts i)), true, true⟩ := by
    cases t with
    | nil => exact absurd rfl hne
    | leaf l => simp only [findNearest, hb]
    | split a v l r => simp only [findNearest, hb]
  rw [hf]
  exact ⟨i, rfl, rfl, rfl, (dist_eq _ _).symm, fun j => dist_le_dist (hmin j (Or.inr (hall j)))⟩

/-- C20, the other case: on an empty point set `findNearest` reports invalid input and finds nothing. -/
theorem findNearest_empty (pts : Fin n → Fin d → ℝ) (maxLeaf : ℤ) (t : Tree n d) (ht : BuiltAll pts maxLeaf t)
    (hn : n = 0) (q : Fin d → ℝ) :
    (findNearest pts t q).found = false ∧ (findNearest pts t q).index = none ∧ (findNearest pts t q).ok = false := by
  rw [ht.nil_iff.2 hn]; exact ⟨rfl, rfl, rfl⟩

/-- The brute force scan returns a point at the least distance too. -/
theorem bruteForce_correct (pts : Fin n → Fin d → ℝ) (hn : n ≠ 0) (q : Fin d → ℝ) :
    ∃ i, (bruteForce pts q).index = some i ∧ (bruteForce pts q).found = true ∧
      (bruteForce pts q).distance = dist q (pts i) ∧ ∀ j, dist q (pts i) ≤ dist q (pts j) := by
  have hgood := GoodBest.fold (D := fun i => distanceSquared (pts i) q) (List.finRange n) (S := fun _ => False)
    (b := none) (fun j h => h)
  unfold bruteForce
  rw [if_neg hn]
  generalize (List.finRange n).foldl (fun best i =>
      if ltBest (distanceSquared (pts i) q) best then some (i, distanceSquared (pts i) q) else best) none = b at hgood
  rcases b with _ | ⟨i, x⟩
  · exact absurd (Or.inr (List.mem_finRange _)) (hgood ⟨0, Nat.pos_of_ne_zero hn⟩)
  · obtain ⟨-, hx, hmin⟩ := hgood
    subst hx
    refine ⟨i, rfl, rfl, ?_, fun j => dist_le_dist ?_⟩
    · rw [dist_eq, distanceSquared_comm q]
    · rw [distanceSquared_comm q, distanceSquared_comm q]
      exact hmin j (Or.inr (List.mem_finRange j))

/-- C20: the tree search and the brute force scan report the same distance. -/
theorem findNearest_eq_bruteForce (pts : Fin n → Fin d → ℝ) (maxLeaf : ℤ) (t : Tree n d)
    (ht : BuiltAll pts maxLeaf t) (hn : n ≠ 0) (q : Fin d → ℝ) :
    (findNearest pts t q).distance = (bruteForce pts q).distance := by
  obtain ⟨i, -, -, -, hi, hmi⟩ := findNearest_correct pts maxLeaf t ht hn q
  obtain ⟨j, -, -, hj, hmj⟩ := bruteForce_correct pts hn q
  rw [hi, hj]
  exact le_antisymm (hmi j) (hmj i)

/-- C21: for positive `k`, `findKNearest` returns `min k n` distinct indices with their distances, in order of
increasing distance, and every point left out is at least as far as every returned one. -/
theorem findKNearest_correct (pts : Fin n → Fin d → ℝ) (maxLeaf : ℤ) (t : Tree n d) (ht : BuiltAll pts maxLeaf t)
    (q : Fin d → ℝ) (k : ℕ) (hk : 0 < k) :
    let r := findKNearest pts t q k
    r.ok = true ∧ r.indices.length = min k n ∧ r.indices.Nodup ∧
      r.distances = r.indices.map (fun i => dist q (pts i)) ∧ r.distances.Pairwise (· ≤ ·) ∧
      ∀ j, j ∉ r.indices → ∀ i ∈ r.indices, dist q (pts i) ≤ dist q (pts j) := by
  intro r
  by_cases hn : n = 0
  · have hr : r = ⟨[], [], true⟩ := by
      show findKNearest pts t q k = _
      rw [ht.nil_iff.2 hn, findKNearest, if_neg (by omega)]
    rw [hr]
    subst hn
    simp
  obtain ⟨hall, hnd, ho⟩ := ht.spec
  have hgood := kNearestRec_good pts q hk t ho hnd (S := fun _ => False) (b := []) (fun _ _ h => h)
    ⟨by simp, by simp, by simp, by simp, by simp, by simp⟩
  have hr : r = ⟨(extract (kNearestRec pts q k t []).length (kNearestRec pts q k t []) []).map Prod.snd,
      (extract (kNearestRec pts q k t []).length (kNearestRec pts q k t []) []).map (fun e => Real.sqrt e.1), true⟩ := by
    show findKNearest pts t q k = _
    have hk' : ¬ (k : ℤ) ≤ 0 := by omega
    cases t with
    | nil => exact absurd (ht.nil_iff.1 rfl) hn
    | leaf l => simp only [findKNearest, if_neg hk', Int.toNat_natCast]
    | split a v l r => simp only [findKNearest, if_neg hk', Int.toNat_natCast]
  obtain ⟨hperm, hsort⟩ := extract_spec _ (kNearestRec pts q k t []) [] rfl List.Pairwise.nil (by simp)
  rw [List.append_nil] at hperm
  rw [hr]
  generalize extract (kNearestRec pts q k t []).length (kNearestRec pts q k t []) [] = out at hperm hsort
  have hmem : ∀ i, i ∈ out.map Prod.snd ↔ i ∈ (kNearestRec pts q k t []).map Prod.snd :=
    fun i => (hperm.map Prod.snd).mem_iff
  have hndo : (out.map Prod.snd).Nodup := (hperm.map Prod.snd).nodup_iff.2 hgood.nodup
  have hval : ∀ e ∈ out, e.1 = distanceSquared q (pts e.2) := fun e he => hgood.val e (hperm.mem_iff.1 he)
  refine ⟨rfl, ?_, hndo, ?_, ?_, ?_⟩
  · have hl := hperm.length_eq
    have hle : out.length ≤ n := by simpa using hndo.length_le_card
    have hlk := hgood.len
    rw [List.length_map]
    by_cases hlt : (kNearestRec pts q k t []).length < k
    · have hsub : (List.finRange n) ⊆ out.map Prod.snd :=
        fun j _ => (hmem j).2 (hgood.all hlt j (Or.inr (hall j)))
      have := ((List.nodup_finRange n).subperm hsub).length_le
      simp at this
      omega
    · omega
  · rw [List.map_map]
    refine List.map_congr_left (fun e he => ?_)
    rw [Function.comp_apply, dist_eq, hval e he]
  · rw [List.pairwise_map]
    exact hsort.imp (fun h => Real.sqrt_le_sqrt h)
  · intro j hj i hi
    obtain ⟨e, he, rfl⟩ := List.mem_map.1 hi
    refine dist_le_dist ?_
    rw [← hval e he]
    exact hgood.out j (Or.inr (hall j)) (fun h => hj ((hmem j).2 h)) e (hperm.mem_iff.1 he)

/-- C21, the error branch: a nonpositive `k` is reported as invalid input with empty lists. -/
theorem findKNearest_invalid (pts : Fin n → Fin d → ℝ) (t : Tree n d) (q : Fin d → ℝ) (k : ℤ) (hk : k ≤ 0) :
    findKNearest pts t q k = ⟨[], [], false⟩ := by
  cases t <;> simp only [findKNearest, if_pos hk]

/-- C22: for a nonnegative radius `findInRadius` returns each index of a point within the radius exactly once,
nothing else, and beside each index its distance. -/
theorem findInRadius_correct (pts : Fin n → Fin d → ℝ) (maxLeaf : ℤ) (t : Tree n d) (ht : BuiltAll pts maxLeaf t)
    (q : Fin d → ℝ) (radius : ℝ) (hr : 0 ≤ radius) :
    let r := findInRadius pts t q radius
    r.ok = true ∧ r.indices.Nodup ∧ (∀ i, i ∈ r.indices ↔ dist q (pts i) ≤ radius) ∧
      r.distances = r.indices.map (fun i => dist q (pts i)) := by
  intro r
  by_cases hn : n = 0
  · have h : r = ⟨[], [], true⟩ := by
      show findInRadius pts t q radius = _
      rw [ht.nil_iff.2 hn, findInRadius]
    rw [h]
    subst hn
    exact ⟨rfl, List.nodup_nil, fun i => i.elim0, rfl⟩
  obtain ⟨hall, hnd, ho⟩ := ht.spec
  have h : r = ⟨(radiusRec pts q (radius * radius) t []).map Prod.fst,
      (radiusRec pts q (radius * radius) t []).map (fun e => Real.sqrt e.2), true⟩ := by
    show findInRadius pts t q radius = _
    cases t with
    | nil => exact absurd (ht.nil_iff.1 rfl) hn
    | leaf l => simp only [findInRadius, if_neg (not_lt.2 hr)]
    | split a v l r => simp only [findInRadius, if_neg (not_lt.2 hr)]
  rw [h]
  have hperm := radiusRec_spec pts q (radius * radius) t ho []
  rw [List.nil_append] at hperm
  have hfst := hperm.map Prod.fst
  rw [List.map_map, show (Prod.fst ∘ fun i => (i, distanceSquared q (pts i))) = id from rfl, List.map_id] at hfst
  refine ⟨rfl, hfst.nodup_iff.2 (hnd.filter _), ?_, ?_⟩
  · intro i
    rw [hfst.mem_iff, List.mem_filter, decide_eq_true_eq, dist_le_iff hr]
    exact ⟨fun h => h.2, fun h => ⟨hall i, h⟩⟩
  · rw [List.map_map]
    refine List.map_congr_left (fun e he => ?_)
    obtain ⟨i, -, rfl⟩ := List.mem_map.1 (hperm.mem_iff.1 he)
    rw [Function.comp_apply, dist_eq]

/-- C22, the error branch: a negative radius on a nonempty tree is invalid input. -/
theorem findInRadius_invalid (pts : Fin n → Fin d → ℝ) (maxLeaf : ℤ) (t : Tree n d) (ht : BuiltAll pts maxLeaf t)
    (hn : n ≠ 0) (q : Fin d → ℝ) (radius : ℝ) (hr : radius < 0) :
    findInRadius pts t q radius = ⟨[], [], false⟩ := by
  cases t with
  | nil => exact absurd (ht.nil_iff.1 rfl) hn
  | leaf l => simp only [findInRadius, if_pos hr]
  | split a v l r => simp only [findInRadius, if_pos hr]

/-- C22: `findInBox` returns each index of a point inside the closed box exactly once and nothing else. -/
theorem findInBox_correct (pts : Fin n → Fin d → ℝ) (maxLeaf : ℤ) (t : Tree n d) (ht : BuiltAll pts maxLeaf t)
    (lo hi : Fin d → ℝ) :
    (findInBox pts t lo hi).Nodup ∧
      ∀ i, i ∈ findInBox pts t lo hi ↔ ∀ x, lo x ≤ pts i x ∧ pts i x ≤ hi x := by
  obtain ⟨hall, hnd, ho⟩ := ht.spec
  unfold findInBox
  rw [boxRec_spec pts lo hi t ho [], List.nil_append]
  refine ⟨hnd.filter _, fun i => ?_⟩
  rw [List.mem_filter, boxTest_iff]
  exact ⟨fun h => h.2, fun h => ⟨hall i, h⟩⟩

end Built

/-! ## The hypotheses are met by a concrete tree -/

/-- Three points on a line. -/
noncomputable def samplePts : Fin 3 → Fin 1 → ℝ := fun i _ => (i : ℕ)

/-- A tree over them with leaves of one point. -/
noncomputable def sampleTree : Tree 3 1 :=
  .split 0 1 (.leaf [0]) (.split 0 2 (.leaf [1]) (.leaf [2]))

theorem sampleTree_built : BuiltAll samplePts 1 sampleTree := by
  have h1 : Built samplePts 1 1 [0] (.leaf [0]) := .leaf 1 _ (by simp) (by simp)
  have h2 : Built samplePts 1 2 [1] (.leaf [1]) := .leaf 2 _ (by simp) (by simp)
  have h3 : Built samplePts 1 2 [2] (.leaf [2]) := .leaf 2 _ (by simp) (by simp)
  have h4 : Built samplePts 1 1 [1, 2] (.split 0 2 (.leaf [1]) (.leaf [2])) := by
    have := Built.split (pts := samplePts) (maxLeaf := 1) 1 [1, 2] [1, 2] 2 (.leaf [1]) (.leaf [2]) (by simp)
      (by simp) ⟨List.Perm.refl _, by simp, by simp [samplePts], by simp⟩ h2 h3
    simpa [axisAt, samplePts] using this
  have := Built.split (pts := samplePts) (maxLeaf := 1) 0 [0, 1, 2] [0, 1, 2] 1 (.leaf [0]) _ (by simp)
    (by simp) ⟨List.Perm.refl _, by simp, by simp [samplePts], by simp [samplePts]⟩ h1 h4
  simpa [axisAt, samplePts, BuiltAll, sampleTree, List.finRange_succ] using this

example : ∃ i, (findNearest samplePts sampleTree (fun _ => 0.9)).index = some i ∧
    ∀ j, dist (fun _ => 0.9) (samplePts i) ≤ dist (fun _ => 0.9) (samplePts j) := by
  obtain ⟨i, h, -, -, -, hm⟩ := findNearest_correct samplePts 1 sampleTree sampleTree_built (by norm_num) (fun _ => 0.9)
  exact ⟨i, h, hm⟩

example : (findKNearest samplePts sampleTree (fun _ => 0.9) 2).indices.length = 2 :=
  (findKNearest_correct samplePts 1 sampleTree sampleTree_built (fun _ => 0.9) 2 (by norm_num)).2.1

example : (findInRadius samplePts sampleTree (fun _ => 0) 1).indices.Nodup :=
  (findInRadius_correct samplePts 1 sampleTree sampleTree_built (fun _ => 0) 1 (by norm_num)).2.1

example : (1 : Fin 3) ∈ findInBox samplePts sampleTree (fun _ => 1) (fun _ => 2) :=
  ((findInBox_correct samplePts 1 sampleTree sampleTree_built _ _).2 1).2 (by simp [samplePts])

end Verif.KD
