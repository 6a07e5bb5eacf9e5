import Verif.Integ.CubatureProofs

/-!
# C145: adaptive integration over rectangles and boxes
-/

set_option autoImplicit false

namespace Verif.Integ.Cub

open Verif.Integ Spec MeasureTheory

/-- The 15-point Kronrod rule in both variables. -/
noncomputable def K2 (f : ℝ → ℝ → ℝ) (c : Box2) : ℝ :=
  kronrod15.apply (fun x => kronrod15.apply (fun y => f x y) c.y1 c.y2) c.x1 c.x2

/-- The 7-point Gauss rule in both variables. -/
noncomputable def G2 (f : ℝ → ℝ → ℝ) (c : Box2) : ℝ :=
  gauss7.apply (fun x => gauss7.apply (fun y => f x y) c.y1 c.y2) c.x1 c.x2

/-- The 15-point Kronrod rule in the three variables. -/
noncomputable def K3 (f : ℝ → ℝ → ℝ → ℝ) (c : Box3) : ℝ :=
  kronrod15.apply (fun x => kronrod15.apply (fun y => kronrod15.apply (fun z => f x y z) c.z1 c.z2) c.y1 c.y2) c.x1 c.x2

/-- The 7-point Gauss rule in the three variables. -/
noncomputable def G3 (f : ℝ → ℝ → ℝ → ℝ) (c : Box3) : ℝ :=
  gauss7.apply (fun x => gauss7.apply (fun y => gauss7.apply (fun z => f x y z) c.z1 c.z2) c.y1 c.y2) c.x1 c.x2

/-- The quarters of a rectangle. -/
noncomputable def quarters (c : Box2) : List Box2 :=
  [⟨c.x1, (c.x1 + c.x2) / 2, c.y1, (c.y1 + c.y2) / 2⟩, ⟨(c.x1 + c.x2) / 2, c.x2, c.y1, (c.y1 + c.y2) / 2⟩,
   ⟨c.x1, (c.x1 + c.x2) / 2, (c.y1 + c.y2) / 2, c.y2⟩, ⟨(c.x1 + c.x2) / 2, c.x2, (c.y1 + c.y2) / 2, c.y2⟩]

/-- The eighths of a box: the quarters of its ground, below and above. -/
noncomputable def eighths (c : Box3) : List Box3 :=
  (quarters ⟨c.x1, c.x2, c.y1, c.y2⟩).map (fun q => ⟨q.x1, q.x2, q.y1, q.y2, c.z1, (c.z1 + c.z2) / 2⟩) ++
  (quarters ⟨c.x1, c.x2, c.y1, c.y2⟩).map (fun q => ⟨q.x1, q.x2, q.y1, q.y2, (c.z1 + c.z2) / 2, c.z2⟩)

/-- The tolerance of a part `c` of a rectangle `R`. -/
noncomputable def tol2 (f : ℝ → ℝ → ℝ) (R : Box2) (tolAbs tolRel tiny : ℝ) (c : Box2) : ℝ :=
  max (max (tolAbs * ((c.x2 - c.x1) * (c.y2 - c.y1) / ((R.x2 - R.x1) * (R.y2 - R.y1)))) (tolRel * |K2 f c|)) tiny

/-- The tolerance of a part `c` of a box `R`. -/
noncomputable def tol3 (f : ℝ → ℝ → ℝ → ℝ) (R : Box3) (tolAbs tolRel : ℝ) (c : Box3) : ℝ :=
  max (tolAbs * ((c.x2 - c.x1) * (c.y2 - c.y1) * (c.z2 - c.z1) / ((R.x2 - R.x1) * (R.y2 - R.y1) * (R.z2 - R.z1))))
    (tolRel * |K3 f c|)

theorem cell2_eq (f : ℝ → ℝ → ℝ) (c : Box2) : cell2 f c = (K2 f c, |K2 f c - G2 f c|) := by
  simp only [cell2, tensor2_eq kronrod_pair, tensor2_eq gauss_pair, K2, G2]

theorem cell3_eq (f : ℝ → ℝ → ℝ → ℝ) (c : Box3) : cell3 f c = (K3 f c, |K3 f c - G3 f c|) := by
  simp only [cell3, tensor3_eq kronrod_pair, tensor3_eq gauss_pair, K3, G3]

theorem half_mul (a b : ℝ) : (0.5 : ℝ) * (a + b) = (a + b) / 2 := by norm_num; ring

theorem split2_eq : split2 = quarters := by
  funext c; simp only [split2, quarters, half_mul]

theorem split3_eq : split3 = eighths := by
  funext c; simp [split3, eighths, quarters, half_mul]

theorem cost2 (f : ℝ → ℝ → ℝ) (T a r t : ℝ) : (job2 f T a r t).cost = 225 := by
  show ∑ i ∈ Finset.range 8, ∑ j ∈ Finset.range 8, count2 i j = 225
  decide

theorem cost3 (f : ℝ → ℝ → ℝ → ℝ) (T a r : ℝ) : (job3 f T a r).cost = 3375 := by
  show ∑ i ∈ Finset.range 8, ∑ j ∈ Finset.range 8, ∑ k ∈ Finset.range 8, count3 i j k = 3375
  decide +kernel

theorem accept2 (f : ℝ → ℝ → ℝ) (R : Box2) (a r t : ℝ) (c : Box2) :
    (job2 f (area R) a r t).Accept c ↔ |K2 f c - G2 f c| ≤ tol2 f R a r t c := by
  simp only [Job.Accept, job2, cell2_eq, tol2, area]

theorem accept3 (f : ℝ → ℝ → ℝ → ℝ) (R : Box3) (a r : ℝ) (c : Box3) :
    (job3 f (volume R) a r).Accept c ↔ |K3 f c - G3 f c| ≤ tol3 f R a r c := by
  simp only [Job.Accept, job3, cell3_eq, tol3, volume]

/-- **C145.**  A region without interior has integral zero, without evaluating the integrand. -/
theorem integrate_empty (f : ℝ → ℝ → ℝ) (g : ℝ → ℝ → ℝ → ℝ) (c : Box2) (d : Box3) (a r t : ℝ) (D N : ℤ) :
    (c.x2 ≤ c.x1 ∨ c.y2 ≤ c.y1 → integrate2 f c a r t D N = ⟨0, 0, 0, 0, 0, true⟩) ∧
    (d.x2 ≤ d.x1 ∨ d.y2 ≤ d.y1 ∨ d.z2 ≤ d.z1 → integrate3 g d a r D N = ⟨0, 0, 0, 0, 0, true⟩) :=
  ⟨fun h => by rw [integrate2, if_pos h], fun h => by rw [integrate3, if_pos h]⟩

/-- **C145.**  What the integration over a rectangle does.  The cells visited come from cutting into quarters; a
cell is cut exactly when its Kronrod and Gauss sums differ by more than its tolerance, it is not at the greatest
depth and the budget, which every visit lowers by 225, is not used up.  The value and the error estimate are the
sums over the cells kept; the counters are the evaluations in the cells kept, the cells cut and the depth. -/
theorem integrate2_history (f : ℝ → ℝ → ℝ) (R : Box2) (hx : R.x1 < R.x2) (hy : R.y1 < R.y2) (tolAbs tolRel tiny : ℝ)
    (maxDepth maxEvals : ℤ) : ∃ vs : List (Visit Box2),
    Walk quarters [(R, 0)] vs ∧
    (∀ (k : ℕ) (v : Visit Box2), vs[k]? = some v →
      (v.cut = true ↔ tol2 f R tolAbs tolRel tiny v.cell < |K2 f v.cell - G2 f v.cell| ∧
        (v.depth : ℤ) < maxDepth ∧ 225 * ((k : ℤ) + 1) < maxEvals)) ∧
    (integrate2 f R tolAbs tolRel tiny maxDepth maxEvals).value = ((kept vs).map (K2 f)).sum ∧
    (integrate2 f R tolAbs tolRel tiny maxDepth maxEvals).err = ((kept vs).map fun c => |K2 f c - G2 f c|).sum ∧
    (integrate2 f R tolAbs tolRel tiny maxDepth maxEvals).evals = 225 * (kept vs).length ∧
    (integrate2 f R tolAbs tolRel tiny maxDepth maxEvals).cells = cuts vs ∧
    (integrate2 f R tolAbs tolRel tiny maxDepth maxEvals).depth = deepest vs := by
  have hn : ¬ (R.x2 ≤ R.x1 ∨ R.y2 ≤ R.y1) := by push Not; exact ⟨hx, hy⟩
  obtain ⟨vs, h1, h2, h3, h4, h5, h6⟩ := run_history (job2 f (area R) tolAbs tolRel tiny)
    (fun c => by show split2 c ≠ []; simp [split2]) maxDepth.toNat 0 R maxEvals
  rw [integrate2, if_neg hn]
  refine ⟨vs, ?_, ?_, ?_, ?_, ?_, ?_, ?_⟩
  · rw [← split2_eq]; exact h1
  · intro k v hk
    rw [h2 k v hk, accept2, not_le, cost2]
    refine and_congr Iff.rfl (and_congr ?_ ?_)
    · omega
    · push_cast; rfl
  · rw [h5.value, zero_add]
    simp only [job2, cell2_eq]
  · rw [h5.err, zero_add]; simp only [job2, cell2_eq]
  · rw [h5.evals, cost2]; simp
  · rw [h5.cells]; simp
  · rw [h5.depth]; simp

/-- **C145.**  The same for a box, cut into eighths, at 3375 evaluations a visit; there is no lower limit on the
tolerance of a cell. -/
theorem integrate3_history (f : ℝ → ℝ → ℝ → ℝ) (R : Box3) (hx : R.x1 < R.x2) (hy : R.y1 < R.y2) (hz : R.z1 < R.z2)
    (tolAbs tolRel : ℝ) (maxDepth maxEvals : ℤ) : ∃ vs : List (Visit Box3),
    Walk eighths [(R, 0)] vs ∧
    (∀ (k : ℕ) (v : Visit Box3), vs[k]? = some v →
      (v.cut = true ↔ tol3 f R tolAbs tolRel v.cell < |K3 f v.cell - G3 f v.cell| ∧
        (v.depth : ℤ) < maxDepth ∧ 3375 * ((k : ℤ) + 1) < maxEvals)) ∧
    (integrate3 f R tolAbs tolRel maxDepth maxEvals).value = ((kept vs).map (K3 f)).sum ∧
    (integrate3 f R tolAbs tolRel maxDepth maxEvals).err = ((kept vs).map fun c => |K3 f c - G3 f c|).sum ∧
    (integrate3 f R tolAbs tolRel maxDepth maxEvals).evals = 3375 * (kept vs).length ∧
    (integrate3 f R tolAbs tolRel maxDepth maxEvals).cells = cuts vs ∧
    (integrate3 f R tolAbs tolRel maxDepth maxEvals).depth = deepest vs := by
  have hn : ¬ (R.x2 ≤ R.x1 ∨ R.y2 ≤ R.y1 ∨ R.z2 ≤ R.z1) := by push Not; exact ⟨hx, hy, hz⟩
  obtain ⟨vs, h1, h2, h3, h4, h5, h6⟩ := run_history (job3 f (volume R) tolAbs tolRel)
    (fun c => by show split3 c ≠ []; simp [split3]) maxDepth.toNat 0 R maxEvals
  rw [integrate3, if_neg hn]
  refine ⟨vs, ?_, ?_, ?_, ?_, ?_, ?_, ?_⟩
  · rw [← split3_eq]; exact h1
  · intro k v hk
    rw [h2 k v hk, accept3, not_le, cost3]
    refine and_congr Iff.rfl (and_congr ?_ ?_)
    · omega
    · push_cast; rfl
  · rw [h5.value, zero_add]
    simp only [job3, cell3_eq]
  · rw [h5.err, zero_add]; simp only [job3, cell3_eq]
  · rw [h5.evals, cost3]; simp
  · rw [h5.cells]; simp
  · rw [h5.depth]; simp

/-- The estimate of a region takes the evaluations of every cell visited: those kept, which are reported, and
those cut. -/
def spent (cost : ℕ) (r : Result) : ℤ := r.evals + cost * r.cells

/-- **C145.**  The budget is overrun by at most `1 + 3 · max_depth` estimates of 225 evaluations in the plane and
`1 + 7 · max_depth` of 3375 in space, whatever the integrand. -/
theorem integrate_budget (f : ℝ → ℝ → ℝ) (g : ℝ → ℝ → ℝ → ℝ) (R : Box2) (S : Box3) (tolAbs tolRel tiny : ℝ)
    (maxDepth maxEvals : ℤ) (hN : 0 < maxEvals) :
    spent 225 (integrate2 f R tolAbs tolRel tiny maxDepth maxEvals) ≤ maxEvals + 225 * (1 + 3 * maxDepth.toNat) ∧
    spent 3375 (integrate3 g S tolAbs tolRel maxDepth maxEvals) ≤ maxEvals + 3375 * (1 + 7 * maxDepth.toNat) := by
  constructor
  · by_cases hn : R.x2 ≤ R.x1 ∨ R.y2 ≤ R.y1
    · rw [integrate2, if_pos hn]; simp [spent]; positivity
    · rw [integrate2, if_neg hn]
      obtain ⟨vs, h1, h2, h3, h4, h5, h6⟩ := run_history (job2 f (area R) tolAbs tolRel tiny)
        (fun c => by show split2 c ≠ []; simp [split2]) maxDepth.toNat 0 R maxEvals
      have hb := run_budget (job2 f (area R) tolAbs tolRel tiny) 4 (fun c => rfl) maxDepth.toNat 0 R maxEvals hN
      rw [h3, cost2, length_kept vs] at hb
      rw [spent, h5.evals, h5.cells, cost2]
      push_cast at hb ⊢
      linarith
  · by_cases hn : S.x2 ≤ S.x1 ∨ S.y2 ≤ S.y1 ∨ S.z2 ≤ S.z1
    · rw [integrate3, if_pos hn]; simp [spent]; positivity
    · rw [integrate3, if_neg hn]
      obtain ⟨vs, h1, h2, h3, h4, h5, h6⟩ := run_history (job3 g (volume S) tolAbs tolRel)
        (fun c => by show split3 c ≠ []; simp [split3]) maxDepth.toNat 0 S maxEvals
      have hb := run_budget (job3 g (volume S) tolAbs tolRel) 8 (fun c => rfl) maxDepth.toNat 0 S maxEvals hN
      rw [h3, cost3, length_kept vs] at hb
      rw [spent, h5.evals, h5.cells, cost3]
      push_cast at hb ⊢
      linarith

/-- **C145** (finding).  `converged` says only whether the first estimate, over the whole region, was accepted. -/
theorem integrate_converged (f : ℝ → ℝ → ℝ) (g : ℝ → ℝ → ℝ → ℝ) (R : Box2) (S : Box3) (tolAbs tolRel tiny : ℝ)
    (maxDepth maxEvals : ℤ) :
    (R.x1 < R.x2 → R.y1 < R.y2 → ((integrate2 f R tolAbs tolRel tiny maxDepth maxEvals).conv = true ↔
      |K2 f R - G2 f R| ≤ tol2 f R tolAbs tolRel tiny R)) ∧
    (S.x1 < S.x2 → S.y1 < S.y2 → S.z1 < S.z2 → ((integrate3 g S tolAbs tolRel maxDepth maxEvals).conv = true ↔
      |K3 g S - G3 g S| ≤ tol3 g S tolAbs tolRel S)) := by
  constructor
  · intro hx hy
    have hn : ¬ (R.x2 ≤ R.x1 ∨ R.y2 ≤ R.y1) := by push Not; exact ⟨hx, hy⟩
    obtain ⟨vs, h1, h2, h3, h4, h5, h6⟩ := run_history (job2 f (area R) tolAbs tolRel tiny)
      (fun c => by show split2 c ≠ []; simp [split2]) maxDepth.toNat 0 R maxEvals
    rw [integrate2, if_neg hn, h6, accept2]
    refine ⟨fun h => h.2, fun h => ⟨?_, h⟩⟩
    have := run_accept (job2 f (area R) tolAbs tolRel tiny) maxDepth.toNat 0 R maxEvals ((accept2 _ _ _ _ _ _).2 h)
    rw [this] at h6
    exact (h6.1 ((run_conv_leaf _ _ _).2 ((accept2 _ _ _ _ _ _).2 h))).1
  · intro hx hy hz
    have hn : ¬ (S.x2 ≤ S.x1 ∨ S.y2 ≤ S.y1 ∨ S.z2 ≤ S.z1) := by push Not; exact ⟨hx, hy, hz⟩
    obtain ⟨vs, h1, h2, h3, h4, h5, h6⟩ := run_history (job3 g (volume S) tolAbs tolRel)
      (fun c => by show split3 c ≠ []; simp [split3]) maxDepth.toNat 0 S maxEvals
    rw [integrate3, if_neg hn, h6, accept3]
    refine ⟨fun h => h.2, fun h => ⟨?_, h⟩⟩
    have := run_accept (job3 g (volume S) tolAbs tolRel) maxDepth.toNat 0 S maxEvals ((accept3 _ _ _ _ _).2 h)
    rw [this] at h6
    exact (h6.1 ((run_conv_leaf _ _ _).2 ((accept3 _ _ _ _ _).2 h))).1

/-- The part `q` lies in `R`. -/
def Within (R q : Box2) : Prop := R.x1 ≤ q.x1 ∧ q.x1 ≤ q.x2 ∧ q.x2 ≤ R.x2 ∧ R.y1 ≤ q.y1 ∧ q.y1 ≤ q.y2 ∧ q.y2 ≤ R.y2

theorem within_quarters {R : Box2} : ∀ c, Within R c → ∀ q ∈ quarters c, Within R q := by
  rintro c ⟨h1, h2, h3, h4, h5, h6⟩ q hq
  simp only [quarters, List.mem_cons, List.not_mem_nil, or_false] at hq
  rcases hq with rfl | rfl | rfl | rfl <;> refine ⟨?_, ?_, ?_, ?_, ?_, ?_⟩ <;> simp only <;> linarith

/-- The double integral. -/
noncomputable def I2 (f : ℝ → ℝ → ℝ) (c : Box2) : ℝ := ∫ x in c.x1..c.x2, ∫ y in c.y1..c.y2, f x y

theorem I2_quarters {f : ℝ → ℝ → ℝ} (hf : Continuous (Function.uncurry f)) (c : Box2) :
    I2 f c = ((quarters c).map (I2 f)).sum := by
  have hi : ∀ x a b, IntervalIntegrable (f x) MeasureTheory.volume a b := fun x a b =>
    (hf.comp (Continuous.prodMk_right x)).intervalIntegrable a b
  have ho : ∀ a b u v, IntervalIntegrable (fun x => ∫ y in a..b, f x y) MeasureTheory.volume u v := fun a b u v =>
    (intervalIntegral.continuous_parametric_intervalIntegral_of_continuous' hf a b).intervalIntegrable u v
  have h1 : ∀ u v, (∫ x in u..v, ∫ y in c.y1..c.y2, f x y) =
      (∫ x in u..v, ∫ y in c.y1..(c.y1 + c.y2) / 2, f x y) + ∫ x in u..v, ∫ y in (c.y1 + c.y2) / 2..c.y2, f x y := by
    intro u v
    rw [← intervalIntegral.integral_add (ho _ _ _ _) (ho _ _ _ _)]
    congr 1; funext x
    rw [intervalIntegral.integral_add_adjacent_intervals (hi _ _ _) (hi _ _ _)]
  have h2 : ∀ a b, (∫ x in c.x1..c.x2, ∫ y in a..b, f x y) =
      (∫ x in c.x1..(c.x1 + c.x2) / 2, ∫ y in a..b, f x y) + ∫ x in (c.x1 + c.x2) / 2..c.x2, ∫ y in a..b, f x y :=
    fun a b => (intervalIntegral.integral_add_adjacent_intervals (ho _ _ _ _) (ho _ _ _ _)).symm
  simp only [I2, quarters, List.map_cons, List.map_nil, List.sum_cons, List.sum_nil]
  rw [h1, h2, h2]
  ring

theorem abs_sum_sub {C : Type} (u v w : C → ℝ) : ∀ l : List C, (∀ c ∈ l, |u c - v c| ≤ w c) →
    |(l.map u).sum - (l.map v).sum| ≤ (l.map w).sum
  | [], _ => by simp
  | c :: l, h => by
    have h1 := h c (by simp)
    have h2 := abs_sum_sub u v w l fun q hq => h q (by simp [hq])
    simp only [List.map_cons, List.sum_cons]
    calc |u c + (l.map u).sum - (v c + (l.map v).sum)|
        = |(u c - v c) + ((l.map u).sum - (l.map v).sum)| := by ring_nf
      _ ≤ _ := (abs_add_le _ _).trans (add_le_add h1 h2)

/-- **C145.**  If on every part of the rectangle the difference of the two rules bounds the error of the Kronrod
rule, up to `slack` times the area of the part, then the error estimate returned bounds the error of the value
returned, up to `slack` times the area of the rectangle: no part is left out or counted twice. -/
theorem integrate2_error (f : ℝ → ℝ → ℝ) (hf : Continuous (Function.uncurry f)) (R : Box2) (hx : R.x1 < R.x2)
    (hy : R.y1 < R.y2) (tolAbs tolRel tiny slack : ℝ) (maxDepth maxEvals : ℤ)
    (honest : ∀ q, Within R q → |K2 f q - ∫ x in q.x1..q.x2, ∫ y in q.y1..q.y2, f x y| ≤
      |K2 f q - G2 f q| + slack * ((q.x2 - q.x1) * (q.y2 - q.y1))) :
    |(integrate2 f R tolAbs tolRel tiny maxDepth maxEvals).value - ∫ x in R.x1..R.x2, ∫ y in R.y1..R.y2, f x y| ≤
      (integrate2 f R tolAbs tolRel tiny maxDepth maxEvals).err + slack * ((R.x2 - R.x1) * (R.y2 - R.y1)) := by
  obtain ⟨vs, h1, h2, h3, h4, -⟩ := integrate2_history f R hx hy tolAbs tolRel tiny maxDepth maxEvals
  have e1 := walk_sum (I2 f) (I2_quarters hf) h1
  have e2 := walk_sum (fun q : Box2 => slack * ((q.x2 - q.x1) * (q.y2 - q.y1))) (fun c => by
    simp only [quarters, List.map_cons, List.map_nil, List.sum_cons, List.sum_nil]; ring) h1
  simp only [List.map_cons, List.map_nil, List.sum_cons, List.sum_nil, add_zero] at e1 e2
  have hw := walk_all (Within R) within_quarters h1 (by
    intro p hp; simp at hp; subst hp; exact ⟨le_rfl, hx.le, le_rfl, le_rfl, hy.le, le_rfl⟩)
  have key := abs_sum_sub (K2 f) (I2 f) (fun q => |K2 f q - G2 f q| + slack * ((q.x2 - q.x1) * (q.y2 - q.y1))) (kept vs)
    (fun q hq => honest q (hw q hq))
  rw [List.sum_map_add, ← e1, ← e2] at key
  rw [h3, h4]
  exact key

/-- **C145.**  When neither limit was reached, the error estimate is within the tolerances asked for: the
absolute one in all, the relative one times the sum of the absolute values of the parts, and the floor once for
every part. -/
theorem integrate2_tolerance (f : ℝ → ℝ → ℝ) (R : Box2) (hx : R.x1 < R.x2) (hy : R.y1 < R.y2)
    (tolAbs tolRel tiny : ℝ) (ha : 0 ≤ tolAbs) (hr : 0 ≤ tolRel) (ht : 0 ≤ tiny) (maxDepth maxEvals : ℤ)
    (hD : ((integrate2 f R tolAbs tolRel tiny maxDepth maxEvals).depth : ℤ) < maxDepth)
    (hN : spent 225 (integrate2 f R tolAbs tolRel tiny maxDepth maxEvals) < maxEvals) :
    ∃ vs : List (Visit Box2), Walk quarters [(R, 0)] vs ∧
      (integrate2 f R tolAbs tolRel tiny maxDepth maxEvals).value = ((kept vs).map (K2 f)).sum ∧
      (integrate2 f R tolAbs tolRel tiny maxDepth maxEvals).err ≤
        tolAbs + tolRel * ((kept vs).map fun c => |K2 f c|).sum + tiny * (kept vs).length := by
  obtain ⟨vs, h1, h2, h3, h4, h5, h6, h7⟩ := integrate2_history f R hx hy tolAbs tolRel tiny maxDepth maxEvals
  refine ⟨vs, h1, h3, ?_⟩
  have hA : 0 < (R.x2 - R.x1) * (R.y2 - R.y1) := mul_pos (by linarith) (by linarith)
  have hw := walk_all (Within R) within_quarters h1 (by
    intro p hp; simp at hp; subst hp; exact ⟨le_rfl, hx.le, le_rfl, le_rfl, hy.le, le_rfl⟩)
  have hlen : (225 : ℤ) * vs.length < maxEvals := by
    rw [spent, h5, h6] at hN
    rw [length_kept vs]
    push_cast at hN ⊢
    linarith
  have hacc : ∀ q ∈ kept vs, |K2 f q - G2 f q| ≤ tol2 f R tolAbs tolRel tiny q := by
    intro q hq
    simp only [kept, List.mem_map, List.mem_filter, Bool.not_eq_true'] at hq
    obtain ⟨v, ⟨hv, hc⟩, rfl⟩ := hq
    obtain ⟨k, hk, hkv⟩ := List.getElem_of_mem hv
    by_contra hlt
    have := (h2 k v (by rw [List.getElem?_eq_getElem hk, hkv])).2 ⟨not_le.1 hlt, by
      have := le_deepest hv
      rw [h7] at hD; omega, by
      have : (k : ℤ) + 1 ≤ vs.length := by omega
      linarith⟩
    rw [hc] at this
    cases this
  have e2 := walk_sum (fun q : Box2 => tolAbs * ((q.x2 - q.x1) * (q.y2 - q.y1) / ((R.x2 - R.x1) * (R.y2 - R.y1)))) (fun c => by
    simp only [quarters, List.map_cons, List.map_nil, List.sum_cons, List.sum_nil]; ring) h1
  simp only [List.map_cons, List.map_nil, List.sum_cons, List.sum_nil, add_zero, div_self hA.ne', mul_one] at e2
  rw [h4]
  have hb : ∀ l : List Box2, (∀ q ∈ l, |K2 f q - G2 f q| ≤ tol2 f R tolAbs tolRel tiny q) → (∀ q ∈ l, Within R q) →
      (l.map fun c => |K2 f c - G2 f c|).sum ≤
        (l.map fun q => tolAbs * ((q.x2 - q.x1) * (q.y2 - q.y1) / ((R.x2 - R.x1) * (R.y2 - R.y1)))).sum +
          tolRel * (l.map fun c => |K2 f c|).sum + tiny * l.length := by
    intro l
    induction l with
    | nil => simp
    | cons q l ih =>
      intro hl hl'
      have h := ih (fun p hp => hl p (by simp [hp])) (fun p hp => hl' p (by simp [hp]))
      have hq := hl q (by simp)
      obtain ⟨w1, w2, w3, w4, w5, w6⟩ := hl' q (by simp)
      have p1 : 0 ≤ tolAbs * ((q.x2 - q.x1) * (q.y2 - q.y1) / ((R.x2 - R.x1) * (R.y2 - R.y1))) :=
        mul_nonneg ha (div_nonneg (mul_nonneg (by linarith) (by linarith)) hA.le)
      have p2 : 0 ≤ tolRel * |K2 f q| := by positivity
      have hm : tol2 f R tolAbs tolRel tiny q ≤
          tolAbs * ((q.x2 - q.x1) * (q.y2 - q.y1) / ((R.x2 - R.x1) * (R.y2 - R.y1))) + tolRel * |K2 f q| + tiny :=
        max_le (max_le (by linarith) (by linarith)) (by linarith)
      simp only [List.map_cons, List.sum_cons, List.length_cons]
      push_cast
      linarith
  have := hb (kept vs) hacc hw
  rw [← e2] at this
  exact this

/-! ## The flag -/

/-- An integrand that is zero except at the centre of the unit square. -/
noncomputable def spike (x y : ℝ) : ℝ := open Classical in if x = 1 / 2 ∧ y = 1 / 2 then 1 else 0

/-- The unit square. -/
noncomputable def unit : Box2 := ⟨0, 1, 0, 1⟩

theorem node_pos {i : ℕ} (h : 0 < i) (h8 : i < 8) : 0 < node i := by
  interval_cases i <;> simp [node, xGK15] <;> norm_num

theorem node_lt {i : ℕ} (h8 : i < 8) : node i < 1 := by
  interval_cases i <;> simp [node, xGK15] <;> norm_num

theorem node_nonneg {i : ℕ} (h8 : i < 8) : 0 ≤ node i := by
  rcases Nat.eq_zero_or_pos i with rfl | h
  · rw [node_zero]
  · exact (node_pos h h8).le

theorem spike_unit (w : ℕ → ℝ) : tensor2 w spike unit = w 0 * w 0 * (1 / 4) := by
  have h : ∀ i ∈ Finset.range 8, ∀ j ∈ Finset.range 8, (i ≠ 0 ∨ j ≠ 0) →
      sum2 spike (0.5 * (0 + 1)) (0.5 * (1 - 0)) (0.5 * (0 + 1)) (0.5 * (1 - 0)) i j = 0 := by
    intro i hi j hj hij
    rw [Finset.mem_range] at hi hj
    unfold sum2 spike
    by_cases h0 : 0 < i
    · have := node_pos h0 hi
      have a1 : ¬ (0.5 * (0 + 1) + 0.5 * (1 - 0) * node i = (1 / 2 : ℝ)) := by intro h; norm_num at h; linarith
      have a2 : ¬ (0.5 * (0 + 1) - 0.5 * (1 - 0) * node i = (1 / 2 : ℝ)) := by intro h; norm_num at h; linarith
      simp only [a1, a2, false_and, if_false, add_zero, ite_self]
    · have hj0 : 0 < j := by omega
      have := node_pos hj0 hj
      have a1 : ¬ (0.5 * (0 + 1) + 0.5 * (1 - 0) * node j = (1 / 2 : ℝ)) := by intro h; norm_num at h; linarith
      have a2 : ¬ (0.5 * (0 + 1) - 0.5 * (1 - 0) * node j = (1 / 2 : ℝ)) := by intro h; norm_num at h; linarith
      simp only [h0, a1, a2, hj0, and_false, false_and, if_false, if_true, add_zero]
  have h00 : sum2 spike (0.5 * (0 + 1)) (0.5 * (1 - 0)) (0.5 * (0 + 1)) (0.5 * (1 - 0)) 0 0 = 1 := by
    simp [sum2, node_zero, spike]
    norm_num
  unfold tensor2
  simp only [unit]
  rw [Finset.sum_eq_single 0, Finset.sum_eq_single 0, h00]
  · norm_num
  · intro j hj h0; rw [h 0 (by simp) j hj (Or.inr h0), mul_zero]
  · simp
  · intro i hi h0
    refine Finset.sum_eq_zero fun j hj => ?_
    rw [h i hi j hj (Or.inl h0), mul_zero]
  · simp

theorem spike_quarter (w : ℕ → ℝ) (c : Box2) (h : (c.x1 = 0 ∧ c.x2 = 1 / 2) ∨ (c.x1 = 1 / 2 ∧ c.x2 = 1)) :
    tensor2 w spike c = 0 := by
  unfold tensor2
  simp only
  rw [Finset.sum_eq_zero, zero_mul]
  intro i hi
  refine Finset.sum_eq_zero fun j hj => ?_
  rw [Finset.mem_range] at hi
  have h1 := node_nonneg hi
  have h2 := node_lt hi
  have a1 : ¬ (0.5 * (c.x1 + c.x2) + 0.5 * (c.x2 - c.x1) * node i = (1 / 2 : ℝ)) := by
    intro e; rcases h with ⟨e1, e2⟩ | ⟨e1, e2⟩ <;> rw [e1, e2] at e <;> norm_num at e <;> linarith
  have a2 : ¬ (0.5 * (c.x1 + c.x2) - 0.5 * (c.x2 - c.x1) * node i = (1 / 2 : ℝ)) := by
    intro e; rcases h with ⟨e1, e2⟩ | ⟨e1, e2⟩ <;> rw [e1, e2] at e <;> norm_num at e <;> linarith
  unfold sum2 spike
  simp only [a1, a2, false_and, if_false, add_zero, ite_self, mul_zero]

/-- **C145** (finding).  With absolute tolerance `0.01` the spike is integrated over the unit square by cutting it
once: the value zero is the integral, the error estimate is zero, neither limit is near, and the result says that
the integration did not converge and that 900 evaluations were made, where it made 1125. -/
theorem exact_not_converged (tiny : ℝ) (h0 : 0 ≤ tiny) (h1 : tiny ≤ 0.01) (d : ℕ) (N : ℤ) (hN : 225 < N) :
    integrate2 spike unit 0.01 0 tiny (d + 1) N = ⟨0, 0, 900, 1, 1, false⟩ := by
  have hn : ¬ (unit.x2 ≤ unit.x1 ∨ unit.y2 ≤ unit.y1) := by simp [unit]
  have hroot : ¬ (job2 spike (area unit) 0.01 0 tiny).Accept unit := by
    have e1 : tensor2 wK spike unit - tensor2 wG spike unit < -0.02 := by
      rw [spike_unit, spike_unit]
      simp [wK, wG, wGK15, wG7]
      norm_num
    simp only [Job.Accept, job2, cell2, not_le, zero_mul]
    have e2 : (0.02 : ℝ) < |tensor2 wK spike unit - tensor2 wG spike unit| := by
      rw [abs_of_neg (by norm_num at e1 ⊢; linarith)]; linarith
    refine lt_of_le_of_lt (max_le (max_le ?_ ?_) h1) (lt_trans ?_ e2)
    · simp [area, unit]
    · norm_num
    · norm_num
  have hq : ∀ q ∈ split2 unit, cell2 spike q = (0, 0) := by
    intro q hq
    have : (q.x1 = 0 ∧ q.x2 = 1 / 2) ∨ (q.x1 = 1 / 2 ∧ q.x2 = 1) := by
      rw [split2_eq] at hq
      simp only [quarters, unit, List.mem_cons, List.not_mem_nil, or_false] at hq
      rcases hq with rfl | rfl | rfl | rfl <;> norm_num
    rw [cell2, spike_quarter _ _ this, spike_quarter _ _ this]; simp
  have hacc : ∀ q ∈ split2 unit, (job2 spike (area unit) 0.01 0 tiny).Accept q := by
    intro q hqm
    simp only [Job.Accept, job2, hq q hqm]
    exact le_max_of_le_right h0
  have hrun : ∀ q ∈ split2 unit, ∀ b, run (job2 spike (area unit) 0.01 0 tiny) d 1 q b = (⟨0, 0, 225, 0, 1, true⟩, b - 225) := by
    intro q hqm b
    rw [run_accept _ _ _ _ _ (hacc q hqm), cost2]
    simp only [leaf, hacc q hqm, decide_true, cost2, Prod.mk.injEq, Nat.cast_ofNat, and_true]
    simp only [job2, hq q hqm]
  rw [integrate2, if_neg hn, show ((d : ℤ) + 1).toNat = d + 1 by omega, run, if_neg (by
    push Not; exact ⟨hroot, by rw [cost2]; push_cast; linarith⟩)]
  show ((split2 unit).foldl (visit (run (job2 spike (area unit) 0.01 0 tiny) d (0 + 1))) (start, _)).1 = _
  have hf : ∀ (l : List Box2), (∀ q ∈ l, q ∈ split2 unit) → ∀ (a : Result) (b : ℤ), a.conv = false → a.value = 0 → a.err = 0 → a.depth ≤ 1 →
      (l.foldl (visit (run (job2 spike (area unit) 0.01 0 tiny) d (0 + 1))) (a, b)).1 =
        ⟨0, 0, a.evals + 225 * l.length, a.cells, if l = [] then a.depth else 1, false⟩ := by
    intro l
    induction l with
    | nil => rintro - ⟨v, e, n, c, dd, cv⟩ b h1 h2 h3 h4; simp at h1 h2 h3 ⊢; simp [h1, h2, h3]
    | cons q l ih =>
      intro hl a b h1 h2 h3 h4
      rw [List.foldl_cons, visit, hrun q (hl q (by simp)), ih (fun p hp => hl p (by simp [hp])) _ _
        (by simp [Result.add, h1]) (by simp [Result.add, h2]) (by simp [Result.add, h3]) (by simp [Result.add, h4])]
      simp only [Result.add, List.length_cons, Result.mk.injEq, true_and, and_true, add_zero]
      refine ⟨by ring, ?_⟩
      by_cases hl : l = []
      · simp [hl, h4]
      · simp [hl]
  rw [hf _ (fun q hq => hq) start _ rfl rfl rfl (by simp [start])]
  simp [split2, start]

/-! ## The hypotheses can be met -/

example : integrate2 (fun _ _ => 1) ⟨1, 1, 0, 5⟩ 0.1 0.1 0 20 1000000 = ⟨0, 0, 0, 0, 0, true⟩ :=
  (integrate_empty _ (fun _ _ _ => 0) _ ⟨0, 0, 0, 0, 0, 0⟩ _ _ _ _ _).1 (Or.inl le_rfl)

example : spent 225 (integrate2 spike unit 0.01 0 0 20 1000000) = 1125 := by
  have := exact_not_converged 0 le_rfl (by norm_num) 19 1000000 (by norm_num)
  norm_num at this
  rw [show (1 / 100 : ℝ) = 0.01 by norm_num] at this
  rw [this]; rfl

/-- The hypotheses of `integrate2_tolerance` hold for the spike. -/
example : ((integrate2 spike unit 0.01 0 0 20 1000000).depth : ℤ) < 20 ∧
    spent 225 (integrate2 spike unit 0.01 0 0 20 1000000) < 1000000 := by
  have := exact_not_converged 0 le_rfl (by norm_num) 19 1000000 (by norm_num)
  norm_num at this
  rw [show (1 / 100 : ℝ) = 0.01 by norm_num] at this
  rw [this]
  norm_num [spent]

/-- The constant one meets the hypothesis of `integrate2_error` with a slack of `10^-30`: the tabulated weights are
right to that. -/
example (q : Box2) (hq : Within unit q) : |K2 (fun _ _ => 1) q - ∫ x in q.x1..q.x2, ∫ y in q.y1..q.y2, (1 : ℝ)| ≤
    |K2 (fun _ _ => 1) q - G2 (fun _ _ => 1) q| + 1 / 10 ^ 30 * ((q.x2 - q.x1) * (q.y2 - q.y1)) := by
  obtain ⟨h1, h2, h3, h4, h5, h6⟩ := hq
  have hm := kronrod15_isRule.moments 0 (by norm_num)
  set S : ℝ := (kronrod15.map fun p => p.2 * p.1 ^ 0).sum with hS
  have hS' : (kronrod15.map fun p => p.2 * (1 : ℝ)).sum = S := by rw [hS]; simp
  have ha : ∀ r a b : ℝ, kronrod15.apply (fun _ => r) a b = (b - a) / 2 * S * r := by
    intro r a b
    have : (kronrod15.map fun p => p.2 * r) = kronrod15.map fun p => (p.2 * (1 : ℝ)) * r := by simp
    rw [Rule.apply, this, List.sum_map_mul_right, hS']; ring
  have hK : K2 (fun _ _ => 1) q = (S / 2) ^ 2 * ((q.x2 - q.x1) * (q.y2 - q.y1)) := by
    simp only [K2, ha]; ring
  have hI : (∫ x in q.x1..q.x2, ∫ y in q.y1..q.y2, (1 : ℝ)) = (q.x2 - q.x1) * (q.y2 - q.y1) := by simp; ring
  have hA : 0 ≤ (q.x2 - q.x1) * (q.y2 - q.y1) := mul_nonneg (by linarith) (by linarith)
  have hd : |(S / 2) ^ 2 - 1| ≤ 1 / 10 ^ 30 := by
    norm_num at hm
    rw [abs_le] at hm ⊢
    constructor <;> nlinarith
  have : K2 (fun _ _ => 1) q - ∫ x in q.x1..q.x2, ∫ y in q.y1..q.y2, (1 : ℝ) = ((S / 2) ^ 2 - 1) * ((q.x2 - q.x1) * (q.y2 - q.y1)) := by
    rw [hK, hI]; ring
  rw [this, abs_mul, abs_of_nonneg hA]
  have := mul_le_mul_of_nonneg_right hd hA
  have h0 := abs_nonneg (K2 (fun _ _ => 1) q - G2 (fun _ _ => 1) q)
  linarith

end Verif.Integ.Cub
