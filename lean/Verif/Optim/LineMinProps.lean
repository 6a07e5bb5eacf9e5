import Verif.Optim.LineMin
import Verif.Optim.Props
import Verif.Optim.BFGSProps

/-!
# Line minimisation, Powell's method and the conjugate gradient method: the proofs
-/

set_option autoImplicit false

namespace Verif.Optim

/-! ## The bracket never loses the better of its first two points -/

theorem bracketBody_le {f : ℝ → ℝ} {s : Bracket} (hlt : s.fb > s.fc) (u : ℝ) :
    (∀ s', bracketBody f s u = .inl s' → s'.fb ≤ s.fb) ∧ (∀ r, bracketBody f s u = .inr r → r.fb ≤ s.fb) := by
  unfold bracketBody
  simp only
  split_ifs with h1 h2 h3 h4 h5 h6
  · refine ⟨fun s' h => (by cases h), fun r h => ?_⟩
    rw [← Sum.inr.inj h]
    show f u ≤ s.fb
    linarith
  · refine ⟨fun s' h => (by cases h), fun r h => ?_⟩
    rw [← Sum.inr.inj h]
  · refine ⟨fun s' h => ?_, fun r h => by cases h⟩
    rw [← Sum.inl.inj h]
    exact hlt.le
  · refine ⟨fun s' h => ?_, fun r h => by cases h⟩
    rw [← Sum.inl.inj h]
    show f u ≤ s.fb
    linarith
  · refine ⟨fun s' h => ?_, fun r h => by cases h⟩
    rw [← Sum.inl.inj h]
    exact hlt.le
  · refine ⟨fun s' h => ?_, fun r h => by cases h⟩
    rw [← Sum.inl.inj h]
    exact hlt.le
  · refine ⟨fun s' h => ?_, fun r h => by cases h⟩
    rw [← Sum.inl.inj h]
    exact hlt.le

theorem bracketLoop_le {f : ℝ → ℝ} (k : ℕ) (s : Bracket) : (bracketLoop f k s).fb ≤ s.fb := by
  induction k generalizing s with
  | zero =>
    rw [bracketLoop]
    split <;> exact le_refl _
  | succ k ih =>
    rw [bracketLoop]
    split
    · next h =>
      have hb := bracketBody_le (f := f) h (parabolic s)
      cases hc : bracketBody f s (parabolic s) with
      | inl s' => exact (ih s').trans (hb.1 s' hc)
      | inr r => exact hb.2 r hc
    · exact le_refl _

/-- **The middle of the bracket found is no worse than either point handed in.** -/
theorem bracket_better (f : ℝ → ℝ) {a b : ℝ} (hab : a ≠ b) (hv : (bracketMinimum f a b).valid = true) :
    f (bracketMinimum f a b).bx ≤ f a ∧ f (bracketMinimum f a b).bx ≤ f b := by
  have h := (bracket_valid f hab hv).fb
  rw [← h]
  have h2 : (bracketMinimum f a b).fb ≤ (bracketStart f a b).fb := bracketLoop_le 200 _
  unfold bracketStart at h2
  split at h2
  · next h => exact ⟨h2, h2.trans h.le⟩
  · next h => exact ⟨h2.trans (not_lt.1 h), h2⟩

namespace QN

variable {N : ℕ}

theorem along_zero (p xi : Pt N) : along p xi 0 = p := by
  funext j
  simp [along]

/-- **A line minimisation** ends for every function, point, direction and tolerance: it throws or returns a point of the line,
the displacement, and the value there, which is not above the value at the start; and the point found lies strictly between two
points of the line where the function is not smaller, at the tolerance of Brent's method. -/
theorem lineMin_spec (f : Pt N → ℝ) {zeps tol : ℝ} (hz : 0 < zeps) (ht : 0 < tol) (p xi : Pt N) :
    (∃ e, lineMin f zeps p xi tol = .exn e ∧ (e = .mml "NumericInputError" ∨ e = .mml "OptimizationError")) ∨
    ∃ l t, lineMin f zeps p xi tol = .ret l ∧ (∀ j, l.xi j = t * xi j) ∧ (∀ j, l.p j = p j + t * xi j) ∧ l.value = f l.p ∧
      f l.p ≤ f p ∧ ∃ a b, a < t ∧ t < b ∧ b - t ≤ 2 * (tol * |t| + zeps) ∧ t - a ≤ 2 * (tol * |t| + zeps) ∧
        f l.p ≤ f (fun j => p j + a * xi j) ∧ f l.p ≤ f (fun j => p j + b * xi j) := by
  set phi := lineFun f p xi with hphi
  by_cases hv : (lineBracket phi).valid = true
  · have hb : IsBracket phi (lineBracket phi) ∧ phi (lineBracket phi).bx ≤ phi 0 := by
      unfold lineBracket at hv ⊢
      split at hv
      · next h => rw [if_pos h]; exact ⟨bracket_valid phi (by norm_num) hv, (bracket_better phi (by norm_num) hv).1⟩
      · next h => rw [if_neg h]; exact ⟨bracket_valid phi (by norm_num) hv, (bracket_better phi (by norm_num) hv).1⟩
    rcases (brent_located hb.1 hv ht hz).1 100 (by norm_num) with h | ⟨r, h, -, -, -, hl⟩
    · left
      refine ⟨_, ?_, Or.inr rfl⟩
      unfold lineMin
      rw [← hphi, h]
      rfl
    · right
      refine ⟨⟨fun j => p j + xi j * r.xmin, fun j => xi j * r.xmin, r.fmin⟩, r.xmin, ?_, fun j => mul_comm _ _, fun j => ?_, ?_, ?_, ?_⟩
      · unfold lineMin
        rw [← hphi, h]
        rfl
      · show p j + xi j * r.xmin = _
        ring
      all_goals
        have hpt : (fun j => p j + xi j * r.xmin) = along p xi r.xmin := by
          funext j; simp only [along]; ring
        simp only [hpt]
      · exact hl.value
      · have h0 : phi 0 = f p := by rw [hphi, lineFun, along_zero]
        rw [← h0]
        exact hl.better.trans hb.2
      · obtain ⟨a, b, -, -, h1, h2, h3, h4, h5, h6⟩ := hl.near
        exact ⟨a, b, h1, h2, h4, h3, h5, h6⟩
  · left
    refine ⟨.mml "NumericInputError", ?_, Or.inl rfl⟩
    unfold lineMin
    rw [← hphi, (brent_refuses phi zeps (lineBracket phi) 0 0 tol 100).1 (Or.inr (Or.inl (by simpa using hv)))]
    rfl

/-- **A line along which the function is monotone is refused**: no result, an exception. -/
theorem lineMin_monotone (f : Pt N → ℝ) (zeps tol : ℝ) (p xi : Pt N)
    (h : StrictMono (fun t : ℝ => f (fun j => p j + t * xi j)) ∨ StrictAnti (fun t : ℝ => f (fun j => p j + t * xi j))) :
    lineMin f zeps p xi tol = .exn (.mml "NumericInputError") := by
  have hm : StrictMono (lineFun f p xi) ∨ StrictAnti (lineFun f p xi) := h
  have hv : (lineBracket (lineFun f p xi)).valid = false := by
    unfold lineBracket
    rw [if_pos (bracket_monotone hm (by norm_num))]
    exact bracket_monotone hm (by norm_num)
  unfold lineMin
  rw [(brent_refuses _ zeps _ 0 0 tol 100).1 (Or.inr (Or.inl hv))]
  rfl

/-! ## Powell's method -/

/-- What throws. -/
def Thrown {α : Type} (o : Outcome α) : Prop := o = .exn (.mml "NumericInputError") ∨ o = .exn (.mml "OptimizationError")

theorem lineMin_cases (f : Pt N → ℝ) {zeps tol : ℝ} (hz : 0 < zeps) (ht : 0 < tol) (p xi : Pt N) :
    Thrown (lineMin f zeps p xi tol) ∨ ∃ l t, lineMin f zeps p xi tol = .ret l ∧ (∀ j, l.xi j = t * xi j) ∧
      (∀ j, l.p j = p j + t * xi j) ∧ l.value = f l.p ∧ f l.p ≤ f p := by
  rcases lineMin_spec f hz ht p xi with ⟨e, h, rfl | rfl⟩ | ⟨l, t, h1, h2, h3, h4, h5, -⟩
  · exact Or.inl (Or.inl h)
  · exact Or.inl (Or.inr h)
  · exact Or.inr ⟨l, t, h1, h2, h3, h4, h5⟩

theorem Thrown.bind {α β : Type} {o : Outcome α} (h : Thrown o) (k : α → Outcome β) : Thrown (o >>= k) := by
  rcases h with h | h <;> rw [h]
  · exact Or.inl rfl
  · exact Or.inr rfl

/-- The points passed in a sweep over the first `k` directions, and the direction of the largest decrease. -/
structure Swept (f : Pt N → ℝ) (X : Fin N → Fin N → ℝ) (p : Pt N) (k : ℕ) (w : Sweep N) (q : ℕ → Pt N) : Prop where
  first : q 0 = p
  last : q k = w.p
  line : ∀ i (h : i < N), i < k → ∃ t : ℝ, ∀ j, q (i + 1) j = q i j + t * X j ⟨i, h⟩
  down : ∀ i, i < k → f (q (i + 1)) ≤ f (q i)
  value : w.fret = f w.p
  pos : 0 ≤ w.del
  unset : w.big = none → w.del = 0
  set : ∀ b, w.big = some b → b.val < k ∧ 0 < w.del ∧ f (q b.val) - f (q (b.val + 1)) = w.del
  most : ∀ i, i < k → f (q i) - f (q (i + 1)) ≤ w.del

theorem sweep_spec (f : Pt N → ℝ) {zeps ftol : ℝ} (hz : 0 < zeps) (ht : 0 < ftol) (X : Fin N → Fin N → ℝ) (p : Pt N) (k : ℕ) (hk : k ≤ N) :
    Thrown (sweep f zeps ftol X ⟨p, f p, 0, none⟩ k hk) ∨
    ∃ w q, sweep f zeps ftol X ⟨p, f p, 0, none⟩ k hk = .ret w ∧ Swept f X p k w q := by
  induction k with
  | zero =>
    right
    exact ⟨_, fun _ => p, rfl, rfl, rfl, fun i _ h => by omega, fun i h => by omega, rfl, le_refl _, fun _ => rfl,
      fun b h => (by cases h), fun i h => by omega⟩
  | succ k ih =>
    rcases ih (by omega) with h | ⟨w, q, hw, hs⟩
    · left
      unfold sweep
      exact h.bind _
    · unfold sweep
      rw [hw, Outcome.bind_ret]
      rcases lineMin_cases f hz ht w.p (fun j => X j ⟨k, hk⟩) with h | ⟨l, t, hl, -, h2, h3, h4⟩
      · exact Or.inl (h.bind _)
      · right
        rw [hl, Outcome.bind_ret]
        have hqk : q k = w.p := hs.last
        set q' : ℕ → Pt N := Function.update q (k + 1) l.p with hq'
        have e0 : ∀ i, i < k + 1 → q' i = q i := fun i hi => Function.update_of_ne (by omega) _ _
        have e1 : q' (k + 1) = l.p := Function.update_self ..
        have hfret : w.fret = f (q k) := by rw [hs.value, hqk]
        have base : ∀ w', w'.p = l.p → w'.fret = l.value → (0 ≤ w'.del) →
            (w'.big = none → w'.del = 0) →
            (∀ b, w'.big = some b → (b.val < k ∧ 0 < w'.del ∧ f (q b.val) - f (q (b.val + 1)) = w'.del) ∨
              (b.val = k ∧ 0 < w'.del ∧ f (q k) - f l.p = w'.del)) →
            (∀ i, i < k → f (q i) - f (q (i + 1)) ≤ w'.del) → f (q k) - f l.p ≤ w'.del → Swept f X p (k + 1) w' q' := by
          intro w' c1 c2 c3 c4 c5 c6 c7
          refine ⟨by rw [e0 0 (by omega)]; exact hs.first, by rw [e1, c1], ?_, ?_, by rw [c2, c1, h3], c3, c4, ?_, ?_⟩
          · intro i hi hik
            by_cases h : i < k
            · obtain ⟨t', ht'⟩ := hs.line i hi h
              exact ⟨t', fun j => by rw [e0 i hik, e0 (i + 1) (by omega)]; exact ht' j⟩
            · have : i = k := by omega
              subst this
              exact ⟨t, fun j => by rw [e0 i hik, e1, hqk]; exact h2 j⟩
          · intro i hik
            by_cases h : i < k
            · rw [e0 i hik, e0 (i + 1) (by omega)]; exact hs.down i h
            · have : i = k := by omega
              subst this
              rw [e0 i hik, e1, hqk]
              exact h4
          · intro b hb
            rcases c5 b hb with ⟨d1, d2, d3⟩ | ⟨d1, d2, d3⟩
            · refine ⟨by omega, d2, ?_⟩
              rw [e0 _ (by omega), e0 _ (by omega)]
              exact d3
            · refine ⟨by omega, d2, ?_⟩
              rw [d1, e0 k (by omega), e1]
              exact d3
          · intro i hik
            by_cases h : i < k
            · rw [e0 i hik, e0 (i + 1) (by omega)]; exact c6 i h
            · have : i = k := by omega
              subst this
              rw [e0 i hik, e1]
              exact c7
        have h4' : f l.p ≤ f (q k) := by rw [hqk]; exact h4
        refine ⟨_, q', rfl, ?_⟩
        unfold track
        by_cases hd : w.fret - l.value > w.del
        · rw [if_pos hd]
          have hd' : w.del < f (q k) - f l.p := by rw [← hfret, ← h3]; exact hd
          have he : w.fret - l.value = f (q k) - f l.p := by rw [hfret, h3]
          have hp := hs.pos
          refine base _ rfl rfl ?_ (fun h => by cases h) ?_ ?_ ?_
          · show 0 ≤ w.fret - l.value
            linarith
          · intro b hb
            right
            have : (⟨k, hk⟩ : Fin N) = b := Option.some.inj hb
            refine ⟨by rw [← this], ?_, ?_⟩
            · show 0 < w.fret - l.value
              linarith
            · show _ = w.fret - l.value
              rw [he]
          · intro i hi
            show _ ≤ w.fret - l.value
            linarith [hs.most i hi]
          · show _ ≤ w.fret - l.value
            rw [he]
        · rw [if_neg hd]
          have hd' : f (q k) - f l.p ≤ w.del := by rw [← hfret, ← h3]; exact not_lt.1 hd
          exact base _ rfl rfl hs.pos hs.unset (fun b hb => Or.inl (hs.set b hb)) hs.most hd'

theorem Swept.total {f : Pt N → ℝ} {X : Fin N → Fin N → ℝ} {p : Pt N} {k : ℕ} {w : Sweep N} {q : ℕ → Pt N} (h : Swept f X p k w q) :
    f w.p ≤ f p ∧ (w.big = none → f w.p = f p) := by
  have key : ∀ i, i ≤ k → f (q i) ≤ f (q 0) ∧ (w.big = none → f (q i) = f (q 0)) := by
    intro i
    induction i with
    | zero => exact fun _ => ⟨le_refl _, fun _ => rfl⟩
    | succ i ih =>
      intro hi
      obtain ⟨a, b⟩ := ih (by omega)
      refine ⟨(h.down i (by omega)).trans a, fun hn => ?_⟩
      have h1 := h.most i (by omega)
      rw [h.unset hn] at h1
      have h2 := h.down i (by omega)
      rw [← b hn]
      linarith
  have := key k (le_refl k)
  rwa [h.first, h.last] at this

/-- **The directions after an iteration**: the column of the largest decrease is discarded and nothing else, and the last column
is the displacement. -/
theorem replaceCol_spec (X : Fin N → Fin N → ℝ) (b : Fin N) (xi : Pt N) :
    ∃ X', replaceCol X (some b) xi = .ret X' ∧ (∀ k : Fin N, k.val = N - 1 → ∀ j, X' j k = xi j) ∧
      ∀ k, k ≠ b → ∃ k' : Fin N, k'.val ≠ N - 1 ∧ ∀ j, X' j k' = X j k := by
  refine ⟨_, rfl, fun k hk j => by simp [hk], fun k hkb => ?_⟩
  by_cases hk : k.val = N - 1
  · have hbn : b.val ≠ N - 1 := fun h => hkb (Fin.ext (hk.trans h.symm))
    refine ⟨b, hbn, fun j => ?_⟩
    rw [if_neg hbn, if_pos rfl]
    congr 1
    exact Fin.ext hk.symm
  · exact ⟨k, hk, fun j => by rw [if_neg hk, if_neg hkb]⟩

theorem powellTest_eq {ftol : ℝ} (ht : 0 < ftol) (v : ℝ) : powellTest ftol v v := by
  unfold powellTest
  rw [sub_self, mul_zero]
  positivity

theorem powellNext_spec (f : Pt N → ℝ) {zeps ftol : ℝ} (hz : 0 < zeps) (ht : 0 < ftol) (s : PSt N) (hs : s.fret = f s.p) (w : Sweep N)
    (q : ℕ → Pt N) (hw : Swept f s.X s.p N w q) (hn : ¬ powellTest ftol s.fret w.fret) :
    Thrown (powellNext f zeps ftol s w) ∨ ∃ s', powellNext f zeps ftol s w = .ret s' ∧ s'.fret = f s'.p ∧ f s'.p ≤ f w.p := by
  have hbig : ∃ b, w.big = some b := by
    cases hb : w.big with
    | some b => exact ⟨b, rfl⟩
    | none =>
      exfalso
      apply hn
      rw [hw.value, hw.total.2 hb, hs]
      exact powellTest_eq ht _
  obtain ⟨b, hb⟩ := hbig
  unfold powellNext
  split
  · rcases lineMin_cases f hz ht w.p (fun j => w.p j - s.pt j) with h | ⟨l, t, hl, -, -, h3, h4⟩
    · exact Or.inl (h.bind _)
    · right
      obtain ⟨X', hX, -⟩ := replaceCol_spec s.X b l.xi
      rw [hl, Outcome.bind_ret, hb, hX, Outcome.bind_ret]
      exact ⟨_, rfl, h3, h4⟩
  · exact Or.inr ⟨_, rfl, hw.value, le_refl _⟩

theorem powellRun_spec (f : Pt N → ℝ) {zeps ftol : ℝ} (hz : 0 < zeps) (ht : 0 < ftol) (k iter : ℕ) (s : PSt N) (hs : s.fret = f s.p) :
    Thrown (powellRun f zeps ftol k iter s) ∨ ∃ r, powellRun f zeps ftol k iter s = .ret r ∧ r.fmin = f r.xmin ∧ r.fmin ≤ f s.p ∧
      r.iterations ≤ iter + k ∧ (r.converged = false → r.iterations = iter + k) ∧
      (r.converged = true → ∃ X p w q, Swept f X p N w q ∧ w.p = r.xmin ∧
        2 * (f p - r.fmin) ≤ ftol * (|f p| + |r.fmin|) + 1 / 10 ^ 25) := by
  induction k generalizing iter s with
  | zero => exact Or.inr ⟨_, rfl, hs, hs.le, by simp, fun _ => by simp, fun h => by cases h⟩
  | succ k ih =>
    unfold powellRun
    rw [hs]
    rcases sweep_spec f hz ht s.X s.p N (le_refl N) with h | ⟨w, q, hw, hq⟩
    · exact Or.inl (h.bind _)
    · rw [hw, Outcome.bind_ret]
      by_cases hc : powellTest ftol (f s.p) w.fret
      · rw [if_pos hc]
        refine Or.inr ⟨_, rfl, hq.value, ?_, by simp only; omega, (fun h => by cases h), fun _ => ⟨s.X, s.p, w, q, hq, rfl, hc⟩⟩
        show w.fret ≤ _
        rw [hq.value]
        exact hq.total.1
      · rw [if_neg hc]
        rcases powellNext_spec f hz ht s hs w q hq (by rw [hs]; exact hc) with h | ⟨s', h1, h2, h3⟩
        · exact Or.inl (h.bind _)
        · rw [h1, Outcome.bind_ret]
          rcases ih (iter + 1) s' h2 with h | ⟨r, r1, r2, r3, r4, r5, r6⟩
          · exact Or.inl h
          · exact Or.inr ⟨r, r1, r2, r3.trans (h3.trans hq.total.1), by omega, fun h => by have := r5 h; omega, r6⟩

/-- **Powell's method** for every function, start, matrix of directions, positive tolerance and limit: it throws, or it returns a
point with its value, not above the value at the start, after at most the iterations allowed; convergence means that a whole
sweep of line minimisations over `N` directions ended at the point returned and lowered the value by no more than the
tolerance.  In particular it never writes outside the matrix of directions. -/
theorem powell_spec (f : Pt N → ℝ) {zeps ftol : ℝ} {maxIter : ℤ} (hz : 0 < zeps) (ht : 0 < ftol) (hm : 0 < maxIter) (x0 : Pt N)
    (X : Fin N → Fin N → ℝ) :
    Thrown (powell f zeps ftol maxIter x0 X) ∨ ∃ r, powell f zeps ftol maxIter x0 X = .ret r ∧ r.fmin = f r.xmin ∧ r.fmin ≤ f x0 ∧
      (r.iterations : ℤ) ≤ maxIter ∧ (r.converged = false → (r.iterations : ℤ) = maxIter) ∧
      (r.converged = true → ∃ X p w q, Swept f X p N w q ∧ w.p = r.xmin ∧
        2 * (f p - r.fmin) ≤ ftol * (|f p| + |r.fmin|) + 1 / 10 ^ 25) := by
  unfold powell
  rw [if_neg (not_le.2 ht), if_neg (not_le.2 hm)]
  rcases powellRun_spec f hz ht maxIter.toNat 0 ⟨x0, x0, f x0, X⟩ rfl with h | ⟨r, r1, r2, r3, r4, r5, r6⟩
  · exact Or.inl h
  · exact Or.inr ⟨r, r1, r2, r3, by omega, fun h => by have := r5 h; omega, r6⟩

/-- **From the unit directions**: the same, for the matrix of the unit vectors; and the rejected inputs. -/
theorem powellUnit_spec (f : Pt N → ℝ) (zeps ftol : ℝ) (maxIter : ℤ) (x0 : Pt N) (X : Fin N → Fin N → ℝ) :
    powellUnit f zeps ftol maxIter x0 = powell f zeps ftol maxIter x0 (fun i j => if i = j then 1 else 0) ∧
    (ftol ≤ 0 ∨ maxIter ≤ 0 → powell f zeps ftol maxIter x0 X = .exn (.mml "MultidimOptimizationInputError")) := by
  constructor
  · unfold powellUnit powell
    by_cases h1 : ftol ≤ 0
    · rw [if_pos h1, if_pos h1]
    · by_cases h2 : maxIter ≤ 0
      · rw [if_neg h1, if_pos h2, if_neg h1, if_pos h2]
      · rw [if_neg h1, if_neg h2]
  · intro h
    unfold powell
    by_cases h1 : ftol ≤ 0
    · rw [if_pos h1]
    · rw [if_neg h1, if_pos (h.resolve_left h1)]

/-- **A function that falls for ever is an exception, not a result**: Powell's method for the function `x` of one variable. -/
theorem powell_linear (zeps ftol : ℝ) (maxIter : ℤ) (ht : 0 < ftol) (hm : 0 < maxIter) (x0 : Pt 1) :
    powellUnit (N := 1) (fun x => x 0) zeps ftol maxIter x0 = .exn (.mml "NumericInputError") := by
  unfold powellUnit powell
  rw [if_neg (not_le.2 ht), if_neg (not_le.2 hm), if_neg (not_le.2 ht), if_neg (not_le.2 hm)]
  obtain ⟨n, hn⟩ : ∃ n, maxIter.toNat = n + 1 := ⟨maxIter.toNat - 1, by omega⟩
  rw [hn]
  unfold powellRun sweep sweep
  rw [Outcome.bind_ret, lineMin_monotone]
  · rfl
  · left
    intro a b hab
    simpa using hab

/-- Not vacuous: the square of one variable from -1, at coarse tolerances, is minimised in two iterations. -/
example : powellUnit (N := 1) (fun x => x 0 ^ 2) 1 1 5 (fun _ => -1) = .ret ⟨fun _ => 0, 0, 2, true⟩ := by
  have l1 : lineMin (N := 1) (fun x => x 0 ^ 2) 1 (fun _ => -1) (fun _ => 1) 1 = .ret ⟨fun _ => 0, fun _ => 1, 0⟩ := by
    have hb : bracketMinimum (lineFun (N := 1) (fun x => x 0 ^ 2) (fun _ => -1) (fun _ => 1)) 0 1 =
        ⟨0, 1, 1 + gold * (1 - 0), 1, 0, gold ^ 2, true⟩ := by
      rw [bracketMinimum, bracketStart, if_neg (by norm_num [lineFun, along]), bracketLoop, if_neg (by norm_num [gold, lineFun, along])]
      norm_num [gold, lineFun, along]
    unfold lineMin lineBracket
    rw [hb, if_neg (by simp), brent, if_neg (by norm_num), if_neg (by simp), if_neg (by norm_num)]
    rw [show (100 : ℤ).toNat = 99 + 1 from rfl, brentLoop, if_pos]
    · rw [Outcome.bind_ret]
      simp [brentStart, lineFun, along]
    · norm_num [brentDone, brentStart, gold, tol1, abs_le]
  have l2 : lineMin (N := 1) (fun x => x 0 ^ 2) 1 (fun _ => 0) (fun _ => 1) 1 = .ret ⟨fun _ => 0, fun _ => 0, 0⟩ := by
    have hb : bracketMinimum (lineFun (N := 1) (fun x => x 0 ^ 2) (fun _ => 0) (fun _ => 1)) 0 1 =
        ⟨1, 0, 0 + gold * (0 - 1), 1, 0, gold ^ 2, true⟩ := by
      rw [bracketMinimum, bracketStart, if_pos (by norm_num [lineFun, along]), bracketLoop, if_neg (by norm_num [gold, lineFun, along])]
      norm_num [gold, lineFun, along]
    unfold lineMin lineBracket
    rw [hb, if_neg (by simp), brent, if_neg (by norm_num), if_neg (by simp), if_neg (by norm_num)]
    rw [show (100 : ℤ).toNat = 99 + 1 from rfl, brentLoop, if_pos]
    · rw [Outcome.bind_ret]
      simp [brentStart, lineFun, along]
    · norm_num [brentDone, brentStart, gold, tol1, abs_le]
  have hX : (fun j : Fin 1 => if j = ⟨0, Nat.one_pos⟩ then (1 : ℝ) else 0) = fun _ => 1 := by
    funext j
    rw [if_pos (Subsingleton.elim _ _)]
  unfold powellUnit powell
  rw [if_neg (by norm_num), if_neg (by norm_num), if_neg (by norm_num), if_neg (by norm_num)]
  rw [show (5 : ℤ).toNat = 3 + 1 + 1 from rfl]
  unfold powellRun sweep sweep
  simp only [Outcome.bind_ret, hX, l1]
  rw [if_neg (by norm_num [powellTest, track])]
  unfold powellNext
  rw [if_neg (by norm_num [takeNew, track])]
  unfold powellRun sweep sweep
  have ht : (track (N := 1) ⟨fun _ => -1, (-1) ^ 2, 0, none⟩ ⟨0, Nat.one_pos⟩ ⟨fun _ => 0, fun _ => 1, 0⟩).p = fun _ => 0 := by
    unfold track
    split <;> rfl
  simp only [Outcome.bind_ret, hX, ht, l2]
  rw [if_pos (by norm_num [powellTest, track])]
  simp [track]

/-! ## The conjugate gradient method -/

theorem gradTest_zero {fret gtol : ℝ} {p : Pt N} (hg : 0 < gtol) (g : Pt N) (h : g = 0) : gradTest fret p g < gtol := by
  rw [gradTest_lt hg]
  intro j
  rw [h]
  simp only [Pi.zero_apply, abs_zero, zero_mul]
  exact mul_pos hg (lt_of_lt_of_le one_pos (le_max_right _ _))

theorem cgRun_spec (f : Pt N → ℝ) (G : Pt N → Pt N) {zeps ftol gtol : ℝ} (hz : 0 < zeps) (ht : 0 < ftol) (hg : 0 < gtol) (fr : Bool)
    (k iter : ℕ) (s : CSt N) (hs : s.fp = f s.p) (hi : s.g ≠ 0 ∨ s.xi = 0) :
    Thrown (cgRun f G zeps ftol gtol fr k iter s) ∨ ∃ r, cgRun f G zeps ftol gtol fr k iter s = .ret r ∧ r.fmin = f r.xmin ∧
      r.fmin ≤ f s.p ∧ r.iterations ≤ iter + k ∧ (r.converged = false → r.iterations = iter + k) ∧
      (r.converged = true → (∀ j, |G r.xmin j| * max |r.xmin j| 1 < gtol * max |r.fmin| 1) ∨
        ∃ (p d : Pt N) (t : ℝ), (∀ j, r.xmin j = p j + t * d j) ∧ r.fmin ≤ f p ∧
          2 * |r.fmin - f p| ≤ ftol * (|r.fmin| + |f p| + 1 / 10 ^ 18)) := by
  induction k generalizing iter s with
  | zero => exact Or.inr ⟨_, rfl, hs, hs.le, by simp, fun _ => by simp, fun h => by cases h⟩
  | succ k ih =>
    unfold cgRun
    rcases lineMin_cases f hz ht s.p s.xi with h | ⟨l, t, hl, -, h2, h3, h4⟩
    · exact Or.inl (h.bind _)
    · rw [hl, Outcome.bind_ret]
      have hle : l.value ≤ f s.p := by rw [h3]; exact h4
      by_cases c1 : valueTest ftol l.value s.fp
      · rw [if_pos c1]
        refine Or.inr ⟨_, rfl, h3, hle, by simp only; omega, (fun h => by cases h), fun _ => Or.inr ⟨s.p, s.xi, t, h2, hle, ?_⟩⟩
        rw [hs] at c1
        exact c1
      · rw [if_neg c1]
        by_cases c2 : gradTest l.value l.p (G l.p) < gtol
        · rw [if_pos c2]
          exact Or.inr ⟨_, rfl, h3, hle, by simp only; omega, (fun h => by cases h), fun _ => Or.inl ((gradTest_lt hg).1 c2)⟩
        · rw [if_neg c2]
          have hg0 : s.g ≠ 0 := by
            rcases hi with hi | hi
            · exact hi
            · exfalso
              apply c1
              have hp : l.p = s.p := by
                funext j
                rw [h2 j, hi]
                simp
              rw [h3, hp, hs]
              unfold valueTest
              rw [sub_self, abs_zero, mul_zero]
              have : (0 : ℝ) < eps := by unfold eps; positivity
              positivity
          rw [if_neg (dot_self_pos hg0).ne']
          have hng : (fun j => -G l.p j) ≠ 0 := by
            intro h
            exact c2 (gradTest_zero hg (G l.p) (by
              funext j
              have := congrFun h j
              simpa using this))
          rcases ih (iter + 1) (cgNext G fr s l) h3 (Or.inl hng) with h | ⟨r, r1, r2, r3, r4, r5, r6⟩
          · exact Or.inl h
          · exact Or.inr ⟨r, r1, r2, r3.trans h4, by omega, fun h => by have := r5 h; omega, r6⟩

/-- **The conjugate gradient method** for both formulas, every function, every gradient handed in, every start and all positive
tolerances and limits: it throws, or returns a point with its value, not above the value at the start, after at most the iterations
allowed; convergence means that the scaled gradient is below its tolerance or that the last line minimisation lowered the value by
no more than the fractional tolerance. -/
theorem cg_spec (f : Pt N → ℝ) (G : Pt N → Pt N) {zeps ftol gtol : ℝ} {maxIter : ℤ} (hz : 0 < zeps) (ht : 0 < ftol) (hg : 0 < gtol)
    (hm : 0 < maxIter) (fr : Bool) (x0 : Pt N) :
    Thrown (cg f G zeps ftol gtol maxIter fr x0) ∨ ∃ r, cg f G zeps ftol gtol maxIter fr x0 = .ret r ∧ r.fmin = f r.xmin ∧
      r.fmin ≤ f x0 ∧ (r.iterations : ℤ) ≤ maxIter ∧ (r.converged = false → (r.iterations : ℤ) = maxIter) ∧
      (r.converged = true → (∀ j, |G r.xmin j| * max |r.xmin j| 1 < gtol * max |r.fmin| 1) ∨
        ∃ (p d : Pt N) (t : ℝ), (∀ j, r.xmin j = p j + t * d j) ∧ r.fmin ≤ f p ∧
          2 * |r.fmin - f p| ≤ ftol * (|r.fmin| + |f p| + 1 / 10 ^ 18)) := by
  unfold cg
  rw [if_neg (not_le.2 ht), if_neg (not_le.2 hg), if_neg (not_le.2 hm)]
  rcases cgRun_spec f G hz ht hg fr maxIter.toNat 0 ⟨x0, fun j => -G x0 j, fun j => -G x0 j, fun j => -G x0 j, f x0⟩ rfl (by
    by_cases h : (fun j => -G x0 j) = 0
    · exact Or.inr h
    · exact Or.inl h) with h | ⟨r, r1, r2, r3, r4, r5, r6⟩
  · exact Or.inl h
  · exact Or.inr ⟨r, r1, r2, r3, by omega, fun h => by have := r5 h; omega, r6⟩

/-- Not vacuous: the square of one variable from -1, at coarse tolerances: the first line minimisation ends at 1, with the same
value, and that is taken for convergence. -/
example : cg (N := 1) (fun x => x 0 ^ 2) (fun x _ => 2 * x 0) 1 1 1 5 true (fun _ => -1) = .ret ⟨fun _ => 1, 1, 1, true⟩ := by
  have l1 : lineMin (N := 1) (fun x => x 0 ^ 2) 1 (fun _ => -1) (fun _ => 2) 1 = .ret ⟨fun _ => 1, fun _ => 2, 1⟩ := by
    have hb : bracketMinimum (lineFun (N := 1) (fun x => x 0 ^ 2) (fun _ => -1) (fun _ => 2)) 0 1 =
        ⟨0, 1, 1 + gold * (1 - 0), 1, 1, (1 + 2 * gold) ^ 2, true⟩ := by
      rw [bracketMinimum, bracketStart, if_neg (by norm_num [lineFun, along]), bracketLoop, if_neg (by norm_num [gold, lineFun, along])]
      norm_num [gold, lineFun, along]
    unfold lineMin lineBracket
    rw [hb, if_neg (by simp), brent, if_neg (by norm_num), if_neg (by simp), if_neg (by norm_num)]
    rw [show (100 : ℤ).toNat = 99 + 1 from rfl, brentLoop, if_pos]
    · rw [Outcome.bind_ret]
      norm_num [brentStart, lineFun, along]
    · norm_num [brentDone, brentStart, gold, tol1, abs_le]
  have hd : (fun _ : Fin 1 => -(2 * (-1 : ℝ))) = fun _ => 2 := by norm_num
  unfold cg
  rw [if_neg (by norm_num), if_neg (by norm_num), if_neg (by norm_num), hd]
  rw [show (5 : ℤ).toNat = 4 + 1 from rfl]
  unfold cgRun
  simp only [l1, Outcome.bind_ret]
  rw [if_pos (by norm_num [valueTest, eps])]

/-- **Descent and conjugacy of the directions**, for every function: let `G₀` be the old gradient, not zero, `h` the old direction
with `h · G₀ = -G₀ · G₀`, and `G₁` the gradient at the new point.  If the line minimisation was exact, `h · G₁ = 0`, the new
direction `h'` satisfies `h' · G₁ = -G₁ · G₁` again, so it descends; with the formula of Polak and Ribière `h' · (G₁ - G₀) = 0`,
and so with that of Fletcher and Reeves if `G₀` and `G₁` are orthogonal. -/
theorem cgDir_spec (fr : Bool) (G₀ G₁ h : Pt N) (h0 : G₀ ≠ 0) (hh : ∑ j, h j * G₀ j = -∑ j, G₀ j * G₀ j) (he : ∑ j, h j * G₁ j = 0) :
    ∑ j, cgDir fr (fun j => -G₀ j) h G₁ j * G₁ j = -∑ j, G₁ j * G₁ j ∧
    (fr = false ∨ ∑ j, G₀ j * G₁ j = 0 → ∑ j, cgDir fr (fun j => -G₀ j) h G₁ j * (G₁ j - G₀ j) = 0) := by
  have hpos : 0 < ∑ j, G₀ j * G₀ j := dot_self_pos h0
  have hgg : dot (fun j => -G₀ j) (fun j => -G₀ j) = ∑ j, G₀ j * G₀ j := by
    simp [dot]
  set γ := dgg fr (fun j => -G₀ j) G₁ / dot (fun j => -G₀ j) (fun j => -G₀ j) with hγ
  have e1 : ∀ v : Pt N, ∑ j, cgDir fr (fun j => -G₀ j) h G₁ j * v j = -(∑ j, G₁ j * v j) + γ * ∑ j, h j * v j := by
    intro v
    rw [Finset.mul_sum, ← Finset.sum_neg_distrib, ← Finset.sum_add_distrib]
    refine Finset.sum_congr rfl fun j _ => ?_
    simp only [cgDir, ← hγ]
    ring
  refine ⟨by rw [e1, he]; ring, fun hc => ?_⟩
  rw [e1]
  have e2 : ∑ j, h j * (G₁ j - G₀ j) = ∑ j, G₀ j * G₀ j := by
    simp only [mul_sub, Finset.sum_sub_distrib, he, hh]
    ring
  rw [e2, hγ, hgg, div_mul_cancel₀ _ hpos.ne']
  have e3 : ∑ j, G₁ j * (G₁ j - G₀ j) = ∑ j, G₁ j * G₁ j - ∑ j, G₀ j * G₁ j := by
    simp only [mul_sub, Finset.sum_sub_distrib]
    congr 1
    exact Finset.sum_congr rfl fun _ _ => mul_comm _ _
  cases fr with
  | true =>
    rw [e3, hc.resolve_left (by simp)]
    simp [dgg]
  | false =>
    rw [e3]
    have e4 : dgg false (fun j => -G₀ j) G₁ = ∑ j, G₁ j * G₁ j - ∑ j, G₀ j * G₁ j := by
      simp only [dgg, Bool.false_eq_true, if_false, ← Finset.sum_sub_distrib]
      exact Finset.sum_congr rfl fun _ _ => by ring
    rw [e4]
    ring

/-- Not vacuous: the first direction, minus the gradient, at a point where the next gradient is orthogonal. -/
example : ∃ G₀ G₁ h : Pt 2, G₀ ≠ 0 ∧ ∑ j, h j * G₀ j = -∑ j, G₀ j * G₀ j ∧ ∑ j, h j * G₁ j = 0 ∧ G₁ ≠ 0 :=
  ⟨![1, 0], ![0, 1], ![-1, 0], fun h => by simpa using congrFun h 0, by simp, by simp, fun h => by simpa using congrFun h 1⟩

/-- **The rejected inputs.** -/
theorem cg_throws (f : Pt N → ℝ) (G : Pt N → Pt N) (zeps ftol gtol : ℝ) (maxIter : ℤ) (fr : Bool) (x0 : Pt N)
    (h : ftol ≤ 0 ∨ gtol ≤ 0 ∨ maxIter ≤ 0) : cg f G zeps ftol gtol maxIter fr x0 = .exn (.mml "MultidimOptimizationInputError") := by
  unfold cg
  by_cases h1 : ftol ≤ 0
  · rw [if_pos h1]
  · rw [if_neg h1]
    by_cases h2 : gtol ≤ 0
    · rw [if_pos h2]
    · rw [if_neg h2, if_pos (by tauto)]

end QN
end Verif.Optim
