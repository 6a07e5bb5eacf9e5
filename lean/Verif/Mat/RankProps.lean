import Verif.Mat.Utils
import Verif.Mat.DenseProps
import Mathlib.LinearAlgebra.Matrix.Rank
import Mathlib.LinearAlgebra.Dimension.Constructions
import Mathlib.Tactic

/-!
# Rank by elimination

Property C143.  The specification is `Matrix.rank` of Mathlib.
-/

set_option autoImplicit false

namespace Verif.Mat.Utils

open Verif.Mat
open Verif.Mat.Dense (Is Shape ofFn)

variable {K : Type} [Field K] [LinearOrder K] [IsStrictOrderedRing K]

/-- The mathematical `r × c` matrix with the elements `f i j`. -/
def toRect (r c : ℕ) (f : ℕ → ℕ → K) : Matrix (Fin r) (Fin c) K := Matrix.of fun i j => f i j

theorem findPivot_spec {r c : ℕ} (f : ℕ → ℕ → K) (sel : ℕ → Bool) (eps : K) (he : 0 ≤ eps) {col : ℕ} (hc : col < c) :
    ∃ p, findPivot (ofFn r c f) (tab r sel) eps col = .ret p ∧
      (p.1 = none → ∀ i < r, sel i = false → |f i col| ≤ eps) ∧
      ∀ pr, p.1 = some pr → pr < r ∧ sel pr = false ∧ eps < |f pr col| ∧
        ∀ i < r, sel i = false → |f i col| ≤ |f pr col| := by
  unfold findPivot
  simp only [Dense.ofFn_rows]
  obtain ⟨p, hp, h1, h2⟩ := forRange_rule
    (fun n (s : Option ℕ × K) =>
      (s.1 = none → s.2 = 0 ∧ ∀ i < n, sel i = false → |f i col| ≤ eps) ∧
      ∀ pr, s.1 = some pr → pr < n ∧ sel pr = false ∧ eps < |f pr col| ∧ s.2 = |f pr col| ∧
        ∀ i < n, sel i = false → |f i col| ≤ |f pr col|)
    r ((none : Option ℕ), (0 : K))
    (fun s row => do
      let x ← (ofFn r c f).get row col
      let used ← Outcome.index (tab r sel) row
      if !used ∧ |x| > eps ∧ |x| > s.2 then .ret (some row, |x|) else .ret s)
    (by
      refine ⟨fun _ => ⟨rfl, fun i hi => absurd hi (by omega)⟩, fun pr h => by cases h⟩)
    (by
      rintro row ⟨o, best⟩ hrow ⟨hn, hs⟩
      rw [Dense.get_ofFn f hrow hc, Outcome.bind_ret, index_tab _ hrow, Outcome.bind_ret]
      simp only at hn hs ⊢
      by_cases hcond : (!sel row) = true ∧ |f row col| > eps ∧ |f row col| > best
      · rw [if_pos hcond]
        refine ⟨_, rfl, (fun h => by cases h), ?_⟩
        intro pr hpr
        simp only [Option.some.injEq] at hpr
        subst hpr
        refine ⟨by omega, by simpa using hcond.1, hcond.2.1, rfl, ?_⟩
        intro i hi hsi
        by_cases hir : i = row
        · rw [hir]
        · cases o with
          | none => exact ((hn rfl).2 i (by omega) hsi).trans hcond.2.1.le
          | some q =>
            obtain ⟨_, _, _, h4, h5⟩ := hs q rfl
            refine (h5 i (by omega) hsi).trans ?_
            rw [← h4]
            exact hcond.2.2.le
      · rw [if_neg hcond]
        refine ⟨_, rfl, ?_, ?_⟩
        · intro ho
          obtain ⟨h0, h1⟩ := hn ho
          refine ⟨h0, fun i hi hsi => ?_⟩
          by_cases hir : i = row
          · subst hir
            by_contra hgt
            rw [not_le] at hgt
            exact hcond ⟨by simp [hsi], hgt, by rw [h0]; exact lt_of_le_of_lt he hgt⟩
          · exact h1 i (by omega) hsi
        · intro pr hpr
          obtain ⟨h1, h2, h3, h4, h5⟩ := hs pr hpr
          refine ⟨by omega, h2, h3, h4, fun i hi hsi => ?_⟩
          by_cases hir : i = row
          · subst hir
            by_contra hgt
            rw [not_le] at hgt
            exact hcond ⟨by simp [hsi], h3.trans hgt, by rw [h4]; exact hgt⟩
          · exact h5 i (by omega) hsi)
  exact ⟨p, hp, fun h => (h1 h).2, fun pr h => by
    obtain ⟨a, b, c, _, d⟩ := h2 pr h
    exact ⟨a, b, c, d⟩⟩

/-- The elements after clearing column `col` with the pivot in row `pr`. -/
def elim (f : ℕ → ℕ → K) (pr col i k : ℕ) : K :=
  if i ≠ pr ∧ col ≤ k then f i k - f i col / f pr col * f pr k else f i k

omit [LinearOrder K] [IsStrictOrderedRing K] in
theorem elim_pivot (f : ℕ → ℕ → K) (pr col k : ℕ) : elim f pr col pr k = f pr k := by
  simp [elim]

omit [IsStrictOrderedRing K] in
theorem elimRow_spec {r c : ℕ} (g : ℕ → ℕ → K) {pr col row : ℕ} (hp : pr < r) (hc : col < c) (hr : row < r)
    (h0 : g pr col ≠ 0) :
    elimRow pr col (ofFn r c g) row =
      .ret (ofFn r c (fun p q => if p = row then elim g pr col row q else g p q)) := by
  unfold elimRow
  by_cases hrp : row = pr
  · rw [if_neg (by simpa using hrp)]
    congr 1
    refine Dense.ofFn_congr fun p _ q _ => ?_
    by_cases h : p = row
    · rw [if_pos h, hrp, elim_pivot, h, hrp]
    · rw [if_neg h]
  rw [if_pos (by simpa using hrp), Dense.get_ofFn _ hr hc, Outcome.bind_ret, Dense.get_ofFn _ hp hc, Outcome.bind_ret,
    if_neg h0, Outcome.bind_ret]
  simp only [Dense.ofFn_cols]
  obtain ⟨t, ht, rfl⟩ := forFromTo_rule
    (fun k (m : Dense K) => m = ofFn r c (fun p q =>
      if p = row ∧ col ≤ q ∧ q < k then g row q - g row col / g pr col * g pr q else g p q))
    col c hc.le (ofFn r c g)
    (fun m k => do
      let u ← m.get row k
      let v ← m.get pr k
      m.set row k (u - g row col / g pr col * v))
    (by
      refine Dense.ofFn_congr fun p _ q _ => ?_
      rw [if_neg (by omega)])
    (by
      rintro k _ h1 h2 rfl
      refine ⟨_, by
        rw [Dense.get_ofFn _ hr h2, Outcome.bind_ret, Dense.get_ofFn _ hp h2, Outcome.bind_ret,
          Dense.set_ofFn _ hr h2], ?_⟩
      refine Dense.ofFn_congr fun p _ q _ => ?_
      by_cases hpq : p = row ∧ q = k
      · obtain ⟨rfl, rfl⟩ := hpq
        rw [if_pos ⟨rfl, rfl⟩, if_neg (by omega), if_neg (by omega), if_pos (by omega)]
      · rw [if_neg hpq]
        by_cases h3 : p = row ∧ col ≤ q ∧ q < k
        · rw [if_pos h3, if_pos (by omega)]
        · rw [if_neg h3, if_neg (by omega)])
  rw [ht]
  congr 1
  refine Dense.ofFn_congr fun p _ q hq => ?_
  by_cases h : p = row
  · subst h
    rw [if_pos rfl, elim]
    by_cases hcq : col ≤ q
    · rw [if_pos ⟨rfl, hcq, hq⟩, if_pos ⟨hrp, hcq⟩]
    · rw [if_neg (by omega), if_neg (by tauto)]
  · rw [if_neg (by tauto), if_neg h]

omit [IsStrictOrderedRing K] in
theorem elimLoop_spec {r c : ℕ} (f : ℕ → ℕ → K) {pr col : ℕ} (hp : pr < r) (hc : col < c) (h0 : f pr col ≠ 0) :
    forRange r (ofFn r c f) (elimRow pr col) = .ret (ofFn r c (elim f pr col)) := by
  obtain ⟨t, ht, rfl⟩ := forRange_rule
    (fun n (m : Dense K) => m = ofFn r c (fun p q => if p < n then elim f pr col p q else f p q))
    r (ofFn r c f) (elimRow pr col)
    (by simp)
    (by
      rintro n _ hn rfl
      have hpr : ∀ q, (if pr < n then elim f pr col pr q else f pr q) = f pr q := by
        intro q
        rw [elim_pivot]
        split <;> rfl
      refine ⟨_, elimRow_spec _ hp hc hn (by simpa only [hpr] using h0), ?_⟩
      refine Dense.ofFn_congr fun p _ q _ => ?_
      by_cases h : p = n
      · subst h
        rw [if_pos rfl, if_pos (by omega)]
        unfold elim
        simp only [lt_irrefl, if_false]
        by_cases hh : p ≠ pr ∧ col ≤ q
        · rw [if_pos hh, if_pos hh]
          congr 1
          have e1 := hpr col
          have e2 := hpr q
          unfold elim at e1 e2
          rw [e1, e2]
        · rw [if_neg hh, if_neg hh]
      · rw [if_neg h]
        by_cases h2 : p < n
        · rw [if_pos h2, if_pos (by omega)]
        · rw [if_neg h2, if_neg (by omega)])
  rw [ht]
  congr 1
  exact Dense.ofFn_congr fun p hp q _ => by rw [if_pos hp]

/-- `x` solves the homogeneous system with the coefficients `f`. -/
def Ker (r c : ℕ) (f : ℕ → ℕ → K) (x : ℕ → K) : Prop :=
  ∀ i < r, ∑ k ∈ Finset.range c, f i k * x k = 0

/-- The invariant of the loop over the columns. -/
structure Inv (A : ℕ → ℕ → K) (r c : ℕ) (eps : K) (col : ℕ) (f : ℕ → ℕ → K) (sel : ℕ → Bool) (piv : ℕ → ℕ) : Prop where
  lt : ∀ i < r, sel i = true → piv i < col
  ne : ∀ i < r, sel i = true → f i (piv i) ≠ 0
  zero : ∀ i < r, sel i = true → ∀ j < r, j ≠ i → f j (piv i) = 0
  ker : ∀ x : ℕ → K, (∀ k < col, (¬ ∃ i < r, sel i = true ∧ piv i = k) → x k = 0) → (Ker r c A x ↔ Ker r c f x)
  exact : eps = 0 → (∀ i < r, sel i = false → ∀ k < col, f i k = 0) ∧ ∀ x, Ker r c A x ↔ Ker r c f x

omit [LinearOrder K] [IsStrictOrderedRing K] in
theorem elim_ker {r c : ℕ} (f : ℕ → ℕ → K) {pr col : ℕ} (hp : pr < r) (x : ℕ → K)
    (hx : ∀ k < col, f pr k * x k = 0) : Ker r c f x ↔ Ker r c (elim f pr col) x := by
  have key : ∀ i, ∑ k ∈ Finset.range c, elim f pr col i k * x k =
      ∑ k ∈ Finset.range c, f i k * x k -
        (if i = pr then 0 else f i col / f pr col) * ∑ k ∈ Finset.range c, f pr k * x k := by
    intro i
    rw [Finset.mul_sum, ← Finset.sum_sub_distrib]
    refine Finset.sum_congr rfl fun k _ => ?_
    unfold elim
    by_cases hi : i = pr
    · simp [hi]
    · by_cases hk : col ≤ k
      · rw [if_pos ⟨hi, hk⟩, if_neg hi]; ring
      · rw [if_neg (by tauto), if_neg hi, hx k (by omega)]; ring
  constructor
  · intro h i hi
    rw [key, h i hi, h pr hp, mul_zero, sub_zero]
  · intro h i hi
    have h1 := h pr hp
    rw [key, if_pos rfl, zero_mul, sub_zero] at h1
    have h2 := h i hi
    rwa [key, h1, mul_zero, sub_zero] at h2

theorem rankStep_spec {A : ℕ → ℕ → K} {r c : ℕ} {eps : K} (he : 0 ≤ eps) {col : ℕ} (hc : col < c) {f : ℕ → ℕ → K}
    {sel : ℕ → Bool} {piv : ℕ → ℕ} (h : Inv A r c eps col f sel piv) :
    ∃ f' sel' piv', rankStep eps ⟨ofFn r c f, tab r sel, ((Finset.range r).filter (fun i => sel i = true)).card⟩ col =
        .ret ⟨ofFn r c f', tab r sel', ((Finset.range r).filter (fun i => sel' i = true)).card⟩ ∧
      Inv A r c eps (col + 1) f' sel' piv' := by
  obtain ⟨⟨o, best⟩, hp, hnone, hsome⟩ := findPivot_spec (r := r) f sel eps he hc
  simp only [rankStep]
  rw [hp, Outcome.bind_ret]
  cases o with
  | none =>
    have hn := hnone rfl
    refine ⟨f, sel, piv, rfl, ?_, h.ne, h.zero, ?_, ?_⟩
    · intro i hi hs
      have := h.lt i hi hs
      omega
    · intro x hx
      exact h.ker x (fun k hk => hx k (by omega))
    · intro h0
      obtain ⟨h1, h2⟩ := h.exact h0
      refine ⟨fun i hi hs k hk => ?_, h2⟩
      by_cases hkc : k = col
      · subst hkc
        have := hn i hi hs
        rw [h0] at this
        exact abs_eq_zero.1 (le_antisymm this (abs_nonneg _))
      · exact h1 i hi hs k (by omega)
  | some pr =>
    obtain ⟨hpr, hsel, hbig, -⟩ := hsome pr rfl
    have hy : f pr col ≠ 0 := by
      intro h0
      rw [h0, abs_zero] at hbig
      exact absurd hbig (not_lt.2 he)
    have hcard : ((Finset.range r).filter (fun i => (if i = pr then true else sel i) = true)).card
        = ((Finset.range r).filter (fun i => sel i = true)).card + 1 := by
      have e : (Finset.range r).filter (fun i => (if i = pr then true else sel i) = true)
          = insert pr ((Finset.range r).filter (fun i => sel i = true)) := by
        ext i
        simp only [Finset.mem_filter, Finset.mem_range, Finset.mem_insert]
        by_cases hi : i = pr
        · subst hi; simp [hpr]
        · simp [hi]
      rw [e, Finset.card_insert_of_notMem]
      simp [hsel]
    have hprz : ∀ i < r, sel i = true → f pr (piv i) = 0 := by
      intro i hi hs
      refine h.zero i hi hs pr hpr ?_
      rintro rfl
      rw [hs] at hsel
      cases hsel
    refine ⟨elim f pr col, fun i => if i = pr then true else sel i, fun i => if i = pr then col else piv i, ?_, ?_⟩
    · simp only
      rw [store_tab _ hpr, Outcome.bind_ret]
      simp only [Dense.ofFn_rows]
      rw [elimLoop_spec f hpr hc hy, Outcome.bind_ret, hcard]
    · refine ⟨?_, ?_, ?_, ?_, ?_⟩
      · intro i hi hs
        by_cases hip : i = pr
        · simp [hip]
        · simp only [if_neg hip] at hs ⊢
          have := h.lt i hi hs
          omega
      · intro i hi hs
        by_cases hip : i = pr
        · subst hip
          rw [if_pos rfl, elim_pivot]
          exact hy
        · simp only [if_neg hip] at hs ⊢
          have := h.lt i hi hs
          rw [elim, if_neg (by omega)]
          exact h.ne i hi hs
      · intro i hi hs j hj hji
        by_cases hip : i = pr
        · subst hip
          rw [if_pos rfl, elim, if_pos ⟨hji, le_rfl⟩]
          field_simp
          ring
        · simp only [if_neg hip] at hs ⊢
          have := h.lt i hi hs
          rw [elim, if_neg (by omega)]
          exact h.zero i hi hs j hj hji
      · intro x hx
        refine (h.ker x fun k hk hno => ?_).trans (elim_ker f hpr x fun k hk => ?_)
        · refine hx k (by omega) ?_
          rintro ⟨i, hi, hs, hpk⟩
          by_cases hip : i = pr
          · rw [if_pos hip] at hpk; omega
          · rw [if_neg hip] at hs hpk
            exact hno ⟨i, hi, hs, hpk⟩
        · by_cases hex : ∃ i < r, sel i = true ∧ piv i = k
          · obtain ⟨i, hi, hs, rfl⟩ := hex
            rw [hprz i hi hs, zero_mul]
          · rw [hx k (by omega), mul_zero]
            rintro ⟨i, hi, hs, hpk⟩
            by_cases hip : i = pr
            · rw [if_pos hip] at hpk; omega
            · rw [if_neg hip] at hs hpk
              exact hex ⟨i, hi, hs, hpk⟩
      · intro h0
        obtain ⟨h1, h2⟩ := h.exact h0
        refine ⟨fun i hi hs k hk => ?_, fun x => (h2 x).trans (elim_ker f hpr x fun k hk => ?_)⟩
        · by_cases hip : i = pr
          · rw [if_pos hip] at hs; cases hs
          · rw [if_neg hip] at hs
            by_cases hkc : k = col
            · subst hkc
              rw [elim, if_pos ⟨hip, le_rfl⟩]
              field_simp
              ring
            · rw [elim, if_neg (by omega)]
              exact h1 i hi hs k (by omega)
        · rw [h1 pr hpr hsel k hk, zero_mul]

omit [LinearOrder K] [IsStrictOrderedRing K] in
theorem ker_toRect (r c : ℕ) (f : ℕ → ℕ → K) (v : Fin c → K) :
    (toRect r c f).mulVec v = 0 ↔ Ker r c f (fun k => if h : k < c then v ⟨k, h⟩ else 0) := by
  have e : ∀ i : Fin r, (toRect r c f).mulVec v i =
      ∑ k ∈ Finset.range c, f i k * (if h : k < c then v ⟨k, h⟩ else 0) := by
    intro i
    rw [Finset.sum_range, Matrix.mulVec, dotProduct]
    exact Finset.sum_congr rfl fun k _ => by simp [toRect]
  constructor
  · intro h i hi
    have := congrFun h ⟨i, hi⟩
    rwa [e] at this
  · intro h
    funext i
    rw [e]
    exact h i i.2

omit [LinearOrder K] [IsStrictOrderedRing K] in
theorem rank_eq_of_ker {r c : ℕ} {A f : ℕ → ℕ → K} (h : ∀ x, Ker r c A x ↔ Ker r c f x) :
    (toRect r c A).rank = (toRect r c f).rank := by
  have hk : LinearMap.ker (toRect r c A).mulVecLin = LinearMap.ker (toRect r c f).mulVecLin := by
    ext v
    rw [LinearMap.mem_ker, LinearMap.mem_ker, Matrix.mulVecLin_apply, Matrix.mulVecLin_apply, ker_toRect, ker_toRect, h]
  have h1 := LinearMap.finrank_range_add_finrank_ker (toRect r c A).mulVecLin
  have h2 := LinearMap.finrank_range_add_finrank_ker (toRect r c f).mulVecLin
  rw [hk] at h1
  unfold Matrix.rank
  omega

theorem rank_lower {A : ℕ → ℕ → K} {r c : ℕ} {eps : K} {f : ℕ → ℕ → K} {sel : ℕ → Bool} {piv : ℕ → ℕ}
    (h : Inv A r c eps c f sel piv) :
    ((Finset.range r).filter (fun i => sel i = true)).card ≤ (toRect r c A).rank := by
  set S := (Finset.range r).filter (fun i => sel i = true) with hS
  have hmem : ∀ s : S, s.1 < r ∧ sel s.1 = true := fun s => by
    have := Finset.mem_filter.1 s.2
    exact ⟨Finset.mem_range.1 this.1, this.2⟩
  have hinj : ∀ s t : S, piv s.1 = piv t.1 → s = t := by
    intro s t hst
    by_contra hne
    have h1 := h.zero t.1 (hmem t).1 (hmem t).2 s.1 (hmem s).1 (fun e => hne (Subtype.ext e))
    rw [← hst] at h1
    exact h.ne s.1 (hmem s).1 (hmem s).2 h1
  have hli : LinearIndependent K (fun s : S => (toRect r c A).col ⟨piv s.1, h.lt s.1 (hmem s).1 (hmem s).2⟩) := by
    rw [Fintype.linearIndependent_iff]
    intro g hg
    classical
    let x : ℕ → K := fun k => ∑ s : S, if piv s.1 = k then g s else 0
    have hsum : ∀ (F : ℕ → ℕ → K) (i : ℕ), ∑ k ∈ Finset.range c, F i k * x k = ∑ s : S, g s * F i (piv s.1) := by
      intro F i
      simp only [x, Finset.mul_sum]
      rw [Finset.sum_comm]
      refine Finset.sum_congr rfl fun s _ => ?_
      rw [Finset.sum_eq_single (piv s.1)]
      · rw [if_pos rfl, mul_comm]
      · intro k _ hk
        rw [if_neg (fun e => hk e.symm), mul_zero]
      · intro hk
        exact absurd (Finset.mem_range.2 (h.lt s.1 (hmem s).1 (hmem s).2)) hk
    have hkA : Ker r c A x := by
      intro i hi
      rw [hsum]
      have := congrFun hg ⟨i, hi⟩
      simpa [Finset.sum_apply, toRect] using this
    have hkf := (h.ker x (fun k _ hno => by
      refine Finset.sum_eq_zero fun s _ => ?_
      rw [if_neg]
      exact fun e => hno ⟨s.1, (hmem s).1, (hmem s).2, e⟩)).1 hkA
    intro s
    have h1 := hkf s.1 (hmem s).1
    rw [hsum, Finset.sum_eq_single s] at h1
    · exact (mul_eq_zero.1 h1).resolve_right (h.ne s.1 (hmem s).1 (hmem s).2)
    · intro t _ hts
      rw [h.zero t.1 (hmem t).1 (hmem t).2 s.1 (hmem s).1 (fun e => hts (Subtype.ext e.symm)), mul_zero]
    · intro hs
      exact absurd (Finset.mem_univ s) hs
  have h1 := finrank_span_eq_card hli
  rw [Fintype.card_coe] at h1
  rw [Matrix.rank_eq_finrank_span_cols, ← h1]
  refine Submodule.finrank_mono (Submodule.span_mono ?_)
  rintro _ ⟨s, rfl⟩
  exact ⟨_, rfl⟩

theorem rank_upper {A : ℕ → ℕ → K} {r c : ℕ} {f : ℕ → ℕ → K} {sel : ℕ → Bool} {piv : ℕ → ℕ}
    (h : Inv A r c 0 c f sel piv) :
    (toRect r c A).rank ≤ ((Finset.range r).filter (fun i => sel i = true)).card := by
  obtain ⟨h1, h2⟩ := h.exact rfl
  rw [rank_eq_of_ker h2, Matrix.rank_eq_finrank_span_row]
  classical
  let S : Finset (Fin r) := Finset.univ.filter (fun i => sel i = true)
  have hcard : S.card = ((Finset.range r).filter (fun i => sel i = true)).card := by
    rw [← Finset.card_map Fin.valEmbedding]
    congr 1
    ext i
    simp only [S, Finset.mem_map, Finset.mem_filter, Finset.mem_univ, true_and, Fin.valEmbedding_apply, Finset.mem_range]
    constructor
    · rintro ⟨a, ha, rfl⟩; exact ⟨a.2, ha⟩
    · rintro ⟨hi, hs⟩; exact ⟨⟨i, hi⟩, hs, rfl⟩
  rw [← hcard]
  refine le_trans ?_ (Finset.card_image_le (s := S) (f := (toRect r c f).row))
  refine le_trans (Submodule.finrank_mono ?_) (finrank_span_finset_le_card _)
  rw [Submodule.span_le]
  rintro _ ⟨i, rfl⟩
  by_cases hs : sel i = true
  · refine Submodule.subset_span ?_
    simp only [Finset.coe_image]
    exact ⟨i, by simpa [S] using hs, rfl⟩
  · have : (toRect r c f).row i = 0 := by
      funext k
      exact h1 i i.2 (by simpa using hs) k k.2
    rw [this]
    exact Submodule.zero_mem _

/-- **C143.**  For every matrix and every tolerance that is not negative, `RankGaussian` returns a number that is
at most the rank.  With the tolerance zero it returns the rank. -/
theorem rankGaussian_spec (a : Dense K) (r c : ℕ) (A : ℕ → ℕ → K) (ha : Is a r c A) (eps : K) (he : 0 ≤ eps) :
    (∃ k, rankGaussian a eps = .ret k ∧ k ≤ (toRect r c A).rank) ∧
    rankGaussian a 0 = .ret (toRect r c A).rank := by
  obtain ⟨hs, rfl⟩ := Dense.is_unique.1 ha
  have main : ∀ e : K, 0 ≤ e → ∃ f sel piv, rankGaussian (ofFn r c A) e =
      .ret ((Finset.range r).filter (fun i => sel i = true)).card ∧ Inv A r c e c f sel piv := by
    intro e he
    unfold rankGaussian
    simp only [Dense.ofFn_rows, Dense.ofFn_cols]
    obtain ⟨t, ht, f, sel, piv, rfl, hI⟩ := forRange_rule
      (fun col (s : RankState K) => ∃ f sel piv,
        s = ⟨ofFn r c f, tab r sel, ((Finset.range r).filter (fun i => sel i = true)).card⟩ ∧ Inv A r c e col f sel piv)
      c ⟨ofFn r c A, List.replicate r false, 0⟩ (rankStep e)
      (by
        refine ⟨A, fun _ => false, fun _ => 0, by simp [replicate_eq_tab], ?_, ?_, ?_, fun x _ => Iff.rfl, ?_⟩
        · intro i _ h; cases h
        · intro i _ h; cases h
        · intro i _ h; cases h
        · exact fun _ => ⟨fun i _ _ k hk => absurd hk (by omega), fun x => Iff.rfl⟩)
      (by
        rintro col _ hc ⟨f, sel, piv, rfl, hI⟩
        obtain ⟨f', sel', piv', h1, h2⟩ := rankStep_spec he hc hI
        exact ⟨_, h1, f', sel', piv', rfl, h2⟩)
    rw [ht, Outcome.bind_ret]
    exact ⟨f, sel, piv, rfl, hI⟩
  constructor
  · obtain ⟨f, sel, piv, h1, h2⟩ := main eps he
    exact ⟨_, h1, rank_lower h2⟩
  · obtain ⟨f, sel, piv, h1, h2⟩ := main 0 le_rfl
    rw [h1]
    congr 1
    exact le_antisymm (rank_lower h2) (rank_upper h2)

/-- Cases of `rankGaussian_spec`: a `3 × 3` matrix of rank two, and a wide matrix. -/
example : rankGaussian (⟨3, 3, [1, 2, 3, 4, 5, 6, 7, 8, 9]⟩ : Dense ℚ) (1 / 10 ^ 12) = .ret 2 ∧
    rankGaussian (⟨2, 3, [0, 2, 3, 0, 4, 7]⟩ : Dense ℚ) 0 = .ret 2 := by
  decide +kernel

example : Is (⟨2, 2, [1, 2, 3, 4]⟩ : Dense ℚ) 2 2 (fun i j => 2 * i + j + 1) := by
  refine ⟨⟨rfl, Or.inr (by decide)⟩, rfl, rfl, ?_⟩
  intro i hi j hj
  interval_cases i <;> interval_cases j <;> norm_num [Dense.get, Dense.idx, Outcome.index]

/-- **C143, finding.**  The tolerance is absolute: with the default `1e-12` an invertible matrix with small
elements is reported to have rank zero. -/
theorem rank_small :
    rankGaussian (⟨2, 2, [1 / 10 ^ 12, 0, 0, 1 / 10 ^ 12]⟩ : Dense ℚ) (1 / 10 ^ 12) = .ret 0 := by
  decide +kernel

end Verif.Mat.Utils
