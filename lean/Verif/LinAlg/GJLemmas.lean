import Verif.LinAlg.GaussJordan
import Verif.Hoare
import Verif.Mat.DenseMore
import Mathlib.Algebra.Order.BigOperators.Group.Finset
import Mathlib.Algebra.Order.Ring.Abs
import Mathlib.Logic.Equiv.Basic
import Mathlib.LinearAlgebra.Matrix.NonsingularInverse
import Mathlib.Tactic.Ring
import Mathlib.Tactic.FieldSimp
import Mathlib.Tactic.Linarith

/-! # Helper lemmas for Gauss-Jordan elimination -/

set_option autoImplicit false

namespace Verif.LinAlg

open Verif.Mat

variable {K : Type} [Field K] [LinearOrder K]

/-! ## The pieces in closed form -/

section
omit [LinearOrder K]

theorem swapRowsIf_ofFn {r c : ℕ} (f : ℕ → ℕ → K) {k l : ℕ} (hk : k < r) (hl : l < r) :
    swapRowsIf k l (Dense.ofFn r c f) = .ret (Dense.ofFn r c (fun p q => f (Equiv.swap k l p) q)) := by
  have h := Dense.swapRows_ofFn (c := c) f hk hl
  have e : (fun p q => f (Equiv.swap k l p) q) = fun p q => f (if p = k then l else if p = l then k else p) q := by
    funext p q; rw [Equiv.swap_apply_def]
  rw [e, ← h, Dense.swapRows, if_neg (by simp only [Dense.ofFn_rows]; omega), swapRowsIf]
  simp only [Int.toNat_natCast, Nat.cast_inj, ne_eq, ite_not]

theorem swapCols_loop {r c : ℕ} (f : ℕ → ℕ → K) {k l : ℕ} (hk : k < c) (hl : l < c) (hkl : k ≠ l) :
    forRange r (Dense.ofFn r c f) (fun a i => a.swap i k i l) =
      .ret (Dense.ofFn r c (fun p q => f p (Equiv.swap k l q))) := by
  have h := Dense.swapCols_ofFn (r := r) f hk hl
  have e : (fun p q => f p (Equiv.swap k l q)) = fun p q => f p (if q = k then l else if q = l then k else q) := by
    funext p q; rw [Equiv.swap_apply_def]
  rw [e, ← h, Dense.swapCols, if_neg (by simp only [Dense.ofFn_cols]; omega)]
  simp only [Int.toNat_natCast, Nat.cast_inj, if_neg hkl, Dense.ofFn_rows]

theorem scaleRow_ofFn {r c : ℕ} (f : ℕ → ℕ → K) {i : ℕ} (hi : i < r) (x : K) :
    scaleRow i x (Dense.ofFn r c f) = .ret (Dense.ofFn r c (fun p q => if p = i then f i q * x else f p q)) := by
  rw [scaleRow, Dense.ofFn_cols]
  obtain ⟨t, ht, rfl⟩ := forRange_rule
    (fun k (m : Dense K) => m = Dense.ofFn r c (fun p q => if p = i ∧ q < k then f i q * x else f p q)) c
    (Dense.ofFn r c f) (fun m l => do
      let y ← m.get i l
      m.set i l (y * x))
    (by simp)
    (by
      rintro l _ hl rfl
      refine ⟨_, by rw [Dense.get_ofFn _ hi hl, Outcome.bind_ret, Dense.set_ofFn _ hi hl], ?_⟩
      refine Dense.ofFn_congr fun p _ q _ => ?_
      by_cases h1 : p = i ∧ q = l
      · obtain ⟨rfl, rfl⟩ := h1
        rw [if_pos ⟨rfl, rfl⟩, if_neg (by omega), if_pos (by omega)]
      · rw [if_neg h1]
        by_cases h2 : p = i ∧ q < l
        · rw [if_pos h2, if_pos (by omega)]
        · rw [if_neg h2, if_neg (by omega)])
  rw [ht]
  congr 1
  refine Dense.ofFn_congr fun p _ q hq => ?_
  by_cases h : p = i
  · rw [if_pos h, if_pos ⟨h, hq⟩]
  · rw [if_neg h, if_neg (by tauto)]

theorem subRow_ofFn {r c : ℕ} (f : ℕ → ℕ → K) {ll icol : ℕ} (hl : ll < r) (hc : icol < r) (hne : ll ≠ icol) (x : K) :
    subRow ll icol x (Dense.ofFn r c f) =
      .ret (Dense.ofFn r c (fun p q => if p = ll then f ll q - f icol q * x else f p q)) := by
  rw [subRow, Dense.ofFn_cols]
  obtain ⟨t, ht, rfl⟩ := forRange_rule
    (fun k (m : Dense K) => m = Dense.ofFn r c (fun p q => if p = ll ∧ q < k then f ll q - f icol q * x else f p q)) c
    (Dense.ofFn r c f) (fun m l => do
      let a ← m.get ll l
      let y ← m.get icol l
      m.set ll l (a - y * x))
    (by simp)
    (by
      rintro l _ h rfl
      refine ⟨_, by rw [Dense.get_ofFn _ hl h, Outcome.bind_ret, Dense.get_ofFn _ hc h, Outcome.bind_ret,
        Dense.set_ofFn _ hl h], ?_⟩
      refine Dense.ofFn_congr fun p _ q _ => ?_
      by_cases h1 : p = ll ∧ q = l
      · obtain ⟨rfl, rfl⟩ := h1
        rw [if_pos ⟨rfl, rfl⟩, if_neg (by omega), if_neg (by omega), if_pos (by omega)]
      · rw [if_neg h1]
        by_cases h2 : p = ll ∧ q < l
        · rw [if_pos h2, if_pos (by omega)]
        · rw [if_neg h2, if_neg (by omega)])
  rw [ht]
  congr 1
  refine Dense.ofFn_congr fun p _ q hq => ?_
  by_cases h : p = ll
  · rw [if_pos h, if_pos ⟨h, hq⟩]
  · rw [if_neg h, if_neg (by tauto)]

/-- Row operations of one elimination, on the matrix itself: column `icol` is replaced as well. -/
def elimA (icol : ℕ) (pinv : K) (f : ℕ → ℕ → K) (r c : ℕ) : K :=
  if r = icol then (if c = icol then 1 else f icol c) * pinv
  else (if c = icol then 0 else f r c) - (if c = icol then 1 else f icol c) * pinv * f r icol

/-- Row operations of one elimination, on the right-hand side. -/
def elimB (icol : ℕ) (pinv : K) (f g : ℕ → ℕ → K) (r c : ℕ) : K :=
  if r = icol then g icol c * pinv else g r c - g icol c * pinv * f r icol

theorem gjElim_ofFn {n m icol : ℕ} (f g : ℕ → ℕ → K) (hc : icol < n) (pinv : K) :
    gjElim n icol pinv (Dense.ofFn n n f) (Dense.ofFn n m g) =
      .ret (Dense.ofFn n n (elimA icol pinv f), Dense.ofFn n m (elimB icol pinv f g)) := by
  rw [gjElim, Dense.set_ofFn _ hc hc, Outcome.bind_ret, scaleRow_ofFn _ hc, Outcome.bind_ret, scaleRow_ofFn _ hc,
    Outcome.bind_ret]
  obtain ⟨t, ht, rfl⟩ := forRange_rule
    (fun k (s : Dense K × Dense K) => s = (Dense.ofFn n n (fun r c => if r < k ∨ r = icol then elimA icol pinv f r c else f r c),
      Dense.ofFn n m (fun r c => if r < k ∨ r = icol then elimB icol pinv f g r c else g r c))) n
    (Dense.ofFn n n (fun p q => if p = icol then (if icol = icol ∧ q = icol then 1 else f icol q) * pinv
        else if p = icol ∧ q = icol then 1 else f p q),
      Dense.ofFn n m (fun p q => if p = icol then g icol q * pinv else g p q)) (elimRow icol)
    (by
      congr 1
      · refine Dense.ofFn_congr fun r _ c _ => ?_
        by_cases h : r = icol
        · rw [if_pos h, if_pos (Or.inr h), elimA, if_pos h]; simp
        · rw [if_neg h, if_neg (by tauto), if_neg (by omega)]
      · refine Dense.ofFn_congr fun r _ c _ => ?_
        by_cases h : r = icol
        · rw [if_pos h, if_pos (Or.inr h), elimB, if_pos h]
        · rw [if_neg h, if_neg (by omega)])
    (by
      rintro k _ hk rfl
      by_cases hki : k = icol
      · refine ⟨_, by rw [elimRow, if_neg (by simpa using hki)], ?_⟩
        congr 1 <;>
        · refine Dense.ofFn_congr fun r _ c _ => ?_
          by_cases h : r < k ∨ r = icol
          · rw [if_pos h, if_pos (by omega)]
          · rw [if_neg h, if_neg (by omega)]
      · refine ⟨_, by
          rw [elimRow, if_pos hki]
          simp only
          rw [Dense.get_ofFn _ hk hc, Outcome.bind_ret, Dense.set_ofFn _ hk hc, Outcome.bind_ret,
            subRow_ofFn _ hk hc hki, Outcome.bind_ret, subRow_ofFn _ hk hc hki, Outcome.bind_ret], ?_⟩
        congr 1
        · refine Dense.ofFn_congr fun r _ c _ => ?_
          by_cases h : r = k
          · subst h
            rw [if_pos rfl, if_pos (show r < r + 1 ∨ r = icol by omega)]
            simp only [true_and, if_neg (show ¬ (icol = r ∧ c = icol) by omega),
              if_pos (show icol < r ∨ icol = icol by omega), if_neg (show ¬ (r < r ∨ r = icol) by omega)]
            rw [elimA, if_pos rfl, elimA, if_neg hki, if_pos (Or.inr trivial)]
          · rw [if_neg h, if_neg (by omega)]
            by_cases h' : r < k ∨ r = icol
            · rw [if_pos h', if_pos (by omega)]
            · rw [if_neg h', if_neg (by omega)]
        · refine Dense.ofFn_congr fun r _ c _ => ?_
          by_cases h : r = k
          · subst h
            rw [if_pos rfl, if_pos (show r < r + 1 ∨ r = icol by omega)]
            simp only [if_pos (show icol < r ∨ icol = icol by omega), if_neg (show ¬ (r < r ∨ r = icol) by omega)]
            rw [elimB, if_pos rfl, elimB, if_neg hki, if_pos (Or.inr trivial)]
          · rw [if_neg h]
            by_cases h' : r < k ∨ r = icol
            · rw [if_pos h', if_pos (by omega)]
            · rw [if_neg h', if_neg (by omega)])
  rw [ht]
  congr 2
  · exact Dense.ofFn_congr fun r hr c _ => by rw [if_pos (Or.inl hr)]
  · exact Dense.ofFn_congr fun r hr c _ => by rw [if_pos (Or.inl hr)]

end

/-! ## The pivot search -/

variable [IsStrictOrderedRing K]

/-- The search returns a free row and a free column whenever there is one, and the element found is the largest
among the free ones. -/
theorem search_spec {n : ℕ} (f : ℕ → ℕ → K) (p : ℕ → ℕ) (h01 : ∀ c < n, p c = 0 ∨ p c = 1) (c0 : ℕ) (hc0 : c0 < n)
    (hp0 : p c0 = 0) :
    ∃ irow icol, search n (Dense.ofFn n n f) (tab n p) = .ret (irow, icol) ∧ irow < n ∧ icol < n ∧
      p irow = 0 ∧ p icol = 0 ∧ ∀ j < n, ∀ k < n, p j = 0 → p k = 0 → |f j k| ≤ |f irow icol| := by
  -- the property of the pair of `big` and the position, for a set of visited positions
  let Good : (ℕ → ℕ → Prop) → K × Option (ℕ × ℕ) → Prop := fun V s =>
    0 ≤ s.1 ∧ (s.2 = none → s.1 = 0) ∧
    (∀ j k, V j k → j < n → k < n → p j = 0 → p k = 0 → |f j k| ≤ s.1 ∧ s.2 ≠ none) ∧
    ∀ q, s.2 = some q → q.1 < n ∧ q.2 < n ∧ p q.1 = 0 ∧ p q.2 = 0 ∧ s.1 = |f q.1 q.2|
  have hweak : ∀ (V W : ℕ → ℕ → Prop) s, Good V s → (∀ a b, W a b → a < n → b < n → p a = 0 → p b = 0 → V a b) →
      Good W s := by
    rintro V W s ⟨g0, gn, g1, g2⟩ h
    exact ⟨g0, gn, fun a b hab ha hb hpa hpb => g1 a b (h a b hab ha hb hpa hpb) ha hb hpa hpb, g2⟩
  have hcol : ∀ (j : ℕ), j < n → p j = 0 → ∀ k < n, ∀ (V : ℕ → ℕ → Prop) s, Good V s →
      ∃ s', searchCol (Dense.ofFn n n f) (tab n p) j s k = .ret s' ∧ Good (fun a b => V a b ∨ (a = j ∧ b = k)) s' := by
    intro j hj hpj k hk V s ⟨g0, gn, g1, g2⟩
    rw [searchCol, index_tab _ hk, Outcome.bind_ret]
    by_cases hpk : p k = 0
    · rw [if_pos hpk, Dense.get_ofFn _ hj hk, Outcome.bind_ret]
      by_cases hb : |f j k| ≥ s.1
      · refine ⟨_, if_pos hb, abs_nonneg _, (fun h => by cases h), ?_, ?_⟩
        · rintro a b (h | ⟨rfl, rfl⟩) ha hb' hpa hpb
          · exact ⟨le_trans (g1 a b h ha hb' hpa hpb).1 hb, by simp⟩
          · exact ⟨le_rfl, by simp⟩
        · rintro q hq
          simp only [Option.some.injEq] at hq
          subst hq
          exact ⟨hj, hk, hpj, hpk, rfl⟩
      · refine ⟨_, if_neg hb, g0, gn, ?_, g2⟩
        rintro a b (h | ⟨rfl, rfl⟩) ha hb' hpa hpb
        · exact g1 a b h ha hb' hpa hpb
        · exact ⟨le_of_lt (not_le.1 hb), fun h => hb (by rw [gn h]; exact abs_nonneg _)⟩
    · refine ⟨_, if_neg hpk, g0, gn, ?_, g2⟩
      rintro a b (h | ⟨rfl, rfl⟩) ha hb' hpa hpb
      · exact g1 a b h ha hb' hpa hpb
      · exact absurd hpb hpk
  have hrow : ∀ j < n, ∀ s, Good (fun a _ => a < j) s →
      ∃ s', searchRow n (Dense.ofFn n n f) (tab n p) s j = .ret s' ∧ Good (fun a _ => a < j + 1) s' := by
    intro j hj s hs
    rw [searchRow, index_tab _ hj, Outcome.bind_ret]
    by_cases hpj : p j = 0
    · rw [if_pos (by omega)]
      obtain ⟨t, ht, hg⟩ := forRange_rule (fun k s => Good (fun a b => a < j ∨ (a = j ∧ b < k)) s) n s
        (searchCol (Dense.ofFn n n f) (tab n p) j)
        (hweak _ _ _ hs fun a b h _ _ _ _ => by omega)
        (fun k t hk ht => by
          obtain ⟨t', e, h⟩ := hcol j hj hpj k hk _ t ht
          exact ⟨t', e, hweak _ _ _ h fun a b h _ _ _ _ => by omega⟩)
      exact ⟨t, ht, hweak _ _ _ hg fun a b h _ _ _ _ => by omega⟩
    · have : p j = 1 := (h01 j hj).resolve_left hpj
      rw [if_neg (by omega)]
      refine ⟨s, rfl, hweak _ _ _ hs fun a b h _ _ hpa _ => ?_⟩
      rcases Nat.lt_or_ge a j with h' | h'
      · exact h'
      · obtain rfl : a = j := by omega
        exact absurd hpa hpj
  obtain ⟨t, ht, g0, gn, g1, g2⟩ := forRange_rule (fun j s => Good (fun a _ => a < j) s) n
    ((0 : K), (none : Option (ℕ × ℕ))) (searchRow n (Dense.ofFn n n f) (tab n p))
    ⟨le_rfl, fun _ => rfl, fun a b h => by omega, (fun q h => by cases h)⟩ (fun j s hj hs => hrow j hj s hs)
  cases hq : t.2 with
  | none => exact absurd hq (g1 c0 c0 hc0 hc0 hc0 hp0 hp0).2
  | some q =>
    obtain ⟨q1, q2, q3, q4, q5⟩ := g2 q hq
    refine ⟨q.1, q.2, ?_, q1, q2, q3, q4, fun j hj k hk hpj hpk => ?_⟩
    · rw [search, ht, Outcome.bind_ret, hq]
    · rw [← q5]; exact (g1 j k hj hj hk hpj hpk).1

theorem maxAbs_spec {n : ℕ} (f : ℕ → ℕ → K) :
    ∃ s, maxAbs n (Dense.ofFn n n f) = .ret s ∧ 0 ≤ s ∧ (∀ i < n, ∀ j < n, |f i j| ≤ s) ∧
      (s = 0 ∨ ∃ i < n, ∃ j < n, s = |f i j|) := by
  let Good : (ℕ → ℕ → Prop) → K → Prop := fun V s =>
    0 ≤ s ∧ (∀ i j, V i j → |f i j| ≤ s) ∧ (s = 0 ∨ ∃ i < n, ∃ j < n, s = |f i j|)
  obtain ⟨t, ht, h1, h2, h3⟩ := forRange_rule (fun i s => Good (fun a b => a < i ∧ b < n) s) n (0 : K)
    (fun s i => forRange n s (fun s j => do
      let x ← (Dense.ofFn n n f).get i j
      .ret (if |x| > s then |x| else s)))
    ⟨le_rfl, fun i j h => by omega, Or.inl rfl⟩
    (by
      rintro i s hi ⟨g0, g1, g2⟩
      obtain ⟨t, ht, h1, h2, h3⟩ := forRange_rule
        (fun k s => Good (fun a b => (a < i ∧ b < n) ∨ (a = i ∧ b < k)) s) n s
        (fun s j => do
          let x ← (Dense.ofFn n n f).get i j
          .ret (if |x| > s then |x| else s))
        ⟨g0, fun a b h => g1 a b (by omega), g2⟩
        (by
          rintro j s hj ⟨g0, g1, g2⟩
          refine ⟨_, by rw [Dense.get_ofFn _ hi hj, Outcome.bind_ret], ?_⟩
          by_cases hb : |f i j| > s
          · rw [if_pos hb]
            refine ⟨abs_nonneg _, fun a b h => ?_, Or.inr ⟨i, hi, j, hj, rfl⟩⟩
            by_cases hab : a = i ∧ b = j
            · rw [hab.1, hab.2]
            · exact le_trans (g1 a b (by omega)) (le_of_lt hb)
          · rw [if_neg hb]
            refine ⟨g0, fun a b h => ?_, g2⟩
            by_cases hab : a = i ∧ b = j
            · rw [hab.1, hab.2]; exact not_lt.1 hb
            · exact g1 a b (by omega))
      exact ⟨t, ht, h1, fun a b h => h2 a b (by omega), h3⟩)
  exact ⟨t, ht, h1, fun i hi j hj => h2 i j ⟨hi, hj⟩, h3⟩

/-! ## The invariant of the main loop -/

/-- The product of the row exchanges of the first `i` rounds. -/
def permAcc (ir ic : ℕ → ℕ) : ℕ → Equiv.Perm ℕ
  | 0 => 1
  | i + 1 => permAcc ir ic i * Equiv.swap (ir i) (ic i)

omit [LinearOrder K] [IsStrictOrderedRing K] [Field K] in
theorem permAcc_congr {ir ic ir' ic' : ℕ → ℕ} (i : ℕ) (h : ∀ l < i, ir l = ir' l ∧ ic l = ic' l) :
    permAcc ir ic i = permAcc ir' ic' i := by
  induction i with
  | zero => rfl
  | succ i ih =>
    rw [permAcc, permAcc, ih fun l hl => h l (by omega), (h i (by omega)).1, (h i (by omega)).2]

/-- What holds between the rounds: `R` is the product of the row operations so far. -/
structure GJInv (n m : ℕ) (A B : ℕ → ℕ → K) (f g : ℕ → ℕ → K) (p : ℕ → ℕ) (π : Equiv.Perm ℕ) (R : ℕ → ℕ → K) :
    Prop where
  left : ∀ r < n, ∀ c < n, ∑ k ∈ Finset.range n, R r k * A k c = if p c = 1 then (if r = c then 1 else 0) else f r c
  right : ∀ r < n, ∀ c < m, ∑ k ∈ Finset.range n, R r k * B k c = g r c
  inv : ∀ r < n, ∀ c < n, R r (π c) = if p c = 1 then f r c else (if r = c then 1 else 0)

omit [LinearOrder K] [IsStrictOrderedRing K] in
theorem swap_lt {n k l x : ℕ} (hk : k < n) (hl : l < n) (hx : x < n) : Equiv.swap k l x < n := by
  rw [Equiv.swap_apply_def]
  split
  · exact hl
  · split
    · exact hk
    · exact hx

omit [LinearOrder K] [IsStrictOrderedRing K] in
/-- Exchanging two rows that are still free. -/
theorem GJInv.swap {n m : ℕ} {A B f g : ℕ → ℕ → K} {p : ℕ → ℕ} {π : Equiv.Perm ℕ} {R : ℕ → ℕ → K}
    (h : GJInv n m A B f g p π R) {x y : ℕ} (hx : x < n) (hy : y < n) (hpx : p x = 0) (hpy : p y = 0) :
    GJInv n m A B (fun r c => f (Equiv.swap x y r) c) (fun r c => g (Equiv.swap x y r) c) p (π * Equiv.swap x y)
      (fun r c => R (Equiv.swap x y r) c) := by
  have hfix : ∀ c, p c = 1 → Equiv.swap x y c = c := by
    intro c hc
    refine Equiv.swap_apply_of_ne_of_ne ?_ ?_
    · rintro rfl; omega
    · rintro rfl; omega
  have hfree : ∀ c, p (Equiv.swap x y c) = 1 ↔ p c = 1 := by
    intro c
    constructor
    · intro hc
      by_contra hne
      rw [Equiv.swap_apply_def] at hc
      split at hc
      · omega
      · split at hc
        · omega
        · exact hne hc
    · intro hc; rw [hfix c hc]; exact hc
  have hdelta : ∀ r c : ℕ, (Equiv.swap x y r = Equiv.swap x y c) ↔ r = c := fun r c => (Equiv.swap x y).injective.eq_iff
  refine ⟨fun r hr c hc => ?_, fun r hr c hc => ?_, fun r hr c hc => ?_⟩
  · rw [h.left _ (swap_lt hx hy hr) c hc]
    by_cases hpc : p c = 1
    · rw [if_pos hpc, if_pos hpc]
      have := hdelta r c
      rw [hfix c hpc] at this
      simp only [this]
    · rw [if_neg hpc, if_neg hpc]
  · exact h.right _ (swap_lt hx hy hr) c hc
  · have := h.inv _ (swap_lt hx hy hr) _ (swap_lt hx hy hc)
    rw [Equiv.Perm.mul_apply, this]
    by_cases hpc : p c = 1
    · rw [if_pos ((hfree c).2 hpc), if_pos hpc, hfix c hpc]
    · rw [if_neg (fun h => hpc ((hfree c).1 h)), if_neg hpc]
      simp only [hdelta]

omit [LinearOrder K] [IsStrictOrderedRing K] in
/-- Eliminating with a nonzero pivot on the diagonal. -/
theorem GJInv.elim {n m : ℕ} {A B f g : ℕ → ℕ → K} {p : ℕ → ℕ} {π : Equiv.Perm ℕ} {R : ℕ → ℕ → K}
    (h : GJInv n m A B f g p π R) {x : ℕ} (hx : x < n) (hpx : p x = 0) (hpiv : f x x ≠ 0) :
    GJInv n m A B (elimA x (1 / f x x) f) (elimB x (1 / f x x) f g) (fun c => if c = x then p x + 1 else p c) π
      (fun r k => if r = x then R x k * (1 / f x x) else R r k - f r x * (1 / f x x) * R x k) := by
  have sumform : ∀ (C : ℕ → ℕ → K) (r c : ℕ), ∑ k ∈ Finset.range n,
      (if r = x then R x k * (1 / f x x) else R r k - f r x * (1 / f x x) * R x k) * C k c =
      if r = x then (∑ k ∈ Finset.range n, R x k * C k c) * (1 / f x x)
      else (∑ k ∈ Finset.range n, R r k * C k c) - f r x * (1 / f x x) * ∑ k ∈ Finset.range n, R x k * C k c := by
    intro C r c
    by_cases hr : r = x
    · simp only [if_pos hr, Finset.sum_mul]
      exact Finset.sum_congr rfl fun k _ => by ring
    · simp only [if_neg hr, Finset.mul_sum, ← Finset.sum_sub_distrib]
      exact Finset.sum_congr rfl fun k _ => by ring
  refine ⟨fun r hr c hc => ?_, fun r hr c hc => ?_, fun r hr c hc => ?_⟩
  · rw [sumform, h.left r hr c hc, h.left x hx c hc]
    simp only [elimA]
    by_cases hcx : c = x
    · subst hcx
      have e1 : (if c = c then p c + 1 else p c) = 1 := by rw [if_pos rfl]; omega
      have e2 : ¬ p c = 1 := by omega
      simp only [hpx, zero_add, if_true, zero_ne_one, if_false]
      by_cases hrx : r = c
      · subst hrx
        rw [if_pos rfl, if_pos rfl]
        field_simp
      · rw [if_neg hrx, if_neg hrx]
        field_simp
        ring
    · simp only [if_neg hcx]
      by_cases hpc : p c = 1
      · simp only [if_pos hpc, if_neg (fun h : x = c => hcx h.symm), zero_mul, mul_zero, sub_zero]
        by_cases hrx : r = x
        · subst hrx; rw [if_pos rfl, if_neg (fun h : r = c => hcx h.symm)]
        · rw [if_neg hrx]
      · simp only [if_neg hpc]
        by_cases hrx : r = x
        · rw [if_pos hrx, if_pos hrx]
        · rw [if_neg hrx, if_neg hrx]; ring
  · rw [sumform, h.right r hr c hc, h.right x hx c hc]
    simp only [elimB]
    by_cases hrx : r = x
    · rw [if_pos hrx, if_pos hrx]
    · rw [if_neg hrx, if_neg hrx]; ring
  · rw [h.inv r hr c hc, h.inv x hx c hc]
    simp only [elimA]
    by_cases hcx : c = x
    · subst hcx
      have e1 : (if c = c then p c + 1 else p c) = 1 := by rw [if_pos rfl]; omega
      have e2 : ¬ p c = 1 := by omega
      simp only [hpx, zero_add, if_true, zero_ne_one, if_false]
      by_cases hrx : r = c
      · subst hrx; simp
      · simp only [if_neg hrx, if_true]; ring
    · simp only [if_neg hcx]
      by_cases hpc : p c = 1
      · simp only [if_pos hpc]
        by_cases hrx : r = x
        · rw [if_pos hrx, if_pos hrx]
        · rw [if_neg hrx, if_neg hrx]; ring
      · simp only [if_neg hpc, if_neg (fun h : x = c => hcx h.symm), zero_mul, mul_zero, sub_zero]
        by_cases hrx : r = x
        · subst hrx; rw [if_pos rfl, if_neg (fun h : r = c => hcx h.symm)]
        · rw [if_neg hrx]

/-- The state between two rounds. -/
def GJState (n m : ℕ) (A B : ℕ → ℕ → K) (i : ℕ) (s : GJ K) : Prop :=
  ∃ (f g : ℕ → ℕ → K) (p ir ic : ℕ → ℕ) (R : ℕ → ℕ → K),
    s = ⟨Dense.ofFn n n f, Dense.ofFn n m g, tab n p, tab n ir, tab n ic⟩ ∧
    (∀ c < n, p c = 0 ∨ p c = 1) ∧ (∑ c ∈ Finset.range n, p c = i) ∧
    (∀ l < i, ir l < n ∧ ic l < n) ∧ GJInv n m A B f g p (permAcc ir ic i) R

omit [LinearOrder K] [IsStrictOrderedRing K] in
theorem GJState.zero {n m : ℕ} (A B : ℕ → ℕ → K) :
    GJState n m A B 0 ⟨Dense.ofFn n n A, Dense.ofFn n m B, List.replicate n 0, List.replicate n 0, List.replicate n 0⟩ := by
  refine ⟨A, B, fun _ => 0, fun _ => 0, fun _ => 0, fun r c => if r = c then 1 else 0, ?_, fun _ _ => Or.inl rfl,
    by simp, fun l hl => by omega, fun r hr c hc => ?_, fun r hr c hc => ?_, fun r hr c hc => ?_⟩
  · rw [replicate_eq_tab]
  · simp [Finset.sum_ite_eq, hr]
  · simp [Finset.sum_ite_eq, hr]
  · show _ = (if (0 : ℕ) = 1 then A r c else if r = c then (1 : K) else 0)
    rw [if_neg zero_ne_one]
    rfl

omit [LinearOrder K] [IsStrictOrderedRing K] in
theorem permAcc_lt {n : ℕ} {ir ic : ℕ → ℕ} (i : ℕ) (hlt : ∀ l < i, ir l < n ∧ ic l < n) {c : ℕ} (hc : c < n) :
    permAcc ir ic i c < n := by
  induction i generalizing c with
  | zero => exact hc
  | succ i ih =>
    rw [permAcc, Equiv.Perm.mul_apply]
    exact ih (fun l hl => hlt l (by omega)) (swap_lt (hlt i (by omega)).1 (hlt i (by omega)).2 hc)

/-- Some combination of the rows of `A` in which one row has coefficient one is smaller than `thr`. -/
def NearSingular (n : ℕ) (A : ℕ → ℕ → K) (thr : K) : Prop :=
  ∃ v : ℕ → K, (∃ k < n, v k = 1) ∧ ∀ c < n, |∑ k ∈ Finset.range n, v k * A k c| < thr

/-- One round keeps the invariant, throws one of the two announced exceptions, or meets a zero pivot that passed
the threshold test, in which case the original matrix is singular. -/
theorem gjStep_sat {n m : ℕ} (A B : ℕ → ℕ → K) (zp : Outcome (GJ K)) (thr : K) (E : Exn → Prop)
    (hE : NearSingular n A thr → E (.mml "SingularMatrixError")) (hzp : ¬ 0 < thr → zp.Sat (fun _ => False) E)
    (i : ℕ) (hi : i < n) (s : GJ K)
    (hs : GJState n m A B i s) : (gjStep n zp thr s i).Sat (GJState n m A B (i + 1)) E := by
  obtain ⟨f, g, p, ir, ic, R, rfl, h01, hsum, hlt, hinv⟩ := hs
  obtain ⟨c0, hc0, hp0⟩ : ∃ c0 < n, p c0 = 0 := by
    by_contra hne
    push Not at hne
    have : ∑ c ∈ Finset.range n, p c = ∑ c ∈ Finset.range n, 1 :=
      Finset.sum_congr rfl fun c hc => (h01 c (Finset.mem_range.1 hc)).resolve_left (hne c (Finset.mem_range.1 hc))
    simp at this
    omega
  obtain ⟨x, y, hsearch, hx, hy, hpx, hpy, hmax⟩ := search_spec f p h01 c0 hc0 hp0
  rw [gjStep]
  simp only
  rw [hsearch, Outcome.bind_ret, gjPivot]
  simp only
  rw [index_tab _ hy, Outcome.bind_ret, store_tab _ hy, Outcome.bind_ret, swapRowsIf_ofFn _ hx hy, Outcome.bind_ret,
    swapRowsIf_ofFn _ hx hy, Outcome.bind_ret, store_tab _ hi, Outcome.bind_ret, store_tab _ hi, Outcome.bind_ret,
    Dense.get_ofFn _ hy hy, Outcome.bind_ret]
  by_cases h1 : |f (Equiv.swap x y y) y| < thr
  · rw [if_pos h1]
    refine hE ⟨R x, ⟨permAcc ir ic i x, permAcc_lt i hlt hx, ?_⟩, fun c hc => ?_⟩
    · rw [hinv.inv x hx x hx, if_neg (by omega), if_pos rfl]
    · rw [Equiv.swap_apply_right] at h1
      rw [hinv.left x hx c hc]
      rcases h01 c hc with hc0 | hc1
      · rw [if_neg (by omega)]
        exact (hmax x hx c hc hpx hc0).trans_lt h1
      · rw [if_pos hc1, if_neg (by rintro rfl; omega), abs_zero]
        exact (abs_nonneg _).trans_lt h1
  rw [if_neg h1]
  by_cases h2 : f (Equiv.swap x y y) y = 0
  · rw [if_pos h2]
    refine (hzp ?_).imp fun _ h => h.elim
    rw [h2, abs_zero] at h1
    exact h1
  rw [if_neg h2, gjElim_ofFn _ _ hy, Outcome.bind_ret]
  obtain ⟨R', hinv'⟩ := Exists.intro _ ((hinv.swap hx hy hpx hpy).elim hy hpy h2)
  refine ⟨_, _, _, _, _, R', rfl, fun c hc => ?_, ?_, fun l hl => ?_, ?_⟩
  · beta_reduce
    by_cases hcy : c = y
    · rw [if_pos hcy]; omega
    · rw [if_neg hcy]; exact h01 c hc
  · have e : ∑ c ∈ (Finset.range n).erase y, (if c = y then p y + 1 else p c) =
        ∑ c ∈ (Finset.range n).erase y, p c :=
      Finset.sum_congr rfl fun c hc => by rw [if_neg (Finset.ne_of_mem_erase hc)]
    rw [← Finset.add_sum_erase _ _ (Finset.mem_range.2 hy), if_pos rfl, e]
    rw [← Finset.add_sum_erase _ _ (Finset.mem_range.2 hy)] at hsum
    omega
  · beta_reduce
    by_cases hli : l = i
    · rw [if_pos hli, if_pos hli]; exact ⟨hx, hy⟩
    · rw [if_neg hli, if_neg hli]; exact hlt l (by omega)
  · have e : permAcc (fun k => if k = i then x else ir k) (fun k => if k = i then y else ic k) (i + 1) =
        permAcc ir ic i * Equiv.swap x y := by
      rw [permAcc, if_pos rfl, if_pos rfl, permAcc_congr (ir' := ir) (ic' := ic) i]
      intro l hl
      rw [if_neg (by omega), if_neg (by omega)]
      exact ⟨rfl, rfl⟩
    rw [e]
    exact hinv'

omit [LinearOrder K] [IsStrictOrderedRing K] in
/-- Unscrambling the columns turns the stored matrix into `R`. -/
theorem unscramble {n : ℕ} (f R : ℕ → ℕ → K) (ir ic : ℕ → ℕ) (hlt : ∀ l < n, ir l < n ∧ ic l < n)
    (h : ∀ r < n, ∀ c < n, R r (permAcc ir ic n c) = f r c) :
    forDown 0 n (Dense.ofFn n n f) (unscrambleStep n (tab n ir) (tab n ic)) = .ret (Dense.ofFn n n R) := by
  obtain ⟨t, ht, rfl⟩ := forDown_rule
    (fun l (a : Dense K) => a = Dense.ofFn n n (fun r c => R r (permAcc ir ic l c))) 0 n (by omega)
    (Dense.ofFn n n f) (unscrambleStep n (tab n ir) (tab n ic))
    (Dense.ofFn_congr fun r hr c hc => (h r hr c hc).symm)
    (by
      rintro l _ _ hl rfl
      refine ⟨_, ?_, rfl⟩
      rw [unscrambleStep, index_tab _ hl, Outcome.bind_ret, index_tab _ hl, Outcome.bind_ret]
      by_cases hne : ir l = ic l
      · rw [if_neg (by simpa using hne)]
        congr 1
        refine Dense.ofFn_congr fun r _ c _ => ?_
        rw [permAcc, hne, Equiv.swap_self]
        rfl
      · rw [if_pos hne, swapCols_loop _ (hlt l hl).1 (hlt l hl).2 hne]
        congr 1
        refine Dense.ofFn_congr fun r _ c _ => ?_
        rw [permAcc, Equiv.Perm.mul_apply, Equiv.swap_apply_self])
  rw [ht]
  rfl

omit [LinearOrder K] [IsStrictOrderedRing K] in
/-- A left inverse of a square matrix is a right inverse. -/
theorem right_inverse {n : ℕ} {A R : ℕ → ℕ → K}
    (h : ∀ r < n, ∀ c < n, ∑ k ∈ Finset.range n, R r k * A k c = if r = c then 1 else 0) :
    ∀ r < n, ∀ c < n, ∑ k ∈ Finset.range n, A r k * R k c = if r = c then 1 else 0 := by
  let MA : Matrix (Fin n) (Fin n) K := fun i j => A i j
  let MR : Matrix (Fin n) (Fin n) K := fun i j => R i j
  have h1 : MR * MA = 1 := by
    ext i j
    rw [Matrix.mul_apply, Matrix.one_apply, Fin.sum_univ_eq_sum_range (fun k => R i k * A k j) n,
      h i i.2 j j.2]
    simp only [Fin.ext_iff]
  have h2 : MA * MR = 1 := mul_eq_one_comm.1 h1
  intro r hr c hc
  have := congrFun (congrFun h2 ⟨r, hr⟩) ⟨c, hc⟩
  rw [Matrix.mul_apply, Matrix.one_apply] at this
  have e := Fin.sum_univ_eq_sum_range (fun k => A r k * R k c) n
  rw [← e, this]
  simp only [Fin.mk.injEq]

omit [LinearOrder K] [IsStrictOrderedRing K] in
/-- `A (R B) = B` from a right inverse. -/
theorem mul_cancel {n m : ℕ} {A R B X : ℕ → ℕ → K}
    (h : ∀ r < n, ∀ c < n, ∑ k ∈ Finset.range n, A r k * R k c = if r = c then 1 else 0)
    (hX : ∀ r < n, ∀ c < m, ∑ k ∈ Finset.range n, R r k * B k c = X r c) :
    ∀ r < n, ∀ c < m, ∑ k ∈ Finset.range n, A r k * X k c = B r c := by
  intro r hr c hc
  calc ∑ k ∈ Finset.range n, A r k * X k c
      = ∑ k ∈ Finset.range n, ∑ l ∈ Finset.range n, A r k * R k l * B l c := by
        refine Finset.sum_congr rfl fun k hk => ?_
        rw [← hX k (Finset.mem_range.1 hk) c hc, Finset.mul_sum]
        exact Finset.sum_congr rfl fun l _ => by ring
    _ = ∑ l ∈ Finset.range n, (∑ k ∈ Finset.range n, A r k * R k l) * B l c := by
        rw [Finset.sum_comm]
        exact Finset.sum_congr rfl fun l _ => by rw [Finset.sum_mul]
    _ = ∑ l ∈ Finset.range n, (if r = l then 1 else 0) * B l c :=
        Finset.sum_congr rfl fun l hl => by rw [h r hr l (Finset.mem_range.1 hl)]
    _ = B r c := by simp [hr]

/-- Gauss-Jordan elimination as a whole. -/
theorem gaussJordan_sat {n m : ℕ} (A B : ℕ → ℕ → K) (zp : Outcome (GJ K)) (eps : K) (E : Exn → Prop)
    (hE : ∀ norm, 0 ≤ norm → (∀ M, 0 ≤ M → (∀ r < n, ∀ c < n, |A r c| ≤ M) → norm ≤ M) →
      NearSingular n A (eps * norm * n) → E (.mml "SingularMatrixError"))
    (hzp : (0 < eps → ∀ r < n, ∀ c < n, A r c = 0) → zp.Sat (fun _ => False) E) :
    (gaussJordan zp eps (Dense.ofFn n n A) (Dense.ofFn n m B)).Sat
      (fun ab => ∃ R X, ab = (Dense.ofFn n n R, Dense.ofFn n m X) ∧
        (∀ r < n, ∀ c < n, ∑ k ∈ Finset.range n, A r k * R k c = if r = c then 1 else 0) ∧
        (∀ r < n, ∀ c < m, ∑ k ∈ Finset.range n, A r k * X k c = B r c)) E := by
  obtain ⟨norm, hnorm, h0, hle, hat⟩ := maxAbs_spec (n := n) A
  have hleast : ∀ M, 0 ≤ M → (∀ r < n, ∀ c < n, |A r c| ≤ M) → norm ≤ M := by
    intro M hM hall
    rcases hat with h | ⟨i, hi, j, hj, h⟩
    · rw [h]; exact hM
    · rw [h]; exact hall i hi j hj
  rw [gaussJordan]
  simp only [Dense.ofFn_rows]
  rw [hnorm, Outcome.bind_ret]
  have hloop := forRange_sat (GJState n m A B) E n
    ⟨Dense.ofFn n n A, Dense.ofFn n m B, List.replicate n 0, List.replicate n 0, List.replicate n 0⟩
    (gjStep n zp (eps * norm * n)) (GJState.zero A B)
    (fun i t hi ht => gjStep_sat A B zp _ E (hE norm h0 hleast) (fun hthr => hzp fun heps r hr c hc => by
      have hn : (0 : K) < n := by
        have : 0 < n := by omega
        exact_mod_cast this
      have : norm = 0 := by
        by_contra hne
        exact hthr (mul_pos (mul_pos heps (lt_of_le_of_ne h0 (Ne.symm hne))) hn)
      have := hle r hr c hc
      rw [‹norm = 0›] at this
      exact abs_eq_zero.1 (le_antisymm this (abs_nonneg _))) i hi t ht)
  refine hloop.bind ?_
  rintro s ⟨f, g, p, ir, ic, R, rfl, h01, hsum, hlt, hinv⟩
  have hp1 : ∀ c < n, p c = 1 := by
    intro c hc
    refine (h01 c hc).resolve_left fun hc0 => ?_
    have : ∑ c ∈ Finset.range n, p c < ∑ c ∈ Finset.range n, 1 :=
      Finset.sum_lt_sum (fun k hk => by rcases h01 k (Finset.mem_range.1 hk) with h | h <;> omega)
        ⟨c, Finset.mem_range.2 hc, by omega⟩
    simp at this
    omega
  simp only
  rw [unscramble f R ir ic hlt fun r hr c hc => by rw [hinv.inv r hr c hc, if_pos (hp1 c hc)], Outcome.bind_ret]
  have hright := right_inverse (A := A) (R := R) fun r hr c hc => by
    rw [hinv.left r hr c hc, if_pos (hp1 c hc)]
  exact ⟨R, g, rfl, hright, mul_cancel hright hinv.right⟩

end Verif.LinAlg
