import Verif.Stats.Model
import Verif.Stats.Spec
import Verif.LoopLemmas
import Mathlib.Tactic.Linarith
import Mathlib.Tactic.Ring
import Mathlib.Tactic.NormNum
import Mathlib.Tactic.FieldSimp
import Mathlib.Tactic.Positivity

/-!
# Order statistics (C45)
-/

set_option autoImplicit false

namespace Verif.Stats

open Verif

/-! ## Sorted data -/

theorem sorted_perm (d : List ℝ) : (sorted d).Perm d := List.perm_insertionSort _ _

@[simp] theorem length_sorted (d : List ℝ) : (sorted d).length = d.length := (sorted_perm d).length_eq

theorem sorted_pairwise (d : List ℝ) : (sorted d).Pairwise (· ≤ ·) := List.pairwise_insertionSort _ d

theorem sorted_congr {d e : List ℝ} (h : d.Perm e) : sorted d = sorted e :=
  (((sorted_perm d).trans h).trans (sorted_perm e).symm).eq_of_pairwise' (sorted_pairwise d) (sorted_pairwise e)

/-- Value `k` of the sorted data. -/
noncomputable def ord (d : List ℝ) (k : ℕ) : ℝ := (sorted d).getD k 0

theorem index_ord {d : List ℝ} {k : ℕ} (h : k < d.length) : Outcome.index (sorted d) k = .ret (ord d k) := by
  have h' : k < (sorted d).length := by simpa using h
  simp [Outcome.index, ord, List.getElem?_eq_getElem h', List.getD]

theorem ord_eq_getElem {d : List ℝ} {k : ℕ} (h : k < (sorted d).length) : ord d k = (sorted d)[k] := by
  simp [ord, List.getD, List.getElem?_eq_getElem h]

theorem ord_mono {d : List ℝ} {i j : ℕ} (hij : i ≤ j) (hj : j < d.length) : ord d i ≤ ord d j := by
  have hj' : j < (sorted d).length := by simpa using hj
  rw [ord_eq_getElem (by omega), ord_eq_getElem hj']
  rcases hij.eq_or_lt with h | h
  · subst h; exact le_rfl
  · exact List.pairwise_iff_getElem.1 (sorted_pairwise d) i j (by omega) hj' h

theorem isKth_ord {d : List ℝ} {k : ℕ} (h : k < d.length) : IsKth d k (ord d k) := by
  have h' : k < (sorted d).length := by simpa using h
  have hmono : ∀ i j (hi : i < (sorted d).length) (hj : j < (sorted d).length), i ≤ j → (sorted d)[i] ≤ (sorted d)[j] := by
    intro i j hi hj hij
    rw [← ord_eq_getElem, ← ord_eq_getElem]
    exact ord_mono hij (by simpa using hj)
  rw [ord_eq_getElem h']
  refine ⟨(sorted_perm d).mem_iff.1 (List.getElem_mem _), ?_, ?_⟩
  · have hsp : ∀ q : ℝ → Bool, (sorted d).countP q = ((sorted d).take k).countP q + ((sorted d).drop k).countP q :=
      fun q => by rw [← List.countP_append, List.take_append_drop]
    rw [← (sorted_perm d).countP_eq, hsp]
    have h1 : (List.drop k (sorted d)).countP (fun x => decide (x < (sorted d)[k])) = 0 := by
      rw [List.countP_eq_zero]
      intro a ha
      obtain ⟨i, hi, rfl⟩ := List.mem_iff_getElem.1 ha
      simp only [List.getElem_drop, decide_eq_true_eq, not_lt]
      exact hmono _ _ _ _ (by omega)
    rw [h1]
    have := List.countP_le_length (p := fun x => decide (x < (sorted d)[k])) (l := List.take k (sorted d))
    simp only [List.length_take] at this
    omega
  · have hsp : ∀ q : ℝ → Bool, (sorted d).countP q =
        ((sorted d).take (k + 1)).countP q + ((sorted d).drop (k + 1)).countP q :=
      fun q => by rw [← List.countP_append, List.take_append_drop]
    rw [← (sorted_perm d).countP_eq, hsp]
    have h1 : (List.take (k + 1) (sorted d)).countP (fun x => decide (x ≤ (sorted d)[k])) = k + 1 := by
      have hl : (List.take (k + 1) (sorted d)).length = k + 1 := by simp; simpa using h
      conv_rhs => rw [← hl]
      rw [List.countP_eq_length]
      intro a ha
      obtain ⟨i, hi, rfl⟩ := List.mem_iff_getElem.1 ha
      rw [hl] at hi
      simp only [List.getElem_take, decide_eq_true_eq]
      exact hmono _ _ _ _ (by omega)
    omega

theorem countP_lt_ge {d : List ℝ} {v w : ℝ} (h : v < w) :
    d.countP (fun x => x ≤ v) ≤ d.countP (fun x => x < w) := by
  refine List.countP_mono_left fun x _ hx => ?_
  simp only [decide_eq_true_eq] at hx ⊢
  linarith

/-- The `k`-th smallest value is unique, so `IsKth` determines it. -/
theorem IsKth.unique {d : List ℝ} {k : ℕ} {v w : ℝ} (hv : IsKth d k v) (hw : IsKth d k w) : v = w := by
  rcases lt_trichotomy v w with h | h | h
  · have := countP_lt_ge (d := d) h
    have := hv.2.2; have := hw.2.1; omega
  · exact h
  · have := countP_lt_ge (d := d) h
    have := hw.2.2; have := hv.2.1; omega

theorem IsKth.eq_ord {d : List ℝ} {k : ℕ} {v : ℝ} (hk : k < d.length) (hv : IsKth d k v) : v = ord d k := hv.unique (isKth_ord hk)

example : IsKth [3, 1, 2] 1 2 := by
  refine ⟨by simp, ?_, ?_⟩ <;> norm_num [List.countP_cons]

theorem mem_ord {d : List ℝ} {x : ℝ} (h : x ∈ d) : ∃ k < d.length, ord d k = x := by
  obtain ⟨k, hk, rfl⟩ := List.mem_iff_getElem.1 ((sorted_perm d).mem_iff.2 h)
  exact ⟨k, by simpa using hk, ord_eq_getElem hk⟩

theorem sorted_map {d : List ℝ} {f : ℝ → ℝ} (hf : ∀ x y, x ≤ y ↔ f x ≤ f y) : sorted (d.map f) = (sorted d).map f :=
  (List.map_insertionSort (r := (· ≤ ·)) (s := (· ≤ ·)) f d fun a _ b _ => hf a b).symm

theorem ord_map {d : List ℝ} {f : ℝ → ℝ} (hf : ∀ x y, x ≤ y ↔ f x ≤ f y) {k : ℕ} (hk : k < d.length) :
    ord (d.map f) k = f (ord d k) := by
  have hk' : k < (sorted d).length := by simpa using hk
  rw [ord, sorted_map hf, ord, List.getD, List.getD, List.getElem?_map, List.getElem?_eq_getElem hk']
  rfl

/-! ## Median -/

theorem median_empty : median [] = .exn statErr := by simp [median]

/-- **C45, median.**  For an odd number of values the middle one, for an even number the average of the two in the middle. -/
theorem median_spec (d : List ℝ) (h : d ≠ []) : ∃ m, median d = .ret m ∧
    (∀ k, d.length = 2 * k + 1 → IsKth d k m) ∧
    (∀ k, d.length = 2 * k + 2 → ∃ a b, IsKth d k a ∧ IsKth d (k + 1) b ∧ m = (a + b) / 2) := by
  have hn : 0 < d.length := List.length_pos_iff.2 h
  rcases Nat.even_or_odd' d.length with ⟨k, hk | hk⟩
  · obtain ⟨k, rfl⟩ : ∃ j, k = j + 1 := ⟨k - 1, by omega⟩
    refine ⟨(ord d k + ord d (k + 1)) / 2, ?_, fun j hj => by omega, fun j hj => ?_⟩
    · rw [median, if_neg (by omega), if_pos (by omega), show d.length / 2 - 1 = k by omega,
        show d.length / 2 = k + 1 by omega, index_ord (by omega), index_ord (by omega)]
      rfl
    · obtain rfl : j = k := by omega
      exact ⟨_, _, isKth_ord (by omega), isKth_ord (by omega), rfl⟩
  · refine ⟨ord d k, ?_, fun j hj => ?_, fun j hj => by omega⟩
    · rw [median, if_neg (by omega), if_neg (by omega), show d.length / 2 = k by omega, index_ord (by omega)]
    · obtain rfl : j = k := by omega
      exact isKth_ord (by omega)

/-- The data and their order do not matter beyond the multiset of values. -/
theorem median_perm {d e : List ℝ} (h : d.Perm e) : median d = median e := by
  simp only [median, sorted_congr h, h.length_eq]

theorem countP_ge {d : List ℝ} {k : ℕ} {v : ℝ} (hv : IsKth d k v) :
    d.length - k ≤ d.countP (fun x => v ≤ x) := by
  have h1 : d.countP (fun x => decide (v ≤ x)) + d.countP (fun x => decide (x < v)) = d.length := by
    have := List.length_eq_countP_add_countP (l := d) (fun x => decide (v ≤ x))
    rw [this]
    congr 1
    exact List.countP_congr fun x _ => by simp
  have := hv.2.1
  omega

theorem IsKth.countP_le_ge {d : List ℝ} {k : ℕ} {v m : ℝ} (hv : IsKth d k v) (h : v ≤ m) :
    k + 1 ≤ d.countP (fun x => x ≤ m) := by
  refine hv.2.2.trans_le (List.countP_mono_left fun x _ hx => ?_)
  simp only [decide_eq_true_eq] at hx ⊢
  linarith

theorem IsKth.countP_ge_ge {d : List ℝ} {k : ℕ} {v m : ℝ} (hv : IsKth d k v) (h : m ≤ v) :
    d.length - k ≤ d.countP (fun x => m ≤ x) := by
  refine (countP_ge hv).trans (List.countP_mono_left fun x _ hx => ?_)
  simp only [decide_eq_true_eq] at hx ⊢
  linarith

theorem IsKth.le {d : List ℝ} {j k : ℕ} {v w : ℝ} (hv : IsKth d j v) (hw : IsKth d k w) (h : j ≤ k) : v ≤ w := by
  by_contra hlt
  have := countP_lt_ge (d := d) (not_le.1 hlt)
  have := hv.2.1; have := hw.2.2; omega

/-- **C45, median halves the data.**  At least half of the values are at most the median and at least half are at least the
median. -/
theorem median_halves (d : List ℝ) (m : ℝ) (hm : median d = .ret m) :
    d.length ≤ 2 * d.countP (fun x => x ≤ m) ∧ d.length ≤ 2 * d.countP (fun x => m ≤ x) := by
  have h : d ≠ [] := by rintro rfl; simp [median_empty] at hm
  obtain ⟨m', hm', h1, h2⟩ := median_spec d h
  obtain rfl : m = m' := by rw [hm] at hm'; exact (Outcome.ret.injEq _ _ ▸ hm')
  have hn : 0 < d.length := List.length_pos_iff.2 h
  rcases Nat.even_or_odd' d.length with ⟨k, hk | hk⟩
  · obtain ⟨k, rfl⟩ : ∃ j, k = j + 1 := ⟨k - 1, by omega⟩
    obtain ⟨a, b, ha, hb, rfl⟩ := h2 k (by omega)
    have hab := ha.le hb (by omega)
    have := ha.countP_le_ge (m := (a + b) / 2) (by linarith)
    have := hb.countP_ge_ge (m := (a + b) / 2) (by linarith)
    omega
  · have hk' := h1 k (by omega)
    have := hk'.countP_le_ge (le_refl m)
    have := hk'.countP_ge_ge (le_refl m)
    omega

example : median [5, 1, 3, 2] = .ret (5 / 2) := by
  obtain ⟨m, hm, -, h⟩ := median_spec [5, 1, 3, 2] (by simp)
  obtain ⟨a, b, ha, hb, rfl⟩ := h 1 (by simp)
  have h2 : IsKth [5, 1, 3, 2] 1 2 := by refine ⟨by simp, ?_, ?_⟩ <;> norm_num [List.countP_cons]
  have h3 : IsKth [5, 1, 3, 2] 2 3 := by refine ⟨by simp, ?_, ?_⟩ <;> norm_num [List.countP_cons]
  rw [hm, ha.unique h2, hb.unique h3]
  norm_num

/-! ## Percentiles -/

/-- The interpolated value at a rank. -/
noncomputable def interp (d : List ℝ) (r : ℝ) : ℝ := ord d ⌊r⌋₊ + (r - ⌊r⌋₊) * (ord d ⌈r⌉₊ - ord d ⌊r⌋₊)

theorem interp_nat (d : List ℝ) (k : ℕ) : interp d k = ord d k := by simp [interp]

theorem interpolate_eq {d : List ℝ} {r : ℝ} (h0 : 0 ≤ r) (h1 : r ≤ (d.length : ℝ) - 1) :
    interpolate (sorted d) r = .ret (interp d r) := by
  have hc : ⌈r⌉₊ < d.length := by
    have : ⌈r⌉₊ ≤ d.length - 1 := by
      rw [Nat.ceil_le]
      refine h1.trans ?_
      rcases Nat.eq_zero_or_pos d.length with h | h
      · rw [h]; norm_num
      · rw [Nat.cast_sub h]; norm_num
    rcases Nat.eq_zero_or_pos d.length with h | h
    · rw [h] at h1; norm_num at h1; linarith
    · omega
  have hf : ⌊r⌋₊ ≤ ⌈r⌉₊ := Nat.floor_le_ceil r
  have ef : ⌊r⌋ = (⌊r⌋₊ : ℤ) := (Int.natCast_floor_eq_floor h0).symm
  have ec : ⌈r⌉ = (⌈r⌉₊ : ℤ) := (Int.natCast_ceil_eq_ceil h0).symm
  unfold interpolate indexInt
  rw [ef, ec]
  simp only [Int.toNat_natCast, if_neg (not_lt.2 (Int.natCast_nonneg _))]
  rw [index_ord (by omega), index_ord hc]
  simp only [Outcome.bind_ret, interp]
  split_ifs with h
  · have h' : ⌊r⌋₊ = ⌈r⌉₊ := by exact_mod_cast h
    rw [← h']; simp
  · simp

/-- `Percentile` interpolates, its special cases included. -/
theorem percentile_eq {d : List ℝ} (h : d ≠ []) {p : ℝ} (h0 : 0 ≤ p) (h1 : p ≤ 100) :
    percentile d p = .ret (interp d (p / 100 * ((d.length : ℝ) - 1))) := by
  have hn : 0 < d.length := List.length_pos_iff.2 h
  have hn' : (1 : ℝ) ≤ d.length := by exact_mod_cast hn
  have hc : ((d.length - 1 : ℕ) : ℝ) = (d.length : ℝ) - 1 := by rw [Nat.cast_sub hn]; simp
  rw [percentile, if_neg (by omega), if_neg (by rintro (h | h) <;> linarith)]
  split_ifs with hp hp'
  · rw [hp, index_ord hn, zero_div, zero_mul]; exact congrArg _ (by simpa using (interp_nat d 0).symm)
  · rw [hp', index_ord (by omega), show (100 : ℝ) / 100 = 1 by norm_num, one_mul, ← hc, interp_nat]
  · have h100 : p / 100 ≤ 1 := by rw [div_le_one (by norm_num)]; exact h1
    exact interpolate_eq (by apply mul_nonneg <;> [positivity; linarith]) (by nlinarith)

/-- **C45, percentile.**  With `r = (p / 100) (n - 1)`, the result lies on the straight line between the value of rank `⌊r⌋` and
the value of rank `⌈r⌉`, at the fraction `r - ⌊r⌋`. -/
theorem percentile_spec (d : List ℝ) (h : d ≠ []) (p : ℝ) (h0 : 0 ≤ p) (h1 : p ≤ 100) :
    ∃ a b, IsKth d ⌊p / 100 * ((d.length : ℝ) - 1)⌋₊ a ∧ IsKth d ⌈p / 100 * ((d.length : ℝ) - 1)⌉₊ b ∧
      percentile d p = .ret (a + Int.fract (p / 100 * ((d.length : ℝ) - 1)) * (b - a)) := by
  have hn : 0 < d.length := List.length_pos_iff.2 h
  have hn' : (1 : ℝ) ≤ d.length := by exact_mod_cast hn
  have hc : ((d.length - 1 : ℕ) : ℝ) = (d.length : ℝ) - 1 := by rw [Nat.cast_sub hn]; simp
  have h100 : p / 100 ≤ 1 := by rw [div_le_one (by norm_num)]; exact h1
  have hr0 : 0 ≤ p / 100 * ((d.length : ℝ) - 1) := by apply mul_nonneg <;> [positivity; linarith]
  have hr1 : p / 100 * ((d.length : ℝ) - 1) ≤ ((d.length - 1 : ℕ) : ℝ) := by rw [hc]; nlinarith
  have hceil : ⌈p / 100 * ((d.length : ℝ) - 1)⌉₊ ≤ d.length - 1 := Nat.ceil_le.2 hr1
  have hf := Nat.floor_le_ceil (p / 100 * ((d.length : ℝ) - 1))
  refine ⟨_, _, isKth_ord (by omega), isKth_ord (by omega), ?_⟩
  rw [percentile_eq h h0 h1, interp, Int.fract, ← natCast_floor_eq_intCast_floor hr0]

theorem percentile_refuses (d : List ℝ) (p : ℝ) (h : d = [] ∨ p < 0 ∨ 100 < p) : percentile d p = .exn statErr := by
  rw [percentile]
  rcases h with rfl | h
  · simp
  · split_ifs
    · rfl
    · rfl
    all_goals exact absurd h ‹_›

theorem percentile_perm {d e : List ℝ} (h : d.Perm e) (p : ℝ) : percentile d p = percentile e p := by
  simp only [percentile, sorted_congr h, h.length_eq]

theorem interp_between {d : List ℝ} {r : ℝ} (h0 : 0 ≤ r) (h1 : ⌈r⌉₊ < d.length) :
    ord d ⌊r⌋₊ ≤ interp d r ∧ interp d r ≤ ord d ⌈r⌉₊ := by
  have hm := ord_mono (d := d) (Nat.floor_le_ceil r) h1
  have hf := Nat.floor_le h0
  have hl := Nat.lt_floor_add_one r
  constructor <;> unfold interp <;> nlinarith

theorem interp_mono {d : List ℝ} {r s : ℝ} (h0 : 0 ≤ r) (hrs : r ≤ s) (h1 : ⌈s⌉₊ < d.length) : interp d r ≤ interp d s := by
  have hs0 : 0 ≤ s := h0.trans hrs
  rcases (Nat.floor_mono hrs).eq_or_lt with hf | hf
  · -- the same piece
    rcases hrs.eq_or_lt with rfl | hlt
    · exact le_rfl
    have hcs : ⌈s⌉₊ = ⌊r⌋₊ + 1 := by
      have h2 : ⌊r⌋₊ < ⌈s⌉₊ := Nat.lt_ceil.2 ((Nat.floor_le h0).trans_lt hlt)
      have h3 : ⌈s⌉₊ ≤ ⌊s⌋₊ + 1 := Nat.ceil_le_floor_add_one s
      omega
    have hm := ord_mono (d := d) (i := ⌊r⌋₊) (j := ⌊r⌋₊ + 1) (by omega) (by omega)
    have hfr := Nat.floor_le h0
    unfold interp
    rw [← hf, hcs]
    rcases eq_or_ne ⌈r⌉₊ ⌊r⌋₊ with hc | hc
    · rw [hc]; nlinarith
    · have h3 : ⌈r⌉₊ ≤ ⌊r⌋₊ + 1 := Nat.ceil_le_floor_add_one r
      have h4 := Nat.floor_le_ceil r
      rw [show ⌈r⌉₊ = ⌊r⌋₊ + 1 by omega]
      nlinarith
  · have h3 : ⌈r⌉₊ ≤ ⌊r⌋₊ + 1 := Nat.ceil_le_floor_add_one r
    have h4 := Nat.floor_le_ceil s
    exact (interp_between h0 (by omega)).2.trans
      ((ord_mono (show ⌈r⌉₊ ≤ ⌊s⌋₊ by omega) (by omega)).trans (interp_between hs0 h1).1)

theorem rank_ceil {d : List ℝ} (h : d ≠ []) {p : ℝ} (h1 : p ≤ 100) : ⌈p / 100 * ((d.length : ℝ) - 1)⌉₊ < d.length := by
  have hn : 0 < d.length := List.length_pos_iff.2 h
  have hn' : (1 : ℝ) ≤ d.length := by exact_mod_cast hn
  have hc : ((d.length - 1 : ℕ) : ℝ) = (d.length : ℝ) - 1 := by rw [Nat.cast_sub hn]; simp
  have h100 : p / 100 ≤ 1 := by rw [div_le_one (by norm_num)]; exact h1
  have : ⌈p / 100 * ((d.length : ℝ) - 1)⌉₊ ≤ d.length - 1 := Nat.ceil_le.2 (by rw [hc]; nlinarith)
  omega

/-- **C45, percentiles are monotone.** -/
theorem percentile_mono (d : List ℝ) (p q v w : ℝ) (hpq : p ≤ q) (hv : percentile d p = .ret v) (hw : percentile d q = .ret w) :
    v ≤ w := by
  have key : ∀ p v, percentile d p = .ret v → d ≠ [] ∧ 0 ≤ p ∧ p ≤ 100 := by
    intro p v h
    by_contra hcon
    rw [percentile_refuses d p (by by_contra h'; push Not at h'; exact hcon h')] at h
    cases h
  obtain ⟨hd, hp0, hp1⟩ := key p v hv
  obtain ⟨-, hq0, hq1⟩ := key q w hw
  have hn : 0 < d.length := List.length_pos_iff.2 hd
  have hn' : (1 : ℝ) ≤ d.length := by exact_mod_cast hn
  rw [percentile_eq hd hp0 hp1] at hv
  rw [percentile_eq hd hq0 hq1] at hw
  cases hv
  cases hw
  refine interp_mono (by apply mul_nonneg <;> [positivity; linarith]) ?_ (rank_ceil hd hq1)
  have : p / 100 ≤ q / 100 := by linarith
  nlinarith

/-- **C45, ends.**  The percentiles 0 and 100 are the smallest and the largest value. -/
theorem percentile_ends (d : List ℝ) (h : d ≠ []) : ∃ lo hi, percentile d 0 = .ret lo ∧ percentile d 100 = .ret hi ∧
    lo ∈ d ∧ hi ∈ d ∧ ∀ x ∈ d, lo ≤ x ∧ x ≤ hi := by
  have hn : 0 < d.length := List.length_pos_iff.2 h
  refine ⟨ord d 0, ord d (d.length - 1), ?_, ?_, (isKth_ord hn).1, (isKth_ord (by omega)).1, fun x hx => ?_⟩
  · rw [percentile, if_neg (by omega), if_neg (by norm_num), if_pos rfl, index_ord hn]
  · rw [percentile, if_neg (by omega), if_neg (by norm_num), if_neg (by norm_num), if_pos rfl, index_ord (by omega)]
  · obtain ⟨k, hk, rfl⟩ := mem_ord hx
    exact ⟨ord_mono (by omega) hk, ord_mono (by omega) (by omega)⟩

/-- **C45, range of percentiles.** -/
theorem percentile_between (d : List ℝ) (h : d ≠ []) (p : ℝ) (h0 : 0 ≤ p) (h1 : p ≤ 100) :
    ∃ v x y, percentile d p = .ret v ∧ x ∈ d ∧ y ∈ d ∧ x ≤ v ∧ v ≤ y := by
  obtain ⟨lo, hi, hlo, hhi, ml, mh, -⟩ := percentile_ends d h
  have hv := percentile_eq h h0 h1
  exact ⟨_, lo, hi, hv, ml, mh, percentile_mono d _ _ _ _ h0 hlo hv, percentile_mono d _ _ _ _ h1 hv hhi⟩

/-- **C45, the median is the percentile 50.** -/
theorem median_eq_percentile (d : List ℝ) : median d = percentile d 50 := by
  rcases eq_or_ne d [] with rfl | h
  · simp [median, percentile]
  have hn : 0 < d.length := List.length_pos_iff.2 h
  rw [percentile_eq h (by norm_num) (by norm_num)]
  rcases Nat.even_or_odd' d.length with ⟨k, hk | hk⟩
  · obtain ⟨k, rfl⟩ : ∃ j, k = j + 1 := ⟨k - 1, by omega⟩
    rw [median, if_neg (by omega), if_pos (by omega), show d.length / 2 - 1 = k by omega,
      show d.length / 2 = k + 1 by omega, index_ord (by omega), index_ord (by omega)]
    simp only [Outcome.bind_ret]
    have hr : (50 : ℝ) / 100 * ((d.length : ℝ) - 1) = k + 1 / 2 := by rw [hk]; push_cast; ring
    have hf : ⌊(k : ℝ) + 1 / 2⌋₊ = k := by
      rw [Nat.floor_eq_iff (by positivity)]; constructor <;> norm_num
    have hc : ⌈(k : ℝ) + 1 / 2⌉₊ = k + 1 := by
      rw [Nat.ceil_eq_iff (by omega)]; push_cast; constructor <;> norm_num
    rw [hr, interp, hf, hc]
    congr 1; ring
  · rw [median, if_neg (by omega), if_neg (by omega), show d.length / 2 = k by omega, index_ord (by omega)]
    have hr : (50 : ℝ) / 100 * ((d.length : ℝ) - 1) = k := by rw [hk]; push_cast; ring
    rw [hr, interp_nat]

/-- **C45, change of units.**  Scaling by a positive factor and shifting scales and shifts every percentile. -/
theorem percentile_affine (d : List ℝ) (h : d ≠ []) (p : ℝ) (h0 : 0 ≤ p) (h1 : p ≤ 100) (a b : ℝ) (ha : 0 < a) :
    ∃ v, percentile d p = .ret v ∧ percentile (d.map fun x => a * x + b) p = .ret (a * v + b) := by
  refine ⟨_, percentile_eq h h0 h1, ?_⟩
  have hf : ∀ x y : ℝ, x ≤ y ↔ a * x + b ≤ a * y + b := fun x y => by
    rw [add_le_add_iff_right, mul_le_mul_iff_right₀ ha]
  have hc := rank_ceil h h1
  have hfc := Nat.floor_le_ceil (p / 100 * ((d.length : ℝ) - 1))
  rw [percentile_eq (by simpa using h) h0 h1]
  simp only [List.length_map, interp]
  rw [ord_map hf hc, ord_map hf (by omega)]
  congr 1; ring

/-- **C45, quartiles** are the percentiles 25, 50 (the median) and 75 and are in order; the interquartile range is their distance
and not negative. -/
theorem quartiles_spec (d : List ℝ) (h : d ≠ []) : ∃ q1 q2 q3, quartiles d = .ret (q1, q2, q3) ∧
    percentile d 25 = .ret q1 ∧ median d = .ret q2 ∧ percentile d 75 = .ret q3 ∧ q1 ≤ q2 ∧ q2 ≤ q3 ∧
    iqr d = .ret (q3 - q1) := by
  have hn : 0 < d.length := List.length_pos_iff.2 h
  have h25 := percentile_eq h (p := 25) (by norm_num) (by norm_num)
  have h50 := percentile_eq h (p := 50) (by norm_num) (by norm_num)
  have h75 := percentile_eq h (p := 75) (by norm_num) (by norm_num)
  refine ⟨_, _, _, ?_, h25, ?_, h75, percentile_mono d _ _ _ _ (by norm_num) h25 h50,
    percentile_mono d _ _ _ _ (by norm_num) h50 h75, ?_⟩
  · rw [quartiles, if_neg (by omega), h25, h50, h75]; rfl
  · rw [median_eq_percentile, h50]
  · rw [iqr, if_neg (by omega), h25, h75]; rfl

/-! ## Extremes -/

theorem minMax_loop (d : List ℝ) (h : d ≠ []) : ∃ x lo hi, Outcome.index d 0 = .ret x ∧
    forFromTo 1 d.length (x, x) (minMaxStep d) = .ret (lo, hi) ∧ lo ∈ d ∧ hi ∈ d ∧ ∀ y ∈ d, lo ≤ y ∧ y ≤ hi := by
  have hn : 0 < d.length := List.length_pos_iff.2 h
  obtain ⟨t, ht, hP⟩ := forFromTo_rule (fun i (st : ℝ × ℝ) => st.1 ∈ d ∧ st.2 ∈ d ∧
      ∀ k (hk : k < d.length), k < i → st.1 ≤ d[k] ∧ d[k] ≤ st.2) 1 d.length hn (d[0], d[0]) (minMaxStep d)
    ⟨List.getElem_mem _, List.getElem_mem _, fun k hk hk1 => by
      obtain rfl : k = 0 := by omega
      exact ⟨le_rfl, le_rfl⟩⟩
    (by
      rintro i ⟨lo, hi⟩ h1 hi' ⟨hl, hh, hb⟩
      refine ⟨(if d[i] < lo then d[i] else lo, if d[i] > hi then d[i] else hi), ?_, ?_, ?_, ?_⟩
      · simp [minMaxStep, Outcome.index, List.getElem?_eq_getElem hi']
      · dsimp only; split_ifs
        · exact List.getElem_mem _
        · exact hl
      · dsimp only; split_ifs
        · exact List.getElem_mem _
        · exact hh
      · intro k hk hki
        dsimp only at hb ⊢
        rcases Nat.lt_succ_iff_lt_or_eq.1 hki with hki | rfl
        · have := hb k hk hki
          constructor <;> split_ifs <;> linarith
        · constructor <;> split_ifs <;> linarith)
  refine ⟨d[0], t.1, t.2, by simp [Outcome.index, List.getElem?_eq_getElem hn], ht, hP.1, hP.2.1, fun y hy => ?_⟩
  obtain ⟨k, hk, rfl⟩ := List.mem_iff_getElem.1 hy
  exact hP.2.2 k hk hk

/-- **C45, extremes.**  `MinMax` returns the smallest and the largest value and `Range` their difference; empty data are
refused. -/
theorem minMax_spec (d : List ℝ) :
    (d = [] → minMax d = .exn statErr ∧ range d = .exn statErr) ∧
    (d ≠ [] → ∃ lo hi, minMax d = .ret (lo, hi) ∧ range d = .ret (hi - lo) ∧ lo ∈ d ∧ hi ∈ d ∧ ∀ y ∈ d, lo ≤ y ∧ y ≤ hi) := by
  refine ⟨fun h => by subst h; simp [minMax, range], fun h => ?_⟩
  have hn : 0 < d.length := List.length_pos_iff.2 h
  obtain ⟨x, lo, hi, hx, hl, h1, h2, h3⟩ := minMax_loop d h
  refine ⟨lo, hi, ?_, ?_, h1, h2, h3⟩
  · rw [minMax, if_neg (by omega), hx, Outcome.bind_ret, hl]
  · rw [range, if_neg (by omega), hx, Outcome.bind_ret, hl, Outcome.bind_ret]

/-! ## Mode -/

/-- The state of the loop of `Mode` after the first `i` sorted values. -/
structure ModeInv (s : List ℝ) (i : ℕ) (prev : ℝ) (st : ModeState) : Prop where
  cur : st.current = (s.take i).count prev
  pos : 1 ≤ st.maxCount
  mem : st.mode ∈ s
  best : ∀ v < prev, (s.take i).count v ≤ st.maxCount ∧ ((s.take i).count v = st.maxCount → st.mode ≤ v)
  kind : (st.mode < prev ∧ (s.take i).count st.mode = st.maxCount) ∨ (st.mode = prev ∧ st.maxCount = 1)

theorem take_snoc {s : List ℝ} {i : ℕ} (h : i < s.length) : s.take (i + 1) = s.take i ++ [s[i]] := by
  rw [List.take_add_one, List.getElem?_eq_getElem h]; rfl

theorem modeInv_step {s : List ℝ} (hs : s.Pairwise (· ≤ ·)) {i : ℕ} (h1 : 1 ≤ i) (hi : i < s.length) {st : ModeState}
    (h : ModeInv s i (s[i - 1]'(by omega)) st) :
    ∃ st', modeStep s st i = .ret st' ∧ ModeInv s (i + 1) s[i] st' := by
  have hle : s[i - 1] ≤ s[i] := List.pairwise_iff_getElem.1 hs _ _ (by omega) hi (by omega)
  have hstep : modeStep s st i = if s[i] = s[i - 1] then .ret { st with current := st.current + 1 }
      else .ret (endRun st s[i - 1]) := by
    simp [modeStep, Outcome.index, List.getElem?_eq_getElem hi, List.getElem?_eq_getElem (show i - 1 < s.length by omega)]
  rw [hstep]
  have hcount : ∀ v, (s.take (i + 1)).count v = (s.take i).count v + if s[i] = v then 1 else 0 := by
    intro v
    rw [take_snoc hi, List.count_append, List.count_singleton]
    simp
  by_cases heq : s[i] = s[i - 1]
  · rw [if_pos heq]
    refine ⟨_, rfl, ?_, h.pos, h.mem, ?_, ?_⟩
    · rw [hcount, if_pos rfl, heq, ← h.cur]
    · intro v hv
      rw [hcount, if_neg (by linarith), add_zero]
      exact h.best v (heq ▸ hv)
    · rcases h.kind with ⟨hk, hc⟩ | ⟨hk, hc⟩
      · left
        refine ⟨heq ▸ hk, ?_⟩
        dsimp only
        rw [hcount, if_neg (by rw [heq]; linarith), add_zero, hc]
      · right
        exact ⟨by rw [heq]; exact hk, hc⟩
  · rw [if_neg heq]
    have hlt : s[i - 1] < s[i] := lt_of_le_of_ne hle (Ne.symm heq)
    -- nothing between the previous value and this one
    have hzero : ∀ v, s[i - 1] < v → (s.take i).count v = 0 := by
      intro v hv
      rw [List.count_eq_zero]
      intro hm
      obtain ⟨k, hk, rfl⟩ := List.mem_iff_getElem.1 hm
      simp only [List.length_take] at hk
      simp only [List.getElem_take] at hv
      have : s[k] ≤ s[i - 1] := by
        rcases (show k ≤ i - 1 by omega).eq_or_lt with hk' | hk'
        · simp [hk']
        · exact List.pairwise_iff_getElem.1 hs _ _ _ _ hk'
      linarith
    have hnew : (s.take (i + 1)).count s[i] = 1 := by rw [hcount, if_pos rfl, hzero _ hlt]
    refine ⟨_, rfl, ?_⟩
    unfold endRun
    by_cases hgt : st.current > st.maxCount
    · rw [if_pos hgt]
      refine ⟨hnew.symm, by have := h.pos; dsimp only; omega, List.getElem_mem _, ?_, Or.inl ⟨hlt, ?_⟩⟩
      · intro v hv
        rw [hcount, if_neg (by linarith), add_zero]
        dsimp only
        rcases lt_trichotomy v s[i - 1] with hv' | rfl | hv'
        · have := (h.best v hv').1
          exact ⟨by omega, fun hc => by omega⟩
        · exact ⟨h.cur.ge, fun _ => le_rfl⟩
        · rw [hzero v hv']
          have := h.pos
          exact ⟨by omega, fun hc => by omega⟩
      · dsimp only
        rw [hcount, if_neg (by linarith), add_zero, h.cur]
    · rw [if_neg hgt]
      have hcm : (s.take i).count st.mode = st.maxCount := by
        rcases h.kind with ⟨-, hc⟩ | ⟨hk, hc⟩
        · exact hc
        · rw [hk, hc]
          have h3 := h.cur
          have h4 : 0 < (s.take i).count s[i - 1] := by
            rw [List.count_pos_iff, List.mem_iff_getElem]
            exact ⟨i - 1, by simp; omega, by simp⟩
          omega
      have hml : st.mode ≤ s[i - 1] := by
        rcases h.kind with ⟨hk, -⟩ | ⟨hk, -⟩
        · exact hk.le
        · exact hk.le
      refine ⟨hnew.symm, h.pos, h.mem, ?_, Or.inl ⟨lt_of_le_of_lt hml hlt, ?_⟩⟩
      · intro v hv
        rw [hcount, if_neg (by linarith), add_zero]
        dsimp only
        rcases lt_trichotomy v s[i - 1] with hv' | rfl | hv'
        · exact h.best v hv'
        · exact ⟨by rw [← h.cur]; omega, fun _ => hml⟩
        · rw [hzero v hv']
          have := h.pos
          exact ⟨by omega, fun hc => by omega⟩
      · dsimp only
        rw [hcount, if_neg (by linarith), add_zero, hcm]

/-- **C45, mode.**  The mode is a value of the data that occurs at least as often as any other number, and the smallest such
value. -/
theorem mode_spec (d : List ℝ) (h : d ≠ []) : ∃ m, mode d = .ret m ∧ m ∈ d ∧
    ∀ v, d.count v ≤ d.count m ∧ (d.count v = d.count m → m ≤ v) := by
  have hn : 0 < d.length := List.length_pos_iff.2 h
  rcases Nat.lt_or_ge 1 d.length with h1 | h1
  rotate_left
  · obtain ⟨a, rfl⟩ := List.length_eq_one_iff.1 (show d.length = 1 by omega)
    refine ⟨a, by simp [mode, Outcome.index], by simp, fun v => ?_⟩
    by_cases hv : v = a
    · simp [hv]
    · rw [List.count_singleton_self, List.count_eq_zero.2 (by simpa using hv)]
      exact ⟨by omega, fun hc => by omega⟩
  have hl : (sorted d).length = d.length := length_sorted d
  have hs := sorted_pairwise d
  obtain ⟨st, hst, hinv⟩ := forFromTo_rule
    (fun i (st : ModeState) => ∃ hi : i - 1 < (sorted d).length, ModeInv (sorted d) i (sorted d)[i - 1] st)
    1 d.length (by omega) ⟨(sorted d)[0], 1, 1⟩ (modeStep (sorted d))
    (by
      refine ⟨by omega, ?_, le_rfl, List.getElem_mem _, ?_, Or.inr ⟨rfl, rfl⟩⟩
      · have : (sorted d).take 1 = [(sorted d)[0]] := by rw [take_snoc (by omega)]; simp
        simp [this]
      · intro v hv
        have : (sorted d).take 1 = [(sorted d)[0]] := by rw [take_snoc (by omega)]; simp
        rw [this, List.count_eq_zero.2 (by simpa using hv.ne)]
        exact ⟨by omega, fun hc => by simp at hc⟩)
    (by
      rintro i st h1 hi ⟨hi', hI⟩
      obtain ⟨st', h', hI'⟩ := modeInv_step hs h1 (by omega) hI
      exact ⟨st', h', ⟨by omega, hI'⟩⟩)
  obtain ⟨hi', hI⟩ := hinv
  have htake : (sorted d).take d.length = sorted d := List.take_of_length_le (by omega)
  have hmax : ∀ v ∈ sorted d, v ≤ (sorted d)[d.length - 1] := by
    intro v hv
    obtain ⟨k, hk, rfl⟩ := List.mem_iff_getElem.1 hv
    rcases (show k ≤ d.length - 1 by omega).eq_or_lt with hk' | hk'
    · simp [hk']
    · exact List.pairwise_iff_getElem.1 hs _ _ _ _ hk'
  have hcnt : ∀ v, d.count v = (sorted d).count v := fun v => ((sorted_perm d).count_eq v).symm
  have hgt0 : ∀ v, (sorted d)[d.length - 1] < v → (sorted d).count v = 0 := by
    intro v hv
    rw [List.count_eq_zero]
    intro hm
    linarith [hmax v hm]
  have hrun : mode d = if st.current > st.maxCount then .ret (sorted d)[d.length - 1] else .ret st.mode := by
    rw [mode, if_neg (by omega), if_neg (by omega)]
    simp only [Outcome.index, List.getElem?_eq_getElem (show 0 < (sorted d).length by omega),
      List.getElem?_eq_getElem hi', Outcome.bind_ret, hst]
  have hcur := hI.cur
  have hbest := hI.best
  have hkind := hI.kind
  have hpos := hI.pos
  rw [htake] at hcur hbest hkind
  rw [hrun]
  by_cases hgt : st.current > st.maxCount
  · rw [if_pos hgt]
    refine ⟨_, rfl, (sorted_perm d).mem_iff.1 (List.getElem_mem _), fun v => ?_⟩
    rw [hcnt, hcnt]
    rcases lt_trichotomy v (sorted d)[d.length - 1] with hv | rfl | hv
    · have := (hbest v hv).1
      exact ⟨by omega, fun hc => by omega⟩
    · exact ⟨le_rfl, fun _ => le_rfl⟩
    · rw [hgt0 v hv]
      exact ⟨by omega, fun hc => by omega⟩
  · rw [if_neg hgt]
    have hcm : (sorted d).count st.mode = st.maxCount := by
      rcases hkind with ⟨-, hc⟩ | ⟨hk, hc⟩
      · exact hc
      · rw [hk, hc]
        have h4 : 0 < (sorted d).count (sorted d)[d.length - 1] := List.count_pos_iff.2 (List.getElem_mem _)
        omega
    refine ⟨_, rfl, (sorted_perm d).mem_iff.1 hI.mem, fun v => ?_⟩
    rw [hcnt, hcnt, hcm]
    rcases lt_trichotomy v (sorted d)[d.length - 1] with hv | rfl | hv
    · exact hbest v hv
    · exact ⟨by omega, fun _ => hmax _ hI.mem⟩
    · rw [hgt0 v hv]
      exact ⟨by omega, fun hc => by omega⟩

theorem mode_empty : mode [] = .exn statErr := by simp [mode]

/-- The conclusion determines the mode. -/
theorem mode_unique {d : List ℝ} {m m' : ℝ} (h : ∀ v, d.count v ≤ d.count m ∧ (d.count v = d.count m → m ≤ v))
    (h' : ∀ v, d.count v ≤ d.count m' ∧ (d.count v = d.count m' → m' ≤ v)) : m = m' := by
  have e : d.count m = d.count m' := le_antisymm (h' m).1 (h m').1
  exact le_antisymm ((h m').2 e.symm) ((h' m).2 e)

/-! ## Trimmed mean and median absolute deviation -/

theorem trimCount_lt {n : ℕ} (hn : 0 < n) {p : ℝ} (h0 : 0 ≤ p) (h1 : p < 50) :
    2 * trimCount n p < n ∧ (trimCount n p : ℝ) ≤ n * p / 100 ∧ n * p / 100 < trimCount n p + 1 := by
  have hn' : (0 : ℝ) < n := by exact_mod_cast hn
  have hpos : 0 ≤ (n : ℝ) * p / 100 := by positivity
  have hf : (trimCount n p : ℤ) = ⌊(n : ℝ) * p / 100⌋ := by
    rw [trimCount, Int.toNat_of_nonneg (Int.floor_nonneg.2 hpos)]
  have h2 : (trimCount n p : ℝ) ≤ n * p / 100 := by
    have := Int.floor_le ((n : ℝ) * p / 100)
    rw [← hf] at this
    exact_mod_cast this
  have h3 : n * p / 100 < trimCount n p + 1 := by
    have := Int.lt_floor_add_one ((n : ℝ) * p / 100)
    rw [← hf] at this
    exact_mod_cast this
  refine ⟨?_, h2, h3⟩
  have : (2 * trimCount n p : ℝ) < n := by nlinarith
  exact_mod_cast this

theorem trim_loop (s : List ℝ) (a b : ℕ) (hab : a ≤ b) (hb : b ≤ s.length) :
    forFromTo a b (0, 0) (trimStep s) = .ret (((s.take b).drop a).sum, b - a) := by
  obtain ⟨t, ht, hP⟩ := forFromTo_rule (fun i (st : ℝ × ℕ) => st = (((s.take i).drop a).sum, i - a)) a b hab (0, 0)
    (trimStep s) (by simp)
    (by
      rintro i st hai hib rfl
      have hi : i < s.length := by omega
      refine ⟨_, by simp [trimStep, Outcome.index, List.getElem?_eq_getElem hi]; rfl, ?_⟩
      rw [take_snoc hi, List.drop_append_of_le_length (by simp; omega), List.sum_append]
      simp
      omega)
  rw [ht, hP]

/-- **C45, trimmed mean.**  The data are, in some order, `t` smallest values, a middle part and `t` largest values, where `t` is
`n p / 100` rounded down; the result is the mean of the middle part, which is not empty. -/
theorem trimmedMean_spec (d : List ℝ) (h : d ≠ []) (p : ℝ) (h0 : 0 ≤ p) (h1 : p < 50) :
    ∃ lo mid hi, d.Perm (lo ++ mid ++ hi) ∧ lo.length = ⌊(d.length : ℝ) * p / 100⌋₊ ∧ hi.length = lo.length ∧ mid ≠ [] ∧
      (∀ x ∈ lo, ∀ y ∈ mid ++ hi, x ≤ y) ∧ (∀ x ∈ mid, ∀ y ∈ hi, x ≤ y) ∧ trimmedMean d p = .ret (mean mid) := by
  have hn : 0 < d.length := List.length_pos_iff.2 h
  obtain ⟨ht, ht1, ht2⟩ := trimCount_lt hn h0 h1
  have hfl : trimCount d.length p = ⌊(d.length : ℝ) * p / 100⌋₊ := by
    symm
    rw [Nat.floor_eq_iff (by positivity)]
    exact ⟨ht1, ht2⟩
  set t := trimCount d.length p with htdef
  set s := sorted d with hsdef
  have hsl : s.length = d.length := length_sorted d
  have hsplit : s = s.take t ++ (s.take (d.length - t)).drop t ++ s.drop (d.length - t) := by
    have e1 : s.take t = (s.take (d.length - t)).take t := by rw [List.take_take, min_eq_left (by omega)]
    rw [e1, List.take_append_drop, List.take_append_drop]
  have hpw := sorted_pairwise d
  rw [← hsdef, hsplit, List.pairwise_append, List.pairwise_append] at hpw
  obtain ⟨⟨-, -, hlm⟩, -, hmh⟩ := hpw
  refine ⟨s.take t, (s.take (d.length - t)).drop t, s.drop (d.length - t), ?_, ?_, ?_, ?_, ?_, ?_, ?_⟩
  · rw [← hsplit]; exact (sorted_perm d).symm
  · rw [← hfl]; simp [hsl]; omega
  · simp [hsl]; omega
  · rw [← List.length_pos_iff]; simp [hsl]; omega
  · intro x hx y hy
    rcases List.mem_append.1 hy with hy | hy
    · exact hlm x hx y hy
    · exact hmh x (List.mem_append_left _ hx) y hy
  · exact fun x hx y hy => hmh x (List.mem_append_right _ hx) y hy
  · rw [trimmedMean, if_neg (by omega), if_neg (by rintro (h | h) <;> linarith), ← htdef, ← hsdef,
      trim_loop s t (d.length - t) (by omega) (by omega), Outcome.bind_ret]
    dsimp only
    rw [if_neg (by omega), quot, if_neg (by norm_cast; omega), mean]
    congr 2
    simp [hsl]

theorem trimmedMean_refuses (d : List ℝ) (p : ℝ) (h : d = [] ∨ p < 0 ∨ 50 ≤ p) : trimmedMean d p = .exn statErr := by
  rw [trimmedMean]
  rcases h with rfl | h
  · simp
  · split_ifs
    · rfl
    · rfl
    all_goals exact absurd h ‹_›

theorem trimmedMean_perm {d e : List ℝ} (h : d.Perm e) (p : ℝ) : trimmedMean d p = trimmedMean e p := by
  simp only [trimmedMean, sorted_congr h, h.length_eq]

theorem mode_perm {d e : List ℝ} (h : d.Perm e) : mode d = mode e := by
  rcases eq_or_ne d [] with rfl | hd
  · rw [h.nil_eq]
  have he : e ≠ [] := by rintro rfl; exact hd h.eq_nil
  obtain ⟨m, hm, -, hb⟩ := mode_spec d hd
  obtain ⟨m', hm', -, hb'⟩ := mode_spec e he
  have : m = m' := mode_unique (d := d) hb fun v => by rw [h.count_eq, h.count_eq]; exact hb' v
  rw [hm, hm', this]

theorem range_perm {d e : List ℝ} (h : d.Perm e) : range d = range e ∧ minMax d = minMax e := by
  rcases eq_or_ne d [] with rfl | hd
  · rw [h.nil_eq]; exact ⟨rfl, rfl⟩
  have he : e ≠ [] := by rintro rfl; exact hd h.eq_nil
  obtain ⟨lo, hi, hm, hr, hl, hh, hb⟩ := (minMax_spec d).2 hd
  obtain ⟨lo', hi', hm', hr', hl', hh', hb'⟩ := (minMax_spec e).2 he
  have e1 : lo = lo' := le_antisymm (hb _ (h.mem_iff.2 hl')).1 (hb' _ (h.mem_iff.1 hl)).1
  have e2 : hi = hi' := le_antisymm (hb' _ (h.mem_iff.1 hh)).2 (hb _ (h.mem_iff.2 hh')).2
  rw [hm, hr, hm', hr', e1, e2]
  exact ⟨rfl, rfl⟩

/-- **C45, median absolute deviation**: the median of the distances from the median; it is not negative and depends only on the
multiset of data. -/
theorem mad_spec (d : List ℝ) (h : d ≠ []) : ∃ m v, median d = .ret m ∧ mad d = .ret v ∧
    median (d.map fun x => |x - m|) = .ret v ∧ 0 ≤ v := by
  have hn : 0 < d.length := List.length_pos_iff.2 h
  obtain ⟨m, hm, -⟩ := median_spec d h
  have hne : (d.map fun x => |x - m|) ≠ [] := by simpa using h
  obtain ⟨v, x, y, hv, hx, -, hxv, -⟩ := percentile_between (d.map fun x => |x - m|) hne 50 (by norm_num) (by norm_num)
  rw [← median_eq_percentile] at hv
  refine ⟨m, v, hm, ?_, hv, ?_⟩
  · have hfill : forRange d.length (List.replicate d.length 0) (devStep d m) = .ret (d.map fun x => |x - m|) := by
      rw [replicate_eq_tab, forRange_fill d.length d.length le_rfl (fun _ => 0) (fun i => |d.getD i 0 - m|)]
      · congr 1
        conv_rhs => rw [eq_tab d 0]
        simp only [tab, List.map_map]
        refine List.map_congr_left fun i hi => ?_
        rw [List.mem_range] at hi
        simp [hi]
      · intro i hi r
        simp [devStep, Outcome.index, List.getElem?_eq_getElem hi, List.getD]
    rw [mad, if_neg (by omega), hm, Outcome.bind_ret, hfill, Outcome.bind_ret, hv]
  · obtain ⟨z, -, rfl⟩ := List.mem_map.1 hx
    exact (abs_nonneg _).trans hxv

/-! ## The hypotheses can be met -/

example : ∃ m, mode [2, 1, 2, 3, 1] = .ret m ∧ m = 1 := by
  obtain ⟨m, hm, -, hb⟩ := mode_spec [2, 1, 2, 3, 1] (by simp)
  refine ⟨m, hm, mode_unique hb fun v => ?_⟩
  have h1 : List.count (1 : ℝ) [2, 1, 2, 3, 1] = 2 := by norm_num [List.count_cons]
  rw [h1]
  by_cases a : v = 2
  · subst a; norm_num [List.count_cons]
  by_cases b : v = 1
  · subst b; norm_num [List.count_cons]
  by_cases c : v = 3
  · subst c; norm_num [List.count_cons]
  · rw [List.count_eq_zero.2 (by simp [a, b, c])]; norm_num

example : ([1, 2, 9, 4] : List ℝ) ≠ [] ∧ (0 : ℝ) ≤ 25 ∧ (25 : ℝ) < 50 ∧ ⌊(4 : ℝ) * 25 / 100⌋₊ = 1 := by
  refine ⟨by simp, ?_⟩; norm_num

end Verif.Stats
