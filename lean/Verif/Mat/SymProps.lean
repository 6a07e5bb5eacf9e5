import Verif.Mat.Packed
import Verif.Mat.DenseProps
import Mathlib.Tactic.Linarith

/-! # Properties of the symmetric matrix (C40) -/

set_option autoImplicit false

namespace Verif.Mat.Sym

variable {K : Type}

/-- A symmetric matrix object in a consistent state. -/
def Valid (m : Sym K) : Prop := m.data.length = m.dim * (m.dim + 1) / 2

/-- `m` is a consistent symmetric matrix of dimension `n` whose element `(i, j)` reads `f i j`. -/
def Is (m : Sym K) (n : ℕ) (f : ℕ → ℕ → K) : Prop :=
  Valid m ∧ m.dim = n ∧ ∀ i < n, ∀ j < n, m.get i j = .ret (f i j)

/-! ## The packing -/

theorem tri_succ (i : ℕ) : (i + 1) * (i + 1 + 1) / 2 = i * (i + 1) / 2 + (i + 1) := by
  have : (i + 1) * (i + 1 + 1) = i * (i + 1) + (i + 1) * 2 := by ring
  rw [this, Nat.add_mul_div_right _ _ (by norm_num)]

theorem tri_mono {i j : ℕ} (h : i < j) : i * (i + 1) / 2 + i < j * (j + 1) / 2 := by
  induction j with
  | zero => omega
  | succ j ih =>
    rw [tri_succ]
    rcases Nat.lt_or_ge i j with h1 | h1
    · have := ih h1; omega
    · obtain rfl : i = j := by omega
      omega

theorem lin_eq (i j : ℕ) : linearIndex i j = (max i j) * (max i j + 1) / 2 + min i j := by
  unfold linearIndex
  split
  · next h => rw [max_eq_right (by omega), min_eq_left (by omega)]
  · next h => rw [max_eq_left (by omega), min_eq_right (by omega)]

theorem lin_lt {n i j : ℕ} (hi : i < n) (hj : j < n) : linearIndex i j < n * (n + 1) / 2 := by
  rw [lin_eq]
  have := tri_mono (show max i j < n by omega)
  omega

theorem lin_inj (i j p q : ℕ) :
    linearIndex p q = linearIndex i j ↔ (p = i ∧ q = j) ∨ (p = j ∧ q = i) := by
  rw [lin_eq, lin_eq]
  constructor
  · intro h
    have : max p q = max i j := by
      rcases Nat.lt_trichotomy (max p q) (max i j) with h1 | h1 | h1
      · have := tri_mono h1; omega
      · exact h1
      · have := tri_mono h1; omega
    rw [this] at h
    omega
  · rintro (⟨rfl, rfl⟩ | ⟨rfl, rfl⟩)
    · rfl
    · rw [max_comm, min_comm]

/-! ## Faithful storage -/

/-- **C40 (symmetric).**  Writing `(i, j)` changes exactly `(i, j)` and `(j, i)`. -/
theorem write_read (m : Sym K) (hm : Valid m) (i j : ℕ) (hi : i < m.dim) (hj : j < m.dim) (a : K) :
    ∃ m', m.set i j a = .ret m' ∧ Valid m' ∧ m'.dim = m.dim ∧
      ∀ p < m.dim, ∀ q < m.dim,
        m'.get p q = if (p = i ∧ q = j) ∨ (p = j ∧ q = i) then .ret a else m.get p q := by
  have hlt := lin_lt hi hj
  rw [← hm] at hlt
  refine ⟨{ m with data := m.data.set (linearIndex i j) a }, ?_, ?_, rfl, fun p hp q hq => ?_⟩
  · simp only [set, Outcome.store, if_pos hlt, Outcome.bind_ret]
  · simpa [Valid] using hm
  · simp only [get, Outcome.index, List.getElem?_set]
    by_cases h : linearIndex i j = linearIndex p q
    · rw [if_pos h, if_pos (h ▸ hlt), if_pos ((lin_inj i j p q).1 h.symm)]
    · rw [if_neg h, if_neg (fun h' => h ((lin_inj i j p q).2 h').symm)]

/-- **C40 (symmetric).**  Every element in range can be read, the matrix is symmetric, and `at` reads and writes
the same elements; outside the range it refuses. -/
theorem at_spec (m : Sym K) (hm : Valid m) (i j : ℤ) :
    (0 ≤ i ∧ i < m.dim ∧ 0 ≤ j ∧ j < m.dim →
      ∃ x, m.get i.toNat j.toNat = .ret x ∧ m.get j.toNat i.toNat = .ret x ∧ m.at_ i j = .ret x ∧
        ∀ a, m.setAt i j a = m.set i.toNat j.toNat a) ∧
    (¬(0 ≤ i ∧ i < m.dim ∧ 0 ≤ j ∧ j < m.dim) →
      m.at_ i j = .exn (.mml "MatrixAccessBoundsError") ∧
        ∀ a, m.setAt i j a = .exn (.mml "MatrixAccessBoundsError")) := by
  constructor
  · rintro ⟨h1, h2, h3, h4⟩
    have hn : ¬(i < 0 ∨ i ≥ (m.dim : ℤ) ∨ j < 0 ∨ j ≥ (m.dim : ℤ)) := by omega
    have hlt : linearIndex i.toNat j.toNat < m.data.length := by
      rw [hm]; exact lin_lt (by omega) (by omega)
    have hx : m.get i.toNat j.toNat = .ret (m.data[linearIndex i.toNat j.toNat]) := by
      simp [get, Outcome.index, hlt]
    refine ⟨_, hx, ?_, by rw [at_, if_neg hn, hx], fun a => by rw [setAt, if_neg hn]⟩
    have e : linearIndex j.toNat i.toNat = linearIndex i.toNat j.toNat :=
      (lin_inj _ _ _ _).2 (Or.inr ⟨rfl, rfl⟩)
    rw [← hx, get, get, e]
  · intro h
    have hn : (i < 0 ∨ i ≥ (m.dim : ℤ) ∨ j < 0 ∨ j ≥ (m.dim : ℤ)) := by omega
    exact ⟨by rw [at_, if_pos hn], fun a => by rw [setAt, if_pos hn]⟩

example : Valid (⟨3, [1, 2, 3, 4, 5, 6]⟩ : Sym ℤ) := by simp [Valid]
example : (⟨3, [1, 2, 3, 4, 5, 6]⟩ : Sym ℤ).set 0 2 9 = .ret ⟨3, [1, 2, 3, 9, 5, 6]⟩ := by decide

/-! ## Conversions -/

theorem newFill_spec (n : ℕ) (h : n < 10000) (a : K) :
    ∃ m, newFill (n : ℤ) a = .ret m ∧ Is m n (fun _ _ => a) := by
  rcases Nat.eq_zero_or_pos n with rfl | hn
  · refine ⟨⟨0, []⟩, rfl, by simp [Valid], rfl, ?_⟩
    intro i hi; omega
  · refine ⟨⟨n, List.replicate (numElements n) a⟩, ?_, ?_, rfl, ?_⟩
    · have h1 : numElements n ≤ 50000000 := by
        have := tri_mono (show n < 10000 by omega)
        have e : 10000 * (10000 + 1) / 2 = 50005000 := by norm_num
        have : n * (n + 1) / 2 ≤ 9999 * (9999 + 1) / 2 := by
          rcases Nat.lt_or_ge n 9999 with h | h
          · have := tri_mono h; omega
          · rw [show n = 9999 by omega]
        unfold numElements
        omega
      rw [newFill, if_neg (by omega), validate, if_neg (by omega), if_neg (by omega)]
      simp only [Int.toNat_natCast]
      rw [if_neg (by omega)]
      rfl
    · simp [Valid, numElements]
    · intro i hi j hj
      have := lin_lt hi hj
      simp only [get, Outcome.index, List.getElem?_replicate]
      rw [if_pos (by unfold numElements; omega)]

/-- Filling the lower triangle through `operator()`. -/
theorem fill_lower (n : ℕ) (s : Sym K) (g h : ℕ → ℕ → K) (hs : Is s n g)
    (body : Sym K → ℕ → ℕ → Outcome (Sym K))
    (hb : ∀ i < n, ∀ j ≤ i, ∀ m, body m i j = m.set i j (h i j)) :
    ∃ t, forRange n s (fun m i => forRange (i + 1) m (fun m j => body m i j)) = .ret t ∧
      Is t n (fun i j => h (max i j) (min i j)) := by
  obtain ⟨t, ht, h1, h2, h3⟩ := forRange_rule
    (fun k (m : Sym K) => Valid m ∧ m.dim = n ∧ ∀ p < k, ∀ q ≤ p, m.get p q = .ret (h p q)) n s
    (fun m i => forRange (i + 1) m (fun m j => body m i j))
    ⟨hs.1, hs.2.1, fun p hp => by omega⟩
    (by
      rintro i m hi ⟨hv, hd, hg⟩
      obtain ⟨t, ht, h1, h2, h3, h4⟩ := forRange_rule
        (fun k (m : Sym K) => Valid m ∧ m.dim = n ∧ (∀ p < i, ∀ q ≤ p, m.get p q = .ret (h p q)) ∧
          ∀ q < k, m.get i q = .ret (h i q)) (i + 1) m (fun m j => body m i j)
        ⟨hv, hd, hg, fun q hq => by omega⟩
        (by
          rintro j m hj ⟨hv, hd, hg, hg'⟩
          obtain ⟨m', e, hv', hd', hr⟩ := write_read m hv i j (by omega) (by omega) (h i j)
          refine ⟨m', by rw [hb i hi j (by omega), e], hv', by omega, fun p hp q hq => ?_, fun q hq => ?_⟩
          · rw [hr p (by omega) q (by omega), if_neg (by omega), hg p hp q hq]
          · rw [hr i (by omega) q (by omega)]
            by_cases hqj : q = j
            · rw [if_pos (Or.inl ⟨rfl, hqj⟩), hqj]
            · rw [if_neg (by omega), hg' q (by omega)])
      refine ⟨t, ht, h1, h2, fun p hp q hq => ?_⟩
      rcases Nat.lt_or_ge p i with h5 | h5
      · exact h3 p h5 q hq
      · obtain rfl : p = i := by omega
        exact h4 q (by omega))
  refine ⟨t, ht, h1, h2, fun i hi j hj => ?_⟩
  rw [← h3 (max i j) (by omega) (min i j) (by omega)]
  simp only [get]
  congr 1
  exact (lin_inj _ _ _ _).2 (by omega)

/-- **C40 (symmetric).**  `FromLower` takes the lower triangle, `FromUpper` the upper one, and `FromFullMatrix`
the average of the two; none of them fails on a square matrix below the documented limit. -/
theorem from_spec [Field K] (m : Dense K) (n : ℕ) (f : ℕ → ℕ → K) (hm : Dense.Is m n n f) (hn : n < 10000) :
    (∃ s, fromLower m = .ret s ∧ Is s n (fun i j => f (max i j) (min i j))) ∧
    (∃ s, fromUpper m = .ret s ∧ Is s n (fun i j => f (min i j) (max i j))) ∧
    (∃ s, fromFull m = .ret s ∧ Is s n (fun i j => (f i j + f j i) / 2)) := by
  obtain ⟨⟨hv, hsh⟩, hr, hc, hg⟩ := hm
  have hsq : ¬ m.rows ≠ m.cols := by omega
  rcases Nat.eq_zero_or_pos n with rfl | hpos
  · have e : Is (⟨0, []⟩ : Sym K) 0 (fun _ _ => 0) := ⟨by simp [Valid], rfl, fun i hi => by omega⟩
    have e2 : ∀ f : ℕ → ℕ → K, Is (⟨0, []⟩ : Sym K) 0 f := fun f => ⟨by simp [Valid], rfl, fun i hi => by omega⟩
    refine ⟨⟨_, by rw [fromLower, if_neg hsq, if_pos hr], e2 _⟩, ⟨_, by rw [fromUpper, if_neg hsq, if_pos hr], e2 _⟩,
      ⟨_, by rw [fromFull, if_neg hsq, if_pos hr], e2 _⟩⟩
  · have hne : ¬ m.rows = 0 := by omega
    obtain ⟨s0, e0, h0⟩ := newFill_spec n hn (0 : K)
    refine ⟨?_, ?_, ?_⟩
    · obtain ⟨t, ht, hI⟩ := fill_lower n s0 _ f h0 (fun r i j => do
        let x ← m.get i j
        r.set i j x) (fun i hi j hj r => by rw [hg i hi j (by omega), Outcome.bind_ret])
      exact ⟨t, by rw [fromLower, if_neg hsq, if_neg hne, hr, e0]; exact ht, hI⟩
    · -- rows of the upper triangle: invariant over the written pairs
      obtain ⟨t, ht, h1, h2, h3⟩ := forRange_rule
        (fun k (s : Sym K) => Valid s ∧ s.dim = n ∧
          ∀ p < k, ∀ q, p ≤ q → q < n → s.get q p = .ret (f p q)) n s0
        (fun r i => forFromTo i n r (fun r j => do
          let x ← m.get i j
          r.set j i x))
        ⟨h0.1, h0.2.1, fun p hp => by omega⟩
        (by
          rintro i s hi ⟨hv, hd, hg1⟩
          obtain ⟨t, ht, h1, h2, h3, h4⟩ := forFromTo_rule
            (fun k (s : Sym K) => Valid s ∧ s.dim = n ∧
              (∀ p < i, ∀ q, p ≤ q → q < n → s.get q p = .ret (f p q)) ∧
              ∀ q, i ≤ q → q < k → s.get q i = .ret (f i q)) i n (by omega) s (fun r j => do
                let x ← m.get i j
                r.set j i x)
            ⟨hv, hd, hg1, fun q _ hq => by omega⟩
            (by
              rintro j s h1 h2 ⟨hv, hd, hg1, hg2⟩
              obtain ⟨s', e, hv', hd', hr'⟩ := write_read s hv j i (by omega) (by omega) (f i j)
              refine ⟨s', by rw [hg i hi j h2, Outcome.bind_ret, e], hv', by omega, fun p hp q hq hq' => ?_,
                fun q hq hq' => ?_⟩
              · rw [hr' q (by omega) p (by omega), if_neg (by omega), hg1 p hp q hq hq']
              · rw [hr' q (by omega) i (by omega)]
                by_cases hqj : q = j
                · rw [if_pos (Or.inl ⟨hqj, rfl⟩), hqj]
                · rw [if_neg (by omega), hg2 q hq (by omega)])
          refine ⟨t, ht, h1, h2, fun p hp q hq hq' => ?_⟩
          rcases Nat.lt_or_ge p i with h5 | h5
          · exact h3 p h5 q hq hq'
          · obtain rfl : p = i := by omega
            exact h4 q hq hq')
      refine ⟨t, by rw [fromUpper, if_neg hsq, if_neg hne, hr, e0]; exact ht, h1, h2, fun i hi j hj => ?_⟩
      rw [← h3 (min i j) (by omega) (max i j) (by omega) (by omega)]
      simp only [get]
      congr 1
      exact (lin_inj _ _ _ _).2 (by omega)
    · obtain ⟨t, ht, hI⟩ := fill_lower n s0 _ (fun i j => (f i j + f j i) / 2) h0 (fun r i j => do
        let x ← m.get i j
        let y ← m.get j i
        r.set i j ((x + y) / 2)) (fun i hi j hj r => by
          rw [hg i hi j (by omega), Outcome.bind_ret, hg j (by omega) i hi, Outcome.bind_ret])
      refine ⟨t, by rw [fromFull, if_neg hsq, if_neg hne, hr, e0]; exact ht, hI.1, hI.2.1, fun i hi j hj => ?_⟩
      rw [hI.2.2 i hi j hj]
      show Outcome.ret ((f (max i j) (min i j) + f (min i j) (max i j)) / 2) = Outcome.ret ((f i j + f j i) / 2)
      rcases le_total i j with h | h
      · rw [max_eq_right h, min_eq_left h, add_comm]
      · rw [max_eq_left h, min_eq_right h]

theorem shape_of_dim {n : ℕ} (h : n ≤ 10000) : Dense.Shape n n := by
  rcases Nat.eq_zero_or_pos n with rfl | hp
  · exact Or.inl ⟨rfl, rfl⟩
  · exact Or.inr ⟨hp, hp, by omega, by omega, by
      calc n * n ≤ 10000 * 10000 := Nat.mul_le_mul h h
        _ = 100000000 := by norm_num⟩

/-- A double loop that writes every element of a fresh dense matrix. -/
theorem fill_dense [Zero K] {r c : ℕ} (hs : Dense.Shape r c) (h : ℕ → ℕ → K)
    (body : Dense K → ℕ → ℕ → Outcome (Dense K))
    (hb : ∀ i < r, ∀ j < c, ∀ m, body m i j = m.set i j (h i j)) :
    ∃ d, (Dense.new (r : ℤ) (c : ℤ) >>= fun d => forRange r d (fun d i => forRange c d (fun d j => body d i j)))
      = .ret d ∧ Dense.Is d r c h := by
  rw [Dense.new_spec hs, Outcome.bind_ret, Dense.forRange_row r _ h le_rfl]
  · refine ⟨_, rfl, ?_⟩
    have : Dense.ofFn r c (fun i j => if i < r then h i j else 0) = Dense.ofFn r c h :=
      Dense.ofFn_congr fun i hi j _ => by rw [if_pos hi]
    rw [this]
    exact Dense.is_ofFn hs h
  · intro i hi g hg
    rw [Dense.forRange_cols c i g (fun j => h i j) hi le_rfl _ (fun j hj m => hb i hi j hj m)]
    congr 1
    exact Dense.ofFn_congr fun p _ q hq => by rw [if_pos hq]

/-- **C40 (symmetric).**  `GetAsMatrix` has the same elements. -/
theorem toDense_spec [Zero K] (s : Sym K) (n : ℕ) (f : ℕ → ℕ → K) (hs : Is s n f) (hn : n ≤ 10000) :
    ∃ d, s.toDense = .ret d ∧ Dense.Is d n n f := by
  obtain ⟨hv, rfl, hg⟩ := hs
  by_cases h0 : s.dim = 0
  · refine ⟨⟨0, 0, []⟩, by rw [toDense, if_pos h0], ⟨rfl, Or.inl ⟨rfl, rfl⟩⟩, h0.symm, h0.symm, ?_⟩
    intro i hi; omega
  · obtain ⟨d, hd, hI⟩ := fill_dense (shape_of_dim hn) f (fun r i j => do
      let x ← s.get i j
      r.set i j x) (fun i hi j hj r => by rw [hg i hi j hj, Outcome.bind_ret])
    exact ⟨d, by rw [toDense, if_neg h0]; exact hd, hI⟩

/-- **C40 (symmetric).**  Packing a symmetric dense matrix and unpacking it gives the matrix back. -/
theorem roundtrip [Field K] (m : Dense K) (n : ℕ) (f : ℕ → ℕ → K) (hm : Dense.Is m n n f) (hn : n < 10000)
    (hsym : ∀ i < n, ∀ j < n, f i j = f j i) :
    (fromLower m >>= fun s => s.toDense) = .ret m ∧ (fromUpper m >>= fun s => s.toDense) = .ret m := by
  obtain ⟨⟨s, e, hs⟩, ⟨s', e', hs'⟩, _⟩ := from_spec m n f hm hn
  obtain ⟨d, hd, hI⟩ := toDense_spec s n _ hs (by omega)
  obtain ⟨d', hd', hI'⟩ := toDense_spec s' n _ hs' (by omega)
  rw [e, Outcome.bind_ret, hd, e', Outcome.bind_ret, hd']
  obtain ⟨hsh, rfl⟩ := Dense.is_unique.1 hm
  obtain ⟨_, rfl⟩ := Dense.is_unique.1 hI
  obtain ⟨_, rfl⟩ := Dense.is_unique.1 hI'
  constructor <;> congr 1 <;> refine Dense.ofFn_congr fun i hi j hj => ?_
  · rcases le_total i j with h | h
    · rw [max_eq_right h, min_eq_left h, hsym j hj i hi]
    · rw [max_eq_left h, min_eq_right h]
  · rcases le_total i j with h | h
    · rw [max_eq_right h, min_eq_left h]
    · rw [max_eq_left h, min_eq_right h, hsym j hj i hi]

/-- **C40 (symmetric).**  Growing or shrinking with preservation keeps the common elements and zeroes the rest. -/
theorem resize_preserves [Zero K] (s : Sym K) (n n' : ℕ) (f : ℕ → ℕ → K) (hs : Is s n f) (hn : n' < 10000) :
    ∃ t, s.resizePreserve (n' : ℕ) = .ret t ∧ Is t n' (fun i j => if i < n ∧ j < n then f i j else 0) := by
  obtain ⟨hv, rfl, hg⟩ := hs
  rw [resizePreserve]
  by_cases h1 : n' = s.dim
  · refine ⟨s, by rw [if_pos (by omega)], hv, h1.symm, fun i hi j hj => ?_⟩
    beta_reduce
    rw [if_pos (by omega), hg i (by omega) j (by omega)]
  rw [if_neg (by omega)]
  by_cases h2 : n' = 0
  · subst h2
    refine ⟨_, by rw [if_pos (by simp)], by simp [Valid], rfl, ?_⟩
    intro i hi; omega
  rw [if_neg (by omega)]
  obtain ⟨z, ez, hz⟩ := newFill_spec n' hn (0 : K)
  have hval : validate (n' : ℤ) = .ret () ∧ z = ⟨n', List.replicate (numElements n') 0⟩ := by
    rw [newFill, if_neg (by omega)] at ez
    cases hq : validate (n' : ℤ) with
    | ret u =>
      rw [hq, Outcome.bind_ret] at ez
      exact ⟨rfl, (Outcome.ret.inj ez).symm⟩
    | exn e => rw [hq] at ez; cases ez
    | ub => rw [hq] at ez; cases ez
  obtain ⟨hval, rfl⟩ := hval
  rw [hval, Outcome.bind_ret]
  simp only [Int.toNat_natCast]
  by_cases h3 : s.dim = 0
  · refine ⟨_, by rw [if_pos h3], hz.1, hz.2.1, fun i hi j hj => ?_⟩
    beta_reduce
    rw [if_neg (by omega), hz.2.2 i hi j hj]
  rw [if_neg h3]
  obtain ⟨d, hd, g1, g2⟩ := forRange_rule
    (fun k (d : List K) => Valid (⟨n', d⟩ : Sym K) ∧ ∀ p < n', ∀ q ≤ p,
      (⟨n', d⟩ : Sym K).get p q = .ret (if p < k then f p q else 0)) (min s.dim n')
    (List.replicate (numElements n') (0 : K)) (fun d i =>
        forRange (i + 1) d (fun d j => do
          let x ← Outcome.index s.data (linearIndex i j)
          Outcome.store d (i * (i + 1) / 2 + j) x))
    ⟨hz.1, fun p hp q hq => by rw [if_neg (by omega)]; exact hz.2.2 p hp q (by omega)⟩
    (by
      rintro i d hi ⟨hv', hg'⟩
      obtain ⟨t, ht, e1, e2⟩ := forRange_rule
        (fun k (d : List K) => Valid (⟨n', d⟩ : Sym K) ∧ ∀ p < n', ∀ q ≤ p,
          (⟨n', d⟩ : Sym K).get p q = .ret (if p < i ∨ (p = i ∧ q < k) then f p q else 0)) (i + 1) d
        (fun d j => do
          let x ← Outcome.index s.data (linearIndex i j)
          Outcome.store d (i * (i + 1) / 2 + j) x)
        ⟨hv', fun p hp q hq => by
          rw [hg' p hp q hq]
          congr 1
          by_cases h : p < i
          · rw [if_pos h, if_pos (by omega)]
          · rw [if_neg h, if_neg (by omega)]⟩
        (by
          rintro j d hj ⟨hv', hg'⟩
          obtain ⟨t, et, hvt, hdt, hrt⟩ := write_read (⟨n', d⟩ : Sym K) hv' i j (by simp; omega) (by simp; omega) (f i j)
          have hx : Outcome.index s.data (linearIndex i j) = .ret (f i j) := hg i (by omega) j (by omega)
          have hlin : i * (i + 1) / 2 + j = linearIndex i j := by
            rw [linearIndex, if_neg (by omega)]
          have het : t = ⟨n', t.data⟩ := by
            cases t; simp only at hdt; rw [hdt]
          have hst : Outcome.store d (linearIndex i j) (f i j) = .ret t.data := by
            simp only [set] at et
            cases hq : Outcome.store d (linearIndex i j) (f i j) with
            | ret u => rw [hq, Outcome.bind_ret] at et; rw [← Outcome.ret.inj et]
            | exn e => rw [hq] at et; cases et
            | ub => rw [hq] at et; cases et
          refine ⟨t.data, by rw [hx, Outcome.bind_ret, hlin, hst], het ▸ hvt, fun p hp q hq => ?_⟩
          rw [← het, hrt p (by simpa using hp) q (by simp; omega)]
          by_cases hpq : p = i ∧ q = j
          · obtain ⟨rfl, rfl⟩ := hpq
            rw [if_pos (Or.inl ⟨rfl, rfl⟩), if_pos (by omega)]
          · rw [if_neg (by omega), hg' p hp q hq]
            congr 1
            by_cases h : p < i ∨ (p = i ∧ q < j)
            · rw [if_pos h, if_pos (by omega)]
            · rw [if_neg h, if_neg (by omega)])
      refine ⟨t, ht, e1, fun p hp q hq => ?_⟩
      rw [e2 p hp q hq]
      congr 1
      by_cases h : p < i + 1
      · rw [if_pos h, if_pos (by omega)]
      · rw [if_neg h, if_neg (by omega)])
  refine ⟨⟨n', d⟩, by rw [hd, Outcome.bind_ret], g1, rfl, fun i hi j hj => ?_⟩
  have e : (⟨n', d⟩ : Sym K).get i j = (⟨n', d⟩ : Sym K).get (max i j) (min i j) := by
    simp only [get]
    congr 1
    exact (lin_inj _ _ _ _).2 (by omega)
  rw [e, g2 (max i j) (by omega) (min i j) (by omega)]
  congr 1
  beta_reduce
  by_cases h : i < s.dim ∧ j < s.dim
  · rw [if_pos h, if_pos (by omega)]
    have h5 := hg (max i j) (by omega) (min i j) (by omega)
    have h6 := hg i h.1 j h.2
    have e2 : s.get i j = s.get (max i j) (min i j) := by
      simp only [get]
      congr 1
      exact (lin_inj _ _ _ _).2 (by omega)
    rw [e2, h5] at h6
    exact Outcome.ret.inj h6
  · rw [if_neg h, if_neg (by omega)]

/-- **C40/C41 (symmetric).**  Products with a vector and of two symmetric matrices. -/
theorem mul_spec [CommRing K] (s t : Sym K) (n : ℕ) (f g : ℕ → ℕ → K) (hs : Is s n f) (ht : Is t n g)
    (hn : n ≤ 10000) :
    (∀ v : ℕ → K, s.mulVec (tab n v) = .ret (tab n (fun i => ∑ j ∈ Finset.range n, f i j * v j))) ∧
    (∃ d, s.mul t = .ret d ∧ Dense.Is d n n (fun i j => ∑ k ∈ Finset.range n, f i k * g k j)) := by
  obtain ⟨hv, rfl, hg⟩ := hs
  obtain ⟨hv', hd', hg'⟩ := ht
  constructor
  · intro v
    rw [mulVec, if_neg (by simp), replicate_eq_tab, forRange_fill s.dim s.dim le_rfl _
      (fun i => ∑ j ∈ Finset.range s.dim, f i j * v j)]
    · congr 1
      exact tab_congr fun i hi => by rw [if_pos hi]
    · intro i hi d
      rw [forRange_sum s.dim 0 _ (fun t => f i t * v t), Outcome.bind_ret, zero_add]
      intro t ht s'
      rw [hg i hi t ht, Outcome.bind_ret, index_tab _ ht, Outcome.bind_ret]
  · obtain ⟨d, hd, hI⟩ := fill_dense (shape_of_dim hn) (fun i j => ∑ k ∈ Finset.range s.dim, f i k * g k j)
      (fun r i j => do
        let x ← forRange s.dim (0 : K) (fun x k => do
          let a ← s.get i k
          let b ← t.get k j
          .ret (x + a * b))
        r.set i j x) (fun i hi j hj r => by
          rw [forRange_sum s.dim 0 _ (fun k => f i k * g k j), Outcome.bind_ret, zero_add]
          intro k hk x
          rw [hg i hi k hk, Outcome.bind_ret, hg' k hk j hj, Outcome.bind_ret])
    exact ⟨d, by rw [mul, if_neg (by omega)]; exact hd, hI⟩

/-- **C40 (symmetric).**  The constructors: which dimensions are accepted, and the elements of the result. -/
theorem create_spec [Zero K] (dim : ℤ) :
    (dim < 0 ∨ dim > 10000 → ∀ a : K, newFill dim a = .exn (.mml "MatrixDimensionError")) ∧
    (dim = 10000 → ∀ a : K, newFill dim a = .exn (.mml "MatrixAllocationError")) ∧
    (0 ≤ dim ∧ dim < 10000 → ∀ a : K, ∃ m, newFill dim a = .ret m ∧ Is m dim.toNat (fun _ _ => a)) ∧
    (0 ≤ dim ∧ dim < 10000 → ∀ v : List K,
      (v.length ≠ dim.toNat * (dim.toNat + 1) / 2 → fromList dim v = .exn (.mml "MatrixDimensionError")) ∧
      (v.length = dim.toNat * (dim.toNat + 1) / 2 → ∃ m, fromList dim v = .ret m ∧
        Is m dim.toNat (fun i j => v.getD (max i j * (max i j + 1) / 2 + min i j) 0))) := by
  have fill : 0 ≤ dim ∧ dim < 10000 → ∀ a : K, ∃ m, newFill dim a = .ret m ∧ Is m dim.toNat (fun _ _ => a) := by
    intro h a
    have := newFill_spec dim.toNat (by omega) a
    rwa [Int.toNat_of_nonneg h.1] at this
  refine ⟨fun h a => ?_, fun h a => ?_, fill, fun h v => ⟨fun hv => ?_, fun hv => ?_⟩⟩
  · rw [newFill, if_neg (by omega), validate]
    by_cases h1 : dim < 0
    · rw [if_pos h1]; rfl
    · rw [if_neg h1, if_pos (by omega)]; rfl
  · subst h
    rfl
  · rw [fromList]
    by_cases h0 : dim = 0
    · subst h0
      rw [if_pos rfl, if_pos (by simpa using hv)]
    · obtain ⟨m, hm, _⟩ := fill h 0
      rw [newFill, if_neg h0] at hm
      rw [if_neg h0]
      cases hq : validate dim with
      | ret u => rw [Outcome.bind_ret, if_pos (show v.length ≠ numElements dim.toNat from hv)]
      | exn e => rw [hq] at hm; cases hm
      | ub => rw [hq] at hm; cases hm
  · have key : Is (⟨dim.toNat, v⟩ : Sym K) dim.toNat
        (fun i j => v.getD (max i j * (max i j + 1) / 2 + min i j) 0) := by
      refine ⟨hv, rfl, fun i hi j hj => ?_⟩
      have hlt := lin_lt hi hj
      rw [← hv] at hlt
      simp only [get, Outcome.index]
      rw [← lin_eq]
      simp [hlt]
    refine ⟨⟨dim.toNat, v⟩, ?_, key⟩
    rw [fromList]
    by_cases h0 : dim = 0
    · subst h0
      have : v = [] := List.length_eq_zero_iff.1 (by simpa using hv)
      subst this
      rfl
    · obtain ⟨m, hm, _⟩ := fill h 0
      rw [newFill, if_neg h0] at hm
      rw [if_neg h0]
      cases hq : validate dim with
      | ret u => rw [Outcome.bind_ret, if_neg (show ¬ v.length ≠ numElements dim.toNat from not_not.2 hv)]
      | exn e => rw [hq] at hm; cases hm
      | ub => rw [hq] at hm; cases hm

/-- **C41 (symmetric).**  The sum is entrywise; different dimensions are refused. -/
theorem add_spec [AddZeroClass K] (s t : Sym K) (n n' : ℕ) (f g : ℕ → ℕ → K) (hs : Is s n f) (ht : Is t n' g)
    (hn : n < 10000) :
    (n ≠ n' → s.add t = .exn (.mml "MatrixDimensionError")) ∧
    (n = n' → ∃ u, s.add t = .ret u ∧ Is u n (fun i j => f i j + g i j)) := by
  obtain ⟨hv, rfl, hg⟩ := hs
  obtain ⟨hv', rfl, hg'⟩ := ht
  constructor
  · intro h; rw [add, if_pos h]
  · intro h
    obtain ⟨z, ez, hz⟩ := newFill_spec s.dim hn (0 : K)
    have hz' : z.data.length = s.data.length := by
      have h1 := hz.1
      rw [Valid, hz.2.1] at h1
      rw [h1, hv]
    have ht' : t.data.length = s.data.length := by rw [hv, h, hv']
    obtain ⟨c, ec⟩ : ∃ c, z.data = tab s.data.length c := ⟨_, hz' ▸ eq_tab z.data 0⟩
    obtain ⟨a, ea⟩ : ∃ a, s.data = tab s.data.length a := ⟨_, eq_tab _ 0⟩
    obtain ⟨b, eb⟩ : ∃ b, t.data = tab s.data.length b := ⟨_, ht' ▸ eq_tab t.data 0⟩
    refine ⟨⟨s.dim, tab s.data.length (fun i => a i + b i)⟩, ?_, ⟨by simpa [Valid] using hv, rfl, fun i hi j hj => ?_⟩⟩
    · rw [add, if_neg (by omega), ez, Outcome.bind_ret, ec, forRange_fill _ _ le_rfl _ (fun i => a i + b i),
        Outcome.bind_ret, hz.2.1]
      · congr 2
        exact tab_congr fun i hi => by rw [if_pos hi]
      · intro i hi r
        rw [ea, index_tab _ (by simpa using hi), Outcome.bind_ret, eb, index_tab _ hi, Outcome.bind_ret]
    · have hlt := lin_lt hi hj
      rw [← hv] at hlt
      have e1 := hg i hi j hj
      have e2 := hg' i (by omega) j (by omega)
      rw [get, ea, index_tab _ hlt] at e1
      rw [get, eb, index_tab _ hlt] at e2
      rw [get, index_tab _ hlt, Outcome.ret.inj e1, Outcome.ret.inj e2]

example : Is (⟨2, [1, 2, 3]⟩ : Sym ℤ) 2 (fun i j => i + j + 1) := ⟨by simp [Valid], rfl, by decide⟩
example : (⟨2, [1, 2, 3]⟩ : Sym ℤ).toDense = .ret ⟨2, 2, [1, 2, 2, 3]⟩ := by decide
example : (⟨2, [1, 2, 3]⟩ : Sym ℤ).resizePreserve 3 = .ret ⟨3, [1, 2, 3, 0, 0, 0]⟩ := by decide

end Verif.Mat.Sym
