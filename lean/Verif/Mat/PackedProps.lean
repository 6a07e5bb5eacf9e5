import Verif.Mat.SymProps

/-! # Properties of the band, tridiagonal and three-dimensional storage (C40) -/

set_option autoImplicit false

namespace Verif.Mat

variable {K : Type}

namespace Band

/-- A band matrix object in a consistent state, as its constructor leaves it. -/
def Valid (m : Band K) : Prop :=
  Dense.Valid m.data ∧ m.data.rows = m.dim ∧ m.data.cols = m.m1 + m.m2 + 1

/-- Element `(i, j)` lies within the band. -/
def InBand (m : Band K) (i j : ℕ) : Prop := i ≤ j + m.m1 ∧ j ≤ i + m.m2

/-- `m` is a consistent band matrix of dimension `n` whose element `(i, j)` reads `f i j`. -/
def Is [Zero K] (m : Band K) (n : ℕ) (f : ℕ → ℕ → K) : Prop :=
  Valid m ∧ m.dim = n ∧ ∀ i < n, ∀ j < n, m.get i j = .ret (f i j)

/-- **C40 (band).**  Inside the band a write changes exactly that element; outside it is refused, and the
element reads zero. -/
theorem write_read [Zero K] (m : Band K) (hm : Valid m) (i j : ℕ) (hi : i < m.dim) (hj : j < m.dim) (a : K) :
    (InBand m i j → ∃ m', m.set i j a = .ret m' ∧ Valid m' ∧
      m'.dim = m.dim ∧ m'.m1 = m.m1 ∧ m'.m2 = m.m2 ∧
      ∀ p < m.dim, ∀ q < m.dim, m'.get p q = if p = i ∧ q = j then .ret a else m.get p q) ∧
    (¬ InBand m i j → m.set i j a = .exn (.mml "MatrixAccessBoundsError") ∧ m.get i j = .ret 0) := by
  obtain ⟨hv, hr, hc⟩ := hm
  constructor
  · rintro ⟨h1, h2⟩
    obtain ⟨d, hd, hv', hr', hc', hg⟩ := Dense.write_read m.data hv i (j + m.m1 - i) (by omega) (by omega) a
    refine ⟨{ m with data := d }, ?_, ⟨hv', by simp only; omega, by simp only; omega⟩, rfl, rfl, rfl,
      fun p hp q hq => ?_⟩
    · rw [set, if_neg (by omega), hd, Outcome.bind_ret]
    · simp only [get]
      by_cases hb : p > q + m.m1 ∨ q > p + m.m2
      · rw [if_pos hb, if_pos hb, if_neg (by omega)]
      · rw [if_neg hb, if_neg hb, hg p (by omega) _ (by omega)]
        by_cases hpq : p = i ∧ q = j
        · rw [if_pos hpq, if_pos (by omega)]
        · rw [if_neg hpq, if_neg (by omega)]
  · intro h
    have h' : i > j + m.m1 ∨ j > i + m.m2 := by unfold InBand at h; omega
    exact ⟨by rw [set, if_pos h'], by rw [get, if_pos h']⟩

/-- **C40 (band).**  Every element in range can be read. -/
theorem get_total [Zero K] (m : Band K) (hm : Valid m) : ∃ f, Is m m.dim f := by
  obtain ⟨hv, hr, hc⟩ := hm
  have : ∀ i j, ∃ x, i < m.dim → j < m.dim → m.get i j = .ret x := by
    intro i j
    by_cases h : i < m.dim ∧ j < m.dim
    · by_cases hb : i > j + m.m1 ∨ j > i + m.m2
      · exact ⟨0, fun _ _ => by rw [get, if_pos hb]⟩
      · obtain ⟨r, c, f, hs, e⟩ := hv.exists_ofFn
        refine ⟨f i (j + m.m1 - i), fun _ _ => ?_⟩
        rw [e, Dense.ofFn_rows] at hr
        rw [e, Dense.ofFn_cols] at hc
        rw [get, if_neg hb, e]
        exact Dense.get_ofFn f (by omega) (by omega)
    · exact ⟨0, fun h1 h2 => absurd ⟨h1, h2⟩ h⟩
  choose f hf using this
  exact ⟨f, ⟨hv, hr, hc⟩, rfl, fun i hi j hj => hf i j hi hj⟩

/-- **C40/C41 (band).**  The product with a vector is the full matrix-vector product. -/
theorem mulVec_spec [CommRing K] (m : Band K) (n : ℕ) (f : ℕ → ℕ → K) (hm : Is m n f) (x : ℕ → K) :
    m.mulVec (tab n x) = .ret (tab n (fun i => ∑ j ∈ Finset.range n, f i j * x j)) := by
  obtain ⟨hv, rfl, hg⟩ := hm
  rw [mulVec, if_neg (by simp), replicate_eq_tab, forRange_fill m.dim m.dim le_rfl _
    (fun i => ∑ j ∈ Finset.range m.dim, f i j * x j)]
  · congr 1
    exact tab_congr fun i hi => by rw [if_pos hi]
  · intro i hi d
    rw [forFromTo_sum _ _ 0 _ (fun t => f i t * x t), Outcome.bind_ret, zero_add]
    · congr 1
      refine Finset.sum_subset_zero_on_sdiff (fun t ht => ?_) (fun t ht => ?_) (fun _ _ => rfl)
      · simp only [Finset.mem_Ico, Finset.mem_range] at ht ⊢; omega
      · simp only [Finset.mem_sdiff, Finset.mem_range, Finset.mem_Ico] at ht
        have e := hg i hi t ht.1
        rw [get, if_pos (by omega)] at e
        rw [← Outcome.ret.inj e, zero_mul]
    · intro t h1 h2 s
      rw [hg i hi t (by omega), Outcome.bind_ret, index_tab _ (by omega), Outcome.bind_ret]

/-- **C40 (band).**  `ToFullMatrix` has the same elements. -/
theorem toDense_spec [Zero K] (m : Band K) (n : ℕ) (f : ℕ → ℕ → K) (hm : Is m n f) (hn : n ≤ 10000) :
    ∃ d, m.toDense = .ret d ∧ Dense.Is d n n f := by
  obtain ⟨hv, rfl, hg⟩ := hm
  exact Sym.fill_dense (Sym.shape_of_dim hn) f (fun r i j => do
      let x ← m.get i j
      r.set i j x) (fun i hi j hj r => by rw [hg i hi j hj, Outcome.bind_ret])

/-- **C40 (band).**  `Transpose` is the transposed matrix, with the two bandwidths exchanged. -/
theorem transpose_spec [Zero K] (m : Band K) (n : ℕ) (f : ℕ → ℕ → K) (hm : Is m n f) :
    ∃ t, m.transpose = .ret t ∧ t.m1 = m.m2 ∧ t.m2 = m.m1 ∧ Is t n (fun i j => f j i) := by
  obtain ⟨⟨⟨hlen, hsh⟩, hr, hc⟩, rfl, hg⟩ := hm
  have hs : Dense.Shape m.dim (m.m1 + m.m2 + 1) := by rwa [hr, hc] at hsh
  have hdim : 0 < m.dim := by
    rcases hs with h | h <;> omega
  have hget : ∀ i < m.dim, ∀ j < m.dim, InBand m i j → m.data.get i (j + m.m1 - i) = .ret (f i j) := by
    rintro i hi j hj ⟨h1, h2⟩
    have := hg i hi j hj
    rwa [get, if_neg (by omega)] at this
  obtain ⟨t, ht, F, rfl, hF⟩ := forRange_rule
    (fun k (t : Dense K) => ∃ F, t = Dense.ofFn m.dim (m.m1 + m.m2 + 1) F ∧
      ∀ p < k, ∀ q < m.dim, InBand m p q → F q (p + m.m2 - q) = f p q)
    m.dim (Dense.ofFn m.dim (m.m1 + m.m2 + 1) (fun _ _ => (0 : K)))
    (fun t i =>
      forFromTo (i - m.m1) (min (m.dim - 1) (i + m.m2) + 1) t (fun t j => do
        let x ← m.data.get i (j + m.m1 - i)
        t.set j (i + m.m2 - j) x))
    ⟨_, rfl, fun p hp => by omega⟩
    (by
      rintro i _ hi ⟨F, rfl, hF⟩
      obtain ⟨t, ht, G, rfl, hG1, hG2⟩ := forFromTo_rule
        (fun k (t : Dense K) => ∃ F, t = Dense.ofFn m.dim (m.m1 + m.m2 + 1) F ∧
          (∀ p < i, ∀ q < m.dim, InBand m p q → F q (p + m.m2 - q) = f p q) ∧
          ∀ q < k, InBand m i q → F q (i + m.m2 - q) = f i q)
        (i - m.m1) (min (m.dim - 1) (i + m.m2) + 1) (by omega) (Dense.ofFn m.dim (m.m1 + m.m2 + 1) F)
        (fun t j => do
          let x ← m.data.get i (j + m.m1 - i)
          t.set j (i + m.m2 - j) x)
        ⟨F, rfl, hF, fun q hq hb => by unfold InBand at hb; omega⟩
        (by
          rintro j _ h1 h2 ⟨F, rfl, hF1, hF2⟩
          refine ⟨_, by rw [hget i hi j (by omega) ⟨by omega, by omega⟩, Outcome.bind_ret,
            Dense.set_ofFn _ (by omega) (by omega)], _, rfl, fun p hp q hq hb => ?_, fun q hq hb => ?_⟩
          · beta_reduce
            have := hF1 p hp q hq hb
            unfold InBand at hb
            rw [if_neg (by omega), this]
          · beta_reduce
            by_cases hqj : q = j
            · subst hqj; rw [if_pos ⟨rfl, rfl⟩]
            · rw [if_neg (by omega), hF2 q (by omega) hb])
      refine ⟨_, ht, G, rfl, fun p hp q hq hb => ?_⟩
      rcases Nat.lt_or_ge p i with h | h
      · exact hG1 p h q hq hb
      · obtain rfl : p = i := by omega
        exact hG2 q (by unfold InBand at hb; omega) hb)
  refine ⟨⟨m.dim, m.m2, m.m1, Dense.ofFn m.dim (m.m1 + m.m2 + 1) F⟩, ?_, rfl, rfl,
    ⟨Dense.valid_ofFn hs F, rfl, by simp only [Dense.ofFn_cols]; omega⟩, rfl, fun i hi j hj => ?_⟩
  · rw [transpose, Dense.new_spec hs, Outcome.bind_ret, ht, Outcome.bind_ret, new, if_neg]
    simp only [Dense.ofFn_rows, Dense.ofFn_cols]; omega
  · simp only [get]
    by_cases hb : i > j + m.m2 ∨ j > i + m.m1
    · rw [if_pos hb]
      have := hg j hj i hi
      rw [get, if_pos (by omega)] at this
      exact this
    · rw [if_neg hb, Dense.get_ofFn F hi (by omega), hF j hj i hi ⟨by omega, by omega⟩]

/-- **C40 (band).**  `IsEqualTo` answering yes means that every element agrees within the tolerance.  Missing:
the converse, which fails (`isEqualTo_unused_corner`). -/
theorem isEqualTo_sound_partial [CommRing K] [LinearOrder K] [IsStrictOrderedRing K] (a b : Band K) (n n' : ℕ)
    (f g : ℕ → ℕ → K) (ha : Is a n f) (hb : Is b n' g) (eps : K) (he : 0 ≤ eps) :
    ∃ q, isEqualTo a b eps = .ret q ∧
      (q = true → n = n' ∧ ∀ i < n, ∀ j < n, |f i j - g i j| ≤ eps) := by
  obtain ⟨⟨hv, hr, hc⟩, rfl, hg⟩ := ha
  obtain ⟨⟨hv', hr', hc'⟩, rfl, hg'⟩ := hb
  by_cases h : a.dim ≠ b.dim ∨ a.m1 ≠ b.m1 ∨ a.m2 ≠ b.m2
  · exact ⟨false, by rw [isEqualTo, if_pos h], by simp⟩
  · obtain ⟨r, c, F, hs, eF⟩ := hv.exists_ofFn
    obtain ⟨r', c', G, hs', eG⟩ := hv'.exists_ofFn
    obtain ⟨q, hq, hP⟩ := Dense.isEqualTo_spec a.data b.data r c r' c' F G (by rw [eF]; exact Dense.is_ofFn hs F)
      (by rw [eG]; exact Dense.is_ofFn hs' G) eps
    refine ⟨q, by rw [isEqualTo, if_neg h, hq], fun hqt => ⟨by omega, fun i hi j hj => ?_⟩⟩
    have hrr : a.data.rows = r := by rw [eF]; rfl
    have hcc : a.data.cols = c := by rw [eF]; rfl
    have hrr' : b.data.rows = r' := by rw [eG]; rfl
    have hcc' : b.data.cols = c' := by rw [eG]; rfl
    have e1 := hg i hi j hj
    have e2 := hg' i (by omega) j (by omega)
    rw [get] at e1 e2
    by_cases hb : i > j + a.m1 ∨ j > i + a.m2
    · rw [if_pos hb] at e1
      rw [if_pos (by omega)] at e2
      rw [← Outcome.ret.inj e1, ← Outcome.ret.inj e2]
      simpa using he
    · rw [if_neg hb, eF, Dense.get_ofFn F (by omega) (by omega)] at e1
      rw [if_neg (by omega), eG, Dense.get_ofFn G (by omega) (by omega)] at e2
      rw [← Outcome.ret.inj e1, ← Outcome.ret.inj e2]
      have e3 : b.m1 = a.m1 := by omega
      rw [e3]
      exact (hP.1 hqt).2.2 i (by omega) _ (by omega)

/-- **C40 (band), disagreement.**  `IsEqualTo` also compares the corners of the storage that belong to no
element: two band matrices with the same elements can be reported different. -/
theorem isEqualTo_unused_corner :
    ∃ a b : Band ℤ, Valid a ∧ Valid b ∧ (∀ i < 2, ∀ j < 2, a.get i j = b.get i j) ∧
      a.dim = 2 ∧ b.dim = 2 ∧ a.m1 = b.m1 ∧ a.m2 = b.m2 ∧ isEqualTo a b 0 = .ret false := by
  refine ⟨⟨2, 1, 0, ⟨2, 2, [0, 1, 2, 3]⟩⟩, ⟨2, 1, 0, ⟨2, 2, [9, 1, 2, 3]⟩⟩,
    ⟨⟨by decide, by simp [Dense.Shape]⟩, rfl, rfl⟩, ⟨⟨by decide, by simp [Dense.Shape]⟩, rfl, rfl⟩,
    by decide, rfl, rfl, rfl, rfl, by decide⟩

example : Valid (⟨2, 1, 0, ⟨2, 2, [0, 1, 2, 3]⟩⟩ : Band ℚ) :=
  ⟨⟨by decide, by simp [Dense.Shape]⟩, rfl, rfl⟩
example : (⟨2, 1, 0, ⟨2, 2, [0, 1, 2, 3]⟩⟩ : Band ℤ).toDense = .ret ⟨2, 2, [1, 0, 2, 3]⟩ := by decide

end Band

namespace Tri

/-- A tridiagonal matrix object in a consistent state. -/
def Valid (m : Tri K) : Prop :=
  m.below.length = m.dim ∧ m.diag.length = m.dim ∧ m.above.length = m.dim

/-- `m` is a consistent tridiagonal matrix of dimension `n` whose element `(i, j)` reads `f i j`. -/
def Is [Zero K] (m : Tri K) (n : ℕ) (f : ℕ → ℕ → K) : Prop :=
  Valid m ∧ m.dim = n ∧ ∀ i < n, ∀ j < n, m.get i j = .ret (f i j)

/-- Element `(i, j)` lies on one of the three diagonals. -/
def OnDiagonals (i j : ℕ) : Prop := i ≤ j + 1 ∧ j ≤ i + 1

/-- **C40 (tridiagonal).**  On the three diagonals a write changes exactly that element; elsewhere it is refused
and the element reads zero. -/
theorem write_read [Zero K] (m : Tri K) (hm : Valid m) (i j : ℕ) (hi : i < m.dim) (hj : j < m.dim) (a : K) :
    (OnDiagonals i j → ∃ m', m.set i j a = .ret m' ∧ Valid m' ∧ m'.dim = m.dim ∧
      ∀ p < m.dim, ∀ q < m.dim, m'.get p q = if p = i ∧ q = j then .ret a else m.get p q) ∧
    (¬ OnDiagonals i j → m.set i j a = .exn (.mml "MatrixAccessBoundsError") ∧ m.get i j = .ret 0) := by
  obtain ⟨hb, hd, ha⟩ := hm
  unfold OnDiagonals
  constructor
  · rintro ⟨h1, h2⟩
    by_cases e1 : i = j
    · subst e1
      refine ⟨{ m with diag := m.diag.set i a }, ?_, ⟨hb, by simpa using hd, ha⟩, rfl, fun p hp q hq => ?_⟩
      · simp only [set, Outcome.store, if_pos (show i < m.diag.length by omega), Outcome.bind_ret, if_true]
      · simp only [get, Outcome.index, List.getElem?_set]
        by_cases hpq : p = q
        · subst hpq
          by_cases hpi : i = p
          · subst hpi; simp [hd, hp]
          · rw [if_pos rfl, if_neg hpi, if_neg (by omega), if_pos rfl]
        · rw [if_neg hpq, if_neg (show ¬ (p = i ∧ q = i) by omega), if_neg hpq]
    · by_cases e2 : i + 1 = j
      · subst e2
        refine ⟨{ m with above := m.above.set i a }, ?_, ⟨hb, hd, by simpa using ha⟩, rfl, fun p hp q hq => ?_⟩
        · rw [set, if_neg e1, if_pos rfl, Outcome.store, if_pos (by omega), Outcome.bind_ret]
        · simp only [get, Outcome.index, List.getElem?_set]
          by_cases hpq : p = q
          · rw [if_pos hpq, if_neg (show ¬ (p = i ∧ q = i + 1) by omega), if_pos hpq]
          · by_cases hpq' : p + 1 = q
            · subst hpq'
              by_cases hpi : i = p
              · subst hpi; simp [ha, hp]
              · rw [if_neg hpq, if_pos rfl, if_neg hpi, if_neg (by omega), if_neg hpq, if_pos rfl]
            · rw [if_neg hpq, if_neg hpq', if_neg (show ¬ (p = i ∧ q = i + 1) by omega), if_neg hpq,
                if_neg hpq']
      · obtain rfl : i = j + 1 := by omega
        refine ⟨{ m with below := m.below.set (j + 1) a }, ?_, ⟨by simpa using hb, hd, ha⟩, rfl,
          fun p hp q hq => ?_⟩
        · rw [set, if_neg e1, if_neg e2, if_pos ⟨rfl, hi⟩, Outcome.store, if_pos (by omega), Outcome.bind_ret]
        · simp only [get, Outcome.index, List.getElem?_set]
          by_cases hpq : p = q
          · rw [if_pos hpq, if_neg (show ¬ (p = j + 1 ∧ q = j) by omega), if_pos hpq]
          · by_cases hpq' : p + 1 = q
            · rw [if_neg hpq, if_pos hpq', if_neg (show ¬ (p = j + 1 ∧ q = j) by omega), if_neg hpq,
                if_pos hpq']
            · by_cases hpq2 : p = q + 1 ∧ q + 1 < m.dim
              · rw [if_neg hpq, if_neg hpq', if_pos hpq2]
                by_cases hpi : p = j + 1 ∧ q = j
                · rw [if_pos hpi, if_pos (by omega), if_pos (by omega)]
                · rw [if_neg hpi, if_neg (show ¬ (j + 1 = p) by omega), if_neg hpq, if_neg hpq', if_pos hpq2]
              · rw [if_neg hpq, if_neg hpq', if_neg hpq2, if_neg (show ¬ (p = j + 1 ∧ q = j) by omega),
                  if_neg hpq, if_neg hpq', if_neg hpq2]
  · intro h
    constructor
    · rw [set, if_neg (by omega), if_neg (by omega), if_neg (by omega)]
    · rw [get, if_neg (by omega), if_neg (by omega), if_neg (by omega)]

/-- Element `(i, j)` of the tridiagonal matrix with the given three diagonals. -/
def entry [Zero K] (b d a : ℕ → K) (i j : ℕ) : K :=
  if i = j then d i else if i + 1 = j then a i else if i = j + 1 then b i else 0

theorem get_tab [Zero K] (n : ℕ) (b d a : ℕ → K) {i j : ℕ} (hi : i < n) (hj : j < n) :
    (⟨n, tab n b, tab n d, tab n a⟩ : Tri K).get i j = .ret (entry b d a i j) := by
  simp only [get, entry]
  split
  · exact index_tab _ hi
  · split
    · exact index_tab _ hi
    · split
      · rw [if_pos (by omega)]; exact index_tab _ hi
      · rw [if_neg (by omega)]

/-- **C40 (tridiagonal).**  The constructor from three vectors. -/
theorem new_spec [Zero K] (n : ℕ) (b d a : ℕ → K) (hn : 3 ≤ n) :
    ∃ m, new n (tab n b) (tab n d) (tab n a) = .ret m ∧ Is m n (entry b d a) := by
  refine ⟨⟨n, tab n b, tab n d, tab n a⟩, ?_, ⟨by simp, by simp, by simp⟩, rfl, fun i hi j hj => get_tab n b d a hi hj⟩
  rw [new, if_neg (by omega), if_neg (by simp)]

/-- **C40 (tridiagonal).**  The constructor from a list takes the elements row by row: element `(i, j)` on the
diagonals is the list's element `2 * i + j`. -/
theorem fromList_spec [Zero K] (n : ℕ) (hn : 2 ≤ n) (v : ℕ → K) :
    ∃ m, fromList n (tab (3 * n - 2) v) = .ret m ∧
      Is m n (fun i j => if i ≤ j + 1 ∧ j ≤ i + 1 then v (2 * i + j) else 0) := by
  rw [fromList, if_neg (by simp)]
  simp only [replicate_eq_tab]
  rw [store_tab _ (by omega), Outcome.bind_ret, index_tab _ (by omega), Outcome.bind_ret,
    store_tab _ (by omega), Outcome.bind_ret, index_tab _ (by omega), Outcome.bind_ret,
    store_tab _ (by omega), Outcome.bind_ret]
  obtain ⟨t, ht, rfl⟩ := forFromTo_rule
    (fun k (m : Tri K) => m = ⟨n,
      tab n (fun i => if 1 ≤ i ∧ i < k then v (3 * i - 1) else 0),
      tab n (fun i => if i < k then v (3 * i) else 0),
      tab n (fun i => if i < k then v (3 * i + 1) else 0)⟩) 1 (n - 1) (by omega)
    (⟨n, tab n (fun k => if k = 0 then 0 else 0), tab n (fun k => if k = 0 then v 0 else 0),
      tab n (fun k => if k = 0 then v 1 else 0)⟩ : Tri K) (listBody (tab (3 * n - 2) v))
    (by
      congr 1
      · refine tab_congr fun i _ => ?_
        rw [if_neg (show ¬ (1 ≤ i ∧ i < 1) by omega)]; split <;> rfl
      · refine tab_congr fun i _ => ?_
        by_cases h : i = 0
        · subst h; simp
        · rw [if_neg h, if_neg (by omega)]
      · refine tab_congr fun i _ => ?_
        by_cases h : i = 0
        · subst h; simp
        · rw [if_neg h, if_neg (by omega)])
    (by
      rintro i _ h1 h2 rfl
      refine ⟨_, by
        rw [listBody, index_tab _ (by omega), Outcome.bind_ret]
        simp only
        rw [store_tab _ (by omega), Outcome.bind_ret, index_tab _ (by omega), Outcome.bind_ret,
          store_tab _ (by omega), Outcome.bind_ret, index_tab _ (by omega), Outcome.bind_ret,
          store_tab _ (by omega), Outcome.bind_ret], ?_⟩
      congr 1
      · refine tab_congr fun k _ => ?_
        by_cases h : k = i
        · subst h; rw [if_pos rfl, if_pos (by omega)]
        · rw [if_neg h]
          by_cases h' : 1 ≤ k ∧ k < i
          · rw [if_pos h', if_pos (by omega)]
          · rw [if_neg h', if_neg (by omega)]
      all_goals
        refine tab_congr fun k _ => ?_
        by_cases h : k = i
        · subst h; rw [if_pos rfl, if_pos (by omega)]
        · rw [if_neg h]
          by_cases h' : k < i
          · rw [if_pos h', if_pos (by omega)]
          · rw [if_neg h', if_neg (by omega)])
  rw [ht, Outcome.bind_ret, index_tab _ (by omega), Outcome.bind_ret]
  simp only
  rw [store_tab _ (by omega), Outcome.bind_ret, index_tab _ (by omega), Outcome.bind_ret,
    store_tab _ (by omega), Outcome.bind_ret, store_tab _ (by omega), Outcome.bind_ret]
  refine ⟨_, rfl, ⟨by simp, by simp, by simp⟩, rfl, fun i hi j hj => ?_⟩
  rw [get_tab _ _ _ _ hi hj]
  congr 1
  simp only [entry]
  by_cases e1 : i = j
  · subst e1
    rw [if_pos rfl, if_pos (show i ≤ i + 1 ∧ i ≤ i + 1 by omega)]
    by_cases h : i = n - 1
    · rw [if_pos h]; congr 1; omega
    · rw [if_neg h, if_pos (by omega)]; congr 1; omega
  · rw [if_neg e1]
    by_cases e2 : i + 1 = j
    · rw [if_pos e2, if_pos (show i ≤ j + 1 ∧ j ≤ i + 1 by omega), if_neg (by omega), if_pos (by omega)]
      congr 1; omega
    · rw [if_neg e2]
      by_cases e3 : i = j + 1
      · rw [if_pos e3, if_pos (show i ≤ j + 1 ∧ j ≤ i + 1 by omega)]
        by_cases h : i = n - 1
        · rw [if_pos h]; congr 1; omega
        · rw [if_neg h, if_pos (by omega)]; congr 1; omega
      · rw [if_neg e3, if_neg (by omega)]

/-- **C40 (tridiagonal), disagreement.**  A one-by-one matrix given as a list is undefined behaviour: the
constructor reads past the end of the list it has just checked. -/
theorem fromList_one [Zero K] (x : K) : fromList 1 [x] = .ub := rfl

/-- **C40 (tridiagonal).**  `GetTranspose` of a matrix of dimension three or more is the transposed matrix. -/
theorem transpose_spec_partial [Zero K] (m : Tri K) (n : ℕ) (f : ℕ → ℕ → K) (hm : Is m n f) (hn : 3 ≤ n) :
    ∃ t, m.transpose = .ret t ∧ Is t n (fun i j => f j i) := by
  obtain ⟨⟨hb, hd, ha⟩, rfl, hg⟩ := hm
  obtain ⟨b, eb⟩ : ∃ b, m.below = tab m.dim b := ⟨_, by rw [← hb]; exact eq_tab m.below 0⟩
  obtain ⟨d, ed⟩ : ∃ d, m.diag = tab m.dim d := ⟨_, by rw [← hd]; exact eq_tab m.diag 0⟩
  obtain ⟨a, ea⟩ : ∃ a, m.above = tab m.dim a := ⟨_, by rw [← ha]; exact eq_tab m.above 0⟩
  have em : m = ⟨m.dim, tab m.dim b, tab m.dim d, tab m.dim a⟩ := by
    cases m; simp only at eb ed ea; simp only [eb, ed, ea]
  have hf : ∀ i < m.dim, ∀ j < m.dim, f i j = entry b d a i j := by
    intro i hi j hj
    have := hg i hi j hj
    rw [em, get_tab _ _ _ _ hi hj] at this
    exact (Outcome.ret.inj this).symm
  have e : m.transpose = new m.dim (tab m.dim (fun i => if 1 ≤ i ∧ i < m.dim then a (i - 1) else 0))
      (tab m.dim d) (tab m.dim (fun i => if i = m.dim - 1 then 0 else if i < m.dim - 1 then b (i + 1) else 0)) := by
    rw [transpose, replicate_eq_tab]
    rw [store_tab _ (by omega), Outcome.bind_ret,
      forFromTo_fill 1 m.dim m.dim le_rfl _ (fun i => a (i - 1)), Outcome.bind_ret,
      forRange_fill (m.dim - 1) m.dim (by omega) _ (fun i => b (i + 1)), Outcome.bind_ret,
      store_tab _ (by omega), Outcome.bind_ret, ed]
    · congr 1
      refine tab_congr fun i _ => ?_
      split
      · rfl
      · split <;> rfl
    · intro i hi r
      rw [eb, index_tab _ (by omega), Outcome.bind_ret]
    · intro i h1 h2 r
      rw [ea, index_tab _ (by omega), Outcome.bind_ret]
  rw [e]
  obtain ⟨t, ht, hv, hdim, hI⟩ := new_spec m.dim (fun i => if 1 ≤ i ∧ i < m.dim then a (i - 1) else 0) d
    (fun i => if i = m.dim - 1 then 0 else if i < m.dim - 1 then b (i + 1) else 0) hn
  refine ⟨t, ht, hv, hdim, fun i hi j hj => ?_⟩
  rw [hI i hi j hj]
  congr 1
  simp only [hf j hj i hi, entry]
  by_cases e1 : i = j
  · subst e1; rw [if_pos rfl, if_pos rfl]
  · rw [if_neg e1, if_neg (show ¬ j = i from fun h => e1 h.symm)]
    by_cases e2 : i + 1 = j
    · rw [if_pos e2, if_neg (show ¬ (j + 1 = i) by omega), if_pos (show j = i + 1 by omega),
        if_neg (by omega), if_pos (by omega), e2]
    · rw [if_neg e2]
      by_cases e3 : i = j + 1
      · rw [if_pos e3, if_pos e3.symm, if_pos (by omega)]; congr 1; omega
      · rw [if_neg e3, if_neg (fun h => e3 h.symm), if_neg (by omega)]

/-- **C40 (tridiagonal), disagreement.**  A two-by-two matrix can be built from a list but not transposed. -/
theorem transpose_two : ∃ m : Tri ℚ, fromList 2 [1, 2, 3, 4] = .ret m ∧ Valid m ∧
    m.transpose = .exn (.mml "MatrixDimensionError") :=
  ⟨⟨2, [0, 3], [1, 4], [2, 0]⟩, by decide, ⟨rfl, rfl, rfl⟩, by decide⟩

/-- **C40 (tridiagonal).**  `IsEqualTo` answering yes means that every element agrees within the tolerance.
Missing: the converse, which fails (`isEqualTo_unused_cells`). -/
theorem isEqualTo_sound_partial [CommRing K] [LinearOrder K] [IsStrictOrderedRing K] (a b : Tri K) (n n' : ℕ)
    (f g : ℕ → ℕ → K) (ha : Is a n f) (hb : Is b n' g) (eps : K) (he : 0 ≤ eps) :
    ∃ q, isEqualTo a b eps = .ret q ∧
      (q = true → n = n' ∧ ∀ i < n, ∀ j < n, |f i j - g i j| ≤ eps) := by
  obtain ⟨⟨h1, h2, h3⟩, rfl, hg⟩ := ha
  obtain ⟨⟨h1', h2', h3'⟩, rfl, hg'⟩ := hb
  by_cases h : a.dim ≠ b.dim
  · exact ⟨false, by rw [isEqualTo, if_pos h], by simp⟩
  · have hd : b.dim = a.dim := by omega
    have get0 : ∀ (v : List K) (i : ℕ), v.length = a.dim → i < a.dim →
        Outcome.index v i = .ret (v.getD i 0) := by
      intro v i hv hi
      rw [← hv] at hi
      simp [Outcome.index, hi]
    obtain ⟨q, hq, hP⟩ := forRange_rule (fun k (q : Bool) => q = true → ∀ i < k,
        |a.diag.getD i 0 - b.diag.getD i 0| ≤ eps ∧ |a.below.getD i 0 - b.below.getD i 0| ≤ eps ∧
        |a.above.getD i 0 - b.above.getD i 0| ≤ eps) a.dim true
      (fun ok i => if ok then do
        let x ← Outcome.index a.diag i
        let x' ← Outcome.index b.diag i
        let y ← Outcome.index a.below i
        let y' ← Outcome.index b.below i
        let z ← Outcome.index a.above i
        let z' ← Outcome.index b.above i
        .ret (decide (¬ |x - x'| > eps) && decide (¬ |y - y'| > eps) && decide (¬ |z - z'| > eps))
      else .ret false)
      (fun _ i hi => by omega)
      (by
        intro i ok hi hok
        cases ok with
        | false => exact ⟨false, rfl, by simp⟩
        | true =>
          refine ⟨_, by
            simp only [if_true]
            rw [get0 _ i h2 hi, Outcome.bind_ret, get0 _ i (by omega) hi, Outcome.bind_ret,
              get0 _ i h1 hi, Outcome.bind_ret, get0 _ i (by omega) hi, Outcome.bind_ret,
              get0 _ i h3 hi, Outcome.bind_ret, get0 _ i (by omega) hi, Outcome.bind_ret], ?_⟩
          intro hall k hk
          simp only [gt_iff_lt, not_lt, Bool.and_eq_true, decide_eq_true_eq] at hall
          rcases Nat.lt_or_ge k i with h | h
          · exact hok rfl k h
          · obtain rfl : k = i := by omega
            exact ⟨hall.1.1, hall.1.2, hall.2⟩)
    refine ⟨q, by rw [isEqualTo, if_neg h]; exact hq, fun hqt => ⟨hd.symm, fun i hi j hj => ?_⟩⟩
    obtain ⟨p1, p2, p3⟩ := hP hqt i hi
    have e1 := hg i hi j hj
    have e2 := hg' i (by omega) j (by omega)
    rw [get] at e1 e2
    by_cases c1 : i = j
    · rw [if_pos c1, get0 _ i h2 hi] at e1
      rw [if_pos c1, get0 _ i (by omega) hi] at e2
      rw [← Outcome.ret.inj e1, ← Outcome.ret.inj e2]; exact p1
    · rw [if_neg c1] at e1 e2
      by_cases c2 : i + 1 = j
      · rw [if_pos c2, get0 _ i h3 hi] at e1
        rw [if_pos c2, get0 _ i (by omega) hi] at e2
        rw [← Outcome.ret.inj e1, ← Outcome.ret.inj e2]; exact p3
      · rw [if_neg c2] at e1 e2
        by_cases c3 : i = j + 1 ∧ j + 1 < a.dim
        · rw [if_pos c3, get0 _ i h1 hi] at e1
          rw [if_pos (by omega), get0 _ i (by omega) hi] at e2
          rw [← Outcome.ret.inj e1, ← Outcome.ret.inj e2]; exact p2
        · rw [if_neg c3] at e1
          rw [if_neg (by omega)] at e2
          rw [← Outcome.ret.inj e1, ← Outcome.ret.inj e2]
          simpa using he

/-- **C40 (tridiagonal), disagreement.**  `IsEqualTo` also compares the two storage cells that belong to no
element. -/
theorem isEqualTo_unused_cells :
    ∃ a b : Tri ℤ, Valid a ∧ Valid b ∧ a.dim = 3 ∧ b.dim = 3 ∧ (∀ i < 3, ∀ j < 3, a.get i j = b.get i j) ∧
      isEqualTo a b 0 = .ret false :=
  ⟨⟨3, [0, 1, 1], [2, 2, 2], [1, 1, 0]⟩, ⟨3, [7, 1, 1], [2, 2, 2], [1, 1, 0]⟩, ⟨rfl, rfl, rfl⟩, ⟨rfl, rfl, rfl⟩,
    rfl, rfl, by decide, by decide⟩

example : Is (⟨3, [0, 1, 1], [2, 2, 2], [1, 1, 0]⟩ : Tri ℚ) 3
    (fun i j => if i = j then 2 else if i + 1 = j ∨ i = j + 1 then 1 else 0) :=
  ⟨⟨rfl, rfl, rfl⟩, rfl, by decide⟩

end Tri

namespace Cube

/-- A three-dimensional array in a consistent state. -/
def Valid (m : Cube K) : Prop := m.data.length = m.d1 * m.d2 * m.d3

theorem lin_lt {a b c i j k : ℕ} (hi : i < a) (hj : j < b) (hk : k < c) : (i * b + j) * c + k < a * b * c := by
  have h1 : i * b + j < a * b := Dense.idx_lt hi hj
  exact Dense.idx_lt h1 hk

theorem lin_inj {b c i j k p q r : ℕ} (hj : j < b) (hk : k < c) (hq : q < b) (hr : r < c)
    (h : (i * b + j) * c + k = (p * b + q) * c + r) : i = p ∧ j = q ∧ k = r := by
  have e1 : k = r := by
    have := congrArg (· % c) h
    simpa [Nat.add_mod, Nat.mod_eq_of_lt hk, Nat.mod_eq_of_lt hr] using this
  subst e1
  have hc : 0 < c := by omega
  have e2 : i * b + j = p * b + q := Nat.eq_of_mul_eq_mul_right hc (by omega)
  have e3 : j = q := by
    have := congrArg (· % b) e2
    simpa [Nat.add_mod, Nat.mod_eq_of_lt hj, Nat.mod_eq_of_lt hq] using this
  subst e3
  exact ⟨Nat.eq_of_mul_eq_mul_right (show 0 < b by omega) (by omega), rfl, rfl⟩

/-- **C40 (three-dimensional).**  A write changes exactly the element written. -/
theorem write_read (m : Cube K) (hm : Valid m) (i j k : ℕ) (hi : i < m.d1) (hj : j < m.d2) (hk : k < m.d3)
    (a : K) :
    ∃ m', m.set i j k a = .ret m' ∧ Valid m' ∧ m'.d1 = m.d1 ∧ m'.d2 = m.d2 ∧ m'.d3 = m.d3 ∧
      ∀ p < m.d1, ∀ q < m.d2, ∀ r < m.d3,
        m'.get p q r = if p = i ∧ q = j ∧ r = k then .ret a else m.get p q r := by
  have hlt := lin_lt hi hj hk
  rw [← hm] at hlt
  refine ⟨{ m with data := m.data.set ((i * m.d2 + j) * m.d3 + k) a }, ?_, ?_, rfl, rfl, rfl,
    fun p hp q hq r hr => ?_⟩
  · simp only [set, Outcome.store, if_pos hlt, Outcome.bind_ret]
  · simpa [Valid] using hm
  · simp only [get, Outcome.index, List.getElem?_set]
    by_cases h : p = i ∧ q = j ∧ r = k
    · obtain ⟨rfl, rfl, rfl⟩ := h
      rw [if_pos rfl, if_pos hlt, if_pos ⟨rfl, rfl, rfl⟩]
    · rw [if_neg h, if_neg]
      intro e
      obtain ⟨rfl, rfl, rfl⟩ := lin_inj hj hk hq hr e
      exact h ⟨rfl, rfl, rfl⟩

/-- **C40 (three-dimensional).**  A new array holds the given value everywhere; `At` reads and writes the same
elements as `operator()` within the bounds and refuses outside. -/
theorem at_spec (m : Cube K) (hm : Valid m) (i j k : ℤ) :
    ((0 ≤ i ∧ i < m.d1 ∧ 0 ≤ j ∧ j < m.d2 ∧ 0 ≤ k ∧ k < m.d3) →
      ∃ x, m.get i.toNat j.toNat k.toNat = .ret x ∧ m.at_ i j k = .ret x ∧
        ∀ a, m.setAt i j k a = m.set i.toNat j.toNat k.toNat a) ∧
    (¬(0 ≤ i ∧ i < m.d1 ∧ 0 ≤ j ∧ j < m.d2 ∧ 0 ≤ k ∧ k < m.d3) →
      m.at_ i j k = .exn (.mml "IndexError") ∧ ∀ a, m.setAt i j k a = .exn (.mml "IndexError")) := by
  constructor
  · rintro ⟨h1, h2, h3, h4, h5, h6⟩
    have hn : ¬(i < 0 ∨ i ≥ (m.d1 : ℤ) ∨ j < 0 ∨ j ≥ (m.d2 : ℤ) ∨ k < 0 ∨ k ≥ (m.d3 : ℤ)) := by omega
    have hlt : (i.toNat * m.d2 + j.toNat) * m.d3 + k.toNat < m.data.length := by
      rw [hm]; exact lin_lt (by omega) (by omega) (by omega)
    have hx : m.get i.toNat j.toNat k.toNat = .ret (m.data[(i.toNat * m.d2 + j.toNat) * m.d3 + k.toNat]) := by
      simp [get, Outcome.index, hlt]
    exact ⟨_, hx, by rw [at_, if_neg hn, hx], fun a => by rw [setAt, if_neg hn]⟩
  · intro h
    have hn : (i < 0 ∨ i ≥ (m.d1 : ℤ) ∨ j < 0 ∨ j ≥ (m.d2 : ℤ) ∨ k < 0 ∨ k ≥ (m.d3 : ℤ)) := by omega
    exact ⟨by rw [at_, if_pos hn], fun a => by rw [setAt, if_pos hn]⟩

/-- **C40 (three-dimensional).**  A new array holds the given value everywhere. -/
theorem newFill_spec (d1 d2 d3 : ℤ) (a : K) :
    (d1 > 0 ∧ d2 > 0 ∧ d3 > 0 → ∃ m, newFill d1 d2 d3 a = .ret m ∧ Valid m ∧
      (m.d1 : ℤ) = d1 ∧ (m.d2 : ℤ) = d2 ∧ (m.d3 : ℤ) = d3 ∧
      ∀ i < m.d1, ∀ j < m.d2, ∀ k < m.d3, m.get i j k = .ret a) ∧
    (¬ (d1 > 0 ∧ d2 > 0 ∧ d3 > 0) → newFill d1 d2 d3 a = .exn (.mml "ArgumentError")) := by
  constructor
  · rintro ⟨h1, h2, h3⟩
    refine ⟨_, by rw [newFill, if_neg (by omega)], by simp [Valid], by simp; omega, by simp; omega, by simp; omega,
      fun i hi j hj k hk => ?_⟩
    simp only at hi hj hk
    simp only [get, Outcome.index, List.getElem?_replicate]
    rw [if_pos (lin_lt hi hj hk)]
  · intro h
    rw [newFill, if_pos (by omega)]

example : Valid (⟨2, 1, 2, [1, 2, 3, 4]⟩ : Cube ℤ) := rfl
example : (⟨2, 1, 2, [1, 2, 3, 4]⟩ : Cube ℤ).set 1 0 0 9 = .ret ⟨2, 1, 2, [1, 2, 9, 4]⟩ := by decide

end Cube

end Verif.Mat
