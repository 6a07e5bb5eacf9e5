import Verif.Optim.LBFGS
import Verif.Optim.BFGSProps

/-!
# Limited-memory BFGS: the specification and the proofs
-/

set_option autoImplicit false

namespace Verif.Optim.QN

variable {N : ℕ}

/-! ## Specification -/

/-- The approximate inverse Hessian of BFGS applied to `v`, for correction pairs `(s, y)`, newest first, and the initial
matrix `γ I`: each pair turns `H` into `(I - s yᵀ / s·y) H (I - y sᵀ / s·y) + s sᵀ / s·y`. -/
noncomputable def invHess (γ : ℝ) : List (Pt N × Pt N) → Pt N → Pt N
  | [], v => fun j => γ * v j
  | (s, y) :: older, v =>
    let w : Pt N := fun j => v j - dot s v / dot s y * y j
    fun j => invHess γ older w j - dot y (invHess γ older w) / dot s y * s j + dot s v / dot s y * s j

/-- The buffer holds the pairs `ps`, oldest first, and is in good order. -/
structure Holds (m : ℕ) (b : Buf N) (ps : List (Pt N × Pt N)) : Prop where
  count : b.count = ps.length
  le : ps.length ≤ m
  start : b.start < m
  zero : ps.length < m → b.start = 0
  s : ∀ i (h : i < ps.length), b.s (idx m b i) = ps[i].1
  y : ∀ i (h : i < ps.length), b.y (idx m b i) = ps[i].2
  rho : ∀ i (h : i < ps.length), b.rho (idx m b i) = 1 / dot ps[i].1 ps[i].2
  pos : ∀ q ∈ ps, 1 / 10 ^ 18 < dot q.1 q.2

/-! ## The approximate inverse Hessian -/

theorem dot_add (a b c : Pt N) : dot a (fun j => b j + c j) = dot a b + dot a c := by
  simp only [dot, ← Finset.sum_add_distrib]
  exact Finset.sum_congr rfl fun _ _ => by ring

theorem dot_sub_mul (a b c : Pt N) (t : ℝ) : dot a (fun j => b j - t * c j) = dot a b - t * dot a c := by
  simp only [dot, Finset.mul_sum, ← Finset.sum_sub_distrib]
  exact Finset.sum_congr rfl fun _ _ => by ring

theorem dot_mul (a c : Pt N) (t : ℝ) : dot a (fun j => t * c j) = t * dot a c := by
  simp only [dot, Finset.mul_sum]
  exact Finset.sum_congr rfl fun _ _ => by ring

theorem dot_zero_right (a : Pt N) : dot a (fun _ => 0) = 0 := by simp [dot]

/-- The form of the approximate inverse Hessian is positive. -/
theorem invHess_pos {γ : ℝ} (hγ : 0 < γ) (ps : List (Pt N × Pt N)) (hp : ∀ q ∈ ps, 0 < dot q.1 q.2) {v : Pt N} (hv : v ≠ 0) :
    0 < dot v (invHess γ ps v) := by
  have key : ∀ (ps : List (Pt N × Pt N)), (∀ q ∈ ps, 0 < dot q.1 q.2) → ∀ v : Pt N,
      0 ≤ dot v (invHess γ ps v) ∧ (v ≠ 0 → 0 < dot v (invHess γ ps v)) := by
    intro ps
    induction ps with
    | nil =>
      intro _ v
      have e : dot v (invHess γ [] v) = γ * dot v v := dot_mul v v γ
      rw [e]
      exact ⟨mul_nonneg hγ.le (dot_self_nonneg v), fun h => mul_pos hγ (dot_self_pos h)⟩
    | cons q older ih =>
      obtain ⟨s, y⟩ := q
      intro hp v
      have hsy : 0 < dot s y := hp (s, y) (List.mem_cons_self ..)
      have ih' := ih (fun q hq => hp q (List.mem_cons_of_mem _ hq))
      set α := dot s v / dot s y with hα
      set w : Pt N := fun j => v j - α * y j with hw
      have e : dot v (invHess γ ((s, y) :: older) v) = dot w (invHess γ older w) + dot s v ^ 2 / dot s y := by
        have e1 : dot v (invHess γ ((s, y) :: older) v) =
            dot v (invHess γ older w) - dot y (invHess γ older w) / dot s y * dot v s + α * dot v s := by
          show dot v (fun j => (invHess γ older w j - dot y (invHess γ older w) / dot s y * s j) + α * s j) = _
          rw [dot_add, dot_sub_mul, dot_mul]
        have e2 : dot w (invHess γ older w) = dot v (invHess γ older w) - α * dot y (invHess γ older w) := by
          rw [dot_comm w, hw, dot_sub_mul, dot_comm _ v, dot_comm _ y]
        rw [e1, e2, dot_comm v s, hα]
        field_simp
      rw [e]
      refine ⟨add_nonneg (ih' w).1 (by positivity), fun hv => ?_⟩
      by_cases hsv : dot s v = 0
      · have hwv : w = v := by
          funext j
          rw [hw]
          simp only [hα, hsv, zero_div, zero_mul, sub_zero]
        have := (ih' w).2 (by rw [hwv]; exact hv)
        rw [hsv]
        simpa using this
      · have : 0 < dot s v ^ 2 / dot s y := by positivity
        linarith [(ih' w).1]
  exact (key ps hp v).2 hv

theorem invHess_zero (γ : ℝ) (ps : List (Pt N × Pt N)) : invHess γ ps (fun _ => 0) = fun _ => 0 := by
  induction ps with
  | nil => funext j; simp [invHess]
  | cons q older ih =>
    obtain ⟨s, y⟩ := q
    funext j
    have hw : (fun j => (0 : ℝ) - dot s (fun _ => 0) / dot s y * y j) = fun _ => 0 := by
      funext j; rw [dot_zero_right]; simp
    simp only [invHess]
    rw [hw, ih, dot_zero_right, dot_zero_right]
    simp

/-- **The secant equation**: the newest gradient difference is mapped to the newest step. -/
theorem invHess_secant (γ : ℝ) (s y : Pt N) (older : List (Pt N × Pt N)) (h : dot s y ≠ 0) : invHess γ ((s, y) :: older) y = s := by
  have hw : (fun j => y j - dot s y / dot s y * y j) = fun _ => (0 : ℝ) := by
    funext j; rw [div_self h]; ring
  funext j
  simp only [invHess]
  rw [hw, invHess_zero, dot_zero_right, div_self h]
  simp

/-! ## The circular buffer -/

theorem idx_inj {m : ℕ} {b : Buf N} {i j : ℕ} (hi : i < m) (hj : j < m) (h : idx m b i = idx m b j) : i = j := by
  unfold idx at h
  have h1 : i ≡ j [MOD m] := Nat.ModEq.add_left_cancel' b.start h
  unfold Nat.ModEq at h1
  rwa [Nat.mod_eq_of_lt hi, Nat.mod_eq_of_lt hj] at h1

/-- **The history keeps the newest pairs**: after a pair has been stored the buffer holds the old pairs and the new one, without
the oldest if there are more than `m`. -/
theorem store_spec {m : ℕ} {b : Buf N} {ps : List (Pt N × Pt N)} (h : Holds m b ps) (s y : Pt N) :
    (1 / 10 ^ 18 < dot s y → Holds m (store m b s y) ((ps ++ [(s, y)]).drop (ps.length + 1 - m))) ∧
    (¬ 1 / 10 ^ 18 < dot s y → store m b s y = b) := by
  refine ⟨fun hsy => ?_, fun hsy => ?_⟩
  swap
  · unfold store
    exact if_neg hsy
  unfold store
  rw [if_pos (show dot s y > eps from hsy)]
  by_cases hlt : b.count < m
  · rw [if_pos hlt]
    rw [h.count] at hlt
    have h0 := h.zero hlt
    have hd : (ps ++ [(s, y)]).drop (ps.length + 1 - m) = ps ++ [(s, y)] := by
      rw [show ps.length + 1 - m = 0 by omega, List.drop_zero]
    rw [hd]
    have hidx : ∀ i, i ≤ ps.length → idx m b i = i := by
      intro i hi
      unfold idx
      rw [h0, Nat.zero_add, Nat.mod_eq_of_lt (by omega)]
    have hb : b.count = ps.length := h.count
    have gen : ∀ {α : Type} (u : ℕ → α) (e : α) (F : Pt N × Pt N → α) (hu : ∀ i (h : i < ps.length), u (idx m b i) = F ps[i])
        (he : F (s, y) = e) (i : ℕ) (hi : i < (ps ++ [(s, y)]).length),
        Function.update u b.count e ((b.start + i) % m) = F ((ps ++ [(s, y)])[i]) := by
      intro α u e F hu he i hi
      rw [List.length_append, List.length_singleton] at hi
      have hix : (b.start + i) % m = i := hidx i (by omega)
      rw [hix, hb]
      by_cases hi' : i < ps.length
      · rw [Function.update_of_ne (by omega), List.getElem_append_left hi', ← hu i hi', hidx i (by omega)]
      · have : i = ps.length := by omega
        subst this
        rw [Function.update_self, List.getElem_append_right (le_refl _)]
        simp [he]
    refine ⟨by simp [hb], by simp; omega, h.start, ?_, ?_, ?_, ?_, ?_⟩
    · intro _; exact h0
    · exact fun i hi => gen b.s s Prod.fst h.s rfl i hi
    · exact fun i hi => gen b.y y Prod.snd h.y rfl i hi
    · exact fun i hi => gen b.rho (1 / dot s y) (fun q => 1 / dot q.1 q.2) h.rho rfl i hi
    · intro q hq
      rcases List.mem_append.1 hq with hq | hq
      · exact h.pos q hq
      · rw [List.mem_singleton.1 hq]; exact hsy
  · rw [if_neg hlt]
    rw [h.count] at hlt
    have hm : ps.length = m := by have := h.le; omega
    have hm0 : 0 < m := by have := h.start; omega
    have hd : (ps ++ [(s, y)]).drop (ps.length + 1 - m) = ps.tail ++ [(s, y)] := by
      rw [show ps.length + 1 - m = 1 by omega]
      cases ps with
      | nil => simp at hm; omega
      | cons a l => rfl
    rw [hd]
    have hlen : (ps.tail ++ [(s, y)]).length = m := by simp; omega
    have hidx : ∀ i, i < m → ((b.start + 1) % m + i) % m = (b.start + (i + 1)) % m := by
      intro i _
      rw [Nat.mod_add_mod]
      congr 1
      omega
    have hlast : (b.start + (m - 1 + 1)) % m = b.start := by
      rw [Nat.sub_add_cancel hm0, Nat.add_mod_right, Nat.mod_eq_of_lt h.start]
    have gen : ∀ {α : Type} (u : ℕ → α) (e : α) (F : Pt N × Pt N → α) (hu : ∀ i (h : i < ps.length), u (idx m b i) = F ps[i])
        (he : F (s, y) = e) (i : ℕ) (hi : i < (ps.tail ++ [(s, y)]).length),
        Function.update u b.start e (((b.start + 1) % m + i) % m) = F ((ps.tail ++ [(s, y)])[i]) := by
      intro α u e F hu he i hi
      rw [hlen] at hi
      rw [hidx i hi]
      by_cases hi' : i + 1 < m
      · have hne : (b.start + (i + 1)) % m ≠ b.start := by
          intro hc
          have h0 : idx m b (i + 1) = idx m b 0 := by
            unfold idx
            rw [hc, Nat.add_zero, Nat.mod_eq_of_lt h.start]
          have := idx_inj hi' hm0 h0
          omega
        have hit : i < ps.tail.length := by simp; omega
        rw [Function.update_of_ne hne, List.getElem_append_left hit, List.getElem_tail]
        exact hu (i + 1) (by omega)
      · have : i = m - 1 := by omega
        subst this
        rw [hlast, Function.update_self, List.getElem_append_right (by simp; omega)]
        simp [he]
    refine ⟨?_, by rw [hlen], Nat.mod_lt _ hm0, fun hh => by rw [hlen] at hh; omega, ?_, ?_, ?_, ?_⟩
    · show b.count = _
      rw [hlen, h.count, hm]
    · exact fun i hi => gen b.s s Prod.fst h.s rfl i hi
    · exact fun i hi => gen b.y y Prod.snd h.y rfl i hi
    · exact fun i hi => gen b.rho (1 / dot s y) (fun q => 1 / dot q.1 q.2) h.rho rfl i hi
    · intro q hq
      rcases List.mem_append.1 hq with hq | hq
      · exact h.pos q (List.mem_of_mem_tail hq)
      · rw [List.mem_singleton.1 hq]; exact hsy

/-- The empty buffer. -/
theorem empty_holds {m : ℕ} (hm : 0 < m) : Holds (N := N) m ⟨fun _ => 0, fun _ => 0, fun _ => 0, 0, 0⟩ [] :=
  ⟨rfl, Nat.zero_le _, hm, fun _ => rfl, fun i h => absurd h (by simp), fun i h => absurd h (by simp), fun i h => absurd h (by simp),
    fun q hq => absurd hq (by simp)⟩

/-! ## The two-loop recursion -/

theorem loop1_other {m : ℕ} {b : Buf N} (k : ℕ) (s : (ℕ → ℝ) × Pt N) (i : ℕ) (hi : ∀ j < k, idx m b j ≠ i) :
    (loop1 m b k s).1 i = s.1 i := by
  induction k generalizing s with
  | zero => rfl
  | succ k ih =>
    unfold loop1
    simp only
    rw [ih _ (fun j hj => hi j (by omega))]
    exact Function.update_of_ne (Ne.symm (hi k (by omega))) _ _

theorem loops_eq {m : ℕ} {b : Buf N} {ps : List (Pt N × Pt N)} (h : Holds m b ps) (γ : ℝ) (k : ℕ) (hk : k ≤ ps.length)
    (s : (ℕ → ℝ) × Pt N) (alpha : ℕ → ℝ) (ha : ∀ j < k, alpha (idx m b j) = (loop1 m b k s).1 (idx m b j)) :
    (List.range k).foldl (loop2Body m b alpha) (fun j => γ * (loop1 m b k s).2 j) = invHess γ (ps.take k).reverse s.2 := by
  induction k generalizing s with
  | zero => rfl
  | succ k ih =>
    have hkm : k < m := by have := h.le; omega
    have hk' : k < ps.length := by omega
    have hs := h.s k hk'
    have hy := h.y k hk'
    have hr := h.rho k hk'
    have htake : (ps.take (k + 1)).reverse = ps[k] :: (ps.take k).reverse := by
      rw [List.take_succ_eq_append_getElem hk', List.reverse_append]
      rfl
    have hloop : loop1 m b (k + 1) s = loop1 m b k (Function.update s.1 (idx m b k) (b.rho (idx m b k) * dot (b.s (idx m b k)) s.2),
        fun j => s.2 j - b.rho (idx m b k) * dot (b.s (idx m b k)) s.2 * b.y (idx m b k) j) := rfl
    have hak : alpha (idx m b k) = b.rho (idx m b k) * dot (b.s (idx m b k)) s.2 := by
      rw [ha k (by omega), hloop, loop1_other _ _ _ (fun j hj he => by
        have := idx_inj (by omega) hkm he
        omega)]
      exact Function.update_self ..
    rw [List.range_succ, List.foldl_append, List.foldl_cons, List.foldl_nil]
    rw [hloop] at ha ⊢
    rw [ih (by omega) _ (fun j hj => ha j (by omega)), htake]
    have hq : ps[k] = (ps[k].1, ps[k].2) := rfl
    rw [hq]
    funext j
    simp only [loop2Body, invHess]
    rw [hak, hs, hy, hr]
    have e : (fun j => s.2 j - 1 / dot ps[k].1 ps[k].2 * dot ps[k].1 s.2 * ps[k].2 j) =
        fun j => s.2 j - dot ps[k].1 s.2 / dot ps[k].1 ps[k].2 * ps[k].2 j := by
      funext j; ring
    rw [e]
    ring

theorem gamma_pos {m : ℕ} {b : Buf N} {ps : List (Pt N × Pt N)} (h : Holds m b ps) : 0 < gammaOf m b := by
  have he : (0 : ℝ) < eps := by unfold eps; positivity
  unfold gammaOf
  split
  · next hc =>
    rw [h.count] at hc ⊢
    split
    · next hy =>
      refine div_pos ?_ (he.trans hy)
      rw [h.s _ (by omega), h.y _ (by omega)]
      exact lt_trans (by positivity) (h.pos _ (List.getElem_mem _))
    · exact one_pos
  · exact one_pos

/-- **The two-loop recursion applies the approximate inverse Hessian** of the pairs held to the gradient, whatever the scratch
vector held before, with a positive initial scale; its result has a positive inner product with a gradient that is not zero. -/
theorem twoLoop_spec {m : ℕ} {b : Buf N} {ps : List (Pt N × Pt N)} (h : Holds m b ps) (alpha : ℕ → ℝ) (g : Pt N) :
    0 < gammaOf m b ∧ twoLoop m b alpha g = invHess (gammaOf m b) ps.reverse g ∧
      (g ≠ 0 → 0 < ∑ j, g j * twoLoop m b alpha g j) := by
  have e : twoLoop m b alpha g = invHess (gammaOf m b) ps.reverse g := by
    unfold twoLoop
    simp only [h.count]
    have := loops_eq h (gammaOf m b) ps.length (le_refl _) (alpha, g) (loop1 m b ps.length (alpha, g)).1 (fun _ _ => rfl)
    rw [List.take_length] at this
    exact this
  refine ⟨gamma_pos h, e, fun hg => ?_⟩
  show 0 < dot g (twoLoop m b alpha g)
  rw [e]
  refine invHess_pos (gamma_pos h) _ (fun q hq => ?_) hg
  exact lt_trans (by positivity) (h.pos q (List.mem_reverse.1 hq))

/-- Not vacuous: a buffer for two pairs after three pairs have been stored. -/
example : ∃ (b : Buf 1) (ps : List (Pt 1 × Pt 1)), Holds 2 b ps ∧ ps.length = 2 := by
  have h1 : (1 : ℝ) / 10 ^ 18 < dot (N := 1) (fun _ => 1) (fun _ => 1) := by norm_num [dot]
  have a1 := (store_spec (empty_holds (N := 1) (m := 2) (by norm_num)) (fun _ => 1) (fun _ => 1)).1 h1
  have a2 := (store_spec a1 (fun _ => 1) (fun _ => 1)).1 h1
  have a3 := (store_spec a2 (fun _ => 1) (fun _ => 1)).1 h1
  exact ⟨_, _, a3, rfl⟩

/-! ## The line search -/

theorem quo_ret (a : ℝ) {b : ℝ} (h : b ≠ 0) : quo a b = .ret (a / b) := by
  unfold quo
  rw [if_neg h]

/-- The states of the loop. -/
def Fine (z : Back) : Prop := 0 < z.alam ∧ (z.alam = 1 ∨ (z.alam < 1 ∧ z.alam < z.alam2))

theorem cubicMin_ret {slope alam a b : ℝ} (hs : slope < 0) (hb : a = 0 → b ≠ 0) : ∃ t, cubicMin slope alam a b = .ret t := by
  unfold cubicMin
  by_cases ha : a = 0
  · rw [if_pos ha, quo_ret _ (mul_ne_zero two_ne_zero (hb ha))]
    exact ⟨_, rfl⟩
  · rw [if_neg ha]
    split
    · exact ⟨_, rfl⟩
    · next hd =>
      split
      · rw [quo_ret _ (mul_ne_zero three_ne_zero ha)]
        exact ⟨_, rfl⟩
      · next hb0 =>
        have : 0 < b + Real.sqrt (b * b - 3 * a * slope) := add_pos_of_pos_of_nonneg (not_le.1 hb0) (Real.sqrt_nonneg _)
        rw [quo_ret _ this.ne']
        exact ⟨_, rfl⟩

theorem tmplam_spec {f slope fnew : ℝ} {z : Back} (hz : Fine z) (hs : slope < 0) (hn : ¬ fnew ≤ f + 1 / 10 ^ 4 * z.alam * slope) :
    ∃ t, tmplam f slope fnew z = .ret t ∧ t ≤ 6 / 10 * z.alam := by
  rw [not_le] at hn
  obtain ⟨hpos, hz⟩ := hz
  unfold tmplam
  by_cases h1 : z.alam = 1
  · rw [if_pos h1]
    rw [h1] at hn ⊢
    have hd : 0 < fnew - f - slope := by linarith
    rw [quo_ret _ (by positivity)]
    refine ⟨_, rfl, ?_⟩
    rw [div_le_iff₀ (by positivity)]
    linarith
  · rw [if_neg h1]
    obtain ⟨hz1, hz2⟩ := hz.resolve_left h1
    have n1 : z.alam * z.alam ≠ 0 := (mul_pos hpos hpos).ne'
    have hpos2 : 0 < z.alam2 := hpos.trans hz2
    have n2 : z.alam2 * z.alam2 ≠ 0 := (mul_pos hpos2 hpos2).ne'
    have n3 : z.alam - z.alam2 ≠ 0 := by linarith
    unfold cubicStep
    simp only [quo_ret _ n1, quo_ret _ n2, quo_ret _ n3, Outcome.bind_ret]
    set r1 := fnew - f - z.alam * slope with hr1
    set r2 := z.f2 - f - z.alam2 * slope with hr2
    have hr1pos : 0 < r1 := by
      have : 1 / 10 ^ 4 * z.alam * slope - z.alam * slope = -(9999 / 10000) * (z.alam * slope) := by ring
      have h2 : z.alam * slope < 0 := mul_neg_of_pos_of_neg hpos hs
      rw [hr1]
      linarith
    obtain ⟨t, ht⟩ := cubicMin_ret (slope := slope) (alam := z.alam)
      (a := (r1 / (z.alam * z.alam) - r2 / (z.alam2 * z.alam2)) / (z.alam - z.alam2))
      (b := (-z.alam2 * r1 / (z.alam * z.alam) + z.alam * r2 / (z.alam2 * z.alam2)) / (z.alam - z.alam2)) hs (by
        intro ha hb
        have ha' : r1 / (z.alam * z.alam) = r2 / (z.alam2 * z.alam2) := by
          rcases div_eq_zero_iff.1 ha with h | h
          · linarith
          · exact absurd h n3
        have hb' : -z.alam2 * r1 / (z.alam * z.alam) + z.alam * r2 / (z.alam2 * z.alam2) = 0 := by
          rcases div_eq_zero_iff.1 hb with h | h
          · exact h
          · exact absurd h n3
        have e1 : -z.alam2 * r1 / (z.alam * z.alam) + z.alam * r2 / (z.alam2 * z.alam2) =
            (z.alam - z.alam2) * (r1 / (z.alam * z.alam)) := by
          have e2 : z.alam * r2 / (z.alam2 * z.alam2) = z.alam * (r2 / (z.alam2 * z.alam2)) := by ring
          rw [e2, ← ha']
          ring
        rw [e1] at hb'
        have h3 : 0 < r1 / (z.alam * z.alam) := by positivity
        rcases mul_eq_zero.1 hb' with h | h
        · exact n3 h
        · linarith)
    rw [ht, Outcome.bind_ret]
    refine ⟨_, rfl, ?_⟩
    split <;> linarith

theorem next_fine {z : Back} (hz : Fine z) {t v : ℝ} (ht : t ≤ 6 / 10 * z.alam) :
    Fine ⟨max t (1 / 10 * z.alam), z.alam, v⟩ ∧ max t (1 / 10 * z.alam) ≤ 6 / 10 * z.alam := by
  have hp := hz.1
  have hm : max t (1 / 10 * z.alam) ≤ 6 / 10 * z.alam := max_le ht (by linarith)
  have h1 : z.alam ≤ 1 := by rcases hz.2 with h | h <;> linarith
  refine ⟨⟨lt_of_lt_of_le (by positivity) (le_max_right _ _), Or.inr ⟨?_, ?_⟩⟩, hm⟩
  · show max t (1 / 10 * z.alam) < 1
    linarith
  · show max t (1 / 10 * z.alam) < z.alam
    linarith

theorem backLoop_total {phi : ℝ → ℝ} {f slope test : ℝ} (hs : slope < 0) (n : ℕ) (z : Back) (hz : Fine z)
    (hn : z.alam * (6 / 10) ^ n < 1 / 10 ^ 12 / test) : ∃ a, backLoop phi f slope test (n + 1) z = .ret a := by
  induction n generalizing z with
  | zero =>
    unfold backLoop
    rw [if_pos (show belowMin z.alam test from Or.inr (by simpa using hn))]
    exact ⟨_, rfl⟩
  | succ n ih =>
    unfold backLoop
    split
    · exact ⟨_, rfl⟩
    · split
      · exact ⟨_, rfl⟩
      · next h1 h2 =>
        obtain ⟨t, ht, hle⟩ := tmplam_spec hz hs h2
        rw [ht, Outcome.bind_ret]
        obtain ⟨g1, g2⟩ := next_fine hz (v := phi z.alam) hle
        refine ih _ g1 (lt_of_le_of_lt ?_ hn)
        rw [pow_succ]
        have : (0 : ℝ) ≤ (6 / 10) ^ n := by positivity
        calc max t (1 / 10 * z.alam) * (6 / 10) ^ n ≤ (6 / 10 * z.alam) * (6 / 10) ^ n := mul_le_mul_of_nonneg_right g2 this
          _ = z.alam * ((6 / 10) ^ n * (6 / 10)) := by ring

theorem backLoop_prop {phi : ℝ → ℝ} {f slope test : ℝ} (hs : slope < 0 ∨ test = 0) (n : ℕ) (z : Back) (hz : Fine z) (a : ℝ)
    (h : backLoop phi f slope test n z = .ret a) :
    0 < a ∧ a ≤ 1 ∧ (belowMin a test ∨ phi a ≤ f + 1 / 10 ^ 4 * a * slope) := by
  have h1 : ∀ z : Back, Fine z → z.alam ≤ 1 := fun z hz => by rcases hz.2 with h | h <;> linarith
  induction n generalizing z with
  | zero => cases h
  | succ n ih =>
    unfold backLoop at h
    split at h
    · next hb => cases h; exact ⟨hz.1, h1 z hz, Or.inl hb⟩
    · split at h
      · next hb => cases h; exact ⟨hz.1, h1 z hz, Or.inr hb⟩
      · next c1 c2 =>
        rcases hs with hs | hs
        · obtain ⟨t, ht, hle⟩ := tmplam_spec hz hs c2
          rw [ht, Outcome.bind_ret] at h
          exact ih _ (next_fine hz hle).1 h
        · exact absurd (Or.inl hs) c1

theorem stepTest_ge (x p : Pt N) : 0 ≤ stepTest x p ∧ ∀ j, |p j| / max |x j| 1 ≤ stepTest x p := by
  constructor
  · by_contra h
    rw [not_le] at h
    unfold stepTest at h
    exact lt_irrefl _ ((foldl_max _ _ _ _).1 h).1
  · intro j
    by_contra h
    rw [not_le] at h
    unfold stepTest at h
    exact lt_irrefl _ (((foldl_max _ _ _ _).1 h).2 j (List.mem_finRange j))

theorem stepTest_zero (x : Pt N) : stepTest x (fun _ => 0) = 0 := by
  unfold stepTest
  have : ∀ (l : List (Fin N)), (open Classical in l.foldl (fun t j => if |(0 : ℝ)| / max |x j| 1 > t then |(0 : ℝ)| / max |x j| 1 else t) 0) = 0 := by
    intro l
    induction l with
    | nil => rfl
    | cons k l ih => simpa using ih
  exact this _

/-- The line search along a direction that passed through `descent` has a negative slope or nothing to do. -/
theorem slope_cases (x g p : Pt N) : dot g (descent g p) < 0 ∨ stepTest x (descent g p) = 0 := by
  unfold descent
  split
  · by_cases hg : g = 0
    · right
      subst hg
      simpa using stepTest_zero x
    · left
      rw [dot_neg]
      linarith [dot_self_pos hg]
  · next h => exact Or.inl (not_le.1 h)

/-- **The backtracking line search ends** for every function, point, gradient and direction, without a division by zero, at a
point of the line with a parameter in `(0, 1]`; there the value has decreased enough, or the step is within `1e-12` relative in
every component. -/
theorem backtrack_spec (f : Pt N → ℝ) (x g p : Pt N) (stpmax : ℝ) :
    ∃ a, backtrack f x g p stpmax = .ret (fun j => x j + a * descent g (scaled p stpmax) j) ∧ 0 < a ∧ a ≤ 1 ∧
      dot g (descent g (scaled p stpmax)) ≤ 0 ∧
      (f (fun j => x j + a * descent g (scaled p stpmax) j) ≤ f x + 1 / 10 ^ 4 * a * dot g (descent g (scaled p stpmax)) ∨
        ∀ j, |a * descent g (scaled p stpmax) j| ≤ 1 / 10 ^ 12 * max |x j| 1) := by
  set d := descent g (scaled p stpmax) with hd
  have hfine : Fine ⟨1, 0, 0⟩ := ⟨one_pos, Or.inl rfl⟩
  have hc := slope_cases x g (scaled p stpmax)
  rw [← hd] at hc
  have hex : ∃ k a, backLoop (fun a => f (along x d a)) (f x) (dot g d) (stepTest x d) k ⟨1, 0, 0⟩ = .ret a := by
    by_cases ht : stepTest x d = 0
    · refine ⟨1, 1, ?_⟩
      unfold backLoop
      rw [if_pos (show belowMin 1 (stepTest x d) from Or.inl ht)]
    · have hs := hc.resolve_right ht
      have htp : 0 < stepTest x d := lt_of_le_of_ne (stepTest_ge x d).1 (Ne.symm ht)
      obtain ⟨n, hn⟩ := exists_pow_lt_of_lt_one (show (0 : ℝ) < 1 / 10 ^ 12 / stepTest x d by positivity) (show (6 / 10 : ℝ) < 1 by norm_num)
      obtain ⟨a, ha⟩ := backLoop_total (phi := fun a => f (along x d a)) (f := f x) hs n ⟨1, 0, 0⟩ hfine (by simpa using hn)
      exact ⟨_, a, ha⟩
  have hb : backtrack f x g p stpmax = .ret (along x d hex.choose_spec.choose) := by
    unfold backtrack
    simp only [← hd]
    rw [dif_pos hex]
  obtain ⟨h1, h2, h3⟩ := backLoop_prop hc _ _ hfine _ hex.choose_spec.choose_spec
  set a := hex.choose_spec.choose
  refine ⟨a, hb, h1, h2, descent_slope _ _, ?_⟩
  rcases h3 with h3 | h3
  · right
    intro j
    have hmax : (0 : ℝ) < max |x j| 1 := lt_of_lt_of_le one_pos (le_max_right _ _)
    have hj := (stepTest_ge x d).2 j
    rw [div_le_iff₀ hmax] at hj
    rw [abs_mul, abs_of_pos h1]
    have hat : a * stepTest x d ≤ 1 / 10 ^ 12 := by
      rcases h3 with h3 | h3
      · rw [h3, mul_zero]; positivity
      · by_cases ht : stepTest x d = 0
        · rw [ht, mul_zero]; positivity
        · have htp : 0 < stepTest x d := lt_of_le_of_ne (stepTest_ge x d).1 (Ne.symm ht)
          rw [lt_div_iff₀ htp] at h3
          exact h3.le
    calc a * |d j| ≤ a * (stepTest x d * max |x j| 1) := mul_le_mul_of_nonneg_left hj h1.le
      _ = a * stepTest x d * max |x j| 1 := by ring
      _ ≤ 1 / 10 ^ 12 * max |x j| 1 := mul_le_mul_of_nonneg_right hat hmax.le
  · exact Or.inl h3

/-! ## The method -/

theorem lrun_good (f : Pt N → ℝ) (G : Pt N → Pt N) (ftol gtol stpmax : ℝ) (hg : 0 < gtol) (m : ℕ) (alphas : ℕ → ℕ → ℝ) (k iter : ℕ)
    (s : LSt N) (hs : s.fret = f s.x) :
    ∃ r, lrun f G ftol gtol stpmax m alphas k iter s = .ret r ∧ r.fmin = f r.xmin ∧ r.iterations ≤ iter + k + 1 ∧
      (r.converged = true → r.iterations ≤ iter + k ∧ ((∀ j, |G r.xmin j| * max |r.xmin j| 1 < gtol * max |r.fmin| 1) ∨
        ∃ x, 2 * |r.fmin - f x| ≤ ftol * (|r.fmin| + |f x| + 1 / 10 ^ 18))) ∧
      (r.converged = false → r.iterations = iter + k + 1) := by
  induction k generalizing iter s with
  | zero => exact ⟨_, rfl, hs, by simp, (fun h => by cases h), fun _ => by simp⟩
  | succ k ih =>
    unfold lrun
    obtain ⟨a, ha, -⟩ := backtrack_spec f s.x s.g (direction m (alphas iter) s) stpmax
    rw [ha, Outcome.bind_ret]
    set x' : Pt N := fun j => s.x j + a * descent s.g (scaled (direction m (alphas iter) s) stpmax) j
    by_cases c1 : valueTest ftol (f x') s.fret
    · rw [if_pos c1]
      refine ⟨_, rfl, rfl, by simp only; omega, fun _ => ⟨by simp only; omega, Or.inr ⟨s.x, ?_⟩⟩, fun h => by cases h⟩
      unfold valueTest at c1
      rw [hs] at c1
      exact c1
    · rw [if_neg c1]
      by_cases c2 : gradTest (f x') x' (G x') < gtol
      · rw [if_pos c2]
        exact ⟨_, rfl, rfl, by simp only; omega, fun _ => ⟨by simp only; omega, Or.inl ((gradTest_lt hg).1 c2)⟩, fun h => by cases h⟩
      · rw [if_neg c2]
        obtain ⟨r, h1, h2, h3, h4, h5⟩ := ih (iter + 1) (lnext m s x' (G x') (f x')) rfl
        refine ⟨r, h1, h2, by omega, fun hc => ⟨?_, (h4 hc).2⟩, fun hc => ?_⟩
        · have := (h4 hc).1; omega
        · have := h5 hc; omega

/-- **L-BFGS** for every function, every gradient handed to it, every start, memory size and all positive tolerances and limits,
whatever the scratch vector held: it returns; the value returned is the function's at the point returned; the flag of
convergence comes within the limit and means that the scaled gradient is below its tolerance or that the last step changed the
value by no more than the fractional tolerance.  Without the flag the number of iterations reported is one more than the
limit. -/
theorem lbfgs_spec (f : Pt N → ℝ) (G : Pt N → Pt N) (ftol gtol : ℝ) (maxIter memory : ℤ) (alphas : ℕ → ℕ → ℝ) (x0 : Pt N)
    (hf : 0 < ftol) (hg : 0 < gtol) (hm : 0 < maxIter) (hm' : 0 < memory) :
    ∃ r, lbfgs f G ftol gtol maxIter memory alphas x0 = .ret r ∧ r.fmin = f r.xmin ∧
      (r.converged = true → (r.iterations : ℤ) ≤ maxIter ∧ ((∀ j, |G r.xmin j| * max |r.xmin j| 1 < gtol * max |r.fmin| 1) ∨
        ∃ x, 2 * |r.fmin - f x| ≤ ftol * (|r.fmin| + |f x| + 1 / 10 ^ 18))) ∧
      (r.converged = false → (r.iterations : ℤ) = maxIter + 1) := by
  obtain ⟨r, h1, h2, -, h4, h5⟩ := lrun_good f G ftol gtol (maxStep x0) hg memory.toNat alphas maxIter.toNat 0 (lstart f G x0) rfl
  refine ⟨r, ?_, h2, fun hc => ⟨?_, (h4 hc).2⟩, fun hc => ?_⟩
  · unfold lbfgs
    rw [if_neg (not_le.2 hf), if_neg (not_le.2 hg), if_neg (not_le.2 hm), if_neg (not_le.2 hm')]
    exact h1
  · have := (h4 hc).1; omega
  · have := h5 hc; omega

/-- The state reached from a state in one iteration that does not return. -/
def LNext (f : Pt N → ℝ) (G : Pt N → Pt N) (stpmax : ℝ) (m : ℕ) (s s' : LSt N) : Prop :=
  ∃ alpha x', backtrack f s.x s.g (direction m alpha s) stpmax = .ret x' ∧ s' = lnext m s x' (G x') (f x')

/-- **Every iteration of L-BFGS** holds at most `m` correction pairs, all with positive curvature, and the direction it takes is
minus their approximate inverse Hessian applied to the gradient, which descends unless the gradient is zero. -/
theorem lreachable_spec (f : Pt N → ℝ) (G : Pt N → Pt N) (x0 : Pt N) (stpmax : ℝ) (m : ℕ) (hm : 0 < m) (s : LSt N)
    (h : Relation.ReflTransGen (LNext f G stpmax m) (lstart f G x0) s) :
    s.g = G s.x ∧ s.fret = f s.x ∧ ∃ ps, Holds m s.buf ps ∧ ∀ alpha, ∃ γ > 0,
      direction m alpha s = (fun j => -invHess γ ps.reverse s.g j) ∧ (s.g ≠ 0 → ∑ j, s.g j * direction m alpha s j < 0) := by
  have key : s.g = G s.x ∧ s.fret = f s.x ∧ ∃ ps, Holds m s.buf ps := by
    induction h with
    | refl => exact ⟨rfl, rfl, [], empty_holds hm⟩
    | @tail b c hab hbc ih =>
      obtain ⟨alpha, x', -, rfl⟩ := hbc
      obtain ⟨-, -, ps, hps⟩ := ih
      refine ⟨rfl, rfl, ?_⟩
      by_cases hsy : 1 / 10 ^ 18 < dot (fun j => x' j - b.x j) (fun j => G x' j - b.g j)
      · exact ⟨_, (store_spec hps _ _).1 hsy⟩
      · refine ⟨ps, ?_⟩
        have := (store_spec hps _ _).2 hsy
        show Holds m (store m b.buf _ _) ps
        rw [this]
        exact hps
  obtain ⟨h1, h2, ps, hps⟩ := key
  refine ⟨h1, h2, ps, hps, fun alpha => ⟨gammaOf m s.buf, gamma_pos hps, ?_, fun hg => ?_⟩⟩
  · unfold direction
    rw [(twoLoop_spec hps alpha s.g).2.1]
  · show dot s.g (fun j => -(twoLoop m s.buf alpha s.g j)) < 0
    rw [dot_neg]
    have := (twoLoop_spec hps alpha s.g).2.2 hg
    exact neg_neg_of_pos this

/-- **The rejected inputs.** -/
theorem lbfgs_throws (f : Pt N → ℝ) (G : Pt N → Pt N) (ftol gtol : ℝ) (maxIter memory : ℤ) (alphas : ℕ → ℕ → ℝ) (x0 : Pt N)
    (h : ftol ≤ 0 ∨ gtol ≤ 0 ∨ maxIter ≤ 0 ∨ memory ≤ 0) :
    lbfgs f G ftol gtol maxIter memory alphas x0 = .exn (.mml "MultidimOptimizationInputError") := by
  unfold lbfgs
  by_cases h1 : ftol ≤ 0
  · rw [if_pos h1]
  · rw [if_neg h1]
    by_cases h2 : gtol ≤ 0
    · rw [if_pos h2]
    · rw [if_neg h2]
      by_cases h3 : maxIter ≤ 0
      · rw [if_pos h3]
      · rw [if_neg h3, if_pos (by tauto)]

/-- **L-BFGS can return a point worse than its start**: the line search accepts whatever value it finds once the step is below its
limit.  For the function that is 0 at the start and 1 elsewhere, with gradient 1, one iteration allowed returns the value 1, and
reports two iterations. -/
theorem lbfgs_worse (ftol gtol : ℝ) (memory : ℤ) (alphas : ℕ → ℕ → ℝ) (hf : 0 < ftol) (hf1 : ftol ≤ 1) (hg : 0 < gtol) (hg1 : gtol ≤ 1)
    (hm : 0 < memory) :
    open Classical in
    ∃ x, lbfgs (N := 1) (fun x => if x = 0 then 0 else 1) (fun _ _ => 1) ftol gtol 1 memory alphas 0 = .ret ⟨x, 1, 2, false⟩ := by
  classical
  set f : Pt 1 → ℝ := fun x => if x = 0 then 0 else 1 with hfd
  set G : Pt 1 → Pt 1 := fun _ _ => 1 with hGd
  have hf0 : f 0 = 0 := by simp [hfd]
  unfold lbfgs
  rw [if_neg (not_le.2 hf), if_neg (not_le.2 hg), if_neg (by norm_num), if_neg (not_le.2 hm)]
  show ∃ x, lrun f G ftol gtol _ memory.toNat alphas 1 0 (lstart f G 0) = _
  unfold lrun
  obtain ⟨a, ha, hpos, hle, -, hor⟩ := backtrack_spec f (lstart f G 0).x (lstart f G 0).g
    (direction memory.toNat (alphas 0) (lstart f G 0)) (maxStep (N := 1) 0)
  rw [ha, Outcome.bind_ret]
  -- the direction is -1
  have hdir : direction memory.toNat (alphas 0) (lstart f G 0) = fun _ => -1 := by
    funext j
    simp [direction, twoLoop, lstart, loop1, gammaOf, hGd]
  have hsc : scaled (N := 1) (fun _ => -1) (maxStep (N := 1) 0) = fun _ => -1 := by
    unfold scaled
    rw [if_neg]
    simp [dot, maxStep]
  have hde : descent (N := 1) (lstart f G 0).g (fun _ => -1) = fun _ => -1 := by
    unfold descent
    rw [if_neg]
    simp [dot, lstart, hGd]
  rw [hdir, hsc, hde] at hor ⊢
  set x' : Pt 1 := fun j => (lstart f G 0).x j + a * -1 with hx'
  have hxa : ∀ j, x' j = -a := fun j => by simp [hx', lstart]
  have hne : x' ≠ 0 := by
    intro h
    have := congrFun h 0
    rw [hxa] at this
    simp at this
    linarith
  have hfx : f x' = 1 := by simp [hfd, hne]
  rw [hfx]
  have c1 : ¬ valueTest ftol 1 (lstart f G 0).fret := by
    show ¬ valueTest ftol 1 (f 0)
    rw [hf0]
    unfold valueTest eps
    norm_num
    nlinarith
  have c2 : ¬ gradTest 1 x' (G x') < gtol := by
    rw [gradTest_lt hg]
    intro h
    have := h 0
    have h2 : (1 : ℝ) ≤ max |x' 0| 1 := le_max_right _ _
    simp [hGd] at this
    linarith [this.2]
  rw [if_neg c1, if_neg c2]
  exact ⟨x', rfl⟩

end Verif.Optim.QN
