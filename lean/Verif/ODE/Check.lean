import Verif.ODE.Local
import Mathlib.Data.List.GetD
import Mathlib.Tactic.FieldSimp
import Mathlib.Tactic.Positivity
import Mathlib.Tactic.LinearCombination

/-!
# Deciding the order conditions

Internal machinery: a program that evaluates the order conditions of a Runge–Kutta method with rational
coefficients on every tree up to a given size, in integers with a common denominator, and the proof
that a positive answer means the method has that order.
-/

set_option autoImplicit false

namespace Verif.ODE

/-- The coefficients of an explicit method: row `i` of `a` holds `a i 0, …, a i (i-1)`. -/
structure Tableau where
  a : List (List ℚ)
  b : List ℚ
  c : List ℚ

namespace Tableau

def A (T : Tableau) (i j : ℕ) : ℚ := (T.a.getD i []).getD j 0
def B (T : Tableau) (i : ℕ) : ℚ := T.b.getD i 0
def C (T : Tableau) (i : ℕ) : ℚ := T.c.getD i 0

end Tableau

namespace Check

/-- A common multiple of the denominators. -/
def den : List ℚ → ℕ
  | [] => 1
  | q :: l => Nat.lcm q.den (den l)

def toInt (D : ℕ) (q : ℚ) : ℤ := q.num * ((D / q.den : ℕ) : ℤ)

def dotL : List ℤ → List ℤ → ℤ
  | a :: l, b :: m => a * b + dotL l m
  | _, _ => 0

def mv (A : List (List ℤ)) (t : List ℤ) : List ℤ := A.map (fun r => dotL r t)

/-- What is recorded of a tree: its scaled stage weights, the inverse of its exact weight, the number of
its vertices, and a number that identifies equal trees quickly. -/
structure En where
  vec : List ℤ
  g : ℕ
  m : ℕ
  key : ℕ

def graftE (u : List ℤ) (t s : En) : En :=
  ⟨List.zipWith (· * ·) u s.vec, t.m * t.g * s.g, t.m + s.m,
    Nat.mod (Nat.mul (Nat.add (Nat.mul t.key t.key) 17) s.key) 1000003⟩

def tickE (C : List ℤ) (s : En) : En :=
  ⟨List.zipWith (· * ·) C s.vec, s.g, s.m + 1, Nat.mod (Nat.mul s.key 12345) 1000003⟩

def grafts (A : List (List ℤ)) (ts ss : List En) : List En :=
  ts.flatMap (fun t => ss.map (graftE (mv A t.vec) t))

def next (A : List (List ℤ)) (C : List ℤ) (tabs : List (List En)) : List En :=
  (tabs.headD []).map (tickE C) ++ (List.zipWith (grafts A) tabs tabs.reverse).flatten

def elemE (e : En) : List En → Bool
  | [] => false
  | x :: l => bif Nat.beq x.key e.key && decide (x.g = e.g) && decide (x.m = e.m)
      && decide (x.vec = e.vec) then true else elemE e l

def dd : List En → List En
  | [] => []
  | x :: l => if elemE x (dd l) then dd l else x :: dd l

def tabs (A : List (List ℤ)) (C : List ℤ) : ℕ → List (List En)
  | 0 => [[⟨A.map (fun _ => 1), 1, 1, 7⟩]]
  | n + 1 => dd (next A C (tabs A C n)) :: tabs A C n

def ok (D Db E K : ℕ) (v : ℤ) (g m : ℕ) : Bool :=
  decide ((v * ((g * m : ℕ) : ℤ) - ((Db * D ^ (m - 1) : ℕ) : ℤ)).natAbs * K
    ≤ E * (Db * D ^ (m - 1) * (g * m)))

/-- All trees with at most `n + 1` vertices. -/
def checkTabs (B : List ℤ) (D Db E K : ℕ) (ts : List (List En)) : Bool :=
  ts.all (fun l => l.all (fun e => ok D Db E K (dotL B e.vec) e.g e.m))

/-- The trees with `n + 2` vertices, without storing them. -/
def checkNext (A : List (List ℤ)) (C B : List ℤ) (D Db E K : ℕ) (ts : List (List En)) : Bool :=
  (ts.headD []).all (fun s => ok D Db E K (dotL (List.zipWith (· * ·) B C) s.vec) s.g (s.m + 1))
  && (List.zipWith (fun l l' => l.all (fun t => l'.all (fun s =>
      ok D Db E K (dotL (List.zipWith (· * ·) B (mv A t.vec)) s.vec) (t.m * t.g * s.g) (t.m + s.m))))
      ts ts.reverse).all id

/-- Row `i` has at most `i` entries. -/
def lower : List (List ℚ) → ℕ → Bool
  | [], _ => true
  | r :: l, i => decide (r.length ≤ i) && lower l (i + 1)

def checkZ (A : List (List ℤ)) (C B : List ℤ) (D Db E K n : ℕ) : Bool :=
  checkTabs B D Db E K (tabs A C n) && checkNext A C B D Db E K (tabs A C n)

/-- The order conditions hold up to `E / K` for all trees with at most `n + 2` vertices. -/
def check (T : Tableau) (E K n : ℕ) : Bool :=
  lower T.a 0 && decide (T.a.length = T.c.length) &&
  checkZ (T.a.map (fun r => r.map (toInt (den (T.a.flatten ++ T.c)))))
    (T.c.map (toInt (den (T.a.flatten ++ T.c)))) (T.b.map (toInt (den T.b)))
    (den (T.a.flatten ++ T.c)) (den T.b) E K n

/-! ## Soundness -/

theorem den_dvd : ∀ (l : List ℚ), ∀ q ∈ l, q.den ∣ den l
  | [], q, h => absurd h (List.not_mem_nil)
  | x :: l, q, h => by
      rcases List.mem_cons.mp h with rfl | h
      · exact Nat.dvd_lcm_left _ _
      · exact (den_dvd l q h).trans (Nat.dvd_lcm_right _ _)

theorem den_pos : ∀ l : List ℚ, 0 < den l
  | [] => Nat.one_pos
  | q :: l => Nat.lcm_pos q.pos (den_pos l)

theorem toInt_eq {D : ℕ} {q : ℚ} (h : q.den ∣ D) : ((toInt D q : ℤ) : ℚ) = D * q := by
  obtain ⟨k, rfl⟩ := h
  rw [toInt, Nat.mul_div_cancel_left _ q.pos]
  have := Rat.num_div_den q
  have hd : (q.den : ℚ) ≠ 0 := by exact_mod_cast q.den_nz
  rw [div_eq_iff hd] at this
  push_cast
  rw [this]; ring

theorem dotL_eq : ∀ r t : List ℤ, dotL r t
    = ∑ j ∈ Finset.range r.length, r.getD j 0 * t.getD j 0
  | [], t => by simp [dotL]
  | a :: l, [] => by simp [dotL]
  | a :: l, b :: m => by
      rw [dotL, dotL_eq l m, List.length_cons, Finset.sum_range_succ']
      simp [add_comm]

theorem dotL_range (r t : List ℤ) {n : ℕ} (h : r.length ≤ n) :
    dotL r t = ∑ j ∈ Finset.range n, r.getD j 0 * t.getD j 0 := by
  rw [dotL_eq]
  refine Finset.sum_subset (Finset.range_subset_range.mpr h) fun j _ hj => ?_
  have : r.length ≤ j := by simpa using hj
  rw [List.getD_eq_default _ _ this, zero_mul]

theorem getD_zipWith : ∀ (l m : List ℤ) (i : ℕ),
    (List.zipWith (· * ·) l m).getD i 0 = l.getD i 0 * m.getD i 0
  | [], m, i => by simp
  | a :: l, [], i => by simp
  | a :: l, b :: m, 0 => by simp
  | a :: l, b :: m, i + 1 => by simpa using getD_zipWith l m i

theorem length_zipWith (l m : List ℤ) :
    (List.zipWith (· * ·) l m).length = min l.length m.length := List.length_zipWith

theorem dotL_zip (b u s : List ℤ) :
    dotL (List.zipWith (· * ·) b u) s = dotL b (List.zipWith (· * ·) u s) := by
  rw [dotL_range _ _ (n := b.length) (by rw [length_zipWith]; exact min_le_left _ _), dotL_eq]
  refine Finset.sum_congr rfl fun j _ => ?_
  rw [getD_zipWith, getD_zipWith, mul_assoc]

theorem getD_map {α β : Type} (f : α → β) (l : List α) (i : ℕ) (a : α) (b : β) (h : f a = b) :
    (l.map f).getD i b = f (l.getD i a) := by
  subst h
  simp only [List.getD_eq_getElem?_getD, List.getElem?_map]
  cases l[i]? <;> rfl

/-- The scaled stage weights of a tree. -/
def V (A : List (List ℤ)) (C : List ℤ) : Tree → List ℤ
  | .dot => A.map (fun _ => 1)
  | .graft t s => List.zipWith (· * ·) (mv A (V A C t)) (V A C s)
  | .tick s => List.zipWith (· * ·) C (V A C s)

/-- The inverse of the exact weight. -/
def gam : Tree → ℕ
  | .dot => 1
  | .graft t s => t.ord * gam t * gam s
  | .tick s => gam s

def keyT : Tree → ℕ
  | .dot => 7
  | .graft t s => Nat.mod (Nat.mul (Nat.add (Nat.mul (keyT t) (keyT t)) 17) (keyT s)) 1000003
  | .tick s => Nat.mod (Nat.mul (keyT s) 12345) 1000003

def En.of (A : List (List ℤ)) (C : List ℤ) (τ : Tree) : En := ⟨V A C τ, gam τ, τ.ord, keyT τ⟩

theorem gam_pos : ∀ τ, 0 < gam τ
  | .dot => Nat.one_pos
  | .graft t s => Nat.mul_pos (Nat.mul_pos t.ord_pos (gam_pos t)) (gam_pos s)
  | .tick s => gam_pos s

theorem exact_gam : ∀ τ : Tree, (τ.exact : ℚ) = 1 / gam τ
  | .dot => by simp [Tree.exact, gam]
  | .graft t s => by
      have ht : (gam t : ℚ) ≠ 0 := by exact_mod_cast (gam_pos t).ne'
      have hs : (gam s : ℚ) ≠ 0 := by exact_mod_cast (gam_pos s).ne'
      have ho : (t.ord : ℚ) ≠ 0 := by exact_mod_cast t.ord_pos.ne'
      rw [Tree.exact, exact_gam t, exact_gam s, gam]
      push_cast
      field_simp
  | .tick s => by rw [Tree.exact, exact_gam s, gam]

theorem length_V (A : List (List ℤ)) (C : List ℤ) (h : A.length = C.length) :
    ∀ τ, (V A C τ).length = A.length
  | .dot => by simp [V]
  | .graft t s => by rw [V, length_zipWith, length_V A C h s, mv, List.length_map, min_self]
  | .tick s => by rw [V, length_zipWith, length_V A C h s, ← h, min_self]

theorem elemE_sound {e : En} : ∀ {l : List En}, elemE e l = true → e ∈ l
  | [], h => by simp [elemE] at h
  | x :: l, h => by
      rw [elemE] at h
      cases hb : (Nat.beq x.key e.key && decide (x.g = e.g) && decide (x.m = e.m)
        && decide (x.vec = e.vec)) with
      | true =>
        simp only [Bool.and_eq_true, decide_eq_true_eq] at hb
        obtain ⟨⟨⟨h1, h2⟩, h3⟩, h4⟩ := hb
        have h1 := Nat.eq_of_beq_eq_true h1
        have : x = e := by
          cases x; cases e; simp_all
        rw [this]; exact List.mem_cons_self
      | false =>
        rw [hb, cond_false] at h
        exact List.mem_cons_of_mem _ (elemE_sound h)

theorem mem_dd {e : En} : ∀ {l : List En}, e ∈ l → e ∈ dd l
  | [], h => h
  | x :: l, h => by
      rw [dd]
      rcases List.mem_cons.mp h with rfl | h
      · split
        · next he => exact elemE_sound he
        · exact List.mem_cons_self
      · split
        · exact mem_dd h
        · exact List.mem_cons_of_mem _ (mem_dd h)

theorem length_tabs (A : List (List ℤ)) (C : List ℤ) : ∀ n, (tabs A C n).length = n + 1
  | 0 => rfl
  | n + 1 => by rw [tabs, List.length_cons, length_tabs A C n]

theorem mem_zip {α β : Type} (f : α → α → β) (l : List α) {i j : ℕ} (d : α)
    (hij : i + j + 1 = l.length) : f (l.getD i d) (l.getD j d) ∈ List.zipWith f l l.reverse := by
  rw [List.mem_iff_getElem]
  have hi : i < l.length := by omega
  have hj : j < l.length := by omega
  refine ⟨i, by simp; omega, ?_⟩
  rw [List.getElem_zipWith, List.getElem_reverse, List.getD_eq_getElem _ _ hi,
    List.getD_eq_getElem _ _ hj]
  congr 2
  omega

theorem tabs_getD (A : List (List ℤ)) (C : List ℤ) (n k : ℕ) (hk : k ≤ n) :
    (tabs A C (n + 1)).getD (n + 1 - k) [] = (tabs A C n).getD (n - k) [] := by
  rw [tabs, show n + 1 - k = (n - k) + 1 by omega, List.getD_cons_succ]

theorem headD_getD {α : Type} (l : List (List α)) : l.headD [] = l.getD 0 [] := by
  cases l <;> rfl

theorem mem_tabs (A : List (List ℤ)) (C : List ℤ) :
    ∀ n k, k ≤ n → ∀ τ : Tree, τ.ord = k + 1 → En.of A C τ ∈ (tabs A C n).getD (n - k) []
  | 0, k, hk, τ, hτ => by
      have hk0 : k = 0 := by omega
      subst hk0
      cases τ with
      | dot => simp [tabs, En.of, V, gam, keyT, Tree.ord]
      | graft t s =>
        have := t.ord_pos; have := s.ord_pos
        rw [Tree.ord] at hτ; omega
      | tick s =>
        have := s.ord_pos
        rw [Tree.ord] at hτ; omega
  | n + 1, k, hk, τ, hτ => by
      by_cases hkn : k ≤ n
      · rw [tabs_getD A C n k hkn]
        exact mem_tabs A C n k hkn τ hτ
      · have hk1 : k = n + 1 := by omega
        subst hk1
        rw [Nat.sub_self, tabs, List.getD_cons_zero]
        refine mem_dd ?_
        rw [next, List.mem_append]
        cases τ with
        | dot => rw [Tree.ord] at hτ; omega
        | tick s =>
          left
          rw [Tree.ord] at hτ
          have := mem_tabs A C n n le_rfl s (by omega)
          rw [Nat.sub_self] at this
          rw [List.mem_map]
          refine ⟨En.of A C s, ?_, rfl⟩
          rwa [headD_getD]
        | graft t s =>
          right
          have h1 := t.ord_pos; have h2 := s.ord_pos
          rw [Tree.ord] at hτ
          have ht := mem_tabs A C n (t.ord - 1) (by omega) t (by omega)
          have hs := mem_tabs A C n (s.ord - 1) (by omega) s (by omega)
          rw [List.mem_flatten]
          refine ⟨_, mem_zip (grafts A) (tabs A C n) (i := n - (t.ord - 1)) (j := n - (s.ord - 1))
            [] (by rw [length_tabs]; omega), ?_⟩
          rw [grafts, List.mem_flatMap]
          exact ⟨_, ht, List.mem_map.mpr ⟨_, hs, rfl⟩⟩

theorem checkZ_sound {A : List (List ℤ)} {C B : List ℤ} {D Db E K n : ℕ}
    (h : checkZ A C B D Db E K n = true) (τ : Tree) (hτ : τ.ord ≤ n + 2) :
    ok D Db E K (dotL B (V A C τ)) (gam τ) τ.ord = true := by
  rw [checkZ, Bool.and_eq_true] at h
  obtain ⟨h1, h2⟩ := h
  have h0 := τ.ord_pos
  by_cases hn : τ.ord ≤ n + 1
  · have hm := mem_tabs A C n (τ.ord - 1) (by omega) τ (by omega)
    rw [checkTabs, List.all_eq_true] at h1
    have hi : n - (τ.ord - 1) < (tabs A C n).length := by rw [length_tabs]; omega
    rw [List.getD_eq_getElem _ _ hi] at hm
    have h3 := h1 _ (List.getElem_mem hi)
    rw [List.all_eq_true] at h3
    exact h3 _ hm
  · rw [checkNext, Bool.and_eq_true] at h2
    obtain ⟨h3, h4⟩ := h2
    cases τ with
    | dot => rw [Tree.ord] at hn; omega
    | tick s =>
      rw [Tree.ord] at hn hτ
      have := mem_tabs A C n n le_rfl s (by omega)
      rw [Nat.sub_self, ← headD_getD] at this
      rw [List.all_eq_true] at h3
      have h5 := h3 _ this
      rw [dotL_zip] at h5
      exact h5
    | graft t s =>
      have ht0 := t.ord_pos; have hs0 := s.ord_pos
      rw [Tree.ord] at hn hτ
      have ht := mem_tabs A C n (t.ord - 1) (by omega) t (by omega)
      have hs := mem_tabs A C n (s.ord - 1) (by omega) s (by omega)
      rw [List.all_eq_true] at h4
      have h5 := h4 _ (mem_zip _ (tabs A C n) (i := n - (t.ord - 1)) (j := n - (s.ord - 1))
            [] (by rw [length_tabs]; omega))
      simp only [id, List.all_eq_true] at h5
      have h6 := h5 _ ht _ hs
      rw [dotL_zip] at h6
      exact h6

theorem lower_spec : ∀ (l : List (List ℚ)) (k : ℕ), lower l k = true → ∀ i, (l.getD i []).length ≤ k + i
  | [], k, _, i => by simp
  | r :: l, k, h, 0 => by
      rw [lower, Bool.and_eq_true, decide_eq_true_eq] at h
      simpa using h.1
  | r :: l, k, h, i + 1 => by
      rw [lower, Bool.and_eq_true] at h
      have := lower_spec l (k + 1) h.2 i
      rw [List.getD_cons_succ]; omega

theorem V_spec (T : Tableau) (D : ℕ) (hD : ∀ q ∈ T.a.flatten ++ T.c, q.den ∣ D)
    (hl : ∀ i, (T.a.getD i []).length ≤ i) (hc : T.a.length = T.c.length) :
    ∀ (τ : Tree) (i : ℕ), i < T.a.length →
      (((V (T.a.map (fun r => r.map (toInt D))) (T.c.map (toInt D)) τ).getD i 0 : ℤ) : ℚ)
        = (D : ℚ) ^ (τ.ord - 1) * τ.stage T.A T.C i
  | .dot, i, hi => by
      rw [V, List.getD_eq_getElem _ _ (by simpa using hi)]
      simp [Tree.stage, Tree.ord]
  | .tick s, i, hi => by
      have h0 := s.ord_pos
      rw [V, getD_zipWith, getD_map _ _ _ 0 _ (by simp [toInt])]
      push_cast
      rw [V_spec T D hD hl hc s i hi, toInt_eq, Tree.stage, Tree.ord, Tableau.C,
        show s.ord + 1 - 1 = (s.ord - 1) + 1 by omega, pow_succ]
      · ring
      · rw [List.getD_eq_getElem _ _ (by omega)]
        exact hD _ (List.mem_append_right _ (List.getElem_mem _))
  | .graft t s, i, hi => by
      have ht0 := t.ord_pos
      have hs0 := s.ord_pos
      rw [V, getD_zipWith]
      push_cast
      rw [V_spec T D hD hl hc s i hi, mv,
        getD_map _ _ _ [] _ (by rfl), getD_map _ _ _ [] _ (by rfl),
        dotL_range _ _ (n := i) (by rw [List.length_map]; exact hl i)]
      push_cast
      have e : ∀ j ∈ Finset.range i,
          ((((T.a.getD i []).map (toInt D)).getD j 0 : ℤ) : ℚ)
            * (((V (T.a.map (fun r => r.map (toInt D))) (T.c.map (toInt D)) t).getD j 0 : ℤ) : ℚ)
          = (D : ℚ) ^ t.ord * (T.A i j * t.stage T.A T.C j) := by
        intro j hj
        have hj' := Finset.mem_range.mp hj
        rw [V_spec T D hD hl hc t j (by omega), getD_map _ _ _ 0 _ (by simp [toInt]), toInt_eq]
        · rw [Tableau.A, show t.ord = (t.ord - 1) + 1 by omega, pow_succ]
          simp only [Nat.add_sub_cancel]
          ring
        · by_cases hlen : j < (T.a.getD i []).length
          · rw [List.getD_eq_getElem _ _ hlen]
            refine hD _ (List.mem_append_left _ (List.mem_flatten.mpr ⟨_, ?_, List.getElem_mem _⟩))
            rw [List.getD_eq_getElem _ _ hi]
            exact List.getElem_mem _
          · rw [List.getD_eq_default _ _ (by omega)]
            exact one_dvd _
      rw [Finset.sum_congr rfl e, ← Finset.mul_sum, Tree.stage, Tree.ord,
        show t.ord + s.ord - 1 = t.ord + (s.ord - 1) by omega, pow_add]
      ring

theorem stage_cast (a : ℕ → ℕ → ℚ) (c : ℕ → ℚ) : ∀ (τ : Tree) (i : ℕ),
    ((τ.stage a c i : ℚ) : ℝ) = τ.stage (fun i j => (a i j : ℝ)) (fun i => (c i : ℝ)) i
  | .dot, i => by simp [Tree.stage]
  | .tick s, i => by rw [Tree.stage, Tree.stage]; push_cast; rw [stage_cast a c s i]
  | .graft t s, i => by
      rw [Tree.stage, Tree.stage]; push_cast; rw [stage_cast a c s i]
      congr 1
      exact Finset.sum_congr rfl fun j _ => by rw [stage_cast a c t j]

theorem exact_cast : ∀ τ : Tree, ((τ.exact : ℚ) : ℝ) = τ.exact
  | .dot => by simp [Tree.exact]
  | .tick s => by rw [Tree.exact, Tree.exact, exact_cast s]
  | .graft t s => by rw [Tree.exact, Tree.exact]; push_cast; rw [exact_cast t, exact_cast s]

/-- A positive answer of the check establishes the order of the method. -/
theorem check_sound {T : Tableau} {E K n : ℕ} (hK : 0 < K) (hb : T.b.length ≤ T.a.length)
    (h : check T E K n = true) :
    Order T.a.length (fun i j => (T.A i j : ℝ)) (fun i => (T.B i : ℝ)) (fun i => (T.C i : ℝ)) (n + 2)
      ((E : ℝ) / K) := by
  rw [check, Bool.and_eq_true, Bool.and_eq_true, decide_eq_true_eq] at h
  obtain ⟨⟨hl, hc⟩, hz⟩ := h
  have hl' : ∀ i, (T.a.getD i []).length ≤ i := fun i => by simpa using lower_spec _ 0 hl i
  intro τ hτ
  have h1 := checkZ_sound hz τ hτ
  set D := den (T.a.flatten ++ T.c) with hD
  set Db := den T.b with hDb
  rw [ok, decide_eq_true_eq] at h1
  have hDp : (0 : ℚ) < D := by exact_mod_cast den_pos _
  have hDbp : (0 : ℚ) < Db := by exact_mod_cast den_pos _
  have hg : (0 : ℚ) < gam τ := by exact_mod_cast gam_pos τ
  have ho : (0 : ℚ) < τ.ord := by exact_mod_cast τ.ord_pos
  have hKp : (0 : ℚ) < K := by exact_mod_cast hK
  have hv : ((dotL (T.b.map (toInt Db))
      (V (T.a.map (fun r => r.map (toInt D))) (T.c.map (toInt D)) τ) : ℤ) : ℚ)
      = Db * (D : ℚ) ^ (τ.ord - 1) * ∑ i ∈ Finset.range T.a.length, T.B i * τ.stage T.A T.C i := by
    rw [dotL_range _ _ (n := T.a.length) (by simpa using hb)]
    push_cast
    rw [Finset.mul_sum]
    refine Finset.sum_congr rfl fun i hi => ?_
    have hi' := Finset.mem_range.mp hi
    rw [V_spec T D (fun q hq => den_dvd _ q hq) hl' hc τ i hi', getD_map _ _ _ 0 _ (by simp [toInt]),
      toInt_eq, Tableau.B]
    · ring
    · by_cases hlen : i < T.b.length
      · rw [List.getD_eq_getElem _ _ hlen]
        exact den_dvd _ _ (List.getElem_mem _)
      · rw [List.getD_eq_default _ _ (by omega)]
        exact one_dvd _
  set X : ℚ := Db * (D : ℚ) ^ (τ.ord - 1) with hX
  have hXp : 0 < X := by positivity
  set S : ℚ := ∑ i ∈ Finset.range T.a.length, T.B i * τ.stage T.A T.C i with hS
  have h2 : |X * S * (gam τ * τ.ord) - X| * K ≤ E * (X * (gam τ * τ.ord)) := by
    have h3 : (((dotL (T.b.map (toInt Db))
      (V (T.a.map (fun r => r.map (toInt D))) (T.c.map (toInt D)) τ)
        * ((gam τ * τ.ord : ℕ) : ℤ) - ((Db * D ^ (τ.ord - 1) : ℕ) : ℤ)).natAbs * K : ℕ) : ℚ)
        ≤ ((E * (Db * D ^ (τ.ord - 1) * (gam τ * τ.ord)) : ℕ) : ℚ) := by exact_mod_cast h1
    push_cast [Nat.cast_natAbs] at h3
    rw [hv] at h3
    rw [hX] at *
    exact h3
  have h4 : |S - 1 / (gam τ * τ.ord)| ≤ (E : ℚ) / K := by
    have e : X * S * (gam τ * τ.ord) - X = (X * (gam τ * τ.ord)) * (S - 1 / (gam τ * τ.ord)) := by
      field_simp
    rw [e, abs_mul, abs_of_pos (show 0 < X * (gam τ * τ.ord : ℚ) by positivity)] at h2
    rw [le_div_iff₀ hKp]
    have hp : 0 < X * (gam τ * τ.ord : ℚ) := by positivity
    refine le_of_mul_le_mul_left ?_ hp
    linarith
  have h5 : ((|S - 1 / (gam τ * τ.ord)| : ℚ) : ℝ) ≤ (((E : ℚ) / K : ℚ) : ℝ) := by
    exact_mod_cast h4
  have e1 : ((S : ℚ) : ℝ) = ∑ i ∈ Finset.range T.a.length,
      (T.B i : ℝ) * τ.stage (fun i j => (T.A i j : ℝ)) (fun i => (T.C i : ℝ)) i := by
    rw [hS]; push_cast
    exact Finset.sum_congr rfl fun i _ => by rw [stage_cast]
  have e2 : (τ.exact : ℝ) / (τ.ord : ℝ) = ((1 / (gam τ * τ.ord) : ℚ) : ℝ) := by
    rw [← exact_cast, exact_gam]
    push_cast
    rw [div_div]
  rw [e2, ← e1]
  push_cast at h5 ⊢
  exact h5

end Check
end Verif.ODE
