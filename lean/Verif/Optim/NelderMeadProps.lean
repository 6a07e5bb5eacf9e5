import Verif.Optim.NelderMead
import Mathlib.LinearAlgebra.AffineSpace.Independent
import Mathlib.Tactic

/-!
# The downhill simplex method: the specification and the proofs
-/

set_option autoImplicit false

namespace Verif.Optim.NM

variable {N : ℕ}

/-! ## Specification -/

/-- The centroid of the vertices other than `h`. -/
noncomputable def face (p : Fin (N + 1) → Pt N) (h : Fin (N + 1)) : Pt N := fun j => (∑ i ∈ Finset.univ.erase h, p i j) / N

/-- The point `c + t (c - x)`: `t = 1` is the mirror image of `x` in `c`, `t = 2` twice as far, `t = -1/2` halfway. -/
def beyond (c x : Pt N) (t : ℝ) : Pt N := fun j => c j + t * (c j - x j)

/-- All the vertices moved halfway to the vertex `l`. -/
noncomputable def halved (p : Fin (N + 1) → Pt N) (l : Fin (N + 1)) : Fin (N + 1) → Pt N := fun i j => (p i j + p l j) / 2

/-- One textbook round of the method: `l` is a best vertex, `h` a worst one and `m` a worst one among the others; the new
simplex follows from reflection, expansion, contraction or shrinking. -/
inductive Round (f : Pt N → ℝ) (p : Fin (N + 1) → Pt N) : (Fin (N + 1) → Pt N) → Prop
  | mk (l h m : Fin (N + 1)) (hl : ∀ i, f (p l) ≤ f (p i)) (hh : ∀ i, f (p i) ≤ f (p h)) (hm : m ≠ h)
      (hm' : ∀ i, i ≠ h → f (p i) ≤ f (p m)) (q : Fin (N + 1) → Pt N)
      (expand : f (beyond (face p h) (p h) 1) ≤ f (p l) → f (beyond (face p h) (p h) 2) < f (beyond (face p h) (p h) 1) →
        q = Function.update p h (beyond (face p h) (p h) 2))
      (best : f (beyond (face p h) (p h) 1) ≤ f (p l) → ¬ f (beyond (face p h) (p h) 2) < f (beyond (face p h) (p h) 1) →
        q = Function.update p h (beyond (face p h) (p h) 1))
      (good : f (p l) < f (beyond (face p h) (p h) 1) → f (beyond (face p h) (p h) 1) < f (p m) →
        q = Function.update p h (beyond (face p h) (p h) 1))
      (outside : f (p l) < f (beyond (face p h) (p h) 1) → f (p m) ≤ f (beyond (face p h) (p h) 1) →
        f (beyond (face p h) (p h) 1) < f (p h) →
        (f (beyond (face p h) (p h) (1 / 2)) < f (beyond (face p h) (p h) 1) →
          q = Function.update p h (beyond (face p h) (p h) (1 / 2))) ∧
        (¬ f (beyond (face p h) (p h) (1 / 2)) < f (beyond (face p h) (p h) 1) →
          q = halved (Function.update p h (beyond (face p h) (p h) 1)) l))
      (inside : f (p l) < f (beyond (face p h) (p h) 1) → f (p h) ≤ f (beyond (face p h) (p h) 1) →
        (f (beyond (face p h) (p h) (-1 / 2)) < f (p h) → q = Function.update p h (beyond (face p h) (p h) (-1 / 2))) ∧
        (¬ f (beyond (face p h) (p h) (-1 / 2)) < f (p h) → q = halved p l)) :
      Round f p q

/-! ## The scan -/

theorem scan_aux (y : Fin (N + 1) → ℝ) (l : List (Fin (N + 1))) (a : Idx N) (S : Fin (N + 1) → Prop)
    (hlo : ∀ i, S i → y a.lo ≤ y i) (hhi : ∀ i, S i → y i ≤ y a.hi) (hne : a.nhi ≠ a.hi) (hle : y a.nhi ≤ y a.hi)
    (hn : ∀ i, S i → i ≠ a.hi → y i ≤ y a.nhi) :
    let b := l.foldl (scanStep y) a
    (∀ i, (S i ∨ i ∈ l) → y b.lo ≤ y i) ∧ (∀ i, (S i ∨ i ∈ l) → y i ≤ y b.hi) ∧ b.nhi ≠ b.hi ∧
      (∀ i, (S i ∨ i ∈ l) → i ≠ b.hi → y i ≤ y b.nhi) := by
  induction l generalizing a S with
  | nil => exact ⟨by simpa using hlo, by simpa using hhi, hne, by simpa using hn⟩
  | cons k l ih =>
    have key := ih (scanStep y a k) (fun i => S i ∨ i = k) ?_ ?_ ?_ ?_ ?_
    · obtain ⟨h1, h2, h3, h4⟩ := key
      have hs : ∀ i, (S i ∨ i ∈ k :: l) → ((S i ∨ i = k) ∨ i ∈ l) := by
        intro i hi
        rcases hi with h | h
        · exact Or.inl (Or.inl h)
        · rcases List.mem_cons.1 h with h | h
          · exact Or.inl (Or.inr h)
          · exact Or.inr h
      exact ⟨fun i hi => h1 i (hs i hi), fun i hi => h2 i (hs i hi), h3, fun i hi => h4 i (hs i hi)⟩
    · rintro i (hi | rfl)
      · simp only [scanStep]
        split
        · exact le_trans (by assumption) (hlo i hi)
        · exact hlo i hi
      · simp only [scanStep]
        split
        · exact le_refl _
        · exact (not_le.1 (by assumption)).le
    · rintro i (hi | rfl)
      · simp only [scanStep, scanHi]
        split
        · exact (hhi i hi).trans (le_of_lt (by assumption))
        · split <;> exact hhi i hi
      · simp only [scanStep, scanHi]
        split
        · exact le_refl _
        · split <;> exact not_lt.1 (by assumption)
    · simp only [scanStep, scanHi]
      split
      · intro h
        have h' : a.hi = k := h
        have hk : y k > y a.hi := by assumption
        rw [h'] at hk
        exact lt_irrefl _ hk
      · split
        · next h => exact h.2
        · exact hne
    · simp only [scanStep, scanHi]
      split
      · exact le_of_lt (by assumption)
      · split
        · exact not_lt.1 (by assumption)
        · exact hle
    · rintro i hi
      simp only [scanStep, scanHi]
      split
      · intro hik
        rcases hi with hi | hi
        · exact hhi i hi
        · exact absurd hi hik
      · next h1 =>
        split
        · next h2 =>
          intro hik
          rcases hi with hi | hi
          · exact (hn i hi hik).trans h2.1.le
          · rw [hi]
        · next h2 =>
          intro hik
          rcases hi with hi | hi
          · exact hn i hi hik
          · subst hi
            by_contra hc
            exact h2 ⟨not_le.1 hc, hik⟩

/-- The scan finds a best vertex, a worst one, and a worst one among the others. -/
theorem scan_spec (hN : N ≠ 0) (y : Fin (N + 1) → ℝ) :
    (∀ i, y (scan y).lo ≤ y i) ∧ (∀ i, y i ≤ y (scan y).hi) ∧ (scan y).nhi ≠ (scan y).hi ∧
      (∀ i, i ≠ (scan y).hi → y i ≤ y (scan y).nhi) := by
  have h01 : (0 : Fin (N + 1)) ≠ 1 := by
    intro h
    have h' := congrArg Fin.val h
    rw [Fin.val_zero, Fin.val_one', Nat.mod_eq_of_lt (by omega)] at h'
    omega
  have h := scan_aux y (List.finRange (N + 1)) (scan0 y) (fun _ => False) (by simp) (by simp)
    (by unfold scan0; split
        · exact h01.symm
        · exact h01)
    (by unfold scan0; split
        · exact le_of_lt (by assumption)
        · exact not_lt.1 (by assumption)) (by simp)
  obtain ⟨h1, h2, h3, h4⟩ := h
  exact ⟨fun i => h1 i (Or.inr (List.mem_finRange i)), fun i => h2 i (Or.inr (List.mem_finRange i)), h3,
    fun i hi => h4 i (Or.inr (List.mem_finRange i)) hi⟩

/-! ## The invariant -/

/-- What holds before every round. -/
structure Inv (f : Pt N → ℝ) (s : State N) : Prop where
  y : ∀ i, s.y i = f (s.p i)
  psum : s.psum = getPsum s.p
  count : s.nfunc = s.log.length
  seen : ∀ i, s.p i ∈ s.log
  best : ∀ x ∈ s.log, ∃ i, f (s.p i) ≤ f x

theorem psum_split (p : Fin (N + 1) → Pt N) (h : Fin (N + 1)) (hN : N ≠ 0) (j : Fin N) :
    getPsum p j = N * face p h j + p h j := by
  have hN' : (N : ℝ) ≠ 0 := Nat.cast_ne_zero.2 hN
  simp only [getPsum, face]
  rw [mul_div_cancel₀ _ hN', Finset.sum_erase_add _ _ (Finset.mem_univ h)]

/-- The trial point lies on the line from the vertex through the centroid of the opposite face. -/
theorem trial_eq (hN : N ≠ 0) (s : State N) (hs : s.psum = getPsum s.p) (h : Fin (N + 1)) (fac : ℝ) :
    trial s h fac = beyond (face s.p h) (s.p h) (-fac) := by
  have hN' : (N : ℝ) ≠ 0 := Nat.cast_ne_zero.2 hN
  funext j
  simp only [trial, beyond, hs]
  rw [psum_split s.p h hN j]
  field_simp
  ring

theorem face_update (p : Fin (N + 1) → Pt N) (h : Fin (N + 1)) (q : Pt N) : face (Function.update p h q) h = face p h := by
  funext j
  simp only [face]
  congr 1
  refine Finset.sum_congr rfl fun i hi => ?_
  rw [Function.update_of_ne (Finset.ne_of_mem_erase hi)]

theorem psum_update (p : Fin (N + 1) → Pt N) (h : Fin (N + 1)) (q : Pt N) (hN : N ≠ 0) (j : Fin N) :
    getPsum (Function.update p h q) j = getPsum p j + (q j - p h j) := by
  rw [psum_split _ h hN, psum_split p h hN, face_update, Function.update_self]
  ring

theorem amotry_ret (f : Pt N → ℝ) (s : State N) (h : Fin (N + 1)) (fac : ℝ) : (amotry f s h fac).2 = f (trial s h fac) := by
  unfold amotry
  simp only
  split <;> rfl

theorem amotry_yes {f : Pt N → ℝ} {s : State N} {h : Fin (N + 1)} {fac : ℝ} (hlt : f (trial s h fac) < s.y h) :
    (amotry f s h fac).1 =
      accept { s with nfunc := s.nfunc + 1, log := s.log ++ [trial s h fac] } h (trial s h fac) (f (trial s h fac)) := by
  unfold amotry
  simp only
  rw [if_pos hlt]

theorem amotry_no {f : Pt N → ℝ} {s : State N} {h : Fin (N + 1)} {fac : ℝ} (hlt : ¬ f (trial s h fac) < s.y h) :
    (amotry f s h fac).1 = { s with nfunc := s.nfunc + 1, log := s.log ++ [trial s h fac] } := by
  unfold amotry
  simp only
  rw [if_neg hlt]

theorem inv_amotry (hN : N ≠ 0) {f : Pt N → ℝ} {s : State N} (hs : Inv f s) (h : Fin (N + 1)) (fac : ℝ) :
    Inv f (amotry f s h fac).1 := by
  by_cases hlt : f (trial s h fac) < s.y h
  · rw [amotry_yes hlt]
    refine ⟨?_, ?_, ?_, ?_, ?_⟩
    · intro i
      by_cases hi : i = h
      · subst hi; simp [accept]
      · simp [accept, Function.update_of_ne hi, hs.y i]
    · funext j
      simp only [accept]
      rw [psum_update s.p h _ hN j, hs.psum]
    · simp [accept, hs.count]
    · intro i
      by_cases hi : i = h
      · subst hi; simp [accept]
      · simp only [accept, Function.update_of_ne hi]
        exact List.mem_append_left _ (hs.seen i)
    · intro x hx
      simp only [accept, List.mem_append, List.mem_singleton] at hx ⊢
      rcases hx with hx | rfl
      · obtain ⟨i, hi⟩ := hs.best x hx
        by_cases hih : i = h
        · subst hih
          refine ⟨i, ?_⟩
          rw [Function.update_self]
          rw [hs.y] at hlt
          exact hlt.le.trans hi
        · exact ⟨i, by rwa [Function.update_of_ne hih]⟩
      · exact ⟨h, by rw [Function.update_self]⟩
  · rw [amotry_no hlt]
    refine ⟨hs.y, hs.psum, by simp [hs.count], fun i => List.mem_append_left _ (hs.seen i), ?_⟩
    intro x hx
    simp only [List.mem_append, List.mem_singleton] at hx
    rcases hx with hx | rfl
    · exact hs.best x hx
    · exact ⟨h, by rw [← hs.y]; exact not_lt.1 hlt⟩

theorem shrunk_eq (p : Fin (N + 1) → Pt N) (l : Fin (N + 1)) : shrunk p l = halved p l := by
  funext i j
  unfold shrunk halved sigma
  split
  · next h => subst h; ring
  · ring

theorem length_filter_ne (l : Fin (N + 1)) : ((List.finRange (N + 1)).filter (· ≠ l)).length = N := by
  have h : ((List.finRange (N + 1)).filter (· ≠ l)) = (List.finRange (N + 1)).erase l := by
    rw [List.Nodup.erase_eq_filter (List.nodup_finRange _)]
    congr 1
    funext x
    by_cases hx : x = l <;> simp [hx]
  rw [h, List.length_erase_of_mem (List.mem_finRange l), List.length_finRange]
  rfl

theorem inv_shrink {f : Pt N → ℝ} {s : State N} (hs : Inv f s) (l : Fin (N + 1)) (hl : ∀ i, f (s.p l) ≤ f (s.p i)) :
    Inv f (shrink f s l) := by
  have hpl : shrunk s.p l l = s.p l := by simp [shrunk]
  refine ⟨?_, rfl, ?_, ?_, ?_⟩
  · intro i
    simp only [shrink]
    split
    · next h => subst h; rw [hpl, hs.y]
    · rfl
  · simp only [shrink, List.length_append, List.length_map]
    rw [length_filter_ne, hs.count]
  · intro i
    simp only [shrink]
    by_cases hi : i = l
    · subst hi
      rw [hpl]
      exact List.mem_append_left _ (hs.seen i)
    · refine List.mem_append_right _ (List.mem_map_of_mem ?_)
      simp [hi, List.mem_finRange]
  · intro x hx
    simp only [shrink, List.mem_append] at hx ⊢
    rcases hx with hx | hx
    · obtain ⟨i, hi⟩ := hs.best x hx
      exact ⟨l, by rw [hpl]; exact (hl i).trans hi⟩
    · obtain ⟨i, -, rfl⟩ := List.mem_map.1 hx
      exact ⟨i, le_refl _⟩

/-- What one round does. -/
theorem move_spec (hN : N ≠ 0) {f : Pt N → ℝ} {s : State N} (hs : Inv f s) (a : Idx N)
    (hlo : ∀ i, s.y a.lo ≤ s.y i) (hhi : ∀ i, s.y i ≤ s.y a.hi) (hne : a.nhi ≠ a.hi)
    (hnhi : ∀ i, i ≠ a.hi → s.y i ≤ s.y a.nhi) (hlt : s.y a.lo < s.y a.hi) :
    Inv f (move f s a) ∧ Round f s.p (move f s a).p ∧ s.nfunc + 1 ≤ (move f s a).nfunc ∧
      (move f s a).nfunc ≤ s.nfunc + N + 2 := by
  have hloh : a.lo ≠ a.hi := fun h => by rw [h] at hlt; exact lt_irrefl _ hlt
  set c := face s.p a.hi with hc
  set h := s.p a.hi with hh
  have hr : trial s a.hi (-alpha) = beyond c h 1 := by rw [trial_eq hN s hs.psum]; simp [alpha, hc, hh]
  have hy := hs.y
  have ht := inv_amotry hN hs a.hi (-alpha)
  have hylh : s.y a.hi = f h := hy a.hi
  -- the state after the reflection
  have hyes : f (beyond c h 1) < f h → (amotry f s a.hi (-alpha)).1.p = Function.update s.p a.hi (beyond c h 1) ∧
      (amotry f s a.hi (-alpha)).1.nfunc = s.nfunc + 1 := by
    intro hlt'
    rw [amotry_yes (by rw [hr, hylh]; exact hlt'), hr]
    exact ⟨rfl, rfl⟩
  have hno : ¬ f (beyond c h 1) < f h → (amotry f s a.hi (-alpha)).1.p = s.p ∧
      (amotry f s a.hi (-alpha)).1.nfunc = s.nfunc + 1 := by
    intro hlt'
    rw [amotry_no (by rw [hr, hylh]; exact hlt')]
    exact ⟨rfl, rfl⟩
  have hnf : (amotry f s a.hi (-alpha)).1.nfunc = s.nfunc + 1 := by
    by_cases h' : f (beyond c h 1) < f h
    · exact (hyes h').2
    · exact (hno h').2
  have hret : (amotry f s a.hi (-alpha)).2 = f (beyond c h 1) := by rw [amotry_ret, hr]
  generalize hT : amotry f s a.hi (-alpha) = T at *
  have hpl : T.1.p a.lo = s.p a.lo := by
    by_cases h' : f (beyond c h 1) < f h
    · rw [(hyes h').1, Function.update_of_ne hloh]
    · rw [(hno h').1]
  have hpm : T.1.p a.nhi = s.p a.nhi := by
    by_cases h' : f (beyond c h 1) < f h
    · rw [(hyes h').1, Function.update_of_ne hne]
    · rw [(hno h').1]
  have hcT : face T.1.p a.hi = c := by
    by_cases h' : f (beyond c h 1) < f h
    · rw [(hyes h').1, face_update]
    · rw [(hno h').1]
  have hyl : T.1.y a.lo = f (s.p a.lo) := by rw [ht.y, hpl]
  have hym : T.1.y a.nhi = f (s.p a.nhi) := by rw [ht.y, hpm]
  have hflt : f (s.p a.lo) < f h := by rw [← hy, ← hylh]; exact hlt
  have hfm : f (s.p a.nhi) ≤ f h := by rw [← hy, ← hylh]; exact hhi _
  have h1 : ∀ i, f (s.p a.lo) ≤ f (s.p i) := fun i => by rw [← hy, ← hy]; exact hlo i
  have h2 : ∀ i, f (s.p i) ≤ f h := fun i => by rw [← hy, ← hylh]; exact hhi i
  have h4 : ∀ i, i ≠ a.hi → f (s.p i) ≤ f (s.p a.nhi) := fun i hi => by rw [← hy, ← hy]; exact hnhi i hi
  have hmove : move f s a = if T.2 ≤ T.1.y a.lo then (amotry f T.1 a.hi gamma).1
      else if T.2 ≥ T.1.y a.nhi then contract f T.1 a else T.1 := by
    unfold move
    simp only [hT]
  rw [hmove, hret, hyl, hym]
  by_cases c1 : f (beyond c h 1) ≤ f (s.p a.lo)
  · -- expansion
    rw [if_pos c1]
    have hlt1 : f (beyond c h 1) < f h := c1.trans_lt hflt
    have hp := (hyes hlt1).1
    have hph : T.1.p a.hi = beyond c h 1 := by rw [hp, Function.update_self]
    have he : trial T.1 a.hi gamma = beyond c h 2 := by
      rw [trial_eq hN _ ht.psum, hcT, hph]
      funext j
      simp only [beyond, gamma]
      ring
    have hyh : T.1.y a.hi = f (beyond c h 1) := by rw [ht.y, hph]
    refine ⟨inv_amotry hN ht a.hi gamma, ?_, ?_, ?_⟩
    · by_cases c2 : f (beyond c h 2) < f (beyond c h 1)
      · rw [amotry_yes (by rw [he, hyh]; exact c2), he]
        refine Round.mk a.lo a.hi a.nhi h1 h2 hne h4 _ (fun _ _ => ?_) (fun _ h' => absurd c2 h')
          (fun h' _ => absurd c1 (not_le.2 h')) (fun h' _ _ => absurd c1 (not_le.2 h')) (fun h' _ => absurd c1 (not_le.2 h'))
        show Function.update T.1.p a.hi (beyond c h 2) = _
        rw [hp, Function.update_idem]
      · rw [amotry_no (by rw [he, hyh]; exact c2)]
        exact Round.mk a.lo a.hi a.nhi h1 h2 hne h4 _ (fun _ h' => absurd h' c2) (fun _ _ => hp)
          (fun h' _ => absurd c1 (not_le.2 h')) (fun h' _ _ => absurd c1 (not_le.2 h')) (fun h' _ => absurd c1 (not_le.2 h'))
    · have : s.nfunc + 2 = (amotry f T.1 a.hi gamma).1.nfunc := by
        by_cases c2 : f (trial T.1 a.hi gamma) < T.1.y a.hi
        · rw [amotry_yes c2]; simp only [accept, hnf]
        · rw [amotry_no c2]; simp only [hnf]
      omega
    · have : s.nfunc + 2 = (amotry f T.1 a.hi gamma).1.nfunc := by
        by_cases c2 : f (trial T.1 a.hi gamma) < T.1.y a.hi
        · rw [amotry_yes c2]; simp only [accept, hnf]
        · rw [amotry_no c2]; simp only [hnf]
      omega
  rw [if_neg c1]
  by_cases c3 : f (beyond c h 1) ≥ f (s.p a.nhi)
  swap
  · rw [if_neg c3]
    have hlt1 : f (beyond c h 1) < f h := (not_le.1 c3).trans_le hfm
    refine ⟨ht, ?_, by omega, by omega⟩
    exact Round.mk a.lo a.hi a.nhi h1 h2 hne h4 _ (fun h' _ => absurd h' c1) (fun h' _ => absurd h' c1)
      (fun _ _ => (hyes hlt1).1) (fun _ h' _ => absurd h' c3) (fun _ h' => absurd (hfm.trans h') c3)
  rw [if_pos c3]
  -- contraction
  have hcon : contract f T.1 a = if f (trial T.1 a.hi rho) ≥ T.1.y a.hi then shrink f (amotry f T.1 a.hi rho).1 a.lo
      else (amotry f T.1 a.hi rho).1 := by
    unfold contract
    simp only [amotry_ret]
  have hu := inv_amotry hN ht a.hi rho
  have hun : (amotry f T.1 a.hi rho).1.nfunc = s.nfunc + 2 := by
    by_cases c2 : f (trial T.1 a.hi rho) < T.1.y a.hi
    · rw [amotry_yes c2]; simp only [accept, hnf]
    · rw [amotry_no c2]; simp only [hnf]
  have hlT : ∀ i, f (T.1.p a.lo) ≤ f (T.1.p i) := by
    intro i
    rw [hpl]
    by_cases h' : f (beyond c h 1) < f h
    · rw [(hyes h').1]
      by_cases hi : i = a.hi
      · subst hi
        rw [Function.update_self]
        exact (not_le.1 c1).le
      · rw [Function.update_of_ne hi]; exact h1 i
    · rw [(hno h').1]; exact h1 i
  rw [hcon]
  by_cases c4 : f (trial T.1 a.hi rho) < T.1.y a.hi
  · rw [if_neg (not_le.2 c4)]
    refine ⟨hu, ?_, by omega, by omega⟩
    rw [amotry_yes c4]
    show Round f s.p (Function.update T.1.p a.hi (trial T.1 a.hi rho))
    by_cases h' : f (beyond c h 1) < f h
    · have hp := (hyes h').1
      have hph : T.1.p a.hi = beyond c h 1 := by rw [hp, Function.update_self]
      have he : trial T.1 a.hi rho = beyond c h (1 / 2) := by
        rw [trial_eq hN _ ht.psum, hcT, hph]
        funext j
        simp only [beyond, rho]
        ring
      have hyh : T.1.y a.hi = f (beyond c h 1) := by rw [ht.y, hph]
      rw [he, hyh] at c4
      rw [he, hp, Function.update_idem]
      exact Round.mk a.lo a.hi a.nhi h1 h2 hne h4 _ (fun h' _ => absurd h' c1) (fun h' _ => absurd h' c1)
        (fun _ h'' => absurd c3 (not_le.2 h'')) (fun _ _ _ => ⟨fun _ => rfl, fun h'' => absurd c4 h''⟩)
        (fun _ h'' => absurd h' (not_lt.2 h''))
    · have hp := (hno h').1
      have he : trial T.1 a.hi rho = beyond c h (-1 / 2) := by
        rw [trial_eq hN _ ht.psum, hcT, hp]
        funext j
        simp only [beyond, rho]
        ring
      have hyh : T.1.y a.hi = f h := by rw [ht.y, hp]
      rw [he, hyh] at c4
      rw [he, hp]
      exact Round.mk a.lo a.hi a.nhi h1 h2 hne h4 _ (fun h' _ => absurd h' c1) (fun h' _ => absurd h' c1)
        (fun _ h'' => absurd c3 (not_le.2 h'')) (fun _ _ h'' => absurd h'' h')
        (fun _ _ => ⟨fun _ => rfl, fun h'' => absurd c4 h''⟩)
  · rw [if_pos (not_lt.1 c4)]
    have hup : (amotry f T.1 a.hi rho).1.p = T.1.p := by rw [amotry_no c4]
    refine ⟨inv_shrink hu a.lo (by rw [hup]; exact hlT), ?_, ?_, ?_⟩
    · show Round f s.p (shrunk (amotry f T.1 a.hi rho).1.p a.lo)
      rw [hup, shrunk_eq]
      by_cases h' : f (beyond c h 1) < f h
      · have hp := (hyes h').1
        have hph : T.1.p a.hi = beyond c h 1 := by rw [hp, Function.update_self]
        have he : trial T.1 a.hi rho = beyond c h (1 / 2) := by
          rw [trial_eq hN _ ht.psum, hcT, hph]
          funext j
          simp only [beyond, rho]
          ring
        have hyh : T.1.y a.hi = f (beyond c h 1) := by rw [ht.y, hph]
        rw [he, hyh] at c4
        rw [hp]
        exact Round.mk a.lo a.hi a.nhi h1 h2 hne h4 _ (fun h' _ => absurd h' c1) (fun h' _ => absurd h' c1)
          (fun _ h'' => absurd c3 (not_le.2 h'')) (fun _ _ _ => ⟨fun h'' => absurd h'' c4, fun _ => rfl⟩)
          (fun _ h'' => absurd h' (not_lt.2 h''))
      · have hp := (hno h').1
        have he : trial T.1 a.hi rho = beyond c h (-1 / 2) := by
          rw [trial_eq hN _ ht.psum, hcT, hp]
          funext j
          simp only [beyond, rho]
          ring
        have hyh : T.1.y a.hi = f h := by rw [ht.y, hp]
        rw [he, hyh] at c4
        rw [hp]
        exact Round.mk a.lo a.hi a.nhi h1 h2 hne h4 _ (fun h' _ => absurd h' c1) (fun h' _ => absurd h' c1)
          (fun _ h'' => absurd c3 (not_le.2 h'')) (fun _ _ h'' => absurd h'' h')
          (fun _ _ => ⟨fun h'' => absurd h'' c4, fun _ => rfl⟩)
    · show _ ≤ (amotry f T.1 a.hi rho).1.nfunc + N
      omega
    · show (amotry f T.1 a.hi rho).1.nfunc + N ≤ _
      omega

/-! ## The loop -/

/-- What is said about a result. -/
structure Good (f : Pt N → ℝ) (ftol : ℝ) (maxIter : ℤ) (p : Fin (N + 1) → Pt N) (r : Result N) : Prop where
  value : r.fmin = f r.xmin
  vertex : ∃ i, r.simplex i = r.xmin
  values : ∀ i, r.values i = f (r.simplex i)
  best : ∀ x ∈ r.log, r.fmin ≤ f x
  seen : ∀ i, r.simplex i ∈ r.log
  count : r.iterations = r.log.length
  bound : (r.iterations : ℤ) ≤ maxIter + N + 1
  conv : r.converged = true → ∃ k, (∀ i, r.values i ≤ r.values k) ∧
    2 * (r.values k - r.fmin) < ftol * (|r.values k| + |r.fmin| + 1 / 10 ^ 10)
  limit : r.converged = false → maxIter ≤ r.iterations
  rounds : ∃ q, Relation.ReflTransGen (Round f) p q ∧ ∃ l, r.simplex = q ∘ Equiv.swap 0 l

theorem finalLow_aux (y : Fin (N + 1) → ℝ) (l : List (Fin (N + 1))) (a : Fin (N + 1)) :
    open Classical in
    y (l.foldl (fun b i => if y i < y b then i else b) a) ≤ y a ∧
      ∀ i ∈ l, y (l.foldl (fun b i => if y i < y b then i else b) a) ≤ y i := by
  induction l generalizing a with
  | nil => simp
  | cons k l ih =>
    simp only [List.foldl_cons]
    obtain ⟨h1, h2⟩ := ih (open Classical in if y k < y a then k else a)
    have h3 : (open Classical in y (if y k < y a then k else a)) ≤ y a ∧ (open Classical in y (if y k < y a then k else a)) ≤ y k := by
      split
      · next h => exact ⟨h.le, le_refl _⟩
      · next h => exact ⟨le_refl _, not_lt.1 h⟩
    refine ⟨h1.trans h3.1, fun i hi => ?_⟩
    rcases List.mem_cons.1 hi with rfl | hi
    · exact h1.trans h3.2
    · exact h2 i hi

theorem finalLow_spec (y : Fin (N + 1) → ℝ) (i : Fin (N + 1)) : y (finalLow y) ≤ y i := by
  have h := finalLow_aux y (List.finRange (N + 1)).tail 0
  unfold finalLow
  by_cases hi : i = 0
  · subst hi; exact h.1
  · refine h.2 i ?_
    rw [List.finRange_succ, List.tail_cons]
    exact List.mem_map.2 ⟨i.pred hi, List.mem_finRange _, Fin.succ_pred i hi⟩

theorem stopped_good {f : Pt N → ℝ} {ftol : ℝ} {maxIter : ℤ} {p : Fin (N + 1) → Pt N} {s : State N} (hs : Inv f s)
    (hp : Relation.ReflTransGen (Round f) p s.p) (hb : (s.nfunc : ℤ) ≤ maxIter + N + 1) (hm : maxIter ≤ s.nfunc)
    (l : Fin (N + 1)) (hl : ∀ i, s.y l ≤ s.y i) : Good f ftol maxIter p (stopped s l) where
  value := hs.y l
  vertex := ⟨l, rfl⟩
  values := hs.y
  best := by
    intro x hx
    obtain ⟨i, hi⟩ := hs.best x hx
    refine le_trans ?_ hi
    rw [← hs.y]
    exact hl i
  seen := hs.seen
  count := hs.count
  bound := hb
  conv := fun h => by cases h
  limit := fun _ => hm
  rounds := ⟨s.p, hp, 0, by rw [Equiv.swap_self]; rfl⟩

theorem converged_good {f : Pt N → ℝ} {ftol : ℝ} {maxIter : ℤ} {p : Fin (N + 1) → Pt N} {s : State N} (hs : Inv f s)
    (hp : Relation.ReflTransGen (Round f) p s.p) (hb : (s.nfunc : ℤ) ≤ maxIter + N + 1)
    (a : Idx N) (hl : ∀ i, s.y a.lo ≤ s.y i) (hh : ∀ i, s.y i ≤ s.y a.hi) (hr : rtol s.y a < ftol) :
    Good f ftol maxIter p (converged s a.lo) where
  value := hs.y _
  vertex := ⟨0, rfl⟩
  values := fun i => hs.y _
  best := by
    intro x hx
    obtain ⟨i, hi⟩ := hs.best x hx
    refine le_trans ?_ hi
    rw [← hs.y]
    show s.y (Equiv.swap 0 a.lo 0) ≤ _
    rw [Equiv.swap_apply_left]
    exact hl i
  seen := fun i => hs.seen _
  count := hs.count
  bound := hb
  conv := by
    intro _
    refine ⟨Equiv.swap 0 a.lo a.hi, fun i => ?_, ?_⟩
    · show s.y (Equiv.swap 0 a.lo i) ≤ s.y (Equiv.swap 0 a.lo (Equiv.swap 0 a.lo a.hi))
      rw [Equiv.swap_apply_self]
      exact hh _
    · show 2 * (s.y (Equiv.swap 0 a.lo (Equiv.swap 0 a.lo a.hi)) - s.y (Equiv.swap 0 a.lo 0)) <
        ftol * (|s.y (Equiv.swap 0 a.lo (Equiv.swap 0 a.lo a.hi))| + |s.y (Equiv.swap 0 a.lo 0)| + 1 / 10 ^ 10)
      rw [Equiv.swap_apply_self, Equiv.swap_apply_left]
      unfold rtol at hr
      have hpos : 0 < |s.y a.hi| + |s.y a.lo| + tiny := by
        have : (0 : ℝ) < tiny := by unfold tiny; positivity
        positivity
      rw [div_lt_iff₀ hpos, abs_of_nonneg (by linarith [hl a.hi])] at hr
      exact hr
  limit := fun h => by cases h
  rounds := ⟨s.p, hp, a.lo, rfl⟩

theorem loop_good (hN : N ≠ 0) {f : Pt N → ℝ} {ftol : ℝ} (hft : 0 < ftol) {maxIter : ℤ} {p : Fin (N + 1) → Pt N} (k : ℕ)
    (s : State N) (hs : Inv f s) (hp : Relation.ReflTransGen (Round f) p s.p)
    (hb : (s.nfunc : ℤ) ≤ maxIter + N + 1) (hk : maxIter ≤ s.nfunc + k) :
    Good f ftol maxIter p (loop f ftol maxIter k s) := by
  induction k generalizing s with
  | zero => exact stopped_good hs hp hb (by simpa using hk) _ (finalLow_spec s.y)
  | succ k ih =>
    obtain ⟨h1, h2, h3, h4⟩ := scan_spec hN s.y
    unfold loop
    by_cases c1 : rtol s.y (scan s.y) < ftol
    · rw [if_pos c1]
      exact converged_good hs hp hb _ h1 h2 c1
    · rw [if_neg c1]
      by_cases c2 : (s.nfunc : ℤ) ≥ maxIter
      · rw [if_pos c2]
        exact stopped_good hs hp hb c2 _ h1
      · rw [if_neg c2]
        have hlt : s.y (scan s.y).lo < s.y (scan s.y).hi := by
          rcases (h1 (scan s.y).hi).lt_or_eq with h | h
          · exact h
          · exfalso
            apply c1
            unfold rtol
            rw [h]
            simpa using hft
        obtain ⟨m1, m2, m3, m4⟩ := move_spec hN hs (scan s.y) h1 h2 h3 h4 hlt
        refine ih _ m1 (hp.tail m2) ?_ ?_
        · omega
        · push_cast at hk ⊢
          omega

theorem start_inv (f : Pt N → ℝ) (p : Fin (N + 1) → Pt N) : Inv f (start f p) where
  y := fun _ => rfl
  psum := rfl
  count := by simp [start]
  seen := fun i => List.mem_map_of_mem (List.mem_finRange i)
  best := by
    intro x hx
    obtain ⟨i, -, rfl⟩ := List.mem_map.1 hx
    exact ⟨i, le_refl _⟩

/-! The log only grows, so it holds the vertices of the initial simplex. -/

theorem amotry_log (f : Pt N → ℝ) (s : State N) (h : Fin (N + 1)) (fac : ℝ) : s.log <+: (amotry f s h fac).1.log := by
  by_cases c : f (trial s h fac) < s.y h
  · rw [amotry_yes c]; exact List.prefix_append _ _
  · rw [amotry_no c]; exact List.prefix_append _ _

theorem move_log (f : Pt N → ℝ) (s : State N) (a : Idx N) : s.log <+: (move f s a).log := by
  unfold move contract
  simp only
  have h := amotry_log f s a.hi (-alpha)
  split
  · exact h.trans (amotry_log _ _ _ _)
  · split
    · split
      · exact h.trans ((amotry_log _ _ _ _).trans (List.prefix_append _ _))
      · exact h.trans (amotry_log _ _ _ _)
    · exact h

theorem loop_log (f : Pt N → ℝ) (ftol : ℝ) (maxIter : ℤ) (k : ℕ) (s : State N) : s.log <+: (loop f ftol maxIter k s).log := by
  induction k generalizing s with
  | zero => exact List.prefix_refl _
  | succ k ih =>
    unfold loop
    split
    · exact List.prefix_refl _
    · split
      · exact List.prefix_refl _
      · exact (move_log f s _).trans (ih _)

/-! ## No simplex collapses -/

/-- Weights that sum to zero and combine the vertices to zero are zero: the vertices are affinely independent. -/
def Proper (p : Fin (N + 1) → Pt N) : Prop :=
  ∀ w : Fin (N + 1) → ℝ, ∑ i, w i = 0 → (∀ j, ∑ i, w i * p i j = 0) → ∀ i, w i = 0

theorem proper_iff (p : Fin (N + 1) → Pt N) : Proper p ↔ AffineIndependent ℝ p := by
  rw [affineIndependent_iff]
  constructor
  · intro h s w h0 h1 i hi
    have := h (fun i => if i ∈ s then w i else 0) (by rw [Finset.sum_ite_mem, Finset.univ_inter]; exact h0) ?_ i
    · simpa [hi] using this
    · intro j
      have h2 := congrFun h1 j
      simp only [Finset.sum_apply, Pi.smul_apply, smul_eq_mul, Pi.zero_apply] at h2
      simp only [ite_mul, zero_mul]
      rw [Finset.sum_ite_mem, Finset.univ_inter]
      exact h2
  · intro h w h0 h1 i
    refine h Finset.univ w h0 ?_ i (Finset.mem_univ i)
    funext j
    simp only [Finset.sum_apply, Pi.smul_apply, smul_eq_mul, Pi.zero_apply]
    exact h1 j

theorem proper_update (hN : N ≠ 0) {p : Fin (N + 1) → Pt N} (hp : Proper p) (h : Fin (N + 1)) {t : ℝ} (ht : t ≠ 0) :
    Proper (Function.update p h (beyond (face p h) (p h) t)) := by
  have hN' : (N : ℝ) ≠ 0 := Nat.cast_ne_zero.2 hN
  intro w h0 h1
  have hcard : ((Finset.univ.erase h : Finset (Fin (N + 1))).card : ℝ) = N := by
    rw [Finset.card_erase_of_mem (Finset.mem_univ h)]; simp
  have key := hp (fun i => if i = h then -t * w h else w i + (1 + t) / N * w h) ?_ ?_
  · have hh : w h = 0 := by
      have := key h
      simp only [if_true] at this
      rcases mul_eq_zero.1 this with h' | h'
      · exact absurd (neg_eq_zero.1 h') ht
      · exact h'
    intro i
    by_cases hi : i = h
    · rw [hi]; exact hh
    · have := key i
      simp only [if_neg hi, hh, mul_zero, add_zero] at this
      exact this
  · rw [← Finset.sum_erase_add _ _ (Finset.mem_univ h)] at h0 ⊢
    simp only [if_true]
    rw [Finset.sum_congr rfl (fun i hi => if_neg (Finset.ne_of_mem_erase hi)), Finset.sum_add_distrib, Finset.sum_const,
      nsmul_eq_mul, hcard]
    field_simp
    linarith
  · intro j
    have h2 := h1 j
    rw [← Finset.sum_erase_add _ _ (Finset.mem_univ h)] at h2 ⊢
    simp only [if_true, Function.update_self, beyond, face] at h2 ⊢
    rw [Finset.sum_congr rfl (fun i hi => by rw [if_neg (Finset.ne_of_mem_erase hi)]) ]
    rw [Finset.sum_congr rfl (fun i hi => by rw [Function.update_of_ne (Finset.ne_of_mem_erase hi)])] at h2
    simp only [add_mul]
    rw [Finset.sum_add_distrib, ← Finset.mul_sum]
    have e : (1 + t) / N * w h * ∑ i ∈ Finset.univ.erase h, p i j =
        w h * ((1 + t) * ((∑ i ∈ Finset.univ.erase h, p i j) / N)) := by field_simp
    rw [e]
    linarith

theorem proper_halved {p : Fin (N + 1) → Pt N} (hp : Proper p) (l : Fin (N + 1)) : Proper (halved p l) := by
  intro w h0 h1
  refine hp w h0 fun j => ?_
  have h2 := h1 j
  simp only [halved] at h2
  have e : ∑ i, w i * ((p i j + p l j) / 2) = (∑ i, w i * p i j) / 2 + (∑ i, w i) * (p l j / 2) := by
    rw [Finset.sum_div, Finset.sum_mul, ← Finset.sum_add_distrib]
    exact Finset.sum_congr rfl fun i _ => by ring
  rw [e, h0] at h2
  linarith

theorem proper_round (hN : N ≠ 0) {f : Pt N → ℝ} {p q : Fin (N + 1) → Pt N} (hp : Proper p) (h : Round f p q) : Proper q := by
  obtain ⟨l, h, m, hl, hh, hm, hm', q, e1, e2, e3, e4, e5⟩ := h
  have u1 := proper_update hN hp h (t := 1) (by norm_num)
  by_cases c1 : f (beyond (face p h) (p h) 1) ≤ f (p l)
  · by_cases c2 : f (beyond (face p h) (p h) 2) < f (beyond (face p h) (p h) 1)
    · rw [e1 c1 c2]; exact proper_update hN hp h (by norm_num)
    · rw [e2 c1 c2]; exact u1
  · rw [not_le] at c1
    by_cases c3 : f (beyond (face p h) (p h) 1) < f (p m)
    · rw [e3 c1 c3]; exact u1
    · rw [not_lt] at c3
      by_cases c4 : f (beyond (face p h) (p h) 1) < f (p h)
      · by_cases c5 : f (beyond (face p h) (p h) (1 / 2)) < f (beyond (face p h) (p h) 1)
        · rw [(e4 c1 c3 c4).1 c5]; exact proper_update hN hp h (by norm_num)
        · rw [(e4 c1 c3 c4).2 c5]; exact proper_halved u1 l
      · by_cases c5 : f (beyond (face p h) (p h) (-1 / 2)) < f (p h)
        · rw [(e5 c1 (not_lt.1 c4)).1 c5]; exact proper_update hN hp h (by norm_num)
        · rw [(e5 c1 (not_lt.1 c4)).2 c5]; exact proper_halved hp l

theorem proper_rounds (hN : N ≠ 0) {f : Pt N → ℝ} {p q : Fin (N + 1) → Pt N} (hp : Proper p)
    (h : Relation.ReflTransGen (Round f) p q) : Proper q := by
  induction h with
  | refl => exact hp
  | tail _ h ih => exact proper_round hN ih h

theorem proper_axis (x0 d : Pt N) (hd : ∀ j, d j ≠ 0) : Proper (axisSimplex x0 d) := by
  intro w h0 h1
  have hs : ∀ j : Fin N, w j.succ = 0 := by
    intro j
    have h2 := h1 j
    rw [Fin.sum_univ_succ] at h0 h2
    simp only [axisSimplex, Fin.cases_zero, Fin.cases_succ] at h2
    have e : ∑ i : Fin N, w i.succ * Function.update x0 i (x0 i + d i) j = (∑ i : Fin N, w i.succ) * x0 j + w j.succ * d j := by
      rw [Finset.sum_mul]
      have : ∀ i : Fin N, w i.succ * Function.update x0 i (x0 i + d i) j = w i.succ * x0 j + (if i = j then w i.succ * d j else 0) := by
        intro i
        by_cases hij : i = j
        · subst hij; rw [Function.update_self, if_pos rfl]; ring
        · rw [Function.update_of_ne (Ne.symm hij), if_neg hij, add_zero]
      rw [Finset.sum_congr rfl (fun i _ => this i), Finset.sum_add_distrib, Finset.sum_ite_eq' Finset.univ j]
      simp
    rw [e] at h2
    have h3 : w j.succ * d j = 0 := by linear_combination h2 - x0 j * h0
    exact (mul_eq_zero.1 h3).resolve_right (hd j)
  intro i
  refine Fin.cases ?_ hs i
  rw [Fin.sum_univ_succ, Finset.sum_eq_zero (fun j _ => hs j), add_zero] at h0
  exact h0

/-! ## The theorems -/

/-- **The downhill simplex method from a given simplex**, for every function, tolerance and limit: the value returned is
the function's value at the point returned, and no point at which the function was ever called, in particular no vertex
of the initial simplex, has a smaller one; the count is the number of calls, within the limit up to one round; the final
simplex is reached from the initial one by textbook rounds, up to an exchange of two vertices; the flag of convergence
means that best and worst value agree within the fractional tolerance, and without it the limit has been used up. -/
theorem fromSimplex_spec (hN : 0 < N) (f : Pt N → ℝ) (ftol : ℝ) (hft : 0 < ftol) (maxIter : ℤ) (hm : 0 < maxIter)
    (p : Fin (N + 1) → Pt N) :
    ∃ r, fromSimplex f ftol maxIter p = .ret r ∧
      r.fmin = f r.xmin ∧ r.xmin ∈ r.log ∧ (∀ x ∈ r.log, r.fmin ≤ f x) ∧ (∀ i, p i ∈ r.log ∧ r.fmin ≤ f (p i)) ∧
      r.iterations = r.log.length ∧ (r.iterations : ℤ) ≤ maxIter + N + 1 ∧
      (∃ i, r.simplex i = r.xmin) ∧ (∀ i, r.values i = f (r.simplex i)) ∧
      (∃ q, Relation.ReflTransGen (Round f) p q ∧ ∃ l, r.simplex = q ∘ Equiv.swap 0 l) ∧
      (r.converged = true → ∃ k, (∀ i, r.values i ≤ r.values k) ∧
        2 * (r.values k - r.fmin) < ftol * (|r.values k| + |r.fmin| + 1 / 10 ^ 10)) ∧
      (r.converged = false → maxIter ≤ r.iterations) := by
  have hN' : N ≠ 0 := by omega
  have g := loop_good hN' hft (maxIter := maxIter) (p := p) maxIter.toNat (start f p) (start_inv f p) Relation.ReflTransGen.refl
    (by simp only [start]; push_cast; omega) (by simp only [start]; push_cast; omega)
  have hlog := loop_log f ftol maxIter maxIter.toNat (start f p)
  refine ⟨loop f ftol maxIter maxIter.toNat (start f p), ?_, g.value, ?_, g.best, ?_, g.count, g.bound, g.vertex, g.values,
    g.rounds, g.conv, g.limit⟩
  · unfold fromSimplex
    rw [if_neg (not_le.2 hft), if_neg (by omega), if_neg hN']
  · obtain ⟨i, hi⟩ := g.vertex
    rw [← hi]
    exact g.seen i
  · intro i
    have hi : p i ∈ (loop f ftol maxIter maxIter.toNat (start f p)).log := hlog.subset ((start_inv f p).seen i)
    exact ⟨hi, g.best _ hi⟩

/-- Not vacuous. -/
example : ∃ r, fromSimplex (N := 2) (fun x => (x 0 - 3) ^ 2 + x 1 ^ 2) (1 / 100) 50 (fun i j => if i.val = j.val + 1 then 1 else 0) = .ret r ∧
    r.fmin ≤ 9 := by
  obtain ⟨r, h, -, -, -, h4, -⟩ := fromSimplex_spec (N := 2) (by norm_num) (fun x => (x 0 - 3) ^ 2 + x 1 ^ 2) (1 / 100) (by norm_num) 50
    (by norm_num) (fun i j => if i.val = j.val + 1 then 1 else 0)
  refine ⟨r, h, (h4 0).2.trans ?_⟩
  norm_num

/-- **The simplex never collapses**: from affinely independent vertices the final vertices are affinely independent. -/
theorem fromSimplex_independent (hN : 0 < N) (f : Pt N → ℝ) (ftol : ℝ) (hft : 0 < ftol) (maxIter : ℤ) (hm : 0 < maxIter)
    (p : Fin (N + 1) → Pt N) (hp : AffineIndependent ℝ p) (r : Result N) (hr : fromSimplex f ftol maxIter p = .ret r) :
    AffineIndependent ℝ r.simplex := by
  obtain ⟨r', h, -, -, -, -, -, -, -, -, ⟨q, hq, l, hl⟩, -⟩ := fromSimplex_spec hN f ftol hft maxIter hm p
  rw [h] at hr
  cases hr
  rw [hl]
  have := (proper_iff q).1 (proper_rounds (by omega) ((proper_iff p).2 hp) hq)
  exact this.comp_embedding (Equiv.swap 0 l).toEmbedding

/-- **The method from a point and displacements**: with `N` displacements none of which is zero the call returns a point
whose value is at most that of the start and of each displaced start, and a simplex that has not collapsed. -/
theorem minimizeDeltas_spec (hN : 0 < N) (f : Pt N → ℝ) (ftol : ℝ) (hft : 0 < ftol) (maxIter : ℤ) (hm : 0 < maxIter)
    (x0 : Pt N) (deltas : List ℝ) (hlen : deltas.length = N) (hd : ∀ d ∈ deltas, d ≠ 0) :
    ∃ r, minimizeDeltas f ftol maxIter x0 deltas = .ret r ∧ r.fmin = f r.xmin ∧ r.fmin ≤ f x0 ∧
      (∀ j : Fin N, r.fmin ≤ f (Function.update x0 j (x0 j + deltas.getD j 0))) ∧ (∀ x ∈ r.log, r.fmin ≤ f x) ∧
      AffineIndependent ℝ r.simplex := by
  set d : Pt N := fun j => deltas.getD j 0 with hdd
  have hdj : ∀ j, d j ≠ 0 := by
    intro j
    have hj : (j : ℕ) < deltas.length := by rw [hlen]; exact j.2
    have e : d j = deltas[(j : ℕ)] := by simp [hdd, hj]
    rw [e]
    exact hd _ (List.getElem_mem hj)
  obtain ⟨r, h, h1, -, h3, h4, -⟩ := fromSimplex_spec hN f ftol hft maxIter hm (axisSimplex x0 d)
  refine ⟨r, ?_, h1, ?_, fun j => ?_, h3,
    fromSimplex_independent hN f ftol hft maxIter hm _ ((proper_iff _).1 (proper_axis x0 d hdj)) r h⟩
  · unfold minimizeDeltas
    rw [if_neg (by simpa using hlen), if_neg (by rintro ⟨e, he, h0⟩; exact hd e he h0)]
    exact h
  · have := (h4 0).2
    simpa [axisSimplex] using this
  · have := (h4 j.succ).2
    simpa [axisSimplex, hdd] using this

/-- **The method from a point and one displacement.** -/
theorem minimize_spec (hN : 0 < N) (f : Pt N → ℝ) (ftol : ℝ) (hft : 0 < ftol) (maxIter : ℤ) (hm : 0 < maxIter)
    (x0 : Pt N) (delta : ℝ) (hd : delta ≠ 0) :
    ∃ r, minimize f ftol maxIter x0 delta = .ret r ∧ r.fmin = f r.xmin ∧ r.fmin ≤ f x0 ∧
      (∀ j : Fin N, r.fmin ≤ f (Function.update x0 j (x0 j + delta))) ∧ (∀ x ∈ r.log, r.fmin ≤ f x) ∧
      AffineIndependent ℝ r.simplex := by
  obtain ⟨r, h, h1, h2, h3, h4, h5⟩ := minimizeDeltas_spec hN f ftol hft maxIter hm x0 (List.replicate N delta) (by simp)
    (by intro e he; rw [(List.mem_replicate.1 he).2]; exact hd)
  refine ⟨r, ?_, h1, h2, fun j => ?_, h4, h5⟩
  · unfold minimize
    rw [if_neg hd]
    exact h
  · have := h3 j
    have e : (List.replicate N delta).getD j 0 = delta := by simp
    rwa [e] at this

/-- Not vacuous. -/
example : ∃ r, minimize (N := 1) (fun x => (x 0) ^ 2) (1 / 100) 50 (fun _ => 3) 1 = .ret r ∧ r.fmin ≤ 9 := by
  obtain ⟨r, h, -, h2, -⟩ := minimize_spec (N := 1) (by norm_num) (fun x => (x 0) ^ 2) (1 / 100) (by norm_num) 50 (by norm_num)
    (fun _ => 3) 1 (by norm_num)
  exact ⟨r, h, h2.trans (by norm_num)⟩

/-- **Maximising**: the value returned is the function's value at the point returned and at least that at the start and
at every point at which the function was called. -/
theorem maximize_spec (hN : 0 < N) (f : Pt N → ℝ) (ftol : ℝ) (hft : 0 < ftol) (maxIter : ℤ) (hm : 0 < maxIter)
    (x0 : Pt N) (delta : ℝ) (hd : delta ≠ 0) :
    ∃ r, maximize f ftol maxIter x0 delta = .ret r ∧ r.fmin = f r.xmin ∧ f x0 ≤ r.fmin ∧ (∀ x ∈ r.log, f x ≤ r.fmin) := by
  obtain ⟨r, h, h1, h2, -, h4, -⟩ := minimize_spec hN (fun x => -f x) ftol hft maxIter hm x0 delta hd
  refine ⟨{ r with fmin := -r.fmin }, ?_, ?_, ?_, ?_⟩
  · unfold maximize
    rw [h]
    rfl
  · show -r.fmin = f r.xmin
    rw [h1]; ring
  · show f x0 ≤ -r.fmin
    linarith
  · intro x hx
    have := h4 x hx
    show f x ≤ -r.fmin
    linarith

/-- **The rejected inputs**: a tolerance or a limit that is not positive, a displacement that is zero and a wrong number of
displacements each throw. -/
theorem minimize_throws (f : Pt N → ℝ) (ftol : ℝ) (maxIter : ℤ) (x0 : Pt N) (deltas : List ℝ) (delta : ℝ)
    (p : Fin (N + 1) → Pt N) :
    (ftol ≤ 0 ∨ maxIter ≤ 0 → fromSimplex f ftol maxIter p = .exn (.mml "MultidimOptimizationInputError")) ∧
    (deltas.length ≠ N → minimizeDeltas f ftol maxIter x0 deltas = .exn (.mml "MultidimOptimizationError")) ∧
    (deltas.length = N → 0 ∈ deltas → minimizeDeltas f ftol maxIter x0 deltas = .exn (.mml "MultidimOptimizationInputError")) ∧
    (minimize f ftol maxIter x0 0 = .exn (.mml "MultidimOptimizationInputError")) ∧
    (delta ≠ 0 → ftol ≤ 0 ∨ maxIter ≤ 0 →
      minimize f ftol maxIter x0 delta = .exn (.mml "MultidimOptimizationInputError")) := by
  have h1 : ∀ q : Fin (N + 1) → Pt N, ftol ≤ 0 ∨ maxIter ≤ 0 →
      fromSimplex f ftol maxIter q = .exn (.mml "MultidimOptimizationInputError") := by
    intro q h
    unfold fromSimplex
    by_cases hf : ftol ≤ 0
    · rw [if_pos hf]
    · rw [if_neg hf, if_pos (h.resolve_left hf)]
  refine ⟨h1 p, fun h => ?_, fun h h0 => ?_, ?_, fun hd h => ?_⟩
  · unfold minimizeDeltas
    rw [if_pos h]
  · unfold minimizeDeltas
    rw [if_neg (by simpa using h), if_pos ⟨0, h0, rfl⟩]
  · unfold minimize
    rw [if_pos rfl]
  · unfold minimize minimizeDeltas
    rw [if_neg hd, if_neg (by simp), if_neg (by rintro ⟨e, he, h0⟩; exact hd ((List.mem_replicate.1 he).2 ▸ h0))]
    exact h1 _ h

end Verif.Optim.NM
