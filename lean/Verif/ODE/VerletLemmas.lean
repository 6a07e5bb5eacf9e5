import Verif.ODE.StepLemmas
import Verif.ODE.Global

/-! # Helper lemmas: the velocity Verlet and leapfrog steps -/

set_option autoImplicit false

namespace Verif.ODE

open Outcome

variable {m : ℕ}

theorem exists_ofFn {n : ℕ} {l : List ℝ} (h : l.length = n) : ∃ x : Fin n → ℝ, l = List.ofFn x := by
  subst h
  exact ⟨l.get, (List.ofFn_get l).symm⟩

theorem index_low (u w : Fin m → ℝ) (i : Fin m) : index (List.ofFn (Fin.append u w)) i = .ret (u i) := by
  have := index_ofFn_fin (Fin.append u w) (Fin.castAdd m i)
  rwa [Fin.append_left] at this

theorem index_high (u w : Fin m → ℝ) (i : Fin m) :
    index (List.ofFn (Fin.append u w)) (m + i) = .ret (w i) := by
  have := index_ofFn_fin (Fin.append u w) (Fin.natAdd m i)
  rwa [Fin.append_right] at this

theorem store_ofFn {n : ℕ} (x : Fin n → ℝ) (i : Fin n) (a : ℝ) :
    store (List.ofFn x) i a = .ret (List.ofFn (Function.update x i a)) := by
  rw [store, if_pos (by simp)]
  congr 1
  refine List.ext_getElem (by simp) fun j h1 h2 => ?_
  rw [List.getElem_set, List.getElem_ofFn, List.getElem_ofFn, Function.update_apply]
  by_cases h : i.val = j
  · rw [if_pos h, if_pos (Fin.ext h.symm)]
  · rw [if_neg h, if_neg (fun e => h (by rw [← e]))]

theorem fill_low {u w g : Fin m → ℝ} {e : ℕ → Outcome ℝ} (he : ∀ i : Fin m, e i = .ret (g i)) :
    fill m (List.ofFn (Fin.append u w)) e = .ret (List.ofFn (Fin.append g w)) := by
  obtain ⟨s, h1, h2⟩ := forRange_rule
    (fun k s => s = List.ofFn (Fin.append (fun i : Fin m => if i.val < k then g i else u i) w)) m
    (List.ofFn (Fin.append u w)) (fun out i => do
      let v ← e i
      store out i v) (by simp)
    (by
      rintro k s hk rfl
      refine ⟨_, ?_, rfl⟩
      have h1 := he ⟨k, hk⟩
      dsimp only at h1
      have h2 := store_ofFn (Fin.append (fun i : Fin m => if i.val < k then g i else u i) w)
        (Fin.castAdd m ⟨k, hk⟩) (g ⟨k, hk⟩)
      rw [Fin.val_castAdd] at h2
      dsimp only at h2
      rw [h1, Outcome.bind_ret, h2]
      congr 2
      funext j
      rw [Function.update_apply]
      refine Fin.addCases (fun i => ?_) (fun i => ?_) j
      · rw [Fin.append_left, Fin.append_left]
        by_cases hik : i.val = k
        · rw [if_pos (by rw [Fin.ext_iff]; simpa using hik), if_pos (by omega)]
          congr 1; exact Fin.ext hik.symm
        · rw [if_neg (by rw [Fin.ext_iff]; simpa using hik)]
          by_cases h3 : i.val < k
          · rw [if_pos h3, if_pos (by omega)]
          · rw [if_neg h3, if_neg (by omega)]
      · rw [if_neg (by rw [Fin.ext_iff]; simp; omega), Fin.append_right, Fin.append_right])
  rw [fill, h1, h2]
  congr 3
  funext i
  rw [if_pos i.2]

theorem fill_high {u w g : Fin m → ℝ} {e : ℕ → Outcome ℝ} (he : ∀ i : Fin m, e i = .ret (g i)) :
    fillHigh m (List.ofFn (Fin.append u w)) e = .ret (List.ofFn (Fin.append u g)) := by
  obtain ⟨s, h1, h2⟩ := forRange_rule
    (fun k s => s = List.ofFn (Fin.append u (fun i : Fin m => if i.val < k then g i else w i))) m
    (List.ofFn (Fin.append u w)) (fun out i => do
      let v ← e i
      store out (m + i) v) (by simp)
    (by
      rintro k s hk rfl
      refine ⟨_, ?_, rfl⟩
      have h1 := he ⟨k, hk⟩
      dsimp only at h1
      have h2 := store_ofFn (Fin.append u (fun i : Fin m => if i.val < k then g i else w i))
        (Fin.natAdd m ⟨k, hk⟩) (g ⟨k, hk⟩)
      rw [Fin.val_natAdd] at h2
      dsimp only at h2
      rw [h1, Outcome.bind_ret, h2]
      congr 2
      funext j
      rw [Function.update_apply]
      refine Fin.addCases (fun i => ?_) (fun i => ?_) j
      · rw [if_neg (by rw [Fin.ext_iff]; simp; omega), Fin.append_left, Fin.append_left]
      · rw [Fin.append_right, Fin.append_right]
        by_cases hik : i.val = k
        · rw [if_pos (by rw [Fin.ext_iff]; simpa using hik), if_pos (by omega)]
          congr 1; exact Fin.ext hik.symm
        · rw [if_neg (by rw [Fin.ext_iff]; simpa using hik)]
          by_cases h3 : i.val < k
          · rw [if_pos h3, if_pos (by omega)]
          · rw [if_neg h3, if_neg (by omega)])
  rw [fillHigh, h1, h2]
  congr 3
  funext i
  rw [if_pos i.2]

/-- The lower half of a vector (the positions). -/
def lower (x : Fin (m + m) → ℝ) : Fin m → ℝ := fun i => x (Fin.castAdd m i)
/-- The upper half of a vector (the velocities). -/
def upper (x : Fin (m + m) → ℝ) : Fin m → ℝ := fun i => x (Fin.natAdd m i)

theorem append_lower_upper (x : Fin (m + m) → ℝ) : Fin.append (lower x) (upper x) = x :=
  Fin.append_castAdd_natAdd
@[simp] theorem lower_append (u w : Fin m → ℝ) : lower (Fin.append u w) = u := by
  funext i; exact Fin.append_left u w i
@[simp] theorem upper_append (u w : Fin m → ℝ) : upper (Fin.append u w) = w := by
  funext i; exact Fin.append_right u w i
@[simp] theorem lower_add (x y : Fin (m + m) → ℝ) : lower (x + y) = lower x + lower y := rfl
@[simp] theorem upper_add (x y : Fin (m + m) → ℝ) : upper (x + y) = upper x + upper y := rfl
@[simp] theorem lower_smul (a : ℝ) (x : Fin (m + m) → ℝ) : lower (a • x) = a • lower x := rfl
@[simp] theorem upper_smul (a : ℝ) (x : Fin (m + m) → ℝ) : upper (a • x) = a • upper x := rfl

section

variable {sys : System} {f : ℝ → (Fin (m + m) → ℝ) → Fin (m + m) → ℝ} (hs : Computes sys f) (t : ℝ)
  (q v : Fin m → ℝ) (h : ℝ) {xOut xErr : List ℝ} (hO : xOut.length = m + m) (hE : xErr.length = m + m)

/-- The acceleration the code reads from the upper half of the derivatives. -/
def acc (f : ℝ → (Fin (m + m) → ℝ) → Fin (m + m) → ℝ) (t : ℝ) (q v : Fin m → ℝ) : Fin m → ℝ :=
  upper (f t (Fin.append q v))

/-- The new positions of both methods. -/
noncomputable def newPos (f : ℝ → (Fin (m + m) → ℝ) → Fin (m + m) → ℝ) (t : ℝ) (q v : Fin m → ℝ)
    (h : ℝ) : Fin m → ℝ := q + h • v + (h ^ 2 / 2) • acc f t q v

/-- The new velocities of the velocity Verlet step. -/
noncomputable def newVel (f : ℝ → (Fin (m + m) → ℝ) → Fin (m + m) → ℝ) (t : ℝ) (q v : Fin m → ℝ)
    (h : ℝ) : Fin m → ℝ :=
  v + (h / 2) • (acc f t q v + acc f (t + h) (newPos f t q v h) v)

/-- The new velocities of the leapfrog step. -/
noncomputable def leapVel (f : ℝ → (Fin (m + m) → ℝ) → Fin (m + m) → ℝ) (t : ℝ) (q v : Fin m → ℝ)
    (h : ℝ) : Fin m → ℝ :=
  v + (h / 2) • acc f t q v
    + (h / 2) • acc f (t + h) (newPos f t q v h) (v + (h / 2) • acc f t q v)

include hs hO hE

theorem verletStep_eq :
    verletStep sys t (List.ofFn (Fin.append q v)) (List.ofFn (f t (Fin.append q v))) h xOut xErr
      = .ret (List.ofFn (Fin.append (newPos f t q v h) (newVel f t q v h)),
          List.ofFn (0 : Fin (m + m) → ℝ)) := by
  obtain ⟨o, rfl⟩ := exists_ofFn hO
  have hd : sys.dim / 2 = m := by rw [hs.1]; omega
  have hf : List.ofFn (f t (Fin.append q v))
      = List.ofFn (Fin.append (lower (f t (Fin.append q v))) (acc f t q v)) := by
    rw [acc, append_lower_upper]
  have hf' : List.ofFn (f (t + h) (Fin.append (newPos f t q v h) v))
      = List.ofFn (Fin.append (lower (f (t + h) (Fin.append (newPos f t q v h) v)))
          (acc f (t + h) (newPos f t q v h) v)) := by
    rw [acc, append_lower_upper]
  rw [verletStep, hd, hs.1, ← append_lower_upper o, hf, fill_low (g := newPos f t q v h),
    Outcome.bind_ret, fill_high (g := v), Outcome.bind_ret, hs.2 _ _ _ (zeros_length _), Outcome.bind_ret,
    hf', fill_high (g := newVel f t q v h), Outcome.bind_ret,
    fill_ofFn (g := (0 : Fin (m + m) → ℝ)) hE, Outcome.bind_ret]
  · intro i; rfl
  · intro i
    rw [index_high, Outcome.bind_ret, index_high, Outcome.bind_ret, index_high, Outcome.bind_ret]
    congr 1
    simp only [newVel, Pi.add_apply, Pi.smul_apply, smul_eq_mul]
    ring
  · intro i; rw [index_high]
  · intro i
    rw [index_low, Outcome.bind_ret, index_high, Outcome.bind_ret, index_high, Outcome.bind_ret]
    congr 1
    simp only [newPos, Pi.add_apply, Pi.smul_apply, smul_eq_mul]
    ring

theorem leapfrogStep_eq :
    leapfrogStep sys t (List.ofFn (Fin.append q v)) (List.ofFn (f t (Fin.append q v))) h xOut xErr
      = .ret (List.ofFn (Fin.append (newPos f t q v h) (leapVel f t q v h)),
          List.ofFn (0 : Fin (m + m) → ℝ)) := by
  obtain ⟨o, rfl⟩ := exists_ofFn hO
  have hd : sys.dim / 2 = m := by rw [hs.1]; omega
  set vh := v + (h / 2) • acc f t q v with hvh
  have hf : List.ofFn (f t (Fin.append q v))
      = List.ofFn (Fin.append (lower (f t (Fin.append q v))) (acc f t q v)) := by
    rw [acc, append_lower_upper]
  have hf' : List.ofFn (f (t + h) (Fin.append (newPos f t q v h) vh))
      = List.ofFn (Fin.append (lower (f (t + h) (Fin.append (newPos f t q v h) vh)))
          (acc f (t + h) (newPos f t q v h) vh)) := by
    rw [acc, append_lower_upper]
  rw [leapfrogStep, hd, hs.1, ← append_lower_upper o, hf, fill_ofFn (g := vh) (zeros_length m),
    Outcome.bind_ret, fill_low (g := newPos f t q v h), Outcome.bind_ret, fill_high (g := vh),
    Outcome.bind_ret, hs.2 _ _ _ (zeros_length _), Outcome.bind_ret,
    hf', fill_high (g := leapVel f t q v h), Outcome.bind_ret,
    fill_ofFn (g := (0 : Fin (m + m) → ℝ)) hE, Outcome.bind_ret]
  · intro i; rfl
  · intro i
    rw [index_ofFn_fin, Outcome.bind_ret, index_high, Outcome.bind_ret]
    congr 1
    simp only [leapVel, hvh, Pi.add_apply, Pi.smul_apply, smul_eq_mul]
    ring
  · intro i; rw [index_ofFn_fin]
  · intro i
    rw [index_low, Outcome.bind_ret, index_ofFn_fin, Outcome.bind_ret]
    congr 1
    simp only [newPos, hvh, Pi.add_apply, Pi.smul_apply, smul_eq_mul]
    ring
  · intro i
    rw [index_high, Outcome.bind_ret, index_high, Outcome.bind_ret]
    congr 1
    simp only [hvh, Pi.add_apply, Pi.smul_apply, smul_eq_mul]
    ring

end

/-- The first-order system `q' = v`, `v' = a (t, q)`. -/
def newton (a : ℝ → (Fin m → ℝ) → Fin m → ℝ) (t : ℝ) (x : Fin (m + m) → ℝ) : Fin (m + m) → ℝ :=
  Fin.append (upper x) (a t (lower x))

@[simp] theorem acc_newton (a : ℝ → (Fin m → ℝ) → Fin m → ℝ) (t : ℝ) (q v : Fin m → ℝ) :
    acc (newton a) t q v = a t q := by simp [acc, newton]

theorem leapVel_newton (a : ℝ → (Fin m → ℝ) → Fin m → ℝ) (t : ℝ) (q v : Fin m → ℝ) (h : ℝ) :
    leapVel (newton a) t q v h = newVel (newton a) t q v h := by
  simp only [leapVel, newVel, acc_newton, smul_add, add_assoc]

/-- For such a system both are the partitioned Runge–Kutta method with `verletT`'s stages. -/
theorem verlet_prk (a : ℝ → (Fin m → ℝ) → Fin m → ℝ) (t : ℝ) (x : Fin (m + m) → ℝ) (h : ℝ) :
    Fin.append (newPos (newton a) t (lower x) (upper x) h) (newVel (newton a) t (lower x) (upper x) h)
      = prkStep (pair (newton a)) 3 (fun i j => (verletT.A i j : ℝ))
          (fun i j => (((if i.val < m then verletT.b else verletB).getD j 0 : ℚ) : ℝ))
          (fun i => (verletT.C i : ℝ)) t x h := by
  have e0 : verletT.stg (newton a) t x h 0 = Fin.append (upper x) (a t (lower x)) := by
    rw [verletT.stg_zero _ t x h rfl, newton]
  have e1 : upper (x + h • ∑ j ∈ Finset.range 1, (verletT.A 1 j : ℝ) • verletT.stg (newton a) t x h j)
      = upper x + (h / 2) • a t (lower x) := by
    rw [Finset.sum_range_one, e0]
    simp [verletT, Tableau.A, smul_smul, div_eq_mul_inv]
  have h1 : ∃ w, verletT.stg (newton a) t x h 1
      = Fin.append (upper x + (h / 2) • a t (lower x)) w := by
    rw [Tableau.stg_eq, newton, e1]
    exact ⟨_, rfl⟩
  obtain ⟨w, e1⟩ := h1
  have h2 : ∃ w', verletT.stg (newton a) t x h 2
      = Fin.append w' (a (t + h) (newPos (newton a) t (lower x) (upper x) h)) := by
    have e2 : lower (x + h • ∑ j ∈ Finset.range 2, (verletT.A 2 j : ℝ) • verletT.stg (newton a) t x h j)
        = newPos (newton a) t (lower x) (upper x) h := by
      rw [Finset.sum_range_succ, Finset.sum_range_one, e1]
      simp only [verletT, Tableau.A, List.getD_cons_succ, List.getD_cons_zero, Rat.cast_zero,
        zero_smul, zero_add, Rat.cast_one, one_smul, lower_add, lower_smul, lower_append, newPos,
        acc_newton, smul_add, smul_smul, add_assoc]
      rw [show h * (h / 2) = h ^ 2 / 2 by ring]
    have e3 : ((verletT.C 2 : ℚ) : ℝ) = 1 := by simp [verletT, Tableau.C]
    refine ⟨upper (x + h • ∑ j ∈ Finset.range 2, (verletT.A 2 j : ℝ) • verletT.stg (newton a) t x h j),
      ?_⟩
    rw [Tableau.stg_eq, newton, e2, e3, one_mul]
  obtain ⟨w', e2⟩ := h2
  have key : ∀ (b : ℕ → ℝ) (i : Fin (m + m)), rkStep (pair (newton a)) 3 (fun i j => (verletT.A i j : ℝ)) b
      (fun i => (verletT.C i : ℝ)) t x h i = x i + h * (b 0 * Fin.append (upper x) (a t (lower x)) i
        + b 1 * Fin.append (upper x + (h / 2) • a t (lower x)) w i
        + b 2 * Fin.append w' (a (t + h) (newPos (newton a) t (lower x) (upper x) h)) i) := by
    intro b i
    change (x + h • ∑ i ∈ Finset.range 3, b i • verletT.stg (newton a) t x h i) i = _
    rw [Finset.sum_range_succ, Finset.sum_range_succ, Finset.sum_range_one, e0, e1, e2]
    rfl
  funext i
  rw [prkStep, key]
  refine Fin.addCases (fun j => ?_) (fun j => ?_) i
  · have hj : (Fin.castAdd m j).val < m := j.2
    rw [if_pos hj]
    simp only [Fin.append_left, verletT, List.getD_cons_succ, List.getD_cons_zero, newPos, acc_newton,
      Pi.add_apply, Pi.smul_apply, smul_eq_mul, lower]
    push_cast
    ring
  · have hj : ¬ (Fin.natAdd m j).val < m := by simp
    rw [if_neg hj]
    simp only [Fin.append_right, verletB, List.getD_cons_succ, List.getD_cons_zero, newVel, acc_newton,
      Pi.add_apply, Pi.smul_apply, smul_eq_mul, upper]
    push_cast
    ring

theorem bind_eq_ret {α β : Type} {x : Outcome α} {g : α → Outcome β} {b : β} (h : (x >>= g) = .ret b) :
    ∃ a, x = .ret a ∧ g a = .ret b := by
  cases x with
  | ret a => exact ⟨a, rfl, h⟩
  | exn c => cases h
  | ub => cases h

theorem keep_other {c : ℕ} (N : ℕ) (g : ℕ → ℕ) (e : ℕ → Outcome ℝ) (l l' : List ℝ) (hg : ∀ i < N, g i ≠ c)
    (hl : forRange N l (fun out i => do let v ← e i; store out (g i) v) = .ret l') : l'[c]? = l[c]? :=
  forRange_inv (fun _ s => s[c]? = l[c]?) N l l'
    (fun out i => do let v ← e i; store out (g i) v) rfl (fun i s s' hi hP hb => by
      rw [← hP]
      cases he : e i with
      | ret v =>
        rw [he, Outcome.bind_ret, store] at hb
        split at hb
        · rw [← Outcome.ret.inj hb, List.getElem?_set_ne (hg i hi)]
        · cases hb
      | exn c => rw [he] at hb; cases hb
      | ub => rw [he] at hb; cases hb) hl

/-- An odd dimension: the last component of `x_out` is never written. -/
theorem verletStep_odd {sys : System} {k : ℕ} (hd : sys.dim = 2 * k + 1) {t h : ℝ} {x dxdt xOut xErr : List ℝ}
    {r : List ℝ × List ℝ} (hr : verletStep sys t x dxdt h xOut xErr = .ret r) :
    r.1[2 * k]? = xOut[2 * k]? := by
  have hk : sys.dim / 2 = k := by omega
  rw [verletStep, hk] at hr
  obtain ⟨o1, h1, hr⟩ := bind_eq_ret hr
  obtain ⟨o2, h2, hr⟩ := bind_eq_ret hr
  obtain ⟨o3, h3, hr⟩ := bind_eq_ret hr
  obtain ⟨o4, h4, hr⟩ := bind_eq_ret hr
  obtain ⟨o5, h5, hr⟩ := bind_eq_ret hr
  rw [← Outcome.ret.inj hr]
  rw [keep_other k (fun i => k + i) _ _ _ (fun i hi => by omega) h4,
    keep_other k (fun i => i) _ _ _ (fun i hi => by omega) h1]

/-- The same for the leapfrog step. -/
theorem leapfrogStep_odd {sys : System} {k : ℕ} (hd : sys.dim = 2 * k + 1) {t h : ℝ}
    {x dxdt xOut xErr : List ℝ} {r : List ℝ × List ℝ}
    (hr : leapfrogStep sys t x dxdt h xOut xErr = .ret r) : r.1[2 * k]? = xOut[2 * k]? := by
  have hk : sys.dim / 2 = k := by omega
  rw [leapfrogStep, hk] at hr
  obtain ⟨o0, h0, hr⟩ := bind_eq_ret hr
  obtain ⟨o1, h1, hr⟩ := bind_eq_ret hr
  obtain ⟨o2, h2, hr⟩ := bind_eq_ret hr
  obtain ⟨o3, h3, hr⟩ := bind_eq_ret hr
  obtain ⟨o4, h4, hr⟩ := bind_eq_ret hr
  obtain ⟨o5, h5, hr⟩ := bind_eq_ret hr
  rw [← Outcome.ret.inj hr]
  rw [keep_other k (fun i => k + i) _ _ _ (fun i hi => by omega) h4,
    keep_other k (fun i => i) _ _ _ (fun i hi => by omega) h1]

end Verif.ODE
