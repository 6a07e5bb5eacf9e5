import Verif.ODE.BulirschSpec
import Verif.ODE.StepperMore

/-! # Helper lemmas: the Bulirsch–Stoer steppers -/

set_option autoImplicit false

namespace Verif.ODE

open Outcome

variable {n : ℕ}

theorem vadd_ofFn (a b : Fin n → ℝ) : vadd (List.ofFn a) (List.ofFn b) = .ret (List.ofFn (a + b)) := by
  rw [vadd, if_neg (by simp)]
  congr 1
  refine List.ext_getElem (by simp) fun j h1 h2 => ?_
  simp

theorem vscale_ofFn (a : Fin n → ℝ) (s : ℝ) : vscale (List.ofFn a) s = List.ofFn (s • a) := by
  rw [vscale, List.map_ofFn]
  congr 1
  funext i
  simp [mul_comm]

theorem mmid_eq {sys : System} {f : ℝ → (Fin n → ℝ) → Fin n → ℝ} (hs : Computes sys f) (y : Fin n → ℝ)
    (t H : ℝ) (N : ℕ) :
    mmid sys n (List.ofFn y) (List.ofFn (f t y)) t H (N + 1) = .ret (List.ofFn ((1 / 2 : ℝ) •
      (gragg f t y (H / (N + 1 : ℕ)) N + gragg f t y (H / (N + 1 : ℕ)) (N + 1)
        + (H / (N + 1 : ℕ)) • f (t + (N + 1 : ℕ) * (H / (N + 1 : ℕ))) (gragg f t y (H / (N + 1 : ℕ)) (N + 1))))) := by
  have hN : ((N + 1 : ℕ) : ℝ) ≠ 0 := by positivity
  obtain ⟨s, h1, h2⟩ := forFromTo_rule
    (fun m (s : Mid) => s = ⟨List.ofFn (gragg f t y (H / (N + 1 : ℕ)) (m - 1)), List.ofFn (gragg f t y (H / (N + 1 : ℕ)) m),
      t + m * (H / (N + 1 : ℕ)), List.ofFn (f (t + m * (H / (N + 1 : ℕ))) (gragg f t y (H / (N + 1 : ℕ)) m))⟩) 1 (N + 1) (by omega)
    (⟨List.ofFn y, List.ofFn (y + (H / (N + 1 : ℕ)) • f t y), t + H / (N + 1 : ℕ),
      List.ofFn (f (t + H / (N + 1 : ℕ)) (y + (H / (N + 1 : ℕ)) • f t y))⟩ : Mid)
    (midBody sys (H / (N + 1 : ℕ))) (by simp [gragg])
    (by
      rintro m s hm1 hm2 rfl
      obtain ⟨k, rfl⟩ : ∃ k, m = k + 1 := ⟨m - 1, by omega⟩
      refine ⟨_, ?_, rfl⟩
      rw [midBody]
      dsimp only
      rw [vscale_ofFn, vadd_ofFn, Outcome.bind_ret, hs.2 _ _ _ (by simp), Outcome.bind_ret]
      have e1 : gragg f t y (H / (N + 1 : ℕ)) (k + 1 - 1) + (2 * (H / (N + 1 : ℕ))) •
          f (t + (k + 1 : ℕ) * (H / (N + 1 : ℕ))) (gragg f t y (H / (N + 1 : ℕ)) (k + 1))
          = gragg f t y (H / (N + 1 : ℕ)) (k + 1 + 1) := rfl
      have e2 : t + (k + 1 : ℕ) * (H / (N + 1 : ℕ)) + H / (N + 1 : ℕ)
          = t + (k + 1 + 1 : ℕ) * (H / (N + 1 : ℕ)) := by push_cast; ring
      rw [e1, e2]
      rfl)
  subst h2
  rw [mmid, fdiv_pos _ hN, Outcome.bind_ret, vscale_ofFn, vadd_ofFn, Outcome.bind_ret,
    hs.2 _ _ _ (zeros_length n), Outcome.bind_ret, h1, Outcome.bind_ret]
  dsimp only
  rw [vadd_ofFn, Outcome.bind_ret, vscale_ofFn, vadd_ofFn, Outcome.bind_ret, vscale_ofFn]
  rfl

theorem inner_run (f1 f2 : ℝ) (D dy c : Fin n → ℝ) :
    forRange n (List.ofFn D, List.ofFn dy, List.ofFn c) (extrapInner f1 f2)
      = .ret (List.ofFn dy, List.ofFn (f1 • (c - D)), List.ofFn (f2 • (c - D))) := by
  obtain ⟨s, h1, h2⟩ := forRange_rule
    (fun j (s : List ℝ × List ℝ × List ℝ) => s =
      (List.ofFn (fun i : Fin n => if i.val < j then dy i else D i),
       List.ofFn (fun i : Fin n => if i.val < j then f1 * (c i - D i) else dy i),
       List.ofFn (fun i : Fin n => if i.val < j then f2 * (c i - D i) else c i))) n
    (List.ofFn D, List.ofFn dy, List.ofFn c) (extrapInner f1 f2) (by simp)
    (by
      rintro j s hj rfl
      refine ⟨_, ?_, rfl⟩
      have key : ∀ (u v : Fin n → ℝ), store (List.ofFn (fun i : Fin n => if i.val < j then u i else v i)) j (u ⟨j, hj⟩)
          = .ret (List.ofFn (fun i : Fin n => if i.val < j + 1 then u i else v i)) := by
        intro u v
        have := store_ofFn (fun i : Fin n => if i.val < j then u i else v i) ⟨j, hj⟩ (u ⟨j, hj⟩)
        dsimp only at this
        rw [this]
        congr 2
        funext i
        by_cases hi : i = ⟨j, hj⟩
        · subst hi; simp
        · have hi' : i.val ≠ j := fun h => hi (Fin.ext h)
          rw [Function.update_of_ne hi]
          by_cases h3 : i.val < j
          · rw [if_pos h3, if_pos (by omega)]
          · rw [if_neg h3, if_neg (by omega)]
      rw [extrapInner]
      dsimp only
      rw [index_ofFn _ hj, Outcome.bind_ret, index_ofFn _ hj, Outcome.bind_ret]
      simp only [lt_irrefl, if_false]
      rw [key dy D, Outcome.bind_ret, index_ofFn _ hj, Outcome.bind_ret]
      simp only [lt_irrefl, if_false]
      rw [key (fun i => f1 * (c i - D i)) dy, Outcome.bind_ret, key (fun i => f2 * (c i - D i)) c,
        Outcome.bind_ret])
  rw [h1, h2]
  congr 1
  refine Prod.ext ?_ (Prod.ext ?_ ?_) <;> (dsimp only; congr 1; funext i; simp)

/-- The table between two levels: `k` rows of the coordinates are those of the sequence. -/
def Table (seq : List ℕ) (n : ℕ) (h : ℝ) (k : ℕ) (e : Extrap) (yz dy : Fin n → ℝ) : Prop :=
  ∃ (D : ℕ → Fin n → ℝ) (X : ℕ → ℝ), e.d = tab 9 (fun i => List.ofFn (D i)) ∧ e.xc = tab 9 X ∧
    (∀ j < k, X j = (h / (seq.getD j 0 : ℕ)) * (h / (seq.getD j 0 : ℕ))) ∧
    e.yz = List.ofFn yz ∧ e.dy = List.ofFn dy

theorem outer_run {iest : ℕ} (hi : iest < 9) {xest : ℝ} {X : ℕ → ℝ} (hX : ∀ j < iest, X j - xest ≠ 0)
    (D : ℕ → Fin n → ℝ) (dy c : Fin n → ℝ) :
    ∃ (D' : ℕ → Fin n → ℝ) (dy' c' : Fin n → ℝ),
      forRange iest (tab 9 (fun i => List.ofFn (D i)), List.ofFn dy, List.ofFn c)
        (extrapOuter n iest (tab 9 X) xest)
        = .ret (tab 9 (fun i => List.ofFn (D' i)), List.ofFn dy', List.ofFn c') := by
  obtain ⟨s, h1, D', dy', c', h2⟩ := forRange_rule
    (fun _ (s : List (List ℝ) × List ℝ × List ℝ) => ∃ (D' : ℕ → Fin n → ℝ) (dy' c' : Fin n → ℝ),
      s = (tab 9 (fun i => List.ofFn (D' i)), List.ofFn dy', List.ofFn c')) iest
    (tab 9 (fun i => List.ofFn (D i)), List.ofFn dy, List.ofFn c) (extrapOuter n iest (tab 9 X) xest)
    ⟨D, dy, c, rfl⟩
    (by
      rintro k s hk ⟨D', dy', c', rfl⟩
      rw [extrapOuter]
      dsimp only
      rw [index_tab X (by omega), Outcome.bind_ret, fdiv_pos _ (hX _ (by omega)), Outcome.bind_ret,
        index_tab (fun i => List.ofFn (D' i)) (by omega), Outcome.bind_ret, inner_run, Outcome.bind_ret,
        store_tab _ (by omega), Outcome.bind_ret]
      refine ⟨_, rfl, fun i => if i = k then dy' else D' i,
        (xest * (1 / (X (iest - k - 1) - xest))) • (c' - D' k),
        (X (iest - k - 1) * (1 / (X (iest - k - 1) - xest))) • (c' - D' k), ?_⟩
      refine Prod.ext ?_ rfl
      dsimp only
      congr 1
      funext i
      split_ifs <;> rfl)
  exact ⟨D', dy', c', by rw [h1, h2]⟩

theorem fill_copy {out : List ℝ} (hout : out.length = n) (v : Fin n → ℝ) :
    fill n out (fun j => index (List.ofFn v) j) = .ret (List.ofFn v) :=
  fill_ofFn hout fun i => index_ofFn_fin v i

theorem pzextr_run {seq : List ℕ} {h : ℝ} {k : ℕ} (hk : k < 9) {e : Extrap} {yz dy : Fin n → ℝ}
    (he : Table seq n h k e yz dy) (v : Fin n → ℝ)
    (hX : ∀ j < k, (h / (seq.getD j 0 : ℕ)) * (h / (seq.getD j 0 : ℕ))
      - (h / (seq.getD k 0 : ℕ)) * (h / (seq.getD k 0 : ℕ)) ≠ 0) :
    ∃ e' yz' dy', pzextr n k ((h / (seq.getD k 0 : ℕ)) * (h / (seq.getD k 0 : ℕ))) (List.ofFn v) e = .ret e' ∧
      Table seq n h (k + 1) e' yz' dy' := by
  obtain ⟨D, X, h1, h2, h3, h4, h5⟩ := he
  generalize hx : (h / (seq.getD k 0 : ℕ)) * (h / (seq.getD k 0 : ℕ)) = xest at hX ⊢
  have hX' : ∀ j < k + 1, (if j = k then xest else X j)
      = (h / (seq.getD j 0 : ℕ)) * (h / (seq.getD j 0 : ℕ)) := by
    intro j hj
    by_cases hjk : j = k
    · rw [if_pos hjk, hjk, hx]
    · rw [if_neg hjk]
      exact h3 j (by omega)
  rw [pzextr, h2, store_tab X hk, Outcome.bind_ret]
  by_cases hk0 : k = 0
  · subst hk0
    rw [if_pos rfl, h4, fill_copy (by simp), Outcome.bind_ret, h5, fill_copy (by simp), Outcome.bind_ret, h1,
      index_tab _ (by omega), Outcome.bind_ret, fill_copy (by simp), Outcome.bind_ret,
      store_tab _ (by omega), Outcome.bind_ret]
    refine ⟨_, v, v, rfl, fun i => if i = 0 then v else D i, _, ?_, rfl, hX', rfl, rfl⟩
    exact tab_congr fun i _ => by dsimp only; split_ifs <;> rfl
  · rw [if_neg hk0, h1, h5]
    obtain ⟨D', dy', c', hr⟩ := outer_run hk (X := fun j => if j = k then xest else X j) (xest := xest)
      (fun j hj => by rw [hX' j (by omega)]; exact hX j hj) D dy v
    rw [hr, Outcome.bind_ret, h4, fill_ofFn (g := yz + dy') (by simp), Outcome.bind_ret,
      index_tab _ (by omega), Outcome.bind_ret, fill_copy (by simp), Outcome.bind_ret,
      store_tab _ (by omega), Outcome.bind_ret]
    · refine ⟨_, yz + dy', dy', rfl, fun i => if i = k then dy' else D' i, _, ?_, rfl, hX', rfl, rfl⟩
      exact tab_congr fun i _ => by dsimp only; split_ifs <;> rfl
    · intro i
      rw [index_ofFn_fin, Outcome.bind_ret, index_ofFn_fin, Outcome.bind_ret]
      rfl

theorem bsErr_run {eps : ℝ} (heps : 0 < eps) (x yz dy : Fin n → ℝ) :
    ∃ m, forRange n 0 (bsErrBody eps (List.ofFn x) (List.ofFn yz) (List.ofFn dy)) = .ret m ∧ 0 ≤ m ∧
      ∀ i, |dy i| ≤ m * (eps * (|x i| + |yz i| + tinyR)) := by
  have hp : ∀ i, 0 < eps * (|x i| + |yz i| + tinyR) := fun i => by
    have := tinyR_pos; positivity
  obtain ⟨m, h1, h2, h3⟩ := forRange_rule
    (fun j (m : ℝ) => 0 ≤ m ∧ ∀ i : Fin n, i.val < j → |dy i| ≤ m * (eps * (|x i| + |yz i| + tinyR))) n 0
    (bsErrBody eps (List.ofFn x) (List.ofFn yz) (List.ofFn dy)) ⟨le_rfl, fun i hi => by omega⟩
    (by
      rintro j m hj ⟨h1, h2⟩
      rw [bsErrBody, index_ofFn x hj, Outcome.bind_ret, index_ofFn yz hj, Outcome.bind_ret,
        index_ofFn dy hj, Outcome.bind_ret, fdiv_pos _ (hp _).ne', Outcome.bind_ret]
      refine ⟨_, rfl, le_max_of_le_left h1, fun i hi => ?_⟩
      rcases Nat.lt_succ_iff_lt_or_eq.mp hi with h4 | h4
      · exact (h2 i h4).trans (mul_le_mul_of_nonneg_right (le_max_left _ _) (hp i).le)
      · have : i = ⟨j, hj⟩ := Fin.ext h4
        subst this
        exact (div_le_iff₀ (hp _)).mp (le_max_right _ _))
  exact ⟨m, h1, h2, fun i => h3 i i.2⟩

end Verif.ODE
