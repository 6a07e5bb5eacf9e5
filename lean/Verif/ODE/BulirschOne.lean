import Verif.ODE.BulirschMore
import Verif.ODE.Orders

/-! # Helper lemmas: the first two levels of the Bulirsch–Stoer steppers -/

set_option autoImplicit false

namespace Verif.ODE

open Outcome

variable {n : ℕ}

theorem zeros_ofFn (n : ℕ) : zeros n = List.ofFn (0 : Fin n → ℝ) := by
  refine List.ext_getElem (by simp [zeros]) fun j h1 h2 => ?_
  simp [zeros]

theorem pzextr_zero (v : Fin n → ℝ) (x0 : ℝ) :
    pzextr n 0 x0 (List.ofFn v) ⟨List.replicate 9 (zeros n), List.replicate 9 0, zeros n, zeros n⟩
      = .ret ⟨tab 9 (fun i => List.ofFn (if i = 0 then v else 0)), tab 9 (fun i => if i = 0 then x0 else 0),
          List.ofFn v, List.ofFn v⟩ := by
  rw [pzextr]
  dsimp only
  rw [replicate_eq_tab, store_tab _ (by omega), Outcome.bind_ret, if_pos rfl, zeros_ofFn,
    fill_copy (by simp), Outcome.bind_ret, Outcome.bind_ret, replicate_eq_tab, index_tab _ (by omega),
    Outcome.bind_ret, fill_copy (by simp), Outcome.bind_ret, store_tab _ (by omega), Outcome.bind_ret]
  congr 3
  funext i
  split_ifs <;> rfl

theorem pzextr_one (v w : Fin n → ℝ) {x0 x1 : ℝ} (hx : x0 - x1 ≠ 0) :
    ∃ d xc, pzextr n 1 x1 (List.ofFn w) ⟨tab 9 (fun i => List.ofFn (if i = 0 then v else 0)),
        tab 9 (fun i => if i = 0 then x0 else 0), List.ofFn v, List.ofFn v⟩
      = .ret ⟨d, xc, List.ofFn (v + (x1 * (1 / (x0 - x1))) • (w - v)),
          List.ofFn ((x1 * (1 / (x0 - x1))) • (w - v))⟩ := by
  rw [pzextr]
  dsimp only
  rw [store_tab _ (by omega), Outcome.bind_ret, if_neg (by omega)]
  have hr : forRange 1 (tab 9 (fun i => List.ofFn (if i = 0 then v else 0)), List.ofFn v, List.ofFn w)
      (extrapOuter n 1 (tab 9 fun k => if k = 1 then x1 else if k = 0 then x0 else 0) x1)
      = .ret (tab 9 (fun i => if i = 0 then List.ofFn v else List.ofFn (if i = 0 then v else 0)),
        List.ofFn ((x1 * (1 / (x0 - x1))) • (w - v)), List.ofFn ((x0 * (1 / (x0 - x1))) • (w - v))) := by
    rw [forRange, forRange, Outcome.bind_ret, extrapOuter]
    dsimp only
    rw [index_tab _ (by omega), Outcome.bind_ret]
    simp only [show 1 - 0 - 1 = 0 from rfl, if_true, show (0 : ℕ) ≠ 1 from by omega, if_false]
    rw [fdiv_pos _ hx, Outcome.bind_ret, index_tab _ (by omega), Outcome.bind_ret, if_pos rfl, inner_run,
      Outcome.bind_ret, store_tab _ (by omega), Outcome.bind_ret]
  rw [hr, Outcome.bind_ret]
  dsimp only
  rw [fill_ofFn (g := v + (x1 * (1 / (x0 - x1))) • (w - v)) (by simp), Outcome.bind_ret,
    index_tab _ (by omega), Outcome.bind_ret, fill_copy (by simp), Outcome.bind_ret,
    store_tab _ (by omega), Outcome.bind_ret]
  · exact ⟨_, _, rfl⟩
  · intro i
    rw [index_ofFn_fin, Outcome.bind_ret, index_ofFn_fin, Outcome.bind_ret]
    rfl

theorem bsErr_lt {eps : ℝ} (heps : 0 < eps) (x yz dy : Fin n → ℝ)
    (h : ∀ i, |dy i| < eps * (|x i| + |yz i| + tinyR)) :
    ∃ m, forRange n 0 (bsErrBody eps (List.ofFn x) (List.ofFn yz) (List.ofFn dy)) = .ret m ∧ m < 1 := by
  have hp : ∀ i, 0 < eps * (|x i| + |yz i| + tinyR) := fun i => by
    have := tinyR_pos; positivity
  refine forRange_rule (fun _ (m : ℝ) => m < 1) n 0 _ one_pos ?_
  rintro j m hj hm
  rw [bsErrBody, index_ofFn x hj, Outcome.bind_ret, index_ofFn yz hj, Outcome.bind_ret,
    index_ofFn dy hj, Outcome.bind_ret, fdiv_pos _ (hp _).ne', Outcome.bind_ret]
  exact ⟨_, rfl, max_lt hm ((div_lt_one (hp _)).mpr (h _))⟩

/-- What the first two levels do: the state is `m₂ + (m₄ - m₂) / 3`, and the error estimate is
`(m₄ - m₂) / 3`, where `m_k` is the modified midpoint rule with `k` substeps. -/
theorem two_levels {sys : System} {f : ℝ → (Fin n → ℝ) → Fin n → ℝ} (hs : Computes sys f) {seq : List ℕ}
    (hq : GoodSeq seq) (t : ℝ) (x : Fin n → ℝ) {h eps : ℝ} (hh : h ≠ 0) (heps : 0 < eps) (s : Stepper)
    (hn : s.n = n)
    (hp : ∀ i, |(1 / 3) * (midRule f t x h 3 i - midRule f t x h 1 i)|
      < eps * (|x i| + |midRule f t x h 1 i + (1 / 3) * (midRule f t x h 3 i - midRule f t x h 1 i)| + tinyR)) :
    ∃ r, bsDoStep seq sys s t (List.ofFn x) (List.ofFn (f t x)) h eps = .ret r ∧ r.res.accepted = true ∧
      r.x = List.ofFn (midRule f t x h 1 + (1 / 3 : ℝ) • (midRule f t x h 3 - midRule f t x h 1)) := by
  subst hn
  have hx : h / (2 : ℕ) * (h / (2 : ℕ)) - h / (4 : ℕ) * (h / (4 : ℕ)) ≠ 0 := by
    have : h / (2 : ℕ) * (h / (2 : ℕ)) - h / (4 : ℕ) * (h / (4 : ℕ)) = h ^ 2 * (3 / 16) := by push_cast; ring
    rw [this]; positivity
  obtain ⟨d, xc, h1⟩ := pzextr_one (midRule f t x h 1) (midRule f t x h 3) hx
  have hc : h / (4 : ℕ) * (h / (4 : ℕ)) * (1 / (h / (2 : ℕ) * (h / (2 : ℕ)) - h / (4 : ℕ) * (h / (4 : ℕ))))
      = 1 / 3 := by
    push_cast
    field_simp
    norm_num
  rw [hc] at h1
  obtain ⟨m, h2, h3⟩ := bsErr_lt heps x (midRule f t x h 1 + (1 / 3 : ℝ) • (midRule f t x h 3 - midRule f t x h 1))
    ((1 / 3 : ℝ) • (midRule f t x h 3 - midRule f t x h 1)) (by simpa using hp)
  have hm1 : mmid sys s.n (List.ofFn x) (List.ofFn (f t x)) t h 2 = .ret (List.ofFn (midRule f t x h 1)) :=
    mmid_eq hs x t h 1
  have hm3 : mmid sys s.n (List.ofFn x) (List.ofFn (f t x)) t h 4 = .ret (List.ofFn (midRule f t x h 3)) :=
    mmid_eq hs x t h 3
  rw [bsDoStep, bsLoop, bsLevel, hq.index (by omega), Outcome.bind_ret, hq.2.1, hm1, Outcome.bind_ret,
    fdiv_pos _ (by norm_num), Outcome.bind_ret, pzextr_zero, Outcome.bind_ret, if_neg (by omega),
    Outcome.bind_ret]
  dsimp only
  rw [bsLoop, bsLevel, hq.index (by omega), Outcome.bind_ret, zero_add, hq.2.2.1, hm3, Outcome.bind_ret,
    fdiv_pos _ (by norm_num), Outcome.bind_ret, h1, Outcome.bind_ret, if_pos (by omega)]
  dsimp only
  rw [h2, Outcome.bind_ret, if_pos h3, Outcome.bind_ret]
  dsimp only
  rw [bsAccept, hs.2 _ _ _ (by simp), Outcome.bind_ret]
  exact ⟨_, rfl, rfl, rfl⟩

/-! ### The modified midpoint rules with two and four substeps as Runge–Kutta methods -/

def mid2T : Tableau := ⟨[[], [1 / 2], [0, 1]], [1 / 4, 1 / 2, 1 / 4], [0, 1 / 2, 1]⟩

def mid4T : Tableau :=
  ⟨[[], [1 / 4], [0, 1 / 2], [1 / 4, 0, 1 / 2], [0, 1 / 2, 0, 1 / 2]], [1 / 8, 1 / 4, 1 / 4, 1 / 4, 1 / 8],
    [0, 1 / 4, 1 / 2, 3 / 4, 1]⟩

theorem mid2T_order : mid2T.HasOrder mid2T.b 2 0 := hasOrder_of_check (by decide) (by decide +kernel)
theorem mid4T_order : mid4T.HasOrder mid4T.b 2 0 := hasOrder_of_check (by decide) (by decide +kernel)

theorem midRule_one (f : ℝ → (Fin n → ℝ) → Fin n → ℝ) (t : ℝ) (x : Fin n → ℝ) (h : ℝ) :
    midRule f t x h 1 = mid2T.step mid2T.b f t x h := by
  have s0 : mid2T.stg f t x h 0 = f t x := mid2T.stg_zero f t x h rfl
  have s1 : mid2T.stg f t x h 1 = f (t + (1 / 2) * h) (x + h • (1 / 2 : ℝ) • f t x) := by
    rw [Tableau.stg_eq]
    simp only [Finset.sum_range_succ, Finset.sum_range_zero, s0]
    norm_num [mid2T, Tableau.C, Tableau.A]
  have s2 : mid2T.stg f t x h 2 = f (t + h) (x + h • mid2T.stg f t x h 1) := by
    rw [Tableau.stg_eq]
    simp only [Finset.sum_range_succ, Finset.sum_range_zero, s0]
    norm_num [mid2T, Tableau.C, Tableau.A]
  have g1 : gragg f t x (h / (1 + 1 : ℕ)) 1 = x + h • (1 / 2 : ℝ) • f t x := by
    rw [gragg, smul_smul]; congr 2; push_cast; ring
  have g2 : gragg f t x (h / (1 + 1 : ℕ)) 2 = x + h • mid2T.stg f t x h 1 := by
    rw [gragg, zero_add, g1, gragg, s1]
    congr 2
    · push_cast; ring
    · congr 1; push_cast; ring
  rw [midRule, show 1 + 1 = 2 from rfl, g1, g2, Tableau.step, show mid2T.a.length = 3 from rfl]
  simp only [Finset.sum_range_succ, Finset.sum_range_zero, s0, s2]
  have e : t + (2 : ℕ) * (h / (2 : ℕ)) = t + h := by push_cast; ring
  rw [e]
  funext i
  simp [mid2T]
  ring

theorem midRule_three (f : ℝ → (Fin n → ℝ) → Fin n → ℝ) (t : ℝ) (x : Fin n → ℝ) (h : ℝ) :
    midRule f t x h 3 = mid4T.step mid4T.b f t x h := by
  have s0 : mid4T.stg f t x h 0 = f t x := mid4T.stg_zero f t x h rfl
  have s1 : mid4T.stg f t x h 1 = f (t + (1 / 4) * h) (x + h • (1 / 4 : ℝ) • f t x) := by
    rw [Tableau.stg_eq]
    simp only [Finset.sum_range_succ, Finset.sum_range_zero, s0]
    norm_num [mid4T, Tableau.C, Tableau.A]
  have s2 : mid4T.stg f t x h 2 = f (t + (1 / 2) * h) (x + h • (1 / 2 : ℝ) • mid4T.stg f t x h 1) := by
    rw [Tableau.stg_eq]
    simp only [Finset.sum_range_succ, Finset.sum_range_zero, s0]
    norm_num [mid4T, Tableau.C, Tableau.A]
  have s3 : mid4T.stg f t x h 3 = f (t + (3 / 4) * h)
      (x + h • ((1 / 4 : ℝ) • f t x + (1 / 2 : ℝ) • mid4T.stg f t x h 2)) := by
    rw [Tableau.stg_eq]
    simp only [Finset.sum_range_succ, Finset.sum_range_zero, s0]
    norm_num [mid4T, Tableau.C, Tableau.A]
  have s4 : mid4T.stg f t x h 4 = f (t + h)
      (x + h • ((1 / 2 : ℝ) • mid4T.stg f t x h 1 + (1 / 2 : ℝ) • mid4T.stg f t x h 3)) := by
    rw [Tableau.stg_eq]
    simp only [Finset.sum_range_succ, Finset.sum_range_zero, s0]
    norm_num [mid4T, Tableau.C, Tableau.A]
  have g1 : gragg f t x (h / (3 + 1 : ℕ)) 1 = x + h • (1 / 4 : ℝ) • f t x := by
    rw [gragg, smul_smul]; congr 2; push_cast; ring
  have t1 : t + (0 + 1 : ℕ) * (h / (3 + 1 : ℕ)) = t + 1 / 4 * h := by push_cast; ring
  have t2 : t + (1 + 1 : ℕ) * (h / (3 + 1 : ℕ)) = t + 1 / 2 * h := by push_cast; ring
  have t3 : t + (2 + 1 : ℕ) * (h / (3 + 1 : ℕ)) = t + 3 / 4 * h := by push_cast; ring
  have t4 : t + (3 + 1 : ℕ) * (h / (3 + 1 : ℕ)) = t + h := by push_cast; ring
  have g2 : gragg f t x (h / (3 + 1 : ℕ)) 2 = x + h • (1 / 2 : ℝ) • mid4T.stg f t x h 1 := by
    rw [gragg, t1, zero_add, g1, gragg, s1]
    funext i
    simp
    ring
  have g3 : gragg f t x (h / (3 + 1 : ℕ)) 3
      = x + h • ((1 / 4 : ℝ) • f t x + (1 / 2 : ℝ) • mid4T.stg f t x h 2) := by
    rw [gragg, t2, show 1 + 1 = 2 from rfl, g2, g1, s2]
    funext i
    simp
    ring
  have g4 : gragg f t x (h / (3 + 1 : ℕ)) 4
      = x + h • ((1 / 2 : ℝ) • mid4T.stg f t x h 1 + (1 / 2 : ℝ) • mid4T.stg f t x h 3) := by
    rw [gragg, t3, show 2 + 1 = 3 from rfl, g3, g2, s3]
    funext i
    simp
    ring
  rw [midRule, t4, g3, show 3 + 1 = 4 from rfl, g4, ← s4, Tableau.step, show mid4T.a.length = 5 from rfl]
  simp only [Finset.sum_range_succ, Finset.sum_range_zero, s0]
  funext i
  simp [mid4T]
  ring

end Verif.ODE
