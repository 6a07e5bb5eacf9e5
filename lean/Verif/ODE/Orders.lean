import Verif.ODE.StepLemmas

/-! # The orders of the methods -/

set_option autoImplicit false

namespace Verif.ODE

/-- The order of the method with `T`'s `a`, `c` and the weights `b`. -/
def Tableau.HasOrder (T : Tableau) (b : List ℚ) (p : ℕ) (ε : ℝ) : Prop :=
  Order T.a.length (fun i j => (T.A i j : ℝ)) (fun i => (b.getD i 0 : ℝ)) (fun i => (T.C i : ℝ)) p ε

theorem hasOrder_of_check {T : Tableau} {b : List ℚ} {n : ℕ} (hb : b.length ≤ T.a.length)
    (h : Check.check ⟨T.a, b, T.c⟩ 0 1 n = true) : T.HasOrder b (n + 2) 0 := by
  have := Check.check_sound (T := ⟨T.a, b, T.c⟩) Nat.one_pos hb h
  rw [Nat.cast_zero, zero_div] at this
  exact this

theorem euler_order : eulerT.HasOrder eulerT.b 1 0 := by
  intro τ hτ
  cases τ with
  | dot => simp [Tree.stage, Tree.exact, Tree.ord, eulerT]
  | graft t s =>
    have := t.ord_pos; have := s.ord_pos
    rw [Tree.ord] at hτ; omega
  | tick s =>
    have := s.ord_pos
    rw [Tree.ord] at hτ; omega

theorem heun_order : heunT.HasOrder heunT.b 2 0 := hasOrder_of_check (by decide) (by decide +kernel)
theorem mid_order : midT.HasOrder midT.b 2 0 := hasOrder_of_check (by decide) (by decide +kernel)
theorem rk4_order : rk4T.HasOrder rk4T.b 4 0 := hasOrder_of_check (by decide) (by decide +kernel)
theorem verlet_orderX : verletT.HasOrder verletT.b 2 0 :=
  hasOrder_of_check (by decide) (by decide +kernel)
theorem verlet_orderV : verletT.HasOrder verletB 2 0 :=
  hasOrder_of_check (by decide) (by decide +kernel)
theorem ck_order : ckT.HasOrder ckT.b 5 0 := hasOrder_of_check (by decide) (by decide +kernel)
theorem ckStar_order : ckT.HasOrder ckStar 4 0 := hasOrder_of_check (by decide) (by decide +kernel)
theorem dp5_order : dp5T.HasOrder dp5T.b 5 0 := hasOrder_of_check (by decide) (by decide +kernel)
theorem dp5Star_order : dp5T.HasOrder dp5Star 4 0 := hasOrder_of_check (by decide) (by decide +kernel)

end Verif.ODE
