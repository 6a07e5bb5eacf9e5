import Verif.ODE.Adaptive
import Verif.ODE.StepLemmas
import Mathlib.Algebra.Polynomial.Derivative

/-! # Specification of the adaptive steppers -/

set_option autoImplicit false

namespace Verif.ODE

open Outcome

variable {n : ℕ}

/-- The error estimate of the step calculator `clc` for one step of size `h` from `(t, x)` is within the
tolerance `eps`, relative to `|x| + |h f(t, x)|`. -/
def Passes (clc : Calc) (sys : System) (f : ℝ → (Fin n → ℝ) → Fin n → ℝ) (eps t : ℝ) (x : Fin n → ℝ)
    (h : ℝ) : Prop :=
  ∃ o e : Fin n → ℝ,
    clc sys t (List.ofFn x) (List.ofFn (f t x)) h (zeros n) (zeros n) = .ret (List.ofFn o, List.ofFn e) ∧
    ∀ i, |e i| ≤ eps * (|x i| + |h * f t x i| + 1 / 10 ^ 30)

/-- What a caller sees of a successful `doStep` from `(t, x)` with trial step `htry`: a step of some size
`h` in the direction of `htry`, not longer, was taken; the new state is that of the step calculator `clc`
for this size, whose error estimate is within the tolerance; a trial step that is within the tolerance is
not shortened; and the proposed next step is `h` times a factor between `lo` and `hi`. -/
def GoodStep (clc : Calc) (lo hi : ℝ) (sys : System) (f : ℝ → (Fin n → ℝ) → Fin n → ℝ) (eps htry t : ℝ)
    (x : Fin n → ℝ) (r : Stepped) (x' : Fin n → ℝ) : Prop :=
  r.res.accepted = true ∧ r.x = List.ofFn x' ∧
  (∃ c, 0 < c ∧ c ≤ 1 ∧ r.res.hDone = htry * c) ∧
  (∃ e : Fin n → ℝ, clc sys t (List.ofFn x) (List.ofFn (f t x)) r.res.hDone (zeros n) (zeros n)
    = .ret (List.ofFn x', List.ofFn e)) ∧
  Passes clc sys f eps t x r.res.hDone ∧
  (Passes clc sys f eps t x htry → r.res.hDone = htry) ∧
  ∃ g, lo ≤ g ∧ g ≤ hi ∧ r.res.hNext = r.res.hDone * g

/-- When `doStep` may give up: the trial step is not within the tolerance, and neither is some shorter step
that is shorter than `limit`. -/
def GaveUp (clc : Calc) (limit : ℝ) (sys : System) (f : ℝ → (Fin n → ℝ) → Fin n → ℝ) (eps htry t : ℝ)
    (x : Fin n → ℝ) : Prop :=
  ¬ Passes clc sys f eps t x htry ∧
    ∃ c, 0 < c ∧ c ≤ 1 ∧ |htry * c| < limit ∧ ¬ Passes clc sys f eps t x (htry * c)

/-- The states `(s, t, x)` a caller can reach: a new stepper or one that was reset, at any point, and then
any number of steps, with any trial steps and tolerances, each from the point the previous one ended at
(the same point again if the step was rejected). -/
inductive Session (doStep : DoStep) (sys : System) (f : ℝ → (Fin n → ℝ) → Fin n → ℝ) :
    Stepper → ℝ → (Fin n → ℝ) → Prop
  | new (t : ℝ) (x : Fin n → ℝ) : Session doStep sys f (Stepper.new sys) t x
  | reset (s : Stepper) (t : ℝ) (x : Fin n → ℝ) {t' : ℝ} {x' : Fin n → ℝ} (h : Session doStep sys f s t x) :
      Session doStep sys f s.resetFSAL t' x'
  | step (s : Stepper) (t : ℝ) (x : Fin n → ℝ) {htry eps : ℝ} {r : Stepped} {x' : Fin n → ℝ}
      (h : Session doStep sys f s t x)
      (hr : doStep sys s t (List.ofFn x) (List.ofFn (f t x)) htry eps = .ret r)
      (hx : r.x = List.ofFn x') :
      Session doStep sys f r.st (if r.res.accepted then t + r.res.hDone else t) x'

/-- The vector of cubic polynomials `P` matches values and derivatives at both ends of a step. -/
def Hermite (P : Fin n → Polynomial ℝ) (t0 t1 : ℝ) (x0 d0 x1 d1 : Fin n → ℝ) : Prop :=
  ∀ i, (P i).natDegree ≤ 3 ∧ (P i).eval t0 = x0 i ∧ (P i).derivative.eval t0 = d0 i ∧
    (P i).eval t1 = x1 i ∧ (P i).derivative.eval t1 = d1 i

end Verif.ODE
