import Verif.ODE.StepperSpec
import Verif.ODE.SolutionProps

/-! # Specification of the adaptive integrator -/

set_option autoImplicit false

namespace Verif.ODE

variable {n : ℕ}

/-- A numerical trajectory: points `(time, state)`, number 0 to `m`, from `(t0, x0)` to a time between
`tEnd - Eps` and `tEnd`, each a step `ok` from the one before. -/
structure Track (ok : ℝ → (Fin n → ℝ) → ℝ → (Fin n → ℝ) → Prop) (t0 : ℝ) (x0 : Fin n → ℝ) (tEnd : ℝ)
    (m : ℕ) (p : ℕ → ℝ × (Fin n → ℝ)) : Prop where
  start : p 0 = (t0, x0)
  step : ∀ k < m, (p k).1 < (p (k + 1)).1 ∧ ok (p k).1 (p k).2 (p (k + 1)).1 (p (k + 1)).2
  reaches : tEnd - epsR ≤ (p m).1
  stays : (p m).1 ≤ tEnd

/-- When the integrator may give up: it has come, by steps `ok`, to a point before the end at which, for
some step size `h` not beyond the end, the stepper gives up (`quit`) or `lo * h` is below the smallest
step allowed. -/
def Stuck (ok : ℝ → (Fin n → ℝ) → ℝ → (Fin n → ℝ) → Prop) (quit : ℝ → (Fin n → ℝ) → ℝ → Prop) (lo t0 : ℝ)
    (x0 : Fin n → ℝ) (tEnd minStep : ℝ) : Prop :=
  ∃ (m : ℕ) (p : ℕ → ℝ × (Fin n → ℝ)), p 0 = (t0, x0) ∧
    (∀ k < m, (p k).1 < (p (k + 1)).1 ∧ ok (p k).1 (p k).2 (p (k + 1)).1 (p (k + 1)).2) ∧
    (p m).1 < tEnd - epsR ∧
    ∃ h, 0 < h ∧ (p m).1 + h ≤ tEnd ∧ (quit (p m).1 (p m).2 h ∨ lo * h < minStep)

/-- `v` is the value at time `u` of the piecewise cubic that matches the trajectory's values and
derivatives at its points. -/
def OnCurve (f : ℝ → (Fin n → ℝ) → Fin n → ℝ) (m : ℕ) (p : ℕ → ℝ × (Fin n → ℝ)) (u : ℝ) (v : Fin n → ℝ) :
    Prop :=
  ∃ k < m, (p k).1 ≤ u ∧ u ≤ (p (k + 1)).1 ∧ ∃ P,
    Hermite P (p k).1 (p (k + 1)).1 (p k).2 (f (p k).1 (p k).2) (p (k + 1)).2
      (f (p (k + 1)).1 (p (k + 1)).2) ∧
    v = fun i => (P i).eval u

/-- A time just after a point of the trajectory, by at most `Eps`. -/
def JustAfter (m : ℕ) (p : ℕ → ℝ × (Fin n → ℝ)) (u : ℝ) : Prop :=
  ∃ k, 1 ≤ k ∧ k ≤ m ∧ (p k).1 < u ∧ u ≤ (p k).1 + epsR

/-- A step of the step calculator `clc` whose error estimate is within the tolerance. -/
def Within (clc : Calc) (sys : System) (f : ℝ → (Fin n → ℝ) → Fin n → ℝ) (eps : ℝ) (t : ℝ) (x : Fin n → ℝ)
    (t' : ℝ) (x' : Fin n → ℝ) : Prop :=
  ∃ e : Fin n → ℝ,
    clc sys t (List.ofFn x) (List.ofFn (f t x)) (t' - t) (zeros n) (zeros n) = .ret (List.ofFn x', List.ofFn e) ∧
    ∀ i, |e i| ≤ eps * (|x i| + |(t' - t) * f t x i| + 1 / 10 ^ 30)

/-- The entries `l` of the solution for output times `t0, t0 + dt, t0 + 2 dt, …, tEnd`: the initial point,
then every grid time up to the end of the trajectory that is not `JustAfter` one of its points, with a
state on the curve, and, unless there are already as many entries as there are output times, `tEnd` with
the last state. -/
def Delivers (f : ℝ → (Fin n → ℝ) → Fin n → ℝ) (t0 : ℝ) (x0 : Fin n → ℝ) (tEnd dt : ℝ) (m : ℕ)
    (p : ℕ → ℝ × (Fin n → ℝ)) (l : List (ℝ × (Fin n → ℝ))) : Prop :=
  ∃ (js : List ℕ) (v : ℕ → Fin n → ℝ) (tail : List (ℝ × (Fin n → ℝ))),
    l = (t0, x0) :: js.map (fun (j : ℕ) => (t0 + j * dt, v j)) ++ tail ∧
    js.Pairwise (· < ·) ∧
    (∀ j : ℕ, j ∈ js ↔ 1 ≤ j ∧ t0 + j * dt ≤ (p m).1 ∧ ¬ JustAfter m p (t0 + j * dt)) ∧
    (∀ j ∈ js, OnCurve f m p (t0 + j * dt) (v j)) ∧
    (((js.length : ℤ) + 1 < ⌈(tEnd - t0) / dt⌉ + 1 ∧ tail = [(tEnd, (p m).2)]) ∨
      ((js.length : ℤ) + 1 = ⌈(tEnd - t0) / dt⌉ + 1 ∧ tail = [] ∧ (p m).1 = tEnd ∧
        ∃ j ∈ js, t0 + j * dt = tEnd ∧ v j = (p m).2))

/-- The requested times are in order, and the second is after the first. -/
structure Ordered (times : List ℝ) : Prop where
  two : 2 ≤ times.length
  mono : ∀ i j, i ≤ j → j < times.length → times.getD i 0 ≤ times.getD j 0
  first : times.getD 0 0 < times.getD 1 0
  span : times.getD 0 0 + epsR < times.getD (times.length - 1) 0

/-- The entry `e` for a requested time `u`: a point of the trajectory less than `Eps` from `u`, or `u` with
the value at `u` of the cubic of a step that covers `u`, up to `Eps` after its end. -/
def AtTime (f : ℝ → (Fin n → ℝ) → Fin n → ℝ) (m : ℕ) (p : ℕ → ℝ × (Fin n → ℝ)) (u : ℝ) (e : ℝ × (Fin n → ℝ)) :
    Prop :=
  (∃ k, 1 ≤ k ∧ k ≤ m ∧ |u - (p k).1| < epsR ∧ e = p k) ∨
  (e.1 = u ∧ ∃ k < m, (p k).1 ≤ u ∧ u ≤ (p (k + 1)).1 + epsR ∧ ∃ P,
    Hermite P (p k).1 (p (k + 1)).1 (p k).2 (f (p k).1 (p k).2) (p (k + 1)).2
      (f (p (k + 1)).1 (p (k + 1)).2) ∧
    e.2 = fun i => (P i).eval u)

end Verif.ODE
