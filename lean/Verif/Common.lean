/-!
# Shared vocabulary of the model

Outcomes of C++ calls and `while` loops.  These definitions model no particular function of MML;
they fix how C++ behaviours are represented everywhere else.
-/

set_option autoImplicit false

namespace Verif

/-- The standard exception classes the modelled code throws.  MML's own exception classes are
represented by `mml` with the name of the class (`mml/MMLExceptions.h:1-359`). -/
inductive Exn where
  | outOfRange
  | invalidArgument
  | lengthError
  | badAlloc
  | mml (cls : String)
  deriving DecidableEq, Repr

/-- Outcome of a C++ call: a normal return, an exception, or undefined behaviour (for example an
out-of-range access through `std::vector::operator[]`).  No lines of `/repo` correspond to this:
it is the representation of the C++ abstract machine's three kinds of result. -/
inductive Outcome (α : Type _) where
  | ret (a : α)
  | exn (e : Exn)
  | ub
  deriving DecidableEq, Repr

namespace Outcome

/-- Sequencing: the continuation runs only after a normal return. -/
def bind {α β : Type _} (x : Outcome α) (f : α → Outcome β) : Outcome β :=
  match x with
  | ret a => f a
  | exn e => exn e
  | ub => ub

instance : Monad Outcome where
  pure := ret
  bind := bind

/-- Reading `v[i]` of a `std::vector` with `operator[]`: undefined behaviour out of range. -/
def index {α : Type _} (v : List α) (i : Nat) : Outcome α :=
  match v[i]? with
  | some a => ret a
  | none => ub

@[simp] theorem bind_ret {α β : Type _} (a : α) (f : α → Outcome β) :
    (Outcome.ret a >>= f) = f a := rfl
@[simp] theorem bind_exn {α β : Type _} (e : Exn) (f : α → Outcome β) :
    (Outcome.exn e >>= f) = Outcome.exn e := rfl
@[simp] theorem bind_ub {α β : Type _} (f : α → Outcome β) :
    ((Outcome.ub : Outcome α) >>= f) = Outcome.ub := rfl
@[simp] theorem pure_eq {α : Type _} (a : α) : (pure a : Outcome α) = Outcome.ret a := rfl

end Outcome

/-- A C++ `while` loop.  `step s = none` means the loop condition is false in `s`;
`step s = some s'` means the body ran and left `s'`.  `fuel` bounds the number of evaluations of the
condition; running out of fuel gives `none`.  Every use is accompanied by a theorem that the fuel
given suffices, and `whileFuel_mono` shows that then the amount of fuel does not matter. -/
def whileFuel {σ : Type _} (step : σ → Option σ) : Nat → σ → Option σ
  | 0, _ => none
  | fuel + 1, s =>
    match step s with
    | none => some s
    | some s' => whileFuel step fuel s'

/-- More fuel does not change the final state of a loop that terminated. -/
theorem whileFuel_mono {σ : Type _} (step : σ → Option σ) {m n : Nat} (h : m ≤ n) {s t : σ}
    (hm : whileFuel step m s = some t) : whileFuel step n s = some t := by
  induction m generalizing n s with
  | zero => simp [whileFuel] at hm
  | succ m ih =>
    cases n with
    | zero => omega
    | succ n =>
      simp only [whileFuel] at hm ⊢
      split at hm
      · next h1 => simpa [h1] using hm
      · next s' h1 => simpa [h1] using ih (by omega) hm

/-- Hoare rule for `while` with a termination measure: if the invariant is preserved and the measure
decreases, a loop with fuel above the initial measure ends in a state satisfying the invariant and
the negated condition. -/
theorem whileFuel_rule {σ : Type _} (step : σ → Option σ) (I : σ → Prop) (μ : σ → Nat)
    (hstep : ∀ s s', I s → step s = some s' → I s' ∧ μ s' < μ s) :
    ∀ (fuel : Nat) (s : σ), I s → μ s < fuel →
      ∃ t, whileFuel step fuel s = some t ∧ I t ∧ step t = none := by
  intro fuel
  induction fuel with
  | zero => intro s _ h; omega
  | succ fuel ih =>
    intro s hI hμ
    simp only [whileFuel]
    cases h : step s with
    | none => exact ⟨s, rfl, hI, h⟩
    | some s' =>
      obtain ⟨hI', hlt⟩ := hstep s s' hI h
      exact ih s' hI' (by omega)

/-- The same rule with a ghost state that the program does not compute. -/
theorem whileFuel_rule_ghost {σ γ : Type _} (step : σ → Option σ) (I : γ → σ → Prop) (μ : γ → σ → Nat)
    (hstep : ∀ c s s', I c s → step s = some s' → ∃ c', I c' s' ∧ μ c' s' < μ c s) :
    ∀ (fuel : Nat) (c : γ) (s : σ), I c s → μ c s < fuel →
      ∃ c' t, whileFuel step fuel s = some t ∧ I c' t ∧ step t = none := by
  intro fuel
  induction fuel with
  | zero => intro c s _ h; omega
  | succ fuel ih =>
    intro c s hI hμ
    simp only [whileFuel]
    cases h : step s with
    | none => exact ⟨c, s, rfl, hI, h⟩
    | some s' =>
      obtain ⟨c', hI', hlt⟩ := hstep c s s' hI h
      exact ih c' s' hI' (by omega)

end Verif
