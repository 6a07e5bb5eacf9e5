import Verif.Loops
import Mathlib.Algebra.Field.Defs
import Mathlib.Data.List.DropRight
import Mathlib.Algebra.Order.Group.Nat

/-!
# Model of the polynomial class

`mml/base/Polynom.h`, with `CoefT = FieldT = K` an exact field with decidable equality.  A `Polynom` is the
list of its coefficients, constant term first.  `operator[]` is unchecked.  `int` indices do not overflow.
Printing is not modelled.
-/

set_option autoImplicit false

namespace Verif.Poly

variable {K : Type} [Field K] [DecidableEq K]

/-- `v[i] += a` (or `-=`) through the unchecked `operator[]`. -/
def addAt (v : List K) (i : ℕ) (a : K) : Outcome (List K) := do
  let x ← Outcome.index v i
  Outcome.store v i (x + a)

/-- `Polynom::Monomial` (Polynom.h:76-80) for `degree ≥ 0`. -/
def monomial (degree : ℕ) : Outcome (List K) :=
  Outcome.store (List.replicate (degree + 1) (0 : K)) degree 1

/-- `Polynom::Linear` (Polynom.h:143-145). -/
def linear (a b : K) : List K := [b, a]

/-- `Polynom::Reduce()` (Polynom.h:155). -/
def reduce (v : List K) : List K := v.rdropWhile (fun c => c = 0)

/-- `Polynom::leadingTerm` (Polynom.h:161). -/
def leadingTerm (v : List K) : K := v.getLastD 0

/-- `Polynom::constantTerm` (Polynom.h:163). -/
def constantTerm (v : List K) : K := v.headD 0

/-- `Polynom::coeff` (Polynom.h:195); the index is an `int`. -/
def coeff (v : List K) (i : ℤ) : K := if i ≥ 0 ∧ i < v.length then v.getD i.toNat 0 else 0

/-- `Polynom::operator()` (Polynom.h:207-216). -/
def eval (v : List K) (x : K) : Outcome K :=
  if v.isEmpty then .ret 0
  else do
    let j := v.length - 1
    let top ← Outcome.index v j
    forDown 0 j (top * 1) (fun p i => do
      let c ← Outcome.index v i
      .ret (p * x + c))

/-- `Polynom::IsEqual` and `operator==` (Polynom.h:221-262). -/
def isEqual (a b : List K) : Bool :=
  (List.range (max a.length b.length)).all (fun i =>
    (if i < a.length then a.getD i 0 else 0) = (if i < b.length then b.getD i 0 else 0))

/-- `Polynom::operator-()` (Polynom.h:271-278). -/
def neg (v : List K) : Outcome (List K) :=
  forRange v.length (List.replicate v.length (0 : K)) (fun r i => do
    let c ← Outcome.index v i
    Outcome.store r i (-c))

/-- Body of the loop of `operator+` (Polynom.h:289-292). -/
def addBody (a b : List K) (r : List K) (i : ℕ) : Outcome (List K) :=
  (if i < a.length then Outcome.index a i >>= fun c => addAt r i c else .ret r) >>= fun r =>
    if i < b.length then Outcome.index b i >>= fun c => addAt r i c else .ret r

/-- `Polynom::operator+` (Polynom.h:282-295). -/
def add (a b : List K) : Outcome (List K) :=
  let n := max a.length b.length
  forRange n (List.replicate n (0 : K)) (addBody a b)

/-- Body of the loop of `operator-` (Polynom.h:306-309). -/
def subBody (a b : List K) (r : List K) (i : ℕ) : Outcome (List K) :=
  (if i < a.length then Outcome.index a i >>= fun c => addAt r i c else .ret r) >>= fun r =>
    if i < b.length then Outcome.index b i >>= fun c => addAt r i (-c) else .ret r

/-- `Polynom::operator-` (Polynom.h:299-312). -/
def sub (a b : List K) : Outcome (List K) :=
  let n := max a.length b.length
  forRange n (List.replicate n (0 : K)) (subBody a b)

/-- `Polynom::operator*` (Polynom.h:316-326).  With two empty operands the size wraps to `-1` and `resize`
throws `std::length_error`. -/
def mul (a b : List K) : Outcome (List K) :=
  if a.length + b.length = 0 then .exn .lengthError
  else
    forRange a.length (List.replicate (a.length + b.length - 1) (0 : K)) (fun r i =>
      forRange b.length r (fun r j => do
        let x ← Outcome.index a i
        let y ← Outcome.index b j
        addAt r (i + j) (x * y)))

/-- `Polynom::operator+(scalar)` (Polynom.h:330-336). -/
def addScalar (v : List K) (c : K) : Outcome (List K) :=
  addAt (if v.isEmpty then [0] else v) 0 c

/-- `Polynom::operator-(scalar)` (Polynom.h:344-350). -/
def subScalar (v : List K) (c : K) : Outcome (List K) :=
  addAt (if v.isEmpty then [0] else v) 0 (-c)

/-- `operator-(scalar, poly)` (Polynom.h:352-358). -/
def scalarSub (c : K) (v : List K) : Outcome (List K) := do
  let r ← neg v
  addAt (if r.isEmpty then [0] else r) 0 c

/-- `Polynom::operator*(scalar)` (Polynom.h:362-367). -/
def mulScalar (v : List K) (c : K) : List K := v.map (· * c)

/-- `Polynom::operator/(scalar)` (Polynom.h:375-380); division by zero is not modelled. -/
def divScalar (v : List K) (c : K) : List K := v.map (· / c)

/-- The scans `while (n >= 0 && v[n] == 0) n--` (Polynom.h:392-393, 411-413) from `n = k - 1`: `none` when the
index reaches `-1`. -/
def topNonzero (v : List K) : ℕ → Outcome (Option ℕ)
  | 0 => .ret none
  | k + 1 => do
    let c ← Outcome.index v k
    if c = 0 then topNonzero v k else .ret (some k)

/-- The body of the division loop (Polynom.h:402-405) on `(q, r)`. -/
def divBody (v : List K) (nv : ℕ) (s : List K × List K) (k : ℕ) : Outcome (List K × List K) := do
  let rt ← Outcome.index s.2 (nv + k)
  let lead ← Outcome.index v nv
  let q ← Outcome.store s.1 k (rt / lead)
  let r ← forDown k (nv + k) s.2 (fun r j => do
    let qk ← Outcome.index q k
    let c ← Outcome.index v (j - k)
    addAt r j (-(qk * c)))
  .ret (q, r)

/-- `Polynom::poldiv` (Polynom.h:387-424): quotient and remainder.  The output arguments are distinct objects
from the inputs. -/
def poldiv (u v : List K) : Outcome (List K × List K) := do
  let top ← topNonzero v v.length
  match top with
  | none => .exn (.mml "DivisionByZeroError")
  | some nv => do
    let N := u.length
    let s ← forDown 0 (N - nv) (List.replicate N (0 : K), u) (divBody v nv)
    let r ← forFromTo nv N s.2 (fun r j => Outcome.store r j 0)
    let tq ← topNonzero s.1 N
    let sq := match tq with
      | none => 0
      | some nq => nq + 1
    let qout ← forRange sq (List.replicate sq (0 : K)) (fun o j => do
      let c ← Outcome.index s.1 j
      Outcome.store o j c)
    let rout ← forRange nv (List.replicate nv (0 : K)) (fun o j => do
      let c ← Outcome.index r j
      Outcome.store o j c)
    .ret (qout, rout)

/-- `Polynom::Derive` (Polynom.h:430-453) for an output vector of size `m`: the vector afterwards. -/
def derive (v : List K) (x : K) (pd : List K) : Outcome (List K) :=
  if v.isEmpty then .ub
  else do
    let nc := v.length - 1
    let nd := pd.length - 1
    let top ← Outcome.index v nc
    let pd ← Outcome.store pd 0 top
    let pd ← forFromTo 1 (nd + 1) pd (fun pd j => Outcome.store pd j 0)
    let pd ← forDown 0 nc pd (fun pd i => do
      let nnd := if nd < nc - i then nd else nc - i
      let pd ← forDown 1 (nnd + 1) pd (fun pd j => do
        let a ← Outcome.index pd j
        let b ← Outcome.index pd (j - 1)
        Outcome.store pd j (a * x + b))
      let a ← Outcome.index pd 0
      let c ← Outcome.index v i
      Outcome.store pd 0 (a * x + c))
    let s ← forFromTo 2 (nd + 1) ((1 : K), pd) (fun s i => do
      let cnst := s.1 * i
      let a ← Outcome.index s.2 i
      let pd ← Outcome.store s.2 i (a * cnst)
      .ret (cnst, pd))
    .ret s.2

/-- `Polynom::derivative` (Polynom.h:456-468). -/
def derivative (v : List K) : Outcome (List K) :=
  if v.length ≤ 1 then .ret []
  else
    let deg := v.length - 1
    forFromTo 1 (deg + 1) (List.replicate deg (0 : K)) (fun r i => do
      let c ← Outcome.index v i
      Outcome.store r (i - 1) (c * i))

/-- `Polynom::integral` (Polynom.h:471-479). -/
def integral (v : List K) : Outcome (List K) :=
  forRange v.length (List.replicate (v.length + 1) (0 : K)) (fun r i => do
    let c ← Outcome.index v i
    Outcome.store r (i + 1) (c / (i + 1 : ℕ)))

/-- The coefficients of the product of the `X - x[i]` (Polynom.h:110-120). -/
def masterPoly (x : List K) : Outcome (List K) := do
  let n := x.length
  let x0 ← Outcome.index x 0
  let s ← Outcome.store (List.replicate n (0 : K)) (n - 1) (-x0)
  forFromTo 1 n s (fun s i => do
    let xi ← Outcome.index x i
    let s ← forFromTo (n - 1 - i) (n - 1) s (fun s j => do
      let c ← Outcome.index s (j + 1)
      addAt s j (-(xi * c)))
    addAt s (n - 1) (-xi))

/-- The body of the second loop of `FromValues` (Polynom.h:124-134). -/
def fromValuesBody (x y s : List K) (cof : List K) (j : ℕ) : Outcome (List K) := do
  let n := x.length
  let xj ← Outcome.index x j
  let phi ← forDown 1 n (n : K) (fun phi k => do
    let c ← Outcome.index s k
    .ret ((k : K) * c + xj * phi))
  let yj ← Outcome.index y j
  let ff := yj / phi
  let r ← forDown 0 n (cof, (1 : K)) (fun (t : List K × K) k => do
    let cof ← addAt t.1 k (t.2 * ff)
    let c ← Outcome.index s k
    .ret (cof, c + xj * t.2))
  .ret r.1

/-- `Polynom::FromValues` (Polynom.h:92-138).  The search for duplicates throws at the first pair; only its
outcome matters here. -/
def fromValues (x y : List K) : Outcome (List K) :=
  if x.length ≠ y.length then .exn (.mml "ArgumentError")
  else if x.length = 0 then .exn (.mml "ArgumentError")
  else if (List.range x.length).any (fun i => (List.range x.length).any (fun j =>
      decide (i < j) && decide (x.getD i 0 = x.getD j 0))) then .exn (.mml "ArgumentError")
  else do
    let s ← masterPoly x
    forRange x.length (List.replicate x.length (0 : K)) (fromValuesBody x y s)

end Verif.Poly
