import Verif.Optim.BFGS

/-!
# Model of the limited-memory BFGS method

`mml/algorithms/OptimizationMultidim.h`, exact, with the conventions of `Verif.Optim.BFGS`.  The vectors `s_history`,
`y_history`, `rho` and `alpha` have `_memorySize` entries; they are functions of the index here, and every index used is
below `_memorySize`, being a remainder or a count below it.
-/

set_option autoImplicit false

namespace Verif.Optim.QN

variable {N : ℕ}

/-- The correction pairs and the two counters (OptimizationMultidim.h:1684-1693). -/
structure Buf (N : ℕ) where
  s : ℕ → Pt N
  y : ℕ → Pt N
  rho : ℕ → ℝ
  count : ℕ
  start : ℕ

/-- `idx` (OptimizationMultidim.h:1720). -/
def idx (m : ℕ) (b : Buf N) (i : ℕ) : ℕ := (b.start + i) % m

/-- The first loop, for the `k` oldest pairs, newest first (OptimizationMultidim.h:1718-1724). -/
noncomputable def loop1 (m : ℕ) (b : Buf N) : ℕ → (ℕ → ℝ) × Pt N → (ℕ → ℝ) × Pt N
  | 0, s => s
  | k + 1, s =>
    let i := idx m b k
    let a := b.rho i * dot (b.s i) s.2
    loop1 m b k (Function.update s.1 i a, fun j => s.2 j - a * b.y i j)

/-- A step of the second loop (OptimizationMultidim.h:1743-1746). -/
noncomputable def loop2Body (m : ℕ) (b : Buf N) (alpha : ℕ → ℝ) (r : Pt N) (i : ℕ) : Pt N :=
  let k := idx m b i
  let beta := b.rho k * dot (b.y k) r
  fun j => r j + b.s k j * (alpha k - beta)

open Classical in
/-- `gamma` (OptimizationMultidim.h:1726-1735). -/
noncomputable def gammaOf (m : ℕ) (b : Buf N) : ℝ :=
  if b.count > 0 then
    (if dot (b.y (idx m b (b.count - 1))) (b.y (idx m b (b.count - 1))) > eps then
      dot (b.s (idx m b (b.count - 1))) (b.y (idx m b (b.count - 1))) /
        dot (b.y (idx m b (b.count - 1))) (b.y (idx m b (b.count - 1)))
     else 1)
  else 1

/-- The two-loop recursion (OptimizationMultidim.h:1716-1747) with the contents `alpha` of the scratch vector. -/
noncomputable def twoLoop (m : ℕ) (b : Buf N) (alpha : ℕ → ℝ) (g : Pt N) : Pt N :=
  let aq := loop1 m b b.count (alpha, g)
  (List.range b.count).foldl (loop2Body m b aq.1) (fun j => gammaOf m b * aq.2 j)

open Classical in
/-- Storing a pair (OptimizationMultidim.h:1788-1803). -/
noncomputable def store (m : ℕ) (b : Buf N) (s y : Pt N) : Buf N :=
  if dot s y > eps then
    (if b.count < m then
      ⟨Function.update b.s b.count s, Function.update b.y b.count y, Function.update b.rho b.count (1 / dot s y), b.count + 1, b.start⟩
     else ⟨Function.update b.s b.start s, Function.update b.y b.start y, Function.update b.rho b.start (1 / dot s y), b.count,
        (b.start + 1) % m⟩)
  else b

/-! ## The backtracking line search -/

/-- An unchecked division. -/
noncomputable def quo (a b : ℝ) : Outcome ℝ := open Classical in if b = 0 then .ub else .ret (a / b)

/-- The variables `alam`, `alam2`, `f2` (OptimizationMultidim.h:1876-1878). -/
structure Back where
  alam : ℝ
  alam2 : ℝ
  f2 : ℝ

/-- The minimum of the cubic (OptimizationMultidim.h:1905-1915) for its coefficients. -/
noncomputable def cubicMin (slope alam a b : ℝ) : Outcome ℝ :=
  open Classical in
  if a = 0 then quo (-slope) (2 * b)
  else if b * b - 3 * a * slope < 0 then .ret (1 / 2 * alam)
  else if b ≤ 0 then quo (-b + Real.sqrt (b * b - 3 * a * slope)) (3 * a)
  else quo (-slope) (b + Real.sqrt (b * b - 3 * a * slope))

/-- A backtrack that is not the first one (OptimizationMultidim.h:1900-1918). -/
noncomputable def cubicStep (f slope fnew : ℝ) (z : Back) : Outcome ℝ := do
  let rhs1 := fnew - f - z.alam * slope
  let rhs2 := z.f2 - f - z.alam2 * slope
  let q1 ← quo rhs1 (z.alam * z.alam)
  let q2 ← quo rhs2 (z.alam2 * z.alam2)
  let a ← quo (q1 - q2) (z.alam - z.alam2)
  let q3 ← quo (-z.alam2 * rhs1) (z.alam * z.alam)
  let q4 ← quo (z.alam * rhs2) (z.alam2 * z.alam2)
  let b ← quo (q3 + q4) (z.alam - z.alam2)
  let t ← cubicMin slope z.alam a b
  .ret (open Classical in if t > 1 / 2 * z.alam then 1 / 2 * z.alam else t)

/-- `tmplam` (OptimizationMultidim.h:1896-1919). -/
noncomputable def tmplam (f slope fnew : ℝ) (z : Back) : Outcome ℝ :=
  open Classical in
  if z.alam = 1 then quo (-slope) (2 * (fnew - f - slope)) else cubicStep f slope fnew z

/-- `alam < alamin` for `alamin = TOLX / test` (OptimizationMultidim.h:1874, 1887); `test = 0` makes `alamin` infinite. -/
def belowMin (alam test : ℝ) : Prop := test = 0 ∨ alam < 1 / 10 ^ 12 / test

open Classical in
/-- The loop of `LineSearchBacktrackLBFGS` (OptimizationMultidim.h:1880-1925) along the line `phi`: the step length accepted.
A loop that does not end within the given number of rounds is undefined. -/
noncomputable def backLoop (phi : ℝ → ℝ) (f slope test : ℝ) : ℕ → Back → Outcome ℝ
  | 0, _ => .ub
  | k + 1, z =>
    if belowMin z.alam test then .ret z.alam
    else if phi z.alam ≤ f + 1 / 10 ^ 4 * z.alam * slope then .ret z.alam
    else do
      let t ← tmplam f slope (phi z.alam) z
      backLoop phi f slope test k ⟨max t (1 / 10 * z.alam), z.alam, phi z.alam⟩

open Classical in
/-- `test` (OptimizationMultidim.h:1868-1873). -/
noncomputable def stepTest (x p : Pt N) : ℝ :=
  (List.finRange N).foldl (fun t j => if |p j| / max |x j| 1 > t then |p j| / max |x j| 1 else t) 0

open Classical in
/-- `LineSearchBacktrackLBFGS` (OptimizationMultidim.h:1832-1926): the new point, or undefined if the loop does not end; the
value returned is the function's there.  Scaling and the fall back to steepest descent are those of `LineSearchWolfe`
(lines 1841-1865). -/
noncomputable def backtrack (f : Pt N → ℝ) (x g p : Pt N) (stpmax : ℝ) : Outcome (Pt N) :=
  let d := descent g (scaled p stpmax)
  if h : ∃ k a, backLoop (fun a => f (along x d a)) (f x) (dot g d) (stepTest x d) k ⟨1, 0, 0⟩ = .ret a then
    .ret (along x d h.choose_spec.choose)
  else .ub

/-- The variables of `LBFGS::Minimize` that live from one iteration to the next (OptimizationMultidim.h:1681-1699). -/
structure LSt (N : ℕ) where
  x : Pt N
  g : Pt N
  fret : ℝ
  buf : Buf N

/-- The direction searched, for the contents `alpha` of the scratch vector (OptimizationMultidim.h:1712-1752). -/
noncomputable def direction (m : ℕ) (alpha : ℕ → ℝ) (s : LSt N) : Pt N := fun j => -(twoLoop m s.buf alpha s.g j)

/-- The pair stored at the end of an iteration (OptimizationMultidim.h:1779-1803). -/
noncomputable def lnext (m : ℕ) (s : LSt N) (x' g' : Pt N) (fret' : ℝ) : LSt N :=
  ⟨x', g', fret', store m s.buf (fun j => x' j - s.x j) (fun j => g' j - s.g j)⟩

open Classical in
/-- The main loop (OptimizationMultidim.h:1707-1807; `MakeResult`, lines 1811-1818) with `k` iterations left.  `alphas iter` is what the scratch vector holds
before iteration `iter`; it is overwritten before it is read, so any contents will do. -/
noncomputable def lrun (f : Pt N → ℝ) (G : Pt N → Pt N) (ftol gtol stpmax : ℝ) (m : ℕ) (alphas : ℕ → ℕ → ℝ) :
    ℕ → ℕ → LSt N → Outcome (Result N)
  | 0, iter, s => .ret ⟨s.x, s.fret, iter + 1, false⟩
  | k + 1, iter, s => do
    let x' ← backtrack f s.x s.g (direction m (alphas iter) s) stpmax
    if valueTest ftol (f x') s.fret then .ret ⟨x', f x', iter + 1, true⟩
    else if gradTest (f x') x' (G x') < gtol then .ret ⟨x', f x', iter + 1, true⟩
    else lrun f G ftol gtol stpmax m alphas k (iter + 1) (lnext m s x' (G x') (f x'))

/-- The state before the loop (OptimizationMultidim.h:1681-1699). -/
def lstart (f : Pt N → ℝ) (G : Pt N → Pt N) (x0 : Pt N) : LSt N :=
  ⟨x0, G x0, f x0, ⟨fun _ => 0, fun _ => 0, fun _ => 0, 0, 0⟩⟩

open Classical in
/-- `LBFGS::Minimize` (OptimizationMultidim.h:1665-1808). -/
noncomputable def lbfgs (f : Pt N → ℝ) (G : Pt N → Pt N) (ftol gtol : ℝ) (maxIter memory : ℤ) (alphas : ℕ → ℕ → ℝ) (x0 : Pt N) :
    Outcome (Result N) :=
  if ftol ≤ 0 then .exn (.mml "MultidimOptimizationInputError")
  else if gtol ≤ 0 then .exn (.mml "MultidimOptimizationInputError")
  else if maxIter ≤ 0 then .exn (.mml "MultidimOptimizationInputError")
  else if memory ≤ 0 then .exn (.mml "MultidimOptimizationInputError")
  else lrun f G ftol gtol (maxStep x0) memory.toNat alphas maxIter.toNat 0 (lstart f G x0)

end Verif.Optim.QN
