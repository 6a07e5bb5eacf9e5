import Mathlib.Data.Real.Basic
import Mathlib.Algebra.Order.Round
import Mathlib.Algebra.Order.Floor.Ring
import Mathlib.Data.Real.Archimedean

/-!
# Model of `mml/base/Intervals.h`

`Real` is the real numbers.  A `bool` result is a proposition ("returns true").  The virtual `contains` of each
class is one case of `BI.contains`; the fields of the base class are `lower`, `upper`, `lowerType`, `upperType`.
-/

set_option autoImplicit false

namespace Verif.Intervals

/-- `EndpointType`, `mml/base/Intervals.h:95-100`. -/
inductive EndpointType where
  | OPEN | CLOSED | NEG_INF | POS_INF
  deriving DecidableEq

/-- `std::numeric_limits<double>::max()`. -/
noncomputable def dblMax : ℝ := (2 - 1 / 2 ^ 52) * 2 ^ 1023

/-- `std::numeric_limits<Real>::epsilon() * 100`, `mml/base/Intervals.h:251`, `341`. -/
noncomputable def holeEps : ℝ := 1 / 2 ^ 52 * 100

/-- The classes derived from `BaseInterval`, `mml/base/Intervals.h:213-431`, with their constructor arguments. -/
inductive BI where
  | completeR
  | completeRHoles (hole0 holeDelta : ℝ)
  | open_ (lower upper : ℝ)
  | openClosed (lower upper : ℝ)
  | closed (lower upper : ℝ)
  | closedHoles (lower upper hole0 holeDelta : ℝ)
  | closedOpen (lower upper : ℝ)
  | negInfToOpen (upper : ℝ)
  | negInfToClosed (upper : ℝ)
  | openToInf (lower : ℝ)
  | closedToInf (lower : ℝ)

namespace BI

/-- `_lower` as set by the constructors (`mml/base/Intervals.h:216-218`, `241-243`, `277-278`, `293-294`,
`309-310`, `329-330`, `359-360`, `381-382`, `396-397`, `411-412`, `426-427`). -/
noncomputable def lower : BI → ℝ
  | completeR => -dblMax
  | completeRHoles _ _ => -dblMax
  | open_ l _ => l
  | openClosed l _ => l
  | closed l _ => l
  | closedHoles l _ _ _ => l
  | closedOpen l _ => l
  | negInfToOpen _ => -dblMax
  | negInfToClosed _ => -dblMax
  | openToInf l => l
  | closedToInf l => l

/-- `_upper` as set by the constructors (same lines as `lower`). -/
noncomputable def upper : BI → ℝ
  | completeR => dblMax
  | completeRHoles _ _ => dblMax
  | open_ _ u => u
  | openClosed _ u => u
  | closed _ u => u
  | closedHoles _ u _ _ => u
  | closedOpen _ u => u
  | negInfToOpen u => u
  | negInfToClosed u => u
  | openToInf _ => dblMax
  | closedToInf _ => dblMax

/-- `_lowerType` as set by the constructors (same lines as `lower`). -/
def lowerType : BI → EndpointType
  | completeR => .NEG_INF
  | completeRHoles _ _ => .NEG_INF
  | open_ _ _ => .OPEN
  | openClosed _ _ => .OPEN
  | closed _ _ => .CLOSED
  | closedHoles _ _ _ _ => .CLOSED
  | closedOpen _ _ => .CLOSED
  | negInfToOpen _ => .NEG_INF
  | negInfToClosed _ => .NEG_INF
  | openToInf _ => .OPEN
  | closedToInf _ => .CLOSED

/-- `_upperType` as set by the constructors (same lines as `lower`). -/
def upperType : BI → EndpointType
  | completeR => .POS_INF
  | completeRHoles _ _ => .POS_INF
  | open_ _ _ => .OPEN
  | openClosed _ _ => .CLOSED
  | closed _ _ => .CLOSED
  | closedHoles _ _ _ _ => .CLOSED
  | closedOpen _ _ => .OPEN
  | negInfToOpen _ => .OPEN
  | negInfToClosed _ => .CLOSED
  | openToInf _ => .POS_INF
  | closedToInf _ => .POS_INF

/-- The hole test of `mml/base/Intervals.h:250-252` and `340-342`.  (`std::round` and `round` differ only in
the direction of ties, where the distance is the same.) -/
def nearHole (hole0 holeDelta x : ℝ) : Prop :=
  |(x - hole0) / holeDelta - (round ((x - hole0) / holeDelta) : ℝ)| < holeEps

/-- `contains(Real)`, `mml/base/Intervals.h:221`, `249-255`, `281`, `297`, `313`, `336-345`, `363`, `385`,
`400`, `415`, `430`. -/
def contains : BI → ℝ → Prop
  | completeR, _ => True
  | completeRHoles h d, x => ¬ nearHole h d x
  | open_ l u, x => x > l ∧ x < u
  | openClosed l u, x => x > l ∧ x ≤ u
  | closed l u, x => x ≥ l ∧ x ≤ u
  | closedHoles l u h d, x => ¬ (x < l ∨ x > u) ∧ ¬ nearHole h d x
  | closedOpen l u, x => x ≥ l ∧ x < u
  | negInfToOpen u, x => x < u
  | negInfToClosed u, x => x ≤ u
  | openToInf l, x => x > l
  | closedToInf l, x => x ≥ l

/-- `getLength`, `mml/base/Intervals.h:144`. -/
noncomputable def getLength (a : BI) : ℝ := a.upper - a.lower

/-- Effective lower end in `GetEquidistantCovering`, `mml/base/Intervals.h:172-177`. -/
noncomputable def effLower (a : BI) : ℝ := if a.lowerType = .NEG_INF then -10 ^ 10 else a.lower

/-- Effective upper end in `GetEquidistantCovering`, `mml/base/Intervals.h:173-179`. -/
noncomputable def effUpper (a : BI) : ℝ := if a.upperType = .POS_INF then 10 ^ 10 else a.upper

/-- The point pushed in iteration `i` of the loop `mml/base/Intervals.h:188-198`. -/
noncomputable def coverPoint (a : BI) (numPoints : ℕ) (i : ℕ) : ℝ :=
  let delta := (a.effUpper - a.effLower) / ((numPoints : ℝ) - 1)
  let x := a.effLower + i * delta
  let x := if i = 0 ∧ a.lowerType = .OPEN then x + delta * (1 / 1000) else x
  if i = numPoints - 1 ∧ a.upperType = .OPEN then x - delta * (1 / 1000) else x

/-- `GetEquidistantCovering`, `mml/base/Intervals.h:166-199`. -/
noncomputable def covering (a : BI) (numPoints : ℤ) : List ℝ :=
  if numPoints ≤ 0 then []
  else if numPoints = 1 then [(a.effLower + a.effUpper) / 2]
  else (List.range numPoints.toNat).map (coverPoint a numPoints.toNat)

end BI

/-- `Interval::_intervals`, `mml/base/Intervals.h:465-467`. -/
abbrev Interval := List BI

/-- The four-way creation repeated at `mml/base/Intervals.h:531-538`, `596-603`, `610-617`, `620-627`,
`648-655`, `666-673`, `678-685`, `691-698`, `702-709`: every combination other than the first three makes an
`OpenInterval`. -/
def mkInterval (lowerType upperType : EndpointType) (lower upper : ℝ) : BI :=
  if lowerType = .CLOSED ∧ upperType = .CLOSED then .closed lower upper
  else if lowerType = .OPEN ∧ upperType = .CLOSED then .openClosed lower upper
  else if lowerType = .CLOSED ∧ upperType = .OPEN then .closedOpen lower upper
  else .open_ lower upper

/-- `Interval::Intersection`, `mml/base/Intervals.h:500-541`. -/
noncomputable def intersection (a b : BI) : Interval :=
  let lower := max a.lower b.lower
  let upper := min a.upper b.upper
  if lower > upper then []
  else
    let lowerType :=
      if lower = a.lower ∧ lower = b.lower then
        if a.lowerType = .CLOSED ∧ b.lowerType = .CLOSED then EndpointType.CLOSED else .OPEN
      else if lower = a.lower then a.lowerType
      else b.lowerType
    let upperType :=
      if upper = a.upper ∧ upper = b.upper then
        if a.upperType = .CLOSED ∧ b.upperType = .CLOSED then EndpointType.CLOSED else .OPEN
      else if upper = a.upper then a.upperType
      else b.upperType
    [mkInterval lowerType upperType lower upper]

/-- `overlapsOrAdjacent`, `mml/base/Intervals.h:557-569`. -/
def overlapsOrAdjacent (a b : BI) : Prop :=
  if a.upper > b.lower ∧ b.upper > a.lower then True
  else if a.upper = b.lower then a.upperType = .CLOSED ∨ b.lowerType = .CLOSED
  else if b.upper = a.lower then b.upperType = .CLOSED ∨ a.lowerType = .CLOSED
  else False

open Classical in
/-- `Interval::Union`, `mml/base/Intervals.h:551-631`. -/
noncomputable def union (a b : BI) : Interval :=
  if overlapsOrAdjacent a b then
    let lower := min a.lower b.lower
    let upper := max a.upper b.upper
    let lowerType :=
      if lower = a.lower ∧ lower = b.lower then
        if a.lowerType = .CLOSED ∨ b.lowerType = .CLOSED then EndpointType.CLOSED else .OPEN
      else if lower = a.lower then a.lowerType
      else b.lowerType
    let upperType :=
      if upper = a.upper ∧ upper = b.upper then
        if a.upperType = .CLOSED ∨ b.upperType = .CLOSED then EndpointType.CLOSED else .OPEN
      else if upper = a.upper then a.upperType
      else b.upperType
    [mkInterval lowerType upperType lower upper]
  else
    let first := if a.lower < b.lower then a else b
    let second := if a.lower < b.lower then b else a
    [mkInterval first.lowerType first.upperType first.lower first.upper,
      mkInterval second.lowerType second.upperType second.lower second.upper]

/-- Type of the new end created by cutting at an end of `b`, `mml/base/Intervals.h:665`, `677`, `690`, `701`. -/
def cutType (t : EndpointType) : EndpointType := if t = .CLOSED then .OPEN else .CLOSED

/-- `Interval::Difference`, `mml/base/Intervals.h:642-713`. -/
noncomputable def difference (a b : BI) : Interval :=
  if b.upper ≤ a.lower ∨ b.lower ≥ a.upper then [mkInterval a.lowerType a.upperType a.lower a.upper]
  else if b.lower ≤ a.lower ∧ b.upper ≥ a.upper then []
  else if b.lower ≤ a.lower ∧ b.upper < a.upper then
    [mkInterval (cutType b.upperType) a.upperType b.upper a.upper]
  else if b.lower > a.lower ∧ b.upper ≥ a.upper then
    [mkInterval a.lowerType (cutType b.lowerType) a.lower b.lower]
  else
    [mkInterval a.lowerType (cutType b.lowerType) a.lower b.lower,
      mkInterval (cutType b.upperType) a.upperType b.upper a.upper]

/-- `Interval::Complement`, `mml/base/Intervals.h:722-746`. -/
noncomputable def complement (a : BI) : Interval :=
  if a.lowerType = .NEG_INF ∧ a.upperType = .POS_INF then []
  else
    (if a.lowerType ≠ .NEG_INF then
      (if a.lowerType = .CLOSED then [BI.negInfToOpen a.lower] else [BI.negInfToClosed a.lower]) else []) ++
    (if a.upperType ≠ .POS_INF then
      (if a.upperType = .CLOSED then [BI.openToInf a.upper] else [BI.closedToInf a.upper]) else [])

namespace Interval

/-- `getLowerBound`, `mml/base/Intervals.h:749-756`. -/
noncomputable def getLowerBound : Interval → ℝ
  | [] => 0
  | a :: l => (a :: l).foldl (fun m i => min m i.lower) a.lower

/-- `getUpperBound`, `mml/base/Intervals.h:759-766`. -/
noncomputable def getUpperBound : Interval → ℝ
  | [] => 0
  | a :: l => (a :: l).foldl (fun m i => max m i.upper) a.upper

/-- `getLength`, `mml/base/Intervals.h:771-773`. -/
noncomputable def getLength (s : Interval) : ℝ := getUpperBound s - getLowerBound s

/-- `getMeasure`, `mml/base/Intervals.h:777-782`. -/
noncomputable def getMeasure (s : Interval) : ℝ := s.foldl (fun t i => t + i.getLength) 0

/-- `contains(Real)`, `mml/base/Intervals.h:791-798`. -/
def contains (s : Interval) (x : ℝ) : Prop := ∃ i ∈ s, BI.contains i x

/-- `contains(const BaseInterval&)`, `mml/base/Intervals.h:805-813`. -/
def containsInterval (s : Interval) (other : BI) : Prop :=
  ∃ i ∈ s, BI.contains i other.lower ∧ BI.contains i other.upper

/-- `intersects`, `mml/base/Intervals.h:819-827`. -/
def intersects (s : Interval) (other : BI) : Prop :=
  ∃ i ∈ s, i.lower ≤ other.upper ∧ i.upper ≥ other.lower

/-- Conversion of a `double` to `int`: truncation towards zero. -/
noncomputable def toInt (x : ℝ) : ℤ := if 0 ≤ x then ⌊x⌋ else ⌈x⌉

/-- `GetEquidistantCovering`, `mml/base/Intervals.h:834-850`. -/
noncomputable def covering (s : Interval) (numPoints : ℤ) : List ℝ :=
  if s = [] ∨ numPoints ≤ 0 then []
  else if getLength s ≤ 0 then []
  else s.flatMap (fun i => i.covering (max 1 (toInt (numPoints * i.getLength / getLength s))))

end Interval

end Verif.Intervals
