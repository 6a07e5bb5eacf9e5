import Verif.Integ.Model
import Mathlib.Data.Real.Basic
import Mathlib.Data.Real.Archimedean

/-!
# The fixed Gauss and Gauss-Kronrod rules (Integration1D.h, GaussKronrod.h)

The constants are the decimal literals of the source, taken as exact numbers (a `double` keeps about sixteen of their digits).
-/

set_option autoImplicit false

namespace Verif.Integ

open Verif

/-- `GKResult` (GaussKronrod.h:36-47). -/
@[ext]
structure GKResult where
  value : ℝ
  error : ℝ
  evals : ℕ
  converged : Bool

/-- The nodes of `IntegrateGauss10` (Integration1D.h:355-356). -/
noncomputable def gauss10X : List ℝ :=
  [0.1488743389816312, 0.4333953941292472, 0.6794095682990244,
    0.8650633666889845, 0.9739065285171717]

/-- The weights of `IntegrateGauss10` (Integration1D.h:358-359). -/
noncomputable def gauss10W : List ℝ :=
  [0.2955242247147529, 0.2692667193099963, 0.2190863625159821,
    0.1494513491505806, 0.0666713443086881]

/-- One pair of nodes of `IntegrateGauss10` (Integration1D.h:366-370). -/
noncomputable def gauss10Step (f : ℝ → ℝ) (xm xr s : ℝ) (j : ℕ) : Outcome ℝ := do
  let x ← Outcome.index gauss10X j
  let w ← Outcome.index gauss10W j
  .ret (s + w * (f (xm + xr * x) + f (xm - xr * x)))

/-- `IntegrateGauss10` (Integration1D.h:352-377). -/
noncomputable def integrateGauss10 (f : ℝ → ℝ) (a b : ℝ) : Outcome Result := do
  let s ← forRange 5 0 (gauss10Step f (0.5 * (b + a)) (0.5 * (b - a)))
  .ret ⟨s * (0.5 * (b - a)), 0, 1, true⟩

/-- `xGK15` (GaussKronrod.h:59-68). -/
noncomputable def xGK15 : List ℝ :=
  [0.0, 0.20778495500789846760068940377324491, 0.40584515137739716690660641207696146,
    0.58608723546769113029414483825872959, 0.74153118559939443986386477328078841, 0.86486442335976907278971278864092620,
    0.94910791234275852452618968404785126, 0.99145537112081263920685469752632851]

/-- `wGK15` (GaussKronrod.h:71-80). -/
noncomputable def wGK15 : List ℝ :=
  [0.20948214108472782801299917489171426, 0.20443294007529889241416199923464908, 0.19035057806478540991325640242101368,
    0.16900472663926790282658342659855028, 0.14065325971552591874518959051023792, 0.10479001032225018383987632254151801,
    0.06309209262997855329070066318920429, 0.02293532201052922496373200805896959]

/-- `wG7` (GaussKronrod.h:85-90). -/
noncomputable def wG7 : List ℝ :=
  [0.41795918367346938775510204081632653, 0.38183005050511894495036977548897513, 0.27970539148927666790146777142377958,
    0.12948496616886969327061143267908202]

/-- The pair of running sums, Gauss and Kronrod. -/
structure Sums where
  gauss : ℝ
  kronrod : ℝ

/-- The Gauss part of the loop body of `IntegrateGK15` (GaussKronrod.h:122-129). -/
noncomputable def gauss7Term (i : ℕ) (g fsum : ℝ) : Outcome ℝ :=
  if i = 2 then do
    let w ← Outcome.index wG7 1
    .ret (g + w * fsum)
  else if i = 4 then do
    let w ← Outcome.index wG7 2
    .ret (g + w * fsum)
  else if i = 6 then do
    let w ← Outcome.index wG7 3
    .ret (g + w * fsum)
  else .ret g

/-- The loop body of `IntegrateGK15` (GaussKronrod.h:113-130). -/
noncomputable def gk15Step (f : ℝ → ℝ) (center half : ℝ) (s : Sums) (i : ℕ) : Outcome Sums := do
  let x ← Outcome.index xGK15 i
  let w ← Outcome.index wGK15 i
  let g ← gauss7Term i s.gauss (f (center + half * x) + f (center - half * x))
  .ret ⟨g, s.kronrod + w * (f (center + half * x) + f (center - half * x))⟩

/-- The end of every rule (GaussKronrod.h:132-138, 226-229, 332-335). -/
noncomputable def finish (half : ℝ) (n : ℕ) (s : Sums) : GKResult :=
  ⟨s.kronrod * half, |s.kronrod * half - s.gauss * half|, n, true⟩

/-- `IntegrateGK15` (GaussKronrod.h:100-139). -/
noncomputable def integrateGK15 (f : ℝ → ℝ) (a b : ℝ) : Outcome GKResult := do
  let g0 ← Outcome.index wG7 0
  let k0 ← Outcome.index wGK15 0
  let s ← forFromTo 1 8 ⟨g0 * f (0.5 * (a + b)), k0 * f (0.5 * (a + b))⟩ (gk15Step f (0.5 * (a + b)) (0.5 * (b - a)))
  .ret (finish (0.5 * (b - a)) 15 s)

/-- `xgk` of the 21-point rule (GaussKronrod.h:155-167). -/
noncomputable def xGK21 : List ℝ :=
  [0.995657163025808080735527280689003, 0.973906528517171720077964012084452, 0.930157491355708226001207180059508,
    0.865063366688984510732096688423493, 0.780817726586416897063717578345042, 0.679409568299024406234327365114874,
    0.562757134668604683339000099272694, 0.433395394129247190799265943165784, 0.294392862701460198131126603103866,
    0.148874338981631210884826001129720, 0.000000000000000000000000000000000]

/-- `wg` of the 21-point rule (GaussKronrod.h:170-176). -/
noncomputable def wG10 : List ℝ :=
  [0.066671344308688137593568809893332, 0.149451349150580593145776339657697, 0.219086362515982043995534934228163,
    0.269266719309996355091226921569469, 0.295524224714752870173892994651338]

/-- `wgk` of the 21-point rule (GaussKronrod.h:179-191). -/
noncomputable def wGK21 : List ℝ :=
  [0.011694638867371874278064396062192, 0.032558162307964727478818972459390, 0.054755896574351996031381300244580,
    0.075039674810919952767043140916190, 0.093125454583697605535065465083366, 0.109387158802297641899210590325805,
    0.123491976262065851077958109831074, 0.134709217311473325928054001771707, 0.142775938577060080797094273138717,
    0.147739104901338491374841515972068, 0.149445554002916905664936468389821]

/-- The first loop body of the 21- and 31-point rules, nodes used by both sums (GaussKronrod.h:203-213, 309-319). -/
noncomputable def bothStep (xgk wg wgk : List ℝ) (f : ℝ → ℝ) (center half : ℝ) (s : Sums) (j : ℕ) : Outcome Sums := do
  let x ← Outcome.index xgk (j * 2 + 1)
  let g ← Outcome.index wg j
  let k ← Outcome.index wgk (j * 2 + 1)
  .ret ⟨s.gauss + g * (f (center + half * x) + f (center - half * x)),
    s.kronrod + k * (f (center + half * x) + f (center - half * x))⟩

/-- The second loop body, nodes of the Kronrod sum only (GaussKronrod.h:215-224, 321-330). -/
noncomputable def kronrodStep (xgk wgk : List ℝ) (f : ℝ → ℝ) (center half : ℝ) (s : Sums) (j : ℕ) : Outcome Sums := do
  let x ← Outcome.index xgk (j * 2)
  let k ← Outcome.index wgk (j * 2)
  .ret ⟨s.gauss, s.kronrod + k * (f (center + half * x) + f (center - half * x))⟩

/-- `IntegrateGK21` (GaussKronrod.h:150-230). -/
noncomputable def integrateGK21 (f : ℝ → ℝ) (a b : ℝ) : Outcome GKResult := do
  let k0 ← Outcome.index wGK21 10
  let s ← forRange 5 ⟨0, k0 * f (0.5 * (a + b))⟩ (bothStep xGK21 wG10 wGK21 f (0.5 * (a + b)) (0.5 * (b - a)))
  let s ← forRange 5 s (kronrodStep xGK21 wGK21 f (0.5 * (a + b)) (0.5 * (b - a)))
  .ret (finish (0.5 * (b - a)) 21 s)

/-- `xgk` of the 31-point rule (GaussKronrod.h:247-264). -/
noncomputable def xGK31 : List ℝ :=
  [0.998002298693397060285172840152271, 0.987992518020485428489565718586613, 0.967739075679139134257347978784337,
    0.937273392400705904307758947710209, 0.897264532344081900882509656454496, 0.848206583410427216200648320774217,
    0.790418501442465932967649294817947, 0.724417731360170047416186054613938, 0.650996741297416970533735895313275,
    0.570972172608538847537226737253911, 0.485081863640239680693655740232351, 0.394151347077563369897207370981045,
    0.299180007153168812166780024266389, 0.201194093997434522300628303394596, 0.101142066918717499027074231447392,
    0.000000000000000000000000000000000]

/-- `wg` of the 31-point rule (GaussKronrod.h:268-277). -/
noncomputable def wG15 : List ℝ :=
  [0.030753241996117268354628393577204, 0.070366047488108124709267416450667, 0.107159220467171935011869546685869,
    0.139570677926154314447804794511028, 0.166269205816993933553200860481209, 0.186161000015562211026800561866423,
    0.198431485327111576456118326443839, 0.202578241925561272880620199967519]

/-- `wgk` of the 31-point rule (GaussKronrod.h:280-297). -/
noncomputable def wGK31 : List ℝ :=
  [0.005377479872923348987792051430128, 0.015007947329316122538374763075807, 0.025460847326715320186874001019653,
    0.035346360791375846222037948478360, 0.044589751324764876608227299373280, 0.053481524690928087265343147239430,
    0.062009567800670640285139230960803, 0.069854121318728258709520077099147, 0.076849680757720378894432777482659,
    0.083080502823133021038289247286104, 0.088564443056211770647275443693774, 0.093126598170825321225486872747346,
    0.096642726983623678505179907627589, 0.099173598721791959332393173484603, 0.100769845523875595044946662617570,
    0.101330007014791549017374792767493]

/-- `IntegrateGK31` (GaussKronrod.h:242-336). -/
noncomputable def integrateGK31 (f : ℝ → ℝ) (a b : ℝ) : Outcome GKResult := do
  let k0 ← Outcome.index wGK31 15
  let g0 ← Outcome.index wG15 7
  let s ← forRange 7 ⟨g0 * f (0.5 * (a + b)), k0 * f (0.5 * (a + b))⟩
    (bothStep xGK31 wG15 wGK31 f (0.5 * (a + b)) (0.5 * (b - a)))
  let s ← forRange 8 s (kronrodStep xGK31 wGK31 f (0.5 * (a + b)) (0.5 * (b - a)))
  .ret (finish (0.5 * (b - a)) 31 s)

/-- `GKRule` (GaussKronrod.h:344). -/
inductive GKRule where
  | gk15 | gk21 | gk31

/-- The choice of the rule (GaussKronrod.h:362-364). -/
noncomputable def GKRule.run : GKRule → (ℝ → ℝ) → ℝ → ℝ → Outcome GKResult
  | .gk15 => integrateGK15
  | .gk21 => integrateGK21
  | .gk31 => integrateGK31

/-- Combining the halves (GaussKronrod.h:379-380). -/
def GKResult.join (l r : GKResult) : GKResult :=
  ⟨l.value + r.value, l.error + r.error, l.evals + r.evals, l.converged && r.converged⟩

open Classical in
/-- `IntegrateGKAdaptive` (GaussKronrod.h:358-381), for a recursion depth given as a natural number; a negative `max_depth`
behaves like zero. -/
noncomputable def adaptive (rule : GKRule) (f : ℝ → ℝ) : ℕ → ℝ → ℝ → ℝ → ℝ → Outcome GKResult
  | 0, a, b, tolAbs, tolRel => do
    let r ← rule.run f a b
    .ret { r with converged := decide (r.error ≤ max tolAbs (tolRel * |r.value|)) }
  | d + 1, a, b, tolAbs, tolRel => do
    let r ← rule.run f a b
    if r.error ≤ max tolAbs (tolRel * |r.value|) then .ret { r with converged := true }
    else do
      let left ← adaptive rule f d a (0.5 * (a + b)) (tolAbs / 2) tolRel
      let right ← adaptive rule f d (0.5 * (a + b)) b (tolAbs / 2) tolRel
      .ret (left.join right)

open Classical in
/-- How often `IntegrateGKAdaptive` applies its rule (GaussKronrod.h:358-381): the recursion of `adaptive` again, counting the
calls on line 362 instead of returning the result. -/
noncomputable def applications (rule : GKRule) (f : ℝ → ℝ) : ℕ → ℝ → ℝ → ℝ → ℝ → Outcome ℕ
  | 0, a, b, _, _ => do
    let _ ← rule.run f a b
    .ret 1
  | d + 1, a, b, tolAbs, tolRel => do
    let r ← rule.run f a b
    if r.error ≤ max tolAbs (tolRel * |r.value|) then .ret 1
    else do
      let left ← applications rule f d a (0.5 * (a + b)) (tolAbs / 2) tolRel
      let right ← applications rule f d (0.5 * (a + b)) b (tolAbs / 2) tolRel
      .ret (1 + left + right)

/-- `IntegrateGaussKronrod` (GaussKronrod.h:416-418, 428-433). -/
noncomputable def integrateGaussKronrod (f : ℝ → ℝ) (a b tol : ℝ) : Outcome (ℝ × ℝ) := do
  let r ← adaptive .gk15 f 50 a b tol tol
  .ret (r.value, r.error)

end Verif.Integ
