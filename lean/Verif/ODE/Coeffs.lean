import Mathlib.Data.Rat.Defs

/-!
# The Runge–Kutta coefficient tables (mml/algorithms/ODESolvers/ODERKCoefficients.h)

The quotients of literals are taken exactly, as rational numbers.
-/

set_option autoImplicit false

namespace Verif.ODE

namespace CK

/-- `c2` (ODERKCoefficients.h:47). -/
def c2 : ℚ := 1 / 5

/-- `c3` (ODERKCoefficients.h:48). -/
def c3 : ℚ := 3 / 10

/-- `c4` (ODERKCoefficients.h:49). -/
def c4 : ℚ := 3 / 5

/-- `c5` (ODERKCoefficients.h:50). -/
def c5 : ℚ := 1

/-- `c6` (ODERKCoefficients.h:51). -/
def c6 : ℚ := 7 / 8

/-- `a21` (ODERKCoefficients.h:54). -/
def a21 : ℚ := 1 / 5

/-- `a31` (ODERKCoefficients.h:56). -/
def a31 : ℚ := 3 / 40

/-- `a32` (ODERKCoefficients.h:57). -/
def a32 : ℚ := 9 / 40

/-- `a41` (ODERKCoefficients.h:59). -/
def a41 : ℚ := 3 / 10

/-- `a42` (ODERKCoefficients.h:60). -/
def a42 : ℚ := -9 / 10

/-- `a43` (ODERKCoefficients.h:61). -/
def a43 : ℚ := 6 / 5

/-- `a51` (ODERKCoefficients.h:63). -/
def a51 : ℚ := -11 / 54

/-- `a52` (ODERKCoefficients.h:64). -/
def a52 : ℚ := 5 / 2

/-- `a53` (ODERKCoefficients.h:65). -/
def a53 : ℚ := -70 / 27

/-- `a54` (ODERKCoefficients.h:66). -/
def a54 : ℚ := 35 / 27

/-- `a61` (ODERKCoefficients.h:68). -/
def a61 : ℚ := 1631 / 55296

/-- `a62` (ODERKCoefficients.h:69). -/
def a62 : ℚ := 175 / 512

/-- `a63` (ODERKCoefficients.h:70). -/
def a63 : ℚ := 575 / 13824

/-- `a64` (ODERKCoefficients.h:71). -/
def a64 : ℚ := 44275 / 110592

/-- `a65` (ODERKCoefficients.h:72). -/
def a65 : ℚ := 253 / 4096

/-- `b1` (ODERKCoefficients.h:75). -/
def b1 : ℚ := 37 / 378

/-- `b2` (ODERKCoefficients.h:76). -/
def b2 : ℚ := 0

/-- `b3` (ODERKCoefficients.h:77). -/
def b3 : ℚ := 250 / 621

/-- `b4` (ODERKCoefficients.h:78). -/
def b4 : ℚ := 125 / 594

/-- `b5` (ODERKCoefficients.h:79). -/
def b5 : ℚ := 0

/-- `b6` (ODERKCoefficients.h:80). -/
def b6 : ℚ := 512 / 1771

/-- `bstar1` (ODERKCoefficients.h:83). -/
def bstar1 : ℚ := 2825 / 27648

/-- `bstar2` (ODERKCoefficients.h:84). -/
def bstar2 : ℚ := 0

/-- `bstar3` (ODERKCoefficients.h:85). -/
def bstar3 : ℚ := 18575 / 48384

/-- `bstar4` (ODERKCoefficients.h:86). -/
def bstar4 : ℚ := 13525 / 55296

/-- `bstar5` (ODERKCoefficients.h:87). -/
def bstar5 : ℚ := 277 / 14336

/-- `bstar6` (ODERKCoefficients.h:88). -/
def bstar6 : ℚ := 1 / 4

/-- `e1` (ODERKCoefficients.h:91). -/
def e1 : ℚ := b1 - bstar1

/-- `e2` (ODERKCoefficients.h:92). -/
def e2 : ℚ := b2 - bstar2

/-- `e3` (ODERKCoefficients.h:93). -/
def e3 : ℚ := b3 - bstar3

/-- `e4` (ODERKCoefficients.h:94). -/
def e4 : ℚ := b4 - bstar4

/-- `e5` (ODERKCoefficients.h:95). -/
def e5 : ℚ := b5 - bstar5

/-- `e6` (ODERKCoefficients.h:96). -/
def e6 : ℚ := b6 - bstar6

end CK

namespace DP5

/-- `c2` (ODERKCoefficients.h:116). -/
def c2 : ℚ := 1 / 5

/-- `c3` (ODERKCoefficients.h:117). -/
def c3 : ℚ := 3 / 10

/-- `c4` (ODERKCoefficients.h:118). -/
def c4 : ℚ := 4 / 5

/-- `c5` (ODERKCoefficients.h:119). -/
def c5 : ℚ := 8 / 9

/-- `c6` (ODERKCoefficients.h:120). -/
def c6 : ℚ := 1

/-- `c7` (ODERKCoefficients.h:121). -/
def c7 : ℚ := 1

/-- `a21` (ODERKCoefficients.h:124). -/
def a21 : ℚ := 1 / 5

/-- `a31` (ODERKCoefficients.h:126). -/
def a31 : ℚ := 3 / 40

/-- `a32` (ODERKCoefficients.h:127). -/
def a32 : ℚ := 9 / 40

/-- `a41` (ODERKCoefficients.h:129). -/
def a41 : ℚ := 44 / 45

/-- `a42` (ODERKCoefficients.h:130). -/
def a42 : ℚ := -56 / 15

/-- `a43` (ODERKCoefficients.h:131). -/
def a43 : ℚ := 32 / 9

/-- `a51` (ODERKCoefficients.h:133). -/
def a51 : ℚ := 19372 / 6561

/-- `a52` (ODERKCoefficients.h:134). -/
def a52 : ℚ := -25360 / 2187

/-- `a53` (ODERKCoefficients.h:135). -/
def a53 : ℚ := 64448 / 6561

/-- `a54` (ODERKCoefficients.h:136). -/
def a54 : ℚ := -212 / 729

/-- `a61` (ODERKCoefficients.h:138). -/
def a61 : ℚ := 9017 / 3168

/-- `a62` (ODERKCoefficients.h:139). -/
def a62 : ℚ := -355 / 33

/-- `a63` (ODERKCoefficients.h:140). -/
def a63 : ℚ := 46732 / 5247

/-- `a64` (ODERKCoefficients.h:141). -/
def a64 : ℚ := 49 / 176

/-- `a65` (ODERKCoefficients.h:142). -/
def a65 : ℚ := -5103 / 18656

/-- `a71` (ODERKCoefficients.h:144). -/
def a71 : ℚ := 35 / 384

/-- `a72` (ODERKCoefficients.h:145). -/
def a72 : ℚ := 0

/-- `a73` (ODERKCoefficients.h:146). -/
def a73 : ℚ := 500 / 1113

/-- `a74` (ODERKCoefficients.h:147). -/
def a74 : ℚ := 125 / 192

/-- `a75` (ODERKCoefficients.h:148). -/
def a75 : ℚ := -2187 / 6784

/-- `a76` (ODERKCoefficients.h:149). -/
def a76 : ℚ := 11 / 84

/-- `b1` (ODERKCoefficients.h:152). -/
def b1 : ℚ := 35 / 384

/-- `b2` (ODERKCoefficients.h:153). -/
def b2 : ℚ := 0

/-- `b3` (ODERKCoefficients.h:154). -/
def b3 : ℚ := 500 / 1113

/-- `b4` (ODERKCoefficients.h:155). -/
def b4 : ℚ := 125 / 192

/-- `b5` (ODERKCoefficients.h:156). -/
def b5 : ℚ := -2187 / 6784

/-- `b6` (ODERKCoefficients.h:157). -/
def b6 : ℚ := 11 / 84

/-- `b7` (ODERKCoefficients.h:158). -/
def b7 : ℚ := 0

/-- `bstar1` (ODERKCoefficients.h:161). -/
def bstar1 : ℚ := 5179 / 57600

/-- `bstar2` (ODERKCoefficients.h:162). -/
def bstar2 : ℚ := 0

/-- `bstar3` (ODERKCoefficients.h:163). -/
def bstar3 : ℚ := 7571 / 16695

/-- `bstar4` (ODERKCoefficients.h:164). -/
def bstar4 : ℚ := 393 / 640

/-- `bstar5` (ODERKCoefficients.h:165). -/
def bstar5 : ℚ := -92097 / 339200

/-- `bstar6` (ODERKCoefficients.h:166). -/
def bstar6 : ℚ := 187 / 2100

/-- `bstar7` (ODERKCoefficients.h:167). -/
def bstar7 : ℚ := 1 / 40

/-- `e1` (ODERKCoefficients.h:170). -/
def e1 : ℚ := b1 - bstar1

/-- `e2` (ODERKCoefficients.h:171). -/
def e2 : ℚ := b2 - bstar2

/-- `e3` (ODERKCoefficients.h:172). -/
def e3 : ℚ := b3 - bstar3

/-- `e4` (ODERKCoefficients.h:173). -/
def e4 : ℚ := b4 - bstar4

/-- `e5` (ODERKCoefficients.h:174). -/
def e5 : ℚ := b5 - bstar5

/-- `e6` (ODERKCoefficients.h:175). -/
def e6 : ℚ := b6 - bstar6

/-- `e7` (ODERKCoefficients.h:176). -/
def e7 : ℚ := b7 - bstar7

end DP5

namespace DP8

/-- `c` (ODERKCoefficients.h:196-210). -/
def c : List ℚ :=
  [0, 1 / 18, 1 / 12, 1 / 8, 5 / 16, 3 / 8, 59 / 400, 93 / 200, 5490023248 / 9719169821,
  13 / 20, 1201146811 / 1299019798, 1, 1]

/-- `a2` (ODERKCoefficients.h:213). -/
def a2 : List ℚ :=
  [1 / 18]

/-- `a3` (ODERKCoefficients.h:214). -/
def a3 : List ℚ :=
  [1 / 48, 1 / 16]

/-- `a4` (ODERKCoefficients.h:215). -/
def a4 : List ℚ :=
  [1 / 32, 0, 3 / 32]

/-- `a5` (ODERKCoefficients.h:216). -/
def a5 : List ℚ :=
  [5 / 16, 0, -75 / 64, 75 / 64]

/-- `a6` (ODERKCoefficients.h:217). -/
def a6 : List ℚ :=
  [3 / 80, 0, 0, 3 / 16, 3 / 20]

/-- `a7` (ODERKCoefficients.h:218). -/
def a7 : List ℚ :=
  [29443841 / 614563906, 0, 0, 77736538 / 692538347, -28693883 / 1125000000,
  23124283 / 1800000000]

/-- `a8` (ODERKCoefficients.h:219). -/
def a8 : List ℚ :=
  [16016141 / 946692911, 0, 0, 61564180 / 158732637, 22789713 / 633445777,
  545815736 / 2771057229, -180193667 / 1043307555]

/-- `a9` (ODERKCoefficients.h:220). -/
def a9 : List ℚ :=
  [39632708 / 573591083, 0, 0, -433636366 / 683701615, -421739975 / 2616292301,
  100302831 / 723423059, 790204164 / 839813087, 800635310 / 3783071287]

/-- `a10` (ODERKCoefficients.h:221). -/
def a10 : List ℚ :=
  [246121993 / 1340847787, 0, 0, -37695042795 / 15268766246, -309121744 / 1061227803,
  -12992083 / 490766935, 6005943493 / 2108947869, 393006217 / 1396673457,
  123872331 / 1001029789]

/-- `a11` (ODERKCoefficients.h:222). -/
def a11 : List ℚ :=
  [-1028468189 / 846180014, 0, 0, 8478235783 / 508512852, 1311729495 / 1432422823,
  -10304129995 / 1701304382, -48777925059 / 3047939560, 15336726248 / 1032824649,
  -45442868181 / 3398467696, 3065993473 / 597172653]

/-- `a12` (ODERKCoefficients.h:223). -/
def a12 : List ℚ :=
  [185892177 / 718116043, 0, 0, -3185094517 / 667107341, -477755414 / 1098053517,
  -703635378 / 230739211, 5731566787 / 1027545527, 5232866602 / 850066563,
  -4093664535 / 808688257, 3962137247 / 1805957418, 65686358 / 487910083]

/-- `a13` (ODERKCoefficients.h:224). -/
def a13 : List ℚ :=
  [403863854 / 491063109, 0, 0, -5068492393 / 434740067, -411421997 / 543043805,
  652783627 / 914296604, 11173962825 / 925320556, -13158990841 / 6184727034,
  3936647629 / 1978049680, -160528059 / 685178525, 248638103 / 1413531060, 0]

/-- `b8` (ODERKCoefficients.h:227-241). -/
def b8 : List ℚ :=
  [14005451 / 335480064, 0, 0, 0, 0, -59238493 / 1068277825, 181606767 / 758867731,
  561292985 / 797845732, -1041891430 / 1371343529, 760417239 / 1151165299,
  118820643 / 751138087, -528747749 / 2220607170, 1 / 4]

/-- `b7` (ODERKCoefficients.h:244-258). -/
def b7 : List ℚ :=
  [13451932 / 455176623, 0, 0, 0, 0, -808719846 / 976000145, 1757004468 / 5645159321,
  656045339 / 265891186, -3867574721 / 1518517206, 465885868 / 322736535,
  53011238 / 667516719, 2 / 45, 0]

end DP8

end Verif.ODE
