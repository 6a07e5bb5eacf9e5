import Verif.ODE.Orders

/-!
# The order of the eighth-order method

In its own file because the check takes about a minute.
-/

set_option autoImplicit false

namespace Verif.ODE

theorem check_dp8 : Check.check ⟨dp8T.a, dp8T.b, dp8T.c⟩ 1 (10 ^ 16) 6 = true := by decide +kernel

theorem check_dp87 : Check.check ⟨dp8T.a, DP8.b7, dp8T.c⟩ 1 (10 ^ 16) 5 = true := by decide +kernel

end Verif.ODE
