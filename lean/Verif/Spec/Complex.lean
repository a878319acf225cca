import Verif.Model.Complex

/-!
# The mathematical meaning of a complex number object
-/

namespace Feyn

/-- The complex number that an object of the C++ class stands for. -/
def Cx.val (c : Cx) : ℂ := ⟨c.re, c.im⟩

end Feyn
