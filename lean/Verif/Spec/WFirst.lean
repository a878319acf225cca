import Verif.Model.WFirst

/-! # First order of the screened interaction: specification (C104) -/

namespace Feyn
variable {F : Type} [Field F]

/-- The total spin is conserved between the ends with the spin indices `s` and `s'` (two times the incoming spin plus the outgoing one): as much comes in as goes out. -/
def SpinKept (s s' : ℕ) : Prop := s / 2 + s' / 2 = s % 2 + s' % 2

instance (s s' : ℕ) : Decidable (SpinKept s s') := inferInstanceAs (Decidable (_ = _))

/-- An array that conserves the spin. -/
def KeepsSpin (X : PyBlock F) : Prop := ∀ s a s' b, ¬ SpinKept s s' → X s a s' b = 0

/-- The product of three arrays: sums over both inner spin indices and sublattices. -/
def blockProduct (nsub : ℕ) (X Y Z : PyBlock F) : PyBlock F := fun s a s' b =>
  ∑ i ∈ Finset.range 4, ∑ j ∈ Finset.range 4, ∑ c ∈ Finset.range nsub, ∑ d ∈ Finset.range nsub, X s a i c * Y i c j d * Z j d s' b

end Feyn
