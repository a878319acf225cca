import Verif.Model.PyCast
import Mathlib.Data.List.Perm.Basic

/-!
# What a value that crosses the border between C++ and Python has to satisfy
-/

namespace Feyn

variable {fl : Floating} {D α β : Type}

/-- A value cast to Python and converted back into a new variable is the same value, and no exception is left. -/
def Conv.Faithful (c : Conv D α) (dom : α → Prop) : Prop := ∀ x, dom x → c.convert (c.cast x) c.init = .ok ⟨true, x, false⟩

/-- The integer types of C++ (64 bit Linux) and the interval `[lo, hi)` of their values. -/
inductive IntegerType : Conv D ℤ → ℤ → ℤ → Prop
  | int : IntegerType convInt (-2 ^ 31) (2 ^ 31)
  | uint : IntegerType convUInt 0 (2 ^ 32)
  | long : IntegerType convLong (-2 ^ 63) (2 ^ 63)
  | ulong : IntegerType convULong 0 (2 ^ 64)
  | llong : IntegerType convLLong (-2 ^ 63) (2 ^ 63)
  | ullong : IntegerType convULLong 0 (2 ^ 64)

/-- Values of the type can be keys of a Python `dict`: they can be hashed and two of them are the same key only if they are equal. -/
def Conv.Key (eq : D → D → Bool) (c : Conv D α) (dom : α → Prop) : Prop :=
  ∀ x, dom x → (c.cast x).hashable = true ∧ ∀ y, dom y → ((c.cast x).keyEq eq (c.cast y) = true ↔ x = y)

/-- The types of the glue with the values that they may have: text without zero bytes, numbers of all types, Python objects, and containers of these to any depth. A map is the list
of its entries in the order of the keys. -/
inductive Supported (fl : Floating) : {α : Type} → Conv fl.D α → (α → Prop) → Prop
  | string : Supported fl convString (fun s => (0 : Byte) ∉ s)
  | bool : Supported fl convBool (fun _ => True)
  | integer {c : Conv fl.D ℤ} {lo hi : ℤ} : IntegerType c lo hi → Supported fl c (fun n => lo ≤ n ∧ n < hi)
  | momentum : Supported fl convMomentum (fun n => -2 ^ 31 ≤ n ∧ n < 2 ^ 31)
  | double : Supported fl (convDouble fl) (fun _ => True)
  | float : Supported fl (convFloat fl) (fun _ => True)
  | complex : Supported fl (convComplex fl) (fun _ => True)
  | any : Supported fl convAny (fun _ => True)
  | vec {α : Type} {c : Conv fl.D α} {dom : α → Prop} (n : ℕ) : Supported fl c dom → Supported fl (convVec n c) (fun v => v.length = n ∧ ∀ x ∈ v, dom x)
  | list {α : Type} {c : Conv fl.D α} {dom : α → Prop} : Supported fl c dom → Supported fl (convList c) (fun v => ∀ x ∈ v, dom x)
  | map {K V : Type} [LinearOrder K] {ck : Conv fl.D K} {cv : Conv fl.D V} {dk : K → Prop} {dv : V → Prop} : Supported fl ck dk → ck.Key fl.eq dk → Supported fl cv dv →
      Supported fl (convMap fl.eq ck cv) (fun m => m.Pairwise (fun a b => a.1 < b.1) ∧ ∀ e ∈ m, dk e.1 ∧ dv e.2)

/-- The Python object is an integer with the value `n` (`True` and `False` are integers). -/
inductive IsInteger : Py D → ℤ → Prop
  | int (n : ℤ) : IsInteger (.int n) n
  | long (n : ℤ) : IsInteger (.long n) n
  | true : IsInteger (.bool true) 1
  | false : IsInteger (.bool false) 0

/-- Value of the first entry under a key. -/
def entry {K V : Type} [LinearOrder K] (k : K) (m : List (K × V)) : Option V := (m.find? fun e => e.1 = k).map (·.2)

/-- The conversion of the object succeeds. -/
def Conv.Accepts (c : Conv D α) (p : Py D) : Prop := ∀ old, ∃ x e, c.convert p old = .ok ⟨true, x, e⟩

/-- The conversion of the object fails and the variable keeps its value. -/
def Conv.Refuses (c : Conv D α) (p : Py D) : Prop := ∀ old, ∃ e, c.convert p old = .ok ⟨false, old, e⟩

end Feyn
