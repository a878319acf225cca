import Verif.Model.Hickle

/-!
# What C85 says about data files
-/

namespace Feyn

variable {D : Type}

/-- Key that can be a name in a file: text without `/` and zero bytes, not empty, not `.`, and not beginning with `_`. -/
def PlainKey (k : HKey) : Prop :=
  ∃ s : List Char, k = .str s ∧ s ≠ [] ∧ s ≠ ['.'] ∧ '/' ∉ s ∧ Char.ofNat 0 ∉ s ∧ s.head? ≠ some '_'

/-- Text does not end in a zero byte. -/
def HAtom.Clean : HAtom D → Prop
  | .str s => s.getLast? ≠ some 0
  | _ => True

/-- Values that a data file is meant for: numbers, text, numpy scalars, arrays, lists of elements of one type, and dictionaries of such values. Lists and arrays have at least one
element. -/
inductive PlainObj : HObj D → Prop where
  | bool (b : Bool) : PlainObj (.atom (.bool b))
  | int (n : ℤ) : PlainObj (.atom (.int n))
  | float (x : D) : PlainObj (.atom (.float x))
  | str (s : List Byte) (h : s.getLast? ≠ some 0) : PlainObj (.atom (.str s))
  | unicode (s : List Char) (h : ∀ c ∈ s, c.toNat < 128) (h' : s.getLast? ≠ some (Char.ofNat 0)) : PlainObj (.unicode s)
  | scalar (t : DType) (a : HAtom D) (ht : t ≠ .text) (h : a.Clean) : PlainObj (.scalar t a)
  | array (a : NdArray D) (h : a.shape ≠ []) (h0 : 0 ∉ a.shape) (hc : ∀ x ∈ a.data, x.Clean) : PlainObj (.array a)
  | list (t : DType) (l : List (HAtom D)) (h : l ≠ []) (ht : ∀ x ∈ l, x.dtype = t) (hc : ∀ x ∈ l, x.Clean) : PlainObj (.list (l.map .atom))
  | dict (l : List (HKey × HObj D)) (hk : ∀ p ∈ l, PlainKey p.1) (hn : (l.map Prod.fst).Nodup) (hv : ∀ p ∈ l, PlainObj p.2) : PlainObj (.dict l)

/-- `==` of Python as far as needed: a numpy scalar is equal to the Python value; lists are compared item by item, dictionaries without regard to the order. -/
inductive SameValue : HObj D → HObj D → Prop where
  | refl (o : HObj D) : SameValue o o
  | scalar (a : HAtom D) : SameValue (.atom a) (.scalar a.dtype a)
  | list {l l' : List (HObj D)} (h : List.Forall₂ SameValue l l') : SameValue (.list l) (.list l')
  | dict {l m l' : List (HKey × HObj D)} (hm : m.Perm l') (hk : l.map Prod.fst = m.map Prod.fst) (h : List.Forall₂ SameValue (l.map Prod.snd) (m.map Prod.snd)) :
      SameValue (.dict l) (.dict l')

/-- Both parts of a complex number are rounded. -/
def roundNumber (single : D → D) : HAtom D → HAtom D
  | .cplx re im => .cplx (single re) (single im)
  | x => x

/-- Rounding of the numbers of an array. -/
def roundArray (single : D → D) (a : NdArray D) : NdArray D := { a with dtype := .complex64, data := a.data.map (roundNumber single) }

/-- There is no `unicode` object among the values. -/
inductive NoUnicode : HObj D → Prop where
  | atom (a : HAtom D) : NoUnicode (.atom a)
  | long (n : ℤ) : NoUnicode (.long n)
  | scalar (t : DType) (a : HAtom D) : NoUnicode (.scalar t a)
  | array (a : NdArray D) : NoUnicode (.array a)
  | list (l : List (HObj D)) : NoUnicode (.list l)
  | tuple (l : List (HObj D)) : NoUnicode (.tuple l)
  | set (l : List (HObj D)) : NoUnicode (.set l)
  | other : NoUnicode .other
  | dict (l : List (HKey × HObj D)) (h : ∀ p ∈ l, NoUnicode p.2) : NoUnicode (.dict l)

/-- Every array has as many elements as its shape says. -/
inductive SoundArrays : HObj D → Prop where
  | atom (a : HAtom D) : SoundArrays (.atom a)
  | long (n : ℤ) : SoundArrays (.long n)
  | unicode (s : List Char) : SoundArrays (.unicode s)
  | scalar (t : DType) (a : HAtom D) : SoundArrays (.scalar t a)
  | array (a : NdArray D) (h : a.data.length = a.shape.prod) : SoundArrays (.array a)
  | list (l : List (HObj D)) (h : ∀ x ∈ l, SoundArrays x) : SoundArrays (.list l)
  | tuple (l : List (HObj D)) (h : ∀ x ∈ l, SoundArrays x) : SoundArrays (.tuple l)
  | set (l : List (HObj D)) (h : ∀ x ∈ l, SoundArrays x) : SoundArrays (.set l)
  | dict (l : List (HKey × HObj D)) (h : ∀ p ∈ l, SoundArrays p.2) : SoundArrays (.dict l)
  | other : SoundArrays .other

/-- Whether a value is a dictionary, which becomes a group. -/
def HObj.isDict : HObj D → Bool
  | .dict _ => true
  | _ => false

/-- Names that an item takes in a group: a value other than a dictionary takes a second one, with `_` in front, for its type. -/
def names (p : HKey × HObj D) : List (List Char) := if p.2.isDict then [p.1.text] else [p.1.text, '_' :: p.1.text]

/-- Names of all items. -/
def allNames (l : List (HKey × HObj D)) : List (List Char) := l.flatMap names

/-- Values that can be saved: no complex numbers of Python outside arrays and lists, text in ASCII, arrays and lists with elements, and dictionaries whose items take different names in the file. -/
inductive Dumpable : HObj D → Prop where
  | atom (a : HAtom D) (h : ∀ re im, a ≠ .cplx re im) : Dumpable (.atom a)
  | unicode (s : List Char) (h : ∀ c ∈ s, c.toNat < 128) : Dumpable (.unicode s)
  | scalar (t : DType) (a : HAtom D) (h : t ≠ .text) : Dumpable (.scalar t a)
  | array (a : NdArray D) (h : a.shape ≠ []) (h0 : 0 ∉ a.shape) : Dumpable (.array a)
  | list (l : List (HObj D)) (a : NdArray D) (ha : (HObj.list l).asArray = .ok a) (h : a.shape ≠ []) (h0 : 0 ∉ a.shape) : Dumpable (.list l)
  | tuple (l : List (HObj D)) (a : NdArray D) (ha : (HObj.list l).asArray = .ok a) (h : a.shape ≠ []) (h0 : 0 ∉ a.shape) : Dumpable (.tuple l)
  | set (l : List (HObj D)) (a : NdArray D) (ha : (HObj.list l).asArray = .ok a) (h : a.shape ≠ []) (h0 : 0 ∉ a.shape) : Dumpable (.set l)
  | dict (l : List (HKey × HObj D)) (hk : ∀ p ∈ l, plainName p.1.text = true) (hn : (allNames l).Nodup) (hv : ∀ p ∈ l, Dumpable p.2) : Dumpable (.dict l)

end Feyn
