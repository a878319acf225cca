import Verif.Model.System
import Mathlib.Data.List.Lex
import Mathlib.Order.Fin.Basic

/-!
# Values crossing the border between C++ and Python

`utility/pyglue/type_cast.h`, `utility/pyglue/type_cast.cpp`, and the conversions of `AnyObject` and `Dictionary`. The interpreter is CPython 2.7 (the code calls
`PyString_*` and `PyInt_*`); what its C functions return is taken from its source. Reference counts are the subject of `Model/PyRef.lean`; here an object is its value.
Citations are relative to `/repo/src`.
-/

namespace Feyn

/-- The machine numbers: `double`, `float`, the conversions between them, `PyFloat_AsDouble` of an integer (`none`: `OverflowError`) and the value `-1.0` that comes with the
error; equality of two numbers. Nothing is assumed here. -/
structure Floating where
  /-- `double` -/
  D : Type
  /-- `float` -/
  S : Type
  widen : S → D
  narrow : D → S
  ofInt : ℤ → Option D
  minusOne : D
  eq : D → D → Bool

/-- A `char` read as unsigned number. -/
abbrev Byte := Fin 256

/-- A Python object as far as the conversions look at it. `str` has its bytes, `unicode` its encoding in UTF-8 (`none` if `PyUnicode_AsUTF8String` fails); `int` and `long` are
different kinds in Python 2; a `dict` has its items in the order of `PyDict_Next`. -/
inductive Py (D : Type) where
  | none
  | bool (b : Bool)
  | int (n : ℤ)
  | long (n : ℤ)
  | float (x : D)
  | complex (re im : D)
  | str (s : List Byte)
  | unicode (s : Option (List Byte))
  | list (l : List (Py D))
  | tuple (l : List (Py D))
  | dict (l : List (Py D × Py D))
  | other

/-- What a call of `bool Convert(Object obj, T& val)` leaves: the value returned, the variable, and whether a Python exception is pending (which the callers do not look at). -/
structure Ans (α : Type) where
  done : Bool
  value : α
  raised : Bool

/-- The pair of functions `CastToPy(T)` and `Convert(Object, T&)`. The second gets the value that the variable had before. `init` is what a local variable `T v;` holds: nothing is
assumed about it. -/
structure Conv (D α : Type) where
  cast : α → Py D
  convert : Py D → α → Res (Ans α)
  init : α

variable {fl : Floating} {D α β : Type}

/-- A conversion that returned `false` and touched nothing. -/
def refuse (old : α) : Res (Ans α) := .ok ⟨false, old, false⟩

/-- A conversion that set the variable. -/
def accept (x : α) : Res (Ans α) := .ok ⟨true, x, false⟩

/-! ## Text -/

/-- A C string ends at the first zero byte. -/
def cString (s : List Byte) : List Byte := s.takeWhile (· ≠ 0)

/-- `std::string`: `CastToPy` `pyglue/type_cast.cpp` 136-139 (`PyString_FromString(str.c_str())`), `Convert` 15-28 (`val = PyString_AsString`). -/
def convString : Conv D (List Byte) where
  cast s := .str (cString s)
  convert p old := match p with
    | .str s => accept (cString s)
    | .unicode (some s) => accept (cString s)
    | .unicode none => .ok ⟨false, old, true⟩
    | _ => refuse old
  init := []

/-! ## Numbers -/

/-- `bool`: `CastToPy` `type_cast.cpp` 144-147, `Convert` 29-38, which compares with the two objects `Py_False` and `Py_True`. -/
def convBool : Conv D Bool where
  cast b := .bool b
  convert p old := match p with
    | .bool b => accept b
    | _ => refuse old
  init := false

/-- `IsInt`, `type_cast.cpp` 39-42, with the value: `bool` is a subclass of `int` in Python. -/
def Py.asInt : Py D → Option ℤ
  | .bool b => some (if b then 1 else 0)
  | .int n => some n
  | .long n => some n
  | _ => Option.none

/-- Conversion of a Python integer to a C integer of the interval `[lo, hi)`: outside an exception is set and `-1` (as this type) is returned. -/
def cLong (lo hi : ℤ) (minusOne : ℤ) (n : ℤ) : ℤ × Bool := if lo ≤ n ∧ n < hi then (n, false) else (minusOne, true)

/-- `PyLong_AsLong`, `PyLong_AsLongLong`: 64 bits. -/
def pyAsLong (n : ℤ) : ℤ × Bool := cLong (-9223372036854775808) 9223372036854775808 (-1) n

/-- `PyLong_AsUnsignedLong`: 64 bits. -/
def pyAsULong (n : ℤ) : ℤ × Bool := cLong 0 18446744073709551616 18446744073709551615 n

/-- The integer conversions have one form: `if (!IsInt(obj)) return false; value = (T)f(obj); return true;`. -/
def convInteger (mk : ℤ → Py D) (f : Py D → ℤ → ℤ × Bool) : Conv D ℤ where
  cast n := mk n
  convert p old := match p.asInt with
    | some n => .ok ⟨true, (f p n).1, (f p n).2⟩
    | none => refuse old
  init := 0

/-- `int`: `CastToPy` `type_cast.cpp` 148-151, `Convert` 44-50. The cast `(int)` of a `long` keeps the last 32 bits. -/
def convInt : Conv D ℤ := convInteger .int fun _ n => ((pyAsLong n).1.bmod 4294967296, (pyAsLong n).2)

/-- `unsigned int`: `CastToPy` 152-155 (through `long`, which holds it), `Convert` 51-57. -/
def convUInt : Conv D ℤ := convInteger .int fun _ n => ((pyAsULong n).1 % 4294967296, (pyAsULong n).2)

/-- `long`: `CastToPy` 156-159, `Convert` 58-64. -/
def convLong : Conv D ℤ := convInteger .long fun _ n => pyAsLong n

/-- `unsigned long`: `CastToPy` 160-163, `Convert` 65-71. -/
def convULong : Conv D ℤ := convInteger .long fun _ n => pyAsULong n

/-- `long long`: `CastToPy` 168-171, `Convert` 72-78. -/
def convLLong : Conv D ℤ := convInteger .long fun _ n => pyAsLong n

/-- `unsigned long long`: `CastToPy` 164-167, `Convert` 79-85. Unlike the other functions `PyLong_AsUnsignedLongLong` of CPython 2.7 takes only objects of the type `long`; for
an `int` or a `bool` it sets `SystemError` and returns `-1`. -/
def convULLong : Conv D ℤ :=
  convInteger .long fun p n => match p with
    | .long _ => pyAsULong n
    | _ => (18446744073709551615, true)

/-- `PyFloat_AsDouble` after the test of `ConvertReal`, `type_cast.cpp` 87-94. -/
def Py.asDouble (fl : Floating) (p : Py fl.D) : Option (fl.D × Bool) :=
  match p with
  | .float x => some (x, false)
  | p => match p.asInt with
    | some n => some (match fl.ofInt n with
      | some x => (x, false)
      | Option.none => (fl.minusOne, true))
    | Option.none => Option.none

/-- `double`: `CastToPy` 177-180, `Convert` 99-102. -/
def convDouble (fl : Floating) : Conv fl.D fl.D where
  cast x := .float x
  convert p old := match p.asDouble fl with
    | some (x, e) => .ok ⟨true, x, e⟩
    | none => refuse old
  init := fl.minusOne

/-- `float`: `CastToPy` 173-176 (to `double`), `Convert` 95-98 (rounded). -/
def convFloat (fl : Floating) : Conv fl.D fl.S where
  cast x := .float (fl.widen x)
  convert p old := match p.asDouble fl with
    | some (x, e) => .ok ⟨true, fl.narrow x, e⟩
    | none => refuse old
  init := fl.narrow fl.minusOne

/-- `Complex`: `CastToPy` 181-184, `Convert` 103-110. -/
def convComplex (fl : Floating) : Conv fl.D (fl.D × fl.D) where
  cast z := .complex z.1 z.2
  convert p old := match p with
    | .complex re im => accept (re, im)
    | _ => refuse old
  init := (fl.minusOne, fl.minusOne)

/-- `Momentum`: `CastToPy` 203-206, `Convert` 130-133; a momentum is its member `K`. -/
def convMomentum : Conv D ℤ := convInt

/-- `spin` (`DOWN`: `false`, `UP`: `true`): `CastToPy` 199-202; `Convert` 126-129 calls itself with the same arguments, without end. -/
def convSpin : Conv D Bool where
  cast s := convInt.cast (if s then 1 else 0)
  convert _ _ := .ub
  init := false

/-- `AnyObject`: constructor from an `Object` (`pyglue/pywrapper.h` 39-42) and `CastToPy(Object)` (`type_cast.cpp` 194-197); `Convert` `pyglue/pywrapper.cpp` 33-37. -/
def convAny : Conv D (Py D) where
  cast p := p
  convert p _ := accept p
  init := .none

/-! ## Containers -/

/-- Loop of `Convert(Object, Vec<T>&)`, `pyglue/type_cast.h` 57-64, over the items of the list: elements are overwritten until one cannot be converted. -/
def vecLoop (c : Conv D α) : ℕ → List (Py D) → List α → Res (Ans (List α))
  | 0, _, old => .ok ⟨true, old, false⟩
  | n + 1, x :: xs, o :: os => do
    let r ← c.convert x c.init
    if r.done = false then .ok ⟨false, o :: os, r.raised⟩
    else do
      let s ← vecLoop c n xs os
      .ok ⟨s.done, r.value :: s.value, r.raised || s.raised⟩
  | _ + 1, _, _ => .ub

/-- `Vec<T>` with `dim` elements (`D` of `utility/convention.h`): `CastToPy` `type_cast.h` 175-179, `Convert` 50-65. A vector is the list of its elements. -/
def convVec (dim : ℕ) (c : Conv D α) : Conv D (List α) where
  cast v := .list (v.map c.cast)
  convert p old := match p with
    | .list xs => if xs.length < dim then refuse old else vecLoop c dim xs old
    | _ => refuse old
  init := List.replicate dim c.init

/-- Loop of `ConvertList`, `type_cast.h` 116-122. -/
def listLoop (c : Conv D α) : List (Py D) → List α → Res (Ans (List α))
  | [], acc => .ok ⟨true, acc, false⟩
  | x :: xs, acc => do
    let r ← c.convert x c.init
    if r.done = false then .ok ⟨false, acc, r.raised⟩
    else do
      let s ← listLoop c xs (acc ++ [r.value])
      .ok ⟨s.done, s.value, r.raised || s.raised⟩

/-- `std::vector<T>` and `std::list<T>`: `CastToPyList` `type_cast.h` 163-174 with 181-191, `ConvertList` 110-136. -/
def convList (c : Conv D α) : Conv D (List α) where
  cast v := .list (v.map c.cast)
  convert p old := match p with
    | .list xs => listLoop c xs old
    | _ => refuse old
  init := []

/-- `std::map::insert`: entries are sorted by key and an entry that is there already stays. -/
def mapInsert {K V : Type} [LinearOrder K] (k : K) (v : V) : List (K × V) → List (K × V)
  | [] => [(k, v)]
  | (k', v') :: m => if k = k' then (k', v') :: m else if k < k' then (k, v) :: (k', v') :: m else (k', v') :: mapInsert k v m

/-- The objects that Python takes as keys; lists and dictionaries cannot be hashed (tuples are left out, no conversion makes them). -/
def Py.hashable : Py D → Bool
  | .list _ => false
  | .dict _ => false
  | .tuple _ => false
  | _ => true

/-- Two keys of a `dict` are the same. Only keys of the same kind occur in one `std::map`; `1 == 1.0` is left out. -/
def Py.keyEq (eq : D → D → Bool) (p q : Py D) : Bool :=
  match p, q with
  | .float x, .float y => eq x y
  | .complex x y, .complex x' y' => eq x x' && eq y y'
  | .str s, .str t => s = t
  | .none, .none => true
  | p, q => match p.asInt, q.asInt with
    | some n, some m => n = m
    | _, _ => false

/-- `PyDict_SetItem`: a new key goes to the end of the items (in Python 2 the order of the items depends on the hash; theorems hold for every order). -/
def dictSet (eq : D → D → Bool) (k v : Py D) : List (Py D × Py D) → List (Py D × Py D)
  | [] => [(k, v)]
  | (k', v') :: l => if k'.keyEq eq k then (k', v) :: l else (k', v') :: dictSet eq k v l

/-- Loop of `CastToPy(const std::map&)`, `type_cast.h` 199-203. The result of `PyDict_SetItem` is not looked at: an entry with a key that cannot be hashed is left out. -/
def mapCast {K V : Type} (eq : D → D → Bool) (ck : Conv D K) (cv : Conv D V) : List (K × V) → List (Py D × Py D) → List (Py D × Py D)
  | [], l => l
  | (k, v) :: m, l => mapCast eq ck cv m (if (ck.cast k).hashable then dictSet eq (ck.cast k) (cv.cast v) l else l)

/-- Loop of `Convert(Object, std::map&)`, `type_cast.h` 98-107. -/
def mapLoop {K V : Type} [LinearOrder K] (ck : Conv D K) (cv : Conv D V) : List (Py D × Py D) → List (K × V) → Res (Ans (List (K × V)))
  | [], m => .ok ⟨true, m, false⟩
  | (pk, pv) :: l, m => do
    let rk ← ck.convert pk ck.init
    if rk.done = false then .ok ⟨false, m, rk.raised⟩
    else do
      let rv ← cv.convert pv cv.init
      if rv.done = false then .ok ⟨false, m, rk.raised || rv.raised⟩
      else do
        let s ← mapLoop ck cv l (mapInsert rk.value rv.value m)
        .ok ⟨s.done, s.value, rk.raised || rv.raised || s.raised⟩

/-- `std::map<K, V>`: `CastToPy` `type_cast.h` 192-205, `Convert` 90-109. -/
def convMap {K V : Type} [LinearOrder K] (eq : D → D → Bool) (ck : Conv D K) (cv : Conv D V) : Conv D (List (K × V)) where
  cast m := .dict (mapCast eq ck cv m [])
  convert p old := match p with
    | .dict l => mapLoop ck cv l old
    | _ => refuse old
  init := []

/-- Elements of a `std::tuple`, `AddToTuple` `type_cast.h` 66-81: their number and the conversion of the items. Elements after the first are paired to the right of the others. -/
structure TupleConv (D α : Type) where
  size : ℕ
  run : List (Py D) → α → Res (Ans α)

/-- `AddToTuple<0>`, `type_cast.h` 66-72. -/
def TupleConv.one (c : Conv D α) : TupleConv D α where
  size := 1
  run xs old := match xs[0]? with
    | some x => c.convert x old
    | none => .ub

/-- `AddToTuple<n>`, `type_cast.h` 74-81: what the call for the elements before returns is not looked at. -/
def TupleConv.snoc (t : TupleConv D α) (c : Conv D β) : TupleConv D (α × β) where
  size := t.size + 1
  run xs old := do
    let r ← t.run xs old.1
    match xs[t.size]? with
      | some x => do
        let s ← c.convert x old.2
        .ok ⟨s.done, (r.value, s.value), r.raised || s.raised⟩
      | none => .ub

/-- `Convert(Object, std::tuple<Args...>&)`, `type_cast.h` 83-89. -/
def TupleConv.convert (t : TupleConv D α) (p : Py D) (old : α) : Res (Ans α) :=
  match p with
  | .tuple xs => if xs.length ≠ t.size then refuse old else t.run xs old
  | _ => refuse old

/-! ## Dictionary -/

/-- `Dictionary`: `ToPy`, `FromPy`, `utility/dictionary.cpp` 20-28; the keys are compared byte by byte. -/
def convDictionary (eq : D → D → Bool) : Conv D (List (List Byte × Py D)) := convMap eq convString convAny

/-- `AnyObject::As<T>`, `pywrapper.h` 58-65: a failed conversion is `ABORT`. -/
def Conv.as (c : Conv D α) (p : Py D) : Res α :=
  (c.convert p c.init).bind fun r => if r.done then .ok r.value else .abort

end Feyn
