import Verif.Model.Basic
import Mathlib.Data.List.Count

/-!
# Reference counts of Python objects

The class `Python::Object` (`utility/pyglue/object.h`, `object.cpp`) and the functions of the glue as far as they handle references. Citations are relative to `/repo/src`.

A Python object is an address; its count zero means that it is not allocated (never, or not any more). The instances of `Object` that are alive form a stack with the newest at
the head: local variables, parameters and temporaries of C++ live in this order. `raw` lists the references that C++ code owns through a plain `PyObject*`, `py` counts the references that
the interpreter owns (items of containers, variables of Python code). The last two exist only in the model: the program counts in `cnt` only.
-/

namespace Feyn

/-- State of the references. -/
structure Refs where
  /-- `ob_refcnt`; zero: not allocated -/
  cnt : ℕ → ℕ
  /-- member `_PyPtr` of the instances of `Object`; `none` is `nullptr` -/
  slots : List (Option ℕ)
  raw : List ℕ
  py : ℕ → ℕ

namespace Refs

/-- `PyObject*` of the `i`-th instance from the top; undefined if there is none. -/
def ptr (s : Refs) (i : ℕ) : Res (Option ℕ) :=
  match s.slots[i]? with
  | some p => .ok p
  | none => .ub

/-- `IncreaseRef`, `pyglue/object.cpp` 76-80. Writing to an object that is not allocated is undefined. -/
def inc (s : Refs) (p : Option ℕ) : Res Refs :=
  match p with
  | none => .ok s
  | some o => if s.cnt o = 0 then .ub else .ok { s with cnt := Function.update s.cnt o (s.cnt o + 1) }

/-- `DecreaseRef`, `object.cpp` 81-84 (`Py_XDECREF`): at zero the object is deallocated. -/
def dec (s : Refs) (p : Option ℕ) : Res Refs :=
  match p with
  | none => .ok s
  | some o => if s.cnt o = 0 then .ub else .ok { s with cnt := Function.update s.cnt o (s.cnt o - 1) }

/-- A new instance of `Object`. -/
def push (s : Refs) (p : Option ℕ) : Refs := { s with slots := p :: s.slots }

/-! ## Members of `Object` -/

/-- `Object()`, `pyglue/object.h` 74-77. -/
def ctor (s : Refs) : Res Refs := .ok (s.push none)

/-- `Object(PyObject*, NewRef)`, `object.cpp` 107-112: takes over a reference that the caller owns. The first of them in `raw` is struck off; none there: the caller does not own
one, which the program does not notice. -/
def fromNew (s : Refs) (p : Option ℕ) : Res Refs :=
  .ok { s with slots := p :: s.slots, raw := match p with | none => s.raw | some o => s.raw.erase o }

/-- `Object(PyObject*, NoRef)`, `object.cpp` 107-112. -/
def fromBorrowed (s : Refs) (p : Option ℕ) : Res Refs := do
  let s ← s.inc p
  .ok (s.push p)

/-- `Get(NewRef)`, `object.cpp` 114-119, of the `i`-th instance. -/
def getNew (s : Refs) (i : ℕ) : Res Refs := do
  let p ← s.ptr i
  let s ← s.inc p
  .ok { s with raw := match p with | none => s.raw | some o => o :: s.raw }

/-- `Object(const Object&)`, `object.cpp` 91-94: the reference made by `Get(NewRef)` becomes that of the new instance. -/
def copyCtor (s : Refs) (i : ℕ) : Res Refs := do
  let p ← s.ptr i
  let s ← s.getNew i
  s.fromNew p

/-- `Copy`, `object.cpp` 85-89. -/
def copy (s : Refs) (i : ℕ) : Res Refs := do
  let p ← s.ptr i
  let s ← s.inc p
  .ok (s.push p)

/-- `operator=`, `object.cpp` 96-105: the `i`-th instance becomes the `j`-th. -/
def assign (s : Refs) (i j : ℕ) : Res Refs :=
  if i = j then .ok s
  else do
    let temp ← s.ptr i
    let p ← s.ptr j
    let s ← s.inc p
    let s : Refs := { s with slots := s.slots.set i p }
    s.dec temp

/-- `Destroy`, `object.cpp` 121-125. -/
def destroy (s : Refs) (i : ℕ) : Res Refs := do
  let p ← s.ptr i
  let s ← s.dec p
  .ok { s with slots := s.slots.set i none }

/-- End of the lifetime of the newest instance: `~Object`, `object.h` 82-85, which calls `Destroy`. -/
def dtor (s : Refs) : Res Refs := do
  let s ← s.destroy 0
  .ok { s with slots := s.slots.tail }

/-! ## The interpreter -/

/-- A function of the interpreter returns a new reference: to a new object if `o` is not allocated, otherwise to an object that exists. -/
def pyNew (s : Refs) (o : ℕ) : Res Refs := .ok { s with cnt := Function.update s.cnt o (s.cnt o + 1), raw := o :: s.raw }

/-- A function that steals a reference (`PyList_SetItem`, `PyTuple_SetItem`): the reference goes from C++ to the container. -/
def steal (s : Refs) (o : ℕ) : Res Refs := .ok { s with raw := s.raw.erase o, py := Function.update s.py o (s.py o + 1) }

/-- The interpreter takes a reference of its own (`PyDict_SetItem`, `PyList_Append`, arguments of functions). -/
def pyTake (s : Refs) (o : ℕ) : Res Refs := do
  let s ← s.inc (some o)
  .ok { s with py := Function.update s.py o (s.py o + 1) }

/-- The interpreter gives up a reference of its own. -/
def pyDrop (s : Refs) (o : ℕ) : Res Refs := do
  let s ← s.dec (some o)
  .ok { s with py := Function.update s.py o (s.py o - 1) }

/-! ## Functions of the glue -/

/-- `CastToPy` of a simple value, `pyglue/type_cast.cpp` 136-184: `return Py…_From…(…)` makes an object and the instance returned takes over the reference. -/
def castLeaf (o : ℕ) (s : Refs) : Res Refs := do
  let s ← s.pyNew o
  s.fromNew (some o)

/-- Loop of `CastToPyList`, `pyglue/type_cast.h` 169-172, one function for each element; each leaves its result as the newest instance. -/
def castItems : List (Refs → Res Refs) → Refs → Res Refs
  | [], s => .ok s
  | f :: fs, s => do
    let s ← f s
    let p ← s.ptr 0
    let s ← s.getNew 0
    let s ← match p with
      | some o => s.steal o
      | none => .ok s
    let s ← s.dtor
    castItems fs s

/-- `CastToPyList`, `type_cast.h` 163-174: the list object is `o`. The local variable `lst` is the result. -/
def castList (o : ℕ) (items : List (Refs → Res Refs)) (s : Refs) : Res Refs := do
  let s ← s.pyNew o
  let s ← s.fromNew (some o)
  castItems items s

/-- Loop of `CastToPy(const std::map&)`, `type_cast.h` 199-203. -/
def castEntries : List ((Refs → Res Refs) × (Refs → Res Refs)) → Refs → Res Refs
  | [], s => .ok s
  | (f, g) :: fs, s => do
    let s ← f s
    let s ← g s
    let second ← s.ptr 0
    let first ← s.ptr 1
    let s ← match first, second with
      | some a, some b => do
        let s ← s.pyTake a
        s.pyTake b
      | _, _ => .ub
    let s ← s.dtor
    let s ← s.dtor
    castEntries fs s

/-- `CastToPy(const std::map&)`, `type_cast.h` 192-205. -/
def castMap (o : ℕ) (entries : List ((Refs → Res Refs) × (Refs → Res Refs))) (s : Refs) : Res Refs := do
  let s ← s.pyNew o
  let s ← s.fromNew (some o)
  castEntries entries s

/-- A call `Convert(obj, val)` of a simple type with the newest instance as argument, `pyglue/type_cast.cpp` 29-133: the parameter is a copy and is destroyed at the end. -/
def convertLeaf (s : Refs) : Res Refs := do
  let s ← s.copyCtor 0
  s.dtor

/-- Body of the loops of `ConvertList` and of `Convert` to `Vec`, `type_cast.h` 57-64 and 116-122, for the items `xs` (borrowed from the list), with the conversions of the items. -/
def convertItems : List (ℕ × (Refs → Res Refs)) → Refs → Res Refs
  | [], s => .ok s
  | (x, f) :: xs, s => do
    let s ← s.fromBorrowed (some x)
    let s ← f s
    let s ← s.dtor
    convertItems xs s

/-- `Convert(obj, container)`, `type_cast.h` 50-65, 110-136, with the newest instance as argument. `ConvertList` gets another copy of the parameter. -/
def convertList (xs : List (ℕ × (Refs → Res Refs))) (s : Refs) : Res Refs := do
  let s ← s.copyCtor 0
  let s ← s.copyCtor 0
  let s ← convertItems xs s
  let s ← s.dtor
  s.dtor

/-- Loop of `Convert` to `std::map`, `type_cast.h` 98-107: the instances made of the borrowed pointers are the arguments themselves. -/
def convertEntries : List ((ℕ × (Refs → Res Refs)) × (ℕ × (Refs → Res Refs))) → Refs → Res Refs
  | [], s => .ok s
  | ((k, f), (v, g)) :: xs, s => do
    let s ← s.fromBorrowed (some k)
    let s ← f s
    let s ← s.dtor
    let s ← s.fromBorrowed (some v)
    let s ← g s
    let s ← s.dtor
    convertEntries xs s

/-- `Convert` to `std::map`, `type_cast.h` 90-109. -/
def convertMap (xs : List ((ℕ × (Refs → Res Refs)) × (ℕ × (Refs → Res Refs)))) (s : Refs) : Res Refs := do
  let s ← s.copyCtor 0
  let s ← convertEntries xs s
  s.dtor

/-- `AddToTuple<n>`, `type_cast.h` 66-81, with its parameter as the newest instance, for the items from the last one down. The recursive call is
`AddToTuple<n - 1>(obj.Get(), tup)`: the `PyObject*` is turned into an `Object` by the constructor with the default `NewRef`, which takes over a reference that nobody gave. -/
def addToTuple : List (ℕ × (Refs → Res Refs)) → Refs → Res Refs
  | [], s => .ok s
  | [(x, f)], s => do
    let s ← s.fromBorrowed (some x)
    let s ← f s
    s.dtor
  | (x, f) :: y :: xs, s => do
    let p ← s.ptr 0
    let s ← s.fromNew p
    let s ← addToTuple (y :: xs) s
    let s ← s.dtor
    let s ← s.fromBorrowed (some x)
    let s ← f s
    s.dtor

/-- `Convert` to `std::tuple`, `type_cast.h` 83-89. -/
def convertTuple (xs : List (ℕ × (Refs → Res Refs))) (s : Refs) : Res Refs := do
  let s ← s.copyCtor 0
  let s ← s.copyCtor 0
  let s ← addToTuple xs s
  let s ← s.dtor
  s.dtor

/-- `ModuleObject::GetAttr`, `pyglue/pywrapper.cpp` 98-104, without error: `return { obj }` copies the local variable. The result is left as the newest instance: the copy is
made before the local variable is destroyed, so it lies above it and is moved down. -/
def getAttr (o : ℕ) (s : Refs) : Res Refs := do
  let s ← s.pyNew o
  let s ← s.fromNew (some o)
  let s ← s.copyCtor 0
  let s ← s.destroy 1
  .ok { s with slots := s.slots.eraseIdx 1 }

/-- `ModuleObject::CallFunction`, `pyglue/pywrapper.h` 117-131 with `add_tuple_vars` 175-211, without error: the attribute `func`, the tuple `tup`, the arguments, the result `res`. The local
variables `tup` and `func` are destroyed after the result is made. -/
def callFunction (func tup res : ℕ) (args : List (Refs → Res Refs)) (s : Refs) : Res Refs := do
  let s ← s.getAttr func
  let s ← s.castList tup args
  let s ← s.pyNew res
  let s ← s.fromNew (some res)
  let s ← s.destroy 1
  let s ← s.destroy 2
  .ok { s with slots := (s.slots.eraseIdx 2).eraseIdx 1 }

/-- `AnyObject::EvalScript`, `pywrapper.cpp` 38-48, with `*this` as the newest instance: the borrowed objects `main` and `global`, the new `local`, and the result, whose temporary is assigned. -/
def evalScript (main global loc res : ℕ) (s : Refs) : Res Refs := do
  let s ← s.fromBorrowed (some main)
  let s ← s.fromBorrowed (some global)
  let s ← s.pyNew loc
  let s ← s.fromNew (some loc)
  let s ← s.pyNew res
  let s ← s.fromNew (some res)
  let s ← s.assign 4 0
  let s ← s.dtor
  let s ← s.dtor
  let s ← s.dtor
  s.dtor

/-- `ArrayObject(const Object&)`, `pyglue/pyarraywrapper.cpp` 35-44, of the `i`-th instance: an array that is contiguous is shared, otherwise `o` is the copy. -/
def arrayFrom (i : ℕ) (contiguous : Bool) (o : ℕ) (s : Refs) : Res Refs :=
  if contiguous then do
    let p ← s.ptr i
    let s ← s.getNew i
    s.fromNew p
  else do
    let s ← s.pyNew o
    s.fromNew (some o)

end Refs

end Feyn
