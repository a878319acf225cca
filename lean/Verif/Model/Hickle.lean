import Verif.Model.PyCast
import Mathlib.Data.List.DropRight

/-!
# Data files

`/repo/hickle.py` writes Python dictionaries to HDF5 files and reads them back; `SaveBigDict` and `LoadBigDict` of `/repo/IO.py` use it for the files of statistics and weights.
Python is 2.7; what numpy and h5py do is taken from their manuals. Masked arrays, keys that are neither text nor numbers and names that HDF5 takes as paths are left out: the
outcome `HRes.outside` means that the model says nothing.
-/

namespace Feyn

/-- Types of array elements that occur. The width of text is not kept. -/
inductive DType where
  | bool | int64 | float64 | complex64 | complex128 | text
deriving DecidableEq, Repr

/-- One number or text. An element of an array of type `complex64` is kept as the numbers of type `D` that single precision holds. -/
inductive HAtom (D : Type) where
  | bool (b : Bool)
  | int (n : ℤ)
  | float (x : D)
  | cplx (re im : D)
  | str (s : List Byte)
deriving DecidableEq

/-- Type that `numpy.array` gives to an element. -/
def HAtom.dtype {D : Type} : HAtom D → DType
  | .bool _ => .bool
  | .int _ => .int64
  | .float _ => .float64
  | .cplx _ _ => .complex128
  | .str _ => .text

/-- A numpy array: elements in C order. -/
structure NdArray (D : Type) where
  dtype : DType
  shape : List ℕ
  data : List (HAtom D)
deriving DecidableEq

/-- Keys of dictionaries: `str` or `int`. -/
inductive HKey where
  | str (s : List Char)
  | int (n : ℤ)
deriving DecidableEq

/-- Python objects as far as `hickle.py` tells them apart. `atom` is an object of the types `bool`, `int`, `float`, `complex`, `str` of Python, `scalar` one of a numpy type; `other` is anything
that does not come from numpy (`None`, functions, …). A `dict` has its items in the order in which it is iterated. -/
inductive HObj (D : Type) where
  | atom (a : HAtom D)
  | long (n : ℤ)
  | unicode (s : List Char)
  | scalar (t : DType) (a : HAtom D)
  | array (a : NdArray D)
  | list (l : List (HObj D))
  | tuple (l : List (HObj D))
  | set (l : List (HObj D))
  | dict (l : List (HKey × HObj D))
  | other

/-- Content of an HDF5 file: groups with named members. Names are listed in the order of creation (h5py lists them by name; only the order of the dictionary loaded depends on it). -/
inductive H5 (D : Type) where
  | dataset (a : NdArray D)
  | group (l : List (List Char × H5 D))

/-- `NoMatchError` (`hickle.py` 48-55) and all other exceptions. -/
inductive HErr where
  | noMatch | other
deriving DecidableEq

/-- Outcome of a Python call; `outside`: not modelled. -/
inductive HRes (α : Type) where
  | ok (a : α)
  | raise (e : HErr)
  | outside
deriving DecidableEq

/-- Sequence of two calls. -/
def HRes.bind {α β : Type} (x : HRes α) (f : α → HRes β) : HRes β :=
  match x with
  | .ok a => f a
  | .raise e => .raise e
  | .outside => .outside

instance : Monad HRes where
  pure := .ok
  bind := HRes.bind

variable {D : Type}

/-- Members of a group. -/
abbrev H5Group (D : Type) := List (List Char × H5 D)

/-- `group[name]`. -/
def H5Group.find (g : H5Group D) (name : List Char) : Option (H5 D) :=
  match g with
  | [] => none
  | (n, x) :: g => if n = name then some x else H5Group.find g name

/-! ## Arrays -/

/-- `numpy.array` of a sequence whose elements are arrays already: equal shapes are stacked, different ones give an array of objects or an exception, and h5py refuses arrays of objects. Elements of different types are
converted to a common type (`1` and `"a"` to text): left out. -/
def stack : List (NdArray D) → HRes (NdArray D)
  | [] => .ok ⟨.float64, [0], []⟩
  | a :: l =>
    if l.all fun b => b.shape = a.shape then
      if l.all fun b => b.dtype = a.dtype then .ok ⟨a.dtype, (l.length + 1) :: a.shape, (a :: l).flatMap (·.data)⟩
      else .outside
    else .raise .other

mutual

/-- `numpy.asarray(data)` in `create_dataset` of h5py, followed by the check that HDF5 has the type. -/
def HObj.asArray : HObj D → HRes (NdArray D)
  | .atom a => .ok ⟨a.dtype, [], [a]⟩
  | .long n => if -9223372036854775808 ≤ n ∧ n < 9223372036854775808 then .ok ⟨.int64, [], [.int n]⟩ else .outside
  | .unicode _ => .raise .other
  | .scalar t a => .ok ⟨t, [], [a]⟩
  | .array a => .ok a
  | .list l => (HObj.asArrays l).bind stack
  | .tuple l => (HObj.asArrays l).bind stack
  | .set _ => .raise .other
  | .dict _ => .raise .other
  | .other => .raise .other
termination_by structural x => x

/-- The same for the items of a sequence. -/
def HObj.asArrays : List (HObj D) → HRes (List (NdArray D))
  | [] => .ok []
  | x :: l => (HObj.asArray x).bind fun a => (HObj.asArrays l).bind fun as => .ok (a :: as)
termination_by structural x => x

end

/-- Text of fixed width is filled with zero bytes, and these are taken off when it is read. -/
def stripNul (s : List Byte) : List Byte := s.rdropWhile (· = 0)

/-- An element as it comes back from a file. -/
def HAtom.stored : HAtom D → HAtom D
  | .str s => .str (stripNul s)
  | a => a

/-- An array as it comes back from a file. -/
def NdArray.stored (a : NdArray D) : NdArray D := { a with data := a.data.map HAtom.stored }

/-- Names that are not paths. -/
def plainName (n : List Char) : Bool := n ≠ [] && n ≠ ['.'] && !n.contains '/' && !n.contains (Char.ofNat 0)

/-- `create_dataset(name, data=…, compression=…)`: a name can be used once; a scalar cannot be compressed. What happens with compression of an array without elements depends on the
version of h5py and is left out. -/
def createDataset (g : H5Group D) (name : List Char) (a : NdArray D) (gzip : Bool) : HRes (H5Group D) :=
  if plainName name = false then .outside
  else if (g.find name).isSome then .raise .other
  else if gzip && a.shape.isEmpty then .raise .other
  else if gzip && a.shape.contains 0 then .outside
  else .ok (g ++ [(name, .dataset a.stored)])

/-- `create_group(name)`, with the members that it gets afterwards. -/
def createGroup (g : H5Group D) (name : List Char) (l : H5Group D) : H5Group D := g ++ [(name, .group l)]

/-! ## Writing -/

/-- `"%s" % key`. -/
def HKey.text : HKey → List Char
  | .str s => s
  | .int n => (toString n).toList

/-- Bytes of a text constant. -/
def bytesOf (s : String) : List Byte := s.toList.map fun c => Fin.ofNat 256 c.toNat

/-- `data=["…"]`: the tags of `_dump_dict`. -/
def tagArray (s : String) : NdArray D := ⟨.text, [1], [.str (bytesOf s)]⟩

/-- `data=[x]` for one element. -/
def oneArray (a : HAtom D) : NdArray D := ⟨a.dtype, [1], [a]⟩

/-- `types.get(type(dd[key]))` of `_dump_dict`, `hickle.py` 164-169: `none` for `complex`. -/
def HAtom.tag : HAtom D → Option String
  | .bool _ => some "bool"
  | .int _ => some "int"
  | .float _ => some "float"
  | .str _ => some "str"
  | .cplx _ _ => none

/-- `str(u)` of a `unicode` object: `none` is `UnicodeEncodeError`. -/
def encodeAscii (s : List Char) : Option (List Byte) :=
  if s.all fun c => c.toNat < 128 then some (s.map fun c => Fin.ofNat 256 c.toNat) else none

/-- The data first, then the tag: `hickle.py` 175-176, 190-191, 194-195, 198-199 and 208-209 (the last without compression). -/
def dataThenTag (g : H5Group D) (key : List Char) (a : NdArray D) (gzip : Bool) (tag : String) : HRes (H5Group D) :=
  (createDataset g key a gzip).bind fun g => createDataset g ('_' :: key) (tagArray tag) false

/-- The tag first: `hickle.py` 186-187. -/
def tagThenData (g : H5Group D) (key : List Char) (a : NdArray D) (tag : String) : HRes (H5Group D) :=
  (createDataset g ('_' :: key) (tagArray tag) false).bind fun g => createDataset g key a true

mutual

/-- Body of the loop of `_dump_dict`, `hickle.py` 161-214, for the key with the text `key`. The first result is the value that the dictionary has afterwards: line 173 replaces `unicode` by `str`. -/
def dumpValue (key : List Char) : HObj D → H5Group D → HObj D × HRes (H5Group D)
  | .atom a, g => (.atom a, match a.tag with
    | some t => dataThenTag g key (oneArray a) true t
    | none => .raise .noMatch)
  | .unicode s, g => match encodeAscii s with
    | some b => (.atom (.str b), dataThenTag g key (oneArray (.str b)) true "unicode")
    | none => (.unicode s, .raise .other)
  | .array a, g => (.array a, tagThenData g key a "ndarray")
  | .list l, g => (.list l, ((HObj.list l).asArray).bind fun a => dataThenTag g key a true "list")
  | .tuple l, g => (.tuple l, ((HObj.tuple l).asArray).bind fun a => dataThenTag g key a true "tuple")
  | .set l, g => (.set l, ((HObj.list l).asArray).bind fun a => dataThenTag g key a true "set")
  | .dict d, g =>
    if plainName key = false then (.dict d, .outside)
    else if (g.find key).isSome then (.dict d, .raise .other)
    else
      let r := dumpItems d []
      (.dict r.1, r.2.bind fun l => .ok (createGroup g key l))
  | .scalar t a, g => (.scalar t a, if t = .text then .outside else dataThenTag g key ⟨t, [], [a]⟩ false "np_dtype")
  | .long n, _ => (.long n, .raise .noMatch)
  | .other, _ => (.other, .raise .noMatch)
termination_by structural x => x

/-- One item. -/
def dumpItem : HKey × HObj D → H5Group D → (HKey × HObj D) × HRes (H5Group D)
  | (k, v), g => let r := dumpValue k.text v g; ((k, r.1), r.2)
termination_by structural x => x

/-- `_dump_dict`, `hickle.py` 160-214: loop over the items. After an exception the others are not touched. -/
def dumpItems : List (HKey × HObj D) → H5Group D → List (HKey × HObj D) × HRes (H5Group D)
  | [], g => ([], .ok g)
  | p :: l, g =>
    let r := dumpItem p g
    match r.2 with
    | .ok g => let s := dumpItems l g; (r.1 :: s.1, s.2)
    | .raise e => (r.1 :: l, .raise e)
    | .outside => (r.1 :: l, .outside)
termination_by structural x => x

end

/-- `dump_dict`, `hickle.py` 217-221. -/
def dumpDict (d : List (HKey × HObj D)) : List (HKey × HObj D) × HRes (H5Group D) :=
  let r := dumpItems d []
  (r.1, r.2.bind fun l => .ok [("type".toList, .dataset (tagArray "dict")), ("data".toList, .group l)])

/-! ## Reading -/

/-- `dataset[0]` as text. -/
def NdArray.firstText (a : NdArray D) : Option (List Byte) :=
  match a.shape, a.data with
  | _ :: _, .str s :: _ => some s
  | _, _ => none

/-- `n` pieces of `m` elements. -/
def pieces (m : ℕ) : ℕ → List (HAtom D) → List (List (HAtom D))
  | 0, _ => []
  | n + 1, l => l.take m :: pieces m n (l.drop m)

/-- An item along the first axis: a numpy scalar or an array. -/
def itemOf (t : DType) (s : List ℕ) (l : List (HAtom D)) : HObj D :=
  match s, l with
  | [], [x] => .scalar t x
  | s, l => .array ⟨t, s, l⟩

/-- `list(array)`. -/
def NdArray.items (a : NdArray D) : List (HObj D) :=
  match a.shape with
  | [] => []
  | n :: s => (pieces s.prod n a.data).map (itemOf a.dtype s)

/-- `unicode(text)`: ASCII is decoded, other bytes raise an exception, which line 426 swallows; this cannot happen for files written by `dump` and is left out. -/
def decodeAscii (s : List Byte) : HRes (HObj D) :=
  if s.all fun b => b.val < 128 then .ok (.unicode (s.map fun b => Char.ofNat b.val)) else .outside

/-- Value of a dataset with its tag, `hickle.py` 405-427. Tags and elements that do not fit together do not occur in files written by `dump`: left out. A `tuple` or a `set` is not converted: `types.get` gives `None`,
and the exception of calling it is swallowed. -/
def loadValue (a : NdArray D) (tag : List Byte) : HRes (HObj D) :=
  if tag = bytesOf "np_dtype" then
    match a.shape, a.data with
    | [], [x] => .ok (.scalar a.dtype x)
    | _, _ => .ok (.array a)
  else if tag = bytesOf "masked" then .outside
  else if tag = bytesOf "list" then .ok (.list a.items)
  else if tag = bytesOf "str" then match a.data with
    | .str s :: _ => .ok (.atom (.str s))
    | _ => .outside
  else if tag = bytesOf "int" then match a.data with
    | .int n :: _ => .ok (.atom (.int n))
    | _ => .outside
  else if tag = bytesOf "float" then match a.data with
    | .float x :: _ => .ok (.atom (.float x))
    | _ => .outside
  else if tag = bytesOf "bool" then match a.data with
    | .bool b :: _ => .ok (.atom (.bool b))
    | _ => .outside
  else if tag = bytesOf "unicode" then match a.data with
    | .str s :: _ => decodeAscii s
    | _ => .outside
  else .ok (.array a)

mutual

/-- One member of the group `g`, `hickle.py` 396-427; `none`: the name begins with `_` and is skipped. -/
def loadMember (g : H5Group D) (name : List Char) : H5 D → HRes (Option (HObj D))
  | .group l => (loadItems l l).bind fun d => .ok (some (.dict d))
  | .dataset a =>
    if name.head? = some '_' then .ok none
    else match g.find ('_' :: name) with
      | some (.dataset t) => match t.firstText with
        | some s => (loadValue a s).bind fun v => .ok (some v)
        | none => .outside
      | _ => .raise .other
termination_by structural x => x

/-- The same with its name. -/
def loadPair (g : H5Group D) : List Char × H5 D → HRes (List (HKey × HObj D))
  | (n, x) => (loadMember g n x).bind fun v => match v with
    | some v => .ok [(.str n, v)]
    | none => .ok []
termination_by structural x => x

/-- `load_dict`, `hickle.py` 391-428, for the members that are left of the group `g`. -/
def loadItems (g : H5Group D) : H5Group D → HRes (List (HKey × HObj D))
  | [] => .ok []
  | p :: l => (loadPair g p).bind fun e => (loadItems g l).bind fun d => .ok (e ++ d)
termination_by structural x => x

end

/-- `load`, `hickle.py` 306-350, of a file with a dictionary; others are left out. -/
def loadDict (f : H5Group D) : HRes (List (HKey × HObj D)) :=
  match f.find "type".toList, f.find "data".toList with
  | some (.dataset t), some (.group l) => if t.firstText = some (bytesOf "dict") then loadItems l l else .outside
  | _, _ => .raise .other

/-! ## `IO.py` -/

/-- A dictionary item. -/
def getItem (d : List (HKey × HObj D)) (k : HKey) : Option (HObj D) :=
  match d with
  | [] => none
  | (k', v) :: d => if k' = k then some v else getItem d k

/-- `d[k] = v` for a key that is there. -/
def setItem (d : List (HKey × HObj D)) (k : HKey) (v : HObj D) : List (HKey × HObj D) :=
  d.map fun p => if p.1 = k then (k, v) else p

/-- Text key. -/
def skey (s : String) : HKey := .str s.toList

/-- Conversion of an element of an array of complex numbers to single precision. -/
def HAtom.round (single : D → D) : HAtom D → HAtom D
  | .cplx re im => .cplx (single re) (single im)
  | x => x

/-- `array(…, dtype=complex64)` of an array of complex numbers; `single` rounds to single precision. Other arguments are left out. -/
def toSingle (single : D → D) : HObj D → HRes (HObj D)
  | .array a =>
    if a.dtype = .complex64 then .ok (.array a)
    else if a.dtype = .complex128 then .ok (.array { a with dtype := .complex64, data := a.data.map (HAtom.round single) })
    else .outside
  | _ => .outside

/-- `array(…, dtype=complex)` of an array of complex numbers. -/
def toDouble : HObj D → HRes (HObj D)
  | .array a => if a.dtype = .complex64 ∨ a.dtype = .complex128 then .ok (.array { a with dtype := .complex128 }) else .outside
  | _ => .outside

/-- `SaveBigDict`, `/repo/IO.py` 26-28: the statistics of the three-point interaction are rounded in place. -/
def roundStatis (single : D → D) (d : List (HKey × HObj D)) : HRes (List (HKey × HObj D)) :=
  match getItem d (skey "GammaWStatis") with
  | none => .ok d
  | some (.dict w) => match getItem w (skey "WeightAccu") with
    | some x => (toSingle single x).bind fun x => .ok (setItem d (skey "GammaWStatis") (.dict (setItem w (skey "WeightAccu") x)))
    | none => .raise .other
  | some _ => .raise .other

/-- `LoadBigDict`, `/repo/IO.py` 36-39. -/
def widenWeights (d : List (HKey × HObj D)) : HRes (List (HKey × HObj D)) :=
  match getItem d (skey "WWGammaW") with
  | none => .ok d
  | some (.dict w) => match getItem w (skey "SmoothT") with
    | some x => (toDouble x).bind fun x => .ok (setItem d (skey "WWGammaW") (.dict (setItem w (skey "SmoothT") x)))
    | none => .ok d
  | some _ => .raise .other

/-- Files by path, with the HDF5 groups that they contain. -/
abbrev H5Files (D : Type) := List Char → Option (H5Group D)

/-- Path up to the last `/`. -/
def dirPart (p : List Char) : List Char := p.rdropWhile (· ≠ '/')

/-- `if filename[-4:]!=".hkl": filename+=".hkl"`. -/
def withHkl (p : List Char) : List Char := if p.drop (p.length - 4) = ".hkl".toList then p else p ++ ".hkl".toList

/-- What a call of `SaveBigDict` leaves: the dictionary of the caller, the files, and the outcome. -/
structure Saved (D : Type) where
  dict : List (HKey × HObj D)
  files : H5Files D
  out : HRes Unit

/-- `SaveBigDict`, `/repo/IO.py` 23-30, with `dump`, `hickle.py` 277-300: `isDir` tells which paths are directories (the empty path is the working directory). After `NoMatchError` the
file with the prefix is removed; after another exception it stays with what was written so far, for which an empty group stands here. -/
def saveBigDict (single : D → D) (isDir : List Char → Bool) (file : List Char) (d : List (HKey × HObj D)) (s : H5Files D) : Saved D :=
  match roundStatis single d with
  | .raise e => ⟨d, s, .raise e⟩
  | .outside => ⟨d, s, .outside⟩
  | .ok d =>
    let path := withHkl file
    let tmp := '_' :: path
    if isDir (dirPart tmp) = false then ⟨d, s, .raise .other⟩
    else
      let r := dumpDict d
      match r.2 with
      | .ok g =>
        if isDir (dirPart path) = false then ⟨r.1, Function.update s tmp (some g), .raise .other⟩
        else ⟨r.1, Function.update (Function.update s tmp none) path (some g), .ok ()⟩
      | .raise .noMatch => ⟨r.1, Function.update s tmp none, .raise .noMatch⟩
      | .raise .other => ⟨r.1, Function.update s tmp (some []), .raise .other⟩
      | .outside => ⟨r.1, s, .outside⟩

/-- `LoadBigDict`, `/repo/IO.py` 32-40. -/
def loadBigDict (file : List Char) (s : H5Files D) : HRes (List (HKey × HObj D)) :=
  match s (withHkl file) with
  | none => .raise .other
  | some f => (loadDict f).bind widenWeights

end Feyn
