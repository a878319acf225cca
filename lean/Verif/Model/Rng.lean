import Verif.Model.PyCast
import Mathlib.Logic.Function.Basic

/-!
# The random number generator and its text form

`utility/rng.h`, `utility/rng.cpp`, and its conversion to and from Python objects in `utility/pyglue/type_cast.cpp`. The engine is `std::mt19937`, which is not part of the
repository; its members are modelled as they are in the C++ library of GCC (`bits/random.tcc`), extraction of numbers from a stream as in `bits/locale_facets.tcc` and
`bits/istream.tcc`. Its words have the type `uint_fast32_t`, which has 64 bits on 64-bit Linux. Citations are relative to `/repo/src`.
-/

namespace Feyn

/-- `uint_fast32_t` and `size_t`. -/
abbrev U64 := BitVec 64

/-- `RandomFactory`, `utility/rng.h` 33-41: its only member `std::mt19937 _eng` has 624 words and the index of the next word. -/
structure Mt where
  x : Fin 624 → U64
  p : U64

/-- An index of the array of words; all indices used below are smaller than 624. -/
abbrev ix (k : ℕ) : Fin 624 := Fin.ofNat 624 k

/-! ## The engine -/

/-- `std::mt19937::seed(s)`: the word with index `i`. `__mod` of the library is the remainder. -/
def mtSeedWord (s : U64) : ℕ → U64
  | 0 => s % 4294967296
  | i + 1 =>
    let x := mtSeedWord s i
    ((x ^^^ (x >>> 30)) * 1812433253 + BitVec.ofNat 64 ((i + 1) % 624)) % 4294967296

/-- `RandomFactory::RandomFactory(int)`, `RandomFactory::Reset(int)`, `utility/rng.cpp` 20-23 and 36-39: the seed is converted to an unsigned number. -/
def rngReset (seed : ℤ) : Mt where
  x i := mtSeedWord (BitVec.ofInt 64 seed) i
  p := 624

/-- The combination of two words and its multiplication by the matrix in `_M_gen_rand`: the upper bits of `a` (from bit 31) with the lower ones of `b`. -/
def mtTwist (a b : U64) : U64 :=
  let y := (a &&& (BitVec.allOnes 64 <<< 31)) ||| (b &&& ~~~(BitVec.allOnes 64 <<< 31))
  (y >>> 1) ^^^ (if y &&& 1 = 1 then 0x9908b0df else 0)

/-- The assignment `x[k] = x[k1] ^ …(x[k], x[k2])…`. -/
def mtAssign (x : Fin 624 → U64) (k k1 k2 : ℕ) : Fin 624 → U64 :=
  Function.update x (ix k) (x (ix k1) ^^^ mtTwist (x (ix k)) (x (ix k2)))

/-- `_M_gen_rand`: 624 new words in place of the old ones, in two loops and a last assignment. -/
def mtGen (x : Fin 624 → U64) : Fin 624 → U64 :=
  let x := (List.range 227).foldl (fun x k => mtAssign x k (k + 397) (k + 1)) x
  let x := (List.range' 227 396).foldl (fun x k => mtAssign x k (k - 227) (k + 1)) x
  mtAssign x 623 396 0

/-- The mixing of the bits of a word by `operator()`. -/
def mtTemper (z : U64) : U64 :=
  let z := z ^^^ ((z >>> 11) &&& 0xffffffff)
  let z := z ^^^ ((z <<< 7) &&& 0x9d2c5680)
  let z := z ^^^ ((z <<< 15) &&& 0xefc60000)
  z ^^^ (z >>> 18)

/-- `std::mt19937::operator()`, called by `urn` and `irn`, `utility/rng.h` 48-57: the number returned and the new state. -/
def mtNext (g : Mt) : U64 × Mt :=
  let g := if 624 ≤ g.p.toNat then { x := mtGen g.x, p := 0 } else g
  (mtTemper (g.x (ix g.p.toNat)), { g with p := g.p + 1 })

/-- The state after `n` calls. -/
def mtSkip : ℕ → Mt → Mt
  | 0, g => g
  | n + 1, g => mtSkip n (mtNext g).2

/-- The number returned by the call after `n` other ones. -/
def mtWord (g : Mt) (n : ℕ) : U64 := (mtNext (mtSkip n g)).1

/-- The words in the form in which the model of the updates reads them. -/
def rngWords (g : Mt) : Words := fun n => Fin.ofNat 4294967296 (mtWord g n).toNat

/-! ## Text -/

/-- A digit as a character. -/
def digitByte (n : ℕ) : Byte := Fin.ofNat 256 (48 + n)

/-- `os << n` for an unsigned number with the flag `dec`. -/
def decimal (n : ℕ) : List Byte := if n < 10 then [digitByte n] else decimal (n / 10) ++ [digitByte (n % 10)]

/-- `ToString(RandomFactory)` and `operator<<`, `utility/rng.cpp` 54-58 and 66-71: the words and the index, separated by spaces. -/
def rngText (g : Mt) : List Byte := (List.ofFn fun i => decimal (g.x i).toNat ++ [32]).flatten ++ decimal g.p.toNat

/-- `std::istringstream`: what has not been read yet, and its two flags; `badbit` is never set. -/
structure InStream where
  rest : List Byte
  eof : Bool
  fail : Bool

/-- `isspace` in the locale "C". -/
def isSpace (c : Byte) : Bool := c = 32 || (9 ≤ c && c ≤ 13)

/-- Is the character a digit? -/
def isDigitByte (c : Byte) : Bool := 48 ≤ c && c ≤ 57

/-- The number that a sequence of digits stands for. -/
def digitsValue (l : List Byte) : ℕ := l.foldl (fun n c => 10 * n + (c.val - 48)) 0

/-- `is >> n` for an unsigned number of 64 bits. Nothing happens to the variable if a flag is set or only spaces are left. A sign is accepted also for unsigned numbers. Without
digits the variable becomes 0, too large numbers give the largest one; both set `failbit`. -/
def readU64 (s : InStream) (old : U64) : InStream × U64 :=
  if s.eof || s.fail then ({ s with fail := true }, old)
  else
    match s.rest.dropWhile isSpace with
    | [] => (⟨[], true, true⟩, old)
    | c :: l =>
      let body := if c = 43 || c = 45 then l else c :: l
      let digits := body.takeWhile isDigitByte
      let rest := body.dropWhile isDigitByte
      let n := digitsValue digits
      if digits.isEmpty then (⟨rest, rest.isEmpty, true⟩, 0)
      else if 18446744073709551616 ≤ n then (⟨rest, rest.isEmpty, true⟩, 18446744073709551615)
      else (⟨rest, rest.isEmpty, false⟩, if c = 45 then -BitVec.ofNat 64 n else BitVec.ofNat 64 n)

/-- One assignment `is >> x[i]`. -/
def readWord (r : InStream × (Fin 624 → U64)) (i : Fin 624) : InStream × (Fin 624 → U64) :=
  ((readU64 r.1 (r.2 i)).1, Function.update r.2 i (readU64 r.1 (r.2 i)).2)

/-- `operator>>`, `utility/rng.cpp` 60-64: 624 words and the index. -/
def rngRead (s : InStream) (g : Mt) : InStream × Mt :=
  let r := (List.finRange 624).foldl readWord (s, g.x)
  ((readU64 r.1 g.p).1, ⟨r.2, (readU64 r.1 g.p).2⟩)

/-- `RandomFactory::Reset(const std::string&)`, `utility/rng.cpp` 41-45: the flags of the stream are not looked at. -/
def rngResetText (t : List Byte) (g : Mt) : Mt := (rngRead ⟨t, false, false⟩ g).2

/-! ## Conversion and parameters -/

/-- `PyObject_Str` of a string is the string. Of a `unicode` object it encodes in ASCII, which for the text of a generator is the same; other objects give texts that are parameters
here (`repr` of numbers and containers). -/
def pyStr {D : Type} (str : Py D → Option (List Byte)) : Py D → Option (List Byte)
  | .str s => some s
  | p => str p

/-- `RandomFactory`: `CastToPy` `utility/pyglue/type_cast.cpp` 185-188, `Convert` 111-120. If `PyObject_Str` fails the null pointer goes to `Convert(Object, string&)`, whose
`PyString_Check` reads through it. -/
def convRng (D : Type) (str : Py D → Option (List Byte)) (init : Mt) : Conv D Mt where
  cast g := convString.cast (rngText g)
  convert o old :=
    match pyStr str o with
    | none => .ub
    | some t =>
      let r := rngRead ⟨cString t, false, false⟩ old
      .ok ⟨!r.1.fail, r.2, false⟩
  init := init

/-- The lines of `ParaMC::FromDict` for the generator, `module/parameter/parameter.cpp` 87-91, for the entries `Seed` and `RNG` of the dictionary. `Dictionary::Get`,
`utility/dictionary.h` 52-66, converts into a new variable, whose constructor takes a seed from the system (`init`), and aborts if the conversion returns `false`. -/
def rngFromDict {D : Type} (str : Py D → Option (List Byte)) (init : Mt) (seed : Option ℤ) (rng : Option (Py D)) : Res Mt :=
  match rng with
  | some o => do
    let a ← (convRng D str init).convert o init
    if a.done then .ok a.value else .abort
  | none => .ok (rngReset (seed.getD 0))

end Feyn
