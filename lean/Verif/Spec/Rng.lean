import Verif.Model.Rng

/-!
# Specification: the Mersenne twister and its text

The sequence of the generator as the C++ standard defines it ([rand.eng.mers], with the parameters of `mt19937`), on words of 32 bits and without an array that is overwritten.
-/

namespace Feyn

/-- The first 624 words for a seed. -/
def twisterStart (s : BitVec 32) : ℕ → BitVec 32
  | 0 => s
  | i + 1 => (1812433253 : BitVec 32) * (twisterStart s i ^^^ (twisterStart s i >>> 30)) + BitVec.ofNat 32 (i + 1)

/-- The first bit of `a` followed by the other 31 bits of `b`. -/
def headTail (a b : BitVec 32) : BitVec 32 := (a.extractLsb' 31 1) ++ (b.extractLsb' 0 31)

/-- Multiplication by the matrix of the generator: a shift, and addition of a constant if the last bit is 1. -/
def twistBy (y : BitVec 32) : BitVec 32 := (y >>> 1) ^^^ (if y.getLsbD 0 then 0x9908b0df else 0)

/-- The sequence that begins with the 624 words `x`: each later word comes from the ones 624, 623 and 227 places before. -/
def twister (x : ℕ → BitVec 32) (i : ℕ) : BitVec 32 :=
  if i < 624 then x i
  else twister x (i - 227) ^^^ twistBy (headTail (twister x (i - 624)) (twister x (i - 623)))
termination_by i
decreasing_by all_goals omega

/-- The transformation of a word of the sequence into a random number. -/
def tempered (z : BitVec 32) : BitVec 32 :=
  let z := z ^^^ (z >>> 11)
  let z := z ^^^ ((z <<< 7) &&& 0x9d2c5680)
  let z := z ^^^ ((z <<< 15) &&& 0xefc60000)
  z ^^^ (z >>> 18)

/-- The random numbers for a seed: the first 624 words of the sequence are not used. -/
def twisterWord (seed : ℤ) (n : ℕ) : BitVec 32 := tempered (twister (twisterStart (BitVec.ofInt 32 seed)) (624 + n))

/-- States whose words have 32 bits and whose index is at most 624. -/
structure Mt.Proper (g : Mt) : Prop where
  word : ∀ i, (g.x i).toNat < 4294967296
  index : g.p.toNat ≤ 624

/-- How many numbers (uninterrupted sequences of digits) a text contains; `inside`: it continues a number. -/
def numbersIn (inside : Bool) : List Byte → ℕ
  | [] => 0
  | c :: l => if isDigitByte c then (if inside then 0 else 1) + numbersIn true l else numbersIn false l

end Feyn
