import Mathlib.Algebra.Order.Field.Basic
import Mathlib.Data.Int.Basic

/-!
# Outcomes, pointers, random numbers

Common base of the model. Citations are relative to `/repo/src`.
-/

namespace Feyn

/-- Outcome of a C++ call: normal return, a call of `ABORT` (`utility/abort.h`, which throws/exits), or
undefined behaviour. The last two are kept apart from every normal return. -/
inductive Res (α : Type*) where
  | ok (a : α)
  | abort
  | ub
  deriving DecidableEq, Repr

namespace Res
variable {α β : Type*}

/-- Sequencing: later statements run only after a normal return. -/
def bind : Res α → (α → Res β) → Res β
  | ok a, f => f a
  | abort, _ => abort
  | ub, _ => ub

instance : Monad Res where
  pure := ok
  bind := bind

@[simp] theorem bind_ok (a : α) (f : α → Res β) : (Res.ok a).bind f = f a := rfl
@[simp] theorem bind_abort (f : α → Res β) : (Res.abort : Res α).bind f = abort := rfl
@[simp] theorem bind_ub (f : α → Res β) : (Res.ub : Res α).bind f = ub := rfl
@[simp] theorem ok_bind {α β : Type} (a : α) (f : α → Res β) : (Res.ok a >>= f) = f a := rfl
@[simp] theorem abort_bind {α β : Type} (f : α → Res β) : ((Res.abort : Res α) >>= f) = abort := rfl
@[simp] theorem ub_bind {α β : Type} (f : α → Res β) : ((Res.ub : Res α) >>= f) = ub := rfl
@[simp] theorem pure_eq {α : Type} (a : α) : (pure a : Res α) = ok a := rfl

/-- The call returned normally. -/
def isOk : Res α → Bool
  | ok _ => true
  | _ => false

end Res

/-! Constants are macros, as in the source, so that they stand for literals everywhere. -/

/-- `MAX_ORDER`, `utility/convention.h`. -/
macro "MAX_ORDER" : term => `((10 : ℕ))

/-- `MAX_BUNDLE = 2 * MAX_ORDER`, size of the fixed arrays of `module/diagram/component_bundle.h`. -/
macro "MAX_BUNDLE" : term => `((20 : ℕ))

/-- The NULL pointer. Any number `>= MAX_BUNDLE` is not the address of a cell. -/
macro "NULL" : term => `((20 : ℕ))

/-- Dereference of a pointer into a bundle: undefined unless it is one of the `MAX_BUNDLE` cells. -/
def deref (p : ℕ) : Res Unit := if p < MAX_BUNDLE then .ok () else .ub

/-- One 32 bit word delivered by the engine of `utility/rng.h`. -/
abbrev Word := Fin 4294967296

/-- The words drawn during one call, in the order in which they are drawn. Theorems
quantify over all sequences; which one the engine gives is the subject of `Model/Rng`. -/
abbrev Words := ℕ → Word

/-- `RandomFactory::irn`, `utility/rng.h` 54-57: `_eng() % (thru - from + 1) + from`.
A modulus of zero (empty range) is undefined; smaller moduli are never used by the callers and are
treated as undefined too. -/
def irn (w : Word) (lo hi : ℤ) : Res ℤ :=
  if hi - lo + 1 ≤ 0 then .ub else .ok ((w.val : ℤ) % (hi - lo + 1) + lo)

/-- `RandomFactory::urn`, `utility/rng.h` 48-51 with `RANDBL_32` 23-24:
`(int)x * 2^-32 + 0.5`, where `(int)x` reinterprets the word as a signed number. -/
def urn (Q : Type*) [Field Q] (w : Word) : Q :=
  ((if w.val < 2147483648 then (w.val : ℤ) else (w.val : ℤ) - 4294967296 : ℤ) : Q) / 4294967296 + 1 / 2

/-- `Dir`: `IN = 0`, `OUT = 1` (`utility/convention.h`); `INVERSE(x) = 1 - x` is `!x`. -/
abbrev Dir := Bool
/-- Spin: `DOWN = 0`, `UP = 1`; `FLIP(x) = 1 - x` is `!x`. -/
abbrev Spin := Bool

macro "IN" : term => `(false)
macro "OUT" : term => `(true)
macro "DOWN" : term => `(false)
macro "UP" : term => `(true)

/-- `SIGN(x)`, `module/markov/markov.cpp` 25: `IN ↦ 1`, `OUT ↦ -1`. -/
def sgn (d : Dir) : ℤ := if d then -1 else 1

@[simp] theorem sgn_false : sgn false = 1 := rfl
@[simp] theorem sgn_true : sgn true = -1 := rfl

/-- Assignment to one element of an array or to a field of one cell. -/
def upd {β : Type*} (f : ℕ → β) (a : ℕ) (b : β) : ℕ → β := fun x => if x = a then b else f x

/-- Assignment to one element of a two-element array field of one cell, e.g. `v->nG[dir] = g`. -/
def upd2 {β : Type*} (f : ℕ → Dir → β) (a : ℕ) (d : Dir) (b : β) : ℕ → Dir → β :=
  fun x e => if x = a ∧ e = d then b else f x e

theorem upd_apply {β : Type*} (f : ℕ → β) (a x : ℕ) (b : β) :
    upd f a b x = if x = a then b else f x := rfl
theorem upd2_apply {β : Type*} (f : ℕ → Dir → β) (a x : ℕ) (d e : Dir) (b : β) :
    upd2 f a d b x e = if x = a ∧ e = d then b else f x e := rfl

end Feyn
