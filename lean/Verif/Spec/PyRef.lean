import Verif.Model.PyRef

/-!
# Ownership of references
-/

namespace Feyn

namespace Refs

/-- Every reference has one owner: the count of an object is the number of instances of `Object` that point to it, of references owned through plain pointers, and of references
of the interpreter. -/
def Owned (s : Refs) : Prop := ∀ o, s.cnt o = s.slots.count (some o) + s.raw.count o + s.py o

/-- The calls that can occur, in any order: members of `Object` on any instance, and what the interpreter does. -/
inductive Op where
  | ctor
  | fromNew (p : Option ℕ)
  | fromBorrowed (p : Option ℕ)
  | getNew (i : ℕ)
  | copyCtor (i : ℕ)
  | copy (i : ℕ)
  | assign (i j : ℕ)
  | destroy (i : ℕ)
  | dtor
  | pyNew (o : ℕ)
  | steal (o : ℕ)
  | pyTake (o : ℕ)
  | pyDrop (o : ℕ)

/-- The call. -/
def Op.run : Op → Refs → Res Refs
  | .ctor, s => s.ctor
  | .fromNew p, s => s.fromNew p
  | .fromBorrowed p, s => s.fromBorrowed p
  | .getNew i, s => s.getNew i
  | .copyCtor i, s => s.copyCtor i
  | .copy i, s => s.copy i
  | .assign i j, s => s.assign i j
  | .destroy i, s => s.destroy i
  | .dtor, s => s.dtor
  | .pyNew o, s => s.pyNew o
  | .steal o, s => s.steal o
  | .pyTake o, s => s.pyTake o
  | .pyDrop o, s => s.pyDrop o

/-- The rules of the interface: a member is called of an instance that exists; `NewRef` is used for a reference that the caller owns, `NoRef` for an object that is alive; the interpreter
takes what it is given, keeps objects that are alive and gives up what it owns. -/
def Op.Allowed (s : Refs) : Op → Prop
  | .ctor => True
  | .fromNew p => ∀ o, p = some o → o ∈ s.raw
  | .fromBorrowed p => ∀ o, p = some o → 0 < s.cnt o
  | .getNew i => i < s.slots.length
  | .copyCtor i => i < s.slots.length
  | .copy i => i < s.slots.length
  | .assign i j => i < s.slots.length ∧ j < s.slots.length
  | .destroy i => i < s.slots.length
  | .dtor => s.slots ≠ []
  | .pyNew _ => True
  | .steal o => o ∈ s.raw
  | .pyTake o => 0 < s.cnt o
  | .pyDrop o => 0 < s.py o

/-- Executions: any number of allowed calls that return. -/
inductive Exec : Refs → Refs → Prop
  | refl (s : Refs) : Exec s s
  | step {s t u : Refs} (op : Op) : Exec s t → op.Allowed t → op.run t = .ok u → Exec s u

/-- A function that returns an `Object` to a new or old Python object: it leaves one instance more, no plain pointer that somebody would have to release, and the references that the
interpreter had. -/
def Makes (f : Refs → Res Refs) : Prop :=
  ∀ s : Refs, s.Owned → ∃ s' o, f s = .ok s' ∧ s'.Owned ∧ s'.slots = some o :: s.slots ∧ s'.raw = s.raw ∧ ∀ x, s.py x ≤ s'.py x

/-- A function that only looks at the object that the newest instance points to, and at the objects `held` in containers of the interpreter: it leaves all counts as they were. -/
def Reads (held : List ℕ) (f : Refs → Res Refs) : Prop :=
  ∀ (s : Refs) (o : ℕ) (rest : List (Option ℕ)), s.Owned → s.slots = some o :: rest → (∀ x ∈ held, 0 < s.py x) → f s = .ok s

end Refs

end Feyn
