import Verif.Model.Basic
import Mathlib.Data.String.Basic

/-!
# Signals, timers, scope guards, files, dictionaries, text

Small utility classes. Citations are relative to `/repo/src` unless they name a file of `/repo`.
-/

namespace Feyn

/-! ## Signals -/

/-- The two signals that are handled, `utility/abort.cpp` 30-31. -/
inductive Sig where
  | int
  | term
  deriving DecidableEq, Repr

/-- `InterruptHandler` (`utility/abort.h` 54-67) and the part of the process state that it controls. `delayedInt`/`delayedTerm`:
the delayed handler is installed for this signal. `pending` is `__Signal`, with `-1` as `none`. `exited` is the argument of the call
of `exit` that ended the process. `log` lists the signals delivered to the process so far, as the handlers log them. -/
structure Proc where
  delayedInt : Bool
  delayedTerm : Bool
  delaying : Bool
  pending : Option Sig
  exited : Option Sig
  log : List Sig
  deriving DecidableEq, Repr

/-- Steps between which a signal may be delivered. -/
inductive PStep where
  /-- Delivery of a signal by the operating system. -/
  | deliver (s : Sig)
  /-- `signal(SIGINT, handler)`; `true` is the delayed handler. -/
  | setInt (delayed : Bool)
  /-- `signal(SIGTERM, handler)`. -/
  | setTerm (delayed : Bool)
  /-- `__IsDelaying = true`. -/
  | setDelaying
  /-- The test at the end of `Resume`. -/
  | resumeTest
  deriving DecidableEq, Repr

namespace Proc

/-- The constructor, `abort.cpp` 26-32. -/
def new : Proc := ⟨false, false, false, none, none, []⟩

/-- Which handler is installed. -/
def isDelayed (p : Proc) : Sig → Bool
  | .int => p.delayedInt
  | .term => p.delayedTerm

/-- `__SignalHandler`, `abort.cpp` 14-19. -/
def handle (p : Proc) (s : Sig) : Proc := { p with pending := some s, exited := some s }

/-- One step. A process that has exited does nothing any more. Handlers: `abort.cpp` 14-24; test: 50-54. -/
def step (p : Proc) (t : PStep) : Proc :=
  if p.exited.isSome then p
  else match t with
    | .deliver s =>
      let p := { p with log := p.log ++ [s] }
      if p.isDelayed s then { p with pending := some s } else p.handle s
    | .setInt b => { p with delayedInt := b }
    | .setTerm b => { p with delayedTerm := b }
    | .setDelaying => { p with delaying := true }
    | .resumeTest =>
      match p.delaying, p.pending with
      | true, some s => p.handle s
      | _, _ => p

/-- `Delay`, `abort.cpp` 39-44. -/
def delay : List PStep := [.setInt true, .setTerm true, .setDelaying]

/-- `Resume`, `abort.cpp` 46-55. -/
def resume : List PStep := [.setInt false, .setTerm false, .resumeTest]

/-- A sequence of steps. -/
def run (p : Proc) (l : List PStep) : Proc := l.foldl step p

end Proc

/-! ## Timer -/

/-- The part of `timer` (`utility/timer.h` 13-45) that `check(time_t)` uses. -/
structure Timer where
  running : Bool
  startTime : ℤ
  deriving DecidableEq, Repr

namespace Timer
/-- Constructor, `timer.h` 27-33. -/
def new : Timer := ⟨false, 0⟩
/-- `start`, `timer.cpp` 29-44; `now` is the value of `time(0)`. -/
def start (t : Timer) (now : ℤ) : Timer := if t.running then t else ⟨true, now⟩
/-- `restart`, `timer.cpp` 49-61. -/
def restart (_ : Timer) (now : ℤ) : Timer := ⟨true, now⟩
/-- `check(time_t)`, `timer.cpp` 94-103: `now` and `now2` are the values of the two calls of `time(0)`. -/
def check (t : Timer) (interval now now2 : ℤ) : Bool × Timer :=
  if now - t.startTime < interval then (false, t) else (true, t.restart now2)
end Timer

/-! ## Scope guards -/

/-- Statements of a scope that uses guards; a guard is called by the number it has in the source. Callbacks are assumed to return
normally (an exception thrown by a destructor ends the process). -/
inductive SStmt where
  /-- `ON_SCOPE_EXIT(callback)` or a local `ScopeGuard`. -/
  | guard (id : ℕ)
  /-- `Dismiss` of a guard. -/
  | dismiss (id : ℕ)
  /-- Anything else that goes on with the next statement. -/
  | other
  /-- `throw` (or `return`): the scope is left. -/
  | leave
  deriving DecidableEq, Repr

/-- `ScopeGuard`, `utility/scopeguard.h` 24-51: live guards, innermost first, with `dismissed_`. -/
abbrev Guards := List (ℕ × Bool)

/-- Destructors, `scopeguard.h` 33-38, in reverse order of construction: the callbacks that run. -/
def unwind (g : Guards) : List ℕ := (g.filter fun x => !x.2).map fun x => x.1

/-- Runs a scope and returns the callbacks that were executed, in order. -/
def runScope (g : Guards) : List SStmt → List ℕ
  | [] => unwind g
  | .guard i :: l => runScope ((i, false) :: g) l
  | .dismiss i :: l => runScope (g.map fun x => if x.1 = i then (x.1, true) else x) l
  | .other :: l => runScope g l
  | .leave :: _ => unwind g

/-! ## Files -/

/-- A file system: contents by name. A file being written has a prefix of its final contents. -/
abbrev Files := String → Option (List ℕ)

/-- System calls of the save functions. -/
inductive FCall where
  /-- Open for writing with truncation. -/
  | create (f : String)
  /-- Append one block. -/
  | write (f : String) (block : ℕ)
  /-- `rename`, atomic. -/
  | rename (a b : String)
  deriving DecidableEq, Repr

/-- Effect of one call. -/
def FCall.run (s : Files) : FCall → Files
  | .create f => Function.update s f (some [])
  | .write f b => Function.update s f ((s f).map fun l => l ++ [b])
  | .rename a b => Function.update (Function.update s b (s a)) a none

/-- `SaveBigDict`, `/repo/IO.py` 23-30, called by `Dictionary::BigSave` (`utility/dictionary.cpp` 76-82): the blocks are written to
a file with a prefixed name, which is then renamed. -/
def saveBig (f : String) (data : List ℕ) : List FCall :=
  let tmp := "_" ++ f
  .create tmp :: (data.map fun b => .write tmp b) ++ [.rename tmp f]

/-- `SaveDict` with mode `"w"`, `/repo/IO.py` 11-15, called by `Dictionary::Save` (`utility/dictionary.cpp` 59-65). -/
def saveSmall (f : String) (data : List ℕ) : List FCall := .create f :: data.map fun b => .write f b

/-- The file system after the first `k` calls, i.e. when the process dies there. -/
def crashAfter (k : ℕ) (calls : List FCall) (s : Files) : Files := (calls.take k).foldl FCall.run s

/-! ## Dictionaries -/

/-- `std::map<std::string, AnyObject>` of `Dictionary` (`utility/dictionary.h` 28-31): entries sorted by key. -/
abbrev Dict (V : Type) := List (String × V)

namespace Dict
variable {V : Type}

/-- `std::map::find`: binary search is replaced by linear search. -/
def find (d : Dict V) (k : String) : Option V :=
  match d with
  | [] => none
  | (k', v) :: d => if k = k' then some v else Dict.find d k

/-- Insertion or replacement at the place given by the order of the keys. -/
def set (d : Dict V) (k : String) (v : V) : Dict V :=
  match d with
  | [] => [(k, v)]
  | (k', v') :: d => if k = k' then (k, v) :: d else if k < k' then (k, v) :: (k', v') :: d else (k', v') :: Dict.set d k v

/-- `HasKey`, `dictionary.cpp` 89-92. -/
def hasKey (d : Dict V) (k : String) : Bool := (d.find k).isSome

/-- `operator[]` used for reading, `dictionary.cpp` 30-33: a missing key is inserted with the default object. -/
def index (d : Dict V) (k : String) (dflt : V) : V × Dict V :=
  match d.find k with
  | some v => (v, d)
  | none => (dflt, d.set k dflt)

/-- `Update`, `dictionary.cpp` 35-39. -/
def update (d e : Dict V) : Dict V := e.foldl (fun d x => d.set x.1 x.2) d

/-- `Clear`, `dictionary.cpp` 84-87. -/
def clear (_ : Dict V) : Dict V := []

/-- `Get<T>`, `dictionary.h` 55-64. A missing key throws `KeyInvalid`, a failed conversion calls `ABORT`: both are `abort`. -/
def get {T : Type} (d : Dict V) (convert : V → Option T) (k : String) : Res T :=
  if d.hasKey k = false then .abort
  else match d.find k with
    | none => .abort
    | some v => match convert v with
      | none => .abort
      | some t => .ok t

/-- `GET_WITH_DEFAULT`, `dictionary.h` 21-27. -/
def getWithDefault {T : Type} (d : Dict V) (convert : V → Option T) (k : String) (dflt : T) : Res T :=
  if d.hasKey k then d.get convert k else .ok dflt

end Dict

/-! ## Text padding -/

/-- Value of `w - s.size()` as `size_t`, `utility/utility.cpp` 81, 92, 102. -/
def padding (s : List Char) (w : ℤ) : ℕ := ((w - (s.length : ℤ)) % 18446744073709551616).toNat

/-- The loop `for (int i = 0; i < n; ++i) spaces << " "`: with more than `INT_MAX` passes the counter overflows, which is undefined. -/
def spaces (n : ℕ) : Res (List Char) := if n ≤ 2147483647 then .ok (List.replicate n ' ') else .ub

/-- `Center`, `utility.cpp` 78-88. -/
def center (s : List Char) (w : ℤ) : Res (List Char) := do
  let p := padding s w
  let sp ← spaces (p / 2)
  pure (sp ++ s ++ sp ++ if p > 0 ∧ p % 2 ≠ 0 then [' '] else [])

/-- `Right`, `utility.cpp` 89-97. -/
def right (s : List Char) (w : ℤ) : Res (List Char) := do
  let sp ← spaces (padding s w)
  pure (sp ++ s)

/-- `Left`, `utility.cpp` 99-107. -/
def left (s : List Char) (w : ℤ) : Res (List Char) := do
  let sp ← spaces (padding s w)
  pure (s ++ sp)

end Feyn
