import Verif.Model.System

/-!
# Saving and restarting in the Dyson part (dyson/logger.py, dyson/main.py, dyson/measure.py, IO.py)

Signals reach a Python program between two steps of the interpreter; the steps here are the statements of `DelayedInterrupt` and the system calls of the functions that save. Exceptions
raised by these system calls are left out. Citations are relative to `/repo`.
-/

namespace Feyn

/-! ## Delayed interrupts -/

/-- What `signal.getsignal` may return: `default_int_handler`, which raises `KeyboardInterrupt`; the integers `SIG_DFL` and `SIG_IGN`; the method `handler` of the `DelayedInterrupt`; a
function of the program, which returns. -/
inductive PyHandler where
  | keyboard
  | dfl
  | ign
  | recorder
  | user (id : ℕ)
  deriving DecidableEq, Repr

/-- How a process ends. -/
inductive PyEnd where
  /-- The action of the system for `SIG_DFL`. -/
  | killed (s : Sig)
  /-- The exception, which no function on the way catches and goes on. -/
  | keyboardInterrupt
  /-- `'int' object is not callable`. -/
  | typeError
  deriving DecidableEq, Repr

/-- The installed handlers, the members of the `DelayedInterrupt` (dyson/logger.py 38-40; `received` is `signal_received`, with `False` as `none`), the calls of functions of the program by
signals, and the files. -/
structure PyProc where
  hInt : PyHandler
  hTerm : PyHandler
  received : Option Sig
  oldInt : PyHandler
  oldTerm : PyHandler
  called : List (ℕ × Sig)
  ended : Option PyEnd
  files : Files

/-- Steps between which a signal may arrive. -/
inductive PyStep where
  /-- A signal arrives. -/
  | deliver (s : Sig)
  /-- `self.signal_received = False`. -/
  | clear
  /-- `self.old_handler_int = signal.getsignal(signal.SIGINT)`. -/
  | getInt
  /-- `self.old_handler_term = signal.getsignal(signal.SIGTERM)`. -/
  | getTerm
  /-- `signal.signal(signal.SIGINT, self.handler)`. -/
  | setInt
  /-- `signal.signal(signal.SIGTERM, self.handler)`. -/
  | setTerm
  /-- A system call. -/
  | file (c : FCall)
  /-- `signal.signal(signal.SIGINT, self.old_handler_int)`. -/
  | restoreInt
  /-- `signal.signal(signal.SIGTERM, self.old_handler_term)`. -/
  | restoreTerm
  /-- `if self.signal_received: self.old_handler_int(*self.signal_received)`. -/
  | test
  deriving DecidableEq, Repr

namespace PyProc

/-- A signal arrives while the handler `h` is installed for it; `handler` is dyson/logger.py 45-47. -/
def signalled (p : PyProc) (h : PyHandler) (s : Sig) : PyProc :=
  match h with
  | .keyboard => { p with ended := some .keyboardInterrupt }
  | .dfl => { p with ended := some (.killed s) }
  | .ign => p
  | .recorder => { p with received := some s }
  | .user i => { p with called := p.called ++ [(i, s)] }

/-- The call `h(s, frame)` of a program. -/
def calls (p : PyProc) (h : PyHandler) (s : Sig) : PyProc :=
  match h with
  | .keyboard => { p with ended := some .keyboardInterrupt }
  | .dfl => { p with ended := some .typeError }
  | .ign => { p with ended := some .typeError }
  | .recorder => { p with received := some s }
  | .user i => { p with called := p.called ++ [(i, s)] }

/-- One step; a process that has ended does nothing. -/
def step (p : PyProc) (t : PyStep) : PyProc :=
  if p.ended.isSome then p
  else match t with
    | .deliver .int => p.signalled p.hInt .int
    | .deliver .term => p.signalled p.hTerm .term
    | .clear => { p with received := none }
    | .getInt => { p with oldInt := p.hInt }
    | .getTerm => { p with oldTerm := p.hTerm }
    | .setInt => { p with hInt := .recorder }
    | .setTerm => { p with hTerm := .recorder }
    | .file c => { p with files := c.run p.files }
    | .restoreInt => { p with hInt := p.oldInt }
    | .restoreTerm => { p with hTerm := p.oldTerm }
    | .test => match p.received with
      | some s => p.calls p.oldInt s
      | none => p

/-- A sequence of steps. -/
def run (p : PyProc) (l : List PyStep) : PyProc := l.foldl step p

end PyProc

/-- `__enter__`, dyson/logger.py 38-43. -/
def enterSteps : List PyStep := [.clear, .getInt, .getTerm, .setInt, .setTerm]

/-- `__exit__`, dyson/logger.py 49-54. -/
def exitSteps : List PyStep := [.restoreInt, .restoreTerm, .test]

/-- `with DelayedInterrupt(): body`. -/
def withDelayed (body : List FCall) : List PyStep := enterSteps ++ (body.map fun c => .file c) ++ exitSteps

/-! ## Files -/

/-- The names of the files, dyson/main.py 356-363, with the endings that IO.py adds. -/
structure DysonNames where
  weight : String
  para : String
  output : String
  message : String

/-- What a version writes: the dictionary of weights and the texts of the other files. -/
structure DysonData where
  weight : List ℕ
  para : List ℕ
  output : List ℕ
  message : List ℕ

/-- The calls inside of the `with` statement of `Measure`, dyson/main.py 101-108. The plots are left out. -/
def measureCalls (n : DysonNames) (x : DysonData) : List FCall :=
  saveBig n.weight x.weight ++ saveSmall n.para x.para ++ saveSmall n.output x.output

/-- The calls of one version, with `BroadcastMessage`, dyson/main.py 324-325 and dyson/parameter.py 26-28. -/
def versionCalls (n : DysonNames) (x : DysonData) : List FCall := measureCalls n x ++ saveSmall n.message x.message

/-- One version as steps. Everything else a version does leaves the files alone. -/
def versionSteps (n : DysonNames) (x : DysonData) : List PyStep :=
  withDelayed (measureCalls n x) ++ (saveSmall n.message x.message).map fun c => .file c

/-- The start of a process, dyson/main.py 365-375: the calls it makes, the weights it loads (`none`: a new calculation) and its parameters. `parse` is `eval` of the text, with the entry
`"Para"`, and `none` for an exception; `input` are the parameters of the input file and `text` what `Save` writes for them. -/
def dysonStart {A : Type} (parse : List ℕ → Option A) (text : List ℕ) (input : A) (n : DysonNames) (s : Files) : List FCall × Option (List ℕ) × A :=
  match s n.weight with
  | none => ([], none, input)
  | some w => match (s n.para).bind parse with
    | some a => ([], some w, a)
    | none => (saveSmall n.para text, some w, input)

/-! ## The history of the observables -/

/-- The names under which `Observable.Measure` appends a value, in order, dyson/measure.py 19-118; `none`: `AssertionError`. `sz` and `dens` are the names of the densities, one for every
sublattice. -/
def observableNames (lattice : String) (sz dens : List String) : Option (List String) :=
  let common := ["1-JP", "UnifChi", "BKUnifChi", "Mag^2 density", "BK Mag^2 density", "Energy", "SumRule", "BK_Energy", "BK_SumRule"]
  let stag := ["StagChi", "BKStagChi", "StagMag^2 density", "BK StagMag^2 density"]
  let special : Option (List String) :=
    if lattice ∈ ["Chain", "Assymetric_Triangular", "Square", "Cubic", "Checkerboard", "3DCheckerboard", "ValenceBond"] then some stag
    else if lattice ∈ ["Triangular"] then some stag
    else if lattice ∈ ["Pyrochlore"] then some ["UnifChi", "Chi_X(4Pi,2Pi,0)"]
    else if lattice ∈ ["Kagome", "Honeycomb", "Triangular"] then some []
    else none
  special.map fun l => common ++ l ++ (if lattice ∈ ["ValenceBond"] then ["VBS"] else []) ++ sz ++ dens

/-- `__History`: lists by name. -/
abbrev ObsHistory (V : Type) := String → List V

/-- `Append`, dyson/measure.py 15-18. -/
def ObsHistory.append {V : Type} (h : ObsHistory V) (x : String × V) : ObsHistory V := Function.update h x.1 (h x.1 ++ [x.2])

/-- The history that is saved after the given measurements of a process, dyson/measure.py 10-18, 132-134: it begins empty, `Load` (124-130) is never called. -/
def obsHistory {V : Type} (ms : List (List (String × V))) : ObsHistory V := ms.foldl (fun h m => m.foldl ObsHistory.append h) fun _ => []

end Feyn
