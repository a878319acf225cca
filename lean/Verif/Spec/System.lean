import Verif.Model.System

/-!
# What the utility classes are about
-/

namespace Feyn

/-! ## Signals -/

/-- Calls that the program makes. -/
inductive SigCall where
  | delay
  | resume
  deriving DecidableEq, Repr

/-- The steps of a call. -/
def SigCall.steps : SigCall → List PStep
  | .delay => Proc.delay
  | .resume => Proc.resume

/-- A delivered signal, if the step is one. -/
def PStep.signal : PStep → Option Sig
  | .deliver s => some s
  | _ => none

/-- The steps of an execution that the program makes itself, i.e. without the deliveries. -/
def ownSteps (l : List PStep) : List PStep := l.filter fun t => t.signal.isNone

/-- The signals sent during an execution. -/
def sent (l : List PStep) : List Sig := l.filterMap PStep.signal

/-- An execution of a program that makes the given calls: signals may arrive between any two steps, also inside of calls. -/
def Interleaving (calls : List SigCall) (l : List PStep) : Prop := ownSteps l = calls.flatMap SigCall.steps

/-- The program is not in a critical section after these calls: there was none or it was left. -/
def Outside (calls : List SigCall) : Prop := calls = [] ∨ ∃ c, calls = c ++ [.resume]

/-! ## Timer -/

/-- Results of a sequence of checks; each check reads the clock twice. -/
def Timer.checks (t : Timer) (interval : ℤ) : List (ℤ × ℤ) → List Bool × Timer
  | [] => ([], t)
  | (a, b) :: l =>
    let r := t.check interval a b
    let r' := Timer.checks r.2 interval l
    (r.1 :: r'.1, r'.2)

/-- The clock never goes back, from a given time on. -/
def Clock (t0 : ℤ) : List (ℤ × ℤ) → Prop
  | [] => True
  | (a, b) :: l => t0 ≤ a ∧ a ≤ b ∧ Clock b l

/-- The readings of the checks that fired. -/
def fired (reads : List (ℤ × ℤ)) (results : List Bool) : List (ℤ × ℤ) :=
  ((reads.zip results).filter fun x => x.2).map fun x => x.1

/-! ## Scope guards -/

/-- The statements of a scope that are executed. -/
def reached (l : List SStmt) : List SStmt := l.takeWhile fun s => s ≠ .leave

/-- The guards constructed by a list of statements, in order. -/
def built (l : List SStmt) : List ℕ := l.filterMap fun s => match s with | .guard i => some i | _ => none

/-- Each guard is constructed once, and dismissed only after it was constructed (a C++ compiler rejects anything else). -/
def Scoped (seen : List ℕ) : List SStmt → Prop
  | [] => True
  | .guard i :: l => i ∉ seen ∧ Scoped (i :: seen) l
  | .dismiss i :: l => i ∈ seen ∧ Scoped seen l
  | _ :: l => Scoped seen l

/-! ## Dictionaries -/

/-- Operations that change a dictionary. -/
inductive DictOp (V : Type) where
  /-- `d[k] = v`. -/
  | set (k : String) (v : V)
  /-- `d.Update(e)`. -/
  | update (e : Dict V)
  /-- `d.Clear()`. -/
  | clear
  /-- Reading `d[k]`, with the default object. -/
  | touch (k : String) (dflt : V)

/-- Execution of an operation. -/
def DictOp.run {V : Type} (d : Dict V) : DictOp V → Dict V
  | .set k v => d.set k v
  | .update e => d.update e
  | .clear => d.clear
  | .touch k v => (d.index k v).2

/-- A dictionary as a partial function. -/
def DictOp.ideal {V : Type} (f : String → Option V) : DictOp V → String → Option V
  | .set k v => fun j => if j = k then some v else f j
  | .update e => fun j => match (e.find? fun x => x.1 = j) with | some x => some x.2 | none => f j
  | .clear => fun _ => none
  | .touch k v => fun j => if j = k then some ((f k).getD v) else f j

/-- Keys are in strictly increasing order, as in a `std::map`. -/
def Dict.Sorted {V : Type} (d : Dict V) : Prop := d.Pairwise fun a b => a.1 < b.1

/-- Arguments of the operations are dictionaries. -/
def DictOp.Valid {V : Type} : DictOp V → Prop
  | .update e => Dict.Sorted e
  | _ => True

end Feyn
