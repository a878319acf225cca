import Verif.Model.DysonSave

/-!
# What saving and restarting of the Dyson part are about
-/

namespace Feyn

/-- A signal, if the step is its arrival. -/
def PyStep.signal : PyStep → Option Sig
  | .deliver s => some s
  | _ => none

/-- The signals that arrive during an execution. -/
def arrived (l : List PyStep) : List Sig := l.filterMap PyStep.signal

/-- An execution of a program: its steps, with signals anywhere between them. -/
def Execution (prog l : List PyStep) : Prop := (l.filter fun t => t.signal.isNone) = prog

/-- The files after all calls. -/
def Files.after (s : Files) (l : List FCall) : Files := l.foldl FCall.run s

/-- A process as it is started from a terminal or by a job: handlers of Python for `SIGINT` and of the system for `SIGTERM`. -/
structure PyProc.Plain (p : PyProc) : Prop where
  int : p.hInt = .keyboard
  term : p.hTerm = .dfl
  alive : p.ended = none

/-- The files are different ones. -/
def DysonNames.Distinct (n : DysonNames) : Prop := ["_" ++ n.weight, n.weight, n.para, n.output, n.message].Nodup

/-- The files hold the results of this version; the message may be missing. -/
structure HoldsVersion (n : DysonNames) (x : DysonData) (s : Files) : Prop where
  weight : s n.weight = some x.weight
  para : s n.para = some x.para
  output : s n.output = some x.output

/-- Two states of the files differ at most in the message and in unfinished files of weights. -/
def SameResults (n : DysonNames) (s t : Files) : Prop := s n.weight = t n.weight ∧ s n.para = t n.para ∧ s n.output = t n.output

/-- `parse` understands the text as `a`, and no shorter part of it. -/
def Understands {A : Type} (parse : List ℕ → Option A) (text : List ℕ) (a : A) : Prop :=
  parse text = some a ∧ ∀ t, t <+: text → t ≠ text → parse t = none

/-- The states of the files in the course of any number of processes, each started on the files the one before left, each calculating any number of versions, and each dying after any
number of calls. The list contains all weights of these versions. -/
inductive DysonLives {A : Type} (parse : List ℕ → Option A) (text : List ℕ) (input : A) (n : DysonNames) : List (List ℕ) → Files → Prop where
  | new (s : Files) : s n.weight = none → DysonLives parse text input n [] s
  | life {ws : List (List ℕ)} {s : Files} (xs : List DysonData) (k : ℕ) : DysonLives parse text input n ws s →
      DysonLives parse text input n (ws ++ xs.map DysonData.weight) (crashAfter k ((dysonStart parse text input n s).1 ++ xs.flatMap (versionCalls n)) s)

end Feyn
