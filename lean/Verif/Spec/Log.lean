import Verif.Model.Log

/-! # The log of a simulation: specification (C101) -/

namespace Feyn

/-- The text of a message for the configuration `c`, with the empty line after it. -/
def shownText (c : LogConf) (m : LogMsg) : String := logText ("[" ++ c.name ++ "]") ((logStr m.level).getD "") m ++ "\n"

/-- What the message `m` adds to the file `F`, if `last` is the last configuration before it: its text, if that configuration has the file `F`, turns files on, and has a level that is not
above that of the message. -/
def filePart (canOpen : String → Bool) (F : String) (last : Option LogConf) (m : LogMsg) : String :=
  match last with
  | none => ""
  | some c => if c.file = F ∧ canOpen F ∧ c.conf % 2 = 1 ∧ c.fileLevel % 2 ^ 32 ≤ m.level then shownText c m else ""

/-- What the message `m` adds to the screen. -/
def screenPart (last : Option LogConf) (m : LogMsg) : String :=
  match last with
  | none => "ERROR: Logger not configured!\n"
  | some c => if c.conf / 4 % 2 = 1 ∧ c.screenLevel % 2 ^ 32 ≤ m.level then shownText c m else ""

/-- What a sequence of uses adds to the file `F`: for every message its part for the last configuration before it. -/
def fileText (canOpen : String → Bool) (F : String) (last : Option LogConf) (calls : List LogCall) : String :=
  match calls with
  | [] => ""
  | .conf c :: l => fileText canOpen F (some c) l
  | .print m :: l => filePart canOpen F last m ++ fileText canOpen F last l

/-- What a sequence of uses adds to the screen. -/
def screenText (last : Option LogConf) (calls : List LogCall) : String :=
  match calls with
  | [] => ""
  | .conf c :: l => screenText (some c) l
  | .print m :: l => screenPart last m ++ screenText last l

/-- A new logger: not configured, no file open. The other members have any values. -/
def LogState.Fresh (s : LogState) : Prop := s.configured = false ∧ s.out = none

/-- Every level is one of the four of `logger.h`. -/
def KnownLevels (l : List LogCall) : Prop := ∀ m, LogCall.print m ∈ l → m.level < 4

/-- The date and time as the calendar has them, without the century. -/
def calendarStamp (t : Tm) : String :=
  "[" ++ toString (t.year - 100) ++ "/" ++ toString (t.mon + 1) ++ "/" ++ toString t.mday ++ " " ++ toString t.hour ++ ":" ++ toString t.min ++ ":" ++ toString t.sec ++ "]"

end Feyn
