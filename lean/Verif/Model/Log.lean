import Mathlib.Logic.Function.Basic
import Mathlib.Data.Int.Basic
import Mathlib.Data.Nat.Bitwise

/-!
# The log of a simulation (`utility/logger.h`, `utility/logger.cpp`, `utility/abort.h`) (C101)

Files are texts by name; a full disk and other processes that write to the same file are left out. `std::endl` flushes, so that a text is in its file when `print` returns.
-/

namespace Feyn

/-- The result of `localtime`: years since 1900, months since January, day, hour, minute and second. -/
structure Tm where
  year : ℤ
  mon : ℕ
  mday : ℕ
  hour : ℕ
  min : ℕ
  sec : ℕ

/-- The arguments of `Logger::print`, `logger.cpp` 123-126, with the time of the call. `path` is `__FILE__`. -/
structure LogMsg where
  level : ℕ
  path : List Char
  line : ℕ
  message : String
  time : Tm

/-- The arguments of `Logger::configure`, `logger.cpp` 55-59. -/
structure LogConf where
  file : String
  name : String
  conf : ℕ
  fileLevel : ℤ
  screenLevel : ℤ

/-- `Logger`, `logger.h` 65-127, with the files, the screen and the state of the stream: the file on which it is open, and whether no error flag is set. `conf` and the levels have no
initial value. -/
structure LogState where
  configured : Bool
  name : String
  file : String
  conf : ℕ
  fileLevel : ℕ
  screenLevel : ℕ
  out : Option String
  good : Bool
  files : String → String
  screen : String

/-- `LOGSTR[level]`, `logger.h` 21; `none`: read past the end. -/
def logStr (level : ℕ) : Option String := ["[DEBUG]", "[INFO]", "[WARNING]", "[ERROR]"][level]?

/-- `file` in `Logger::print`, `logger.cpp` 133-136: what follows the last `\` or `/`; nothing if there is none. -/
def logFileName (path : List Char) : List Char :=
  if path.any (fun c => c == '\\' || c == '/') then (path.reverse.takeWhile fun c => !(c == '\\' || c == '/')).reverse else []

/-- The time in a message, `logger.cpp` 148. -/
def logStamp (t : Tm) : String :=
  "[" ++ toString (t.year - 100) ++ "/" ++ toString t.mon ++ "/" ++ toString t.mday ++ " " ++ toString t.hour ++ ":" ++ toString t.min ++ ":" ++ toString t.sec ++ "]"

/-- `msg` in `Logger::print`, `logger.cpp` 143-150. `name` is `loggerName_`. -/
def logText (name level : String) (m : LogMsg) : String :=
  name ++ level ++ logStamp m.time ++ "@[" ++ String.ofList (logFileName m.path) ++ ":" ++ toString m.line ++ "]\n" ++ m.message ++ "\n"

/-- A conversion from `int` to `unsigned int`. -/
def toUnsigned (x : ℤ) : ℕ := (x % 2 ^ 32).toNat

/-- `configuration & file_on` and `configuration & screen_on` as conditions, `logger.h` 69-72, 144-146. -/
def logToFile (conf : ℕ) : Bool := conf.testBit 0
@[inherit_doc logToFile] def logToScreen (conf : ℕ) : Bool := conf.testBit 2

/-- `out_.close()`: it fails if the stream is not open. -/
def LogState.close (s : LogState) : LogState := { s with out := none, good := s.good && s.out.isSome }

/-- `out_.open(logFile_.c_str(), std::ios::app)`: it fails if the stream is open or the file cannot be opened; success clears the error flags. -/
def LogState.openFile (canOpen : String → Bool) (s : LogState) : LogState :=
  if s.out.isSome || !canOpen s.file then { s with good := false } else { s with out := some s.file, good := true }

/-- `out_ << msg << std::endl`. -/
def LogState.write (s : LogState) (text : String) : LogState :=
  match s.good, s.out with
  | true, some f => { s with files := Function.update s.files f (s.files f ++ text ++ "\n") }
  | _, _ => { s with good := false }

/-- `Logger::configure`, `logger.cpp` 55-83. -/
def LogState.configure (canOpen : String → Bool) (s : LogState) (c : LogConf) : LogState :=
  let s := { s with name := "[" ++ c.name ++ "]", fileLevel := toUnsigned c.fileLevel, screenLevel := toUnsigned c.screenLevel }
  let s := if logToFile s.conf then s.close else s
  let s := { s with file := c.file }
  let s := if logToFile c.conf then s.openFile canOpen else s
  { s with conf := c.conf, configured := true }

/-- `Logger::print`, `logger.cpp` 123-157; `none`: undefined. -/
def LogState.print (s : LogState) (m : LogMsg) : Option LogState :=
  if !s.configured then some { s with screen := s.screen ++ "ERROR: Logger not configured!\n" }
  else
    match logStr m.level with
    | none => none
    | some l =>
      let msg := logText s.name l m
      let s := if logToFile s.conf && decide (s.fileLevel ≤ m.level) then s.write msg else s
      some (if logToScreen s.conf && decide (s.screenLevel ≤ m.level) then { s with screen := s.screen ++ msg ++ "\n" } else s)

/-- A use of the logger. -/
inductive LogCall where
  | conf (c : LogConf)
  | print (m : LogMsg)

/-- A sequence of uses. -/
def LogState.run (canOpen : String → Bool) : LogState → List LogCall → Option LogState
  | s, [] => some s
  | s, .conf c :: l => (s.configure canOpen c).run canOpen l
  | s, .print m :: l => (s.print m).bind fun s => s.run canOpen l

/-- `THROW`, `abort.h` 32-40: the message to the log with the level `ERROR`, and the text of the exception. -/
def throwCalls (path : List Char) (line : ℕ) (msg : String) (time : Tm) : LogCall × String :=
  (.print ⟨3, path, line, "Exception throwed: " ++ msg, time⟩, "@[" ++ String.ofList path ++ ":" ++ toString line ++ "] " ++ msg)

/-- `LOGGER_CONF` of `RunTest` (`test.cpp` 27) and of `BuildNew` and `Load` (`environment/envMonteCarlo.cpp` 29, 60). -/
def testConf : LogConf := ⟨"test.log", "test", 1 ||| 4, 1, 1⟩
@[inherit_doc testConf] def jobConf (file type : String) : LogConf := ⟨file, type, 1 ||| 4, 1, 1⟩

end Feyn
