import Mathlib.Data.List.Basic
import Mathlib.Data.List.Sort

/-!
# The job manager (job_manager.py, job_class.py)

Processes are numbered in the order of their start. What the operating system says about them is an argument: `ended k j` tells whether process `j` has ended when `check_status` is
called for the `k`-th time; it does not change during a call. Sleeping, printing, logging and the contents of files are left out.
-/

namespace Feyn

/-- `JobAtom`, job_manager.py 22-40; `name` is the type of the job. -/
structure Atom where
  name : String
  pid : ℤ
  isCluster : Bool
  autoRun : Bool
  busy : Bool
deriving DecidableEq

/-- A job class, job_class.py 15-41, as far as `construct_job_queue` uses it: the fields of `control` and the list of numbers. -/
structure JobClass where
  name : String
  isCluster : Bool
  autoRun : Bool
  busy : Bool
  pids : List ℤ

/-- The loop `while True` of `construct_job_queue`, job_manager.py 51-61: `to_dict` takes the first number and raises an `IndexError` when there is none. -/
def JobClass.atoms (c : JobClass) : List Atom := c.pids.map fun p => ⟨c.name, p, c.isCluster, c.autoRun, c.busy⟩

/-- `construct_job_queue`, job_manager.py 46-63. -/
def jobQueues (todo : List JobClass) : List Atom × List Atom :=
  todo.foldl (fun q c => c.atoms.foldl (fun q a => if a.busy then (q.1 ++ [a], q.2) else (q.1, q.2 ++ [a])) q) ([], [])

/-- The loop `for elemp in plist` of `check_status`, job_manager.py 71-75: the list is changed while it is traversed by position. -/
def pySweep (ended : ℕ → Bool) (l : List (ℕ × Atom)) (i : ℕ) : List (ℕ × Atom) :=
  if h : i < l.length then
    if ended l[i].1 then pySweep ended (l.erase l[i]) (i + 1) else pySweep ended l (i + 1)
  else l
termination_by l.length - i
decreasing_by
  · have := List.length_erase_of_mem (List.getElem_mem h)
    omega
  · omega

/-- State of the manager. `log`: jobs for which `submit_job` was called; `started`: number of processes started; `calls`: calls of `check_status`. -/
structure Mgr where
  backTodo : List Atom
  todo : List Atom
  procs : List (ℕ × Atom)
  procsBack : List (ℕ × Atom)
  log : List Atom
  started : ℕ
  calls : ℕ
  exited : Bool

/-- `submit_job`, job_manager.py 78-127. Jobs for a cluster are not observed; without `auto_run` nothing is started. -/
def Mgr.submit (m : Mgr) (a : Atom) : Mgr :=
  let m := { m with log := m.log ++ [a] }
  if a.isCluster then m
  else if a.autoRun then
    let m := if a.busy then { m with procs := m.procs ++ [(m.started, a)] } else { m with procsBack := m.procsBack ++ [(m.started, a)] }
    { m with started := m.started + 1 }
  else m

/-- `check_status`, job_manager.py 65-76. -/
def Mgr.check (ended : ℕ → ℕ → Bool) (m : Mgr) : Mgr :=
  { m with procs := pySweep (ended m.calls) m.procs 0, procsBack := pySweep (ended m.calls) m.procsBack 0, calls := m.calls + 1 }

/-- The next step of the main program, job_manager.py 155-168. -/
def Mgr.step (cpu : ℕ) (ended : ℕ → ℕ → Bool) (m : Mgr) : Mgr :=
  if m.exited then m
  else match m.backTodo with
    | a :: l => { m with backTodo := l }.submit a
    | [] => match m.todo with
      | a :: l => if a.isCluster = false ∧ m.procs.length ≥ cpu then m.check ended else { m with todo := l }.submit a
      | [] => if (m.procs ++ m.procsBack).length ≠ 0 then m.check ended else { m with exited := true }

/-- The state before the first loop, job_manager.py 150-154. -/
def Mgr.init (todo : List JobClass) : Mgr :=
  let q := jobQueues todo
  ⟨q.2, q.1, [], [], [], 0, 0, false⟩

/-- A number of steps. -/
def Mgr.run (cpu : ℕ) (ended : ℕ → ℕ → Bool) (m : Mgr) (n : ℕ) : Mgr := (Mgr.step cpu ended)^[n] m

/-- What happens next: a step of the main program or the signal SIGINT or SIGTERM. -/
inductive MgrEv
  | step
  | signal

/-- `StopTheWorld`, job_manager.py 134-145, is called between two steps of the main program and returns to it. The processes it terminates are those that `ended` reports from then on. -/
def Mgr.event (cpu : ℕ) (ended : ℕ → ℕ → Bool) (m : Mgr) : MgrEv → Mgr
  | .step => m.step cpu ended
  | .signal => if m.exited then m else m.check ended

/-- A history of the manager. -/
def Mgr.exec (cpu : ℕ) (ended : ℕ → ℕ → Bool) (m : Mgr) (evs : List MgrEv) : Mgr := evs.foldl (Mgr.event cpu ended) m

/-- A file in the directory: whether its name has the key word, whether it begins with an underscore, and the number before the first underscore (`none`: not a number). -/
structure DirEntry where
  hasKey : Bool
  hidden : Bool
  number : Option ℤ

/-- `get_current_PID`, job_class.py 5-12. `none` is a `ValueError`. -/
def currentPids (dir : List DirEntry) : Option (List ℤ × ℤ) := do
  let l ← (dir.filter fun e => e.hasKey && !e.hidden).mapM DirEntry.number
  let l := l.mergeSort
  some (l, match l.getLast? with
    | none => 0
    | some x => x + 1)

/-- The numbers of the constructor of `JobMonteCarlo` and `DoesLoad`, job_class.py 57-64. -/
def monteCarloPids (dir : List DirEntry) (duplicate : ℕ) : Option (List ℤ × Bool) := do
  let (l, next) ← currentPids dir
  some (if l.length ≠ 0 then (l.take duplicate, true) else ((List.range duplicate).map fun (i : ℕ) => next + i, false))

end Feyn
