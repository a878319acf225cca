import Verif.Model.Manager

/-!
# What the job manager is expected to do
-/

namespace Feyn

/-- The jobs among the given ones that become processes of this computer. -/
def localJobs (l : List Atom) : List Atom := l.filter fun a => !a.isCluster && a.autoRun

/-- Process `j` runs a job that is to keep a processor busy, and has not ended yet. -/
def Mgr.Busy (ended : ℕ → ℕ → Bool) (m : Mgr) (j : ℕ) : Prop := (∃ a, (localJobs m.log)[j]? = some a ∧ a.busy = true) ∧ ended m.calls j = false

/-- An ended process does not come back. -/
def Lasting (ended : ℕ → ℕ → Bool) : Prop := ∀ k j, ended k j = true → ended (k + 1) j = true

/-- All jobs of some job classes, in their order. -/
def allAtoms (todo : List JobClass) : List Atom := todo.flatMap fun c => c.pids.map fun p => ⟨c.name, p, c.isCluster, c.autoRun, c.busy⟩

end Feyn
