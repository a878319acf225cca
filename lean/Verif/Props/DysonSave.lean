import Verif.Spec.DysonSave
import Verif.Props.System
import Mathlib.Tactic.Linarith
import Mathlib.Data.List.Nodup

/-!
# C95: saving and restarting in the Dyson part
-/

namespace Feyn

/-! ## Executions -/

theorem PyProc.run_append (p : PyProc) (a b : List PyStep) : p.run (a ++ b) = (p.run a).run b := by
  simp [PyProc.run, List.foldl_append]

theorem PyProc.run_cons (p : PyProc) (t : PyStep) (b : List PyStep) : p.run (t :: b) = (p.step t).run b := rfl

theorem PyProc.step_ended {p : PyProc} (h : p.ended.isSome) (t : PyStep) : p.step t = p := by
  unfold PyProc.step; rw [if_pos h]

theorem PyProc.run_ended {p : PyProc} (h : p.ended.isSome) (l : List PyStep) : p.run l = p := by
  induction l generalizing p with
  | nil => rfl
  | cons t l ih => rw [PyProc.run_cons, PyProc.step_ended h, ih h]

theorem PyProc.alive_of_run {p : PyProc} {l : List PyStep} (h : (p.run l).ended = none) : p.ended = none := by
  by_contra q
  have q' : p.ended.isSome := Option.isSome_iff_ne_none.2 q
  rw [PyProc.run_ended q'] at h
  exact q h

theorem Execution.append {a b l : List PyStep} (h : Execution (a ++ b) l) : ∃ l₁ l₂, l = l₁ ++ l₂ ∧ Execution a l₁ ∧ Execution b l₂ := by
  obtain ⟨l₁, l₂, h1, h2, h3⟩ := List.filter_eq_append_iff.1 h
  exact ⟨l₁, l₂, h1, h2, h3⟩

theorem Execution.cons {t : PyStep} {b l : List PyStep} (h : Execution (t :: b) l) :
    ∃ d l₂, l = d ++ t :: l₂ ∧ Execution [] d ∧ Execution b l₂ := by
  obtain ⟨d, l₂, h1, h2, h3, h4⟩ := List.filter_eq_cons_iff.1 h
  exact ⟨d, l₂, h1, List.filter_eq_nil_iff.2 h2, h4⟩

theorem arrived_append (a b : List PyStep) : arrived (a ++ b) = arrived a ++ arrived b := by simp [arrived]

theorem arrived_own {t : PyStep} (h : t.signal = none) (b : List PyStep) : arrived (t :: b) = arrived b := by
  simp [arrived, h]

/-- Only arrivals. -/
theorem Execution.nil_cases {d : List PyStep} (h : Execution [] d) : d = [] ∨ ∃ s d', d = .deliver s :: d' ∧ Execution [] d' := by
  cases d with
  | nil => exact Or.inl rfl
  | cons t d =>
    right
    have h1 := List.filter_eq_nil_iff.1 h
    have h2 := h1 t (by simp)
    cases t with
    | deliver s => exact ⟨s, d, rfl, List.filter_eq_nil_iff.2 fun x hx => h1 x (by simp [hx])⟩
    | _ => simp [PyStep.signal] at h2

/-! ## Handlers and files of a process that is alive -/

/-- The handlers, as own steps change them. -/
private def hstep (h : PyHandler × PyHandler × PyHandler × PyHandler) (t : PyStep) : PyHandler × PyHandler × PyHandler × PyHandler :=
  match t with
  | .getInt => (h.1, h.2.1, h.1, h.2.2.2)
  | .getTerm => (h.1, h.2.1, h.2.2.1, h.2.1)
  | .setInt => (.recorder, h.2.1, h.2.2.1, h.2.2.2)
  | .setTerm => (h.1, .recorder, h.2.2.1, h.2.2.2)
  | .restoreInt => (h.2.2.1, h.2.1, h.2.2.1, h.2.2.2)
  | .restoreTerm => (h.1, h.2.2.2, h.2.2.1, h.2.2.2)
  | _ => h

private def hs (p : PyProc) : PyHandler × PyHandler × PyHandler × PyHandler := (p.hInt, p.hTerm, p.oldInt, p.oldTerm)

private theorem hs_signalled (p : PyProc) (h : PyHandler) (s : Sig) : hs (p.signalled h s) = hs p := by cases h <;> rfl
private theorem hs_calls (p : PyProc) (h : PyHandler) (s : Sig) : hs (p.calls h s) = hs p := by cases h <;> rfl

private theorem hs_step {p : PyProc} (h : p.ended = none) (t : PyStep) : hs (p.step t) = hstep (hs p) t := by
  unfold PyProc.step
  rw [if_neg (by simp [h])]
  cases t with
  | deliver s => cases s <;> simp only [hs_signalled] <;> rfl
  | test =>
    simp only
    split
    · rw [hs_calls]; rfl
    · rfl
  | _ => rfl

private theorem hs_run {p : PyProc} {l : List PyStep} (h : (p.run l).ended = none) : hs (p.run l) = (l.filter fun t => t.signal.isNone).foldl hstep (hs p) := by
  induction l generalizing p with
  | nil => rfl
  | cons t l ih =>
    rw [PyProc.run_cons] at h ⊢
    have hp : p.ended = none := by
      by_contra q
      have q' : p.ended.isSome := Option.isSome_iff_ne_none.2 q
      rw [PyProc.step_ended q', PyProc.run_ended q'] at h
      exact q h
    rw [ih h, hs_step hp]
    cases t <;> simp [PyStep.signal, hstep]

/-- The calls among steps. -/
private def fileCalls (l : List PyStep) : List FCall := l.filterMap fun t => match t with | .file c => some c | _ => none

private theorem files_signalled (p : PyProc) (h : PyHandler) (s : Sig) : (p.signalled h s).files = p.files := by cases h <;> rfl
private theorem files_calls (p : PyProc) (h : PyHandler) (s : Sig) : (p.calls h s).files = p.files := by cases h <;> rfl

private theorem files_step {p : PyProc} (h : p.ended = none) (t : PyStep) : (p.step t).files = p.files.after (fileCalls [t]) := by
  unfold PyProc.step
  rw [if_neg (by simp [h])]
  cases t with
  | deliver s => cases s <;> simp only [files_signalled] <;> rfl
  | test =>
    simp only
    split
    · rw [files_calls]; rfl
    · rfl
  | _ => rfl

private theorem fileCalls_cons (t : PyStep) (l : List PyStep) : fileCalls (t :: l) = fileCalls [t] ++ fileCalls l := by
  cases t <;> rfl

private theorem fileCalls_map (b : List FCall) : fileCalls (b.map fun c => .file c) = b := by
  induction b with
  | nil => rfl
  | cons c b ih => rw [List.map_cons, fileCalls_cons, ih]; rfl

private theorem fileCalls_append (a b : List PyStep) : fileCalls (a ++ b) = fileCalls a ++ fileCalls b := by simp [fileCalls]

private theorem fileCalls_own (l : List PyStep) : fileCalls (l.filter fun t => t.signal.isNone) = fileCalls l := by
  induction l with
  | nil => rfl
  | cons t l ih =>
    rw [fileCalls_cons, ← ih]
    cases t <;> simp [PyStep.signal, fileCalls]

theorem Files.after_append (s : Files) (a b : List FCall) : s.after (a ++ b) = (s.after a).after b := by simp [Files.after, List.foldl_append]

/-- The files are those after a part of the calls, and after all of them if the process is alive. -/
private theorem files_run (p : PyProc) (l : List PyStep) : ∃ a, a <+: fileCalls l ∧ (p.run l).files = p.files.after a ∧
    ((p.run l).ended = none → a = fileCalls l) := by
  induction l generalizing p with
  | nil => exact ⟨[], List.prefix_rfl, rfl, fun _ => rfl⟩
  | cons t l ih =>
    rw [PyProc.run_cons]
    by_cases hp : p.ended = none
    · obtain ⟨a, h1, h2, h3⟩ := ih (p.step t)
      refine ⟨fileCalls [t] ++ a, ?_, ?_, ?_⟩
      · rw [fileCalls_cons t l]; exact (List.prefix_append_right_inj _).2 h1
      · rw [h2, files_step hp, ← Files.after_append]
      · intro h; rw [h3 h, fileCalls_cons t l]
    · have q' : p.ended.isSome := Option.isSome_iff_ne_none.2 hp
      rw [PyProc.step_ended q', PyProc.run_ended q']
      exact ⟨[], List.nil_prefix, rfl, fun h => absurd h hp⟩

private theorem files_quiet {p : PyProc} {l : List PyStep} (h : fileCalls l = []) : (p.run l).files = p.files := by
  obtain ⟨a, h1, h2, -⟩ := files_run p l
  rw [h, List.prefix_nil] at h1
  rw [h2, h1]; rfl

private theorem quiet_of {prog l : List PyStep} (h : Execution prog l) (hq : fileCalls prog = []) : fileCalls l = [] := by
  rw [← fileCalls_own, show (l.filter fun t => t.signal.isNone) = prog from h, hq]

/-- The body, with both handlers installed. -/
private theorem body_run {body : List FCall} {l : List PyStep} (h : Execution (body.map fun c => .file c) l) {p : PyProc} (ha : p.ended = none)
    (h1 : p.hInt = .recorder) (h2 : p.hTerm = .recorder) :
    p.run l = { p with files := p.files.after body, received := (arrived l).getLast?.or p.received } := by
  induction l generalizing p body with
  | nil =>
    have : body = [] := by
      have : (body.map fun c => PyStep.file c) = [] := h.symm
      simpa using this
    subst this
    cases p; rfl
  | cons t l ih =>
    rw [PyProc.run_cons]
    have hst : p.step t = match t with
      | .deliver .int => p.signalled p.hInt .int
      | .deliver .term => p.signalled p.hTerm .term
      | .file c => { p with files := c.run p.files }
      | t => p.step t := by
      cases t with
      | deliver s => cases s <;> simp [PyProc.step, ha]
      | file c => simp [PyProc.step, ha]
      | _ => rfl
    cases t with
    | deliver s =>
      have hl : Execution (body.map fun c => .file c) l := by
        unfold Execution at h ⊢
        rw [List.filter_cons_of_neg (by simp [PyStep.signal])] at h
        exact h
      have e : p.step (.deliver s) = { p with received := some s } := by
        rw [hst]; cases s <;> simp [PyProc.signalled, h1, h2]
      rw [e, ih (p := { p with received := some s }) hl ha h1 h2]
      have : arrived (.deliver s :: l) = s :: arrived l := by simp [arrived, PyStep.signal]
      rw [this, List.getLast?_cons]
      cases (arrived l).getLast? <;> simp
    | file c =>
      have hl : (PyStep.file c :: l.filter fun t => t.signal.isNone) = body.map fun c => .file c := by
        have := h
        unfold Execution at this
        rw [List.filter_cons_of_pos (by simp [PyStep.signal])] at this
        exact this
      cases body with
      | nil => simp at hl
      | cons c' body =>
        simp only [List.map_cons, List.cons.injEq, PyStep.file.injEq] at hl
        obtain ⟨rfl, hl⟩ := hl
        rw [hst]
        rw [ih (p := { p with files := c.run p.files }) hl ha h1 h2, arrived_own rfl]
        rfl
    | _ =>
      exfalso
      have := h
      unfold Execution at this
      rw [List.filter_cons_of_pos (by simp [PyStep.signal])] at this
      cases body <;> simp at this

private theorem after_enter {p : PyProc} {l : List PyStep} (h : Execution enterSteps l) (ha : (p.run l).ended = none) :
    (p.run l).hInt = .recorder ∧ (p.run l).hTerm = .recorder ∧ (p.run l).oldInt = p.hInt ∧ (p.run l).oldTerm = p.hTerm := by
  have := hs_run ha
  rw [show (l.filter fun t => t.signal.isNone) = enterSteps from h] at this
  simpa [hs, enterSteps, hstep] using this

/-! ## C95, signals -/

/-- **C95, all or nothing.** Whatever signals arrive at whatever moments, and whatever the handlers were: the calls inside of a `with DelayedInterrupt()` are all made, or none is made and the
process ends before. -/
theorem C95_all_or_nothing {body : List FCall} {l : List PyStep} (h : Execution (withDelayed body) l) (p : PyProc) :
    ((p.run l).files = p.files ∧ (p.run l).ended.isSome) ∨ (p.run l).files = p.files.after body := by
  obtain ⟨l₁₂, l₃, rfl, h12, h3⟩ := Execution.append h
  obtain ⟨l₁, l₂, rfl, h1, h2⟩ := Execution.append h12
  rw [PyProc.run_append, PyProc.run_append]
  have q1 : (p.run l₁).files = p.files := files_quiet (quiet_of h1 rfl)
  by_cases hA : (p.run l₁).ended = none
  · right
    obtain ⟨e1, e2, -, -⟩ := after_enter h1 hA
    rw [files_quiet (quiet_of h3 rfl), body_run h2 hA e1 e2]
    simp only [q1]
  · left
    have q' : (p.run l₁).ended.isSome := Option.isSome_iff_ne_none.2 hA
    rw [PyProc.run_ended q', PyProc.run_ended q']
    exact ⟨q1, q'⟩

/-- **C95, what is reported.** Signals that arrive while the body runs: the calls are made and both handlers restored. Without a signal the program goes on; otherwise the *last* signal is
passed to the handler of `SIGINT`, whichever signal it is. Missing for the full property, which is that every signal is handled by its own handler after the body: it is false, see
`C95_refuted_term`, `C95_refuted_background`. -/
theorem C95_reported_partial {body : List FCall} {b : List PyStep} (h : Execution (body.map fun c => .file c) b) (p : PyProc) (ha : p.ended = none)
    {r : PyProc} (hr : r = p.run (enterSteps ++ b ++ exitSteps)) :
    r.files = p.files.after body ∧ r.hInt = p.hInt ∧ r.hTerm = p.hTerm ∧
      (arrived b = [] → r.ended = none ∧ r.called = p.called) ∧
      ∀ s, (arrived b).getLast? = some s →
        (p.hInt = .keyboard → r.ended = some .keyboardInterrupt) ∧ (∀ i, p.hInt = .user i → r.ended = none ∧ r.called = p.called ++ [(i, s)]) ∧
        (p.hInt = .dfl ∨ p.hInt = .ign → r.ended = some .typeError) := by
  have e : p.run (enterSteps ++ b ++ exitSteps) =
      ({ p with hInt := .recorder, hTerm := .recorder, oldInt := p.hInt, oldTerm := p.hTerm, files := p.files.after body,
                received := (arrived b).getLast? } : PyProc).run exitSteps := by
    rw [PyProc.run_append, PyProc.run_append]
    have : p.run enterSteps = { p with hInt := .recorder, hTerm := .recorder, oldInt := p.hInt, oldTerm := p.hTerm, received := none } := by
      simp [PyProc.run, enterSteps, PyProc.step, ha]
    rw [this, body_run h (by exact ha) rfl rfl]
    simp
  rw [e] at hr
  cases hg : (arrived b).getLast? with
  | none =>
    have hn : arrived b = [] := List.getLast?_eq_none_iff.1 hg
    subst hr
    rw [hg]
    simp [PyProc.run, exitSteps, PyProc.step, ha]
  | some s =>
    have hn : arrived b ≠ [] := by intro q; rw [q] at hg; cases hg
    subst hr
    rw [hg]
    cases hh : p.hInt <;> simp [PyProc.run, exitSteps, PyProc.step, ha, PyProc.calls, hn]

/-- **C95, refuted.** A program with its own handlers 1 of `SIGINT` and 2 of `SIGTERM`: a `SIGTERM` during the body is given to handler 1, of a `SIGINT` and a `SIGTERM` only one is handled. -/
theorem C95_refuted_term (body : List FCall) (p : PyProc) (ha : p.ended = none) (h1 : p.hInt = .user 1) (h2 : p.hTerm = .user 2) (hc : p.called = []) :
    (p.run (enterSteps ++ (.deliver .term :: body.map fun c => .file c) ++ exitSteps)).called = [(1, .term)] ∧
      (p.run [.deliver .term]).called = [(2, .term)] ∧
      (p.run (enterSteps ++ (.deliver .int :: .deliver .term :: body.map fun c => .file c) ++ exitSteps)).called = [(1, .term)] := by
  have hb : ∀ pre : List PyStep, Execution [] pre → Execution (body.map fun c => .file c) (pre ++ body.map fun c => .file c) := by
    intro pre hpre
    unfold Execution at hpre ⊢
    rw [List.filter_append, hpre, List.nil_append, List.filter_eq_self]
    intro x hx
    obtain ⟨c, -, rfl⟩ := List.mem_map.1 hx
    rfl
  have hn : arrived (body.map fun c => PyStep.file c) = [] := by
    rw [arrived, List.filterMap_eq_nil_iff]
    intro x hx
    obtain ⟨c, -, rfl⟩ := List.mem_map.1 hx
    rfl
  refine ⟨?_, ?_, ?_⟩
  · obtain ⟨-, -, -, -, h⟩ := C95_reported_partial (hb [.deliver .term] rfl) p ha rfl
    have := ((h .term (by rw [arrived_append, hn]; rfl)).2.1 1 h1).2
    rw [hc] at this
    exact this
  · simp [PyProc.run, PyProc.step, ha, h2, PyProc.signalled, hc]
  · obtain ⟨-, -, -, -, h⟩ := C95_reported_partial (hb [.deliver .int, .deliver .term] rfl) p ha rfl
    have := ((h .term (by rw [arrived_append, hn]; rfl)).2.1 1 h1).2
    rw [hc] at this
    exact this

/-- **C95, refuted.** A process that ignores `SIGINT` (started in the background of a shell script) ends with `TypeError` after a `SIGTERM` during the body, instead of being terminated. -/
theorem C95_refuted_background {body : List FCall} {b : List PyStep} (h : Execution (body.map fun c => .file c) b) (p : PyProc) (ha : p.ended = none)
    (h1 : p.hInt = .ign) (hb : arrived b = [.term]) : (p.run (enterSteps ++ b ++ exitSteps)).ended = some .typeError := by
  obtain ⟨-, -, -, -, q⟩ := C95_reported_partial h p ha rfl
  exact (q .term (by rw [hb]; rfl)).2.2 (Or.inr h1)

/-- Calls outside of a `with` statement, with functions of the program installed or with signals that are ignored. -/
private theorem outside_run {body : List FCall} {l : List PyStep} (h : Execution (body.map fun c => .file c) l) {p : PyProc} (ha : p.ended = none) {f : Sig → List (ℕ × Sig)}
    (h1 : (p.hInt = .ign ∧ f .int = []) ∨ ∃ i, p.hInt = .user i ∧ f .int = [(i, .int)]) (h2 : (p.hTerm = .ign ∧ f .term = []) ∨ ∃ i, p.hTerm = .user i ∧ f .term = [(i, .term)]) :
    p.run l = { p with files := p.files.after body, called := p.called ++ (arrived l).flatMap f } := by
  induction l generalizing p body with
  | nil =>
    have : body = [] := by
      have : (body.map fun c => PyStep.file c) = [] := h.symm
      simpa using this
    subst this
    cases p
    simp [PyProc.run, Files.after, arrived]
  | cons t l ih =>
    rw [PyProc.run_cons]
    cases hs : t.signal with
    | some s =>
      obtain rfl : t = .deliver s := by cases t <;> simp_all [PyStep.signal]
      have hl : Execution (body.map fun c => .file c) l := by
        unfold Execution at h ⊢
        rw [List.filter_cons_of_neg (by simp [PyStep.signal])] at h
        exact h
      have e : p.step (.deliver s) = { p with called := p.called ++ f s } := by
        cases s
        · rcases h1 with ⟨a, b⟩ | ⟨i, a, b⟩ <;> cases p <;> dsimp only at ha a <;> subst ha a <;> simp [PyProc.step, PyProc.signalled, b]
        · rcases h2 with ⟨a, b⟩ | ⟨i, a, b⟩ <;> cases p <;> dsimp only at ha a <;> subst ha a <;> simp [PyProc.step, PyProc.signalled, b]
      rw [e, ih (p := { p with called := p.called ++ f s }) hl ha h1 h2]
      have : arrived (.deliver s :: l) = s :: arrived l := by simp [arrived, PyStep.signal]
      rw [this, List.flatMap_cons]
      simp
    | none =>
      have hh : t :: (l.filter fun t => t.signal.isNone) = body.map fun c => PyStep.file c := by
        unfold Execution at h
        rw [List.filter_cons_of_pos (by simp [hs])] at h
        exact h
      cases body with
      | nil => cases hh
      | cons c body =>
        rw [List.map_cons, List.cons.injEq] at hh
        obtain ⟨rfl, hl⟩ := hh
        have e : p.step (.file c) = { p with files := c.run p.files } := by cases p; dsimp only at ha; subst ha; rfl
        rw [e, ih (p := { p with files := c.run p.files }) hl ha h1 h2]
        rw [arrived_own rfl]
        rfl

/-- **C95**: outside of the `with` statement, an ignored signal has no effect, and a function of the program is called once for every arrival of its signal, in order; in both cases the calls
are made. -/
theorem C95_outside {body : List FCall} {b : List PyStep} (h : Execution (body.map fun c => .file c) b) (p : PyProc) (ha : p.ended = none) :
    (p.hInt = .ign → p.hTerm = .ign → p.run b = { p with files := p.files.after body }) ∧
    (∀ i j, p.hInt = .user i → p.hTerm = .user j →
      p.run b = { p with files := p.files.after body, called := p.called ++ (arrived b).map fun s => (if s = .int then i else j, s) }) := by
  refine ⟨fun h1 h2 => ?_, fun i j h1 h2 => ?_⟩
  · rw [outside_run h ha (f := fun _ => []) (.inl ⟨h1, rfl⟩) (.inl ⟨h2, rfl⟩)]
    simp
  · rw [outside_run h ha (f := fun s => [(if s = .int then i else j, s)]) (.inr ⟨i, h1, rfl⟩) (.inr ⟨j, h2, rfl⟩), ← List.map_eq_flatMap]

/-! ### No signal is lost -/

/-- The handlers of a plain process, or the recorder. -/
private structure Usual (p : PyProc) : Prop where
  int : p.hInt = .keyboard ∨ p.hInt = .recorder
  term : p.hTerm = .dfl ∨ p.hTerm = .recorder
  oldInt : p.oldInt = .keyboard
  oldTerm : p.oldTerm = .dfl

private theorem plain_quiet {p : PyProc} (h1 : p.hInt = .keyboard) (h2 : p.hTerm = .dfl) {d : List PyStep} (h : Execution [] d)
    (ha : (p.run d).ended = none) : d = [] := by
  rcases Execution.nil_cases h with rfl | ⟨s, d', rfl, -⟩
  · rfl
  · exfalso
    have hp := PyProc.alive_of_run ha
    rw [PyProc.run_cons] at ha
    have := PyProc.alive_of_run ha
    cases s <;> simp [PyProc.step, hp, h1, h2, PyProc.signalled] at this

private theorem usual_run {l : List PyStep} {p : PyProc} (hu : Usual p) (hl : ∀ t ∈ l, t ≠ .clear ∧ t ≠ .getInt ∧ t ≠ .getTerm ∧ t ≠ .test)
    (ha : (p.run l).ended = none) (hr : p.received.isSome ∨ arrived l ≠ []) : (p.run l).received.isSome := by
  induction l generalizing p with
  | nil => exact hr.resolve_right fun h => h rfl
  | cons t l ih =>
    have hp := PyProc.alive_of_run ha
    rw [PyProc.run_cons] at ha ⊢
    have hp1 := PyProc.alive_of_run ha
    have hl' : ∀ t ∈ l, t ≠ .clear ∧ t ≠ .getInt ∧ t ≠ .getTerm ∧ t ≠ .test := fun x hx => hl x (by simp [hx])
    have ht := hl t (by simp)
    obtain ⟨u1, u2, u3, u4⟩ := hu
    cases t with
    | deliver s =>
      cases s with
      | int =>
        rcases u1 with u1 | u1
        · simp [PyProc.step, hp, u1, PyProc.signalled] at hp1
        · have e : p.step (.deliver .int) = { p with received := some .int } := by simp [PyProc.step, hp, u1, PyProc.signalled]
          rw [e] at ha ⊢
          exact ih ⟨Or.inr u1, u2, u3, u4⟩ hl' ha (Or.inl rfl)
      | term =>
        rcases u2 with u2 | u2
        · simp [PyProc.step, hp, u2, PyProc.signalled] at hp1
        · have e : p.step (.deliver .term) = { p with received := some .term } := by simp [PyProc.step, hp, u2, PyProc.signalled]
          rw [e] at ha ⊢
          exact ih ⟨u1, Or.inr u2, u3, u4⟩ hl' ha (Or.inl rfl)
    | clear => exact absurd rfl ht.1
    | getInt => exact absurd rfl ht.2.1
    | getTerm => exact absurd rfl ht.2.2.1
    | test => exact absurd rfl ht.2.2.2
    | setInt =>
      rw [arrived_own rfl] at hr
      have e : p.step .setInt = { p with hInt := .recorder } := by simp [PyProc.step, hp]
      rw [e] at ha ⊢
      exact ih ⟨Or.inr rfl, u2, u3, u4⟩ hl' ha hr
    | setTerm =>
      rw [arrived_own rfl] at hr
      have e : p.step .setTerm = { p with hTerm := .recorder } := by simp [PyProc.step, hp]
      rw [e] at ha ⊢
      exact ih ⟨u1, Or.inr rfl, u3, u4⟩ hl' ha hr
    | file c =>
      rw [arrived_own rfl] at hr
      have e : p.step (.file c) = { p with files := c.run p.files } := by simp [PyProc.step, hp]
      rw [e] at ha ⊢
      exact ih ⟨u1, u2, u3, u4⟩ hl' ha hr
    | restoreInt =>
      rw [arrived_own rfl] at hr
      have e : p.step .restoreInt = { p with hInt := p.oldInt } := by simp [PyProc.step, hp]
      rw [e] at ha ⊢
      exact ih ⟨Or.inl u3, u2, u3, u4⟩ hl' ha hr
    | restoreTerm =>
      rw [arrived_own rfl] at hr
      have e : p.step .restoreTerm = { p with hTerm := p.oldTerm } := by simp [PyProc.step, hp]
      rw [e] at ha ⊢
      exact ih ⟨u1, Or.inl u4, u3, u4⟩ hl' ha hr

/-- The handlers after the block, if the process is alive. -/
private theorem delayed_handlers {body : List FCall} {l : List PyStep} (h : Execution (withDelayed body) l) {p : PyProc} (ha : (p.run l).ended = none) :
    (p.run l).hInt = p.hInt ∧ (p.run l).hTerm = p.hTerm := by
  have := hs_run ha
  rw [show (l.filter fun t => t.signal.isNone) = withDelayed body from h] at this
  have hb : ∀ (b : List FCall) (x), (b.map fun c => PyStep.file c).foldl hstep x = x := by
    intro b
    induction b with
    | nil => intro x; rfl
    | cons c b ih => intro x; rw [List.map_cons, List.foldl_cons]; exact ih _
  rw [withDelayed, List.foldl_append, List.foldl_append, hb] at this
  simp only [hs, enterSteps, exitSteps, hstep, List.foldl_cons, List.foldl_nil, Prod.mk.injEq] at this
  exact ⟨this.1, this.2.1⟩

/-- **C95, no signal is lost.** A signal that arrives in a plain process at any moment of the `with` statement, also while the handlers are changed, ends the process. -/
theorem C95_never_lost {body : List FCall} {l : List PyStep} (h : Execution (withDelayed body) l) {p : PyProc} (hp : p.Plain) (hs : arrived l ≠ []) :
    (p.run l).ended.isSome := by
  by_contra q
  have ha : (p.run l).ended = none := by
    cases e : (p.run l).ended with
    | none => rfl
    | some x => rw [e] at q; exact absurd rfl q
  apply hs
  have hH := delayed_handlers h ha
  obtain ⟨d0, l0, rfl, x0, h0⟩ := Execution.cons (t := .clear) h
  rw [PyProc.run_append] at ha
  have := plain_quiet hp.int hp.term x0 (PyProc.alive_of_run ha)
  subst this
  obtain ⟨d1, l1, rfl, x1, h1⟩ := Execution.cons (t := .getInt) h0
  have a0 := hp.alive
  have e1 : (p.run []).run (.clear :: (d1 ++ .getInt :: l1)) = (({ p with received := none } : PyProc).run d1).run (.getInt :: l1) := by
    rw [PyProc.run_cons, PyProc.run_append]
    congr 2
    simp [PyProc.run, PyProc.step, a0]
  rw [e1] at ha
  have := plain_quiet (p := { p with received := none }) hp.int hp.term x1 (PyProc.alive_of_run ha)
  subst this
  obtain ⟨d2, l2, rfl, x2, h2⟩ := Execution.cons (t := .getTerm) h1
  have e2 : (({ p with received := none } : PyProc).run []).run (.getInt :: (d2 ++ .getTerm :: l2)) =
      (({ p with received := none, oldInt := p.hInt } : PyProc).run d2).run (.getTerm :: l2) := by
    rw [PyProc.run_cons, PyProc.run_append]
    congr 2
    simp [PyProc.run, PyProc.step, a0]
  rw [e2] at ha
  have := plain_quiet (p := { p with received := none, oldInt := p.hInt }) hp.int hp.term x2 (PyProc.alive_of_run ha)
  subst this
  have e3 : (({ p with received := none, oldInt := p.hInt } : PyProc).run []).run (.getTerm :: l2) =
      ({ p with received := none, oldInt := p.hInt, oldTerm := p.hTerm } : PyProc).run l2 := by
    rw [PyProc.run_cons]
    congr 1
    simp [PyProc.run, PyProc.step, a0]
  rw [e3] at ha
  have hprog : Execution (([.setInt, .setTerm] ++ (body.map fun c => .file c) ++ [.restoreInt, .restoreTerm]) ++ [.test]) l2 := by
    have : ([.setInt, .setTerm] ++ (body.map fun c => PyStep.file c) ++ [.restoreInt, .restoreTerm]) ++ [.test] =
        ([.setInt, .setTerm] ++ (body.map fun c => PyStep.file c) ++ exitSteps) := by simp [exitSteps]
    rw [this]; exact h2
  obtain ⟨l3, l4, rfl, h3, h4⟩ := Execution.append hprog
  obtain ⟨d3, d4, rfl, x3, x4⟩ := Execution.cons h4
  have hu : Usual { p with received := none, oldInt := p.hInt, oldTerm := p.hTerm } := ⟨Or.inl hp.int, Or.inl hp.term, hp.int, hp.term⟩
  have hl : ∀ t ∈ l3 ++ d3, t ≠ .clear ∧ t ≠ .getInt ∧ t ≠ .getTerm ∧ t ≠ .test := by
    intro t ht
    by_cases hs' : t.signal.isNone
    · have hm : t ∈ (l3.filter fun t => t.signal.isNone) := by
        rcases List.mem_append.1 ht with ht | ht
        · exact List.mem_filter.2 ⟨ht, hs'⟩
        · exact absurd hs' (List.filter_eq_nil_iff.1 x3 t ht)
      rw [show (l3.filter fun t => t.signal.isNone) = _ from h3] at hm
      simp only [List.mem_append, List.mem_map, List.mem_cons, List.not_mem_nil, or_false] at hm
      rcases hm with ((rfl | rfl) | ⟨c, -, rfl⟩) | (rfl | rfl) <;> simp
    · refine ⟨?_, ?_, ?_, ?_⟩ <;> rintro rfl <;> exact hs' rfl
  rw [← List.append_assoc, PyProc.run_append] at ha
  have ha3 := PyProc.alive_of_run ha
  have hq : arrived (l3 ++ d3) = [] := by
    by_contra qq
    have hrec := usual_run hu hl ha3 (Or.inr qq)
    rw [PyProc.run_cons] at ha
    have hold : (({ p with received := none, oldInt := p.hInt, oldTerm := p.hTerm } : PyProc).run (l3 ++ d3)).oldInt = .keyboard := by
      have hh := hs_run ha3
      have hown : ((l3 ++ d3).filter fun t => t.signal.isNone) = [.setInt, .setTerm] ++ (body.map fun c => PyStep.file c) ++ [.restoreInt, .restoreTerm] := by
        rw [List.filter_append, show (l3.filter fun t => t.signal.isNone) = _ from h3, show (d3.filter fun t => t.signal.isNone) = _ from x3, List.append_nil]
      have hb : ∀ (b : List FCall) (x), (b.map fun c => PyStep.file c).foldl hstep x = x := by
        intro b
        induction b with
        | nil => intro x; rfl
        | cons c b ih => intro x; rw [List.map_cons, List.foldl_cons]; exact ih _
      rw [hown, List.foldl_append, List.foldl_append, hb] at hh
      simp only [Feyn.hs, hstep, List.foldl_cons, List.foldl_nil, Prod.mk.injEq] at hh
      rw [hh.2.2.1, hp.int]
    obtain ⟨s, hs'⟩ := Option.isSome_iff_exists.1 hrec
    have := PyProc.alive_of_run ha
    simp [PyProc.step, ha3, hs', hold, PyProc.calls] at this
  have hd4 : d4 = [] := by
    have e5 : ((p.run ([] ++ .clear :: ([] ++ .getInt :: ([] ++ .getTerm :: (l3 ++ (d3 ++ .test :: d4))))))) =
        (((({ p with received := none, oldInt := p.hInt, oldTerm := p.hTerm } : PyProc).run (l3 ++ d3)).step .test).run d4) := by
      rw [← PyProc.run_cons, ← PyProc.run_append, List.append_assoc]
      simp only [List.nil_append, PyProc.run_cons]
      congr 1
      simp [PyProc.step, a0]
    have hhs : ((({ p with received := none, oldInt := p.hInt, oldTerm := p.hTerm } : PyProc).run (l3 ++ d3)).step .test).hInt = .keyboard ∧
        ((({ p with received := none, oldInt := p.hInt, oldTerm := p.hTerm } : PyProc).run (l3 ++ d3)).step .test).hTerm = .dfl := by
      rw [e5] at hH
      rw [PyProc.run_cons] at ha
      have k := hs_run ha
      rw [show (d4.filter fun t => t.signal.isNone) = _ from x4, List.foldl_nil] at k
      have k1 := congrArg (fun x => x.1) k
      have k2 := congrArg (fun x => x.2.1) k
      simp only [Feyn.hs] at k1 k2
      rw [← k1, ← k2, hH.1, hH.2]
      exact ⟨hp.int, hp.term⟩
    rw [PyProc.run_cons] at ha
    exact plain_quiet hhs.1 hhs.2 x4 ha
  subst hd4
  have : arrived ([] ++ PyStep.clear :: ([] ++ PyStep.getInt :: ([] ++ PyStep.getTerm :: (l3 ++ (d3 ++ PyStep.test :: []))))) = arrived (l3 ++ d3) := by
    simp only [List.nil_append, arrived_own (t := PyStep.clear) rfl, arrived_own (t := PyStep.getInt) rfl, arrived_own (t := PyStep.getTerm) rfl,
      arrived_append, arrived_own (t := PyStep.test) rfl]
    simp [arrived]
  rw [this, hq]

/-- A process that saves a file of weights while a `SIGINT` arrives between the two handlers and a `SIGTERM` during the body: everything is written, then the process ends. -/
example (s : Files) : ∃ l, Execution (withDelayed (saveBig "w" [1, 2])) l ∧ arrived l = [.int, .term] ∧
    ((⟨.keyboard, .dfl, none, .ign, .ign, [], none, s⟩ : PyProc).run l).files "w" = some [1, 2] ∧
    ((⟨.keyboard, .dfl, none, .ign, .ign, [], none, s⟩ : PyProc).run l).ended = some .keyboardInterrupt :=
  ⟨[.clear, .getInt, .getTerm, .setInt, .deliver .int, .setTerm, .file (.create "_w"), .file (.write "_w" 1), .deliver .term, .file (.write "_w" 2),
    .file (.rename "_w" "w"), .restoreInt, .restoreTerm, .test], by unfold Execution; decide +kernel, by decide +kernel,
    by simp [PyProc.run, PyProc.step, PyProc.signalled, PyProc.calls, FCall.run, Function.update],
    by simp [PyProc.run, PyProc.step, PyProc.signalled, PyProc.calls]⟩

/-! ## Files -/

theorem crashAfter_append (k : ℕ) (a b : List FCall) (s : Files) : crashAfter k (a ++ b) s = crashAfter (k - a.length) b (crashAfter k a s) := by
  simp [crashAfter, List.take_append, List.foldl_append]

theorem crashAfter_full {k : ℕ} {a : List FCall} (h : a.length ≤ k) (s : Files) : crashAfter k a s = s.after a := by
  rw [crashAfter, List.take_of_length_le h]; rfl

theorem crashAfter_zero (a : List FCall) (s : Files) : crashAfter 0 a s = s := rfl

/-- A small file during its save. -/
theorem crashAfter_small (k : ℕ) (f : String) (d : List ℕ) (s : Files) :
    (crashAfter k (saveSmall f d) s f = if k = 0 then s f else some (d.take (k - 1))) ∧ ∀ g, g ≠ f → crashAfter k (saveSmall f d) s g = s g := by
  constructor
  · cases k with
    | zero => rfl
    | succ k =>
      have := run_writes f (d.take k) [] (FCall.run s (.create f)) (by simp [FCall.run])
      simpa [crashAfter, saveSmall, List.map_take] using this
  · intro g hg
    refine run_tmp f _ s (fun c hc => ?_) g hg
    have := List.mem_of_mem_take hc
    rcases List.mem_cons.1 this with rfl | h
    · exact Or.inr rfl
    · obtain ⟨b, -, rfl⟩ := List.mem_map.1 h
      exact Or.inl ⟨b, rfl⟩

theorem after_small (f : String) (d : List ℕ) (s : Files) : s.after (saveSmall f d) f = some d ∧ ∀ g, g ≠ f → s.after (saveSmall f d) g = s g := by
  obtain ⟨h1, h2⟩ := crashAfter_small (d.length + 1) f d s
  rw [crashAfter_full (by simp [saveSmall])] at h1
  refine ⟨by simpa using h1, fun g hg => ?_⟩
  have := h2 g hg
  rwa [crashAfter_full (by simp [saveSmall])] at this

theorem after_big (f : String) (d : List ℕ) (s : Files) : s.after (saveBig f d) f = some d ∧ ∀ g, g ≠ f → g ≠ "_" ++ f → s.after (saveBig f d) g = s g := by
  obtain ⟨-, h1, h2⟩ := C49_atomic f d s (d.length + 2)
  rw [crashAfter_full (by simp [saveBig])] at h1 h2
  exact ⟨h1 le_rfl, h2⟩

private theorem distinct_facts {n : DysonNames} (h : n.Distinct) :
    (n.weight ≠ n.para ∧ n.weight ≠ n.output ∧ n.weight ≠ n.message) ∧ (n.para ≠ "_" ++ n.weight ∧ n.output ≠ "_" ++ n.weight ∧ n.message ≠ "_" ++ n.weight) ∧
      n.para ≠ n.output ∧ n.para ≠ n.message ∧ n.output ≠ n.message := by
  unfold DysonNames.Distinct at h
  simp only [List.nodup_cons, List.mem_cons, List.not_mem_nil, or_false, not_or] at h
  obtain ⟨⟨-, a2, a3, a4⟩, ⟨b1, b2, b3⟩, ⟨c1, c2⟩, d1, -⟩ := h
  exact ⟨⟨b1, b2, b3⟩, ⟨fun q => a2 q.symm, fun q => a3 q.symm, fun q => a4 q.symm⟩, c1, c2, d1⟩

private theorem holds_measure {n : DysonNames} (h : n.Distinct) (x : DysonData) (s : Files) : HoldsVersion n x (s.after (measureCalls n x)) := by
  obtain ⟨⟨h1, h2, h3⟩, ⟨h4, h5, h6⟩, h7, h8, h9⟩ := distinct_facts h
  unfold measureCalls
  rw [Files.after_append, Files.after_append]
  refine ⟨?_, ?_, ?_⟩
  · rw [(after_small _ _ _).2 _ h2, (after_small _ _ _).2 _ h1, (after_big _ _ _).1]
  · rw [(after_small _ _ _).2 _ h7, (after_small _ _ _).1]
  · rw [(after_small _ _ _).1]

private theorem same_message {n : DysonNames} (h : n.Distinct) {a : List FCall} {x : DysonData} (ha : a <+: saveSmall n.message x.message) (s : Files) :
    SameResults n (s.after a) s := by
  obtain ⟨⟨h1, h2, h3⟩, ⟨h4, h5, h6⟩, h7, h8, h9⟩ := distinct_facts h
  have e : s.after a = crashAfter a.length (saveSmall n.message x.message) s := by
    rw [crashAfter, List.prefix_iff_eq_take.1 ha |>.symm]; rfl
  rw [e]
  exact ⟨(crashAfter_small _ _ _ _).2 _ h3, (crashAfter_small _ _ _ _).2 _ h8, (crashAfter_small _ _ _ _).2 _ h9⟩

/-- **C95, a version is saved.** After its calls the files are those of this version, whatever they were. -/
theorem C95_version {n : DysonNames} (h : n.Distinct) (x : DysonData) (s : Files) :
    HoldsVersion n x (s.after (versionCalls n x)) ∧ s.after (versionCalls n x) n.message = some x.message := by
  unfold versionCalls
  rw [Files.after_append]
  have h1 := holds_measure h x s
  obtain ⟨q1, q2, q3⟩ := same_message h (List.prefix_rfl (l := saveSmall n.message x.message)) (s.after (measureCalls n x))
  exact ⟨⟨q1.trans h1.weight, q2.trans h1.para, q3.trans h1.output⟩, (after_small _ _ _).1⟩

private theorem HoldsVersion.of_same {n : DysonNames} {x : DysonData} {s t : Files} (h : SameResults n s t) (ht : HoldsVersion n x t) : HoldsVersion n x s :=
  ⟨h.1.trans ht.weight, h.2.1.trans ht.para, h.2.2.trans ht.output⟩

/-- Messages are files only. -/
private theorem message_run {c : List FCall} {l : List PyStep} (h : Execution (c.map fun c => .file c) l) (p : PyProc) :
    (∃ a, a <+: c ∧ (p.run l).files = p.files.after a ∧ ((p.run l).ended = none → a = c)) ∧
      ((p.run l).ended = none → (p.run l).hInt = p.hInt ∧ (p.run l).hTerm = p.hTerm) := by
  constructor
  · have := files_run p l
    rwa [← fileCalls_own l, show (l.filter fun t => t.signal.isNone) = _ from h, fileCalls_map] at this
  · intro ha
    have k := hs_run ha
    have hb : ∀ (b : List FCall) (x), (b.map fun c => PyStep.file c).foldl hstep x = x := by
      intro b
      induction b with
      | nil => intro x; rfl
      | cons c b ih => intro x; rw [List.map_cons, List.foldl_cons]; exact ih _
    rw [show (l.filter fun t => t.signal.isNone) = _ from h, hb] at k
    exact ⟨congrArg (fun x => x.1) k, congrArg (fun x => x.2.1) k⟩

/-- In a plain process any arrival while only files are written ends it. -/
private theorem plain_files {c : List FCall} {l : List PyStep} (h : Execution (c.map fun c => .file c) l) {p : PyProc} (h1 : p.hInt = .keyboard) (h2 : p.hTerm = .dfl)
    (ha : (p.run l).ended = none) : arrived l = [] := by
  induction l generalizing p c with
  | nil => rfl
  | cons t l ih =>
    have hp := PyProc.alive_of_run ha
    rw [PyProc.run_cons] at ha
    have hp1 := PyProc.alive_of_run ha
    have hst := hs_step hp t
    cases t with
    | deliver s => cases s <;> simp [PyProc.step, hp, h1, h2, PyProc.signalled] at hp1
    | file d =>
      rw [arrived_own rfl]
      unfold Execution at h
      rw [List.filter_cons_of_pos (by simp [PyStep.signal])] at h
      cases c with
      | nil => simp at h
      | cons c' c =>
        rw [List.map_cons] at h
        simp only [List.cons.injEq, PyStep.file.injEq] at h
        have e : p.step (.file d) = { p with files := d.run p.files } := by simp [PyProc.step, hp]
        rw [e] at ha
        exact ih (p := { p with files := d.run p.files }) (c := c) h.2 h1 h2 ha
    | _ =>
      exfalso
      unfold Execution at h
      rw [List.filter_cons_of_pos (by simp [PyStep.signal])] at h
      cases c <;> simp at h

private theorem plain_alive {body : List FCall} {l : List PyStep} (h : Execution (withDelayed body) l) {p : PyProc} (hp : p.Plain) (ha : arrived l = []) :
    (p.run l).ended = none := by
  have hl : l = withDelayed body := by
    rw [← show (l.filter fun t => t.signal.isNone) = withDelayed body from h, eq_comm, List.filter_eq_self]
    intro t ht
    have := List.filterMap_eq_nil_iff.1 ha t ht
    rw [this]; rfl
  have hb : Execution (body.map fun c => .file c) (body.map fun c => .file c) := by
    unfold Execution
    rw [List.filter_eq_self]
    intro t ht
    obtain ⟨c, -, rfl⟩ := List.mem_map.1 ht
    rfl
  have hn : arrived (body.map fun c => PyStep.file c) = [] := by
    rw [arrived, List.filterMap_eq_nil_iff]
    intro x hx
    obtain ⟨c, -, rfl⟩ := List.mem_map.1 hx
    rfl
  obtain ⟨-, -, -, q, -⟩ := C95_reported_partial hb p hp.alive rfl
  rw [hl]
  exact (q hn).1

private theorem files_alive {c : List FCall} {l : List PyStep} (h : Execution (c.map fun c => .file c) l) {p : PyProc} (hp : p.ended = none) (ha : arrived l = []) :
    (p.run l).ended = none := by
  induction l generalizing p c with
  | nil => exact hp
  | cons t l ih =>
    rw [PyProc.run_cons]
    cases t with
    | deliver s => simp [arrived, PyStep.signal] at ha
    | file d =>
      rw [arrived_own rfl] at ha
      unfold Execution at h
      rw [List.filter_cons_of_pos (by simp [PyStep.signal])] at h
      cases c with
      | nil => simp at h
      | cons c' c =>
        rw [List.map_cons] at h
        simp only [List.cons.injEq, PyStep.file.injEq] at h
        have e : p.step (.file d) = { p with files := d.run p.files } := by simp [PyProc.step, hp]
        rw [e]
        exact ih (p := { p with files := d.run p.files }) (c := c) h.2 hp ha
    | _ =>
      exfalso
      unfold Execution at h
      rw [List.filter_cons_of_pos (by simp [PyStep.signal])] at h
      cases c <;> simp at h

/-- **C95, signals never mix versions.** A plain process calculates any number of versions, and signals arrive at any moments. The files of weights, parameters and observables are all those
of one version, or as they were before; if no signal arrives they are those of the last version and the process is alive, otherwise it has ended. -/
theorem C95_signals {n : DysonNames} (hn : n.Distinct) (xs : List DysonData) {l : List PyStep} (h : Execution (xs.flatMap (versionSteps n)) l) {p : PyProc} (hp : p.Plain) :
    (∃ j ≤ xs.length, (j = 0 → SameResults n (p.run l).files p.files) ∧ (∀ x, 0 < j → xs[j - 1]? = some x → HoldsVersion n x (p.run l).files) ∧
      (arrived l = [] → j = xs.length)) ∧ ((p.run l).ended = none ↔ arrived l = []) := by
  induction xs generalizing p l with
  | nil =>
    have hl : Execution [] l := h
    refine ⟨⟨0, le_rfl, fun _ => ?_, fun x hx => absurd hx (lt_irrefl 0), fun _ => rfl⟩, ?_⟩
    · rw [files_quiet (quiet_of hl rfl)]; exact ⟨rfl, rfl, rfl⟩
    · constructor
      · intro ha; rw [plain_quiet hp.int hp.term hl ha]; rfl
      · intro ha
        rcases Execution.nil_cases hl with rfl | ⟨s, d, rfl, -⟩
        · exact hp.alive
        · simp [arrived, PyStep.signal] at ha
  | cons x xs ih =>
    rw [List.flatMap_cons] at h
    obtain ⟨l₁, l₂, rfl, h1, h2⟩ := Execution.append h
    obtain ⟨l₃, l₄, rfl, h3, h4⟩ := Execution.append h1
    rw [PyProc.run_append, PyProc.run_append]
    have hall := C95_all_or_nothing h3 p
    by_cases a3 : (p.run l₃).ended = none
    · have e3 : (p.run l₃).files = p.files.after (measureCalls n x) := by
        rcases hall with ⟨-, q⟩ | q
        · rw [a3] at q; cases q
        · exact q
      have hv := holds_measure hn x p.files
      rw [← e3] at hv
      have q3 : arrived l₃ = [] := by
        by_contra q
        have := C95_never_lost h3 hp q
        rw [a3] at this; cases this
      obtain ⟨k1, k2⟩ := delayed_handlers h3 a3
      obtain ⟨⟨a, m1, m2, m3⟩, m4⟩ := message_run h4 (p.run l₃)
      have hs4 : SameResults n ((p.run l₃).run l₄).files (p.run l₃).files := by rw [m2]; exact same_message hn m1 _
      have hv4 : HoldsVersion n x ((p.run l₃).run l₄).files := HoldsVersion.of_same hs4 hv
      by_cases a4 : ((p.run l₃).run l₄).ended = none
      · obtain ⟨k3, k4⟩ := m4 a4
        have q4 : arrived l₄ = [] := plain_files h4 (k1.trans hp.int) (k2.trans hp.term) a4
        obtain ⟨⟨j, j1, j2, j3, j4⟩, j5⟩ := ih h2 (p := (p.run l₃).run l₄) ⟨k3.trans (k1.trans hp.int), k4.trans (k2.trans hp.term), a4⟩
        have hq : arrived (l₃ ++ l₄ ++ l₂) = arrived l₂ := by rw [arrived_append, arrived_append, q3, q4]; rfl
        refine ⟨⟨j + 1, by simp; omega, fun q => by omega, ?_, ?_⟩, ?_⟩
        · intro y _ hy
          rcases Nat.eq_zero_or_pos j with rfl | hj
          · simp only [zero_add, Nat.sub_self, List.getElem?_cons_zero, Option.some.injEq] at hy
            subst hy
            exact HoldsVersion.of_same (j2 rfl) hv4
          · refine j3 y hj ?_
            obtain ⟨i, rfl⟩ := Nat.exists_eq_succ_of_ne_zero hj.ne'
            simpa using hy
        · rw [hq]; intro q; rw [j4 q]; rfl
        · rw [hq]; exact j5
      · have e4 : ((p.run l₃).run l₄).ended.isSome := Option.isSome_iff_ne_none.2 a4
        rw [PyProc.run_ended e4]
        have q4 : arrived l₄ ≠ [] := fun q => a4 (files_alive h4 a3 q)
        have hq : arrived (l₃ ++ l₄ ++ l₂) ≠ [] := by rw [arrived_append, arrived_append]; simp [q4]
        refine ⟨⟨1, by simp, fun q => by omega, ?_, fun q => absurd q hq⟩, ⟨fun q => absurd q a4, fun q => absurd q hq⟩⟩
        intro y _ hy
        simp only [Nat.sub_self, List.getElem?_cons_zero, Option.some.injEq] at hy
        subst hy; exact hv4
    · have e3 : (p.run l₃).ended.isSome := Option.isSome_iff_ne_none.2 a3
      rw [PyProc.run_ended e3, PyProc.run_ended e3]
      have q3 : arrived l₃ ≠ [] := fun q => a3 (plain_alive h3 hp q)
      have hq : arrived (l₃ ++ l₄ ++ l₂) ≠ [] := by rw [arrived_append, arrived_append]; simp [q3]
      rcases hall with ⟨q, -⟩ | q
      · exact ⟨⟨0, by simp, fun _ => by rw [q]; exact ⟨rfl, rfl, rfl⟩, fun y hy => absurd hy (lt_irrefl 0), fun q => absurd q hq⟩,
          ⟨fun q => absurd q a3, fun q => absurd q hq⟩⟩
      · have hv := holds_measure hn x p.files
        rw [← q] at hv
        refine ⟨⟨1, by simp, fun q => by omega, ?_, fun q => absurd q hq⟩, ⟨fun q => absurd q a3, fun q => absurd q hq⟩⟩
        intro y _ hy
        simp only [Nat.sub_self, List.getElem?_cons_zero, Option.some.injEq] at hy
        subst hy; exact hv

/-! ## Crashes and restarts -/

private theorem crash_version {n : DysonNames} (hn : n.Distinct) (x : DysonData) (s : Files) (k : ℕ) :
    (crashAfter k (versionCalls n x) s n.weight = s n.weight ∧ crashAfter k (versionCalls n x) s n.para = s n.para) ∨
      (crashAfter k (versionCalls n x) s n.weight = some x.weight ∧
        (crashAfter k (versionCalls n x) s n.para = s n.para ∨ ∃ t, t <+: x.para ∧ crashAfter k (versionCalls n x) s n.para = some t)) := by
  obtain ⟨⟨h1, h2, h3⟩, ⟨h4, h5, h6⟩, h7, h8, h9⟩ := distinct_facts hn
  unfold versionCalls measureCalls
  rw [crashAfter_append, crashAfter_append, crashAfter_append]
  rw [(crashAfter_small _ _ _ _).2 _ h3, (crashAfter_small _ _ _ _).2 _ h2, (crashAfter_small _ _ _ _).2 _ h1,
    (crashAfter_small _ _ _ _).2 _ h8, (crashAfter_small _ _ _ _).2 _ h7, (crashAfter_small _ _ _ _).1]
  obtain ⟨b1, b2, b3⟩ := C49_atomic n.weight x.weight s k
  have b4 := b3 n.para h1.symm h4
  by_cases hk : k - (saveBig n.weight x.weight).length = 0
  · rw [if_pos hk, b4]
    rcases b1 with b1 | b1
    · exact Or.inl ⟨b1, rfl⟩
    · exact Or.inr ⟨b1, Or.inl rfl⟩
  · rw [if_neg hk]
    refine Or.inr ⟨b2 ?_, Or.inr ⟨_, List.take_prefix _ _, rfl⟩⟩
    simp [saveBig] at hk
    omega

/-- **C95, after a crash.** A process dies (`SIGKILL`, power) after any number of calls in any number of versions. The weights are those of before or, complete, those of one of the versions; in
the latter case the file of parameters is that of the same version, that of the version before (for the first version: what was there), or a part of the file of the same version. -/
theorem C95_crash {n : DysonNames} (hn : n.Distinct) (xs : List DysonData) (s : Files) (k : ℕ) {s' : Files} (hs : s' = crashAfter k (xs.flatMap (versionCalls n)) s) :
    (s' n.weight = s n.weight ∧ s' n.para = s n.para) ∨
      ∃ pre x post, xs = pre ++ x :: post ∧ s' n.weight = some x.weight ∧
        (s' n.para = (match pre.getLast? with | some y => some y.para | none => s n.para) ∨ ∃ t, t <+: x.para ∧ s' n.para = some t) := by
  subst hs
  induction xs generalizing s k with
  | nil => left; simp [crashAfter]
  | cons x xs ih =>
    rw [List.flatMap_cons, crashAfter_append]
    rcases Nat.lt_or_ge k (versionCalls n x).length with hk | hk
    · rw [Nat.sub_eq_zero_of_le hk.le, crashAfter_zero]
      rcases crash_version hn x s k with q | ⟨q1, q2⟩
      · exact Or.inl q
      · exact Or.inr ⟨[], x, xs, rfl, q1, q2⟩
    · right
      rw [crashAfter_full hk]
      obtain ⟨hv, -⟩ := C95_version hn x s
      rcases ih (s.after (versionCalls n x)) (k - (versionCalls n x).length) with ⟨q1, q2⟩ | ⟨pre, y, post, rfl, q1, q2⟩
      · exact ⟨[], x, xs, rfl, q1.trans hv.weight, Or.inr ⟨x.para, List.prefix_rfl, q2.trans hv.para⟩⟩
      · refine ⟨x :: pre, y, post, rfl, q1, ?_⟩
        rcases q2 with q2 | q2
        · left
          rw [q2, List.getLast?_cons]
          cases pre.getLast? with
          | none => exact hv.para
          | some z => rfl
        · exact Or.inr q2

/-- **C95, restart after a crash.** A new calculation dies after any number of calls. The next process begins anew, or it loads the complete weights of one of the versions, with the parameters
of this version, of the version before, or of the input file. -/
theorem C95_restart {A : Type} {parse : List ℕ → Option A} {text : List ℕ} {input : A} {n : DysonNames} (hn : n.Distinct) (xs : List DysonData) (a : DysonData → A)
    (hparse : ∀ x ∈ xs, Understands parse x.para (a x)) (s : Files) (h1 : s n.weight = none) (h2 : s n.para = none) (k : ℕ) {r : Option (List ℕ) × A}
    (hr : r = (dysonStart parse text input n (crashAfter k (xs.flatMap (versionCalls n)) s)).2) :
    r = (none, input) ∨ ∃ pre x post, xs = pre ++ x :: post ∧ r.1 = some x.weight ∧ (r.2 = a x ∨ (∃ y, pre.getLast? = some y ∧ r.2 = a y) ∨ r.2 = input) := by
  subst hr
  rcases C95_crash hn xs s k rfl with ⟨q1, q2⟩ | ⟨pre, x, post, e, q1, q2⟩
  · left
    unfold dysonStart
    rw [q1, h1]
  · right
    refine ⟨pre, x, post, e, ?_, ?_⟩
    · unfold dysonStart
      rw [q1]
      simp only
      split <;> rfl
    · unfold dysonStart
      rw [q1]
      simp only
      rcases q2 with q2 | ⟨t, ht, q2⟩
      · rw [q2]
        cases hl : pre.getLast? with
        | none => rw [h2]; exact Or.inr (Or.inr rfl)
        | some y =>
          have hy : y ∈ xs := by rw [e]; exact List.mem_append_left _ (List.mem_of_getLast? hl)
          refine Or.inr (Or.inl ⟨y, rfl, ?_⟩)
          simp only [Option.bind_some, (hparse y hy).1]
      · rw [q2]
        have hx := hparse x (by rw [e]; simp)
        by_cases htx : t = x.para
        · subst htx
          left
          simp only [Option.bind_some, hx.1]
        · right; right
          simp only [Option.bind_some, hx.2 t ht htx]

/-- **C95, refuted: crash while the parameters are saved.** After any number of versions there is a moment at which a crash makes the next process go on with the weights of the last version and
the parameters of the input file, whose `Version` begins again; the message of the version before is still there. A Monte Carlo process that has seen it ignores the messages of the restarted
process until `Version` has passed the old one (`C35_stale`). -/
theorem C95_refuted_crash {A : Type} {parse : List ℕ → Option A} {text : List ℕ} {input : A} {n : DysonNames} (hn : n.Distinct) (pre : List DysonData) (x : DysonData) {a : A}
    (hx : Understands parse x.para a) (hne : x.para ≠ []) (s : Files) :
    ∃ k, (dysonStart parse text input n (crashAfter k ((pre ++ [x]).flatMap (versionCalls n)) s)).2 = (some x.weight, input) ∧
      (∀ y, pre.getLast? = some y → crashAfter k ((pre ++ [x]).flatMap (versionCalls n)) s n.message = some y.message) := by
  obtain ⟨⟨h1, h2, h3⟩, ⟨h4, h5, h6⟩, h7, h8, h9⟩ := distinct_facts hn
  refine ⟨(pre.flatMap (versionCalls n)).length + ((saveBig n.weight x.weight).length + 1), ?_⟩
  have e : crashAfter ((pre.flatMap (versionCalls n)).length + ((saveBig n.weight x.weight).length + 1)) ((pre ++ [x]).flatMap (versionCalls n)) s =
      crashAfter 1 (saveSmall n.para x.para) ((s.after (pre.flatMap (versionCalls n))).after (saveBig n.weight x.weight)) := by
    rw [List.flatMap_append, crashAfter_append, Nat.add_sub_cancel_left, crashAfter_full (a := pre.flatMap (versionCalls n)) (by omega)]
    simp only [List.flatMap_cons, List.flatMap_nil, List.append_nil, versionCalls, measureCalls]
    rw [List.append_assoc, List.append_assoc, crashAfter_append, Nat.add_sub_cancel_left, crashAfter_full (a := saveBig n.weight x.weight) (by omega), crashAfter_append]
    have : 1 - (saveSmall n.para x.para).length = 0 := by simp [saveSmall]
    rw [this, crashAfter_zero]
  rw [e]
  constructor
  · have hw : crashAfter 1 (saveSmall n.para x.para) ((s.after (pre.flatMap (versionCalls n))).after (saveBig n.weight x.weight)) n.weight = some x.weight := by
      rw [(crashAfter_small _ _ _ _).2 _ h1, (after_big _ _ _).1]
    have hp : crashAfter 1 (saveSmall n.para x.para) ((s.after (pre.flatMap (versionCalls n))).after (saveBig n.weight x.weight)) n.para = some [] := by
      rw [(crashAfter_small _ _ _ _).1]; simp
    unfold dysonStart
    rw [hw, hp]
    simp only [Option.bind_some, hx.2 [] List.nil_prefix hne.symm]
  · intro y hy
    rw [(crashAfter_small _ _ _ _).2 _ h8.symm, (after_big _ _ _).2 _ h3.symm h6]
    obtain ⟨pre', rfl⟩ : ∃ pre', pre = pre' ++ [y] := by
      obtain ⟨pre', hp⟩ := List.getLast?_eq_some_iff.1 hy
      exact ⟨pre', hp⟩
    rw [List.flatMap_append, Files.after_append]
    simp only [List.flatMap_cons, List.flatMap_nil, List.append_nil]
    exact (C95_version hn y _).2

/-- **C95, weights survive everything.** However many processes are started and die after whatever number of calls, the file of weights is missing or complete: the weights of one of the versions
that were calculated. -/
theorem C95_weights_intact {A : Type} {parse : List ℕ → Option A} {text : List ℕ} {input : A} {n : DysonNames} (hn : n.Distinct) {ws : List (List ℕ)} {s : Files}
    (h : DysonLives parse text input n ws s) : s n.weight = none ∨ ∃ w ∈ ws, s n.weight = some w := by
  obtain ⟨⟨h1, h2, h3⟩, ⟨h4, h5, h6⟩, h7, h8, h9⟩ := distinct_facts hn
  induction h with
  | new s hs => exact Or.inl hs
  | @life ws s xs k _ ih =>
    rw [crashAfter_append]
    have e : crashAfter k (dysonStart parse text input n s).1 s n.weight = s n.weight := by
      unfold dysonStart
      split
      · simp [crashAfter]
      · split
        · simp [crashAfter]
        · exact (crashAfter_small _ _ _ _).2 _ h1
    rcases C95_crash hn xs (crashAfter k (dysonStart parse text input n s).1 s) (k - (dysonStart parse text input n s).1.length) rfl with
      ⟨q1, -⟩ | ⟨pre, x, post, rfl, q1, -⟩
    · rw [q1, e]
      rcases ih with ih | ⟨w, hw, ih⟩
      · exact Or.inl ih
      · exact Or.inr ⟨w, List.mem_append_left _ hw, ih⟩
    · exact Or.inr ⟨x.weight, by simp, q1⟩

/-! ## The history of the observables -/

private theorem history_measure {V : Type} (m : List (String × V)) (h : ObsHistory V) (name : String) :
    m.foldl ObsHistory.append h name = h name ++ (m.filter fun x => x.1 = name).map fun x => x.2 := by
  induction m generalizing h with
  | nil => simp
  | cons x m ih =>
    rw [List.foldl_cons, ih]
    by_cases hx : x.1 = name
    · subst hx; simp [ObsHistory.append]
    · rw [List.filter_cons_of_neg (by simpa using hx), ObsHistory.append, Function.update_of_ne (fun q => hx q.symm)]

private theorem history_all {V : Type} (ms : List (List (String × V))) (h : ObsHistory V) (name : String) :
    (ms.foldl (fun h m => m.foldl ObsHistory.append h) h) name = h name ++ ms.flatMap fun m => (m.filter fun x => x.1 = name).map fun x => x.2 := by
  induction ms generalizing h with
  | nil => simp
  | cons m ms ih => rw [List.foldl_cons, ih, history_measure, List.flatMap_cons, List.append_assoc]

/-- **C95, history.** The list of an observable has its values in the order of the measurements of this process. -/
theorem C95_history {V : Type} (ms : List (List (String × V))) (name : String) :
    obsHistory ms name = ms.flatMap fun m => (m.filter fun x => x.1 = name).map fun x => x.2 := by
  rw [obsHistory, history_all, List.nil_append]

private theorem history_length {V : Type} {names : List String} (ms : List (List (String × V))) (hm : ∀ m ∈ ms, m.map (fun x => x.1) = names) (name : String) :
    (obsHistory ms name).length = ms.length * names.count name := by
  rw [C95_history]
  induction ms with
  | nil => simp
  | cons m ms ih =>
    rw [List.flatMap_cons, List.length_append, ih fun m hm' => hm m (by simp [hm']), List.length_cons, ← hm m (by simp)]
    have : (List.map (fun x => x.1) m).count name = ((m.filter fun x => x.1 = name).map fun x => x.2).length := by
      rw [List.length_map, List.count, List.countP_map, ← List.countP_eq_length_filter]
      congr 1
    rw [this]; ring

/-- **C95, one value per version.** On every lattice but the pyrochlore lattice the list of each observable has as many values as the process has made versions. -/
theorem C95_one_value_partial {V : Type} {lattice : String} {sz dens names : List String} (hl : observableNames lattice sz dens = some names) (hp : lattice ≠ "Pyrochlore")
    (hd : (sz ++ dens).Nodup) (hf : ∀ x ∈ sz ++ dens, ∃ c : String, x = "<" ++ c) (ms : List (List (String × V))) (hm : ∀ m ∈ ms, m.map (fun x => x.1) = names)
    {name : String} (hname : name ∈ names) : (obsHistory ms name).length = ms.length := by
  rw [history_length ms hm]
  have hlt : ∀ x ∈ sz ++ dens, x.toList.head? = some '<' := by
    intro x hx
    obtain ⟨c, rfl⟩ := hf x hx
    simp
  have key : ∀ l : List String, l.Nodup → (∀ x ∈ l, x.toList.head? ≠ some '<') → (l ++ sz ++ dens).Nodup := by
    intro l hl1 hl2
    rw [List.append_assoc, List.nodup_append]
    refine ⟨hl1, hd, fun a ha b hb q => ?_⟩
    subst q
    exact hl2 a ha (hlt a hb)
  have hnd : names.Nodup := by
    unfold observableNames at hl
    simp only at hl
    split_ifs at hl
    all_goals first
      | exact absurd (List.mem_singleton.1 ‹lattice ∈ ["Pyrochlore"]›) hp
      | (simp only [Option.map_some, Option.some.injEq] at hl
         subst hl
         exact key _ (by decide +kernel) (by decide +kernel))
      | simp at hl
  rw [List.count_eq_one_of_mem hnd hname, mul_one]

/-- **C95, lattices.** The measurement is defined for exactly the eleven lattices that dyson/lattice.py 18-202 can build. The staggered susceptibility belongs to the measurement of eight of
them, the order of valence bonds to that of one. -/
theorem C95_lattices (lattice : String) (sz dens : List String) :
    ((observableNames lattice sz dens).isSome ↔
      lattice ∈ ["Chain", "Checkerboard", "ValenceBond", "Square", "Triangular", "Assymetric_Triangular", "Honeycomb", "Kagome", "Cubic", "3DCheckerboard", "Pyrochlore"]) ∧
    (∀ names, observableNames lattice sz dens = some names → (∀ x ∈ sz ++ dens, ∃ c : String, x = "<" ++ c) →
      ("StagChi" ∈ names ↔ lattice ∉ ["Honeycomb", "Kagome", "Pyrochlore"]) ∧ ("VBS" ∈ names ↔ lattice = "ValenceBond")) := by
  have hin : (observableNames lattice sz dens).isSome ↔
      lattice ∈ ["Chain", "Checkerboard", "ValenceBond", "Square", "Triangular", "Assymetric_Triangular", "Honeycomb", "Kagome", "Cubic", "3DCheckerboard", "Pyrochlore"] := by
    unfold observableNames
    simp only [List.mem_cons, List.not_mem_nil, or_false]
    split_ifs <;> simp <;> tauto
  refine ⟨hin, fun names hn hf => ?_⟩
  have h1 : "StagChi" ∉ sz ++ dens := fun h => by
    obtain ⟨c, hc⟩ := hf _ h
    have := congrArg (fun s : String => s.toList.head?) hc
    simp at this
  have h2 : "VBS" ∉ sz ++ dens := fun h => by
    obtain ⟨c, hc⟩ := hf _ h
    have := congrArg (fun s : String => s.toList.head?) hc
    simp at this
  have hl := hin.1 (by rw [hn]; rfl)
  simp only [List.mem_cons, List.not_mem_nil, or_false] at hl
  simp only [List.mem_append, not_or] at h1 h2
  unfold observableNames at hn
  rcases hl with rfl | rfl | rfl | rfl | rfl | rfl | rfl | rfl | rfl | rfl | rfl <;>
    · simp at hn
      subst hn
      simp [h1.1, h1.2, h2.1, h2.2]

/-- **C95, refuted.** On the pyrochlore lattice `UnifChi` gets two values in every version. -/
theorem C95_refuted_pyrochlore {V : Type} {sz dens names : List String} (hl : observableNames "Pyrochlore" sz dens = some names) (hf : "UnifChi" ∉ sz ++ dens)
    (ms : List (List (String × V))) (hm : ∀ m ∈ ms, m.map (fun x => x.1) = names) : (obsHistory ms "UnifChi").length = 2 * ms.length := by
  rw [history_length ms hm]
  have : names.count "UnifChi" = 2 := by
    have e : names = ["1-JP", "UnifChi", "BKUnifChi", "Mag^2 density", "BK Mag^2 density", "Energy", "SumRule", "BK_Energy", "BK_SumRule"] ++
        ["UnifChi", "Chi_X(4Pi,2Pi,0)"] ++ [] ++ sz ++ dens := by
      have : observableNames "Pyrochlore" sz dens = some (["1-JP", "UnifChi", "BKUnifChi", "Mag^2 density", "BK Mag^2 density", "Energy", "SumRule", "BK_Energy", "BK_SumRule"] ++
        ["UnifChi", "Chi_X(4Pi,2Pi,0)"] ++ [] ++ sz ++ dens) := by
        unfold observableNames
        simp only
        simp
      rw [this] at hl
      exact (Option.some.inj hl).symm
    rw [e, List.append_assoc, List.count_append, List.count_eq_zero.2 hf]
    decide +kernel
  rw [this, mul_comm]

/-- **C95, refuted: the history does not survive a restart.** The file of the observables of a restarted process has none of the values of the process before, if it measured anything. -/
theorem C95_refuted_history {V : Type} (old new : List (List (String × V))) {m : List (String × V)} (hm : m ∈ old) {x : String × V} (hx : x ∈ m) :
    (obsHistory new x.1).length < (obsHistory (old ++ new) x.1).length := by
  rw [C95_history, C95_history, List.flatMap_append, List.length_append]
  have : 0 < (old.flatMap fun m => (m.filter fun y => y.1 = x.1).map fun y => y.2).length := by
    refine List.length_pos_of_mem (a := x.2) ?_
    rw [List.mem_flatMap]
    exact ⟨m, hm, List.mem_map.2 ⟨x, List.mem_filter.2 ⟨hx, by simp⟩, rfl⟩⟩
  omega

/-! ## Cases -/

/-- Names as in a job. -/
def demoNames : DysonNames := ⟨"0.50_2_Weight.hkl", "1_DYSON_para.txt", "0.50_2_quantities.txt", "0.50_2_Message.txt"⟩

theorem demoNames_distinct : demoNames.Distinct := by unfold DysonNames.Distinct; decide +kernel

/-- Two versions; a text of parameters is understood if it ends with the number 0. -/
def demoVersions : List DysonData := [⟨[10, 11], [1, 0], [5], [1]⟩, ⟨[20, 21], [2, 0], [5, 6], [2]⟩]

/-- The texts of these. -/
def demoParse (t : List ℕ) : Option ℕ := if t.getLast? = some 0 then t.head? else none

example : ∀ x ∈ demoVersions, Understands demoParse x.para (x.para.headD 0) := by
  intro x hx
  have hpre : ∀ (v : ℕ) (t : List ℕ), v ≠ 0 → t <+: [v, 0] → t ≠ [v, 0] → demoParse t = none := by
    intro v t hv ht hn
    obtain ⟨u, hu⟩ := ht
    match t, hu with
    | [], _ => rfl
    | [a], hu =>
      obtain ⟨rfl, -⟩ := List.cons.inj hu
      simp [demoParse, hv]
    | [a, b], hu => 
      have : [a, b] = [v, 0] := by simp at hu; simp [hu]
      exact absurd this hn
    | a :: b :: c :: t, hu => simp at hu
  rcases List.mem_cons.1 hx with rfl | hx
  · exact ⟨rfl, fun t h1 h2 => hpre 1 t (by decide) h1 h2⟩
  · rcases List.mem_cons.1 hx with rfl | hx
    · exact ⟨rfl, fun t h1 h2 => hpre 2 t (by decide) h1 h2⟩
    · cases hx

/-- A crash in the second version while the parameters are written: weights of the second version with the `Version` 0 of the input file. -/
example : (dysonStart demoParse [0, 0] 0 demoNames (crashAfter 17 (demoVersions.flatMap (versionCalls demoNames)) fun _ => none)).2 = (some [20, 21], 0) := by
  decide +kernel

/-- Two calls earlier: the parameters of the first version. One call later: those of the second. -/
example : (dysonStart demoParse [0, 0] 0 demoNames (crashAfter 15 (demoVersions.flatMap (versionCalls demoNames)) fun _ => none)).2 = (some [20, 21], 1) ∧
    (dysonStart demoParse [0, 0] 0 demoNames (crashAfter 18 (demoVersions.flatMap (versionCalls demoNames)) fun _ => none)).2 = (some [20, 21], 2) := by
  decide +kernel

example : ∃ names, observableNames "ValenceBond" ["<Sz_0>", "<Sz_1>"] ["<n_0>", "<n_1>"] = some names ∧ names.length = 18 ∧ "VBS" ∈ names := by
  refine ⟨_, rfl, ?_, ?_⟩ <;> decide +kernel

end Feyn
