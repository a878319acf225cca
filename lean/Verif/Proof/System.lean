import Verif.Spec.System
import Mathlib.Data.List.Basic
import Mathlib.Order.Basic

/-!
# Lemmas on signals, scope guards, files and dictionaries
-/

namespace Feyn

/-! ## Signals -/

namespace Proc

theorem run_append (p : Proc) (a b : List PStep) : run p (a ++ b) = run (run p a) b := List.foldl_append ..

theorem run_dead {p : Proc} (h : p.exited.isSome) (l : List PStep) : run p l = p := by
  induction l with
  | nil => rfl
  | cons t l ih => simp only [run, List.foldl_cons] at ih ⊢; rw [show p.step t = p by simp [step, h]]; exact ih

/-- The process has ended with the last signal it received. -/
def Dead (p : Proc) : Prop := ∃ s, p.exited = some s ∧ p.log.getLast? = some s

/-- The process lives with the given handlers; `dl`: the section flag is known to be set; `cl`: no signal was received. -/
structure Alive (di dt dl cl : Bool) (p : Proc) : Prop where
  exited : p.exited = none
  int : p.delayedInt = di
  term : p.delayedTerm = dt
  delaying : dl = true → p.delaying = true
  pending : p.pending = p.log.getLast?
  clean : cl = true → p.log = []

def M (di dt dl cl : Bool) (p : Proc) : Prop := Dead p ∨ Alive di dt dl cl p

theorem M.weaken {di dt dl cl : Bool} {p : Proc} (h : M di dt dl cl p) : M di dt dl false p := by
  rcases h with h | h
  · exact Or.inl h
  · exact Or.inr { h with clean := by simp }

theorem Dead.step {p : Proc} (h : Dead p) (t : PStep) : Dead (p.step t) := by
  obtain ⟨s, h1, h2⟩ := h
  rw [show p.step t = p by simp [Proc.step, h1]]
  exact ⟨s, h1, h2⟩

theorem M.deliver {di dt dl cl : Bool} (hc : cl = true → di = false ∧ dt = false) {p : Proc} (h : M di dt dl cl p) (s : Sig) :
    M di dt dl cl (p.step (.deliver s)) := by
  rcases h with h | h
  · exact Or.inl (h.step _)
  · obtain ⟨a, b, c, d, e, f⟩ := h
    rw [step, if_neg (by simp [a])]
    simp only
    by_cases hd : isDelayed { p with log := p.log ++ [s] } s = true
    · rw [if_pos hd]
      refine Or.inr ⟨a, b, c, d, by simp, fun hcl => ?_⟩
      obtain ⟨h1, h2⟩ := hc hcl
      cases s <;> simp_all [isDelayed]
    · rw [if_neg hd]
      exact Or.inl ⟨s, rfl, by simp [handle]⟩

theorem M.delivers {di dt dl cl : Bool} (hc : cl = true → di = false ∧ dt = false) {p : Proc} (h : M di dt dl cl p)
    (l : List PStep) (hl : ownSteps l = []) : M di dt dl cl (run p l) := by
  induction l generalizing p with
  | nil => exact h
  | cons t l ih =>
    cases t with
    | deliver s => exact ih (h.deliver hc s) (by simpa [ownSteps, PStep.signal] using hl)
    | _ => simp [ownSteps, PStep.signal] at hl

theorem M.setInt {di dt dl cl : Bool} {p : Proc} (h : M di dt dl cl p) (b : Bool) : M b dt dl cl (p.step (.setInt b)) := by
  rcases h with h | h
  · exact Or.inl (h.step _)
  · obtain ⟨a, _, c, d, e, f⟩ := h
    rw [step, if_neg (by simp [a])]
    exact Or.inr ⟨a, rfl, c, d, e, f⟩

theorem M.setTerm {di dt dl cl : Bool} {p : Proc} (h : M di dt dl cl p) (b : Bool) : M di b dl cl (p.step (.setTerm b)) := by
  rcases h with h | h
  · exact Or.inl (h.step _)
  · obtain ⟨a, b, _, d, e, f⟩ := h
    rw [step, if_neg (by simp [a])]
    exact Or.inr ⟨a, b, rfl, d, e, f⟩

theorem M.setDelaying {di dt dl cl : Bool} {p : Proc} (h : M di dt dl cl p) : M di dt true cl (p.step .setDelaying) := by
  rcases h with h | h
  · exact Or.inl (h.step _)
  · obtain ⟨a, b, c, _, e, f⟩ := h
    rw [step, if_neg (by simp [a])]
    exact Or.inr ⟨a, b, c, fun _ => rfl, e, f⟩

/-- The test ends the process if a signal is pending; otherwise none was received. -/
theorem M.test {di dt cl : Bool} {p : Proc} (h : M di dt true cl p) : M di dt true true (p.step .resumeTest) := by
  rcases h with h | h
  · exact Or.inl (h.step _)
  · obtain ⟨a, b, c, d, e, f⟩ := h
    rw [step, if_neg (by simp [a])]
    simp only [d rfl]
    cases hp : p.pending with
    | none =>
      refine Or.inr ⟨a, b, c, fun _ => d rfl, e, fun _ => ?_⟩
      rw [hp] at e
      exact List.getLast?_eq_none_iff.1 e.symm
    | some s => exact Or.inl ⟨s, rfl, by simp only [handle]; rw [← e, hp]⟩

theorem M.test_clean {di dt dl : Bool} {p : Proc} (h : M di dt dl true p) : M di dt dl true (p.step .resumeTest) := by
  rcases h with h | h
  · exact Or.inl (h.step _)
  · obtain ⟨a, b, c, d, e, f⟩ := h
    have hp : p.pending = none := by rw [e, f rfl]; rfl
    rw [show p.step .resumeTest = p by simp [step, hp]]
    exact Or.inr ⟨a, b, c, d, e, f⟩

theorem own_cons {l : List PStep} {x : PStep} {r : List PStep} (h : ownSteps l = x :: r) :
    ∃ a b, l = a ++ x :: b ∧ ownSteps a = [] ∧ ownSteps b = r := by
  induction l with
  | nil => simp [ownSteps] at h
  | cons t l ih =>
    by_cases ht : t.signal.isNone = true
    · simp only [ownSteps, List.filter_cons, ht, if_true, List.cons.injEq] at h
      exact ⟨[], l, by rw [h.1]; rfl, rfl, h.2⟩
    · simp only [ownSteps, List.filter_cons, ht] at h
      obtain ⟨a, b, h1, h2, h3⟩ := ih h
      refine ⟨t :: a, b, by rw [h1]; rfl, ?_, h3⟩
      simpa [ownSteps, ht] using h2

/-- Outside of a critical section, or inside. -/
def Mode (inside : Bool) (p : Proc) : Prop :=
  if inside then M true true true false p else ∃ dl, M false false dl true p

theorem Mode.delivers {i : Bool} {p : Proc} (h : Mode i p) (l : List PStep) (hl : ownSteps l = []) : Mode i (run p l) := by
  cases i with
  | true => exact M.delivers (by simp) h l hl
  | false =>
    obtain ⟨dl, h⟩ := h
    exact ⟨dl, M.delivers (by simp) h l hl⟩

theorem Mode.delay {i : Bool} {p : Proc} (h : Mode i p) (l : List PStep) (r : List PStep)
    (hl : ownSteps l = .setInt true :: .setTerm true :: .setDelaying :: r) :
    ∃ a b, l = a ++ b ∧ ownSteps b = r ∧ Mode true (run p a) := by
  obtain ⟨a1, b1, rfl, h1, h2⟩ := own_cons hl
  obtain ⟨a2, b2, rfl, h3, h4⟩ := own_cons h2
  obtain ⟨a3, b3, rfl, h5, h6⟩ := own_cons h4
  refine ⟨a1 ++ (.setInt true :: a2) ++ (.setTerm true :: a3) ++ [.setDelaying], b3, by simp, h6, ?_⟩
  simp only [run_append]
  have : ∃ di dt dl, M di dt dl false (run p a1) := by
    cases i with
    | true => exact ⟨true, true, true, M.delivers (by simp) h a1 h1⟩
    | false =>
      obtain ⟨dl, h⟩ := h
      exact ⟨false, false, dl, (M.delivers (by simp) h a1 h1).weaken⟩
  obtain ⟨di, dt, dl, h7⟩ := this
  have h8 := M.delivers (by simp) (h7.setInt true) a2 h3
  have h9 := M.delivers (by simp) (h8.setTerm true) a3 h5
  exact h9.setDelaying

theorem Mode.resume {i : Bool} {p : Proc} (h : Mode i p) (l : List PStep) (r : List PStep)
    (hl : ownSteps l = .setInt false :: .setTerm false :: .resumeTest :: r) :
    ∃ a b, l = a ++ b ∧ ownSteps b = r ∧ Mode false (run p a) := by
  obtain ⟨a1, b1, rfl, h1, h2⟩ := own_cons hl
  obtain ⟨a2, b2, rfl, h3, h4⟩ := own_cons h2
  obtain ⟨a3, b3, rfl, h5, h6⟩ := own_cons h4
  refine ⟨a1 ++ (.setInt false :: a2) ++ (.setTerm false :: a3) ++ [.resumeTest], b3, by simp, h6, ?_⟩
  simp only [run_append]
  cases i with
  | true =>
    have h7 : M true true true false p := h
    have h8 := M.delivers (by simp) ((M.delivers (by simp) h7 a1 h1).setInt false) a2 h3
    have h9 := M.delivers (by simp) (h8.setTerm false) a3 h5
    exact ⟨true, h9.test⟩
  | false =>
    obtain ⟨dl, h⟩ := h
    have h8 := M.delivers (by simp) ((M.delivers (by simp) h a1 h1).setInt false) a2 h3
    have h9 := M.delivers (by simp) (h8.setTerm false) a3 h5
    exact ⟨dl, h9.test_clean⟩

/-- The last call decides whether the program is inside. -/
def insideAfter (i : Bool) : List SigCall → Bool
  | [] => i
  | .delay :: l => insideAfter true l
  | .resume :: l => insideAfter false l

theorem mode_run {i : Bool} {p : Proc} (h : Mode i p) (calls : List SigCall) (l : List PStep)
    (hl : ownSteps l = calls.flatMap SigCall.steps) : Mode (insideAfter i calls) (run p l) := by
  induction calls generalizing i p l with
  | nil => exact h.delivers l hl
  | cons c calls ih =>
    cases c with
    | delay =>
      obtain ⟨a, b, rfl, h2, h3⟩ := h.delay l _ hl
      rw [run_append]
      exact ih h3 b h2
    | resume =>
      obtain ⟨a, b, rfl, h2, h3⟩ := h.resume l _ hl
      rw [run_append]
      exact ih h3 b h2

theorem mode_new : Mode false Proc.new := ⟨false, Or.inr ⟨rfl, rfl, rfl, by simp, rfl, fun _ => rfl⟩⟩

theorem insideAfter_append (i : Bool) (a b : List SigCall) : insideAfter i (a ++ b) = insideAfter (insideAfter i a) b := by
  induction a generalizing i with
  | nil => rfl
  | cons c a ih => cases c <;> exact ih _

theorem step_log {p : Proc} {t : PStep} (h : (p.step t).exited = none) :
    p.exited = none ∧ (p.step t).log = p.log ++ t.signal.toList := by
  have h0 : p.exited = none := by
    by_contra hc
    have : p.exited.isSome := Option.isSome_iff_ne_none.2 hc
    rw [show p.step t = p by simp [step, this]] at h
    exact hc h
  refine ⟨h0, ?_⟩
  cases t with
  | deliver s =>
    simp only [step, h0, Option.isSome_none, Bool.false_eq_true, if_false] at h ⊢
    split_ifs at h ⊢ <;> simp [PStep.signal, handle]
  | resumeTest =>
    simp only [step, h0, Option.isSome_none, Bool.false_eq_true, if_false, PStep.signal, Option.toList_none, List.append_nil]
    split <;> simp [handle]
  | _ => simp [step, h0, PStep.signal]

theorem alive_prefix {p : Proc} (a b : List PStep) (h : (run p (a ++ b)).exited = none) : (run p a).exited = none := by
  by_contra hc
  rw [run_append, run_dead (Option.isSome_iff_ne_none.2 hc)] at h
  exact hc h

theorem alive_log {p : Proc} (l : List PStep) (h : (run p l).exited = none) : (run p l).log = p.log ++ sent l := by
  induction l generalizing p with
  | nil => simp [run, sent]
  | cons t l ih =>
    have h1 : ((p.step t)).exited = none := alive_prefix (p := p) [t] l h
    obtain ⟨-, h3⟩ := step_log h1
    have := ih (p := p.step t) h
    simp only [run, List.foldl_cons] at this ⊢
    rw [this, h3, sent, sent, List.filterMap_cons]
    cases t.signal <;> simp

end Proc

/-! ## Files -/

theorem tmp_ne (f : String) : "_" ++ f ≠ f := by
  intro h
  have := congrArg String.length h
  rw [String.length_append] at this
  have h1 : "_".length = 1 := by decide
  omega

theorem run_tmp (tmp : String) (calls : List FCall) (s : Files)
    (hc : ∀ c ∈ calls, (∃ b, c = .write tmp b) ∨ c = .create tmp) (g : String) (hg : g ≠ tmp) :
    (calls.foldl FCall.run s) g = s g := by
  induction calls generalizing s with
  | nil => rfl
  | cons c calls ih =>
    rw [List.foldl_cons, ih _ (fun c hc' => hc c (by simp [hc']))]
    rcases hc c (by simp) with ⟨b, rfl⟩ | rfl
    · simp [FCall.run, Function.update_of_ne hg]
    · simp [FCall.run, Function.update_of_ne hg]

theorem run_writes (tmp : String) (data acc : List ℕ) (s : Files) (h : s tmp = some acc) :
    ((data.map fun b => FCall.write tmp b).foldl FCall.run s) tmp = some (acc ++ data) := by
  induction data generalizing acc s with
  | nil => simp [h]
  | cons b data ih =>
    rw [List.map_cons, List.foldl_cons, ih (acc ++ [b])]
    · simp
    · simp [FCall.run, h]

/-! ## Dictionaries -/

namespace Dict
variable {V : Type}

theorem find_set (d : Dict V) (k j : String) (v : V) : (d.set k v).find j = if j = k then some v else d.find j := by
  induction d with
  | nil => simp [set, find]
  | cons x d ih =>
    obtain ⟨k', v'⟩ := x
    by_cases h1 : k = k'
    · subst h1
      simp only [set, if_pos, find]
      by_cases h : j = k
      · simp [h]
      · simp [h]
    · simp only [set, if_neg h1]
      by_cases h2 : k < k'
      · rw [if_pos h2]
        simp only [find]
      · rw [if_neg h2]
        simp only [find, ih]
        by_cases h : j = k'
        · subst h
          rw [if_pos rfl, if_neg (fun h => h1 h.symm), if_pos rfl]
        · simp [h]

theorem mem_set (d : Dict V) (k : String) (v : V) (x : String × V) (hx : x ∈ d.set k v) : x = (k, v) ∨ x ∈ d := by
  induction d with
  | nil => simp only [set, List.mem_singleton] at hx; exact Or.inl hx
  | cons y d ih =>
    obtain ⟨k', v'⟩ := y
    simp only [set] at hx
    split_ifs at hx with h1 h2
    · rcases List.mem_cons.1 hx with h | h
      · exact Or.inl h
      · exact Or.inr (by simp [h])
    · rcases List.mem_cons.1 hx with h | h
      · exact Or.inl h
      · exact Or.inr h
    · rcases List.mem_cons.1 hx with h | h
      · exact Or.inr (by simp [h])
      · rcases ih h with h | h
        · exact Or.inl h
        · exact Or.inr (by simp [h])

theorem sorted_set {d : Dict V} (h : d.Sorted) (k : String) (v : V) : (d.set k v).Sorted := by
  induction d with
  | nil => simp [set, Sorted]
  | cons y d ih =>
    obtain ⟨k', v'⟩ := y
    obtain ⟨h1, h2⟩ := List.pairwise_cons.1 h
    simp only [set]
    split_ifs with g1 g2
    · subst g1
      exact List.pairwise_cons.2 ⟨h1, h2⟩
    · refine List.pairwise_cons.2 ⟨fun x hx => ?_, h⟩
      rcases List.mem_cons.1 hx with hx | hx
      · subst hx; exact g2
      · exact lt_trans g2 (h1 x hx)
    · refine List.pairwise_cons.2 ⟨fun x hx => ?_, ih h2⟩
      rcases mem_set d k v x hx with hx | hx
      · subst hx
        exact lt_of_le_of_ne (not_lt.1 g2) (fun h => g1 h.symm)
      · exact h1 x hx

theorem sorted_update {d : Dict V} (h : d.Sorted) (e : Dict V) : (d.update e).Sorted := by
  unfold update
  induction e generalizing d with
  | nil => exact h
  | cons x e ih => exact ih (sorted_set h x.1 x.2)

theorem find_none_of_lt {d : Dict V} {k : String} (h : ∀ x ∈ d, k < x.1) : (d.find? fun x => x.1 = k) = none := by
  rw [List.find?_eq_none]
  intro x hx
  simp only [decide_eq_true_eq]
  exact ne_of_gt (h x hx)

theorem find_update (d : Dict V) {e : Dict V} (he : e.Sorted) (j : String) :
    (d.update e).find j = match (e.find? fun x => x.1 = j) with | some x => some x.2 | none => d.find j := by
  unfold update
  induction e generalizing d with
  | nil => rfl
  | cons x e ih =>
    obtain ⟨h1, h2⟩ := List.pairwise_cons.1 he
    rw [List.foldl_cons, ih _ h2, List.find?_cons]
    by_cases hx : x.1 = j
    · subst hx
      rw [find_none_of_lt h1, find_set]
      simp
    · rw [decide_eq_false hx]
      simp only
      rw [find_set, if_neg (fun h => hx h.symm)]

end Dict

end Feyn
