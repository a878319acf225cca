import Verif.Proof.System
import Mathlib.Tactic.Linarith
import Mathlib.Tactic.Ring

/-!
# Utility classes: C36, C37, C46 – C49
-/

namespace Feyn

/-! ## C36 -/

/-- **C36**, no signal is lost: in every execution, wherever signals arrive, a process that has ended did so with the last signal it
received; and outside of critical sections (before the first `Delay` or after a completed `Resume`) it has ended exactly if
a signal was sent at all. The statement of the property has one more part, the report of `delaying` after `Resume`, which is false, see
`C36_still_delaying_refuted`. -/
theorem C36_never_lost_partial (calls : List SigCall) (l : List PStep) (h : Interleaving calls l) :
    let p := Proc.run Proc.new l
    (∀ s, p.exited = some s → p.log.getLast? = some s) ∧
      (p.exited = none → p.log = sent l) ∧
      (Outside calls → (p.exited = none ↔ sent l = []) ∧ p.exited = p.log.getLast?) := by
  intro p
  have hm := Proc.mode_run Proc.mode_new calls l h
  have hlog : p.exited = none → p.log = sent l := fun h => by
    have := Proc.alive_log (p := Proc.new) l h
    exact this.trans (List.nil_append _)
  have hin : Outside calls → Proc.insideAfter false calls = false := by
    rintro (rfl | ⟨c, rfl⟩)
    · rfl
    · rw [Proc.insideAfter_append]; rfl
  have hdead : ∀ {di dt dl cl}, Proc.M di dt dl cl p → ∀ s, p.exited = some s → p.log.getLast? = some s := by
    intro di dt dl cl hm s hs
    rcases hm with ⟨s', h1, h2⟩ | h1
    · rw [h1] at hs; cases hs; exact h2
    · rw [h1.exited] at hs; cases hs
  refine ⟨?_, hlog, ?_⟩
  · cases hi : Proc.insideAfter false calls with
    | true => rw [hi] at hm; exact hdead hm
    | false => rw [hi] at hm; obtain ⟨dl, hm⟩ := hm; exact hdead hm
  · intro ho
    rw [hin ho] at hm
    obtain ⟨dl, hm⟩ := hm
    rcases hm with ⟨s, h1, h2⟩ | h1
    · refine ⟨⟨fun hn => ?_, fun hs => ?_⟩, ?_⟩
      · exact absurd (h1.symm.trans hn) (by simp)
      · exfalso
        have key : ∀ (l : List PStep) (q : Proc), sent l = [] → (Proc.run q l).log = q.log := by
          intro l
          induction l with
          | nil => intro q _; rfl
          | cons t l ih =>
            intro q hq
            have h3 : t.signal = none ∧ sent l = [] := by
              simp only [sent, List.filterMap_cons] at hq
              cases ht : t.signal with
              | none => rw [ht] at hq; exact ⟨rfl, hq⟩
              | some s => rw [ht] at hq; simp at hq
            have h4 : (q.step t).log = q.log := by
              cases t with
              | deliver s => simp [PStep.signal] at h3
              | resumeTest =>
                unfold Proc.step
                split_ifs
                · rfl
                · simp only; split <;> simp [Proc.handle]
              | _ => unfold Proc.step; split_ifs <;> rfl
            have := ih (q.step t) h3.2
            simp only [Proc.run, List.foldl_cons] at this ⊢
            rw [this, h4]
        have h5 := key l Proc.new hs
        have h6 : p.log = [] := h5
        rw [h6] at h2
        simp at h2
      · show p.exited = _
        rw [h1]; exact h2.symm
    · have h3 := h1.clean rfl
      have h4 : sent l = [] := (hlog h1.exited).symm.trans h3
      refine ⟨⟨fun _ => h4, fun _ => h1.exited⟩, ?_⟩
      show p.exited = _
      rw [h1.exited]
      show none = p.log.getLast?
      rw [h3]; rfl

/-- **C36**, deferral: a process that lives when `Delay` has completed survives all signals until `Resume` is called, and then ends in
`Resume` with the last one. -/
theorem C36_deferred (calls : List SigCall) (l : List PStep) (h : Interleaving (calls ++ [.delay]) l)
    (ha : (Proc.run Proc.new l).exited = none) (sigs : List Sig) :
    (Proc.run Proc.new (l ++ sigs.map .deliver)).exited = none ∧
      (Proc.run Proc.new (l ++ sigs.map .deliver ++ Proc.resume)).exited = (sent l ++ sigs).getLast? := by
  have hm := Proc.mode_run Proc.mode_new _ l h
  rw [Proc.insideAfter_append] at hm
  have hown : ownSteps (sigs.map PStep.deliver) = [] := by
    simp [ownSteps, PStep.signal]
  have hsurv : ∀ (sigs : List Sig) (p : Proc), p.delayedInt = true → p.delayedTerm = true → p.exited = none →
      (Proc.run p (sigs.map .deliver)).exited = none := by
    intro sigs
    induction sigs with
    | nil => intro p _ _ h; exact h
    | cons s sigs ih =>
      intro p h1 h2 h3
      have : p.step (.deliver s) = { p with log := p.log ++ [s], pending := some s } := by
        rw [Proc.step, if_neg (by simp [h3])]
        simp only
        rw [if_pos (by cases s <;> simp [Proc.isDelayed, h1, h2])]
      simp only [List.map_cons, Proc.run, List.foldl_cons]
      rw [this]
      exact ih _ h1 h2 h3
  have hmode : Proc.M true true true false (Proc.run Proc.new l) := hm
  have halive : Proc.Alive true true true false (Proc.run Proc.new l) := by
    rcases hmode with ⟨s, h1, -⟩ | h1
    · rw [ha] at h1; cases h1
    · exact h1
  have h1 : (Proc.run Proc.new (l ++ sigs.map .deliver)).exited = none := by
    rw [Proc.run_append]
    exact hsurv sigs _ halive.int halive.term ha
  refine ⟨h1, ?_⟩
  have hsent : sent (l ++ sigs.map .deliver) = sent l ++ sigs := by
    have : ∀ sigs : List Sig, sent (sigs.map .deliver) = sigs := by
      intro sigs
      induction sigs with
      | nil => rfl
      | cons s sigs ih => exact congrArg (s :: ·) ih
    rw [sent, List.filterMap_append]
    exact congrArg (sent l ++ ·) (this sigs)
  have hlog := Proc.alive_log (p := Proc.new) _ h1
  rw [hsent] at hlog
  have hm2 := Proc.M.delivers (by simp) hmode (sigs.map .deliver) hown
  rw [← Proc.run_append] at hm2
  rw [Proc.run_append]
  generalize Proc.run Proc.new (l ++ sigs.map .deliver) = q at *
  rcases hm2 with ⟨s, h3, -⟩ | h3
  · rw [h1] at h3; cases h3
  · obtain ⟨di, dt, dl, pe, ex, lo⟩ := q
    obtain ⟨e1, e2, e3, e4, e5, -⟩ := h3
    simp only at e1 e2 e3 e4 e5 hlog
    have e4' := e4 trivial
    subst e1 e2 e3 e4'
    have hlo : lo = sent l ++ sigs := by simpa [Proc.new] using hlog
    subst hlo
    rw [← e5]
    cases pe <;> rfl

/-- **C36**, outside of critical sections the first signal ends the process at once. -/
theorem C36_immediate (calls : List SigCall) (l : List PStep) (h : Interleaving calls l) (ho : Outside calls)
    (ha : (Proc.run Proc.new l).exited = none) (s : Sig) :
    (Proc.run Proc.new (l ++ [.deliver s])).exited = some s := by
  have h2 : Interleaving calls (l ++ [.deliver s]) := by
    unfold Interleaving ownSteps at h ⊢
    rw [List.filter_append, h]
    simp [PStep.signal]
  obtain ⟨h3, -, h4⟩ := C36_never_lost_partial _ _ h2
  obtain ⟨h5, h6⟩ := h4 ho
  have hne : sent (l ++ [.deliver s]) ≠ [] := by simp [sent, PStep.signal]
  have h7 : (Proc.run Proc.new (l ++ [.deliver s])).exited ≠ none := fun hn => hne (h5.1 hn)
  cases hx : (Proc.run Proc.new (l ++ [.deliver s])).exited with
  | none => exact absurd hx h7
  | some s' =>
    have h8 := h3 s' hx
    have h9 : (Proc.run Proc.new (l ++ [.deliver s])).log = (Proc.run Proc.new l).log ++ [s] := by
      rw [Proc.run_append]
      simp only [Proc.run, List.foldl_cons, List.foldl_nil]
      rw [Proc.step, if_neg (by rw [Proc.run] at ha; simp [ha])]
      simp only
      split_ifs <;> rfl
    rw [h9] at h8
    simpa using h8.symm

/-- **C36** fails in its last part: after a `Delay` and a `Resume` without any signal the handler still reports that it is delaying. -/
theorem C36_still_delaying_refuted :
    Interleaving [.delay, .resume] (Proc.delay ++ Proc.resume) ∧
      (Proc.run Proc.new (Proc.delay ++ Proc.resume)).exited = none ∧
      (Proc.run Proc.new (Proc.delay ++ Proc.resume)).delaying = true := by
  refine ⟨rfl, ?_, ?_⟩ <;> decide

/-- C36 on a case: two signals in the section, one of them in the middle of `Delay`, one in the middle of `Resume`. -/
example :
    Interleaving [.delay, .resume]
        [.setInt true, .deliver .int, .setTerm true, .setDelaying, .setInt false, .deliver .term, .setTerm false, .resumeTest] ∧
      (Proc.run Proc.new
        [.setInt true, .deliver .int, .setTerm true, .setDelaying, .setInt false, .deliver .term, .setTerm false,
          .resumeTest]).exited = some .term := by
  exact ⟨rfl, by decide⟩

/-! ## C37 -/

/-- **C37**, one check: it fires exactly if at least the interval has passed since the timer was last started; then the timer starts
again. -/
theorem C37_fires_iff (t : Timer) (interval now now2 : ℤ) :
    ((t.check interval now now2).1 = true ↔ interval ≤ now - t.startTime) ∧
      ((t.check interval now now2).1 = true → (t.check interval now now2).2 = ⟨true, now2⟩) ∧
      ((t.check interval now now2).1 = false → (t.check interval now now2).2 = t) := by
  unfold Timer.check
  split_ifs with h
  · refine ⟨⟨fun h => by simp at h, fun h2 => by omega⟩, fun h => by simp at h, fun _ => rfl⟩
  · refine ⟨⟨fun _ => by omega, fun _ => rfl⟩, fun _ => rfl, fun h => by simp at h⟩

/-- Starting: an idle timer starts now, a running one goes on. -/
theorem C37_start (t : Timer) (now : ℤ) :
    (t.running = false → t.start now = ⟨true, now⟩) ∧ (t.running = true → t.start now = t) := by
  unfold Timer.start
  constructor <;> intro h <;> simp [h]

theorem fired_from (interval : ℤ) (reads : List (ℤ × ℤ)) (t : Timer) (b : ℤ) (hb : t.startTime ≤ b) (hc : Clock b reads) :
    (∀ x ∈ fired reads (t.checks interval reads).1, interval ≤ x.1 - t.startTime) ∧
      (fired reads (t.checks interval reads).1).Pairwise (fun x y => x.1 ≤ x.2 ∧ x.2 ≤ y.1 ∧ interval ≤ y.1 - x.2) := by
  induction reads generalizing t b with
  | nil => simp [fired, Timer.checks]
  | cons r reads ih =>
    obtain ⟨a, a2⟩ := r
    obtain ⟨h1, h2, h3⟩ := hc
    obtain ⟨g1, g2, g3⟩ := C37_fires_iff t interval a a2
    cases hf : (t.check interval a a2).1 with
    | false =>
      have e := g3 hf
      have := ih t a2 (by omega) h3
      simpa [fired, Timer.checks, hf, e] using this
    | true =>
      have e := g2 hf
      have hge := g1.1 hf
      obtain ⟨k1, k2⟩ := ih ⟨true, a2⟩ a2 le_rfl h3
      have hclock : ∀ (l : List (ℤ × ℤ)) (b : ℤ), Clock b l → ∀ x ∈ l, b ≤ x.1 := by
        intro l
        induction l with
        | nil => intro b _ x hx; simp at hx
        | cons y l ihl =>
          intro b hc x hx
          obtain ⟨y1, y2⟩ := y
          obtain ⟨c1, c2, c3⟩ := hc
          rcases List.mem_cons.1 hx with rfl | hx
          · exact c1
          · have := ihl y2 c3 x hx; omega
      have hsub : ∀ x ∈ fired reads (Timer.checks ⟨true, a2⟩ interval reads).1, x ∈ reads := by
        intro x hx
        simp only [fired, List.mem_map, List.mem_filter] at hx
        obtain ⟨y, ⟨hy, -⟩, rfl⟩ := hx
        exact (List.of_mem_zip hy).1
      have hfe : fired ((a, a2) :: reads) (t.checks interval ((a, a2) :: reads)).1 =
          (a, a2) :: fired reads (Timer.checks ⟨true, a2⟩ interval reads).1 := by
        simp [fired, Timer.checks, hf, e]
      rw [hfe]
      constructor
      · intro x hx
        rcases List.mem_cons.1 hx with rfl | hx
        · exact hge
        · have := k1 x hx
          simp only at this
          omega
      · refine List.pairwise_cons.2 ⟨fun y hy => ⟨h2, ?_, ?_⟩, k2⟩
        · exact hclock reads a2 h3 y (hsub y hy)
        · exact k1 y hy

/-- **C37**, any sequence of checks with any clock that does not go back: the first firing is at least one interval after the start, and
any two firings are at least one interval apart. -/
theorem C37_spacing (interval : ℤ) (t : Timer) (reads : List (ℤ × ℤ)) (hc : Clock t.startTime reads) :
    (∀ x ∈ fired reads (t.checks interval reads).1, interval ≤ x.1 - t.startTime) ∧
      (fired reads (t.checks interval reads).1).Pairwise (fun x y => interval ≤ y.1 - x.1) := by
  obtain ⟨h1, h2⟩ := fired_from interval reads t t.startTime le_rfl hc
  exact ⟨h1, h2.imp (fun h => by omega)⟩

/-- A timer that was never started counts from time zero, so its first check fires. -/
theorem C37_not_started (interval now now2 : ℤ) (h : interval ≤ now) : (Timer.new.check interval now now2).1 = true :=
  (C37_fires_iff Timer.new interval now now2).1.2 (by simpa [Timer.new] using h)

/-- C37 on a case: interval 10, started at 100, checks at 105, 112, 120, 123. -/
example :
    ((Timer.new.start 100).checks 10 [(105, 105), (112, 113), (120, 120), (123, 124)]).1 = [false, true, false, true] ∧
      Clock 100 [(105, 105), (112, 113), (120, 120), (123, 124)] := by
  constructor
  · decide
  · simp [Clock]

/-! ## C46 -/

/-- **C46**: after any sequence of operations the dictionary is a finite function: looking up a key gives what the last operation on
this key stored, and the keys stay sorted and unique. -/
theorem C46_semantics {V : Type} (d : Dict V) (hd : d.Sorted) (ops : List (DictOp V)) (hv : ∀ op ∈ ops, op.Valid) :
    (ops.foldl DictOp.run d).Sorted ∧
      ∀ k, (ops.foldl DictOp.run d).find k = ops.foldl DictOp.ideal d.find k := by
  induction ops generalizing d with
  | nil => exact ⟨hd, fun k => rfl⟩
  | cons op ops ih =>
    have h1 : (op.run d).Sorted ∧ (op.run d).find = op.ideal d.find := by
      cases op with
      | set k v => exact ⟨Dict.sorted_set hd k v, funext fun j => Dict.find_set d k j v⟩
      | update e => exact ⟨Dict.sorted_update hd e, funext fun j => Dict.find_update d (hv (.update e) (by simp)) j⟩
      | clear => exact ⟨List.Pairwise.nil, rfl⟩
      | touch k v =>
        simp only [DictOp.run, Dict.index]
        cases hf : d.find k with
        | none =>
          refine ⟨Dict.sorted_set hd k v, funext fun j => ?_⟩
          simp only [DictOp.ideal, hf, Option.getD_none, Dict.find_set]
        | some w =>
          refine ⟨hd, funext fun j => ?_⟩
          simp only [DictOp.ideal, hf, Option.getD_some]
          split_ifs with hj
          · rw [hj]; exact hf
          · rfl
    obtain ⟨g1, g2⟩ := ih _ h1.1 (fun o ho => hv o (by simp [ho]))
    refine ⟨g1, fun k => ?_⟩
    rw [List.foldl_cons, List.foldl_cons, g2 k, h1.2]

/-- **C46**, reading: a stored key gives the converted value, a missing key or a value of the wrong type is an error, never garbage;
with a default a missing key gives the default. -/
theorem C46_get {V T : Type} (d : Dict V) (conv : V → Option T) (k : String) (dflt : T) :
    (∀ v t, d.find k = some v → conv v = some t → d.get conv k = .ok t ∧ d.getWithDefault conv k dflt = .ok t) ∧
      (∀ v, d.find k = some v → conv v = none → d.get conv k = .abort ∧ d.getWithDefault conv k dflt = .abort) ∧
      (d.find k = none → d.get conv k = .abort ∧ d.getWithDefault conv k dflt = .ok dflt) := by
  refine ⟨fun v t h1 h2 => ?_, fun v h1 h2 => ?_, fun h => ?_⟩ <;>
    simp_all [Dict.get, Dict.getWithDefault, Dict.hasKey]

/-- C46 on a case. -/
example : ∃ d : Dict ℕ, d = [DictOp.set "b" 1, .set "a" 2, .update [("b", 5), ("c", 6)], .touch "x" 0].foldl DictOp.run [] ∧
    d.find "b" = some 5 ∧ d.find "a" = some 2 ∧ d.find "x" = some 0 ∧ d.get (some : ℕ → Option ℕ) "y" = .abort := by
  refine ⟨_, rfl, ?_, ?_, ?_, ?_⟩ <;> decide

/-! ## C47 -/

theorem padding_eq (s : List Char) (w : ℤ) (h : (s.length : ℤ) ≤ w) (hw : w ≤ 2147483647) :
    padding s w = w.toNat - s.length := by
  unfold padding
  rw [Int.emod_eq_of_lt (by omega) (by omega)]
  omega

/-- **C47**, arguments that fit: the result has the requested width and is the argument with blanks on both sides (as many on the left
as on the right, up to one more on the right), on the left, on the right. Missing from the full claim: longer arguments, see
`C47_refuted`. -/
theorem C47_fits_partial (s : List Char) (w : ℤ) (h : (s.length : ℤ) ≤ w) (hw : w ≤ 2147483647) :
    (∃ n, (right s w = .ok (List.replicate n ' ' ++ s)) ∧ (left s w = .ok (s ++ List.replicate n ' ')) ∧
      (n : ℤ) + s.length = w) ∧
      ∃ a b, center s w = .ok (List.replicate a ' ' ++ s ++ List.replicate b ' ') ∧ (a : ℤ) + s.length + b = w ∧
        (b = a ∨ b = a + 1) := by
  have hp := padding_eq s w h hw
  constructor
  · refine ⟨w.toNat - s.length, ?_, ?_, by omega⟩
    · simp only [right, hp, spaces]
      rw [if_pos (by omega)]; rfl
    · simp only [left, hp, spaces]
      rw [if_pos (by omega)]; rfl
  · simp only [center, hp, spaces]
    rw [if_pos (by omega)]
    by_cases ho : w.toNat - s.length > 0 ∧ (w.toNat - s.length) % 2 ≠ 0
    · refine ⟨(w.toNat - s.length) / 2, (w.toNat - s.length) / 2 + 1, ?_, by omega, Or.inr rfl⟩
      rw [if_pos ho]
      simp only [Res.ok_bind, Res.pure_eq, List.replicate_succ', List.append_assoc]
    · refine ⟨(w.toNat - s.length) / 2, (w.toNat - s.length) / 2, ?_, by omega, Or.inl rfl⟩
      rw [if_neg ho]
      simp only [Res.ok_bind, Res.pure_eq, List.append_nil]

/-- **C47** fails for every argument that is longer than the width: the unsigned difference wraps around and the loop counter
overflows. -/
theorem C47_refuted (s : List Char) (w : ℤ) (h : w < (s.length : ℤ)) (hs : (s.length : ℤ) ≤ 9223372036854775807)
    (hw : -2147483648 ≤ w) : right s w = .ub ∧ left s w = .ub ∧ center s w = .ub := by
  have hp : padding s w = (w - s.length + 18446744073709551616).toNat := by
    unfold padding
    congr 1
    have : w - (s.length : ℤ) = (w - s.length + 18446744073709551616) + 18446744073709551616 * (-1) := by ring
    rw [this, Int.add_mul_emod_self_left]
    rw [Int.emod_eq_of_lt (by omega) (by omega)]
    ring
  refine ⟨?_, ?_, ?_⟩
  · simp only [right, hp, spaces]; rw [if_neg (by omega)]; rfl
  · simp only [left, hp, spaces]; rw [if_neg (by omega)]; rfl
  · simp only [center, hp, spaces]; rw [if_neg (by omega)]; rfl

/-- C47 on a case. -/
example : center ['a', 'b'] 5 = .ok [' ', 'a', 'b', ' ', ' '] ∧ right ['a'] 3 = .ok [' ', ' ', 'a'] ∧
    left ['a', 'b', 'c'] 2 = .ub := by
  refine ⟨rfl, rfl, ?_⟩
  exact (C47_refuted ['a', 'b', 'c'] 2 (by decide) (by decide) (by decide)).2.1

/-! ## C48 -/

theorem runScope_eq (l : List SStmt) (g : Guards) (hs : Scoped (g.map fun x => x.1) l) (hn : (g.map fun x => x.1).Nodup) :
    runScope g l = ((built (reached l)).filter fun i => SStmt.dismiss i ∉ reached l).reverse ++
      unwind (g.map fun x => (x.1, x.2 || decide (SStmt.dismiss x.1 ∈ reached l))) := by
  induction l generalizing g with
  | nil => simp [runScope, reached, built]
  | cons s l ih =>
    cases s with
    | leave => simp [runScope, reached, built]
    | other =>
      have hr : reached (.other :: l) = .other :: reached l := by simp [reached]
      rw [runScope, ih g hs hn, hr]
      simp [built]
    | guard i =>
      have hr : reached (.guard i :: l) = .guard i :: reached l := by simp [reached]
      obtain ⟨h1, h2⟩ := hs
      rw [runScope, ih ((i, false) :: g) h2 (by simpa using ⟨by simpa using h1, hn⟩), hr]
      have hb : built (.guard i :: reached l) = i :: built (reached l) := by simp [built]
      have hm : ∀ j, (SStmt.dismiss j ∈ SStmt.guard i :: reached l) ↔ SStmt.dismiss j ∈ reached l := by simp
      rw [hb]
      simp only [hm, List.map_cons, Bool.false_or]
      by_cases hd : SStmt.dismiss i ∈ reached l
      · rw [List.filter_cons_of_neg (by simpa using hd)]
        simp [unwind, hd]
      · rw [List.filter_cons_of_pos (by simpa using hd)]
        simp [unwind, hd]
    | dismiss i =>
      have hr : reached (.dismiss i :: l) = .dismiss i :: reached l := by simp [reached]
      obtain ⟨h1, h2⟩ := hs
      have hmap : (g.map fun x => if x.1 = i then (x.1, true) else x).map (fun x => x.1) = g.map fun x => x.1 := by
        rw [List.map_map]
        refine List.map_congr_left fun x _ => ?_
        simp only [Function.comp]
        split_ifs <;> rfl
      rw [runScope, ih _ (by rw [hmap]; exact h2) (by rw [hmap]; exact hn), hr]
      have hb : built (.dismiss i :: reached l) = built (reached l) := by simp [built]
      rw [hb]
      have hbuilt : ∀ (l : List SStmt) (seen : List ℕ), Scoped seen l → ∀ j ∈ built (reached l), j ∉ seen := by
        intro l
        induction l with
        | nil => intro seen _ j hj; simp [reached, built] at hj
        | cons s l ihl =>
          intro seen hsc j hj
          cases s with
          | leave => simp [reached, built] at hj
          | other => exact ihl seen hsc j (by simpa [reached, built] using hj)
          | dismiss k => exact ihl seen hsc.2 j (by simpa [reached, built] using hj)
          | guard k =>
            have hj' : j = k ∨ j ∈ built (reached l) := by simpa [reached, built] using hj
            rcases hj' with rfl | hj'
            · exact hsc.1
            · exact fun hm => ihl _ hsc.2 j hj' (List.mem_cons_of_mem _ hm)
      congr 1
      · congr 1
        refine List.filter_congr fun j hj => ?_
        have hji : j ≠ i := fun h => hbuilt l _ h2 j hj (h ▸ h1)
        simp [hji]
      · congr 1
        rw [List.map_map]
        refine List.map_congr_left fun x _ => ?_
        simp only [Function.comp]
        by_cases hx : x.1 = i
        · simp [hx]
        · simp [hx]

/-- **C48**: on every path out of the scope (end, exception or return) exactly the guards that were constructed and not dismissed run
their callback, each once, the last constructed first. -/
theorem C48_scope_exit (l : List SStmt) (h : Scoped [] l) :
    runScope [] l = ((built (reached l)).filter fun i => SStmt.dismiss i ∉ reached l).reverse := by
  rw [runScope_eq l [] h List.nodup_nil]
  simp [unwind]

theorem built_nodup (l : List SStmt) (seen : List ℕ) (h : Scoped seen l) :
    (built (reached l)).Nodup ∧ ∀ j ∈ built (reached l), j ∉ seen := by
  induction l generalizing seen with
  | nil => simp [reached, built]
  | cons s l ih =>
    cases s with
    | leave => simp [reached, built]
    | other => simpa [reached, built] using ih seen h
    | dismiss k => simpa [reached, built] using ih seen h.2
    | guard k =>
      obtain ⟨h1, h2⟩ := ih (k :: seen) h.2
      have hb : built (reached (.guard k :: l)) = k :: built (reached l) := by simp [reached, built]
      rw [hb]
      refine ⟨List.nodup_cons.2 ⟨fun hk => h2 k hk (by simp), h1⟩, fun j hj => ?_⟩
      rcases List.mem_cons.1 hj with rfl | hj
      · exact h.1
      · exact fun hm => h2 j hj (List.mem_cons_of_mem _ hm)

/-- **C48**, counting: the callback of a guard runs once if the guard was constructed on this path and not dismissed, otherwise never. -/
theorem C48_exactly_once (l : List SStmt) (h : Scoped [] l) (i : ℕ) :
    (runScope [] l).count i = if SStmt.guard i ∈ reached l ∧ SStmt.dismiss i ∉ reached l then 1 else 0 := by
  rw [C48_scope_exit l h, List.count_reverse]
  have hn := (built_nodup l [] h).1
  have hmem : i ∈ built (reached l) ↔ SStmt.guard i ∈ reached l := by
    simp only [built, List.mem_filterMap]
    constructor
    · rintro ⟨s, hs, he⟩
      cases s <;> simp at he
      subst he; exact hs
    · intro hs
      exact ⟨_, hs, rfl⟩
  have hn2 : ((built (reached l)).filter fun i => SStmt.dismiss i ∉ reached l).Nodup := hn.filter _
  split_ifs with hc
  · exact (List.Nodup.count hn2).trans (if_pos (List.mem_filter.2 ⟨hmem.2 hc.1, by simpa using hc.2⟩))
  · refine List.count_eq_zero.2 fun hm => hc ?_
    obtain ⟨h1, h2⟩ := List.mem_filter.1 hm
    exact ⟨hmem.1 h1, by simpa using h2⟩

/-- C48 on a case: three guards, one dismissed, one never constructed because of the exception. -/
example : Scoped [] [.guard 1, .guard 2, .dismiss 1, .other, .leave, .guard 3] ∧
    runScope [] [.guard 1, .guard 2, .dismiss 1, .other, .leave, .guard 3] = [2] := by
  constructor
  · simp [Scoped]
  · decide

/-! ## C49 -/

/-- **C49**: wherever the process dies, the target of a big save has either its old or its complete new contents; after the
last call it has the new contents, and no file other than the target and its prefixed twin is ever touched. -/
theorem C49_atomic (f : String) (data : List ℕ) (s : Files) (k : ℕ) :
    ((crashAfter k (saveBig f data) s) f = s f ∨ (crashAfter k (saveBig f data) s) f = some data) ∧
      (data.length + 2 ≤ k → (crashAfter k (saveBig f data) s) f = some data) ∧
      (∀ g, g ≠ f → g ≠ "_" ++ f → (crashAfter k (saveBig f data) s) g = s g) := by
  have hlen : (saveBig f data).length = data.length + 2 := by simp [saveBig]
  have htmp := tmp_ne f
  -- the calls before the rename
  have hpre : ∀ c ∈ (.create ("_" ++ f) :: (data.map fun b => .write ("_" ++ f) b) : List FCall),
      (∃ b, c = .write ("_" ++ f) b) ∨ c = .create ("_" ++ f) := by
    intro c hc
    rcases List.mem_cons.1 hc with rfl | hc
    · exact Or.inr rfl
    · obtain ⟨b, -, rfl⟩ := List.mem_map.1 hc
      exact Or.inl ⟨b, rfl⟩
  have hfull : ∀ k, data.length + 2 ≤ k → crashAfter k (saveBig f data) s = FCall.run
      ((.create ("_" ++ f) :: (data.map fun b => .write ("_" ++ f) b) : List FCall).foldl FCall.run s)
        (.rename ("_" ++ f) f) := by
    intro k hk
    unfold crashAfter
    rw [List.take_of_length_le (by omega)]
    simp only [saveBig, List.foldl_append, List.foldl_cons, List.foldl_nil, List.cons_append]
  have hpart : ∀ k, k < data.length + 2 → ∀ g, g ≠ "_" ++ f → crashAfter k (saveBig f data) s g = s g := by
    intro k hk g hg
    unfold crashAfter
    refine run_tmp ("_" ++ f) _ s (fun c hc => hpre c ?_) g hg
    simp only [saveBig] at hc
    rw [List.take_append_of_le_length (by simp; omega)] at hc
    exact List.mem_of_mem_take hc
  have hwritten : ((.create ("_" ++ f) :: (data.map fun b => .write ("_" ++ f) b) : List FCall).foldl FCall.run s) ("_" ++ f) =
      some data := by
    rw [List.foldl_cons]
    have := run_writes ("_" ++ f) data [] (FCall.run s (.create ("_" ++ f))) (by simp [FCall.run])
    simpa using this
  have hdone : ∀ k, data.length + 2 ≤ k → crashAfter k (saveBig f data) s f = some data := by
    intro k hk
    rw [hfull k hk]
    simp only [FCall.run]
    rw [Function.update_of_ne (fun h => htmp h.symm), Function.update_self]
    exact hwritten
  refine ⟨?_, hdone k, fun g hgf hg => ?_⟩
  · rcases Nat.lt_or_ge k (data.length + 2) with h | h
    · exact Or.inl (hpart k h f (fun h => htmp h.symm))
    · exact Or.inr (hdone k h)
  · rcases Nat.lt_or_ge k (data.length + 2) with h | h
    · exact hpart k h g hg
    · rw [hfull k h]
      simp only [FCall.run]
      rw [Function.update_of_ne hg, Function.update_of_ne hgf]
      exact run_tmp _ _ s hpre g hg

/-- The parameter file is saved without this protection: dying in the middle leaves a truncated file. (Not part of C49, which is about
big dictionaries.) -/
theorem C49_small_files_not_atomic (f : String) (a b : ℕ) (data : List ℕ) (s : Files) :
    (crashAfter 2 (saveSmall f (a :: b :: data)) s) f = some [a] := by
  simp [crashAfter, saveSmall, FCall.run]

/-- C49 on a case. -/
example (s : Files) (h : s "x" = some [9]) :
    (crashAfter 2 (saveBig "x" [1, 2]) s) "x" = some [9] ∧ (crashAfter 4 (saveBig "x" [1, 2]) s) "x" = some [1, 2] := by
  obtain ⟨-, h2, -⟩ := C49_atomic "x" [1, 2] s 4
  refine ⟨?_, h2 (by simp)⟩
  simp [crashAfter, saveBig, FCall.run, h]

end Feyn
