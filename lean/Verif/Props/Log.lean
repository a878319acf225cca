import Verif.Spec.Log
import Mathlib.Tactic.IntervalCases
import Mathlib.Tactic.FinCases
import Mathlib.Data.List.TakeWhile

/-! # The log of a simulation (C101) -/

namespace Feyn

/-- What the members of the logger are after the configuration `last`. -/
private structure LogRel (canOpen : String → Bool) (c : LogConf) (s : LogState) : Prop where
  configured : s.configured = true
  name : s.name = "[" ++ c.name ++ "]"
  conf : s.conf = c.conf
  fileLevel : s.fileLevel = toUnsigned c.fileLevel
  screenLevel : s.screenLevel = toUnsigned c.screenLevel
  out : s.out = if logToFile c.conf && canOpen c.file then some c.file else none
  good : s.out.isSome → s.good = true

private def LogOk (canOpen : String → Bool) : Option LogConf → LogState → Prop
  | none, s => s.Fresh
  | some c, s => LogRel canOpen c s

private theorem configure_ok {canOpen : String → Bool} {last : Option LogConf} {s : LogState} (h : LogOk canOpen last s) (c : LogConf) :
    LogRel canOpen c (s.configure canOpen c) ∧ (s.configure canOpen c).files = s.files ∧ (s.configure canOpen c).screen = s.screen := by
  have hout : ¬ logToFile s.conf = true → s.out = none := by
    intro hb
    cases last with
    | none => exact h.2
    | some c' =>
      have h' : LogRel canOpen c' s := h
      rw [h'.out]
      rw [h'.conf] at hb
      simp [hb]
  cases h1 : logToFile s.conf
  · have ho := hout (by simp [h1])
    cases h2 : logToFile c.conf <;> cases h3 : canOpen c.file <;> refine ⟨⟨?_, ?_, ?_, ?_, ?_, ?_, ?_⟩, ?_, ?_⟩ <;>
      simp [LogState.configure, LogState.openFile, h1, h2, h3, ho]
  · cases h2 : logToFile c.conf <;> cases h3 : canOpen c.file <;> refine ⟨⟨?_, ?_, ?_, ?_, ?_, ?_, ?_⟩, ?_, ?_⟩ <;>
      simp [LogState.configure, LogState.close, LogState.openFile, h1, h2, h3]

private theorem level_le {x : ℤ} {n : ℕ} : toUnsigned x ≤ n ↔ x % 2 ^ 32 ≤ n := by
  unfold toUnsigned
  omega

private theorem bit0 (n : ℕ) : logToFile n = true ↔ n % 2 = 1 := by
  unfold logToFile
  rw [Nat.testBit_zero, decide_eq_true_eq]

private theorem bit2 (n : ℕ) : logToScreen n = true ↔ n / 4 % 2 = 1 := by
  unfold logToScreen
  rw [Nat.testBit_eq_decide_div_mod_eq, decide_eq_true_eq]

private theorem write_ok {canOpen : String → Bool} {c : LogConf} {s : LogState} (h : LogRel canOpen c s) (hb : logToFile c.conf = true) (t : String) :
    LogRel canOpen c (s.write t) ∧ (∀ F, (s.write t).files F = s.files F ++ if c.file = F ∧ canOpen F then t ++ "\n" else "") ∧ (s.write t).screen = s.screen := by
  have ho := h.out
  have hg := h.good
  rw [hb, Bool.true_and] at ho
  cases h3 : canOpen c.file
  · rw [h3] at ho
    simp only [Bool.false_eq_true, if_false] at ho
    have e : s.write t = { s with good := false } := by
      unfold LogState.write
      rw [ho]
      cases s.good <;> rfl
    rw [e]
    refine ⟨⟨h.configured, h.name, h.conf, h.fileLevel, h.screenLevel, h.out, by simp [ho]⟩, fun F => ?_, rfl⟩
    rw [if_neg]
    · simp
    · rintro ⟨rfl, h⟩
      rw [h3] at h
      exact Bool.false_ne_true h
  · rw [h3, if_pos rfl] at ho
    have e : s.write t = { s with files := Function.update s.files c.file (s.files c.file ++ t ++ "\n") } := by
      unfold LogState.write
      rw [ho, hg (by rw [ho]; rfl)]
    rw [e]
    refine ⟨⟨h.configured, h.name, h.conf, h.fileLevel, h.screenLevel, h.out, h.good⟩, fun F => ?_, rfl⟩
    by_cases hF : c.file = F
    · subst hF
      simp [h3, String.append_assoc]
    · simp [Function.update_of_ne (Ne.symm hF), hF]

private theorem print_ok {canOpen : String → Bool} {c : LogConf} {s : LogState} (h : LogRel canOpen c s) {m : LogMsg} (hm : m.level < 4) :
    ∃ s', s.print m = some s' ∧ LogRel canOpen c s' ∧
      (∀ F, s'.files F = s.files F ++ if c.file = F ∧ canOpen F ∧ c.conf % 2 = 1 ∧ c.fileLevel % 2 ^ 32 ≤ m.level then shownText c m else "") ∧
      s'.screen = s.screen ++ if c.conf / 4 % 2 = 1 ∧ c.screenLevel % 2 ^ 32 ≤ m.level then shownText c m else "" := by
  obtain ⟨l, hl⟩ : ∃ l, logStr m.level = some l := by
    unfold logStr
    exact ⟨_, List.getElem?_eq_getElem (by simpa using hm)⟩
  have hname : logText s.name l m ++ "\n" = shownText c m := by rw [shownText, hl, h.name]; rfl
  have hsc : ∀ (s1 : LogState), LogRel canOpen c s1 → (if logToScreen s1.conf && decide (s1.screenLevel ≤ m.level) then { s1 with screen := s1.screen ++ logText s.name l m ++ "\n" } else s1) =
      { s1 with screen := s1.screen ++ if c.conf / 4 % 2 = 1 ∧ c.screenLevel % 2 ^ 32 ≤ m.level then shownText c m else "" } := by
    intro s1 k
    rw [show logToScreen s1.conf = logToScreen c.conf by rw [k.conf], show decide (s1.screenLevel ≤ m.level) = decide (toUnsigned c.screenLevel ≤ m.level) by rw [k.screenLevel]]
    by_cases hb : logToScreen c.conf = true ∧ toUnsigned c.screenLevel ≤ m.level
    · rw [if_pos (by simpa using hb), if_pos ⟨(bit2 _).1 hb.1, level_le.1 hb.2⟩, ← hname, String.append_assoc]
    · rw [if_neg (by simpa using hb), if_neg (fun k => hb ⟨(bit2 _).2 k.1, level_le.2 k.2⟩)]
      simp
  have hfi : ∃ s1, (if logToFile s.conf && decide (s.fileLevel ≤ m.level) then s.write (logText s.name l m) else s) = s1 ∧ LogRel canOpen c s1 ∧
      (∀ F, s1.files F = s.files F ++ if c.file = F ∧ canOpen F ∧ c.conf % 2 = 1 ∧ c.fileLevel % 2 ^ 32 ≤ m.level then shownText c m else "") ∧ s1.screen = s.screen := by
    rw [h.conf, h.fileLevel]
    by_cases hb : logToFile c.conf = true ∧ toUnsigned c.fileLevel ≤ m.level
    · rw [if_pos (by simpa using hb)]
      obtain ⟨w1, w2, w3⟩ := write_ok h hb.1 (logText s.name l m)
      refine ⟨_, rfl, w1, fun F => ?_, w3⟩
      have hb1 := (bit0 _).1 hb.1
      have hb2 := level_le.1 hb.2
      rw [w2 F, hname]
      simp only [hb1, hb2, and_self, and_true]
    · rw [if_neg (by simpa using hb)]
      refine ⟨_, rfl, h, fun F => ?_, rfl⟩
      rw [if_neg (fun k => hb ⟨(bit0 _).2 k.2.2.1, level_le.2 k.2.2.2⟩)]
      simp
  obtain ⟨s1, e1, r1, f1, c1⟩ := hfi
  refine ⟨{ s1 with screen := s1.screen ++ if c.conf / 4 % 2 = 1 ∧ c.screenLevel % 2 ^ 32 ≤ m.level then shownText c m else "" }, ?_, ?_, f1, ?_⟩
  · unfold LogState.print
    rw [h.configured, hl]
    simp only [Bool.not_true, Bool.false_eq_true, if_false]
    rw [e1, hsc s1 r1]
  · exact ⟨r1.configured, r1.name, r1.conf, r1.fileLevel, r1.screenLevel, r1.out, r1.good⟩
  · rw [← c1]

/-- **C101.** Whatever the uses of the logger: every file grows by the messages that belong to it, in order, and the screen by its messages. -/
theorem C101_run (canOpen : String → Bool) {s : LogState} (hs : s.Fresh) {calls : List LogCall} (hc : KnownLevels calls) :
    ∃ s', s.run canOpen calls = some s' ∧ (∀ F, s'.files F = s.files F ++ fileText canOpen F none calls) ∧ s'.screen = s.screen ++ screenText none calls := by
  have key : ∀ (calls : List LogCall) (last : Option LogConf) (s : LogState), LogOk canOpen last s → KnownLevels calls →
      ∃ s', s.run canOpen calls = some s' ∧ (∀ F, s'.files F = s.files F ++ fileText canOpen F last calls) ∧ s'.screen = s.screen ++ screenText last calls := by
    intro calls
    induction calls with
    | nil => intro last s _ _; exact ⟨s, by rw [LogState.run], fun F => by rw [fileText, String.append_empty], by rw [screenText, String.append_empty]⟩
    | cons x calls ih =>
      intro last s h hc
      have hc' : KnownLevels calls := fun m hm => hc m (List.mem_cons_of_mem _ hm)
      cases x with
      | conf c =>
        obtain ⟨h1, h2, h3⟩ := configure_ok h c
        obtain ⟨s', k1, k2, k3⟩ := ih (some c) _ h1 hc'
        refine ⟨s', by rw [LogState.run]; exact k1, fun F => ?_, ?_⟩
        · rw [k2 F, h2, fileText]
        · rw [k3, h3, screenText]
      | print m =>
        cases last with
        | none =>
          have hf : s.Fresh := h
          obtain ⟨s', k1, k2, k3⟩ := ih none { s with screen := s.screen ++ "ERROR: Logger not configured!\n" } ⟨hf.1, hf.2⟩ hc'
          refine ⟨s', ?_, fun F => by rw [k2 F, fileText, filePart, String.empty_append], ?_⟩
          · rw [LogState.run, LogState.print, if_pos (by rw [hf.1]; rfl), Option.bind_some]
            exact k1
          · rw [k3, screenText, screenPart, String.append_assoc]
        | some c =>
          obtain ⟨s1, h1, h2, h3, h4⟩ := print_ok (canOpen := canOpen) (c := c) h (hc m (List.mem_cons_self ..))
          obtain ⟨s', k1, k2, k3⟩ := ih (some c) s1 h2 hc'
          refine ⟨s', ?_, fun F => ?_, ?_⟩
          · rw [LogState.run, h1, Option.bind_some]
            exact k1
          · rw [k2 F, h3, fileText, filePart, String.append_assoc]
          · rw [k3, h4, screenText, screenPart, String.append_assoc]
  exact key calls none s hs hc

private theorem fileText_append (canOpen : String → Bool) (F : String) (c : LogConf) (A : List LogCall) (B : List LogCall) (last : Option LogConf) :
    fileText canOpen F last (A ++ .conf c :: B) = fileText canOpen F last A ++ fileText canOpen F (some c) B := by
  induction A generalizing last with
  | nil => rw [List.nil_append, fileText, fileText, String.empty_append]
  | cons x A ih => cases x <;> rw [List.cons_append, fileText, ih] <;> rw [fileText]; rw [String.append_assoc]

private theorem screenText_append (c : LogConf) (A : List LogCall) (B : List LogCall) (last : Option LogConf) :
    screenText last (A ++ .conf c :: B) = screenText last A ++ screenText (some c) B := by
  induction A generalizing last with
  | nil => rw [List.nil_append, screenText, screenText, String.empty_append]
  | cons x A ih => cases x <;> rw [List.cons_append, screenText, ih] <;> rw [screenText]; rw [String.append_assoc]

private theorem fileText_prints (canOpen : String → Bool) (F : String) (last : Option LogConf) (L : List LogMsg) (B : List LogCall) :
    fileText canOpen F last (L.map .print ++ B) = L.foldr (fun m t => filePart canOpen F last m ++ t) (fileText canOpen F last B) := by
  induction L with
  | nil => rfl
  | cons m L ih => rw [List.map_cons, List.cons_append, fileText, ih, List.foldr_cons]

private theorem screenText_prints (last : Option LogConf) (L : List LogMsg) (B : List LogCall) :
    screenText last (L.map .print ++ B) = L.foldr (fun m t => screenPart last m ++ t) (screenText last B) := by
  induction L with
  | nil => rfl
  | cons m L ih => rw [List.map_cons, List.cons_append, screenText, ih, List.foldr_cons]

private theorem foldr_split (f : LogMsg → String) (L : List LogMsg) (t : String) :
    L.foldr (fun m t => f m ++ t) t = L.foldr (fun m t => f m ++ t) "" ++ t := by
  induction L with
  | nil => rw [List.foldr_nil, List.foldr_nil, String.empty_append]
  | cons m L ih => rw [List.foldr_cons, List.foldr_cons, ih, String.append_assoc]

/-- **C101.** A file that no configuration names is left as it is. -/
theorem C101_other (canOpen : String → Bool) {s s' : LogState} (hs : s.Fresh) {calls : List LogCall} (hc : KnownLevels calls) (h : s.run canOpen calls = some s') {F : String}
    (hF : ∀ c, LogCall.conf c ∈ calls → c.file ≠ F) : s'.files F = s.files F := by
  obtain ⟨_, h1, h2, _⟩ := C101_run canOpen hs hc
  rw [h] at h1
  cases h1
  rw [h2 F]
  have key : ∀ (calls : List LogCall) (last : Option LogConf), (∀ c, last = some c → c.file ≠ F) → (∀ c, LogCall.conf c ∈ calls → c.file ≠ F) → fileText canOpen F last calls = "" := by
    intro calls
    induction calls with
    | nil => intro last _ _; rw [fileText]
    | cons x calls ih =>
      intro last hl hF
      have hF' : ∀ c, LogCall.conf c ∈ calls → c.file ≠ F := fun c hc => hF c (List.mem_cons_of_mem _ hc)
      cases x with
      | conf c =>
        rw [fileText]
        exact ih _ (fun d hd => by cases hd; exact hF c (List.mem_cons_self ..)) hF'
      | print m =>
        rw [fileText, ih _ hl hF', String.append_empty]
        cases last with
        | none => rfl
        | some c => rw [filePart, if_neg (fun h => hl c rfl h.1)]
  rw [key calls none (fun c h => by cases h) hF, String.append_empty]

/-- **C101.** A job that stops with `ABORT` or `THROW` has its message at the end of its log and of the screen, whatever happened before. -/
theorem C101_error (canOpen : String → Bool) {s : LogState} (hs : s.Fresh) {A : List LogCall} (hA : KnownLevels A) {L : List LogMsg} (hL : ∀ m ∈ L, m.level < 4) {file type : String}
    (hf : canOpen file = true) (path : List Char) (line : ℕ) (msg : String) (t : Tm) :
    ∃ s' before seen, s.run canOpen (A ++ .conf (jobConf file type) :: (L.map .print ++ [(throwCalls path line msg t).1])) = some s' ∧
      s'.files file = s.files file ++ (before ++ ("[" ++ type ++ "]" ++ "[ERROR]" ++ logStamp t ++ "@[" ++ String.ofList (logFileName path) ++ ":" ++ toString line ++ "]\n" ++
        ("Exception throwed: " ++ msg) ++ "\n" ++ "\n")) ∧
      s'.screen = s.screen ++ (seen ++ ("[" ++ type ++ "]" ++ "[ERROR]" ++ logStamp t ++ "@[" ++ String.ofList (logFileName path) ++ ":" ++ toString line ++ "]\n" ++
        ("Exception throwed: " ++ msg) ++ "\n" ++ "\n")) := by
  have hk : KnownLevels (A ++ .conf (jobConf file type) :: (L.map .print ++ [(throwCalls path line msg t).1])) := by
    intro m hm
    simp only [List.mem_append, List.mem_cons, List.mem_map, throwCalls, List.not_mem_nil, or_false] at hm
    rcases hm with hm | hm | ⟨x, hx, hm⟩ | hm
    · exact hA m hm
    · cases hm
    · cases hm; exact hL _ hx
    · cases hm; show 3 < 4; omega
  obtain ⟨s', h1, h2, h3⟩ := C101_run canOpen hs hk
  refine ⟨s', fileText canOpen file none A ++ L.foldr (fun m t => filePart canOpen file (some (jobConf file type)) m ++ t) "",
    screenText none A ++ L.foldr (fun m t => screenPart (some (jobConf file type)) m ++ t) "", h1, ?_, ?_⟩
  · rw [h2 file, fileText_append, fileText_prints, foldr_split, throwCalls, fileText, fileText, filePart, String.append_empty,
      if_pos ⟨rfl, hf, by simp [jobConf], by simp [jobConf]⟩, ← String.append_assoc (s₁ := fileText canOpen file none A)]
    rfl
  · rw [h3, screenText_append, screenText_prints, foldr_split, throwCalls, screenText, screenText, screenPart, String.append_empty,
      if_pos ⟨by simp [jobConf], by simp [jobConf]⟩, ← String.append_assoc (s₁ := screenText none A)]
    rfl

/-- **C101.** A process: what is said before the environment of the job is built or loaded goes to `test.log`, what is said after it to the log of the job, and all of it to the screen; messages of the
level `DEBUG` are dropped. -/
theorem C101_process (canOpen : String → Bool) {s : LogState} (hs : s.Fresh) {E L : List LogMsg} (hE : ∀ m ∈ E, m.level < 4) (hL : ∀ m ∈ L, m.level < 4) {file type : String}
    (ht : canOpen "test.log" = true) (hf : canOpen file = true) (hne : file ≠ "test.log") :
    ∃ s', s.run canOpen (.conf testConf :: (E.map .print ++ .conf (jobConf file type) :: L.map .print)) = some s' ∧
      s'.files "test.log" = s.files "test.log" ++ E.foldr (fun m t => (if 1 ≤ m.level then shownText testConf m else "") ++ t) "" ∧
      s'.files file = s.files file ++ L.foldr (fun m t => (if 1 ≤ m.level then shownText (jobConf file type) m else "") ++ t) "" ∧
      s'.screen = s.screen ++ (E.foldr (fun m t => (if 1 ≤ m.level then shownText testConf m else "") ++ t) "" ++
        L.foldr (fun m t => (if 1 ≤ m.level then shownText (jobConf file type) m else "") ++ t) "") := by
  have hk : KnownLevels (.conf testConf :: (E.map .print ++ .conf (jobConf file type) :: L.map .print)) := by
    intro m hm
    simp only [List.mem_append, List.mem_cons, List.mem_map] at hm
    rcases hm with hm | ⟨x, hx, hm⟩ | hm | ⟨x, hx, hm⟩
    · cases hm
    · cases hm; exact hE _ hx
    · cases hm
    · cases hm; exact hL _ hx
  obtain ⟨s', h1, h2, h3⟩ := C101_run canOpen hs hk
  have p1 : ∀ F c (L : List LogMsg), fileText canOpen F (some c) (L.map LogCall.print) = L.foldr (fun m t => filePart canOpen F (some c) m ++ t) "" := fun F c L => by
    rw [← List.append_nil (L.map LogCall.print), fileText_prints, fileText]
  have p2 : ∀ c (L : List LogMsg), screenText (some c) (L.map LogCall.print) = L.foldr (fun m t => screenPart (some c) m ++ t) "" := fun c L => by
    rw [← List.append_nil (L.map LogCall.print), screenText_prints, screenText]
  have lv : ∀ m : LogMsg, ((1 : ℤ) % 2 ^ 32 ≤ m.level) ↔ 1 ≤ m.level := fun m => by norm_num
  have own : ∀ (c : LogConf), c.conf % 2 = 1 → c.fileLevel = 1 → canOpen c.file = true → (fun (m : LogMsg) (t : String) => filePart canOpen c.file (some c) m ++ t) =
      fun m t => (if 1 ≤ m.level then shownText c m else "") ++ t := by
    intro c k1 k2 k3
    funext m t
    rw [filePart, k1, k2, k3]
    simp only [lv, true_and]
  have foreign : ∀ (c : LogConf) F, c.file ≠ F → ∀ L : List LogMsg, L.foldr (fun (m : LogMsg) (t : String) => filePart canOpen F (some c) m ++ t) "" = "" := by
    intro c F k L
    induction L with
    | nil => rfl
    | cons m L ih => rw [List.foldr_cons, ih, filePart, if_neg (fun h => k h.1), String.empty_append]
  have scr : ∀ (c : LogConf), c.conf / 4 % 2 = 1 → c.screenLevel = 1 → (fun (m : LogMsg) (t : String) => screenPart (some c) m ++ t) =
      fun m t => (if 1 ≤ m.level then shownText c m else "") ++ t := by
    intro c k1 k2
    funext m t
    rw [screenPart, k1, k2]
    simp only [lv, true_and]
  refine ⟨s', h1, ?_, ?_, ?_⟩
  · rw [h2, fileText, fileText_append, p1, p1, foreign (jobConf file type) "test.log" hne, String.append_empty]
    rw [show (fun (m : LogMsg) (t : String) => filePart canOpen "test.log" (some testConf) m ++ t) = _ from own testConf (by simp [testConf]) rfl ht]
  · rw [h2, fileText, fileText_append, p1, p1, foreign testConf file (Ne.symm hne), String.empty_append]
    rw [show (fun (m : LogMsg) (t : String) => filePart canOpen file (some (jobConf file type)) m ++ t) = _ from own (jobConf file type) (by simp [jobConf]) rfl hf]
  · rw [h3, screenText, screenText_append, p2, p2, scr testConf (by simp [testConf]) rfl, scr (jobConf file type) (by simp [jobConf]) rfl]

/-- **C101.** The source of a message is the part of the path after its last separator. -/
theorem C101_source (dir name : List Char) (sep : Char) (hsep : sep = '/' ∨ sep = '\\') (hn : ∀ c ∈ name, c ≠ '/' ∧ c ≠ '\\') : logFileName (dir ++ sep :: name) = name := by
  unfold logFileName
  have hb : (sep == '\\' || sep == '/') = true := by rcases hsep with rfl | rfl <;> rfl
  rw [if_pos (by rw [List.any_append, List.any_cons, hb]; simp), List.reverse_append, List.reverse_cons, List.append_assoc, List.takeWhile_append_of_pos]
  · rw [List.singleton_append, List.takeWhile_cons_of_neg (by rw [hb]; simp), List.append_nil, List.reverse_reverse]
  · intro c hc
    have := hn c (List.mem_reverse.1 hc)
    simp [this.1, this.2]

/-- **C101** fails in this form: a source that is compiled under a path without a separator has no name in the log. -/
theorem C101_refuted_source (path : List Char) (h : ∀ c ∈ path, c ≠ '/' ∧ c ≠ '\\') : logFileName path = [] := by
  unfold logFileName
  rw [if_neg]
  rw [List.any_eq_true]
  rintro ⟨c, hc, h1⟩
  have := h c hc
  simp [this.1, this.2] at h1

/-- **C101** fails in this form: the date in the log is never that of the calendar: the month is one less, so that January is the month 0. -/
theorem C101_refuted_month (t : Tm) (h : t.mon < 12) : logStamp t ≠ calendarStamp t ∧ logStamp { t with mon := t.mon + 1 } = calendarStamp t := by
  refine ⟨fun e => ?_, rfl⟩
  unfold logStamp calendarStamp at e
  simp only [String.append_assoc] at e
  have e1 := congrArg String.toList e
  simp only [String.toList_append] at e1
  have e2 := List.append_cancel_left (List.append_cancel_left (List.append_cancel_left e1))
  have e3 := List.append_cancel_right e2
  generalize t.mon = n at h e3
  interval_cases n <;> revert e3 <;> decide

/-- A simulation: the job 7 of the Monte Carlo says that it starts, drops a debug message, and stops with an error; the old log is kept. -/
example : let s : LogState := ⟨false, "", "", 5, 0, 0, none, true, fun F => if F = "7.log" then "old\n" else "", ""⟩
    ∃ s', s.run (fun _ => true) [.conf testConf, .print ⟨1, "a/main.cpp".toList, 10, "start", ⟨126, 10, 16, 9, 5, 3⟩⟩, .conf (jobConf "7.log" "MC"),
        .print ⟨0, "a/b/x.cpp".toList, 11, "detail", ⟨126, 10, 16, 9, 5, 4⟩⟩, (throwCalls "a/b/x.cpp".toList 12 "bad" ⟨126, 0, 16, 9, 5, 5⟩).1] = some s' ∧
      s'.files "test.log" = "[test][INFO][26/10/16 9:5:3]@[main.cpp:10]\nstart\n\n" ∧
      s'.files "7.log" = "old\n[MC][ERROR][26/0/16 9:5:5]@[x.cpp:12]\nException throwed: bad\n\n" := by
  refine ⟨_, rfl, ?_, ?_⟩ <;> decide +kernel

end Feyn
