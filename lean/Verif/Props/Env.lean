import Verif.Spec.Env
import Verif.Props.Monitor
import Verif.Props.Check
import Verif.Props.Diagram
import Verif.Proof.Load

/-!
# C35, C52: messages and the main loop
-/

namespace Feyn

set_option linter.unusedSectionVars false

section
variable {Q F : Type} [Field Q] [LinearOrder Q] [FloorRing Q] [Field F] [Algebra Q F]
variable {near : F → F → Bool}

theorem loadMessage_full {m : Message Q} : loadMessage (some (MessageDict.full m)) = .ok (some m) := rfl

/-- The guard of `ListenToMessage`. -/
def Listening (e : Env Q F) : Prop := e.chain.P.runGamma3 = false ∨ e.chain.d.hasGamma = 0

theorem listen_of {e : Env Q F} (h : Listening e) (fs : MsgFiles Q F) :
    listen near e fs = (loadMessage fs.message >>= fun o => match o with
      | none => .ok (false, e)
      | some msg =>
        if e.version ≥ msg.version then .ok (false, e)
        else match fs.weights with
          | none => .ok (false, e)
          | some w => applyMessage near e fs msg w >>= fun e => .ok (true, e)) := by
  unfold listen
  rw [if_pos (by rcases h with h | h <;> simp [h])]
  rfl

/-- **C35**, unreadable message: nothing changes. -/
theorem C35_unreadable {e : Env Q F} (h : Listening e) {fs : MsgFiles Q F} (hm : fs.message = none) :
    listen near e fs = .ok (false, e) := by
  rw [listen_of h, hm]; rfl

/-- **C35**, stale or repeated message: nothing changes. -/
theorem C35_stale {e : Env Q F} (h : Listening e) {fs : MsgFiles Q F} {m : Message Q} (hm : fs.message = some (MessageDict.full m))
    (hv : m.version ≤ e.version) : listen near e fs = .ok (false, e) := by
  rw [listen_of h, hm, loadMessage_full, Res.ok_bind]
  simp only
  rw [if_pos hv]

/-- **C35**, weights not readable yet: nothing changes, the message will be looked at again. -/
theorem C35_no_weights {e : Env Q F} (h : Listening e) {fs : MsgFiles Q F} {m : Message Q}
    (hm : fs.message = some (MessageDict.full m)) (hw : fs.weights = none) : listen near e fs = .ok (false, e) := by
  rw [listen_of h, hm, loadMessage_full, Res.ok_bind]
  simp only
  split_ifs
  · rfl
  · rw [hw]

/-- The parameters that a message cannot change. -/
structure SameSetup (P P' : Params Q F) : Prop where
  maxOrd : P'.maxOrd = P.maxOrd
  run : P'.runGamma3 = P.runGamma3
  lx : P'.lx = P.lx
  ly : P'.ly = P.ly
  nsub : P'.nsub = P.nsub
  order : P'.orderRW = P.orderRW
  worm : P'.wormRW = P.wormRW
  polar : P'.polarRW = P.polarRW
  gammaG : P'.gammaGRW = P.gammaGRW
  gammaW : P'.gammaWRW = P.gammaWRW
  mod : P'.mod = P.mod
  ph : P'.ph = P.ph

theorem readGW_ok {fs : MsgFiles Q F} {w : WeightFile Q F} {P P' : Params Q F} (h : readGW fs w P = .ok P') :
    SameSetup P P' ∧ P'.beta = P.beta := by
  unfold readGW at h
  obtain ⟨_, -, h⟩ := bind_eq_ok h
  obtain ⟨_, -, h⟩ := bind_eq_ok h
  cases hw : w.gw with
  | none => rw [hw] at h; cases h
  | some t => rw [hw] at h; cases h; exact ⟨⟨rfl, rfl, rfl, rfl, rfl, rfl, rfl, rfl, rfl, rfl, rfl, rfl⟩, rfl⟩

theorem readGammaGW_ok {fs : MsgFiles Q F} {w : WeightFile Q F} {P P' : Params Q F} (h : readGammaGW fs w P = .ok P') :
    SameSetup P P' ∧ P'.beta = P.beta := by
  unfold readGammaGW at h
  obtain ⟨_, -, h⟩ := bind_eq_ok h
  obtain ⟨_, -, h⟩ := bind_eq_ok h
  simp only at h
  cases hg : w.gg with
  | none =>
    rw [hg] at h
    cases hw : w.ww with
    | none => rw [hw] at h; cases h
    | some t => rw [hw] at h; cases h; exact ⟨⟨rfl, rfl, rfl, rfl, rfl, rfl, rfl, rfl, rfl, rfl, rfl, rfl⟩, rfl⟩
  | some g =>
    rw [hg] at h
    cases hw : w.ww with
    | none => rw [hw] at h; cases h
    | some t => rw [hw] at h; cases h; exact ⟨⟨rfl, rfl, rfl, rfl, rfl, rfl, rfl, rfl, rfl, rfl, rfl, rfl⟩, rfl⟩

theorem SameSetup.trans {P P' P'' : Params Q F} (h : SameSetup P P') (k : SameSetup P' P'') : SameSetup P P'' :=
  ⟨k.maxOrd.trans h.maxOrd, k.run.trans h.run, k.lx.trans h.lx, k.ly.trans h.ly, k.nsub.trans h.nsub, k.order.trans h.order,
    k.worm.trans h.worm, k.polar.trans h.polar, k.gammaG.trans h.gammaG, k.gammaW.trans h.gammaW, k.mod.trans h.mod, k.ph.trans h.ph⟩

theorem applyMessage_ok {e e' : Env Q F} {fs : MsgFiles Q F} {m : Message Q} {w : WeightFile Q F}
    (h : applyMessage near e fs m w = .ok e') :
    e'.version = m.version ∧ e'.chain.P.beta = m.beta ∧ e'.temp = 1 / m.beta ∧ SameSetup e.chain.P e'.chain.P ∧
      e'.timeRatio = e.timeRatio ∧
      fixDiagram e'.chain.P e.chain.d = .ok e'.chain.d ∧ e'.chain = { e.chain with P := e'.chain.P, d := e'.chain.d } ∧
      (e.mon.annealWeights m.beta).squeeze e'.chain.P m.squeeze = .ok e'.mon ∧
      checkDiagram near e'.chain.P e'.chain.d = .ok true := by
  unfold applyMessage at h
  simp only at h
  obtain ⟨P1, h1, h⟩ := bind_eq_ok h
  obtain ⟨k1, b1⟩ := readGW_ok h1
  have : ∃ P2, (SameSetup P1 P2 ∧ P2.beta = P1.beta) ∧ (do
      let d ← fixDiagram P2 e.chain.d
      let mon ← (e.mon.annealWeights P2.beta).squeeze P2 m.squeeze
      let good ← checkDiagram near P2 d
      if good then
        Res.ok { e with version := m.version, temp := 1 / m.beta, chain := { e.chain with P := P2, d := d }, mon := mon }
      else .abort) = .ok e' := by
    by_cases hr : P1.runGamma3 = true
    · rw [if_pos hr] at h
      obtain ⟨P2, h2, h⟩ := bind_eq_ok h
      exact ⟨P2, readGammaGW_ok h2, h⟩
    · rw [if_neg hr] at h
      exact ⟨P1, ⟨⟨rfl, rfl, rfl, rfl, rfl, rfl, rfl, rfl, rfl, rfl, rfl, rfl⟩, rfl⟩, h⟩
  obtain ⟨P2, k2, h⟩ := this
  obtain ⟨d, h3, h⟩ := bind_eq_ok h
  obtain ⟨mon, h4, h⟩ := bind_eq_ok h
  obtain ⟨b, h5, h⟩ := bind_eq_ok h
  cases b with
  | false => simp at h
  | true =>
    simp only [if_true] at h
    have hb : P2.beta = m.beta := by rw [k2.2, b1]
    rw [hb] at h4
    cases h
    refine ⟨rfl, hb, rfl, ?_, rfl, h3, rfl, h4, h5⟩
    have k1' : SameSetup e.chain.P P1 :=
      ⟨k1.maxOrd, k1.run, k1.lx, k1.ly, k1.nsub, k1.order, k1.worm, k1.polar, k1.gammaG, k1.gammaW, k1.mod, k1.ph⟩
    exact k1'.trans k2.1

/-- **C35**, what a call did, whatever the files contain: if it reports no update nothing has changed; if it reports an update there
was a readable message of a larger version, version, `beta` and temperature are those of the message, the reweighting factors and the
lattice are kept, the statistics are the old ones squeezed, the diagram is the old one with new weights and it passed the
self check. Missing from the property as stated: calls while a composite line is present, which are undefined
(`C35_refuted_composite`), and unreadable messages in the sense of missing keys, which end the program (`C35_refuted_keys`). -/
theorem C35_listen_partial {e e' : Env Q F} {fs : MsgFiles Q F} {b : Bool} (h : listen near e fs = .ok (b, e')) :
    (b = false → e' = e) ∧
    (b = true → ∃ m, loadMessage fs.message = .ok (some m) ∧ fs.weights ≠ none ∧ e.version < m.version ∧
      e'.version = m.version ∧ e'.chain.P.beta = m.beta ∧ e'.temp = 1 / m.beta ∧ SameSetup e.chain.P e'.chain.P ∧
      e'.timeRatio = e.timeRatio ∧
      fixDiagram e'.chain.P e.chain.d = .ok e'.chain.d ∧ e'.chain = { e.chain with P := e'.chain.P, d := e'.chain.d } ∧
      (e.mon.annealWeights m.beta).squeeze e'.chain.P m.squeeze = .ok e'.mon ∧
      checkDiagram near e'.chain.P e'.chain.d = .ok true) := by
  by_cases hl : Listening e
  swap
  · unfold listen at h
    rw [if_neg (by intro q; apply hl; unfold Listening; simpa using q)] at h
    cases h
  rw [listen_of hl] at h
  obtain ⟨o, h1, h⟩ := bind_eq_ok h
  cases o with
  | none => cases h; exact ⟨fun _ => rfl, nofun⟩
  | some m =>
    simp only at h
    by_cases hv : e.version ≥ m.version
    · rw [if_pos hv] at h; cases h; exact ⟨fun _ => rfl, nofun⟩
    rw [if_neg hv] at h
    cases hw : fs.weights with
    | none => rw [hw] at h; cases h; exact ⟨fun _ => rfl, nofun⟩
    | some w =>
      rw [hw] at h
      simp only at h
      obtain ⟨e1, h2, h⟩ := bind_eq_ok h
      cases h
      exact ⟨nofun, fun _ => ⟨m, h1, by simp, by omega, applyMessage_ok h2⟩⟩

theorem loopM_keep {β : Type} {p : β → Prop} {f : β → ℕ → Res β} (h : ∀ b i b', f b i = .ok b' → p b → p b') (l : List ℕ) {b b' : β}
    (e : loopM f b l = .ok b') (hb : p b) : p b' := by
  induction l generalizing b with
  | nil => cases e; exact hb
  | cons a l ih =>
    unfold loopM at e
    obtain ⟨b1, e1, e⟩ := bind_eq_ok e
    exact ih e (h _ _ _ e1 hb)

theorem fixDiagram_keeps_gamma {P : Params Q F} {d d' : Diag Q F} (h : fixDiagram P d = .ok d') : d'.hasGamma = d.hasGamma := by
  have hg : ∀ n, ∀ (b : Diag Q F) i b', fixG P b i = .ok b' → b.hasGamma = n → b'.hasGamma = n := by
    intro n b i b' e hb
    unfold fixG at e
    obtain ⟨_, -, e⟩ := bind_eq_ok e
    obtain ⟨_, -, e⟩ := bind_eq_ok e
    obtain ⟨_, -, e⟩ := bind_eq_ok e
    obtain ⟨_, -, e⟩ := bind_eq_ok e
    cases e
    exact hb
  have hw : ∀ n, ∀ (b : Diag Q F) i b', fixW P b i = .ok b' → b.hasGamma = n → b'.hasGamma = n := by
    intro n b i b' e hb
    unfold fixW at e
    obtain ⟨_, -, e⟩ := bind_eq_ok e
    obtain ⟨_, -, e⟩ := bind_eq_ok e
    obtain ⟨_, -, e⟩ := bind_eq_ok e
    obtain ⟨_, -, e⟩ := bind_eq_ok e
    cases e
    exact hb
  have hl : ∀ d d' : Diag Q F, fixLines P d = .ok d' → d'.hasGamma = d.hasGamma := by
    intro d d' e
    unfold fixLines at e
    simp only at e
    obtain ⟨d1, e1, e⟩ := bind_eq_ok e
    obtain ⟨d2, e2, e⟩ := bind_eq_ok e
    have k1 := loopM_keep (p := fun x : Diag Q F => x.hasGamma = d.hasGamma) (hg _) _ e1 rfl
    have k2 := loopM_keep (p := fun x : Diag Q F => x.hasGamma = d.hasGamma) (hw _) _ e2 k1
    cases e
    exact k2
  unfold fixDiagram at h
  split_ifs at h
  · obtain ⟨_, -, h⟩ := bind_eq_ok h
    obtain ⟨_, -, h⟩ := bind_eq_ok h
    exact (hl _ _ h).trans rfl
  · exact (hl _ _ h).trans rfl

/-- **C35**, applied once: after a message has been applied the same message is ignored. -/
theorem C35_once {e e' : Env Q F} {fs fs' : MsgFiles Q F} (h : listen near e fs = .ok (true, e')) (hm : fs'.message = fs.message) :
    listen near e' fs' = .ok (false, e') := by
  obtain ⟨m, h1, -, -, h2, -, -, -, -, h3, h4, -⟩ := (C35_listen_partial h).2 rfl
  have hl : Listening e' := by
    right
    have hg : e.chain.d.hasGamma = 0 := by
      by_contra q
      unfold fixDiagram at h3
      rw [if_pos q] at h3
      cases h3
    have := fixDiagram_keeps_gamma h3
    rw [this, hg]
  rw [listen_of hl, hm, h1, Res.ok_bind]
  simp only
  rw [if_pos (by omega)]

/-- **C35**, any sequence of messages, in whatever order they arrive and however often: if all of them come with a readable weight file
and the calls return, version and `beta` are those of the newest message, and the temperature fits. -/
theorem C35_run {e e' : Env Q F} {fs : List (MsgFiles Q F)} {ms : List (Message Q)}
    (hm : fs.map (fun f => f.message) = ms.map fun m => some (MessageDict.full m)) (hw : ∀ f ∈ fs, f.weights ≠ none)
    (ht : e.temp = 1 / e.chain.P.beta) (h : listens near e fs = .ok e') :
    (e'.version, e'.chain.P.beta) = newest e.version e.chain.P.beta ms ∧ e'.temp = 1 / e'.chain.P.beta := by
  induction fs generalizing e ms with
  | nil =>
    cases ms with
    | nil => cases h; exact ⟨rfl, ht⟩
    | cons => cases hm
  | cons f fs ih =>
    cases ms with
    | nil => cases hm
    | cons m ms =>
      simp only [List.map_cons, List.cons.injEq] at hm
      unfold listens at h
      obtain ⟨⟨b, e1⟩, h1, hk⟩ := bind_eq_ok (r := listen near e f) h
      unfold newest
      have hl : Listening e := by
        by_contra hl
        unfold listen at h1
        rw [if_neg (by intro q; apply hl; unfold Listening; simpa using q)] at h1
        cases h1
      cases b with
      | false =>
        have : e1 = e := (C35_listen_partial h1).1 rfl
        subst this
        have hv : ¬ e1.version < m.version := by
          intro q
          rw [listen_of hl, hm.1, loadMessage_full, Res.ok_bind] at h1
          simp only at h1
          rw [if_neg (by omega)] at h1
          cases hx : f.weights with
          | none => exact hw f (by simp) hx
          | some w =>
            rw [hx] at h1
            simp only at h1
            obtain ⟨_, -, h1⟩ := bind_eq_ok h1
            cases h1
        rw [if_neg hv]
        exact ih hm.2 (fun f hf => hw f (by simp [hf])) ht hk
      | true =>
        obtain ⟨m', k1, -, k2, k3, k4, k5, -⟩ := (C35_listen_partial h1).2 rfl
        rw [hm.1, loadMessage_full] at k1
        cases k1
        rw [if_pos k2, ← k3, ← k4]
        exact ih hm.2 (fun f hf => hw f (by simp [hf])) (by rw [k5, k4]) hk

/-- The newest version is the largest one. -/
theorem newest_max (v : ℤ) (b : Q) (ms : List (Message Q)) :
    v ≤ (newest v b ms).1 ∧ (∀ m ∈ ms, m.version ≤ (newest v b ms).1) ∧
    (newest v b ms = (v, b) ∨ ∃ m ∈ ms, newest v b ms = (m.version, m.beta)) := by
  induction ms generalizing v b with
  | nil => exact ⟨le_refl _, nofun, .inl rfl⟩
  | cons m ms ih =>
    unfold newest
    split_ifs with c
    · obtain ⟨h1, h2, h3⟩ := ih m.version m.beta
      refine ⟨by omega, ?_, ?_⟩
      · intro x hx
        rcases List.mem_cons.1 hx with rfl | hx
        · exact h1
        · exact h2 x hx
      · rcases h3 with h3 | ⟨x, hx, h3⟩
        · exact .inr ⟨m, by simp, h3⟩
        · exact .inr ⟨x, by simp [hx], h3⟩
    · obtain ⟨h1, h2, h3⟩ := ih v b
      refine ⟨h1, ?_, ?_⟩
      · intro x hx
        rcases List.mem_cons.1 hx with rfl | hx
        · omega
        · exact h2 x hx
      · rcases h3 with h3 | ⟨x, hx, h3⟩
        · exact .inl h3
        · exact .inr ⟨x, by simp [hx], h3⟩

theorem hopOne_P {c c' : Chain Q F} {o : Words} (h : hopOne c o = .ok c') : c'.P = c.P := by
  unfold hopOne at h
  cases hs : selectOp c.P (urn Q (o 0)) with
  | none => rw [hs] at h; cases h; rfl
  | some op =>
    rw [hs] at h
    obtain ⟨out, -, h⟩ := bind_eq_ok h
    cases h
    rfl

theorem hop_P {c c' : Chain Q F} {os : List Words} (h : hop c os = .ok c') : c'.P = c.P := by
  induction os generalizing c with
  | nil => cases h; rfl
  | cons o os ih =>
    unfold hop at h
    obtain ⟨c1, h1, h⟩ := bind_eq_ok h
    rw [ih h, hopOne_P h1]

end
end Feyn
