import Verif.Proof.Draws
import Verif.Proof.SimMain

/-!
# Runs on a generator
-/

namespace Feyn

section
variable {Q F : Type} [Field Q] [LinearOrder Q] [Field F]

theorem drawn_le (P : Params Q F) (op : Op) (o : Words) (d : Diag Q F) (out : Out Q F) : drawn P op o d out ≤ 8 := by
  have h1 : choiceDraws op ≤ 7 := by cases op <;> decide
  have h2 : earlyDraws o d op ≤ 3 := by
    cases op <;> unfold earlyDraws <;> dsimp only <;> first | decide | (split <;> omega)
  unfold drawn
  split_ifs <;> omega

/-- The words drawn by an iteration. -/
def hopDrawn (c : Chain Q F) (o : Words) : ℕ :=
  match selectOp c.P (urn Q (o 0)) with
  | none => 1
  | some op =>
    match runOp c.P op (fun i => o (i + 1)) c.d with
    | .ok out => 1 + drawn c.P op (fun i => o (i + 1)) c.d out
    | _ => 1

theorem hopDrawn_pos (c : Chain Q F) (o : Words) : 1 ≤ hopDrawn c o := by
  unfold hopDrawn
  split
  · exact le_refl _
  · split <;> omega

theorem hopDrawn_le (c : Chain Q F) (o : Words) : hopDrawn c o ≤ 9 := by
  unfold hopDrawn
  split
  · decide
  · rename_i op _
    split
    · rename_i out _
      have := drawn_le c.P op (fun i => o (i + 1)) c.d out
      omega
    · decide

theorem hopOneSeq_eq {c c' : Chain Q F} {o : Words} {n : ℕ} (e : hopOne c (fun i => o (n + i)) = .ok c') :
    hopOneSeq c o n = .ok (c', n + hopDrawn c (fun i => o (n + i))) := by
  unfold hopOne at e
  unfold hopOneSeq hopDrawn
  rw [draw_bind, Res.ok_bind]
  dsimp only [Nat.add_zero] at e ⊢
  cases hs : selectOp c.P (urn Q (o n)) with
  | none =>
    rw [hs] at e
    cases e
    rfl
  | some op =>
    rw [hs] at e
    dsimp only at e ⊢
    obtain ⟨out, h1, e⟩ := drawn_bind e
    cases e
    have h2 : runOp c.P op (fun i => o (n + 1 + i)) c.d = .ok out := by
      rw [← h1]
      congr 1
      funext i
      rw [show n + 1 + i = n + (i + 1) by omega]
    have h3 := runOpD_eq h2
    have h4 : (fun i => o (n + (i + 1))) = fun i => o (n + 1 + i) := by
      funext i
      rw [show n + 1 + i = n + (i + 1) by omega]
    rw [bind_draw, h3, Res.ok_bind, h1, h4]
    dsimp only
    rw [← Nat.add_assoc]
    rfl

theorem hopOne_reads {c c' : Chain Q F} {o o' : Words} (e : hopOne c o = .ok c') (h : ∀ i < hopDrawn c o, o' i = o i) :
    hopOne c o' = .ok c' ∧ hopDrawn c o' = hopDrawn c o := by
  have h0 := h 0 (hopDrawn_pos c o)
  unfold hopOne at e ⊢
  unfold hopDrawn at h ⊢
  rw [h0]
  cases hs : selectOp c.P (urn Q (o 0)) with
  | none =>
    rw [hs] at e
    exact ⟨e, rfl⟩
  | some op =>
    rw [hs] at e h
    dsimp only at e h ⊢
    obtain ⟨out, h1, e⟩ := drawn_bind e
    rw [h1] at h
    dsimp only at h
    obtain ⟨h2, h3⟩ := runOp_reads (o' := fun i => o' (i + 1)) h1 (fun i hi => h (i + 1) (by omega))
    rw [h2, h1, Res.ok_bind]
    dsimp only
    rw [h3]
    exact ⟨e, rfl⟩

/-- Where the iterations begin to draw: `n` iterations, the first at place `k`. -/
def hopStarts (o : Words) : ℕ → Chain Q F → ℕ → List ℕ
  | 0, _, _ => []
  | n + 1, c, k =>
    k :: match hopOne c (fun i => o (k + i)) with
      | .ok c' => hopStarts o n c' (k + hopDrawn c (fun i => o (k + i)))
      | _ => List.replicate n k

/-- The place after the last word drawn. -/
def hopEnd (o : Words) : ℕ → Chain Q F → ℕ → ℕ
  | 0, _, k => k
  | n + 1, c, k =>
    match hopOne c (fun i => o (k + i)) with
    | .ok c' => hopEnd o n c' (k + hopDrawn c (fun i => o (k + i)))
    | _ => k

theorem hopStarts_length (o : Words) : ∀ (n : ℕ) (c : Chain Q F) (k : ℕ), (hopStarts o n c k).length = n
  | 0, _, _ => rfl
  | n + 1, c, k => by
    unfold hopStarts
    split
    · rw [List.length_cons, hopStarts_length o n]
    · rw [List.length_cons, List.length_replicate]

/-- Runs on a stream. -/
theorem hopSeq_eq {o : Words} : ∀ {n : ℕ} {c c' : Chain Q F} {k : ℕ}, hop c ((hopStarts o n c k).map fun s i => o (s + i)) = .ok c' →
    hopSeq n c o k = .ok (c', hopEnd o n c k) := by
  intro n
  induction n with
  | zero =>
    intro c c' k e
    cases e
    rfl
  | succ n ih =>
    intro c c' k e
    unfold hopStarts at e
    rw [List.map_cons] at e
    unfold hop at e
    obtain ⟨c1, h1, e⟩ := drawn_bind e
    rw [h1] at e
    dsimp only at e
    unfold hopSeq hopEnd
    rw [bind_draw, hopOneSeq_eq h1, Res.ok_bind, h1]
    exact ih e

theorem hopEnd_ge {o : Words} : ∀ {n : ℕ} {c c' : Chain Q F} {k : ℕ}, hop c ((hopStarts o n c k).map fun s i => o (s + i)) = .ok c' →
    k + n ≤ hopEnd o n c k ∧ hopEnd o n c k ≤ k + 9 * n := by
  intro n
  induction n with
  | zero =>
    intro c c' k _
    exact ⟨le_refl _, le_refl _⟩
  | succ n ih =>
    intro c c' k e
    unfold hopStarts at e
    rw [List.map_cons] at e
    unfold hop at e
    obtain ⟨c1, h1, e⟩ := drawn_bind e
    rw [h1] at e
    dsimp only at e
    unfold hopEnd
    rw [h1]
    dsimp only
    have := ih e
    have h2 := hopDrawn_pos c (fun i => o (k + i))
    have h3 := hopDrawn_le c (fun i => o (k + i))
    omega

theorem hop_reads {o o' : Words} : ∀ {n : ℕ} {c c' : Chain Q F} {k k' : ℕ}, hop c ((hopStarts o n c k).map fun s i => o (s + i)) = .ok c' →
    (∀ i, k + i < hopEnd o n c k → o' (k' + i) = o (k + i)) →
    hop c ((hopStarts o' n c k').map fun s i => o' (s + i)) = .ok c' ∧ hopEnd o' n c k' + k = hopEnd o n c k + k' := by
  intro n
  induction n with
  | zero =>
    intro c c' k k' e _
    exact ⟨e, Nat.add_comm _ _⟩
  | succ n ih =>
    intro c c' k k' e h
    unfold hopStarts at e
    rw [List.map_cons] at e
    unfold hop at e
    obtain ⟨c1, h1, e⟩ := drawn_bind e
    rw [h1] at e
    dsimp only at e
    have hge := (hopEnd_ge e).1
    unfold hopEnd at h
    rw [h1] at h
    dsimp only at h
    obtain ⟨h2, h3⟩ := hopOne_reads (o' := fun i => o' (k' + i)) h1 (fun i hi => h i (by omega))
    have := ih (k' := k' + hopDrawn c (fun i => o' (k' + i))) e (fun i hi => by
      rw [h3, Nat.add_assoc, Nat.add_assoc]
      exact h _ (by omega))
    unfold hopStarts hopEnd
    rw [List.map_cons]
    unfold hop
    rw [h2, h1, Res.ok_bind]
    dsimp only
    refine ⟨this.1, ?_⟩
    have h5 := this.2
    rw [h3] at h5 ⊢
    omega

end

/-! ### Two diagrams with the same content draw the same words -/

section
variable {Q F : Type} [Field Q] [LinearOrder Q] [IsStrictOrderedRing Q] [Field F]
variable {P P' : Params Q F} {d d' : Diag Q F} {ρ : Ren}

omit [IsStrictOrderedRing Q] in
theorem refused_sim (T : TabEq P P') (S : Alike BSim ρ d d') (op : Op) : refused P' d' op = refused P d op := by
  cases op <;> simp only [refused, S.order, S.exist, S.measG, S.hasGamma, T.maxOrd]

theorem earlyDraws_sim (hi : Inv P d) (S : Alike BSim ρ d d') {op : Op} (hr : refused P d op = false) (o : Words) :
    earlyDraws o d' op = earlyDraws o d op := by
  cases op <;> try rfl
  · unfold earlyDraws
    dsimp only
    have h : (do
        let w ← d'.W.pick (o 0)
        let k ← pickK (o 1)
        wHashCheck d'.mo.wHash (subK (d'.mo.wK w) k)) = (do
        let w ← d.W.pick (o 0)
        let k ← pickK (o 1)
        wHashCheck d.mo.wHash (subK (d.mo.wK w) k)) := by
      obtain ⟨w, hw, hl⟩ := hi.pickW (o 0)
      have := S.bW.pick (o 0)
      rw [hw] at this
      obtain ⟨w', hw', rfl⟩ := this.of_ok
      rw [hw, hw', Res.ok_bind, Res.ok_bind, S.wHash, S.wK w hl]
    rw [h]
  · unfold earlyDraws
    have g : ¬ (d.order = 0 ∨ d.worm.exist = false) := by simpa [refused] using hr
    have c : d.worm.exist = true := by
      cases h : d.worm.exist
      · exact absurd (.inr h) g
      · rfl
    dsimp only
    rw [S.ira c, S.masha c, S.r _ (hi.worm.ira_mem c), S.r _ (hi.worm.masha_mem c)]
  · unfold earlyDraws
    dsimp only
    rw [S.wHash]
  · unfold earlyDraws
    dsimp only
    rw [S.wHash]

theorem drawn_sim (T : TabEq P P') (hi : Inv P d) (S : Alike BSim ρ d d') (op : Op) (o : Words) {out out' : Out Q F} (h : OutSim BSim ρ out out') :
    drawn P' op o d' out' = drawn P op o d out := by
  unfold drawn
  rw [h.1, h.2.1, refused_sim T S]
  by_cases hr : refused P d op = true
  · rw [if_pos hr, if_pos hr]
  · rw [Bool.not_eq_true] at hr
    rw [earlyDraws_sim hi S hr]

theorem hopDrawn_sim {a b c c' : Chain Q F} (hP : c.P.Wf) (hi : Inv c.P c.d) (S : ChainSim ρ a b c c') (o : Words) : hopDrawn c' o = hopDrawn c o := by
  unfold hopDrawn
  rw [S.tab.selectOp]
  cases selectOp c.P (urn Q (o 0)) with
  | none => rfl
  | some op =>
    dsimp only
    obtain ⟨out, e, -, -⟩ := runOp_good hP hi op (fun i => o (i + 1))
    have := runOp_sim hP S.tab hi S.diag op (fun i => o (i + 1))
    rw [e] at this
    obtain ⟨out', e', h⟩ := this.of_ok
    rw [e, e']
    dsimp only
    rw [drawn_sim S.tab hi S.diag op _ h]

theorem hopGen_sim {a b : Chain Q F} (o : Words) : ∀ (n : ℕ) (c c' : Chain Q F) (k : ℕ), c.P.Wf → Inv c.P c.d → ChainSim ρ a b c c' →
    ∃ e e' m, hopSeq n c o k = .ok (e, m) ∧ hopSeq n c' o k = .ok (e', m) ∧ ChainSim ρ a b e e' ∧ e.P.Wf ∧ Inv e.P e.d := by
  intro n
  induction n with
  | zero => intro c c' k hP hi S; exact ⟨c, c', k, rfl, rfl, S, hP, hi⟩
  | succ n ih =>
    intro c c' k hP hi S
    obtain ⟨e, h1, -⟩ := hopOne_ok hP hi (fun i => o (k + i))
    obtain ⟨hp, hi1⟩ := hopOne_inv hP hi h1
    have hP1 : e.P.Wf := hp ▸ hP
    have h2 := hopOne_sim hP hi S (fun i => o (k + i))
    rw [h1] at h2
    obtain ⟨e', h3, h4⟩ := h2.of_ok
    unfold hopSeq
    rw [bind_draw, bind_draw, hopOneSeq_eq h1, hopOneSeq_eq h3, hopDrawn_sim hP hi S, Res.ok_bind, Res.ok_bind]
    exact ih e e' _ hP1 hi1 h4

end
end Feyn
