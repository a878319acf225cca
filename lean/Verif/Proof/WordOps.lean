import Verif.Proof.WordDraw

/-!
# Every update draws its choices almost evenly
-/

namespace Feyn

section
variable {Q F : Type} [Field Q] [LinearOrder Q] [IsStrictOrderedRing Q] [Field F] {P : Params Q F} {d : Diag Q F}

/-- The call of the update is the call of a move chosen by at most seven words, and the random number of the next. -/
def Draws (P : Params Q F) (d : Diag Q F) (op : Op) (B : Q) : Prop :=
  ∃ (k : ℕ) (f : Words → Move Q) (C : Q), k ≤ 7 ∧ C ≤ B ∧ FairK k f (movesOf P d op) C ∧
    ∀ o, runOp P op o d = (f o).run P d (urn Q (o k))

/-- Bound of the deviation from an even choice within an update. -/
def drawBias (P : Params Q F) : Q := ((20026 + P.lx + P.ly + P.nsub : ℕ) : Q) / (4294967296 : ℕ)

theorem le_drawBias {n : ℕ} {C : Q} (h : C = (n : Q) / (4294967296 : ℕ)) (hn : n ≤ 20026 + P.lx + P.ly + P.nsub) : C ≤ drawBias P := by
  rw [h]
  unfold drawBias
  exact div_le_div_of_nonneg_right (Nat.cast_le.2 hn) (Nat.cast_nonneg _)

theorem runOp_draws (hP : P.Wf) (h : Inv P d) {op : Op} (h1 : op ≠ .changeRVertex) (h2 : op ≠ .changeSpin) :
    Draws P d op (drawBias P) := by
  have c := h.count
  have pW : 0 < d.W.avail := by have := c.n_pos; omega
  have pG : 0 < d.G.avail := by have := c.n_pos; have := c.g; omega
  have pV : 0 < d.Ver.avail := by have := c.n_pos; have := c.ver; omega
  have lW := c.wWf.avail_le
  have lG := c.gWf.avail_le
  have lV := c.verWf.avail_le
  have fW := FairK.one (Fair.bundle (Q := Q) c.wWf pW)
  have fG := FairK.one (Fair.bundle (Q := Q) c.gWf pG)
  have fV := FairK.one (Fair.bundle (Q := Q) c.verWf pV)
  have fk := FairK.one (Fair.k (Q := Q))
  have fd := FairK.one (Fair.dir (Q := Q))
  have fs := FairK.one (Fair.ds (Q := Q))
  have ft := FairK.one (Fair.tau hP)
  have fr := FairK.site hP
  cases op
  case changeRVertex => exact absurd rfl h1
  case changeSpin => exact absurd rfl h2
  case createWorm =>
    exact ⟨_, _, _, by norm_num, le_drawBias (n := d.W.avail + (20001 + 2)) (by push_cast; ring) (by omega),
      (fW.pair (fk.pair fs)).map (fun x => Move.createWorm x.1 x.2.1 x.2.2) (by rintro ⟨a, b, c⟩ ⟨a', b', c'⟩ h; simpa using h),
      fun o => by simp only [runOp, createWorm, pickB_eq c.wWf pW, pickK_eq, pickDSpin_eq, Res.ok_bind, Move.run]; rfl⟩
  case deleteWorm => exact ⟨_, _, _, by norm_num, le_drawBias (n := 0) (by simp) (by omega), FairK.zero Move.deleteWorm, fun o => rfl⟩
  case moveWormW => exact ⟨_, _, _, by norm_num, le_drawBias (n := 0) (by simp) (by omega), FairK.zero Move.moveWormW, fun o => rfl⟩
  case toOrder0 => exact ⟨_, _, _, by norm_num, le_drawBias (n := 0) (by simp) (by omega), FairK.zero Move.toOrder0, fun o => rfl⟩
  case fromGGGammaG => exact ⟨_, _, _, by norm_num, le_drawBias (n := 0) (by simp) (by omega), FairK.zero Move.fromGGGammaG, fun o => rfl⟩
  case fromWWGammaW => exact ⟨_, _, _, by norm_num, le_drawBias (n := 0) (by simp) (by omega), FairK.zero Move.fromWWGammaW, fun o => rfl⟩
  case moveWormG =>
    exact ⟨_, _, _, by norm_num, le_drawBias (n := 2) (by simp) (by omega), fd.map Move.moveWormG (fun a b h => by simpa using h),
      fun o => by simp only [runOp, moveWormG, pickDir_eq, Res.ok_bind, Move.run]⟩
  case reconnect =>
    exact ⟨_, _, _, by norm_num, le_drawBias (n := 2) (by simp) (by omega), fd.map Move.reconnect (fun a b h => by simpa using h),
      fun o => by simp only [runOp, reconnect, pickDir_eq, Res.ok_bind, Move.run]⟩
  case delInteraction =>
    exact ⟨_, _, _, by norm_num, le_drawBias (n := 2) (by simp) (by omega), fd.map (Move.del false) (fun a b h => by simpa using h),
      fun o => by simp only [runOp, delInteraction, pickDir_eq, Res.ok_bind, Move.run]⟩
  case delDelta =>
    exact ⟨_, _, _, by norm_num, le_drawBias (n := 2) (by simp) (by omega), fd.map (Move.del true) (fun a b h => by simpa using h),
      fun o => by simp only [runOp, delDelta, pickDir_eq, Res.ok_bind, Move.run]⟩
  case addInteraction =>
    exact ⟨_, _, _, by norm_num, le_drawBias (n := 20001 + (2 + (2 + (0 + 0)))) (by push_cast; ring) (by omega),
      (fk.pair (fd.pair (fd.pair (ft.pair ft)))).map (fun x => Move.add false x.1 x.2.1 x.2.2.1 x.2.2.2.1 x.2.2.2.2) (by
        rintro ⟨a, b, c, d, e⟩ ⟨a', b', c', d', e'⟩ h; simpa using h),
      fun o => by simp only [runOp, addInteraction, pickK_eq, pickDir_eq, Res.ok_bind, Move.run]; rfl⟩
  case addDelta =>
    exact ⟨_, _, _, by norm_num, le_drawBias (n := 20001 + (2 + (2 + 0))) (by push_cast; ring) (by omega),
      (fk.pair (fd.pair (fd.pair ft))).map (fun x => Move.add true x.1 x.2.1 x.2.2.1 x.2.2.2 x.2.2.2) (by
        rintro ⟨a, b, c, d⟩ ⟨a', b', c', d'⟩ h; simpa using h),
      fun o => by simp only [runOp, addDelta, pickK_eq, pickDir_eq, Res.ok_bind, Move.run]; rfl⟩
  case changeTau =>
    exact ⟨_, _, _, by norm_num, le_drawBias (n := d.Ver.avail + 0) (by push_cast; ring) (by omega),
      (fV.pair ft).map (fun x => Move.changeTau x.1 x.2) (by rintro ⟨a, b⟩ ⟨a', b'⟩ h; simpa using h),
      fun o => by simp only [runOp, changeTau, pickB_eq c.verWf pV, Res.ok_bind, Move.run]; rfl⟩
  case changeRLoop =>
    exact ⟨_, _, _, by norm_num, le_drawBias (n := d.Ver.avail + (P.lx + (P.ly + P.nsub))) (by push_cast; ring) (by omega),
      (fV.pair fr).map (fun x => Move.changeRLoop x.1 x.2) (by rintro ⟨a, b⟩ ⟨a', b'⟩ h; simpa using h),
      fun o => by simp only [runOp, changeRLoop, pickB_eq c.verWf pV, pickSite_eq hP, Res.ok_bind, Move.run]; rfl⟩
  case g2w =>
    exact ⟨_, _, _, by norm_num, le_drawBias (n := d.W.avail) (by simp) (by omega), fW.map Move.g2w (fun a b h => by simpa using h),
      fun o => by simp only [runOp, g2w, pickB_eq c.wWf pW, Res.ok_bind, Move.run]⟩
  case w2g =>
    exact ⟨_, _, _, by norm_num, le_drawBias (n := d.G.avail) (by simp) (by omega), fG.map Move.w2g (fun a b h => by simpa using h),
      fun o => by simp only [runOp, w2g, pickB_eq c.gWf pG, Res.ok_bind, Move.run]⟩
  case delta2cont =>
    exact ⟨_, _, _, by norm_num, le_drawBias (n := d.W.avail + 0) (by push_cast; ring) (by omega),
      (fW.pair ft).map (fun x => Move.delta2cont x.1 x.2) (by rintro ⟨a, b⟩ ⟨a', b'⟩ h; simpa using h),
      fun o => by simp only [runOp, delta2cont, pickB_eq c.wWf pW, Res.ok_bind, Move.run]; rfl⟩
  case cont2delta =>
    exact ⟨_, _, _, by norm_num, le_drawBias (n := d.W.avail) (by simp) (by omega), fW.map Move.cont2delta (fun a b h => by simpa using h),
      fun o => by simp only [runOp, cont2delta, pickB_eq c.wWf pW, Res.ok_bind, Move.run]⟩
  case backToOrder1 =>
    exact ⟨_, _, _, by norm_num, le_drawBias (n := P.lx + (P.ly + P.nsub) + (0 + (0 + (2 + 2)))) (by push_cast; ring) (by omega),
      (fr.pair (ft.pair (ft.pair (fd.pair fd)))).map (fun x => Move.backToOrder1 x.1 x.2.1 x.2.2.1 x.2.2.2.1 x.2.2.2.2) (by
        rintro ⟨a, b, c, d, e⟩ ⟨a', b', c', d', e'⟩ h; simpa using h),
      fun o => by simp only [runOp, backToOrder1, pickSite_eq hP, pickSpin_eq, Res.ok_bind, Move.run]; rfl⟩
  case toGGGammaG =>
    exact ⟨_, _, _, by norm_num, le_drawBias (n := d.G.avail + 0) (by push_cast; ring) (by omega),
      (fG.pair ft).map (fun x => Move.toGGGammaG x.1 x.2) (by rintro ⟨a, b⟩ ⟨a', b'⟩ h; simpa using h),
      fun o => by simp only [runOp, toGGGammaG, pickB_eq c.gWf pG, Res.ok_bind, Move.run]; rfl⟩
  case toWWGammaW =>
    exact ⟨_, _, _, by norm_num, le_drawBias (n := d.W.avail + (0 + (P.lx + (P.ly + P.nsub)))) (by push_cast; ring) (by omega),
      (fW.pair (ft.pair fr)).map (fun x => Move.toWWGammaW x.1 x.2.1 x.2.2) (by rintro ⟨a, b, c⟩ ⟨a', b', c'⟩ h; simpa using h),
      fun o => by simp only [runOp, toWWGammaW, pickB_eq c.wWf pW, pickSite_eq hP, Res.ok_bind, Move.run]; rfl⟩

end
end Feyn
