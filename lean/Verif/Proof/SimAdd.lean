import Verif.Proof.SimMove

/-! # Adding and deleting interactions and moving loops on diagrams that differ in layout only -/

set_option linter.unusedSectionVars false
set_option linter.unusedSimpArgs false

namespace Feyn
variable {Q F : Type} [Field Q] [LinearOrder Q] [IsStrictOrderedRing Q] [Field F]
variable {P P' : Params Q F} {d d' : Diag Q F} {ρ : Ren} {B : BRel}

theorem agree_ins {β : Type*} {π : Equiv.Perm ℕ} {L : Finset ℕ} {f f' : ℕ → β} (h : ∀ p, p ∈ L → f' (π p) = f p) (a : ℕ) (b : β) :
    ∀ p, p ∈ insert a L → upd f' (π a) b (π p) = upd f a b p := by
  intro p hp
  simp only [upd, EmbeddingLike.apply_eq_iff_eq]
  split_ifs with e
  · rfl
  · exact h p ((Finset.mem_insert.1 hp).resolve_left e)

theorem agree_ins' {π σ : Equiv.Perm ℕ} {L : Finset ℕ} {f f' : ℕ → ℕ} (h : ∀ p, p ∈ L → f' (π p) = σ (f p)) (a b : ℕ) :
    ∀ p, p ∈ insert a L → upd f' (π a) (σ b) (π p) = σ (upd f a b p) := by
  intro p hp
  simp only [upd, EmbeddingLike.apply_eq_iff_eq]
  split_ifs with e
  · rfl
  · exact h p ((Finset.mem_insert.1 hp).resolve_left e)

theorem agree_ins2 {π σ : Equiv.Perm ℕ} {L : Finset ℕ} {f f' : ℕ → Dir → ℕ} (h : ∀ p, p ∈ L → ∀ e, f' (π p) e = σ (f p e))
    (a : ℕ) (e : Dir) (b b' : ℕ) : ∀ p, p ∈ insert a L → ∀ e', upd2 (upd2 f' (π a) e (σ b)) (π a) (!e) (σ b') (π p) e' =
      σ (upd2 (upd2 f a e b) a (!e) b' p e') := by
  intro p hp e'
  simp only [upd2, EmbeddingLike.apply_eq_iff_eq]
  split_ifs with h1 h2
  · rfl
  · rfl
  · refine h p ((Finset.mem_insert.1 hp).resolve_left fun q => ?_) e'
    cases e <;> cases e' <;> simp [q] at h1 h2

theorem agree_ins2' {π σ : Equiv.Perm ℕ} {L : Finset ℕ} {f f' : ℕ → Dir → ℕ} (h : ∀ p, p ∈ L → ∀ e, f' (π p) e = σ (f p e))
    (a : ℕ) (e : Dir) (b b' : ℕ) : ∀ p, p ∈ insert a L → ∀ e', upd2 (upd2 f' (π a) (!e) (σ b)) (π a) e (σ b') (π p) e' =
      σ (upd2 (upd2 f a (!e) b) a e b' p e') := by
  intro p hp e'
  simp only [upd2, EmbeddingLike.apply_eq_iff_eq]
  split_ifs with h1 h2
  · rfl
  · rfl
  · refine h p ((Finset.mem_insert.1 hp).resolve_left fun q => ?_) e'
    cases e <;> cases e' <;> simp [q] at h1 h2

/-- Adding to a container with free space. -/
theorem BSim.add_live {π : Equiv.Perm ℕ} (hπ : ∀ p, MAX_BUNDLE ≤ p → π p = p) {b b' : Bundle} (h : BSim π b b') (hb : b.Wf)
    (hlt : b.avail < MAX_BUNDLE) : ∃ p c c', b.add = .ok (p, c) ∧ b'.add = .ok (π p, c') ∧ BSim π c c' ∧ c.Wf ∧
      c.live = insert p b.live ∧ c.avail = b.avail + 1 := by
  obtain ⟨p, c, e, hw, -, -, hl, ha, -⟩ := Bundle.add_spec hb hlt
  have := h.add hπ
  rw [e] at this
  obtain ⟨⟨p', c'⟩, e', h1, h2⟩ := this.of_ok
  dsimp only at h1 h2
  subst h1
  exact ⟨p, c, c', e, e', h2, hw, hl, ha⟩

/-- `n` components can be added to both containers, in corresponding cells. -/
def Adds (B : BRel) (π : Equiv.Perm ℕ) : ℕ → Bundle → Bundle → Prop
  | 0, b, b' => B π b b'
  | n + 1, b, b' => ∃ p c c', b.add = .ok (p, c) ∧ b'.add = .ok (π p, c') ∧ c.live = insert p b.live ∧ Adds B π n c c'

theorem BSim.adds {π : Equiv.Perm ℕ} (hπ : ∀ p, MAX_BUNDLE ≤ p → π p = p) : ∀ (n : ℕ) {b b' : Bundle}, BSim π b b' → b.Wf →
    b.avail + n ≤ MAX_BUNDLE → Adds BSim π n b b' := by
  intro n
  induction n with
  | zero => intro b b' h _ _; exact h
  | succ n ih =>
    intro b b' h hb hn
    obtain ⟨p, c, c', e, e', hs, hw, hl, ha⟩ := h.add_live hπ hb (by omega)
    exact ⟨p, c, c', e, e', hl, ih hs hw (by omega)⟩

theorem Inv.room (hP : P.Wf) (hi : Inv P d) (he : d.worm.exist = true) (ho : d.order < P.maxOrd) :
    d.Ver.avail + 2 ≤ MAX_BUNDLE ∧ d.G.avail + 2 ≤ MAX_BUNDLE ∧ d.W.avail + 1 ≤ MAX_BUNDLE := by
  have hc := hi.count
  have ho' : d.order = d.W.avail := by
    rcases hc.order with h | h
    · exact h
    · rw [h.2.2.1] at he; cases he
  have hmax := hP.lt_max
  have hcv := hc.ver
  have hcg := hc.g
  omega

theorem addCore_sim (T : TabEq P P') (hi : Inv P d) (S : Alike B ρ d d') (he : d.worm.exist = true)
    (hV : Adds B ρ.V 2 d.Ver d'.Ver) (hG : Adds B ρ.G 2 d.G d'.G) (hW : Adds B ρ.W 1 d.W d'.W) (b : Bool) (k : ℤ) (dir dirW : Dir) {t1 t2 : Q} (h1t : TauIn P t1) (h2t : TauIn P t2) (u : Q) :
    Res.Rel (OutSim B ρ) (addCore P d b k dir dirW t1 t2 u) (addCore P' d' b k dir dirW t1 t2 u) := by
  have ha := hi.worm.ira_mem he
  have hb := hi.worm.masha_mem he
  have hg := hi.topo.vG_mem _ ha dir
  have hg' := hi.topo.vG_mem _ hb dir
  have hv := hi.topo.gV_mem _ hg
  have hv' := hi.topo.gV_mem _ hg'
  obtain ⟨ra, ta⟩ := hi.dom _ ha
  obtain ⟨rb, tb⟩ := hi.dom _ hb
  obtain ⟨rv, tv⟩ := hi.dom _ (hv dir)
  obtain ⟨rv', tv'⟩ := hi.dom _ (hv' dir)
  unfold addCore
  simp only [S.ira he, S.masha he, S.k he, deref_V, deref_G, deref_live ha, deref_live hb, deref_live hg, deref_live hg', deref_live (hv _),
    deref_live (hv' _), Res.ok_bind, S.vG _ ha, S.vG _ hb, S.gV _ hg, S.gV _ hg', S.spin _ (hv _), S.spin _ (hv' _), S.gK _ hg, S.gK _ hg',
    S.r _ ha, S.r _ hb, S.tau _ ha, S.tau _ hb, S.spin _ ha, S.spin _ hb, S.r _ (hv _), S.tau _ (hv _), S.r _ (hv' _), S.tau _ (hv' _),
    S.gMeas _ hg, S.gGam _ hg, S.gWt _ hg, S.gMeas _ hg', S.gGam _ hg', S.gWt _ hg', S.gHash, S.wHash, S.order, S.phase, S.weight,
    T.mod, T.ph, T.orderRW, T.addFactor,
    T.gW (S.gExt hi hg) rv rv h1t tv, T.gW (S.gExt hi hg') rv' rv' h2t tv',
    T.gW (e := d.ext) (e' := d'.ext) (gm := false) (fun h => Bool.noConfusion h) ra rv ta h1t,
    T.gW (e := d.ext) (e' := d'.ext) (gm := false) (fun h => Bool.noConfusion h) rb rv' tb h2t,
    T.wW (e := d.ext) (e' := d'.ext) (gm := false) (m := false) (de := b) (fun h => Bool.noConfusion h) (fun _ => rfl) rv rv' h1t h2t]
  refine .same _ fun _ _ => .ite Iff.rfl (fun _ => skip_sim S) fun _ => ?_
  refine .same _ fun _ _ => .ite Iff.rfl (fun _ => skip_sim S) fun _ => ?_
  refine .same _ fun _ _ => .ite Iff.rfl (fun _ => skip_sim S) fun _ => ?_
  refine .ite Iff.rfl (fun _ => skip_sim S) fun _ => ?_
  refine .same _ fun _ _ => .same _ fun _ _ => ?_
  refine metropolis_sim S S rfl ?_
  obtain ⟨vA, V1, V1', e1, e1', lV1, vB, V2, V2', e2, e2', lV2, sV2⟩ := hV
  obtain ⟨gA, G1, G1', e3, e3', lG1, gB, G2, G2', e4, e4', lG2, sG2⟩ := hG
  obtain ⟨wA, W1, W1', e5, e5', lW1, sW1⟩ := hW
  simp only [e1, e1', e2, e2', e3, e3', e4, e4', e5, e5', Res.ok_bind]
  refine .same _ fun _ _ => .same _ fun _ _ => .same _ fun _ _ => ?_
  have lV : V2.live = insert vB (insert vA d.Ver.live) := by rw [lV2, lV1]
  have lG : G2.live = insert gB (insert gA d.G.live) := by rw [lG2, lG1]
  refine { S with
    order := rfl, phase := rfl, weight := rfl
    bV := sV2, bG := sG2, bW := sW1
    vG := ?_, vW := ?_, vDir := ?_, gV := ?_, wV := ?_, r := ?_, tau := ?_, spin := ?_, gK := ?_, wK := ?_, gHash := rfl, wHash := rfl
    gMeas := ?_, gGam := ?_, wMeas := ?_, wWorm := ?_, wDelta := ?_, wGam := ?_, gWt := ?_, wWt := ?_
    ira := fun _ => rfl, masha := fun _ => rfl, k := fun _ => rfl }
  all_goals dsimp only
  all_goals first | rw [lV] | rw [lG] | rw [lW1]
  · exact agree_upd2 (agree_upd2 (agree_ins2 (agree_ins2 S.vG _ _ _ _) _ _ _ _) _ _ _) _ _ _
  · exact agree_ins' (agree_ins' S.vW _ _) _ _
  · exact agree_ins (agree_ins S.vDir _ _) _ _
  · exact agree_upd2 (agree_upd2 (agree_ins2' (agree_ins2' S.gV _ _ _ _) _ _ _ _) _ _ _) _ _ _
  · exact agree_ins2 S.wV _ _ _ _
  · exact agree_ins (agree_ins S.r _ _) _ _
  · exact agree_ins (agree_ins S.tau _ _) _ _
  · exact agree_ins (agree_ins S.spin _ _) _ _
  · exact agree_ins (agree_ins S.gK _ _) _ _
  · exact agree_ins S.wK _ _
  · exact agree_ins (agree_ins S.gMeas _ _) _ _
  · exact agree_ins (agree_ins S.gGam _ _) _ _
  · exact agree_ins S.wMeas _ _
  · exact agree_ins S.wWorm _ _
  · exact agree_ins S.wDelta _ _
  · exact agree_ins S.wGam _ _
  · exact agree_upd (agree_upd (agree_ins (agree_ins S.gWt _ _) _ _) _ _) _ _
  · exact agree_ins S.wWt _ _

theorem remove_live_sub {b c : Bundle} (h : b.Wf) {p : ℕ} (e : b.remove p = .ok c) : c.Wf ∧ ∀ q, q ∈ c.live → q ∈ b.live := by
  have hp : p ∈ b.live := by
    unfold Bundle.remove at e
    cases hx : b.exist p with
    | ok x =>
      rw [hx, Res.ok_bind] at e
      cases x
      · cases e
      · unfold Bundle.exist at hx
        by_cases h1 : p = NULL
        · rw [if_pos h1] at hx; cases hx
        · rw [if_neg h1] at hx
          by_cases h2 : p < MAX_BUNDLE
          · rw [if_pos h2] at hx
            rw [Bundle.mem_live]
            exact ⟨h2, by simpa using hx⟩
          · rw [if_neg h2] at hx; cases hx
    | abort => rw [hx] at e; cases e
    | ub => rw [hx] at e; cases e
  obtain ⟨c', e', hw, hl, -⟩ := Bundle.remove_spec h hp
  rw [e] at e'
  cases e'
  exact ⟨hw, fun q hq => by rw [hl] at hq; exact Finset.mem_of_mem_erase hq⟩

theorem agree_sub {L M : Finset ℕ} (h : ∀ p, p ∈ M → p ∈ L) {R : ℕ → Prop} (hR : ∀ p, p ∈ L → R p) : ∀ p, p ∈ M → R p :=
  fun p hp => hR p (h p hp)

/-- Removing corresponding components keeps the containers related. -/
def Removes (B : BRel) : Prop := ∀ (π : Equiv.Perm ℕ) (b b' : Bundle), (∀ p, MAX_BUNDLE ≤ p → π p = p) → B π b b' →
  ∀ p, Res.Rel (B π) (b.remove p) (b'.remove (π p))

theorem BSim.removes : Removes BSim := fun _ _ _ hπ h => h.remove hπ

theorem delCore_sim (hB : Removes B) (T : TabEq P P') (hi : Inv P d) (S : Alike B ρ d d') (he : d.worm.exist = true)
    (b : Bool) (dir : Dir) (u : Q) :
    Res.Rel (OutSim B ρ) (delCore P d b dir u) (delCore P' d' b dir u) := by
  have ha := hi.worm.ira_mem he
  have hb := hi.worm.masha_mem he
  have hg := hi.topo.vG_mem _ ha dir
  have hg' := hi.topo.vG_mem _ hb dir
  have hv := hi.topo.gV_mem _ hg dir
  have hv' := hi.topo.gV_mem _ hg' dir
  have hw := hi.topo.vW_mem _ hv
  have hh := hi.topo.vG_mem _ hv dir
  have hh' := hi.topo.vG_mem _ hv' dir
  have hx := hi.topo.gV_mem _ hh dir
  have hx' := hi.topo.gV_mem _ hh' dir
  obtain ⟨ra, ta⟩ := hi.dom _ ha
  obtain ⟨rb, tb⟩ := hi.dom _ hb
  obtain ⟨rx, tx⟩ := hi.dom _ hx
  obtain ⟨rx', tx'⟩ := hi.dom _ hx'
  have hc := hi.count
  unfold delCore
  simp only [S.ira he, S.masha he, S.k he, deref_V, deref_G, deref_W, deref_live ha, deref_live hb, deref_live hg, deref_live hg', deref_live hv,
    deref_live hv', deref_live hw, deref_live hh, deref_live hh', deref_live hx, deref_live hx', Res.ok_bind,
    S.vG _ ha, S.vG _ hb, S.gV _ hg, S.gV _ hg', S.vG _ hv, S.vG _ hv', S.vW _ hv, S.vW _ hv', S.gV _ hh, S.gV _ hh', S.vDir _ hv,
    EmbeddingLike.apply_eq_iff_eq, ne_eq,
    S.gMeas _ hg, S.gGam _ hg, S.gMeas _ hg', S.gGam _ hg', S.spin _ hv, S.spin _ hv', S.wMeas _ hw, S.wWorm _ hw, S.wDelta _ hw, S.wGam _ hw,
    S.r _ hv, S.r _ hv', S.r _ hx, S.r _ hx', S.wK _ hw, S.r _ ha, S.r _ hb, S.tau _ ha, S.tau _ hb, S.spin _ ha, S.spin _ hb,
    S.tau _ hx, S.tau _ hx', S.spin _ hx, S.spin _ hx', S.gMeas _ hh, S.gGam _ hh, S.gMeas _ hh', S.gGam _ hh',
    S.gWt _ hg, S.gWt _ hg', S.gWt _ hh, S.gWt _ hh', S.wWt _ hw, S.tau _ hv, S.tau _ hv', S.gHash, S.wHash, S.gK _ hg, S.gK _ hg',
    S.order, S.phase, S.weight, T.mod, T.ph, T.orderRW, T.delFactor,
    T.gW (S.gExt hi hh) ra rx ta tx, T.gW (S.gExt hi hh') rb rx' tb tx']
  iterate 8 refine .ite Iff.rfl (fun _ => skip_sim S) fun _ => ?_
  refine .same _ fun _ _ => .same _ fun _ _ => ?_
  refine metropolis_sim S S rfl ?_
  refine (hB _ _ _ ρ.fixV S.bV _).bind fun V1 V1' e1 sV1 => ?_
  obtain ⟨wV1, lV1⟩ := remove_live_sub hc.verWf e1
  refine (hB _ _ _ ρ.fixV sV1 _).bind fun V2 V2' e2 sV2 => ?_
  obtain ⟨-, lV2⟩ := remove_live_sub wV1 e2
  refine .same _ fun _ _ => ?_
  refine (hB _ _ _ ρ.fixG S.bG _).bind fun G1 G1' e3 sG1 => ?_
  obtain ⟨wG1, lG1⟩ := remove_live_sub hc.gWf e3
  refine .same _ fun _ _ => ?_
  refine (hB _ _ _ ρ.fixG sG1 _).bind fun G2 G2' e4 sG2 => ?_
  obtain ⟨-, lG2⟩ := remove_live_sub wG1 e4
  refine .same _ fun _ _ => ?_
  refine (hB _ _ _ ρ.fixW S.bW _).bind fun W1 W1' e5 sW1 => ?_
  obtain ⟨-, lW⟩ := remove_live_sub hc.wWf e5
  have lV : ∀ p, p ∈ V2.live → p ∈ d.Ver.live := fun p hp => lV1 p (lV2 p hp)
  have lG : ∀ p, p ∈ G2.live → p ∈ d.G.live := fun p hp => lG1 p (lG2 p hp)
  exact { S with
    order := rfl, phase := rfl, weight := rfl
    bV := sV2, bG := sG2, bW := sW1
    vG := agree_sub lV (agree_upd2 (agree_upd2 S.vG _ _ _) _ _ _)
    vW := agree_sub lV S.vW
    vDir := agree_sub lV S.vDir
    gV := agree_sub lG (agree_upd2 (agree_upd2 S.gV _ _ _) _ _ _)
    wV := agree_sub lW S.wV
    r := agree_sub lV S.r
    tau := agree_sub lV S.tau
    spin := agree_sub lV S.spin
    gK := agree_sub lG S.gK
    wK := agree_sub lW S.wK
    gHash := rfl, wHash := rfl
    gMeas := agree_sub lG S.gMeas
    gGam := agree_sub lG S.gGam
    wMeas := agree_sub lW S.wMeas
    wWorm := agree_sub lW S.wWorm
    wDelta := agree_sub lW S.wDelta
    wGam := agree_sub lW S.wGam
    gWt := agree_sub lG (agree_upd (agree_upd S.gWt _ _) _ _)
    wWt := agree_sub lW S.wWt
    ira := fun _ => rfl, masha := fun _ => rfl, k := fun _ => rfl }

/-! ### Loop moves -/

/-- Names of corresponding components: different for different components, and below `N` for the same ones. -/
structure NameRel (N : ℕ) (π : Equiv.Perm ℕ) (b b' : Bundle) : Prop where
  lt : ∀ p, p ∈ b.live → (b'.name (π p) < N ↔ b.name p < N)
  inj : ∀ p, p ∈ b.live → ∀ q, q ∈ b.live → (b'.name (π p) = b'.name (π q) ↔ b.name p = b.name q)

theorem BSim.names {π : Equiv.Perm ℕ} {b b' : Bundle} (h : BSim π b b') (N : ℕ) : NameRel N π b b' :=
  ⟨fun p hp => by rw [h.name p (Bundle.live_lt hp)],
    fun p hp q hq => by rw [h.name p (Bundle.live_lt hp), h.name q (Bundle.live_lt hq)]⟩

/-- The tables have corresponding entries for all components. -/
def Marks {α : Type} (π : Equiv.Perm ℕ) (b b' : Bundle) (f f' : ℕ → α) : Prop :=
  ∀ p, p ∈ b.live → f' (b'.name (π p)) = f (b.name p)

theorem Marks.upd {α : Type} {N : ℕ} {π : Equiv.Perm ℕ} {b b' : Bundle} {f f' : ℕ → α} (h : Marks π b b' f f') (hN : NameRel N π b b')
    {p : ℕ} (hp : p ∈ b.live) {x x' : α} (hx : x' = x) : Marks π b b' (upd f (b.name p) x) (upd f' (b'.name (π p)) x') := by
  intro q hq
  subst hx
  simp only [Feyn.upd, hN.inj q hq p hp]
  split_ifs
  · rfl
  · exact h q hq

theorem loopWalk_sim (hi : Inv P d) (S : Alike B ρ d d') (hV : NameRel 20 ρ.V d.Ver d'.Ver) (hW : NameRel 10 ρ.W d.W d'.W) (oldR : Site) :
    ∀ (cap cur : ℕ) (vs : List ℕ) (fv fv' : ℕ → Bool) (fw fw' : ℕ → ℕ), Marks ρ.V d.Ver d'.Ver fv fv' → Marks ρ.W d.W d'.W fw fw' →
    cur ∈ d.Ver.live → (∀ v ∈ vs, v ∈ d.Ver.live) →
    Res.Rel (fun x x' => (x = none ∧ x' = none) ∨ ∃ y z z', x = some (y, z) ∧ x' = some (y.map ρ.V, z') ∧ Marks ρ.W d.W d'.W z z' ∧
        ∀ v ∈ y, v ∈ d.Ver.live)
      (loopWalk d oldR cap cur vs fv fw) (loopWalk d' oldR cap (ρ.V cur) (vs.map ρ.V) fv' fw') := by
  intro cap
  induction cap with
  | zero =>
    intro cur vs fv fv' fw fw' hfv hfw hcur hvs
    have hw := hi.topo.vW_mem _ hcur
    have hg := hi.topo.vG_mem _ hcur OUT
    unfold loopWalk
    simp only [deref_V, deref_W, deref_G, deref_live hcur, deref_live hw, deref_live hg, Res.ok_bind, S.vW _ hcur, S.vG _ hcur]
    refine .ite (not_congr (hV.lt _ hcur)) (fun _ => trivial) fun _ => .ite (by rw [hfv _ hcur]) (fun _ => ?_) fun _ =>
      .ite (not_congr (hW.lt _ hw)) (fun _ => trivial) fun _ => trivial
    exact Or.inr ⟨vs, fw, fw', rfl, rfl, hfw, hvs⟩
  | succ cap ih =>
    intro cur vs fv fv' fw fw' hfv hfw hcur hvs
    have hw := hi.topo.vW_mem _ hcur
    have hg := hi.topo.vG_mem _ hcur OUT
    have hn := hi.topo.gV_mem _ hg OUT
    unfold loopWalk
    simp only [deref_V, deref_W, deref_G, deref_live hcur, deref_live hw, deref_live hg, deref_live hn, Res.ok_bind, S.vW _ hcur, S.vG _ hcur,
      S.gV _ hg, S.r _ hn]
    refine .ite (not_congr (hV.lt _ hcur)) (fun _ => trivial) fun _ => .ite (by rw [hfv _ hcur]) (fun _ => ?_) fun _ =>
      .ite (not_congr (hW.lt _ hw)) (fun _ => trivial) fun _ => .ite Iff.rfl (fun _ => ?_) fun _ => ?_
    · exact Or.inr ⟨vs, fw, fw', rfl, rfl, hfw, hvs⟩
    · exact Or.inl ⟨rfl, rfl⟩
    · have := ih _ (vs ++ [cur]) _ _ _ _ (hfv.upd hV hcur (rfl : true = true))
        (hfw.upd hW hw (congrArg (· + 1) (hfw _ hw))) hn (by
          intro v hv
          rcases List.mem_append.1 hv with h | h
          · exact hvs v h
          · rw [List.mem_singleton.1 h]; exact hcur)
      rw [List.map_append] at this
      exact this

theorem loopWeights_sim (T : TabEq P P') (hi : Inv P d) (S : Alike B ρ d d') (hW : NameRel 10 ρ.W d.W d'.W) {newR : Site} (hr : SiteIn P newR) :
    ∀ (vs : List ℕ) (i : ℕ) (fw fw' : ℕ → ℕ) (a b : F), Marks ρ.W d.W d'.W fw fw' → (∀ v ∈ vs, v ∈ d.Ver.live) →
    Res.Rel (fun x x' => x'.1 = x.1 ∧ x'.2.1 = x.2.1 ∧ x'.2.2 = x.2.2.map (fun y => (ρ.V y.1, y.2)) ∧
        ∀ y ∈ x.2.2, y.1 ∈ d.Ver.live)
      (loopWeights P d newR i vs fw a b) (loopWeights P' d' newR i (vs.map ρ.V) fw' a b) := by
  intro vs
  induction vs with
  | nil =>
    intro i fw fw' a b _ _
    exact ⟨rfl, rfl, rfl, by simp⟩
  | cons v vs ih =>
    intro i fw fw' a b hfw hvs
    have hv := hvs v List.mem_cons_self
    have hvs' : ∀ v ∈ vs, v ∈ d.Ver.live := fun x hx => hvs x (List.mem_cons_of_mem _ hx)
    have hg := hi.topo.vG_mem _ hv OUT
    have hb := hi.topo.gV_mem _ hg OUT
    have hw := hi.topo.vW_mem _ hv
    have hx := hi.topo.wV_mem _ hw (!d.sh.vDir v)
    obtain ⟨rv, tv⟩ := hi.dom _ hv
    obtain ⟨rb, tb⟩ := hi.dom _ hb
    obtain ⟨rx, tx⟩ := hi.dom _ hx
    rw [List.map_cons]
    unfold loopWeights
    simp only [deref_V, deref_W, deref_G, deref_live hv, deref_live hw, deref_live hg, deref_live hb, deref_live hx, Res.ok_bind,
      S.vG _ hv, S.gV _ hg, S.vW _ hv, S.wV _ hw, S.vDir _ hv, S.tau _ hv, S.tau _ hb, S.spin _ hv, S.spin _ hb, S.gMeas _ hg, S.gGam _ hg,
      S.gWt _ hg, hfw _ hw, S.r _ hx, S.tau _ hx, S.spin _ hx, S.wWorm _ hw, S.wMeas _ hw, S.wDelta _ hw, S.wGam _ hw,
      S.wWt _ hw, T.gW0 (S.gExt hi hg) hr hr tv tb, T.wW (S.wExt hi hw) (hi.dMeas hw) hr rx tv tx,
      T.wW (S.wExt hi hw) (hi.dMeas hw) hr hr tv tx]
    refine .ite (not_congr (hW.lt _ hw)) (fun _ => trivial) fun _ => ?_
    have fin : ∀ (x x' : F × F × List (ℕ × F × F)) (y : F × F), (x'.1 = x.1 ∧ x'.2.1 = x.2.1 ∧
        x'.2.2 = x.2.2.map (fun y => (ρ.V y.1, y.2)) ∧ ∀ y ∈ x.2.2, y.1 ∈ d.Ver.live) →
        (x'.1 = x.1 ∧ x'.2.1 = x.2.1 ∧ ((ρ.V v, y) :: x'.2.2) = ((v, y) :: x.2.2).map (fun y => (ρ.V y.1, y.2)) ∧
          ∀ z ∈ (v, y) :: x.2.2, z.1 ∈ d.Ver.live) := by
      rintro x x' y ⟨h1, h2, h3, h4⟩
      refine ⟨h1, h2, by rw [h3]; rfl, ?_⟩
      intro z hz
      rcases List.mem_cons.1 hz with rfl | hz
      · exact hv
      · exact h4 z hz
    have hfw2 := hfw.upd hW hw (rfl : 0 = 0)
    refine .ite Iff.rfl (fun _ => ?_) fun _ => .ite Iff.rfl (fun _ => ?_) fun _ => .ite Iff.rfl (fun _ => ?_) fun _ => ?_
    · exact (ih _ _ _ _ _ hfw hvs').bind fun x x' _ h => fin x x' _ h
    · exact (ih _ _ _ _ _ hfw2 hvs').bind fun x x' _ h => fin x x' _ h
    · exact (ih _ _ _ _ _ hfw hvs').bind fun x x' _ h => fin x x' _ h
    · exact (ih _ _ _ _ _ hfw hvs').bind fun x x' _ h => fin x x' _ h

theorem loopAssign_sim (newR : Site) : ∀ (l : List (ℕ × F × F)) (x x' : Diag Q F), x.sh = d.sh → x.Ver = d.Ver →
    Alike B ρ x x' → (∀ y ∈ l, y.1 ∈ d.Ver.live) →
    Alike B ρ (l.foldl (loopAssign newR) x) ((l.map (fun y => (ρ.V y.1, y.2))).foldl (loopAssign newR) x') := by
  intro l
  induction l with
  | nil => intro x x' _ _ S _; exact S
  | cons y l ih =>
    intro x x' h1 h2 S hl
    have hy := hl y List.mem_cons_self
    have hy' : y.1 ∈ x.Ver.live := by rw [h2]; exact hy
    rw [List.map_cons, List.foldl_cons, List.foldl_cons]
    refine ih _ _ h1 h2 ?_ fun z hz => hl z (List.mem_cons_of_mem _ hz)
    unfold loopAssign
    rw [S.vG _ hy', S.vW _ hy']
    exact { S with
      r := agree_upd S.r _ _
      gWt := agree_upd S.gWt _ _
      wWt := agree_upd S.wWt _ _ }

theorem changeRLoopCore_sim (T : TabEq P P') (hi : Inv P d) (S : Alike B ρ d d') {vs : List ℕ} (hvs : ∀ v ∈ vs, v ∈ d.Ver.live)
    (hW : NameRel 10 ρ.W d.W d'.W) {fw fw' : ℕ → ℕ} (hfw : Marks ρ.W d.W d'.W fw fw')
    (oldR : Site) {newR : Site} (hr : SiteIn P newR) (u : Q) :
    Res.Rel (OutSim B ρ) (changeRLoopCore P d vs fw oldR newR u) (changeRLoopCore P' d' (vs.map ρ.V) fw' oldR newR u) := by
  unfold changeRLoopCore
  refine (loopWeights_sim T hi S hW hr vs 0 fw fw' 1 1 hfw hvs).bind ?_
  rintro ⟨a, b, l⟩ ⟨a', b', l'⟩ _ ⟨h1, h2, h3, h4⟩
  dsimp only at h1 h2 h3 h4 ⊢
  subst h1 h2 h3
  rw [T.mod, T.ph, T.probSite, T.probSite]
  refine metropolis_sim S S rfl ?_
  refine loopAssign_sim newR l _ _ rfl rfl ?_ h4
  exact { S with phase := by rw [S.phase], weight := by rw [S.weight] }

end Feyn
