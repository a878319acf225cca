import Verif.Spec.Draws
import Verif.Proof.RngSeq
import Verif.Proof.SimMain

/-!
# What a call of an update reads from the generator
-/

namespace Feyn

section
variable {Q F : Type}

/-- Results with the property `G` do not depend on the argument. -/
def Indep {α : Type} (G : Out Q F → Prop) (f : α → Res (Out Q F)) : Prop := ∀ a a' out, f a = .ok out → G out → f a' = .ok out

theorem Indep.const {α : Type} {G : Out Q F → Prop} (x : Res (Out Q F)) : Indep G (fun _ : α => x) := fun _ _ _ h _ => h

theorem Indep.bind {α β : Type} {G : Out Q F → Prop} (x : Res β) {f : α → β → Res (Out Q F)} (h : ∀ b, Indep G (fun a => f a b)) :
    Indep G (fun a => x >>= f a) := by
  intro a a' out e g
  cases x with
  | ok b => exact h b a a' out e g
  | abort => exact e
  | ub => exact e

theorem Indep.ite {α : Type} {G : Out Q F → Prop} {c : Prop} [Decidable c] {f g : α → Res (Out Q F)} (hf : Indep G f) (hg : Indep G g) :
    Indep G (fun a => if c then f a else g a) := by
  by_cases h : c
  · simpa only [if_pos h] using hf
  · simpa only [if_neg h] using hg

end

section
variable {Q F : Type} [Field Q] [LinearOrder Q] [Field F]

/-- The call ended before the acceptance test, or without a word for it. -/
def Sure (out : Out Q F) : Prop := out.tag = .skip ∨ 1 ≤ out.prob

omit [Field F] in
theorem metropolis_tag {d rej : Diag Q F} {prob u : Q} {acc : Res (Diag Q F)} {out : Out Q F} (h : metropolis d rej prob u acc = .ok out) :
    out.tag ≠ .skip ∧ out.prob = prob := by
  unfold metropolis at h
  split_ifs at h
  · cases acc with
    | ok x =>
      cases h
      exact ⟨by simp, rfl⟩
    | abort => cases h
    | ub => cases h
  · cases h
    exact ⟨by simp, rfl⟩

omit [Field F] in
theorem Indep.metropolis (d rej : Diag Q F) (prob : Q) (acc : Res (Diag Q F)) : Indep Sure (fun u => metropolis d rej prob u acc) := by
  intro u u' out h g
  obtain ⟨h1, h2⟩ := metropolis_tag h
  rcases g with g | g
  · exact absurd g h1
  · rw [h2] at g
    unfold Feyn.metropolis at h ⊢
    simpa [g] using h

omit [Field F] in
theorem Indep.skips {α : Type} (d rej : α → Diag Q F) (prob u : α → Q) (acc : α → Res (Diag Q F)) :
    Indep (fun out => out.tag = .skip) (fun a => Feyn.metropolis (d a) (rej a) (prob a) (u a) (acc a)) := by
  intro a a' out h g
  exact absurd g (metropolis_tag h).1

/-- Steps through the body of an update. -/
macro "indep" : tactic =>
  `(tactic| repeat' (first
    | exact Indep.metropolis _ _ _ _
    | exact Indep.skips _ _ _ _ _
    | exact Indep.const _
    | refine Indep.bind _ fun _ => ?_
    | refine Indep.ite ?_ ?_))

theorem createWormCore_sure (P : Params Q F) (d : Diag Q F) (w : ℕ) (k s : ℤ) : Indep Sure (createWormCore P d w k s) := by
  unfold createWormCore; indep

theorem deleteWormCore_sure (P : Params Q F) (d : Diag Q F) : Indep Sure (deleteWormCore P d) := by
  unfold deleteWormCore; indep

theorem moveWormGCore_sure (P : Params Q F) (d : Diag Q F) (dir : Dir) : Indep Sure (moveWormGCore P d dir) := by
  unfold moveWormGCore; indep

theorem moveWormWCore_sure (P : Params Q F) (d : Diag Q F) : Indep Sure (moveWormWCore P d) := by
  unfold moveWormWCore; indep

theorem reconnectCore_sure (P : Params Q F) (d : Diag Q F) (dir : Dir) : Indep Sure (reconnectCore P d dir) := by
  unfold reconnectCore; indep

theorem addCore_sure (P : Params Q F) (d : Diag Q F) (b : Bool) (k : ℤ) (dir dirW : Dir) (s t : Q) : Indep Sure (addCore P d b k dir dirW s t) := by
  unfold addCore; indep

theorem addCore_skip (P : Params Q F) (d : Diag Q F) (b : Bool) (k : ℤ) (dir dirW : Dir) :
    Indep (fun out => out.tag = .skip) (fun x : Q × Q × Q => addCore P d b k dir dirW x.1 x.2.1 x.2.2) := by
  unfold addCore; indep

theorem delCore_sure (P : Params Q F) (d : Diag Q F) (b : Bool) (dir : Dir) : Indep Sure (delCore P d b dir) := by
  unfold delCore; indep

theorem changeTauCore_sure (P : Params Q F) (d : Diag Q F) (v : ℕ) (t : Q) : Indep Sure (changeTauCore P d v t) := by
  unfold changeTauCore; indep

theorem changeTauCore_skip (P : Params Q F) (d : Diag Q F) (v : ℕ) :
    Indep (fun out => out.tag = .skip) (fun x : Q × Q => changeTauCore P d v x.1 x.2) := by
  unfold changeTauCore; indep

theorem deltaCore_sure (P : Params Q F) (d : Diag Q F) (b : Bool) (w : ℕ) (t f : Q) : Indep Sure (deltaCore P d b w t f) := by
  unfold deltaCore; indep

theorem delta2contCore_sure (P : Params Q F) (d : Diag Q F) (w : ℕ) (t : Q) : Indep Sure (delta2contCore P d w t) := by
  unfold delta2contCore deltaCore; indep

theorem delta2contCore_skip (P : Params Q F) (d : Diag Q F) (w : ℕ) :
    Indep (fun out => out.tag = .skip) (fun x : Q × Q => delta2contCore P d w x.1 x.2) := by
  unfold delta2contCore deltaCore; indep

theorem cont2deltaCore_sure (P : Params Q F) (d : Diag Q F) (w : ℕ) : Indep Sure (cont2deltaCore P d w) := by
  unfold cont2deltaCore deltaCore; indep

theorem changeRLoopCore_sure (P : Params Q F) (d : Diag Q F) (vs : List ℕ) (fw : ℕ → ℕ) (r r' : Site) : Indep Sure (changeRLoopCore P d vs fw r r') := by
  unfold changeRLoopCore; indep

theorem changeRLoopCore_noskip {P : Params Q F} {d : Diag Q F} {vs : List ℕ} {fw : ℕ → ℕ} {r r' : Site} {u : Q} {out : Out Q F}
    (h : changeRLoopCore P d vs fw r r' u = .ok out) : out.tag ≠ .skip := by
  unfold changeRLoopCore at h
  cases e : loopWeights P d r' 0 vs fw 1 1 with
  | ok x =>
    rw [e] at h
    exact (metropolis_tag h).1
  | abort => rw [e] at h; cases h
  | ub => rw [e] at h; cases h

theorem g2wCore_sure (P : Params Q F) (d : Diag Q F) (w : ℕ) : Indep Sure (g2wCore P d w) := by
  unfold g2wCore; indep

theorem w2gCore_sure (P : Params Q F) (d : Diag Q F) (g : ℕ) : Indep Sure (w2gCore P d g) := by
  unfold w2gCore; indep

theorem toOrder0Core_sure (P : Params Q F) (d : Diag Q F) : Indep Sure (toOrder0Core P d) := by
  unfold toOrder0Core; indep

theorem backToOrder1Core_sure (P : Params Q F) (d : Diag Q F) (r : Site) (t t' : Q) (s s' : Spin) : Indep Sure (backToOrder1Core P d r t t' s s') := by
  unfold backToOrder1Core; indep

theorem toGGGammaGCore_sure (P : Params Q F) (d : Diag Q F) (g : ℕ) (t : Q) : Indep Sure (toGGGammaGCore P d g t) := by
  unfold toGGGammaGCore; indep

theorem toGGGammaGCore_skip (P : Params Q F) (d : Diag Q F) (g : ℕ) :
    Indep (fun out => out.tag = .skip) (fun x : Q × Q => toGGGammaGCore P d g x.1 x.2) := by
  unfold toGGGammaGCore; indep

theorem fromGGGammaGCore_sure (P : Params Q F) (d : Diag Q F) : Indep Sure (fromGGGammaGCore P d) := by
  unfold fromGGGammaGCore; indep

theorem toWWGammaWCore_sure (P : Params Q F) (d : Diag Q F) (w : ℕ) (t : Q) (r : Site) : Indep Sure (toWWGammaWCore P d w t r) := by
  unfold toWWGammaWCore; indep

theorem toWWGammaWCore_skip (P : Params Q F) (d : Diag Q F) (w : ℕ) :
    Indep (fun out => out.tag = .skip) (fun x : Q × Site × Q => toWWGammaWCore P d w x.1 x.2.1 x.2.2) := by
  unfold toWWGammaWCore; indep

theorem fromWWGammaWCore_sure (P : Params Q F) (d : Diag Q F) : Indep Sure (fromWWGammaWCore P d) := by
  unfold fromWWGammaWCore; indep

/-! ### Choices -/

omit [Field Q] [LinearOrder Q] [Field F] in
theorem drawn_bind {α β : Type} {r : Res α} {f : α → Res β} {b : β} (h : (r >>= f) = .ok b) : ∃ a, r = .ok a ∧ f a = .ok b := by
  cases r with
  | ok a => exact ⟨a, rfl, h⟩
  | abort => cases h
  | ub => cases h

theorem pickK_total (w : Word) : ∃ k, pickK w = .ok k := ⟨_, rfl⟩
theorem pickDSpin_total (w : Word) : ∃ k, pickDSpin w = .ok k := ⟨_, rfl⟩
theorem pickDir_total (w : Word) : ∃ k, pickDir w = .ok k := ⟨_, rfl⟩

theorem irn_other {w : Word} {a b x : ℤ} (h : irn w a b = .ok x) (w' : Word) : ∃ y, irn w' a b = .ok y := by
  unfold irn at h ⊢
  split_ifs at h ⊢
  exact ⟨_, rfl⟩

theorem pickSite_other {P : Params Q F} {a b c : Word} {r : Site} (h : pickSite P a b c = .ok r) (a' b' c' : Word) : ∃ r', pickSite P a' b' c' = .ok r' := by
  unfold pickSite at h ⊢
  obtain ⟨x, hx, h⟩ := drawn_bind h
  obtain ⟨y, hy, h⟩ := drawn_bind h
  obtain ⟨z, hz, h⟩ := drawn_bind h
  obtain ⟨x', hx'⟩ := irn_other hx a'
  obtain ⟨y', hy'⟩ := irn_other hy b'
  obtain ⟨z', hz'⟩ := irn_other hz c'
  exact ⟨_, by rw [hx', Res.ok_bind, hy', Res.ok_bind, hz', Res.ok_bind]⟩

/-! ### Calls -/

theorem refused_skip {P : Params Q F} {d : Diag Q F} {op : Op} (h : refused P d op = true) (o : Words) : runOp P op o d = skip d := by
  cases op <;> simp only [refused, Bool.or_eq_true, decide_eq_true_eq, Bool.not_eq_true'] at h <;> simp only [runOp]
  · exact if_pos h
  · exact if_pos h
  · exact if_pos h
  · exact if_pos h
  · exact if_pos h
  · unfold addInteraction
    split_ifs with h1 h2
    · rfl
    · rfl
    · exfalso; tauto
  · unfold delInteraction
    split_ifs with h1 h2
    · rfl
    · rfl
    · exfalso; tauto
  · unfold addDelta
    split_ifs with h1 h2
    · rfl
    · rfl
    · exfalso; tauto
  · unfold delDelta
    split_ifs with h1 h2
    · rfl
    · rfl
    · exfalso; tauto
  · exact if_pos h
  · exact if_pos h
  · unfold g2w
    split_ifs with h1 h2
    · rfl
    · rfl
    · exfalso; tauto
  · unfold w2g
    split_ifs with h1 h2
    · rfl
    · rfl
    · exfalso; tauto
  · exact if_pos h
  · exact if_pos h
  · unfold toOrder0
    split_ifs with h1 h2
    · rfl
    · rfl
    · exfalso; tauto
  · unfold backToOrder1
    split_ifs with h1 h2
    · rfl
    · rfl
    · exfalso; tauto
  · exact if_pos (by tauto)
  · exact if_pos (by tauto)
  · exact if_pos (by tauto)
  · exact if_pos (by tauto)

/-- The words of the two streams agree where a call that ends with `out` reads. -/
structure Reads (op : Op) (o o' : Words) (d : Diag Q F) (out : Out Q F) : Prop where
  early : out.tag = .skip → ∀ i < earlyDraws o d op, o' i = o i
  full : out.tag ≠ .skip → ∀ i < choiceDraws op, o' i = o i
  last : ¬ Sure out → o' (choiceDraws op) = o (choiceDraws op)

omit [Field F] in
theorem Indep.last {f : Q → Res (Out Q F)} (hf : Indep Sure f) {w w' : Word} {out : Out Q F} (e : f (urn Q w) = .ok out) (h : ¬ Sure out → w' = w) :
    f (urn Q w') = .ok out := by
  by_cases hs : Sure out
  · exact hf _ _ _ e hs
  · rw [h hs]; exact e

variable {P : Params Q F} {d : Diag Q F} {o o' : Words} {out : Out Q F}

omit [Field F] in
/-- The first words, if both kinds of return have read them. -/
theorem Reads.first {op : Op} (R : Reads op o o' d out) {i : ℕ} (h1 : i < earlyDraws o d op) (h2 : i < choiceDraws op) : o' i = o i := by
  by_cases h : out.tag = .skip
  · exact R.early h i h1
  · exact R.full h i h2

theorem createWorm_reads (e : createWorm P o d = .ok out) (R : Reads .createWorm o o' d out) : createWorm P o' d = .ok out := by
  have hb : 2 ≤ earlyDraws o d .createWorm := by
    unfold earlyDraws
    dsimp only
    split <;> omega
  have h0 := R.first (i := 0) (by omega) (by decide)
  have h1 := R.first (i := 1) (by omega) (by decide)
  unfold createWorm at e ⊢
  split_ifs at e ⊢ with g
  · exact e
  rw [h0, h1]
  obtain ⟨w, hw, e⟩ := drawn_bind e
  obtain ⟨k, hk, e⟩ := drawn_bind e
  obtain ⟨s, hs, e⟩ := drawn_bind e
  obtain ⟨s', hs'⟩ := pickDSpin_total (o' 2)
  rw [hw, Res.ok_bind, hk, Res.ok_bind]
  by_cases h2 : o' 2 = o 2
  · rw [h2, hs, Res.ok_bind]
    exact (createWormCore_sure P d w k s).last e R.last
  · have ht : out.tag = .skip := by
      by_contra hc
      exact h2 (R.full hc 2 (by decide))
    have hE : earlyDraws o d .createWorm = 2 := by
      by_contra hc
      exact h2 (R.early ht 2 (by omega))
    have hE' : (do
        let w ← d.W.pick (o 0)
        let k ← pickK (o 1)
        wHashCheck d.mo.wHash (subK (d.mo.wK w) k)) = .ok true := by
      unfold earlyDraws at hE
      dsimp only at hE
      split at hE
      · assumption
      · omega
    rw [hw, Res.ok_bind, hk, Res.ok_bind] at hE'
    rw [hs', Res.ok_bind]
    unfold createWormCore at e ⊢
    simp only [hE', Res.ok_bind, if_true] at e ⊢
    exact e

theorem deleteWorm_reads (e : deleteWorm P o d = .ok out) (R : Reads .deleteWorm o o' d out) : deleteWorm P o' d = .ok out := by
  unfold deleteWorm at e ⊢
  split_ifs at e ⊢ with g
  · exact e
  exact (deleteWormCore_sure P d).last e R.last

theorem moveWormG_reads (e : moveWormG P o d = .ok out) (R : Reads .moveWormG o o' d out) : moveWormG P o' d = .ok out := by
  unfold moveWormG at e ⊢
  split_ifs at e ⊢ with g
  · exact e
  rw [R.first (i := 0) Nat.one_pos (by decide)]
  obtain ⟨x, hx, e⟩ := drawn_bind e
  rw [hx, Res.ok_bind]
  exact (moveWormGCore_sure P d x).last e R.last

theorem moveWormW_reads (e : moveWormW P o d = .ok out) (R : Reads .moveWormW o o' d out) : moveWormW P o' d = .ok out := by
  unfold moveWormW at e ⊢
  split_ifs at e ⊢ with g
  · exact e
  exact (moveWormWCore_sure P d).last e R.last

theorem reconnect_reads (e : reconnect P o d = .ok out) (R : Reads .reconnect o o' d out) : reconnect P o' d = .ok out := by
  unfold reconnect at e ⊢
  split_ifs at e ⊢ with g g'
  · exact e
  · exact e
  have h0 := R.first (i := 0) (by unfold earlyDraws; dsimp only; rw [if_neg g']; exact Nat.one_pos) (by decide)
  rw [h0]
  obtain ⟨_, h1, e⟩ := drawn_bind e
  obtain ⟨_, h2, e⟩ := drawn_bind e
  obtain ⟨x, hx, e⟩ := drawn_bind e
  rw [h1, Res.ok_bind, h2, Res.ok_bind, hx, Res.ok_bind]
  exact (reconnectCore_sure P d x).last e R.last

/-- The common part of the two updates that add a line: `s` and `t` are made from the words after the third one. -/
theorem addCore_reads {b : Bool} {op : Op} (hop : op = .addInteraction ∨ op = .addDelta) (R : Reads op o o' d out) {s t s' t' : Q}
    (hst : out.tag ≠ .skip → s' = s ∧ t' = t)
    (e : (do
      let kW ← pickK (o 0)
      let dir ← pickDir (o 1)
      let dirW ← pickDir (o 2)
      addCore P d b kW dir dirW s t (urn Q (o (choiceDraws op)))) = .ok out) :
    (do
      let kW ← pickK (o' 0)
      let dir ← pickDir (o' 1)
      let dirW ← pickDir (o' 2)
      addCore P d b kW dir dirW s' t' (urn Q (o' (choiceDraws op)))) = .ok out := by
  have hE : earlyDraws o d op = match (do
      let k ← pickK (o 0)
      wHashCheck d.mo.wHash k) with
    | .ok true => 1
    | _ => 3 := by
    rcases hop with rfl | rfl <;> rfl
  have hc : 3 ≤ choiceDraws op := by rcases hop with rfl | rfl <;> decide
  have hb : 1 ≤ earlyDraws o d op := by
    rw [hE]
    split <;> omega
  have h0 := R.first (i := 0) (by omega) (by omega)
  rw [h0]
  obtain ⟨k, hk, e⟩ := drawn_bind e
  obtain ⟨x, hx, e⟩ := drawn_bind e
  obtain ⟨y, hy, e⟩ := drawn_bind e
  obtain ⟨x', hx'⟩ := pickDir_total (o' 1)
  obtain ⟨y', hy'⟩ := pickDir_total (o' 2)
  rw [hk, Res.ok_bind, hx', Res.ok_bind, hy', Res.ok_bind]
  rw [hk, Res.ok_bind] at hE
  by_cases ht : out.tag = .skip
  · by_cases hw : wHashCheck d.mo.wHash k = .ok true
    · unfold addCore at e ⊢
      rw [hw] at e ⊢
      exact e
    · have h3 : earlyDraws o d op = 3 := by
        rw [hE]
        split
        · contradiction
        · rfl
      have h1 := R.early ht 1 (by omega)
      have h2 := R.early ht 2 (by omega)
      rw [h1, hx] at hx'
      rw [h2, hy] at hy'
      cases hx'
      cases hy'
      exact addCore_skip P d b k x y (s, t, _) (s', t', _) out e ht
  · rw [R.full ht 1 (by omega), hx] at hx'
    rw [R.full ht 2 (by omega), hy] at hy'
    cases hx'
    cases hy'
    obtain ⟨rfl, rfl⟩ := hst ht
    exact (addCore_sure P d b k x y _ _).last e R.last

theorem addInteraction_reads (e : addInteraction P o d = .ok out) (R : Reads .addInteraction o o' d out) : addInteraction P o' d = .ok out := by
  unfold addInteraction at e ⊢
  split_ifs at e ⊢
  · exact e
  · exact e
  · exact addCore_reads (.inl rfl) R (fun h => ⟨by rw [R.full h 3 (by decide)], by rw [R.full h 4 (by decide)]⟩) e

theorem addDelta_reads (e : addDelta P o d = .ok out) (R : Reads .addDelta o o' d out) : addDelta P o' d = .ok out := by
  unfold addDelta at e ⊢
  split_ifs at e ⊢
  · exact e
  · exact e
  · exact addCore_reads (.inr rfl) R (fun h => ⟨by rw [R.full h 3 (by decide)], by rw [R.full h 3 (by decide)]⟩) e

theorem delInteraction_reads (e : delInteraction P o d = .ok out) (R : Reads .delInteraction o o' d out) : delInteraction P o' d = .ok out := by
  unfold delInteraction at e ⊢
  split_ifs at e ⊢
  · exact e
  · exact e
  rw [R.first (i := 0) Nat.one_pos (by decide)]
  obtain ⟨x, hx, e⟩ := drawn_bind e
  rw [hx, Res.ok_bind]
  exact (delCore_sure P d false x).last e R.last

theorem delDelta_reads (e : delDelta P o d = .ok out) (R : Reads .delDelta o o' d out) : delDelta P o' d = .ok out := by
  unfold delDelta at e ⊢
  split_ifs at e ⊢
  · exact e
  · exact e
  rw [R.first (i := 0) Nat.one_pos (by decide)]
  obtain ⟨x, hx, e⟩ := drawn_bind e
  rw [hx, Res.ok_bind]
  exact (delCore_sure P d true x).last e R.last

theorem changeTau_reads (e : changeTau P o d = .ok out) (R : Reads .changeTau o o' d out) : changeTau P o' d = .ok out := by
  unfold changeTau at e ⊢
  split_ifs at e ⊢
  · exact e
  rw [R.first (i := 0) Nat.one_pos (by decide)]
  obtain ⟨x, hx, e⟩ := drawn_bind e
  rw [hx, Res.ok_bind]
  by_cases ht : out.tag = .skip
  · exact changeTauCore_skip P d x (_, _) (_, _) out e ht
  · rw [R.full ht 1 (by decide)]
    exact (changeTauCore_sure P d x _).last e R.last

theorem changeRLoop_reads (e : changeRLoop P o d = .ok out) (R : Reads .changeRLoop o o' d out) : changeRLoop P o' d = .ok out := by
  unfold changeRLoop at e ⊢
  split_ifs at e ⊢
  · exact e
  rw [R.first (i := 0) Nat.one_pos (by decide)]
  obtain ⟨x, hx, e⟩ := drawn_bind e
  obtain ⟨_, h1, e⟩ := drawn_bind e
  obtain ⟨y, hy, e⟩ := drawn_bind e
  rw [hx, Res.ok_bind, h1, Res.ok_bind, hy, Res.ok_bind]
  match y, e with
  | none, e => exact e
  | some (vs, fw), e =>
    dsimp only at e ⊢
    obtain ⟨r, hr, e⟩ := drawn_bind e
    have ht := changeRLoopCore_noskip e
    rw [R.full ht 1 (by decide), R.full ht 2 (by decide), R.full ht 3 (by decide), hr, Res.ok_bind]
    exact (changeRLoopCore_sure P d vs fw _ r).last e R.last

theorem g2w_reads (e : g2w P o d = .ok out) (R : Reads .g2w o o' d out) : g2w P o' d = .ok out := by
  unfold g2w at e ⊢
  split_ifs at e ⊢
  · exact e
  · exact e
  rw [R.first (i := 0) Nat.one_pos (by decide)]
  obtain ⟨x, hx, e⟩ := drawn_bind e
  rw [hx, Res.ok_bind]
  exact (g2wCore_sure P d x).last e R.last

theorem w2g_reads (e : w2g P o d = .ok out) (R : Reads .w2g o o' d out) : w2g P o' d = .ok out := by
  unfold w2g at e ⊢
  split_ifs at e ⊢
  · exact e
  · exact e
  rw [R.first (i := 0) Nat.one_pos (by decide)]
  obtain ⟨x, hx, e⟩ := drawn_bind e
  rw [hx, Res.ok_bind]
  exact (w2gCore_sure P d x).last e R.last

theorem delta2cont_reads (e : delta2cont P o d = .ok out) (R : Reads .delta2cont o o' d out) : delta2cont P o' d = .ok out := by
  unfold delta2cont at e ⊢
  split_ifs at e ⊢
  · exact e
  rw [R.first (i := 0) Nat.one_pos (by decide)]
  obtain ⟨x, hx, e⟩ := drawn_bind e
  rw [hx, Res.ok_bind]
  by_cases ht : out.tag = .skip
  · exact delta2contCore_skip P d x (_, _) (_, _) out e ht
  · rw [R.full ht 1 (by decide)]
    exact (delta2contCore_sure P d x _).last e R.last

theorem cont2delta_reads (e : cont2delta P o d = .ok out) (R : Reads .cont2delta o o' d out) : cont2delta P o' d = .ok out := by
  unfold cont2delta at e ⊢
  split_ifs at e ⊢
  · exact e
  rw [R.first (i := 0) Nat.one_pos (by decide)]
  obtain ⟨x, hx, e⟩ := drawn_bind e
  rw [hx, Res.ok_bind]
  exact (cont2deltaCore_sure P d x).last e R.last

theorem toOrder0_reads (e : toOrder0 P o d = .ok out) (R : Reads .toOrder0 o o' d out) : toOrder0 P o' d = .ok out := by
  unfold toOrder0 at e ⊢
  split_ifs at e ⊢
  · exact e
  · exact e
  exact (toOrder0Core_sure P d).last e R.last

theorem backToOrder1Core_noskip {r : Site} {t t' : Q} {s s' : Spin} {u : Q} (h : backToOrder1Core P d r t t' s s' u = .ok out) : out.tag ≠ .skip := by
  unfold backToOrder1Core at h
  obtain ⟨_, -, h⟩ := drawn_bind h
  obtain ⟨_, -, h⟩ := drawn_bind h
  obtain ⟨_, -, h⟩ := drawn_bind h
  obtain ⟨_, -, h⟩ := drawn_bind h
  obtain ⟨_, -, h⟩ := drawn_bind h
  obtain ⟨_, -, h⟩ := drawn_bind h
  obtain ⟨_, -, h⟩ := drawn_bind h
  obtain ⟨_, -, h⟩ := drawn_bind h
  obtain ⟨_, -, h⟩ := drawn_bind h
  exact (metropolis_tag h).1

theorem backToOrder1_reads (e : backToOrder1 P o d = .ok out) (R : Reads .backToOrder1 o o' d out) : backToOrder1 P o' d = .ok out := by
  unfold backToOrder1 at e ⊢
  split_ifs at e ⊢
  · exact e
  · exact e
  obtain ⟨r, hr, e⟩ := drawn_bind e
  obtain ⟨s, hs, e⟩ := drawn_bind e
  obtain ⟨s', hs', e⟩ := drawn_bind e
  have ht := backToOrder1Core_noskip e
  rw [R.full ht 0 (by decide), R.full ht 1 (by decide), R.full ht 2 (by decide), R.full ht 3 (by decide), R.full ht 4 (by decide),
    R.full ht 5 (by decide), R.full ht 6 (by decide), hr, Res.ok_bind, hs, Res.ok_bind, hs', Res.ok_bind]
  exact (backToOrder1Core_sure P d r _ _ s s').last e R.last

theorem toGGGammaG_reads (e : toGGGammaG P o d = .ok out) (R : Reads .toGGGammaG o o' d out) : toGGGammaG P o' d = .ok out := by
  unfold toGGGammaG at e ⊢
  split_ifs at e ⊢
  · exact e
  rw [R.first (i := 0) Nat.one_pos (by decide)]
  obtain ⟨x, hx, e⟩ := drawn_bind e
  rw [hx, Res.ok_bind]
  by_cases ht : out.tag = .skip
  · exact toGGGammaGCore_skip P d x (_, _) (_, _) out e ht
  · rw [R.full ht 1 (by decide)]
    exact (toGGGammaGCore_sure P d x _).last e R.last

theorem fromGGGammaG_reads (e : fromGGGammaG P o d = .ok out) (R : Reads .fromGGGammaG o o' d out) : fromGGGammaG P o' d = .ok out := by
  unfold fromGGGammaG at e ⊢
  split_ifs at e ⊢
  · exact e
  exact (fromGGGammaGCore_sure P d).last e R.last

theorem toWWGammaW_reads (e : toWWGammaW P o d = .ok out) (R : Reads .toWWGammaW o o' d out) : toWWGammaW P o' d = .ok out := by
  unfold toWWGammaW at e ⊢
  split_ifs at e ⊢
  · exact e
  rw [R.first (i := 0) Nat.one_pos (by decide)]
  obtain ⟨x, hx, e⟩ := drawn_bind e
  obtain ⟨r, hr, e⟩ := drawn_bind e
  obtain ⟨r', hr'⟩ := pickSite_other hr (o' 2) (o' 3) (o' 4)
  rw [hx, Res.ok_bind, hr', Res.ok_bind]
  by_cases ht : out.tag = .skip
  · exact toWWGammaWCore_skip P d x (_, _, _) (_, _, _) out e ht
  · rw [R.full ht 2 (by decide), R.full ht 3 (by decide), R.full ht 4 (by decide), hr] at hr'
    cases hr'
    rw [R.full ht 1 (by decide)]
    exact (toWWGammaWCore_sure P d x _ r).last e R.last

theorem fromWWGammaW_reads (e : fromWWGammaW P o d = .ok out) (R : Reads .fromWWGammaW o o' d out) : fromWWGammaW P o' d = .ok out := by
  unfold fromWWGammaW at e ⊢
  split_ifs at e ⊢
  · exact e
  exact (fromWWGammaWCore_sure P d).last e R.last

theorem runOp_reads' {op : Op} (e : runOp P op o d = .ok out) (R : Reads op o o' d out) : runOp P op o' d = .ok out := by
  cases op
  · exact createWorm_reads e R
  · exact deleteWorm_reads e R
  · exact moveWormG_reads e R
  · exact moveWormW_reads e R
  · exact reconnect_reads e R
  · exact addInteraction_reads e R
  · exact delInteraction_reads e R
  · exact addDelta_reads e R
  · exact delDelta_reads e R
  · exact changeTau_reads e R
  · exact e
  · exact changeRLoop_reads e R
  · exact g2w_reads e R
  · exact w2g_reads e R
  · exact delta2cont_reads e R
  · exact cont2delta_reads e R
  · exact e
  · exact toOrder0_reads e R
  · exact backToOrder1_reads e R
  · exact toGGGammaG_reads e R
  · exact fromGGGammaG_reads e R
  · exact toWWGammaW_reads e R
  · exact fromWWGammaW_reads e R

omit [Field Q] [LinearOrder Q] [Field F] in
theorem earlyDraws_congr {op : Op} (h : ∀ i < earlyDraws o d op, o' i = o i) : earlyDraws o' d op = earlyDraws o d op := by
  cases op <;> try rfl
  · have hb : 2 ≤ earlyDraws o d .createWorm := by
      unfold earlyDraws
      dsimp only
      split <;> omega
    unfold earlyDraws
    dsimp only
    rw [h 0 (by omega), h 1 (by omega)]
  · have hb : 1 ≤ earlyDraws o d .addInteraction := by
      unfold earlyDraws
      dsimp only
      split <;> omega
    unfold earlyDraws
    dsimp only
    rw [h 0 (by omega)]
  · have hb : 1 ≤ earlyDraws o d .addDelta := by
      unfold earlyDraws
      dsimp only
      split <;> omega
    unfold earlyDraws
    dsimp only
    rw [h 0 (by omega)]

/-- The result of a call, and the number of words that it draws, depend only on the words that it draws. -/
theorem runOp_reads {op : Op} (e : runOp P op o d = .ok out) (h : ∀ i < drawn P op o d out, o' i = o i) :
    runOp P op o' d = .ok out ∧ drawn P op o' d out = drawn P op o d out := by
  unfold drawn at h ⊢
  by_cases ht : out.tag = .skip
  · rw [if_pos ht] at h ⊢
    by_cases hr : refused P d op = true
    · rw [refused_skip hr] at e ⊢
      rw [if_pos hr, if_pos ht, if_pos hr]
      exact ⟨e, rfl⟩
    · rw [if_neg hr] at h ⊢
      rw [if_pos ht, if_neg hr]
      exact ⟨runOp_reads' e ⟨fun _ => h, fun hn => absurd ht hn, fun hn => absurd (.inl ht) hn⟩, earlyDraws_congr h⟩
  · rw [if_neg ht] at h ⊢
    rw [if_neg ht]
    refine ⟨runOp_reads' e ⟨fun hn => absurd hn ht, fun _ i hi => h i (by omega), fun hn => ?_⟩, rfl⟩
    have : ¬ 1 ≤ out.prob := fun hp => hn (.inr hp)
    rw [if_neg this] at h
    exact h _ (by omega)

/-! ### Drawing one word after the other -/

omit [Field Q] [LinearOrder Q] [Field F] in
theorem draw_bind {α β : Type} (f : Word → Res α) (g : α → Draw β) (o : Words) (n : ℕ) : (draw f >>= g) o n = f (o n) >>= fun a => g a o (n + 1) := by
  show (f (o n) >>= fun a => Res.ok (a, n + 1)) >>= (fun p => g p.1 o p.2) = _
  cases f (o n) <;> rfl

omit [Field Q] [LinearOrder Q] [Field F] in
theorem lift_bind {α β : Type} (x : Res α) (g : α → Draw β) (o : Words) (n : ℕ) : (Draw.lift x >>= g) o n = x >>= fun a => g a o n := by
  show (x >>= fun a => Res.ok (a, n)) >>= (fun p => g p.1 o p.2) = _
  cases x <;> rfl

theorem drawTau_bind {β : Type} (P : Params Q F) (g : Q → Draw β) (o : Words) (n : ℕ) : (drawTau P >>= g) o n = g (pickTau P (o n)) o (n + 1) := rfl

omit [Field Q] [LinearOrder Q] [Field F] in
theorem bind_draw {α β : Type} (x : Draw α) (g : α → Draw β) (o : Words) (n : ℕ) : (x >>= g) o n = x o n >>= fun p => g p.1 o p.2 := rfl

theorem drawSite_bind {β : Type} (P : Params Q F) (g : Site → Draw β) (o : Words) (n : ℕ) :
    (drawSite P >>= g) o n = pickSite P (o n) (o (n + 1)) (o (n + 2)) >>= fun r => g r o (n + 3) := by
  rw [bind_draw]
  unfold drawSite pickSite
  simp only [draw_bind]
  cases irn (o n) 0 ((P.lx : ℤ) - 1) with
  | ok x =>
    cases irn (o (n + 1)) 0 ((P.ly : ℤ) - 1) with
    | ok y =>
      cases irn (o (n + 2)) 0 ((P.nsub : ℤ) - 1) with
      | ok s => simp only [Res.ok_bind]; rfl
      | abort => simp only [Res.ok_bind]; rfl
      | ub => simp only [Res.ok_bind]; rfl
    | abort => rfl
    | ub => rfl
  | abort => rfl
  | ub => rfl

theorem refused_giveUp {op : Op} (h : refused P d op = true) : runOpD P op d = giveUp d := by
  cases op <;> simp only [refused, Bool.or_eq_true, decide_eq_true_eq, Bool.not_eq_true'] at h <;> simp only [runOpD]
  · exact if_pos h
  · exact if_pos h
  · exact if_pos h
  · exact if_pos h
  · exact if_pos h
  · unfold addInteractionD
    split_ifs with h1 h2
    · rfl
    · rfl
    · exfalso; tauto
  · unfold delInteractionD
    split_ifs with h1 h2
    · rfl
    · rfl
    · exfalso; tauto
  · unfold addDeltaD
    split_ifs with h1 h2
    · rfl
    · rfl
    · exfalso; tauto
  · unfold delDeltaD
    split_ifs with h1 h2
    · rfl
    · rfl
    · exfalso; tauto
  · exact if_pos h
  · exact if_pos h
  · unfold g2wD
    split_ifs with h1 h2
    · rfl
    · rfl
    · exfalso; tauto
  · unfold w2gD
    split_ifs with h1 h2
    · rfl
    · rfl
    · exfalso; tauto
  · exact if_pos h
  · exact if_pos h
  · unfold toOrder0D
    split_ifs with h1 h2
    · rfl
    · rfl
    · exfalso; tauto
  · unfold backToOrder1D
    split_ifs with h1 h2
    · rfl
    · rfl
    · exfalso; tauto
  · exact if_pos (by tauto)
  · exact if_pos (by tauto)
  · exact if_pos (by tauto)
  · exact if_pos (by tauto)

/-- After all choices. -/
theorem finish_drawn {op : Op} {n m : ℕ} {f : Q → Res (Out Q F)} (hr : refused P d op = false) (hE : out.tag = .skip → earlyDraws o' d op = choiceDraws op)
    (e : f (urn Q (o m)) = .ok out) (hm : m = n + choiceDraws op) : finish f o m = .ok (out, n + drawn P op o' d out) := by
  unfold finish drawn
  rw [e, Res.ok_bind, hr, hm]
  by_cases ht : out.tag = .skip
  · simp [ht, hE ht]
  · by_cases hp : 1 ≤ out.prob
    · simp [ht, hp]
    · simp [ht, hp, Nat.add_assoc]

/-- At an early return. -/
theorem giveUp_drawn {op : Op} {n m : ℕ} (hr : refused P d op = false) (e : skip d = .ok out) (hm : m = n + earlyDraws o' d op) :
    giveUp d o m = .ok (out, n + drawn P op o' d out) := by
  cases e
  unfold giveUp drawn
  rw [hr, hm]
  rfl

variable {n : ℕ}

theorem createWormD_eq (hr : refused P d .createWorm = false) (e : createWorm P (fun i => o (n + i)) d = .ok out) :
    createWormD P d o n = .ok (out, n + drawn P .createWorm (fun i => o (n + i)) d out) := by
  have g : ¬ (d.order = 0 ∨ d.worm.exist = true) := by simpa [refused] using hr
  unfold createWorm at e
  unfold createWormD
  rw [if_neg g] at e ⊢
  obtain ⟨w, hw, e⟩ := drawn_bind e
  obtain ⟨k, hk, e⟩ := drawn_bind e
  obtain ⟨s, hs, e⟩ := drawn_bind e
  have e' := e
  unfold createWormCore at e'
  obtain ⟨_, -, e'⟩ := drawn_bind e'
  obtain ⟨b, hb, e'⟩ := drawn_bind e'
  dsimp only [Nat.add_zero] at hw hk hs hb
  rw [draw_bind, hw, Res.ok_bind, draw_bind, hk, Res.ok_bind, lift_bind, hb, Res.ok_bind]
  have hE : earlyDraws (fun i => o (n + i)) d .createWorm = if b then 2 else 3 := by
    unfold earlyDraws
    dsimp only [Nat.add_zero]
    rw [hw, Res.ok_bind, hk, Res.ok_bind, hb]
    cases b <;> rfl
  cases b with
  | true => exact giveUp_drawn hr (by simpa using e') (by rw [hE]; rfl)
  | false =>
    rw [if_neg Bool.false_ne_true, draw_bind, hs, Res.ok_bind]
    exact finish_drawn hr (fun _ => by rw [hE]; rfl) e rfl

theorem deleteWormD_eq (hr : refused P d .deleteWorm = false) (e : deleteWorm P (fun i => o (n + i)) d = .ok out) :
    deleteWormD P d o n = .ok (out, n + drawn P .deleteWorm (fun i => o (n + i)) d out) := by
  have g : ¬ (d.order = 0 ∨ d.worm.exist = false) := by simpa [refused] using hr
  unfold deleteWorm at e
  unfold deleteWormD
  rw [if_neg g] at e ⊢
  exact finish_drawn hr (fun _ => rfl) e rfl

theorem moveWormWD_eq (hr : refused P d .moveWormW = false) (e : moveWormW P (fun i => o (n + i)) d = .ok out) :
    moveWormWD P d o n = .ok (out, n + drawn P .moveWormW (fun i => o (n + i)) d out) := by
  have g : ¬ (d.order = 0 ∨ d.worm.exist = false) := by simpa [refused] using hr
  unfold moveWormW at e
  unfold moveWormWD
  rw [if_neg g] at e ⊢
  exact finish_drawn hr (fun _ => rfl) e rfl

theorem moveWormGD_eq (hr : refused P d .moveWormG = false) (e : moveWormG P (fun i => o (n + i)) d = .ok out) :
    moveWormGD P d o n = .ok (out, n + drawn P .moveWormG (fun i => o (n + i)) d out) := by
  have g : ¬ (d.order = 0 ∨ d.worm.exist = false) := by simpa [refused] using hr
  unfold moveWormG at e
  unfold moveWormGD
  rw [if_neg g] at e ⊢
  obtain ⟨x, hx, e⟩ := drawn_bind e
  rw [draw_bind, show pickDir (o n) = _ from hx, Res.ok_bind]
  exact finish_drawn hr (fun _ => rfl) e rfl

theorem reconnectD_eq (hr : refused P d .reconnect = false) (e : reconnect P (fun i => o (n + i)) d = .ok out) :
    reconnectD P d o n = .ok (out, n + drawn P .reconnect (fun i => o (n + i)) d out) := by
  have g : ¬ (d.order = 0 ∨ d.worm.exist = false) := by simpa [refused] using hr
  unfold reconnect at e
  unfold reconnectD
  rw [if_neg g] at e ⊢
  obtain ⟨_, h1, e⟩ := drawn_bind e
  obtain ⟨_, h2, e⟩ := drawn_bind e
  rw [lift_bind, h1, Res.ok_bind, lift_bind, h2, Res.ok_bind]
  split_ifs at e ⊢ with hs
  · refine giveUp_drawn hr e ?_
    unfold earlyDraws
    dsimp only
    rw [if_pos hs]
    rfl
  · obtain ⟨x, hx, e⟩ := drawn_bind e
    rw [draw_bind, show pickDir (o n) = _ from hx, Res.ok_bind]
    refine finish_drawn hr (fun _ => ?_) e rfl
    unfold earlyDraws
    dsimp only
    rw [if_neg hs]
    rfl

/-- The tests before the times are those of the body of the update. -/
theorem addCore_tests {b : Bool} {k : ℤ} {x y : Dir} {s t u : Q} (hk : wHashCheck d.mo.wHash k = .ok false) (e : addCore P d b k x y s t u = .ok out) :
    ∃ stop, addTests d k x y = .ok stop ∧ (stop = true → skip d = .ok out) ∧ (stop = false → out.tag ≠ .skip) := by
  unfold addCore at e
  rw [hk, Res.ok_bind, if_neg Bool.false_ne_true] at e
  unfold addTests
  obtain ⟨_, h1, e⟩ := drawn_bind e
  obtain ⟨_, h2, e⟩ := drawn_bind e
  obtain ⟨_, h3, e⟩ := drawn_bind e
  obtain ⟨_, h4, e⟩ := drawn_bind e
  obtain ⟨c1, h5, e⟩ := drawn_bind e
  rw [h1, Res.ok_bind, h2, Res.ok_bind]
  dsimp only
  rw [h3, Res.ok_bind, h4, Res.ok_bind, h5, Res.ok_bind]
  cases c1 with
  | true => exact ⟨true, rfl, fun _ => by simpa using e, fun h => absurd h (by decide)⟩
  | false =>
    rw [if_neg Bool.false_ne_true] at e ⊢
    obtain ⟨c2, h6, e⟩ := drawn_bind e
    rw [h6, Res.ok_bind]
    cases c2 with
    | true => exact ⟨true, rfl, fun _ => by simpa using e, fun h => absurd h (by decide)⟩
    | false =>
      rw [if_neg Bool.false_ne_true] at e ⊢
      refine ⟨_, rfl, fun h => ?_, fun h => ?_⟩
      · rw [if_pos (of_decide_eq_true h)] at e
        exact e
      · rw [if_neg (of_decide_eq_false h)] at e
        obtain ⟨_, -, e⟩ := drawn_bind e
        obtain ⟨_, -, e⟩ := drawn_bind e
        obtain ⟨_, -, e⟩ := drawn_bind e
        obtain ⟨_, -, e⟩ := drawn_bind e
        obtain ⟨_, -, e⟩ := drawn_bind e
        obtain ⟨_, -, e⟩ := drawn_bind e
        exact (metropolis_tag e).1

theorem addInteractionD_eq (hr : refused P d .addInteraction = false) (e : addInteraction P (fun i => o (n + i)) d = .ok out) :
    addInteractionD P d o n = .ok (out, n + drawn P .addInteraction (fun i => o (n + i)) d out) := by
  have g : ¬ d.worm.exist = false ∧ ¬ (d.order = 0 ∨ d.order ≥ P.maxOrd) := by
    simp [refused] at hr
    refine ⟨by simp [hr], ?_⟩
    rintro (h | h)
    · exact hr.1.2 h
    · omega
  unfold addInteraction at e
  unfold addInteractionD
  rw [if_neg g.1, if_neg g.2] at e ⊢
  obtain ⟨k, hk, e⟩ := drawn_bind e
  obtain ⟨x, hx, e⟩ := drawn_bind e
  obtain ⟨y, hy, e⟩ := drawn_bind e
  have e' := e
  unfold addCore at e'
  obtain ⟨b, hb, e'⟩ := drawn_bind e'
  dsimp only [Nat.add_zero] at hk hx hy
  rw [draw_bind, hk, Res.ok_bind, lift_bind, hb, Res.ok_bind]
  have hE : earlyDraws (fun i => o (n + i)) d .addInteraction = if b then 1 else 3 := by
    unfold earlyDraws
    dsimp only [Nat.add_zero]
    rw [hk, Res.ok_bind, hb]
    cases b <;> rfl
  cases b with
  | true => exact giveUp_drawn hr (by simpa using e') (by rw [hE]; rfl)
  | false =>
    obtain ⟨stop, h1, h2, h3⟩ := addCore_tests hb e
    rw [if_neg Bool.false_ne_true, draw_bind, hx, Res.ok_bind, draw_bind, hy, Res.ok_bind, lift_bind, h1, Res.ok_bind]
    cases stop with
    | true => exact giveUp_drawn hr (h2 rfl) (by rw [hE]; rfl)
    | false =>
      rw [if_neg Bool.false_ne_true, drawTau_bind, drawTau_bind]
      exact finish_drawn hr (fun h => absurd h (h3 rfl)) e rfl

theorem addDeltaD_eq (hr : refused P d .addDelta = false) (e : addDelta P (fun i => o (n + i)) d = .ok out) :
    addDeltaD P d o n = .ok (out, n + drawn P .addDelta (fun i => o (n + i)) d out) := by
  have g : ¬ d.worm.exist = false ∧ ¬ (d.order = 0 ∨ d.order ≥ P.maxOrd) := by
    simp [refused] at hr
    refine ⟨by simp [hr], ?_⟩
    rintro (h | h)
    · exact hr.1.2 h
    · omega
  unfold addDelta at e
  unfold addDeltaD
  rw [if_neg g.1, if_neg g.2] at e ⊢
  obtain ⟨k, hk, e⟩ := drawn_bind e
  obtain ⟨x, hx, e⟩ := drawn_bind e
  obtain ⟨y, hy, e⟩ := drawn_bind e
  have e' := e
  unfold addCore at e'
  obtain ⟨b, hb, e'⟩ := drawn_bind e'
  dsimp only [Nat.add_zero] at hk hx hy
  rw [draw_bind, hk, Res.ok_bind, lift_bind, hb, Res.ok_bind]
  have hE : earlyDraws (fun i => o (n + i)) d .addDelta = if b then 1 else 3 := by
    unfold earlyDraws
    dsimp only [Nat.add_zero]
    rw [hk, Res.ok_bind, hb]
    cases b <;> rfl
  cases b with
  | true => exact giveUp_drawn hr (by simpa using e') (by rw [hE]; rfl)
  | false =>
    obtain ⟨stop, h1, h2, h3⟩ := addCore_tests hb e
    rw [if_neg Bool.false_ne_true, draw_bind, hx, Res.ok_bind, draw_bind, hy, Res.ok_bind, lift_bind, h1, Res.ok_bind]
    cases stop with
    | true => exact giveUp_drawn hr (h2 rfl) (by rw [hE]; rfl)
    | false =>
      rw [if_neg Bool.false_ne_true, drawTau_bind]
      exact finish_drawn hr (fun h => absurd h (h3 rfl)) e rfl

theorem delInteractionD_eq (hr : refused P d .delInteraction = false) (e : delInteraction P (fun i => o (n + i)) d = .ok out) :
    delInteractionD P d o n = .ok (out, n + drawn P .delInteraction (fun i => o (n + i)) d out) := by
  have g : ¬ d.worm.exist = false ∧ ¬ d.order ≤ 1 := by simpa [refused] using hr
  unfold delInteraction at e
  unfold delInteractionD
  rw [if_neg g.1, if_neg g.2] at e ⊢
  obtain ⟨x, hx, e⟩ := drawn_bind e
  rw [draw_bind, show pickDir (o n) = _ from hx, Res.ok_bind]
  exact finish_drawn hr (fun _ => rfl) e rfl

theorem delDeltaD_eq (hr : refused P d .delDelta = false) (e : delDelta P (fun i => o (n + i)) d = .ok out) :
    delDeltaD P d o n = .ok (out, n + drawn P .delDelta (fun i => o (n + i)) d out) := by
  have g : ¬ d.worm.exist = false ∧ ¬ d.order ≤ 1 := by simpa [refused] using hr
  unfold delDelta at e
  unfold delDeltaD
  rw [if_neg g.1, if_neg g.2] at e ⊢
  obtain ⟨x, hx, e⟩ := drawn_bind e
  rw [draw_bind, show pickDir (o n) = _ from hx, Res.ok_bind]
  exact finish_drawn hr (fun _ => rfl) e rfl

theorem g2wD_eq (hr : refused P d .g2w = false) (e : g2w P (fun i => o (n + i)) d = .ok out) :
    g2wD P d o n = .ok (out, n + drawn P .g2w (fun i => o (n + i)) d out) := by
  have g : ¬ (d.order = 0 ∨ d.worm.exist = true ∨ d.measG = false) ∧ ¬ d.hasGamma ≠ 0 := by
    simp only [refused, Bool.or_eq_false_iff, decide_eq_false_iff_not, Bool.not_eq_false'] at hr
    simp [hr]
  unfold g2w at e
  unfold g2wD
  rw [if_neg g.1, if_neg g.2] at e ⊢
  obtain ⟨x, hx, e⟩ := drawn_bind e
  rw [draw_bind, show d.W.pick (o n) = _ from hx, Res.ok_bind]
  exact finish_drawn hr (fun _ => rfl) e rfl

theorem w2gD_eq (hr : refused P d .w2g = false) (e : w2g P (fun i => o (n + i)) d = .ok out) :
    w2gD P d o n = .ok (out, n + drawn P .w2g (fun i => o (n + i)) d out) := by
  have g : ¬ (d.order = 0 ∨ d.worm.exist = true ∨ d.measG = true) ∧ ¬ d.hasGamma ≠ 0 := by
    simp only [refused, Bool.or_eq_false_iff, decide_eq_false_iff_not] at hr
    simp [hr]
  unfold w2g at e
  unfold w2gD
  rw [if_neg g.1, if_neg g.2] at e ⊢
  obtain ⟨x, hx, e⟩ := drawn_bind e
  rw [draw_bind, show d.G.pick (o n) = _ from hx, Res.ok_bind]
  exact finish_drawn hr (fun _ => rfl) e rfl

theorem cont2deltaD_eq (hr : refused P d .cont2delta = false) (e : cont2delta P (fun i => o (n + i)) d = .ok out) :
    cont2deltaD P d o n = .ok (out, n + drawn P .cont2delta (fun i => o (n + i)) d out) := by
  have g : ¬ (d.order < 2 ∨ d.worm.exist = true) := by simpa [refused] using hr
  unfold cont2delta at e
  unfold cont2deltaD
  rw [if_neg g] at e ⊢
  obtain ⟨x, hx, e⟩ := drawn_bind e
  rw [draw_bind, show d.W.pick (o n) = _ from hx, Res.ok_bind]
  exact finish_drawn hr (fun _ => rfl) e rfl

/-- The common body of the two changes makes a proposal. -/
theorem deltaCore_noskip {b : Bool} {w : ℕ} {t f u : Q} (h : deltaCore P d b w t f u = .ok out) : out.tag ≠ .skip := by
  unfold deltaCore at h
  obtain ⟨_, -, h⟩ := drawn_bind h
  obtain ⟨_, -, h⟩ := drawn_bind h
  obtain ⟨_, -, h⟩ := drawn_bind h
  obtain ⟨_, -, h⟩ := drawn_bind h
  obtain ⟨_, -, h⟩ := drawn_bind h
  obtain ⟨_, -, h⟩ := drawn_bind h
  exact (metropolis_tag h).1

theorem delta2contD_eq (hr : refused P d .delta2cont = false) (e : delta2cont P (fun i => o (n + i)) d = .ok out) :
    delta2contD P d o n = .ok (out, n + drawn P .delta2cont (fun i => o (n + i)) d out) := by
  have g : ¬ (d.order < 2 ∨ d.worm.exist = true) := by simpa [refused] using hr
  unfold delta2cont at e
  unfold delta2contD
  rw [if_neg g] at e ⊢
  obtain ⟨x, hx, e⟩ := drawn_bind e
  have e' := e
  unfold delta2contCore at e'
  obtain ⟨_, h1, e'⟩ := drawn_bind e'
  rw [draw_bind, show d.W.pick (o n) = _ from hx, Res.ok_bind, lift_bind, h1, Res.ok_bind]
  split_ifs at e' ⊢ with hs
  · exact giveUp_drawn hr e' rfl
  · rw [drawTau_bind]
    exact finish_drawn hr (fun h => absurd h (deltaCore_noskip e')) e rfl

theorem changeTauD_eq (hr : refused P d .changeTau = false) (e : changeTau P (fun i => o (n + i)) d = .ok out) :
    changeTauD P d o n = .ok (out, n + drawn P .changeTau (fun i => o (n + i)) d out) := by
  have g : ¬ (d.order = 0 ∨ d.worm.exist = true) := by simpa [refused] using hr
  unfold changeTau at e
  unfold changeTauD
  rw [if_neg g] at e ⊢
  obtain ⟨x, hx, e⟩ := drawn_bind e
  have e' := e
  unfold changeTauCore at e'
  obtain ⟨_, h1, e'⟩ := drawn_bind e'
  obtain ⟨_, h2, e'⟩ := drawn_bind e'
  rw [draw_bind, show d.Ver.pick (o n) = _ from hx, Res.ok_bind, lift_bind, h1, Res.ok_bind, lift_bind, h2, Res.ok_bind]
  split_ifs at e' ⊢ with hs
  · exact giveUp_drawn hr e' rfl
  · rw [drawTau_bind]
    refine finish_drawn hr (fun h => absurd h ?_) e rfl
    obtain ⟨_, -, e'⟩ := drawn_bind e'
    obtain ⟨_, -, e'⟩ := drawn_bind e'
    obtain ⟨_, -, e'⟩ := drawn_bind e'
    obtain ⟨_, -, e'⟩ := drawn_bind e'
    obtain ⟨_, -, e'⟩ := drawn_bind e'
    exact (metropolis_tag e').1

theorem changeRLoopD_eq (hr : refused P d .changeRLoop = false) (e : changeRLoop P (fun i => o (n + i)) d = .ok out) :
    changeRLoopD P d o n = .ok (out, n + drawn P .changeRLoop (fun i => o (n + i)) d out) := by
  have g : ¬ (d.order = 0 ∨ d.worm.exist = true) := by simpa [refused] using hr
  unfold changeRLoop at e
  unfold changeRLoopD
  rw [if_neg g] at e ⊢
  split_ifs at e ⊢ with hm
  obtain ⟨x, hx, e⟩ := drawn_bind e
  obtain ⟨_, h1, e⟩ := drawn_bind e
  obtain ⟨y, hy, e⟩ := drawn_bind e
  rw [draw_bind, show d.Ver.pick (o n) = _ from hx, Res.ok_bind, lift_bind, h1, Res.ok_bind, lift_bind, hy, Res.ok_bind]
  match y, e with
  | none, e => exact giveUp_drawn hr e rfl
  | some (vs, fw), e =>
    dsimp only at e ⊢
    obtain ⟨r, hs, e⟩ := drawn_bind e
    rw [drawSite_bind, show pickSite P (o (n + 1)) (o (n + 1 + 1)) (o (n + 1 + 2)) = _ from hs, Res.ok_bind]
    exact finish_drawn hr (fun h => absurd h (changeRLoopCore_noskip e)) e rfl

theorem toOrder0D_eq (hr : refused P d .toOrder0 = false) (e : toOrder0 P (fun i => o (n + i)) d = .ok out) :
    toOrder0D P d o n = .ok (out, n + drawn P .toOrder0 (fun i => o (n + i)) d out) := by
  have g : ¬ (d.worm.exist = true ∨ d.order ≠ 1) ∧ ¬ d.hasGamma ≠ 0 := by
    simp only [refused, Bool.or_eq_false_iff, decide_eq_false_iff_not] at hr
    simp [hr]
  unfold toOrder0 at e
  unfold toOrder0D
  rw [if_neg g.1, if_neg g.2] at e ⊢
  exact finish_drawn hr (fun _ => rfl) e rfl

theorem backToOrder1D_eq (hr : refused P d .backToOrder1 = false) (e : backToOrder1 P (fun i => o (n + i)) d = .ok out) :
    backToOrder1D P d o n = .ok (out, n + drawn P .backToOrder1 (fun i => o (n + i)) d out) := by
  have g : ¬ d.hasGamma ≠ 0 ∧ ¬ (d.worm.exist = true ∨ d.order ≠ 0) := by
    simp only [refused, Bool.or_eq_false_iff, decide_eq_false_iff_not] at hr
    simp [hr]
  unfold backToOrder1 at e
  unfold backToOrder1D
  rw [if_neg g.1, if_neg g.2] at e ⊢
  obtain ⟨r, h0, e⟩ := drawn_bind e
  obtain ⟨s, h1, e⟩ := drawn_bind e
  obtain ⟨s', h2, e⟩ := drawn_bind e
  rw [drawSite_bind, show pickSite P (o n) (o (n + 1)) (o (n + 2)) = _ from h0, Res.ok_bind, drawTau_bind, drawTau_bind, draw_bind,
    show pickSpin (o (n + 3 + 1 + 1)) = _ from h1, Res.ok_bind, draw_bind, show pickSpin (o (n + 3 + 1 + 1 + 1)) = _ from h2, Res.ok_bind]
  exact finish_drawn hr (fun h => absurd h (backToOrder1Core_noskip e)) e rfl

theorem toGGGammaGD_eq (hr : refused P d .toGGGammaG = false) (e : toGGGammaG P (fun i => o (n + i)) d = .ok out) :
    toGGGammaGD P d o n = .ok (out, n + drawn P .toGGGammaG (fun i => o (n + i)) d out) := by
  have g : ¬ (d.order = 0 ∨ d.worm.exist = true ∨ d.hasGamma ≠ 0) := by
    simp only [refused, Bool.or_eq_false_iff, decide_eq_false_iff_not] at hr
    simp [hr]
  unfold toGGGammaG at e
  unfold toGGGammaGD
  rw [if_neg g] at e ⊢
  obtain ⟨x, hx, e⟩ := drawn_bind e
  have e' := e
  unfold toGGGammaGCore at e'
  obtain ⟨_, h1, e'⟩ := drawn_bind e'
  rw [draw_bind, show d.G.pick (o n) = _ from hx, Res.ok_bind, lift_bind, h1, Res.ok_bind]
  split_ifs at e' ⊢ with hs
  · exact giveUp_drawn hr e' rfl
  · rw [drawTau_bind]
    refine finish_drawn hr (fun h => absurd h ?_) e rfl
    obtain ⟨_, -, e'⟩ := drawn_bind e'
    obtain ⟨_, -, e'⟩ := drawn_bind e'
    exact (metropolis_tag e').1

theorem fromGGGammaGD_eq (hr : refused P d .fromGGGammaG = false) (e : fromGGGammaG P (fun i => o (n + i)) d = .ok out) :
    fromGGGammaGD P d o n = .ok (out, n + drawn P .fromGGGammaG (fun i => o (n + i)) d out) := by
  have g : ¬ (d.order = 0 ∨ d.worm.exist = true ∨ d.hasGamma ≠ 1) := by
    simp only [refused, Bool.or_eq_false_iff, decide_eq_false_iff_not] at hr
    simp [hr]
  unfold fromGGGammaG at e
  unfold fromGGGammaGD
  rw [if_neg g] at e ⊢
  exact finish_drawn hr (fun _ => rfl) e rfl

theorem toWWGammaWD_eq (hr : refused P d .toWWGammaW = false) (e : toWWGammaW P (fun i => o (n + i)) d = .ok out) :
    toWWGammaWD P d o n = .ok (out, n + drawn P .toWWGammaW (fun i => o (n + i)) d out) := by
  have g : ¬ (d.order = 0 ∨ d.worm.exist = true ∨ d.hasGamma ≠ 0) := by
    simp only [refused, Bool.or_eq_false_iff, decide_eq_false_iff_not] at hr
    simp [hr]
  unfold toWWGammaW at e
  unfold toWWGammaWD
  rw [if_neg g] at e ⊢
  obtain ⟨x, hx, e⟩ := drawn_bind e
  obtain ⟨r, hs, e⟩ := drawn_bind e
  have e' := e
  unfold toWWGammaWCore at e'
  obtain ⟨_, h1, e'⟩ := drawn_bind e'
  rw [draw_bind, show d.W.pick (o n) = _ from hx, Res.ok_bind, lift_bind, h1, Res.ok_bind]
  split_ifs at e' ⊢ with h2 h3
  · exact giveUp_drawn hr e' rfl
  · exact giveUp_drawn hr e' rfl
  · rw [drawTau_bind, drawSite_bind, show pickSite P (o (n + 1 + 1)) (o (n + 1 + 1 + 1)) (o (n + 1 + 1 + 2)) = _ from hs, Res.ok_bind]
    refine finish_drawn hr (fun h => absurd h ?_) e rfl
    obtain ⟨_, -, e'⟩ := drawn_bind e'
    obtain ⟨_, -, e'⟩ := drawn_bind e'
    exact (metropolis_tag e').1

theorem fromWWGammaWD_eq (hr : refused P d .fromWWGammaW = false) (e : fromWWGammaW P (fun i => o (n + i)) d = .ok out) :
    fromWWGammaWD P d o n = .ok (out, n + drawn P .fromWWGammaW (fun i => o (n + i)) d out) := by
  have g : ¬ (d.order = 0 ∨ d.worm.exist = true ∨ d.hasGamma ≠ 2) := by
    simp only [refused, Bool.or_eq_false_iff, decide_eq_false_iff_not] at hr
    simp [hr]
  unfold fromWWGammaW at e
  unfold fromWWGammaWD
  rw [if_neg g] at e ⊢
  exact finish_drawn hr (fun _ => rfl) e rfl

/-- Drawing one word after the other gives what the words at fixed places give, and draws the number of words of the specification. -/
theorem runOpD_eq {op : Op} (e : runOp P op (fun i => o (n + i)) d = .ok out) :
    runOpD P op d o n = .ok (out, n + drawn P op (fun i => o (n + i)) d out) := by
  by_cases hr : refused P d op = true
  · rw [refused_skip hr] at e
    rw [refused_giveUp hr]
    cases e
    unfold drawn
    rw [hr]
    rfl
  rw [Bool.not_eq_true] at hr
  cases op
  · exact createWormD_eq hr e
  · exact deleteWormD_eq hr e
  · exact moveWormGD_eq hr e
  · exact moveWormWD_eq hr e
  · exact reconnectD_eq hr e
  · exact addInteractionD_eq hr e
  · exact delInteractionD_eq hr e
  · exact addDeltaD_eq hr e
  · exact delDeltaD_eq hr e
  · exact changeTauD_eq hr e
  · cases hr
  · exact changeRLoopD_eq hr e
  · exact g2wD_eq hr e
  · exact w2gD_eq hr e
  · exact delta2contD_eq hr e
  · exact cont2deltaD_eq hr e
  · cases hr
  · exact toOrder0D_eq hr e
  · exact backToOrder1D_eq hr e
  · exact toGGGammaGD_eq hr e
  · exact fromGGGammaGD_eq hr e
  · exact toWWGammaWD_eq hr e
  · exact fromWWGammaWD_eq hr e

end
end Feyn
