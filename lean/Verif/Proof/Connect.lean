import Mathlib.Algebra.BigOperators.Group.Finset.Sigma
import Mathlib.Data.Fintype.BigOperators
import Verif.Proof.Extra
import Verif.Spec.Connect

/-!
# Connectedness of diagrams

Paths are replaced by sets of vertices that lines do not leave.
-/

namespace Feyn

set_option linter.unusedSectionVars false
set_option linter.unusedSimpArgs false

section
variable {Q F : Type} [Field Q] [LinearOrder Q] [Field F]
variable {P : Params Q F} {d d' : Diag Q F} {gs ws : Finset ℕ} {S : ℕ → Prop}

/-- No line outside `gs` and `ws` leaves the set `S`. -/
structure Closed (d : Diag Q F) (gs ws : Finset ℕ) (S : ℕ → Prop) : Prop where
  g : ∀ g ∈ d.G.live, g ∉ gs → (S (d.sh.gV g IN) ↔ S (d.sh.gV g OUT))
  w : ∀ w ∈ d.W.live, w ∉ ws → (S (d.sh.wV w IN) ↔ S (d.sh.wV w OUT))

theorem Closed.gE (h : Closed d gs ws S) {g : ℕ} (hg : g ∈ d.G.live) (hn : g ∉ gs) (e e' : Dir) :
    S (d.sh.gV g e) ↔ S (d.sh.gV g e') := by
  have := h.g g hg hn
  cases e <;> cases e' <;> first | exact Iff.rfl | exact this | exact this.symm

theorem Closed.wE (h : Closed d gs ws S) {w : ℕ} (hw : w ∈ d.W.live) (hn : w ∉ ws) (e e' : Dir) :
    S (d.sh.wV w e) ↔ S (d.sh.wV w e') := by
  have := h.w w hw hn
  cases e <;> cases e' <;> first | exact Iff.rfl | exact this | exact this.symm

theorem Closed.compl (h : Closed d gs ws S) : Closed d gs ws fun v => ¬ S v :=
  ⟨fun g hg hn => not_congr (h.g g hg hn), fun w hw hn => not_congr (h.w w hw hn)⟩

theorem Closed.path (h : Closed d gs ws S) {v v' : ℕ} (p : PathBut d gs ws v v') (hv : S v) : S v' := by
  induction p with
  | refl => exact hv
  | tail _ j ih =>
    rcases j with ⟨g, hg, hn, e, rfl, rfl⟩ | ⟨w, hw, hn, e, rfl, rfl⟩
    · exact (h.gE hg hn _ _).1 ih
    · exact (h.wE hw hn _ _).1 ih

theorem JoinedBut.symm {v v' : ℕ} (h : JoinedBut d gs ws v v') : JoinedBut d gs ws v' v := by
  rcases h with ⟨g, hg, hn, e, h1, h2⟩ | ⟨w, hw, hn, e, h1, h2⟩
  · exact Or.inl ⟨g, hg, hn, !e, h2, by rw [Bool.not_not]; exact h1⟩
  · exact Or.inr ⟨w, hw, hn, !e, h2, by rw [Bool.not_not]; exact h1⟩

theorem closed_path (a : ℕ → Prop) : Closed d gs ws fun v => ∃ u, a u ∧ PathBut d gs ws v u := by
  have key : ∀ {v v'}, JoinedBut d gs ws v v' → (∃ u, a u ∧ PathBut d gs ws v u) → ∃ u, a u ∧ PathBut d gs ws v' u := by
    rintro v v' j ⟨u, hu, p⟩
    exact ⟨u, hu, Relation.ReflTransGen.head j.symm p⟩
  constructor
  · intro g hg hn
    have j : JoinedBut d gs ws (d.sh.gV g IN) (d.sh.gV g OUT) := Or.inl ⟨g, hg, hn, IN, rfl, rfl⟩
    exact ⟨key j, key j.symm⟩
  · intro g hg hn
    have j : JoinedBut d gs ws (d.sh.wV g IN) (d.sh.wV g OUT) := Or.inr ⟨g, hg, hn, IN, rfl, rfl⟩
    exact ⟨key j, key j.symm⟩

/-- Without a worm the diagram is in one piece, with a worm each piece contains a worm end. -/
structure Whole (d : Diag Q F) : Prop where
  worm : d.worm.exist = true → ∀ S, Closed d ∅ ∅ S → S d.worm.ira → S d.worm.masha → ∀ v ∈ d.Ver.live, S v
  free : d.worm.exist = false → ∀ S, Closed d ∅ ∅ S → ∀ u ∈ d.Ver.live, S u → ∀ v ∈ d.Ver.live, S v

theorem Whole.paths (h : Whole d) (he : d.worm.exist = true) : ∀ v ∈ d.Ver.live,
    PathBut d ∅ ∅ v d.worm.ira ∨ PathBut d ∅ ∅ v d.worm.masha := by
  intro v hv
  obtain ⟨u, hu | hu, p⟩ := h.worm he _ (closed_path fun u => u = d.worm.ira ∨ u = d.worm.masha)
    ⟨_, Or.inl rfl, Relation.ReflTransGen.refl⟩ ⟨_, Or.inr rfl, Relation.ReflTransGen.refl⟩ v hv
  · exact Or.inl (hu ▸ p)
  · exact Or.inr (hu ▸ p)

/-- Cutting lines leaves a diagram in one piece if every set that only these lines may leave is left by none of them. -/
theorem Whole.cut (h : Whole d) (he : d.worm.exist = false)
    (hc : ∀ S, Closed d gs ws S → Closed d ∅ ∅ S) : ConnectedBut d gs ws := by
  intro v hv v' hv'
  obtain ⟨u, rfl, p⟩ := h.free he _ (hc _ (closed_path fun u => u = v')) v' hv' ⟨v', rfl, Relation.ReflTransGen.refl⟩ v hv
  exact p

/-! ### Updates -/

/-- The graph of the diagram is the same. -/
def SameGraph (d d' : Diag Q F) : Prop :=
  d'.Ver = d.Ver ∧ d'.G = d.G ∧ d'.W = d.W ∧ d'.sh = d.sh

theorem SameGraph.closed (h : SameGraph d d') (hS : Closed d' gs ws S) : Closed d gs ws S := by
  obtain ⟨-, h2, h3, h4⟩ := h
  obtain ⟨a, b⟩ := hS
  rw [h2, h4] at a
  rw [h3, h4] at b
  exact ⟨a, b⟩

/-- The same graph and the same worm ends. -/
def SameEnds (d d' : Diag Q F) : Prop :=
  SameGraph d d' ∧ d'.worm.exist = d.worm.exist ∧ d'.worm.ira = d.worm.ira ∧ d'.worm.masha = d.worm.masha

theorem SameEnds.whole (h : SameEnds d d') (hw : Whole d) : Whole d' := by
  obtain ⟨h1, h2, h3, h4⟩ := h
  constructor
  · intro he S hS hi hm
    rw [h2] at he
    rw [h3] at hi
    rw [h4] at hm
    rw [h1.1]
    exact hw.worm he S (h1.closed hS) hi hm
  · intro he S hS
    rw [h2] at he
    rw [h1.1]
    exact hw.free he S (h1.closed hS)

attribute [local irreducible] metropolis

theorem changeTau_ends (P : Params Q F) (o : Words) (d : Diag Q F) : (changeTau P o d).All (Acc (SameEnds d)) := by
  unfold changeTau changeTauCore
  peelA
  all_goals exact ⟨⟨rfl, rfl, rfl, rfl⟩, rfl, rfl, rfl⟩

theorem g2w_ends (P : Params Q F) (o : Words) (d : Diag Q F) : (g2w P o d).All (Acc (SameEnds d)) := by
  unfold g2w g2wCore
  peelA
  all_goals exact ⟨⟨rfl, rfl, rfl, rfl⟩, rfl, rfl, rfl⟩

theorem w2g_ends (P : Params Q F) (o : Words) (d : Diag Q F) : (w2g P o d).All (Acc (SameEnds d)) := by
  unfold w2g w2gCore
  peelA
  all_goals exact ⟨⟨rfl, rfl, rfl, rfl⟩, rfl, rfl, rfl⟩

theorem delta2cont_ends (P : Params Q F) (o : Words) (d : Diag Q F) : (delta2cont P o d).All (Acc (SameEnds d)) := by
  unfold delta2cont delta2contCore deltaCore
  peelA
  all_goals exact ⟨⟨rfl, rfl, rfl, rfl⟩, rfl, rfl, rfl⟩

theorem cont2delta_ends (P : Params Q F) (o : Words) (d : Diag Q F) : (cont2delta P o d).All (Acc (SameEnds d)) := by
  unfold cont2delta cont2deltaCore deltaCore
  peelA
  all_goals exact ⟨⟨rfl, rfl, rfl, rfl⟩, rfl, rfl, rfl⟩

theorem toOrder0_ends (P : Params Q F) (o : Words) (d : Diag Q F) : (toOrder0 P o d).All (Acc (SameEnds d)) := by
  unfold toOrder0 toOrder0Core
  peelA
  all_goals exact ⟨⟨rfl, rfl, rfl, rfl⟩, rfl, rfl, rfl⟩

theorem backToOrder1_ends (P : Params Q F) (o : Words) (d : Diag Q F) : (backToOrder1 P o d).All (Acc (SameEnds d)) := by
  unfold backToOrder1 backToOrder1Core
  peelA
  all_goals exact ⟨⟨rfl, rfl, rfl, rfl⟩, rfl, rfl, rfl⟩

theorem toGGGammaG_ends (P : Params Q F) (o : Words) (d : Diag Q F) : (toGGGammaG P o d).All (Acc (SameEnds d)) := by
  unfold toGGGammaG toGGGammaGCore
  peelA
  all_goals exact ⟨⟨rfl, rfl, rfl, rfl⟩, rfl, rfl, rfl⟩

theorem fromGGGammaG_ends (P : Params Q F) (o : Words) (d : Diag Q F) : (fromGGGammaG P o d).All (Acc (SameEnds d)) := by
  unfold fromGGGammaG fromGGGammaGCore
  peelA
  all_goals exact ⟨⟨rfl, rfl, rfl, rfl⟩, rfl, rfl, rfl⟩

theorem toWWGammaW_ends (P : Params Q F) (o : Words) (d : Diag Q F) : (toWWGammaW P o d).All (Acc (SameEnds d)) := by
  unfold toWWGammaW toWWGammaWCore
  peelA
  all_goals exact ⟨⟨rfl, rfl, rfl, rfl⟩, rfl, rfl, rfl⟩

theorem fromWWGammaW_ends (P : Params Q F) (o : Words) (d : Diag Q F) : (fromWWGammaW P o d).All (Acc (SameEnds d)) := by
  unfold fromWWGammaW fromWWGammaWCore
  peelA
  all_goals exact ⟨⟨rfl, rfl, rfl, rfl⟩, rfl, rfl, rfl⟩

theorem foldl_loopAssign_ends (newR : Site) (l : List (ℕ × F × F)) (d : Diag Q F) :
    SameEnds d (l.foldl (loopAssign newR) d) := by
  induction l generalizing d with
  | nil => exact ⟨⟨rfl, rfl, rfl, rfl⟩, rfl, rfl, rfl⟩
  | cons a as ih =>
    obtain ⟨⟨h1, h2, h3, h4⟩, k1, k2, k3⟩ := ih (loopAssign newR d a)
    exact ⟨⟨h1, h2, h3, h4⟩, k1, k2, k3⟩

theorem changeRLoop_ends (P : Params Q F) (o : Words) (d : Diag Q F) : (changeRLoop P o d).All (Acc (SameEnds d)) := by
  unfold changeRLoop
  refine Res.all_ite (fun _ => acc_skip) (fun c => ?_)
  refine Res.all_ite (fun _ => Res.all_abort) (fun c2 => ?_)
  refine Res.all_bind fun v0 _ => ?_
  refine Res.all_bind fun _ _ => ?_
  refine Res.all_bind fun res _ => ?_
  cases res with
  | none => exact acc_skip
  | some p =>
    obtain ⟨vs, fw⟩ := p
    dsimp only
    unfold changeRLoopCore
    peelA
    obtain ⟨⟨h1, h2, h3, h4⟩, k1, k2, k3⟩ := foldl_loopAssign_ends (Q := Q) (F := F) _ _ _
    exact ⟨⟨h1, h2, h3, h4⟩, k1, k2, k3⟩

end

section
variable {Q F : Type} [Field Q] [LinearOrder Q] [IsStrictOrderedRing Q] [Field F]
variable {P : Params Q F} {d d' : Diag Q F} {gs ws : Finset ℕ} {S : ℕ → Prop}

attribute [local irreducible] metropolis

theorem createWormCore_whole (h : Inv P d) (hW : Whole d) (hne : d.worm.exist = false) {w : ℕ} (hw : w ∈ d.W.live) {k ds : ℤ}
    {u : Q} : (createWormCore P d w k ds u).All (Acc Whole) := by
  unfold createWormCore
  peelA
  refine ⟨fun _ S hS hi _ => ?_, fun q => by cases q⟩
  exact hW.free hne S ⟨hS.g, hS.w⟩ _ (h.topo.wV_mem w hw IN) hi

theorem deleteWormCore_whole (h : Inv P d) (hW : Whole d) (he : d.worm.exist = true) {u : Q} :
    (deleteWormCore P d u).All (Acc Whole) := by
  unfold deleteWormCore
  peelA
  have cm := not_not.1 ‹¬ d.sh.vW d.worm.ira ≠ d.sh.vW d.worm.masha›
  have hi := h.worm.ira_mem he
  have hm := h.worm.masha_mem he
  constructor
  · intro q; cases q
  intro _ S hS
  have hS' : Closed d ∅ ∅ S := ⟨hS.g, hS.w⟩
  have key : S d.worm.ira ↔ S d.worm.masha := by
    have := hS'.wE (h.topo.vW_mem _ hi) (Finset.notMem_empty _) (d.sh.vDir d.worm.ira) (d.sh.vDir d.worm.masha)
    rw [h.topo.wV_vW _ hi, cm, h.topo.wV_vW _ hm] at this
    exact this
  intro u hu su v hv
  by_cases c : S d.worm.ira
  · exact hW.worm he S hS' c (key.1 c) v hv
  · exact absurd su (hW.worm he _ hS'.compl c (fun q => c (key.2 q)) u hu)

theorem moveWormGCore_whole (h : Inv P d) (hW : Whole d) (he : d.worm.exist = true) {dir : Dir} {u : Q} :
    (moveWormGCore P d dir u).All (Acc Whole) := by
  unfold moveWormGCore
  peelA
  have hi := h.worm.ira_mem he
  refine ⟨fun _ S hS si sm => ?_, fun q => by rw [show d.worm.exist = false from q] at he; cases he⟩
  have hS' : Closed d ∅ ∅ S := ⟨hS.g, hS.w⟩
  refine hW.worm he S hS' ?_ sm
  have := hS'.gE (h.topo.vG_mem _ hi dir) (Finset.notMem_empty _) dir (!dir)
  rw [h.topo.gV_vG _ hi dir] at this
  exact this.1 si

theorem moveWormWCore_whole (h : Inv P d) (hW : Whole d) (he : d.worm.exist = true) {u : Q} :
    (moveWormWCore P d u).All (Acc Whole) := by
  unfold moveWormWCore
  peelA
  have hi := h.worm.ira_mem he
  refine ⟨fun _ S hS si sm => ?_, fun q => by rw [show d.worm.exist = false from q] at he; cases he⟩
  have hS' : Closed d ∅ ∅ S := ⟨hS.g, hS.w⟩
  refine hW.worm he S hS' ?_ sm
  have := hS'.wE (h.topo.vW_mem _ hi) (Finset.notMem_empty _) (!d.sh.vDir d.worm.ira) (d.sh.vDir d.worm.ira)
  rw [h.topo.wV_vW _ hi] at this
  exact this.1 si

theorem iff_dir {p : Dir → Prop} (dir : Dir) (h : p dir ↔ p (!dir)) : p IN ↔ p OUT := by
  cases dir
  · exact h
  · exact h.symm

theorem reconnectCore_whole (h : Inv P d) (hW : Whole d) (he : d.worm.exist = true) {dir : Dir} {u : Q} :
    (reconnectCore P d dir u).All (Acc Whole) := by
  have hi := h.worm.ira_mem he
  have hm := h.worm.masha_mem he
  have gi := h.topo.vG_mem _ hi dir
  have gm := h.topo.vG_mem _ hm dir
  have hgi := h.topo.gV_vG _ hi dir
  have hgm := h.topo.gV_vG _ hm dir
  have hne : d.sh.vG d.worm.ira dir ≠ d.sh.vG d.worm.masha dir := fun q => h.worm.ne he (by rw [← hgi, q, hgm])
  have hd : dir ≠ !dir := by cases dir <;> decide
  unfold reconnectCore
  peelA
  refine ⟨fun _ S hS si sm => ?_, fun q => by rw [show d.worm.exist = false from q] at he; cases he⟩
  refine hW.worm he S ⟨fun g hg hn => ?_, hS.w⟩ si sm
  have k : S (upd2 (upd2 d.sh.gV (d.sh.vG d.worm.ira dir) (!dir) d.worm.masha) (d.sh.vG d.worm.masha dir) (!dir) d.worm.ira g dir) ↔
      S (upd2 (upd2 d.sh.gV (d.sh.vG d.worm.ira dir) (!dir) d.worm.masha) (d.sh.vG d.worm.masha dir) (!dir) d.worm.ira g (!dir)) :=
    hS.gE (g := g) hg hn dir (!dir)
  rw [upd2_ne' _ _ _ _ hd, upd2_ne' _ _ _ _ hd] at k
  refine iff_dir (p := fun e => S (d.sh.gV g e)) dir ?_
  by_cases c2 : g = d.sh.vG d.worm.masha dir
  · subst c2
    rw [upd2_same] at k
    rw [hgm]
    exact iff_of_true (k.2 si) sm
  rw [upd2_ne _ _ _ _ c2] at k
  by_cases c1 : g = d.sh.vG d.worm.ira dir
  · subst c1
    rw [upd2_same] at k
    rw [hgi]
    exact iff_of_true (k.2 sm) si
  rw [upd2_ne _ _ _ _ c1] at k
  exact k

theorem addCore_whole (hP : P.Wf) (h : Inv P d) (hW : Whole d) (ho : d.order ≠ 0) (hmx : d.order < P.maxOrd)
    (he : d.worm.exist = true) {isDelta : Bool} {kW : ℤ} {dir dirW : Dir} {tauA tauB u : Q} :
    (addCore P d isDelta kW dir dirW tauA tauB u).All (Acc Whole) := by
  have hN : d.order = d.W.avail := by have := h.count.order; omega
  have hM := hP.lt_max
  have hi := h.worm.ira_mem he
  have hm := h.worm.masha_mem he
  have gi := h.topo.vG_mem _ hi dir
  have gm := h.topo.vG_mem _ hm dir
  have hgi := h.topo.gV_vG _ hi dir
  have hgm := h.topo.gV_vG _ hm dir
  have hne : d.sh.vG d.worm.ira dir ≠ d.sh.vG d.worm.masha dir := fun q => h.worm.ne he (by rw [← hgi, q, hgm])
  have hd : dir ≠ !dir := by cases dir <;> decide
  unfold addCore
  peelA
  rename_i x1 hA x2 hB x3 hGA x4 hGB x5 hw _ _ _ _ _ _
  obtain ⟨vA, ver1⟩ := x1
  obtain ⟨vB, ver2⟩ := x2
  obtain ⟨gA, g1⟩ := x3
  obtain ⟨gB, g2⟩ := x4
  obtain ⟨w, w1⟩ := x5
  dsimp only at hA hB hw hGA hGB ⊢
  have hv := h.count.ver
  have hg := h.count.g
  obtain ⟨a1, a2, a3, a4⟩ := add_live h.count.verWf hA (by omega)
  obtain ⟨b1, b2, b3, b4⟩ := add_live a1 hB (by omega)
  obtain ⟨p1, p2, p3, p4⟩ := add_live h.count.gWf hGA (by omega)
  obtain ⟨q1, q2, q3, q4⟩ := add_live p1 hGB (by omega)
  obtain ⟨c1, c2, c3, c4⟩ := add_live h.count.wWf hw (by omega)
  have hAB : gB ≠ gA := fun q => q2 (by rw [p3, q]; exact Finset.mem_insert_self _ _)
  have hBG : gB ∉ d.G.live := fun q => q2 (by rw [p3]; exact Finset.mem_insert_of_mem q)
  have nA : ∀ x ∈ d.G.live, x ≠ gA := fun x hx q => p2 (q ▸ hx)
  have nB : ∀ x ∈ d.G.live, x ≠ gB := fun x hx q => hBG (q ▸ hx)
  refine ⟨fun _ S hS si sm => ?_, fun q => by rw [show d.worm.exist = false from q] at he; cases he⟩
  have si : S d.worm.ira := si
  have sm : S d.worm.masha := sm
  have kG : ∀ g ∈ g2.live, ∀ e, S (upd2 (upd2 (upd2 (upd2 (upd2 (upd2 d.sh.gV gA (!dir) d.worm.ira) gA dir vA) gB (!dir) d.worm.masha)
          gB dir vB) (d.sh.vG d.worm.ira dir) (!dir) vA) (d.sh.vG d.worm.masha dir) (!dir) vB g e) ↔
      S (upd2 (upd2 (upd2 (upd2 (upd2 (upd2 d.sh.gV gA (!dir) d.worm.ira) gA dir vA) gB (!dir) d.worm.masha)
          gB dir vB) (d.sh.vG d.worm.ira dir) (!dir) vA) (d.sh.vG d.worm.masha dir) (!dir) vB g (!e)) := fun g hg e =>
    hS.gE (g := g) hg (Finset.notMem_empty _) e (!e)
  have mG : ∀ x ∈ d.G.live, x ∈ g2.live := fun x hx => by
    rw [q3, p3]; exact Finset.mem_insert_of_mem (Finset.mem_insert_of_mem hx)
  have sA : S vA := by
    have := kG gA (by rw [q3, p3]; exact Finset.mem_insert_of_mem (Finset.mem_insert_self _ _)) dir
    rw [upd2_ne _ _ _ _ (nA _ gm).symm, upd2_ne _ _ _ _ (nA _ gi).symm, upd2_ne _ _ _ _ hAB.symm, upd2_ne _ _ _ _ hAB.symm, upd2_same,
      upd2_ne _ _ _ _ (nA _ gm).symm, upd2_ne _ _ _ _ (nA _ gi).symm, upd2_ne _ _ _ _ hAB.symm, upd2_ne _ _ _ _ hAB.symm,
      upd2_ne' _ _ _ _ hd.symm, upd2_same] at this
    exact this.2 si
  have sB : S vB := by
    have := kG gB (by rw [q3]; exact Finset.mem_insert_self _ _) dir
    rw [upd2_ne _ _ _ _ (nB _ gm).symm, upd2_ne _ _ _ _ (nB _ gi).symm, upd2_same,
      upd2_ne _ _ _ _ (nB _ gm).symm, upd2_ne _ _ _ _ (nB _ gi).symm, upd2_ne' _ _ _ _ hd.symm, upd2_same] at this
    exact this.2 sm
  have hS' : Closed d ∅ ∅ S := by
    constructor
    · intro g hg _
      have k := kG g (mG g hg) dir
      rw [upd2_ne' _ _ _ _ hd, upd2_ne' _ _ _ _ hd, upd2_ne _ _ _ _ (nB g hg), upd2_ne _ _ _ _ (nB g hg), upd2_ne _ _ _ _ (nA g hg),
        upd2_ne _ _ _ _ (nA g hg)] at k
      refine iff_dir (p := fun e => S (d.sh.gV g e)) dir ?_
      by_cases c2 : g = d.sh.vG d.worm.masha dir
      · subst c2
        rw [upd2_same] at k
        rw [hgm]
        exact iff_of_true (k.2 sB) sm
      rw [upd2_ne _ _ _ _ c2] at k
      by_cases c1 : g = d.sh.vG d.worm.ira dir
      · subst c1
        rw [upd2_same] at k
        rw [hgi]
        exact iff_of_true (k.2 sA) si
      rw [upd2_ne _ _ _ _ c1, upd2_ne _ _ _ _ (nB g hg), upd2_ne _ _ _ _ (nB g hg), upd2_ne _ _ _ _ (nA g hg),
        upd2_ne _ _ _ _ (nA g hg)] at k
      exact k
    · intro x hx _
      have k : S (upd2 (upd2 d.sh.wV w dirW vA) w (!dirW) vB x IN) ↔ S (upd2 (upd2 d.sh.wV w dirW vA) w (!dirW) vB x OUT) :=
        hS.w x (by show x ∈ w1.live; rw [c3]; exact Finset.mem_insert_of_mem hx) (Finset.notMem_empty _)
      have hn : x ≠ w := fun q => c2 (q ▸ hx)
      rw [upd2_ne _ _ _ _ hn, upd2_ne _ _ _ _ hn, upd2_ne _ _ _ _ hn, upd2_ne _ _ _ _ hn] at k
      exact k
  have all := hW.worm he S hS' si sm
  intro v hv
  have hv : v ∈ ver2.live := hv
  rw [b3, Finset.mem_insert, a3, Finset.mem_insert] at hv
  rcases hv with rfl | rfl | hv
  · exact sB
  · exact sA
  · exact all v hv

theorem delCore_whole (h : Inv P d) (hW : Whole d) (he : d.worm.exist = true) {isDelta : Bool} {dir : Dir} {u : Q} :
    (delCore P d isDelta dir u).All (Acc Whole) := by
  have hi := h.worm.ira_mem he
  have hm := h.worm.masha_mem he
  have gi := h.topo.vG_mem _ hi dir
  have gm := h.topo.vG_mem _ hm dir
  have hgi := h.topo.gV_vG _ hi dir
  have hgm := h.topo.gV_vG _ hm dir
  have hne : d.sh.vG d.worm.ira dir ≠ d.sh.vG d.worm.masha dir := fun q => h.worm.ne he (by rw [← hgi, q, hgm])
  have hd : dir ≠ !dir := by cases dir <;> decide
  have mA := h.topo.gV_mem _ gi dir
  have mB := h.topo.gV_mem _ gm dir
  have bA := h.topo.vG_gV _ gi dir
  have bB := h.topo.vG_gV _ gm dir
  unfold delCore
  peelA
  rename_i ver1 r1 ver2 r2 _ _ g1 r3 _ _ g2 r4 _ _ w1 r5
  dsimp only at r1 r2 r3 r4 r5 ⊢
  have cw := ‹¬ d.sh.vW (d.sh.gV (d.sh.vG d.worm.ira dir) dir) ≠ d.sh.vW (d.sh.gV (d.sh.vG d.worm.masha dir) dir)›
  have cf := ‹¬ (d.fl.wMeas (d.sh.vW (d.sh.gV (d.sh.vG d.worm.ira dir) dir)) || _ || _ || _) = true›
  generalize hvA : d.sh.gV (d.sh.vG d.worm.ira dir) dir = vA at *
  generalize hvB : d.sh.gV (d.sh.vG d.worm.masha dir) dir = vB at *
  have cw := not_not.1 cw
  have nw : d.fl.wWorm (d.sh.vW vA) ≠ true := by
    intro q; rw [q] at cf; simp at cf
  have fl := h.worm.flag _ (h.topo.vW_mem _ mA)
  have nworm : ∀ v ∈ d.Ver.live, d.sh.vW v = d.sh.vW vA → v ≠ d.worm.ira ∧ v ≠ d.worm.masha := by
    intro v hv hw
    have : d.sh.wV (d.sh.vW vA) (d.sh.vDir v) = v := by rw [← hw, h.topo.wV_vW v hv]
    exact ⟨fun q => nw (fl.2 ⟨he, _, Or.inl (this.trans q)⟩), fun q => nw (fl.2 ⟨he, _, Or.inr (this.trans q)⟩)⟩
  obtain ⟨nAi, nAm⟩ := nworm vA mA rfl
  obtain ⟨nBi, nBm⟩ := nworm vB mB cw.symm
  have nAB : vA ≠ vB := fun q => hne (by rw [← bA, ← bB, q])
  have gA := h.topo.vG_mem _ mA dir
  have gB := h.topo.vG_mem _ mB dir
  have eA := h.topo.gV_vG _ mA dir
  have eB := h.topo.gV_vG _ mB dir
  obtain ⟨a1, a2, -⟩ := remove_live h.count.verWf mA r1
  obtain ⟨b1, b2, -⟩ := remove_live a1 (by rw [a2]; exact Finset.mem_erase.2 ⟨nAB.symm, mB⟩) r2
  obtain ⟨p1, p2, -⟩ := remove_live h.count.gWf gi r3
  obtain ⟨q1, q2, -⟩ := remove_live p1 (by rw [p2]; exact Finset.mem_erase.2 ⟨hne.symm, gm⟩) r4
  obtain ⟨c1, c2, -⟩ := remove_live h.count.wWf (h.topo.vW_mem _ mA) r5
  have n1 : d.sh.vG vA dir ≠ d.sh.vG d.worm.ira dir := fun q => nAi (by rw [← eA, q, hgi])
  have n2 : d.sh.vG vA dir ≠ d.sh.vG d.worm.masha dir := fun q => nAm (by rw [← eA, q, hgm])
  have n3 : d.sh.vG vB dir ≠ d.sh.vG d.worm.ira dir := fun q => nBi (by rw [← eB, q, hgi])
  have n4 : d.sh.vG vB dir ≠ d.sh.vG d.worm.masha dir := fun q => nBm (by rw [← eB, q, hgm])
  have n5 : d.sh.vG vA dir ≠ d.sh.vG vB dir := fun q => nAB (by rw [← eA, q, eB])
  refine ⟨fun _ S hS si sm => ?_, fun q => by rw [show d.worm.exist = false from q] at he; cases he⟩
  have si : S d.worm.ira := si
  have sm : S d.worm.masha := sm
  have kG : ∀ g ∈ d.G.live, g ≠ d.sh.vG d.worm.ira dir → g ≠ d.sh.vG d.worm.masha dir →
      (S (upd2 (upd2 d.sh.gV (d.sh.vG vA dir) (!dir) d.worm.ira) (d.sh.vG vB dir) (!dir) d.worm.masha g dir) ↔
      S (upd2 (upd2 d.sh.gV (d.sh.vG vA dir) (!dir) d.worm.ira) (d.sh.vG vB dir) (!dir) d.worm.masha g (!dir))) := fun g hg u1 u2 =>
    hS.gE (g := g) (show g ∈ g2.live by
      rw [q2, p2]; exact Finset.mem_erase.2 ⟨u2, Finset.mem_erase.2 ⟨u1, hg⟩⟩) (Finset.notMem_empty _) dir (!dir)
  have hS' : Closed d ∅ ∅ (fun v => S v ∨ v = vA ∨ v = vB) := by
    constructor
    · intro g hg _
      refine iff_dir (p := fun e => S (d.sh.gV g e) ∨ d.sh.gV g e = vA ∨ d.sh.gV g e = vB) dir ?_
      by_cases u1 : g = d.sh.vG d.worm.ira dir
      · subst u1
        rw [hvA, hgi]
        exact iff_of_true (Or.inr (Or.inl rfl)) (Or.inl si)
      by_cases u2 : g = d.sh.vG d.worm.masha dir
      · subst u2
        rw [hvB, hgm]
        exact iff_of_true (Or.inr (Or.inr rfl)) (Or.inl sm)
      have k := kG g hg u1 u2
      rw [upd2_ne' _ _ _ _ hd, upd2_ne' _ _ _ _ hd] at k
      by_cases u3 : g = d.sh.vG vB dir
      · subst u3
        rw [upd2_same] at k
        rw [eB]
        exact iff_of_true (Or.inl (k.2 sm)) (Or.inr (Or.inr rfl))
      rw [upd2_ne _ _ _ _ u3] at k
      by_cases u4 : g = d.sh.vG vA dir
      · subst u4
        rw [upd2_same] at k
        rw [eA]
        exact iff_of_true (Or.inl (k.2 si)) (Or.inr (Or.inl rfl))
      rw [upd2_ne _ _ _ _ u4] at k
      have f1 : d.sh.gV g dir ≠ vA := fun q => u1 (by rw [← h.topo.vG_gV g hg dir, q, bA])
      have f2 : d.sh.gV g dir ≠ vB := fun q => u2 (by rw [← h.topo.vG_gV g hg dir, q, bB])
      have f3 : d.sh.gV g (!dir) ≠ vA := fun q => u4 (by rw [← h.topo.vG_gV g hg (!dir), q, Bool.not_not])
      have f4 : d.sh.gV g (!dir) ≠ vB := fun q => u3 (by rw [← h.topo.vG_gV g hg (!dir), q, Bool.not_not])
      simp only [f1, f2, f3, f4, or_false]
      exact k
    · intro x hx _
      by_cases c : x = d.sh.vW vA
      · have w1 := h.topo.wV_vW vA mA
        have w2 := h.topo.wV_vW vB mB
        rw [← cw] at w2
        have hdir : d.sh.vDir vB = !d.sh.vDir vA := by
          cases hq : d.sh.vDir vA <;> cases hq' : d.sh.vDir vB
          · rw [hq] at w1; rw [hq'] at w2; exact absurd (w1.symm.trans w2) nAB
          · rfl
          · rfl
          · rw [hq] at w1; rw [hq'] at w2; exact absurd (w1.symm.trans w2) nAB
        rw [hdir] at w2
        subst c
        refine iff_dir (p := fun e => S (d.sh.wV _ e) ∨ d.sh.wV _ e = vA ∨ d.sh.wV _ e = vB) (d.sh.vDir vA) ?_
        rw [w1, w2]
        exact iff_of_true (Or.inr (Or.inl rfl)) (Or.inr (Or.inr rfl))
      · have k : S (d.sh.wV x IN) ↔ S (d.sh.wV x OUT) :=
          hS.w x (by show x ∈ w1.live; rw [c2]; exact Finset.mem_erase.2 ⟨c, hx⟩) (Finset.notMem_empty _)
        have f : ∀ e, d.sh.wV x e ≠ vA ∧ d.sh.wV x e ≠ vB := fun e =>
          ⟨fun q => c (by rw [← h.topo.vW_wV x hx e, q]), fun q => c (by rw [← h.topo.vW_wV x hx e, q, cw])⟩
        simp only [(f IN).1, (f IN).2, (f OUT).1, (f OUT).2, or_false]
        exact k
  have all := hW.worm he _ hS' (Or.inl si) (Or.inl sm)
  intro v hv
  have hv : v ∈ ver2.live := hv
  rw [b2, Finset.mem_erase, a2, Finset.mem_erase] at hv
  rcases all v hv.2.2 with q | q | q
  · exact q
  · exact absurd q hv.2.1
  · exact absurd q hv.1

theorem acc_whole {r : Res (Out Q F)} (hr : r.All (Acc (SameEnds d))) (hW : Whole d) : r.All (Acc Whole) :=
  acc_mono hr fun _ a => a.whole hW

theorem runOp_whole (hP : P.Wf) (h : Inv P d) (hW : Whole d) (op : Op) (o : Words) : (runOp P op o d).All (Acc Whole) := by
  cases op <;> unfold runOp <;> dsimp only
  case createWorm =>
    unfold createWorm
    refine Res.all_ite (fun _ => acc_skip) (fun c => ?_)
    simp only [not_or, Bool.not_eq_true] at c
    obtain ⟨w, ew, hw⟩ := h.pickW (o 0)
    obtain ⟨k, ek, -⟩ := pickK_spec (o 1)
    obtain ⟨s, es, hs⟩ := pickDSpin_spec (o 2)
    simp only [ew, ek, es, Res.ok_bind]
    exact createWormCore_whole h hW c.2 hw
  case deleteWorm =>
    unfold deleteWorm
    refine Res.all_ite (fun _ => acc_skip) (fun c => ?_)
    simp only [not_or, Bool.not_eq_false] at c
    exact deleteWormCore_whole h hW c.2
  case moveWormG =>
    unfold moveWormG
    refine Res.all_ite (fun _ => acc_skip) (fun c => ?_)
    simp only [not_or, Bool.not_eq_false] at c
    refine Res.all_bind fun _ _ => ?_
    exact moveWormGCore_whole h hW c.2
  case moveWormW =>
    unfold moveWormW
    refine Res.all_ite (fun _ => acc_skip) (fun c => ?_)
    simp only [not_or, Bool.not_eq_false] at c
    exact moveWormWCore_whole h hW c.2
  case reconnect =>
    unfold reconnect
    refine Res.all_ite (fun _ => acc_skip) (fun c => ?_)
    simp only [not_or, Bool.not_eq_false] at c
    refine Res.all_bind fun _ _ => ?_
    refine Res.all_bind fun _ _ => ?_
    refine Res.all_ite (fun _ => acc_skip) (fun _ => ?_)
    refine Res.all_bind fun _ _ => ?_
    exact reconnectCore_whole h hW c.2
  case addInteraction =>
    unfold addInteraction
    refine Res.all_ite (fun _ => acc_skip) (fun c => ?_)
    simp only [Bool.not_eq_false] at c
    refine Res.all_ite (fun _ => acc_skip) (fun c2 => ?_)
    simp only [not_or, not_le] at c2
    refine Res.all_bind fun _ _ => ?_
    refine Res.all_bind fun _ _ => ?_
    refine Res.all_bind fun _ _ => ?_
    exact addCore_whole hP h hW c2.1 (by omega) c
  case delInteraction =>
    unfold delInteraction
    refine Res.all_ite (fun _ => acc_skip) (fun c => ?_)
    simp only [Bool.not_eq_false] at c
    refine Res.all_ite (fun _ => acc_skip) (fun _ => ?_)
    refine Res.all_bind fun _ _ => ?_
    exact delCore_whole h hW c
  case addDelta =>
    unfold addDelta
    refine Res.all_ite (fun _ => acc_skip) (fun c => ?_)
    simp only [Bool.not_eq_false] at c
    refine Res.all_ite (fun _ => acc_skip) (fun c2 => ?_)
    simp only [not_or, not_le] at c2
    refine Res.all_bind fun _ _ => ?_
    refine Res.all_bind fun _ _ => ?_
    refine Res.all_bind fun _ _ => ?_
    exact addCore_whole hP h hW c2.1 (by omega) c
  case delDelta =>
    unfold delDelta
    refine Res.all_ite (fun _ => acc_skip) (fun c => ?_)
    simp only [Bool.not_eq_false] at c
    refine Res.all_ite (fun _ => acc_skip) (fun _ => ?_)
    refine Res.all_bind fun _ _ => ?_
    exact delCore_whole h hW c
  case changeTau => exact acc_whole (changeTau_ends P o d) hW
  case delta2cont => exact acc_whole (delta2cont_ends P o d) hW
  case cont2delta => exact acc_whole (cont2delta_ends P o d) hW
  case changeRLoop => exact acc_whole (changeRLoop_ends P o d) hW
  case backToOrder1 => exact acc_whole (backToOrder1_ends P o d) hW
  case g2w => exact acc_whole (g2w_ends P o d) hW
  case w2g => exact acc_whole (w2g_ends P o d) hW
  case toOrder0 => exact acc_whole (toOrder0_ends P o d) hW
  case toGGGammaG => exact acc_whole (toGGGammaG_ends P o d) hW
  case fromGGGammaG => exact acc_whole (fromGGGammaG_ends P o d) hW
  case toWWGammaW => exact acc_whole (toWWGammaW_ends P o d) hW
  case fromWWGammaW => exact acc_whole (fromWWGammaW_ends P o d) hW
  all_goals exact acc_skip

/-! ### Executions -/

theorem Untouched.ends (h : Untouched d d') : SameEnds d d' := by
  rcases h with rfl | ⟨-, e, rfl⟩ <;> exact ⟨⟨rfl, rfl, rfl, rfl⟩, rfl, rfl, rfl⟩

theorem hopOne_whole {c c' : Chain Q F} (hP : c.P.Wf) (h : Inv c.P c.d) (hW : Whole c.d) {o : Words}
    (e : hopOne c o = .ok c') : Whole c'.d := by
  unfold hopOne at e
  cases hs : selectOp c.P (urn Q (o 0)) with
  | none =>
    rw [hs] at e
    cases e
    exact hW
  | some op =>
    obtain ⟨out, eo, -⟩ := runOp_good hP h op (fun i => o (i + 1))
    have he := runOp_effect c.P op (fun i => o (i + 1)) c.d out eo
    have hk := runOp_whole hP h hW op (fun i => o (i + 1)) out eo
    rw [hs] at e
    simp only [eo, Res.ok_bind] at e
    cases e
    by_cases ht : out.tag = .accept
    · exact hk ht
    · exact (he.1 ht).ends.whole hW

theorem Started.whole (h : Started P d) : Whole d := by
  constructor
  · intro q; rw [h.worm] at q; cases q
  intro _ S hS u hu su v hv
  have k := hS.g 0 (by rw [h.g, Bundle.ofSize_live (by omega)]; simp) (Finset.notMem_empty _)
  rw [h.gV 0 (by omega), h.gV 0 (by omega)] at k
  simp at k
  rw [h.ver, Bundle.ofSize_live (by omega), Finset.mem_range] at hu hv
  have cu : u = 0 ∨ u = 1 := by omega
  have cv : v = 0 ∨ v = 1 := by omega
  rcases cu with rfl | rfl <;> rcases cv with rfl | rfl
  · exact su
  · exact k.1 su
  · exact k.2 su
  · exact su

theorem dropWorm_whole (h : Whole d) : Whole (dropWorm d) := by
  by_cases c : d.worm.exist = true
  · rw [show dropWorm d = d from by unfold dropWorm; simp only [if_pos c]]; exact h
  · exact ⟨fun q => absurd q c, fun q S hS => h.free q S ⟨hS.g, hS.w⟩⟩

theorem fixed_ends : SameEnds d (fixed P d) := ⟨⟨rfl, rfl, rfl, rfl⟩, rfl, rfl, rfl⟩

theorem Relabeled.whole (h : Relabeled d d') (hi : Inv P d) (hw : Whole d) : Whole d' := by
  have cl : ∀ S, Closed d' ∅ ∅ S → Closed d ∅ ∅ fun v => S (d.Ver.name v) := by
    intro S hS
    constructor
    · intro g hg _
      have l := Bundle.name_lt' hg
      have := hS.g (d.G.name g) ((h.mem_g hi).2 l) (Finset.notMem_empty _)
      rw [h.gV _ l, h.gV _ l, Bundle.slot_name' hi.count.gWf hg] at this
      exact this
    · intro g hg _
      have l := Bundle.name_lt' hg
      have := hS.w (d.W.name g) ((h.mem_w hi).2 l) (Finset.notMem_empty _)
      rw [h.wV _ l, h.wV _ l, Bundle.slot_name' hi.count.wWf hg] at this
      exact this
  have mem : ∀ v, v ∈ d'.Ver.live ↔ v < d.Ver.avail := by
    intro v
    rw [h.ver, Bundle.ofSize_live hi.count.verWf.avail_le, Finset.mem_range]
  have back : ∀ S : ℕ → Prop, (∀ v ∈ d.Ver.live, S (d.Ver.name v)) → ∀ v ∈ d'.Ver.live, S v := by
    intro S hS v hv
    rw [mem] at hv
    have := hS _ (Bundle.slot_mem_live hi.count.verWf hv)
    rwa [Bundle.name_slot' hi.count.verWf hv] at this
  constructor
  · intro he S hS si sm
    rw [h.exist] at he
    rw [h.ira he] at si
    rw [h.masha he] at sm
    exact back S (hw.worm he _ (cl S hS) si sm)
  · intro he S hS u hu su
    rw [h.exist] at he
    rw [mem] at hu
    exact back S (hw.free he _ (cl S hS) _ (Bundle.slot_mem_live hi.count.verWf hu)
      (by rw [Bundle.name_slot' hi.count.verWf hu]; exact su))

theorem Reach.whole {P₀ : Params Q F} (hP : P₀.Wf) (hS : StartOk P₀) {c : Chain Q F} (h : Reach P₀ c) : Whole c.d := by
  induction h with
  | start d₀ d hf e =>
    obtain ⟨d', e', hs⟩ := buildNew_started (P := P₀) hf
    rw [e] at e'; cases e'
    exact hs.whole
  | hop c c' o hr e ih =>
    obtain ⟨h1, h2⟩ := hr.inv hP hS
    exact hopOne_whole h1 h2 ih e
  | reweight c P' _ _ ih => exact ih
  | anneal c P' d' hr _ _ e _ ih =>
    obtain rfl := fixDiagram_fixed (hr.inv hP hS).2 e
    exact fixed_ends.whole ih
  | restart c P' dict d₀ d' n hr ha hγ es h0 el hn ih =>
    obtain ⟨hR, hf, -⟩ := restart_spec (hr.inv hP hS).2 ha hγ h0 es el hn
    exact hR.whole hf (fixed_ends.whole (dropWorm_whole ih))

/-! ### Flow out of a set of vertices -/

open Classical in
/-- Indicator of a set of vertices. -/
noncomputable def ind (S : ℕ → Prop) (v : ℕ) : ℤ := if S v then 1 else 0

theorem ind_cases (S : ℕ → Prop) (v : ℕ) : (ind S v = 0 ∧ ¬ S v) ∨ (ind S v = 1 ∧ S v) := by
  unfold ind
  by_cases h : S v
  · simp [h]
  · simp [h]

theorem ind_congr {v v' : ℕ} (h : S v ↔ S v') : ind S v = ind S v' := by
  rcases ind_cases S v with ⟨a, b⟩ | ⟨a, b⟩ <;> rcases ind_cases S v' with ⟨a', b'⟩ | ⟨a', b'⟩
  · rw [a, a']
  · exact absurd (h.2 b') b
  · exact absurd (h.1 b) b'
  · rw [a, a']

theorem ind_iff {v v' : ℕ} (h : ind S v = ind S v') : S v ↔ S v' := by
  rcases ind_cases S v with ⟨a, b⟩ | ⟨a, b⟩ <;> rcases ind_cases S v' with ⟨a', b'⟩ | ⟨a', b'⟩
  · simp [b, b']
  · omega
  · omega
  · simp [b, b']

theorem sum_vG (h : Inv P d) (e : Dir) (φ f : ℕ → ℤ) :
    ∑ v ∈ d.Ver.live, φ v * f (d.sh.vG v e) = ∑ g ∈ d.G.live, φ (d.sh.gV g (!e)) * f g := by
  refine Finset.sum_nbij' (fun v => d.sh.vG v e) (fun g => d.sh.gV g (!e)) (fun v hv => h.topo.vG_mem v hv e)
    (fun g hg => h.topo.gV_mem g hg _) (fun v hv => h.topo.gV_vG v hv e) (fun g hg => ?_) (fun v hv => ?_)
  · have := h.topo.vG_gV g hg (!e)
    rwa [Bool.not_not] at this
  · rw [h.topo.gV_vG v hv e]

theorem sum_vW (h : Inv P d) (φ f : ℕ → ℤ) :
    ∑ v ∈ d.Ver.live, φ v * (sgn (d.sh.vDir v) * f (d.sh.vW v)) =
      ∑ w ∈ d.W.live, (φ (d.sh.wV w OUT) * (sgn OUT * f w) + φ (d.sh.wV w IN) * (sgn IN * f w)) := by
  have : ∑ v ∈ d.Ver.live, φ v * (sgn (d.sh.vDir v) * f (d.sh.vW v)) =
      ∑ p ∈ d.W.live ×ˢ (Finset.univ : Finset Bool), φ (d.sh.wV p.1 p.2) * (sgn p.2 * f p.1) := by
    refine Finset.sum_nbij' (fun v => (d.sh.vW v, d.sh.vDir v)) (fun p => d.sh.wV p.1 p.2) (fun v hv => ?_)
      (fun p hp => h.topo.wV_mem p.1 (Finset.mem_product.1 hp).1 _) (fun v hv => h.topo.wV_vW v hv) (fun p hp => ?_) (fun v hv => ?_)
    · exact Finset.mem_product.2 ⟨h.topo.vW_mem v hv, Finset.mem_univ _⟩
    · have hw := (Finset.mem_product.1 hp).1
      exact Prod.ext (h.topo.vW_wV p.1 hw p.2) (h.topo.vDir_wV p.1 hw p.2)
    · dsimp only
      rw [h.topo.wV_vW v hv]
  rw [this, Finset.sum_product]
  refine Finset.sum_congr rfl fun w _ => ?_
  rw [Fintype.sum_bool]

/-- Net number of ends of a fermion line in `S`. -/
noncomputable def gFlow (d : Diag Q F) (S : ℕ → Prop) (g : ℕ) : ℤ := ind S (d.sh.gV g OUT) - ind S (d.sh.gV g IN)

/-- Net number of ends of an interaction line in `S`. -/
noncomputable def wFlow (d : Diag Q F) (S : ℕ → Prop) (w : ℕ) : ℤ :=
  ind S (d.sh.wV w OUT) * sgn OUT + ind S (d.sh.wV w IN) * sgn IN

theorem count_flow (h : Inv P d) (S : ℕ → Prop) : ∑ g ∈ d.G.live, gFlow d S g = 0 := by
  have e1 := sum_vG h IN (ind S) (fun _ => 1)
  have e2 := sum_vG h OUT (ind S) (fun _ => 1)
  simp only [mul_one] at e1 e2
  unfold gFlow
  rw [Finset.sum_sub_distrib]
  exact sub_eq_zero.2 (e1.symm.trans e2)

theorem mom_flow (h : Inv P d) (he : d.worm.exist = false) (S : ℕ → Prop) :
    (MOD_K) ∣ ∑ g ∈ d.G.live, gFlow d S g * d.mo.gK g - ∑ w ∈ d.W.live, wFlow d S w * d.mo.wK w := by
  have e1 := sum_vG h IN (ind S) d.mo.gK
  have e2 := sum_vG h OUT (ind S) d.mo.gK
  have e3 := sum_vW h (ind S) d.mo.wK
  have key : ∑ g ∈ d.G.live, gFlow d S g * d.mo.gK g - ∑ w ∈ d.W.live, wFlow d S w * d.mo.wK w =
      ∑ v ∈ d.Ver.live, ind S v * (d.mo.gK (d.sh.vG v IN) - d.mo.gK (d.sh.vG v OUT) - sgn (d.sh.vDir v) * d.mo.wK (d.sh.vW v)) := by
    simp only [mul_sub, Finset.sum_sub_distrib]
    rw [e1, e2, e3]
    unfold gFlow wFlow
    simp only [sub_mul, add_mul, Finset.sum_sub_distrib, mul_assoc]
    rfl
  rw [key]
  refine Finset.dvd_sum fun v hv => Dvd.dvd.mul_left ?_ _
  have := h.kcons v hv
  unfold KConserved at this
  simpa [he] using this

theorem gFlow_zero {g : ℕ} : gFlow d S g = 0 ↔ (S (d.sh.gV g IN) ↔ S (d.sh.gV g OUT)) := by
  unfold gFlow
  constructor
  · intro q; exact ind_iff (by omega)
  · intro q; rw [ind_congr q]; omega

theorem wFlow_zero {w : ℕ} : wFlow d S w = 0 ↔ (S (d.sh.wV w IN) ↔ S (d.sh.wV w OUT)) := by
  have hs : wFlow d S w = ind S (d.sh.wV w OUT) - ind S (d.sh.wV w IN) ∨
      wFlow d S w = ind S (d.sh.wV w IN) - ind S (d.sh.wV w OUT) := by
    unfold wFlow
    have : sgn OUT = 1 ∧ sgn IN = -1 ∨ sgn OUT = -1 ∧ sgn IN = 1 := by decide
    rcases this with ⟨a, b⟩ | ⟨a, b⟩ <;> rw [a, b]
    · left; ring
    · right; ring
  constructor
  · intro q; exact ind_iff (by omega)
  · intro q; have := ind_congr q; omega

theorem gFlow_cases (d : Diag Q F) (S : ℕ → Prop) (g : ℕ) : gFlow d S g = 0 ∨ gFlow d S g = 1 ∨ gFlow d S g = -1 := by
  unfold gFlow
  rcases ind_cases S (d.sh.gV g OUT) with a | a <;> rcases ind_cases S (d.sh.gV g IN) with b | b <;> omega

theorem wFlow_cases (d : Diag Q F) (S : ℕ → Prop) (w : ℕ) : wFlow d S w = 0 ∨ wFlow d S w = 1 ∨ wFlow d S w = -1 := by
  unfold wFlow
  have : sgn OUT = 1 ∧ sgn IN = -1 ∨ sgn OUT = -1 ∧ sgn IN = 1 := by decide
  rcases ind_cases S (d.sh.wV w OUT) with a | a <;> rcases ind_cases S (d.sh.wV w IN) with b | b <;>
    rw [a.1, b.1] <;> omega

/-- Any set left only by lines of `gs` and `ws` is left by none of them. -/
theorem flow_sums (h : Inv P d) (he : d.worm.exist = false) (hg : gs ⊆ d.G.live) (hw : ws ⊆ d.W.live) (hS : Closed d gs ws S) :
    ∑ g ∈ gs, gFlow d S g = 0 ∧
    (MOD_K) ∣ ∑ g ∈ gs, gFlow d S g * d.mo.gK g - ∑ w ∈ ws, wFlow d S w * d.mo.wK w := by
  have zg : ∀ g ∈ d.G.live, g ∉ gs → gFlow d S g = 0 := fun g hm hn => gFlow_zero.2 (hS.g g hm hn)
  have zw : ∀ w ∈ d.W.live, w ∉ ws → wFlow d S w = 0 := fun w hm hn => wFlow_zero.2 (hS.w w hm hn)
  have c := count_flow h S
  have m := mom_flow h he S
  rw [← Finset.sum_subset hg zg] at c
  rw [← Finset.sum_subset hg fun g a b => by rw [zg g a b, zero_mul],
    ← Finset.sum_subset hw fun g a b => by rw [zw g a b, zero_mul]] at m
  exact ⟨c, m⟩

theorem Closed.empty (hS : Closed d gs ws S) (hg : ∀ g ∈ gs, gFlow d S g = 0) (hw : ∀ w ∈ ws, wFlow d S w = 0) :
    Closed d ∅ ∅ S := by
  constructor
  · intro g hm _
    by_cases c : g ∈ gs
    · exact gFlow_zero.1 (hg g c)
    · exact hS.g g hm c
  · intro w hm _
    by_cases c : w ∈ ws
    · exact wFlow_zero.1 (hw w c)
    · exact hS.w w hm c

theorem cut_gg (h : Inv P d) (he : d.worm.exist = false) {g g' : ℕ} (hg : g ∈ d.G.live) (hg' : g' ∈ d.G.live)
    (hS : Closed d {g, g'} ∅ S) : Closed d ∅ ∅ S := by
  obtain ⟨c, m⟩ := flow_sums h he (by intro x; simp only [Finset.mem_insert, Finset.mem_singleton]; rintro (rfl | rfl) <;> assumption)
    (Finset.empty_subset _) hS
  by_cases q : g = g'
  · subst q
    simp only [Finset.insert_eq_of_mem, Finset.mem_singleton, Finset.sum_singleton] at c
    exact hS.empty (by simpa using c) (by simp)
  rw [Finset.sum_pair q] at c m
  rw [Finset.sum_empty] at m
  have n : d.mo.gK g ≠ d.mo.gK g' := fun e => q (h.ghash.inj g hg g' hg' e)
  obtain ⟨a1, a2⟩ := h.ghash.mem g hg
  obtain ⟨b1, b2⟩ := h.ghash.mem g' hg'
  have z : gFlow d S g = 0 := by
    rcases gFlow_cases d S g with a | a | a
    · exact a
    · have b : gFlow d S g' = -1 := by omega
      rw [a, b] at m; omega
    · have b : gFlow d S g' = 1 := by omega
      rw [a, b] at m; omega
  have z' : gFlow d S g' = 0 := by omega
  exact hS.empty (by intro x; simp only [Finset.mem_insert, Finset.mem_singleton]; rintro (rfl | rfl) <;> assumption) (by simp)

theorem cut_gw (h : Inv P d) (he : d.worm.exist = false) {g w : ℕ} (hg : g ∈ d.G.live) (hw : w ∈ d.W.live)
    (hS : Closed d {g} {w} S) : Closed d ∅ ∅ S := by
  obtain ⟨c, m⟩ := flow_sums h he (Finset.singleton_subset_iff.2 hg) (Finset.singleton_subset_iff.2 hw) hS
  rw [Finset.sum_singleton] at c
  rw [Finset.sum_singleton, Finset.sum_singleton, c] at m
  obtain ⟨a1, a2⟩ := h.whash.mem w hw
  have n := h.whash.ne w hw
  have z : wFlow d S w = 0 := by
    rcases wFlow_cases d S w with a | a | a
    · exact a
    · rw [a] at m; omega
    · rw [a] at m; omega
  exact hS.empty (by simpa using c) (by simpa using z)

theorem cut_ww (h : Inv P d) (he : d.worm.exist = false) {w w' : ℕ} (hw : w ∈ d.W.live) (hw' : w' ∈ d.W.live)
    (hS : Closed d ∅ {w, w'} S) : Closed d ∅ ∅ S := by
  obtain ⟨-, m⟩ := flow_sums h he (Finset.empty_subset _)
    (by intro x; simp only [Finset.mem_insert, Finset.mem_singleton]; rintro (rfl | rfl) <;> assumption) hS
  rw [Finset.sum_empty] at m
  obtain ⟨a1, a2⟩ := h.whash.mem w hw
  obtain ⟨b1, b2⟩ := h.whash.mem w' hw'
  have n := h.whash.ne w hw
  have n' := h.whash.ne w' hw'
  by_cases q : w = w'
  · subst q
    simp only [Finset.insert_eq_of_mem, Finset.mem_singleton, Finset.sum_singleton] at m
    have z : wFlow d S w = 0 := by
      rcases wFlow_cases d S w with a | a | a
      · exact a
      · rw [a] at m; omega
      · rw [a] at m; omega
    exact hS.empty (by simp) (by simpa using z)
  rw [Finset.sum_pair q] at m
  have i := fun e => q (h.whash.inj w hw w' hw' e)
  have i1 : d.mo.wK w ≠ d.mo.wK w' := fun e => i (by rw [e])
  have i2 : d.mo.wK w ≠ -d.mo.wK w' := fun e => i (by rw [e, abs_neg])
  have z : wFlow d S w = 0 ∧ wFlow d S w' = 0 := by
    rcases wFlow_cases d S w with a | a | a <;> rcases wFlow_cases d S w' with b | b | b <;> rw [a, b] at m <;> omega
  exact hS.empty (by simp) (by intro x; simp only [Finset.mem_insert, Finset.mem_singleton]; rintro (rfl | rfl); exacts [z.1, z.2])

/-! ### Spin flow: the worm ends are never separated -/

theorem sum_ends (h : Inv P d) (φ : ℕ → ℤ) :
    ∑ v ∈ d.Ver.live, φ v = ∑ w ∈ d.W.live, (φ (d.sh.wV w OUT) + φ (d.sh.wV w IN)) := by
  have : ∑ v ∈ d.Ver.live, φ v = ∑ p ∈ d.W.live ×ˢ (Finset.univ : Finset Bool), φ (d.sh.wV p.1 p.2) := by
    refine Finset.sum_nbij' (fun v => (d.sh.vW v, d.sh.vDir v)) (fun p => d.sh.wV p.1 p.2) (fun v hv => ?_)
      (fun p hp => h.topo.wV_mem p.1 (Finset.mem_product.1 hp).1 _) (fun v hv => h.topo.wV_vW v hv) (fun p hp => ?_) (fun v hv => ?_)
    · exact Finset.mem_product.2 ⟨h.topo.vW_mem v hv, Finset.mem_univ _⟩
    · have hw := (Finset.mem_product.1 hp).1
      exact Prod.ext (h.topo.vW_wV p.1 hw p.2) (h.topo.vDir_wV p.1 hw p.2)
    · dsimp only
      rw [h.topo.wV_vW v hv]
  rw [this, Finset.sum_product]
  refine Finset.sum_congr rfl fun w _ => ?_
  rw [Fintype.sum_bool]

theorem spin_flow (h : Inv P d) (hS : Closed d ∅ ∅ S) : ∑ v ∈ d.Ver.live, ind S v * excess d.co.spin v = 0 := by
  have e1 := sum_vG h OUT (ind S) (fun g => spinVal (d.co.spin (d.sh.gV g IN) OUT))
  have e2 := sum_vG h IN (ind S) (fun g => spinVal (d.co.spin (d.sh.gV g IN) OUT))
  have a1 : ∑ v ∈ d.Ver.live, ind S v * spinVal (d.co.spin v OUT) =
      ∑ v ∈ d.Ver.live, ind S v * spinVal (d.co.spin (d.sh.gV (d.sh.vG v OUT) IN) OUT) :=
    Finset.sum_congr rfl fun v hv => by
      have q : d.sh.gV (d.sh.vG v OUT) IN = v := h.topo.gV_vG v hv OUT
      rw [q]
  have a2 : ∑ v ∈ d.Ver.live, ind S v * spinVal (d.co.spin v IN) =
      ∑ v ∈ d.Ver.live, ind S v * spinVal (d.co.spin (d.sh.gV (d.sh.vG v IN) IN) OUT) :=
    Finset.sum_congr rfl fun v hv => by
      have q : d.sh.gV (d.sh.vG v IN) OUT = v := h.topo.gV_vG v hv IN
      rw [h.spin _ (h.topo.vG_mem v hv IN), q]
  unfold excess
  simp only [mul_sub, Finset.sum_sub_distrib]
  rw [a1, a2, e1, e2, sub_eq_zero]
  exact Finset.sum_congr rfl fun g hg => by
    have q := ind_congr (hS.g g hg (Finset.notMem_empty _))
    show ind S (d.sh.gV g IN) * _ = ind S (d.sh.gV g OUT) * _
    rw [q]

theorem ends_joined (h : Inv P d) (hs : SpinWOk d) (he : d.worm.exist = true) (hS : Closed d ∅ ∅ S) :
    S d.worm.ira ↔ S d.worm.masha := by
  have z := spin_flow h hS
  rw [sum_ends h] at z
  have hi := h.worm.ira_mem he
  have hm := h.worm.masha_mem he
  have at_line : ∀ v ∈ d.Ver.live, ind S (d.sh.wV (d.sh.vW v) IN) = ind S v := by
    intro v hv
    have := ind_congr (hS.wE (h.topo.vW_mem v hv) (Finset.notMem_empty _) IN (d.sh.vDir v))
    rwa [h.topo.wV_vW v hv] at this
  have key : ∑ w ∈ d.W.live, (ind S (d.sh.wV w OUT) * excess d.co.spin (d.sh.wV w OUT) +
      ind S (d.sh.wV w IN) * excess d.co.spin (d.sh.wV w IN)) =
      ∑ w ∈ d.W.live, ((if d.sh.vW d.worm.masha = w then ind S d.worm.masha * d.worm.dSpin else 0) -
        (if d.sh.vW d.worm.ira = w then ind S d.worm.ira * d.worm.dSpin else 0)) := by
    refine Finset.sum_congr rfl fun w hw => ?_
    have k := hs w hw
    rw [← ind_congr (hS.w w hw (Finset.notMem_empty _)), ← mul_add, add_comm, k]
    simp only [he, true_and]
    by_cases c1 : d.sh.vW d.worm.masha = w <;> by_cases c2 : d.sh.vW d.worm.ira = w
    · rw [if_pos c1, if_pos c2, if_pos c1, if_pos c2, ← at_line _ hi, ← at_line _ hm, c1, c2]; ring
    · rw [if_pos c1, if_neg c2, if_pos c1, if_neg c2, ← at_line _ hm, c1]; ring
    · rw [if_neg c1, if_pos c2, if_neg c1, if_pos c2, ← at_line _ hi, c2]; ring
    · rw [if_neg c1, if_neg c2, if_neg c1, if_neg c2]; ring
  rw [key, Finset.sum_sub_distrib, Finset.sum_ite_eq, Finset.sum_ite_eq, if_pos (h.topo.vW_mem _ hm),
    if_pos (h.topo.vW_mem _ hi)] at z
  refine ind_iff ?_
  rcases h.worm.dSpin he with q | q <;> rw [q] at z <;> omega

/-- A diagram is in one piece, with or without a worm. -/
theorem Whole.connected (h : Inv P d) (hs : SpinWOk d) (hW : Whole d) : ConnectedBut d ∅ ∅ := by
  cases he : d.worm.exist with
  | false => exact hW.cut he fun S hS => hS
  | true =>
    intro v hv v' hv'
    have hS := closed_path (d := d) (gs := ∅) (ws := ∅) fun u => u = v'
    have j := ends_joined h hs he hS
    have s' : ∃ u, u = v' ∧ PathBut d ∅ ∅ v' u := ⟨v', rfl, Relation.ReflTransGen.refl⟩
    by_cases c : ∃ u, u = v' ∧ PathBut d ∅ ∅ d.worm.ira u
    · obtain ⟨u, rfl, p⟩ := hW.worm he _ hS c (j.1 c) v hv
      exact p
    · exact absurd s' (hW.worm he _ hS.compl c (fun q => c (j.2 q)) v' hv')

end
end Feyn
