import Verif.Proof.Select
import Verif.Proof.Transfer
import Verif.Spec.Return

/-!
# Random words for given choices

For every move with times that the generator can produce there are random words with which `Hop` proposes the move
and accepts it if the acceptance ratio is positive.
-/

namespace Feyn

set_option linter.unusedSectionVars false
set_option linter.unusedSimpArgs false

theorem irn_word {lo hi k : ℤ} (h1 : lo ≤ k) (h2 : k ≤ hi) (h3 : hi - lo < 4294967296) :
    ∃ w : Word, irn w lo hi = .ok k := by
  refine ⟨⟨(k - lo).toNat, by omega⟩, ?_⟩
  unfold irn
  rw [if_neg (by omega)]
  dsimp only
  rw [Int.toNat_of_nonneg (by omega), Int.emod_eq_of_lt (by omega) (by omega)]
  congr 1
  omega

theorem pickDir_word (e : Dir) : ∃ w : Word, pickDir w = .ok e := by
  cases e
  · exact ⟨0, rfl⟩
  · exact ⟨1, rfl⟩

theorem pickSpin_word (e : Spin) : ∃ w : Word, pickSpin w = .ok e := by
  cases e
  · exact ⟨0, rfl⟩
  · exact ⟨1, rfl⟩

theorem pickDSpin_word {s : ℤ} (h : s = 1 ∨ s = -1) : ∃ w : Word, pickDSpin w = .ok s := by
  rcases h with rfl | rfl
  · exact ⟨1, rfl⟩
  · exact ⟨0, rfl⟩

theorem pickK_word {k : ℤ} (h : InK k) : ∃ w : Word, pickK w = .ok k := by
  obtain ⟨w, e⟩ := irn_word (lo := -10000) (hi := 10000) h.1 h.2 (by norm_num)
  refine ⟨w, ?_⟩
  unfold pickK
  rw [e, Res.ok_bind, ofInt, shiftK_of_in h]

theorem pick_word {b : Bundle} (hb : b.Wf) {p : ℕ} (hp : p ∈ b.live) : ∃ w : Word, b.pick w = .ok p := by
  have hn := Bundle.name_lt' hp
  have := hb.avail_le
  obtain ⟨w, e⟩ := irn_word (lo := 0) (hi := (b.avail : ℤ) - 1) (k := (b.name p : ℤ)) (by omega) (by omega) (by omega)
  refine ⟨w, ?_⟩
  unfold Bundle.pick
  rw [e, Res.ok_bind, if_pos (by omega), Int.toNat_natCast, Bundle.slot_name' hb hp]

section
variable {Q F : Type} [Field Q] [LinearOrder Q] [IsStrictOrderedRing Q] [Field F]
variable {P : Params Q F} {d : Diag Q F}

theorem pickSite_word (hs : P.lx ≤ 4294967296 ∧ P.ly ≤ 4294967296 ∧ P.nsub ≤ 4294967296) {r : Site} (h : SiteIn P r) :
    ∃ w0 w1 w2 : Word, pickSite P w0 w1 w2 = .ok r := by
  obtain ⟨h1, h2, h3, h4, h5, h6⟩ := h
  obtain ⟨s1, s2, s3⟩ := hs
  obtain ⟨w0, e0⟩ := irn_word (lo := 0) (hi := (P.lx : ℤ) - 1) h1 (by omega) (by omega)
  obtain ⟨w1, e1⟩ := irn_word (lo := 0) (hi := (P.ly : ℤ) - 1) h3 (by omega) (by omega)
  obtain ⟨w2, e2⟩ := irn_word (lo := 0) (hi := (P.nsub : ℤ) - 1) h5 (by omega) (by omega)
  refine ⟨w0, w1, w2, ?_⟩
  unfold pickSite
  simp only [e0, e1, e2, Res.ok_bind]

theorem urn_word {t : ℕ} (h : t < 4294967296) : ∃ w : Word, urn Q w = (t : Q) / 4294967296 := by
  by_cases c : t < 2147483648
  · refine ⟨⟨t + 2147483648, by omega⟩, ?_⟩
    unfold urn
    rw [if_neg (by simp)]
    push_cast
    ring
  · refine ⟨⟨t - 2147483648, by omega⟩, ?_⟩
    unfold urn
    rw [if_pos (by dsimp only; omega)]
    dsimp only
    rw [Nat.cast_sub (by omega)]
    push_cast
    ring

theorem GridTime.word {t : Q} (h : GridTime P t) : ∃ w : Word, t = pickTau P w := by
  obtain ⟨n, hn, rfl⟩ := h
  obtain ⟨w, e⟩ := urn_word (Q := Q) hn
  exact ⟨w, by rw [pickTau, e]⟩

theorem gridTime_pick (w : Word) : GridTime P (pickTau P w) := by
  by_cases c : w.val < 2147483648
  · refine ⟨w.val + 2147483648, by omega, ?_⟩
    unfold pickTau urn
    rw [if_pos c]
    push_cast
    ring
  · have := w.isLt
    refine ⟨w.val - 2147483648, by omega, ?_⟩
    unfold pickTau urn
    rw [if_neg c, Nat.cast_sub (by omega)]
    push_cast
    ring

theorem urn_zero : ∃ w : Word, urn Q w = 0 := by
  obtain ⟨w, e⟩ := urn_word (Q := Q) (t := 0) (by norm_num)
  exact ⟨w, by simpa using e⟩

theorem op_ext {a b : Op} (h : a.idx = b.idx) : a = b := by
  cases a <;> cases b <;> first | rfl | exact absurd h (by decide)

/-- Each update that is called is chosen by some word. -/
theorem selectOp_word {op : Op} (h : op.idx < numOps P) : ∃ w : Word, selectOp P (urn Q w) = some op := by
  have hn := numOps_pos P
  have hle : numOps P ≤ 23 := by unfold numOps; split <;> norm_num
  set n := numOps P with en
  set j := op.idx with ej
  have h1 : (j * 4294967296 + (n - 1)) / n * n ≤ j * 4294967296 + (n - 1) := Nat.div_mul_le_self _ _
  have h2 : j * 4294967296 + (n - 1) < (j * 4294967296 + (n - 1)) / n * n + n := by
    have := Nat.lt_div_mul_add (a := j * 4294967296 + (n - 1)) hn
    exact this
  set t := (j * 4294967296 + (n - 1)) / n with et
  have h3 : j * 4294967296 ≤ t * n := by omega
  have h4 : t * n < (j + 1) * 4294967296 := by omega
  have h5 : t < 4294967296 := by
    by_contra c
    have : 4294967296 * n ≤ t * n := Nat.mul_le_mul_right _ (by omega)
    have : (j + 1) * 4294967296 ≤ n * 4294967296 := Nat.mul_le_mul_right _ (by omega)
    omega
  obtain ⟨w, ew⟩ := urn_word (Q := Q) h5
  refine ⟨w, ?_⟩
  have hnq : (0 : Q) < n := Nat.cast_pos.2 hn
  have h3q : (j : Q) * 4294967296 ≤ (t : Q) * n := by exact_mod_cast h3
  have h4q : (t : Q) * n < ((j : Q) + 1) * 4294967296 := by exact_mod_cast h4
  have k1 : (j : Q) / n ≤ urn Q w := by
    rw [ew, div_le_div_iff₀ hnq (by norm_num)]; exact h3q
  have k2 : urn Q w < ((j + 1 : ℕ) : Q) / n := by
    rw [ew, div_lt_div_iff₀ (by norm_num) hnq]; push_cast; exact h4q
  have hs := selectIdx_spec _ (probOfIdx_nonneg P) _ (urn Q w) j h (by rw [sum_probOfIdx P h.le]; exact k1)
    (by rw [sum_probOfIdx P h]; exact k2)
  obtain ⟨op', e, ei⟩ := opList_get P h
  unfold selectOp
  rw [hs]
  dsimp only
  rw [e, op_ext ei]

/-- The words of a list. -/
def wordsOf (l : List Word) : Words := fun i => l.getD i 0

theorem Move.words (hs : SmallLattice P) (h : Inv P d) {m : Move Q} (hm : m.Valid P d) (ht : m.Times (GridTime P)) (z : Word) :
    ∃ o : Words, runOp P m.op o d = m.run P d (urn Q z) := by
  obtain ⟨-, hm⟩ := hm
  cases m
  case createWorm w k s =>
    obtain ⟨h1, h2, h3⟩ := hm
    obtain ⟨a, ea⟩ := pick_word h.count.wWf h1
    obtain ⟨b, eb⟩ := pickK_word h2
    obtain ⟨c, ec⟩ := pickDSpin_word h3
    exact ⟨wordsOf [a, b, c, z], by
      simp [runOp, Move.op, Move.run, Feyn.createWorm, wordsOf, ea, eb, ec]⟩
  case deleteWorm =>
    exact ⟨wordsOf [z], by
      simp [runOp, Move.op, Move.run, Feyn.deleteWorm, wordsOf]⟩
  case moveWormG e =>
    obtain ⟨a, ea⟩ := pickDir_word e
    exact ⟨wordsOf [a, z], by
      simp [runOp, Move.op, Move.run, Feyn.moveWormG, wordsOf, ea]⟩
  case moveWormW =>
    exact ⟨wordsOf [z], by
      simp [runOp, Move.op, Move.run, Feyn.moveWormW, wordsOf]⟩
  case reconnect e =>
    obtain ⟨a, ea⟩ := pickDir_word e
    exact ⟨wordsOf [a, z], by
      simp [runOp, Move.op, Move.run, Feyn.reconnect, wordsOf, ea]⟩
  case add δ k e f tA tB =>
    obtain ⟨h1, -, -, h4⟩ := hm
    obtain ⟨x, ex⟩ := GridTime.word ht.1
    obtain ⟨y, ey⟩ := GridTime.word ht.2
    obtain ⟨a, ea⟩ := pickK_word h1
    obtain ⟨b, eb⟩ := pickDir_word e
    obtain ⟨c, ec⟩ := pickDir_word f
    cases δ
    · exact ⟨wordsOf [a, b, c, x, y, z], by
        simp [runOp, Move.op, Move.run, Feyn.addInteraction, wordsOf, ea, eb, ec, ex, ey]⟩
    · rw [h4 rfl]
      exact ⟨wordsOf [a, b, c, x, z], by
        simp [runOp, Move.op, Move.run, Feyn.addDelta, wordsOf, ea, eb, ec, ex]⟩
  case del δ e =>
    obtain ⟨a, ea⟩ := pickDir_word e
    cases δ
    · exact ⟨wordsOf [a, z], by simp [runOp, Move.op, Move.run, Feyn.delInteraction, wordsOf, ea]⟩
    · exact ⟨wordsOf [a, z], by simp [runOp, Move.op, Move.run, Feyn.delDelta, wordsOf, ea]⟩
  case changeTau v t =>
    obtain ⟨a, ea⟩ := pick_word h.count.verWf hm.1
    obtain ⟨x, ex⟩ := GridTime.word ht
    exact ⟨wordsOf [a, x, z], by
      simp [runOp, Move.op, Move.run, Feyn.changeTau, wordsOf, ea, ex]⟩
  case changeRLoop v r =>
    obtain ⟨a, ea⟩ := pick_word h.count.verWf hm.1
    obtain ⟨x, y, b, eb⟩ := pickSite_word hs hm.2
    exact ⟨wordsOf [a, x, y, b, z], by
      simp [runOp, Move.op, Move.run, Feyn.changeRLoop, wordsOf, ea, eb]
      rfl⟩
  case g2w w =>
    obtain ⟨a, ea⟩ := pick_word h.count.wWf hm
    exact ⟨wordsOf [a, z], by
      simp [runOp, Move.op, Move.run, Feyn.g2w, wordsOf, ea]⟩
  case w2g w =>
    obtain ⟨a, ea⟩ := pick_word h.count.gWf hm
    exact ⟨wordsOf [a, z], by
      simp [runOp, Move.op, Move.run, Feyn.w2g, wordsOf, ea]⟩
  case delta2cont w t =>
    obtain ⟨a, ea⟩ := pick_word h.count.wWf hm.1
    obtain ⟨x, ex⟩ := GridTime.word ht
    exact ⟨wordsOf [a, x, z], by
      simp [runOp, Move.op, Move.run, Feyn.delta2cont, wordsOf, ea, ex]⟩
  case cont2delta w =>
    obtain ⟨a, ea⟩ := pick_word h.count.wWf hm
    exact ⟨wordsOf [a, z], by
      simp [runOp, Move.op, Move.run, Feyn.cont2delta, wordsOf, ea]⟩
  case toOrder0 =>
    exact ⟨wordsOf [z], by
      simp [runOp, Move.op, Move.run, Feyn.toOrder0, wordsOf]⟩
  case backToOrder1 r t1 t2 s1 s2 =>
    obtain ⟨x, ex⟩ := GridTime.word ht.1
    obtain ⟨y, ey⟩ := GridTime.word ht.2
    obtain ⟨a, b, c, ec⟩ := pickSite_word hs hm.1
    obtain ⟨p, ep⟩ := pickSpin_word s1
    obtain ⟨q, eq⟩ := pickSpin_word s2
    exact ⟨wordsOf [a, b, c, x, y, p, q, z], by
      simp [runOp, Move.op, Move.run, Feyn.backToOrder1, wordsOf, ec, ex, ey, ep, eq]⟩
  case toGGGammaG g t =>
    obtain ⟨a, ea⟩ := pick_word h.count.gWf hm.1
    obtain ⟨x, ex⟩ := GridTime.word ht
    exact ⟨wordsOf [a, x, z], by
      simp [runOp, Move.op, Move.run, Feyn.toGGGammaG, wordsOf, ea, ex]⟩
  case fromGGGammaG =>
    exact ⟨wordsOf [z], by
      simp [runOp, Move.op, Move.run, Feyn.fromGGGammaG, wordsOf]⟩
  case toWWGammaW w t r =>
    obtain ⟨a, ea⟩ := pick_word h.count.wWf hm.1
    obtain ⟨x, ex⟩ := GridTime.word ht
    obtain ⟨p, q, b, eb⟩ := pickSite_word hs hm.2.2
    exact ⟨wordsOf [a, x, p, q, b, z], by
      simp [runOp, Move.op, Move.run, Feyn.toWWGammaW, wordsOf, ea, ex, eb]⟩
  case fromWWGammaW =>
    exact ⟨wordsOf [z], by
      simp [runOp, Move.op, Move.run, Feyn.fromWWGammaW, wordsOf]⟩

/-- Each such move is made by an iteration of `Hop` with suitable words. -/
theorem Move.hopOne {c : Chain Q F} (hs : SmallLattice c.P) (h : Inv c.P c.d) {m : Move Q} (hm : m.Valid c.P c.d)
    (ht : m.Times (GridTime c.P)) {out : Out Q F} {z : Word} (e : m.run c.P c.d (urn Q z) = .ok out) :
    ∃ o : Words, Feyn.hopOne c o = .ok (c.book m.op out) := by
  obtain ⟨o, eo⟩ := Move.words hs h hm ht z
  obtain ⟨w, ew⟩ := selectOp_word (P := c.P) hm.1
  refine ⟨fun i => if i = 0 then w else o (i - 1), ?_⟩
  unfold Feyn.hopOne
  simp [ew, eo, e]

end
end Feyn
