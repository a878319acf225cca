import Verif.Proof.RngText
import Verif.Proof.RngSeq
import Verif.Props.Transparent

/-!
# The random numbers: the generator, its seeds and its text (C90)
-/

namespace Feyn

/-- **C90.** For every seed the `n`-th word is the one of the Mersenne twister of the C++ standard, of which the specification is the recurrence on an infinite sequence of
words of 32 bits; it fits in 32 bits although the engine uses 64, so the updates get exactly this word. -/
theorem C90_words (seed : ℤ) (n : ℕ) :
    mtWord (rngReset seed) n = (twisterWord seed n).setWidth 64 ∧ (rngWords (rngReset seed) n).val = (twisterWord seed n).toNat := by
  have h := (standsAt_reset seed).word n
  refine ⟨h, ?_⟩
  show (mtWord (rngReset seed) n).toNat % 4294967296 = _
  rw [h, wide_toNat, Nat.mod_eq_of_lt (BitVec.isLt _)]
  rfl

/-- The generator stays in the states that the theorems below ask for. -/
theorem C90_proper (seed : ℤ) (n : ℕ) : (mtSkip n (rngReset seed)).Proper := by
  obtain ⟨b, hx, hp, -⟩ := (standsAt_reset seed).skip n
  refine ⟨fun i => ?_, hp⟩
  rw [hx, mixed, wide_toNat]
  exact BitVec.isLt _

/-- **C90, text.** What `CastToPy` writes `Convert` reads back, for every state of the generator and every state of the variable. -/
theorem C90_text {D : Type} (str : Py D → Option (List Byte)) (init g old : Mt) :
    (convRng D str init).convert ((convRng D str init).cast g) old = .ok ⟨true, g, false⟩ := by
  simp only [convRng, convString, pyStr, cString_rngText, rngRead_rngText, Bool.not_false]

/-- **C90, restart of the generator.** Save the parameters after any number `k` of random words and read them in a new process: the words go on where they stopped, whatever the
entry `Seed` of the file and the first state of the new generator. -/
theorem C90_continue {D : Type} (str : Py D → Option (List Byte)) (init g : Mt) (seed : Option ℤ) (k : ℕ) :
    ∃ g', rngFromDict str init seed (some ((convRng D str init).cast (mtSkip k g))) = .ok g' ∧ ∀ n, mtWord g' n = mtWord g (k + n) := by
  refine ⟨mtSkip k g, ?_, fun n => (mtWord_add k n g).symm⟩
  rw [rngFromDict, C90_text]
  rfl

/-- Without the entry `RNG` the generator starts from the entry `Seed`, or from seed 0. -/
theorem C90_start {D : Type} (str : Py D → Option (List Byte)) (init : Mt) (seed : Option ℤ) :
    ∃ g, rngFromDict str init seed none = .ok g ∧ ∀ n, mtWord g n = (twisterWord (seed.getD 0) n).setWidth 64 :=
  ⟨_, rfl, fun n => (C90_words _ n).1⟩

/-- **C90, incomplete texts.** A text with fewer than 625 numbers is refused: the process ends. -/
theorem C90_incomplete {D : Type} (str : Py D → Option (List Byte)) (init : Mt) (seed : Option ℤ) (t : List Byte)
    (h : numbersIn false (cString t) < 625) : rngFromDict str init seed (some (.str t)) = .abort := by
  have hf : (rngRead ⟨cString t, false, false⟩ init).1.fail = true := by
    cases hh : (rngRead ⟨cString t, false, false⟩ init).1.fail
    · have := rngRead_numbers hh
      dsimp only at this
      omega
    · rfl
  have e : (convRng D str init).convert (.str t) init = .ok ⟨false, (rngRead ⟨cString t, false, false⟩ init).2, false⟩ := by
    show Res.ok (Ans.mk (!(rngRead ⟨cString t, false, false⟩ init).1.fail) _ _) = _
    rw [hf]
    rfl
  rw [rngFromDict, e]
  rfl

/-- **C90, seeds.** Processes with different seeds (numbers of type `int`) have different random words, and the difference shows within the first 624 words. -/
theorem C90_seeds {a b : ℤ} (ha : -2147483648 ≤ a ∧ a < 2147483648) (hb : -2147483648 ≤ b ∧ b < 2147483648)
    (h : ∀ n < 624, mtWord (rngReset a) n = mtWord (rngReset b) n) : a = b := by
  have hw : ∀ j < 624, twister (twisterStart (BitVec.ofInt 32 a)) (624 + j) = twister (twisterStart (BitVec.ofInt 32 b)) (624 + j) := fun j hj => by
    have := h j hj
    rw [(standsAt_reset a).word, (standsAt_reset b).word] at this
    exact tempered_inj (wide_inj this)
  have h1 := ((agree_of_words hw).start).2 0 (by omega)
  rw [twister_small _ (by omega), twister_small _ (by omega)] at h1
  have e := congrArg BitVec.toNat (twisterStart_one_inj h1)
  rw [BitVec.toNat_ofInt, BitVec.toNat_ofInt] at e
  omega

theorem twister_shift (x : ℕ → BitVec 32) (c i : ℕ) : twister (fun j => twister x (c + j)) i = twister x (c + i) := by
  induction i using Nat.strong_induction_on with
  | _ i ih =>
    by_cases h : i < 624
    · rw [twister_small _ h]
    · obtain ⟨j, rfl⟩ : ∃ j, i = j + 624 := ⟨i - 624, by omega⟩
      rw [twister_step, ih (j + 397) (by omega), ih j (by omega), ih (j + 1) (by omega), ← Nat.add_assoc c j 624, twister_step, Nat.add_assoc,
        Nat.add_assoc]

/-- **C90, determination.** 624 consecutive words determine all later ones: two generators that agree in them agree for ever. -/
theorem C90_determined {g h : Mt} (hg : g.Proper) (hh : h.Proper) (e : ∀ n < 624, mtWord g n = mtWord h n) (n : ℕ) : mtWord g n = mtWord h n := by
  have sg := hg.standsAt
  have sh := hh.standsAt
  rw [sg.word, sh.word]
  have hw : ∀ j < 624, twister (fun j => twister (fun i => (g.x (ix i)).setWidth 32) (g.p.toNat + j)) (0 + j) =
      twister (fun j => twister (fun i => (h.x (ix i)).setWidth 32) (h.p.toNat + j)) (0 + j) := fun j hj => by
    have := e j hj
    rw [sg.word, sh.word] at this
    rw [Nat.zero_add, twister_shift, twister_shift]
    exact tempered_inj (wide_inj this)
  by_cases h6 : n < 624
  · have := e n h6
    rwa [sg.word, sh.word] at this
  · have := words_of_agree (agree_of_words hw) (n - 1)
    rw [show 0 + 1 + (n - 1) = n by omega, twister_shift, twister_shift] at this
    rw [this]

/-- **C90, no silence.** For no seed do the words ever become zero for long: among any 624 consecutive words there is one that is not zero. -/
theorem C90_nonzero (seed : ℤ) (k : ℕ) : ∃ n < 624, mtWord (rngReset seed) (k + n) ≠ 0 := by
  by_contra hc
  push Not at hc
  have hw : ∀ j < 624, twister (twisterStart (BitVec.ofInt 32 seed)) (624 + k + j) = twister (fun _ => 0) (624 + k + j) := fun j hj => by
    have := hc j hj
    rw [(standsAt_reset seed).word, show (0 : U64) = wide (tempered 0) from rfl] at this
    rw [twister_zero, Nat.add_assoc]
    exact tempered_inj (wide_inj this)
  have h1 := ((agree_of_words hw).start).2
  have e1 := h1 0 (by omega)
  have e2 := h1 1 (by omega)
  rw [twister_zero, twister_small _ (by omega)] at e1 e2
  have e2' : (1812433253 : BitVec 32) * (twisterStart (BitVec.ofInt 32 seed) 1 ^^^ (twisterStart (BitVec.ofInt 32 seed) 1 >>> 30)) + BitVec.ofNat 32 2 = 0 := e2
  rw [show twisterStart (BitVec.ofInt 32 seed) 1 = 0 from e1] at e2'
  exact absurd e2' (by decide)

/-- **C90, repetition.** The words of every seed repeat from the first one on: there is no part at the beginning that never comes back. -/
theorem C90_period (seed : ℤ) : ∃ T > 0, ∀ n, mtWord (rngReset seed) (n + T) = mtWord (rngReset seed) n := by
  set X := twister (twisterStart (BitVec.ofInt 32 seed)) with hX
  have hfin : Finite (BitVec 32) := Finite.of_injective BitVec.toFin fun a b h => by
    apply BitVec.eq_of_toNat_eq
    exact congrArg Fin.val h
  obtain ⟨i, j, hij, e⟩ := Finite.exists_ne_map_eq_of_infinite (fun (i : ℕ) (m : Fin 624) => X (i + m))
  wlog hlt : i < j generalizing i j
  · exact this j i hij.symm e.symm (by omega)
  refine ⟨j - i, by omega, fun n => ?_⟩
  have hw : ∀ m < 624, twister (twisterStart (BitVec.ofInt 32 seed)) (i + m) =
      twister (fun m => twister (twisterStart (BitVec.ofInt 32 seed)) (j - i + m)) (i + m) := fun m hm => by
    rw [twister_shift, ← Nat.add_assoc, show j - i + i = j by omega]
    exact congrFun e ⟨m, hm⟩
  have := words_of_agree (agree_of_words hw).start (623 + n)
  rw [twister_shift] at this
  rw [(standsAt_reset seed).word, (standsAt_reset seed).word, show 624 + (n + (j - i)) = j - i + (0 + 1 + (623 + n)) by omega, ← this,
    show 0 + 1 + (623 + n) = 624 + n by omega]

section
variable {Q F : Type} [Field Q] [LinearOrder Q] [IsStrictOrderedRing Q] [Field F]

/-- **C90 with C53.** Stop a run after `k` random words, save the diagram and the generator, load both in a new process. The continued run, which takes its words from the restored generator,
and the uninterrupted one, which takes them from the old one, give the same diagrams, files and counts. The hops may begin at any places of the sequence of words (`offs`); in the code each
begins where the one before stopped. -/
theorem C90_restart {P₀ : Params Q F} {c : Chain Q F} (hP : P₀.Wf) (hS : StartOk P₀) (h : Reach P₀ c) (hγ : c.d.hasGamma = 0) (ho : c.d.order ≠ 0)
    {d₀ : Diag Q F} (h0 : d₀.Fresh) {D : Type} (str : Py D → Option (List Byte)) (init g : Mt) (seed : Option ℤ) (k : ℕ) :
    ∃ dict d' g', toDict c.d = .ok dict ∧ loadDiagram c.P dict d₀ = .ok d' ∧
      rngFromDict str init seed (some ((convRng D str init).cast (mtSkip k g))) = .ok g' ∧
      ∀ b : Chain Q F, b.P = c.P → b.d = d' → ∀ offs : List ℕ, ∃ e e',
        hop c (offs.map fun o n => rngWords g (k + o + n)) = .ok e ∧ hop b (offs.map fun o n => rngWords g' (o + n)) = .ok e' ∧
        SameDiagram e.d e'.d ∧ toDict e'.d = toDict e.d ∧ SameCounts c e b e' := by
  obtain ⟨dict, d', h1, h2, h3⟩ := C53_restart_same_run hP hS h hγ ho h0
  obtain ⟨g', h4, h5⟩ := C90_continue str init g seed k
  refine ⟨dict, d', g', h1, h2, h4, fun b hb hb' offs => ?_⟩
  have e : (offs.map fun o n => rngWords g' (o + n)) = offs.map fun o n => rngWords g (k + o + n) := by
    refine List.map_congr_left fun o _ => funext fun n => ?_
    rw [rngWords, rngWords, h5, Nat.add_assoc]
  rw [e]
  exact h3 b hb hb' _

end

/-! ## What is not noticed -/

/-- A state with one word that is not zero, before a new block of words. -/
def demoMt : Mt := ⟨fun i => if i = 62 then 1 else 0, 624⟩

theorem demoMt_proper : demoMt.Proper :=
  ⟨fun i => by
    show (if i = 62 then (1 : U64) else 0).toNat < 4294967296
    split <;> decide, le_refl _⟩

theorem rngText_split (g : Mt) : rngText g = ((List.finRange 624).map fun i => decimal (g.x i).toNat ++ [32]).flatten ++ decimal g.p.toNat := by
  rw [rngText, List.ofFn_eq_map]

/-- **C90, refuted: every damage is noticed.** A text that ends within its last number, the index, is accepted, and other words follow. -/
theorem C90_refuted_cut {D : Type} (str : Py D → Option (List Byte)) (init : Mt) (seed : Option ℤ) :
    ∃ (g : Mt) (t : List Byte) (g' : Mt), g.Proper ∧ t <+: rngText g ∧ t ≠ rngText g ∧
      rngFromDict str init seed (some (.str t)) = .ok g' ∧ mtWord g' 0 ≠ mtWord g 0 := by
  have ht : rngText demoMt = rngText ⟨demoMt.x, 62⟩ ++ [52] := by
    have e : decimal demoMt.p.toNat = decimal (62 : U64).toNat ++ [52] := by
      rw [show demoMt.p.toNat = 624 from rfl, decimal, if_neg (by omega)]
      rfl
    rw [rngText_split, rngText_split, List.append_assoc, e]
  refine ⟨demoMt, rngText ⟨demoMt.x, 62⟩, ⟨demoMt.x, 62⟩, demoMt_proper, ⟨[52], ht.symm⟩, ?_, ?_, ?_⟩
  · rw [ht]
    intro h
    have := congrArg List.length h
    simp at this
  · have := C90_text str init ⟨demoMt.x, 62⟩ init
    rw [rngFromDict, show (Py.str (rngText ⟨demoMt.x, 62⟩) : Py D) = (convRng D str init).cast ⟨demoMt.x, 62⟩ from by
      show _ = Py.str (cString _); rw [cString_rngText], this]
    rfl
  · have h1 : mtWord demoMt 0 = 0 := by
      rw [demoMt_proper.standsAt.word, show demoMt.p.toNat + 0 = 0 + 624 from rfl, twister_step, twister_small _ (by omega), twister_small _ (by omega),
        twister_small _ (by omega)]
      decide
    rw [h1]
    decide

theorem readU64_failed {s : InStream} {old : U64} (h : s.fail = true) : readU64 s old = (s, old) := by
  obtain ⟨r, e, f⟩ := s
  obtain rfl : f = true := h
  simp [readU64]

theorem foldl_failed (L : List (Fin 624)) (r : InStream × (Fin 624 → U64)) (h : r.1.fail = true) : L.foldl readWord r = r := by
  induction L with
  | nil => rfl
  | cons a L ih =>
    rw [List.foldl_cons, readWord, readU64_failed h, Function.update_eq_self]
    exact ih

/-- **C90, refuted: `Reset` with a text sets the generator or fails.** The flags of the stream are not looked at: an empty text changes nothing, and a text without a number
sets the first word to zero and keeps the rest. (The parameters do not use this function.) -/
theorem C90_refuted_reset (g : Mt) : rngResetText [] g = g ∧ rngResetText [110] g = ⟨Function.update g.x 0 0, g.p⟩ := by
  have e1 : readU64 ⟨[], false, false⟩ (g.x 0) = (⟨[], true, true⟩, g.x 0) := rfl
  have e2 : readU64 ⟨[110], false, false⟩ (g.x 0) = (⟨[110], false, true⟩, 0) := rfl
  obtain ⟨L, hL⟩ : ∃ L, List.finRange 624 = 0 :: L := ⟨_, List.finRange_succ (n := 623)⟩
  constructor
  · simp only [rngResetText, rngRead, hL, List.foldl_cons, readWord, e1]
    rw [foldl_failed _ _ rfl, readU64_failed rfl, Function.update_eq_self]
  · simp only [rngResetText, rngRead, hL, List.foldl_cons, readWord, e2]
    rw [foldl_failed _ _ rfl, readU64_failed rfl]

/-- **C90, refuted: a text that is no text of a generator is refused.** A number with a minus sign is accepted for a word, as its complement: a text with this number alone
sets the first word to it and keeps the rest. -/
theorem C90_refuted_sign (g : Mt) (n : U64) : rngResetText (45 :: decimal n.toNat) g = ⟨Function.update g.x 0 (-n), g.p⟩ := by
  have e1 : readU64 ⟨45 :: decimal n.toNat, false, false⟩ (g.x 0) = (⟨[], true, false⟩, -n) := by
    obtain ⟨h1, h2⟩ := takeWhile_digits (r := []) (decimal_digits n.toNat) (by simp)
    rw [List.append_nil] at h1 h2
    have hd : (45 :: decimal n.toNat).dropWhile isSpace = 45 :: decimal n.toNat := by
      rw [List.dropWhile_cons, if_neg (by decide)]
    have hn : ¬ 18446744073709551616 ≤ n.toNat := by have := n.isLt; omega
    simp [readU64, hd, h1, h2, digitsValue_decimal, decimal_ne, hn]
  have e2 : ∀ old, readU64 ⟨[], true, false⟩ old = (⟨[], true, true⟩, old) := fun old => rfl
  obtain ⟨L, hL⟩ : ∃ L, List.finRange 624 = 0 :: 1 :: L := ⟨_, by rw [List.finRange_succ (n := 623), List.finRange_succ (n := 622), List.map_cons]; rfl⟩
  simp only [rngResetText, rngRead, hL, List.foldl_cons, readWord, e1, e2]
  rw [foldl_failed _ _ rfl, readU64_failed rfl, Function.update_eq_self]

/-! ## Examples -/

/-- Two seeds with the same words up to place 623 would have to be equal; 1 and 2 are not. -/
example : ∃ n < 624, mtWord (rngReset 1) n ≠ mtWord (rngReset 2) n := by
  by_contra h
  push Not at h
  exact absurd (C90_seeds (by decide) (by decide) h) (by decide)

/-- The bound on the seeds is needed: they count modulo 2^32. -/
example : rngReset 4294967297 = rngReset 1 := by
  unfold rngReset
  congr 1
  funext i
  rw [wide_seed _ _ i.isLt, wide_seed _ _ i.isLt]
  rfl

/-- An incomplete text. -/
example (init : Mt) : rngFromDict (D := ℚ) (fun _ => none) init (some 3) (some (.str [49, 32, 50])) = .abort :=
  C90_incomplete _ _ _ _ (by decide)

/-- The hypotheses of the restart hold in a run. -/
example : ∃ c, Reach demoP c ∧ (c.d.order == 2 && c.d.hasGamma == 0) = true :=
  demo_reach demoPermuted _ (by decide +kernel)

/-- One call in a state that is not zero. -/
example : (mtNext ⟨demoMt.x, 62⟩).1 = 0x400091 := by decide

end Feyn
