import Verif.Spec.Statis3
import Verif.Proof.Weights
import Verif.Props.Tables
import Verif.Props.Weights
import Mathlib.Data.Int.ModEq

/-!
# Statistics of the three-point functions (C74)
-/

namespace Feyn

set_option linter.unusedSectionVars false

theorem fold_size (l : List ℤ) (a : ℤ) : l.foldl (fun s i => u32 (s * i)) a ≡ a * l.prod [ZMOD 4294967296] := by
  induction l generalizing a with
  | nil => simp [Int.ModEq]
  | cons x l ih =>
    rw [List.foldl_cons, List.prod_cons, ← mul_assoc]
    exact (ih _).trans ((Int.mod_modEq _ _).mul_right _)

theorem fold_range (l : List ℤ) {a : ℤ} (h : 0 ≤ a ∧ a < 4294967296) : 0 ≤ l.foldl (fun s i => u32 (s * i)) a ∧ l.foldl (fun s i => u32 (s * i)) a < 4294967296 := by
  induction l generalizing a with
  | nil => exact h
  | cons x l ih => exact ih ⟨Int.emod_nonneg _ (by norm_num), Int.emod_lt_of_pos _ (by norm_num)⟩

theorem size_of {F : Type} {x : NArr F} (h0 : 0 ≤ x.shape.prod) (h1 : x.shape.prod < 4294967296) : x.size = x.shape.prod := by
  have h := fold_size x.shape 1
  have r := fold_range x.shape (a := 1) (by norm_num)
  rw [one_mul] at h
  unfold NArr.size
  rw [← Int.emod_eq_of_lt r.1 r.2, h, Int.emod_eq_of_lt h0 h1]

section
variable {Q F : Type} [Field Q] [LinearOrder Q] [IsStrictOrderedRing Q] [FloorRing Q] [Field F] [Algebra Q F]

/-- An array with the shape of the table is copied. -/
theorem assign_ok {a : Arr F} {shape : List ℤ} {data : ℤ → F} (hn : a.n = shape.prod) (h0 : 0 ≤ shape.prod) (h1 : shape.prod < 4294967296) :
    a.assignFrom shape ⟨shape, true, data⟩ = .ok ⟨a.n, fun i => if 0 ≤ i ∧ i < a.n then data i else 0⟩ := by
  have e : (⟨shape, true, data⟩ : NArr F).size = shape.prod := size_of h0 h1
  unfold Arr.assignFrom
  simp only [lt_irrefl, if_false, List.take_length, ne_eq, not_true, e]
  by_cases z : shape.prod = 0
  · rw [if_pos z]
    congr 2
    funext i
    rw [if_neg (by omega)]
  · rw [if_neg z, if_neg (by simp [hn]), hn]

theorem gShape_prod (g : GammaG Q F) : g.shape.prod = 2 * latVol g.lat * (g.bins : ℤ) * (g.bins : ℤ) := by
  simp [GammaG.shape]; ring

theorem wShape_prod (w : GammaW Q F) : w.shape.prod = 2 * w.rSize * w.tauSize := by
  simp [GammaW.shape]; ring

theorem gVol_nonneg {g : GammaG Q F} (h : g.Wf) : 0 ≤ 2 * latVol g.lat * (g.bins : ℤ) * (g.bins : ℤ) := by
  have := latVol_pos h.lat.2
  positivity

theorem wSize_pos {w : GammaW Q F} (h : w.Wf) : 0 < w.rSize ∧ 0 < w.tauSize := by
  have hp := latVol_pos h.lat.2
  have hb := h.bins
  constructor
  · have : 0 < w.rSqueeze.length := by
      have := h.rSqueeze
      have : 0 < latVol w.lat * latVol w.lat := by positivity
      omega
    obtain ⟨x, hx⟩ := List.exists_mem_of_length_pos this
    have := h.rVal x hx
    omega
  · have : 0 < w.tauSqueeze.length := by
      rw [h.tauSqueeze]
      positivity
    obtain ⟨x, hx⟩ := List.exists_mem_of_length_pos this
    have := h.tauVal x hx
    omega

/-- **C74**, propagators: what is saved is read again into an object with the same lattice and number of bins, whatever it had before. -/
theorem C74_restart {g g0 : GammaG Q F} (h : g.Wf) (h0 : g0.Wf) (hl : g0.lat = g.lat) (hb : g0.bins = g.bins) (norm : Q) : ∃ g', g0.statisFromDict (g.statisToDict norm) = .ok (g', norm) ∧
    g'.normAccu = g.normAccu ∧ g'.accu.n = g.accu.n ∧ (∀ i, 0 ≤ i → i < g.accu.n → g'.accu.data i = g.accu.data i) ∧ g'.weight = g0.weight ∧ g'.beta = g0.beta ∧ g'.lat = g.lat ∧
    g'.bins = g.bins := by
  have es : g.shape = g0.shape := by simp [GammaG.shape, hl, hb]
  have hn : g0.accu.n = g.accu.n := by rw [h0.accu, h.accu, hl, hb]
  have k := assign_ok (a := g0.accu) (shape := g0.shape) (data := g.accu.data) (by rw [gShape_prod]; exact h0.accu) (by rw [gShape_prod]; exact gVol_nonneg h0)
    (by rw [gShape_prod]; exact h0.fits)
  unfold GammaG.statisFromDict GammaG.statisToDict
  simp only [es, k, Res.ok_bind]
  refine ⟨_, rfl, rfl, hn, ?_, rfl, rfl, hl, hb⟩
  intro i i0 i1
  simp only
  rw [if_pos ⟨i0, by omega⟩]

/-- **C74** fails for interactions: the file has numbers in single precision, which are read as if they were in double precision. The remaining part: without this conversion the
data would be read again. -/
theorem C74_refuted_restart {g : GammaG Q F} {w : GammaW Q F} (h : g.Wf) (hw : w.Wf) (ng nw : Q) :
    fromDict3 g w ng nw (File3.load (File3.save (toDict3 g w ng nw))) = .ub := by
  obtain ⟨g', e, _⟩ := C74_restart h h rfl rfl ng
  obtain ⟨r, t⟩ := wSize_pos hw
  have hs : (⟨w.shape, false, w.accu.data⟩ : NArr F).size = w.shape.prod := size_of (by rw [wShape_prod]; positivity) (by rw [wShape_prod]; exact hw.fits)
  have hne : (w.shape).prod ≠ 0 := by
    rw [wShape_prod]
    positivity
  unfold fromDict3 toDict3 File3.load File3.save
  simp only [Option.map_some, e, Res.ok_bind]
  unfold GammaW.statisFromDict GammaW.statisToDict Arr.assignFrom
  simp only [lt_irrefl, if_false, ne_eq, not_true, hs, hne, List.take_length]
  simp

/-- See `C74_refuted_restart`. -/
theorem C74_interaction_partial {w w0 : GammaW Q F} (h : w.Wf) (h0 : w0.Wf) (hr : w0.rSize = w.rSize) (ht : w0.tauSize = w.tauSize) (norm : Q) :
    ∃ w', w0.statisFromDict (w.statisToDict norm) = .ok (w', norm) ∧ w'.normAccu = w.normAccu ∧ w'.accu.n = w.accu.n ∧ ∀ i, 0 ≤ i → i < w.accu.n → w'.accu.data i = w.accu.data i := by
  have es : w.shape = w0.shape := by simp [GammaW.shape, hr, ht]
  have hn : w0.accu.n = w.accu.n := by rw [h0.accu, h.accu, hr, ht]
  obtain ⟨r, t⟩ := wSize_pos h0
  have k := assign_ok (a := w0.accu) (shape := w0.shape) (data := w.accu.data) (by rw [wShape_prod]; exact h0.accu) (by rw [wShape_prod]; positivity)
    (by rw [wShape_prod]; exact h0.fits)
  unfold GammaW.statisFromDict GammaW.statisToDict
  simp only [es, k, Res.ok_bind]
  refine ⟨_, rfl, rfl, hn, ?_⟩
  intro i i0 i1
  simp only
  rw [if_pos ⟨i0, by omega⟩]

/-- **C74**, refuted for files of other programs: the first axis is not compared, so an array with more than two spins is written beyond the end of the table, and one with a single spin is accepted. -/
theorem C74_refuted_shape {g : GammaG Q F} (h : g.Wf) (hf : 3 * latVol g.lat * (g.bins : ℤ) * (g.bins : ℤ) < 4294967296) (norm accu : Q) (data : ℤ → F) :
    g.statisFromDict ⟨norm, accu, ⟨[3, latVol g.lat, g.bins, g.bins], true, data⟩⟩ = .ub ∧
      ∃ g', g.statisFromDict ⟨norm, accu, ⟨[1, latVol g.lat, g.bins, g.bins], true, data⟩⟩ = .ok (g', norm) := by
  have hp := latVol_pos h.lat.2
  have hb := h.bins
  have pos : 0 < latVol g.lat * (g.bins : ℤ) * (g.bins : ℤ) := by positivity
  have e3 : (⟨[3, latVol g.lat, g.bins, g.bins], true, data⟩ : NArr F).size = 3 * latVol g.lat * (g.bins : ℤ) * (g.bins : ℤ) := by
    rw [size_of] <;> simp only [List.prod_cons, List.prod_nil, mul_one] <;> first | positivity | linarith
  have e1 : (⟨[1, latVol g.lat, g.bins, g.bins], true, data⟩ : NArr F).size = latVol g.lat * (g.bins : ℤ) * (g.bins : ℤ) := by
    rw [size_of] <;> simp only [List.prod_cons, List.prod_nil, mul_one, one_mul] <;> first | positivity | linarith
  have ha := h.accu
  constructor
  · unfold GammaG.statisFromDict Arr.assignFrom
    simp only [e3, GammaG.shape]
    rw [if_neg (by simp), if_neg (by simp), if_neg (by linarith), if_pos (Or.inr (by rw [ha]; linarith))]
    rfl
  · unfold GammaG.statisFromDict Arr.assignFrom
    simp only [e1, GammaG.shape]
    rw [if_neg (by simp), if_neg (by simp), if_neg (by linarith), if_neg (by rw [ha]; simp; linarith)]
    exact ⟨_, rfl⟩

/-! ### Sums of measurements -/

theorem InBin.unique {β : Q} {n : ℕ} (hβ : 0 < β) (hn : 0 < n) {t : Q} {b b' : ℤ} (h : InBin β n t b) (h' : InBin β n t b') : b = b' :=
  (bin_of_fold hβ hn h).symm.trans (bin_of_fold hβ hn h')

/-- The same table with other statistics. -/
structure SameTable (g g0 : GammaG Q F) : Prop where
  beta : g.beta = g0.beta
  bins : g.bins = g0.bins
  lat : g.lat = g0.lat
  weight : g.weight = g0.weight
  size : g.accu.n = g0.accu.n

theorem SameTable.wf {g g0 : GammaG Q F} (h : SameTable g g0) (w : g0.Wf) : g.Wf where
  beta := by rw [h.beta]; exact w.beta
  bins := by rw [h.bins]; exact w.bins
  lat := by rw [h.lat]; exact w.lat
  dim := by rw [h.lat]; exact w.dim
  fits := by rw [h.lat, h.bins]; exact w.fits
  weight := by rw [h.lat, h.bins, h.weight]; exact w.weight
  accu := by rw [h.lat, h.bins, h.size]; exact w.accu

theorem op_step {g g0 : GammaG Q F} (w0 : g0.Wf) (h : SameTable g g0) (norm : Q) (o : Op3 Q F) (l : List (Op3 Q F)) (hv : o.Valid g0) : ∃ g', GammaG.op (g, norm) o = .ok (g', norm) ∧
    SameTable g' g0 ∧ discount l * g'.normAccu + sumNorm l = discount (o :: l) * g.normAccu + sumNorm (o :: l) ∧
    ∀ (s : Spin) (rel : List ℤ) (b1 b2 : ℤ), InLat g0.lat rel → 0 ≤ b1 → b1 < g0.bins → 0 ≤ b2 → b2 < g0.bins →
      discount l • g'.accu.data (gammaCell g0 s rel b1 b2) + sumAt g0 s rel b1 b2 l =
        discount (o :: l) • g.accu.data (gammaCell g0 s rel b1 b2) + sumAt g0 s rel b1 b2 (o :: l) := by
  have w := h.wf w0
  have ec : ∀ s rel b1 b2, gammaCell g s rel b1 b2 = gammaCell g0 s rel b1 b2 := by
    intro s rel b1 b2
    simp only [gammaCell, h.lat, h.bins]
  cases o with
  | measure e =>
    obtain ⟨v1, v2, v3, v4, v5⟩ := hv
    obtain ⟨c1, k1⟩ := exists_bin (β := g0.beta) w0.beta w0.bins (t := e.tout - e.ut) (by linarith) (by linarith)
    obtain ⟨c2, k2⟩ := exists_bin (β := g0.beta) w0.beta w0.bins (t := e.tin - e.ut) (by linarith) (by linarith)
    have m := gammaG_measure w (s := e.spin) (by rw [h.lat]; exact v1) (by rw [h.lat]; exact v2) (by rw [h.beta, h.bins]; exact k1) (by rw [h.beta, h.bins]; exact k2) e.weight
    rw [ec, h.lat] at m
    refine ⟨{ g with lat := g0.lat, accu := g.accu.plus (gammaCell g0 e.spin (relCoord g0.lat e.rin e.ur) c1 c2) (e.weight * ((foldSign (e.tout - e.ut) * foldSign (e.tin - e.ut) : ℤ) : F)) },
      by simp only [GammaG.op, m, Res.ok_bind], ⟨h.beta, h.bins, rfl, h.weight, h.size⟩, by simp [discount, sumNorm], ?_⟩
    intro s rel b1 b2 hr p1 p2 p3 p4
    have iff : e.At g0 s rel b1 b2 ↔ gammaCell g0 s rel b1 b2 = gammaCell g0 e.spin (relCoord g0.lat e.rin e.ur) c1 c2 := by
      constructor
      · rintro ⟨rfl, rfl, q1, q2⟩
        rw [q1.unique w0.beta w0.bins k1, q2.unique w0.beta w0.bins k2]
      · intro q
        obtain ⟨rfl, rfl, rfl, rfl⟩ := gammaCell_inj w0 hr ⟨p1, p2⟩ ⟨p3, p4⟩ (relCoord_in v1 v2) ⟨k1.1, k1.2.1⟩ ⟨k2.1, k2.2.1⟩ q
        exact ⟨rfl, rfl, k1, k2⟩
    simp only [Arr.plus, sumAt, discount, iff, Function.update_apply]
    split_ifs with q
    · rw [q, smul_add]
      simp only [Ev3.value]
      ring
    · ring
  | norm x => exact ⟨_, rfl, ⟨h.beta, h.bins, h.lat, h.weight, h.size⟩, by simp [GammaG.measureNorm, discount, sumNorm]; ring, by simp [GammaG.measureNorm, discount, sumAt]⟩
  | squeeze f =>
    have hf : 0 < f := hv
    refine ⟨{ g with normAccu := g.normAccu / f, accu := ⟨g.accu.n, fun i => if 0 ≤ i ∧ i < g.accu.n then (1 / f) • g.accu.data i else g.accu.data i⟩ },
      by simp only [GammaG.op, GammaG.squeeze, gt_iff_lt, hf, if_true, Res.ok_bind], ⟨h.beta, h.bins, h.lat, h.weight, h.size⟩, ?_, ?_⟩
    · simp only [discount, sumNorm]
      ring
    · intro s rel b1 b2 hr p1 p2 p3 p4
      have r := gammaCell_range w0 (s := s) hr ⟨p1, p2⟩ ⟨p3, p4⟩
      have e : (0 ≤ gammaCell g0 s rel b1 b2 ∧ gammaCell g0 s rel b1 b2 < g.accu.n) := ⟨r.1, by rw [h.size, w0.accu]; exact r.2⟩
      simp only [discount, sumAt, e, and_self, if_true, smul_smul]
      rw [mul_comm]
  | restart =>
    have wc : g.clear.Wf := ⟨w.beta, w.bins, w.lat, w.dim, w.fits, w.weight, w.accu⟩
    obtain ⟨g', e, q1, q2, q3, q4, q5, q6, q7⟩ := C74_restart w wc rfl rfl norm
    refine ⟨g', e, ⟨q5.trans h.beta, q7.trans h.bins, q6.trans h.lat, q4.trans h.weight, q2.trans h.size⟩, by simp [discount, sumNorm, q1], ?_⟩
    intro s rel b1 b2 hr p1 p2 p3 p4
    have r := gammaCell_range w0 (s := s) hr ⟨p1, p2⟩ ⟨p3, p4⟩
    rw [q3 _ r.1 (by rw [h.size, w0.accu]; exact r.2)]
    simp [discount, sumAt]

theorem ops_sum {g0 : GammaG Q F} (w0 : g0.Wf) (norm : Q) (l : List (Op3 Q F)) : ∀ {g : GammaG Q F}, SameTable g g0 → (∀ o ∈ l, o.Valid g0) → ∃ g', GammaG.ops (g, norm) l = .ok (g', norm) ∧
    SameTable g' g0 ∧ g'.normAccu = discount l * g.normAccu + sumNorm l ∧
    ∀ (s : Spin) (rel : List ℤ) (b1 b2 : ℤ), InLat g0.lat rel → 0 ≤ b1 → b1 < g0.bins → 0 ≤ b2 → b2 < g0.bins →
      g'.accu.data (gammaCell g0 s rel b1 b2) = discount l • g.accu.data (gammaCell g0 s rel b1 b2) + sumAt g0 s rel b1 b2 l := by
  induction l with
  | nil => exact fun {g} h _ => ⟨g, rfl, h, by simp [discount, sumNorm], by simp [discount, sumAt]⟩
  | cons o l ih =>
    intro g h hv
    obtain ⟨g1, e1, h1, n1, a1⟩ := op_step w0 h norm o l (hv o List.mem_cons_self)
    obtain ⟨g2, e2, h2, n2, a2⟩ := ih h1 fun o ho => hv o (List.mem_cons_of_mem _ ho)
    refine ⟨g2, by simp only [GammaG.ops, e1, Res.ok_bind, e2], h2, n2.trans n1, ?_⟩
    intro s rel b1 b2 hr p1 p2 p3 p4
    rw [a2 s rel b1 b2 hr p1 p2 p3 p4, a1 s rel b1 b2 hr p1 p2 p3 p4]

theorem pyCell3_eq {g : GammaG Q F} (w : g.Wf) (s : Spin) (rel : List ℤ) (b1 b2 : ℤ) : ravel g.shape (pyCell3 g s rel b1 b2) = gammaCell g s rel b1 b2 := by
  unfold gammaCell
  rw [dot_ravel (gShape_pos w) (gShape_fits w) (by rfl)]
  simp only [pyCell3, pyCoordi_eq, GammaG.shape]
  rfl

/-- **C74**: after any sequence of measurements, norms, reductions and restarts, every element of the array that is saved is the sum of the measurements with its spin, relative position
and time bins, and the norm is the sum of the norms, all reduced by the later factors. -/
theorem C74_history {g : GammaG Q F} (w : g.Wf) (norm : Q) {l : List (Op3 Q F)} (hv : ∀ o ∈ l, o.Valid g) : ∃ g', GammaG.ops (g.clear, norm) l = .ok (g', norm) ∧
    (g'.statisToDict norm).norm = norm ∧ (g'.statisToDict norm).normAccu = sumNorm l ∧ (g'.statisToDict norm).accu.shape = [2, latVol g.lat, g.bins, g.bins] ∧
    ∀ (s : Spin) (rel : List ℤ) (b1 b2 : ℤ), InLat g.lat rel → 0 ≤ b1 → b1 < g.bins → 0 ≤ b2 → b2 < g.bins → (g'.statisToDict norm).accu.get (pyCell3 g s rel b1 b2) = sumAt g s rel b1 b2 l := by
  have hc : SameTable g.clear g := ⟨rfl, rfl, rfl, rfl, rfl⟩
  obtain ⟨g', e, h, n, a⟩ := ops_sum w norm l hc hv
  have es : g'.shape = g.shape := by simp [GammaG.shape, h.lat, h.bins]
  refine ⟨g', e, rfl, by simp [GammaG.statisToDict, n, GammaG.clear], es, ?_⟩
  intro s rel b1 b2 hr p1 p2 p3 p4
  simp only [NArr.get, GammaG.statisToDict, es, pyCell3_eq w]
  rw [a s rel b1 b2 hr p1 p2 p3 p4]
  simp [GammaG.clear]

/-! ### Collecting -/

theorem addAll_good (n1 n2 : Q) (sh1 sh2 : List ℤ) (fs : List (StatDict Q F × StatDict Q F)) (h : ∀ f ∈ fs, f.1.norm = n1 ∧ f.2.norm = n2 ∧ f.1.accu.shape = sh1 ∧ f.2.accu.shape = sh2) :
    ∀ (a b : StatDict Q F), a.norm = n1 → b.norm = n2 → a.accu.shape = sh1 → b.accu.shape = sh2 →
      ∃ a' b', File3.addAll ⟨some a, some b⟩ (fs.map fun f => some ⟨some f.1, some f.2⟩) = (⟨some a', some b'⟩, fs.length) ∧ a'.norm = n1 ∧ b'.norm = n2 ∧ a'.accu.shape = sh1 ∧ b'.accu.shape = sh2 ∧
        a'.normAccu = a.normAccu + (fs.map fun f => f.1.normAccu).sum ∧ b'.normAccu = b.normAccu + (fs.map fun f => f.2.normAccu).sum ∧
        (∀ i, a'.accu.data i = a.accu.data i + (fs.map fun f => f.1.accu.data i).sum) ∧ ∀ i, b'.accu.data i = b.accu.data i + (fs.map fun f => f.2.accu.data i).sum := by
  induction fs with
  | nil => intro a b h1 h2 h3 h4; exact ⟨a, b, rfl, h1, h2, h3, h4, by simp, by simp, by simp, by simp⟩
  | cons f fs ih =>
    intro a b h1 h2 h3 h4
    obtain ⟨k1, k2, k3, k4⟩ := h f List.mem_cons_self
    obtain ⟨a', b', e, q⟩ := ih (fun f hf => h f (List.mem_cons_of_mem _ hf)) { a with normAccu := a.normAccu + f.1.normAccu, accu := { a.accu with data := fun i => a.accu.data i + f.1.accu.data i } }
      { b with normAccu := b.normAccu + f.2.normAccu, accu := { b.accu with data := fun i => b.accu.data i + f.2.accu.data i } } h1 h2 h3 h4
    refine ⟨a', b', ?_, ?_⟩
    · simp only [List.map_cons, File3.addAll, File3.add, merge3, h1, h2, h3, h4, k1, k2, k3, k4, ne_eq, not_true, if_false, decide_true, if_true, List.length_cons]
      simp only [h1, h2, h3, h4] at e
      rw [e]
    · simpa [add_assoc] using q

/-- **C74**, collecting: if all files have both entries with the same norm and shape, the result is the norm times the quotient of the sums. -/
theorem C74_collect {n1 n2 : Q} {sh1 sh2 : List ℤ} {fs : List (StatDict Q F × StatDict Q F)} (hne : fs ≠ [])
    (h : ∀ f ∈ fs, f.1.norm = n1 ∧ f.2.norm = n2 ∧ f.1.accu.shape = sh1 ∧ f.2.accu.shape = sh2) (z1 : (fs.map fun f => f.1.normAccu).sum ≠ 0) (z2 : (fs.map fun f => f.2.normAccu).sum ≠ 0) :
    ∃ a b, collect3 (fs.map fun f => some ⟨some f.1, some f.2⟩) = some (a, b) ∧ a.shape = sh1 ∧ b.shape = sh2 ∧
      (∀ i, a.data i = (n1 / (fs.map fun f => f.1.normAccu).sum) • (fs.map fun f => f.1.accu.data i).sum) ∧
      ∀ i, b.data i = (n2 / (fs.map fun f => f.2.normAccu).sum) • (fs.map fun f => f.2.accu.data i).sum := by
  obtain ⟨f, fs, rfl⟩ := List.exists_cons_of_ne_nil hne
  obtain ⟨k1, k2, k3, k4⟩ := h f List.mem_cons_self
  obtain ⟨a', b', e, q1, q2, q3, q4, q5, q6, q7, q8⟩ := addAll_good n1 n2 sh1 sh2 fs (fun f hf => h f (List.mem_cons_of_mem _ hf)) f.1 f.2 k1 k2 k3 k4
  have e' : File3.addAll (⟨none, none⟩ : File3 Q F) ((f :: fs).map fun f => some ⟨some f.1, some f.2⟩) = (⟨some a', some b'⟩, fs.length + 1) := by
    simp only [List.map_cons, File3.addAll, File3.add, merge3, if_true, e]
  have c : ¬(((fs.length + 1 : ℕ) : Q) / (((f :: fs).map fun f => some (⟨some f.1, some f.2⟩ : File3 Q F)).length : Q) < 3 / 4) := by
    rw [List.length_map, List.length_cons, div_self (by positivity)]
    norm_num
  have y1 : a'.normAccu = ((f :: fs).map fun f => f.1.normAccu).sum := by rw [q5]; simp
  have y2 : b'.normAccu = ((f :: fs).map fun f => f.2.normAccu).sum := by rw [q6]; simp
  unfold collect3
  rw [if_neg (by simp)]
  simp only [e', c, if_false, StatDict.finish, Option.bind_eq_bind, Option.bind_some]
  rw [if_neg (by rw [y1]; exact z1), if_neg (by rw [y2]; exact z2)]
  simp only [Option.bind_some]
  refine ⟨_, _, rfl, q3, q4, ?_, ?_⟩
  · intro i
    simp only [q7, q1, y1, List.map_cons, List.sum_cons]
    congr 1
    ring
  · intro i
    simp only [q8, q2, y2, List.map_cons, List.sum_cons]
    congr 1
    ring

/-- **C74**, all together: the propagator that Python gets from several processes is, in every element, the norm times the sum of all measurements of that element divided by the sum of
all norms, with the factors of each process. -/
theorem C74_total {g : GammaG Q F} (w : g.Wf) {norm nw : Q} {sh : List ℤ} {runs : List (List (Op3 Q F) × GammaG Q F × StatDict Q F)} (hne : runs ≠ [])
    (hr : ∀ r ∈ runs, (∀ o ∈ r.1, o.Valid g) ∧ GammaG.ops (g.clear, norm) r.1 = .ok (r.2.1, norm) ∧ r.2.2.norm = nw ∧ r.2.2.accu.shape = sh)
    (z1 : (runs.map fun r => sumNorm r.1).sum ≠ 0) (z2 : (runs.map fun r => r.2.2.normAccu).sum ≠ 0) :
    ∃ a b, collect3 (runs.map fun r => some (File3.load (File3.save ⟨some (r.2.1.statisToDict norm), some r.2.2⟩))) = some (a, b) ∧
      ∀ (s : Spin) (rel : List ℤ) (b1 b2 : ℤ), InLat g.lat rel → 0 ≤ b1 → b1 < g.bins → 0 ≤ b2 → b2 < g.bins →
        a.get (pyCell3 g s rel b1 b2) = (norm / (runs.map fun r => sumNorm r.1).sum) • (runs.map fun r => sumAt g s rel b1 b2 r.1).sum := by
  have key : ∀ r ∈ runs, (r.2.1.statisToDict norm).normAccu = sumNorm r.1 ∧ (r.2.1.statisToDict norm).accu.shape = g.shape ∧
      ∀ (s : Spin) (rel : List ℤ) (b1 b2 : ℤ), InLat g.lat rel → 0 ≤ b1 → b1 < g.bins → 0 ≤ b2 → b2 < g.bins → (r.2.1.statisToDict norm).accu.get (pyCell3 g s rel b1 b2) = sumAt g s rel b1 b2 r.1 := by
    intro r hm
    obtain ⟨hv, e, _⟩ := hr r hm
    obtain ⟨g', e', _, c1, c2, c3⟩ := C74_history w norm hv
    rw [e] at e'
    cases e'
    exact ⟨c1, c2, c3⟩
  have m1 : (runs.map fun r => (r.2.1.statisToDict norm).normAccu).sum = (runs.map fun r => sumNorm r.1).sum := by
    congr 1
    exact List.map_congr_left fun r hm => (key r hm).1
  obtain ⟨a, b, e, s1, _, d1, _⟩ := C74_collect (n1 := norm) (n2 := nw) (sh1 := g.shape) (sh2 := sh)
    (fs := runs.map fun r => (r.2.1.statisToDict norm, { r.2.2 with accu := { r.2.2.accu with isComplex := false } })) (by simpa using hne)
    (by
      intro f hf
      obtain ⟨r, hm, rfl⟩ := List.mem_map.1 hf
      exact ⟨rfl, (hr r hm).2.2.1, (key r hm).2.1, (hr r hm).2.2.2⟩)
    (by rw [List.map_map]; exact m1 ▸ z1) (by rw [List.map_map]; exact z2)
  refine ⟨a, b, by rw [List.map_map] at e; exact e, ?_⟩
  intro s rel b1 b2 hrel p1 p2 p3 p4
  unfold NArr.get
  rw [s1, d1]
  simp only [List.map_map, Function.comp_def, m1]
  congr 2
  refine List.map_congr_left fun r hm => ?_
  rw [← (key r hm).2.2 s rel b1 b2 hrel p1 p2 p3 p4]
  unfold NArr.get
  rw [(key r hm).2.1]

/-- **C74**: if one of the two entries is missing in the file, both objects have no statistics afterwards, whatever they had before; the norms remain. -/
theorem C74_missing (g : GammaG Q F) (w : GammaW Q F) (ng nw : Q) (f : File3 Q F) (h : f.g = none ∨ f.w = none) : ∃ g' w', fromDict3 g w ng nw f = .ok ((g', ng), w', nw) ∧
    (g'.normAccu = 0 ∧ g'.accu.n = g.accu.n ∧ (∀ i, g'.accu.data i = 0) ∧ g'.weight = g.weight) ∧
    (w'.normAccu = 0 ∧ w'.accu.n = w.accu.n ∧ (∀ i, w'.accu.data i = 0) ∧ w'.weight = w.weight) := by
  obtain ⟨fg, fw⟩ := f
  rcases h with h | h
  · simp only at h
    subst h
    exact ⟨_, _, rfl, ⟨rfl, rfl, fun _ => rfl, rfl⟩, rfl, rfl, fun _ => rfl, rfl⟩
  · simp only at h
    subst h
    cases fg
    · exact ⟨_, _, rfl, ⟨rfl, rfl, fun _ => rfl, rfl⟩, rfl, rfl, fun _ => rfl, rfl⟩
    · exact ⟨_, _, rfl, ⟨rfl, rfl, fun _ => rfl, rfl⟩, rfl, rfl, fun _ => rfl, rfl⟩

/-- **C74**, collecting: a file whose first entry has another shape changes nothing and is not counted. -/
theorem C74_shape (c : File3 Q F) (s d : StatDict Q F) (w : Option (StatDict Q F)) (hc : c.g = some s) (h : s.accu.shape ≠ d.accu.shape) (l : List (Option (File3 Q F))) :
    File3.addAll c (some ⟨some d, w⟩ :: l) = File3.addAll c l := by
  obtain ⟨cg, cw⟩ := c
  simp only at hc
  subst hc
  simp [File3.addAll, File3.add, merge3, h]

/-- **C74**, collecting: a file with another norm is not counted. Its data have been added all the same, so that the norm in the result is not that of all data. -/
theorem C74_refuted_norm (c : File3 Q F) (s d : StatDict Q F) (w : Option (StatDict Q F)) (hc : c.g = some s) (h : s.accu.shape = d.accu.shape) (hn : s.norm ≠ d.norm) (l : List (Option (File3 Q F))) :
    File3.addAll c (some ⟨some d, w⟩ :: l) =
      File3.addAll { c with g := some { s with normAccu := s.normAccu + d.normAccu, accu := { s.accu with data := fun i => s.accu.data i + d.accu.data i } } } l := by
  obtain ⟨cg, cw⟩ := c
  simp only at hc
  subst hc
  simp [File3.addAll, File3.add, merge3, h, hn]

/-- **C74**, refuted: three complete files and one without interactions. The last one counts as a failure, and the collection succeeds, but its data of the propagator have been added. -/
theorem C74_refuted_merge (f : StatDict Q F × StatDict Q F) (d : StatDict Q F) (hn : d.norm = f.1.norm) (hs : d.accu.shape = f.1.accu.shape) (hz : f.1.normAccu + f.1.normAccu + f.1.normAccu + d.normAccu ≠ 0)
    (hw : f.2.normAccu + f.2.normAccu + f.2.normAccu ≠ 0) :
    (File3.addAll ⟨none, none⟩ [some ⟨some f.1, some f.2⟩, some ⟨some f.1, some f.2⟩, some ⟨some f.1, some f.2⟩, some ⟨some d, none⟩]).2 = 3 ∧
    ∃ a b, collect3 [some ⟨some f.1, some f.2⟩, some ⟨some f.1, some f.2⟩, some ⟨some f.1, some f.2⟩, some ⟨some d, none⟩] = some (a, b) ∧
      ∀ i, a.data i = (f.1.norm / (f.1.normAccu + f.1.normAccu + f.1.normAccu + d.normAccu)) • (f.1.accu.data i + f.1.accu.data i + f.1.accu.data i + d.accu.data i) := by
  have e : File3.addAll ⟨none, none⟩ [some ⟨some f.1, some f.2⟩, some ⟨some f.1, some f.2⟩, some ⟨some f.1, some f.2⟩, some ⟨some d, none⟩] =
      (⟨some { f.1 with normAccu := f.1.normAccu + f.1.normAccu + f.1.normAccu + d.normAccu, accu := { f.1.accu with data := fun i => f.1.accu.data i + f.1.accu.data i + f.1.accu.data i + d.accu.data i } },
        some { f.2 with normAccu := f.2.normAccu + f.2.normAccu + f.2.normAccu, accu := { f.2.accu with data := fun i => f.2.accu.data i + f.2.accu.data i + f.2.accu.data i } }⟩, 3) := by
    simp [File3.addAll, File3.add, merge3, hn, hs]
  refine ⟨by rw [e], ?_⟩
  unfold collect3
  rw [if_neg (by simp)]
  simp only [e, StatDict.finish, Option.bind_eq_bind, Option.bind_some, hz, hw, if_false]
  rw [if_neg (by norm_num)]
  refine ⟨_, _, rfl, ?_⟩
  intro i
  simp only
  congr 1
  ring

end

/-- A history with a reduction and a restart. -/
def demoOps74 : List (Op3 ℚ ℚ) :=
  [.measure ⟨⟨0, 1, 0⟩, ⟨0, 0, 0⟩, 0, 1 / 2, 1 / 4, true, 3⟩, .norm 2, .squeeze 2, .restart, .measure ⟨⟨0, 1, 0⟩, ⟨0, 0, 0⟩, 0, 1 / 2, 1 / 4, true, 5⟩]

example : demoGammaG.Wf ∧ (∀ o ∈ demoOps74, o.Valid demoGammaG) ∧ sumNorm demoOps74 = 1 ∧
    sumAt demoGammaG true (relCoord [2, 3] ⟨0, 1, 0⟩ ⟨0, 0, 0⟩) 0 3 demoOps74 = -13 / 2 := by
  have a : (⟨⟨0, 1, 0⟩, ⟨0, 0, 0⟩, 0, 1 / 2, 1 / 4, true, 3⟩ : Ev3 ℚ ℚ).At demoGammaG true (relCoord [2, 3] ⟨0, 1, 0⟩ ⟨0, 0, 0⟩) 0 3 := by
    refine ⟨rfl, rfl, ?_, ?_⟩ <;> norm_num [InBin, foldTau, demoGammaG]
  have b : (⟨⟨0, 1, 0⟩, ⟨0, 0, 0⟩, 0, 1 / 2, 1 / 4, true, 5⟩ : Ev3 ℚ ℚ).At demoGammaG true (relCoord [2, 3] ⟨0, 1, 0⟩ ⟨0, 0, 0⟩) 0 3 := by
    refine ⟨rfl, rfl, ?_, ?_⟩ <;> norm_num [InBin, foldTau, demoGammaG]
  refine ⟨demoGammaG_wf, ?_, by decide +kernel, ?_⟩
  · intro o ho
    simp only [demoOps74, List.mem_cons, List.not_mem_nil, or_false] at ho
    rcases ho with rfl | rfl | rfl | rfl | rfl <;> norm_num [Op3.Valid, Ev3.Valid, InLat, demoGammaG, Site.vec]
  · simp only [demoOps74, sumAt, a, b, if_true, discount, Ev3.value, foldSign]
    norm_num

/-- Two files with different norms, of which only the first counts. -/
example : (File3.addAll ⟨none, none⟩ [some ⟨some (⟨1, 2, ⟨[1], true, fun _ => 3⟩⟩ : StatDict ℚ ℚ), some ⟨1, 2, ⟨[1], true, fun _ => 3⟩⟩⟩,
    some ⟨some ⟨4, 2, ⟨[1], true, fun _ => 5⟩⟩, some ⟨1, 2, ⟨[1], true, fun _ => 3⟩⟩⟩]).2 = 1 := by decide +kernel

/-- Two files with different shapes, of which only the first counts. -/
example : (File3.addAll ⟨none, none⟩ [some ⟨some (⟨1, 2, ⟨[1], true, fun _ => 3⟩⟩ : StatDict ℚ ℚ), some ⟨1, 2, ⟨[1], true, fun _ => 3⟩⟩⟩,
    some ⟨some ⟨1, 2, ⟨[2], true, fun _ => 5⟩⟩, some ⟨1, 2, ⟨[1], true, fun _ => 3⟩⟩⟩]).2 = 1 := by decide +kernel

end Feyn
