import Verif.Spec.Tables
import Verif.Proof.IndexMap
import Verif.Props.IndexMap
import Verif.Props.Lattice

/-!
# Tables of the two programs (C71)
-/

namespace Feyn
open IndexMap
variable {Q F : Type} [Field Q] [LinearOrder Q] [IsStrictOrderedRing Q] [FloorRing Q] {m : IndexMap Q}

set_option linter.unusedSectionVars false

theorem latVol_prod (l : List ℤ) : latVol l = l.prod := by
  induction l with
  | nil => rfl
  | cons s l ih => rw [latVol_cons, List.prod_cons, ih]

theorem dot_ravel {l : List ℤ} (h : ∀ s ∈ l, 0 < s) (hl : latVol l < 4294967296) {d : List ℤ} (hd : d.length = l.length) : dot (updateCache l).1 d = ravel l d := by
  induction l generalizing d with
  | nil =>
    cases d
    · rfl
    · simp at hd
  | cons s l ih =>
    cases d with
    | nil => simp at hd
    | cons x d =>
      obtain ⟨h1, h2⟩ := updateCache_tail h hl
      have e : dot (updateCache (s :: l)).1 (x :: d) = x * latVol l + dot (updateCache l).1 d := by
        simp [dot, updateCache, updateCache_size h1 h2]
      rw [e, ravel, ih h1 h2 (by simpa using hd), latVol_prod]

theorem pyCoordi_eq (L v : List ℤ) : pyCoordiIndex L v = vec2Index L v := by
  cases L <;> cases v <;> rfl

theorem pyTau_eq (m : IndexMap Q) (tin tout : Q) : pyTauIndex m.beta m.bins tin tout = m.tauIndex tin tout := by
  unfold pyTauIndex tauIndex tauIndex1 dBetaInv dBeta
  by_cases h : tout - tin < 0
  · rw [if_neg (not_le.2 h), if_pos h]
  · rw [if_pos (not_lt.1 h), if_neg h]

/-- **C71**: the address that the C++ program computes is that of the element with the indices that Python uses. -/
theorem C71_address (h : m.Wf) {s1 s2 : ℤ} {a b : Site} {t1 t2 : Q} (hs1 : m.SpinOk s1) (hs2 : m.SpinOk s2) (ha : m.SiteOk a) (hb : m.SiteOk b) (ht1 : m.TauOk t1)
    (ht2 : m.TauOk t2) :
    m.smoothIndex s1 s2 a b t1 t2 = .ok (ravel (pyShape m.sp m.nsub m.lat m.bins true) (pyIndices m.lat m.beta m.bins s1 s2 a b t1 t2)) ∧
      m.deltaIndex s1 s2 a b = .ok (ravel (pyShape m.sp m.nsub m.lat m.bins false) (pyIndices m.lat m.beta m.bins s1 s2 a b t1 t2).dropLast) := by
  obtain ⟨_, e⟩ := smoothIndex_eq h hs1 hs2 ha hb ht1 ht2
  obtain ⟨_, e'⟩ := deltaIndex_eq h hs1 hs2 ha hb
  rw [e, e', dot_ravel h.shape_pos h.fits' (by rfl), dot_ravel h.dshape_pos h.dfits (by rfl)]
  simp only [pyIndices, pyShape, pyCoordi_eq, pyTau_eq, coordi_rel ha.1 hb.1, smoothShape, deltaShape, latVol_prod]
  exact ⟨rfl, rfl⟩

/-- The address of an element of an array is inside. -/
theorem ravel_range {l d : List ℤ} (h : InLat l d) : 0 ≤ ravel l d ∧ ravel l d < l.prod := by
  induction h with
  | nil => simp [ravel]
  | @cons s x l d hx hd ih =>
    have hp : 0 < l.prod := by
      rw [← latVol_prod]
      exact latVol_pos (InLat.pos hd)
    simp only [ravel, List.prod_cons]
    constructor
    · nlinarith [hx.1]
    · nlinarith [hx.2]

theorem ravel_inj {l d d' : List ℤ} (h : InLat l d) (h' : InLat l d') (e : ravel l d = ravel l d') : d = d' := by
  induction h generalizing d' with
  | nil => cases h'; rfl
  | @cons s x l d hx hd ih =>
    cases h' with
    | @cons _ x' _ d' hx' hd' =>
      have k := ravel_range hd
      have k' := ravel_range hd'
      have hp : 0 < l.prod := by
        rw [← latVol_prod]
        exact latVol_pos (InLat.pos hd)
      simp only [ravel] at e
      have : x = x' := by
        rcases lt_trichotomy x x' with c | c | c
        · nlinarith
        · exact c
        · nlinarith
      subst this
      rw [ih hd' (by linarith)]

theorem fromDict_ok {a : Arr F} {shape : List ℤ} {x : NArr F} (hs : x.shape = shape) (hc : x.isComplex = true) :
    a.fromDict shape x = .ok { a with data := fun i => if 0 ≤ i ∧ i < a.n then x.data i else a.data i } := by
  unfold Arr.fromDict
  rw [if_neg (by rw [hs]; omega), if_neg (by simp [hs]), if_pos hc]

theorem pyIndices_in (h : m.Wf) {s1 s2 : ℤ} {a b : Site} {t1 t2 : Q} (hs1 : m.SpinOk s1) (hs2 : m.SpinOk s2) (ha : m.SiteOk a) (hb : m.SiteOk b) (ht1 : m.TauOk t1)
    (ht2 : m.TauOk t2) : InLat (pyShape m.sp m.nsub m.lat m.bins true) (pyIndices m.lat m.beta m.bins s1 s2 a b t1 t2) ∧
      InLat (pyShape m.sp m.nsub m.lat m.bins false) (pyIndices m.lat m.beta m.bins s1 s2 a b t1 t2).dropLast := by
  have := (smoothIndex_eq h hs1 hs2 ha hb ht1 ht2).1
  have := (deltaIndex_eq h hs1 hs2 ha hb).1
  simp only [pyIndices, pyShape, pyCoordi_eq, pyTau_eq, ← coordi_rel ha.1 hb.1, ← latVol_prod]
  exact ⟨‹InLat m.smoothShape _›, this⟩

variable [Field F]

/-- **C71**, propagator: after reading the array of Python, the weight of a line is the element of the array for these sites, spins and this time difference, with a minus sign
if the end is not later than the beginning. -/
theorem C71_G {T : GTab Q F} (h : T.map.Wf) (hsp : T.map.sp = 2) (hsym : T.map.sym = -1)
    (hn : T.smooth.n = (pyShape 2 T.map.nsub T.map.lat T.map.bins true).prod) {x : NArr F} (hx : x.shape = pyShape 2 T.map.nsub T.map.lat T.map.bins true)
    (hc : x.isComplex = true) : ∃ T', T.fromDict x = .ok T' ∧ ∀ (e : Ext Q) {a b : Site} {t1 t2 : Q} (s1 s2 : Spin), T.map.SiteOk a → T.map.SiteOk b → T.map.TauOk t1 →
      T.map.TauOk t2 → T'.weight0 e a b t1 t2 s1 s2 false false =
        .ok ((if t2 > t1 then 1 else -1) * x.get (pyIndices T.map.lat T.map.beta T.map.bins (pySpin s1) (pySpin s2) a b t1 t2)) := by
  have hs : x.shape = T.map.smoothShape := by
    rw [hx, smoothShape, hsp, latVol_prod]
    rfl
  refine ⟨{ T with smooth := { T.smooth with data := fun i => if 0 ≤ i ∧ i < T.smooth.n then x.data i else T.smooth.data i } }, ?_, ?_⟩
  · unfold GTab.fromDict
    rw [fromDict_ok hs hc]
    rfl
  · intro e a b t1 t2 s1 s2 ha hb ht1 ht2
    have hk : ∀ s : Spin, T.map.SpinOk (spinNum s) := by
      intro s
      unfold SpinOk
      rw [hsp]
      exact C24_spin_indices.1 s
    have hi := (C71_address h (hk s1) (hk s2) ha hb ht1 ht2).1
    have hr := ravel_range (pyIndices_in h (hk s1) (hk s2) ha hb ht1 ht2).1
    rw [hsp] at hi hr
    unfold GTab.weight0
    simp only [hi]
    simp only [Res.ok_bind, Arr.at, Bool.false_eq_true, if_false, hn]
    rw [if_pos hr]
    simp only [Res.ok_bind, if_pos hr, NArr.get, hx, tauSym, hsym]
    congr 1
    congr 1
    split_ifs <;> simp

/-- **C71**, interaction: the same for its two parts. There is no sign, and the instantaneous part does not depend on the times. The pairs of spins have the same
numbers in both programs. -/
theorem C71_W [StarRing F] {T : WTab Q F} (h : T.map.Wf) (hsp : T.map.sp = 4) (hn : T.smooth.n = (pyShape 4 T.map.nsub T.map.lat T.map.bins true).prod)
    (hd : T.delta.n = (pyShape 4 T.map.nsub T.map.lat T.map.bins false).prod) {x y : NArr F} (hx : x.shape = pyShape 4 T.map.nsub T.map.lat T.map.bins true)
    (hy : y.shape = pyShape 4 T.map.nsub T.map.lat T.map.bins false) (hcx : x.isComplex = true) (hcy : y.isComplex = true) :
    ∃ T', T.fromDict x y = .ok T' ∧ ∀ (e : Ext Q) {a b : Site} {t1 t2 : Q} (s1 s2 : Dir → Spin), T.map.SiteOk a → T.map.SiteOk b → T.map.TauOk t1 → T.map.TauOk t2 →
      let i := pyIndices T.map.lat T.map.beta T.map.bins (pySpin2Index (pySpin (s1 IN)) (pySpin (s1 OUT))) (pySpin2Index (pySpin (s2 IN)) (pySpin (s2 OUT))) a b t1 t2
      T'.weight0 e a b t1 t2 s1 s2 false false false false = .ok (x.get i) ∧ T'.weight0 e a b t1 t2 s1 s2 false false true false = .ok (y.get i.dropLast) := by
  have hs : x.shape = T.map.smoothShape := by
    rw [hx, smoothShape, hsp, latVol_prod]
    rfl
  have hs' : y.shape = T.map.deltaShape := by
    rw [hy, deltaShape, hsp, latVol_prod]
    rfl
  refine ⟨{ T with smooth := { T.smooth with data := fun i => if 0 ≤ i ∧ i < T.smooth.n then x.data i else T.smooth.data i }
                   delta := { T.delta with data := fun i => if 0 ≤ i ∧ i < T.delta.n then y.data i else T.delta.data i } }, ?_, ?_⟩
  · unfold WTab.fromDict
    rw [fromDict_ok hs hcx, fromDict_ok hs' hcy]
    rfl
  · intro e a b t1 t2 s1 s2 ha hb ht1 ht2 i
    have hk : ∀ s : Dir → Spin, T.map.SpinOk (spinNum2 s) := by
      intro s
      unfold SpinOk
      rw [hsp]
      exact C24_spin_indices.2.2.1 s
    obtain ⟨hi, hj⟩ := C71_address h (hk s1) (hk s2) ha hb ht1 ht2
    obtain ⟨k1, k2⟩ := pyIndices_in h (hk s1) (hk s2) ha hb ht1 ht2
    have hr := ravel_range k1
    have hr' := ravel_range k2
    rw [hsp] at hi hj hr hr'
    unfold WTab.weight0
    simp only [Bool.false_eq_true, if_false, if_true]
    rw [hi, hj]
    simp only [Res.ok_bind, Arr.at, hn, hd]
    rw [if_pos hr, if_pos hr']
    simp only [if_pos hr, if_pos hr', NArr.get, hx, hy]
    exact ⟨rfl, rfl⟩

/-- **C71**, statistics: what is measured at order `o` is found by Python at the position `o - 1` of the first axis and its usual indices; nothing else changes. -/
theorem C71_statistics (h : m.Wf) {H : Histo Q F} {orders : ℤ} (hp : H.perOrder = (pyShape m.sp m.nsub m.lat m.bins true).prod) (hc : H.cells = orders * H.perOrder)
    (hf : H.cells < 4294967296) {s1 s2 : ℤ} {a b : Site} {t1 t2 : Q} (hs1 : m.SpinOk s1) (hs2 : m.SpinOk s2) (ha : m.SiteOk a) (hb : m.SiteOk b) (ht1 : m.TauOk t1)
    (ht2 : m.TauOk t2) {o : ℤ} (h1 : 1 ≤ o) (h2 : o ≤ orders) (w : F) :
    ∃ H', (m.smoothIndex s1 s2 a b t1 t2 >>= fun i => H.measure i o w) = .ok H' ∧
      ∀ j, InLat (orders :: pyShape m.sp m.nsub m.lat m.bins true) j → (H'.weightAccu m orders).get j =
        (H.weightAccu m orders).get j + if j = (o - 1) :: pyIndices m.lat m.beta m.bins s1 s2 a b t1 t2 then w else 0 := by
  have hi := (C71_address h hs1 hs2 ha hb ht1 ht2).1
  have hin := (pyIndices_in h hs1 hs2 ha hb ht1 ht2).1
  have hr := ravel_range hin
  have hsh : m.smoothShape = pyShape m.sp m.nsub m.lat m.bins true := by
    rw [smoothShape, latVol_prod]
    rfl
  rw [← hp] at hr
  have hwin : InLat (orders :: pyShape m.sp m.nsub m.lat m.bins true) ((o - 1) :: pyIndices m.lat m.beta m.bins s1 s2 a b t1 t2) :=
    .cons ⟨by omega, by omega⟩ hin
  have e0 : (o - 1) * H.perOrder + ravel (pyShape m.sp m.nsub m.lat m.bins true) (pyIndices m.lat m.beta m.bins s1 s2 a b t1 t2) =
      ravel (orders :: pyShape m.sp m.nsub m.lat m.bins true) ((o - 1) :: pyIndices m.lat m.beta m.bins s1 s2 a b t1 t2) := by
    rw [ravel, hp]
  have hr2 := ravel_range hwin
  rw [List.prod_cons, ← hp, ← hc] at hr2
  rw [hi, Res.ok_bind]
  unfold Histo.measure Histo.wrap
  simp only [e0, Int.emod_eq_of_lt hr2.1 (lt_trans hr2.2 hf), if_pos hr2]
  refine ⟨_, rfl, fun j hj => ?_⟩
  simp only [NArr.get, Histo.weightAccu, hsh]
  by_cases hjj : j = (o - 1) :: pyIndices m.lat m.beta m.bins s1 s2 a b t1 t2
  · rw [if_pos (by rw [hjj]), if_pos hjj]
  · rw [if_neg (fun hq => hjj (ravel_inj hj hwin hq)), if_neg hjj, add_zero]

/-- **C71**: the index of a lattice vector in Python is its index in C++, and `IndexToCoordi` is the inverse of `CoordiIndex`. -/
theorem C71_coordinates {L : List ℤ} (h : LatOk L) :
    (∀ v, InLat L v → pyCoordiIndex L v = vec2Index L v ∧ pyIndexToCoordi L (pyCoordiIndex L v) = v) ∧
      ∀ i, 0 ≤ i → i < L.prod → pyIndexToCoordi L i = index2Vec L i ∧ pyCoordiIndex L (pyIndexToCoordi L i) = i := by
  have e : ∀ (l : List ℤ) (_ : ∀ s ∈ l, 0 < s) (i : ℤ) (acc : List ℤ), 0 ≤ i → pyIndexLoop l i acc = index2VecLoop l i acc := by
    intro l
    induction l with
    | nil => exact fun _ i acc _ => rfl
    | cons s l ih =>
      intro hl i acc hi
      have hs : 0 < s := hl s (List.mem_cons_self ..)
      rw [pyIndexLoop, index2VecLoop, Int.fdiv_eq_tdiv_of_nonneg hi hs.le, Int.fmod_eq_tmod_of_nonneg hi hs.le]
      exact ih (fun x q => hl x (List.mem_cons_of_mem s q)) _ _ (Int.tdiv_nonneg hi hs.le)
  have e' : ∀ i, 0 ≤ i → pyIndexToCoordi L i = index2Vec L i := by
    intro i hi
    refine e _ (fun s hs => h.2 s ?_) i [] hi
    exact List.mem_of_mem_tail (List.mem_reverse.1 hs)
  obtain ⟨r1, r2⟩ := index_round_trip h
  refine ⟨fun v hv => ⟨pyCoordi_eq L v, ?_⟩, fun i h0 h1 => ⟨e' i h0, ?_⟩⟩
  · rw [pyCoordi_eq, e' _ (r1 v hv).1]
    exact (r1 v hv).2.2
  · rw [e' i h0, pyCoordi_eq]
    exact (r2 i h0 (by rw [latVol_prod]; exact h1)).2

/-- **C71**: times. The centre of a bin in both programs is the same. -/
theorem C71_times (m : IndexMap Q) (t1 t2 : Q) (i : ℤ) : pyTauIndex m.beta m.bins t1 t2 = m.tauIndex t1 t2 ∧ pyIndexToTau m.beta m.bins i = m.indexToTau i := by
  refine ⟨pyTau_eq m t1 t2, ?_⟩
  unfold pyIndexToTau indexToTau dBeta
  ring

/-- Interaction arrays of a 4 by 3 lattice with two sublattices and 5 bins. -/
example : demoMap.Wf ∧ demoMap.sp = 4 ∧ pyShape 4 demoMap.nsub demoMap.lat demoMap.bins true = [4, 2, 4, 2, 12, 5] ∧
    pyIndices demoMap.lat demoMap.beta demoMap.bins 3 2 ⟨1, 3, 2⟩ ⟨0, 1, 0⟩ (3 / 2) 1 = [3, 1, 2, 0, 7, 3] ∧ ravel [4, 2, 4, 2, 12, 5] [3, 1, 2, 0, 7, 3] = 3638 := by
  refine ⟨demoMap_wf, rfl, by decide +kernel, by decide +kernel, by decide +kernel⟩

/-- A propagator with 16 elements: element [0, 0, 1, 0, 1, 1], at position 7, is used with a minus sign for a line that ends before it begins. -/
example : let T : GTab ℚ ℚ := ⟨⟨1, 2, [2, 1], 1, 2, -1⟩, ⟨16, fun _ => 0⟩, ⟨16, fun _ => 1⟩, none⟩
    pyShape 2 T.map.nsub T.map.lat T.map.bins true = [2, 1, 2, 1, 2, 2] ∧
      (T.fromDict ⟨[2, 1, 2, 1, 2, 2], true, fun i => i⟩ >>= fun T' => T'.weight0 ⟨0, ⟨0, 0, 0⟩, true⟩ ⟨0, 0, 0⟩ ⟨0, 1, 0⟩ (1 / 2) (1 / 4) DOWN UP false false) = .ok (-7) := by
  decide +kernel

/-- Statistics of two orders: 5 is added at order 2. -/
example : let m : IndexMap ℚ := ⟨1, 2, [2, 1], 1, 2, -1⟩
    ((m.smoothIndex 0 1 ⟨0, 0, 0⟩ ⟨0, 1, 0⟩ (1 / 2) (1 / 4) >>= fun i => (⟨1, 1, 0, 32, fun _ => 0, 16⟩ : Histo ℚ ℚ).measure i 2 5) >>= fun H =>
      .ok ((H.weightAccu m 2).get [1, 0, 0, 1, 0, 1, 1], (H.weightAccu m 2).get [0, 0, 0, 1, 0, 1, 1])) = .ok (5, 0) := by
  decide +kernel

/-- **C71 fails** for arrays of another shape or type: a wrong shape is found only if the array has enough axes, and real numbers are read as if they were complex. An array
with further axes is accepted. -/
theorem C71_refuted_shape : let a : Arr ℚ := ⟨6, fun _ => 0⟩
    a.fromDict [2, 3] ⟨[6], true, fun i => i⟩ = .ub ∧ a.fromDict [2, 3] ⟨[2, 3], false, fun i => i⟩ = .ub ∧
      (∃ b, a.fromDict [2, 3] ⟨[2, 3, 4], true, fun i => i⟩ = .ok b ∧ b.at 5 = .ok 5) ∧ a.fromDict [2, 3] ⟨[3, 2], true, fun i => i⟩ = .abort := by
  refine ⟨rfl, rfl, ⟨_, rfl, ?_⟩, rfl⟩
  norm_num [Arr.at]

end Feyn
