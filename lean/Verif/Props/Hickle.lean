import Verif.Proof.Hickle

/-!
# C85: what is saved in a data file comes back when it is loaded
-/

namespace Feyn

variable {D : Type}

theorem withHkl_slash {p : List Char} (h : '/' ∉ p) : '/' ∉ withHkl p := by
  rw [withHkl]
  split
  · exact h
  · rw [List.mem_append]
    rintro (h' | h')
    · exact h h'
    · revert h'
      decide

theorem dirPart_none {p : List Char} (h : '/' ∉ p) : dirPart p = [] := by
  rw [dirPart, List.rdropWhile_eq_nil_iff]
  intro c hc
  simp only [decide_not, Bool.not_eq_eq_eq_not, Bool.not_true, decide_eq_false_iff_not]
  rintro rfl
  exact h hc

theorem under_ne (p : List Char) : p ≠ '_' :: p := by
  intro h
  have := congrArg List.length h
  simp at this

/-- Saving a dictionary `d₁` that needs no further rounding, in the working directory. -/
theorem save_load (single : D → D) (isDir : List Char → Bool) (file : List Char) (d d₁ : List (HKey × HObj D)) (s : H5Files D) (hf : '/' ∉ file) (hdir : isDir [] = true)
    (hr : roundStatis single d = .ok d₁) (hd : PlainObj (.dict d₁)) (hw : skey "WWGammaW" ∉ d₁.map Prod.fst) :
    ∃ d' s' e, saveBigDict single isDir file d s = ⟨d', s', .ok ()⟩ ∧ loadBigDict file s' = .ok e ∧ SameValue (.dict d₁) (.dict e) ∧
      (∀ p, p ≠ withHkl file → p ≠ '_' :: withHkl file → s' p = s p) ∧ s' ('_' :: withHkl file) = none ∧ (NoUnicode (.dict d₁) → d' = d₁) := by
  obtain ⟨d', f, hdf⟩ := dumpDict_of d₁ (plain_dumpable hd)
  obtain ⟨-, hl⟩ := dumpDict_load d₁ d' f hdf
  have hs := withHkl_slash hf
  have h1 : dirPart ('_' :: withHkl file) = [] := dirPart_none (by simpa using hs)
  have h2 : dirPart (withHkl file) = [] := dirPart_none hs
  have hsame := plain_same hd
  simp only [back] at hsame
  have hkeys : (backItems d₁).map Prod.fst = d₁.map Prod.fst := by
    have hd' := hd
    cases hd' with
    | dict _ hk _ _ =>
      rw [backItems_flatMap, List.map_flatMap, List.map_eq_flatMap]
      refine List.flatMap_congr fun p hp => ?_
      obtain ⟨-, h2, h3⟩ := plainKey_text (hk p hp)
      rw [backPair_eq, h3]
      split
      · rfl
      · simp [backDataset, h2, h3]
  refine ⟨d', Function.update (Function.update s ('_' :: withHkl file) none) (withHkl file) (some f), backItems d₁, ?_, ?_, hsame, ?_, ?_, ?_⟩
  · simp only [saveBigDict, hr, h1, h2, hdir, hdf, Bool.true_eq_false, if_false]
  · rw [loadBigDict, Function.update_self]
    simp only [hl, HRes.bind, widenWeights]
    rw [getItem_none (by rw [hkeys]; exact hw)]
  · intro p hp hp'
    rw [Function.update_of_ne hp, Function.update_of_ne hp']
  · rw [Function.update_of_ne (Ne.symm (under_ne _)), Function.update_self]
  · intro hu
    have := dumpDict_same hu
    rw [hdf] at this
    exact this

/-- **Round trip.** A dictionary of numbers, text, arrays, lists of one type and such dictionaries is saved, and what `LoadBigDict` then returns is equal to it; no other file changes and no temporary file is left. (The keys
whose values are converted have their own theorems.) -/
theorem C85_roundtrip_partial (single : D → D) (isDir : List Char → Bool) (file : List Char) (d : List (HKey × HObj D)) (s : H5Files D) (hf : '/' ∉ file) (hdir : isDir [] = true)
    (hd : PlainObj (.dict d)) (hg : skey "GammaWStatis" ∉ d.map Prod.fst) (hw : skey "WWGammaW" ∉ d.map Prod.fst) :
    ∃ d' s' e, saveBigDict single isDir file d s = ⟨d', s', .ok ()⟩ ∧ loadBigDict file s' = .ok e ∧ SameValue (.dict d) (.dict e) ∧
      (∀ p, p ≠ withHkl file → p ≠ '_' :: withHkl file → s' p = s p) ∧ s' ('_' :: withHkl file) = none := by
  have hr : roundStatis single d = .ok d := by rw [roundStatis, getItem_none hg]
  obtain ⟨d', s', e, h1, h2, h3, h4, h5, -⟩ := save_load single isDir file d d s hf hdir hr hd hw
  exact ⟨d', s', e, h1, h2, h3, h4, h5⟩

theorem getItem_mem {d : List (HKey × HObj D)} {k : HKey} {v : HObj D} (h : getItem d k = some v) : (k, v) ∈ d := by
  induction d with
  | nil => cases h
  | cons p d ih =>
    rw [getItem] at h
    split at h
    · rename_i hk
      cases h
      subst hk
      exact List.mem_cons_self ..
    · exact List.mem_cons_of_mem _ (ih h)

theorem setItem_keys (d : List (HKey × HObj D)) (k : HKey) (v : HObj D) : (setItem d k v).map Prod.fst = d.map Prod.fst := by
  rw [setItem, List.map_map]
  refine List.map_congr_left fun p _ => ?_
  simp only [Function.comp]
  split
  · rename_i h; exact h.symm
  · rfl

theorem plain_dict {d : List (HKey × HObj D)} (hd : PlainObj (.dict d)) : (∀ p ∈ d, PlainKey p.1) ∧ (d.map Prod.fst).Nodup ∧ ∀ p ∈ d, PlainObj p.2 := by
  cases hd with
  | dict _ hk hn h => exact ⟨hk, hn, h⟩

theorem setItem_plain {d : List (HKey × HObj D)} {k : HKey} {v : HObj D} (hd : PlainObj (.dict d)) (hv : PlainObj v) : PlainObj (.dict (setItem d k v)) := by
  obtain ⟨hk, hn, h⟩ := plain_dict hd
  · refine .dict _ ?_ (by rw [setItem_keys]; exact hn) ?_
    · intro p hp
      have : p.1 ∈ (setItem d k v).map Prod.fst := List.mem_map.2 ⟨p, hp, rfl⟩
      rw [setItem_keys] at this
      obtain ⟨q, hq, hqp⟩ := List.mem_map.1 this
      rw [← hqp]
      exact hk q hq
    · intro p hp
      obtain ⟨q, hq, rfl⟩ := List.mem_map.1 hp
      split
      · exact hv
      · exact h q hq

theorem plain_get {d : List (HKey × HObj D)} {k : HKey} {v : HObj D} (hd : PlainObj (.dict d)) (h : getItem d k = some v) : PlainObj v := by
  exact (plain_dict hd).2.2 _ (getItem_mem h)

/-- **Statistics.** The file of statistics has a dictionary `GammaWStatis` with an array `WeightAccu`. It is saved with single precision: what is loaded is equal to the dictionary with the numbers of this one array rounded and
its type `complex64`, and the dictionary of the caller is changed in the same way. -/
theorem C85_statistics (single : D → D) (isDir : List Char → Bool) (file : List Char) (d w : List (HKey × HObj D)) (a : NdArray D) (s : H5Files D) (hf : '/' ∉ file)
    (hdir : isDir [] = true) (hd : PlainObj (.dict d)) (hg : getItem d (skey "GammaWStatis") = some (.dict w)) (ha : getItem w (skey "WeightAccu") = some (.array a)) (ht : a.dtype = .complex128)
    (hw : skey "WWGammaW" ∉ d.map Prod.fst) :
    let d₁ := setItem d (skey "GammaWStatis") (.dict (setItem w (skey "WeightAccu") (.array (roundArray single a))))
    ∃ d' s' e, saveBigDict single isDir file d s = ⟨d', s', .ok ()⟩ ∧ loadBigDict file s' = .ok e ∧ SameValue (.dict d₁) (.dict e) ∧ (NoUnicode (.dict d₁) → d' = d₁) := by
  intro d₁
  have hr : roundStatis single d = .ok d₁ := by
    have e : HAtom.round single = roundNumber single := by
      funext x
      cases x <;> rfl
    simp only [roundStatis, hg, ha, toSingle, ht, HRes.bind, roundArray, d₁, e]
    simp
  have hpa := plain_get (plain_get hd hg) ha
  have hpr : PlainObj (.array (roundArray single a)) := by
    cases hpa with
    | array _ h h0 hc =>
      refine .array _ h h0 ?_
      intro x hx
      simp only [roundArray, List.mem_map] at hx
      obtain ⟨y, hy, rfl⟩ := hx
      cases y with
      | cplx re im => trivial
      | _ => exact hc _ hy
  obtain ⟨d', s', e, h1, h2, h3, -, -, h6⟩ := save_load single isDir file d d₁ s hf hdir hr (setItem_plain hd (setItem_plain (plain_get hd hg) hpr))
    (by rw [setItem_keys]; exact hw)
  exact ⟨d', s', e, h1, h2, h3, h6⟩

theorem plain_items {d : List (HKey × HObj D)} (hd : PlainObj (.dict d)) : backItems d = d.map fun p => (p.1, back p.2) := by
  rw [backItems_flatMap, List.map_eq_flatMap]
  refine List.flatMap_congr fun p hp => ?_
  obtain ⟨-, h2, h3⟩ := plainKey_text ((plain_dict hd).1 p hp)
  rw [backPair_eq, h3]
  split
  · rfl
  · simp [backDataset, h2, h3]

theorem getItem_map (f : HObj D → HObj D) (d : List (HKey × HObj D)) (k : HKey) : getItem (d.map fun p => (p.1, f p.2)) k = (getItem d k).map f := by
  induction d with
  | nil => rfl
  | cons p d ih =>
    rw [List.map_cons, getItem, getItem, ih]
    split <;> rfl

theorem setItem_map (f : HObj D → HObj D) (d : List (HKey × HObj D)) (k : HKey) (v : HObj D) :
    (setItem d k v).map (fun p => (p.1, f p.2)) = setItem (d.map fun p => (p.1, f p.2)) k (f v) := by
  simp only [setItem, List.map_map]
  refine List.map_congr_left fun p _ => ?_
  simp only [Function.comp]
  split <;> rfl

/-- **Weights.** The file of weights may have a dictionary `WWGammaW` with an array `SmoothT` of complex numbers. It is loaded with double precision, whatever precision it was saved with; all else is equal. -/
theorem C85_weights (single : D → D) (isDir : List Char → Bool) (file : List Char) (d w : List (HKey × HObj D)) (a : NdArray D) (s : H5Files D) (hf : '/' ∉ file)
    (hdir : isDir [] = true) (hd : PlainObj (.dict d)) (hg : skey "GammaWStatis" ∉ d.map Prod.fst) (hw : getItem d (skey "WWGammaW") = some (.dict w))
    (ha : getItem w (skey "SmoothT") = some (.array a)) (ht : a.dtype = .complex64 ∨ a.dtype = .complex128) :
    ∃ d' s' e, saveBigDict single isDir file d s = ⟨d', s', .ok ()⟩ ∧ loadBigDict file s' = .ok e ∧
      SameValue (.dict (setItem d (skey "WWGammaW") (.dict (setItem w (skey "SmoothT") (.array { a with dtype := .complex128 }))))) (.dict e) := by
  have hr : roundStatis single d = .ok d := by rw [roundStatis, getItem_none hg]
  obtain ⟨d', f, hdf⟩ := dumpDict_of d (plain_dumpable hd)
  obtain ⟨-, hl⟩ := dumpDict_load d d' f hdf
  have hs := withHkl_slash hf
  have h1 : dirPart ('_' :: withHkl file) = [] := dirPart_none (by simpa using hs)
  have h2 : dirPart (withHkl file) = [] := dirPart_none hs
  have hpw := plain_get hd hw
  have hpa := plain_get hpw ha
  have hpn : PlainObj (.array { a with dtype := .complex128 }) := by
    cases hpa with
    | array _ h h0 hc => exact .array _ h h0 hc
  have hp₁ := setItem_plain (k := skey "WWGammaW") hd (setItem_plain (k := skey "SmoothT") hpw hpn)
  have hsame := plain_same hp₁
  simp only [back] at hsame
  refine ⟨d', Function.update (Function.update s ('_' :: withHkl file) none) (withHkl file) (some f), _, ?_, ?_, hsame⟩
  · simp only [saveBigDict, hr, h1, h2, hdir, hdf, Bool.true_eq_false, if_false]
  · rw [loadBigDict, Function.update_self]
    simp only [hl, HRes.bind]
    rw [plain_items hp₁, setItem_map, ← plain_items hd]
    have e1 : getItem (backItems d) (skey "WWGammaW") = some (.dict (backItems w)) := by
      rw [plain_items hd, getItem_map, hw]
      simp [back]
    have e2 : getItem (backItems w) (skey "SmoothT") = some (.array a.stored) := by
      rw [plain_items hpw, getItem_map, ha]
      simp [back]
    have e3 : toDouble (.array a.stored) = .ok (.array { a.stored with dtype := .complex128 }) := by
      have ht' : a.stored.dtype = .complex64 ∨ a.stored.dtype = .complex128 := ht
      rw [toDouble, if_pos ht']
    simp only [widenWeights, e1, e2, e3, HRes.bind, back]
    rw [plain_items (setItem_plain hpw hpn), setItem_map, ← plain_items hpw]
    simp [back, NdArray.stored]

/-- **Incomplete statistics** are refused: without `WeightAccu` an exception is raised, nothing is written and the dictionary stays as it is. -/
theorem C85_incomplete (single : D → D) (isDir : List Char → Bool) (file : List Char) (d w : List (HKey × HObj D)) (s : H5Files D)
    (hg : getItem d (skey "GammaWStatis") = some (.dict w)) (ha : skey "WeightAccu" ∉ w.map Prod.fst) :
    saveBigDict single isDir file d s = ⟨d, s, .raise .other⟩ := by
  have hr : roundStatis single d = .raise .other := by simp only [roundStatis, hg, getItem_none ha]
  simp only [saveBigDict, hr]

/-- **Weights without smooth part** come back as they are. -/
theorem C85_no_smooth (single : D → D) (isDir : List Char → Bool) (file : List Char) (d w : List (HKey × HObj D)) (s : H5Files D) (hf : '/' ∉ file)
    (hdir : isDir [] = true) (hd : PlainObj (.dict d)) (hg : skey "GammaWStatis" ∉ d.map Prod.fst) (hw : getItem d (skey "WWGammaW") = some (.dict w))
    (ha : skey "SmoothT" ∉ w.map Prod.fst) :
    ∃ d' s' e, saveBigDict single isDir file d s = ⟨d', s', .ok ()⟩ ∧ loadBigDict file s' = .ok e ∧ SameValue (.dict d) (.dict e) := by
  have hr : roundStatis single d = .ok d := by rw [roundStatis, getItem_none hg]
  obtain ⟨d', f, hdf⟩ := dumpDict_of d (plain_dumpable hd)
  obtain ⟨-, hl⟩ := dumpDict_load d d' f hdf
  have hs := withHkl_slash hf
  have h1 : dirPart ('_' :: withHkl file) = [] := dirPart_none (by simpa using hs)
  have h2 : dirPart (withHkl file) = [] := dirPart_none hs
  have hpw := plain_get hd hw
  have hsame := plain_same hd
  simp only [back] at hsame
  refine ⟨d', Function.update (Function.update s ('_' :: withHkl file) none) (withHkl file) (some f), _, ?_, ?_, hsame⟩
  · simp only [saveBigDict, hr, h1, h2, hdir, hdf, Bool.true_eq_false, if_false]
  · rw [loadBigDict, Function.update_self]
    simp only [hl, HRes.bind]
    have e1 : getItem (backItems d) (skey "WWGammaW") = some (.dict (backItems w)) := by
      rw [plain_items hd, getItem_map, hw]
      simp [back]
    have e2 : getItem (backItems w) (skey "SmoothT") = none := by
      rw [plain_items hpw, getItem_map, getItem_none ha]
      rfl
    simp only [widenWeights, e1, e2]

/-- **What can be saved.** As far as it is modelled (lists of mixed types and arrays without elements are not), `dump` succeeds exactly for the dictionaries that `Dumpable` describes, and every file that it writes can be loaded. -/
theorem C85_accepts (d : List (HKey × HObj D)) :
    ((∃ f, (dumpDict d).2 = .ok f) ↔ Dumpable (.dict d)) ∧ ∀ f, (dumpDict d).2 = .ok f → ∃ e, loadDict f = .ok e := by
  refine ⟨⟨fun ⟨f, hf⟩ => (dumpDict_load d (dumpDict d).1 f (Prod.ext rfl hf)).1, fun h => ?_⟩, fun f hf => ⟨_, (dumpDict_load d (dumpDict d).1 f (Prod.ext rfl hf)).2⟩⟩
  obtain ⟨d', f, h⟩ := dumpDict_of d h
  exact ⟨f, by rw [h]⟩

/-- **Keys.** The keys that are loaded are the texts of the keys saved, without those of values other than dictionaries that begin with `_`. -/
theorem C85_keys (d e : List (HKey × HObj D)) (f : H5Group D) (h : (dumpDict d).2 = .ok f) (he : loadDict f = .ok e) :
    e.map Prod.fst = (d.filter fun p => p.2.isDict || p.1.text.head? != some '_').map fun p => .str p.1.text := by
  obtain ⟨-, hl⟩ := dumpDict_load d (dumpDict d).1 f (Prod.ext rfl h)
  rw [hl] at he
  cases he
  clear hl h
  induction d with
  | nil => simp [backItems]
  | cons p d ih =>
    rw [backItems, List.map_append, ih, backPair_eq]
    by_cases hd : p.2.isDict
    · simp [hd]
    · by_cases hu : p.1.text.head? = some '_'
      · simp [hd, hu, backDataset]
      · simp [hd, hu, backDataset]

/-- **Number keys** become text: a dictionary under the key `n` comes back under its decimal digits. -/
theorem C85_number_key (n : ℤ) (v e : List (HKey × HObj D)) (f : H5Group D) (hf : (dumpDict [(.int n, .dict v)]).2 = .ok f) (he : loadDict f = .ok e) :
    e.map Prod.fst = [.str (toString n).toList] := by
  rw [C85_keys _ e f hf he]
  simp [HObj.isDict, HKey.text]

/-- **Second time.** What was loaded can be saved again, and comes back unchanged, whatever was lost the first time. -/
theorem C85_stable (d e : List (HKey × HObj D)) (f : H5Group D) (hs : SoundArrays (.dict d)) (h : (dumpDict d).2 = .ok f) (he : loadDict f = .ok e) :
    ∃ f', (dumpDict e).2 = .ok f' ∧ loadDict f' = .ok e := by
  obtain ⟨hd, hl⟩ := dumpDict_load d (dumpDict d).1 f (Prod.ext rfl h)
  rw [hl] at he
  cases he
  obtain ⟨h1, h2⟩ := back_back hd hs
  simp only [back, HObj.dict.injEq] at h1 h2
  obtain ⟨d', f', h3⟩ := dumpDict_of _ h1
  obtain ⟨-, h4⟩ := dumpDict_load _ _ _ h3
  exact ⟨f', by rw [h3], by rw [h4, h2]⟩

/-- **The caller's dictionary.** Without `unicode` values saving does not change it, not even when it fails. -/
theorem C85_unchanged (single : D → D) (isDir : List Char → Bool) (file : List Char) (d : List (HKey × HObj D)) (s : H5Files D) (hu : NoUnicode (.dict d))
    (hg : skey "GammaWStatis" ∉ d.map Prod.fst) : (saveBigDict single isDir file d s).dict = d := by
  have hr : roundStatis single d = .ok d := by rw [roundStatis, getItem_none hg]
  have hs := dumpDict_same hu
  simp only [saveBigDict, hr]
  split
  · rfl
  · split
    · split
      · exact hs
      · exact hs
    · exact hs
    · exact hs
    · exact hs

/-- **A failed save keeps the old file**, and whatever happens no file other than the target and the temporary one is touched. A value of an unknown type leaves no temporary file either. -/
theorem C85_old_file (single : D → D) (isDir : List Char → Bool) (file : List Char) (d : List (HKey × HObj D)) (s : H5Files D) :
    ((saveBigDict single isDir file d s).out ≠ .ok () → (saveBigDict single isDir file d s).files (withHkl file) = s (withHkl file)) ∧
      (∀ p, p ≠ withHkl file → p ≠ '_' :: withHkl file → (saveBigDict single isDir file d s).files p = s p) ∧
      ((saveBigDict single isDir file d s).out = .raise .noMatch → (saveBigDict single isDir file d s).files ('_' :: withHkl file) = none) := by
  have hne := under_ne (withHkl file)
  refine ⟨?_, ?_, ?_⟩
  · intro h
    revert h
    simp only [saveBigDict]
    repeat' split
    all_goals intro h
    all_goals first
      | rfl
      | exact absurd rfl h
      | exact Function.update_of_ne hne _ _
  · intro p h1 h2
    simp only [saveBigDict]
    repeat' split
    all_goals first
      | rfl
      | exact Function.update_of_ne h2 _ _
      | exact (Function.update_of_ne h1 _ _).trans (Function.update_of_ne h2 _ _)
  · have hr : roundStatis single d ≠ .raise .noMatch := by
      intro h
      simp only [roundStatis] at h
      split at h
      · cases h
      · split at h
        · simp only [toSingle] at h
          split at h
          · split at h
            · cases h
            · split at h <;> cases h
          · cases h
        · cases h
      · cases h
    intro h
    revert h
    simp only [saveBigDict]
    repeat' split
    all_goals intro h
    all_goals first
      | exact Function.update_self _ _ _
      | (cases h; done)
      | (rename_i hh; dsimp only at h; cases h; exact absurd hh hr)

/-- **Refuted: directories.** The temporary file is named by putting `_` in front of the whole path. A file in a directory can be saved only if there is also a directory with `_` in front; otherwise an exception is raised and
nothing is written. -/
theorem C85_refuted_directory (single : D → D) (isDir : List Char → Bool) (file : List Char) (d : List (HKey × HObj D)) (s : H5Files D)
    (hdir : isDir (dirPart ('_' :: withHkl file)) = false) :
    (saveBigDict single isDir file d s).out ≠ .ok () ∧ (saveBigDict single isDir file d s).files = s := by
  simp only [saveBigDict, hdir, if_true]
  repeat' split
  all_goals simp

/-- The workspace of `main.py` is a directory: its file of statistics is not saved although the directory exists. -/
example : (saveBigDict id (fun p => p = [] ∨ p = "../data/".toList) "../data/statis_total".toList ([(skey "Norm", .atom (.float 1))] : List (HKey × HObj ℚ)) fun _ => none).out = .raise .other := by
  decide +kernel

/-! ## What does not come back -/

/-- What is loaded from the file that is written for a dictionary. -/
def saveLoad (d : List (HKey × HObj D)) : HRes (List (HKey × HObj D)) := (dumpDict d).2.bind loadDict

/-- **Refuted: every key.** A value whose key begins with `_` is saved and is not there after loading; no exception tells. -/
theorem C85_refuted_underscore (v : HObj D) (hv : v.isDict = false) (hd : Dumpable v) : saveLoad [(skey "_Seed", v)] = .ok [] := by
  have h : Dumpable (.dict [(skey "_Seed", v)]) := by
    refine .dict _ (by simp [skey, HKey.text, plainName]) ?_ (by simpa using hd)
    simp only [allNames, List.flatMap_cons, List.flatMap_nil, names, hv, List.append_nil]
    decide
  obtain ⟨d', f, hf⟩ := dumpDict_of _ h
  rw [saveLoad, hf]
  simp only [HRes.bind]
  rw [(dumpDict_load _ _ _ hf).2]
  simp only [backItems, backPair_eq, hv, backDataset, List.append_nil]
  rfl

/-- **Refuted: keys keep their type.** A number as key comes back as text. -/
theorem C85_refuted_number_key (n : ℤ) (v : HObj D) (h : PlainObj v) (hn : plainName (HKey.int n).text = true) (hu : (HKey.int n).text.head? ≠ some '_') :
    ∃ w, SameValue v w ∧ saveLoad [(.int n, v)] = .ok [(.str (HKey.int n).text, w)] := by
  have hd : Dumpable (.dict [(.int n, v)]) := by
    refine .dict _ (by simpa using hn) ?_ (by simpa using plain_dumpable h)
    simp only [allNames, List.flatMap_cons, List.flatMap_nil, names, List.append_nil]
    split
    · simp
    · simp only [List.nodup_cons, List.mem_singleton, List.not_mem_nil, not_false_eq_true, List.nodup_nil, and_true]
      exact under_ne _
  obtain ⟨d', f, hf⟩ := dumpDict_of _ hd
  refine ⟨back v, plain_same h, ?_⟩
  rw [saveLoad, hf]
  simp only [HRes.bind]
  rw [(dumpDict_load _ _ _ hf).2]
  simp only [backItems, backPair_eq, backDataset, List.append_nil, hu, if_false]
  split <;> rfl

/-- One value with a plain key: what is loaded. -/
theorem saveLoad_one (k : HKey) (v : HObj D) (hk : PlainKey k) (hd : Dumpable v) : saveLoad [(k, v)] = .ok [(k, back v)] := by
  obtain ⟨h1, h2, h3⟩ := plainKey_text hk
  have hd : Dumpable (.dict [(k, v)]) := by
    refine .dict _ (by simpa using h1) ?_ (by simpa using hd)
    simp only [allNames, List.flatMap_cons, List.flatMap_nil, names, List.append_nil]
    split
    · simp
    · simp only [List.nodup_cons, List.mem_singleton, List.not_mem_nil, not_false_eq_true, List.nodup_nil, and_true]
      exact under_ne _
  obtain ⟨d', f, hf⟩ := dumpDict_of _ hd
  rw [saveLoad, hf]
  simp only [HRes.bind]
  rw [(dumpDict_load _ _ _ hf).2]
  simp only [backItems, backPair_eq, backDataset, List.append_nil, h2, h3, if_false]
  split <;> rfl

/-- **Refuted: tuples.** A tuple comes back as an array: code that uses it as a key or compares it with a tuple fails. -/
theorem C85_refuted_tuple (k : HKey) (hk : PlainKey k) (t : DType) (l : List (HAtom D)) (h : l ≠ []) (ht : ∀ x ∈ l, x.dtype = t) (hc : ∀ x ∈ l, x.Clean) :
    saveLoad [(k, .tuple (l.map .atom))] = .ok [(k, .array ⟨t, [l.length], l⟩)] := by
  have ha := asArray_atoms t l h ht
  rw [saveLoad_one k _ hk (.tuple _ _ ha (by simp) (by simpa using Ne.symm (mt List.length_eq_zero_iff.1 h)))]
  simp only [back, ha]
  rw [array_stored_clean (a := ⟨t, [l.length], l⟩) hc]

/-- **Refuted: nested lists.** A list of lists comes back as a list of arrays. -/
theorem C85_refuted_nested (k : HKey) (hk : PlainKey k) (a b c d : D) :
    saveLoad [(k, .list [.list [.atom (.float a), .atom (.float b)], .list [.atom (.float c), .atom (.float d)]])] =
      .ok [(k, .list [.array ⟨.float64, [2], [.float a, .float b]⟩, .array ⟨.float64, [2], [.float c, .float d]⟩])] := by
  have ha : (HObj.list [.list [.atom (.float a), .atom (.float b)], .list [.atom (.float c), .atom (.float d)]]).asArray = .ok ⟨.float64, [2, 2], [.float a, .float b, .float c, .float d]⟩ := by
    rfl
  rw [saveLoad_one k _ hk (.list _ _ ha (by simp) (by simp))]
  simp only [back, ha]
  rfl

/-- **Refuted: complex and large numbers.** A dictionary with a complex number or an integer of the type `long` of Python, or an object that is none of the known types, is refused. -/
theorem C85_refuted_kinds (d : List (HKey × HObj D)) (p : HKey × HObj D) (hp : p ∈ d)
    (h : (∃ re im, p.2 = .atom (.cplx re im)) ∨ (∃ n, p.2 = .long n) ∨ p.2 = .other) : ∀ f, (dumpDict d).2 ≠ .ok f := by
  intro f hf
  have hd := (C85_accepts d).1.1 ⟨f, hf⟩
  generalize hv : p.2 = v at h
  have hpd : Dumpable v := by
    cases hd with
    | dict _ _ _ hd => rw [← hv]; exact hd p hp
  rcases h with ⟨re, im, rfl⟩ | ⟨n, rfl⟩ | rfl
  · cases hpd with | atom _ h => exact h re im rfl
  · cases hpd
  · cases hpd

/-- **Refuted: two keys.** A dictionary with the keys `k` and `_k` is refused: the second is the name for the type of the first. -/
theorem C85_refuted_clash (d : List (HKey × HObj D)) (k : List Char) (v w : HObj D) (hv : v.isDict = false) (h : (.str k, v) ∈ d) (h' : (.str ('_' :: k), w) ∈ d) :
    ∀ f, (dumpDict d).2 ≠ .ok f := by
  intro f hf
  have hd := (C85_accepts d).1.1 ⟨f, hf⟩
  cases hd with
  | dict _ _ hn _ =>
    obtain ⟨a, b, rfl⟩ := List.append_of_mem h
    have h1 : '_' :: k ∈ names ((.str k, v) : HKey × HObj D) := by simp [names, hv, HKey.text]
    have h2 : '_' :: k ∈ names ((.str ('_' :: k), w) : HKey × HObj D) := by
      unfold names
      split <;> simp [HKey.text]
    have hne : ((.str ('_' :: k), w) : HKey × HObj D) ≠ (.str k, v) := by
      intro hc
      simp only [Prod.mk.injEq, HKey.str.injEq] at hc
      exact under_ne k hc.1.symm
    rw [allNames, List.flatMap_append, List.flatMap_cons, List.nodup_append, List.nodup_append] at hn
    obtain ⟨-, ⟨-, -, hn2⟩, hn3⟩ := hn
    rcases List.mem_append.1 h' with h' | h'
    · exact hn3 _ (List.mem_flatMap.2 ⟨_, h', h2⟩) _ (List.mem_append_left _ h1) rfl
    · rcases List.mem_cons.1 h' with h' | h'
      · exact hne h'
      · exact hn2 _ h1 _ (List.mem_flatMap.2 ⟨_, h', h2⟩) rfl

/-- These three give `NoMatchError` and the clash another exception, shown where nothing else is in the dictionary. -/
theorem C85_refuted_raise (k : List Char) (hk : PlainKey (.str k)) (v : HObj D) :
    ((∃ re im, v = .atom (.cplx re im)) ∨ (∃ n, v = .long n) ∨ v = .other → (dumpDict [(.str k, v)]).2 = .raise .noMatch) ∧
      (∀ b b' : ℤ, (dumpDict ([(.str k, .atom (.int b)), (.str ('_' :: k), .atom (.int b'))] : List (HKey × HObj D))).2 = .raise .other) := by
  constructor
  · rintro (⟨re, im, rfl⟩ | ⟨n, rfl⟩ | rfl) <;> simp [dumpDict, dumpItems, dumpItem, dumpValue, HAtom.tag, HRes.bind]
  · intro b b'
    obtain ⟨h1, h2, h3⟩ := plainKey_text hk
    have h1 : plainName k = true := h1
    have hn : H5Group.find ([] : H5Group D) k = none := rfl
    have e1 : dataThenTag ([] : H5Group D) k (oneArray (.int b)) true "int" = .ok [(k, .dataset (oneArray (.int b)).stored), ('_' :: k, .dataset (tagArray "int"))] :=
      (dataThenTag_iff [] _ k _ true "int" (by decide)).2 ⟨h1, by simp, by simp, fun _ => oneArray_shape _, rfl⟩
    simp only [dumpDict, dumpItems, dumpItem, dumpValue, HAtom.tag, HKey.text, e1]
    simp [dataThenTag, createDataset, plainName_under h1, H5Group.find, HRes.bind]

/-- **Refuted: text.** Zero bytes at the end of a text are lost. -/
theorem C85_refuted_zero (k : HKey) (hk : PlainKey k) (s : List Byte) : saveLoad [(k, .atom (.str (s ++ [0])))] = (saveLoad [(k, .atom (.str s))] : HRes (List (HKey × HObj D))) := by
  rw [saveLoad_one k _ hk (.atom _ (by simp)), saveLoad_one k _ hk (.atom _ (by simp))]
  simp only [back, HAtom.stored, stripNul]
  rw [List.rdropWhile_concat_pos _ _ _ (by simp)]

/-- **Refuted: the caller's dictionary.** A `unicode` value is replaced by a `str` there. -/
theorem C85_refuted_unicode (single : D → D) (isDir : List Char → Bool) (s : List Char) (h : ∀ c ∈ s, c.toNat < 128) (fs : H5Files D) (hdir : isDir [] = true) :
    (saveBigDict single isDir "weight".toList [(skey "Name", .unicode s)] fs).dict = [(skey "Name", .atom (.str (s.map fun c => Fin.ofNat 256 c.toNat)))] := by
  have h1 : (dumpDict ([(skey "Name", .unicode s)] : List (HKey × HObj D))).1 = [(skey "Name", .atom (.str (s.map fun c => Fin.ofNat 256 c.toNat)))] := by
    simp only [dumpDict, dumpItems, dumpItem, dumpValue, encodeAscii_some h]
    split <;> rfl
  have h2 : dirPart ('_' :: withHkl "weight".toList) = [] := by decide
  simp only [saveBigDict, h2, hdir]
  have hr : roundStatis single ([(skey "Name", .unicode s)] : List (HKey × HObj D)) = .ok [(skey "Name", .unicode s)] := by
    rw [roundStatis, getItem_none (by simp only [List.map_cons, List.map_nil]; decide)]
  simp only [hr]
  repeat' split
  all_goals first
    | exact h1
    | contradiction

/-! ## Examples -/

/-- A small file of weights: a number, a text, a list and an array inside a dictionary. -/
def demoFile : List (HKey × HObj ℚ) :=
  [(skey "Version", .atom (.int 3)), (skey "Model", .atom (.str (bytesOf "J1J2"))), (skey "Order", .list [.atom (.int 1), .atom (.int 4)]),
    (skey "G", .dict [(skey "SmoothT", .array ⟨.complex128, [1, 2], [.cplx 1 0, .cplx (1 / 3) (-2)]⟩)])]

theorem demoFile_plain : PlainObj (.dict demoFile) := by
  have hk : ∀ s : String, s.toList ≠ [] → s.toList ≠ ['.'] → '/' ∉ s.toList → Char.ofNat 0 ∉ s.toList → s.toList.head? ≠ some '_' → PlainKey (skey s) :=
    fun s h1 h2 h3 h4 h5 => ⟨s.toList, rfl, h1, h2, h3, h4, h5⟩
  refine .dict _ ?_ (by decide) ?_
  · simp only [demoFile, List.mem_cons, List.not_mem_nil, or_false, forall_eq_or_imp, forall_eq]
    refine ⟨?_, ?_, ?_, ?_⟩ <;> exact hk _ (by decide) (by decide) (by decide) (by decide) (by decide)
  · simp only [demoFile, List.mem_cons, List.not_mem_nil, or_false, forall_eq_or_imp, forall_eq]
    refine ⟨.int 3, .str _ (by decide), .list .int64 [.int 1, .int 4] (by simp) (by simp [HAtom.dtype]) (by simp [HAtom.Clean]), ?_⟩
    refine .dict _ ?_ (by simp) ?_
    · simp only [List.mem_cons, List.not_mem_nil, or_false, forall_eq]
      exact hk _ (by decide) (by decide) (by decide) (by decide) (by decide)
    · simp only [List.mem_cons, List.not_mem_nil, or_false, forall_eq]
      exact .array _ (by simp) (by simp) (by simp [HAtom.Clean])

/-- The file of weights comes back. -/
example : ∃ d' s' e, saveBigDict id (fun p => p = []) "weight".toList demoFile (fun _ => none) = ⟨d', s', .ok ()⟩ ∧ loadBigDict "weight".toList s' = .ok e ∧
    SameValue (.dict demoFile) (.dict e) ∧ s' "weight.hkl".toList ≠ none := by
  obtain ⟨d', s', e, h1, h2, h3, -, -⟩ := C85_roundtrip_partial id (fun p => p = []) "weight".toList demoFile (fun _ => none) (by decide) (by simp) demoFile_plain (by decide) (by decide)
  refine ⟨d', s', e, h1, h2, h3, fun h => ?_⟩
  rw [loadBigDict, show withHkl "weight".toList = "weight.hkl".toList from by decide, h] at h2
  cases h2

/-- The names `Norm` and `_Norm` clash. -/
example : ∀ f, (dumpDict ([(skey "Norm", .atom (.int 1)), (skey "_Norm", .atom (.int 2))] : List (HKey × HObj ℚ))).2 ≠ .ok f :=
  C85_refuted_clash _ "Norm".toList (.atom (.int 1)) (.atom (.int 2)) rfl (by simp [skey]) (by simp [skey])

/-- A dictionary with a tuple and an underscore key: lost the first time, stable afterwards. -/
example : ∃ f e f', (dumpDict ([(skey "L", .tuple [.atom (.int 4), .atom (.int 4)]), (skey "_Seed", .atom (.int 7))] : List (HKey × HObj ℚ))).2 = .ok f ∧ loadDict f = .ok e ∧
    (dumpDict e).2 = .ok f' ∧ loadDict f' = .ok e ∧ e.map Prod.fst = [skey "L"] := by
  have hd : Dumpable (.dict ([(skey "L", .tuple [.atom (.int 4), .atom (.int 4)]), (skey "_Seed", .atom (.int 7))] : List (HKey × HObj ℚ))) := by
    refine .dict _ (by simp [skey, HKey.text, plainName]) (by decide +kernel) ?_
    simp only [List.mem_cons, List.not_mem_nil, or_false, forall_eq_or_imp, forall_eq]
    exact ⟨.tuple _ ⟨.int64, [2], [.int 4, .int 4]⟩ rfl (by simp) (by simp), .atom _ (by simp)⟩
  obtain ⟨f, hf⟩ := (C85_accepts _).1.2 hd
  obtain ⟨e, he⟩ := (C85_accepts _).2 f hf
  obtain ⟨f', h1, h2⟩ := C85_stable _ e f (.dict _ (by
    simp only [List.mem_cons, List.not_mem_nil, or_false, forall_eq_or_imp, forall_eq]
    exact ⟨.tuple _ (by simp only [List.mem_cons, List.not_mem_nil, or_false, forall_eq_or_imp, forall_eq]; exact ⟨.atom _, .atom _⟩), .atom _⟩)) hf he
  exact ⟨f, e, f', hf, he, h1, h2, by rw [C85_keys _ e f hf he]; decide +kernel⟩

/-- A file of statistics; the only number that is rounded here is `7 / 2`. -/
example : ∃ d' s' e, saveBigDict (fun x => if x = 7 / 2 then 3 else x) (fun p => p = []) "statis".toList
      ([(skey "GammaWStatis", .dict [(skey "WeightAccu", .array ⟨.complex128, [1], [.cplx (7 / 2) 0]⟩)])] : List (HKey × HObj ℚ)) (fun _ => none) = ⟨d', s', .ok ()⟩ ∧
    loadBigDict "statis".toList s' = .ok e ∧ SameValue (.dict [(skey "GammaWStatis", .dict [(skey "WeightAccu", .array ⟨.complex64, [1], [.cplx 3 0]⟩)])]) (.dict e) := by
  have hk : ∀ s : String, s.toList ≠ [] → s.toList ≠ ['.'] → '/' ∉ s.toList → Char.ofNat 0 ∉ s.toList → s.toList.head? ≠ some '_' → PlainKey (skey s) :=
    fun s h1 h2 h3 h4 h5 => ⟨s.toList, rfl, h1, h2, h3, h4, h5⟩
  have hp : PlainObj (.dict ([(skey "GammaWStatis", .dict [(skey "WeightAccu", .array ⟨.complex128, [1], [.cplx (7 / 2) 0]⟩)])] : List (HKey × HObj ℚ))) := by
    refine .dict _ ?_ (by simp) ?_
    · simp only [List.mem_cons, List.not_mem_nil, or_false, forall_eq]
      exact hk _ (by decide) (by decide) (by decide) (by decide) (by decide)
    · simp only [List.mem_cons, List.not_mem_nil, or_false, forall_eq]
      refine .dict _ ?_ (by simp) ?_
      · simp only [List.mem_cons, List.not_mem_nil, or_false, forall_eq]
        exact hk _ (by decide) (by decide) (by decide) (by decide) (by decide)
      · simp only [List.mem_cons, List.not_mem_nil, or_false, forall_eq]
        exact .array _ (by simp) (by simp) (by simp [HAtom.Clean])
  obtain ⟨d', s', e, h1, h2, h3, -⟩ := C85_statistics (fun x => if x = 7 / 2 then 3 else x) (fun p => p = []) "statis".toList _ _ _ (fun _ => none) (by decide) (by simp) hp rfl rfl rfl (by decide)
  refine ⟨d', s', e, h1, h2, ?_⟩
  have h7 : (0 : ℚ) ≠ 7 / 2 := by decide +kernel
  simpa [setItem, roundArray, roundNumber, h7] using h3

/-- The item `7` is loaded as `"7"`. -/
example : ∃ f e, (dumpDict ([(.int 7, .dict [(skey "L", .atom (.int 4))])] : List (HKey × HObj ℚ))).2 = .ok f ∧ loadDict f = .ok e ∧ e.map Prod.fst = [.str ['7']] := by
  have hd : Dumpable (.dict ([(.int 7, .dict [(skey "L", .atom (.int 4))])] : List (HKey × HObj ℚ))) := by
    refine .dict _ (by decide +kernel) (by decide +kernel) ?_
    simp only [List.mem_cons, List.not_mem_nil, or_false, forall_eq]
    refine .dict _ (by decide +kernel) (by decide +kernel) ?_
    simp only [List.mem_cons, List.not_mem_nil, or_false, forall_eq]
    exact .atom _ (by simp)
  obtain ⟨f, hf⟩ := (C85_accepts _).1.2 hd
  obtain ⟨e, he⟩ := (C85_accepts _).2 f hf
  exact ⟨f, e, hf, he, by rw [C85_number_key 7 _ e f hf he]; decide +kernel⟩

/-- Statistics without the sums. -/
example (s : H5Files ℚ) : saveBigDict id (fun p => p = []) "statis".toList [(skey "GammaWStatis", .dict [(skey "Norm", .atom (.int 4))])] s =
    ⟨[(skey "GammaWStatis", .dict [(skey "Norm", .atom (.int 4))])], s, .raise .other⟩ :=
  C85_incomplete _ _ _ _ _ s rfl (by decide)

end Feyn
