import Verif.Spec.Hickle

/-!
# Data files: what a saved dictionary looks like when it is loaded
-/

namespace Feyn

set_option linter.unusedSectionVars false

variable {D : Type}

@[simp] theorem HRes.ok_bind {α β : Type} (a : α) (f : α → HRes β) : (HRes.ok a).bind f = f a := rfl
@[simp] theorem HRes.raise_bind {α β : Type} (e : HErr) (f : α → HRes β) : (HRes.raise e).bind f = .raise e := rfl
@[simp] theorem HRes.outside_bind {α β : Type} (f : α → HRes β) : (HRes.outside).bind f = .outside := rfl

theorem HRes.bind_eq_ok {α β : Type} {x : HRes α} {f : α → HRes β} {b : β} (h : x.bind f = .ok b) : ∃ a, x = .ok a ∧ f a = .ok b := by
  cases x with
  | ok a => exact ⟨a, rfl, h⟩
  | raise e => cases h
  | outside => cases h

/-! ## Names -/

theorem find_append (g es : H5Group D) (n : List Char) : H5Group.find (g ++ es) n = (H5Group.find g n).or (H5Group.find es n) := by
  induction g with
  | nil => rfl
  | cons p g ih =>
    obtain ⟨m, x⟩ := p
    simp only [List.cons_append, H5Group.find]
    split
    · rfl
    · exact ih

theorem find_isSome (g : H5Group D) (n : List Char) : (H5Group.find g n).isSome ↔ n ∈ g.map Prod.fst := by
  induction g with
  | nil => simp [H5Group.find]
  | cons p g ih =>
    obtain ⟨m, x⟩ := p
    simp only [H5Group.find, List.map_cons, List.mem_cons]
    split
    · rename_i h
      simp [h]
    · rename_i h
      rw [ih]
      constructor
      · exact Or.inr
      · rintro (h' | h')
        · exact absurd h'.symm h
        · exact h'

theorem find_of_mem (g : H5Group D) (hn : (g.map Prod.fst).Nodup) (n : List Char) (x : H5 D) (h : (n, x) ∈ g) : H5Group.find g n = some x := by
  induction g with
  | nil => cases h
  | cons p g ih =>
    obtain ⟨m, y⟩ := p
    rw [List.map_cons, List.nodup_cons] at hn
    simp only [H5Group.find]
    rcases List.mem_cons.1 h with h | h
    · simp [(Prod.mk.inj h).1, (Prod.mk.inj h).2]
    · rw [if_neg, ih hn.2 h]
      rintro rfl
      exact hn.1 (List.mem_map.2 ⟨_, h, rfl⟩)

theorem plainName_iff (n : List Char) : plainName n = true ↔ n ≠ [] ∧ n ≠ ['.'] ∧ '/' ∉ n ∧ Char.ofNat 0 ∉ n := by
  simp [plainName, and_assoc]

theorem plainName_under {n : List Char} (h : plainName n = true) : plainName ('_' :: n) = true := by
  rw [plainName_iff] at h ⊢
  refine ⟨by simp, by simp, ?_, ?_⟩
  · simp only [List.mem_cons, not_or]
    exact ⟨by decide, h.2.2.1⟩
  · simp only [List.mem_cons, not_or]
    exact ⟨by decide, h.2.2.2⟩

/-- Success of `create_dataset`. -/
theorem createDataset_iff (g g' : H5Group D) (n : List Char) (a : NdArray D) (z : Bool) :
    createDataset g n a z = .ok g' ↔ plainName n = true ∧ n ∉ g.map Prod.fst ∧ (z = true → a.shape ≠ [] ∧ 0 ∉ a.shape) ∧ g' = g ++ [(n, .dataset a.stored)] := by
  unfold createDataset
  rw [← find_isSome]
  cases plainName n with
  | false => simp
  | true =>
    cases hf : (H5Group.find g n).isSome with
    | true => simp
    | false =>
      cases z with
      | false => simp [eq_comm]
      | true =>
        cases hs : a.shape with
        | nil => simp
        | cons m s =>
          by_cases h0 : 0 ∈ m :: s
          · simp [h0]
          · simp [h0, eq_comm]

theorem tagArray_stored (t : String) (h : (bytesOf t).getLast? ≠ some 0) : (tagArray t : NdArray D).stored = tagArray t := by
  have : stripNul (bytesOf t) = bytesOf t := by
    rw [stripNul, List.rdropWhile_eq_self_iff]
    intro hl hp
    rw [List.getLast?_eq_some_getLast hl] at h
    exact h (by simpa using hp)
  simp [tagArray, NdArray.stored, HAtom.stored, this]

/-- Success of writing data and tag, in either order: the two new members. -/
theorem dataThenTag_iff (g g' : H5Group D) (n : List Char) (a : NdArray D) (z : Bool) (t : String) (ht : (bytesOf t).getLast? ≠ some 0) :
    dataThenTag g n a z t = .ok g' ↔ plainName n = true ∧ n ∉ g.map Prod.fst ∧ '_' :: n ∉ g.map Prod.fst ∧ (z = true → a.shape ≠ [] ∧ 0 ∉ a.shape) ∧
      g' = g ++ [(n, .dataset a.stored), ('_' :: n, .dataset (tagArray t))] := by
  constructor
  · intro h
    obtain ⟨g1, h1, h2⟩ := HRes.bind_eq_ok h
    rw [createDataset_iff] at h1 h2
    obtain ⟨p1, n1, s1, rfl⟩ := h1
    obtain ⟨p2, n2, -, rfl⟩ := h2
    refine ⟨p1, n1, fun hm => n2 ?_, s1, ?_⟩
    · rw [List.map_append]
      exact List.mem_append_left _ hm
    · rw [tagArray_stored t ht, List.append_assoc]
      rfl
  · rintro ⟨p1, n1, n2, s1, rfl⟩
    rw [dataThenTag, (createDataset_iff g _ n a z).2 ⟨p1, n1, s1, rfl⟩, HRes.ok_bind, createDataset_iff]
    refine ⟨plainName_under p1, ?_, by simp, ?_⟩
    · simpa using n2
    · rw [tagArray_stored t ht, List.append_assoc]
      rfl

theorem tagThenData_iff (g g' : H5Group D) (n : List Char) (a : NdArray D) (t : String) (ht : (bytesOf t).getLast? ≠ some 0) :
    tagThenData g n a t = .ok g' ↔ plainName n = true ∧ n ∉ g.map Prod.fst ∧ '_' :: n ∉ g.map Prod.fst ∧ (a.shape ≠ [] ∧ 0 ∉ a.shape) ∧
      g' = g ++ [('_' :: n, .dataset (tagArray t)), (n, .dataset a.stored)] := by
  constructor
  · intro h
    obtain ⟨g1, h1, h2⟩ := HRes.bind_eq_ok h
    rw [createDataset_iff] at h1 h2
    obtain ⟨p1, n1, s1, rfl⟩ := h1
    obtain ⟨p2, n2, s2, rfl⟩ := h2
    refine ⟨p2, fun hm => n2 ?_, n1, s2 rfl, ?_⟩
    · rw [List.map_append]
      exact List.mem_append_left _ hm
    · rw [tagArray_stored t ht, List.append_assoc]
      rfl
  · rintro ⟨p1, n1, n2, s1, rfl⟩
    rw [tagThenData, (createDataset_iff g _ ('_' :: n) _ false).2 ⟨plainName_under p1, n2, by simp, rfl⟩, HRes.ok_bind, createDataset_iff]
    refine ⟨p1, ?_, fun _ => s1, ?_⟩
    · simpa using n1
    · rw [tagArray_stored t ht, List.append_assoc]
      rfl

/-! ## Reading the members back -/

theorem loadItems_append (G a b : H5Group D) : loadItems G (a ++ b) = (loadItems G a).bind fun x => (loadItems G b).bind fun y => .ok (x ++ y) := by
  induction a with
  | nil =>
    simp only [List.nil_append, loadItems, HRes.ok_bind]
    cases loadItems G b <;> rfl
  | cons p a ih =>
    simp only [List.cons_append, loadItems]
    rw [ih]
    cases loadPair G p with
    | ok x =>
      cases loadItems G a with
      | ok y =>
        cases loadItems G b with
        | ok z => simp
        | raise e => rfl
        | outside => rfl
      | raise e => rfl
      | outside => rfl
    | raise e => rfl
    | outside => rfl

theorem loadPair_tag (G : H5Group D) (n : List Char) (a : NdArray D) : loadPair G ('_' :: n, .dataset a) = .ok [] := by
  simp [loadPair, loadMember]

theorem loadPair_data (G : H5Group D) (n : List Char) (a : NdArray D) (t : String) (hn : n.head? ≠ some '_') (hG : H5Group.find G ('_' :: n) = some (.dataset (tagArray t))) (v : HObj D)
    (hv : loadValue a (bytesOf t) = .ok v) : loadPair G (n, .dataset a) = .ok [(.str n, v)] := by
  have : (tagArray t : NdArray D).firstText = some (bytesOf t) := rfl
  simp [loadPair, loadMember, hn, hG, this, hv]

theorem loadPair_hidden (G : H5Group D) (n : List Char) (a : NdArray D) (hn : n.head? = some '_') : loadPair G (n, .dataset a) = .ok [] := by
  simp [loadPair, loadMember, hn]

/-- What a tag and data are read as, if the name does not begin with `_`. -/
def backDataset (n : List Char) (v : HObj D) : List (HKey × HObj D) := if n.head? = some '_' then [] else [(.str n, v)]

theorem load_block (G : H5Group D) (n : List Char) (a : NdArray D) (t : String) (v : HObj D) (hv : loadValue a (bytesOf t) = .ok v)
    (hG : H5Group.find G ('_' :: n) = some (.dataset (tagArray t))) :
    loadItems G [(n, .dataset a), ('_' :: n, .dataset (tagArray t))] = .ok (backDataset n v) ∧
      loadItems G [('_' :: n, .dataset (tagArray t)), (n, .dataset a)] = .ok (backDataset n v) := by
  by_cases hn : n.head? = some '_'
  · simp [loadItems, loadPair_tag, loadPair_hidden G n a hn, backDataset, hn]
  · simp [loadItems, loadPair_tag, loadPair_data G n a t hn hG v hv, backDataset, hn]

/-! ## The loaded values -/

mutual

/-- What is loaded for a value that was saved. -/
def back : HObj D → HObj D
  | .atom a => .atom a.stored
  | .unicode s => match encodeAscii s with
    | some b => .unicode ((stripNul b).map fun b => Char.ofNat b.val)
    | none => .other
  | .scalar t a => .scalar t a.stored
  | .array a => .array a.stored
  | .list l => match (HObj.list l).asArray with
    | .ok a => .list a.stored.items
    | _ => .other
  | .tuple l => match (HObj.list l).asArray with
    | .ok a => .array a.stored
    | _ => .other
  | .set l => match (HObj.list l).asArray with
    | .ok a => .array a.stored
    | _ => .other
  | .dict d => .dict (backItems d)
  | .long n => .long n
  | .other => .other
termination_by structural x => x

/-- The same for an item. -/
def backPair : HKey × HObj D → List (HKey × HObj D)
  | (k, v) => if v.isDict then [(.str k.text, back v)] else backDataset k.text (back v)
termination_by structural x => x

/-- The same for the items of a dictionary. -/
def backItems : List (HKey × HObj D) → List (HKey × HObj D)
  | [] => []
  | p :: l => backPair p ++ backItems l
termination_by structural x => x

end

theorem tag_of {a : HAtom D} (h : ∀ re im, a ≠ .cplx re im) : ∃ t, a.tag = some t := by
  cases a with
  | cplx re im => exact absurd rfl (h re im)
  | _ => exact ⟨_, rfl⟩

theorem not_cplx {a : HAtom D} {t : String} (h : a.tag = some t) : ∀ re im, a ≠ .cplx re im := by
  rintro re im rfl
  cases h

theorem asArray_tuple (l : List (HObj D)) : (HObj.tuple l).asArray = (HObj.list l).asArray := by
  simp [HObj.asArray]

/-- The members that the item with the value `v` adds to a group. -/
structure AddsItem (n : List Char) (v : HObj D) (g g' es : H5Group D) : Prop where
  eq : g' = g ++ es
  names : (es.map Prod.fst).Perm (names (.str n, v))
  load : ∀ G : H5Group D, (∀ p ∈ es, H5Group.find G p.1 = some p.2) → loadItems G es = .ok (backPair (.str n, v))

theorem adds_block (n : List Char) (v : HObj D) (g : H5Group D) (a : NdArray D) (t : String) (hd : v.isDict = false) (hv : loadValue a (bytesOf t) = .ok (back v)) :
    AddsItem n v g (g ++ [(n, .dataset a), ('_' :: n, .dataset (tagArray t))]) [(n, .dataset a), ('_' :: n, .dataset (tagArray t))] ∧
      AddsItem n v g (g ++ [('_' :: n, .dataset (tagArray t)), (n, .dataset a)]) [('_' :: n, .dataset (tagArray t)), (n, .dataset a)] := by
  refine ⟨⟨rfl, by simp [Feyn.names, hd, HKey.text], fun G hG => ?_⟩, ⟨rfl, ?_, fun G hG => ?_⟩⟩
  · rw [(load_block G n a t (back v) hv (hG ('_' :: n, .dataset (tagArray t)) (by simp))).1]
    simp [backPair, hd, HKey.text]
  · simp only [Feyn.names, hd, HKey.text]
    exact List.Perm.swap ..
  · rw [(load_block G n a t (back v) hv (hG ('_' :: n, .dataset (tagArray t)) (by simp))).2]
    simp [backPair, hd, HKey.text]

/-! ## Values of the tags -/

theorem stripNul_subset (s : List Byte) : ∀ b ∈ stripNul s, b ∈ s := fun _ hb => (List.rdropWhile_prefix _ s).subset hb

theorem encodeAscii_some {s : List Char} (h : ∀ c ∈ s, c.toNat < 128) : encodeAscii s = some (s.map fun c => Fin.ofNat 256 c.toNat) := by
  rw [encodeAscii, if_pos]
  simpa using h

theorem encodeAscii_spec {s : List Char} {b : List Byte} (h : encodeAscii s = some b) :
    (∀ c ∈ s, c.toNat < 128) ∧ b = s.map (fun c => Fin.ofNat 256 c.toNat) ∧ ∀ x ∈ b, x.val < 128 := by
  unfold encodeAscii at h
  split at h
  · rename_i hs
    have hs' : ∀ c ∈ s, c.toNat < 128 := by simpa using hs
    have hb := (Option.some.inj h).symm
    refine ⟨hs', hb, fun x hx => ?_⟩
    rw [hb] at hx
    obtain ⟨c, hc, rfl⟩ := List.mem_map.1 hx
    have := hs' c hc
    simp only [Fin.ofNat]
    omega
  · cases h

theorem loadValue_unicode (b : List Byte) (hb : ∀ x ∈ b, x.val < 128) :
    loadValue (oneArray (.str b) : NdArray D).stored (bytesOf "unicode") = .ok (.unicode ((stripNul b).map fun b => Char.ofNat b.val)) := by
  have : loadValue (oneArray (.str b) : NdArray D).stored (bytesOf "unicode") = decodeAscii (stripNul b) := rfl
  rw [this, decodeAscii, if_pos]
  simpa using fun x hx => hb x (stripNul_subset b x hx)

theorem loadValue_atom (a : HAtom D) (t : String) (h : a.tag = some t) : loadValue (oneArray a).stored (bytesOf t) = .ok (.atom a.stored) ∧ (bytesOf t).getLast? ≠ some 0 := by
  cases a with
  | bool b => cases h; exact ⟨rfl, by decide⟩
  | int n => cases h; exact ⟨rfl, by decide⟩
  | float x => cases h; exact ⟨rfl, by decide⟩
  | str s => cases h; exact ⟨rfl, by decide⟩
  | cplx x y => cases h

theorem oneArray_shape (a : HAtom D) : (oneArray a).shape ≠ [] ∧ 0 ∉ (oneArray a).shape := by simp [oneArray]

/-! ## Saving -/

/-- Conclusion for a value. -/
def ValueOk (v : HObj D) : Prop :=
  ∀ (n : List Char) (g : H5Group D) (v' : HObj D) (g' : H5Group D), dumpValue n v g = (v', .ok g') →
    plainName n = true ∧ Dumpable v ∧ (∀ m ∈ names (.str n, v), m ∉ g.map Prod.fst) ∧ ∃ es, AddsItem n v g g' es

/-- Conclusion for the items of a dictionary. -/
def ItemsOk (l : List (HKey × HObj D)) : Prop :=
  ∀ (g : H5Group D) (l' : List (HKey × HObj D)) (g' : H5Group D), dumpItems l g = (l', .ok g') →
    (∀ p ∈ l, plainName p.1.text = true) ∧ (∀ p ∈ l, Dumpable p.2) ∧ (allNames l).Nodup ∧ (∀ m ∈ allNames l, m ∉ g.map Prod.fst) ∧
      ∃ es, g' = g ++ es ∧ (es.map Prod.fst).Perm (allNames l) ∧ ∀ G : H5Group D, (∀ p ∈ es, H5Group.find G p.1 = some p.2) → loadItems G es = .ok (backItems l)

theorem names_leaf (n : List Char) (v : HObj D) (hd : v.isDict = false) (g : H5Group D) (h1 : n ∉ g.map Prod.fst) (h2 : '_' :: n ∉ g.map Prod.fst) :
    ∀ m ∈ names (.str n, v), m ∉ g.map Prod.fst := by
  intro m hm
  simp only [names, hd, HKey.text] at hm
  simp only [Bool.false_eq_true, if_false, List.mem_cons, List.not_mem_nil, or_false] at hm
  rcases hm with rfl | rfl
  · exact h1
  · exact h2

theorem leafOk {v : HObj D} {n : List Char} {g g' : H5Group D} {a : NdArray D} {z : Bool} {t : String} (hd : v.isDict = false) (ht : (bytesOf t).getLast? ≠ some 0)
    (hl : loadValue a.stored (bytesOf t) = .ok (back v)) (hdump : (z = true → a.shape ≠ [] ∧ 0 ∉ a.shape) → Dumpable v)
    (h : dataThenTag g n a z t = .ok g') : plainName n = true ∧ Dumpable v ∧ (∀ m ∈ names (.str n, v), m ∉ g.map Prod.fst) ∧ ∃ es, AddsItem n v g g' es := by
  obtain ⟨h1, h2, h3, h4, rfl⟩ := (dataThenTag_iff g g' n a z t ht).1 h
  exact ⟨h1, hdump h4, names_leaf n v hd g h2 h3, _, (adds_block n v g a.stored t hd hl).1⟩

theorem dumpItem_eq (p : HKey × HObj D) (g : H5Group D) : dumpItem p g = ((p.1, (dumpValue p.1.text p.2 g).1), (dumpValue p.1.text p.2 g).2) := by
  obtain ⟨k, v⟩ := p
  simp [dumpItem]

theorem backPair_eq (p : HKey × HObj D) : backPair p = if p.2.isDict then [(.str p.1.text, back p.2)] else backDataset p.1.text (back p.2) := by
  obtain ⟨k, v⟩ := p
  simp [backPair]

theorem backPair_text (p : HKey × HObj D) : backPair (.str p.1.text, p.2) = backPair p := by
  rw [backPair_eq, backPair_eq]
  rfl

mutual

theorem valueOk : (v : HObj D) → ValueOk v
  | .atom a => by
    intro n g v' g' h
    simp only [dumpValue, Prod.mk.injEq] at h
    obtain ⟨-, h⟩ := h
    split at h
    · rename_i t ht
      obtain ⟨hl, hb⟩ := loadValue_atom a t ht
      exact leafOk rfl hb (by simpa [back] using hl) (fun _ => .atom a (not_cplx ht)) h
    · cases h
  | .unicode s => by
    intro n g v' g' h
    simp only [dumpValue] at h
    split at h
    · rename_i b hb
      obtain ⟨h1, h2, h3⟩ := encodeAscii_spec hb
      refine leafOk rfl (by decide) ?_ (fun _ => .unicode s h1) (Prod.mk.inj h).2
      rw [loadValue_unicode b h3]
      simp [back, hb]
    · cases (Prod.mk.inj h).2
  | .array a => by
    intro n g v' g' h
    simp only [dumpValue, Prod.mk.injEq] at h
    obtain ⟨h1, h2, h3, h4, rfl⟩ := (tagThenData_iff g g' n a "ndarray" (by decide)).1 h.2
    exact ⟨h1, .array a h4.1 h4.2, names_leaf n _ rfl g h2 h3, _, (adds_block n (.array a) g a.stored "ndarray" rfl (by simp only [back]; rfl)).2⟩
  | .list l => by
    intro n g v' g' h
    simp only [dumpValue, Prod.mk.injEq] at h
    obtain ⟨a, ha, h⟩ := HRes.bind_eq_ok h.2
    exact leafOk rfl (by decide) (by simp only [back, ha]; rfl) (fun hs => .list l a ha (hs rfl).1 (hs rfl).2) h
  | .tuple l => by
    intro n g v' g' h
    simp only [dumpValue, Prod.mk.injEq, asArray_tuple] at h
    obtain ⟨a, ha, h⟩ := HRes.bind_eq_ok h.2
    exact leafOk rfl (by decide) (by simp only [back, ha]; rfl) (fun hs => .tuple l a ha (hs rfl).1 (hs rfl).2) h
  | .set l => by
    intro n g v' g' h
    simp only [dumpValue, Prod.mk.injEq] at h
    obtain ⟨a, ha, h⟩ := HRes.bind_eq_ok h.2
    exact leafOk rfl (by decide) (by simp only [back, ha]; rfl) (fun hs => .set l a ha (hs rfl).1 (hs rfl).2) h
  | .scalar t a => by
    intro n g v' g' h
    simp only [dumpValue, Prod.mk.injEq] at h
    obtain ⟨-, h⟩ := h
    split at h
    · cases h
    · rename_i ht
      exact leafOk rfl (by decide) (by simp only [back]; rfl) (fun _ => .scalar t a ht) h
  | .long n => by
    intro n g v' g' h
    simp [dumpValue] at h
  | .other => by
    intro n g v' g' h
    simp [dumpValue] at h
  | .dict d => by
    intro n g v' g' h
    simp only [dumpValue] at h
    split at h
    · cases (Prod.mk.inj h).2
    · rename_i hp
      split at h
      · cases (Prod.mk.inj h).2
      · rename_i hf
        obtain ⟨l, hl, h⟩ := HRes.bind_eq_ok (Prod.mk.inj h).2
        obtain ⟨h1, h2, h3, -, es, he, hn, hload⟩ := itemsOk d [] (dumpItems d []).1 l (by rw [← hl])
        rw [List.nil_append] at he
        subst he
        have hf' : n ∉ g.map Prod.fst := by rw [← find_isSome]; simpa using hf
        refine ⟨by simpa using hp, .dict d h1 h3 h2, by simpa [names, HObj.isDict, HKey.text] using hf', [(n, .group l)], ?_, ?_, ?_⟩
        · cases h; rfl
        · simp [names, HObj.isDict, HKey.text]
        · intro G _
          simp only [loadItems, loadPair, loadMember]
          rw [hload l fun p hp => find_of_mem l (hn.nodup_iff.2 h3) p.1 p.2 hp]
          simp [backPair, HObj.isDict, HKey.text, back]
termination_by structural x => x

theorem itemOk : (p : HKey × HObj D) → ValueOk p.2
  | (_, v) => valueOk v
termination_by structural x => x

theorem itemsOk : (l : List (HKey × HObj D)) → ItemsOk l
  | [] => by
    intro g l' g' h
    simp only [dumpItems, Prod.mk.injEq, HRes.ok.injEq] at h
    exact ⟨by simp, by simp, by simp [allNames], by simp [allNames], [], by simp [h.2], by simp [allNames], fun G _ => by simp [loadItems, backItems]⟩
  | p :: l => by
    intro g l' g' h
    have hp := itemOk p
    have hl := itemsOk l
    simp only [dumpItems] at h
    split at h
    · rename_i g1 hg1
      obtain ⟨h1, h2, h3, es, he⟩ := hp p.1.text g (dumpValue p.1.text p.2 g).1 g1 (by
        rw [← hg1, dumpItem_eq])
      obtain ⟨k1, k2, k3, k4, fs, rfl, kn, kload⟩ := hl g1 (dumpItems l g1).1 g' (by rw [← (Prod.mk.inj h).2])
      have hnames : names (.str p.1.text, p.2) = names p := rfl
      rw [hnames] at h3
      have hen := he.names
      rw [hnames] at hen
      refine ⟨?_, ?_, ?_, ?_, es ++ fs, by rw [he.eq, List.append_assoc], ?_, ?_⟩
      · intro q hq
        rcases List.mem_cons.1 hq with rfl | hq
        · exact h1
        · exact k1 q hq
      · intro q hq
        rcases List.mem_cons.1 hq with rfl | hq
        · exact h2
        · exact k2 q hq
      · rw [allNames, List.flatMap_cons, List.nodup_append]
        refine ⟨?_, k3, ?_⟩
        · unfold names
          split
          · simp
          · simp only [List.nodup_cons, List.mem_singleton, List.not_mem_nil, not_false_eq_true, List.nodup_nil, and_true]
            intro hc
            have := congrArg List.length hc
            simp at this
        · intro a ha b hb hab
          subst hab
          refine k4 a hb ?_
          rw [he.eq, List.map_append]
          exact List.mem_append_right _ (hen.mem_iff.2 ha)
      · intro m hm
        rw [allNames, List.flatMap_cons] at hm
        rcases List.mem_append.1 hm with hm | hm
        · exact h3 m hm
        · intro hmg
          refine k4 m hm ?_
          rw [he.eq, List.map_append]
          exact List.mem_append_left _ hmg
      · rw [List.map_append, allNames, List.flatMap_cons]
        exact hen.append kn
      · intro G hG
        rw [loadItems_append, he.load G fun q hq => hG q (List.mem_append_left _ hq), kload G fun q hq => hG q (List.mem_append_right _ hq)]
        simp only [HRes.ok_bind, backItems, backPair_text]
    · cases (Prod.mk.inj h).2
    · cases (Prod.mk.inj h).2
termination_by structural x => x

end

/-- Values that can be saved are saved, under a name that is free. -/
theorem dumpValue_of {v : HObj D} (hv : Dumpable v) : ∀ (n : List Char) (g : H5Group D), plainName n = true → (∀ m ∈ names (.str n, v), m ∉ g.map Prod.fst) →
    ∃ v' g', dumpValue n v g = (v', .ok g') := by
  have leaf : ∀ (v : HObj D) (n : List Char) (g : H5Group D), v.isDict = false → (∀ m ∈ names (.str n, v), m ∉ g.map Prod.fst) → n ∉ g.map Prod.fst ∧ '_' :: n ∉ g.map Prod.fst := by
    intro v n g hd h
    constructor
    · exact h _ (by simp [names, hd, HKey.text])
    · exact h _ (by simp [names, hd, HKey.text])
  induction hv with
  | atom a h =>
    obtain ⟨t, h⟩ := tag_of h
    intro n g hn hg
    obtain ⟨h1, h2⟩ := leaf _ n g rfl hg
    refine ⟨.atom a, g ++ [(n, .dataset (oneArray a).stored), ('_' :: n, .dataset (tagArray t))], ?_⟩
    simp only [dumpValue, h]
    rw [(dataThenTag_iff g _ n _ true t (loadValue_atom a t h).2).2 ⟨hn, h1, h2, fun _ => oneArray_shape a, rfl⟩]
  | unicode s h =>
    intro n g hn hg
    obtain ⟨h1, h2⟩ := leaf _ n g rfl hg
    refine ⟨.atom (.str (s.map fun c => Fin.ofNat 256 c.toNat)),
      g ++ [(n, .dataset (oneArray (.str (s.map fun c => Fin.ofNat 256 c.toNat))).stored), ('_' :: n, .dataset (tagArray "unicode"))], ?_⟩
    simp only [dumpValue, encodeAscii_some h]
    rw [(dataThenTag_iff g _ n _ true "unicode" (by decide)).2 ⟨hn, h1, h2, fun _ => oneArray_shape _, rfl⟩]
  | scalar t a h =>
    intro n g hn hg
    obtain ⟨h1, h2⟩ := leaf _ n g rfl hg
    refine ⟨.scalar t a, g ++ [(n, .dataset (NdArray.stored ⟨t, [], [a]⟩)), ('_' :: n, .dataset (tagArray "np_dtype"))], ?_⟩
    simp only [dumpValue, h, if_false]
    rw [(dataThenTag_iff g _ n _ false "np_dtype" (by decide)).2 ⟨hn, h1, h2, by simp, rfl⟩]
  | array a h h0 =>
    intro n g hn hg
    obtain ⟨h1, h2⟩ := leaf _ n g rfl hg
    refine ⟨.array a, g ++ [('_' :: n, .dataset (tagArray "ndarray")), (n, .dataset a.stored)], ?_⟩
    simp only [dumpValue]
    rw [(tagThenData_iff g _ n a "ndarray" (by decide)).2 ⟨hn, h1, h2, ⟨h, h0⟩, rfl⟩]
  | list l a ha h h0 =>
    intro n g hn hg
    obtain ⟨h1, h2⟩ := leaf _ n g rfl hg
    refine ⟨.list l, g ++ [(n, .dataset a.stored), ('_' :: n, .dataset (tagArray "list"))], ?_⟩
    simp only [dumpValue, ha, HRes.ok_bind]
    rw [(dataThenTag_iff g _ n _ true "list" (by decide)).2 ⟨hn, h1, h2, fun _ => ⟨h, h0⟩, rfl⟩]
  | tuple l a ha h h0 =>
    intro n g hn hg
    obtain ⟨h1, h2⟩ := leaf _ n g rfl hg
    refine ⟨.tuple l, g ++ [(n, .dataset a.stored), ('_' :: n, .dataset (tagArray "tuple"))], ?_⟩
    simp only [dumpValue, asArray_tuple, ha, HRes.ok_bind]
    rw [(dataThenTag_iff g _ n _ true "tuple" (by decide)).2 ⟨hn, h1, h2, fun _ => ⟨h, h0⟩, rfl⟩]
  | set l a ha h h0 =>
    intro n g hn hg
    obtain ⟨h1, h2⟩ := leaf _ n g rfl hg
    refine ⟨.set l, g ++ [(n, .dataset a.stored), ('_' :: n, .dataset (tagArray "set"))], ?_⟩
    simp only [dumpValue, ha, HRes.ok_bind]
    rw [(dataThenTag_iff g _ n _ true "set" (by decide)).2 ⟨hn, h1, h2, fun _ => ⟨h, h0⟩, rfl⟩]
  | dict l hk hn _ ih =>
    intro n g hp hg
    have items : ∀ (l : List (HKey × HObj D)) (g : H5Group D), (∀ p ∈ l, plainName p.1.text = true) → (allNames l).Nodup → (∀ m ∈ allNames l, m ∉ g.map Prod.fst) →
        (∀ p ∈ l, ∀ (n : List Char) (g : H5Group D), plainName n = true → (∀ m ∈ names (.str n, p.2), m ∉ g.map Prod.fst) → ∃ v' g', dumpValue n p.2 g = (v', .ok g')) →
        ∃ l' g', dumpItems l g = (l', .ok g') := by
      intro l
      induction l with
      | nil => exact fun g _ _ _ _ => ⟨[], g, by simp [dumpItems]⟩
      | cons p l ihl =>
        intro g hk hn hg ih
        have hnames : names (.str p.1.text, p.2) = names p := rfl
        rw [allNames, List.flatMap_cons] at hn hg
        obtain ⟨v', g1, h1⟩ := ih p (List.mem_cons_self ..) p.1.text g (hk p (List.mem_cons_self ..)) fun m hm => hg m (List.mem_append_left _ hm)
        obtain ⟨-, -, -, es, he⟩ := valueOk p.2 _ _ _ _ h1
        have hen := he.names
        rw [hnames] at hen
        rw [List.nodup_append] at hn
        obtain ⟨l', g2, h2⟩ := ihl g1 (fun q hq => hk q (List.mem_cons_of_mem _ hq)) hn.2.1 (by
          intro m hm hmg
          rw [he.eq, List.map_append] at hmg
          rcases List.mem_append.1 hmg with hmg | hmg
          · exact hg m (List.mem_append_right _ hm) hmg
          · exact hn.2.2 m (hen.mem_iff.1 hmg) m hm rfl) fun q hq => ih q (List.mem_cons_of_mem _ hq)
        exact ⟨(p.1, v') :: l', g2, by simp [dumpItems, dumpItem_eq, h1, h2]⟩
    obtain ⟨l', g', h⟩ := items l [] hk hn (by simp) ih
    have hf : (H5Group.find g n).isSome = false := by
      rw [← Bool.not_eq_true, find_isSome]
      exact hg n (by simp [names, HObj.isDict, HKey.text])
    exact ⟨.dict l', createGroup g n g', by simp [dumpValue, hp, hf, h]⟩

/-- Saving a dictionary and loading it. -/
theorem dumpDict_load (d d' : List (HKey × HObj D)) (f : H5Group D) (h : dumpDict d = (d', .ok f)) : Dumpable (.dict d) ∧ loadDict f = .ok (backItems d) := by
  simp only [dumpDict, Prod.mk.injEq] at h
  obtain ⟨l, hl, h⟩ := HRes.bind_eq_ok h.2
  obtain ⟨h1, h2, h3, -, es, he, hn, hload⟩ := itemsOk d [] (dumpItems d []).1 l (by rw [← hl])
  rw [List.nil_append] at he
  subst he
  refine ⟨.dict d h1 h3 h2, ?_⟩
  cases h
  have := hload l fun p hp => find_of_mem l (hn.nodup_iff.2 h3) p.1 p.2 hp
  simpa [loadDict, H5Group.find, NdArray.firstText, tagArray] using this

theorem dumpDict_of (d : List (HKey × HObj D)) (h : Dumpable (.dict d)) : ∃ d' f, dumpDict d = (d', .ok f) := by
  obtain ⟨v', g', hv⟩ := dumpValue_of h ['a'] [] (by decide) (by simp)
  have : dumpValue ['a'] (.dict d) [] = (.dict (dumpItems d []).1, (dumpItems d []).2.bind fun l => .ok (createGroup [] ['a'] l)) := by
    simp [dumpValue, show plainName ['a'] = true by decide, H5Group.find]
  rw [this] at hv
  obtain ⟨l, hl, -⟩ := HRes.bind_eq_ok (Prod.mk.inj hv).2
  exact ⟨_, _, by rw [dumpDict, hl]; rfl⟩

/-! ## Values that come back unchanged -/

theorem stripNul_clean {s : List Byte} (h : s.getLast? ≠ some 0) : stripNul s = s := by
  rw [stripNul, List.rdropWhile_eq_self_iff]
  intro hl hp
  rw [List.getLast?_eq_some_getLast hl] at h
  exact h (by simpa using hp)

theorem stripNul_strip (s : List Byte) : stripNul (stripNul s) = stripNul s := List.rdropWhile_idempotent _ s

theorem stored_clean {a : HAtom D} (h : a.Clean) : a.stored = a := by
  cases a with
  | str s => simp only [HAtom.stored]; rw [stripNul_clean h]
  | _ => rfl

theorem stored_stored (a : HAtom D) : a.stored.stored = a.stored := by
  cases a with
  | str s => simp only [HAtom.stored]; rw [stripNul_strip]
  | _ => rfl

theorem array_stored_stored (a : NdArray D) : a.stored.stored = a.stored := by
  simp only [NdArray.stored, List.map_map]
  congr 1
  exact List.map_congr_left fun x _ => stored_stored x

theorem stored_tag (a : HAtom D) : a.stored.tag = a.tag := by cases a <;> rfl

theorem stored_dtype (a : HAtom D) : a.stored.dtype = a.dtype := by cases a <;> rfl

theorem array_stored_clean {a : NdArray D} (h : ∀ x ∈ a.data, x.Clean) : a.stored = a := by
  have : a.data.map HAtom.stored = a.data := by
    conv_rhs => rw [← List.map_id a.data]
    exact List.map_congr_left fun x hx => stored_clean (h x hx)
  simp [NdArray.stored, this]

theorem char_of_byte : ∀ b : Byte, b.val < 128 → (Char.ofNat b.val).toNat = b.val := by decide +kernel

theorem byte_of_char (c : Char) (h : c.toNat < 128) : Char.ofNat (Fin.ofNat 256 c.toNat).val = c := by
  have : (Fin.ofNat 256 c.toNat).val = c.toNat := by
    simp only [Fin.ofNat]
    omega
  rw [this, Char.ofNat_toNat]

/-! ## Lists -/

theorem asArrays_atoms (l : List (HAtom D)) : HObj.asArrays (l.map HObj.atom) = .ok (l.map fun a => ⟨a.dtype, [], [a]⟩) := by
  induction l with
  | nil => simp [HObj.asArrays]
  | cons a l ih => simp [HObj.asArrays, HObj.asArray, ih]

theorem asArray_atoms (t : DType) (l : List (HAtom D)) (h : l ≠ []) (ht : ∀ x ∈ l, x.dtype = t) : (HObj.list (l.map HObj.atom)).asArray = .ok ⟨t, [l.length], l⟩ := by
  cases l with
  | nil => exact absurd rfl h
  | cons a l =>
    simp only [HObj.asArray]
    rw [asArrays_atoms, HRes.ok_bind, List.map_cons]
    have h1 : ((l.map fun a : HAtom D => (⟨a.dtype, [], [a]⟩ : NdArray D)).all fun b => b.shape = []) = true := by simp
    have h2 : ((l.map fun a : HAtom D => (⟨a.dtype, [], [a]⟩ : NdArray D)).all fun b => b.dtype = a.dtype) = true := by
      simp only [List.all_map, List.all_eq_true, Function.comp, decide_eq_true_eq]
      exact fun x hx => (ht x (List.mem_cons_of_mem _ hx)).trans (ht a (List.mem_cons_self ..)).symm
    simp only [stack]
    rw [if_pos h1, if_pos h2, ht a (List.mem_cons_self ..)]
    congr 2
    · simp
    · simp [List.flatMap_map]

theorem pieces_one (l : List (HAtom D)) : pieces 1 l.length l = l.map fun x => [x] := by
  induction l with
  | nil => rfl
  | cons a l ih => simp [pieces, ih]

theorem items_flat (t : DType) (l : List (HAtom D)) : (⟨t, [l.length], l⟩ : NdArray D).items = l.map (HObj.scalar t) := by
  simp [NdArray.items, pieces_one, Function.comp_def, itemOf]

theorem pieces_length (m n : ℕ) (l : List (HAtom D)) (h : l.length = n * m) : (pieces m n l).length = n ∧ (∀ x ∈ pieces m n l, x.length = m) ∧ (pieces m n l).flatten = l := by
  induction n generalizing l with
  | zero =>
    rw [Nat.zero_mul, List.length_eq_zero_iff] at h
    simp [pieces, h]
  | succ n ih =>
    have hl : m ≤ l.length := by rw [h, Nat.succ_mul]; omega
    have hd : (l.drop m).length = n * m := by rw [List.length_drop, h, Nat.succ_mul]; omega
    obtain ⟨h1, h2, h3⟩ := ih _ hd
    refine ⟨by simp [pieces, h1], ?_, by simp [pieces, h3]⟩
    intro x hx
    rcases List.mem_cons.1 hx with rfl | hx
    · rw [List.length_take, Nat.min_eq_left hl]
    · exact h2 x hx

/-- One item of an array as an array again. -/
theorem asArray_item (t : DType) (s : List ℕ) (l : List (HAtom D)) :
    (itemOf t s l).asArray = .ok ⟨t, s, l⟩ := by
  unfold itemOf
  split
  · simp [HObj.asArray]
  · simp [HObj.asArray]

/-- The list of the items of an array is the array again. -/
theorem asArray_items (a : NdArray D) (h : a.data.length = a.shape.prod) (hs : a.shape ≠ []) (h0 : 0 ∉ a.shape) : (HObj.list a.items).asArray = .ok a := by
  obtain ⟨t, shape, data⟩ := a
  cases shape with
  | nil => exact absurd rfl hs
  | cons n s =>
    simp only [List.prod_cons] at h
    obtain ⟨h1, h2, h3⟩ := pieces_length s.prod n data h
    have key : ∀ ps : List (List (HAtom D)), (∀ x ∈ ps, x.length = s.prod) → HObj.asArrays (ps.map (itemOf t s)) = .ok (ps.map fun l => ⟨t, s, l⟩) := by
      intro ps hps
      induction ps with
      | nil => simp [HObj.asArrays]
      | cons l ps ih =>
        rw [List.map_cons, HObj.asArrays, asArray_item t s l, HRes.ok_bind, ih fun x hx => hps x (List.mem_cons_of_mem _ hx)]
        rfl
    have hn : n ≠ 0 := fun h => h0 (by simp [h])
    simp only [HObj.asArray, NdArray.items]
    rw [key _ h2, HRes.ok_bind]
    cases hp : pieces s.prod n data with
    | nil => rw [hp] at h1; exact absurd h1.symm hn
    | cons l ps =>
      rw [hp] at h1 h3
      simp only [List.map_cons, stack]
      rw [if_pos (by simp), if_pos (by simp)]
      congr 2
      · rw [List.length_map, ← h1]; rfl
      · rw [← h3, ← List.map_cons (f := fun l => (⟨t, s, l⟩ : NdArray D)), List.flatMap_map]
        simp [List.flatMap_def]

theorem stack_length (l : List (NdArray D)) (a : NdArray D) (hl : ∀ b ∈ l, b.data.length = b.shape.prod) (h : stack l = .ok a) : a.data.length = a.shape.prod := by
  cases l with
  | nil => cases h; rfl
  | cons b l =>
    simp only [stack] at h
    split at h
    · rename_i hs
      split at h
      · cases h
        have hs' : ∀ x ∈ l, x.shape = b.shape := by simpa using hs
        have hb := hl b (List.mem_cons_self ..)
        have : ∀ m : List (NdArray D), (∀ x ∈ m, x.data.length = b.shape.prod) → (m.flatMap (·.data)).length = m.length * b.shape.prod := by
          intro m hm
          induction m with
          | nil => simp
          | cons x m ih =>
            rw [List.flatMap_cons, List.length_append, hm x (List.mem_cons_self ..), ih fun y hy => hm y (List.mem_cons_of_mem _ hy), List.length_cons, Nat.succ_mul, Nat.add_comm]
        rw [this (b :: l) (by
          intro x hx
          rcases List.mem_cons.1 hx with rfl | hx
          · exact hb
          · rw [hl x (List.mem_cons_of_mem _ hx), hs' x hx])]
        simp
      · cases h
    · cases h

theorem asArray_length {v : HObj D} (hv : SoundArrays v) : ∀ a, v.asArray = .ok a → a.data.length = a.shape.prod := by
  have many : ∀ l : List (HObj D), (∀ x ∈ l, ∀ a, x.asArray = .ok a → a.data.length = a.shape.prod) → ∀ as, HObj.asArrays l = .ok as → ∀ b ∈ as, b.data.length = b.shape.prod := by
    intro l
    induction l with
    | nil =>
      intro _ as h
      simp only [HObj.asArrays, HRes.ok.injEq] at h
      simp [← h]
    | cons x l ih =>
      intro hx as h
      rw [HObj.asArrays] at h
      obtain ⟨a, ha, h⟩ := HRes.bind_eq_ok h
      obtain ⟨bs, hb, h⟩ := HRes.bind_eq_ok h
      cases h
      intro b hb'
      rcases List.mem_cons.1 hb' with rfl | hb'
      · exact hx x (List.mem_cons_self ..) _ ha
      · exact ih (fun y hy => hx y (List.mem_cons_of_mem _ hy)) bs hb b hb'
  induction hv with
  | atom a => intro b h; simp only [HObj.asArray, HRes.ok.injEq] at h; simp [← h]
  | long n =>
    intro b h
    simp only [HObj.asArray] at h
    split at h
    · cases h; rfl
    · cases h
  | unicode s => intro b h; simp [HObj.asArray] at h
  | scalar t a => intro b h; simp only [HObj.asArray, HRes.ok.injEq] at h; simp [← h]
  | array a ha => intro b h; simp only [HObj.asArray, HRes.ok.injEq] at h; rw [← h]; exact ha
  | list l _ ih =>
    intro b h
    simp only [HObj.asArray] at h
    obtain ⟨as, h1, h2⟩ := HRes.bind_eq_ok h
    exact stack_length as b (many l ih as h1) h2
  | tuple l _ ih =>
    intro b h
    simp only [HObj.asArray] at h
    obtain ⟨as, h1, h2⟩ := HRes.bind_eq_ok h
    exact stack_length as b (many l ih as h1) h2
  | set l => intro b h; simp [HObj.asArray] at h
  | dict l => intro b h; simp [HObj.asArray] at h
  | other => intro b h; simp [HObj.asArray] at h

/-! ## Loading twice -/

theorem back_isDict (v : HObj D) : (back v).isDict = v.isDict := by
  cases v with
  | unicode s => simp only [back]; split <;> rfl
  | list l => simp only [back]; split <;> rfl
  | tuple l => simp only [back]; split <;> rfl
  | set l => simp only [back]; split <;> rfl
  | _ => simp [back, HObj.isDict]

theorem backItems_flatMap (l : List (HKey × HObj D)) : backItems l = l.flatMap backPair := by
  induction l with
  | nil => simp [backItems]
  | cons p l ih => simp [backItems, ih]

theorem mem_backPair {p q : HKey × HObj D} (h : q ∈ backPair p) : q = (.str p.1.text, back p.2) := by
  rw [backPair_eq] at h
  split at h
  · simpa using h
  · unfold backDataset at h
    split at h
    · cases h
    · simpa using h

theorem allNames_back (l : List (HKey × HObj D)) : (allNames (backItems l)).Sublist (allNames l) := by
  induction l with
  | nil => simp [backItems, allNames]
  | cons p l ih =>
    simp only [backItems, allNames, List.flatMap_append, List.flatMap_cons] at ih ⊢
    refine List.Sublist.append ?_ ih
    rw [backPair_eq]
    have : names ((.str p.1.text, back p.2) : HKey × HObj D) = names p := by simp [names, back_isDict, HKey.text]
    split
    · simp [this]
    · unfold backDataset
      split
      · simp
      · simp [this]

/-- Loaded values can be saved again and are loaded as the same. -/
theorem back_back {v : HObj D} (hd : Dumpable v) (hs : SoundArrays v) : Dumpable (back v) ∧ back (back v) = back v := by
  induction hd with
  | atom a h =>
    obtain ⟨t, h⟩ := tag_of h
    exact ⟨by simp only [back]; exact .atom _ (not_cplx (t := t) (by rw [stored_tag, h])), by simp [back, stored_stored]⟩
  | unicode s h =>
    have hb : ∀ x ∈ stripNul (s.map fun c => Fin.ofNat 256 c.toNat), x.val < 128 := by
      intro x hx
      exact (encodeAscii_spec (encodeAscii_some h)).2.2 x (stripNul_subset _ x hx)
    generalize hB : stripNul (s.map fun c => Fin.ofNat 256 c.toNat) = B at hb
    have hstrip : stripNul B = B := by rw [← hB, stripNul_strip]
    have hchars : ∀ c ∈ B.map fun b => Char.ofNat b.val, c.toNat < 128 := by
      intro c hc
      obtain ⟨b, hbm, rfl⟩ := List.mem_map.1 hc
      rw [char_of_byte b (hb b hbm)]
      exact hb b hbm
    have hrt : ((B.map fun b => Char.ofNat b.val).map fun c => Fin.ofNat 256 c.toNat) = B := by
      rw [List.map_map]
      conv_rhs => rw [← List.map_id B]
      refine List.map_congr_left fun b hbm => ?_
      simp only [Function.comp]
      rw [char_of_byte b (hb b hbm)]
      exact Fin.ofNat_val_eq_self b
    have h1 : back (.unicode s : HObj D) = .unicode (B.map fun b => Char.ofNat b.val) := by
      simp only [back, encodeAscii_some h, hB]
    rw [h1]
    refine ⟨.unicode _ hchars, ?_⟩
    simp only [back]
    rw [encodeAscii_some hchars, hrt]
    simp [hstrip]
  | scalar t a h => exact ⟨by simp only [back]; exact .scalar _ _ h, by simp [back, stored_stored]⟩
  | array a h h0 => exact ⟨by simp only [back]; exact .array _ h h0, by simp [back, array_stored_stored]⟩
  | list l a ha h h0 =>
    have h1 : back (.list l : HObj D) = .list a.stored.items := by simp only [back, ha]
    have hl := asArray_length hs a ha
    have h2 := asArray_items a.stored (by simpa [NdArray.stored] using hl) h h0
    rw [h1]
    refine ⟨.list _ _ h2 h h0, ?_⟩
    simp only [back, h2, array_stored_stored]
  | tuple l a ha h h0 =>
    have h1 : back (.tuple l : HObj D) = .array a.stored := by simp only [back, ha]
    rw [h1]
    exact ⟨.array _ h h0, by simp [back, array_stored_stored]⟩
  | set l a ha h h0 =>
    have h1 : back (.set l : HObj D) = .array a.stored := by simp only [back, ha]
    rw [h1]
    exact ⟨.array _ h h0, by simp [back, array_stored_stored]⟩
  | dict l hk hn _ ih =>
    have hsl : ∀ p ∈ l, SoundArrays p.2 := by cases hs with | dict _ h => exact h
    have ih' : ∀ p ∈ l, Dumpable (back p.2) ∧ back (back p.2) = back p.2 := fun p hp => ih p hp (hsl p hp)
    simp only [back]
    refine ⟨.dict _ ?_ (hn.sublist (allNames_back l)) ?_, ?_⟩
    · intro q hq
      rw [backItems_flatMap, List.mem_flatMap] at hq
      obtain ⟨p, hp, hq⟩ := hq
      rw [mem_backPair hq]
      exact hk p hp
    · intro q hq
      rw [backItems_flatMap, List.mem_flatMap] at hq
      obtain ⟨p, hp, hq⟩ := hq
      rw [mem_backPair hq]
      exact (ih' p hp).1
    · congr 1
      rw [backItems_flatMap (backItems l), backItems_flatMap, List.flatMap_assoc]
      refine List.flatMap_congr fun p hp => ?_
      rw [backPair_eq p]
      by_cases hd : p.2.isDict
      · simp only [hd, if_true, List.flatMap_cons, List.flatMap_nil, List.append_nil]
        rw [backPair_eq]
        simp [back_isDict, hd, HKey.text, (ih' p hp).2]
      · simp only [hd, backDataset]
        by_cases hu : p.1.text.head? = some '_'
        · simp [hu]
        · simp only [hu, if_false, Bool.false_eq_true, List.flatMap_cons, List.flatMap_nil, List.append_nil]
          rw [backPair_eq]
          have ht : (HKey.str p.1.text).text = p.1.text := rfl
          simp [back_isDict, hd, ht, (ih' p hp).2, backDataset, hu]

/-! ## Plain dictionaries -/

theorem plainKey_text {k : HKey} (h : PlainKey k) : plainName k.text = true ∧ k.text.head? ≠ some '_' ∧ HKey.str k.text = k := by
  obtain ⟨s, rfl, h1, h2, h3, h4, h5⟩ := h
  exact ⟨(plainName_iff s).2 ⟨h1, h2, h3, h4⟩, h5, rfl⟩

theorem allNames_nodup (l : List (HKey × HObj D)) (hk : ∀ p ∈ l, PlainKey p.1) (hn : (l.map Prod.fst).Nodup) : (allNames l).Nodup := by
  have mem : ∀ (p : HKey × HObj D) m, m ∈ names p → m = p.1.text ∨ m = '_' :: p.1.text := by
    intro p m hm
    unfold names at hm
    split at hm
    · exact .inl (by simpa using hm)
    · simpa using hm
  induction l with
  | nil => simp [allNames]
  | cons p l ih =>
    rw [List.map_cons, List.nodup_cons] at hn
    rw [allNames, List.flatMap_cons, List.nodup_append]
    refine ⟨?_, ih (fun q hq => hk q (List.mem_cons_of_mem _ hq)) hn.2, ?_⟩
    · unfold names
      split
      · simp
      · simp only [List.nodup_cons, List.mem_singleton, List.not_mem_nil, not_false_eq_true, List.nodup_nil, and_true]
        intro hc
        have := congrArg List.length hc
        simp at this
    · intro a ha b hb hab
      subst hab
      obtain ⟨q, hq, hb⟩ := List.mem_flatMap.1 hb
      obtain ⟨-, p2, p3⟩ := plainKey_text (hk p (List.mem_cons_self ..))
      obtain ⟨-, q2, q3⟩ := plainKey_text (hk q (List.mem_cons_of_mem _ hq))
      have hne : p.1.text ≠ q.1.text := by
        intro h
        apply hn.1
        rw [← p3, h, q3]
        exact List.mem_map.2 ⟨q, hq, rfl⟩
      rcases mem p a ha with h1 | h1 <;> rcases mem q a hb with h2 | h2
      · exact hne (h1.symm.trans h2)
      · exact p2 (by rw [h1.symm.trans h2]; rfl)
      · exact q2 (by rw [h2.symm.trans h1]; rfl)
      · exact hne (List.cons.inj (h1.symm.trans h2)).2

theorem plain_dumpable {v : HObj D} (h : PlainObj v) : Dumpable v := by
  induction h with
  | bool b => exact .atom _ (by simp)
  | int n => exact .atom _ (by simp)
  | float x => exact .atom _ (by simp)
  | str s _ => exact .atom _ (by simp)
  | unicode s h _ => exact .unicode s h
  | scalar t a ht _ => exact .scalar t a ht
  | array a h h0 _ => exact .array a h h0
  | list t l h ht _ =>
    refine .list _ _ (asArray_atoms t l h ht) (by simp) ?_
    simpa using Ne.symm (mt List.length_eq_zero_iff.1 h)
  | dict l hk hn _ ih => exact .dict l (fun p hp => (plainKey_text (hk p hp)).1) (allNames_nodup l hk hn) ih

theorem forall₂_maps {α β γ : Type} {R : β → γ → Prop} {f : α → β} {g : α → γ} {l : List α} (h : ∀ x ∈ l, R (f x) (g x)) : List.Forall₂ R (l.map f) (l.map g) := by
  induction l with
  | nil => exact .nil
  | cons x l ih => exact .cons (h x (List.mem_cons_self ..)) (ih fun y hy => h y (List.mem_cons_of_mem _ hy))

theorem plain_same {v : HObj D} (h : PlainObj v) : SameValue v (back v) := by
  induction h with
  | bool b => exact .refl _
  | int n => exact .refl _
  | float x => exact .refl _
  | str s h =>
    have : back (.atom (.str s) : HObj D) = .atom (.str s) := by
      simp only [back]
      rw [stored_clean (a := (.str s : HAtom D)) h]
    rw [this]
    exact .refl _
  | unicode s h hl =>
    have hclean : stripNul (s.map fun c => Fin.ofNat 256 c.toNat) = s.map fun c => Fin.ofNat 256 c.toNat := by
      apply stripNul_clean
      rw [List.getLast?_map]
      intro h0
      obtain ⟨c, hc, h0⟩ := Option.map_eq_some_iff.1 h0
      have hm := h c (List.mem_of_getLast? hc)
      have : c.toNat = 0 := by
        have := congrArg Fin.val h0
        simp only [Fin.ofNat] at this
        simp at this
        omega
      apply hl
      rw [hc, ← Char.ofNat_toNat c, this]
    have : back (.unicode s : HObj D) = .unicode s := by
      simp only [back, encodeAscii_some h]
      rw [hclean, List.map_map]
      congr 1
      conv_rhs => rw [← List.map_id s]
      exact List.map_congr_left fun c hc => byte_of_char c (h c hc)
    rw [this]
    exact .refl _
  | scalar t a ht hc =>
    simp only [back]
    rw [stored_clean hc]
    exact .refl _
  | array a h h0 hc =>
    simp only [back]
    rw [array_stored_clean hc]
    exact .refl _
  | list t l h ht hc =>
    have hcl : (⟨t, [l.length], l⟩ : NdArray D).stored = ⟨t, [l.length], l⟩ := array_stored_clean hc
    have : back (.list (l.map .atom) : HObj D) = .list (l.map (HObj.scalar t)) := by
      simp only [back, asArray_atoms t l h ht]
      rw [hcl, items_flat]
    rw [this]
    refine .list ?_
    refine forall₂_maps fun x hx => ?_
    rw [← ht x hx]
    exact .scalar x
  | dict l hk hn _ ih =>
    have hb : backItems l = l.map fun p => (p.1, back p.2) := by
      rw [backItems_flatMap, List.map_eq_flatMap]
      refine List.flatMap_congr fun p hp => ?_
      obtain ⟨-, h2, h3⟩ := plainKey_text (hk p hp)
      rw [backPair_eq, h3]
      split
      · rfl
      · simp [backDataset, h2, h3]
    simp only [back]
    refine .dict (List.Perm.refl _) ?_ ?_
    · rw [hb]
      simp [Function.comp_def]
    · rw [hb, List.map_map]
      exact forall₂_maps fun p hp => ih p hp

theorem dumpItems_each (l : List (HKey × HObj D)) (hp : ∀ p ∈ l, ∀ n g, (dumpValue n p.2 g).1 = p.2) : ∀ g, (dumpItems l g).1 = l := by
  induction l with
  | nil => intro g; simp [dumpItems]
  | cons p l ih =>
    intro g
    have h1 := hp p (List.mem_cons_self ..) p.1.text g
    have h2 := ih fun q hq => hp q (List.mem_cons_of_mem _ hq)
    rw [dumpItems, dumpItem_eq]
    dsimp only
    rw [h1]
    split
    · simp [h2]
    · rfl
    · rfl

theorem dumpValue_same {v : HObj D} (h : NoUnicode v) : ∀ n g, (dumpValue n v g).1 = v := by
  induction h with
  | dict l _ ih =>
    intro n g
    rw [dumpValue]
    split
    · rfl
    · split
      · rfl
      · simp [dumpItems_each l ih]
  | _ => intro n g; simp [dumpValue]

theorem dumpDict_same {l : List (HKey × HObj D)} (h : NoUnicode (.dict l)) : (dumpDict l).1 = l := by
  cases h with
  | dict _ h => exact dumpItems_each l (fun p hp => dumpValue_same (h p hp)) []

theorem getItem_none {d : List (HKey × HObj D)} {k : HKey} (h : k ∉ d.map Prod.fst) : getItem d k = none := by
  induction d with
  | nil => rfl
  | cons p d ih =>
    rw [List.map_cons, List.mem_cons, not_or] at h
    rw [getItem, if_neg (Ne.symm h.1), ih h.2]

end Feyn
