import Verif.Spec.EstBundle
import Verif.Proof.RngText
import Mathlib.Data.List.Forall2
import Mathlib.Tactic.NormNum
import Mathlib.Data.Rat.Floor

/-! # Bundles of estimators (C103) -/

namespace Feyn
variable {Q : Type} [Field Q] [LinearOrder Q] [FloorSemiring Q]

open EstBundle

private structure EstBundleOk (b : EstBundle Q) (names : List (List Byte)) : Prop where
  eq : b.vec.map Prod.fst = names
  nodup : names.Nodup
  map : ∀ name i, b.map name = some i ↔ names[i]? = some name

private theorem loadAll_ok {dict : List Byte → Option (SavedEst Q)} {allow : Bool} {l r : List (List Byte × Est Q Q)} (h : loadAll dict allow l = .ok r) :
    List.Forall₂ (fun e x => x.1 = e.1 ∧ loadEntry dict allow e = .ok x.2) l r := by
  induction l generalizing r with
  | nil => rw [loadAll] at h; cases h; exact .nil
  | cons e l ih =>
    rw [loadAll] at h
    cases h1 : loadEntry dict allow e with
    | abort => rw [h1] at h; cases h
    | ub => rw [h1] at h; cases h
    | ok x =>
      rw [h1, Res.bind_ok] at h
      cases h2 : loadAll dict allow l with
      | abort => rw [h2] at h; cases h
      | ub => rw [h2] at h; cases h
      | ok r' =>
        rw [h2, Res.bind_ok] at h
        cases h
        exact .cons ⟨rfl, h1⟩ (ih h2)

private theorem loadAll_of {dict : List Byte → Option (SavedEst Q)} {allow : Bool} {l : List (List Byte × Est Q Q)} (h : ∀ e ∈ l, ∃ x, loadEntry dict allow e = .ok x) :
    ∃ r, loadAll dict allow l = .ok r := by
  induction l with
  | nil => exact ⟨[], rfl⟩
  | cons e l ih =>
    obtain ⟨x, hx⟩ := h e (by simp)
    obtain ⟨r, hr⟩ := ih fun e he => h e (List.mem_cons_of_mem _ he)
    exact ⟨_, by rw [loadAll, hx, Res.bind_ok, hr, Res.bind_ok]⟩

omit [Field Q] [LinearOrder Q] [FloorSemiring Q] in
private theorem forall₂_fst {R : (List Byte × Est Q Q) → Est Q Q → Prop} {l r : List (List Byte × Est Q Q)} (h : List.Forall₂ (fun e x => x.1 = e.1 ∧ R e x.2) l r) :
    r.map Prod.fst = l.map Prod.fst := by
  induction h with
  | nil => rfl
  | cons h _ ih => rw [List.map_cons, List.map_cons, ih, h.1]

omit [LinearOrder Q] [FloorSemiring Q] in
private theorem add_ok {b b' : EstBundle Q} {names : List (List Byte)} (hb : EstBundleOk b names) {name : List Byte} {junk : ℕ → Q} (h : b.add name junk = .ok b') :
    EstBundleOk b' (names ++ [name]) := by
  unfold EstBundle.add at h
  split at h
  · cases h
  next hn =>
  have hlen : b.vec.length = names.length := by rw [← hb.eq, List.length_map]
  have hnot : name ∉ names := by
    intro hm
    obtain ⟨i, hi⟩ := List.mem_iff_getElem?.1 hm
    exact hn (by rw [(hb.map name i).2 hi]; rfl)
  cases h
  refine ⟨by simp [hb.eq], ?_, fun nm i => ?_⟩
  · rw [List.nodup_append]
    exact ⟨hb.nodup, by simp, by rintro a ha c hc rfl; simp at hc; subst hc; exact hnot ha⟩
  · simp only [List.length_append, List.length_singleton, Nat.add_sub_cancel, hlen]
    by_cases he : nm = name
    · subst he
      rw [Function.update_self]
      constructor
      · intro h
        cases h
        simp
      · intro h
        rw [List.getElem?_append] at h
        split at h
        · exact absurd (List.mem_of_getElem? h) hnot
        · next hge =>
          have : i - names.length < 1 := by
            by_contra hc
            rw [List.getElem?_eq_none (by simp only [List.length_singleton]; omega)] at h
            cases h
          congr 1
          omega
    · rw [Function.update_of_ne he, hb.map, List.getElem?_append]
      split
      · rfl
      · next hge =>
        rw [List.getElem?_eq_none (by omega)]
        constructor
        · intro h; cases h
        · intro h
          have := List.mem_of_getElem? h
          simp at this
          exact absurd this he

private theorem apply_ok {b b' : EstBundle Q} {names : List (List Byte)} (hb : EstBundleOk b names) {o : EstBundleOp Q} (h : o.apply b = .ok b') : EstBundleOk b' (names ++ addedNames [o]) := by
  cases o with
  | add name junk => exact add_ok hb h
  | modify i f =>
    rw [EstBundleOp.apply, EstBundle.modify] at h
    cases h1 : b.vec[i]? with
    | none => rw [h1] at h; cases h
    | some e =>
      rw [h1] at h
      cases h
      refine ⟨?_, by simpa [addedNames] using hb.nodup, by simpa [addedNames] using hb.map⟩
      simp only [addedNames, List.append_nil, List.map_set, ← hb.eq]
      apply List.ext_getElem?
      intro k
      rw [List.getElem?_set]
      split
      · next hk =>
        subst hk
        split
        · next hl => rw [List.getElem?_map, h1]; rfl
        · next hl => rw [List.getElem?_eq_none (by simpa using hl)]
      · rfl
  | clear =>
    cases h
    exact ⟨by simp [addedNames, EstBundle.clear, ← hb.eq], by simpa [addedNames] using hb.nodup, by simpa [addedNames, EstBundle.clear] using hb.map⟩
  | load dict allow =>
    rw [EstBundleOp.apply, EstBundle.fromDict] at h
    cases h1 : loadAll dict allow b.vec with
    | abort => rw [h1] at h; cases h
    | ub => rw [h1] at h; cases h
    | ok v =>
      rw [h1] at h
      cases h
      refine ⟨?_, by simpa [addedNames] using hb.nodup, by simpa [addedNames] using hb.map⟩
      simp only [addedNames, List.append_nil, ← hb.eq]
      exact forall₂_fst (R := fun e x => loadEntry dict allow e = .ok x) (loadAll_ok h1)

private theorem run_ok {b b' : EstBundle Q} {names : List (List Byte)} (hb : EstBundleOk b names) {l : List (EstBundleOp Q)} (h : EstBundleOp.run b l = .ok b') : EstBundleOk b' (names ++ addedNames l) := by
  induction l generalizing b names with
  | nil => cases h; simpa [addedNames] using hb
  | cons o l ih =>
    rw [EstBundleOp.run] at h
    cases h1 : o.apply b with
    | abort => rw [h1] at h; cases h
    | ub => rw [h1] at h; cases h
    | ok b1 =>
      rw [h1, Res.bind_ok] at h
      have := ih (apply_ok hb h1) h
      have e : names ++ addedNames [o] ++ addedNames l = names ++ addedNames (o :: l) := by cases o <;> simp [addedNames]
      rwa [e] at this

omit [Field Q] [LinearOrder Q] [FloorSemiring Q] in
private theorem empty_ok : EstBundleOk (EstBundle.empty : EstBundle Q) [] := ⟨rfl, by simp, by simp [EstBundle.empty]⟩

/-- **C103.** Whatever was done with a bundle: its estimators are those that were added, in that order, with different names, and the access by a name gives the one of this name and changes nothing. -/
theorem C103_lookup {l : List (EstBundleOp Q)} {b : EstBundle Q} (h : EstBundleOp.run .empty l = .ok b) :
    b.vec.map Prod.fst = addedNames l ∧ (addedNames l).Nodup ∧ ∀ (i : ℕ) (name : List Byte) (e : Est Q Q), b.vec[i]? = some (name, e) → b.byName name = .ok (e, b) := by
  have hb := run_ok empty_ok h
  rw [List.nil_append] at hb
  refine ⟨hb.eq, hb.nodup, fun i name e hi => ?_⟩
  have hm : b.map name = some i := (hb.map name i).2 (by rw [← hb.eq, List.getElem?_map, hi]; rfl)
  unfold EstBundle.byName
  simp only [hm, Option.isSome_some, if_true, Option.getD_some, hi]

/-- **C103.** A name is added once only. -/
theorem C103_once {l : List (EstBundleOp Q)} {b : EstBundle Q} (h : EstBundleOp.run .empty l = .ok b) (name : List Byte) (junk : ℕ → Q) :
    b.add name junk = .abort ↔ name ∈ addedNames l := by
  have hb := run_ok empty_ok h
  rw [List.nil_append] at hb
  unfold EstBundle.add
  constructor
  · intro h
    split at h
    · next hs =>
      obtain ⟨i, hi⟩ := Option.isSome_iff_exists.1 hs
      exact List.mem_of_getElem? ((hb.map name i).1 hi)
    · cases h
  · intro hm
    obtain ⟨i, hi⟩ := List.mem_iff_getElem?.1 hm
    rw [if_pos (by rw [(hb.map name i).2 hi]; rfl)]

/-- **C103** fails in this form: the access by a name that the bundle does not have gives the first estimator, and from then on this name cannot be added. -/
theorem C103_refuted_unknown {l : List (EstBundleOp Q)} {b : EstBundle Q} (h : EstBundleOp.run .empty l = .ok b) {name : List Byte} (hn : name ∉ addedNames l) {e : List Byte × Est Q Q}
    (he : b.vec[0]? = some e) : ∃ b', b.byName name = .ok (e.2, b') ∧ ∀ junk, b'.add name junk = .abort := by
  have hb := run_ok empty_ok h
  rw [List.nil_append] at hb
  have hm : b.map name = none := by
    cases hx : b.map name with
    | none => rfl
    | some i => exact absurd (List.mem_of_getElem? ((hb.map name i).1 hx)) hn
  refine ⟨{ b with map := Function.update b.map name (some 0) }, ?_, fun junk => ?_⟩
  · unfold EstBundle.byName
    simp [hm, he]
  · unfold EstBundle.add
    simp

private theorem orderName_inj {i j : ℕ} (h : orderName i = orderName j) : i = j := by
  have := congrArg digitsValue (List.append_cancel_left h)
  rwa [digitsValue_decimal, digitsValue_decimal] at this

omit [LinearOrder Q] [FloorSemiring Q] in
private theorem addOrders_ok (junk : ℕ → ℕ → Q) (n : ℕ) : ∀ (b : EstBundle Q) (i : ℕ), (∀ j, i ≤ j → b.map (orderName j) = none) →
    ∃ b', b.addOrders junk i n = .ok b' ∧ b'.vec = b.vec ++ (List.range' i n).map (fun k => (orderName k, Est.new (junk k))) ∧
      (∀ name, (b.map name).isSome → (b'.map name).isSome) ∧ (0 < n → (b'.map (orderName i)).isSome) := by
  induction n with
  | zero => intro b i _; exact ⟨b, rfl, by simp, fun _ h => h, by omega⟩
  | succ n ih =>
    intro b i hb
    have ha : b.add (orderName i) (junk i) = .ok ⟨b.vec ++ [(orderName i, Est.new (junk i))], Function.update b.map (orderName i) (some b.vec.length)⟩ := by
      unfold EstBundle.add
      rw [if_neg (by simp [hb i le_rfl])]
      simp
    obtain ⟨b', h1, h2, h3, _⟩ := ih ⟨b.vec ++ [(orderName i, Est.new (junk i))], Function.update b.map (orderName i) (some b.vec.length)⟩ (i + 1)
      (fun j hj => by dsimp only; rw [Function.update_of_ne (fun e => by have := orderName_inj e; omega)]; exact hb j (by omega))
    refine ⟨b', by rw [EstBundle.addOrders, ha, Res.bind_ok, h1], by rw [h2, List.range'_succ]; simp, fun name hn => h3 name ?_, fun _ => h3 _ (by simp)⟩
    by_cases he : name = orderName i
    · subst he; simp
    · simpa [Function.update_of_ne he] using hn

omit [Field Q] [LinearOrder Q] [FloorSemiring Q] in
private theorem toDict_fold (l : List (List Byte × Est Q Q)) (d : List Byte → Option (SavedEst Q)) (hn : (l.map Prod.fst).Nodup) :
    (∀ name, name ∉ l.map Prod.fst → l.foldl (fun (d : List Byte → Option (SavedEst Q)) e => Function.update d e.1 (some e.2.save)) d name = d name) ∧
      ∀ e ∈ l, l.foldl (fun (d : List Byte → Option (SavedEst Q)) e => Function.update d e.1 (some e.2.save)) d e.1 = some e.2.save := by
  induction l generalizing d with
  | nil => exact ⟨fun _ _ => rfl, fun e he => by simp at he⟩
  | cons a l ih =>
    rw [List.map_cons, List.nodup_cons] at hn
    obtain ⟨h1, h2⟩ := ih (Function.update d a.1 (some a.2.save)) hn.2
    refine ⟨fun name hname => ?_, fun e he => ?_⟩
    · rw [List.map_cons, List.mem_cons, not_or] at hname
      rw [List.foldl_cons, h1 name hname.2, Function.update_of_ne hname.1]
    · rw [List.foldl_cons]
      rcases List.mem_cons.1 he with rfl | he
      · rw [h1 _ hn.1, Function.update_self]
      · exact h2 e he

private theorem update_save (e : Est Q Q) : e.updateReal.save = e.save ∧ e.updateReal.mean = e.norm⁻¹ • e.accu := by
  unfold Est.updateReal
  dsimp only
  split <;> exact ⟨rfl, rfl⟩

private theorem loadOne_save (x e : Est Q Q) (he : e.used ≤ 10000) : ∃ r, loadOne x e.save = .ok r ∧ r.save = e.save ∧ r.mean = e.norm⁻¹ • e.accu := by
  have hl : (List.map e.hist (List.range e.used)).length = e.used := by simp
  have h : x.load e.save.1 e.save.2.1 e.save.2.2 = .ok { x.clear with hist := fun i => (e.save.1[i]?).getD (x.clear.hist i), used := e.save.1.length, accu := e.accu, norm := e.norm } := by
    unfold Est.load
    rw [if_neg (by simp only [Est.save, hl]; omega)]
    rfl
  refine ⟨_, by rw [loadOne, h, Res.bind_ok], ?_, ?_⟩
  · rw [(update_save _).1]
    simp only [Est.save, hl]
    refine Prod.ext (List.map_congr_left fun i hi => ?_) rfl
    rw [List.mem_range] at hi
    simp [hi]
  · rw [(update_save _).2]

/-- **C103.** The counters of the orders that were saved are read back, also if the number of orders is another one now: every order that has been saved has its history, sum and norm, and the mean
that belongs to them, every other order begins anew; orders beyond the new number are left out. -/
theorem C103_reload {b : EstBundle Q} {n : ℕ} (hb : b.vec.map Prod.fst = (List.range (n + 1)).map orderName) (hu : ∀ e ∈ b.vec, e.2.used ≤ 10000) (junk : ℕ → ℕ → Q) (n' : ℕ) :
    ∃ b', (EstBundle.empty : EstBundle Q).monitorLoad junk n' b.toDict = .ok b' ∧ b'.vec.map Prod.fst = (List.range (n' + 1)).map orderName ∧
      (∀ i e, i ≤ n' → b.vec[i]? = some e → ∃ e', b'.vec[i]? = some e' ∧ e'.2.save = e.2.save ∧ e'.2.mean = e.2.norm⁻¹ • e.2.accu) ∧
      (∀ i, i ≤ n' → n < i → b'.vec[i]? = some (orderName i, Est.new (junk i))) := by
  have hinj : Function.Injective orderName := fun _ _ h => orderName_inj h
  obtain ⟨b1, h1, h2, -, -⟩ := addOrders_ok junk (n' + 1) (EstBundle.empty : EstBundle Q) 0 (fun _ _ => rfl)
  have hv : b1.vec = (List.range (n' + 1)).map (fun k => (orderName k, Est.new (junk k))) := by
    rw [h2, ← List.range_eq_range']
    rfl
  have hnd : (b.vec.map Prod.fst).Nodup := by rw [hb]; exact List.nodup_range.map hinj
  obtain ⟨d1, d2⟩ := toDict_fold b.vec (fun _ => none) hnd
  have hlen : b.vec.length = n + 1 := by simpa using congrArg List.length hb
  have hname : ∀ i e, b.vec[i]? = some e → e.1 = orderName i ∧ i ≤ n := by
    intro i e hi
    have hi' : i < n + 1 := by rw [← hlen]; exact (List.getElem?_eq_some_iff.1 hi).1
    have := congrArg (fun l => l[i]?) hb
    simp only [List.getElem?_map, hi, Option.map_some, List.getElem?_range hi'] at this
    exact ⟨Option.some.inj this, by omega⟩
  have hdict : ∀ i e, b.vec[i]? = some e → b.toDict (orderName i) = some e.2.save := by
    intro i e hi
    rw [← (hname i e hi).1]
    exact d2 e (List.mem_of_getElem? hi)
  have hnone : ∀ i, n < i → b.toDict (orderName i) = none := by
    intro i hi
    refine d1 _ ?_
    rw [hb, List.mem_map]
    rintro ⟨j, hj, he⟩
    have := hinj he
    rw [List.mem_range] at hj
    omega
  have hall : ∀ e ∈ b1.vec, ∃ x, loadEntry b.toDict true e = .ok x := by
    intro e he
    rw [hv, List.mem_map] at he
    obtain ⟨k, _, rfl⟩ := he
    unfold loadEntry
    by_cases hk : k ≤ n
    · obtain ⟨x, hx⟩ : ∃ x, b.vec[k]? = some x := ⟨_, List.getElem?_eq_getElem (by omega)⟩
      rw [show b.toDict (orderName k) = some x.2.save from hdict k x hx]
      obtain ⟨r, hr, _⟩ := loadOne_save (Est.new (junk k)) x.2 (hu x (List.mem_of_getElem? hx))
      exact ⟨r, hr⟩
    · rw [show b.toDict (orderName k) = none from hnone k (by omega)]
      exact ⟨_, rfl⟩
  obtain ⟨r, hr⟩ := loadAll_of hall
  have hf := loadAll_ok hr
  refine ⟨{ b1 with vec := r }, by rw [EstBundle.monitorLoad, h1, Res.bind_ok, EstBundle.fromDict, hr, Res.bind_ok], ?_, ?_, ?_⟩
  · rw [forall₂_fst (R := fun e x => loadEntry b.toDict true e = .ok x) hf, hv, List.map_map]
    rfl
  all_goals
    have hget : ∀ i, i ≤ n' → ∃ x, r[i]? = some (orderName i, x) ∧ loadEntry b.toDict true (orderName i, Est.new (junk i)) = .ok x := by
      intro i hi
      have hl := hf.length_eq
      have hl1 : b1.vec.length = n' + 1 := by rw [hv]; simp
      have hi1 : i < b1.vec.length := by omega
      have hi2 : i < r.length := by omega
      have hx := hf.get hi1 hi2
      have hb1 : b1.vec.get ⟨i, hi1⟩ = (orderName i, Est.new (junk i)) := by
        simp only [List.get_eq_getElem, hv, List.getElem_map, List.getElem_range]
      rw [hb1] at hx
      refine ⟨(r.get ⟨i, hi2⟩).2, ?_, hx.2⟩
      rw [List.getElem?_eq_getElem hi2]
      exact congrArg some (Prod.ext hx.1 rfl)
  · intro i e hi he
    obtain ⟨x, g1, g2⟩ := hget i hi
    unfold loadEntry at g2
    rw [show b.toDict (orderName i) = some e.2.save from hdict i e he] at g2
    obtain ⟨y, k1, k2, k3⟩ := loadOne_save (Est.new (junk i)) e.2 (hu e (List.mem_of_getElem? he))
    have : y = x := by
      have := k1.symm.trans g2
      cases this
      rfl
    subst this
    exact ⟨_, g1, k2, k3⟩
  · intro i hi hn
    obtain ⟨x, g1, g2⟩ := hget i hi
    unfold loadEntry at g2
    rw [show b.toDict (orderName i) = none from hnone i hn] at g2
    cases g2
    exact g1

/-- **C103.** A monitor that has its counters cannot be built or loaded again. -/
theorem C103_twice (junk junk' : ℕ → ℕ → Q) (n n' : ℕ) : ∃ b, (EstBundle.empty : EstBundle Q).buildNew junk n = .ok b ∧ b.buildNew junk' n' = .abort ∧ ∀ d, b.monitorLoad junk' n' d = .abort := by
  obtain ⟨b1, h1, -, -, h4⟩ := addOrders_ok junk (n + 1) (EstBundle.empty : EstBundle Q) 0 (fun _ _ => rfl)
  have h : b1.clear.addOrders junk' 0 (n' + 1) = .abort := by
    rw [EstBundle.addOrders, EstBundle.add, if_pos (show (b1.clear.map (orderName 0)).isSome = true from h4 (by omega)), Res.bind_abort]
  exact ⟨b1.clear, by rw [EstBundle.buildNew, h1, Res.bind_ok], by rw [EstBundle.buildNew, h, Res.bind_abort], fun d => by rw [EstBundle.monitorLoad, h, Res.bind_abort]⟩

omit [LinearOrder Q] [FloorSemiring Q] in
/-- **C103.** A new monitor has an estimator for each order from zero to the highest one, without data. -/
theorem C103_new (junk : ℕ → ℕ → Q) (n : ℕ) : ∃ b, (EstBundle.empty : EstBundle Q).buildNew junk n = .ok b ∧ b.vec.map Prod.fst = (List.range (n + 1)).map orderName ∧
    ∀ e ∈ b.vec, e.2.used = 0 ∧ e.2.accu = 0 ∧ e.2.norm = 1 := by
  obtain ⟨b1, h1, h2, -, -⟩ := addOrders_ok junk (n + 1) (EstBundle.empty : EstBundle Q) 0 (fun _ _ => rfl)
  refine ⟨b1.clear, by rw [EstBundle.buildNew, h1, Res.bind_ok], ?_, ?_⟩
  · simp only [EstBundle.clear, List.map_map, h2, ← List.range_eq_range', EstBundle.empty, List.nil_append]
    rfl
  · intro e he
    rw [EstBundle.clear, List.mem_map] at he
    obtain ⟨x, _, rfl⟩ := he
    exact ⟨rfl, rfl, rfl⟩

/-- **C103.** Where failures are not allowed, a missing entry is noticed. -/
theorem C103_missing {b b' : EstBundle Q} {d : List Byte → Option (SavedEst Q)} (h : b.fromDict d false = .ok b') : ∀ e ∈ b.vec, (d e.1).isSome := by
  rw [EstBundle.fromDict] at h
  cases h1 : loadAll d false b.vec with
  | abort => rw [h1] at h; cases h
  | ub => rw [h1] at h; cases h
  | ok r =>
    have hf := loadAll_ok h1
    intro e he
    obtain ⟨i, hi, rfl⟩ := List.mem_iff_getElem.1 he
    have := (hf.get hi (by rw [← hf.length_eq]; exact hi)).2
    unfold loadEntry at this
    rw [List.get_eq_getElem] at this
    cases hd : d (b.vec[i]).1 with
    | none => rw [hd] at this; simp at this
    | some s => rfl

/-- **C103.** Reading keeps the names and their order. Where failures are allowed, an estimator that has no entry is as before, also with data. -/
theorem C103_kept {b b' : EstBundle Q} {d : List Byte → Option (SavedEst Q)} {allow : Bool} (h : b.fromDict d allow = .ok b') :
    b'.map = b.map ∧ b'.vec.map Prod.fst = b.vec.map Prod.fst ∧ ∀ (i : ℕ) (name : List Byte) (e : Est Q Q), b.vec[i]? = some (name, e) → d name = none → b'.vec[i]? = some (name, e) := by
  rw [EstBundle.fromDict] at h
  cases h1 : loadAll d allow b.vec with
  | abort => rw [h1] at h; cases h
  | ub => rw [h1] at h; cases h
  | ok r =>
    rw [h1, Res.bind_ok] at h
    cases h
    have hf := loadAll_ok h1
    refine ⟨rfl, forall₂_fst (R := fun e x => loadEntry d allow e = .ok x) hf, fun i name e hi hd => ?_⟩
    obtain ⟨hl, he⟩ := List.getElem?_eq_some_iff.1 hi
    have hl' : i < r.length := by rw [← hf.length_eq]; exact hl
    obtain ⟨g1, g2⟩ := hf.get hl hl'
    simp only [List.get_eq_getElem, he] at g1 g2
    unfold loadEntry at g2
    dsimp only at g2
    rw [hd] at g2
    dsimp only at g2
    split at g2
    · cases g2
      rw [List.getElem?_eq_getElem hl']
      exact congrArg some (Prod.ext g1 rfl)
    · cases g2

private def exampleOps : List (EstBundleOp ℚ) :=
  [.add (orderName 0) (fun _ => 7), .add (orderName 1) (fun _ => 8), .modify 1 (fun e => (e.measure 3).measure 1), .clear, .modify 1 fun e => e.measure 5]

private def exampleBundle : EstBundle ℚ :=
  match EstBundleOp.run .empty exampleOps with
  | .ok b => b
  | _ => .empty

/-- Two orders with a count, as after some uses, are a case of `C103_lookup` and of `C103_reload`. -/
example : EstBundleOp.run .empty exampleOps = .ok exampleBundle ∧ exampleBundle.vec.map Prod.fst = (List.range (1 + 1)).map orderName ∧ (∀ e ∈ exampleBundle.vec, e.2.used ≤ 10000) ∧
    exampleBundle.vec.map (fun e => e.2.accu) = [0, 5] := by
  have h : (match EstBundleOp.run .empty exampleOps with | .ok _ => true | _ => false) = true := by decide +kernel
  refine ⟨?_, by decide +kernel, by decide +kernel, by decide +kernel⟩
  unfold exampleBundle
  split at h
  · next b hb => rw [hb]
  · cases h

/-- A dictionary with none of these two orders is a case of `C103_kept`: the count of the second one stays. -/
example : (match exampleBundle.fromDict (fun name => if name = orderName 2 then some ([2], 2, 3) else none) true with
    | .ok b => b.vec.map (fun e => e.2.accu)
    | _ => []) = [0, 5] := by
  decide +kernel

end Feyn
