import Verif.Proof.Relabel

/-!
# Loading a saved diagram into a new process
-/

namespace Feyn

set_option linter.unusedSectionVars false

theorem collectM_map {α β : Type} {f : α → Res β} {g : α → β} {l : List α} (h : ∀ a ∈ l, f a = .ok (g a)) :
    collectM f l = .ok (l.map g) := by
  induction l with
  | nil => rfl
  | cons a as ih =>
    simp only [collectM, List.map_cons]
    rw [h a (List.mem_cons_self ..), Res.ok_bind, ih fun b hb => h b (List.mem_cons_of_mem _ hb)]
    rfl

section
variable {Q F : Type} [Field Q] [LinearOrder Q] [Field F]

/-- Record of vertex number `i`. -/
def verRec (d : Diag Q F) (i : ℕ) : VerRec Q :=
  ⟨i, d.co.r (d.Ver.slot i), d.co.tau (d.Ver.slot i), d.co.spin (d.Ver.slot i) IN, d.co.spin (d.Ver.slot i) OUT⟩

/-- Record of propagator number `i`. -/
def gRec (d : Diag Q F) (i : ℕ) : GRec :=
  ⟨d.Ver.name (d.sh.gV (d.G.slot i) IN), d.Ver.name (d.sh.gV (d.G.slot i) OUT), d.mo.gK (d.G.slot i),
    d.fl.gMeas (d.G.slot i), d.fl.gGam (d.G.slot i)⟩

/-- Record of interaction number `i`. -/
def wRec (d : Diag Q F) (i : ℕ) : WRec :=
  ⟨d.Ver.name (d.sh.wV (d.W.slot i) IN), d.Ver.name (d.sh.wV (d.W.slot i) OUT), d.mo.wK (d.W.slot i),
    d.fl.wDelta (d.W.slot i), d.fl.wMeas (d.W.slot i), d.fl.wGam (d.W.slot i)⟩

/-- The dictionary of a consistent diagram. -/
def dictOf (d : Diag Q F) : DiagDict Q :=
  ⟨(List.range d.Ver.avail).map (verRec d), (List.range d.G.avail).map (gRec d), (List.range d.W.avail).map (wRec d),
    if d.worm.exist = true then
      some ⟨d.Ver.name d.worm.ira, d.Ver.name d.worm.masha, d.worm.dSpin, d.worm.k⟩ else none, d.sfl⟩

theorem toDict_eq {P : Params Q F} {d : Diag Q F} (hi : Inv P d) : toDict d = .ok (dictOf d) := by
  have hV := hi.count.verWf
  have hG := hi.count.gWf
  have hW := hi.count.wWf
  have ht := hi.topo
  have e1 : collectM (verToDict d) (List.range d.Ver.avail) = .ok ((List.range d.Ver.avail).map (verRec d)) := by
    refine collectM_map fun i q => ?_
    rw [List.mem_range] at q
    unfold verToDict
    rw [Bundle.get_spec hV q, Res.ok_bind, deref_live (Bundle.slot_mem_live hV q), Res.ok_bind, Bundle.name_slot' hV q]
    rfl
  have e2 : collectM (gToDict d) (List.range d.G.avail) = .ok ((List.range d.G.avail).map (gRec d)) := by
    refine collectM_map fun i q => ?_
    rw [List.mem_range] at q
    have m := Bundle.slot_mem_live hG q
    unfold gToDict
    rw [Bundle.get_spec hG q, Res.ok_bind, deref_live m, Res.ok_bind, deref_live (ht.gV_mem _ m _), Res.ok_bind,
      deref_live (ht.gV_mem _ m _), Res.ok_bind]
    rfl
  have e3 : collectM (wToDict d) (List.range d.W.avail) = .ok ((List.range d.W.avail).map (wRec d)) := by
    refine collectM_map fun i q => ?_
    rw [List.mem_range] at q
    have m := Bundle.slot_mem_live hW q
    unfold wToDict
    rw [Bundle.get_spec hW q, Res.ok_bind, deref_live m, Res.ok_bind, deref_live (ht.wV_mem _ m _), Res.ok_bind,
      deref_live (ht.wV_mem _ m _), Res.ok_bind]
    rfl
  unfold toDict dictOf
  rw [e1, Res.ok_bind, e2, Res.ok_bind, e3, Res.ok_bind]
  by_cases c : d.worm.exist = true
  · rw [if_pos c, if_pos c]
    unfold wormToDict
    rw [deref_live (hi.worm.ira_mem c), Res.ok_bind, deref_live (hi.worm.masha_mem c), Res.ok_bind, Res.ok_bind]
  · rw [if_neg c, if_neg c]

/-! ### Reading vertices -/

/-- State after the first `i` vertices. -/
structure VerLoaded (d x₀ : Diag Q F) (i : ℕ) (x : Diag Q F) : Prop where
  eq : x = { x₀ with Ver := Bundle.ofSize i, co := x.co }
  r : ∀ v < i, x.co.r v = d.co.r (d.Ver.slot v)
  tau : ∀ v < i, x.co.tau v = d.co.tau (d.Ver.slot v)
  spin : ∀ v < i, x.co.spin v = d.co.spin (d.Ver.slot v)

theorem Bundle.ofSize_add {i : ℕ} (h : i < 20) :
    (Bundle.ofSize i).add = .ok (i, Bundle.ofSize (i + 1)) := by
  unfold Bundle.add Bundle.ofSize
  dsimp only [id]
  rw [if_neg (by omega), if_pos h, if_pos h, upd_id]

theorem Bundle.ofSize_get_ok {n i : ℕ} (h : i < n) (hn : n ≤ 20) : (Bundle.ofSize n).get i = .ok i :=
  Bundle.get_spec (Bundle.ofSize_wf hn) h

theorem load_ver {d x₀ : Diag Q F} (h0 : x₀.Ver = Bundle.ofSize 0) {i : ℕ} (hi : i ≤ 20) :
    ∃ x, loopM verFromDict x₀ ((List.range i).map (verRec d)) = .ok x ∧ VerLoaded d x₀ i x := by
  induction i with
  | zero => exact ⟨x₀, rfl, by rw [← h0], by omega, by omega, by omega⟩
  | succ i ih =>
    obtain ⟨x, e, hx⟩ := ih (by omega)
    have xV : x.Ver = Bundle.ofSize i := by rw [hx.eq]
    rw [List.range_succ, List.map_append, loopM_append, e, Res.ok_bind]
    simp only [List.map_cons, List.map_nil, loopM, verFromDict]
    rw [xV, Bundle.ofSize_add (by omega), Res.ok_bind, Res.ok_bind]
    refine ⟨_, rfl, ?_, ?_, ?_, ?_⟩
    · rw [hx.eq]
      have : upd (Bundle.ofSize (i + 1)).name i (verRec d i).name = id := upd_id i
      dsimp only
      rw [this]
      rfl
    · intro v hv
      dsimp only
      by_cases c : v = i
      · rw [c, upd_same]; rfl
      · rw [upd_ne _ _ c]; exact hx.r v (by omega)
    · intro v hv
      dsimp only
      by_cases c : v = i
      · rw [c, upd_same]; rfl
      · rw [upd_ne _ _ c]; exact hx.tau v (by omega)
    · intro v hv
      dsimp only
      by_cases c : v = i
      · rw [c, upd_same]
        funext e
        cases e <;> rfl
      · rw [upd_ne _ _ c]; exact hx.spin v (by omega)

/-! ### Reading interactions -/

/-- State after the first `i` interactions. -/
structure WLoaded (d x₀ : Diag Q F) (i : ℕ) (x : Diag Q F) : Prop where
  eq : x = { x₀ with
    W := Bundle.ofSize i
    sh := { x₀.sh with wV := x.sh.wV }
    mo := { x₀.mo with wK := x.mo.wK, wHash := x.mo.wHash }
    fl := { x₀.fl with wDelta := x.fl.wDelta, wMeas := x.fl.wMeas, wGam := x.fl.wGam }
    measG := x.measG
    gMeasure := x.gMeasure
    wMeasure := x.wMeasure }
  wV : ∀ w < i, ∀ e, x.sh.wV w e = d.Ver.name (d.sh.wV (d.W.slot w) e)
  wK : ∀ w < i, x.mo.wK w = d.mo.wK (d.W.slot w)
  wDelta : ∀ w < i, x.fl.wDelta w = d.fl.wDelta (d.W.slot w)
  wMeas : ∀ w < i, x.fl.wMeas w = d.fl.wMeas (d.W.slot w)
  wGam : ∀ w < i, x.fl.wGam w = d.fl.wGam (d.W.slot w)
  hash : ∀ k, x.mo.wHash k = true ↔ ∃ w < i, |d.mo.wK (d.W.slot w)| = k
  meas : ∀ w < i, d.fl.wMeas (d.W.slot w) = true → x.measG = false ∧ x.wMeasure = w

theorem load_w {P : Params Q F} {d x₀ : Diag Q F} (hd : Inv P d) (h0 : x₀.W = Bundle.ofSize 0)
    (hV : x₀.Ver = Bundle.ofSize d.Ver.avail) (hh : x₀.mo.wHash = fun _ => false) {i : ℕ} (hi : i ≤ d.W.avail) :
    ∃ x, loopM wFromDict x₀ ((List.range i).map (wRec d)) = .ok x ∧ WLoaded d x₀ i x := by
  have hW := hd.count.wWf
  have nW : d.W.avail ≤ 20 := hW.avail_le
  have nV : d.Ver.avail ≤ 20 := hd.count.verWf.avail_le
  induction i with
  | zero =>
    refine ⟨x₀, rfl, by rw [← h0], by omega, by omega, by omega, by omega, by omega, ?_, by omega⟩
    intro k
    rw [hh]
    exact ⟨nofun, fun ⟨w, q, _⟩ => by omega⟩
  | succ i ih =>
    obtain ⟨x, e, hx⟩ := ih (by omega)
    have m : d.W.slot i ∈ d.W.live := Bundle.slot_mem_live hW (by omega)
    have xW : x.W = Bundle.ofSize i := by rw [hx.eq]
    have xV : x.Ver = Bundle.ofSize d.Ver.avail := by rw [hx.eq]; exact hV
    have eh : addWHash x.mo.wHash (d.mo.wK (d.W.slot i)) =
        .ok (fun k => if k = absK (d.mo.wK (d.W.slot i)) then true else x.mo.wHash k) := by
      unfold addWHash
      rw [if_pos (show absK (d.mo.wK (d.W.slot i)) ≤ 10000 from abs_le_of_in (hd.whash.mem _ m))]
      have : x.mo.wHash (absK (d.mo.wK (d.W.slot i))) = false := by
        by_contra c
        obtain ⟨w, q, k⟩ := (hx.hash _).1 (by simpa using c)
        have := hd.whash.inj _ (Bundle.slot_mem_live hW (i := w) (by omega)) _ m k
        have := Bundle.slot_inj hW (by omega) (by omega) this
        omega
      rw [this]
      rfl
    rw [List.range_succ, List.map_append, loopM_append, e, Res.ok_bind]
    simp only [List.map_cons, List.map_nil, loopM, wFromDict]
    have g1 : x.Ver.get (wRec d i).inV = .ok (wRec d i).inV := by
      rw [xV]; exact Bundle.ofSize_get_ok (Bundle.name_lt' (hd.topo.wV_mem _ m IN)) nV
    have g2 : x.Ver.get (wRec d i).outV = .ok (wRec d i).outV := by
      rw [xV]; exact Bundle.ofSize_get_ok (Bundle.name_lt' (hd.topo.wV_mem _ m OUT)) nV
    have g3 : addWHash x.mo.wHash (wRec d i).k =
        .ok (fun k => if k = absK (d.mo.wK (d.W.slot i)) then true else x.mo.wHash k) := eh
    rw [xW, Bundle.ofSize_add (by omega), Res.ok_bind]
    dsimp only
    rw [g1, Res.ok_bind, g2, Res.ok_bind, g3, Res.ok_bind, Res.ok_bind]
    refine ⟨_, rfl, ?_, ?_, ?_, ?_, ?_, ?_, ?_, ?_⟩
    · rw [hx.eq]
    · intro w hw en
      dsimp only
      by_cases c : w = i
      · subst c
        cases en with
        | false => rw [upd2_ne' _ _ _ _ (by simp), upd2_same]; rfl
        | true => rw [upd2_same]; rfl
      · rw [upd2_ne _ _ _ _ c, upd2_ne _ _ _ _ c]; exact hx.wV w (by omega) en
    · intro w hw
      dsimp only
      by_cases c : w = i
      · rw [c, upd_same]; rfl
      · rw [upd_ne _ _ c]; exact hx.wK w (by omega)
    · intro w hw
      dsimp only
      by_cases c : w = i
      · rw [c, upd_same]; rfl
      · rw [upd_ne _ _ c]; exact hx.wDelta w (by omega)
    · intro w hw
      dsimp only
      by_cases c : w = i
      · rw [c, upd_same]; rfl
      · rw [upd_ne _ _ c]; exact hx.wMeas w (by omega)
    · intro w hw
      dsimp only
      by_cases c : w = i
      · rw [c, upd_same]; rfl
      · rw [upd_ne _ _ c]; exact hx.wGam w (by omega)
    · intro k
      dsimp only
      by_cases c : k = absK (d.mo.wK (d.W.slot i))
      · rw [if_pos c]
        exact ⟨fun _ => ⟨i, by omega, c.symm⟩, fun _ => rfl⟩
      · rw [if_neg c, hx.hash k]
        constructor
        · rintro ⟨w, q, k⟩; exact ⟨w, by omega, k⟩
        · rintro ⟨w, q, k⟩
          refine ⟨w, ?_, k⟩
          by_contra q'
          have : w = i := by omega
          subst this
          exact c k.symm
    · intro w hw k
      dsimp only
      by_cases c : w = i
      · subst c
        have : (wRec d w).isMeas = true := k
        rw [if_pos this, if_pos this]
        exact ⟨rfl, rfl⟩
      · have : ¬ (wRec d i).isMeas = true := by
          intro k'
          have a := ((hd.meas.w_flag _ (Bundle.slot_mem_live hW (i := w) (by omega))).1 k).2
          have b := ((hd.meas.w_flag _ m).1 k').2
          exact c (Bundle.slot_inj hW (by omega) (by omega) (a.trans b.symm))
        rw [if_neg this, if_neg this]
        exact hx.meas w (by omega) k

/-! ### Reading propagators -/

/-- State after the first `i` propagators. -/
structure GLoaded (d x₀ : Diag Q F) (i : ℕ) (x : Diag Q F) : Prop where
  eq : x = { x₀ with
    G := Bundle.ofSize i
    sh := { x₀.sh with gV := x.sh.gV }
    mo := { x₀.mo with gK := x.mo.gK, gHash := x.mo.gHash }
    fl := { x₀.fl with gMeas := x.fl.gMeas, gGam := x.fl.gGam }
    measG := x.measG
    gMeasure := x.gMeasure
    wMeasure := x.wMeasure }
  gV : ∀ w < i, ∀ e, x.sh.gV w e = d.Ver.name (d.sh.gV (d.G.slot w) e)
  gK : ∀ w < i, x.mo.gK w = d.mo.gK (d.G.slot w)
  gMeas : ∀ w < i, x.fl.gMeas w = d.fl.gMeas (d.G.slot w)
  gGam : ∀ w < i, x.fl.gGam w = d.fl.gGam (d.G.slot w)
  hash : ∀ k, x.mo.gHash k = true ↔ ∃ w < i, d.mo.gK (d.G.slot w) = k
  meas : ∀ w < i, d.fl.gMeas (d.G.slot w) = true → x.measG = true ∧ x.gMeasure = w
  none : (∀ w < i, d.fl.gMeas (d.G.slot w) = false) → x.measG = x₀.measG ∧ x.wMeasure = x₀.wMeasure

theorem load_g {P : Params Q F} {d x₀ : Diag Q F} (hd : Inv P d) (h0 : x₀.G = Bundle.ofSize 0)
    (hV : x₀.Ver = Bundle.ofSize d.Ver.avail) (hh : x₀.mo.gHash = fun _ => false) {i : ℕ} (hi : i ≤ d.G.avail) :
    ∃ x, loopM gFromDict x₀ ((List.range i).map (gRec d)) = .ok x ∧ GLoaded d x₀ i x := by
  have hG := hd.count.gWf
  have nW : d.G.avail ≤ 20 := hG.avail_le
  have nV : d.Ver.avail ≤ 20 := hd.count.verWf.avail_le
  induction i with
  | zero =>
    refine ⟨x₀, rfl, by rw [← h0], by omega, by omega, by omega, by omega, ?_, by omega, fun _ => ⟨rfl, rfl⟩⟩
    intro k
    rw [hh]
    exact ⟨nofun, fun ⟨w, q, _⟩ => by omega⟩
  | succ i ih =>
    obtain ⟨x, e, hx⟩ := ih (by omega)
    have m : d.G.slot i ∈ d.G.live := Bundle.slot_mem_live hG (by omega)
    have xW : x.G = Bundle.ofSize i := by rw [hx.eq]
    have xV : x.Ver = Bundle.ofSize d.Ver.avail := by rw [hx.eq]; exact hV
    have eh : addGHash x.mo.gHash (d.mo.gK (d.G.slot i)) =
        .ok (fun k => if k = d.mo.gK (d.G.slot i) then true else x.mo.gHash k) := by
      unfold addGHash
      have hk := hd.ghash.mem _ m
      rw [if_pos (by unfold indexK; unfold InK at hk; omega)]
      have : x.mo.gHash (d.mo.gK (d.G.slot i)) = false := by
        by_contra c
        obtain ⟨w, q, k⟩ := (hx.hash _).1 (by simpa using c)
        have := hd.ghash.inj _ (Bundle.slot_mem_live hG (i := w) (by omega)) _ m k
        have := Bundle.slot_inj hG (by omega) (by omega) this
        omega
      rw [this]
      rfl
    rw [List.range_succ, List.map_append, loopM_append, e, Res.ok_bind]
    simp only [List.map_cons, List.map_nil, loopM, gFromDict]
    have g1 : x.Ver.get (gRec d i).inV = .ok (gRec d i).inV := by
      rw [xV]; exact Bundle.ofSize_get_ok (Bundle.name_lt' (hd.topo.gV_mem _ m IN)) nV
    have g2 : x.Ver.get (gRec d i).outV = .ok (gRec d i).outV := by
      rw [xV]; exact Bundle.ofSize_get_ok (Bundle.name_lt' (hd.topo.gV_mem _ m OUT)) nV
    have g3 : addGHash x.mo.gHash (gRec d i).k =
        .ok (fun k => if k = d.mo.gK (d.G.slot i) then true else x.mo.gHash k) := eh
    rw [xW, Bundle.ofSize_add (by omega), Res.ok_bind]
    dsimp only
    rw [g1, Res.ok_bind, g2, Res.ok_bind, g3, Res.ok_bind, Res.ok_bind]
    refine ⟨_, rfl, ?_, ?_, ?_, ?_, ?_, ?_, ?_, ?_⟩
    · rw [hx.eq]
    · intro w hw en
      dsimp only
      by_cases c : w = i
      · subst c
        cases en with
        | false => rw [upd2_ne' _ _ _ _ (by simp), upd2_same]; rfl
        | true => rw [upd2_same]; rfl
      · rw [upd2_ne _ _ _ _ c, upd2_ne _ _ _ _ c]; exact hx.gV w (by omega) en
    · intro w hw
      dsimp only
      by_cases c : w = i
      · rw [c, upd_same]; rfl
      · rw [upd_ne _ _ c]; exact hx.gK w (by omega)
    · intro w hw
      dsimp only
      by_cases c : w = i
      · rw [c, upd_same]; rfl
      · rw [upd_ne _ _ c]; exact hx.gMeas w (by omega)
    · intro w hw
      dsimp only
      by_cases c : w = i
      · rw [c, upd_same]; rfl
      · rw [upd_ne _ _ c]; exact hx.gGam w (by omega)
    · intro k
      dsimp only
      by_cases c : k = d.mo.gK (d.G.slot i)
      · rw [if_pos c]
        exact ⟨fun _ => ⟨i, by omega, c.symm⟩, fun _ => rfl⟩
      · rw [if_neg c, hx.hash k]
        constructor
        · rintro ⟨w, q, k⟩; exact ⟨w, by omega, k⟩
        · rintro ⟨w, q, k⟩
          refine ⟨w, ?_, k⟩
          by_contra q'
          have : w = i := by omega
          subst this
          exact c k.symm
    · intro w hw k
      dsimp only
      by_cases c : w = i
      · subst c
        have : (gRec d w).isMeas = true := k
        rw [if_pos this, if_pos this]
        exact ⟨rfl, rfl⟩
      · have : ¬ (gRec d i).isMeas = true := by
          intro k'
          have a := ((hd.meas.g_flag _ (Bundle.slot_mem_live hG (i := w) (by omega))).1 k).2
          have b := ((hd.meas.g_flag _ m).1 k').2
          exact c (Bundle.slot_inj hG (by omega) (by omega) (a.trans b.symm))
        rw [if_neg this, if_neg this]
        exact hx.meas w (by omega) k
    · intro k
      have : ¬ (gRec d i).isMeas = true := by
        intro k'
        have := k i (by omega)
        exact absurd k' (by rw [show (gRec d i).isMeas = d.fl.gMeas (d.G.slot i) from rfl, this]; exact nofun)
      dsimp only
      rw [if_neg this, if_neg this]
      exact hx.none fun w q => k w (by omega)

end
end Feyn
