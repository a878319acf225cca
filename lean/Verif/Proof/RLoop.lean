import Verif.Proof.Del

/-!
# `ChangeRLoop` keeps the diagram consistent
-/

set_option linter.unusedSectionVars false
set_option linter.unusedSimpArgs false

namespace Feyn

section
variable {Q F : Type} [Field Q] [LinearOrder Q] [IsStrictOrderedRing Q] [Field F]

/-- What is known about the collected vertices during the walk. -/
structure WalkInv (d : Diag Q F) (oldR : Site) (v0 cur : ℕ) (vs : List ℕ) (fv : ℕ → Bool) (fw : ℕ → ℕ) : Prop where
  nodup : vs.Nodup
  mem : ∀ x ∈ vs, x ∈ d.Ver.live
  cur_mem : cur ∈ d.Ver.live
  site : ∀ x ∈ vs, d.co.r x = oldR
  cur_site : d.co.r cur = oldR
  step : ∀ x ∈ vs, nextVertex d.sh x ∈ vs ∨ nextVertex d.sh x = cur
  orbit : ∀ x ∈ vs, ∃ k, x = (nextVertex d.sh)^[k] v0
  cur_orbit : ∃ k, cur = (nextVertex d.sh)^[k] v0
  start : v0 ∈ vs ∨ cur = v0
  fv_iff : ∀ x ∈ d.Ver.live, fv (d.Ver.name x) = true ↔ x ∈ vs
  fw_eq : ∀ w ∈ d.W.live, fw (d.W.name w) = vs.countP (fun x => d.sh.vW x = w)

/-- What the walk returns. -/
structure WalkRes (d : Diag Q F) (oldR : Site) (v0 : ℕ) (vs : List ℕ) (fw : ℕ → ℕ) : Prop where
  nodup : vs.Nodup
  mem : ∀ x ∈ vs, x ∈ d.Ver.live
  site : ∀ x ∈ vs, d.co.r x = oldR
  step : ∀ x ∈ vs, nextVertex d.sh x ∈ vs
  orbit : ∀ x, x ∈ vs ↔ ∃ k, x = (nextVertex d.sh)^[k] v0
  fw_eq : ∀ w ∈ d.W.live, fw (d.W.name w) = vs.countP (fun x => d.sh.vW x = w)

theorem loopWalk_spec {P : Params Q F} (hP : P.Wf) {d : Diag Q F} (h : Inv P d) (oldR : Site) (v0 : ℕ) :
    ∀ (cap cur : ℕ) (vs : List ℕ) (fv : ℕ → Bool) (fw : ℕ → ℕ),
      WalkInv d oldR v0 cur vs fv fw → vs.length + cap = 19 →
      ∃ res, loopWalk d oldR cap cur vs fv fw = .ok res ∧
        (∀ vs' fw', res = some (vs', fw') → WalkRes d oldR v0 vs' fw') ∧
        (res = none → ∃ k, d.co.r ((nextVertex d.sh)^[k] v0) ≠ oldR) := by
  intro cap
  induction cap with
  | zero =>
    intro cur vs fv fw hi hl
    have n1 := (Bundle.mem_live.1 hi.cur_mem).2
    have c1 := h.count.ver
    have c2 := h.count.n_le
    have c3 := hP.lt_max
    have hmw := h.topo.vW_mem _ hi.cur_mem
    have hmg := h.topo.vG_mem _ hi.cur_mem OUT
    by_cases hfv : fv (d.Ver.name cur) = true
    · have hcur := (hi.fv_iff cur hi.cur_mem).1 hfv
      refine ⟨some (vs, fw), ?_, ?_, fun q => by cases q⟩
      · unfold loopWalk
        rw [deref_live hi.cur_mem, Res.ok_bind, if_neg (by omega), if_pos hfv]
      · rintro vs' fw' e
        injection e with e; injection e with e1 e2; subst e1; subst e2
        exact walkEnd hi hcur
    · exfalso
      have hnc : cur ∉ vs := fun q => hfv ((hi.fv_iff cur hi.cur_mem).2 q)
      have hsub : (cur :: vs).toFinset ⊆ d.Ver.live := by
        intro x hx
        simp only [List.mem_toFinset, List.mem_cons] at hx
        rcases hx with rfl | hx
        · exact hi.cur_mem
        · exact hi.mem x hx
      have hcard := Finset.card_le_card hsub
      rw [List.toFinset_card_of_nodup (List.nodup_cons.2 ⟨hnc, hi.nodup⟩), Bundle.card_live h.count.verWf] at hcard
      simp only [List.length_cons] at hcard
      omega
  | succ cap ih =>
    intro cur vs fv fw hi hl
    have n1 := (Bundle.mem_live.1 hi.cur_mem).2
    have c1 := h.count.ver
    have c2 := h.count.n_le
    have c3 := hP.lt_max
    have hmw := h.topo.vW_mem _ hi.cur_mem
    have hmg := h.topo.vG_mem _ hi.cur_mem OUT
    have hmv := h.topo.gV_mem _ hmg OUT
    have n2 := (Bundle.mem_live.1 hmw).2
    unfold loopWalk
    rw [deref_live hi.cur_mem, Res.ok_bind, if_neg (by omega)]
    by_cases hfv : fv (d.Ver.name cur) = true
    · have hcur := (hi.fv_iff cur hi.cur_mem).1 hfv
      refine ⟨some (vs, fw), by rw [if_pos hfv], ?_, fun q => by cases q⟩
      rintro vs' fw' e
      injection e with e; injection e with e1 e2; subst e1; subst e2
      exact walkEnd hi hcur
    · have hnc : cur ∉ vs := fun q => hfv ((hi.fv_iff cur hi.cur_mem).2 q)
      rw [if_neg hfv]
      simp only [deref_live hmw, deref_live hmg, deref_live hmv, Res.ok_bind]
      rw [if_neg (by omega)]
      by_cases hr : d.co.r (d.sh.gV (d.sh.vG cur OUT) OUT) ≠ oldR
      · rw [if_pos hr]
        refine ⟨none, rfl, fun _ _ => nofun, fun _ => ?_⟩
        obtain ⟨k, ek⟩ := hi.cur_orbit
        exact ⟨k + 1, by rw [Function.iterate_succ_apply', ← ek]; exact hr⟩
      · rw [if_neg hr]
        simp only [ne_eq, not_not] at hr
        apply ih
        · exact {
            nodup := by
              rw [List.nodup_append]
              refine ⟨hi.nodup, List.nodup_singleton _, ?_⟩
              intro a ha b hb e
              simp only [List.mem_singleton] at hb
              exact hnc (by rw [← hb, ← e]; exact ha)
            mem := by
              intro x hx
              simp only [List.mem_append, List.mem_singleton] at hx
              rcases hx with hx | rfl
              · exact hi.mem x hx
              · exact hi.cur_mem
            cur_mem := hmv
            site := by
              intro x hx
              simp only [List.mem_append, List.mem_singleton] at hx
              rcases hx with hx | rfl
              · exact hi.site x hx
              · exact hi.cur_site
            cur_site := hr
            step := by
              intro x hx
              simp only [List.mem_append, List.mem_singleton] at hx ⊢
              rcases hx with hx | rfl
              · rcases hi.step x hx with q | q
                · exact Or.inl (Or.inl q)
                · exact Or.inl (Or.inr q)
              · exact Or.inr rfl
            orbit := by
              intro x hx
              simp only [List.mem_append, List.mem_singleton] at hx
              rcases hx with hx | rfl
              · exact hi.orbit x hx
              · exact hi.cur_orbit
            cur_orbit := by
              obtain ⟨k, e⟩ := hi.cur_orbit
              refine ⟨k + 1, ?_⟩
              rw [Function.iterate_succ_apply', ← e]; rfl
            start := by
              simp only [List.mem_append, List.mem_singleton]
              rcases hi.start with q | q
              · exact Or.inl (Or.inl q)
              · exact Or.inl (Or.inr q.symm)
            fv_iff := by
              intro x hx
              simp only [upd_apply, List.mem_append, List.mem_singleton]
              by_cases c : d.Ver.name x = d.Ver.name cur
              · have := Bundle.name_inj h.count.verWf (Bundle.live_lt hx) (Bundle.live_lt hi.cur_mem) c
                simp [this]
              · rw [if_neg c]
                have : x ≠ cur := fun q => c (by rw [q])
                simp only [this, or_false]
                exact hi.fv_iff x hx
            fw_eq := by
              intro w hw
              rw [List.countP_append]
              simp only [upd_apply, List.countP_cons, List.countP_nil]
              by_cases c : d.W.name w = d.W.name (d.sh.vW cur)
              · have := Bundle.name_inj h.count.wWf (Bundle.live_lt hw) (Bundle.live_lt hmw) c
                subst this
                simp [hi.fw_eq _ hw]
              · rw [if_neg c]
                have : d.sh.vW cur ≠ w := fun q => c (by rw [q])
                simp [this, hi.fw_eq _ hw] }
        · simp only [List.length_append, List.length_cons, List.length_nil]; omega
where
  walkEnd {d : Diag Q F} {oldR : Site} {v0 cur : ℕ} {vs : List ℕ} {fv : ℕ → Bool} {fw : ℕ → ℕ}
      (hi : WalkInv d oldR v0 cur vs fv fw) (hcur : cur ∈ vs) : WalkRes d oldR v0 vs fw := by
    have hstep : ∀ x ∈ vs, nextVertex d.sh x ∈ vs := by
      intro x hx
      rcases hi.step x hx with q | q
      · exact q
      · rw [q]; exact hcur
    refine ⟨hi.nodup, hi.mem, hi.site, hstep, fun x => ⟨hi.orbit x, ?_⟩, hi.fw_eq⟩
    have h0 : v0 ∈ vs := by
      rcases hi.start with q | q
      · exact q
      · rw [← q]; exact hcur
    rintro ⟨k, rfl⟩
    induction k with
    | zero => exact h0
    | succ k ih => rw [Function.iterate_succ_apply']; exact hstep _ ih

/-- A set of vertices closed under following the fermion lines is closed under going back. -/
theorem closed_prev {V G W : Finset ℕ} {s : Shape} (h : TopoOk V G W s) {vs : List ℕ} (hm : ∀ x ∈ vs, x ∈ V)
    (hs : ∀ x ∈ vs, nextVertex s x ∈ vs) {x : ℕ} (hx : x ∈ V) (hn : nextVertex s x ∈ vs) : x ∈ vs := by
  have hinj : Set.InjOn (nextVertex s) (vs.toFinset : Set ℕ) := by
    intro a ha b hb e
    have ha' : a ∈ V := hm a (by simpa using ha)
    have hb' : b ∈ V := hm b (by simpa using hb)
    rw [← prev_next h ha', e, prev_next h hb']
  have himg : vs.toFinset.image (nextVertex s) = vs.toFinset := by
    apply Finset.eq_of_subset_of_card_le
    · intro y hy
      simp only [Finset.mem_image, List.mem_toFinset] at hy ⊢
      obtain ⟨a, ha, rfl⟩ := hy
      exact hs a ha
    · rw [Finset.card_image_of_injOn hinj]
  have : nextVertex s x ∈ vs.toFinset.image (nextVertex s) := by rw [himg]; simpa using hn
  simp only [Finset.mem_image, List.mem_toFinset] at this
  obtain ⟨a, ha, e⟩ := this
  have : a = x := by rw [← prev_next h (hm a ha), e, prev_next h hx]
  rw [← this]; exact ha

/-- How often an interaction line is met by a list of distinct vertices. -/
theorem countW {V G W : Finset ℕ} {s : Shape} (h : TopoOk V G W s) {w : ℕ} (hw : w ∈ W) :
    ∀ vs : List ℕ, vs.Nodup → (∀ x ∈ vs, x ∈ V) →
      vs.countP (fun x => s.vW x = w) =
        (if s.wV w IN ∈ vs then 1 else 0) + (if s.wV w OUT ∈ vs then 1 else 0) := by
  intro vs
  induction vs with
  | nil => intro _ _; simp
  | cons v vs ih =>
    intro hn hm
    obtain ⟨hnv, hn⟩ := List.nodup_cons.1 hn
    have hv := hm v (by simp)
    rw [List.countP_cons, ih hn (fun x hx => hm x (by simp [hx]))]
    have hne : s.wV w IN ≠ s.wV w OUT := by
      intro e
      have a := h.vDir_wV w hw IN
      have b := h.vDir_wV w hw OUT
      rw [e, b] at a; cases a
    by_cases c : s.vW v = w
    · subst c
      have hv1 := h.wV_vW v hv
      cases q : s.vDir v <;> rw [q] at hv1
      · have : s.wV (s.vW v) OUT ≠ v := fun e => hne (hv1.trans e.symm)
        simp [hv1, hnv, this]; omega
      · have : s.wV (s.vW v) IN ≠ v := fun e => hne (e.trans hv1.symm)
        simp [hv1, hnv, this]
    · have n1 : ∀ e, s.wV w e ≠ v := fun e q => c (by rw [← q]; exact h.vW_wV w hw e)
      simp [c, n1]

/-- The coordinates after moving the collected vertices. -/
def movedCo (d : Diag Q F) (vs : List ℕ) (newR : Site) : Coord Q :=
  { d.co with r := fun x => if x ∈ vs then newR else d.co.r x }

/-- The interaction lines met by `rest` and not by `done`. -/
def newLines (s : Shape) (done rest : List ℕ) : Finset ℕ :=
  rest.toFinset.image s.vW \ done.toFinset.image s.vW

theorem newLines_cons_new {s : Shape} {done rest : List ℕ} {v : ℕ} (hc : ∀ x ∈ done, s.vW x ≠ s.vW v) :
    newLines s done (v :: rest) = insert (s.vW v) (newLines s (done ++ [v]) rest) ∧
      s.vW v ∉ newLines s (done ++ [v]) rest := by
  constructor
  · ext w
    simp only [newLines, Finset.mem_sdiff, Finset.mem_image, List.mem_toFinset, Finset.mem_insert, List.mem_append,
      List.mem_cons, List.not_mem_nil, or_false]
    constructor
    · rintro ⟨⟨a, ha, rfl⟩, hb⟩
      by_cases q : s.vW a = s.vW v
      · exact Or.inl q
      · right
        refine ⟨⟨a, ?_, rfl⟩, ?_⟩
        · rcases ha with rfl | ha
          · exact absurd rfl q
          · exact ha
        · rintro ⟨b, hb1 | rfl, hb2⟩
          · exact hb ⟨b, hb1, hb2⟩
          · exact q hb2.symm
    · rintro (rfl | ⟨⟨a, ha, rfl⟩, hb⟩)
      · exact ⟨⟨v, Or.inl rfl, rfl⟩, fun ⟨x, hx, e⟩ => hc x hx e⟩
      · exact ⟨⟨a, Or.inr ha, rfl⟩, fun ⟨x, hx, e⟩ => hb ⟨x, Or.inl hx, e⟩⟩
  · simp only [newLines, Finset.mem_sdiff, Finset.mem_image, List.mem_toFinset, List.mem_append,
      List.mem_cons, List.not_mem_nil, or_false, not_and, not_not]
    intro _
    exact ⟨v, Or.inr rfl, rfl⟩

theorem newLines_cons_old {s : Shape} {done rest : List ℕ} {v : ℕ} (hc : ∃ x ∈ done, s.vW x = s.vW v) :
    newLines s done (v :: rest) = newLines s (done ++ [v]) rest := by
  obtain ⟨y, hy, ey⟩ := hc
  ext w
  simp only [newLines, Finset.mem_sdiff, Finset.mem_image, List.mem_toFinset, List.mem_append,
    List.mem_cons, List.not_mem_nil, or_false]
  constructor
  · rintro ⟨⟨a, ha, rfl⟩, hb⟩
    have q : s.vW a ≠ s.vW v := fun q => hb ⟨y, hy, ey.trans q.symm⟩
    refine ⟨⟨a, ?_, rfl⟩, ?_⟩
    · rcases ha with rfl | ha
      · exact absurd rfl q
      · exact ha
    · rintro ⟨b, hb1 | rfl, hb2⟩
      · exact hb ⟨b, hb1, hb2⟩
      · exact q hb2.symm
  · rintro ⟨⟨a, ha, rfl⟩, hb⟩
    exact ⟨⟨a, Or.inr ha, rfl⟩, fun ⟨x, hx, e⟩ => hb ⟨x, Or.inl hx, e⟩⟩

theorem loopWeights_spec {P : Params Q F} (hP : P.Wf) {d : Diag Q F} (h : Inv P d) {vs : List ℕ} {newR : Site}
    (hn : vs.Nodup) (hm : ∀ x ∈ vs, x ∈ d.Ver.live) (hs : ∀ x ∈ vs, nextVertex d.sh x ∈ vs) :
    ∀ (rest done : List ℕ) (i : ℕ) (fw : ℕ → ℕ) (a b : F), vs = done ++ rest →
      (∀ w ∈ d.W.live, fw (d.W.name w) =
        if vs.countP (fun x => d.sh.vW x = w) = 2 ∧ ∃ x ∈ done, d.sh.vW x = w then 0
        else vs.countP (fun x => d.sh.vW x = w)) →
      loopWeights P d newR i rest fw a b = .ok
        (a * ((rest.map fun v => gExpected P d.sh (movedCo d vs newR) d.fl d.ext (d.sh.vG v OUT)).prod *
            ∏ w ∈ newLines d.sh done rest, wExpected P d.sh (movedCo d vs newR) d.fl d.ext w),
         b * ((rest.map fun v => d.wt.gWt (d.sh.vG v OUT)).prod * ∏ w ∈ newLines d.sh done rest, d.wt.wWt w),
         rest.map fun v => (v, gExpected P d.sh (movedCo d vs newR) d.fl d.ext (d.sh.vG v OUT),
            wExpected P d.sh (movedCo d vs newR) d.fl d.ext (d.sh.vW v))) := by
  intro rest
  induction rest with
  | nil => intro done i fw a b _ _; simp [loopWeights, newLines]
  | cons v rest ih =>
    intro done i fw a b hvs hfw
    have hvin : v ∈ vs := by rw [hvs]; simp
    have hv := hm v hvin
    have hg := h.topo.vG_mem v hv OUT
    have hb := h.topo.gV_mem _ hg OUT
    have hw := h.topo.vW_mem v hv
    have hx := h.topo.wV_mem _ hw (!d.sh.vDir v)
    have n2 := (Bundle.mem_live.1 hw).2
    have c2 := h.count.n_le
    have c3 := hP.lt_max
    have hgin : d.sh.gV (d.sh.vG v OUT) IN = v := h.topo.gV_vG v hv OUT
    have hbin : d.sh.gV (d.sh.vG v OUT) OUT ∈ vs := hs v hvin
    have hdone : v ∉ done := by
      rw [hvs, List.nodup_append] at hn
      intro q; exact hn.2.2 v q v (by simp) rfl
    have hcnt := countW h.topo hw vs hn hm
    have hv1 := h.topo.wV_vW v hv
    -- the new fermion line weight
    have eG : gW0 P d.ext newR newR (d.co.tau v) (d.co.tau (d.sh.gV (d.sh.vG v OUT) OUT)) (d.co.spin v OUT)
        (d.co.spin (d.sh.gV (d.sh.vG v OUT) OUT) IN) (d.fl.gMeas (d.sh.vG v OUT)) (d.fl.gGam (d.sh.vG v OUT)) =
        gExpected P d.sh (movedCo d vs newR) d.fl d.ext (d.sh.vG v OUT) := by
      simp only [gExpected, movedCo, hgin, if_pos hvin, if_pos hbin]
    -- the new interaction line weight
    have eW := wW_line h.topo hv P d.ext (movedCo d vs newR).r d.co.tau d.co.spin (d.fl.wWorm (d.sh.vW v))
      (d.fl.wMeas (d.sh.vW v)) (d.fl.wDelta (d.sh.vW v)) (d.fl.wGam (d.sh.vW v)) (fun q => (h.delta _ hw q).1)
    have eW' : wW P d.ext (d.sh.vDir v) ((movedCo d vs newR).r v)
        ((movedCo d vs newR).r (d.sh.wV (d.sh.vW v) (!d.sh.vDir v))) (d.co.tau v)
        (d.co.tau (d.sh.wV (d.sh.vW v) (!d.sh.vDir v))) (d.co.spin v) (d.co.spin (d.sh.wV (d.sh.vW v) (!d.sh.vDir v)))
        (d.fl.wWorm (d.sh.vW v)) (d.fl.wMeas (d.sh.vW v)) (d.fl.wDelta (d.sh.vW v)) (d.fl.wGam (d.sh.vW v)) =
        wExpected P d.sh (movedCo d vs newR) d.fl d.ext (d.sh.vW v) := eW
    have rv : (movedCo d vs newR).r v = newR := by simp [movedCo, hvin]
    rw [rv] at eW'
    have hne : d.sh.wV (d.sh.vW v) (!d.sh.vDir v) ≠ v := by
      intro q
      have a1 := h.topo.vDir_wV _ hw (!d.sh.vDir v)
      rw [q] at a1; revert a1; cases d.sh.vDir v <;> simp
    have hends : (if d.sh.wV (d.sh.vW v) IN ∈ vs then 1 else 0) + (if d.sh.wV (d.sh.vW v) OUT ∈ vs then 1 else 0) =
        1 + (if d.sh.wV (d.sh.vW v) (!d.sh.vDir v) ∈ vs then 1 else 0) := by
      cases q : d.sh.vDir v <;> rw [q] at hv1 <;> simp [hv1, hvin]; omega
    rw [hends] at hcnt
    have hvs' : vs = (done ++ [v]) ++ rest := by rw [hvs]; simp
    have hfwv := hfw _ hw
    unfold loopWeights
    simp only [deref_live hv, deref_live hg, deref_live hb, deref_live hw, deref_live hx, Res.ok_bind]
    rw [if_neg (by omega), eG]
    by_cases cx : d.sh.wV (d.sh.vW v) (!d.sh.vDir v) ∈ vs
    · -- both ends are moved
      have rx : (movedCo d vs newR).r (d.sh.wV (d.sh.vW v) (!d.sh.vDir v)) = newR := by simp [movedCo, cx]
      rw [rx] at eW'
      rw [if_pos cx] at hcnt
      by_cases cd : ∃ x ∈ done, d.sh.vW x = d.sh.vW v
      · rw [if_pos ⟨hcnt, cd⟩] at hfwv
        rw [if_neg (by omega), if_neg (by omega), if_pos hfwv]
        have hfw' : ∀ w ∈ d.W.live, fw (d.W.name w) =
            if vs.countP (fun x => d.sh.vW x = w) = 2 ∧ ∃ x ∈ done ++ [v], d.sh.vW x = w then 0
            else vs.countP (fun x => d.sh.vW x = w) := by
          intro w hw'
          rw [hfw w hw']
          have : (∃ x ∈ done ++ [v], d.sh.vW x = w) ↔ ∃ x ∈ done, d.sh.vW x = w := by
            constructor
            · rintro ⟨x, hx1, hx2⟩
              simp only [List.mem_append, List.mem_singleton] at hx1
              rcases hx1 with hx1 | rfl
              · exact ⟨x, hx1, hx2⟩
              · obtain ⟨y, hy1, hy2⟩ := cd
                exact ⟨y, hy1, hy2.trans hx2⟩
            · rintro ⟨x, hx1, hx2⟩; exact ⟨x, by simp [hx1], hx2⟩
          simp only [this]
        rw [ih (done ++ [v]) (i + 1) fw _ _ hvs' hfw', Res.ok_bind, eW', newLines_cons_old cd]
        simp only [List.map_cons, List.prod_cons, Res.ok.injEq, Prod.mk.injEq, and_true]
        constructor <;> ring
      · rw [if_neg (fun q => cd q.2), hcnt] at hfwv
        rw [if_neg (by omega), if_pos (by omega)]
        have cd' : ∀ x ∈ done, d.sh.vW x ≠ d.sh.vW v := fun x hx q => cd ⟨x, hx, q⟩
        have hfw' : ∀ w ∈ d.W.live, upd fw (d.W.name (d.sh.vW v)) 0 (d.W.name w) =
            if vs.countP (fun x => d.sh.vW x = w) = 2 ∧ ∃ x ∈ done ++ [v], d.sh.vW x = w then 0
            else vs.countP (fun x => d.sh.vW x = w) := by
          intro w hw'
          by_cases q : w = d.sh.vW v
          · subst q
            rw [upd_same, if_pos ⟨hcnt, v, by simp, rfl⟩]
          · have : d.W.name w ≠ d.W.name (d.sh.vW v) := fun e =>
              q (Bundle.name_inj h.count.wWf (Bundle.live_lt hw') (Bundle.live_lt hw) e)
            rw [upd_ne _ _ this, hfw w hw']
            have : (∃ x ∈ done ++ [v], d.sh.vW x = w) ↔ ∃ x ∈ done, d.sh.vW x = w := by
              constructor
              · rintro ⟨x, hx1, hx2⟩
                simp only [List.mem_append, List.mem_singleton] at hx1
                rcases hx1 with hx1 | rfl
                · exact ⟨x, hx1, hx2⟩
                · exact absurd hx2.symm q
              · rintro ⟨x, hx1, hx2⟩; exact ⟨x, by simp [hx1], hx2⟩
            simp only [this]
        obtain ⟨e1, e2⟩ := newLines_cons_new (rest := rest) cd'
        rw [ih (done ++ [v]) (i + 1) _ _ _ hvs' hfw', Res.ok_bind, eW', e1, Finset.prod_insert e2,
          Finset.prod_insert e2]
        simp only [List.map_cons, List.prod_cons, Res.ok.injEq, Prod.mk.injEq, and_true]
        constructor <;> ring
    · -- only this end is moved
      have rx : (movedCo d vs newR).r (d.sh.wV (d.sh.vW v) (!d.sh.vDir v)) =
          d.co.r (d.sh.wV (d.sh.vW v) (!d.sh.vDir v)) := by simp [movedCo, cx]
      rw [rx] at eW'
      rw [if_neg cx] at hcnt
      rw [if_neg (by omega), hcnt] at hfwv
      rw [if_pos (by omega)]
      have cd' : ∀ x ∈ done, d.sh.vW x ≠ d.sh.vW v := by
        intro x hx q
        have hxv : x ∈ vs := by rw [hvs]; simp [hx]
        have hx1 := h.topo.wV_vW x (hm x hxv)
        rw [q] at hx1
        by_cases e : d.sh.vDir x = d.sh.vDir v
        · rw [e, hv1] at hx1; exact hdone (hx1 ▸ hx)
        · have : d.sh.vDir x = !d.sh.vDir v := by
            revert e; cases d.sh.vDir x <;> cases d.sh.vDir v <;> simp
          rw [this] at hx1; exact cx (hx1 ▸ hxv)
      have hfw' : ∀ w ∈ d.W.live, fw (d.W.name w) =
          if vs.countP (fun x => d.sh.vW x = w) = 2 ∧ ∃ x ∈ done ++ [v], d.sh.vW x = w then 0
          else vs.countP (fun x => d.sh.vW x = w) := by
        intro w hw'
        rw [hfw w hw']
        by_cases q : w = d.sh.vW v
        · subst q
          rw [if_neg (by omega), if_neg (by omega)]
        · have : (∃ x ∈ done ++ [v], d.sh.vW x = w) ↔ ∃ x ∈ done, d.sh.vW x = w := by
            constructor
            · rintro ⟨x, hx1, hx2⟩
              simp only [List.mem_append, List.mem_singleton] at hx1
              rcases hx1 with hx1 | rfl
              · exact ⟨x, hx1, hx2⟩
              · exact absurd hx2.symm q
            · rintro ⟨x, hx1, hx2⟩; exact ⟨x, by simp [hx1], hx2⟩
          simp only [this]
      obtain ⟨e1, e2⟩ := newLines_cons_new (rest := rest) cd'
      rw [ih (done ++ [v]) (i + 1) _ _ _ hvs' hfw', Res.ok_bind, eW', e1, Finset.prod_insert e2,
        Finset.prod_insert e2]
      simp only [List.map_cons, List.prod_cons, Res.ok.injEq, Prod.mk.injEq, and_true]
      constructor <;> ring

/-- The effect of the final loop of assignments. -/
theorem foldl_loopAssign (newR : Site) (a b : ℕ → F) :
    ∀ (vs : List ℕ) (d : Diag Q F),
      (vs.map fun v => (v, a (d.sh.vG v OUT), b (d.sh.vW v))).foldl (loopAssign newR) d =
        { d with
          co := movedCo d vs newR
          wt := { gWt := fun g => if g ∈ vs.map (fun v => d.sh.vG v OUT) then a g else d.wt.gWt g
                  wWt := fun w => if w ∈ vs.map d.sh.vW then b w else d.wt.wWt w } } := by
  intro vs
  induction vs with
  | nil => intro d; simp [movedCo]
  | cons v vs ih =>
    intro d
    simp only [List.map_cons, List.foldl_cons]
    have := ih (loopAssign newR d (v, a (d.sh.vG v OUT), b (d.sh.vW v)))
    have hsh : (loopAssign newR d (v, a (d.sh.vG v OUT), b (d.sh.vW v))).sh = d.sh := rfl
    rw [hsh] at this
    rw [this]
    simp only [loopAssign, movedCo, upd_apply]
    congr 1
    · congr 1
      funext x
      by_cases c1 : x = v <;> by_cases c2 : x ∈ vs <;> simp [c1, c2]
    · congr 1
      · funext g
        by_cases c1 : g = d.sh.vG v OUT <;> by_cases c2 : g ∈ vs.map (fun v => d.sh.vG v OUT) <;>
          simp [c1, c2]
      · funext w
        by_cases c1 : w = d.sh.vW v <;> by_cases c2 : w ∈ vs.map d.sh.vW <;> simp [c1, c2]

theorem newLines_nil (s : Shape) (vs : List ℕ) : newLines s [] vs = (vs.map s.vW).toFinset := by
  ext w; simp [newLines]

/-- The diagram after the loop move. -/
def movedDiag (P : Params Q F) (d : Diag Q F) (vs : List ℕ) (newR : Site) (ratio : F) : Diag Q F :=
  { d with
    phase := d.phase * P.ph ratio
    weight := d.weight * ratio
    co := movedCo d vs newR
    wt := { gWt := fun g => if g ∈ vs.map (fun v => d.sh.vG v OUT) then
              gExpected P d.sh (movedCo d vs newR) d.fl d.ext g else d.wt.gWt g
            wWt := fun w => if w ∈ vs.map d.sh.vW then
              wExpected P d.sh (movedCo d vs newR) d.fl d.ext w else d.wt.wWt w } }

/-- The weight ratio of the loop move. -/
def movedRatio (P : Params Q F) (d : Diag Q F) (vs : List ℕ) (newR : Site) : F :=
  ((∏ g ∈ (vs.map fun v => d.sh.vG v OUT).toFinset, gExpected P d.sh (movedCo d vs newR) d.fl d.ext g) *
    ∏ w ∈ (vs.map d.sh.vW).toFinset, wExpected P d.sh (movedCo d vs newR) d.fl d.ext w) /
  ((∏ g ∈ (vs.map fun v => d.sh.vG v OUT).toFinset, d.wt.gWt g) * ∏ w ∈ (vs.map d.sh.vW).toFinset, d.wt.wWt w)

theorem nodup_out {V G W : Finset ℕ} {s : Shape} (h : TopoOk V G W s) {vs : List ℕ} (hn : vs.Nodup)
    (hm : ∀ x ∈ vs, x ∈ V) : (vs.map fun v => s.vG v OUT).Nodup := by
  refine List.Nodup.map_on ?_ hn
  intro a ha b hb e
  have h1 := h.gV_vG a (hm a ha) OUT
  have h2 := h.gV_vG b (hm b hb) OUT
  rw [e] at h1; exact h1.symm.trans h2

theorem prod_map_out {V G W : Finset ℕ} {s : Shape} (h : TopoOk V G W s) {vs : List ℕ} (hn : vs.Nodup)
    (hm : ∀ x ∈ vs, x ∈ V) (f : ℕ → F) :
    (vs.map fun v => f (s.vG v OUT)).prod = ∏ g ∈ (vs.map fun v => s.vG v OUT).toFinset, f g := by
  rw [List.prod_toFinset f (nodup_out h hn hm), List.map_map]; rfl

theorem changeRLoopCore_eq {P : Params Q F} (hP : P.Wf) {d : Diag Q F} (h : Inv P d) {vs : List ℕ} {fw : ℕ → ℕ}
    {oldR newR : Site} {v0 : ℕ} (hw : WalkRes d oldR v0 vs fw) (u : Q) :
    changeRLoopCore P d vs fw oldR newR u =
      metropolis d d (P.mod (movedRatio P d vs newR) * (probSite P newR / probSite P oldR)) u
        (.ok (movedDiag P d vs newR (movedRatio P d vs newR))) := by
  unfold changeRLoopCore
  rw [loopWeights_spec hP h hw.nodup hw.mem hw.step vs [] 0 fw 1 1 (by simp) (by
    intro w hw'; rw [hw.fw_eq w hw']; simp)]
  simp only [Res.ok_bind, one_mul]
  rw [newLines_nil, prod_map_out h.topo hw.nodup hw.mem (fun g => d.wt.gWt g),
    prod_map_out h.topo hw.nodup hw.mem (fun g => gExpected P d.sh (movedCo d vs newR) d.fl d.ext g)]
  congr 1
  have := foldl_loopAssign newR (gExpected P d.sh (movedCo d vs newR) d.fl d.ext)
    (wExpected P d.sh (movedCo d vs newR) d.fl d.ext) vs
    { d with phase := d.phase * P.ph (movedRatio P d vs newR), weight := d.weight * movedRatio P d vs newR }
  exact congrArg Res.ok this

omit [Field Q] [LinearOrder Q] [IsStrictOrderedRing Q] in
theorem prod_ite_sub {S T : Finset ℕ} {n o : ℕ → F} (hT : T ⊆ S) (h0 : ∀ x ∈ S, o x ≠ 0) :
    (∏ x ∈ S, if x ∈ T then n x else o x) = (∏ x ∈ S, o x) * ((∏ x ∈ T, n x) / ∏ x ∈ T, o x) := by
  classical
  have hne : (∏ x ∈ T, o x) ≠ 0 := Finset.prod_ne_zero_iff.2 fun x hx => h0 x (hT hx)
  rw [← Finset.prod_sdiff hT, ← Finset.prod_sdiff (f := o) hT]
  have e1 : (∏ x ∈ S \ T, if x ∈ T then n x else o x) = ∏ x ∈ S \ T, o x :=
    Finset.prod_congr rfl fun x hx => if_neg (Finset.mem_sdiff.1 hx).2
  have e2 : (∏ x ∈ T, if x ∈ T then n x else o x) = ∏ x ∈ T, n x :=
    Finset.prod_congr rfl fun x hx => if_pos hx
  rw [e1, e2]
  field_simp

theorem movedDiag_inv {P : Params Q F} {d : Diag Q F} (h : Inv P d) (ho : d.order ≠ 0) {vs : List ℕ} {newR : Site}
    (hm : ∀ x ∈ vs, x ∈ d.Ver.live) (hs : ∀ x ∈ vs, nextVertex d.sh x ∈ vs) (hR : SiteIn P newR)
    (hr : movedRatio P d vs newR ≠ 0) : Inv P (movedDiag P d vs newR (movedRatio P d vs newR)) := by
  have hweight := h.weight
  rw [if_neg ho] at hweight
  have hTG : (vs.map fun v => d.sh.vG v OUT).toFinset ⊆ d.G.live := by
    intro g hg
    simp only [List.mem_toFinset, List.mem_map] at hg
    obtain ⟨v, hv, rfl⟩ := hg
    exact h.topo.vG_mem v (hm v hv) OUT
  have hTW : (vs.map d.sh.vW).toFinset ⊆ d.W.live := by
    intro w hw
    simp only [List.mem_toFinset, List.mem_map] at hw
    obtain ⟨v, hv, rfl⟩ := hw
    exact h.topo.vW_mem v (hm v hv)
  have hnum : (∏ g ∈ (vs.map fun v => d.sh.vG v OUT).toFinset, gExpected P d.sh (movedCo d vs newR) d.fl d.ext g) *
    ∏ w ∈ (vs.map d.sh.vW).toFinset, wExpected P d.sh (movedCo d vs newR) d.fl d.ext w ≠ 0 := by
    intro q; apply hr; unfold movedRatio; rw [q, zero_div]
  have hgN := Finset.prod_ne_zero_iff.1 (left_ne_zero_of_mul hnum)
  have hwN := Finset.prod_ne_zero_iff.1 (right_ne_zero_of_mul hnum)
  exact {
    count := count_same h ho rfl rfl rfl rfl
    topo := h.topo
    kcons := h.kcons
    ghash := h.ghash
    whash := h.whash
    spin := h.spin
    worm := h.worm
    meas := h.meas
    delta := h.delta
    gamma := h.gamma
    dom := by
      intro v hv
      have := h.dom v hv
      simp only [movedDiag, movedCo]
      refine ⟨?_, this.2⟩
      split_ifs
      · exact hR
      · exact this.1
    ext := h.ext
    line := {
      g_eq := by
        intro g hg
        simp only [movedDiag]
        split_ifs with c
        · rfl
        · rw [h.line.g_eq g hg]
          have n1 : d.sh.gV g IN ∉ vs := by
            intro q
            exact c (List.mem_map.2 ⟨_, q, h.topo.vG_gV g hg IN⟩)
          have n2 : d.sh.gV g OUT ∉ vs := by
            intro q
            apply n1
            apply closed_prev h.topo hm hs (h.topo.gV_mem g hg IN)
            have : nextVertex d.sh (d.sh.gV g IN) = d.sh.gV g OUT := by
              unfold nextVertex; rw [show d.sh.vG (d.sh.gV g IN) OUT = g from h.topo.vG_gV g hg IN]
            rw [this]; exact q
          simp only [gExpected, movedCo, if_neg n1, if_neg n2]
      w_eq := by
        intro w hw
        simp only [movedDiag]
        split_ifs with c
        · rfl
        · rw [h.line.w_eq w hw]
          have n1 : ∀ e, d.sh.wV w e ∉ vs := by
            intro e q
            exact c (List.mem_map.2 ⟨_, q, h.topo.vW_wV w hw e⟩)
          simp only [wExpected, movedCo, if_neg (n1 _)]
      g_ne := by
        intro g hg
        simp only [movedDiag]
        split_ifs with c
        · exact hgN g (by simpa using c)
        · exact h.line.g_ne g hg
      w_ne := by
        intro w hw
        simp only [movedDiag]
        split_ifs with c
        · exact hwN w (by simpa using c)
        · exact h.line.w_ne w hw }
    weight := by
      rw [if_neg (show (movedDiag P d vs newR (movedRatio P d vs newR)).order ≠ 0 from ho)]
      simp only [movedDiag, totalWeight]
      have e1 := prod_ite_sub (n := gExpected P d.sh (movedCo d vs newR) d.fl d.ext) hTG h.line.g_ne
      have e2 := prod_ite_sub (n := wExpected P d.sh (movedCo d vs newR) d.fl d.ext) hTW h.line.w_ne
      simp only [List.mem_toFinset] at e1 e2
      rw [e1, e2, hweight, totalWeight, movedRatio]
      ring
    phase := by simp only [movedDiag, h.phase, map_mul]
    sign := h.sign }

theorem changeRLoop_spec {P : Params Q F} (hP : P.Wf) {d : Diag Q F} (h : Inv P d) (o : Words)
    (c1 : ¬ (d.order = 0 ∨ d.worm.exist = true)) :
    ∃ v0 res newR, d.Ver.pick (o 0) = .ok v0 ∧ v0 ∈ d.Ver.live ∧ SiteIn P newR ∧
      loopWalk d (d.co.r v0) 19 v0 [] (fun _ => false) (fun _ => 0) = .ok res ∧
      (res = none → (∃ k, d.co.r ((nextVertex d.sh)^[k] v0) ≠ d.co.r v0) ∧ changeRLoop P o d = skip d) ∧
      (∀ vs fw, res = some (vs, fw) → WalkRes d (d.co.r v0) v0 vs fw ∧ changeRLoop P o d =
        metropolis d d (P.mod (movedRatio P d vs newR) * (probSite P newR / probSite P (d.co.r v0))) (urn Q (o 4))
          (.ok (movedDiag P d vs newR (movedRatio P d vs newR)))) := by
  unfold changeRLoop
  rw [if_neg c1]
  have c2 : ¬ ¬ P.maxOrd ≤ MAX_ORDER := by have := hP.lt_max; omega
  rw [if_neg c2]
  simp only [not_or] at c1
  have c0 := h.count.n_pos
  have c3 := h.count.ver
  obtain ⟨v0, e0, m0⟩ := Bundle.pick_spec h.count.verWf (by omega) (o 0)
  have hwi : WalkInv d (d.co.r v0) v0 v0 [] (fun _ => false) (fun _ => 0) := {
    nodup := List.nodup_nil
    mem := by simp
    cur_mem := m0
    site := by simp
    cur_site := rfl
    step := by simp
    orbit := by simp
    cur_orbit := ⟨0, rfl⟩
    start := Or.inr rfl
    fv_iff := by simp
    fw_eq := by simp }
  obtain ⟨res, e1, hres, hnone⟩ := loopWalk_spec hP h (d.co.r v0) v0 19 v0 [] _ _ hwi rfl
  obtain ⟨newR, e2, hR⟩ := pickSite_spec hP (o 1) (o 2) (o 3)
  refine ⟨v0, res, newR, e0, m0, hR, e1, ?_, ?_⟩
  · intro hr
    refine ⟨hnone hr, ?_⟩
    simp only [e0, deref_live m0, Res.ok_bind]
    rw [show (2 * MAX_ORDER - 1) = 19 from rfl, e1, Res.ok_bind, hr]
  · intro vs fw hr
    have hw := hres vs fw hr
    refine ⟨hw, ?_⟩
    simp only [e0, deref_live m0, Res.ok_bind]
    rw [show (2 * MAX_ORDER - 1) = 19 from rfl, e1, Res.ok_bind, hr]
    simp only [e2, Res.ok_bind]
    rw [changeRLoopCore_eq hP h hw]

theorem changeRLoop_good {P : Params Q F} (hP : P.Wf) {d : Diag Q F} (h : Inv P d) (o : Words) :
    Good P d (changeRLoop P o d) := by
  by_cases c1 : d.order = 0 ∨ d.worm.exist = true
  · unfold changeRLoop; rw [if_pos c1]; exact good_skip h
  obtain ⟨v0, res, newR, -, -, hR, -, hn, hs⟩ := changeRLoop_spec hP h o c1
  simp only [not_or] at c1
  cases res with
  | none => rw [(hn rfl).2]; exact good_skip h
  | some p =>
    obtain ⟨hw, e⟩ := hs p.1 p.2 rfl
    rw [e]
    refine good_metropolis h (h.order_lt hP) fun hacc => ?_
    exact ⟨_, rfl, movedDiag_inv h c1.1 hw.mem hw.step hR (ratio_ne_zero (urn_nonneg _) hacc)⟩

end
end Feyn
