import Verif.Proof.Check
import Verif.Proof.Reach
import Verif.Proof.Extra
import Verif.Props.Demo

/-!
# The self check (C17)
-/

namespace Feyn

section
variable {Q F : Type} [Field Q] [LinearOrder Q] [Field F]

/-- Number of measuring lines among a set of lines. -/
def countMeas (S : Finset ℕ) (flag : ℕ → Bool) : ℕ := (S.filter fun x => flag x = true).card

theorem countMeas_eq (S : Finset ℕ) (flag : ℕ → Bool) :
    (∑ x ∈ S, if flag x = true then 1 else 0) = countMeas S flag := by
  unfold countMeas
  rw [Finset.card_filter]

theorem countMeas_single {S : Finset ℕ} {flag : ℕ → Bool} {b : Bool} {m : ℕ} (hm : b = true → m ∈ S)
    (h : ∀ x ∈ S, (flag x = true ↔ b = true ∧ x = m)) : countMeas S flag = if b = true then 1 else 0 := by
  unfold countMeas
  cases b with
  | true =>
    rw [if_pos rfl, Finset.card_eq_one]
    refine ⟨m, ?_⟩
    ext x
    simp only [Finset.mem_filter, Finset.mem_singleton]
    refine ⟨fun q => ((h x q.1).1 q.2).2, fun q => ?_⟩
    subst q
    exact ⟨hm rfl, (h x (hm rfl)).2 ⟨rfl, rfl⟩⟩
  | false =>
    rw [if_neg (by simp), Finset.card_eq_zero, Finset.filter_eq_empty_iff]
    intro x hx q
    have := ((h x hx).1 q).1
    cases this

omit [Field Q] [LinearOrder Q] [Field F] in
/-- The two loops of the topology check together with the numbers of lines and vertices give the whole topology. -/
theorem topo_of_check {d : Diag Q F} (hV : d.Ver.Wf) (hG : d.G.Wf) (hW : d.W.Wf)
    (n1 : d.G.avail = 2 * d.order) (n2 : d.W.avail = d.order) (n3 : d.Ver.avail = 2 * d.order)
    (hg : ∀ g ∈ d.G.live, ∀ e, d.sh.gV g e ∈ d.Ver.live ∧ d.sh.vG (d.sh.gV g e) (!e) = g)
    (hw : ∀ w ∈ d.W.live, ∀ e, d.sh.wV w e ∈ d.Ver.live ∧ d.sh.vW (d.sh.wV w e) = w ∧ d.sh.vDir (d.sh.wV w e) = e) :
    TopoOk d.Ver.live d.G.live d.W.live d.sh := by
  have cg := Bundle.card_live hG
  have cw := Bundle.card_live hW
  have cv := Bundle.card_live hV
  have sg : ∀ e, ∀ v ∈ d.Ver.live, ∃ g ∈ d.G.live, d.sh.gV g e = v := by
    intro e
    have := Finset.surjOn_of_injOn_of_card_le (s := d.G.live) (t := d.Ver.live) (fun g => d.sh.gV g e)
      (fun g q => (hg g q e).1) (fun g q g' q' k => by
        have k' : d.sh.gV g e = d.sh.gV g' e := k
        rw [← (hg g q e).2, ← (hg g' q' e).2, k']) (by omega)
    intro v hv
    obtain ⟨g, q, k⟩ := this hv
    exact ⟨g, q, k⟩
  have sw : ∀ v ∈ d.Ver.live, ∃ w ∈ d.W.live, ∃ e, d.sh.wV w e = v := by
    have := Finset.surjOn_of_injOn_of_card_le (s := d.W.live ×ˢ (Finset.univ : Finset Bool)) (t := d.Ver.live)
      (fun x => d.sh.wV x.1 x.2) (fun x q => by
        simp only [Finset.coe_product, Set.mem_prod] at q
        exact (hw x.1 q.1 x.2).1) (fun x q y q' k => by
        simp only [Finset.coe_product, Set.mem_prod] at q q'
        have k' : d.sh.wV x.1 x.2 = d.sh.wV y.1 y.2 := k
        have a := hw x.1 q.1 x.2
        have b := hw y.1 q'.1 y.2
        exact Prod.ext (by rw [← a.2.1, ← b.2.1, k']) (by rw [← a.2.2, ← b.2.2, k'])) (by
        rw [Finset.card_product, Finset.card_univ, Fintype.card_bool]; omega)
    intro v hv
    obtain ⟨x, q, k⟩ := this hv
    simp only [Finset.coe_product, Set.mem_prod] at q
    exact ⟨x.1, q.1, x.2, k⟩
  constructor
  · exact fun g q e => (hg g q e).1
  · exact fun g q e => (hg g q e).2
  · intro v hv e
    obtain ⟨g, q, rfl⟩ := sg (!e) v hv
    have := (hg g q (!e)).2
    rw [Bool.not_not] at this
    rw [this]; exact q
  · intro v hv e
    obtain ⟨g, q, rfl⟩ := sg (!e) v hv
    have := (hg g q (!e)).2
    rw [Bool.not_not] at this
    rw [this]
  · exact fun g q e => (hw g q e).1
  · exact fun g q e => (hw g q e).2.1
  · exact fun g q e => (hw g q e).2.2
  · intro v hv
    obtain ⟨w, q, e, rfl⟩ := sw v hv
    rw [(hw w q e).2.1]; exact q
  · intro v hv
    obtain ⟨w, q, e, rfl⟩ := sw v hv
    rw [(hw w q e).2.1, (hw w q e).2.2]

omit [Field Q] [LinearOrder Q] [Field F] in
theorem worm_of_check {d : Diag Q F} {w : ℕ} (h : checkStatusWorm d w = .ok ()) :
    (d.fl.wWorm w = true → d.sh.vW d.worm.ira = w ∨ d.sh.vW d.worm.masha = w) ∧
    (d.worm.exist = true → d.sh.vW d.worm.ira = w ∨ d.sh.vW d.worm.masha = w → d.fl.wWorm w = true) := by
  unfold checkStatusWorm deref at h
  cases hw : d.fl.wWorm w <;> cases he : d.worm.exist <;> by_cases c1 : d.worm.ira < MAX_BUNDLE <;>
    by_cases c2 : d.sh.vW d.worm.ira = w <;> by_cases c3 : d.worm.masha < MAX_BUNDLE <;>
    by_cases c4 : d.sh.vW d.worm.masha = w <;> simp_all

/-- **C17, soundness.** Take any diagram of order at least one, reachable or not, whose containers are consistent. If the
self check passes, then the numbers of lines and vertices fit the order, every vertex has exactly one incoming and one
outgoing propagator and one interaction line and all back pointers are right, spin is conserved along propagators, there is
exactly one measuring line and the pointer to a measured propagator is right, instantaneous lines have equal times and are
not measured, worm flags are right, momentum is conserved (if all momenta are in range and the worm ends differ), the cached weights are the
ones computed from the tables, and the total weight is their product, up to the tolerance `near`. -/
theorem C17_check_sound {near : F → F → Bool} {P : Params Q F} {d : Diag Q F} (hV : d.Ver.Wf) (hG : d.G.Wf) (hW : d.W.Wf)
    (ho : d.order ≠ 0) (h : checkDiagram near P d = .ok true) :
    d.G.live.card = 2 * d.order ∧ d.W.live.card = d.order ∧ d.Ver.live.card = 2 * d.order ∧
    TopoOk d.Ver.live d.G.live d.W.live d.sh ∧
    (∀ v ∈ d.Ver.live, (∃! g, g ∈ d.G.live ∧ d.sh.gV g OUT = v) ∧ (∃! g, g ∈ d.G.live ∧ d.sh.gV g IN = v) ∧
      ∃! w, w ∈ d.W.live ∧ ∃ e, d.sh.wV w e = v) ∧
    SpinOk d.G.live d.sh d.co.spin ∧
    countMeas d.G.live d.fl.gMeas + countMeas d.W.live d.fl.wMeas = 1 ∧
    (countMeas d.G.live d.fl.gMeas = 1 ↔ d.measG = true) ∧
    (∀ g ∈ d.G.live, d.fl.gMeas g = true → g = d.gMeasure) ∧
    (∀ w ∈ d.W.live, d.fl.wDelta w = true →
      d.co.tau (d.sh.wV w IN) = d.co.tau (d.sh.wV w OUT) ∧ d.fl.wMeas w = false) ∧
    (∀ w ∈ d.W.live, (d.fl.wWorm w = true → d.sh.vW d.worm.ira = w ∨ d.sh.vW d.worm.masha = w) ∧
      (d.worm.exist = true → d.sh.vW d.worm.ira = w ∨ d.sh.vW d.worm.masha = w → d.fl.wWorm w = true)) ∧
    ((∀ g ∈ d.G.live, InK (d.mo.gK g)) → (∀ w ∈ d.W.live, InK (d.mo.wK w)) →
      (d.worm.exist = true → InK d.worm.k ∧ d.worm.ira ≠ d.worm.masha) →
      ∀ v ∈ d.Ver.live, KConserved d.sh d.mo d.worm v) ∧
    (∀ g ∈ d.G.live, near (d.wt.gWt g) (gExpected P d.sh d.co d.fl d.ext g) = true) ∧
    (∀ w ∈ d.W.live, near (d.wt.wWt w) (wExpected P d.sh d.co d.fl d.ext w) = true) ∧
    near (totalWeight d.G.live d.W.live d.wt d.sfl d.order) d.weight = true := by
  unfold checkDiagram at h
  cases e1 : checkTopo d with
  | abort => rw [e1] at h; cases h
  | ub => rw [e1] at h; cases h
  | ok u1 =>
  rw [e1, Res.ok_bind] at h
  obtain ⟨n1, n2, n3, hg, hw⟩ := (checkTopo_ok hG hW ho).1 e1
  have ht := topo_of_check hV hG hW n1 n2 n3 hg hw
  have lg : ∀ g ∈ d.G.live, ∀ e, d.sh.gV g e < MAX_BUNDLE := fun g q e => Bundle.live_lt (hg g q e).1
  have lw : ∀ w ∈ d.W.live, ∀ e, d.sh.wV w e < MAX_BUNDLE := fun g q e => Bundle.live_lt (hw g q e).1
  cases e2 : checkStatus d with
  | abort => rw [e2] at h; cases h
  | ub => rw [e2] at h; cases h
  | ok u2 =>
  rw [e2, Res.ok_bind] at h
  obtain ⟨s1, s2, s3, s4⟩ := (checkStatus_ok hG hW ho lw).1 e2
  rw [countMeas_eq] at s2 s4
  cases e3 : checkK d with
  | abort => rw [e3] at h; cases h
  | ub => rw [e3] at h; cases h
  | ok u3 =>
  rw [e3, Res.ok_bind] at h
  have k := (checkK_ok hV ho (fun v q e => Bundle.live_lt (ht.vG_mem v q e)) (fun v q => Bundle.live_lt (ht.vW_mem v q))).1 e3
  cases e4 : checkSpin d with
  | abort => rw [e4] at h; cases h
  | ub => rw [e4] at h; cases h
  | ok u4 =>
  rw [e4, Res.ok_bind] at h
  have sp := (checkSpin_ok hG ho lg).1 e4
  obtain ⟨b, e5, hb⟩ := checkWeight_eq (near := near) (P := P) hG hW ho lg lw
  rw [e5] at h
  cases h
  obtain ⟨w1, w2, w3⟩ := hb.1 rfl
  refine ⟨by rw [Bundle.card_live hG, n1], by rw [Bundle.card_live hW, n2], by rw [Bundle.card_live hV, n3], ht, ?_, sp, ?_,
    ?_, s1, fun w q => (s3 w q).2, fun w q => worm_of_check (s3 w q).1, ?_, fun g q => (w1 g q).1, fun g q => (w2 g q).1, w3⟩
  · intro v hv
    refine ⟨⟨d.sh.vG v IN, ⟨ht.vG_mem v hv IN, ht.gV_vG v hv IN⟩, ?_⟩,
      ⟨d.sh.vG v OUT, ⟨ht.vG_mem v hv OUT, ht.gV_vG v hv OUT⟩, ?_⟩,
      ⟨d.sh.vW v, ⟨ht.vW_mem v hv, _, ht.wV_vW v hv⟩, ?_⟩⟩
    · rintro g ⟨q, rfl⟩; exact (ht.vG_gV g q OUT).symm
    · rintro g ⟨q, rfl⟩; exact (ht.vG_gV g q IN).symm
    · rintro w ⟨q, e, rfl⟩; exact (ht.vW_wV w q e).symm
  · rw [s2, s4]; cases d.measG <;> rfl
  · rw [s2]; cases d.measG <;> simp
  · intro i1 i2 i3 v hv
    exact (totalK_zero (i1 _ (ht.vG_mem v hv _)) (i1 _ (ht.vG_mem v hv _)) (i2 _ (ht.vW_mem v hv)) (fun q => (i3 q).1)
      (fun q => (i3 q).2)).1 (k v hv)

end

section
set_option linter.unusedSectionVars false
variable {Q F : Type} [Field Q] [LinearOrder Q] [IsStrictOrderedRing Q] [Field F]

/-- Both ends of each instantaneous line have the same time. -/
def EqualTimes (d : Diag Q F) : Prop := ∀ w ∈ d.W.live, d.fl.wDelta w = true → d.co.tau (d.sh.wV w IN) = d.co.tau (d.sh.wV w OUT)

theorem check_inv {near : F → F → Bool} (hn : ∀ a, near a a = true) {P : Params Q F} {d : Diag Q F} (hi : Inv P d)
    (hd : d.order ≠ 0 → EqualTimes d) :
    ∃ b, checkDiagram near P d = .ok b ∧
      (b = true ↔ d.order = 0 ∨
        (∀ g ∈ d.G.live, near (d.wt.gWt g) 0 = false) ∧ ∀ w ∈ d.W.live, near (d.wt.wWt w) 0 = false) := by
  by_cases ho : d.order = 0
  · refine ⟨true, ?_, fun _ => Or.inl ho, fun _ => rfl⟩
    unfold checkDiagram checkTopo checkStatus checkK checkSpin checkWeight
    rw [if_pos ho, if_pos ho, if_pos ho, if_pos ho, if_pos ho, hi.weight, if_pos ho, hn]
    rfl
  have no : d.order = d.W.avail := by
    rcases hi.count.order with q | q
    · exact q
    · exact absurd q.1 ho
  have hG := hi.count.gWf
  have hW := hi.count.wWf
  have hV := hi.count.verWf
  have ht := hi.topo
  have lg : ∀ g ∈ d.G.live, ∀ e, d.sh.gV g e < MAX_BUNDLE := fun g q e => Bundle.live_lt (ht.gV_mem g q e)
  have lw : ∀ w ∈ d.W.live, ∀ e, d.sh.wV w e < MAX_BUNDLE := fun g q e => Bundle.live_lt (ht.wV_mem g q e)
  have e1 : checkTopo d = .ok () := (checkTopo_ok hG hW ho).2 ⟨by rw [hi.count.g, no], no.symm, by rw [hi.count.ver, no],
    fun g q e => ⟨ht.gV_mem g q e, ht.vG_gV g q e⟩, fun w q e => ⟨ht.wV_mem w q e, ht.vW_wV w q e, ht.vDir_wV w q e⟩⟩
  have e2 : checkStatus d = .ok () := by
    refine (checkStatus_ok hG hW ho lw).2 ⟨fun g q k => ((hi.meas.g_flag g q).1 k).2, ?_, fun w q => ⟨?_, ?_⟩, ?_⟩
    · rw [countMeas_eq]; exact countMeas_single hi.meas.g_mem hi.meas.g_flag
    · refine (checkStatusWorm_ok (fun k => Bundle.live_lt (hi.worm.ira_mem k))
        (fun k => Bundle.live_lt (hi.worm.masha_mem k))).2 ⟨?_, ?_⟩
      · intro k
        obtain ⟨k1, e, k2 | k2⟩ := (hi.worm.flag w q).1 k
        · exact ⟨Bundle.live_lt (hi.worm.ira_mem k1), Or.inl (by rw [← k2]; exact ht.vW_wV w q e)⟩
        · exact ⟨Bundle.live_lt (hi.worm.ira_mem k1),
            Or.inr ⟨Bundle.live_lt (hi.worm.masha_mem k1), by rw [← k2]; exact ht.vW_wV w q e⟩⟩
      · intro k k1
        have nf : ¬ d.fl.wWorm w = true := by rw [k]; exact nofun
        constructor
        · intro j
          refine nf ((hi.worm.flag w q).2 ⟨k1, d.sh.vDir d.worm.ira, Or.inl ?_⟩)
          rw [← j]; exact ht.wV_vW _ (hi.worm.ira_mem k1)
        · intro j
          refine nf ((hi.worm.flag w q).2 ⟨k1, d.sh.vDir d.worm.masha, Or.inr ?_⟩)
          rw [← j]; exact ht.wV_vW _ (hi.worm.masha_mem k1)
    · intro k
      exact ⟨hd ho w q k, (hi.delta w q k).1⟩
    · rw [countMeas_eq]
      have := countMeas_single (S := d.W.live) (flag := d.fl.wMeas) (b := !d.measG) (m := d.wMeasure)
        (fun k => hi.meas.w_mem (by simpa using k)) (fun w q => by rw [hi.meas.w_flag w q]; simp)
      rw [this]
      cases d.measG <;> simp
  have e3 : checkK d = .ok () := by
    refine (checkK_ok hV ho (fun v q e => Bundle.live_lt (ht.vG_mem v q e)) (fun v q => Bundle.live_lt (ht.vW_mem v q))).2
      fun v hv => ?_
    exact (totalK_zero (hi.ghash.mem _ (ht.vG_mem v hv _)) (hi.ghash.mem _ (ht.vG_mem v hv _))
      (hi.whash.mem _ (ht.vW_mem v hv)) hi.worm.k_in hi.worm.ne).2 (hi.kcons v hv)
  have e4 : checkSpin d = .ok () := (checkSpin_ok hG ho lg).2 hi.spin
  obtain ⟨b, e5, hb⟩ := checkWeight_eq (near := near) (P := P) hG hW ho lg lw
  refine ⟨b, ?_, ?_⟩
  · unfold checkDiagram
    rw [e1, Res.ok_bind, e2, Res.ok_bind, e3, Res.ok_bind, e4, Res.ok_bind, e5]
  · rw [hb]
    constructor
    · exact fun k => Or.inr ⟨fun g q => (k.1 g q).2, fun w q => (k.2.1 w q).2⟩
    · rintro (k | k)
      · exact absurd k ho
      · refine ⟨fun g q => ⟨?_, k.1 g q⟩, fun w q => ⟨?_, k.2 w q⟩, ?_⟩
        · rw [hi.line.g_eq g q]; exact hn _
        · rw [hi.line.w_eq w q]; exact hn _
        · rw [hi.weight, if_neg ho, no]; exact hn _

/-- A call that cannot run into undefined behaviour. -/
def Res.Safe {α : Type} (r : Res α) : Prop := r ≠ .ub

theorem Res.Safe.bind {α β : Type} {r : Res α} {f : α → Res β} (h : r.Safe) (k : ∀ a, r = .ok a → (f a).Safe) : (r >>= f).Safe := by
  cases r with
  | ok a => exact k a rfl
  | abort => exact nofun
  | ub => exact absurd rfl h

theorem loopM_safe {β : Type} {f : β → ℕ → Res β} (l : List ℕ) (h : ∀ b, ∀ i ∈ l, (f b i).Safe) (b : β) : (loopM f b l).Safe := by
  induction l generalizing b with
  | nil => exact nofun
  | cons a l ih =>
    unfold loopM
    exact (h b a (by simp)).bind fun c _ => ih (fun b i hi => h b i (by simp [hi])) c

theorem checkStatus_safe {P : Params Q F} {d : Diag Q F} (hi : Inv P d) : (checkStatus d).Safe := by
  have hG := hi.count.gWf
  have hW := hi.count.wWf
  unfold checkStatus
  by_cases ho : d.order = 0
  · rw [if_pos ho]; exact nofun
  rw [if_neg ho]
  refine Res.Safe.bind (loopM_safe _ ?_ _) fun n _ => ?_
  · intro n i hx
    have hlt := List.mem_range.1 hx
    have hm := Bundle.slot_mem_live hG hlt
    unfold checkStatusG
    rw [Bundle.get_spec hG hlt, Res.ok_bind, deref_ok (Bundle.live_lt hm), Res.ok_bind]
    split_ifs <;> exact nofun
  · by_cases hc : n ≠ (if d.measG = true then 1 else 0)
    · rw [if_pos hc]; exact nofun
    · rw [if_neg hc]
      refine Res.Safe.bind (loopM_safe _ ?_ _) fun m _ => ?_
      · intro n i hx
        have hlt := List.mem_range.1 hx
        have hm := Bundle.slot_mem_live hW hlt
        unfold checkStatusW
        rw [Bundle.get_spec hW hlt, Res.ok_bind, deref_ok (Bundle.live_lt hm), Res.ok_bind]
        refine Res.Safe.bind ?_ fun _ _ => ?_
        · unfold checkStatusWorm
          have ht := hi.topo
          have w1 : d.fl.wWorm (d.W.slot i) = true → d.worm.exist = true := fun k => ((hi.worm.flag _ hm).1 k).1
          by_cases k : d.worm.exist = true
          · rw [deref_ok (Bundle.live_lt (hi.worm.ira_mem k)), deref_ok (Bundle.live_lt (hi.worm.masha_mem k))]
            simp only [Res.ok_bind]
            split_ifs <;> exact nofun
          · rw [if_neg (fun q => k (w1 q)), if_neg k]; exact nofun
        · have ht := hi.topo
          rw [deref_ok (Bundle.live_lt (ht.wV_mem _ hm _)), deref_ok (Bundle.live_lt (ht.wV_mem _ hm _))]
          simp only [Res.ok_bind]
          split_ifs <;> exact nofun
      · split_ifs <;> exact nofun

theorem check_inv_abort {near : F → F → Bool} {P : Params Q F} {d : Diag Q F} (hi : Inv P d) (ho : d.order ≠ 0)
    (hd : ¬ EqualTimes d) : checkDiagram near P d = .abort := by
  have no : d.order = d.W.avail := by
    rcases hi.count.order with q | q
    · exact q
    · exact absurd q.1 ho
  have hG := hi.count.gWf
  have hW := hi.count.wWf
  have ht := hi.topo
  have e1 : checkTopo d = .ok () := (checkTopo_ok hG hW ho).2 ⟨by rw [hi.count.g, no], no.symm, by rw [hi.count.ver, no],
    fun g q e => ⟨ht.gV_mem g q e, ht.vG_gV g q e⟩, fun w q e => ⟨ht.wV_mem w q e, ht.vW_wV w q e, ht.vDir_wV w q e⟩⟩
  have e2 : checkStatus d = .abort := by
    have k1 := checkStatus_safe hi
    have k2 : checkStatus d ≠ .ok () := fun q => hd fun w hw k =>
      ((((checkStatus_ok hG hW ho fun w q e => Bundle.live_lt (ht.wV_mem w q e)).1 q).2.2.1 w hw).2 k).1
    cases h : checkStatus d with
    | ok x => cases x; exact absurd h k2
    | abort => rfl
    | ub => exact absurd h k1
  unfold checkDiagram
  rw [e1, Res.ok_bind, e2]
  rfl

/-- **C17, no false alarm.** On every state reached without an order-0 excursion of an instantaneous line the self check
returns normally. It returns true exactly if no line weight lies within the tolerance of zero. -/
theorem C17_no_false_alarm {near : F → F → Bool} (hn : ∀ a, near a a = true) {P₀ : Params Q F} {c : Chain Q F}
    (hP : P₀.Wf) (hS : StartOk P₀) (h : ReachD P₀ c) :
    ∃ b, checkDiagram near c.P c.d = .ok b ∧
      (b = true ↔ c.d.order = 0 ∨
        (∀ g ∈ c.d.G.live, near (c.d.wt.gWt g) 0 = false) ∧ ∀ w ∈ c.d.W.live, near (c.d.wt.wWt w) 0 = false) :=
  check_inv hn (h.reach.inv hP hS).2 fun _ => h.deltaTau hP hS

/-- **C17, exact behaviour.** On every reachable state the self check does one of three things: it ends the program exactly if the order is
not zero and an instantaneous line has unequal end times; otherwise it returns, with the result false exactly if some line
weight of a diagram of order at least one lies within the tolerance of zero. It never runs into undefined behaviour. -/
theorem C17_exact {near : F → F → Bool} (hn : ∀ a, near a a = true) {P₀ : Params Q F} {c : Chain Q F}
    (hP : P₀.Wf) (hS : StartOk P₀) (h : Reach P₀ c) :
    (checkDiagram near c.P c.d = .abort ↔ c.d.order ≠ 0 ∧ ¬ EqualTimes c.d) ∧
    (checkDiagram near c.P c.d = .ok false ↔ c.d.order ≠ 0 ∧ EqualTimes c.d ∧
      ((∃ g ∈ c.d.G.live, near (c.d.wt.gWt g) 0 = true) ∨ ∃ w ∈ c.d.W.live, near (c.d.wt.wWt w) 0 = true)) ∧
    checkDiagram near c.P c.d ≠ .ub := by
  have hi := (h.inv hP hS).2
  by_cases k : c.d.order ≠ 0 ∧ ¬ EqualTimes c.d
  · rw [check_inv_abort hi k.1 k.2]
    exact ⟨⟨fun _ => k, fun _ => rfl⟩, ⟨nofun, fun q => absurd q.2.1 k.2⟩, nofun⟩
  · obtain ⟨b, e, hb⟩ := check_inv hn hi fun ho => by
      by_contra q; exact k ⟨ho, q⟩
    rw [e]
    refine ⟨⟨nofun, fun q => absurd q k⟩, ?_, nofun⟩
    constructor
    · intro q
      cases q
      have hb' : ¬ (c.d.order = 0 ∨ (∀ g ∈ c.d.G.live, near (c.d.wt.gWt g) 0 = false) ∧
        ∀ w ∈ c.d.W.live, near (c.d.wt.wWt w) 0 = false) := fun q => by simpa using hb.2 q
      rw [not_or] at hb'
      refine ⟨hb'.1, by by_contra q; exact k ⟨hb'.1, q⟩, ?_⟩
      by_contra q
      rw [not_or] at q
      refine hb'.2 ⟨fun g hg => ?_, fun w hw => ?_⟩
      · by_contra r; exact q.1 ⟨g, hg, by simpa using r⟩
      · by_contra r; exact q.2 ⟨w, hw, by simpa using r⟩
    · rintro ⟨k1, -, k2⟩
      cases b
      · rfl
      · exfalso
        rcases hb.1 rfl with q | ⟨q1, q2⟩
        · exact k1 q
        · rcases k2 with ⟨g, hg, r⟩ | ⟨w, hw, r⟩
          · rw [q1 g hg] at r; cases r
          · rw [q2 w hw] at r; cases r

end

/-- Comparison up to `1e-9` as in `Equal`. -/
def nearQ (a b : ℚ) : Bool := decide (|a - b| < 1 / 1000000000)

/-- A run at order 3 with a worm on which the check runs and passes. -/
example : ∃ c, ReachD demoP c ∧ (c.d.order == 3 && (checkDiagram nearQ c.P c.d).test id) = true :=
  demo_reachD demoOps _ (by decide +kernel)

/-- The tolerance is absolute: with interactions of weight `1e-10`, a legal non-zero value, the check reports an error on
a correct diagram. -/
theorem C17_small_weights_raise_alarm : ∃ (P₀ : Params ℚ ℚ) (c : Chain ℚ ℚ), P₀.Wf ∧ StartOk P₀ ∧ Reach P₀ c ∧
    c.d.order = 1 ∧ checkDiagram nearQ c.P c.d = .ok false := by
  obtain ⟨c, hr, hf⟩ := demo_reach (P := { demoP with wSmoothT := fun _ _ _ _ _ _ => 1 / 10000000000 }) []
    (fun (c : Chain ℚ ℚ) => c.d.order == 1 && decide (checkDiagram nearQ c.P c.d = .ok false)) (by decide +kernel)
  simp only [Bool.and_eq_true, beq_iff_eq, decide_eq_true_eq] at hf
  exact ⟨_, c, by constructor <;> simp [demoP, normWeight], by constructor <;> simp [demoP, SiteIn, startSite], hr, hf.1, hf.2⟩

end Feyn
