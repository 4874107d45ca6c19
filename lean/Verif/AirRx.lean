import Verif.AirInv

/-!
# Macro PHYs on one channel: undisturbed arrivals (helper lemmas)
-/

namespace Thz.Air

open Thz

variable {F P : Type}

/-- While transmission `n` arrives at device `j`, `j` does not transmit and no other transmission arrives there.  (`j` may transmit
from the moment it has been given the frame.) -/
structure Clean (log : List (Obs F P)) (n : Nat) (x : Tx F P) (j : Nat) : Prop where
  own : ∀ a z n' x', log = a ++ Obs.tx n' x' :: z → x'.i = j →
    x'.t + x'.dur < x.first j ∨ x.last j < x'.t ∨ (x'.t = x.last j ∧ Obs.rx x'.t n j x.f ∈ a)
  others : ∀ n' x', Obs.tx n' x' ∈ log → x'.i ≠ j → n' ≠ n → x'.last j < x.first j ∨ x.last j < x'.first j

theorem Clean.mono {log more : List (Obs F P)} {n : Nat} {x : Tx F P} {j : Nat} (h : Clean (log ++ more) n x j) : Clean log n x j :=
  ⟨fun a z n' x' e => h.own a (z ++ more) n' x' (by rw [e]; simp), fun _ _ hm => h.others _ _ (List.mem_append_left _ hm)⟩

/-- Device `j` can receive this transmission if nothing disturbs it. -/
structure Strong (w : World P) (x : Tx F P) (j : Nat) : Prop where
  long : 0 < x.dur
  loud : (w.pcfg j).loud (x.pw j) = true
  sinr : (w.pcfg j).sinr (x.pw j) [] = true

/-- The PHY of `j` is receiving transmission `n`, or has received it. -/
def Held (s : St F P) (n : Nat) (x : Tx F P) (j : Nat) : Prop :=
  ∀ id, (s.heard j)[id]? = some n →
    (∀ tid due pw, (tid, due, PhyMacro.Ev.rxDone id pw) ∈ (s.phy j).pend → (s.phy j).state = .rx ∧ (s.phy j).pktRx = some id) ∧
    ((∀ tid due pw, (tid, due, PhyMacro.Ev.rxDone id pw) ∉ (s.phy j).pend) → ∃ t, Obs.rx t n j x.f ∈ s.log)

/-- More facts about every reachable state. -/
def Und (w : World P) (s : St F P) : Prop :=
  ∀ n x j, s.sent[n]? = some x → j < w.num → j ≠ x.i → Strong w x j → Clean s.log n x j → Held s n x j

theorem Und.init (w : World P) : Und w (init F P) := by
  intro n x j h
  simp [Air.init] at h

variable {w : World P} {s : St F P}

theorem log_grows (w : World P) (s : St F P) (o : Op F P) : ∃ more, (step w s o).log = s.log ++ more := by
  unfold step
  split
  · cases o with
    | send i f dur delay pw =>
      show ∃ more, (send w i f dur delay pw s).log = _
      unfold send
      dsimp only
      split
      · exact ⟨_, rfl⟩
      · exact ⟨[], (List.append_nil _).symm⟩
    | land n j =>
      show ∃ more, (land w n j s).log = _
      unfold land
      split <;> exact ⟨[], (List.append_nil _).symm⟩
    | fire i tid => exact ⟨_, rfl⟩
    | tick d => exact ⟨[], (List.append_nil _).symm⟩
  · exact ⟨[], (List.append_nil _).symm⟩

/-- Two arrivals at a device are not pending at the same time if one of them is undisturbed. -/
theorem alone (h : Inv w s) {n : Nat} {x : Tx F P} {j : Nat} (hx : s.sent[n]? = some x) (hcl : Clean s.log n x j) {id id' tid tid' : Nat}
    {due due' : ℤ} {pw pw' : P} (hid : (s.heard j)[id]? = some n) (hm : (tid, due, PhyMacro.Ev.rxDone id pw) ∈ (s.phy j).pend)
    (hm' : (tid', due', PhyMacro.Ev.rxDone id' pw') ∈ (s.phy j).pend) : id' = id := by
  by_contra hne
  obtain ⟨n1, x1, a1, a2, a3, -⟩ := (h.dev j).rx _ _ _ _ hm
  have e1 : n1 = n := Option.some.inj (a1.symm.trans hid)
  subst e1
  have e2 : x1 = x := Option.some.inj (a2.symm.trans hx)
  subst e2
  obtain ⟨n2, x2, b1, b2, b3, -⟩ := (h.dev j).rx _ _ _ _ hm'
  have hnn : n2 ≠ n1 := by
    rintro rfl
    exact hne (nodup_idx (h.dev j).hnd b1 a1)
  obtain ⟨y1, c1, -, c3⟩ := (h.dev j).hOk n1 (List.mem_of_getElem? a1)
  obtain ⟨y2, d1, d2, d3⟩ := (h.dev j).hOk n2 (List.mem_of_getElem? b1)
  have e3 : y1 = x1 := Option.some.inj (c1.symm.trans a2)
  have e4 : y2 = x2 := Option.some.inj (d1.symm.trans b2)
  subst e3 e4
  have f1 := (h.dev j).ahead _ hm
  have f2 := (h.dev j).ahead _ hm'
  simp only at f1 f2
  rcases hcl.others n2 y2 ((h.logTx _ _).2 b2) d2 hnn with q | q <;> omega

theorem Und.step (hw : w.Wf) (h : Inv w s) (u : Und w s) (o : Op F P) : Und w (step w s o) := by
  intro n x j hx hj hji hst hcl
  obtain ⟨more, hmore⟩ := log_grows w s o
  have hcl0 : Clean s.log n x j := by rw [hmore] at hcl; exact hcl.mono
  unfold Air.step at hx hcl ⊢
  split at hcl
  · rename_i ha
    rw [if_pos ha] at hx
    rw [if_pos ha]
    cases o with
    | tick d =>
      have old := u n x j hx hj hji hst hcl0
      exact old
    | send i f dur delay pw =>
      dsimp only at hx hcl ⊢
      unfold Air.send at hx hcl ⊢
      dsimp only at hx hcl ⊢
      by_cases hstx : (s.phy i).state = .tx
      · have e : (PhyMacro.sendPacket s.sent.length dur (s.phy i)).1 = false := by unfold PhyMacro.sendPacket; rw [if_pos hstx]
        rw [if_neg (by rw [e]; decide)] at hx ⊢
        have old := u n x j hx hj hji hst hcl0
        have e2 : (PhyMacro.sendPacket s.sent.length dur (s.phy i)).2 = (s.phy i).emit (.refused (s.phy i).now s.sent.length) := by
          unfold PhyMacro.sendPacket; rw [if_pos hstx]
        intro id hid
        have o1 := old id hid
        dsimp only
        by_cases ej : j = i
        · subst ej; rw [Function.update_self, e2]; exact o1
        · rw [Function.update_of_ne ej]; exact o1
      · have e : (PhyMacro.sendPacket s.sent.length dur (s.phy i)).1 = true := by unfold PhyMacro.sendPacket; rw [if_neg hstx]
        rw [if_pos e] at hx hcl ⊢
        dsimp only at hx hcl
        intro id hid
        dsimp only at hid ⊢
        have hx0 : s.sent[n]? = some x := by
          rcases some_snoc hx with hx | ⟨rfl, -⟩
          · exact hx
          · obtain ⟨y, h1, -⟩ := (h.dev j).hOk _ (List.mem_of_getElem? hid)
            have := (List.getElem?_eq_some_iff.1 h1).1
            omega
        have o1 := u n x j hx0 hj hji hst hcl0 id hid
        by_cases ej : j = i
        · subst ej
          rw [Function.update_self]
          have e2 : (PhyMacro.sendPacket s.sent.length dur (s.phy j)).2.pend =
              (s.phy j).pend ++ [((s.phy j).nextTid, (s.phy j).now + (dur : ℤ), .txDone s.sent.length)] := by
            unfold PhyMacro.sendPacket; rw [if_neg hstx]
          rw [e2]
          refine ⟨fun tid due pw' hm => ?_, fun hno => ?_⟩
          · exfalso
            rcases List.mem_append.1 hm with hm | hm
            · obtain ⟨n1, x1, a1, a2, a3, -⟩ := (h.dev j).rx _ _ _ _ hm
              have e1 : n1 = n := Option.some.inj (a1.symm.trans hid)
              subst e1
              have e2 : x1 = x := Option.some.inj (a2.symm.trans hx0)
              subst e2
              obtain ⟨y1, c1, -, c3⟩ := (h.dev j).hOk n1 (List.mem_of_getElem? a1)
              have e3 : y1 = x1 := Option.some.inj (c1.symm.trans a2)
              subst e3
              have f1 := (h.dev j).ahead _ hm
              simp only at f1
              rcases hcl.own s.log [] _ _ rfl rfl with q | q | ⟨-, q⟩
              · simp only at q; omega
              · simp only at q; omega
              · obtain ⟨z, id', g1, -, -, -, g5⟩ := h.logRx _ _ _ _ q
                have := nodup_idx (h.dev j).hnd g1 a1
                subst this
                exact g5 _ _ _ hm
            · have := List.mem_singleton.1 hm
              simp at this
          · obtain ⟨t, ht⟩ := o1.2 (fun tid due pw' hm => hno tid due pw' (List.mem_append_left _ hm))
            exact ⟨t, List.mem_append_left _ ht⟩
        · rw [Function.update_of_ne ej]
          refine ⟨o1.1, fun hno => ?_⟩
          obtain ⟨t, ht⟩ := o1.2 hno
          exact ⟨t, List.mem_append_left _ ht⟩
    | land m k =>
      simp only [allowed, Bool.and_eq_true, decide_eq_true_eq] at ha
      obtain ⟨y, hy, hyi, hk, hle, hnh⟩ := h.fly m k ha.1
      have hfirst : y.first k = s.now := by
        have hdue := ha.2
        unfold dueBy at hdue
        dsimp only at hdue
        rw [hy] at hdue
        have : y.first k ≤ s.now := by simpa using hdue
        omega
      dsimp only at hx hcl ⊢
      unfold Air.land at hx hcl ⊢
      rw [hy] at hx hcl ⊢
      dsimp only at hx hcl ⊢
      intro id hid
      dsimp only at hid ⊢
      by_cases ej : j = k
      · subst ej
        rw [Function.update_self] at hid ⊢
        rw [(arrive_data _ _ _ _).1]
        rcases some_snoc hid with hid | ⟨rfl, rfl⟩
        · -- an earlier arrival: then it is over
          have o1 := u n x j hx hj hji hst hcl0 id hid
          refine ⟨fun tid due pw' hm => ?_, fun hno => o1.2 (fun tid due pw' hm => hno tid due pw' (List.mem_append_left _ hm))⟩
          exfalso
          rcases List.mem_append.1 hm with hm | hm
          · obtain ⟨n1, x1, a1, a2, a3, -⟩ := (h.dev j).rx _ _ _ _ hm
            have e1 : n1 = n := Option.some.inj (a1.symm.trans hid)
            subst e1
            have e2 : x1 = x := Option.some.inj (a2.symm.trans hx)
            subst e2
            obtain ⟨y1, c1, -, c3⟩ := (h.dev j).hOk n1 (List.mem_of_getElem? a1)
            have e3 : y1 = x1 := Option.some.inj (c1.symm.trans a2)
            subst e3
            have f1 := (h.dev j).ahead _ hm
            simp only at f1
            have hne : m ≠ n1 := by
              rintro rfl
              exact hnh (List.mem_of_getElem? a1)
            have hl : y.last j = y.first j + y.dur := rfl
            rcases hcl0.others m y ((h.logTx _ _).2 hy) hyi hne with q | q <;> omega
          · have := List.mem_singleton.1 hm
            simp only [Prod.mk.injEq, PhyMacro.Ev.rxDone.injEq] at this
            have h7 := (List.getElem?_eq_some_iff.1 hid).1
            have h8 := (h.dev j).hlen
            omega
        · -- it begins to arrive
          have exy : y = x := Option.some.inj (hy.symm.trans hx)
          subst exy
          have hD := h.dev j
          have hPI := hD.inv (hw j)
          have hl : y.last j = s.now + y.dur := by rw [← hfirst]; rfl
          have hlong := hst.long
          have hntx : (s.phy j).state ≠ .tx := by
            intro hs
            obtain ⟨tid, due, n', hm⟩ := (txing hPI).1 hs
            obtain ⟨x', h1, h2, h3⟩ := hD.tx _ _ _ hm
            have h4 := hD.ahead _ hm
            have h5 := (h.past _ _ h1).1
            obtain ⟨a, z, haz⟩ := List.append_of_mem ((h.logTx _ _).2 h1)
            simp only at h4
            rcases hcl0.own a z n' x' haz h2 with q | q | ⟨q, -⟩ <;> omega
          have hcs : (s.phy j).csBusy = false := by
            by_contra hcs
            obtain ⟨⟨tid, due, ev⟩, q1, id2, pw2, q2, -⟩ := hPI.busy (by simpa using hcs)
            simp only at q2
            subst q2
            obtain ⟨n1, x1, a1, a2, a3, -⟩ := hD.rx _ _ _ _ q1
            obtain ⟨y1, c1, c2, c3⟩ := hD.hOk n1 (List.mem_of_getElem? a1)
            have e3 : y1 = x1 := Option.some.inj (c1.symm.trans a2)
            subst e3
            have hne : n1 ≠ n := by
              rintro rfl
              exact hnh (List.mem_of_getElem? a1)
            have f1 := hD.ahead _ q1
            simp only at f1
            rcases hcl0.others n1 y1 ((h.logTx _ _).2 a2) c2 hne with q | q <;> omega
          have hend : (s.phy j).csBusyEnd < (s.phy j).now + y.dur := by
            obtain ⟨pops, ep⟩ := hD.phyR
            have hp := hD.pnow
            obtain ⟨q0, q1⟩ := (show Stack.CseOk (s.phy j) by rw [ep]; exact Stack.cse_after _ _)
            rcases q1 with q1 | ⟨r, q2, q3⟩
            · omega
            · obtain ⟨n1, x1, a1, a2, a3, a4⟩ := hD.recs r q2
              obtain ⟨y1, c1, c2, c3⟩ := hD.hOk n1 (List.mem_of_getElem? a1)
              have e3 : y1 = x1 := Option.some.inj (c1.symm.trans a2)
              subst e3
              have hne : n1 ≠ n := by
                rintro rfl
                exact hnh (List.mem_of_getElem? a1)
              have hl1 : y1.last j = y1.first j + y1.dur := rfl
              rcases hcl0.others n1 y1 ((h.logTx _ _).2 a2) c2 hne with q | q <;> omega
          obtain ⟨l1, l2, -⟩ := Stack.arrive_locks (w.pcfg j) (s.phy j) y.dur (y.pw j) hntx hcs hst.loud hend
          refine ⟨fun tid due pw' hm => ⟨l1, by rw [l2, hD.hlen]⟩, fun hno => ?_⟩
          exfalso
          refine hno (s.phy j).nextTid ((s.phy j).now + (y.dur : ℤ)) (y.pw j) (List.mem_append_right _ (List.mem_singleton.2 ?_))
          rw [hD.hlen]
      · rw [Function.update_of_ne ej] at hid ⊢
        exact u n x j hx hj hji hst hcl0 id hid
    | fire i tid =>
      simp only [allowed, Bool.and_eq_true, List.all_eq_true, Bool.or_eq_true, decide_eq_true_eq] at ha
      have hdue : ∀ e ∈ (s.phy i).pend, e.1 = tid → e.2.1 ≤ s.now := fun e he het => (ha.2 e he).resolve_left (fun hne => hne het)
      dsimp only at hx hcl ⊢
      have hx0 : s.sent[n]? = some x := hx
      intro id hid
      have hid0 : (s.heard j)[id]? = some n := hid
      have o1 := u n x j hx0 hj hji hst hcl0 id hid0
      by_cases ej : j = i
      · subst ej
        have hD := h.dev j
        have hPI := hD.inv (hw j)
        have ep : (Air.fire w j tid s).phy j = PhyMacro.fire (w.pcfg j) tid (s.phy j) := by
          unfold Air.fire; dsimp only; rw [Function.update_self]
        rw [ep, fire_pend]
        refine ⟨fun tid' due pw' hm => ?_, fun hno => ?_⟩
        · -- still arriving: the event is not one of this PHY's
          have hm1 := List.mem_filter.1 hm
          have hm0 := hm1.1
          have hne : tid' ≠ tid := by simpa using hm1.2
          obtain ⟨s1, s2⟩ := o1.1 _ _ _ hm0
          have hnone : (s.phy j).pend.find? (fun e => decide (e.1 = tid)) = none := by
            rw [List.find?_eq_none]
            rintro ⟨t2, d2, ev⟩ he het
            have het : t2 = tid := by simpa using het
            subst het
            cases ev with
            | txDone n' =>
              have := (txing hPI).2 ⟨_, _, _, he⟩
              rw [s1] at this; cases this
            | rxDone id2 pw2 =>
              have e2 := alone h hx0 hcl0 hid0 hm0 he
              subst e2
              exact hne (rx_unique hPI hm0 he)
          have : PhyMacro.fire (w.pcfg j) tid (s.phy j) = s.phy j := by
            unfold PhyMacro.fire; rw [hnone]
          rw [this]; exact ⟨s1, s2⟩
        · by_cases hpend : ∃ tid' due pw', (tid', due, PhyMacro.Ev.rxDone id pw') ∈ (s.phy j).pend
          · obtain ⟨tid', due, pw', hm⟩ := hpend
            have het : tid' = tid := by
              by_contra hne
              exact hno _ _ _ (List.mem_filter.2 ⟨hm, by simpa using hne⟩)
            subst het
            obtain ⟨s1, s2⟩ := o1.1 _ _ _ hm
            obtain ⟨n1, x1, a1, a2, a3, a4⟩ := hD.rx _ _ _ _ hm
            have e1 : n1 = n := Option.some.inj (a1.symm.trans hid0)
            subst e1
            have e2 : x1 = x := Option.some.inj (a2.symm.trans hx0)
            subst e2
            have hnow : due = s.now := le_antisymm (hdue _ hm rfl) (hD.ahead _ hm)
            have hnw : x1.last j = s.now := a3.symm.trans hnow
            subst a4
            have hi0 : PhyMacro.interferers id (s.phy j).now (s.phy j).ongoing = [] := by
              unfold PhyMacro.interferers
              rw [List.map_eq_nil_iff, List.filter_eq_nil_iff]
              intro r hr
              simp only [decide_eq_true_eq]
              rintro ⟨r1, r2⟩
              obtain ⟨n2, x2, b1, b2, b3, b4⟩ := hD.recs r hr
              obtain ⟨y2, d1, d2, d3⟩ := hD.hOk n2 (List.mem_of_getElem? b1)
              have e4 : y2 = x2 := Option.some.inj (d1.symm.trans b2)
              subst e4
              have hne : n2 ≠ n1 := by
                rintro rfl
                exact r1 (nodup_idx hD.hnd b1 a1)
              have hp := hD.pnow
              have hl1 : x1.last j = x1.first j + x1.dur := rfl
              have hl2 : y2.last j = y2.first j + y2.dur := rfl
              rcases hcl0.others n2 y2 ((h.logTx _ _).2 b2) d2 hne with q | q <;> omega
            have hok := Stack.fire_ok (w.pcfg j) hPI.tid (show (tid', (s.phy j).now, PhyMacro.Ev.rxDone id (x1.pw j)) ∈ (s.phy j).pend by
              rw [hD.pnow, ← hnow]; exact hm) s1 s2 (by rw [hi0]; exact hst.sinr)
            have hok2 : okIn ((PhyMacro.fire (w.pcfg j) tid' (s.phy j)).log.drop (s.phy j).log.length) = [id] := by
              have key : ∀ l : List (PhyMacro.Obs P), okIn l = (Stack.noticesIn l).filterMap (fun z => if z.2 = true then some z.1 else none) := by
                intro l
                unfold okIn Stack.noticesIn
                rw [List.filterMap_filterMap]
                congr 1
                funext o
                cases o with
                | notice t id ok => cases ok <;> rfl
                | _ => rfl
              rw [key, hok]; rfl
            refine ⟨s.now, ?_⟩
            unfold Air.fire
            dsimp only
            rw [hok2]
            refine List.mem_append_right _ ?_
            simp [given, a1, a2]
          · push Not at hpend
            obtain ⟨t, ht⟩ := o1.2 hpend
            exact ⟨t, List.mem_append_left _ ht⟩
      · have ep : (Air.fire w i tid s).phy j = s.phy j := by
          unfold Air.fire; dsimp only; rw [Function.update_of_ne ej]
        rw [ep]
        refine ⟨o1.1, fun hno => ?_⟩
        obtain ⟨t, ht⟩ := o1.2 hno
        exact ⟨t, List.mem_append_left _ ht⟩
  · rename_i ha
    rw [if_neg ha] at hx
    rw [if_neg ha]
    exact u n x j hx hj hji hst hcl0

theorem und_after (hw : w.Wf) (ops : List (Op F P)) : Und w (after w ops) := by
  suffices ∀ s : St F P, Inv w s → Und w s → Und w (ops.foldl (Air.step w) s) from this _ (.init w) (.init w)
  induction ops with
  | nil => exact fun s _ h => h
  | cons o ops ih => exact fun s hi h => ih _ (hi.step hw o) (h.step hw hi o)

/-- An undisturbed transmission that has completely arrived was received. -/
theorem received (hw : w.Wf) (ops : List (Op F P)) {n j : Nat} {x : Tx F P} (hm : Obs.tx n x ∈ (after w ops).log) (hj : j < w.num)
    (hji : j ≠ x.i) (hst : Strong w x j) (hcl : Clean (after w ops).log n x j) (hnow : x.last j < (after w ops).now) :
    Obs.rx (x.last j) n j x.f ∈ (after w ops).log := by
  have h := inv_after hw ops
  have u := und_after hw ops
  have hx := (h.logTx _ _).1 hm
  have hh : n ∈ (after w ops).heard j := by
    rcases h.all n x j hx hj hji with h1 | h1
    · obtain ⟨y, h2, -, -, h5, -⟩ := h.fly n j h1
      have e : y = x := Option.some.inj (h2.symm.trans hx)
      subst e
      have : y.last j = y.first j + y.dur := rfl
      omega
    · exact h1
  obtain ⟨id, hid⟩ := List.getElem?_of_mem hh
  obtain ⟨t, ht⟩ := (u n x j hx hj hji hst hcl id hid).2 (fun tid due pw hq => by
    obtain ⟨n1, x1, a1, a2, a3, -⟩ := (h.dev j).rx _ _ _ _ hq
    have e1 : n1 = n := Option.some.inj (a1.symm.trans hid)
    subst e1
    have e2 : x1 = x := Option.some.inj (a2.symm.trans hx)
    subst e2
    have := (h.dev j).ahead _ hq
    simp only at this
    omega)
  obtain ⟨y, id', -, h2, -, h4, -⟩ := h.logRx _ _ _ _ ht
  have e : y = x := Option.some.inj (h2.symm.trans hx)
  subst e
  rw [← h4]; exact ht

end Thz.Air
