import Verif.CStackInv
import Verif.ClientRxT

/-!
# Complete devices of the centralised scenario: what the MACs hear is what the PHYs received (helper lemmas)
-/

namespace Thz.CStack

open Thz Thz.Central Thz.TxV
open Thz.Nano (Body bcast)

variable {P : Type} {w : World P} {s : St P}

/-- The MAC of device `i` against what its PHY received: an access point takes everything, a client a part. -/
def Got (w : World P) (s : St P) (i : Nat) : Prop :=
  if w.plan.isAp (w.addr i) = true then Ap.rxs (s.net.ap (w.addr i)).log = (rxOf i s.air.log).map (·.2)
  else (Client.rxT (s.net.cl (w.addr i)).log).Sublist (rxOf i s.air.log)

/-- What the MAC of device `i` heard is extended by (part of) `l`. -/
def More (w : World P) (i : Nat) (n n' : CNet.Net) (l : List (ℤ × Frame)) : Prop :=
  if w.plan.isAp (w.addr i) = true then Ap.rxs (n'.ap (w.addr i)).log = Ap.rxs (n.ap (w.addr i)).log ++ l.map (·.2)
  else ∃ l', l'.Sublist l ∧ Client.rxT (n'.cl (w.addr i)).log = Client.rxT (n.cl (w.addr i)).log ++ l'

/-- What an operation lets the MAC hear. -/
def MOp.hears (v : View) : MOp → List (ℤ × Frame)
  | .rxDone f true _ _ => [(v.now, f)]
  | _ => []

theorem More.refl {i : Nat} {n : CNet.Net} : More w i n n [] := by
  unfold More
  split
  · simp
  · exact ⟨[], List.Sublist.refl _, by simp⟩

theorem More.trans {i : Nat} {n n' n'' : CNet.Net} {a b : List (ℤ × Frame)} (h : More w i n n' a) (h' : More w i n' n'' b) :
    More w i n n'' (a ++ b) := by
  unfold More at *
  split
  · rename_i e
    rw [if_pos e] at h h'
    rw [h', h, List.map_append, List.append_assoc]
  · rename_i e
    rw [if_neg e] at h h'
    obtain ⟨l, h1, h2⟩ := h
    obtain ⟨l', h3, h4⟩ := h'
    exact ⟨l ++ l', h1.append h3, by rw [h4, h2, List.append_assoc]⟩

theorem ap_hears (c : Ap.Cfg) (me : Mac48) (m : Ap.St) (f : Frame) (p : ℚ) :
    Ap.rxs (Ap.step c me m (.rxDone f true p)).log = Ap.rxs m.log ++ [f] := by
  have e2 : Ap.rxs (Ap.forwardIfNew f (({ m with state := .idle } : Ap.St).emit (.rx f p))).log = Ap.rxs m.log ++ [f] := by
    unfold Ap.forwardIfNew
    dsimp only
    split <;> simp [Ap.rxs, Ap.St.emit]
  rcases Ap.step_fv c me m (.rxDone f true p) with e | ⟨g, q, h, ⟨-, e⟩ | ⟨-, e⟩⟩
  · exfalso
    have e1 : Ap.rxs (Ap.step c me m (.rxDone f true p)).log = Ap.rxs m.log := congrArg (·.1) e
    have h1 : Ap.fv (({ m with state := .idle } : Ap.St).emit (.rx f p)) = (Ap.rxs m.log ++ [f], Ap.ups m.log, m.seqList) := by
      simp [Ap.fv, Ap.rxs, Ap.ups, Ap.St.emit]
    have h2 : Ap.rxs (Ap.step c me m (.rxDone f true p)).log = Ap.rxs m.log ++ [f] := by
      show Ap.rxs (Ap.receivePacketDone c me f true p m).log = _
      unfold Ap.receivePacketDone
      simp only [Bool.not_true, Bool.false_eq_true, if_false]
      split
      · exact congrArg (·.1) h1
      · exact (congrArg (·.1) (Ap.fv_receiveData c me f (({ m with state := .idle } : Ap.St).emit (.rx f p)))).trans e2
      · exact congrArg (·.1) h1
    rw [h2] at e1
    simp at e1
  · cases h; exact congrArg (·.1) e
  · cases h; exact (congrArg (·.1) e).trans e2

theorem mac_more (i : Nat) (o : MOp) (n : CNet.Net) : More w i n (macStep w i o n) (o.hears (view w i n)) := by
  unfold More macStep view
  by_cases ha : w.plan.isAp (w.addr i) = true
  · simp only [ha, if_true, Function.update_self]
    by_cases ho : ∃ f p g, o = .rxDone f true p g
    · obtain ⟨f, p, g, rfl⟩ := ho
      exact ap_hears _ _ _ f p
    · have e : o.hears (Ap.tv (n.ap (w.addr i))) = [] := by
        unfold MOp.hears
        split
        · exact absurd ⟨_, _, _, rfl⟩ ho
        · rfl
      rw [e]
      rcases Ap.step_fv (w.plan.acfg (w.addr i)) (w.addr i) (n.ap (w.addr i)) o.ap with e | ⟨f, p, h, -⟩
      · rw [show Ap.rxs (Ap.step (w.plan.acfg (w.addr i)) (w.addr i) (n.ap (w.addr i)) o.ap).log = Ap.rxs (n.ap (w.addr i)).log from
          congrArg (·.1) e]
        simp
      · cases o <;> simp only [MOp.ap, reduceCtorEq, Ap.Op.rxDone.injEq] at h
        rename_i f' b p' g
        obtain ⟨-, rfl, -⟩ := h
        exact absurd ⟨_, _, _, rfl⟩ ho
  · simp only [ha, if_false, Bool.false_eq_true, Function.update_self]
    rcases Client.step_frT (c := w.plan.ccfg (w.addr i)) (me := w.addr i) (n.cl (w.addr i)) o.cl with e | ⟨f, g, h, e⟩
    · exact ⟨[], List.nil_sublist _, by rw [List.append_nil]; exact e⟩
    · refine ⟨[((n.cl (w.addr i)).now, f)], ?_, e⟩
      cases o <;> simp only [MOp.cl, reduceCtorEq, Client.Op.rxDone.injEq] at h
      rename_i f' b p' g
      obtain ⟨rfl, rfl, -⟩ := h
      exact List.Sublist.refl _

theorem mac_more_other (hw : w.Wf) {i j : Nat} (hi : i < w.num) (hj : j < w.num) (hij : j ≠ i) (o : MOp) (n : CNet.Net) :
    More w j n (macStep w i o n) [] := by
  have ha : w.addr j ≠ w.addr i := fun e => hij (hw.inj j hj i hi e)
  have h := More.refl (w := w) (i := j) (n := n)
  have e1 : (macStep w i o n).ap (w.addr j) = n.ap (w.addr j) := by
    unfold macStep
    split
    · exact Function.update_of_ne ha _ _
    · rfl
  have e2 : (macStep w i o n).cl (w.addr j) = n.cl (w.addr j) := by
    unfold macStep
    split
    · rfl
    · exact Function.update_of_ne ha _ _
  unfold More at *
  rw [e1, e2]
  exact h

/-- What starting transmissions does not change. -/
theorem dev_air (i : Nat) (o : MOp) (L : Link P) (s : St P) :
    (devStep w i o L s).air.heard = s.air.heard ∧ (devStep w i o L s).air.now = s.air.now ∧
    (∃ more, (devStep w i o L s).air.sent = s.air.sent ++ more) ∧ ∀ j, rxOf j (devStep w i o L s).air.log = rxOf j s.air.log := by
  unfold devStep
  dsimp only
  generalize newTx (view w i s.net) (view w i (macStep w i o s.net)) = l
  generalize s.air = a
  induction l generalizing a with
  | nil => exact ⟨rfl, rfl, ⟨[], (List.append_nil _).symm⟩, fun _ => rfl⟩
  | cons x l ih =>
    obtain ⟨h1, h2, ⟨m, h3⟩, h4⟩ := ih (Air.send w.air i x.1 x.2 L.delay L.pw a)
    have hs : (Air.send w.air i x.1 x.2 L.delay L.pw a).heard = a.heard ∧ (Air.send w.air i x.1 x.2 L.delay L.pw a).now = a.now ∧
        (∃ more, (Air.send w.air i x.1 x.2 L.delay L.pw a).sent = a.sent ++ more) ∧
        ∀ j, rxOf j (Air.send w.air i x.1 x.2 L.delay L.pw a).log = rxOf j a.log := by
      unfold Air.send
      dsimp only
      split
      · refine ⟨rfl, rfl, ⟨[_], rfl⟩, fun j => ?_⟩
        dsimp only
        rw [rxOf_append]
        exact List.append_nil _
      · exact ⟨rfl, rfl, ⟨[], (List.append_nil _).symm⟩, fun _ => rfl⟩
    obtain ⟨g1, g2, ⟨m', g3⟩, g4⟩ := hs
    rw [List.foldl_cons]
    refine ⟨h1.trans g1, h2.trans g2, ⟨m' ++ m, by rw [h3, g3, List.append_assoc]⟩, fun j => (h4 j).trans (g4 j)⟩

theorem Got.more {s' : St P} {i : Nat} {l : List (ℤ × Frame)} (h : Got w s i) (hm : More w i s.net s'.net l)
    (hl : rxOf i s'.air.log = rxOf i s.air.log ++ l) : Got w s' i := by
  unfold Got More at *
  split
  · rename_i e
    rw [if_pos e] at h hm
    rw [hm, h, hl, List.map_append]
  · rename_i e
    rw [if_neg e] at h hm
    obtain ⟨l', h1, h2⟩ := hm
    rw [h2, hl]
    exact h.append h1

/-- An operation that lets the MAC hear nothing. -/
theorem Got.dev (hw : w.Wf) {i : Nat} (hi : i < w.num) (o : MOp) (ho : ∀ v, o.hears v = []) (L : Link P)
    (h : ∀ j < w.num, Got w s j) : ∀ j < w.num, Got w (devStep w i o L s) j := by
  intro j hj
  have hr := (dev_air (w := w) i o L s).2.2.2 j
  refine (h j hj).more (l := []) ?_ (by rw [hr, List.append_nil])
  by_cases hij : j = i
  · subst hij
    have := mac_more (w := w) j o s.net
    rw [ho] at this; exact this
  · exact mac_more_other hw hi hj hij o s.net

/-- The frame of an arrival. -/
def frameOf (i : Nat) (a : Air.St Frame P) (id : Nat) : Option Frame :=
  match (a.heard i)[id]? with
  | none => none
  | some n => (a.sent[n]?).map (·.f)

/-- What a list of reports lets the MAC hear. -/
def heardIn (i : Nat) (a : Air.St Frame P) (l : List (Nat × Bool)) : List (ℤ × Frame) :=
  l.filterMap (fun x => if x.2 = true then (frameOf i a x.1).map (fun f => (a.now, f)) else none)

/-- Every reported arrival has a known frame. -/
def Known (i : Nat) (a : Air.St Frame P) (l : List (Nat × Bool)) : Prop := ∀ x ∈ l, (frameOf i a x.1).isSome = true

theorem frameOf_mono {i : Nat} {a a' : Air.St Frame P} (h1 : a'.heard = a.heard) (h2 : ∃ more, a'.sent = a.sent ++ more) {id : Nat}
    (h : (frameOf i a id).isSome = true) : frameOf i a' id = frameOf i a id := by
  obtain ⟨m, h2⟩ := h2
  unfold frameOf at *
  rw [h1, h2]
  split at h
  · cases h
  · rename_i n hn
    rw [Option.isSome_map, Option.isSome_iff_exists] at h
    obtain ⟨x, hx⟩ := h
    rw [Air.some_append hx, hx]

theorem reports_more (hw : w.Wf) {i : Nat} (hi : i < w.num) (g : UInt16) (pw : P) (L : Link P) :
    ∀ (l : List (Nat × Bool)) (s : St P), Inv w s → Known i s.air l →
      (∀ j < w.num, More w j s.net (l.foldl (report w i g pw L) s).net (if j = i then heardIn i s.air l else [])) ∧
      ∀ j, rxOf j (l.foldl (report w i g pw L) s).air.log = rxOf j s.air.log := by
  intro l
  induction l with
  | nil => intro s _ _; exact ⟨fun j _ => by rw [show heardIn i s.air [] = [] from rfl, ite_self]; exact .refl, fun _ => rfl⟩
  | cons x l ih =>
    intro s h hk
    have hx := hk x List.mem_cons_self
    obtain ⟨n, hn⟩ : ∃ n, (s.air.heard i)[x.1]? = some n := by
      unfold frameOf at hx
      split at hx
      · cases hx
      · exact ⟨_, ‹_›⟩
    obtain ⟨y, hy⟩ : ∃ y, s.air.sent[n]? = some y := by
      unfold frameOf at hx
      rw [hn] at hx
      simp only [Option.isSome_map, Option.isSome_iff_exists] at hx
      exact hx
    have hf : frameOf i s.air x.1 = some y.f := by
      unfold frameOf
      rw [hn]; dsimp only; rw [hy]; rfl
    have e : report w i g pw L s x = devStep w i (.rxDone y.f x.2 (w.dbm pw) g) L s := by
      unfold CStack.report
      rw [hn]; dsimp only; rw [hy]
    have da := dev_air (w := w) i (.rxDone y.f x.2 (w.dbm pw) g) L s
    have hi' := h.report hw hi g pw L x
    rw [List.foldl_cons]
    rw [e] at hi' ⊢
    have hk' : Known i (devStep w i (.rxDone y.f x.2 (w.dbm pw) g) L s).air l := by
      intro z hz
      rw [frameOf_mono da.1 da.2.2.1 (hk z (List.mem_cons_of_mem _ hz))]
      exact hk z (List.mem_cons_of_mem _ hz)
    obtain ⟨i1, i2⟩ := ih _ hi' hk'
    refine ⟨fun j hj => ?_, fun j => (i2 j).trans (da.2.2.2 j)⟩
    have hh : heardIn i (devStep w i (.rxDone y.f x.2 (w.dbm pw) g) L s).air l = heardIn i s.air l := by
      unfold heardIn
      refine List.filterMap_congr (fun z hz => ?_)
      rw [frameOf_mono da.1 da.2.2.1 (hk z (List.mem_cons_of_mem _ hz)), da.2.1]
    have h2 := i1 j hj
    rw [hh] at h2
    by_cases hij : j = i
    · subst hij
      rw [if_pos rfl] at h2 ⊢
      have h1 := mac_more (w := w) j (.rxDone y.f x.2 (w.dbm pw) g) s.net
      have h3 : (MOp.rxDone y.f x.2 (w.dbm pw) g).hears (view w j s.net) ++ heardIn j s.air l = heardIn j s.air (x :: l) := by
        show _ = List.filterMap _ ([x] ++ l)
        rw [List.filterMap_append]
        show _ = _ ++ heardIn j s.air l
        congr 1
        rw [List.filterMap_cons, List.filterMap_nil, hf]
        obtain ⟨id, b⟩ := x
        cases b
        · rfl
        · show [((view w j s.net).now, y.f)] = [(s.air.now, y.f)]
          rw [(h.node j hj).now]
      rw [← h3]
      exact h1.trans h2
    · rw [if_neg hij] at h2 ⊢
      exact (mac_more_other hw hi hj hij (.rxDone y.f x.2 (w.dbm pw) g) s.net).trans h2

/-- Successful reports. -/
theorem okIn_notices (l : List (PhyMacro.Obs P)) :
    Air.okIn l = (Stack.noticesIn l).filterMap (fun x => if x.2 = true then some x.1 else none) := by
  unfold Air.okIn Stack.noticesIn
  rw [List.filterMap_filterMap]
  refine List.filterMap_congr (fun o _ => ?_)
  cases o with
  | notice t id ok => cases ok <;> rfl
  | _ => rfl

/-- What a PHY reports is the arrival that ends, if it reports anything. -/
theorem notices_fire (c : PhyMacro.Cfg P) (tid t id : Nat) (due : ℤ) (pw : P) (p : PhyMacro.St P)
    (hf : p.pend.find? (fun e => e.1 = tid) = some (t, due, .rxDone id pw)) :
    ∀ x ∈ Stack.noticesIn ((PhyMacro.fire c tid p).log.drop p.log.length), x.1 = id := by
  unfold PhyMacro.fire
  rw [hf]
  have key : ∀ q : PhyMacro.St P, ∃ l, (PhyMacro.conclude c id pw q).log = q.log ++ l ∧ ∀ x ∈ Stack.noticesIn l, x.1 = id := by
    intro q
    unfold PhyMacro.conclude
    dsimp only
    split_ifs
    · exact ⟨[], (List.append_nil _).symm, by simp [Stack.noticesIn]⟩
    · exact ⟨[_], rfl, by simp [Stack.noticesIn]⟩
    · exact ⟨[_, _], by show (q.log ++ [_]) ++ [_] = _; rw [List.append_assoc]; rfl, by simp [Stack.noticesIn]⟩
    · exact ⟨[_], rfl, by simp [Stack.noticesIn]⟩
    · exact ⟨[_], rfl, by simp [Stack.noticesIn]⟩
    · exact ⟨[], (List.append_nil _).symm, by simp [Stack.noticesIn]⟩
  show ∀ x ∈ Stack.noticesIn ((PhyMacro.conclude c id pw _).log.drop _), _
  obtain ⟨l, h2, h3⟩ := key { (({ p with pend := p.pend.filter (fun e => e.1 ≠ tid), now := max p.now due } : PhyMacro.St P).emit
    (.rxEnd (max p.now due) id)) with csBusy := if p.csBusyEnd ≤ max p.now due + c.ns then false else p.csBusy }
  have h4 : ((PhyMacro.conclude c id pw { (({ p with pend := p.pend.filter (fun e => e.1 ≠ tid), now := max p.now due } : PhyMacro.St P).emit
    (.rxEnd (max p.now due) id)) with csBusy := if p.csBusyEnd ≤ max p.now due + c.ns then false else p.csBusy }).log.drop p.log.length) =
      PhyMacro.Obs.rxEnd (max p.now due) id :: l := by
    rw [h2]
    show (((p.log ++ [_]) ++ l).drop _) = _
    rw [List.append_assoc, List.drop_left]; rfl
  intro x hx
  refine h3 x ?_
  have hx' : x ∈ Stack.noticesIn (PhyMacro.Obs.rxEnd (max p.now due) id :: l) := by rw [← h4]; exact hx
  simpa [Stack.noticesIn] using hx'

theorem Got.step (hw : w.Wf) (h : Inv w s) (hg : ∀ j < w.num, Got w s j) (o : Op P) : ∀ j < w.num, Got w (step w s o) j := by
  unfold CStack.step
  split
  · rename_i ha
    cases o with
    | enqueue i b dst L =>
      simp only [allowed, Bool.and_eq_true, decide_eq_true_eq] at ha
      exact Got.dev hw ha.1 _ (fun _ => rfl) L hg
    | mac i tid L =>
      simp only [allowed, Bool.and_eq_true, decide_eq_true_eq] at ha
      exact Got.dev hw ha.1 _ (fun _ => rfl) L hg
    | land n j L =>
      obtain ⟨-, hj⟩ := h.land hw n j L ha
      have h1 : ∀ k < w.num, Got w { s with air := Air.land w.air n j s.air } k := by
        intro k hk
        refine (hg k hk).more (l := []) .refl ?_
        rw [List.append_nil]
        show rxOf k (Air.land w.air n j s.air).log = _
        unfold Air.land
        split <;> rfl
      show ∀ k < w.num, Got w (landStep w n j L s) k
      unfold landStep
      dsimp only
      split
      · exact Got.dev hw hj _ (fun _ => rfl) L h1
      · exact h1
    | phy i tid g L =>
      have hi : i < w.num := by
        simp only [allowed, Air.allowed, Bool.and_eq_true, decide_eq_true_eq] at ha
        exact ha.1
      show ∀ k < w.num, Got w (phyStep w i tid g L s) k
      unfold phyStep
      dsimp only
      split
      · exact hg
      · rename_i t due k hf
        obtain ⟨t', f, h1, -, -, h2, -, h3⟩ := h.txDone hw hi hf ha L
        rw [h1]
        dsimp only
        refine Got.dev hw hi _ (fun _ => rfl) L (fun j hj => (hg j hj).more (l := []) .refl ?_)
        rw [List.append_nil]
        show rxOf j (Air.fire w.air i tid s.air).log = _
        rcases Air.fire_okIn (w.pcfg i) tid (s.air.phy i) with h4 | ⟨due', id, pw, h4, -⟩
        · unfold Air.fire
          dsimp only
          rw [show Air.okIn ((PhyMacro.fire (w.air.pcfg i) tid (s.air.phy i)).log.drop (s.air.phy i).log.length) = [] from h4]
          simp
        · exfalso
          have ip := ((h.ai hw).dev i).inv (hw.ns i)
          have htt : t = tid := by simpa using List.find?_some hf
          subst htt
          have := List.inj_on_of_nodup_map ip.tid h4 (List.mem_of_find?_eq_some hf) rfl
          simp at this
      · rename_i t due id pw hf
        have h1 := h.rxDone hw hf ha
        have ai := h.ai hw
        have ip := (ai.dev i).inv (hw.ns i)
        have hm := List.mem_of_find?_eq_some hf
        obtain ⟨n, x, hn, hx, -, -⟩ := (ai.dev i).rx _ _ _ _ hm
        have hfr : frameOf i s.air id = some x.f := by
          unfold frameOf
          rw [hn]; dsimp only; rw [hx]; rfl
        have hfr' : frameOf i (Air.fire w.air i tid s.air) id = some x.f := hfr
        have hps : (Air.fire w.air i tid s.air).phy i = PhyMacro.fire (w.pcfg i) tid (s.air.phy i) := Function.update_self _ _ _
        have hids := notices_fire (w.pcfg i) tid t id due pw (s.air.phy i) hf
        have hk : Known i (Air.fire w.air i tid s.air)
            (Stack.noticesIn (((Air.fire w.air i tid s.air).phy i).log.drop (s.air.phy i).log.length)) := by
          intro z hz
          rw [hps] at hz
          rw [hids z hz, hfr']; rfl
        obtain ⟨h2, h3⟩ := reports_more hw hi g pw L _ _ h1 hk
        intro j hj
        refine (hg j hj).more (h2 j hj) ?_
        rw [h3 j]
        show rxOf j (Air.fire w.air i tid s.air).log = _
        have hl : (Air.fire w.air i tid s.air).log = s.air.log ++ (Stack.noticesIn (((Air.fire w.air i tid s.air).phy i).log.drop
            (s.air.phy i).log.length)).filterMap (fun z => if z.2 = true then (Air.given i s.air z.1) else none) := by
          rw [hps]
          unfold Air.fire
          dsimp only
          rw [okIn_notices, List.filterMap_filterMap]
          congr 1
          refine List.filterMap_congr (fun z _ => ?_)
          split <;> rfl
        rw [hl, rxOf_append]
        congr 1
        have hgv : Air.given i s.air id = some (.rx s.air.now n i x.f) := by
          unfold Air.given
          rw [hn]; dsimp only; rw [hx]
        unfold rxOf heardIn
        rw [List.filterMap_filterMap]
        by_cases hij : j = i
        · subst hij
          rw [if_pos rfl]
          refine List.filterMap_congr (fun z hz => ?_)
          rw [hps] at hz
          have hz' := hids z hz
          rw [hz', hfr', hgv]
          split
          · simp; rfl
          · rfl
        · rw [if_neg hij]
          rw [List.filterMap_eq_nil_iff]
          intro z hz
          rw [hps] at hz
          have hz' := hids z hz
          rw [hz', hgv]
          split
          · simp [Ne.symm hij]
          · rfl
    | tick d =>
      intro j hj
      have key : ∀ (l : List Nat) (n : CNet.Net), (∀ i ∈ l, i < w.num) →
          More w j n (l.foldl (fun n i => macStep w i (.advance d) n) n) [] := by
        intro l
        induction l with
        | nil => intro n _; exact .refl
        | cons i l ih =>
          intro n hl
          refine More.trans (a := []) (b := []) ?_ (ih (macStep w i (.advance d) n) (fun k hk => hl k (List.mem_cons_of_mem _ hk)))
          by_cases hij : j = i
          · subst hij; exact mac_more (w := w) j (.advance d) n
          · exact mac_more_other hw (hl i List.mem_cons_self) hj hij _ n
      exact (hg j hj).more (l := []) (key (List.range w.num) s.net (fun i hi => List.mem_range.1 hi)) (List.append_nil _).symm
  · exact hg

theorem got_after (hw : w.Wf) (ops : List (Op P)) : ∀ j < w.num, Got w (after w ops) j := by
  induction ops using List.reverseRecOn with
  | nil =>
    intro j hj
    unfold Got
    split
    · rfl
    · exact List.Sublist.refl _
  | append_singleton l o ih => rw [after_snoc]; exact Got.step hw (inv_after hw l) ih o

end Thz.CStack
