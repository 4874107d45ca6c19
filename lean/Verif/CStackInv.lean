import Verif.CStack

/-!
# Complete devices of the centralised scenario: the layers stay in step (helper lemmas)

Every history of complete devices is, for the MACs alone, a history of the network of `CNet`, and for the PHYs and the channel alone, a
history of `Air`.
-/

namespace Thz.CStack

open Thz Thz.Central Thz.TxV
open Thz.Nano (Body bcast)

variable {P : Type}

/-! ## One MAC -/

variable {w : World P} {s : St P}

theorem view_other (hw : w.Wf) {i j : Nat} (hi : i < w.num) (hj : j < w.num) (hij : j ≠ i) (o : MOp) (n : CNet.Net) :
    view w j (macStep w i o n) = view w j n := by
  have ha : w.addr j ≠ w.addr i := fun e => hij (hw.inj j hj i hi e)
  unfold view macStep
  split
  · split
    · dsimp only; rw [Function.update_of_ne ha]
    · rfl
  · split
    · rfl
    · dsimp only; rw [Function.update_of_ne ha]

/-- The operation is not the end of a transmission and does not take time. -/
def Plain (v : View) : MOp → Prop
  | .fire t => ∃ due, (t, due, none) ∈ v.pend ∧ due ≤ v.now
  | .advance _ => False
  | _ => True

/-- What an operation does to the transmitter. -/
theorem mac_tx (i : Nat) (o : MOp) (n : CNet.Net) (ok : Ok (view w i n)) (hp : Plain (view w i n) o) :
    Tx (takes w i) (view w i n) (view w i (macStep w i o n)) := by
  unfold view takes macStep at *
  by_cases ha : w.plan.isAp (w.addr i) = true
  · simp only [ha, if_true, Function.update_self] at ok hp ⊢
    cases o with
    | enqueue b d =>
      refine .inl (.of ?_)
      show Ap.tv { n.ap (w.addr i) with now := (n.ap (w.addr i)).now + ((0 : Nat) : ℤ) } = _
      simp [Ap.tv]
    | fire t =>
      obtain ⟨due, hm, hd⟩ := hp
      obtain ⟨⟨t', due', e⟩, hm', he⟩ := List.mem_map.1 hm
      simp only [Prod.mk.injEq] at he
      obtain ⟨rfl, rfl, he⟩ := he
      exact Ap.tx_fire ok hm' he hd
    | rxStart => exact .inl (Ap.tq_receivePacket _)
    | rxDone f b p g => exact Ap.tx_receivePacketDone f b p _
    | advance d => exact hp.elim
  · simp only [ha, if_false, Bool.false_eq_true, Function.update_self] at ok hp ⊢
    cases o with
    | enqueue b d => exact .inl (Client.tq_enqueue b d _)
    | fire t =>
      obtain ⟨due, hm, hd⟩ := hp
      obtain ⟨⟨t', due', e⟩, hm', he⟩ := List.mem_map.1 hm
      simp only [Prod.mk.injEq] at he
      obtain ⟨rfl, rfl, he⟩ := he
      exact Client.tx_fire ok hm' he hd
    | rxStart => exact .inl (Client.tq_receivePacket _)
    | rxDone f b p g => exact .inl (Client.tq_receivePacketDone f b g _)
    | advance d => exact hp.elim

/-- The end of a transmission. -/
theorem mac_txDone (i t : Nat) (due : ℤ) (f : Frame) (n : CNet.Net) (ok : Ok (view w i n)) (hm : (t, due, some f) ∈ (view w i n).pend) :
    Tq { view w i n with
      pend := (view w i n).pend.filter (fun e => e.1 ≠ t), now := max (view w i n).now due, phy := none }
      (view w i (macStep w i (.fire t) n)) := by
  unfold view macStep at *
  by_cases ha : w.plan.isAp (w.addr i) = true
  · simp only [ha, if_true, Function.update_self] at ok hm ⊢
    obtain ⟨⟨t', due', e⟩, hm', he⟩ := List.mem_map.1 hm
    simp only [Prod.mk.injEq] at he
    obtain ⟨rfl, rfl, he⟩ := he
    cases e <;> simp only [Ap.Ev.tx, reduceCtorEq, Option.some.injEq] at he
    subst he
    exact Ap.tq_firePhy ok hm'
  · simp only [ha, if_false, Bool.false_eq_true, Function.update_self] at ok hm ⊢
    obtain ⟨⟨t', due', e⟩, hm', he⟩ := List.mem_map.1 hm
    simp only [Prod.mk.injEq] at he
    obtain ⟨rfl, rfl, he⟩ := he
    cases e <;> simp only [Client.Ev.tx, reduceCtorEq, Option.some.injEq] at he
    subst he
    exact Client.tq_firePhy ok hm'

theorem mac_advance (i d : Nat) (n : CNet.Net) :
    view w i (macStep w i (.advance d) n) = { view w i n with now := (view w i n).now + d } := by
  unfold view macStep
  split
  · dsimp only; rw [Function.update_self]; rfl
  · dsimp only; rw [Function.update_self]; rfl

/-! ## The record of the air -/

/-- What device `i` transmitted. -/
def txOf (i : Nat) (l : List (Air.Obs Frame P)) : List (ℤ × Frame) := l.filterMap (fun o => match o with
  | .tx _ x => if x.i = i then some (x.t, x.f) else none
  | _ => none)

/-- What device `i` received without error. -/
def rxOf (i : Nat) (l : List (Air.Obs Frame P)) : List (ℤ × Frame) := l.filterMap (fun o => match o with
  | .rx t _ j f => if j = i then some (t, f) else none
  | _ => none)

theorem txOf_append (i : Nat) (a b : List (Air.Obs Frame P)) : txOf i (a ++ b) = txOf i a ++ txOf i b := List.filterMap_append
theorem rxOf_append (i : Nat) (a b : List (Air.Obs Frame P)) : rxOf i (a ++ b) = rxOf i a ++ rxOf i b := List.filterMap_append

theorem mem_txOf {i : Nat} {l : List (Air.Obs Frame P)} {t : ℤ} {f : Frame} :
    (t, f) ∈ txOf i l ↔ ∃ n x, Air.Obs.tx n x ∈ l ∧ x.i = i ∧ x.t = t ∧ x.f = f := by
  unfold txOf
  rw [List.mem_filterMap]
  constructor
  · rintro ⟨o, ho, h⟩
    cases o with
    | tx n x =>
      simp only at h
      split at h
      · rename_i hi
        simp only [Option.some.injEq, Prod.mk.injEq] at h
        exact ⟨n, x, ho, hi, h.1, h.2⟩
      · cases h
    | rx t n j f => simp at h
  · rintro ⟨n, x, h, rfl, rfl, rfl⟩
    exact ⟨_, h, by simp⟩

theorem mem_rxOf {i : Nat} {l : List (Air.Obs Frame P)} {t : ℤ} {f : Frame} :
    (t, f) ∈ rxOf i l ↔ ∃ n, Air.Obs.rx t n i f ∈ l := by
  unfold rxOf
  rw [List.mem_filterMap]
  constructor
  · rintro ⟨o, ho, h⟩
    cases o with
    | tx n x => simp at h
    | rx t' n j f' =>
      simp only at h
      split at h
      · rename_i hi
        simp only [Option.some.injEq, Prod.mk.injEq] at h
        obtain ⟨rfl, rfl⟩ := h
        subst hi
        exact ⟨n, ho⟩
      · cases h
  · rintro ⟨n, h⟩
    exact ⟨_, h, by simp⟩

/-! ## One device -/

/-- MAC and PHY of device `i` agree. -/
structure Node (v : View) (now : ℤ) (p : PhyMacro.St P) (i : Nat) (sent : List (Air.Tx Frame P)) (out : List (ℤ × Frame)) : Prop where
  ok : Ok v
  now : v.now = now
  tx : (v.phy = none ∧ txs v.pend = [] ∧ ∀ tid due n, (tid, due, PhyMacro.Ev.txDone n) ∉ p.pend) ∨
    ∃ f t due tid n x, v.phy = some f ∧ txs v.pend = [(t, due, f)] ∧ (tid, due, PhyMacro.Ev.txDone n) ∈ p.pend ∧
      sent[n]? = some x ∧ x.i = i ∧ x.f = f
  out : v.out = out

variable {v v' : View} {now : ℤ} {p p' : PhyMacro.St P} {i : Nat} {sent : List (Air.Tx Frame P)} {out : List (ℤ × Frame)}

theorem Node.quiet (h : Node v now p i sent out) (q : Tq v v') : Node v' now p i sent out := by
  obtain ⟨h1, h2⟩ := q.ok h.ok
  refine ⟨h1, q.now.trans h.now, ?_, q.out.trans h.out⟩
  rw [q.phy, h2]; exact h.tx

theorem Node.grow (h : Node v now p i sent out) (y : Air.Tx Frame P) : Node v now p i (sent ++ [y]) out := by
  refine ⟨h.ok, h.now, ?_, h.out⟩
  rcases h.tx with h | ⟨f, t, due, tid, n, x, h1, h2, h3, h4, h5⟩
  · exact .inl h
  · exact .inr ⟨f, t, due, tid, n, x, h1, h2, h3, Air.some_append h4, h5⟩

/-- The PHY changes, but not its pending ends of transmissions. -/
theorem Node.phy (h : Node v now p i sent out) (hp : ∀ tid due n, (tid, due, PhyMacro.Ev.txDone n) ∈ p'.pend ↔
    (tid, due, PhyMacro.Ev.txDone n) ∈ p.pend) : Node v now p' i sent out := by
  refine ⟨h.ok, h.now, ?_, h.out⟩
  rcases h.tx with ⟨h1, h2, h3⟩ | ⟨f, t, due, tid, n, x, h1, h2, h3, h4, h5⟩
  · exact .inl ⟨h1, h2, fun a b c hm => h3 a b c ((hp a b c).1 hm)⟩
  · exact .inr ⟨f, t, due, tid, n, x, h1, h2, (hp _ _ _).2 h3, h4, h5⟩

/-! ## All devices -/

/-- Facts about every reachable state. -/
structure Inv (w : World P) (s : St P) : Prop where
  reach : CNet.Reach w.plan s.net
  air : ∃ ops, s.air = Air.after w.air ops
  long : ∀ (n : Nat) (x : Air.Tx Frame P), s.air.sent[n]? = some x → takes w x.i x.f x.dur
  node : ∀ i < w.num, Node (view w i s.net) s.air.now (s.air.phy i) i s.air.sent (txOf i s.air.log)

theorem World.Wf.air (hw : w.Wf) : w.air.Wf := hw.ns

theorem Inv.ai (hw : w.Wf) (h : Inv w s) : Air.Inv w.air s.air := by
  obtain ⟨ops, e⟩ := h.air
  rw [e]; exact Air.inv_after hw.air ops

theorem air_snoc {a : Air.St Frame P} (h : ∃ ops, a = Air.after w.air ops) (o : Air.Op Frame P) (ho : Air.allowed w.air a o = true) :
    ∃ ops, (match o with
      | .send i f dur delay pw => Air.send w.air i f dur delay pw a
      | .land n j => Air.land w.air n j a
      | .fire i tid => Air.fire w.air i tid a
      | .tick d => Air.tick w.air d a) = Air.after w.air ops := by
  obtain ⟨ops, rfl⟩ := h
  refine ⟨ops ++ [o], ?_⟩
  rw [Air.after_snoc]
  unfold Air.step
  rw [if_pos ho]
  cases o <;> rfl

theorem Inv.init (w : World P) : Inv w (init w) := by
  refine ⟨.init, ⟨[], rfl⟩, fun n x h => by simp [CStack.init, Air.init] at h, fun i hi => ?_⟩
  unfold view
  split
  · refine ⟨⟨?_, ?_, ?_⟩, rfl, .inl ⟨rfl, rfl, ?_⟩, rfl⟩
    · intro e he
      have he' : e ∈ [((0 : Nat), (0 : ℤ), (none : Option Frame))] := he
      rw [List.mem_singleton.1 he']
      exact Nat.zero_lt_one
    · show List.Nodup [0]; simp
    · intro t ht; cases ht
    · intro _ _ _ hm; cases hm
  · refine ⟨⟨?_, ?_, ?_⟩, rfl, .inl ⟨rfl, rfl, ?_⟩, rfl⟩
    · intro e he; cases he
    · show List.Nodup []; simp
    · intro t ht; cases ht
    · intro _ _ _ hm; cases hm

/-- What is on the air was handed to a PHY. -/
theorem Inv.onAir (hw : w.Wf) (h : Inv w s) {n : Nat} {x : Air.Tx Frame P} (hx : s.air.sent[n]? = some x) : CNet.OnAir s.net x.f := by
  have ai := h.ai hw
  have hi := (ai.past n x hx).2
  have hm : (x.t, x.f) ∈ (view w x.i s.net).out := by
    rw [(h.node x.i hi).out]
    exact mem_txOf.2 ⟨n, x, (ai.logTx n x).2 hx, rfl, rfl, rfl⟩
  unfold view at hm
  split at hm
  · right
    obtain ⟨o, ho, h1⟩ := List.mem_filterMap.1 hm
    cases o <;> simp only [reduceCtorEq, Option.some.injEq, Prod.mk.injEq] at h1
    obtain ⟨rfl, h1⟩ := h1
    rw [h1] at ho
    exact ⟨_, _, ho⟩
  · left
    obtain ⟨o, ho, h1⟩ := List.mem_filterMap.1 hm
    cases o <;> simp only [reduceCtorEq, Option.some.injEq, Prod.mk.injEq] at h1
    obtain ⟨rfl, h1⟩ := h1
    rw [h1] at ho
    exact ⟨_, _, ho⟩

/-- The operation reports nothing intact that is not on the air. -/
def Honest (n : CNet.Net) : MOp → Prop
  | .rxDone f true _ _ => CNet.OnAir n f
  | _ => True

theorem reach_mac {n : CNet.Net} (h : CNet.Reach w.plan n) (i : Nat) (o : MOp) (ho : Honest n o) :
    CNet.Reach w.plan (macStep w i o n) := by
  unfold macStep
  split
  · rename_i ha
    refine .ap (w.addr i) o.ap h ha ?_
    cases o with
    | rxDone f b p g => cases b <;> exact ho
    | _ => trivial
  · rename_i ha
    refine .client (w.addr i) o.cl h (by simpa using ha) ?_
    cases o with
    | rxDone f b p g => cases b <;> exact ho
    | _ => trivial

/-- What one operation of a MAC does. -/
inductive Did (w : World P) (i : Nat) (L : Link P) (s s' : St P) : Prop
  | quiet (hq : Tq (view w i s.net) (view w i s'.net)) (hair : s'.air = s.air)
  | hand (f : Frame) (dur : Nat) (hh : Th (takes w i) f (view w i s.net) (view w i s'.net)) (hd : takes w i f dur)
      (hfree : ∀ tid due n, (tid, due, PhyMacro.Ev.txDone n) ∉ (s.air.phy i).pend) (hst : (s.air.phy i).state ≠ .tx)
      (hair : s'.air = Air.send w.air i f dur L.delay L.pw s.air)
      (htx : ∃ t, txs (view w i s'.net).pend = [(t, s.air.now + (dur : ℤ), f)])

theorem Inv.mac (hw : w.Wf) (h : Inv w s) {i : Nat} (hi : i < w.num) (o : MOp) (ho : Honest s.net o)
    (hp : Plain (view w i s.net) o) (L : Link P) : Inv w (devStep w i o L s) ∧ Did w i L s (devStep w i o L s) := by
  have hnd := h.node i hi
  have hr := reach_mac h.reach i o ho
  rcases mac_tx i o s.net hnd.ok hp with hq | ⟨f, hh⟩
  · have e : newTx (view w i s.net) (view w i (macStep w i o s.net)) = [] := by
      unfold newTx
      rw [hq.out, List.drop_length]; rfl
    have e2 : devStep w i o L s = { s with net := macStep w i o s.net } := by
      unfold devStep
      dsimp only
      rw [e]; rfl
    rw [e2]
    refine ⟨⟨hr, h.air, h.long, fun j hj => ?_⟩, .quiet hq rfl⟩
    by_cases hij : j = i
    · subst hij; exact (h.node j hj).quiet hq
    · dsimp only
      rw [view_other hw hi hj hij]; exact h.node j hj
  · obtain ⟨h1, t, d, hd, h2⟩ := hh.ok hnd.ok
    rcases hnd.tx with ⟨h3, h4, h5⟩ | ⟨f', t', due', tid, n, x, h3, -⟩
    · have hd0 := hw.dur i hi f d hd
      obtain ⟨dur, rfl⟩ := Int.eq_ofNat_of_zero_le hd0
      rw [h4, List.nil_append, hnd.now] at h2
      have e : newTx (view w i s.net) (view w i (macStep w i o s.net)) = [(f, dur)] := by
        unfold newTx
        rw [hh.out, List.drop_left, h2]
        simp [hh.now, hnd.now]
      have e2 : devStep w i o L s = { net := macStep w i o s.net, air := Air.send w.air i f dur L.delay L.pw s.air } := by
        unfold devStep
        dsimp only
        rw [e]; rfl
      have ai := h.ai hw
      have hst : (s.air.phy i).state ≠ .tx := by
        intro hs
        obtain ⟨a, b, c, hm⟩ := (Air.txing ((ai.dev i).inv (hw.ns i))).1 hs
        exact h5 a b c hm
      have e3 : Air.send w.air i f dur L.delay L.pw s.air = { s.air with
          phy := Function.update s.air.phy i (PhyMacro.sendPacket s.air.sent.length dur (s.air.phy i)).2
          sent := s.air.sent ++ [⟨s.air.now, i, f, dur, L.delay, L.pw⟩]
          fly := s.air.fly ++ ((List.range w.air.num).filter (fun j => j ≠ i)).map (fun j => (s.air.sent.length, j))
          log := s.air.log ++ [.tx s.air.sent.length ⟨s.air.now, i, f, dur, L.delay, L.pw⟩] } := by
        unfold Air.send
        have e4 : (PhyMacro.sendPacket s.air.sent.length (dur : ℤ) (s.air.phy i)).1 = true := by
          unfold PhyMacro.sendPacket
          rw [if_neg hst]
        dsimp only
        rw [if_pos e4]
      rw [e2]
      refine ⟨⟨hr, ?_, fun n x hx => ?_, fun j hj => ?_⟩, .hand f dur hh hd h5 hst rfl ⟨t, h2⟩⟩
      · exact air_snoc h.air (.send i f dur L.delay L.pw) (decide_eq_true hi)
      · rw [e3] at hx
        rcases Nat.lt_or_ge n s.air.sent.length with hn | hn
        · rw [List.getElem?_append_left hn] at hx
          exact h.long n x hx
        · rw [List.getElem?_append_right hn] at hx
          obtain ⟨_, e6⟩ := List.getElem?_eq_some_iff.1 hx
          simp only [List.getElem_singleton] at e6
          rw [← e6]; exact hd
      · dsimp only
        rw [e3]
        dsimp only
        by_cases hij : j = i
        · subst hij
          rw [Function.update_self]
          refine ⟨h1, hh.now.trans hnd.now, .inr ⟨f, t, s.air.now + dur, (s.air.phy j).nextTid, s.air.sent.length, _, hh.phy, h2, ?_,
            Air.some_last _ _, rfl, rfl⟩, ?_⟩
          · unfold PhyMacro.sendPacket
            rw [if_neg hst]
            show _ ∈ (s.air.phy j).pend ++ [_]
            rw [(ai.dev j).pnow]
            exact List.mem_append_right _ (List.mem_singleton.2 rfl)
          · rw [hh.out, hnd.out, hnd.now, txOf_append]
            congr 1
            simp [txOf]
        · rw [view_other hw hi hj hij, Function.update_of_ne hij, txOf_append]
          have e5 : txOf j [Air.Obs.tx s.air.sent.length (⟨s.air.now, i, f, dur, L.delay, L.pw⟩ : Air.Tx Frame P)] = [] := by
            simp [txOf, Ne.symm hij]
          rw [e5, List.append_nil]
          exact (h.node j hj).grow _
    · exact absurd (h3.symm.trans hh.free) (by simp)

/-! ## The other operations -/

theorem Inv.land (hw : w.Wf) (h : Inv w s) (n j : Nat) (L : Link P) (ha : Air.allowed w.air s.air (.land n j) = true) :
    Inv w (landStep w n j L s) ∧ j < w.num := by
  have ai := h.ai hw
  have ha' := ha
  simp only [Air.allowed, Bool.and_eq_true, decide_eq_true_eq] at ha'
  obtain ⟨x, hx, hxi, hj, -, -⟩ := ai.fly n j ha'.1
  have e : Air.land w.air n j s.air = { s.air with
      fly := s.air.fly.filter (fun z => z ≠ (n, j))
      heard := Function.update s.air.heard j (s.air.heard j ++ [n])
      phy := Function.update s.air.phy j (PhyMacro.step (w.air.pcfg j) (s.air.phy j) (.arrive x.dur (x.pw j))) } := by
    unfold Air.land
    rw [hx]
  have h1 : Inv w { s with air := Air.land w.air n j s.air } := by
    refine ⟨h.reach, air_snoc h.air (.land n j) ha, by rw [e]; exact h.long, fun k hk => ?_⟩
    rw [e]
    dsimp only
    by_cases hkj : k = j
    · subst hkj
      rw [Function.update_self]
      refine (h.node k hk).phy (fun a b c => ?_)
      rw [(Air.arrive_data _ _ _ _).1]
      simp
    · rw [Function.update_of_ne hkj]; exact h.node k hk
  refine ⟨?_, hj⟩
  unfold landStep
  dsimp only
  split
  · exact (h1.mac hw hj .rxStart trivial trivial L).1
  · exact h1

/-- A PHY has at most one end of a transmission pending. -/
theorem tx_unique {c : PhyMacro.Cfg P} {p : PhyMacro.St P} (ip : PhyMacro.Inv c p) {a a' k k' : Nat} {b b' : ℤ}
    (h1 : (a, b, PhyMacro.Ev.txDone k) ∈ p.pend) (h2 : (a', b', PhyMacro.Ev.txDone k') ∈ p.pend) : a = a' ∧ b = b' ∧ k = k' := by
  have h7 : (PhyMacro.txIds p.pend).length ≤ 1 := by rw [ip.tx]; cases PhyMacro.cur p.log <;> simp
  by_contra hne
  have key : ∀ l : List (Nat × ℤ × PhyMacro.Ev P), (a, b, PhyMacro.Ev.txDone k) ∈ l → (a', b', PhyMacro.Ev.txDone k') ∈ l →
      2 ≤ (PhyMacro.txIds l).length := by
    intro l
    induction l with
    | nil => intro q; cases q
    | cons y l ih =>
      intro q1 q2
      have mem : ∀ {z d m}, (z, d, PhyMacro.Ev.txDone m) ∈ l → 1 ≤ (PhyMacro.txIds l).length := by
        intro z d m hz
        exact List.length_pos_of_mem (List.mem_filterMap.2 ⟨_, hz, rfl⟩)
      have up : ∀ m, (PhyMacro.txIds ((m :: l) : List (Nat × ℤ × PhyMacro.Ev P))).length = (PhyMacro.txIds [m]).length +
          (PhyMacro.txIds l).length := by
        intro m
        show (List.filterMap _ ([m] ++ l)).length = _
        rw [List.filterMap_append, List.length_append]; rfl
      rw [up]
      rcases List.mem_cons.1 q1 with r1 | r1 <;> rcases List.mem_cons.1 q2 with r2 | r2
      · have := r1.trans r2.symm
        simp only [Prod.mk.injEq, PhyMacro.Ev.txDone.injEq] at this
        exact absurd this hne
      · have := mem r2
        rw [← r1]
        show 2 ≤ 1 + _
        omega
      · have := mem r1
        rw [← r2]
        show 2 ≤ 1 + _
        omega
      · have := ih r1 r2
        omega
  have := key _ h1 h2
  omega

/-- A PHY's event is run. -/
theorem fire_mem {c : PhyMacro.Cfg P} {p : PhyMacro.St P} (ip : PhyMacro.Inv c p) {tid t : Nat} {due : ℤ} {e : PhyMacro.Ev P}
    (hf : p.pend.find? (fun e => e.1 = tid) = some (t, due, e)) (a : Nat) (b : ℤ) (k : Nat) :
    (a, b, PhyMacro.Ev.txDone k) ∈ (PhyMacro.fire c tid p).pend ↔ (a, b, PhyMacro.Ev.txDone k) ∈ p.pend ∧ e ≠ .txDone k := by
  have h1 : t = tid := by simpa using List.find?_some hf
  subst h1
  have hm := List.mem_of_find?_eq_some hf
  rw [Air.fire_pend, List.mem_filter]
  constructor
  · rintro ⟨h2, h3⟩
    refine ⟨h2, fun h4 => ?_⟩
    subst h4
    have h5 := (tx_unique ip h2 hm).1
    subst h5
    simp at h3
  · rintro ⟨h2, h3⟩
    refine ⟨h2, ?_⟩
    have : a ≠ t := by
      rintro rfl
      have := List.inj_on_of_nodup_map ip.tid h2 hm rfl
      simp only [Prod.mk.injEq, true_and] at this
      exact h3 this.2.symm
    simpa using this

theorem txOf_fire (i tid j : Nat) (a : Air.St Frame P) : txOf j (Air.fire w.air i tid a).log = txOf j a.log := by
  unfold Air.fire
  dsimp only
  rw [txOf_append]
  have : ∀ l : List Nat, txOf j (l.filterMap (Air.given i a)) = [] := by
    intro l
    unfold txOf
    rw [List.filterMap_eq_nil_iff]
    intro o ho
    obtain ⟨id, -, h⟩ := List.mem_filterMap.1 ho
    unfold Air.given at h
    split at h
    · cases h
    · split at h
      · cases h
      · rw [← Option.some.inj h]
  rw [this, List.append_nil]

theorem Inv.report (hw : w.Wf) (h : Inv w s) {i : Nat} (hi : i < w.num) (g : UInt16) (pw : P) (L : Link P) (x : Nat × Bool) :
    Inv w (report w i g pw L s x) := by
  unfold CStack.report
  split
  · exact h
  · split
    · exact h
    · rename_i y hy
      refine (h.mac hw hi (.rxDone y.f x.2 (w.dbm pw) g) ?_ trivial L).1
      cases x.2
      · trivial
      · exact h.onAir hw hy

theorem Inv.reports (hw : w.Wf) {i : Nat} (hi : i < w.num) (g : UInt16) (pw : P) (L : Link P) :
    ∀ (l : List (Nat × Bool)) (s : St P), Inv w s → Inv w (l.foldl (CStack.report w i g pw L) s) := by
  intro l
  induction l with
  | nil => intro s h; exact h
  | cons x l ih => intro s h; exact ih _ (h.report hw hi g pw L x)

/-- The end of a transmission, in both layers. -/
theorem Inv.txDone (hw : w.Wf) (h : Inv w s) {i tid t k : Nat} {due : ℤ} (hi : i < w.num)
    (hf : (s.air.phy i).pend.find? (fun e => e.1 = tid) = some (t, due, .txDone k)) (ha : Air.allowed w.air s.air (.fire i tid) = true)
    (L : Link P) : ∃ t' f, macTxTid (view w i s.net) = some t' ∧ txs (view w i s.net).pend = [(t', due, f)] ∧ due = s.air.now ∧
      devStep w i (.fire t') L { s with air := Air.fire w.air i tid s.air } =
        { net := macStep w i (.fire t') s.net, air := Air.fire w.air i tid s.air } ∧
      Tq { view w i s.net with
        pend := (view w i s.net).pend.filter (fun e => e.1 ≠ t'), phy := none } (view w i (macStep w i (.fire t') s.net)) ∧
      Inv w { net := macStep w i (.fire t') s.net, air := Air.fire w.air i tid s.air } := by
  have ai := h.ai hw
  have hnd := h.node i hi
  have ip := (ai.dev i).inv (hw.ns i)
  have hm := List.mem_of_find?_eq_some hf
  have htt : t = tid := by simpa using List.find?_some hf
  have hdue : due ≤ s.air.now := by
    simp only [Air.allowed, Bool.and_eq_true, decide_eq_true_eq, List.all_eq_true, Bool.or_eq_true] at ha
    have := ha.2 _ hm
    simp only [htt] at this
    exact this.resolve_left (by simp)
  have hdue' : due = s.air.now := le_antisymm hdue ((ai.dev i).ahead _ hm)
  rcases hnd.tx with ⟨-, -, h3⟩ | ⟨f, t', due', tid', n, x, h1, h2, h3, h4, h5, h6⟩
  · exact absurd hm (h3 _ _ _)
  · obtain ⟨rfl, rfl, rfl⟩ := tx_unique ip hm h3
    have hmv : (t', due, some f) ∈ (view w i s.net).pend := mem_txs.1 (by rw [h2]; exact List.mem_singleton.2 rfl)
    have q := mac_txDone i t' due f s.net hnd.ok hmv
    have hmax : max (view w i s.net).now due = (view w i s.net).now := by rw [hnd.now]; omega
    rw [hmax] at q
    have hok : Ok { view w i s.net with pend := (view w i s.net).pend.filter (fun e => e.1 ≠ t'), phy := none } :=
      ⟨fun e he => hnd.ok.lt e (List.mem_filter.1 he).1, hnd.ok.uniq.sublist (List.filter_sublist.map _), fun a hx =>
        ⟨(hnd.ok.can a hx).1, fun d g hg => (hnd.ok.can a hx).2 d g (List.mem_filter.1 hg).1⟩⟩
    have hnil : txs ((view w i s.net).pend.filter (fun e => e.1 ≠ t')) = [] := by
      rw [List.eq_nil_iff_forall_not_mem]
      rintro ⟨a, b, g⟩ hg
      obtain ⟨h7, h8⟩ := List.mem_filter.1 (mem_txs.1 hg)
      have h9 := mem_txs.2 h7
      rw [h2, List.mem_singleton, Prod.mk.injEq] at h9
      rw [h9.1] at h8
      simp at h8
    obtain ⟨q1, q2⟩ := q.ok hok
    have e : newTx (view w i s.net) (view w i (macStep w i (.fire t') s.net)) = [] := by
      unfold newTx
      rw [q.out]
      dsimp only
      rw [List.drop_length]; rfl
    refine ⟨t', f, by unfold macTxTid; rw [h2]; rfl, h2, hdue', ?_, q, reach_mac h.reach i _ trivial, air_snoc h.air (.fire i tid) ha,
      h.long, fun j hj => ?_⟩
    · unfold devStep
      dsimp only
      rw [e]; rfl
    · dsimp only
      rw [txOf_fire]
      have hn : (Air.fire w.air i tid s.air).now = s.air.now := rfl
      have hs : (Air.fire w.air i tid s.air).sent = s.air.sent := rfl
      rw [hn, hs]
      by_cases hij : j = i
      · subst hij
        refine ⟨q1, q.now.trans hnd.now, .inl ⟨q.phy, q2.trans hnil, ?_⟩, q.out.trans hnd.out⟩
        intro a b c hmem
        have hp : (Air.fire w.air j tid s.air).phy j = PhyMacro.fire (w.pcfg j) tid (s.air.phy j) := Function.update_self _ _ _
        rw [hp] at hmem
        obtain ⟨h7, h8⟩ := (fire_mem ip hf a b c).1 hmem
        exact h8 (by rw [(tx_unique ip h7 hm).2.2])
      · have hp : (Air.fire w.air i tid s.air).phy j = s.air.phy j := Function.update_of_ne hij _ _
        rw [hp, view_other hw hi hj hij]; exact h.node j hj

/-- The end of an arrival, at the PHY. -/
theorem Inv.rxDone (hw : w.Wf) (h : Inv w s) {i tid t k : Nat} {due : ℤ} {pw : P}
    (hf : (s.air.phy i).pend.find? (fun e => e.1 = tid) = some (t, due, .rxDone k pw)) (ha : Air.allowed w.air s.air (.fire i tid) = true) :
    Inv w { s with air := Air.fire w.air i tid s.air } := by
  have ip := ((h.ai hw).dev i).inv (hw.ns i)
  refine ⟨h.reach, air_snoc h.air (.fire i tid) ha, h.long, fun j hj => ?_⟩
  dsimp only
  rw [txOf_fire]
  have hn : (Air.fire w.air i tid s.air).now = s.air.now := rfl
  have hs : (Air.fire w.air i tid s.air).sent = s.air.sent := rfl
  rw [hn, hs]
  by_cases hij : j = i
  · subst hij
    have hp : (Air.fire w.air j tid s.air).phy j = PhyMacro.fire (w.pcfg j) tid (s.air.phy j) := Function.update_self _ _ _
    rw [hp]
    refine (h.node j hj).phy (fun a b c => ?_)
    exact (fire_mem ip hf a b c).trans (by simp)
  · have hp : (Air.fire w.air i tid s.air).phy j = s.air.phy j := Function.update_of_ne hij _ _
    rw [hp]; exact h.node j hj

theorem Inv.phy (hw : w.Wf) (h : Inv w s) (i tid : Nat) (g : UInt16) (L : Link P) (ha : Air.allowed w.air s.air (.fire i tid) = true) :
    Inv w (phyStep w i tid g L s) := by
  have hi : i < w.num := by
    simp only [Air.allowed, Bool.and_eq_true, decide_eq_true_eq] at ha
    exact ha.1
  unfold phyStep
  dsimp only
  split
  · exact h
  · rename_i hf
    obtain ⟨t', f, h1, -, -, h2, -, h3⟩ := h.txDone hw hi hf ha L
    rw [h1]
    dsimp only
    rw [h2]; exact h3
  · rename_i hf
    exact Inv.reports hw hi g _ L _ _ (h.rxDone hw hf ha)

/-! ## Time -/

theorem tick_net (hw : w.Wf) (d : Nat) : ∀ (l : List Nat) (n : CNet.Net), l.Nodup → (∀ i ∈ l, i < w.num) → CNet.Reach w.plan n →
    CNet.Reach w.plan (l.foldl (fun n i => macStep w i (.advance d) n) n) ∧
    ∀ j < w.num, view w j (l.foldl (fun n i => macStep w i (.advance d) n) n) =
      if j ∈ l then { view w j n with now := (view w j n).now + d } else view w j n := by
  intro l
  induction l with
  | nil => intro n _ _ hr; exact ⟨hr, fun j hj => rfl⟩
  | cons i l ih =>
    intro n hnd hlt hr
    have hnd' := List.nodup_cons.1 hnd
    obtain ⟨h1, h2⟩ := ih (macStep w i (.advance d) n) hnd'.2 (fun k hk => hlt k (List.mem_cons_of_mem _ hk)) (reach_mac hr i _ trivial)
    refine ⟨h1, fun j hj => ?_⟩
    rw [List.foldl_cons, h2 j hj]
    by_cases hij : j = i
    · subst hij
      rw [if_neg hnd'.1, if_pos List.mem_cons_self, mac_advance]
    · rw [view_other hw (hlt i List.mem_cons_self) hj hij]
      simp only [List.mem_cons, hij, false_or]

theorem Inv.tick (hw : w.Wf) (h : Inv w s) (d : Nat) (ha : Air.allowed w.air s.air (.tick d) = true) : Inv w (tickStep w d s) := by
  obtain ⟨h1, h2⟩ := tick_net hw d (List.range w.num) s.net List.nodup_range (fun i hi => List.mem_range.1 hi) h.reach
  refine ⟨h1, air_snoc h.air (.tick d) ha, h.long, fun j hj => ?_⟩
  have hn := h.node j hj
  show Node (view w j ((List.range w.num).foldl _ s.net)) _ _ _ _ _
  rw [h2 j hj, if_pos (List.mem_range.2 hj)]
  refine ⟨⟨hn.ok.lt, hn.ok.uniq, hn.ok.can⟩, ?_, hn.tx, hn.out⟩
  show (view w j s.net).now + _ = s.air.now + _
  rw [hn.now]

theorem Inv.step (hw : w.Wf) (h : Inv w s) (o : Op P) : Inv w (step w s o) := by
  unfold CStack.step
  split
  · rename_i ha
    cases o with
    | enqueue i b dst L =>
      simp only [allowed, Bool.and_eq_true, decide_eq_true_eq] at ha
      exact (h.mac hw ha.1 (.enqueue b dst) trivial trivial L).1
    | mac i tid L =>
      simp only [allowed, Bool.and_eq_true, decide_eq_true_eq, List.any_eq_true] at ha
      obtain ⟨hi, ⟨t, due, e⟩, hm, ⟨h1, h2⟩, h3⟩ := ha
      refine (h.mac hw hi (.fire tid) trivial ?_ L).1
      simp only [Option.isNone_iff_eq_none] at h1 h2 h3
      subst h1 h2
      exact ⟨due, hm, by rw [(h.node i hi).now]; exact h3⟩
    | land n j L => exact (h.land hw n j L ha).1
    | phy i tid g L => exact h.phy hw i tid g L ha
    | tick d =>
      simp only [allowed, Bool.and_eq_true] at ha
      exact h.tick hw d ha.1
  · exact h

theorem inv_after (hw : w.Wf) (ops : List (Op P)) : Inv w (after w ops) := by
  unfold after
  induction ops using List.reverseRecOn with
  | nil => exact Inv.init w
  | append_singleton l o ih => rw [List.foldl_append]; exact ih.step hw o

end Thz.CStack
