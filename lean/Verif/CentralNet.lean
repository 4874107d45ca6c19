import Verif.ClientAir
import Verif.ApAir
import Mathlib.Logic.Function.Basic

/-!
# A centralised network: clients and access points

The nodes are the values of functions on MAC addresses; an address is a client's or an access point's.  The medium is modelled
by what was ever handed to a PHY: any such frame may be reported intact to any node, any number of times, at any time and in any
order, or never; anything may be reported as damaged.  This over-approximates `THzChannel::SendPacket` / `ReceivePacket`
(model/thz-channel.cc:107-208) and the macro PHY (model/thz-phy-macro.cc:287-396).  The nodes' clocks are not tied to each other.
Simplification: one node per address.
-/

namespace Thz.CNet

open Thz Thz.Central
open Thz.Nano (Body Kind bcast)

/-- Who is there, with which parameters; `seq0` and `last0` are the values found in the clients' uninitialised counters. -/
structure Plan where
  isAp : Mac48 → Bool
  ccfg : Mac48 → Client.Cfg
  acfg : Mac48 → Ap.Cfg
  seq0 : Mac48 → UInt16
  last0 : Mac48 → UInt16

/-- The states of all nodes. -/
structure Net where
  cl : Mac48 → Client.St
  ap : Mac48 → Ap.St

/-- Some node handed the frame to its PHY. -/
def OnAir (n : Net) (f : Frame) : Prop := (∃ a t, Client.Obs.handed t f ∈ (n.cl a).log) ∨ ∃ b t, Ap.Obs.handed t f ∈ (n.ap b).log

/-- The medium does not forge, clients. -/
def OkC (n : Net) : Client.Op → Prop
  | .rxDone f true _ => OnAir n f
  | _ => True

/-- The medium does not forge, access points. -/
def OkA (n : Net) : Ap.Op → Prop
  | .rxDone f true _ => OnAir n f
  | _ => True

/-- The network at the start. -/
def start (P : Plan) : Net := ⟨fun a => Client.init (P.seq0 a) (P.last0 a), fun b => Ap.init (P.acfg b)⟩

/-- The states that can be reached. -/
inductive Reach (P : Plan) : Net → Prop
  | init : Reach P (start P)
  | client {n : Net} (a : Mac48) (op : Client.Op) : Reach P n → P.isAp a = false → OkC n op →
      Reach P { n with cl := Function.update n.cl a (Client.step (P.ccfg a) a (n.cl a) op) }
  | ap {n : Net} (b : Mac48) (op : Ap.Op) : Reach P n → P.isAp b = true → OkA n op →
      Reach P { n with ap := Function.update n.ap b (Ap.step (P.acfg b) b (n.ap b) op) }

/-! ## Single client facts -/

theorem client_snoc (c : Client.Cfg) (me : Mac48) (q l : UInt16) (ops : List Client.Op) (op : Client.Op) :
    Client.after c me q l (ops ++ [op]) = Client.step c me (Client.after c me q l ops) op := by
  show List.foldl _ _ _ = _
  rw [List.foldl_append]; rfl

theorem client_grew (c : Client.Cfg) (me : Mac48) (s : Client.St) (op : Client.Op) (b : Client.Basic c me s.v) :
    s.log <+: (Client.step c me s op).log := by
  have h := (Client.mis_step (c := c) (me := me) (T := False) (K := fun _ => True) s op b (fun h => h.elim)
    (fun _ _ _ _ _ => trivial)).log
  obtain ⟨x, hx⟩ := h
  exact ⟨x, hx.symm⟩

/-! ## Invariants -/

/-- Facts about every reachable state. -/
structure NetInv (P : Plan) (n : Net) : Prop where
  cl : ∀ a, ∃ ops, n.cl a = Client.after (P.ccfg a) a (P.seq0 a) (P.last0 a) ops
  ap : ∀ b, ∃ ops, n.ap b = Ap.after (P.acfg b) b ops
  rxC : ∀ a t f, Client.Obs.rx t f ∈ (n.cl a).log → OnAir n f
  rxA : ∀ b p f, Ap.Obs.rx f p ∈ (n.ap b).log → OnAir n f

variable {P : Plan} {n : Net}

theorem NetInv.basic (h : NetInv P n) (a : Mac48) : Client.Basic (P.ccfg a) a (n.cl a).v := by
  obtain ⟨ops, e⟩ := h.cl a
  rw [e]; exact Client.basic_after _ _ _

theorem NetInv.hist (h : NetInv P n) (a : Mac48) : Client.Hist (Client.Just (P.ccfg a) a False) (n.cl a).log := by
  obtain ⟨ops, e⟩ := h.cl a
  rw [e]; exact (Client.hinv_after False _ _ _ (fun h => h.elim)).hist

theorem NetInv.pk (h : NetInv P n) (a : Mac48) : Client.PkInv (P.seq0 a) (n.cl a).v := by
  obtain ⟨ops, e⟩ := h.cl a
  rw [e]; exact Client.pkinv_after _ _ _

theorem NetInv.air (h : NetInv P n) (b : Mac48) : Ap.AirInv b (P.acfg b).useWhiteList (n.ap b) := by
  obtain ⟨ops, e⟩ := h.ap b
  rw [e]; exact Ap.AirInv.after _ _ _

theorem NetInv.seen (h : NetInv P n) (b : Mac48) : Ap.SeenInv (Ap.fv (n.ap b)) := by
  obtain ⟨ops, e⟩ := h.ap b
  rw [e]; exact Ap.SeenInv.after _ _ _

theorem NetInv.growC (h : NetInv P n) (x : Mac48) (op : Client.Op) (a : Mac48) :
    (n.cl a).log <+: (Function.update n.cl x (Client.step (P.ccfg x) x (n.cl x) op) a).log := by
  by_cases e : a = x
  · subst e; rw [Function.update_self]; exact client_grew _ _ _ _ (h.basic a)
  · rw [Function.update_of_ne e]

theorem growA (x : Mac48) (op : Ap.Op) (b : Mac48) :
    (n.ap b).log <+: (Function.update n.ap x (Ap.step (P.acfg x) x (n.ap x) op) b).log := by
  by_cases e : b = x
  · subst e; rw [Function.update_self]; exact Ap.grew_step _ _ _ _
  · rw [Function.update_of_ne e]

theorem OnAir.mono {n' : Net} {f : Frame} (h : OnAir n f) (h1 : ∀ a, (n.cl a).log <+: (n'.cl a).log)
    (h2 : ∀ b, (n.ap b).log <+: (n'.ap b).log) : OnAir n' f := by
  rcases h with ⟨a, t, h⟩ | ⟨b, t, h⟩
  · exact .inl ⟨a, t, (h1 a).subset h⟩
  · exact .inr ⟨b, t, (h2 b).subset h⟩

theorem Reach.inv (h : Reach P n) : NetInv P n := by
  induction h with
  | init => exact ⟨fun a => ⟨[], rfl⟩, fun b => ⟨[], rfl⟩, by intro a t f hf; simp [start, Client.init] at hf,
      by intro a t f hf; simp [start, Ap.init] at hf⟩
  | @client n a op hr ha hop ih =>
    have hg := fun f (hf : OnAir n f) => hf.mono (n' := { n with cl := Function.update n.cl a (Client.step (P.ccfg a) a (n.cl a) op) })
      (ih.growC a op) (fun b => List.prefix_refl _)
    refine ⟨fun x => ?_, ih.ap, fun x t f hf => ?_, fun b p f hf => hg f (ih.rxA b p f hf)⟩
    · by_cases e : x = a
      · subst e
        obtain ⟨ops, e⟩ := ih.cl x
        exact ⟨ops ++ [op], by rw [client_snoc]; dsimp only; rw [Function.update_self, ← e]⟩
      · dsimp only; rw [Function.update_of_ne e]; exact ih.cl x
    · apply hg
      dsimp only at hf
      by_cases e : x = a
      · subst e
        rw [Function.update_self] at hf
        rcases Client.step_rx _ _ hf with ⟨t, h1⟩ | ⟨g, rfl⟩
        · exact ih.rxC x t f h1
        · exact hop
      · rw [Function.update_of_ne e] at hf; exact ih.rxC x t f hf
  | @ap n b op hr hb hop ih =>
    have hg := fun f (hf : OnAir n f) => hf.mono (n' := { n with ap := Function.update n.ap b (Ap.step (P.acfg b) b (n.ap b) op) })
      (fun b => List.prefix_refl _) (growA b op)
    refine ⟨ih.cl, fun x => ?_, fun x t f hf => hg f (ih.rxC x t f hf), fun x p f hf => ?_⟩
    · by_cases e : x = b
      · subst e
        obtain ⟨ops, e⟩ := ih.ap x
        exact ⟨ops ++ [op], by rw [Ap.after_snoc]; dsimp only; rw [Function.update_self, ← e]⟩
      · dsimp only; rw [Function.update_of_ne e]; exact ih.ap x
    · apply hg
      dsimp only at hf
      by_cases e : x = b
      · subst e
        rw [Function.update_self] at hf
        rcases Ap.step_rx _ _ _ _ hf with ⟨t, h1⟩ | ⟨g, rfl⟩
        · exact ih.rxA x t f h1
        · exact hop
      · rw [Function.update_of_ne e] at hf; exact ih.rxA x p f hf

/-! ## What is on the air -/

/-- A client's frame carries its address and is an RTS or DATA. -/
theorem NetInv.clientFrame (h : NetInv P n) {a : Mac48} {t : ℤ} {f : Frame} (hf : Client.Obs.handed t f ∈ (n.cl a).log) :
    f.src = a ∧ (f.kind = .rts ∨ f.kind = .data) := by
  obtain ⟨l1, l2, e⟩ := List.append_of_mem hf
  obtain ⟨due, -, -, ⟨hk, -, p, id, rfl, -⟩ | ⟨hk, -, hw⟩ | ⟨hk, p, rfl, -⟩⟩ := h.hist a l1 _ l2 e
  · exact ⟨rfl, .inl hk⟩
  · obtain ⟨_, _, _, _, _, _, _, _, _, _, _, h2, _⟩ := hw
    exact ⟨h2, .inl hk⟩
  · exact ⟨rfl, .inr hk⟩

theorem NetInv.apFrame (h : NetInv P n) {b : Mac48} {t : ℤ} {f : Frame} (hf : Ap.Obs.handed t f ∈ (n.ap b).log) :
    f.src = b ∧ (f.kind = .cta ∨ f.kind = .cts ∨ f.kind = .ack) := by
  obtain ⟨h1, ⟨h2, -⟩ | ⟨h2, -⟩ | ⟨h2, -⟩⟩ := (h.air b).hand t f hf
  · exact ⟨h1, .inl h2⟩
  · exact ⟨h1, .inr (.inl h2)⟩
  · exact ⟨h1, .inr (.inr h2)⟩

/-- RTS and DATA frames come from clients. -/
theorem NetInv.fromClient (h : NetInv P n) {f : Frame} (hf : OnAir n f) (hk : f.kind = .rts ∨ f.kind = .data) :
    ∃ t, Client.Obs.handed t f ∈ (n.cl f.src).log := by
  rcases hf with ⟨a, t, h1⟩ | ⟨b, t, h1⟩
  · rw [(h.clientFrame h1).1]; exact ⟨t, h1⟩
  · rcases (h.apFrame h1).2 with h2 | h2 | h2 <;> rw [h2] at hk <;> simp at hk

/-- The other frames come from access points. -/
theorem NetInv.fromAp (h : NetInv P n) {f : Frame} (hf : OnAir n f) (hk : f.kind ≠ .rts) (hk' : f.kind ≠ .data) :
    ∃ t, Ap.Obs.handed t f ∈ (n.ap f.src).log := by
  rcases hf with ⟨a, t, h1⟩ | ⟨b, t, h1⟩
  · rcases (h.clientFrame h1).2 with h2 | h2
    · exact absurd h2 hk
    · exact absurd h2 hk'
  · rw [(h.apFrame h1).1]; exact ⟨t, h1⟩

/-! ## No wrap, and solicited grants -/

/-- The number of packets accepted. -/
def numAccepted (l : List Client.Obs) : Nat := l.countP fun o => match o with
  | .accepted _ => true
  | _ => false

theorem numAccepted_eq (l : List Client.Obs) : numAccepted l = Client.numAcc l := by
  unfold numAccepted Client.numAcc
  congr 1

/-- The 16-bit sequence counters did not wrap around. -/
def NoWrap (P : Plan) (n : Net) : Prop := ∀ a, (P.seq0 a).toNat + numAccepted (n.cl a).log ≤ 65535

/-- Every CTS a client received for itself was asked for: it has sent an ordinary RTS with that number before. -/
def Solicited (n : Net) : Prop := ∀ a l1 t f l2, (n.cl a).log = l1 ++ Client.Obs.rx t f :: l2 → f.kind = .cts → f.dst = a →
  ∃ t' r, Client.Obs.handed t' r ∈ l1 ∧ r.kind = .rts ∧ r.flags = 0 ∧ r.seq = f.seq

theorem NoWrap.mono {n' : Net} (h : NoWrap P n') (hg : ∀ a, (n.cl a).log <+: (n'.cl a).log) : NoWrap P n := by
  intro a
  have h1 := h a
  obtain ⟨x, hx⟩ := hg a
  rw [← hx, numAccepted, List.countP_append] at h1
  unfold numAccepted
  omega

theorem Solicited.mono {n' : Net} (h : Solicited n') (hg : ∀ a, (n.cl a).log <+: (n'.cl a).log) : Solicited n := by
  intro a l1 t f l2 e
  obtain ⟨x, hx⟩ := hg a
  exact h a l1 t f (l2 ++ x) (by rw [← hx, e]; simp)

theorem acc_seq (h : NetInv P n) (hw : NoWrap P n) {a : Mac48} {p : Client.Pkt} (hp : Client.Obs.accepted p ∈ (n.cl a).log) :
    p.seq.toNat = (P.seq0 a).toNat + p.uid + 1 := by
  have h1 := (h.basic a).accLt p hp
  have h2 := (h.pk a).accSeq p hp
  have h3 := hw a
  rw [numAccepted_eq, show Client.numAcc (n.cl a).log = (n.cl a).v.nextUid from (h.pk a).num] at h3
  rw [h2, UInt16.toNat_add, UInt16.toNat_ofNat']
  omega

theorem acc_inj (h : NetInv P n) (hw : NoWrap P n) {a : Mac48} {p p' : Client.Pkt} (hp : Client.Obs.accepted p ∈ (n.cl a).log)
    (hp' : Client.Obs.accepted p' ∈ (n.cl a).log) (e : p.seq = p'.seq) : p = p' := by
  have h1 := acc_seq h hw hp
  have h2 := acc_seq h hw hp'
  rw [e] at h1
  exact (h.pk a).accUniq p p' hp hp' (by omega)

/-- A DATA frame on the air is an accepted packet's. -/
theorem data_accepted (h : NetInv P n) {a : Mac48} {t : ℤ} {f : Frame} (hf : Client.Obs.handed t f ∈ (n.cl a).log)
    (hk : f.kind = .data) : ∃ p, Client.Obs.accepted p ∈ (n.cl a).log ∧ f = Client.dataFrame a p ∧ p.dst ≠ bcast := by
  obtain ⟨l1, l2, e⟩ := List.append_of_mem hf
  have hs : l1 ⊆ (n.cl a).log := by rw [e]; exact List.subset_append_left _ _
  obtain ⟨due, -, -, ⟨hk', -⟩ | ⟨hk', -⟩ | ⟨-, p, rfl, hb, hw⟩⟩ := h.hist a l1 _ l2 e
  · rw [hk] at hk'; cases hk'
  · rw [hk] at hk'; cases hk'
  · refine ⟨p, ?_, rfl, hb⟩
    rcases hw with ⟨m1, t0, g, m2, e1, -, -, -, ho, -⟩ | ⟨m1, t0, g, m2, k, e1, -, -, ho, -⟩
    · exact hs (by rw [e1]; exact List.mem_append_left _ ho.1)
    · exact hs (by rw [e1]; exact List.mem_append_left _ ho.1.1)

/-- A packet whose DATA frame has been sent was the oldest open one at some time before. -/
theorem data_oldest (h : NetInv P n) (hw : NoWrap P n) (hsol : Solicited n) {a : Mac48} {t : ℤ} {p : Client.Pkt}
    (hf : Client.Obs.handed t (Client.dataFrame a p) ∈ (n.cl a).log) (hp : Client.Obs.accepted p ∈ (n.cl a).log) :
    ∃ l1 l2, (n.cl a).log = l1 ++ l2 ∧ Client.Oldest l1 p := by
  obtain ⟨l1, l2, e⟩ := List.append_of_mem hf
  have hs : l1 ⊆ (n.cl a).log := by rw [e]; exact List.subset_append_left _ _
  obtain ⟨due, -, -, ⟨hk', -⟩ | ⟨hk', -⟩ | ⟨-, p', hfe, hb, hwhy⟩⟩ := h.hist a l1 _ l2 e
  · cases hk'
  · cases hk'
  · have hq : p.seq = p'.seq := congrArg (·.seq) hfe
    rcases hwhy with ⟨m1, t0, g, m2, e1, hg1, hg2, hg3, ho, -⟩ | ⟨m1, t0, g, m2, k, e1, -, -, ho, -⟩
    · obtain ⟨t', r, hr1, hr2, hr3, hr4⟩ := hsol a m1 t0 g (m2 ++ Client.Obs.handed t (Client.dataFrame a p) :: l2) (by rw [e, e1]; simp) hg1 hg2
      obtain ⟨k1, k2, e2⟩ := List.append_of_mem hr1
      have e3 : (n.cl a).log = k1 ++ Client.Obs.handed t' r :: (k2 ++ Client.Obs.rx t0 g :: (m2 ++ Client.Obs.handed t (Client.dataFrame a p) :: l2)) := by
        rw [e, e1, e2]; simp
      obtain ⟨due', -, -, ⟨-, -, p2, id, rfl, hrw⟩ | ⟨-, hfl, -⟩ | ⟨hk', -⟩⟩ := h.hist a k1 _ _ e3
      · obtain ⟨j1, t1, g1, j2, i, e4, -, -, -, -, -, hold, -⟩ := hrw
        have e5 : (n.cl a).log = j1 ++ (Client.Obs.rx t1 g1 :: j2 ++ Client.Obs.handed t' (Client.rtsFrame a id p2) :: (k2 ++ Client.Obs.rx t0 g :: (m2 ++ Client.Obs.handed t (Client.dataFrame a p) :: l2))) := by
          rw [e3, e4]; simp
        have hpp : p2 = p := by
          refine acc_inj h hw ?_ hp ?_
          · rw [e5]; exact List.mem_append_left _ hold.1.1
          · exact (show p2.seq = g.seq from hr4).trans (hg3.trans hq.symm)
        exact ⟨j1, _, e5, hpp ▸ hold⟩
      · rw [hr3] at hfl; exact absurd hfl (by decide)
      · rw [hr2] at hk'; cases hk'
    · have hpp : p' = p := by
        refine acc_inj h hw ?_ hp hq.symm
        exact hs (by rw [e1]; exact List.mem_append_left _ ho.1.1)
      exact ⟨m1, Client.Obs.rx t0 g :: (m2 ++ Client.Obs.handed t (Client.dataFrame a p) :: l2), by rw [e, e1]; simp, hpp ▸ ho⟩

theorem mem_numsFrom {a : Mac48} {l : List Ap.Obs} {q : UInt16} :
    q ∈ Ap.numsFrom a (Ap.ups l) ↔ ∃ x d, Ap.Obs.up x a d q ∈ l := by
  unfold Ap.numsFrom
  rw [List.mem_filterMap]
  constructor
  · rintro ⟨⟨x, s, d, q'⟩, h1, h2⟩
    simp only [Option.ite_none_right_eq_some, Option.some.injEq] at h2
    obtain ⟨rfl, rfl⟩ := h2
    exact ⟨x, d, Ap.mem_ups.1 h1⟩
  · rintro ⟨x, d, h⟩
    exact ⟨(x, a, d, q), Ap.mem_ups.2 h, by simp⟩

/-- An acknowledgement on the air for a packet which is open in a later part of its sender's log. -/
theorem ack_delivered (h : NetInv P n) (hw : NoWrap P n) (hsol : Solicited n) {a : Mac48} {f : Frame} (hf : OnAir n f)
    (hk : f.kind = .ack) (hd : f.dst = a) {p : Client.Pkt} (hq : f.seq = p.seq)
    (hlt : ∀ l1 l2 p', (n.cl a).log = l1 ++ l2 → Client.Oldest l1 p' → p'.uid ≤ p.uid)
    (hseq : p.seq.toNat = (P.seq0 a).toNat + p.uid + 1) :
    p.seq ∈ Ap.numsFrom a (Ap.ups (n.ap f.src).log) := by
  obtain ⟨t, h1⟩ := h.fromAp hf (by rw [hk]; decide) (by rw [hk]; decide)
  obtain ⟨-, ⟨h2, -⟩ | ⟨h2, -⟩ | ⟨-, g, p1, h3, h4, h5, h6⟩⟩ := (h.air f.src).hand t f h1
  · rw [hk] at h2; cases h2
  · rw [hk] at h2; cases h2
  · obtain ⟨x, hx, hle⟩ := (h.seen f.src).2 g (Ap.mem_rxs.2 ⟨p1, h3⟩) h4
    rw [h5, hd] at hx
    obtain ⟨y, d, hy⟩ := mem_numsFrom.1 hx
    obtain ⟨g', p2, k1, k2, k3, -, k5, -⟩ := (h.air f.src).up y a d x hy
    obtain ⟨t', k6⟩ := h.fromClient (h.rxA _ _ _ k1) (.inr k2)
    rw [k3] at k6
    obtain ⟨p', k7, rfl, -⟩ := data_accepted h k6 k2
    obtain ⟨l1, l2, e, ho⟩ := data_oldest h hw hsol k6 k7
    have h7 := hlt l1 l2 p' e ho
    have h8 := acc_seq h hw k7
    have h9 := UInt16.le_iff_toNat_le.1 hle
    rw [h6, hq] at h9
    have k5 : p'.seq = x := k5
    rw [← k5] at h9 hx
    have : p'.seq = p.seq := UInt16.toNat_inj.1 (by omega)
    rw [← this]; exact hx

/-- Two prefixes of the same list. -/
theorem prefix_cases {α : Type} {l l1 l2 m : List α} {o : α} (h : l <+: m) (e : m = l1 ++ o :: l2) : o ∈ l ∨ l <+: l1 := by
  have h2 : l1 ++ [o] <+: m := ⟨l2, by rw [e]; simp⟩
  rcases List.prefix_or_prefix_of_prefix h h2 with h3 | h3
  · rcases List.prefix_concat_iff.1 h3 with h4 | h4
    · left; rw [h4]; simp
    · exact .inr h4
  · left; exact h3.subset (by simp)

/-- Why a success report means delivery. -/
theorem Reach.succ (h : Reach P n) (hw : NoWrap P n) (hsol : Solicited n) : ∀ a p, Client.Obs.done true p ∈ (n.cl a).log →
    ∃ b, P.isAp b = true ∧ p.seq ∈ Ap.numsFrom a (Ap.ups (n.ap b).log) := by
  induction h with
  | init => intro a p hp; simp [start, Client.init] at hp
  | @ap n b op hr hb hop ih =>
    intro a p hp
    obtain ⟨x, hx, h1⟩ := ih (hw.mono (fun _ => List.prefix_refl _)) (hsol.mono (fun _ => List.prefix_refl _)) a p hp
    refine ⟨x, hx, ?_⟩
    obtain ⟨y, d, h2⟩ := mem_numsFrom.1 h1
    exact mem_numsFrom.2 ⟨y, d, (growA b op x).subset h2⟩
  | @client n x op hr hx hop ih =>
    have hi := hr.inv
    have hi' := (Reach.client x op hr hx hop).inv
    have hw0 : NoWrap P n := hw.mono (hi.growC x op)
    have hsol0 : Solicited n := hsol.mono (hi.growC x op)
    have ih := ih hw0 hsol0
    intro a p hp
    by_cases e : a = x
    · subst e
      dsimp only at hp ⊢
      by_cases hold : Client.Obs.done true p ∈ (n.cl a).log
      · exact ih a p hold
      · obtain ⟨l1, l2, e⟩ := List.append_of_mem hp
        obtain ⟨hwhy, hopen⟩ := hi'.hist a l1 _ l2 e
        rcases prefix_cases (hi.growC a op a) e with h1 | hpre
        · exact absurd h1 hold
        · obtain ⟨m1, t, f, m2, e1, hfk, hfd, hfq, -⟩ : Client.AckWhy a l1 p.seq := hwhy
          have hrx : Client.Obs.rx t f ∈ (Client.step (P.ccfg a) a (n.cl a) op).log := by
            rw [Function.update_self] at e
            rw [e, e1]; simp
          have hair : OnAir n f := by
            rcases Client.step_rx _ _ hrx with ⟨t', h1⟩ | ⟨g, rfl⟩
            · exact hi.rxC a t' f h1
            · exact hop
          have hacc : Client.Obs.accepted p ∈ (Function.update n.cl a (Client.step (P.ccfg a) a (n.cl a) op) a).log := by
            rw [e]; exact List.mem_append_left _ hopen.1
          refine ⟨f.src, ?_, ack_delivered hi hw0 hsol0 hair hfk hfd hfq ?_ (acc_seq hi' hw hacc)⟩
          · obtain ⟨t', h1⟩ := hi.fromAp hair (by rw [hfk]; decide) (by rw [hfk]; decide)
            by_contra hno
            have : (n.ap f.src).log = [] := by
              have hz : ∀ {m}, Reach P m → ∀ y, P.isAp y ≠ true → (m.ap y).log = [] := by
                intro m hm
                induction hm with
                | init => intro y _; rfl
                | client _ _ _ _ _ ih => exact ih
                | ap b' op' _ hb' _ ih =>
                  intro y hy
                  dsimp only
                  rw [Function.update_of_ne (by rintro rfl; exact hy hb')]
                  exact ih y hy
              exact hz hr _ hno
            rw [this] at h1; cases h1
          · intro k1 k2 p' e2 ho
            obtain ⟨ops, e3⟩ := hi'.cl a
            dsimp only at e3
            obtain ⟨z, hz⟩ := hpre
            refine Client.oldest_le (c := P.ccfg a) (me := a) (seq0 := P.seq0 a) (last0 := P.last0 a) (ops := ops) (l1 := k1)
              (l2 := k2 ++ z ++ Client.Obs.done true p :: l2) ?_ ho ?_ ?_
            · rw [← e3, e, ← hz, e2]; simp
            · rw [← e3]; exact hacc
            · intro ok hd
              exact hopen.2 ok (by rw [← hz, e2]; simp [hd])
    · dsimp only at hp ⊢
      rw [Function.update_of_ne e] at hp
      exact ih a p hp

/-- Without sounding every CTS is solicited. -/
theorem Reach.solicited (h : Reach P n) (hns : ∀ b, (P.acfg b).useWhiteList = false) : Solicited n := by
  induction h with
  | init => intro a l1 t f l2 e; simp [start, Client.init] at e
  | ap b op hr hb hop ih => exact ih
  | @client n x op hr hx hop ih =>
    have hi := hr.inv
    have hi' := (Reach.client x op hr hx hop).inv
    intro a l1 t f l2 e hk hd
    by_cases ea : a = x
    · subst ea
      have e' := e
      dsimp only at e
      -- is the reception old?
      have hsplit : (∃ z, (n.cl a).log = l1 ++ Client.Obs.rx t f :: z) ∨ (n.cl a).log <+: l1 := by
        have h2 : l1 ++ [Client.Obs.rx t f] <+: (Function.update n.cl a (Client.step (P.ccfg a) a (n.cl a) op) a).log :=
          ⟨l2, by rw [e]; simp⟩
        rcases List.prefix_or_prefix_of_prefix (hi.growC a op a) h2 with h3 | ⟨z, hz⟩
        · rcases List.prefix_concat_iff.1 h3 with h4 | h4
          · exact .inl ⟨[], h4⟩
          · exact .inr h4
        · exact .inl ⟨z, by rw [← hz]; simp⟩
      rcases hsplit with ⟨z, hz⟩ | hpre
      · exact ih a l1 t f z hz hk hd
      · have hrx : Client.Obs.rx t f ∈ (Client.step (P.ccfg a) a (n.cl a) op).log := by
          rw [Function.update_self] at e
          rw [e]; simp
        have hair : OnAir n f := by
          rcases Client.step_rx _ _ hrx with ⟨t', h1⟩ | ⟨g, rfl⟩
          · exact hi.rxC a t' f h1
          · exact hop
        obtain ⟨t', h1⟩ := hi.fromAp hair (by rw [hk]; decide) (by rw [hk]; decide)
        obtain ⟨-, ⟨h2, -⟩ | ⟨-, g, p1, h3, h4, h5, h6⟩ | ⟨h2, -⟩⟩ := (hi.air f.src).hand t' f h1
        · rw [hk] at h2; cases h2
        · obtain ⟨t2, h7⟩ := hi.fromClient (hi.rxA _ _ _ h3) (.inl h4)
          rw [h5, hd] at h7
          refine ⟨t2, g, hpre.subset h7, h4, ?_, h6⟩
          obtain ⟨k1, k2, e2⟩ := List.append_of_mem h7
          obtain ⟨due, -, -, ⟨-, hfl, -⟩ | ⟨-, -, hdw⟩ | ⟨hk', -⟩⟩ := hi.hist a k1 _ k2 e2
          · exact hfl
          · exfalso
            obtain ⟨j1, t3, g3, j2, i, e3, -, hgk, hgf, -⟩ := hdw
            obtain ⟨t4, h8⟩ := hi.fromAp (hi.rxC a t3 g3 (by rw [e2, e3]; simp)) (by rw [hgk]; decide) (by rw [hgk]; decide)
            obtain ⟨-, ⟨-, h9⟩ | ⟨h9, -⟩ | ⟨h9, -⟩⟩ := (hi.air g3.src).hand t4 g3 h8
            · have := h9 hgf
              rw [hns] at this; cases this
            · rw [hgk] at h9; cases h9
            · rw [hgk] at h9; cases h9
          · rw [h4] at hk'; cases hk'
        · rw [hk] at h2; cases h2
    · dsimp only at e
      rw [Function.update_of_ne ea] at e
      exact ih a l1 t f l2 e hk hd

end Thz.CNet
