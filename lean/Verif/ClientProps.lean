import Verif.ClientGrace
import Mathlib.Data.List.Induction

/-!
# Theorems about the client of the centralised scenario: C41-C43, C75, C76, C78, C79, C81

The properties are stated over the log of a run: what was accepted, put on the air, received, charged, given up and
settled, in this order.  `T` stands for "the run is in time order" where a statement distinguishes such runs.
-/

namespace Thz.Client

open Thz Thz.Central
open Thz.Nano (Body Kind bcast)

variable {c : Cfg} {me : Mac48}

/-! ## Parameters for the examples -/

def exMe : Mac48 := ⟨0, 0, 0, 0, 0, 1⟩
def exAp : Mac48 := ⟨0, 0, 0, 0, 0, 2⟩
def exBody : Body := ⟨7, 15000⟩

/-- Attribute defaults (model/thz-mac-macro-client.cc:110-166, model/thz-phy-macro.cc:80-125) in picoseconds, a client at
0.5 m from the origin; the random stream is constant. -/
def exCfg (ways r : Nat) : Cfg :=
  { tpn := 1000, ways := ways, boSlots := 5, slot := 2000, slot3 := 2000, sifs := 0, tProp := 3333, minSize := 15000
    rtsRetryLimit := 7, dataRetryLimit := 5, tData := 813620, fairness := 3333
    ctrlDur := ctrlDurDefault, dataDur := fun n m => calTx 0 n m, rng := fun _ => r }

def exCta : Frame := ⟨1, .cta, exAp, bcast, 0, 0, 0, 3, noBody⟩
def exCts (d : Mac48) (q dur : UInt16) : Frame := ⟨1, .cts, exAp, d, q, dur, 13, 0, noBody⟩
def exAck (q : UInt16) : Frame := ⟨1, .ack, exAp, exMe, q, 0, 0, 0, noBody⟩
def exP1 : Pkt := ⟨0, 1, exAp, exBody⟩
def exP2 : Pkt := ⟨1, 2, exAp, exBody⟩

/-- A frame arrives: start, its duration, intact end. -/
def hears (f : Frame) : List Op := [.rxStart, .advance 1189, .rxDone f true 0]

/-- Two packets; the first is requested, granted, sent and acknowledged. -/
def runOk : List Op :=
  [.enqueue exBody exAp, .enqueue exBody exAp] ++ hears exCta ++ [.fire 0, .fire 1] ++ hears (exCts exMe 1 20) ++
    [.fire 2, .fire 3] ++ hears (exAck 1) ++ [.fire 5, .fire 6]

/-- Two packets; seven RTSs for the first stay unanswered; the last CTA discards it. -/
def runDiscard : List Op :=
  [.enqueue exBody exAp, .enqueue exBody exAp] ++
    (List.range 7).flatMap (fun k => hears exCta ++ [.fire (2 * k), .fire (2 * k + 1)] ++ hears exCta)

/-- ... 1 ps later the packet is settled, and at the end of the slot an RTS goes out. -/
def runDiscard2 : List Op := runDiscard ++ [.fire 14, .fire 16, .fire 15]

/-- One-way protocol: the first packet is sent on a CTA and acknowledged. -/
def runOne : List Op :=
  [.enqueue exBody exAp, .enqueue exBody exAp] ++ hears exCta ++ [.fire 0, .fire 1] ++ hears (exAck 1) ++
    [.fire 3, .fire 4]

/-! ## C41: the client transmits only when granted -/

/-- A CTA to contend on: neither a sounding CTA nor sector feedback for this node. -/
def Contention (me : Mac48) (g : Frame) : Prop := g.kind = .cta ∧ g.flags ≠ 1 ∧ ¬ (g.flags = 2 ∧ g.dst = me)

/-- The sector this node was told last by sector feedback received before. -/
inductive LastSector (me : Mac48) : List Obs → Option UInt16 → Prop
  | nil : LastSector me [] none
  | told {l a} (t : ℤ) (f : Frame) : LastSector me l a → f.kind = .cta → f.flags = 2 → f.dst = me →
      LastSector me (l ++ [.rx t f]) (some f.sector)
  | other {l a} (o : Obs) : LastSector me l a →
      (∀ t f, o = .rx t f → ¬ (f.kind = .cta ∧ f.flags = 2 ∧ f.dst = me)) → LastSector me (l ++ [o]) a

theorem lastSector_assigned (hw : c.ways = 3) (l : List Obs) : LastSector me l (assigned c me l) := by
  induction l using List.reverseRecOn with
  | nil => exact .nil
  | append_singleton l o ih =>
    rw [assigned_snoc]
    cases o with
    | rx t f =>
      simp only [assign]
      split
      · rename_i h; exact .told t f ih h.2.1 h.2.2.1 h.2.2.2
      · rename_i h
        refine .other _ ih ?_
        intro t' f' he hc
        cases he
        exact h ⟨hw, hc⟩
    | _ => exact .other _ ih (by intro t f he; cases he)

theorem LastSector.unique {l : List Obs} {a b : Option UInt16} (h1 : LastSector me l a) (h2 : LastSector me l b) : a = b := by
  induction h1 generalizing b with
  | nil =>
    generalize hl : ([] : List Obs) = l' at h2
    cases h2 with
    | nil => rfl
    | told t f _ _ _ _ => simp at hl
    | other o _ _ => simp at hl
  | told t f _ hk hf hd ih =>
    generalize hl : (_ ++ [Obs.rx t f] : List Obs) = l' at h2
    cases h2 with
    | nil => simp at hl
    | told t' f' h' _ _ _ =>
      have := List.append_inj' hl rfl
      have h3 := this.2
      simp only [List.cons.injEq, Obs.rx.injEq, and_true] at h3
      rw [h3.2]
    | other o h' hn =>
      have := List.append_inj' hl rfl
      have h3 := this.2
      simp only [List.cons.injEq, and_true] at h3
      exact absurd ⟨hk, hf, hd⟩ (hn t f h3.symm)
  | other o h1 hn ih =>
    generalize hl : (_ ++ [o] : List Obs) = l' at h2
    cases h2 with
    | nil => simp at hl
    | told t' f' h' hk hf hd =>
      have := List.append_inj' hl rfl
      have h3 := this.2
      simp only [List.cons.injEq, and_true] at h3
      exact absurd ⟨hk, hf, hd⟩ (hn t' f' h3)
    | other o' h' hn' =>
      have := List.append_inj' hl rfl
      rw [← this.1] at h' 
      exact ih h'

/-- What an RTS needs: in the three-way protocol, an earlier CTA to contend on, received while a packet with the RTS's
sequence number and destination was unsettled, of the sector assigned by then (if any); and the RTS goes out 1 to
`BoSlots` slots after it, in the right order of events exactly then. -/
def RtsGranted (c : Cfg) (me : Mac48) (T : Prop) (l : List Obs) (t : ℤ) (f : Frame) : Prop :=
  c.ways = 3 ∧ ∃ l1 t0 g l2 p k, l = l1 ++ Obs.rx t0 g :: l2 ∧ Contention me g ∧
    (LastSector me l1 none ∨ LastSector me l1 (some g.sector)) ∧
    Obs.accepted p ∈ l1 ∧ (∀ ok, Obs.done ok p ∉ l1) ∧ f.src = me ∧ f.dst = p.dst ∧ f.seq = p.seq ∧ f.flags = 0 ∧
    1 ≤ k ∧ k ≤ max 1 c.boSlots ∧ t0 + c.slot3 * (k : Nat) ≤ t ∧ (T → t = t0 + c.slot3 * (k : Nat))

/-- What an answer to a sounding CTA needs. -/
def SoundingAsked (c : Cfg) (me : Mac48) (T : Prop) (l : List Obs) (t : ℤ) (f : Frame) : Prop :=
  c.ways = 3 ∧ ∃ l1 t0 g l2 k, l = l1 ++ Obs.rx t0 g :: l2 ∧ g.kind = .cta ∧ g.flags = 1 ∧
    f.flags = 1 ∧ f.src = me ∧ f.dst = g.src ∧
    1 ≤ k ∧ k ≤ max 1 c.boSlots ∧ t0 + c.slot3 * (k : Nat) ≤ t ∧ (T → t = t0 + c.slot3 * (k : Nat))

/-- What DATA needs: the frame is an accepted packet, unicast, and there is an earlier CTS addressed to this node with the
packet's sequence number, received while the packet was unsettled, which asked for it at this time; or, in the one-way
protocol, an earlier CTA received while the packet was unsettled, the fairness time and 1 to `BoSlots` slots before. -/
def DataGranted (c : Cfg) (me : Mac48) (T : Prop) (l : List Obs) (t : ℤ) (f : Frame) : Prop :=
  ∃ p, f.src = me ∧ f.dst = p.dst ∧ f.seq = p.seq ∧ f.body = p.body ∧ p.dst ≠ bcast ∧
    ((∃ l1 t0 g l2, l = l1 ++ Obs.rx t0 g :: l2 ∧ g.kind = .cts ∧ g.dst = me ∧ g.seq = p.seq ∧
        Obs.accepted p ∈ l1 ∧ (∀ ok, Obs.done ok p ∉ l1) ∧
        t0 + g.dur.toNat * c.tpn ≤ t ∧ (T → t = t0 + g.dur.toNat * c.tpn)) ∨
     (c.ways = 1 ∧ ∃ l1 t0 g l2 k, l = l1 ++ Obs.rx t0 g :: l2 ∧ g.kind = .cta ∧
        Obs.accepted p ∈ l1 ∧ (∀ ok, Obs.done ok p ∉ l1) ∧ 1 ≤ k ∧ k ≤ max 1 c.boSlots ∧
        t0 + c.fairness + c.slot * (k : Nat) ≤ t ∧ (T → t = t0 + c.fairness + c.slot * (k : Nat))))

theorem handWhy_granted {T : Prop} {l : List Obs} {t : ℤ} {f : Frame} (h : HandWhy c me T l t f) :
    (f.kind = .rts ∧ (RtsGranted c me T l t f ∨ SoundingAsked c me T l t f)) ∨
    (f.kind = .data ∧ DataGranted c me T l t f) := by
  obtain ⟨due, h1, h2, h3⟩ := h
  rcases h3 with ⟨hk, _, p, id, hf, l1, t0, g, l2, k, e1, e2, e3, e4, e5, e6, e7, e8, e9, e10⟩ |
    ⟨hk, _, l1, t0, g, l2, k, e1, e2, e3, e4, e5, e6, e7, e8, e9, e10, e11⟩ | ⟨hk, p, hf, hb, hw⟩
  · have hs : c.slotTime = c.slot3 := by unfold Cfg.slotTime; rw [if_pos e2]
    rw [hs] at e10
    refine .inl ⟨hk, .inl ⟨e2, l1, t0, g, l2, p, k, e1, ⟨e3, e4, fun h => e5 ⟨e2, e3, h⟩⟩, ?_, e7.1.1, e7.1.2, ?_, ?_, ?_, ?_, e8, e9,
      ?_, ?_⟩⟩
    · have := lastSector_assigned (c := c) (me := me) e2 l1
      rcases e6 with h | h
      · left; rwa [h] at this
      · right; rwa [h] at this
    · rw [hf]; rfl
    · rw [hf]; rfl
    · rw [hf]; rfl
    · rw [hf]; rfl
    · rw [← e10]; exact h1
    · rw [← e10]; exact h2
  · have hs : c.slotTime = c.slot3 := by unfold Cfg.slotTime; rw [if_pos e2]
    rw [hs] at e11
    exact .inl ⟨hk, .inr ⟨e2, l1, t0, g, l2, k, e1, e3, e4, e6, e7, e8, e9, e10, e11 ▸ h1, e11 ▸ h2⟩⟩
  · refine .inr ⟨hk, p, by rw [hf]; rfl, by rw [hf]; rfl, by rw [hf]; rfl, by rw [hf]; rfl, hb, ?_⟩
    rcases hw with ⟨l1, t0, g, l2, e1, e2, e3, e4, e5, e6⟩ | ⟨l1, t0, g, l2, k, e1, e2, e3, e4, e5, e6, e7⟩
    · unfold durTime at e6
      exact .inl ⟨l1, t0, g, l2, e1, e2, e3, e4, e5.1, e5.2, e6 ▸ h1, e6 ▸ h2⟩
    · have hs : c.slotTime = c.slot := by unfold Cfg.slotTime; rw [if_neg (by omega)]
      rw [hs] at e7
      exact .inr ⟨e2, l1, t0, g, l2, k, e1, e3, e4.1.1, e4.1.2, e5, e6, e7 ▸ h1, e7 ▸ h2⟩

/-- **C41.**  Whatever frame the client puts on the air is an RTS or DATA, and what it needs happened before. -/
theorem C41_only_when_granted (T : Prop) (seq0 last0 : UInt16) (ops : List Op)
    (hT : T → timely c me (init seq0 last0) ops = true) (l1 l2 : List Obs) (t : ℤ) (f : Frame)
    (h : (after c me seq0 last0 ops).log = l1 ++ Obs.handed t f :: l2) :
    (f.kind = .rts ∧ (RtsGranted c me T l1 t f ∨ SoundingAsked c me T l1 t f)) ∨
    (f.kind = .data ∧ DataGranted c me T l1 t f) :=
  handWhy_granted ((hinv_after T seq0 last0 ops hT).hist l1 _ l2 h)

/-- Both sorts of frames go out in a run in time order. -/
example : timely (exCfg 3 0) exMe (init 0 0) runOk = true ∧
    ((after (exCfg 3 0) exMe 0 0 runOk).log.filterMap fun o => match o with
      | .handed t f => some (t, f.kind, f.seq)
      | _ => none) = [(3189, Kind.rts, 1), (25621, Kind.data, 1)] := by decide +kernel

/-- **C41, the sector.**  The CTA on which a client contends is of the sector the client was told last, if it was told one. -/
theorem C41_own_sector (seq0 last0 : UInt16) (ops : List Op) (l1 l2 : List Obs) (t : ℤ) (f : Frame)
    (h : (after c me seq0 last0 ops).log = l1 ++ Obs.handed t f :: l2) (hk : f.kind = .rts) (hf : f.flags = 0) :
    ∃ la t0 g lb, l1 = la ++ Obs.rx t0 g :: lb ∧ Contention me g ∧
      ∀ sec, LastSector me la (some sec) → g.sector = sec := by
  rcases C41_only_when_granted False seq0 last0 ops (fun h => h.elim) l1 l2 t f h with ⟨_, h | h⟩ | ⟨h, _⟩
  · obtain ⟨_, la, t0, g, lb, p, k, e1, e2, e3, _⟩ := h
    refine ⟨la, t0, g, lb, e1, e2, ?_⟩
    intro sec hs
    rcases e3 with e3 | e3
    · have := hs.unique e3; cases this
    · have := hs.unique e3; injection this with this; exact this.symm
  · obtain ⟨_, _, _, _, _, _, _, _, _, h, _⟩ := h
    rw [hf] at h; exact absurd h (by decide)
  · rw [hk] at h; cases h

/-- Feedback for this node. -/
def exFeedback (sec : UInt16) : Frame := ⟨1, .cta, exAp, exMe, 0, 0, 2, sec, noBody⟩

/-- Told sector 3, the client contends on the CTA of sector 3; told sector 4, it does not. -/
example : (after (exCfg 3 0) exMe 0 0 ([.enqueue exBody exAp] ++ hears (exFeedback 3) ++ hears exCta)).pend.length = 1 ∧
    (after (exCfg 3 0) exMe 0 0 ([.enqueue exBody exAp] ++ hears (exFeedback 4) ++ hears exCta)).pend.length = 0 := by
  decide +kernel

/-! ## C42: a client with queued data has a record to serve -/

/-- How many packets were accepted. -/
def accepted (l : List Obs) : Nat := numAcc l

/-- **C42, existence.**  As long as no more than 65536 packets were accepted (so that no two share a sequence number), a
client with packets queued has a record, and every queued packet has one. -/
theorem C42_record_partial (seq0 last0 : UInt16) (ops : List Op)
    (hn : accepted (after c me seq0 last0 ops).log ≤ 65536) :
    ∀ p ∈ (after c me seq0 last0 ops).queue, ∃ r ∈ (after c me seq0 last0 ops).recs, r.pkt = p := by
  have i := pkinv_after (c := c) (me := me) seq0 last0 ops
  have hn' : (after c me seq0 last0 ops).v.nextUid ≤ 65536 := by rw [← i.num]; exact hn
  intro p hp
  rcases i.kept p (i.qAcc p hp) with h | ⟨ok, h⟩
  · exact h
  · exact absurd h (i.qOpen hn' p hp ok)

/-- **C42, what is missing.**  The first record belongs to a queued packet, or to one given up whose settlement is
pending, 1 ps after the discard (in time order: which is not over yet). -/
theorem C42_first_partial (hps : 0 ≤ c.ps 1) (T : Prop) (seq0 last0 : UInt16) (ops : List Op)
    (hn : accepted (after c me seq0 last0 ops).log ≤ 65536) (hT : T → timely c me (init seq0 last0) ops = true) :
    ∀ r ∈ (after c me seq0 last0 ops).recs, r.pkt ∈ (after c me seq0 last0 ops).queue ∨
      ∃ t tid, Obs.gaveUp t r.pkt ∈ (after c me seq0 last0 ops).log ∧
        (tid, t + c.ps 1, Ev.sendDataDone false r.pkt.seq) ∈ (after c me seq0 last0 ops).pend ∧
        (T → (after c me seq0 last0 ops).now ≤ t + c.ps 1) := by
  have i := pkinv_after (c := c) (me := me) seq0 last0 ops
  have b := basic_after (c := c) (me := me) seq0 last0 ops
  have hn' : (after c me seq0 last0 ops).v.nextUid ≤ 65536 := by rw [← i.num]; exact hn
  have g := gi_after hps T seq0 last0 ops hn' hT
  intro r hr
  rcases i.recLoc r hr with h | ⟨t, h⟩
  · exact .inl h
  · right
    rcases g.g t r.pkt h with ⟨ok, h1⟩ | ⟨tid, h1, h2⟩
    · exact absurd rfl (b.recOpen r hr ok _ h1)
    · exact ⟨t, tid, h, h1, h2⟩

/-- Two packets accepted, both queued with their records. -/
example : accepted (after (exCfg 3 0) exMe 0 0 [.enqueue exBody exAp, .enqueue exBody exAp]).log = 2 ∧
    (after (exCfg 3 0) exMe 0 0 [.enqueue exBody exAp, .enqueue exBody exAp]).queue = [exP1, exP2] ∧
    (0 : ℤ) ≤ (exCfg 3 0).ps 1 := by decide +kernel

/-- **C42 fails.**  After the CTA that discards the first packet, the first record belongs to that packet, which is not
queued any more, although the second packet is queued. -/
theorem C42_first_queued_violated : timely (exCfg 3 0) exMe (init 0 0) runDiscard = true ∧
    (after (exCfg 3 0) exMe 0 0 runDiscard).queue = [exP2] ∧
    (after (exCfg 3 0) exMe 0 0 runDiscard).recs.map (·.pkt) = [exP1, exP2] := by decide +kernel

/-! ## C43: a discarded packet is requested no more -/

/-- **C43 fails.**  The CTA that discards the packet also schedules an RTS for it, which goes on the air after the packet
was settled. -/
theorem C43_discarded_requested_violated : timely (exCfg 3 0) exMe (init 0 0) runDiscard2 = true ∧
    ((after (exCfg 3 0) exMe 0 0 runDiscard2).log.filterMap fun o => match o with
      | .gaveUp t p => some (t, 0, p.seq)
      | .done false p => some (0, 1, p.seq)
      | .handed t f => if f.kind = .rts ∧ 39347 ≤ t then some (t, 2, f.seq) else none
      | _ => none) = [(39347, 0, 1), (0, 1, 1), (41347, 2, 1)] := by decide +kernel

/-- How long after the frame that granted it a frame goes on the air, at most. -/
def longest (c : Cfg) (f : Frame) : ℤ :=
  if f.kind = .rts then c.slot3 * (max 1 c.boSlots : Nat)
  else max (65535 * c.tpn) (c.fairness + c.slot * (max 1 c.boSlots : Nat))

theorem late_bound {T : Prop} {seq0 last0 : UInt16} {ops : List Op} (hps : 0 ≤ c.ps 1)
    (hn : accepted (after c me seq0 last0 ops).log ≤ 65536) (hT : T → timely c me (init seq0 last0) ops = true)
    {l1 la lb l2 : List Obs} {o : Obs} {t0 t : ℤ} {g : Frame} {p : Pkt} (hl : (after c me seq0 last0 ops).log = l1 ++ o :: l2)
    (e1 : l1 = la ++ Obs.rx t0 g :: lb) (hd : ∀ ok, Obs.done ok p ∉ la) (hg : Obs.gaveUp t p ∈ la) :
    T → t0 ≤ t + c.ps 1 := by
  have i := pkinv_after (c := c) (me := me) seq0 last0 ops
  have hn' : (after c me seq0 last0 ops).v.nextUid ≤ 65536 := by rw [← i.num]; exact hn
  have gi := gi_after hps T seq0 last0 ops hn' hT
  have := gi.h la (.rx t0 g) (lb ++ o :: l2) (by
    show (after c me seq0 last0 ops).log = _
    rw [hl, e1, List.append_assoc]; rfl) t0 g rfl t p hg
  rcases this with ⟨ok, h⟩ | h
  · exact absurd h (hd ok)
  · exact h

/-- **C43, what holds.**  In a run in time order with at most 65536 packets: an RTS or DATA that goes on the air for a
packet after the packet was given up was granted no later than 1 ps after that; so it goes out at most 1 ps plus the
longest time between a grant and the frame later, and never again. -/
theorem C43_requests_end_partial (hps : 0 ≤ c.ps 1) (htpn : 0 ≤ c.tpn) (hsl : 0 ≤ c.slot) (hs3 : 0 ≤ c.slot3)
    (seq0 last0 : UInt16) (ops : List Op)
    (hn : accepted (after c me seq0 last0 ops).log ≤ 65536) (hT : timely c me (init seq0 last0) ops = true)
    (l1 l2 : List Obs) (t tg : ℤ) (f : Frame) (p : Pkt)
    (h : (after c me seq0 last0 ops).log = l1 ++ Obs.handed t f :: l2)
    (hnd : f.kind = .data ∨ f.flags = 0) (hs : f.seq = p.seq) (hg : Obs.gaveUp tg p ∈ l1) :
    t ≤ tg + c.ps 1 + longest c f := by
  have i := pkinv_after (c := c) (me := me) seq0 last0 ops
  have b := basic_after (c := c) (me := me) seq0 last0 ops
  have hn' : (after c me seq0 last0 ops).v.nextUid ≤ 65536 := by rw [← i.num]; exact hn
  have accMem : ∀ x, x ∈ l1 → x ∈ (after c me seq0 last0 ops).v.log := by
    intro x hx; show x ∈ (after c me seq0 last0 ops).log; rw [h]; exact List.mem_append_left _ hx
  have hap := (i.giveUp tg p (accMem _ hg)).1
  -- the packet of the grant is this packet
  have same : ∀ (q : Pkt) (la : List Obs), (∀ x, x ∈ la → x ∈ l1) → Obs.accepted q ∈ la → f.seq = q.seq → q = p :=
    fun q la hla ha hq => i.seqInj b hn' (accMem _ (hla _ ha)) hap (hq.symm.trans hs)
  -- the reception of the grant: before or after the discard
  have core : ∀ la t0 g lb, l1 = la ++ Obs.rx t0 g :: lb → (∀ ok, Obs.done ok p ∉ la) → t0 ≤ tg + c.ps 1 := by
    intro la t0 g lb e1 hd
    by_cases hin : Obs.gaveUp tg p ∈ la
    · exact late_bound (T := True) hps hn (fun _ => hT) h e1 hd hin trivial
    · have hin' : Obs.gaveUp tg p ∈ lb := by
        rw [e1] at hg
        simpa [hin] using hg
      obtain ⟨m1, m2, hm⟩ := List.append_of_mem hin'
      have := (ti_after (c := c) (me := me) seq0 last0 ops).h (la ++ Obs.rx t0 g :: m1) (.gaveUp tg p)
        (m2 ++ Obs.handed t f :: l2) (by
          show (after c me seq0 last0 ops).log = _
          rw [h, e1, hm]; simp) tg rfl (.rx t0 g) (by simp) t0 rfl
      omega
  have mono : ∀ (s : ℤ) (k : Nat), 0 ≤ s → k ≤ max 1 c.boSlots → s * k ≤ s * (max 1 c.boSlots : Nat) :=
    fun s k hs hk => Int.mul_le_mul_of_nonneg_left (Int.ofNat_le.2 hk) hs
  have hnr : ∀ la t0 g lb, l1 = la ++ Obs.rx t0 g :: lb → ∀ x, x ∈ la → x ∈ l1 := by
    intro la t0 g lb e x hx; rw [e]; exact List.mem_append_left _ hx
  rcases C41_only_when_granted True seq0 last0 ops (fun _ => hT) l1 l2 t f h with ⟨hk, hr | hr⟩ | ⟨hk, q, _, _, hq, _, _, hr⟩
  · obtain ⟨_, la, t0, g, lb, q, k, e1, _, _, ha, hd, _, _, hq, _, _, hk2, _, ht⟩ := hr
    have hqp := same q la (hnr la t0 g lb e1) ha hq
    have h1 := core la t0 g lb e1 (hqp ▸ hd)
    have h2 := mono c.slot3 k hs3 hk2
    have h3 := ht trivial
    unfold longest
    rw [if_pos hk]
    omega
  · obtain ⟨_, _, _, _, _, _, _, _, _, hfl, _⟩ := hr
    rcases hnd with h1 | h1
    · rw [hk] at h1; cases h1
    · rw [h1] at hfl; exact absurd hfl (by decide)
  · have hne : ¬ f.kind = .rts := by rw [hk]; decide
    unfold longest
    rw [if_neg hne]
    rcases hr with ⟨la, t0, g, lb, e1, _, _, _, ha, hd, _, ht⟩ | ⟨_, la, t0, g, lb, k, e1, _, ha, hd, _, hk2, _, ht⟩
    · have hqp := same q la (hnr la t0 g lb e1) ha hq
      have h1 := core la t0 g lb e1 (hqp ▸ hd)
      have h3 := ht trivial
      have h4 : (g.dur.toNat : ℤ) * c.tpn ≤ 65535 * c.tpn :=
        Int.mul_le_mul_of_nonneg_right (by have := g.dur.toNat_lt; omega) htpn
      omega
    · have hqp := same q la (hnr la t0 g lb e1) ha hq
      have h1 := core la t0 g lb e1 (hqp ▸ hd)
      have h2 := mono c.slot k hsl hk2
      have h3 := ht trivial
      omega

/-- The run of `C43_discarded_requested_violated` meets the hypotheses: the RTS goes out 2 ns after the discard, the limit
is 10 ns and 1 ps. -/
example : (0 : ℤ) ≤ (exCfg 3 0).ps 1 ∧ accepted (after (exCfg 3 0) exMe 0 0 runDiscard2).log = 2 ∧
    timely (exCfg 3 0) exMe (init 0 0) runDiscard2 = true ∧
    Obs.gaveUp 39347 exP1 ∈ (after (exCfg 3 0) exMe 0 0 runDiscard2).log ∧
    (exCfg 3 0).ps 1 + longest (exCfg 3 0) (rtsFrame exMe 0 exP1) = 10001 := by decide +kernel

/-! ## C75: one outcome per packet -/

/-- The outcomes reported for a packet. -/
def outcomes (p : Pkt) (l : List Obs) : Nat := l.countP (fun o => match o with
  | .done _ q => q = p
  | _ => false)

theorem outcomes_le {p : Pkt} {l : List Obs} (h : (doneUids l).Nodup) : outcomes p l ≤ 1 := by
  have key : outcomes p l ≤ (doneUids l).count p.uid := by
    clear h
    induction l with
    | nil => exact Nat.le_refl _
    | cons o l ih =>
      unfold outcomes at ih ⊢
      rw [List.countP_cons]
      cases o with
      | done ok q =>
        show _ + _ ≤ List.count p.uid (q.uid :: doneUids l)
        rw [List.count_cons]
        by_cases hq : q = p
        · simp [hq]; exact ih
        · simp [hq]; omega
      | _ => exact ih
  exact key.trans (List.nodup_iff_count_le_one.1 h _)

/-- **C75.**  No packet gets two outcomes; an outcome belongs to a packet accepted before; and until it has one the client
keeps a record of it. -/
theorem C75_one_outcome (seq0 last0 : UInt16) (ops : List Op) :
    (∀ p, outcomes p (after c me seq0 last0 ops).log ≤ 1) ∧
    (∀ l1 ok p l2, (after c me seq0 last0 ops).log = l1 ++ Obs.done ok p :: l2 → Obs.accepted p ∈ l1) ∧
    (∀ p, Obs.accepted p ∈ (after c me seq0 last0 ops).log →
      (∃ r ∈ (after c me seq0 last0 ops).recs, r.pkt = p) ∨ outcomes p (after c me seq0 last0 ops).log = 1) := by
  have i := pkinv_after (c := c) (me := me) seq0 last0 ops
  refine ⟨fun p => outcomes_le i.doneNodup, ?_, ?_⟩
  · intro l1 ok p l2 h
    have := (hinv_after (c := c) (me := me) False seq0 last0 ops (fun h => h.elim)).hist l1 _ l2 h
    exact this.2.1
  · intro p hp
    rcases i.kept p hp with h | ⟨ok, h⟩
    · exact .inl h
    · right
      have h1 : 0 < outcomes p (after c me seq0 last0 ops).log :=
        List.countP_pos_iff.2 ⟨_, h, by simp⟩
      have h2 := outcomes_le (p := p) i.doneNodup
      have h3 : outcomes p (after c me seq0 last0 ops).log ≤ 1 := h2
      omega

example : outcomes exP1 (after (exCfg 3 0) exMe 0 0 runOk).log = 1 ∧
    outcomes exP2 (after (exCfg 3 0) exMe 0 0 runOk).log = 0 ∧
    outcomes exP1 (after (exCfg 3 0) exMe 0 0 runDiscard2).log = 1 := by decide +kernel

/-! ## C76: success is backed by an ACK -/

/-- **C76.**  A packet reported as sent was acknowledged: an ACK addressed to this node with its sequence number was
received after DATA with that sequence number went on the air.  With at most 65536 packets that DATA is the packet
itself. -/
theorem C76_success_backed (seq0 last0 : UInt16) (ops : List Op) (l1 l2 : List Obs) (p : Pkt)
    (h : (after c me seq0 last0 ops).log = l1 ++ Obs.done true p :: l2) :
    ∃ la t g lb, l1 = la ++ Obs.rx t g :: lb ∧ g.kind = .ack ∧ g.dst = me ∧ g.seq = p.seq ∧
      ∃ t' f, Obs.handed t' f ∈ la ∧ f.kind = .data ∧ f.seq = p.seq ∧
        (accepted (after c me seq0 last0 ops).log ≤ 65536 → f.dst = p.dst ∧ f.body = p.body) := by
  have hi := hinv_after (c := c) (me := me) False seq0 last0 ops (fun h => h.elim)
  obtain ⟨⟨la, t, g, lb, e1, e2, e3, e4, t', f, e5, e6, e7⟩, _⟩ := hi.hist l1 _ l2 h
  refine ⟨la, t, g, lb, e1, e2, e3, e4, t', f, e5, e6, e7, ?_⟩
  intro hn
  have i := pkinv_after (c := c) (me := me) seq0 last0 ops
  have b := basic_after (c := c) (me := me) seq0 last0 ops
  have hn' : (after c me seq0 last0 ops).v.nextUid ≤ 65536 := by rw [← i.num]; exact hn
  obtain ⟨x, y, hxy⟩ := List.append_of_mem e5
  have hlog : (after c me seq0 last0 ops).log = x ++ Obs.handed t' f :: (y ++ Obs.rx t g :: (lb ++ Obs.done true p :: l2)) := by
    rw [h, e1, hxy]; simp
  rcases C41_only_when_granted False seq0 last0 ops (fun h => h.elim) x _ t' f hlog with ⟨hk, _⟩ | ⟨_, q, _, q1, q2, q3, _, q4⟩
  · rw [e6] at hk; cases hk
  · have hq : Obs.accepted q ∈ x := by
      rcases q4 with ⟨l1, t0, g, l2, e, _, _, _, ha, _⟩ | ⟨_, l1, t0, g, l2, k, e, _, ha, _⟩
      · rw [e]; exact List.mem_append_left _ ha
      · rw [e]; exact List.mem_append_left _ ha
    have hq2 : Obs.accepted q ∈ (after c me seq0 last0 ops).v.log := by
      show _ ∈ (after c me seq0 last0 ops).log; rw [hlog]; exact List.mem_append_left _ hq
    have hp2 : Obs.accepted p ∈ (after c me seq0 last0 ops).v.log := by
      have := (hi.hist l1 _ l2 h).2.1
      show _ ∈ (after c me seq0 last0 ops).log; rw [h]; exact List.mem_append_left _ this
    have := i.seqInj b hn' hq2 hp2 (q2.symm.trans e7)
    rw [← this]; exact ⟨q1, q3⟩

example : Obs.done true exP1 ∈ (after (exCfg 3 0) exMe 0 0 runOk).log ∧
    Obs.done true exP1 ∈ (after (exCfg 1 0) exMe 0 0 runOne).log ∧
    timely (exCfg 1 0) exMe (init 0 0) runOne = true := by decide +kernel

/-! ## C81: a packet is discarded only after as many failures as a limit allows -/

/-- The failures charged to a packet. -/
def failures (p : Pkt) (l : List Obs) : Nat := numTO p.uid l

/-- **C81.**  With at most 65536 packets: a packet reported as discarded had at least as many failures charged as the
smaller of the two retry limits says, before it was given up. -/
theorem C81_discard_after_limit (seq0 last0 : UInt16) (ops : List Op)
    (hn : accepted (after c me seq0 last0 ops).log ≤ 65536) (l1 l2 : List Obs) (p : Pkt)
    (h : (after c me seq0 last0 ops).log = l1 ++ Obs.done false p :: l2) :
    ∃ la t lb, l1 = la ++ Obs.gaveUp t p :: lb ∧
      (c.rtsRetryLimit.toNat ≤ failures p la ∨ c.dataRetryLimit.toNat ≤ failures p la) := by
  have hi := hinv_after (c := c) (me := me) False seq0 last0 ops (fun h => h.elim)
  have i := pkinv_after (c := c) (me := me) seq0 last0 ops
  have b := basic_after (c := c) (me := me) seq0 last0 ops
  have hn' : (after c me seq0 last0 ops).v.nextUid ≤ 65536 := by rw [← i.num]; exact hn
  obtain ⟨⟨t, q, hg, hq⟩, hp⟩ := hi.hist l1 _ l2 h
  have hmem : ∀ x ∈ l1, x ∈ (after c me seq0 last0 ops).v.log := by
    intro x hx; show _ ∈ (after c me seq0 last0 ops).log; rw [h]; exact List.mem_append_left _ hx
  have e : q = p := i.seqInj b hn' (i.giveUp t q (hmem _ hg)).1 (hmem _ hp.1) hq
  subst e
  obtain ⟨la, lb, hl⟩ := List.append_of_mem hg
  refine ⟨la, t, lb, hl, ?_⟩
  obtain ⟨_, k, _, h2, h3⟩ := hi.hist la (.gaveUp t q) (lb ++ Obs.done false q :: l2) (by
    show (after c me seq0 last0 ops).log = _; rw [h, hl]; simp)
  have hk : k.toNat ≤ failures q la := by
    rw [h3, UInt16.toNat_ofNat']; exact Nat.mod_le _ _
  rcases h2 with h2 | h2
  · exact .inl ((UInt16.le_iff_toNat_le.1 h2).trans hk)
  · exact .inr ((UInt16.le_iff_toNat_le.1 h2).trans hk)

example : Obs.done false exP1 ∈ (after (exCfg 3 0) exMe 0 0 runDiscard2).log ∧
    failures exP1 (after (exCfg 3 0) exMe 0 0 runDiscard2).log = 7 ∧ (exCfg 3 0).rtsRetryLimit = 7 := by decide +kernel

/-! ## C78: failures are charged only for attempts -/

/-- **C78, what holds.**  A failure is charged to an unsettled packet only after DATA with its sequence number went on the
air, or a CTA was received on which an RTS for that sequence number was scheduled. -/
theorem C78_charged_partial (seq0 last0 : UInt16) (ops : List Op) (l1 l2 : List Obs) (p : Pkt) (k : UInt16)
    (h : (after c me seq0 last0 ops).log = l1 ++ Obs.timedOut p k :: l2) :
    (Obs.accepted p ∈ l1 ∧ ∀ ok, Obs.done ok p ∉ l1) ∧
    ((∃ t f, Obs.handed t f ∈ l1 ∧ f.kind = .data ∧ f.seq = p.seq) ∨
     (c.ways = 3 ∧ ∃ t g, Obs.rx t g ∈ l1 ∧ Contention me g)) := by
  obtain ⟨h1, _, h2⟩ := (hinv_after (c := c) (me := me) False seq0 last0 ops (fun h => h.elim)).hist l1 _ l2 h
  refine ⟨h2, ?_⟩
  rcases h1 with h1 | ⟨q, due, ⟨la, t0, g, lb, k, e1, e2, e3, e4, e5, _⟩, _⟩
  · exact .inl h1
  · exact .inr ⟨e2, t0, g, by rw [e1]; simp, e3, e4, fun h => e5 ⟨e2, e3, h⟩⟩

/-- A reception that fails. -/
def garbled (f : Frame) : List Op := [.rxStart, .advance 100, .rxDone f false 0]

/-- **C78 fails.**  While the RTS waits for its slot a reception fails; the client stays in its receive state, so the RTS is
not sent at all, and the next CTA charges its missing answer to the packet. -/
theorem C78_unsent_charged_violated :
    timely (exCfg 3 0) exMe (init 0 0) ([.enqueue exBody exAp] ++ hears exCta ++ garbled exCta ++ [.fire 0] ++ hears exCta) = true ∧
    Obs.timedOut exP1 1 ∈
      (after (exCfg 3 0) exMe 0 0 ([.enqueue exBody exAp] ++ hears exCta ++ garbled exCta ++ [.fire 0] ++ hears exCta)).log ∧
    ((after (exCfg 3 0) exMe 0 0 ([.enqueue exBody exAp] ++ hears exCta ++ garbled exCta ++ [.fire 0] ++ hears exCta)).log.all
      fun o => match o with
        | .handed _ _ => false
        | _ => true) = true := by decide +kernel

example : Obs.timedOut exP1 1 ∈ (after (exCfg 3 0) exMe 0 0 runDiscard).log := by decide +kernel

/-! ## C79: `Enqueue`'s answer -/

/-- **C79, what holds.**  A packet is taken, with the next sequence number, at the end of the queue, exactly if it is at
least as long as the configured size. -/
theorem C79_taken_partial (b : Body) (dst : Mac48) (s : St) :
    (c.minSize ≤ b.size → ∃ p, (step c me s (.enqueue b dst)).queue = s.queue ++ [p] ∧ p.seq = s.seq + 1 ∧ p.dst = dst ∧
      p.body = b ∧ (step c me s (.enqueue b dst)).log = s.log ++ [Obs.accepted p]) ∧
    (b.size < c.minSize → (step c me s (.enqueue b dst)).queue = s.queue ∧ (step c me s (.enqueue b dst)).recs = s.recs ∧
      (step c me s (.enqueue b dst)).log = s.log ++ [Obs.dropped b]) := by
  constructor
  · intro h
    refine ⟨⟨s.nextUid, s.seq + 1, dst, b⟩, ?_⟩
    simp only [step, enqueue]
    rw [if_neg (Nat.not_lt.2 h)]
    exact ⟨rfl, trivial, trivial, trivial, rfl⟩
  · intro h
    simp only [step, enqueue]
    rw [if_pos h]
    exact ⟨rfl, rfl, rfl⟩

/-- **C79 fails.**  `Enqueue` answers `false` for the packets it takes and for those it drops. -/
theorem C79_answer_violated :
    (enqueue (exCfg 3 0) exBody exAp (init 0 0)).1 = false ∧
    (enqueue (exCfg 3 0) exBody exAp (init 0 0)).2.queue = [exP1] ∧
    (enqueue (exCfg 3 0) ⟨7, 14999⟩ exAp (init 0 0)).1 = false ∧
    (enqueue (exCfg 3 0) ⟨7, 14999⟩ exAp (init 0 0)).2.queue = [] := by decide +kernel

end Thz.Client
