import Verif.CentralNet
import Verif.ClientProps
import Verif.ApProps

/-!
# C100-C103: order of service in the client, and end-to-end properties of a centralised network
-/

namespace Thz.CNet

open Thz Thz.Central
open Thz.Nano (Body Kind bcast)
open scoped List

/-! ## One client and two access points, for examples -/

def exC : Mac48 := ⟨0, 0, 0, 0, 0, 1⟩
def exA : Mac48 := ⟨0, 0, 0, 0, 0, 2⟩
def exB : Mac48 := ⟨0, 0, 0, 0, 0, 3⟩

/-- An operation of the client, the first or the second access point. -/
inductive NOp
  | c (op : Client.Op)
  | a (op : Ap.Op)
  | b (op : Ap.Op)

/-- The states of the three. -/
structure Three where
  c : Client.St
  a : Ap.St
  b : Ap.St

/-- The parameters: the protocol, which access points do sounding, and where the client's counter starts. -/
def exPlan (ways : Nat) (wa wb : Bool) (q : UInt16) : Plan :=
  { isAp := fun x => x = exA ∨ x = exB
    ccfg := fun _ => Client.exCfg ways 0
    acfg := fun x => { Ap.exCfg ways with useWhiteList := if x = exA then wa else if x = exB then wb else false }
    seq0 := fun x => if x = exC then q else 0
    last0 := fun _ => 0 }

def three (P : Plan) : Three := ⟨Client.init (P.seq0 exC) 0, Ap.init (P.acfg exA), Ap.init (P.acfg exB)⟩

def stepT (P : Plan) (s : Three) : NOp → Three
  | .c o => { s with c := Client.step (P.ccfg exC) exC s.c o }
  | .a o => { s with a := Ap.step (P.acfg exA) exA s.a o }
  | .b o => { s with b := Ap.step (P.acfg exB) exB s.b o }

def runT (P : Plan) (s : Three) (l : List NOp) : Three := l.foldl (stepT P) s

/-- One of them sent the frame. -/
def airT (s : Three) (f : Frame) : Bool :=
  s.c.log.any (fun o => match o with | .handed _ g => g = f | _ => false) ||
  s.a.log.any (fun o => match o with | .handed _ g => g = f | _ => false) ||
  s.b.log.any (fun o => match o with | .handed _ g => g = f | _ => false)

/-- No forged frame, and each node's time order is respected. -/
def okT (s : Three) : NOp → Bool
  | .c o => (match o with | .rxDone f true _ => airT s f | _ => true) && Client.timelyOp s.c o
  | .a o => (match o with | .rxDone f true _ => airT s f | _ => true) && Ap.timelyOp s.a o
  | .b o => (match o with | .rxDone f true _ => airT s f | _ => true) && Ap.timelyOp s.b o

def okRun (P : Plan) : Three → List NOp → Bool
  | _, [] => true
  | s, o :: l => okT s o && okRun P (stepT P s o) l

/-- The network in which only these three have done anything. -/
def netT (P : Plan) (s : Three) : Net :=
  ⟨fun x => if x = exC then s.c else Client.init (P.seq0 x) (P.last0 x),
   fun x => if x = exA then s.a else if x = exB then s.b else Ap.init (P.acfg x)⟩

theorem airT_spec {P : Plan} {s : Three} {f : Frame} (h : airT s f = true) : OnAir (netT P s) f := by
  simp only [airT, Bool.or_eq_true, List.any_eq_true] at h
  rcases h with (⟨o, h1, h2⟩ | ⟨o, h1, h2⟩) | ⟨o, h1, h2⟩
  · cases o <;> simp at h2
    rename_i t g
    subst h2
    exact .inl ⟨exC, t, by simpa [netT] using h1⟩
  · cases o <;> simp at h2
    rename_i t g
    subst h2
    exact .inr ⟨exA, t, by simpa [netT] using h1⟩
  · cases o <;> simp at h2
    rename_i t g
    subst h2
    exact .inr ⟨exB, t, by simpa [netT, show exB ≠ exA by decide] using h1⟩

theorem reach_run (P : Plan) (hC : P.isAp exC = false) (hA : P.isAp exA = true) (hB : P.isAp exB = true) (l : List NOp) :
    ∀ s : Three, Reach P (netT P s) → okRun P s l = true → Reach P (netT P (runT P s l)) := by
  induction l with
  | nil => intro s h _; exact h
  | cons o l ih =>
    intro s h hok
    simp only [okRun, Bool.and_eq_true] at hok
    refine ih _ ?_ hok.2
    cases o with
    | c op =>
      have hop : OkC (netT P s) op := by
        unfold OkC
        split
        · exact airT_spec (by have h3 := hok.1; simp only [okT, Bool.and_eq_true] at h3; exact h3.1)
        · trivial
      have h2 := Reach.client exC op h hC hop
      convert h2 using 1
      unfold netT stepT
      congr 1
      funext x
      by_cases e : x = exC
      · subst e; simp
      · simp [e]
    | a op =>
      have hop : OkA (netT P s) op := by
        unfold OkA
        split
        · exact airT_spec (by have h3 := hok.1; simp only [okT, Bool.and_eq_true] at h3; exact h3.1)
        · trivial
      have h2 := Reach.ap exA op h hA hop
      convert h2 using 1
      unfold netT stepT
      congr 1
      funext x
      by_cases e : x = exA
      · subst e; simp
      · simp [e]
    | b op =>
      have hop : OkA (netT P s) op := by
        unfold OkA
        split
        · exact airT_spec (by have h3 := hok.1; simp only [okT, Bool.and_eq_true] at h3; exact h3.1)
        · trivial
      have h2 := Reach.ap exB op h hB hop
      convert h2 using 1
      unfold netT stepT
      congr 1
      funext x
      by_cases e : x = exB
      · subst e; simp [show exB ≠ exA by decide]
      · simp [e]

/-- The network after a run of the three from the start. -/
def exNet (ways : Nat) (wa wb : Bool) (q : UInt16) (l : List NOp) : Net :=
  netT (exPlan ways wa wb q) (runT (exPlan ways wa wb q) (three (exPlan ways wa wb q)) l)

theorem reach_exNet {ways : Nat} {wa wb : Bool} {q : UInt16} {l : List NOp}
    (h : okRun (exPlan ways wa wb q) (three (exPlan ways wa wb q)) l = true) : Reach (exPlan ways wa wb q) (exNet ways wa wb q l) := by
  refine reach_run _ (by simp [exPlan]; decide) (by simp [exPlan]) (by simp [exPlan]) l _ ?_ h
  have e : netT (exPlan ways wa wb q) (three (exPlan ways wa wb q)) = start (exPlan ways wa wb q) := by
    unfold netT three start
    congr 1
    · funext x
      by_cases e : x = exC
      · subst e; simp [exPlan]
      · simp [e]
    · funext x
      by_cases e : x = exA
      · subst e; simp
      · by_cases e' : x = exB
        · subst e'; simp [e]
        · simp [e, e']
  rw [e]; exact .init

theorem exNet_C (ways : Nat) (wa wb : Bool) (q : UInt16) (l : List NOp) : (exNet ways wa wb q l).cl exC =
    (runT (exPlan ways wa wb q) (three (exPlan ways wa wb q)) l).c := by simp [exNet, netT]
theorem exNet_A (ways : Nat) (wa wb : Bool) (q : UInt16) (l : List NOp) : (exNet ways wa wb q l).ap exA =
    (runT (exPlan ways wa wb q) (three (exPlan ways wa wb q)) l).a := by simp [exNet, netT]
theorem exNet_B (ways : Nat) (wa wb : Bool) (q : UInt16) (l : List NOp) : (exNet ways wa wb q l).ap exB =
    (runT (exPlan ways wa wb q) (three (exPlan ways wa wb q)) l).b := by simp [exNet, netT, show exB ≠ exA by decide]

theorem exNet_noWrap {ways : Nat} {wa wb : Bool} {q : UInt16} {l : List NOp}
    (h : q.toNat + numAccepted (runT (exPlan ways wa wb q) (three (exPlan ways wa wb q)) l).c.log ≤ 65535) :
    NoWrap (exPlan ways wa wb q) (exNet ways wa wb q l) := by
  intro x
  by_cases e : x = exC
  · subst e; rw [exNet_C]; simpa [exPlan] using h
  · simp [exPlan, e, exNet, netT, Client.init, numAccepted]

def onC (l : List Client.Op) : List NOp := l.map NOp.c
def onA (l : List Ap.Op) : List NOp := l.map NOp.a
def onB (l : List Ap.Op) : List NOp := l.map NOp.b

def body1 : Body := ⟨7, 15000⟩
def body2 : Body := ⟨8, 15000⟩
def body3 : Body := ⟨9, 15000⟩

def dataC (u : Nat) (q : UInt16) (ap : Mac48) (b : Body) : Frame := Client.dataFrame exC ⟨u, q, ap, b⟩
def rtsC (id : Nat) (q flags : UInt16) (dst : Mac48) : Frame := ⟨2 * id + 1, .rts, exC, dst, q, 0, flags, 0, noBody⟩
def ctaB (id : Nat) (sector : ℚ) : Frame := Ap.ctaFrame exB bcast id sector 0
def ctsB (id : Nat) (q : UInt16) : Frame := ⟨id, .cts, exB, exC, q, 1, 14, 0, noBody⟩
def ackB (id : Nat) (q : UInt16) : Frame := ⟨id, .ack, exB, exC, q, 0, 0, 0, noBody⟩

/-- One-way protocol.  Both access points announce themselves; the client hears the second one's CTA and sends the packet it
has for the first one.  The second one hears and acknowledges it.  All clocks agree; a frame takes 3333 ps to arrive. -/
def strangerRun : List NOp :=
  onA [.fire 0] ++ onB [.fire 0, .fire 3] ++ onA [.fire 3] ++
  onC [.enqueue body1 exA, .enqueue body2 exA, .advance 3333, .rxStart, .advance 1189, .rxDone (ctaB 0 0) true 0, .fire 0] ++
  onB [.advance 11999, .rxStart] ++ onC [.fire 1] ++ onB [.advance 811944, .rxDone (dataC 0 1 exA body1) true (-30), .fire 4] ++
  onC [.advance 6666, .rxStart, .advance 1189, .rxDone (ackB 1 1) true 0, .fire 3]

/-- One-way protocol, two packets with numbers `q1` and `q2` are sent one after the other. -/
def oneWayRun (q1 q2 : UInt16) : List NOp :=
  onB [.fire 0, .fire 3] ++ onC [.enqueue body1 exB, .enqueue body2 exB, .enqueue body3 exB, .advance 3333, .rxStart, .advance 1189,
    .rxDone (ctaB 0 0) true 0, .fire 0] ++
  onB [.advance 11999, .rxStart] ++ onC [.fire 1] ++ onB [.advance 811944, .rxDone (dataC 0 q1 exB body1) true (-30), .fire 4] ++
  onC [.advance 6666, .rxStart, .advance 1189, .rxDone (ackB 1 q1) true 0, .fire 3, .fire 4] ++
  onB [.fire 5, .fire 8] ++ onC [.advance 999, .rxStart, .advance 1189, .rxDone (ctaB 2 0) true 0, .fire 5] ++
  onB [.advance 11999, .rxStart] ++ onC [.fire 6] ++ onB [.advance 811944, .rxDone (dataC 1 q2 exB body2) true (-30), .fire 9] ++
  onC [.advance 6666, .rxStart, .advance 1189, .rxDone (ackB 3 q2) true 0, .fire 8]

/-- Three-way protocol.  The first access point is sounding: its CTA asks for a dummy RTS, whose sequence number is whatever the
uninitialised header contains, here 2.  The second access point hears this RTS and grants it, so that the second packet goes out
before the first. -/
def overtakeRun : List NOp :=
  onA [.fire 0] ++ onB [.fire 0, .fire 2] ++ onA [.fire 2] ++
  onC [.enqueue body1 exB, .enqueue body2 exB, .enqueue body3 exB, .advance 3333, .rxStart, .advance 1189,
    .rxDone (Ap.ctaFrame exA bcast 0 12 1) true 2, .fire 0] ++
  onB [.advance 8666, .rxStart, .advance 1243, .rxDone (rtsC 0 2 1 exA) true (-30)] ++ onC [.fire 1] ++ onB [.fire 1, .fire 3] ++
  onC [.advance 75712, .rxStart, .advance 1297, .rxDone (ctsB 1 2) true 0, .fire 2] ++ onB [.fire 5, .advance 7666, .rxStart] ++
  onC [.fire 3] ++ onB [.advance 380881, .rxDone (dataC 1 2 exB body2) true (-30), .fire 6, .fire 7] ++
  onC [.advance 6666, .rxStart, .advance 1189, .rxDone (ackB 2 2) true 0, .fire 5, .fire 6, .advance 999, .rxStart, .advance 1189,
    .rxDone (ctaB 3 24) true 0, .fire 7] ++
  onB [.fire 9, .advance 8666, .rxStart, .advance 1243, .rxDone (rtsC 1 1 0 exB) true (-30)] ++ onC [.fire 8] ++
  onB [.fire 8, .fire 10] ++ onC [.advance 75712, .rxStart, .advance 1297, .rxDone (ctsB 4 1) true 0, .fire 9] ++
  onB [.fire 12, .advance 7666, .rxStart] ++ onC [.fire 10] ++
  onB [.advance 380881, .rxDone (dataC 0 1 exB body1) true (-30), .fire 13] ++
  onC [.advance 6666, .rxStart, .advance 1189, .rxDone (ackB 5 1) true 0, .fire 12]

/-- Three-way protocol, nothing goes wrong: CTA, RTS, CTS, DATA, ACK for the first packet. -/
def threeWayRun : List NOp :=
  onB [.fire 0, .fire 2] ++
  onC [.enqueue body1 exB, .enqueue body2 exB, .advance 3333, .rxStart, .advance 1189, .rxDone (ctaB 0 12) true 0, .fire 0] ++
  onB [.advance 8666, .rxStart, .advance 1243, .rxDone (rtsC 0 1 0 exB) true (-30)] ++ onC [.fire 1] ++ onB [.fire 1, .fire 3] ++
  onC [.advance 75712, .rxStart, .advance 1297, .rxDone (ctsB 1 1) true 0, .fire 2] ++ onB [.fire 5, .advance 7666, .rxStart] ++
  onC [.fire 3] ++ onB [.advance 380881, .rxDone (dataC 0 1 exB body1) true (-30), .fire 6] ++
  onC [.advance 6666, .rxStart, .advance 1189, .rxDone (ackB 2 1) true 0, .fire 5]

/-! ## Specification vocabulary -/

/-- What an access point passed up from `a`, oldest first: content, destination address and number. -/
def deliveries (a : Mac48) (log : List Ap.Obs) : List (Body × Mac48 × UInt16) :=
  log.filterMap fun o => match o with
    | .up b src dst q => if src = a then some (b, dst, q) else none
    | _ => none

/-- What a client accepted, oldest first. -/
def acceptances (log : List Client.Obs) : List (Body × Mac48 × UInt16) :=
  log.filterMap fun o => match o with
    | .accepted p => some (p.body, p.dst, p.seq)
    | _ => none

/-! ## C100 -/

/-- **C100.** A client serves its packets in the order in which it accepted them.  Whenever it sends an ordinary RTS, or a DATA
frame nobody has granted with a CTS (the one-way protocol), the frame names a packet `p` such that, when the CTA it answers was
received, `p` had been accepted and not settled and every packet accepted before `p` had been settled.  The CTA it answers is the
one received the fairness time (DATA) and 1 to `BoSlots` slots before the frame was due; in a run in time order the frame is sent
when it is due. -/
theorem C100_oldest_first (c : Client.Cfg) (me : Mac48) (seq0 last0 : UInt16) (ops : List Client.Op) (l1 l2 : List Client.Obs) (t : ℤ)
    (f : Frame) (h : (Client.after c me seq0 last0 ops).log = l1 ++ .handed t f :: l2)
    (hf : f.kind = .rts ∧ f.flags = 0 ∨
      f.kind = .data ∧ ∀ t' g, Client.Obs.rx t' g ∈ l1 → g.kind = .cts → g.dst = me → g.seq ≠ f.seq) :
    ∃ la t0 g lb p lx ly, l1 = la ++ .rx t0 g :: lb ∧ g.kind = .cta ∧
      (∃ (k : Nat) (due : ℤ), 1 ≤ k ∧ k ≤ max 1 c.boSlots ∧
        due = t0 + (if f.kind = .data then c.fairness else 0) + c.slotTime * k ∧ due ≤ t ∧
        (Client.timely c me (Client.init seq0 last0) ops = true → t = due)) ∧
      la = lx ++ .accepted p :: ly ∧ (∀ ok, Client.Obs.done ok p ∉ la) ∧
      (∀ p', Client.Obs.accepted p' ∈ lx → ∃ ok, Client.Obs.done ok p' ∈ la) ∧
      f.src = me ∧ f.dst = p.dst ∧ f.seq = p.seq ∧ (f.kind = .data → f.body = p.body) := by
  have key : ∀ la t0 g lb p, l1 = la ++ Client.Obs.rx t0 g :: lb → Client.Oldest la p →
      ∃ lx ly, la = lx ++ .accepted p :: ly ∧ (∀ ok, Client.Obs.done ok p ∉ la) ∧
        (∀ p', Client.Obs.accepted p' ∈ lx → ∃ ok, Client.Obs.done ok p' ∈ la) := by
    intro la t0 g lb p e ho
    obtain ⟨lx, ly, e2⟩ := List.append_of_mem ho.1.1
    refine ⟨lx, ly, e2, ho.1.2, fun p' hp' => ?_⟩
    by_contra hno
    push Not at hno
    have h1 := ho.2 p' ⟨by rw [e2]; exact List.mem_append_left _ hp', hno⟩
    have h2 := Client.uid_lt_of_after (c := c) (me := me) (seq0 := seq0) (last0 := last0) (ops := ops) (l1 := lx)
      (l2 := .accepted p :: (ly ++ .rx t0 g :: (lb ++ .handed t f :: l2))) (by rw [h, e, e2]; simp) hp' List.mem_cons_self
    omega
  obtain ⟨due, hdue, htime, hwhy⟩ := (Client.hinv_after (c := c) (me := me)
    (Client.timely c me (Client.init seq0 last0) ops = true) seq0 last0 ops id).hist l1 _ l2 h
  rcases hwhy with ⟨hk, -, p, id, rfl, la, t0, g, lb, k, e, -, hg, -, -, -, ho, hk1, hk2, hd⟩ | ⟨hk, hfl, -⟩ | ⟨hk, p, rfl, -, hw⟩
  · obtain ⟨lx, ly, h1, h2, h3⟩ := key la t0 g lb p e ho
    refine ⟨la, t0, g, lb, p, lx, ly, e, hg, ⟨k, due, hk1, hk2, ?_, hdue, htime⟩, h1, h2, h3, rfl, rfl, rfl, fun h => by cases h⟩
    rw [hd]; simp [Client.rtsFrame]
  · rcases hf with ⟨-, hf⟩ | ⟨hf, -⟩
    · rw [hfl] at hf; exact absurd hf (by decide)
    · rw [hk] at hf; cases hf
  · rcases hf with ⟨hf, -⟩ | ⟨-, hf⟩
    · rw [hk] at hf; cases hf
    · rcases hw with ⟨la, t0, g, lb, e, h1, h2, h3, -⟩ | ⟨la, t0, g, lb, k, e, -, hg, ho, hk1, hk2, hd⟩
      · exact absurd h3 (hf t0 g (by rw [e]; simp) h1 h2)
      · obtain ⟨lx, ly, h1, h2, h3⟩ := key la t0 g lb p e ho
        refine ⟨la, t0, g, lb, p, lx, ly, e, hg, ⟨k, due, hk1, hk2, ?_, hdue, htime⟩, h1, h2, h3, rfl, rfl, rfl, fun _ => rfl⟩
        rw [hd]; simp [Client.dataFrame]

/-- **C80, the part that holds.**  A broadcast packet does not hold up the packets accepted before it: when the client contends for
it, all of those have been settled. -/
theorem C80_earlier_packets_first_partial (c : Client.Cfg) (me : Mac48) (seq0 last0 : UInt16) (ops : List Client.Op)
    (l1 l2 : List Client.Obs) (t : ℤ) (f : Frame) (h : (Client.after c me seq0 last0 ops).log = l1 ++ .handed t f :: l2)
    (hf : f.kind = .rts ∧ f.flags = 0) (hb : f.dst = bcast) :
    ∃ lx ly p, l1 = lx ++ .accepted p :: ly ∧ p.dst = bcast ∧ p.seq = f.seq ∧
      ∀ p', Client.Obs.accepted p' ∈ lx → ∃ ok, Client.Obs.done ok p' ∈ l1 := by
  obtain ⟨la, t0, g, lb, p, lx, ly, e, -, -, e2, -, h3, -, h5, h6, -⟩ := C100_oldest_first c me seq0 last0 ops l1 l2 t f h (.inl hf)
  refine ⟨lx, ly ++ .rx t0 g :: lb, p, by rw [e, e2]; simp, by rw [← h5]; exact hb, h6.symm, fun p' hp' => ?_⟩
  obtain ⟨ok, h7⟩ := h3 p' hp'
  exact ⟨ok, by rw [e]; exact List.mem_append_left _ h7⟩

/-- The second of two packets is a broadcast; when the first has been acknowledged, an RTS for the second goes out. -/
example : ∃ l1 l2, (Client.after (Client.exCfg 3 0) Client.exMe 0 0
    ([.enqueue Client.exBody Client.exAp, .enqueue Client.exBody bcast] ++ Client.runOk.drop 2 ++ Client.hears Client.exCta ++ [.fire 7])).log =
      l1 ++ .handed 601613 (Client.rtsFrame Client.exMe 1 ⟨1, 2, bcast, Client.exBody⟩) :: l2 ∧
      Client.Obs.done true Client.exP1 ∈ l1 := by
  refine ⟨(Client.after (Client.exCfg 3 0) Client.exMe 0 0
    ([.enqueue Client.exBody Client.exAp, .enqueue Client.exBody bcast] ++ Client.runOk.drop 2 ++ Client.hears Client.exCta ++
      [.fire 7])).log.take 12, [], by decide +kernel, by decide +kernel⟩

/-- The RTS of `Client.runOk` and the DATA frame of `Client.runOne` are such frames; the packet is the first of two. -/
example : (∃ l1 l2, (Client.after (Client.exCfg 3 0) Client.exMe 0 0 Client.runOk).log =
      l1 ++ .handed 3189 (Client.rtsFrame Client.exMe 0 Client.exP1) :: l2) ∧
    (∃ l1 l2, (Client.after (Client.exCfg 1 0) Client.exMe 0 0 Client.runOne).log =
      l1 ++ .handed 6522 (Client.dataFrame Client.exMe Client.exP1) :: l2 ∧
      ∀ t' g, Client.Obs.rx t' g ∈ l1 → g.kind = .cts → g.dst = Client.exMe → g.seq ≠ 1) := by
  refine ⟨List.append_of_mem (by decide +kernel), (Client.after (Client.exCfg 1 0) Client.exMe 0 0 Client.runOne).log.take 3,
    (Client.after (Client.exCfg 1 0) Client.exMe 0 0 Client.runOne).log.drop 4, by decide +kernel, ?_⟩
  intro t' g hg hk
  have : ((Client.after (Client.exCfg 1 0) Client.exMe 0 0 Client.runOne).log.take 3).all (fun o => match o with
      | .rx _ g => g.kind ≠ .cts
      | _ => true) = true := by decide +kernel
  have := List.all_eq_true.1 this _ hg
  simp [hk] at this

/-! ## C101 -/

/-- The packet was for the first access point, which never heard it; the second one passed it up, and the client reports success. -/
theorem C101_other_ap_violated : ∃ n, Reach (exPlan 1 false false 0) n ∧ NoWrap (exPlan 1 false false 0) n ∧
    Client.Obs.done true ⟨0, 1, exA, body1⟩ ∈ (n.cl exC).log ∧ deliveries exC (n.ap exA).log = [] ∧
    deliveries exC (n.ap exB).log = [(body1, exA, 1)] ∧ (n.cl exC).ub = false ∧ (n.ap exA).ub = false ∧ (n.ap exB).ub = false := by
  refine ⟨_, reach_exNet (l := strangerRun) (by decide +kernel), exNet_noWrap (by decide +kernel), ?_⟩
  rw [exNet_A, exNet_B, exNet_C]
  refine ⟨by decide +kernel, by decide +kernel, by decide +kernel, by decide +kernel, by decide +kernel, by decide +kernel⟩

/-- The counter starts at 65534, so the second packet has number 0 and is taken for an old one; it is acknowledged. -/
theorem C101_wrap_violated : ∃ n, Reach (exPlan 1 false false 65534) n ∧
    Client.Obs.done true ⟨1, 0, exB, body2⟩ ∈ (n.cl exC).log ∧ deliveries exC (n.ap exB).log = [(body1, exB, 65535)] ∧
    deliveries exC (n.ap exA).log = [] ∧ (n.cl exC).ub = false ∧ (n.ap exB).ub = false := by
  refine ⟨_, reach_exNet (l := oneWayRun 65535 0) (by decide +kernel), ?_⟩
  rw [exNet_A, exNet_B, exNet_C]
  refine ⟨by decide +kernel, by decide +kernel, by decide +kernel, by decide +kernel, by decide +kernel⟩

/-- A grant for a dummy RTS makes the second packet overtake the first, which is then taken for an old one; it is acknowledged. -/
theorem C101_overtake_violated : ∃ n, Reach (exPlan 3 true false 0) n ∧ NoWrap (exPlan 3 true false 0) n ∧
    Client.Obs.done true ⟨0, 1, exB, body1⟩ ∈ (n.cl exC).log ∧ deliveries exC (n.ap exB).log = [(body2, exB, 2)] ∧
    deliveries exC (n.ap exA).log = [] ∧ (n.cl exC).ub = false ∧ (n.ap exA).ub = false ∧ (n.ap exB).ub = false := by
  refine ⟨_, reach_exNet (l := overtakeRun) (by decide +kernel), exNet_noWrap (by decide +kernel), ?_⟩
  rw [exNet_A, exNet_B, exNet_C]
  refine ⟨by decide +kernel, by decide +kernel, by decide +kernel, by decide +kernel, by decide +kernel, by decide +kernel⟩

variable {P : Plan} {n : Net}

theorem count_ups (x : Body) (a d : Mac48) (q : UInt16) (l : List Ap.Obs) :
    l.count (.up x a d q) ≤ (Ap.numsFrom a (Ap.ups l)).count q := by
  unfold Ap.numsFrom Ap.ups
  induction l with
  | nil => exact le_refl _
  | cons o l ih =>
    rw [List.filterMap_cons, List.count_cons]
    cases o with
    | up b src dst r =>
      simp only [List.filterMap_cons]
      by_cases hs : src = a
      · subst hs
        simp only [if_true, List.count_cons]
        by_cases hq : r = q
        · subst hq
          have : (if (Ap.Obs.up b src dst r == Ap.Obs.up x src d r) = true then 1 else 0) ≤ 1 := by
            split_ifs <;> omega
          simp only [beq_self_eq_true, if_true]
          omega
        · simpa [hq] using ih
      · simpa [hs] using ih
    | _ => simpa using ih

/-- What was passed up from `a` is one of `a`'s accepted packets. -/
theorem up_accepted (hi : NetInv P n) {a b : Mac48} {x : Body} {d : Mac48} {q : UInt16}
    (h : Ap.Obs.up x a d q ∈ (n.ap b).log) : ∃ p, Client.Obs.accepted p ∈ (n.cl a).log ∧ p.dst = d ∧ p.seq = q ∧ p.body = x := by
  obtain ⟨f, w, h1, h2, h4, h5, h6, h7⟩ := (hi.air b).up x a d q h
  obtain ⟨t, h8⟩ := hi.fromClient (hi.rxA b w f h1) (.inr h2)
  rw [h4] at h8
  obtain ⟨p, hp, e, -⟩ := data_accepted hi h8 h2
  exact ⟨p, hp, by rw [← h5, e]; rfl, by rw [← h6, e]; rfl, by rw [← h7, e]; rfl⟩

/-- **C101.** A packet a client reports as successful was passed up by an access point, once and unaltered.  Missing from the full
claim, see the `violated` theorems: it need not be the access point the packet was for; the counters do not wrap (`NoWrap`); and
every CTS a client received was asked for with an ordinary RTS (`Solicited`). -/
theorem C101_success_means_delivered_once_partial (P : Plan) (n : Net) (h : Reach P n) (hw : NoWrap P n) (hs : Solicited n)
    (a : Mac48) (p : Client.Pkt) (hp : Client.Obs.done true p ∈ (n.cl a).log) :
    ∃ b, P.isAp b = true ∧ (n.ap b).log.count (.up p.body a p.dst p.seq) = 1 ∧
      ∀ x d, Ap.Obs.up x a d p.seq ∈ (n.ap b).log → x = p.body ∧ d = p.dst := by
  have hi := h.inv
  obtain ⟨b, hb, hup⟩ := h.succ hw hs a p hp
  have hacc : Client.Obs.accepted p ∈ (n.cl a).log := (hi.basic a).doneAcc true p hp
  have huniq : ∀ x d, Ap.Obs.up x a d p.seq ∈ (n.ap b).log → x = p.body ∧ d = p.dst := by
    intro x d hx
    obtain ⟨r, hr, hrd, hrs, hrb⟩ := up_accepted hi hx
    have e := acc_inj hi hw hr hacc hrs
    rw [← e]; exact ⟨hrb.symm, hrd.symm⟩
  refine ⟨b, hb, ?_, huniq⟩
  obtain ⟨x, d, hx⟩ := mem_numsFrom.1 hup
  obtain ⟨rfl, rfl⟩ := huniq x d hx
  have hnd : (Ap.numsFrom a (Ap.ups (n.ap b).log)).Nodup := ((hi.seen b).1 a).1.imp (fun {x y} (h : x < y) => by
    rintro rfl; rw [UInt16.lt_iff_toNat_lt] at h; omega)
  have h2 := List.count_pos_iff.mpr hx
  have h3 := count_ups p.body a p.dst p.seq (n.ap b).log
  have h4 := List.nodup_iff_count.1 hnd p.seq
  omega

/-- **C101**, one access point, which does no sounding (`UseWhiteList` false): no restriction on the history other than the
counters, and it is the access point the packet was for. -/
theorem C101_one_ap_partial (P : Plan) (b : Mac48) (hone : ∀ x, P.isAp x = true → x = b) (hns : ∀ x, (P.acfg x).useWhiteList = false)
    (n : Net) (h : Reach P n) (hw : NoWrap P n) (a : Mac48) (p : Client.Pkt) (hp : Client.Obs.done true p ∈ (n.cl a).log) :
    (n.ap b).log.count (.up p.body a p.dst p.seq) = 1 ∧
      ∀ x d, Ap.Obs.up x a d p.seq ∈ (n.ap b).log → x = p.body ∧ d = p.dst := by
  obtain ⟨b', hb, h1⟩ := C101_success_means_delivered_once_partial P n h hw (h.solicited hns) a p hp
  rw [hone b' hb] at h1; exact h1

/-- The hypotheses are met by the three-way run, and by the one-way run. -/
example : (∃ n, Reach (exPlan 3 false false 0) n ∧ NoWrap (exPlan 3 false false 0) n ∧ Solicited n ∧
      Client.Obs.done true ⟨0, 1, exB, body1⟩ ∈ (n.cl exC).log ∧ deliveries exC (n.ap exB).log = [(body1, exB, 1)]) ∧
    (∃ n, Reach (exPlan 1 false false 0) n ∧ NoWrap (exPlan 1 false false 0) n ∧ Solicited n ∧
      Client.Obs.done true ⟨1, 2, exB, body2⟩ ∈ (n.cl exC).log ∧
      deliveries exC (n.ap exB).log = [(body1, exB, 1), (body2, exB, 2)] ∧
      acceptances (n.cl exC).log = [(body1, exB, 1), (body2, exB, 2), (body3, exB, 3)]) := by
  have hns : ∀ ways x, ((exPlan ways false false 0).acfg x).useWhiteList = false := by intro ways x; simp [exPlan]
  refine ⟨⟨_, reach_exNet (l := threeWayRun) (by decide +kernel), exNet_noWrap (by decide +kernel),
    (reach_exNet (l := threeWayRun) (by decide +kernel)).solicited (hns 3), ?_⟩,
    _, reach_exNet (l := oneWayRun 1 2) (by decide +kernel), exNet_noWrap (by decide +kernel),
    (reach_exNet (l := oneWayRun 1 2) (by decide +kernel)).solicited (hns 1), ?_⟩
  · rw [exNet_C, exNet_B]
    exact ⟨by decide +kernel, by decide +kernel⟩
  · rw [exNet_C, exNet_B]
    exact ⟨by decide +kernel, by decide +kernel, by decide +kernel⟩

/-! ## C102 -/

theorem deliveries_seq (a : Mac48) (log : List Ap.Obs) :
    (deliveries a log).map (fun x => x.2.2) = Ap.numsFrom a (Ap.ups log) := by
  unfold deliveries Ap.numsFrom Ap.ups
  induction log with
  | nil => rfl
  | cons o l ih =>
    simp only [List.filterMap_cons]
    cases o with
    | up b src dst q => by_cases h : src = a <;> simp [h, ih]
    | _ => simpa using ih

theorem mem_deliveries {a : Mac48} {log : List Ap.Obs} {x} : x ∈ deliveries a log ↔ .up x.1 a x.2.1 x.2.2 ∈ log := by
  unfold deliveries
  rw [List.mem_filterMap]
  constructor
  · rintro ⟨o, ho, h⟩
    cases o <;> simp at h
    obtain ⟨rfl, rfl⟩ := h
    exact ho
  · intro h
    exact ⟨_, h, by simp⟩

theorem acceptances_eq (log : List Client.Obs) : acceptances log = (Client.accs log).map (fun p => (p.body, p.dst, p.seq)) := by
  unfold acceptances Client.accs
  induction log with
  | nil => rfl
  | cons o l ih =>
    simp only [List.filterMap_cons]
    cases o with
    | accepted p => simp [ih]
    | _ => simpa using ih

/-- Sorted and contained: a subsequence. -/
theorem sublist_of_sorted : ∀ (l2 l1 : List (Body × Mac48 × UInt16)), l1.Pairwise (fun x y => x.2.2 < y.2.2) →
    l2.Pairwise (fun x y => x.2.2 < y.2.2) → l1 ⊆ l2 → l1 <+ l2 := by
  have hirr : ∀ x : UInt16, ¬ x < x := fun x h => by rw [UInt16.lt_iff_toNat_lt] at h; omega
  intro l2
  induction l2 with
  | nil => intro l1 _ _ hs; rw [List.subset_nil.mp hs]
  | cons y l2 ih =>
    intro l1 p1 p2 hs
    cases l1 with
    | nil => exact List.nil_sublist _
    | cons x l1 =>
      have p1' := List.pairwise_cons.mp p1
      have p2' := List.pairwise_cons.mp p2
      by_cases hxy : x = y
      · subst hxy
        refine List.Sublist.cons_cons _ (ih l1 p1'.2 p2'.2 ?_)
        intro z hz
        rcases List.mem_cons.mp (hs (List.mem_cons_of_mem _ hz)) with rfl | h
        · exact absurd (p1'.1 z hz) (hirr _)
        · exact h
      · have hx : x ∈ l2 := by
          rcases List.mem_cons.mp (hs List.mem_cons_self) with h | h
          · exact absurd h hxy
          · exact h
        refine List.Sublist.cons _ (ih (x :: l1) p1 p2'.2 ?_)
        intro z hz
        rcases List.mem_cons.mp hz with rfl | hz'
        · exact hx
        · rcases List.mem_cons.mp (hs hz) with rfl | h
          · have h2 := p1'.1 z hz'
            have h3 := p2'.1 x hx
            rw [UInt16.lt_iff_toNat_lt] at h2 h3
            omega
          · exact h

/-- **C102.** In every reachable state of the network in which no counter has wrapped, what access point `b` passed up from client
`a` is, in order, a subsequence of what `a` accepted, and contains nothing twice. -/
theorem C102_deliveries_in_order (P : Plan) (n : Net) (h : Reach P n) (hw : NoWrap P n) (a b : Mac48) :
    deliveries a (n.ap b).log <+ acceptances (n.cl a).log ∧ (deliveries a (n.ap b).log).Nodup ∧
      (acceptances (n.cl a).log).Nodup := by
  have hi := h.inv
  have hirr : ∀ x : UInt16, ¬ x < x := fun x h => by rw [UInt16.lt_iff_toNat_lt] at h; omega
  have hsort : (deliveries a (n.ap b).log).Pairwise (fun x y => x.2.2 < y.2.2) := by
    have : ((deliveries a (n.ap b).log).map (fun x => x.2.2)).Pairwise (· < ·) := by
      rw [deliveries_seq]; exact ((hi.seen b).1 a).1
    rwa [List.pairwise_map] at this
  have hsort2 : (acceptances (n.cl a).log).Pairwise (fun x y => x.2.2 < y.2.2) := by
    rw [acceptances_eq, List.pairwise_map]
    have hu : (Client.accs (n.cl a).log).Pairwise (fun p q => p.uid < q.uid) := by
      have : ((Client.accs (n.cl a).log).map (·.uid)).Pairwise (· < ·) := by
        obtain ⟨ops, e⟩ := hi.cl a
        rw [e, Client.accs_uids]; exact List.pairwise_lt_range
      rwa [List.pairwise_map] at this
    refine hu.imp_of_mem ?_
    intro p q hp hq hlt
    have h1 := acc_seq hi hw (Client.mem_accs.1 hp)
    have h2 := acc_seq hi hw (Client.mem_accs.1 hq)
    rw [UInt16.lt_iff_toNat_lt]; dsimp only; omega
  have hsubset : deliveries a (n.ap b).log ⊆ acceptances (n.cl a).log := by
    intro x hx
    obtain ⟨r, hr, hrd, hrs, hrb⟩ := up_accepted hi (mem_deliveries.mp hx)
    rw [acceptances_eq, List.mem_map]
    exact ⟨r, Client.mem_accs.2 hr, by rw [hrd, hrs, hrb]⟩
  exact ⟨sublist_of_sorted _ _ hsort hsort2 hsubset, hsort.imp (fun {x y} h => by rintro rfl; exact hirr _ h),
    hsort2.imp (fun {x y} h => by rintro rfl; exact hirr _ h)⟩

/-! ## C103 -/

/-- The second access point passes up and acknowledges a packet for the first one. -/
theorem C103_stranger_violated : ∃ n, Reach (exPlan 1 false false 0) n ∧ Ap.Obs.up body1 exC exA 1 ∈ (n.ap exB).log ∧
    Ap.Obs.handed 825132 (ackB 1 1) ∈ (n.ap exB).log ∧ exB ≠ exA ∧ exA ≠ bcast := by
  refine ⟨_, reach_exNet (l := strangerRun) (by decide +kernel), ?_⟩
  rw [exNet_B]
  exact ⟨by decide +kernel, by decide +kernel, by decide, by decide⟩

/-- The second access point grants an RTS for the first one. -/
theorem C103_stranger_rts_violated : ∃ n, Reach (exPlan 3 true false 0) n ∧ Ap.Obs.rx (rtsC 0 2 1 exA) (-30) ∈ (n.ap exB).log ∧
    Ap.Obs.handed 80144 (ctsB 1 2) ∈ (n.ap exB).log := by
  refine ⟨_, reach_exNet (l := overtakeRun) (by decide +kernel), ?_⟩
  rw [exNet_B]
  exact ⟨by decide +kernel, by decide +kernel⟩

/-- **C103.** Whatever is received, an access point passes up only what an intact DATA frame contained, under its source address,
destination address and number; it sends a CTS only to the source of an intact RTS, with that RTS's number; and it sends an ACK
only to the source of an intact DATA frame, with that frame's number.  Missing from the full claim, see the `violated` theorems:
that these frames were for this access point. -/
theorem C103_only_intact_partial (c : Ap.Cfg) (me : Mac48) (ops : List Ap.Op) :
    (∀ x a d q, Ap.Obs.up x a d q ∈ (Ap.after c me ops).log →
      ∃ g w, Ap.Op.rxDone g true w ∈ ops ∧ g.kind = .data ∧ g.src = a ∧ g.dst = d ∧ g.seq = q ∧ g.body = x) ∧
    (∀ t f, Ap.Obs.handed t f ∈ (Ap.after c me ops).log → f.src = me ∧
      (f.kind = .cts → ∃ g w, Ap.Op.rxDone g true w ∈ ops ∧ g.kind = .rts ∧ g.src = f.dst ∧ g.seq = f.seq) ∧
      (f.kind = .ack → ∃ g w, Ap.Op.rxDone g true w ∈ ops ∧ g.kind = .data ∧ g.src = f.dst ∧ g.seq = f.seq)) := by
  have hrx : ∀ f w, Ap.Obs.rx f w ∈ (Ap.after c me ops).log → ∃ w, Ap.Op.rxDone f true w ∈ ops := by
    induction ops using List.reverseRecOn with
    | nil => intro f w hf; simp [Ap.after, Ap.run, Ap.init] at hf
    | append_singleton ops op ih =>
      intro f w hf
      rw [Ap.after_snoc] at hf
      rcases Ap.step_rx c me _ op hf with ⟨w', h1⟩ | ⟨w', rfl⟩
      · obtain ⟨w2, h2⟩ := ih f w' h1
        exact ⟨w2, List.mem_append_left _ h2⟩
      · exact ⟨w', List.mem_append_right _ List.mem_cons_self⟩
  have hi := Ap.AirInv.after c me ops
  constructor
  · intro x a d q h
    obtain ⟨g, w, h1, h2⟩ := hi.up x a d q h
    obtain ⟨w', h3⟩ := hrx g w h1
    exact ⟨g, w', h3, h2⟩
  · intro t f h
    obtain ⟨h1, h2⟩ := hi.hand t f h
    refine ⟨h1, fun hk => ?_, fun hk => ?_⟩
    · rcases h2 with ⟨h2, -⟩ | ⟨-, g, w, h3, h4⟩ | ⟨h2, -⟩
      · rw [hk] at h2; cases h2
      · obtain ⟨w', h5⟩ := hrx g w h3
        exact ⟨g, w', h5, h4⟩
      · rw [hk] at h2; cases h2
    · rcases h2 with ⟨h2, -⟩ | ⟨h2, -⟩ | ⟨-, g, w, h3, h4⟩
      · rw [hk] at h2; cases h2
      · rw [hk] at h2; cases h2
      · obtain ⟨w', h5⟩ := hrx g w h3
        exact ⟨g, w', h5, h4⟩

example : ∃ n, Reach (exPlan 3 false false 0) n ∧ Ap.Obs.up body1 exC exB 1 ∈ (n.ap exB).log ∧
    Ap.Obs.handed 80144 (ctsB 1 1) ∈ (n.ap exB).log ∧ Ap.Obs.handed 469988 (ackB 2 1) ∈ (n.ap exB).log := by
  refine ⟨_, reach_exNet (l := threeWayRun) (by decide +kernel), ?_⟩
  rw [exNet_B]
  exact ⟨by decide +kernel, by decide +kernel, by decide +kernel⟩

end Thz.CNet
