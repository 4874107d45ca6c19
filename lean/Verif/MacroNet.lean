import Verif.MacroOrd

/-!
# A network of macro MACs

The nodes are the values of a function on MAC addresses.  The medium is modelled by what was ever handed to a PHY: any frame in
some node's log may be reported intact to any node, any number of times, at any time and in any order, or never; anything may be
reported as damaged.  This over-approximates `THzChannel::SendPacket` / `ReceivePacket` (model/thz-channel.cc:107-208) and
the macro PHY (model/thz-phy-macro.cc:287-396).  The nodes' clocks are not tied to each other.  Simplification: one node per
address, none with the broadcast address.
-/

namespace Thz.Macro

open Thz
open Thz.Nano (Body Kind bcast)

/-- The states of all nodes. -/
abbrev Net := Mac48 → St

/-- The medium does not forge: a frame reported intact was handed to some node's PHY. -/
def Allowed (n : Net) : Op → Prop
  | .rxDone f true _ => ∃ b, Obs.handed f ∈ (n b).log
  | _ => True

/-- The network states that can be reached; `cfg` and `s0` are the parameters and the uninitialised sequence counter of each
node, and `Lim` is a restriction on the histories considered. -/
inductive Reach (cfg : Mac48 → Cfg) (s0 : Mac48 → UInt16) (Lim : Mac48 → St → Op → Prop) : Net → Prop
  | init : Reach cfg s0 Lim (fun a => init (s0 a))
  | step {n : Net} (a : Mac48) (op : Op) : Reach cfg s0 Lim n → a ≠ bcast → Allowed n op → Lim a (n a) op →
      Reach cfg s0 Lim (Function.update n a (step (cfg a) a (n a) op))

/-! ## Single node facts -/

theorem after_snoc (c : Cfg) (me : Mac48) (seq0 : UInt16) (ops : List Op) (op : Op) :
    after c me seq0 (ops ++ [op]) = step c me (after c me seq0 ops) op := by
  show List.foldl _ _ _ = _
  rw [List.foldl_append]; rfl

/-- Where handed frames come from. -/
structure HandInv (c : Cfg) (me : Mac48) (v : SV) : Prop where
  src : ∀ f, Obs.handed f ∈ v.log → f.src = me
  rts : ∀ f, Obs.handed f ∈ v.log → f.kind = .rts → c.rts = true
  cts : ∀ f, Obs.handed f ∈ v.log → f.kind = .cts → RtsOK me v f.dst f.seq
  ack : ∀ f, Obs.handed f ∈ v.log → f.kind = .ack → AckOK me v f.dst f.seq
  up : ∀ x a d q, Obs.up x a d q ∈ v.log →
    ∃ f, Obs.rx f ∈ v.log ∧ f.kind = .data ∧ (d = me ∨ d = bcast) ∧ f.src = a ∧ f.dst = d ∧ f.seq = q ∧ f.body = x

theorem RtsOK.mono' {v w : SV} {d : Mac48} {q : UInt16} (h : RtsOK me v d q) (hl : ∀ o ∈ v.log, o ∈ w.log) : RtsOK me w d q := by
  obtain ⟨f, h1, h2⟩ := h
  exact ⟨f, hl _ h1, h2⟩

theorem AckOK.mono' {v w : SV} {d : Mac48} {q : UInt16} (h : AckOK me v d q) (hl : ∀ o ∈ v.log, o ∈ w.log) : AckOK me w d q := by
  obtain ⟨f, h1, h2⟩ := h
  exact ⟨f, hl _ h1, h2⟩

/-- What a micro-step hands over, precisely. -/
theorem Mi.handedX {A : Frame → Prop} {v w : SV} (h : Mi c me A v w) {f : Frame} (hf : Obs.handed f ∈ w.log) :
    Obs.handed f ∈ v.log ∨ (∃ p, f = dataFrame me p) ∨ (c.rts = true ∧ ∃ p, f = rtsFrame me p) ∨
      (∃ d t q, RtsOK me v d q ∧ f = ctsFrame c me d t q) ∨ ∃ d q, AckOK me v d q ∧ f = ackFrame me d q := by
  cases h with
  | handRts p h1 h2 _ _ =>
    rcases List.mem_append.1 hf with h | h
    · exact .inl h
    · exact .inr (.inr (.inl ⟨h2, p, Obs.handed.inj (List.mem_singleton.1 h)⟩))
  | handData p h1 _ _ =>
    rcases List.mem_append.1 hf with h | h
    · exact .inl h
    · exact .inr (.inl ⟨p, Obs.handed.inj (List.mem_singleton.1 h)⟩)
  | handBcast p h1 _ _ =>
    rcases List.mem_append.1 hf with h | h
    · exact .inl h
    · exact .inr (.inl ⟨p, Obs.handed.inj (List.mem_singleton.1 h)⟩)
  | handCts d t q h1 _ =>
    rcases List.mem_append.1 hf with h | h
    · exact .inl h
    · exact .inr (.inr (.inr (.inl ⟨d, t, q, h1, Obs.handed.inj (List.mem_singleton.1 h)⟩)))
  | handAck d q h1 _ =>
    rcases List.mem_append.1 hf with h | h
    · exact .inl h
    · exact .inr (.inr (.inr (.inr ⟨d, q, h1, Obs.handed.inj (List.mem_singleton.1 h)⟩)))
  | note o ho =>
    rcases List.mem_append.1 hf with h | h
    · exact .inl h
    · rw [← List.mem_singleton.1 h] at ho; exact ho.elim
  | fwd g _ _ _ =>
    unfold SV.fwd at hf
    dsimp only at hf
    split at hf
    · rcases List.mem_append.1 hf with h | h
      · exact .inl h
      · cases List.mem_singleton.1 h
    · exact .inl hf
  | rx g _ =>
    rcases List.mem_append.1 hf with h | h
    · exact .inl h
    · cases List.mem_singleton.1 h
  | accept b dst g t _ =>
    rcases List.mem_append.1 hf with h | h
    · exact .inl h
    · cases List.mem_singleton.1 h
  | txEnd t g _ =>
    rcases List.mem_append.1 hf with h | h
    · exact .inl h
    · cases List.mem_singleton.1 h
  | settle ok q pre r rest _ _ _ _ =>
    rcases List.mem_append.1 hf with h | h
    · exact .inl h
    · cases List.mem_singleton.1 h
  | charge q pre r rest _ _ _ _ =>
    rcases List.mem_append.1 hf with h | h
    · exact .inl h
    · cases List.mem_singleton.1 h
  | giveUp q pre r rest _ _ _ _ =>
    rcases List.mem_append.1 hf with h | h
    · exact .inl h
    · cases List.mem_singleton.1 h
  | _ => exact .inl hf

theorem HandInv.mi {A : Frame → Prop} {v w : SV} (i : HandInv c me v) (h : Mi c me A v w) : HandInv c me w := by
  have hl := h.log_mem
  refine ⟨?_, ?_, ?_, ?_, ?_⟩
  · intro f hf
    rcases h.handedX hf with h1 | ⟨p, rfl⟩ | ⟨-, p, rfl⟩ | ⟨d, t, q, -, rfl⟩ | ⟨d, q, -, rfl⟩
    · exact i.src f h1
    all_goals rfl
  · intro f hf hk
    rcases h.handedX hf with h1 | ⟨p, rfl⟩ | ⟨hr, p, rfl⟩ | ⟨d, t, q, -, rfl⟩ | ⟨d, q, -, rfl⟩
    · exact i.rts f h1 hk
    · cases hk
    · exact hr
    · cases hk
    · cases hk
  · intro f hf hk
    rcases h.handedX hf with h1 | ⟨p, rfl⟩ | ⟨-, p, rfl⟩ | ⟨d, t, q, h2, rfl⟩ | ⟨d, q, -, rfl⟩
    · exact (i.cts f h1 hk).mono' hl
    · cases hk
    · cases hk
    · exact h2.mono' hl
    · cases hk
  · intro f hf hk
    rcases h.handedX hf with h1 | ⟨p, rfl⟩ | ⟨-, p, rfl⟩ | ⟨d, t, q, -, rfl⟩ | ⟨d, q, h2, rfl⟩
    · exact (i.ack f h1 hk).mono' hl
    · cases hk
    · cases hk
    · cases hk
    · exact h2.mono' hl
  · intro x a d q hu
    have old : Obs.up x a d q ∈ v.log →
        ∃ f, Obs.rx f ∈ w.log ∧ f.kind = .data ∧ (d = me ∨ d = bcast) ∧ f.src = a ∧ f.dst = d ∧ f.seq = q ∧ f.body = x := by
      intro h1
      obtain ⟨f, h2, h3⟩ := i.up x a d q h1
      exact ⟨f, hl _ h2, h3⟩
    rcases h.ups with ⟨-, l, h2, h3⟩ | ⟨f, rfl, h1, h2, h3⟩
    · rw [h2] at hu
      rcases List.mem_append.1 hu with h4 | h4
      · exact old h4
      · exact absurd rfl (h3 _ h4 x a d q)
    · unfold SV.fwd at hu
      dsimp only at hu
      split at hu
      · rcases List.mem_append.1 hu with h4 | h4
        · exact old h4
        · have e := List.mem_singleton.1 h4
          simp only [Obs.up.injEq] at e
          obtain ⟨rfl, rfl, rfl, rfl⟩ := e
          exact ⟨f, hl _ h1, h2, h3, rfl, rfl, rfl, rfl⟩
      · exact old hu

theorem HandInv.after (c : Cfg) (me : Mac48) (seq0 : UInt16) (ops : List Op) : HandInv c me (after c me seq0 ops).sv :=
  inv_after c me seq0 (by constructor <;> simp [Macro.init, St.sv]) (fun _ _ _ i h => i.mi h) ops

/-- After an intact DATA frame for this node, the filter has seen its number: the last number passed up is not smaller. -/
def RxInv (me : Mac48) (s : St) : Prop :=
  ∀ f, Obs.rx f ∈ s.log → f.kind = .data → (f.dst = me ∨ f.dst = bcast) → ∃ x ∈ upsFrom f.src s.log, f.seq ≤ x

/-- Is it a reception? -/
def Obs.isRx : Obs → Prop
  | .rx _ => True
  | _ => False

/-- A micro-step other than `rx` logs no reception. -/
theorem Mi.rxs {A : Frame → Prop} {v w : SV} (h : Mi c me A v w) {f : Frame} (hf : Obs.rx f ∈ w.log) : Obs.rx f ∈ v.log ∨ A f := by
  cases h with
  | rx g hg =>
    rcases List.mem_append.1 hf with h | h
    · exact .inl h
    · rw [Obs.rx.inj (List.mem_singleton.1 h)]; exact .inr hg
  | note o ho =>
    rcases List.mem_append.1 hf with h | h
    · exact .inl h
    · rw [← List.mem_singleton.1 h] at ho; exact ho.elim
  | fwd g _ _ _ =>
    unfold SV.fwd at hf
    dsimp only at hf
    split at hf
    · rcases List.mem_append.1 hf with h | h
      · exact .inl h
      · cases List.mem_singleton.1 h
    · exact .inl hf
  | handRts p _ _ _ _ =>
    rcases List.mem_append.1 hf with h | h
    · exact .inl h
    · cases List.mem_singleton.1 h
  | handData p _ _ _ =>
    rcases List.mem_append.1 hf with h | h
    · exact .inl h
    · cases List.mem_singleton.1 h
  | handBcast p _ _ _ =>
    rcases List.mem_append.1 hf with h | h
    · exact .inl h
    · cases List.mem_singleton.1 h
  | handCts d t q _ _ =>
    rcases List.mem_append.1 hf with h | h
    · exact .inl h
    · cases List.mem_singleton.1 h
  | handAck d q _ _ =>
    rcases List.mem_append.1 hf with h | h
    · exact .inl h
    · cases List.mem_singleton.1 h
  | accept b dst g t _ =>
    rcases List.mem_append.1 hf with h | h
    · exact .inl h
    · cases List.mem_singleton.1 h
  | txEnd t g _ =>
    rcases List.mem_append.1 hf with h | h
    · exact .inl h
    · cases List.mem_singleton.1 h
  | settle ok q pre r rest _ _ _ _ =>
    rcases List.mem_append.1 hf with h | h
    · exact .inl h
    · cases List.mem_singleton.1 h
  | charge q pre r rest _ _ _ _ =>
    rcases List.mem_append.1 hf with h | h
    · exact .inl h
    · cases List.mem_singleton.1 h
  | giveUp q pre r rest _ _ _ _ =>
    rcases List.mem_append.1 hf with h | h
    · exact .inl h
    · cases List.mem_singleton.1 h
  | _ => exact .inl hf

theorem Mis.rxs {A : Frame → Prop} {v w : SV} (h : Mis c me A v w) {f : Frame} (hf : Obs.rx f ∈ w.log) : Obs.rx f ∈ v.log ∨ A f := by
  induction h with
  | refl => exact .inl hf
  | tail _ h ih =>
    rcases h.rxs hf with h1 | h1
    · exact ih h1
    · exact .inr h1

/-- After the filter has looked at a frame. -/
theorem forward_seen (f : Frame) (s : St) (i : UpInv s.sv) : ∃ x ∈ upsFrom f.src (forwardIfNew f s).log, f.seq ≤ x := by
  unfold forwardIfNew
  dsimp only
  have hn := isNew_fst s.seqList f.src f.seq
  split
  · refine ⟨f.seq, mem_upsFrom.2 ⟨f.body, f.dst, ?_⟩, UInt16.le_refl _⟩
    exact List.mem_append_right _ (List.mem_singleton.2 rfl)
  · rename_i h
    rw [hn] at h
    push Not at h
    obtain ⟨x, hx, hle⟩ := h
    have h2 := (i f.src).2
    rw [show s.sv.seqList = s.seqList from rfl, hx] at h2
    exact ⟨x, List.mem_of_getLast? h2, UInt16.not_lt.1 hle⟩

theorem RxInv.step {s : St} (i : RxInv me s) (b : Basic c me s.sv) (u : UpInv s.sv) (op : Op) : RxInv me (step c me s op) := by
  have hm : Mis c me (fun f => ∃ g, op = .rxDone f true g) s.sv (Macro.step c me s op).sv :=
    mis_step s op b (fun f g e => ⟨g, e⟩)
  have hl : ∀ o ∈ s.log, o ∈ (Macro.step c me s op).log := hm.log_mem
  intro f hf hk hd
  rcases hm.rxs hf with h | ⟨g, rfl⟩
  · obtain ⟨x, hx, hle⟩ := i f h hk hd
    obtain ⟨y, d, hy⟩ := mem_upsFrom.1 hx
    exact ⟨x, mem_upsFrom.2 ⟨y, d, hl _ hy⟩, hle⟩
  · have e : Macro.step c me s (.rxDone f true g) = receiveData c me f (({ s with state := .idle } : St).emit (.rx f)) := by
      show receivePacketDone c me f true g s = _
      unfold receivePacketDone
      simp [hk]
    rw [e]
    have hu : UpInv (({ s with state := .idle } : St).emit (.rx f)).sv :=
      UpInv.mi (c := c) (me := me) (A := fun _ => True) u (Mi.rx s.sv f trivial)
    unfold receiveData
    split
    · have h1 := forward_seen f ({ (({ s with state := .idle } : St).emit (.rx f)) with state := .idle }) hu
      obtain ⟨x, hx, hle⟩ := h1
      obtain ⟨y, d, hy⟩ := mem_upsFrom.1 hx
      exact ⟨x, mem_upsFrom.2 ⟨y, d, (mis_cca (c := c) (me := me) (A := fun _ => True) _).log_mem _ hy⟩, hle⟩
    · rename_i hb
      rw [if_neg (not_not.2 (hd.resolve_right hb))]
      exact forward_seen f _ hu

theorem RxInv.after (c : Cfg) (me : Mac48) (seq0 : UInt16) (ops : List Op) : RxInv me (after c me seq0 ops) := by
  induction ops using List.reverseRecOn with
  | nil => intro f hf; simp [Macro.after, run, Macro.init] at hf
  | append_singleton ops op ih =>
    rw [after_snoc]
    exact ih.step (Basic.after c me seq0 ops) (UpInv.after c me seq0 ops) op

/-! ## The network -/

/-- Facts about every reachable state. -/
structure NetInv (cfg : Mac48 → Cfg) (s0 : Mac48 → UInt16) (n : Net) : Prop where
  node : ∀ a, ∃ ops, n a = after (cfg a) a (s0 a) ops
  rx : ∀ b f, Obs.rx f ∈ (n b).log → Obs.handed f ∈ (n f.src).log

variable {cfg : Mac48 → Cfg} {s0 : Mac48 → UInt16} {Lim : Mac48 → St → Op → Prop}

theorem NetInv.hand {n : Net} (h : NetInv cfg s0 n) (a : Mac48) : HandInv (cfg a) a (n a).sv := by
  obtain ⟨ops, e⟩ := h.node a
  rw [e]; exact HandInv.after _ _ _ _

theorem NetInv.basic {n : Net} (h : NetInv cfg s0 n) (a : Mac48) : Basic (cfg a) a (n a).sv := by
  obtain ⟨ops, e⟩ := h.node a
  rw [e]; exact Basic.after _ _ _ _

theorem NetInv.pk {n : Net} (h : NetInv cfg s0 n) (a : Mac48) : PkInv (s0 a) (n a).sv := by
  obtain ⟨ops, e⟩ := h.node a
  rw [e]; exact PkInv.after _ _ _ _

theorem NetInv.out {n : Net} (h : NetInv cfg s0 n) (a : Mac48) : OutInv a (n a).sv := by
  obtain ⟨ops, e⟩ := h.node a
  rw [e]; exact OutInv.after _ _ _ _

theorem NetInv.upi {n : Net} (h : NetInv cfg s0 n) (a : Mac48) : UpInv (n a).sv := by
  obtain ⟨ops, e⟩ := h.node a
  rw [e]; exact UpInv.after _ _ _ _

theorem NetInv.rxi {n : Net} (h : NetInv cfg s0 n) (a : Mac48) : RxInv a (n a) := by
  obtain ⟨ops, e⟩ := h.node a
  rw [e]; exact RxInv.after _ _ _ _

/-- The step of one node, seen from the network. -/
theorem NetInv.mis {n : Net} (h : NetInv cfg s0 n) (a : Mac48) {op : Op} (hop : Allowed n op) :
    Mis (cfg a) a (fun f => Obs.handed f ∈ (n f.src).log) (n a).sv (step (cfg a) a (n a) op).sv := by
  refine mis_step (n a) op (h.basic a) ?_
  rintro f g rfl
  obtain ⟨b, hb⟩ := hop
  rw [(h.hand b).src f hb]; exact hb

theorem update_log {n : Net} (h : NetInv cfg s0 n) (a : Mac48) {op : Op} (hop : Allowed n op) (b : Mac48) :
    ∀ o ∈ (n b).log, o ∈ (Function.update n a (step (cfg a) a (n a) op) b).log := by
  intro o ho
  by_cases hb : b = a
  · subst hb; rw [Function.update_self]; exact (h.mis b hop).log_mem o ho
  · rw [Function.update_of_ne hb]; exact ho

theorem Reach.inv {n : Net} (h : Reach cfg s0 Lim n) : NetInv cfg s0 n := by
  induction h with
  | init => exact ⟨fun a => ⟨[], rfl⟩, by intro b f hf; simp [Macro.init] at hf⟩
  | @step n a op _ ha hop hlim ih =>
    refine ⟨fun b => ?_, fun b f hf => ?_⟩
    · by_cases hb : b = a
      · subst hb
        obtain ⟨ops, e⟩ := ih.node b
        exact ⟨ops ++ [op], by rw [after_snoc, Function.update_self, ← e]⟩
      · rw [Function.update_of_ne hb]; exact ih.node b
    · apply update_log ih a hop
      by_cases hb : b = a
      · subst hb
        rw [Function.update_self] at hf
        rcases (ih.mis b hop).rxs hf with h1 | h1
        · exact ih.rx b f h1
        · exact h1
      · rw [Function.update_of_ne hb] at hf; exact ih.rx b f hf

/-! ## No wrap -/

/-- The 16-bit sequence counters did not wrap around. -/
def NoWrap (s0 : Mac48 → UInt16) (n : Net) : Prop := ∀ a, (s0 a).toNat + numAccepted (n a).log ≤ 65535

theorem NetInv.nextUid {n : Net} (h : NetInv cfg s0 n) (a : Mac48) : numAccepted (n a).log = (n a).nextUid := by
  obtain ⟨ops, e⟩ := h.node a
  rw [e]; exact numAccepted_after _ _ _ _

theorem NoWrap.prev {n : Net} (h : NetInv cfg s0 n) {a : Mac48} {op : Op} (hop : Allowed n op)
    (hw : NoWrap s0 (Function.update n a (step (cfg a) a (n a) op))) : NoWrap s0 n := by
  intro b
  have h1 := hw b
  by_cases hb : b = a
  · subst hb
    rw [Function.update_self] at h1
    have h2 := (h.mis b hop).log
    obtain ⟨l, hl⟩ := h2
    have h3 : (step (cfg b) b (n b) op).log = (n b).log ++ l := hl
    rw [h3, numAccepted_append] at h1
    omega
  · rwa [Function.update_of_ne hb] at h1

/-- The number of an accepted packet. -/
theorem acc_seq {n : Net} (h : NetInv cfg s0 n) (hw : NoWrap s0 n) {a : Mac48} {p : Pkt} (hp : Obs.accepted p ∈ (n a).log) :
    p.seq.toNat = (s0 a).toNat + p.uid + 1 := by
  obtain ⟨h1, h2⟩ := (h.pk a).accLt p hp
  have h3 := hw a
  rw [h.nextUid a] at h3
  have h4 : p.uid < (n a).nextUid := h1
  rw [h2, UInt16.toNat_add, UInt16.toNat_ofNat']
  omega

theorem acc_inj {n : Net} (h : NetInv cfg s0 n) (hw : NoWrap s0 n) {a : Mac48} {p p' : Pkt} (hp : Obs.accepted p ∈ (n a).log)
    (hp' : Obs.accepted p' ∈ (n a).log) (e : p.seq = p'.seq) : p = p' := by
  have h1 := acc_seq h hw hp
  have h2 := acc_seq h hw hp'
  rw [e] at h1
  exact (h.pk a).accUniq p p' hp hp' (by omega)

/-! ## Order -/

theorem Reach.ord {n : Net} (h : Reach cfg s0 NotLate n) (hw : NoWrap s0 n) (a : Mac48) : OrdInv (n a) := by
  induction h with
  | init => exact .init _
  | @step n x op hr ha hop hlim ih =>
    have hi := hr.inv
    have hw' := hw.prev hi hop
    by_cases hb : a = x
    · subst hb
      rw [Function.update_self]
      refine (ih hw').step (hi.basic a) (hi.pk a) ?_ ?_ hlim
      · obtain ⟨ops, e⟩ := hi.node a
        rw [e]; exact ctsTO_after _ _ _ _
      · have := hw' a
        rw [hi.nextUid a] at this
        omega
    · rw [Function.update_of_ne hb]; exact ih hw'

/-- A DATA frame received from `a` whose number belongs to a packet still queued there was passed up. -/
theorem queued_up {n : Net} (hi : NetInv cfg s0 n) (hw : NoWrap s0 n) {a b : Mac48} (ho : OrdInv (n a)) {f : Frame}
    (hf : Obs.rx f ∈ (n b).log) (hk : f.kind = .data) (hd : f.dst = b ∨ f.dst = bcast) (hs : f.src = a) {p : Pkt}
    (hp : p ∈ (n a).queue) (hq : p.seq = f.seq) : f.seq ∈ upsFrom a (n b).log := by
  obtain ⟨x, hx, hle⟩ := hi.rxi b f hf hk hd
  rw [hs] at hx
  obtain ⟨y, d, hy⟩ := mem_upsFrom.1 hx
  obtain ⟨g, hg1, hg2, -, hg4, -, hg6, -⟩ := (hi.hand b).up y a d x hy
  have hg7 := hi.rx b g hg1
  rw [hg4] at hg7
  obtain ⟨p', h1, h2, h3⟩ := ho.hand g (mem_air.2 ⟨hg7, .inr hg2⟩)
  have h4 := h3 p hp
  have h5 := acc_seq hi hw h1
  have h6 := acc_seq hi hw ((hi.basic a).queue p hp)
  have h7 : x.toNat = p'.seq.toNat := by rw [← h2, hg6]
  have h8 : f.seq.toNat = p.seq.toNat := by rw [hq]
  have h9 := UInt16.le_iff_toNat_le.1 hle
  have e : f.seq = x := UInt16.toNat_inj.1 (by omega)
  rw [e]; exact hx

/-- Why a success report for a unicast packet means delivery. -/
theorem Reach.succ {n : Net} (h : Reach cfg s0 NotLate n) (hw : NoWrap s0 n) : ∀ a p, Obs.done true p ∈ (n a).log →
    p.dst ≠ bcast → (∃ k, Obs.timedOut p k ∈ (n a).log ∧ 5 ≤ k) ∨ p.seq ∈ upsFrom a (n p.dst).log := by
  induction h with
  | init => intro a p hp; simp [Macro.init] at hp
  | @step n x op hr ha hop hlim ih =>
    have hi := hr.inv
    have hi' := (Reach.step x op hr ha hop hlim).inv
    have hw' := hw.prev hi hop
    have hup : ∀ b a q, q ∈ upsFrom a (n b).log → q ∈ upsFrom a (Function.update n x (Macro.step (cfg x) x (n x) op) b).log := by
      intro b a q hq
      obtain ⟨y, d, hy⟩ := mem_upsFrom.1 hq
      exact mem_upsFrom.2 ⟨y, d, update_log hi x hop b _ hy⟩
    -- the step of node `x`, one micro-step after the other
    have key : ∀ w, Mis (cfg x) x (fun f => Obs.handed f ∈ (n f.src).log) (n x).sv w →
        Mis (cfg x) x (fun f => Obs.handed f ∈ (n f.src).log) w (Macro.step (cfg x) x (n x) op).sv → 
        PkInv (s0 x) w ∧ OutInv x w ∧ ∀ p, Obs.done true p ∈ w.log → p.dst ≠ bcast →
          (∃ k, Obs.timedOut p k ∈ w.log ∧ 5 ≤ k) ∨ p.seq ∈ upsFrom x (n p.dst).log := by
      intro w hm
      induction hm with
      | refl => exact fun _ => ⟨hi.pk x, hi.out x, ih hw' x⟩
      | @tail v w hm hmi ihm =>
        intro hrest
        obtain ⟨k, o, hs⟩ := ihm (Relation.ReflTransGen.head hmi hrest)
        have hb : Basic (cfg x) x v := (hi.basic x).mis hm
        refine ⟨k.mi hb hmi, o.mi hb k hmi, ?_⟩
        intro p hp hd
        have hold : Obs.done true p ∈ v.log → (∃ k, Obs.timedOut p k ∈ w.log ∧ 5 ≤ k) ∨ p.seq ∈ upsFrom x (n p.dst).log := by
          intro h1
          rcases hs p h1 hd with ⟨k, h2, h3⟩ | h2
          · exact .inl ⟨k, hmi.log_mem _ h2, h3⟩
          · exact .inr h2
        cases hmi.eff with
        | silent l _ _ _ _ hl hn =>
          rw [hl] at hp
          rcases List.mem_append.1 hp with h1 | h1
          · exact hold h1
          · exact (hn _ h1).elim
        | accept b dst g t _ _ _ _ hl =>
          rw [hl] at hp
          rcases List.mem_append.1 hp with h1 | h1
          · exact hold h1
          · cases List.mem_singleton.1 h1
        | charge pre r rest _ _ _ _ _ _ _ hl =>
          rw [hl] at hp
          rcases List.mem_append.1 hp with h1 | h1
          · exact hold h1
          · cases List.mem_singleton.1 h1
        | giveUp pre r rest _ _ _ _ _ _ _ hl =>
          rw [hl] at hp
          rcases List.mem_append.1 hp with h1 | h1
          · exact hold h1
          · cases List.mem_singleton.1 h1
        | settle ok pre r rest h1 hdone _ _ _ _ hl =>
          rw [hl] at hp
          rcases List.mem_append.1 hp with h2 | h2
          · exact hold h2
          · have h3 := List.mem_singleton.1 h2
            simp only [Obs.done.injEq] at h3
            obtain ⟨rfl, rfl⟩ := h3
            have hr' : r ∈ v.recs := by rw [h1]; exact List.mem_append_right _ List.mem_cons_self
            have hacc : Obs.accepted r.pkt ∈ v.log := (hb.recs r hr').1
            have hlv : ∀ o ∈ v.log, o ∈ (Macro.step (cfg x) x (n x) op).log :=
              Mis.log_mem (Relation.ReflTransGen.head hmi hrest)
            have hlo : ∀ o ∈ (n x).log, o ∈ v.log := Mis.log_mem hm
            rcases k.loc r.pkt hacc with hq | ⟨ok, hq⟩ | ⟨j, hq, h5⟩
            · -- the frame that was acknowledged
              right
              have hseq := (hb.recs r hr').2
              -- a DATA frame of `x` with this number belongs to this packet
              have hbel : ∀ g, Obs.handed g ∈ (n x).log → g.kind = .data → g.seq = r.pkt.seq → g = dataFrame x r.pkt ∧
                  r.pkt.uid < (n x).nextUid := by
                intro g hg hgk hgs
                obtain ⟨p', hp1, hp2⟩ := (hi.out x).data g hg hgk
                have e : p' = r.pkt := by
                  refine acc_inj hi' hw (a := x) ?_ ?_ ?_
                  · rw [Function.update_self]; exact hlv _ (hlo _ hp1)
                  · rw [Function.update_self]; exact hlv _ hacc
                  · rw [← hgs, hp2]; rfl
                rw [← e]
                exact ⟨hp2, ((hi.pk x).accLt p' hp1).1⟩
              have hqold : r.pkt.uid < (n x).nextUid → r.pkt ∈ (n x).queue := by
                intro hlt
                rcases (mis_queue hm).2 r.pkt hq with h6 | h6
                · exact h6
                · exact absurd hlt (Nat.not_lt.2 h6)
              unfold DoneOK at hdone
              rw [if_pos rfl] at hdone
              rcases hdone with ⟨l1, f, l2, hlog, hfk, hfd, hfs, -⟩ | ⟨f, hf, hfk, hfd, hfs⟩
              · have hrx : Obs.rx f ∈ v.log := by rw [hlog]; exact List.mem_append_right _ List.mem_cons_self
                have hha : Obs.handed f ∈ (n f.src).log := by
                  rcases Mis.rxs hm hrx with h6 | h6
                  · exact hi.rx x f h6
                  · exact h6
                obtain ⟨g, hg1, hg2, hg3, hg4, hg5⟩ := (hi.hand f.src).ack f hha hfk
                have hg6 := hi.rx f.src g hg1
                rw [hg4, hfd] at hg6
                obtain ⟨e, hlt⟩ := hbel g hg6 hg2 (by rw [hg5, hfs, hseq])
                have hdst : r.pkt.dst = f.src := by rw [← hg3, e]; rfl
                have hgs : r.pkt.seq = g.seq := by rw [e]; rfl
                rw [hdst, hgs]
                exact queued_up hi hw' (hr.ord hw' x) hg1 hg2 (.inl hg3) (hg4.trans hfd) (hqold hlt) hgs
              · -- broadcast
                exfalso
                obtain ⟨p', hp1, hp2⟩ := o.data f hf hfk
                have e : p' = r.pkt := by
                  refine acc_inj hi' hw (a := x) ?_ ?_ ?_
                  · rw [Function.update_self]; exact hlv _ hp1
                  · rw [Function.update_self]; exact hlv _ hacc
                  · rw [← hseq, ← hfs, hp2]; rfl
                apply hd
                rw [← e, ← hfd, hp2]; rfl
            · exact absurd rfl ((k.doneGone ok r.pkt hq).2 r hr')
            · exact .inl ⟨j, hmi.log_mem _ hq, h5⟩
    intro a p hp hd
    by_cases hb : a = x
    · subst hb
      rw [Function.update_self] at hp ⊢
      rcases (key _ (hi.mis a hop) .refl).2.2 p hp hd with h1 | h1
      · exact .inl h1
      · exact .inr (hup _ _ _ h1)
    · rw [Function.update_of_ne hb] at hp ⊢
      rcases ih hw' a p hp hd with h1 | h1
      · exact .inl h1
      · exact .inr (hup _ _ _ h1)

end Thz.Macro
