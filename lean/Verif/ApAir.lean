import Verif.ApLive
import Verif.SeqProps

/-!
# What an access point puts on the air and passes up, and why

Single-node invariants of the access point that the network properties need: where the frames it hands to its PHY come from,
and what its duplicate filter has let through.
-/

namespace Thz.Ap

open Thz Thz.Central
open Thz.Nano (Body Kind bcast)

/-! ## Frames on the air -/

/-- An intact RTS from `d` with number `q` was received. -/
def RtsIn (l : List Obs) (d : Mac48) (q : UInt16) : Prop := ∃ g p, Obs.rx g p ∈ l ∧ g.kind = .rts ∧ g.src = d ∧ g.seq = q

/-- An intact DATA frame from `d` with number `q` was received. -/
def DataIn (l : List Obs) (d : Mac48) (q : UInt16) : Prop := ∃ g p, Obs.rx g p ∈ l ∧ g.kind = .data ∧ g.src = d ∧ g.seq = q

/-- Why a frame may be handed over.  `r`: the access point is recording. -/
def HandOk (me : Mac48) (l : List Obs) (r : Bool) (f : Frame) : Prop :=
  f.src = me ∧ ((f.kind = .cta ∧ (f.flags = 1 → r = true)) ∨ (f.kind = .cts ∧ RtsIn l f.dst f.seq) ∨
    (f.kind = .ack ∧ DataIn l f.dst f.seq))

/-- The invariant.  `r`: sounding is configured. -/
structure AirInv (me : Mac48) (r : Bool) (s : St) : Prop where
  sound : s.recording = true → r = true
  hand : ∀ t f, Obs.handed t f ∈ s.log → HandOk me s.log r f
  rts : ∀ e ∈ s.rtsList, Obs.rx e.1 e.2 ∈ s.log ∧ e.1.kind = .rts
  cts : ∀ e ∈ s.pend, ∀ d q t g, e.2.2 = .sendCts d q t g → RtsIn s.log d q
  ack : ∀ a ∈ s.ackList, a.src = me ∧ a.kind = .ack ∧ DataIn s.log a.dst a.seq
  up : ∀ x a d q, Obs.up x a d q ∈ s.log →
    ∃ g p, Obs.rx g p ∈ s.log ∧ g.kind = .data ∧ g.src = a ∧ g.dst = d ∧ g.seq = q ∧ g.body = x

theorem RtsIn.mono {l l' : List Obs} {d : Mac48} {q : UInt16} (h : RtsIn l d q) (hl : l ⊆ l') : RtsIn l' d q := by
  obtain ⟨g, p, h1, h2⟩ := h; exact ⟨g, p, hl h1, h2⟩

theorem DataIn.mono {l l' : List Obs} {d : Mac48} {q : UInt16} (h : DataIn l d q) (hl : l ⊆ l') : DataIn l' d q := by
  obtain ⟨g, p, h1, h2⟩ := h; exact ⟨g, p, hl h1, h2⟩

theorem HandOk.mono {me : Mac48} {l l' : List Obs} {r : Bool} {f : Frame} (h : HandOk me l r f) (hl : l ⊆ l') : HandOk me l' r f := by
  obtain ⟨h1, h2 | ⟨h2, h3⟩ | ⟨h2, h3⟩⟩ := h
  · exact ⟨h1, .inl h2⟩
  · exact ⟨h1, .inr (.inl ⟨h2, h3.mono hl⟩)⟩
  · exact ⟨h1, .inr (.inr ⟨h2, h3.mono hl⟩)⟩

variable {c : Cfg} {me : Mac48} {r : Bool}

/-- What is kept when nothing is added. -/
theorem AirInv.sub {s s' : St} (i : AirInv me r s) (h1 : s'.recording = true → s.recording = true) (h2 : s'.log = s.log)
    (h3 : s'.rtsList ⊆ s.rtsList) (h4 : s'.pend ⊆ s.pend) (h5 : s'.ackList ⊆ s.ackList) : AirInv me r s' := by
  refine ⟨fun h => i.sound (h1 h), ?_, ?_, ?_, ?_, ?_⟩
  · rw [h2]; exact i.hand
  · rw [h2]; exact fun e he => i.rts e (h3 he)
  · rw [h2]; exact fun e he => i.cts e (h4 he)
  · rw [h2]; exact fun a ha => i.ack a (h5 ha)
  · rw [h2]; exact i.up

theorem AirInv.same {s s' : St} (i : AirInv me r s) (h1 : s'.recording = s.recording) (h2 : s'.log = s.log)
    (h3 : s'.rtsList = s.rtsList) (h4 : s'.pend = s.pend) (h5 : s'.ackList = s.ackList) : AirInv me r s' :=
  i.sub (fun h => h1 ▸ h) h2 (by rw [h3]; exact List.Subset.refl _) (by rw [h4]; exact List.Subset.refl _)
    (by rw [h5]; exact List.Subset.refl _)

theorem AirInv.emit {s : St} (i : AirInv me r s) (o : Obs) (h1 : ∀ t f, o = .handed t f → HandOk me s.log r f)
    (h2 : ∀ x a d q, o = .up x a d q →
      ∃ g p, Obs.rx g p ∈ s.log ∧ g.kind = .data ∧ g.src = a ∧ g.dst = d ∧ g.seq = q ∧ g.body = x) :
    AirInv me r (s.emit o) := by
  have hl : s.log ⊆ s.log ++ [o] := List.subset_append_left _ _
  refine ⟨i.sound, ?_, ?_, ?_, ?_, ?_⟩
  · intro t f h
    rcases List.mem_append.1 h with h | h
    · exact (i.hand t f h).mono hl
    · exact (h1 t f (List.mem_singleton.1 h).symm).mono hl
  · exact fun e he => ⟨hl (i.rts e he).1, (i.rts e he).2⟩
  · exact fun e he d q t g h => (i.cts e he d q t g h).mono hl
  · exact fun a ha => ⟨(i.ack a ha).1, (i.ack a ha).2.1, (i.ack a ha).2.2.mono hl⟩
  · intro x a d q h
    have : ∃ g p, Obs.rx g p ∈ s.log ∧ g.kind = .data ∧ g.src = a ∧ g.dst = d ∧ g.seq = q ∧ g.body = x := by
      rcases List.mem_append.1 h with h | h
      · exact i.up x a d q h
      · exact h2 x a d q (List.mem_singleton.1 h).symm
    obtain ⟨g, p, h3, h4⟩ := this
    exact ⟨g, p, hl h3, h4⟩

/-- An observation without obligations. -/
theorem AirInv.note {s : St} (i : AirInv me r s) (o : Obs) (h1 : ∀ t f, o ≠ .handed t f) (h2 : ∀ x a d q, o ≠ .up x a d q) :
    AirInv me r (s.emit o) :=
  i.emit o (fun t f h => absurd h (h1 t f)) (fun x a d q h => absurd h (h2 x a d q))

theorem AirInv.sched {s : St} (i : AirInv me r s) (d : ℤ) (e : Ev) (h : ∀ a q t g, e = .sendCts a q t g → RtsIn s.log a q) :
    AirInv me r (s.sched d e) := by
  refine ⟨i.sound, i.hand, i.rts, ?_, i.ack, i.up⟩
  intro x hx
  rcases List.mem_append.1 hx with hx | hx
  · exact i.cts x hx
  · rw [List.mem_singleton.1 hx]; exact h

theorem AirInv.cancel {s : St} (i : AirInv me r s) (t : Option Nat) : AirInv me r (s.cancel t) := by
  cases t with
  | none => exact i
  | some t => exact i.sub id rfl (List.Subset.refl _) (List.filter_sublist.subset) (List.Subset.refl _)

theorem AirInv.sendPacket {s : St} (i : AirInv me r s) (c : Cfg) (f : Frame) (h : HandOk me s.log r f) :
    AirInv me r (sendPacket c f s) := by
  unfold Ap.sendPacket
  split
  · split
    · refine AirInv.emit ?_ _ ?_ ?_
      · exact (i.sched (c.ctrlDur f.kind) (.phyDone f) (by simp)).same rfl rfl rfl rfl rfl
      · intro t g e; cases e; exact h
      · intro x a d q e; cases e
    · exact AirInv.note (i.same (s' := { s with state := .idle }) rfl rfl rfl rfl rfl) _ (by simp) (by simp)
  · exact i.note _ (by simp) (by simp)

theorem AirInv.sendCta1 {s : St} (i : AirInv me r s) (c : Cfg) : AirInv me r (sendCta1 c me s) := by
  unfold Ap.sendCta1
  dsimp only
  refine AirInv.sendPacket ?_ _ _ ⟨rfl, .inl ⟨rfl, fun h => absurd (show (0 : UInt16) = 1 from h) (by decide)⟩⟩
  exact (i.sched c.dataTimeout .dataTimeout (by simp)).same rfl rfl rfl rfl rfl

theorem AirInv.sendCta3 {s : St} (i : AirInv me r s) (c : Cfg) : AirInv me r (sendCta3 c me s) := by
  unfold Ap.sendCta3
  dsimp only
  refine AirInv.sendPacket ?_ _ _ ⟨rfl, .inl ⟨rfl, ?_⟩⟩
  · exact (i.sched c.waitTime .waitTime (by simp)).same rfl rfl rfl rfl rfl
  · intro h
    show r = true
    have h : (if s.recording then (1 : UInt16) else 0) = 1 := h
    by_cases hr : s.recording = true
    · exact i.sound hr
    · rw [if_neg hr] at h; exact absurd h (by decide)

theorem AirInv.wrapDown (n : Nat) : ∀ {s : St}, AirInv me r s → AirInv me r (wrapDown n s) := by
  induction n with
  | zero => intro s i; exact i
  | succ n ih =>
    intro s i
    unfold Ap.wrapDown
    split
    · refine ih (AirInv.note ?_ _ (by simp) (by simp))
      exact i.same rfl rfl rfl rfl rfl
    · exact i

theorem AirInv.turn {s : St} (i : AirInv me r s) (c : Cfg) : AirInv me r (turn c me s) := by
  unfold Ap.turn
  dsimp only
  have i1 := AirInv.wrapDown (rounds (wrapUp (rounds (s.angle + c.beamwidth)) (s.angle + c.beamwidth)))
    (i.same (s' := { s with angle := wrapUp (rounds (s.angle + c.beamwidth)) (s.angle + c.beamwidth) }) rfl rfl rfl rfl rfl)
  generalize Ap.wrapDown _ _ = s1 at i1 ⊢
  have i2 := i1.note (.turned s1.angle) (by simp) (by simp)
  split
  · exact i2.sendCta3 c
  · refine AirInv.sendCta1 ?_ c
    exact (i2.sched c.tSector .sectorTimeout (by simp)).same rfl rfl rfl rfl rfl

theorem ackList_sendPacket (c : Cfg) (f : Frame) (s : St) : (sendPacket c f s).ackList = s.ackList := by
  unfold Ap.sendPacket
  split
  · split <;> rfl
  · rfl

theorem AirInv.sendAck {s : St} (i : AirInv me r s) (c : Cfg) : AirInv me r (sendAck c s) := by
  unfold Ap.sendAck
  split
  · exact i.same rfl rfl rfl rfl rfl
  · rename_i a rest ha
    obtain ⟨h1, h2, h3⟩ := i.ack a (ha ▸ List.mem_cons_self)
    have i1 := i.sendPacket c a ⟨h1, .inr (.inr ⟨h2, h3⟩)⟩
    exact i1.sub id rfl (List.Subset.refl _) (List.Subset.refl _) (List.filter_sublist.subset)

theorem AirInv.answer (c : Cfg) (l : List (Frame × ℚ)) : ∀ (k : Nat) (w : ℤ) {s : St}, AirInv me r s →
    (∀ e ∈ l, Obs.rx e.1 e.2 ∈ s.log ∧ e.1.kind = .rts) → AirInv me r (answer c k w l s) := by
  induction l with
  | nil => intro k w s i _; exact i
  | cons e l ih =>
    intro k w s i h
    unfold Ap.answer
    dsimp only
    refine ih _ _ (i.sched _ _ ?_) (fun x hx => h x (List.mem_cons_of_mem _ hx))
    intro a q t g he
    injection he with h1 h2
    obtain ⟨h3, h4⟩ := h e List.mem_cons_self
    exact ⟨e.1, e.2, h3, h4, h1, h2⟩

theorem AirInv.assign (c : Cfg) (l : List (Mac48 × List (ℚ × ℚ))) : ∀ (k : Nat) {s : St}, AirInv me r s →
    AirInv me r (assign c k l s) := by
  induction l with
  | nil => intro k s i; exact i
  | cons e l ih =>
    intro k s i
    unfold Ap.assign
    dsimp only
    refine ih _ (AirInv.sched (AirInv.note ?_ _ (by simp) (by simp)) _ _ (by simp))
    exact i.same rfl rfl rfl rfl rfl

theorem AirInv.waitTime {s : St} (i : AirInv me r s) (c : Cfg) : AirInv me r (waitTimeExpired c me s) := by
  unfold Ap.waitTimeExpired
  dsimp only
  have i1 := i.note .closed (by simp) (by simp)
  generalize s.emit .closed = s1 at i1 ⊢
  split
  · exact i1.turn c
  · split
    · have i2 : AirInv me r { s1 with sectorMap := record s1.angle s1.rtsList s1.sectorMap, rtsList := [] } :=
        i1.sub id rfl (List.nil_subset _) (List.Subset.refl _) (List.Subset.refl _)
      split
      · unfold Ap.initNodeMap
        dsimp only
        refine AirInv.sched (AirInv.assign c _ _ ?_) _ _ (by simp)
        exact i2.sub (by simp) rfl (List.Subset.refl _) (List.Subset.refl _) (List.Subset.refl _)
      · exact i2.turn c
    · have i2 := AirInv.answer c s1.rtsList 0 (s1.rtsList.length * c.ctrlDur .cts) i1 i1.rts
      generalize Ap.answer _ _ _ _ _ = s2 at i2 ⊢
      have i3 := i2.sched (c.sectorTime (UInt16.ofNat s1.rtsList.length)) .sectorTimeout (by simp)
      exact i3.sub id rfl (List.nil_subset _) (List.Subset.refl _) (List.Subset.refl _)

theorem AirInv.sendPacketDone {s : St} (i : AirInv me r s) (c : Cfg) (f : Frame) : AirInv me r (sendPacketDone c f s) := by
  unfold Ap.sendPacketDone
  dsimp only
  have i1 : AirInv me r (({ s with phyTx := none } : St).emit (.txEnd f)) :=
    AirInv.note (s := { s with phyTx := none }) (i.same rfl rfl rfl rfl rfl) _ (by simp) (by simp)
  generalize ({ s with phyTx := none } : St).emit (.txEnd f) = s1 at i1 ⊢
  split
  · exact i1
  · have i2 : AirInv me r { s1 with state := .idle } := i1.same rfl rfl rfl rfl rfl
    split
    · split
      · exact i2.sched _ _ (by simp)
      · exact i2.sched _ _ (by simp)
    · exact i2

theorem AirInv.receivePacket {s : St} (i : AirInv me r s) : AirInv me r (receivePacket s) := by
  unfold Ap.receivePacket
  dsimp only
  have i1 := i.cancel s.dataEv
  split
  · exact i1
  · exact i1
  · exact i1.same rfl rfl rfl rfl rfl

theorem AirInv.forward {s : St} (i : AirInv me r s) (f : Frame) (hf : ∃ p, Obs.rx f p ∈ s.log) (hk : f.kind = .data) :
    AirInv me r (forwardIfNew f s) := by
  unfold Ap.forwardIfNew
  dsimp only
  have i1 : AirInv me r { s with seqList := (isNewSequence s.seqList f.src f.seq).2 } := i.same rfl rfl rfl rfl rfl
  split
  · refine i1.emit _ (by simp) ?_
    intro x a d q e
    injection e with e1 e2 e3 e4
    obtain ⟨p, hp⟩ := hf
    exact ⟨f, p, hp, hk, e2, e3, e4, e1⟩
  · exact i1

theorem AirInv.receiveData {s : St} (i : AirInv me r s) (c : Cfg) (f : Frame) (hf : ∃ p, Obs.rx f p ∈ s.log) (hk : f.kind = .data) :
    AirInv me r (receiveData c me f s) := by
  have hd : DataIn s.log f.src f.seq := by obtain ⟨p, hp⟩ := hf; exact ⟨f, p, hp, hk, rfl, rfl⟩
  unfold Ap.receiveData
  dsimp only
  have i1 : AirInv me r { s with ackList := s.ackList ++ [ackFrame me s.nextId f], nextId := s.nextId + 1, state := .idle } := by
    refine ⟨i.sound, i.hand, i.rts, i.cts, ?_, i.up⟩
    intro a ha
    rcases List.mem_append.1 ha with ha | ha
    · exact i.ack a ha
    · rw [List.mem_singleton.1 ha]; exact ⟨rfl, rfl, hd⟩
  refine AirInv.forward ?_ f ?_ hk
  · split
    · refine AirInv.sendAck ?_ c
      exact (i1.cancel s.sectorEv).same rfl rfl rfl rfl rfl
    · exact i1
  · obtain ⟨p, hp⟩ := hf
    refine ⟨p, ?_⟩
    split
    · obtain ⟨x, hx⟩ := grew_sendAck c { (St.cancel { s with ackList := s.ackList ++ [ackFrame me s.nextId f], nextId := s.nextId + 1, state := .idle } s.sectorEv) with state := .waitTx }
      rw [← hx]
      apply List.mem_append_left
      show _ ∈ (St.cancel _ _).log
      rw [grew_cancel]
      exact hp
    · exact hp

theorem AirInv.step {s : St} (i : AirInv me r s) (c : Cfg) (op : Op) : AirInv me r (step c me s op) := by
  cases op with
  | advance d => exact i.same rfl rfl rfl rfl rfl
  | rxStart => exact i.receivePacket
  | rxDone f ok p =>
    show AirInv me r (receivePacketDone c me f ok p s)
    unfold Ap.receivePacketDone
    dsimp only
    have i1 : AirInv me r { s with state := .idle } := i.same rfl rfl rfl rfl rfl
    split
    · exact i1
    · have i2 := i1.note (.rx f p) (by simp) (by simp)
      have hm : Obs.rx f p ∈ (St.emit { s with state := .idle } (.rx f p)).log := List.mem_append_right _ (List.mem_singleton.2 rfl)
      split
      · rename_i hk
        refine ⟨i2.sound, i2.hand, ?_, i2.cts, i2.ack, i2.up⟩
        intro e he
        rcases List.mem_append.1 he with he | he
        · exact i2.rts e he
        · rw [List.mem_singleton.1 he]; exact ⟨hm, hk⟩
      · rename_i hk
        exact i2.receiveData c f ⟨p, hm⟩ hk
      · exact i2
  | fire t =>
    show AirInv me r (fire c me t s)
    unfold Ap.fire
    split
    · exact i
    · rename_i t' due e hf
      have hm : (t', due, e) ∈ s.pend := List.mem_of_find?_eq_some hf
      have i1 : AirInv me r { s with pend := s.pend.filter (fun e => e.1 ≠ t), now := max s.now due } :=
        i.sub id rfl (List.Subset.refl _) (List.filter_sublist.subset) (List.Subset.refl _)
      dsimp only
      split
      · exact i1.turn c
      · exact AirInv.turn (i1.cancel _) c
      · exact i1.waitTime c
      · unfold Ap.sectorTimeout
        split
        · exact i1.sendAck c
        · exact i1.turn c
      · rename_i d q t g
        unfold Ap.sendCts
        refine AirInv.sendPacket ?_ c _ ⟨rfl, .inr (.inl ⟨rfl, i.cts _ hm d q t g rfl⟩)⟩
        exact i1.same rfl rfl rfl rfl rfl
      · exact i1.sendAck c
      · unfold Ap.feedback
        refine AirInv.sendPacket ?_ c _ ⟨rfl, .inl ⟨rfl, fun h => absurd (show (2 : UInt16) = 1 from h) (by decide)⟩⟩
        exact i1.same rfl rfl rfl rfl rfl
      · exact i1.sendPacketDone c _

/-- The invariant holds in every run. -/
theorem AirInv.after (c : Cfg) (me : Mac48) (ops : List Op) : AirInv me c.useWhiteList (after c me ops) := by
  induction ops using List.reverseRecOn with
  | nil => constructor <;> simp [Ap.after, run, Ap.init]
  | append_singleton ops op ih => rw [after_snoc]; exact ih.step c op

/-! ## What was received and passed up -/

/-- The frames received intact. -/
def rxs (l : List Obs) : List Frame := l.filterMap fun o => match o with
  | .rx f _ => some f
  | _ => none

/-- What was passed up. -/
def ups (l : List Obs) : List (Body × Mac48 × Mac48 × UInt16) := l.filterMap fun o => match o with
  | .up b a d q => some (b, a, d, q)
  | _ => none

theorem mem_rxs {l : List Obs} {f : Frame} : f ∈ rxs l ↔ ∃ p, Obs.rx f p ∈ l := by
  unfold rxs
  rw [List.mem_filterMap]
  constructor
  · rintro ⟨o, ho, h⟩
    cases o <;> simp at h
    rw [← h]; exact ⟨_, ho⟩
  · rintro ⟨p, h⟩
    exact ⟨_, h, rfl⟩

theorem mem_ups {l : List Obs} {b : Body} {a d : Mac48} {q : UInt16} : (b, a, d, q) ∈ ups l ↔ Obs.up b a d q ∈ l := by
  unfold ups
  rw [List.mem_filterMap]
  constructor
  · rintro ⟨o, ho, h⟩
    cases o <;> simp at h
    obtain ⟨rfl, rfl, rfl, rfl⟩ := h; exact ho
  · intro h
    exact ⟨_, h, rfl⟩

/-- What reception and the filter see of a state. -/
def fv (s : St) : List Frame × List (Body × Mac48 × Mac48 × UInt16) × SeqList Mac48 := (rxs s.log, ups s.log, s.seqList)

theorem fv_emit (s : St) (o : Obs) (h1 : ∀ f p, o ≠ .rx f p) (h2 : ∀ b a d q, o ≠ .up b a d q) : fv (s.emit o) = fv s := by
  unfold fv rxs ups St.emit
  simp only [List.filterMap_append]
  cases o <;> simp
  · exact absurd rfl (h1 _ _)
  · exact absurd rfl (h2 _ _ _ _)

theorem fv_of {s s' : St} (h1 : s'.log = s.log) (h2 : s'.seqList = s.seqList) : fv s' = fv s := by
  unfold fv; rw [h1, h2]

theorem fv_sendPacket (c : Cfg) (f : Frame) (s : St) : fv (sendPacket c f s) = fv s := by
  unfold Ap.sendPacket
  split
  · split
    · rw [fv_emit _ _ (by simp) (by simp)]; exact fv_of rfl rfl
    · rw [fv_emit _ _ (by simp) (by simp)]; exact fv_of rfl rfl
  · exact fv_emit _ _ (by simp) (by simp)

theorem fv_wrapDown (n : Nat) : ∀ s : St, fv (wrapDown n s) = fv s := by
  induction n with
  | zero => intro s; rfl
  | succ n ih =>
    intro s
    unfold Ap.wrapDown
    split
    · rw [ih, fv_emit _ _ (by simp) (by simp)]; exact fv_of rfl rfl
    · rfl

theorem fv_turn (c : Cfg) (me : Mac48) (s : St) : fv (turn c me s) = fv s := by
  unfold Ap.turn
  dsimp only
  have h := fv_wrapDown (rounds (wrapUp (rounds (s.angle + c.beamwidth)) (s.angle + c.beamwidth)))
    ({ s with angle := wrapUp (rounds (s.angle + c.beamwidth)) (s.angle + c.beamwidth) })
  generalize Ap.wrapDown _ _ = s1 at h ⊢
  have h2 : fv (s1.emit (.turned s1.angle)) = fv s := by
    rw [fv_emit _ _ (by simp) (by simp), h]; exact fv_of rfl rfl
  rw [← h2]
  split
  · unfold Ap.sendCta3; dsimp only; rw [fv_sendPacket]; exact fv_of rfl rfl
  · unfold Ap.sendCta1; dsimp only; rw [fv_sendPacket]; exact fv_of rfl rfl

theorem fv_sendAck (c : Cfg) (s : St) : fv (sendAck c s) = fv s := by
  unfold Ap.sendAck
  split
  · exact fv_of rfl rfl
  · exact fv_sendPacket c _ s

theorem fv_cancel (s : St) (t : Option Nat) : fv (s.cancel t) = fv s := by
  cases t <;> exact fv_of rfl rfl

theorem fv_answer (c : Cfg) (l : List (Frame × ℚ)) : ∀ (k : Nat) (w : ℤ) (s : St), fv (answer c k w l s) = fv s := by
  induction l with
  | nil => intro k w s; rfl
  | cons e l ih =>
    intro k w s
    unfold Ap.answer
    dsimp only
    rw [ih]; exact fv_of rfl rfl

theorem fv_assign (c : Cfg) (l : List (Mac48 × List (ℚ × ℚ))) : ∀ (k : Nat) (s : St), fv (assign c k l s) = fv s := by
  induction l with
  | nil => intro k s; rfl
  | cons e l ih =>
    intro k s
    unfold Ap.assign
    dsimp only
    rw [ih]
    refine (fv_of rfl rfl).trans ((fv_emit _ _ (by simp) (by simp)).trans (fv_of rfl rfl))

theorem fv_waitTime (c : Cfg) (me : Mac48) (s : St) : fv (waitTimeExpired c me s) = fv s := by
  unfold Ap.waitTimeExpired
  dsimp only
  have h : fv (s.emit .closed) = fv s := fv_emit _ _ (by simp) (by simp)
  rw [← h]
  generalize s.emit .closed = s1
  split
  · exact fv_turn c me s1
  · split
    · split
      · unfold Ap.initNodeMap
        dsimp only
        refine (fv_of rfl rfl).trans ((fv_assign c _ _ _).trans (fv_of rfl rfl))
      · exact (fv_turn c me _).trans (fv_of rfl rfl)
    · refine Eq.trans ?_ (fv_answer c s1.rtsList 0 (s1.rtsList.length * c.ctrlDur .cts) s1)
      exact fv_of rfl rfl

theorem fv_sendPacketDone (c : Cfg) (f : Frame) (s : St) : fv (sendPacketDone c f s) = fv s := by
  unfold Ap.sendPacketDone
  dsimp only
  have h : fv (({ s with phyTx := none } : St).emit (.txEnd f)) = fv s :=
    (fv_emit _ _ (by simp) (by simp)).trans (fv_of rfl rfl)
  rw [← h]
  generalize ({ s with phyTx := none } : St).emit (.txEnd f) = s1
  split
  · rfl
  · split
    · split <;> exact fv_of rfl rfl
    · exact fv_of rfl rfl

/-- An intact DATA frame is put on the list, acknowledged, and shown to the filter. -/
theorem fv_receiveData (c : Cfg) (me : Mac48) (f : Frame) (s : St) : fv (receiveData c me f s) = fv (forwardIfNew f s) := by
  have key : ∀ s1 : St, fv s1 = fv s → fv (forwardIfNew f s1) = fv (forwardIfNew f s) := by
    intro s1 h
    unfold fv at h
    simp only [Prod.mk.injEq] at h
    obtain ⟨h1, h2, h3⟩ := h
    unfold Ap.forwardIfNew
    dsimp only
    rw [h3]
    split
    · simp only [fv, rxs, ups, St.emit, List.filterMap_append] at h1 h2 ⊢
      rw [h1, h2]
    · simp only [fv]
      rw [h1, h2]
  unfold Ap.receiveData
  dsimp only
  apply key
  split
  · exact (fv_sendAck c _).trans ((fv_of rfl rfl).trans ((fv_cancel _ _).trans (fv_of rfl rfl)))
  · exact fv_of rfl rfl

/-- A step receives only what the operation brings. -/
theorem step_fv (c : Cfg) (me : Mac48) (s : St) (op : Op) :
    (fv (step c me s op) = fv s) ∨
    ∃ f p, op = .rxDone f true p ∧ ((f.kind ≠ .data ∧ fv (step c me s op) = (rxs s.log ++ [f], ups s.log, s.seqList)) ∨
      (f.kind = .data ∧ fv (step c me s op) = fv (forwardIfNew f (({ s with state := .idle } : St).emit (.rx f p))))) := by
  cases op with
  | advance d => exact .inl (fv_of rfl rfl)
  | rxStart =>
    left
    show fv (receivePacket s) = _
    unfold Ap.receivePacket
    dsimp only
    split
    · exact fv_cancel _ _
    · exact fv_cancel _ _
    · exact (fv_of rfl rfl).trans (fv_cancel s s.dataEv)
  | rxDone f ok p =>
    cases ok with
    | false => exact .inl (fv_of rfl rfl)
    | true =>
      right
      refine ⟨f, p, rfl, ?_⟩
      have e : fv (({ s with state := .idle } : St).emit (.rx f p)) = (rxs s.log ++ [f], ups s.log, s.seqList) := by
        simp [fv, rxs, ups, St.emit]
      show (_ ∧ fv (receivePacketDone c me f true p s) = _) ∨ (_ ∧ fv (receivePacketDone c me f true p s) = _)
      unfold Ap.receivePacketDone
      simp only [Bool.not_true, Bool.false_eq_true, if_false]
      split
      · rename_i hk; exact .inl ⟨by rw [hk]; decide, e⟩
      · rename_i hk; exact .inr ⟨hk, fv_receiveData c me f _⟩
      · rename_i hk _; exact .inl ⟨by assumption, e⟩
  | fire t =>
    left
    show fv (fire c me t s) = _
    unfold Ap.fire
    split
    · rfl
    · rename_i t' due e hf
      dsimp only
      split
      · exact (fv_turn c me _).trans (fv_of rfl rfl)
      · exact (fv_turn c me _).trans ((fv_cancel _ _).trans (fv_of rfl rfl))
      · exact (fv_waitTime c me _).trans (fv_of rfl rfl)
      · unfold Ap.sectorTimeout
        split
        · exact (fv_sendAck c _).trans (fv_of rfl rfl)
        · exact (fv_turn c me _).trans (fv_of rfl rfl)
      · exact (fv_sendPacket c _ _).trans (fv_of rfl rfl)
      · exact (fv_sendAck c _).trans (fv_of rfl rfl)
      · exact (fv_sendPacket c _ _).trans (fv_of rfl rfl)
      · exact (fv_sendPacketDone c _ _).trans (fv_of rfl rfl)

/-- Receptions are brought by the operation. -/
theorem step_rx (c : Cfg) (me : Mac48) (s : St) (op : Op) {f : Frame} {p : ℚ} (h : Obs.rx f p ∈ (step c me s op).log) :
    (∃ p, Obs.rx f p ∈ s.log) ∨ ∃ p, op = .rxDone f true p := by
  have h0 : f ∈ rxs (step c me s op).log := mem_rxs.2 ⟨p, h⟩
  rcases step_fv c me s op with e | ⟨g, q, rfl, ⟨-, e⟩ | ⟨-, e⟩⟩
  · rw [show rxs (step c me s op).log = rxs s.log from congrArg (·.1) e] at h0
    exact .inl (mem_rxs.1 h0)
  · rw [show rxs (step c me s (.rxDone g true q)).log = rxs s.log ++ [g] from congrArg (·.1) e] at h0
    rcases List.mem_append.1 h0 with h0 | h0
    · exact .inl (mem_rxs.1 h0)
    · rw [List.mem_singleton.1 h0]; exact .inr ⟨q, rfl⟩
  · rw [show rxs (step c me s (.rxDone g true q)).log = _ from congrArg (·.1) e] at h0
    have e2 : rxs (forwardIfNew g (({ s with state := .idle } : St).emit (.rx g q))).log = rxs s.log ++ [g] := by
      unfold Ap.forwardIfNew
      dsimp only
      split <;> simp [rxs, St.emit]
    dsimp only [fv] at h0
    rw [e2] at h0
    rcases List.mem_append.1 h0 with h0 | h0
    · exact .inl (mem_rxs.1 h0)
    · rw [List.mem_singleton.1 h0]; exact .inr ⟨q, rfl⟩

/-- The sequence numbers of the packets from `a` that were passed up, oldest first. -/
def numsFrom (a : Mac48) (l : List (Body × Mac48 × Mac48 × UInt16)) : List UInt16 :=
  l.filterMap fun x => if x.2.1 = a then some x.2.2.2 else none

/-- The numbers passed up per source grow, the filter holds the last one, and whatever DATA was received is not newer. -/
def SeenInv (v : List Frame × List (Body × Mac48 × Mac48 × UInt16) × SeqList Mac48) : Prop :=
  (∀ a, (numsFrom a v.2.1).Pairwise (· < ·) ∧ (numsFrom a v.2.1).getLast? = stored v.2.2 a) ∧
  ∀ f ∈ v.1, f.kind = .data → ∃ x ∈ numsFrom f.src v.2.1, f.seq ≤ x

theorem numsFrom_append (a : Mac48) (l m : List (Body × Mac48 × Mac48 × UInt16)) :
    numsFrom a (l ++ m) = numsFrom a l ++ numsFrom a m := List.filterMap_append

theorem seen_forward {s : St} (i : SeenInv (fv s)) (f : Frame) (p : ℚ) :
    SeenInv (fv (forwardIfNew f (({ s with state := .idle } : St).emit (.rx f p)))) := by
  obtain ⟨i1, i2⟩ := i
  have hs := fun a => isNew_stored s.seqList f.src a f.seq
  have hn := isNew_fst s.seqList f.src f.seq
  unfold Ap.forwardIfNew
  dsimp only [St.emit]
  by_cases hb : (isNewSequence s.seqList f.src f.seq).1 = true
  · rw [if_pos hb]
    have e : fv ({ s with state := .idle, log := s.log ++ [.rx f p] ++ [.up f.body f.src f.dst f.seq], seqList := (isNewSequence s.seqList f.src f.seq).2 }) = (rxs s.log ++ [f], ups s.log ++ [(f.body, f.src, f.dst, f.seq)],
        (isNewSequence s.seqList f.src f.seq).2) := by
      simp [fv, rxs, ups]
    rw [e]
    refine ⟨fun a => ?_, fun g hg hgk => ?_⟩
    · dsimp only
      rw [hs a, if_pos hb, numsFrom_append]
      by_cases ha : a = f.src
      · subst ha
        have e : numsFrom f.src [(f.body, f.src, f.dst, f.seq)] = [f.seq] := by simp [numsFrom]
        rw [e, if_pos rfl]
        refine ⟨List.pairwise_append.2 ⟨(i1 f.src).1, List.pairwise_singleton _ _, ?_⟩, by simp⟩
        intro q hq x hx
        rw [List.mem_singleton.1 hx]
        obtain ⟨h1, h2⟩ := i1 f.src
        obtain ⟨l, z, hz⟩ : ∃ l z, numsFrom f.src (fv s).2.1 = l ++ [z] := by
          rcases List.eq_nil_or_concat (numsFrom f.src (fv s).2.1) with h3 | ⟨l, z, h3⟩
          · have hq : q ∈ numsFrom f.src (fv s).2.1 := hq
            rw [h3] at hq; cases hq
          · exact ⟨l, z, by simpa using h3⟩
        have hq : q ∈ numsFrom f.src (fv s).2.1 := hq
        rw [hz] at h1 h2 hq
        have hlt : z < f.seq := hn.1 hb z (by rw [show s.seqList = (fv s).2.2 from rfl, ← h2]; simp)
        rcases List.mem_append.1 hq with h3 | h3
        · have := (List.pairwise_append.1 h1).2.2 q h3 z (List.mem_singleton.2 rfl)
          exact UInt16.lt_trans this hlt
        · rw [List.mem_singleton.1 h3]; exact hlt
      · have e : numsFrom a [(f.body, f.src, f.dst, f.seq)] = [] := by simp [numsFrom, Ne.symm ha]
        rw [e, if_neg ha, List.append_nil]
        exact i1 a
    · dsimp only at hg ⊢
      rw [numsFrom_append]
      rcases List.mem_append.1 hg with hg | hg
      · obtain ⟨x, hx, hle⟩ := i2 g hg hgk
        exact ⟨x, List.mem_append_left _ hx, hle⟩
      · rw [List.mem_singleton.1 hg]
        exact ⟨f.seq, List.mem_append_right _ (by simp [numsFrom]), UInt16.le_refl _⟩
  · rw [if_neg hb]
    have e : fv ({ s with state := .idle, log := s.log ++ [.rx f p], seqList := (isNewSequence s.seqList f.src f.seq).2 }) = (rxs s.log ++ [f], ups s.log,
        (isNewSequence s.seqList f.src f.seq).2) := by
      simp [fv, rxs, ups]
    rw [e]
    refine ⟨fun a => ?_, fun g hg hgk => ?_⟩
    · dsimp only
      rw [hs a, if_neg hb]
      by_cases ha : a = f.src
      · rw [if_pos ha, ← ha]; exact i1 a
      · rw [if_neg ha]; exact i1 a
    · dsimp only at hg ⊢
      rcases List.mem_append.1 hg with hg | hg
      · exact i2 g hg hgk
      · rw [List.mem_singleton.1 hg]
        rw [hn] at hb
        push Not at hb
        obtain ⟨x, hx, hle⟩ := hb
        have h2 := (i1 f.src).2
        rw [show (fv s).2.2 = s.seqList from rfl, hx] at h2
        exact ⟨x, List.mem_of_getLast? h2, UInt16.not_lt.1 hle⟩

theorem SeenInv.step {s : St} (i : SeenInv (fv s)) (c : Cfg) (me : Mac48) (op : Op) : SeenInv (fv (step c me s op)) := by
  rcases step_fv c me s op with e | ⟨f, p, rfl, ⟨hk, e⟩ | ⟨hk, e⟩⟩
  · rw [e]; exact i
  · rw [e]
    refine ⟨i.1, ?_⟩
    intro g hg hgk
    rcases List.mem_append.1 hg with hg | hg
    · exact i.2 g hg hgk
    · rw [List.mem_singleton.1 hg] at hgk; exact absurd hgk hk
  · rw [e]; exact seen_forward i f p

theorem SeenInv.after (c : Cfg) (me : Mac48) (ops : List Op) : SeenInv (fv (after c me ops)) := by
  induction ops using List.reverseRecOn with
  | nil => exact ⟨fun a => by simp [Ap.after, run, Ap.init, fv, ups, numsFrom, stored], by simp [Ap.after, run, Ap.init, fv, rxs]⟩
  | append_singleton ops op ih => rw [after_snoc]; exact ih.step c me op

end Thz.Ap
