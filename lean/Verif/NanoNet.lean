import Verif.NanoProps2

/-!
# A network of nano MACs

The nodes are the values of a function on MAC addresses.  The medium is modelled by what was ever handed to a PHY:
any frame in some node's log may be delivered, intact, to any node, any number of times and in any order, or never;
anything may be delivered as corrupted.  This over-approximates `THzChannel::SendPacket` / `ReceivePacket`
(model/thz-channel.cc:107-208), which delivers a copy of each frame once to every other device, and the nano PHY
(model/thz-phy-nano.cc:350-460), which may lose it.  Simplification: one node per address, none with the
broadcast address.
-/

namespace Thz.Nano

/-- The states of all nodes. -/
abbrev Net := Mac48 → St

/-- The medium does not forge: an intact frame that arrives was sent by some node. -/
def Allowed (n : Net) : Op → Prop
  | .recv f true => ∃ b, .tx f ∈ (n b).log
  | _ => True

/-- The network states that can be reached; `cfg` and `e0` are the parameters and the initial energy of each node. -/
inductive Reach (cfg : Mac48 → Cfg) (e0 : Mac48 → ℚ) : Net → Prop
  | init : Reach cfg e0 (fun a => St.init (e0 a))
  | step {n : Net} (a : Mac48) (op : Op) : Reach cfg e0 n → a ≠ bcast → Allowed n op →
      Reach cfg e0 (Function.update n a (step (cfg a) a (n a) op))

/-! ## Single node facts -/

theorem NoForgedCts.snoc {c : Cfg} {me : Mac48} {e0 : ℚ} {ops : List Op} (h : NoForgedCts c me e0 ops) {op : Op}
    (hop : ∀ f, op = .recv f true → f.kind = .cts → f.dst = me →
      .tx ⟨.rts, me, f.src, f.seq, ⟨0, 0⟩⟩ ∈ (after c me e0 ops).log) : NoForgedCts c me e0 (ops ++ [op]) := by
  intro pre f post e hk hd
  rcases List.eq_nil_or_concat post with rfl | ⟨post', x, rfl⟩
  · obtain ⟨rfl, e2⟩ := List.append_inj' e rfl
    exact hop f (by simpa using e2) hk hd
  · have e3 : ops ++ [op] = (pre ++ .recv f true :: post') ++ [x] := by simpa using e
    obtain ⟨e4, -⟩ := List.append_inj' e3 rfl
    exact h pre f post' e4 hk hd

theorem after_snoc (c : Cfg) (me : Mac48) (e0 : ℚ) (ops : List Op) (op : Op) :
    after c me e0 (ops ++ [op]) = step c me (after c me e0 ops) op := by
  show run c me (St.init e0) _ = _
  rw [run_append]; rfl

theorem attempt_src {me : Mac48} {p : Pkt} {f : Frame} (h : AttemptObs me p (.tx f)) :
    f.src = me ∧ (f.kind = .rts ∨ f.kind = .data) := by
  rcases h with ⟨g, tx, rx, h⟩ | h | ⟨h, -⟩ | h
  · simp at h
  · simp at h
  · simp only [Obs.tx.injEq] at h; rw [h]; exact ⟨rfl, Or.inl rfl⟩
  · simp only [Obs.tx.injEq] at h; rw [h]; exact ⟨rfl, Or.inr rfl⟩

/-- What a step may hand to the PHY. -/
theorem stepObs_tx {me : Mac48} {s : St} {op : Op} {f : Frame} (h : StepObs me s op (.tx f)) :
    f.src = me ∧
    (f.kind = .cts → ∃ g, op = .recv g true ∧ g.kind = .rts ∧ g.dst = me ∧ f = ⟨.cts, me, g.src, g.seq, ⟨0, 0⟩⟩) ∧
    (f.kind = .ack → ∃ g, op = .recv g true ∧ g.kind = .data ∧ g.dst = me ∧ f = ⟨.ack, me, g.src, g.seq, ⟨0, 0⟩⟩) := by
  have hatt : ∀ p, AttemptObs me p (.tx f) → f.src = me ∧
    (f.kind = .cts → ∃ g, op = .recv g true ∧ g.kind = .rts ∧ g.dst = me ∧ f = ⟨.cts, me, g.src, g.seq, ⟨0, 0⟩⟩) ∧
    (f.kind = .ack → ∃ g, op = .recv g true ∧ g.kind = .data ∧ g.dst = me ∧ f = ⟨.ack, me, g.src, g.seq, ⟨0, 0⟩⟩) := by
    intro p hp
    obtain ⟨h1, h2 | h2⟩ := attempt_src hp <;> refine ⟨h1, ?_, ?_⟩ <;> intro h3 <;> rw [h2] at h3 <;> cases h3
  cases op with
  | enqueue b d =>
    rcases h with h | ⟨p, -, h⟩
    · simp at h
    · exact hatt p h
  | recv g ok =>
    obtain ⟨rfl, h⟩ := h
    rcases h with ⟨hk, ⟨_, tx, rx, h⟩ | ⟨hd, h⟩⟩ | ⟨-, -, t, -, -, -, h⟩ | ⟨hk, ⟨_, tx, rx, h⟩ | ⟨hd, h⟩ | ⟨hd, -, h⟩⟩ |
      ⟨-, -, a, -, -, t, -, -, h⟩
    · simp at h
    · simp only [Obs.tx.injEq] at h
      rw [h]
      exact ⟨rfl, fun _ => ⟨g, rfl, hk, hd, rfl⟩, by simp⟩
    · simp only [Obs.tx.injEq] at h
      rw [h]; exact ⟨rfl, by simp [dataFrame], by simp [dataFrame]⟩
    · simp at h
    · simp at h
    · simp only [Obs.tx.injEq] at h
      rw [h]
      exact ⟨rfl, by simp, fun _ => ⟨g, rfl, hk, hd, rfl⟩⟩
    · simp at h
  | fire tid =>
    rcases h with ⟨r, -, h⟩ | ⟨q, -, h⟩ | ⟨q, -, tx, rx, h⟩ | ⟨r, -, h⟩
    · rcases h with h | ⟨tx, rx, h⟩ | ⟨t, -, -, h | h⟩ <;> simp at h
    · rcases h with h | ⟨tx, rx, h⟩ | ⟨t, -, -, h | h⟩ <;> simp at h
    · simp at h
    · exact hatt r h
  | harvest =>
    obtain ⟨p, -, h⟩ := h
    exact hatt p h
  | einit =>
    obtain ⟨p, -, h⟩ := h
    exact hatt p h

theorem stepObs_up {me : Mac48} {s : St} {op : Op} {b src dst q} (h : StepObs me s op (.up b src dst q)) :
    ∃ f, op = .recv f true ∧ f.kind = .data ∧ (f.dst = me ∨ f.dst = bcast) ∧
      b = f.body ∧ src = f.src ∧ dst = f.dst ∧ q = f.seq := by
  cases op with
  | enqueue b d =>
    rcases h with h | ⟨r, -, ⟨g, tx, rx, h⟩ | h | ⟨h, -⟩ | h⟩ <;> simp at h
  | recv f ok =>
    obtain ⟨rfl, h⟩ := h
    rcases h with ⟨-, ⟨g, tx, rx, h⟩ | ⟨-, h⟩⟩ | ⟨-, -, t, -, -, -, h⟩ | ⟨hk, ⟨g, tx, rx, h⟩ | ⟨hd, h⟩ | ⟨-, -, h⟩⟩ |
      ⟨-, -, a, -, -, t, -, -, h⟩
    · simp at h
    · simp at h
    · simp at h
    · simp at h
    · simp only [Obs.up.injEq] at h
      exact ⟨f, rfl, hk, hd, h.1, h.2.1, h.2.2.1, h.2.2.2⟩
    · simp at h
    · simp at h
  | fire tid =>
    rcases h with ⟨r, -, h⟩ | ⟨q, -, h⟩ | ⟨q, -, tx, rx, h⟩ | ⟨r, -, ⟨g, tx, rx, h⟩ | h | ⟨h, -⟩ | h⟩
    · rcases h with h | ⟨tx, rx, h⟩ | ⟨t, -, -, h | h⟩ <;> simp at h
    · rcases h with h | ⟨tx, rx, h⟩ | ⟨t, -, -, h | h⟩ <;> simp at h
    · simp at h
    · simp at h
    · simp at h
    · simp at h
    · simp at h
  | harvest =>
    obtain ⟨r, -, ⟨g, tx, rx, h⟩ | h | ⟨h, -⟩ | h⟩ := h <;> simp at h
  | einit =>
    obtain ⟨r, -, ⟨g, tx, rx, h⟩ | h | ⟨h, -⟩ | h⟩ := h <;> simp at h

theorem stepObs_success {me : Mac48} {s : St} {op : Op} {p} (h : StepObs me s op (.done true p)) :
    ∃ f, op = .recv f true ∧ f.kind = .ack ∧ f.dst = me ∧ ∃ a ∈ s.ackTO, a.seq = f.seq ∧ ∃ t ∈ s.pktTx,
      t.pkt.seq = a.pkt.seq ∧ p = t.pkt := by
  cases op with
  | enqueue b d =>
    rcases h with h | ⟨r, -, ⟨g, tx, rx, h⟩ | h | ⟨h, -⟩ | h⟩ <;> simp at h
  | recv f ok =>
    obtain ⟨rfl, h⟩ := h
    rcases h with ⟨-, ⟨g, tx, rx, h⟩ | ⟨-, h⟩⟩ | ⟨-, -, t, -, -, -, h⟩ | ⟨hk, ⟨g, tx, rx, h⟩ | ⟨hd, h⟩ | ⟨-, -, h⟩⟩ |
      ⟨hk, hd, a, ha, has, t, ht, hts, h⟩
    · simp at h
    · simp at h
    · simp at h
    · simp at h
    · simp at h
    · simp at h
    · simp only [Obs.done.injEq, true_and] at h
      exact ⟨f, rfl, hk, hd, a, ha, has, t, ht, hts, h⟩
  | fire tid =>
    rcases h with ⟨r, -, h⟩ | ⟨q, -, h⟩ | ⟨q, -, tx, rx, h⟩ | ⟨r, -, ⟨g, tx, rx, h⟩ | h | ⟨h, -⟩ | h⟩
    · rcases h with h | ⟨tx, rx, h⟩ | ⟨t, -, -, h | h⟩ <;> simp at h
    · rcases h with h | ⟨tx, rx, h⟩ | ⟨t, -, -, h | h⟩ <;> simp at h
    · simp at h
    · simp at h
    · simp at h
    · simp at h
    · simp at h
  | harvest =>
    obtain ⟨r, -, ⟨g, tx, rx, h⟩ | h | ⟨h, -⟩ | h⟩ := h <;> simp at h
  | einit =>
    obtain ⟨r, -, ⟨g, tx, rx, h⟩ | h | ⟨h, -⟩ | h⟩ := h <;> simp at h

/-! ## The network invariant -/

structure NetInv (cfg : Mac48 → Cfg) (e0 : Mac48 → ℚ) (n : Net) : Prop where
  /-- every node is in a state that a history without forged CTS reaches -/
  node : ∀ a, ∃ ops, n a = after (cfg a) a (e0 a) ops ∧ NoForgedCts (cfg a) a (e0 a) ops
  src : ∀ a f, .tx f ∈ (n a).log → f.src = a
  cts : ∀ b f, .tx f ∈ (n b).log → f.kind = .cts → .tx ⟨.rts, f.dst, b, f.seq, ⟨0, 0⟩⟩ ∈ (n f.dst).log
  up : ∀ b x a d q, .up x a d q ∈ (n b).log → .tx ⟨.data, a, d, q, x⟩ ∈ (n a).log ∧ (d = b ∨ d = bcast)
  ack : ∀ b f, .tx f ∈ (n b).log → f.kind = .ack → (∃ x, .tx ⟨.data, f.dst, b, f.seq, x⟩ ∈ (n f.dst).log) ∧
    ∀ p ∈ (n f.dst).queue, p.seq = f.seq → f.seq ∈ upsFrom f.dst (n b).log
  succ : ∀ a p, .done true p ∈ (n a).log → .up p.body a p.dst p.seq ∈ (n p.dst).log

theorem NetInv.init (cfg : Mac48 → Cfg) (e0 : Mac48 → ℚ) : NetInv cfg e0 (fun a => St.init (e0 a)) := by
  refine ⟨fun a => ⟨[], rfl, ?_⟩, ?_, ?_, ?_, ?_, ?_⟩
  · intro pre f post e
    simp at e
  all_goals simp [St.init]

/-- The packet behind a DATA frame of a node. -/
theorem data_pkt {me : Mac48} {s : St} {L} (h1 : Inv1 L me s) {d q x} (h : .tx ⟨.data, me, d, q, x⟩ ∈ s.log) :
    ∃ p, L s p ∧ p.dst = d ∧ p.seq = q ∧ p.body = x := by
  obtain ⟨p, hp, e⟩ := h1.data _ h rfl
  simp only [dataFrame, Frame.mk.injEq, true_and] at e
  exact ⟨p, hp, e.1.symm, e.2.1.symm, e.2.2.symm⟩

theorem NetInv.step {cfg : Mac48 → Cfg} {e0 : Mac48 → ℚ} {n : Net} (h : NetInv cfg e0 n) {a : Mac48} {op : Op}
    (ha : a ≠ bcast) (hop : Allowed n op)
    (hw : ∀ b, (Function.update n a (Nano.step (cfg a) a (n a) op) b).nextUid ≤ 65535) :
    NetInv cfg e0 (Function.update n a (Nano.step (cfg a) a (n a) op)) := by
  obtain ⟨opsA, hopsA, hforge⟩ := h.node a
  generalize hn' : Function.update n a (Nano.step (cfg a) a (n a) op) = n' at *
  have ea : n' a = Nano.step (cfg a) a (n a) op := by rw [← hn']; simp
  have eb : ∀ b, b ≠ a → n' b = n b := by intro b hb; rw [← hn', Function.update_of_ne hb]
  -- logs grow
  have hsub : ∀ b o, o ∈ (n b).log → o ∈ (n' b).log := by
    intro b o ho
    by_cases hb : b = a
    · subst hb; rw [ea]; exact (step_adds _ _ _ _).sub ho
    · rw [eb b hb]; exact ho
  have hnew : ∀ b o, o ∈ (n' b).log → o ∈ (n b).log ∨ (b = a ∧ StepObs a (n a) op o) := by
    intro b o ho
    by_cases hb : b = a
    · subst hb
      rw [ea] at ho
      obtain ⟨new, e, hall⟩ := step_adds (cfg b) b (n b) op
      rw [e] at ho
      rcases List.mem_append.mp ho with h1 | h1
      · exact Or.inr ⟨rfl, hall _ h1⟩
      · exact Or.inl h1
    · rw [eb b hb] at ho; exact Or.inl ho
  have hups : ∀ b x q, q ∈ upsFrom x (n b).log → q ∈ upsFrom x (n' b).log := by
    intro b x q hq
    obtain ⟨y, d, hm⟩ := mem_upsFrom.mp hq
    exact mem_upsFrom.mpr ⟨y, d, hsub _ _ hm⟩
  -- no CTS is forged in the extended history
  have hhon : ∀ f, op = .recv f true → f.kind = .cts → f.dst = a →
      .tx ⟨.rts, a, f.src, f.seq, ⟨0, 0⟩⟩ ∈ (after (cfg a) a (e0 a) opsA).log := by
    rintro f rfl hk hd
    obtain ⟨b, hb⟩ := hop
    have hsrc := h.src b f hb
    have := h.cts b f hb hk
    rw [hd] at this
    rw [← hopsA, hsrc]; exact this
  have hnode : ∀ b, ∃ ops, n' b = after (cfg b) b (e0 b) ops ∧ NoForgedCts (cfg b) b (e0 b) ops := by
    intro b
    by_cases hb : b = a
    · subst hb
      refine ⟨opsA ++ [op], ?_, hforge.snoc hhon⟩
      rw [after_snoc, ← hopsA, ea]
    · rw [eb b hb]; exact h.node b
  -- the invariants of the single nodes, before and after
  have hwo : ∀ b, (n b).nextUid ≤ 65535 := by
    intro b
    by_cases hb : b = a
    · subst hb
      have := hw b
      rw [ea] at this
      exact (step_nextUid (cfg b) b (n b) op).trans this
    · rw [← eb b hb]; exact hw b
  have h0 : ∀ b, Inv0 (n b) := fun b => by obtain ⟨o, e, -⟩ := h.node b; rw [e]; exact after_inv0 _ _ _ _
  have h0' : ∀ b, Inv0 (n' b) := fun b => by obtain ⟨o, e, -⟩ := hnode b; rw [e]; exact after_inv0 _ _ _ _
  have h1 : ∀ b, Inv1 Lic b (n b) := fun b => by
    obtain ⟨o, e, hf⟩ := h.node b
    have hb := hwo b
    rw [e] at hb ⊢
    exact after_inv1L Lic.ok (by rw [numAccepted_nextUid (after_inv0 _ _ _ _)]; exact hb) hf
  have hT : Tids (n a) := by rw [hopsA]; exact after_tids _ _ _ _
  -- a packet with the number of an old DATA frame that is queued now was queued before
  have hqold : ∀ b d q x p, .tx ⟨.data, b, d, q, x⟩ ∈ (n b).log → p ∈ (n' b).queue → p.seq = q →
      p ∈ (n b).queue ∧ p.dst = d ∧ p.body = x := by
    intro b d q x p hf hp hq
    obtain ⟨r, hr, hd, hs, hx⟩ := data_pkt (h1 b) hf
    have hacc' : ∀ y, y ∈ accs (n b).log → y ∈ accs (n' b).log := fun y hy => mem_accs.mpr (hsub _ _ (mem_accs.mp hy))
    have e := seq_inj (h0' b) (hw b) ((h0' b).queue_acc hp) (hacc' _ hr.acc) (hq.trans hs.symm)
    subst e
    refine ⟨(h0 b).mem_queue_iff.mpr ⟨hr.acc, ?_⟩, hd, hx⟩
    intro ho
    obtain ⟨ok, hm⟩ := mem_outcomes.mp ho
    exact (h0' b).queue_not_outcome hp (mem_outcomes.mpr ⟨ok, hsub _ _ hm⟩)
  refine ⟨hnode, ?_, ?_, ?_, ?_, ?_⟩
  · -- source addresses
    intro b f hf
    rcases hnew b _ hf with hm | ⟨rfl, ho⟩
    · exact h.src b f hm
    · exact (stepObs_tx ho).1
  · -- CTS
    intro b f hf hk
    rcases hnew b _ hf with hm | ⟨rfl, ho⟩
    · exact hsub _ _ (h.cts b f hm hk)
    · obtain ⟨g, rfl, hgk, hgd, rfl⟩ := (stepObs_tx ho).2.1 hk
      obtain ⟨b', hb'⟩ := hop
      have hsrc := h.src b' g hb'
      obtain ⟨p, -, -, e⟩ := (h1 b').rts g hb' hgk
      apply hsub
      show .tx ⟨.rts, g.src, b, g.seq, ⟨0, 0⟩⟩ ∈ (n g.src).log
      rw [hsrc]
      have e2 : g = ⟨.rts, b', b, g.seq, ⟨0, 0⟩⟩ := by
        rw [e] at hgd ⊢
        simp only [rtsFrame] at hgd ⊢
        rw [hgd]
      rw [← e2]; exact hb'
  · -- passed up
    intro b x s d q hu
    rcases hnew b _ hu with hm | ⟨rfl, ho⟩
    · obtain ⟨h2, h3⟩ := h.up b x s d q hm
      exact ⟨hsub _ _ h2, h3⟩
    · obtain ⟨f, rfl, hk, hd, rfl, rfl, rfl, rfl⟩ := stepObs_up ho
      obtain ⟨b', hb'⟩ := hop
      have hsrc := h.src b' f hb'
      refine ⟨hsub _ _ ?_, hd⟩
      rw [← hk, hsrc, ← hsrc]
      rw [hsrc]
      have : (⟨f.kind, b', f.dst, f.seq, f.body⟩ : Frame) = f := by rw [← hsrc]
      rw [this]; exact hb'
  · -- acknowledgements
    intro b f hf hk
    rcases hnew b _ hf with hm | ⟨rfl, ho⟩
    · obtain ⟨⟨x, h2⟩, h3⟩ := h.ack b f hm hk
      refine ⟨⟨x, hsub _ _ h2⟩, ?_⟩
      intro p hp hs
      exact hups _ _ _ (h3 p (hqold _ _ _ _ p h2 hp hs).1 hs)
    · have hf' := hf
      obtain ⟨g, rfl, hgk, hgd, rfl⟩ := (stepObs_tx ho).2.2 hk
      obtain ⟨b', hb'⟩ := hop
      have hsrc := h.src b' g hb'
      have hg : .tx ⟨.data, g.src, b, g.seq, g.body⟩ ∈ (n g.src).log := by
        have : (⟨.data, g.src, b, g.seq, g.body⟩ : Frame) = g := by rw [← hgd, ← hgk]
        rw [this, hsrc]; exact hb'
      refine ⟨⟨g.body, hsub _ _ hg⟩, ?_⟩
      intro p hp hs
      obtain ⟨hpq, hpd, -⟩ := hqold _ _ _ _ p hg hp hs
      show g.seq ∈ upsFrom g.src (n' b).log
      obtain ⟨new, e, -, hyes, hno, -⟩ := C19_unicast_up_acknowledged (cfg b) b (e0 b) opsA g hgk hgd ha
      rw [← hopsA] at e hyes hno
      have e' : (n' b).log = new ++ (n b).log := by rw [ea]; exact e
      by_cases hup : .up g.body g.src g.dst g.seq ∈ new
      · exact mem_upsFrom.mpr ⟨_, _, by rw [e']; exact List.mem_append.mpr (Or.inl hup)⟩
      · by_cases hen : (cfg b).rts = true ∨ energyFor (cfg b).energy 18 g.body.size ≤ (n b).energy
        · have hex := mt (hyes hen).2.mpr hup
          push Not at hex
          obtain ⟨v, hv, hle⟩ := hex
          by_cases hveq : v = g.seq
          · subst hveq; exact hups _ _ _ hv
          · exfalso
            obtain ⟨x, d, hu⟩ := mem_upsFrom.mp hv
            obtain ⟨hair, hd⟩ := h.up _ _ _ _ _ hu
            obtain ⟨r, hr, hrd, hrs, -⟩ := data_pkt (h1 g.src) hair
            have hlt : p.uid < r.uid := by
              apply (seq_lt_iff (h0 g.src) (hwo g.src) ((h0 g.src).queue_acc hpq) hr.acc).mp
              rw [hs, hrs]
              rw [UInt16.lt_iff_toNat_lt]
              rw [UInt16.lt_iff_toNat_lt] at hle
              have : v.toNat ≠ g.seq.toNat := fun e => hveq (UInt16.toNat_inj.mp e)
              show g.seq.toNat < _
              omega
            have hge : r.uid ≤ p.uid := by
              rcases hd with hd | hd
              · exact hr.first p hpq (by rw [hpd, hrd, hd])
              · exact hr.firstB (hrd.trans hd) p hpq
            omega
        · -- then no ACK was sent for it now; the ACK frame is old
          have hno' := (hno hen).1
          rw [e'] at hf'
          rcases List.mem_append.mp hf' with h2 | h2
          · exact absurd h2 hno'
          · exact hups _ _ _ ((h.ack b _ h2 rfl).2 p hpq hs)
  · -- successes
    intro s p hp
    rcases hnew s _ hp with hm | ⟨rfl, ho⟩
    · exact hsub _ _ (h.succ s p hm)
    · obtain ⟨f, rfl, hk, hd, t, htO, hts, u, hu, hus, rfl⟩ := stepObs_success ho
      obtain ⟨b, hb⟩ := hop
      have hseq : u.pkt.seq = f.seq := by rw [hus, ← hT.seq t htO, hts]
      obtain ⟨⟨x, h2⟩, h3⟩ := h.ack b f hb hk
      rw [hd] at h2 h3
      have hq : u.pkt ∈ (n s).queue := (h0 s).mem_pktTx hu
      have hup := h3 _ hq hseq
      obtain ⟨y, d, hu2⟩ := mem_upsFrom.mp hup
      obtain ⟨hair, -⟩ := h.up _ _ _ _ _ hu2
      obtain ⟨r, hr, hrd, hrs, hrb⟩ := data_pkt (h1 s) hair
      obtain ⟨r', hr', hrd', hrs', -⟩ := data_pkt (h1 s) h2
      have e1 := seq_inj (h0 s) (hwo s) ((h0 s).queue_acc hq) hr.acc (hseq.trans hrs.symm)
      have e2 := seq_inj (h0 s) (hwo s) ((h0 s).queue_acc hq) hr'.acc (hseq.trans hrs'.symm)
      rw [← e1] at hrd hrb
      rw [← e2] at hrd'
      apply hsub
      rw [hrb, hrd', hseq]
      rw [← hrd, hrd'] at hu2
      exact hu2

theorem Reach.inv {cfg : Mac48 → Cfg} {e0 : Mac48 → ℚ} {n : Net} (h : Reach cfg e0 n)
    (hw : ∀ b, (n b).nextUid ≤ 65535) : NetInv cfg e0 n := by
  induction h with
  | init => exact NetInv.init cfg e0
  | @step n a op hr ha hop ih =>
    refine (ih ?_).step ha hop hw
    intro b
    have := hw b
    by_cases hb : b = a
    · subst hb
      rw [Function.update_self] at this
      exact (step_nextUid _ _ _ _).trans this
    · rw [Function.update_of_ne hb] at this; exact this

/-- Each node of a reachable network is in a state reached by a history of its own (needs no bound). -/
theorem Reach.node {cfg : Mac48 → Cfg} {e0 : Mac48 → ℚ} {n : Net} (h : Reach cfg e0 n) (a : Mac48) :
    ∃ ops, n a = after (cfg a) a (e0 a) ops := by
  induction h with
  | init => exact ⟨[], rfl⟩
  | @step n b op hr hb hop ih =>
    obtain ⟨ops, e⟩ := ih
    by_cases hab : a = b
    · subst hab
      refine ⟨ops ++ [op], ?_⟩
      rw [Function.update_self, after_snoc, e]
    · exact ⟨ops, by rw [Function.update_of_ne hab, e]⟩

end Thz.Nano
