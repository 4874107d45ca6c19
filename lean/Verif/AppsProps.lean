import Verif.Apps
import Mathlib.Data.List.Basic
import Mathlib.Data.List.Induction
import Mathlib.Algebra.BigOperators.Group.List.Basic
import Mathlib.Tactic.Ring
import Mathlib.Tactic.Linarith

/-!
# Theorems about the applications

C64 and C92 (UDP client), C93 (delays), C94 and C95 (UDP server), C65, C66 and C96 (trace client), C67 (traffic generator).
-/

namespace Thz.Apps

/-! ## C64, C92: the UDP client -/

theorem client_inv (size : Nat) (h12 : 12 ≤ size) (es : List ClientEv) :
    ((Client.new size).run es).sent = 0 ∧ ((Client.new size).run es).size = size ∧
      ∀ p ∈ ((Client.new size).run es).log, p.seq = 0 ∧ p.bytes = size := by
  suffices ∀ (es : List ClientEv) (c : Client), c.sent = 0 → c.size = size → (∀ p ∈ c.log, p.seq = 0 ∧ p.bytes = size) →
      (c.run es).sent = 0 ∧ (c.run es).size = size ∧ ∀ p ∈ (c.run es).log, p.seq = 0 ∧ p.bytes = size from
    this es _ rfl rfl (by simp [Client.new])
  intro es
  induction es with
  | nil => intro c h1 h2 h3; exact ⟨h1, h2, h3⟩
  | cons e es ih =>
    intro c h1 h2 h3
    show ((c.step e).run es).sent = 0 ∧ _
    refine ih (c.step e) ?_ ?_ ?_
    · cases e <;> simp only [Client.step] <;> try exact h1
      split <;> exact h1
    · cases e <;> simp only [Client.step] <;> try exact h2
      split <;> exact h2
    · cases e with
      | start => exact h3
      | stop => exact h3
      | fire ok num den =>
        simp only [Client.step]
        split
        · exact h3
        · intro p hp
          rw [List.mem_append, List.mem_singleton] at hp
          rcases hp with hp | rfl
          · exact h3 p hp
          · exact ⟨h1, by simp only [h2]; omega⟩

/-- **C64 is violated**: every packet carries the number 0, so whenever the client has sent two packets they are not numbered
consecutively. -/
theorem C64_seq_violated (size : Nat) (h12 : 12 ≤ size) (es : List ClientEv)
    (h2 : 2 ≤ ((Client.new size).run es).log.length) :
    (∀ p ∈ ((Client.new size).run es).log, p.seq = 0) ∧
    ¬ ∀ (i : Nat) (p : Pkt), ((Client.new size).run es).log[i]? = some p → p.seq = UInt32.ofNat i := by
  have h := client_inv size h12 es
  refine ⟨fun p hp => (h.2.2 p hp).1, fun hall => ?_⟩
  have h1 := hall 1 _ (List.getElem?_eq_getElem (by omega))
  have h0 := (h.2.2 _ (List.getElem_mem (show 1 < _ by omega))).1
  rw [h0] at h1
  revert h1
  decide

example : 2 ≤ ((Client.new 1024).run [.start 0 3 2, .fire true 5 1, .fire true 1 1]).log.length := by decide

/-- **C64, what holds**: every packet has the configured size (`PacketSize` is at least 12), and the first one has number 0. -/
theorem C64_size_partial (size : Nat) (h12 : 12 ≤ size) (es : List ClientEv) (p : Pkt)
    (hp : p ∈ ((Client.new size).run es).log) :
    p.bytes = size ∧ (((Client.new size).run es).log[0]? = some p → p.seq = 0) :=
  ⟨((client_inv size h12 es).2.2 p hp).2, fun _ => ((client_inv size h12 es).2.2 p hp).1⟩

theorem client_idle (c : Client) (h : c.due = none) (es : List ClientEv) (hs : ∀ t n d, .start t n d ∉ es) :
    (c.run es).log = c.log := by
  induction es generalizing c with
  | nil => rfl
  | cons e es ih =>
    have hs' : ∀ t n d, .start t n d ∉ es := fun t n d h => hs t n d (List.mem_cons_of_mem _ h)
    show ((c.step e).run es).log = _
    cases e with
    | start t n d => exact absurd List.mem_cons_self (hs t n d)
    | stop => rw [ih _ rfl hs']; rfl
    | fire ok n d =>
      have : c.step (.fire ok n d) = c := by simp only [Client.step, h]
      rw [this]
      exact ih c h hs'

/-- **C92 is violated**: once the socket has refused a packet the client sends nothing more, whatever happens (short of a second
`StartApplication`, which ns-3 does not call). -/
theorem C92_failure_violated (c : Client) (t : Nat) (hd : c.due = some t) (num den : Nat) (es : List ClientEv)
    (hs : ∀ t n d, .start t n d ∉ es) :
    (c.run (.fire false num den :: es)).log = c.log ++ [⟨t, c.sent, (c.size - 12) + 12, false⟩] := by
  show ((c.step (.fire false num den)).run es).log = _
  have h1 : c.step (.fire false num den) =
      { c with due := none, log := c.log ++ [⟨t, c.sent, (c.size - 12) + 12, false⟩] } := by
    simp only [Client.step, hd]
    simp
  rw [h1, client_idle _ rfl es hs]

example : ((Client.new 100).run [.start 0 1 1]).due = some 1000 := by decide

/-- **C92, what holds**: as long as the socket takes the packets and the client is not stopped, it sends packet after packet, each
one at the time of the packet before plus the delay drawn after that. -/
theorem C92_sends_partial (size t num den : Nat) (ds : List (Nat × Nat)) :
    (((Client.new size).run (.start t num den :: ds.map fun d => .fire true d.1 d.2)).log.map (·.time) =
      (List.range ds.length).map fun i => t + delayNs num den + ((ds.take i).map fun d => delayNs d.1 d.2).sum) ∧
    ((Client.new size).run (.start t num den :: ds.map fun d => .fire true d.1 d.2)).due =
      some (t + delayNs num den + (ds.map fun d => delayNs d.1 d.2).sum) := by
  induction ds using List.reverseRecOn with
  | nil => simp [Client.run, Client.step, Client.new]
  | append_singleton ds d ih =>
    obtain ⟨ih1, ih2⟩ := ih
    have hr : (Client.new size).run (.start t num den :: (ds ++ [d]).map fun d => .fire true d.1 d.2) =
        Client.step ((Client.new size).run (.start t num den :: ds.map fun d => .fire true d.1 d.2)) (.fire true d.1 d.2) := by
      rw [List.map_append, ← List.cons_append]
      exact List.foldl_append
    rw [hr]
    simp only [Client.step, ih2]
    constructor
    · simp only [List.map_append, List.map_cons, List.map_nil, ih1, List.length_append, List.length_singleton, List.range_succ]
      congr 1
      · apply List.map_congr_left
        intro i hi
        rw [List.mem_range] at hi
        rw [List.take_append_of_le_length (by omega)]
      · simp
    · simp [List.sum_append]
      omega

/-! ## C93: delays -/

/-- **C93 is violated**: the attribute `Mean` is documented in seconds, but the draw is taken as microseconds, and rounded down to
whole ones: a draw below 1 gives no delay at all, and a draw of at least one is shorter than documented. -/
theorem C93_delay_violated (num den : Nat) (hd : 0 < den) :
    (num < den → delayNs num den = 0) ∧ (0 < num → delayNs num den * den < num * 1000000000) := by
  unfold delayNs
  refine ⟨fun h => by rw [Nat.div_eq_of_lt h], fun h => ?_⟩
  have : num / den * den ≤ num := Nat.div_mul_le_self num den
  calc num / den * 1000 * den = num / den * den * 1000 := by ring
    _ ≤ num * 1000 := Nat.mul_le_mul_right _ this
    _ < num * 1000000000 := by omega

/-- **C93, what holds**: the delay is the draw in microseconds, less than one microsecond too short. -/
theorem C93_delay_partial (num den : Nat) (hd : 0 < den) :
    delayNs num den * den ≤ num * 1000 ∧ num * 1000 < (delayNs num den + 1000) * den := by
  unfold delayNs
  have h1 : num / den * den ≤ num := Nat.div_mul_le_self num den
  have h2 : num < (num / den + 1) * den := by
    rw [Nat.mul_comm]; exact Nat.lt_mul_div_succ num hd
  constructor
  · calc num / den * 1000 * den = num / den * den * 1000 := by ring
      _ ≤ num * 1000 := Nat.mul_le_mul_right _ h1
  · calc num * 1000 < (num / den + 1) * den * 1000 := by omega
      _ = (num / den * 1000 + 1000) * den := by ring

example : delayNs 7 2 = 3000 := by decide

/-! ## C94: the server counts -/

/-- **C94 is violated**: a datagram of 1 to 11 bytes ends the program, and a stopped server still counts IPv6 datagrams. -/
theorem C94_count_violated :
    (∀ (s : Server) (v6 : Bool) (n : Nat) (q : UInt32), (if v6 then s.cb6 else s.cb4) = true → 0 < n → n < 12 →
      s.step (.recv ⟨v6, n, q⟩) = none) ∧
    ((Server.new.run [.start, .stop, .recv ⟨true, 100, 0⟩]).map (·.received)) = some 1 := by
  constructor
  · intro s v6 n q h h1 h2
    simp only [Server.step]
    rw [if_pos h, if_neg (by omega), if_pos h2]
  · decide

/-- The datagrams that a server should count: the non-empty ones that arrive while it runs (`on`). -/
def counted : Bool → List ServerEv → List Datagram
  | _, [] => []
  | _, .start :: es => counted true es
  | _, .stop :: es => counted false es
  | on, .recv d :: es => if on ∧ d.bytes ≠ 0 then d :: counted on es else counted on es

theorem server_run (es : List ServerEv) : ∀ (s : Server),
    (∀ d, .recv d ∈ es → d.v6 = false ∧ (d.bytes = 0 ∨ 12 ≤ d.bytes)) →
    ∃ s', s.run es = some s' ∧ s'.received = s.received + UInt32.ofNat (counted s.cb4 es).length ∧
      s'.noted = s.noted ++ (counted s.cb4 es).map (·.seq) := by
  induction es with
  | nil => intro s _; exact ⟨s, rfl, by simp [counted], by simp [counted]⟩
  | cons e es ih =>
    intro s h
    have h' : ∀ d, .recv d ∈ es → d.v6 = false ∧ (d.bytes = 0 ∨ 12 ≤ d.bytes) := fun d hd => h d (List.mem_cons_of_mem _ hd)
    cases e with
    | start => exact ih { s with cb4 := true, cb6 := true } h'
    | stop => exact ih { s with cb4 := false } h'
    | recv d =>
      obtain ⟨hv, hb⟩ := h d List.mem_cons_self
      by_cases hon : s.cb4 = true
      · rcases hb with hb | hb
        · obtain ⟨s', h1, h2, h3⟩ := ih s h'
          refine ⟨s', ?_, ?_, ?_⟩
          · simp only [Server.run, Server.step, hv, hon, hb]
            simpa using h1
          · simpa [counted, hb] using h2
          · simpa [counted, hb] using h3
        · obtain ⟨s', h1, h2, h3⟩ := ih { s with received := s.received + 1, noted := s.noted ++ [d.seq] } h'
          have hb0 : d.bytes ≠ 0 := by omega
          have hb1 : ¬ d.bytes < 12 := by omega
          refine ⟨s', ?_, ?_, ?_⟩
          · simp only [Server.run, Server.step, hv, hon, hb0, hb1]
            simpa [hon] using h1
          · rw [h2]
            have hc : counted s.cb4 (.recv d :: es) = d :: counted s.cb4 es := by simp [counted, hon, hb0]
            rw [hc, List.length_cons, UInt32.ofNat_add, UInt32.add_assoc, UInt32.add_comm 1]
            rfl
          · rw [h3]
            simp [counted, hon, hb0]
      · obtain ⟨s', h1, h2, h3⟩ := ih s h'
        have hon' : s.cb4 = false := by simpa using hon
        refine ⟨s', ?_, ?_, ?_⟩
        · simp only [Server.run, Server.step, hv, hon']
          simpa [hon'] using h1
        · simpa [counted, hon'] using h2
        · simpa [counted, hon'] using h3

/-- **C94, what holds**: for IPv4 datagrams that are empty or carry the 12-byte header, `GetReceived` is the number (modulo 2^32) of
the non-empty datagrams that arrived while the server ran, and the loss counter got exactly their numbers, in order. -/
theorem C94_count_partial (es : List ServerEv)
    (h : ∀ d, .recv d ∈ es → d.v6 = false ∧ (d.bytes = 0 ∨ 12 ≤ d.bytes)) :
    ∃ s, Server.new.run es = some s ∧ s.received = UInt32.ofNat (counted false es).length ∧
      s.noted = (counted false es).map (·.seq) := by
  obtain ⟨s, h1, h2, h3⟩ := server_run es Server.new h
  refine ⟨s, h1, ?_, ?_⟩
  · rw [h2]; simp [Server.new]
  · rw [h3]; simp [Server.new]

example : (Server.new.run [.recv ⟨false, 50, 0⟩, .start, .recv ⟨false, 50, 0⟩, .recv ⟨false, 0, 0⟩, .recv ⟨false, 12, 1⟩, .stop,
    .recv ⟨false, 50, 2⟩]) = some ⟨2, [0, 1], false, true⟩ := by decide

/-! ## C95: losses -/

/-- The datagrams of the client that the network delivers (`keep i`: packet `i` is delivered), all over IPv4. -/
def delivered (keep : Nat → Bool) (l : List Pkt) : List ServerEv :=
  (((List.range l.length).zip l).filter fun x => keep x.1).map fun x => .recv ⟨false, x.2.bytes, x.2.seq⟩

/-- What the server noted after receiving `es` from its start on. -/
def noted (es : List ServerEv) : Option (List UInt32) := (Server.new.run (.start :: es)).map (·.noted)

/-- **C95 is violated**: no loss counter whatever can tell how many packets of the client were lost.  There are two runs of client,
network and server, one in which no packet is lost and one in which one is, after which the counter has seen the same numbers. -/
theorem C95_lost_violated (lost : List UInt32 → Nat) :
    ¬ ∀ (es : List ClientEv) (keep : Nat → Bool) (seen : List UInt32),
      noted (delivered keep ((Client.new 100).run es).log) = some seen →
      lost seen = ((List.range ((Client.new 100).run es).log.length).filter fun i => !keep i).length := by
  intro h
  have h1 := h [.start 0 1 1, .fire true 1 1] (fun _ => true) [0] (by decide)
  have h2 := h [.start 0 1 1, .fire true 1 1, .fire true 1 1] (fun i => i == 0) [0] (by decide)
  rw [h1] at h2
  revert h2
  decide

theorem delivered_mem {keep : Nat → Bool} {l : List Pkt} {d : Datagram} (h : .recv d ∈ delivered keep l) :
    d.v6 = false ∧ ∃ p ∈ l, d.bytes = p.bytes ∧ d.seq = p.seq := by
  unfold delivered at h
  rw [List.mem_map] at h
  obtain ⟨x, hx, he⟩ := h
  have hx := (List.mem_filter.1 hx).1
  injection he with he
  subst he
  exact ⟨rfl, x.2, (List.of_mem_zip hx).2, rfl, rfl⟩

theorem counted_all (es : List ServerEv) (h : ∀ e ∈ es, ∃ d, e = .recv d ∧ d.bytes ≠ 0) : (counted true es).length = es.length := by
  induction es with
  | nil => rfl
  | cons e es ih =>
    obtain ⟨d, rfl, hd⟩ := h e List.mem_cons_self
    have := ih (fun e he => h e (List.mem_cons_of_mem _ he))
    simp [counted, hd, this]

/-- **C95, what holds**: the number of packets received is right (modulo 2^32): it is the number of packets that the network
delivered. -/
theorem C95_received_partial (size : Nat) (h12 : 12 ≤ size) (es : List ClientEv) (keep : Nat → Bool) :
    ∃ s, Server.new.run (.start :: delivered keep ((Client.new size).run es).log) = some s ∧
      s.received = UInt32.ofNat
        (((List.range ((Client.new size).run es).log.length).filter keep).length) := by
  have hc := client_inv size h12 es
  generalize hl : ((Client.new size).run es).log = l at hc
  have hmem : ∀ d, .recv d ∈ delivered keep l → d.v6 = false ∧ (d.bytes = 0 ∨ 12 ≤ d.bytes) := by
    intro d hd
    obtain ⟨h1, p, hp, hb, _⟩ := delivered_mem hd
    refine ⟨h1, Or.inr ?_⟩
    rw [hb, (hc.2.2 p hp).2]; exact h12
  obtain ⟨s, h1, h2, _⟩ := C94_count_partial (.start :: delivered keep l) (by
    intro d hd
    rw [List.mem_cons] at hd
    rcases hd with hd | hd
    · cases hd
    · exact hmem d hd)
  refine ⟨s, h1, ?_⟩
  rw [h2]
  congr 1
  show (counted true (delivered keep l)).length = _
  rw [counted_all]
  · unfold delivered
    rw [List.length_map]
    have : ∀ (r : List Nat) (l : List Pkt), r.length = l.length →
        ((r.zip l).filter fun x => keep x.1).length = (r.filter keep).length := by
      intro r
      induction r with
      | nil => intro l _; simp
      | cons a r ih =>
        intro l hl
        cases l with
        | nil => simp at hl
        | cons b l =>
          have := ih l (by simpa using hl)
          by_cases hk : keep a <;> simp [hk, this]
    exact this _ _ (by simp)
  · intro e he
    unfold delivered at he
    have he' := he
    rw [List.mem_map] at he
    obtain ⟨x, hx, rfl⟩ := he
    refine ⟨_, rfl, ?_⟩
    rcases (hmem _ he').2 with h | h
    · obtain ⟨_, p, hp, hb, _⟩ := delivered_mem he'
      rw [hb, (hc.2.2 p hp).2]
      omega
    · omega

/-! ## C65: the packets of the trace client -/

/-- The sizes of the packets that the code sends for a frame of `size` bytes: as many full packets as fit, then the rest; the header
is in every packet, so none is smaller than 12 bytes. -/
def frameSizes (max size : Nat) : List Nat :=
  (List.replicate (size / max) max ++ [size % max]).map fun n => Nat.max n 12

/-- The time in ms at which the `k`-th frame (counted from 0 and over all rounds of the trace) is due. -/
def frameTime (E : List Entry) : Nat → Nat
  | 0 => 0
  | k + 1 => frameTime E k + ((E[(k + 1) % E.length]?).map fun e => e.time.toNat).getD 0

/-- What the first `k` frames look like on the socket: time and size. -/
def frames (E : List Entry) (max : Nat) (k : Nat) : List (Nat × Nat) :=
  (List.range k).flatMap fun i =>
    match E[i % E.length]? with
    | none => []
    | some e => (frameSizes max e.size.toNat).map fun b => (frameTime E i, b)

theorem sendPacket_log (ok : Nat → Bool) (n : Nat) (s : Trace) :
    (s.sendPacket ok n).log.map (fun p => (p.time, p.bytes)) = s.log.map (fun p => (p.time, p.bytes)) ++ [(s.now, Nat.max n 12)] ∧
    (s.sendPacket ok n).entries = s.entries ∧ (s.sendPacket ok n).max = s.max ∧ (s.sendPacket ok n).now = s.now ∧
    (s.sendPacket ok n).cur = s.cur := by
  refine ⟨?_, rfl, rfl, rfl, rfl⟩
  simp only [Trace.sendPacket, List.map_append, List.map_cons, List.map_nil]
  congr 3
  split
  · have : Nat.max n 12 = n := Nat.max_eq_left (by omega)
    omega
  · have : Nat.max n 12 = 12 := Nat.max_eq_right (by omega)
    omega

theorem sendFull_log (ok : Nat → Bool) (n : Nat) : ∀ (s : Trace),
    (s.sendFull ok n).log.map (fun p => (p.time, p.bytes)) =
      s.log.map (fun p => (p.time, p.bytes)) ++ List.replicate n (s.now, Nat.max s.max.toNat 12) ∧
    (s.sendFull ok n).entries = s.entries ∧ (s.sendFull ok n).max = s.max ∧ (s.sendFull ok n).now = s.now ∧
    (s.sendFull ok n).cur = s.cur := by
  induction n with
  | zero => intro s; simp [Trace.sendFull]
  | succ n ih =>
    intro s
    obtain ⟨h1, h2, h3, h4, h5⟩ := ih (s.sendPacket ok s.max.toNat)
    obtain ⟨g1, g2, g3, g4, g5⟩ := sendPacket_log ok s.max.toNat s
    refine ⟨?_, h2.trans g2, h3.trans g3, h4.trans g4, h5.trans g5⟩
    simp only [Trace.sendFull]
    rw [h1, g1, g3, g4, List.append_assoc, List.replicate_succ]
    rfl

theorem body_spec {ok : Nat → Bool} {s s' : Trace} (h : s.body ok = some s') :
    ∃ e, s.entries[s.cur]? = some e ∧ s.max ≠ 0 ∧
      s'.log.map (fun p => (p.time, p.bytes)) =
        s.log.map (fun p => (p.time, p.bytes)) ++ (frameSizes s.max.toNat e.size.toNat).map (fun b => (s.now, b)) ∧
      s'.entries = s.entries ∧ s'.max = s.max ∧ s'.now = s.now ∧ s'.cur = (s.cur + 1) % s.entries.length := by
  unfold Trace.body at h
  split at h
  · cases h
  · rename_i e he
    split at h
    · cases h
    · rename_i hm
      injection h with h
      subst h
      dsimp only
      obtain ⟨h1, h2, h3, h4, h5⟩ := sendFull_log ok (e.size.toNat / s.max.toNat) s
      obtain ⟨g1, g2, g3, g4, g5⟩ := sendPacket_log ok (e.size.toNat % s.max.toNat) (s.sendFull ok (e.size.toNat / s.max.toNat))
      refine ⟨e, he, hm, ?_, g2.trans h2, g3.trans h3, g4.trans h4, rfl⟩
      rw [g1, h1, h4]
      simp [frameSizes, List.append_assoc]

/-- The invariant of the trace client: `k` frames are sent, and the next one is due now. -/
structure TInv (E : List Entry) (M : UInt16) (k : Nat) (s : Trace) : Prop where
  entries : s.entries = E
  max : s.max = M
  cur : s.cur = k % E.length
  now : s.now = frameTime E k
  log : s.log.map (fun p => (p.time, p.bytes)) = frames E M.toNat k

theorem tinv_body {ok : Nat → Bool} {E : List Entry} {M : UInt16} {k : Nat} {s s' : Trace} (h : TInv E M k s)
    (hb : s.body ok = some s') :
    s'.entries = E ∧ s'.max = M ∧ s'.cur = (k + 1) % E.length ∧ s'.now = frameTime E k ∧
      s'.log.map (fun p => (p.time, p.bytes)) = frames E M.toNat (k + 1) := by
  obtain ⟨e, h1, _, h3, h4, h5, h6, h7⟩ := body_spec hb
  refine ⟨h4.trans h.entries, h5.trans h.max, ?_, h6.trans h.now, ?_⟩
  · rw [h7, h.entries, h.cur, Nat.mod_add_mod]
  · rw [h3, h.log]
    rw [h.entries, h.cur] at h1
    unfold frames
    rw [List.range_succ, List.flatMap_append]
    congr 1
    simp [h1, h.max, h.now]

theorem tinv_send {ok : Nat → Bool} {E : List Entry} {M : UInt16} (fuel : Nat) : ∀ {k : Nat} {s s' : Trace} {ms : Nat},
    TInv E M k s → s.send ok fuel = .wait ms s' → 0 < ms ∧ ∃ k', k < k' ∧ TInv E M k' { s' with now := s'.now + ms } := by
  induction fuel with
  | zero => intro k s s' ms _ h; cases h
  | succ fuel ih =>
    intro k s s' ms h hs
    simp only [Trace.send] at hs
    split at hs
    · cases hs
    · rename_i t ht
      obtain ⟨h1, h2, h3, h4, h5⟩ := tinv_body h ht
      split at hs
      · cases hs
      · rename_i e he
        rw [h1, h3] at he
        split at hs
        · rename_i h0
          obtain ⟨g0, k', g1, g2⟩ := ih (k := k + 1) ⟨h1, h2, h3, by rw [h4]; simp [frameTime, he, h0], h5⟩ hs
          exact ⟨g0, k', by omega, g2⟩
        · rename_i h0
          injection hs with hm hs
          subst hm hs
          refine ⟨Nat.pos_of_ne_zero fun hz => h0 (UInt32.toNat_inj.1 hz), k + 1, by omega, h1, h2, h3, ?_, h5⟩
          show t.now + _ = _
          rw [h4]
          simp [frameTime, he]

/-- A trace client that has not sent yet. -/
structure Fresh (s : Trace) : Prop where
  cur : s.cur = 0
  sent : s.sent = 0
  now : s.now = 0
  log : s.log = []

theorem fresh_new (junk : Line) (f : Option (Option File)) (max : UInt32) : Fresh (Trace.new junk f max) := by
  unfold Trace.new
  rcases f with _ | _ | f <;> exact ⟨rfl, rfl, rfl, rfl⟩

theorem reach_tinv {ok : Nat → Bool} {s0 s : Trace} (h0 : Fresh s0) (h : Reach ok s0 s) :
    ∃ k, TInv s0.entries s0.max k s := by
  induction h with
  | start => exact ⟨0, rfl, rfl, by rw [h0.cur, Nat.zero_mod], h0.now, by rw [h0.log]; rfl⟩
  | next _ hs ih =>
    obtain ⟨k, hk⟩ := ih
    obtain ⟨_, k', _, h'⟩ := tinv_send _ hk hs
    exact ⟨k', h'⟩

/-- **C65, what holds** (order and time): for every trace and every answer of the socket, whenever `Send` is executed the packets
sent so far are those of the first `k` frames of the trace (round after round), each sent at its time, and the next frame is
due now. -/
theorem C65_order_partial (ok : Nat → Bool) (s0 s : Trace) (h0 : Fresh s0) (h : Reach ok s0 s) :
    ∃ k, s.log.map (fun p => (p.time, p.bytes)) = frames s0.entries s0.max.toNat k ∧ s.now = frameTime s0.entries k ∧
      s.cur = k % s0.entries.length := by
  obtain ⟨k, hk⟩ := reach_tinv h0 h
  exact ⟨k, hk.log, hk.now, hk.cur⟩

theorem sum_map_max (a b n : Nat) (ha : 12 ≤ a) :
    ((List.replicate n a ++ [b]).map fun n => Nat.max n 12).sum = n * a + Nat.max b 12 := by
  have : Nat.max a 12 = a := Nat.max_eq_left ha
  simp [this]

/-- **C65, what holds** (bytes): with a maximum size of at least 12, the packets of a frame are none larger than the maximum, and
their sizes add up to the frame, except that the last packet is at least 12 bytes: exactly right iff the last packet would have
been at least 12 bytes, and otherwise at most 12 bytes too many. -/
theorem C65_bytes_partial (max size : Nat) (hm : 12 ≤ max) :
    (∀ b ∈ frameSizes max size, b ≤ max) ∧ size ≤ (frameSizes max size).sum ∧ (frameSizes max size).sum ≤ size + 12 ∧
    ((frameSizes max size).sum = size ↔ 12 ≤ size % max) ∧ (frameSizes max size).length = size / max + 1 := by
  have hlt : size % max < max := Nat.mod_lt _ (by omega)
  have hsum : (frameSizes max size).sum = size / max * max + Nat.max (size % max) 12 := sum_map_max _ _ _ hm
  have hdm : size / max * max + size % max = size := by
    rw [Nat.mul_comm]; exact Nat.div_add_mod size max
  refine ⟨?_, ?_, ?_, ?_, by simp [frameSizes]⟩
  · intro b hb
    unfold frameSizes at hb
    rw [List.mem_map] at hb
    obtain ⟨n, hn, rfl⟩ := hb
    rw [List.mem_append, List.mem_singleton] at hn
    apply Nat.max_le.2
    rcases hn with hn | rfl
    · rw [List.eq_of_mem_replicate hn]; exact ⟨le_refl _, hm⟩
    · exact ⟨by omega, hm⟩
  · rw [hsum]
    have : size % max ≤ Nat.max (size % max) 12 := Nat.le_max_left _ _
    omega
  · rw [hsum]
    have : Nat.max (size % max) 12 ≤ size % max + 12 := Nat.max_le.2 ⟨by omega, by omega⟩
    omega
  · rw [hsum]
    constructor
    · intro h
      have : 12 ≤ Nat.max (size % max) 12 := Nat.le_max_right _ _
      omega
    · intro h
      have : Nat.max (size % max) 12 = size % max := Nat.max_eq_left h
      omega

/-- **C65 is violated**: a frame whose size is a multiple of the maximum is followed by a needless 12-byte packet (so 2048 bytes are
sent as 1024, 1024 and 12), and with a maximum below 12 every packet is larger than the maximum. -/
theorem C65_bytes_violated :
    (∀ max n, 12 ≤ max → (frameSizes max (n * max)).sum = n * max + 12) ∧
    (∀ max size, max < 12 → ∀ b ∈ frameSizes max size, max < b) ∧
    (∃ (s0 s : Trace), Fresh s0 ∧ Reach (fun _ => true) s0 s ∧ s0.entries = [⟨0, 2048⟩, ⟨40, 100⟩] ∧ s0.max = 1024 ∧
      s.log.map (·.bytes) = [1024, 1024, 12]) := by
  refine ⟨?_, ?_, ?_⟩
  · intro max n hm
    have hpos : 0 < max := by omega
    unfold frameSizes
    rw [Nat.mul_div_cancel _ hpos, Nat.mul_mod_left, sum_map_max _ _ _ hm]
    rfl
  · intro max size hm b hb
    unfold frameSizes at hb
    rw [List.mem_map] at hb
    obtain ⟨n, _, rfl⟩ := hb
    have : 12 ≤ Nat.max n 12 := Nat.le_max_right _ _
    omega
  · refine ⟨⟨[⟨0, 2048⟩, ⟨40, 100⟩], 0, 1024, 0, 0, []⟩, _, ⟨rfl, rfl, rfl, rfl⟩, .next (fuel := 1) (ms := 40) .start rfl, rfl, rfl, ?_⟩
    decide

/-- The number of successes before the `i`-th packet. -/
def successes (l : List Pkt) (i : Nat) : Nat := ((l.take i).filter (·.ok)).length

/-- Sequence numbers are right: every packet carries the number of packets that the socket has taken before it. -/
def SeqOk (s : Trace) : Prop :=
  s.sent = UInt32.ofNat (s.log.filter (·.ok)).length ∧ ∀ i p, s.log[i]? = some p → p.seq = UInt32.ofNat (successes s.log i)

theorem seqOk_sendPacket {ok : Nat → Bool} {n : Nat} {s : Trace} (h : SeqOk s) : SeqOk (s.sendPacket ok n) := by
  obtain ⟨h1, h2⟩ := h
  constructor
  · simp only [Trace.sendPacket, List.filter_append, List.length_append]
    split
    · rename_i hk
      rw [h1]; simp [hk, UInt32.ofNat_add]
    · rename_i hk
      rw [h1]; simp [hk]
  · intro i p hp
    simp only [Trace.sendPacket] at hp ⊢
    rw [List.getElem?_append] at hp
    split at hp
    · rename_i hi
      rw [h2 i p hp, successes, successes, List.take_append_of_le_length (by omega)]
    · rename_i hi
      have hi' : i = s.log.length := by
        rcases Nat.lt_or_ge 0 (i - s.log.length) with h | h
        · rw [List.getElem?_eq_none (by rw [List.length_singleton]; omega)] at hp; cases hp
        · omega
      subst hi'
      simp only [Nat.sub_self, List.getElem?_cons_zero, Option.some.injEq] at hp
      subst hp
      rw [successes, List.take_left]
      exact h1

theorem seqOk_sendFull {ok : Nat → Bool} (n : Nat) : ∀ {s : Trace}, SeqOk s → SeqOk (s.sendFull ok n) := by
  induction n with
  | zero => intro s h; exact h
  | succ n ih => intro s h; exact ih (seqOk_sendPacket h)

theorem seqOk_send {ok : Nat → Bool} (fuel : Nat) : ∀ {s s' : Trace} {ms : Nat}, SeqOk s → s.send ok fuel = .wait ms s' → SeqOk s' := by
  induction fuel with
  | zero => intro s s' ms _ h; cases h
  | succ fuel ih =>
    intro s s' ms h hs
    simp only [Trace.send] at hs
    split at hs
    · cases hs
    · rename_i t ht
      have hk : SeqOk t := by
        unfold Trace.body at ht
        split at ht
        · cases ht
        · split at ht
          · cases ht
          · injection ht with ht
            subst ht
            exact seqOk_sendPacket (seqOk_sendFull _ h)
      split at hs
      · cases hs
      · split at hs
        · exact ih hk hs
        · injection hs with _ hs
          subst hs
          exact hk

/-- **C97**: the packets of the trace client are numbered by the packets that the socket took: every packet carries the number
(modulo 2^32) of packets taken before it.  So if all are taken the numbers are 0, 1, 2, ... -/
theorem C97_seq (ok : Nat → Bool) (s0 s : Trace) (h0 : Fresh s0) (h : Reach ok s0 s) (i : Nat) (p : Pkt) (hp : s.log[i]? = some p) :
    p.seq = UInt32.ofNat ((s.log.take i).filter (·.ok)).length := by
  suffices SeqOk s from this.2 i p hp
  clear hp
  induction h with
  | start => exact ⟨by rw [h0.sent, h0.log]; rfl, by rw [h0.log]; intro i p hp; simp at hp⟩
  | next _ hs ih =>
    have := seqOk_send _ ih hs
    exact ⟨this.1, this.2⟩

example : ∃ s, Reach (fun n => n != 1) (Trace.new ⟨false, 0, 0⟩ none 1024) s ∧
    s.log.map (fun p => (p.time, p.seq, p.bytes, p.ok)) = [(0, 0, 534, true), (40, 1, 1024, false), (40, 1, 518, true),
      (40, 2, 134, true), (40, 3, 390, true)] := by
  refine ⟨_, .next (fuel := 5) (ms := 200) (.next (fuel := 5) (ms := 40) .start rfl) rfl, ?_⟩
  decide

/-! ## C66: no hang, no access outside the trace -/

theorem body_ok {ok : Nat → Bool} {s : Trace} (hc : s.cur < s.entries.length) (hm : s.max ≠ 0) : ∃ s', s.body ok = some s' := by
  unfold Trace.body
  rw [List.getElem?_eq_getElem hc]
  dsimp only
  rw [if_neg hm]
  exact ⟨_, rfl⟩

theorem send_ok {ok : Nat → Bool} (j : Nat) : ∀ {s : Trace}, s.cur < s.entries.length → s.max ≠ 0 →
    (∃ e, s.entries[(s.cur + j + 1) % s.entries.length]? = some e ∧ e.time ≠ 0) →
    ∃ fuel ms s', fuel ≤ j + 1 ∧ s.send ok fuel = .wait ms s' := by
  induction j with
  | zero =>
    intro s hc hm ⟨e, he, hz⟩
    obtain ⟨t, ht⟩ := body_ok (ok := ok) hc hm
    obtain ⟨_, _, _, _, h4, _, _, h7⟩ := body_spec ht
    refine ⟨1, e.time.toNat, t, by omega, ?_⟩
    simp only [Trace.send, ht]
    rw [h4, h7, he]
    simp [hz]
  | succ j ih =>
    intro s hc hm ⟨e, he, hz⟩
    obtain ⟨t, ht⟩ := body_ok (ok := ok) hc hm
    obtain ⟨_, _, _, _, h4, h5, _, h7⟩ := body_spec ht
    have hc' : t.cur < t.entries.length := by rw [h4, h7]; exact Nat.mod_lt _ (by omega)
    obtain ⟨e', he'⟩ : ∃ e', t.entries[t.cur]? = some e' := ⟨_, List.getElem?_eq_getElem hc'⟩
    by_cases hz' : e'.time = 0
    · obtain ⟨fuel, ms, s', hf, hs⟩ := ih (s := t) hc' (by rw [h5]; exact hm) ⟨e, by
        rw [h4, h7, Nat.add_assoc, Nat.mod_add_mod, ← he]
        congr 2
        omega, hz⟩
      refine ⟨fuel + 1, ms, s', by omega, ?_⟩
      simp only [Trace.send, ht, he', hz', if_true, hs]
    · refine ⟨1, e'.time.toNat, t, by omega, ?_⟩
      simp only [Trace.send, ht, he', hz', if_false]

/-- **C66, what holds**: if some frame of the trace has a time, and the maximum packet size is not 0, every `Send` ends after at most
one round of the trace, without an access outside it, and schedules the next one. -/
theorem C66_ends_partial (ok : Nat → Bool) (s0 s : Trace) (h0 : Fresh s0) (h : Reach ok s0 s) (hm : s0.max ≠ 0)
    (ht : ∃ e ∈ s0.entries, e.time ≠ 0) :
    ∃ fuel ms s', fuel ≤ s0.entries.length ∧ s.send ok fuel = .wait ms s' ∧ 0 < ms := by
  obtain ⟨k, hk⟩ := reach_tinv h0 h
  obtain ⟨e, he, hz⟩ := ht
  obtain ⟨i, hi, rfl⟩ := List.getElem_of_mem he
  have hn : 0 < s0.entries.length := by omega
  have hlt : k % s0.entries.length < s0.entries.length := Nat.mod_lt _ hn
  have hj : ∃ j, j < s0.entries.length ∧ (k % s0.entries.length + j + 1) % s0.entries.length = i := by
    generalize k % s0.entries.length = c at hlt
    clear hk hm hz he
    generalize s0.entries.length = n at *
    by_cases hci : c < i
    · exact ⟨i - c - 1, by omega, by
        have : c + (i - c - 1) + 1 = i := by omega
        rw [this, Nat.mod_eq_of_lt hi]⟩
    · exact ⟨i + n - c - 1, by omega, by
        have : c + (i + n - c - 1) + 1 = i + n := by omega
        rw [this, Nat.add_mod_right, Nat.mod_eq_of_lt hi]⟩
  obtain ⟨j, hj1, hj2⟩ := hj
  obtain ⟨fuel, ms, s', hf, hs⟩ := send_ok (ok := ok) j (s := s) (by rw [hk.entries, hk.cur]; exact hlt) (by rw [hk.max]; exact hm)
    ⟨s0.entries[i], by rw [hk.entries, hk.cur, hj2, List.getElem?_eq_getElem hi], hz⟩
  exact ⟨fuel, ms, s', by omega, hs, (tinv_send fuel hk hs).1⟩

/-- The default trace meets the hypotheses. -/
example : ∃ e ∈ (Trace.new ⟨false, 0, 0⟩ none 1024).entries, e.time ≠ 0 := ⟨⟨40, 1542⟩, by decide, by decide⟩

theorem spins {ok : Nat → Bool} (fuel : Nat) : ∀ {s : Trace}, s.cur < s.entries.length → s.max ≠ 0 → (∀ e ∈ s.entries, e.time = 0) →
    s.send ok fuel = .spinning := by
  induction fuel with
  | zero => intros; rfl
  | succ fuel ih =>
    intro s hc hm hz
    obtain ⟨t, ht⟩ := body_ok (ok := ok) hc hm
    obtain ⟨_, _, _, _, h4, h5, _, h7⟩ := body_spec ht
    have hc' : t.cur < t.entries.length := by rw [h4, h7]; exact Nat.mod_lt _ (by omega)
    have he' := List.getElem?_eq_getElem hc'
    have hz' : (t.entries[t.cur]'hc').time = 0 := hz _ (by rw [← h4]; exact List.getElem_mem hc')
    simp only [Trace.send, ht, he', hz', if_true]
    exact ih hc' (by rw [h5]; exact hm) (by rw [h4]; exact hz)

/-- **C66 is violated** (hang): if no frame has a time, the first `Send` never ends.  A file whose only line is a frame at time 0 is
enough. -/
theorem C66_hang_violated :
    (∀ (ok : Nat → Bool) (s0 : Trace), Fresh s0 → s0.entries ≠ [] → s0.max ≠ 0 → (∀ e ∈ s0.entries, e.time = 0) →
      ∀ fuel, s0.send ok fuel = .spinning) ∧
    (∀ (ok : Nat → Bool) (junk : Line) (eol : Bool) (size : UInt16) (fuel : Nat),
      (Trace.new junk (some (some ⟨[⟨false, 0, size⟩], eol⟩)) 1024).send ok fuel = .spinning) := by
  have h1 : ∀ (ok : Nat → Bool) (s0 : Trace), Fresh s0 → s0.entries ≠ [] → s0.max ≠ 0 → (∀ e ∈ s0.entries, e.time = 0) →
      ∀ fuel, s0.send ok fuel = .spinning := by
    intro ok s0 h0 hne hm hz fuel
    exact spins fuel (by rw [h0.cur]; exact List.length_pos_of_ne_nil hne) hm hz
  refine ⟨h1, ?_⟩
  intro ok junk eol size fuel
  have hm : (1024 : UInt32).toUInt16 ≠ 0 := by decide
  refine h1 ok (Trace.new junk (some (some ⟨[⟨false, 0, size⟩], eol⟩)) 1024) (fresh_new _ _ _) ?_ hm ?_ fuel
  · cases eol <;> simp [Trace.new, Trace.load, File.seen, pushed]
  · cases eol <;> simp [Trace.new, Trace.load, File.seen, pushed]

/-- **C66 is violated** (undefined behaviour): after `SetRemote` the trace is empty, and the first `Send` reads outside it; and with a
`MaxPacketSize` that is a multiple of 65536 (the attribute admits it) it divides by 0. -/
theorem C66_outside_violated (ok : Nat → Bool) (fuel : Nat) :
    (∀ s : Trace, s.setRemote.send ok (fuel + 1) = .crash) ∧
    (∀ junk f, (Trace.new junk f 65536).send ok (fuel + 1) = .crash) := by
  constructor
  · intro s
    simp [Trace.setRemote, Trace.send, Trace.body]
  · intro junk f
    have hm : (Trace.new junk f 65536).max = 0 := by
      unfold Trace.new
      rcases f with _ | _ | f <;> rfl
    have : (Trace.new junk f 65536).body ok = none := by
      unfold Trace.body
      split
      · rfl
      · rw [if_pos hm]
    simp only [Trace.send, this]

/-! ## C96: loading a trace -/

/-- What a user expects of a trace: one frame for every line, with its size; the times add up to the time of the last frame that is
not of type B. -/
def Faithful (f : File) (E : List Entry) : Prop := E.map (·.size) = f.lines.map (·.size)

theorem pushed_size (ls : List Line) : ∀ prev, (pushed prev ls).map (·.size) = ls.map (·.size) := by
  induction ls with
  | nil => intro _; rfl
  | cons l ls ih => intro prev; simp only [pushed]; split <;> simp [ih]

/-- The times of the frames that are not of type B. -/
def stamps (ls : List Line) : List Nat := (ls.filter fun l => !l.b).map fun l => l.time.toNat

/-- The time of the last frame that is not of type B. -/
def lastStamp (p : Nat) (ls : List Line) : Nat := (stamps ls).getLast?.getD p

theorem pushed_times (ls : List Line) : ∀ prev : UInt32, (prev.toNat :: stamps ls).Pairwise (· ≤ ·) →
    prev.toNat + ((pushed prev ls).map fun e => e.time.toNat).sum = lastStamp prev.toNat ls := by
  induction ls with
  | nil => intro prev _; simp [pushed, lastStamp, stamps]
  | cons l ls ih =>
    intro prev hs
    by_cases hb : l.b = true
    · have hst : stamps (l :: ls) = stamps ls := by simp [stamps, hb]
      have hp : pushed prev (l :: ls) = ⟨0, l.size⟩ :: pushed prev ls := by simp [pushed, hb]
      rw [hst] at hs
      have := ih prev hs
      rw [hp, lastStamp, hst]
      simpa [lastStamp] using this
    · have hst : stamps (l :: ls) = l.time.toNat :: stamps ls := by simp [stamps, hb]
      have hp : pushed prev (l :: ls) = ⟨l.time - prev, l.size⟩ :: pushed l.time ls := by simp [pushed, hb]
      rw [hst] at hs
      have hle : prev.toNat ≤ l.time.toNat := (List.pairwise_cons.1 hs).1 _ List.mem_cons_self
      have := ih l.time (List.pairwise_cons.1 hs).2
      have hsub : (l.time - prev).toNat = l.time.toNat - prev.toNat := UInt32.toNat_sub_of_le _ _ (UInt32.le_iff_toNat_le.2 hle)
      rw [hp, lastStamp, hst]
      simp only [List.map_cons, List.sum_cons, hsub]
      have hl : (l.time.toNat :: stamps ls).getLast?.getD prev.toNat = lastStamp l.time.toNat ls := by
        rw [lastStamp, List.getLast?_cons]
        rfl
      rw [hl, ← this]
      omega

/-- **C96 is violated**: the last line of a file that ends with a newline is loaded twice; an empty file gives a frame that was never
initialised; and asking for the default trace appends it to the trace that is loaded. -/
theorem C96_load_violated :
    (∀ (junk : Line) (f : File) (max : UInt32), f.lines ≠ [] → f.eol = true →
      (Trace.new junk (some (some f)) max).entries.length = f.lines.length + 1) ∧
    (∀ (junk : Line) (eol : Bool) (max : UInt32),
      (Trace.new junk (some (some ⟨[], eol⟩)) max).entries.map (·.size) = [junk.size]) ∧
    (∀ s : Trace, s.loadDefault.entries = s.entries ++ (Trace.new ⟨false, 0, 0⟩ none 1024).entries) := by
  have hlen : ∀ ls prev, (pushed prev ls).length = ls.length := fun ls prev => by
    have := congrArg List.length (pushed_size ls prev); simpa using this
  refine ⟨?_, ?_, fun s => rfl⟩
  · intro junk f max hne heol
    have hgl : f.lines.getLast? = some (f.lines.getLast hne) := List.getLast?_eq_some_getLast hne
    have hs : f.seen junk = f.lines ++ [f.lines.getLast hne] := by
      unfold File.seen
      rw [hgl]
      simp [heol]
    simp only [Trace.new, Trace.load, hs, hlen, List.length_append, List.length_singleton]
  · intro junk eol max
    simp only [Trace.new, Trace.load, File.seen, List.getLast?_nil, pushed_size, List.map_cons, List.map_nil]

/-- **C96, what holds**: a file that does not end with white space is loaded with one frame for every line, and one that does with one
more, of the size of the last line; a file that cannot be opened gives the default trace.  If the times do not decrease, the times
to wait add up to the time of the last frame that is not of type B. -/
theorem C96_load_partial (junk : Line) (f : File) (max : UInt32) (hne : f.lines ≠ []) :
    (f.eol = false → Faithful f (Trace.new junk (some (some f)) max).entries) ∧
    (f.eol = true → (Trace.new junk (some (some f)) max).entries.map (·.size) =
      f.lines.map (·.size) ++ [(f.lines.getLast hne).size]) ∧
    (Trace.new junk (some none) max).entries = (Trace.new junk none max).entries ∧
    ((stamps f.lines).Pairwise (· ≤ ·) →
      ((Trace.new junk (some (some f)) max).entries.map fun e => e.time.toNat).sum = lastStamp 0 f.lines) := by
  have hgl : f.lines.getLast? = some (f.lines.getLast hne) := List.getLast?_eq_some_getLast hne
  have hs : f.seen junk = if f.eol then f.lines ++ [f.lines.getLast hne] else f.lines := by
    unfold File.seen
    rw [hgl]
  refine ⟨?_, ?_, rfl, ?_⟩
  · intro he
    simp only [Faithful, Trace.new, Trace.load, hs, he, pushed_size]
    rfl
  · intro he
    simp only [Trace.new, Trace.load, hs, he, pushed_size, if_true, List.map_append, List.map_cons, List.map_nil]
  · intro hp
    have h0 : ∀ ls : List Line, (stamps ls).Pairwise (· ≤ ·) → ((pushed 0 ls).map fun e => e.time.toNat).sum = lastStamp 0 ls := by
      intro ls hls
      have := pushed_times ls 0 (List.pairwise_cons.2 ⟨by simp, hls⟩)
      simpa using this
    simp only [Trace.new, Trace.load, hs]
    cases f.eol with
    | false => simpa using h0 f.lines hp
    | true =>
      simp only [if_true]
      obtain ⟨ini, hini⟩ : ∃ ini, f.lines = ini ++ [f.lines.getLast hne] := ⟨_, (List.dropLast_append_getLast hne).symm⟩
      generalize f.lines.getLast hne = x at *
      have hst : stamps (f.lines ++ [x]) = stamps f.lines ++ stamps [x] := by simp [stamps]
      have hst' : stamps f.lines = stamps ini ++ stamps [x] := by rw [hini]; simp [stamps]
      have hls : lastStamp 0 (f.lines ++ [x]) = lastStamp 0 f.lines := by
        unfold lastStamp
        rw [hst]
        by_cases hb : x.b = true
        · simp [stamps, hb]
        · rw [hst']; simp [stamps, hb]
      rw [← hls]
      apply h0
      rw [hst]
      by_cases hb : x.b = true
      · simpa [stamps, hb] using hp
      · rw [hst'] at hp ⊢
        rw [List.pairwise_append] at hp ⊢
        refine ⟨List.pairwise_append.2 hp, by simp [stamps, hb], ?_⟩
        intro a ha b hb'
        rw [List.mem_append] at ha
        rcases ha with ha | ha
        · exact hp.2.2 a ha b hb'
        · simp [stamps, hb] at ha hb'
          omega

example : (Trace.new ⟨false, 0, 0⟩ (some (some ⟨[⟨false, 10, 5⟩, ⟨true, 30, 6⟩, ⟨false, 25, 7⟩], false⟩)) 1024).entries =
    [⟨10, 5⟩, ⟨0, 6⟩, ⟨15, 7⟩] := by decide

/-! ## C67: the traffic generator -/

/-- **C67 is violated**: the index in the container is compared with the id of the node.  Whenever the node is at an index of the
container other than its id, a draw of that index sends a packet to the node itself; for instance if the generators are installed
on two nodes of which the first has id 1.  And if the container is just the node with id 0, no draw ends the search. -/
theorem C67_self_violated :
    (∀ (me i : Nat) (nodes is : List Nat), nodes[i]? = some me → i ≠ me → generate me nodes (i :: is) = some me) ∧
    generate 1 [1, 2] [0] = some 1 ∧
    (∀ draws : List Nat, (∀ i ∈ draws, i < [0].length) → generate 0 [0] draws = none) := by
  refine ⟨?_, by decide, ?_⟩
  · intro me i nodes is h hne
    simp only [generate, hne, if_false, h]
  · intro draws h
    induction draws with
    | nil => rfl
    | cons i is ih =>
      have hi : i = 0 := by have := h i List.mem_cons_self; simpa using this
      subst hi
      simp only [generate, if_true]
      exact ih (fun j hj => h j (List.mem_cons_of_mem _ hj))

/-- **C67, what holds**: if every node of the container has its index as id, then the destination is a node of the container and not
the node itself, it is the node of the first draw that is not the node itself, every other node can be drawn, and the search ends
as soon as such a draw occurs. -/
theorem C67_self_partial (me : Nat) (nodes : List Nat) (hid : ∀ i, i < nodes.length → nodes[i]? = some i) (draws : List Nat)
    (hd : ∀ i ∈ draws, i < nodes.length) :
    (∀ d, generate me nodes draws = some d → d ≠ me ∧ d ∈ nodes) ∧
    generate me nodes draws = (draws.filter (· ≠ me)).head? ∧
    (∀ j, j ≠ me → j ∈ nodes → ∃ i, i < nodes.length ∧ generate me nodes [i] = some j) := by
  have h2 : ∀ draws : List Nat, (∀ i ∈ draws, i < nodes.length) → generate me nodes draws = (draws.filter (· ≠ me)).head? := by
    intro draws
    induction draws with
    | nil => intro _; rfl
    | cons i is ih =>
      intro h
      have ih := ih (fun j hj => h j (List.mem_cons_of_mem _ hj))
      by_cases hi : i = me
      · simp [generate, hi, ih]
      · simp [generate, hi, hid i (h i List.mem_cons_self)]
  refine ⟨?_, h2 draws hd, ?_⟩
  · intro d h
    rw [h2 draws hd] at h
    have hm := List.mem_of_head? h
    rw [List.mem_filter] at hm
    obtain ⟨h3, h4⟩ := hm
    exact ⟨by simpa using h4, List.mem_of_getElem? (hid d (hd d h3))⟩
  · intro j hj hm
    obtain ⟨i, hi, rfl⟩ := List.getElem_of_mem hm
    have := hid i hi
    rw [List.getElem?_eq_getElem hi] at this
    injection this with this
    refine ⟨i, hi, ?_⟩
    rw [this] at hj ⊢
    simp [generate, hj, hid i hi]

example : (∀ i, i < [0, 1, 2].length → [0, 1, 2][i]? = some i) ∧ generate 1 [0, 1, 2] [1, 1, 2, 0] = some 2 := by
  refine ⟨?_, by decide⟩
  intro i hi
  have : i = 0 ∨ i = 1 ∨ i = 2 := by simp at hi; omega
  rcases this with rfl | rfl | rfl <;> rfl

end Thz.Apps
