import Verif.MacroNet

/-!
# C98, C99: end-to-end properties of a network of macro MACs
-/

namespace Thz.Macro

open Thz
open Thz.Nano (Body Kind bcast)
open scoped List

/-! ## Specification vocabulary -/

/-- No restriction on histories. -/
def anyHistory : Mac48 → St → Op → Prop := fun _ _ _ => True

/-- What was passed up from `a`, oldest first: content, destination address and number. -/
def deliveries (a : Mac48) (log : List Obs) : List (Body × Mac48 × UInt16) :=
  log.filterMap fun o => match o with
    | .up b src dst q => if src = a then some (b, dst, q) else none
    | _ => none

/-- What was accepted for `b` or for broadcast, oldest first. -/
def acceptedFor (b : Mac48) (log : List Obs) : List (Body × Mac48 × UInt16) :=
  log.filterMap fun o => match o with
    | .accepted p => if p.dst = b ∨ p.dst = bcast then some (p.body, p.dst, p.seq) else none
    | _ => none

/-! ## Two nodes, for examples -/

/-- The network in which only A and B have done anything. -/
def two (s0 : Mac48 → UInt16) (sa sb : St) : Net := fun x => if x = exA then sa else if x = exB then sb else init (s0 x)

/-- Run both nodes: `true` is A. -/
def runTwo (c : Cfg) : St × St → List (Bool × Op) → St × St
  | s, [] => s
  | s, (true, o) :: l => runTwo c (step c exA s.1 o, s.2) l
  | s, (false, o) :: l => runTwo c (s.1, step c exB s.2 o) l

/-- A frame received intact was sent by one of them. -/
def okOp (s : St × St) : Op → Bool
  | .rxDone f true _ => decide (Obs.handed f ∈ s.1.log) || decide (Obs.handed f ∈ s.2.log)
  | _ => true

/-- Every frame received intact was sent by one of them, every operation respects its node's simulated time and passes the test
`t`. -/
def okTwo (t : Mac48 → St → Op → Bool) (c : Cfg) : St × St → List (Bool × Op) → Bool
  | _, [] => true
  | s, (true, o) :: l => okOp s o && timelyOp s.1 o && t exA s.1 o && okTwo t c (step c exA s.1 o, s.2) l
  | s, (false, o) :: l => okOp s o && timelyOp s.2 o && t exB s.2 o && okTwo t c (s.1, step c exB s.2 o) l

theorem okOp_allowed {s0 : Mac48 → UInt16} {s : St × St} {o : Op} (h : okOp s o = true) : Allowed (two s0 s.1 s.2) o := by
  cases o with
  | rxDone f ok g =>
    cases ok with
    | false => trivial
    | true =>
      simp only [okOp, Bool.or_eq_true, decide_eq_true_eq] at h
      rcases h with h | h
      · exact ⟨exA, by simpa [two] using h⟩
      · exact ⟨exB, by simpa [two, show exB ≠ exA by decide] using h⟩
  | _ => trivial

theorem two_updA (s0 : Mac48 → UInt16) (sa sb x : St) : Function.update (two s0 sa sb) exA x = two s0 x sb := by
  funext y
  by_cases h : y = exA
  · subst h; rw [Function.update_self]; simp [two]
  · rw [Function.update_of_ne h]; simp [two, h]

theorem two_updB (s0 : Mac48 → UInt16) (sa sb x : St) : Function.update (two s0 sa sb) exB x = two s0 sa x := by
  funext y
  by_cases h : y = exB
  · subst h; rw [Function.update_self]; simp [two, show exB ≠ exA by decide]
  · rw [Function.update_of_ne h]; simp [two, h]

theorem two_A (s0 : Mac48 → UInt16) (sa sb : St) : two s0 sa sb exA = sa := by simp [two]

theorem two_B (s0 : Mac48 → UInt16) (sa sb : St) : two s0 sa sb exB = sb := by simp [two, show exB ≠ exA by decide]

theorem reach_two {Lim : Mac48 → St → Op → Prop} {t : Mac48 → St → Op → Bool} (ht : ∀ a s o, t a s o = true → Lim a s o)
    (c : Cfg) (s0 : Mac48 → UInt16) (l : List (Bool × Op)) : ∀ s : St × St,
    Reach (fun _ => c) s0 Lim (two s0 s.1 s.2) → okTwo t c s l = true →
    Reach (fun _ => c) s0 Lim (two s0 (runTwo c s l).1 (runTwo c s l).2) := by
  induction l with
  | nil => intro s h _; exact h
  | cons x l ih =>
    intro s h hok
    obtain ⟨b, o⟩ := x
    cases b
    · simp only [okTwo, Bool.and_eq_true] at hok
      have h2 := Reach.step exB o h (by decide) (okOp_allowed hok.1.1.1) (by rw [two_B]; exact ht _ _ _ hok.1.2)
      rw [two_updB, two_B] at h2
      exact ih _ h2 hok.2
    · simp only [okTwo, Bool.and_eq_true] at hok
      have h2 := Reach.step exA o h (by decide) (okOp_allowed hok.1.1.1) (by rw [two_A]; exact ht _ _ _ hok.1.2)
      rw [two_updA, two_A] at h2
      exact ih _ h2 hok.2

theorem two_init (s0 : Mac48 → UInt16) : two s0 (init (s0 exA)) (init (s0 exB)) = fun a => init (s0 a) := by
  funext y
  unfold two
  split
  · rename_i h; rw [h]
  · split
    · rename_i h; rw [h]
    · rfl

/-- The network after a run of A and B from the start; A's counter starts at `q`, all others at 0. -/
def exNet (c : Cfg) (q : UInt16) (l : List (Bool × Op)) : Net :=
  two (fun x => if x = exA then q else 0) (runTwo c (init q, init 0) l).1 (runTwo c (init q, init 0) l).2

theorem reach_exNet {Lim : Mac48 → St → Op → Prop} {t : Mac48 → St → Op → Bool} (ht : ∀ a s o, t a s o = true → Lim a s o)
    (c : Cfg) (q : UInt16) (l : List (Bool × Op)) (h : okTwo t c (init q, init 0) l = true) :
    Reach (fun _ => c) (fun x => if x = exA then q else 0) Lim (exNet c q l) := by
  refine reach_two ht c _ l _ ?_ h
  have := two_init (fun x => if x = exA then q else 0)
  simp only [if_true, show exB ≠ exA by decide, if_false] at this
  rw [this]
  exact .init

theorem exNet_A (c : Cfg) (q : UInt16) (l : List (Bool × Op)) : exNet c q l exA = (runTwo c (init q, init 0) l).1 := two_A _ _ _
theorem exNet_B (c : Cfg) (q : UInt16) (l : List (Bool × Op)) : exNet c q l exB = (runTwo c (init q, init 0) l).2 := two_B _ _ _

theorem exNet_noWrap (c : Cfg) (q : UInt16) (l : List (Bool × Op))
    (hA : q.toNat + numAccepted (runTwo c (init q, init 0) l).1.log ≤ 65535)
    (hB : numAccepted (runTwo c (init q, init 0) l).2.log ≤ 65535) :
    NoWrap (fun x => if x = exA then q else 0) (exNet c q l) := by
  intro a
  by_cases h : a = exA
  · subst h; rw [exNet_A]; simpa using hA
  · by_cases h' : a = exB
    · subst h'; rw [exNet_B]; simpa [h] using hB
    · show _ + numAccepted (two _ _ _ a).log ≤ _
      simp only [two, h, h', if_false]
      exact Nat.zero_le _

def onA (l : List Op) : List (Bool × Op) := l.map (fun o => (true, o))
def onB (l : List Op) : List (Bool × Op) := l.map (fun o => (false, o))

/-- The test for `NotLate`. -/
def notLateB (me : Mac48) (s : St) : Op → Bool
  | .rxDone f true _ => !(f.kind = .cts && f.dst = me) || s.log.all (fun o => match o with | .done _ p => p.seq ≠ f.seq | _ => true)
  | _ => true

theorem notLateB_spec (me : Mac48) (s : St) (o : Op) (h : notLateB me s o = true) : NotLate me s o := by
  rintro f g rfl hk hd ok p hp
  simp only [notLateB, hk, hd, decide_true, Bool.and_self, Bool.not_true, Bool.false_or, List.all_eq_true] at h
  simpa using h _ hp

/-! ## C98 -/

/-- The second, third and fourth packet's content. -/
def exBody2 : Body := ⟨8, 15000⟩
def exBody3 : Body := ⟨9, 15000⟩

/-- A's counter starts at 65534, RTS is off: A sends a packet with number 65535, then one with number 0. -/
def wrapRun : List (Bool × Op) :=
  onA ([.enqueue exBody exB 0] ++ fires [0, 1, 2] ++ [.enqueue exBody2 exB 0] ++ fires [5]) ++
  onB [.advance 810101, .rxStart] ++ onA (fires [3]) ++
  onB ([.advance 811945, .rxDone (dataFrame exA ⟨0, 65535, exB, 0, exBody⟩) true 0] ++ fires [0, 1]) ++
  onA ([.advance 200, .rxStart, .advance 1081, .rxDone (exAck 65535) true 0] ++ fires [7, 8, 6, 9, 10] ++
    [.enqueue exBody3 exB 0] ++ fires [13]) ++
  onB [.advance 881973, .rxStart] ++ onA (fires [11]) ++
  onB ([.advance 811945, .rxDone (dataFrame exA ⟨1, 0, exB, 0, exBody2⟩) true 0] ++ fires [2, 3]) ++
  onA ([.advance 200, .rxStart, .advance 1081, .rxDone (exAck 0) true 0] ++ fires [15])

/-- The counter is never initialised.  If it starts at 65534 the second packet has number 0, the receiver's filter takes it for
an old one, acknowledges it all the same, and the sender reports success: B passed up the first packet only. -/
theorem C98_wrap_violated : ∃ n, Reach (fun _ => exCfg false 5) (fun x => if x = exA then 65534 else 0) anyHistory n ∧
    Obs.done true ⟨1, 0, exB, 0, exBody2⟩ ∈ (n exA).log ∧ deliveries exA (n exB).log = [(exBody, exB, 65535)] ∧
    (n exA).ub = false ∧ (n exB).ub = false := by
  refine ⟨exNet (exCfg false 5) 65534 wrapRun, reach_exNet (t := fun _ _ _ => true) (fun _ _ _ _ => trivial) _ _ _ (by decide +kernel), ?_⟩
  rw [exNet_A, exNet_B]
  refine ⟨by decide +kernel, by decide +kernel, by decide +kernel, by decide +kernel⟩

/-- RTS is on.  A gives the first packet up; the CTS for it arrives after the discard and releases the third packet's DATA frame,
which overtakes the second packet; the second packet is then rejected by B's filter, but acknowledged. -/
def lateRun : List (Bool × Op) :=
  onA ([.enqueue exBody exB 0] ++ fires (List.range 22) ++ [.advance 10000, .enqueue exBody2 exB 0] ++
    fires [23, 24, 22, 26, 25, 28]) ++
  onB ([.advance 7628930, .rxStart, .advance 1081, .rxDone (rtsFrame exA exP1) true 35] ++ fires [0, 1]) ++
  onA (fires [27, 30, 31] ++ [.enqueue exBody3 exB 0] ++ fires [32] ++
    [.advance 3099, .rxStart, .advance 1189, .rxDone (exCts 1) true 0] ++ fires [34] ++ [.enqueue exBody exB 0] ++ fires [37, 33]) ++
  onB [.advance 66001, .rxStart] ++ onA (fires [35]) ++
  onB ([.advance 811945, .rxDone (dataFrame exA ⟨2, 3, exB, 0, exBody3⟩) true 0] ++ fires [2, 3]) ++
  onA ([.advance 66000, .rxStart, .advance 1081, .rxDone (exAck 3) true 0] ++ fires [39, 40, 38, 41, 42, 43]) ++
  onB ([.advance 882772, .rxStart, .advance 1081, .rxDone (rtsFrame exA ⟨1, 2, exB, 0, exBody2⟩) true 35] ++ fires [4, 5]) ++
  onA ([.advance 66001, .rxStart, .advance 1189, .rxDone (exCts 2) true 0] ++ fires [46, 45, 47]) ++
  onB ([.advance 66001, .rxStart, .advance 811945, .rxDone (dataFrame exA ⟨1, 2, exB, 0, exBody2⟩) true 0] ++ fires [6, 7]) ++
  onA ([.advance 66000, .rxStart, .advance 1081, .rxDone (exAck 2) true 0] ++ fires [50])

/-- Both nodes' clocks agree in this run: every frame takes 33 microseconds to reach the other node. -/
theorem C98_late_cts_violated : ∃ n, Reach (fun _ => exCfg true 5) (fun x => if x = exA then 0 else 0) anyHistory n ∧
    NoWrap (fun x => if x = exA then 0 else 0) n ∧
    Obs.done true ⟨1, 2, exB, 0, exBody2⟩ ∈ (n exA).log ∧ (∀ k, Obs.timedOut ⟨1, 2, exB, 0, exBody2⟩ k ∉ (n exA).log) ∧
    deliveries exA (n exB).log = [(exBody3, exB, 3)] ∧ (n exA).ub = false ∧ (n exB).ub = false := by
  refine ⟨exNet (exCfg true 5) 0 lateRun, reach_exNet (t := fun _ _ _ => true) (fun _ _ _ _ => trivial) _ _ _ (by decide +kernel),
    exNet_noWrap _ _ _ (by decide +kernel) (by decide +kernel), ?_⟩
  rw [exNet_A, exNet_B]
  refine ⟨by decide +kernel, ?_, by decide +kernel, by decide +kernel, by decide +kernel⟩
  intro k hk
  have : (runTwo (exCfg true 5) (init 0, init 0) lateRun).1.log.all (fun o => match o with
      | .timedOut p _ => p.seq ≠ 2
      | _ => true) = true := by decide +kernel
  have := List.all_eq_true.1 this _ hk
  simp at this

variable {cfg : Mac48 → Cfg} {s0 : Mac48 → UInt16} {Lim : Mac48 → St → Op → Prop}

theorem count_ups (x : Body) (a d : Mac48) (q : UInt16) (l : List Obs) :
    l.count (.up x a d q) ≤ (upsFrom a l).count q := by
  unfold upsFrom
  induction l with
  | nil => exact le_refl _
  | cons o l ih =>
    rw [List.filterMap_cons, List.count_cons]
    cases o with
    | up b src dst r =>
      by_cases hs : src = a
      · subst hs
        simp only [if_true, List.count_cons]
        by_cases hq : r = q
        · subst hq
          have : (if (Obs.up b src dst r == Obs.up x src d r) = true then 1 else 0) ≤ 1 := by
            split_ifs <;> omega
          simp only [beq_self_eq_true, if_true]
          omega
        · simpa [hq] using ih
      · simpa [hs] using ih
    | _ => simpa using ih

/-- What was passed up from `a` is one of `a`'s accepted packets. -/
theorem up_accepted {n : Net} (hi : NetInv cfg s0 n) {a b : Mac48} {x : Body} {d : Mac48} {q : UInt16}
    (h : Obs.up x a d q ∈ (n b).log) : (d = b ∨ d = bcast) ∧
    ∃ p, Obs.accepted p ∈ (n a).log ∧ p.dst = d ∧ p.seq = q ∧ p.body = x := by
  obtain ⟨f, h1, h2, h3, h4, h5, h6, h7⟩ := (hi.hand b).up x a d q h
  refine ⟨h3, ?_⟩
  have h8 := hi.rx b f h1
  rw [h4] at h8
  obtain ⟨p, hp, e⟩ := (hi.out a).data f h8 h2
  exact ⟨p, hp, by rw [← h5, e]; rfl, by rw [← h6, e]; rfl, by rw [← h7, e]; rfl⟩

theorem delivered_once {n : Net} (hi : NetInv cfg s0 n) (hw : NoWrap s0 n) {a : Mac48} {p : Pkt}
    (hacc : Obs.accepted p ∈ (n a).log) (hup : p.seq ∈ upsFrom a (n p.dst).log) :
    (n p.dst).log.count (.up p.body a p.dst p.seq) = 1 ∧
      ∀ x d, Obs.up x a d p.seq ∈ (n p.dst).log → x = p.body ∧ d = p.dst := by
  have huniq : ∀ x d, Obs.up x a d p.seq ∈ (n p.dst).log → x = p.body ∧ d = p.dst := by
    intro x d hx
    obtain ⟨-, r, hr, hrd, hrs, hrb⟩ := up_accepted hi hx
    have e := acc_inj hi hw hr hacc hrs
    rw [← e]; exact ⟨hrb.symm, hrd.symm⟩
  refine ⟨?_, huniq⟩
  obtain ⟨x, d, hx⟩ := mem_upsFrom.1 hup
  obtain ⟨rfl, rfl⟩ := huniq x d hx
  have hnd : (upsFrom a (n p.dst).log).Nodup := (hi.upi p.dst a).1.imp (fun {x y} (h : x < y) => by
    rintro rfl; rw [UInt16.lt_iff_toNat_lt] at h; omega)
  have h2 := List.count_pos_iff.mpr hx
  have h3 := count_ups p.body a p.dst p.seq (n p.dst).log
  have h4 := List.nodup_iff_count.1 hnd p.seq
  omega

theorem done_accepted {n : Net} (hi : NetInv cfg s0 n) {a : Mac48} {ok : Bool} {p : Pkt} (hp : Obs.done ok p ∈ (n a).log) :
    Obs.accepted p ∈ (n a).log :=
  ((hi.pk a).doneGone ok p hp).1

/-- **C98.** A unicast packet the sender reports as successful, and whose timeouts did not reach five, was passed up by its
destination, once and unaltered.  Missing from the full claim, see the two `violated` theorems: the sequence counters do not wrap
(`NoWrap`), and no CTS is received for a packet already reported (`NotLate`). -/
theorem C98_success_means_delivered_once_partial (cfg : Mac48 → Cfg) (s0 : Mac48 → UInt16) (n : Net)
    (h : Reach cfg s0 NotLate n) (hw : NoWrap s0 n) (a : Mac48) (p : Pkt) (hp : Obs.done true p ∈ (n a).log)
    (hd : p.dst ≠ bcast) (hto : ∀ k, Obs.timedOut p k ∈ (n a).log → k < 5) :
    (n p.dst).log.count (.up p.body a p.dst p.seq) = 1 ∧
      ∀ x d, Obs.up x a d p.seq ∈ (n p.dst).log → x = p.body ∧ d = p.dst := by
  refine delivered_once h.inv hw (done_accepted h.inv hp) ?_
  rcases h.succ hw a p hp hd with ⟨k, h1, h2⟩ | h1
  · exact absurd (hto k h1) (UInt16.not_lt.2 h2)
  · exact h1

/-- Without RTS no node ever sends a CTS. -/
theorem no_cts {n : Net} (hi : NetInv cfg s0 n) (hr : ∀ a, (cfg a).rts = false) {a : Mac48} {f : Frame}
    (hf : Obs.handed f ∈ (n a).log) : f.kind ≠ .cts := by
  intro hk
  obtain ⟨g, h1, h2, -⟩ := (hi.hand a).cts f hf hk
  have := (hi.hand g.src).rts g (hi.rx a g h1) h2
  rw [hr] at this
  exact absurd this (by decide)

theorem Reach.noRts {n : Net} (h : Reach cfg s0 Lim n) (hr : ∀ a, (cfg a).rts = false) : Reach cfg s0 NotLate n := by
  induction h with
  | init => exact .init
  | @step n a op hn ha hop hlim ih =>
    refine .step a op ih ha hop ?_
    rintro f g rfl hk
    obtain ⟨b, hb⟩ := hop
    exact absurd hk (no_cts ih.inv hr hb)

/-- **C98**, RTS off everywhere: no restriction on the history other than the counters. -/
theorem C98_without_rts_partial (cfg : Mac48 → Cfg) (s0 : Mac48 → UInt16) (n : Net)
    (h : Reach cfg s0 anyHistory n) (hrts : ∀ a, (cfg a).rts = false) (hw : NoWrap s0 n) (a : Mac48) (p : Pkt)
    (hp : Obs.done true p ∈ (n a).log) (hd : p.dst ≠ bcast) (hto : ∀ k, Obs.timedOut p k ∈ (n a).log → k < 5) :
    (n p.dst).log.count (.up p.body a p.dst p.seq) = 1 ∧
      ∀ x d, Obs.up x a d p.seq ∈ (n p.dst).log → x = p.body ∧ d = p.dst :=
  C98_success_means_delivered_once_partial cfg s0 n (h.noRts hrts) hw a p hp hd hto

/-- With RTS, every frame arriving after 100 ns: RTS, CTS, DATA, ACK. -/
def rtsRun : List (Bool × Op) :=
  onA ([.enqueue exBody exB 0] ++ fires [0, 1, 2, 3]) ++
  onB ([.advance 810101, .rxStart, .advance 1081, .rxDone (rtsFrame exA exP1) true 35] ++ fires [0, 1]) ++
  onA ([.advance 201, .rxStart, .advance 1189, .rxDone (exCts 1) true 0] ++ fires [6, 5, 7]) ++
  onB ([.advance 201, .rxStart, .advance 811945, .rxDone (dataFrame exA exP1) true 0] ++ fires [2, 3]) ++
  onA ([.advance 200, .rxStart, .advance 1081, .rxDone (exAck 1) true 0] ++ fires [10])

/-- The hypotheses of C98 are met after this run. -/
example : ∃ n, Reach (fun _ => exCfg true 5) (fun x => if x = exA then 0 else 0) NotLate n ∧
    NoWrap (fun x => if x = exA then 0 else 0) n ∧ Obs.done true exP1 ∈ (n exA).log ∧ exP1.dst ≠ bcast ∧
    (∀ k, Obs.timedOut exP1 k ∈ (n exA).log → k < 5) ∧ (n exB).log.count (.up exBody exA exB 1) = 1 := by
  refine ⟨exNet (exCfg true 5) 0 rtsRun, reach_exNet notLateB_spec _ _ _ (by decide +kernel),
    exNet_noWrap _ _ _ (by decide +kernel) (by decide +kernel), ?_⟩
  rw [exNet_A, exNet_B]
  refine ⟨by decide +kernel, by decide, ?_, by decide +kernel⟩
  intro k hk
  have : (runTwo (exCfg true 5) (init 0, init 0) rtsRun).1.log.all (fun o => match o with
      | .timedOut _ _ => false
      | _ => true) = true := by decide +kernel
  exact absurd (List.all_eq_true.1 this _ hk) (by simp)

/-- Those of the version without RTS are met by the run in which two packets are sent, started with a counter that does not
wrap. -/
def dataRun : List (Bool × Op) :=
  onA ([.enqueue exBody exB 0] ++ fires [0, 1, 2] ++ [.enqueue exBody2 exB 0] ++ fires [5]) ++
  onB [.advance 810101, .rxStart] ++ onA (fires [3]) ++
  onB ([.advance 811945, .rxDone (dataFrame exA ⟨0, 1, exB, 0, exBody⟩) true 0] ++ fires [0, 1]) ++
  onA ([.advance 200, .rxStart, .advance 1081, .rxDone (exAck 1) true 0] ++ fires [7, 8, 6, 9, 10] ++
    [.enqueue exBody3 exB 0] ++ fires [13]) ++
  onB [.advance 881973, .rxStart] ++ onA (fires [11]) ++
  onB ([.advance 811945, .rxDone (dataFrame exA ⟨1, 2, exB, 0, exBody2⟩) true 0] ++ fires [2, 3]) ++
  onA ([.advance 200, .rxStart, .advance 1081, .rxDone (exAck 2) true 0] ++ fires [15])

example : ∃ n, Reach (fun _ => exCfg false 5) (fun x => if x = exA then 0 else 0) anyHistory n ∧
    NoWrap (fun x => if x = exA then 0 else 0) n ∧ Obs.done true ⟨1, 2, exB, 0, exBody2⟩ ∈ (n exA).log ∧
    (∀ k, Obs.timedOut ⟨1, 2, exB, 0, exBody2⟩ k ∈ (n exA).log → k < 5) ∧
    deliveries exA (n exB).log = [(exBody, exB, 1), (exBody2, exB, 2)] ∧
    acceptedFor exB (n exA).log = [(exBody, exB, 1), (exBody2, exB, 2), (exBody3, exB, 3)] := by
  refine ⟨exNet (exCfg false 5) 0 dataRun, reach_exNet (t := fun _ _ _ => true) (fun _ _ _ _ => trivial) _ _ _ (by decide +kernel),
    exNet_noWrap _ _ _ (by decide +kernel) (by decide +kernel), ?_⟩
  rw [exNet_A, exNet_B]
  refine ⟨by decide +kernel, ?_, by decide +kernel, by decide +kernel⟩
  intro k hk
  have : (runTwo (exCfg false 5) (init 0, init 0) dataRun).1.log.all (fun o => match o with
      | .timedOut _ _ => false
      | _ => true) = true := by decide +kernel
  exact absurd (List.all_eq_true.1 this _ hk) (by simp)

/-! ## C99 -/

theorem deliveries_seq (a : Mac48) (log : List Obs) :
    (deliveries a log).map (fun x => x.2.2) = upsFrom a log := by
  unfold deliveries upsFrom
  induction log with
  | nil => rfl
  | cons o l ih =>
    simp only [List.filterMap_cons]
    cases o with
    | up b src dst q => by_cases h : src = a <;> simp [h, ih]
    | _ => simpa using ih

theorem mem_deliveries {a : Mac48} {log : List Obs} {x} : x ∈ deliveries a log ↔ .up x.1 a x.2.1 x.2.2 ∈ log := by
  unfold deliveries
  rw [List.mem_filterMap]
  constructor
  · rintro ⟨o, ho, h⟩
    cases o <;> simp at h
    obtain ⟨rfl, rfl⟩ := h
    exact ho
  · intro h
    exact ⟨_, h, by simp⟩

/-- The accepted packets, oldest first. -/
def accs (log : List Obs) : List Pkt :=
  log.filterMap fun o => match o with
    | .accepted p => some p
    | _ => none

theorem mem_accs {log : List Obs} {p : Pkt} : p ∈ accs log ↔ Obs.accepted p ∈ log := by
  unfold accs
  rw [List.mem_filterMap]
  constructor
  · rintro ⟨o, ho, h⟩
    cases o <;> simp at h
    rw [← h]; exact ho
  · intro h
    exact ⟨_, h, rfl⟩

theorem accs_append (l m : List Obs) : accs (l ++ m) = accs l ++ accs m := List.filterMap_append

theorem accs_neutral {l : List Obs} (h : ∀ o ∈ l, Neutral o) : accs l = [] := by
  unfold accs
  rw [List.filterMap_eq_nil_iff]
  intro o ho
  have := h o ho
  cases o <;> first | rfl | exact this.elim

theorem accs_uids (c : Cfg) (me : Mac48) (seq0 : UInt16) (ops : List Op) :
    (accs (after c me seq0 ops).log).map (·.uid) = List.range (after c me seq0 ops).nextUid :=
  inv_after (I := fun v => (accs v.log).map (·.uid) = List.range v.nextUid) c me seq0 rfl (fun v w _ i h => by
    cases h.eff with
    | silent l _ _ hu _ hl hn => rw [hl, hu, accs_append, accs_neutral hn, List.append_nil]; exact i
    | accept b dst g t _ _ hu _ hl => rw [hl, hu, accs_append, List.map_append, i, List.range_succ]; rfl
    | settle ok pre r rest _ _ _ _ hu _ hl => rw [hl, hu, accs_append]; simpa [accs] using i
    | charge pre r rest _ _ _ _ _ hu _ hl => rw [hl, hu, accs_append]; simpa [accs] using i
    | giveUp pre r rest _ _ _ _ _ hu _ hl => rw [hl, hu, accs_append]; simpa [accs] using i) ops

theorem acceptedFor_eq (b : Mac48) (log : List Obs) : acceptedFor b log =
    ((accs log).filter (fun p => p.dst = b ∨ p.dst = bcast)).map (fun p => (p.body, p.dst, p.seq)) := by
  unfold acceptedFor accs
  induction log with
  | nil => rfl
  | cons o l ih =>
    simp only [List.filterMap_cons]
    cases o with
    | accepted p => by_cases h : p.dst = b ∨ p.dst = bcast <;> simp [h, ih]
    | _ => simpa using ih

/-- Sorted and contained: a subsequence. -/
theorem sublist_of_sorted : ∀ (l2 l1 : List (Body × Mac48 × UInt16)), l1.Pairwise (fun x y => x.2.2 < y.2.2) →
    l2.Pairwise (fun x y => x.2.2 < y.2.2) → l1 ⊆ l2 → l1 <+ l2 := by
  have hirr : ∀ x : UInt16, ¬ x < x := fun x h => by rw [UInt16.lt_iff_toNat_lt] at h; omega
  intro l2
  induction l2 with
  | nil => intro l1 _ _ hs; rw [List.subset_nil.mp hs]; exact List.nil_sublist _
  | cons y l2 ih =>
    intro l1 p1 p2 hs
    cases l1 with
    | nil => exact List.nil_sublist _
    | cons x l1 =>
      have p1' := List.pairwise_cons.mp p1
      have p2' := List.pairwise_cons.mp p2
      by_cases hxy : x = y
      · subst hxy
        refine List.Sublist.cons_cons _ (ih l1 p1'.2 p2'.2 ?_)
        intro z hz
        rcases List.mem_cons.mp (hs (List.mem_cons_of_mem _ hz)) with rfl | h
        · exact absurd (p1'.1 z hz) (hirr _)
        · exact h
      · have hx : x ∈ l2 := by
          rcases List.mem_cons.mp (hs List.mem_cons_self) with h | h
          · exact absurd h hxy
          · exact h
        refine List.Sublist.cons _ (ih (x :: l1) p1 p2'.2 ?_)
        intro z hz
        rcases List.mem_cons.mp hz with rfl | hz'
        · exact hx
        · rcases List.mem_cons.mp (hs hz) with rfl | h
          · have h2 := p1'.1 z hz'
            have h3 := p2'.1 x hx
            rw [UInt16.lt_iff_toNat_lt] at h2 h3
            omega
          · exact h

/-- **C99.** In every reachable state of the network in which no counter has wrapped, what `b` passed up from `a` is, in order, a
subsequence of what `a` accepted for `b` or for broadcast, and contains nothing twice. -/
theorem C99_deliveries_in_order (cfg : Mac48 → Cfg) (s0 : Mac48 → UInt16) (n : Net) (h : Reach cfg s0 anyHistory n)
    (hw : NoWrap s0 n) (a b : Mac48) :
    deliveries a (n b).log <+ acceptedFor b (n a).log ∧ (deliveries a (n b).log).Nodup ∧
      (acceptedFor b (n a).log).Nodup := by
  have hi := h.inv
  have hirr : ∀ x : UInt16, ¬ x < x := fun x h => by rw [UInt16.lt_iff_toNat_lt] at h; omega
  have hsort : (deliveries a (n b).log).Pairwise (fun x y => x.2.2 < y.2.2) := by
    have : ((deliveries a (n b).log).map (fun x => x.2.2)).Pairwise (· < ·) := by
      rw [deliveries_seq]; exact (hi.upi b a).1
    rwa [List.pairwise_map] at this
  have hsort2 : (acceptedFor b (n a).log).Pairwise (fun x y => x.2.2 < y.2.2) := by
    rw [acceptedFor_eq, List.pairwise_map]
    have hu : (accs (n a).log).Pairwise (fun p q => p.uid < q.uid) := by
      have : ((accs (n a).log).map (·.uid)).Pairwise (· < ·) := by
        obtain ⟨ops, e⟩ := hi.node a
        rw [e, accs_uids]; exact List.pairwise_lt_range
      rwa [List.pairwise_map] at this
    refine (List.Pairwise.filter _ hu).imp_of_mem ?_
    intro p q hp hq hlt
    have h1 := acc_seq hi hw (mem_accs.1 (List.mem_filter.1 hp).1)
    have h2 := acc_seq hi hw (mem_accs.1 (List.mem_filter.1 hq).1)
    rw [UInt16.lt_iff_toNat_lt]; dsimp only; omega
  have hsubset : deliveries a (n b).log ⊆ acceptedFor b (n a).log := by
    intro x hx
    obtain ⟨hd, r, hr, hrd, hrs, hrb⟩ := up_accepted hi (mem_deliveries.mp hx)
    rw [acceptedFor_eq, List.mem_map]
    refine ⟨r, List.mem_filter.mpr ⟨mem_accs.2 hr, ?_⟩, by rw [hrd, hrs, hrb]⟩
    rw [hrd]; simpa using hd
  exact ⟨sublist_of_sorted _ _ hsort hsort2 hsubset, hsort.imp (fun {x y} h => by rintro rfl; exact hirr _ h),
    hsort2.imp (fun {x y} h => by rintro rfl; exact hirr _ h)⟩

end Thz.Macro
