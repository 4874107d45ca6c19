import Verif.ClientInv
import Mathlib.Data.List.Nodup

/-!
# The picosecond between giving a packet up and settling it

`CtsTimeout` and `AckTimeout` take a packet off the queue at once, but its record is removed only by the
`SendDataDone (false, ...)` that they schedule 1 ps later.
-/

namespace Thz.Client

open Thz Thz.Central
open Thz.Nano (Body Kind bcast)

variable {c : Cfg} {me : Mac48} {T : Prop} {K : Ev → Prop}

/-- The packet has an outcome. -/
def Settled (l : List Obs) (p : Pkt) : Prop := ∃ ok, Obs.done ok p ∈ l

theorem Settled.mono {l : List Obs} {p : Pkt} (h : Settled l p) (x : List Obs) : Settled (l ++ x) p := by
  obtain ⟨ok, h⟩ := h
  exact ⟨ok, List.mem_append_left _ h⟩

/-- A frame received after a packet was given up: the packet is settled, or no more than 1 ps has passed. -/
def Late (c : Cfg) (T : Prop) (l : List Obs) (o : Obs) : Prop :=
  ∀ t0 f, o = .rx t0 f → ∀ t p, Obs.gaveUp t p ∈ l → Settled l p ∨ (T → t0 ≤ t + c.ps 1)

/-- A packet that was given up is settled, or its settlement is pending. -/
structure GI (c : Cfg) (T : Prop) (v : V) : Prop where
  g : ∀ t p, Obs.gaveUp t p ∈ v.log → Settled v.log p ∨
    ∃ tid, (tid, t + c.ps 1, Ev.sendDataDone false p.seq) ∈ v.pend ∧ (T → v.now ≤ t + c.ps 1)
  h : Hist (Late c T) v.log

theorem GI.init (seq0 last0 : UInt16) : GI c T (init seq0 last0).v :=
  ⟨by simp [Client.init, St.v], Hist.nil _⟩

/-- Settlements stay pending in every micro-step but their own. -/
theorem keep_sdd {v w : V} (b : Basic c me v) (hk : ∀ q, ¬ K (.sendDataDone false q)) (h : Mi c me T K v w) {tid : Nat}
    {due : ℤ} {q : UInt16} (hm : (tid, due, Ev.sendDataDone false q) ∈ v.pend) (ht : T → v.now ≤ due) :
    (tid, due, Ev.sendDataDone false q) ∈ w.pend ∧ (T → w.now ≤ due) := by
  have other : ∀ t, (∀ e ∈ v.pend, e.1 = t → e.2.2 ≠ .sendDataDone false q) →
      (tid, due, Ev.sendDataDone false q) ∈ v.pend.filter (fun e => e.1 ≠ t) := by
    intro t h
    refine List.mem_filter.2 ⟨hm, ?_⟩
    simp only [ne_eq, decide_not, Bool.not_eq_eq_eq_not, Bool.not_true, decide_eq_false_iff_not]
    intro e
    exact h _ hm e rfl
  have uniq : ∀ e ∈ v.pend, ∀ e' ∈ v.pend, e.1 = e'.1 → e = e' := by
    intro e he e' he' hee
    exact List.inj_on_of_nodup_map b.tid he he' hee
  cases h with
  | tick d hd => exact ⟨hm, fun hT => hd hT _ hm⟩
  | pop t d e h1 h2 h3 h4 =>
    refine ⟨other t ?_, ?_⟩
    · intro e' he' het heq
      have := uniq _ he' _ h1 het
      rw [this] at heq
      simp only at heq
      exact hk q (heq ▸ h4)
    · intro hT
      have h5 := (h2 hT).2 _ hm
      have h6 := ht hT
      show max v.now d ≤ due
      simp only at h5
      omega
  | txEnd t d f h1 h2 =>
    refine ⟨other t ?_, ?_⟩
    · intro e' he' het heq
      have := uniq _ he' _ h1 het
      rw [this] at heq
      cases heq
    · intro hT
      have h5 := (h2 hT).2 _ hm
      have h6 := ht hT
      show max v.now d ≤ due
      simp only at h5
      omega
  | dropData t h1 =>
    refine ⟨other t ?_, ht⟩
    intro e he het heq
    obtain ⟨p, m, h2⟩ := (b.dataEv t h1).2 e he het
    rw [h2] at heq; cases heq
  | ackIn t q' h1 h2 =>
    refine ⟨List.mem_append_left _ (other t.tid ?_), ht⟩
    intro e he het heq
    have h3 := (b.ackEv t (List.mem_of_find?_eq_some h1)).2 e he het
    rw [h3] at heq; cases heq
  | handRts => exact ⟨List.mem_append_left _ hm, ht⟩
  | handData => exact ⟨List.mem_append_left _ (List.mem_append_left _ hm), ht⟩
  | settle => exact ⟨List.mem_append_left _ hm, ht⟩
  | giveUp => exact ⟨List.mem_append_left _ hm, ht⟩
  | planRts => exact ⟨List.mem_append_left _ hm, ht⟩
  | planDummy => exact ⟨List.mem_append_left _ hm, ht⟩
  | planData => exact ⟨List.mem_append_left _ hm, ht⟩
  | planData1 => exact ⟨List.mem_append_left _ hm, ht⟩
  | note => exact ⟨hm, ht⟩
  | rx => exact ⟨hm, ht⟩
  | accept => exact ⟨hm, ht⟩
  | charge => exact ⟨hm, ht⟩
  | life => exact ⟨hm, ht⟩
  | eraseAck => exact ⟨hm, ht⟩
  | answered => exact ⟨hm, ht⟩

theorem GI.mi {v w : V} (hps : 0 ≤ c.ps 1) (b : Basic c me v) (hk : ∀ q, ¬ K (.sendDataDone false q)) (i : GI c T v)
    (h : Mi c me T K v w) : GI c T w := by
  obtain ⟨x, hx⟩ := h.log
  have old : ∀ t p, Obs.gaveUp t p ∈ v.log → Settled w.log p ∨
      ∃ tid, (tid, t + c.ps 1, Ev.sendDataDone false p.seq) ∈ w.pend ∧ (T → w.now ≤ t + c.ps 1) := by
    intro t p hg
    rcases i.g t p hg with h1 | ⟨tid, h1, h2⟩
    · exact .inl (hx ▸ h1.mono x)
    · exact .inr ⟨tid, keep_sdd b hk h h1 h2⟩
  constructor
  · intro t p hg
    cases h.eff with
    | silent l _ _ _ _ hl hn =>
      rw [hl] at hg
      rcases List.mem_append.1 hg with hg | hg
      · exact old t p hg
      · exact (hn _ hg).elim
    | life _ _ _ _ _ _ _ _ _ hl => rw [hl] at hg; exact old t p hg
    | accept _ _ _ _ _ _ _ hl => rw [hl] at hg; exact old t p (by simpa using hg)
    | settle _ _ _ _ _ _ _ _ _ _ hl => rw [hl] at hg; exact old t p (by simpa using hg)
    | charge _ _ _ _ _ _ _ _ _ _ hl => rw [hl] at hg; exact old t p (by simpa using hg)
    | giveUp limit pre r rest h1 h2 h3 h4 hq hr hu hs hl hp hnow =>
      rw [hl] at hg
      have hg' : Obs.gaveUp t p ∈ v.log ∨ (t = v.now ∧ p = r.pkt) := by simpa using hg
      rcases hg' with hg' | ⟨e1, e2⟩
      · exact old t p hg'
      · rw [e1, e2]
        refine .inr ⟨v.nextTid, by rw [hp]; exact List.mem_append_right _ List.mem_cons_self, fun _ => ?_⟩
        omega
  · cases h with
    | rx f =>
      refine i.h.snoc ?_
      intro t0 f' he t p hg
      injection he with e1 _
      rcases i.g t p hg with h1 | ⟨_, _, h2⟩
      · exact .inl h1
      · exact .inr (e1 ▸ h2)
    | note o ho => exact i.h.snoc (by intro t0 f' he; rw [he] at ho; exact ho.elim)
    | txEnd => exact i.h.snoc (by intro t0 f' he; cases he)
    | accept => exact i.h.snoc (by intro t0 f' he; cases he)
    | handRts => exact i.h.snoc (by intro t0 f' he; cases he)
    | handData => exact i.h.snoc (by intro t0 f' he; cases he)
    | settle => exact i.h.snoc (by intro t0 f' he; cases he)
    | charge => exact i.h.snoc (by intro t0 f' he; cases he)
    | giveUp =>
      exact Hist.snoc (l := v.log ++ [_]) (i.h.snoc (by intro t0 f' he; cases he)) (by intro t0 f' he; cases he)
    | _ => exact i.h

theorem GI.mis {v w : V} (hps : 0 ≤ c.ps 1) (b : Basic c me v) (hk : ∀ q, ¬ K (.sendDataDone false q)) (i : GI c T v)
    (h : Mis c me T K v w) : GI c T w := by
  have : Basic c me w ∧ GI c T w := by
    induction h with
    | refl => exact ⟨b, i⟩
    | tail _ h ih => exact ⟨ih.1.mi h, ih.2.mi hps ih.1 hk h⟩
  exact this.2

/-- Settling when no two records share a sequence number: the record goes. -/
theorem doneLoop_one (q : UInt16) : ∀ (rest pre : List Rec) (s : St),
    (rest.map (·.pkt.seq)).Nodup →
    ((∀ r ∈ rest, r.pkt.seq ≠ q) ∧ doneLoop false q pre rest s = { s with recs := pre ++ rest }) ∨
    ∃ a r z, rest = a ++ r :: z ∧ r.pkt.seq = q ∧ (doneLoop false q pre rest s).pend = (settle false r s).pend ∧
      (doneLoop false q pre rest s).now = s.now ∧ (doneLoop false q pre rest s).log = s.log ++ [.done false r.pkt]
  | [], pre, s, _ => by
    left; exact ⟨by simp, by unfold doneLoop; rw [List.append_nil]⟩
  | r :: rest, pre, s, hn => by
    rw [List.map_cons, List.nodup_cons] at hn
    unfold doneLoop
    split
    · rename_i hq
      right
      refine ⟨[], r, rest, rfl, hq, ?_⟩
      split
      · rename_i h; exact absurd h.1 (by simp)
      · have hnone : ∀ x ∈ rest, x.pkt.seq ≠ q := by
          intro x hx he
          exact hn.1 (List.mem_map.2 ⟨x, hx, by rw [he, hq]⟩)
        match rest, hn, hnone with
        | [], _, _ => exact ⟨rfl, rfl, rfl⟩
        | r' :: rest', hn, hnone =>
          dsimp only
          have hn' := hn.2
          rw [List.map_cons, List.nodup_cons] at hn'
          rcases doneLoop_one q rest' (pre ++ [r']) (settle false r s) hn'.2 with ⟨_, h2⟩ | ⟨a, x, z, h1, h2, _⟩
          · rw [h2]; exact ⟨rfl, rfl, rfl⟩
          · exact absurd h2 (hnone x (List.mem_cons_of_mem _ (by rw [h1]; simp)))
    · rename_i hq
      rcases doneLoop_one q rest (pre ++ [r]) s hn.2 with ⟨h1, h2⟩ | ⟨a, x, z, h1, h2⟩
      · left
        refine ⟨?_, by rw [h2, List.append_assoc]; rfl⟩
        intro y hy
        rcases List.mem_cons.1 hy with hy | hy
        · rw [hy]; exact hq
        · exact h1 y hy
      · right
        exact ⟨r :: a, x, z, by rw [h1]; rfl, h2⟩

/-- With at most 65536 packets accepted, no two records share a sequence number. -/
theorem recs_nodup {seq0 : UInt16} {s : St} (b : Basic c me s.v) (p : PkInv seq0 s.v) (hn : s.nextUid ≤ 65536) :
    (s.recs.map (·.pkt.seq)).Nodup := by
  have h1 : ∀ l : List Rec, (∀ r ∈ l, Obs.accepted r.pkt ∈ s.log) → l.Pairwise (fun a b => a.pkt.uid < b.pkt.uid) →
      (l.map (·.pkt.seq)).Nodup := by
    intro l
    induction l with
    | nil => simp
    | cons r l ih =>
      intro ha hs
      rw [List.pairwise_cons] at hs
      rw [List.map_cons, List.nodup_cons]
      refine ⟨?_, ih (fun x hx => ha x (List.mem_cons_of_mem _ hx)) hs.2⟩
      intro hm
      obtain ⟨x, hx, he⟩ := List.mem_map.1 hm
      have := p.seqInj b hn (ha x (List.mem_cons_of_mem _ hx)) (ha r List.mem_cons_self) he
      have h2 := hs.1 x hx
      rw [this] at h2
      exact Nat.lt_irrefl _ h2
  exact h1 s.recs b.recAcc b.recSorted

theorem GI.step {seq0 : UInt16} {s : St} {o : Op} (hps : 0 ≤ c.ps 1) (b : Basic c me s.v) (p : PkInv seq0 s.v)
    (hn : s.nextUid ≤ 65536) (ht : T → timelyOp s o = true) (i : GI c T s.v) : GI c T (step c me s o).v := by
  by_cases hf : ∃ tid due q, o = .fire tid ∧ (tid, due, Ev.sendDataDone false q) ∈ s.pend
  · obtain ⟨tid, due, q, rfl, hm⟩ := hf
    have uniq : ∀ e ∈ s.pend, ∀ e' ∈ s.pend, e.1 = e'.1 → e = e' :=
      fun e he e' he' hee => List.inj_on_of_nodup_map b.tid he he' hee
    have hfind : s.pend.find? (fun e => e.1 = tid) = some (tid, due, Ev.sendDataDone false q) := by
      cases hf : s.pend.find? (fun e => e.1 = tid) with
      | none =>
        have := List.find?_eq_none.1 hf _ hm
        simp at this
      | some e =>
        have h1 := List.mem_of_find?_eq_some hf
        have h2 : e.1 = tid := by simpa using List.find?_some hf
        rw [uniq e h1 _ hm h2]
    have htime : T → s.now ≤ due ∧ ∀ e' ∈ s.pend, due ≤ e'.2.1 := by
      intro hT
      have h := ht hT
      unfold timelyOp at h
      have h1 := List.all_eq_true.1 h _ hm
      simpa using h1
    have hstep : Client.step c me s (.fire tid) = sendDataDone false q
        { s with pend := s.pend.filter (fun e => e.1 ≠ tid), now := max s.now due } := by
      show fire c me tid s = _
      unfold fire
      rw [hfind]; rfl
    rw [hstep]
    generalize hs1 : ({ s with pend := s.pend.filter (fun e => e.1 ≠ tid), now := max s.now due } : St) = s1
    have e1 : s1.pend = s.pend.filter (fun e => e.1 ≠ tid) := by rw [← hs1]
    have e2 : s1.now = max s.now due := by rw [← hs1]
    have e3 : s1.log = s.log := by rw [← hs1]
    have e4 : s1.recs = s.recs := by rw [← hs1]
    -- what is pending for other sequence numbers stays pending
    have keep : ∀ t x, Obs.gaveUp t x ∈ s.log → x.seq ≠ q → Settled s.log x ∨
        ∃ tid', (tid', t + c.ps 1, Ev.sendDataDone false x.seq) ∈ s1.pend ∧ (T → s1.now ≤ t + c.ps 1) := by
      intro t x hg hx
      rcases i.g t x hg with h | ⟨tid', h1, h2⟩
      · exact .inl h
      · refine .inr ⟨tid', ?_, ?_⟩
        · rw [e1]
          refine List.mem_filter.2 ⟨h1, ?_⟩
          simp only [ne_eq, decide_not, Bool.not_eq_eq_eq_not, Bool.not_true, decide_eq_false_iff_not]
          intro he
          have := uniq _ h1 _ hm he
          injection this with _ h3
          injection h3 with _ h4
          injection h4 with _ h5
          exact hx h5
        · intro hT
          have h3 := (htime hT).2 _ h1
          have h4 := h2 hT
          have h5 : s.now ≤ t + c.ps 1 := h4
          rw [e2]
          simp only at h3
          omega
    rcases doneLoop_one q s1.recs [] s1 (by rw [e4]; exact recs_nodup b p hn) with ⟨h1, h2⟩ | ⟨a, r, z, h1, h2, h3, h4, h5⟩
    · have h2 : sendDataDone false q s1 = { s1 with recs := [] ++ s1.recs } := h2
      rw [h2]
      constructor
      · intro t x hg
        have hg : Obs.gaveUp t x ∈ s.log := by rw [← e3]; exact hg
        by_cases hx : x.seq = q
        · left
          have ha := (p.giveUp t x hg).1
          rcases p.kept x ha with ⟨r, hr, he⟩ | h
          · exact absurd (by rw [he, hx]) (h1 r (e4 ▸ hr))
          · show Settled s1.log x
            rw [e3]; exact h
        · rcases keep t x hg hx with h | h
          · left; show Settled s1.log x; rw [e3]; exact h
          · exact .inr h
      · show Hist _ s1.log
        rw [e3]; exact i.h
    · have h3 : (sendDataDone false q s1).pend = _ := h3
      have h4 : (sendDataDone false q s1).now = _ := h4
      have h5 : (sendDataDone false q s1).log = _ := h5
      constructor
      · intro t x hg
        have hg : Obs.gaveUp t x ∈ s.log := by
          have hg : Obs.gaveUp t x ∈ (sendDataDone false q s1).log := hg
          rw [h5, e3] at hg
          simpa using hg
        show Settled (sendDataDone false q s1).log x ∨ ∃ tid', _ ∈ (sendDataDone false q s1).pend ∧
          (T → (sendDataDone false q s1).now ≤ _)
        rw [h3, h4, h5, e3]
        by_cases hx : x.seq = q
        · left
          have ha := (p.giveUp t x hg).1
          have hr : r ∈ s.recs := by rw [← e4, h1]; simp
          have he := p.seqInj b hn ha (b.recAcc r hr) (hx.trans h2.symm)
          exact ⟨false, by rw [he]; exact List.mem_append_right _ List.mem_cons_self⟩
        · rcases keep t x hg hx with h | ⟨tid', h6, h7⟩
          · exact .inl (h.mono _)
          · exact .inr ⟨tid', List.mem_append_left _ h6, h7⟩
      · show Hist _ (sendDataDone false q s1).log
        rw [h5, e3]
        exact i.h.snoc (by intro t0 f' he; cases he)
  · refine GI.mis (K := fun e => ∀ q, e ≠ .sendDataDone false q) hps b (fun q h => h q rfl) i (mis_step s o b ht ?_)
    intro tid due e ho hm q he
    exact hf ⟨tid, due, q, ho, he ▸ hm⟩

theorem nextUid_step (s : St) (o : Op) (b : Basic c me s.v) : s.nextUid ≤ (step c me s o).nextUid := by
  have h := mis_step (c := c) (me := me) (T := False) (K := fun _ => True) s o b (fun h => h.elim) (fun _ _ _ _ _ => trivial)
  have key : ∀ w, Mis c me False (fun _ => True) s.v w → s.v.nextUid ≤ w.nextUid := by
    intro w hw
    induction hw with
    | refl => exact Nat.le_refl _
    | tail _ h ih =>
      refine ih.trans ?_
      cases h.eff with
      | silent _ _ _ hu _ _ _ => exact hu.ge
      | life _ _ _ _ _ _ _ hu _ _ => exact hu.ge
      | accept _ _ _ _ _ hu _ _ => rw [hu]; exact Nat.le_succ _
      | settle _ _ _ _ _ _ _ _ hu _ _ => exact hu.ge
      | charge _ _ _ _ _ _ _ _ hu _ _ => exact hu.ge
      | giveUp _ _ _ _ _ _ _ _ _ _ hu _ _ _ _ => exact hu.ge
  exact key _ h

theorem nextUid_run (ops : List Op) : ∀ s : St, Basic c me s.v → s.nextUid ≤ (run c me s ops).nextUid := by
  induction ops with
  | nil => intro s _; exact Nat.le_refl _
  | cons o ops ih =>
    intro s b
    have h := mis_step (c := c) (me := me) (T := False) (K := fun _ => True) s o b (fun h => h.elim) (fun _ _ _ _ _ => trivial)
    exact (nextUid_step s o b).trans (ih (step c me s o) (b.mis h))

theorem gi_run {seq0 : UInt16} (hps : 0 ≤ c.ps 1) (ops : List Op) : ∀ s : St, Basic c me s.v → PkInv seq0 s.v →
    (run c me s ops).nextUid ≤ 65536 → (T → timely c me s ops = true) → GI c T s.v → GI c T (run c me s ops).v := by
  induction ops with
  | nil => intro s _ _ _ _ i; exact i
  | cons o ops ih =>
    intro s b p hn ht i
    have h := mis_step (c := c) (me := me) (T := False) (K := fun _ => True) s o b (fun h => h.elim) (fun _ _ _ _ _ => trivial)
    have b1 := b.mis h
    have p1 : PkInv seq0 (step c me s o).v :=
      run_inv (ops := [o]) False (fun h => h.elim) b p (fun _ _ b i h => i.mi b h)
    have ht' : T → timelyOp s o = true ∧ timely c me (step c me s o) ops = true := by
      intro hT; have := ht hT; simpa only [timely, Bool.and_eq_true] using this
    have hn1 := nextUid_run (c := c) (me := me) ops (step c me s o) b1
    have hn0 := nextUid_step s o b
    refine ih (step c me s o) b1 p1 hn (fun hT => (ht' hT).2) ?_
    have hn2 : (run c me (step c me s o) ops).nextUid ≤ 65536 := hn
    exact i.step hps b p (by omega) (fun hT => (ht' hT).1)

theorem gi_after (hps : 0 ≤ c.ps 1) (T : Prop) (seq0 last0 : UInt16) (ops : List Op)
    (hn : (after c me seq0 last0 ops).nextUid ≤ 65536) (ht : T → timely c me (init seq0 last0) ops = true) :
    GI c T (after c me seq0 last0 ops).v :=
  gi_run hps ops _ (Basic.init seq0 last0) (PkInv.init seq0 last0) hn ht (GI.init seq0 last0)

/-! ## Times in the log -/

/-- The time written into an observation. -/
def Obs.time : Obs → Option ℤ
  | .handed t _ => some t
  | .rx t _ => some t
  | .gaveUp t _ => some t
  | _ => none

/-- Times in the log do not decrease and do not lie ahead. -/
structure TI (v : V) : Prop where
  le : ∀ o ∈ v.log, ∀ t, o.time = some t → t ≤ v.now
  h : Hist (fun l o => ∀ t, o.time = some t → ∀ o' ∈ l, ∀ t', o'.time = some t' → t' ≤ t) v.log

theorem TI.snoc {v w : V} (i : TI v) (o : Obs) (hl : w.log = v.log ++ [o]) (hn : v.now ≤ w.now)
    (ho : ∀ t, o.time = some t → t = v.now) : TI w := by
  constructor
  · intro x hx t ht
    rw [hl] at hx
    rcases List.mem_append.1 hx with hx | hx
    · have := i.le x hx t ht; omega
    · rw [List.mem_singleton.1 hx] at ht; have := ho t ht; omega
  · rw [hl]
    refine i.h.snoc ?_
    intro t ht x hx t' ht'
    have := i.le x hx t' ht'
    rw [ho t ht]; exact this

theorem TI.keep {v w : V} (i : TI v) (hl : w.log = v.log) (hn : v.now ≤ w.now) : TI w :=
  ⟨fun o ho t ht => Int.le_trans (i.le o (hl ▸ ho) t ht) hn, hl ▸ i.h⟩

theorem TI.mi {v w : V} (i : TI v) (h : Mi c me T K v w) : TI w := by
  cases h with
  | tick d _ => exact i.keep rfl (by show v.now ≤ v.now + d; omega)
  | pop t due e _ _ _ _ => exact i.keep rfl (by show v.now ≤ max v.now due; omega)
  | txEnd t due f _ _ =>
    exact i.snoc (.txEnd f) rfl (by show v.now ≤ max v.now due; omega) (by intro t ht; cases ht)
  | note o ho =>
    refine i.snoc o rfl (Int.le_refl _) ?_
    intro t ht
    cases o <;> first | (cases ht; done) | exact ho.elim
  | rx f => exact i.snoc (.rx v.now f) rfl (Int.le_refl _) (by intro t ht; cases ht; rfl)
  | accept b dst _ => exact i.snoc _ rfl (Int.le_refl _) (by intro t ht; cases ht)
  | handRts d f _ _ _ => exact i.snoc (.handed v.now f) rfl (Int.le_refl _) (by intro t ht; cases ht; rfl)
  | handData d a p _ _ =>
    exact i.snoc (.handed v.now (dataFrame me p)) rfl (Int.le_refl _) (by intro t ht; cases ht; rfl)
  | settle ok pre r rest _ _ _ => exact i.snoc _ rfl (Int.le_refl _) (by intro t ht; cases ht)
  | charge limit ix pre r rest _ _ _ _ => exact i.snoc _ rfl (Int.le_refl _) (by intro t ht; cases ht)
  | giveUp limit pre r rest _ _ _ _ _ =>
    have i1 : TI (v.note (.timedOut r.pkt (r.retry + 1))) :=
      i.snoc _ rfl (Int.le_refl _) (by intro t ht; cases ht)
    exact i1.snoc (.gaveUp v.now r.pkt) rfl (Int.le_refl _) (by intro t ht; cases ht; rfl)
  | _ => exact i.keep rfl (Int.le_refl _)

theorem ti_after (seq0 last0 : UInt16) (ops : List Op) : TI (after c me seq0 last0 ops).v :=
  run_inv False (fun h => h.elim) (Basic.init seq0 last0) ⟨by simp [Client.init, St.v], Hist.nil _⟩
    (fun _ _ _ i h => i.mi h)

end Thz.Client
