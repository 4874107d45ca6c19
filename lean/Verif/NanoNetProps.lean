import Verif.NanoNet
import Mathlib.Data.List.Sort

/-!
# C23, C24: end-to-end properties of a network of nano MACs
-/

namespace Thz.Nano

open scoped List

/-! ## Specification vocabulary -/

/-- At most 65535 packets were accepted by each node, so the 16-bit numbers are unique. -/
def NoWrap (n : Net) : Prop := ∀ a, numAccepted (n a).log ≤ 65535

/-- What was passed up from `a`, oldest first: content, destination address and number. -/
def deliveries (a : Mac48) (log : List Obs) : List (Body × Mac48 × UInt16) :=
  log.reverse.filterMap fun o => match o with
    | .up b src dst q => if src = a then some (b, dst, q) else none
    | _ => none

/-- What was accepted for `b` or for broadcast, oldest first. -/
def acceptedFor (b : Mac48) (log : List Obs) : List (Body × Mac48 × UInt16) :=
  log.reverse.filterMap fun o => match o with
    | .accepted p => if p.dst = b ∨ p.dst = bcast then some (p.body, p.dst, p.seq) else none
    | _ => none

theorem Reach.inv' {cfg : Mac48 → Cfg} {e0 : Mac48 → ℚ} {n : Net} (h : Reach cfg e0 n) (hw : NoWrap n) :
    NetInv cfg e0 n ∧ ∀ b, (n b).nextUid ≤ 65535 := by
  have hw' : ∀ b, (n b).nextUid ≤ 65535 := by
    intro b
    have := hw b
    obtain ⟨ops, e⟩ := h.node b
    rw [e] at this ⊢
    rwa [numAccepted_nextUid (after_inv0 _ _ _ _)] at this
  exact ⟨h.inv hw', hw'⟩

/-! ## C23 -/

/-- **C23.** In every reachable state of the network: if node `a` reported success for `p`, the destination of `p`
passed `p` up exactly once, and passed up nothing else from `a` under `p`'s number. -/
theorem C23_success_means_delivered_once (cfg : Mac48 → Cfg) (e0 : Mac48 → ℚ) (n : Net) (h : Reach cfg e0 n)
    (hw : NoWrap n) (a : Mac48) (p : Pkt) (hp : .done true p ∈ (n a).log) :
    p.dst ≠ bcast ∧
    (n p.dst).log.count (.up p.body a p.dst p.seq) = 1 ∧
    ∀ x d, .up x a d p.seq ∈ (n p.dst).log → x = p.body ∧ d = p.dst := by
  obtain ⟨hi, hw'⟩ := h.inv' hw
  obtain ⟨opsA, eA, hfA⟩ := hi.node a
  have h0 : Inv0 (n a) := by rw [eA]; exact after_inv0 _ _ _ _
  have hup := hi.succ a p hp
  have hb : p.dst ≠ bcast := by
    intro hb
    have hw2 := hw a
    rw [eA] at hw2 hp
    have hacc := (C13_one_outcome (cfg a) a (e0 a) opsA).1 _ _ hp
    exact ((C21_broadcast_never_completes_violated (cfg a) a (e0 a) opsA hw2).1 p hacc hb).2 true hp
  have h1 : Inv1 Lic a (n a) := by
    have := hw a
    rw [eA] at this ⊢
    exact after_inv1L Lic.ok this hfA
  have huniq : ∀ x d, .up x a d p.seq ∈ (n p.dst).log → x = p.body ∧ d = p.dst := by
    intro x d hx
    obtain ⟨r, hr, hrd, hrs, hrb⟩ := data_pkt h1 (hi.up _ _ _ _ _ hx).1
    have hpa : p ∈ accs (n a).log := h0.outcome_acc (mem_outcomes.mpr ⟨true, hp⟩)
    have e := seq_inj h0 (hw' a) hpa hr.acc hrs.symm
    rw [e]; exact ⟨hrb.symm, hrd.symm⟩
  refine ⟨hb, ?_, huniq⟩
  obtain ⟨opsB, eB⟩ := h.node p.dst
  have h5 : Inv5 (n p.dst) := by rw [eB]; exact (Inv5.init _).run _ _ _
  have hnd : (upsFrom a (n p.dst).log).Nodup := (h5 a).1.imp (fun {x y} (h : x > y) => by
    rintro rfl; rw [gt_iff_lt, UInt16.lt_iff_toNat_lt] at h; omega)
  have hle : ∀ l : List Obs, l.count (.up p.body a p.dst p.seq) ≤ (upsFrom a l).count p.seq := by
    intro l
    unfold upsFrom
    induction l with
    | nil => exact le_refl _
    | cons o l ih =>
      rw [List.filterMap_cons, List.count_cons]
      cases o with
      | up b src dst q =>
        by_cases hs : src = a
        · subst hs
          simp only [if_true, List.count_cons]
          by_cases hq : q = p.seq
          · subst hq
            have : (if (Obs.up b src dst p.seq == Obs.up p.body src p.dst p.seq) = true then 1 else 0) ≤ 1 := by
              split_ifs <;> omega
            simp only [beq_self_eq_true, if_true]
            omega
          · simpa [hq] using ih
        · simpa [hs] using ih
      | _ => simpa using ih
  have h2 := List.count_pos_iff.mpr hup
  have h3 := hle (n p.dst).log
  have h4 := List.nodup_iff_count_le_one.mp hnd p.seq
  omega

/-- A network of two nodes, with the default parameters. -/
def exNet0 : Net := fun _ => St.init 1000

/-- A reaches success in three steps: accept, deliver the DATA frame to B, deliver the ACK to A. -/
example : ∃ n, Reach (fun _ => exCfg) (fun _ => 1000) n ∧ NoWrap n ∧
    .done true ⟨0, 1, exB, exBody⟩ ∈ (n exA).log := by
  let n1 : Net := Function.update exNet0 exA (step exCfg exA (exNet0 exA) (.enqueue exBody exB))
  let n2 : Net := Function.update n1 exB (step exCfg exB (n1 exB) (.recv ⟨.data, exA, exB, 1, exBody⟩ true))
  let n3 : Net := Function.update n2 exA (step exCfg exA (n2 exA) (.recv ⟨.ack, exB, exA, 1, ⟨0, 0⟩⟩ true))
  have hAB : exA ≠ exB := by decide
  have h1 : Reach (fun _ => exCfg) (fun _ => 1000) n1 := Reach.step exA _ Reach.init (by decide) trivial
  have eA1 : n1 exA = after exCfg exA 1000 [.enqueue exBody exB] := Function.update_self ..
  have h2 : Reach (fun _ => exCfg) (fun _ => 1000) n2 := Reach.step exB _ h1 (by decide) ⟨exA, by rw [eA1]; decide +kernel⟩
  have eB2 : n2 exB = after exCfg exB 1000 [.recv ⟨.data, exA, exB, 1, exBody⟩ true] := by
    show Function.update n1 exB _ exB = _
    rw [Function.update_self, show n1 exB = exNet0 exB from Function.update_of_ne hAB.symm _ _]; rfl
  have h3 : Reach (fun _ => exCfg) (fun _ => 1000) n3 := Reach.step exA _ h2 (by decide) ⟨exB, by rw [eB2]; decide +kernel⟩
  have eA3 : n3 exA = after exCfg exA 1000 [.enqueue exBody exB, .recv ⟨.ack, exB, exA, 1, ⟨0, 0⟩⟩ true] := by
    show Function.update n2 exA _ exA = _
    rw [Function.update_self, show n2 exA = n1 exA from Function.update_of_ne hAB _ _, eA1]; rfl
  refine ⟨n3, h3, ?_, by rw [eA3]; decide +kernel⟩
  intro a
  by_cases ha : a = exA
  · subst ha; rw [eA3]; decide +kernel
  · rw [show n3 a = n2 a from Function.update_of_ne ha _ _]
    by_cases hb : a = exB
    · subst hb; rw [eB2]; decide +kernel
    · rw [show n2 a = n1 a from Function.update_of_ne hb _ _, show n1 a = exNet0 a from Function.update_of_ne ha _ _]
      exact Nat.zero_le _

/-! ## C24 -/

/-- The accepted packets of a log for `b` or broadcast, oldest first. -/
theorem acceptedFor_eq (b : Mac48) (log : List Obs) : acceptedFor b log =
    ((accs log).reverse.filter (fun p => p.dst = b ∨ p.dst = bcast)).map (fun p => (p.body, p.dst, p.seq)) := by
  unfold acceptedFor accs
  rw [← List.filterMap_reverse]
  generalize log.reverse = l
  induction l with
  | nil => rfl
  | cons o l ih =>
    simp only [List.filterMap_cons]
    cases o with
    | accepted p => by_cases h : p.dst = b ∨ p.dst = bcast <;> simp [h, ih]
    | _ => simpa using ih

theorem deliveries_seq (a : Mac48) (log : List Obs) :
    (deliveries a log).map (fun x => x.2.2) = (upsFrom a log).reverse := by
  unfold deliveries upsFrom
  rw [← List.filterMap_reverse]
  generalize log.reverse = l
  induction l with
  | nil => rfl
  | cons o l ih =>
    simp only [List.filterMap_cons]
    cases o with
    | up b src dst q => by_cases h : src = a <;> simp [h, ih]
    | _ => simpa using ih

theorem mem_deliveries {a : Mac48} {log : List Obs} {x} : x ∈ deliveries a log ↔ .up x.1 a x.2.1 x.2.2 ∈ log := by
  unfold deliveries
  rw [List.mem_filterMap]
  constructor
  · rintro ⟨o, ho, h⟩
    cases o <;> simp at h
    obtain ⟨rfl, rfl⟩ := h
    exact List.mem_reverse.mp ho
  · intro h
    exact ⟨_, List.mem_reverse.mpr h, by simp⟩

/-- **C24.** In every reachable state of the network, what `b` passed up from `a` is, in order, a subsequence of what
`a` accepted for `b` or for broadcast, and contains nothing twice. -/
theorem C24_deliveries_in_order (cfg : Mac48 → Cfg) (e0 : Mac48 → ℚ) (n : Net) (h : Reach cfg e0 n)
    (hw : NoWrap n) (a b : Mac48) :
    deliveries a (n b).log <+ acceptedFor b (n a).log ∧ (deliveries a (n b).log).Nodup ∧
      (acceptedFor b (n a).log).Nodup := by
  obtain ⟨hi, hw'⟩ := h.inv' hw
  obtain ⟨opsA, eA, hfA⟩ := hi.node a
  have h0 : Inv0 (n a) := by rw [eA]; exact after_inv0 _ _ _ _
  have h1 : Inv1 Lic a (n a) := by
    have := hw a
    rw [eA] at this ⊢
    exact after_inv1L Lic.ok this hfA
  obtain ⟨opsB, eB⟩ := h.node b
  have h5 : Inv5 (n b) := by rw [eB]; exact (Inv5.init _).run _ _ _
  -- the numbers delivered increase
  have hsort : (deliveries a (n b).log).Pairwise (fun x y => x.2.2 < y.2.2) := by
    have : ((deliveries a (n b).log).map (fun x => x.2.2)).Pairwise (· < ·) := by
      rw [deliveries_seq, List.pairwise_reverse]
      exact (h5 a).1
    rwa [List.pairwise_map] at this
  have hirr : ∀ x : UInt16, ¬ x < x := fun x h => by rw [UInt16.lt_iff_toNat_lt] at h; omega
  have hnd : (deliveries a (n b).log).Nodup := hsort.imp (fun {x y} h => by rintro rfl; exact hirr _ h)
  -- the numbers accepted increase
  have hsort2 : (acceptedFor b (n a).log).Pairwise (fun x y => x.2.2 < y.2.2) := by
    rw [acceptedFor_eq, List.pairwise_map]
    have hu : (accs (n a).log).reverse.Pairwise (fun p q => p.uid < q.uid) := by
      have : ((accs (n a).log).reverse.map (·.uid)).Pairwise (· < ·) := by rw [h0.uids]; exact List.pairwise_lt_range
      rwa [List.pairwise_map] at this
    refine (List.Pairwise.filter _ hu).imp_of_mem ?_
    intro p q hp hq hlt
    exact (seq_lt_iff h0 (hw' a) (List.mem_reverse.mp (List.mem_of_mem_filter hp))
      (List.mem_reverse.mp (List.mem_of_mem_filter hq))).mpr hlt
  have hnd2 : (acceptedFor b (n a).log).Nodup := hsort2.imp (fun {x y} h => by rintro rfl; exact hirr _ h)
  have hsubset : deliveries a (n b).log ⊆ acceptedFor b (n a).log := by
    intro x hx
    obtain ⟨hair, hd⟩ := hi.up _ _ _ _ _ (mem_deliveries.mp hx)
    obtain ⟨r, hr, hrd, hrs, hrb⟩ := data_pkt h1 hair
    rw [acceptedFor_eq, List.mem_map]
    refine ⟨r, List.mem_filter.mpr ⟨List.mem_reverse.mpr hr.acc, ?_⟩, by rw [hrd, hrs, hrb]⟩
    rw [hrd]; simpa using hd
  refine ⟨?_, hnd, hnd2⟩
  -- sorted, without repetition and contained: a subsequence
  have key : ∀ (l2 l1 : List (Body × Mac48 × UInt16)), l1.Pairwise (fun x y => x.2.2 < y.2.2) →
      l2.Pairwise (fun x y => x.2.2 < y.2.2) → l1 ⊆ l2 → l1 <+ l2 := by
    intro l2
    induction l2 with
    | nil => intro l1 _ _ hs; rw [List.subset_nil.mp hs]
    | cons y l2 ih =>
      intro l1 p1 p2 hs
      cases l1 with
      | nil => exact List.nil_sublist _
      | cons x l1 =>
        have p1' := List.pairwise_cons.mp p1
        have p2' := List.pairwise_cons.mp p2
        by_cases hxy : x = y
        · subst hxy
          refine List.Sublist.cons_cons _ (ih l1 p1'.2 p2'.2 ?_)
          intro z hz
          rcases List.mem_cons.mp (hs (List.mem_cons_of_mem _ hz)) with rfl | h
          · exact absurd (p1'.1 z hz) (hirr _)
          · exact h
        · have hx : x ∈ l2 := by
            rcases List.mem_cons.mp (hs List.mem_cons_self) with h | h
            · exact absurd h hxy
            · exact h
          refine List.Sublist.cons _ (ih (x :: l1) p1 p2'.2 ?_)
          intro z hz
          rcases List.mem_cons.mp hz with rfl | hz'
          · exact hx
          · rcases List.mem_cons.mp (hs hz) with rfl | h
            · have h2 := p1'.1 z hz'
              have h3 := p2'.1 x hx
              rw [UInt16.lt_iff_toNat_lt] at h2 h3
              omega
            · exact h
  exact key _ _ hsort hsort2 hsubset

/-- A network in which B has passed up the packet that A accepted. -/
example : ∃ n, Reach (fun _ => exCfg) (fun _ => 1000) n ∧
    deliveries exA (n exB).log = [(exBody, exB, 1)] ∧ acceptedFor exB (n exA).log = [(exBody, exB, 1)] := by
  let n1 : Net := Function.update exNet0 exA (step exCfg exA (exNet0 exA) (.enqueue exBody exB))
  let n2 : Net := Function.update n1 exB (step exCfg exB (n1 exB) (.recv ⟨.data, exA, exB, 1, exBody⟩ true))
  have hAB : exA ≠ exB := by decide
  have h1 : Reach (fun _ => exCfg) (fun _ => 1000) n1 := Reach.step exA _ Reach.init (by decide) trivial
  have eA1 : n1 exA = after exCfg exA 1000 [.enqueue exBody exB] := Function.update_self ..
  have h2 : Reach (fun _ => exCfg) (fun _ => 1000) n2 := Reach.step exB _ h1 (by decide) ⟨exA, by rw [eA1]; decide +kernel⟩
  have eB2 : n2 exB = after exCfg exB 1000 [.recv ⟨.data, exA, exB, 1, exBody⟩ true] := by
    show Function.update n1 exB _ exB = _
    rw [Function.update_self, show n1 exB = exNet0 exB from Function.update_of_ne hAB.symm _ _]; rfl
  refine ⟨n2, h2, by rw [eB2]; decide +kernel, ?_⟩
  rw [show n2 exA = n1 exA from Function.update_of_ne hAB _ _, eA1]
  decide +kernel

/-- **C17 in the network**: no assumption on CTS frames is needed, the other nodes never send one unasked. -/
theorem C17_per_destination_order_network (cfg : Mac48 → Cfg) (e0 : Mac48 → ℚ) (n : Net) (h : Reach cfg e0 n)
    (hw : NoWrap n) (a : Mac48) (p q : Pkt) (hp : Unresolved (n a).log p) (hb : AcceptedBefore (n a).log p q)
    (hd : q.dst = p.dst) : ¬ OnAir a (n a).log q := by
  obtain ⟨hi, -⟩ := h.inv' hw
  obtain ⟨ops, e, hf⟩ := hi.node a
  have := hw a
  rw [e] at this hp hb ⊢
  exact C17_per_destination_order (cfg a) a (e0 a) ops this hf p q hp hb hd

end Thz.Nano
