import Verif.NetDev
import Verif.Macro
import Mathlib.Tactic.Common

/-!
# Properties of the net device (C62, C63, C68, C90, C91)
-/

namespace Thz.NetDev

open Thz.Nano (bcast Body)

/-! ## C62 -/

/-- The macro MAC (Macro.lean) under the device; the content of the packet is not looked at. -/
def macroEnq (c : Macro.Cfg) (g : UInt16) : Enq Macro.St := fun p dst s => Macro.enqueue c ⟨0, p.length⟩ dst g s

/-- **C62 fails: the answer.**  A packet of less than 14992 bytes is dropped by the macro MAC in every state, yet `Send`
answers true. -/
theorem C62_answer_violated (c : Macro.Cfg) (g : UInt16) (p : List UInt8) (hp : p.length < 14992) (dst : Mac48) (proto : UInt16)
    (s : Macro.St) :
    (send (macroEnq c g) p dst proto s).1 = true ∧
    ∃ b, (send (macroEnq c g) p dst proto s).2.2.log = s.log ++ [.dropped b] ∧ (send (macroEnq c g) p dst proto s).2.2.queue = s.queue := by
  have hl : (llc proto ++ p).length = p.length + 8 := by simp [llc]
  have h1 : ¬ (llc proto ++ p).length = 60004 := by omega
  have h2 : (UInt16.ofNat (llc proto ++ p).length).toNat < Macro.minEnqueue := by
    rw [hl]
    simp only [UInt16.toNat_ofNat', Macro.minEnqueue]
    omega
  have h3 : Macro.enqueue c ⟨0, (llc proto ++ p).length⟩ dst g s = (false, s.emit (.dropped ⟨0, (llc proto ++ p).length⟩)) := by
    unfold Macro.enqueue; rw [if_pos h2]
  have h4 : send (macroEnq c g) p dst proto s = (true, llc proto ++ p, s.emit (.dropped ⟨0, (llc proto ++ p).length⟩)) := by
    unfold send; rw [if_neg h1]; unfold macroEnq; rw [h3]
  rw [h4]
  exact ⟨rfl, _, rfl, rfl⟩

/-- **C62 fails: the packet.**  A packet of 59996 bytes is replaced by one of 65000 zero bytes. -/
theorem C62_packet_violated {σ : Type} (enq : Enq σ) (p : List UInt8) (hp : p.length = 59996) (dst : Mac48) (proto : UInt16) (s : σ) :
    (send enq p dst proto s).2.1 = llc proto ++ List.replicate 65000 0 ∧ (send enq p dst proto s).2.1 ≠ llc proto ++ p := by
  have hl : (llc proto ++ p).length = 60004 := by simp [llc]; omega
  have h : (send enq p dst proto s).2.1 = llc proto ++ List.replicate 65000 0 := by
    unfold send; rw [if_pos hl]
  refine ⟨h, ?_⟩
  rw [h]
  intro he
  have := congrArg List.length he
  rw [hl] at this
  rw [List.length_append, List.length_replicate] at this
  have h8 : (llc proto).length = 8 := rfl
  omega

/-- **C62, what holds**: every packet of another size, and every packet given to `SendFrom`, reaches the MAC unchanged behind
the link header, exactly once. -/
theorem C62_packet_partial {σ : Type} (enq : Enq σ) (p : List UInt8) (dst : Mac48) (proto : UInt16) (s : σ) :
    (p.length ≠ 59996 → (send enq p dst proto s).2 = (llc proto ++ p, (enq (llc proto ++ p) dst s).2)) ∧
    (sendFrom enq p dst proto s).2 = (llc proto ++ p, (enq (llc proto ++ p) dst s).2) := by
  refine ⟨fun hp => ?_, rfl⟩
  have hl : (llc proto ++ p).length ≠ 60004 := by
    have : (llc proto ++ p).length = p.length + 8 := by simp [llc]
    omega
  unfold send
  rw [if_neg hl]

example : (send (fun p _ (s : List (List UInt8)) => (true, s ++ [p])) [1, 2] bcast 0x0800 []).2.2 =
    [[0xaa, 0xaa, 0x03, 0, 0, 0, 0x08, 0, 1, 2]] := by decide

/-! ## C63 -/

theorem proto_roundtrip (x : UInt16) : (((x >>> 8).toUInt8.toUInt16 <<< 8) ||| x.toUInt8.toUInt16) = x := by
  apply UInt16.toNat_inj.1
  have hx := x.toNat_lt
  have h : (x.toNat >>> 8 % 256) <<< 8 ||| x.toNat % 256 = x.toNat := by
    rw [← Nat.shiftLeft_add_eq_or_of_lt (by omega : x.toNat % 256 < 2 ^ 8), Nat.shiftLeft_eq, Nat.shiftRight_eq_div_pow]
    omega
  have h2 : (x.toNat >>> 8 % 256) <<< 8 % 65536 = (x.toNat >>> 8 % 256) <<< 8 := by
    rw [Nat.shiftLeft_eq]; omega
  simp
  rw [h2, h]

/-- **C63.**  What a device sends with `Send` or `SendFrom` and another device is handed by its MAC is delivered to its node
once, with the payload and protocol number as given and the source the MAC says, if the destination is broadcast, a group or
the device; otherwise nothing is delivered. -/
theorem C63_dispatch (me : Mac48) (p : List UInt8) (proto : UInt16) (src dst : Mac48) :
    forwardUp me (llc proto ++ p) src dst =
      if dst = ⟨255, 255, 255, 255, 255, 255⟩ ∨ dst.b0 % 2 = 1 ∨ dst = me then .deliver p proto src else .nothing := by
  have hg : isGroup dst = true ↔ dst.b0 % 2 = 1 := by
    unfold isGroup
    have : dst.b0 &&& 1 = dst.b0 % 2 := by
      generalize dst.b0 = b
      apply UInt8.toNat_inj.1
      simp [Nat.and_one_is_mod]
    rw [this, decide_eq_true_eq]
  have hu : forwardUp me (llc proto ++ p) src dst =
      if classify me dst ≠ .otherhost then .deliver p proto src else .nothing := by
    show (if _ then Up.deliver p (((proto >>> 8).toUInt8.toUInt16 <<< 8) ||| proto.toUInt8.toUInt16) src else _) = _
    rw [proto_roundtrip]
  rw [hu]
  have : classify me dst ≠ .otherhost ↔ (dst = ⟨255, 255, 255, 255, 255, 255⟩ ∨ dst.b0 % 2 = 1 ∨ dst = me) := by
    unfold classify
    by_cases h1 : dst = bcast
    · rw [if_pos h1]; exact iff_of_true (by decide) (Or.inl h1)
    · rw [if_neg h1]
      by_cases h2 : isGroup dst = true
      · rw [if_pos h2]; exact iff_of_true (by decide) (Or.inr (Or.inl (hg.1 h2)))
      · rw [if_neg h2]
        by_cases h3 : dst = me
        · rw [if_pos h3]; exact iff_of_true (by decide) (Or.inr (Or.inr h3))
        · rw [if_neg h3]
          refine iff_of_false (by decide) ?_
          rintro (h | h | h)
          · exact h1 h
          · exact h2 (hg.2 h)
          · exact h3 h
  by_cases h : classify me dst ≠ .otherhost
  · rw [if_pos h, if_pos (this.1 h)]
  · rw [if_neg h, if_neg (fun h' => h (this.2 h'))]

/-- No packet with a link header makes the device read beyond its end; a shorter one does. -/
theorem C63_short (me : Mac48) (p : List UInt8) (src dst : Mac48) : forwardUp me p src dst = .crash ↔ p.length < 8 := by
  unfold forwardUp
  split
  · refine iff_of_false (by split <;> simp) (by simp)
  · rename_i h
    refine iff_of_true rfl ?_
    match p with
    | [] | [_] | [_, _] | [_, _, _] | [_, _, _, _] | [_, _, _, _, _] | [_, _, _, _, _, _] | [_, _, _, _, _, _, _] => simp
    | a :: b :: c :: d :: e :: f :: g :: i :: rest => exact absurd rfl (h a b c d e f g i rest)

example : forwardUp ⟨0, 0, 0, 0, 0, 1⟩ (llc 0x86dd ++ [7]) ⟨0, 0, 0, 0, 0, 2⟩ ⟨0, 0, 0, 0, 0, 1⟩ = .deliver [7] 0x86dd ⟨0, 0, 0, 0, 0, 2⟩ ∧
    forwardUp ⟨0, 0, 0, 0, 0, 1⟩ (llc 0x86dd ++ [7]) ⟨0, 0, 0, 0, 0, 2⟩ ⟨0, 0, 0, 0, 0, 3⟩ = .nothing := by decide

/-! ## C68 -/

/-- MAC, PHY and device know each other. -/
structure Linked (w : W) (d m p : Nat) : Prop where
  dMac : w.dMac d = some m
  dPhy : w.dPhy d = some p
  mPhy : w.mPhy m = some p
  mDev : w.mDev m = some d
  mCb : w.mCb m = some d
  pDev : w.pDev p = some d
  pMac : w.pMac p = some m

/-- Device, PHY and channel know each other, and the channel has the device exactly once. -/
structure Attached (w : W) (d p c : Nat) : Prop where
  dCh : w.dCh d = some c
  pCh : w.pCh p = some c
  once : w.att.filter (fun a => a.2.1 = d) = [(c, d, p)]

/-- The calls that wire device `d`: of each setter with one object, in any order and any number. -/
def Over (m p c : Nat) (l : List Call) : Prop := ∀ x ∈ l, x = .mac m ∨ x = .phy p ∨ x = .channel c

/-- What is known after some of the calls. -/
structure Mid (w : W) (d m p c : Nat) (hm hp hc : Bool) : Prop where
  dMac : w.dMac d = if hm then some m else none
  dPhy : w.dPhy d = if hp then some p else none
  dCh : w.dCh d = if hc then some c else none
  mCb : hm = true → w.mCb m = some d
  pDev : hp = true → w.pDev p = some d
  both : hm = true → hp = true → w.mPhy m = some p ∧ w.mDev m = some d ∧ w.pMac p = some m

theorem mid_step {w : W} {d m p c : Nat} {hm hp hc : Bool} (h : Mid w d m p c hm hp hc) (x : Call)
    (hx : x = .mac m ∨ x = .phy p ∨ x = .channel c) :
    Mid (call d w x) d m p c (hm || x = .mac m) (hp || x = .phy p) (hc || x = .channel c) := by
  obtain ⟨h1, h2, h3, h4, h5, h6⟩ := h
  rcases hx with rfl | rfl | rfl
  · cases hp with
    | true =>
      have hd : w.dPhy d = some p := by simpa using h2
      refine ⟨?_, ?_, ?_, ?_, ?_, ?_⟩ <;> simp [call, setMac, hd, upd, h3, h5]
    | false =>
      have hd : w.dPhy d = none := by simpa using h2
      refine ⟨?_, ?_, ?_, ?_, ?_, ?_⟩ <;> simp [call, setMac, hd, upd, h3]
  · cases hm with
    | true =>
      have hd : w.dMac d = some m := by simpa using h1
      refine ⟨?_, ?_, ?_, ?_, ?_, ?_⟩ <;> simp [call, setPhy, hd, upd, h3, h4]
    | false =>
      have hd : w.dMac d = none := by simpa using h1
      refine ⟨?_, ?_, ?_, ?_, ?_, ?_⟩ <;> simp [call, setPhy, hd, upd, h3]
  · cases hp with
    | true =>
      have hd : w.dPhy d = some p := by simpa using h2
      refine ⟨?_, ?_, ?_, ?_, ?_, ?_⟩ <;> simp_all [call, setChannel, upd]
    | false =>
      have hd : w.dPhy d = none := by simpa using h2
      refine ⟨?_, ?_, ?_, ?_, ?_, ?_⟩ <;> simp_all [call, setChannel, upd]

theorem mid_calls {d m p c : Nat} : ∀ (l : List Call) {w : W} {hm hp hc : Bool}, Mid w d m p c hm hp hc → Over m p c l →
    Mid (calls d l w) d m p c (hm || l.contains (.mac m)) (hp || l.contains (.phy p)) (hc || l.contains (.channel c))
  | [], w, hm, hp, hc, h, _ => by simpa [calls] using h
  | x :: l, w, hm, hp, hc, h, ho => by
    have h1 := mid_step h x (ho x (List.mem_cons_self ..))
    have h2 := mid_calls l h1 (fun y hy => ho y (List.mem_cons_of_mem _ hy))
    have hb : ∀ (a : Bool) (y : Call), ((a || decide (x = y)) || l.contains y) = (a || (x :: l).contains y) := by
      intro a y
      rw [List.contains_cons, Bool.or_assoc]
      congr 2
      by_cases hxy : x = y
      · simp [hxy]
      · simp [hxy, Ne.symm hxy]
    rw [hb, hb, hb] at h2
    exact h2

theorem mid_fresh (junk : Nat → Bool) (d m p c : Nat) : Mid (fresh junk) d m p c false false false :=
  ⟨rfl, rfl, rfl, by simp, by simp, by simp⟩

/-- **C68, MAC and PHY.**  However often and in whatever order the setters are called, once MAC and PHY were set they and the
device know each other. -/
theorem C68_linked_partial (junk : Nat → Bool) (d m p c : Nat) (l : List Call) (ho : Over m p c l) (hm : .mac m ∈ l) (hp : .phy p ∈ l) :
    Linked (calls d l (fresh junk)) d m p := by
  have h := mid_calls l (mid_fresh junk d m p c) ho
  have hm' : l.contains (.mac m) = true := List.contains_iff_mem.2 hm
  have hp' : l.contains (.phy p) = true := List.contains_iff_mem.2 hp
  rw [hm', hp'] at h
  obtain ⟨h1, h2, _, h4, h5, h6⟩ := h
  obtain ⟨h7, h8, h9⟩ := h6 rfl rfl
  exact ⟨h1, h2, h7, h8, h4 rfl, h5 rfl, h9⟩

/-- A call of `SetPhy`. -/
def isPhy : Call → Bool
  | .phy _ => true
  | _ => false

/-- The calls of `SetChannel` that come after a call of `SetPhy`. -/
def effective (c : Nat) : Bool → List Call → Nat
  | _, [] => 0
  | b, x :: l => (if b = true ∧ x = .channel c then 1 else 0) + effective c (b || isPhy x) l

theorem att_calls {d m p c : Nat} : ∀ (l : List Call) {w : W} {hm hp hc : Bool}, Mid w d m p c hm hp hc → Over m p c l →
    (calls d l w).att = w.att ++ List.replicate (effective c hp l) (c, d, p)
  | [], w, hm, hp, hc, _, _ => by simp [calls, effective]
  | x :: l, w, hm, hp, hc, h, ho => by
    have hx := ho x (List.mem_cons_self ..)
    have h1 := mid_step h x hx
    have h2 := att_calls l h1 (fun y hy => ho y (List.mem_cons_of_mem _ hy))
    show (calls d l (call d w x)).att = _
    rw [h2]
    have h3 : (hp || decide (x = Call.phy p)) = (hp || isPhy x) := by
      rcases hx with rfl | rfl | rfl <;> simp [isPhy]
    rw [h3]
    have h4 : (call d w x).att = w.att ++ List.replicate (if hp = true ∧ x = .channel c then 1 else 0) (c, d, p) := by
      rcases hx with rfl | rfl | rfl
      · cases hd : w.dPhy d <;> simp [call, setMac, hd]
      · cases hd : w.dMac d <;> simp [call, setPhy, hd, upd]
      · have := h.dPhy
        cases hp with
        | true => simp [call, setChannel, (by simpa using this : w.dPhy d = some p)]
        | false => simp [call, setChannel, (by simpa using this : w.dPhy d = none)]
    rw [h4, List.append_assoc, List.replicate_append_replicate]
    rfl

theorem pch_calls {d m p c : Nat} : ∀ (l : List Call) {w : W} {hm hp hc : Bool}, Mid w d m p c hm hp hc → Over m p c l →
    (calls d l w).pCh p = if 0 < effective c hp l then some c else w.pCh p
  | [], w, hm, hp, hc, _, _ => by simp [calls, effective]
  | x :: l, w, hm, hp, hc, h, ho => by
    have hx := ho x (List.mem_cons_self ..)
    have h1 := mid_step h x hx
    have h2 := pch_calls l h1 (fun y hy => ho y (List.mem_cons_of_mem _ hy))
    show (calls d l (call d w x)).pCh p = _
    rw [h2]
    have h3 : (hp || decide (x = Call.phy p)) = (hp || isPhy x) := by
      rcases hx with rfl | rfl | rfl <;> simp [isPhy]
    rw [h3]
    show _ = if 0 < (if hp = true ∧ x = .channel c then 1 else 0) + effective c (hp || isPhy x) l
      then _ else _
    generalize effective c (hp || isPhy x) l = n
    have h4 : (call d w x).pCh p = if hp = true ∧ x = .channel c then some c else w.pCh p := by
      rcases hx with rfl | rfl | rfl
      · cases hd : w.dPhy d <;> simp [call, setMac, hd]
      · cases hd : w.dMac d <;> simp [call, setPhy, hd, upd]
      · have := h.dPhy
        cases hp with
        | true => simp [call, setChannel, (by simpa using this : w.dPhy d = some p), upd]
        | false => simp [call, setChannel, (by simpa using this : w.dPhy d = none)]
    rw [h4]
    by_cases hn : 0 < n
    · rw [if_pos hn, if_pos (by omega)]
    · have : n = 0 := by omega
      subst this
      by_cases hc : hp = true ∧ x = .channel c
      · simp [hc]
      · simp [hc]

theorem effective_le (c : Nat) : ∀ (l : List Call) (b : Bool), 0 < effective c b l → .channel c ∈ l
  | [], _, h => by simp [effective] at h
  | x :: l, b, h => by
    by_cases hx : x = .channel c
    · rw [hx]; exact List.mem_cons_self ..
    · refine List.mem_cons_of_mem _ (effective_le c l (b || isPhy x) ?_)
      unfold effective at h
      rw [if_neg (fun h' => hx h'.2)] at h
      simpa using h

/-- **C68, the channel.**  The channel is attached exactly as often as `SetChannel` is called after `SetPhy`: so everything is
wired, with one attachment, exactly if that happened once. -/
theorem C68_attached_partial (junk : Nat → Bool) (d m p c : Nat) (l : List Call) (ho : Over m p c l) :
    (calls d l (fresh junk)).att = List.replicate (effective c false l) (c, d, p) ∧
    (Attached (calls d l (fresh junk)) d p c ↔ effective c false l = 1) := by
  have h1 := att_calls l (mid_fresh junk d m p c) ho
  have h2 := pch_calls l (mid_fresh junk d m p c) ho
  have h3 := mid_calls l (mid_fresh junk d m p c) ho
  have h1' : (calls d l (fresh junk)).att = List.replicate (effective c false l) (c, d, p) := by rw [h1]; rfl
  refine ⟨h1', ?_, ?_⟩
  · intro h
    have := h.once
    rw [h1', List.filter_eq_self.2 (fun a ha => by rw [List.eq_of_mem_replicate ha]; simp)] at this
    have := congrArg List.length this
    simpa using this
  · intro h
    refine ⟨?_, ?_, ?_⟩
    · rw [h3.dCh, List.contains_iff_mem.2 (effective_le c l false (by omega))]
      rfl
    · rw [h2, if_pos (by omega)]
    · rw [h1', h]
      simp

/-- **C68 fails**: with the channel set before the PHY the channel never gets the device and the PHY no channel; with the
channel set twice the channel has the device twice. -/
theorem C68_order_violated (junk : Nat → Bool) (d m p c : Nat) :
    ((calls d [.mac m, .channel c, .phy p] (fresh junk)).att = [] ∧
      (calls d [.mac m, .channel c, .phy p] (fresh junk)).pCh p = none) ∧
    (calls d [.mac m, .phy p, .channel c, .channel c] (fresh junk)).att = [(c, d, p), (c, d, p)] := by
  simp [calls, call, setMac, setPhy, setChannel, fresh, upd]

/-- The order `THzHelper::Install` uses, and every other one with the PHY before the channel, is right. -/
example (m p c : Nat) : effective c false [.mac m, .phy p, .channel c] = 1 ∧ effective c false [.phy p, .channel c, .mac m] = 1 ∧
    effective c false [.phy p, .mac m, .channel c] = 1 ∧ effective c false [.channel c, .phy p, .mac m] = 0 := by
  simp [effective, isPhy]

theorem wire_one (w : W) (n c : Nat) (h : w.dPhy n = none) : setChannel n c (setPhy n n (setMac n n w)) =
    { w with
      dMac := upd w.dMac n (some n), dPhy := upd w.dPhy n (some n), dCh := upd w.dCh n (some c), mPhy := upd w.mPhy n (some n)
      mDev := upd w.mDev n (some n), mCb := upd w.mCb n (some n), pDev := upd w.pDev n (some n), pMac := upd w.pMac n (some n)
      pCh := upd w.pCh n (some c), att := w.att ++ [(c, n, n)] } := by
  simp [setChannel, setPhy, setMac, h, upd]

theorem install_spec (junk : Nat → Bool) (c : Nat) : ∀ n, (∀ d, n ≤ d → (install c n (fresh junk)).dPhy d = none) ∧
    (install c n (fresh junk)).att = (List.range n).map (fun d => (c, d, d)) ∧
    ∀ d, d < n → Linked (install c n (fresh junk)) d d d ∧ (install c n (fresh junk)).dCh d = some c ∧ (install c n (fresh junk)).pCh d = some c
  | 0 => ⟨fun _ _ => rfl, rfl, fun d h => absurd h (by omega)⟩
  | n + 1 => by
    obtain ⟨h1, h2, h3⟩ := install_spec junk c n
    have he : install c (n + 1) (fresh junk) = setChannel n c (setPhy n n (setMac n n (install c n (fresh junk)))) := rfl
    rw [he, wire_one _ n c (h1 n (le_refl n))]
    generalize install c n (fresh junk) = w at h1 h2 h3
    refine ⟨fun d hd => ?_, ?_, fun d hd => ?_⟩
    · have : d ≠ n := by omega
      simp [upd, this, h1 d (by omega)]
    · simp [h2, List.range_succ]
    · by_cases hdn : d = n
      · subst hdn
        refine ⟨⟨?_, ?_, ?_, ?_, ?_, ?_, ?_⟩, ?_, ?_⟩ <;> simp [upd]
      · obtain ⟨⟨a1, a2, a3, a4, a5, a6, a7⟩, a8, a9⟩ := h3 d (by omega)
        refine ⟨⟨?_, ?_, ?_, ?_, ?_, ?_, ?_⟩, ?_, ?_⟩ <;> simp [upd, hdn, *]

/-- **C68 for `THzHelper::Install`**: every device it creates is completely wired and attached to the channel exactly once, for
every number of nodes. -/
theorem C68_install (junk : Nat → Bool) (c n d : Nat) (hd : d < n) :
    Linked (install c n (fresh junk)) d d d ∧ Attached (install c n (fresh junk)) d d c := by
  obtain ⟨_, h2, h3⟩ := install_spec junk c n
  obtain ⟨a1, a2, a3⟩ := h3 d hd
  refine ⟨a1, a2, a3, ?_⟩
  rw [h2, List.filter_map]
  have : (List.range n).filter ((fun a : Nat × Nat × Nat => decide (a.2.1 = d)) ∘ fun d => (c, d, d)) = [d] := by
    have : ((fun a : Nat × Nat × Nat => decide (a.2.1 = d)) ∘ fun d => (c, d, d)) = fun x => decide (x = d) := rfl
    rw [this]
    have := (List.nodup_range (n := n)).filter (fun x => decide (x = d))
    have hm : ∀ x, x ∈ (List.range n).filter (fun x => decide (x = d)) ↔ x = d := by
      intro x
      rw [List.mem_filter, List.mem_range, decide_eq_true_eq]
      exact ⟨fun h => h.2, fun h => ⟨h ▸ hd, h⟩⟩
    generalize (List.range n).filter (fun x => decide (x = d)) = l at this hm
    match l, this, hm with
    | [], _, hm => exact absurd ((hm d).2 rfl) (by simp)
    | [x], _, hm => rw [(hm x).1 (by simp)]
    | x :: y :: l, hnd, hm =>
      have h1 := (hm x).1 (by simp)
      have h2 := (hm y).1 (by simp)
      simp [h1, h2] at hnd
  rw [this]
  rfl

example : 3 < 5 ∧ (install 7 5 (fresh fun _ => false)).att = [(7, 0, 0), (7, 1, 1), (7, 2, 2), (7, 3, 3), (7, 4, 4)] := by decide

/-! ## C90, C91 -/

/-- **C90 fails**: disposing of one device takes all devices off the channel they share. -/
theorem C90_dispose_violated (junk : Nat → Bool) (c n d : Nat) (hd : d < n) : (clear d (install c n (fresh junk))).att = [] := by
  obtain ⟨_, h2, h3⟩ := install_spec junk c n
  obtain ⟨_, a2, _⟩ := h3 d hd
  unfold clear
  rw [a2]
  simp only [h2]
  rw [List.filter_eq_nil_iff]
  intro a ha
  rw [List.mem_map] at ha
  obtain ⟨x, _, rfl⟩ := ha
  simp

/-- **C90, what holds**: disposing of a device keeps the devices of other channels attached, and keeps the wiring of every
other device with its MAC and PHY. -/
theorem C90_dispose_partial (w : W) (d : Nat) :
    (∀ a ∈ w.att, w.dCh d ≠ some a.1 → a ∈ (clear d w).att) ∧
    (∀ d' m p, d' ≠ d → Linked w d' m p → Linked (clear d w) d' m p) := by
  constructor
  · intro a ha hc
    unfold clear
    cases h : w.dCh d with
    | none => exact ha
    | some c =>
      refine List.mem_filter.2 ⟨ha, ?_⟩
      rw [h] at hc
      simp only [ne_eq, decide_eq_true_eq]
      intro h'
      exact hc (by rw [h'])
  · intro d' m p hne h
    obtain ⟨h1, h2, h3, h4, h5, h6, h7⟩ := h
    unfold clear
    cases w.dCh d with
    | none => exact ⟨by simp [upd, hne, h1], by simp [upd, hne, h2], h3, h4, h5, h6, h7⟩
    | some c => exact ⟨by simp [upd, hne, h1], by simp [upd, hne, h2], h3, h4, h5, h6, h7⟩

/-- Two channels with two devices each: disposing of device 0 leaves the other channel alone. -/
example : (clear 0 (calls 2 [.mac 2, .phy 2, .channel 8] (install 7 2 (fresh fun _ => false)))).att = [(8, 2, 2)] := by decide

/-- **C91 fails**: whether an installed device says its link is up is whatever the memory contained. -/
theorem C91_linkup_violated (junk : Nat → Bool) (c n d : Nat) (hd : d < n) : isLinkUp d (install c n (fresh junk)) = junk d := by
  obtain ⟨_, _, h3⟩ := install_spec junk c n
  obtain ⟨a1, _, _⟩ := h3 d hd
  have : ∀ n, (install c n (fresh junk)).linkup = junk := by
    intro n
    induction n with
    | zero => rfl
    | succ n ih =>
      have he : install c (n + 1) (fresh junk) = setChannel n c (setPhy n n (setMac n n (install c n (fresh junk)))) := rfl
      rw [he, wire_one _ n c ((install_spec junk c n).1 n (le_refl n))]
      exact ih
  unfold isLinkUp
  rw [a1.dPhy, this n]
  simp

/-- **C91, what holds**: a device without PHY says its link is down. -/
theorem C91_linkup_partial (w : W) (d : Nat) (h : w.dPhy d = none) : isLinkUp d w = false := by
  unfold isLinkUp; rw [h]; simp

example (junk : Nat → Bool) : (calls 0 [.mac 3] (fresh junk)).dPhy 0 = none := by simp [calls, call, setMac, fresh]

end Thz.NetDev
