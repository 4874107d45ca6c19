import Verif.NanoStackInv
import Verif.PhyNanoProps

/-!
# Complete nano devices: a frame whose pulses meet no others is received

`und_after`: a transmission whose pulses meet no others at a device is on its way to it, is being received there without collision, or has been
received.
-/

set_option linter.unusedSectionVars false

namespace Thz.NStack

open Thz
open Thz.Nano (Body bcast Frame Pkt Kind)
open Thz.PhyNano (Touch)

variable {P : Type} [AddCommMonoid P]

/-- The cases of a step. -/
inductive SMove (w : World P) (s : St P) : Op P → St P → Prop
  | none {o : Op P} : SMove w s o s
  | mac {o : Op P} (i g : Nat) (op : Nano.Op) (hi : i < w.num) (ha : Nano.Allowed s.mac op)
      (ho : (∃ b dst, o = .enqueue i b dst ∧ op = .enqueue b dst) ∨ (∃ tid, o = .mac i tid g ∧ op = .fire tid ∧ s.due i tid ≤ s.now) ∨
        (o = .harvest i ∧ op = .harvest) ∨ (o = .einit i ∧ op = .einit)) : SMove w s o (macStep w i g op s)
  | phy {i tid : Nat} {s' : St P} (hi : i < w.num) (hm : PMove w s i s') : SMove w s (.phy i tid) s'
  | land {n j : Nat} {junk : P} {x : Sig P} (hx : s.flight.find? (fun x => x.n = n ∧ x.dst = j) = some x) (hdue : x.due = s.now) :
      SMove w s (.land n j junk) { s with
        flight := s.flight.filter (fun x => ¬ (x.n = n ∧ x.dst = j))
        heard := Function.update s.heard j (s.heard j ++ [n])
        phy := Function.update s.phy j (PhyNano.step (w.pcfg j) (s.phy j) (.arrive x.dur x.pw junk)) }
  | tick {d : Nat} (ha : allowed w s (.tick d) = true) : SMove w s (.tick d) (tick w d s)

theorem step_smove {w : World P} (hw : w.Wf) {s : St P} (h : Inv w s) (hidle : Idle s) (o : Op P) : SMove w s o (step w s o) := by
  unfold step
  by_cases ha : allowed w s o = true
  swap
  · rw [if_neg ha]; exact .none
  rw [if_pos ha]
  cases o with
  | enqueue i b dst => exact .mac i 0 _ (by simpa [allowed] using ha) trivial (.inl ⟨b, dst, rfl, rfl⟩)
  | mac i tid g =>
    simp only [allowed, Bool.and_eq_true, decide_eq_true_eq] at ha
    exact .mac i g _ ha.1 trivial (.inr (.inl ⟨tid, rfl, rfl, ha.2⟩))
  | harvest i => exact .mac i 0 _ (by simpa [allowed] using ha) trivial (.inr (.inr (.inl ⟨rfl, rfl⟩)))
  | einit i => exact .mac i 0 _ (by simpa [allowed] using ha) trivial (.inr (.inr (.inr ⟨rfl, rfl⟩)))
  | phy i tid =>
    simp only [allowed, Bool.and_eq_true, decide_eq_true_eq, List.all_eq_true, Bool.or_eq_true] at ha
    exact .phy ha.1 (phyStep_move hw h hidle ha.1 (fun e he ht => (ha.2 e he).resolve_left (fun hc => hc ht)))
  | land n j junk =>
    dsimp only
    unfold NStack.land
    cases hf : s.flight.find? (fun x => decide (x.n = n ∧ x.dst = j)) with
    | none => exact .none
    | some x =>
      have hxp : x.n = n ∧ x.dst = j := by simpa using List.find?_some hf
      simp only [allowed, List.all_eq_true, Bool.or_eq_true, decide_eq_true_eq] at ha
      have h1 := (ha x (List.mem_of_find?_eq_some hf)).resolve_left (fun hc => hc hxp)
      have h2 := (h.sig x (List.mem_of_find?_eq_some hf)).1
      exact .land hf (by omega)
  | tick d => exact .tick ha

/-- Nothing is taken back. -/
theorem air_prefix {w : World P} {s s' : St P} {o : Op P} (m : SMove w s o s') : ∃ l, s'.air = s.air ++ l := by
  cases m with
  | none => exact ⟨[], by simp⟩
  | mac i g op hi ha ho =>
    obtain ⟨-, -, -, -, -, -, ⟨k, e, -⟩, -⟩ := macStep_keeps w i g op s
    exact ⟨k, e⟩
  | land hx hdue => exact ⟨[], by simp⟩
  | tick ha => exact ⟨[], by simp [tick]⟩
  | @phy i tid _ hi hm =>
    cases hm with
    | none => exact ⟨[], by simp⟩
    | launch => exact ⟨_, rfl⟩
    | erase => exact ⟨[], by simp⟩
    | quiet => exact ⟨[], by simp⟩
    | @notice _ a b r p' n src t0 f =>
      obtain ⟨-, -, -, -, -, -, ⟨k, e, -⟩, -⟩ := macStep_keeps w i 0 (.recv f (!r.coll))
        { s with phy := Function.update s.phy i p', air := s.air ++ if r.coll = true then [] else [.rx s.now n i f] }
      refine ⟨(if r.coll = true then [] else [.rx s.now n i f]) ++ k, ?_⟩
      show (macStep w i 0 (.recv f (!r.coll)) _).air = _
      rw [e, List.append_assoc]

/-- The pulses of transmission `n` (frame `f`, sent by device `a` from time `t` on) meet no others at device `j`.  `own`: a frame that
`j` has accepted for transmission before `n` arrives has been sent by then, or its train of pulses starts by then (give or take a pulse)
and the first pulse of `n` meets none of it.  `alone`: another frame arrives before or after, or the pulses do not meet. -/
structure Free (w : World P) (air : List AObs) (t : ℤ) (n a : Nat) (f : Frame) (j : Nat) : Prop where
  own : ∀ t' f' st, AObs.accepted t' j f' st ∈ air →
    st + w.airtime j f'.size < t + w.delay t a j ∨ t + w.delay t a j < t' ∨
    (st ≤ t + w.delay t a j + (w.pcfg j).p ∧ ¬ Touch (w.pcfg j).p (w.pcfg j).ts (t + w.delay t a j) st)
  alone : ∀ t' n' a' f', AObs.tx t' n' a' f' ∈ air → a' ≠ j → n' ≠ n →
    t' + w.delay t' a' j + w.airtime a' f'.size < t + w.delay t a j ∨
    t + w.delay t a j + w.airtime a f.size < t' + w.delay t' a' j ∨
    (¬ Touch (w.pcfg j).p (w.pcfg j).ts (t' + w.delay t' a' j) (t + w.delay t a j) ∧
      ¬ Touch (w.pcfg j).p (w.pcfg j).ts (t + w.delay t a j) (t' + w.delay t' a' j))

theorem Free.mono {w : World P} {air l : List AObs} {t : ℤ} {n a : Nat} {f : Frame} {j : Nat} (h : Free w (air ++ l) t n a f j) :
    Free w air t n a f j :=
  ⟨fun t' f' st hm => h.own t' f' st (List.mem_append_left _ hm), fun t' n' a' f' hm => h.alone t' n' a' f' (List.mem_append_left _ hm)⟩

/-- Where the frame is. -/
def Und (w : World P) (s : St P) (t : ℤ) (n a : Nat) (f : Frame) (j : Nat) : Prop :=
  (∃ x ∈ s.flight, x.n = n ∧ x.dst = j) ∨ (∃ r ∈ (s.phy j).rx, (s.heard j)[r.id]? = some n ∧ r.coll = false) ∨
  AObs.rx (t + w.delay t a j + w.airtime a f.size) n j f ∈ s.air

/-- The field that is read before it is written contains zero when this operation reads it. -/
def cleanMemory : Op P → Prop
  | .land _ _ junk => junk = 0
  | _ => True

theorem sum_filter_nil {l : List (PhyNano.Rx P)} {q : PhyNano.Rx P → Bool} (h : ∀ r ∈ l, q r = false) :
    ((l.filter q).map (·.pw)).sum = 0 := by
  rw [List.filter_eq_nil_iff.2 (fun r hr => by rw [h r hr]; simp)]
  rfl

theorem und_step {w : World P} (hw : w.Wf) {s s' : St P} {o : Op P} (h : Inv w s) (hidle : Idle s) (ho : cleanMemory o) (m : SMove w s o s')
    {t : ℤ} {n a : Nat} {f : Frame} {j : Nat} (hm : AObs.tx t n a f ∈ s'.air) (hja : j ≠ a) (hj : j < w.num)
    (hstr : (w.pcfg j).bad (w.power t a j) 0 = false) (hfree : Free w s'.air t n a f j)
    (hold : AObs.tx t n a f ∈ s.air → Und w s t n a f j) : Und w s' t n a f j := by
  have hfree0 : Free w s.air t n a f j := by
    obtain ⟨l, e⟩ := air_prefix m
    rw [e] at hfree
    exact hfree.mono
  have hp := hw.pulse j
  have hts := hw.symbol j
  cases m with
  | none => exact hold hm
  | tick ha =>
    rcases hold hm with h1 | ⟨r, h1, h2, h3⟩ | h1
    · exact .inl h1
    · refine .inr (.inl ⟨r, ?_, h2, h3⟩)
      show r ∈ (PhyNano.step (w.pcfg j) (s.phy j) (.advance _)).rx
      simp only [PhyNano.step]
      rw [if_pos (hidle j)]
      exact h1
    · exact .inr (.inr h1)
  | mac i g op hi ha ho =>
    obtain ⟨-, k2, -, k4, -, -, ⟨k, e, k6, k7⟩, k8⟩ := macStep_keeps w i g op s
    have hm' : AObs.tx t n a f ∈ s.air := by
      rw [e] at hm
      rcases List.mem_append.1 hm with hm | hm
      · exact hm
      · exact absurd (k6 _ hm) (by simp [txNo])
    rcases hold hm' with h1 | ⟨r, h1, h2, h3⟩ | h1
    · exact .inl (by rw [k4]; exact h1)
    · exact .inr (.inl ⟨r, by rw [k8]; exact h1, by rw [k2]; exact h2, h3⟩)
    · exact .inr (.inr (by rw [e]; exact List.mem_append_left _ h1))
  | @land n' j' junk x hx hdue =>
    have hjunk : junk = 0 := ho
    subst hjunk
    have hxm := List.mem_of_find?_eq_some hx
    have hxp : x.n = n' ∧ x.dst = j' := by simpa using List.find?_some hx
    obtain ⟨rfl, rfl⟩ := hxp
    obtain ⟨-, t1, i1, f1, g1, g2, g3, g4, g5, g6⟩ := h.sig x hxm
    have hiv := h.phyI hw j
    have hin := hidle j
    have hnow := h.pnow j
    have hget : ∀ {k id m : Nat}, (s.heard k)[id]? = some m → (Function.update s.heard x.dst (s.heard x.dst ++ [x.n]) k)[id]? = some m := by
      intro k id m hk
      by_cases hj : k = x.dst
      · subst hj
        rw [Function.update_self]
        obtain ⟨l1, -⟩ := List.getElem?_eq_some_iff.1 hk
        rw [List.getElem?_append_left l1]; exact hk
      · rw [Function.update_of_ne hj]; exact hk
    rcases hold hm with ⟨y, h1, h2, h3⟩ | ⟨r, h1, h2, h3⟩ | h1
    · -- on its way
      by_cases hc : y.n = x.n ∧ y.dst = x.dst
      · -- it is the one that arrives
        right; left
        have hn : x.n = n := hc.1.symm.trans h2
        have hd : x.dst = j := hc.2.symm.trans h3
        subst hn
        subst hd
        obtain ⟨rfl, rfl, rfl⟩ := tx_unique h hm g1
        have harr : s.now = t + w.delay t a x.dst := by omega
        have hno : ¬ ∃ r ∈ (s.phy x.dst).tx, PhyNano.meets (w.pcfg x.dst) (s.phy x.dst).now r.start = true := by
          rintro ⟨r, hr, hmt⟩
          rw [hnow, PhyNano.meets_iff hp hts] at hmt
          obtain ⟨g, t0, k1, k2, k3⟩ := h.txRec x.dst r hr
          have k4 := (h.handed _ _ _ (h.accHand _ _ _ _ k2).1).2.1
          obtain ⟨tid, k5⟩ := hiv.txPend r hr
          have k6 : s.now ≤ r.start + r.dur := h.pendDue _ _ k5
          rcases hfree0.own _ _ _ k2 with k | k | ⟨k, k'⟩
          · omega
          · omega
          · rw [← harr] at k k'
            rcases hmt with hmt | hmt
            · omega
            · exact k' hmt
        rcases phy_arrive (w.pcfg x.dst) hin x.dur x.pw 0 with ⟨e1, -⟩ | ⟨-, e1⟩
        · exact absurd e1 hno
        · have hint : PhyNano.interference (w.pcfg x.dst) (s.phy x.dst).now 0 (s.phy x.dst).rx = 0 := by
            unfold PhyNano.interference
            rw [sum_filter_nil, add_zero]
            intro r hr
            rw [decide_eq_false_iff_not]
            intro hmt
            have hold' := hiv.rxOld r hr
            rw [PhyNano.meets_old hp hts hold', hnow] at hmt
            obtain ⟨n2, t2, a2, f2, q1, q2, q3, q4, q5, q6, -⟩ := h.rxRec x.dst r hr
            have hne : n2 ≠ x.n := by
              rintro rfl
              have c1 := h.oneWay x.n x.dst
              have c2 : 0 < s.flight.countP (isSig x.n x.dst) := List.countP_pos_iff.2 ⟨x, hxm, by simp [isSig]⟩
              have c3 : 0 < (s.heard x.dst).count x.n := List.count_pos_iff.2 (List.mem_of_getElem? q1)
              omega
            have hend : s.now ≤ r.start + r.dur := by
              rcases hiv.rxPend r hr with k | ⟨tid, k⟩
              · rw [hin] at k; cases k
              · exact h.pendDue _ _ k
            rcases hfree0.alone _ _ _ _ q2 q3 hne with k | k | ⟨-, k⟩
            · omega
            · omega
            · rw [← harr, ← q5] at k
              exact k hmt
          refine ⟨⟨(s.phy x.dst).nextRx, (s.phy x.dst).now, x.dur, x.pw,
            (w.pcfg x.dst).bad x.pw (PhyNano.interference (w.pcfg x.dst) (s.phy x.dst).now 0 (s.phy x.dst).rx)⟩, ?_, ?_, ?_⟩
          · show _ ∈ (Function.update s.phy x.dst _ x.dst).rx
            rw [Function.update_self, e1]
            simp
          · show (Function.update s.heard x.dst (s.heard x.dst ++ [x.n]) x.dst)[_]? = _
            rw [Function.update_self]
            show (s.heard x.dst ++ [x.n])[(s.phy x.dst).nextRx]? = _
            rw [← h.heardLen, List.getElem?_append_right (le_refl _), Nat.sub_self]; rfl
          · show (w.pcfg x.dst).bad x.pw _ = false
            rw [hint, g6]
            exact hstr
      · exact .inl ⟨y, List.mem_filter.2 ⟨h1, decide_eq_true hc⟩, h2, h3⟩
    · -- being received
      right; left
      by_cases hd : x.dst = j
      swap
      · refine ⟨r, ?_, hget h2, h3⟩
        show r ∈ (Function.update s.phy x.dst _ j).rx
        rw [Function.update_of_ne (Ne.symm hd)]
        exact h1
      subst hd
      rcases phy_arrive (w.pcfg x.dst) hin x.dur x.pw 0 with ⟨-, e1⟩ | ⟨-, e1⟩
      · refine ⟨r, ?_, hget h2, h3⟩
        show r ∈ (Function.update s.phy x.dst _ x.dst).rx
        rw [Function.update_self, e1]
        exact h1
      · refine ⟨r, ?_, hget h2, h3⟩
        show r ∈ (Function.update s.phy x.dst _ x.dst).rx
        rw [Function.update_self, e1]
        refine List.mem_append_left _ ?_
        unfold PhyNano.disturb
        refine List.mem_map.2 ⟨r, h1, ?_⟩
        have hmt : ¬ PhyNano.meets (w.pcfg x.dst) (s.phy x.dst).now r.start = true := by
          intro hmt
          have hold' := hiv.rxOld r h1
          rw [PhyNano.meets_old hp hts hold', hnow] at hmt
          obtain ⟨n2, t2, a2, f2, q1, q2, q3, q4, q5, q6, -⟩ := h.rxRec x.dst r h1
          have e2 : n2 = n := Option.some.inj (q1.symm.trans h2)
          subst e2
          obtain ⟨rfl, rfl, rfl⟩ := tx_unique h hm q2
          have hne : x.n ≠ n2 := by
            rintro rfl
            have c1 := h.oneWay x.n x.dst
            have c2 : 0 < s.flight.countP (isSig x.n x.dst) := List.countP_pos_iff.2 ⟨x, hxm, by simp [isSig]⟩
            have c3 : 0 < (s.heard x.dst).count x.n := List.count_pos_iff.2 (List.mem_of_getElem? q1)
            omega
          have hend : s.now ≤ r.start + r.dur := by
            rcases hiv.rxPend r h1 with k | ⟨tid, k⟩
            · rw [hin] at k; cases k
            · exact h.pendDue _ _ k
          rcases hfree0.alone _ _ _ _ g1 g2 hne with k | k | ⟨k, -⟩
          · omega
          · omega
          · rw [← g4, hdue, ← q5] at k
            exact k hmt
        rw [if_neg hmt]
    · exact .inr (.inr h1)
  | @phy i tid _ hi hmv =>
    cases hmv with
    | none => exact hold hm
    | @launch tid id f0 t0 p' u v hpend hacc e hs hf0 =>
      rcases List.mem_append.1 hm with hm | hm
      · rcases hold hm with ⟨x, h1, h2⟩ | ⟨r, h1, h2, h3⟩ | h1
        · exact .inl ⟨x, List.mem_append_left _ h1, h2⟩
        · refine .inr (.inl ⟨r, ?_, h2, h3⟩)
          show r ∈ (Function.update s.phy i p' j).rx
          by_cases hji : j = i
          · subst hji; rw [Function.update_self, e]; exact h1
          · rw [Function.update_of_ne hji]; exact h1
        · exact .inr (.inr (List.mem_append_left _ h1))
      · simp only [List.mem_singleton, AObs.tx.injEq] at hm
        obtain ⟨rfl, rfl, rfl, rfl⟩ := hm
        left
        refine ⟨_, List.mem_append_right _ (List.mem_map.2 ⟨j, List.mem_filter.2 ⟨List.mem_range.2 hj, by simpa using hja⟩, rfl⟩), rfl, rfl⟩
    | @erase tid u v _ _ r0 p' hpend htx hend e hs =>
      rcases hold hm with h1 | ⟨r, h1, h2, h3⟩ | h1
      · exact .inl h1
      · refine .inr (.inl ⟨r, ?_, h2, h3⟩)
        show r ∈ (Function.update s.phy i p' j).rx
        by_cases hji : j = i
        · subst hji; rw [Function.update_self, e]; exact h1
        · rw [Function.update_of_ne hji]; exact h1
      · exact .inr (.inr h1)
    | @quiet tid u v ev p' l hpend hev e hs hnl =>
      rcases hold hm with h1 | ⟨r, h1, h2, h3⟩ | h1
      · exact .inl h1
      · refine .inr (.inl ⟨r, ?_, h2, h3⟩)
        show r ∈ (Function.update s.phy i p' j).rx
        by_cases hji : j = i
        · subst hji; rw [Function.update_self, e]; exact h1
        · rw [Function.update_of_ne hji]; exact h1
      · exact .inr (.inr h1)
    | @notice tid u v r0 p' n0 src t0 f0 hpend hr0 hend hn htx hne hst hdur hno e hs =>
      obtain ⟨k1, k2, k3, k4, k5, -, ⟨k, e1, k6, k7⟩, k8⟩ := macStep_keeps w i 0 (.recv f0 (!r0.coll))
        { s with phy := Function.update s.phy i p', air := s.air ++ if r0.coll = true then [] else [.rx s.now n0 i f0] }
      have hair : (phyRet w i (macStep w i 0 (.recv f0 (!r0.coll))
        { s with phy := Function.update s.phy i p', air := s.air ++ if r0.coll = true then [] else [.rx s.now n0 i f0] })).air =
          (s.air ++ if r0.coll = true then [] else [.rx s.now n0 i f0]) ++ k := e1
      have hm' : AObs.tx t n a f ∈ s.air := by
        rw [hair] at hm
        rcases List.mem_append.1 hm with hm | hm
        · rcases List.mem_append.1 hm with hm | hm
          · exact hm
          · split at hm <;> simp at hm
        · exact absurd (k6 _ hm) (by simp [txNo])
      rcases hold hm' with h1 | ⟨r, h1, h2, h3⟩ | h1
      · left
        show ∃ x ∈ (macStep w i 0 (.recv f0 (!r0.coll)) _).flight, _
        rw [k4]
        exact h1
      · by_cases hc : j = i ∧ r.id = r0.id
        · -- it has been received
          obtain ⟨rfl, hid⟩ := hc
          have hrr : r = r0 := List.inj_on_of_nodup_map (h.phyI hw j).rxIds h1 hr0 hid
          subst hrr
          have : n0 = n := Option.some.inj (hn.symm.trans h2)
          subst this
          obtain ⟨rfl, rfl, rfl⟩ := tx_unique h hm' htx
          right; right
          rw [hair, h3]
          refine List.mem_append_left _ (List.mem_append_right _ ?_)
          have : s.now = t + w.delay t a j + w.airtime a f.size := by omega
          simp [this]
        · right; left
          refine ⟨r, ?_, ?_, h3⟩
          · unfold phyRet
            dsimp only
            by_cases hji : j = i
            · subst hji
              rw [Function.update_self]
              show r ∈ (PhyNano.ret _).rx
              unfold PhyNano.ret
              rw [k5]
              dsimp only
              rw [Function.update_self, e]
              dsimp only
              have hmem : r ∈ ((macStep w j 0 (.recv f0 (!r0.coll)) { s with
                  phy := Function.update s.phy j { s.phy j with
                    now := s.now, pend := u ++ v, inside := some r0.id, log := (s.phy j).log ++ [.notice s.now r0.id (!r0.coll)] }
                  air := s.air ++ if r0.coll = true then [] else [.rx s.now n0 j f0] }).phy j).rx := by
                rw [← e, k8]
                dsimp only
                rw [Function.update_self, e]
                exact h1
              exact (List.mem_eraseP_of_neg (by simpa using fun hid => hc ⟨rfl, hid⟩)).2 hmem
            · rw [Function.update_of_ne hji, k8]
              dsimp only
              rw [Function.update_of_ne hji]
              exact h1
          · show ((macStep w i 0 (.recv f0 (!r0.coll)) _).heard j)[r.id]? = _
            rw [k2]
            exact h2
      · right; right
        rw [hair]
        exact List.mem_append_left _ (List.mem_append_left _ h1)

theorem und_after {w : World P} (hw : w.Wf) (ops : List (Op P)) (ho : ∀ o ∈ ops, cleanMemory o) {t : ℤ} {n a : Nat} {f : Frame} {j : Nat}
    (hm : AObs.tx t n a f ∈ (after w ops).air) (hja : j ≠ a) (hj : j < w.num) (hstr : (w.pcfg j).bad (w.power t a j) 0 = false)
    (hfree : Free w (after w ops).air t n a f j) : Und w (after w ops) t n a f j := by
  induction ops using List.reverseRecOn with
  | nil => simp [after, init] at hm
  | append_singleton ops o ih =>
    obtain ⟨h, hidle⟩ := inv_after hw ops
    have m := step_smove hw h hidle o
    rw [← after_snoc] at m
    obtain ⟨l, e⟩ := air_prefix m
    have hf0 : Free w (after w ops).air t n a f j := by
      rw [e] at hfree
      exact hfree.mono
    exact und_step hw h hidle (ho o (by simp)) m hm hja hj hstr hfree (fun hm0 => ih (fun o' ho' => ho o' (by simp [ho'])) hm0 hf0)

/-- A frame whose pulses meet no others has been received when it has completely arrived. -/
theorem received_after {w : World P} (hw : w.Wf) (ops : List (Op P)) (ho : ∀ o ∈ ops, cleanMemory o) {t : ℤ} {n a : Nat} {f : Frame} {j : Nat}
    (hm : AObs.tx t n a f ∈ (after w ops).air) (hja : j ≠ a) (hj : j < w.num) (hstr : (w.pcfg j).bad (w.power t a j) 0 = false)
    (hfree : Free w (after w ops).air t n a f j) (hnow : t + w.delay t a j + w.airtime a f.size < (after w ops).now) :
    AObs.rx (t + w.delay t a j + w.airtime a f.size) n j f ∈ (after w ops).air := by
  obtain ⟨h, hidle⟩ := inv_after hw ops
  rcases und_after hw ops ho hm hja hj hstr hfree with ⟨x, h1, rfl, rfl⟩ | ⟨r, h1, h2, h3⟩ | h1
  · exfalso
    obtain ⟨k0, t1, i1, f1, k1, k2, k3, k4, -⟩ := h.sig x h1
    obtain ⟨rfl, rfl, rfl⟩ := tx_unique h hm k1
    omega
  · exfalso
    obtain ⟨n2, t2, a2, f2, q1, q2, q3, q4, q5, q6, -⟩ := h.rxRec j r h1
    have e2 : n2 = n := Option.some.inj (q1.symm.trans h2)
    subst e2
    obtain ⟨rfl, rfl, rfl⟩ := tx_unique h hm q2
    rcases (h.phyI hw j).rxPend r h1 with k | ⟨tid, k⟩
    · rw [hidle j] at k; cases k
    · have : (after w ops).now ≤ r.start + r.dur := h.pendDue j _ k
      omega
  · exact h1

end Thz.NStack
