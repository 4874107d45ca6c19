import Verif.ApLive

/-!
# C38: beam sounding

While the access point records, it notes in which sector each node was heard; after three full turns it
enters every node in the white list of one sector.
-/

namespace Thz.Ap

open Thz Thz.Central
open Thz.Nano (Body Kind bcast)
open scoped List

/-! ## Sorted maps -/

/-- A strict total order given by a Boolean function. -/
structure StrictTotal {α : Type} (lt : α → α → Bool) : Prop where
  irrefl : ∀ a, lt a a = false
  trans : ∀ a b c, lt a b = true → lt b c = true → lt a c = true
  tri : ∀ a b, a ≠ b → lt a b = false → lt b a = true

/-- The value at a key. -/
def getM {α β : Type} [DecidableEq α] (m : List (α × β)) (k : α) (d : β) : β :=
  match m.find? (fun e => e.1 = k) with
  | some e => e.2
  | none => d

/-- Keys in strictly increasing order. -/
def SortedM {α β : Type} (lt : α → α → Bool) (m : List (α × β)) : Prop := m.Pairwise (fun a b => lt a.1 b.1 = true)

section
variable {α β : Type} [DecidableEq α] {lt : α → α → Bool}

theorem keys_upsert (k : α) (d : β) (f : β → β) (m : List (α × β)) (a : α) :
    a ∈ (mapUpsert lt k d f m).map (·.1) ↔ a = k ∨ a ∈ m.map (·.1) := by
  induction m with
  | nil => simp [mapUpsert]
  | cons e rest ih =>
    unfold mapUpsert
    split
    · rename_i h
      simp [h]
    · split
      · simp
      · rw [List.map_cons, List.mem_cons, ih]
        simp only [List.map_cons, List.mem_cons]
        tauto

theorem sorted_upsert (ho : StrictTotal lt) (k : α) (d : β) (f : β → β) (m : List (α × β)) (hs : SortedM lt m) :
    SortedM lt (mapUpsert lt k d f m) := by
  induction m with
  | nil => simp [mapUpsert, SortedM]
  | cons e rest ih =>
    have h0 := List.pairwise_cons.1 hs
    unfold mapUpsert
    split
    · rename_i h
      subst h
      exact List.pairwise_cons.2 ⟨h0.1, h0.2⟩
    · rename_i hne
      split
      · rename_i hlt
        refine List.pairwise_cons.2 ⟨?_, hs⟩
        intro x hx
        rcases List.mem_cons.1 hx with rfl | hx
        · exact hlt
        · exact ho.trans _ _ _ hlt (h0.1 x hx)
      · rename_i hlt
        refine List.pairwise_cons.2 ⟨?_, ih h0.2⟩
        intro x hx
        have hk : x.1 ∈ (mapUpsert lt k d f rest).map (·.1) := List.mem_map.2 ⟨x, hx, rfl⟩
        rcases (keys_upsert k d f rest x.1).1 hk with h | h
        · show lt e.1 x.1 = true
          rw [h]
          exact ho.tri _ _ (fun q => hne q.symm) (by simpa using hlt)
        · obtain ⟨y, hy, hyx⟩ := List.mem_map.1 h
          show lt e.1 x.1 = true
          rw [← hyx]
          exact h0.1 y hy

theorem getM_cons (e : α × β) (rest : List (α × β)) (a : α) (d : β) :
    getM (e :: rest) a d = if e.1 = a then e.2 else getM rest a d := by
  unfold getM
  rw [List.find?_cons]
  by_cases h : e.1 = a <;> simp [h]

theorem getM_absent (m : List (α × β)) (a : α) (d : β) (h : a ∉ m.map (·.1)) : getM m a d = d := by
  induction m with
  | nil => rfl
  | cons e rest ih =>
    simp only [List.map_cons, List.mem_cons, not_or] at h
    rw [getM_cons, if_neg (fun q => h.1 q.symm), ih h.2]

theorem getM_upsert (ho : StrictTotal lt) (k : α) (d : β) (f : β → β) (m : List (α × β)) (hs : SortedM lt m) (a : α) :
    getM (mapUpsert lt k d f m) a d = if a = k then f (getM m k d) else getM m a d := by
  induction m with
  | nil =>
    unfold mapUpsert
    rw [getM_cons]
    by_cases h : a = k
    · simp [h, getM]
    · rw [if_neg (fun q => h q.symm), if_neg h]
  | cons e rest ih =>
    have h0 := List.pairwise_cons.1 hs
    unfold mapUpsert
    split
    · rename_i h
      subst h
      rw [getM_cons, getM_cons, getM_cons]
      by_cases h : a = e.1
      · simp [h]
      · rw [if_neg (fun q => h q.symm), if_neg h, if_neg (fun q => h q.symm)]
    · rename_i hne
      split
      · rename_i hlt
        have hk : k ∉ (e :: rest).map (·.1) := by
          intro hm
          rcases List.mem_cons.1 hm with h | h
          · exact hne h.symm
          · obtain ⟨y, hy, hyx⟩ := List.mem_map.1 h
            have := ho.trans _ _ _ hlt (h0.1 y hy)
            rw [hyx, ho.irrefl] at this
            simp at this
        rw [getM_cons, getM_absent _ k d hk]
        by_cases h : a = k
        · simp [h]
        · rw [if_neg (fun q => h q.symm), if_neg h]
      · rw [getM_cons, ih h0.2, getM_cons e rest k, getM_cons e rest a, if_neg hne]
        by_cases h : a = k
        · subst h
          rw [if_neg hne, if_pos rfl, if_pos rfl]
        · rw [if_neg h, if_neg h]

theorem getM_mem (m : List (α × β)) (e : α × β) (d : β) (ho : StrictTotal lt) (hs : SortedM lt m) (he : e ∈ m) :
    getM m e.1 d = e.2 := by
  induction m with
  | nil => simp at he
  | cons x rest ih =>
    have h0 := List.pairwise_cons.1 hs
    rw [getM_cons]
    rcases List.mem_cons.1 he with rfl | he
    · simp
    · rw [if_neg, ih h0.2 he]
      intro q
      have := h0.1 e he
      rw [q, ho.irrefl] at this
      simp at this

theorem mem_getM (m : List (α × β)) (a : α) (d : β) (h : a ∈ m.map (·.1)) : (a, getM m a d) ∈ m := by
  induction m with
  | nil => simp at h
  | cons x rest ih =>
    rw [getM_cons]
    by_cases hx : x.1 = a
    · rw [if_pos hx, ← hx]
      exact List.mem_cons_self
    · rw [if_neg hx]
      refine List.mem_cons_of_mem _ (ih ?_)
      rcases List.mem_cons.1 h with h | h
      · exact absurd h.symm hx
      · exact h

end

theorem stQ : StrictTotal ltQ := by
  refine ⟨?_, ?_, ?_⟩
  · intro a; simp [ltQ]
  · intro a b c h1 h2
    simp only [ltQ, decide_eq_true_eq] at *
    exact lt_trans h1 h2
  · intro a b h1 h2
    simp only [ltQ, decide_eq_false_iff_not, decide_eq_true_eq] at *
    exact lt_of_le_of_ne (not_lt.1 h2) (fun q => h1 q.symm)

instance : Trans (fun (a b : UInt8) => a < b) (fun a b => a < b) (fun a b => a < b) :=
  ⟨fun h1 h2 => UInt8.lt_trans h1 h2⟩

instance : Std.Trichotomous (fun (a b : UInt8) => a < b) :=
  ⟨fun a b h1 h2 => by
    have h3 : ¬ a.toNat < b.toNat := h1
    have h4 : ¬ b.toNat < a.toNat := h2
    exact UInt8.toNat_inj.1 (by omega)⟩

instance : Std.Irrefl (fun (a b : UInt8) => a < b) := ⟨fun a => UInt8.lt_irrefl a⟩

theorem stMac : StrictTotal ltMac := by
  refine ⟨?_, ?_, ?_⟩
  · intro a
    simp only [ltMac, decide_eq_false_iff_not]
    exact List.lt_irrefl _
  · intro a b c h1 h2
    simp only [ltMac, decide_eq_true_eq] at *
    exact List.lt_trans h1 h2
  · intro a b h1 h2
    simp only [ltMac, decide_eq_false_iff_not, decide_eq_true_eq] at *
    by_contra h3
    apply h1
    have := List.le_antisymm (as := [a.b0, a.b1, a.b2, a.b3, a.b4, a.b5]) (bs := [b.b0, b.b1, b.b2, b.b3, b.b4, b.b5])
      h3 h2
    simp only [List.cons.injEq, and_true] at this
    obtain ⟨a0, a1, a2, a3, a4, a5⟩ := a
    obtain ⟨b0, b1, b2, b3, b4, b5⟩ := b
    simp only [Mac48.mk.injEq]
    exact this

/-! ## What was heard -/

/-- One observation: the antenna's angle and the receptions so far, as sector, node and power. -/
def hear (h : ℚ × List (ℚ × Mac48 × ℚ)) : Obs → ℚ × List (ℚ × Mac48 × ℚ)
  | .turned a => (a, h.2)
  | .rx f p => if f.kind = .rts then (h.1, h.2 ++ [(h.1, f.src, p)]) else h
  | _ => h

/-- The RTSs received, each with the sector to which the antenna pointed. -/
def heard (log : List Obs) : List (ℚ × Mac48 × ℚ) := (log.foldl hear (0, [])).2

/-- The power with which a node was first received in a sector. -/
def firstPower (l : List (ℚ × Mac48 × ℚ)) (a : ℚ) (n : Mac48) : Option ℚ :=
  (l.find? (fun e => e.1 = a ∧ e.2.1 = n)).map (·.2.2)

/-- The nodes entered in the white list, with their sectors. -/
def listedOf (log : List Obs) : List (Mac48 × ℚ) :=
  log.filterMap fun | .listed n a => some (n, a) | _ => none

/-- The sounding phase: everything before the first entry in the white list. -/
def sounding (log : List Obs) : List Obs := log.takeWhile (fun | .listed _ _ => false | _ => true)

theorem firstPower_snoc (l : List (ℚ × Mac48 × ℚ)) (a b : ℚ) (n m : Mac48) (p : ℚ) :
    firstPower (l ++ [(b, m, p)]) a n =
      if a = b ∧ n = m then some ((firstPower l a n).getD p) else firstPower l a n := by
  unfold firstPower
  rw [List.find?_append]
  cases h : l.find? (fun e => e.1 = a ∧ e.2.1 = n) with
  | some e => simp
  | none =>
    by_cases h2 : a = b ∧ n = m
    · obtain ⟨rfl, rfl⟩ := h2
      simp
    · rw [if_neg h2]
      rw [Option.none_or]
      rw [List.find?_cons_of_neg (by
        simp only [decide_eq_true_eq]
        rintro ⟨q1, q2⟩
        exact h2 ⟨q1.symm, q2.symm⟩)]
      rfl

/-- A sector's entry says: these are the first powers. -/
def EntryOk (l : List (ℚ × Mac48 × ℚ)) (a : ℚ) (v : List (Mac48 × ℚ)) : Prop :=
  ∀ n p, (n, p) ∈ v ↔ firstPower l a n = some p

theorem firstPower_any {l : List (ℚ × Mac48 × ℚ)} {a : ℚ} {v : List (Mac48 × ℚ)} (h : EntryOk l a v) (n : Mac48) :
    v.any (fun e => e.1 = n) = (firstPower l a n).isSome := by
  rw [Bool.eq_iff_iff, List.any_eq_true, Option.isSome_iff_exists]
  constructor
  · rintro ⟨⟨m, p⟩, he, hn⟩
    simp only [decide_eq_true_eq] at hn
    subst hn
    exact ⟨p, (h m p).1 he⟩
  · rintro ⟨p, hp⟩
    exact ⟨(n, p), (h n p).2 hp, by simp⟩

theorem EntryOk.add {l : List (ℚ × Mac48 × ℚ)} {a : ℚ} {v : List (Mac48 × ℚ)} (h : EntryOk l a v) (m : Mac48) (q : ℚ) :
    EntryOk (l ++ [(a, m, q)]) a (addNode m q v) := by
  intro n p
  have e := firstPower_snoc l a a n m q
  by_cases hn : n = m
  · subst hn
    rw [if_pos ⟨rfl, rfl⟩] at e
    rw [e]
    unfold addNode
    rw [firstPower_any h n]
    cases hf : firstPower l a n with
    | some x =>
      simp only [Option.isSome_some, if_true, Option.getD_some]
      rw [h n p, hf]
    | none =>
      simp only [Option.isSome_none, Bool.false_eq_true, if_false, Option.getD_none, List.mem_append, List.mem_singleton,
        Prod.mk.injEq, true_and, Option.some.injEq]
      rw [h n p, hf]
      simp [eq_comm]
  · rw [if_neg (fun x => hn x.2)] at e
    rw [e]
    unfold addNode
    split
    · exact h n p
    · rw [List.mem_append, h n p]
      simp [hn]

theorem EntryOk.other {l : List (ℚ × Mac48 × ℚ)} {a b : ℚ} {v : List (Mac48 × ℚ)} (h : EntryOk l a v) (hab : a ≠ b)
    (m : Mac48) (q : ℚ) : EntryOk (l ++ [(b, m, q)]) a v := by
  intro n p
  rw [firstPower_snoc, if_neg (fun x => hab x.1)]
  exact h n p

/-- The record says what was heard. -/
structure MapOk (l : List (ℚ × Mac48 × ℚ)) (m : List (ℚ × List (Mac48 × ℚ))) : Prop where
  sorted : SortedM ltQ m
  entry : ∀ a, EntryOk l a (getM m a [])

theorem MapOk.record {l : List (ℚ × Mac48 × ℚ)} {m : List (ℚ × List (Mac48 × ℚ))} (h : MapOk l m) (a : ℚ)
    (r : List (Frame × ℚ)) : MapOk (l ++ r.map (fun x => (a, x.1.src, x.2))) (record a r m) := by
  unfold Ap.record
  refine ⟨sorted_upsert stQ _ _ _ _ h.sorted, ?_⟩
  intro b
  rw [getM_upsert stQ _ _ _ _ h.sorted]
  have key : ∀ (r : List (Frame × ℚ)) (l : List (ℚ × Mac48 × ℚ)) (v : List (Mac48 × ℚ)), EntryOk l a v →
      EntryOk (l ++ r.map (fun x => (a, x.1.src, x.2))) a (r.foldl (fun v r => addNode r.1.src r.2 v) v) := by
    intro r
    induction r with
    | nil => intro l v hv; simpa using hv
    | cons x rest ih =>
      intro l v hv
      have := ih _ _ (hv.add x.1.src x.2)
      simpa using this
  have key2 : ∀ (r : List (Frame × ℚ)) (l : List (ℚ × Mac48 × ℚ)) (v : List (Mac48 × ℚ)), EntryOk l b v → b ≠ a →
      EntryOk (l ++ r.map (fun x => (a, x.1.src, x.2))) b v := by
    intro r
    induction r with
    | nil => intro l v hv _; simpa using hv
    | cons x rest ih =>
      intro l v hv hb
      have := ih _ _ (hv.other hb x.1.src x.2) hb
      simpa using this
  split
  · rename_i hb
    subst hb
    exact key r l _ (h.entry b)
  · rename_i hb
    exact key2 r l _ (h.entry b) hb

/-! ## Regrouping by node -/

/-- The sectors and powers of a node in the record. -/
def ofNode (m : List (ℚ × List (Mac48 × ℚ))) (n : Mac48) : List (ℚ × ℚ) :=
  m.flatMap (fun e => e.2.filterMap (fun p => if p.1 = n then some (e.1, p.2) else none))

theorem byNode_inner (a : ℚ) (v : List (Mac48 × ℚ)) (nm : List (Mac48 × List (ℚ × ℚ))) (hs : SortedM ltMac nm) :
    let nm' := v.foldl (fun nm p => mapUpsert ltMac p.1 [] (· ++ [(a, p.2)]) nm) nm
    SortedM ltMac nm' ∧ (∀ n, n ∈ nm'.map (·.1) ↔ n ∈ nm.map (·.1) ∨ n ∈ v.map (·.1)) ∧
      ∀ n, getM nm' n [] = getM nm n [] ++ v.filterMap (fun p => if p.1 = n then some (a, p.2) else none) := by
  induction v generalizing nm with
  | nil => exact ⟨hs, by simp, by simp⟩
  | cons p rest ih =>
    have h1 := sorted_upsert stMac p.1 [] (· ++ [(a, p.2)]) nm hs
    obtain ⟨i1, i2, i3⟩ := ih _ h1
    refine ⟨i1, ?_, ?_⟩
    · intro n
      rw [List.foldl_cons, i2, keys_upsert, List.map_cons, List.mem_cons]
      tauto
    · intro n
      rw [List.foldl_cons, i3, getM_upsert stMac _ _ _ _ hs]
      by_cases h : n = p.1
      · subst h
        simp
      · rw [if_neg h, List.filterMap_cons, if_neg (fun q => h q.symm)]

theorem byNode_spec (m : List (ℚ × List (Mac48 × ℚ))) (nm : List (Mac48 × List (ℚ × ℚ))) (hs : SortedM ltMac nm) :
    SortedM ltMac (byNode m nm) ∧ (∀ n, n ∈ (byNode m nm).map (·.1) ↔ n ∈ nm.map (·.1) ∨ ∃ e ∈ m, n ∈ e.2.map (·.1)) ∧
      ∀ n, getM (byNode m nm) n [] = getM nm n [] ++ ofNode m n := by
  induction m generalizing nm with
  | nil => exact ⟨hs, by simp [byNode], by simp [byNode, ofNode]⟩
  | cons e rest ih =>
    obtain ⟨j1, j2, j3⟩ := byNode_inner e.1 e.2 nm hs
    obtain ⟨i1, i2, i3⟩ := ih _ j1
    refine ⟨i1, ?_, ?_⟩
    · intro n
      show n ∈ (byNode rest _).map (·.1) ↔ _
      rw [i2, j2]
      simp only [List.mem_cons, exists_eq_or_imp]
      tauto
    · intro n
      show getM (byNode rest _) n [] = _
      rw [i3, j3, List.append_assoc]
      simp [ofNode]

theorem mem_ofNode {l : List (ℚ × Mac48 × ℚ)} {m : List (ℚ × List (Mac48 × ℚ))} (h : MapOk l m) (n : Mac48) (a p : ℚ) :
    (a, p) ∈ ofNode m n ↔ firstPower l a n = some p := by
  rw [← h.entry a n p]
  unfold ofNode
  rw [List.mem_flatMap]
  constructor
  · rintro ⟨e, he, hm⟩
    rw [List.mem_filterMap] at hm
    obtain ⟨x, hx, hq⟩ := hm
    split at hq
    · rename_i hn
      injection hq with hq
      injection hq with q1 q2
      subst q1 q2 hn
      rw [getM_mem m e [] stQ h.sorted he]
      exact hx
    · simp at hq
  · intro hm
    have hk : a ∈ m.map (·.1) := by
      by_contra hk
      rw [getM_absent m a [] hk] at hm
      simp at hm
    refine ⟨(a, getM m a []), mem_getM m a [] hk, ?_⟩
    rw [List.mem_filterMap]
    exact ⟨(n, p), hm, by simp⟩

theorem node_heard {l : List (ℚ × Mac48 × ℚ)} {m : List (ℚ × List (Mac48 × ℚ))} (h : MapOk l m) (n : Mac48) :
    (∃ e ∈ m, n ∈ e.2.map (·.1)) ↔ n ∈ l.map (·.2.1) := by
  constructor
  · rintro ⟨e, he, hn⟩
    obtain ⟨⟨n', p⟩, hx, rfl⟩ := List.mem_map.1 hn
    have h1 := (h.entry e.1 n' p).1 (by rw [getM_mem m e [] stQ h.sorted he]; exact hx)
    unfold firstPower at h1
    rw [Option.map_eq_some_iff] at h1
    obtain ⟨y, hy, -⟩ := h1
    have := List.find?_some hy
    simp only [decide_eq_true_eq] at this
    exact List.mem_map.2 ⟨y, List.mem_of_find?_eq_some hy, this.2⟩
  · intro hn
    obtain ⟨⟨a, n', p⟩, hx, rfl⟩ := List.mem_map.1 hn
    have h1 : (firstPower l a n').isSome := by
      unfold firstPower
      rw [Option.isSome_map, List.find?_isSome]
      exact ⟨_, hx, by simp⟩
    obtain ⟨q, hq⟩ := Option.isSome_iff_exists.1 h1
    have h2 := (h.entry a n' q).2 hq
    have hk : a ∈ m.map (·.1) := by
      by_contra hk
      rw [getM_absent m a [] hk] at h2
      simp at h2
    exact ⟨_, mem_getM m a [] hk, List.mem_map.2 ⟨_, h2, rfl⟩⟩

theorem best_spec (l : List (ℚ × ℚ)) (hl : l ≠ []) (hp : ∀ e ∈ l, -200 < e.2) :
    ∃ p, (bestSector l, p) ∈ l ∧ ∀ e ∈ l, e.2 ≤ p := by
  have key : ∀ (l : List (ℚ × ℚ)) (b : ℚ × ℚ),
      let r := l.foldl (fun (b : ℚ × ℚ) e => if e.2 > b.2 then e else b) b
      (r = b ∨ r ∈ l) ∧ b.2 ≤ r.2 ∧ ∀ e ∈ l, e.2 ≤ r.2 := by
    intro l
    induction l with
    | nil => intro b; simp
    | cons x rest ih =>
      intro b
      obtain ⟨i1, i2, i3⟩ := ih (if x.2 > b.2 then x else b)
      simp only [List.foldl_cons]
      refine ⟨?_, ?_, ?_⟩
      · rcases i1 with h | h
        · rw [h]
          split
          · exact .inr List.mem_cons_self
          · exact .inl rfl
        · exact .inr (List.mem_cons_of_mem _ h)
      · refine le_trans ?_ i2
        split
        · rename_i h; exact le_of_lt h
        · exact le_rfl
      · intro e he
        rcases List.mem_cons.1 he with rfl | he
        · refine le_trans ?_ i2
          split
          · exact le_rfl
          · rename_i h; exact not_lt.1 h
        · exact i3 e he
  obtain ⟨h1, h2, h3⟩ := key l (0, -200)
  refine ⟨(l.foldl (fun (b : ℚ × ℚ) e => if e.2 > b.2 then e else b) (0, -200)).2, ?_, h3⟩
  rcases h1 with h | h
  · exfalso
    cases l with
    | nil => exact hl rfl
    | cons x rest =>
      have h4 := h3 x List.mem_cons_self
      have h5 := hp x List.mem_cons_self
      rw [h] at h4
      linarith
  · exact h

/-! ## The run -/

/-- What the sounding invariant looks at. -/
def rc (s : St) : Bool × ℚ × List (Frame × ℚ) × List (ℚ × List (Mac48 × ℚ)) × List (Mac48 × List (ℚ × ℚ)) × UInt16 ×
    (ℚ × List (ℚ × Mac48 × ℚ)) × List (Mac48 × ℚ) :=
  (s.recording, s.angle, s.rtsList, s.sectorMap, s.nodeMap, s.expected, s.log.foldl hear (0, []), listedOf s.log)

/-- An observation that the invariant does not look at. -/
def dull : Obs → Bool
  | .turned _ => false
  | .rx _ _ => false
  | .listed _ _ => false
  | _ => true

theorem rc_emit (s : St) (o : Obs) (h : dull o = true) : rc (s.emit o) = rc s := by
  unfold rc St.emit
  dsimp only
  have h1 : (s.log ++ [o]).foldl hear (0, []) = s.log.foldl hear (0, []) := by
    rw [List.foldl_append]
    cases o <;> first | rfl | simp [dull] at h
  have h2 : listedOf (s.log ++ [o]) = listedOf s.log := by
    unfold listedOf
    rw [List.filterMap_append]
    cases o <;> first | (simp; done) | simp [dull] at h
  rw [h1, h2]

theorem rc_sendPacket (c : Cfg) (f : Frame) (s : St) : rc (sendPacket c f s) = rc s := by
  unfold sendPacket
  split
  · split
    · rw [rc_emit _ _ rfl]; rfl
    · rw [rc_emit _ _ rfl]; rfl
  · rw [rc_emit _ _ rfl]

/-- Harmless pending events while recording. -/
def calm : Ev → Bool
  | .waitTime => true
  | .phyDone f => decide (f.kind = .cta)
  | _ => false

theorem calm_sendPacket (c : Cfg) (f : Frame) (s : St) (hf : f.kind = .cta) (h : s.pend.all (fun e => calm e.2.2) = true) :
    (sendPacket c f s).pend.all (fun e => calm e.2.2) = true := by
  unfold sendPacket
  split
  · split
    · show (s.pend ++ [_]).all _ = true
      rw [List.all_append, h]
      simp [calm, hf]
    · exact h
  · exact h

theorem wrapDown_rc (n : Nat) (s : St) : ∃ a, rc (wrapDown n s) = rc { s with angle := a } := by
  induction n generalizing s with
  | zero => exact ⟨s.angle, rfl⟩
  | succ n ih =>
    unfold wrapDown
    split
    · obtain ⟨a, ha⟩ := ih ({ s with cycles := s.cycles + 1, angle := s.angle - 360 }.emit .cycle)
      refine ⟨a, ha.trans ?_⟩
      rw [show ({ ({ s with cycles := s.cycles + 1, angle := s.angle - 360 } : St).emit .cycle with angle := a } : St) =
        ({ s with cycles := s.cycles + 1, angle := a } : St).emit .cycle from rfl, rc_emit _ _ rfl]
      rfl
    · exact ⟨s.angle, rfl⟩

theorem wrapDown_pend (n : Nat) (s : St) : (wrapDown n s).pend = s.pend := by
  induction n generalizing s with
  | zero => rfl
  | succ n ih =>
    unfold wrapDown
    split
    · rw [ih]; rfl
    · rfl

/-- A turn only points the antenna elsewhere, in the three-way protocol. -/
theorem turn_rc (c : Cfg) (hw : c.ways = 3) (me : Mac48) (s : St) :
    (∃ a, rc (turn c me s) = (s.recording, a, s.rtsList, s.sectorMap, s.nodeMap, s.expected,
      (a, (s.log.foldl hear (0, [])).2), listedOf s.log)) ∧
    (s.pend.all (fun e => calm e.2.2) = true → (turn c me s).pend.all (fun e => calm e.2.2) = true) := by
  unfold turn
  dsimp only
  rw [if_pos hw]
  unfold sendCta3
  dsimp only
  constructor
  · rw [rc_sendPacket]
    obtain ⟨a, ha⟩ := wrapDown_rc (rounds (wrapUp (rounds (s.angle + c.beamwidth)) (s.angle + c.beamwidth)))
      { s with angle := wrapUp (rounds (s.angle + c.beamwidth)) (s.angle + c.beamwidth) }
    generalize wrapDown (rounds (wrapUp (rounds (s.angle + c.beamwidth)) (s.angle + c.beamwidth)))
      { s with angle := wrapUp (rounds (s.angle + c.beamwidth)) (s.angle + c.beamwidth) } = s1 at ha ⊢
    unfold rc at ha
    simp only [Prod.mk.injEq] at ha
    obtain ⟨h1, h2, h3, h4, h5, h6, h7, h8⟩ := ha
    refine ⟨s1.angle, ?_⟩
    unfold rc
    show (s1.recording, s1.angle, s1.rtsList, s1.sectorMap, s1.nodeMap, s1.expected,
      (s1.log ++ [Obs.turned s1.angle]).foldl hear (0, []), listedOf (s1.log ++ [Obs.turned s1.angle])) = _
    rw [List.foldl_append, h7, h1, h3, h4, h5, h6]
    have h9 : listedOf (s1.log ++ [.turned s1.angle]) = listedOf s1.log := by simp [listedOf]
    rw [h9, h8]
    rfl
  · intro h
    apply calm_sendPacket _ _ _ rfl
    show (List.all ((wrapDown _ _).pend ++ [_]) _) = true
    rw [wrapDown_pend, List.all_append, h]
    rfl

/-- The invariant while recording. -/
structure Sounding (s : St) : Prop where
  recording : s.recording = true
  angle : (s.log.foldl hear (0, [])).1 = s.angle
  expected : s.expected = 0
  nodeMap : s.nodeMap = []
  map : ∃ l, MapOk l s.sectorMap ∧ heard s.log = l ++ s.rtsList.map (fun x => (s.angle, x.1.src, x.2))
  calm : s.pend.all (fun e => calm e.2.2) = true
  listed : listedOf s.log = []

/-- What C38 says about a log. -/
structure Assigned (log : List Obs) : Prop where
  once : ((listedOf log).map (·.1)).Nodup
  heard : ∀ n, n ∈ (listedOf log).map (·.1) ↔ n ∈ (heard (sounding log)).map (·.2.1)
  best : ∀ n a, (n, a) ∈ listedOf log → (∀ b p, firstPower (Ap.heard (sounding log)) b n = some p → -200 < p) →
    ∃ p, firstPower (Ap.heard (sounding log)) a n = some p ∧
      ∀ b q, firstPower (Ap.heard (sounding log)) b n = some q → q ≤ p

theorem Sounding.rc {s s' : St} (h : Sounding s) (e : rc s' = rc s) (hp : s'.pend.all (fun e => Ap.calm e.2.2) = true) :
    Sounding s' := by
  unfold Ap.rc at e
  simp only [Prod.mk.injEq] at e
  obtain ⟨h1, h2, h3, h4, h5, h6, h7, h8⟩ := e
  refine ⟨h1.trans h.recording, by rw [h7, h2]; exact h.angle, h6.trans h.expected, h5.trans h.nodeMap, ?_, hp,
    h8.trans h.listed⟩
  unfold heard
  rw [h7, h4, h3, h2]
  exact h.map

theorem takeWhile_self {α : Type} (p : α → Bool) (l : List α) : l.takeWhile p = l ↔ ∀ x ∈ l, p x = true := by
  induction l with
  | nil => simp
  | cons a rest ih =>
    rw [List.takeWhile_cons]
    split
    · rename_i h
      simp [ih, h]
    · rename_i h
      simp [h]

theorem sounding_nil (log : List Obs) (h : listedOf log = []) : sounding log = log := by
  unfold sounding
  rw [takeWhile_self]
  intro o ho
  cases o with
  | listed n a =>
    exfalso
    have : (n, a) ∈ listedOf log := List.mem_filterMap.2 ⟨_, ho, rfl⟩
    rw [h] at this
    simp at this
  | _ => rfl

/-- After the assignment, a longer log without further entries says the same. -/
theorem sounding_append (log more : List Obs) (h : listedOf log ≠ []) : sounding (log ++ more) = sounding log := by
  unfold sounding
  rw [List.takeWhile_append, if_neg]
  intro hl
  apply h
  have h1 := (List.takeWhile_prefix (l := log) (p := (fun | .listed _ _ => false | _ => true : Obs → Bool))).eq_of_length hl
  rw [takeWhile_self] at h1
  unfold listedOf
  rw [List.filterMap_eq_nil_iff]
  intro o ho
  have := h1 o ho
  cases o <;> first | rfl | simp at this

theorem Assigned.more {log log' : List Obs} (h : Assigned log) (hn : listedOf log ≠ []) (hp : log <+: log')
    (hl : listedOf log' = listedOf log) : Assigned log' := by
  obtain ⟨x, rfl⟩ := hp
  have e := sounding_append log x hn
  exact ⟨by rw [hl]; exact h.once, by rw [hl, e]; exact h.heard, by rw [hl, e]; exact h.best⟩

theorem assign_log (c : Cfg) (i : Nat) (nm : List (Mac48 × List (ℚ × ℚ))) (s : St) :
    (assign c i nm s).log = s.log ++ nm.map (fun e => .listed e.1 (bestSector e.2)) ∧
      (assign c i nm s).recording = s.recording := by
  induction nm generalizing i s with
  | nil => simp [assign]
  | cons e rest ih =>
    unfold assign
    dsimp only
    obtain ⟨h1, h2⟩ := ih (i + 1) (St.sched ({ s with whiteList := mapUpsert ltQ (bestSector e.2) [] (· ++ [e.1]) s.whiteList }.emit
      (.listed e.1 (bestSector e.2))) (i * (c.ctrlDur .cts + c.ns 1)) (.feedback (bestSector e.2) e.1))
    refine ⟨h1.trans ?_, h2⟩
    show (s.log ++ [_]) ++ _ = _
    simp

/-- The assignment is right. -/
theorem assigned (log : List Obs) (m : List (ℚ × List (Mac48 × ℚ))) (hl : listedOf log = []) (hm : MapOk (heard log) m) :
    Assigned (log ++ (byNode m []).map (fun e => .listed e.1 (bestSector e.2))) := by
  obtain ⟨h1, h2, h3⟩ := byNode_spec m [] (by simp [SortedM])
  have e1 : listedOf (log ++ (byNode m []).map (fun e => .listed e.1 (bestSector e.2))) =
      (byNode m []).map (fun e => (e.1, bestSector e.2)) := by
    unfold listedOf at hl ⊢
    rw [List.filterMap_append, hl, List.nil_append, List.filterMap_map]
    show List.filterMap (fun e : Mac48 × List (ℚ × ℚ) => some (e.1, bestSector e.2)) _ = _
    induction byNode m [] with
    | nil => rfl
    | cons x rest ih => simp [ih]
  have e2 : sounding (log ++ (byNode m []).map (fun e => .listed e.1 (bestSector e.2))) = log := by
    have h0 := sounding_nil log hl
    unfold sounding at h0 ⊢
    rw [List.takeWhile_append, if_pos (by rw [h0])]
    cases byNode m [] <;> simp
  refine ⟨?_, ?_, ?_⟩
  · rw [e1, List.map_map]
    show ((byNode m []).map (fun e => e.1)).Nodup
    unfold List.Nodup
    rw [List.pairwise_map]
    refine List.Pairwise.imp ?_ h1
    intro a b hab hq
    rw [hq, stMac.irrefl] at hab
    simp at hab
  · intro n
    rw [e1, e2, List.map_map]
    show n ∈ (byNode m []).map (·.1) ↔ _
    rw [h2 n, ← node_heard hm n]
    simp
  · intro n a hna hpw
    rw [e1] at hna
    rw [e2] at hpw ⊢
    obtain ⟨e, he, heq⟩ := List.mem_map.1 hna
    injection heq with q1 q2
    subst q1 q2
    have h4 := h3 e.1
    rw [getM_mem _ e [] stMac h1 he] at h4
    have h5 : e.2 = ofNode m e.1 := by rw [h4]; simp [getM]
    have hne : e.2 ≠ [] := by
      have h6 := (h2 e.1).1 (List.mem_map.2 ⟨e, he, rfl⟩)
      rcases h6 with h6 | ⟨x, hx, h6⟩
      · simp at h6
      · obtain ⟨⟨n', p⟩, hy, hy2⟩ := List.mem_map.1 h6
        dsimp only at hy2
        rw [h5]
        intro hnil
        have : (x.1, p) ∈ ofNode m e.1 := by
          unfold ofNode
          rw [List.mem_flatMap]
          exact ⟨x, hx, List.mem_filterMap.2 ⟨(n', p), hy, by simp [hy2]⟩⟩
        rw [hnil] at this
        simp at this
    obtain ⟨p, hp1, hp2⟩ := best_spec e.2 hne (by
      intro x hx
      rw [h5] at hx
      exact hpw x.1 x.2 ((mem_ofNode hm e.1 x.1 x.2).1 hx))
    refine ⟨p, (mem_ofNode hm e.1 _ p).1 (by rw [← h5]; exact hp1), ?_⟩
    intro b q hq
    exact hp2 (b, q) (by rw [h5]; exact (mem_ofNode hm e.1 b q).2 hq)

/-- While recording, or when it is over. -/
def Phase (s : St) : Prop :=
  Sounding s ∨ (s.recording = false ∧ listedOf s.log ≠ [] ∧ Assigned s.log)

/-- Without recording no node is listed. -/
theorem quiet_turn (c : Cfg) (me : Mac48) (s : St) :
    (turn c me s).recording = s.recording ∧ listedOf (turn c me s).log = listedOf s.log := by
  unfold turn
  dsimp only
  obtain ⟨a, ha⟩ := wrapDown_rc (rounds (wrapUp (rounds (s.angle + c.beamwidth)) (s.angle + c.beamwidth)))
    { s with angle := wrapUp (rounds (s.angle + c.beamwidth)) (s.angle + c.beamwidth) }
  generalize wrapDown (rounds (wrapUp (rounds (s.angle + c.beamwidth)) (s.angle + c.beamwidth)))
    { s with angle := wrapUp (rounds (s.angle + c.beamwidth)) (s.angle + c.beamwidth) } = s1 at ha ⊢
  have h1 : s1.recording = s.recording := congrArg (fun x => x.1) ha
  have h8 : listedOf s1.log = listedOf s.log := congrArg (fun x => x.2.2.2.2.2.2.2) ha
  have h9 : ∀ a, listedOf (s1.log ++ [.turned a]) = listedOf s1.log := by intro a; simp [listedOf]
  have key : ∀ f (u : St), u.recording = s1.recording → u.log = s1.log ++ [.turned s1.angle] →
      (sendPacket c f u).recording = s.recording ∧ listedOf (sendPacket c f u).log = listedOf s.log := by
    intro f u u1 u2
    have e := rc_sendPacket c f u
    refine ⟨(congrArg (fun x => x.1) e).trans (u1.trans h1), (congrArg (fun x => x.2.2.2.2.2.2.2) e).trans ?_⟩
    show listedOf u.log = _
    rw [u2, h9, h8]
  split
  · exact key _ _ rfl rfl
  · exact key _ _ rfl rfl

theorem quiet_sendAck (c : Cfg) (s : St) : rc (sendAck c s) = rc s := by
  unfold sendAck
  split
  · rfl
  · exact rc_sendPacket c _ s

theorem quiet_cancel (s : St) (o : Option Nat) : rc (s.cancel o) = rc s := by
  cases o <;> rfl

theorem quiet_answer (c : Cfg) (i : Nat) (w : ℤ) (l : List (Frame × ℚ)) (s : St) : rc (answer c i w l s) = rc s := by
  induction l generalizing i w s with
  | nil => rfl
  | cons r rest ih =>
    unfold answer
    dsimp only
    rw [ih]; rfl

theorem quiet_step (c : Cfg) (me : Mac48) (s : St) (o : Op) (hr : s.recording = false) :
    (step c me s o).recording = false ∧ listedOf (step c me s o).log = listedOf s.log := by
  have pr : ∀ {s' s : St}, rc s' = rc s → s.recording = false → s'.recording = false ∧ listedOf s'.log = listedOf s.log :=
    fun e h => ⟨(congrArg (fun x => x.1) e).trans h, congrArg (fun x => x.2.2.2.2.2.2.2) e⟩
  cases o with
  | advance d => exact ⟨hr, rfl⟩
  | rxStart =>
    show (receivePacket s).recording = false ∧ listedOf (receivePacket s).log = _
    unfold receivePacket
    dsimp only
    refine pr ?_ hr
    rw [← quiet_cancel s s.dataEv]
    split <;> rfl
  | rxDone f ok p =>
    show (receivePacketDone c me f ok p s).recording = false ∧ listedOf (receivePacketDone c me f ok p s).log = _
    unfold receivePacketDone
    dsimp only
    split
    · exact ⟨hr, rfl⟩
    · have e0 : listedOf (s.log ++ [.rx f p]) = listedOf s.log := by simp [listedOf]
      have b0 : ({ s with state := .idle }.emit (.rx f p) : St).recording = false := hr
      have b1 : listedOf ({ s with state := .idle }.emit (.rx f p) : St).log = listedOf s.log := e0
      generalize ({ s with state := .idle }.emit (.rx f p) : St) = s1 at b0 b1 ⊢
      rw [← b1]
      split
      · exact ⟨b0, rfl⟩
      · unfold receiveData
        dsimp only
        have fw : ∀ u : St, rc (forwardIfNew f u) = rc u := by
          intro u
          unfold forwardIfNew
          dsimp only
          split
          · rw [rc_emit _ _ rfl]; rfl
          · rfl
        refine pr (fw _ |>.trans ?_) b0
        split
        · rw [quiet_sendAck]
          exact quiet_cancel _ _
        · rfl
      · exact ⟨b0, rfl⟩
  | fire tid =>
    show (fire c me tid s).recording = false ∧ listedOf (fire c me tid s).log = _
    unfold fire
    split
    · exact ⟨hr, rfl⟩
    · rename_i due e _
      dsimp only
      have e0 : rc s = rc ({ s with pend := s.pend.filter (fun e => e.1 ≠ tid), now := max s.now due } : St) := rfl
      have e1 : listedOf s.log = listedOf ({ s with pend := s.pend.filter (fun e => e.1 ≠ tid), now := max s.now due } : St).log := rfl
      have e2 : ({ s with pend := s.pend.filter (fun e => e.1 ≠ tid), now := max s.now due } : St).recording = false := hr
      rw [e1]
      generalize ({ s with pend := s.pend.filter (fun e => e.1 ≠ tid), now := max s.now due } : St) = s0 at e2 ⊢
      have tn : ∀ u : St, rc u = rc s0 → (turn c me u).recording = false ∧ listedOf (turn c me u).log = listedOf s0.log := by
        intro u hu
        obtain ⟨q1, q2⟩ := quiet_turn c me u
        obtain ⟨q3, q4⟩ := pr hu e2
        exact ⟨q1.trans q3, q2.trans q4⟩
      cases e with
      | turn => exact tn _ rfl
      | dataTimeout => exact tn _ (quiet_cancel _ _)
      | waitTime =>
        show (waitTimeExpired c me s0).recording = false ∧ listedOf (waitTimeExpired c me s0).log = _
        unfold waitTimeExpired
        dsimp only
        have b := rc_emit s0 .closed rfl
        have b0 : (s0.emit .closed).recording = false := e2
        split
        · exact tn _ b
        · rw [if_neg (by rw [b0]; simp)]
          have := (quiet_answer c 0 ((s0.emit .closed).rtsList.length * c.ctrlDur .cts) (s0.emit .closed).rtsList
            (s0.emit .closed)).trans b
          generalize answer c 0 ((s0.emit .closed).rtsList.length * c.ctrlDur .cts) (s0.emit .closed).rtsList
            (s0.emit .closed) = s3 at this ⊢
          exact ⟨(congrArg (fun x => x.1) this).trans e2, congrArg (fun x => x.2.2.2.2.2.2.2) this⟩
      | sectorTimeout =>
        show (sectorTimeout c me s0).recording = false ∧ listedOf (sectorTimeout c me s0).log = _
        unfold sectorTimeout
        split
        · exact pr (quiet_sendAck c s0) e2
        · exact tn _ rfl
      | sendCts d q t g => exact pr (rc_sendPacket c _ { s0 with nextId := s0.nextId + 1 }) e2
      | sendAck => exact pr (quiet_sendAck c s0) e2
      | feedback a d => exact pr (rc_sendPacket c _ { s0 with nextId := s0.nextId + 1 }) e2
      | phyDone f =>
        show (sendPacketDone c f s0).recording = false ∧ listedOf (sendPacketDone c f s0).log = _
        unfold sendPacketDone
        dsimp only
        have b := rc_emit ({ s0 with phyTx := none } : St) (.txEnd f) rfl
        refine pr (Eq.trans ?_ b) e2
        split
        · rfl
        · split
          · split <;> rfl
          · rfl

theorem Sounding.step {s : St} (c : Cfg) (hw : c.ways = 3) (me : Mac48) (o : Op) (h : Sounding s) :
    Phase (step c me s o) := by
  cases o with
  | advance d => exact .inl (h.rc (by rfl) h.calm)
  | rxStart =>
    left
    show Sounding (receivePacket s)
    unfold receivePacket
    dsimp only
    have hc : (s.cancel s.dataEv).pend.all (fun e => Ap.calm e.2.2) = true := by
      cases s.dataEv with
      | none => exact h.calm
      | some t =>
        show (s.pend.filter _).all _ = true
        rw [List.all_eq_true]
        intro e he
        exact (List.all_eq_true.1 h.calm) e (List.mem_filter.1 he).1
    have h1 : Sounding (s.cancel s.dataEv) := h.rc (quiet_cancel _ _) hc
    generalize s.cancel s.dataEv = s1 at h1
    split
    · exact h1
    · exact h1
    · exact h1.rc (by rfl) h1.calm
  | rxDone f ok p =>
    left
    show Sounding (receivePacketDone c me f ok p s)
    unfold receivePacketDone
    dsimp only
    split
    · exact h.rc (by rfl) h.calm
    · have e0 : listedOf (s.log ++ [Obs.rx f p]) = [] := by
        have := h.listed
        simp [listedOf] at this ⊢
        exact this
      have e1 : (s.log ++ [Obs.rx f p]).foldl hear (0, []) = hear (s.log.foldl hear (0, [])) (.rx f p) := by
        rw [List.foldl_append]; rfl
      obtain ⟨l, hm, hl⟩ := h.map
      have nr : f.kind ≠ .rts → Sounding ({ s with state := .idle }.emit (.rx f p)) := by
        intro hf
        have e2 : (s.log ++ [Obs.rx f p]).foldl hear (0, []) = s.log.foldl hear (0, []) := by
          rw [e1]; simp [hear, hf]
        refine ⟨h.recording, ?_, h.expected, h.nodeMap, ⟨l, hm, ?_⟩, h.calm, e0⟩
        · show ((s.log ++ [Obs.rx f p]).foldl hear (0, [])).1 = s.angle
          rw [e2]; exact h.angle
        · show ((s.log ++ [Obs.rx f p]).foldl hear (0, [])).2 = _
          rw [e2]; exact hl
      split
      · rename_i hk
        have e2 : (s.log ++ [Obs.rx f p]).foldl hear (0, []) =
            (s.angle, heard s.log ++ [(s.angle, f.src, p)]) := by
          rw [e1]
          unfold heard
          rw [← h.angle]
          simp [hear, hk]
        refine ⟨h.recording, ?_, h.expected, h.nodeMap, ⟨l, hm, ?_⟩, h.calm, e0⟩
        · show ((s.log ++ [Obs.rx f p]).foldl hear (0, [])).1 = s.angle
          rw [e2]
        · show ((s.log ++ [Obs.rx f p]).foldl hear (0, [])).2 = _
          rw [e2]
          show heard s.log ++ [(s.angle, f.src, p)] = l ++ (s.rtsList ++ [(f, p)]).map (fun x => (s.angle, x.1.src, x.2))
          rw [hl]
          simp
      · rename_i hk
        have b := nr (by rw [hk]; simp)
        unfold receiveData
        dsimp only
        rw [if_neg]
        · have b2 : Sounding { ({ s with state := .idle }.emit (.rx f p) : St) with
              ackList := s.ackList ++ [ackFrame me s.nextId f], nextId := s.nextId + 1, state := .idle } :=
            b.rc (by rfl) b.calm
          have fw : ∀ u : St, Sounding u → Sounding (forwardIfNew f u) := by
            intro u hu
            unfold forwardIfNew
            dsimp only
            split
            · exact hu.rc (rc_emit _ _ rfl) hu.calm
            · exact hu.rc (by rfl) hu.calm
          exact fw _ b2
        · rintro (q | q)
          · have q1 : s.expected.toNat = (s.ackList ++ [ackFrame me s.nextId f]).length := q
            rw [h.expected] at q1
            simp at q1
          · exact q hw
      · rename_i hk _
        exact nr hk
  | fire tid =>
    show Phase (fire c me tid s)
    unfold fire
    split
    · exact .inl h
    · rename_i due e hfind
      have hcalm : Ap.calm e = true := by
        have := (List.all_eq_true.1 h.calm) _ (List.mem_of_find?_eq_some hfind)
        exact this
      dsimp only
      have h0 : Sounding ({ s with pend := s.pend.filter (fun e => e.1 ≠ tid), now := max s.now due } : St) := by
        refine h.rc (by rfl) ?_
        show (s.pend.filter _).all _ = true
        rw [List.all_eq_true]
        intro e he
        exact (List.all_eq_true.1 h.calm) e (List.mem_filter.1 he).1
      generalize ({ s with pend := s.pend.filter (fun e => e.1 ≠ tid), now := max s.now due } : St) = s0 at h0 ⊢
      have tn : ∀ u : St, Sounding u → u.rtsList = [] → Sounding (turn c me u) := by
        intro u hu hr
        obtain ⟨⟨a, ha⟩, hp⟩ := turn_rc c hw me u
        unfold Ap.rc at ha
        simp only [Prod.mk.injEq] at ha
        obtain ⟨h1, h2, h3, h4, h5, h6, h7, h8⟩ := ha
        obtain ⟨l, hm, hl⟩ := hu.map
        refine ⟨h1.trans hu.recording, by rw [h7, h2], h6.trans hu.expected, h5.trans hu.nodeMap, ⟨l, ?_, ?_⟩,
          hp hu.calm, h8.trans hu.listed⟩
        · rw [h4]; exact hm
        · unfold heard
          rw [h7, h3, hr]
          unfold heard at hl
          rw [hl, hr]
          rfl
      cases e with
      | waitTime =>
        show Phase (waitTimeExpired c me s0)
        unfold waitTimeExpired
        dsimp only
        have h1 : Sounding (s0.emit .closed) := h0.rc (rc_emit _ _ rfl) h0.calm
        generalize s0.emit .closed = s1 at h1 ⊢
        split
        · rename_i hr
          exact .inl (tn _ h1 hr)
        · rename_i hr
          rw [if_pos h1.recording]
          obtain ⟨l, hm, hl⟩ := h1.map
          have hm2 := hm.record s1.angle s1.rtsList
          rw [← hl] at hm2
          split
          · right
            unfold initNodeMap
            dsimp only
            have e0 : byNode (record s1.angle s1.rtsList s1.sectorMap) s1.nodeMap =
              byNode (record s1.angle s1.rtsList s1.sectorMap) [] := by rw [h1.nodeMap]
            obtain ⟨a1, a2⟩ := assign_log c 0 (byNode (record s1.angle s1.rtsList s1.sectorMap) s1.nodeMap)
              { s1 with sectorMap := record s1.angle s1.rtsList s1.sectorMap, rtsList := [], recording := false,
                        nodeMap := byNode (record s1.angle s1.rtsList s1.sectorMap) s1.nodeMap }
            have A := assigned s1.log _ h1.listed hm2
            replace a1 := a1.trans (congrArg (fun x => s1.log ++ x.map (fun e => Obs.listed e.1 (bestSector e.2))) e0)
            have lg : ∀ (u : St) d e, (u.sched d e).log = u.log := fun _ _ _ => rfl
            rw [lg]
            refine ⟨a2, ?_, ?_⟩
            · rw [a1]
              cases hrl : s1.rtsList with
              | nil => exact absurd hrl hr
              | cons r rest =>
                have := (A.heard r.1.src).2 (by
                  have e2 : sounding (s1.log ++ (byNode (record s1.angle s1.rtsList s1.sectorMap) []).map
                      (fun e => Obs.listed e.1 (bestSector e.2))) = s1.log := by
                    have h0 := sounding_nil s1.log h1.listed
                    unfold sounding at h0 ⊢
                    rw [List.takeWhile_append, if_pos (by rw [h0])]
                    cases byNode (record s1.angle s1.rtsList s1.sectorMap) [] <;> simp
                  rw [e2, hl, hrl]
                  simp)
                intro hnil
                rw [hrl] at this
                rw [hnil] at this
                simp at this
            · rw [a1]
              exact A
          · left
            refine tn _ ?_ rfl
            refine ⟨h1.recording, h1.angle, h1.expected, h1.nodeMap, ⟨_, hm2, ?_⟩, h1.calm, h1.listed⟩
            simp
      | phyDone f =>
        left
        show Sounding (sendPacketDone c f s0)
        unfold sendPacketDone
        dsimp only
        have h1 : Sounding (({ s0 with phyTx := none } : St).emit (.txEnd f)) := h0.rc (rc_emit _ _ rfl) h0.calm
        have hk : f.kind = .cta := by simpa [Ap.calm] using hcalm
        split
        · exact h1
        · rw [hk]
          exact h1.rc (by rfl) h1.calm
      | turn => simp [Ap.calm] at hcalm
      | dataTimeout => simp [Ap.calm] at hcalm
      | sectorTimeout => simp [Ap.calm] at hcalm
      | sendCts d q t g => simp [Ap.calm] at hcalm
      | sendAck => simp [Ap.calm] at hcalm
      | feedback a d => simp [Ap.calm] at hcalm

theorem Phase.run (c : Cfg) (hw : c.ways = 3) (me : Mac48) (ops : List Op) {s : St} (h : Phase s) :
    Phase (Ap.run c me s ops) := by
  induction ops generalizing s with
  | nil => exact h
  | cons o rest ih =>
    refine ih ?_
    rcases h with h | ⟨h1, h2, h3⟩
    · exact h.step c hw me o
    · obtain ⟨q1, q2⟩ := quiet_step c me s o h1
      exact .inr ⟨q1, by rw [q2]; exact h2, h3.more h2 (grew_step c me s o) q2⟩

theorem Sounding.first (c : Cfg) (hw : c.ways = 3) (hu : c.useWhiteList = true) (me : Mac48) :
    Sounding (Ap.step c me (Ap.init c) (.fire 0)) := by
  show Sounding (turn c me { init c with pend := [], now := max 0 0 })
  obtain ⟨⟨a, ha⟩, hp⟩ := turn_rc c hw me { init c with pend := [], now := max 0 0 }
  unfold Ap.rc at ha
  simp only [Prod.mk.injEq] at ha
  obtain ⟨h1, h2, h3, h4, h5, h6, h7, h8⟩ := ha
  refine ⟨h1.trans hu, by rw [h7, h2], h6, h5, ⟨[], ?_, ?_⟩, hp rfl, h8⟩
  · rw [h4]
    refine ⟨by simp [SortedM, Ap.init], ?_⟩
    intro a n p
    simp [Ap.init, getM, firstPower]
  · unfold heard
    rw [h7, h3]
    rfl

/-! ## C38 -/

/-- In the sounding phase, as soon as nodes are entered in the white list: every node heard before is entered
exactly once, nobody else is, and its sector is the one with the greatest power among the first receptions in
each sector (for powers above -200 dBm). -/
theorem C38_assigned_partial (c : Cfg) (hw : c.ways = 3) (hu : c.useWhiteList = true) (me : Mac48) (ops : List Op)
    (hl : listedOf (after c me (.fire 0 :: ops)).log ≠ []) : Assigned (after c me (.fire 0 :: ops)).log := by
  have h := Phase.run c hw me ops (.inl (Sounding.first c hw hu me))
  rcases h with h | ⟨-, -, h⟩
  · exact absurd h.listed hl
  · exact h

theorem firstPower_mem {l : List (ℚ × Mac48 × ℚ)} {a : ℚ} {n : Mac48} {p : ℚ} (h : firstPower l a n = some p) :
    (a, n, p) ∈ l := by
  unfold firstPower at h
  rw [Option.map_eq_some_iff] at h
  obtain ⟨⟨x, y, z⟩, hy, rfl⟩ := h
  have := List.find?_some hy
  simp only [decide_eq_true_eq] at this
  obtain ⟨rfl, rfl⟩ := this
  exact List.mem_of_find?_eq_some hy

theorem mem_firstPower {l : List (ℚ × Mac48 × ℚ)} {a : ℚ} {n : Mac48} {p : ℚ} (h : (a, n, p) ∈ l) :
    ∃ q, firstPower l a n = some q := by
  apply Option.isSome_iff_exists.1
  unfold firstPower
  rw [Option.isSome_map, List.find?_isSome]
  exact ⟨_, h, by simp⟩

/-- When nothing moves (a node is received in a sector always with the same power), the full property: every
node heard is listed once, in a sector in which it was received strongest of all its receptions. -/
theorem C38_static_partial (c : Cfg) (hw : c.ways = 3) (hu : c.useWhiteList = true) (me : Mac48) (ops : List Op)
    (log : List Obs) (hlog : log = (after c me (.fire 0 :: ops)).log) (hl : listedOf log ≠ [])
    (hs : ∀ a n p q, (a, n, p) ∈ heard (sounding log) → (a, n, q) ∈ heard (sounding log) → p = q)
    (hp : ∀ a n p, (a, n, p) ∈ heard (sounding log) → -200 < p) :
    ((listedOf log).map (·.1)).Nodup ∧
      (∀ n, n ∈ (listedOf log).map (·.1) ↔ ∃ a p, (a, n, p) ∈ heard (sounding log)) ∧
      ∀ n a, (n, a) ∈ listedOf log → ∃ p, (a, n, p) ∈ heard (sounding log) ∧
        ∀ b q, (b, n, q) ∈ heard (sounding log) → q ≤ p := by
  have A : Assigned log := by
    rw [hlog] at hl ⊢
    exact C38_assigned_partial c hw hu me ops hl
  refine ⟨A.once, ?_, ?_⟩
  · intro n
    rw [A.heard n, List.mem_map]
    constructor
    · rintro ⟨⟨a, m, p⟩, h, rfl⟩
      exact ⟨a, p, h⟩
    · rintro ⟨a, p, h⟩
      exact ⟨_, h, rfl⟩
  · intro n a hna
    obtain ⟨p, h1, h2⟩ := A.best n a hna (fun b p h => hp b n p (firstPower_mem h))
    refine ⟨p, firstPower_mem h1, ?_⟩
    intro b q hq
    obtain ⟨q', hq'⟩ := mem_firstPower hq
    rw [hs b n q q' hq (firstPower_mem hq')]
    exact h2 b q' hq'

/-- Three sectors per turn. -/
def recCfg : Cfg := { exCfg 3 with useWhiteList := true, beamwidth := 120 }

/-- Sector number `k`: the CTA goes out, RTSs arrive with these powers, the window closes. -/
def sectorRun (k : Nat) (l : List (UInt8 × ℚ)) : List Op :=
  .fire (2 * k + 2) :: .advance 5000 ::
    (l.flatMap (fun p => [.rxStart, .advance 1243, .rxDone (exRts p.1) true p.2]) ++ [.fire (2 * k + 1)])

/-- The operations of the windows, numbered from `k`. -/
def sectorRuns : Nat → List (List (UInt8 × ℚ)) → List Op
  | _, [] => []
  | k, l :: rest => sectorRun k l ++ sectorRuns (k + 1) rest

/-- Two clients that do not move; the first is heard in two sectors. -/
def stillRun : List Op :=
  .fire 0 :: sectorRuns 0 [[(1, -40)], [(1, -35), (2, -30)], [], [(1, -40)], [(2, -30), (1, -35)], [], [(1, -40)],
    [(1, -35)], [], [(1, -40)]]

example : let log := (after recCfg exAp stillRun).log
    timely recCfg exAp (init recCfg) stillRun = true ∧
    listedOf log = [(exCl 1, 240), (exCl 2, 240)] ∧
    heard (sounding log) = [(120, exCl 1, -40), (240, exCl 1, -35), (240, exCl 2, -30), (120, exCl 1, -40),
      (240, exCl 2, -30), (240, exCl 1, -35), (120, exCl 1, -40), (240, exCl 1, -35), (120, exCl 1, -40)] := by
  decide +kernel

/-- A client that comes closer: it is heard strongest in sector 120, in the second turn. -/
def moveRun : List Op :=
  .fire 0 :: sectorRuns 0 [[(1, -40)], [(1, -35)], [], [(1, -30)], [(1, -35)], [], [(1, -30)], [(1, -35)], [], [(1, -30)]]

/-- Only the first reception in a sector counts: the strongest one is ignored. -/
theorem C38_later_violated :
    let log := (after recCfg exAp moveRun).log
    timely recCfg exAp (init recCfg) moveRun = true ∧ listedOf log = [(exCl 1, 240)] ∧
      (120, exCl 1, -30) ∈ heard (sounding log) ∧
      (heard (sounding log)).all (fun e => e.1 ≠ 240 || decide (e.2.2 = -35)) = true := by
  decide +kernel

/-- A client received with -210 dBm. -/
def weakRun : List Op :=
  .fire 0 :: sectorRuns 0 [[(1, -210)], [], [], [], [], [], [], [], [], [(1, -210)]]

/-- A node received below -200 dBm only is entered in sector 0, which the antenna never visited. -/
theorem C38_weak_violated :
    let log := (after recCfg exAp weakRun).log
    timely recCfg exAp (init recCfg) weakRun = true ∧ listedOf log = [(exCl 1, 0)] ∧ 0 ∉ turnsOf log := by
  decide +kernel

end Thz.Ap
