import Verif.Seq
import Mathlib.Tactic.Common
import Mathlib.Data.List.Induction

/-!
# C05, C06: the duplicate filter
-/

namespace Thz

open List (Sublist)
open scoped List

variable {α : Type} [DecidableEq α]

/-! ## Helper lemmas -/

/-- The value stored for an address: the first entry. -/
def stored (s : SeqList α) (a : α) : Option UInt16 := (s.find? (fun e => e.1 = a)).map (·.2)

theorem isNew_fst (s : SeqList α) (a : α) (q : UInt16) :
    (isNewSequence s a q).1 = true ↔ ∀ v, stored s a = some v → v < q := by
  induction s with
  | nil => simp [isNewSequence, stored]
  | cons e rest ih =>
    unfold isNewSequence
    by_cases h : e.1 = a
    · by_cases h2 : q > e.2 <;> simp [h, h2, stored]
    · simp only [h, if_false]
      rw [ih]
      simp [stored, h]

theorem isNew_stored (s : SeqList α) (a b : α) (q : UInt16) :
    stored (isNewSequence s a q).2 b =
      if b = a then
        (if (isNewSequence s a q).1 then some q else stored s a)
      else stored s b := by
  induction s with
  | nil => by_cases h : b = a <;> simp [isNewSequence, stored, h, eq_comm]
  | cons e rest ih =>
    unfold isNewSequence
    by_cases h : e.1 = a
    · by_cases h2 : q > e.2 <;> by_cases h3 : b = a <;> simp [h, h2, h3, stored, eq_comm]
    · simp only [h, if_false]
      by_cases h3 : b = a
      · subst h3
        simp only [if_true] at ih ⊢
        simp only [stored, List.find?_cons, h, decide_false] at ih ⊢
        exact ih
      · simp only [h3, if_false] at ih ⊢
        by_cases h4 : e.1 = b
        · simp [stored, h4]
        · simp only [stored, List.find?_cons, h4, decide_false] at ih ⊢
          exact ih

theorem seqAfter_append (h : List (α × UInt16)) (e : α × UInt16) :
    seqAfter (h ++ [e]) = (isNewSequence (seqAfter h) e.1 e.2).2 := by
  simp [seqAfter]

/-- The stored value is the largest sequence number received so far. -/
theorem stored_seqAfter (h : List (α × UInt16)) (a : α) :
    (stored (seqAfter h) a = none → ∀ q, (a, q) ∉ h) ∧
    (∀ v, stored (seqAfter h) a = some v → (a, v) ∈ h ∧ ∀ q, (a, q) ∈ h → q ≤ v) := by
  induction h using List.reverseRecOn with
  | nil => simp [seqAfter, stored]
  | append_singleton h e ih =>
    obtain ⟨b, q⟩ := e
    rw [seqAfter_append, isNew_stored]
    by_cases hb : a = b
    · subst hb
      simp only [if_true]
      by_cases hn : (isNewSequence (seqAfter h) a q).1 = true
      · simp only [hn, if_true, reduceCtorEq, false_implies, Option.some.injEq, true_and]
        rintro v rfl
        refine ⟨by simp, fun q' hq' => ?_⟩
        rw [isNew_fst] at hn
        rcases List.mem_append.mp hq' with hq' | hq'
        · cases hs : stored (seqAfter h) a with
          | none => exact absurd hq' (ih.1 hs q')
          | some v => exact UInt16.le_of_lt (UInt16.lt_of_le_of_lt ((ih.2 v hs).2 q' hq') (hn v hs))
        · simp only [List.mem_singleton, Prod.mk.injEq, true_and] at hq'
          subst hq'; exact UInt16.le_refl _
      · simp only [hn]
        have hn' := hn
        rw [isNew_fst] at hn'
        push Not at hn'
        obtain ⟨v, hv, hvq⟩ := hn'
        simp only [hv]
        refine ⟨by simp, ?_⟩
        simp only [Bool.false_eq_true, if_false, Option.some.injEq]
        rintro v' rfl
        refine ⟨List.mem_append_left _ (ih.2 v hv).1, fun q' hq' => ?_⟩
        rcases List.mem_append.mp hq' with hq' | hq'
        · exact (ih.2 v hv).2 q' hq'
        · simp only [List.mem_singleton, Prod.mk.injEq, true_and] at hq'
          subst hq'; exact UInt16.not_lt.mp hvq
    · simp only [hb, if_false]
      have hne : ∀ q', (a, q') ∈ h ++ [(b, q)] ↔ (a, q') ∈ h := by
        intro q'; simp [hb]
      simp only [hne]
      exact ih

/-! ## Property theorems -/

/-- **C06 / C05, exact characterisation of the filter.** After any history, a data frame with sequence
number `q` from source `a` is passed up exactly when `q` is larger than every sequence number
received from `a` before. -/
theorem C06_fresh_iff (hist : List (α × UInt16)) (a : α) (q : UInt16) :
    (isNewSequence (seqAfter hist) a q).1 = true ↔ ∀ q', (a, q') ∈ hist → q' < q := by
  rw [isNew_fst]
  have hs := stored_seqAfter hist a
  constructor
  · intro h q' hq'
    cases e : stored (seqAfter hist) a with
    | none => exact absurd hq' (hs.1 e q')
    | some v => exact UInt16.lt_of_le_of_lt ((hs.2 v e).2 q' hq') (h v e)
  · intro h v e
    exact h v (hs.2 v e).1

/-- Passed up frames of a history, in order. -/
def passedUp (hist : List (α × UInt16)) : List (α × UInt16) := passedUpFrom [] hist

theorem passedUpFrom_eq (pre hist : List (α × UInt16)) :
    passedUpFrom (seqAfter pre) hist <+ hist ∧
    (∀ e ∈ passedUpFrom (seqAfter pre) hist, ∀ q', (e.1, q') ∈ pre → q' < e.2) ∧
    (passedUpFrom (seqAfter pre) hist).Pairwise (fun e e' => e.1 = e'.1 → e.2 < e'.2) := by
  induction hist generalizing pre with
  | nil => simp [passedUpFrom]
  | cons e hist ih =>
    have ih' := ih (pre ++ [e])
    rw [seqAfter_append] at ih'
    obtain ⟨i1, i2, i3⟩ := ih'
    simp only [passedUpFrom]
    by_cases hn : (isNewSequence (seqAfter pre) e.1 e.2).1 = true
    · simp only [hn, if_true]
      refine ⟨i1.cons_cons e, ?_, ?_⟩
      · intro x hx q' hq'
        rcases List.mem_cons.mp hx with rfl | hx
        · exact (C06_fresh_iff pre x.1 x.2).mp hn q' hq'
        · exact i2 x hx q' (List.mem_append_left _ hq')
      · refine List.pairwise_cons.mpr ⟨fun x hx hxe => ?_, i3⟩
        exact i2 x hx e.2 (by simp [← hxe])
    · simp only [hn]
      refine ⟨i1.cons e, fun x hx q' hq' => i2 x hx q' (List.mem_append_left _ hq'), i3⟩

/-- **C05.** In every history, what is passed up is a subsequence of what was received, and from each source
the passed-up sequence numbers are strictly increasing. -/
theorem C05_passed_up_increasing (hist : List (α × UInt16)) :
    passedUp hist <+ hist ∧
    ∀ a, ((passedUp hist).filter (fun e => e.1 = a)).Pairwise (fun e e' => e.2 < e'.2) := by
  have h := passedUpFrom_eq [] hist
  refine ⟨h.1, fun a => ?_⟩
  have h2 := List.Pairwise.filter (fun e => decide (e.1 = a)) h.2.2
  refine h2.imp_of_mem ?_
  intro x y hx hy hxy
  have hx' := (List.mem_filter.mp hx).2
  have hy' := (List.mem_filter.mp hy).2
  simp only [decide_eq_true_eq] at hx' hy'
  exact hxy (hx'.trans hy'.symm)

/-- **C05.** No (source, sequence) pair is passed up twice. -/
theorem C05_passed_up_nodup (hist : List (α × UInt16)) : (passedUp hist).Nodup := by
  refine List.Pairwise.imp ?_ (passedUpFrom_eq [] hist).2.2
  rintro x y h rfl
  exact absurd (h rfl) (UInt16.lt_irrefl _)

/-- Non-vacuity: two sources, duplicates and a late old frame. -/
example : passedUp [(1, 1), (2, 7), (1, 1), (1, 3), (1, 2), (2, 8)] =
    [((1:Nat), (1:UInt16)), (2, 7), (1, 3), (2, 8)] := by decide

/-- **C06.** If a source's frames arrive with increasing sequence numbers, none of them is rejected. -/
theorem C06_increasing_all_passed (hist : List (α × UInt16))
    (h : hist.Pairwise (fun e e' => e.1 = e'.1 → e.2 < e'.2)) : passedUp hist = hist := by
  suffices ∀ pre rest : List (α × UInt16), (pre ++ rest).Pairwise (fun e e' => e.1 = e'.1 → e.2 < e'.2) →
      passedUpFrom (seqAfter pre) rest = rest from this [] hist h
  intro pre rest
  induction rest generalizing pre with
  | nil => simp [passedUpFrom]
  | cons e rest ih =>
    intro hp
    have hn : (isNewSequence (seqAfter pre) e.1 e.2).1 = true := by
      rw [C06_fresh_iff]
      intro q' hq'
      exact (List.pairwise_append.mp hp).2.2 _ hq' e (by simp) rfl
    have := ih (pre ++ [e]) (by simpa using hp)
    rw [seqAfter_append] at this
    simp [passedUpFrom, hn, this]

example : ([(1, 1), (2, 7), (1, 2), (2, 8)] : List (Nat × UInt16)).Pairwise
    (fun e e' => e.1 = e'.1 → e.2 < e'.2) := by decide

/-- **C06, violated by wrap-around.** Once the last 16-bit sequence number was received from a source, no
data frame from that source is ever passed up again, whatever its number. -/
theorem C06_wrap_violated (hist later : List (α × UInt16)) (a : α) (h : (a, 65535) ∈ hist) (q : UInt16) :
    (isNewSequence (seqAfter (hist ++ later)) a q).1 = false := by
  rw [Bool.eq_false_iff]
  intro hn
  rw [C06_fresh_iff] at hn
  have := hn 65535 (List.mem_append_left _ h)
  have h2 := q.toNat_lt
  rw [UInt16.lt_iff_toNat_lt] at this
  have h3 : (65535 : UInt16).toNat = 65535 := rfl
  omega

example : ((3:Nat), (65535:UInt16)) ∈ [((3:Nat), (65534:UInt16)), (3, 65535)] := by decide

end Thz
