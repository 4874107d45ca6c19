import Mathlib.Tactic.Common

/-!
# Lists of observations
-/

namespace Thz

variable {α : Type}

theorem split_append {l m x z : List α} {a : α} (h : l ++ m = x ++ a :: z) :
    (∃ z', l = x ++ a :: z' ∧ z = z' ++ m) ∨ (∃ m1, x = l ++ m1 ∧ m = m1 ++ a :: z) := by
  rcases List.append_eq_append_iff.1 h with ⟨w, h1, h2⟩ | ⟨w, h1, h2⟩
  · exact .inr ⟨w, h1, h2⟩
  · cases w with
    | nil => exact .inr ⟨[], by simpa using h1.symm, by simpa using h2.symm⟩
    | cons y w =>
      simp only [List.cons_append, List.cons.injEq] at h2
      obtain ⟨rfl, rfl⟩ := h2
      exact .inl ⟨w, h1, rfl⟩

theorem split_snoc {l x z : List α} {a o : α} (h : l ++ [o] = x ++ a :: z) :
    (∃ z', l = x ++ a :: z' ∧ z = z' ++ [o]) ∨ (x = l ∧ a = o ∧ z = []) := by
  rcases split_append h with h | ⟨m1, h1, h2⟩
  · exact .inl h
  · cases m1 with
    | nil =>
      simp only [List.nil_append, List.cons.injEq] at h2
      exact .inr ⟨by simpa using h1, h2.1.symm, h2.2.symm⟩
    | cons y m1 => simp at h2

/-- Every entry is justified by what precedes it. -/
def Pre (R : List α → α → Prop) (l : List α) : Prop := ∀ x o z, l = x ++ o :: z → R x o

theorem Pre.nil (R : List α → α → Prop) : Pre R [] := by
  intro x o z h; simp at h

theorem Pre.snoc {R : List α → α → Prop} {l : List α} (h : Pre R l) {o : α} (ho : R l o) : Pre R (l ++ [o]) := by
  intro x o' z hx
  rcases split_snoc hx with ⟨z', h1, _⟩ | ⟨rfl, rfl, _⟩
  · exact h x o' z' h1
  · exact ho

end Thz
