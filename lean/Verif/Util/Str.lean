/-!
# Strings as lists of characters (or bytes): Go's `strings.Split` and `strings.Join`

Only separators of one character are used in the code that is modelled.
-/

namespace Verif.Util

/-- Go `strings.Split(s, sep)` / `bytes.Split` for a separator of one character. -/
def split {α : Type} [DecidableEq α] (c : α) : List α → List (List α)
  | [] => [[]]
  | x :: xs =>
    if x = c then [] :: split c xs
    else match split c xs with
      | [] => [[x]]
      | p :: ps => (x :: p) :: ps

/-- Go `strings.Join(parts, sep)`. -/
def join {α : Type} (c : α) : List (List α) → List α
  | [] => []
  | [p] => p
  | p :: q :: ps => p ++ c :: join c (q :: ps)

theorem split_ne_nil {α : Type} [DecidableEq α] (c : α) (xs : List α) : split c xs ≠ [] := by
  cases xs with
  | nil => simp [split]
  | cons x xs =>
    simp only [split]
    split
    · simp
    · split <;> simp

theorem split_none {α : Type} [DecidableEq α] (c : α) : ∀ xs : List α, c ∉ xs → split c xs = [xs]
  | [], _ => rfl
  | x :: xs, h => by
    simp only [List.mem_cons, not_or] at h
    simp only [split, Ne.symm h.1, if_false, split_none c xs h.2]

theorem split_append {α : Type} [DecidableEq α] (c : α) : ∀ (p xs : List α), c ∉ p →
    split c (p ++ c :: xs) = p :: split c xs
  | [], xs, _ => by simp [split]
  | x :: p, xs, h => by
    simp only [List.mem_cons, not_or] at h
    simp only [List.cons_append, split, Ne.symm h.1, if_false, split_append c p xs h.2]

/-- Splitting what was joined gives the parts, if none holds the separator and there is one. -/
theorem split_join {α : Type} [DecidableEq α] (c : α) : ∀ ps : List (List α), ps ≠ [] →
    (∀ p ∈ ps, c ∉ p) → split c (join c ps) = ps
  | [], h, _ => absurd rfl h
  | [p], _, h => by simp [join, split_none c p (h p (by simp))]
  | p :: q :: ps, _, h => by
    simp only [join]
    rw [split_append c p _ (h p (by simp)),
      split_join c (q :: ps) (by simp) fun r hr => h r (List.mem_cons_of_mem _ hr)]

/-- Joining what was split gives the string back. -/
theorem join_split {α : Type} [DecidableEq α] (c : α) : ∀ xs : List α, join c (split c xs) = xs
  | [] => rfl
  | x :: xs => by
    have ih := join_split c xs
    simp only [split]
    split
    · rename_i h
      cases h' : split c xs with
      | nil => exact absurd h' (split_ne_nil c xs)
      | cons p ps => rw [h'] at ih; simp [join, ih, h]
    · cases h' : split c xs with
      | nil => exact absurd h' (split_ne_nil c xs)
      | cons p ps =>
        rw [h'] at ih
        cases ps with
        | nil => simp [join] at ih ⊢; exact ih
        | cons q ps => simp only [join, List.cons_append] at ih ⊢; rw [ih]

/-- No part of a split holds the separator. -/
theorem split_clean {α : Type} [DecidableEq α] (c : α) : ∀ xs : List α, ∀ p ∈ split c xs, c ∉ p
  | [], p, h => by simp [split] at h; subst h; simp
  | x :: xs, p, h => by
    have ih := split_clean c xs
    simp only [split] at h
    split at h
    · rcases List.mem_cons.mp h with rfl | h
      · simp
      · exact ih p h
    · rename_i hx
      cases h' : split c xs with
      | nil => exact absurd h' (split_ne_nil c xs)
      | cons q ps =>
        rw [h'] at h ih
        rcases List.mem_cons.mp h with rfl | h
        · have := ih q (by simp)
          simp only [List.mem_cons, not_or]
          exact ⟨fun e => hx e.symm, this⟩
        · exact ih p (List.mem_cons_of_mem _ h)

end Verif.Util
