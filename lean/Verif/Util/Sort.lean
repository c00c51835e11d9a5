/-!
# Sorting

Go's `sort.Sort` and friends on a total order give the one sorted list; the model sorts by insertion, which reduces in the kernel.
-/
namespace Verif.Util

/-- insert into a sorted list, before the first element that is not smaller -/
def insertBy {α : Type} (le : α → α → Bool) (a : α) : List α → List α
  | [] => [a]
  | b :: l => if le a b then a :: b :: l else b :: insertBy le a l

/-- Go `sort.Sort` -/
def sortBy {α : Type} (le : α → α → Bool) : List α → List α
  | [] => []
  | a :: l => insertBy le a (sortBy le l)

theorem insertBy_perm {α : Type} (le : α → α → Bool) (a : α) : ∀ l, (insertBy le a l).Perm (a :: l)
  | [] => .refl _
  | b :: l => by
    unfold insertBy
    split
    · exact .refl _
    · exact ((insertBy_perm le a l).cons b).trans (.swap a b l)

theorem sortBy_perm {α : Type} (le : α → α → Bool) : ∀ l : List α, (sortBy le l).Perm l
  | [] => .refl _
  | a :: l => (insertBy_perm le a _).trans ((sortBy_perm le l).cons a)

theorem insertBy_sorted {α : Type} (le : α → α → Bool) (trans : ∀ a b c, le a b = true → le b c = true → le a c = true)
    (total : ∀ a b, le a b = true ∨ le b a = true) (a : α) : ∀ l : List α, l.Pairwise (fun x y => le x y = true) →
      (insertBy le a l).Pairwise fun x y => le x y = true
  | [], _ => by simp [insertBy]
  | b :: l, h => by
    have h' := List.pairwise_cons.1 h
    unfold insertBy
    split
    · rename_i hab
      refine List.pairwise_cons.2 ⟨?_, h⟩
      intro c hc
      rcases List.mem_cons.1 hc with rfl | hc
      · exact hab
      · exact trans a b c hab (h'.1 c hc)
    · rename_i hab
      refine List.pairwise_cons.2 ⟨?_, insertBy_sorted le trans total a l h'.2⟩
      intro c hc
      rcases List.mem_cons.1 ((insertBy_perm le a l).mem_iff.1 hc) with rfl | hc
      · exact (total c b).resolve_left hab
      · exact h'.1 c hc

theorem sortBy_sorted {α : Type} (le : α → α → Bool) (trans : ∀ a b c, le a b = true → le b c = true → le a c = true)
    (total : ∀ a b, le a b = true ∨ le b a = true) : ∀ l : List α, (sortBy le l).Pairwise fun x y => le x y = true
  | [] => by simp [sortBy]
  | a :: l => insertBy_sorted le trans total a _ (sortBy_sorted le trans total l)

end Verif.Util
