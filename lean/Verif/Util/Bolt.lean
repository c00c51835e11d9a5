/-!
# A bucket of the bolt database

bolt keeps the keys of a bucket in byte order. `Put` replaces, `Delete` of an absent key does nothing, and a cursor's `Seek`
goes to the first key that is not less. Keys are lists of characters: the order of the UTF-8 encodings is that of the code
points.
-/
namespace Verif.Util.Bolt

abbrev Key := List Char

/-- the keys and values in the order in which a cursor sees them -/
abbrev Bucket (α : Type) := List (Key × α)

/-- `bucket.Put` -/
def put {α : Type} (k : Key) (v : α) : Bucket α → Bucket α
  | [] => [(k, v)]
  | (k', v') :: b =>
    if k = k' then (k, v) :: b
    else if k < k' then (k, v) :: (k', v') :: b
    else (k', v') :: put k v b

/-- `bucket.Delete` -/
def delete {α : Type} (k : Key) (b : Bucket α) : Bucket α := b.filter fun e => decide (e.1 ≠ k)

/-- `bucket.Get` -/
def get {α : Type} (k : Key) (b : Bucket α) : Option α := b.lookup k

/-- `for k, v := c.Seek(prefix); bytes.HasPrefix(k, prefix); k, v = c.Next()`: what the loop sees -/
def scan {α : Type} (p : Key) (b : Bucket α) : Bucket α :=
  (b.dropWhile fun e => decide (e.1 < p)).takeWhile fun e => p.isPrefixOf e.1

/-- the keys are in order, and there is no key twice -/
def Sorted {α : Type} (b : Bucket α) : Prop := b.Pairwise fun a b => a.1 < b.1

theorem lt_trans {a b c : Key} (h : a < b) (h' : b < c) : a < c := List.lt_trans h h'
theorem lt_irrefl (a : Key) : ¬ a < a := List.lt_irrefl a
theorem lt_of_ne {a b : Key} (h : a ≠ b) (h' : ¬ a < b) : b < a := by
  rcases List.le_iff_lt_or_eq.1 h' with h1 | h1
  · exact h1
  · exact absurd h1.symm h

theorem mem_put {α : Type} (k : Key) (v : α) : ∀ (b : Bucket α) (e : Key × α), e ∈ put k v b → e = (k, v) ∨ e ∈ b
  | [], e, h => by simp [put] at h; exact .inl h
  | (k', v') :: b, e, h => by
    unfold put at h
    split at h
    · rcases List.mem_cons.1 h with h | h
      · exact .inl h
      · exact .inr (List.mem_cons_of_mem _ h)
    · split at h
      · rcases List.mem_cons.1 h with h | h
        · exact .inl h
        · exact .inr h
      · rcases List.mem_cons.1 h with h | h
        · exact .inr (by simp [h])
        · rcases mem_put k v b e h with h | h
          · exact .inl h
          · exact .inr (List.mem_cons_of_mem _ h)

theorem sorted_put {α : Type} (k : Key) (v : α) : ∀ b : Bucket α, Sorted b → Sorted (put k v b)
  | [], _ => by simp [put, Sorted]
  | (k', v') :: b, h => by
    obtain ⟨h1, h2⟩ := List.pairwise_cons.1 h
    unfold put
    split
    · rename_i e; subst e
      exact List.pairwise_cons.2 ⟨h1, h2⟩
    · rename_i hne
      split
      · rename_i hlt
        refine List.pairwise_cons.2 ⟨?_, h⟩
        intro x hx
        rcases List.mem_cons.1 hx with rfl | hx
        · exact hlt
        · exact lt_trans hlt (h1 x hx)
      · rename_i hnlt
        refine List.pairwise_cons.2 ⟨?_, sorted_put k v b h2⟩
        intro x hx
        rcases mem_put k v b x hx with rfl | hx
        · exact lt_of_ne hne hnlt
        · exact h1 x hx

theorem sorted_delete {α : Type} (k : Key) (b : Bucket α) (h : Sorted b) : Sorted (delete k b) := h.filter _

theorem beq_false {a b : Key} (h : a ≠ b) : (a == b) = false := by simpa using h

theorem get_nil {α : Type} (k : Key) : get k ([] : Bucket α) = none := rfl

theorem get_put {α : Type} (k : Key) (v : α) (x : Key) : ∀ b : Bucket α, get x (put k v b) = if x = k then some v else get x b
  | [] => by
    unfold put get
    rw [List.lookup_cons]
    by_cases e : x = k
    · simp [e]
    · simp [beq_false e, e]
  | (k', v') :: b => by
    have ih := get_put k v x b
    unfold get at ih ⊢
    unfold put
    split
    · rename_i e; subst e
      simp only [List.lookup_cons]
      by_cases e' : x = k
      · simp [e']
      · simp [beq_false e', e']
    · rename_i hne
      split
      · simp only [List.lookup_cons]
        by_cases e' : x = k
        · simp [e']
        · simp [beq_false e', e']
      · simp only [List.lookup_cons]
        by_cases e' : x = k'
        · subst e'
          simp [Ne.symm hne]
        · have : (x == k') = false := by simpa using e'
          rw [this]
          exact ih

theorem get_delete {α : Type} (k x : Key) : ∀ b : Bucket α, get x (delete k b) = if x = k then none else get x b
  | [] => by simp [delete, get]
  | (k', v') :: b => by
    have ih := get_delete k x b
    unfold get delete at ih ⊢
    by_cases e : k' = k
    · subst e
      simp only [List.filter_cons, decide_not, decide_true, Bool.not_true, Bool.false_eq_true, if_false]
      simp only [decide_not] at ih
      rw [ih, List.lookup_cons]
      by_cases e' : x = k'
      · simp [e']
      · simp [beq_false e', e']
    · have : (List.filter (fun e : Key × α => decide (e.1 ≠ k)) ((k', v') :: b)) = (k', v') :: List.filter (fun e => decide (e.1 ≠ k)) b := by
        rw [List.filter_cons, if_pos (by simpa using e)]
      rw [this]
      simp only [List.lookup_cons]
      by_cases e' : x = k'
      · subst e'
        simp [e]
      · have hx : (x == k') = false := by simpa using e'
        rw [hx]
        exact ih

theorem mem_iff_get {α : Type} (k : Key) (v : α) : ∀ b : Bucket α, Sorted b → ((k, v) ∈ b ↔ get k b = some v)
  | [], _ => by simp [get]
  | (k', v') :: b, h => by
    obtain ⟨h1, h2⟩ := List.pairwise_cons.1 h
    have ih := mem_iff_get k v b h2
    unfold get at ih ⊢
    rw [List.lookup_cons]
    by_cases e : k = k'
    · subst e
      simp only [List.mem_cons, Prod.mk.injEq, true_and, beq_self_eq_true, Option.some.injEq]
      constructor
      · rintro (h | h)
        · exact h.symm
        · exact absurd (h1 _ h) (lt_irrefl _)
      · exact fun h => .inl h.symm
    · have : (k == k') = false := by simpa using e
      rw [this]
      simp only [List.mem_cons, Prod.mk.injEq, e, false_and, false_or]
      exact ih

theorem not_prefix_of_lt {p k : Key} (h : k < p) : ¬ p <+: k := fun hp => hp.le h

/-- keys between a string and one that it is a prefix of start with it -/
theorem prefix_convex : ∀ (p k k' : Key), ¬ k < p → k < k' → p <+: k' → p <+: k
  | [], k, _, _, _, _ => List.nil_prefix
  | c :: p, [], _, h, _, _ => absurd (List.nil_lt_cons c p) h
  | c :: p, d :: k, [], _, h, _ => absurd h (List.not_lt_nil _)
  | c :: p, d :: k, d' :: k', h, h', hp => by
    obtain ⟨hc, hp'⟩ := List.cons_prefix_cons.1 hp
    subst hc
    rw [List.cons_lt_cons_iff] at h h'
    have hcd : ¬ d < c := fun x => h (.inl x)
    rcases h' with h' | ⟨rfl, h'⟩
    · exact absurd h' hcd
    · have : ¬ k < p := fun x => h (.inr ⟨rfl, x⟩)
      exact List.cons_prefix_cons.2 ⟨rfl, prefix_convex p k k' this h' hp'⟩

theorem isPrefixOf_iff (p k : Key) : p.isPrefixOf k = true ↔ p <+: k := List.isPrefixOf_iff_prefix

theorem takeWhile_prefix {α : Type} (p : Key) : ∀ b : Bucket α, Sorted b → (∀ e ∈ b, ¬ e.1 < p) →
    b.takeWhile (fun e => p.isPrefixOf e.1) = b.filter fun e => p.isPrefixOf e.1
  | [], _, _ => rfl
  | e :: b, h, hp => by
    obtain ⟨h1, h2⟩ := List.pairwise_cons.1 h
    by_cases he : p.isPrefixOf e.1 = true
    · rw [List.takeWhile_cons, if_pos he, List.filter_cons, if_pos he,
        takeWhile_prefix p b h2 fun x hx => hp x (List.mem_cons_of_mem _ hx)]
    · rw [List.takeWhile_cons, if_neg he, List.filter_cons, if_neg he]
      symm
      rw [List.filter_eq_nil_iff]
      intro x hx hx'
      exact he ((isPrefixOf_iff _ _).2 (prefix_convex p e.1 x.1 (hp e (by simp)) (h1 x hx) ((isPrefixOf_iff _ _).1 hx')))

/-- the loop over a prefix sees exactly the entries whose key starts with it -/
theorem scan_eq {α : Type} (p : Key) : ∀ b : Bucket α, Sorted b → scan p b = b.filter fun e => p.isPrefixOf e.1
  | [], _ => rfl
  | e :: b, h => by
    obtain ⟨h1, h2⟩ := List.pairwise_cons.1 h
    unfold scan
    by_cases he : e.1 < p
    · rw [List.dropWhile_cons_of_pos (by simpa using he), List.filter_cons,
        if_neg (fun x => not_prefix_of_lt he ((isPrefixOf_iff _ _).1 x))]
      exact scan_eq p b h2
    · rw [List.dropWhile_cons_of_neg (by simpa using he)]
      refine takeWhile_prefix p _ h ?_
      intro x hx
      rcases List.mem_cons.1 hx with rfl | hx
      · exact he
      · intro hlt
        exact he (lt_trans (h1 x hx) hlt)

theorem mem_scan {α : Type} (p : Key) (b : Bucket α) (h : Sorted b) (e : Key × α) : e ∈ scan p b ↔ e ∈ b ∧ p <+: e.1 := by
  rw [scan_eq p b h, List.mem_filter, isPrefixOf_iff]

theorem sorted_scan {α : Type} (p : Key) (b : Bucket α) (h : Sorted b) : Sorted (scan p b) := by
  rw [scan_eq p b h]; exact h.filter _

end Verif.Util.Bolt
