import Verif.Server.Store
/-!
# Lemmas on the lookup buckets
-/
namespace Verif.Server.Store
open Verif.Util.Bolt

/-- keys of jobs are 32 hexadecimal digits (utils.go:102-105); all that is used is that they have no underscore -/
def Proper (k : Key) : Prop := '_' ∉ k

instance (k : Key) : Decidable (Proper k) := by unfold Proper; infer_instance

theorem underscore_suffix {a b k k' : Key} (hk : Proper k) (hk' : Proper k') (h : a ++ '_' :: k = b ++ '_' :: k') :
    a = b ∧ k = k' := by
  induction a generalizing b with
  | nil =>
    cases b with
    | nil => simpa using h
    | cons c b =>
      simp only [List.nil_append, List.cons_append, List.cons.injEq] at h
      exact absurd (h.2 ▸ by simp : '_' ∈ k) hk
  | cons c a ih =>
    cases b with
    | nil =>
      simp only [List.nil_append, List.cons_append, List.cons.injEq] at h
      exact absurd (h.2 ▸ by simp : '_' ∈ k') hk'
    | cons d b =>
      simp only [List.cons_append, List.cons.injEq] at h
      obtain ⟨rfl, h⟩ := h
      obtain ⟨rfl, rfl⟩ := ih h
      exact ⟨rfl, rfl⟩

theorem delimiter_eq : delimiter = ['_', ':', ':'] ++ ['_'] := by decide

theorem lookupKey_eq (g k : Key) : lookupKey g k = (g ++ ['_', ':', ':']) ++ '_' :: k := by
  simp [lookupKey, delimiter_eq]

theorem lookupKey_inj {g g' k k' : Key} (hk : Proper k) (hk' : Proper k') (h : lookupKey g k = lookupKey g' k') :
    g = g' ∧ k = k' := by
  rw [lookupKey_eq, lookupKey_eq] at h
  obtain ⟨h1, h2⟩ := underscore_suffix hk hk' h
  exact ⟨List.append_cancel_right h1, h2⟩

theorem prefix_inj {g g' : Key} (h : g ++ delimiter = g' ++ delimiter) : g = g' := List.append_cancel_right h

/-- the bucket is in order and its keys are made by `generateLookupKey` from job keys -/
structure Ok (b : Bucket Unit) : Prop where
  sorted : Sorted b
  form : ∀ e ∈ b, ∃ g k, Proper k ∧ e.1 = lookupKey g k

/-- the job with that key is found under the group -/
def Has (b : Bucket Unit) (g k : Key) : Prop := (lookupKey g k, ()) ∈ b

theorem ok_nil : Ok [] := ⟨by simp [Sorted], by simp⟩

theorem has_nil (g k : Key) : ¬ Has [] g k := by simp [Has]

theorem mem_put_iff {α : Type} (k : Key) (v : α) (b : Bucket α) (h : Sorted b) (e : Key × α) :
    e ∈ put k v b ↔ e = (k, v) ∨ (e ∈ b ∧ e.1 ≠ k) := by
  obtain ⟨x, y⟩ := e
  rw [mem_iff_get x y _ (sorted_put k v b h), get_put, mem_iff_get x y _ h]
  by_cases hx : x = k
  · simp [hx, eq_comm]
  · simp [hx]

theorem ok_putLookups (l : List (Key × Key)) (hl : ∀ e ∈ l, Proper e.2) : ∀ b, Ok b → Ok (putLookups l b) := by
  induction l with
  | nil => intro b h; exact h
  | cons e l ih =>
    intro b h
    refine ih (fun x hx => hl x (List.mem_cons_of_mem _ hx)) _ ⟨sorted_put _ _ _ h.sorted, ?_⟩
    intro x hx
    rcases mem_put _ _ _ _ hx with rfl | hx
    · exact ⟨e.1, e.2, hl e (by simp), rfl⟩
    · exact h.form x hx

theorem has_putLookups (l : List (Key × Key)) (hl : ∀ e ∈ l, Proper e.2) (g k : Key) (hk : Proper k) : ∀ b, Ok b →
    (Has (putLookups l b) g k ↔ Has b g k ∨ (g, k) ∈ l) := by
  induction l with
  | nil => intro b h; simp [putLookups]
  | cons e l ih =>
    intro b h
    have h1 : Ok (put (lookupKey e.1 e.2) () b) := ok_putLookups [e] (by simpa using hl e (by simp)) b h
    have := ih (fun x hx => hl x (List.mem_cons_of_mem _ hx)) _ h1
    unfold putLookups at this ⊢
    simp only [List.foldl_cons]
    rw [this]
    unfold Has
    rw [mem_put_iff _ _ _ h.sorted]
    simp only [Prod.mk.injEq, and_true, List.mem_cons]
    constructor
    · rintro ((h2 | h2) | h2)
      · obtain ⟨rfl, rfl⟩ := lookupKey_inj hk (hl e (by simp)) h2
        exact .inr (.inl rfl)
      · exact .inl h2.1
      · exact .inr (.inr h2)
    · rintro (h2 | rfl | h2)
      · by_cases h3 : lookupKey g k = lookupKey e.1 e.2
        · exact .inl (.inl h3)
        · exact .inl (.inr ⟨h2, h3⟩)
      · exact .inl (.inl rfl)
      · exact .inr h2

theorem suffix_lookupKey (g k k' : Key) (hk : Proper k) (hk' : Proper k') :
    hasSuffix (delimiter ++ k') (lookupKey g k) = true ↔ k = k' := by
  unfold hasSuffix
  rw [List.isSuffixOf_iff_suffix]
  constructor
  · rintro ⟨t, ht⟩
    have : lookupKey t k' = lookupKey g k := by simpa [lookupKey] using ht
    exact (lookupKey_inj hk hk' this.symm).2
  · rintro rfl
    exact ⟨g, by simp [lookupKey]⟩

theorem ok_dropLookups (k : Key) (b : Bucket Unit) (h : Ok b) : Ok (dropLookups k b) :=
  ⟨h.sorted.filter _, fun e he => h.form e (List.mem_filter.1 he).1⟩

theorem has_dropLookups (k' : Key) (hk' : Proper k') (b : Bucket Unit) (g k : Key) (hk : Proper k) :
    Has (dropLookups k' b) g k ↔ Has b g k ∧ k ≠ k' := by
  unfold Has dropLookups
  rw [List.mem_filter]
  have := suffix_lookupKey g k k' hk hk'
  constructor
  · rintro ⟨h1, h2⟩
    refine ⟨h1, fun e => ?_⟩
    rw [this.2 e] at h2
    cases h2
  · rintro ⟨h1, h2⟩
    refine ⟨h1, ?_⟩
    cases hc : hasSuffix (delimiter ++ k') (lookupKey g k)
    · rfl
    · exact absurd (this.1 hc) h2

theorem ok_drops (ks : List Key) : ∀ b, Ok b → Ok (ks.foldl (fun b k => dropLookups k b) b) := by
  induction ks with
  | nil => intro b h; exact h
  | cons k ks ih => intro b h; exact ih _ (ok_dropLookups k b h)

theorem has_drops (ks : List Key) (hks : ∀ k ∈ ks, Proper k) (g k : Key) (hk : Proper k) : ∀ b,
    (Has (ks.foldl (fun b k => dropLookups k b) b) g k ↔ Has b g k ∧ k ∉ ks) := by
  induction ks with
  | nil => intro b; simp
  | cons k' ks ih =>
    intro b
    rw [List.foldl_cons, ih (fun x hx => hks x (List.mem_cons_of_mem _ hx)), has_dropLookups k' (hks k' (by simp)) b g k hk]
    simp only [List.mem_cons, not_or, and_assoc]

/-- what a loop over the lookups of a group sees, of keys that are those of jobs -/
theorem mem_scan_keys (b : Bucket Unit) (h : Ok b) (g k : Key) :
    (∃ e ∈ scan (g ++ delimiter) b, e.1.drop (g ++ delimiter).length = k) ↔ Has b g k := by
  constructor
  · rintro ⟨e, he, rfl⟩
    obtain ⟨h1, t, ht⟩ := (mem_scan _ _ h.sorted e).1 he
    unfold Has lookupKey
    rw [← ht, List.drop_left, ht]
    exact h1
  · intro hh
    refine ⟨(lookupKey g k, ()), (mem_scan _ _ h.sorted _).2 ⟨hh, k, rfl⟩, ?_⟩
    show (lookupKey g k).drop _ = k
    unfold lookupKey
    rw [List.drop_left]

theorem scan_keys_nodup (b : Bucket Unit) (h : Ok b) (g : Key) :
    ((scan (g ++ delimiter) b).map fun e => e.1.drop (g ++ delimiter).length).Nodup := by
  rw [List.Nodup, List.pairwise_map]
  refine (sorted_scan (g ++ delimiter) b h.sorted).imp_of_mem ?_
  intro x y hx hy hlt he
  obtain ⟨_, t, ht⟩ := (mem_scan _ _ h.sorted x).1 hx
  obtain ⟨_, u, hu⟩ := (mem_scan _ _ h.sorted y).1 hy
  rw [← ht, ← hu, List.drop_left, List.drop_left] at he
  rw [← ht, ← hu, he] at hlt
  exact lt_irrefl _ hlt

/-! ## jobs -/

theorem get_putJobs (l : List Job) (x : Key) : ∀ b, get x (putJobs l b) =
    match l.reverse.find? (fun j => j.key = x) with
    | some j => some j.rec'
    | none => get x b := by
  induction l with
  | nil => intro b; rfl
  | cons j l ih =>
    intro b
    have : putJobs (j :: l) b = putJobs l (put j.key j.rec' b) := rfl
    rw [this, ih, List.reverse_cons, List.find?_append]
    cases l.reverse.find? (fun j => j.key = x) with
    | some y => rfl
    | none =>
      simp only [Option.none_or]
      rw [get_put]
      by_cases hx : x = j.key
      · simp [List.find?, hx]
      · simp [List.find?, hx, Ne.symm hx]

theorem sorted_putJobs (l : List Job) : ∀ b, Sorted b → Sorted (putJobs l b) := by
  induction l with
  | nil => intro b h; exact h
  | cons j l ih => intro b h; exact ih _ (sorted_put _ _ _ h)

/-- after storing jobs, what is found is what was there or one of them; and all of them are found -/
theorem get_putJobs_cases (l : List Job) (b : Bucket Rec) (x : Key) :
    (∃ j ∈ l, j.key = x ∧ get x (putJobs l b) = some j.rec') ∨ (x ∉ l.map (·.key) ∧ get x (putJobs l b) = get x b) := by
  rw [get_putJobs]
  cases h : l.reverse.find? (fun j => j.key = x) with
  | some j =>
    refine .inl ⟨j, ?_, ?_, rfl⟩
    · simpa using List.mem_of_find?_eq_some h
    · simpa using List.find?_some h
  | none =>
    refine .inr ⟨?_, rfl⟩
    intro hx
    obtain ⟨j, hj, hjx⟩ := List.mem_map.1 hx
    have := List.find?_eq_none.1 h j (by simpa using hj)
    simp [hjx] at this

theorem sorted_enqueue (l : List Job) : ∀ b, Sorted b → Sorted (enqueue l b) := by
  induction l with
  | nil => intro b h; exact h
  | cons j l ih =>
    intro b h
    unfold enqueue
    rw [List.foldl_cons]
    refine ih _ ?_
    split
    · exact h
    · exact sorted_put _ _ _ h

theorem get_enqueue_cases (l : List Job) (x : Key) : ∀ b,
    ((get x b).isSome ∧ get x (enqueue l b) = get x b) ∨
    (get x b = none ∧ ∃ j ∈ l, j.key = x ∧ get x (enqueue l b) = some j.rec') ∨
    (get x b = none ∧ x ∉ l.map (·.key) ∧ get x (enqueue l b) = none) := by
  induction l with
  | nil =>
    intro b
    cases h : get x b with
    | some r => exact .inl ⟨rfl, by simp [enqueue, h]⟩
    | none => exact .inr (.inr ⟨rfl, by simp, by simp [enqueue, h]⟩)
  | cons j l ih =>
    intro b
    have e : enqueue (j :: l) b = enqueue l (if (get j.key b).isSome then b else put j.key j.rec' b) := rfl
    rw [e]
    by_cases hj : (get j.key b).isSome
    · rw [if_pos hj]
      rcases ih b with h | ⟨h1, j', h2, h3, h4⟩ | ⟨h1, h2, h3⟩
      · exact .inl h
      · exact .inr (.inl ⟨h1, j', List.mem_cons_of_mem _ h2, h3, h4⟩)
      · refine .inr (.inr ⟨h1, ?_, h3⟩)
        simp only [List.map_cons, List.mem_cons, not_or]
        refine ⟨?_, h2⟩
        rintro rfl
        rw [h1] at hj; cases hj
    · rw [if_neg hj]
      have := ih (put j.key j.rec' b)
      rw [get_put] at this
      by_cases hx : x = j.key
      · subst hx
        simp only [if_true] at this
        rcases this with h | ⟨h1, _⟩ | ⟨h1, _⟩
        · refine .inr (.inl ⟨?_, j, by simp, rfl, h.2⟩)
          simpa using hj
        · cases h1
        · cases h1
      · simp only [hx, if_false] at this
        rcases this with h | ⟨h1, j', h2, h3, h4⟩ | ⟨h1, h2, h3⟩
        · exact .inl h
        · exact .inr (.inl ⟨h1, j', List.mem_cons_of_mem _ h2, h3, h4⟩)
        · refine .inr (.inr ⟨h1, ?_, h3⟩)
          simp only [List.map_cons, List.mem_cons, not_or]
          exact ⟨hx, h2⟩

theorem get_deletes (ks : List Key) (x : Key) : ∀ b : Bucket Rec,
    get x (ks.foldl (fun b k => delete k b) b) = if x ∈ ks then none else get x b := by
  induction ks with
  | nil => intro b; simp
  | cons k ks ih =>
    intro b
    rw [List.foldl_cons, ih, get_delete]
    by_cases h1 : x ∈ ks
    · simp [h1]
    · by_cases h2 : x = k
      · simp [h2]
      · simp [h1, h2]

theorem sorted_deletes (ks : List Key) : ∀ b : Bucket Rec, Sorted b → Sorted (ks.foldl (fun b k => delete k b) b) := by
  induction ks with
  | nil => intro b h; exact h
  | cons k ks ih => intro b h; exact ih _ (sorted_delete k b h)

theorem sorted_changeQueue (ms : List (Key × Job)) : ∀ b, Sorted b → Sorted (changeQueue ms b) := by
  induction ms with
  | nil => intro b h; exact h
  | cons m ms ih => intro b h; exact ih _ (sorted_put _ _ _ (sorted_delete _ _ h))

theorem updateJobs_cases (l : List Job) (x : Key) : ∀ b,
    ((get x (updateJobs l b).1).isSome = (get x b).isSome) ∧
    (get x (updateJobs l b).1 = get x b ∨ ∃ j ∈ l, j.key = x ∧ get x (updateJobs l b).1 = some j.rec') := by
  induction l with
  | nil => intro b; simp [updateJobs]
  | cons j l ih =>
    intro b
    unfold updateJobs
    split
    · rename_i hj
      obtain ⟨h1, h2⟩ := ih (put j.key j.rec' b)
      rw [get_put] at h1 h2
      by_cases hx : x = j.key
      · subst hx
        simp only [if_true] at h1 h2
        refine ⟨by rw [h1, hj]; rfl, .inr ?_⟩
        rcases h2 with h2 | ⟨j', h2, h3, h4⟩
        · exact ⟨j, by simp, rfl, h2⟩
        · exact ⟨j', List.mem_cons_of_mem _ h2, h3, h4⟩
      · simp only [hx, if_false] at h1 h2
        refine ⟨h1, ?_⟩
        rcases h2 with h2 | ⟨j', h2, h3, h4⟩
        · exact .inl h2
        · exact .inr ⟨j', List.mem_cons_of_mem _ h2, h3, h4⟩
    · simp

theorem sorted_updateJobs (l : List Job) : ∀ b, Sorted b → Sorted (updateJobs l b).1 := by
  induction l with
  | nil => intro b h; exact h
  | cons j l ih =>
    intro b h
    unfold updateJobs
    split
    · exact ih _ (sorted_put _ _ _ h)
    · exact h

theorem updateJobs_ok (l : List Job) : ∀ b, (∀ j ∈ l, (get j.key b).isSome) → (updateJobs l b).2 = true := by
  induction l with
  | nil => intro b _; rfl
  | cons j l ih =>
    intro b h
    unfold updateJobs
    rw [if_pos (h j (by simp))]
    refine ih _ fun x hx => ?_
    rw [get_put]
    split
    · rfl
    · exact h x (List.mem_cons_of_mem _ hx)

end Verif.Server.Store
