/-
Properties of `wr remove`, `wr kill` and `wr retry` (C113).
-/
import Verif.Cmd.Choose

namespace Verif.Cmd.Choose
open Verif.Server.Listing (JobState normalizeJobState matchesStateFilter)

/-! ### Specification -/

/-- no two jobs in the queue have the same key -/
def Uniq (q : List Item) : Prop := q.Pairwise fun i j => i.key ≠ j.key

/-- the job is one of those that -a, -i (with -z or -y), -f or -l is for -/
def Chosen (a : Args) (i : Item) : Prop :=
  a.all = true ∨
  (∃ g, a.id = some g ∧ if a.internal then i.key = a.idKey else if a.search then g <:+: i.group else i.group = g) ∨
  (∃ ks, a.file = some ks ∧ i.key ∈ ks) ∨
  a.line = some i.key

/-- jobs were chosen with -a, or with -i as a report group -/
def ByGroup (a : Args) : Prop := a.all = true ∨ (a.id.isSome = true ∧ a.internal = false)

/-! ### Lists of jobs -/

private theorem contains_iff (s : Str) : ∀ g, contains s g = true ↔ s <:+: g
  | [] => by simp [contains]
  | c :: cs => by
    simp only [contains, Bool.or_eq_true, List.isPrefixOf_iff_prefix, contains_iff s cs, List.infix_cons_iff]

private theorem find_uniq {q : List Item} (hu : Uniq q) {i : Item} (hi : i ∈ q) : q.find? (fun j => decide (j.key = i.key)) = some i := by
  unfold Uniq at hu
  induction q with
  | nil => cases hi
  | cons x q ih =>
    rw [List.pairwise_cons] at hu
    rcases List.mem_cons.mp hi with rfl | hi
    · simp
    · rw [List.find?_cons_of_neg (by simp [hu.1 i hi]), ih hu.2 hi]

private theorem find_mem {q : List Item} {k : Nat} {i : Item} (h : q.find? (fun j => decide (j.key = k)) = some i) : i ∈ q ∧ i.key = k :=
  ⟨List.mem_of_find?_eq_some h, by simpa using List.find?_some h⟩

private theorem find_none {q : List Item} {k : Nat} (h : q.find? (fun j => decide (j.key = k)) = none) : ∀ i ∈ q, i.key ≠ k := by
  simpa using h

private theorem byKeys_keys (w : W) (ks : List Nat) (k : Nat) : k ∈ (byKeys w ks).map (·.key) ↔
    k ∈ ks ∧ ((∃ i ∈ w.queue, i.key = k) ∨ ((∀ i ∈ w.queue, i.key ≠ k) ∧ k ∈ w.done)) := by
  simp only [byKeys, List.map_append, List.map_map, List.mem_append, List.mem_map, List.mem_filterMap, List.mem_filter, Function.comp,
    Bool.and_eq_true, Option.isNone_iff_eq_none, List.contains_iff_mem]
  constructor
  · rintro (⟨f, ⟨k', hk', hf⟩, rfl⟩ | ⟨k', ⟨hk', hn, hd⟩, rfl⟩)
    · cases hq : w.queue.find? (fun i => decide (i.key = k')) with
      | none => rw [hq] at hf; cases hf
      | some i =>
        rw [hq] at hf; cases hf
        obtain ⟨h1, h2⟩ := find_mem hq
        refine ⟨?_, Or.inl ⟨i, h1, rfl⟩⟩
        show i.key ∈ ks
        rw [h2]; exact hk'
    · exact ⟨hk', Or.inr ⟨find_none hn, hd⟩⟩
  · rintro ⟨hk, h⟩
    cases hq : w.queue.find? (fun i => decide (i.key = k)) with
    | some i =>
      obtain ⟨h1, h2⟩ := find_mem hq
      exact Or.inl ⟨view i, ⟨k, hk, by rw [hq]; rfl⟩, h2⟩
    | none =>
      rcases h with ⟨i, hi, hik⟩ | ⟨-, hd⟩
      · exact absurd hik (find_none hq i hi)
      · exact Or.inr ⟨k, ⟨hk, hq, hd⟩, rfl⟩

/-- the job is in the state asked for -/
private def InState (st : JobState) (i : Item) : Prop :=
  matchesStateFilter (normalizeJobState (stateOf i) false) (some (if st = .running then .reserved else st)) = true

private theorem withState_keys (st : JobState) (q : List Item) (k : Nat) : k ∈ (withState st (q.map view)).map (·.key) ↔
    ∃ i ∈ q, i.key = k ∧ InState st i := by
  simp only [withState, List.mem_map, List.mem_filter, InState]
  constructor
  · rintro ⟨f, ⟨⟨i, hi, rfl⟩, hs⟩, rfl⟩; exact ⟨i, hi, rfl, hs⟩
  · rintro ⟨i, hi, rfl, hs⟩; exact ⟨view i, ⟨⟨i, hi, rfl⟩, hs⟩, rfl⟩

/-- what is listed: chosen jobs, which have the state asked for if the choice is by group -/
private theorem listed (a : Args) (st : JobState) (w : W) (hc : countArgs a = 1) (k : Nat) : k ∈ (getJobs a st w).map (·.key) ↔
    (∃ i ∈ w.queue, i.key = k ∧ Chosen a i ∧ (ByGroup a → InState st i)) ∨
    (¬ ByGroup a ∧ (∀ i ∈ w.queue, i.key ≠ k) ∧ k ∈ w.done ∧ Chosen a { key := k }) := by
  obtain ⟨file, id, search, internal, idKey, line, all⟩ := a
  cases all with
  | true =>
    simp only [getJobs, if_true, withState_keys, ByGroup, Chosen, true_or, true_and, not_true_eq_false, false_and, or_false, true_imp_iff]
  | false =>
    cases id with
    | some g =>
      have hf : file = none := by
        cases file with
        | none => rfl
        | some ks => simp only [countArgs] at hc; simp at hc; omega
      subst hf
      have hl : line = none := by
        cases line with
        | none => rfl
        | some l => simp [countArgs] at hc
      subst hl
      cases internal with
      | true =>
        simp only [getJobs, if_true, byKeys_keys, ByGroup, Chosen, Bool.false_eq_true, if_false, false_or, or_false, and_false, reduceCtorEq,
          false_and, exists_const, not_false_eq_true, true_and, List.mem_singleton, false_imp_iff, and_true, Option.some.injEq, exists_eq_left']
        constructor
        · rintro ⟨rfl, ⟨i, hi, h⟩ | ⟨h1, h2⟩⟩
          · exact Or.inl ⟨i, hi, h, h⟩
          · exact Or.inr ⟨h1, h2, rfl⟩
        · rintro (⟨i, hi, rfl, h⟩ | ⟨h1, h2, h3⟩)
          · exact ⟨h, Or.inl ⟨i, hi, rfl⟩⟩
          · exact ⟨h3, Or.inr ⟨h1, h2⟩⟩
      | false =>
        simp only [getJobs, Bool.false_eq_true, if_false, withState_keys, ByGroup, Chosen, false_or, Option.isSome_some, true_and, and_self,
          not_true_eq_false, false_and, or_false, reduceCtorEq, exists_const, true_imp_iff, Option.some.injEq, exists_eq_left', List.mem_filter]
        have hm : ∀ i : Item, (if search then contains g i.group else decide (i.group = g)) = true ↔ (if search then g <:+: i.group else i.group = g) := by
          intro i; cases search
          · simp
          · simpa using contains_iff g i.group
        constructor
        · rintro ⟨i, ⟨hi, h1⟩, h2, h3⟩; exact ⟨i, hi, h2, (hm i).mp h1, h3⟩
        · rintro ⟨i, hi, h2, h1, h3⟩; exact ⟨i, ⟨hi, (hm i).mpr h1⟩, h2, h3⟩
    | none =>
      cases file with
      | some ks =>
        have hl : line = none := by cases line <;> simp_all [countArgs]
        subst hl
        simp only [getJobs, byKeys_keys, ByGroup, Chosen, Bool.false_eq_true, if_false, false_or, or_false, reduceCtorEq, Option.isSome_none,
          false_and, exists_const, not_false_eq_true, true_and, false_imp_iff, and_true, Option.some.injEq, exists_eq_left']
        constructor
        · rintro ⟨hk, ⟨i, hi, h⟩ | ⟨h1, h2⟩⟩
          · exact Or.inl ⟨i, hi, h, h ▸ hk⟩
          · exact Or.inr ⟨h1, h2, hk⟩
        · rintro (⟨i, hi, rfl, h⟩ | ⟨h1, h2, h3⟩)
          · exact ⟨h, Or.inl ⟨i, hi, rfl⟩⟩
          · exact ⟨h3, Or.inr ⟨h1, h2⟩⟩
      | none =>
        cases line with
        | none => simp [countArgs] at hc
        | some l =>
          simp only [getJobs, byKeys_keys, ByGroup, Chosen, Bool.false_eq_true, if_false, false_or, or_false, reduceCtorEq, Option.isSome_none,
            false_and, exists_const, not_false_eq_true, true_and, false_imp_iff, and_true, Option.some.injEq, List.mem_singleton]
          constructor
          · rintro ⟨rfl, ⟨i, hi, h⟩ | ⟨h1, h2⟩⟩
            · exact Or.inl ⟨i, hi, h, h.symm⟩
            · exact Or.inr ⟨h1, h2, rfl⟩
          · rintro (⟨i, hi, rfl, h⟩ | ⟨h1, h2, h3⟩)
            · exact ⟨h.symm, Or.inl ⟨i, hi, rfl⟩⟩
            · exact ⟨h3.symm, Or.inr ⟨h1, h2⟩⟩

private theorem listed_here (a : Args) (st : JobState) (w : W) (hc : countArgs a = 1) (hu : Uniq w.queue) (i : Item) (hi : i ∈ w.queue) :
    i.key ∈ (getJobs a st w).map (·.key) ↔ Chosen a i ∧ (ByGroup a → InState st i) := by
  rw [listed a st w hc]
  constructor
  · rintro (⟨j, hj, hk, h⟩ | ⟨-, h, -⟩)
    · have h1 := find_uniq hu hi
      have h2 := find_uniq hu hj
      rw [hk, h1] at h2; cases h2; exact h
    · exact absurd rfl (h i hi)
  · intro h; exact Or.inl ⟨i, hi, rfl, h⟩

private theorem inState_buried (i : Item) : InState .buried i ↔ i.sub = .bury := by
  unfold InState stateOf normalizeJobState matchesStateFilter
  cases i.sub <;> cases i.lost <;> cases i.start <;> simp

private theorem inState_running (i : Item) : InState .running i ↔ i.sub = .run ∧ i.lost = false := by
  unfold InState stateOf normalizeJobState matchesStateFilter
  cases i.sub <;> cases i.lost <;> cases i.start <;> simp

private theorem inState_lost (i : Item) : InState .lost i ↔ i.sub = .run ∧ i.lost = true := by
  unfold InState stateOf normalizeJobState matchesStateFilter
  cases i.sub <;> cases i.lost <;> cases i.start <;> simp

private theorem inState_deletable (i : Item) : InState .deletable i := by
  unfold InState stateOf normalizeJobState matchesStateFilter
  cases i.sub <;> cases i.lost <;> cases i.start <;> simp

/-! ### Retrying -/

private theorem map_key {f : Item → Item} (hf : ∀ i, (f i).key = i.key) (q : List Item) (hu : Uniq q) : Uniq (q.map f) := by
  unfold Uniq at *
  rw [List.pairwise_map]
  simpa [hf] using hu

private theorem kick_key (i : Item) : (kickJob i).key = i.key := by unfold kickJob; split <;> rfl

private theorem kick_kick (i : Item) : kickJob (kickJob i) = kickJob i := by unfold kickJob; split <;> simp_all

private theorem kickJobs_fst : ∀ (ks : List Nat) (q : List Item), (kickJobs q ks).1 = q.map fun i => if i.key ∈ ks then kickJob i else i
  | [], q => by simp [kickJobs]
  | k :: ks, q => by
    simp only [kickJobs, kickJobs_fst ks, List.map_map, Function.comp]
    apply List.map_congr_left
    intro i _
    by_cases h1 : i.key = k
    · subst h1; by_cases h2 : i.key ∈ ks <;> simp [h2, kick_key, kick_kick]
    · by_cases h2 : i.key ∈ ks <;> simp [h1, h2]

private theorem count_split (p r : Item → Bool) (k : Nat) : ∀ q : List Item, Uniq q →
    (q.filter fun i => p i && (decide (i.key = k) || r i)).length =
    (if (q.find? fun i => decide (i.key = k)).any p then 1 else 0) + (q.filter fun i => p i && (decide (i.key ≠ k) && r i)).length
  | [], _ => rfl
  | x :: q, hu => by
    unfold Uniq at hu
    rw [List.pairwise_cons] at hu
    have ih := count_split p r k q hu.2
    by_cases hx : x.key = k
    · have hno : ∀ i ∈ q, i.key ≠ k := fun i hi => by rw [← hx]; exact (hu.1 i hi).symm
      have hf : q.find? (fun i => decide (i.key = k)) = none := by simpa using hno
      rw [hf] at ih
      simp only [Option.any_none, Bool.false_eq_true, if_false, Nat.zero_add] at ih
      rw [List.find?_cons_of_pos (by simp [hx])]
      cases hp : p x
      · simp [List.filter_cons, hp, hx]
        simpa using ih
      · simp [List.filter_cons, hp, hx]
        have : (q.filter fun i => p i && (decide (i.key = k) || r i)).length + 1 = 1 + (q.filter fun i => p i && (decide (i.key ≠ k) && r i)).length := by omega
        simpa using this
    · rw [List.find?_cons_of_neg (by simp [hx])]
      cases hp : p x && r x
      · simp [List.filter_cons, hx, hp]
        simpa using ih
      · simp [List.filter_cons, hx, hp]
        have : (q.filter fun i => p i && (decide (i.key = k) || r i)).length + 1 =
          (if (q.find? fun i => decide (i.key = k)).any p then 1 else 0) + ((q.filter fun i => p i && (decide (i.key ≠ k) && r i)).length + 1) := by omega
        simpa using this

private theorem kickJobs_snd : ∀ (ks : List Nat) (q : List Item), Uniq q →
    (kickJobs q ks).2 = (q.filter fun i => decide (i.sub = .bury) && decide (i.key ∈ ks)).length
  | [], q, _ => by
    rw [List.filter_eq_nil_iff.mpr (by simp)]; rfl
  | k :: ks, q, hu => by
    simp only [kickJobs]
    rw [kickJobs_snd ks _ (map_key (by intro i; split <;> simp [kick_key]) q hu)]
    have h := count_split (fun i => decide (i.sub = .bury)) (fun i => decide (i.key ∈ ks)) k q hu
    have h1 : (q.filter fun i => decide (i.sub = .bury) && decide (i.key ∈ k :: ks)) =
        q.filter fun i => decide (i.sub = .bury) && (decide (i.key = k) || decide (i.key ∈ ks)) := by
      apply List.filter_congr; intro i _; simp
    rw [h1, h]
    congr 1
    rw [List.filter_map, List.length_map]
    congr 1
    apply List.filter_congr
    intro i _
    simp only [Function.comp]
    by_cases hk : i.key = k
    · by_cases hb : i.sub = .bury <;> simp [hk, kickJob, hb]
    · simp [hk]

/-- C113: `wr retry` makes exactly the jobs chosen that are buried ready, with all their tries, and says how many that were; nothing
else is changed. -/
theorem C113_retry (a : Args) (w r : W) (n m : Nat) (hu : Uniq w.queue) (h : retry a w w = some (r, n, m)) :
    r.done = w.done ∧ r.queue.length = w.queue.length ∧
    (∀ (x : Nat) (i : Item), w.queue[x]? = some i →
      (Chosen a i → i.sub = .bury → r.queue[x]? = some { i with sub := .ready, left := i.retries + 1 }) ∧
      (¬ Chosen a i ∨ i.sub ≠ .bury → r.queue[x]? = some i)) ∧
    (∀ P : Item → Bool, (∀ i, P i = true ↔ Chosen a i ∧ i.sub = .bury) → n = (w.queue.filter P).length) := by
  unfold retry at h
  split at h
  · cases h
  · rename_i hc
    have hc : countArgs a = 1 := by simpa using hc
    simp only at h
    split at h
    · cases h
    · cases h
      have key : ∀ i ∈ w.queue, (i.key ∈ ((getJobs a .buried w).map (·.key)).filter fun k => (w.queue.find? (fun i => i.key = k)).any fun i => i.sub = .bury) ↔
          Chosen a i ∧ i.sub = .bury := by
        intro i hi
        rw [List.mem_filter, listed_here a .buried w hc hu i hi, find_uniq hu hi, inState_buried]
        simp only [Option.any_some, decide_eq_true_eq]
        exact ⟨fun h => ⟨h.1.1, h.2⟩, fun h => ⟨⟨h.1, fun _ => h.2⟩, h.2⟩⟩
      refine ⟨rfl, ?_, ?_, ?_⟩
      · simp [jkick, kickJobs_fst]
      · intro x i hx
        have hi := List.mem_of_getElem? hx
        simp only [jkick, kickJobs_fst, List.getElem?_map, hx, Option.map_some]
        refine ⟨?_, ?_⟩
        · intro h1 h2
          rw [if_pos ((key i hi).mpr ⟨h1, h2⟩)]
          simp [kickJob, h2]
        · intro h1
          rw [if_neg]
          rw [key i hi]
          rintro ⟨h2, h3⟩
          rcases h1 with h1 | h1
          · exact h1 h2
          · exact h1 h3
      · intro P hP
        rw [jkick, kickJobs_snd _ _ hu]
        congr 1
        apply List.filter_congr
        intro i hi
        rw [Bool.eq_iff_iff, Bool.and_eq_true, decide_eq_true_eq, decide_eq_true_eq, key i hi, hP]
        exact ⟨fun h => h.2, fun h => ⟨h.2, h⟩⟩

/-- C113: whatever happens between its two requests, `wr retry` only changes jobs that are buried at the second and were chosen (or
complete) at the first. -/
theorem C113_retry_later (a : Args) (w w' r : W) (n m : Nat) (h : retry a w w' = some (r, n, m)) (x : Nat) (i j : Item)
    (hi : w'.queue[x]? = some i) (hj : r.queue[x]? = some j) (hd : j ≠ i) :
    i.sub = .bury ∧ j = { i with sub := .ready, left := i.retries + 1 } ∧
    ((∃ b ∈ w.queue, b.key = i.key ∧ Chosen a b ∧ (ByGroup a → b.sub = .bury)) ∨ i.key ∈ w.done) := by
  unfold retry at h
  split at h
  · cases h
  · rename_i hc
    have hc : countArgs a = 1 := by simpa using hc
    simp only at h
    split at h
    · cases h
    · cases h
      simp only [jkick, kickJobs_fst, List.getElem?_map, hi, Option.map_some, Option.some.injEq] at hj
      split at hj
      · rename_i hk
        rw [List.mem_filter, listed a .buried w hc] at hk
        unfold kickJob at hj
        split at hj
        · rename_i hb
          refine ⟨hb, hj.symm, ?_⟩
          rcases hk.1 with ⟨b, h1, h2, h3, h4⟩ | ⟨-, -, h1, -⟩
          · exact Or.inl ⟨b, h1, h2, h3, fun hg => (inState_buried b).mp (h4 hg)⟩
          · exact Or.inr h1
        · exact absurd hj.symm hd
      · exact absurd hj.symm hd

/-! ### Killing -/

private theorem kill_key (i : Item) : (killJob i).key = i.key := by unfold killJob; split <;> (try split) <;> rfl

private theorem kill_kill (i : Item) : killJob (killJob i) = killJob i := by
  unfold killJob
  by_cases h1 : i.sub = .run <;> by_cases h2 : i.lost = true <;> simp [h1, h2, releaseLost]
  by_cases h3 : i.start.isSome = true ∧ i.left = 1 <;> simp [h3]

private theorem jkill_fst : ∀ (ks : List Nat) (q : List Item), (jkill q ks).1 = q.map fun i => if i.key ∈ ks then killJob i else i
  | [], q => by simp [jkill]
  | k :: ks, q => by
    simp only [jkill, jkill_fst ks, List.map_map, Function.comp]
    apply List.map_congr_left
    intro i _
    by_cases h1 : i.key = k
    · subst h1; by_cases h2 : i.key ∈ ks <;> simp [h2, kill_key, kill_kill]
    · by_cases h2 : i.key ∈ ks <;> simp [h1, h2]

private theorem older_keys (a : Args) (st : JobState) (w : W) (now age : Nat) (cd : Bool) (k : Nat)
    (h : k ∈ ((getJobs a st w).filter (older now age cd)).map (·.key)) : k ∈ (getJobs a st w).map (·.key) := by
  rw [List.mem_map] at h ⊢
  obtain ⟨f, hf, rfl⟩ := h
  exact ⟨f, (List.mem_filter.mp hf).1, rfl⟩

private theorem byKeys_found (w : W) (ks : List Nat) (f : Found) (hf : f ∈ byKeys w ks) : (∃ i ∈ w.queue, f = view i) ∨ ∀ i ∈ w.queue, i.key ≠ f.key := by
  rcases List.mem_append.mp hf with h | h
  · obtain ⟨k, -, hk⟩ := List.mem_filterMap.mp h
    cases hq : w.queue.find? (fun i => decide (i.key = k)) with
    | none => rw [hq] at hk; cases hk
    | some i => rw [hq] at hk; cases hk; exact Or.inl ⟨i, (find_mem hq).1, rfl⟩
  · obtain ⟨k, hk, rfl⟩ := List.mem_map.mp h
    have := (List.mem_filter.mp hk).2
    simp only [Bool.and_eq_true, Option.isNone_iff_eq_none] at this
    exact Or.inr (find_none this.1)

private theorem found_view (a : Args) (st : JobState) (w : W) (f : Found) (hf : f ∈ getJobs a st w) :
    (∃ i ∈ w.queue, f = view i) ∨ ∀ i ∈ w.queue, i.key ≠ f.key := by
  unfold getJobs at hf
  split at hf
  · obtain ⟨i, hi, rfl⟩ := List.mem_map.mp (List.mem_filter.mp hf).1
    exact Or.inl ⟨i, hi, rfl⟩
  · split at hf
    · split at hf
      · exact byKeys_found w _ f hf
      · obtain ⟨i, hi, rfl⟩ := List.mem_map.mp (List.mem_filter.mp hf).1
        exact Or.inl ⟨i, (List.mem_filter.mp hi).1, rfl⟩
    · split at hf
      · exact byKeys_found w _ f hf
      · split at hf
        · exact byKeys_found w _ f hf
        · cases hf

private theorem killed_here (a : Args) (st : JobState) (w : W) (hc : countArgs a = 1) (hu : Uniq w.queue) (now age : Nat) (cd : Bool) (i : Item)
    (hi : i ∈ w.queue) : i.key ∈ ((getJobs a st w).filter (older now age cd)).map (·.key) ↔
      Chosen a i ∧ (ByGroup a → InState st i) ∧ older now age cd (view i) = true := by
  rw [← and_assoc, ← listed_here a st w hc hu i hi]
  have hview : ∀ f ∈ getJobs a st w, f.key = i.key → f = view i := by
    intro f hf hk
    rcases found_view a st w f hf with ⟨j, hj, rfl⟩ | h
    · have h1 := find_uniq hu hi
      have h2 := find_uniq hu hj
      rw [show j.key = i.key from hk, h1] at h2; cases h2; rfl
    · exact absurd hk.symm (h i hi)
  constructor
  · intro h
    obtain ⟨f, hf, hk⟩ := List.mem_map.mp h
    obtain ⟨hf1, hf2⟩ := List.mem_filter.mp hf
    refine ⟨List.mem_map.mpr ⟨f, hf1, hk⟩, ?_⟩
    rw [← hview f hf1 hk]; exact hf2
  · rintro ⟨h1, h2⟩
    obtain ⟨f, hf, hk⟩ := List.mem_map.mp h1
    refine List.mem_map.mpr ⟨f, List.mem_filter.mpr ⟨hf, ?_⟩, hk⟩
    rw [hview f hf hk]; exact h2

/-- how long a running job has been running, or a lost job has been lost -/
def ranFor (now : Nat) (i : Item) : Nat :=
  match i.start with
  | some s => now - s
  | none => 0

private theorem older_running (now age : Nat) (i : Item) (hr : i.sub = .run) (hl : i.lost = false) (he : i.end_ = none) :
    older now age false (view i) = true ↔ age ≤ ranFor now i := by
  unfold older wallTime ranFor
  simp only [view, he]
  cases i.start with
  | none => by_cases h : age = 0 <;> simp [h]
  | some s => by_cases h : age = 0 <;> simp [h]

/-- C113: `wr kill` for all jobs or those of a report group marks exactly those chosen that are reserved or running for that long, not
those that are lost; `wr kill --confirmdead` releases (or buries) exactly those that are lost for that long. Nothing else is changed.
(Partial: with -f, -l and -y that is not so, see the `violated` theorems.) -/
theorem C113_kill_partial (a : Args) (cd : Bool) (age now : Nat) (w r : W) (n m : Nat) (hu : Uniq w.queue) (hg : ByGroup a)
    (he : ∀ i ∈ w.queue, i.sub = .run → (i.end_.isSome ↔ i.lost = true)) (h : kill a cd age now w w = some (r, n, m)) :
    r.done = w.done ∧ r.queue.length = w.queue.length ∧
    (∀ (x : Nat) (i : Item), w.queue[x]? = some i →
      (cd = false → Chosen a i → i.sub = .run → i.lost = false → age ≤ ranFor now i → r.queue[x]? = some { i with killCalled := true }) ∧
      (∀ e, cd = true → Chosen a i → i.sub = .run → i.lost = true → i.end_ = some e → e + age ≤ now → r.queue[x]? = some (releaseLost { i with killCalled := true })) ∧
      (¬ Chosen a i ∨ i.sub ≠ .run ∨ i.lost ≠ cd ∨ (cd = false ∧ ranFor now i < age) ∨ (∃ e, cd = true ∧ i.end_ = some e ∧ e ≤ now ∧ now < e + age) →
        r.queue[x]? = some i)) := by
  unfold kill at h
  split at h
  · cases h
  · rename_i hc
    have hc : countArgs a = 1 := by simpa using hc
    simp only at h
    rcases Decidable.em ((getJobs a (if cd then .lost else .running) w).filter (older now age cd) = []) with hn | hn
    · rw [if_pos hn] at h; cases h
    · rw [if_neg hn] at h; cases h
      have key := killed_here a (if cd then .lost else .running) w hc hu now age cd
      refine ⟨rfl, by simp [jkill_fst], ?_⟩
      intro x i hx
      have hi := List.mem_of_getElem? hx
      have key := key i hi
      simp only [jkill_fst, List.getElem?_map, hx, Option.map_some, Option.some.injEq]
      refine ⟨?_, ?_, ?_⟩
      · rintro rfl h1 h2 h3 h4
        have hen : i.end_ = none := by
          cases hen : i.end_ with
          | none => rfl
          | some e => have := (he i hi h2).mp (by simp [hen]); rw [h3] at this; cases this
        rw [if_pos]
        · simp [killJob, h2, h3]
        · rw [key]
          exact ⟨h1, fun _ => (inState_running i).mpr ⟨h2, h3⟩, (older_running now age i h2 h3 hen).mpr h4⟩
      · rintro e rfl h1 h2 h3 h4 h5
        rw [if_pos]
        · simp [killJob, h2, h3]
        · rw [key]
          refine ⟨h1, fun _ => (inState_lost i).mpr ⟨h2, h3⟩, ?_⟩
          by_cases h6 : age = 0
          · simp [older, h6]
          · simp only [older, h6, if_true, if_false, view, h4, decide_eq_true_eq]; omega
      · intro hno
        rcases Decidable.em (i.key ∈ ((getJobs a (if cd then .lost else .running) w).filter (older now age cd)).map (·.key)) with hin | hin
        · rw [if_pos hin]
          rw [key] at hin
          obtain ⟨h1, h2, h3⟩ := hin
          have h2 := h2 hg
          rcases hno with hno | hno | hno | ⟨rfl, hno⟩ | ⟨e, rfl, h4, h5, h6⟩
          · exact absurd h1 hno
          · simp [killJob, hno]
          · cases cd
            · exact absurd ((inState_running i).mp h2).2 hno
            · exact absurd ((inState_lost i).mp h2).2 hno
          · have h4 := (inState_running i).mp h2
            have hen : i.end_ = none := by
              cases hen : i.end_ with
              | none => rfl
              | some e => have := (he i hi h4.1).mp (by simp [hen]); rw [h4.2] at this; cases this
            have := (older_running now age i h4.1 h4.2 hen).mp h3
            omega
          · exfalso
            simp only [older, if_true, view, h4] at h3
            split at h3
            · omega
            · simp only [decide_eq_true_eq] at h3; omega
        · rw [if_neg hin]

/-- C113: whatever is chosen how and whatever happens between its two requests, `wr kill` only changes jobs that are reserved, running or
lost at the second, and that were chosen (or complete) at the first. -/
theorem C113_kill_later (a : Args) (cd : Bool) (age now : Nat) (w w' r : W) (n m : Nat) (h : kill a cd age now w w' = some (r, n, m))
    (x : Nat) (i j : Item) (hi : w'.queue[x]? = some i) (hj : r.queue[x]? = some j) (hd : j ≠ i) :
    i.sub = .run ∧ (i.lost = false → j = { i with killCalled := true }) ∧ (i.lost = true → j = releaseLost { i with killCalled := true }) ∧
    ((∃ b ∈ w.queue, b.key = i.key ∧ Chosen a b) ∨ i.key ∈ w.done) := by
  unfold kill at h
  split at h
  · cases h
  · rename_i hc
    have hc : countArgs a = 1 := by simpa using hc
    simp only at h
    rcases Decidable.em ((getJobs a (if cd then .lost else .running) w).filter (older now age cd) = []) with hn | hn
    · rw [if_pos hn] at h; cases h
    · rw [if_neg hn] at h; cases h
      simp only [jkill_fst, List.getElem?_map, hi, Option.map_some, Option.some.injEq] at hj
      rcases Decidable.em (i.key ∈ ((getJobs a (if cd then .lost else .running) w).filter (older now age cd)).map (·.key)) with hk | hk
      · rw [if_pos hk] at hj
        have hk := (listed a _ w hc _).mp (older_keys _ _ _ _ _ _ _ hk)
        unfold killJob at hj
        split at hj
        · rename_i hr
          refine ⟨hr, ?_, ?_, ?_⟩
          · intro hl; rw [if_neg (by simp [hl])] at hj; exact hj.symm
          · intro hl; rw [if_pos hl] at hj; exact hj.symm
          · rcases hk with ⟨b, h1, h2, h3, -⟩ | ⟨-, -, h1, -⟩
            · exact Or.inl ⟨b, h1, h2, h3⟩
            · exact Or.inr h1
        · exact absurd hj.symm hd
      · rw [if_neg hk] at hj; exact absurd hj.symm hd

/-- C113: whatever happens between the two requests, `wr retry` and `wr kill` leave the complete jobs, and all jobs in the queue, where
they are. -/
theorem C113_later_rest (a : Args) (cd : Bool) (age now : Nat) (w w' r : W) (n m : Nat)
    (h : retry a w w' = some (r, n, m) ∨ kill a cd age now w w' = some (r, n, m)) :
    r.done = w'.done ∧ r.queue.map (·.key) = w'.queue.map (·.key) := by
  rcases h with h | h
  · unfold retry at h
    split at h
    · cases h
    · simp only at h
      split at h
      · cases h
      · cases h
        refine ⟨rfl, ?_⟩
        simp only [jkick, kickJobs_fst, List.map_map]
        apply List.map_congr_left
        intro i _
        simp only [Function.comp]
        split <;> simp [kick_key]
  · unfold kill at h
    split at h
    · cases h
    · simp only at h
      rcases Decidable.em ((getJobs a (if cd then .lost else .running) w).filter (older now age cd) = []) with hn | hn
      · rw [if_pos hn] at h; cases h
      · rw [if_neg hn] at h; cases h
        refine ⟨rfl, ?_⟩
        simp only [jkill_fst, List.map_map]
        apply List.map_congr_left
        intro i _
        simp only [Function.comp]
        generalize (List.map (fun x : Found => x.key) (List.filter (older now age cd) (getJobs a (if cd then .lost else .running) w))) = l
        by_cases hl : i.key ∈ l <;> simp [hl, kill_key]

/-- C113: a job that was started when it was marked is told to die when it next says that it is alive. (Partial: see
`C113_violated_reserved`.) -/
theorem C113_told_partial (i : Item) (hr : i.sub = .run) (hl : i.lost = false) : jtouch (killJob i) = true := by
  simp [killJob, hr, hl, jtouch]

/-- C113: a lost job that is said to be dead is not running afterwards: it will be retried, or is buried if it had been started and that
was its last try; a try is used up exactly if it had been started. -/
theorem C113_dead (i : Item) (hr : i.sub = .run) (hl : i.lost = true) (hk : 0 < i.left) :
    ((killJob i).sub = .bury ↔ i.start.isSome = true ∧ (killJob i).left = 0) ∧
    ((killJob i).sub = .delay ↔ ¬ (i.start.isSome = true ∧ (killJob i).left = 0)) ∧
    ((killJob i).left = if i.start.isSome then i.left - 1 else i.left) := by
  cases hs : i.start.isSome <;> simp [killJob, hr, hl, releaseLost, hs]
  have : (i.left = 1) ↔ i.left - 1 = 0 := by omega
  refine ⟨this, ?_⟩
  omega

/-! ### Removing -/

private theorem filter_uniq {q : List Item} (p : Item → Bool) (hu : Uniq q) : Uniq (q.filter p) := hu.filter p

/-- what a round has done so far -/
private structure Sofar (q : List Item) (ks : List Nat) (r : Round) : Prop where
  queue : r.queue = q.filter fun i => decide (i.key ∉ r.deleted)
  nodup : r.deleted.Nodup
  from_ : ∀ k ∈ r.deleted, k ∈ ks ∧ ∃ i ∈ q, i.key = k
  free : ∀ k ∈ r.deleted, ∀ i ∈ r.queue, k ∉ i.deps
  rest : ∀ k ∈ ks, (∃ i ∈ r.queue, i.key = k) → k ∈ r.skipped
  skip : ∀ k ∈ r.skipped, k ∈ ks
  len : r.skipped.length + r.deleted.length ≤ ks.length
  clean : r.deleted = [] → ∀ k ∈ r.skipped, hasDependents q k = true

private theorem hasDep_false {q : List Item} {k : Nat} (h : hasDependents q k = false) : ∀ i ∈ q, k ∉ i.deps := by
  intro i hi hk
  unfold hasDependents at h
  rw [List.any_eq_false] at h
  exact h i hi (by simpa using hk)

private theorem sofar_one {q : List Item} {ks : List Nat} {r : Round} (h : Sofar q ks r) (k : Nat) : Sofar q (ks ++ [k]) (deleteOne r k) := by
  have hex : (r.queue.find? (fun i => decide (i.key = k))).isSome = true ↔ ∃ i ∈ r.queue, i.key = k := by
    rw [List.find?_isSome]; simp
  unfold deleteOne
  split
  · rename_i hd
    split
    · rename_i hs
      exact {
        queue := h.queue
        nodup := h.nodup
        from_ := fun x hx => ⟨List.mem_append_left _ (h.from_ x hx).1, (h.from_ x hx).2⟩
        free := h.free
        rest := by
          intro x hx hq
          rcases List.mem_append.mp hx with hx | hx
          · exact List.mem_append_left _ (h.rest x hx hq)
          · exact List.mem_append_right _ hx
        skip := by
          intro x hx
          rcases List.mem_append.mp hx with hx | hx
          · exact List.mem_append_left _ (h.skip x hx)
          · exact List.mem_append_right _ hx
        len := by have := h.len; simp; omega
        clean := by
          intro he x hx
          rcases List.mem_append.mp hx with hx | hx
          · exact h.clean he x hx
          · simp only [List.mem_singleton] at hx
            have hq := h.queue
            have he' : r.deleted = [] := he
            rw [he', List.filter_eq_self.mpr (by simp)] at hq
            rw [hx, ← hq]; exact hd }
    · rename_i hs
      exact {
        queue := h.queue
        nodup := h.nodup
        from_ := fun x hx => ⟨List.mem_append_left _ (h.from_ x hx).1, (h.from_ x hx).2⟩
        free := h.free
        rest := by
          intro x hx hq
          rcases List.mem_append.mp hx with hx | hx
          · exact h.rest x hx hq
          · simp only [List.mem_singleton] at hx
            rw [hx] at hq
            exact absurd (hex.mpr hq) hs
        skip := fun x hx => List.mem_append_left _ (h.skip x hx)
        len := by have := h.len; simp; omega
        clean := h.clean }
  · rename_i hd
    simp only [Bool.not_eq_true] at hd
    split
    · rename_i hs
      obtain ⟨i, hi, hik⟩ := hex.mp hs
      have hiq : i ∈ q ∧ i.key ∉ r.deleted := by
        rw [h.queue] at hi
        simpa using hi
      exact {
        queue := by
          simp only
          rw [h.queue, List.filter_filter]
          apply List.filter_congr
          intro x _
          simp [and_comm]
        nodup := by
          rw [List.nodup_append]
          refine ⟨h.nodup, by simp, ?_⟩
          intro x hx y hy hxy
          simp only [List.mem_singleton] at hy
          rw [hxy, hy, ← hik] at hx
          exact hiq.2 hx
        from_ := by
          intro x hx
          rcases List.mem_append.mp hx with hx | hx
          · exact ⟨List.mem_append_left _ (h.from_ x hx).1, (h.from_ x hx).2⟩
          · simp only [List.mem_singleton] at hx
            exact ⟨by simp [hx], i, hiq.1, by rw [hx, hik]⟩
        free := by
          intro x hx y hy
          have hy := (List.mem_filter.mp hy).1
          rcases List.mem_append.mp hx with hx | hx
          · exact h.free x hx y hy
          · simp only [List.mem_singleton] at hx
            rw [hx]; exact hasDep_false hd y hy
        rest := by
          rintro x hx ⟨y, hy, hyk⟩
          obtain ⟨hy1, hy2⟩ := List.mem_filter.mp hy
          rcases List.mem_append.mp hx with hx | hx
          · exact h.rest x hx ⟨y, hy1, hyk⟩
          · simp only [List.mem_singleton] at hx
            rw [hyk, hx] at hy2; simp at hy2
        skip := fun x hx => List.mem_append_left _ (h.skip x hx)
        len := by have := h.len; simp; omega
        clean := by intro he; simp at he }
    · rename_i hs
      exact {
        queue := h.queue
        nodup := h.nodup
        from_ := fun x hx => ⟨List.mem_append_left _ (h.from_ x hx).1, (h.from_ x hx).2⟩
        free := h.free
        rest := by
          intro x hx hq
          rcases List.mem_append.mp hx with hx | hx
          · exact h.rest x hx hq
          · simp only [List.mem_singleton] at hx
            rw [hx] at hq
            exact absurd (hex.mpr hq) hs
        skip := fun x hx => List.mem_append_left _ (h.skip x hx)
        len := by have := h.len; simp; omega
        clean := h.clean }

private theorem sofar_fold (q : List Item) : ∀ (ks done : List Nat) (r : Round), Sofar q done r → Sofar q (done ++ ks) (ks.foldl deleteOne r)
  | [], done, r, h => by simpa using h
  | k :: ks, done, r, h => by
    have := sofar_fold q ks (done ++ [k]) _ (sofar_one h k)
    simpa using this

private theorem sofar_round (q : List Item) (ks : List Nat) : Sofar q ks (ks.foldl deleteOne { queue := q }) := by
  have := sofar_fold q ks [] { queue := q } {
    queue := (List.filter_eq_self.mpr (by simp)).symm
    nodup := by simp
    from_ := by simp
    free := by simp
    rest := by simp
    skip := by simp
    len := by simp
    clean := by simp }
  simpa using this

private theorem delete_ok : ∀ (n : Nat) (q : List Item) (ks : List Nat), ks.length < n →
    (deleteJobs n q ks).1 = q.filter (fun i => decide (i.key ∉ (deleteJobs n q ks).2)) ∧ (deleteJobs n q ks).2.Nodup ∧
    (∀ k ∈ (deleteJobs n q ks).2, k ∈ ks ∧ ∃ i ∈ q, i.key = k) ∧
    (∀ k ∈ (deleteJobs n q ks).2, ∀ i ∈ (deleteJobs n q ks).1, k ∉ i.deps) ∧
    (∀ k ∈ ks, (∃ i ∈ (deleteJobs n q ks).1, i.key = k) → ∃ i ∈ (deleteJobs n q ks).1, k ∈ i.deps)
  | 0, q, ks, h => by omega
  | n + 1, q, ks, hn => by
    have hs := sofar_round q ks
    simp only [deleteJobs]
    split
    · rename_i hc
      have hlen : (ks.foldl deleteOne { queue := q }).skipped.length < n := by
        have := hs.len
        have : 0 < (ks.foldl deleteOne { queue := q }).deleted.length := List.length_pos_iff.mpr hc.1
        omega
      obtain ⟨h1, h2, h3, h4, h5⟩ := delete_ok n (ks.foldl deleteOne { queue := q }).queue (ks.foldl deleteOne { queue := q }).skipped hlen
      refine ⟨?_, ?_, ?_, ?_, ?_⟩
      · rw [h1, hs.queue, List.filter_filter]
        apply List.filter_congr
        intro i _
        simp [Bool.and_comm]
      · rw [List.nodup_append]
        refine ⟨hs.nodup, h2, ?_⟩
        intro x hx y hy hxy
        obtain ⟨-, i, hi, hik⟩ := h3 y hy
        rw [hs.queue] at hi
        have := (List.mem_filter.mp hi).2
        rw [hik, ← hxy] at this
        simp [hx] at this
      · intro k hk
        rcases List.mem_append.mp hk with hk | hk
        · exact hs.from_ k hk
        · obtain ⟨h6, i, hi, hik⟩ := h3 k hk
          refine ⟨hs.skip k h6, i, ?_, hik⟩
          rw [hs.queue] at hi
          exact (List.mem_filter.mp hi).1
      · intro k hk i hi
        rcases List.mem_append.mp hk with hk | hk
        · refine hs.free k hk i ?_
          rw [h1] at hi
          exact (List.mem_filter.mp hi).1
        · exact h4 k hk i hi
      · rintro k hk ⟨i, hi, hik⟩
        refine h5 k ?_ ⟨i, hi, hik⟩
        refine hs.rest k hk ⟨i, ?_, hik⟩
        rw [h1] at hi
        exact (List.mem_filter.mp hi).1
    · rename_i hc
      refine ⟨hs.queue, hs.nodup, hs.from_, hs.free, ?_⟩
      intro k hk hq
      have hsk := hs.rest k hk hq
      have hne : (ks.foldl deleteOne { queue := q }).skipped ≠ [] := by intro h; rw [h] at hsk; cases hsk
      have hd : (ks.foldl deleteOne { queue := q }).deleted = [] := by
        rcases Decidable.em ((ks.foldl deleteOne { queue := q }).deleted = []) with h | h
        · exact h
        · exact absurd ⟨h, hne⟩ hc
      have := hs.clean hd k hsk
      unfold hasDependents at this
      rw [List.any_eq_true] at this
      obtain ⟨i, hi, hik⟩ := this
      have hqe := hs.queue
      rw [hd, List.filter_eq_self.mpr (by simp)] at hqe
      exact ⟨i, by rw [hqe]; exact hi, by simpa using hik⟩

private theorem jdel_ok (q : List Item) (ks : List Nat) (hu : Uniq q) :
    (jdel q ks).1 = q.filter (fun i => decide (i.key ∉ (jdel q ks).2)) ∧ (jdel q ks).2.Nodup ∧
    (∀ k ∈ (jdel q ks).2, k ∈ ks ∧ ∃ i ∈ q, i.key = k ∧ i.sub ≠ .run) ∧
    (∀ k ∈ (jdel q ks).2, ∀ i ∈ (jdel q ks).1, k ∉ i.deps) ∧
    (∀ i ∈ (jdel q ks).1, i.key ∈ ks → i.sub = .run ∨ ∃ j ∈ (jdel q ks).1, i.key ∈ j.deps) := by
  obtain ⟨h1, h2, h3, h4, h5⟩ := delete_ok ((ks.filter fun k => ((q.find? (fun i => i.key = k)).any fun i => i.sub ≠ .run)).length + 1) q
    (ks.filter fun k => ((q.find? (fun i => i.key = k)).any fun i => i.sub ≠ .run)) (Nat.lt_succ_self _)
  refine ⟨h1, h2, ?_, h4, ?_⟩
  · intro k hk
    obtain ⟨h6, i, hi, rfl⟩ := h3 k hk
    obtain ⟨h7, h8⟩ := List.mem_filter.mp h6
    rw [find_uniq hu hi] at h8
    exact ⟨h7, i, hi, rfl, by simpa using h8⟩
  · intro i hi hk
    have hiq : i ∈ q := by
      have : i ∈ (jdel q ks).1 := hi
      rw [show (jdel q ks).1 = _ from h1] at this
      exact (List.mem_filter.mp this).1
    by_cases hr : i.sub = .run
    · exact Or.inl hr
    · refine Or.inr (h5 i.key (List.mem_filter.mpr ⟨hk, ?_⟩) ⟨i, hi, rfl⟩)
      rw [find_uniq hu hiq]; simpa using hr

/-- C113: what `wr remove` does, whatever happens between its two requests: exactly the jobs it counts are gone and all others are as they
were; those that are gone were not running, were chosen, and (for -b with -a or -i) were buried when they were listed; no job that stays
depends on one that is gone. -/
theorem C113_remove (a : Args) (b : Bool) (w w' r : W) (ks : List Nat) (m : Nat) (hu : Uniq w'.queue)
    (h : remove a b w w' = some (r, ks, m)) :
    r.done = w'.done ∧ ks.Nodup ∧ (∀ i, i ∈ r.queue ↔ i ∈ w'.queue ∧ i.key ∉ ks) ∧
    (∀ k ∈ ks, (∃ i ∈ w'.queue, i.key = k ∧ i.sub ≠ .run) ∧
      ((∃ i ∈ w.queue, i.key = k ∧ Chosen a i ∧ (b = true → ByGroup a → i.sub = .bury)) ∨ k ∈ w.done)) ∧
    (∀ k ∈ ks, ∀ i ∈ r.queue, k ∉ i.deps) := by
  unfold remove at h
  split at h
  · cases h
  · rename_i hc
    have hc : countArgs a = 1 := by simpa using hc
    simp only at h
    rcases Decidable.em (getJobs a (if b then .buried else .deletable) w = []) with hn | hn
    · rw [if_pos hn] at h; cases h
    · rw [if_neg hn] at h; cases h
      obtain ⟨h1, h2, h3, h4, -⟩ := jdel_ok w'.queue ((getJobs a (if b then .buried else .deletable) w).map (·.key)) hu
      refine ⟨rfl, h2, ?_, ?_, h4⟩
      · intro i
        rw [h1, List.mem_filter, decide_eq_true_eq]
      · intro k hk
        obtain ⟨h5, h6⟩ := h3 k hk
        refine ⟨h6, ?_⟩
        rcases (listed a _ w hc k).mp h5 with ⟨i, hi, hik, hch, hst⟩ | ⟨-, -, hd, -⟩
        · refine Or.inl ⟨i, hi, hik, hch, ?_⟩
          rintro rfl hg
          exact (inState_buried i).mp (hst hg)
        · exact Or.inr hd

/-- C113: if nothing happens between its two requests, `wr remove` removes every chosen job that is not running (and for -b is buried),
but for those that a job that stays depends on. (Partial: -b is only heeded with -a and -i, see `C113_violated_buried`.) -/
theorem C113_remove_partial (a : Args) (b : Bool) (w r : W) (ks : List Nat) (m : Nat) (hu : Uniq w.queue)
    (h : remove a b w w = some (r, ks, m)) (i : Item) (hi : i ∈ w.queue) :
    (Chosen a i → i.sub ≠ .run → (b = true → i.sub = .bury) → i ∉ r.queue ∨ ∃ j ∈ r.queue, i.key ∈ j.deps) ∧
    (i ∉ r.queue → Chosen a i ∧ i.sub ≠ .run ∧ (b = true → ByGroup a → i.sub = .bury)) := by
  have hrem := C113_remove a b w w r ks m hu h
  have same : ∀ j ∈ w.queue, j.key = i.key → j = i := by
    intro j hj hk
    have h1 := find_uniq hu hi
    have h2 := find_uniq hu hj
    rw [hk, h1] at h2; exact (Option.some.inj h2).symm
  unfold remove at h
  split at h
  · cases h
  · rename_i hc
    have hc : countArgs a = 1 := by simpa using hc
    simp only at h
    rcases Decidable.em (getJobs a (if b then .buried else .deletable) w = []) with hn | hn
    · rw [if_pos hn] at h; cases h
    · rw [if_neg hn] at h; cases h
      obtain ⟨-, -, h3, -, h5⟩ := jdel_ok w.queue ((getJobs a (if b then .buried else .deletable) w).map (·.key)) hu
      refine ⟨?_, ?_⟩
      · intro hch hr hb
        rcases Decidable.em (i ∈ (jdel w.queue ((getJobs a (if b then .buried else .deletable) w).map (·.key))).1) with hin | hin
        · refine Or.inr ?_
          have hst : ByGroup a → InState (if b then .buried else .deletable) i := by
            intro _
            cases b
            · exact inState_deletable i
            · exact (inState_buried i).mpr (hb rfl)
          rcases h5 i hin ((listed_here a _ w hc hu i hi).mpr ⟨hch, hst⟩) with h6 | h6
          · exact absurd h6 hr
          · exact h6
        · exact Or.inl hin
      · intro hout
        have hk : i.key ∈ (jdel w.queue ((getJobs a (if b then .buried else .deletable) w).map (·.key))).2 := by
          rcases Decidable.em (i.key ∈ (jdel w.queue ((getJobs a (if b then .buried else .deletable) w).map (·.key))).2) with h | h
          · exact h
          · exact absurd ((hrem.2.2.1 i).mpr ⟨hi, h⟩) hout
        obtain ⟨hin, j, hj, hjk, hjr⟩ := h3 _ hk
        rw [same j hj hjk] at hjr
        obtain ⟨hch, hst⟩ := (listed_here a _ w hc hu i hi).mp hin
        refine ⟨hch, hjr, ?_⟩
        rintro rfl hg
        exact (inState_buried i).mp (hst hg)

/-! ### Cases -/

private def exW : W :=
  { queue := [
      { key := 1, group := ['a', 'b'], sub := .bury },
      { key := 2, group := ['a'], sub := .dependent, deps := [1] },
      { key := 3, group := ['a'], sub := .run, start := some 5 },
      { key := 4, group := ['b'], sub := .run, lost := true, start := some 1, end_ := some 7, left := 2 },
      { key := 5, group := ['b'], sub := .bury, retries := 3 } ] }

example : Uniq exW.queue := by unfold Uniq exW; decide
example : retry { all := true } exW exW = some ({ exW with queue := exW.queue.map kickJob }, 2, 2) := by decide
example : (remove { id := some ['a'], search := true } false exW exW).map (fun r => (r.1.queue.map (·.key), r.2)) = some ([3, 4, 5], [2, 1], 3) := by decide
example : (remove { all := true } true exW exW).map (fun r => (r.1.queue.map (·.key), r.2)) = some ([1, 2, 3, 4], [5], 2) := by decide
example : ∃ r, kill { all := true } false 3 10 exW exW = some r ∧ r.2 = (1, 1) := ⟨_, rfl, by decide⟩
example : ∃ r, kill { id := some ['b'] } true 2 10 exW exW = some r ∧ r.2 = (1, 1) ∧ r.1.queue[3]?.map (·.sub) = some .delay := ⟨_, rfl, by decide, by decide⟩
example : ∀ i ∈ exW.queue, i.sub = .run → (i.end_.isSome ↔ i.lost = true) := by decide

/-! ### When they do something, and what they say -/

/-- C113: with exactly one way of choosing, a command that has a job to act on acts. -/
theorem C113_acts (a : Args) (w w' : W) (hc : countArgs a = 1) (i : Item) (hi : i ∈ w.queue) (hch : Chosen a i) :
    (i.sub = .bury → retry a w w' ≠ none) ∧
    (∀ b : Bool, (b = true → i.sub = .bury) → remove a b w w' ≠ none) ∧
    (∀ now, i.sub = .run → kill a i.lost 0 now w w' ≠ none) := by
  have key : ∀ st, InState st i → getJobs a st w ≠ [] := by
    intro st hst hn
    have := (listed a st w hc i.key).mpr (Or.inl ⟨i, hi, rfl, hch, fun _ => hst⟩)
    rw [hn] at this; cases this
  refine ⟨?_, ?_, ?_⟩
  · intro hb
    simp [retry, hc, key .buried ((inState_buried i).mpr hb)]
  · intro b hb
    have : getJobs a (if b then .buried else .deletable) w ≠ [] := by
      apply key
      cases b
      · exact inState_deletable i
      · exact (inState_buried i).mpr (hb rfl)
    unfold remove
    rw [if_neg (by simp [hc])]
    simp only
    rw [if_neg this]
    simp
  · intro now hr
    have : (getJobs a (if i.lost then .lost else .running) w).filter (older now 0 i.lost) ≠ [] := by
      have h1 : getJobs a (if i.lost then .lost else .running) w ≠ [] := by
        apply key
        cases hl : i.lost
        · exact (inState_running i).mpr ⟨hr, hl⟩
        · exact (inState_lost i).mpr ⟨hr, hl⟩
      have h2 : (getJobs a (if i.lost then .lost else .running) w).filter (older now 0 i.lost) = getJobs a (if i.lost then .lost else .running) w :=
        List.filter_eq_self.mpr (fun f _ => by simp [older])
      rw [h2]; exact h1
    unfold kill
    rw [if_neg (by simp [hc])]
    simp only
    rw [if_neg this]
    simp

example : (∃ i ∈ exW.queue, Chosen { id := some ['b'] } i ∧ i.sub = .bury) := ⟨_, by simp [exW]; exact Or.inr (Or.inr (Or.inr (Or.inr rfl))), by simp [Chosen], rfl⟩

/-- C113: with no way of choosing, or more than one, nothing is done. -/
theorem C113_one_way (a : Args) (w w' : W) (b : Bool) (age now : Nat)
    (h : (a.all = false ∧ a.id = none ∧ a.file = none ∧ a.line = none) ∨ (a.all = true ∧ (a.id ≠ none ∨ a.file ≠ none ∨ a.line ≠ none)) ∨
      (a.id ≠ none ∧ (a.file ≠ none ∨ a.line ≠ none)) ∨ (a.file ≠ none ∧ a.line ≠ none)) :
    retry a w w' = none ∧ remove a b w w' = none ∧ kill a b age now w w' = none := by
  have hc : countArgs a ≠ 1 := by
    obtain ⟨file, id, search, internal, idKey, line, all⟩ := a
    cases file <;> cases id <;> cases line <;> cases all <;> simp_all [countArgs]
  simp [retry, remove, kill, hc]

private theorem jkill_snd : ∀ (ks : List Nat) (q : List Item), ks.Nodup → Uniq q →
    (jkill q ks).2 = (q.filter fun i => decide (i.sub = .run) && decide (i.key ∈ ks)).length
  | [], q, _, _ => by
    rw [List.filter_eq_nil_iff.mpr (by simp)]; rfl
  | k :: ks, q, hn, hu => by
    rw [List.nodup_cons] at hn
    simp only [jkill]
    rw [jkill_snd ks _ hn.2 (map_key (by intro i; split <;> simp [kill_key]) q hu)]
    have h := count_split (fun i => decide (i.sub = .run)) (fun i => decide (i.key ∈ ks)) k q hu
    have h1 : (q.filter fun i => decide (i.sub = .run) && decide (i.key ∈ k :: ks)) =
        q.filter fun i => decide (i.sub = .run) && (decide (i.key = k) || decide (i.key ∈ ks)) := by
      apply List.filter_congr; intro i _; simp
    rw [h1, h]
    congr 1
    rw [List.filter_map, List.length_map]
    congr 1
    apply List.filter_congr
    intro i _
    simp only [Function.comp]
    by_cases hk : i.key = k
    · simp [hk, kill_key, hn.1]
    · simp [hk]

/-- C113: `wr kill` for all jobs or those of a report group says how many it marked. (Partial: see `C113_violated_count`.) -/
theorem C113_kill_count_partial (a : Args) (age now : Nat) (w r : W) (n m : Nat) (hu : Uniq w.queue) (hg : ByGroup a)
    (he : ∀ i ∈ w.queue, i.sub = .run → (i.end_.isSome ↔ i.lost = true)) (h : kill a false age now w w = some (r, n, m))
    (P : Item → Bool) (hP : ∀ i, P i = true ↔ Chosen a i ∧ i.sub = .run ∧ i.lost = false ∧ age ≤ ranFor now i) :
    n = (w.queue.filter P).length := by
  unfold kill at h
  split at h
  · cases h
  · rename_i hc
    have hc : countArgs a = 1 := by simpa using hc
    simp only [Bool.false_eq_true, if_false] at h
    split at h
    · cases h
    · cases h
      have hsub : List.Sublist (((getJobs a .running w).filter (older now age false)).map (·.key)) (w.queue.map (·.key)) := by
        have hid : ∀ q : List Item, (q.map view).map (·.key) = q.map (·.key) := by intro q; rw [List.map_map]; rfl
        refine List.Sublist.trans (List.Sublist.map _ List.filter_sublist) ?_
        unfold getJobs
        rcases hg with hg | ⟨hg1, hg2⟩
        · rw [if_pos hg, ← hid]
          exact List.Sublist.map _ List.filter_sublist
        · split
          · rw [← hid]; exact List.Sublist.map _ List.filter_sublist
          · split
            · rw [if_neg (by simp [hg2]), ← hid]
              exact List.Sublist.map _ (List.Sublist.trans List.filter_sublist (List.Sublist.map _ List.filter_sublist))
            · rename_i hn; rw [hn] at hg1; cases hg1
      have hnd : (w.queue.map (·.key)).Nodup := List.pairwise_map.mpr hu
      rw [jkill_snd _ _ (List.Nodup.sublist hsub hnd) hu]
      congr 1
      apply List.filter_congr
      intro i hi
      have key := killed_here a .running w hc hu now age false i hi
      rw [Bool.eq_iff_iff, Bool.and_eq_true, decide_eq_true_eq, decide_eq_true_eq, hP]
      rw [key, inState_running]
      constructor
      · rintro ⟨h1, h2, h3, h4⟩
        have h3 := h3 hg
        have hen : i.end_ = none := by
          cases hen : i.end_ with
          | none => rfl
          | some e => have := (he i hi h1).mp (by simp [hen]); rw [h3.2] at this; cases this
        exact ⟨h2, h1, h3.2, (older_running now age i h1 h3.2 hen).mp h4⟩
      · rintro ⟨h1, h2, h3, h4⟩
        have hen : i.end_ = none := by
          cases hen : i.end_ with
          | none => rfl
          | some e => have := (he i hi h2).mp (by simp [hen]); rw [h3] at this; cases this
        exact ⟨h2, h1, fun _ => ⟨h2, h3⟩, (older_running now age i h2 h3 hen).mpr h4⟩

/-- C113 is violated: `wr remove --buried` with -l, -f or -y removes any job that isn't running. -/
theorem C113_violated_buried (k : Nat) (s : Sub) (hs : s ≠ .run) :
    remove { line := some k } true { queue := [{ key := k, sub := s }] } { queue := [{ key := k, sub := s }] } = some ({ queue := [] }, [k], 1) ∧
    remove { file := some [k] } true { queue := [{ key := k, sub := s }] } { queue := [{ key := k, sub := s }] } = some ({ queue := [] }, [k], 1) ∧
    remove { id := some [], internal := true, idKey := k } true { queue := [{ key := k, sub := s }] } { queue := [{ key := k, sub := s }] } =
      some ({ queue := [] }, [k], 1) := by
  simp [remove, countArgs, getJobs, byKeys, jdel, deleteJobs, deleteOne, hasDependents, view, hs]

/-- C113 is violated: a job that was buried when it was listed and has been retried since is removed by `wr remove --buried`. -/
theorem C113_violated_race : ∃ w w' r, retry { all := true } w w = some (w', 1, 1) ∧ remove { all := true } true w w' = some (r, [1], 1) :=
  ⟨{ queue := [{ key := 1, sub := .bury }] }, _, _, rfl, rfl⟩

/-- C113 is violated: `wr kill` without --confirmdead, with -l, -f or -y, says of a lost job that it is dead, so that it can be started
again although it may still be running. -/
theorem C113_violated_dead : ∃ w r, (∃ i ∈ w.queue, i.lost = true ∧ i.sub = .run) ∧ kill { line := some 1 } false 0 9 w w = some (r, 1, 1) ∧
    r.queue.map (·.sub) = [.delay] :=
  ⟨{ queue := [{ key := 1, sub := .run, lost := true, start := some 1, end_ := some 5, left := 2 }] }, _, ⟨_, List.mem_cons_self, rfl, rfl⟩, rfl, by decide⟩

/-- C113 is violated: `wr kill --confirmdead` with -l, -f or -y kills a job that is running and not lost, however short a time and
whatever --age is. -/
theorem C113_violated_alive (age now : Nat) : ∃ w r, (∀ i ∈ w.queue, i.lost = false ∧ i.start = some now) ∧
    kill { line := some 1 } true age now w w = some (r, 1, 1) ∧ r.queue.map (·.killCalled) = [true] := by
  refine ⟨{ queue := [{ key := 1, sub := .run, start := some now }] }, { queue := [{ key := 1, sub := .run, start := some now, killCalled := true }] }, by simp, ?_, rfl⟩
  by_cases h : age = 0 <;>
  simp [kill, countArgs, getJobs, byKeys, view, older, h, jkill, killJob]

/-- C113 is violated: a job that is reserved but not started is marked and counted as one that will be killed, but its start removes the
mark: it is never told. -/
theorem C113_violated_reserved : ∃ w r, kill { all := true } false 0 9 w w = some (r, 1, 1) ∧
    (r.queue.map fun i => (i.killCalled, jtouch (jstart 10 i))) = [(true, false)] :=
  ⟨{ queue := [{ key := 1, sub := .run }] }, _, rfl, by decide⟩

/-- C113 is violated: `wr kill` counts a job twice that is twice in the file. -/
theorem C113_violated_count : ∃ w r, w.queue.length = 1 ∧ kill { file := some [1, 1] } false 0 9 w w = some (r, 2, 2) :=
  ⟨{ queue := [{ key := 1, sub := .run }] }, _, rfl, rfl⟩

/-- C113 is violated: `wr remove` counts jobs that are running among the eligible. -/
theorem C113_violated_eligible : ∃ w r, (∀ i ∈ w.queue, i.sub = .run) ∧ remove { all := true } false w w = some (r, [], 1) :=
  ⟨{ queue := [{ key := 1, sub := .run, start := some 3 }] }, _, by decide, rfl⟩

end Verif.Cmd.Choose
