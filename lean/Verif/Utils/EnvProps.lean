import Verif.Utils.Model

/-! # C39: environment overrides win and nothing else changes; C67: Getenv -/

namespace Verif.Utils

open Verif.Util

/-! ## Specification -/

/-- The entry of an environment list that a process sees for a name: the last one with that name (os/exec keeps the
last of duplicates).  The name of an entry is what precedes its first `=`. -/
def entry (n : List Char) (env : List (List Char)) : Option (List Char) :=
  (env.filter fun e => decide (e.takeWhile (· ≠ '=') = n)).getLast?

/-! ## Lemmas -/

theorem split_head {α : Type} [DecidableEq α] (c : α) (l : List α) : (split c l).headD [] = l.takeWhile (· ≠ c) := by
  induction l with
  | nil => rfl
  | cons x l ih =>
    simp only [split, List.takeWhile_cons]
    split
    · rename_i h; simp [h]
    · rename_i h
      have : split c l ≠ [] := split_ne_nil c l
      cases hs : split c l with
      | nil => exact absurd hs this
      | cons p ps => rw [hs] at ih; simp at ih; simp [h, ih]

theorem envName_eq (e : List Char) : envName e = e.takeWhile (· ≠ '=') := split_head '=' e

theorem entry_eq (n : List Char) (env : List (List Char)) :
    entry n env = (env.filter fun e => decide (envName e = n)).getLast? := by
  unfold entry; simp only [envName_eq]

theorem entry_nodup {n : List Char} {env : List (List Char)} (h : (env.map envName).Nodup) {e : List Char}
    (he : e ∈ env) (hn : envName e = n) : entry n env = some e := by
  rw [entry_eq]
  have : env.filter (fun e => decide (envName e = n)) = [e] := by
    subst hn
    induction env with
    | nil => simp at he
    | cons x xs ih =>
      simp only [List.map_cons, List.nodup_cons] at h
      rcases List.mem_cons.1 he with rfl | he
      · rw [List.filter_cons_of_pos (by simp)]
        congr 1
        rw [List.filter_eq_nil_iff]
        intro y hy; simp; intro e; exact h.1 (List.mem_map.2 ⟨y, hy, e⟩)
      · rw [List.filter_cons_of_neg, ih h.2 he]
        simp; intro e'; exact h.1 (List.mem_map.2 ⟨e, he, e'.symm⟩)
  rw [this]; rfl

theorem entry_none {n : List Char} {env : List (List Char)} : entry n env = none ↔ ∀ e ∈ env, envName e ≠ n := by
  rw [entry_eq, List.getLast?_eq_none_iff, List.filter_eq_nil_iff]; simp

theorem entry_some {n : List Char} {env : List (List Char)} {e : List Char} (h : entry n env = some e) :
    e ∈ env ∧ envName e = n := by
  rw [entry_eq] at h
  have := List.mem_of_getLast? h
  simpa using this

theorem entry_cons (n e : List Char) (es : List (List Char)) : entry n (e :: es) =
    match entry n es with
    | some x => some x
    | none => if envName e = n then some e else none := by
  rw [entry_eq, entry_eq, List.filter_cons]
  split
  · rename_i h
    rw [List.getLast?_cons]
    cases (es.filter fun e => decide (envName e = n)).getLast? with
    | none => simp at h; simp [h]
    | some x => simp
  · rename_i h
    simp at h
    cases (es.filter fun e => decide (envName e = n)).getLast? <;> simp [h]

private abbrev M := List (List Char × List Char)

private theorem lookup_overrides (n : List Char) : ∀ over, (overrides over).lookup n = entry n over
  | [] => rfl
  | e :: es => by
    have ih := lookup_overrides n es
    have ih' := lookup_overrides (envName e) es
    rw [entry_cons]
    simp only [overrides]
    split
    · rename_i h
      rw [ih]
      cases hn : entry n es with
      | some x => rfl
      | none =>
        simp only
        split
        · rename_i h1
          subst h1; rw [ih', hn] at h; simp at h
        · rfl
    · rename_i h
      rw [List.lookup_cons]
      by_cases h1 : n = envName e
      · subst h1
        rw [ih'] at h
        cases hn : entry (envName e) es with
        | some x => rw [hn] at h; simp at h
        | none => simp
      · have : (n == envName e) = false := by simpa using h1
        rw [this, ih]
        simp [Ne.symm h1]
        cases entry n es <;> rfl

private structure MOk (m : M) : Prop where
  nodup : (m.map (·.1)).Nodup
  name : ∀ kv ∈ m, envName kv.2 = kv.1

private theorem lookup_isSome_mem {m : M} {n : List Char} : (m.lookup n).isSome = false ↔ n ∉ m.map (·.1) := by
  induction m with
  | nil => simp
  | cons x xs ih =>
    rw [List.lookup_cons]
    by_cases h : n = x.1
    · subst h; simp
    · have : (n == x.1) = false := by simpa using h
      rw [this]; simp only [List.map_cons, List.mem_cons, not_or]; rw [ih]
      simp [h]

private theorem mok_overrides : ∀ over, MOk (overrides over)
  | [] => ⟨by simp [overrides], by simp [overrides]⟩
  | e :: es => by
    have ih := mok_overrides es
    simp only [overrides]
    split
    · exact ih
    · rename_i h
      refine ⟨?_, ?_⟩
      · simp only [List.map_cons, List.nodup_cons]
        exact ⟨lookup_isSome_mem.1 (Bool.eq_false_iff.2 h), ih.nodup⟩
      · intro kv hkv
        rcases List.mem_cons.1 hkv with rfl | hkv
        · rfl
        · exact ih.name kv hkv

private theorem lookup_mem {m : M} (h : MOk m) {n e : List Char} : m.lookup n = some e ↔ (n, e) ∈ m := by
  obtain ⟨h, -⟩ := h
  induction m with
  | nil => simp
  | cons x xs ih =>
    obtain ⟨k, v⟩ := x
    simp only [List.map_cons, List.nodup_cons] at h
    rw [List.lookup_cons]
    by_cases hk : n = k
    · subst hk
      simp
      constructor
      · intro e; exact Or.inl e.symm
      · rintro (e1 | e1)
        · exact e1.symm
        · exact absurd (List.mem_map.2 ⟨_, e1, rfl⟩) h.1
    · have : (n == k) = false := by simpa using hk
      simp only [this]
      rw [ih h.2]; simp [hk]

private theorem lookup_filter {m : M} {n k : List Char} (h : n ≠ k) : (m.filter (·.1 ≠ k)).lookup n = m.lookup n := by
  induction m with
  | nil => rfl
  | cons x xs ih =>
    obtain ⟨a, b⟩ := x
    rw [List.filter_cons]
    split
    · rw [List.lookup_cons, List.lookup_cons, ih]
    · rename_i h1
      simp at h1; subst h1
      rw [List.lookup_cons, ih]
      have : (n == a) = false := by simpa using h
      rw [this]

private theorem loop_spec : ∀ (orig : List (List Char)) (m : M), (orig.map envName).Nodup →
    (envLoop orig m).1 = orig.map (fun e => (m.lookup (envName e)).getD e) ∧
    (envLoop orig m).2 = m.filter (fun kv => kv.1 ∉ orig.map envName)
  | [], m, _ => ⟨rfl, (List.filter_eq_self.2 (by simp)).symm⟩
  | e :: es, m, h => by
    simp only [List.map_cons, List.nodup_cons] at h
    simp only [envLoop]
    cases hl : m.lookup (envName e) with
    | none =>
      obtain ⟨h1, h2⟩ := loop_spec es m h.2
      simp only [h1, h2]
      refine ⟨by simp [hl], ?_⟩
      have hn : envName e ∉ m.map (·.1) := lookup_isSome_mem.1 (by simp [hl])
      apply List.filter_congr
      intro kv hkv
      simp only [List.map_cons, List.mem_cons, decide_eq_decide]
      have : kv.1 ≠ envName e := fun h' => hn (List.mem_map.2 ⟨kv, hkv, h'⟩)
      simp [this]
    | some r =>
      obtain ⟨h1, h2⟩ := loop_spec es (m.filter (·.1 ≠ envName e)) h.2
      simp only [h1, h2]
      refine ⟨?_, ?_⟩
      · simp only [List.map_cons, hl, Option.getD_some, List.cons.injEq, true_and]
        apply List.map_congr_left
        intro x hx
        rw [lookup_filter]
        intro e'
        exact h.1 (List.mem_map.2 ⟨x, hx, e'⟩)
      · rw [List.filter_filter]
        apply List.filter_congr
        intro kv _
        simp [Bool.and_comm]

/-! ## The theorems -/

section
variable (perm : M → M) (hp : ∀ l, (perm l).Perm l) (orig over : List (List Char))
include hp

private theorem result_mem (hd : (orig.map envName).Nodup) (e : List Char) :
    e ∈ envOverride perm orig over ↔
      (e ∈ orig ∧ entry (envName e) over = none) ∨ entry (envName e) over = some e := by
  obtain ⟨h1, h2⟩ := loop_spec orig (overrides over) hd
  have ok := mok_overrides over
  unfold envOverride
  simp only [h1, h2, List.mem_append, List.mem_map, (hp _).mem_iff, List.mem_filter, lookup_overrides]
  constructor
  · rintro (⟨x, hx, rfl⟩ | ⟨⟨k, v⟩, ⟨hm, hk⟩, rfl⟩)
    · cases hl : entry (envName x) over with
      | none => left; simp [hx, hl]
      | some r =>
        right
        have := (entry_some hl).2
        simp [this, hl]
    · right
      have := ok.name _ hm
      simp only at this ⊢
      rw [this, ← lookup_overrides, lookup_mem ok]; exact hm
  · rintro (⟨hx, hn⟩ | hs)
    · exact Or.inl ⟨e, hx, by simp [hn]⟩
    · by_cases ho : ∃ x ∈ orig, envName x = envName e
      · obtain ⟨x, hx, hxe⟩ := ho
        exact Or.inl ⟨x, hx, by rw [hxe, hs]; rfl⟩
      · right
        refine ⟨(envName e, e), ⟨?_, ?_⟩, rfl⟩
        · rw [← lookup_mem ok, lookup_overrides]; exact hs
        · simpa using ho

/-- C39 for an original environment that has no name twice: the result has no name twice. -/
theorem C39_once_partial (hd : (orig.map (·.takeWhile (· ≠ '='))).Nodup) :
    ((envOverride perm orig over).map (·.takeWhile (· ≠ '='))).Nodup := by
  have e : ∀ l : List (List Char), l.map (·.takeWhile (· ≠ '=')) = l.map envName := fun l =>
    List.map_congr_left fun x _ => (envName_eq x).symm
  rw [e] at hd ⊢
  obtain ⟨h1, h2⟩ := loop_spec orig (overrides over) hd
  have ok := mok_overrides over
  unfold envOverride
  simp only [h1, h2, List.map_append, List.map_map]
  have e1 : orig.map (envName ∘ fun e => ((overrides over).lookup (envName e)).getD e) = orig.map envName := by
    apply List.map_congr_left
    intro x _
    simp only [Function.comp, lookup_overrides]
    cases hl : entry (envName x) over with
    | none => rfl
    | some r => exact (entry_some hl).2
  rw [e1, List.nodup_append]
  have hmem : ∀ kv ∈ perm ((overrides over).filter (fun kv => kv.1 ∉ orig.map envName)),
      kv ∈ overrides over ∧ kv.1 ∉ orig.map envName := by
    intro kv h
    have := (hp _).mem_iff.1 h
    simpa using this
  have e2 : (perm ((overrides over).filter (fun kv => kv.1 ∉ orig.map envName))).map (envName ∘ (·.2)) =
      (perm ((overrides over).filter (fun kv => kv.1 ∉ orig.map envName))).map (·.1) :=
    List.map_congr_left fun kv h => ok.name kv (hmem kv h).1
  rw [e2]
  refine ⟨hd, ?_, ?_⟩
  · rw [((hp _).map _).nodup_iff]
    exact (List.filter_sublist.map _).nodup ok.nodup
  · intro a ha b hb hab
    obtain ⟨kv, hkv, rfl⟩ := List.mem_map.1 hb
    exact (hmem kv hkv).2 (hab ▸ ha)

/-- C39 for an original environment that has no name twice: whatever the order in which Go goes through its map, for
every name the process sees the (last) override if there is one, and what the original said otherwise. -/
theorem C39_partial (hd : (orig.map (·.takeWhile (· ≠ '='))).Nodup) (n : List Char) :
    entry n (envOverride perm orig over) = (entry n over).or (entry n orig) := by
  have hnd := C39_once_partial perm hp orig over hd
  have e : ∀ l : List (List Char), l.map (·.takeWhile (· ≠ '=')) = l.map envName := fun l =>
    List.map_congr_left fun x _ => (envName_eq x).symm
  rw [e] at hd hnd
  have hm := result_mem perm hp orig over hd
  cases ho : entry n over with
  | some r =>
    have hr := (entry_some ho).2
    exact entry_nodup hnd ((hm r).2 (Or.inr (by rw [hr]; exact ho))) hr
  | none =>
    simp only [Option.none_or]
    cases h1 : entry n orig with
    | some x =>
      obtain ⟨hx, hxn⟩ := entry_some h1
      exact entry_nodup hnd ((hm x).2 (Or.inl ⟨hx, by rw [hxn]; exact ho⟩)) hxn
    | none =>
      rw [entry_none]
      intro x hx hxn
      rcases (hm x).1 hx with ⟨h2, -⟩ | h2
      · exact entry_none.1 h1 x h2 hxn
      · rw [hxn, ho] at h2; cases h2

omit hp in
/-- C39, and what is not overridden stays where it was. -/
theorem C39_rest_partial (hd : (orig.map (·.takeWhile (· ≠ '='))).Nodup) (i : Nat) (e : List Char)
    (h : orig[i]? = some e) (hn : entry (e.takeWhile (· ≠ '=')) over = none) :
    (envOverride perm orig over)[i]? = some e := by
  have e0 : ∀ l : List (List Char), l.map (·.takeWhile (· ≠ '=')) = l.map envName := fun l =>
    List.map_congr_left fun x _ => (envName_eq x).symm
  rw [e0] at hd
  obtain ⟨h1, -⟩ := loop_spec orig (overrides over) hd
  have hi : i < orig.length := (List.getElem?_eq_some_iff.1 h).1
  unfold envOverride
  simp only [h1]
  rw [List.getElem?_append_left (by simpa using hi), List.getElem?_map, h]
  simp only [Option.map_some, lookup_overrides]
  rw [← envName_eq] at hn
  rw [hn]; rfl
end

/-- C39 fails if the original environment has a name twice: the override is put in place of the first, and the process
sees the last. -/
theorem C39_violated : ∃ orig over : List (List Char), entry "A".toList over = some "A=3".toList ∧
    entry "A".toList (envOverride id orig over) = some "A=2".toList :=
  ⟨["A=1".toList, "A=2".toList], ["A=3".toList], by decide +kernel, by decide +kernel⟩

example : envOverride id ["A=1".toList, "B=x=y".toList] ["C=1".toList, "B=2".toList, "B=3".toList] =
    ["A=1".toList, "B=3".toList, "C=1".toList] := by decide +kernel

/-! ## C67: Getenv -/

/-- The value `os.Getenv` would give for an entry: all that follows the first `=`. -/
def valueOf (e : List Char) : List Char := (e.dropWhile (· ≠ '=')).drop 1

theorem split_one (c : Char) : ∀ l : List Char, c ∈ l → c ∉ (l.dropWhile (· ≠ c)).drop 1 →
    (split c l)[1]? = some ((l.dropWhile (· ≠ c)).drop 1)
  | [], h, _ => by simp at h
  | x :: l, h, h2 => by
    by_cases hx : x = c
    · subst hx
      simp only [List.dropWhile_cons, ne_eq, not_true_eq_false, decide_false, Bool.false_eq_true, if_false,
        List.drop_succ_cons, List.drop_zero] at h2 ⊢
      simp only [split, if_true, split_none _ _ h2]; rfl
    · simp only [List.dropWhile_cons, ne_eq, hx, not_false_eq_true, decide_true, if_true] at h2 ⊢
      have ih := split_one c l (by simpa [Ne.symm hx] using h) h2
      simp only [split, hx, if_false]
      cases hs : split c l with
      | nil => exact absurd hs (split_ne_nil c l)
      | cons p ps => rw [hs] at ih; simpa using ih

private theorem getenv_cons (n e : List Char) (es : List (List Char)) :
    getenv n (e :: es) = if envName e = n then (split '=' e)[1]? else getenv n es := rfl

/-- C67 for environments without a name twice, in which every entry has exactly one `=`: Getenv gives the value of the
entry, and the empty string for a missing name; it does not panic. -/
theorem C67_partial (env : List (List Char)) (hd : (env.map (·.takeWhile (· ≠ '='))).Nodup)
    (h1 : ∀ e ∈ env, '=' ∈ e ∧ '=' ∉ valueOf e) (n : List Char) :
    getenv n env = some (((entry n env).map valueOf).getD []) := by
  have e0 : ∀ l : List (List Char), l.map (·.takeWhile (· ≠ '=')) = l.map envName := fun l =>
    List.map_congr_left fun x _ => (envName_eq x).symm
  rw [e0] at hd
  have hg : ∀ env : List (List Char), (∀ e ∈ env, '=' ∈ e ∧ '=' ∉ valueOf e) →
      (∀ e ∈ env, envName e ≠ n) → getenv n env = some [] := by
    intro env
    induction env with
    | nil => intro _ _; rfl
    | cons e es ih =>
      intro h1 h2
      rw [getenv_cons]
      rw [if_neg (h2 e (by simp))]
      exact ih (fun e h => h1 e (by simp [h])) fun e h => h2 e (by simp [h])
  cases he : entry n env with
  | none => simpa using hg env h1 (entry_none.1 he)
  | some x =>
    obtain ⟨hx, hn⟩ := entry_some he
    simp only [Option.map_some, Option.getD_some]
    clear hg he
    induction env with
    | nil => simp at hx
    | cons e es ih =>
      simp only [List.map_cons, List.nodup_cons] at hd
      rw [getenv_cons]
      rcases List.mem_cons.1 hx with rfl | hx
      · rw [if_pos hn]
        exact split_one '=' x (h1 x (by simp)).1 (h1 x (by simp)).2
      · rw [if_neg]
        · exact ih hd.2 (fun e h => h1 e (by simp [h])) hx
        · intro h
          exact hd.1 (List.mem_map.2 ⟨x, hx, hn.trans h.symm⟩)

/-- C67 fails for values with an `=`: they are cut short. -/
theorem C67_violated : getenv "OPTS".toList ["OPTS=-Dx=1".toList] = some "-Dx".toList ∧
    valueOf "OPTS=-Dx=1".toList = "-Dx=1".toList := by decide +kernel

/-- C67 fails for entries without an `=`: Getenv panics. -/
theorem C67_violated_panic : getenv "A".toList ["A".toList] = none := by decide +kernel

example : getenv "HOME".toList ["PATH=/bin".toList, "HOME=/root".toList] = some "/root".toList := by decide +kernel

end Verif.Utils
