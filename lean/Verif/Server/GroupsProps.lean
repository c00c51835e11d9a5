import Verif.Server.Groups

/-! # C34, C63, C64: names of scheduler groups, limit groups of added jobs -/

namespace Verif.Server.Groups
open Verif.Util

/-- Specification: the characters that printing numbers and sums can give include neither of the
separators. -/
def Plain (r : Printed) : Prop :=
  ∀ p, p ∈ [r.ram, r.mins, r.cores, r.disk, r.other.getD []] → ':' ∉ p ∧ '~' ∉ p

theorem stringify_clean {r : Printed} (h : Plain r) : '~' ∉ stringify r := by
  unfold Plain at h
  simp only [List.mem_cons, List.not_mem_nil, or_false, forall_eq_or_imp, forall_eq] at h
  unfold stringify
  cases ho : r.other with
  | none => simp [h.1.2, h.2.1.2, h.2.2.1.2, h.2.2.2.1.2]
  | some o =>
    have : '~' ∉ o := by have := h.2.2.2.2.2; rw [ho] at this; simpa using this
    simp [h.1.2, h.2.1.2, h.2.2.1.2, h.2.2.2.1.2, this]

theorem mem_split {c : Char} : ∀ {xs p : Str} {x : Char}, p ∈ split c xs → x ∈ p → x ∈ xs := by
  intro xs
  induction xs with
  | nil => intro p x hp hx; simp [split] at hp; subst hp; exact hx
  | cons y xs ih =>
    intro p x hp hx
    simp only [split] at hp
    split at hp
    · rcases List.mem_cons.mp hp with rfl | hp
      · cases hx
      · exact List.mem_cons_of_mem _ (ih hp hx)
    · cases h' : split c xs with
      | nil => exact absurd h' (split_ne_nil c xs)
      | cons q ps =>
        rw [h'] at hp ih
        rcases List.mem_cons.mp hp with rfl | hp
        · rcases List.mem_cons.mp hx with rfl | hx
          · simp
          · exact List.mem_cons_of_mem _ (ih (by simp) hx)
        · exact List.mem_cons_of_mem _ (ih (List.mem_cons_of_mem _ hp) hx)

theorem join_clean {d : Char} {ps : List Str} (hd : d ≠ ',') (h : ∀ p ∈ ps, d ∉ p) :
    d ∉ join ',' ps := by
  induction ps with
  | nil => simp [join]
  | cons p ps ih =>
    cases ps with
    | nil => simpa [join] using h p (by simp)
    | cons q ps =>
      simp only [join, List.mem_append, List.mem_cons, not_or]
      exact ⟨h p (by simp), hd, ih fun r hr => h r (List.mem_cons_of_mem _ hr)⟩

/-- **C34 (partial: names without separators).** The limit groups found in a scheduler group's
name are the job's, in order. Missing: names with a comma or a tilde, for which it is false:
`C34_iff`. -/
theorem C34_partial (r : Printed) (hr : Plain r) (lgs : List Str)
    (h : ∀ n ∈ lgs, ',' ∉ n ∧ '~' ∉ n) : toLimitGroups (generate r lgs) = lgs := by
  unfold generate toLimitGroups
  have hs := stringify_clean hr
  cases lgs with
  | nil => simp [split_none _ _ hs]
  | cons n ns =>
    simp only [List.length_cons, Nat.zero_lt_succ, gt_iff_lt, if_true]
    rw [split_append _ _ _ hs,
      split_none _ _ (join_clean (by decide) fun p hp => (h p hp).2)]
    exact split_join ',' (n :: ns) (by simp) fun p hp => (h p hp).1

/-- **C34, exactly when it fails.** The limit groups found in the name are not those of the job as
soon as one of them has a comma or a tilde in its name. -/
theorem C34_iff (r : Printed) (hr : Plain r) (lgs : List Str) :
    toLimitGroups (generate r lgs) = lgs ↔ ∀ n ∈ lgs, ',' ∉ n ∧ '~' ∉ n := by
  refine ⟨fun h n hn => ?_, C34_partial r hr lgs⟩
  unfold toLimitGroups at h
  split at h
  · rename_i a p hp
    rw [← h] at hn
    have h1 := split_clean ',' p n hn
    have h2 := split_clean '~' (generate r lgs) p (by rw [hp]; simp)
    exact ⟨h1, fun h3 => h2 (mem_split hn h3)⟩
  · rw [← h] at hn; cases hn

/-- **C34 is violated**: a job in the limit group "a,b" is counted in the groups "a" and "b". -/
theorem C34_violated_comma (r : Printed) (hr : Plain r) :
    toLimitGroups (generate r [['a', ',', 'b']]) = [['a'], ['b']] := by
  unfold generate toLimitGroups
  simp only [List.length_cons, List.length_nil, Nat.zero_lt_succ, gt_iff_lt, if_true]
  rw [split_append _ _ _ (stringify_clean hr)]
  rfl

/-- **C34 is violated**: a job with limit groups "a" and "b~c" is not limited at all. -/
theorem C34_violated_tilde (r : Printed) (hr : Plain r) :
    toLimitGroups (generate r [['a'], ['b', '~', 'c']]) = [] := by
  unfold generate toLimitGroups
  simp only [List.length_cons, List.length_nil, Nat.zero_lt_succ, gt_iff_lt, if_true]
  rw [split_append _ _ _ (stringify_clean hr)]
  rfl

example : Plain ⟨['3'], ['0'], ['1'], ['2'], some ['f', '8']⟩ ∧
    toLimitGroups (generate ⟨['3'], ['0'], ['1'], ['2'], some ['f', '8']⟩ [['a'], ['b']]) =
      [['a'], ['b']] := by
  refine ⟨?_, by decide⟩
  intro p hp
  simp at hp
  rcases hp with rfl | rfl | rfl | rfl | rfl <;> decide

/-! ## C63: a scheduler group stands for one set of requirements -/

theorem split_append_last {c : Char} {p q : Str} (hp : c ∉ p) :
    split c (p ++ c :: q) = p :: split c q := split_append c p q hp

theorem split_stringify {r : Printed} (h : Plain r) :
    split ':' (stringify r) =
      [r.ram, r.mins, r.cores, r.disk] ++ (match r.other with | none => [] | some o => [o]) := by
  unfold Plain at h
  simp only [List.mem_cons, List.not_mem_nil, or_false, forall_eq_or_imp, forall_eq] at h
  unfold stringify
  rw [split_append _ _ _ h.1.1, split_append _ _ _ h.2.1.1, split_append _ _ _ h.2.2.1.1]
  cases ho : r.other with
  | none => simp [split_none _ _ h.2.2.2.1.1]
  | some o =>
    have ho' : ':' ∉ o := by have := h.2.2.2.2.1; rw [ho] at this; simpa using this
    simp only
    rw [split_append _ _ _ h.2.2.2.1.1, split_none _ _ ho']
    rfl

theorem stringify_inj {r r' : Printed} (h : Plain r) (h' : Plain r')
    (e : stringify r = stringify r') : r = r' := by
  have := split_stringify h
  rw [e, split_stringify h'] at this
  cases r with
  | mk a b c d o =>
  cases r' with
  | mk a' b' c' d' o' =>
  cases o <;> cases o' <;> simp_all

/-- **C63 (partial: names without separators).** Two jobs have the same scheduler group only if
their requirements, as printed, and their limit groups are the same. Missing: limit groups with
commas or tildes in their names (`C63_violated`). -/
theorem C63_partial (r r' : Printed) (hr : Plain r) (hr' : Plain r') (lgs lgs' : List Str)
    (h : ∀ n ∈ lgs, ',' ∉ n ∧ '~' ∉ n) (h' : ∀ n ∈ lgs', ',' ∉ n ∧ '~' ∉ n)
    (e : generate r lgs = generate r' lgs') : r = r' ∧ lgs = lgs' := by
  refine ⟨?_, ?_⟩
  · apply stringify_inj hr hr'
    have key : ∀ (r : Printed) (l : List Str), Plain r →
        (split '~' (generate r l)).head? = some (stringify r) := by
      intro r l hr
      unfold generate
      split
      · rw [split_append _ _ _ (stringify_clean hr)]; rfl
      · rw [List.append_nil, split_none _ _ (stringify_clean hr)]; rfl
    have h1 := key r lgs hr
    rw [e, key r' lgs' hr'] at h1
    exact (Option.some.inj h1).symm
  · rw [← C34_partial r hr lgs h, e, C34_partial r' hr' lgs' h']

/-- **C63 is violated**: jobs limited by "a,b" share a group with jobs limited by "a" and "b". -/
theorem C63_violated (r : Printed) :
    generate r [['a', ',', 'b']] = generate r [['a'], ['b']] := rfl

/-! ## C64: the limit groups of an added job -/

theorem strLt_irrefl : ∀ a : Str, strLt a a = false
  | [] => rfl
  | a :: as => by simp [strLt, strLt_irrefl as]

theorem strLt_trans : ∀ {a b c : Str}, strLt a b = true → strLt b c = true → strLt a c = true
  | [], [], _, h, _ => by cases h
  | [], _ :: _, [], _, h => by cases h
  | [], _ :: _, _ :: _, _, _ => rfl
  | _ :: _, [], _, h, _ => by cases h
  | _ :: _, _ :: _, [], _, h => by cases h
  | a :: as, b :: bs, c :: cs, h1, h2 => by
    simp only [strLt] at *
    split at h1 <;> split at h2
    · subst_vars; simp [strLt_trans h1 h2]
    · subst_vars; simp_all
    · subst_vars; simp_all
    · simp only [decide_eq_true_eq] at h1 h2
      have h3 : a < c := Char.lt_trans h1 h2
      have : a ≠ c := fun e => by
        subst e; exact absurd h3 (Char.lt_irrefl a)
      simp [this, h3]

theorem strLt_total : ∀ {a b : Str}, a ≠ b → strLt a b = false → strLt b a = true
  | [], [], h, _ => absurd rfl h
  | [], _ :: _, _, h => by cases h
  | _ :: _, [], _, _ => rfl
  | a :: as, b :: bs, h, h1 => by
    simp only [strLt] at *
    by_cases e : a = b
    · subst e
      simp only [if_true] at *
      exact strLt_total (fun e => h (by rw [e])) h1
    · simp only [e, if_false, decide_eq_false_iff_not] at h1
      simp only [Ne.symm e, if_false, decide_eq_true_eq]
      by_cases h2 : b < a
      · exact h2
      · exact absurd (Char.le_antisymm (Char.not_lt.mp h2) (Char.not_lt.mp h1)) e

/-- Specification: strictly ascending. -/
def Ascending : List Str → Prop := List.Pairwise fun a b => strLt a b = true

theorem mem_insert {v x : Str} : ∀ {l : List Str}, x ∈ insert v l ↔ x = v ∨ x ∈ l
  | [] => by simp [insert]
  | w :: ws => by
    simp only [insert]
    split
    · simp only [List.mem_cons, mem_insert (l := ws)]
      constructor
      · rintro (h | h | h) <;> simp [h]
      · rintro (h | h | h) <;> simp [h]
    · simp

theorem insert_asc {v : Str} : ∀ {l : List Str}, Ascending l → v ∉ l → Ascending (insert v l)
  | [], _, _ => by simp [insert, Ascending]
  | w :: ws, h, hv => by
    simp only [insert]
    have h' := List.pairwise_cons.mp h
    simp only [List.mem_cons, not_or] at hv
    split
    · rename_i hw
      refine List.pairwise_cons.mpr ⟨?_, insert_asc h'.2 hv.2⟩
      intro x hx
      rcases mem_insert.mp hx with rfl | hx
      · exact hw
      · exact h'.1 x hx
    · rename_i hw
      have hvw := strLt_total (Ne.symm hv.1) (by simpa using hw)
      refine List.pairwise_cons.mpr ⟨?_, h⟩
      intro x hx
      rcases List.mem_cons.mp hx with rfl | hx
      · exact hvw
      · exact strLt_trans hvw (h'.1 x hx)

theorem mem_sort {x : Str} : ∀ {l : List Str}, x ∈ sort l ↔ x ∈ l
  | [] => by simp [sort]
  | v :: vs => by simp [sort, mem_insert, mem_sort (l := vs)]

theorem sort_asc : ∀ {l : List Str}, l.Nodup → Ascending (sort l)
  | [], _ => by simp [sort, Ascending]
  | v :: vs, h => by
    have h' := List.nodup_cons.mp h
    exact insert_asc (sort_asc h'.2) fun hm => h'.1 (mem_sort.mp hm)

theorem mem_dedup {x : Str} : ∀ {l seen : List Str}, x ∈ dedup seen l ↔ x ∈ l ∧ x ∉ seen
  | [], _ => by simp [dedup]
  | v :: vs, seen => by
    simp only [dedup]
    split
    · rename_i hv
      rw [mem_dedup (l := vs)]
      constructor
      · rintro ⟨h1, h2⟩; exact ⟨by simp [h1], h2⟩
      · rintro ⟨h1, h2⟩
        rcases List.mem_cons.mp h1 with rfl | h1
        · exact absurd hv h2
        · exact ⟨h1, h2⟩
    · rename_i hv
      simp only [List.mem_cons, mem_dedup (l := vs), not_or]
      constructor
      · rintro (rfl | ⟨h1, h2, h3⟩)
        · exact ⟨Or.inl rfl, hv⟩
        · exact ⟨Or.inr h1, h3⟩
      · rintro ⟨h1, h2⟩
        by_cases e : x = v
        · exact Or.inl e
        · exact Or.inr ⟨h1.resolve_left e, e, h2⟩

theorem dedup_nodup : ∀ (l seen : List Str), (dedup seen l).Nodup
  | [], _ => by simp [dedup]
  | v :: vs, seen => by
    simp only [dedup]
    split
    · exact dedup_nodup vs seen
    · refine List.nodup_cons.mpr ⟨?_, dedup_nodup vs _⟩
      rw [mem_dedup]; simp

/-- Specification: the name of a limit group given as "name:limit" or as a time window, or the
name itself. -/
def nameOf (unixOf : Limiter.Stamp → Int) (g : Str) : Str :=
  match (Limiter.nameToGroupData unixOf g).2 with
  | some _ => (Limiter.nameToGroupData unixOf g).1
  | none => g

/-- Specification: the limit that goes with the name, if one was given. -/
def limitOf (unixOf : Limiter.Stamp → Int) (g : Str) : Option Limiter.GroupData :=
  (Limiter.nameToGroupData unixOf g).2

theorem strip_names (unixOf : Limiter.Stamp → Int) : ∀ (gs : List Str) m,
    (strip unixOf gs m).1 = gs.map (nameOf unixOf)
  | [], _ => rfl
  | g :: gs, m => by
    simp only [strip, List.map_cons]
    split
    · rename_i n d h
      simp [strip_names unixOf gs, nameOf, h]
    · rename_i n h
      simp [strip_names unixOf gs, nameOf, h]

/-- Specification: the limit for name `n` after the groups: that of the last group that gives one
for it. -/
def lastLimit (unixOf : Limiter.Stamp → Int) (n : Str) :
    List Str → Option Limiter.GroupData → Option Limiter.GroupData
  | [], d => d
  | g :: gs, d =>
    lastLimit unixOf n gs (if nameOf unixOf g = n then (limitOf unixOf g).or d else d)

theorem strip_lookup (unixOf : Limiter.Stamp → Int) (n : Str) : ∀ (gs : List Str) m,
    (strip unixOf gs m).2.lookup n = lastLimit unixOf n gs (m.lookup n)
  | [], m => by simp [strip, lastLimit]
  | g :: gs, m => by
    simp only [strip, lastLimit]
    split
    · rename_i nm d h
      have h1 : nameOf unixOf g = nm := by simp [nameOf, h]
      have h2 : limitOf unixOf g = some d := by simp [limitOf, h]
      rw [strip_lookup unixOf n gs, h1, h2]
      by_cases e : nm = n
      · subst e; simp
      · have e' : (n == nm) = false := by simpa using fun h => e h.symm
        simp [e, List.lookup_cons, e']
    · rename_i nm h
      have h2 : limitOf unixOf g = none := by simp [limitOf, h]
      rw [strip_lookup unixOf n gs, h2]
      simp

/-- **C64.** The limit groups of an added job are exactly the names given, each once, in ascending
order; and the limit recorded for a name is the last one given with it. -/
theorem C64_groups (unixOf : Limiter.Stamp → Int) (gs : List Str)
    (m : List (Str × Limiter.GroupData)) :
    Ascending (handleLimitGroups unixOf gs m).1 ∧
    (∀ n, n ∈ (handleLimitGroups unixOf gs m).1 ↔ ∃ g ∈ gs, nameOf unixOf g = n) ∧
    (∀ n, (handleLimitGroups unixOf gs m).2.lookup n =
      lastLimit unixOf n gs (m.lookup n)) := by
  refine ⟨?_, fun n => ?_, fun n => strip_lookup unixOf n gs m⟩
  · simp only [handleLimitGroups, strip_names]
    split
    · exact sort_asc (dedup_nodup _ _)
    · rename_i h
      match gs, h with
      | [], _ => simp [Ascending]
      | [g], _ => simp [Ascending]
      | _ :: _ :: _, h => simp at h
  · simp only [handleLimitGroups, strip_names]
    split
    · simp [dedupSort, mem_sort, mem_dedup]
    · simp

/-- **C64, names.** Two jobs given the same names in any order and number have the same list. -/
theorem C64_canonical (unixOf : Limiter.Stamp → Int) (gs gs' : List Str)
    (m m' : List (Str × Limiter.GroupData))
    (h : ∀ n, (∃ g ∈ gs, nameOf unixOf g = n) ↔ ∃ g ∈ gs', nameOf unixOf g = n) :
    (handleLimitGroups unixOf gs m).1 = (handleLimitGroups unixOf gs' m').1 := by
  have h1 := C64_groups unixOf gs m
  have h2 := C64_groups unixOf gs' m'
  have key : ∀ (a b : List Str), Ascending a → Ascending b → (∀ n, n ∈ a ↔ n ∈ b) → a = b := by
    intro a
    induction a with
    | nil =>
      intro b _ _ h
      cases b with
      | nil => rfl
      | cons y b => exact absurd ((h y).mpr (by simp)) (by simp)
    | cons x a ih =>
      intro b ha hb h
      cases b with
      | nil => exact absurd ((h x).mp (by simp)) (by simp)
      | cons y b =>
        have ha' := List.pairwise_cons.mp ha
        have hb' := List.pairwise_cons.mp hb
        have hxy : x = y := by
          rcases List.mem_cons.mp ((h x).mp (by simp)) with e | hx
          · exact e
          · rcases List.mem_cons.mp ((h y).mpr (by simp)) with e | hy
            · exact e.symm
            · have := strLt_trans (ha'.1 y hy) (hb'.1 x hx)
              rw [strLt_irrefl] at this; cases this
        subst hxy
        congr 1
        apply ih b ha'.2 hb'.2
        intro n
        constructor
        · intro hn
          rcases List.mem_cons.mp ((h n).mp (List.mem_cons_of_mem _ hn)) with e | hn'
          · subst e; have := ha'.1 n hn; rw [strLt_irrefl] at this; cases this
          · exact hn'
        · intro hn
          rcases List.mem_cons.mp ((h n).mpr (List.mem_cons_of_mem _ hn)) with e | hn'
          · subst e; have := hb'.1 n hn; rw [strLt_irrefl] at this; cases this
          · exact hn'
  exact key _ _ h1.1 h2.1 fun n => by rw [h1.2.1 n, h2.2.1 n, h n]

example : handleLimitGroups (fun _ => 0)
    ["b:3".toList, "a".toList, "b:5".toList] [] =
    (["a".toList, "b".toList],
      [("b".toList, { mode := .count, limit := 5 }), ("b".toList, { mode := .count, limit := 3 })]) := by
  decide +kernel

end Verif.Server.Groups
