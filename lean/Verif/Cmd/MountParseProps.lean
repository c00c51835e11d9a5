import Verif.Cmd.MountParse
/-!
# C107: what the --mounts option stands for
-/
namespace Verif.Cmd.MountParse
open Verif.Util

namespace Spec

/-- a target written as the help of `wr mount` says: "[c|u][r|w]:[profile@]bucket[/path]" -/
inductive Written : List Char → Target → Prop
  | plain (cache write : Bool) (path : List Char) : ',' ∉ path → ':' ∉ path → '@' ∉ path →
      Written ([if cache then 'c' else 'u', if write then 'w' else 'r'] ++ ':' :: path) ⟨[], path, cache, write⟩
  | profile (cache write : Bool) (profile path : List Char) : ',' ∉ path → ':' ∉ path → '@' ∉ path →
      ',' ∉ profile → ':' ∉ profile → '@' ∉ profile →
      Written ([if cache then 'c' else 'u', if write then 'w' else 'r'] ++ ':' :: (profile ++ '@' :: path)) ⟨profile, path, cache, write⟩

/-- a list of targets written with commas between them -/
inductive List' : List Char → List Target → Prop
  | one : Written s t → List' s [t]
  | more : Written s t → List' ss ts → List' (s ++ ',' :: ss) (t :: ts)

/-- no part between commas has more than one '@' -/
def OneAt (s : List Char) : Prop := ∀ p ∈ split ',' s, p.count '@' ≤ 1

end Spec

theorem flags_parse (cache write : Bool) : cacheOf (if cache then 'c' else 'u') = some cache ∧ writeOf (if write then 'w' else 'r') = some write := by
  cases cache <;> cases write <;> decide

theorem target_written {s : List Char} {t : Target} (h : Spec.Written s t) : target s = some t ∧ ',' ∉ s := by
  cases h with
  | plain cache write path h1 h2 h3 =>
    obtain ⟨f1, f2⟩ := flags_parse cache write
    refine ⟨?_, ?_⟩
    · have hs : split ':' ([if cache then 'c' else 'u', if write then 'w' else 'r'] ++ ':' :: path) =
          [[if cache then 'c' else 'u', if write then 'w' else 'r'], path] := by
        rw [split_append, split_none _ _ h2]
        cases cache <;> cases write <;> decide
      simp only [target, hs, f1, f2, Option.bind_some, Option.map_some, profilePath, h3, if_false]
    · cases cache <;> cases write <;> simp [h1]
  | profile cache write profile path h1 h2 h3 h4 h5 h6 =>
    obtain ⟨f1, f2⟩ := flags_parse cache write
    have h7 : ':' ∉ profile ++ '@' :: path := by simp [h2, h5]
    refine ⟨?_, ?_⟩
    · have hs : split ':' ([if cache then 'c' else 'u', if write then 'w' else 'r'] ++ ':' :: (profile ++ '@' :: path)) =
          [[if cache then 'c' else 'u', if write then 'w' else 'r'], profile ++ '@' :: path] := by
        rw [split_append, split_none _ _ h7]
        cases cache <;> cases write <;> decide
      have hp : profilePath (profile ++ '@' :: path) = (profile, path) := by
        unfold profilePath
        rw [if_pos (by simp), split_append _ _ _ h6, split_none _ _ h3]
      simp only [target, hs, f1, f2, Option.bind_some, Option.map_some, hp]
    · cases cache <;> cases write <;> simp [h1, h4]

/-- C107: a list of targets written as the help says is read as those targets, in order -/
theorem C107_read {s : List Char} {ts : List Target} (h : Spec.List' s ts) : simple s = some ts := by
  unfold simple
  induction h with
  | one h => rw [split_none _ _ (target_written h).2]; simp [targets, (target_written h).1]
  | more h _ ih => rw [split_append _ _ _ (target_written h).2]; simp [targets, (target_written h).1, ih]

example : Spec.List' "cw:p@b/x,ur:c".toList [⟨"p".toList, "b/x".toList, true, true⟩, ⟨[], "c".toList, false, false⟩] :=
  .more (.profile true true "p".toList "b/x".toList (by decide) (by decide) (by decide) (by decide) (by decide) (by decide))
    (.one (.plain false false "c".toList (by decide) (by decide) (by decide)))

theorem cacheOf_some {c : Char} {b : Bool} (h : cacheOf c = some b) : c = if b then 'c' else 'u' := by
  unfold cacheOf at h; split at h <;> simp_all <;> subst h <;> rfl

theorem writeOf_some {c : Char} {b : Bool} (h : writeOf c = some b) : c = if b then 'w' else 'r' := by
  unfold writeOf at h; split at h <;> simp_all <;> subst h <;> rfl

theorem count_join (c : Char) : ∀ ps : List (List Char), ps ≠ [] → (∀ p ∈ ps, c ∉ p) → (join c ps).count c + 1 = ps.length
  | [], h, _ => absurd rfl h
  | [p], _, h => by simp [join, List.count_eq_zero.2 (h p (by simp))]
  | p :: q :: ps, _, h => by
    have ih := count_join c (q :: ps) (by simp) fun r hr => h r (List.mem_cons_of_mem _ hr)
    simp only [join, List.count_append, List.count_cons_self, List.length_cons, List.count_eq_zero.2 (h p (by simp))] at ih ⊢
    omega

theorem target_some {s : List Char} {t : Target} (hc : ',' ∉ s) (ha : s.count '@' ≤ 1) (h : target s = some t) : Spec.Written s t := by
  unfold target at h
  split at h
  · rename_i a b path hs
    have hj := join_split ':' s
    rw [hs] at hj
    simp only [join] at hj
    have hp : ':' ∉ path := split_clean ':' s path (by rw [hs]; simp)
    have hcp : ',' ∉ path := fun hm => hc (by rw [← hj]; simp [hm])
    have hap : path.count '@' ≤ 1 := by
      rw [← hj] at ha
      simp only [List.count_append, List.count_cons] at ha
      omega
    simp only [Option.bind_eq_some_iff, Option.map_eq_some_iff] at h
    obtain ⟨cache, h1, write, h2, rfl⟩ := h
    rw [← hj, cacheOf_some h1, writeOf_some h2]
    by_cases hat : '@' ∈ path
    · have hq := count_join '@' (split '@' path) (split_ne_nil _ _) (split_clean '@' path)
      rw [join_split] at hq
      have hl : (split '@' path).length = 2 := by
        have := List.count_pos_iff.2 hat
        omega
      rcases hsp : split '@' path with _ | ⟨pr, _ | ⟨pa, _ | _⟩⟩
      · simp [hsp] at hl
      · simp [hsp] at hl
      · have hj2 := join_split '@' path
        rw [hsp] at hj2
        simp only [join] at hj2
        have e : profilePath path = (pr, pa) := by simp [profilePath, hat, hsp]
        have c1 : '@' ∉ pr := split_clean '@' path pr (by rw [hsp]; simp)
        have c2 : '@' ∉ pa := split_clean '@' path pa (by rw [hsp]; simp)
        rw [e, ← hj2]
        rw [← hj2] at hp hcp
        simp only [List.mem_append, List.mem_cons, not_or] at hp hcp
        exact .profile cache write pr pa hcp.2.2 hp.2.2 c2 hcp.1 hp.1 c1
      · simp [hsp] at hl
    · have e : profilePath path = ([], path) := by simp [profilePath, hat]
      rw [e]
      exact .plain cache write path hcp hp hat
  · cases h

theorem targets_some : ∀ (ps : List (List Char)), ps ≠ [] → (∀ p ∈ ps, ',' ∉ p) → (∀ p ∈ ps, p.count '@' ≤ 1) → ∀ ts, targets ps = some ts →
    Spec.List' (join ',' ps) ts
  | [], h, _, _, _, _ => absurd rfl h
  | [p], _, h1, h2, ts, ht => by
    simp only [targets, Option.bind_eq_some_iff, Option.map_eq_some_iff, Option.some.injEq] at ht
    obtain ⟨t, h, _, rfl, rfl⟩ := ht
    exact .one (target_some (h1 p (by simp)) (h2 p (by simp)) h)
  | p :: q :: ps, _, h1, h2, ts, ht => by
    rw [targets] at ht
    simp only [Option.bind_eq_some_iff, Option.map_eq_some_iff] at ht
    obtain ⟨t, h, ts', h', rfl⟩ := ht
    exact .more (target_some (h1 p (by simp)) (h2 p (by simp)) h)
      (targets_some (q :: ps) (by simp) (fun r hr => h1 r (List.mem_cons_of_mem _ hr)) (fun r hr => h2 r (List.mem_cons_of_mem _ hr)) ts' h')

/-- C107, if no part has more than one '@': what is read is written as the help says; anything else is refused. Missing: parts
with more. -/
theorem C107_refused_partial (s : List Char) (ts : List Target) (ha : Spec.OneAt s) (h : simple s = some ts) : Spec.List' s ts := by
  have := targets_some (split ',' s) (split_ne_nil _ _) (split_clean ',' s) ha ts h
  rwa [join_split] at this

example : simple "rc:b".toList = none ∧ simple "cr".toList = none ∧ simple "cr:a:b".toList = none ∧ simple [] = none ∧
    (simple "cr:p@b".toList).isSome = true := by decide

/-- C107: exactly one of the two options is to be given -/
theorem C107_one (json : List Char → Option (List (List Target))) (a b : List Char) :
    (a = [] ∧ b = [] → parse json a b = none) ∧ (a ≠ [] ∧ b ≠ [] → parse json a b = none) ∧
    (a ≠ [] ∧ b = [] → parse json a b = json a) ∧ (a = [] ∧ b ≠ [] → parse json a b = (simple b).map ([·])) := by
  unfold parse
  refine ⟨?_, ?_, ?_, ?_⟩ <;> rintro ⟨h1, h2⟩ <;> simp [h1, h2]

example : parse (fun _ => none) [] "cr:b".toList = some [[⟨[], "b".toList, true, false⟩]] := by decide

/-- The code violates C107: what comes after a second '@' is dropped without a word -/
theorem C107_violated_at : ∃ s, simple s = some [⟨"p".toList, "a".toList, true, false⟩] ∧ s = "cr:p@a@b".toList := ⟨_, by decide, rfl⟩

/-- The code violates C107: a target without a bucket is accepted -/
theorem C107_violated_empty : simple "cr:".toList = some [⟨[], [], true, false⟩] := by decide

end Verif.Cmd.MountParse
