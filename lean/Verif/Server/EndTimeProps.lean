import Verif.Server.EndTime

/-!
# C102: the last completion time of a report group
-/

namespace Verif.Server.EndTime

/-- An end time whose seconds fit in 64 bits. -/
def Fits (t : Int) : Prop := -9223372036854775808 ≤ unix t ∧ unix t < 9223372036854775808

theorem putGet (n : Nat) (h : n < 18446744073709551616) : getU64 (putU64 n) = n := by
  simp only [getU64, putU64, List.foldl_cons, List.foldl_nil]
  omega

theorem roundTrip (x : Int) (h1 : -9223372036854775808 ≤ x) (h2 : x < 9223372036854775808) :
    toI64 (getU64 (putU64 (toU64 x))) = x := by
  have h : toU64 x < 18446744073709551616 := by unfold toU64; omega
  rw [putGet _ h]
  unfold toI64 toU64
  split <;> omega

/-- What is stored for a group after jobs were archived: nothing if there was none of the group, the seconds of the latest
otherwise. -/
def Good (b : Bucket) (g : String) (hist : List (String × Int)) : Prop :=
  (b g = none ∧ ∀ t, (g, t) ∉ hist) ∨
  ∃ t, (g, t) ∈ hist ∧ (∀ t', (g, t') ∈ hist → t' ≤ t ∨ unix t' = unix t) ∧ Fits t ∧ b g = some (putU64 (toU64 (unix t)))

theorem unix_mono {a b : Int} (h : unix a < unix b) : a < b := by
  unfold unix at h
  omega

theorem putU64_length (n : Nat) : (putU64 n).length = rgEndTimeBytes := rfl

theorem good_archive {b : Bucket} {g rg : String} {hist : List (String × Int)} {t : Int} (hf : Fits t)
    (h : Good b g hist) : Good (archive b rg t) g (hist ++ [(rg, t)]) := by
  by_cases hg : g = rg
  · subst hg
    rcases h with ⟨hb, hn⟩ | ⟨t0, h1, h2, h3, h4⟩
    · right
      refine ⟨t, by simp, ?_, hf, ?_⟩
      · intro t' ht'
        rcases List.mem_append.mp ht' with ht' | ht'
        · exact absurd ht' (hn t')
        · simp at ht'; subst ht'; exact Or.inl (Int.le_refl _)
      · unfold archive
        rw [hb]
        simp [rgEndTimeBytes]
    · right
      have he : toI64 (getU64 ((b g).getD [])) = unix t0 := by
        rw [h4]; exact roundTrip _ h3.1 h3.2
      by_cases hc : unix t0 ≥ unix t
      · refine ⟨t0, by simp [h1], ?_, h3, ?_⟩
        · intro t' ht'
          rcases List.mem_append.mp ht' with ht' | ht'
          · exact h2 t' ht'
          · simp at ht'
            subst ht'
            by_cases e : unix t' = unix t0
            · exact Or.inr e
            · left
              have := unix_mono (a := t') (b := t0) (by omega)
              omega
        · unfold archive
          rw [he]
          rw [if_pos ⟨by rw [h4]; rfl, hc⟩]
          exact h4
      · refine ⟨t, by simp, ?_, hf, ?_⟩
        · have hlt := unix_mono (a := t0) (b := t) (by omega)
          intro t' ht'
          rcases List.mem_append.mp ht' with ht' | ht'
          · left
            rcases h2 t' ht' with h | h
            · omega
            · have := unix_mono (a := t') (b := t) (by omega)
              omega
          · simp at ht'; subst ht'; exact Or.inl (Int.le_refl _)
        · unfold archive
          rw [he]
          rw [if_neg (fun hh => hc hh.2)]
          simp
  · have hb : archive b rg t g = b g := by
      unfold archive
      split
      · rfl
      · simp [hg]
    rcases h with ⟨h1, h2⟩ | ⟨t0, h1, h2, h3, h4⟩
    · left
      refine ⟨hb.trans h1, ?_⟩
      intro t' ht'
      rcases List.mem_append.mp ht' with ht' | ht'
      · exact h2 t' ht'
      · simp at ht'; exact hg ht'.1
    · right
      refine ⟨t0, by simp [h1], ?_, h3, hb.trans h4⟩
      intro t' ht'
      rcases List.mem_append.mp ht' with ht' | ht'
      · exact h2 t' ht'
      · simp at ht'; exact absurd ht'.1 hg

theorem good_all {g : String} : ∀ (l hist : List (String × Int)) (b : Bucket), (∀ x ∈ l, Fits x.2) → Good b g hist →
    Good (archiveAll b l) g (hist ++ l) := by
  intro l
  induction l with
  | nil => intro hist b _ h; simpa [archiveAll] using h
  | cons x l ih =>
    intro hist b hf h
    obtain ⟨rg, t⟩ := x
    have := ih (hist ++ [(rg, t)]) (archive b rg t) (fun y hy => hf y (by simp [hy]))
      (good_archive (hf (rg, t) (by simp)) h)
    simpa [archiveAll] using this

theorem exists_max : ∀ (l : List (String × Int)) (g : String), (∃ t, (g, t) ∈ l) →
    ∃ t, (g, t) ∈ l ∧ ∀ t', (g, t') ∈ l → t' ≤ t := by
  intro l g
  induction l with
  | nil => rintro ⟨t, h⟩; simp at h
  | cons x l ih =>
    rintro ⟨t, h⟩
    by_cases hl : ∃ t, (g, t) ∈ l
    · obtain ⟨m, hm, hmax⟩ := ih hl
      obtain ⟨xg, xt⟩ := x
      by_cases hx : xg = g ∧ m < xt
      · refine ⟨xt, by simp [hx.1], ?_⟩
        intro t' ht'
        rcases List.mem_cons.mp ht' with ht' | ht'
        · simp at ht'; omega
        · have := hmax t' ht'; omega
      · refine ⟨m, by simp [hm], ?_⟩
        intro t' ht'
        rcases List.mem_cons.mp ht' with ht' | ht'
        · simp only [Prod.mk.injEq] at ht'
          have : ¬ m < xt := fun h' => hx ⟨ht'.1.symm, h'⟩
          omega
        · exact hmax t' ht'
    · refine ⟨t, h, ?_⟩
      intro t' ht'
      rcases List.mem_cons.mp ht' with ht' | ht'
      · rcases List.mem_cons.mp h with h | h
        · rw [← h] at ht'
          simp only [Prod.mk.injEq] at ht'
          omega
        · exact absurd ⟨t, h⟩ hl
      · exact absurd ⟨t', ht'⟩ hl

/-- C102: after jobs were archived, in whatever order, the time that is given for a report group that was asked for is the
latest of the end times of its jobs, in whole seconds. -/
theorem C102_latest (hist : List (String × Int)) (hf : ∀ x ∈ hist, Fits x.2) (rgs : List String) (g : String)
    (hg : g ∈ rgs) (e : Int) (he : (g, e) ∈ hist) (hmax : ∀ e', (g, e') ∈ hist → e' ≤ e) :
    retrieve (archiveAll (fun _ => none) hist) rgs g = some (e / 1000000000) := by
  have h := good_all (g := g) hist [] (fun _ => none) hf (Or.inl ⟨rfl, by simp⟩)
  simp only [List.nil_append] at h
  rcases h with ⟨_, hn⟩ | ⟨t, h1, h2, h3, h4⟩
  · exact absurd he (hn e)
  · have htu : unix t = unix e := by
      have a := hmax t h1
      rcases h2 e he with h | h
      · have : t = e := by omega
        rw [this]
      · exact h.symm
    unfold retrieve
    rw [if_pos hg]
    simp only [h4, Option.getD_some, putU64_length, ne_eq, not_true_eq_false, if_false]
    rw [roundTrip _ h3.1 h3.2, htu]
    rfl

/-- C102: no time is given for a group none of whose jobs was archived, nor for one that was not asked for. -/
theorem C102_none (hist : List (String × Int)) (hf : ∀ x ∈ hist, Fits x.2) (rgs : List String) (g : String)
    (h : g ∉ rgs ∨ ∀ e, (g, e) ∉ hist) : retrieve (archiveAll (fun _ => none) hist) rgs g = none := by
  unfold retrieve
  rcases h with h | h
  · rw [if_neg h]
  · split
    · have hh := good_all (g := g) hist [] (fun _ => none) hf (Or.inl ⟨rfl, by simp⟩)
      simp only [List.nil_append] at hh
      rcases hh with ⟨hb, _⟩ | ⟨t, h1, _⟩
      · rw [hb]; simp [rgEndTimeBytes]
      · exact absurd h1 (h t)
    · rfl

/-- C102: a time is given for every group that was asked for and one of whose jobs was archived; archiving more jobs never
makes it earlier, nor does archiving jobs of other groups change it. -/
theorem C102_grows (hist more : List (String × Int)) (hf : ∀ x ∈ hist ++ more, Fits x.2) (rgs : List String) (g : String)
    (t : Int) (h : retrieve (archiveAll (fun _ => none) hist) rgs g = some t) :
    ∃ t', retrieve (archiveAll (fun _ => none) (hist ++ more)) rgs g = some t' ∧ t ≤ t' ∧
      ((∀ e, (g, e) ∉ more) → t' = t) := by
  have hfh : ∀ x ∈ hist, Fits x.2 := fun x hx => hf x (by simp [hx])
  have hg : g ∈ rgs := by
    apply Classical.byContradiction
    intro hg
    rw [C102_none hist hfh rgs g (Or.inl hg)] at h
    simp at h
  have hex : ∃ e, (g, e) ∈ hist := by
    apply Classical.byContradiction
    intro hn
    rw [C102_none hist hfh rgs g (Or.inr (fun e he => hn ⟨e, he⟩))] at h
    simp at h
  obtain ⟨e, he, hmax⟩ := exists_max hist g hex
  obtain ⟨e', he', hmax'⟩ := exists_max (hist ++ more) g ⟨e, by simp [he]⟩
  have h1 := C102_latest hist hfh rgs g hg e he hmax
  have h2 := C102_latest (hist ++ more) hf rgs g hg e' he' hmax'
  rw [h1] at h
  simp only [Option.some.injEq] at h
  refine ⟨_, h2, ?_, ?_⟩
  · have := hmax' e (by simp [he])
    omega
  · intro hn
    rcases List.mem_append.mp he' with h' | h'
    · have a := hmax e' h'
      have b := hmax' e (by simp [he])
      have : e = e' := by omega
      rw [← this]; exact h
    · exact absurd h' (hn e')

/-- The hypotheses of `C102_latest`, `C102_none` and `C102_grows` are met by jobs of two groups, one of which ended before
1970. -/
example : ∀ x ∈ [("a", (5000000001 : Int)), ("b", -3), ("a", 7999999999), ("a", 7000000000)], Fits x.2 := by
  intro x hx
  simp at hx
  rcases hx with h | h | h | h <;> subst h <;> (unfold Fits unix; omega)

example : (retrieve (archiveAll (fun _ => none) [("a", 5000000001), ("b", -3), ("a", 7999999999), ("a", 7000000000)])
    ["b", "a", "c"] "a", retrieve (archiveAll (fun _ => none) [("a", 5000000001), ("b", -3)]) ["b", "c"] "b",
    retrieve (archiveAll (fun _ => none) [("a", 5000000001), ("b", -3)]) ["b", "c"] "c") = (some 7, some (-1), none) := by
  decide

end Verif.Server.EndTime
