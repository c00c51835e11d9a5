import Verif.Limiter.Model
/-! Lemmas about the limiter model: everything expressed through the effective data of a group (what `vivifyGroup`
would return), which vivifying does not change. -/
namespace Verif.Limiter

/-- what `vivifyGroup` returns for the name -/
def eff (cb : Callback) (s : Groups) (n : String) : Option GroupData :=
  match s n with
  | some g => some g
  | none => (cb n).filter (·.isValid)

theorem vivify_snd (cb s n) : (vivify cb s n).2 = eff cb s n := by
  unfold vivify eff
  cases s n with
  | some g => rfl
  | none =>
    cases cb n with
    | none => rfl
    | some d => by_cases h : d.isValid <;> simp [h, Option.filter]

theorem vivify_fst (cb s n) : (vivify cb s n).1 = s ∨ (s n = none ∧ (vivify cb s n).1 = put s n (eff cb s n)) := by
  unfold vivify eff
  cases hs : s n with
  | some g => exact Or.inl rfl
  | none =>
    cases cb n with
    | none => exact Or.inl rfl
    | some d => by_cases h : d.isValid <;> simp [h, Option.filter]

theorem vivify_at (cb s n) : (vivify cb s n).1 n = eff cb s n := by
  unfold vivify eff
  cases hs : s n with
  | some g => simp [hs]
  | none =>
    cases cb n with
    | none => simp [hs]
    | some d => by_cases h : d.isValid <;> simp [h, Option.filter, hs, put]

theorem vivify_other (cb s n m) (h : m ≠ n) : (vivify cb s n).1 m = s m := by
  rcases vivify_fst cb s n with e | ⟨_, e⟩ <;> rw [e]
  simp [put, h]

theorem eff_vivify (cb s n) : eff cb (vivify cb s n).1 = eff cb s := by
  funext m
  rcases vivify_fst cb s n with e | ⟨h, e⟩
  · rw [e]
  · rw [e]
    by_cases hm : m = n
    · subst hm
      cases he : eff cb s m with
      | none => unfold eff put at *; simp [h] at he ⊢; exact he
      | some g => unfold eff put; simp
    · unfold eff put; simp [hm]

theorem vivify_eq (cb s n) : vivify cb s n = ((vivify cb s n).1, eff cb s n) := by rw [← vivify_snd]

theorem eff_put (cb s n g m) : eff cb (put s n (some g)) m = if m = n then some g else eff cb s m := by
  unfold eff put; by_cases h : m = n <;> simp [h]

theorem checkGroups_spec (c cb) (ns : List String) : ∀ s, eff cb (checkGroups c cb s ns).1 = eff cb s ∧
    ((checkGroups c cb s ns).2 = true ↔ ∀ n ∈ ns, ∀ g, eff cb s n = some g → g.canIncrement c = true) := by
  induction ns with
  | nil => intro s; exact ⟨rfl, by simp [checkGroups]⟩
  | cons n ns ih =>
    intro s
    have hv := eff_vivify cb s n
    unfold checkGroups
    rw [vivify_eq]
    cases he : eff cb s n with
    | none =>
      simp only
      rw [(ih _).1, (ih _).2, hv]
      refine ⟨rfl, ?_⟩
      constructor
      · intro h m hm g hg
        rcases List.mem_cons.1 hm with rfl | hm
        · rw [he] at hg; simp at hg
        · exact h m hm g hg
      · intro h m hm; exact h m (List.mem_cons_of_mem _ hm)
    | some g =>
      simp only
      by_cases hc : g.canIncrement c = true
      · rw [if_pos hc, (ih _).1, (ih _).2, hv]
        refine ⟨rfl, ?_⟩
        constructor
        · intro h m hm g' hg
          rcases List.mem_cons.1 hm with rfl | hm
          · rw [he] at hg; injection hg with hg; subst hg; exact hc
          · exact h m hm g' hg
        · intro h m hm; exact h m (List.mem_cons_of_mem _ hm)
      · rw [if_neg hc]
        refine ⟨hv, ?_⟩
        simp only [Bool.false_eq_true, false_iff]
        intro h; exact hc (h n (by simp) g he)

/-- `increment` applied once for each occurrence of the name -/
def bump (ns : List String) (n : String) (g : GroupData) : GroupData :=
  if g.isCount then { g with current := g.current + ns.count n } else g

theorem increment_isCount (g : GroupData) : g.increment.isCount = g.isCount := by
  unfold GroupData.increment; split <;> simp_all [GroupData.isCount]

theorem incrementGroups_spec (cb) (ns : List String) : ∀ s n, eff cb (incrementGroups cb s ns) n =
    (eff cb s n).map (bump ns n) := by
  induction ns with
  | nil =>
    intro s n
    have : bump [] n = id := by funext g; unfold bump; simp
    simp [incrementGroups, this]
  | cons m ns ih =>
    intro s n
    have hv := eff_vivify cb s m
    unfold incrementGroups
    rw [vivify_eq]
    cases he : eff cb s m with
    | none =>
      simp only; rw [ih, hv]
      by_cases hnm : n = m
      · subst hnm; rw [he]; rfl
      · congr 1; funext g; unfold bump; rw [List.count_cons_of_ne (Ne.symm hnm)]
    | some g =>
      simp only; rw [ih, eff_put]
      by_cases hnm : n = m
      · subst hnm
        rw [if_pos rfl, he]
        simp only [Option.map_some]
        congr 1
        unfold bump
        rw [increment_isCount]
        by_cases hc : g.isCount = true
        · simp only [if_pos hc, GroupData.increment, List.count_cons_self]
          congr 1; omega
        · simp only [if_neg hc, GroupData.increment]
      · rw [if_neg hnm, hv]
        congr 1; funext g'; unfold bump; rw [List.count_cons_of_ne (Ne.symm hnm)]

theorem increment_spec (c cb s ns) :
    ((increment c cb s ns).2 = true ↔ ∀ n ∈ ns, ∀ g, eff cb s n = some g → g.canIncrement c = true) ∧
    (∀ n, eff cb (increment c cb s ns).1 n = if (increment c cb s ns).2 then (eff cb s n).map (bump ns n) else eff cb s n) := by
  have h := checkGroups_spec c cb ns s
  unfold increment
  generalize hr : checkGroups c cb s ns = r at *
  obtain ⟨s', b⟩ := r
  cases b
  · simp only at *
    exact ⟨h.2, fun n => by rw [h.1]; simp⟩
  · simp only at *
    refine ⟨h.2, fun n => ?_⟩
    rw [incrementGroups_spec, h.1]; simp

/-- entries in memory are untouched by names not in the list -/
theorem decrement_other (ns : List String) : ∀ (s : Groups) (n), n ∉ ns → decrement s ns n = s n := by
  induction ns with
  | nil => intro s n _; rfl
  | cons m ns ih =>
    intro s n hn
    simp only [List.mem_cons, not_or] at hn
    unfold decrement
    cases h : s m with
    | none => exact ih _ _ hn.2
    | some g => simp only; rw [ih _ _ hn.2]; simp [put, hn.1]

/-- what one `decrement` leaves in memory -/
def dec1 (g : GroupData) : Option GroupData := if g.decrement.2 then none else some g.decrement.1

theorem decrement_mem (ns : List String) : ∀ (s : Groups) (n), ns.Nodup → n ∈ ns → decrement s ns n = (s n).bind dec1 := by
  induction ns with
  | nil => intro s n _ h; simp at h
  | cons m ns ih =>
    intro s n hd hn
    rw [List.nodup_cons] at hd
    unfold decrement
    by_cases hnm : n = m
    · subst hnm
      cases h : s n with
      | none => simp only; rw [decrement_other _ _ _ hd.1, h]; rfl
      | some g => simp only; rw [decrement_other _ _ _ hd.1]; simp [put, dec1]
    · have hn' : n ∈ ns := by simpa [hnm] using hn
      cases h : s m with
      | none => exact ih _ _ hd.2 hn'
      | some g => simp only; rw [ih _ _ hd.2 hn']; simp [put, hnm]

end Verif.Limiter
