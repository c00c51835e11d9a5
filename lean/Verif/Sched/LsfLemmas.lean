import Verif.Sched.Lsf

/-! # Lemmas on sorting and ranking for the LSF model -/
namespace Verif.Sched.Lsf
open Verif.Util

theorem mem_distinct (v : Nat) : ∀ l : List Nat, v ∈ distinct l ↔ v ∈ l
  | [] => by simp [distinct]
  | w :: l => by
    have ih := mem_distinct v l
    have ihw := mem_distinct w l
    unfold distinct
    split
    · rename_i h
      rw [ih, List.mem_cons]
      constructor
      · exact Or.inr
      · rintro (rfl | h')
        · exact ihw.1 h
        · exact h'
    · rw [List.mem_cons, List.mem_cons, ih]

theorem nodup_distinct : ∀ l : List Nat, (distinct l).Nodup
  | [] => by simp [distinct]
  | w :: l => by
    unfold distinct
    split
    · exact nodup_distinct l
    · rename_i h
      exact List.nodup_cons.2 ⟨h, nodup_distinct l⟩

/-- the order `sortVals` sorts by -/
def le' (rev : Bool) (a b : Nat) : Bool := if rev then decide (b ≤ a) else decide (a ≤ b)

/-- strictly before in that order -/
def before (rev : Bool) (a b : Nat) : Prop := if rev then b < a else a < b

theorem le'_antisymm (rev : Bool) (a b : Nat) (h : le' rev a b = true) (h' : le' rev b a = true) : a = b := by
  cases rev <;> simp [le'] at h h' <;> omega

theorem before_iff (rev : Bool) (a b : Nat) : before rev a b ↔ le' rev a b = true ∧ a ≠ b := by
  cases rev <;> simp [le', before] <;> omega

theorem sortVals_perm (rev : Bool) (l : List Nat) : (sortVals rev l).Perm l := sortBy_perm _ _

theorem sortVals_sorted (rev : Bool) (l : List Nat) : (sortVals rev l).Pairwise fun a b => le' rev a b = true := by
  refine sortBy_sorted (le' rev) ?_ ?_ l
  · intro a b c h h'
    cases rev <;> simp [le'] at h h' ⊢ <;> omega
  · intro a b
    cases rev <;> simp [le'] <;> omega

theorem sortVals_strict (rev : Bool) (l : List Nat) : (sortVals rev (distinct l)).Pairwise (before rev) := by
  have h := sortVals_sorted rev (distinct l)
  have h' : (sortVals rev (distinct l)).Nodup := (sortVals_perm rev _).nodup_iff.2 (nodup_distinct l)
  refine (h.and h').imp ?_
  intro a b hab
  exact (before_iff rev a b).2 hab

theorem mem_sortVals (rev : Bool) (l : List Nat) (v : Nat) : v ∈ sortVals rev (distinct l) ↔ v ∈ l := by
  rw [(sortVals_perm rev _).mem_iff, mem_distinct]

/-- the sorted distinct values depend only on which values there are -/
theorem sortVals_ext (rev : Bool) (l l' : List Nat) (h : ∀ v, v ∈ l ↔ v ∈ l') :
    sortVals rev (distinct l) = sortVals rev (distinct l') := by
  refine List.Perm.eq_of_pairwise (le := fun a b => le' rev a b = true) ?_ (sortVals_sorted rev _) (sortVals_sorted rev _) ?_
  · intro a b _ _ h1 h2
    exact le'_antisymm rev a b h1 h2
  · refine ((sortVals_perm rev _).trans ?_).trans (sortVals_perm rev _).symm
    refine (List.perm_ext_iff_of_nodup (nodup_distinct l) (nodup_distinct l')).2 ?_
    intro v
    rw [mem_distinct, mem_distinct, h]

theorem flatMap_groups {α : Type} (val : α → Nat) (g : Nat → List α → List α) (hg : ∀ v l, (g v l).Perm l) :
    ∀ (vs : List Nat) (qs : List α), vs.Nodup → (∀ q ∈ qs, val q ∈ vs) →
      (vs.flatMap fun v => g v (qs.filter fun q => val q = v)).Perm qs
  | [], qs, _, h => by
    cases qs with
    | nil => simp
    | cons q qs => exact absurd (h q (by simp)) (by simp)
  | v :: vs, qs, hn, h => by
    have hn' := List.nodup_cons.1 hn
    have ih := flatMap_groups val g hg vs (qs.filter fun q => !decide (val q = v)) hn'.2 (by
      intro q hq
      have hq' := List.mem_filter.1 hq
      rcases List.mem_cons.1 (h q hq'.1) with e | e
      · simp [e] at hq'
      · exact e)
    have e : (vs.flatMap fun w => g w ((qs.filter fun q => !decide (val q = v)).filter fun q => val q = w)) =
        vs.flatMap fun w => g w (qs.filter fun q => val q = w) := by
      have : ∀ w ∈ vs, (qs.filter fun q => !decide (val q = v)).filter (fun q => decide (val q = w)) =
          qs.filter fun q => decide (val q = w) := by
        intro w hw
        rw [List.filter_filter]
        apply List.filter_congr
        intro q _
        by_cases hqw : val q = w
        · have : w ≠ v := fun e => hn'.1 (e ▸ hw)
          simp [hqw, this]
        · simp [hqw]
      rw [List.flatMap_def, List.flatMap_def]
      congr 1
      apply List.map_congr_left
      intro w hw
      rw [this w hw]
    rw [e] at ih
    rw [List.flatMap_cons]
    refine ((hg v _).append ih).trans ?_
    exact List.filter_append_perm (fun q => decide (val q = v)) qs

theorem sortByValue_perm {α : Type} (val : α → Nat) (rev : Bool) (qs : List α) : (sortByValue val rev qs).Perm qs := by
  refine flatMap_groups val (fun _ l => l) (fun _ l => .refl l) _ qs ?_ ?_
  · exact (sortVals_perm rev _).nodup_iff.2 (nodup_distinct _)
  · intro q hq
    rw [mem_sortVals]
    exact List.mem_map_of_mem hq

theorem sortByRank_perm (rank : List Char → Nat) (ns : List (List Char)) : (sortByRank rank ns).Perm ns := by
  refine flatMap_groups rank (fun _ l => sortNamesRev l) (fun _ l => sortBy_perm _ _) _ ns ?_ ?_
  · exact (sortVals_perm _ _).nodup_iff.2 (nodup_distinct _)
  · intro q hq
    rw [mem_sortVals]
    exact List.mem_map_of_mem hq

/-! ## ranks -/

theorem rankLoop_same {α : Type} (val : α → Nat) (v r : Nat) (rest : List α) : ∀ g : List α, (∀ q ∈ g, val q = v) →
    rankLoop val (some v) r (g ++ rest) = g.map (fun q => (q, r)) ++ rankLoop val (some v) r rest
  | [], _ => rfl
  | q :: g, h => by
    have hq := h q (by simp)
    have ih := rankLoop_same val v r rest g fun x hx => h x (List.mem_cons_of_mem _ hx)
    simp only [List.cons_append, rankLoop, hq, if_true, List.map_cons, ih]

theorem rankLoop_mem {α : Type} (val : α → Nat) : ∀ (l : List α) (p : Option Nat) (r : Nat), ∀ e ∈ rankLoop val p r l, e.1 ∈ l := by
  intro l
  induction l with
  | nil => intro p r e h; cases p <;> simp [rankLoop] at h
  | cons a l ih =>
    intro p r e h
    cases p with
    | none =>
      simp only [rankLoop, List.mem_cons] at h
      rcases h with rfl | h
      · simp
      · exact List.mem_cons_of_mem _ (ih _ _ _ h)
    | some p =>
      simp only [rankLoop] at h
      split at h <;> rcases List.mem_cons.1 h with rfl | h
      · simp
      · exact List.mem_cons_of_mem _ (ih _ _ _ h)
      · simp
      · exact List.mem_cons_of_mem _ (ih _ _ _ h)

theorem idxOf_cons' (a v : Nat) (vs : List Nat) : (v :: vs).idxOf a = if v = a then 0 else vs.idxOf a + 1 := by
  rw [List.idxOf_cons]
  by_cases h : v = a
  · simp [h]
  · have : (v == a) = false := by simpa using h
    rw [this, if_neg h]; rfl

theorem rankLoop_groups {α : Type} (val : α → Nat) (g : Nat → List α) : ∀ (vs : List Nat) (p r : Nat),
    (∀ v ∈ vs, g v ≠ [] ∧ ∀ q ∈ g v, val q = v) → (p :: vs).Nodup →
    ∀ e ∈ rankLoop val (some p) r (vs.flatMap g), e.2 = r + 1 + vs.idxOf (val e.1)
  | [], p, r, _, _, e, he => by simp [rankLoop] at he
  | v :: vs, p, r, hg, hn, e, he => by
    have hv := hg v (by simp)
    rw [List.flatMap_cons] at he
    obtain ⟨q, g', hgv⟩ := List.exists_cons_of_ne_nil hv.1
    have hqv : val q = v := hv.2 q (by simp [hgv])
    have hpv : ¬ v = p := by
      intro e'
      simp [e'] at hn
    have hn2 : (v :: vs).Nodup := (List.nodup_cons.1 hn).2
    rw [hgv, List.cons_append] at he
    simp only [rankLoop, hqv, hpv, if_false] at he
    rw [rankLoop_same val v (r + 1) _ g' (fun x hx => hv.2 x (by rw [hgv]; exact List.mem_cons_of_mem _ hx))] at he
    rcases List.mem_cons.1 he with rfl | he
    · simp [hqv]
    rcases List.mem_append.1 he with he | he
    · obtain ⟨x, hx, rfl⟩ := List.mem_map.1 he
      have : val x = v := hv.2 x (by rw [hgv]; exact List.mem_cons_of_mem _ hx)
      simp [this]
    · have ih := rankLoop_groups val g vs v (r + 1) (fun w hw => hg w (List.mem_cons_of_mem _ hw)) hn2 e he
      have hmem : val e.1 ∈ vs := by
        have := rankLoop_mem val
        have hm := this _ _ _ e he
        obtain ⟨w, hw, hew⟩ := List.mem_flatMap.1 hm
        rw [(hg w (List.mem_cons_of_mem _ hw)).2 _ hew]
        exact hw
      have hne : ¬ v = val e.1 := fun h => (List.nodup_cons.1 hn2).1 (h ▸ hmem)
      rw [ih, idxOf_cons', if_neg hne]
      omega

theorem rankLoop_first {α : Type} (val : α → Nat) (g : Nat → List α) (vs : List Nat)
    (hg : ∀ v ∈ vs, g v ≠ [] ∧ ∀ q ∈ g v, val q = v) (hn : vs.Nodup) :
    ∀ e ∈ rankLoop val none 0 (vs.flatMap g), e.2 = vs.idxOf (val e.1) := by
  cases vs with
  | nil => intro e he; simp [rankLoop] at he
  | cons v vs =>
    intro e he
    have hv := hg v (by simp)
    obtain ⟨q, g', hgv⟩ := List.exists_cons_of_ne_nil hv.1
    have hqv : val q = v := hv.2 q (by simp [hgv])
    rw [List.flatMap_cons, hgv, List.cons_append] at he
    simp only [rankLoop, hqv] at he
    rw [rankLoop_same val v 0 _ g' (fun x hx => hv.2 x (by rw [hgv]; exact List.mem_cons_of_mem _ hx))] at he
    rcases List.mem_cons.1 he with rfl | he
    · simp [hqv]
    rcases List.mem_append.1 he with he | he
    · obtain ⟨x, hx, rfl⟩ := List.mem_map.1 he
      have : val x = v := hv.2 x (by rw [hgv]; exact List.mem_cons_of_mem _ hx)
      simp [this]
    · have ih := rankLoop_groups val g vs v 0 (fun w hw => hg w (List.mem_cons_of_mem _ hw)) hn e he
      have h0 : ¬ v = val e.1 := by
        intro h
        have hz : e.2 = 0 + 1 + vs.idxOf (val e.1) := ih
        have hall := rankLoop_mem val
        have hm := hall _ _ _ e he
        obtain ⟨w, hw, hew⟩ := List.mem_flatMap.1 hm
        have := (hg w (List.mem_cons_of_mem _ hw)).2 _ hew
        rw [this] at h
        exact (List.nodup_cons.1 hn).1 (h ▸ hw)
      rw [ih, idxOf_cons', if_neg h0]
      omega

theorem rankLoop_keys {α : Type} (val : α → Nat) : ∀ (l : List α) (p : Option Nat) (r : Nat),
    (rankLoop val p r l).map (·.1) = l
  | [], p, r => by cases p <;> rfl
  | a :: l, none, r => by simp [rankLoop, rankLoop_keys val l]
  | a :: l, some p, r => by
    simp only [rankLoop]
    split <;> simp [rankLoop_keys val l]

/-- the rank given to a queue by one criterion -/
theorem rankIn_eq (val : Queue → Nat) (rev : Bool) (qs : List Queue) (hn : (qs.map (·.name)).Nodup) (q : Queue)
    (hq : q ∈ qs) : rankIn (rankLoop val none 0 (sortByValue val rev qs)) q.name =
      (sortVals rev (distinct (qs.map val))).idxOf (val q) := by
  have hp := sortByValue_perm val rev qs
  have hfirst : ∀ e ∈ rankLoop val none 0 (sortByValue val rev qs),
      e.2 = (sortVals rev (distinct (qs.map val))).idxOf (val e.1) := by
    refine rankLoop_first val (fun v => qs.filter fun q => val q = v) _ ?_ ?_
    · intro v hv
      rw [mem_sortVals] at hv
      obtain ⟨x, hx, hxv⟩ := List.mem_map.1 hv
      refine ⟨?_, ?_⟩
      · exact List.ne_nil_of_mem (List.mem_filter.2 ⟨hx, by simp [hxv]⟩)
      · intro y hy
        simpa using (List.mem_filter.1 hy).2
    · exact (sortVals_perm rev _).nodup_iff.2 (nodup_distinct _)
  have hk := rankLoop_keys val (sortByValue val rev qs) none 0
  have hqm : q ∈ (rankLoop val none 0 (sortByValue val rev qs)).map (·.1) := by
    rw [hk]; exact hp.mem_iff.2 hq
  obtain ⟨e, he, heq⟩ := List.mem_map.1 hqm
  unfold rankIn
  cases hf : (rankLoop val none 0 (sortByValue val rev qs)).find? (fun e => e.1.name = q.name) with
  | none =>
    have := List.find?_eq_none.1 hf e he
    simp [heq] at this
  | some e' =>
    have h1 := List.mem_of_find?_eq_some hf
    have h2 := List.find?_some hf
    simp at h2
    have h3 : e'.1 ∈ qs := by
      refine hp.mem_iff.1 ?_
      rw [← hk]
      exact List.mem_map_of_mem h1
    have h4 : e'.1 = q := by
      have inj : ∀ (l : List Queue), (l.map (·.name)).Nodup → ∀ a ∈ l, ∀ b ∈ l, a.name = b.name → a = b := by
        intro l
        induction l with
        | nil => intro _ a ha; simp at ha
        | cons x l ih =>
          intro hn a ha b hb hab
          have hn' := List.nodup_cons.1 hn
          rcases List.mem_cons.1 ha with rfl | ha' <;> rcases List.mem_cons.1 hb with rfl | hb'
          · rfl
          · exact absurd (List.mem_map.2 ⟨b, hb', hab.symm⟩) hn'.1
          · exact absurd (List.mem_map.2 ⟨a, ha', hab⟩) hn'.1
          · exact ih hn'.2 a ha' b hb' hab
      exact inj qs hn _ h3 _ hq h2
    rw [← h4]
    exact hfirst e' h1

theorem idxOf_lt_of_before (rev : Bool) (a b : Nat) (hab : before rev a b) : ∀ vs : List Nat,
    vs.Pairwise (before rev) → a ∈ vs → b ∈ vs → vs.idxOf a < vs.idxOf b
  | [], _, h, _ => by simp at h
  | v :: vs, hp, ha, hb => by
    have hp' := List.pairwise_cons.1 hp
    rw [idxOf_cons', idxOf_cons']
    have hne : a ≠ b := ((before_iff rev a b).1 hab).2
    by_cases hva : v = a
    · subst hva
      simp [hne]
    · have hvb : ¬ v = b := by
        intro h
        subst h
        have : a ∈ vs := by
          rcases List.mem_cons.1 ha with h | h
          · exact absurd h.symm hva
          · exact h
        have h1 := hp'.1 a this
        rw [before_iff] at h1 hab
        exact hne (le'_antisymm rev _ _ hab.1 h1.1)
      have ha' : a ∈ vs := by
        rcases List.mem_cons.1 ha with h | h
        · exact absurd h.symm hva
        · exact h
      have hb' : b ∈ vs := by
        rcases List.mem_cons.1 hb with h | h
        · exact absurd h.symm hvb
        · exact h
      have := idxOf_lt_of_before rev a b hab vs hp'.2 ha' hb'
      rw [if_neg hva, if_neg hvb]
      omega

end Verif.Sched.Lsf
