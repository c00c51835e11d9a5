import Verif.Server.StoreLemmas
/-!
# C83: a new job brings back the jobs that depend on its groups
-/
namespace Verif.Server.Store
open Verif.Util.Bolt

namespace Spec

/-- the stored job with that key: the live one, else the complete one, unless a new one is being added with that key -/
def stored (s : St) (new : List Key) (k : Key) : Option Rec :=
  match get k s.live with
  | some r => some r
  | none => if k ∈ new then none else get k s.complete

/-- the jobs that depend, by a lookup, on one of the groups, or on a group of such a job, and so on -/
inductive Reach (s : St) (new : List Key) (gs : List Key) : Key → Prop
  | base {g k : Key} : g ∈ gs → Has s.rdtk g k → stored s new k ≠ none → Reach s new gs k
  | step {k k' g : Key} {r : Rec} : Reach s new gs k → stored s new k = some r → g ∈ r.depGroups → g ≠ [] →
      Has s.rdtk g k' → stored s new k' ≠ none → Reach s new gs k'

end Spec

open Spec (stored Reach)

/-- the groups that are looked at -/
inductive Wanted (s : St) (new : List Key) (gs : List Key) : Key → Prop
  | base {g : Key} : g ∈ gs → Wanted s new gs g
  | step {k g : Key} {r : Rec} : Reach s new gs k → stored s new k = some r → g ∈ r.depGroups → g ≠ [] → Wanted s new gs g

theorem reach_of_wanted {s : St} {new gs : List Key} {g k : Key} (hw : Wanted s new gs g) (hh : Has s.rdtk g k)
    (hs : stored s new k ≠ none) : Reach s new gs k := by
  cases hw with
  | base h => exact .base h hh hs
  | step h1 h2 h3 h4 => exact .step h1 h2 h3 h4 hh hs

/-- invariant of the loops -/
structure Inv (s : St) (new gs known : List Key) (w : Walk) : Prop where
  sound : ∀ k ∈ w.done, stored s new k ≠ none → Reach s new gs k
  wanted : ∀ g ∈ known, Wanted s new gs g
  upd : ∀ j, j ∈ w.toUpdate ↔ j.key ∈ w.done ∧ get j.key s.live = some j.rec'
  que : ∀ j, j ∈ w.toQueue ↔ j.key ∈ w.done ∧ get j.key s.live = none ∧ j.key ∉ new ∧ get j.key s.complete = some j.rec'
  nodupU : (w.toUpdate.map (·.key)).Nodup
  nodupQ : (w.toQueue.map (·.key)).Nodup
  sortedF : Sorted w.fresh
  closed : ∀ k ∈ w.done, ∀ r, stored s new k = some r → ∀ g ∈ r.depGroups, g ≠ [] → g ∈ known ∨ (g ++ delimiter, g) ∈ w.fresh
  freshOk : ∀ e ∈ w.fresh, e.1 = e.2 ++ delimiter ∧ e.2 ∉ known ∧ Wanted s new gs e.2 ∧ e.2 ∈ storedGroups s

theorem sorted_addFresh (known gs : List Key) : ∀ b : Bucket Key, Sorted b → Sorted (addFresh known gs b) := by
  induction gs with
  | nil => intro b h; exact h
  | cons g gs ih =>
    intro b h
    unfold addFresh
    rw [List.foldl_cons]
    refine ih _ ?_
    split
    · exact sorted_put _ _ _ h
    · exact h

theorem mem_addFresh (known gs : List Key) : ∀ b : Bucket Key, Sorted b → (∀ e ∈ b, e.1 = e.2 ++ delimiter) → ∀ e,
    (e ∈ addFresh known gs b ↔ e ∈ b ∨ (e.2 ∈ gs ∧ e.2 ≠ [] ∧ e.2 ∉ known ∧ e.1 = e.2 ++ delimiter)) := by
  induction gs with
  | nil => intro b _ _ e; simp [addFresh]
  | cons g gs ih =>
    intro b h hb e
    have eq : addFresh known (g :: gs) b = addFresh known gs (if g ≠ [] ∧ g ∉ known then put (g ++ delimiter) g b else b) := rfl
    rw [eq]
    by_cases hg : g ≠ [] ∧ g ∉ known
    · rw [if_pos hg]
      have hb' : ∀ e ∈ put (g ++ delimiter) g b, e.1 = e.2 ++ delimiter := by
        intro e he
        rcases mem_put _ _ _ _ he with rfl | he
        · rfl
        · exact hb e he
      rw [ih _ (sorted_put _ _ _ h) hb', mem_put_iff _ _ _ h]
      constructor
      · rintro ((rfl | h1) | h1)
        · exact .inr ⟨by simp, hg.1, hg.2, rfl⟩
        · exact .inl h1.1
        · exact .inr ⟨List.mem_cons_of_mem _ h1.1, h1.2⟩
      · rintro (h1 | ⟨h1, h2, h3, h4⟩)
        · by_cases h5 : e.1 = g ++ delimiter
          · refine .inl (.inl ?_)
            have : e.2 = g := prefix_inj ((hb e h1).symm.trans h5)
            exact Prod.ext h5 this
          · exact .inl (.inr ⟨h1, h5⟩)
        · rcases List.mem_cons.1 h1 with h1 | h1
          · exact .inl (.inl (Prod.ext (by rw [h4, h1]) h1))
          · exact .inr ⟨h1, h2, h3, h4⟩
    · rw [if_neg hg, ih _ h hb]
      constructor
      · rintro (h1 | h1)
        · exact .inl h1
        · exact .inr ⟨List.mem_cons_of_mem _ h1.1, h1.2⟩
      · rintro (h1 | ⟨h1, h2, h3, h4⟩)
        · exact .inl h1
        · rcases List.mem_cons.1 h1 with h1 | h1
          · exact absurd ⟨h1 ▸ h2, h1 ▸ h3⟩ hg
          · exact .inr ⟨h1, h2, h3, h4⟩

theorem stored_live {s : St} {new : List Key} {k : Key} {r : Rec} (h : get k s.live = some r) : stored s new k = some r := by
  simp [stored, h]

theorem stored_complete {s : St} {new : List Key} {k : Key} (h : get k s.live = none) :
    stored s new k = if k ∈ new then none else get k s.complete := by
  simp [stored, h]

theorem mem_of_get {α : Type} (k : Key) (v : α) : ∀ b : Bucket α, get k b = some v → (k, v) ∈ b
  | [], h => by cases h
  | (k', v') :: b, h => by
    unfold Verif.Util.Bolt.get at h
    rw [List.lookup_cons] at h
    by_cases e : k = k'
    · subst e
      simp at h
      simp [h]
    · rw [beq_false e] at h
      exact List.mem_cons_of_mem _ (mem_of_get k v b h)

theorem group_stored {s : St} {new : List Key} {k : Key} {r : Rec} (h : stored s new k = some r) {g : Key} (hg : g ∈ r.depGroups) :
    g ∈ storedGroups s := by
  unfold storedGroups
  rw [List.mem_flatMap]
  refine ⟨(k, r), ?_, hg⟩
  rw [List.mem_append]
  cases hl : get k s.live with
  | some r' =>
    rw [stored_live hl] at h
    cases h
    exact .inl (mem_of_get _ _ _ hl)
  | none =>
    rw [stored_complete hl] at h
    split at h
    · cases h
    · exact .inr (mem_of_get _ _ _ h)

/-- the three cases of the body -/
theorem visit_cases (s : St) (new known : List Key) (w : Walk) (k : Key) :
    (k ∈ w.done ∧ visit s new known w k = w) ∨
    (k ∉ w.done ∧ ∃ r, get k s.live = some r ∧ visit s new known w k =
      { w with done := k :: w.done, fresh := addFresh known r.depGroups w.fresh, toUpdate := w.toUpdate ++ [⟨k, r⟩] }) ∨
    (k ∉ w.done ∧ get k s.live = none ∧ ∃ r, k ∉ new ∧ get k s.complete = some r ∧ visit s new known w k =
      { w with done := k :: w.done, fresh := addFresh known r.depGroups w.fresh, toQueue := w.toQueue ++ [⟨k, r⟩] }) ∨
    (k ∉ w.done ∧ stored s new k = none ∧ visit s new known w k = { w with done := k :: w.done }) := by
  unfold visit
  by_cases h : k ∈ w.done
  · exact .inl ⟨h, by rw [if_pos h]⟩
  · rw [if_neg h]
    rcases hl : get k s.live with _ | r
    · by_cases hn : k ∈ new
      · refine .inr (.inr (.inr ⟨h, by rw [stored_complete hl, if_pos hn], ?_⟩))
        rw [if_pos hn]
      · rcases hc : get k s.complete with _ | r
        · refine .inr (.inr (.inr ⟨h, by rw [stored_complete hl, if_neg hn, hc], ?_⟩))
          rw [if_neg hn]
        · refine .inr (.inr (.inl ⟨h, rfl, r, hn, rfl, ?_⟩))
          rw [if_neg hn]
    · exact .inr (.inl ⟨h, r, rfl, rfl⟩)

theorem mem_visit (s : St) (new known : List Key) (w : Walk) (k x : Key) :
    x ∈ (visit s new known w k).done ↔ x = k ∨ x ∈ w.done := by
  rcases visit_cases s new known w k with ⟨h, e⟩ | ⟨_, r, _, e⟩ | ⟨_, _, r, _, _, e⟩ | ⟨_, _, e⟩ <;> rw [e]
  · constructor
    · exact .inr
    · rintro (rfl | h')
      · exact h
      · exact h'
  all_goals simp

theorem inv_visit (s : St) (new gs known : List Key) (w : Walk) (hi : Inv s new gs known w) (g k : Key) (hg : g ∈ known)
    (hh : Has s.rdtk g k) : Inv s new gs known (visit s new known w k) := by
  have hreach : stored s new k ≠ none → Reach s new gs k := reach_of_wanted (hi.wanted g hg) hh
  have hsound : ∀ x ∈ (visit s new known w k).done, stored s new x ≠ none → Reach s new gs x := by
    intro x hx
    rcases (mem_visit s new known w k x).1 hx with rfl | hx
    · exact hreach
    · exact hi.sound x hx
  have hb : ∀ e ∈ w.fresh, e.1 = e.2 ++ delimiter := fun e he => (hi.freshOk e he).1
  rcases visit_cases s new known w k with ⟨h, e⟩ | ⟨h, r, hl, e⟩ | ⟨h, hl, r, hn, hc, e⟩ | ⟨h, hs, e⟩
  · rw [e]; exact hi
  · rw [e] at hsound ⊢
    have hst : stored s new k = some r := stored_live hl
    refine ⟨hsound, hi.wanted, ?_, ?_, ?_, hi.nodupQ, sorted_addFresh _ _ _ hi.sortedF, ?_, ?_⟩
    · intro j
      simp only [List.mem_append, List.mem_cons, List.not_mem_nil, or_false]
      rw [hi.upd j]
      constructor
      · rintro (⟨h1, h2⟩ | rfl)
        · exact ⟨.inr h1, h2⟩
        · exact ⟨.inl rfl, hl⟩
      · rintro ⟨h1 | h1, h2⟩
        · right
          obtain ⟨jk, jr⟩ := j
          simp only at h1 h2
          subst h1
          rw [hl] at h2
          cases h2; rfl
        · exact .inl ⟨h1, h2⟩
    · intro j
      rw [hi.que j]
      simp only [List.mem_cons]
      constructor
      · rintro ⟨h1, h2⟩; exact ⟨.inr h1, h2⟩
      · rintro ⟨h1 | h1, h2⟩
        · rw [h1, hl] at h2; cases h2.1
        · exact ⟨h1, h2⟩
    · simp only [List.map_append, List.map_cons, List.map_nil]
      rw [List.nodup_append]
      refine ⟨hi.nodupU, by simp, ?_⟩
      intro a ha b hb'
      simp only [List.mem_singleton] at hb'
      obtain ⟨j, hj, rfl⟩ := List.mem_map.1 ha
      rintro rfl
      exact h (hb' ▸ ((hi.upd j).1 hj).1)
    · intro x hx r' hr' g' hg' hne
      simp only [List.mem_cons] at hx
      rw [mem_addFresh known r.depGroups _ hi.sortedF hb]
      rcases hx with rfl | hx
      · rw [hst] at hr'; cases hr'
        by_cases hk : g' ∈ known
        · exact .inl hk
        · exact .inr (.inr ⟨hg', hne, hk, rfl⟩)
      · rcases hi.closed x hx r' hr' g' hg' hne with h1 | h1
        · exact .inl h1
        · exact .inr (.inl h1)
    · intro x hx
      rcases (mem_addFresh known r.depGroups _ hi.sortedF hb x).1 hx with h1 | ⟨h1, h2, h3, h4⟩
      · exact hi.freshOk x h1
      · exact ⟨h4, h3, .step (hreach (by rw [hst]; simp)) hst h1 h2, group_stored hst h1⟩
  · rw [e] at hsound ⊢
    have hst : stored s new k = some r := by rw [stored_complete hl, if_neg hn, hc]
    refine ⟨hsound, hi.wanted, ?_, ?_, hi.nodupU, ?_, sorted_addFresh _ _ _ hi.sortedF, ?_, ?_⟩
    · intro j
      rw [hi.upd j]
      simp only [List.mem_cons]
      constructor
      · rintro ⟨h1, h2⟩; exact ⟨.inr h1, h2⟩
      · rintro ⟨h1 | h1, h2⟩
        · rw [h1, hl] at h2; cases h2
        · exact ⟨h1, h2⟩
    · intro j
      simp only [List.mem_append, List.mem_cons, List.not_mem_nil, or_false]
      rw [hi.que j]
      constructor
      · rintro (⟨h1, h2⟩ | rfl)
        · exact ⟨.inr h1, h2⟩
        · exact ⟨.inl rfl, hl, hn, hc⟩
      · rintro ⟨h1 | h1, h2⟩
        · right
          obtain ⟨jk, jr⟩ := j
          simp only at h1 h2
          subst h1
          rw [hc] at h2
          cases h2.2.2; rfl
        · exact .inl ⟨h1, h2⟩
    · simp only [List.map_append, List.map_cons, List.map_nil]
      rw [List.nodup_append]
      refine ⟨hi.nodupQ, by simp, ?_⟩
      intro a ha b hb'
      simp only [List.mem_singleton] at hb'
      obtain ⟨j, hj, rfl⟩ := List.mem_map.1 ha
      rintro rfl
      exact h (hb' ▸ ((hi.que j).1 hj).1)
    · intro x hx r' hr' g' hg' hne
      simp only [List.mem_cons] at hx
      rw [mem_addFresh known r.depGroups _ hi.sortedF hb]
      rcases hx with rfl | hx
      · rw [hst] at hr'; cases hr'
        by_cases hk : g' ∈ known
        · exact .inl hk
        · exact .inr (.inr ⟨hg', hne, hk, rfl⟩)
      · rcases hi.closed x hx r' hr' g' hg' hne with h1 | h1
        · exact .inl h1
        · exact .inr (.inl h1)
    · intro x hx
      rcases (mem_addFresh known r.depGroups _ hi.sortedF hb x).1 hx with h1 | ⟨h1, h2, h3, h4⟩
      · exact hi.freshOk x h1
      · exact ⟨h4, h3, .step (hreach (by rw [hst]; simp)) hst h1 h2, group_stored hst h1⟩
  · rw [e] at hsound ⊢
    refine ⟨hsound, hi.wanted, ?_, ?_, hi.nodupU, hi.nodupQ, hi.sortedF, ?_, hi.freshOk⟩
    · intro j
      rw [hi.upd j]
      simp only [List.mem_cons]
      constructor
      · rintro ⟨h1, h2⟩; exact ⟨.inr h1, h2⟩
      · rintro ⟨h1 | h1, h2⟩
        · rw [h1] at h2; rw [stored_live h2] at hs; cases hs
        · exact ⟨h1, h2⟩
    · intro j
      rw [hi.que j]
      simp only [List.mem_cons]
      constructor
      · rintro ⟨h1, h2⟩; exact ⟨.inr h1, h2⟩
      · rintro ⟨h1 | h1, h2⟩
        · rw [h1] at h2
          rw [stored_complete h2.1, if_neg h2.2.1, h2.2.2] at hs
          cases hs
        · exact ⟨h1, h2⟩
    · intro x hx r' hr' g' hg' hne
      simp only [List.mem_cons] at hx
      rcases hx with rfl | hx
      · rw [hs] at hr'; cases hr'
      · exact hi.closed x hx r' hr' g' hg' hne

theorem mem_visits (s : St) (new known : List Key) (f : Key × Unit → Key) (l : List (Key × Unit)) : ∀ (w : Walk) (x : Key),
    x ∈ (l.foldl (fun w e => visit s new known w (f e)) w).done ↔ x ∈ w.done ∨ ∃ e ∈ l, f e = x := by
  induction l with
  | nil => intro w x; simp
  | cons e l ih =>
    intro w x
    rw [List.foldl_cons, ih, mem_visit]
    simp only [List.mem_cons, exists_eq_or_imp]
    constructor
    · rintro ((h | h) | h)
      · exact .inr (.inl h.symm)
      · exact .inl h
      · exact .inr (.inr h)
    · rintro (h | h | h)
      · exact .inl (.inr h)
      · exact .inl (.inl h.symm)
      · exact .inr h

theorem inv_visits (s : St) (new gs known : List Key) (f : Key × Unit → Key) (g : Key) (hg : g ∈ known)
    (l : List (Key × Unit)) (hl : ∀ e ∈ l, Has s.rdtk g (f e)) : ∀ w, Inv s new gs known w →
    Inv s new gs known (l.foldl (fun w e => visit s new known w (f e)) w) := by
  induction l with
  | nil => intro w h; exact h
  | cons e l ih =>
    intro w h
    rw [List.foldl_cons]
    exact ih (fun x hx => hl x (List.mem_cons_of_mem _ hx)) _ (inv_visit s new gs known w h g _ hg (hl e (by simp)))

theorem round_spec (s : St) (hok : Ok s.rdtk) (new gs known : List Key) (ps : Bucket Key) : (∀ p ∈ ps, p.1 = p.2 ++ delimiter ∧ p.2 ∈ known) →
    ∀ w, Inv s new gs known w → Inv s new gs known (round s new known ps w) ∧
      ∀ k, (k ∈ (round s new known ps w).done ↔ k ∈ w.done ∨ ∃ p ∈ ps, Has s.rdtk p.2 k) := by
  induction ps with
  | nil => intro _ w h; exact ⟨h, fun k => by simp [round]⟩
  | cons p ps ih =>
    intro hp w h
    obtain ⟨hp1, hp2⟩ := hp p (by simp)
    have hkeys : ∀ k, (∃ e ∈ scan p.1 s.rdtk, e.1.drop p.1.length = k) ↔ Has s.rdtk p.2 k := by
      intro k
      rw [hp1]
      exact mem_scan_keys s.rdtk hok p.2 k
    have h1 := inv_visits s new gs known (fun e => e.1.drop p.1.length) p.2 hp2 (scan p.1 s.rdtk)
      (fun e he => (hkeys _).1 ⟨e, he, rfl⟩) w h
    obtain ⟨h2, h3⟩ := ih (fun x hx => hp x (List.mem_cons_of_mem _ hx)) _ h1
    refine ⟨h2, fun k => ?_⟩
    have e : round s new known (p :: ps) w = round s new known ps
        ((scan p.1 s.rdtk).foldl (fun w e => visit s new known w (e.1.drop p.1.length)) w) := rfl
    rw [e, h3, mem_visits s new known (fun e => e.1.drop p.1.length), hkeys]
    simp only [List.mem_cons, exists_eq_or_imp, or_assoc]

/-- what holds between rounds: groups that were looked up entirely -/
structure Between (s : St) (new gs known : List Key) (ps : Bucket Key) (w : Walk) : Prop where
  sound : ∀ k ∈ w.done, stored s new k ≠ none → Reach s new gs k
  wanted : ∀ g ∈ known, Wanted s new gs g
  upd : ∀ j, j ∈ w.toUpdate ↔ j.key ∈ w.done ∧ get j.key s.live = some j.rec'
  que : ∀ j, j ∈ w.toQueue ↔ j.key ∈ w.done ∧ get j.key s.live = none ∧ j.key ∉ new ∧ get j.key s.complete = some j.rec'
  nodupU : (w.toUpdate.map (·.key)).Nodup
  nodupQ : (w.toQueue.map (·.key)).Nodup
  closed : ∀ k ∈ w.done, ∀ r, stored s new k = some r → ∀ g ∈ r.depGroups, g ≠ [] → g ∈ known
  start : ∀ g ∈ gs, g ∈ known
  prefixes : ∀ p ∈ ps, p.1 = p.2 ++ delimiter ∧ p.2 ∈ known
  rest : ∀ g ∈ known, (∃ p ∈ ps, p.2 = g) ∨ ∀ k, Has s.rdtk g k → k ∈ w.done

theorem between_inv {s : St} {new gs known : List Key} {ps : Bucket Key} {w : Walk} (h : Between s new gs known ps w) :
    Inv s new gs known { w with fresh := [] } where
  sound := h.sound
  wanted := h.wanted
  upd := h.upd
  que := h.que
  nodupU := h.nodupU
  nodupQ := h.nodupQ
  sortedF := by simp [Sorted]
  closed := fun k hk r hr g hg hne => .inl (h.closed k hk r hr g hg hne)
  freshOk := by simp

/-- the end of the walk -/
structure Final (s : St) (new gs : List Key) (w : Walk) : Prop where
  upd : ∀ j, j ∈ w.toUpdate ↔ Reach s new gs j.key ∧ get j.key s.live = some j.rec'
  que : ∀ j, j ∈ w.toQueue ↔ Reach s new gs j.key ∧ get j.key s.live = none ∧ j.key ∉ new ∧ get j.key s.complete = some j.rec'
  nodupU : (w.toUpdate.map (·.key)).Nodup
  nodupQ : (w.toQueue.map (·.key)).Nodup

theorem reach_stored {s : St} {new gs : List Key} {k : Key} (h : Reach s new gs k) : stored s new k ≠ none := by
  cases h <;> assumption

theorem length_filter_lt {p q : Key → Bool} (l : List Key) (h : ∀ x ∈ l, q x = true → p x = true) (y : Key) (hy : y ∈ l)
    (hp : p y = true) (hq : q y = false) : (l.filter q).length < (l.filter p).length := by
  induction l with
  | nil => cases hy
  | cons x l ih =>
    have hle : (l.filter q).length ≤ (l.filter p).length := by
      have : ∀ m : List Key, (∀ x ∈ m, q x = true → p x = true) → (m.filter q).length ≤ (m.filter p).length := by
        intro m
        induction m with
        | nil => intro _; exact Nat.le_refl _
        | cons z m ihm =>
          intro hm
          have := ihm fun a ha => hm a (List.mem_cons_of_mem _ ha)
          have hz := hm z (by simp)
          simp only [List.filter_cons]
          cases hqz : q z
          · simp only [Bool.false_eq_true, if_false]
            split
            · simp only [List.length_cons]; omega
            · exact this
          · simp only [hz hqz, if_true, List.length_cons]; omega
      exact this l fun a ha => h a (List.mem_cons_of_mem _ ha)
    simp only [List.filter_cons]
    rcases List.mem_cons.1 hy with rfl | hy
    · simp only [hp, hq, if_true, Bool.false_eq_true, if_false, List.length_cons]; omega
    · have := ih (fun a ha => h a (List.mem_cons_of_mem _ ha)) hy
      have hx := h x (by simp)
      cases hqx : q x
      · simp only [Bool.false_eq_true, if_false]
        split
        · simp only [List.length_cons]; omega
        · exact this
      · simp only [hx hqx, if_true, List.length_cons]; omega

theorem walk_spec (s : St) (hok : Ok s.rdtk) (new gs : List Key) : ∀ (n : Nat) (known : List Key) (ps : Bucket Key) (w : Walk),
    Between s new gs known ps w → ((storedGroups s).filter fun g => decide (g ∉ known)).length < n →
    ∃ w', walk s new n known ps w = some w' ∧ Final s new gs w' := by
  intro n
  induction n with
  | zero => intro _ _ _ _ h; omega
  | succ n ih =>
    intro known ps w hb hn
    obtain ⟨h1, h2⟩ := round_spec s hok new gs known ps hb.prefixes _ (between_inv hb)
    unfold walk
    simp only
    generalize hw' : round s new known ps { w with fresh := [] } = w' at h1 h2
    have hall : ∀ g ∈ known, ∀ k, Has s.rdtk g k → k ∈ w'.done := by
      intro g hg k hk
      rw [h2]
      rcases hb.rest g hg with ⟨p, hp, rfl⟩ | h3
      · exact .inr ⟨p, hp, hk⟩
      · exact .inl (h3 k hk)
    by_cases hf : w'.fresh = []
    · rw [if_pos hf]
      refine ⟨w', rfl, ?_⟩
      have hdone : ∀ k, Reach s new gs k → k ∈ w'.done := by
        intro k hk
        induction hk with
        | base hg hh _ => exact hall _ (hb.start _ hg) _ hh
        | step _ hs hg hne hh _ ihk =>
          rcases h1.closed _ ihk _ hs _ hg hne with h3 | h3
          · exact hall _ h3 _ hh
          · rw [hf] at h3; cases h3
      refine ⟨?_, ?_, h1.nodupU, h1.nodupQ⟩
      · intro j
        rw [h1.upd j]
        constructor
        · rintro ⟨h3, h4⟩
          exact ⟨h1.sound _ h3 (by rw [stored_live h4]; simp), h4⟩
        · rintro ⟨h3, h4⟩
          exact ⟨hdone _ h3, h4⟩
      · intro j
        rw [h1.que j]
        constructor
        · rintro ⟨h3, h4, h5, h6⟩
          exact ⟨h1.sound _ h3 (by rw [stored_complete h4, if_neg h5, h6]; simp), h4, h5, h6⟩
        · rintro ⟨h3, h4⟩
          exact ⟨hdone _ h3, h4⟩
    · rw [if_neg hf]
      apply ih
      · refine ⟨h1.sound, ?_, h1.upd, h1.que, h1.nodupU, h1.nodupQ, ?_, ?_, ?_, ?_⟩
        · intro g hg
          rcases List.mem_append.1 hg with hg | hg
          · exact h1.wanted g hg
          · obtain ⟨e, he, rfl⟩ := List.mem_map.1 hg
            exact (h1.freshOk e he).2.2.1
        · intro k hk r hr g hg hne
          rcases h1.closed k hk r hr g hg hne with h3 | h3
          · exact List.mem_append_left _ h3
          · exact List.mem_append_right _ (List.mem_map.2 ⟨_, h3, rfl⟩)
        · exact fun g hg => List.mem_append_left _ (hb.start g hg)
        · intro p hp
          exact ⟨(h1.freshOk p hp).1, List.mem_append_right _ (List.mem_map.2 ⟨p, hp, rfl⟩)⟩
        · intro g hg
          rcases List.mem_append.1 hg with hg | hg
          · exact .inr (hall g hg)
          · obtain ⟨e, he, rfl⟩ := List.mem_map.1 hg
            exact .inl ⟨e, he, rfl⟩
      · obtain ⟨e, l, hel⟩ := List.exists_cons_of_ne_nil hf
        have he : e ∈ w'.fresh := by rw [hel]; simp
        obtain ⟨_, h4, _, h5⟩ := h1.freshOk e he
        have := length_filter_lt (p := fun g => decide (g ∉ known))
          (q := fun g => decide (g ∉ known ++ w'.fresh.map (·.2))) (storedGroups s)
          (by intro x _ hx; simp only [List.mem_append, not_or, decide_eq_true_eq] at hx ⊢; exact hx.1) e.2 h5
          (by simpa using h4) (by simp only [decide_eq_false_iff_not, Decidable.not_not]; exact List.mem_append_right _ (List.mem_map.2 ⟨e, he, rfl⟩))
        omega

theorem mem_startPrefixes (gs : List Key) : ∀ e, e ∈ startPrefixes gs ↔ e.2 ∈ gs ∧ e.1 = e.2 ++ delimiter := by
  have : ∀ (gs : List Key) (b : Bucket Key), Sorted b → (∀ e ∈ b, e.1 = e.2 ++ delimiter) →
      ∀ e, e ∈ gs.foldl (fun b g => put (g ++ delimiter) g b) b ↔ e ∈ b ∨ (e.2 ∈ gs ∧ e.1 = e.2 ++ delimiter) := by
    intro gs
    induction gs with
    | nil => intro b _ _ e; simp
    | cons g gs ih =>
      intro b h hb e
      rw [List.foldl_cons, ih _ (sorted_put _ _ _ h) (by
        intro x hx
        rcases mem_put _ _ _ _ hx with rfl | hx
        · rfl
        · exact hb x hx), mem_put_iff _ _ _ h]
      constructor
      · rintro ((rfl | h1) | h1)
        · exact .inr ⟨by simp, rfl⟩
        · exact .inl h1.1
        · exact .inr ⟨List.mem_cons_of_mem _ h1.1, h1.2⟩
      · rintro (h1 | ⟨h1, h2⟩)
        · by_cases h5 : e.1 = g ++ delimiter
          · exact .inl (.inl (Prod.ext h5 (prefix_inj ((hb e h1).symm.trans h5))))
          · exact .inl (.inr ⟨h1, h5⟩)
        · rcases List.mem_cons.1 h1 with h1 | h1
          · exact .inl (.inl (Prod.ext (by rw [h2, h1]) h1))
          · exact .inr ⟨h1, h2⟩
  intro e
  unfold startPrefixes
  rw [this gs [] (by simp [Sorted]) (by simp)]
  simp

theorem between_start (s : St) (new gs : List Key) : Between s new gs gs (startPrefixes gs) {} where
  sound := by simp
  wanted := fun g hg => .base hg
  upd := by simp
  que := by simp
  nodupU := by simp
  nodupQ := by simp
  closed := by simp
  start := fun g hg => hg
  prefixes := fun p hp => by
    have := (mem_startPrefixes gs p).1 hp
    exact ⟨this.2, this.1⟩
  rest := fun g hg => .inl ⟨(g ++ delimiter, g), (mem_startPrefixes gs _).2 ⟨hg, rfl⟩, rfl⟩

/-- the loop ends within the number of rounds that the model gives it -/
theorem walk_ends (s : St) (hok : Ok s.rdtk) (gs new : List Key) :
    ∃ w, walk s new ((storedGroups s).length + 1) gs (startPrefixes gs) {} = some w ∧ Final s new gs w :=
  walk_spec s hok new gs _ _ _ _ (between_start s new gs) (by have := List.length_filter_le (fun g => decide (g ∉ gs)) (storedGroups s); omega)

theorem retrieve_final (s : St) (hok : Ok s.rdtk) (gs new : List Key) : Final s new gs (retrieveDependentJobs s gs new) := by
  obtain ⟨w, h1, h2⟩ := walk_ends s hok gs new
  unfold retrieveDependentJobs
  rw [h1]
  exact h2

end Verif.Server.Store
