/-
Helpers for C127 (WaitsProps): calm requests keep `Inv`.
-/
import Verif.Server.WaitsInv

namespace Verif.Server.Waits

/-- a new state of an item that waits for nothing, or of one that goes on waiting -/
theorem inv_set {s : S} (h : Inv s) {k it st} (hk : s.q k = some it) (hr : st = .ready ∨ st = .run → it.rem = []) :
    Inv { s with q := fun x => if x = k then some { it with st := st } else s.q x } := by
  obtain ⟨⟨i1, i2, i3⟩, h2, h3, h4, h5, h6, h7, h8, h9⟩ := h
  constructor
  · constructor <;> simp only <;> grind
  · intro x; simp only; by_cases hx : x = k <;> grind
  · exact h3
  · exact h4
  · exact h5
  · exact h6
  · exact h7
  · intro x it' J hx; simp only at hx ⊢; by_cases hxk : x = k <;> grind
  · intro x it' hx p hp
    simp only at hx ⊢
    have : (s.q p).isSome := by by_cases hxk : x = k <;> grind
    by_cases hpk : p = k <;> grind

theorem inv_qset {s s' : S} {k a b} (h : Inv s) (ha : a = .ready ∨ a = .run) (hs : qSet s k a b = some s') : Inv s' := by
  unfold qSet at hs
  split at hs
  · rename_i it hk
    split at hs
    · rename_i e
      cases hs
      exact inv_set h hk (fun _ => h.qi.idle k it hk (by rw [e]; exact ha))
    · cases hs
  · cases hs

theorem inv_kick {s s' : S} {k} (h : Inv s) (hs : qKick s k = some s') : Inv s' := by
  unfold qKick at hs
  split at hs
  · rename_i it hk
    split at hs
    · cases hs
      refine inv_set h hk ?_
      intro hr
      split at hr
      · rcases hr with hr | hr <;> cases hr
      · rename_i hn
        cases hl : it.rem with
        | nil => rfl
        | cons p l =>
          exfalso
          apply hn
          have hp : p ∈ it.rem := by simp [hl]
          exact List.any_eq_true.2 ⟨p, h.qi.sub k it hk p hp, h.remq k it hk p hp⟩
    · cases hs
  · cases hs

/-- a job goes, from the queue and from the live bucket -/
theorem inv_gone {s : S} (h : Inv s) {k} (hk : (s.q k).isSome) (comp : Key → Option Job)
    (hcomp : ∀ x j, comp x = some j → s.comp x = some j ∨ s.live x = some j) :
    Inv (qRemove { s with live := fun x => if x = k then none else s.live x, comp := comp } k) := by
  generalize hs1 : ({ s with live := fun x => if x = k then none else s.live x, comp := comp } : S) = s1
  have l1 : s1.live = fun x => if x = k then none else s.live x := by rw [← hs1]
  have c1 : s1.comp = comp := by rw [← hs1]
  have q1 : s1.q = s.q := by rw [← hs1]
  have k1 : s1.kids = s.kids := by rw [← hs1]
  have d1 : s1.dtk = s.dtk ∧ s1.rdtk = s.rdtk ∧ s1.known = s.known := by rw [← hs1]; simp
  obtain ⟨e1, e2, e3, e4, e5⟩ := qRemove_db s1 k
  have hsome : ∀ x, ((qRemove s1 k).q x).isSome ↔ x ≠ k ∧ (s.q x).isSome := by
    intro x
    constructor
    · intro hx
      obtain ⟨it, hit⟩ := Option.isSome_iff_exists.1 hx
      obtain ⟨h1, a, h2, _⟩ := qRemove_some (by rw [q1]; exact hk) hit
      rw [q1] at h2
      exact ⟨h1, by simp [h2]⟩
    · rintro ⟨h1, h2⟩
      exact qRemove_isSome (by rw [q1]; exact h2) h1
  have hlive : ∀ x j, (if x = k then none else s.live x) = some j ∨ comp x = some j → s.live x = some j ∨ s.comp x = some j := by
    intro x j hx
    rcases hx with hx | hx
    · split at hx
      · cases hx
      · exact .inl hx
    · exact (hcomp x j hx).symm
  constructor
  · exact qinv_remove s1 k (by rw [q1, k1]; exact h.qi)
  · intro x
    rw [hsome, e1, l1]
    have := h.sync x
    by_cases hx : x = k <;> simp [hx] <;> grind
  · intro x hx
    rw [e1, l1] at hx
    rw [e5, d1.2.2]
    apply h.known
    by_cases hxk : x = k <;> simp_all
  · intro x j hx
    rw [e1, l1] at hx
    simp only at hx
    split at hx
    · cases hx
    · exact h.keyL x j hx
  · intro x j hx
    rw [e2, c1] at hx
    rcases hcomp x j hx with h1 | h1
    · exact h.keyC x j h1
    · exact h.keyL x j h1
  · intro x j hx g hg
    rw [e1, e2, l1, c1] at hx
    rw [e3, d1.1]
    exact h.dtk x j (hlive x j hx) g hg
  · intro x j hx g hg
    rw [e1, e2, l1, c1] at hx
    rw [e4, d1.2.1]
    exact h.rdtk x j (hlive x j hx) g hg
  · intro x it J hx hJ j A hA hon
    rw [e1, l1] at hJ hA
    simp only at hJ hA
    obtain ⟨h1, a, h2, h3⟩ := qRemove_some (by rw [q1]; exact hk) hx
    rw [q1] at h2
    have hl := left_rem h3 (by rw [k1]; exact h.qi.kid x a h2)
    rw [if_neg h1] at hJ
    split at hA
    · cases hA
    · rename_i hjk
      exact (hl.2.1 j).2 ⟨h.wait x a J h2 hJ j A hA hon, hjk⟩
  · intro x it hx p hp
    obtain ⟨h1, a, h2, h3⟩ := qRemove_some (by rw [q1]; exact hk) hx
    rw [q1] at h2
    have hl := left_rem h3 (by rw [k1]; exact h.qi.kid x a h2)
    have := (hl.2.1 p).1 hp
    exact (hsome p).2 ⟨this.2, h.remq x a h2 p this.1⟩

/-! ## changes of a job -/

/-- the lookups after a change of the record of the live job `k` -/
theorem modDb_db {s : S} (h : DbInv s) {k J} (hk : (s.live k).isSome) (hc : s.comp k = none) (hJ : J.key = k) :
    DbInv (modDb s k J) := by
  constructor
  · intro x hx
    simp only [modDb] at hx ⊢
    by_cases hxk : x = k
    · rw [hxk]; exact h.known k hk
    · rw [if_neg hxk] at hx; exact h.known x hx
  · intro x j hx
    simp only [modDb] at hx
    by_cases hxk : x = k
    · rw [if_pos hxk] at hx; cases hx; rw [hJ, hxk]
    · rw [if_neg hxk] at hx; exact h.keyL x j hx
  · exact h.keyC
  · intro x j hx g hg
    simp only [modDb, List.mem_append, List.mem_filter, List.mem_map] at hx ⊢
    by_cases hxk : x = k
    · subst hxk
      simp only [if_true, hc, reduceCtorEq, or_false] at hx
      cases hx
      exact .inr ⟨g, hg, rfl⟩
    · rw [if_neg hxk] at hx
      exact .inl ⟨h.dtk x j hx g hg, by simpa using hxk⟩
  · intro x j hx g hg
    simp only [modDb, List.mem_append, List.mem_filter, List.mem_map, mem_groupDeps] at hx ⊢
    by_cases hxk : x = k
    · subst hxk
      simp only [if_true, hc, reduceCtorEq, or_false] at hx
      cases hx
      exact .inr ⟨g, hg, rfl⟩
    · rw [if_neg hxk] at hx
      exact .inl ⟨h.rdtk x j hx g hg, by simpa using hxk⟩

theorem modDb_isSome {s : S} {k J} (hk : (s.live k).isSome) (x) : ((modDb s k J).live x).isSome ↔ (s.live x).isSome := by
  simp only [modDb]
  by_cases hxk : x = k
  · subst hxk; simp [hk]
  · simp [hxk]

theorem inv_modDeps {s : S} (h : Inv s) {k it J ds} (hq : s.q k = some it) (hl : s.live k = some J) (hc : s.comp k = none) :
    Inv (qUpdate (modDb s k { J with deps := ds }) k (incomplete (modDb s k { J with deps := ds }) ds)) := by
  have hdb := modDb_db (J := { J with deps := ds }) h.db (by simp [hl]) hc (h.keyL k J hl)
  have hsome := modDb_isSome (s := s) (k := k) (J := { J with deps := ds }) (by simp [hl])
  have hlive : ∀ x, (modDb s k { J with deps := ds }).live x = if x = k then some { J with deps := ds } else s.live x := fun _ => rfl
  have q1 : (modDb s k { J with deps := ds }).q = s.q := rfl
  have k1 : (modDb s k { J with deps := ds }).kids = s.kids := rfl
  generalize modDb s k { J with deps := ds } = s1 at *
  obtain ⟨e1, e2, e3, e4, e5⟩ := qUpdate_db s1 k (incomplete s1 ds)
  have eq := qUpdate_q s1 k (incomplete s1 ds)
  have ei := qinv_update s1 k (incomplete s1 ds) (by rw [q1, k1]; exact h.qi)
  generalize qUpdate s1 k (incomplete s1 ds) = s2 at *
  have hqs : ∀ x, (s2.q x).isSome ↔ (s.q x).isSome := by
    intro x
    rw [eq, q1]
    by_cases hx : x = k
    · subst hx; simp
    · simp [hx]
  constructor
  · exact ei
  · intro x; rw [e1, hsome, hqs]; exact h.sync x
  · rw [e1, e5]; exact hdb.known
  · rw [e1]; exact hdb.keyL
  · rw [e2]; exact hdb.keyC
  · rw [e1, e2, e3]; exact hdb.dtk
  · rw [e1, e2, e4]; exact hdb.rdtk
  · rw [e1]
    intro x it' J' hx hJ' j A hA hon
    rw [eq] at hx
    by_cases hxk : x = k
    · rw [if_pos hxk] at hx
      simp only [Option.map_eq_some_iff] at hx
      obtain ⟨a, _, rfl⟩ := hx
      rw [updItem_rem]
      rw [hlive, if_pos hxk] at hJ'
      cases hJ'
      exact on_incomplete hdb hA hon
    · rw [if_neg hxk, q1] at hx
      rw [hlive, if_neg hxk] at hJ'
      rw [hlive] at hA
      by_cases hjk : j = k
      · rw [if_pos hjk] at hA
        cases hA
        subst hjk
        exact h.wait x it' J' hx hJ' j J hl hon
      · rw [if_neg hjk] at hA
        exact h.wait x it' J' hx hJ' j A hA hon
  · intro x it' hx p hp
    rw [hqs]
    rw [eq] at hx
    by_cases hxk : x = k
    · rw [if_pos hxk] at hx
      simp only [Option.map_eq_some_iff] at hx
      obtain ⟨a, _, rfl⟩ := hx
      rw [updItem_rem] at hp
      rw [← h.sync, ← hsome]
      exact incomplete_live hp
    · rw [if_neg hxk, q1] at hx
      exact h.remq x it' hx p hp

theorem inv_modGroups {s : S} (h : Inv s) {k J gs} (hl : s.live k = some J) (hc : s.comp k = none)
    (hg : ∀ g ∈ gs, g ∈ J.groups ∨ ∀ x ∈ s.known, ¬ MentionsG s x g) :
    Inv (modDb s k { J with groups := gs }) := by
  have hdb := modDb_db (J := { J with groups := gs }) h.db (by simp [hl]) hc (h.keyL k J hl)
  have hsome := modDb_isSome (s := s) (k := k) (J := { J with groups := gs }) (by simp [hl])
  have hlive : ∀ x, (modDb s k { J with groups := gs }).live x = if x = k then some { J with groups := gs } else s.live x := fun _ => rfl
  have q1 : (modDb s k { J with groups := gs }).q = s.q := rfl
  have k1 : (modDb s k { J with groups := gs }).kids = s.kids := rfl
  generalize modDb s k { J with groups := gs } = s1 at *
  constructor
  · rw [q1, k1]; exact h.qi
  · intro x; rw [hsome, q1]; exact h.sync x
  · exact hdb.known
  · exact hdb.keyL
  · exact hdb.keyC
  · exact hdb.dtk
  · exact hdb.rdtk
  · intro x it J' hx hJ' j A hA hon
    rw [q1] at hx
    rw [hlive] at hJ' hA
    have hx2 : ∃ J2, s.live x = some J2 ∧ J2.deps = J'.deps := by
      by_cases hxk : x = k
      · rw [if_pos hxk] at hJ'; cases hJ'; exact ⟨J, by rw [hxk]; exact hl, rfl⟩
      · rw [if_neg hxk] at hJ'; exact ⟨J', hJ', rfl⟩
    obtain ⟨J2, hJ2, hd⟩ := hx2
    have hon2 : On J2 j A := by unfold On at *; rw [hd]; exact hon
    by_cases hjk : j = k
    · rw [if_pos hjk] at hA
      cases hA
      subst hjk
      refine h.wait x it J2 hx hJ2 j J hl ?_
      rcases hon2 with h1 | ⟨g, h1, h2⟩
      · exact .inl h1
      · rcases hg g h1 with h3 | h3
        · exact .inr ⟨g, h3, h2⟩
        · exfalso
          refine h3 x (h.known x (by simp [hJ2])) ?_
          simp only [MentionsG, hJ2]; exact h2
    · rw [if_neg hjk] at hA
      exact h.wait x it J2 hx hJ2 j A hA hon2
  · intro x it hx p hp
    rw [q1] at hx ⊢
    exact h.remq x it hx p hp

theorem inv_rename {s : S} (h : Inv s) {k k' J} (hl : s.live k = some J) (hkk : k' ≠ k)
    (hq' : s.q k' = none) (hl' : s.live k' = none) (hcomp' : s.comp k' = none) (hc : s.comp k = none)
    (hm : ∀ x ∈ s.known, ¬ Mentions s x k ∧ ¬ Mentions s x k') : Inv (doRename s k k' J) := by
  have hlive : ∀ x, (doRename s k k' J).live x = if x = k' then some { J with key := k' } else if x = k then none else s.live x := fun _ => rfl
  have hq : ∀ x, (doRename s k k' J).q x = if x = k ∧ x ≠ k' then none
      else (s.q (unren k k' x)).map fun it => ⟨it.st, it.deps.map (ren k k'), it.rem.map (ren k k')⟩ := fun _ => rfl
  -- who is called x now
  have who : ∀ x it, (doRename s k k' J).q x = some it → x ≠ k ∧ ∃ it0, s.q (unren k k' x) = some it0 ∧
      it.st = it0.st ∧ it.deps = it0.deps.map (ren k k') ∧ it.rem = it0.rem.map (ren k k') := by
    intro x it hx
    rw [hq] at hx
    by_cases hxk : x = k
    · rw [if_pos ⟨hxk, by rw [hxk]; exact hkk.symm⟩] at hx; cases hx
    · rw [if_neg (by grind)] at hx
      simp only [Option.map_eq_some_iff] at hx
      obtain ⟨a, h1, rfl⟩ := hx
      exact ⟨hxk, a, h1, rfl, rfl, rfl⟩
  have lwho : ∀ x A, (doRename s k k' J).live x = some A → x ≠ k ∧ ∃ A0, s.live (unren k k' x) = some A0 ∧
      A.groups = A0.groups ∧ A.deps = A0.deps := by
    intro x A hx
    rw [hlive] at hx
    by_cases h1 : x = k'
    · rw [if_pos h1] at hx; cases hx
      exact ⟨by rw [h1]; exact hkk, J, by simp [unren, h1, hl], rfl, rfl⟩
    · rw [if_neg h1] at hx
      by_cases h2 : x = k
      · rw [if_pos h2] at hx; cases hx
      · rw [if_neg h2] at hx
        exact ⟨h2, A, by simp [unren, h1, hx], rfl, rfl⟩
  have hsomeq : ∀ x, ((doRename s k k' J).q x).isSome ↔ x ≠ k ∧ (s.q (unren k k' x)).isSome := by
    intro x; rw [hq]; by_cases hxk : x = k
    · simp [hxk, hkk.symm]
    · simp [hxk]
  have hsomel : ∀ x, ((doRename s k k' J).live x).isSome ↔ x ≠ k ∧ (s.live (unren k k' x)).isSome := by
    intro x; rw [hlive]; unfold unren
    by_cases h1 : x = k'
    · subst h1; simp [hkk, hl]
    · by_cases h2 : x = k
      · simp [h2, hkk.symm]
      · simp [h1, h2]
  have runr : ∀ x, x ≠ k → ren k k' (unren k k' x) = x := by intro x hx; unfold ren unren; grind
  have urn : ∀ x, x ≠ k' → unren k k' (ren k k' x) = x := by intro x hx; unfold ren unren; grind
  have rne : ∀ x, ren k k' x ≠ k := by intro x; unfold ren; grind
  constructor
  · constructor
    · intro x it hx p hp
      obtain ⟨_, a, h1, h2, h3, h4⟩ := who x it hx
      rw [h4] at hp; rw [h3]
      obtain ⟨r, hr, rfl⟩ := List.mem_map.1 hp
      exact List.mem_map.2 ⟨r, h.qi.sub _ a h1 r hr, rfl⟩
    · intro x it hx p hp
      obtain ⟨h0, a, h1, h2, h3, h4⟩ := who x it hx
      rw [h4] at hp
      obtain ⟨r, hr, rfl⟩ := List.mem_map.1 hp
      have := h.qi.kid _ a h1 r hr
      simp only [doRename, List.mem_map]
      exact ⟨_, this, by rw [runr x h0]⟩
    · intro x it hx hst
      obtain ⟨h0, a, h1, h2, h3, h4⟩ := who x it hx
      rw [h4, h.qi.idle _ a h1 (by rw [← h2]; exact hst)]; rfl
  · intro x; rw [hsomeq, hsomel, h.sync]
  · intro x hx
    simp only [doRename, List.mem_append, List.mem_singleton]
    rw [hsomel] at hx
    by_cases h1 : x = k'
    · exact .inr h1
    · left; apply h.known; simpa [unren, h1] using hx.2
  · intro x A hx
    rw [hlive] at hx
    by_cases h1 : x = k'
    · rw [if_pos h1] at hx; cases hx; exact h1.symm
    · rw [if_neg h1] at hx
      by_cases h2 : x = k
      · rw [if_pos h2] at hx; cases hx
      · rw [if_neg h2] at hx; exact h.keyL x A hx
  · exact h.keyC
  · intro x A hx g hg
    have hx' : (x = k' ∧ A.groups = J.groups) ∨ (x ≠ k ∧ (s.live x = some A ∨ s.comp x = some A)) := by
      rcases hx with hx | hx
      · rw [hlive] at hx
        by_cases h1 : x = k'
        · rw [if_pos h1] at hx; cases hx; exact .inl ⟨h1, rfl⟩
        · rw [if_neg h1] at hx
          by_cases h2 : x = k
          · rw [if_pos h2] at hx; cases hx
          · rw [if_neg h2] at hx; exact .inr ⟨h2, .inl hx⟩
      · right
        refine ⟨?_, .inr hx⟩
        intro e; rw [e] at hx
        have hx' : s.comp k = some A := hx
        rw [hc] at hx'; cases hx'
    simp only [doRename, List.mem_append, List.mem_filter, List.mem_map]
    rcases hx' with ⟨h1, h2⟩ | ⟨h1, h2⟩
    · exact .inr ⟨g, by rw [← h2]; exact hg, by rw [h1]⟩
    · exact .inl ⟨h.dtk x A h2 g hg, by simpa using h1⟩
  · intro x A hx g hg
    have hx' : (x = k' ∧ A.deps = J.deps) ∨ (x ≠ k ∧ (s.live x = some A ∨ s.comp x = some A)) := by
      rcases hx with hx | hx
      · rw [hlive] at hx
        by_cases h1 : x = k'
        · rw [if_pos h1] at hx; cases hx; exact .inl ⟨h1, rfl⟩
        · rw [if_neg h1] at hx
          by_cases h2 : x = k
          · rw [if_pos h2] at hx; cases hx
          · rw [if_neg h2] at hx; exact .inr ⟨h2, .inl hx⟩
      · right
        refine ⟨?_, .inr hx⟩
        intro e; rw [e] at hx
        have hx' : s.comp k = some A := hx
        rw [hc] at hx'; cases hx'
    simp only [doRename, List.mem_append, List.mem_filter, List.mem_map, mem_groupDeps]
    rcases hx' with ⟨h1, h2⟩ | ⟨h1, h2⟩
    · exact .inr ⟨g, by rw [← h2]; exact hg, by rw [h1]⟩
    · exact .inl ⟨h.rdtk x A h2 g hg, by simpa using h1⟩
  · intro x it J' hx hJ' j A hA hon
    obtain ⟨h0, a, h1, h2, h3, h4⟩ := who x it hx
    obtain ⟨_, J2, h5, _, h6⟩ := lwho x J' hJ'
    obtain ⟨hjk, A2, h7, h8, _⟩ := lwho j A hA
    rw [h4]
    have : unren k k' j ∈ a.rem := by
      refine h.wait _ a J2 h1 h5 _ A2 h7 ?_
      rcases hon with h9 | ⟨g, hg, h9⟩
      · left
        have hkn := h.known _ (show (s.live (unren k k' x)).isSome by simp [h5])
        have := (hm _ hkn).2
        simp only [Mentions, h5] at this
        rw [← h6] at this
        have hjk' : j ≠ k' := by intro e; rw [e] at h9; exact this h9
        rw [← h6]; simpa [unren, hjk'] using h9
      · exact .inr ⟨g, by rw [← h8]; exact hg, by rw [← h6]; exact h9⟩
    exact List.mem_map.2 ⟨_, this, runr j hjk⟩
  · intro x it hx p hp
    obtain ⟨h0, a, h1, h2, h3, h4⟩ := who x it hx
    rw [h4] at hp
    obtain ⟨r, hr, rfl⟩ := List.mem_map.1 hp
    have := h.remq _ a h1 r hr
    rw [hsomeq]
    refine ⟨rne r, ?_⟩
    rw [urn r (by intro e; rw [e, hq'] at this; cases this)]
    exact this

/-! ## restart -/

theorem inv_restart {s : S} (h : Inv s) (st) :
    Inv (enqueueAll { s with q := fun _ => none, kids := [], adding := [] } (recovered s st)) := by
  have q0 : ({ s with q := fun _ => none, kids := [], adding := [] } : S).q = fun _ => none := rfl
  have l0 : ({ s with q := fun _ => none, kids := [], adding := [] } : S).live = s.live := rfl
  obtain ⟨e1, e2, e3, e4, e5⟩ := enq_db (recovered s st) { s with q := fun _ => none, kids := [], adding := [] }
  have eq := enq_q (recovered s st) { s with q := fun _ => none, kids := [], adding := [] }
  have ei := qinv_enq (recovered s st) { s with q := fun _ => none, kids := [], adding := [] } (by constructor <;> simp)
  generalize enqueueAll { s with q := fun _ => none, kids := [], adding := [] } (recovered s st) = s' at *
  have hr : ∀ e ∈ recovered s st, ∃ J, s.live e.1 = some J ∧ e.2.1 = incomplete s J.deps := by
    intro e he
    simp only [recovered, List.mem_filterMap, Option.map_eq_some_iff] at he
    obtain ⟨k, hk, J, hJ, rfl⟩ := he
    exact ⟨J, hJ, rfl⟩
  have item : ∀ k it, s'.q k = some it → ∃ J, s.live k = some J ∧ it.rem = incomplete s J.deps := by
    intro k it hk
    rcases eq k with ⟨it', h5, h6⟩ | ⟨h5, d, st, h6, h7⟩ | ⟨_, _, h7⟩
    · cases h5
    · rw [hk] at h7; cases h7
      exact hr _ h6
    · rw [hk] at h7; cases h7
  have hsome : ∀ k, (s.live k).isSome ↔ (s'.q k).isSome := by
    intro k
    constructor
    · intro hk
      rcases eq k with ⟨it', h5, h6⟩ | ⟨h5, d, st', h6, h7⟩ | ⟨h5, h6, h7⟩
      · simp [h6]
      · simp [h7]
      · exfalso
        obtain ⟨J, hJ⟩ := Option.isSome_iff_exists.1 hk
        refine h6 (k, incomplete s J.deps, st k) ?_ rfl
        simp only [recovered, List.mem_filterMap, Option.map_eq_some_iff]
        exact ⟨k, h.known k hk, J, hJ, rfl⟩
    · intro hk
      obtain ⟨it, hit⟩ := Option.isSome_iff_exists.1 hk
      obtain ⟨J, hJ, _⟩ := item k it hit
      simp [hJ]
  constructor
  · exact ei
  · intro k; rw [e1]; exact hsome k
  · rw [e1, e5]; exact h.known
  · rw [e1]; exact h.keyL
  · rw [e2]; exact h.keyC
  · rw [e1, e2, e3]; exact h.dtk
  · rw [e1, e2, e4]; exact h.rdtk
  · rw [e1]
    intro k it J hk hJ j A hA hon
    obtain ⟨J', h1, h2⟩ := item k it hk
    rw [show s.live k = some J from hJ] at h1; cases h1
    rw [h2]
    exact on_incomplete h.db hA hon
  · intro k it hk p hp
    rw [← hsome]
    obtain ⟨J', h1, h2⟩ := item k it hk
    rw [h2] at hp
    exact incomplete_live hp

theorem inv_step {s s' : S} {o} (h : Inv s) (hc : Calm s o) (hs : step s o = some s') : Inv s' := by
  cases o <;> simp only [step] at hs
  case add => exact inv_add h hc hs
  case prep => exact hc.elim
  case store => exact hc.elim
  case deps => exact hc.elim
  case upd => exact hc.elim
  case enq => exact hc.elim
  case arch1 => exact hc.elim
  case arch2 => exact hc.elim
  case reserve k => exact inv_qset h (.inl rfl) hs
  case release k => exact inv_qset h (.inr rfl) hs
  case bury k => exact inv_qset h (.inr rfl) hs
  case kick k => exact inv_kick h hs
  case archive k =>
    split at hs
    · rename_i it j hq hl
      split at hs
      · cases hs
        refine inv_gone h (by simp [hq]) _ ?_
        intro x a hx
        by_cases hxk : x = k
        · rw [if_pos hxk] at hx; cases hx; exact .inr (by rw [hxk]; exact hl)
        · rw [if_neg hxk] at hx; exact .inl hx
      · cases hs
    · cases hs
  case delete k =>
    split at hs
    · rename_i it hq
      split at hs
      · cases hs
        exact inv_gone h (by simp [hq]) s.comp (fun x j hx => .inl hx)
      · cases hs
    · cases hs
  case modDeps k ds =>
    split at hs
    · rename_i it j hq hl
      split at hs
      · cases hs
        exact inv_modDeps h hq hl hc
      · cases hs
    · cases hs
  case modGroups k gs =>
    split at hs
    · rename_i it j hq hl
      split at hs
      · cases hs
        refine inv_modGroups h hl hc.1 ?_
        intro g hg
        have := hc.2 g hg
        simpa only [groupsOf, hl] using this
      · cases hs
    · cases hs
  case rename k k' =>
    split at hs
    · rename_i it j hq hl
      split at hs
      · rename_i hg
        cases hs
        exact inv_rename h hl hg.2.1 hg.2.2.2.1 hg.2.2.2.2.1 hg.2.2.2.2.2 hc.1 hc.2
      · cases hs
    · cases hs
  case restart st =>
    split at hs
    · cases hs; exact inv_restart h st
    · cases hs

theorem inv_run : ∀ os (s s' : S), Inv s → CalmAll s os → run s os = some s' → Inv s'
  | [], s, s', h, _, hr => by simp only [run] at hr; cases hr; exact h
  | o :: os, s, s', h, hc, hr => by
    simp only [run, Option.bind_eq_some_iff] at hr
    obtain ⟨s1, h1, h2⟩ := hr
    simp only [CalmAll, h1] at hc
    exact inv_run os s1 s' (inv_step h hc.1 h1) hc.2 h2

end Verif.Server.Waits
