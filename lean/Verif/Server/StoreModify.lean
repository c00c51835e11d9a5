import Verif.Server.StoreProps
/-!
# C87, the job database: what a modification does to the jobs in the queue
-/
namespace Verif.Server.Store
open Verif.Util.Bolt Spec

/-- a record after a modification that sets these fields and no others -/
structure Modified (c : Change) (r r' : Rec) : Prop where
  repGroup : r'.repGroup = r.repGroup
  depGroups : ∀ g, c.depGroups = some g → r'.depGroups = g
  depGroupsKept : c.depGroups = none → r'.depGroups = r.depGroups
  depends : ∀ g, c.depends = some g → r'.depends = g
  dependsKept : c.depends = none → r'.depends = r.depends
  data : r'.data = c.data r.data

theorem modified_apply (c : Change) (r : Rec) : Modified c r (c.apply r) :=
  ⟨rfl, fun g h => by simp [Change.apply, h], fun h => by simp [Change.apply, h], fun g h => by simp [Change.apply, h],
   fun h => by simp [Change.apply, h], rfl⟩

theorem queue_modify (s : St) (ks : List Key) (c : Change) : (modify s ks c).queue = changeQueue (modifyLoop s c ks []) s.queue := rfl

theorem mem_modifyLoop (s : St) (c : Change) (ks : List Key) : ∀ acc m, m ∈ modifyLoop s c ks acc → m ∈ acc ∨ m.1 ∈ ks := by
  induction ks with
  | nil => intro acc m h; exact .inl h
  | cons k ks ih =>
    intro acc m h
    unfold modifyLoop at h
    have key : ∀ acc', m ∈ modifyLoop s c ks acc' → (m ∈ acc' → m ∈ acc ∨ m.1 = k) → m ∈ acc ∨ m.1 ∈ k :: ks := by
      intro acc' h' hh
      rcases ih acc' m h' with h1 | h1
      · rcases hh h1 with h2 | h2
        · exact .inl h2
        · exact .inr (h2 ▸ List.mem_cons_self ..)
      · exact .inr (List.mem_cons_of_mem _ h1)
    split at h
    · exact key _ h .inl
    · simp only at h
      split at h
      · exact key _ h .inl
      · split at h
        · exact key _ h .inl
        · refine key _ h fun h' => ?_
          rcases List.mem_append.1 h' with h1 | h1
          · exact .inl h1
          · rw [List.mem_singleton] at h1; rw [h1]; exact .inr rfl

/-- C87: after a modification every job that was in the queue is in it, as it was, or, if it was asked for, under its new key and
with exactly the given fields changed -/
theorem C87_kept (s : St) (ks : List Key) (c : Change) (k : Key) (r : Rec) (h : get k s.queue = some r) :
    get k (modify s ks c).queue = some r ∨
    (k ∈ ks ∧ ∃ r', get (c.key k r) (modify s ks c).queue = some r' ∧ Modified c r r' ∧
      (c.key k r ≠ k → get k (modify s ks c).queue = none)) := by
  have hm := minv s c ks
  rw [queue_modify]
  by_cases hk : k ∈ (modifyLoop s c ks []).map (·.1)
  · obtain ⟨m, hmm, he⟩ := List.mem_map.1 hk
    obtain ⟨r0, hr0, e0⟩ := hm.old m hmm
    rw [he, h] at hr0
    cases hr0
    rw [he] at e0
    refine .inr ⟨?_, c.apply r, ?_, modified_apply c r, ?_⟩
    · rcases mem_modifyLoop s c ks [] m hmm with h1 | h1
      · cases h1
      · exact he ▸ h1
    · rcases changeQueue_cases hm (c.key k r) with ⟨m', hm', e1, e2⟩ | ⟨e1, _, _⟩ | ⟨e1, _, _⟩
      · have : m' = m := nodup_pair hm.nodup hm' hmm (by rw [e1, e0])
        rw [e2, this, e0]
      · exact absurd (List.mem_map.2 ⟨m, hmm, by rw [e0]⟩) e1
      · exact absurd (List.mem_map.2 ⟨m, hmm, by rw [e0]⟩) e1
    · intro hne
      rcases changeQueue_cases hm k with ⟨m', hm', e1, e2⟩ | ⟨_, _, e1⟩ | ⟨_, e1, _⟩
      · have := hm.old_ne_new hmm hm' (by rw [he, e1])
        rw [← this, e0] at e1
        exact absurd e1 hne
      · exact e1
      · exact absurd hk e1
  · refine .inl ?_
    rcases changeQueue_cases hm k with ⟨m', hm', e1, e2⟩ | ⟨_, e1, _⟩ | ⟨_, _, e1⟩
    · rcases hm.new m' hm' with h1 | h1
      · exact absurd (List.mem_map.2 ⟨m', hm', by rw [← h1, e1]⟩) hk
      · rw [e1, h] at h1; cases h1.1
    · exact absurd e1 hk
    · rw [e1, h]

/-- C87: and it adds none; no two jobs become one -/
theorem C87_same (s : St) (ks : List Key) (c : Change) (k : Key) (r' : Rec) (h : get k (modify s ks c).queue = some r') :
    get k s.queue = some r' ∨ ∃ k0 r, k0 ∈ ks ∧ get k0 s.queue = some r ∧ c.key k0 r = k ∧ Modified c r r' ∧
      (k ≠ k0 → get k s.queue = none ∧ get k s.complete = none) := by
  have hm := minv s c ks
  rw [queue_modify] at h
  rcases changeQueue_cases hm k with ⟨m, hmm, e1, e2⟩ | ⟨_, _, e1⟩ | ⟨_, _, e1⟩
  · rw [e2] at h
    cases h
    obtain ⟨r, hr, e⟩ := hm.old m hmm
    refine .inr ⟨m.1, r, ?_, hr, by rw [← e1, e], by rw [e]; exact modified_apply c r, ?_⟩
    · rcases mem_modifyLoop s c ks [] m hmm with h1 | h1
      · cases h1
      · exact h1
    · intro hne
      rcases hm.new m hmm with h1 | h1
      · exact absurd (e1.symm.trans h1) hne
      · rw [e1] at h1; exact h1
  · rw [e1] at h; cases h
  · rw [e1] at h; exact .inl h

/-- nothing in `acc` is lost -/
theorem modifyLoop_acc (s : St) (c : Change) (ks : List Key) : ∀ acc m, m ∈ acc → m ∈ modifyLoop s c ks acc := by
  induction ks with
  | nil => intro acc m h; exact h
  | cons k ks ih =>
    intro acc m h
    unfold modifyLoop
    split
    · exact ih _ _ h
    · simp only
      split
      · exact ih _ _ h
      · split
        · exact ih _ _ h
        · exact ih _ _ (List.mem_append_left _ h)

theorem modifyLoop_does (s : St) (c : Change) (k : Key) (r : Rec) (hr : get k s.queue = some r)
    (hfree : c.key k r = k ∨ (get (c.key k r) s.queue = none ∧ get (c.key k r) s.complete = none)) :
    ∀ (ks : List Key) (acc : List (Key × Job)), (k ∈ ks ∨ ∃ m ∈ acc, m.1 = k) → MInv s c acc → (∀ m ∈ acc, m.2.key = c.key k r → m.1 = k) →
      (∀ k1 ∈ ks, ∀ r1, get k1 s.queue = some r1 → c.key k1 r1 = c.key k r → k1 = k) →
      ∃ m ∈ modifyLoop s c ks acc, m.1 = k := by
  intro ks
  induction ks with
  | nil =>
    intro acc hk _ _ _
    rcases hk with h | h
    · cases h
    · exact h
  | cons k0 ks ih =>
    intro acc hk hi hacc hone
    rcases hk with hk | ⟨m, hmm, he⟩
    · have hone' : ∀ k1 ∈ ks, ∀ r1, get k1 s.queue = some r1 → c.key k1 r1 = c.key k r → k1 = k :=
        fun k1 h1 => hone k1 (List.mem_cons_of_mem _ h1)
      have hstep : MInv s c (modifyLoop s c [k0] acc) := modifyLoop_inv s c [k0] acc hi
      have heq : modifyLoop s c (k0 :: ks) acc = modifyLoop s c ks (modifyLoop s c [k0] acc) := by
        conv => lhs; unfold modifyLoop
        conv => rhs; arg 4; unfold modifyLoop
        cases hq : get k0 s.queue with
        | none => rfl
        | some r0 =>
          simp only
          split
          · rfl
          · split
            · rfl
            · rfl
      rw [heq]
      refine ih _ ?_ hstep ?_ hone'
      · by_cases hkk : k = k0
        · right
          subst hkk
          unfold modifyLoop
          rw [hr]
          simp only
          by_cases h1 : c.key k r ∈ acc.map (·.2.key)
          · rw [if_pos h1]
            obtain ⟨m, hmm, he⟩ := List.mem_map.1 h1
            exact ⟨m, hmm, hacc m hmm he⟩
          · rw [if_neg h1, if_neg]
            · exact ⟨(k, ⟨c.key k r, c.apply r⟩), by unfold modifyLoop; simp, rfl⟩
            · rintro ⟨h2, h3⟩
              rcases hfree with h4 | h4
              · exact h2 h4
              · rw [h4.1, h4.2] at h3; simp at h3
        · rcases List.mem_cons.1 hk with h | h
          · exact absurd h hkk
          · exact .inl h
      · intro m hmm he
        rcases mem_modifyLoop s c [k0] acc m hmm with h | h
        · exact hacc m h he
        · rw [List.mem_singleton] at h
          obtain ⟨r1, hr1, e1⟩ := hstep.old m hmm
          refine hone m.1 (by rw [h]; exact List.mem_cons_self ..) r1 hr1 ?_
          rw [← he, e1]
    · exact ⟨m, modifyLoop_acc _ _ _ _ _ hmm, he⟩

/-- C87: a job that is asked for is changed if its new key is its old one, or that of no other job, nor what that of another job
that was asked for would be -/
theorem C87_changed (s : St) (ks : List Key) (c : Change) (k : Key) (r : Rec) (h : get k s.queue = some r) (hk : k ∈ ks)
    (hfree : c.key k r = k ∨ (get (c.key k r) s.queue = none ∧ get (c.key k r) s.complete = none))
    (hone : ∀ k1 ∈ ks, ∀ r1, get k1 s.queue = some r1 → c.key k1 r1 = c.key k r → k1 = k) :
    ∃ r', get (c.key k r) (modify s ks c).queue = some r' ∧ Modified c r r' := by
  obtain ⟨m, hmm, he⟩ := modifyLoop_does s c k r h hfree ks [] (.inl hk) ⟨by simp, by simp, by simp⟩ (by simp) hone
  have hm := minv s c ks
  obtain ⟨r0, hr0, e0⟩ := hm.old m hmm
  rw [he, h] at hr0
  cases hr0
  rw [he] at e0
  refine ⟨c.apply r, ?_, modified_apply c r⟩
  rw [queue_modify]
  rcases changeQueue_cases hm (c.key k r) with ⟨m', hm', e1, e2⟩ | ⟨e1, _, _⟩ | ⟨e1, _, _⟩
  · have : m' = m := nodup_pair hm.nodup hm' hmm (by rw [e1, e0])
    rw [e2, this, e0]
  · exact absurd (List.mem_map.2 ⟨m, hmm, by rw [e0]⟩) e1
  · exact absurd (List.mem_map.2 ⟨m, hmm, by rw [e0]⟩) e1

theorem length_delete (k : Key) : ∀ b : Bucket Rec, Sorted b → (get k b).isSome → (delete k b).length + 1 = b.length
  | [], _, h => by simp [Verif.Util.Bolt.get] at h
  | (k', v') :: b, hs, h => by
    obtain ⟨h1, h2⟩ := List.pairwise_cons.1 hs
    by_cases e : k = k'
    · subst e
      have : delete k b = b := by
        unfold delete
        rw [List.filter_eq_self]
        intro x hx
        have := h1 x hx
        exact decide_eq_true fun e => lt_irrefl k (by rw [e] at this; exact this)
      have hd : delete k ((k, v') :: b) = delete k b := by simp [delete]
      rw [hd, this]; rfl
    · have hd : delete k ((k', v') :: b) = (k', v') :: delete k b := by
        unfold delete
        rw [List.filter_cons_of_pos (by simpa using fun x => e x.symm)]
      have hg : get k ((k', v') :: b) = get k b := by
        unfold Verif.Util.Bolt.get
        rw [List.lookup_cons, beq_false e]
      rw [hd, List.length_cons, length_delete k b h2 (hg ▸ h), List.length_cons]

theorem length_put (k : Key) (v : Rec) : ∀ b : Bucket Rec, get k b = none → (put k v b).length = b.length + 1
  | [], _ => rfl
  | (k', v') :: b, h => by
    by_cases e : k = k'
    · subst e
      unfold Verif.Util.Bolt.get at h
      rw [List.lookup_cons_self] at h
      cases h
    · have hg : get k ((k', v') :: b) = get k b := by
        unfold Verif.Util.Bolt.get
        rw [List.lookup_cons, beq_false e]
      unfold put
      rw [if_neg e]
      split
      · rfl
      · rw [List.length_cons, length_put k v b (hg ▸ h), List.length_cons]

theorem length_changeQueue : ∀ (ms : List (Key × Job)) (q : Bucket Rec), Sorted q → (ms.map (·.1)).Nodup → (ms.map (·.2.key)).Nodup →
    (∀ m ∈ ms, (get m.1 q).isSome) → (∀ m ∈ ms, m.2.key = m.1 ∨ get m.2.key q = none) →
    (∀ m ∈ ms, ∀ m' ∈ ms, m.1 = m'.2.key → m = m') → (changeQueue ms q).length = q.length
  | [], _, _, _, _, _, _, _ => rfl
  | m :: ms, q, hs, h1, h2, h3, h4, h5 => by
    show (changeQueue ms (put m.2.key m.2.rec' (delete m.1 q))).length = _
    obtain ⟨a1, a2⟩ := List.nodup_cons.1 h1
    obtain ⟨b1, b2⟩ := List.nodup_cons.1 h2
    have hm : m ∈ m :: ms := List.mem_cons_self ..
    have hg : ∀ x, get x (put m.2.key m.2.rec' (delete m.1 q)) = if x = m.2.key then some m.2.rec' else if x = m.1 then none else get x q :=
      fun x => by rw [get_put, get_delete]
    rw [length_changeQueue ms _ (sorted_put _ _ _ (sorted_delete _ _ hs)) a2 b2, length_put, length_delete _ _ hs (h3 m hm)]
    · rw [get_delete]
      split
      · rfl
      · rename_i hne
        rcases h4 m hm with h | h
        · exact absurd h hne
        · exact h
    · intro m' hm'
      rw [hg]
      split
      · rfl
      · rw [if_neg]
        · exact h3 m' (List.mem_cons_of_mem _ hm')
        · exact fun e => a1 (List.mem_map.2 ⟨m', hm', e⟩)
    · intro m' hm'
      rw [hg, if_neg]
      · split
        · exact .inr rfl
        · exact h4 m' (List.mem_cons_of_mem _ hm')
      · exact fun e => b1 (List.mem_map.2 ⟨m', hm', e⟩)
    · exact fun x hx y hy => h5 x (List.mem_cons_of_mem _ hx) y (List.mem_cons_of_mem _ hy)

/-- C87: no two jobs become one: there are as many in the queue as before -/
theorem C87_count (ops : List Op) (hw : ∀ op ∈ ops, Wf op) (ks : List Key) (c : Change) :
    (modify (run {} ops) ks c).queue.length = (run {} ops).queue.length := by
  have hm := minv (run {} ops) c ks
  rw [queue_modify]
  exact length_changeQueue _ _ (good_run ops {} good_init hw).sq hm.oldsNodup hm.nodup
    (fun m h => by obtain ⟨r, hr, _⟩ := hm.old m h; rw [hr]; rfl)
    (fun m h => (hm.new m h).imp id And.left) fun m h m' h' e => hm.old_ne_new h h' e

namespace Ex

/-- two jobs are in the queue, and get the keys "ma" and "mb"; their dependency groups are as they were, their dependencies not -/
example : (modify (run {} [.add [job "a" "r" ["g"], job "b" "q" [] ["g"]] false]) ["a".toList, "b".toList]
    { key := fun k _ => 'm' :: k, depends := some ["h".toList] }).queue =
    [("ma".toList, { repGroup := "r".toList, depGroups := ["g".toList], depends := ["h".toList] }),
     ("mb".toList, { repGroup := "q".toList, depends := ["h".toList] })] := by decide +kernel

/-- both would get the same key: the second is left as it is -/
example : (modify (run {} [.add [job "a" "r" ["g"], job "b" "q" [] ["g"]] false]) ["a".toList, "b".toList]
    { key := fun _ _ => "n".toList, depends := some ["h".toList] }).queue =
    [("b".toList, { repGroup := "q".toList, depends := ["g".toList] }),
     ("n".toList, { repGroup := "r".toList, depGroups := ["g".toList], depends := ["h".toList] })] := by decide +kernel

end Ex
end Verif.Server.Store
