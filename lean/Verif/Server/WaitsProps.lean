/-
C127  Jobs wait for the jobs they depend on, and not longer: along whole histories
of requests to the server, with restarts.
-/
import Verif.Server.WaitsExact

namespace Verif.Server.Waits

/-! ## specification -/

/-- The incomplete job `k` depends on the incomplete job `j`: by its command, or by
one of the groups it is in. -/
def Needs (s : S) (k j : Key) : Prop :=
  ∃ B A, s.live k = some B ∧ s.live j = some A ∧ (Dep.key j ∈ B.deps ∨ ∃ g, g ∈ A.groups ∧ Dep.grp g ∈ B.deps)

/-- where the job is in the queue -/
def at? (s : S) (k : Key) : Option State := (s.q k).map (·.st)

theorem at_some {s : S} {k st} (h : at? s k = some st) : ∃ it, s.q k = some it ∧ it.st = st := by
  unfold at? at h
  simpa only [Option.map_eq_some_iff] using h

theorem inv_needs {s : S} (h : Inv s) {k it} (hk : s.q k = some it) {j} (hn : Needs s k j) : j ∈ it.rem := by
  obtain ⟨B, A, hB, hA, ho⟩ := hn
  exact h.wait k it B hk hB j A hA ho

theorem exact_needs {s : S} (h : Inv s) (hx : Exact s) {k it} (hk : s.q k = some it) {j} : j ∈ it.rem ↔ Needs s k j := by
  constructor
  · intro hj
    obtain ⟨B, hB⟩ := Option.isSome_iff_exists.1 ((h.sync k).2 (by simp [hk]))
    obtain ⟨A, hA, ho⟩ := hx.only k it B hk hB j hj
    exact ⟨B, A, hB, hA, ho⟩
  · exact inv_needs h hk

/-! ## jobs wait -/

/-- C127.  Along every calm history, with restarts: no job is handed out while a job
that it depends on is incomplete. -/
theorem C127_handed_out_partial (os : List Op) (s s' : S) (hc : CalmAll init os) (hr : run init os = some s) (k : Key)
    (h : step s (.reserve k) = some s') (j : Key) : ¬ Needs s k j := by
  have hI := inv_run os _ _ inv_init hc hr
  intro hn
  simp only [step, qSet] at h
  split at h
  · rename_i it hk
    split at h
    · rename_i e
      have := inv_needs hI hk hn
      rw [hI.qi.idle k it hk (.inl e)] at this
      cases this
    · cases h
  · cases h

/-- C127.  Along every calm history, with restarts: nothing that a running or a
ready job depends on is incomplete. -/
theorem C127_running_partial (os : List Op) (s : S) (hc : CalmAll init os) (hr : run init os = some s) (k : Key)
    (h : at? s k = some .run ∨ at? s k = some .ready) (j : Key) : ¬ Needs s k j := by
  have hI := inv_run os _ _ inv_init hc hr
  intro hn
  have : ∃ it, s.q k = some it ∧ (it.st = .ready ∨ it.st = .run) := by
    rcases h with h | h
    · obtain ⟨it, h1, h2⟩ := at_some h; exact ⟨it, h1, .inr h2⟩
    · obtain ⟨it, h1, h2⟩ := at_some h; exact ⟨it, h1, .inl h2⟩
  obtain ⟨it, hk, hst⟩ := this
  have := inv_needs hI hk hn
  rw [hI.qi.idle k it hk hst] at this
  cases this

/-- C127.  A job that another one in the queue depends on cannot be deleted. -/
theorem C127_delete_partial (os : List Op) (s : S) (hc : CalmAll init os) (hr : run init os = some s) (k j : Key)
    (hn : Needs s k j) : step s (.delete j) = none := by
  have hI := inv_run os _ _ inv_init hc hr
  obtain ⟨B, A, hB, hA, ho⟩ := hn
  obtain ⟨it, hk⟩ := Option.isSome_iff_exists.1 ((hI.sync k).1 (by simp [hB]))
  have h1 := hI.qi.kid k it hk j (hI.wait k it B hk hB j A hA ho)
  simp only [step]
  split
  · rw [if_neg]
    intro h2
    have := List.all_eq_true.1 h2.2 _ h1
    simp at this
  · rfl

/-- C127.  Every incomplete job is in the queue, and the queue has no other. -/
theorem C127_in_queue_partial (os : List Op) (s : S) (hc : CalmAll init os) (hr : run init os = some s) (k : Key) :
    (s.live k).isSome ↔ (s.q k).isSome := (inv_run os _ _ inv_init hc hr).sync k

/-- C127.  Adding a job brings back every complete job that depends on one of its
groups: it is incomplete again, with the same dependencies, and waits. -/
theorem C127_comes_back_partial (os : List Op) (s s' : S) (hc : CalmAll init os) (hr : run init os = some s)
    (js back : List Job) (upd : List Key) (hc' : Calm s (.add js back upd)) (h : step s (.add js back upd) = some s')
    (k : Key) (J : Job) (hJ : s.comp k = some J) (hl : s.live k = none) (hk : ∀ j ∈ js, j.key ≠ k)
    (j : Job) (hj : j ∈ js) (g : Grp) (hg : g ∈ j.groups) (hd : Dep.grp g ∈ J.deps) :
    s'.live k = some J ∧ at? s' k = some .dependent := by
  have hI := inv_run os _ _ inv_init hc hr
  have hI' := inv_step hI hc' h
  have h0 := h
  simp only [step, stepAdd] at h
  split at h
  · rename_i hg0
    obtain ⟨hcl, hn⟩ := hg0
    simp only [Option.map_eq_some_iff] at h
    obtain ⟨s2, hu, rfl⟩ := h
    obtain ⟨⟨u1, -⟩, uq, -⟩ := upd_spec _ _ _ hu
    have hm := store_live_mem hcl hn
    have hb := (hcl.2.2 _ (hI.db.rdtk k J (.inr hJ) g hd) (by
      simp only [List.mem_append, List.mem_flatMap]
      exact .inl ⟨j, .inl hj, hg⟩)).2 hl (by simp [hJ]) (by
      intro hx
      obtain ⟨b, hb, e⟩ := List.mem_map.1 hx
      exact hk b hb e)
    obtain ⟨b, hb, e⟩ := List.mem_map.1 hb
    replace e : b.key = k := e
    have hbJ : b = J := by
      have := (hcl.1 b hb).1
      rw [e, hJ] at this
      exact (Option.some.inj this).symm
    obtain rfl := hbJ
    have hlive : (store s js back).live k = some b := by rw [← e]; exact hm b (by simp [hb])
    have hL : ∀ x, (enqueueAll s2 (findDeps (store s js back) (back ++ js))).live x = (store s js back).live x := by
      intro x; rw [(enq_db _ _).1, u1]
    refine ⟨by rw [hL]; exact hlive, ?_⟩
    have hq0 : s.q k = none := by
      cases hx : s.q k with
      | none => rfl
      | some it => have := (hI.sync k).2 (by simp [hx]); simp [hl] at this
    have hq2 : s2.q k = none := by
      rw [uq]
      have : (store s js back).q k = none := hq0
      split <;> simp [this]
    obtain ⟨it, hit⟩ := Option.isSome_iff_exists.1 ((hI'.sync k).1 (by rw [hL, hlive]; rfl))
    have hw := hI'.wait k it b hit (by rw [hL]; exact hlive) j.key j (by rw [hL]; exact hm j (by simp [hj])) (.inr ⟨g, hg, hd⟩)
    rcases enq_q (findDeps (store s js back) (back ++ js)) s2 k with ⟨it', h1, -⟩ | ⟨-, d, st, h1, h2⟩ | ⟨-, -, h2⟩
    · rw [hq2] at h1; cases h1
    · rw [hit] at h2
      obtain rfl := Option.some.inj h2
      have hne : d ≠ [] := by
        intro hd0
        rw [hd0] at hw
        cases hw
      simp [at?, hit, hne]
    · rw [hit] at h2; cases h2
  · cases h

example : ∃ s s', run init [.add [⟨3, [], [.grp 9]⟩] [] [], .reserve 3, .archive 3] = some s ∧
    step s (.add [⟨1, [9], []⟩] [⟨3, [], [.grp 9]⟩] []) = some s' ∧ at? s 3 = none ∧ at? s' 3 = some .dependent ∧
    CalmAll init [.add [⟨3, [], [.grp 9]⟩] [] [], .reserve 3, .archive 3] ∧
    Calm s (.add [⟨1, [9], []⟩] [⟨3, [], [.grp 9]⟩] []) := ⟨_, _, rfl, rfl, rfl, rfl, by decide, by decide⟩

/-! ## and not longer -/

/-- C127.  Along every plain history, with restarts: a job that waits depends on an
incomplete job. -/
theorem C127_no_longer_partial (os : List Op) (s : S) (hc : PlainAll init os) (hr : run init os = some s) (k : Key)
    (h : at? s k = some .dependent) : ∃ j, Needs s k j := by
  obtain ⟨hI, hx⟩ := exact_run os _ _ inv_init exact_init hc hr
  obtain ⟨it, hk, hst⟩ := at_some h
  cases hl : it.rem with
  | nil => exact absurd hl (hx.alive k it hk hst)
  | cons j l => exact ⟨j, (exact_needs hI hx hk).1 (by simp [hl])⟩

/-- C127.  When the last job that a waiting job depends on is archived, the waiting
job becomes ready, in the same request. -/
theorem C127_freed_partial (os : List Op) (s s' : S) (hc : PlainAll init os) (hr : run init os = some s) (j k : Key)
    (hk : at? s k = some .dependent) (hj : ∀ x, Needs s k x → x = j) (h : step s (.archive j) = some s') :
    at? s' k = some .ready := by
  obtain ⟨hI, hx⟩ := exact_run os _ _ inv_init exact_init hc hr
  obtain ⟨it, hit, hst⟩ := at_some hk
  have hrem : ∀ x ∈ it.rem, x = j := fun x h => hj x ((exact_needs hI hx hit).1 h)
  have hne := hx.alive k it hit hst
  have hj' : j ∈ it.rem := by
    cases hl : it.rem with
    | nil => exact absurd hl hne
    | cons x l => have := hrem x (by simp [hl]); subst this; simp
  have hkid := hI.qi.kid k it hit j hj'
  simp only [step] at h
  split at h
  · rename_i itj J hqj hlj
    split at h
    · rename_i e
      cases h
      have hkj : k ≠ j := by
        intro e'
        subst e'
        rw [hit] at hqj; cases hqj
        rw [hst] at e; cases e
      have hf : it.rem.filter (· ≠ j) = [] := by
        rw [List.filter_eq_nil_iff]
        intro x hx'
        simp [hrem x hx']
      simp only [at?, qRemove, hqj, hkj, if_false, hkid, if_true, hit, Option.map_some, resolve, hf, hst, and_self]
    · cases h
  · cases h

/-- C127.  If the dependencies of the incomplete jobs have no cycle (there is a rank
that falls along them), then work can go on: as long as there are incomplete jobs,
one of them is not waiting, and everything that waits, waits in the end for such a
job. -/
theorem C127_progress_partial (os : List Op) (s : S) (hc : PlainAll init os) (hr : run init os = some s)
    (rank : Key → Nat) (hrank : ∀ k j, Needs s k j → rank j < rank k) (k : Key) (hk : (s.live k).isSome) :
    ∃ j st, at? s j = some st ∧ st ≠ .dependent ∧ rank j ≤ rank k := by
  obtain ⟨hI, hx⟩ := exact_run os _ _ inv_init exact_init hc hr
  generalize hn : rank k = n
  induction n using Nat.strongRecOn generalizing k with
  | _ n ih =>
    obtain ⟨it, hit⟩ := Option.isSome_iff_exists.1 ((hI.sync k).1 hk)
    by_cases hst : it.st = .dependent
    · cases hl : it.rem with
      | nil => exact absurd hl (hx.alive k it hit hst)
      | cons j l =>
        have hnd : Needs s k j := (exact_needs hI hx hit).1 (by simp [hl])
        have hlt := hrank k j hnd
        obtain ⟨B, A, _, hA, _⟩ := hnd
        obtain ⟨x, st, h1, h2, h3⟩ := ih (rank j) (by omega) j (by simp [hA]) rfl
        exact ⟨x, st, h1, h2, by omega⟩
    · exact ⟨k, it.st, by simp [at?, hit], hst, by omega⟩

/-! ## a request is its steps -/

theorem qAdd_adding (s : S) (k d st) (a : List Adding) : qAdd { s with adding := a } k d st = { qAdd s k d st with adding := a } := by
  unfold qAdd; simp only; split
  · rfl
  · split <;> rfl

theorem enq_adding (a : List Adding) : ∀ l (s : S), enqueueAll { s with adding := a } l = { enqueueAll s l with adding := a }
  | [], s => rfl
  | (k, d, st) :: l, s => by simp only [enqueueAll]; rw [qAdd_adding, enq_adding a l]

theorem qUpdate_adding (s : S) (k d) (a : List Adding) : qUpdate { s with adding := a } k d = { qUpdate s k d with adding := a } := by
  unfold qUpdate
  cases h : s.q k with
  | none => rfl
  | some it =>
    simp only
    split <;> rfl

theorem upd_adding (a : List Adding) : ∀ l (s : S), updateAll { s with adding := a } l = (updateAll s l).map fun s' => { s' with adding := a }
  | [], s => rfl
  | k :: l, s => by
    simp only [updateAll]
    cases s.live k with
    | none => rfl
    | some j =>
      cases s.q k with
      | none => rfl
      | some it =>
        simp only
        have : incomplete { s with adding := a } j.deps = incomplete s j.deps := rfl
        rw [this, qUpdate_adding, upd_adding a l]

theorem upd_adding_eq : ∀ l (s s' : S), updateAll s l = some s' → s'.adding = s.adding
  | [], s, s', h => by simp only [updateAll] at h; cases h; rfl
  | k :: l, s, s', h => by
    simp only [updateAll] at h
    split at h
    · rw [upd_adding_eq l _ _ h]
      unfold qUpdate
      split
      · rfl
      · split <;> rfl
    · cases h

/-- A whole request to add jobs is its steps, without others in between. -/
theorem stepAdd_eq (s s' : S) (js back : List Job) (upd : List Key) (h : step s (.add js back upd) = some s') :
    ∃ a, run s [.prep js back upd, .store s.adding.length, .deps s.adding.length, .upd s.adding.length, .enq s.adding.length] =
      some { s' with adding := a } := by
  simp only [step, stepAdd] at h
  split at h
  · rename_i hg
    simp only [Option.map_eq_some_iff] at h
    obtain ⟨s2, hu, rfl⟩ := h
    refine ⟨s.adding ++ [⟨js, back, upd, findDeps (store s js back) (back ++ js)⟩], ?_⟩
    have e1 : store { s with adding := s.adding ++ [⟨js, back, upd, []⟩] } js back =
        { store s js back with adding := s.adding ++ [⟨js, back, upd, []⟩] } := rfl
    have e2 : ∀ a, findDeps { store s js back with adding := a } (back ++ js) = findDeps (store s js back) (back ++ js) := fun _ => rfl
    simp [run, step, hg, e1, e2, upd_adding, hu, enq_adding]
  · cases h

/-- Archiving a job is its two steps, without others in between. -/
theorem archive_eq (s s' : S) (k : Key) (h : step s (.archive k) = some s') : run s [.arch1 k, .arch2 k] = some s' := by
  simp only [step] at h
  split at h
  · rename_i it j hq hl
    split at h
    · rename_i e
      cases h
      simp [run, step, hq, hl, e]
    · cases h
  · cases h

/-! ## a history -/

/-- keys 1, 2, 3, 4 and group 9: 1 and 2 are in the group, 3 depends on the group, 4
depends on 3 by its command -/
def j1 : Job := ⟨1, [9], []⟩
def j2 : Job := ⟨2, [9], []⟩
def j3 : Job := ⟨3, [], [.grp 9]⟩
def j4 : Job := ⟨4, [], [.key 3]⟩

def hist : List Op := [.add [j1] [] [], .add [j3, j4] [] [], .add [j2] [] [3], .reserve 1, .archive 1,
  .restart (fun _ => .ready)]

example : PlainAll init hist ∧ CalmAll init hist ∧ ∃ s, run init hist = some s ∧ at? s 3 = some .dependent ∧
    at? s 4 = some .dependent ∧ Needs s 3 2 ∧ Needs s 4 3 ∧ ¬ Needs s 3 1 :=
  ⟨by decide, by decide, _, rfl, by decide, by decide, ⟨j3, j2, rfl, rfl, .inr ⟨9, by decide, by decide⟩⟩,
    ⟨j4, j3, rfl, rfl, .inl (by decide)⟩, by rintro ⟨B, A, _, hA, _⟩; cases hA⟩

/-- 2 is archived: 3 is ready; and when it is archived, 4 is -/
example : PlainAll init (hist ++ [.reserve 2, .archive 2, .reserve 3]) ∧
    ∃ s, run init (hist ++ [.reserve 2, .archive 2, .reserve 3]) = some s ∧ at? s 3 = some .run ∧ at? s 4 = some .dependent ∧
    ∃ s', step s (.archive 3) = some s' ∧ at? s' 4 = some .ready :=
  ⟨by decide, _, rfl, by decide, by decide, _, rfl, by decide⟩

/-- a job is added to a group that a complete job depends on: the complete job comes
back, and waits -/
example : PlainAll init [.add [j1] [] [], .add [j3] [] [], .reserve 1, .archive 1, .reserve 3, .archive 3, .add [j2] [j3] []] ∧
    ∃ s, run init [.add [j1] [] [], .add [j3] [] [], .reserve 1, .archive 1, .reserve 3, .archive 3, .add [j2] [j3] []] = some s ∧
    at? s 3 = some .dependent ∧ at? s 2 = some .ready ∧ s.live 1 = none := ⟨by decide, _, rfl, by decide, by decide, rfl⟩

/-- a job leaves a group nobody depends on, another is renamed -/
example : CalmAll init [.add [⟨1, [8, 9], []⟩, j3] [] [], .modGroups 1 [9], .modDeps 3 [.grp 9, .key 1], .add [⟨5, [], []⟩] [] [], .rename 5 6] ∧
    (run init [.add [⟨1, [8, 9], []⟩, j3] [] [], .modGroups 1 [9], .modDeps 3 [.grp 9, .key 1], .add [⟨5, [], []⟩] [] [], .rename 5 6]).isSome :=
  ⟨by decide, by decide⟩

/-! ## what goes wrong -/

/-- what runners and users do with jobs that exist, without changing them -/
def Work : Op → Prop
  | .reserve _ | .release _ | .bury _ | .kick _ | .archive _ | .delete _ => True
  | _ => False

/-- `k` waits for `p`, and `p` is not going to be removed -/
def Stuck (k p : Key) (s : S) : Prop := ∃ it, s.q k = some it ∧ it.st = .dependent ∧ p ∈ it.rem

/-- a removal of another item leaves it stuck -/
theorem stuck_remove {s : S} {k p x} (h : Stuck k p s) (h1 : x ≠ k) (h2 : x ≠ p) : Stuck k p (qRemove s x) := by
  obtain ⟨it, h3, h4, h5⟩ := h
  unfold qRemove
  split
  · exact ⟨it, h3, h4, h5⟩
  · simp only [Stuck, h1.symm, if_false]
    by_cases hk : (x, k) ∈ s.kids
    · rw [if_pos hk, h3]
      have hm : p ∈ it.rem.filter (· ≠ x) := by simp [h5, h2.symm]
      have hne : it.rem.filter (· ≠ x) ≠ [] := fun e => by rw [e] at hm; cases hm
      exact ⟨_, rfl, by simp only [resolve, h4, hne, and_false, if_false], by simpa only [resolve] using hm⟩
    · rw [if_neg hk]; exact ⟨it, h3, h4, h5⟩

theorem stuck_qset {s s' : S} {k p x a b} (h : Stuck k p s) (ha : a ≠ .dependent) (hs : qSet s x a b = some s') : Stuck k p s' := by
  obtain ⟨it, h3, h4, h5⟩ := h
  unfold qSet at hs
  split at hs
  · rename_i it' hx
    split at hs
    · rename_i e
      cases hs
      have : k ≠ x := by
        intro e'
        subst e'
        rw [h3] at hx; cases hx
        exact ha (by rw [← e, h4])
      exact ⟨it, by simp only [this, if_false]; exact h3, h4, h5⟩
    · cases hs
  · cases hs

theorem stuck_kick {s s' : S} {k p x} (h : Stuck k p s) (hs : qKick s x = some s') : Stuck k p s' := by
  obtain ⟨it, h3, h4, h5⟩ := h
  unfold qKick at hs
  split at hs
  · rename_i it' hx
    split at hs
    · rename_i e
      cases hs
      have : k ≠ x := by
        intro e'
        subst e'
        rw [h3] at hx; cases hx
        rw [h4] at e; cases e
      exact ⟨it, by simp only [this, if_false]; exact h3, h4, h5⟩
    · cases hs
  · cases hs

theorem qset_dom {s s' : S} {x a b} (hs : qSet s x a b = some s') (y) : (s'.q y).isSome = (s.q y).isSome ∧ s'.kids = s.kids := by
  unfold qSet at hs
  split at hs
  · split at hs
    · cases hs
      refine ⟨?_, rfl⟩
      by_cases hy : y = x
      · subst hy; simp [*]
      · simp [hy]
    · cases hs
  · cases hs

theorem qkick_dom {s s' : S} {x} (hs : qKick s x = some s') (y) : (s'.q y).isSome = (s.q y).isSome ∧ s'.kids = s.kids := by
  unfold qKick at hs
  split at hs
  · split at hs
    · cases hs
      refine ⟨?_, rfl⟩
      by_cases hy : y = x
      · subst hy; simp [*]
      · simp [hy]
    · cases hs
  · cases hs

theorem qremove_none {s : S} {x y} (h : s.q y = none) : (qRemove s x).q y = none := by
  unfold qRemove
  split
  · exact h
  · simp only [h]
    grind

/-- a job that waits for one that is not in the queue goes on waiting, whatever
runners and users do with the jobs, as long as it isn't deleted -/
theorem lost_step {s s' : S} {k p o} (h : Stuck k p s) (hp : s.q p = none) (hw : Work o) (hd : o ≠ .delete k)
    (hs : step s o = some s') : Stuck k p s' ∧ s'.q p = none := by
  have isn : ∀ s' : S, (s'.q p).isSome = (s.q p).isSome → s'.q p = none := by
    intro s' e; rw [hp] at e; simpa using e
  have hkp : k ≠ p := by
    intro e; obtain ⟨it, h1, _⟩ := h; rw [e, hp] at h1; cases h1
  cases o <;> simp only [step] at hs <;> try exact hw.elim
  case reserve x => exact ⟨stuck_qset h (by simp) hs, isn _ (qset_dom hs p).1⟩
  case release x => exact ⟨stuck_qset h (by simp) hs, isn _ (qset_dom hs p).1⟩
  case bury x => exact ⟨stuck_qset h (by simp) hs, isn _ (qset_dom hs p).1⟩
  case kick x => exact ⟨stuck_kick h hs, isn _ (qkick_dom hs p).1⟩
  case archive x =>
    split at hs
    · rename_i it j hq hl
      split at hs
      · rename_i e
        cases hs
        have h1 : x ≠ k := by
          intro e'; subst e'
          obtain ⟨it', h3, h4, _⟩ := h
          rw [hq] at h3; cases h3; rw [e] at h4; cases h4
        have h2 : x ≠ p := by intro e'; subst e'; rw [hp] at hq; cases hq
        exact ⟨stuck_remove (s := { s with live := _, comp := _ }) h h1 h2, qremove_none hp⟩
      · cases hs
    · cases hs
  case delete x =>
    split at hs
    · rename_i it hq
      split at hs
      · cases hs
        have h1 : x ≠ k := by intro e; subst e; exact hd rfl
        have h2 : x ≠ p := by intro e'; subst e'; rw [hp] at hq; cases hq
        exact ⟨stuck_remove (s := { s with live := _ }) h h1 h2, qremove_none hp⟩
      · cases hs
    · cases hs

theorem lost_run {k p} : ∀ os (s s' : S), Stuck k p s → s.q p = none → (∀ o ∈ os, Work o ∧ o ≠ .delete k) → run s os = some s' →
    Stuck k p s'
  | [], s, s', h, _, _, hr => by simp only [run] at hr; cases hr; exact h
  | o :: os, s, s', h, hp, hw, hr => by
    simp only [run, Option.bind_eq_some_iff] at hr
    obtain ⟨s1, h1, h2⟩ := hr
    obtain ⟨h3, h4⟩ := lost_step h hp (hw o (by simp)).1 (hw o (by simp)).2 h1
    exact lost_run os s1 s' h3 h4 (fun o ho => hw o (by simp [ho])) h2

theorem known_step {s s' : S} {o} (h : ∀ k, (s.live k).isSome → k ∈ s.known) (hs : step s o = some s') :
    ∀ k, (s'.live k).isSome → k ∈ s'.known := by
  have hst : ∀ (s : S) js back, (∀ k, (s.live k).isSome → k ∈ s.known) → ∀ k, ((store s js back).live k).isSome → k ∈ (store s js back).known := by
    intro s js back h k hk
    simp only [store, List.mem_append, List.mem_map]
    rcases store_live_or s js back k with ⟨b, hb, e⟩ | ⟨_, e⟩
    · exact .inr ⟨b, by simpa using hb, e⟩
    · exact .inl (h k (by rw [← e]; exact hk))
  have hset : ∀ x a b, qSet s x a b = some s' → ∀ k, (s'.live k).isSome → k ∈ s'.known := by
    intro x a b hs
    unfold qSet at hs
    split at hs
    · split at hs
      · cases hs; exact h
      · cases hs
    · cases hs
  have hgone : ∀ x (c : Key → Option Job) k, ((qRemove { s with live := fun y => if y = x then none else s.live y, comp := c } x).live k).isSome →
      k ∈ (qRemove { s with live := fun y => if y = x then none else s.live y, comp := c } x).known := by
    intro x c k hk
    obtain ⟨e1, _, _, _, e5⟩ := qRemove_db { s with live := fun y => if y = x then none else s.live y, comp := c } x
    rw [e1] at hk
    rw [e5]
    apply h
    by_cases hx : k = x <;> simp_all
  have hmod : ∀ x J, (s.live x).isSome → ∀ k, ((modDb s x J).live k).isSome → k ∈ (modDb s x J).known := by
    intro x J hx k hk
    rw [modDb_isSome hx] at hk
    exact h k hk
  cases o <;> simp only [step] at hs
  case add js back upd =>
    unfold stepAdd at hs
    split at hs
    · simp only [Option.map_eq_some_iff] at hs
      obtain ⟨s2, hu, rfl⟩ := hs
      obtain ⟨⟨u1, _, _, _, u5⟩, _⟩ := upd_spec _ _ _ hu
      obtain ⟨e1, _, _, _, e5⟩ := enq_db (findDeps (store s js back) (back ++ js)) s2
      rw [e1, e5, u1, u5]
      exact hst s js back h
    · cases hs
  case prep =>
    split at hs
    · cases hs; exact h
    · cases hs
  case store t =>
    simp only [Option.map_eq_some_iff] at hs
    obtain ⟨a, _, rfl⟩ := hs
    exact hst s a.jobs a.back h
  case deps t =>
    simp only [Option.map_eq_some_iff] at hs
    obtain ⟨a, _, rfl⟩ := hs
    exact h
  case upd t =>
    simp only [Option.bind_eq_some_iff] at hs
    obtain ⟨a, _, hu⟩ := hs
    obtain ⟨⟨u1, _, _, _, u5⟩, _⟩ := upd_spec _ _ _ hu
    rw [u1, u5]; exact h
  case enq t =>
    simp only [Option.map_eq_some_iff] at hs
    obtain ⟨a, _, rfl⟩ := hs
    obtain ⟨e1, _, _, _, e5⟩ := enq_db a.found s
    rw [e1, e5]; exact h
  case reserve x => exact hset _ _ _ hs
  case release x => exact hset _ _ _ hs
  case bury x => exact hset _ _ _ hs
  case kick x =>
    unfold qKick at hs
    split at hs
    · split at hs
      · cases hs; exact h
      · cases hs
    · cases hs
  case archive x =>
    split at hs
    · split at hs
      · cases hs; exact hgone x _
      · cases hs
    · cases hs
  case arch1 x =>
    split at hs
    · split at hs
      · cases hs
        intro k hk
        apply h
        simp only at hk
        by_cases hx : k = x <;> simp_all
      · cases hs
    · cases hs
  case arch2 x =>
    cases hs
    obtain ⟨e1, _, _, _, e5⟩ := qRemove_db s x
    rw [e1, e5]; exact h
  case delete x =>
    split at hs
    · split at hs
      · cases hs; exact hgone x s.comp
      · cases hs
    · cases hs
  case modDeps x ds =>
    split at hs
    · rename_i it j hq hl
      split at hs
      · cases hs
        obtain ⟨e1, _, _, _, e5⟩ := qUpdate_db (modDb s x { j with deps := ds }) x (incomplete (modDb s x { j with deps := ds }) ds)
        rw [e1, e5]
        exact hmod x _ (by simp [hl])
      · cases hs
    · cases hs
  case modGroups x gs =>
    split at hs
    · rename_i it j hq hl
      split at hs
      · cases hs
        exact hmod x _ (by simp [hl])
      · cases hs
    · cases hs
  case rename x y =>
    split at hs
    · rename_i it j hq hl
      split at hs
      · cases hs
        intro k hk
        simp only [doRename, List.mem_append, List.mem_singleton] at hk ⊢
        by_cases h1 : k = y
        · exact .inr h1
        · rw [if_neg h1] at hk
          by_cases h2 : k = x
          · rw [if_pos h2] at hk; cases hk
          · rw [if_neg h2] at hk; exact .inl (h k hk)
      · cases hs
    · cases hs
  case restart st =>
    split at hs
    · cases hs
      obtain ⟨e1, _, _, _, e5⟩ := enq_db (recovered s st) { s with q := fun _ => none, kids := [], adding := [] }
      rw [e1, e5]; exact h
    · cases hs

theorem known_run (os : List Op) (s : S) (hr : run init os = some s) (k) (hk : (s.live k).isSome) : k ∈ s.known := by
  have : ∀ os (a : S), (∀ k, (a.live k).isSome → k ∈ a.known) → run a os = some s → ∀ k, (s.live k).isSome → k ∈ s.known := by
    intro os
    induction os with
    | nil => intro a h hr; simp only [run] at hr; cases hr; exact h
    | cons o os ih =>
      intro a h hr
      simp only [run, Option.bind_eq_some_iff] at hr
      obtain ⟨s1, h1, h2⟩ := hr
      exact ih s1 (known_step h h1) h2
  exact this os init (by simp [init]) hr k hk

/-- no incomplete job is in the group -/
def noneIn (s : S) (g : Grp) : Bool := s.known.all fun k => match s.live k with | some A => !A.groups.contains g | none => true

theorem noneIn_spec {os : List Op} {s : S} (hr : run init os = some s) {g} (h : noneIn s g = true) (j A) (hA : s.live j = some A) :
    g ∉ A.groups := by
  have := List.all_eq_true.1 h j (known_run os s hr j (by simp [hA]))
  rw [hA] at this
  simpa using this

def race : List Op := [.add [j1] [] [], .reserve 1,
  -- job 3 is added; its dependencies are looked up before 1 is archived, and it is queued after
  .prep [j3] [] [], .store 0, .deps 0, .archive 1, .upd 0, .enq 0]

/-- C127 is violated when a job is archived while one that depends on it is being
added: the dependencies are looked up before, and the queue gets the new job after
the archived one has left it.  The new job depends on nothing that is incomplete, and
waits; and whatever happens to the jobs, it is not handed out, until it is changed or
deleted, or the server is restarted. -/
theorem C127_violated_lost : ∃ s, run init race = some s ∧ (∀ j, ¬ Needs s 3 j) ∧ at? s 3 = some .dependent ∧
    ∀ os s', (∀ o ∈ os, Work o ∧ o ≠ .delete 3) → run s os = some s' → at? s' 3 = some .dependent := by
  refine ⟨_, rfl, ?_, by decide, ?_⟩
  · rintro j ⟨B, A, hB, hA, ho⟩
    have hB' : some j3 = some B := hB
    obtain rfl := Option.some.inj hB'
    rcases ho with ho | ⟨g, hg, ho⟩
    · simp [j3] at ho
    · simp [j3] at ho
      subst ho
      exact noneIn_spec (os := race) (g := 9) rfl (by decide) j A hA hg
  · intro os s' hw hr
    obtain ⟨it, h1, h2, _⟩ := lost_run (p := 1) os _ s' ⟨⟨.dependent, [1], [1]⟩, by decide, rfl, by simp⟩ (by decide) hw hr
    simp [at?, h1, h2]

/-- C127 is violated when a job is added to a group at the time at which one that
depends on the group is added: neither request sees the other's job, and the second
job runs although the first is incomplete. -/
theorem C127_violated_early : ∃ s s', run init [.prep [j1] [] [], .prep [j3] [] [], .store 1, .deps 1, .store 0, .deps 0,
      .upd 0, .enq 0, .upd 1, .enq 1] = some s ∧ Needs s 3 1 ∧ step s (.reserve 3) = some s' :=
  ⟨_, _, rfl, ⟨j3, j1, rfl, rfl, .inr ⟨9, by decide, by decide⟩⟩, rfl⟩

/-- C127 is violated when the groups of a job are changed: those that depend on its
new group do not wait for it. -/
theorem C127_violated_new_group : ∃ s s', run init [.add [⟨1, [], []⟩] [] [], .add [j3] [] [], .modGroups 1 [9]] = some s ∧
    Needs s 3 1 ∧ step s (.reserve 3) = some s' :=
  ⟨_, _, rfl, ⟨j3, j1, rfl, rfl, .inr ⟨9, by decide, by decide⟩⟩, rfl⟩

/-- C127 is violated in the other direction: those that depend on its old group go on
waiting for it. -/
theorem C127_violated_old_group : ∃ s, run init [.add [j1] [] [], .add [j3] [] [], .modGroups 1 []] = some s ∧
    (∀ j A, s.live j = some A → 9 ∉ A.groups) ∧ at? s 3 = some .dependent ∧ step s (.reserve 3) = none := by
  refine ⟨_, rfl, ?_, by decide, rfl⟩
  exact noneIn_spec (os := [.add [j1] [] [], .add [j3] [] [], .modGroups 1 []]) rfl (by decide)

/-- C127 is violated when the command of a job is changed, and with it its key: those
that depend on it go on waiting for it, but their records name the old key, so that
after a restart they don't. -/
theorem C127_violated_renamed : ∃ s s2 s3, run init [.add [⟨3, [], []⟩] [] [], .add [j4] [] [], .rename 3 5] = some s ∧
    at? s 4 = some .dependent ∧ at? s 5 = some .ready ∧
    step s (.restart fun _ => .ready) = some s2 ∧ at? s2 5 = some .ready ∧ step s2 (.reserve 4) = some s3 :=
  ⟨_, _, _, rfl, by decide, by decide, rfl, by decide, rfl⟩

/-- C127 is violated when a job is deleted and its command added again, without the
group: those that depend on the group wait for it, because the lookups of the deleted
job are kept. -/
theorem C127_violated_stale : ∃ s, run init [.add [j1] [] [], .delete 1, .add [⟨1, [], []⟩] [] [], .add [j3] [] []] = some s ∧
    (∀ j A, s.live j = some A → 9 ∉ A.groups) ∧ at? s 3 = some .dependent := by
  refine ⟨_, rfl, ?_, by decide⟩
  exact noneIn_spec (os := [.add [j1] [] [], .delete 1, .add [⟨1, [], []⟩] [] [], .add [j3] [] []]) rfl (by decide)

/-- C127 is violated when a job is added to a group that a running job depends on:
the running job waits again, the runner that has it cannot archive it, and when the
new job is complete it is handed out again. -/
theorem C127_violated_running : ∃ s s2 s3, run init [.add [j3] [] [], .reserve 3, .add [j1] [] [3]] = some s ∧
    at? s 3 = some .dependent ∧ step s (.archive 3) = none ∧ step s (.release 3) = none ∧
    run s [.reserve 1, .archive 1] = some s2 ∧ step s2 (.reserve 3) = some s3 :=
  ⟨_, _, _, rfl, by decide, rfl, rfl, rfl, rfl⟩

/-- `a` and `b` wait for each other -/
def Cycle (a b : Key) (s : S) : Prop := Stuck a b s ∧ Stuck b a s ∧ (a, b) ∈ s.kids ∧ (b, a) ∈ s.kids

theorem cycle_step {s s' : S} {a b o} (h : Cycle a b s) (hw : Work o) (hs : step s o = some s') : Cycle a b s' := by
  obtain ⟨ha, hb, hab, hba⟩ := h
  have hrem : ∀ x (s1 : S), s1.q = s.q → s1.kids = s.kids → x ≠ a → x ≠ b → Cycle a b (qRemove s1 x) := by
    intro x s1 e1 e2 h1 h2
    have ha' : Stuck a b s1 := by unfold Stuck; rw [e1]; exact ha
    have hb' : Stuck b a s1 := by unfold Stuck; rw [e1]; exact hb
    refine ⟨stuck_remove ha' h1 h2, stuck_remove hb' h2 h1, ?_, ?_⟩
    all_goals
      unfold qRemove
      split
      · rw [e2]; assumption
      · rw [e2]; simp only [List.mem_filter]; refine ⟨by assumption, by simp [h1.symm, h2.symm]⟩
  cases o <;> simp only [step] at hs <;> try exact hw.elim
  case reserve x => exact ⟨stuck_qset ha (by simp) hs, stuck_qset hb (by simp) hs, by rw [(qset_dom hs a).2]; exact hab, by rw [(qset_dom hs a).2]; exact hba⟩
  case release x => exact ⟨stuck_qset ha (by simp) hs, stuck_qset hb (by simp) hs, by rw [(qset_dom hs a).2]; exact hab, by rw [(qset_dom hs a).2]; exact hba⟩
  case bury x => exact ⟨stuck_qset ha (by simp) hs, stuck_qset hb (by simp) hs, by rw [(qset_dom hs a).2]; exact hab, by rw [(qset_dom hs a).2]; exact hba⟩
  case kick x => exact ⟨stuck_kick ha hs, stuck_kick hb hs, by rw [(qkick_dom hs a).2]; exact hab, by rw [(qkick_dom hs a).2]; exact hba⟩
  case archive x =>
    split at hs
    · rename_i it j hq hl
      split at hs
      · rename_i e
        cases hs
        refine hrem x _ rfl rfl ?_ ?_
        · intro e'; subst e'
          obtain ⟨it', h3, h4, _⟩ := ha
          rw [hq] at h3; cases h3; rw [e] at h4; cases h4
        · intro e'; subst e'
          obtain ⟨it', h3, h4, _⟩ := hb
          rw [hq] at h3; cases h3; rw [e] at h4; cases h4
      · cases hs
    · cases hs
  case delete x =>
    split at hs
    · rename_i it hq
      split at hs
      · rename_i e
        cases hs
        refine hrem x _ rfl rfl ?_ ?_
        · intro e'; subst e'
          have := List.all_eq_true.1 e.2 _ hab
          simp at this
        · intro e'; subst e'
          have := List.all_eq_true.1 e.2 _ hba
          simp at this
      · cases hs
    · cases hs

/-- C127 is violated by jobs that depend on each other: they are accepted, never
handed out, and cannot be deleted. -/
theorem C127_violated_cycle : ∃ s, run init [.add [⟨1, [], [.key 2]⟩, ⟨2, [], [.key 1]⟩] [] []] = some s ∧
    ∀ os s', (∀ o ∈ os, Work o) → run s os = some s' →
      at? s' 1 = some .dependent ∧ at? s' 2 = some .dependent ∧ step s' (.delete 1) = none ∧ step s' (.delete 2) = none := by
  refine ⟨_, rfl, ?_⟩
  have key : ∀ os (s s' : S), Cycle 1 2 s → (∀ o ∈ os, Work o) → run s os = some s' → Cycle 1 2 s' := by
    intro os
    induction os with
    | nil => intro s s' h _ hr; simp only [run] at hr; cases hr; exact h
    | cons o os ih =>
      intro s s' h hw hr
      simp only [run, Option.bind_eq_some_iff] at hr
      obtain ⟨s1, h1, h2⟩ := hr
      exact ih s1 s' (cycle_step h (hw o (by simp)) h1) (fun o ho => hw o (by simp [ho])) h2
  intro os s' hw hr
  obtain ⟨⟨i1, h1, h2, _⟩, ⟨i2, h3, h4, _⟩, h5, h6⟩ := key os _ s'
    ⟨⟨⟨.dependent, [2], [2]⟩, rfl, rfl, by decide⟩, ⟨⟨.dependent, [1], [1]⟩, rfl, rfl, by decide⟩, by decide, by decide⟩ hw hr
  refine ⟨by simp [at?, h1, h2], by simp [at?, h3, h4], ?_, ?_⟩
  · simp only [step, h1]
    rw [if_neg]
    intro h
    have := List.all_eq_true.1 h.2 _ h5
    simp at this
  · simp only [step, h3]
    rw [if_neg]
    intro h
    have := List.all_eq_true.1 h.2 _ h6
    simp at this

end Verif.Server.Waits
