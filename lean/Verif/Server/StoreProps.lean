import Verif.Server.StoreInv
/-!
# C82: jobs are found by their report group
# C83: new jobs bring back what depends on their groups
# C84: complete jobs are left out on request
# C85: a restart finds the jobs that were in the queue
-/
namespace Verif.Server.Store
open Verif.Util.Bolt

namespace Spec

/-- nothing of what the violations below show: complete jobs do not come back together with a request that leaves out jobs, nor
by a modification; and jobs that have been complete before are not modified -/
def Quiet (s : St) : Op → Prop
  | .add js ig => ig = true → (dependents s (kept s js ig)).toQueue = []
  | .modify ks c => (dependents s ((modifyLoop s c ks []).map (·.2))).toQueue = [] ∧
      ∀ m ∈ modifyLoop s c ks [], get m.1 s.complete = none
  | _ => True

def Along (P : St → Op → Prop) : St → List Op → Prop
  | _, [] => True
  | s, op :: ops => P s op ∧ Along P (step s op) ops

/-- the jobs that were stored as dependent on one of the groups, or on a group of such a job, and so on -/
inductive Needs (E : Key → Key → Prop) (s : St) (new : List Key) (gs : List Key) : Key → Prop
  | base {g k : Key} : g ∈ gs → E k g → stored s new k ≠ none → Needs E s new gs k
  | step {k k' g : Key} {r : Rec} : Needs E s new gs k → stored s new k = some r → g ∈ r.depGroups → g ≠ [] →
      E k' g → stored s new k' ≠ none → Needs E s new gs k'

end Spec
open Spec

instance (s : St) (op : Op) : Decidable (Quiet s op) := by
  cases op <;> unfold Quiet <;> infer_instance

instance (P : St → Op → Prop) [∀ s op, Decidable (P s op)] : ∀ (ops : List Op) (s : St), Decidable (Along P s ops)
  | [], s => by unfold Along; infer_instance
  | op :: ops, s => by
    unfold Along
    have := instDecidableAlong P ops (step s op)
    infer_instance

/-! ## the keys by rep group -/

theorem mem_rplAdd (l : List (Key × Key)) (e x : Key × Key) : x ∈ rplAdd l e ↔ x ∈ l ∨ x = e := by
  unfold rplAdd
  split
  · rename_i h
    constructor
    · exact .inl
    · rintro (h1 | rfl)
      · exact h1
      · exact h
  · simp

theorem mem_rplAdds (l' : List (Key × Key)) (x : Key × Key) : ∀ l, (x ∈ l'.foldl rplAdd l ↔ x ∈ l ∨ x ∈ l') := by
  induction l' with
  | nil => intro l; simp
  | cons e l' ih => intro l; rw [List.foldl_cons, ih, mem_rplAdd]; simp [or_assoc]

theorem nodup_rplAdd (l : List (Key × Key)) (e : Key × Key) (h : l.Nodup) : (rplAdd l e).Nodup := by
  unfold rplAdd
  split
  · exact h
  · rename_i hn
    rw [List.nodup_append]
    refine ⟨h, by simp, ?_⟩
    intro a ha b hb
    simp only [List.mem_singleton] at hb
    rintro rfl
    exact hn (hb ▸ ha)

theorem nodup_rplAdds (l' : List (Key × Key)) : ∀ l, l.Nodup → (l'.foldl rplAdd l).Nodup := by
  induction l' with
  | nil => intro l h; exact h
  | cons e l' ih => intro l h; exact ih _ (nodup_rplAdd l e h)

theorem mem_rplDelete (l : List (Key × Key)) (e x : Key × Key) : x ∈ rplDelete l e ↔ x ∈ l ∧ x ≠ e := by
  simp [rplDelete]

theorem nodup_rplDelete (l : List (Key × Key)) (e : Key × Key) (h : l.Nodup) : (rplDelete l e).Nodup := h.filter _

theorem changeRpl_cons (m : Key × Job) (ms : List (Key × Job)) (l : List (Key × Key)) : changeRpl (m :: ms) l =
    changeRpl ms (if m.1 = m.2.key then l else rplAdd (rplDelete l (m.2.rec'.repGroup, m.1)) (m.2.rec'.repGroup, m.2.key)) := rfl

theorem changeRpl_stay (g x : Key) (ms : List (Key × Job)) : (∀ m ∈ ms, m.1 = x → m.2.key = x) → ∀ l, (g, x) ∈ l →
    (g, x) ∈ changeRpl ms l := by
  induction ms with
  | nil => intro _ l h; exact h
  | cons m ms ih =>
    intro hx l h
    rw [changeRpl_cons]
    refine ih (fun m' hm' => hx m' (List.mem_cons_of_mem _ hm')) _ ?_
    split
    · exact h
    · rename_i hne
      rw [mem_rplAdd, mem_rplDelete]
      refine .inl ⟨h, ?_⟩
      intro e
      have e1 : x = m.1 := by simpa using congrArg Prod.snd e
      exact hne (e1 ▸ (hx m (by simp) e1.symm).symm)

theorem changeRpl_added (m : Key × Job) (ms : List (Key × Job)) (hne : m.1 ≠ m.2.key) (hm : m ∈ ms)
    (hx : ∀ m' ∈ ms, m'.1 = m.2.key → m'.2.key = m.2.key) : ∀ l, (m.2.rec'.repGroup, m.2.key) ∈ changeRpl ms l := by
  induction ms with
  | nil => cases hm
  | cons m' ms ih =>
    intro l
    rw [changeRpl_cons]
    rcases List.mem_cons.1 hm with rfl | hm
    · refine changeRpl_stay _ _ ms (fun m' hm' => hx m' (List.mem_cons_of_mem _ hm')) _ ?_
      rw [if_neg hne, mem_rplAdd]
      exact .inr rfl
    · exact ih hm (fun m' hm' => hx m' (List.mem_cons_of_mem _ hm')) _

theorem changeRpl_sub (x : Key × Key) (ms : List (Key × Job)) : ∀ l, x ∈ changeRpl ms l →
    x ∈ l ∨ ∃ m ∈ ms, x = (m.2.rec'.repGroup, m.2.key) := by
  induction ms with
  | nil => intro l h; exact .inl h
  | cons m ms ih =>
    intro l h
    rw [changeRpl_cons] at h
    rcases ih _ h with h1 | ⟨m', hm', e⟩
    · split at h1
      · exact .inl h1
      · rcases (mem_rplAdd _ _ _).1 h1 with h2 | h2
        · exact .inl ((mem_rplDelete _ _ _).1 h2).1
        · exact .inr ⟨m, by simp, h2⟩
    · exact .inr ⟨m', List.mem_cons_of_mem _ hm', e⟩

theorem nodup_changeRpl (ms : List (Key × Job)) : ∀ l, l.Nodup → (changeRpl ms l).Nodup := by
  induction ms with
  | nil => intro l h; exact h
  | cons m ms ih =>
    intro l h
    rw [changeRpl_cons]
    refine ih _ ?_
    split
    · exact h
    · exact nodup_rplAdd _ _ (nodup_rplDelete _ _ h)

theorem nodup_step (s : St) (op : Op) (h : s.rpl.Nodup) : (step s op).rpl.Nodup := by
  cases op with
  | add js ig =>
    simp only [step, add]
    split
    · exact nodup_rplAdds _ _ h
    · exact h
  | archive k d =>
    simp only [step, archive]
    split
    · exact h
    · exact nodup_rplDelete _ _ h
  | delete k =>
    simp only [step, delete1]
    split
    · exact h
    · exact nodup_rplDelete _ _ h
  | modify ks c => exact nodup_changeRpl _ _ h
  | restart => exact nodup_rplAdds _ _ (by simp)

theorem nodup_run (ops : List Op) : ∀ s, s.rpl.Nodup → (run s ops).rpl.Nodup := by
  induction ops with
  | nil => intro s h; exact h
  | cons op ops ih => intro s h; exact ih _ (nodup_step s op h)

theorem get_restart (s : St) (hg : Good s) (k : Key) : get k (restart s).queue = get k s.live := by
  unfold restart
  simp only
  rcases get_enqueue_cases (s.live.map fun e => (⟨e.1, e.2⟩ : Job)) k [] with ⟨h, _⟩ | ⟨_, j, hj, rfl, h⟩ | ⟨_, hn, h⟩
  · cases h
  · obtain ⟨e, he, rfl⟩ := List.mem_map.1 hj
    rw [h]
    exact ((mem_iff_get e.1 e.2 _ hg.sl).1 he).symm
  · rw [h]
    cases hl : get k s.live with
    | none => rfl
    | some r =>
      exfalso
      apply hn
      rw [List.mem_map]
      exact ⟨⟨k, r⟩, List.mem_map.2 ⟨(k, r), mem_of_get k r _ hl, rfl⟩, rfl⟩

/-! ## what is found was asked for -/

structure OInv (s : St) (E : Key → Key → Prop) : Prop where
  live : ∀ k r, get k s.live = some r → E k r.repGroup
  complete : ∀ k r, get k s.complete = some r → E k r.repGroup
  queue : ∀ k r, get k s.queue = some r → E k r.repGroup
  rpl : ∀ e ∈ s.rpl, E e.2 e.1

theorem oinv_step (s : St) (hg : Good s) (op : Op) (hw : Wf op) (E : Key → Key → Prop) (h : OInv s E) :
    OInv (step s op) fun k g => E k g ∨ ∃ j ∈ named s op, j.key = k ∧ j.rec'.repGroup = g := by
  cases op with
  | add js ig =>
    have hres : ∀ j ∈ (dependents s (kept s js ig)).toQueue, E j.key j.rec'.repGroup := fun j hj =>
      h.complete _ _ ((mem_dependents_queue s hg _ j).1 hj).2.2.2
    have hnew : ∀ j ∈ js, ∃ j' ∈ named s (.add js ig), j'.key = j.key ∧ j'.rec'.repGroup = j.rec'.repGroup :=
      fun j hj => ⟨j, hj, rfl, rfl⟩
    have hlive : ∀ k r, get k (store s (kept s js ig) (prepare s js ig).encoded).live = some r →
        E k r.repGroup ∨ ∃ j ∈ named s (.add js ig), j.key = k ∧ j.rec'.repGroup = r.repGroup := by
      intro k r hr
      rcases get_putJobs_cases (prepare s js ig).encoded s.live k with ⟨j, hj, rfl, he⟩ | ⟨_, he⟩
      · simp only [store] at hr
        rw [he] at hr; cases hr
        rcases (mem_encoded s js ig j).1 hj with h1 | ⟨_, h1⟩
        · exact .inr (hnew j (kept_sub h1))
        · exact .inl (hres j h1)
      · simp only [store] at hr
        rw [he] at hr
        exact .inl (h.live k r hr)
    have hupd : ∀ k r, get k (updateJobs (prepare s js ig).toUpdate s.queue).1 = some r → E k r.repGroup := by
      intro k r hr
      rcases (updateJobs_cases (prepare s js ig).toUpdate k s.queue).2 with e | ⟨j, hj, rfl, e⟩
      · rw [e] at hr; exact h.queue k r hr
      · rw [e] at hr; cases hr
        exact h.live _ _ ((mem_dependents_update s hg _ j).1 ((mem_toUpdate s js ig j).1 hj).2).2
    have htq : ∀ j ∈ (prepare s js ig).toQueue, E j.key j.rec'.repGroup ∨
        ∃ j' ∈ named s (.add js ig), j'.key = j.key ∧ j'.rec'.repGroup = j.rec'.repGroup := by
      intro j hj
      rcases mem_toQueue s js ig j hj with h1 | ⟨_, h1⟩
      · exact .inr (hnew j h1)
      · exact .inl (hres j h1)
    simp only [step, add]
    split
    · refine ⟨hlive, fun k r hr => .inl (h.complete k r hr), ?_, ?_⟩
      · intro k r hr
        simp only at hr
        rcases get_enqueue_cases (prepare s js ig).toQueue k (updateJobs (prepare s js ig).toUpdate s.queue).1 with
          ⟨_, e⟩ | ⟨_, j, hj, rfl, e⟩ | ⟨_, _, e⟩
        · exact .inl (hupd k r (e ▸ hr))
        · rw [show (store s (kept s js ig) (prepare s js ig).encoded).queue = s.queue from rfl, e] at hr
          cases hr
          exact htq j hj
        · rw [show (store s (kept s js ig) (prepare s js ig).encoded).queue = s.queue from rfl, e] at hr
          cases hr
      · intro e he
        rcases (mem_rplAdds _ _ _).1 he with h1 | h1
        · exact .inl (h.rpl e h1)
        · obtain ⟨j, hj, rfl⟩ := List.mem_map.1 h1
          exact htq j hj
    · exact ⟨hlive, fun k r hr => .inl (h.complete k r hr), fun k r hr => .inl (hupd k r hr), fun e he => .inl (h.rpl e he)⟩
  | archive k d =>
    simp only [step, archive]
    cases hk : get k s.queue with
    | none => exact ⟨fun x r hr => .inl (h.live x r hr), fun x r hr => .inl (h.complete x r hr), fun x r hr => .inl (h.queue x r hr),
        fun e he => .inl (h.rpl e he)⟩
    | some r =>
      refine ⟨?_, ?_, ?_, fun e he => .inl (h.rpl e ((mem_rplDelete _ _ _).1 he).1)⟩
      · intro x r' hr; simp only [get_delete] at hr
        split at hr
        · cases hr
        · exact .inl (h.live x r' hr)
      · intro x r' hr; simp only [get_put] at hr
        split at hr
        · rename_i e; cases hr; rw [e]; exact .inl (h.queue k r hk)
        · exact .inl (h.complete x r' hr)
      · intro x r' hr; simp only [get_delete] at hr
        split at hr
        · cases hr
        · exact .inl (h.queue x r' hr)
  | delete k =>
    simp only [step, delete1]
    cases hk : get k s.queue with
    | none => exact ⟨fun x r hr => .inl (h.live x r hr), fun x r hr => .inl (h.complete x r hr), fun x r hr => .inl (h.queue x r hr),
        fun e he => .inl (h.rpl e he)⟩
    | some r =>
      refine ⟨?_, fun x r hr => .inl (h.complete x r hr), ?_, fun e he => .inl (h.rpl e ((mem_rplDelete _ _ _).1 he).1)⟩
      · intro x r' hr; simp only [get_delete] at hr
        split at hr
        · cases hr
        · exact .inl (h.live x r' hr)
      · intro x r' hr; simp only [get_delete] at hr
        split at hr
        · cases hr
        · exact .inl (h.queue x r' hr)
  | modify ks c =>
    have hm := minv s c ks
    have hnew : ∀ m ∈ modifyLoop s c ks [], ∃ j ∈ named s (.modify ks c), j.key = m.2.key ∧ j.rec'.repGroup = m.2.rec'.repGroup :=
      fun m hm' => ⟨m.2, List.mem_map.2 ⟨m, hm', rfl⟩, rfl, rfl⟩
    refine ⟨?_, fun x r hr => .inl (h.complete x r hr), ?_, ?_⟩
    · intro k r hr
      simp only [step, modify, modifyDb, store] at hr
      rcases get_putJobs_cases (prepare s ((modifyLoop s c ks []).map (·.2)) false).encoded
        (((modifyLoop s c ks []).map (·.1)).foldl (fun b k => delete k b) s.live) k with ⟨j, hj, rfl, he⟩ | ⟨_, he⟩
      · rw [he] at hr; cases hr
        rcases (mem_encoded s _ false j).1 hj with h1 | ⟨_, h1⟩
        · exact .inr ⟨j, h1, rfl, rfl⟩
        · exact .inl (h.complete _ _ ((mem_dependents_queue s hg _ j).1 h1).2.2.2)
      · rw [he, get_deletes] at hr
        split at hr
        · cases hr
        · exact .inl (h.live k r hr)
    · intro k r hr
      simp only [step, modify] at hr
      rcases changeQueue_cases hm k with ⟨m, hm', rfl, e⟩ | ⟨_, _, e⟩ | ⟨_, _, e⟩
      · rw [e] at hr; cases hr
        exact .inr (hnew m hm')
      · rw [e] at hr; cases hr
      · rw [e] at hr; exact .inl (h.queue k r hr)
    · intro e he
      rcases changeRpl_sub e _ _ he with h1 | ⟨m, hm', rfl⟩
      · exact .inl (h.rpl e h1)
      · exact .inr (hnew m hm')
  | restart =>
    refine ⟨fun x r hr => .inl (h.live x r hr), fun x r hr => .inl (h.complete x r hr), ?_, ?_⟩
    · intro x r hr
      simp only [step] at hr
      rw [get_restart s hg] at hr
      exact .inl (h.live x r hr)
    · intro e he
      rcases (mem_rplAdds _ _ _).1 he with h1 | h1
      · cases h1
      · obtain ⟨j, hj, rfl⟩ := List.mem_map.1 h1
        obtain ⟨x, hx, rfl⟩ := List.mem_map.1 hj
        exact .inl (h.live _ _ ((mem_iff_get x.1 x.2 _ hg.sl).1 hx))

theorem oinv_run (ops : List Op) : ∀ s, Good s → (∀ op ∈ ops, Wf op) → ∀ E, OInv s E → OInv (run s ops) (once s ops E) := by
  induction ops with
  | nil => intro s _ _ E h; exact h
  | cons op ops ih =>
    intro s hg hw E h
    exact ih _ (good_step s hg op (hw op (by simp))) (fun o ho => hw o (List.mem_cons_of_mem _ ho)) _
      (oinv_step s hg op (hw op (by simp)) E h)

theorem once_of_ever (ops : List Op) : ∀ s (E E' : Key → Key → Prop), (∀ k g, E k g → E' k g) → ∀ k g,
    ever reps s ops E k g → once s ops E' k g := by
  induction ops with
  | nil => intro s E E' h k g hk; exact h k g hk
  | cons op ops ih =>
    intro s E E' h k g hk
    refine ih (step s op) _ _ ?_ k g hk
    rintro k' g' (⟨h1, _⟩ | ⟨j, hj, h1, h2⟩)
    · exact .inl (h _ _ h1)
    · refine .inr ⟨j, ?_, h1, ?_⟩
      · cases op with
        | add js ig =>
          unfold storedBy at hj
          simp only at hj
          split at hj
          · exact (List.mem_filter.1 hj).1
          · exact hj
        | modify ks c => exact hj
        | archive k d => exact hj
        | delete k => exact hj
        | restart => exact hj
      · simp only [reps, List.mem_singleton] at h2
        exact h2.symm

/-! ## C82 -/

theorem mem_completeByRepGroup (s : St) (hg : Good s) (g : Key) (j : Job) : j ∈ completeByRepGroup s g ↔
    Has s.rtk g j.key ∧ get j.key s.live = none ∧ ∃ r, get j.key s.complete = some r ∧ j.rec' = { r with repGroup := g } := by
  unfold completeByRepGroup
  rw [List.mem_filterMap]
  constructor
  · rintro ⟨e, he, hj⟩
    have hh := (mem_scan_keys s.rtk hg.rtk g (e.1.drop (g ++ delimiter).length)).1 ⟨e, he, rfl⟩
    generalize e.1.drop (g ++ delimiter).length = k at hh hj
    simp only at hj
    cases hc : get k s.complete with
    | none => rw [hc] at hj; cases hj
    | some r =>
      rw [hc] at hj
      simp only at hj
      split at hj
      · cases hj
      · rename_i hl
        cases hj
        refine ⟨hh, ?_, r, hc, rfl⟩
        cases hk : get k s.live with
        | none => rfl
        | some _ => rw [hk] at hl; exact absurd rfl hl
  · rintro ⟨hh, hl, r, hc, hj⟩
    obtain ⟨e, he, hk⟩ := (mem_scan_keys s.rtk hg.rtk g j.key).2 hh
    refine ⟨e, he, ?_⟩
    simp only [hk, hc, hl, Option.isSome_none, Bool.false_eq_true, if_false]
    rw [← hj]

/-- C82, complete jobs: the complete jobs listed for a rep group are exactly those that were stored with it at some time, are
complete, and not being run again. -/
theorem C82_complete (ops : List Op) (hw : ∀ op ∈ ops, Wf op) (g : Key) (j : Job) :
    j ∈ completeByRepGroup (run {} ops) g ↔
      ever reps {} ops (fun _ _ => False) j.key g ∧ get j.key (run {} ops).live = none ∧
      ∃ r, get j.key (run {} ops).complete = some r ∧ j.rec' = { r with repGroup := g } := by
  have hg := good_run ops {} good_init hw
  rw [mem_completeByRepGroup _ hg]
  constructor
  · rintro ⟨h1, h2, r, h3, h4⟩
    exact ⟨(records_rtk ops hw g j.key (hg.pc _ (by rw [h3]; rfl))).1 h1, h2, r, h3, h4⟩
  · rintro ⟨h1, h2, r, h3, h4⟩
    exact ⟨(records_rtk ops hw g j.key (hg.pc _ (by rw [h3]; rfl))).2 h1, h2, r, h3, h4⟩

/-- C82, nothing else: for every history, a job listed for a rep group is one that some request was to add, or made, with that
rep group. -/
theorem C82_named (ops : List Op) (hw : ∀ op ∈ ops, Wf op) (g : Key) (j : Job) (hj : j ∈ byRepGroup (run {} ops) g) :
    once {} ops (fun _ _ => False) j.key g := by
  have ho := oinv_run ops {} good_init hw (fun _ _ => False)
    ⟨by simp [get_nil], by simp [get_nil], by simp [get_nil], by simp⟩
  rcases List.mem_append.1 hj with h | h
  · unfold queuedByRepGroup at h
    obtain ⟨e, he, h1⟩ := List.mem_filterMap.1 h
    obtain ⟨h2, h3⟩ := List.mem_filter.1 he
    simp only [decide_eq_true_eq] at h3
    cases hq : get e.2 (run {} ops).queue with
    | none => rw [hq] at h1; cases h1
    | some r =>
      rw [hq] at h1
      cases h1
      exact h3 ▸ ho.rpl e h2
  · exact once_of_ever ops {} _ _ (fun _ _ h => h) _ _ ((C82_complete ops hw g j).1 h).1

/-- invariant for histories without the special cases -/
structure SInv (f : Rec → List Key) (s : St) (E : Key → Key → Prop) : Prop where
  sync : ∀ k, (get k s.live).isSome = (get k s.queue).isSome
  rplQ : ∀ k r, get k s.queue = some r → (r.repGroup, k) ∈ s.rpl
  rplL : ∀ k r, get k s.live = some r → (r.repGroup, k) ∈ s.rpl
  everL : ∀ k r, get k s.live = some r → ∀ g ∈ f r, E k g
  everQ : ∀ k r, get k s.queue = some r → ∀ g ∈ f r, E k g
  everC : ∀ k r, get k s.complete = some r → ∀ g ∈ f r, E k g

theorem toQueue_iff (s : St) (js : List Job) (ig : Bool) (hq : Quiet s (.add js ig)) (j : Job) :
    j ∈ (prepare s js ig).toQueue ↔ j ∈ (prepare s js ig).encoded := by
  unfold prepare
  simp only
  split
  · rfl
  · split
    · rename_i h; simp [h]
    · rename_i h
      cases ig with
      | true => exact absurd (hq rfl) h
      | false =>
        have : kept s js false = js := by simp [kept]
        rw [this]
        simp only [List.mem_append]
        exact or_comm

theorem update_ok (s : St) (hg : Good s) (js : List Job) (ig : Bool) (hsync : ∀ k, (get k s.live).isSome = (get k s.queue).isSome) :
    (updateJobs (prepare s js ig).toUpdate s.queue).2 = true := by
  apply updateJobs_ok
  intro j hj
  have := ((mem_dependents_update s hg _ j).1 ((mem_toUpdate s js ig j).1 hj).2).2
  rw [← hsync, this]
  rfl

theorem sinv_step (f : Rec → List Key) (hf : ∀ r d, f { r with data := d } = f r) (s : St) (hg : Good s) (op : Op) (hw : Wf op) (hq : Quiet s op) (E : Key → Key → Prop) (h : SInv f s E) :
    SInv f (step s op) (everStep f s op E) := by
  cases op with
  | add js ig =>
    have hok := update_ok s hg js ig h.sync
    have hstep : step s (.add js ig) = { store s (kept s js ig) (prepare s js ig).encoded with
        queue := enqueue (prepare s js ig).toQueue (updateJobs (prepare s js ig).toUpdate s.queue).1
        rpl := (repLookups (prepare s js ig).toQueue).foldl rplAdd s.rpl } := by
      simp only [step, add]
      rw [if_pos (by exact hok)]
      rfl
    have hE : ∀ k g, E k g → everStep f s (.add js ig) E k g := fun k g h => .inl ⟨h, by simp [replacedBy]⟩
    have hN : ∀ j ∈ (prepare s js ig).encoded, ∀ g ∈ f j.rec', everStep f s (.add js ig) E j.key g := by
      intro j hj g hgr
      rcases (mem_encoded s js ig j).1 hj with h1 | ⟨_, h1⟩
      · rw [kept_eq] at h1
        exact .inr ⟨j, h1, rfl, hgr⟩
      · exact hE _ _ (h.everC _ _ ((mem_dependents_queue s hg _ j).1 h1).2.2.2 g hgr)
    have hT := toQueue_iff s js ig hq
    have hrpl : ∀ e, e ∈ s.rpl → e ∈ (repLookups (prepare s js ig).toQueue).foldl rplAdd s.rpl :=
      fun e he => (mem_rplAdds _ _ _).2 (.inl he)
    have hrplN : ∀ j ∈ (prepare s js ig).toQueue, (j.rec'.repGroup, j.key) ∈ (repLookups (prepare s js ig).toQueue).foldl rplAdd s.rpl :=
      fun j hj => (mem_rplAdds _ _ _).2 (.inr (List.mem_map.2 ⟨j, hj, rfl⟩))
    have hlive : ∀ k, (∃ j ∈ (prepare s js ig).encoded, j.key = k ∧ get k (putJobs (prepare s js ig).encoded s.live) = some j.rec') ∨
        (k ∉ (prepare s js ig).encoded.map (·.key) ∧ get k (putJobs (prepare s js ig).encoded s.live) = get k s.live) :=
      fun k => get_putJobs_cases _ _ k
    have hupd : ∀ k r, get k (updateJobs (prepare s js ig).toUpdate s.queue).1 = some r → (r.repGroup, k) ∈ s.rpl ∧ ∀ g ∈ f r, E k g := by
      intro k r hr
      rcases (updateJobs_cases (prepare s js ig).toUpdate k s.queue).2 with e | ⟨j, hj, rfl, e⟩
      · rw [e] at hr; exact ⟨h.rplQ k r hr, h.everQ k r hr⟩
      · rw [e] at hr; cases hr
        have := ((mem_dependents_update s hg _ j).1 ((mem_toUpdate s js ig j).1 hj).2).2
        exact ⟨h.rplL _ _ this, h.everL _ _ this⟩
    have hqueue := fun k => get_enqueue_cases (prepare s js ig).toQueue k (updateJobs (prepare s js ig).toUpdate s.queue).1
    rw [hstep]
    refine ⟨?_, ?_, ?_, ?_, ?_, fun k r hr g hgr => hE _ _ (h.everC k r hr g hgr)⟩
    · intro k
      simp only [store]
      have hu := (updateJobs_cases (prepare s js ig).toUpdate k s.queue).1
      rcases hlive k with ⟨j, hj, rfl, e⟩ | ⟨hn, e⟩
      · rw [e]
        rcases hqueue j.key with ⟨h1, e'⟩ | ⟨_, j', _, _, e'⟩ | ⟨_, hn, _⟩
        · rw [e', h1]; rfl
        · rw [e']; rfl
        · exact absurd (List.mem_map.2 ⟨j, (hT j).2 hj, rfl⟩) hn
      · rw [e]
        rcases hqueue k with ⟨h1, e'⟩ | ⟨_, j', hj', rfl, e'⟩ | ⟨h1, _, e'⟩
        · rw [e', hu, h.sync]
        · exact absurd (List.mem_map.2 ⟨j', (hT j').1 hj', rfl⟩) hn
        · rw [e', h.sync, ← hu, h1]
    · intro k r hr
      simp only at hr ⊢
      rcases hqueue k with ⟨h1, e⟩ | ⟨_, j, hj, rfl, e⟩ | ⟨_, _, e⟩
      · rw [e] at hr; exact hrpl _ (hupd k r hr).1
      · rw [e] at hr; cases hr; exact hrplN j hj
      · rw [e] at hr; cases hr
    · intro k r hr
      simp only [store] at hr ⊢
      rcases hlive k with ⟨j, hj, rfl, e⟩ | ⟨_, e⟩
      · rw [e] at hr; cases hr; exact hrplN j ((hT j).2 hj)
      · rw [e] at hr; exact hrpl _ (h.rplL k r hr)
    · intro k r hr
      simp only [store] at hr
      rcases hlive k with ⟨j, hj, rfl, e⟩ | ⟨_, e⟩
      · rw [e] at hr; cases hr; exact hN j hj
      · rw [e] at hr; exact fun g hgr => hE _ _ (h.everL k r hr g hgr)
    · intro k r hr
      simp only at hr
      rcases hqueue k with ⟨h1, e⟩ | ⟨_, j, hj, rfl, e⟩ | ⟨_, _, e⟩
      · rw [e] at hr; exact fun g hgr => hE _ _ ((hupd k r hr).2 g hgr)
      · rw [e] at hr; cases hr; exact hN j ((hT j).1 hj)
      · rw [e] at hr; cases hr
  | archive k d =>
    have hE : ∀ x g, E x g → everStep f s (.archive k d) E x g := fun x g h => .inl ⟨h, by simp [replacedBy]⟩
    simp only [step, archive]
    cases hk : get k s.queue with
    | none => exact ⟨h.sync, h.rplQ, h.rplL, fun x r hr g hgr => hE _ _ (h.everL x r hr g hgr), fun x r hr g hgr => hE _ _ (h.everQ x r hr g hgr),
        fun x r hr g hgr => hE _ _ (h.everC x r hr g hgr)⟩
    | some r0 =>
      refine ⟨?_, ?_, ?_, ?_, ?_, ?_⟩
      · intro x; simp only [get_delete]
        split
        · rfl
        · exact h.sync x
      · intro x r hr; simp only [get_delete] at hr ⊢
        split at hr
        · cases hr
        · rename_i hx
          exact (mem_rplDelete _ _ _).2 ⟨h.rplQ x r hr, fun e => hx (by simpa using congrArg Prod.snd e)⟩
      · intro x r hr; simp only [get_delete] at hr ⊢
        split at hr
        · cases hr
        · rename_i hx
          exact (mem_rplDelete _ _ _).2 ⟨h.rplL x r hr, fun e => hx (by simpa using congrArg Prod.snd e)⟩
      · intro x r hr; simp only [get_delete] at hr
        split at hr
        · cases hr
        · exact fun g hgr => hE _ _ (h.everL x r hr g hgr)
      · intro x r hr; simp only [get_delete] at hr
        split at hr
        · cases hr
        · exact fun g hgr => hE _ _ (h.everQ x r hr g hgr)
      · intro x r hr; simp only [get_put] at hr
        split at hr
        · rename_i e; cases hr; rw [e, hf]; exact fun g hgr => hE _ _ (h.everQ k r0 hk g hgr)
        · exact fun g hgr => hE _ _ (h.everC x r hr g hgr)
  | delete k =>
    have hE : ∀ x g, E x g → everStep f s (.delete k) E x g := fun x g h => .inl ⟨h, by simp [replacedBy]⟩
    simp only [step, delete1]
    cases hk : get k s.queue with
    | none => exact ⟨h.sync, h.rplQ, h.rplL, fun x r hr g hgr => hE _ _ (h.everL x r hr g hgr), fun x r hr g hgr => hE _ _ (h.everQ x r hr g hgr),
        fun x r hr g hgr => hE _ _ (h.everC x r hr g hgr)⟩
    | some r0 =>
      refine ⟨?_, ?_, ?_, ?_, ?_, fun x r hr g hgr => hE _ _ (h.everC x r hr g hgr)⟩
      · intro x; simp only [get_delete]
        split
        · rfl
        · exact h.sync x
      · intro x r hr; simp only [get_delete] at hr ⊢
        split at hr
        · cases hr
        · rename_i hx
          exact (mem_rplDelete _ _ _).2 ⟨h.rplQ x r hr, fun e => hx (by simpa using congrArg Prod.snd e)⟩
      · intro x r hr; simp only [get_delete] at hr ⊢
        split at hr
        · cases hr
        · rename_i hx
          exact (mem_rplDelete _ _ _).2 ⟨h.rplL x r hr, fun e => hx (by simpa using congrArg Prod.snd e)⟩
      · intro x r hr; simp only [get_delete] at hr
        split at hr
        · cases hr
        · exact fun g hgr => hE _ _ (h.everL x r hr g hgr)
      · intro x r hr; simp only [get_delete] at hr
        split at hr
        · cases hr
        · exact fun g hgr => hE _ _ (h.everQ x r hr g hgr)
  | restart =>
    have hE : ∀ x g, E x g → everStep f s .restart E x g := fun x g h => .inl ⟨h, by simp [replacedBy]⟩
    have hr : ∀ x r, get x s.live = some r → (r.repGroup, x) ∈ (step s .restart).rpl := by
      intro x r hx
      refine (mem_rplAdds _ _ _).2 (.inr (List.mem_map.2 ⟨⟨x, r⟩, ?_, rfl⟩))
      exact List.mem_map.2 ⟨(x, r), mem_of_get x r _ hx, rfl⟩
    refine ⟨?_, ?_, hr, fun x r hr g hgr => hE _ _ (h.everL x r hr g hgr), ?_, fun x r hr g hgr => hE _ _ (h.everC x r hr g hgr)⟩
    · intro x
      show (get x s.live).isSome = (get x (restart s).queue).isSome
      rw [get_restart s hg]
    · intro x r hx
      rw [show (step s .restart).queue = (restart s).queue from rfl, get_restart s hg] at hx
      exact hr x r hx
    · intro x r hx
      rw [show (step s .restart).queue = (restart s).queue from rfl, get_restart s hg] at hx
      exact fun g hgr => hE _ _ (h.everL x r hx g hgr)
  | modify ks c =>
    have hm := minv s c ks
    obtain ⟨hq1, hq2⟩ := hq
    have henc : ∀ j, j ∈ (prepare s ((modifyLoop s c ks []).map (·.2)) false).encoded ↔ j ∈ (modifyLoop s c ks []).map (·.2) := by
      intro j
      rw [mem_encoded]
      have : kept s ((modifyLoop s c ks []).map (·.2)) false = (modifyLoop s c ks []).map (·.2) := by simp [kept]
      rw [this, hq1]
      simp
    have hE : ∀ x g, E x g → x ∉ (modifyLoop s c ks []).map (·.1) → everStep f s (.modify ks c) E x g := fun x g h hx => .inl ⟨h, hx⟩
    have hN : ∀ m ∈ modifyLoop s c ks [], ∀ g ∈ f m.2.rec', everStep f s (.modify ks c) E m.2.key g :=
      fun m hm' g hgr => .inr ⟨m.2, List.mem_map.2 ⟨m, hm', rfl⟩, rfl, hgr⟩
    have hlive : ∀ x, (∃ m ∈ modifyLoop s c ks [], m.2.key = x ∧ get x (step s (.modify ks c)).live = some m.2.rec') ∨
        (x ∉ (modifyLoop s c ks []).map (·.2.key) ∧ get x (step s (.modify ks c)).live =
          if x ∈ (modifyLoop s c ks []).map (·.1) then none else get x s.live) := by
      intro x
      simp only [step, modify, modifyDb, store]
      rcases get_putJobs_cases (prepare s ((modifyLoop s c ks []).map (·.2)) false).encoded
        (((modifyLoop s c ks []).map (·.1)).foldl (fun b k => delete k b) s.live) x with ⟨j, hj, rfl, he⟩ | ⟨hn, he⟩
      · obtain ⟨m, hm', rfl⟩ := List.mem_map.1 ((henc j).1 hj)
        exact .inl ⟨m, hm', rfl, he⟩
      · refine .inr ⟨?_, by rw [he, get_deletes]⟩
        intro hx
        obtain ⟨m, hm', rfl⟩ := List.mem_map.1 hx
        exact hn (List.mem_map.2 ⟨m.2, (henc m.2).2 (List.mem_map.2 ⟨m, hm', rfl⟩), rfl⟩)
    have hqueue := changeQueue_cases hm
    have hrplN : ∀ m ∈ modifyLoop s c ks [], (m.2.rec'.repGroup, m.2.key) ∈ changeRpl (modifyLoop s c ks []) s.rpl := by
      intro m hm'
      by_cases e : m.1 = m.2.key
      · refine changeRpl_stay _ _ _ ?_ _ ?_
        · intro m' hm'' e'
          rw [hm.old_ne_new hm'' hm' e']
        · obtain ⟨r, hr, he⟩ := hm.old m hm'
          have := h.rplQ m.1 r hr
          rw [← e]
          rw [he]
          exact this
      · refine changeRpl_added m _ e hm' ?_ _
        intro m' hm'' e'
        rw [hm.old_ne_new hm'' hm' e']
    have hrpl : ∀ g x, x ∉ (modifyLoop s c ks []).map (·.1) → (g, x) ∈ s.rpl → (g, x) ∈ changeRpl (modifyLoop s c ks []) s.rpl := by
      intro g x hx he
      refine changeRpl_stay _ _ _ ?_ _ he
      intro m hm' e
      exact absurd (List.mem_map.2 ⟨m, hm', e⟩) hx
    refine ⟨?_, ?_, ?_, ?_, ?_, ?_⟩
    · intro x
      show _ = (get x (changeQueue (modifyLoop s c ks []) s.queue)).isSome
      rcases hlive x with ⟨m, hm', rfl, e⟩ | ⟨hn, e⟩
      · rw [e]
        rcases hqueue m.2.key with ⟨m', _, _, e'⟩ | ⟨hn, _⟩ | ⟨hn, _⟩
        · rw [e']; rfl
        · exact absurd (List.mem_map.2 ⟨m, hm', rfl⟩) hn
        · exact absurd (List.mem_map.2 ⟨m, hm', rfl⟩) hn
      · rw [e]
        rcases hqueue x with ⟨m', hm', e1, _⟩ | ⟨_, ho, e'⟩ | ⟨_, ho, e'⟩
        · exact absurd (List.mem_map.2 ⟨m', hm', e1⟩) hn
        · rw [e', if_pos ho]
        · rw [e', if_neg ho, h.sync]
    · intro x r hr
      rcases hqueue x with ⟨m, hm', rfl, e⟩ | ⟨_, _, e⟩ | ⟨_, ho, e⟩
      · rw [show (step s (.modify ks c)).queue = changeQueue (modifyLoop s c ks []) s.queue from rfl, e] at hr
        cases hr; exact hrplN m hm'
      · rw [show (step s (.modify ks c)).queue = changeQueue (modifyLoop s c ks []) s.queue from rfl, e] at hr
        cases hr
      · rw [show (step s (.modify ks c)).queue = changeQueue (modifyLoop s c ks []) s.queue from rfl, e] at hr
        exact hrpl _ _ ho (h.rplQ x r hr)
    · intro x r hr
      rcases hlive x with ⟨m, hm', rfl, e⟩ | ⟨_, e⟩
      · rw [e] at hr; cases hr; exact hrplN m hm'
      · rw [e] at hr
        split at hr
        · cases hr
        · rename_i ho; exact hrpl _ _ ho (h.rplL x r hr)
    · intro x r hr
      rcases hlive x with ⟨m, hm', rfl, e⟩ | ⟨_, e⟩
      · rw [e] at hr; cases hr; exact hN m hm'
      · rw [e] at hr
        split at hr
        · cases hr
        · rename_i ho; exact fun g hgr => hE _ _ (h.everL x r hr g hgr) ho
    · intro x r hr
      rcases hqueue x with ⟨m, hm', rfl, e⟩ | ⟨_, _, e⟩ | ⟨_, ho, e⟩
      · rw [show (step s (.modify ks c)).queue = changeQueue (modifyLoop s c ks []) s.queue from rfl, e] at hr
        cases hr; exact hN m hm'
      · rw [show (step s (.modify ks c)).queue = changeQueue (modifyLoop s c ks []) s.queue from rfl, e] at hr
        cases hr
      · rw [show (step s (.modify ks c)).queue = changeQueue (modifyLoop s c ks []) s.queue from rfl, e] at hr
        exact fun g hgr => hE _ _ (h.everQ x r hr g hgr) ho
    · intro x r hr
      have hr' : get x s.complete = some r := hr
      intro g hgr
      refine hE _ _ (h.everC x r hr' g hgr) ?_
      intro hx
      obtain ⟨m, hm', rfl⟩ := List.mem_map.1 hx
      rw [hq2 m hm'] at hr'
      cases hr'

theorem sinv_run (f : Rec → List Key) (hf : ∀ r d, f { r with data := d } = f r) (ops : List Op) : ∀ s, Good s → (∀ op ∈ ops, Wf op) → Along Quiet s ops → ∀ E, SInv f s E →
    SInv f (run s ops) (ever f s ops E) := by
  induction ops with
  | nil => intro s _ _ _ E h; exact h
  | cons op ops ih =>
    intro s hg hw hq E h
    exact ih _ (good_step s hg op (hw op (by simp))) (fun o ho => hw o (List.mem_cons_of_mem _ ho)) hq.2 _
      (sinv_step f hf s hg op (hw op (by simp)) hq.1 E h)

theorem sinv_init (f : Rec → List Key) : SInv f {} fun _ _ => False :=
  ⟨fun k => rfl, by simp [get_nil], by simp [get_nil], by simp [get_nil], by simp [get_nil], by simp [get_nil]⟩

/-- C82, every job is found: a job in the queue, and a complete job that is not in the queue, is listed for its rep group.
Partial: for histories without the special cases of `Quiet` (see the violations). -/
theorem C82_found_partial (ops : List Op) (hw : ∀ op ∈ ops, Wf op) (hq : Along Quiet {} ops) (k : Key) (r : Rec) :
    (get k (run {} ops).queue = some r → ⟨k, r⟩ ∈ byRepGroup (run {} ops) r.repGroup) ∧
    (get k (run {} ops).complete = some r → get k (run {} ops).queue = none → ⟨k, r⟩ ∈ byRepGroup (run {} ops) r.repGroup) := by
  have h := sinv_run reps (fun _ _ => rfl) ops {} good_init hw hq _ (sinv_init reps)
  constructor
  · intro hk
    refine List.mem_append_left _ (List.mem_filterMap.2 ⟨(r.repGroup, k), List.mem_filter.2 ⟨h.rplQ k r hk, by simp⟩, ?_⟩)
    simp [hk]
  · intro hk hn
    refine List.mem_append_right _ ((C82_complete ops hw r.repGroup ⟨k, r⟩).2 ⟨h.everC k r hk _ (by simp [reps]), ?_, r, hk, rfl⟩)
    have := h.sync k
    rw [hn] at this
    cases hl : get k (run {} ops).live with
    | none => rfl
    | some _ => rw [hl] at this; cases this

theorem filterMap_keys_nodup {α : Type} (f : α → Option Job) (key : α → Key) (hf : ∀ a j, f a = some j → j.key = key a) (l : List α)
    (h : (l.map key).Nodup) : ((l.filterMap f).map (·.key)).Nodup := by
  induction l with
  | nil => simp
  | cons a l ih =>
    simp only [List.map_cons, List.nodup_cons] at h
    rw [List.filterMap_cons]
    cases hfa : f a with
    | none => exact ih h.2
    | some j =>
      simp only [List.map_cons, List.nodup_cons]
      refine ⟨?_, ih h.2⟩
      intro hm
      obtain ⟨j', hj', e⟩ := List.mem_map.1 hm
      obtain ⟨b, hb, hfb⟩ := List.mem_filterMap.1 hj'
      apply h.1
      rw [← hf a j hfa, ← e, hf b j' hfb]
      exact List.mem_map.2 ⟨b, hb, rfl⟩

/-- C82, once: no job is listed twice for a rep group. Partial as above. -/
theorem C82_once_partial (ops : List Op) (hw : ∀ op ∈ ops, Wf op) (hq : Along Quiet {} ops) (g : Key) :
    ((byRepGroup (run {} ops) g).map (·.key)).Nodup := by
  have h := sinv_run reps (fun _ _ => rfl) ops {} good_init hw hq _ (sinv_init reps)
  have hg := good_run ops {} good_init hw
  unfold byRepGroup
  rw [List.map_append, List.nodup_append]
  refine ⟨?_, ?_, ?_⟩
  · refine filterMap_keys_nodup _ (·.2) ?_ _ ?_
    · intro e j hj
      cases hk : get e.2 (run {} ops).queue with
      | none => rw [hk] at hj; cases hj
      | some r => rw [hk] at hj; cases hj; rfl
    · rw [List.Nodup, List.pairwise_map]
      refine ((nodup_run ops {} (by simp)).filter _).imp_of_mem ?_
      intro a b ha hb hne e
      have h1 := (List.mem_filter.1 ha).2
      have h2 := (List.mem_filter.1 hb).2
      simp only [decide_eq_true_eq] at h1 h2
      exact hne (Prod.ext (by rw [h1, h2]) e)
  · refine filterMap_keys_nodup _ (fun e => e.1.drop (g ++ delimiter).length) ?_ _ (scan_keys_nodup _ hg.rtk g)
    intro e j hj
    simp only at hj
    split at hj
    · cases hj
    · split at hj
      · cases hj
      · cases hj; rfl
  · intro a ha b hb e
    subst e
    obtain ⟨j, hj, rfl⟩ := List.mem_map.1 ha
    obtain ⟨j', hj', e⟩ := List.mem_map.1 hb
    obtain ⟨e', he', h1⟩ := List.mem_filterMap.1 hj
    have hl := ((C82_complete ops hw g j').1 hj').2.1
    cases hk : get e'.2 (run {} ops).queue with
    | none => rw [hk] at h1; cases h1
    | some r =>
      rw [hk] at h1; cases h1
      have := h.sync e'.2
      simp only at e
      rw [hk, ← e, hl] at this
      cases this

/-! ## C83 -/

theorem needs_iff_reach (s : St) (hg : Good s) (E : Key → Key → Prop) (h : Records s.rdtk E) (new gs : List Key)
    (k : Key) : Needs E s new gs k ↔ Reach s new gs k := by
  have hp : ∀ k, stored s new k ≠ none → Proper k := by
    intro k hk
    cases hl : get k s.live with
    | some r => exact hg.pl k (by rw [hl]; rfl)
    | none =>
      rw [stored_complete hl] at hk
      split at hk
      · exact absurd rfl hk
      · cases hc : get k s.complete with
        | none => exact absurd hc hk
        | some r => exact hg.pc k (by rw [hc]; rfl)
  constructor
  · intro hn
    induction hn with
    | base h1 h2 h3 => exact .base h1 ((h _ _ (hp _ h3)).2 h2) h3
    | step _ h2 h3 h4 h5 h6 ih => exact .step ih h2 h3 h4 ((h _ _ (hp _ h6)).2 h5) h6
  · intro hn
    induction hn with
    | base h1 h2 h3 => exact .base h1 ((h _ _ (hp _ h3)).1 h2) h3
    | step _ h2 h3 h4 h5 h6 ih => exact .step ih h2 h3 h4 ((h _ _ (hp _ h6)).1 h5) h6

theorem mem_groupsOf (js : List Job) (g : Key) : g ∈ groupsOf js ↔ ∃ j ∈ js, g ∈ deps j.rec' := by
  unfold groupsOf deps
  simp only [List.mem_filter, List.mem_flatMap]
  constructor
  · rintro ⟨⟨j, hj, h1⟩, h2⟩; exact ⟨j, hj, h1, h2⟩
  · rintro ⟨j, hj, h1, h2⟩; exact ⟨⟨j, hj, h1⟩, h2⟩

/-- C83, what comes back: when a request to add jobs succeeds, the jobs in the queue afterwards are those that were, those added,
and exactly those complete jobs that were stored as dependent on a group of an added job, or on a group of a job that depends
on such a group, and so on. -/
theorem C83_queue (ops : List Op) (hw : ∀ op ∈ ops, Wf op) (js : List Job)
    (hok : (add (run {} ops) js false).2 = true) (k : Key) :
    (get k (add (run {} ops) js false).1.queue).isSome ↔
      (get k (run {} ops).queue).isSome ∨ k ∈ js.map (·.key) ∨
      (Needs (ever on {} ops fun _ _ => False) (run {} ops) (js.map (·.key)) (groupsOf js) k ∧ get k (run {} ops).live = none ∧
        (get k (run {} ops).complete).isSome) := by
  have hg := good_run ops {} good_init hw
  rw [needs_iff_reach _ hg _ (records_rdtk ops hw)]
  generalize run {} ops = s at hg hok ⊢
  have hkept : kept s js false = js := by simp [kept]
  unfold add at hok ⊢
  simp only at hok ⊢
  split at hok
  case isFalse => cases hok
  rename_i hu
  rw [if_pos hu]
  simp only
  have hT : ∀ j, j ∈ (prepare s js false).toQueue ↔ j ∈ js ∨ j ∈ (dependents s js).toQueue := by
    intro j
    rw [toQueue_iff s js false (by intro h; cases h), mem_encoded, hkept]
    constructor
    · rintro (h | h)
      · exact .inl h
      · exact .inr h.2
    · rintro (h | h)
      · exact .inl h
      · refine .inr ⟨?_, h⟩
        rintro rfl
        simp [dependents] at h
  have hu1 := (updateJobs_cases (prepare s js false).toUpdate k s.queue).1
  have hq : (store s (kept s js false) (prepare s js false).encoded).queue = s.queue := rfl
  rw [hq]
  have hcase := get_enqueue_cases (prepare s js false).toQueue k (updateJobs (prepare s js false).toUpdate s.queue).1
  constructor
  · intro hk
    rcases hcase with ⟨h1, _⟩ | ⟨_, j, hj, rfl, _⟩ | ⟨_, _, e⟩
    · exact .inl (hu1 ▸ h1)
    · rcases (hT j).1 hj with h1 | h1
      · exact .inr (.inl (List.mem_map.2 ⟨j, h1, rfl⟩))
      · have := (mem_dependents_queue s hg _ j).1 h1
        exact .inr (.inr ⟨this.1, this.2.1, by rw [this.2.2.2]; rfl⟩)
    · rw [e] at hk; cases hk
  · intro hk
    rcases hcase with ⟨h1, e⟩ | ⟨_, j, _, _, e⟩ | ⟨h1, hn, _⟩
    · rw [e]; exact h1
    · rw [e]; rfl
    · exfalso
      rcases hk with h2 | h2 | ⟨h2, h3, h4⟩
      · rw [← hu1, h1] at h2; cases h2
      · obtain ⟨j, hj, rfl⟩ := List.mem_map.1 h2
        exact hn (List.mem_map.2 ⟨j, (hT j).2 (.inl hj), rfl⟩)
      · by_cases h5 : k ∈ js.map (·.key)
        · obtain ⟨j, hj, rfl⟩ := List.mem_map.1 h5
          exact hn (List.mem_map.2 ⟨j, (hT j).2 (.inl hj), rfl⟩)
        · cases hc : get k s.complete with
          | none => rw [hc] at h4; cases h4
          | some r =>
            exact hn (List.mem_map.2 ⟨⟨k, r⟩, (hT _).2 (.inr ((mem_dependents_queue s hg _ _).2 ⟨h2, h3, h5, hc⟩)), rfl⟩)

/-- C83, what a job waits for: the live jobs found for a dep group are exactly those that were stored with it -/
theorem C83_waits (ops : List Op) (hw : ∀ op ∈ ops, Wf op) (g k : Key) :
    k ∈ incompleteByDepGroup (run {} ops) g ↔ ever deps {} ops (fun _ _ => False) k g ∧ (get k (run {} ops).live).isSome := by
  have hg := good_run ops {} good_init hw
  unfold incompleteByDepGroup
  rw [List.mem_filterMap]
  constructor
  · rintro ⟨e, he, hj⟩
    have hh := (mem_scan_keys _ hg.dtk g (e.1.drop (g ++ delimiter).length)).1 ⟨e, he, rfl⟩
    simp only at hj
    split at hj
    · rename_i hl
      cases hj
      exact ⟨(records_dtk ops hw g _ (hg.pl _ hl)).1 hh, hl⟩
    · cases hj
  · rintro ⟨h1, h2⟩
    obtain ⟨e, he, hk⟩ := (mem_scan_keys _ hg.dtk g k).2 ((records_dtk ops hw g k (hg.pl _ h2)).2 h1)
    exact ⟨e, he, by simp only [hk, h2, if_true]⟩

/-- C83, by what the records say: a complete job that depends on a group of a job that is added comes back. Partial: for
histories without the special cases of `Quiet`; the converse fails (see the violation). -/
theorem C83_current_partial (ops : List Op) (hw : ∀ op ∈ ops, Wf op) (hq : Along Quiet {} ops) (js : List Job) (k g : Key) (r : Rec)
    (hr : get k (run {} ops).complete = some r) (hn : get k (run {} ops).live = none) (hg : g ∈ r.depends)
    (hj : ∃ j ∈ js, g ∈ j.rec'.depGroups ∧ g ≠ []) : (get k (add (run {} ops) js false).1.queue).isSome := by
  have h := sinv_run on (fun _ _ => rfl) ops {} good_init hw hq _ (sinv_init on)
  have hok : (add (run {} ops) js false).2 = true := by
    have := update_ok _ (good_run ops {} good_init hw) js false h.sync
    unfold add
    simp only
    split
    · rfl
    · rename_i h; exact absurd this h
  refine (C83_queue ops hw js hok k).2 ?_
  by_cases hk : k ∈ js.map (·.key)
  · exact .inr (.inl hk)
  · refine .inr (.inr ⟨.base (g := g) ?_ (h.everC k r hr g hg) ?_, hn, by rw [hr]; rfl⟩)
    · rw [mem_groupsOf]
      obtain ⟨j, hj, h1, h2⟩ := hj
      exact ⟨j, hj, by simp [deps, h1, h2]⟩
    · rw [stored_complete hn, if_neg hk, hr]
      simp

/-- C83, a job that waits for a group waits for every live job that is in it by its record. Partial as above. -/
theorem C83_waits_current_partial (ops : List Op) (hw : ∀ op ∈ ops, Wf op) (hq : Along Quiet {} ops) (k g : Key) (r : Rec)
    (hr : get k (run {} ops).live = some r) (hg : g ∈ r.depGroups) (hne : g ≠ []) : k ∈ incompleteByDepGroup (run {} ops) g := by
  have h := sinv_run deps (fun _ _ => rfl) ops {} good_init hw hq _ (sinv_init deps)
  exact (C83_waits ops hw g k).2 ⟨h.everL k r hr g (by simp [deps, hg, hne]), by rw [hr]; rfl⟩

/-! ## C84 -/

/-- C84: with the option to leave out complete jobs, a job that is live or complete already is neither put in the queue nor stored
again, and keeps its record. Partial: unless the request brings back other complete jobs (see the violation). -/
theorem C84_partial (ops : List Op) (hw : ∀ op ∈ ops, Wf op) (js : List Job)
    (hq : (dependents (run {} ops) (kept (run {} ops) js true)).toQueue = []) (k : Key)
    (hk : (get k (run {} ops).live).isSome ∨ (get k (run {} ops).complete).isSome) :
    (get k (add (run {} ops) js true).1.queue).isSome = (get k (run {} ops).queue).isSome ∧
    get k (add (run {} ops) js true).1.live = get k (run {} ops).live ∧
    get k (add (run {} ops) js true).1.complete = get k (run {} ops).complete := by
  generalize run {} ops = s at hq hk ⊢
  have hnk : k ∉ (kept s js true).map (·.key) := by
    intro h
    obtain ⟨j, hj, rfl⟩ := List.mem_map.1 h
    have := (List.mem_filter.1 hj).2
    unfold checkIfAdded at this
    rcases hk with h1 | h1 <;> rw [h1] at this <;> simp at this
  have henc : (prepare s js true).encoded.map (·.key) = (kept s js true).map (·.key) := by
    unfold prepare
    simp only
    split
    · rename_i h; simp [h]
    · simp [hq]
  have htq : (prepare s js true).toQueue.map (·.key) = (kept s js true).map (·.key) := by
    unfold prepare
    simp only
    split
    · rename_i h; simp [h]
    · simp [hq]
  have hlive : get k (putJobs (prepare s js true).encoded s.live) = get k s.live := by
    rcases get_putJobs_cases (prepare s js true).encoded s.live k with ⟨j, hj, rfl, _⟩ | ⟨_, e⟩
    · exact absurd (henc ▸ List.mem_map.2 ⟨j, hj, rfl⟩) hnk
    · exact e
  have hu := (updateJobs_cases (prepare s js true).toUpdate k s.queue).1
  unfold add
  simp only
  split
  · refine ⟨?_, hlive, rfl⟩
    rcases get_enqueue_cases (prepare s js true).toQueue k (updateJobs (prepare s js true).toUpdate s.queue).1 with
      ⟨_, e⟩ | ⟨_, j, hj, rfl, _⟩ | ⟨h1, _, e⟩
    · exact (congrArg Option.isSome e).trans hu
    · exact absurd (htq ▸ List.mem_map.2 ⟨j, hj, rfl⟩) hnk
    · exact (congrArg Option.isSome e).trans (by rw [← hu, h1])
  · exact ⟨hu, hlive, rfl⟩

/-! ## C85 -/

/-- C85: at any time, a restart of the server puts exactly those jobs in its queue that are there. Partial: for histories
without the special cases of `Quiet` (see the violations). -/
theorem C85_partial (ops : List Op) (hw : ∀ op ∈ ops, Wf op) (hq : Along Quiet {} ops) (k : Key) :
    (get k (restart (run {} ops)).queue).isSome = (get k (run {} ops).queue).isSome := by
  rw [get_restart _ (good_run ops {} good_init hw)]
  exact (sinv_run reps (fun _ _ => rfl) ops {} good_init hw hq _ (sinv_init reps)).sync k

/-- C85, and no request to add jobs fails -/
theorem C85_accepted_partial (ops : List Op) (hw : ∀ op ∈ ops, Wf op) (hq : Along Quiet {} ops) (js : List Job) (ig : Bool) :
    (add (run {} ops) js ig).2 = true := by
  have hg := good_run ops {} good_init hw
  have := update_ok _ hg js ig (sinv_run reps (fun _ _ => rfl) ops {} good_init hw hq _ (sinv_init reps)).sync
  unfold add
  simp only
  split
  · rfl
  · rename_i h; exact absurd this h

/-! ## examples and violations -/

namespace Ex

/-- a job of report group `r` -/
def job (k r : String) (gs on : List String := []) : Job := ⟨k.toList, { repGroup := r.toList, depGroups := gs.map (·.toList), depends := on.map (·.toList) }⟩

/-- `a` makes group `g`, `b` needs it and makes `h`, `c` needs `h` -/
def chain : List Op := [.add [job "a" "r" ["g"], job "b" "r" ["h"] ["g"], job "c" "r" [] ["h"], job "x" "q"] false,
  .archive "a".toList 1, .archive "b".toList 2, .archive "c".toList 3, .archive "x".toList 4]

/-- all is done, then another job of group `g` is added and modified, and done -/
def more : List Op := chain ++ [.add [job "n" "r" ["g"]] false, .restart, .modify ["n".toList] { key := fun k _ => 'm' :: k },
  .archive "mn".toList 5, .add [job "x" "q", job "y" "q"] true, .delete "y".toList]

theorem proper_m (k : Key) (h : Proper k) : Proper ('m' :: k) := by
  unfold Proper at *
  simp [h]

theorem wf_more : ∀ op ∈ more, Wf op := by
  intro op h
  simp only [more, chain, List.mem_append, List.mem_cons, List.not_mem_nil, or_false] at h
  rcases h with (rfl | rfl | rfl | rfl | rfl) | rfl | rfl | rfl | rfl | rfl | rfl
  all_goals first | trivial | (exact fun k _ h => proper_m k h) | (unfold Wf; decide)

theorem wf_chain : ∀ op ∈ chain, Wf op := fun op h => wf_more op (List.mem_append_left _ h)

-- the hypotheses of C82 to C85 hold of a history with re-runs, a modification and a restart
example : Along Quiet {} more := by decide +kernel
example : (byRepGroup (run {} more) "r".toList).map (·.key) = ["b".toList, "c".toList, "a".toList, "mn".toList] := by decide +kernel
example : (run {} more).queue.map (·.1) = ["b".toList, "c".toList] := by decide +kernel
example : (byRepGroup (run {} more) "q".toList).map (·.key) = ["x".toList] := by decide +kernel
-- C83: the new job brings back `b`, and `c` which depends on it, not `x`
example : (add (run {} chain) [job "n" "r" ["g"]] false).2 = true ∧
    (add (run {} chain) [job "n" "r" ["g"]] false).1.queue.map (·.1) = ["b".toList, "c".toList, "n".toList] ∧
    (run {} chain).queue = [] := by decide +kernel
example : incompleteByDepGroup (run {} more) "h".toList = ["b".toList] := by decide +kernel
-- C84
example : (dependents (run {} chain) (kept (run {} chain) [job "x" "q", job "y" "q"] true)).toQueue = [] ∧
    (add (run {} chain) [job "x" "q", job "y" "q"] true).1.queue.map (·.1) = ["y".toList] ∧
    (get "x".toList (run {} chain).complete).isSome := by decide +kernel

end Ex
open Ex

/-- C84, violated: when a request with the option brings back a complete job, all the jobs in it are put in the queue, those that
are complete as well (db.go:629 appends `jobs`, not those that are kept). Here `x` is complete, and run again. -/
theorem C84_violated : ∃ ops js k, (∀ op ∈ ops, Wf op) ∧ (get k (run {} ops).complete).isSome ∧ get k (run {} ops).queue = none ∧
    (add (run {} ops) js true).2 = true ∧ (get k (add (run {} ops) js true).1.queue).isSome :=
  ⟨chain, [job "x" "q", job "n" "r" ["g"]], "x".toList, wf_chain, by decide +kernel⟩

/-- C85, violated: and these are not stored as live, so that a restart loses them -/
theorem C85_violated_ignore : ∃ ops k, (∀ op ∈ ops, Wf op) ∧ (get k (run {} ops).queue).isSome ∧
    get k (restart (run {} ops)).queue = none := by
  refine ⟨chain ++ [.add [job "x" "q", job "n" "r" ["g"]] true], "x".toList, ?_, by decide +kernel⟩
  intro op h
  rcases List.mem_append.1 h with h | h
  · exact wf_chain op h
  · simp only [List.mem_cons, List.not_mem_nil, or_false] at h
    subst h
    unfold Wf
    decide

/-- C82, violated: a search lists such a job twice -/
theorem C82_violated_twice : ∃ ops g, (∀ op ∈ ops, Wf op) ∧ ¬ ((byRepGroup (run {} ops) g).map (·.key)).Nodup := by
  refine ⟨chain ++ [.add [job "x" "q", job "n" "r" ["g"]] true], "q".toList, ?_, by decide +kernel⟩
  intro op h
  rcases List.mem_append.1 h with h | h
  · exact wf_chain op h
  · simp only [List.mem_cons, List.not_mem_nil, or_false] at h
    subst h
    unfold Wf
    decide

theorem wf_append {ops ops' : List Op} (h : ∀ op ∈ ops, Wf op) (h' : ∀ op ∈ ops', Wf op) : ∀ op ∈ ops ++ ops', Wf op := by
  intro op ho
  rcases List.mem_append.1 ho with h1 | h1
  · exact h op h1
  · exact h' op h1

/-- C82, violated: a job that was complete, and is added again and modified, is not found any more: with the lookups of the old
key, those of the complete job are gone (db.go:1219-1240) -/
theorem C82_violated_lost : ∃ ops k r, (∀ op ∈ ops, Wf op) ∧ get k (run {} ops).complete = some r ∧ get k (run {} ops).queue = none ∧
    k ∉ (byRepGroup (run {} ops) r.repGroup).map (·.key) := by
  refine ⟨chain ++ [.add [job "x" "q"] false, .modify ["x".toList] { key := fun k _ => 'm' :: k }], "x".toList,
    { repGroup := "q".toList, data := 4 }, wf_append wf_chain ?_, by decide +kernel⟩
  intro op h
  simp only [List.mem_cons, List.not_mem_nil, or_false] at h
  rcases h with rfl | rfl
  · unfold Wf; decide
  · exact fun k _ h => proper_m k h

/-- C83, violated: a job that does not depend on the group any more, as it was added again without the dependency, comes back all
the same: the lookups of the first addition stay -/
theorem C83_violated_stale : ∃ ops js k r, (∀ op ∈ ops, Wf op) ∧ Along Quiet {} ops ∧ get k (run {} ops).complete = some r ∧
    r.depends = [] ∧ get k (run {} ops).live = none ∧ k ∉ js.map (·.key) ∧
    (get k (add (run {} ops) js false).1.queue).isSome := by
  refine ⟨chain ++ [.add [job "b" "r" ["h"]] false, .archive "b".toList 5, .archive "c".toList 6], [job "n" "r" ["g"]], "b".toList,
    { repGroup := "r".toList, depGroups := ["h".toList], data := 5 }, wf_append wf_chain ?_, by decide +kernel⟩
  intro op h
  simp only [List.mem_cons, List.not_mem_nil, or_false] at h
  rcases h with rfl | rfl | rfl
  · unfold Wf; decide
  · trivial
  · trivial

/-- C83, violated: and a job waits for a live one that is not in the group any more -/
theorem C83_violated_waits : ∃ ops k g r, (∀ op ∈ ops, Wf op) ∧ Along Quiet {} ops ∧ get k (run {} ops).live = some r ∧
    r.depGroups = [] ∧ k ∈ incompleteByDepGroup (run {} ops) g := by
  refine ⟨chain ++ [.add [job "a" "r"] false], "a".toList, "g".toList, { repGroup := "r".toList }, wf_append wf_chain ?_,
    by decide +kernel⟩
  intro op h
  simp only [List.mem_cons, List.not_mem_nil, or_false] at h
  subst h
  unfold Wf; decide

/-- a job is put in group `g` by a modification -/
def regroup : List Op := chain ++ [.add [job "z" "q"] false, .modify ["z".toList] { key := fun k _ => k, depGroups := some ["g".toList] }]

theorem wf_regroup : ∀ op ∈ regroup, Wf op := by
  refine wf_append wf_chain ?_
  intro op h
  simp only [List.mem_cons, List.not_mem_nil, or_false] at h
  rcases h with rfl | rfl
  · unfold Wf; decide
  · exact fun k _ h => h

/-- C85, violated: complete jobs that depend on the new group of a modified job become live, but are not put in the queue; they
run after the next restart only -/
theorem C85_violated_modify : ∃ ops k, (∀ op ∈ ops, Wf op) ∧ get k (run {} ops).queue = none ∧
    (get k (restart (run {} ops)).queue).isSome :=
  ⟨regroup, "b".toList, wf_regroup, by decide +kernel⟩

/-- C85, violated: until then every addition of a job to that group fails, though the job is stored, and runs after the restart -/
theorem C85_violated_refused : ∃ ops j, (∀ op ∈ ops, Wf op) ∧ (add (run {} ops) [j] false).2 = false ∧
    (get j.key (add (run {} ops) [j] false).1.queue) = none ∧ (get j.key (restart (add (run {} ops) [j] false).1).queue).isSome :=
  ⟨regroup, job "n" "r" ["g"], wf_regroup, by decide +kernel⟩

end Verif.Server.Store
