import Verif.Server.StoreWalk
/-!
# Histories of the database: invariants
-/
namespace Verif.Server.Store
open Verif.Util.Bolt

namespace Spec

/-- the jobs that a request puts in the database: those to be added, without the ones that are there if these are to be left
out; and those that a modification made -/
def storedBy (s : St) : Op → List Job
  | .add js ig => if ig then js.filter fun j => (get j.key s.live).isNone && (get j.key s.complete).isNone else js
  | .modify ks c => (modifyLoop s c ks []).map (·.2)
  | _ => []

/-- the keys of jobs that a request replaces by others -/
def replacedBy (s : St) : Op → List Key
  | .modify ks c => (modifyLoop s c ks []).map (·.1)
  | _ => []

/-- the relation between keys and groups of jobs, before and after a request: `f` gives the groups of a job -/
def everStep (f : Rec → List Key) (s : St) (op : Op) (E : Key → Key → Prop) (k g : Key) : Prop :=
  (E k g ∧ k ∉ replacedBy s op) ∨ ∃ j ∈ storedBy s op, j.key = k ∧ g ∈ f j.rec'

/-- after a history: a job with that key was stored with that group, and since then not replaced by a modification -/
def ever (f : Rec → List Key) : St → List Op → (Key → Key → Prop) → Key → Key → Prop
  | _, [], E => E
  | s, op :: ops, E => ever f (step s op) ops (everStep f s op E)

/-- the jobs that a request names -/
def named (s : St) : Op → List Job
  | .add js _ => js
  | .modify ks c => (modifyLoop s c ks []).map (·.2)
  | _ => []

/-- after a history: some request was to add, or made, a job with that key and that rep group -/
def once : St → List Op → (Key → Key → Prop) → Key → Key → Prop
  | _, [], E => E
  | s, op :: ops, E => once (step s op) ops fun k g => E k g ∨ ∃ j ∈ named s op, j.key = k ∧ j.rec'.repGroup = g

def reps (r : Rec) : List Key := [r.repGroup]
def deps (r : Rec) : List Key := r.depGroups.filter (· ≠ [])
def on (r : Rec) : List Key := r.depends

/-- the keys in a request are those of jobs -/
def Wf : Op → Prop
  | .add js _ => ∀ j ∈ js, Proper j.key
  | .modify _ c => ∀ k r, Proper k → Proper (c.key k r)
  | _ => True

end Spec
open Spec

theorem kept_eq (s : St) (js : List Job) (ig : Bool) : kept s js ig = storedBy s (.add js ig) := by
  have e : (fun j : Job => !checkIfAdded s j.key) = fun j => (get j.key s.live).isNone && (get j.key s.complete).isNone := by
    funext j
    unfold checkIfAdded
    cases get j.key s.live <;> cases get j.key s.complete <;> rfl
  unfold kept
  rw [e]
  rfl

theorem kept_sub {s : St} {js : List Job} {ig : Bool} {j : Job} (h : j ∈ kept s js ig) : j ∈ js := by
  unfold kept at h
  split at h
  · exact (List.mem_filter.1 h).1
  · exact h

/-! ## modification -/

structure MInv (s : St) (c : Change) (acc : List (Key × Job)) : Prop where
  old : ∀ m ∈ acc, ∃ r, get m.1 s.queue = some r ∧ m.2 = ⟨c.key m.1 r, c.apply r⟩
  new : ∀ m ∈ acc, m.2.key = m.1 ∨ (get m.2.key s.queue = none ∧ get m.2.key s.complete = none)
  nodup : (acc.map (·.2.key)).Nodup

theorem modifyLoop_inv (s : St) (c : Change) (ks : List Key) : ∀ acc, MInv s c acc → MInv s c (modifyLoop s c ks acc) := by
  induction ks with
  | nil => intro acc h; exact h
  | cons k ks ih =>
    intro acc h
    unfold modifyLoop
    cases hk : get k s.queue with
    | none => exact ih acc h
    | some r =>
      simp only
      split
      · exact ih acc h
      · rename_i hn
        split
        · exact ih acc h
        · rename_i hc
          refine ih _ ⟨?_, ?_, ?_⟩
          · intro m hm
            rcases List.mem_append.1 hm with hm | hm
            · exact h.old m hm
            · simp only [List.mem_singleton] at hm
              subst hm
              exact ⟨r, hk, rfl⟩
          · intro m hm
            rcases List.mem_append.1 hm with hm | hm
            · exact h.new m hm
            · simp only [List.mem_singleton] at hm
              subst hm
              simp only at hc ⊢
              by_cases e : c.key k r = k
              · exact .inl e
              · right
                have := fun x => hc ⟨e, x⟩
                constructor
                · cases hq : get (c.key k r) s.queue with
                  | none => rfl
                  | some _ => exact absurd (.inl (by rw [hq]; rfl)) this
                · cases hq : get (c.key k r) s.complete with
                  | none => rfl
                  | some _ => exact absurd (.inr (by rw [hq]; rfl)) this
          · rw [List.map_append, List.nodup_append]
            refine ⟨h.nodup, by simp, ?_⟩
            intro a ha b hb
            simp only [List.map_cons, List.map_nil, List.mem_singleton] at hb
            rintro rfl
            exact hn (hb ▸ ha)

theorem minv (s : St) (c : Change) (ks : List Key) : MInv s c (modifyLoop s c ks []) :=
  modifyLoop_inv s c ks [] ⟨by simp, by simp, by simp⟩

theorem nodup_pair {l : List (Key × Job)} (h : (l.map (·.2.key)).Nodup) {m m' : Key × Job} (hm : m ∈ l) (hm' : m' ∈ l)
    (he : m.2.key = m'.2.key) : m = m' := by
  induction l with
  | nil => cases hm
  | cons x l ih =>
    simp only [List.map_cons, List.nodup_cons] at h
    rcases List.mem_cons.1 hm with h1 | h1 <;> rcases List.mem_cons.1 hm' with h2 | h2
    · rw [h1, h2]
    · rw [h1] at he
      exact absurd (List.mem_map.2 ⟨m', h2, he.symm⟩) h.1
    · rw [h2] at he
      exact absurd (List.mem_map.2 ⟨m, h1, he⟩) h.1
    · exact ih h.2 h1 h2

theorem MInv.oldsNodup {s : St} {c : Change} {acc : List (Key × Job)} (h : MInv s c acc) : (acc.map (·.1)).Nodup := by
  have : ∀ m ∈ acc, ∀ m' ∈ acc, m.1 = m'.1 → m.2.key = m'.2.key := by
    intro m hm m' hm' e
    obtain ⟨r, hr, he⟩ := h.old m hm
    obtain ⟨r', hr', he'⟩ := h.old m' hm'
    rw [e, hr'] at hr
    cases hr
    rw [he, he', e]
  rw [List.Nodup, List.pairwise_map]
  have hn := h.nodup
  rw [List.Nodup, List.pairwise_map] at hn
  exact hn.imp_of_mem fun hx hy hne e => hne (this _ hx _ hy e)

/-- the old key of one and the new key of another modified job differ -/
theorem MInv.old_ne_new {s : St} {c : Change} {acc : List (Key × Job)} (h : MInv s c acc) {m m' : Key × Job} (hm : m ∈ acc)
    (hm' : m' ∈ acc) (e : m.1 = m'.2.key) : m = m' := by
  rcases h.new m' hm' with h1 | h1
  · obtain ⟨r, hr, he⟩ := h.old m hm
    obtain ⟨r', hr', he'⟩ := h.old m' hm'
    have ee : m.1 = m'.1 := by rw [e, h1]
    rw [ee, hr'] at hr
    cases hr
    exact nodup_pair h.nodup hm hm' (by rw [he, he', ee])
  · obtain ⟨r, hr, _⟩ := h.old m hm
    rw [e, h1.1] at hr
    cases hr

theorem get_changeQueue (x : Key) : ∀ (ms : List (Key × Job)) (q : Bucket Rec), (ms.map (·.2.key)).Nodup → (ms.map (·.1)).Nodup →
    (∀ m ∈ ms, ∀ m' ∈ ms, m.1 = m'.2.key → m = m') →
    get x (changeQueue ms q) = match ms.find? (fun m => m.2.key = x) with
      | some m => some m.2.rec'
      | none => if x ∈ ms.map (·.1) then none else get x q := by
  intro ms
  induction ms with
  | nil => intro q _ _ _; simp [changeQueue]
  | cons m ms ih =>
    intro q h1 h2 h3
    have e : changeQueue (m :: ms) q = changeQueue ms (put m.2.key m.2.rec' (delete m.1 q)) := rfl
    simp only [List.map_cons, List.nodup_cons] at h1 h2
    rw [e, ih _ h1.2 h2.2 fun a ha b hb => h3 a (List.mem_cons_of_mem _ ha) b (List.mem_cons_of_mem _ hb)]
    by_cases hx : m.2.key = x
    · have h4 : ms.find? (fun m => m.2.key = x) = none := by
        rw [List.find?_eq_none]
        intro y hy hyx
        simp only [decide_eq_true_eq] at hyx
        exact h1.1 (List.mem_map.2 ⟨y, hy, by rw [hyx, hx]⟩)
      rw [h4, List.find?_cons]
      simp only [hx, decide_true]
      have h5 : x ∉ ms.map (·.1) := by
        intro hm
        obtain ⟨y, hy, hyx⟩ := List.mem_map.1 hm
        have := h3 y (List.mem_cons_of_mem _ hy) m (by simp) (by rw [hyx, hx])
        subst this
        exact h2.1 (List.mem_map.2 ⟨_, hy, rfl⟩)
      rw [if_neg h5, get_put, if_pos rfl]
    · rw [List.find?_cons]
      simp only [hx, decide_false]
      cases ms.find? (fun m => m.2.key = x) with
      | some y => rfl
      | none =>
        simp only [List.map_cons, List.mem_cons]
        rw [get_put, if_neg (Ne.symm hx), get_delete]
        by_cases h6 : x = m.1
        · simp [h6]
        · simp only [h6, false_or, if_false]

theorem changeQueue_cases {s : St} {c : Change} {ms : List (Key × Job)} (h : MInv s c ms) (x : Key) :
    (∃ m ∈ ms, m.2.key = x ∧ get x (changeQueue ms s.queue) = some m.2.rec') ∨
    (x ∉ ms.map (·.2.key) ∧ x ∈ ms.map (·.1) ∧ get x (changeQueue ms s.queue) = none) ∨
    (x ∉ ms.map (·.2.key) ∧ x ∉ ms.map (·.1) ∧ get x (changeQueue ms s.queue) = get x s.queue) := by
  have := get_changeQueue x ms s.queue h.nodup h.oldsNodup fun a ha b hb => h.old_ne_new ha hb
  cases hf : ms.find? (fun m => m.2.key = x) with
  | some m =>
    rw [hf] at this
    exact .inl ⟨m, List.mem_of_find?_eq_some hf, by simpa using List.find?_some hf, this⟩
  | none =>
    rw [hf] at this
    have hn : x ∉ ms.map (·.2.key) := by
      intro hm
      obtain ⟨y, hy, hyx⟩ := List.mem_map.1 hm
      have := List.find?_eq_none.1 hf y hy
      simp [hyx] at this
    by_cases ho : x ∈ ms.map (·.1)
    · exact .inr (.inl ⟨hn, ho, by simpa [ho] using this⟩)
    · exact .inr (.inr ⟨hn, ho, by simpa [ho] using this⟩)

/-! ## the buckets -/

structure Good (s : St) : Prop where
  sl : Sorted s.live
  sc : Sorted s.complete
  sq : Sorted s.queue
  rtk : Ok s.rtk
  dtk : Ok s.dtk
  rdtk : Ok s.rdtk
  pl : ∀ k, (get k s.live).isSome → Proper k
  pc : ∀ k, (get k s.complete).isSome → Proper k
  pq : ∀ k, (get k s.queue).isSome → Proper k

theorem good_init : Good {} where
  sl := by simp [Sorted]
  sc := by simp [Sorted]
  sq := by simp [Sorted]
  rtk := ok_nil
  dtk := ok_nil
  rdtk := ok_nil
  pl := by simp [get_nil]
  pc := by simp [get_nil]
  pq := by simp [get_nil]

theorem mem_dependents_queue (s : St) (hg : Good s) (ks : List Job) (j : Job) : j ∈ (dependents s ks).toQueue ↔
    Reach s (ks.map (·.key)) (groupsOf ks) j.key ∧ get j.key s.live = none ∧ j.key ∉ ks.map (·.key) ∧
      get j.key s.complete = some j.rec' := by
  unfold dependents
  split
  · rename_i h
    have hnil : groupsOf ks = [] := by
      rcases h with rfl | h
      · rfl
      · exact h
    simp only [List.not_mem_nil, false_iff]
    rintro ⟨h1, _⟩
    have : ∀ k, ¬ Reach s (ks.map (·.key)) (groupsOf ks) k := by
      intro k hk
      induction hk with
      | base h _ _ => rw [hnil] at h; cases h
      | step _ _ _ _ _ _ ih => exact ih
    exact this _ h1
  · exact (retrieve_final s hg.rdtk _ _).que j

theorem mem_dependents_update (s : St) (hg : Good s) (ks : List Job) (j : Job) : j ∈ (dependents s ks).toUpdate ↔
    Reach s (ks.map (·.key)) (groupsOf ks) j.key ∧ get j.key s.live = some j.rec' := by
  unfold dependents
  split
  · rename_i h
    have hnil : groupsOf ks = [] := by
      rcases h with rfl | h
      · rfl
      · exact h
    simp only [List.not_mem_nil, false_iff]
    rintro ⟨h1, _⟩
    have : ∀ k, ¬ Reach s (ks.map (·.key)) (groupsOf ks) k := by
      intro k hk
      induction hk with
      | base h _ _ => rw [hnil] at h; cases h
      | step _ _ _ _ _ _ ih => exact ih
    exact this _ h1
  · exact (retrieve_final s hg.rdtk _ _).upd j

theorem mem_encoded (s : St) (js : List Job) (ig : Bool) (j : Job) : j ∈ (prepare s js ig).encoded ↔
    j ∈ kept s js ig ∨ (kept s js ig ≠ [] ∧ j ∈ (dependents s (kept s js ig)).toQueue) := by
  unfold prepare
  simp only
  split
  · rename_i h; simp [h]
  · rename_i h; simp [h]

theorem mem_toUpdate (s : St) (js : List Job) (ig : Bool) (j : Job) : j ∈ (prepare s js ig).toUpdate ↔
    kept s js ig ≠ [] ∧ j ∈ (dependents s (kept s js ig)).toUpdate := by
  unfold prepare
  simp only
  split
  · rename_i h; simp [h]
  · rename_i h; simp [h]

/-- a job that is put in the queue is among those to add, or is a complete one that comes back -/
theorem mem_toQueue (s : St) (js : List Job) (ig : Bool) (j : Job) (h : j ∈ (prepare s js ig).toQueue) :
    j ∈ js ∨ (kept s js ig ≠ [] ∧ j ∈ (dependents s (kept s js ig)).toQueue) := by
  unfold prepare at h
  simp only at h
  split at h
  · cases h
  · rename_i hne
    split at h
    · exact .inl (kept_sub h)
    · rcases List.mem_append.1 h with h | h
      · exact .inr ⟨hne, h⟩
      · exact .inl h

theorem proper_dependents (s : St) (hg : Good s) (ks : List Job) (j : Job) (h : j ∈ (dependents s ks).toQueue) : Proper j.key := by
  have := ((mem_dependents_queue s hg ks j).1 h).2.2.2
  exact hg.pc _ (by rw [this]; rfl)

theorem proper_lookups {ks : List Job} (h : ∀ j ∈ ks, Proper j.key) : (∀ e ∈ repLookups ks, Proper e.2) ∧
    (∀ e ∈ depLookups ks, Proper e.2) ∧ ∀ e ∈ rdepLookups ks, Proper e.2 := by
  refine ⟨?_, ?_, ?_⟩
  · intro e he
    obtain ⟨j, hj, rfl⟩ := List.mem_map.1 he
    exact h j hj
  · intro e he
    obtain ⟨j, hj, hm⟩ := List.mem_flatMap.1 he
    obtain ⟨g, _, rfl⟩ := List.mem_map.1 hm
    exact h j hj
  · intro e he
    obtain ⟨j, hj, hm⟩ := List.mem_flatMap.1 he
    obtain ⟨g, _, rfl⟩ := List.mem_map.1 hm
    exact h j hj

theorem good_store (s : St) (hg : Good s) (ks enc : List Job) (hk : ∀ j ∈ ks, Proper j.key) (he : ∀ j ∈ enc, Proper j.key) :
    Good (store s ks enc) := by
  obtain ⟨h1, h2, h3⟩ := proper_lookups hk
  refine ⟨sorted_putJobs _ _ hg.sl, hg.sc, hg.sq, ok_putLookups _ h1 _ hg.rtk, ok_putLookups _ h2 _ hg.dtk,
    ok_putLookups _ h3 _ hg.rdtk, ?_, hg.pc, hg.pq⟩
  intro k hs
  rcases get_putJobs_cases enc s.live k with ⟨j, hj, rfl, _⟩ | ⟨_, h⟩
  · exact he j hj
  · simp only [store] at hs
    rw [h] at hs
    exact hg.pl k hs

theorem proper_encoded (s : St) (hg : Good s) (js : List Job) (ig : Bool) (hw : ∀ j ∈ js, Proper j.key) :
    ∀ j ∈ (prepare s js ig).encoded, Proper j.key := by
  intro j hj
  rcases (mem_encoded s js ig j).1 hj with h | ⟨_, h⟩
  · exact hw j (kept_sub h)
  · exact proper_dependents s hg _ j h

theorem enqueue_proper (l : List Job) (hl : ∀ j ∈ l, Proper j.key) (b : Bucket Rec) (hb : ∀ k, (get k b).isSome → Proper k) :
    ∀ k, (get k (enqueue l b)).isSome → Proper k := by
  intro k hk
  rcases get_enqueue_cases l k b with ⟨h, _⟩ | ⟨_, j, hj, rfl, _⟩ | ⟨_, _, h⟩
  · exact hb k h
  · exact hl j hj
  · rw [h] at hk; cases hk

theorem add_eq (s : St) (js : List Job) (ig : Bool) : ∃ q rpl, (add s js ig).1 =
    { store s (kept s js ig) (prepare s js ig).encoded with queue := q, rpl := rpl } := by
  unfold add
  simp only
  split <;> exact ⟨_, _, rfl⟩

theorem good_add (s : St) (hg : Good s) (js : List Job) (ig : Bool) (hw : ∀ j ∈ js, Proper j.key) : Good (add s js ig).1 := by
  have hs := good_store s hg (kept s js ig) (prepare s js ig).encoded (fun j hj => hw j (kept_sub hj)) (proper_encoded s hg js ig hw)
  have hu : ∀ k, (get k (updateJobs (prepare s js ig).toUpdate s.queue).1).isSome → Proper k := by
    intro k hk
    rw [(updateJobs_cases _ k s.queue).1] at hk
    exact hg.pq k hk
  unfold add
  simp only
  split
  · refine ⟨hs.sl, hs.sc, sorted_enqueue _ _ (sorted_updateJobs _ _ hg.sq), hs.rtk, hs.dtk, hs.rdtk, hs.pl, hs.pc, ?_⟩
    refine enqueue_proper _ ?_ _ hu
    intro j hj
    rcases mem_toQueue s js ig j hj with h | ⟨_, h⟩
    · exact hw j h
    · exact proper_dependents s hg _ j h
  · exact ⟨hs.sl, hs.sc, sorted_updateJobs _ _ hg.sq, hs.rtk, hs.dtk, hs.rdtk, hs.pl, hs.pc, hu⟩

theorem good_modify (s : St) (hg : Good s) (ks : List Key) (c : Change) (hw : ∀ k r, Proper k → Proper (c.key k r)) : Good (modify s ks c) := by
  have hm := minv s c ks
  unfold modify modifyDb
  simp only
  generalize modifyLoop s c ks [] = ms at hm ⊢
  have hp : ∀ j ∈ ms.map (·.2), Proper j.key := by
    intro j hj
    obtain ⟨m, hm', rfl⟩ := List.mem_map.1 hj
    obtain ⟨r, hr, e⟩ := hm.old m hm'
    rw [e]
    exact hw _ _ (hg.pq _ (by rw [hr]; rfl))
  have hg' : Good { s with
      live := (ms.map (·.1)).foldl (fun b k => delete k b) s.live
      rtk := (ms.map (·.1)).foldl (fun b k => dropLookups k b) s.rtk
      dtk := (ms.map (·.1)).foldl (fun b k => dropLookups k b) s.dtk
      rdtk := (ms.map (·.1)).foldl (fun b k => dropLookups k b) s.rdtk } := by
    refine ⟨sorted_deletes _ _ hg.sl, hg.sc, hg.sq, ok_drops _ _ hg.rtk, ok_drops _ _ hg.dtk, ok_drops _ _ hg.rdtk, ?_, hg.pc, hg.pq⟩
    intro k hk
    simp only [get_deletes] at hk
    split at hk
    · cases hk
    · exact hg.pl k hk
  have hs := good_store _ hg' (ms.map (·.2)) (prepare s (ms.map (·.2)) false).encoded hp (proper_encoded s hg _ false hp)
  refine ⟨hs.sl, hs.sc, sorted_changeQueue _ _ hg.sq, hs.rtk, hs.dtk, hs.rdtk, hs.pl, hs.pc, ?_⟩
  intro k hk
  simp only at hk
  rcases changeQueue_cases hm k with ⟨m, hm', rfl, _⟩ | ⟨_, _, h⟩ | ⟨_, _, h⟩
  · exact hp m.2 (List.mem_map.2 ⟨m, hm', rfl⟩)
  · rw [h] at hk; cases hk
  · rw [h] at hk; exact hg.pq k hk

theorem good_step (s : St) (hg : Good s) (op : Op) (hw : Wf op) : Good (step s op) := by
  cases op with
  | add js ig => exact good_add s hg js ig hw
  | archive k d =>
    simp only [step, archive]
    cases h : get k s.queue with
    | none => exact hg
    | some r =>
      refine ⟨sorted_delete _ _ hg.sl, sorted_put _ _ _ hg.sc, sorted_delete _ _ hg.sq, hg.rtk, hg.dtk, hg.rdtk, ?_, ?_, ?_⟩
      · intro x hx; simp only [get_delete] at hx; split at hx
        · cases hx
        · exact hg.pl x hx
      · intro x hx; simp only [get_put] at hx; split at hx
        · rename_i e; rw [e]; exact hg.pq k (by rw [h]; rfl)
        · exact hg.pc x hx
      · intro x hx; simp only [get_delete] at hx; split at hx
        · cases hx
        · exact hg.pq x hx
  | delete k =>
    simp only [step, delete1]
    cases h : get k s.queue with
    | none => exact hg
    | some r =>
      refine ⟨sorted_delete _ _ hg.sl, hg.sc, sorted_delete _ _ hg.sq, hg.rtk, hg.dtk, hg.rdtk, ?_, hg.pc, ?_⟩
      · intro x hx; simp only [get_delete] at hx; split at hx
        · cases hx
        · exact hg.pl x hx
      · intro x hx; simp only [get_delete] at hx; split at hx
        · cases hx
        · exact hg.pq x hx
  | modify ks c => exact good_modify s hg ks c hw
  | restart =>
    refine ⟨hg.sl, hg.sc, sorted_enqueue _ _ (by simp [Sorted]), hg.rtk, hg.dtk, hg.rdtk, hg.pl, hg.pc, ?_⟩
    refine enqueue_proper _ ?_ _ (by simp [get_nil])
    intro j hj
    obtain ⟨e, he, rfl⟩ := List.mem_map.1 hj
    exact hg.pl e.1 (by rw [(mem_iff_get e.1 e.2 _ hg.sl).1 he]; rfl)

theorem good_run (ops : List Op) : ∀ s, Good s → (∀ op ∈ ops, Wf op) → Good (run s ops) := by
  induction ops with
  | nil => intro s h _; exact h
  | cons op ops ih =>
    intro s h hw
    exact ih _ (good_step s h op (hw op (by simp))) fun o ho => hw o (List.mem_cons_of_mem _ ho)

/-! ## the lookups record what was stored -/

/-- the bucket has the relation -/
def Records (b : Bucket Unit) (E : Key → Key → Prop) : Prop := ∀ g k, Proper k → (Has b g k ↔ E k g)

theorem mem_repLookups (ks : List Job) (g k : Key) : (g, k) ∈ repLookups ks ↔ ∃ j ∈ ks, j.key = k ∧ g ∈ reps j.rec' := by
  unfold repLookups reps
  simp only [List.mem_map, Prod.mk.injEq, List.mem_singleton]
  constructor
  · rintro ⟨j, hj, h1, h2⟩; exact ⟨j, hj, h2, h1.symm⟩
  · rintro ⟨j, hj, h1, h2⟩; exact ⟨j, hj, h2.symm, h1⟩

theorem mem_depLookups (ks : List Job) (g k : Key) : (g, k) ∈ depLookups ks ↔ ∃ j ∈ ks, j.key = k ∧ g ∈ deps j.rec' := by
  unfold depLookups deps
  simp only [List.mem_flatMap, List.mem_map, Prod.mk.injEq]
  constructor
  · rintro ⟨j, hj, g', hg', rfl, rfl⟩; exact ⟨j, hj, rfl, hg'⟩
  · rintro ⟨j, hj, rfl, h2⟩; exact ⟨j, hj, g, h2, rfl, rfl⟩

theorem mem_rdepLookups (ks : List Job) (g k : Key) : (g, k) ∈ rdepLookups ks ↔ ∃ j ∈ ks, j.key = k ∧ g ∈ on j.rec' := by
  unfold rdepLookups on
  simp only [List.mem_flatMap, List.mem_map, Prod.mk.injEq]
  constructor
  · rintro ⟨j, hj, g', hg', rfl, rfl⟩; exact ⟨j, hj, rfl, hg'⟩
  · rintro ⟨j, hj, rfl, h2⟩; exact ⟨j, hj, g, h2, rfl, rfl⟩

/-- one bucket of lookups as a function of the request -/
theorem records_step (sel : St → Bucket Unit) (lk : List Job → List (Key × Key)) (f : Rec → List Key)
    (hsel : ∀ s, Good s → Ok (sel s))
    (hstore : ∀ s ks enc, sel (store s ks enc) = putLookups (lk ks) (sel s))
    (hq : ∀ (s : St) q rpl, sel { s with queue := q, rpl := rpl } = sel s)
    (hd : ∀ (s : St) l c q rpl, sel { s with live := l, complete := c, queue := q, rpl := rpl } = sel s)
    (hdrop : ∀ (s : St) l (ks : List Key),
      sel { s with
        live := l
        rtk := ks.foldl (fun b k => dropLookups k b) s.rtk
        dtk := ks.foldl (fun b k => dropLookups k b) s.dtk
        rdtk := ks.foldl (fun b k => dropLookups k b) s.rdtk } =
      ks.foldl (fun b k => dropLookups k b) (sel s))
    (hlk : ∀ ks g k, (g, k) ∈ lk ks ↔ ∃ j ∈ ks, j.key = k ∧ g ∈ f j.rec')
    (hpl : ∀ ks : List Job, (∀ j ∈ ks, Proper j.key) → ∀ e ∈ lk ks, Proper e.2)
    (s : St) (hg : Good s) (op : Op) (hw : Wf op) (E : Key → Key → Prop) (h : Records (sel s) E) :
    Records (sel (step s op)) (everStep f s op E) := by
  intro g k hk
  cases op with
  | add js ig =>
    obtain ⟨q, rpl, e⟩ := add_eq s js ig
    have e1 : sel (step s (.add js ig)) = putLookups (lk (kept s js ig)) (sel s) := by
      simp only [step]
      rw [e, hq, hstore]
    rw [e1, has_putLookups _ (hpl _ fun j hj => hw j (kept_sub hj)) g k hk _ (hsel s hg), h g k hk, hlk, kept_eq]
    unfold everStep
    simp [replacedBy]
  | archive k' d =>
    have e1 : sel (step s (.archive k' d)) = sel s := by
      simp only [step, archive]
      split
      · rfl
      · exact hd s _ _ _ _
    rw [e1, h g k hk]
    simp [everStep, storedBy, replacedBy]
  | delete k' =>
    have e1 : sel (step s (.delete k')) = sel s := by
      simp only [step, delete1]
      split
      · rfl
      · exact hd s _ s.complete _ _
    rw [e1, h g k hk]
    simp [everStep, storedBy, replacedBy]
  | restart =>
    have e1 : sel (step s .restart) = sel s := hq s _ _
    rw [e1, h g k hk]
    simp [everStep, storedBy, replacedBy]
  | modify ks c =>
    have hm := minv s c ks
    have e1 : sel (step s (.modify ks c)) = putLookups (lk ((modifyLoop s c ks []).map (·.2)))
        (((modifyLoop s c ks []).map (·.1)).foldl (fun b k => dropLookups k b) (sel s)) := by
      simp only [step, modify]
      rw [hq]
      unfold modifyDb
      simp only
      rw [hstore, hdrop]
    have hp : ∀ j ∈ (modifyLoop s c ks []).map (·.2), Proper j.key := by
      intro j hj
      obtain ⟨m, hm', rfl⟩ := List.mem_map.1 hj
      obtain ⟨r, hr, e⟩ := hm.old m hm'
      rw [e]
      exact hw _ _ (hg.pq _ (by rw [hr]; rfl))
    have ho : ∀ x ∈ (modifyLoop s c ks []).map (·.1), Proper x := by
      intro x hx
      obtain ⟨m, hm', rfl⟩ := List.mem_map.1 hx
      obtain ⟨r, hr, _⟩ := hm.old m hm'
      exact hg.pq _ (by rw [hr]; rfl)
    rw [e1, has_putLookups _ (hpl _ hp) g k hk _ (ok_drops _ _ (hsel s hg)), has_drops _ ho g k hk, h g k hk, hlk]
    rfl

theorem records_run (sel : St → Bucket Unit) (f : Rec → List Key)
    (hstep : ∀ s, Good s → ∀ op, Wf op → ∀ E, Records (sel s) E → Records (sel (step s op)) (everStep f s op E))
    (ops : List Op) : ∀ s, Good s → (∀ op ∈ ops, Wf op) → ∀ E, Records (sel s) E → Records (sel (run s ops)) (ever f s ops E) := by
  induction ops with
  | nil => intro s _ _ E h; exact h
  | cons op ops ih =>
    intro s hg hw E h
    exact ih _ (good_step s hg op (hw op (by simp))) (fun o ho => hw o (List.mem_cons_of_mem _ ho)) _
      (hstep s hg op (hw op (by simp)) E h)

theorem records_rtk (ops : List Op) (hw : ∀ op ∈ ops, Wf op) :
    Records (run {} ops).rtk (ever reps {} ops fun _ _ => False) :=
  records_run (·.rtk) reps
    (fun s hg op hwo E h => records_step (·.rtk) repLookups reps (fun s h => h.rtk) (fun _ _ _ => rfl) (fun _ _ _ => rfl)
      (fun _ _ _ _ _ => rfl) (fun _ _ _ => rfl) mem_repLookups (fun _ h => (proper_lookups h).1) s hg op hwo E h)
    ops {} good_init hw _ (fun g k _ => by simp [has_nil])

theorem records_dtk (ops : List Op) (hw : ∀ op ∈ ops, Wf op) :
    Records (run {} ops).dtk (ever deps {} ops fun _ _ => False) :=
  records_run (·.dtk) deps
    (fun s hg op hwo E h => records_step (·.dtk) depLookups deps (fun s h => h.dtk) (fun _ _ _ => rfl) (fun _ _ _ => rfl)
      (fun _ _ _ _ _ => rfl) (fun _ _ _ => rfl) mem_depLookups (fun _ h => (proper_lookups h).2.1) s hg op hwo E h)
    ops {} good_init hw _ (fun g k _ => by simp [has_nil])

theorem records_rdtk (ops : List Op) (hw : ∀ op ∈ ops, Wf op) :
    Records (run {} ops).rdtk (ever on {} ops fun _ _ => False) :=
  records_run (·.rdtk) on
    (fun s hg op hwo E h => records_step (·.rdtk) rdepLookups on (fun s h => h.rdtk) (fun _ _ _ => rfl) (fun _ _ _ => rfl)
      (fun _ _ _ _ _ => rfl) (fun _ _ _ => rfl) mem_rdepLookups (fun _ h => (proper_lookups h).2.2) s hg op hwo E h)
    ops {} good_init hw _ (fun g k _ => by simp [has_nil])

end Verif.Server.Store
