/-
Helpers for C127 (WaitsProps): what the queue and the database know of each other.
-/
import Verif.Server.Waits

namespace Verif.Server.Waits

/-- `J` depends on the job `A` with key `j` -/
def On (J : Job) (j : Key) (A : Job) : Prop := Dep.key j ∈ J.deps ∨ ∃ g ∈ A.groups, Dep.grp g ∈ J.deps

/-! ## the queue -/

/-- what holds of items whatever the database says -/
structure QInv (q : Key → Option Item) (kids : List (Key × Key)) : Prop where
  sub : ∀ k it, q k = some it → ∀ p ∈ it.rem, p ∈ it.deps
  kid : ∀ k it, q k = some it → ∀ p ∈ it.rem, (p, k) ∈ kids
  idle : ∀ k it, q k = some it → it.st = .ready ∨ it.st = .run → it.rem = []

theorem nil_of_equiv {a b : List Key} (h : ∀ x ∈ a, x ∈ b) (hb : b = []) : a = [] := by
  subst hb
  cases a with
  | nil => rfl
  | cons x l => exact absurd (h x (by simp)) (by simp)

theorem qinv_add (s : S) (k d st) (h : QInv s.q s.kids) :
    QInv (qAdd s k d st).q (qAdd s k d st).kids := by
  unfold qAdd
  obtain ⟨h1, h2, h3⟩ := h
  split
  · exact ⟨h1, h2, h3⟩
  · split
    · constructor <;> grind
    · constructor <;> grind

theorem qinv_update (s : S) (k d) (h : QInv s.q s.kids) : QInv (qUpdate s k d).q (qUpdate s k d).kids := by
  unfold qUpdate
  obtain ⟨h1, h2, h3⟩ := h
  split
  · exact ⟨h1, h2, h3⟩
  · split
    · exact ⟨h1, h2, h3⟩
    · constructor <;> grind

theorem qRemove_db (s : S) (k) : (qRemove s k).live = s.live ∧ (qRemove s k).comp = s.comp ∧
    (qRemove s k).dtk = s.dtk ∧ (qRemove s k).rdtk = s.rdtk ∧ (qRemove s k).known = s.known := by
  unfold qRemove; split <;> simp

/-- `it` is what is left of `it0` when `k` went -/
def Left (s : S) (k x : Key) (it0 it : Item) : Prop :=
  ((k, x) ∈ s.kids ∧ it = resolve k it0) ∨ ((k, x) ∉ s.kids ∧ it = it0)

theorem qRemove_some {s : S} {k x it} (hk : (s.q k).isSome) (h : (qRemove s k).q x = some it) :
    x ≠ k ∧ ∃ it0, s.q x = some it0 ∧ Left s k x it0 it := by
  unfold qRemove at h
  split at h
  · simp_all
  · simp only at h
    unfold Left
    split at h
    · cases h
    · refine ⟨by assumption, ?_⟩
      split at h
      · simp only [Option.map_eq_some_iff] at h
        obtain ⟨a, h1, h2⟩ := h
        exact ⟨a, h1, .inl ⟨by assumption, h2.symm⟩⟩
      · exact ⟨it, h, .inr ⟨by assumption, rfl⟩⟩

theorem qRemove_isSome {s : S} {k x} (h : (s.q x).isSome) (hx : x ≠ k) : ((qRemove s k).q x).isSome := by
  unfold qRemove
  split
  · exact h
  · simp only [hx, if_false]
    split <;> simp [h]

theorem qRemove_self (s : S) (k) : (qRemove s k).q k = none := by
  unfold qRemove
  split
  · assumption
  · simp

theorem qRemove_kids {s : S} {k it} (h : s.q k = some it) : (qRemove s k).kids =
    s.kids.filter fun e => !(decide (e.1 = k) || (decide (e.2 = k) && decide (e.1 ∈ it.deps))) := by
  unfold qRemove
  rw [h]

theorem left_rem {s : S} {k x it0 it} (h : Left s k x it0 it) (hk : ∀ p ∈ it0.rem, (p, x) ∈ s.kids) :
    it.deps = it0.deps ∧ (∀ p, p ∈ it.rem ↔ p ∈ it0.rem ∧ p ≠ k) ∧
    (it.st = it0.st ∨ (it0.st = .dependent ∧ it.st = .ready ∧ it.rem = [])) ∧
    (it.st = .dependent → it0.st = .dependent ∧ (it.rem ≠ [] ∨ (it.rem = it0.rem ∧ it.rem = []))) := by
  rcases h with ⟨h1, rfl⟩ | ⟨h1, rfl⟩
  · simp only [resolve]
    grind
  · grind

theorem qinv_remove (s : S) (k) (h : QInv s.q s.kids) : QInv (qRemove s k).q (qRemove s k).kids := by
  cases hk : s.q k with
  | none =>
    have : qRemove s k = s := by unfold qRemove; rw [hk]
    rw [this]; exact h
  | some it0 =>
    have key : ∀ x it, (qRemove s k).q x = some it → x ≠ k ∧ ∃ it0, s.q x = some it0 ∧ it.deps = it0.deps ∧
        (∀ p, p ∈ it.rem ↔ p ∈ it0.rem ∧ p ≠ k) ∧ (it.st = it0.st ∨ (it0.st = .dependent ∧ it.st = .ready ∧ it.rem = [])) := by
      intro x it hx
      obtain ⟨h1, a, h2, h3⟩ := qRemove_some (by simp [hk]) hx
      have := left_rem h3 (h.kid x a h2)
      exact ⟨h1, a, h2, this.1, this.2.1, this.2.2.1⟩
    rw [qRemove_kids hk]
    obtain ⟨h1, h2, h3⟩ := h
    constructor
    · intro x it hx p hp
      obtain ⟨_, a, ha, hd, hr, _⟩ := key x it hx
      rw [hd]; exact h1 x a ha p ((hr p).1 hp).1
    · intro x it hx p hp
      obtain ⟨hxk, a, ha, hd, hr, _⟩ := key x it hx
      have := (hr p).1 hp
      have h5 := h2 x a ha p this.1
      simp only [List.mem_filter]
      exact ⟨h5, by simp [this.2, hxk]⟩
    · intro x it hx hs
      obtain ⟨hxk, a, ha, hd, hr, hst⟩ := key x it hx
      rcases hst with e | ⟨_, _, e⟩
      · have := h3 x a ha (by rw [← e]; exact hs)
        rw [this] at hr
        cases hl : it.rem with
        | nil => rfl
        | cons p l => exact absurd ((hr p).1 (by simp [hl])).1 (by simp)
      · exact e

/-! ## adding -/

theorem qAdd_db (s : S) (k d st) : (qAdd s k d st).live = s.live ∧ (qAdd s k d st).comp = s.comp ∧
    (qAdd s k d st).dtk = s.dtk ∧ (qAdd s k d st).rdtk = s.rdtk ∧ (qAdd s k d st).known = s.known := by
  unfold qAdd; split <;> (try split) <;> simp

theorem enq_db : ∀ l (s : S), (enqueueAll s l).live = s.live ∧ (enqueueAll s l).comp = s.comp ∧
    (enqueueAll s l).dtk = s.dtk ∧ (enqueueAll s l).rdtk = s.rdtk ∧ (enqueueAll s l).known = s.known
  | [], s => by simp [enqueueAll]
  | (k, d, st) :: l, s => by
    have h := enq_db l (qAdd s k d st)
    have h2 := qAdd_db s k d st
    simp only [enqueueAll]
    grind

theorem enq_q : ∀ l (s : S) (x : Key), (∃ it, s.q x = some it ∧ (enqueueAll s l).q x = some it) ∨
    (s.q x = none ∧ (∃ d st, (x, d, st) ∈ l ∧ (enqueueAll s l).q x = some ⟨if d = [] then st else .dependent, d, d⟩)) ∨
    (s.q x = none ∧ (∀ e ∈ l, e.1 ≠ x) ∧ (enqueueAll s l).q x = none)
  | [], s, x => by
    simp only [enqueueAll]
    cases h : s.q x <;> simp
  | (k, d, st) :: l, s, x => by
    have h := enq_q l (qAdd s k d st) x
    simp only [enqueueAll]
    have h2 : (qAdd s k d st).q x = if x = k ∧ s.q k = none then some ⟨if d = [] then st else .dependent, d, d⟩ else s.q x := by
      unfold qAdd
      cases hk : s.q k with
      | none =>
        simp only [Option.isSome_none, Bool.false_eq_true, if_false]
        by_cases hd : d = []
        · simp only [hd, if_true]; grind
        · simp only [hd, if_false]; grind
      | some a => simp
    rw [h2] at h
    by_cases hx : x = k ∧ s.q k = none
    · rw [if_pos hx] at h
      obtain ⟨rfl, hn⟩ := hx
      refine .inr (.inl ⟨hn, d, st, by simp, ?_⟩)
      rcases h with ⟨it, h1, h3⟩ | ⟨h1, _⟩ | ⟨h1, _⟩
      · cases h1; exact h3
      · cases h1
      · cases h1
    · rw [if_neg hx] at h
      rcases h with h | ⟨h1, d', st', h3, h4⟩ | ⟨h1, h3, h4⟩
      · exact .inl h
      · exact .inr (.inl ⟨h1, d', st', by simp [h3], h4⟩)
      · refine .inr (.inr ⟨h1, ?_, h4⟩)
        intro e he
        rcases List.mem_cons.1 he with rfl | he
        · intro e; exact hx ⟨e.symm, by rw [show k = x from e]; exact h1⟩
        · exact h3 e he

theorem qinv_enq : ∀ l (s : S), QInv s.q s.kids → QInv (enqueueAll s l).q (enqueueAll s l).kids
  | [], s, h => by simpa [enqueueAll] using h
  | (k, d, st) :: l, s, h => by
    simp only [enqueueAll]
    exact qinv_enq l _ (qinv_add s k d st h)

/-! ## updating -/

def updItem (d : List Key) (it : Item) : Item :=
  if (∀ x ∈ it.rem, x ∈ d) ∧ (∀ x ∈ d, x ∈ it.rem) then it
  else ⟨if d = [] then .ready else if it.st = .bury then .bury else .dependent, d, d⟩

theorem qUpdate_db (s : S) (k d) : (qUpdate s k d).live = s.live ∧ (qUpdate s k d).comp = s.comp ∧
    (qUpdate s k d).dtk = s.dtk ∧ (qUpdate s k d).rdtk = s.rdtk ∧ (qUpdate s k d).known = s.known := by
  unfold qUpdate; split <;> (try split) <;> simp

theorem qUpdate_q (s : S) (k d x) : (qUpdate s k d).q x = if x = k then (s.q k).map (updItem d) else s.q x := by
  unfold qUpdate updItem
  cases h : s.q k with
  | none => simp only [Option.map_none]; grind
  | some it =>
    simp only [Option.map_some]
    split
    · grind
    · grind

theorem updItem_idem (d it) : updItem d (updItem d it) = updItem d it := by
  unfold updItem
  split
  · simp [*]
  · rename_i h
    rw [if_pos]
    simp

theorem incomplete_congr {s s' : S} (h : s'.live = s.live) (h2 : s'.dtk = s.dtk) (ds) : incomplete s' ds = incomplete s ds := by
  unfold incomplete; rw [h, h2]

/-- the dependencies an update gives -/
def newDeps (s : S) (k : Key) : List Key := match s.live k with | some j => incomplete s j.deps | none => []

theorem newDeps_congr {s s' : S} (h : s'.live = s.live) (h2 : s'.dtk = s.dtk) (k) : newDeps s' k = newDeps s k := by
  unfold newDeps; rw [h]; split <;> simp [incomplete_congr h h2]

theorem upd_spec : ∀ l (s s' : S), updateAll s l = some s' →
    (s'.live = s.live ∧ s'.comp = s.comp ∧ s'.dtk = s.dtk ∧ s'.rdtk = s.rdtk ∧ s'.known = s.known) ∧
    (∀ x, s'.q x = if x ∈ l then (s.q x).map (updItem (newDeps s x)) else s.q x) ∧
    (QInv s.q s.kids → QInv s'.q s'.kids)
  | [], s, s', h => by
    simp only [updateAll] at h
    cases h
    simp
  | k :: l, s, s', h => by
    simp only [updateAll] at h
    split at h
    · rename_i j it hj hit
      obtain ⟨h1, h2, h3⟩ := upd_spec l _ _ h
      have hd := qUpdate_db s k (incomplete s j.deps)
      have hn : newDeps s k = incomplete s j.deps := by simp [newDeps, hj]
      refine ⟨by grind, ?_, fun hq => h3 (qinv_update s k _ hq)⟩
      intro x
      rw [h2 x, newDeps_congr hd.1 hd.2.2.1, qUpdate_q]
      by_cases hx : x = k
      · subst hx
        rw [← hn]
        by_cases hl : x ∈ l
        · simp only [hl, if_true, List.mem_cons, or_true, hit, Option.map_some, updItem_idem]
        · simp [hl]
      · simp [hx]
    · cases h

/-! ## the database and the queue -/

theorem mem_groupDeps (ds : List Dep) (g) : g ∈ groupDeps ds ↔ Dep.grp g ∈ ds := by
  unfold groupDeps
  simp only [List.mem_filterMap]
  constructor
  · rintro ⟨d, hd, h⟩
    cases d <;> simp at h
    subst h; exact hd
  · intro h; exact ⟨_, h, rfl⟩

theorem mem_incomplete (s : S) (ds : List Dep) (j) : j ∈ incomplete s ds ↔
    (s.live j).isSome ∧ (Dep.key j ∈ ds ∨ ∃ g, Dep.grp g ∈ ds ∧ (g, j) ∈ s.dtk) := by
  unfold incomplete
  simp only [List.mem_flatMap]
  constructor
  · rintro ⟨d, hd, h⟩
    cases d with
    | key k =>
      simp only [List.mem_ite_nil_right, List.mem_singleton] at h
      obtain ⟨h1, rfl⟩ := h
      exact ⟨h1, .inl hd⟩
    | grp g =>
      simp only [List.mem_filter, List.mem_map] at h
      obtain ⟨⟨p, hp, rfl⟩, h2⟩ := h
      have h3 : p.1 = g := by simpa using hp.2
      refine ⟨by simpa using h2, .inr ⟨g, hd, ?_⟩⟩
      rw [← h3]; exact hp.1
  · rintro ⟨hl, h | ⟨g, hg, h⟩⟩
    · exact ⟨_, h, by simp [hl]⟩
    · refine ⟨_, hg, ?_⟩
      simp only [List.mem_filter, List.mem_map]
      exact ⟨⟨(g, j), by simp [h], rfl⟩, by simpa using hl⟩

/-- what holds between requests -/
structure Inv (s : S) : Prop where
  qi : QInv s.q s.kids
  sync : ∀ k, (s.live k).isSome ↔ (s.q k).isSome
  known : ∀ k, (s.live k).isSome → k ∈ s.known
  keyL : ∀ k j, s.live k = some j → j.key = k
  keyC : ∀ k j, s.comp k = some j → j.key = k
  dtk : ∀ k j, s.live k = some j ∨ s.comp k = some j → ∀ g ∈ j.groups, (g, k) ∈ s.dtk
  rdtk : ∀ k j, s.live k = some j ∨ s.comp k = some j → ∀ g, Dep.grp g ∈ j.deps → (g, k) ∈ s.rdtk
  wait : ∀ k it J, s.q k = some it → s.live k = some J → ∀ j A, s.live j = some A → On J j A → j ∈ it.rem
  remq : ∀ k it, s.q k = some it → ∀ p ∈ it.rem, (s.q p).isSome

theorem inv_init : Inv init := by
  constructor
  · constructor <;> simp [init]
  all_goals simp [init]

/-! ## calm histories -/

/-- the live job `k` depends on `d` by its command -/
def Mentions (s : S) (k d : Key) : Prop := match s.live k with | some J => Dep.key d ∈ J.deps | none => False

/-- the live job `k` depends on the group `g` -/
def MentionsG (s : S) (k : Key) (g : Grp) : Prop := match s.live k with | some J => Dep.grp g ∈ J.deps | none => False

def groupsOf (s : S) (k : Key) : List Grp := match s.live k with | some J => J.groups | none => []

instance (s k d) : Decidable (Mentions s k d) := by unfold Mentions; split <;> infer_instance
instance (s k d) : Decidable (MentionsG s k d) := by unfold MentionsG; split <;> infer_instance

/-- requests one after the other, that do not change a job behind the back of those
that depend on it -/
def Calm (s : S) : Op → Prop
  | .add js back upd =>
    (∀ j ∈ js, s.live j.key = none ∨ s.live j.key = some j) ∧
    ∀ j ∈ js ++ back, s.live j.key = none → ∀ k ∈ s.known, k ∈ upd ∨ ¬ Mentions s k j.key
  | .modDeps k _ => s.comp k = none
  | .modGroups k gs => s.comp k = none ∧ ∀ g ∈ gs, g ∈ groupsOf s k ∨ ∀ x ∈ s.known, ¬ MentionsG s x g
  | .rename k k' => s.comp k = none ∧ ∀ x ∈ s.known, ¬ Mentions s x k ∧ ¬ Mentions s x k'
  | .prep .. => False
  | .store _ => False
  | .deps _ => False
  | .upd _ => False
  | .enq _ => False
  | .arch1 _ => False
  | .arch2 _ => False
  | _ => True

instance (s o) : Decidable (Calm s o) := by cases o <;> unfold Calm <;> infer_instance

def CalmAll (s : S) : List Op → Prop
  | [] => True
  | o :: os => Calm s o ∧ match step s o with | some s' => CalmAll s' os | none => True

instance decCalmAll : ∀ (s : S) (os : List Op), Decidable (CalmAll s os)
  | _, [] => by unfold CalmAll; infer_instance
  | s, o :: os => by
    unfold CalmAll
    have : ∀ s', Decidable (CalmAll s' os) := fun s' => decCalmAll s' os
    cases step s o <;> infer_instance

theorem find_some {l : List Job} {k j} (h : find l k = some j) : j ∈ l ∧ j.key = k := by
  unfold find at h
  exact ⟨List.mem_of_find?_eq_some h, by simpa using List.find?_some h⟩

theorem find_none {l : List Job} {k} (h : find l k = none) : ∀ j ∈ l, j.key ≠ k := by
  unfold find at h
  simpa using h

theorem nodup_inj {js : List Job} (h : (js.map (·.key)).Nodup) : ∀ a ∈ js, ∀ b ∈ js, a.key = b.key → a = b := by
  induction js with
  | nil => simp
  | cons x l ih =>
    simp only [List.map_cons, List.nodup_cons, List.mem_map, not_exists, not_and] at h
    intro a ha b hb e
    rcases List.mem_cons.1 ha with ea | ha' <;> rcases List.mem_cons.1 hb with eb | hb'
    · rw [ea, eb]
    · subst ea; exact absurd e.symm (h.1 b hb')
    · subst eb; exact absurd e (h.1 a ha')
    · exact ih h.2 a ha' b hb' e

theorem store_live_mem {s : S} {js back upd} (hc : Closed s js back upd) (hn : (js.map (·.key)).Nodup) :
    ∀ j ∈ js ++ back, (store s js back).live j.key = some j := by
  intro j hj
  have hinj : ∀ b ∈ js ++ back, b.key = j.key → b = j := by
    intro b hb e
    rcases List.mem_append.1 hb with hb | hb <;> rcases List.mem_append.1 hj with hj | hj
    · exact nodup_inj hn b hb j hj e
    · exact absurd (List.mem_map.2 ⟨b, hb, e⟩) (hc.1 j hj).2.2
    · exact absurd (List.mem_map.2 ⟨j, hj, e.symm⟩) (hc.1 b hb).2.2
    · have h1 := (hc.1 b hb).1
      have h2 := (hc.1 j hj).1
      rw [e, h2] at h1
      exact (Option.some.inj h1).symm
  simp only [store]
  cases h : find (js ++ back) j.key with
  | none => exact absurd rfl (find_none h j hj)
  | some b => rw [hinj b (find_some h).1 (find_some h).2]

theorem store_live_or (s : S) (js back : List Job) (k) :
    (∃ j ∈ js ++ back, j.key = k) ∨ ((∀ j ∈ js ++ back, j.key ≠ k) ∧ (store s js back).live k = s.live k) := by
  cases h : find (js ++ back) k with
  | none => exact .inr ⟨find_none h, by simp [store, h]⟩
  | some b => exact .inl ⟨b, (find_some h).1, (find_some h).2⟩

/-- the lookups, after storing -/
structure DbInv (s : S) : Prop where
  known : ∀ k, (s.live k).isSome → k ∈ s.known
  keyL : ∀ k j, s.live k = some j → j.key = k
  keyC : ∀ k j, s.comp k = some j → j.key = k
  dtk : ∀ k j, s.live k = some j ∨ s.comp k = some j → ∀ g ∈ j.groups, (g, k) ∈ s.dtk
  rdtk : ∀ k j, s.live k = some j ∨ s.comp k = some j → ∀ g, Dep.grp g ∈ j.deps → (g, k) ∈ s.rdtk

theorem Inv.db {s : S} (h : Inv s) : DbInv s := ⟨h.known, h.keyL, h.keyC, h.dtk, h.rdtk⟩

theorem store_db {s : S} {js back upd} (h : DbInv s) (hc : Closed s js back upd) (hn : (js.map (·.key)).Nodup) :
    DbInv (store s js back) := by
  have hm := store_live_mem hc hn
  have key : ∀ k j, (store s js back).live k = some j →
      (j ∈ js ∧ j.key = k) ∨ s.live k = some j ∨ s.comp k = some j := by
    intro k j hk
    rcases store_live_or s js back k with ⟨b, hb, e⟩ | ⟨_, e⟩
    · have := hm b hb
      rw [e, hk] at this
      obtain rfl := Option.some.inj this
      rcases List.mem_append.1 hb with hb | hb
      · exact .inl ⟨hb, e⟩
      · exact .inr (.inr (by rw [← e]; exact (hc.1 j hb).1))
    · exact .inr (.inl (by rw [← e]; exact hk))
  constructor
  · intro k hk
    simp only [store, List.mem_append, List.mem_map]
    rcases store_live_or s js back k with ⟨b, hb, e⟩ | ⟨_, e⟩
    · exact .inr ⟨b, by simpa using hb, e⟩
    · exact .inl (h.known k (by rw [← e]; exact hk))
  · intro k j hk
    rcases key k j hk with h1 | h1 | h1
    · exact h1.2
    · exact h.keyL k j h1
    · exact h.keyC k j h1
  · exact h.keyC
  · intro k j hk g hg
    simp only [store, List.mem_append, List.mem_flatMap, List.mem_map]
    rcases hk with hk | hk
    · rcases key k j hk with h1 | h1 | h1
      · exact .inr ⟨j, h1.1, g, hg, by rw [h1.2]⟩
      · exact .inl (h.dtk k j (.inl h1) g hg)
      · exact .inl (h.dtk k j (.inr h1) g hg)
    · exact .inl (h.dtk k j (.inr hk) g hg)
  · intro k j hk g hg
    simp only [store, List.mem_append, List.mem_flatMap, List.mem_map, mem_groupDeps]
    rcases hk with hk | hk
    · rcases key k j hk with h1 | h1 | h1
      · exact .inr ⟨j, h1.1, g, hg, by rw [h1.2]⟩
      · exact .inl (h.rdtk k j (.inl h1) g hg)
      · exact .inl (h.rdtk k j (.inr h1) g hg)
    · exact .inl (h.rdtk k j (.inr hk) g hg)

theorem on_incomplete {s : S} (h : DbInv s) {J : Job} {j A} (hj : s.live j = some A) (hon : On J j A) :
    j ∈ incomplete s J.deps := by
  rw [mem_incomplete]
  refine ⟨by simp [hj], ?_⟩
  rcases hon with h1 | ⟨g, hg, h1⟩
  · exact .inl h1
  · exact .inr ⟨g, h1, h.dtk j A (.inl hj) g hg⟩

theorem incomplete_live {s : S} {ds j} (h : j ∈ incomplete s ds) : (s.live j).isSome := ((mem_incomplete s ds j).1 h).1

theorem updItem_rem (d it) : ∀ p, p ∈ (updItem d it).rem ↔ p ∈ d := by
  unfold updItem
  intro p
  split
  · rename_i h; exact ⟨h.1 p, h.2 p⟩
  · simp

theorem inv_add {s s' : S} {js back upd} (h : Inv s) (hc : Calm s (.add js back upd)) (hs : stepAdd s js back upd = some s') : Inv s' := by
  unfold stepAdd at hs
  split at hs
  · rename_i hg
    obtain ⟨hcl, hn⟩ := hg
    simp only [Option.map_eq_some_iff] at hs
    obtain ⟨s2, hu, rfl⟩ := hs
    obtain ⟨⟨u1, u2, u3, u4, u5⟩, uq, ui⟩ := upd_spec _ _ _ hu
    have hdb := store_db h.db hcl hn
    have hm := store_live_mem hcl hn
    generalize hs1 : store s js back = s1 at *
    have q1 : s1.q = s.q := by rw [← hs1]; rfl
    have k1 : s1.kids = s.kids := by rw [← hs1]; rfl
    have hf : ∀ e ∈ findDeps s1 (back ++ js), ∃ J, s1.live e.1 = some J ∧ e.2.1 = incomplete s1 J.deps ∧ e.2.2 = .ready := by
      intro e he
      simp only [findDeps, List.mem_map] at he
      obtain ⟨j, hj, rfl⟩ := he
      exact ⟨j, hm j (by simp only [List.mem_append] at hj ⊢; exact hj.symm), rfl, rfl⟩
    obtain ⟨e1, e2, e3, e4, e5⟩ := enq_db (findDeps s1 (back ++ js)) s2
    have eq := enq_q (findDeps s1 (back ++ js)) s2
    have ei := qinv_enq (findDeps s1 (back ++ js)) s2 (ui (by rw [q1, k1]; exact h.qi))
    generalize enqueueAll s2 (findDeps s1 (back ++ js)) = s' at *
    have L : s'.live = s1.live := by rw [e1, u1]
    -- live jobs that were there before
    have hold : ∀ k, (s.live k).isSome → s1.live k = s.live k := by
      intro k hk
      rcases store_live_or s js back k with ⟨b, hb, e⟩ | ⟨_, e⟩
      · have hb1 := hm b hb
        rcases List.mem_append.1 hb with hb' | hb'
        · rcases hc.1 b hb' with h5 | h5
          · rw [e] at h5; simp [h5] at hk
          · rw [← e, hb1, h5]
        · have h5 := (hcl.1 b hb').2.1
          rw [e] at h5; simp [h5] at hk
      · rw [← hs1, e]
    -- an item of the new queue
    have item : ∀ k it, s'.q k = some it →
        (k ∉ upd ∧ s.q k = some it) ∨ (∃ J, s1.live k = some J ∧ ∀ p, p ∈ it.rem ↔ p ∈ incomplete s1 J.deps) := by
      intro k it hk
      rcases eq k with ⟨it', h5, h6⟩ | ⟨h5, d, st, h6, h7⟩ | ⟨_, _, h7⟩
      · rw [hk] at h6; cases h6
        rw [uq k] at h5
        by_cases hk' : k ∈ upd
        · rw [if_pos hk', q1] at h5
          have hl := hold k (hcl.2.1 k hk')
          have hl2 := hcl.2.1 k hk'
          obtain ⟨J, hJ⟩ := Option.isSome_iff_exists.1 hl2
          simp only [Option.map_eq_some_iff] at h5
          obtain ⟨a, _, rfl⟩ := h5
          refine .inr ⟨J, by rw [hl, hJ], fun p => ?_⟩
          rw [updItem_rem, newDeps, hl, hJ]
        · rw [if_neg hk', q1] at h5
          exact .inl ⟨hk', h5⟩
      · rw [hk] at h7; cases h7
        obtain ⟨J, h8, h9, _⟩ := hf _ h6
        exact .inr ⟨J, h8, fun p => by simp only at h9; rw [h9]⟩
      · rw [hk] at h7; cases h7
    have hsome : ∀ k, (s1.live k).isSome ↔ (s'.q k).isSome := by
      intro k
      constructor
      · intro hk
        rcases eq k with ⟨it', h5, h6⟩ | ⟨h5, d, st, h6, h7⟩ | ⟨h5, h6, h7⟩
        · simp [h6]
        · simp [h7]
        · exfalso
          rw [uq k, q1] at h5
          have hq : s.q k = none := by
            by_cases hk' : k ∈ upd
            · rw [if_pos hk'] at h5; simpa using h5
            · rw [if_neg hk'] at h5; exact h5
          rcases store_live_or s js back k with ⟨b, hb, e⟩ | ⟨_, e⟩
          · refine h6 (b.key, incomplete s1 b.deps, .ready) ?_ e
            simp only [findDeps, List.mem_map]
            exact ⟨b, by simp only [List.mem_append] at hb ⊢; exact hb.symm, rfl⟩
          · rw [← hs1, e, h.sync k, hq] at hk
            simp at hk
      · intro hk
        obtain ⟨it, hit⟩ := Option.isSome_iff_exists.1 hk
        rcases item k it hit with ⟨_, h5⟩ | ⟨J, h5, _⟩
        · have := (h.sync k).2 (by simp [h5])
          rw [hold k this]; exact this
        · simp [h5]
    constructor
    · exact ei
    · intro k; rw [L]; exact hsome k
    · intro k; rw [L, e5, u5]; exact hdb.known k
    · rw [L]; exact hdb.keyL
    · rw [e2, u2]; exact hdb.keyC
    · rw [L, e2, u2, e3, u3]; exact hdb.dtk
    · rw [L, e2, u2, e4, u4]; exact hdb.rdtk
    · rw [L]
      intro k it J hk hJ j A hA hon
      rcases item k it hk with ⟨hku, h5⟩ | ⟨J', h5, h6⟩
      · have hkl := (h.sync k).2 (by simp [h5])
        have hJ' : s.live k = some J := by rw [← hold k hkl]; exact hJ
        by_cases hj : (s.live j).isSome
        · exact h.wait k it J h5 hJ' j A (by rw [← hold j hj]; exact hA) hon
        · exfalso
          rcases store_live_or s js back j with ⟨b, hb, e⟩ | ⟨_, e⟩
          · have hb1 := hm b hb
            rw [e, hA] at hb1
            cases hb1
            rcases hon with h7 | ⟨g, hg, h7⟩
            · rcases hc.2 A hb (by rw [e]; simpa using hj) k (h.known k hkl) with h8 | h8
              · exact hku h8
              · apply h8; simp only [Mentions, hJ']; rw [e]; exact h7
            · refine hku ((hcl.2.2 (g, k) (h.rdtk k J (.inl hJ') g h7) ?_).1 hkl)
              simp only [List.mem_append, List.mem_flatMap]
              exact .inl ⟨A, by simpa using hb, hg⟩
          · rw [← hs1, e] at hA
            simp [hA] at hj
      · rw [hJ] at h5; cases h5
        exact (h6 j).2 (on_incomplete hdb hA hon)
    · intro k it hk p hp
      rw [← hsome p]
      rcases item k it hk with ⟨hku, h5⟩ | ⟨J', h5, h6⟩
      · have := (h.sync p).2 (h.remq k it h5 p hp)
        rw [hold p this]; exact this
      · exact incomplete_live ((h6 p).1 hp)
  · cases hs

end Verif.Server.Waits
