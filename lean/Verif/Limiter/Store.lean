import Verif.Limiter.Lemmas
/-!
# The limits users set: database and memory (`/repo/jobqueue/db.go`, `/repo/jobqueue/server.go`), property C55

The database bucket of limits is a function from group name to stored limit. `win` says which names spell a time window
(`NameToGroupData`, modelled in `Limiter/Parse.lean`). A Go map given to `storeLimitGroups` is a list of pairs with distinct
names, in whatever order the iteration takes; bolt transactions do not fail.
-/
namespace Verif.Limiter

/-- The `bucketLGs` bucket and the limiter's groups in memory. -/
structure LStore where
  db : String → Option Int := fun _ => none
  mem : Groups := fun _ => none

/-- db.go:420-431 `retrieveLimitGroup`, the callback given to the limiter (server.go:710). -/
def retrieve (win : String → Option GroupData) (db : String → Option Int) : Callback := fun n =>
  match win n with
  | some g => some g
  | none =>
    match db n with
    | none => some (newCount (-1))
    | some v => some (newCount v)

/-- group.go:220-228 `Limit`: the greatest 64-bit number for what is no count. -/
def GroupData.limit' (g : GroupData) : Int := if g.isCount then g.limit else 9223372036854775807

/-- db.go:370-415 `storeLimitGroups`, one group: the new bucket, whether it is in `changed`, whether it is in `removed`. -/
def dbStore1 (db : String → Option Int) (n : String) (d : GroupData) : (String → Option Int) × Bool × Bool :=
  if ¬ d.isCount then (db, false, true)
  else
    match db n with
    | some v =>
      if d.limit' < 0 then (fun x => if x = n then none else db x, false, true)
      else if v = d.limit' then (db, false, false)
      else (fun x => if x = n then some d.limit' else db x, true, false)
    | none =>
      if d.limit' < 0 then (db, false, false)
      else (fun x => if x = n then some d.limit' else db x, false, false)

/-- server.go:1967-1979 `storeLimitGroups`, for adding jobs: the groups one after the other. (The code stores all first and then
updates the memory; the names are distinct, so the order makes no difference to any of them.) -/
def store1 (s : LStore) (n : String) (d : GroupData) : LStore :=
  match dbStore1 s.db n d with
  | (db, changed, removed) =>
    let mem := if changed then setLimit s.mem n d else s.mem
    { db := db, mem := if removed then removeLimit mem n else mem }

def storeAll (s : LStore) : List (String × GroupData) → LStore
  | [] => s
  | (n, d) :: l => storeAll (store1 s n d) l

/-- server.go:3060-3083 `getSetLimitGroup` with a limit given. -/
def getSet (s : LStore) (n : String) (d : GroupData) : LStore :=
  match dbStore1 s.db n d with
  | (db, _, removed) =>
    let mem := if d.isValid then setLimit s.mem n d else s.mem
    { db := db, mem := if removed then removeLimit mem n else mem }

/-- What happens to the limits: a user sets one with `wr limit -g name:k`, adds jobs with groups `name:k`, jobs take and give
back slots, someone asks for a limit, the manager restarts. -/
inductive SOp where
  | set (n : String) (k : Int)
  | add (l : List (String × Int))
  | inc (c : Clock) (ns : List String)
  | dec (ns : List String)
  | ask (n : String)
  | restart

def sstep (win : String → Option GroupData) (s : LStore) : SOp → LStore
  | .set n k => getSet s n (newCount k)
  | .add l => storeAll s (l.map fun x => (x.1, newCount x.2))
  | .inc c ns => { s with mem := (increment c (retrieve win s.db) s.mem ns).1 }
  | .dec ns => { s with mem := decrement s.mem ns }
  | .ask n => { s with mem := (getLimit (retrieve win s.db) s.mem n).1 }
  | .restart => { s with mem := fun _ => none }

def srun (win : String → Option GroupData) : LStore → List SOp → LStore
  | s, [] => s
  | s, o :: os => srun win (sstep win s o) os

/-- Specification: the last limit set for each group; `none`: unlimited. A negative number means unlimited. -/
def lastSet (m : String → Option Int) : List SOp → String → Option Int
  | [], n => m n
  | .set x k :: os, n => lastSet (fun y => if y = x then (if k < 0 then none else some k) else m y) os n
  | .add l :: os, n => lastSet (l.foldl (fun m x => fun y => if y = x.1 then (if x.2 < 0 then none else some x.2) else m y) m) os n
  | _ :: os, n => lastSet m os n

/-- The limit in force: `none`: unlimited. -/
def inForce (win : String → Option GroupData) (s : LStore) (n : String) : Option Int :=
  let g := (getLimit (retrieve win s.db) s.mem n).2
  if g.isValid then some g.limit else none

/-- Only limits that are not negative. -/
def Lim : SOp → Prop
  | .set _ k => 0 ≤ k
  | .add l => ∀ x ∈ l, 0 ≤ x.2
  | _ => True

/-! ### Proof -/

/-- What is in memory for a name that is no window is what the database says. -/
structure SInv (win : String → Option GroupData) (s : LStore) : Prop where
  pos : ∀ n v, s.db n = some v → 0 ≤ v
  agree : ∀ n g, win n = none → s.mem n = some g → g.isCount = true ∧ s.db n = some g.limit

theorem newCount_count {k : Int} (h : 0 ≤ k) : (newCount k).isCount = true ∧ (newCount k).limit = k ∧ (newCount k).isValid = true := by
  unfold newCount; rw [if_neg (by omega)]; simp [GroupData.isCount, GroupData.isValid]

theorem newCount_neg {k : Int} (h : k < 0) : newCount k = {} := by unfold newCount; rw [if_pos h]

theorem eff_spec {win s n} (i : SInv win s) (hw : win n = none) :
    (s.db n = none ∧ eff (retrieve win s.db) s.mem n = none) ∨
    ∃ v g, s.db n = some v ∧ eff (retrieve win s.db) s.mem n = some g ∧ g.isCount = true ∧ g.limit = v := by
  unfold eff
  cases hm : s.mem n with
  | some g =>
    obtain ⟨a, b⟩ := i.agree n g hw hm
    exact Or.inr ⟨_, g, b, rfl, a, rfl⟩
  | none =>
    cases hd : s.db n with
    | none => refine Or.inl ⟨rfl, ?_⟩; simp [retrieve, hw, hd, newCount, GroupData.isValid, Option.filter]
    | some v =>
      have := newCount_count (i.pos n v hd)
      exact Or.inr ⟨v, newCount v, rfl, by simp [retrieve, hw, hd, Option.filter, this], this.1, this.2.1⟩

theorem inForce_db {win s n} (i : SInv win s) (hw : win n = none) : inForce win s n = s.db n := by
  unfold inForce getLimit
  rw [vivify_eq]
  rcases eff_spec i hw with ⟨h1, h2⟩ | ⟨v, g, h1, h2, h3, h4⟩
  · rw [h2, h1]; simp [newCount, GroupData.isValid]
  · rw [h2, h1]; simp only
    have : g.isValid = true := by
      revert h3; unfold GroupData.isValid GroupData.isCount; intro h3; simp at h3 ⊢; rw [h3]; simp
    rw [this, if_pos rfl, h4]

/-- memory changes that only change counts, drop groups, or load what the database says -/
theorem inv_mem {win s} (i : SInv win s) (mem : Groups)
    (h : ∀ n g, win n = none → mem n = some g → ∃ g', eff (retrieve win s.db) s.mem n = some g' ∧ g.isCount = g'.isCount ∧ g.limit = g'.limit) :
    SInv win { s with mem := mem } := by
  refine ⟨i.pos, ?_⟩
  intro n g hw hm
  obtain ⟨g', h1, h2, h3⟩ := h n g hw hm
  rcases eff_spec i hw with ⟨_, h5⟩ | ⟨v, g'', h4, h5, h6, h7⟩
  · rw [h5] at h1; simp at h1
  · rw [h5] at h1; injection h1 with h1; subst h1
    exact ⟨by rw [h2, h6], by simp only; rw [h4, h3, h7]⟩

theorem eff_of_mem {cb s n g} (h : s n = some g) : eff cb s n = some g := by unfold eff; rw [h]

theorem bump_data (ns n g) : (bump ns n g).isCount = g.isCount ∧ (bump ns n g).limit = g.limit := by
  unfold bump
  split <;> simp [GroupData.isCount]

theorem dec_data (g : GroupData) : g.decrement.1.isCount = g.isCount ∧ g.decrement.1.limit = g.limit := by
  unfold GroupData.decrement
  split
  · exact ⟨rfl, rfl⟩
  split
  · exact ⟨rfl, rfl⟩
  · exact ⟨rfl, rfl⟩

theorem decrement_data (ns : List String) : ∀ (s : Groups) n g, decrement s ns n = some g → ∃ g', s n = some g' ∧ g.isCount = g'.isCount ∧ g.limit = g'.limit := by
  induction ns with
  | nil => intro s n g h; exact ⟨g, h, rfl, rfl⟩
  | cons a ns ih =>
    intro s n g h
    cases ha : s a with
    | none => simp only [decrement, ha] at h; exact ih _ _ _ h
    | some ga =>
      simp only [decrement, ha] at h
      obtain ⟨g', h1, h2, h3⟩ := ih _ _ _ h
      unfold put at h1
      split at h1
      · rename_i e; subst e
        split at h1
        · simp at h1
        · injection h1 with h1; subst h1
          exact ⟨ga, ha, by rw [h2, (dec_data ga).1], by rw [h3, (dec_data ga).2]⟩
      · exact ⟨g', h1, h2, h3⟩

theorem store_step {win s n k} (i : SInv win s) (hk : 0 ≤ k) :
    (SInv win (getSet s n (newCount k)) ∧ (getSet s n (newCount k)).db = fun y => if y = n then some k else s.db y) ∧
    (SInv win (store1 s n (newCount k)) ∧ (store1 s n (newCount k)).db = fun y => if y = n then some k else s.db y) := by
  obtain ⟨hc, hl, hv⟩ := newCount_count hk
  have hl' : (newCount k).limit' = k := by unfold GroupData.limit'; rw [hc, if_pos rfl, hl]
  have pos : ∀ m v, (fun y => if y = n then some k else s.db y) m = some v → 0 ≤ v := by
    intro m v h; simp only at h; split at h
    · injection h with h; omega
    · exact i.pos m v h
  have agreeSet : ∀ m g, win m = none → setLimit s.mem n (newCount k) m = some g →
      g.isCount = true ∧ (fun y => if y = n then some k else s.db y) m = some g.limit := by
    intro m g hw hm
    cases hg0 : s.mem n with
    | some g0 =>
      simp only [setLimit, hg0] at hm
      unfold put at hm
      split at hm
      · rename_i e; subst e; injection hm with hm
        have := i.agree m g0 hw hg0
        subst hm; unfold GroupData.setLimit; rw [this.1, if_pos rfl, hl]
        exact ⟨this.1, by simp⟩
      · rename_i e; simp only [e, if_false]; exact i.agree m g hw hm
    | none =>
      simp only [setLimit, hg0] at hm
      unfold put at hm
      split at hm
      · rename_i e; subst e; injection hm with hm; subst hm; exact ⟨hc, by simp [hl]⟩
      · rename_i e; simp only [e, if_false]; exact i.agree m g hw hm
  have db1 : dbStore1 s.db n (newCount k) =
      ((fun y => if y = n then some k else s.db y), (match s.db n with | some v => !decide (v = k) | none => false), false) := by
    unfold dbStore1
    rw [hc, hl']
    simp only [not_true, if_false]
    cases hd : s.db n with
    | none => simp only; rw [if_neg (by omega)]
    | some v =>
      simp only; rw [if_neg (by omega)]
      by_cases e : v = k
      · subst e
        rw [if_pos rfl]
        have : (fun y => if y = n then some v else s.db y) = s.db := by
          funext y; by_cases e : y = n
          · subst e; simp [hd]
          · simp [e]
        rw [this]; simp
      · rw [if_neg e]; simp [e]
  constructor
  · unfold getSet; rw [db1]; simp only [hv, if_true, Bool.false_eq_true, if_false]
    exact ⟨⟨pos, agreeSet⟩, trivial⟩
  · unfold store1; rw [db1]; simp only [Bool.false_eq_true, if_false]
    refine ⟨⟨pos, ?_⟩, trivial⟩
    cases hd : s.db n with
    | none =>
      simp only [Bool.false_eq_true, if_false]
      intro m g hw hm
      by_cases e : m = n
      · subst e; have := (i.agree m g hw hm).2; rw [hd] at this; simp at this
      · simp only [e, if_false]; exact i.agree m g hw hm
    | some v =>
      by_cases e : v = k
      · subst e
        simp only [decide_true, Bool.not_true, Bool.false_eq_true, if_false]
        intro m g hw hm
        by_cases e : m = n
        · subst e; have := i.agree m g hw hm; rw [hd] at this; simp only [if_true]; exact this
        · simp only [e, if_false]; exact i.agree m g hw hm
      · simp only [e, decide_false, Bool.not_false, if_true]; exact agreeSet

theorem storeAll_spec {win} (l : List (String × Int)) : ∀ {s}, SInv win s → (∀ x ∈ l, 0 ≤ x.2) →
    SInv win (storeAll s (l.map fun x => (x.1, newCount x.2))) ∧
    (storeAll s (l.map fun x => (x.1, newCount x.2))).db = l.foldl (fun m x => fun y => if y = x.1 then (if x.2 < 0 then none else some x.2) else m y) s.db := by
  induction l with
  | nil => intro s i _; exact ⟨i, rfl⟩
  | cons x l ih =>
    intro s i h
    have hx := h x (by simp)
    obtain ⟨_, a, b⟩ := store_step (n := x.1) i hx
    obtain ⟨c, d⟩ := ih a (fun y hy => h y (by simp [hy]))
    refine ⟨c, ?_⟩
    simp only [List.map_cons, storeAll, List.foldl_cons]
    rw [d, b]
    have : ¬ x.2 < 0 := by omega
    simp only [this, if_false]

theorem srun_spec {win} (os : List SOp) : ∀ {s}, SInv win s → (∀ o ∈ os, Lim o) →
    SInv win (srun win s os) ∧ ∀ n, (srun win s os).db n = lastSet s.db os n := by
  induction os with
  | nil => intro s i _; exact ⟨i, fun _ => rfl⟩
  | cons o os ih =>
    intro s i h
    have ho := h o (by simp)
    have hos : ∀ o ∈ os, Lim o := fun o h' => h o (by simp [h'])
    cases o with
    | set n k =>
      have hk : 0 ≤ k := ho
      obtain ⟨⟨a, b⟩, _⟩ := store_step (n := n) i hk
      obtain ⟨c, d⟩ := ih a hos
      refine ⟨c, fun m => ?_⟩
      simp only [srun, sstep, lastSet]
      rw [d, b]
      have : ¬ k < 0 := by omega
      simp only [this, if_false]
    | add l =>
      obtain ⟨a, b⟩ := storeAll_spec (win := win) l i ho
      obtain ⟨c, d⟩ := ih a hos
      refine ⟨c, fun m => ?_⟩
      simp only [srun, sstep, lastSet]
      rw [d, b]
    | inc c ns =>
      have a : SInv win { s with mem := (increment c (retrieve win s.db) s.mem ns).1 } := by
        refine inv_mem i _ ?_
        intro n g hw hm
        have he := eff_of_mem (cb := retrieve win s.db) hm
        obtain ⟨h1, h2⟩ := increment_spec c (retrieve win s.db) s.mem ns
        rw [h2] at he
        split at he
        · obtain ⟨g', h3, h4⟩ := Option.map_eq_some_iff.1 he
          exact ⟨g', h3, by rw [← h4, (bump_data ns n g').1], by rw [← h4, (bump_data ns n g').2]⟩
        · exact ⟨g, he, rfl, rfl⟩
      obtain ⟨c, d⟩ := ih a hos
      exact ⟨c, d⟩
    | dec ns =>
      have a : SInv win { s with mem := decrement s.mem ns } := by
        refine inv_mem i _ ?_
        intro n g hw hm
        obtain ⟨g', h1, h2, h3⟩ := decrement_data ns _ _ _ hm
        exact ⟨g', eff_of_mem h1, h2, h3⟩
      obtain ⟨c, d⟩ := ih a hos
      exact ⟨c, d⟩
    | ask n =>
      have a : SInv win { s with mem := (getLimit (retrieve win s.db) s.mem n).1 } := by
        refine inv_mem i _ ?_
        intro m g hw hm
        have he : (getLimit (retrieve win s.db) s.mem n).1 = (vivify (retrieve win s.db) s.mem n).1 := by
          unfold getLimit; split <;> simp_all
        rw [he] at hm
        have := eff_of_mem (cb := retrieve win s.db) hm
        rw [eff_vivify] at this
        exact ⟨g, this, rfl, rfl⟩
      obtain ⟨c, d⟩ := ih a hos
      exact ⟨c, d⟩
    | restart =>
      have a : SInv win { s with mem := fun _ => none } := inv_mem i _ (by intro n g _ h; simp at h)
      obtain ⟨c, d⟩ := ih a hos
      exact ⟨c, d⟩

/-- C55, for histories in which nobody sets a negative limit: the limit in force for a group is the last one set, through
jobs, slots taken and given back, questions and restarts. -/
theorem C55_partial (win : String → Option GroupData) (os : List SOp) (h : ∀ o ∈ os, Lim o) (n : String) (hw : win n = none) :
    inForce win (srun win {} os) n = lastSet (fun _ => none) os n := by
  have i : SInv win {} := ⟨by intro n v h; simp at h, by intro n g _ h; simp at h⟩
  obtain ⟨a, b⟩ := srun_spec os i h
  rw [inForce_db a hw, b n]

def demoStore : List SOp := [.set "a" 3, .add [("b", 1), ("a", 2)], .inc ⟨0, 0⟩ ["a", "b"], .ask "c", .restart, .set "b" 0, .dec ["a"]]
example : ∀ o ∈ demoStore, Lim o := by
  intro o ho
  simp only [demoStore, List.mem_cons, List.not_mem_nil, or_false] at ho
  rcases ho with rfl | rfl | rfl | rfl | rfl | rfl | rfl <;> simp [Lim]
example : lastSet (fun _ => none) demoStore "a" = some 2 ∧ lastSet (fun _ => none) demoStore "b" = some 0 ∧
    lastSet (fun _ => none) demoStore "c" = none := by decide +kernel

/-- C55 is false for -1, documented to make the group unlimited: the old limit stays in force. -/
theorem C55_violated : ∃ os n, lastSet (fun _ => none) os n = none ∧ inForce (fun _ => none) (srun (fun _ => none) {} os) n = some 2 :=
  ⟨[.set "a" 2, .set "a" (-1)], "a", by decide +kernel, by decide +kernel⟩

/-- And worse: trying to unlimit a group forgets its holders, so twice the limit can run. -/
theorem C55_violated_holders : ∃ os : List SOp, os = [.set "a" 1, .inc ⟨0, 0⟩ ["a"], .set "a" (-1)] ∧
    (increment ⟨0, 0⟩ (retrieve (fun _ => none) (srun (fun _ => none) {} os).db) (srun (fun _ => none) {} os).mem ["a"]).2 = true ∧
    inForce (fun _ => none) (srun (fun _ => none) {} os) "a" = some 1 :=
  ⟨_, rfl, by decide +kernel, by decide +kernel⟩

end Verif.Limiter
