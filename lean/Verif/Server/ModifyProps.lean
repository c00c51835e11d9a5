import Verif.Server.Modify
/-!
# C87: what a modification changes in a job
-/
namespace Verif.Server.Modify
open Verif.Server.Groups (Str)
open Verif.Server.Keys (Mount JobId keyString)
open Verif.Client (Behaviour)

namespace Spec

/-- the value that was asked for, and otherwise the old one -/
def Set {α : Type} (asked : Option α) (old new : α) : Prop := (∀ v, asked = some v → new = v) ∧ (asked = none → new = old)

/-- those for a trigger -/
def on (w : UInt8) (bs : List Behaviour) : List Behaviour := bs.filter fun b => decide (b.on = w)

/-- behaviours as asked for: for every trigger that behaviours are given for, exactly these; for others the old ones -/
def Behaves (asked : Option (List Behaviour)) (old new : List Behaviour) : Prop :=
  (asked = none → new = old) ∧
  ∀ bs, asked = some bs → ∀ w, (on w bs ≠ [] → on w new = on w bs) ∧ (on w bs = [] → on w new = on w old)

/-- an empty command or directory, and memory or time 0, cannot be asked for -/
def given (s : Str) : Option Str := if s = [] then none else some s
def more (n : Nat) : Option Nat := if n = 0 then none else some n

/-- everything but the behaviours: what was asked for is changed, and nothing else; `actualCwd` and `untilBuried` are not for users
to set -/
structure Fields (m : Modifier) (j j' : Job) : Prop where
  cmd : Set (given m.cmd) j.cmd j'.cmd
  cwd : Set (given m.cwd) j.cwd j'.cwd
  cwdMatters : Set m.cwdMatters j.cwdMatters j'.cwdMatters
  repGroup : j'.repGroup = j.repGroup
  changeHome : Set m.changeHome j.changeHome j'.changeHome
  reqGroup : Set m.reqGroup j.reqGroup j'.reqGroup
  group : Set m.group j.group j'.group
  req : m.req = none → j'.req = j.req
  ram : ∀ r, m.req = some r → Set (more r.ram) j.req.ram j'.req.ram
  time : ∀ r, m.req = some r → Set (more r.time) j.req.time j'.req.time
  cores : ∀ r, m.req = some r → Set r.cores j.req.cores j'.req.cores
  disk : ∀ r, m.req = some r → Set r.disk j.req.disk j'.req.disk
  other : ∀ r, m.req = some r → Set r.other j.req.other j'.req.other
  override : Set m.override j.override j'.override
  priority : Set m.priority j.priority j'.priority
  retries : Set m.retries j.retries j'.retries
  noRetriesOver : Set m.noRetriesOver j.noRetriesOver j'.noRetriesOver
  env : Set m.env j.env j'.env
  limitGroups : Set m.limitGroups j.limitGroups j'.limitGroups
  modules : Set m.modules j.modules j'.modules
  depGroups : Set m.depGroups j.depGroups j'.depGroups
  depends : Set m.depends j.depends j'.depends
  mounts : Set m.mounts j.mounts j'.mounts
  bsubMode : Set m.bsubMode j.bsubMode j'.bsubMode
  monitorDocker : Set m.monitorDocker j.monitorDocker j'.monitorDocker
  docker : Set m.docker j.docker j'.docker
  singularity : Set m.singularity j.singularity j'.singularity
  containerMounts : Set m.containerMounts j.containerMounts j'.containerMounts

end Spec
open Spec

theorem set_getD {α : Type} (o : Option α) (old : α) : Set o old (o.getD old) :=
  ⟨fun v h => by rw [h]; rfl, fun h => by rw [h]; rfl⟩

theorem set_given (s old : Str) : Set (given s) old (if s ≠ [] then s else old) := by
  unfold given
  by_cases h : s = []
  · rw [if_pos h, if_neg (by simp [h])]; exact ⟨fun v h => (by cases h), fun _ => rfl⟩
  · rw [if_neg h, if_pos h]; exact ⟨fun v h => (by cases h; rfl), fun h => (by cases h)⟩

theorem set_more (n old : Nat) : Set (more n) old (if n ≠ 0 then n else old) := by
  unfold more
  by_cases h : n = 0
  · rw [if_pos h, if_neg (by simp [h])]; exact ⟨fun v h => (by cases h), fun _ => rfl⟩
  · rw [if_neg h, if_pos h]; exact ⟨fun v h => (by cases h; rfl), fun h => (by cases h)⟩

theorem fields_apply (m : Modifier) (j : Job) : Fields m j (apply m j) where
  cmd := set_given _ _
  cwd := set_given _ _
  cwdMatters := set_getD _ _
  repGroup := rfl
  changeHome := set_getD _ _
  reqGroup := set_getD _ _
  group := set_getD _ _
  req := fun h => by simp only [apply, h]
  ram := fun r h => by simp only [apply, h, modReq]; exact set_more _ _
  time := fun r h => by simp only [apply, h, modReq]; exact set_more _ _
  cores := fun r h => by simp only [apply, h, modReq]; exact set_getD _ _
  disk := fun r h => by simp only [apply, h, modReq]; exact set_getD _ _
  other := fun r h => by simp only [apply, h, modReq]; exact set_getD _ _
  override := set_getD _ _
  priority := set_getD _ _
  retries := set_getD _ _
  noRetriesOver := set_getD _ _
  env := set_getD _ _
  limitGroups := set_getD _ _
  modules := set_getD _ _
  depGroups := set_getD _ _
  depends := set_getD _ _
  mounts := set_getD _ _
  bsubMode := set_getD _ _
  monitorDocker := set_getD _ _
  docker := set_getD _ _
  singularity := set_getD _ _
  containerMounts := set_getD _ _

/-- the key that is compared with those of other jobs is the one that the job gets -/
theorem newId_eq (m : Modifier) (j : Job) : newId m j.toJobId = (apply m j).toJobId := rfl

/-! ## all jobs of a request -/

theorem modifyAll_length {K : Type} [DecidableEq K] (hash : Str → K) (taken : K → Bool) (m : Modifier) : ∀ (js : List Job) (keys : List (K × K)),
    (modifyAll hash taken m keys js).1.length = js.length
  | [], _ => rfl
  | j :: js, keys => by
    unfold modifyAll
    simp only
    split <;> simp [modifyAll_length hash taken m js]

/-- C87: every job is left exactly as it was, or becomes what was asked for; the answer has exactly the latter, with their old and
new keys -/
theorem C87_fields {K : Type} [DecidableEq K] (hash : Str → K) (taken : K → Bool) (m : Modifier) : ∀ (js : List Job) (keys : List (K × K)) (i : Nat) (j j' : Job),
    js[i]? = some j → (modifyAll hash taken m keys js).1[i]? = some j' →
      j' = j ∨ (Fields m j j' ∧ (key hash j'.toJobId, key hash j.toJobId) ∈ (modifyAll hash taken m keys js).2)
  | [], _, i, j, j', h, _ => by simp at h
  | j0 :: js, keys, i, j, j', h, h' => by
    have hmono : ∀ (js : List Job) (keys : List (K × K)) p, p ∈ keys → p ∈ (modifyAll hash taken m keys js).2 := by
      intro js
      induction js with
      | nil => intro keys p hp; exact hp
      | cons a js ih =>
        intro keys p hp
        unfold modifyAll
        simp only
        split
        · exact ih _ _ hp
        · exact ih _ _ (List.mem_append_left _ hp)
    unfold modifyAll at h' ⊢
    simp only at h' ⊢
    split at h'
    · rename_i hc
      rw [if_pos hc]
      cases i with
      | zero =>
        simp only [List.getElem?_cons_zero, Option.some.injEq] at h h'
        exact .inl (h'.symm.trans h)
      | succ i =>
        simp only [List.getElem?_cons_succ] at h h'
        exact C87_fields hash taken m js keys i j j' h h'
    · rename_i hc
      rw [if_neg hc]
      cases i with
      | zero =>
        simp only [List.getElem?_cons_zero, Option.some.injEq] at h h'
        subst h h'
        exact .inr ⟨fields_apply m j0, hmono _ _ _ (by simp)⟩
      | succ i =>
        simp only [List.getElem?_cons_succ] at h h'
        exact C87_fields hash taken m js _ i j j' h h'

theorem modifyAll_keys {K : Type} [DecidableEq K] (hash : Str → K) (taken : K → Bool) (m : Modifier) : ∀ (js : List Job) (keys : List (K × K)),
    (js.map fun j => key hash j.toJobId).Nodup → (∀ j ∈ js, taken (key hash j.toJobId) = true) →
    (∀ p ∈ keys, p.1 ∉ js.map fun j => key hash j.toJobId) →
    ((modifyAll hash taken m keys js).1.map fun j => key hash j.toJobId).Nodup ∧
    ∀ j' ∈ (modifyAll hash taken m keys js).1, key hash j'.toJobId ∉ keys.map (·.1) ∧
      (key hash j'.toJobId ∈ js.map (fun j => key hash j.toJobId) ∨ taken (key hash j'.toJobId) = false)
  | [], _, _, _, _ => by simp [modifyAll]
  | j :: js, keys, hn, ht, hk => by
    simp only [List.map_cons, List.nodup_cons] at hn
    have ht' : ∀ j ∈ js, taken (key hash j.toJobId) = true := fun a ha => ht a (List.mem_cons_of_mem _ ha)
    unfold modifyAll
    simp only
    split
    · have hk' : ∀ p ∈ keys, p.1 ∉ js.map fun j => key hash j.toJobId := fun p hp hm => hk p hp (List.mem_cons_of_mem _ hm)
      obtain ⟨i1, i2⟩ := modifyAll_keys hash taken m js keys hn.2 ht' hk'
      refine ⟨?_, ?_⟩
      · simp only [List.map_cons, List.nodup_cons]
        refine ⟨?_, i1⟩
        intro hm
        obtain ⟨a, ha, he⟩ := List.mem_map.1 hm
        rcases (i2 a ha).2 with h | h
        · rw [he] at h; exact hn.1 h
        · rw [he, ht j (List.mem_cons_self ..)] at h; cases h
      · intro a ha
        rcases List.mem_cons.1 ha with rfl | ha
        · refine ⟨?_, .inl (List.mem_cons_self ..)⟩
          intro hm
          obtain ⟨p, hp, he⟩ := List.mem_map.1 hm
          exact hk p hp (by rw [he]; exact List.mem_cons_self ..)
        · exact ⟨(i2 a ha).1, (i2 a ha).2.imp (List.mem_cons_of_mem _) id⟩
    · rename_i hc
      rw [not_or] at hc
      obtain ⟨c1, c2⟩ := hc
      rw [newId_eq] at c1 c2
      have c2' : key hash (apply m j).toJobId = key hash j.toJobId ∨ taken (key hash (apply m j).toJobId) = false := by
        by_cases e : key hash (apply m j).toJobId = key hash j.toJobId
        · exact .inl e
        · refine .inr ?_
          cases hv : taken (key hash (apply m j).toJobId) with
          | false => rfl
          | true => exact absurd ⟨e, hv⟩ c2
      have hnot : key hash (apply m j).toJobId ∉ js.map fun j => key hash j.toJobId := by
        intro hm
        obtain ⟨a, ha, he⟩ := List.mem_map.1 hm
        rcases c2' with h | h
        · exact hn.1 (by rw [← h]; exact hm)
        · rw [← he, ht' a ha] at h; cases h
      obtain ⟨i1, i2⟩ := modifyAll_keys hash taken m js (keys ++ [(key hash (apply m j).toJobId, key hash j.toJobId)]) hn.2 ht' (by
        intro p hp
        rcases List.mem_append.1 hp with hp | hp
        · exact fun hm => hk p hp (List.mem_cons_of_mem _ hm)
        · rw [List.mem_singleton] at hp
          rw [hp]; exact hnot)
      refine ⟨?_, ?_⟩
      · simp only [List.map_cons, List.nodup_cons]
        refine ⟨?_, i1⟩
        intro hm
        obtain ⟨a, ha, he⟩ := List.mem_map.1 hm
        exact (i2 a ha).1 (by rw [he]; simp)
      · intro a ha
        rcases List.mem_cons.1 ha with rfl | ha
        · exact ⟨c1, c2'.imp (fun h => by rw [h]; exact List.mem_cons_self ..) id⟩
        · refine ⟨fun hm => (i2 a ha).1 ?_, (i2 a ha).2.imp (List.mem_cons_of_mem _) id⟩
          rw [List.map_append]
          exact List.mem_append_left _ hm

/-- C87: jobs of the queue that are modified have different keys afterwards, and none has that of a job that was there and is not
one of them -/
theorem C87_keys {K : Type} [DecidableEq K] (hash : Str → K) (taken : K → Bool) (m : Modifier) (js : List Job)
    (hn : (js.map fun j => key hash j.toJobId).Nodup) (ht : ∀ j ∈ js, taken (key hash j.toJobId) = true) :
    ((modifyAll hash taken m [] js).1.map fun j => key hash j.toJobId).Nodup ∧
    ∀ j' ∈ (modifyAll hash taken m [] js).1, key hash j'.toJobId ∈ js.map (fun j => key hash j.toJobId) ∨ taken (key hash j'.toJobId) = false := by
  obtain ⟨h1, h2⟩ := modifyAll_keys hash taken m js [] hn ht (by simp)
  exact ⟨h1, fun j' h => (h2 j' h).2⟩

/-! ## behaviours -/

theorem on_append (w : UInt8) (a b : List Behaviour) : on w (a ++ b) = on w a ++ on w b := List.filter_append ..

theorem on_cons (w : UInt8) (b : Behaviour) (bs : List Behaviour) : on w (b :: bs) = if b.on = w then b :: on w bs else on w bs := by
  unfold on
  rw [List.filter_cons]
  simp only [decide_eq_true_eq]

theorem replaceFirst_none {new : Behaviour} : ∀ {bs : List Behaviour}, replaceFirst new bs = none → on new.on bs = []
  | [], _ => rfl
  | b :: bs, h => by
    unfold replaceFirst at h
    split at h
    · cases h
    · rename_i hne
      rw [on_cons, if_neg hne]
      exact replaceFirst_none (by simpa using h)

theorem replaceFirst_some {new : Behaviour} (w : UInt8) : ∀ {bs bs' : List Behaviour}, replaceFirst new bs = some bs' →
    on w bs' = if new.on = w then new :: (on w bs).tail else on w bs
  | [], _, h => by cases h
  | b :: bs, bs', h => by
    unfold replaceFirst at h
    split at h
    · rename_i e
      cases h
      rw [on_cons, on_cons, e]
      split <;> rfl
    · rename_i hne
      cases hr : replaceFirst new bs with
      | none => rw [hr] at h; cases h
      | some l =>
        rw [hr] at h
        cases h
        rw [on_cons, on_cons, replaceFirst_some w hr]
        by_cases hb : b.on = w
        · rw [if_pos hb, if_pos hb, if_neg (by rw [← hb]; exact fun e => hne e.symm), if_neg (by rw [← hb]; exact fun e => hne e.symm)]
        · rw [if_neg hb, if_neg hb]

/-- one new behaviour -/
theorem on_step (new : Behaviour) (bs : List Behaviour) (w : UInt8) :
    on w ((replaceFirst new bs).getD (bs ++ [new])) = if new.on = w then new :: (on w bs).tail else on w bs := by
  cases h : replaceFirst new bs with
  | some l => exact replaceFirst_some w h
  | none =>
    show on w (bs ++ [new]) = _
    rw [on_append, on_cons]
    split
    · rename_i e
      have := replaceFirst_none h
      rw [e] at this
      rw [this]
      rfl
    · simp [on]

/-- what behaviours there are for each trigger afterwards: the last one that was given, and the old ones but the first -/
theorem on_modBehaviours (w : UInt8) : ∀ (news bs : List Behaviour),
    on w (modBehaviours news bs) = match (on w news).getLast? with
      | none => on w bs
      | some b => b :: (on w bs).tail
  | [], bs => rfl
  | n :: news, bs => by
    show on w (modBehaviours news _) = _
    rw [on_modBehaviours w news, on_step, on_cons]
    by_cases e : n.on = w
    · rw [if_pos e, if_pos e]
      cases h : on w news with
      | nil => rfl
      | cons a l =>
        rw [List.getLast?_cons_cons]
        cases hl : (a :: l).getLast? with
        | none => simp at hl
        | some b => rfl
    · rw [if_neg e, if_neg e]

/-- C87, behaviours: as asked for, if at most one is given for each trigger, and there was at most one for each. Missing: more than
one for a trigger, see the violations below. -/
theorem C87_behaviours_partial (m : Modifier) (j : Job)
    (h1 : ∀ bs, m.behaviours = some bs → ∀ w, (on w bs).length ≤ 1) (h2 : ∀ w, (on w j.behaviours).length ≤ 1) :
    Behaves m.behaviours j.behaviours (apply m j).behaviours := by
  refine ⟨fun h => by simp only [apply, h], ?_⟩
  intro bs h w
  have e : (apply m j).behaviours = modBehaviours bs j.behaviours := by simp only [apply, h]
  rw [e, on_modBehaviours]
  have a1 := h1 bs h w
  have a2 := h2 w
  refine ⟨fun hne => ?_, fun he => by rw [he]; rfl⟩
  match hl : on w bs with
  | [] => exact absurd hl hne
  | [b] =>
    show b :: (on w j.behaviours).tail = [b]
    match hm : on w j.behaviours with
    | [] => rfl
    | [_] => rfl
    | _ :: _ :: _ => rw [hm] at a2; simp at a2
  | _ :: _ :: _ => rw [hl] at a1; simp at a1

/-- C87: in any case, behaviours for triggers that none is given for are kept, and the last one that is given for a trigger is there -/
theorem C87_behaviours_last (m : Modifier) (j : Job) (bs : List Behaviour) (h : m.behaviours = some bs) (w : UInt8) :
    (on w bs = [] → on w (apply m j).behaviours = on w j.behaviours) ∧
    ∀ b, (on w bs).getLast? = some b → (on w (apply m j).behaviours).head? = some b := by
  have e : (apply m j).behaviours = modBehaviours bs j.behaviours := by simp only [apply, h]
  rw [e, on_modBehaviours]
  refine ⟨fun he => by rw [he]; rfl, fun b hb => by rw [hb]; rfl⟩

/-- a job -/
def plain : Job where
  cmd := "echo".toList
  cwd := "/home/u/dir".toList
  cwdMatters := false
  mounts := []
  docker := []
  singularity := []
  containerMounts := []
  actualCwd := []
  repGroup := "r".toList
  changeHome := false
  reqGroup := "echo".toList
  group := []
  req := ⟨100, 3600, 1, 0, []⟩
  override := 0
  priority := 0
  retries := 3
  untilBuried := 4
  noRetriesOver := 0
  env := []
  limitGroups := []
  modules := []
  depGroups := []
  depends := []
  behaviours := [⟨4, .run, .str "tidy"⟩, ⟨4, .run, .str "mail"⟩, ⟨1, .cleanup, .none⟩]
  bsubMode := []
  monitorDocker := []

/-- C87, violated: of two behaviours that are given for one trigger only the last is used -/
theorem C87_violated_two : ∃ m j, m.behaviours = some [⟨2, .run, .str "a"⟩, ⟨2, .run, .str "b"⟩] ∧ on 2 (apply m j).behaviours = [⟨2, .run, .str "b"⟩] :=
  ⟨{ behaviours := some [⟨2, .run, .str "a"⟩, ⟨2, .run, .str "b"⟩] }, plain, rfl, by decide⟩

/-- C87, violated: if behaviours for a trigger are to be turned off, only the first is -/
theorem C87_violated_off : ∃ m j, m.behaviours = some [⟨4, .nothing, .none⟩] ∧
    on 4 (apply m j).behaviours = [⟨4, .nothing, .none⟩, ⟨4, .run, .str "mail"⟩] :=
  ⟨{ behaviours := some [⟨4, .nothing, .none⟩] }, plain, rfl, by decide⟩

/-- C87, violated: a new number of retries has no effect on how often the job is run, until it is buried and kicked -/
theorem C87_violated_retries : ∃ m j, m.retries = some 0 ∧ j = resetAttempts j ∧ (apply m j).retries = 0 ∧
    (apply m j).untilBuried = 4 ∧ (resetAttempts (apply m j)).untilBuried = 1 :=
  ⟨{ retries := some 0 }, plain, rfl, by decide, by decide, by decide, by decide⟩

/-- C87: it has then -/
theorem C87_retries_partial (m : Modifier) (j : Job) : (resetAttempts (apply m j)).untilBuried = (apply m j).retries + 1 := rfl

/-- two jobs; both get another directory and the one becomes like the other -/
example : ((modifyAll id (fun k => k == "a.".toList || k == "b.".toList) { cmd := "c".toList, cwd := "/x".toList, priority := some 3 } []
    [{ plain with cmd := "a".toList }, { plain with cmd := "b".toList }])) =
    ([{ plain with cmd := "c".toList, cwd := "/x".toList, priority := 3 }, { plain with cmd := "b".toList }],
     [("c.".toList, "a.".toList)]) := by decide +kernel

/-- the key of the second is taken -/
example : ((modifyAll id (fun k => k == "/x.a.".toList || k == "a.".toList) { cwd := "/x".toList, cwdMatters := some true } []
    [{ plain with cmd := "a".toList }, { plain with cmd := "a".toList, cwd := "/x".toList, cwdMatters := true }])).2 =
    [("/x.a.".toList, "/x.a.".toList)] := by decide +kernel

/-- behaviours of which there is one for each trigger -/
example : (apply { behaviours := some [⟨2, .run, .str "a"⟩, ⟨1, .nothing, .none⟩] } { plain with behaviours := [⟨1, .cleanup, .none⟩] }).behaviours =
    [⟨1, .nothing, .none⟩, ⟨2, .run, .str "a"⟩] := by decide +kernel

end Verif.Server.Modify
