import Verif.Utils.JobEnv
import Verif.Utils.EnvProps

/-! # C91: the environment a command runs with -/

namespace Verif.Utils.JobEnv

open Verif.Util

/-! ## Specification

`entry n env` (EnvProps.lean) is the entry a process sees for a name, `valueOf` its value. -/

/-- No name occurs twice. -/
def Once (env : List Var) : Prop := (env.map (·.takeWhile (· ≠ '='))).Nodup

instance (env : List Var) : Decidable (Once env) := inferInstanceAs (Decidable (List.Nodup _))

/-- The environment the job was added with, or that of the process that runs it if it was added without. -/
def recorded (cur : List Var) (j : Job) : List Var :=
  match j.stored with
  | some (e :: es) => e :: es
  | _ => cur

/-- The entry the submitter of the job meant for a name: the job's override, or what was recorded. -/
def meant (cur : List Var) (j : Job) (n : List Char) : Option Var := (entry n j.over).or (entry n (recorded cur j))

/-- A range over a map yields all its entries, in some order. -/
def Fair (p : Order) : Prop := ∀ l, (p l).Perm l

/-- The job comes from Reserve (its environment was retrieved), and neither list has a name twice. -/
structure Good (cur : List Var) (t : Task) : Prop where
  retrieved : t.job.retrieved = true
  once : Once (recorded cur t.job)
  onceOver : Once t.job.over
  fair1 : Fair t.p1
  fair2 : Fair t.p2
  fair3 : Fair t.p3

/-- PATH has a value without a further `=`, if it is there. -/
def PathOk (cur : List Var) (j : Job) : Prop :=
  ∀ x, meant cur j "PATH".toList = some x → '=' ∈ x ∧ '=' ∉ valueOf x

/-- The runner sees no need to add the directory of its executable to the PATH of the job. -/
def NoNeed (cur : List Var) (exe : List Char) (j : Job) : Prop :=
  ∀ x, meant cur j "PATH".toList = some x → contains exe (valueOf x) = true

/-! ## Lemmas -/

theorem override_nil (p : Order) (hp : Fair p) (e : List Var) : envOverride p e [] = e := by
  have h : ∀ e : List Var, envLoop e [] = (e, []) := by
    intro e
    induction e with
    | nil => rfl
    | cons x xs ih => simp [envLoop, ih]
  have h0 : p [] = [] := List.Perm.eq_nil (hp [])
  simp [envOverride, Verif.Utils.overrides, h, h0]

theorem applied_eq (p : Order) (hp : Fair p) (e o : List Var) : applied p e o = envOverride p e o := by
  unfold applied
  split
  · rfl
  · rename_i h
    have : o = [] := by cases o with | nil => rfl | cons a b => simp at h
    rw [this, override_nil p hp]

theorem env_eq (p : Order) (hp : Fair p) (cur : List Var) (j : Job) (h : j.retrieved = true) :
    env p cur j = envOverride p (recorded cur j) j.over := by
  unfold env recorded
  rw [← applied_eq p hp]
  cases hs : j.stored with
  | none => simp [h]
  | some s => cases s <;> simp

theorem over_eq (p : Order) (hp : Fair p) {e : List Var} (he : Once e) (o : List Var) (n : List Char) :
    entry n (envOverride p e o) = (entry n o).or (entry n e) := C39_partial p hp e o he n

theorem over_once (p : Order) (hp : Fair p) {e : List Var} (he : Once e) (o : List Var) : Once (envOverride p e o) :=
  C39_once_partial p hp e o he

/-- C91, the environment of a job that was reserved: whatever the order of the maps, for every name the process sees
the job's override if there is one, and else what was recorded when the job was added, or what the environment of the
runner has if nothing was recorded. -/
theorem C91_env_partial (p : Order) (hp : Fair p) (cur : List Var) (j : Job) (hr : j.retrieved = true)
    (h : Once (recorded cur j)) (n : List Char) : entry n (env p cur j) = meant cur j n := by
  rw [env_eq p hp cur j hr, over_eq p hp h]; rfl

theorem env_once (p : Order) (hp : Fair p) (cur : List Var) (j : Job) (hr : j.retrieved = true)
    (h : Once (recorded cur j)) : Once (env p cur j) := by
  rw [env_eq p hp cur j hr]; exact over_once p hp h _

/-- C91, EnvAddOverride: the added ones win over the existing ones, which win over what was recorded. -/
theorem C91_add_partial (p q : Order) (hp : Fair p) (hq : Fair q) (cur : List Var) (j : Job) (new : List Var)
    (hr : j.retrieved = true) (h : Once (recorded cur j)) (ho : Once j.over) (n : List Char) :
    entry n (env q cur (addOverride p new j)) = (entry n new).or (meant cur j n) := by
  rw [C91_env_partial q hq cur (addOverride p new j) hr h]
  unfold meant
  show ((entry n (envOverride p j.over new)).or (entry n (recorded cur j))) = _
  rw [over_eq p hp ho, Option.or_assoc]

theorem entry_append (n : List Char) (a b : List Var) : entry n (a ++ b) = (entry n b).or (entry n a) := by
  unfold entry
  rw [List.filter_append, List.getLast?_append]

theorem entry_singleton (n : List Char) (e : Var) :
    entry n [e] = if e.takeWhile (· ≠ '=') = n then some e else none := by
  unfold entry
  by_cases h : e.takeWhile (· ≠ '=') = n
  · rw [if_pos h, List.filter_cons_of_pos (by simpa using h)]; rfl
  · rw [if_neg h, List.filter_cons_of_neg (by simpa using h)]; rfl

/-- The search of runner.go:229-237 and client.go:847-853 finds the entry a process sees. -/
theorem addPath_eq (exe : List Char) (o env : List Var) (h : Once env) : addPath exe o env =
    match entry "PATH".toList env with
    | none => some o
    | some e => match (split '=' e)[1]? with
      | none => none
      | some v => some (if contains exe v then o else o ++ [e ++ ':' :: exe]) := by
  induction env with
  | nil => rfl
  | cons e es ih =>
    simp only [addPath]
    by_cases hn : envName e = "PATH".toList
    · rw [if_pos hn]
      have : entry "PATH".toList (e :: es) = some e := by
        refine entry_nodup ?_ (by simp) hn
        have e0 : ∀ l : List Var, l.map (·.takeWhile (· ≠ '=')) = l.map envName := fun l =>
          List.map_congr_left fun x _ => (envName_eq x).symm
        rw [← e0]; exact h
      simp only [this]
      cases (split '=' e)[1]? <;> rfl
    · rw [if_neg hn, ih (List.nodup_cons.1 h).2]
      rw [entry_cons]
      cases hs : entry "PATH".toList es with
      | some x => rfl
      | none => rw [if_neg hn]

theorem lsfPath_eq (lsf : List Char) (env : List Var) (h : Once env) : lsfPath lsf env =
    match entry "PATH".toList env with
    | none => some ("PATH=".toList ++ lsf)
    | some e => match (split '=' e)[1]? with
      | none => none
      | some v => some ("PATH=".toList ++ lsf ++ ':' :: v) := by
  induction env with
  | nil => rfl
  | cons e es ih =>
    simp only [lsfPath]
    by_cases hn : envName e = "PATH".toList
    · rw [if_pos hn]
      have : entry "PATH".toList (e :: es) = some e := by
        refine entry_nodup ?_ (by simp) hn
        have e0 : ∀ l : List Var, l.map (·.takeWhile (· ≠ '=')) = l.map envName := fun l =>
          List.map_congr_left fun x _ => (envName_eq x).symm
        rw [← e0]; exact h
      simp only [this]
      cases (split '=' e)[1]? <;> rfl
    · rw [if_neg hn, ih (List.nodup_cons.1 h).2]
      rw [entry_cons]
      cases hs : entry "PATH".toList es with
      | some x => rfl
      | none => rw [if_neg hn]

theorem value_split {x : Var} (h : '=' ∈ x ∧ '=' ∉ valueOf x) : (split '=' x)[1]? = some (valueOf x) :=
  split_one '=' x h.1 h.2

theorem name_append {x : Var} (h : '=' ∈ x) (s : List Char) :
    (x ++ s).takeWhile (· ≠ '=') = x.takeWhile (· ≠ '=') := by
  induction x with
  | nil => simp at h
  | cons c cs ih =>
    simp only [List.cons_append, List.takeWhile_cons]
    split
    · rename_i hc
      rw [ih]
      rcases List.mem_cons.1 h with h1 | h1
      · simp [← h1] at hc
      · exact h1
    · rfl

theorem entry_name {n : List Char} {env : List Var} {x : Var} (h : entry n env = some x) :
    x.takeWhile (· ≠ '=') = n := by
  rw [← envName_eq]; exact (entry_some h).2

theorem meant_name {cur : List Var} {j : Job} {n : List Char} {x : Var} (h : meant cur j n = some x) :
    x.takeWhile (· ≠ '=') = n := by
  unfold meant at h
  cases ho : entry n j.over with
  | none => rw [ho] at h; exact entry_name h
  | some y => rw [ho] at h; simp at h; subst h; exact entry_name ho

/-- What `prepare` does with a job whose lists are in order, in terms of what was meant. -/
theorem prepare_eq (cur : List Var) (exe : List Char) (o : List Var) (t : Task) (g : Good cur t)
    (h : PathOk cur t.job) : ∃ o', prepare cur exe o t = some (o', if o.length > 0 then addOverride t.p2 o' t.job else t.job) ∧
      (o.length = 0 → o' = o) ∧ (o.length > 0 → o' =
        match meant cur t.job "PATH".toList with
        | none => o
        | some x => if contains exe (valueOf x) then o else o ++ [x ++ ':' :: exe]) := by
  unfold prepare
  by_cases ho : o.length > 0
  · rw [if_pos ho, addPath_eq exe o _ (env_once t.p1 g.fair1 cur t.job g.retrieved g.once),
      C91_env_partial t.p1 g.fair1 cur t.job g.retrieved g.once]
    cases hm : meant cur t.job "PATH".toList with
    | none => exact ⟨o, by simp [ho], fun h => by omega, fun _ => rfl⟩
    | some x =>
      simp only [value_split (h x hm)]
      exact ⟨_, by simp [ho], fun h => by omega, fun _ => rfl⟩
  · rw [if_neg ho]
    exact ⟨o, by simp [ho], fun _ => rfl, fun h => absurd h ho⟩

/-! ## The runner -/

/-- What the overrides of a runner look like: those it started with, and then PATHs. -/
private def Ext (o0 o : List Var) : Prop := ∃ ps : List Var, o = o0 ++ ps ∧ ∀ e ∈ ps, e.takeWhile (· ≠ '=') = "PATH".toList

private theorem ext_entry {o0 o : List Var} (h : Ext o0 o) {n : List Char} (hn : n ≠ "PATH".toList) :
    entry n o = entry n o0 := by
  obtain ⟨ps, rfl, hp⟩ := h
  rw [entry_append]
  have : entry n ps = none := by
    rw [entry_none]; intro e he hen
    rw [envName_eq, hp e he] at hen; exact hn hen.symm
  rw [this]; rfl

private theorem ext_step {o0 o o' : List Var} {cur : List Var} {exe : List Char} {t : Task} {j : Job} (h : Ext o0 o)
    (g : Good cur t) (hk : PathOk cur t.job) (hp : prepare cur exe o t = some (o', j)) : Ext o0 o' := by
  obtain ⟨o2, h1, h2, h3⟩ := prepare_eq cur exe o t g hk
  rw [hp] at h1
  simp only [Option.some.injEq, Prod.mk.injEq] at h1
  obtain ⟨rfl, -⟩ := h1
  by_cases ho : o.length > 0
  · rw [h3 ho]
    cases hm : meant cur t.job "PATH".toList with
    | none => exact h
    | some x =>
      simp only
      split
      · exact h
      · obtain ⟨ps, rfl, hps⟩ := h
        refine ⟨ps ++ [x ++ ':' :: exe], by simp, ?_⟩
        intro e he
        rcases List.mem_append.1 he with he | he
        · exact hps e he
        · simp only [List.mem_singleton] at he
          subst he
          rw [name_append (hk x hm).1]
          exact meant_name hm
  · rw [h2 (by omega)]; exact h

/-- The k-th element of the run, and the overrides its job was prepared with. -/
private theorem runner_get {cur : List Var} {exe : List Char} : ∀ (ts : List Task) (o0 o : List Var) (k : Nat) (t : Task),
    Ext o0 o → (∀ t ∈ ts, Good cur t ∧ PathOk cur t.job) → ts[k]? = some t →
    ∃ o1 o2 j, Ext o0 o1 ∧ prepare cur exe o1 t = some (o2, j) ∧
      (runner cur exe o ts)[k]? = some (some (env t.p3 cur j)) ∧
      ((∀ i u, i < k → ts[i]? = some u → NoNeed cur exe u.job) → o1 = o) ∧ (o = [] → o1 = []) ∧ (o ≠ [] → o1 ≠ [])
  | [], _, _, k, t, _, _, hk => by simp at hk
  | u :: us, o0, o, k, t, hx, hg, hk => by
    obtain ⟨gu, pu⟩ := hg u (by simp)
    obtain ⟨o', h1, h2, h3⟩ := prepare_eq cur exe o u gu pu
    cases k with
    | zero =>
      simp only [List.getElem?_cons_zero, Option.some.injEq] at hk
      subst hk
      refine ⟨o, o', _, hx, h1, ?_, fun _ => rfl, id, id⟩
      simp only [runner, h1, List.getElem?_cons_zero]
    | succ k =>
      simp only [List.getElem?_cons_succ] at hk
      have hx' : Ext o0 o' := ext_step hx gu pu h1
      obtain ⟨o1, o2, j, a, b, c, d, e1, e2⟩ := runner_get (exe := exe) us o0 o' k t hx' (fun t ht => hg t (by simp [ht])) hk
      refine ⟨o1, o2, j, a, b, ?_, ?_, ?_, ?_⟩
      · simp only [runner, h1, List.getElem?_cons_succ]; exact c
      · intro hn
        rw [d (fun i u hi hu => hn (i + 1) u (by omega) (by simpa using hu))]
        by_cases ho : o.length > 0
        · rw [h3 ho]
          cases hm : meant cur u.job "PATH".toList with
          | none => rfl
          | some x =>
            simp only
            rw [if_pos (hn 0 u (by omega) (by simp) x hm)]
        · exact h2 (by omega)
      · intro ho
        apply e1
        rw [h2 (by simp [ho])]; exact ho
      · intro ho
        apply e2
        rw [h3 (List.length_pos_iff.2 ho)]
        cases hm : meant cur u.job "PATH".toList with
        | none => exact ho
        | some x =>
          simp only
          split
          · exact ho
          · simp

private theorem ov0_path (server domain : List Char) : entry "PATH".toList (overrides0 server domain) = none := by
  rw [entry_none]
  intro e he
  rw [envName_eq]
  have key : ∀ (n s : List Char), '=' ∈ n → n.takeWhile (· ≠ '=') ≠ "PATH".toList →
      (n ++ s).takeWhile (· ≠ '=') ≠ "PATH".toList := fun n s h1 h2 => by rw [name_append h1]; exact h2
  unfold overrides0 at he
  split at he
  · simp at he
  · rcases List.mem_append.1 he with he | he
    · split at he
      · simp only [List.mem_cons, List.not_mem_nil, or_false] at he
        rcases he with rfl | rfl
        · exact key "WR_MANAGERHOST=".toList _ (by decide) (by decide)
        · exact key "WR_MANAGERPORT=".toList _ (by decide) (by decide)
      · simp at he
    · simp only [List.mem_singleton] at he
      subst he
      exact key "WR_MANAGERCERTDOMAIN=".toList _ (by decide) (by decide)

private theorem ov0_ne {server domain : List Char} (h : server ≠ []) : overrides0 server domain ≠ [] := by
  unfold overrides0; rw [if_neg h]; simp

section
variable (cur : List Var) (exe server domain : List Char) (ts : List Task)
  (hg : ∀ t ∈ ts, Good cur t ∧ PathOk cur t.job)
include hg

/-- C91, a runner executes every job it reserves, however many, if their PATHs have values. -/
theorem C91_runs (k : Nat) (t : Task) (hk : ts[k]? = some t) :
    ∃ e, (runner cur exe (overrides0 server domain) ts)[k]? = some (some e) := by
  obtain ⟨o1, o2, j, a, b, c, d⟩ := runner_get (exe := exe) ts (overrides0 server domain) (overrides0 server domain) k t ⟨[], by simp, by simp⟩ hg hk
  exact ⟨_, c⟩

private theorem runner_entry (k : Nat) (t : Task) (e : List Var) (hk : ts[k]? = some t)
    (he : (runner cur exe (overrides0 server domain) ts)[k]? = some (some e)) :
    ∃ o1 o2, Ext (overrides0 server domain) o1 ∧ Ext (overrides0 server domain) o2 ∧
      (o1.length > 0 → o2 =
        match meant cur t.job "PATH".toList with
        | none => o1
        | some x => if contains exe (valueOf x) then o1 else o1 ++ [x ++ ':' :: exe]) ∧
      (o1.length = 0 → o2 = o1) ∧
      ((∀ i u, i < k → ts[i]? = some u → NoNeed cur exe u.job) → o1 = overrides0 server domain) ∧
      (server = [] → o1 = []) ∧ (server ≠ [] → o1 ≠ []) ∧
      ∀ n, entry n e = (entry n o2).or (meant cur t.job n) := by
  obtain ⟨o1, o2, j, a, b, c, d, e1, e2⟩ :=
    runner_get (exe := exe) ts (overrides0 server domain) (overrides0 server domain) k t ⟨[], by simp, by simp⟩ hg hk
  obtain ⟨gt, pt⟩ := hg t (List.mem_of_getElem? hk)
  obtain ⟨o3, h1, h2, h3⟩ := prepare_eq cur exe o1 t gt pt
  have hx2 := ext_step a gt pt b
  rw [b] at h1
  simp only [Option.some.injEq, Prod.mk.injEq] at h1
  obtain ⟨rfl, rfl⟩ := h1
  rw [c] at he
  simp only [Option.some.injEq] at he
  subst he
  refine ⟨o1, o2, a, hx2, h3, h2, d, fun hs => e1 (by simp [overrides0, hs]), fun hs => e2 (ov0_ne hs), ?_⟩
  intro n
  by_cases ho : o1.length > 0
  · rw [if_pos ho]
    exact C91_add_partial t.p2 t.p3 gt.fair2 gt.fair3 cur t.job o2 gt.retrieved gt.once gt.onceOver n
  · rw [if_neg ho, C91_env_partial t.p3 gt.fair3 cur t.job gt.retrieved gt.once, h2 (by omega)]
    have : o1 = [] := by cases o1 with | nil => rfl | cons a b => simp at ho
    rw [this]; rfl

/-- C91, whatever the runner executed before: every name but PATH has the value of the runner's own overrides, and else
what was meant for this job. -/
theorem C91_runner_partial (k : Nat) (t : Task) (e : List Var) (hk : ts[k]? = some t)
    (he : (runner cur exe (overrides0 server domain) ts)[k]? = some (some e)) (n : List Char) (hn : n ≠ "PATH".toList) :
    entry n e = (entry n (overrides0 server domain)).or (meant cur t.job n) := by
  obtain ⟨o1, o2, a, b, c, c2, d, e1, e2, f⟩ := runner_entry cur exe server domain ts hg k t e hk he
  rw [f n, ext_entry b hn]

/-- C91, PATH: a job whose PATH lacks the directory of the runner's executable gets it added at the end. -/
theorem C91_path_partial (hs : server ≠ []) (k : Nat) (t : Task) (e : List Var) (hk : ts[k]? = some t)
    (he : (runner cur exe (overrides0 server domain) ts)[k]? = some (some e)) (x : Var)
    (hx : meant cur t.job "PATH".toList = some x) (hc : contains exe (valueOf x) = false) :
    entry "PATH".toList e = some (x ++ ':' :: exe) := by
  obtain ⟨o1, o2, a, b, c, c2, d, e1, e2, f⟩ := runner_entry cur exe server domain ts hg k t e hk he
  rw [f, c (List.length_pos_iff.2 (e2 hs)), hx]
  simp only [hc, Bool.false_eq_true, if_false]
  rw [entry_append, entry_singleton, if_pos]
  · rfl
  · rw [name_append ((hg t (List.mem_of_getElem? hk)).2 x hx).1]
    exact meant_name hx

/-- C91, PATH: a job whose PATH has it, or that has no PATH, keeps what was meant, if no job the runner executed before
needed the addition. -/
theorem C91_keep_partial (k : Nat) (t : Task) (e : List Var) (hk : ts[k]? = some t)
    (he : (runner cur exe (overrides0 server domain) ts)[k]? = some (some e))
    (hb : ∀ i u, i ≤ k → ts[i]? = some u → NoNeed cur exe u.job) :
    entry "PATH".toList e = meant cur t.job "PATH".toList := by
  obtain ⟨o1, o2, a, b, c, c2, d, e1, e2, f⟩ := runner_entry cur exe server domain ts hg k t e hk he
  have ho1 := d (fun i u hi hu => hb i u (by omega) hu)
  have : o2 = o1 := by
    by_cases ho : o1.length > 0
    · rw [c ho]
      cases hm : meant cur t.job "PATH".toList with
      | none => rfl
      | some x => simp only; rw [if_pos (hb k t (by omega) hk x hm)]
    · exact c2 (by omega)
  rw [f, this, ho1, ov0_path]; rfl

/-- C91: a runner that was not told of a server leaves every job's environment alone. -/
theorem C91_alone (hs : server = []) (k : Nat) (t : Task) (e : List Var) (hk : ts[k]? = some t)
    (he : (runner cur exe (overrides0 server domain) ts)[k]? = some (some e)) (n : List Char) :
    entry n e = meant cur t.job n := by
  obtain ⟨o1, o2, a, b, c, c2, d, e1, e2, f⟩ := runner_entry cur exe server domain ts hg k t e hk he
  rw [f, c2 (by simp [e1 hs]), e1 hs]; rfl

end

/-! ## Execute -/

/-- TMPDIR and HOME as Execute sets them. -/
def tmpOver (c : Ctx) : List Var :=
  if c.tmpDir = [] then [] else
    ("TMPDIR=".toList ++ c.tmpDir) :: if c.changeHome then ["HOME=".toList ++ c.actualCwd] else []

private theorem tmp_entry (p1 p2 : Order) (h1 : Fair p1) (h2 : Fair p2) (c : Ctx) (e : List Var) (he : Once e) :
    Once (tmpVars p1 p2 c e) ∧ ∀ n, entry n (tmpVars p1 p2 c e) = (entry n (tmpOver c)).or (entry n e) := by
  unfold tmpVars tmpOver
  by_cases ht : c.tmpDir = []
  · simp only [ht, if_true]; exact ⟨he, fun n => by rfl⟩
  · simp only [ht, if_false]
    have o1 := over_once p1 h1 he ["TMPDIR=".toList ++ c.tmpDir]
    by_cases hc : c.changeHome = true
    · simp only [hc, if_true]
      refine ⟨over_once p2 h2 o1 _, fun n => ?_⟩
      rw [over_eq p2 h2 o1, over_eq p1 h1 he, ← Option.or_assoc]
      congr 1
      rw [show ("TMPDIR=".toList ++ c.tmpDir) :: ["HOME=".toList ++ c.actualCwd] =
        ["TMPDIR=".toList ++ c.tmpDir] ++ ["HOME=".toList ++ c.actualCwd] from rfl, entry_append]
    · simp only [hc, if_false, Bool.false_eq_true]
      exact ⟨o1, fun n => over_eq p1 h1 he _ n⟩

/-- C91, not in bsub mode: the command runs in the environment of the job, with TMPDIR set to the temporary directory
made for it (and HOME to its working directory if that was asked for) if a unique working directory was made. -/
theorem C91_exec_partial (p1 p2 p3 p4 : Order) (h1 : Fair p1) (h2 : Fair p2) (c : Ctx) (e : List Var) (he : Once e)
    (hl : c.lsf = []) : ∃ r, execEnv p1 p2 p3 p4 c e = some r ∧
      ∀ n, entry n r = if c.tmpDir ≠ [] ∧ c.changeHome = true ∧ n = "HOME".toList then some ("HOME=".toList ++ c.actualCwd)
        else if c.tmpDir ≠ [] ∧ n = "TMPDIR".toList then some ("TMPDIR=".toList ++ c.tmpDir)
        else entry n e := by
  obtain ⟨-, hr⟩ := tmp_entry p1 p2 h1 h2 c e he
  refine ⟨_, by simp only [execEnv]; rw [if_pos hl], fun n => ?_⟩
  have kt : ("TMPDIR=".toList ++ c.tmpDir).takeWhile (· ≠ '=') = "TMPDIR".toList := by
    rw [name_append (by decide)]; decide
  have kh : ("HOME=".toList ++ c.actualCwd).takeWhile (· ≠ '=') = "HOME".toList := by
    rw [name_append (by decide)]; decide
  rw [hr n]
  unfold tmpOver
  by_cases ht : c.tmpDir = []
  · simp [ht]; rfl
  · by_cases hc : c.changeHome = true
    · simp only [ht, hc, if_false, if_true, ne_eq, not_false_eq_true, true_and]
      rw [show ("TMPDIR=".toList ++ c.tmpDir) :: ["HOME=".toList ++ c.actualCwd] =
        ["TMPDIR=".toList ++ c.tmpDir] ++ ["HOME=".toList ++ c.actualCwd] from rfl, entry_append,
        entry_singleton, entry_singleton, kt, kh]
      by_cases a : n = "HOME".toList
      · rw [if_pos a, if_pos a.symm]; rfl
      · rw [if_neg a, if_neg (Ne.symm a)]
        by_cases b : n = "TMPDIR".toList
        · rw [if_pos b, if_pos b.symm]; rfl
        · rw [if_neg b, if_neg (Ne.symm b)]; rfl
    · simp only [ht, hc, if_false, ne_eq, not_false_eq_true, true_and, false_and, Bool.false_eq_true]
      rw [entry_singleton, kt]
      by_cases b : n = "TMPDIR".toList
      · rw [if_pos b, if_pos b.symm]; rfl
      · rw [if_neg b, if_neg (Ne.symm b)]; rfl

/-- The names bsub mode takes over, besides PATH. -/
def lsfNames : List (List Char) :=
  ["WR_BSUB_CONFIG".toList, "WR_MANAGER_HOST".toList, "WR_MANAGER_PORT".toList, "LSF_SERVERDIR".toList,
    "LSF_LIBDIR".toList, "LSF_ENVDIR".toList, "LSF_BINDIR".toList, "SHELL".toList]

private theorem lsf_names (c : Ctx) : (lsfVars c).map (·.takeWhile (· ≠ '=')) = lsfNames := by
  have k : ∀ (a s : List Char), '=' ∈ a → (a ++ s).takeWhile (· ≠ '=') = a.takeWhile (· ≠ '=') :=
    fun a s h => name_append h s
  unfold lsfVars lsfNames
  simp only [List.map_cons, List.map_nil]
  rw [k _ _ (by decide), k _ _ (by decide), k _ _ (by decide), k "LSF_BINDIR=".toList _ (by decide),
    k "SHELL=".toList _ (by decide)]
  decide

private theorem lsf_once (c : Ctx) : Once (lsfVars c) := by
  unfold Once; rw [lsf_names]; decide

private theorem lsf_none (c : Ctx) {n : List Char} (h : n ∉ lsfNames) : entry n (lsfVars c) = none := by
  rw [entry_none]
  intro e he hn
  rw [envName_eq] at hn
  apply h
  rw [← lsf_names c, ← hn]
  exact List.mem_map.2 ⟨e, he, rfl⟩

/-- C91 in bsub mode, for a PATH that has a value without a further `=`, if there is one: the directory with our bsub
comes first in PATH and the rest follows, the variables of the emulation have their values, and nothing else differs
from what the command would get outside bsub mode. -/
theorem C91_lsf_partial (p1 p2 p3 p4 : Order) (h1 : Fair p1) (h2 : Fair p2) (h3 : Fair p3) (h4 : Fair p4) (c : Ctx)
    (e : List Var) (he : Once e) (hl : c.lsf ≠ [])
    (hp : ∀ x, entry "PATH".toList e = some x → '=' ∈ x ∧ '=' ∉ valueOf x) :
    ∃ r plain, execEnv p1 p2 p3 p4 c e = some r ∧ execEnv p1 p2 p3 p4 { c with lsf := [] } e = some plain ∧
      entry "PATH".toList r = some ("PATH=".toList ++ c.lsf ++
        (match entry "PATH".toList e with | none => [] | some x => ':' :: valueOf x)) ∧
      (∀ v ∈ lsfVars c, v ∈ r ∧ entry (v.takeWhile (· ≠ '=')) r = some v) ∧
      ∀ n, n ≠ "PATH".toList → n ∉ lsfNames → entry n r = entry n plain := by
  obtain ⟨ho, hr⟩ := tmp_entry p1 p2 h1 h2 c e he
  have hpath : entry "PATH".toList (tmpVars p1 p2 c e) = entry "PATH".toList e := by
    obtain ⟨r, ha, hb⟩ := C91_exec_partial p1 p2 p3 p4 h1 h2 { c with lsf := [] } e he rfl
    have : r = tmpVars p1 p2 c e := by
      simp only [execEnv, if_true, Option.some.injEq] at ha
      exact ha.symm
    rw [← this, hb, if_neg (fun h => absurd h.2.2 (by decide)), if_neg (fun h => absurd h.2 (by decide))]
  have hq : lsfPath c.lsf (tmpVars p1 p2 c e) = some ("PATH=".toList ++ c.lsf ++
      (match entry "PATH".toList e with | none => [] | some x => ':' :: valueOf x)) := by
    rw [lsfPath_eq c.lsf _ ho, hpath]
    cases hx : entry "PATH".toList e with
    | none => simp
    | some x => simp only [value_split (hp x hx)]
  generalize hg : ("PATH=".toList ++ c.lsf ++
      (match entry "PATH".toList e with | none => [] | some x => ':' :: valueOf x)) = path at hq ⊢
  have kp : path.takeWhile (· ≠ '=') = "PATH".toList := by
    rw [← hg, List.append_assoc, name_append (by decide)]; decide
  have ho3 := over_once p3 h3 ho [path]
  refine ⟨_, _, by simp only [execEnv]; rw [if_neg hl, hq], by simp only [execEnv, if_true]; rfl, ?_, ?_, ?_⟩
  · rw [over_eq p4 h4 ho3, lsf_none c (by decide), over_eq p3 h3 ho, entry_singleton, if_pos kp]; rfl
  · intro v hv
    have : entry (v.takeWhile (· ≠ '=')) (envOverride p4 (envOverride p3 (tmpVars p1 p2 c e) [path]) (lsfVars c)) =
        some v := by
      rw [over_eq p4 h4 ho3]
      have : entry (v.takeWhile (· ≠ '=')) (lsfVars c) = some v := by
        refine entry_nodup ?_ hv (envName_eq v)
        have e0 : ∀ l : List Var, l.map (·.takeWhile (· ≠ '=')) = l.map envName := fun l =>
          List.map_congr_left fun x _ => (envName_eq x).symm
        rw [← e0]; exact lsf_once c
      rw [this]; rfl
    exact ⟨(entry_some this).1, this⟩
  · intro n hn hn2
    rw [over_eq p4 h4 ho3, lsf_none c hn2, over_eq p3 h3 ho, entry_singleton, if_neg (by rw [kp]; exact Ne.symm hn)]
    rfl

/-! ## Containers -/

/-- C91, docker: an override without a colon reaches the container whole (`docker run -e NAME=value`). -/
theorem C91_container_partial (j : Job) (i : Nat) (v : Var) (h : j.over[i]? = some v) (hc : ':' ∉ v) :
    (containerEnv j)[i]? = some v := by
  unfold containerEnv
  rw [List.getElem?_map, h, Option.map_some, split_none _ _ hc]; rfl

/-- C91: the mounts of a container are the comma separated ones asked for. -/
theorem C91_mounts (ms : List (List Char)) (h : ms ≠ []) (h1 : ∀ m ∈ ms, m ≠ [] ∧ ',' ∉ m) :
    containerMounts (join ',' ms) = ms := by
  unfold containerMounts
  rw [if_neg]
  · exact split_join ',' ms h fun p hp => (h1 p hp).2
  · cases ms with
    | nil => exact absurd rfl h
    | cons a as =>
      have ha := (h1 a (by simp)).1
      cases as with
      | nil => simpa [join] using ha
      | cons b bs => simp [join]

/-! ## Where the code falls short -/

/-- A job as submitted with `PATH`. -/
def withPath (path : String) : Task :=
  ⟨⟨some ["HOME=/home/u".toList, ("PATH=" ++ path).toList], true, []⟩, id, id, id⟩

/-- C91 fails: a job whose PATH has the directory of the executable runs with the PATH of another job, which the same
runner executed before. -/
theorem C91_violated_leak :
    (runner [] "/opt/wr".toList (overrides0 "h:1".toList "d".toList)
      [withPath "/alice/bin:/bin", withPath "/bob/bin:/opt/wr:/bin"]).map (Option.map (entry "PATH".toList)) =
    [some (some "PATH=/alice/bin:/bin:/opt/wr".toList), some (some "PATH=/alice/bin:/bin:/opt/wr".toList)] := by
  decide +kernel

/-- C91 fails: so does a job that was submitted without a PATH. -/
theorem C91_violated_nopath :
    (runner [] "/opt/wr".toList (overrides0 "h:1".toList "d".toList)
      [withPath "/alice/bin", ⟨⟨some ["HOME=/home/u".toList], true, []⟩, id, id, id⟩]).map
        (Option.map (entry "PATH".toList)) =
    [some (some "PATH=/alice/bin:/opt/wr".toList), some (some "PATH=/alice/bin:/opt/wr".toList)] := by
  decide +kernel

/-- C91 fails: the directory of the executable is not added if the PATH has a directory whose name begins with it. -/
theorem C91_violated_substring :
    (runner [] "/opt/wr".toList (overrides0 "h:1".toList "d".toList) [withPath "/opt/wrapper/bin"]).map
      (Option.map (entry "PATH".toList)) = [some (some "PATH=/opt/wrapper/bin".toList)] := by
  decide +kernel

/-- C91 fails: in bsub mode a PATH is cut at a further `=`. -/
theorem C91_violated_lsf :
    (execEnv id id id id ⟨[], [], false, "/tmp/l".toList, [], [], [], []⟩ ["PATH=/x=1/bin:/bin".toList]).map
      (entry "PATH".toList) = some (some "PATH=/tmp/l:/x".toList) := by
  decide +kernel

/-- C91 fails: an environment with an entry PATH without `=` kills the runner, with the jobs it would have executed
next. -/
theorem C91_violated_panic :
    runner [] "/opt/wr".toList (overrides0 "h:1".toList "d".toList)
      [⟨⟨some ["PATH".toList], true, []⟩, id, id, id⟩, withPath "/bin"] = [none] := by
  decide +kernel

/-- C91 fails: an override with a colon reaches the container cut. -/
theorem C91_violated_container :
    containerEnv ⟨none, true, ["URL=http://h:80/x".toList]⟩ = ["URL=http".toList] := by decide +kernel

/-- C91 fails: the PATH the runner adds to reaches the container as its first directory only. -/
theorem C91_violated_docker : (prepare [] "/opt/wr".toList (overrides0 "h:1".toList "d".toList)
    (withPath "/usr/bin:/bin")).map (fun x => containerEnv x.2) =
    some ["WR_MANAGERHOST=h".toList, "WR_MANAGERPORT=1".toList, "WR_MANAGERCERTDOMAIN=d".toList, "PATH=/usr/bin".toList] := by
  decide +kernel

/-- C91 fails: an override given twice shields the second from being overridden: the process sees it, not the one
added. -/
theorem C91_violated_twice :
    entry "A".toList (env id [] (addOverride id ["A=3".toList] ⟨some ["B=0".toList], true, ["A=1".toList, "A=2".toList]⟩)) =
      some "A=2".toList := by decide +kernel

/-! ## Examples -/

example : Good [] (withPath "/bin") ∧ PathOk [] (withPath "/bin").job ∧ NoNeed [] "/bin".toList (withPath "/bin").job :=
  ⟨⟨rfl, by decide +kernel, by decide +kernel, fun _ => .refl _, fun _ => .refl _, fun _ => .refl _⟩,
    fun x h => by
      have : x = "PATH=/bin".toList := Option.some.inj (h.symm.trans (by decide +kernel))
      subst this; decide +kernel,
    fun x h => by
      have : x = "PATH=/bin".toList := Option.some.inj (h.symm.trans (by decide +kernel))
      subst this; decide +kernel⟩

example : runner [] "/opt/wr".toList (overrides0 "h:1".toList "d".toList)
    [withPath "/a", withPath "/b", ⟨⟨some ["PATH=/c".toList], true, ["PATH=/d".toList, "X=1".toList]⟩, id, id, id⟩] =
    [some ["HOME=/home/u".toList, "PATH=/a:/opt/wr".toList, "WR_MANAGERHOST=h".toList, "WR_MANAGERPORT=1".toList,
      "WR_MANAGERCERTDOMAIN=d".toList],
    some ["HOME=/home/u".toList, "PATH=/b:/opt/wr".toList, "WR_MANAGERHOST=h".toList, "WR_MANAGERPORT=1".toList,
      "WR_MANAGERCERTDOMAIN=d".toList],
    some ["PATH=/d:/opt/wr".toList, "X=1".toList, "WR_MANAGERHOST=h".toList, "WR_MANAGERPORT=1".toList,
      "WR_MANAGERCERTDOMAIN=d".toList]] := by decide +kernel

example : execEnv id id id id ⟨"/t".toList, "/w".toList, true, "/l".toList, "{}".toList, "h".toList, "1".toList, "bash".toList⟩
    ["PATH=/bin".toList, "HOME=/home/u".toList, "SHELL=zsh".toList] =
    some ["PATH=/l:/bin".toList, "HOME=/w".toList, "SHELL=bash".toList, "TMPDIR=/t".toList, "WR_BSUB_CONFIG={}".toList,
      "WR_MANAGER_HOST=h".toList, "WR_MANAGER_PORT=1".toList, "LSF_SERVERDIR=/dev/null".toList,
      "LSF_LIBDIR=/dev/null".toList, "LSF_ENVDIR=/dev/null".toList, "LSF_BINDIR=/l".toList] := by decide +kernel

end Verif.Utils.JobEnv
