import Verif.Server.Convert
/-!
# C53: job JSON is converted with defaults applied field by field
-/
namespace Verif.Server.Convert
open Verif.Client

/-- A member is meant: it is not there, or it is not the zero value of its type. -/
def Meant {α : Type} (zero : α) (o : Option α) : Prop := o ≠ some zero

/-- All string, list and boolean members are meant. -/
structure AllMeant (j : Json) : Prop where
  strs : ∀ o ∈ [j.cwd, j.req_grp, j.group, j.memory, j.time, j.rep_grp, j.monitor_docker, j.with_docker, j.with_singularity,
    j.container_mounts, j.cloud_os, j.cloud_username, j.cloud_script, j.cloud_config_files, j.cloud_flavor, j.queue, j.queues_avoid,
    j.misc, j.bsub_mode, j.no_retry_over_walltime], Meant "" o
  lists : ∀ o ∈ [j.mounts, j.limit_grps, j.modules, j.dep_grps, j.deps, j.env], Meant [] o
  cmds : Meant [] j.cmd_deps
  behs : ∀ o ∈ [j.on_failure, j.on_success, j.on_exit], Meant [] o
  bools : ∀ o ∈ [j.cwd_matters, j.change_home, j.cloud_shared], Meant false o

/-- specification: an option for the scheduler: what is given, else the default, else nothing -/
def Opt (job : Job) (key : String) (given : Option String) (default : Option String) : Prop :=
  job.other.lookup key = given.or default

/-- specification: a default that is not set is the empty string -/
def dflt (s : String) : Option String := if s = "" then none else some s

/-- specification: what is given is parsed, else it is the default -/
def Parsed {α : Type} (parse : String → Option α) (given : Option String) (default v : α) : Prop :=
  match given with
  | some s => parse s = some v
  | none => v = default

/-- specification: each property of the job is the member of the JSON object if there is one, else the default. -/
structure FieldByField (fn : Env) (j : Json) (jd : JD) (job : Job) : Prop where
  cmd : j.cmd = some job.cmd ∧ job.cmd ≠ ""
  repGroup : job.repGroup = j.rep_grp.getD jd.repGrp
  cwd : job.cwd = j.cwd.getD (if jd.cwd = "" then "/tmp" else jd.cwd)
  cwdMatters : job.cwdMatters = j.cwd_matters.getD jd.cwdMatters
  changeHome : job.changeHome = j.change_home.getD jd.changeHome
  reqGroup : job.reqGroup = j.req_grp.getD (if jd.reqGrp = "" then fn.base job.cmd else jd.reqGrp)
  group : job.group = j.group.getD jd.group
  ram : Parsed fn.toMegabytes j.memory (if jd.memory < 1 then 1000 else jd.memory) job.ram
  time : Parsed fn.parseDuration j.time (if jd.time = 0 then hour else jd.time) job.time
  cores : job.cores = j.cpus.getD (if jd.cpus < 0 then 0 else jd.cpus)
  disk : job.disk = j.disk.getD jd.disk
  diskSet : job.diskSet = (j.disk.isSome || (jd.diskSet && j.disk.isNone))
  override : (job.override.toNat : Int) = j.override.getD jd.override ∧ job.override.toNat ≤ 2
  priority : (job.priority.toNat : Int) = j.priority.getD jd.priority
  retries : (job.retries.toNat : Int) = j.retries.getD jd.retries
  noRetries : Parsed fn.parseDuration j.no_retry_over_walltime jd.noRetriesOverWalltime job.noRetriesOverWalltime
  limitGroups : job.limitGroups = j.limit_grps.getD jd.limitGroups
  modules : job.modules = j.modules.getD jd.modules
  depGroups : job.depGroups = j.dep_grps.getD jd.depGroups
  deps : job.dependencies = if j.deps.isNone ∧ j.cmd_deps.isNone then jd.deps else j.cmd_deps.getD [] ++ (j.deps.getD []).map .group
  env : match j.env with
    | some e => fn.compressEnv e = some job.envOverride
    | none => if jd.env = [] then job.envOverride = [] else fn.compressEnv jd.env = some job.envOverride
  behaviours : job.behaviours = ((j.on_failure.map fun l => l.map (·.behaviour 4)).getD jd.onFailure) ++
    ((j.on_success.map fun l => l.map (·.behaviour 2)).getD jd.onSuccess) ++ ((j.on_exit.map fun l => l.map (·.behaviour 1)).getD jd.onExit)
  mounts : job.mountConfigs = j.mounts.getD jd.mountConfigs
  monitorDocker : job.monitorDocker = j.monitor_docker.getD jd.monitorDocker
  withDocker : job.withDocker = j.with_docker.getD jd.withDocker
  withSingularity : job.withSingularity = j.with_singularity.getD jd.withSingularity
  containerMounts : job.containerMounts = j.container_mounts.getD jd.containerMounts
  bsubMode : job.bsubMode = j.bsub_mode.getD jd.bsubMode
  cloudOS : Opt job "cloud_os" j.cloud_os (dflt jd.cloudOS)
  cloudUser : Opt job "cloud_user" j.cloud_username (dflt jd.cloudUser)
  cloudFlavor : Opt job "cloud_flavor" j.cloud_flavor (dflt jd.cloudFlavor)
  cloudScript : match j.cloud_script.or (dflt jd.cloudScript) with
    | some path => ∃ c, fn.pathToContent path = some c ∧ job.other.lookup "cloud_script" = some c
    | none => job.other.lookup "cloud_script" = none
  cloudConfigFiles : Opt job "cloud_config_files" j.cloud_config_files (dflt jd.cloudConfigFiles)
  cloudOSRam : Opt job "cloud_os_ram" (j.cloud_ram.map toString) (if jd.cloudOSRam = 0 then none else some (toString jd.cloudOSRam))
  cloudShared : Opt job "cloud_shared" ((if j.cloud_shared = some true then some "true" else none)) (if jd.cloudShared then some "true" else none)
  queue : Opt job "scheduler_queue" j.queue (dflt jd.schedulerQueue)
  avoid : Opt job "scheduler_queues_avoid" j.queues_avoid (dflt jd.schedulerQueuesAvoid)
  misc : Opt job "scheduler_misc" j.misc (dflt jd.schedulerMisc)
  rtimeout : Opt job "rtimeout" (j.reserve_timeout.map toString) (if jd.rTimeout = 0 then none else some (toString jd.rTimeout))

/-! ### Lemmas -/

private theorem strOr_getD {o : Option String} (h : Meant "" o) (d : String) : strOr (o.getD "") d = o.getD d := by
  cases o with
  | none => simp [strOr]
  | some s => have : s ≠ "" := fun e => h (by rw [e]); simp [strOr, this]

private theorem listOr_getD {α : Type} {o : Option (List α)} (h : Meant [] o) (d : List α) : listOr (o.getD []) d = o.getD d := by
  cases o with
  | none => simp [listOr]
  | some s => have : s ≠ [] := fun e => h (by rw [e]); simp [listOr, this]

private theorem valOr_getD {α : Type} (o : Option α) (d : α) : valOr o d = o.getD d := by cases o <;> rfl

private theorem bool_getD {o : Option Bool} (h : Meant false o) (d : Bool) : (if o.getD false = true then true else d) = o.getD d := by
  cases o with
  | none => simp
  | some b => cases b with
    | true => simp
    | false => exact absurd rfl h

private theorem uint8_toNat {n : Int} (h0 : 0 ≤ n) (h1 : n ≤ 255) : ((uint8 n).toNat : Int) = n := by
  unfold uint8
  rw [UInt8.toNat_ofNat']
  omega

private theorem parseOr_some {α : Type} {parse : String → Option α} {o : Option String} (h : Meant "" o) {d v : α}
    (hp : parseOr parse (o.getD "") d = some v) : Parsed parse o d v := by
  unfold Parsed
  cases o with
  | none => simp [parseOr] at hp; exact hp.symm
  | some s => have : s ≠ "" := fun e => h (by rw [e]); simpa [parseOr, this] using hp

private theorem entry_lookup (k : String) {o : Option String} (h : Meant "" o) (d : String) :
    (entry k (o.getD "") d).lookup k = o.or (dflt d) := by
  unfold entry dflt
  cases o with
  | none => by_cases hd : d = "" <;> simp [hd]
  | some s => have : s ≠ "" := fun e => h (by rw [e]); simp [this]

private theorem entry_other (k k' s d : String) (h : k' ≠ k) : (entry k s d).lookup k' = none := by
  have : (k' == k) = false := by simpa using h
  unfold entry
  split
  · simp [List.lookup_cons, this]
  · split <;> simp [List.lookup_cons, this]

private theorem lookup_append {α β : Type} [BEq α] (k : α) (l l' : List (α × β)) : (l ++ l').lookup k = (l.lookup k).or (l'.lookup k) :=
  List.lookup_append

/-- what `convert` checks and gives -/
private theorem convert_spec {env : Env} {jvj : JVJ} {jd : JD} {job : Job} (h : convert env jvj jd = some job) :
    jvj.cmd ≠ "" ∧ parseOr env.toMegabytes jvj.memory jd.defaultMemory = some job.ram ∧
    parseOr env.parseDuration jvj.time jd.defaultTime = some job.time ∧
    (0 ≤ valOr jvj.override jd.override ∧ valOr jvj.override jd.override ≤ 2) ∧
    (0 ≤ valOr jvj.priority jd.priority ∧ valOr jvj.priority jd.priority ≤ 255) ∧
    (0 ≤ valOr jvj.retries jd.retries ∧ valOr jvj.retries jd.retries ≤ 255) ∧
    parseOr env.parseDuration jvj.noRetriesOverWalltime jd.noRetriesOverWalltime = some job.noRetriesOverWalltime ∧
    pickEnv env jvj jd = some job.envOverride ∧ ∃ script, pickScript env jvj jd = some script ∧
    job = {
      repGroup := strOr jvj.repGrp jd.repGrp
      cmd := jvj.cmd
      cwd := strOr jvj.cwd jd.defaultCwd
      cwdMatters := if jvj.cwdMatters then true else jd.cwdMatters
      changeHome := if jvj.changeHome then true else jd.changeHome
      reqGroup := reqOr jvj.reqGrp jd.reqGrp (env.base jvj.cmd)
      group := strOr jvj.group jd.group
      ram := job.ram
      time := job.time
      cores := valOr jvj.cpus jd.defaultCPUs
      disk := valOr jvj.disk jd.disk
      diskSet := match jvj.disk with | none => jd.diskSet | some _ => true
      other := pickOther jvj jd script
      override := uint8 (valOr jvj.override jd.override)
      priority := uint8 (valOr jvj.priority jd.priority)
      retries := uint8 (valOr jvj.retries jd.retries)
      noRetriesOverWalltime := job.noRetriesOverWalltime
      limitGroups := listOr jvj.limitGrps jd.limitGroups
      modules := listOr jvj.modules jd.modules
      depGroups := listOr jvj.depGrps jd.depGroups
      dependencies := pickDeps jvj jd
      envOverride := job.envOverride
      behaviours := pickBehaviours jvj jd
      mountConfigs := listOr jvj.mountConfigs jd.mountConfigs
      monitorDocker := strOr jvj.monitorDocker jd.monitorDocker
      withDocker := strOr jvj.withDocker jd.withDocker
      withSingularity := strOr jvj.withSingularity jd.withSingularity
      containerMounts := strOr jvj.containerMounts jd.containerMounts
      bsubMode := strOr jvj.bsubMode jd.bsubMode } := by
  unfold convert at h
  split at h
  · cases h
  rename_i hc
  obtain ⟨mb, h1, h⟩ := Option.bind_eq_some_iff.1 h
  obtain ⟨dur, h2, h⟩ := Option.bind_eq_some_iff.1 h
  simp only at h
  split at h
  · cases h
  split at h
  · cases h
  split at h
  · cases h
  obtain ⟨nr, h3, h⟩ := Option.bind_eq_some_iff.1 h
  obtain ⟨ev, h4, h⟩ := Option.bind_eq_some_iff.1 h
  obtain ⟨sc, h5, h⟩ := Option.bind_eq_some_iff.1 h
  injection h with h
  subst h
  exact ⟨hc, h1, h2, by omega, by omega, by omega, h3, h4, sc, h5, rfl⟩

private theorem other_lookup (jvj : JVJ) (jd : JD) (sc : Option String) (k : String) :
    (pickOther jvj jd sc).lookup k =
    ((entry "cloud_os" jvj.cloudOS jd.cloudOS).lookup k).or (((entry "cloud_user" jvj.cloudUser jd.cloudUser).lookup k).or
    (((entry "cloud_flavor" jvj.cloudFlavor jd.cloudFlavor).lookup k).or (((scriptEntry sc).lookup k).or
    (((entry "cloud_config_files" jvj.cloudConfigFiles jd.cloudConfigFiles).lookup k).or (((ramEntry jvj.cloudOSRam jd).lookup k).or
    (((sharedEntry jvj.cloudShared jd.cloudShared).lookup k).or
    (((entry "scheduler_queue" jvj.schedulerQueue jd.schedulerQueue).lookup k).or (((entry "scheduler_queues_avoid" jvj.schedulerQueuesAvoid jd.schedulerQueuesAvoid).lookup k).or
    (((entry "scheduler_misc" jvj.schedulerMisc jd.schedulerMisc).lookup k).or ((rtEntry jvj.rTimeout jd).lookup k)))))))))) := by
  unfold pickOther
  simp only [lookup_append, Option.or_assoc]

private theorem sc_other (sc : Option String) (k : String) (h : k ≠ "cloud_script") : (scriptEntry sc).lookup k = none := by
  have : (k == "cloud_script") = false := by simpa using h
  cases sc <;> simp [scriptEntry, List.lookup_cons, this]

private theorem ram_other (o : Option Int) (jd : JD) (k : String) (h : k ≠ "cloud_os_ram") : (ramEntry o jd).lookup k = none := by
  have : (k == "cloud_os_ram") = false := by simpa using h
  cases o with
  | some r => simp [ramEntry, List.lookup_cons, this]
  | none => simp only [ramEntry]; split <;> simp [List.lookup_cons, this]

private theorem shared_other (a b : Bool) (k : String) (h : k ≠ "cloud_shared") : (sharedEntry a b).lookup k = none := by
  have : (k == "cloud_shared") = false := by simpa using h
  cases a <;> cases b <;> simp [sharedEntry, List.lookup_cons, this]

private theorem rt_other (o : Option Int) (jd : JD) (k : String) (h : k ≠ "rtimeout") : (rtEntry o jd).lookup k = none := by
  have : (k == "rtimeout") = false := by simpa using h
  cases o with
  | some r => simp [rtEntry, List.lookup_cons, this]
  | none => simp only [rtEntry]; split <;> simp [List.lookup_cons, this]

private theorem reqOr_getD {o : Option String} (h : Meant "" o) (d b : String) : reqOr (o.getD "") d b = o.getD (if d = "" then b else d) := by
  unfold reqOr
  cases o with
  | none => by_cases hd : d = "" <;> simp [hd]
  | some s => have : s ≠ "" := fun e => h (by rw [e]); simp [this]

private theorem deps_getD {j : Json} {jd : JD} (h1 : Meant [] j.deps) (h2 : Meant [] j.cmd_deps) :
    pickDeps (decode j) jd = if j.deps.isNone ∧ j.cmd_deps.isNone then jd.deps else j.cmd_deps.getD [] ++ (j.deps.getD []).map .group := by
  have e1 : (decode j).deps = j.deps.getD [] := rfl
  have e2 : (decode j).cmdDeps = j.cmd_deps.getD [] := rfl
  unfold pickDeps
  rw [e1, e2]
  rcases ho : j.deps with _ | d <;> rcases hc : j.cmd_deps with _ | l
  · simp
  · have hl : l ≠ [] := fun e => h2 (by rw [hc, e])
    simp [hl, List.length_pos_iff]
  · have hd : d ≠ [] := fun e => h1 (by rw [ho, e])
    simp [hd]
  · have hl : l ≠ [] := fun e => h2 (by rw [hc, e])
    simp [hl, List.length_pos_iff]

/-- C53, for JSON objects without members that are an empty string, an empty list or false: the job has what is given, else the default. Missing:
such members, for which it is false (below). -/
theorem C53_partial (env : Env) (j : Json) (jd : JD) (job : Job) (hm : AllMeant j) (h : convert env (decode j) jd = some job) :
    FieldByField env j jd job := by
  obtain ⟨hc, h1, h2, h3, h4, h5, h6, h7, sc, h8, hj⟩ := convert_spec h
  have ms := hm.strs
  have ml := hm.lists
  have mb := hm.behs
  have mo := hm.bools
  simp only [List.mem_cons, List.not_mem_nil, or_false, forall_eq_or_imp, forall_eq] at ms ml mb mo
  obtain ⟨s1, s2, s3, s4, s5, s6, s7, s8, s9, s10, s11, s12, s13, s14, s15, s16, s17, s18, s19, s20⟩ := ms
  obtain ⟨l1, l2, l3, l4, l5, l6⟩ := ml
  obtain ⟨b1, b2, b3⟩ := mb
  obtain ⟨o1, o2, o3⟩ := mo
  have hcmd : job.cmd = j.cmd.getD "" := by rw [hj]; rfl
  have hoth : job.other = pickOther (decode j) jd sc := by rw [hj]
  constructor
  case cmd =>
    simp only [decode] at hc
    cases hcc : j.cmd with
    | none => simp [hcc] at hc
    | some c => rw [hcc] at hc; simp at hc; rw [hcmd, hcc]; exact ⟨rfl, hc⟩
  case repGroup => rw [hj]; exact strOr_getD s6 _
  case cwd => rw [hj]; exact strOr_getD s1 _
  case cwdMatters => rw [hj]; exact bool_getD o1 _
  case changeHome => rw [hj]; exact bool_getD o2 _
  case reqGroup => rw [hcmd, hj]; exact reqOr_getD s2 _ _
  case group => rw [hj]; exact strOr_getD s3 _
  case ram => exact parseOr_some s4 h1
  case time => exact parseOr_some s5 h2
  case cores => rw [hj]; exact valOr_getD _ _
  case disk => rw [hj]; exact valOr_getD _ _
  case diskSet => rw [hj]; simp only [decode]; cases j.disk <;> simp
  case override =>
    rw [hj]; simp only [decode] at h3 ⊢
    rw [valOr_getD] at h3 ⊢
    have := uint8_toNat h3.1 (by omega)
    exact ⟨this, by omega⟩
  case priority => rw [hj]; simp only [decode] at h4 ⊢; rw [valOr_getD] at h4 ⊢; exact uint8_toNat h4.1 h4.2
  case retries => rw [hj]; simp only [decode] at h5 ⊢; rw [valOr_getD] at h5 ⊢; exact uint8_toNat h5.1 h5.2
  case noRetries => exact parseOr_some s20 h6
  case limitGroups => rw [hj]; exact listOr_getD l2 _
  case modules => rw [hj]; exact listOr_getD l3 _
  case depGroups => rw [hj]; exact listOr_getD l4 _
  case deps => rw [hj]; exact deps_getD l5 hm.cmds
  case env =>
    have e1 : (decode j).env = j.env.getD [] := rfl
    unfold pickEnv at h7
    rw [e1] at h7
    cases he : j.env with
    | none =>
      rw [he] at h7
      simp only [Option.getD_none, List.length_nil, Nat.lt_irrefl, if_false] at h7
      by_cases hd : jd.env = []
      · simp [hd] at h7 ⊢; exact h7
      · have : 0 < jd.env.length := List.length_pos_iff.2 hd
        rw [if_pos this] at h7
        simp [hd, h7]
    | some e =>
      have : 0 < e.length := List.length_pos_iff.2 fun x => l6 (by rw [he, x])
      rw [he] at h7
      simpa [this] using h7
  case behaviours =>
    have key : ∀ (o : Option (List ViaJSON)) (w : UInt8) (d : List Behaviour), Meant [] o →
        (if 0 < (o.getD []).length then Client.behaviours (o.getD []) w else d) = (o.map fun l => l.map (·.behaviour w)).getD d := by
      intro o w d ho
      cases o with
      | none => simp
      | some l =>
        have : 0 < l.length := List.length_pos_iff.2 fun x => ho (by rw [x])
        simp [this, Client.behaviours]
    have e1 : (decode j).onFailure = j.on_failure.getD [] := rfl
    have e2 : (decode j).onSuccess = j.on_success.getD [] := rfl
    have e3 : (decode j).onExit = j.on_exit.getD [] := rfl
    rw [hj]
    simp only []
    unfold pickBehaviours
    rw [e1, e2, e3, key _ _ _ b1, key _ _ _ b2, key _ _ _ b3]
    rfl
  case mounts => rw [hj]; exact listOr_getD l1 _
  case monitorDocker => rw [hj]; exact strOr_getD s7 _
  case withDocker => rw [hj]; exact strOr_getD s8 _
  case withSingularity => rw [hj]; exact strOr_getD s9 _
  case containerMounts => rw [hj]; exact strOr_getD s10 _
  case bsubMode => rw [hj]; exact strOr_getD s19 _
  case cloudOS =>
    unfold Opt; rw [hoth, other_lookup, sc_other _ _ (by decide), ram_other _ _ _ (by decide), shared_other _ _ _ (by decide), rt_other _ _ _ (by decide)]
    simp only [entry_other "cloud_user" "cloud_os" _ _ (by decide), entry_other "cloud_flavor" "cloud_os" _ _ (by decide), entry_other "cloud_config_files" "cloud_os" _ _ (by decide), entry_other "scheduler_queue" "cloud_os" _ _ (by decide), entry_other "scheduler_queues_avoid" "cloud_os" _ _ (by decide), entry_other "scheduler_misc" "cloud_os" _ _ (by decide)]
    simp only [Option.none_or, Option.or_none]
    exact entry_lookup _ s11 _
  case cloudUser =>
    unfold Opt; rw [hoth, other_lookup, sc_other _ _ (by decide), ram_other _ _ _ (by decide), shared_other _ _ _ (by decide), rt_other _ _ _ (by decide)]
    simp only [entry_other "cloud_os" "cloud_user" _ _ (by decide), entry_other "cloud_flavor" "cloud_user" _ _ (by decide), entry_other "cloud_config_files" "cloud_user" _ _ (by decide), entry_other "scheduler_queue" "cloud_user" _ _ (by decide), entry_other "scheduler_queues_avoid" "cloud_user" _ _ (by decide), entry_other "scheduler_misc" "cloud_user" _ _ (by decide)]
    simp only [Option.none_or, Option.or_none]
    exact entry_lookup _ s12 _
  case cloudFlavor =>
    unfold Opt; rw [hoth, other_lookup, sc_other _ _ (by decide), ram_other _ _ _ (by decide), shared_other _ _ _ (by decide), rt_other _ _ _ (by decide)]
    simp only [entry_other "cloud_os" "cloud_flavor" _ _ (by decide), entry_other "cloud_user" "cloud_flavor" _ _ (by decide), entry_other "cloud_config_files" "cloud_flavor" _ _ (by decide), entry_other "scheduler_queue" "cloud_flavor" _ _ (by decide), entry_other "scheduler_queues_avoid" "cloud_flavor" _ _ (by decide), entry_other "scheduler_misc" "cloud_flavor" _ _ (by decide)]
    simp only [Option.none_or, Option.or_none]
    exact entry_lookup _ s15 _
  case cloudConfigFiles =>
    unfold Opt; rw [hoth, other_lookup, sc_other _ _ (by decide), ram_other _ _ _ (by decide), shared_other _ _ _ (by decide), rt_other _ _ _ (by decide)]
    simp only [entry_other "cloud_os" "cloud_config_files" _ _ (by decide), entry_other "cloud_user" "cloud_config_files" _ _ (by decide), entry_other "cloud_flavor" "cloud_config_files" _ _ (by decide), entry_other "scheduler_queue" "cloud_config_files" _ _ (by decide), entry_other "scheduler_queues_avoid" "cloud_config_files" _ _ (by decide), entry_other "scheduler_misc" "cloud_config_files" _ _ (by decide)]
    simp only [Option.none_or, Option.or_none]
    exact entry_lookup _ s14 _
  case queue =>
    unfold Opt; rw [hoth, other_lookup, sc_other _ _ (by decide), ram_other _ _ _ (by decide), shared_other _ _ _ (by decide), rt_other _ _ _ (by decide)]
    simp only [entry_other "cloud_os" "scheduler_queue" _ _ (by decide), entry_other "cloud_user" "scheduler_queue" _ _ (by decide), entry_other "cloud_flavor" "scheduler_queue" _ _ (by decide), entry_other "cloud_config_files" "scheduler_queue" _ _ (by decide), entry_other "scheduler_queues_avoid" "scheduler_queue" _ _ (by decide), entry_other "scheduler_misc" "scheduler_queue" _ _ (by decide)]
    simp only [Option.none_or, Option.or_none]
    exact entry_lookup _ s16 _
  case avoid =>
    unfold Opt; rw [hoth, other_lookup, sc_other _ _ (by decide), ram_other _ _ _ (by decide), shared_other _ _ _ (by decide), rt_other _ _ _ (by decide)]
    simp only [entry_other "cloud_os" "scheduler_queues_avoid" _ _ (by decide), entry_other "cloud_user" "scheduler_queues_avoid" _ _ (by decide), entry_other "cloud_flavor" "scheduler_queues_avoid" _ _ (by decide), entry_other "cloud_config_files" "scheduler_queues_avoid" _ _ (by decide), entry_other "scheduler_queue" "scheduler_queues_avoid" _ _ (by decide), entry_other "scheduler_misc" "scheduler_queues_avoid" _ _ (by decide)]
    simp only [Option.none_or, Option.or_none]
    exact entry_lookup _ s17 _
  case misc =>
    unfold Opt; rw [hoth, other_lookup, sc_other _ _ (by decide), ram_other _ _ _ (by decide), shared_other _ _ _ (by decide), rt_other _ _ _ (by decide)]
    simp only [entry_other "cloud_os" "scheduler_misc" _ _ (by decide), entry_other "cloud_user" "scheduler_misc" _ _ (by decide), entry_other "cloud_flavor" "scheduler_misc" _ _ (by decide), entry_other "cloud_config_files" "scheduler_misc" _ _ (by decide), entry_other "scheduler_queue" "scheduler_misc" _ _ (by decide), entry_other "scheduler_queues_avoid" "scheduler_misc" _ _ (by decide)]
    simp only [Option.none_or, Option.or_none]
    exact entry_lookup _ s18 _
  case cloudOSRam =>
    unfold Opt; rw [hoth, other_lookup, sc_other _ _ (by decide), shared_other _ _ _ (by decide), rt_other _ _ _ (by decide)]
    simp only [entry_other "cloud_os" "cloud_os_ram" _ _ (by decide), entry_other "cloud_user" "cloud_os_ram" _ _ (by decide), entry_other "cloud_flavor" "cloud_os_ram" _ _ (by decide), entry_other "cloud_config_files" "cloud_os_ram" _ _ (by decide), entry_other "scheduler_queue" "cloud_os_ram" _ _ (by decide), entry_other "scheduler_queues_avoid" "cloud_os_ram" _ _ (by decide), entry_other "scheduler_misc" "cloud_os_ram" _ _ (by decide)]
    simp only [Option.none_or, Option.or_none, decode, ramEntry]
    cases j.cloud_ram with
    | some r => simp
    | none => by_cases hd : jd.cloudOSRam = 0 <;> simp [hd, JD.defaultCloudOSRam]
  case cloudShared =>
    unfold Opt; rw [hoth, other_lookup, sc_other _ _ (by decide), ram_other _ _ _ (by decide), rt_other _ _ _ (by decide)]
    simp only [entry_other "cloud_os" "cloud_shared" _ _ (by decide), entry_other "cloud_user" "cloud_shared" _ _ (by decide), entry_other "cloud_flavor" "cloud_shared" _ _ (by decide), entry_other "cloud_config_files" "cloud_shared" _ _ (by decide), entry_other "scheduler_queue" "cloud_shared" _ _ (by decide), entry_other "scheduler_queues_avoid" "cloud_shared" _ _ (by decide), entry_other "scheduler_misc" "cloud_shared" _ _ (by decide)]
    simp only [Option.none_or, Option.or_none]
    rw [show (decode j).cloudShared = j.cloud_shared.getD false from rfl]
    unfold sharedEntry
    cases hs : j.cloud_shared with
    | none => cases jd.cloudShared <;> simp
    | some b => cases b with
      | true => simp
      | false => exact absurd hs o3
  case rtimeout =>
    unfold Opt; rw [hoth, other_lookup, sc_other _ _ (by decide), ram_other _ _ _ (by decide), shared_other _ _ _ (by decide)]
    simp only [entry_other "cloud_os" "rtimeout" _ _ (by decide), entry_other "cloud_user" "rtimeout" _ _ (by decide), entry_other "cloud_flavor" "rtimeout" _ _ (by decide), entry_other "cloud_config_files" "rtimeout" _ _ (by decide), entry_other "scheduler_queue" "rtimeout" _ _ (by decide), entry_other "scheduler_queues_avoid" "rtimeout" _ _ (by decide), entry_other "scheduler_misc" "rtimeout" _ _ (by decide)]
    simp only [Option.none_or, decode, rtEntry]
    cases j.reserve_timeout with
    | some r => simp
    | none => by_cases hd : jd.rTimeout = 0 <;> simp [hd]
  case cloudScript =>
    have hl : job.other.lookup "cloud_script" = sc := by
      rw [hoth, other_lookup, ram_other _ _ _ (by decide), shared_other _ _ _ (by decide), rt_other _ _ _ (by decide)]
      simp only [entry_other "cloud_os" "cloud_script" _ _ (by decide), entry_other "cloud_user" "cloud_script" _ _ (by decide), entry_other "cloud_flavor" "cloud_script" _ _ (by decide), entry_other "cloud_config_files" "cloud_script" _ _ (by decide), entry_other "scheduler_queue" "cloud_script" _ _ (by decide), entry_other "scheduler_queues_avoid" "cloud_script" _ _ (by decide), entry_other "scheduler_misc" "cloud_script" _ _ (by decide)]
      cases sc <;> simp [scriptEntry]
    rw [hl]
    have e1 : (decode j).cloudScript = j.cloud_script.getD "" := rfl
    unfold pickScript at h8
    rw [e1] at h8
    unfold dflt
    cases hs : j.cloud_script with
    | some p =>
      have : p ≠ "" := fun e => s13 (by rw [hs, e])
      simp [hs, this] at h8 ⊢
      obtain ⟨c, h9, h10⟩ := h8
      exact ⟨c, h9, h10.symm⟩
    | none =>
      by_cases hd : jd.cloudScript = ""
      · simp [hs, hd] at h8 ⊢; exact h8.symm
      · simp [hs, hd] at h8 ⊢
        obtain ⟨c, h9, h10⟩ := h8
        exact ⟨c, h9, h10.symm⟩

/-- specification: why a job is refused -/
def Refused (env : Env) (j : Json) (jd : JD) : Prop :=
  j.cmd.getD "" = "" ∨ (∃ s, j.memory = some s ∧ s ≠ "" ∧ env.toMegabytes s = none) ∨ (∃ s, j.time = some s ∧ s ≠ "" ∧ env.parseDuration s = none) ∨
  (∃ s, j.no_retry_over_walltime = some s ∧ s ≠ "" ∧ env.parseDuration s = none) ∨
  ¬ (0 ≤ j.override.getD jd.override ∧ j.override.getD jd.override ≤ 2) ∨ ¬ (0 ≤ j.priority.getD jd.priority ∧ j.priority.getD jd.priority ≤ 255) ∨
  ¬ (0 ≤ j.retries.getD jd.retries ∧ j.retries.getD jd.retries ≤ 255) ∨
  pickEnv env (decode j) jd = none ∨ pickScript env (decode j) jd = none

private theorem parseOr_none {α : Type} (parse : String → Option α) (o : Option String) (d : α) :
    parseOr parse (o.getD "") d = none ↔ ∃ s, o = some s ∧ s ≠ "" ∧ parse s = none := by
  unfold parseOr
  cases o with
  | none => simp
  | some s => by_cases h : s = "" <;> simp [h]

/-- C53: a job is refused exactly if the command is empty, a number is out of range, a size or duration cannot be parsed, or
the environment or script cannot be dealt with. -/
theorem C53_refused (env : Env) (j : Json) (jd : JD) : convert env (decode j) jd = none ↔ Refused env j jd := by
  unfold convert Refused
  rw [← parseOr_none env.toMegabytes j.memory jd.defaultMemory, ← parseOr_none env.parseDuration j.time jd.defaultTime,
    ← parseOr_none env.parseDuration j.no_retry_over_walltime jd.noRetriesOverWalltime]
  have e1 : (decode j).cmd = j.cmd.getD "" := rfl
  have e2 : (decode j).memory = j.memory.getD "" := rfl
  have e3 : (decode j).time = j.time.getD "" := rfl
  have e4 : (decode j).noRetriesOverWalltime = j.no_retry_over_walltime.getD "" := rfl
  have e5 : (decode j).override = j.override := rfl
  have e6 : (decode j).priority = j.priority := rfl
  have e7 : (decode j).retries = j.retries := rfl
  rw [e1, e2, e3, e4, e5, e6, e7, valOr_getD, valOr_getD, valOr_getD]
  by_cases h0 : j.cmd.getD "" = ""
  · simp [h0]
  simp only [h0, if_false, false_or]
  cases h1 : parseOr env.toMegabytes (j.memory.getD "") jd.defaultMemory with
  | none => simp
  | some mb =>
  cases h2 : parseOr env.parseDuration (j.time.getD "") jd.defaultTime with
  | none => simp
  | some dur =>
  simp only [Option.bind_eq_bind, Option.bind_some]
  by_cases h3 : j.override.getD jd.override < 0 ∨ j.override.getD jd.override > 2
  · rw [if_pos h3]; simp only [true_iff]
    right; right; right; left; omega
  rw [if_neg h3]
  by_cases h4 : j.priority.getD jd.priority < 0 ∨ j.priority.getD jd.priority > 255
  · rw [if_pos h4]; simp only [true_iff]
    right; right; right; right; left; omega
  rw [if_neg h4]
  by_cases h5 : j.retries.getD jd.retries < 0 ∨ j.retries.getD jd.retries > 255
  · rw [if_pos h5]; simp only [true_iff]
    right; right; right; right; right; left; omega
  rw [if_neg h5]
  have a3 : (0 ≤ j.override.getD jd.override ∧ j.override.getD jd.override ≤ 2) := by omega
  have a4 : (0 ≤ j.priority.getD jd.priority ∧ j.priority.getD jd.priority ≤ 255) := by omega
  have a5 : (0 ≤ j.retries.getD jd.retries ∧ j.retries.getD jd.retries ≤ 255) := by omega
  cases h6 : parseOr env.parseDuration (j.no_retry_over_walltime.getD "") jd.noRetriesOverWalltime with
  | none => simp
  | some nr =>
  cases h7 : pickEnv env (decode j) jd with
  | none => simp
  | some ev =>
  cases h8 : pickScript env (decode j) jd with
  | none => simp
  | some sc => simp [a3, a4, a5]

private def tEnv : Env where
  toMegabytes := fun s => if s = "1G" then some 1024 else none
  parseDuration := fun s => if s = "1h" then some hour else none
  pathToContent := fun _ => none
  compressEnv := fun _ => some [1]
  base := fun s => (s.splitOn " ").headD ""

/-- A non-trivial case: some members are given and some come from the defaults. -/
example : AllMeant { cmd := some "echo 1", memory := some "1G", retries := some 3, deps := some ["a"], cwd_matters := some true } ∧
    ∃ job, convert tEnv (decode { cmd := some "echo 1", memory := some "1G", retries := some 3, deps := some ["a"], cwd_matters := some true })
      { priority := 7, cwd := "/w", cloudOS := "focal" } = some job ∧ job.ram = 1024 ∧ job.retries = 3 ∧ job.priority = 7 ∧ job.cwd = "/w" ∧
      job.dependencies = [.group "a"] ∧ job.other = [("cloud_os", "focal")] := by
  constructor
  · constructor <;> simp [Meant]
  · refine ⟨_, rfl, ?_⟩
    refine ⟨rfl, ?_, ?_, rfl, rfl, rfl⟩ <;> decide

/-- The code violates C53: `"cwd_matters": false` does not override a default of true. -/
theorem C53_violated_false : ∃ env j jd job, j.cwd_matters = some false ∧ convert env (decode j) jd = some job ∧ job.cwdMatters = true :=
  ⟨tEnv, { cmd := some "a", cwd_matters := some false }, { cwdMatters := true }, _, rfl, rfl, rfl⟩

/-- The code violates C53: `"deps": []` does not override the default dependencies. -/
theorem C53_violated_empty : ∃ env j jd job, j.deps = some [] ∧ convert env (decode j) jd = some job ∧ job.dependencies = [.group "a"] :=
  ⟨tEnv, { cmd := some "a", deps := some [] }, { deps := [.group "a"] }, _, rfl, rfl, rfl⟩

/-- A negative number of cores, or of gigabytes of disk, is accepted. -/
theorem C53_negative : ∃ env j jd job, convert env (decode j) jd = some job ∧ job.cores = -1 ∧ job.disk = -5 :=
  ⟨tEnv, { cmd := some "a", cpus := some (-1), disk := some (-5) }, {}, _, rfl, rfl, rfl⟩

end Verif.Server.Convert
