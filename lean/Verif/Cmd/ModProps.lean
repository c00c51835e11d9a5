import Verif.Cmd.Mod
import Verif.Server.ModifyProps
/-!
# C122: `wr mod` changes what its options say, and nothing else
-/
namespace Verif.Cmd.Mod
open Verif.Util
open Verif.Server.Groups (Str)
open Verif.Server.Keys (Mount)
open Verif.Server.Modify (Job Modifier ReqMod Req modifyAll apply modReq modifyAll_length C87_fields fields_apply key)
open Verif.Server.Modify.Spec (Set Fields given more Behaves on)
open Verif.Client (Behaviour)

namespace Spec

/-- a comma-separated list that was given as text -/
def Parts (s : Str) (l : List Str) : Prop := l ≠ [] ∧ (∀ x ∈ l, ',' ∉ x) ∧ join ',' l = s

/-- an option that is given as text, other than "", for a list -/
def Lists (o : Option Str) (old new : List Str) : Prop := (o = none → new = old) ∧ ∀ s, o = some s → s ≠ [] → Parts s new

/-- an option that is given as a text that has to be understood -/
def Reads (o : Option Str) (p : Str → Option Nat) (old new : Nat) : Prop :=
  (o = none → new = old) ∧ ∀ s, o = some s → ∃ n, p s = some n ∧ (n ≠ 0 → new = n)

/-- a number from 0 to 255 -/
def Byte (o : Option Int) (old new : UInt8) : Prop := (o = none → new = old) ∧ ∀ n, o = some n → 0 ≤ n → n ≤ 255 → (new.toNat : Int) = n

/-- two options of which one turns on and one off -/
def Switch (set unset : Bool) (old new : Bool) : Prop :=
  (set = true → new = true) ∧ (set = false → unset = true → new = false) ∧ (set = false → unset = false → new = old)

/-- none of the options about cloud servers and queues is given -/
def NoOther (f : Flags) : Prop := f.os = none ∧ f.user = none ∧ f.osRam = none ∧ f.flavor = none ∧ f.script = none ∧ f.configs = none ∧
  f.shared = false ∧ f.unsetShared = false ∧ f.queue = [] ∧ f.avoid = []

/-- what has to be true of a job before and after -/
structure Changed (w : World) (f : Flags) (j j' : Job) : Prop where
  cmd : Set (given f.cmdline) j.cmd j'.cmd
  limitGroups : Lists f.limitGrps j.limitGroups j'.limitGroups
  modules : j'.modules = j.modules
  cwd : Set (f.cwd.bind given) j.cwd j'.cwd
  cwdMatters : Switch f.cwdMatters f.unsetCwdMatters j.cwdMatters j'.cwdMatters
  changeHome : Switch f.changeHome f.unsetChangeHome j.changeHome j'.changeHome
  reqGroup : Set f.reqGrp j.reqGroup j'.reqGroup
  group : Set f.group j.group j'.group
  ram : Reads f.memory w.mb j.req.ram j'.req.ram
  time : Reads f.time w.dur j.req.time j'.req.time
  cores : Set f.cpus j.req.cores j'.req.cores
  disk : Set f.disk j.req.disk j'.req.disk
  other : NoOther f → j'.req.other = j.req.other
  override : (f.override = none → j'.override = j.override) ∧ ∀ s, f.override = some s → overrideOf s = some j'.override
  priority : Byte f.priority j.priority j'.priority
  retries : Byte f.retries j.retries j'.retries
  depends : (f.cmdDeps = none → f.deps = none → j'.depends = j.depends) ∧
    (∀ s, f.cmdDeps = none → f.deps = some s → s ≠ [] → ∃ l, Parts s l ∧ j'.depends = l.map w.onGroup)
  monitorDocker : Set f.monitorDocker j.monitorDocker j'.monitorDocker
  docker : Set f.docker j.docker j'.docker
  singularity : Set f.singularity j.singularity j'.singularity
  containerMounts : Set f.containerMounts j.containerMounts j'.containerMounts
  mounts : (f.mountJson = none → f.mounts = none → j'.mounts = j.mounts) ∧
    (f.mountJson ≠ none ∨ f.mounts ≠ none →
      some j'.mounts = if f.mountJson.getD [] = [] ∧ f.mounts.getD [] = [] then some [] else w.mounts (f.mountJson.getD []) (f.mounts.getD []))
  env : Set f.env j.env j'.env
  /-- what no option is for -/
  repGroup : j'.repGroup = j.repGroup
  depGroups : j'.depGroups = j.depGroups
  bsubMode : j'.bsubMode = j.bsubMode

end Spec
open Spec

theorem opt_none {α β : Type} {o : Option α} {p : α → Option β} {r : Option β} (h : opt o p = some r) : (o = none → r = none) ∧
    ∀ a, o = some a → ∃ b, p a = some b ∧ r = some b := by
  unfold opt at h
  cases o with
  | none => simp_all
  | some a =>
    simp only [Option.map_eq_some_iff] at h
    obtain ⟨b, hb, rfl⟩ := h
    exact ⟨fun h => by simp at h, fun a' ha => ⟨b, by simpa [← Option.some.inj ha] using hb, rfl⟩⟩

theorem parts_split (s : Str) : Parts s (split ',' s) := ⟨split_ne_nil _ _, split_clean _ _, join_split _ _⟩

theorem toU8_toNat (n : Int) (h0 : 0 ≤ n) (h1 : n ≤ 255) : ((toU8 n).toNat : Int) = n := by
  unfold toU8
  have : (n % 256).toNat < 256 := by omega
  simp only [UInt8.toNat_ofNat']
  omega

theorem byte_ok (o : Option Int) (old : UInt8) : Byte o old ((o.map toU8).getD old) := by
  refine ⟨fun h => by simp [h], fun n h h0 h1 => ?_⟩
  simp only [h, Option.map_some, Option.getD_some]
  exact toU8_toNat n h0 h1

theorem onOff_ok (s u old : Bool) : Switch s u old ((onOff s u).getD old) := by
  unfold onOff Switch
  cases s <;> cases u <;> simp

theorem reqOf_ok {w : World} {f : Flags} {r : Option ReqMod} (h : reqOf w f = some r) (q : Req) :
    let q' := match r with | none => q | some r => modReq r q
    Reads f.memory w.mb q.ram q'.ram ∧ Reads f.time w.dur q.time q'.time ∧ Set f.cpus q.cores q'.cores ∧ Set f.disk q.disk q'.disk ∧
    (NoOther f → q'.other = q.other) ∧
    (¬ NoOther f → ∃ script, opt f.script (fun p => if p = [] then some [] else w.content p) = some script ∧ q'.other = others w f script) := by
  unfold reqOf at h
  simp only [Option.bind_eq_bind, Option.bind_eq_some_iff, Option.pure_def] at h
  obtain ⟨mem, hm, time, ht, script, hs, h⟩ := h
  obtain ⟨m1, m2⟩ := opt_none hm
  obtain ⟨t1, t2⟩ := opt_none ht
  have hno : NoOther f → others w f script = [] ∧ otherSet f = false := by
    rintro ⟨a1, a2, a3, a4, a5, a6, a7, a8, a9, a10⟩
    have := (opt_none hs).1 a5
    simp [others, otherSet, entry, nonEmpty, a1, a2, a3, a4, a6, a7, a8, a9, a10, this]
  have hyes : ¬ NoOther f → others w f script ≠ [] ∨ otherSet f = true := by
    intro hh
    by_cases he : others w f script = []
    · right
      simp only [others, List.append_eq_nil_iff] at he
      obtain ⟨⟨⟨⟨⟨⟨⟨⟨e1, e2⟩, e3⟩, e4⟩, e5⟩, e6⟩, e7⟩, e8⟩, e9⟩ := he
      have en : ∀ (k : String) (o : Option Str), entry k o = [] → o = none := by intro k o h; cases o <;> simp_all [entry]
      have nn : ∀ s : Str, nonEmpty s = none → s = [] := by intro s h; unfold nonEmpty at h; split at h <;> simp_all
      have g1 := en _ _ e1
      have g2 := en _ _ e2
      have g3 := en _ _ e3
      have g4 := en _ _ e4
      have g5 := en _ _ e5
      have g6 := en _ _ e6
      have g8 := nn _ (en _ _ e8)
      have g9 := nn _ (en _ _ e9)
      have g5' : f.script = none := by
        cases hsc : f.script with
        | none => rfl
        | some p => obtain ⟨b, _, hb⟩ := (opt_none hs).2 p hsc; rw [g5] at hb; cases hb
      have g7 : f.shared = false ∧ f.unsetShared = false := by
        cases h1 : f.shared <;> cases h2 : f.unsetShared <;> simp [h1, h2, entry] at e7 ⊢
      cases hf : f.flavor with
      | some s =>
        have : s = [] := by apply nn; simpa [hf] using g4
        simp [otherSet, hf, this]
      | none =>
        cases hc : f.configs with
        | some s =>
          have : s = [] := by apply nn; simpa [hc] using g6
          simp [otherSet, hc, this]
        | none => exact absurd ⟨g1, g2, g3, hf, g5', hc, g7.1, g7.2, g8, g9⟩ hh
    · exact .inl he
  generalize hoq : (if others w f script ≠ [] ∨ otherSet f = true then some (others w f script) else none) = oq at h
  have o1 : NoOther f → oq = none := by
    intro hn
    rw [← hoq, if_neg (by simp [hno hn])]
  have o2 : ¬ NoOther f → oq = some (others w f script) := by
    intro hn
    rw [← hoq, if_pos (hyes hn)]
  split at h
  · simp only [Option.some.injEq] at h
    subst h
    simp only [modReq]
    refine ⟨⟨fun ho => by simp [m1 ho], fun s ho => ?_⟩, ⟨fun ho => by simp [t1 ho], fun s ho => ?_⟩, Verif.Server.Modify.set_getD _ _,
      Verif.Server.Modify.set_getD _ _, fun hn => ?_, fun hn => ?_⟩
    · obtain ⟨b, h1, h2⟩ := m2 s ho
      exact ⟨b, h1, fun hb => by simp [h2, hb]⟩
    · obtain ⟨b, h1, h2⟩ := t2 s ho
      exact ⟨b, h1, fun hb => by simp [h2, hb]⟩
    · simp [o1 hn]
    · exact ⟨script, hs, by simp [o2 hn]⟩
  · rename_i hc
    simp only [Option.some.injEq] at h
    subst h
    simp only [not_or, Option.not_isSome_iff_eq_none] at hc
    obtain ⟨c1, c2, c3, c4, c5⟩ := hc
    refine ⟨⟨fun _ => rfl, fun s ho => ?_⟩, ⟨fun _ => rfl, fun s ho => ?_⟩, ⟨fun v hv => ?_, fun _ => rfl⟩, ⟨fun v hv => ?_, fun _ => rfl⟩, fun _ => rfl,
      fun hn => ?_⟩
    · obtain ⟨b, h1, h2⟩ := m2 s ho; rw [c1] at h2; cases h2
    · obtain ⟨b, h1, h2⟩ := t2 s ho; rw [c2] at h2; cases h2
    · rw [hv] at c3; cases c3
    · rw [hv] at c4; cases c4
    · rw [o2 hn] at c5; cases c5

theorem build_ok {w : World} {f : Flags} {m : Modifier} (h : build w f = some m) (j : Job) : Changed w f j (apply m j) := by
  unfold build at h
  simp only [Option.bind_eq_bind, Option.bind_eq_some_iff, Option.pure_def, Option.some.injEq] at h
  obtain ⟨req, hr, ov, ho, deps, hd, bs, hb, mo, hm, rfl⟩ := h
  have hq := reqOf_ok hr j.req
  simp only at hq
  refine
    { cmd := Verif.Server.Modify.set_given _ _
      limitGroups := ?_
      modules := rfl
      cwd := ?_
      cwdMatters := onOff_ok _ _ _
      changeHome := onOff_ok _ _ _
      reqGroup := Verif.Server.Modify.set_getD _ _
      group := Verif.Server.Modify.set_getD _ _
      ram := hq.1
      time := hq.2.1
      cores := hq.2.2.1
      disk := hq.2.2.2.1
      other := hq.2.2.2.2.1
      override := ?_
      priority := byte_ok _ _
      retries := byte_ok _ _
      depends := ?_
      monitorDocker := Verif.Server.Modify.set_getD _ _
      docker := Verif.Server.Modify.set_getD _ _
      singularity := Verif.Server.Modify.set_getD _ _
      containerMounts := Verif.Server.Modify.set_getD _ _
      mounts := ?_
      env := Verif.Server.Modify.set_getD _ _
      repGroup := rfl
      depGroups := rfl
      bsubMode := rfl }
  · refine ⟨fun h => by simp [apply, h], fun s h _ => ?_⟩
    simp only [apply, h, Option.map_some, Option.getD_some]
    exact parts_split s
  · cases hc : f.cwd with
    | none => exact ⟨fun v h => by simp at h, fun _ => by simp [apply, hc]⟩
    | some s => simpa [apply, hc] using Verif.Server.Modify.set_given s j.cwd
  · obtain ⟨o1, o2⟩ := opt_none ho
    refine ⟨fun h => by simp [apply, o1 h], fun s h => ?_⟩
    obtain ⟨b, h1, h2⟩ := o2 s h
    simp [apply, h2, h1]
  · unfold depsOf at hd
    simp only [Option.bind_eq_bind, Option.bind_eq_some_iff, Option.pure_def] at hd
    obtain ⟨cmds, hc, hd⟩ := hd
    obtain ⟨c1, c2⟩ := opt_none hc
    constructor
    · intro h1 h2
      simp only [c1 h1, h2, Option.map_none, Option.isSome_none, Bool.false_eq_true, or_self, if_false, Option.some.injEq] at hd
      subst hd
      rfl
    · intro s h1 h2 _
      simp only [c1 h1, h2, Option.map_some, Option.isSome_none, Option.isSome_some, Bool.false_eq_true, false_or, if_true, Option.getD_none, Option.getD_some,
        List.nil_append, Option.some.injEq] at hd
      subst hd
      exact ⟨split ',' s, parts_split s, rfl⟩
  · unfold mountsOf at hm
    constructor
    · intro h1 h2
      simp only [h1, h2, Option.isSome_none, Bool.false_eq_true, or_self, if_false, Option.some.injEq] at hm
      subst hm
      rfl
    · intro hh
      rw [if_pos (by cases h1 : f.mountJson <;> cases h2 : f.mounts <;> simp_all)] at hm
      split at hm
      · rename_i hc
        simp only [Option.some.injEq] at hm
        subst hm
        rw [if_pos hc]
        rfl
      · rename_i hc
        rw [if_neg hc]
        simp only [Option.map_eq_some_iff] at hm
        obtain ⟨ms, h1, rfl⟩ := hm
        rw [h1]
        rfl

theorem modifyAll_each {K : Type} [DecidableEq K] (hash : Str → K) (taken : K → Bool) (m : Modifier) :
    ∀ (l : List Job) (ks : List (K × K)), (∀ p ∈ ks, p ∈ (modifyAll hash taken m ks l).2) ∧
    ∀ (i : Nat) (j j' : Job), l[i]? = some j → (modifyAll hash taken m ks l).1[i]? = some j' →
      (j' = j ∧ (key hash (apply m j).toJobId ∈ (modifyAll hash taken m ks l).2.map (·.1) ∨
        (key hash (apply m j).toJobId ≠ key hash j.toJobId ∧ taken (key hash (apply m j).toJobId) = true))) ∨
      (j' = apply m j ∧ (key hash j'.toJobId, key hash j.toJobId) ∈ (modifyAll hash taken m ks l).2)
  | [], ks => ⟨fun p hp => hp, fun i j j' h => by simp at h⟩
  | a :: l, ks => by
    unfold modifyAll
    simp only
    split
    · rename_i hc
      obtain ⟨h1, h2⟩ := modifyAll_each hash taken m l ks
      refine ⟨h1, ?_⟩
      intro i j j' h h'
      cases i with
      | zero =>
        simp only [List.getElem?_cons_zero, Option.some.injEq] at h h'
        subst h h'
        left
        refine ⟨rfl, ?_⟩
        rcases hc with hc | hc
        · left
          obtain ⟨p, hp, e⟩ := List.mem_map.1 hc
          exact List.mem_map.2 ⟨p, h1 p hp, e⟩
        · exact .inr hc
      | succ i => exact h2 i j j' (by simpa using h) (by simpa using h')
    · obtain ⟨h1, h2⟩ := modifyAll_each hash taken m l (ks ++ [(key hash (apply m a).toJobId, key hash a.toJobId)])
      refine ⟨fun p hp => h1 p (List.mem_append_left _ hp), ?_⟩
      intro i j j' h h'
      cases i with
      | zero =>
        simp only [List.getElem?_cons_zero, Option.some.injEq] at h h'
        subst h h'
        exact .inr ⟨rfl, h1 _ (by simp)⟩
      | succ i => exact h2 i j j' (by simpa using h) (by simpa using h')

/-- C122: on every chosen job that is not running every option that was given has its effect, and nothing else changes, and its new and old
key are printed; or the job is left exactly as it was, because with the changes it would have the key of another job (one the server has,
or one that was just modified). Missing (and violated): values of "", numbers outside 0-255, a time of 0, the options about the cloud and
queues, modules. -/
theorem C122_changed_partial {K : Type} [DecidableEq K] (hash : Str → K) (taken : K → Bool) (w : World) (f : Flags) (chosen : List (Bool × Job))
    (js : List Job) (keys : List (K × K)) (h : mod hash taken w f chosen = some (js, keys)) :
    js.length = (chosen.filter (·.1)).length ∧
    ∀ (i : Nat) (j j' : Job), ((chosen.filter (·.1)).map (·.2))[i]? = some j → js[i]? = some j' →
      (Changed w f j j' ∧ (key hash j'.toJobId, key hash j.toJobId) ∈ keys) ∨
      (j' = j ∧ ∃ want, Changed w f j want ∧ (key hash want.toJobId ∈ keys.map (·.1) ∨
        (key hash want.toJobId ≠ key hash j.toJobId ∧ taken (key hash want.toJobId) = true))) := by
  unfold mod at h
  split at h
  · cases h
  split at h
  · cases h
  split at h
  · cases h
  simp only [Option.map_eq_some_iff] at h
  obtain ⟨m, hm, he⟩ := h
  have e1 : js = (modifyAll hash taken m [] ((chosen.filter (·.1)).map (·.2))).1 := by rw [he]
  have e2 : keys = (modifyAll hash taken m [] ((chosen.filter (·.1)).map (·.2))).2 := by rw [he]
  subst e1 e2
  refine ⟨by rw [modifyAll_length]; simp, ?_⟩
  intro i j j' hj hj'
  rcases (modifyAll_each hash taken m _ []).2 i j j' hj hj' with ⟨h1, h2⟩ | ⟨h1, h2⟩
  · exact .inr ⟨h1, apply m j, build_ok hm j, h2⟩
  · left
    subst h1
    exact ⟨build_ok hm j, h2⟩

/-- C122: the options about cloud servers and queues: when one of them is given, the job has exactly those given, and loses the others. -/
theorem C122_other_partial (w : World) (f : Flags) (m : Modifier) (j : Job) (h : build w f = some m) (hn : ¬ NoOther f) :
    ∃ script, opt f.script (fun p => if p = [] then some [] else w.content p) = some script ∧ (apply m j).req.other = others w f script := by
  unfold build at h
  simp only [Option.bind_eq_bind, Option.bind_eq_some_iff, Option.pure_def, Option.some.injEq] at h
  obtain ⟨req, hr, ov, ho, deps, hd, bs, hb, mo, hm, rfl⟩ := h
  exact (reqOf_ok hr j.req).2.2.2.2.2 hn

theorem lookup_entry_ne (k k' : String) (o : Option Str) (l : List (Str × Str)) (h : k.toList ≠ k'.toList) :
    (entry k' o ++ l).lookup k.toList = l.lookup k.toList := by
  have hb : (k.toList == k'.toList) = false := by simpa using h
  cases o with
  | none => rfl
  | some v => simp only [entry, List.cons_append, List.nil_append, List.lookup, hb]

theorem lookup_entry_eq (k : String) (o : Option Str) (l : List (Str × Str)) (h : l.lookup k.toList = none) :
    (entry k o ++ l).lookup k.toList = o := by
  cases o with
  | none => simpa [entry] using h
  | some v => simp [entry, List.lookup]

theorem lookup_shared_ne (k : String) (a b : Bool) (l : List (Str × Str)) (h : k.toList ≠ "cloud_shared".toList) :
    ((if a then entry "cloud_shared" (some "true".toList) else if b then entry "cloud_shared" (some "false".toList) else []) ++ l).lookup k.toList = l.lookup k.toList := by
  cases a <;> cases b <;> simp only [Bool.false_eq_true, if_true, if_false, List.nil_append] <;> exact lookup_entry_ne _ _ _ _ h

/-- the text under a name -/
def value (o : List (Str × Str)) (k : String) : Option Str := o.lookup k.toList

theorem lookup_last (k : String) (o : Option Str) (k' : String) (h : k.toList ≠ k'.toList) : (entry k' o).lookup k.toList = none := by
  have := lookup_entry_ne k k' o [] h
  simpa using this

/-- C122: what those given are. -/
theorem C122_other_values (w : World) (f : Flags) (script : Option Str) :
    value (others w f script) "cloud_os" = f.os ∧ value (others w f script) "cloud_user" = f.user ∧
    value (others w f script) "cloud_os_ram" = f.osRam ∧ value (others w f script) "cloud_script" = script ∧
    value (others w f script) "cloud_flavor" = f.flavor.bind given ∧
    value (others w f script) "cloud_config_files" = (f.configs.bind given).map w.copy ∧
    value (others w f script) "scheduler_queue" = given f.queue ∧ value (others w f script) "scheduler_queues_avoid" = given f.avoid := by
  have hg : nonEmpty = given := rfl
  have last : ∀ (k : String), k.toList ≠ "scheduler_queues_avoid".toList → (entry "scheduler_queues_avoid" (nonEmpty f.avoid)).lookup k.toList = none :=
    fun k h => lookup_last _ _ _ h
  unfold value others
  simp only [List.append_assoc]
  refine ⟨?_, ?_, ?_, ?_, ?_, ?_, ?_, ?_⟩
  · apply lookup_entry_eq
    repeat rw [lookup_entry_ne _ _ _ _ (by decide)]
    rw [lookup_shared_ne _ _ _ _ (by decide), lookup_entry_ne _ _ _ _ (by decide), last _ (by decide)]
  · rw [lookup_entry_ne _ _ _ _ (by decide)]
    apply lookup_entry_eq
    repeat rw [lookup_entry_ne _ _ _ _ (by decide)]
    rw [lookup_shared_ne _ _ _ _ (by decide), lookup_entry_ne _ _ _ _ (by decide), last _ (by decide)]
  · iterate 2 rw [lookup_entry_ne _ _ _ _ (by decide)]
    apply lookup_entry_eq
    repeat rw [lookup_entry_ne _ _ _ _ (by decide)]
    rw [lookup_shared_ne _ _ _ _ (by decide), lookup_entry_ne _ _ _ _ (by decide), last _ (by decide)]
  · iterate 4 rw [lookup_entry_ne _ _ _ _ (by decide)]
    apply lookup_entry_eq
    repeat rw [lookup_entry_ne _ _ _ _ (by decide)]
    rw [lookup_shared_ne _ _ _ _ (by decide), lookup_entry_ne _ _ _ _ (by decide), last _ (by decide)]
  · iterate 3 rw [lookup_entry_ne _ _ _ _ (by decide)]
    rw [← hg]
    apply lookup_entry_eq
    repeat rw [lookup_entry_ne _ _ _ _ (by decide)]
    rw [lookup_shared_ne _ _ _ _ (by decide), lookup_entry_ne _ _ _ _ (by decide), last _ (by decide)]
  · iterate 5 rw [lookup_entry_ne _ _ _ _ (by decide)]
    rw [← hg]
    apply lookup_entry_eq
    rw [lookup_shared_ne _ _ _ _ (by decide), lookup_entry_ne _ _ _ _ (by decide), last _ (by decide)]
  · iterate 6 rw [lookup_entry_ne _ _ _ _ (by decide)]
    rw [lookup_shared_ne _ _ _ _ (by decide), ← hg]
    apply lookup_entry_eq
    rw [last _ (by decide)]
  · iterate 6 rw [lookup_entry_ne _ _ _ _ (by decide)]
    rw [lookup_shared_ne _ _ _ _ (by decide), lookup_entry_ne _ _ _ _ (by decide), ← hg]
    have := lookup_entry_eq "scheduler_queues_avoid" (nonEmpty f.avoid) [] rfl
    simpa using this

/-- C122: behaviours: the triggers for which one behaviour is given have it afterwards; "" turns off by the behaviour "nothing"; others are
left alone (see C87 for more than one behaviour). -/
theorem C122_behaviours (w : World) (f : Flags) (m : Modifier) (j : Job) (h : build w f = some m) :
    (f.onFailure = none → f.onSuccess = none → f.onExit = none → (apply m j).behaviours = j.behaviours) ∧
    ∃ a b c : List Behaviour,
      (∀ s, f.onFailure = some s → w.behaviours 4 (if s = [] then "[{\"Nothing\":true}]".toList else s) = some a) ∧ (f.onFailure = none → a = []) ∧
      (∀ s, f.onSuccess = some s → w.behaviours 2 (if s = [] then "[{\"Nothing\":true}]".toList else s) = some b) ∧ (f.onSuccess = none → b = []) ∧
      (∀ s, f.onExit = some s → w.behaviours 1 (if s = [] then "[{\"Nothing\":true}]".toList else s) = some c) ∧ (f.onExit = none → c = []) ∧
      (m.behaviours.getD [] = a ++ b ++ c) ∧ (m.behaviours = none ↔ f.onFailure = none ∧ f.onSuccess = none ∧ f.onExit = none) := by
  unfold build at h
  simp only [Option.bind_eq_bind, Option.bind_eq_some_iff, Option.pure_def, Option.some.injEq] at h
  obtain ⟨req, hr, ov, ho, deps, hd, bs, hb, mo, hm, rfl⟩ := h
  unfold behavioursOf at hb
  simp only [Option.bind_eq_bind, Option.bind_eq_some_iff, Option.pure_def] at hb
  obtain ⟨a, ha, b, hb', c, hc, hh⟩ := hb
  obtain ⟨a1, a2⟩ := opt_none ha
  obtain ⟨b1, b2⟩ := opt_none hb'
  obtain ⟨c1, c2⟩ := opt_none hc
  have get : ∀ {o : Option Str} {r : Option (List Behaviour)} {p : Str → Option (List Behaviour)},
      (∀ s, o = some s → ∃ x, p s = some x ∧ r = some x) → ∀ s, o = some s → p s = some (r.getD []) := by
    intro o r p h s hs
    obtain ⟨x, h1, h2⟩ := h s hs
    rw [h1, h2]; rfl
  have iff : ∀ {o : Option Str} {r : Option (List Behaviour)} {p : Str → Option (List Behaviour)},
      (o = none → r = none) → (∀ s, o = some s → ∃ x, p s = some x ∧ r = some x) → (r.isSome ↔ o ≠ none) := by
    intro o r p h h'
    cases o with
    | none => simp [h rfl]
    | some s => obtain ⟨x, _, h2⟩ := h' s rfl; simp [h2]
  have ia := iff a1 a2
  have ib := iff b1 b2
  have ic := iff c1 c2
  constructor
  · intro h1 h2 h3
    rw [if_neg (by rw [ia, ib, ic]; simp [h1, h2, h3])] at hh
    simp only [Option.some.injEq] at hh
    subst hh
    rfl
  · refine ⟨a.getD [], b.getD [], c.getD [], get a2, fun h => by simp [a1 h], get b2, fun h => by simp [b1 h], get c2, fun h => by simp [c1 h], ?_, ?_⟩
    · split at hh
      · simp only [Option.some.injEq] at hh; subst hh; rfl
      · rename_i hn
        simp only [not_or, Option.not_isSome_iff_eq_none] at hn
        simp only [Option.some.injEq] at hh; subst hh
        simp [hn.1, hn.2.1, hn.2.2]
    · split at hh
      · rename_i hy
        rw [ia, ib, ic] at hy
        simp only [Option.some.injEq] at hh; subst hh
        constructor
        · intro h; cases h
        · rintro ⟨h1, h2, h3⟩; rcases hy with h | h | h <;> contradiction
      · rename_i hn
        rw [ia, ib, ic] at hn
        simp only [Option.some.injEq] at hh; subst hh
        refine ⟨fun _ => ?_, fun _ => rfl⟩
        simp only [not_or, Decidable.not_not, ne_eq] at hn
        exact hn

/-- C122: dependencies on commands are given in pairs; an odd number is refused and nothing is modified. -/
theorem C122_cmd_deps {K : Type} [DecidableEq K] (hash : Str → K) (taken : K → Bool) (w : World) (f : Flags) (chosen : List (Bool × Job)) (s : Str)
    (hs : f.cmdDeps = some s) :
    ((split ',' s).length % 2 = 1 → mod hash taken w f chosen = none) ∧
    (∀ (m : Modifier) (cs : List (Str × Str)), f.deps = none → build w f = some m → split ',' s = cs.flatMap (fun c => [c.1, c.2]) →
      m.depends = some (cs.map fun c => w.onCmd c.1 c.2)) := by
  constructor
  · intro ho
    unfold mod
    split
    · rfl
    split
    · rfl
    split
    · rfl
    simp only [Option.map_eq_none_iff]
    unfold build
    have : depsOf w f = none := by simp [depsOf, opt, hs, ho]
    rw [this]
    cases reqOf w f <;> simp
  · intro m cs hd hb he
    unfold build at hb
    simp only [Option.bind_eq_bind, Option.bind_eq_some_iff, Option.pure_def, Option.some.injEq] at hb
    obtain ⟨req, hr, ov, ho, deps, hdp, bs, hb, mo, hm, rfl⟩ := hb
    have hp : ∀ cs : List (Str × Str), pairs w (cs.flatMap fun c => [c.1, c.2]) = cs.map fun c => w.onCmd c.1 c.2 := by
      intro cs
      induction cs with
      | nil => rfl
      | cons c cs ih => simp [pairs, ih]
    unfold depsOf at hdp
    simp only [opt, hs, hd, he, hp] at hdp
    split at hdp
    · simp at hdp
    · simpa using hdp.symm

/-- C122: without a choice of jobs, with a choice made twice, and when a new command line is given for several jobs, nothing is modified. -/
theorem C122_refused {K : Type} [DecidableEq K] (hash : Str → K) (taken : K → Bool) (w : World) (f : Flags) (chosen : List (Bool × Job))
    (h : (f.all = false ∧ f.ident = []) ∨ (f.all = true ∧ f.ident ≠ []) ∨ (f.all = true ∧ f.cmdline ≠ []) ∨
      (f.ident = [] ∧ (f.search = true ∨ f.internal = true)) ∨ (1 < chosen.length ∧ f.cmdline ≠ []) ∨ chosen = []) :
    mod hash taken w f chosen = none := by
  unfold mod
  rcases h with h | h | h | h | h | h
  · rw [if_pos (by simp [selects, h])]
  · rw [if_pos (by simp [selects, h])]
  · rw [if_pos (by simp [selects, h])]
  · rw [if_pos]
    rcases h with ⟨h1, h2 | h2⟩ <;> simp [selects, h1, h2]
  · split <;> first | rfl | (split <;> first | rfl | (split <;> first | rfl | contradiction))
  · split <;> first | rfl | (split <;> first | rfl | contradiction)

/-- C122: and otherwise, if the values are understood, the server is asked. -/
theorem C122_asked {K : Type} [DecidableEq K] (hash : Str → K) (taken : K → Bool) (w : World) (f : Flags) (chosen : List (Bool × Job)) (m : Modifier)
    (h : (f.all = true ∧ f.ident = [] ∧ f.cmdline = [] ∧ f.search = false ∧ f.internal = false) ∨ (f.all = false ∧ f.ident ≠ []))
    (h1 : chosen.length = 1 ∨ (chosen ≠ [] ∧ f.cmdline = [])) (hb : build w f = some m) :
    (mod hash taken w f chosen).isSome := by
  unfold mod
  rw [if_neg (by rcases h with h | h <;> simp [selects, h]), if_neg (by rcases h1 with h1 | h1
                                                                        · intro e; simp [e] at h1
                                                                        · exact h1.1),
    if_neg (by rcases h1 with h1 | h1 <;> simp [h1]), hb]
  rfl

/-! ## what the code does not do -/

/-- a world in which everything is understood -/
def plain : World where
  mb _ := some 5
  dur _ := some 0
  content p := some p
  copy p := p
  behaviours w _ := some [⟨w, .nothing, .none⟩]
  mounts _ _ := some []
  onCmd c d := c ++ d
  onGroup g := g

def job : Job where
  cmd := ['c']
  cwd := ['/']
  cwdMatters := false
  mounts := []
  docker := []
  singularity := []
  containerMounts := []
  actualCwd := []
  repGroup := ['r']
  changeHome := false
  reqGroup := ['q']
  group := []
  req := ⟨1, 3600, 1, 0, [("cloud_flavor".toList, ['x']), ("scheduler_queue".toList, ['z'])]⟩
  override := 0
  priority := 0
  retries := 3
  untilBuried := 4
  noRetriesOver := 0
  env := []
  limitGroups := [['l']]
  modules := [['m']]
  depGroups := []
  depends := [['d']]
  behaviours := []
  bsubMode := []
  monitorDocker := []

/-- C122 violated: "" does not turn off limit groups or dependencies on groups, but sets one with an empty name; dependencies on commands
cannot be turned off, as "" is refused; neither can the queue. -/
theorem C122_violated_off :
    (∃ m, build plain { limitGrps := some [] } = some m ∧ (apply m job).limitGroups = [[]]) ∧
    (∃ m, build plain { deps := some [] } = some m ∧ (apply m job).depends = [[]]) ∧
    build plain { cmdDeps := some [] } = none ∧
    (∃ m, build plain { queue := [] } = some m ∧ value (apply m job).req.other "scheduler_queue" = some ['z']) :=
  ⟨⟨_, rfl, by decide⟩, ⟨_, rfl, by decide⟩, by decide, ⟨_, rfl, by decide⟩⟩

/-- C122 violated: an option about the queue takes away the flavor of the job. -/
theorem C122_violated_other : ∃ m, build plain { queue := ['y'] } = some m ∧ value (apply m job).req.other "cloud_flavor" = none ∧
    value job.req.other "cloud_flavor" = some ['x'] ∧ value (apply m job).req.other "scheduler_queue" = some ['y'] := ⟨_, rfl, by decide⟩

/-- C122 violated: numbers out of range are not refused but taken modulo 256. -/
theorem C122_violated_range : (∃ m, build plain { priority := some 256 } = some m ∧ (apply m job).priority = 0) ∧
    ∃ m, build plain { retries := some (-1) } = some m ∧ (apply m job).retries = 255 := ⟨⟨_, rfl, by decide⟩, ⟨_, rfl, by decide⟩⟩

/-- C122 violated: a time of 0 is understood, but not set. -/
theorem C122_violated_time : ∃ m, build plain { time := some ['0', 's'] } = some m ∧ plain.dur ['0', 's'] = some 0 ∧ (apply m job).req.time = 3600 :=
  ⟨_, rfl, by decide⟩

/-- C122 violated: no options change the modules of a job, although `wr add` has an option for them. -/
theorem C122_violated_modules (w : World) (f : Flags) (m : Modifier) (h : build w f = some m) (j : Job) : (apply m j).modules = j.modules :=
  (build_ok h j).modules

/-! ## a case -/

example : ∃ js keys, mod (K := Str) id (fun _ => false) plain { ident := ['r'], limitGrps := some ['a', ',', 'b'], memory := some ['5', 'M'], priority := some 7, cwdMatters := true }
    [(true, job), (false, job)] = some (js, keys) ∧ js.length = 1 ∧ keys.length = 1 ∧
    js.map (·.limitGroups) = [[['a'], ['b']]] ∧ js.map (·.req.ram) = [5] ∧ js.map (·.priority) = [7] ∧ js.map (·.cwdMatters) = [true] :=
  ⟨_, _, rfl, by decide⟩
example : ¬ NoOther { queue := ['y'] } ∧ NoOther { limitGrps := some [] } := ⟨fun h => by simp [NoOther] at h, by simp [NoOther]⟩
example : (split ',' ['a']).length % 2 = 1 ∧ split ',' ['a', ',', 'b'] = [((['a'] : Str), (['b'] : Str))].flatMap (fun c => [c.1, c.2]) := by decide

/-- The words for --override: "0", "no" and "n" are 0, "1", "higher" and "h"
are 1, "2", "always" and "a" are 2, and nothing else is understood. -/
theorem C122_override (s : Str) :
    (overrideOf s = some 0 ↔ s = "0".toList ∨ s = "no".toList ∨ s = "n".toList) ∧
    (overrideOf s = some 1 ↔ s = "1".toList ∨ s = "higher".toList ∨ s = "h".toList) ∧
    (overrideOf s = some 2 ↔ s = "2".toList ∨ s = "always".toList ∨ s = "a".toList) ∧
    (∀ n, overrideOf s = some n → n = 0 ∨ n = 1 ∨ n = 2) := by
  have h0 : s = "0".toList ∨ s = "no".toList ∨ s = "n".toList → overrideOf s = some 0 := by
    rintro (rfl | rfl | rfl) <;> rfl
  have h1 : s = "1".toList ∨ s = "higher".toList ∨ s = "h".toList → overrideOf s = some 1 := by
    rintro (rfl | rfl | rfl) <;> rfl
  have h2 : s = "2".toList ∨ s = "always".toList ∨ s = "a".toList → overrideOf s = some 2 := by
    rintro (rfl | rfl | rfl) <;> rfl
  have hc : ∀ n, overrideOf s = some n →
      (n = 0 ∧ (s = "0".toList ∨ s = "no".toList ∨ s = "n".toList)) ∨
      (n = 1 ∧ (s = "1".toList ∨ s = "higher".toList ∨ s = "h".toList)) ∨
      (n = 2 ∧ (s = "2".toList ∨ s = "always".toList ∨ s = "a".toList)) := by
    intro n h
    unfold overrideOf at h
    simp only [List.mem_cons, List.not_mem_nil, or_false] at h
    split at h
    · exact Or.inl ⟨(Option.some.inj h).symm, by assumption⟩
    · split at h
      · exact Or.inr (Or.inl ⟨(Option.some.inj h).symm, by assumption⟩)
      · split at h
        · exact Or.inr (Or.inr ⟨(Option.some.inj h).symm, by assumption⟩)
        · cases h
  refine ⟨⟨fun h => ?_, h0⟩, ⟨fun h => ?_, h1⟩, ⟨fun h => ?_, h2⟩, fun n h => ?_⟩
  · rcases hc _ h with h | h | h
    · exact h.2
    · exact absurd h.1 (by decide)
    · exact absurd h.1 (by decide)
  · rcases hc _ h with h | h | h
    · exact absurd h.1 (by decide)
    · exact h.2
    · exact absurd h.1 (by decide)
  · rcases hc _ h with h | h | h
    · exact absurd h.1 (by decide)
    · exact absurd h.1 (by decide)
    · exact h.2
  · rcases hc _ h with h | h | h
    · exact Or.inl h.1
    · exact Or.inr (Or.inl h.1)
    · exact Or.inr (Or.inr h.1)

example : overrideOf "higher".toList = some 1 ∧ overrideOf "maybe".toList = none := by decide

end Verif.Cmd.Mod
