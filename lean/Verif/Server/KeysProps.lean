import Verif.Server.Keys
import Verif.Server.GroupsProps

/-! # C35, C65, C66: job keys -/

namespace Verif.Server.Keys
open Verif.Server.Groups

/-- Specification: the jobs differ in exactly one of the things that identify a job: the command,
the directory (if it matters), the mounts, the image, or the container's mounts (if there is an
image). -/
inductive DifferInOne (a b : JobId) : Prop
  | cmd (h : a.cmd ≠ b.cmd) (h1 : a.cwdMatters = b.cwdMatters) (h2 : a.cwdMatters → a.cwd = b.cwd)
      (h3 : mountsKey a.mounts = mountsKey b.mounts) (h4 : image a = image b)
      (h5 : image a ≠ [] → a.containerMounts = b.containerMounts)
  | cwd (h : a.cwd ≠ b.cwd) (h0 : a.cmd = b.cmd) (h1 : a.cwdMatters = true)
      (h2 : b.cwdMatters = true) (h3 : mountsKey a.mounts = mountsKey b.mounts)
      (h4 : image a = image b) (h5 : image a ≠ [] → a.containerMounts = b.containerMounts)
  | matters (h : a.cwdMatters ≠ b.cwdMatters) (h0 : a.cmd = b.cmd)
      (h3 : mountsKey a.mounts = mountsKey b.mounts)
      (h4 : image a = image b) (h5 : image a ≠ [] → a.containerMounts = b.containerMounts)
  | mounts (h : mountsKey a.mounts ≠ mountsKey b.mounts) (h0 : a.cmd = b.cmd)
      (h1 : a.cwdMatters = b.cwdMatters) (h2 : a.cwdMatters → a.cwd = b.cwd)
      (h4 : image a = image b) (h5 : image a ≠ [] → a.containerMounts = b.containerMounts)
  | image (h : image a ≠ image b) (h0 : a.cmd = b.cmd)
      (h1 : a.cwdMatters = b.cwdMatters) (h2 : a.cwdMatters → a.cwd = b.cwd)
      (h3 : mountsKey a.mounts = mountsKey b.mounts)
      (h5 : a.containerMounts = b.containerMounts)
  | cmounts (h : a.containerMounts ≠ b.containerMounts) (h0 : a.cmd = b.cmd)
      (h1 : a.cwdMatters = b.cwdMatters) (h2 : a.cwdMatters → a.cwd = b.cwd)
      (h3 : mountsKey a.mounts = mountsKey b.mounts)
      (h4 : image a = image b) (h5 : image a ≠ [])

/-- Lists that are equal up to inserted text have equal lengths of it. -/
theorem no_insert {α : Type} (a b c : List α) (h : a ++ b ++ c = a ++ c) : b = [] := by
  have := congrArg List.length h
  simp only [List.length_append] at this
  exact List.eq_nil_of_length_eq_zero (by omega)

/-- **C35 (partial: jobs that differ in one respect).** Jobs that differ in exactly one of the
things that identify them are given different strings to hash. Missing: jobs that differ in
several; there it is false: `C35_violated_dir`, `C35_violated_image`. -/
theorem C35_partial (a b : JobId) (h : DifferInOne a b) : keyString a ≠ keyString b := by
  intro e
  unfold keyString at e
  cases h with
  | cmd h h1 h2 h3 h4 h5 =>
    rw [h3, ← h4, ← h1] at e
    by_cases hi : image a = []
    · cases hm : a.cwdMatters
      · simp [hi, hm] at e; exact h e
      · rw [h2 hm] at e; simp [hi, hm] at e; exact h e
    · rw [h5 hi] at e
      cases hm : a.cwdMatters
      · simp [hi, hm] at e; exact h e
      · rw [h2 hm] at e; simp [hi, hm] at e; exact h e
  | cwd h h0 h1 h2 h3 h4 h5 =>
    rw [h3, ← h4, h0, h1, h2] at e
    by_cases hi : image a = []
    · simp [hi] at e; exact h e
    · rw [h5 hi] at e; simp [hi] at e; exact h e
  | matters h h0 h3 h4 h5 =>
    rw [h3, ← h4, h0] at e
    have hl := congrArg List.length e
    by_cases hi : image a = []
    · cases hm : a.cwdMatters <;> cases hm' : b.cwdMatters <;>
        first
        | exact absurd (hm.trans hm'.symm) h
        | (simp [hi, hm, hm'] at hl; done)
        | (simp [hi, hm, hm'] at hl; omega)
    · rw [h5 hi] at hl
      cases hm : a.cwdMatters <;> cases hm' : b.cwdMatters <;>
        first
        | exact absurd (hm.trans hm'.symm) h
        | (simp [hi, hm, hm'] at hl; done)
        | (simp [hi, hm, hm'] at hl; omega)
  | mounts h h0 h1 h2 h4 h5 =>
    rw [← h4, ← h1, h0] at e
    by_cases hi : image a = []
    · cases hm : a.cwdMatters
      · simp [hi, hm] at e; exact h e
      · rw [h2 hm] at e; simp [hi, hm] at e; exact h e
    · rw [h5 hi] at e
      cases hm : a.cwdMatters
      · simp [hi, hm] at e; exact h e
      · rw [h2 hm] at e; simp [hi, hm] at e; exact h e
  | image h h0 h1 h2 h3 h5 =>
    rw [h3, ← h1, h0, h5] at e
    have key : ∀ c : Str, (if image a ≠ [] then c ++ '.' :: (image a ++ '.' :: b.containerMounts)
        else c) = (if image b ≠ [] then c ++ '.' :: (image b ++ '.' :: b.containerMounts) else c) →
        False := by
      intro c e
      by_cases hi : image a = [] <;> by_cases hi' : image b = []
      · exact h (by rw [hi, hi'])
      · simp [hi, hi'] at e
      · simp [hi, hi'] at e
      · simp [hi, hi'] at e; exact h e
    cases hm : a.cwdMatters
    · simp only [hm] at e; exact key _ e
    · simp only [hm, h2 hm] at e; exact key _ e
  | cmounts h h0 h1 h2 h3 h4 h5 =>
    rw [h3, ← h4, ← h1, h0] at e
    cases hm : a.cwdMatters
    · simp [h5, hm] at e; exact h e
    · rw [h2 hm] at e; simp [h5, hm] at e; exact h e

example : DifferInOne
    ⟨"ls".toList, "/a".toList, true, [], [], [], []⟩ ⟨"ps".toList, "/a".toList, true, [], [], [], []⟩ :=
  .cmd (by decide) rfl (fun _ => rfl) rfl rfl (fun _ => rfl)

/-- **C35 is violated**: command `b.c` in directory `/a` has the key of command `c` in directory
`/a.b`. -/
theorem C35_violated_dir :
    keyString ⟨"b.c".toList, "/a".toList, true, [], [], [], []⟩ =
    keyString ⟨"c".toList, "/a.b".toList, true, [], [], [], []⟩ := by decide

/-- **C35 is violated**: a command run in a container has the key of another one run without. -/
theorem C35_violated_image :
    keyString ⟨"x".toList, [], false, [], "i".toList, [], []⟩ =
    keyString ⟨"x..docker:i".toList, [], false, [], [], [], []⟩ := by decide

/-! ## C65: an essence finds its job -/

/-- **C65 (partial: jobs without container image whose directory, if it matters, is given).** The
essence made of the job's command, directory (if it matters) and mounts has the key of the job.
Missing: jobs in containers (`C65_violated`). -/
theorem C65_partial (j : JobId) (hi : j.docker = [] ∧ j.singularity = [])
    (hc : j.cwdMatters = true → j.cwd ≠ []) :
    essenceString ⟨j.cmd, if j.cwdMatters then j.cwd else [], j.mounts⟩ = keyString j := by
  unfold essenceString keyString image
  cases hm : j.cwdMatters
  · simp [hi]
  · simp [hi, hc hm]

example : essenceString ⟨"ls".toList, [], []⟩ =
    keyString ⟨"ls".toList, "/tmp".toList, false, [], [], [], []⟩ := by decide

/-- **C65 is violated**: no essence with the job's command finds a job that is run in a container,
whatever the directory and mounts given, unless these spell the image. Here: the essence of the
same command and mounts. -/
theorem C65_violated (j : JobId) (hi : j.docker ≠ []) (hm : j.cwdMatters = false) :
    essenceString ⟨j.cmd, [], j.mounts⟩ ≠ keyString j := by
  intro e
  have hl := congrArg List.length e
  have : image j ≠ [] := by simp [image, hi]
  simp [essenceString, keyString, hm, this] at hl

example : essenceString ⟨"ls".toList, [], []⟩ ≠
    keyString ⟨"ls".toList, "/tmp".toList, false, [], "i".toList, [], []⟩ := by decide

/-! ## C66: the order of mounts does not matter -/

theorem mem_insertM {v x : Mount} : ∀ {l : List Mount}, x ∈ insertM v l ↔ x = v ∨ x ∈ l
  | [] => by simp [insertM]
  | w :: ws => by
    simp only [insertM]
    split
    · simp only [List.mem_cons, mem_insertM (l := ws)]
      constructor
      · rintro (h | h | h) <;> simp [h]
      · rintro (h | h | h) <;> simp [h]
    · simp

/-- Ascending mount points. -/
def AscM : List Mount → Prop := List.Pairwise fun a b => strLt a.mount b.mount = true

theorem insertM_asc {v : Mount} : ∀ {l : List Mount}, AscM l → (∀ w ∈ l, w.mount ≠ v.mount) →
    AscM (insertM v l)
  | [], _, _ => by simp [insertM, AscM]
  | w :: ws, h, hv => by
    simp only [insertM]
    have h' := List.pairwise_cons.mp h
    split
    · rename_i hw
      refine List.pairwise_cons.mpr ⟨?_, insertM_asc h'.2 fun x hx => hv x (by simp [hx])⟩
      intro x hx
      rcases mem_insertM.mp hx with rfl | hx
      · exact hw
      · exact h'.1 x hx
    · rename_i hw
      have hvw := strLt_total (hv w (by simp)) (by simpa using hw)
      refine List.pairwise_cons.mpr ⟨?_, h⟩
      intro x hx
      rcases List.mem_cons.mp hx with rfl | hx
      · exact hvw
      · exact strLt_trans hvw (h'.1 x hx)

theorem mem_sortM {x : Mount} : ∀ {l : List Mount}, x ∈ sortM l ↔ x ∈ l
  | [] => by simp [sortM]
  | v :: vs => by simp [sortM, mem_insertM, mem_sortM (l := vs)]

theorem sortM_asc : ∀ {l : List Mount}, l.Pairwise (fun a b => a.mount ≠ b.mount) → AscM (sortM l)
  | [], _ => by simp [sortM, AscM]
  | v :: vs, h => by
    have h' := List.pairwise_cons.mp h
    exact insertM_asc (sortM_asc h'.2) fun w hw => (h'.1 w (mem_sortM.mp hw)).symm

theorem ascM_unique : ∀ (a b : List Mount), AscM a → AscM b → (∀ n, n ∈ a ↔ n ∈ b) → a = b := by
  intro a
  induction a with
  | nil =>
    intro b _ _ h
    cases b with
    | nil => rfl
    | cons y b => exact absurd ((h y).mpr (by simp)) (by simp)
  | cons x a ih =>
    intro b ha hb h
    cases b with
    | nil => exact absurd ((h x).mp (by simp)) (by simp)
    | cons y b =>
      have ha' := List.pairwise_cons.mp ha
      have hb' := List.pairwise_cons.mp hb
      have hxy : x = y := by
        rcases List.mem_cons.mp ((h x).mp (by simp)) with e | hx
        · exact e
        · rcases List.mem_cons.mp ((h y).mpr (by simp)) with e | hy
          · exact e.symm
          · have := strLt_trans (ha'.1 y hy) (hb'.1 x hx)
            rw [strLt_irrefl] at this; cases this
      subst hxy
      congr 1
      apply ih b ha'.2 hb'.2
      intro n
      constructor
      · intro hn
        rcases List.mem_cons.mp ((h n).mp (List.mem_cons_of_mem _ hn)) with e | hn'
        · subst e; have := ha'.1 n hn; rw [strLt_irrefl] at this; cases this
        · exact hn'
      · intro hn
        rcases List.mem_cons.mp ((h n).mpr (List.mem_cons_of_mem _ hn)) with e | hn'
        · subst e; have := hb'.1 n hn; rw [strLt_irrefl] at this; cases this
        · exact hn'

/-- **C66.** The key does not depend on the order in which mounts at different places are given,
nor on whether the default profile is named. -/
theorem C66_order (a b : List Mount) (hp : a.Perm b)
    (hd : a.Pairwise fun x y => x.mount ≠ y.mount) : mountsKey a = mountsKey b := by
  have hb : b.Pairwise fun x y => x.mount ≠ y.mount := hp.pairwise hd (fun h => Ne.symm h)
  unfold mountsKey
  rw [ascM_unique (sortM a) (sortM b) (sortM_asc hd) (sortM_asc hb)
    fun n => by rw [mem_sortM, mem_sortM, hp.mem_iff]]

/-- **C66, defaults.** A target without profile is the same as one with profile "default". -/
theorem C66_default (p : Str) : targetKey ⟨[], p⟩ = targetKey ⟨"default".toList, p⟩ := rfl

/-- **C66, targets.** What is different in where mounts are, or in the paths of a single target,
gives different keys, as long as the mount point has no colon in it. -/
theorem C66_differ (m m' p p' pr : Str) (hm : m ≠ []) (hm' : m' ≠ []) (hc : ':' ∉ m)
    (hc' : ':' ∉ m') (h : m ≠ m' ∨ p ≠ p') :
    mountsKey [⟨m, [⟨pr, p⟩]⟩] ≠ mountsKey [⟨m', [⟨pr, p'⟩]⟩] := by
  intro e
  simp only [mountsKey, sortM, insertM, List.map_cons, List.map_nil, List.flatten_cons,
    List.flatten_nil, List.append_nil, mountKey, hm, hm', if_false, targetKey] at e
  have e1 := congrArg (Verif.Util.split ':') e
  rw [Verif.Util.split_append _ _ _ hc, Verif.Util.split_append _ _ _ hc'] at e1
  have e2 : m = m' := (List.cons.inj e1).1
  subst e2
  simp at e
  exact h.elim (fun h => h rfl) fun h => h e

/-- C66, the default mount point (partial: a job with one mount). The point "mnt" may be given or left out. -/
theorem C66_mnt_partial (ts : List Target) : mountsKey [⟨[], ts⟩] = mountsKey [⟨"mnt".toList, ts⟩] := rfl

/-- C66 is violated: with a second mount, giving the default mount point "mnt" changes the key, as the mounts are sorted before the default is
filled in. -/
theorem C66_violated_mnt : ∃ m : Mount, mountsKey [m, ⟨[], [⟨[], "x".toList⟩]⟩] ≠ mountsKey [m, ⟨"mnt".toList, [⟨[], "x".toList⟩]⟩] :=
  ⟨⟨"a".toList, [⟨[], "y".toList⟩]⟩, by decide +kernel⟩

/-- C66 is violated: mounts that differ have the same key if a path has a semicolon in it. -/
theorem C66_violated_differ : ∃ a b : List Target, a ≠ b ∧ mountsKey [⟨"m".toList, a⟩] = mountsKey [⟨"m".toList, b⟩] :=
  ⟨[⟨[], "x".toList⟩, ⟨[], "y".toList⟩], [⟨[], "x;default-y".toList⟩], by decide +kernel, by decide +kernel⟩

example : mountsKey [⟨"b".toList, [⟨[], "x".toList⟩]⟩, ⟨"a".toList, []⟩] =
    "a:b:default-x;".toList := by decide

end Verif.Server.Keys
