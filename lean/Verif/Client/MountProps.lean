import Verif.Client.Mount
/-!
# C104: the remote file systems of a job
-/
namespace Verif.Client.Mount

/-! ## Specification, after the comments of jobqueue/mount.go:31-133 and job.go:577-596 -/
namespace Spec

/-- the elements of two lists are related one by one -/
inductive Each (R : α → β → Prop) : List α → List β → Prop
  | nil : Each R [] []
  | cons : R a b → Each R as bs → Each R (a :: as) (b :: bs)

/-- the directory the command of the job is in -/
def Work (j : Job) (p : Path) : Prop := (j.actualCwd ≠ .empty ∧ p = j.actualCwd) ∨ (j.actualCwd = .empty ∧ p = j.cwd)

/-- where a configuration is mounted -/
inductive Place (j : Job) (onCwd : Bool) (c : Config) : Path → Prop
  | given : c.mount.abs = true → Place j onCwd c c.mount
  | within : c.mount.abs = false → c.mount ≠ .empty → Work j w → Place j onCwd c (w.join c.mount)
  | actual : c.mount = .empty → j.actualCwd ≠ .empty → Place j onCwd c j.actualCwd
  | onCwd : c.mount = .empty → j.actualCwd = .empty → onCwd = true → Place j onCwd c j.cwd
  | mnt : c.mount = .empty → j.actualCwd = .empty → onCwd = false → Place j onCwd c (j.cwd.join ⟨false, ["mnt"]⟩)

/-- the directory for caches if a configuration names none -/
inductive Default (j : Job) (onCwd : Bool) : Path → Prop
  | actual : j.actualCwd ≠ .empty → Default j onCwd j.actualCwd.dir
  | onCwd : j.actualCwd = .empty → onCwd = true → Default j onCwd j.cwd.dir
  | cwd : j.actualCwd = .empty → onCwd = false → Default j onCwd j.cwd

/-- the directory for caches of a configuration -/
inductive Base (j : Job) (onCwd : Bool) (c : Config) : Path → Prop
  | given : c.cacheBase.abs = true → Base j onCwd c c.cacheBase
  | within : c.cacheBase.abs = false → c.cacheBase ≠ .empty → Work j w → Base j onCwd c (w.join c.cacheBase)
  | default : c.cacheBase = .empty → Default j onCwd p → Base j onCwd c p

/-- a cache directory is relative -/
def Relative (p : Path) : Prop := p.abs = false ∧ p ≠ .empty

/-- what is mounted for a target; the cache directory of a configuration with a base of its own is left open -/
def Shows (j : Job) (onCwd : Bool) (c : Config) (t : Target) (r : Remote) : Prop :=
  r.profile = t.profile ∧ r.path = t.path ∧ r.cacheData = t.cache ∧ r.write = t.write ∧
  (¬ Relative t.cacheDir → r.cacheDir = t.cacheDir) ∧
  (Relative t.cacheDir → c.cacheBase = .empty → ∃ b, Base j onCwd c b ∧ r.cacheDir = b.join t.cacheDir)

/-- a file system is what a configuration asks for -/
def Asked (j : Job) (onCwd : Bool) (c : Config) (f : Fs) : Prop :=
  Place j onCwd c f.mount ∧ Base j onCwd c f.cacheBase ∧ f.verbose = c.verbose ∧
  (0 < c.retries → f.retries = c.retries) ∧ (c.retries ≤ 0 → f.retries = 10) ∧
  c.targets ≠ [] ∧ Each (Shows j onCwd c) c.targets f.remotes

/-- in an event, the unmount of a file system would fail -/
def Fails (f : Fs) : Ev → Prop
  | .mount _ e => e.unmount f = false
  | .unmount _ e => e.unmount f = false

end Spec

/-! ## Lemmas -/

theorem default_ok (j : Job) (o : Bool) : Spec.Default j o (defaults j o).2.2 := by
  unfold defaults
  by_cases h : j.actualCwd = .empty
  · cases o
    · simpa [h] using Spec.Default.cwd h rfl
    · simpa [h] using Spec.Default.onCwd h rfl
  · simpa [h] using Spec.Default.actual h

theorem work_ok (j : Job) (o : Bool) : Spec.Work j (defaults j o).1 := by
  unfold defaults
  by_cases h : j.actualCwd = .empty
  · cases o <;> simp [h, Spec.Work]
  · simp [h, Spec.Work]

theorem place_ok (j : Job) (o : Bool) (c : Config) :
    Spec.Place j o c (mountPoint (defaults j o).1 (defaults j o).2.1 c).1 ∧
    ((mountPoint (defaults j o).1 (defaults j o).2.1 c).2 = true ↔ c.mount.abs = false) := by
  unfold mountPoint
  by_cases h : c.mount = .empty
  · rw [if_neg (by simpa using h)]
    refine ⟨?_, by simp [h, Path.empty]⟩
    unfold defaults
    by_cases ha : j.actualCwd = .empty
    · cases o
      · simpa [ha] using Spec.Place.mnt h ha rfl
      · simpa [ha] using Spec.Place.onCwd h ha rfl
    · simpa [ha] using Spec.Place.actual h ha
  · rw [if_pos h]
    cases hab : c.mount.abs
    · exact ⟨by simpa using Spec.Place.within hab h (work_ok j o), by simp⟩
    · exact ⟨by simpa using Spec.Place.given hab, by simp⟩

theorem base_ok (j : Job) (o : Bool) (c : Config) :
    Spec.Base j o c (cacheBase (defaults j o).1 (defaults j o).2.2 c) := by
  unfold cacheBase
  by_cases h : c.cacheBase = .empty
  · rw [if_neg (by simpa using h)]; exact .default h (default_ok j o)
  · rw [if_pos h]
    cases hab : c.cacheBase.abs
    · simpa using Spec.Base.within hab h (work_ok j o)
    · simpa using Spec.Base.given hab

/-- the cache directories of targets that are relative -/
def relDirs (base : Path) (ts : List Target) : List Path :=
  ts.filterMap fun t => if t.cacheDir ≠ .empty ∧ t.cacheDir.abs = false then some (base.join t.cacheDir) else none

theorem targets_ok (e : Env) (j : Job) (o : Bool) (c : Config) (i : Nat) : ∀ (ts : List Target) (k : Nat) (d : Dirs) (rs : List Remote),
    (targets e (defaults j o).2.2 i k ts d).1 = some rs →
    Spec.Each (Spec.Shows j o c) ts rs ∧
    (targets e (defaults j o).2.2 i k ts d).2 = { d with cache := d.cache ++ relDirs (defaults j o).2.2 ts }
  | [], k, d, rs, h => by
    simp only [targets, Option.some.injEq] at h; subst h
    exact ⟨.nil, by simp [targets, relDirs]⟩
  | t :: ts, k, d, rs, h => by
    unfold targets at h ⊢
    by_cases ha : e.accessor i k = true
    · rw [if_pos ha] at h ⊢
      simp only [Option.map_eq_some_iff] at h
      obtain ⟨rs', h', rfl⟩ := h
      obtain ⟨i1, i2⟩ := targets_ok e j o c i ts (k + 1) _ rs' h'
      refine ⟨.cons ⟨rfl, rfl, rfl, rfl, ?_, ?_⟩ i1, ?_⟩
      · intro hr
        rw [if_neg (fun hc => hr ⟨hc.2, hc.1⟩)]
      · intro hr hb
        exact ⟨_, .default hb (default_ok j o), by rw [if_pos ⟨hr.2, hr.1⟩]⟩
      · simp only [i2]
        by_cases hr : t.cacheDir ≠ .empty ∧ t.cacheDir.abs = false
        · simp [hr, relDirs]
        · simp [hr, relDirs]
    · rw [if_neg ha] at h; cases h

theorem unmountAll_ok (n : Bool) (e : Env) : ∀ (l : List Fs) (s : S),
    (unmountAll n e l s).1 = l.filter (fun f => e.unmount f = false) ∧
    (unmountAll n e l s).2.up = s.up.filter (fun f => ¬ (f ∈ l ∧ e.unmount f = true)) ∧
    (unmountAll n e l s).2.uploaded = (if n then s.uploaded else s.uploaded ++ l.filter (fun f => e.unmount f = true)) ∧
    (unmountAll n e l s).2.tracked = s.tracked ∧ (unmountAll n e l s).2.next = s.next ∧
    (unmountAll n e l s).2.watchers = s.watchers ∧ (unmountAll n e l s).2.crashed = s.crashed
  | [], s => by
    refine ⟨rfl, ?_, ?_, rfl, rfl, rfl, rfl⟩
    · simp only [unmountAll, List.not_mem_nil, false_and, not_false_eq_true, decide_true]
      exact (List.filter_eq_self.2 fun _ _ => rfl).symm
    · cases n <;> simp [unmountAll]
  | f :: fs, s => by
    by_cases h : e.unmount f = true
    · simp only [unmountAll, h, if_true]
      obtain ⟨h1, h2, h3, h4, h5, h6, h7⟩ := unmountAll_ok n e fs { s with
        up := s.up.filter (· ≠ f), uploaded := if n then s.uploaded else s.uploaded ++ [f] }
      refine ⟨by rw [h1]; simp [h], ?_, ?_, h4, h5, h6, h7⟩
      · rw [h2]
        simp only [List.filter_filter]
        apply List.filter_congr
        intro x _
        by_cases hx : x = f
        · subst hx; simp [h]
        · simp [hx]
      · rw [h3]; cases n <;> simp [h]
    · simp only [unmountAll, h]
      obtain ⟨h1, h2, h3, h4, h5, h6, h7⟩ := unmountAll_ok n e fs s
      refine ⟨?_, ?_, ?_, h4, h5, h6, h7⟩
      · simp [h1, h]
      · simp only [Bool.false_eq_true, if_false]
        rw [h2]
        apply List.filter_congr
        intro x _
        by_cases hx : x = f
        · subst hx; simp [h]
        · simp [hx]
      · simp only [Bool.false_eq_true, if_false]
        rw [h3]; cases n <;> simp [h]

theorem mounts_ok (e : Env) (j : Job) (o : Bool) : ∀ (cs : List Config) (i : Nat) (d : Dirs) (s : S),
    (mounts e (defaults j o) i cs d s).1 = false →
    ∃ new, Spec.Each (Spec.Asked j o) cs new ∧
      (mounts e (defaults j o) i cs d s).2.2 = { s with tracked := s.tracked ++ new, up := s.up ++ new, next := s.next + new.length } ∧
      (mounts e (defaults j o) i cs d s).2.1.cache = d.cache ++ cs.flatMap (fun c => relDirs (defaults j o).2.2 c.targets) ∧
      (mounts e (defaults j o) i cs d s).2.1.mounted = d.mounted ++
        cs.filterMap (fun c => if c.mount.abs then none else some (mountPoint (defaults j o).1 (defaults j o).2.1 c).1)
  | [], i, d, s, _ => ⟨[], .nil, by simp [mounts], by simp [mounts], by simp [mounts]⟩
  | c :: cs, i, d, s, h => by
    unfold mounts at h ⊢
    rcases ht : (targets e (defaults j o).2.2 i 0 c.targets d).1 with _ | rs
    · simp only [ht] at h; cases h
    · obtain ⟨t1, t2⟩ := targets_ok e j o c i c.targets 0 d rs ht
      simp only [ht] at h ⊢
      by_cases he : rs.isEmpty = true
      · rw [if_pos he] at h; cases h
      · rw [if_neg he] at h ⊢
        by_cases hm : (e.new i && e.mount i) = true
        · rw [if_pos hm] at h ⊢
          obtain ⟨new, n1, n2, n3, n4⟩ := mounts_ok e j o cs (i + 1) _ _ h
          refine ⟨⟨s.next, (mountPoint (defaults j o).1 (defaults j o).2.1 c).1, cacheBase (defaults j o).1 (defaults j o).2.2 c,
            if c.retries > 0 then c.retries else 10, c.verbose, rs⟩ :: new, .cons ?_ n1, ?_, ?_, ?_⟩
          rotate_left
          · rw [n2]
            simp only [List.append_assoc, List.singleton_append, List.length_cons, S.mk.injEq, true_and]
            exact ⟨by omega, trivial⟩
          · rw [n3, t2]
            split <;> simp
          · rw [n4, t2]
            have hp := (place_ok j o c).2
            cases hab : c.mount.abs
            · rw [hp.2 hab]; simp [hab]
            · have : (mountPoint (defaults j o).1 (defaults j o).2.1 c).2 = false := by
                cases hq : (mountPoint (defaults j o).1 (defaults j o).2.1 c).2
                · rfl
                · exact absurd (hp.1 hq) (by simp [hab])
              rw [this]; simp [hab]
          · refine ⟨(place_ok j o c).1, base_ok j o c, rfl, fun hr => ?_, fun hr => ?_, ?_, t1⟩
            · simp [hr]
            · simp [Int.not_lt.2 hr]
            · intro hnil
              rw [hnil] at t1
              cases t1
              simp at he
        · rw [if_neg hm] at h; cases h

/-- when an error comes, all that is tracked is unmounted -/
theorem mounts_err (e : Env) (df : Path × Path × Path) : ∀ (cs : List Config) (i : Nat) (d : Dirs) (s : S),
    (mounts e df i cs d s).1 = true →
    ∃ new n, (mounts e df i cs d s).2.2 = (unmount false e { s with tracked := s.tracked ++ new, up := s.up ++ new, next := n }).2
  | [], i, d, s, h => by simp [mounts] at h
  | c :: cs, i, d, s, h => by
    unfold mounts at h ⊢
    rcases ht : (targets e df.2.2 i 0 c.targets d).1 with _ | rs
    · exact ⟨[], s.next, by simp only [ht, List.append_nil]⟩
    · simp only [ht] at h ⊢
      by_cases he : rs.isEmpty = true
      · rw [if_pos he]; exact ⟨[], s.next, by simp⟩
      · rw [if_neg he] at h ⊢
        by_cases hm : (e.new i && e.mount i) = true
        · rw [if_pos hm] at h ⊢
          obtain ⟨new, n, h'⟩ := mounts_err e df cs (i + 1) _ _ h
          rw [h']
          exact ⟨_ ++ new, n, by simp only [List.append_assoc]; rfl⟩
        · rw [if_neg hm]; exact ⟨[], s.next, by simp⟩

theorem mount_cases (o : Bool) (e : Env) (j : Job) (s : S) :
    (∃ new n w, (mount o e j s).2.2 = { s with tracked := s.tracked ++ new, up := s.up ++ new, next := n, watchers := w }) ∨
    ((mount o e j s).1 = true ∧ ∃ new n, (mount o e j s).2.2 = (unmount false e { s with tracked := s.tracked ++ new, up := s.up ++ new, next := n }).2) := by
  unfold mount
  by_cases h : (mounts e (defaults j o) 0 j.configs {} s).1 = true
  · simp only [h, if_true]
    exact .inr ⟨trivial, mounts_err e _ _ _ _ _ h⟩
  · have h' : (mounts e (defaults j o) 0 j.configs {} s).1 = false := by simpa using h
    obtain ⟨new, _, h2, _⟩ := mounts_ok e j o _ _ _ _ h'
    simp only [h', Bool.false_eq_true, if_false]
    split
    · exact .inl ⟨new, _, s.watchers, h2⟩
    · exact .inl ⟨new, _, s.watchers + 1, by rw [h2]⟩

/-! ## Theorems -/

/-- C104, if `Mount` returns no error: each configuration of the job, in order, is mounted as it asks for, nothing else is,
and all of them will be unmounted by the next `Unmount`. -/
theorem C104_all (o : Bool) (e : Env) (j : Job) (s : S) (h : (mount o e j s).1 = false) :
    ∃ new, Spec.Each (Spec.Asked j o) j.configs new ∧ (mount o e j s).2.2.up = s.up ++ new ∧
      (mount o e j s).2.2.tracked = s.tracked ++ new := by
  unfold mount at h ⊢
  by_cases hm : (mounts e (defaults j o) 0 j.configs {} s).1 = true
  · simp only [hm, if_true] at h; cases h
  · have h' : (mounts e (defaults j o) 0 j.configs {} s).1 = false := by simpa using hm
    obtain ⟨new, h1, h2, _⟩ := mounts_ok e j o _ _ _ _ h'
    refine ⟨new, h1, ?_⟩
    simp only [h', Bool.false_eq_true, if_false]
    split <;> rw [h2] <;> exact ⟨rfl, rfl⟩

/-- a job with two configurations, one of them with two targets -/
def sample : Job := { cwd := ⟨true, ["home"]⟩, configs :=
  [{ targets := [{ path := "a", cacheDir := ⟨false, ["c"]⟩ }, { path := "b", write := true }] },
   { mount := ⟨false, ["x"]⟩, retries := 3, targets := [{ path := "d" }] }] }

example : (mount false {} sample {}).1 = false ∧
    (mount false {} sample {}).2.2.up.map (·.mount) = [⟨true, ["home", "mnt"]⟩, ⟨true, ["home", "x"]⟩] := by decide

/-- C104, the directories `Mount` returns without an error: those mounted in the working directory (or by default), and the
cache directories given as relative paths. -/
theorem C104_dirs (o : Bool) (e : Env) (j : Job) (s : S) (h : (mount o e j s).1 = false) :
    (∀ p, p ∈ (mount o e j s).2.1.mounted → ∃ c ∈ j.configs, c.mount.abs = false ∧ Spec.Place j o c p) ∧
    (∀ c ∈ j.configs, c.mount.abs = false → ∃ p ∈ (mount o e j s).2.1.mounted, Spec.Place j o c p) ∧
    (∀ p, p ∈ (mount o e j s).2.1.cache ↔ ∃ c ∈ j.configs, ∃ t ∈ c.targets, ∃ b,
      Spec.Relative t.cacheDir ∧ Spec.Default j o b ∧ p = b.join t.cacheDir) := by
  have hd : ∀ b, Spec.Default j o b → b = (defaults j o).2.2 := by
    intro b hb
    unfold defaults
    cases hb with
    | actual h => simp [h]
    | onCwd h h' => simp [h, h']
    | cwd h h' => simp [h, h']
  unfold mount at h ⊢
  by_cases hm : (mounts e (defaults j o) 0 j.configs {} s).1 = true
  · simp only [hm, if_true] at h; cases h
  · have h' : (mounts e (defaults j o) 0 j.configs {} s).1 = false := by simpa using hm
    obtain ⟨new, _, _, h3, h4⟩ := mounts_ok e j o _ _ _ _ h'
    simp only [h', Bool.false_eq_true, if_false]
    have key : ∀ (r : Bool × Dirs × S), r.2.1 = (mounts e (defaults j o) 0 j.configs {} s).2.1 →
      (∀ p, p ∈ r.2.1.mounted → ∃ c ∈ j.configs, c.mount.abs = false ∧ Spec.Place j o c p) ∧
      (∀ c ∈ j.configs, c.mount.abs = false → ∃ p ∈ r.2.1.mounted, Spec.Place j o c p) ∧
      (∀ p, p ∈ r.2.1.cache ↔ ∃ c ∈ j.configs, ∃ t ∈ c.targets, ∃ b,
        Spec.Relative t.cacheDir ∧ Spec.Default j o b ∧ p = b.join t.cacheDir) := by
      intro r hr
      rw [hr, h3, h4]
      refine ⟨?_, ?_, ?_⟩
      · intro p hp
        simp only [List.nil_append, List.mem_filterMap] at hp
        obtain ⟨c, hc, hp⟩ := hp
        cases hab : c.mount.abs
        · simp only [hab, Bool.false_eq_true, if_false, Option.some.injEq] at hp
          exact ⟨c, hc, hab, hp ▸ (place_ok j o c).1⟩
        · simp [hab] at hp
      · intro c hc hab
        refine ⟨_, ?_, (place_ok j o c).1⟩
        simp only [List.nil_append, List.mem_filterMap]
        exact ⟨c, hc, by simp [hab]⟩
      · intro p
        simp only [List.nil_append, List.mem_flatMap, relDirs, List.mem_filterMap, Option.ite_none_right_eq_some, Option.some.injEq]
        constructor
        · rintro ⟨c, hc, t, ht, ⟨h1, h2⟩, rfl⟩
          exact ⟨c, hc, t, ht, _, ⟨h2, h1⟩, default_ok j o, rfl⟩
        · rintro ⟨c, hc, t, ht, b, ⟨h2, h1⟩, hb, rfl⟩
          exact ⟨c, hc, t, ht, ⟨h1, h2⟩, by rw [hd b hb]⟩
    split <;> exact key _ rfl

example : (mount false {} sample {}).2.1 = ⟨[⟨true, ["home", "c"]⟩], [⟨true, ["home", "mnt"]⟩, ⟨true, ["home", "x"]⟩]⟩ := by decide

theorem C104_up_tracked {j : Job} (es : List Ev) : ∀ f ∈ (run j {} es).up, f ∈ (run j {} es).tracked ∨ ∃ ev ∈ es, Spec.Fails f ev := by
  suffices h : ∀ (es : List Ev) (s : S), ∀ f ∈ (run j s es).up, f ∈ (run j s es).tracked ∨ (∃ ev ∈ es, Spec.Fails f ev) ∨ (f ∈ s.up ∧ f ∉ s.tracked) by
    intro f hf
    rcases h es {} f hf with h | h | h
    · exact .inl h
    · exact .inr h
    · simp at h
  have un : ∀ (n : Bool) (e : Env) (s : S), ∀ f ∈ (unmount n e s).2.up, e.unmount f = false ∨ (f ∈ s.up ∧ f ∉ s.tracked) := by
    intro n e s f hf
    have := (unmountAll_ok n e s.tracked s).2.1
    simp only [unmount] at hf
    rw [this] at hf
    simp only [List.mem_filter, decide_eq_true_eq, not_and, Bool.not_eq_true] at hf
    by_cases ht : f ∈ s.tracked
    · exact .inl (hf.2 ht)
    · exact .inr ⟨hf.1, ht⟩
  intro es
  induction es with
  | nil =>
    intro s f hf
    by_cases ht : f ∈ s.tracked
    · exact .inl ht
    · exact .inr (.inr ⟨hf, ht⟩)
  | cons ev es ih =>
    intro s f hf
    rcases ih (step j s ev) f hf with h | ⟨ev', h1, h2⟩ | ⟨h1, h2⟩
    · exact .inl h
    · exact .inr (.inl ⟨ev', List.mem_cons_of_mem _ h1, h2⟩)
    · right
      cases ev with
      | unmount n e =>
        rcases un n e s f h1 with h | h
        · exact .inl ⟨_, List.mem_cons_self, h⟩
        · exact .inr h
      | mount o e =>
        simp only [step] at h1 h2
        rcases mount_cases o e j s with ⟨new, n, w, hq⟩ | ⟨_, new, n, hq⟩
        · rw [hq] at h1 h2
          simp only [List.mem_append, not_or] at h1 h2
          rcases h1 with h1 | h1
          · exact .inr ⟨h1, h2.1⟩
          · exact absurd h1 h2.2
        · rw [hq] at h1
          rcases un false e _ f h1 with h | ⟨h, h'⟩
          · exact .inl ⟨_, List.mem_cons_self, h⟩
          · simp only [List.mem_append, not_or] at h h'
            rcases h with h | h
            · exact .inr ⟨h, h'.1⟩
            · exact absurd h h'.2

/-- C104, if no unmount fails: whatever calls of `Mount` and `Unmount` were made before, once `Mount` has returned an error
nothing of the job is mounted any more, also not what was mounted before. Missing: an unmount that fails. -/
theorem C104_none_partial (j : Job) (es : List Ev) (o : Bool) (e : Env) (hf : ∀ f, ∀ ev ∈ es, ¬ Spec.Fails f ev)
    (he : ∀ f, e.unmount f = true) (h : (mount o e j (run j {} es)).1 = true) : (mount o e j (run j {} es)).2.2.up = [] := by
  have hu : ∀ es : List Ev, (∀ f, ∀ ev ∈ es, ¬ Spec.Fails f ev) → ∀ f ∈ (run j {} es).up, f ∈ (run j {} es).tracked := fun es hes f hm =>
    (C104_up_tracked es f hm).resolve_right fun ⟨ev, h1, h2⟩ => hes f ev h1 h2
  have hrun : (mount o e j (run j {} es)).2.2 = run j {} (es ++ [.mount o e]) := by simp [run, step]
  rw [hrun]
  apply List.eq_nil_iff_forall_not_mem.2
  intro f hm
  have := hu (es ++ [.mount o e]) (fun f ev hev => by
    rcases List.mem_append.1 hev with h' | h'
    · exact hf f ev h'
    · simp only [List.mem_singleton] at h'; subst h'; simp [Spec.Fails, he f]) f hm
  rw [← hrun] at this
  unfold mount at h this
  by_cases hc : (mounts e (defaults j o) 0 j.configs {} (run j {} es)).1 = true
  · simp only [hc, if_true] at this
    obtain ⟨new, n, hq⟩ := mounts_err e _ _ _ _ _ hc
    rw [hq] at this
    simp [unmount] at this
  · simp only [hc, Bool.false_eq_true, if_false] at h
    split at h
    · exact absurd h hc
    · cases h

/-- the second configuration cannot be mounted: the first is unmounted again -/
example : (mount false { mount := fun i => i = 0 } sample {}).1 = true ∧ (mount false { mount := fun i => i = 0 } sample {}).2.2.up = [] := by
  decide

/-- C104, `Unmount`: all that is tracked and whose unmount works is unmounted, also if that of another fails; there is an
error if and only if one fails; and files are uploaded if and only if uploads are not stopped. -/
theorem C104_unmount (n : Bool) (e : Env) (s : S) :
    ((unmount n e s).1 = true ↔ ∃ f ∈ s.tracked, e.unmount f = false) ∧
    (∀ f, f ∈ (unmount n e s).2.up ↔ f ∈ s.up ∧ (f ∈ s.tracked → e.unmount f = false)) ∧
    (n = true → (unmount n e s).2.uploaded = s.uploaded) ∧
    (n = false → ∀ f ∈ s.tracked, e.unmount f = true → f ∈ (unmount n e s).2.uploaded) := by
  obtain ⟨h1, h2, h3, _⟩ := unmountAll_ok n e s.tracked s
  refine ⟨?_, ?_, ?_, ?_⟩
  · simp only [unmount, h1, Bool.not_eq_true', ← Bool.not_eq_true, List.isEmpty_iff, List.filter_eq_nil_iff]
    simp
  · intro f; show f ∈ (unmountAll n e s.tracked s).2.up ↔ _; rw [h2, List.mem_filter]; simp only [decide_eq_true_eq, not_and, Bool.not_eq_true]
  · intro hn; show (unmountAll n e s.tracked s).2.uploaded = _; rw [h3, if_pos hn]
  · intro hn f hf hu; show f ∈ (unmountAll n e s.tracked s).2.uploaded; rw [h3, hn]; simp [hf, hu]

/-- one file system cannot be unmounted, the others are -/
example : let s := (mount false {} sample {}).2.2
    s.up.length = 2 ∧ (unmount false { unmount := fun f => f.id = 1 } s).2.up.map (·.id) = [0] := by decide

/-- C104: after calls of `Mount` and `Unmount` in any order, in which no unmount failed, an `Unmount` that works leaves nothing
mounted. -/
theorem C104_after (j : Job) (es : List Ev) (n : Bool) (e : Env) (hf : ∀ f, ∀ ev ∈ es, ¬ Spec.Fails f ev)
    (h : (unmount n e (run j {} es)).1 = false) : (unmount n e (run j {} es)).2.up = [] := by
  apply List.eq_nil_iff_forall_not_mem.2
  intro f hm
  obtain ⟨h1, h2, _⟩ := C104_unmount n e (run j {} es)
  obtain ⟨h3, h4⟩ := (h2 f).1 hm
  have ht := (C104_up_tracked es f h3).resolve_right fun ⟨ev, k1, k2⟩ => hf f ev k1 k2
  exact Bool.false_ne_true (h.symm.trans (h1.2 ⟨f, ht, h4 ht⟩))

example : (run sample {} [.mount true {}]).up.length = 2 ∧ (run sample {} [.mount true {}, .unmount true {}]).up = [] := by decide

/-- The code violates C104: an unmount fails; a second `Unmount` has nothing to do and returns no error, and the file system
is still mounted. -/
theorem C104_violated_retry : ∃ (j : Job) (e : Env), let s := run j {} [.mount false {}]
    (unmount false e s).1 = true ∧ (unmount false {} (unmount false e s).2).1 = false ∧
    (unmount false {} (unmount false e s).2).2.up ≠ [] :=
  ⟨sample, { unmount := fun _ => false }, by decide⟩

/-- The code violates C104: a configuration names the directory for its caches, and a target a relative cache directory: it is
not made in that directory. -/
theorem C104_violated_cachedir : ∃ (j : Job) (f : Fs) (r : Remote), (mount false {} j {}).1 = false ∧
    (mount false {} j {}).2.2.up = [f] ∧ f.remotes = [r] ∧ f.cacheBase = ⟨true, ["disk"]⟩ ∧
    j.configs.map (·.targets.map (·.cacheDir)) = [[⟨false, ["c"]⟩]] ∧ r.cacheDir = ⟨true, ["home", "c"]⟩ :=
  ⟨{ cwd := ⟨true, ["home"]⟩, configs := [{ cacheBase := ⟨true, ["disk"]⟩, targets := [{ path := "a", cacheDir := ⟨false, ["c"]⟩ }] }] },
    _, _, rfl, rfl, rfl, rfl, rfl, rfl⟩

/-- The code violates C104: once something was mounted, even if it has been unmounted since, SIGINT or SIGTERM makes the
process panic, whatever the unmounts do. -/
theorem C104_violated_signal : (∀ (e : Env) (s : S), 0 < s.watchers → (signal e s).crashed = true) ∧
    ∃ j, let s := run j {} [.mount false {}, .unmount false {}]; s.crashed = false ∧ s.up = [] ∧ 0 < s.watchers := by
  refine ⟨fun e s h => ?_, sample, by decide⟩
  unfold signal
  rw [if_neg (by omega)]
  dsimp only
  split <;> rfl

/-- The code violates C104: mounting at the working directory itself was asked for; fusermount failed at first; what is tried
again then is mounted in the sub-directory "mnt". -/
theorem C104_violated_again : ∃ (j : Job) (e : Env), (mount true e j {}).1 = true ∧
    (mountTwice true true e {} j {}).1 = false ∧ (mountTwice true true e {} j {}).2.2.up.map (·.mount) = [⟨true, ["home", "mnt"]⟩] ∧
    (mount true {} j {}).2.2.up.map (·.mount) = [⟨true, ["home"]⟩] :=
  ⟨{ cwd := ⟨true, ["home"]⟩, configs := [{ targets := [{ path := "a" }] }] }, { mount := fun _ => false }, by decide⟩

end Verif.Client.Mount
