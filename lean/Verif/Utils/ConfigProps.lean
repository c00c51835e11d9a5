import Verif.Utils.Config

/-! # C92: configuration -/

namespace Verif.Utils.Config

/-! ## Specification -/

/-- What the documentation (cmd/conf.go:598-630) promises for a setting: the environment variable if there is one, else
the file that comes last in the order of reading among those that set it, else the default. -/
def wanted (s : Schema) (vars : Field → Str) (disk : Disk) (ps : List Str) (f : Field) : Str :=
  match envOf vars f with
  | some v => v
  | none =>
    match ps.reverse.findSome? (fun p => (disk p).bind (· f)) with
    | some v => v
    | none => s.dflt f

/-- Nobody sets the field to the zero value of its type (an empty text, 0 or false). -/
def NonZero (s : Schema) (vars : Field → Str) (disk : Disk) (ps : List Str) (f : Field) : Prop :=
  envOf vars f ≠ some (s.blank f) ∧ ∀ p ∈ ps, ∀ file, disk p = some file → file f ≠ some (s.blank f)

/-! ## Lemmas -/

/-- configor's treatment of zero values. -/
private def fix (s : Schema) (f : Field) (v : Str) : Str := if v = s.blank f then s.dflt f else v

private theorem fix_fix (s : Schema) (f : Field) (v : Str) : fix s f (fix s f v) = fix s f v := by
  unfold fix
  split
  · split <;> rfl
  · rfl

private theorem load_eq (s : Schema) (vars : Field → Str) (file : File) (c : Field → Str) (f : Field) :
    load s vars file c f = fix s f ((envOf vars f).getD ((file f).getD (c f))) := rfl

private theorem merge_val (c : Config) (new : Field → Str) (so : Source) (f : Field) : (merge c new so).val f = new f := by
  simp only [merge]
  split
  · rfl
  · rename_i h; simp only [ne_eq, Decidable.not_not] at h; exact h.symm

private theorem start_val (s : Schema) (vars : Field → Str) (f : Field) :
    (start s vars).val f = fix s f ((envOf vars f).getD (s.blank f)) := by
  unfold start; rw [merge_val, load_eq]; rfl

private structure Inv (s : Schema) (vars : Field → Str) (disk : Disk) (ps : List Str) (c : Config) : Prop where
  stable : ∀ f, fix s f (c.val f) = c.val f
  env : ∀ f v, envOf vars f = some v → c.val f = fix s f v
  none : ∀ f, c.src f = none → c.val f = s.dflt f
  fromEnv : ∀ f, c.src f = some .env → ∃ v, envOf vars f = some v ∧ c.val f = fix s f v
  fromFile : ∀ f p, c.src f = some (.file p) → envOf vars f = .none ∧ p ∈ ps ∧
    ∃ file v, disk p = some file ∧ file f = some v ∧ c.val f = fix s f v

private theorem inv_start (s : Schema) (vars : Field → Str) (disk : Disk) : Inv s vars disk [] (start s vars) := by
  have hd : ∀ f, envOf vars f = none → (start s vars).val f = s.dflt f := by
    intro f h
    rw [start_val, h]; unfold fix; rw [Option.getD_none, if_pos rfl]
  refine ⟨fun f => ?_, fun f v h => ?_, fun f h => ?_, fun f h => ?_, fun f p h => ?_⟩
  · rw [start_val, fix_fix]
  · rw [start_val, h]; rfl
  · simp only [start, merge] at h
    split at h
    · cases h
    · rename_i h1
      simp only [ne_eq, Decidable.not_not] at h1
      rw [start, merge_val]; exact h1
  · cases he : envOf vars f with
    | some v => exact ⟨v, rfl, by rw [start_val, he]; rfl⟩
    | none =>
      have := hd f he
      simp only [start, merge] at h
      rw [start, merge_val] at this
      rw [if_neg (by simp [this])] at h
      cases h
  · simp only [start, merge] at h
    split at h <;> cases h

private theorem inv_file {s : Schema} {vars : Field → Str} {disk : Disk} {ps : List Str} {c : Config}
    (h : Inv s vars disk ps c) (p : Str) : Inv s vars disk (ps ++ [p]) (loadFile s vars disk c p) := by
  unfold loadFile
  cases hp : disk p with
  | none =>
    exact ⟨h.stable, h.env, h.none, h.fromEnv, fun f q hq =>
      let ⟨a, b, e⟩ := h.fromFile f q hq
      ⟨a, List.mem_append_left _ b, e⟩⟩
  | some file =>
    simp only
    have hv := fun f => merge_val c (load s vars file c.val) (.file p) f
    refine ⟨fun f => ?_, fun f v he => ?_, fun f hs => ?_, fun f hs => ?_, fun f q hs => ?_⟩
    · rw [hv, load_eq, fix_fix]
    · rw [hv, load_eq, he]; rfl
    · simp only [merge] at hs
      split at hs
      · cases hs
      · rename_i h1
        simp only [ne_eq, Decidable.not_not] at h1
        rw [hv, h1]; exact h.none f hs
    · simp only [merge] at hs
      split at hs
      · cases hs
      · rename_i h1
        simp only [ne_eq, Decidable.not_not] at h1
        rw [hv, h1]; exact h.fromEnv f hs
    · simp only [merge] at hs
      split at hs
      · rename_i h1
        simp only [Option.some.injEq, Source.file.injEq] at hs
        subst hs
        cases he : envOf vars f with
        | some v =>
          refine absurd ?_ h1
          rw [load_eq, he, h.env f v he]; rfl
        | none =>
          cases hf : file f with
          | none =>
            refine absurd ?_ h1
            rw [load_eq, he, hf]; exact h.stable f
          | some v =>
            exact ⟨rfl, by simp, file, v, hp, hf, by rw [hv, load_eq, he, hf]; rfl⟩
      · rename_i h1
        simp only [ne_eq, Decidable.not_not] at h1
        obtain ⟨a, b, file', v, x, y, z⟩ := h.fromFile f q hs
        exact ⟨a, List.mem_append_left _ b, file', v, x, y, by rw [hv, h1]; exact z⟩

private theorem inv_all (s : Schema) (vars : Field → Str) (disk : Disk) (ps : List Str) :
    Inv s vars disk ps (mergeAll s vars disk ps) := by
  have : ∀ (l done : List Str) (c : Config), Inv s vars disk done c →
      Inv s vars disk (done ++ l) (l.foldl (loadFile s vars disk) c) := by
    intro l
    induction l with
    | nil => intro done c h; simpa using h
    | cons p l ih =>
      intro done c h
      have := ih (done ++ [p]) _ (inv_file h p)
      simpa using this
  have := this ps [] _ (inv_start s vars disk)
  rwa [List.nil_append] at this

private theorem foldl_snoc (s : Schema) (vars : Field → Str) (disk : Disk) (ps : List Str) (p : Str) :
    mergeAll s vars disk (ps ++ [p]) = loadFile s vars disk (mergeAll s vars disk ps) p := by
  unfold mergeAll; rw [List.foldl_append]; rfl

/-! ## Precedence -/

/-- C92, precedence: a setting nobody sets to the zero value of its type is what the documentation says: the environment
variable, else what the last file in the order of reading says, else the default. -/
theorem C92_precedence_partial (s : Schema) (vars : Field → Str) (disk : Disk) (ps : List Str) (f : Field)
    (h : NonZero s vars disk ps f) : (mergeAll s vars disk ps).val f = wanted s vars disk ps f := by
  unfold wanted
  cases he : envOf vars f with
  | some v =>
    rw [(inv_all s vars disk ps).env f v he]
    have : v ≠ s.blank f := fun e => h.1 (by rw [he, e])
    unfold fix; rw [if_neg this]
  | none =>
    simp only
    have key : ∀ qs : List Str, (∀ q ∈ qs, q ∈ ps) → (mergeAll s vars disk qs.reverse).val f =
        (match qs.findSome? (fun p => (disk p).bind (· f)) with
        | some v => v
        | none => s.dflt f) := by
      intro qs
      induction qs with
      | nil =>
        intro _
        show (start s vars).val f = s.dflt f
        rw [start_val, he]; unfold fix; rw [Option.getD_none, if_pos rfl]
      | cons q qs ih =>
        intro hq
        have ih := ih fun x hx => hq x (List.mem_cons_of_mem _ hx)
        rw [List.reverse_cons, foldl_snoc, List.findSome?_cons]
        unfold loadFile
        cases hd : disk q with
        | none => simpa using ih
        | some file =>
          simp only [Option.bind_some]
          rw [merge_val, load_eq, he]
          cases hf : file f with
          | none =>
            simp only [Option.getD_none]
            rw [(inv_all s vars disk qs.reverse).stable f]; exact ih
          | some v =>
            simp only [Option.getD_some, Option.getD_none]
            have : v ≠ s.blank f := fun e => h.2 q (hq q (by simp)) file hd (by rw [hf, e])
            unfold fix; rw [if_neg this]
    have := key ps.reverse (fun q hq => by simpa using hq)
    rwa [List.reverse_reverse] at this

/-- C92, the order of reading: the current directory counts more than the home directory, that more than
$WR_CONFIG_DIR, and in each the file of the deployment more than the common one. -/
theorem C92_order (configDir home pwd deployment : Str) (h : configDir ≠ []) :
    (paths configDir home pwd deployment).reverse =
      [pwd ++ "/.wr_config.".toList ++ deployment ++ ".yml".toList, pwd ++ "/.wr_config.yml".toList,
        home ++ "/.wr_config.".toList ++ deployment ++ ".yml".toList, home ++ "/.wr_config.yml".toList,
        configDir ++ "/.wr_config.".toList ++ deployment ++ ".yml".toList, configDir ++ "/.wr_config.yml".toList] := by
  simp [paths, h]

/-- C92, a non-zero environment variable wins whatever the files say. -/
theorem C92_env (s : Schema) (vars : Field → Str) (disk : Disk) (ps : List Str) (f : Field) (v : Str)
    (h : envOf vars f = some v) (hv : v ≠ s.blank f) : (mergeAll s vars disk ps).val f = v := by
  rw [(inv_all s vars disk ps).env f v h]; unfold fix; rw [if_neg hv]

/-- C92, `wr conf` reports a file as the source of a value only if that file was read, and sets the field to that value
(or to a zero value, which became the default), and no environment variable is set. -/
theorem C92_source (s : Schema) (vars : Field → Str) (disk : Disk) (ps : List Str) (f : Field) (p : Str)
    (h : (mergeAll s vars disk ps).src f = some (.file p)) : envOf vars f = none ∧ p ∈ ps ∧
      ∃ file v, disk p = some file ∧ file f = some v ∧
        ((mergeAll s vars disk ps).val f = v ∨ v = s.blank f ∧ (mergeAll s vars disk ps).val f = s.dflt f) := by
  obtain ⟨a, b, file, v, x, y, z⟩ := (inv_all s vars disk ps).fromFile f p h
  refine ⟨a, b, file, v, x, y, ?_⟩
  rw [z]; unfold fix
  split
  · exact Or.inr ⟨by assumption, rfl⟩
  · exact Or.inl rfl

/-- C92, it reports the environment only if the variable is set and is the value (zero values aside), and the default
only if the value is the default. -/
theorem C92_source_env (s : Schema) (vars : Field → Str) (disk : Disk) (ps : List Str) (f : Field) :
    ((mergeAll s vars disk ps).src f = some .env → ∃ v, envOf vars f = some v ∧
      ((mergeAll s vars disk ps).val f = v ∨ v = s.blank f ∧ (mergeAll s vars disk ps).val f = s.dflt f)) ∧
    ((mergeAll s vars disk ps).src f = none → (mergeAll s vars disk ps).val f = s.dflt f) := by
  refine ⟨fun h => ?_, (inv_all s vars disk ps).none f⟩
  obtain ⟨v, x, z⟩ := (inv_all s vars disk ps).fromEnv f h
  refine ⟨v, x, ?_⟩
  rw [z]; unfold fix
  split
  · exact Or.inr ⟨by assumption, rfl⟩
  · exact Or.inl rfl

/-- C92: the deployment asked for is used; else the one of the environment; else production, but development within
wr's source. -/
theorem C92_deployment (opt var : Str) (inRepo : Bool) :
    (opt = "production".toList ∨ opt = "development".toList → deploymentOf opt var inRepo = opt) ∧
    (opt ≠ "production".toList → opt ≠ "development".toList →
      (var = "production".toList ∨ var = "development".toList → deploymentOf opt var inRepo = var) ∧
      (var ≠ "production".toList → var ≠ "development".toList →
        deploymentOf opt var inRepo = if inRepo then "development".toList else "production".toList)) := by
  unfold deploymentOf
  refine ⟨?_, fun h1 h2 => ⟨?_, fun h3 h4 => ?_⟩⟩
  · rintro (rfl | rfl)
    · rw [if_neg (by decide)]
    · rw [if_neg (by decide)]
  · rw [if_pos ⟨h2, h1⟩]
    rintro (rfl | rfl)
    · rw [if_pos (by decide)]
    · rw [if_pos (by decide)]
  · rw [if_pos ⟨h2, h1⟩, if_neg]
    rintro ⟨-, h | h⟩
    · exact h4 h
    · exact h3 h

/-! ## Directories -/

private theorem ports_other (o : Outside) (uid : Nat) (c : Field → Str) (f : Field) (h1 : f ≠ .port) (h2 : f ≠ .web) :
    setPorts o uid c f = c f := by
  unfold setPorts
  by_cases hp : c .port = []
  · simp only [hp, if_true]
    split <;> cases f <;> simp_all
  · simp only [hp, if_false]
    split <;> cases f <;> simp_all

section
variable (s : Schema) (o : Outside) (vars : Field → Str) (disk : Disk) (ps : List Str) (uid : Nat) (dep : Str)

/-- C92: settings that are no directories, files or ports are used as they are set. -/
theorem C92_plain (f : Field) (h : f = .umask ∨ f = .cloudServers ∨ ∃ n, f = .other n) :
    config s o vars disk ps uid dep f = (mergeAll s vars disk ps).val f := by
  unfold config
  rcases h with rfl | rfl | ⟨n, rfl⟩
  · rw [ports_other _ _ _ _ (by simp) (by simp)]; rfl
  · rw [ports_other _ _ _ _ (by simp) (by simp)]; rfl
  · rw [ports_other _ _ _ _ (by simp) (by simp)]; rfl

/-- C92: the files of the manager are where they were set to be if that is an absolute path, and else in the manager's
directory, to which the deployment is appended; so is the database backup, unless it is in S3. -/
theorem C92_files :
    config s o vars disk ps uid dep .dir = o.tilda ((mergeAll s vars disk ps).val .dir) ++ '_' :: dep ∧
    (∀ f, isPath f = true ∨ f = .dbBkFile ∧ isRemote ((mergeAll s vars disk ps).val .dbBkFile) = false →
      config s o vars disk ps uid dep f =
        if o.isAbs ((mergeAll s vars disk ps).val f) then (mergeAll s vars disk ps).val f
        else o.join (config s o vars disk ps uid dep .dir) ((mergeAll s vars disk ps).val f)) ∧
    (isRemote ((mergeAll s vars disk ps).val .dbBkFile) = true →
      config s o vars disk ps uid dep .dbBkFile = (mergeAll s vars disk ps).val .dbBkFile) := by
  have hd : config s o vars disk ps uid dep .dir = o.tilda ((mergeAll s vars disk ps).val .dir) ++ '_' :: dep := by
    unfold config; rw [ports_other _ _ _ _ (by simp) (by simp)]; rfl
  refine ⟨hd, fun f hf => ?_, fun h => ?_⟩
  · rw [hd]
    rcases hf with hf | ⟨rfl, hf⟩
    · have h1 : f ≠ .port := fun e => by subst e; simp [isPath] at hf
      have h2 : f ≠ .web := fun e => by subst e; simp [isPath] at hf
      unfold config; rw [ports_other _ _ _ _ h1 h2]
      cases f <;> simp [isPath] at hf <;> simp [adjust, isPath]
    · unfold config; rw [ports_other _ _ _ _ (by simp) (by simp)]
      simp [adjust, hf]
  · unfold config; rw [ports_other _ _ _ _ (by simp) (by simp)]
    simp [adjust, h]

/-- C92: the two deployments never share the manager's directory. -/
theorem C92_apart : config s o vars disk ps uid "production".toList .dir ≠
    config s o vars disk ps uid "development".toList .dir := by
  rw [(C92_files s o vars disk ps uid _).1, (C92_files s o vars disk ps uid _).1]
  intro h
  exact absurd (List.append_cancel_left h) (by decide)

end

/-! ## Ports -/

private theorem digit_dec (k : Nat) : ∀ n, n < 10 ^ k → k > 0 → digits 10 (dec k n) = some n := by
  have hc : ∀ d, d < 10 → (Char.ofNat (48 + d)).toNat = 48 + d := by
    intro d hd
    have : ∀ d : Fin 10, (Char.ofNat (48 + d.val)).toNat = 48 + d.val := by decide
    exact this ⟨d, hd⟩
  induction k with
  | zero => intro n _ h; omega
  | succ k ih =>
    intro n hn _
    have hm : n % 10 < 10 := Nat.mod_lt _ (by omega)
    simp only [dec, digits, List.foldl_append, List.foldl_cons, List.foldl_nil]
    split
    · rename_i h
      have : n % 10 = n := Nat.mod_eq_of_lt h
      simp only [List.foldl_nil, digit, this, hc n h]
      rw [if_pos (by omega)]; congr 1; omega
    · rename_i h
      have hk : k > 0 := by
        rcases Nat.eq_zero_or_pos k with rfl | h'
        · omega
        · exact h'
      have : List.foldl (digit 10) (some 0) (dec k (n / 10)) = some (n / 10) :=
        ih (n / 10) (by rw [Nat.pow_succ] at hn; omega) hk
      rw [this]
      simp only [digit, hc _ hm]
      rw [if_pos (by omega)]; congr 1; omega

theorem digits_itoa (n : Nat) : digits 10 (itoa n) = some n :=
  digit_dec (n + 1) n (Nat.lt_of_lt_of_le (Nat.lt_succ_self n) (Nat.le_of_lt (Nat.lt_pow_self (by omega)))) (by omega)

theorem itoa_inj {a b : Nat} (h : itoa a = itoa b) : a = b := by
  have := digits_itoa a
  rw [h, digits_itoa b] at this
  exact (Option.some.inj this).symm

theorem itoa_ne (n : Nat) : itoa n ≠ [] := by
  unfold itoa; simp [dec]

/-- The four ports of a user (README and config.go:492-535): two for each deployment. -/
def portOf (uid : Nat) (development web : Bool) : Nat :=
  1021 + uid * 4 + (if development then 2 else 0) + if web then 1 else 0

/-- C92: no two users, deployments or interfaces have the same port. -/
theorem C92_ports_distinct (u v : Nat) (d e w x : Bool) (h : itoa (portOf u d w) = itoa (portOf v e x)) :
    u = v ∧ d = e ∧ w = x := by
  have h := itoa_inj h
  unfold portOf at h
  cases d <;> cases e <;> cases w <;> cases x <;> simp at h ⊢ <;> omega

section
variable (o : Outside) (uid : Nat) (c : Field → Str) (hu : 1021 + uid * 4 + 3 ≤ 65535)
include hu

private theorem min_eq : minPort o uid = some (1021 + uid * 4) := by
  unfold minPort; simp only; rw [if_neg (by omega)]

/-- C92: a user whose ports exist and who sets none gets their own. -/
theorem C92_ports (hp : c .port = []) : setPorts o uid c .port =
      itoa (portOf uid (decide (c .deployment = "development".toList)) false) ∧
    setPorts o uid c .web = itoa (portOf uid (decide (c .deployment = "development".toList)) true) := by
  have hs : ∃ k, 1021 + uid * 4 = k + 1 := ⟨1020 + uid * 4, by omega⟩
  obtain ⟨k, hk⟩ := hs
  have hc : calculatePort o uid (c .deployment) false (c .web) =
      (itoa (portOf uid (decide (c .deployment = "development".toList)) false),
        itoa (portOf uid (decide (c .deployment = "development".toList)) true)) := by
    unfold calculatePort portOf
    rw [min_eq o uid hu, hk]
    simp only [Bool.false_eq_true, if_false, if_true, decide_eq_true_eq]
    split <;> simp
  unfold setPorts
  simp only [hp, if_true, hc]
  rw [if_neg (itoa_ne _)]
  exact ⟨rfl, rfl⟩

/-- C92: a web port is worked out if only the other is set, which is kept. -/
theorem C92_ports_web (hp : c .port ≠ []) (hw : c .web = []) : setPorts o uid c .port = c .port ∧
    setPorts o uid c .web = itoa (portOf uid (decide (c .deployment = "development".toList)) true) := by
  have hs : ∃ k, 1021 + uid * 4 = k + 1 := ⟨1020 + uid * 4, by omega⟩
  obtain ⟨k, hk⟩ := hs
  have hc : calculatePort o uid (c .deployment) true [] =
      (itoa (portOf uid (decide (c .deployment = "development".toList)) true), []) := by
    unfold calculatePort portOf
    rw [min_eq o uid hu, hk]
    simp only [if_true, decide_eq_true_eq]
    split <;> simp
  unfold setPorts
  simp only [hp, if_false, hw, if_true, hc, and_self]
end

/-- C92: ports that are both set are used. -/
theorem C92_ports_set (o : Outside) (uid : Nat) (c : Field → Str) (hp : c .port ≠ []) (hw : c .web ≠ []) :
    setPorts o uid c = c := by
  unfold setPorts; simp [hp, hw]

/-! ## The manager's child process -/

private theorem trim_suffix (a b : Str) : trimSuffix (a ++ b) b = a := by
  unfold trimSuffix
  rw [if_pos (by simp)]
  simp

private theorem trim0_stable {t : Str} (h : t.head? ≠ some '0') : trim0 t = t := by
  unfold trim0
  split
  · simp at h
  · rfl

/-- C92: `wr manager start` hands its settings to the process it starts in the background: whatever configuration files
that one finds, all settings that are not zero values are the same, given that the paths are absolute.  (A umask is
written without leading zeros.) -/
theorem C92_toenv_partial (s : Schema) (o : Outside) (vars : Field → Str) (disk disk' : Disk) (ps ps' : List Str)
    (uid uid' : Nat) (dep : Str)
    (hb : ∀ f, f = .port ∨ f = .web ∨ f = .dir ∨ f = .deployment ∨ f = .dbBkFile ∨ isPath f = true → s.blank f = [])
    (habs : ∀ p, o.isAbs (o.join (o.tilda ((mergeAll s vars disk ps).val .dir) ++ '_' :: dep) p) = true)
    (htil : o.tilda (o.tilda ((mergeAll s vars disk ps).val .dir)) = o.tilda ((mergeAll s vars disk ps).val .dir))
    (hne : o.tilda ((mergeAll s vars disk ps).val .dir) ≠ [])
    (hum : (config s o vars disk ps uid dep .umask).head? ≠ some '0')
    (hport : config s o vars disk ps uid dep .port ≠ []) (hweb : config s o vars disk ps uid dep .web ≠ [])
    (f : Field) (hf : config s o vars disk ps uid dep f ≠ s.blank f) (hf2 : config s o vars disk ps uid dep f ≠ []) :
    config s o (toEnv (config s o vars disk ps uid dep)) disk' ps' uid' dep f = config s o vars disk ps uid dep f := by
  obtain ⟨hdir, hfiles, hremote⟩ := C92_files s o vars disk ps uid dep
  have hdep : config s o vars disk ps uid dep .deployment = dep := by
    unfold config; rw [ports_other _ _ _ _ (by simp) (by simp)]; rfl
  have hplain := fun f h => C92_plain s o vars disk ps uid dep f h
  generalize hg : config s o vars disk ps uid dep = P at *
  -- what the child reads from the environment
  have henv : ∀ f, f ≠ .dir → P f ≠ [] → envOf (toEnv P) f = some (P f) := by
    intro f hd hn
    have ht : toEnv P f = P f := by
      cases f <;> simp [toEnv] at hd ⊢
    unfold envOf
    simp only [ht]
    by_cases h : f = .umask
    · subst h
      simp only [if_true]
      rw [trim0_stable hum, if_neg hn]
    · simp only [h, if_false]
      rw [if_neg hn]
  have hval : ∀ f, f ≠ .dir → P f ≠ [] → P f ≠ s.blank f → (mergeAll s (toEnv P) disk' ps').val f = P f :=
    fun f hd hn hb => C92_env s (toEnv P) disk' ps' f (P f) (henv f hd hn) hb
  obtain ⟨hdir', hfiles', hremote'⟩ := C92_files s o (toEnv P) disk' ps' uid' dep
  -- the directory
  have hdirval : (mergeAll s (toEnv P) disk' ps').val .dir = o.tilda ((mergeAll s vars disk ps).val .dir) := by
    have ht : toEnv P .dir = o.tilda ((mergeAll s vars disk ps).val .dir) := by
      show trimSuffix (P .dir) ('_' :: P .deployment) = _
      rw [hdir, hdep]; exact trim_suffix _ _
    refine C92_env s (toEnv P) disk' ps' .dir _ ?_ (by rw [hb .dir (by simp)]; exact hne)
    unfold envOf
    simp only [ht]
    simp [hne]
  have hdirEq : config s o (toEnv P) disk' ps' uid' dep .dir = P .dir := by
    rw [hdir', hdirval, htil, hdir]
  have hpath : ∀ f, isPath f = true ∨ f = .dbBkFile ∧ isRemote ((mergeAll s vars disk ps).val .dbBkFile) = false →
      o.isAbs (P f) = true := by
    intro f hf
    rw [hfiles f hf]
    split
    · assumption
    · rw [hdir]; exact habs _
  have hports : setPorts o uid' (adjust o dep (mergeAll s (toEnv P) disk' ps').val) =
      adjust o dep (mergeAll s (toEnv P) disk' ps').val := by
    apply C92_ports_set
    · show (mergeAll s (toEnv P) disk' ps').val .port ≠ []
      rw [hval .port (by simp) hport (by rw [hb .port (by simp)]; exact hport)]; exact hport
    · show (mergeAll s (toEnv P) disk' ps').val .web ≠ []
      rw [hval .web (by simp) hweb (by rw [hb .web (by simp)]; exact hweb)]; exact hweb
  by_cases hfd : f = .dir
  · subst hfd; exact hdirEq
  by_cases hfe : f = .deployment
  · subst hfe
    unfold config; rw [hports, hdep]; rfl
  have hv := hval f hfd hf2 hf
  by_cases hfp : isPath f = true
  · rw [hfiles' f (Or.inl hfp), hv, if_pos (hpath f (Or.inl hfp))]
  by_cases hfb : f = .dbBkFile
  · subst hfb
    cases hr : isRemote ((mergeAll s vars disk ps).val .dbBkFile) with
    | true =>
      rw [hremote'] <;> rw [hv]
      rw [hremote hr]; exact hr
    | false =>
      cases hr' : isRemote (P .dbBkFile) with
      | true => rw [hremote' (by rw [hv]; exact hr'), hv]
      | false =>
        rw [hfiles' .dbBkFile (Or.inr ⟨rfl, by rw [hv]; exact hr'⟩), hv, if_pos (hpath _ (Or.inr ⟨rfl, hr⟩))]
  unfold config
  rw [hports]
  cases f <;> simp [isPath] at hfp hfd hfe hfb <;> simp only [adjust, isPath, Bool.false_eq_true, if_false] <;> exact hv

/-! ## Umask -/

/-- C92: a umask given in the environment with leading zeros and one more digit is the octal number it is meant to be. -/
theorem C92_umask_partial (s : Schema) (vars : Field → Str) (disk : Disk) (ps : List Str) (k d : Nat)
    (hd : 0 < d) (hd8 : d < 8) (hv : vars .umask = List.replicate k '0' ++ itoa d) (hb : s.blank .umask = itoa 0) :
    digits 10 ((mergeAll s vars disk ps).val .umask) = digits 8 (vars .umask) := by
  have ht : trim0 (vars .umask) = itoa d := by
    rw [hv]
    clear hv
    induction k with
    | zero =>
      apply trim0_stable
      have : ∀ d : Fin 8, 0 < d.val → (itoa d.val).head? ≠ some '0' := by decide
      exact this ⟨d, hd8⟩ hd
    | succ k ih => simpa [List.replicate_succ, trim0] using ih
  have he : envOf vars .umask = some (itoa d) := by
    unfold envOf; simp only [if_true, ht]; rw [if_neg (itoa_ne d)]
  rw [C92_env s vars disk ps .umask (itoa d) he (by rw [hb]; intro h; have := itoa_inj h; omega), digits_itoa, hv]
  unfold digits
  rw [List.foldl_append]
  have : ∀ k, List.foldl (digit 8) (some 0) (List.replicate k '0') = some 0 := by
    intro k
    induction k with
    | zero => rfl
    | succ k ih => rw [List.replicate_succ, List.foldl_cons]; exact ih
  rw [this]
  have : ∀ d : Fin 8, List.foldl (digit 8) (some 0) (itoa d.val) = some d.val := by decide
  exact (this ⟨d, hd8⟩).symm

/-! ## Where the code falls short -/

namespace Ex

/-- The fields the examples need, with config.go:93-132's types and defaults. -/
def schema : Schema where
  blank f := match f with | .umask | .cloudServers => "0".toList | _ => []
  dflt f := match f with
    | .umask => "7".toList
    | .cloudServers => "-1".toList
    | .dir => "~/.wr".toList
    | .dbFile => "db".toList
    | .dbBkFile => "db_bk".toList
    | .deployment => "production".toList
    | _ => []

/-- Paths that start with a slash are absolute; `~` is /home/u. -/
def outside : Outside where
  tilda p := match p with | '~' :: cs => "/home/u".toList ++ cs | cs => cs
  isAbs p := p.head? = some '/'
  join d p := d ++ '/' :: p
  free := none

def noVars : Field → Str := fun _ => []

/-- One file, /c/.wr_config.yml, that sets one field. -/
def disk (f : Field) (v : String) : Disk := fun p =>
  if p = "/c/.wr_config.yml".toList then some fun g => if g = f then some v.toList else none else none

def ps : List Str := paths [] "/home/u".toList "/c".toList "production".toList

end Ex

open Ex

/-- C92 fails: `cloudservers: 0` in a file, for no servers besides the manager's, gives the default, any number. -/
theorem C92_violated_zero :
    wanted schema noVars (disk .cloudServers "0") ps .cloudServers = "0".toList ∧
    (mergeAll schema noVars (disk .cloudServers "0") ps).val .cloudServers = "-1".toList := by decide +kernel

/-- C92 fails: so does WR_CLOUDSERVERS=0. -/
theorem C92_violated_zero_env :
    let vars : Field → Str := fun f => if f = .cloudServers then "0".toList else []
    wanted schema vars (fun _ => none) ps .cloudServers = "0".toList ∧
    (mergeAll schema vars (fun _ => none) ps).val .cloudServers = "-1".toList := by decide +kernel

/-- C92 fails: a web port that is set is not used if the other port is not set. -/
theorem C92_violated_web :
    (mergeAll schema noVars (disk .web "8080") ps).val .web = "8080".toList ∧
    config schema outside noVars (disk .web "8080") ps 1000 "production".toList .web = "5022".toList := by decide +kernel

/-- C92 fails: the ports of the user with id 0 are not all above 1024. -/
theorem C92_violated_root :
    config schema outside noVars (fun _ => none) ps 0 "production".toList .port = "1021".toList := by decide +kernel

/-- C92 fails: WR_MANAGERUMASK=022, for files all can read, gives the number 22, the umask 026, so others cannot. -/
theorem C92_violated_umask :
    let vars : Field → Str := fun f => if f = .umask then "022".toList else []
    digits 8 (vars .umask) = some 18 ∧
    digits 10 ((mergeAll schema vars (fun _ => none) ps).val .umask) = some 22 := by decide +kernel

/-- C92 fails: WR_MANAGERUMASK=000 gives the default. -/
theorem C92_violated_umask_none :
    let vars : Field → Str := fun f => if f = .umask then "000".toList else []
    (mergeAll schema vars (fun _ => none) ps).val .umask = "7".toList := by decide +kernel

/-- C92 fails: the umask 022 of a file (the number 18) becomes `umask 18` on the command line of remote runners, which
is no umask; the umask 027 (the number 23) becomes the umask 023. -/
theorem C92_violated_remote : digits 8 (remoteUmask 18) = none ∧ digits 8 (remoteUmask 23) = some 19 := by decide +kernel

/-- C92: a umask of one octal digit reaches remote runners. -/
theorem C92_remote_partial (n : Nat) (h : n < 8) : digits 8 (remoteUmask n) = some n := by
  have : ∀ n : Fin 8, digits 8 (remoteUmask n.val) = some n.val := by decide
  exact this ⟨n, h⟩

/-- C92 fails: a setting that is empty is not handed to the process in the background, which takes it from a file it
finds. -/
theorem C92_violated_toenv :
    config schema outside noVars (fun _ => none) ps 1000 "production".toList (.other 0) = [] ∧
    config schema outside (toEnv (config schema outside noVars (fun _ => none) ps 1000 "production".toList))
      (disk (.other 0) "x") ps 1000 "production".toList (.other 0) = "x".toList := by decide +kernel

/-! ## Examples -/

example : NonZero schema noVars (disk .cloudServers "3") ps .cloudServers ∧
    wanted schema noVars (disk .cloudServers "3") ps .cloudServers = "3".toList := by
  refine ⟨⟨by decide +kernel, fun p hp file hf => ?_⟩, by decide +kernel⟩
  unfold disk at hf
  split at hf
  · simp only [Option.some.injEq] at hf; subst hf; decide +kernel
  · cases hf

example : (mergeAll schema noVars (disk .cloudServers "3") ps).src .cloudServers =
    some (.file "/c/.wr_config.yml".toList) := by decide +kernel

example : config schema outside noVars (disk .dir "/data/wr") ps 1000 "development".toList .dbFile =
    "/data/wr_development/db".toList ∧
    config schema outside noVars (disk .dir "/data/wr") ps 1000 "development".toList .port = "5023".toList ∧
    config schema outside noVars (disk .dir "/data/wr") ps 1000 "development".toList .web = "5024".toList := by
  decide +kernel

/-- The hypotheses of `C92_toenv_partial` can be met. -/
example : config schema outside (toEnv (config schema outside noVars (disk .cloudServers "3") ps 1000 "production".toList))
    (disk .cloudServers "4") ps 1001 "production".toList .cloudServers = "3".toList :=
  (C92_toenv_partial schema outside noVars (disk .cloudServers "3") _ ps ps 1000 1001 "production".toList
    (fun f h => by
      rcases h with rfl | rfl | rfl | rfl | rfl | h
      · rfl
      · rfl
      · rfl
      · rfl
      · rfl
      · cases f <;> simp [isPath] at h <;> rfl)
    (fun p => by
      have : outside.tilda ((mergeAll schema noVars (disk .cloudServers "3") ps).val .dir) = "/home/u/.wr".toList := by
        decide +kernel
      rw [this]; rfl)
    (by decide +kernel) (by decide +kernel) (by decide +kernel) (by decide +kernel) (by decide +kernel) .cloudServers
    (by decide +kernel) (by decide +kernel)).trans (by decide +kernel)

end Verif.Utils.Config
