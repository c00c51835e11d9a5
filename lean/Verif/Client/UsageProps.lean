/-
C110: the disk and memory use reported for a job. A small specification of what is in a directory tree and in a tree of processes,
and theorems that say what the reported amounts are in terms of it.
-/
import Verif.Client.Usage
namespace Verif.Client.Usage

/-! ### What there is -/

mutual
/-- every file in what is at a path, with its path from there and its size -/
def files : Node → List (Path × Nat)
  | .file size => [([], size)]
  | .dir _ es => filesIn es
/-- every file in or below these entries -/
def filesIn : Entries → List (Path × Nat)
  | .nil => []
  | .cons name n rest => ((files n).map fun f => (name :: f.1, f.2)) ++ filesIn rest
end

mutual
/-- every directory in what is at a path (itself included), with its path from there and whether it can be read -/
def dirs : Node → List (Path × Bool)
  | .file _ => []
  | .dir readable es => ([], readable) :: dirsIn es
/-- every directory in or below these entries -/
def dirsIn : Entries → List (Path × Bool)
  | .nil => []
  | .cons name n rest => ((dirs n).map fun d => (name :: d.1, d.2)) ++ dirsIn rest
end

/-- on the way from `path` down to `rel` there is a directory that is to be skipped -/
def hidden (skip : List Path) (path : Path) (rel : Path) : Bool :=
  (List.range rel.length).any fun k => skip.contains (path ++ rel.take (k + 1))

/-- the files below `path` that no skipped directory hides -/
def open_ (skip : List Path) (path : Path) (n : Node) : List (Path × Nat) :=
  (files n).filter fun f => !hidden skip path f.1.dropLast

/-- the bytes of a MB -/
def MiB : Nat := 1048576

private theorem mb_eq : mb = MiB := rfl

/-- whole MBs of each file, added up -/
def mbs (l : List (Path × Nat)) : Nat := (l.map fun f => f.2 / MiB).sum

/-- bytes -/
def bytes (l : List (Path × Nat)) : Nat := (l.map fun f => f.2).sum

theorem hidden_iff (skip : List Path) (path rel : Path) :
    hidden skip path rel = true ↔ ∃ pre, pre ≠ [] ∧ pre <+: rel ∧ path ++ pre ∈ skip := by
  simp only [hidden, List.any_eq_true, List.mem_range, List.contains_iff_mem]
  constructor
  · rintro ⟨k, hk, hm⟩
    refine ⟨rel.take (k + 1), ?_, List.take_prefix _ _, hm⟩
    intro h
    have := congrArg List.length h
    simp only [List.length_take, List.length_nil] at this; omega
  · rintro ⟨pre, hne, hp, hm⟩
    have hl := hp.length_le
    have hpos : 0 < pre.length := List.length_pos_iff.mpr hne
    refine ⟨pre.length - 1, by omega, ?_⟩
    rw [Nat.sub_add_cancel hpos, ← List.prefix_iff_eq_take.mp hp]
    exact hm

private theorem hidden_nil (skip : List Path) (path : Path) : hidden skip path [] = false := by simp [hidden]

private theorem hidden_cons (skip : List Path) (path : Path) (c : Str) (r : Path) :
    hidden skip path (c :: r) = (skip.contains (path ++ [c]) || hidden skip (path ++ [c]) r) := by
  rw [Bool.eq_iff_iff, Bool.or_eq_true, hidden_iff, hidden_iff, List.contains_iff_mem]
  constructor
  · rintro ⟨pre, hne, hp, hm⟩
    cases pre with
    | nil => exact absurd rfl hne
    | cons a t =>
      rw [List.cons_prefix_cons] at hp
      obtain ⟨rfl, ht⟩ := hp
      cases t with
      | nil => exact Or.inl hm
      | cons b t => exact Or.inr ⟨b :: t, by simp, ht, by simpa using hm⟩
  · rintro (h | ⟨pre, hne, hp, hm⟩)
    · exact ⟨[c], by simp, by simp, h⟩
    · exact ⟨c :: pre, by simp, by simpa using hp, by simpa using hm⟩

private def opens (skip : List Path) (path : Path) (l : List (Path × Nat)) : List (Path × Nat) :=
  l.filter fun f => !hidden skip path f.1.dropLast

mutual
private theorem files_ne : (es : Entries) → ∀ f ∈ filesIn es, f.1 ≠ []
  | .nil => by simp [filesIn]
  | .cons name n rest => by
    intro f hf
    simp only [filesIn, List.mem_append, List.mem_map] at hf
    rcases hf with ⟨g, _, rfl⟩ | hf
    · simp
    · exact files_ne rest f hf
end

private theorem mbs_append (a b : List (Path × Nat)) : mbs (a ++ b) = mbs a + mbs b := by simp [mbs]

private theorem opens_map (skip : List Path) (path : Path) (name : Str) (l : List (Path × Nat)) (h : ∀ f ∈ l, f.1 ≠ []) :
    mbs (opens skip path (l.map fun f => (name :: f.1, f.2))) =
    if skip.contains (path ++ [name]) then 0 else mbs (opens skip (path ++ [name]) l) := by
  induction l with
  | nil => simp [opens, mbs]
  | cons f l ih =>
    have ih := ih (fun g hg => h g (List.mem_cons_of_mem _ hg))
    have hf : f.1 ≠ [] := h f (by simp)
    have hd : (name :: f.1).dropLast = name :: f.1.dropLast := by
      cases hh : f.1 with
      | nil => exact absurd hh hf
      | cons a t => simp
    simp only [opens, List.map_cons, List.filter_cons, hd, hidden_cons] at ih ⊢
    by_cases hc : skip.contains (path ++ [name]) = true
    · simp only [hc, if_true, Bool.true_or, Bool.not_true, Bool.false_eq_true, if_false] at ih ⊢
      exact ih
    · simp only [Bool.not_eq_true] at hc
      simp only [hc, Bool.false_or, Bool.false_eq_true, if_false] at ih ⊢
      split
      · simp only [mbs, List.map_cons, List.sum_cons] at ih ⊢
        rw [ih]
      · exact ih

mutual
private theorem disk_node (skip : List Path) : (path : Path) → (n : Node) → (u : Nat) → currentDisk skip path n = some u →
    u = mbs (opens skip path (files n))
  | path, .file _, u, h => by simp [currentDisk] at h
  | path, .dir ok es, u, h => by
    simp only [currentDisk] at h
    split at h
    · simp only [files]; exact disk_entries skip path es u h
    · cases h
private theorem disk_entries (skip : List Path) : (path : Path) → (es : Entries) → (u : Nat) → diskOf skip path es = some u →
    u = mbs (opens skip path (filesIn es))
  | path, .nil, u, h => by
    simp only [diskOf, Option.some.injEq] at h
    simp [filesIn, opens, mbs, ← h]
  | path, .cons name (.file size) rest, u, h => by
    simp only [diskOf] at h
    split at h
    · rename_i r hr
      cases h
      have := disk_entries skip path rest r hr
      simp only [filesIn, files, List.map_cons, List.map_nil, opens, List.filter_append, mbs_append] at this ⊢
      rw [this]
      simp [hidden_nil, mbs, mb_eq]
    · cases h
  | path, .cons name (.dir ok es) rest, u, h => by
    simp only [diskOf] at h
    simp only [filesIn, opens, List.filter_append, mbs_append]
    have hm := opens_map skip path name (files (.dir ok es)) (by simpa [files] using files_ne es)
    simp only [opens] at hm
    rw [hm]
    by_cases hc : skip.contains (path ++ [name]) = true
    · simp only [hc, if_true] at h ⊢
      have := disk_entries skip path rest u h
      simp only [opens] at this
      omega
    · simp only [Bool.not_eq_true] at hc
      simp only [hc, Bool.false_eq_true, if_false] at h ⊢
      split at h
      · rename_i d r hd hr
        cases h
        have h1 := disk_entries skip path rest r hr
        have h2 := disk_node skip (path ++ [name]) (.dir ok es) d hd
        simp only [opens] at h1 h2
        omega
      · cases h
end

private theorem mbs_bytes (l : List (Path × Nat)) : mbs l * MiB ≤ bytes l ∧ bytes l ≤ mbs l * MiB + l.length * (MiB - 1) := by
  induction l with
  | nil => simp [mbs, bytes]
  | cons f l ih =>
    simp only [mbs, bytes, List.map_cons, List.sum_cons, List.length_cons] at ih ⊢
    have h1 := Nat.div_add_mod f.2 MiB
    have h2 := Nat.mod_lt f.2 (show MiB > 0 by decide)
    rw [Nat.add_mul, Nat.add_mul, Nat.mul_comm (f.2 / MiB) MiB]
    omega

/-- C110: the measured use of a directory is what all the files in it and below it amount to in whole MBs (rounded down file by
file), every file counting once, except those below a skipped directory; so it is never more than their bytes, and less by under a
MB for each file. -/
theorem C110_disk (skip : List Path) (path : Path) (n : Node) (u : Nat) (h : currentDisk skip path n = some u) :
    u = mbs (open_ skip path n) ∧ u * MiB ≤ bytes (open_ skip path n) ∧
    bytes (open_ skip path n) ≤ u * MiB + (open_ skip path n).length * (MiB - 1) := by
  have := disk_node skip path n u h
  simp only [opens] at this
  subst this
  exact ⟨rfl, mbs_bytes _⟩

private theorem any_map_hidden (skip : List Path) (path : Path) (name : Str) (l : List (Path × Bool)) :
    (∃ d ∈ l.map (fun d => (name :: d.1, d.2)), hidden skip path d.1 = false ∧ d.2 = false) ↔
    skip.contains (path ++ [name]) = false ∧ ∃ d ∈ l, hidden skip (path ++ [name]) d.1 = false ∧ d.2 = false := by
  simp only [List.mem_map]
  constructor
  · rintro ⟨_, ⟨d, hd, rfl⟩, hh, hb⟩
    rw [hidden_cons, Bool.or_eq_false_iff] at hh
    exact ⟨hh.1, d, hd, hh.2, hb⟩
  · rintro ⟨hc, d, hd, hh, hb⟩
    exact ⟨_, ⟨d, hd, rfl⟩, by simp only [hidden_cons, hc, hh, Bool.or_self], hb⟩

mutual
private theorem err_node (skip : List Path) : (path : Path) → (ok : Bool) → (es : Entries) →
    (currentDisk skip path (.dir ok es) = none ↔ ∃ d ∈ dirs (.dir ok es), hidden skip path d.1 = false ∧ d.2 = false)
  | path, ok, es => by
    simp only [currentDisk, dirs]
    cases ok with
    | false => simp [hidden_nil]
    | true =>
      simp only [if_true]
      rw [err_entries skip path es]
      simp
private theorem err_entries (skip : List Path) : (path : Path) → (es : Entries) →
    (diskOf skip path es = none ↔ ∃ d ∈ dirsIn es, hidden skip path d.1 = false ∧ d.2 = false)
  | path, .nil => by simp [diskOf, dirsIn]
  | path, .cons name (.file size) rest => by
    have := err_entries skip path rest
    simp only [diskOf, dirsIn, dirs, List.map_nil, List.nil_append, ← this]
    cases diskOf skip path rest <;> simp
  | path, .cons name (.dir ok es) rest => by
    have h1 := err_entries skip path rest
    have h2 := err_node skip (path ++ [name]) ok es
    have h3 := any_map_hidden skip path name (dirs (.dir ok es))
    simp only [diskOf, dirsIn]
    simp only [List.mem_append, or_and_right, exists_or, h3, ← h1, ← h2]
    by_cases hc : skip.contains (path ++ [name]) = true
    · simp only [hc, if_true, Bool.true_eq_false, false_and, false_or]
    · simp only [Bool.not_eq_true] at hc
      simp only [hc, Bool.false_eq_true, if_false, true_and]
      cases currentDisk skip (path ++ [name]) (.dir ok es) <;> cases diskOf skip path rest <;> simp
end

/-- C110: a measurement of a directory fails exactly if it, or some directory below it that is not skipped, can't be read. -/
theorem C110_error (skip : List Path) (path : Path) (ok : Bool) (es : Entries) :
    currentDisk skip path (.dir ok es) = none ↔ ∃ d ∈ dirs (.dir ok es), hidden skip path d.1 = false ∧ d.2 = false :=
  err_node skip path ok es

private def tree : Node := .dir true (.cons ['a'] (.file (3 * mb)) (.cons ['d'] (.dir true (.cons ['b'] (.file (2 * mb + 5)) .nil))
  (.cons ['m'] (.dir true (.cons ['c'] (.file (7 * mb)) .nil)) .nil)))

example : currentDisk [[['w'], ['m']]] [['w']] tree = some 5 ∧ currentDisk [] [['w']] tree = some 12 := by decide +kernel
example : ∃ ok es, currentDisk [] [] (.dir ok es) = none ∧ ok = true :=
  ⟨true, .cons ['x'] (.dir false .nil) .nil, by decide, rfl⟩

/-! ### Which directories -/

/-- all that is in the directory at `d`, in whole MBs per file -/
def allOf (fs : Node) (d : Path) : Nat :=
  match lookup fs d with
  | some n => mbs (files n)
  | none => 0

/-- the mount at `m` was not (known to be) empty when the command was about to start -/
def Filled (fs : Node) (m : Path) : Bool :=
  match lookup fs m with
  | some (.dir true .nil) => false
  | _ => true

private theorem filled_eq (fs : Node) (m : Path) : Filled fs m = !startsEmpty fs m := by
  unfold Filled startsEmpty
  rcases lookup fs m with _ | ⟨_ | ⟨_, _⟩⟩ <;> (try rfl)
  rename_i b e
  cases b <;> cases e <;> rfl

/-- the files in the directory at `d` that are not inside one of `ms` -/
def outside (fs : Node) (d : Path) (ms : List Path) : Nat :=
  match lookup fs d with
  | some n => mbs ((files n).filter fun f => ms.all fun m => !m.isPrefixOf (d ++ f.1.dropLast))
  | none => 0

private theorem render_append (a b : Path) : render (a ++ b) = render a ++ render b := by simp [render]

private theorem ex_cons {α : Type} (P : α → Prop) (d : α) (l : List α) : (∃ x ∈ d :: l, P x) ↔ P d ∨ ∃ x ∈ l, P x := by simp

private theorem dontCheck_fst (fs : Node) (a : Path) (ds : List Path) : ∀ skip,
    (dontCheck fs a skip ds).1 = true ↔ ∃ d ∈ ds, Filled fs d = true ∧ d = a := by
  induction ds with
  | nil => simp [dontCheck]
  | cons d ds ih =>
    intro skip
    simp only [dontCheck, filled_eq] at ih ⊢
    by_cases he : startsEmpty fs d = true
    · simp [he, ih]
    · simp only [Bool.not_eq_true] at he
      simp only [he, Bool.false_eq_true, if_false]
      by_cases hd : d = a
      · subst hd; simp [he]
      · simp only [hd, if_false]
        by_cases hp : (render a).isPrefixOf (render d) = true
        · simp only [hp, if_true, ih, ex_cons, hd, and_false, false_or]
        · simp only [Bool.not_eq_true] at hp
          simp only [hp, Bool.false_eq_true, if_false, ih, ex_cons, hd, and_false, false_or]

private theorem dontCheck_snd (fs : Node) (a : Path) (ds : List Path) : ∀ skip, (dontCheck fs a skip ds).1 = false →
    ∀ m, m ∈ (dontCheck fs a skip ds).2 ↔ m ∈ skip ∨ (m ∈ ds ∧ Filled fs m = true ∧ (render a).isPrefixOf (render m) = true) := by
  induction ds with
  | nil => simp [dontCheck]
  | cons d ds ih =>
    intro skip h m
    simp only [dontCheck] at h ⊢
    by_cases he : startsEmpty fs d = true
    · simp only [he, if_true] at h ⊢
      rw [ih skip h m]
      constructor
      · rintro (x | ⟨x, y, z⟩)
        · exact Or.inl x
        · exact Or.inr ⟨List.mem_cons_of_mem _ x, y, z⟩
      · rintro (x | ⟨x, y, z⟩)
        · exact Or.inl x
        · rcases List.mem_cons.mp x with x | x
          · subst x; simp [filled_eq, he] at y
          · exact Or.inr ⟨x, y, z⟩
    · simp only [Bool.not_eq_true] at he
      simp only [he, Bool.false_eq_true, if_false] at h ⊢
      by_cases hd : d = a
      · simp [hd] at h
      · simp only [hd, if_false] at h ⊢
        by_cases hp : (render a).isPrefixOf (render d) = true
        · simp only [hp, if_true] at h ⊢
          rw [ih _ h m]
          constructor
          · rintro (x | ⟨x, y, z⟩)
            · rcases List.mem_cons.mp x with x | x
              · subst x; exact Or.inr ⟨by simp, by simp [filled_eq, he], hp⟩
              · exact Or.inl x
            · exact Or.inr ⟨List.mem_cons_of_mem _ x, y, z⟩
          · rintro (x | ⟨x, y, z⟩)
            · exact Or.inl (List.mem_cons_of_mem _ x)
            · rcases List.mem_cons.mp x with x | x
              · subst x; exact Or.inl (by simp)
              · exact Or.inr ⟨x, y, z⟩
        · have hp' : (render a).isPrefixOf (render d) = false := by rw [Bool.not_eq_true] at hp; exact hp
          simp only [hp', Bool.false_eq_true, if_false] at h ⊢
          rw [ih _ h m]
          constructor
          · rintro (x | ⟨x, y, z⟩)
            · exact Or.inl x
            · exact Or.inr ⟨List.mem_cons_of_mem _ x, y, z⟩
          · rintro (x | ⟨x, y, z⟩)
            · exact Or.inl x
            · rcases List.mem_cons.mp x with x | x
              · subst x; exact absurd z hp
              · exact Or.inr ⟨x, y, z⟩

private theorem usage_append (fs : Node) (p : Plan) (x y : List Path) :
    usage fs p (x ++ y) = match usage fs p x, usage fs p y with
      | some a, some b => some (a + b)
      | _, _ => none := by
  induction x with
  | nil => simp only [List.nil_append, usage]; cases usage fs p y <;> simp
  | cons d x ih =>
    simp only [List.cons_append, usage, ih]
    cases measure fs p d <;> cases usage fs p x <;> cases usage fs p y <;> simp
    omega

private theorem usage_plain (fs : Node) (p : Plan) (l : List Path) : ∀ u, (∀ d ∈ l, some d ≠ p.actual) → usage fs p l = some u →
    u = (l.map (allOf fs)).sum := by
  induction l with
  | nil => intro u _ h; simp [usage] at h; simp [h]
  | cons d l ih =>
    intro u hl h
    simp only [usage] at h
    split at h
    · rename_i a b ha hb
      cases h
      have h1 := ih b (fun x hx => hl x (List.mem_cons_of_mem _ hx)) hb
      simp only [measure] at ha
      split at ha
      · cases ha
      · rename_i n hn
        rw [if_neg (hl d (by simp))] at ha
        have h2 := (C110_disk [] d n a ha).1
        have h3 : open_ [] d n = files n := by
          simp only [open_]
          rw [List.filter_eq_self]
          intro f _
          simp [hidden]
        rw [h3] at h2
        simp only [List.map_cons, List.sum_cons, allOf, hn]
        omega
    · cases h

/-- C110: for a job with its own working directory, each measurement adds up everything in its temporary directory, everything in
the cache directories named by its mounts, and everything in its working directory that is outside the mounts that already held
something when the command started. (Partial: mounts placed above the working directory, and cache directories that are the
temporary or working directory, are left out; see the `violated` theorems for what counts twice.) -/
theorem C110_counted_partial (fs0 fs : Node) (j : Job) (a tmp : Path) (hj : j.actual = some (a, tmp)) (htmp : tmp ≠ a)
    (hc : a ∉ (mountDirs j).1) (habove : ∀ m ∈ (mountDirs j).2, m <+: a → m = a)
    (u : Nat) (h : diskUsageCheck fs (plan fs0 j) = some u) :
    u = allOf fs tmp + ((mountDirs j).1.map (allOf fs)).sum + outside fs a ((mountDirs j).2.filter (Filled fs0)) := by
  simp only [diskUsageCheck, plan, hj] at h
  rw [usage_append] at h
  split at h
  · rename_i x y hx hy
    cases h
    have h1 := usage_plain fs _ _ x (by
      intro d hd
      simp only [List.cons_append, List.nil_append, List.mem_cons] at hd
      rcases hd with rfl | hd
      · simpa using htmp
      · simp only [ne_eq, Option.some.injEq]
        rintro rfl; exact hc hd) hx
    rw [h1]
    simp only [List.cons_append, List.nil_append, List.map_cons, List.sum_cons]
    congr 1
    cases hn : (dontCheck fs0 a [] (mountDirs j).2).1 with
    | true =>
      rw [hn] at hy
      simp [usage] at hy
      subst hy
      obtain ⟨m, hm, hf, rfl⟩ := (dontCheck_fst fs0 a _ []).mp hn
      simp only [outside]
      cases lookup fs m with
      | none => rfl
      | some n =>
        simp only
        rw [List.filter_eq_nil_iff.mpr]
        · rfl
        · intro f _ hall
          rw [List.all_eq_true] at hall
          have := hall m (List.mem_filter.mpr ⟨hm, hf⟩)
          have hp : m.isPrefixOf (m ++ f.1.dropLast) = true := List.isPrefixOf_iff_prefix.mpr (List.prefix_append _ _)
          rw [hp] at this
          simp at this
    | false =>
      rw [hn] at hy
      simp only [Bool.false_eq_true, if_false, usage, measure] at hy
      simp only [outside]
      cases hl : lookup fs a with
      | none => rw [hl] at hy; simp at hy
      | some n =>
        rw [hl] at hy
        simp only [if_true] at hy
        split at hy
        · rename_i p q hp hq
          cases hq
          cases hy
          have h2 := (C110_disk _ a n p hp).1
          rw [h2]
          simp only [open_, Nat.add_zero]
          congr 1
          apply List.filter_congr
          intro f _
          rw [Bool.eq_iff_iff, Bool.not_eq_true', ← Bool.not_eq_true, hidden_iff, List.all_eq_true]
          simp only [Bool.not_eq_true', ← Bool.not_eq_true, List.isPrefixOf_iff_prefix]
          constructor
          · intro hh m hm hpre
            obtain ⟨hm1, hm2⟩ := List.mem_filter.mp hm
            apply hh
            rcases Nat.lt_or_ge a.length m.length with hlen | hlen
            · obtain ⟨pre, rfl⟩ := List.prefix_of_prefix_length_le (List.prefix_append a f.1.dropLast) hpre (by omega)
              refine ⟨pre, ?_, ?_, ?_⟩
              · rintro rfl; simp at hlen
              · exact (List.prefix_append_right_inj a).mp hpre
              · rw [dontCheck_snd fs0 a _ [] hn]
                refine Or.inr ⟨hm1, hm2, ?_⟩
                rw [render_append, List.isPrefixOf_iff_prefix]
                exact List.prefix_append _ _
            · have hma : m <+: a := List.prefix_of_prefix_length_le hpre (List.prefix_append a f.1.dropLast) hlen
              have := habove m hm1 hma
              subst this
              exfalso
              have := (dontCheck_fst fs0 m (mountDirs j).2 []).mpr ⟨m, hm1, hm2, rfl⟩
              rw [hn] at this
              cases this
          · rintro hh ⟨pre, hne, hpre, hm⟩
            rw [dontCheck_snd fs0 a _ [] hn] at hm
            rcases hm with hm | ⟨hm1, hm2, _⟩
            · cases hm
            · exact hh (a ++ pre) (List.mem_filter.mpr ⟨hm1, hm2⟩) ((List.prefix_append_right_inj a).mpr hpre)
        · cases hy
  · cases h

/-- a job with a unique working directory /w/cwd and two mounts in it -/
private def exJob : Job where
  cwd := [['w']]
  actual := some ([['w'], "cwd".toList], [['w'], "tmp".toList])
  mounts := [⟨.relative [['m']], [.relative ["cache".toList]]⟩, ⟨.relative [['n']], []⟩]

private def exFs (x y : Nat) : Node := .dir true (.cons ['w'] (.dir true (.cons "cwd".toList
  (.dir true (.cons ['o'] (.file x) (.cons ['m'] (.dir true (.cons ['r'] (.file (9 * mb)) .nil)) (.cons ['n'] (.dir true
    (if y = 0 then .nil else .cons ['s'] (.file y) .nil)) .nil))))
  (.cons "tmp".toList (.dir true .nil) (.cons "cache".toList (.dir true (.cons ['k'] (.file (4 * mb)) .nil)) .nil)))) .nil)

example : diskUsageCheck (exFs (3 * mb) (2 * mb)) (plan (exFs 0 0) exJob) = some 9 := by decide +kernel
example : (∀ m ∈ (mountDirs exJob).2, m <+: [['w'], "cwd".toList] → m = [['w'], "cwd".toList]) ∧ [['w'], "cwd".toList] ∉ (mountDirs exJob).1 := by
  decide +kernel

/-- C110: where the mounts and caches of a job with its own working directory are: a mount without a directory is the working directory
itself, a relative one is in it, and a relative cache directory is beside it; `..` takes back the component before it. -/
theorem C110_places (j : Job) (a tmp : Path) (c : Str) (h : j.actual = some (a ++ [c], tmp)) (m : Mount) (hm : m ∈ j.mounts) :
    (m.at_ = .unset → a ++ [c] ∈ (mountDirs j).2) ∧
    (∀ cs, m.at_ = .relative cs → join (a ++ [c]) cs ∈ (mountDirs j).2) ∧
    (∀ cs, .relative cs ∈ m.caches → join a cs ∈ (mountDirs j).1) ∧
    (∀ p, p ∈ (mountDirs j).1 → ∃ m ∈ j.mounts, ∃ cs, .relative cs ∈ m.caches ∧ p = join a cs) ∧
    (∀ p, p ∈ (mountDirs j).2 → ∃ m ∈ j.mounts, (m.at_ = .unset ∧ p = a ++ [c]) ∨ ∃ cs, m.at_ = .relative cs ∧ p = join (a ++ [c]) cs) := by
  simp only [mountDirs, bases, h, List.dropLast_concat]
  refine ⟨?_, ?_, ?_, ?_, ?_⟩
  · intro hu; exact List.mem_filterMap.mpr ⟨m, hm, by simp [mountDir, hu]⟩
  · intro cs hu; exact List.mem_filterMap.mpr ⟨m, hm, by simp [mountDir, hu]⟩
  · intro cs hc
    exact List.mem_flatten.mpr ⟨_, List.mem_map.mpr ⟨m, hm, rfl⟩, List.mem_filterMap.mpr ⟨_, hc, rfl⟩⟩
  · intro p hp
    obtain ⟨l, hl, hp⟩ := List.mem_flatten.mp hp
    obtain ⟨m, hm, rfl⟩ := List.mem_map.mp hl
    obtain ⟨g, hg, hp⟩ := List.mem_filterMap.mp hp
    cases g with
    | relative cs => simp only [cacheDir, Option.some.injEq] at hp; exact ⟨m, hm, cs, hg, hp.symm⟩
    | _ => cases hp
  · intro p hp
    obtain ⟨m, hm, hp⟩ := List.mem_filterMap.mp hp
    refine ⟨m, hm, ?_⟩
    cases hg : m.at_ with
    | relative cs => rw [hg] at hp; simp only [mountDir, Option.some.injEq] at hp; exact Or.inr ⟨cs, rfl, hp.symm⟩
    | unset => rw [hg] at hp; simp only [mountDir, Option.some.injEq] at hp; exact Or.inl ⟨rfl, hp.symm⟩
    | absolute q => rw [hg] at hp; cases hp

/-- C110: joining paths: ordinary components are added, `.` and empty ones are not, and `..` takes back the one before. -/
theorem C110_join (base : Path) (c : Str) (cs : List Str) :
    join base [] = base ∧ join base ([] :: cs) = join base cs ∧ join base (['.'] :: cs) = join base cs ∧
    join (base ++ [c]) (['.', '.'] :: cs) = join base cs ∧
    (c ≠ [] → c ≠ ['.'] → c ≠ ['.', '.'] → join base (c :: cs) = join (base ++ [c]) cs) := by
  refine ⟨rfl, by simp [join], by simp [join], by simp [join], ?_⟩
  intro h1 h2 h3
  simp [join, h1, h2, h3]

example : ∃ m, m ∈ exJob.mounts ∧ m.at_ = .relative [['m']] := ⟨_, List.mem_cons_self, rfl⟩

/-- C110 is violated: any number of files of one byte less than a MB count as nothing. -/
theorem C110_violated_small (k : Nat) : ∃ n : Node, bytes (files n) = k * (MiB - 1) ∧ (files n).length = k ∧
    ∀ skip path, currentDisk skip path n = some 0 := by
  suffices h : ∃ es, bytes (filesIn es) = k * (MiB - 1) ∧ (filesIn es).length = k ∧ ∀ skip path, diskOf skip path es = some 0 by
    obtain ⟨es, h1, h2, h3⟩ := h
    exact ⟨.dir true es, h1, h2, fun skip path => by simp [currentDisk, h3]⟩
  induction k with
  | zero => exact ⟨.nil, rfl, rfl, fun _ _ => rfl⟩
  | succ k ih =>
    obtain ⟨es, h1, h2, h3⟩ := ih
    refine ⟨.cons (List.replicate k 'x') (.file (MiB - 1)) es, ?_, ?_, ?_⟩
    · simp only [filesIn, files, bytes, List.map_cons, List.map_nil, List.cons_append, List.nil_append, List.sum_cons] at h1 ⊢
      rw [h1, Nat.add_mul]; omega
    · simp [filesIn, files, h2]
    · intro skip path
      simp only [diskOf, h3]
      decide

/-- C110 is violated: a cache directory that two targets of a job name counts twice, whatever is in it. -/
theorem C110_violated_twice (size : Nat) : ∃ (fs : Node) (j : Job), bytes (files fs) = size ∧
    diskUsageCheck fs (plan fs j) = some (2 * (size / MiB)) := by
  refine ⟨.dir true (.cons ['w'] (.dir true (.cons "cwd".toList (.dir true .nil) (.cons "tmp".toList (.dir true .nil)
    (.cons "cache".toList (.dir true (.cons ['k'] (.file size) .nil)) .nil)))) .nil),
    { cwd := [['w']], actual := some ([['w'], "cwd".toList], [['w'], "tmp".toList]),
      mounts := [⟨.relative [['m']], [.relative ["cache".toList], .relative ["cache".toList]]⟩] }, ?_, ?_⟩
  · simp [files, filesIn, bytes]
  · have : "cwd".toList ≠ "tmp".toList := by decide
    have h2 : "cwd".toList ≠ "cache".toList := by decide
    have h3 : "tmp".toList ≠ "cache".toList := by decide
    simp [diskUsageCheck, plan, mountDirs, bases, cacheDir, mountDir, join, dontCheck, startsEmpty, lookup, lookupIn, render, usage, measure,
      currentDisk, diskOf, mb_eq]
    omega

/-- C110 is violated: nothing that a job writes in its own cwd (cwd_matters) is measured. -/
theorem C110_violated_cwdmatters (fs0 fs : Node) (j : Job) (h : j.actual = none) (hc : (mountDirs j).1 = []) :
    diskUsageCheck fs (plan fs0 j) = some 0 := by
  simp [diskUsageCheck, plan, h, hc, usage]

example : (mountDirs { cwd := [['w']], actual := none, mounts := [⟨.unset, [.absolute []]⟩] }).1 = [] := by decide

/-! ### Processes -/

mutual
/-- the kB of every process of a tree whose memory can be read -/
def kbs : Proc → List Nat
  | .mk _ pss _ _ kids => pss.toList ++ kbsOf kids
/-- the same for several -/
def kbsOf : Procs → List Nat
  | .nil => []
  | .cons p rest => kbs p ++ kbsOf rest
end

mutual
/-- every process of the tree can be looked into -/
def clear : Proc → Bool
  | .mk _ pss known listed kids => pss.isSome && known && listed && clearAll kids
/-- the same for several -/
def clearAll : Procs → Bool
  | .nil => true
  | .cons p rest => clear p && clearAll rest
end

mutual
/-- the pids of a tree of processes -/
def allPids : Proc → List Nat
  | .mk pid _ _ _ kids => pid :: allPidsOf kids
/-- the same for several -/
def allPidsOf : Procs → List Nat
  | .nil => []
  | .cons p rest => allPids p ++ allPidsOf rest
end

mutual
private theorem mem_le : (p : Proc) → (m : Nat) → currentMemory p = some m → m * 1024 ≤ (kbs p).sum
  | .mk _ none _ _ _, m, h => by simp [currentMemory] at h
  | .mk _ (some kb) known listed kids, m, h => by
    simp only [currentMemory] at h
    split at h
    · simp only [Option.some.injEq] at h
      subst h
      simp only [kbs, Option.toList_some, List.sum_append, List.sum_cons, List.sum_nil, Nat.add_zero, Nat.add_mul]
      exact Nat.add_le_add (Nat.div_mul_le_self kb 1024) (mems_le kids)
    · cases h
private theorem mems_le : (ps : Procs) → memoryOf ps * 1024 ≤ (kbsOf ps).sum
  | .nil => by simp [memoryOf]
  | .cons p rest => by
    have h1 := mems_le rest
    simp only [memoryOf, kbsOf, List.sum_append]
    rw [Nat.add_mul]
    apply Nat.add_le_add ?_ h1
    cases hp : currentMemory p with
    | none => simp only [Nat.zero_mul]; exact Nat.zero_le _
    | some m => exact mem_le p m hp
end

mutual
private theorem mem_ge : (p : Proc) → clear p = true → ∃ m, currentMemory p = some m ∧ (kbs p).sum ≤ m * 1024 + 1023 * (kbs p).length
  | .mk _ none _ _ _, h => by simp [clear] at h
  | .mk _ (some kb) known listed kids, h => by
    simp only [clear, Bool.and_eq_true] at h
    obtain ⟨⟨⟨_, hk⟩, hl⟩, hc⟩ := h
    refine ⟨kb / 1024 + memoryOf kids, by simp only [currentMemory, hk, hl, Bool.and_self, if_true], ?_⟩
    have := mems_ge kids hc
    simp only [kbs, Option.toList_some, List.sum_append, List.sum_cons, List.sum_nil, List.length_append, List.length_cons, List.length_nil]
    have := Nat.div_add_mod kb 1024
    have := Nat.mod_lt kb (show 1024 > 0 by decide)
    omega
private theorem mems_ge : (ps : Procs) → clearAll ps = true → (kbsOf ps).sum ≤ memoryOf ps * 1024 + 1023 * (kbsOf ps).length
  | .nil, _ => by simp [kbsOf]
  | .cons p rest, h => by
    simp only [clearAll, Bool.and_eq_true] at h
    obtain ⟨m, hm, hle⟩ := mem_ge p h.1
    have := mems_ge rest h.2
    simp only [memoryOf, kbsOf, hm, List.sum_append, List.length_append]
    omega
end

/-- C110: the measured memory is never more than what the process and its descendants use. -/
theorem C110_memory (p : Proc) (m : Nat) (h : currentMemory p = some m) : m * 1024 ≤ (kbs p).sum := mem_le p m h

/-- C110: if every one of them can be looked into, the measurement works and is less than what they use by under a MB each.
(Partial: that is needed, see `C110_violated_hidden`.) -/
theorem C110_memory_partial (p : Proc) (h : clear p = true) :
    ∃ m, currentMemory p = some m ∧ (kbs p).sum ≤ m * 1024 + 1023 * (kbs p).length := mem_ge p h

/-- C110 is violated: what the children of a process use is not counted if that process can't be looked into, although they can. -/
theorem C110_violated_hidden (kb : Nat) : ∃ p, (kbs p).sum = kb ∧ currentMemory p = some 0 :=
  ⟨.mk 1 (some 0) true true (.cons (.mk 2 none true true (.cons (.mk 3 (some kb) true true .nil) .nil)) .nil),
    by simp [kbs, kbsOf], by simp [currentMemory, memoryOf]⟩

example : clear (.mk 1 (some 5000) true true (.cons (.mk 2 (some 2047) true true .nil) .nil)) = true ∧
    currentMemory (.mk 1 (some 5000) true true (.cons (.mk 2 (some 2047) true true .nil) .nil)) = some 5 := by decide

mutual
private theorem kids_sub : (p : Proc) → ∀ l, childProcesses p = some l → ∀ x ∈ l, x ∈ allPids p
  | .mk pid pss known listed kids => by
    intro l h x hx
    simp only [childProcesses] at h
    split at h
    · cases h; cases hx
    · split at h
      · cases h
      · cases h
        simp only [allPids, List.mem_cons]
        right
        rcases List.mem_append.mp hx with hx | hx
        · exact pids_sub kids x hx
        · exact below_sub kids x hx
private theorem pids_sub : (ps : Procs) → ∀ x ∈ pids ps, x ∈ allPidsOf ps
  | .nil => by simp [pids]
  | .cons (.mk pid a b c kids) rest => by
    intro x hx
    simp only [pids, List.mem_cons] at hx
    simp only [allPidsOf, allPids, List.mem_append, List.mem_cons]
    rcases hx with hx | hx
    · exact Or.inl (Or.inl hx)
    · exact Or.inr (pids_sub rest x hx)
private theorem below_sub : (ps : Procs) → ∀ x ∈ below ps, x ∈ allPidsOf ps
  | .nil => by simp [below]
  | .cons p rest => by
    intro x hx
    simp only [below, List.mem_append] at hx
    simp only [allPidsOf, List.mem_append]
    rcases hx with hx | hx
    · left
      cases hp : childProcesses p with
      | none => rw [hp] at hx; cases hx
      | some l => rw [hp] at hx; exact kids_sub p l hp x hx
    · exact Or.inr (below_sub rest x hx)
end

mutual
private theorem kids_all : (p : Proc) → clear p = true → ∃ l, childProcesses p = some l ∧
    ∀ x, x ∈ allPids p → x = (match p with | .mk pid _ _ _ _ => pid) ∨ x ∈ l
  | .mk pid pss known listed kids, h => by
    simp only [clear, Bool.and_eq_true] at h
    obtain ⟨⟨⟨_, hk⟩, hl⟩, hc⟩ := h
    refine ⟨pids kids ++ below kids, by simp only [childProcesses, hk, hl, Bool.not_true, Bool.false_eq_true, if_false], ?_⟩
    intro x hx
    simp only [allPids, List.mem_cons] at hx
    rcases hx with hx | hx
    · exact Or.inl hx
    · exact Or.inr (List.mem_append.mpr (kids_alls kids hc x hx))
private theorem kids_alls : (ps : Procs) → clearAll ps = true → ∀ x ∈ allPidsOf ps, x ∈ pids ps ∨ x ∈ below ps
  | .nil, _ => by simp [allPidsOf]
  | .cons (.mk pid a b c kids) rest, h => by
    intro x hx
    simp only [clearAll, Bool.and_eq_true] at h
    simp only [allPidsOf, List.mem_append] at hx
    obtain ⟨l, hl, hall⟩ := kids_all (.mk pid a b c kids) h.1
    simp only [pids, below, hl, List.mem_cons, List.mem_append]
    rcases hx with hx | hx
    · rcases hall x hx with hx | hx
      · exact Or.inl (Or.inl hx)
      · exact Or.inr (Or.inl hx)
    · rcases kids_alls rest h.2 x hx with hx | hx
      · exact Or.inl (Or.inr hx)
      · exact Or.inr (Or.inr hx)
end

private theorem child_pss (pid : Nat) (a b : Option Nat) (k l : Bool) (ps : Procs) :
    childProcesses (.mk pid a k l ps) = childProcesses (.mk pid b k l ps) := rfl

/-- C110: killing a command sends signals to the command's process and processes below it only. -/
theorem C110_killed (p : Proc) : ∀ x ∈ killCmd p, x ∈ allPids p := by
  obtain ⟨pid, pss, known, listed, kids⟩ := p
  intro x hx
  simp only [killCmd, List.mem_cons] at hx
  rcases hx with hx | hx
  · simp [allPids, hx]
  · cases hp : childProcesses (.mk pid none known listed kids) with
    | none => rw [hp] at hx; cases hx
    | some l => rw [hp] at hx; exact kids_sub (.mk pid pss known listed kids) l hp x hx

/-- C110: it sends them to all of those, if every one can be looked into. (Partial: needed, see `C110_violated_kill`; and those the
command starts while it is being killed are not in the tree.) -/
theorem C110_killed_partial (p : Proc) (h : clear p = true) : ∀ x, x ∈ allPids p ↔ x ∈ killCmd p := by
  intro x
  refine ⟨?_, C110_killed p x⟩
  obtain ⟨pid, pss, known, listed, kids⟩ := p
  intro hx
  obtain ⟨l, hl, hall⟩ := kids_all _ h
  rw [child_pss pid pss none] at hl
  simp only [killCmd, hl, List.mem_cons]
  exact hall x hx

/-- C110 is violated: descendants of a process whose children can't be listed are left running. -/
theorem C110_violated_kill : ∃ p x, x ∈ allPids p ∧ x ∉ killCmd p :=
  ⟨.mk 1 (some 0) true true (.cons (.mk 2 (some 0) true false (.cons (.mk 3 (some 0) true true .nil) .nil)) .nil), 3, by decide, by decide⟩

/-! ### Peaks -/

private theorem watch_snoc (ram : Nat) (rs : List Reading) (r : Reading) : watch ram (rs ++ [r]) = check ram (watch ram rs) r := by
  simp [watch]

/-- the amounts that readings gave before the command was killed for its memory, that last one included -/
def Read (ram : Nat) (rs : List Reading) (r : Reading) : Prop :=
  ∃ before after, rs = before ++ r :: after ∧ (watch ram before).killed = false

private theorem read_snoc (ram : Nat) (rs : List Reading) (x r : Reading) :
    Read ram (rs ++ [x]) r ↔ Read ram rs r ∨ (r = x ∧ (watch ram rs).killed = false) := by
  constructor
  · rintro ⟨b, a, he, hk⟩
    rcases List.eq_nil_or_concat a with rfl | ⟨a', y, rfl⟩
    · obtain ⟨h1, h2⟩ := List.append_inj' he rfl
      cases h2; subst h1
      exact Or.inr ⟨rfl, hk⟩
    · rw [List.concat_eq_append, ← List.cons_append, ← List.append_assoc] at he
      obtain ⟨h1, h2⟩ := List.append_inj' he rfl
      exact Or.inl ⟨b, a', h1, hk⟩
  · rintro (⟨b, a, rfl, hk⟩ | ⟨rfl, hk⟩)
    · exact ⟨b, a ++ [x], by simp, hk⟩
    · exact ⟨rs, [], rfl, hk⟩

private theorem snoc_ind {α : Type} {P : List α → Prop} (h0 : P []) (h1 : ∀ l a, P l → P (l ++ [a])) (l : List α) : P l := by
  rw [← List.reverse_reverse l]
  induction l.reverse with
  | nil => exact h0
  | cons a l ih => rw [List.reverse_cons]; exact h1 _ _ ih

private theorem disk_keeps (s : Peaks) (x : Reading) : (checkDisk s x).mem = s.mem ∧ (checkDisk s x).ranoutMem = s.ranoutMem ∧
    (checkDisk s x).killed = s.killed ∧ (checkDisk s x).machineRAM = s.machineRAM := by
  unfold checkDisk
  cases x.disk with
  | none => exact ⟨rfl, rfl, rfl, rfl⟩
  | some d => by_cases h : d > s.disk <;> simp [h]

private theorem check_mem (ram : Nat) (s : Peaks) (x : Reading) (hk : s.killed = false) : (check ram s x).mem = (checkMem ram s x).mem := by
  simp only [check, hk, Bool.false_eq_true, if_false]
  split
  · rfl
  · exact (disk_keeps _ _).1

private theorem check_ran (ram : Nat) (s : Peaks) (x : Reading) (hk : s.killed = false) :
    (check ram s x).ranoutMem = (checkMem ram s x).ranoutMem := by
  simp only [check, hk, Bool.false_eq_true, if_false]
  split
  · rfl
  · exact (disk_keeps _ _).2.1

private theorem check_killed (ram : Nat) (s : Peaks) (x : Reading) (hk : s.killed = false) :
    (check ram s x).killed = (checkMem ram s x).killed := by
  simp only [check, hk, Bool.false_eq_true, if_false]
  split
  · rfl
  · exact (disk_keeps _ _).2.2.1

private theorem check_machine (ram : Nat) (s : Peaks) (x : Reading) (hk : s.killed = false) :
    (check ram s x).machineRAM = (checkMem ram s x).machineRAM := by
  simp only [check, hk, Bool.false_eq_true, if_false]
  split
  · rfl
  · exact (disk_keeps _ _).2.2.2

private theorem watch_mem (ram : Nat) (rs : List Reading) :
    ((watch ram rs).mem = 0 ∨ ∃ r, Read ram rs r ∧ r.total = some (watch ram rs).mem) ∧
    (∀ r t, Read ram rs r → r.total = some t → t ≤ (watch ram rs).mem) ∧
    ((watch ram rs).ranoutMem = true ↔ ∃ r t, Read ram rs r ∧ r.total = some t ∧ t > ram) ∧
    ((watch ram rs).ranoutMem = true ↔ (watch ram rs).mem > ram) := by
  induction rs using snoc_ind with
  | h0 =>
    refine ⟨Or.inl rfl, ?_, ?_, ?_⟩
    · rintro r t ⟨b, a, h, _⟩; simp at h
    · constructor
      · intro h; cases h
      · rintro ⟨r, t, ⟨b, a, h, _⟩, _⟩; simp at h
    · simp [watch]
  | h1 rs x ih =>
    obtain ⟨i1, i2, i3, i4⟩ := ih
    rw [watch_snoc]
    simp only [read_snoc]
    generalize watch ram rs = s at *
    by_cases hk : s.killed = true
    · have : check ram s x = s := by simp [check, hk]
      simp only [this, hk, Bool.true_eq_false, and_false, or_false]
      exact ⟨i1, i2, i3, i4⟩
    · simp only [Bool.not_eq_true] at hk
      have hmem : (check ram s x).mem = (match x.total with | some m => if m > s.mem then m else s.mem | none => s.mem) := by
        rw [check_mem ram s x hk, checkMem]
        cases x.total with
        | none => rfl
        | some m => by_cases h1 : m > s.mem <;> by_cases h2 : m > ram <;> simp [h1, h2]
      have hran : (check ram s x).ranoutMem = (match x.total with | some m => if m > s.mem ∧ m > ram then true else s.ranoutMem | none => s.ranoutMem) := by
        rw [check_ran ram s x hk, checkMem]
        cases x.total with
        | none => rfl
        | some m => by_cases h1 : m > s.mem <;> by_cases h2 : m > ram <;> simp [h1, h2]
      rw [hmem, hran]
      cases ht : x.total with
      | none =>
        simp only
        refine ⟨?_, ?_, ?_, i4⟩
        · rcases i1 with h | ⟨r, h1, h2⟩
          · exact Or.inl h
          · exact Or.inr ⟨r, Or.inl h1, h2⟩
        · rintro r t (h | ⟨rfl, _⟩) h2
          · exact i2 r t h h2
          · rw [ht] at h2; cases h2
        · rw [i3]
          constructor
          · rintro ⟨r, t, h1, h2⟩; exact ⟨r, t, Or.inl h1, h2⟩
          · rintro ⟨r, t, h | ⟨rfl, _⟩, h2, h3⟩
            · exact ⟨r, t, h, h2, h3⟩
            · rw [ht] at h2; cases h2
      | some m =>
        simp only
        by_cases hm : m > s.mem
        · simp only [hm, if_true, true_and]
          refine ⟨Or.inr ⟨x, Or.inr ⟨rfl, hk⟩, ht⟩, ?_, ?_, ?_⟩
          · rintro r t (h | ⟨rfl, _⟩) h2
            · have := i2 r t h h2; omega
            · rw [ht] at h2; cases h2; omega
          · constructor
            · intro h
              split at h
              · exact ⟨x, m, Or.inr ⟨rfl, hk⟩, ht, by assumption⟩
              · obtain ⟨r, t, h1, h2⟩ := i3.mp h; exact ⟨r, t, Or.inl h1, h2⟩
            · rintro ⟨r, t, h | ⟨rfl, _⟩, h2, h3⟩
              · split
                · rfl
                · exact i3.mpr ⟨r, t, h, h2, h3⟩
              · rw [ht] at h2; cases h2; rw [if_pos h3]
          · split
            · rename_i h; exact ⟨fun _ => h, fun _ => rfl⟩
            · rename_i h
              constructor
              · intro h'; have := i4.mp h'; omega
              · intro h'; exact absurd h' h
        · simp only [hm, if_false, false_and]
          refine ⟨?_, ?_, ?_, i4⟩
          · rcases i1 with h | ⟨r, h1, h2⟩
            · exact Or.inl h
            · exact Or.inr ⟨r, Or.inl h1, h2⟩
          · rintro r t (h | ⟨rfl, _⟩) h2
            · exact i2 r t h h2
            · rw [ht] at h2; cases h2; omega
          · rw [i3]
            constructor
            · rintro ⟨r, t, h1, h2⟩; exact ⟨r, t, Or.inl h1, h2⟩
            · rintro ⟨r, t, h | ⟨rfl, _⟩, h2, h3⟩
              · exact ⟨r, t, h, h2, h3⟩
              · rw [ht] at h2; cases h2
                exact i3.mp (i4.mpr (by omega))

/-- C110: the reported peak of memory is the highest of the amounts read while the command ran and the kernel's own figure, plus
what the runner itself uses (10 MB if that is not known). -/
theorem C110_peak_memory (ram : Nat) (rs : List Reading) (maxrss : Nat) (own final : Option Nat) :
    ∃ m, (report (watch ram rs) maxrss own final).1 = m + own.getD 10 ∧
      (m = maxrss / 1024 ∨ ∃ r, Read ram rs r ∧ r.total = some m) ∧
      maxrss / 1024 ≤ m ∧ ∀ r t, Read ram rs r → r.total = some t → t ≤ m := by
  obtain ⟨i1, i2, -, -⟩ := watch_mem ram rs
  simp only [report]
  by_cases h : maxrss / 1024 > (watch ram rs).mem
  · refine ⟨maxrss / 1024, by rw [if_pos h], Or.inl rfl, Nat.le_refl _, fun r t h1 h2 => ?_⟩
    have := i2 r t h1 h2; omega
  · refine ⟨(watch ram rs).mem, by rw [if_neg h], ?_, by omega, i2⟩
    rcases i1 with h0 | h1
    · left; omega
    · exact Or.inr h1

/-- C110: the command is taken to have run out of memory exactly if some reading was above what the job asked for. -/
theorem C110_ranout (ram : Nat) (rs : List Reading) :
    (watch ram rs).ranoutMem = true ↔ ∃ r t, Read ram rs r ∧ r.total = some t ∧ t > ram := (watch_mem ram rs).2.2.1

/-- C110 is violated: a command that used any amount more memory than asked for between two readings is not taken to have run out of
memory, although what is reported as its peak is more than was asked for. -/
theorem C110_violated_ranout (ram more : Nat) (h : 0 < more) : ∃ maxrss, (watch ram []).ranoutMem = false ∧
    (report (watch ram []) maxrss (some 0) none).1 = ram + more := by
  refine ⟨(ram + more) * 1024, rfl, ?_⟩
  have h0 : (watch ram []).mem = 0 := rfl
  simp only [report, h0]
  rw [Nat.mul_div_cancel _ (by decide : 0 < 1024)]
  simp
  omega

/-- C110 is violated: what docker says a container uses is not counted in a reading in which the memory of the command itself could
not be read. -/
theorem C110_violated_docker (ram d : Nat) (x y : Option Nat) : (watch ram [⟨none, some d, x, y⟩]).mem = 0 := by
  simp only [watch, List.foldl_cons, List.foldl_nil, check, checkMem, Reading.total, Bool.false_eq_true, if_false]
  exact (disk_keeps _ _).1

/-- the machine's memory could be found out when the first reading above what was asked for was made -/
def Known (ram M : Nat) (rs : List Reading) : Prop := ∀ before r after, rs = before ++ r :: after →
  (∀ x ∈ before, ∀ t, x.total = some t → t ≤ ram) → ∀ t, r.total = some t → t > ram → r.machine = some M

private theorem known_init (ram M : Nat) (rs : List Reading) (x : Reading) (h : Known ram M (rs ++ [x])) : Known ram M rs := by
  intro b r a he
  exact h b r (a ++ [x]) (by rw [he]; simp)

private theorem all_read (ram : Nat) (rs : List Reading) : (watch ram rs).killed = false → ∀ r ∈ rs, Read ram rs r := by
  induction rs using snoc_ind with
  | h0 => intro _ r hr; cases hr
  | h1 rs x ih =>
    intro hk r hr
    rw [watch_snoc] at hk
    have hk' : (watch ram rs).killed = false := by
      cases h : (watch ram rs).killed with
      | false => rfl
      | true => simp [check, h] at hk
    rw [read_snoc]
    rcases List.mem_append.mp hr with hr | hr
    · exact Or.inl (ih hk' r hr)
    · simp only [List.mem_singleton] at hr; exact Or.inr ⟨hr, hk'⟩

private theorem watch_kill (ram M : Nat) (hM : 0 < M) (rs : List Reading) : Known ram M rs →
    ((watch ram rs).machineRAM = if (watch ram rs).ranoutMem then M else 0) ∧
    ((watch ram rs).killed = true ↔ ((watch ram rs).mem > ram ∧ (watch ram rs).mem ≥ M / 100 * 90)) := by
  induction rs using snoc_ind with
  | h0 => intro _; simp [watch]
  | h1 rs x ih =>
    intro hr
    obtain ⟨i1, i2⟩ := ih (known_init _ _ _ _ hr)
    have hall := all_read ram rs
    obtain ⟨-, -, j3, -⟩ := watch_mem ram rs
    rw [watch_snoc]
    generalize watch ram rs = s at *
    by_cases hk : s.killed = true
    · have : check ram s x = s := by simp [check, hk]
      rw [this]; exact ⟨i1, i2⟩
    · have hk' : s.killed = false := by simpa using hk
      have hn : ¬ (s.mem > ram ∧ s.mem ≥ M / 100 * 90) := fun h => hk (i2.mpr h)
      have hmach : ∀ t, x.total = some t → t > ram → (if s.machineRAM = 0 then x.machine.getD 0 else s.machineRAM) = M := by
        intro t ht hgt
        cases hran : s.ranoutMem with
        | true => rw [i1, hran]; simp; omega
        | false =>
          rw [i1, hran]
          have := hr rs x [] rfl (by
            intro y hy u hu
            rcases Nat.lt_or_ge ram u with hlt | hge
            · have := j3.mpr ⟨y, u, hall hk' y hy, hu, hlt⟩
              rw [hran] at this; cases this
            · exact hge) t ht hgt
          simp [this]
      rw [check_mem ram s x hk', check_killed ram s x hk', check_machine ram s x hk', check_ran ram s x hk', checkMem]
      cases ht : x.total with
      | none => simp only; exact ⟨i1, i2⟩
      | some m =>
        by_cases h1 : m > s.mem <;> by_cases h2 : m > ram <;> simp only [h1, h2, if_true, if_false]
        · simp [hmach m ht h2, hM, percentMemoryKill]
        · simp [hk', i1]
        · exact ⟨i1, i2⟩
        · exact ⟨i1, i2⟩

/-- C110: on a machine whose memory can be found out, the command is killed for its memory exactly if some reading was above what
the job asked for and at least 90 times the whole hundreds of MBs of the machine. -/
theorem C110_memkill (ram M : Nat) (hM : 0 < M) (rs : List Reading) (h : Known ram M rs) :
    (watch ram rs).killed = true ↔ ∃ r t, Read ram rs r ∧ r.total = some t ∧ t > ram ∧ t ≥ M / 100 * 90 := by
  obtain ⟨i1, i2, -, -⟩ := watch_mem ram rs
  rw [(watch_kill ram M hM rs h).2]
  constructor
  · rintro ⟨h1, h2⟩
    rcases i1 with h0 | ⟨r, hr, ht⟩
    · omega
    · exact ⟨r, _, hr, ht, h1, h2⟩
  · rintro ⟨r, t, hr, ht, h1, h2⟩
    have := i2 r t hr ht
    exact ⟨by omega, by omega⟩

/-- C110: so it is never killed while it uses less than its job asked for, nor below 90% of the machine's memory less 90 MB; and
always when a reading is above both what was asked for and 90% of the machine's memory. -/
theorem C110_memkill_partial (ram M : Nat) (hM : 0 < M) (rs : List Reading) (h : Known ram M rs) :
    ((watch ram rs).killed = true → ∃ r t, Read ram rs r ∧ r.total = some t ∧ t > ram ∧ 100 * (t + 90) > 90 * M) ∧
    ((∃ r t, Read ram rs r ∧ r.total = some t ∧ t > ram ∧ 100 * t ≥ 90 * M) → (watch ram rs).killed = true) := by
  rw [C110_memkill ram M hM rs h]
  constructor
  · rintro ⟨r, t, hr, ht, h1, h2⟩
    exact ⟨r, t, hr, ht, h1, by omega⟩
  · rintro ⟨r, t, hr, ht, h1, h2⟩
    exact ⟨r, t, hr, ht, h1, by omega⟩

/-- C110: while the machine's memory can't be found out, nothing is killed. -/
theorem C110_unknown (ram : Nat) (rs : List Reading) (h : ∀ r ∈ rs, r.machine = none) :
    (watch ram rs).killed = false := by
  suffices h2 : (watch ram rs).killed = false ∧ (watch ram rs).machineRAM = 0 from h2.1
  revert h
  induction rs using snoc_ind with
  | h0 => intro _; exact ⟨rfl, rfl⟩
  | h1 rs x ih =>
    intro hr
    obtain ⟨i1, i2⟩ := ih (fun r h => hr r (List.mem_append_left _ h))
    have hx := hr x (by simp)
    rw [watch_snoc]
    generalize watch ram rs = s at *
    rw [check_killed ram s x i1, check_machine ram s x i1, checkMem]
    cases x.total with
    | none => exact ⟨i1, i2⟩
    | some m => by_cases h1 : m > s.mem <;> by_cases h2 : m > ram <;> simp [h1, h2, i1, i2, hx]

/-- C110: the amount of a reading is the memory of the processes, or docker's figure if that is higher; there is none if the former
can't be read. -/
theorem C110_amount (r : Reading) (t : Nat) : r.total = some t ↔ ∃ m, r.mem = some m ∧ t = max m (r.docker.getD 0) := by
  unfold Reading.total
  cases r.mem with
  | none => simp
  | some m =>
    cases r.docker with
    | none => simp [eq_comm]
    | some d =>
      simp only [Option.some.injEq, Option.getD_some, exists_eq_left']
      rw [show (if d > m then d else m) = max m d by split <;> omega]
      exact ⟨Eq.symm, Eq.symm⟩

/-- C110 is violated: a command that uses less than 90% of the machine's memory is killed for it. -/
theorem C110_violated_ninety : ∃ ram M t, (watch ram [⟨some t, none, none, some M⟩]).killed = true ∧ 100 * t < 90 * M :=
  ⟨1000, 16099, 14400, by decide, by decide⟩

private theorem watch_disk (ram : Nat) (rs : List Reading) :
    ((watch ram rs).disk = 0 ∨ ∃ r ∈ rs, r.disk = some (watch ram rs).disk) ∧
    ((watch ram rs).killed = false → ∀ r ∈ rs, ∀ d, r.disk = some d → d ≤ (watch ram rs).disk) := by
  induction rs using snoc_ind with
  | h0 => exact ⟨Or.inl rfl, by simp⟩
  | h1 rs x ih =>
    obtain ⟨i1, i2⟩ := ih
    rw [watch_snoc]
    generalize watch ram rs = s at *
    have key : ((check ram s x).disk = s.disk ∨ x.disk = some (check ram s x).disk) ∧
        ((check ram s x).killed = false → s.killed = false ∧ s.disk ≤ (check ram s x).disk ∧ ∀ d, x.disk = some d → d ≤ (check ram s x).disk) := by
      by_cases hk : s.killed = true
      · simp [check, hk]
      · have hk' : s.killed = false := by simpa using hk
        have hd : (checkMem ram s x).disk = s.disk := by
          unfold checkMem
          cases x.total with
          | none => rfl
          | some m => by_cases h1 : m > s.mem <;> by_cases h2 : m > ram <;> simp [h1, h2]
        simp only [check, hk', Bool.false_eq_true, if_false, true_and]
        generalize checkMem ram s x = q at *
        by_cases hq : q.killed = true
        · simp [hq, hd]
        · simp only [hq, Bool.false_eq_true, if_false, checkDisk]
          cases x.disk with
          | none => simp [hd]
          | some d =>
            by_cases hlt : d > q.disk
            · simp only [hlt, if_true]
              exact ⟨Or.inr trivial, fun _ => ⟨by omega, fun e he => by cases he; exact Nat.le_refl _⟩⟩
            · simp only [hlt, if_false]
              exact ⟨Or.inl hd, fun _ => ⟨by omega, fun e he => by cases he; omega⟩⟩
    obtain ⟨k1, k2⟩ := key
    constructor
    · rcases k1 with h | h
      · rw [h]
        rcases i1 with h0 | ⟨r, hr, hd⟩
        · exact Or.inl h0
        · exact Or.inr ⟨r, List.mem_append_left _ hr, hd⟩
      · exact Or.inr ⟨x, by simp, h⟩
    · intro hk r hr d hd
      obtain ⟨ks, kl, kx⟩ := k2 hk
      rcases List.mem_append.mp hr with hr | hr
      · have := i2 ks r hr d hd; omega
      · simp only [List.mem_singleton] at hr; subst hr; exact kx d hd

/-- C110: the reported peak of disk use is one of the measurements (or none worked), and unless the command was killed for its memory
at least all of them, including the one made after it ended. -/
theorem C110_peak_disk (ram : Nat) (rs : List Reading) (maxrss : Nat) (own final : Option Nat) :
    let peak := (report (watch ram rs) maxrss own final).2
    (peak = 0 ∨ some peak = final ∨ ∃ r ∈ rs, r.disk = some peak) ∧ (∀ d, final = some d → d ≤ peak) ∧
    ((watch ram rs).killed = false → ∀ r ∈ rs, ∀ d, r.disk = some d → d ≤ peak) := by
  obtain ⟨i1, i2⟩ := watch_disk ram rs
  simp only [report]
  generalize watch ram rs = s at *
  cases final with
  | none =>
    simp only
    refine ⟨?_, by simp, i2⟩
    rcases i1 with h | h
    · exact Or.inl h
    · exact Or.inr (Or.inr h)
  | some f =>
    simp only
    split
    · refine ⟨Or.inr (Or.inl rfl), by intro d hd; cases hd; omega, fun hk r hr d hd => ?_⟩
      have := i2 hk r hr d hd; omega
    · refine ⟨?_, by intro d hd; cases hd; omega, i2⟩
      rcases i1 with h | h
      · exact Or.inl h
      · exact Or.inr (Or.inr h)

/-- C110 is violated: one directory that can't be read, put in its working directory by the command, makes all measurements fail, so
that no disk use is reported whatever is written. -/
theorem C110_violated_unreadable (size ram : Nat) : ∃ (fs0 fs : Node) (j : Job), bytes (files fs) = size ∧ j.actual ≠ none ∧
    ∀ (rs : List Reading) maxrss own, (∀ r ∈ rs, r.disk = diskUsageCheck fs (plan fs0 j)) →
      (report (watch ram rs) maxrss own (diskUsageCheck fs (plan fs0 j))).2 = 0 := by
  refine ⟨.dir true .nil, .dir true (.cons ['w'] (.dir true (.cons "cwd".toList (.dir true (.cons ['k'] (.file size) (.cons ['l'] (.dir false .nil) .nil)))
    (.cons "tmp".toList (.dir true .nil) .nil))) .nil),
    { cwd := [['w']], actual := some ([['w'], "cwd".toList], [['w'], "tmp".toList]), mounts := [] }, ?_, by simp, ?_⟩
  · simp [files, filesIn, bytes]
  · have hn : diskUsageCheck (.dir true (.cons ['w'] (.dir true (.cons "cwd".toList (.dir true (.cons ['k'] (.file size) (.cons ['l'] (.dir false .nil) .nil)))
        (.cons "tmp".toList (.dir true .nil) .nil))) .nil)) (plan (.dir true .nil)
        { cwd := [['w']], actual := some ([['w'], "cwd".toList], [['w'], "tmp".toList]), mounts := [] }) = none := by
      simp [diskUsageCheck, plan, mountDirs, bases, dontCheck, lookup, lookupIn, usage, measure, currentDisk, diskOf]
    rw [hn]
    intro rs maxrss own hr
    simp only [report]
    rcases (watch_disk ram rs).1 with h | ⟨r, hr1, hr2⟩
    · exact h
    · rw [hr r hr1] at hr2; cases hr2

example : ∃ r, Read 100 [⟨some 50, none, some 7, some 1000⟩, ⟨some 950, none, some 9, some 1000⟩] r ∧ r.total = some 950 :=
  ⟨⟨some 950, none, some 9, some 1000⟩, ⟨[⟨some 50, none, some 7, some 1000⟩], [], rfl, by decide⟩, rfl⟩
example : Known 100 1000 [⟨some 50, none, some 7, none⟩, ⟨some 950, none, some 9, some 1000⟩, ⟨some 960, none, none, none⟩] := by
  intro b r a h hb t ht hgt
  rcases b with _ | ⟨b1, _ | ⟨b2, b⟩⟩
  · cases h; cases ht; omega
  · cases h; rfl
  · simp only [List.cons_append, List.cons.injEq] at h
    obtain ⟨rfl, rfl, h⟩ := h
    have := hb ⟨some 950, none, some 9, some 1000⟩ (by simp) 950 rfl
    omega
example : report (watch 100 [⟨some 50, none, some 7, some 1000⟩, ⟨some 950, none, some 9, some 1000⟩]) 2048 (some 12) (some 8) = (962, 8) := by decide

end Verif.Client.Usage
