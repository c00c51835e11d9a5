import Verif.Server.RunnerCmd
import Verif.Utils.ConfigProps

/-! # C132: a runner is started with the group, the server and the time meant for it, and found again after a restart -/

namespace Verif.Server.RunnerCmd
open Verif.Util (split join)
open Verif.Utils.Config (itoa digits digits_itoa itoa_ne)

/-! ## Specification -/

/-- a word a shell takes as it is -/
def Word (w : Str) : Prop := w ≠ [] ∧ ∀ c ∈ w, c ≠ '\'' ∧ c ≠ ' ' ∧ special c = false

/-- and Sprintf too -/
def Raw (w : Str) : Prop := Word w ∧ '%' ∉ w

/-- the manager's executable and log directory, its deployment, address and domain are such -/
def Info.Ok (i : Info) : Prop :=
  Raw i.exe ∧ Word i.deployment ∧ '\'' ∉ i.addr ∧ Word i.domain ∧ (∀ d, i.log = .dir d → Raw d)

instance (w : Str) : Decidable (Word w) := by unfold Word; infer_instance
instance (w : Str) : Decidable (Raw w) := by unfold Raw; infer_instance

/-- what the flags about logging should set -/
def Log.set : Log → Opts → Opts
  | .none, o => o
  | .syslog, o => { o with syslog := true }
  | .dir d, o => { o with logdir := d }

/-! ## Sprintf -/

theorem sprintf_lit : ∀ (w f : Str) (as : List Arg), '%' ∉ w → sprintf (w ++ f) as = (sprintf f as).map (w ++ ·)
  | [], f, as, _ => by simp
  | c :: w, f, as, h => by
    simp only [List.mem_cons, not_or] at h
    have ih := sprintf_lit w f as h.2
    simp only [List.cons_append]
    conv => lhs; unfold sprintf
    rw [if_pos (Ne.symm h.1), ih]
    cases sprintf f as <;> simp

theorem sprintf_s (f : Str) (s : Str) (as : List Arg) : sprintf ('%' :: 's' :: f) (.str s :: as) = (sprintf f as).map (s ++ ·) := by
  conv => lhs; unfold sprintf
  simp

theorem sprintf_d (f : Str) (n : Int) (as : List Arg) : sprintf ('%' :: 'd' :: f) (.int n :: as) = (sprintf f as).map (showInt n ++ ·) := by
  conv => lhs; unfold sprintf
  simp

/-- `%` doubled -/
def doubled (w : Str) : Str := w.flatMap fun c => if c = '%' then ['%', '%'] else [c]

/-- A text with `%` doubled comes out as the text itself, for every text; with an argument that nothing asks for it does not. -/
theorem C132_doubled (w : Str) (a : Arg) (as : List Arg) :
    sprintf (doubled w) [] = some w ∧ sprintf (doubled w) (a :: as) = none := by
  induction w with
  | nil => exact ⟨rfl, rfl⟩
  | cons c w ih =>
    by_cases h : c = '%'
    · subst h
      have e : doubled ('%' :: w) = '%' :: '%' :: doubled w := rfl
      rw [e]
      constructor
      · conv => lhs; unfold sprintf
        simp [ih.1]
      · conv => lhs; unfold sprintf
        simp [ih.2]
    · have e : doubled (c :: w) = c :: doubled w := by simp [doubled, h]
      rw [e]
      constructor
      · conv => lhs; unfold sprintf
        simp [h, ih.1]
      · conv => lhs; unfold sprintf
        simp [h, ih.2]

example : sprintf (doubled "/log/100%".toList) [] = some "/log/100%".toList := (C132_doubled _ (.int 1) []).1

theorem format_parts : " runner -s '%s' --deployment %s --server '%s' --domain %s -r %d -m %d".toList =
    " runner -s '".toList ++ '%' :: 's' :: ("' --deployment ".toList ++ '%' :: 's' :: (" --server '".toList ++ '%' :: 's' ::
      ("' --domain ".toList ++ '%' :: 's' :: (" -r ".toList ++ '%' :: 'd' :: (" -m ".toList ++ '%' :: 'd' :: []))))) := by
  decide +kernel

theorem text_none : Log.none.text = [] := rfl
theorem text_syslog : Log.syslog.text = " --syslog".toList := rfl
theorem text_dir (d : Str) : (Log.dir d).text = " --logdir ".toList ++ d := rfl

theorem log_raw {l : Log} (h : ∀ d, l = .dir d → Raw d) : '%' ∉ l.text := by
  cases l with
  | none => rw [text_none]; exact List.not_mem_nil
  | syslog => decide +kernel
  | dir d =>
    have hd := (h d rfl).2
    simp only [text_dir, List.mem_append, not_or]
    exact ⟨by decide +kernel, hd⟩

theorem scheduleCmd_eq {i : Info} (h : i.Ok) (g : Str) (r m : Int) : scheduleCmd i g r m =
    some (i.exe ++ ' ' :: ("runner".toList ++ ' ' :: ("-s".toList ++ ' ' :: ('\'' :: (g ++ '\'' :: ' ' :: ("--deployment".toList ++ ' ' ::
      (i.deployment ++ ' ' :: ("--server".toList ++ ' ' :: ('\'' :: (i.addr ++ '\'' :: ' ' :: ("--domain".toList ++ ' ' ::
        (i.domain ++ ' ' :: ("-r".toList ++ ' ' :: (showInt r ++ ' ' :: ("-m".toList ++ ' ' :: (showInt m ++ i.log.text)))))))))))))))) := by
  obtain ⟨h1, h2, h3, h4, h5⟩ := h
  unfold scheduleCmd template
  rw [sprintf_lit _ _ _ h1.2, format_parts]
  simp only [List.append_assoc, List.cons_append, List.nil_append]
  rw [sprintf_lit _ _ _ (by decide), sprintf_s, sprintf_lit _ _ _ (by decide), sprintf_s, sprintf_lit _ _ _ (by decide), sprintf_s,
    sprintf_lit _ _ _ (by decide), sprintf_s, sprintf_lit _ _ _ (by decide), sprintf_d, sprintf_lit _ _ _ (by decide), sprintf_d]
  have hlog : sprintf i.log.text [] = some i.log.text := by
    have := sprintf_lit i.log.text [] [] (log_raw h5)
    simpa [sprintf] using this
  rw [hlog]
  simp only [Option.map_some]
  have e1 : " runner -s '".toList = ' ' :: ("runner".toList ++ ' ' :: ("-s".toList ++ [' ', '\''])) := by decide +kernel
  have e2 : "' --deployment ".toList = '\'' :: ' ' :: ("--deployment".toList ++ [' ']) := by decide +kernel
  have e3 : " --server '".toList = ' ' :: ("--server".toList ++ [' ', '\'']) := by decide +kernel
  have e4 : "' --domain ".toList = '\'' :: ' ' :: ("--domain".toList ++ [' ']) := by decide +kernel
  have e5 : " -r ".toList = ' ' :: ("-r".toList ++ [' ']) := by decide +kernel
  have e6 : " -m ".toList = ' ' :: ("-m".toList ++ [' ']) := by decide +kernel
  rw [e1, e2, e3, e4, e5, e6]
  simp only [List.append_assoc, List.cons_append, List.nil_append]

/-! ## Words -/

theorem words_more : ∀ (w : Str) (u s : Str), (∀ c ∈ w, c ≠ '\'' ∧ c ≠ ' ' ∧ special c = false) →
    words false (some u) (w ++ s) = words false (some (u ++ w)) s
  | [], u, s, _ => by simp
  | c :: w, u, s, h => by
    obtain ⟨h1, h2, h3⟩ := h c (by simp)
    simp only [List.cons_append]
    conv => lhs; unfold words
    simp only [h1, h2, h3, if_false, Bool.false_eq_true, Option.getD_some]
    rw [words_more w (u ++ [c]) s (fun x hx => h x (by simp [hx]))]
    simp

theorem words_start {w : Str} (h : Word w) (s : Str) : words false none (w ++ s) = words false (some w) s := by
  obtain ⟨hne, h⟩ := h
  cases w with
  | nil => exact absurd rfl hne
  | cons c w =>
    obtain ⟨h1, h2, h3⟩ := h c (by simp)
    simp only [List.cons_append]
    conv => lhs; unfold words
    simp only [h1, h2, h3, if_false, Bool.false_eq_true, Option.getD_none, List.nil_append]
    rw [words_more w [c] s (fun x hx => h x (by simp [hx]))]
    simp

theorem words_space (u s : Str) : words false (some u) (' ' :: s) = (words false none s).map (u :: ·) := by
  conv => lhs; unfold words
  simp

theorem words_field {w : Str} (h : Word w) (s : Str) : words false none (w ++ ' ' :: s) = (words false none s).map (w :: ·) := by
  rw [words_start h, words_space]

theorem words_in : ∀ (g u s : Str), '\'' ∉ g → words true (some u) (g ++ '\'' :: s) = words false (some (u ++ g)) s
  | [], u, s, _ => by
    simp only [List.nil_append, List.append_nil]
    conv => lhs; unfold words
    simp
  | c :: g, u, s, h => by
    simp only [List.mem_cons, not_or] at h
    simp only [List.cons_append]
    conv => lhs; unfold words
    simp only [Ne.symm h.1, if_false, Option.getD_some]
    rw [words_in g (u ++ [c]) s h.2]
    simp

theorem words_quoted {g : Str} (h : '\'' ∉ g) (s : Str) :
    words false none ('\'' :: (g ++ '\'' :: ' ' :: s)) = (words false none s).map (g :: ·) := by
  conv => lhs; unfold words
  simp only [if_true, Option.getD_none]
  rw [words_in g [] _ h, List.nil_append, words_space]

theorem words_last {w : Str} (h : Word w) : words false none w = some [w] := by
  have := words_start h []
  simp only [List.append_nil] at this
  rw [this]
  simp [words]

/-! ## Numbers -/

theorem dec_digit : ∀ (k n : Nat), ∀ c ∈ Verif.Utils.Config.dec k n, ∃ d, d < 10 ∧ c = Char.ofNat (48 + d)
  | 0, n, c, h => by simp [Verif.Utils.Config.dec] at h
  | k + 1, n, c, h => by
    simp only [Verif.Utils.Config.dec, List.mem_append, List.mem_singleton] at h
    rcases h with h | rfl
    · split at h
      · simp at h
      · exact dec_digit k _ c h
    · exact ⟨n % 10, by omega, rfl⟩

theorem digit_plain (d : Nat) (h : d < 10) : Char.ofNat (48 + d) ≠ '\'' ∧ Char.ofNat (48 + d) ≠ ' ' ∧ special (Char.ofNat (48 + d)) = false ∧
    Char.ofNat (48 + d) ≠ '-' ∧ Char.ofNat (48 + d) ≠ '+' := by
  have : ∀ d : Fin 10, Char.ofNat (48 + d.val) ≠ '\'' ∧ Char.ofNat (48 + d.val) ≠ ' ' ∧ special (Char.ofNat (48 + d.val)) = false ∧
    Char.ofNat (48 + d.val) ≠ '-' ∧ Char.ofNat (48 + d.val) ≠ '+' := by decide +kernel
  exact this ⟨d, h⟩

theorem showInt_word (n : Int) : Word (showInt n) := by
  have key : ∀ c ∈ itoa n.natAbs, c ≠ '\'' ∧ c ≠ ' ' ∧ special c = false := by
    intro c hc
    obtain ⟨d, h1, rfl⟩ := dec_digit _ _ c hc
    have := digit_plain d h1
    exact ⟨this.1, this.2.1, this.2.2.1⟩
  unfold showInt
  split
  · refine ⟨by simp, ?_⟩
    intro c hc
    rcases List.mem_cons.mp hc with rfl | hc
    · decide
    · exact key c hc
  · exact ⟨itoa_ne _, key⟩

theorem dec_head : ∀ (k n : Nat), n < k → 0 < n → (Verif.Utils.Config.dec k n).head? ≠ some '0'
  | 0, n, h, _ => by omega
  | k + 1, n, h, hp => by
    unfold Verif.Utils.Config.dec
    split
    · rename_i h10
      have : ∀ d : Fin 10, 0 < d.val → ([] ++ [Char.ofNat (48 + d.val % 10)]).head? ≠ some '0' := by decide +kernel
      exact this ⟨n, h10⟩ hp
    · have ih := dec_head k (n / 10) (by omega) (by omega)
      rw [List.head?_append]
      cases hd : (Verif.Utils.Config.dec k (n / 10)).head? with
      | none =>
        exfalso
        have hk : k ≠ 0 := by omega
        obtain ⟨k', rfl⟩ := Nat.exists_eq_succ_of_ne_zero hk
        simp only [List.head?_eq_none_iff] at hd
        simp [Verif.Utils.Config.dec] at hd
      | some c => rw [hd] at ih; simpa using ih

theorem readNat_itoa (n : Nat) : readNat (itoa n) = some n := by
  rcases Nat.eq_zero_or_pos n with rfl | hn
  · decide
  · have hh := dec_head (n + 1) n (by omega) hn
    have hd := digits_itoa n
    change (itoa n).head? ≠ some '0' at hh
    generalize hs : itoa n = s at hh hd
    unfold readNat
    split
    · rw [← hs] at hd; exact absurd hs (itoa_ne n)
    · simp at hh
    · exact hd

theorem readInt_showInt (n : Int) : readInt (showInt n) = some n := by
  have hr := readNat_itoa n.natAbs
  unfold showInt
  split
  · rename_i hn
    simp only [readInt, hr, Option.map_some]
    have : -((n.natAbs : Nat) : Int) = n := by omega
    rw [this]
  · have hd := dec_digit (n.natAbs + 1) n.natAbs
    change ∀ c ∈ itoa n.natAbs, _ at hd
    generalize itoa n.natAbs = s at hr hd
    unfold readInt
    split
    · rename_i t
      obtain ⟨d, h1, h2⟩ := hd '-' (by simp)
      exact absurd h2.symm (digit_plain d h1).2.2.2.1
    · rename_i t
      obtain ⟨d, h1, h2⟩ := hd '+' (by simp)
      exact absurd h2.symm (digit_plain d h1).2.2.2.2
    · rw [hr]
      have : ((n.natAbs : Nat) : Int) = n := by omega
      simp only [Option.map]
      rw [this]

/-! ## Properties: what the runner is told -/

/-- the words about logging -/
def Log.words : Log → List Str
  | .none => []
  | .syslog => ["--syslog".toList]
  | .dir d => ["--logdir".toList, d]

theorem cmd_words {i : Info} (h : i.Ok) {g : Str} (hg : '\'' ∉ g) {r m : Int} {cmd : Str} (hc : scheduleCmd i g r m = some cmd) :
    words false none cmd = some ([i.exe, "runner".toList, "-s".toList, g, "--deployment".toList, i.deployment, "--server".toList, i.addr,
      "--domain".toList, i.domain, "-r".toList, showInt r, "-m".toList, showInt m] ++ i.log.words) := by
  rw [scheduleCmd_eq h] at hc
  simp only [Option.some.injEq] at hc
  subst hc
  obtain ⟨h1, h2, h3, h4, h5⟩ := h
  have hend : words false none (showInt m ++ i.log.text) = some (showInt m :: i.log.words) := by
    cases hl : i.log with
    | none => rw [text_none, List.append_nil]; exact words_last (showInt_word m)
    | syslog =>
      have e : Log.syslog.text = ' ' :: "--syslog".toList := by decide +kernel
      rw [e, words_field (showInt_word m), words_last (by decide +kernel)]
      rfl
    | dir d =>
      have e : (Log.dir d).text = ' ' :: ("--logdir".toList ++ ' ' :: d) := by
        have : " --logdir ".toList = ' ' :: ("--logdir".toList ++ [' ']) := by decide +kernel
        simp only [text_dir, this, List.cons_append, List.append_assoc, List.nil_append]
      rw [e, words_field (showInt_word m), words_field (by decide +kernel), words_last (h5 d hl).1]
      rfl
  rw [words_field h1.1, words_field (by decide +kernel), words_field (by decide +kernel), words_quoted hg, words_field (by decide +kernel),
    words_field h2, words_field (by decide +kernel), words_quoted h3, words_field (by decide +kernel), words_field h4,
    words_field (by decide +kernel), words_field (showInt_word r), words_field (by decide +kernel), hend]
  rfl

theorem parse_s (o : Opts) (v : Str) (as : List Str) : parse o ("-s".toList :: v :: as) = parse { o with group := v } as := by
  conv => lhs; unfold parse
  rw [if_neg (by decide), if_pos rfl]

theorem parse_deployment (o : Opts) (v : Str) (as : List Str) :
    parse o ("--deployment".toList :: v :: as) = parse { o with deployment := v } as := by
  conv => lhs; unfold parse
  rw [if_neg (by decide), if_neg (by decide), if_pos rfl]

theorem parse_server (o : Opts) (v : Str) (as : List Str) : parse o ("--server".toList :: v :: as) = parse { o with server := v } as := by
  conv => lhs; unfold parse
  rw [if_neg (by decide), if_neg (by decide), if_neg (by decide), if_pos rfl]

theorem parse_domain (o : Opts) (v : Str) (as : List Str) : parse o ("--domain".toList :: v :: as) = parse { o with domain := v } as := by
  conv => lhs; unfold parse
  rw [if_neg (by decide), if_neg (by decide), if_neg (by decide), if_neg (by decide), if_pos rfl]

theorem parse_logdir (o : Opts) (v : Str) (as : List Str) : parse o ("--logdir".toList :: v :: as) = parse { o with logdir := v } as := by
  conv => lhs; unfold parse
  rw [if_neg (by decide), if_neg (by decide), if_neg (by decide), if_neg (by decide), if_neg (by decide), if_pos rfl]

theorem parse_r (o : Opts) (n : Int) (as : List Str) : parse o ("-r".toList :: showInt n :: as) = parse { o with reserve := n } as := by
  conv => lhs; unfold parse
  rw [if_neg (by decide), if_neg (by decide), if_neg (by decide), if_neg (by decide), if_neg (by decide), if_neg (by decide), if_pos rfl,
    readInt_showInt]
  rfl

theorem parse_m (o : Opts) (n : Int) (as : List Str) : parse o ("-m".toList :: showInt n :: as) = parse { o with max := n } as := by
  conv => lhs; unfold parse
  rw [if_neg (by decide), if_neg (by decide), if_neg (by decide), if_neg (by decide), if_neg (by decide), if_neg (by decide),
    if_neg (by decide), if_pos rfl, readInt_showInt]
  rfl

theorem parse_log (o : Opts) (l : Log) : parse o l.words = some (l.set o) := by
  cases l with
  | none => rfl
  | syslog => simp [Log.words, parse, Log.set]
  | dir d => rw [Log.words, parse_logdir]; simp [parse, Log.set]

/-- **C132**: the command made for a group without a single quote in its name starts the manager's executable as a runner that finds
the group, the deployment, the address and domain of the manager, both times and what there is to say about logging as they are. -/
theorem C132_told_partial {i : Info} (h : i.Ok) {g : Str} (hg : '\'' ∉ g) (r m : Int) (dflt : Opts) :
    ∃ cmd, scheduleCmd i g r m = some cmd ∧ started dflt cmd = some (i.exe, i.log.set { dflt with
      group := g, deployment := i.deployment, server := i.addr, domain := i.domain, reserve := r, max := m }) := by
  refine ⟨_, scheduleCmd_eq h g r m, ?_⟩
  have hw := cmd_words h hg (scheduleCmd_eq h g r m)
  unfold started
  rw [hw]
  simp only [List.cons_append, List.nil_append, if_true]
  rw [parse_s, parse_deployment, parse_server, parse_domain, parse_r, parse_m, parse_log]
  simp

/-- a job's limit groups are in the group's name as they are: the name has no single quote if they have none -/
theorem generate_noquote {r : Groups.Printed} (hr : '\'' ∉ Groups.stringify r) {lgs : List Str} (h : ∀ l ∈ lgs, '\'' ∉ l) :
    '\'' ∉ Groups.generate r lgs := by
  unfold Groups.generate
  rw [List.mem_append, not_or]
  refine ⟨hr, ?_⟩
  split
  · simp only [List.mem_cons, not_or]
    refine ⟨by decide, ?_⟩
    clear hr
    induction lgs with
    | nil => simp [join]
    | cons p ps ih =>
      cases ps with
      | nil => simpa [join] using h p (by simp)
      | cons q ps =>
        simp only [join, List.mem_append, List.mem_cons, not_or]
        exact ⟨h p (by simp), by decide, ih (fun r hr => h r (List.mem_cons_of_mem _ hr)) (by simp)⟩
  · simp

/-- **C132**: and so for a job, if none of its limit groups has a single quote in its name. -/
theorem C132_job_partial {i : Info} (h : i.Ok) {r : Groups.Printed} (hr : '\'' ∉ Groups.stringify r) {lgs : List Str}
    (hl : ∀ l ∈ lgs, '\'' ∉ l) (rt m : Int) (dflt : Opts) :
    ∃ cmd o, jobCmd i r lgs rt m = some cmd ∧ started dflt cmd = some (i.exe, o) ∧ o.group = Groups.generate r lgs ∧ o.server = i.addr ∧
      o.max = m ∧ o.reserve = rt := by
  obtain ⟨cmd, h1, h2⟩ := C132_told_partial h (generate_noquote hr hl) rt m dflt
  refine ⟨cmd, _, h1, h2, ?_⟩
  cases i.log <;> exact ⟨rfl, rfl, rfl, rfl⟩

def exInfo : Info :=
  { exe := "/opt/wr".toList, log := .dir "/var/log/wr".toList, deployment := "production".toList, addr := "10.0.0.1:1021".toList,
    domain := "localhost".toList }

theorem exInfo_ok : exInfo.Ok := by
  refine ⟨by decide +kernel, by decide +kernel, by decide +kernel, by decide +kernel, ?_⟩
  intro d hd
  cases hd
  decide +kernel

def exPrinted : Groups.Printed := { ram := "200".toList, mins := "30".toList, cores := "1".toList, disk := "0".toList, other := none }
def exDflt : Opts := { deployment := "production".toList, server := "localhost:11301".toList, domain := "localhost".toList }

example : jobCmd exInfo exPrinted ["irods".toList] 1 31 =
    some "/opt/wr runner -s '200:30:1:0~irods' --deployment production --server '10.0.0.1:1021' --domain localhost -r 1 -m 31 --logdir /var/log/wr".toList := by
  decide +kernel

/-- **C132** is not so: with a single quote in the name of a limit group the shell has nothing to run, or the runner asks for the jobs of
another group: the job is never run. -/
theorem C132_violated_quote : (∃ cmd, jobCmd exInfo exPrinted ["it's".toList] 1 31 = some cmd ∧ started exDflt cmd = none) ∧
    ∃ cmd o, jobCmd exInfo exPrinted ["'db'".toList] 1 31 = some cmd ∧ started exDflt cmd = some (exInfo.exe, o) ∧
      o.group ≠ Groups.generate exPrinted ["'db'".toList] := by
  have key : jobCmd exInfo exPrinted ["it's".toList] 1 31 = some
        "/opt/wr runner -s '200:30:1:0~it's' --deployment production --server '10.0.0.1:1021' --domain localhost -r 1 -m 31 --logdir /var/log/wr".toList ∧
      started exDflt
        "/opt/wr runner -s '200:30:1:0~it's' --deployment production --server '10.0.0.1:1021' --domain localhost -r 1 -m 31 --logdir /var/log/wr".toList = none := by
    decide +kernel
  refine ⟨⟨_, key.1, key.2⟩, ?_⟩
  have k2 : jobCmd exInfo exPrinted ["'db'".toList] 1 31 = some
        "/opt/wr runner -s '200:30:1:0~'db'' --deployment production --server '10.0.0.1:1021' --domain localhost -r 1 -m 31 --logdir /var/log/wr".toList ∧
      (started exDflt
        "/opt/wr runner -s '200:30:1:0~'db'' --deployment production --server '10.0.0.1:1021' --domain localhost -r 1 -m 31 --logdir /var/log/wr".toList).map (fun x => (x.1, x.2.group)) = some (exInfo.exe, "200:30:1:0~db".toList) := by
    decide +kernel
  refine ⟨_, (?_ : ∃ o, _ = some "/opt/wr runner -s '200:30:1:0~'db'' --deployment production --server '10.0.0.1:1021' --domain localhost -r 1 -m 31 --logdir /var/log/wr".toList ∧ _)⟩
  cases hs : started exDflt
      "/opt/wr runner -s '200:30:1:0~'db'' --deployment production --server '10.0.0.1:1021' --domain localhost -r 1 -m 31 --logdir /var/log/wr".toList with
  | none => rw [hs] at k2; exact absurd k2.2 (by simp)
  | some x =>
    obtain ⟨e, o⟩ := x
    rw [hs] at k2
    simp only [Option.map_some, Option.some.injEq, Prod.mk.injEq] at k2
    refine ⟨o, k2.1, ?_, ?_⟩
    · rw [k2.2.1]
    · rw [k2.2.2]
      decide +kernel

/-- **C132** is not so: nor if the path of the executable has a space or a percent sign in it. -/
theorem C132_violated_path : (∃ cmd, jobCmd { exInfo with exe := "/opt/my wr".toList } exPrinted [] 1 31 = some cmd ∧ started exDflt cmd = none) ∧
    jobCmd { exInfo with exe := "/opt/100%/wr".toList } exPrinted [] 1 31 = none := by
  have key : jobCmd { exInfo with exe := "/opt/my wr".toList } exPrinted [] 1 31 = some
        "/opt/my wr runner -s '200:30:1:0' --deployment production --server '10.0.0.1:1021' --domain localhost -r 1 -m 31 --logdir /var/log/wr".toList ∧
      started exDflt
        "/opt/my wr runner -s '200:30:1:0' --deployment production --server '10.0.0.1:1021' --domain localhost -r 1 -m 31 --logdir /var/log/wr".toList = none := by
    decide +kernel
  exact ⟨⟨_, key.1, key.2⟩, by decide +kernel⟩

end Verif.Server.RunnerCmd
