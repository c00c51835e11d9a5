import Verif.Cmd.Manager
/-
Properties of `wr manager start|stop|drain|status`: C123.
-/
namespace Verif.Cmd.Manager

/-! ## specification -/

/-- a manager answers at an address this command uses -/
def Reached (c : Cfg) (w : World) (m : Mgr) : Prop :=
  m ∈ w.mgrs ∧ ((∃ a, w.addr = some a ∧ a ∈ m.at_) ∨ c.conf ∈ m.at_)

/-- a line of the log that says that a manager started -/
def SaysStarted (l : List Char) : Prop :=
  ∃ a v b, l = a ++ "lvl=info msg=\"wr manager ".toList ++ v ++ " started on".toList ++ b ∧
    v ≠ [] ∧ ∀ x ∈ v, isWs x = false

/-- a line of the log about an error -/
def SaysError (l : List Char) : Prop :=
  "lvl=crit".toList <:+: l ∨ "lvl=eror".toList <:+: l

/-- lines, each ended by a newline -/
def text (ls : List (List Char)) : List Char := ls.flatMap fun l => l ++ ['\n']

/-- an ordinary line: no newline in it, no carriage return at its end, short enough -/
def Ordinary (l : List Char) : Prop := '\n' ∉ l ∧ l.getLast? ≠ some '\r' ∧ l.length < 65536

/-! ## the log -/

theorem contains_iff (pat l : List Char) : contains pat l = true ↔ pat <:+: l := by
  induction l with
  | nil => simp [contains]
  | cons c cs ih =>
    simp only [contains, Bool.or_eq_true, ih, List.infix_cons_iff, List.isPrefixOf_iff_prefix]

theorem bad_iff (l : List Char) : bad l = true ↔ SaysError l := by
  simp only [bad, Bool.or_eq_true, contains_iff, SaysError]

theorem version_iff (l : List Char) : versionThenStarted l = true ↔
    ∃ v b, l = v ++ startPost ++ b ∧ v ≠ [] ∧ ∀ x ∈ v, isWs x = false := by
  unfold versionThenStarted
  constructor
  · intro h
    simp only [Bool.and_eq_true, Bool.not_eq_true', List.isEmpty_eq_false_iff, List.isPrefixOf_iff_prefix] at h
    obtain ⟨h1, b, h2⟩ := h
    refine ⟨_, b, ?_, h1, ?_⟩
    · rw [List.append_assoc, h2, List.takeWhile_append_dropWhile]
    · intro x hx
      have : ∀ (l : List Char), ∀ x ∈ l.takeWhile (fun c => !isWs c), isWs x = false := by
        intro l
        induction l with
        | nil => simp
        | cons a l ih =>
          intro x hx
          rw [List.takeWhile_cons] at hx
          split at hx <;> grind
      exact this l x hx
  · rintro ⟨v, b, rfl, h1, h2⟩
    have hsp : (!isWs ' ') = false := by decide
    have e1 : ∀ (v : List Char), (∀ x ∈ v, isWs x = false) →
        (v ++ startPost ++ b).takeWhile (fun c => !isWs c) = v ∧
        (v ++ startPost ++ b).dropWhile (fun c => !isWs c) = startPost ++ b := by
      intro v
      induction v with
      | nil => intro _; constructor <;> rfl
      | cons a v ih =>
        intro h
        have ha := h a (by simp)
        have := ih (fun x hx => h x (by simp [hx]))
        simp only [List.cons_append, List.takeWhile_cons, List.dropWhile_cons, ha, Bool.not_false, if_true,
          this.1, this.2, and_self]
    rw [(e1 v h2).1, (e1 v h2).2]
    simp [h1]

theorem saysStarted_iff (l : List Char) : SaysStarted l ↔
    ∃ a v b, l = a ++ startPre ++ v ++ startPost ++ b ∧ v ≠ [] ∧ ∀ x ∈ v, isWs x = false := Iff.rfl

attribute [local irreducible] startPre startPost maxLine in
theorem started_iff (l : List Char) : started l = true ↔ SaysStarted l := by
  induction l with
  | nil =>
    simp only [started, Bool.false_eq_true, false_iff]
    rw [saysStarted_iff]
    rintro ⟨a, v, b, h, hv, _⟩
    have := congrArg List.length h
    simp only [List.length_append, List.length_nil] at this
    exact hv (List.length_eq_zero_iff.1 (by omega))
  | cons c cs ih =>
    simp only [started, Bool.or_eq_true, Bool.and_eq_true, List.isPrefixOf_iff_prefix, version_iff, ih, saysStarted_iff]
    constructor
    · rintro (⟨⟨t, ht⟩, v, b, h1, h2, h3⟩ | ⟨a, v, b, h, h2, h3⟩)
      · refine ⟨[], v, b, ?_, h2, h3⟩
        rw [← ht, List.drop_left] at h1
        rw [← ht, h1]
        simp only [List.nil_append, List.append_assoc]
      · exact ⟨c :: a, v, b, by rw [h]; simp only [List.cons_append], h2, h3⟩
    · rintro ⟨a, v, b, h, h2, h3⟩
      cases a with
      | nil =>
        left
        have e : c :: cs = startPre ++ (v ++ startPost ++ b) := by
          rw [h]; simp only [List.nil_append, List.append_assoc]
        rw [e]
        refine ⟨⟨_, rfl⟩, v, b, ?_, h2, h3⟩
        rw [List.drop_left]
      | cons a0 a =>
        right
        simp only [List.cons_append, List.cons.injEq] at h
        exact ⟨a, v, b, h.2, h2, h3⟩

theorem fold_nostart (ls : List (List Char)) (acc : List (List Char)) (h : ∀ l ∈ ls, ¬ SaysStarted l) :
    ls.foldl logStep acc = acc ++ ls.filter bad := by
  induction ls generalizing acc with
  | nil => simp
  | cons l ls ih =>
    have hl : started l = false := by
      have := h l (by simp)
      rw [← started_iff] at this
      simpa using this
    simp only [List.foldl_cons, List.filter_cons]
    rw [ih _ (fun x hx => h x (by simp [hx]))]
    simp only [logStep, hl, Bool.false_eq_true, if_false]
    split <;> simp

theorem scan_line (l : List Char) (hn : '\n' ∉ l) (acc rest : List Char) :
    scan (l ++ '\n' :: rest) acc =
      if maxLine ≤ (l.reverse ++ acc).length then [] else dropCR (l.reverse ++ acc).reverse :: scan rest [] := by
  induction l generalizing acc with
  | nil =>
    simp only [scan, List.nil_append, if_true, List.reverse_nil]
    by_cases h : maxLine ≤ acc.length <;> simp [h]
  | cons c l ih =>
    have hc : c ≠ '\n' := by intro e; exact hn (by simp [e])
    simp only [List.cons_append, scan, hc, if_false]
    rw [ih (fun h => hn (by simp [h]))]
    simp

theorem scan_text (ls : List (List Char)) (h : ∀ l ∈ ls, Ordinary l) : scan (text ls) [] = ls := by
  induction ls with
  | nil => rfl
  | cons l ls ih =>
    obtain ⟨h1, h2, h3⟩ := h l (by simp)
    have := ih (fun x hx => h x (by simp [hx]))
    simp only [text, List.flatMap_cons, List.append_assoc, List.cons_append, List.nil_append]
    rw [scan_line l h1]
    unfold text at this
    rw [this]
    simp [maxLine, dropCR, h2]
    omega

/-- C123 (partial: a line of 64 KiB or more stops the reading of the log, see
below).  The errors shown are exactly the error lines of the log since the last
line that says a manager started, in order; all of the error lines if there is
no such line; none if there is no log. -/
theorem C123_log_partial :
    badLogLines none = [] ∧
    (∀ ls : List (List Char), (∀ l ∈ ls, Ordinary l) → (∀ l ∈ ls, ¬ SaysStarted l) →
      badLogLines (some (text ls)) = ls.filter bad) ∧
    (∀ (before : List (List Char)) (s : List Char) (since : List (List Char)),
      (∀ l ∈ before ++ s :: since, Ordinary l) → SaysStarted s → (∀ l ∈ since, ¬ SaysStarted l) →
      badLogLines (some (text (before ++ s :: since))) = since.filter bad) ∧
    (∀ l, bad l = true ↔ SaysError l) := by
  refine ⟨rfl, ?_, ?_, bad_iff⟩
  · intro ls h1 h2
    simp only [badLogLines, scan_text ls h1]
    rw [fold_nostart ls [] h2]
    simp
  · intro a s b h1 h2 h3
    simp only [badLogLines, scan_text _ h1, List.foldl_append, List.foldl_cons]
    have hs : started s = true := (started_iff s).2 h2
    have : logStep (a.foldl logStep []) s = [] := by simp [logStep, hs]
    rw [this, fold_nostart b [] h3]
    simp

example : badLogLines (some (text ["lvl=eror old".toList, "t=1 lvl=info msg=\"wr manager v1 started on x".toList,
    "lvl=info fine".toList, "lvl=crit new".toList])) = ["lvl=crit new".toList] := by decide +kernel

example : SaysStarted "t=1 lvl=info msg=\"wr manager v1 started on x".toList := by
  rw [← started_iff]; decide +kernel

/-- The last line counts even if it isn't ended, and carriage returns are
dropped. -/
theorem C123_log_last (ls : List (List Char)) (last : List Char) (h : ∀ l ∈ ls, Ordinary l) (hl : Ordinary last)
    (hne : last ≠ []) (hlt : last.length < 65535) :
    badLogLines (some (text ls ++ last)) = badLogLines (some (text (ls ++ [last]))) ∧
    badLogLines (some (text ls ++ last ++ ['\r', '\n'])) = badLogLines (some (text (ls ++ [last]))) := by
  have aux : ∀ (ls : List (List Char)) (rest : List Char), (∀ l ∈ ls, Ordinary l) →
      scan (text ls ++ rest) [] = ls ++ scan rest [] := by
    intro ls rest h
    induction ls with
    | nil => rfl
    | cons l ls ih =>
      obtain ⟨h1, h2, h3⟩ := h l (by simp)
      have := ih (fun x hx => h x (by simp [hx]))
      simp only [text, List.flatMap_cons, List.append_assoc, List.cons_append, List.nil_append]
      rw [scan_line l h1]
      unfold text at this
      rw [this]
      simp [maxLine, dropCR, h2]
      omega
  have tail : ∀ (l acc : List Char), '\n' ∉ l → l ++ acc ≠ [] →
      scan l acc = if maxLine ≤ (l.reverse ++ acc).length then [] else [dropCR (l.reverse ++ acc).reverse] := by
    intro l
    induction l with
    | nil =>
      intro acc _ hne
      cases acc with
      | nil => exact absurd rfl hne
      | cons c acc => simp [scan]
    | cons c l ih =>
      intro acc hn _
      have hc : c ≠ '\n' := by intro e; exact hn (by simp [e])
      simp only [scan, hc, if_false]
      rw [ih (c :: acc) (fun h => hn (by simp [h])) (by simp)]
      simp
  have e3 : scan (text (ls ++ [last])) [] = ls ++ [last] := by
    apply scan_text
    intro l hx
    rcases List.mem_append.1 hx with hx | hx
    · exact h l hx
    · simp only [List.mem_singleton] at hx; exact hx ▸ hl
  obtain ⟨h1, h2, h3⟩ := hl
  have e1 : scan last [] = [last] := by
    rw [tail last [] h1 (by simpa using hne)]
    simp [maxLine, dropCR, h2]
    omega
  have e2 : last.length + 1 < 65536 → scan (last ++ ['\r', '\n']) [] = [last] := by
    intro hlt
    have := scan_line (last ++ ['\r']) (by simp [h1]) [] []
    simp only [List.append_assoc, List.cons_append, List.nil_append] at this
    rw [this]
    simp [maxLine, dropCR, scan]
    omega
  refine ⟨by simp only [badLogLines, aux _ _ h, e1, e3], ?_⟩
  simp only [badLogLines, List.append_assoc, aux _ _ h, e3]
  rw [e2 (by omega)]

/-- The property fails for long lines: after a line of 64 KiB without an error
in it, no later error is shown, and an error from before the last start is. -/
theorem C123_violated_log (last : List Char) (n : Nat) (hn : 65536 ≤ n) :
    badLogLines (some (text (["lvl=eror a".toList, List.replicate n 'x',
      "lvl=info msg=\"wr manager v1 started on x".toList] ++ [last]))) = ["lvl=eror a".toList] := by
  have e : text (["lvl=eror a".toList, List.replicate n 'x',
      "lvl=info msg=\"wr manager v1 started on x".toList] ++ [last]) =
      "lvl=eror a".toList ++ '\n' :: (List.replicate n 'x' ++ '\n' ::
        text ["lvl=info msg=\"wr manager v1 started on x".toList, last]) := by
    simp only [text, List.cons_append, List.nil_append, List.flatMap_cons, List.append_assoc]
  have hx : '\n' ∉ List.replicate n 'x' := by
    intro h
    have := (List.mem_replicate.1 h).2
    exact absurd this (by decide)
  simp only [badLogLines, e]
  rw [scan_line _ (by decide), scan_line _ hx]
  have : maxLine ≤ ((List.replicate n 'x').reverse ++ []).length := by
    simp only [List.append_nil, List.length_reverse, List.length_replicate]
    exact hn
  rw [if_pos this]
  decide +kernel

/-! ## connecting -/

theorem dial_some {w : World} {a : Nat} {m : Mgr} (h : dial w a = some m) : m ∈ w.mgrs ∧ a ∈ m.at_ := by
  unfold dial at h
  exact ⟨List.mem_of_find?_eq_some h, by simpa using List.find?_some h⟩

theorem dial_none {w : World} {a : Nat} (h : dial w a = none) : ∀ m ∈ w.mgrs, a ∉ m.at_ := by
  unfold dial at h
  intro m hm
  have := List.find?_eq_none.1 h m hm
  simpa using this

theorem connect_some {c : Cfg} {w : World} {m : Mgr} (h : connect c w = some m) : Reached c w m := by
  unfold connect at h
  split at h
  · rename_i m' hm
    obtain ⟨a, ha, hd⟩ := Option.bind_eq_some_iff.1 hm
    obtain rfl := Option.some.inj h
    exact ⟨(dial_some hd).1, Or.inl ⟨a, ha, (dial_some hd).2⟩⟩
  · exact ⟨(dial_some h).1, Or.inr (dial_some h).2⟩

theorem connect_none {c : Cfg} {w : World} : connect c w = none ↔ ∀ m, ¬ Reached c w m := by
  constructor
  · intro h m hm
    unfold connect at h
    split at h
    · cases h
    · rename_i hb
      obtain ⟨hm1, ⟨a, ha, hma⟩ | hc⟩ := hm
      · rw [ha] at hb
        exact dial_none hb m hm1 hma
      · exact dial_none h m hm1 hc
  · intro h
    cases hc : connect c w with
    | none => rfl
    | some m => exact absurd (connect_some hc) (h m)

/-! ## stop -/

theorem stopdaemon_files (c : Cfg) (w : World) (p : Nat) :
    (stopdaemon c w p).1.token = w.token ∧ (stopdaemon c w p).1.addr = w.addr := by
  unfold stopdaemon exit
  split <;> simp

theorem shutdown_files (w : World) (m : Mgr) :
    (shutdownServer w m).1.token = w.token ∧ (shutdownServer w m).1.addr = w.addr := by
  unfold shutdownServer
  split
  · simp
  · split <;> simp

theorem stopFound_files (c : Cfg) (w : World) (sig : List Nat) (m : Mgr) :
    ((stopFound c w sig m).out.ok = true → (stopFound c w sig m).w.token = none ∧ (stopFound c w sig m).w.addr = none) ∧
    ((stopFound c w sig m).out.ok = false → (stopFound c w sig m).w.token = w.token ∧ (stopFound c w sig m).w.addr = w.addr) := by
  have h1 := stopdaemon_files c w m.pid
  have h2 := shutdown_files w m
  unfold stopFound
  grind [StopOut.ok, deleteToken]

/-- C123.  The token and the address of the manager are forgotten exactly when
`wr manager stop` says that it stopped the manager; when it fails they are
kept, so that runners can go on talking to the manager. -/
theorem C123_stop_files (c : Cfg) (w : World) :
    ((stop c w).out.ok = true → (stop c w).w.token = none ∧ (stop c w).w.addr = none) ∧
    ((stop c w).out.ok = false → (stop c w).w.token = w.token ∧ (stop c w).w.addr = w.addr) := by
  unfold stop
  split
  · rename_i p _
    have h1 := stopdaemon_files c w p
    cases hc : connect c (stopdaemon c w p).1 with
    | none => grind [StopOut.ok, deleteToken]
    | some m =>
      have := stopFound_files c (stopdaemon c w p).1 [p] m
      grind
  · cases hc : connect c w with
    | none => simp [StopOut.ok]
    | some m => exact stopFound_files c w [] m

theorem stopdaemon_true {c : Cfg} {w : World} {p : Nat} (h : (stopdaemon c w p).2 = true) :
    (stopdaemon c w p).1 = exit c w p ∧ (p, true) ∈ w.procs := by
  unfold stopdaemon at h ⊢
  split at h
  · cases h
  · cases h
  · rename_i q hq
    refine ⟨rfl, ?_⟩
    have h1 := List.mem_of_find?_eq_some hq
    have h2 : q = p := by simpa using List.find?_some hq
    rwa [h2] at h1

theorem stopdaemon_false {c : Cfg} {w : World} {p : Nat} (h : (stopdaemon c w p).2 = false) :
    (stopdaemon c w p).1 = w := by
  unfold stopdaemon at h ⊢
  split at h
  · rfl
  · rfl
  · cases h

theorem mem_exit {c : Cfg} {w : World} {p : Nat} {m : Mgr} :
    m ∈ (exit c w p).mgrs ↔ m ∈ w.mgrs ∧ ¬ (m.saddr = c.me ∧ m.pid = p) := by
  simp only [exit, List.mem_filter, decide_eq_true_eq]

theorem mem_exit_procs {c : Cfg} {w : World} {p : Nat} {q : Nat × Bool} :
    q ∈ (exit c w p).procs ↔ q ∈ w.procs ∧ q.1 ≠ p := by
  simp [exit]

/-- what `stop` may do, in terms of the world before it -/
structure StopSpec (c : Cfg) (w : World) (r : StopRes) : Prop where
  sig : ∀ p ∈ r.signalled, w.pidFile = some p ∨ ∃ m, Reached c w m ∧ m.saddr = c.me ∧ m.pid = p
  asked : ∀ m ∈ r.asked, Reached c w m ∧ m.saddr ≠ c.me
  gone : ∀ m ∈ w.mgrs, m ∉ r.w.mgrs → (m.saddr = c.me ∧ m.pid ∈ r.signalled) ∨ (m ∈ r.asked ∧ w.token = some m.token)
  new : ∀ m ∈ r.w.mgrs, m ∈ w.mgrs
  procs : ∀ q ∈ w.procs, q ∉ r.w.procs → q.1 ∈ r.signalled
  procs' : ∀ q ∈ r.w.procs, q ∈ w.procs
  ok1 : r.out = .stopped → ∀ m ∈ r.w.mgrs, ¬ Reached c w m
  ok2 : ∀ a, r.out = .stoppedAt a → ∃ m, Reached c w m ∧ m.saddr = a ∧ m ∉ r.w.mgrs

theorem stopFound_spec {c : Cfg} {w0 w : World} {sig : List Nat} {m : Mgr} (hm : Reached c w m)
    (hsub : ∀ x ∈ w.mgrs, x ∈ w0.mgrs) (haddr : w.addr = w0.addr) (htok : w.token = w0.token)
    (hsig : ∀ p ∈ sig, w0.pidFile = some p)
    (hgone : ∀ x ∈ w0.mgrs, x ∉ w.mgrs → x.saddr = c.me ∧ x.pid ∈ sig)
    (hp : ∀ q ∈ w0.procs, q ∉ w.procs → q.1 ∈ sig) (hp' : ∀ q ∈ w.procs, q ∈ w0.procs) :
    StopSpec c w0 (stopFound c w sig m) := by
  have hm0 : Reached c w0 m := ⟨hsub m hm.1, by rw [← haddr]; exact hm.2⟩
  unfold stopFound
  by_cases hme : m.saddr = c.me
  · simp only [hme, if_true]
    cases hr : (stopdaemon c w m.pid).2 with
    | true =>
      obtain ⟨e, _⟩ := stopdaemon_true hr
      simp only [if_true]
      rw [e]
      constructor <;> simp only [deleteToken]
      · intro p hp; grind
      · simp
      · intro x hx hx'
        rw [mem_exit] at hx'
        left
        by_cases hw : x ∈ w.mgrs <;> grind
      · intro x hx; exact hsub x (mem_exit.1 hx).1
      · intro q hq hq'
        rw [mem_exit_procs] at hq'
        by_cases hw : q ∈ w.procs <;> grind
      · intro q hq; exact hp' q (mem_exit_procs.1 hq).1
      · intro h; cases h
      · intro a ha
        refine ⟨m, hm0, by grind, ?_⟩
        rw [mem_exit]
        grind
    | false =>
      have e := stopdaemon_false hr
      simp only [Bool.false_eq_true, if_false]
      rw [e]
      constructor <;> grind
  · simp only [hme, if_false]
    unfold shutdownServer
    by_cases ht : w.token ≠ some m.token
    · simp only [ht, ne_eq, not_false_eq_true, if_true, Bool.false_eq_true, if_false]
      constructor <;> grind
    · simp only [ht, if_false]
      have ht' : w0.token = some m.token := by rw [← htok]; simpa using ht
      cases hq : m.quits with
      | false =>
        simp only [Bool.false_eq_true, if_false]
        constructor <;> grind
      | true =>
        simp only [if_true]
        split
        · constructor <;> grind
        · constructor <;> simp only [deleteToken] <;> grind

theorem stop_spec (c : Cfg) (w : World) : StopSpec c w (stop c w) := by
  unfold stop
  split
  · rename_i pid hpid
    cases hr : (stopdaemon c w pid).2 with
    | true =>
      obtain ⟨e, _⟩ := stopdaemon_true hr
      have hadd : (exit c w pid).addr = w.addr := rfl
      have htok : (exit c w pid).token = w.token := rfl
      simp only [hr, if_true, e]
      cases hc : connect c (exit c w pid) with
      | some m =>
        refine stopFound_spec (connect_some hc) (fun x hx => (mem_exit.1 hx).1) hadd htok (by grind) ?_ ?_ ?_
        · intro x hx hx'; rw [mem_exit] at hx'; grind
        · intro q hq hq'; rw [mem_exit_procs] at hq'; grind
        · intro q hq; exact (mem_exit_procs.1 hq).1
      | none =>
        have hn := connect_none.1 hc
        constructor <;> simp only [deleteToken]
        · grind
        · grind
        · intro x hx hx'; rw [mem_exit] at hx'; grind
        · intro x hx; exact (mem_exit.1 hx).1
        · intro q hq hq'; rw [mem_exit_procs] at hq'; grind
        · intro q hq; exact (mem_exit_procs.1 hq).1
        · intro _ x hx hre
          exact hn x ⟨hx, by rw [hadd]; exact hre.2⟩
        · grind
    | false =>
      have e := stopdaemon_false hr
      simp only [hr, Bool.false_eq_true, if_false, e]
      cases hc : connect c w with
      | some m => exact stopFound_spec (connect_some hc) (by grind) rfl rfl (by grind) (by grind) (by grind) (by grind)
      | none => constructor <;> grind
  · rename_i hpid
    cases hc : connect c w with
    | some m => exact stopFound_spec (connect_some hc) (by grind) rfl rfl (by grind) (by grind) (by grind) (by grind)
    | none => constructor <;> grind

/-- C123 (partial: see the violations).  When `wr manager stop` says that it
stopped the manager, the manager it means is gone: no manager answers any more
at the addresses that were used to look for one, or the one whose address it
names no longer runs. -/
theorem C123_stop_gone_partial (c : Cfg) (w : World) :
    ((stop c w).out = .stopped → ∀ m, Reached c w m → m ∉ (stop c w).w.mgrs) ∧
    (∀ a, (stop c w).out = .stoppedAt a → ∃ m, Reached c w m ∧ m.saddr = a ∧ m ∉ (stop c w).w.mgrs) :=
  ⟨fun h m hm hin => (stop_spec c w).ok1 h m hin hm, (stop_spec c w).ok2⟩

/-- C123.  It signals only the process named in the pid file and a manager on
this machine that it is connected to, asks only a manager elsewhere that it is
connected to to shut down, and no other process or manager ends.  A manager
elsewhere ends only if the token is right. -/
theorem C123_stop_only (c : Cfg) (w : World) :
    (∀ p ∈ (stop c w).signalled, w.pidFile = some p ∨ ∃ m, Reached c w m ∧ m.saddr = c.me ∧ m.pid = p) ∧
    (∀ q ∈ w.procs, q ∉ (stop c w).w.procs → q.1 ∈ (stop c w).signalled) ∧
    (∀ m ∈ w.mgrs, m ∉ (stop c w).w.mgrs → (m.saddr = c.me ∧ m.pid ∈ (stop c w).signalled) ∨
      (Reached c w m ∧ m.saddr ≠ c.me ∧ w.token = some m.token)) := by
  have h := stop_spec c w
  refine ⟨h.sig, h.procs, fun m hm hm' => ?_⟩
  rcases h.gone m hm hm' with h1 | h1
  · exact Or.inl h1
  · exact Or.inr ⟨(h.asked m h1.1).1, (h.asked m h1.1).2, h1.2⟩

/-- C123.  If no manager answers and there is no pid file, `stop` fails and
changes nothing; if the process in the pid file can't be ended and no manager
answers, the same. -/
theorem C123_stop_nothing (c : Cfg) (w : World) (h : ∀ m, ¬ Reached c w m) :
    (w.pidFile = none → stop c w = ⟨w, [], [], .notRunning⟩) ∧
    (∀ p, w.pidFile = some p → (p, true) ∉ w.procs → stop c w = ⟨w, [p], [], .pidWrong⟩) := by
  have hc := connect_none.2 h
  constructor
  · intro hp
    simp only [stop, hp, hc]
  · intro p hp hq
    have hf : (stopdaemon c w p).2 = false := by
      cases hr : (stopdaemon c w p).2 with
      | false => rfl
      | true => exact absurd (stopdaemon_true hr).2 hq
    simp only [stop, hp, hf, Bool.false_eq_true, if_false, stopdaemon_false hf, hc]

theorem stopdaemon_works {c : Cfg} {w : World} {p : Nat} (h1 : (p, true) ∈ w.procs) (h2 : (p, false) ∉ w.procs) :
    stopdaemon c w p = (exit c w p, true) := by
  unfold stopdaemon
  split
  · rename_i h
    have := List.find?_eq_none.1 h _ h1
    simp at this
  · rename_i q h
    have h3 := List.mem_of_find?_eq_some h
    have h4 : q = p := by simpa using List.find?_some h
    exact absurd (h4 ▸ h3) h2
  · rfl

/-- C123.  `stop` works: when the one manager that answers runs on this
machine, ends when it gets a SIGTERM, and the pid file names it or there is no
pid file, `stop` reports success, the manager and its process are gone, and
nothing of it is left behind but, if it runs in the foreground, a pid file that
was there. -/
theorem C123_stop_works (c : Cfg) (w : World) (m : Mgr) (hm : Reached c w m) (hone : ∀ x, Reached c w x → x = m)
    (hme : m.saddr = c.me) (hp1 : (m.pid, true) ∈ w.procs) (hp2 : (m.pid, false) ∉ w.procs)
    (hpid : w.pidFile = none ∨ w.pidFile = some m.pid) :
    (stop c w).out.ok = true ∧ m ∉ (stop c w).w.mgrs ∧ (∀ b, (m.pid, b) ∉ (stop c w).w.procs) ∧
    (stop c w).signalled = [m.pid] ∧ (stop c w).w.token = none ∧ (stop c w).w.addr = none ∧
    (m.daemon = true → (stop c w).w.pidFile = none) := by
  have hw := stopdaemon_works (c := c) hp1 hp2
  have hg : m ∉ (exit c w m.pid).mgrs := by rw [mem_exit]; grind
  have hg2 : ∀ b, (m.pid, b) ∉ (exit c w m.pid).procs := by intro b; rw [mem_exit_procs]; grind
  have hd : m.daemon = true → (exit c w m.pid).pidFile = none := by
    intro hd
    have : w.mgrs.any (fun x => x.saddr = c.me ∧ x.pid = m.pid ∧ x.daemon = true) = true := by
      rw [List.any_eq_true]
      exact ⟨m, hm.1, by simp [hme, hd]⟩
    simp only [exit]
    rw [if_pos this]
  rcases hpid with hpid | hpid
  · have hc : connect c w = some m := by
      cases hc : connect c w with
      | none => exact absurd hm (connect_none.1 hc m)
      | some x => rw [hone x (connect_some hc)]
    simp only [stop, hpid, hc, stopFound, hme, if_true, hw, StopOut.ok, deleteToken, List.nil_append]
    exact ⟨trivial, hg, hg2, trivial, trivial, trivial, hd⟩
  · have hc : connect c (exit c w m.pid) = none := by
      rw [connect_none]
      intro x hx
      have : x = m := hone x ⟨(mem_exit.1 hx.1).1, hx.2⟩
      exact hg (this ▸ hx.1)
    simp only [stop, hpid, hw, if_true, hc, StopOut.ok, deleteToken]
    exact ⟨trivial, hg, hg2, trivial, trivial, trivial, hd⟩

/-- C123.  A manager elsewhere, found through its address, is stopped through a
request if it has our token and does as it is asked; without the right token it
goes on, and `stop` fails. -/
theorem C123_stop_elsewhere (c : Cfg) (w : World) (m : Mgr) (hm : Reached c w m) (hone : ∀ x, Reached c w x → x = m)
    (hme : m.saddr ≠ c.me) (hpid : w.pidFile = none) :
    (w.token = some m.token → m.quits = true →
      (stop c w).out = .stoppedAt m.saddr ∧ m ∉ (stop c w).w.mgrs ∧ (stop c w).signalled = []) ∧
    (w.token ≠ some m.token → (stop c w).out = .gaveUp ∧ (stop c w).w = w) := by
  have hc : connect c w = some m := by
    cases hc : connect c w with
    | none => exact absurd hm (connect_none.1 hc m)
    | some x => rw [hone x (connect_some hc)]
  constructor
  · intro ht hq
    have hc2 : connect c { w with mgrs := w.mgrs.filter fun x => x ≠ m } = none := by
      rw [connect_none]
      intro x hx
      have h1 : x ∈ w.mgrs ∧ x ≠ m := by simpa using hx.1
      exact h1.2 (hone x ⟨h1.1, hx.2⟩)
    simp only [stop, hpid, hc, stopFound, hme, if_false, shutdownServer, ht, ne_eq, not_true_eq_false, hq, if_true]
    rw [ht, hpid] at hc2
    simp only [ne_eq] at hc2
    rw [hc2]
    simp [deleteToken]
  · intro ht
    simp [stop, hpid, hc, stopFound, hme, shutdownServer, ht]

def exCfg : Cfg := ⟨0, 0⟩
def exMgr : Mgr := ⟨7, 0, [0], 5, true, true, 0, false⟩
def exW : World := ⟨[(7, true), (8, true)], [exMgr], some 7, some 5, some 0⟩
def exFar : Mgr := ⟨7, 1, [0], 5, true, true, 2, false⟩
def exWFar : World := ⟨[(7, true)], [exFar], none, some 5, none⟩

example : stop exCfg exW = ⟨⟨[(8, true)], [], none, none, none⟩, [7], [], .stopped⟩ := by decide
example : Reached exCfg exW exMgr ∧ ∀ x, Reached exCfg exW x → x = exMgr := by
  refine ⟨⟨by simp [exW], Or.inr (by simp [exMgr, exCfg])⟩, ?_⟩
  intro x hx
  simpa [exW] using hx.1
example : (stop exCfg exWFar).out = .stoppedAt 1 ∧ (stop exCfg exWFar).w.mgrs = [] := by decide
example : (stop exCfg { exWFar with token := some 6 }).out = .gaveUp := by decide

/-- The property fails with a stale pid file: after a crash of the manager the
pid may belong to another process of the user; `stop` terminates that process,
says that the manager was gracefully shut down, and forgets the token that the
runners of the crashed manager need. -/
theorem C123_violated_stale (c : Cfg) (p t : Nat) :
    stop c ⟨[(p, true)], [], some p, some t, some c.me⟩ = ⟨⟨[], [], some p, none, none⟩, [p], [], .stopped⟩ := by
  simp [stop, stopdaemon, exit, connect, dial, deleteToken]

/-- Without a pid file it fails with two managers: the one at the configured
address still answers after a successful `stop`. -/
theorem C123_violated_two :
    ∃ c w, (stop c w).out.ok = true ∧ ∃ m, Reached c w m ∧ Reached c (stop c w).w m := by
  refine ⟨⟨0, 1⟩, ⟨[(7, true)], [⟨7, 1, [1], 5, true, true, 0, false⟩, ⟨9, 2, [0], 5, true, true, 0, false⟩], none,
    some 5, some 1⟩, by decide, ⟨9, 2, [0], 5, true, true, 0, false⟩, ⟨by simp, by simp⟩, ?_⟩
  constructor
  · decide
  · right; decide

/-! ## drain -/

/-- C123.  `wr manager drain` fails, and changes nothing, if no manager answers
or it doesn't accept our token; otherwise the manager drains, and the token is
forgotten exactly when the manager says that no job is running. -/
theorem C123_drain (c : Cfg) (w : World) :
    ((∀ m, ¬ Reached c w m) → drain c w = (w, .noConnection)) ∧
    (∀ m, Reached c w m → (∀ x, Reached c w x → x = m) →
      (w.token ≠ some m.token → drain c w = (w, .refused)) ∧
      (w.token = some m.token →
        (∃ m' ∈ (drain c w).1.mgrs, m' = { m with draining := true }) ∧
        (m.running = 0 → (drain c w).2 = .drained ∧ (drain c w).1.token = none) ∧
        (m.running ≠ 0 → (drain c w).2 = .draining m.running ∧ (drain c w).1.token = w.token ∧ (drain c w).1.addr = w.addr))) := by
  refine ⟨fun h => by simp [drain, connect_none.2 h], ?_⟩
  intro m hm hone
  have hc : connect c w = some m := by
    cases hc : connect c w with
    | none => exact absurd hm (connect_none.1 hc m)
    | some x => rw [hone x (connect_some hc)]
  refine ⟨fun ht => by simp [drain, hc, ht], fun ht => ?_⟩
  have hmem : { m with draining := true } ∈ (setDraining w m).mgrs := by
    simp only [setDraining, List.mem_map]
    exact ⟨m, hm.1, by simp⟩
  refine ⟨⟨_, ?_, rfl⟩, fun hr => ?_, fun hr => ?_⟩
  · simp only [drain, hc, ht, ne_eq, not_true_eq_false, if_false]
    split <;> simpa [deleteToken] using hmem
  · simp [drain, hc, ht, hr, deleteToken]
  · simp [drain, hc, ht, hr, setDraining]

example : (drain exCfg exW).2 = .drained ∧ (drain exCfg exWFar).2 = .draining 2 := by decide

/-- "It is safe to repeat this command": not so.  When nothing is running, the
manager goes on for a while, until the runners have exited, but the token is
gone: a second `drain` is refused, and so is a `stop` of a manager
elsewhere. -/
theorem C123_violated_drain_again :
    ∃ c w, (drain c w).2 = .drained ∧ (drain c (drain c w).1).2 = .refused ∧ (stop c (drain c w).1).out = .gaveUp := by
  exact ⟨exCfg, { exWFar with mgrs := [{ exFar with running := 0 }] }, by decide⟩

/-! ## status -/

/-- C123 (partial: see the violation).  `wr manager status` reports a manager
only if it answers, and says "stopped" only if none does and there is no pid
file.  It fails, when there is a pid file, if no manager answers or there is no
token. -/
theorem C123_status_partial (c : Cfg) (w : World) :
    (∀ m, status c w = .report m → Reached c w m) ∧
    (status c w = .stopped ↔ w.pidFile = none ∧ ∀ m, ¬ Reached c w m) ∧
    (status c w = .died ↔ w.pidFile ≠ none ∧ (w.token = none ∨ ∀ m, ¬ Reached c w m)) := by
  have h0 : connect c w = none ↔ ∀ m, ¬ Reached c w m := connect_none
  rw [← h0]
  refine ⟨?_, ?_, ?_⟩
  · intro m h
    apply connect_some
    unfold status connectOrDie at h
    grind
  · unfold status connectOrDie
    grind
  · unfold status connectOrDie
    cases w.pidFile <;> cases w.token <;> cases hc : connect c w <;> simp

/-- The property fails: the message that the manager "is supposed to be running
with pid … but is non-responsive" is never shown, since connecting has already
ended the command. -/
theorem C123_violated_status (c : Cfg) (w : World) : status c w ≠ .nonResponsive := by
  unfold status
  grind

example : status exCfg exW = .report exMgr ∧ status exCfg ⟨[], [], some 7, some 5, none⟩ = .died ∧
    status exCfg ⟨[], [], none, none, none⟩ = .stopped := by decide

/-! ## start -/

/-- C123.  `wr manager start` refuses to start a second manager when one
answers, and changes nothing then or when an option is wrong; it reports
success only if a manager answers. -/
theorem C123_start (c : Cfg) (w : World) (o : Opts) (k : Option Child) (t : Bool) :
    (∀ m, Reached c w m → ∃ m', Reached c w m' ∧ start c w o k t = (w, .alreadyRunning m'.pid)) ∧
    ((∀ m, ¬ Reached c w m) → o.ok = false → start c w o k t = (w, .badOptions)) ∧
    ((start c w o k t).2 = .started → ∃ m, Reached c (start c w o k t).1 m ∧ ∃ k', k = some k') := by
  refine ⟨?_, ?_, ?_⟩
  · intro m hm
    cases hc : connect c w with
    | none => exact absurd hm (connect_none.1 hc m)
    | some x => exact ⟨x, connect_some hc, by simp [start, hc]⟩
  · intro h ho
    simp [start, connect_none.2 h, ho]
  · intro h
    unfold start at h ⊢
    cases hc : connect c w with
    | some m => simp [hc] at h
    | none =>
      simp only [hc] at h ⊢
      cases hk : o.ok with
      | false => simp [hk] at h
      | true =>
        cases k with
        | none => simp [hk] at h
        | some k =>
          simp only [hk, Bool.not_true, Bool.false_eq_true, if_false] at h ⊢
          split at h
          · rename_i hh
            simp only [Bool.and_eq_true] at hh
            obtain ⟨m, hm⟩ := Option.isSome_iff_exists.1 hh.2
            exact ⟨m, connect_some hm, k, rfl⟩
          · cases h

/-- C123.  The options are accepted exactly when the scripts given can be read,
the mount JSON is good, the user name has at most 18 characters, and, for
Kubernetes, there is a namespace and either a config map or a script. -/
theorem C123_start_options (o : Opts) : o.ok = true ↔
    (o.script ≠ some false ∧ o.destroyScript ≠ some false ∧ o.mountOk = true ∧ o.userLen ≤ 18 ∧
      (o.kube = true → 0 < o.namespaceLen ∧ (0 < o.configMapLen ∨ o.script ≠ none))) := by
  obtain ⟨a, b, d, e, f, g, h⟩ := o
  cases e <;> cases d <;> rcases a with _ | _ | _ <;> rcases b with _ | _ | _ <;>
    simp [Opts.ok, maxUser, Nat.pos_iff_ne_zero] <;> grind

/-- C123.  A manager started after a crash (the token file is still there) uses
the token of its predecessor, so that runners can reconnect; after a clean
`stop` the token is a new one. -/
theorem C123_start_token (c : Cfg) (w : World) (o : Opts) (k : Child) (t : Bool) (hn : ∀ m, ¬ Reached c w m)
    (ho : o.ok = true) :
    ∃ m ∈ (start c w o (some k) t).1.mgrs, m.pid = k.pid ∧ (start c w o (some k) t).1.token = some m.token ∧
      (∀ tok, w.token = some tok → m.token = tok) ∧ (w.token = none → m.token = k.fresh) := by
  refine ⟨⟨k.pid, c.me, k.at_, w.token.getD k.fresh, k.quits, true, 0, false⟩, ?_, rfl, ?_, ?_, ?_⟩
  · simp [start, connect_none.2 hn, ho]
  · simp [start, connect_none.2 hn, ho]
  · intro tok h; simp [h]
  · intro h; simp [h]

/-- C123.  A manager that was started can be stopped: when no manager ran, one
was started successfully and it obeys signals, `stop` succeeds and leaves no
manager, pid file, token or address. -/
theorem C123_start_stop (c : Cfg) (w : World) (o : Opts) (k : Child) (hw : w.mgrs = []) (hp : ∀ b, (k.pid, b) ∉ w.procs)
    (hk : k.exits = true) (hs : (start c w o (some k) true).2 = .started) :
    let r := stop c (start c w o (some k) true).1
    r.out.ok = true ∧ r.w.mgrs = [] ∧ r.w.pidFile = none ∧ r.w.token = none ∧ r.w.addr = none ∧ r.w.procs = w.procs := by
  intro r
  obtain ⟨m, hm, _⟩ := (C123_start c w o (some k) true).2.2 hs
  have hn : connect c w = none := by
    rw [connect_none]; intro x hx; simp [Reached, hw] at hx
  have ho : o.ok = true := by
    cases ho : o.ok with
    | true => rfl
    | false => simp [start, hn, ho] at hs
  let mm : Mgr := ⟨k.pid, c.me, k.at_, w.token.getD k.fresh, k.quits, true, 0, false⟩
  have e : (start c w o (some k) true).1 =
      ⟨(k.pid, k.exits) :: w.procs, [mm], some k.pid, some (w.token.getD k.fresh), some c.me⟩ := by
    simp [start, hn, ho, hw, mm]
  have hmm : m = mm := by
    have := hm.1
    rw [e] at this
    simpa using this
  subst hmm
  have hfil : (w.procs.filter fun p => decide (p.1 ≠ k.pid)) = w.procs := by
    apply List.filter_eq_self.2
    intro p hp'
    have : p.1 ≠ k.pid := by
      intro e
      exact hp p.2 (by rw [← e]; exact hp')
    simp [this]
  have hr : r = stop c (start c w o (some k) true).1 := rfl
  rw [e] at hr
  have : r = ⟨⟨w.procs, [], none, none, none⟩, [k.pid], [], .stopped⟩ := by
    rw [hr]
    simp only [stop, stopdaemon, List.find?_cons, decide_true, hk]
    simp [exit, mm, connect, dial, deleteToken]
    simpa using hfil
  rw [this]
  simp [StopOut.ok]

def exOpts : Opts := ⟨none, none, true, false, 0, 0, 4⟩
example : (start exCfg ⟨[], [], none, some 3, none⟩ exOpts (some ⟨7, true, [0], true, 5⟩) true) =
    (⟨[(7, true)], [⟨7, 0, [0], 3, true, true, 0, false⟩], some 7, some 3, some 0⟩, .started) := by decide

end Verif.Cmd.Manager
