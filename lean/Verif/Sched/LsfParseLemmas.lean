/- Lemmas for what the LSF scheduler reads (LsfParse), about the text of LsfText. -/
import Verif.Sched.LsfParse
import Verif.Sched.LsfText
import Verif.Sched.LsfProps
import Verif.Utils.ConfigProps
import Verif.Server.RunnerCmdProps

namespace Verif.Sched.LsfParse
open Verif.Sched.Lsf (Crit Queue contains)
open Verif.Utils.Config (digits itoa digits_itoa itoa_ne)
open Verif.Sched.LsfText

/-! ## Words -/

theorem word_sp {w : Str} (h : Word w) : ∀ c ∈ w, isSp c = false := by
  intro c hc
  have := h.2 c hc
  simp [isSp, this]

theorem ne_digit (d : Fin 10) : isSp (Char.ofNat (48 + d.val)) = false ∧ (Char.ofNat (48 + d.val)).isDigit = true ∧
    Char.ofNat (48 + d.val) ≠ '-' := by
  revert d
  decide +kernel

theorem itoa_chars (n : Nat) : ∀ c ∈ itoa n, isSp c = false ∧ c.isDigit = true ∧ c ≠ '-' := by
  intro c hc
  obtain ⟨d, hd, rfl⟩ := Verif.Server.RunnerCmd.dec_digit _ _ c hc
  exact ne_digit ⟨d, hd⟩

theorem fields_word : ∀ (w cur s : Str), (∀ c ∈ w, isSp c = false) → fieldsFrom cur (w ++ s) = fieldsFrom (cur ++ w) s
  | [], cur, s, _ => by simp
  | c :: w, cur, s, h => by
    have hc := h c (by simp)
    have ih := fields_word w (cur ++ [c]) s (fun x hx => h x (by simp [hx]))
    simp only [List.cons_append, fieldsFrom, hc, Bool.false_eq_true, if_false]
    rw [ih]
    simp

theorem fields_spaces : ∀ (n : Nat) (s : Str), fieldsFrom [] (spaces n ++ s) = fieldsFrom [] s
  | 0, s => by simp [spaces]
  | n + 1, s => by
    have ih := fields_spaces n s
    simp only [spaces] at ih ⊢
    rw [List.replicate_succ, List.cons_append]
    conv => lhs; unfold fieldsFrom
    rw [if_pos (by decide), if_pos rfl]
    exact ih

theorem fields_spaces_end (n : Nat) : fieldsFrom [] (spaces n) = [] := by
  have := fields_spaces n []
  rw [List.append_nil] at this
  rw [this]
  rfl

theorem fields_pad : ∀ (ws : List Str) (g : Nat → Nat) (cur : Str) (n : Nat), (∀ w ∈ ws, Word w) →
    fieldsFrom cur (pad g ws ++ spaces n) = (if cur = [] then [] else [cur]) ++ ws
  | [], g, cur, 0, _ => by simp [pad, spaces, fieldsFrom]
  | [], g, cur, n + 1, _ => by
    by_cases hc : cur = []
    · subst hc
      have := fields_spaces_end (n + 1)
      simpa [pad] using this
    · have h1 := fields_spaces_end n
      simp only [spaces] at h1
      simp only [pad, spaces, List.replicate_succ, List.nil_append, fieldsFrom, if_neg hc]
      rw [if_pos (by decide), h1]
      rfl
  | w :: ws, g, cur, n, h => by
    have hw := h w (by simp)
    have ih := fields_pad ws (fun i => g (i + 1)) w n (fun x hx => h x (by simp [hx]))
    rw [if_neg hw.1] at ih
    have key : ∀ (k : Nat), fieldsFrom [] (spaces k ++ (w ++ (pad (fun i => g (i + 1)) ws ++ spaces n))) = w :: ws := by
      intro k
      rw [fields_spaces, fields_word w [] _ (word_sp hw)]
      simpa using ih
    have e : pad g (w :: ws) ++ spaces n = ' ' :: (spaces (g 0) ++ (w ++ (pad (fun i => g (i + 1)) ws ++ spaces n))) := by
      simp [pad, spaces, List.replicate_succ]
    rw [e]
    unfold fieldsFrom
    rw [if_pos (by decide), key]
    split <;> rename_i hc <;> simp [hc]

theorem fields_pad' (ws : List Str) (g : Nat → Nat) (cur : Str) (h : ∀ w ∈ ws, Word w) :
    fieldsFrom cur (pad g ws) = (if cur = [] then [] else [cur]) ++ ws := by
  have := fields_pad ws g cur 0 h
  simpa [spaces] using this

/-! ## Lines that mean nothing -/

theorem pre_false {w l : Str} : (¬ w <+: l) → w.isPrefixOf l = false := by
  intro h
  rw [Bool.eq_false_iff]
  intro h'
  exact h (List.isPrefixOf_iff_prefix.mp h')

theorem says_false {w l : Str} (h : ¬ w <:+: l) : contains w l = false := by
  rw [Bool.eq_false_iff]
  intro h'
  exact h ((Verif.Sched.Lsf.contains_iff _ _).mp h')

theorem queueLine_none {l : Str} (h : ¬ "QUEUE: ".toList <+: l) : queueLine l = none := by
  unfold queueLine
  rw [if_neg (by rw [pre_false h]; decide)]

theorem isPrio_false {l : Str} (h : ¬ "PRIO".toList <+: l) : isPrio l = false := by
  unfold isPrio seqWords
  rw [pre_false h]
  rfl

theorem isDefault_false {l : Str} (h : ¬ "DEFAULT LIMITS:".toList <+: l) : isDefault l = false := pre_false h

theorem isFinished_false {l : Str} (h : ¬ "MAXIMUM LIMITS:".toList <+: l) (h' : ¬ "SCHEDULING PARAMETERS".toList <+: l) : isFinished l = false := by
  unfold isFinished
  rw [pre_false h, pre_false h']
  rfl

theorem listLine_none {k l : Str} (h : ¬ k <+: l) : listLine k l = none := by
  unfold listLine
  rw [if_neg (by rw [pre_false h]; decide)]

theorem chunkLine_none {l : Str} (h : ¬ "CHUNK_JOB_SIZE:".toList <+: l) : chunkLine l = none := by
  unfold chunkLine
  rw [if_neg (by rw [pre_false h]; decide)]

theorem finish_none (me : Str) (gs : List (Str × List Str)) (p : P) (q l : Str) (h1 : ¬ "USERS:".toList <+: l) (h2 : ¬ "HOSTS:".toList <+: l)
    (h3 : ¬ "CHUNK_JOB_SIZE:".toList <+: l) : finish me gs p q l = p := by
  unfold finish chunk usersHosts
  rw [listLine_none h1, listLine_none h2, chunkLine_none h3]

structure Ot (l : Str) : Prop where
  queue : ¬ "QUEUE: ".toList <+: l
  prio : ¬ "PRIO".toList <+: l
  dflt : ¬ "DEFAULT LIMITS:".toList <+: l
  max : ¬ "MAXIMUM LIMITS:".toList <+: l
  sched : ¬ "SCHEDULING PARAMETERS".toList <+: l
  users : ¬ "USERS:".toList <+: l
  hosts : ¬ "HOSTS:".toList <+: l
  chunk : ¬ "CHUNK_JOB_SIZE:".toList <+: l

theorem other_ot {l : Str} (h : Other l) : Ot l :=
  ⟨h _ (by decide), h _ (by decide), h _ (by decide), h _ (by decide), h _ (by decide), h _ (by decide), h _ (by decide), h _ (by decide)⟩

/-- a line that begins with something else -/
theorem other_first {c : Char} {l : Str} (h : c ∉ ['Q', 'P', 'D', 'M', 'S', 'U', 'H', 'C']) : Other (c :: l) := by
  intro w hw hp
  have hk : ∀ w ∈ keywords, ∃ d ∈ ['Q', 'P', 'D', 'M', 'S', 'U', 'H', 'C'], w.head? = some d := by decide
  obtain ⟨d, hd, he⟩ := hk w hw
  cases w with
  | nil => simp at he
  | cons x t =>
    simp only [List.head?_cons, Option.some.injEq] at he
    subst he
    have := (List.cons_prefix_cons.mp hp).1
    subst this
    exact h hd

theorem digit_first {c : Char} (h : c.isDigit = true) : c ∉ ['Q', 'P', 'D', 'M', 'S', 'U', 'H', 'C'] := by
  intro hc
  have : ∀ x ∈ ['Q', 'P', 'D', 'M', 'S', 'U', 'H', 'C'], x.isDigit = false := by decide
  rw [this c hc] at h
  exact absurd h (by decide)

/-! ## Between the blocks -/

/-- the state between the parts of the text about a queue -/
def clean (pre : List (Str × (Crit → Option Nat))) (hi : Crit → Nat) (q : Str) (a : Crit → Option Nat) : P :=
  { queue := some q, queues := pre ++ [(q, a)], highest := hi, prio := false, dflt := false, mem := 0, run := false }

def upd (a : Crit → Option Nat) (c : Crit) (v : Nat) : Crit → Option Nat := fun c' => if c' = c then some v else a c'
def updH (hi : Crit → Nat) (c : Crit) (v : Nat) : Crit → Nat := fun c' => if c' = c ∧ v > hi c then v else hi c'

theorem map_pre {pre : List (Str × (Crit → Option Nat))} {q : Str} (hq : q ∉ pre.map (·.1)) (f : (Crit → Option Nat) → (Crit → Option Nat)) :
    pre.map (fun e => if e.1 = q then (q, f e.2) else e) = pre := by
  induction pre with
  | nil => rfl
  | cons e es ih =>
    simp only [List.map_cons, List.mem_cons, not_or] at hq ⊢
    rw [if_neg (fun h => hq.1 h.symm), ih hq.2]

theorem set_queues {pre : List (Str × (Crit → Option Nat))} {q : Str} (hq : q ∉ pre.map (·.1)) (p : P) (a : Crit → Option Nat) (c : Crit)
    (v : Nat) (hp : p.queues = pre ++ [(q, a)]) : p.set q c v = { p with queues := pre ++ [(q, upd a c v)] } := by
  unfold P.set
  rw [hp, List.map_append, map_pre hq (fun f c' => if c' = c then some v else f c')]
  simp only [List.map_cons, List.map_nil, if_true]
  rfl

variable {me : Str} {gs : List (Str × List Str)} {pre : List (Str × (Crit → Option Nat))} {hi : Crit → Nat} {q : Str} {a : Crit → Option Nat}

theorem step_limits {p : P} {l : Str} (h1 : queueLine l = none) (h2 : p.queue = some q) (h3 : isPrio l = false) (h4 : p.prio = false)
    (h5 : isDefault l = false) (h6 : isFinished l = true ∨ p.dflt = false) :
    step me gs p l = (match limits { p with dflt := false } q l with
        | .error e => .error e
        | .ok (true, p') => .ok p'
        | .ok (false, p') => .ok (finish me gs p' q l)) := by
  unfold step
  rw [h1]
  simp only [h2]
  rw [if_neg (by rw [h3]; decide), if_neg (by rw [h4]; decide), if_neg (by rw [h5]; decide), if_pos h6]
  rfl

theorem limits_quiet {p : P} {l : Str} (h1 : contains "MEMLIMIT".toList l = false) (h2 : contains "RUNLIMIT".toList l = false) (h3 : p.mem = 0)
    (h4 : p.run = false) : limits p q l = .ok (false, p) := by
  unfold limits
  rw [if_neg (by rw [h1]; decide), if_neg (by omega), if_neg (by rw [h2]; decide), if_neg (by rw [h4]; decide)]

theorem step_quiet {l : Str} (h : Quiet l) : step me gs (clean pre hi q a) l = .ok (clean pre hi q a) := by
  have o := other_ot h.1
  rw [step_limits (q := q) (queueLine_none o.queue) rfl (isPrio_false o.prio) rfl (isDefault_false o.dflt) (Or.inr rfl),
    limits_quiet (says_false h.2.1) (says_false h.2.2) rfl rfl]
  simp only [finish_none me gs _ q l o.users o.hosts o.chunk]
  rfl

theorem runFrom_append : ∀ (ls ls' : List Str) (p p' : P), runFrom me gs p ls = .ok p' → runFrom me gs p (ls ++ ls') = runFrom me gs p' ls'
  | [], ls', p, p', h => by simp only [runFrom, Except.ok.injEq] at h; subst h; rfl
  | l :: ls, ls', p, p', h => by
    simp only [runFrom, List.cons_append] at h ⊢
    cases hs : step me gs p l with
    | error e => rw [hs] at h; simp at h
    | ok p1 =>
      rw [hs] at h
      exact runFrom_append ls ls' p1 p' h

theorem run_cons {p p1 : P} {l : Str} (ls : List Str) (h : step me gs p l = .ok p1) : runFrom me gs p (l :: ls) = runFrom me gs p1 ls := by
  simp only [runFrom, h]

theorem run_quiet : ∀ (ls : List Str), (∀ l ∈ ls, Quiet l) → runFrom me gs (clean pre hi q a) ls = .ok (clean pre hi q a)
  | [], _ => rfl
  | l :: ls, h => by
    rw [run_cons ls (step_quiet (h l (by simp)))]
    exact run_quiet ls (fun x hx => h x (by simp [hx]))

/-! ## The name -/

theorem takeWhile_word {w rest : Str} (h : ∀ c ∈ w, isSp c = false) (hr : rest = [] ∨ ∃ r, rest = ' ' :: r) :
    (w ++ rest).takeWhile (fun c => !isSp c) = w := by
  rw [List.takeWhile_append_of_pos (by intro c hc; simp [h c hc])]
  rcases hr with rfl | ⟨r, rfl⟩
  · simp
  · rw [List.takeWhile_cons_of_neg (by decide), List.append_nil]

theorem lit_prefix (w l : Str) : w.isPrefixOf (w ++ l) = true := List.isPrefixOf_iff_prefix.mpr (List.prefix_append w l)

theorem queueLine_some {name rest : Str} (h : Word name) (hr : rest = [] ∨ ∃ r, rest = ' ' :: r) :
    queueLine ("QUEUE: ".toList ++ name ++ rest) = some name := by
  unfold queueLine
  rw [List.append_assoc, if_pos (lit_prefix _ _)]
  have : ("QUEUE: ".toList ++ (name ++ rest)).drop 7 = name ++ rest := List.drop_left' (by decide)
  rw [this, takeWhile_word (word_sp h) hr, if_neg h.1]

/-- the state between queues -/
def between (pre : List (Str × (Crit → Option Nat))) (hi : Crit → Nat) (x : Option Str) : P :=
  { queue := x, queues := pre, highest := hi, prio := false, dflt := false, mem := 0, run := false }

theorem filter_pre {pre : List (Str × (Crit → Option Nat))} {q : Str} (hq : q ∉ pre.map (·.1)) : pre.filter (fun e => e.1 ≠ q) = pre := by
  apply List.filter_eq_self.mpr
  intro e he
  simp only [ne_eq, decide_not, Bool.not_eq_true', decide_eq_false_iff_not]
  intro h
  exact hq (by rw [← h]; exact List.mem_map_of_mem he)

theorem step_queue {name rest : Str} {x : Option Str} (h : Word name) (hr : rest = [] ∨ ∃ r, rest = ' ' :: r) (hq : name ∉ pre.map (·.1)) :
    step me gs (between pre hi x) ("QUEUE: ".toList ++ name ++ rest) = .ok (clean pre hi name (fun _ => none)) := by
  unfold step
  rw [queueLine_some h hr]
  simp only [between, filter_pre hq]
  rfl

/-! ## Priority -/

theorem spaces_drop (n : Nat) {s : Str} (h : (s.head?.map isSp).getD false = false) : (spaces n ++ s).dropWhile isSp = s := by
  rw [List.dropWhile_append_of_pos (by intro c hc; rw [List.eq_of_mem_replicate hc]; decide)]
  cases s with
  | nil => rfl
  | cons c s =>
    simp only [List.head?_cons, Option.map_some, Option.getD_some] at h
    rw [List.dropWhile_cons_of_neg (by rw [h]; decide)]

theorem word_head {w s : Str} (h : Word w) : ((w ++ s).head?.map isSp).getD false = false := by
  cases w with
  | nil => exact absurd rfl h.1
  | cons c w =>
    simp only [List.cons_append, List.head?_cons, Option.map_some, Option.getD_some]
    exact word_sp h c (by simp)

theorem seqWords_pad : ∀ (ws : List Str) (w : Str) (g : Nat → Nat) (rest : Str), (∀ x ∈ ws, Word x) → seqWords (w :: ws) (w ++ pad g ws ++ rest) = true
  | [], w, g, rest, _ => by
    unfold seqWords
    rw [List.append_assoc]
    exact lit_prefix _ _
  | v :: vs, w, g, rest, h => by
    have hv := h v (by simp)
    have ih := seqWords_pad vs v (fun i => g (i + 1)) rest (fun x hx => h x (by simp [hx]))
    conv => lhs; unfold seqWords
    have e : w ++ pad g (v :: vs) ++ rest = w ++ (spaces (g 0 + 1) ++ (v ++ (pad (fun i => g (i + 1)) vs ++ rest))) := by
      simp [pad]
    rw [List.append_assoc] at ih
    rw [e, lit_prefix, List.drop_left, spaces_drop _ (word_head hv), ih]
    simp only [spaces, List.replicate_succ, List.cons_append, List.head?_cons, Option.map_some, Option.getD_some]
    decide

def updO (a : Crit → Option Nat) (c : Crit) : Option Nat → (Crit → Option Nat)
  | none => a
  | some v => upd a c v

def updHO (hi : Crit → Nat) (c : Crit) : Option Nat → (Crit → Nat)
  | none => hi
  | some v => updH hi c v

theorem atoi_itoa (n : Nat) : atoi (itoa n) = some n := by
  unfold atoi
  rw [if_neg (itoa_ne n), digits_itoa]

theorem itoa_dash (n : Nat) : itoa n ≠ ['-'] := by
  intro h
  exact (itoa_chars n '-' (by rw [h]; simp)).2.2 rfl

theorem itoa_word (n : Nat) : Word (itoa n) := by
  refine ⟨itoa_ne n, fun c hc => ?_⟩
  have := (itoa_chars n c hc).1
  simp only [isSp, Bool.or_eq_false_iff, decide_eq_false_iff_not] at this
  exact ⟨this.1.1.1.1, this.1.1.1.2, this.1.1.2, this.1.2, this.2⟩

theorem limit_word (o : Option Nat) : Word (limit o) := by
  cases o with
  | none => exact ⟨by decide, by decide⟩
  | some n => exact itoa_word n

theorem optLimit_eq (hq : q ∉ pre.map (·.1)) (p : P) (c : Crit) (o : Option Nat) (hp : p.queues = pre ++ [(q, a)]) :
    optLimit p q c (limit o) = .ok { p with queues := pre ++ [(q, updO a c o)], highest := updHO p.highest c o } := by
  cases o with
  | none =>
    show Except.ok p = _
    simp only [updO, updHO, ← hp]
  | some n =>
    have e : limit (some n) = itoa n := rfl
    rw [e]
    unfold optLimit
    rw [if_neg (itoa_dash n), atoi_itoa]
    simp only [set_queues hq p a c n hp]
    rfl

theorem prioRow_fields (d : Desc) (h : d.Wf) : fields d.prioRow =
    itoa d.prio :: d.nice :: d.status :: limit d.max :: limit d.maxUser :: d.more := by
  unfold fields Desc.prioRow
  rw [List.append_assoc, fields_spaces, fields_word _ _ _ (word_sp (itoa_word _)), fields_pad']
  · simp [itoa_ne]
  · intro w hw
    simp only [List.mem_cons] at hw
    rcases hw with rfl | rfl | rfl | rfl | hw
    · exact h.nice
    · exact h.status
    · exact limit_word _
    · exact limit_word _
    · exact h.more w hw

theorem prioRow_other (d : Desc) : Other d.prioRow := by
  unfold Desc.prioRow
  cases d.indent with
  | succ n => exact other_first (by decide)
  | zero =>
    cases hi : itoa d.prio with
    | nil => exact absurd hi (itoa_ne _)
    | cons c t => exact other_first (digit_first (itoa_chars d.prio c (by rw [hi]; simp)).2.1)

def prioAttr (d : Desc) (a : Crit → Option Nat) : Crit → Option Nat := updO (updO (upd a .prio d.prio) .max d.max) .maxUser d.maxUser
def prioHigh (d : Desc) (hi : Crit → Nat) : Crit → Nat := updHO (updHO hi .max d.max) .maxUser d.maxUser

theorem prio_not_queue (r : Str) : ¬ "QUEUE: ".toList <+: "PRIO".toList ++ r := by
  intro h
  have : (['Q', 'U', 'E', 'U', 'E', ':', ' '] : Str) <+: 'P' :: ['R', 'I', 'O'] ++ r := h
  rw [List.cons_append, List.cons_prefix_cons] at this
  exact absurd this.1 (by decide)

theorem run_prio (d : Desc) (h : d.Wf) (hq : q ∉ pre.map (·.1)) :
    runFrom me gs (clean pre hi q a) [d.prioHead, d.prioRow] = .ok (clean pre (prioHigh d hi) q (prioAttr d a)) := by
  have h1 : step me gs (clean pre hi q a) d.prioHead = .ok { clean pre hi q a with prio := true } := by
    unfold step
    have e1 : queueLine d.prioHead = none := by
      apply queueLine_none
      unfold Desc.prioHead
      rw [List.append_assoc]
      exact prio_not_queue _
    have e2 : isPrio d.prioHead = true := by
      unfold isPrio Desc.prioHead
      exact seqWords_pad _ _ _ _ (by
        have : ∀ x ∈ ["NICE".toList, "STATUS".toList, "MAX".toList, "JL/U".toList], x ≠ [] ∧ ∀ c ∈ x, c ≠ ' ' ∧ c ≠ '\t' ∧ c ≠ '\n' ∧ c ≠ '\r' ∧ c ≠ Char.ofNat 12 := by decide
        exact this)
    rw [e1]
    simp only [clean]
    rw [if_pos e2]
  have o := other_ot (prioRow_other d)
  have h2 : step me gs { clean pre hi q a with prio := true } d.prioRow = .ok (clean pre (prioHigh d hi) q (prioAttr d a)) := by
    have e : prioLine { clean pre hi q a with prio := true } q d.prioRow = .ok (clean pre (prioHigh d hi) q (prioAttr d a)) := by
      unfold prioLine
      rw [prioRow_fields d h]
      simp only [atoi_itoa]
      rw [set_queues hq _ a .prio d.prio rfl, optLimit_eq hq _ .max d.max rfl]
      simp only
      rw [optLimit_eq hq _ .maxUser d.maxUser rfl]
      rfl
    unfold step
    rw [queueLine_none o.queue]
    show (if isPrio d.prioRow = true then _ else _) = _
    rw [if_neg (by rw [isPrio_false o.prio]; decide), if_pos rfl, e]
    simp only [finish_none me gs _ q _ o.users o.hosts o.chunk]
  rw [run_cons _ h1, run_cons _ h2]
  rfl

/-! ## Limits -/

theorem step_default : step me gs (clean pre hi q a) "DEFAULT LIMITS:".toList = .ok { clean pre hi q a with dflt := true } := by
  unfold step
  rw [show queueLine "DEFAULT LIMITS:".toList = none by decide]
  show (if isPrio _ = true then _ else _) = _
  rw [if_neg (by decide), if_neg (by simp [clean]), if_pos (by decide)]

theorem run_default : ∀ (ls : List Str), (∀ l ∈ ls, Other l) →
    runFrom me gs { clean pre hi q a with dflt := true } ls = .ok { clean pre hi q a with dflt := true }
  | [], _ => rfl
  | l :: ls, h => by
    have o := other_ot (h l (by simp))
    have hs : step me gs { clean pre hi q a with dflt := true } l = .ok { clean pre hi q a with dflt := true } := by
      unfold step
      rw [queueLine_none o.queue]
      show (if isPrio _ = true then _ else _) = _
      rw [if_neg (by rw [isPrio_false o.prio]; decide), if_neg (by simp [clean]), if_neg (by rw [isDefault_false o.dflt]; decide),
        if_neg (by rw [isFinished_false o.max o.sched]; simp), finish_none me gs _ q _ o.users o.hosts o.chunk]
    rw [run_cons ls hs]
    exact run_default ls (fun x hx => h x (by simp [hx]))

theorem step_max (b : Bool) : step me gs { clean pre hi q a with dflt := b } "MAXIMUM LIMITS:".toList = .ok (clean pre hi q a) := by
  rw [step_limits (q := q) (by decide) rfl (by decide) rfl (by decide) (Or.inl (by decide)), limits_quiet (by decide) (by decide) rfl rfl]
  simp only [finish_none me gs _ q "MAXIMUM LIMITS:".toList (by decide) (by decide) (by decide)]
  rfl

theorem first_ne {c d : Char} {w l : Str} (h : c ≠ d) : ¬ (c :: w) <+: (d :: l) := by
  rw [List.cons_prefix_cons]
  exact fun x => h x.1

theorem step_sched (b : Bool) (r : Str) (h1 : ¬ "MEMLIMIT".toList <:+: "SCHEDULING PARAMETERS".toList ++ r)
    (h2 : ¬ "RUNLIMIT".toList <:+: "SCHEDULING PARAMETERS".toList ++ r) :
    step me gs { clean pre hi q a with dflt := b } ("SCHEDULING PARAMETERS".toList ++ r) = .ok (clean pre hi q a) := by
  have f : ∀ (c : Char) (w : Str), c ≠ 'S' → ¬ (c :: w) <+: "SCHEDULING PARAMETERS".toList ++ r := fun c w h => first_ne h
  rw [step_limits (q := q) (queueLine_none (f 'Q' _ (by decide))) rfl (isPrio_false (f 'P' _ (by decide))) rfl
      (isDefault_false (f 'D' _ (by decide))) (Or.inl (by unfold isFinished; rw [lit_prefix]; simp)),
    limits_quiet (says_false h1) (says_false h2) rfl rfl]
  simp only [finish_none me gs _ q _ (f 'U' _ (by decide)) (f 'H' _ (by decide)) (f 'C' _ (by decide))]
  rfl

/-! ### Time -/

theorem takeDigits (n : Nat) {s : Str} (h : (s.head?.map Char.isDigit).getD false = false) :
    (itoa n ++ s).takeWhile Char.isDigit = itoa n ∧ (itoa n ++ s).dropWhile Char.isDigit = s := by
  have hd : ∀ c ∈ itoa n, c.isDigit = true := fun c hc => (itoa_chars n c hc).2.1
  rw [List.takeWhile_append_of_pos hd, List.dropWhile_append_of_pos hd]
  cases s with
  | nil => simp
  | cons c s =>
    simp only [List.head?_cons, Option.map_some, Option.getD_some] at h
    rw [List.takeWhile_cons_of_neg (by rw [h]; decide), List.dropWhile_cons_of_neg (by rw [h]; decide), List.append_nil]
    exact ⟨rfl, rfl⟩

theorem takeFrac {f s : Str} (hf : ∀ c ∈ f, c.isDigit = true) (h : (s.head?.map Char.isDigit).getD false = false) :
    (f ++ s).takeWhile Char.isDigit = f ∧ (f ++ s).dropWhile Char.isDigit = s := by
  rw [List.takeWhile_append_of_pos hf, List.dropWhile_append_of_pos hf]
  cases s with
  | nil => simp
  | cons c s =>
    simp only [List.head?_cons, Option.map_some, Option.getD_some] at h
    rw [List.takeWhile_cons_of_neg (by rw [h]; decide), List.dropWhile_cons_of_neg (by rw [h]; decide), List.append_nil]
    exact ⟨rfl, rfl⟩

theorem runMins_row (r : Run) (h : ∀ c ∈ r.frac, c.isDigit = true) : runMins r.row = some r.mins := by
  unfold runMins Run.row
  have e0 : (spaces (r.indent + 1) ++ itoa r.mins ++ (if r.frac = [] then [] else '.' :: r.frac) ++ " min".toList ++ r.rest).dropWhile isSp =
      itoa r.mins ++ ((if r.frac = [] then [] else '.' :: r.frac) ++ (" min".toList ++ r.rest)) := by
    have := spaces_drop (r.indent + 1) (word_head (s := (if r.frac = [] then [] else '.' :: r.frac) ++ (" min".toList ++ r.rest)) (itoa_word r.mins))
    simp only [List.append_assoc] at this ⊢
    exact this
  rw [e0]
  by_cases hf : r.frac = []
  · rw [if_pos hf, List.nil_append]
    obtain ⟨t1, t2⟩ := takeDigits r.mins (s := " min".toList ++ r.rest) (by rfl)
    simp only [t1, t2]
    rw [if_neg (itoa_ne _)]
    show (if " min".toList.isPrefixOf (" min".toList ++ r.rest) = true then _ else _) = _
    rw [if_pos (lit_prefix _ _), digits_itoa]
  · rw [if_neg hf]
    obtain ⟨t1, t2⟩ := takeDigits r.mins (s := '.' :: r.frac ++ (" min".toList ++ r.rest)) (by rfl)
    simp only [t1, t2]
    rw [if_neg (itoa_ne _)]
    obtain ⟨u1, u2⟩ := takeFrac (s := " min".toList ++ r.rest) h (by rfl)
    simp only [List.cons_append, u1, u2, if_neg hf]
    rw [if_pos (lit_prefix _ _), digits_itoa]

theorem run_row_other (r : Run) : Other r.row := by
  unfold Run.row
  simp only [spaces, List.replicate_succ, List.cons_append]
  exact other_first (by decide)

theorem run_run (r : Run) (h : r.Wf) (hq : q ∉ pre.map (·.1)) :
    runFrom me gs (clean pre hi q a) [r.head, r.row] = .ok (clean pre hi q (upd a .runlimit (r.mins * 60))) := by
  obtain ⟨w1, w2, w3, w4, w5, w6⟩ := h
  have o := other_ot w1
  have o' := other_ot (run_row_other r)
  have h1 : step me gs (clean pre hi q a) r.head = .ok { clean pre hi q a with run := true } := by
    rw [step_limits (q := q) (queueLine_none o.queue) rfl (isPrio_false o.prio) rfl (isDefault_false o.dflt) (Or.inr rfl)]
    unfold limits
    rw [if_neg (by rw [says_false w3]; decide), if_neg (by simp [clean]), if_pos ((Verif.Sched.Lsf.contains_iff _ _).mpr w2)]
    rfl
  have h2 : step me gs { clean pre hi q a with run := true } r.row = .ok (clean pre hi q (upd a .runlimit (r.mins * 60))) := by
    rw [step_limits (q := q) (queueLine_none o'.queue) rfl (isPrio_false o'.prio) rfl (isDefault_false o'.dflt) (Or.inr rfl)]
    unfold limits
    rw [if_neg (by rw [says_false w5]; decide), if_neg (by simp [clean]), if_neg (by rw [says_false w6]; decide), if_pos (by rfl), runMins_row r w4]
    simp only [finish_none me gs _ q _ o'.users o'.hosts o'.chunk]
    rw [set_queues hq _ a _ _ rfl]
    rfl
  rw [run_cons _ h1, run_cons _ h2]
  rfl

/-! ### Memory -/

def Lim.tr (m : Lim) : Str × Str × Char := (itoa m.int, m.frac, m.unit)

theorem numUnit_lim (m : Lim) (h : m.Wf) (s : Str) :
    numUnit (itoa m.int ++ ((if m.frac = [] then [] else '.' :: m.frac) ++ ' ' :: m.unit :: s)) = some (Lim.tr m, s) := by
  have hu : isWord m.unit = true := by
    have : ∀ u ∈ ['K', 'M', 'G', 'T', 'P', 'E'], isWord u = true := by decide
    exact this _ h.2
  unfold numUnit
  by_cases hf : m.frac = []
  · rw [if_pos hf, List.nil_append]
    obtain ⟨t1, t2⟩ := takeDigits m.int (s := ' ' :: m.unit :: s) (by rfl)
    rw [t1, t2, if_neg (itoa_ne _)]
    simp only [hu, if_true, Lim.tr, hf]
  · rw [if_neg hf]
    obtain ⟨t1, t2⟩ := takeDigits m.int (s := '.' :: m.frac ++ ' ' :: m.unit :: s) (by rfl)
    rw [t1, t2, if_neg (itoa_ne _)]
    obtain ⟨u1, u2⟩ := takeFrac (s := ' ' :: m.unit :: s) h.1 (by rfl)
    simp only [List.cons_append, u1, u2, if_neg hf, hu, if_true, Lim.tr]

theorem findAll_spaces : ∀ (n k : Nat) (s : Str), findAll (n + k) (spaces n ++ s) = findAll k s
  | 0, k, s => by simp [spaces]
  | n + 1, k, s => by
    have e : n + 1 + k = (n + k) + 1 := by omega
    have e' : spaces (n + 1) ++ s = ' ' :: (spaces n ++ s) := by simp [spaces, List.replicate_succ]
    rw [e, e']
    show (match numUnit (' ' :: (spaces n ++ s)) with
      | some (m, r) => m :: findAll (n + k) r
      | none => findAll (n + k) (spaces n ++ s)) = _
    have : numUnit (' ' :: (spaces n ++ s)) = none := by
      unfold numUnit
      rw [if_pos (List.takeWhile_cons_of_neg (by decide))]
    rw [this]
    exact findAll_spaces n k s

theorem findAll_lim (m : Lim) (h : m.Wf) (s : Str) (k : Nat) (hk : (m.text ++ s).length ≤ k) :
    ∃ k', s.length ≤ k' ∧ findAll k (m.text ++ s) = Lim.tr m :: findAll k' s := by
  have e : m.text ++ s = spaces (m.gap + 1) ++ (itoa m.int ++ ((if m.frac = [] then [] else '.' :: m.frac) ++ ' ' :: m.unit :: s)) := by
    simp [Lim.text]
  rw [e] at hk ⊢
  simp only [List.length_append, List.length_cons, spaces, List.length_replicate] at hk
  refine ⟨k - (m.gap + 2), by omega, ?_⟩
  have hk' : k = m.gap + 1 + ((k - (m.gap + 2)) + 1) := by omega
  have hn := numUnit_lim m h s
  rw [hk', findAll_spaces]
  have e2 : m.gap + 1 + (k - (m.gap + 2) + 1) - (m.gap + 2) = k - (m.gap + 2) := by omega
  rw [e2]
  cases hc : itoa m.int ++ ((if m.frac = [] then [] else '.' :: m.frac) ++ ' ' :: m.unit :: s) with
  | nil =>
    have := congrArg List.length hc
    simp at this
  | cons c t =>
    rw [hc] at hn
    simp only [findAll, hn]

theorem findAll_lims : ∀ (ms : List Lim) (s : Str) (k : Nat), (∀ m ∈ ms, m.Wf) → (ms.flatMap Lim.text ++ s).length ≤ k →
    ∃ k', s.length ≤ k' ∧ findAll k (ms.flatMap Lim.text ++ s) = ms.map Lim.tr ++ findAll k' s
  | [], s, k, _, hk => ⟨k, by simpa using hk, by simp⟩
  | m :: ms, s, k, h, hk => by
    simp only [List.flatMap_cons, List.append_assoc] at hk ⊢
    obtain ⟨k1, h1, e1⟩ := findAll_lim m (h m (by simp)) _ k hk
    obtain ⟨k2, h2, e2⟩ := findAll_lims ms s k1 (fun x hx => h x (by simp [hx])) h1
    exact ⟨k2, h2, by rw [e1, e2]; simp⟩

theorem column_eq : ∀ (bs as : List Str), (∀ w ∈ bs, w ≠ "MEMLIMIT".toList) → column (bs ++ "MEMLIMIT".toList :: as) = bs.length + 1
  | [], as, _ => by simp [column]
  | b :: bs, as, h => by
    simp only [List.cons_append, column]
    rw [if_neg (h b (by simp)), column_eq bs as (fun x hx => h x (by simp [hx]))]
    simp

theorem pad_infix : ∀ (ws : List Str) (g : Nat → Nat) (w : Str), w ∈ ws → w <:+: pad g ws
  | [], _, _, h => absurd h (by simp)
  | v :: vs, g, w, h => by
    rcases List.mem_cons.mp h with rfl | h
    · exact ⟨spaces (g 0 + 1), pad (fun i => g (i + 1)) vs, rfl⟩
    · obtain ⟨x, y, e⟩ := pad_infix vs (fun i => g (i + 1)) w h
      exact ⟨spaces (g 0 + 1) ++ v ++ x, y, by simp only [pad, ← e, List.append_assoc]⟩

theorem lims_space (ms : List Lim) (m : Lim) (r : Str) : ∃ t, ms.flatMap Lim.text ++ m.text ++ r = ' ' :: t := by
  cases ms with
  | nil => exact ⟨_, by simp only [Lim.text, spaces, List.replicate_succ, List.flatMap_nil, List.nil_append, List.cons_append]; rfl⟩
  | cons x xs => exact ⟨_, by simp only [Lim.text, spaces, List.replicate_succ, List.flatMap_cons, List.cons_append]; rfl⟩

theorem run_mem (m : Mem) (h : m.Wf) (hq : q ∉ pre.map (·.1)) :
    runFrom me gs (clean pre hi q a) [m.head, m.row] =
      .ok (clean pre (updH hi .memlimit (megabytes (Lim.tr m.lim))) q (upd a .memlimit (megabytes (Lim.tr m.lim)))) := by
  obtain ⟨w1, w2, w3, w4, w5, w6⟩ := h
  have hwords : ∀ w ∈ m.before ++ "MEMLIMIT".toList :: m.after, Word w := by
    intro w hw
    rcases List.mem_append.mp hw with h | h
    · exact (w1 w h).1
    · rcases List.mem_cons.mp h with rfl | h
      · exact ⟨by decide, by decide⟩
      · exact w2 w h
  have o : Ot m.head := by
    apply other_ot
    unfold Mem.head
    cases hb : m.before with
    | nil => simp only [List.nil_append, pad, spaces, List.replicate_succ, List.cons_append]; exact other_first (by decide)
    | cons x xs => simp only [List.cons_append, pad, spaces, List.replicate_succ]; exact other_first (by decide)
  have o' : Ot m.row := by
    apply other_ot
    unfold Mem.row
    obtain ⟨t, ht⟩ := lims_space m.vals m.lim m.rest
    rw [ht]
    exact other_first (by decide)
  have h1 : step me gs (clean pre hi q a) m.head = .ok { clean pre hi q a with mem := m.before.length + 1 } := by
    rw [step_limits (q := q) (queueLine_none o.queue) rfl (isPrio_false o.prio) rfl (isDefault_false o.dflt) (Or.inr rfl)]
    have hc : contains "MEMLIMIT".toList m.head = true := (Verif.Sched.Lsf.contains_iff _ _).mpr (pad_infix _ _ _ (by simp))
    unfold limits
    rw [if_pos hc]
    have : column (fields m.head) = m.before.length + 1 := by
      unfold fields Mem.head
      rw [fields_pad' _ _ _ hwords, if_pos rfl, List.nil_append, column_eq _ _ (fun w hw => (w1 w hw).2)]
    simp only [this]
    rfl
  have h2 : step me gs { clean pre hi q a with mem := m.before.length + 1 } m.row =
      .ok (clean pre (updH hi .memlimit (megabytes (Lim.tr m.lim))) q (upd a .memlimit (megabytes (Lim.tr m.lim)))) := by
    rw [step_limits (q := q) (queueLine_none o'.queue) rfl (isPrio_false o'.prio) rfl (isDefault_false o'.dflt) (Or.inr rfl)]
    obtain ⟨k1, l1, f1⟩ := findAll_lims m.vals (m.lim.text ++ m.rest) m.row.length w4 (by simp [Mem.row])
    obtain ⟨k2, l2, f2⟩ := findAll_lim m.lim w5 m.rest k1 l1
    have f : findAll m.row.length m.row = m.vals.map Lim.tr ++ Lim.tr m.lim :: findAll k2 m.rest := by
      have e : m.row = m.vals.flatMap Lim.text ++ (m.lim.text ++ m.rest) := by simp [Mem.row]
      rw [f2, ← e] at f1
      exact f1
    unfold limits
    rw [if_neg (by rw [says_false w6]; decide), if_pos (by simp)]
    simp only [f]
    rw [if_pos ⟨by simp, by simp only [List.length_append, List.length_map, List.length_cons]; omega⟩]
    have g : (m.vals.map Lim.tr ++ Lim.tr m.lim :: findAll k2 m.rest)[m.before.length + 1 - 1]? = some (Lim.tr m.lim) := by
      rw [Nat.add_sub_cancel, ← w3]
      simp
    rw [g]
    simp only [finish_none me gs _ q _ o'.users o'.hosts o'.chunk]
    rw [set_queues hq _ a _ _ rfl]
    rfl
  rw [run_cons _ h1, run_cons _ h2]
  rfl

/-! ## Users, hosts, chunks -/

theorem trim_spaces (s : Str) (n : Nat) : trimRight (s ++ spaces n) = trimRight s := by
  unfold trimRight
  rw [List.reverse_append]
  have : (spaces n).reverse = spaces n := by simp [spaces]
  rw [this, List.dropWhile_append_of_pos (by intro c hc; rw [List.eq_of_mem_replicate hc]; decide)]

theorem trim_word {s w : Str} (h : Word w) : trimRight (s ++ w) = s ++ w := by
  unfold trimRight
  rw [List.reverse_append]
  cases hr : w.reverse with
  | nil => exact absurd (List.reverse_eq_nil_iff.mp hr) h.1
  | cons c t =>
    have hc : isSp c = false := word_sp h c (by rw [← List.mem_reverse, hr]; simp)
    rw [List.cons_append, List.dropWhile_cons_of_neg (by rw [hc]; decide), ← List.cons_append, ← hr, ← List.reverse_append,
      List.reverse_reverse]

theorem pad_last : ∀ (ws : List Str) (g : Nat → Nat), ws ≠ [] → (∀ w ∈ ws, Word w) → ∃ s w, Word w ∧ pad g ws = s ++ w
  | [], _, h, _ => absurd rfl h
  | [w], g, _, hw => ⟨spaces (g 0 + 1), w, hw w (by simp), by simp [pad]⟩
  | w :: w' :: ws, g, _, hw => by
    obtain ⟨s, v, hv, e⟩ := pad_last (w' :: ws) (fun i => g (i + 1)) (by simp) (fun x hx => hw x (List.mem_cons_of_mem _ hx))
    exact ⟨spaces (g 0 + 1) ++ w ++ s, v, hv, by rw [pad, e]; simp⟩

theorem trim_pad {w : Str} {ws : List Str} (g : Nat → Nat) (n : Nat) (hw : Word w) (h : ∀ x ∈ ws, Word x) :
    trimRight (w ++ (pad g ws ++ spaces n)) = w ++ pad g ws := by
  rw [← List.append_assoc, trim_spaces]
  cases hws : ws with
  | nil =>
    have := trim_word (s := []) hw
    simpa [pad] using this
  | cons x xs =>
    obtain ⟨s, v, hv, e⟩ := pad_last ws g (by rw [hws]; simp) h
    rw [← hws, e, ← List.append_assoc]
    exact trim_word hv

theorem listLine_some {kind w : Str} {ws : List Str} (g : Nat → Nat) (n : Nat) (hw : Word w) (h : ∀ x ∈ ws, Word x) :
    listLine kind (kind ++ pad g (w :: ws) ++ spaces n) = some (w ++ pad (fun i => g (i + 1)) ws) := by
  have e : kind ++ pad g (w :: ws) ++ spaces n = kind ++ (spaces (g 0 + 1) ++ (w ++ (pad (fun i => g (i + 1)) ws ++ spaces n))) := by
    simp [pad]
  unfold listLine
  rw [e, if_pos (lit_prefix _ _)]
  simp only [List.drop_left]
  rw [if_pos (by simp only [spaces, List.replicate_succ, List.cons_append, List.head?_cons, Option.map_some, Option.getD_some]; decide),
    spaces_drop _ (word_head hw)]
  have ht := trim_pad (fun i => g (i + 1)) n hw h
  cases hx : w ++ (pad (fun i => g (i + 1)) ws ++ spaces n) with
  | nil =>
    have := congrArg List.length hx
    have hl : w.length ≠ 0 := fun h0 => hw.1 (List.length_eq_zero_iff.mp h0)
    simp only [List.length_append, List.length_nil] at this
    omega
  | cons c t =>
    rw [hx] at ht
    simp only [ht]

theorem fields_line {w : Str} {ws : List Str} (g : Nat → Nat) (hw : Word w) (h : ∀ x ∈ ws, Word x) : fields (w ++ pad g ws) = w :: ws := by
  unfold fields
  rw [fields_word _ _ _ (word_sp hw), fields_pad' _ _ _ h, List.nil_append, if_neg hw.1]
  rfl

theorem step_finish {l : Str} (h1 : queueLine l = none) (h3 : isPrio l = false) (h5 : isDefault l = false)
    (h7 : contains "MEMLIMIT".toList l = false) (h8 : contains "RUNLIMIT".toList l = false) :
    step me gs (clean pre hi q a) l = .ok (finish me gs (clean pre hi q a) q l) := by
  rw [step_limits (q := q) h1 rfl h3 rfl h5 (Or.inr rfl), limits_quiet h7 h8 rfl rfl]
  rfl

/-- whether the user is one of those of the queue -/
def permitted (me : Str) (users : List Str) : Prop := "all".toList ∈ users ∨ me ∈ users

instance (me : Str) (users : List Str) : Decidable (permitted me users) := by unfold permitted; infer_instance

theorem distinct_mem : ∀ (l : List Str) (x : Str), x ∈ distinct l ↔ x ∈ l
  | [], x => by simp [distinct]
  | v :: vs, x => by
    have ih := distinct_mem vs
    unfold distinct
    split
    · rename_i h
      rw [ih]
      constructor
      · exact fun hx => List.mem_cons_of_mem _ hx
      · intro hx
        rcases List.mem_cons.mp hx with rfl | hx
        · exact (ih _).mp h
        · exact hx
    · simp [ih]

theorem distinct_nodup : ∀ (l : List Str), (distinct l).Nodup
  | [] => by simp [distinct]
  | v :: vs => by
    unfold distinct
    split
    · exact distinct_nodup vs
    · rename_i h
      exact List.nodup_cons.mpr ⟨h, distinct_nodup vs⟩

def numUsers (users : List Str) : Nat := if "all".toList ∈ users then 10000 else (distinct users).length

theorem step_users (d : Desc) (h : d.Wf) (hq : q ∉ pre.map (·.1)) :
    step me gs (clean pre hi q a) d.usersLine = .ok (if permitted me d.users then clean pre hi q (upd a .numUsers (numUsers d.users))
      else between pre hi none) := by
  obtain ⟨u1, u2, u3, u4⟩ := h.users
  have f : ∀ (c : Char) (w : Str), c ≠ 'U' → ¬ (c :: w) <+: d.usersLine := by
    intro c w hc
    unfold Desc.usersLine
    rw [List.append_assoc]
    exact first_ne hc
  rw [step_finish (queueLine_none (f 'Q' _ (by decide))) (isPrio_false (f 'P' _ (by decide))) (isDefault_false (f 'D' _ (by decide)))
    (says_false u3) (says_false u4)]
  have hch : chunkLine d.usersLine = none := chunkLine_none (f 'C' _ (by decide))
  unfold finish chunk
  rw [hch]
  cases hu : d.users with
  | nil => exact absurd hu u1
  | cons w ws =>
    have hw : Word w := u2 w (by rw [hu]; simp)
    have hws : ∀ x ∈ ws, Word x := fun x hx => u2 x (by rw [hu]; simp [hx])
    unfold usersHosts Desc.usersLine
    rw [hu, listLine_some _ _ hw hws]
    simp only [fields_line _ hw hws, distinct_mem]
    rw [set_queues hq _ a _ _ rfl]
    by_cases hp : permitted me (w :: ws)
    · rw [if_pos hp, if_neg (by intro x; rcases hp with hp | hp; exact x.1 hp; exact x.2 hp)]
      rfl
    · have hf : (pre ++ [(q, upd a .numUsers (if "all".toList ∈ w :: ws then 10000 else (distinct (w :: ws)).length))]).filter
          (fun e => e.1 ≠ q) = pre := by
        rw [List.filter_append, filter_pre hq]
        simp
      rw [if_neg hp, if_pos ⟨fun x => hp (Or.inl x), fun x => hp (Or.inr x)⟩, hf]
      rfl

/-- the number of the hosts -/
def numHosts (gs : List (Str × List Str)) (hs : List Str) : Nat := (distinct (hs.flatMap (hostField gs))).length

theorem pad_all {w : Str} {ws : List Str} (g : Nat → Nat) (hw : Word w) (h : ∀ x ∈ ws, Word x) (hn : w :: ws ≠ ["all".toList]) :
    w ++ pad g ws ≠ "all".toList := by
  intro he
  have h1 := fields_line g hw h
  rw [he] at h1
  exact hn (h1.symm.trans (by decide))

theorem step_hosts (d : Desc) (h : d.Wf) (hq : q ∉ pre.map (·.1)) :
    step me gs (clean pre hi q a) d.hostsLine =
      .ok (clean pre (updHO hi .hosts (d.hosts.map (numHosts gs))) q (updO a .hosts (d.hosts.map (numHosts gs)))) := by
  obtain ⟨u2, u3, u4⟩ := h.hosts
  have f : ∀ (c : Char) (w : Str), c ≠ 'H' → ¬ (c :: w) <+: d.hostsLine := by
    intro c w hc
    unfold Desc.hostsLine
    rw [List.append_assoc]
    exact first_ne hc
  rw [step_finish (queueLine_none (f 'Q' _ (by decide))) (isPrio_false (f 'P' _ (by decide))) (isDefault_false (f 'D' _ (by decide)))
    (says_false u3) (says_false u4)]
  have hch : chunkLine d.hostsLine = none := chunkLine_none (f 'C' _ (by decide))
  have hus : listLine "USERS:".toList d.hostsLine = none := listLine_none (f 'U' _ (by decide))
  unfold finish chunk usersHosts
  rw [hch, hus]
  unfold Desc.hostsLine
  cases hh : d.hosts with
  | none =>
    have hall : Word "all".toList := ⟨by decide, by decide⟩
    simp only [Option.getD_none]
    rw [listLine_some _ _ hall (by simp)]
    simp only [pad, List.append_nil, if_true]
    rfl
  | some hs =>
    obtain ⟨v1, v2, v3⟩ := u2 hs hh
    cases hs with
    | nil => exact absurd rfl v1
    | cons w ws =>
      have hw : Word w := v3 w (by simp)
      have hws : ∀ x ∈ ws, Word x := fun x hx => v3 x (by simp [hx])
      simp only [Option.getD_some]
      rw [listLine_some _ _ hw hws]
      simp only [fields_line _ hw hws]
      rw [if_neg (pad_all _ hw hws v2), set_queues hq _ a _ _ rfl]
      rfl

theorem chunkText_infix (w : Str) (g n : Nat) (hw : w = "MEMLIMIT".toList ∨ w = "RUNLIMIT".toList) : contains w (chunkText g n) = false := by
  apply says_false
  rintro ⟨x, y, e⟩
  have hI : 'L' ∈ w := by rcases hw with rfl | rfl <;> decide
  have : 'L' ∈ chunkText g n := by rw [← e]; simp [hI]
  unfold chunkText at this
  simp only [List.mem_append] at this
  rcases this with (h | h) | h
  · exact absurd h (by decide)
  · exact absurd (List.eq_of_mem_replicate h) (by decide)
  · exact absurd (itoa_chars n _ h).2.1 (by decide)

theorem chunkLine_some (g n : Nat) : chunkLine (chunkText g n) = some n := by
  unfold chunkLine chunkText
  rw [List.append_assoc, if_pos (lit_prefix _ _)]
  have e : ("CHUNK_JOB_SIZE:".toList ++ (spaces (g + 1) ++ itoa n)).drop 15 = spaces (g + 1) ++ itoa n := List.drop_left' (by decide)
  rw [e]
  have hd : (spaces (g + 1) ++ itoa n).dropWhile isSp = itoa n := by
    have := word_head (s := []) (itoa_word n)
    rw [List.append_nil] at this
    exact spaces_drop _ this
  have ht := (takeDigits n (s := []) (by rfl)).1
  rw [List.append_nil] at ht
  simp only [hd, ht]
  rw [if_pos (by simp only [spaces, List.replicate_succ, List.cons_append, List.head?_cons, Option.map_some, Option.getD_some]; decide),
    if_neg (itoa_ne n), digits_itoa]

theorem step_chunk (g n : Nat) (hq : q ∉ pre.map (·.1)) :
    step me gs (clean pre hi q a) (chunkText g n) = .ok (clean pre hi q (upd a .chunkSize n)) := by
  have f : ∀ (c : Char) (w : Str), c ≠ 'C' → ¬ (c :: w) <+: chunkText g n := by
    intro c w hc
    unfold chunkText
    rw [List.append_assoc]
    exact first_ne hc
  rw [step_finish (queueLine_none (f 'Q' _ (by decide))) (isPrio_false (f 'P' _ (by decide))) (isDefault_false (f 'D' _ (by decide)))
    (chunkText_infix _ g n (Or.inl rfl)) (chunkText_infix _ g n (Or.inr rfl))]
  have h1 : listLine "USERS:".toList (chunkText g n) = none := listLine_none (f 'U' _ (by decide))
  have h2 : listLine "HOSTS:".toList (chunkText g n) = none := listLine_none (f 'H' _ (by decide))
  unfold finish chunk usersHosts
  rw [h1, h2, chunkLine_some]
  simp only [clean]
  rw [set_queues hq _ a _ _ rfl]

/-- a queue that is not permitted: nothing of what follows is read -/
theorem run_skip : ∀ (ls : List Str), (∀ l ∈ ls, ¬ "QUEUE: ".toList <+: l) → runFrom me gs (between pre hi none) ls = .ok (between pre hi none)
  | [], _ => rfl
  | l :: ls, h => by
    have hs : step me gs (between pre hi none) l = .ok (between pre hi none) := by
      unfold step
      rw [queueLine_none (h l (by simp))]
      rfl
    rw [run_cons ls hs]
    exact run_skip ls (fun x hx => h x (by simp [hx]))

end Verif.Sched.LsfParse
