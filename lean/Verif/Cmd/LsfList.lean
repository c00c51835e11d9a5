/-
C128  The LSF emulation: bjobs, and flags with one dash.
-/
import Verif.Cmd.Lsf

namespace Verif.Cmd.Lsf
open Verif.Util

/-! ## bjobs -/

/-- C128, `bjobs`.  For every list of jobs: one line per job that has a number, in order, with the columns asked for; a
header before them unless not wanted; or one line saying that there is none. -/
theorem C128_bjobs (noHeader : Bool) (fields : List Str) (d : Str) (num : J → Nat) (val : Str → J → Str) (js : List J) :
    rows noHeader fields d num val js false =
      if ∀ j ∈ js, num j = 0 then [noneLine]
      else (if noHeader then [] else [joinS d fields]) ++
        (js.filter fun j => num j ≠ 0).map fun j => joinS d (fields.map fun f => val f j) := by
  have ht : ∀ js : List J, rows noHeader fields d num val js true =
      (js.filter fun j => num j ≠ 0).map fun j => joinS d (fields.map fun f => val f j) := by
    intro js
    induction js with
    | nil => rfl
    | cons j js ih =>
      unfold rows
      by_cases h : num j = 0 <;> simp [h, ih]
  induction js with
  | nil => rfl
  | cons j js ih =>
    unfold rows
    by_cases h : num j = 0
    · simp only [h, if_true, ih, List.mem_cons, forall_eq_or_imp, true_and]
      simp [h]
    · rw [if_neg h, ht]
      have hx : ¬ ∀ x ∈ j :: js, num x = 0 := fun hx => h (hx j (by simp))
      rw [if_neg hx]
      cases noHeader <;> simp [h]

example : rows false ["JOBID".toList] ",".toList (fun j : Nat => j) (fun _ j => (toString j).toList) [0, 7, 0] false =
    ["JOBID".toList, "7".toList] := by decide +kernel

theorem matchPre_none : ∀ (p : List (Char × Char)) (a r : Str), ('=', '=') ∈ p → (∀ x ∈ p, x.1 ≠ ' ' ∧ x.2 ≠ ' ') → '=' ∉ a →
    matchPre p (a ++ ' ' :: r) = none
  | [], _, _, h, _, _ => by cases h
  | p :: ps, [], r, _, h2, _ => by
    obtain ⟨h3, h4⟩ := h2 p (by simp)
    simp only [List.nil_append, matchPre]
    rw [if_neg]
    rintro (e | e)
    · exact h3 e.symm
    · exact h4 e.symm
  | p :: ps, c :: a, r, h1, h2, h3 => by
    simp only [List.cons_append, matchPre]
    split
    · rename_i e
      refine matchPre_none ps a r ?_ (fun x h => h2 x (by simp [h])) (fun h => h3 (by simp [h]))
      rcases List.mem_cons.1 h1 with h | h
      · exfalso
        rw [← h] at e
        simp only [or_self] at e
        exact h3 (by simp [e])
      · exact h
    · rfl

theorem core_none (a r : Str) (h : '=' ∉ a) : core (a ++ ' ' :: r) = none := by
  unfold core
  rw [matchPre_none _ _ _ (by decide) (by decide) h]

theorem cut_skip : ∀ (a r : Str), '=' ∉ a → cut (a ++ ' ' :: r) = (cut r).map fun x => (a ++ ' ' :: x.1, x.2.1, x.2.2)
  | [], r, h => by
    simp only [List.nil_append, cut]
    rw [show core (' ' :: r) = none from core_none [] r h]
  | c :: a, r, h => by
    have h1 := cut_skip a r (fun hx => h (by simp [hx]))
    have h2 := core_none (c :: a) r h
    simp only [List.cons_append] at h2 ⊢
    rw [cut, h2]
    simp only [h1, Option.map_map]
    rfl

theorem lastQuote_end : ∀ (d : Str) (q : Char), quote q = true → lastQuote (d ++ [q]) = some (d, [])
  | [], q, h => by simp [lastQuote, h]
  | c :: d, q, h => by simp [lastQuote, lastQuote_end d q h]

theorem cut_here (q q' : Char) (d : Str) (h : quote q = true) (h' : quote q' = true) :
    cut ("delimiter=".toList ++ q :: (d ++ [q'])) = some ([], d, []) := by
  have e : "delimiter=".toList = ['d', 'e', 'l', 'i', 'm', 'i', 't', 'e', 'r', '='] := by decide
  rw [e]
  have hc : core (['d', 'e', 'l', 'i', 'm', 'i', 't', 'e', 'r', '='] ++ q :: (d ++ [q'])) = some (d, []) := by
    simp [core, delimiterEq, matchPre, h, lastQuote_end d q' h']
  simp only [List.cons_append, List.nil_append] at hc ⊢
  rw [cut, hc]

theorem cut_none_eq : ∀ l : Str, '=' ∉ l → cut l = none
  | [], _ => rfl
  | c :: l, h => by
    have hc : ∀ (p : List (Char × Char)) (l : Str), ('=', '=') ∈ p → '=' ∉ l → matchPre p l = none := by
      intro p
      induction p with
      | nil => intro l h; cases h
      | cons x p ih =>
        intro l h1 h2
        cases l with
        | nil => rfl
        | cons c l =>
          simp only [matchPre]
          split
          · rename_i e
            refine ih l ?_ (fun h => h2 (by simp [h]))
            rcases List.mem_cons.1 h1 with h | h
            · exfalso
              rw [← h] at e
              simp only [or_self] at e
              exact h2 (by simp [e])
            · exact h
          · rfl
    have : core (c :: l) = none := by
      unfold core
      rw [hc _ _ (by decide) h]
    rw [cut, this, cut_none_eq l (fun hx => h (by simp [hx]))]
    rfl

/-- a column, in any case -/
def Column (n : Str) : Prop := n.map Char.toUpper ∈ columns

theorem upper_ne (c x : Char) (h : c.toUpper ≠ x) (hx : x.toUpper = x) : c ≠ x := by
  rintro rfl; exact h hx

theorem column_chars {n : Str} (h : Column n) : ∀ c ∈ n, c ≠ '=' ∧ c ≠ ' ' ∧ sp c = false := by
  have key : ∀ m ∈ columns, ∀ c ∈ m, c ≠ '=' ∧ c ≠ ' ' ∧ c ≠ '\t' ∧ c ≠ '\n' ∧ c ≠ '\x0c' ∧ c ≠ '\r' := by decide
  intro c hc
  have := key _ h c.toUpper (List.mem_map_of_mem hc)
  obtain ⟨h1, h2, h3, h4, h5, h6⟩ := this
  refine ⟨upper_ne _ _ h1 (by decide), upper_ne _ _ h2 (by decide), ?_⟩
  simp only [sp, Bool.or_eq_false_iff, decide_eq_false_iff_not]
  exact ⟨⟨⟨⟨upper_ne _ _ h3 (by decide), upper_ne _ _ h4 (by decide)⟩, upper_ne _ _ h5 (by decide)⟩, upper_ne _ _ h6 (by decide)⟩,
    upper_ne _ _ h2 (by decide)⟩

theorem join_chars {ns : List Str} (h : ∀ n ∈ ns, Column n) : '=' ∉ join ' ' ns := by
  induction ns with
  | nil => simp [join]
  | cons n ns ih =>
    cases ns with
    | nil => simp only [join]; exact fun hx => (column_chars (h n (by simp)) _ hx).1 rfl
    | cons m ns =>
      simp only [join, List.mem_append, List.mem_cons, not_or]
      exact ⟨fun hx => (column_chars (h n (by simp)) _ hx).1 rfl, by decide, ih fun x hx => h x (by simp [hx])⟩

theorem join_last {ns : List Str} (h0 : ns ≠ []) (h : ∀ n ∈ ns, Column n) : ∃ c, (join ' ' ns).getLast? = some c ∧ sp c = false := by
  induction ns with
  | nil => exact absurd rfl h0
  | cons n ns ih =>
    cases ns with
    | nil =>
      simp only [join]
      cases hl : n.getLast? with
      | none =>
        have := List.getLast?_eq_none_iff.1 hl
        subst this
        exact absurd (h [] (by simp)) (by unfold Column; decide)
      | some c => exact ⟨c, rfl, (column_chars (h n (by simp)) c (List.mem_of_getLast? hl)).2.2⟩
    | cons m ns =>
      obtain ⟨c, h1, h2⟩ := ih (by simp) (fun x hx => h x (by simp [hx]))
      refine ⟨c, ?_, h2⟩
      simp only [join]
      rw [List.getLast?_append, List.getLast?_cons, h1]
      simp

theorem dropEnd_space (l : Str) (c : Char) (h : l.getLast? = some c) (hc : sp c = false) : dropEnd (l ++ [' ']) = l := by
  unfold dropEnd
  rw [List.reverse_append, List.reverse_singleton, List.singleton_append]
  have : sp ' ' = true := by decide
  rw [List.dropWhile_cons, if_pos this]
  have hr : l.reverse.head? = some c := by rw [List.head?_reverse]; exact h
  cases hl : l.reverse with
  | nil => rw [hl] at hr; cases hr
  | cons x r =>
    rw [hl] at hr
    obtain rfl := Option.some.inj hr
    rw [List.dropWhile_cons, if_neg (by simp [hc]), ← hl, List.reverse_reverse]

theorem fields_ok {ns : List Str} (h0 : ns ≠ []) (h : ∀ n ∈ ns, Column n) :
    (split ' ' (join ' ' ns)).map (·.map Char.toUpper) = ns.map (·.map Char.toUpper) ∧
    ((split ' ' (join ' ' ns)).map (·.map Char.toUpper)).all (columns.contains ·) = true := by
  have hs : split ' ' (join ' ' ns) = ns := split_join ' ' ns h0 (fun n hn hx => (column_chars (h n hn) _ hx).2.1 rfl)
  rw [hs]
  refine ⟨rfl, ?_⟩
  rw [List.all_eq_true]
  intro x hx
  obtain ⟨n, hn, rfl⟩ := List.mem_map.1 hx
  have := h n hn
  unfold Column at this
  simpa using this

/-- C128, `bjobs -o`.  Columns in any case, separated by one space and followed by a delimiter in quotes, whatever it is, are
understood as such. -/
theorem C128_format_delimiter (ns : List Str) (h0 : ns ≠ []) (h : ∀ n ∈ ns, Column n) (q q' : Char) (d : Str)
    (hq : quote q = true) (hq' : quote q' = true) :
    format (join ' ' ns ++ ' ' :: ("delimiter=".toList ++ q :: (d ++ [q']))) = some (ns.map (·.map Char.toUpper), d) := by
  obtain ⟨c, hl, hc⟩ := join_last h0 h
  obtain ⟨f1, f2⟩ := fields_ok h0 h
  unfold format
  rw [cut_skip _ _ (join_chars h), cut_here q q' d hq hq']
  have e : dropEnd (join ' ' ns ++ [' ']) ++ List.dropWhile sp [] = join ' ' ns := by
    rw [dropEnd_space _ c hl hc]; simp
  rw [f1] at f2
  simp only [Option.map_some, e, f1, f2, if_true]

/-- C128, `bjobs -o`.  And so are columns alone, with a space as delimiter. -/
theorem C128_format (ns : List Str) (h0 : ns ≠ []) (h : ∀ n ∈ ns, Column n) :
    format (join ' ' ns) = some (ns.map (·.map Char.toUpper), [' ']) := by
  obtain ⟨f1, f2⟩ := fields_ok h0 h
  unfold format
  rw [cut_none_eq _ (join_chars h)]
  rw [f1] at f2
  simp only [f1, f2, if_true]

/-- C128, `bjobs -o`.  Whatever is asked for, only columns that exist are shown. -/
theorem C128_format_only (f : Str) (fs : List Str) (d : Str) (h : format f = some (fs, d)) : ∀ x ∈ fs, x ∈ columns := by
  unfold format at h
  split at h <;> simp only at h <;> split at h
  all_goals first
    | cases h; done
    | (rename_i hx; cases h; intro x hm; simpa using List.all_eq_true.1 hx x hm)

/-- C128, `bjobs -o`.  The columns are those of LSF that the documentation names (cmd/lsf.go:231). -/
theorem C128_columns : (∀ n ∈ ["jobid", "user", "stat", "queue", "from_host", "exec_host", "job_name", "submit_time"], Column n.toList) ∧
    columns.length = 8 := by
  unfold Column; decide

example : Column "jobid".toList ∧ Column "Stat".toList := by unfold Column; decide

/-- C128 fails: a delimiter that is not at the end joins the columns around it, and nothing is shown. -/
theorem C128_violated_format : format "jobid delimiter=',' stat".toList = none ∧
    format "jobid stat delimiter=','".toList = some (["JOBID".toList, "STAT".toList], ",".toList) := by decide +kernel

/-- C128, `bjobs`.  States are told apart as LSF does: waiting, running, unknown, failed, done. -/
theorem C128_stat (a b : St) : stat a = stat b ↔ a = b ∨ (a = .pending ∧ b = .reserved) ∨ (a = .reserved ∧ b = .pending) := by
  cases a <;> cases b <;> decide

/-! ## flags -/

/-- the argument is one of the flags -/
def isFlag (ps : List (Str × Bool)) (a : Str) : Bool := ps.any fun p => ('-' :: p.1).isPrefixOf a

theorem find_none_flag {ps : List (Str × Bool)} {a : Str} (h : (ps.find? fun p => ('-' :: p.1).isPrefixOf a) = none) : isFlag ps a = false := by
  unfold isFlag
  rw [List.any_eq_false]
  exact List.find?_eq_none.1 h

theorem find_some_flag {ps : List (Str × Bool)} {a : Str} {p} (h : (ps.find? fun p => ('-' :: p.1).isPrefixOf a) = some p) :
    isFlag ps a = true ∧ p ∈ ps := by
  unfold isFlag
  rw [List.any_eq_true]
  have h2 := List.find?_some h
  exact ⟨⟨p, List.mem_of_find?_eq_some h, h2⟩, List.mem_of_find?_eq_some h⟩

/-- C128, flags.  Flags without values: the arguments that are flags are taken out, the others stay, both in order. -/
theorem C128_flags (ps : List (Str × Bool)) (hp : ∀ p ∈ ps, p.2 = false) : ∀ as : List Str,
    flags ps as = (as.filter fun a => !isFlag ps a, as.filter fun a => isFlag ps a)
  | [] => rfl
  | [a] => by
    unfold flags
    split
    · rename_i p h; simp [(find_some_flag h).1]
    · rename_i h; simp [find_none_flag h]
  | a :: b :: l => by
    have ih := C128_flags ps hp (b :: l)
    unfold flags
    split
    · rename_i x h
      have := hp _ (find_some_flag h).2
      simp at this
    · rename_i x h
      rw [ih]
      simp only
      rw [List.filter_cons (x := a), List.filter_cons (x := a), (find_some_flag h).1]
      rfl
    · rename_i h
      rw [ih]
      simp only
      rw [List.filter_cons (x := a), List.filter_cons (x := a), find_none_flag h]
      rfl

/-- C128, flags.  With values too, no argument is lost or doubled. -/
theorem C128_flags_all (ps : List (Str × Bool)) : ∀ as : List Str, ((flags ps as).1 ++ (flags ps as).2).Perm as
  | [] => by simp [flags]
  | [a] => by
    unfold flags
    split <;> simp
  | a :: b :: l => by
    unfold flags
    split
    · have ih := C128_flags_all ps l
      refine List.perm_middle.trans (List.Perm.cons a ?_)
      exact List.perm_middle.trans (List.Perm.cons b ih)
    · have ih := C128_flags_all ps (b :: l)
      exact List.perm_middle.trans (List.Perm.cons a ih)
    · have ih := C128_flags_all ps (b :: l)
      exact List.Perm.cons a ih

example : flags noHeaderFlag ["bjobs".toList, "-noheader".toList, "-o".toList, "JOBID".toList] =
    (["bjobs".toList, "-o".toList, "JOBID".toList], ["-noheader".toList]) := by decide +kernel

/-- C128 fails for other commands: the value of an option of `wr status` is taken out. -/
theorem C128_violated_flags : (flags noHeaderFlag ["wr".toList, "status".toList, "-i".toList, "-noheader".toList]).1 =
    ["wr".toList, "status".toList, "-i".toList] := by decide +kernel

end Verif.Cmd.Lsf
