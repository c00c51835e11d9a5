/-
C128  The LSF emulation: scripts given to bsub, numbers of jobs, bjobs, bkill.
-/
import Verif.Cmd.Lsf

namespace Verif.Cmd.Lsf
open Verif.Util

/-! ## specification of bsub -/

/-- the values of the directives `#BSUB -f value` of a script, in order -/
def values (f : Char) (ls : List Str) : List Str :=
  ls.filterMap fun l => (directive (trim l)).bind fun d => if d.1 = f then some d.2 else none

/-- the last of them, or else -/
def lastOr (a : α) (l : List α) : α := l.getLast?.getD a

/-- the lines of the command: all but directives -/
def body (ls : List Str) : List Str := (ls.map trim).filter fun l => (directive l).isNone

/-- the first words of the lines that are not comments -/
def words (ls : List Str) : List Str :=
  ((ls.map trim).filter fun l => !['#'].isPrefixOf l).map fun l => (split ' ' l).headD []

theorem directive_hash {l d} (h : directive l = some d) : ['#'].isPrefixOf l = true := by
  unfold directive at h
  split at h
  · rfl
  · cases h

theorem lastOr_snoc (a x : α) (l : List α) : lastOr a (l ++ [x]) = x := by simp [lastOr]

theorem values_snoc (f ls l) : values f (ls ++ [l]) =
    values f ls ++ ((directive (trim l)).bind fun d => if d.1 = f then some d.2 else none).toList := by
  unfold values
  rw [List.filterMap_append]
  congr 1

theorem body_snoc (ls l) : body (ls ++ [l]) = body ls ++ (if (directive (trim l)).isNone then [trim l] else []) := by
  simp [body, List.filter_cons]

theorem words_snoc (ls l) : words (ls ++ [l]) = words ls ++ (if ['#'].isPrefixOf (trim l) then [] else [(split ' ' (trim l)).headD []]) := by
  simp only [words, List.map_append, List.filter_append, List.map_cons, List.map_nil, List.filter_cons, List.filter_nil]
  cases ['#'].isPrefixOf (trim l) <;> simp

theorem find_snoc (l : List Str) (x : Str) : ((l ++ [x]).find? (· ≠ [])).getD [] = if (l.find? (· ≠ [])).getD [] = [] then x else (l.find? (· ≠ [])).getD [] := by
  rw [List.find?_append]
  cases h : l.find? (· ≠ []) with
  | none => by_cases hx : x = [] <;> simp [hx, List.find?]
  | some y =>
    have := List.find?_some h
    have hy : y ≠ [] := by simpa using this
    simp [hy]

/-- C128, `bsub`.  For every script: the command is its lines, without white space at their ends, but for the directives;
report group, cores and memory are those of the last `-J`, `-n` and `-M` that have a value (of the right kind), else
"bsub", 1 and 1000; the memory is the user's (override 2) exactly if it was given; and the requirements group is the first word of the
first line with a command. -/
theorem C128_script (cv : Conv C) (ls : List Str) :
    (script cv ls).cmd = (body ls).flatMap (· ++ ['\n']) ∧
    (script cv ls).repGroup = lastOr "bsub".toList (values 'J' ls) ∧
    (script cv ls).cores = lastOr cv.one ((values 'n' ls).filterMap cv.float) ∧
    (script cv ls).ram = lastOr 1000 ((values 'M' ls).filterMap cv.int) ∧
    (script cv ls).override = (if (values 'M' ls).filterMap cv.int = [] then 0 else 2) ∧
    (script cv ls).exe = ((words ls).find? (· ≠ [])).getD [] := by
  obtain ⟨rs, rfl⟩ : ∃ rs : List Str, ls = rs.reverse := ⟨ls.reverse, by simp⟩
  induction rs with
  | nil => exact ⟨rfl, rfl, rfl, rfl, rfl, rfl⟩
  | cons l rs ih =>
    rw [List.reverse_cons]
    generalize rs.reverse = ls at ih ⊢
    have hs : script cv (ls ++ [l]) = line cv (script cv ls) l := by simp [script, List.foldl_append]
    rw [hs]
    generalize script cv ls = j at ih ⊢
    obtain ⟨h1, h2, h3, h4, h5, h6⟩ := ih
    rw [body_snoc, values_snoc, values_snoc, values_snoc, words_snoc]
    unfold line
    simp only
    cases hd : directive (trim l) with
    | none =>
      cases hh : ['#'].isPrefixOf (trim l) with
      | true => simp [h1, h2, h3, h4, h5, h6, List.flatMap_append]
      | false =>
        simp only [Bool.false_eq_true, if_false]
        refine ⟨by simp [h1], by simp [h2], by simp [h3], by simp [h4], by simp [h5], ?_⟩
        rw [find_snoc, ← h6]
    | some d =>
      rw [directive_hash hd]
      obtain ⟨f, v⟩ := d
      rw [if_pos rfl]
      split
      · rename_i heq; cases heq; simp [h1, h2, h3, h4, h5, h6, lastOr_snoc]
      · rename_i heq; cases heq
        cases hv : cv.float v <;> simp [h1, h2, h3, h4, h5, h6, hv, lastOr_snoc]
      · rename_i heq; cases heq
        cases hv : cv.int v <;> simp [h1, h2, h3, h4, h5, h6, hv, lastOr_snoc]
      · rename_i x n1 n2 n3 heq
        obtain ⟨x1, x2⟩ := x
        cases heq
        have a1 : f ≠ 'J' := fun e => n1 v (by rw [e])
        have a2 : f ≠ 'n' := fun e => n2 v (by rw [e])
        have a3 : f ≠ 'M' := fun e => n3 v (by rw [e])
        simp [h1, h2, h3, h4, h5, h6, a1, a2, a3]
      · rename_i heq; cases heq

theorem dropWhile_none {l : Str} (p : Char → Bool) (h : ∀ c ∈ l.head?, p c = false) : l.dropWhile p = l := by
  cases l with
  | nil => rfl
  | cons c l => simp [List.dropWhile, h c (by simp)]

theorem trim_id (l : Str) (h1 : ∀ c ∈ l.head?, space c = false) (h2 : ∀ c ∈ l.getLast?, space c = false) : trim l = l := by
  unfold trim
  rw [dropWhile_none _ h1, dropWhile_none _ (by rw [List.head?_reverse]; exact h2), List.reverse_reverse]

/-- the text does not begin or end with white space -/
def Tight (l : Str) : Prop := (∀ c ∈ l.head?, space c = false) ∧ (∀ c ∈ l.getLast?, space c = false)

/-- C128, `bsub`.  A line `#BSUB -f value` is the directive that it looks like. -/
theorem C128_directive (f : Char) (v : Str) (hf : word f = true) (hv : v ≠ []) (ht : Tight v) :
    directive (trim ("#BSUB -".toList ++ [f] ++ [' '] ++ v)) = some (f, v) := by
  have e : "#BSUB -".toList = ['#', 'B', 'S', 'U', 'B', ' ', '-'] := by decide
  have hlast : ("#BSUB -".toList ++ [f] ++ [' '] ++ v).getLast? = v.getLast? := by
    rw [List.getLast?_append]
    cases h : v.getLast? with
    | none => exact absurd (List.getLast?_eq_none_iff.1 h) hv
    | some c => rfl
  rw [trim_id _ (by rw [e]; simp; decide) (by rw [hlast]; exact ht.2), e]
  have hs : v.dropWhile sp = v := dropWhile_none sp (fun c hc => by
    have := ht.1 c hc
    simp only [space, Bool.or_eq_false_iff] at this
    exact this.1.1.1)
  simp only [List.cons_append, List.nil_append, directive]
  rw [if_pos (by decide)]
  have h2 : ('-' :: f :: ' ' :: v : Str).dropWhile sp = '-' :: f :: ' ' :: v := rfl
  simp only [h2, hs]
  rw [if_pos ⟨hf, by decide, hv⟩]

theorem dropWhile_blanks (w r : Str) (hw : ∀ c ∈ w, sp c = true) : (w ++ r).dropWhile sp = r.dropWhile sp := by
  induction w with
  | nil => rfl
  | cons c w ih =>
    have hc := hw c (by simp)
    simp only [List.cons_append, List.dropWhile_cons, hc, if_true]
    exact ih (fun x hx => hw x (by simp [hx]))

/-- C128, `bsub`.  And so is one with any white space (at least one) before the flag and before the value. -/
theorem C128_directive_blanks (w1 w2 : Str) (f : Char) (v : Str) (h1 : ∀ c ∈ w1, sp c = true) (n1 : w1 ≠ [])
    (h2 : ∀ c ∈ w2, sp c = true) (n2 : w2 ≠ []) (hf : word f = true) (hv : v ≠ []) (ht : Tight v) :
    directive (trim ("#BSUB".toList ++ w1 ++ ['-', f] ++ w2 ++ v)) = some (f, v) := by
  have e : "#BSUB".toList = ['#', 'B', 'S', 'U', 'B'] := by decide
  have hlast : ("#BSUB".toList ++ w1 ++ ['-', f] ++ w2 ++ v).getLast? = v.getLast? := by
    rw [List.getLast?_append]
    cases h : v.getLast? with
    | none => exact absurd (List.getLast?_eq_none_iff.1 h) hv
    | some c => rfl
  rw [trim_id _ (by rw [e]; simp; decide) (by rw [hlast]; exact ht.2), e]
  have hs : v.dropWhile sp = v := dropWhile_none sp (fun c hc => by
    have := ht.1 c hc
    simp only [space, Bool.or_eq_false_iff] at this
    exact this.1.1.1)
  cases w1 with
  | nil => exact absurd rfl n1
  | cons a w1 =>
    cases w2 with
    | nil => exact absurd rfl n2
    | cons b w2 =>
      simp only [List.cons_append, List.nil_append, List.append_assoc, directive]
      rw [if_pos (h1 a (by simp))]
      have hd : (w1 ++ '-' :: f :: b :: (w2 ++ v) : Str).dropWhile sp = '-' :: f :: b :: (w2 ++ v) := by
        rw [dropWhile_blanks _ _ (fun x hx => h1 x (by simp [hx]))]
        rfl
      simp only [hd]
      rw [dropWhile_blanks w2 v (fun x hx => h2 x (by simp [hx])), hs]
      rw [if_pos ⟨hf, h2 b (by simp), hv⟩]

example : directive (trim "#BSUB  -J \t my job ".toList) = some ('J', "my job".toList) := by decide

example : Tight "my job".toList := by unfold Tight; decide

/-- C128, `bsub`.  A script all of whose lines begin and end with text, and that has no directives, is the command
unchanged. -/
theorem C128_command_partial (cv : Conv C) (ls : List Str) (h1 : ∀ l ∈ ls, Tight l) (h2 : ∀ l ∈ ls, directive l = none) :
    (script cv ls).cmd = ls.flatMap (· ++ ['\n']) := by
  rw [(C128_script cv ls).1]
  have hm : ls.map trim = ls := by
    conv => rhs; rw [← List.map_id ls]
    exact List.map_congr_left fun l hl => trim_id l (h1 l hl).1 (h1 l hl).2
  have : body ls = ls := by
    unfold body
    rw [hm]
    exact List.filter_eq_self.2 fun l hl => by simp [h2 l hl]
  rw [this]

def natConv : Conv Nat := ⟨fun _ => none, fun _ => none, 1⟩

/-- C128 fails: white space at the beginning of lines is lost, though it has meaning in what the shell passes on. -/
theorem C128_violated_indent : ∃ ls : List Str, (∀ l ∈ ls, directive (trim l) = none) ∧
    (script natConv ls).cmd ≠ ls.flatMap (· ++ ['\n']) ∧
    (script natConv ls).cmd = "python3 <<E\nif a:\nb()\nE\n".toList :=
  ⟨["python3 <<E".toList, "if a:".toList, "  b()".toList, "E".toList], by decide +kernel⟩

/-- C128, `bsub`.  Nothing is submitted exactly if there is no line but directives. -/
theorem C128_nothing (cv : Conv C) (ls : List Str) : bsub cv ls = none ↔ ∀ l ∈ ls, (directive (trim l)).isSome := by
  have h : (script cv ls).cmd = [] ↔ ∀ l ∈ ls, (directive (trim l)).isSome := by
    rw [(C128_script cv ls).1]
    simp [body, Option.isSome_iff_ne_none]
  rw [← h]
  unfold bsub
  simp only
  split
  · rename_i h; simp [h]
  · rename_i h; simp [h]

example : bsub natConv ["#BSUB -J a".toList, " #BSUB -q b".toList] = none := by rw [C128_nothing]; decide +kernel

/-- C128 fails: a script of empty lines is submitted as a command, though none is specified. -/
theorem C128_violated_empty : ∃ j, bsub natConv [[], [' ']] = some (j, []) ∧ (∀ c ∈ j.cmd, space c = true) :=
  ⟨_, rfl, by decide⟩

/-! ## what jobs of jobs get -/

/-- C128.  However deep: a job added with bsub by (…) the command of a job in bsub mode has its options for the scheduler and
its deployment, whatever the deployments are when bsub is called; and its mounts, unless the jobs share a disk. -/
theorem C128_inherited (j : Cfg M) (hm : j.mode ≠ []) : ∀ (d : Str) (ds : List Str),
    descend j (d :: ds) = some ⟨if j.other.any (fun p => p.1 == shared) then [] else j.mounts, j.other, j.mode⟩ := by
  intro d ds
  have step : ∀ (j : Cfg M) (d : Str), j.mode ≠ [] → inherit d (config j) =
      some ⟨if j.other.any (fun p => p.1 == shared) then [] else j.mounts, j.other, j.mode⟩ := by
    intro j d hm
    simp [config, hm, inherit]
  induction ds generalizing j d with
  | nil => simp [descend, step j d hm]
  | cons d2 ds ih =>
    rw [descend, step j d hm]
    simp only [Option.bind_some]
    refine (ih ⟨if j.other.any (fun p => p.1 == shared) then [] else j.mounts, j.other, j.mode⟩ hm d2).trans ?_
    simp only [Option.some.injEq, Cfg.mk.injEq, and_true]
    cases j.other.any (fun p => p.1 == shared) <;> simp

example : descend (⟨["/mnt".toList], [("cloud_os".toList, "x".toList)], "development".toList⟩ : Cfg Str)
    ["production".toList, "production".toList] = some ⟨["/mnt".toList], [("cloud_os".toList, "x".toList)], "development".toList⟩ := by
  decide +kernel

/-- C128 fails: if the variable has a JSON without requirements, bsub crashes; what it says is optional. -/
theorem C128_violated_config : inherit (M := Str) "production".toList (some ⟨[], none, []⟩) = none := rfl

end Verif.Cmd.Lsf
