import Verif.Cmd.AddFile
import Verif.Server.Convert

/-! # C96: the file of commands -/

namespace Verif.Cmd.AddFile

/-! ## Specification -/

/-- A file with these lines. -/
def unlines (ls : List Str) : Str := ls.flatMap (· ++ ['\n'])

/-- A text that can be a line and is not changed by reading it. -/
def Line (max : Nat) (l : Str) : Prop := '\n' ∉ l ∧ l.getLast? ≠ some '\r' ∧ l.length < max

/-- The line asks for a job: there is something before the first tab. -/
def Asks (l : Str) : Prop := l ≠ [] ∧ l.head? ≠ some '\t'

instance (l : Str) : Decidable (Asks l) := inferInstanceAs (Decidable (_ ∧ _))

/-! ## Lemmas -/

private theorem dropCR_id {l : Str} (h : l.getLast? ≠ some '\r') : dropCR l = l := by
  unfold dropCR; rw [if_neg h]

private theorem scan_line (max : Nat) : ∀ (l cur rest : Str), '\n' ∉ l → (cur ++ l).length < max →
    scan max cur (l ++ '\n' :: rest) = (dropCR (cur ++ l) :: (scan max [] rest).1, (scan max [] rest).2)
  | [], cur, rest, _, hl => by
    simp only [List.append_nil] at hl ⊢
    rw [List.nil_append, scan, if_neg (by omega), if_pos rfl]
  | c :: l, cur, rest, hn, hl => by
    have hc : c ≠ '\n' := fun e => hn (by simp [e])
    rw [List.cons_append, scan, if_neg (by simp at hl; omega), if_neg hc,
      scan_line max l (cur ++ [c]) rest (fun h => hn (by simp [h])) (by simpa using hl)]
    simp

private theorem scan_last (max : Nat) : ∀ (l cur : Str), '\n' ∉ l → (cur ++ l).length < max → cur ++ l ≠ [] →
    scan max cur l = ([dropCR (cur ++ l)], true)
  | [], cur, _, hl, hne => by
    simp only [List.append_nil] at hl hne ⊢
    rw [scan, if_neg (by omega), if_neg hne]
  | c :: l, cur, hn, hl, hne => by
    have hc : c ≠ '\n' := fun e => hn (by simp [e])
    rw [scan, if_neg (by simp at hl; omega), if_neg hc,
      scan_last max l (cur ++ [c]) (fun h => hn (by simp [h])) (by simpa using hl) (by simp)]
    simp

private theorem scan_long (max : Nat) : ∀ (l cur rest : Str), '\n' ∉ l → (cur ++ l).length ≥ max →
    scan max cur (l ++ rest) = ([], false)
  | [], cur, rest, _, hl => by
    simp only [List.append_nil] at hl
    rw [List.nil_append]
    cases rest with
    | nil => rw [scan, if_pos hl]
    | cons c cs => rw [scan, if_pos hl]
  | c :: l, cur, rest, hn, hl => by
    have hc : c ≠ '\n' := fun e => hn (by simp [e])
    rw [List.cons_append, scan, if_neg hc]
    split
    · rfl
    · exact scan_long max l (cur ++ [c]) rest (fun h => hn (by simp [h])) (by simpa using hl)

private theorem columns_none {l : Str} (h : '\t' ∉ l) : columns l = [l] := by
  induction l with
  | nil => rfl
  | cons c l ih =>
    have hc : c ≠ '\t' := fun e => h (by simp [e])
    rw [columns, if_neg hc, ih fun h' => h (by simp [h'])]

private theorem columns_app {l : Str} (h : '\t' ∉ l) (r : Str) : columns (l ++ '\t' :: r) = l :: columns r := by
  induction l with
  | nil => rw [List.nil_append, columns, if_pos rfl]
  | cons c l ih =>
    have hc : c ≠ '\t' := fun e => h (by simp [e])
    rw [List.cons_append, columns, if_neg hc, ih fun h' => h (by simp [h'])]

private theorem columns_ne (l : Str) : columns l ≠ [] := by
  induction l with
  | nil => simp [columns]
  | cons c l ih =>
    rw [columns]
    split
    · simp
    · split <;> simp

private theorem columns_first (l : Str) : ∃ x xs, columns l = x :: xs ∧ (x = [] ↔ ¬ Asks l) := by
  cases l with
  | nil => exact ⟨[], [], rfl, by simp [Asks]⟩
  | cons c l =>
    by_cases hc : c = '\t'
    · exact ⟨[], columns l, by rw [columns, if_pos hc], by simp [Asks, hc]⟩
    · rw [columns, if_neg hc]
      cases h : columns l with
      | nil => exact absurd h (columns_ne l)
      | cons x xs => exact ⟨c :: x, xs, rfl, by simp [Asks, hc]⟩

private theorem skip_iff (json : Str → Option (Option Spec)) (l : Str) : line json l = .skip ↔ ¬ Asks l := by
  obtain ⟨x, xs, hx, hiff⟩ := columns_first l
  rw [← hiff]
  unfold line
  rw [hx]
  match xs with
  | [] =>
    simp only
    constructor
    · intro h
      by_cases e : x = []
      · exact e
      · rw [if_neg e] at h
        split at h
        · split at h <;> cases h
        · cases h
    · intro h; rw [if_pos h]
  | [d] =>
    simp only
    constructor
    · intro h
      by_cases e : x = []
      · exact e
      · rw [if_neg e] at h
        split at h <;> cases h
    · intro h; rw [if_pos h]
  | d :: e :: ys =>
    simp only
    constructor
    · intro h
      by_cases e : x = []
      · exact e
      · rw [if_neg e] at h; cases h
    · intro h; rw [if_pos h]

private theorem lines_ok {α : Type} (json : Str → Option (Option Spec)) (convert : Str → Spec → Option α) (pwd : Str)
    (hp : pwd ≠ []) (hc : ∀ s d d', s.cwd ≠ [] → convert d s = convert d' s) :
    ∀ (ls : List Str) (d0 : Str) (js : List α), (d0 = [] ∨ d0 = pwd) → lines json convert pwd d0 ls = .jobs js →
      ∃ specs : List Spec, (ls.filter fun l => Asks l).map (line json) = specs.map .spec ∧ specs.map (convert pwd) = js.map some
  | [], d0, js, _, h => by
    simp only [lines, Out.jobs.injEq] at h
    subst h
    exact ⟨[], by simp, by simp⟩
  | l :: ls, d0, js, hd, h => by
    rw [lines] at h
    cases hl : line json l with
    | skip =>
      rw [hl] at h
      obtain ⟨specs, h1, h2⟩ := lines_ok json convert pwd hp hc ls d0 js hd h
      refine ⟨specs, ?_, h2⟩
      rw [List.filter_cons_of_neg (by simpa using (skip_iff json l).1 hl)]
      exact h1
    | die => rw [hl] at h; cases h
    | panic => rw [hl] at h; cases h
    | spec s =>
      rw [hl] at h
      simp only at h
      have hask : Asks l := by
        by_cases a : Asks l
        · exact a
        · rw [(skip_iff json l).2 a] at hl; cases hl
      generalize hdd : (if s.cwd = [] ∧ d0 = [] then pwd else d0) = d at h
      have hd' : d = [] ∨ d = pwd := by
        rw [← hdd]; split
        · exact .inr rfl
        · exact hd
      have heq : convert d s = convert pwd s := by
        by_cases e : s.cwd = []
        · rcases hd' with rfl | rfl
          · exfalso
            by_cases e0 : d0 = []
            · rw [if_pos ⟨e, e0⟩] at hdd; exact hp hdd
            · rw [if_neg (fun x => e0 x.2)] at hdd; exact e0 hdd
          · rfl
        · exact hc s d pwd e
      cases hj : convert d s with
      | none => rw [hj] at h; cases h
      | some j =>
        rw [hj] at h
        simp only at h
        cases hr : lines json convert pwd d ls with
        | die => rw [hr] at h; cases h
        | panic => rw [hr] at h; cases h
        | jobs js' =>
          rw [hr] at h
          simp only [Out.jobs.injEq] at h
          subst h
          obtain ⟨specs, h1, h2⟩ := lines_ok json convert pwd hp hc ls d js' hd' hr
          refine ⟨s :: specs, ?_, ?_⟩
          · rw [List.filter_cons_of_pos (by simpa using hask), List.map_cons, List.map_cons, hl, h1]
          · rw [List.map_cons, List.map_cons, h2, ← heq, hj]

private theorem lines_conv {α : Type} (json : Str → Option (Option Spec)) (convert : Str → Spec → Option α) (pwd : Str)
    (hc : ∀ s d d', s.cwd ≠ [] → convert d s = convert d' s) :
    ∀ (ls : List Str) (d0 : Str), (d0 = [] ∨ d0 = pwd) →
      (∀ l ∈ ls, Asks l → ∃ s j, line json l = .spec s ∧ convert pwd s = some j) →
      ∃ js, lines json convert pwd d0 ls = .jobs js
  | [], d0, _, _ => ⟨[], rfl⟩
  | l :: ls, d0, hd, h => by
    rw [lines]
    by_cases ha : Asks l
    · obtain ⟨s, j, h1, h2⟩ := h l (by simp) ha
      rw [h1]
      simp only
      generalize hdd : (if s.cwd = [] ∧ d0 = [] then pwd else d0) = d
      have hd' : d = [] ∨ d = pwd := by
        rw [← hdd]; split
        · exact .inr rfl
        · exact hd
      have heq : convert d s = convert pwd s := by
        by_cases e : s.cwd = []
        · by_cases e0 : d0 = []
          · rw [if_pos ⟨e, e0⟩] at hdd; rw [hdd]
          · rw [if_neg (fun x => e0 x.2)] at hdd
            rcases hd with h | h
            · exact absurd h e0
            · rw [← hdd, h]
        · exact hc s d pwd e
      obtain ⟨js, hjs⟩ := lines_conv json convert pwd hc ls d hd' fun x hx => h x (by simp [hx])
      rw [heq, h2, hjs]
      exact ⟨j :: js, rfl⟩
    · rw [(skip_iff json l).2 ha]
      exact lines_conv json convert pwd hc ls d0 hd fun x hx => h x (by simp [hx])

private theorem lines_opt {α : Type} (json : Str → Option (Option Spec)) (convert : Str → Spec → Option α) (cwdOpt : Str)
    (e : cwdOpt ≠ []) (ls : List Str) : lines json convert [] cwdOpt ls = lines json convert cwdOpt cwdOpt ls := by
  induction ls with
  | nil => rfl
  | cons l ls ih =>
    rw [lines, lines]
    cases line json l with
    | skip => exact ih
    | die => rfl
    | panic => rfl
    | spec s =>
      simp only [e, and_false, if_false]
      rw [ih]

/-! ## Properties -/

/-- C96: the lines of a file are read as they are. -/
theorem C96_lines (max : Nat) (ls : List Str) (h : ∀ l ∈ ls, Line max l) (hm : 0 < max) :
    scan max [] (unlines ls) = (ls, true) := by
  induction ls with
  | nil => simp [unlines, scan]; omega
  | cons l ls ih =>
    obtain ⟨h1, h2, h3⟩ := h l (by simp)
    have : unlines (l :: ls) = l ++ '\n' :: unlines ls := by simp [unlines]
    rw [this, scan_line max l [] _ h1 (by simpa using h3), ih fun x hx => h x (by simp [hx])]
    simp [dropCR_id h2]

/-- C96: also the last one if there is no newline after it. -/
theorem C96_last (max : Nat) (ls : List Str) (l : Str) (h : ∀ x ∈ ls, Line max x) (hl : Line max l) (hne : l ≠ []) :
    scan max [] (unlines ls ++ l) = (ls ++ [l], true) := by
  induction ls with
  | nil =>
    show scan max [] l = _
    rw [scan_last max l [] hl.1 (by simpa using hl.2.2) (by simpa using hne)]
    simp [dropCR_id hl.2.1]
  | cons x xs ih =>
    obtain ⟨h1, h2, h3⟩ := h x (by simp)
    have : unlines (x :: xs) ++ l = x ++ '\n' :: (unlines xs ++ l) := by simp [unlines]
    rw [this, scan_line max x [] _ h1 (by simpa using h3), ih fun y hy => h y (by simp [hy])]
    simp [dropCR_id h2]

/-- C96: nothing is added if a line is too long. -/
theorem C96_long {α : Type} (max : Nat) (json : Str → Option (Option Spec)) (convert : Str → Spec → Option α)
    (wd cwdOpt : Str) (isLocal matters : Bool) (ls : List Str) (l rest : Str) (h : ∀ x ∈ ls, Line max x) (hn : '\n' ∉ l)
    (hl : l.length ≥ max) :
    ∀ js, parse max json convert wd cwdOpt isLocal matters (unlines ls ++ (l ++ rest)) ≠ .jobs js := by
  have hs : (scan max [] (unlines ls ++ (l ++ rest))).2 = false := by
    induction ls with
    | nil =>
      show (scan max [] (l ++ rest)).2 = _
      rw [scan_long max l [] rest hn (by simpa using hl)]
    | cons x xs ih =>
      obtain ⟨h1, h2, h3⟩ := h x (by simp)
      have : unlines (x :: xs) ++ (l ++ rest) = x ++ '\n' :: (unlines xs ++ (l ++ rest)) := by simp [unlines]
      rw [this, scan_line max x [] _ h1 (by simpa using h3)]
      exact ih fun y hy => h y (by simp [hy])
  intro js
  unfold parse
  simp only [hs]
  cases lines json convert (if cwdOpt = [] then pwdOf wd isLocal matters else [])
    cwdOpt (scan max [] (unlines ls ++ (l ++ rest))).1 <;> simp

/-- C96: a line without a tab is the command, character by character. -/
theorem C96_plain (json : Str → Option (Option Spec)) (l : Str) (h1 : l ≠ []) (h2 : '\t' ∉ l) (h3 : l.head? ≠ some '{') :
    line json l = .spec { cmd := l } := by
  unfold line
  rw [columns_none h2]
  simp only [if_neg h1, if_neg h3]

/-- C96: what is before the tab is the command, whatever the options after it say. -/
theorem C96_tab (json : Str → Option (Option Spec)) (c d : Str) (s : Spec) (h1 : c ≠ []) (h2 : '\t' ∉ c) (h3 : '\t' ∉ d)
    (h4 : json d = some (some s)) : line json (c ++ '\t' :: d) = .spec { s with cmd := c } := by
  unfold line
  rw [columns_app h2, columns_none h3]
  simp only [if_neg h1, h4]

/-- C96: a line that begins with a brace gives all of it. -/
theorem C96_json (json : Str → Option (Option Spec)) (l : Str) (s : Spec) (h1 : l.head? = some '{') (h2 : '\t' ∉ l)
    (h3 : json l = some (some s)) : line json l = .spec s := by
  unfold line
  rw [columns_none h2]
  have : l ≠ [] := by rintro rfl; cases h1
  simp only [if_neg this, if_pos h1, h3]

/-- C96: options that are no JSON are not ignored. -/
theorem C96_bad (json : Str → Option (Option Spec)) (c d : Str) (h1 : c ≠ []) (h2 : '\t' ∉ c) (h3 : '\t' ∉ d)
    (h4 : json d = none) : line json (c ++ '\t' :: d) = .die := by
  unfold line
  rw [columns_app h2, columns_none h3]
  simp only [if_neg h1, h4]

/-- C96: neither are further columns. -/
theorem C96_columns (json : Str → Option (Option Spec)) (c d e : Str) (h1 : c ≠ []) (h2 : '\t' ∉ c) (h3 : '\t' ∉ d) :
    line json (c ++ '\t' :: (d ++ '\t' :: e)) = .die := by
  unfold line
  rw [columns_app h2, columns_app h3]
  cases he : columns e with
  | nil => exact absurd he (columns_ne e)
  | cons x xs => simp only [if_neg h1]

/-- C96: if jobs are added at all, there is one for each line that has something before the first tab, in the order of
the lines, and it is made of the options of this line and a default working directory that does not depend on other
lines. -/
theorem C96_all_partial {α : Type} (max : Nat) (json : Str → Option (Option Spec)) (convert : Str → Spec → Option α)
    (hc : ∀ s d d', s.cwd ≠ [] → convert d s = convert d' s) (wd cwdOpt : Str) (hw : wd ≠ []) (isLocal matters : Bool)
    (ls : List Str) (h : ∀ l ∈ ls, Line max l) (hm : 0 < max) (js : List α)
    (hj : parse max json convert wd cwdOpt isLocal matters (unlines ls) = .jobs js) :
    ∃ specs : List Spec, (ls.filter fun l => Asks l).map (line json) = specs.map .spec ∧
      specs.map (convert (if cwdOpt = [] then (if isLocal || matters then wd else "/tmp".toList) else cwdOpt)) = js.map some := by
  unfold parse at hj
  rw [C96_lines max ls h hm] at hj
  simp only [if_true] at hj
  by_cases e : cwdOpt = []
  · subst e
    simp only [if_true] at hj ⊢
    have hp : pwdOf wd isLocal matters ≠ [] := by
      unfold pwdOf; split
      · exact hw
      · decide
    cases hl : lines json convert (pwdOf wd isLocal matters) [] ls with
    | die => rw [hl] at hj; cases hj
    | panic => rw [hl] at hj; cases hj
    | jobs js' =>
      rw [hl] at hj
      simp only [Out.jobs.injEq] at hj
      subst hj
      exact lines_ok json convert _ hp hc ls [] js' (.inl rfl) hl
  · rw [if_neg e]
    rw [if_neg e] at hj
    rw [lines_opt json convert cwdOpt e] at hj
    cases hl : lines json convert cwdOpt cwdOpt ls with
    | die => rw [hl] at hj; cases hj
    | panic => rw [hl] at hj; cases hj
    | jobs js' =>
      rw [hl] at hj
      simp only [Out.jobs.injEq] at hj
      subst hj
      exact lines_ok json convert _ e hc ls cwdOpt js' (.inr rfl) hl

/-- C96: jobs are added if the lines that ask for a job can be understood. -/
theorem C96_added {α : Type} (max : Nat) (json : Str → Option (Option Spec)) (convert : Str → Spec → Option α)
    (hc : ∀ s d d', s.cwd ≠ [] → convert d s = convert d' s) (wd cwdOpt : Str) (isLocal matters : Bool)
    (ls : List Str) (h : ∀ l ∈ ls, Line max l) (hm : 0 < max)
    (hj : ∀ l ∈ ls, Asks l → ∃ s j, line json l = .spec s ∧
      convert (if cwdOpt = [] then (if isLocal || matters then wd else "/tmp".toList) else cwdOpt) s = some j) :
    ∃ js, parse max json convert wd cwdOpt isLocal matters (unlines ls) = .jobs js := by
  unfold parse
  rw [C96_lines max ls h hm]
  simp only [if_true]
  by_cases e : cwdOpt = []
  · subst e
    simp only [if_true] at hj ⊢
    obtain ⟨js, hjs⟩ := lines_conv json convert (pwdOf wd isLocal matters) hc ls [] (.inl rfl) hj
    rw [hjs]
    exact ⟨js, rfl⟩
  · rw [if_neg e]
    simp only [if_neg e] at hj
    rw [lines_opt json convert cwdOpt e]
    obtain ⟨js, hjs⟩ := lines_conv json convert cwdOpt hc ls cwdOpt (.inr rfl) hj
    rw [hjs]
    exact ⟨js, rfl⟩

/-- C96: if a line asks for a job and cannot be understood, no job of the file is added. -/
theorem C96_nothing {α : Type} (max : Nat) (json : Str → Option (Option Spec)) (convert : Str → Spec → Option α)
    (hc : ∀ s d d', s.cwd ≠ [] → convert d s = convert d' s) (wd cwdOpt : Str) (hw : wd ≠ []) (isLocal matters : Bool)
    (ls : List Str) (h : ∀ l ∈ ls, Line max l) (hm : 0 < max) (l : Str) (hl : l ∈ ls) (ha : Asks l)
    (hbad : ∀ s, line json l ≠ .spec s) :
    ∀ js, parse max json convert wd cwdOpt isLocal matters (unlines ls) ≠ .jobs js := by
  intro js hj
  obtain ⟨specs, h1, _⟩ := C96_all_partial max json convert hc wd cwdOpt hw isLocal matters ls h hm js hj
  have : line json l ∈ (ls.filter fun l => Asks l).map (line json) :=
    List.mem_map.2 ⟨l, List.mem_filter.2 ⟨hl, by simpa using ha⟩, rfl⟩
  rw [h1] at this
  obtain ⟨s, _, hs⟩ := List.mem_map.1 this
  exact hbad s hs.symm

/-- C96: a file of plain commands gives these commands. -/
theorem C96_commands (max : Nat) (json : Str → Option (Option Spec)) (wd : Str) (hw : wd ≠ [])
    (ls : List Str) (h : ∀ l ∈ ls, Line max l) (hm : 0 < max)
    (hp : ∀ l ∈ ls, l ≠ [] ∧ '\t' ∉ l ∧ l.head? ≠ some '{') :
    parse max json (fun d s => some (s.cmd, if s.cwd = [] then d else s.cwd)) wd [] true false (unlines ls) =
      .jobs (ls.map fun l => (l, wd)) := by
  have hc : ∀ (s : Spec) (d d' : Str), s.cwd ≠ [] →
      some (s.cmd, if s.cwd = [] then d else s.cwd) = some (s.cmd, if s.cwd = [] then d' else s.cwd) := by
    intro s d d' e; rw [if_neg e, if_neg e]
  obtain ⟨js, hjs⟩ := C96_added max json (fun d s => some (s.cmd, if s.cwd = [] then d else s.cwd)) hc wd [] true false
    ls h hm fun l hl _ => ⟨_, _, C96_plain json l (hp l hl).1 (hp l hl).2.1 (hp l hl).2.2, rfl⟩
  obtain ⟨specs, h1, h2⟩ := C96_all_partial max json _ hc wd [] hw true false ls h hm js hjs
  rw [hjs]
  have hf : (ls.filter fun l => Asks l) = ls := by
    apply List.filter_eq_self.2
    intro l hl
    obtain ⟨a, b, _⟩ := hp l hl
    simp only [decide_eq_true_eq]
    refine ⟨a, ?_⟩
    cases l with
    | nil => exact absurd rfl a
    | cons c l => intro e; simp only [List.head?_cons, Option.some.injEq] at e; exact b (by simp [e])
  rw [hf] at h1
  have h3 : specs = ls.map fun l => { cmd := l } := by
    have : ls.map (line json) = (ls.map fun l => ({ cmd := l } : Spec)).map .spec := by
      rw [List.map_map]
      exact List.map_congr_left fun l hl => C96_plain json l (hp l hl).1 (hp l hl).2.1 (hp l hl).2.2
    rw [this] at h1
    exact ((List.map_inj_right (fun a b h => by cases h; rfl)).1 h1).symm
  rw [h3, List.map_map] at h2
  have h4 : (ls.map fun l => (l, wd)).map some = js.map some := by
    rw [← h2, List.map_map]
    exact List.map_congr_left fun l _ => by simp
  rw [(List.map_inj_right (fun a b h => by cases h; rfl)).1 h4]

/-! ## Violations -/

/-- A JSON decoder that knows the two texts of the examples. -/
def someJson (l : Str) : Option (Option Spec) :=
  if l = "null".toList then some none
  else if l = "{c}".toList then some (some { cmd := "ls".toList, cwdMatters := true })
  else none

/-- C96 is violated: a line with a tab before its JSON is passed over without a word, although the JSON has a command; the
other jobs are added. -/
theorem C96_violated_skip : ∃ l, (∃ d, l = '\t' :: d ∧ ∃ s, someJson d = some (some s) ∧ s.cmd ≠ []) ∧
    parse 100 someJson (fun _ s => some s.cmd) "/home".toList [] true false (unlines ["echo".toList, l]) =
      .jobs ["echo".toList] := by
  exact ⟨"\t{c}".toList, ⟨"{c}".toList, by decide, { cmd := "ls".toList, cwdMatters := true }, by decide, by decide⟩, by decide⟩

/-- C96 is violated: the program ends with a nil pointer dereference and not with a message if the options are `null`. -/
theorem C96_violated_null : line someJson "echo\tnull".toList = .panic := by decide

/-- C96 is violated: a line that says that its working directory matters is run in /tmp, and not in the directory of the
user, if the manager is on another machine, while the same option given for all lines makes it the directory of the user. -/
theorem C96_violated_cwd :
    parse 100 someJson (fun d s => some (s.cwdMatters, d)) "/home".toList [] false false (unlines ["{c}".toList]) =
      .jobs [(true, "/tmp".toList)] ∧
    parse 100 someJson (fun d s => some (s.cwdMatters, d)) "/home".toList [] false true (unlines ["{c}".toList]) =
      .jobs [(true, "/home".toList)] := by
  decide

/-- C96: the conversion that is used is one for which the default working directory only matters if the line gives none. -/
theorem C96_convert (env : Server.Convert.Env) (jvj : Server.Convert.JVJ) (jd : Server.Convert.JD) (d d' : String)
    (h : jvj.cwd ≠ "") :
    Server.Convert.convert env jvj { jd with cwd := d } = Server.Convert.convert env jvj { jd with cwd := d' } := by
  have e : ∀ x : String, Server.Convert.strOr jvj.cwd x = jvj.cwd := by
    intro x; unfold Server.Convert.strOr; rw [if_neg h]
  unfold Server.Convert.convert
  simp only [e]
  rfl

/-! ## The hypotheses are met -/

/-- `echo 1`, an empty line, and `ls` with options, in a file -/
example : ∀ l ∈ ["echo 1".toList, [], "ls\t{}".toList], Line 100 l := by
  intro l hl
  simp only [List.mem_cons, List.not_mem_nil, or_false] at hl
  rcases hl with rfl | rfl | rfl <;> (unfold Line; decide)

example : Asks "echo 1".toList ∧ ¬ Asks [] ∧ ¬ Asks "\tx".toList := by decide

example : someJson "{c}".toList = some (some { cmd := "ls".toList, cwdMatters := true }) ∧ someJson "x".toList = none := by
  decide

/-- a file with three lines, one of them empty, gives two jobs -/
example : parse 100 someJson (fun d s => some (d, s.cmd)) "/home".toList [] true false
    (unlines ["echo 1".toList, [], "wc\t{c}".toList]) =
      .jobs [("/home".toList, "echo 1".toList), ("/home".toList, "wc".toList)] := by decide

end Verif.Cmd.AddFile
