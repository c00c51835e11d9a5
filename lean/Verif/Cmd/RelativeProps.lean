/-
The warning of `wr add` about relative paths: properties (C131).
-/
import Verif.Cmd.Relative

namespace Verif.Cmd.Relative
open Verif.Util (split join)

/-! ## Specification -/

/-- the name of an entry of a directory -/
def Entry (n : Str) : Prop := n ≠ [] ∧ '/' ∉ n ∧ n ≠ ['.'] ∧ n ≠ ['.', '.']

instance (n : Str) : Decidable (Entry n) := by unfold Entry; infer_instance

/-- ways to name an entry of the working directory in an argument: by its name; with ./ before it; as the value of an option or a
variable; at the end of a statement; at the end of a sub-shell -/
inductive Names (e : Str) : Str → Prop
  | plain : Names e e
  | dot : Names e ('.' :: '/' :: e)
  | value (k : Str) : '=' ∉ k → Names e (k ++ '=' :: e)
  | statement : Names e (e ++ [';'])
  | shell : Names e (e ++ [')'])
  | shellStatement : Names e (e ++ [';', ')'])

/-- a name without an equals sign, and without a semicolon or parenthesis at its end -/
def Simple (e : Str) : Prop := '=' ∉ e ∧ e.getLast? ≠ some ';' ∧ e.getLast? ≠ some ')'

instance (n : Str) : Decidable (Simple n) := by unfold Simple; infer_instance

/-- what a pattern means: each part stands for one character, a star for any number that are not slashes -/
inductive Matches : List Tok → Str → Prop
  | nil : Matches [] []
  | one {t : Tok} {ts : List Tok} {c : Char} {n : Str} : t ≠ .star → one t c = true → Matches ts n → Matches (t :: ts) (c :: n)
  | star {ts : List Tok} (a : Str) {n : Str} : '/' ∉ a → Matches ts n → Matches (.star :: ts) (a ++ n)

/-- an absolute path with at least two elements and no characters that are special to the check -/
def Absolute (a : Str) : Prop := ∃ x y zs, (∀ n ∈ x :: y :: zs, Entry n) ∧ a = '/' :: join '/' (x :: y :: zs) ∧
  ∀ c ∈ a, c ∉ ['=', ';', ')', '*', '?', '[', '\\']

/-! ## Helpers -/

theorem push_entry {cs : List Str} {n : Str} (h : Entry n) : push cs n = cs ++ [n] := by
  obtain ⟨h1, _, h3, h4⟩ := h
  unfold push
  rw [if_neg (by simp [h1, h3]), if_neg h4]

theorem joinClean_entry (dir : List Str) {n : Str} (h : Entry n) : joinClean dir n = dir ++ [n] := by
  unfold joinClean
  rw [Verif.Util.split_none '/' n h.2.1]
  simp [push_entry h]

theorem joinClean_dot (dir : List Str) {n : Str} (h : Entry n) : joinClean dir ('.' :: '/' :: n) = dir ++ [n] := by
  unfold joinClean
  have := Verif.Util.split_append '/' ['.'] n (by decide)
  simp only [List.cons_append, List.nil_append] at this
  rw [this, Verif.Util.split_none '/' n h.2.1]
  simp only [List.foldl_cons, List.foldl_nil]
  rw [push_entry h]
  simp [push]

theorem mem_files {dir : List Str} {names : List Str} (hn : ∀ n ∈ names, Entry n) {p : List Str} :
    p ∈ filesInDir dir names ↔ ∃ n ∈ names, p = dir ++ [n] := by
  unfold filesInDir
  rw [List.mem_map]
  constructor
  · rintro ⟨n, h, rfl⟩; exact ⟨n, h, joinClean_entry dir (hn n h)⟩
  · rintro ⟨n, h, rfl⟩; exact ⟨n, h, joinClean_entry dir (hn n h)⟩

theorem base_entry (dir : List Str) (n : Str) : base (dir ++ [n]) = n := by
  simp [base]

theorem trimSuffix_append (s t : Str) : trimSuffix (s ++ t) t = s := by
  unfold trimSuffix
  rw [if_pos (by simp)]
  simp

theorem trimSuffix_last {s : Str} {c : Char} (h : s.getLast? ≠ some c) : trimSuffix s [c] = s := by
  unfold trimSuffix
  rw [if_neg]
  intro hs
  rw [List.isSuffixOf_iff_suffix] at hs
  obtain ⟨t, rfl⟩ := hs
  simp at h

theorem cleanArg_of {s a : Str} (h : trimSuffix (trimSuffix a [')']) [';'] = s) (hs : '=' ∉ s) : cleanArg a = s := by
  unfold cleanArg
  rw [h, Verif.Util.split_none '=' s hs]

theorem names_path {dir : List Str} {names : List Str} (hn : ∀ n ∈ names, Entry n) {e a : Str} (he : e ∈ names) (hs : Simple e)
    (ha : Names e a) : isPath (filesInDir dir names) dir a = true := by
  have hE := hn e he
  have hin : fileIn (filesInDir dir names) dir e = true := by
    unfold fileIn
    rw [joinClean_entry dir hE]
    simpa using (mem_files hn).mpr ⟨e, he, rfl⟩
  have viaClean : cleanArg a = e → isPath (filesInDir dir names) dir a = true := by
    intro h
    unfold isPath
    rw [h, hin]
    simp [hE.1]
  have hne : e ≠ [] := hE.1
  cases ha with
  | plain => unfold isPath; rw [hin]; simp
  | dot =>
    unfold isPath
    have : fileIn (filesInDir dir names) dir ('.' :: '/' :: e) = true := by
      unfold fileIn
      rw [joinClean_dot dir hE]
      simpa using (mem_files hn).mpr ⟨e, he, rfl⟩
    rw [this]
    simp
  | value k hk =>
    apply viaClean
    have hl : ∀ c, e.getLast? ≠ some c → (k ++ '=' :: e).getLast? ≠ some c := by
      intro c hc
      rw [List.getLast?_append]
      cases e with
      | nil => exact absurd rfl hne
      | cons x e =>
        rw [List.getLast?_cons_cons]
        cases hx : (x :: e).getLast? with
        | none => simp at hx
        | some y => rw [hx] at hc; simpa using hc
    unfold cleanArg
    rw [trimSuffix_last (hl _ hs.2.2), trimSuffix_last (hl _ hs.2.1), Verif.Util.split_append '=' k e hk,
      Verif.Util.split_none '=' e hs.1]
  | statement =>
    apply viaClean
    refine cleanArg_of ?_ hs.1
    rw [trimSuffix_last (s := e ++ [';']) (c := ')') (by simp), trimSuffix_append]
  | shell =>
    apply viaClean
    refine cleanArg_of ?_ hs.1
    rw [trimSuffix_append, trimSuffix_last hs.2.1]
  | shellStatement =>
    apply viaClean
    refine cleanArg_of ?_ hs.1
    have : e ++ [';', ')'] = (e ++ [';']) ++ [')'] := by simp
    rw [this, trimSuffix_append, trimSuffix_append]

theorem hasRel_iff (exe : Str → Bool) (files : List (List Str)) (dir : List Str) : ∀ (as : List Str) (i : Nat),
    hasRel exe files dir i as = true ↔ ∃ (k : Nat) (a : Str), as[k]? = some a ∧ ¬ (i + k = 0 ∧ exe a = true) ∧
      (isGlob files a = true ∨ isPath files dir a = true)
  | [], i => by simp [hasRel]
  | b :: as, i => by
    have ih := hasRel_iff exe files dir as (i + 1)
    unfold hasRel
    constructor
    · intro h
      split at h
      · obtain ⟨k, a, h1, h2, h3⟩ := ih.mp h
        exact ⟨k + 1, a, by simpa using h1, by omega, h3⟩
      · rename_i hc
        simp only [Bool.or_eq_true] at h
        rcases h with h | h
        · exact ⟨0, b, by simp, by simpa using hc, h⟩
        · obtain ⟨k, a, h1, h2, h3⟩ := ih.mp h
          exact ⟨k + 1, a, by simpa using h1, by omega, h3⟩
    · rintro ⟨k, a, h1, h2, h3⟩
      cases k with
      | zero =>
        simp at h1
        subst h1
        rw [if_neg (by simpa using h2)]
        simp only [Bool.or_eq_true]
        exact Or.inl h3
      | succ k =>
        have : hasRel exe files dir (i + 1) as = true := ih.mpr ⟨k, a, by simpa using h1, by omega, h3⟩
        split
        · exact this
        · simp [this]

theorem matchToks_iff (ts : List Tok) (n : Str) : matchToks ts n = true ↔ Matches ts n := by
  fun_induction matchToks ts n with
  | case1 n =>
    constructor
    · intro h; simp at h; subst h; exact .nil
    · intro h; cases h; simp
  | case2 ts ih =>
    rw [ih]
    constructor
    · intro h; exact .star [] (by simp) h
    · intro h
      generalize hn : ([] : Str) = n at h
      cases h with
      | one h _ _ => exact absurd rfl h
      | star a ha h =>
        obtain ⟨rfl, rfl⟩ := List.append_eq_nil_iff.mp hn.symm
        exact h
  | case3 ts c n ih1 ih2 =>
    simp only [Bool.or_eq_true, Bool.and_eq_true, decide_eq_true_eq]
    rw [ih1, ih2]
    constructor
    · rintro (h | ⟨hc, h⟩)
      · exact .star [] (by simp) h
      · generalize ht : (Tok.star :: ts) = t at h
        cases h with
        | nil => cases ht
        | one h _ _ => cases ht; exact absurd rfl h
        | star a ha h =>
          cases ht
          refine .star (c :: a) ?_ h
          simp only [List.mem_cons, not_or]
          exact ⟨fun e => hc e.symm, ha⟩
    · intro h
      generalize hn : (c :: n) = m at h
      generalize ht : (Tok.star :: ts) = t at h
      cases h with
      | nil => cases ht
      | one h _ _ => cases ht; exact absurd rfl h
      | star a ha h =>
        cases ht
        cases a with
        | nil =>
          exact Or.inl h
        | cons x a =>
          simp at hn
          obtain ⟨rfl, rfl⟩ := hn
          simp only [List.mem_cons, not_or] at ha
          exact Or.inr ⟨fun e => ha.1 e.symm, .star a ha.2 h⟩
  | case4 t ts hne =>
    constructor
    · intro h; cases h
    · intro h
      generalize hn : ([] : Str) = n at h
      cases h with
      | one => cases hn
      | star a _ _ => exact (hne rfl).elim
  | case5 t ts c n hne ih =>
    simp only [Bool.and_eq_true]
    rw [ih]
    constructor
    · rintro ⟨h1, h2⟩
      refine .one ?_ h1 h2
      exact fun e => hne e
    · intro h
      generalize hn : (c :: n) = m at h
      cases h with
      | one _ h1 h2 => cases hn; exact ⟨h1, h2⟩
      | star => exact (hne rfl).elim

/-- a pattern without special characters -/
def Plain (p : Str) : Prop := ∀ c ∈ p, c ∉ ['*', '?', '[', '\\']

instance (n : Str) : Decidable (Plain n) := by unfold Plain; infer_instance

theorem toks_plain : ∀ (p : Str) (k : Nat), p.length ≤ k → Plain p → toks k p = some (p.map Tok.lit)
  | [], k, _, _ => by unfold toks; rfl
  | c :: p, 0, h, _ => by simp at h
  | c :: p, k + 1, h, hp => by
    have ih := toks_plain p k (by simpa using h) (fun x hx => hp x (List.mem_cons_of_mem _ hx))
    have hc := hp c (by simp)
    simp only [List.mem_cons, List.not_mem_nil, or_false, not_or] at hc
    unfold toks
    rw [if_neg hc.1, if_neg hc.2.1, if_neg hc.2.2.2, if_neg hc.2.2.1, ih]
    rfl

theorem matches_lit {p n : Str} : Matches (p.map Tok.lit) n ↔ p = n := by
  constructor
  · intro h
    generalize ht : p.map Tok.lit = ts at h
    induction h generalizing p with
    | nil => simpa using ht
    | one hne h1 h2 ih =>
      cases p with
      | nil => cases ht
      | cons x p =>
        simp only [List.map_cons, List.cons.injEq] at ht
        rw [ih ht.2]
        rw [← ht.1] at h1
        simp [one] at h1
        rw [h1]
    | star a _ _ _ =>
      cases p with
      | nil => cases ht
      | cons x p => simp at ht
  · rintro rfl
    induction p with
    | nil => exact .nil
    | cons c p ih => exact .one (by simp) (by simp [one]) ih

/-! ## Properties: patterns -/

/-- **C131**: a pattern matches a name exactly if its parts stand for the characters of the name one after another. -/
theorem C131_pattern (p n : Str) : glob p n = true ↔ ∃ ts, toks p.length p = some ts ∧ Matches ts n := by
  unfold glob
  cases h : toks p.length p with
  | none => simp
  | some ts => simp [matchToks_iff]

/-- **C131**: a pattern without special characters matches only itself. -/
theorem C131_pattern_plain {p : Str} (h : Plain p) (n : Str) : glob p n = true ↔ p = n := by
  rw [C131_pattern, toks_plain p _ (Nat.le_refl _) h]
  simp [matches_lit]

/-- what a character of a pattern without brackets and backslashes stands for -/
def meaning (c : Char) : Tok := if c = '*' then .star else if c = '?' then .any else .lit c

theorem toks_easy : ∀ (p : Str) (k : Nat), p.length ≤ k → (∀ c ∈ p, c ≠ '[' ∧ c ≠ '\\') → toks k p = some (p.map meaning)
  | [], k, _, _ => by unfold toks; rfl
  | c :: p, 0, h, _ => by simp at h
  | c :: p, k + 1, h, hp => by
    have ih := toks_easy p k (by simpa using h) (fun x hx => hp x (List.mem_cons_of_mem _ hx))
    have hc := hp c (by simp)
    unfold toks
    rw [ih]
    by_cases h1 : c = '*'
    · simp [h1, meaning]
    · by_cases h2 : c = '?'
      · simp [h2, meaning]
      · simp [h1, h2, hc.1, hc.2, meaning]

/-- **C131**: in a pattern without brackets and backslashes, a star stands for any characters, a question mark for one, and all others for
themselves. -/
theorem C131_pattern_easy {p : Str} (h : ∀ c ∈ p, c ≠ '[' ∧ c ≠ '\\') (n : Str) : glob p n = true ↔ Matches (p.map meaning) n := by
  rw [C131_pattern, toks_easy p _ (Nat.le_refl _) h]
  simp

theorem matches_append {ts us : List Tok} {n m : Str} (h1 : Matches ts n) (h2 : Matches us m) : Matches (ts ++ us) (n ++ m) := by
  induction h1 with
  | nil => exact h2
  | one a b _ ih => exact .one a b ih
  | star a ha _ ih =>
    rw [List.append_assoc]
    exact .star a ha ih

/-- names that begin with some characters and end with others -/
theorem C131_pattern_star {a b : Str} (ha : Plain a) (hb : Plain b) {x : Str} (hx : '/' ∉ x) : glob (a ++ '*' :: b) (a ++ x ++ b) = true := by
  have hm : ∀ q, Plain q → q.map meaning = q.map Tok.lit := by
    intro q hq
    apply List.map_congr_left
    intro c hc
    have := hq c hc
    simp at this
    simp [meaning, this]
  rw [C131_pattern_easy]
  · simp only [List.map_append, List.map_cons, List.append_assoc]
    rw [hm a ha, hm b hb]
    exact matches_append (matches_lit.mpr rfl) (.star x hx (matches_lit.mpr rfl))
  · intro c hc
    simp only [List.mem_append, List.mem_cons] at hc
    rcases hc with hc | rfl | hc
    · have := ha c hc; simp at this; exact ⟨this.2.2.1, this.2.2.2⟩
    · decide
    · have := hb c hc; simp at this; exact ⟨this.2.2.1, this.2.2.2⟩

/-- a character that can be in a class as it is -/
def classChar (c : Char) : Prop := c ∉ ['-', ']', '\\']

theorem getEsc_char {c : Char} (hc : classChar c) {r : Str} (hr : r ≠ []) : getEsc (c :: r) = some (c, r) := by
  unfold classChar at hc
  simp only [List.mem_cons, List.not_mem_nil, or_false, not_or] at hc
  unfold getEsc
  simp [hc, hr]

theorem ranges_chars : ∀ (cs : Str) (k : Nat) (acc : List (Char × Char)) (r : Str), (∀ c ∈ cs, classChar c) → (acc ≠ [] ∨ cs ≠ []) →
    cs.length < k → ranges k acc (cs ++ ']' :: r) = some ((cs.map (fun c => (c, c))).reverse ++ acc, r)
  | [], 0, acc, r, _, _, hk => by simp at hk
  | [], k + 1, acc, r, _, ha, _ => by
    have : acc ≠ [] := by simpa using ha
    simp [ranges, this]
  | c :: cs, 0, acc, r, _, _, hk => by simp at hk
  | c :: cs, k + 1, acc, r, h, _, hk => by
    have hc := h c (by simp)
    have ih := ranges_chars cs k ((c, c) :: acc) r (fun x hx => h x (by simp [hx])) (Or.inl (by simp)) (by simpa using hk)
    have hne : ¬ (c = ']' ∧ acc ≠ []) := by
      rintro ⟨rfl, _⟩
      exact hc (by decide)
    have hr : cs ++ ']' :: r ≠ [] := by simp
    simp only [List.cons_append]
    unfold ranges
    simp only [hne, if_false, getEsc_char hc hr]
    split
    · rename_i s2 he
      exfalso
      cases cs with
      | nil => simp at he
      | cons d cs =>
        simp at he
        exact h d (by simp) (by rw [he.1]; decide)
    · rw [ih]
      simp

/-- **C131**: a class in brackets stands for one of its characters, and one that begins with a caret for one of all others. -/
theorem C131_pattern_class {cs : Str} (h : ∀ c ∈ cs, classChar c) (hne : cs ≠ []) (hc : cs.head? ≠ some '^') (n : Str) :
    (glob ('[' :: cs ++ [']']) n = true ↔ ∃ c ∈ cs, n = [c]) ∧
    (glob ('[' :: '^' :: cs ++ [']']) n = true ↔ ∃ c, c ∉ cs ∧ n = [c]) := by
  have hone : ∀ (t : Tok), t ≠ .star → (matchToks [t] n = true ↔ ∃ c, one t c = true ∧ n = [c]) := by
    intro t ht
    rw [matchToks_iff]
    constructor
    · intro hm
      cases hm with
      | one _ h1 h2 => cases h2; exact ⟨_, h1, rfl⟩
      | star => exact absurd rfl ht
    · rintro ⟨c, h1, rfl⟩
      exact .one ht h1 .nil
  have hany : ∀ c, ((cs.map (fun c => (c, c))).reverse ++ ([] : List (Char × Char))).any (fun r => decide (r.1 ≤ c) && decide (c ≤ r.2)) = true ↔ c ∈ cs := by
    intro c
    simp only [List.append_nil, List.any_reverse, List.any_map, List.any_eq_true, Function.comp, Bool.and_eq_true, decide_eq_true_eq]
    constructor
    · rintro ⟨x, hx, h1, h2⟩
      rw [← Char.le_antisymm h1 h2]
      exact hx
    · intro hx
      exact ⟨c, hx, Char.le_refl _, Char.le_refl _⟩
  refine ⟨?_, ?_⟩
  · have ht : toks ('[' :: cs ++ [']']).length ('[' :: cs ++ [']']) = some [.cls false ((cs.map (fun c => (c, c))).reverse ++ [])] := by
      have hr := ranges_chars cs ((cs ++ [']']).length + 1) [] [] h (Or.inr hne) (by simp; omega)
      simp only [List.cons_append, List.length_cons]
      unfold toks
      simp only [show ¬ '[' = '*' by decide, show ¬ '[' = '?' by decide, show ¬ '[' = '\\' by decide, if_false, if_true]
      split
      · rename_i r' he
        exfalso
        cases cs with
        | nil => exact hne rfl
        | cons d cs => simp at he; exact hc (by simp [he.1])
      · rw [hr]
        simp [toks]
    unfold glob
    rw [ht]
    simp only
    rw [hone _ (by simp)]
    constructor
    · rintro ⟨c, h1, rfl⟩
      simp only [one, bne_iff_ne, ne_eq, Bool.not_eq_false] at h1
      exact ⟨c, (hany c).mp h1, rfl⟩
    · rintro ⟨c, h1, rfl⟩
      refine ⟨c, ?_, rfl⟩
      simp only [one, (hany c).mpr h1]
      rfl
  · have ht : toks ('[' :: '^' :: cs ++ [']']).length ('[' :: '^' :: cs ++ [']']) = some [.cls true ((cs.map (fun c => (c, c))).reverse ++ [])] := by
      have hr := ranges_chars cs ((cs ++ [']']).length + 1) [] [] h (Or.inr hne) (by simp; omega)
      simp only [List.cons_append, List.length_cons]
      unfold toks
      simp only [show ¬ '[' = '*' by decide, show ¬ '[' = '?' by decide, show ¬ '[' = '\\' by decide, if_false, if_true]
      rw [hr]
      simp [toks]
    unfold glob
    rw [ht]
    simp only
    rw [hone _ (by simp)]
    constructor
    · rintro ⟨c, h1, rfl⟩
      refine ⟨c, ?_, rfl⟩
      intro hin
      simp only [one, (hany c).mpr hin] at h1
      cases h1
    · rintro ⟨c, h1, rfl⟩
      refine ⟨c, ?_, rfl⟩
      have : ((cs.map (fun c => (c, c))).reverse ++ ([] : List (Char × Char))).any (fun r => decide (r.1 ≤ c) && decide (c ≤ r.2)) = false := by
        rw [← Bool.not_eq_true, hany]
        exact h1
      simp only [one, this]
      rfl

/-- **C131**: a range in brackets stands for one of the characters from the first to the last. -/
theorem C131_pattern_range {a b : Char} (ha : classChar a) (hb : classChar b) (hc : a ≠ '^') (c : Char) :
    glob ['[', a, '-', b, ']'] [c] = true ↔ a ≤ c ∧ c ≤ b := by
  have ha' := ha
  have hb' := hb
  unfold classChar at ha' hb'
  simp only [List.mem_cons, List.not_mem_nil, or_false, not_or] at ha' hb'
  have hr : ranges 5 [] [a, '-', b, ']'] = some ([(a, b)], []) := by
    simp [ranges, getEsc, ha', hb']
  have ht : toks 5 ['[', a, '-', b, ']'] = some [.cls false [(a, b)]] := by
    unfold toks
    simp only [show ¬ '[' = '*' by decide, show ¬ '[' = '?' by decide, show ¬ '[' = '\\' by decide, if_false, if_true]
    split
    · rename_i he
      exfalso
      simp at he
      exact hc he.1
    · simp only [List.length_cons, List.length_nil, Nat.zero_add, Nat.reduceAdd]
      rw [hr]
      simp [toks]
  unfold glob
  simp only [List.length_cons, List.length_nil, Nat.zero_add, Nat.reduceAdd]
  rw [ht]
  simp [matchToks, one]

/-! ## Properties: the warning -/

/-- a job that is warned about -/
def bad (exe : Str → Bool) (ls : List Str → List Str) (j : Job) : Bool :=
  !j.matters && cmdline exe (filesInDir j.cwd (ls j.cwd)) j.cwd j.args

/-- **C131**: a command with an argument that names an entry of its working directory is warned about (but for the first argument, if it
is an executable). -/
theorem C131_named_partial {exe : Str → Bool} {ls : List Str → List Str} {j : Job} {as : List Str} {k : Nat} {a e : Str}
    (hn : ∀ n ∈ ls j.cwd, Entry n) (hm : j.matters = false) (hj : j.args = some as) (hk : as[k]? = some a)
    (hx : k = 0 → exe a = false) (he : e ∈ ls j.cwd) (hs : Simple e) (ha : Names e a) : bad exe ls j = true := by
  unfold bad cmdline
  rw [hm, hj]
  simp only [Bool.not_false, Bool.true_and]
  rw [hasRel_iff]
  refine ⟨k, a, hk, ?_, Or.inr (names_path hn he hs ha)⟩
  rintro ⟨h1, h2⟩
  rw [hx (by omega)] at h2
  cases h2

/-- **C131**: and so is one with a pattern that matches an entry, with ./ before it or not, and with a slash, or a slash and a star, after
it or not. -/
theorem C131_globbed_partial {exe : Str → Bool} {ls : List Str → List Str} {j : Job} {as : List Str} {k : Nat} {a p e : Str}
    (hn : ∀ n ∈ ls j.cwd, Entry n) (hm : j.matters = false) (hj : j.args = some as) (hk : as[k]? = some a)
    (hx : k = 0 → exe a = false) (he : e ∈ ls j.cwd) (hp : p ≠ []) (hl : '/' ∉ p) (hg : glob p e = true)
    (ha : a ∈ [p, '.' :: '/' :: p, p ++ ['/'], '.' :: '/' :: p ++ ['/'], p ++ ['/', '*'], '.' :: '/' :: p ++ ['/', '*']]) :
    bad exe ls j = true := by
  have hpre : ∀ s : Str, trimPrefix ('.' :: '/' :: s) ['.', '/'] = s := by intro s; simp [trimPrefix]
  have hpre' : ∀ s : Str, trimPrefix (p ++ s) ['.', '/'] = p ++ s := by
    intro s
    unfold trimPrefix
    rw [if_neg]
    intro h
    rw [List.isPrefixOf_iff_prefix] at h
    obtain ⟨t, ht⟩ := h
    have hdot : p = ['.'] := by
      cases p with
      | nil => exact absurd rfl hp
      | cons x q =>
        cases q with
        | nil => simp at ht; rw [← ht.1]
        | cons y q =>
          simp at ht
          exact absurd ht.2.1 (by simp at hl; exact hl.2.1)
    subst hdot
    have := (C131_pattern_plain (by decide) e).mp hg
    exact (hn e he).2.2.1 this.symm
  have hsl : ∀ s : Str, '/' ∉ s → ∀ t, trimSuffix s ('/' :: t) = s := by
    intro s hs t
    unfold trimSuffix
    rw [if_neg]
    intro h
    rw [List.isSuffixOf_iff_suffix] at h
    obtain ⟨u, rfl⟩ := h
    simp at hs
  have hstar : trimSuffix (p ++ ['/', '*']) ['/'] = p ++ ['/', '*'] := trimSuffix_last (by simp)
  have key : globArg a = p := by
    unfold globArg
    simp only [List.mem_cons, List.not_mem_nil, or_false] at ha
    have h0 := hpre' []
    rw [List.append_nil] at h0
    rcases ha with rfl | rfl | rfl | rfl | rfl | rfl
    · rw [h0, hsl _ hl, hsl _ hl]
    · rw [hpre, hsl _ hl, hsl _ hl]
    · rw [hpre', trimSuffix_append, hsl _ hl]
    · rw [List.cons_append, List.cons_append, hpre, trimSuffix_append, hsl _ hl]
    · rw [hpre', hstar, trimSuffix_append]
    · rw [List.cons_append, List.cons_append, hpre, hstar, trimSuffix_append]
  unfold bad cmdline
  rw [hm, hj]
  simp only [Bool.not_false, Bool.true_and]
  rw [hasRel_iff]
  refine ⟨k, a, hk, ?_, Or.inl ?_⟩
  · rintro ⟨h1, h2⟩
    rw [hx (by omega)] at h2
    cases h2
  · unfold isGlob
    rw [key]
    simp only [Bool.and_eq_true, decide_eq_true_eq]
    refine ⟨by simpa using hp, ?_⟩
    rw [List.any_eq_true]
    exact ⟨j.cwd ++ [e], (mem_files hn).mpr ⟨e, he, rfl⟩, by rw [base_entry]; exact hg⟩

theorem join_ne_nil {x : Str} {ys : List Str} (hx : x ≠ []) : join '/' (x :: ys) ≠ [] := by
  cases ys with
  | nil => simpa [join] using hx
  | cons y ys => simp [join]

theorem join_last : ∀ (x : Str) (ys : List Str), (∀ n ∈ x :: ys, Entry n) → (join '/' (x :: ys)).getLast? ≠ some '/'
  | x, [], h => by
    simp only [join]
    intro e
    exact (h x (by simp)).2.1 (List.mem_of_getLast? e)
  | x, y :: ys, h => by
    have ih := join_last y ys (fun n hn => h n (by simp at hn ⊢; right; exact hn))
    have hne := join_ne_nil (ys := ys) (h y (by simp)).1
    simp only [join]
    rw [List.getLast?_append, List.getLast?_cons]
    cases hj : (join '/' (y :: ys)).getLast? with
    | none => rw [List.getLast?_eq_none_iff] at hj; exact absurd hj hne
    | some c => rw [hj] at ih; simpa using ih

theorem foldl_push : ∀ (es cs : List Str), (∀ n ∈ es, Entry n) → es.foldl push cs = cs ++ es
  | [], cs, _ => by simp
  | e :: es, cs, h => by
    simp only [List.foldl_cons]
    rw [push_entry (h e (by simp)), foldl_push es _ (fun n hn => h n (by simp [hn]))]
    simp

/-- **C131**: a command whose arguments are absolute paths with more than one element, or are not names or patterns of entries, is not
warned about. -/
theorem C131_absolute_partial {exe : Str → Bool} {ls : List Str → List Str} {j : Job} {as : List Str} (hn : ∀ n ∈ ls j.cwd, Entry n)
    (hj : j.args = some as) (ha : ∀ a ∈ as, Absolute a ∨ exe a = true ∧ as.head? = some a ∧ ∀ b ∈ as.tail, b ≠ a) : bad exe ls j = false := by
  cases hb : bad exe ls j with
  | false => rfl
  | true =>
    exfalso
    unfold bad cmdline at hb
    rw [hj] at hb
    simp only [Bool.and_eq_true] at hb
    obtain ⟨k, a, hk, hne, hh⟩ := (hasRel_iff _ _ _ _ _).mp hb.2
    rcases ha a (List.mem_of_getElem? hk) with h | ⟨h1, h2, h3⟩
    · obtain ⟨x, y, zs, hE, rfl, hc⟩ := h
      have hlast := join_last x (y :: zs) hE
      have hx := hE x (by simp)
      have hnl : ∀ c, c ∉ '/' :: join '/' (x :: y :: zs) → ('/' :: join '/' (x :: y :: zs)).getLast? ≠ some c :=
        fun c h e => h (List.mem_of_getLast? e)
      have hno : ∀ c ∈ ['=', ';', ')', '*', '?', '[', '\\'], c ∉ '/' :: join '/' (x :: y :: zs) := fun c h1 h2 => hc c h2 h1
      have hgl : globArg ('/' :: join '/' (x :: y :: zs)) = '/' :: join '/' (x :: y :: zs) := by
        unfold globArg
        have h1 : trimPrefix ('/' :: join '/' (x :: y :: zs)) ['.', '/'] = '/' :: join '/' (x :: y :: zs) := by
          simp [trimPrefix, List.isPrefixOf]
        have h2 : trimSuffix ('/' :: join '/' (x :: y :: zs)) ['/'] = '/' :: join '/' (x :: y :: zs) := by
          apply trimSuffix_last
          rw [List.getLast?_cons]
          have hne := join_ne_nil (ys := y :: zs) hx.1
          cases hq : (join '/' (x :: y :: zs)).getLast? with
          | none => rw [List.getLast?_eq_none_iff] at hq; exact absurd hq hne
          | some c => rw [hq] at hlast; simpa using hlast
        have h3 : trimSuffix ('/' :: join '/' (x :: y :: zs)) ['/', '*'] = '/' :: join '/' (x :: y :: zs) := by
          unfold trimSuffix
          rw [if_neg]
          intro h
          rw [List.isSuffixOf_iff_suffix] at h
          obtain ⟨u, hu⟩ := h
          exact hno '*' (by decide) (by rw [← hu]; simp)
        rw [h1, h2, h3]
      have hjc : joinClean j.cwd ('/' :: join '/' (x :: y :: zs)) = j.cwd ++ x :: y :: zs := by
        unfold joinClean
        have := Verif.Util.split_append '/' [] (join '/' (x :: y :: zs)) (by simp)
        simp only [List.nil_append] at this
        rw [this, Verif.Util.split_join '/' _ (by simp) (fun p hp => (hE p hp).2.1)]
        simp only [List.foldl_cons]
        have hp0 : push j.cwd [] = j.cwd := by simp [push]
        rw [hp0]
        have := foldl_push (x :: y :: zs) j.cwd hE
        simpa using this
      have hca : cleanArg ('/' :: join '/' (x :: y :: zs)) = '/' :: join '/' (x :: y :: zs) := by
        apply cleanArg_of _ (hno '=' (by decide))
        rw [trimSuffix_last (hnl _ (hno ')' (by decide))), trimSuffix_last (hnl _ (hno ';' (by decide)))]
      have hfi : fileIn (filesInDir j.cwd (ls j.cwd)) j.cwd ('/' :: join '/' (x :: y :: zs)) = false := by
        unfold fileIn
        rw [hjc]
        simp only [decide_eq_false_iff_not]
        intro h
        obtain ⟨n, _, he⟩ := (mem_files hn).mp h
        have := congrArg List.length he
        simp at this
      rcases hh with hh | hh
      · unfold isGlob at hh
        rw [hgl] at hh
        simp only [Bool.and_eq_true, List.any_eq_true] at hh
        obtain ⟨_, f, hf, hg⟩ := hh
        obtain ⟨n, hn', rfl⟩ := (mem_files hn).mp hf
        rw [base_entry] at hg
        have := (C131_pattern_plain (p := '/' :: join '/' (x :: y :: zs)) (by
          intro c hc'
          have := hc c hc'
          simp only [List.mem_cons, List.not_mem_nil, or_false, not_or] at this ⊢
          exact ⟨this.2.2.2.1, this.2.2.2.2.1, this.2.2.2.2.2.1, this.2.2.2.2.2.2⟩) n).mp hg
        exact (hn n hn').2.1 (by rw [← this]; simp)
      · unfold isPath at hh
        rw [hca, hfi] at hh
        simp at hh
    · cases k with
      | zero => exact hne ⟨by omega, h1⟩
      | succ k =>
        cases as with
        | nil => simp at hk
        | cons b as => exact h3 a (List.mem_of_getElem? (by simpa using hk)) rfl

/-- nothing but directories as they are is remembered -/
def Faithful (ls : List Str → List Str) (w : W) : Prop := ∀ d fs, w.cache.lookup d = some fs → fs = filesInDir d (ls d)

theorem files_faithful {ls : List Str → List Str} {w : W} (h : Faithful ls w) (d : List Str) : w.files ls d = filesInDir d (ls d) := by
  unfold W.files
  cases hl : w.cache.lookup d with
  | none => rfl
  | some fs => exact h d fs hl

theorem read_faithful {ls : List Str → List Str} {w : W} (h : Faithful ls w) (d : List Str) : Faithful ls (w.read ls d) := by
  unfold W.read
  cases hl : w.cache.lookup d with
  | none =>
    intro e fs he
    simp only [List.lookup_cons] at he
    split at he
    · rename_i heq
      have : e = d := by simpa using heq
      subst this
      exact (Option.some.inj he).symm
    · exact h e fs he
  | some fs => exact h

theorem read_same (ls : List Str → List Str) (w : W) (d : List Str) : (w.read ls d).warned = w.warned ∧ (w.read ls d).warnings = w.warnings := by
  unfold W.read
  split <;> exact ⟨rfl, rfl⟩

/-- the directories read are those remembered, each once -/
def Once (w : W) : Prop := w.reads.Nodup ∧ ∀ d, d ∈ w.reads → (w.cache.lookup d).isSome = true

theorem once_read {ls : List Str → List Str} {w : W} (h : Once w) (d : List Str) : Once (w.read ls d) := by
  unfold W.read
  cases hl : w.cache.lookup d with
  | none =>
    refine ⟨?_, ?_⟩
    · simp only [List.nodup_cons]
      refine ⟨?_, h.1⟩
      intro hd
      have := h.2 d hd
      rw [hl] at this
      cases this
    · intro e he
      simp only [List.mem_cons] at he
      simp only [List.lookup_cons]
      split
      · rfl
      · rename_i hne
        rcases he with rfl | he
        · simp at hne
        · exact h.2 e he
  | some fs => exact h

theorem check_spec {exe : Str → Bool} {ls : List Str → List Str} {disabled : Bool} {w : W} {j : Job} (h : Faithful ls w) (ho : Once w)
    (hw : w.warnings = if w.warned = true then 1 else 0) :
    Faithful ls (check exe ls disabled w j) ∧ Once (check exe ls disabled w j) ∧
    (check exe ls disabled w j).warned = (w.warned || (!disabled && bad exe ls j)) ∧
    (check exe ls disabled w j).warnings = if (check exe ls disabled w j).warned = true then 1 else 0 := by
  unfold check
  rw [files_faithful h]
  by_cases hc : j.matters = true ∨ disabled = true ∨ w.warned = true
  · rw [if_pos hc]
    refine ⟨h, ho, ?_, hw⟩
    rcases hc with hc | hc | hc
    · simp [bad, hc]
    · simp [hc]
    · simp [hc]
  · rw [if_neg hc]
    simp only [not_or, Bool.not_eq_true] at hc
    obtain ⟨h1, h2, h3⟩ := hc
    have hs := read_same ls w j.cwd
    by_cases hb : cmdline exe (filesInDir j.cwd (ls j.cwd)) j.cwd j.args = true
    · rw [if_pos hb]
      refine ⟨read_faithful h j.cwd, once_read ho j.cwd, by simp [bad, h1, h2, hb], ?_⟩
      rw [h3] at hw
      simp at hw
      simp [hw]
    · rw [if_neg hb]
      refine ⟨read_faithful h j.cwd, once_read ho j.cwd, ?_, ?_⟩
      · rw [hs.1]
        simp only [Bool.not_eq_true] at hb
        simp [bad, hb]
      · rw [hs.1, hs.2, hw]

/-- **C131**: there is one warning if one of the commands is to be warned about, and none otherwise or if the check is disabled; every
directory is read once at most; and what is remembered of a directory is used for that directory only. -/
theorem C131_once (exe : Str → Bool) (ls : List Str → List Str) (disabled : Bool) (js : List Job) :
    (checkAll exe ls disabled js).warnings = (if disabled = false ∧ ∃ j ∈ js, bad exe ls j = true then 1 else 0) ∧
    (checkAll exe ls disabled js).reads.Nodup := by
  have key : ∀ (js : List Job) (w : W), Faithful ls w → Once w → (w.warnings = if w.warned = true then 1 else 0) →
      Once (js.foldl (check exe ls disabled) w) ∧
      (js.foldl (check exe ls disabled) w).warned = (w.warned || (!disabled && js.any (bad exe ls))) ∧
      (js.foldl (check exe ls disabled) w).warnings = if (js.foldl (check exe ls disabled) w).warned = true then 1 else 0 := by
    intro js
    induction js with
    | nil => intro w _ ho hw; exact ⟨ho, by simp, hw⟩
    | cons j js ih =>
      intro w h ho hw
      obtain ⟨a, b, c, d⟩ := check_spec (exe := exe) (disabled := disabled) (j := j) h ho hw
      obtain ⟨e, f, g⟩ := ih _ a b d
      simp only [List.foldl_cons]
      refine ⟨e, ?_, g⟩
      rw [f, c]
      simp only [List.any_cons]
      cases w.warned <;> cases disabled <;> cases bad exe ls j <;> simp
  obtain ⟨a, b, c⟩ := key js W.init (by intro d fs h; cases h) ⟨by simp [W.init], by simp [W.init]⟩ rfl
  refine ⟨?_, a.1⟩
  unfold checkAll
  rw [c, b]
  simp only [W.init, Bool.false_or, Bool.and_eq_true, Bool.not_eq_true', List.any_eq_true]

/-- **C131**: nothing is said about commands whose working directory matters. -/
theorem C131_matters (exe : Str → Bool) (ls : List Str → List Str) (j : Job) (h : j.matters = true) : bad exe ls j = false := by
  simp [bad, h]

/-! ## Concrete cases, and what is not so -/

def exLs : List Str → List Str := fun _ => ["file".toList, "sub".toList, "etc".toList]
def exExe : Str → Bool := fun s => s = "cat".toList || s = "./run".toList
def exDir : List Str := ["home".toList, "u".toList]
def exJob (as : List String) : Job := { cwd := exDir, matters := false, args := some (as.map (·.toList)) }

example : (∀ n ∈ exLs exDir, Entry n) ∧ Simple "file".toList := by decide
example : bad exExe exLs (exJob ["cat", "in=file"]) = true ∧ bad exExe exLs (exJob ["cat", "./f*"]) = true ∧
    bad exExe exLs (exJob ["cat", "$(cat", "file)"]) = true ∧ bad exExe exLs (exJob ["cat", "/home/u/file"]) = false ∧
    bad exExe exLs (exJob ["cat", "../u/file"]) = true ∧ bad exExe exLs (exJob ["cat", "../file"]) = false := by decide +kernel
example : glob "[^a-c]?le".toList "file".toList = true ∧ glob "[a-c]*".toList "file".toList = false ∧ glob "[a".toList "a".toList = false ∧
    glob "f\\*".toList "f*".toList = true ∧ glob "f\\*".toList "fx".toList = false := by decide +kernel
example : Absolute "/home/u/file".toList :=
  ⟨"home".toList, "u".toList, ["file".toList], by decide, by decide, by decide⟩
example : (checkAll exExe exLs false [exJob ["cat", "file"], exJob ["cat", "file"]]).warnings = 1 ∧
    (checkAll exExe exLs true [exJob ["cat", "file"]]).warnings = 0 ∧
    (checkAll exExe exLs false [exJob ["cat", "x"], exJob ["cat", "/a/b"]]).warnings = 0 := by decide +kernel

/-- **C131** is not so: an absolute path of one element is taken for a relative one. -/
theorem C131_violated_absolute : bad exExe exLs (exJob ["cat", "/etc"]) = true := by decide +kernel

/-- **C131** is not so: a path below an entry is not noticed. -/
theorem C131_violated_below : bad exExe exLs (exJob ["cat", "sub/x"]) = false := by decide +kernel

/-- **C131** is not so: nor is the command itself, if it is found relative to the directory `wr add` is in. -/
theorem C131_violated_command : exExe "./run".toList = true ∧
    bad exExe (fun _ => ["run".toList]) (exJob ["./run", "/a/b"]) = false := by decide +kernel

/-- **C131** is not so: nor is a file that output goes to or input comes from if there is no space before its name. -/
theorem C131_violated_redirect : bad exExe exLs (exJob ["cat", "<file"]) = false := by decide +kernel

end Verif.Cmd.Relative
