import Verif.Cmd.RelativeProps

/-! # C131: all classes in brackets, the question mark, backslashes, errors in classes, commands that can't be divided -/

namespace Verif.Cmd.Relative

/-- Specification: a character as it is written in a class, with or without a backslash before it -/
structure Written where
  esc : Bool
  char : Char

def Written.text (w : Written) : Str := if w.esc = true then ['\\', w.char] else [w.char]

/-- without a backslash it can't be `-`, `]` or a backslash -/
def Written.ok (w : Written) : Prop := w.esc = true ∨ w.char ∉ ['-', ']', '\\']

/-- Specification: what is in a class: a character or a range -/
inductive Item where
  | char (c : Written)
  | range (lo hi : Written)

def Item.text : Item → Str
  | .char c => c.text
  | .range lo hi => lo.text ++ '-' :: hi.text

def Item.ok : Item → Prop
  | .char c => c.ok
  | .range lo hi => lo.ok ∧ hi.ok

/-- Specification: the characters it stands for -/
def Item.has (c : Char) : Item → Prop
  | .char d => c = d.char
  | .range lo hi => lo.char ≤ c ∧ c ≤ hi.char

def Item.pair : Item → Char × Char
  | .char d => (d.char, d.char)
  | .range lo hi => (lo.char, hi.char)

theorem getEsc_written {w : Written} (h : w.ok) {r : Str} (hr : r ≠ []) : getEsc (w.text ++ r) = some (w.char, r) := by
  obtain ⟨esc, char⟩ := w
  cases esc with
  | true => simp [Written.text, getEsc, hr]
  | false =>
    have : classChar char := by simpa [Written.ok, classChar] using h
    simpa [Written.text] using getEsc_char this hr

theorem text_head {w : Written} (h : w.ok) {c : Char} {t s r : Str} (ht : w.text ++ r = c :: t) : c ≠ ']' ∧ c ≠ '-' := by
  obtain ⟨esc, char⟩ := w
  cases esc with
  | true => simp [Written.text] at ht; rw [← ht.1]; decide
  | false =>
    have : char ∉ ['-', ']', '\\'] := by simpa [Written.ok] using h
    simp [Written.text] at ht
    rw [← ht.1]
    simp at this
    exact ⟨this.2.1, this.1⟩

theorem item_text_head {i : Item} (h : i.ok) {c : Char} {t r : Str} (ht : i.text ++ r = c :: t) : c ≠ ']' ∧ c ≠ '-' := by
  cases i with
  | char w => exact text_head (s := []) h ht
  | range lo hi =>
    simp only [Item.text, List.append_assoc] at ht
    exact text_head (s := []) h.1 ht

theorem ranges_items : ∀ (is : List Item) (k : Nat) (acc : List (Char × Char)) (r : Str), (∀ i ∈ is, i.ok) → (acc ≠ [] ∨ is ≠ []) →
    is.length < k → ranges k acc (is.flatMap Item.text ++ ']' :: r) = some ((is.map Item.pair).reverse ++ acc, r)
  | [], 0, acc, r, _, _, hk => by simp at hk
  | [], k + 1, acc, r, _, ha, _ => by
    have : acc ≠ [] := by simpa using ha
    simp [ranges, this]
  | i :: is, 0, acc, r, _, _, hk => by simp at hk
  | i :: is, k + 1, acc, r, h, _, hk => by
    have hi := h i (by simp)
    have ih := ranges_items is k (i.pair :: acc) r (fun x hx => h x (by simp [hx])) (Or.inl (by simp)) (by simpa using hk)
    have hnd : ∀ s2, is.flatMap Item.text ++ ']' :: r ≠ '-' :: s2 := by
      intro s2 he
      cases is with
      | nil => simp at he
      | cons j js =>
        simp only [List.flatMap_cons, List.append_assoc] at he
        exact (item_text_head (h j (by simp)) he).2 rfl
    have hrest : is.flatMap Item.text ++ ']' :: r ≠ [] := by simp
    generalize hR : is.flatMap Item.text ++ ']' :: r = R at ih hnd hrest
    have htxt : (i :: is).flatMap Item.text ++ ']' :: r = i.text ++ R := by
      simp only [List.flatMap_cons, List.append_assoc, hR]
    rw [htxt]
    cases hs : i.text ++ R with
    | nil => exact absurd hs (by simp [hrest])
    | cons c t =>
      have hc := item_text_head hi hs
      unfold ranges
      simp only [hc.1, false_and, if_false]
      rw [← hs]
      cases i with
      | char w =>
        simp only [Item.text, getEsc_written (show w.ok from hi) hrest]
        have : (w.char, w.char) = (Item.char w).pair := rfl
        rw [this, ih]
        simp
      | range lo hi' =>
        have hok : lo.ok ∧ hi'.ok := hi
        simp only [Item.text, List.append_assoc, List.cons_append]
        rw [getEsc_written hok.1 (by simp)]
        simp only
        rw [getEsc_written hok.2 hrest]
        simp only
        have : (lo.char, hi'.char) = (Item.range lo hi').pair := rfl
        rw [this, ih]
        simp

theorem length_le_text : ∀ (is : List Item), is.length ≤ (is.flatMap Item.text).length
  | [] => by simp
  | i :: is => by
    have := length_le_text is
    have hp : 0 < i.text.length := by
      cases i with
      | char w => simp only [Item.text, Written.text]; split <;> simp
      | range lo hi => simp [Item.text]; omega
    simp only [List.flatMap_cons, List.length_append, List.length_cons]
    omega

theorem matchToks_single (t : Tok) (ht : t ≠ .star) (n : Str) : matchToks [t] n = true ↔ ∃ c, one t c = true ∧ n = [c] := by
  rw [matchToks_iff]
  constructor
  · intro hm
    cases hm with
    | one _ h1 h2 => cases h2; exact ⟨_, h1, rfl⟩
    | star => exact absurd rfl ht
  · rintro ⟨c, h1, rfl⟩
    exact .one ht h1 .nil

theorem any_items (is : List Item) (c : Char) :
    ((is.map Item.pair).reverse ++ ([] : List (Char × Char))).any (fun r => decide (r.1 ≤ c) && decide (c ≤ r.2)) = true ↔
      ∃ i ∈ is, i.has c := by
  simp only [List.append_nil, List.any_reverse, List.any_map, List.any_eq_true, Function.comp, Bool.and_eq_true, decide_eq_true_eq]
  constructor
  · rintro ⟨x, hx, h1, h2⟩
    refine ⟨x, hx, ?_⟩
    cases x with
    | char d => exact (Char.le_antisymm h1 h2).symm
    | range lo hi => exact ⟨h1, h2⟩
  · rintro ⟨x, hx, h⟩
    refine ⟨x, hx, ?_⟩
    cases x with
    | char d => cases h; exact ⟨Char.le_refl _, Char.le_refl _⟩
    | range lo hi => exact h

/-- **C131**: a class in brackets, of characters and ranges, each with or without a backslash, stands for one of the characters any of
these has, and one that begins with a caret for one of all others. -/
theorem C131_pattern_items {is : List Item} (h : ∀ i ∈ is, i.ok) (hne : is ≠ []) (n : Str) :
    (((is.flatMap Item.text).head? ≠ some '^') → (glob ('[' :: is.flatMap Item.text ++ [']']) n = true ↔
      ∃ c, (∃ i ∈ is, i.has c) ∧ n = [c])) ∧
    (glob ('[' :: '^' :: is.flatMap Item.text ++ [']']) n = true ↔ ∃ c, (¬ ∃ i ∈ is, i.has c) ∧ n = [c]) := by
  have hlen := length_le_text is
  refine ⟨?_, ?_⟩
  · intro hc
    have hr := ranges_items is ((is.flatMap Item.text ++ [']']).length + 1) [] [] h (Or.inr hne) (by simp only [List.length_append]; omega)
    have ht : toks ('[' :: is.flatMap Item.text ++ [']']).length ('[' :: is.flatMap Item.text ++ [']']) =
        some [.cls false ((is.map Item.pair).reverse ++ [])] := by
      simp only [List.cons_append, List.length_cons]
      generalize is.flatMap Item.text = T at hc hr
      unfold toks
      simp only [show ¬ '[' = '*' by decide, show ¬ '[' = '?' by decide, show ¬ '[' = '\\' by decide, if_false, if_true]
      split
      · rename_i r' he
        exfalso
        cases T with
        | nil => simp at he
        | cons d T => simp at he; exact hc (by simp [he.1])
      · rw [hr]
        simp [toks]
    unfold glob
    rw [ht]
    simp only
    rw [matchToks_single _ (by simp)]
    constructor
    · rintro ⟨c, h1, rfl⟩
      simp only [one, bne_iff_ne, ne_eq, Bool.not_eq_false] at h1
      exact ⟨c, (any_items is c).mp h1, rfl⟩
    · rintro ⟨c, h1, rfl⟩
      refine ⟨c, ?_, rfl⟩
      simp only [one, (any_items is c).mpr h1]
      rfl
  · have hr := ranges_items is ((is.flatMap Item.text ++ [']']).length + 1) [] [] h (Or.inr hne) (by simp only [List.length_append]; omega)
    have ht : toks ('[' :: '^' :: is.flatMap Item.text ++ [']']).length ('[' :: '^' :: is.flatMap Item.text ++ [']']) =
        some [.cls true ((is.map Item.pair).reverse ++ [])] := by
      simp only [List.cons_append, List.length_cons]
      generalize is.flatMap Item.text = T at hr
      unfold toks
      simp only [show ¬ '[' = '*' by decide, show ¬ '[' = '?' by decide, show ¬ '[' = '\\' by decide, if_false, if_true]
      rw [hr]
      simp [toks]
    unfold glob
    rw [ht]
    simp only
    rw [matchToks_single _ (by simp)]
    constructor
    · rintro ⟨c, h1, rfl⟩
      refine ⟨c, ?_, rfl⟩
      intro hin
      simp only [one, (any_items is c).mpr hin] at h1
      cases h1
    · rintro ⟨c, h1, rfl⟩
      refine ⟨c, ?_, rfl⟩
      have : ((is.map Item.pair).reverse ++ ([] : List (Char × Char))).any (fun r => decide (r.1 ≤ c) && decide (c ≤ r.2)) = false := by
        rw [← Bool.not_eq_true, any_items]
        exact h1
      simp only [one, this]
      rfl

/-- a class with a range, an escaped bracket and a character -/
example : (glob "[a-c\\]x]".toList ['b'] = true) ∧ (glob "[a-c\\]x]".toList [']'] = true) ∧ (glob "[a-c\\]x]".toList ['\\'] = false) ∧
    (∀ i ∈ [Item.range ⟨false, 'a'⟩ ⟨false, 'c'⟩, .char ⟨true, ']'⟩, .char ⟨false, 'x'⟩], i.ok) ∧
    [Item.range ⟨false, 'a'⟩ ⟨false, 'c'⟩, .char ⟨true, ']'⟩, .char ⟨false, 'x'⟩].flatMap Item.text = "a-c\\]x".toList := by
  refine ⟨by decide +kernel, by decide +kernel, by decide +kernel, ?_, by decide +kernel⟩
  intro i hi
  simp at hi
  rcases hi with rfl | rfl | rfl <;> simp [Item.ok, Written.ok]

/-- **C131**: a question mark stands for one character that isn't a slash; a backslash and a character for that character. -/
theorem C131_pattern_any (n : Str) : glob ['?'] n = true ↔ ∃ c, c ≠ '/' ∧ n = [c] := by
  have ht : toks ['?'].length ['?'] = some [.any] := by decide
  unfold glob
  rw [ht]
  simp only
  rw [matchToks_single _ (by simp)]
  simp [one]

theorem C131_pattern_escaped (d : Char) (n : Str) : glob ['\\', d] n = true ↔ n = [d] := by
  have ht : toks ['\\', d].length ['\\', d] = some [.lit d] := by simp [toks]
  unfold glob
  rw [ht]
  simp only
  rw [matchToks_single _ (by simp)]
  simp only [one, decide_eq_true_eq]
  constructor
  · rintro ⟨c, rfl, rfl⟩; rfl
  · rintro rfl; exact ⟨d, rfl, rfl⟩

/-- **C131**: a class that begins with a minus or the closing bracket, as it is, is an error: nothing matches. -/
theorem C131_pattern_error (d : Char) (hd : d = '-' ∨ d = ']') (r n : Str) : glob ('[' :: d :: r) n = false := by
  have hr : ∀ k, ranges (k + 1) [] (d :: r) = none := by
    intro k
    rcases hd with rfl | rfl <;> simp [ranges, getEsc]
  have ht : toks ('[' :: d :: r).length ('[' :: d :: r) = none := by
    simp only [List.length_cons]
    unfold toks
    simp only [show ¬ '[' = '*' by decide, show ¬ '[' = '?' by decide, show ¬ '[' = '\\' by decide, if_false, if_true]
    split
    · rename_i he
      exfalso
      simp at he
      rcases hd with rfl | rfl
      · exact absurd he.1 (by decide)
      · exact absurd he.1 (by decide)
    · rw [hr]
  unfold glob
  rw [ht]

/-- **C131**: there is no warning about a command that can't be divided into arguments. -/
theorem C131_unparsable (exe : Str → Bool) (ls : List Str → List Str) (j : Job) (h : j.args = none) : bad exe ls j = false := by
  simp [bad, h, cmdline]

end Verif.Cmd.Relative
