import Verif.Bsub.Canon

/-! # Tokenising what was printed gives the tokens of the tree -/
namespace Verif.Bsub

/-! ## single tokens -/

/-- text that, after this token, does not make the token longer -/
def Safe (t : Tok) (r : Str) : Prop :=
  ∀ c ∈ r.head?, t.ty ≠ .string → isWordChar c = false ∧ c ≠ '.' ∧ (t.data = ['!'] → c ≠ '=')

/-- reading the token's text gives the token -/
def Stable (t : Tok) : Prop := ∀ depth r, Safe t r → lexOne depth (t.data ++ r) = some (t, depth, r)

/-- words, numbers and strings are stable -/
def Valid (t : Tok) : Prop := t.ty = .word ∨ t.ty = .number ∨ t.ty = .string → Stable t

theorem takeWhile_stable (p : Char → Bool) (w r : Str) (hw : ∀ c ∈ w, p c = true) (hr : ∀ c ∈ r.head?, p c = false) :
    (w ++ r).takeWhile p = w ∧ (w ++ r).dropWhile p = r := by
  induction w with
  | nil =>
    cases r with
    | nil => simp
    | cons c r =>
      have := hr c (by simp)
      simp [this]
  | cons x w ih =>
    have hx := hw x (by simp)
    have := ih fun c hc => hw c (List.mem_cons_of_mem _ hc)
    simp [hx, this.1, this.2]

theorem mem_takeWhile (p : Char → Bool) (s : Str) : ∀ c ∈ s.takeWhile p, p c = true := by
  intro c hc
  induction s with
  | nil => simp at hc
  | cons x s ih =>
    by_cases hx : p x = true
    · rw [List.takeWhile_cons_of_pos hx] at hc
      rcases List.mem_cons.1 hc with rfl | hc
      · exact hx
      · exact ih hc
    · rw [List.takeWhile_cons_of_neg hx] at hc
      simp at hc

theorem letter_not_dig (c : Char) (h : isLetter c = true) : isDig c = false := by
  simp [isLetter, isDig, Char.le_def] at h ⊢
  intro h1
  have hA : 'A'.val = 65 := rfl
  have hZ : 'Z'.val = 90 := rfl
  have ha : 'a'.val = 97 := rfl
  have hz : 'z'.val = 122 := rfl
  have h0 : '0'.val = 48 := rfl
  have h9 : '9'.val = 57 := rfl
  have hu : ∀ d : Char, c = d → c.val = d.val := fun d e => by rw [e]
  rw [UInt32.lt_iff_toNat_lt]
  simp only [UInt32.le_iff_toNat_le] at h
  rcases h with (h | h) | h
  · have := h.1; simp at this ⊢; omega
  · have := h.1; simp at this ⊢; omega
  · have := hu _ h; rw [this]; decide

theorem number_cases (s : Str) :
    (∃ d d2 w, (∀ c ∈ d, isDig c = true) ∧ (∀ c ∈ d2, isDig c = true) ∧ (∀ c ∈ w, isLetter c = true) ∧
      (number s).1 = d ++ '.' :: d2 ++ w) ∨
    ∃ d w, (∀ c ∈ d, isDig c = true) ∧ (∀ c ∈ w, isLetter c = true) ∧ (number s).1 = d ++ w := by
  unfold number
  simp only
  split
  · exact Or.inl ⟨_, _, _, mem_takeWhile _ _, mem_takeWhile _ _, mem_takeWhile _ _, rfl⟩
  · exact Or.inr ⟨_, _, mem_takeWhile _ _, mem_takeWhile _ _, rfl⟩

theorem number_stable (s r : Str) (hr : ∀ c ∈ r.head?, isWordChar c = false ∧ c ≠ '.') :
    number ((number s).1 ++ r) = ((number s).1, r) := by
  have hrd : ∀ c ∈ r.head?, isDig c = false := by
    intro c hc
    have := (hr c hc).1
    simp [isWordChar] at this
    exact this.2
  have hrl : ∀ c ∈ r.head?, isLetter c = false := by
    intro c hc
    have := (hr c hc).1
    simp [isWordChar] at this
    exact this.1
  -- letters, then `r`, do not start with a digit
  have hld : ∀ w : Str, (∀ c ∈ w, isLetter c = true) → ∀ c ∈ (w ++ r).head?, isDig c = false := by
    intro w hw c hc
    cases w with
    | nil => exact hrd c hc
    | cons x w =>
      simp at hc
      subst hc
      exact letter_not_dig _ (hw _ (by simp))
  have hlp : ∀ w : Str, (∀ c ∈ w, isLetter c = true) → ∀ c ∈ (w ++ r).head?, c ≠ '.' := by
    intro w hw c hc
    cases w with
    | nil => exact (hr c hc).2
    | cons x w =>
      simp at hc
      subst hc
      intro e
      have := hw x (by simp)
      rw [e] at this
      exact absurd this (by decide)
  rcases number_cases s with ⟨d, d2, w, hd, hd2, hl, e⟩ | ⟨d, w, hd, hl, e⟩
  · rw [e]
    have e1 := takeWhile_stable isDig d ('.' :: (d2 ++ (w ++ r))) hd (by simp; decide)
    have e2 := takeWhile_stable isDig d2 (w ++ r) hd2 (hld w hl)
    have e3 := takeWhile_stable isLetter w r hl hrl
    have ea : d ++ '.' :: d2 ++ w ++ r = d ++ '.' :: (d2 ++ (w ++ r)) := by simp
    rw [ea]
    simp only [number, e1.1, e1.2, e2.1, e2.2, e3.1, e3.2]
  · rw [e]
    have e1 := takeWhile_stable isDig d (w ++ r) hd (hld w hl)
    have e3 := takeWhile_stable isLetter w r hl hrl
    have hp := hlp w hl
    have ea : d ++ w ++ r = d ++ (w ++ r) := by simp
    rw [ea]
    simp only [number, e1.1, e1.2]
    split
    · rename_i s2 e
      exact absurd rfl (hp '.' (by rw [e]; simp))
    · rw [e3.1, e3.2]

theorem scanStr_stable (q : Char) (s : Str) : ∀ b r, scanStr q s = some (b, r) → ∀ r', scanStr q (b ++ r') = some (b, r') := by
  fun_induction scanStr q s with
  | case1 => intro b r h; cases h
  | case2 cs =>
    intro b r h r'
    cases h
    rw [List.cons_append, scanStr.eq_def]
    simp
  | case3 hq => intro b r h; cases h
  | case4 e cs' hq ih =>
    intro b r h r'
    simp only [Option.map_eq_some_iff] at h
    obtain ⟨x, hx, h⟩ := h
    cases h
    have := ih x.1 x.2 hx r'
    rw [List.cons_append, List.cons_append, scanStr.eq_def]
    simp [hq, this]
  | case5 c cs hq hb ih =>
    intro b r h r'
    simp only [Option.map_eq_some_iff] at h
    obtain ⟨x, hx, h⟩ := h
    cases h
    have := ih x.1 x.2 hx r'
    rw [List.cons_append, scanStr.eq_def]
    simp [hq, hb, this]

theorem operator_valid (depth : List Char) (c : Char) (s : Str) (t : Tok) (d' : List Char) (r : Str)
    (h : operator depth c s = some (t, d', r)) : t.ty = .op ∨ t = ⟨.word, ['!']⟩ := by
  unfold operator at h
  split at h
  · cases h; exact Or.inl rfl
  split at h
  · split at h
    · cases h
    · split at h
      · cases h; exact Or.inl rfl
      · cases h
  split at h
  · split at h
    · cases h; exact Or.inl rfl
    · cases h; exact Or.inr rfl
  split at h
  · cases h; exact Or.inl rfl
  split at h
  · cases h
    left
    unfold optSecond
    split
    · split <;> rfl
    · rfl
  split at h
  · split at h
    · split at h
      · cases h; exact Or.inl rfl
      · cases h
    · cases h
  · cases h

theorem bang_stable : Stable ⟨.word, ['!']⟩ := by
  intro depth r hs
  have h1 : isWs '!' = false := by decide
  have h2 : isLetter '!' = false := by decide
  have h3 : isDig '!' = false := by decide
  simp only [List.cons_append, List.nil_append, lexOne, h1, h2, h3, operator]
  simp
  split
  · rename_i r'
    have := hs '=' (by simp) (by simp)
    exact absurd rfl (this.2.2 rfl)
  · rfl

theorem lexOne_valid (depth : List Char) (s : Str) (t : Tok) (d' : List Char) (r : Str)
    (h : lexOne depth s = some (t, d', r)) : Valid t := by
  cases s with
  | nil => simp [lexOne] at h
  | cons c s =>
    simp only [lexOne] at h
    split at h
    · cases h; intro h; simp at h
    rename_i hws
    split at h
    · rename_i hl
      cases h
      intro _ depth r hs
      have hw := takeWhile_stable isWordChar (s.takeWhile isWordChar) r (mem_takeWhile _ _)
        (fun c hc => (hs c hc (by simp)).1)
      simp only [List.cons_append, lexOne, hws, hl, if_true, hw.1, hw.2]
      simp
    rename_i hl
    split at h
    · rename_i hd
      cases h
      intro _ depth r hs
      have hn := number_stable s r (fun c hc => ⟨(hs c hc (by simp)).1, (hs c hc (by simp)).2.1⟩)
      simp only [List.cons_append, lexOne, hws, hl, hd, if_true, hn]
      simp
    rename_i hd
    split at h
    · rename_i hq
      simp only [Option.map_eq_some_iff] at h
      obtain ⟨x, hx, h⟩ := h
      cases h
      intro _ depth r hs
      have hn := scanStr_stable c s x.1 x.2 hx r
      simp only [List.cons_append, lexOne, hws, hl, hd, hq, if_true, hn]
      simp
    · rcases operator_valid _ _ _ _ _ _ h with e | e
      · intro h'; rw [e] at h'; simp at h'
      · rw [e]; exact fun _ => bang_stable

theorem lexLoop_valid : ∀ (n : Nat) (depth : List Char) (s : Str), ∀ t ∈ lexLoop n depth s, Valid t
  | 0, _, _, t, h => by simp [lexLoop] at h
  | n + 1, depth, s, t, h => by
    simp only [lexLoop] at h
    split at h
    · rename_i t' d' r e
      rcases List.mem_cons.1 h with rfl | h
      · exact lexOne_valid _ _ _ _ _ e
      · exact lexLoop_valid n _ _ t h
    · simp at h

/-! ## sequences of tokens -/

/-- reading `s` gives these tokens, and then `s'` is left -/
def Lexes : List Char → Str → List Tok → List Char → Str → Prop
  | d, s, [], d', s' => d = d' ∧ s = s'
  | d, s, t :: ts, d', s' => ∃ d1 s1, lexOne d s = some (t, d1, s1) ∧ Lexes d1 s1 ts d' s'

theorem Lexes.append {ts : List Tok} : ∀ {d : List Char} {s : Str} {d1 : List Char} {s1 : Str} {us : List Tok} {d2 : List Char} {s2 : Str},
    Lexes d s ts d1 s1 → Lexes d1 s1 us d2 s2 → Lexes d s (ts ++ us) d2 s2 := by
  induction ts with
  | nil =>
    intro d s d1 s1 us d2 s2 h h'
    obtain ⟨rfl, rfl⟩ := h
    exact h'
  | cons t ts ih =>
    intro d s d1 s1 us d2 s2 h h'
    obtain ⟨d3, s3, h1, h2⟩ := h
    exact ⟨d3, s3, h1, ih h2 h'⟩

theorem Lexes.cons {t : Tok} {d : List Char} {s : Str} {d1 : List Char} {s1 : Str} {us : List Tok} {d2 : List Char} {s2 : Str}
    (h : lexOne d s = some (t, d1, s1)) (h' : Lexes d1 s1 us d2 s2) : Lexes d s (t :: us) d2 s2 := ⟨d1, s1, h, h'⟩

theorem Lexes.one {t : Tok} {d : List Char} {s : Str} {d1 : List Char} {s1 : Str}
    (h : lexOne d s = some (t, d1, s1)) : Lexes d s [t] d1 s1 := ⟨d1, s1, h, rfl, rfl⟩

theorem dropWhile_length (p : Char → Bool) (s : Str) : (s.dropWhile p).length ≤ s.length := by
  induction s with
  | nil => simp
  | cons c s ih =>
    by_cases h : p c = true
    · rw [List.dropWhile_cons_of_pos h, List.length_cons]; omega
    · rw [List.dropWhile_cons_of_neg h]; exact Nat.le_refl _

theorem scanStr_length (q : Char) (s : Str) : ∀ b r, scanStr q s = some (b, r) → r.length < s.length := by
  fun_induction scanStr q s with
  | case1 => intro b r h; cases h
  | case2 cs => intro b r h; cases h; simp
  | case3 hq => intro b r h; cases h
  | case4 e cs' hq ih =>
    intro b r h
    simp only [Option.map_eq_some_iff] at h
    obtain ⟨x, hx, h⟩ := h
    cases h
    have := ih x.1 x.2 hx
    simp only [List.length_cons]; omega
  | case5 c cs hq hb ih =>
    intro b r h
    simp only [Option.map_eq_some_iff] at h
    obtain ⟨x, hx, h⟩ := h
    cases h
    have := ih x.1 x.2 hx
    simp only [List.length_cons]; omega

theorem number_length (s : Str) : (number s).2.length ≤ s.length := by
  unfold number
  simp only
  have h1 := dropWhile_length isDig s
  split
  · rename_i s2 e
    rw [e, List.length_cons] at h1
    have h2 := dropWhile_length isDig s2
    have h3 := dropWhile_length isLetter (s2.dropWhile isDig)
    simp only; omega
  · have h3 := dropWhile_length isLetter (s.dropWhile isDig)
    simp only; omega

theorem operator_length (depth : List Char) (c : Char) (s : Str) (t : Tok) (d' : List Char) (r : Str)
    (h : operator depth c s = some (t, d', r)) : r.length ≤ s.length := by
  unfold operator at h
  split at h
  · cases h; exact Nat.le_refl _
  split at h
  · split at h
    · cases h
    · split at h
      · cases h; exact Nat.le_refl _
      · cases h
  split at h
  · split at h
    · cases h; simp
    · cases h; exact Nat.le_refl _
  split at h
  · cases h; exact Nat.le_refl _
  split at h
  · cases h
    unfold optSecond
    split
    · split <;> simp
    · simp
  split at h
  · split at h
    · split at h
      · cases h; simp
      · cases h
    · cases h
  · cases h

theorem lexOne_length (depth : List Char) (s : Str) (t : Tok) (d' : List Char) (r : Str)
    (h : lexOne depth s = some (t, d', r)) : r.length < s.length := by
  cases s with
  | nil => simp [lexOne] at h
  | cons c s =>
    rw [List.length_cons]
    simp only [lexOne] at h
    split at h
    · cases h; have := dropWhile_length isWs s; omega
    split at h
    · cases h; have := dropWhile_length isWordChar s; omega
    split at h
    · cases h; have := number_length s; omega
    split at h
    · simp only [Option.map_eq_some_iff] at h
      obtain ⟨x, hx, h⟩ := h
      cases h
      have := scanStr_length _ _ _ _ hx; omega
    · have := operator_length _ _ _ _ _ _ h; omega

theorem lexLoop_lexes : ∀ (ts : List Tok) (n : Nat) (d : List Char) (s : Str) (d' : List Char), s.length ≤ n →
    Lexes d s ts d' [] → lexLoop n d s = ts
  | [], n, d, s, d', _, h => by
    obtain ⟨_, rfl⟩ := h
    cases n with
    | zero => rfl
    | succ n => simp [lexLoop, lexOne]
  | t :: ts, n, d, s, d', hn, h => by
    obtain ⟨d1, s1, h1, h2⟩ := h
    have hl := lexOne_length _ _ _ _ _ h1
    cases n with
    | zero => omega
    | succ n =>
      simp only [lexLoop, h1]
      rw [lexLoop_lexes ts n d1 s1 d' (by omega) h2]

/-- the bound on the number of tokens is enough: with any larger one the tokens are the same -/
theorem lex_fuel : ∀ (n m : Nat) (d : List Char) (s : Str), s.length ≤ n → n ≤ m → lexLoop m d s = lexLoop n d s
  | 0, m, d, s, hn, _ => by
    have : s = [] := List.length_eq_zero_iff.1 (by omega)
    subst this
    cases m with
    | zero => rfl
    | succ m => simp [lexLoop, lexOne]
  | n + 1, 0, d, s, _, hm => by omega
  | n + 1, m + 1, d, s, hn, hm => by
    simp only [lexLoop]
    cases h : lexOne d s with
    | none => rfl
    | some x =>
      have hl := lexOne_length d s x.1 x.2.1 x.2.2 h
      simp only
      rw [lex_fuel n m _ _ (by have : (x.2.2 : Str).length < s.length := hl; exact Nat.le_of_lt_succ (Nat.lt_of_lt_of_le this hn)) (by omega)]

/-! ## trees -/

mutual
/-- an exclamation mark on its own is not compared with `=` or `==` -/
def Primary.NoBang : Primary → Prop
  | .word _ => True
  | .lit _ _ => True
  | .parens cs => cs.NoBang
  | .braces cs => cs.NoBang

def Clauses.NoBang : Clauses → Prop
  | .one c => c.NoBang
  | .more c cs => c.NoBang ∧ cs.NoBang

def Clause.NoBang : Clause → Prop
  | .bare l => l.NoBang
  | .cond l c => l.NoBang ∧ c.NoBang

def Logic.NoBang : Logic → Prop
  | .one b => b.NoBang
  | .ext b _ l => b.NoBang ∧ l.NoBang

def Binary.NoBang : Binary → Prop
  | .one c => c.NoBang
  | .bin c o b => c.NoBang ∧ b.NoBang ∧ ¬ (c.isKey ['!'] = true ∧ (o = .eq ∨ o = .deq))

def Call.NoBang : Call → Prop
  | .bare p => p.NoBang
  | .app p l => p.NoBang ∧ l.NoBang
end

/-- text that a tree can start with -/
def StartCh (s : Str) : Prop := ∃ c s', s = c :: s' ∧ isWs c = false ∧ c ≠ '='

theorem StartCh.append {s : Str} (h : StartCh s) (r : Str) : StartCh (s ++ r) := by
  obtain ⟨c, s', rfl, h1, h2⟩ := h
  exact ⟨c, s' ++ r, rfl, h1, h2⟩

theorem startCh_of_valid (t : Tok) (h : Valid t) (hty : t.ty = .word ∨ t.ty = .number ∨ t.ty = .string) : StartCh t.data := by
  have hs := h hty [] [] (by intro c hc; simp at hc)
  rw [List.append_nil] at hs
  cases hd : t.data with
  | nil => rw [hd] at hs; simp [lexOne] at hs
  | cons c s =>
    rw [hd] at hs
    refine ⟨c, s, rfl, ?_, ?_⟩
    · cases hw : isWs c with
      | false => rfl
      | true =>
        simp only [lexOne, hw, if_true] at hs
        have := congrArg (fun x => x.map fun y => y.1.ty) hs
        simp at this
        rw [← this] at hty
        simp at hty
    · rintro rfl
      have h1 : isWs '=' = false := by decide
      have h2 : isLetter '=' = false := by decide
      have h3 : isDig '=' = false := by decide
      simp only [lexOne, h1, h2, h3, Bool.false_eq_true, if_false] at hs
      rw [if_neg (by decide)] at hs
      rcases operator_valid _ _ _ _ _ _ hs with e | e
      · rw [e] at hty; simp at hty
      · rw [e] at hd; simp at hd

theorem Primary.startCh (p : Primary) (h : p.Canon Valid) : StartCh p.print := by
  cases p with
  | word d =>
    simp only [Primary.Canon] at h
    simp only [Primary.print]
    exact startCh_of_valid _ h (Or.inl rfl)
  | lit ty d =>
    simp only [Primary.Canon] at h
    simp only [Primary.print]
    exact startCh_of_valid _ h.2 (Or.inr h.1)
  | parens cs => simp only [Primary.print]; exact ⟨_, _, rfl, by decide, by decide⟩
  | braces cs => simp only [Primary.print]; exact ⟨_, _, rfl, by decide, by decide⟩

theorem Call.startCh (c : Call) (h : c.Canon Valid) : StartCh c.print := by
  cases c with
  | bare p =>
    simp only [Call.Canon] at h
    simp only [Call.print]; exact p.startCh h
  | app p l =>
    simp only [Call.Canon] at h
    simp only [Call.print]; exact (p.startCh h.1).append _

theorem Binary.startCh (b : Binary) (h : b.Canon Valid) : StartCh b.print := by
  cases b with
  | one c =>
    simp only [Binary.Canon] at h
    simp only [Binary.print]; exact c.startCh h
  | bin c o b =>
    simp only [Binary.Canon] at h
    simp only [Binary.print, List.append_assoc]; exact (c.startCh h.1).append _

theorem Logic.startCh (l : Logic) (h : l.Canon Valid) : StartCh l.print := by
  cases l with
  | one b =>
    simp only [Logic.Canon] at h
    simp only [Logic.print]; exact b.startCh h
  | ext b o l =>
    simp only [Logic.Canon] at h
    simp only [Logic.print, List.append_assoc]; exact (b.startCh h.1).append _

theorem Clause.startCh (c : Clause) (h : c.Canon Valid) : StartCh c.print := by
  cases c with
  | bare l =>
    simp only [Clause.Canon] at h
    simp only [Clause.print]; exact l.startCh h
  | cond l c =>
    simp only [Clause.Canon] at h
    simp only [Clause.print]; exact (l.startCh h.1).append _

theorem Clauses.startCh (cs : Clauses) (h : cs.Canon Valid) : StartCh cs.print := by
  cases cs with
  | one c =>
    simp only [Clauses.Canon] at h
    simp only [Clauses.print]; exact c.startCh h
  | more c cs =>
    simp only [Clauses.Canon] at h
    simp only [Clauses.print]; exact (c.startCh h.1).append _

/-! ## operators and groups -/

theorem lex_space (d : List Char) (r : Str) (h : ∀ c ∈ r.head?, isWs c = false) : lexOne d (' ' :: r) = some (wsTok, d, r) := by
  have hw := takeWhile_stable isWs [] r (by simp) h
  simp only [List.nil_append] at hw
  have h1 : isWs ' ' = true := by decide
  simp only [lexOne, h1, if_true, hw.1, hw.2]
  rfl

theorem StartCh.head {s : Str} (h : StartCh s) : (∀ c ∈ s.head?, isWs c = false) ∧ ∀ c ∈ s.head?, c ≠ '=' := by
  obtain ⟨c, s', rfl, h1, h2⟩ := h
  simp [h1, h2]

/-- operators of which no longer one starts with the same characters -/
theorem lex_fixed (d : List Char) (r : Str) :
    (∀ c ∈ [':', ',', '/', '+', '*', '@'], lexOne d (c :: r) = some (⟨.op, [c]⟩, d, r)) ∧
    (∀ c ∈ ['=', '>', '<'], lexOne d (c :: '=' :: r) = some (⟨.op, [c, '=']⟩, d, r)) ∧
    (∀ c ∈ ['&', '|'], lexOne d (c :: c :: r) = some (⟨.op, [c, c]⟩, d, r)) ∧
    lexOne d ('!' :: '=' :: r) = some (⟨.op, ['!', '=']⟩, d, r) := by
  refine ⟨?_, ?_, ?_, ?_⟩
  · intro c hc
    simp only [List.mem_cons, List.not_mem_nil, or_false] at hc
    rcases hc with rfl | rfl | rfl | rfl | rfl | rfl <;> simp [lexOne, operator, isWs, isLetter, isDig] <;> decide
  · intro c hc
    simp only [List.mem_cons, List.not_mem_nil, or_false] at hc
    rcases hc with rfl | rfl | rfl <;> simp [lexOne, operator, optSecond, isWs, isLetter, isDig] <;> decide
  · intro c hc
    simp only [List.mem_cons, List.not_mem_nil, or_false] at hc
    rcases hc with rfl | rfl <;> simp [lexOne, operator, isWs, isLetter, isDig] <;> decide
  · simp [lexOne, operator, isWs, isLetter, isDig]

theorem lex_short (d : List Char) (c : Char) (hc : c ∈ ['=', '>', '<']) (r : Str) (h : ∀ x ∈ r.head?, x ≠ '=') :
    lexOne d (c :: r) = some (⟨.op, [c]⟩, d, r) := by
  have ho : optSecond c '=' r = (⟨.op, [c]⟩, r) := by
    cases r with
    | nil => rfl
    | cons x r =>
      have := h x (by simp)
      simp [optSecond, this]
  simp only [List.mem_cons, List.not_mem_nil, or_false] at hc
  rcases hc with rfl | rfl | rfl <;> simp [lexOne, operator, ho, isWs, isLetter, isDig] <;> decide

theorem lex_open (d : List Char) (r : Str) : lexOne d ('(' :: r) = some (opTok "(", ')' :: d, r) ∧
    lexOne d ('[' :: r) = some (opTok "[", ']' :: d, r) ∧ lexOne d ('{' :: r) = some (opTok "{", '}' :: d, r) := by
  refine ⟨?_, ?_, ?_⟩ <;> simp [lexOne, operator, isWs, isLetter, isDig, inverseGrouping, opTok] <;> decide

theorem lex_close (d : List Char) (r : Str) : lexOne (')' :: d) (')' :: r) = some (opTok ")", d, r) ∧
    lexOne (']' :: d) (']' :: r) = some (opTok "]", d, r) ∧ lexOne ('}' :: d) ('}' :: r) = some (opTok "}", d, r) := by
  refine ⟨?_, ?_, ?_⟩ <;> simp [lexOne, operator, isWs, isLetter, isDig, opTok] <;> decide

theorem BinOp.lexes (o : BinOp) (d : List Char) (r : Str) (h : StartCh r) : Lexes d (o.print ++ r) o.toks d r := by
  have hh := h.head
  have f := lex_fixed d
  have sp : ∀ s c, c ∈ ['=', '!', '<', '>', '+', '*', '&', '|'] → lexOne d (' ' :: c :: s) = some (wsTok, d, c :: s) := by
    intro s c hc
    refine lex_space d _ ?_
    simp only [List.head?_cons, Option.mem_def, Option.some.injEq, forall_eq']
    simp only [List.mem_cons, List.not_mem_nil, or_false] at hc
    rcases hc with rfl | rfl | rfl | rfl | rfl | rfl | rfl | rfl <;> decide
  have spr := lex_space d r hh.1
  have hsp : ∀ x ∈ (' ' :: r).head?, x ≠ '=' := by simp
  cases o with
  | eq => exact .one (lex_short d '=' (by simp) r hh.2)
  | ne => exact .one ((f r).2.2.2)
  | deq => exact .one ((f r).2.1 '=' (by simp))
  | lt => exact .cons (sp _ '<' (by simp)) (.cons (lex_short d '<' (by simp) _ hsp) (.one spr))
  | le => exact .cons (sp _ '<' (by simp)) (.cons ((f (' ' :: r)).2.1 '<' (by simp)) (.one spr))
  | gt => exact .cons (sp _ '>' (by simp)) (.cons (lex_short d '>' (by simp) _ hsp) (.one spr))
  | ge => exact .cons (sp _ '>' (by simp)) (.cons ((f (' ' :: r)).2.1 '>' (by simp)) (.one spr))
  | add => exact .cons (sp _ '+' (by simp)) (.cons ((f (' ' :: r)).1 '+' (by simp)) (.one spr))
  | mul => exact .cons (sp _ '*' (by simp)) (.cons ((f (' ' :: r)).1 '*' (by simp)) (.one spr))
  | delay => exact .one ((f r).1 '@' (by simp))

theorem LogOp.lexes (o : LogOp) (d : List Char) (r : Str) (h : StartCh r) : Lexes d (o.print ++ r) o.toks d r := by
  have hh := h.head
  have f := lex_fixed d
  have sp : ∀ s c, c ∈ ['&', '|'] → lexOne d (' ' :: c :: s) = some (wsTok, d, c :: s) := by
    intro s c hc
    refine lex_space d _ ?_
    simp only [List.head?_cons, Option.mem_def, Option.some.injEq, forall_eq']
    simp only [List.mem_cons, List.not_mem_nil, or_false] at hc
    rcases hc with rfl | rfl <;> decide
  have spr := lex_space d r hh.1
  cases o with
  | and => exact .cons (sp _ '&' (by simp)) (.cons ((f (' ' :: r)).2.2.1 '&' (by simp)) (.one spr))
  | or => exact .cons (sp _ '|' (by simp)) (.cons ((f (' ' :: r)).2.2.1 '|' (by simp)) (.one spr))
  | colon => exact .one ((f r).1 ':' (by simp))
  | comma => exact .cons ((f (' ' :: r)).1 ',' (by simp)) (.one spr)
  | slash => exact .one ((f r).1 '/' (by simp))

/-- text after which no token gets longer, but perhaps an exclamation mark -/
def Ends (r : Str) : Prop := ∀ c ∈ r.head?, isWordChar c = false ∧ c ≠ '.'

/-- and that neither -/
def Ends' (r : Str) : Prop := ∀ c ∈ r.head?, isWordChar c = false ∧ c ≠ '.' ∧ c ≠ '='

theorem BinOp.ends (o : BinOp) (r : Str) : Ends (o.print ++ r) ∧ (¬ (o = .eq ∨ o = .deq) → Ends' (o.print ++ r)) := by
  constructor
  · cases o <;> simp only [BinOp.print, Ends] <;> simp <;> decide
  · cases o <;> simp only [BinOp.print, Ends'] <;> simp <;> decide

theorem LogOp.ends (o : LogOp) (r : Str) : Ends' (o.print ++ r) := by
  cases o <;> simp only [LogOp.print, Ends'] <;> simp <;> decide

theorem ends_cons (c : Char) (r : Str) (h : c ∈ [' ', '(', ')', '[', ']', '{', '}']) : Ends' (c :: r) := by
  simp only [List.mem_cons, List.not_mem_nil, or_false] at h
  simp only [Ends', List.head?_cons, Option.mem_def, Option.some.injEq, forall_eq']
  rcases h with rfl | rfl | rfl | rfl | rfl | rfl | rfl <;> decide

theorem Ends'.ends {r : Str} (h : Ends' r) : Ends r := fun c hc => ⟨(h c hc).1, (h c hc).2.1⟩

theorem Ends'.noEq {r : Str} (h : Ends' r) : ∀ c ∈ r.head?, c ≠ '=' := fun c hc => (h c hc).2.2

mutual
theorem Primary.lexes (p : Primary) (d : List Char) (r : Str) (hc : p.Canon Valid) (hb : p.NoBang) (he : Ends r)
    (hq : p = .word ['!'] → ∀ c ∈ r.head?, c ≠ '=') : Lexes d (p.print ++ r) p.toks d r := by
  match p with
  | .word w =>
    simp only [Primary.Canon] at hc
    simp only [Primary.print, Primary.toks]
    refine .one (hc (Or.inl rfl) d r ?_)
    intro c hcr _
    refine ⟨(he c hcr).1, (he c hcr).2, ?_⟩
    intro e
    have e' : w = ['!'] := e
    exact hq (by rw [e']) c hcr
  | .lit ty w =>
    simp only [Primary.Canon] at hc
    simp only [Primary.print, Primary.toks]
    have hst := hc.2 (Or.inr hc.1)
    refine .one (hst d r ?_)
    intro c hcr hns
    refine ⟨(he c hcr).1, (he c hcr).2, ?_⟩
    intro e
    exfalso
    have e' : w = ['!'] := e
    rw [e'] at hst
    have := hst [] [] (by intro c hc; simp at hc)
    have h2 := bang_stable [] [] (by intro c hc; simp at hc)
    simp only [List.append_nil] at this h2
    rw [h2] at this
    have := congrArg (fun x => x.map fun y => y.1.ty) this
    simp at this
    rcases hc.1 with h | h <;> rw [h] at this <;> simp at this
  | .parens cs =>
    simp only [Primary.Canon] at hc
    simp only [Primary.NoBang] at hb
    have e : (Primary.parens cs).print ++ r = '(' :: (cs.print ++ ')' :: r) := by simp [Primary.print]
    rw [e]
    simp only [Primary.toks]
    refine .cons (lex_open d _).1 ?_
    exact (Clauses.lexes cs (')' :: d) (')' :: r) hc hb (ends_cons _ _ (by simp))).append (.one (lex_close d r).1)
  | .braces cs =>
    simp only [Primary.Canon] at hc
    simp only [Primary.NoBang] at hb
    have e : (Primary.braces cs).print ++ r = '{' :: (cs.print ++ '}' :: r) := by simp [Primary.print]
    rw [e]
    simp only [Primary.toks]
    refine .cons (lex_open d _).2.2 ?_
    exact (Clauses.lexes cs ('}' :: d) ('}' :: r) hc hb (ends_cons _ _ (by simp))).append (.one (lex_close d r).2.2)

theorem Clauses.lexes (cs : Clauses) (d : List Char) (r : Str) (hc : cs.Canon Valid) (hb : cs.NoBang) (he : Ends' r) :
    Lexes d (cs.print ++ r) cs.toks d r := by
  match cs with
  | .one c =>
    simp only [Clauses.Canon] at hc
    simp only [Clauses.NoBang] at hb
    simp only [Clauses.print, Clauses.toks]
    exact Clause.lexes c d r hc hb he
  | .more c cs =>
    simp only [Clauses.Canon] at hc
    simp only [Clauses.NoBang] at hb
    have e : (Clauses.more c cs).print ++ r = c.print ++ ' ' :: (cs.print ++ r) := by simp [Clauses.print]
    rw [e]
    simp only [Clauses.toks]
    have hs := (cs.startCh hc.2.1).append r
    exact (Clause.lexes c d _ hc.1 hb.1 (ends_cons _ _ (by simp))).append
      (.cons (lex_space d _ hs.head.1) (Clauses.lexes cs d r hc.2.1 hb.2 he))

theorem Clause.lexes (c : Clause) (d : List Char) (r : Str) (hc : c.Canon Valid) (hb : c.NoBang) (he : Ends' r) :
    Lexes d (c.print ++ r) c.toks d r := by
  match c with
  | .bare l =>
    simp only [Clause.Canon] at hc
    simp only [Clause.NoBang] at hb
    simp only [Clause.print, Clause.toks]
    exact Logic.lexes l d r hc hb he
  | .cond l c =>
    simp only [Clause.Canon] at hc
    simp only [Clause.NoBang] at hb
    have e : (Clause.cond l c).print ++ r = l.print ++ '[' :: (c.print ++ ']' :: r) := by simp [Clause.print]
    rw [e]
    simp only [Clause.toks]
    exact (Logic.lexes l d _ hc.1 hb.1 (ends_cons _ _ (by simp))).append
      (.cons (lex_open d _).2.1 ((Logic.lexes c (']' :: d) _ hc.2 hb.2 (ends_cons _ _ (by simp))).append
        (.one (lex_close d r).2.1)))

theorem Logic.lexes (l : Logic) (d : List Char) (r : Str) (hc : l.Canon Valid) (hb : l.NoBang) (he : Ends' r) :
    Lexes d (l.print ++ r) l.toks d r := by
  match l with
  | .one b =>
    simp only [Logic.Canon] at hc
    simp only [Logic.NoBang] at hb
    simp only [Logic.print, Logic.toks]
    exact Binary.lexes b d r hc hb he
  | .ext b o l =>
    simp only [Logic.Canon] at hc
    simp only [Logic.NoBang] at hb
    have e : (Logic.ext b o l).print ++ r = b.print ++ (o.print ++ (l.print ++ r)) := by simp [Logic.print]
    rw [e]
    simp only [Logic.toks]
    exact (Binary.lexes b d _ hc.1 hb.1 (o.ends _)).append
      ((o.lexes d _ ((l.startCh hc.2).append r)).append (Logic.lexes l d r hc.2 hb.2 he))

theorem Binary.lexes (b : Binary) (d : List Char) (r : Str) (hc : b.Canon Valid) (hb : b.NoBang) (he : Ends' r) :
    Lexes d (b.print ++ r) b.toks d r := by
  match b with
  | .one c =>
    simp only [Binary.Canon] at hc
    simp only [Binary.NoBang] at hb
    simp only [Binary.print, Binary.toks]
    exact Call.lexes c d r hc hb he.ends (fun _ => he.noEq)
  | .bin c o b =>
    simp only [Binary.Canon] at hc
    simp only [Binary.NoBang] at hb
    have e : (Binary.bin c o b).print ++ r = c.print ++ (o.print ++ (b.print ++ r)) := by simp [Binary.print]
    rw [e]
    simp only [Binary.toks]
    refine (Call.lexes c d _ hc.1 hb.1 (o.ends _).1 ?_).append
      ((o.lexes d _ ((b.startCh hc.2).append r)).append (Binary.lexes b d r hc.2 hb.2.1 he))
    intro hk
    exact ((o.ends _).2 (fun h => hb.2.2 ⟨hk, h⟩)).noEq

theorem Call.lexes (c : Call) (d : List Char) (r : Str) (hc : c.Canon Valid) (hb : c.NoBang) (he : Ends r)
    (hq : c.isKey ['!'] = true → ∀ x ∈ r.head?, x ≠ '=') : Lexes d (c.print ++ r) c.toks d r := by
  match c with
  | .bare p =>
    simp only [Call.Canon] at hc
    simp only [Call.NoBang] at hb
    simp only [Call.print, Call.toks]
    refine Primary.lexes p d r hc hb he ?_
    intro e
    exact hq (by rw [e]; simp [Call.isKey])
  | .app p l =>
    simp only [Call.Canon] at hc
    simp only [Call.NoBang] at hb
    have e : (Call.app p l).print ++ r = p.print ++ '(' :: (l.print ++ ')' :: r) := by simp [Call.print]
    rw [e]
    simp only [Call.toks]
    exact (Primary.lexes p d _ hc.1 hb.1 (ends_cons _ _ (by simp)).ends (fun _ => (ends_cons '(' _ (by simp)).noEq)).append
      (.cons (lex_open d _).1 ((Logic.lexes l (')' :: d) _ hc.2 hb.2 (ends_cons _ _ (by simp))).append
        (.one (lex_close d r).1)))
end

theorem top_lexes : ∀ cs : List Clause, TopCanon Valid cs → (∀ c ∈ cs, c.NoBang) → Lexes [] (printReq cs) (topToks cs) [] []
  | [], _, _ => ⟨rfl, rfl⟩
  | [c], hc, hb => by
    have := Clause.lexes c [] [] hc (hb c (by simp)) (by intro c hc; simp at hc)
    rw [List.append_nil] at this
    exact this
  | c :: c' :: cs, hc, hb => by
    have ih := top_lexes (c' :: cs) hc.2.2 (fun x hx => hb x (List.mem_cons_of_mem _ hx))
    have hs : StartCh (printReq (c' :: cs)) := by
      have hc' : c'.Canon Valid := by
        cases cs with
        | nil => exact hc.2.2
        | cons c'' cs => exact hc.2.2.1
      cases cs with
      | nil => exact c'.startCh hc'
      | cons c'' cs => exact (c'.startCh hc').append _
    exact (Clause.lexes c [] _ hc.1 (hb c (by simp)) (ends_cons _ _ (by simp))).append
      (.cons (lex_space [] _ hs.head.1) ih)

theorem lex_print (cs : List Clause) (hc : TopCanon Valid cs) (hb : ∀ c ∈ cs, c.NoBang) : lex (printReq cs) = topToks cs :=
  lexLoop_lexes _ _ _ _ _ (Nat.le_refl _) (top_lexes cs hc hb)

/-- printing a canonical list of clauses and parsing it again gives it back -/
theorem parse_print (cs : List Clause) (hc : TopCanon Valid cs) (hb : ∀ c ∈ cs, c.NoBang) :
    parseBsubR (printReq cs) = some cs := by
  unfold parseBsubR
  rw [lex_print cs hc hb]
  have hst : strip (topToks cs) = topToks cs := by
    cases cs with
    | nil => rfl
    | cons c cs => exact (topBegins Valid c cs hc).strip
  rw [hst]
  obtain ⟨r, h⟩ := parseTop_rt Valid cs ((topToks cs).length + 1) hc (by omega)
  rw [h]

/-- what is parsed is canonical -/
theorem parse_canon (s : Str) (cs : List Clause) (h : parseBsubR s = some cs) : TopCanon Valid cs := by
  unfold parseBsubR at h
  split at h
  · rename_i cs' r e
    cases h
    exact (parseTop_out Valid _ _ _ _ (all_suffix (lexLoop_valid _ _ _) (strip_suffix _)) e).1
  · cases h

end Verif.Bsub
