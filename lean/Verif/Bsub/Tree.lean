import Verif.Bsub.Fuel

/-! # Parsing the tokens of a tree gives the tree -/
namespace Verif.Bsub

def wsTok : Tok := ⟨.ws, [' ']⟩

def BinOp.toks : BinOp → List Tok
  | .eq => [opTok "="]
  | .ne => [opTok "!="]
  | .deq => [opTok "=="]
  | .lt => [wsTok, opTok "<", wsTok]
  | .le => [wsTok, opTok "<=", wsTok]
  | .gt => [wsTok, opTok ">", wsTok]
  | .ge => [wsTok, opTok ">=", wsTok]
  | .add => [wsTok, opTok "+", wsTok]
  | .mul => [wsTok, opTok "*", wsTok]
  | .delay => [opTok "@"]

def LogOp.toks : LogOp → List Tok
  | .and => [wsTok, opTok "&&", wsTok]
  | .or => [wsTok, opTok "||", wsTok]
  | .colon => [opTok ":"]
  | .comma => [opTok ",", wsTok]
  | .slash => [opTok "/"]

mutual
def Primary.toks : Primary → List Tok
  | .word d => [⟨.word, d⟩]
  | .lit ty d => [⟨ty, d⟩]
  | .parens cs => opTok "(" :: (cs.toks ++ [opTok ")"])
  | .braces cs => opTok "{" :: (cs.toks ++ [opTok "}"])

def Clauses.toks : Clauses → List Tok
  | .one c => c.toks
  | .more c cs => c.toks ++ wsTok :: cs.toks

def Clause.toks : Clause → List Tok
  | .bare l => l.toks
  | .cond l c => l.toks ++ opTok "[" :: (c.toks ++ [opTok "]"])

def Logic.toks : Logic → List Tok
  | .one b => b.toks
  | .ext b o l => b.toks ++ (o.toks ++ l.toks)

def Binary.toks : Binary → List Tok
  | .one c => c.toks
  | .bin c o b => c.toks ++ (o.toks ++ b.toks)

def Call.toks : Call → List Tok
  | .bare p => p.toks
  | .app p l => p.toks ++ opTok "(" :: (l.toks ++ [opTok ")"])
end

/-- the last part of the text is a primary, so that a parenthesis after it would be taken for arguments -/
def Call.endsBare : Call → Bool
  | .bare _ => true
  | .app _ _ => false

def Binary.endsBare : Binary → Bool
  | .one c => c.endsBare
  | .bin _ _ b => b.endsBare

def Logic.endsBare : Logic → Bool
  | .one b => b.endsBare
  | .ext _ _ l => l.endsBare

def Clause.endsBare : Clause → Bool
  | .bare l => l.endsBare
  | .cond _ _ => false

/-- the text starts with a parenthesis -/
def Primary.startsParen : Primary → Bool
  | .parens _ => true
  | _ => false

def Call.startsParen : Call → Bool
  | .bare p => p.startsParen
  | .app p _ => p.startsParen

def Binary.startsParen : Binary → Bool
  | .one c => c.startsParen
  | .bin c _ _ => c.startsParen

def Logic.startsParen : Logic → Bool
  | .one b => b.startsParen
  | .ext b _ _ => b.startsParen

def Clause.startsParen : Clause → Bool
  | .bare l => l.startsParen
  | .cond l _ => l.startsParen

def Clauses.startsParen : Clauses → Bool
  | .one c => c.startsParen
  | .more c _ => c.startsParen

mutual
/-- the trees that parsing gives: literals are numbers or strings, and no clause can be taken for the arguments of the one
before it; `V` holds of all the tokens -/
def Primary.Canon (V : Tok → Prop) : Primary → Prop
  | .word d => V ⟨.word, d⟩
  | .lit ty d => (ty = .number ∨ ty = .string) ∧ V ⟨ty, d⟩
  | .parens cs => cs.Canon V
  | .braces cs => cs.Canon V

def Clauses.Canon (V : Tok → Prop) : Clauses → Prop
  | .one c => c.Canon V
  | .more c cs => c.Canon V ∧ cs.Canon V ∧ ¬ (c.endsBare = true ∧ cs.startsParen = true)

def Clause.Canon (V : Tok → Prop) : Clause → Prop
  | .bare l => l.Canon V
  | .cond l c => l.Canon V ∧ c.Canon V

def Logic.Canon (V : Tok → Prop) : Logic → Prop
  | .one b => b.Canon V
  | .ext b _ l => b.Canon V ∧ l.Canon V

def Binary.Canon (V : Tok → Prop) : Binary → Prop
  | .one c => c.Canon V
  | .bin c _ b => c.Canon V ∧ b.Canon V

def Call.Canon (V : Tok → Prop) : Call → Prop
  | .bare p => p.Canon V
  | .app p l => p.Canon V ∧ l.Canon V
end

/-- a token that a tree can start with -/
def Start (t : Tok) : Prop := t.ty = .word ∨ t.ty = .number ∨ t.ty = .string ∨ t = opTok "(" ∨ t = opTok "{"

theorem opTok_inj (d d' : String) (h : opTok d = opTok d') : d.toList = d'.toList := by
  cases h' : d.toList <;> simp [opTok] at h <;> simp_all

theorem binOp_ty (t : Tok) (h : t.ty ≠ .op) : binOp t = none := by
  have : ∀ d, ¬ t = opTok d := fun d e => h (by rw [e]; rfl)
  simp [binOp, this]

theorem logOp_ty (t : Tok) (h : t.ty ≠ .op) : logOp t = none := by
  have : ∀ d, ¬ t = opTok d := fun d e => h (by rw [e]; rfl)
  simp [logOp, this]

theorem Start.facts {t : Tok} (h : Start t) : t.ty ≠ .ws ∧ binOp t = none ∧ logOp t = none ∧ t ≠ opTok "[" ∧
    t ≠ opTok ")" ∧ t ≠ opTok "}" ∧ t ≠ opTok "]" := by
  have other : t.ty ≠ .op → t.ty ≠ .ws → t.ty ≠ .ws ∧ binOp t = none ∧ logOp t = none ∧ t ≠ opTok "[" ∧
      t ≠ opTok ")" ∧ t ≠ opTok "}" ∧ t ≠ opTok "]" := by
    intro h1 h2
    have hne : ∀ d, t ≠ opTok d := fun d e => h1 (by rw [e]; rfl)
    exact ⟨h2, binOp_ty t h1, logOp_ty t h1, hne _, hne _, hne _, hne _⟩
  rcases h with h | h | h | h | h
  · exact other (by rw [h]; decide) (by rw [h]; decide)
  · exact other (by rw [h]; decide) (by rw [h]; decide)
  · exact other (by rw [h]; decide) (by rw [h]; decide)
  · subst h; decide
  · subst h; decide

/-- how a list of tokens starts -/
def Begins (sp : Bool) (ts : List Tok) : Prop := ∃ t r, ts = t :: r ∧ Start t ∧ (t = opTok "(" ↔ sp = true)

theorem Begins.append {sp : Bool} {ts : List Tok} (h : Begins sp ts) (r : List Tok) : Begins sp (ts ++ r) := by
  obtain ⟨t, r', rfl, h1, h2⟩ := h
  exact ⟨t, r' ++ r, rfl, h1, h2⟩

theorem Primary.begins (V : Tok → Prop) (p : Primary) (h : p.Canon V) : Begins p.startsParen p.toks := by
  cases p with
  | word d => exact ⟨_, [], by simp only [Primary.toks]; rfl, Or.inl rfl, by simp [startsParen, opTok]⟩
  | lit ty d =>
    simp only [Primary.Canon] at h
    refine ⟨_, [], by simp only [Primary.toks]; rfl, ?_, ?_⟩
    · rcases h.1 with rfl | rfl
      · exact Or.inr (Or.inl rfl)
      · exact Or.inr (Or.inr (Or.inl rfl))
    · rcases h.1 with rfl | rfl <;> simp [startsParen, opTok]
  | parens cs => exact ⟨_, _, by simp only [Primary.toks]; rfl, by simp [Start], by simp [startsParen]⟩
  | braces cs => exact ⟨_, _, by simp only [Primary.toks]; rfl, by simp [Start], by simp [startsParen]; decide⟩

theorem Call.begins (V : Tok → Prop) (c : Call) (h : c.Canon V) : Begins c.startsParen c.toks := by
  cases c with
  | bare p =>
    simp only [Call.Canon] at h
    simp only [Call.toks, Call.startsParen]; exact p.begins V h
  | app p l =>
    simp only [Call.Canon] at h
    simp only [Call.toks, Call.startsParen]; exact (p.begins V h.1).append _

theorem Binary.begins (V : Tok → Prop) (b : Binary) (h : b.Canon V) : Begins b.startsParen b.toks := by
  cases b with
  | one c =>
    simp only [Binary.Canon] at h
    simp only [Binary.toks, Binary.startsParen]; exact c.begins V h
  | bin c o b =>
    simp only [Binary.Canon] at h
    simp only [Binary.toks, Binary.startsParen]; exact (c.begins V h.1).append _

theorem Logic.begins (V : Tok → Prop) (l : Logic) (h : l.Canon V) : Begins l.startsParen l.toks := by
  cases l with
  | one b =>
    simp only [Logic.Canon] at h
    simp only [Logic.toks, Logic.startsParen]; exact b.begins V h
  | ext b o l =>
    simp only [Logic.Canon] at h
    simp only [Logic.toks, Logic.startsParen]; exact (b.begins V h.1).append _

theorem Clause.begins (V : Tok → Prop) (c : Clause) (h : c.Canon V) : Begins c.startsParen c.toks := by
  cases c with
  | bare l =>
    simp only [Clause.Canon] at h
    simp only [Clause.toks, Clause.startsParen]; exact l.begins V h
  | cond l c =>
    simp only [Clause.Canon] at h
    simp only [Clause.toks, Clause.startsParen]; exact (l.begins V h.1).append _

theorem Clauses.begins (V : Tok → Prop) (cs : Clauses) (h : cs.Canon V) : Begins cs.startsParen cs.toks := by
  cases cs with
  | one c =>
    simp only [Clauses.Canon] at h
    simp only [Clauses.toks, Clauses.startsParen]; exact c.begins V h
  | more c cs =>
    simp only [Clauses.Canon] at h
    simp only [Clauses.toks, Clauses.startsParen]; exact (c.begins V h.1).append _

/-! ## what may follow -/

theorem strip_strip (ts : List Tok) : strip (strip ts) = strip ts := by
  induction ts with
  | nil => rfl
  | cons t ts ih =>
    by_cases h : t.ty = .ws
    · have : strip (t :: ts) = strip ts := by simp [strip, h]
      rw [this, ih]
    · have : strip (t :: ts) = t :: ts := by simp [strip, h]
      rw [this, this]

theorem strip_cons {t : Tok} (ts : List Tok) (h : t.ty ≠ .ws) : strip (t :: ts) = t :: ts := by simp [strip, h]

theorem strip_ws (ts : List Tok) : strip (wsTok :: ts) = strip ts := by simp [strip, wsTok]

theorem strip_op (d : String) (ts : List Tok) : strip (opTok d :: ts) = opTok d :: ts := by simp [strip, opTok]

theorem Begins.strip {sp : Bool} {ts : List Tok} (h : Begins sp ts) : Verif.Bsub.strip ts = ts := by
  obtain ⟨t, r, rfl, h1, _⟩ := h
  exact strip_cons r h1.facts.1

/-- the next token that is not whitespace is not this operator -/
def NotOp (d : String) (ts : List Tok) : Prop := acceptOp d (strip ts) = none

def NotBin (ts : List Tok) : Prop := peekBin (strip ts) = none

def NotLog (ts : List Tok) : Prop := peekLog (strip ts) = none

def Call.F (c : Call) (r : List Tok) : Prop := c.endsBare = true → NotOp "(" r

def Binary.F (b : Binary) (r : List Tok) : Prop := NotBin r ∧ (b.endsBare = true → NotOp "(" r)

def Logic.F (l : Logic) (r : List Tok) : Prop := NotBin r ∧ NotLog r ∧ (l.endsBare = true → NotOp "(" r)

def Clause.F : Clause → List Tok → Prop
  | .bare l, r => l.F r ∧ NotOp "[" r
  | .cond _ _, _ => True

theorem notOp_cons {d : String} {t : Tok} (ts : List Tok) (h : t.ty ≠ .ws) (h' : t ≠ opTok d) : NotOp d (t :: ts) := by
  simp [NotOp, strip_cons ts h, acceptOp, h']

theorem notBin_cons {t : Tok} (ts : List Tok) (h : t.ty ≠ .ws) (h' : binOp t = none) : NotBin (t :: ts) := by
  simp [NotBin, strip_cons ts h, peekBin, h']

theorem notLog_cons {t : Tok} (ts : List Tok) (h : t.ty ≠ .ws) (h' : logOp t = none) : NotLog (t :: ts) := by
  simp [NotLog, strip_cons ts h, peekLog, h']

theorem BinOp.peek (o : BinOp) (r : List Tok) :
    ∃ r', peekBin (strip (o.toks ++ r)) = some (o, r') ∧ strip r' = strip r := by
  cases o <;>
    simp only [BinOp.toks, List.cons_append, List.nil_append, strip_op, strip_ws] <;>
    exact ⟨_, rfl, by first | rfl | exact strip_ws _⟩

theorem LogOp.peek (o : LogOp) (r : List Tok) :
    ∃ r', peekLog (strip (o.toks ++ r)) = some (o, r') ∧ strip r' = strip r := by
  cases o <;>
    simp only [LogOp.toks, List.cons_append, List.nil_append, strip_op, strip_ws] <;>
    exact ⟨_, rfl, by first | rfl | exact strip_ws _⟩

theorem BinOp.notOp (o : BinOp) (r : List Tok) : NotOp "(" (o.toks ++ r) := by
  cases o <;>
    simp only [BinOp.toks, List.cons_append, List.nil_append, NotOp, strip_op, strip_ws] <;> rfl

theorem LogOp.notOp (o : LogOp) (r : List Tok) : NotOp "(" (o.toks ++ r) := by
  cases o <;>
    simp only [LogOp.toks, List.cons_append, List.nil_append, NotOp, strip_op, strip_ws] <;> rfl

theorem LogOp.notBin (o : LogOp) (r : List Tok) : NotBin (o.toks ++ r) := by
  cases o <;>
    simp only [LogOp.toks, List.cons_append, List.nil_append, NotBin, strip_op, strip_ws] <;> rfl

theorem acceptOp_self (d : String) (ts : List Tok) : acceptOp d (opTok d :: ts) = some ts := by simp [acceptOp]

/-- parsing the tokens of a tree, followed by what may follow it, gives the tree -/
structure RT (V : Tok → Prop) (n : Nat) : Prop where
  primary : ∀ (p : Primary) r, p.Canon V → parsePrimary n (p.toks ++ r) ≠ .fuel → parsePrimary n (p.toks ++ r) = .ok p r
  clauses : ∀ (cs : Clauses) d r, cs.Canon V → d = ")" ∨ d = "}" → parseClauses n d (cs.toks ++ opTok d :: r) ≠ .fuel →
    parseClauses n d (cs.toks ++ opTok d :: r) = .ok cs r
  clause : ∀ (c : Clause) r, c.Canon V → c.F r → parseClause n (c.toks ++ r) ≠ .fuel →
    ∃ r', parseClause n (c.toks ++ r) = .ok c r' ∧ strip r' = strip r
  logic : ∀ (l : Logic) r, l.Canon V → l.F r → parseLogic n (l.toks ++ r) ≠ .fuel →
    parseLogic n (l.toks ++ r) = .ok l (strip r)
  binary : ∀ (b : Binary) r, b.Canon V → b.F r → parseBinary n (b.toks ++ r) ≠ .fuel →
    parseBinary n (b.toks ++ r) = .ok b (strip r)
  call : ∀ (c : Call) r, c.Canon V → c.F r → parseCall n (c.toks ++ r) ≠ .fuel →
    ∃ r', parseCall n (c.toks ++ r) = .ok c r' ∧ strip r' = strip r

theorem bind_nf {α β : Type} {r : Res α} {f : α → List Tok → Res β} (h : r.bind f ≠ .fuel) : r ≠ .fuel := by
  intro e
  apply h
  rw [e]; rfl

theorem Logic.F_op (l : Logic) (d : String) (r : List Tok) (h : d = ")" ∨ d = "]" ∨ d = "}") : l.F (opTok d :: r) := by
  refine ⟨?_, ?_, fun _ => ?_⟩
  · exact notBin_cons r (by simp [opTok]) (by rcases h with rfl | rfl | rfl <;> decide)
  · exact notLog_cons r (by simp [opTok]) (by rcases h with rfl | rfl | rfl <;> decide)
  · exact notOp_cons r (by simp [opTok]) (by rcases h with rfl | rfl | rfl <;> decide)

theorem Clause.F_op (c : Clause) (d : String) (r : List Tok) (h : d = ")" ∨ d = "}") : c.F (opTok d :: r) := by
  cases c with
  | bare l =>
    refine ⟨l.F_op d r (h.elim Or.inl fun h => Or.inr (Or.inr h)), notOp_cons r (by simp [opTok]) (by rcases h with rfl | rfl <;> decide)⟩
  | cond l c => trivial

theorem Logic.F_bracket (l : Logic) (r : List Tok) : l.F (opTok "[" :: r) := by
  refine ⟨?_, ?_, fun _ => ?_⟩
  · exact notBin_cons r (by simp [opTok]) (by decide)
  · exact notLog_cons r (by simp [opTok]) (by decide)
  · exact notOp_cons r (by simp [opTok]) (by decide)

/-- a clause may be followed by a space and another one -/
theorem Clause.F_next (c : Clause) {sp : Bool} {ts : List Tok} (hb : Begins sp ts)
    (h : ¬ (c.endsBare = true ∧ sp = true)) : c.F (wsTok :: ts) := by
  obtain ⟨t, r, rfl, h1, h2⟩ := hb
  have hf := h1.facts
  cases c with
  | bare l =>
    have e : ∀ d, NotOp d (wsTok :: t :: r) ↔ NotOp d (t :: r) := by intro d; simp only [NotOp, strip_ws]
    refine ⟨⟨?_, ?_, fun he => ?_⟩, ?_⟩
    · simp only [NotBin, strip_ws]; exact notBin_cons r hf.1 hf.2.1
    · simp only [NotLog, strip_ws]; exact notLog_cons r hf.1 hf.2.2.1
    · rw [e]
      refine notOp_cons r hf.1 ?_
      intro e'
      exact h ⟨he, h2.1 e'⟩
    · rw [e]; exact notOp_cons r hf.1 hf.2.2.2.1
  | cond l c => trivial

theorem rt (V : Tok → Prop) : ∀ n, RT V n
  | 0 => by
    constructor <;> intros <;> rename_i h <;> exact absurd (by simp [parsePrimary, parseClauses, parseClause, parseLogic, parseBinary, parseCall]) h
  | n + 1 => by
    have ih := rt V n
    constructor
    · intro p r hc hf
      cases p with
      | word d => simp [Primary.toks, parsePrimary]
      | lit ty d =>
        simp only [Primary.Canon] at hc
        rcases hc.1 with rfl | rfl <;> simp [Primary.toks, parsePrimary]
      | parens cs =>
        simp only [Primary.Canon] at hc
        have hb := (cs.begins V hc).append (opTok ")" :: r)
        have e : (Primary.parens cs).toks ++ r = opTok "(" :: (cs.toks ++ opTok ")" :: r) := by simp [Primary.toks]
        have hop : (opTok "(").ty = .op := rfl
        rw [e] at hf ⊢
        simp only [parsePrimary, hop, if_true] at hf ⊢
        rw [hb.strip] at hf ⊢
        rw [ih.clauses cs ")" r hc (Or.inl rfl) (bind_nf hf)]
        rfl
      | braces cs =>
        simp only [Primary.Canon] at hc
        have hb := (cs.begins V hc).append (opTok "}" :: r)
        have e : (Primary.braces cs).toks ++ r = opTok "{" :: (cs.toks ++ opTok "}" :: r) := by simp [Primary.toks]
        have hop : (opTok "{").ty = .op := rfl
        have hne : ¬ opTok "{" = opTok "(" := by decide
        rw [e] at hf ⊢
        simp only [parsePrimary, hop, hne, if_true, if_false] at hf ⊢
        rw [hb.strip] at hf ⊢
        rw [ih.clauses cs "}" r hc (Or.inr rfl) (bind_nf hf)]
        rfl
    · intro cs d r hc hd hf
      have hd' : d ≠ "[" := by rcases hd with rfl | rfl <;> decide
      cases cs with
      | one c =>
        simp only [Clauses.Canon] at hc
        simp only [Clauses.toks] at hf ⊢
        simp only [parseClauses] at hf ⊢
        obtain ⟨r', h1, h2⟩ := ih.clause c (opTok d :: r) hc (c.F_op d r hd) (bind_nf hf)
        rw [h1]
        simp only [Res.bind, h2, strip_op, acceptOp_self]
      | more c cs =>
        simp only [Clauses.Canon] at hc
        have hb := (cs.begins V hc.2.1).append (opTok d :: r)
        have e : (Clauses.more c cs).toks ++ opTok d :: r = c.toks ++ wsTok :: (cs.toks ++ opTok d :: r) := by
          simp [Clauses.toks]
        rw [e] at hf ⊢
        simp only [parseClauses] at hf ⊢
        obtain ⟨r', h1, h2⟩ := ih.clause c _ hc.1 (c.F_next hb (by
          intro h
          exact hc.2.2 h)) (bind_nf hf)
        rw [h1] at hf ⊢
        simp only [Res.bind, h2, strip_ws, hb.strip] at hf ⊢
        have hno : acceptOp d (cs.toks ++ opTok d :: r) = none := by
          obtain ⟨t, r2, e2, hs, _⟩ := hb
          rw [e2]
          have hfacts := hs.facts
          simp only [acceptOp]
          rw [if_neg]
          rcases hd with rfl | rfl
          · exact hfacts.2.2.2.2.1
          · exact hfacts.2.2.2.2.2.1
        simp only [hno] at hf ⊢
        have hcs : parseClauses n d (cs.toks ++ opTok d :: r) ≠ .fuel := by
          intro e'
          apply hf
          rw [e']
        rw [ih.clauses cs d r hc.2.1 hd hcs]
    · intro c r hc hF hf
      cases c with
      | bare l =>
        simp only [Clause.Canon] at hc
        simp only [Clause.toks] at hf ⊢
        simp only [parseClause] at hf ⊢
        have h1 := ih.logic l r hc hF.1 (bind_nf hf)
        have hno : acceptOp "[" (strip (strip r)) = none := by rw [strip_strip]; exact hF.2
        rw [h1]
        simp only [Res.bind, hno]
        exact ⟨_, rfl, by rw [strip_strip, strip_strip]⟩
      | cond l c =>
        simp only [Clause.Canon] at hc
        have e : (Clause.cond l c).toks ++ r = l.toks ++ opTok "[" :: (c.toks ++ opTok "]" :: r) := by simp [Clause.toks]
        have hb := (c.begins V hc.2).append (opTok "]" :: r)
        rw [e] at hf ⊢
        simp only [parseClause] at hf ⊢
        have h1 := ih.logic l _ hc.1 (l.F_bracket _) (bind_nf hf)
        rw [h1] at hf ⊢
        simp only [Res.bind, strip_op, acceptOp_self, hb.strip] at hf ⊢
        have hcs : parseLogic n (c.toks ++ opTok "]" :: r) ≠ .fuel := by
          intro e'
          apply hf
          rw [e']
        rw [ih.logic c _ hc.2 (c.F_op "]" r (Or.inr (Or.inl rfl))) hcs]
        simp only [strip_op, close, acceptOp_self]
        exact ⟨r, rfl, rfl⟩
    · intro l r hc hF hf
      cases l with
      | one b =>
        simp only [Logic.Canon] at hc
        simp only [Logic.toks] at hf ⊢
        simp only [parseLogic] at hf ⊢
        have h1 := ih.binary b r hc ⟨hF.1, hF.2.2⟩ (bind_nf hf)
        have hno : peekLog (strip (strip r)) = none := by rw [strip_strip]; exact hF.2.1
        rw [h1]
        simp only [Res.bind, hno]
        rw [strip_strip]
      | ext b o l =>
        simp only [Logic.Canon] at hc
        have e : (Logic.ext b o l).toks ++ r = b.toks ++ (o.toks ++ (l.toks ++ r)) := by simp [Logic.toks]
        have hb := (l.begins V hc.2).append r
        rw [e] at hf ⊢
        simp only [parseLogic] at hf ⊢
        have h1 := ih.binary b _ hc.1 ⟨o.notBin _, fun _ => o.notOp _⟩ (bind_nf hf)
        rw [h1] at hf ⊢
        obtain ⟨r', hp, hs⟩ := o.peek (l.toks ++ r)
        simp only [Res.bind, strip_strip, hp, hs, hb.strip] at hf ⊢
        have hcs : parseLogic n (l.toks ++ r) ≠ .fuel := by
          intro e'
          apply hf
          rw [e']
        rw [ih.logic l r hc.2 hF hcs]
    · intro b r hc hF hf
      cases b with
      | one c =>
        simp only [Binary.Canon] at hc
        simp only [Binary.toks] at hf ⊢
        simp only [parseBinary] at hf ⊢
        obtain ⟨r', h1, h2⟩ := ih.call c r hc hF.2 (bind_nf hf)
        have hno : peekBin (strip r') = none := by rw [h2]; exact hF.1
        rw [h1]
        simp only [Res.bind, hno]
        rw [h2]
      | bin c o b =>
        simp only [Binary.Canon] at hc
        have e : (Binary.bin c o b).toks ++ r = c.toks ++ (o.toks ++ (b.toks ++ r)) := by simp [Binary.toks]
        have hb := (b.begins V hc.2).append r
        rw [e] at hf ⊢
        simp only [parseBinary] at hf ⊢
        obtain ⟨r1, h1, h2⟩ := ih.call c _ hc.1 (fun _ => o.notOp (b.toks ++ r)) (bind_nf hf)
        rw [h1] at hf ⊢
        obtain ⟨r', hp, hs⟩ := o.peek (b.toks ++ r)
        simp only [Res.bind, h2, hp, hs, hb.strip] at hf ⊢
        have hcs : parseBinary n (b.toks ++ r) ≠ .fuel := by
          intro e'
          apply hf
          rw [e']
        rw [ih.binary b r hc.2 hF hcs]
    · intro c r hc hF hf
      cases c with
      | bare p =>
        simp only [Call.Canon] at hc
        simp only [Call.toks] at hf ⊢
        simp only [parseCall] at hf ⊢
        have h1 := ih.primary p r hc (bind_nf hf)
        have hno : acceptOp "(" (strip r) = none := hF rfl
        rw [h1]
        simp only [Res.bind, hno]
        exact ⟨_, rfl, strip_strip r⟩
      | app p l =>
        simp only [Call.Canon] at hc
        have e : (Call.app p l).toks ++ r = p.toks ++ opTok "(" :: (l.toks ++ opTok ")" :: r) := by simp [Call.toks]
        rw [e] at hf ⊢
        simp only [parseCall] at hf ⊢
        have h1 := ih.primary p _ hc.1 (bind_nf hf)
        rw [h1] at hf ⊢
        simp only [Res.bind, strip_op, acceptOp_self] at hf ⊢
        have hcs : parseLogic n (l.toks ++ opTok ")" :: r) ≠ .fuel := by
          intro e'
          apply hf
          rw [e']
        rw [ih.logic l _ hc.2 (l.F_op ")" r (Or.inl rfl)) hcs]
        simp only [strip_op, close, acceptOp_self]
        exact ⟨r, rfl, rfl⟩

end Verif.Bsub
