/-!
# Parsing, rewriting and printing of LSF resource strings (package bsubresource)

Strings are lists of characters. The tokeniser and parser of `vimagination.zapto.org/parser` are not part of /repo: it is taken
for granted that `Accept`, `AcceptRun`, `ExceptRun`, `Peek`, `Next` and `AcceptToken` do what their names say, and that the
tokens for the end and for an error of the tokeniser both have a negative type, as requirements.go:79 has it. No function of
this package ever looks at anything of these two tokens but that they are none of the others, so here the list of tokens just
ends.
-/
namespace Verif.Bsub

abbrev Str := List Char

/-- tokeniser.go:34-40; whitespace, word, number, string, operator -/
inductive Ty | ws | word | number | string | op
  deriving DecidableEq, Repr

structure Tok where
  ty : Ty
  data : Str
  deriving DecidableEq, Repr

/-- tokeniser.go:29 -/
def isWs (c : Char) : Bool := c = ' ' || c = '\t' || c = '\n' || c = '\r'

/-- tokeniser.go:30 -/
def isLetter (c : Char) : Bool := ('A' ≤ c && c ≤ 'Z') || ('a' ≤ c && c ≤ 'z') || c = '_'

/-- tokeniser.go:31 -/
def isDig (c : Char) : Bool := '0' ≤ c && c ≤ '9'

def isWordChar (c : Char) : Bool := isLetter c || isDig c

/-- tokeniser.go:82-92 `number`, after the first digit: the token's further characters and the rest -/
def number (s : Str) : Str × Str :=
  let d := s.takeWhile isDig
  let s1 := s.dropWhile isDig
  match s1 with
  | '.' :: s2 =>
    let d2 := s2.takeWhile isDig
    let s3 := s2.dropWhile isDig
    (d ++ '.' :: d2 ++ s3.takeWhile isLetter, s3.dropWhile isLetter)
  | _ => (d ++ s1.takeWhile isLetter, s1.dropWhile isLetter)

/-- tokeniser.go:145-159 `string`, after the opening quote `q`; `none` is the error at the end of input -/
def scanStr (q : Char) : Str → Option (Str × Str)
  | [] => none
  | c :: cs =>
    if c = q then some ([c], cs)
    else if c = '\\' then
      match cs with
      | [] => none
      | e :: cs' => (scanStr q cs').map fun x => (c :: e :: x.1, x.2)
    else (scanStr q cs).map fun x => (c :: x.1, x.2)

/-- tokeniser.go:132-143 `inverseGrouping` -/
def inverseGrouping : Char → Char
  | '[' => ']'
  | '(' => ')'
  | '{' => '}'
  | c => c

/-- an operator of two characters if the second follows, else of one -/
def optSecond (c d : Char) (s : Str) : Tok × Str :=
  match s with
  | e :: r => if e = d then (⟨.op, [c, d]⟩, r) else (⟨.op, [c]⟩, s)
  | [] => (⟨.op, [c]⟩, s)

/-- tokeniser.go:104-130 `operator`, with the stack of open groups; `none` is an error -/
def operator (depth : List Char) (c : Char) (s : Str) : Option (Tok × List Char × Str) :=
  if c = '[' ∨ c = '(' ∨ c = '{' then some (⟨.op, [c]⟩, inverseGrouping c :: depth, s)
  else if c = ']' ∨ c = ')' ∨ c = '}' then
    match depth with
    | [] => none
    | d :: ds => if d = c then some (⟨.op, [c]⟩, ds, s) else none
  else if c = '!' then
    match s with
    | '=' :: r => some (⟨.op, ['!', '=']⟩, depth, r)
    | _ => some (⟨.word, ['!']⟩, depth, s)
  else if c = ':' ∨ c = ',' ∨ c = '/' ∨ c = '+' ∨ c = '*' ∨ c = '@' then some (⟨.op, [c]⟩, depth, s)
  else if c = '=' ∨ c = '>' ∨ c = '<' then some ((optSecond c '=' s).1, depth, (optSecond c '=' s).2)
  else if c = '&' ∨ c = '|' then
    match s with
    | e :: r => if e = c then some (⟨.op, [c, c]⟩, depth, r) else none
    | [] => none
  else none

/-- tokeniser.go:54-102 `main`, `number` and `stringOrOperator`: one token; `none` is the end or an error -/
def lexOne (depth : List Char) : Str → Option (Tok × List Char × Str)
  | [] => none
  | c :: s =>
    if isWs c then some (⟨.ws, c :: s.takeWhile isWs⟩, depth, s.dropWhile isWs)
    else if isLetter c then some (⟨.word, c :: s.takeWhile isWordChar⟩, depth, s.dropWhile isWordChar)
    else if isDig c then some (⟨.number, c :: (number s).1⟩, depth, (number s).2)
    else if c = '"' ∨ c = '\'' then (scanStr c s).map fun x => (⟨.string, c :: x.1⟩, depth, x.2)
    else operator depth c s

/-- all the tokens; the first argument bounds the number of steps, and the length of the string is enough (`lex_fuel`) -/
def lexLoop : Nat → List Char → Str → List Tok
  | 0, _, _ => []
  | n + 1, depth, s =>
    match lexOne depth s with
    | some (t, depth', r) => t :: lexLoop n depth' r
    | none => []

/-- bsub.go:29-31, the tokens that the parser sees -/
def lex (s : Str) : List Tok := lexLoop s.length [] s

/-! ## syntax trees -/

/-- binary.go:30-42 but for `binaryNone` -/
inductive BinOp | eq | ne | deq | lt | le | gt | ge | add | mul | delay
  deriving DecidableEq, Repr

/-- logic.go:30-37 but for `logicNone` -/
inductive LogOp | and | or | colon | comma | slash
  deriving DecidableEq, Repr

mutual
/-- primary.go:28-33 `primary`: a name, a literal, or clauses in parentheses or braces -/
inductive Primary
  | word (d : Str)
  | lit (ty : Ty) (d : Str)
  | parens (cs : Clauses)
  | braces (cs : Clauses)

/-- clause.go:83 `clauses`, at least one -/
inductive Clauses
  | one (c : Clause)
  | more (c : Clause) (cs : Clauses)

/-- clause.go:28-31 `clause`, without and with a condition -/
inductive Clause
  | bare (l : Logic)
  | cond (l c : Logic)

/-- logic.go:59-63 `logic`, without and with an extension -/
inductive Logic
  | one (b : Binary)
  | ext (b : Binary) (op : LogOp) (l : Logic)

/-- binary.go:74-78 `binary`, without and with an operator -/
inductive Binary
  | one (c : Call)
  | bin (c : Call) (op : BinOp) (b : Binary)

/-- call.go:28-31 `call`, without and with arguments -/
inductive Call
  | bare (p : Primary)
  | app (p : Primary) (l : Logic)
end

/-! ## the parser -/

/-- what a parsing function gives: a tree and the tokens that are left, an error, or nothing for want of steps -/
inductive Res (α : Type)
  | ok (a : α) (rest : List Tok)
  | err
  | fuel

/-- `p.AcceptRun(tokenWhitespace)` -/
def strip : List Tok → List Tok
  | [] => []
  | t :: ts => if t.ty = .ws then strip ts else t :: ts

/-- an operator token -/
def opTok (d : String) : Tok := ⟨.op, d.toList⟩

/-- `p.AcceptToken(…)` with an operator -/
def acceptOp (d : String) : List Tok → Option (List Tok)
  | [] => none
  | t :: ts => if t = opTok d then some ts else none

/-- binary.go:105-130 `parseBinaryOperator` of the token that comes next, if it is an operator -/
def binOp (t : Tok) : Option BinOp :=
  if t = opTok "=" then some .eq
  else if t = opTok "!=" then some .ne
  else if t = opTok "==" then some .deq
  else if t = opTok "<" then some .lt
  else if t = opTok "<=" then some .le
  else if t = opTok ">" then some .gt
  else if t = opTok ">=" then some .ge
  else if t = opTok "+" then some .add
  else if t = opTok "*" then some .mul
  else if t = opTok "@" then some .delay
  else none

/-- logic.go:90-105 `parseLogicOperator` of the token that comes next, if it is an operator -/
def logOp (t : Tok) : Option LogOp :=
  if t = opTok "&&" then some .and
  else if t = opTok "||" then some .or
  else if t = opTok ":" then some .colon
  else if t = opTok "," then some .comma
  else if t = opTok "/" then some .slash
  else none

/-- the operator that comes next, with what follows it -/
def peekBin : List Tok → Option (BinOp × List Tok)
  | [] => none
  | t :: ts => (binOp t).map fun o => (o, ts)

def peekLog : List Tok → Option (LogOp × List Tok)
  | [] => none
  | t :: ts => (logOp t).map fun o => (o, ts)

/-- use the result of a parsing function -/
def Res.bind {α β : Type} (r : Res α) (f : α → List Tok → Res β) : Res β :=
  match r with
  | .ok a rest => f a rest
  | .err => .err
  | .fuel => .fuel

/-- close a group: what was parsed must be followed by this operator -/
def close {α : Type} (d : String) (a : α) (ts : List Tok) : Res α :=
  match acceptOp d ts with
  | some r => .ok a r
  | none => .err

mutual
/-- primary.go:35-77 `primary.parse` and `parseGrouping` -/
def parsePrimary : Nat → List Tok → Res Primary
  | 0, _ => .fuel
  | _ + 1, [] => .err
  | n + 1, t :: r =>
    match t.ty with
    | .ws => .err
    | .word => .ok (.word t.data) r
    | .number => .ok (.lit .number t.data) r
    | .string => .ok (.lit .string t.data) r
    | .op =>
      if t = opTok "(" then (parseClauses n ")" (strip r)).bind fun cs r' => .ok (.parens cs) r'
      else if t = opTok "{" then (parseClauses n "}" (strip r)).bind fun cs r' => .ok (.braces cs) r'
      else .err

/-- primary.go:79-95 `parseClauses` -/
def parseClauses : Nat → String → List Tok → Res Clauses
  | 0, _, _ => .fuel
  | n + 1, d, ts =>
    (parseClause n ts).bind fun c r =>
      match acceptOp d (strip r) with
      | some r' => .ok (.one c) r'
      | none => (parseClauses n d (strip r)).bind fun cs r' => .ok (.more c cs) r'

/-- clause.go:33-63 `clause.parse` and `parseCondition` -/
def parseClause : Nat → List Tok → Res Clause
  | 0, _ => .fuel
  | n + 1, ts =>
    (parseLogic n ts).bind fun l r =>
      match acceptOp "[" (strip r) with
      | some r' => (parseLogic n (strip r')).bind fun c r'' => close "]" (.cond l c) (strip r'')
      | none => .ok (.bare l) (strip r)

/-- logic.go:65-88 `logic.parse` -/
def parseLogic : Nat → List Tok → Res Logic
  | 0, _ => .fuel
  | n + 1, ts =>
    (parseBinary n ts).bind fun b r =>
      match peekLog (strip r) with
      | some (o, r') => (parseLogic n (strip r')).bind fun l r'' => .ok (.ext b o l) r''
      | none => .ok (.one b) (strip r)

/-- binary.go:80-103 `binary.parse` -/
def parseBinary : Nat → List Tok → Res Binary
  | 0, _ => .fuel
  | n + 1, ts =>
    (parseCall n ts).bind fun c r =>
      match peekBin (strip r) with
      | some (o, r') => (parseBinary n (strip r')).bind fun b r'' => .ok (.bin c o b) r''
      | none => .ok (.one c) (strip r)

/-- call.go:33-55 `call.parse` -/
def parseCall : Nat → List Tok → Res Call
  | 0, _ => .fuel
  | n + 1, ts =>
    (parsePrimary n ts).bind fun p r =>
      match acceptOp "(" (strip r) with
      | some r' => (parseLogic n r').bind fun l r'' => close ")" (.app p l) (strip r'')
      | none => .ok (.bare p) (strip r)
end

/-- steps that are enough for parsing this many tokens (`parseClause_fuel`) -/
def steps (ts : List Tok) : Nat := 6 * ts.length + 6

/-- requirements.go:76-92 `Requirements.parse`, the loop; the tokens come without leading whitespace -/
def parseTop : Nat → List Tok → Res (List Clause)
  | 0, _ => .fuel
  | _ + 1, [] => .ok [] []
  | n + 1, t :: ts =>
    (parseClause (steps (t :: ts)) (t :: ts)).bind fun c r =>
      (parseTop n (strip r)).bind fun cs r' => .ok (c :: cs) r'

/-- bsub.go:28-36 `ParseBsubR`; `none` is an error -/
def parseBsubR (s : Str) : Option (List Clause) :=
  match parseTop ((lex s).length + 1) (strip (lex s)) with
  | .ok cs _ => some cs
  | _ => none

/-! ## printing -/

/-- binary.go:44-72 -/
def BinOp.print : BinOp → Str
  | .eq => "=".toList
  | .ne => "!=".toList
  | .deq => "==".toList
  | .lt => " < ".toList
  | .le => " <= ".toList
  | .gt => " > ".toList
  | .ge => " >= ".toList
  | .add => " + ".toList
  | .mul => " * ".toList
  | .delay => "@".toList

/-- logic.go:39-57 -/
def LogOp.print : LogOp → Str
  | .and => " && ".toList
  | .or => " || ".toList
  | .colon => ":".toList
  | .comma => ", ".toList
  | .slash => "/".toList

mutual
/-- primary.go:97-131 `primary.toString` -/
def Primary.print : Primary → Str
  | .word d => d
  | .lit _ d => d
  | .parens cs => '(' :: (cs.print ++ [')'])
  | .braces cs => '{' :: (cs.print ++ ['}'])

/-- primary.go:121-128 -/
def Clauses.print : Clauses → Str
  | .one c => c.print
  | .more c cs => c.print ++ ' ' :: cs.print

/-- clause.go:65-73 -/
def Clause.print : Clause → Str
  | .bare l => l.print
  | .cond l c => l.print ++ '[' :: (c.print ++ [']'])

/-- logic.go:107-114 -/
def Logic.print : Logic → Str
  | .one b => b.print
  | .ext b o l => b.print ++ o.print ++ l.print

/-- binary.go:132-139 -/
def Binary.print : Binary → Str
  | .one c => c.print
  | .bin c o b => c.print ++ o.print ++ b.print

/-- call.go:57-65 -/
def Call.print : Call → Str
  | .bare p => p.print
  | .app p l => p.print ++ '(' :: (l.print ++ [')'])
end

/-- requirements.go:94-114 `Requirements.String` -/
def printReq : List Clause → Str
  | [] => []
  | [c] => c.print
  | c :: c' :: cs => c.print ++ ' ' :: printReq (c' :: cs)

/-! ## replacing values -/

/-- binary.go:148: the call is the name `key` and nothing else -/
def Call.isKey (key : Str) : Call → Bool
  | .bare (.word d) => d = key
  | _ => false

mutual
/-- call.go:68-72, the groups of a primary -/
def Primary.replace (key : Str) (op : BinOp) (v : Str) : Primary → Primary
  | .word d => .word d
  | .lit t d => .lit t d
  | .parens cs => .parens (cs.replace key op v)
  | .braces cs => .braces (cs.replace key op v)

/-- clause.go:85-89 -/
def Clauses.replace (key : Str) (op : BinOp) (v : Str) : Clauses → Clauses
  | .one c => .one (c.replace key op v)
  | .more c cs => .more (c.replace key op v) (cs.replace key op v)

/-- clause.go:75-81 -/
def Clause.replace (key : Str) (op : BinOp) (v : Str) : Clause → Clause
  | .bare l => .bare (l.replace key op v)
  | .cond l c => .cond (l.replace key op v) (c.replace key op v)

/-- logic.go:116-122 -/
def Logic.replace (key : Str) (op : BinOp) (v : Str) : Logic → Logic
  | .one b => .one (b.replace key op v)
  | .ext b o l => .ext (b.replace key op v) o (l.replace key op v)

/-- binary.go:141-160. The value becomes a word, whatever it is. -/
def Binary.replace (key : Str) (op : BinOp) (v : Str) : Binary → Binary
  | .one c => .one (c.replace key op v)
  | .bin c o b => if c.isKey key then .bin c op (.one (.bare (.word v))) else .bin c o b

/-- call.go:67-77 -/
def Call.replace (key : Str) (op : BinOp) (v : Str) : Call → Call
  | .bare p => .bare (p.replace key op v)
  | .app p l => .app (p.replace key op v) (l.replace key op v)
end

/-- requirements.go:47: the name that a clause starts with -/
def Logic.firstName : Logic → Option Str
  | .one (.one (.bare (.word d))) | .one (.one (.app (.word d) _)) => some d
  | .one (.bin (.bare (.word d)) _ _) | .one (.bin (.app (.word d) _) _ _) => some d
  | .ext (.one (.bare (.word d))) _ _ | .ext (.one (.app (.word d) _)) _ _ => some d
  | .ext (.bin (.bare (.word d)) _ _) _ _ | .ext (.bin (.app (.word d) _) _ _) _ _ => some d
  | _ => none

/-- requirements.go:64-73, the body of the loop -/
def replaceSection (mem hosts : Str) (name : Str) (l : Logic) : Logic :=
  if name = "select".toList then l.replace "mem".toList .gt mem
  else if name = "rusage".toList then l.replace "mem".toList .eq mem
  else if name = "span".toList then l.replace "hosts".toList .eq hosts
  else l

/-- requirements.go:34-58 and 64-73 on one clause; `first` is whether it is the first -/
def replaceClause (mem hosts : Str) (first : Bool) : Clause → Clause
  | .bare l => if first then .bare (replaceSection mem hosts "select".toList l) else .bare l
  | .cond l c =>
    match l.firstName with
    | some n => .cond l (replaceSection mem hosts n c)
    | none => .cond l c

/-- requirements.go:60-74 `ReplaceMemoryAndHosts` -/
def replaceMemoryAndHosts (mem hosts : Str) : List Clause → List Clause
  | [] => []
  | c :: cs => replaceClause mem hosts true c :: cs.map (replaceClause mem hosts false)

end Verif.Bsub
