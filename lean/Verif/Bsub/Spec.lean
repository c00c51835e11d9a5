import Verif.Bsub.Tree

/-! # What the rewriting of a resource string is about

Two readings of a tree that do not say how it is rewritten: the values that a key is compared with, and the tree with these
comparisons blanked. -/
namespace Verif.Bsub

mutual
/-- the comparisons `key op value` (and sums and products that start with the key), with the text of the value -/
def Primary.values (key : Str) : Primary → List (BinOp × Str)
  | .word _ => []
  | .lit _ _ => []
  | .parens cs => cs.values key
  | .braces cs => cs.values key

def Clauses.values (key : Str) : Clauses → List (BinOp × Str)
  | .one c => c.values key
  | .more c cs => c.values key ++ cs.values key

def Clause.values (key : Str) : Clause → List (BinOp × Str)
  | .bare l => l.values key
  | .cond l c => l.values key ++ c.values key

def Logic.values (key : Str) : Logic → List (BinOp × Str)
  | .one b => b.values key
  | .ext b _ l => b.values key ++ l.values key

def Binary.values (key : Str) : Binary → List (BinOp × Str)
  | .one c => c.values key
  | .bin c o b => if c.isKey key then [(o, b.print)] else []

def Call.values (key : Str) : Call → List (BinOp × Str)
  | .bare p => p.values key
  | .app p l => p.values key ++ l.values key
end

mutual
/-- the tree with the operators and values of these comparisons blanked -/
def Primary.blank (key : Str) : Primary → Primary
  | .word d => .word d
  | .lit t d => .lit t d
  | .parens cs => .parens (cs.blank key)
  | .braces cs => .braces (cs.blank key)

def Clauses.blank (key : Str) : Clauses → Clauses
  | .one c => .one (c.blank key)
  | .more c cs => .more (c.blank key) (cs.blank key)

def Clause.blank (key : Str) : Clause → Clause
  | .bare l => .bare (l.blank key)
  | .cond l c => .cond (l.blank key) (c.blank key)

def Logic.blank (key : Str) : Logic → Logic
  | .one b => .one (b.blank key)
  | .ext b o l => .ext (b.blank key) o (l.blank key)

def Binary.blank (key : Str) : Binary → Binary
  | .one c => .one (c.blank key)
  | .bin c o b => if c.isKey key then .bin c .eq (.one (.bare (.word []))) else .bin c o b

def Call.blank (key : Str) : Call → Call
  | .bare p => .bare (p.blank key)
  | .app p l => .app (p.blank key) (l.blank key)
end

/-- the section that a clause of a resource string is: the name before the brackets, or `select` for a first clause without
brackets; and what the section says -/
def sectionOf (first : Bool) : Clause → Option (Str × Logic)
  | .bare l => if first then some ("select".toList, l) else none
  | .cond (.one (.one (.bare (.word n)))) c => some (n, c)
  | .cond _ _ => none

/-- the clause with another content of the section -/
def Clause.withContent (l' : Logic) : Clause → Clause
  | .bare _ => .bare l'
  | .cond l _ => .cond l l'

/-- what stands before brackets is just a name -/
def Clause.Plain : Clause → Prop
  | .bare _ => True
  | .cond l _ => ∃ n, l = .one (.one (.bare (.word n)))

/-- the key to be rewritten in a section, with the operator and the value that it gets -/
def wanted (mem hosts : Str) (name : Str) : Option (Str × BinOp × Str) :=
  if name = "select".toList then some ("mem".toList, .gt, mem)
  else if name = "rusage".toList then some ("mem".toList, .eq, mem)
  else if name = "span".toList then some ("hosts".toList, .eq, hosts)
  else none

/-- every comparison of the key of a section, in this clause, has the wanted operator and value -/
def Clause.HasWanted (mem hosts : Str) (first : Bool) (c : Clause) : Prop :=
  ∀ n l k o v, sectionOf first c = some (n, l) → wanted mem hosts n = some (k, o, v) → ∀ x ∈ l.values k, x = (o, v)

def HasWanted (mem hosts : Str) : List Clause → Prop
  | [] => True
  | c :: cs => c.HasWanted mem hosts true ∧ ∀ c' ∈ cs, c'.HasWanted mem hosts false

/-- the key of a section -/
def keyOf (name : Str) : Option Str :=
  if name = "select".toList ∨ name = "rusage".toList then some "mem".toList
  else if name = "span".toList then some "hosts".toList
  else none

/-- a clause with what may be rewritten in it blanked -/
def Clause.blanked (first : Bool) (c : Clause) : Clause :=
  match sectionOf first c with
  | none => c
  | some (n, l) =>
    match keyOf n with
    | none => c
    | some k => c.withContent (l.blank k)

def blanked : List Clause → List Clause
  | [] => []
  | c :: cs => c.blanked true :: cs.map (Clause.blanked false)

/-- a whole number in digits -/
def IsNum (v : Str) : Prop := v ≠ [] ∧ ∀ c ∈ v, isDig c = true

mutual
/-- no group or list of clauses has, after its first, a clause that starts with a parenthesis -/
def Primary.NoParen : Primary → Prop
  | .word _ => True
  | .lit _ _ => True
  | .parens cs => cs.NoParen
  | .braces cs => cs.NoParen

def Clauses.NoParen : Clauses → Prop
  | .one c => c.NoParen
  | .more c cs => c.NoParen ∧ cs.NoParen ∧ cs.startsParen = false

def Clause.NoParen : Clause → Prop
  | .bare l => l.NoParen
  | .cond l c => l.NoParen ∧ c.NoParen

def Logic.NoParen : Logic → Prop
  | .one b => b.NoParen
  | .ext b _ l => b.NoParen ∧ l.NoParen

def Binary.NoParen : Binary → Prop
  | .one c => c.NoParen
  | .bin c _ b => c.NoParen ∧ b.NoParen

def Call.NoParen : Call → Prop
  | .bare p => p.NoParen
  | .app p l => p.NoParen ∧ l.NoParen
end

def TopNoParen (cs : List Clause) : Prop := (∀ c ∈ cs, c.NoParen) ∧ ∀ c ∈ cs.tail, c.startsParen = false

mutual
/-- numbers written as names become numbers: what reading the text again does to a tree into which numbers were written -/
def Primary.norm : Primary → Primary
  | .word d => if d.head?.all isDig then .lit .number d else .word d
  | .lit t d => .lit t d
  | .parens cs => .parens cs.norm
  | .braces cs => .braces cs.norm

def Clauses.norm : Clauses → Clauses
  | .one c => .one c.norm
  | .more c cs => .more c.norm cs.norm

def Clause.norm : Clause → Clause
  | .bare l => .bare l.norm
  | .cond l c => .cond l.norm c.norm

def Logic.norm : Logic → Logic
  | .one b => .one b.norm
  | .ext b o l => .ext b.norm o l.norm

def Binary.norm : Binary → Binary
  | .one c => .one c.norm
  | .bin c o b => .bin c.norm o b.norm

def Call.norm : Call → Call
  | .bare p => .bare p.norm
  | .app p l => .app p.norm l.norm
end

end Verif.Bsub
