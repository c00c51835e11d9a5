/-
Specification: what `bqueues -l` and `bmgroup -w` print, and what that says about the queues. Independent of how
jobqueue/scheduler/lsf.go reads it: only the type of queues and of their limits is shared with the model.
-/
import Verif.Sched.Lsf
import Verif.Utils.Config

namespace Verif.Sched.LsfText
open Verif.Sched.Lsf (Crit Queue)
open Verif.Utils.Config (itoa)

abbrev Str := List Char

/-- a word: not empty, and no white space in it -/
def Word (w : Str) : Prop := w ≠ [] ∧ ∀ c ∈ w, c ≠ ' ' ∧ c ≠ '\t' ∧ c ≠ '\n' ∧ c ≠ '\r' ∧ c ≠ Char.ofNat 12

def spaces (n : Nat) : Str := List.replicate n ' '

/-- words, each with spaces (at least one) before it; `g` is how many more -/
def pad (g : Nat → Nat) : List Str → Str
  | [] => []
  | w :: ws => spaces (g 0 + 1) ++ w ++ pad (fun i => g (i + 1)) ws

/-- what lines that mean something begin with -/
def keywords : List Str :=
  ["QUEUE: ".toList, "PRIO".toList, "DEFAULT LIMITS:".toList, "MAXIMUM LIMITS:".toList, "SCHEDULING PARAMETERS".toList, "USERS:".toList,
    "HOSTS:".toList, "CHUNK_JOB_SIZE:".toList]

/-- a line that does not begin with one -/
def Other (l : Str) : Prop := ∀ w ∈ keywords, ¬ w <+: l

/-- a line with none of what is read -/
def Quiet (l : Str) : Prop := Other l ∧ ¬ "MEMLIMIT".toList <:+: l ∧ ¬ "RUNLIMIT".toList <:+: l

/-- a limit of memory, `10.5 G` -/
structure Lim where
  gap : Nat
  int : Nat
  frac : Str
  unit : Char

def Lim.text (m : Lim) : Str := spaces (m.gap + 1) ++ itoa m.int ++ (if m.frac = [] then [] else '.' :: m.frac) ++ [' ', m.unit]

/-- the kB of a unit -/
def kb : Char → Nat
  | 'K' => 1
  | 'M' => 1000
  | 'G' => 1000000
  | 'T' => 1000000000
  | 'P' => 1000000000000
  | _ => 1000000000000000

def Lim.Wf (m : Lim) : Prop := (∀ c ∈ m.frac, c.isDigit = true) ∧ m.unit ∈ ['K', 'M', 'G', 'T', 'P', 'E']

/-- the limits of memory, two lines: the names of the limits, then the values of those up to MEMLIMIT, then the others' -/
structure Mem where
  g : Nat → Nat
  before : List Str
  after : List Str
  vals : List Lim
  lim : Lim
  rest : Str

def Mem.head (m : Mem) : Str := pad m.g (m.before ++ "MEMLIMIT".toList :: m.after)
def Mem.row (m : Mem) : Str := m.vals.flatMap Lim.text ++ m.lim.text ++ m.rest

def Mem.Wf (m : Mem) : Prop :=
  (∀ w ∈ m.before, Word w ∧ w ≠ "MEMLIMIT".toList) ∧ (∀ w ∈ m.after, Word w) ∧ m.vals.length = m.before.length ∧ (∀ v ∈ m.vals, v.Wf) ∧
    m.lim.Wf ∧ ¬ "MEMLIMIT".toList <:+: m.row

/-- the limit of time, two lines: ` RUNLIMIT` and ` 720.0 min of host` -/
structure Run where
  head : Str
  indent : Nat
  mins : Nat
  frac : Str
  rest : Str

def Run.row (r : Run) : Str :=
  spaces (r.indent + 1) ++ itoa r.mins ++ (if r.frac = [] then [] else '.' :: r.frac) ++ " min".toList ++ r.rest

def Run.Wf (r : Run) : Prop :=
  Other r.head ∧ "RUNLIMIT".toList <:+: r.head ∧ ¬ "MEMLIMIT".toList <:+: r.head ∧ (∀ c ∈ r.frac, c.isDigit = true) ∧
    ¬ "MEMLIMIT".toList <:+: r.row ∧ ¬ "RUNLIMIT".toList <:+: r.row

/-- what `bqueues -l` prints for a queue. `q0` … `q8` are the lines that mean nothing here. A limit that is not set is `none`; `hosts` is
`none` for all hosts. -/
structure Desc where
  name : Str
  nameRest : Str
  q0 : List Str
  gh : Nat → Nat
  headRest : Str
  indent : Nat
  gr : Nat → Nat
  prio : Nat
  nice : Str
  status : Str
  max : Option Nat
  maxUser : Option Nat
  more : List Str
  q1 : List Str
  defaults : Option (List Str)
  maximum : Bool
  q2 : List Str
  run : Option Run
  q3 : List Str
  mem : Option Mem
  q4 : List Str
  schedRest : Str
  q5 : List Str
  gu : Nat → Nat
  users : List Str
  ut : Nat
  q6 : List Str
  ghs : Nat → Nat
  hosts : Option (List Str)
  ht : Nat
  q7 : List Str
  gc : Nat
  chunk : Option Nat
  q8 : List Str

def limit : Option Nat → Str
  | none => ['-']
  | some n => itoa n

def Desc.prioHead (d : Desc) : Str := "PRIO".toList ++ pad d.gh ["NICE".toList, "STATUS".toList, "MAX".toList, "JL/U".toList] ++ d.headRest
def Desc.prioRow (d : Desc) : Str :=
  spaces d.indent ++ itoa d.prio ++ pad d.gr (d.nice :: d.status :: limit d.max :: limit d.maxUser :: d.more)
def Desc.usersLine (d : Desc) : Str := "USERS:".toList ++ pad d.gu d.users ++ spaces d.ut
def Desc.hostsLine (d : Desc) : Str := "HOSTS:".toList ++ pad d.ghs (d.hosts.getD ["all".toList]) ++ spaces d.ht
def chunkText (g n : Nat) : Str := "CHUNK_JOB_SIZE:".toList ++ spaces (g + 1) ++ itoa n

/-- up to the limits -/
def Desc.top (d : Desc) : List Str :=
  ("QUEUE: ".toList ++ d.name ++ d.nameRest) :: d.q0 ++ [d.prioHead, d.prioRow] ++ d.q1

def defaultLines : Option (List Str) → List Str
  | none => []
  | some ls => "DEFAULT LIMITS:".toList :: ls

def runLines : Option Run → List Str
  | none => []
  | some r => [r.head, r.row]

def memLines : Option Mem → List Str
  | none => []
  | some m => [m.head, m.row]

def chunkLines (g : Nat) : Option Nat → List Str
  | none => []
  | some n => [chunkText g n]

/-- the limits -/
def Desc.mid (d : Desc) : List Str :=
  defaultLines d.defaults ++
  (if d.maximum = true then "MAXIMUM LIMITS:".toList :: d.q2 ++ runLines d.run ++ d.q3 ++ memLines d.mem ++ d.q4 else [])

/-- the rest -/
def Desc.low (d : Desc) : List Str :=
  ("SCHEDULING PARAMETERS".toList ++ d.schedRest) :: d.q5 ++ d.usersLine :: d.q6 ++ d.hostsLine :: d.q7 ++ chunkLines d.gc d.chunk ++ d.q8

def Desc.text (d : Desc) : List Str := d.top ++ d.mid ++ d.low

/-- it is really what bqueues prints: words are words, and the other lines are not any of those that are read -/
structure Desc.Wf (d : Desc) : Prop where
  name : Word d.name
  nameRest : d.nameRest = [] ∨ ∃ r, d.nameRest = ' ' :: r
  nice : Word d.nice
  status : Word d.status
  more : ∀ w ∈ d.more, Word w
  quiet : ∀ l ∈ d.q0 ++ d.q1 ++ d.q2 ++ d.q3 ++ d.q4 ++ d.q5 ++ d.q6 ++ d.q7 ++ d.q8, Quiet l
  defaults : ∀ ls, d.defaults = some ls → ∀ l ∈ ls, Other l
  maximum : d.maximum = false → d.run = none ∧ d.mem = none
  run : ∀ r, d.run = some r → r.Wf
  mem : ∀ m, d.mem = some m → m.Wf
  sched : ¬ "MEMLIMIT".toList <:+: "SCHEDULING PARAMETERS".toList ++ d.schedRest ∧
    ¬ "RUNLIMIT".toList <:+: "SCHEDULING PARAMETERS".toList ++ d.schedRest
  users : d.users ≠ [] ∧ (∀ w ∈ d.users, Word w) ∧ ¬ "MEMLIMIT".toList <:+: d.usersLine ∧ ¬ "RUNLIMIT".toList <:+: d.usersLine
  hosts : (∀ hs, d.hosts = some hs → hs ≠ [] ∧ hs ≠ ["all".toList] ∧ ∀ w ∈ hs, Word w) ∧
    ¬ "MEMLIMIT".toList <:+: d.hostsLine ∧ ¬ "RUNLIMIT".toList <:+: d.hostsLine

/-! ## Groups of hosts -/

/-- a line of `bmgroup -w`: a group, and hosts or groups (with a `/` after their name) -/
structure Group where
  name : Str
  g : Nat → Nat
  items : List Str

def Group.text (x : Group) : Str := x.name ++ pad x.g x.items

def Group.Wf (x : Group) : Prop := Word x.name ∧ x.items ≠ [] ∧ ∀ w ∈ x.items, Word w

/-- the hosts of a group -/
inductive Member (gs : List Group) : Str → Str → Prop
  | host (x : Group) (h : Str) : x ∈ gs → h ∈ x.items → h.getLast? ≠ some '/' → Member gs x.name h
  | nested (x : Group) (n h : Str) : x ∈ gs → n ++ ['/'] ∈ x.items → Member gs n h → Member gs x.name h

/-- groups are mentioned only after their own line -/
def Ordered (gs : List Group) : Prop :=
  ∀ pre x post, gs = pre ++ x :: post → ∀ n, n ++ ['/'] ∈ x.items → ∀ y ∈ x :: post, y.name ≠ n

end Verif.Sched.LsfText
