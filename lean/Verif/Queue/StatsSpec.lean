import Verif.Queue.Stats
/-! Specification for C140: what the counters of an item are supposed to count. -/
namespace Verif.Queue

/-- the five counters of an item -/
inductive Kind | reserve | timeout | release | bury | kick
  deriving DecidableEq, Repr

/-- what the item tells -/
def Kind.of : Kind → Item → Nat
  | .reserve, it => it.reserves
  | .timeout, it => it.timeouts
  | .release, it => it.releases
  | .bury, it => it.buries
  | .kick, it => it.kicks

def Op.isMany : Op → Bool
  | .addMany _ => true
  | _ => false

def Op.isTtr : Op → Bool
  | .ttrTick _ => true
  | _ => false

def Op.isRelease : Op → Bool
  | .release _ => true
  | _ => false

/-- which moves a counter counts -/
def Kind.counts : Kind → Op → Ev → Bool
  | .reserve, op, e => e.dst = .run || (op.isMany && e.src = .new && e.dst = .bury)
  | .timeout, op, e => e.src = .run && (op.isTtr || (op.isRelease && e.dst = .ready))
  | .release, op, e => e.src = .run && ((op.isRelease && e.dst = .delay) || e.dst = .dependent)
  | .bury, _, e => e.dst = .bury
  | .kick, _, e => e.src = .bury && (e.dst = .ready || e.dst = .dependent)

/-- how often the events of one operation count for an item -/
def tallied (k : Kind) (op : Op) : List Ev → Nat → Nat
  | [], _ => 0
  | e :: es, i => (if k.counts op e then e.who.count i else 0) + tallied k op es i

/-- how often the item was moved in the way `p` says -/
def times (p : Op → Ev → Bool) : List Happened → Nat → Nat
  | [], _ => 0
  | h :: hs, i => (if p h.op h.ev then h.ev.who.count i else 0) + times p hs i

/-- how often what happened counts for an item -/
def tally (k : Kind) : List Happened → Nat → Nat := times k.counts

end Verif.Queue
