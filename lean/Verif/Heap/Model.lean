/-
Model of Go's `container/heap` as instantiated by `/repo/queue/subqueue.go`.

A sub-queue is a slice of item pointers; item pointers are natural numbers (the item's unique `iid`,
queue/item.go:44-46,110).  `idx` is the field `queueIndexes[sqIndex]` of every item (queue/item.go:70).
`less a b` is the order on the items themselves: queue/subqueue.go:239-257 reads only fields of the two items.
-/
namespace Verif.Heap

/-- One indexed heap: the slice (subqueue.go:34 `items`, or one entry of `groupedItems`, line 35) together with the
positions recorded in the items (item.go:70). -/
structure IHeap where
  arr : List Nat
  idx : Nat → Int

/-- Pointwise update of the recorded positions. -/
def upd (f : Nat → Int) (a : Nat) (v : Int) : Nat → Int := fun x => if x = a then v else f x

/-- Exchange two positions of a slice (subqueue.go:270).  Out of range positions would panic in Go; all callers
below are guarded, so the model leaves the slice alone. -/
def swapArr (l : List Nat) (i j : Nat) : List Nat :=
  match l[i]?, l[j]? with
  | some a, some b => (l.set i b).set j a
  | _, _ => l

/-- subqueue.go:259-286 `Swap`: exchange, then record the new positions in both items. -/
def IHeap.swap (h : IHeap) (i j : Nat) : IHeap :=
  match h.arr[i]?, h.arr[j]? with
  | some a, some b => { arr := swapArr h.arr i j, idx := upd (upd h.idx b i) a j }
  | _, _ => h

/-- subqueue.go:239-257 `Less(i, j)`, on positions. -/
def lessAt (less : Nat → Nat → Bool) (l : List Nat) (i j : Nat) : Bool :=
  match l[i]?, l[j]? with
  | some a, some b => less a b
  | _, _ => false

/-- Go container/heap `up(h, j)`: `i := (j-1)/2; if i == j || !Less(j,i) break; Swap(i,j); j = i`. -/
def up (less : Nat → Nat → Bool) (h : IHeap) (j : Nat) : IHeap :=
  if j = 0 then h
  else if lessAt less h.arr j ((j - 1) / 2) then up less (h.swap ((j - 1) / 2) j) ((j - 1) / 2)
  else h
termination_by j
decreasing_by omega

/-- The child picked by container/heap `down`: the smaller of the (up to) two children of `i` below `n`. -/
def child (less : Nat → Nat → Bool) (l : List Nat) (i n : Nat) : Nat :=
  if 2 * i + 2 < n ∧ lessAt less l (2 * i + 2) (2 * i + 1) = true then 2 * i + 2 else 2 * i + 1

theorem child_gt (less : Nat → Nat → Bool) (l : List Nat) (i n : Nat) : i < child less l i n := by
  unfold child; split <;> omega

theorem child_lt (less : Nat → Nat → Bool) (l : List Nat) (i n : Nat) (h : 2 * i + 1 < n) :
    child less l i n < n := by
  unfold child; split <;> omega

/-- Go container/heap `down(h, i, n)`; returns the heap and the final position (Go returns `i > i0`). -/
def down (less : Nat → Nat → Bool) (h : IHeap) (i n : Nat) : IHeap × Nat :=
  if _hn : 2 * i + 1 < n then
    if lessAt less h.arr (child less h.arr i n) i then
      down less (h.swap i (child less h.arr i n)) (child less h.arr i n) n
    else (h, i)
  else (h, i)
termination_by n - i
decreasing_by
  have := child_gt less h.arr i n
  have := child_lt less h.arr i n _hn
  omega

/-- subqueue.go:288-308 `Push` (the heap.Interface method): append and record the position. -/
def IHeap.rawPush (h : IHeap) (x : Nat) : IHeap :=
  { arr := h.arr ++ [x], idx := upd h.idx x h.arr.length }

/-- subqueue.go:310-332 `Pop` (the heap.Interface method): take the last element off, record position -1.
`none` is Go's index-out-of-range panic on an empty slice. -/
def IHeap.rawPop (h : IHeap) : Option (Nat × IHeap) :=
  match h.arr.getLast? with
  | none => none
  | some x => some (x, { arr := h.arr.dropLast, idx := upd h.idx x (-1) })

/-- container/heap `Push`: `h.Push(x); up(h, h.Len()-1)` (called at subqueue.go:124,205). -/
def push (less : Nat → Nat → Bool) (h : IHeap) (x : Nat) : IHeap :=
  up less (h.rawPush x) h.arr.length

/-- container/heap `Pop`: `n := Len()-1; Swap(0,n); down(h,0,n); return h.Pop()` (called at subqueue.go:148, which
checks first that the slice is not empty). -/
def pop (less : Nat → Nat → Bool) (h : IHeap) : Option (Nat × IHeap) :=
  if h.arr.length = 0 then none
  else ((down less (h.swap 0 (h.arr.length - 1)) 0 (h.arr.length - 1)).1).rawPop

/-- `if !down(h, i, n) { up(h, i) }`, the tail shared by container/heap `Remove` and `Fix`. -/
def settle (less : Nat → Nat → Bool) (h : IHeap) (i n : Nat) : IHeap :=
  let r := down less h i n
  if r.2 = i then up less r.1 i else r.1

/-- container/heap `Remove(h, i)` (called at subqueue.go:158,202 with the position recorded in the item).
`none` is Go's index-out-of-range panic: `Swap(i, n)` or `Pop` indexes outside the slice. -/
def removeAt (less : Nat → Nat → Bool) (h : IHeap) (i : Int) : Option (Nat × IHeap) :=
  if i < 0 ∨ (h.arr.length : Int) ≤ i then none
  else if i.toNat = h.arr.length - 1 then h.rawPop
  else (settle less (h.swap i.toNat (h.arr.length - 1)) i.toNat (h.arr.length - 1)).rawPop

/-- container/heap `Fix(h, i)` (called at subqueue.go:208).  A negative position is a no-op (`down` stops because
`2*i+1 < 0`, and `up` because `(i-1)/2 == i` for -1); position 0 of an empty slice is a no-op too; any other out of
range position panics in `Less`.  (Positions below -1 never occur: recorded positions are -1 or natural.) -/
def fix (less : Nat → Nat → Bool) (h : IHeap) (i : Int) : Option IHeap :=
  if i < 0 then some h
  else if (h.arr.length : Int) ≤ i then (if i = 0 then some h else none)
  else some (settle less h i.toNat h.arr.length)

end Verif.Heap
