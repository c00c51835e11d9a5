import Verif.Heap.Lemmas
/-!
# Property C13: the sub-queues are correct indexed priority queues

The concrete machine runs the operations of `queue/subqueue.go` on a slice with positions recorded in the items; the
specification is a plain list of items without any structure. The order may be any strict weak order, and may change
(for one item at a time) when an item's fields are updated.
-/
namespace Verif.Heap

/-- the calls made on one heap: subqueue.go `push`, `pop`, `remove` of a stored item (through the position recorded in
it), and `update` of a stored item after its fields changed (so that `less'` is now the order) -/
inductive HOp where
  | push (x : Nat)
  | pop
  | remove (x : Nat)
  | update (x : Nat) (less' : Nat → Nat → Bool)

/-- The heap with the order that its items currently have. -/
structure HState where
  less : Nat → Nat → Bool
  heap : IHeap

/-- One call (subqueue.go:117-128 `push`, 141-153 `pop`, 155-176 `remove`, 178-213 `update`); the result is the item
that left, `none` is a panic. -/
def hstep (s : HState) : HOp → Option (Option Nat × HState)
  | .push x => some (none, { s with heap := Heap.push s.less s.heap x })
  | .pop => if s.heap.arr = [] then some (none, s) else (Heap.pop s.less s.heap).map fun r => (some r.1, { s with heap := r.2 })
  | .remove x => (removeAt s.less s.heap (s.heap.idx x)).map fun r => (some r.1, { s with heap := r.2 })
  | .update x less' => (fix less' s.heap (s.heap.idx x)).map fun h => (none, { less := less', heap := h })

/-- Specification: `l` is what is stored before, `l'` after, and `res` the item that leaves. -/
inductive HSpec (less : Nat → Nat → Bool) : List Nat → HOp → Option Nat → List Nat → Prop where
  | push {l l' x} : l'.Perm (x :: l) → HSpec less l (.push x) none l'
  | popEmpty : HSpec less [] .pop none []
  | pop {l l' x} : l.Perm (x :: l') → (∀ y ∈ l, less y x = false) → HSpec less l .pop (some x) l'
  | remove {l l' x} : l.Perm (x :: l') → HSpec less l (.remove x) (some x) l'
  | update {l l' x less'} : l'.Perm l → HSpec less l (.update x less') none l'

/-- when an operation may be called: an item is pushed only when it is not stored, removed or updated only when it is
stored, and an update changes the order of one item only -/
def Legal (s : HState) : HOp → Prop
  | .push x => x ∉ s.heap.arr
  | .pop => True
  | .remove x => x ∈ s.heap.arr
  | .update x less' => x ∈ s.heap.arr ∧ SWO less' ∧ ∀ a b, a ≠ x → b ≠ x → less' a b = s.less a b

/-- every prefix of the calls is legal -/
def LegalRun : HState → List HOp → Prop
  | _, [] => True
  | s, op :: ops => Legal s op ∧ ∀ r, hstep s op = some r → LegalRun r.2 ops

/-- run a list of calls; `none` is a panic -/
def hrun (s : HState) : List HOp → Option HState
  | [] => some s
  | op :: ops => (hstep s op).bind fun r => hrun r.2 ops

/-- what holds between calls: order, positions -/
structure Good (s : HState) : Prop where
  swo : SWO s.less
  wf : WF s.heap
  heap : IsHeap s.less s.heap.arr

theorem hstep_good {s : HState} (g : Good s) {op} (hl : Legal s op) :
    ∃ r, hstep s op = some r ∧ Good r.2 ∧ HSpec s.less s.heap.arr op r.1 r.2.heap.arr := by
  cases op with
  | push x =>
    have := push_spec (less := s.less) s.heap x g.wf hl
    exact ⟨_, rfl, ⟨g.swo, this.1, push_isHeap g.swo _ _ g.heap⟩, .push this.2.1⟩
  | pop =>
    unfold hstep
    by_cases he : s.heap.arr = []
    · simp only [if_pos he]
      exact ⟨_, rfl, g, by rw [he]; exact .popEmpty⟩
    · simp only [if_neg he]
      obtain ⟨⟨x, h'⟩, hr⟩ := pop_some s.less s.heap he
      have sp := pop_spec s.heap x h' g.wf hr
      refine ⟨_, by rw [hr]; rfl, ⟨g.swo, sp.2.1, pop_isHeap g.swo _ _ _ hr g.heap⟩, .pop sp.2.2.1 ?_⟩
      intro y hy
      obtain ⟨c, hc, hcy⟩ := List.getElem_of_mem hy
      have hm := isHeap_root g.swo _ g.heap c hc
      unfold lessAt at hm
      rw [List.getElem?_eq_getElem hc, hcy, sp.1] at hm
      exact hm
  | remove x =>
    have hx : x ∈ s.heap.arr := hl
    obtain ⟨c, hc, hcx⟩ := List.getElem_of_mem hx
    have hi := g.wf.idx c x (by rw [List.getElem?_eq_getElem hc, hcx])
    obtain ⟨⟨y, h'⟩, hr⟩ := removeAt_some s.less s.heap c hc
    have sp := removeAt_spec s.heap (c : Int) y h' g.wf hr
    have hyx : y = x := by
      have := sp.1; simp only [Int.toNat_natCast] at this
      rw [List.getElem?_eq_getElem hc, hcx] at this; injection this with this; exact this.symm
    subst hyx
    unfold hstep
    refine ⟨_, by simp only; rw [hi, hr]; rfl, ⟨g.swo, sp.2.2.1, removeAt_isHeap g.swo _ _ _ _ hr g.heap⟩, .remove sp.2.2.2.1⟩
  | update x less' =>
    obtain ⟨hx, sw, hs⟩ := hl
    obtain ⟨c, hc, hcx⟩ := List.getElem_of_mem hx
    have hcx' : s.heap.arr[c]? = some x := by rw [List.getElem?_eq_getElem hc, hcx]
    have hi := g.wf.idx c x hcx'
    have hf : fix less' s.heap (c : Int) = some (settle less' s.heap c s.heap.arr.length) := by
      unfold fix; rw [if_neg (by omega), if_neg (by omega)]; rfl
    have ro := fix_reorder s.heap (c : Int) _ hf
    unfold hstep
    refine ⟨_, by simp only; rw [hi, hf]; rfl, ⟨sw, ro.wf g.wf, ?_⟩, .update ro.perm⟩
    exact fix_isHeap g.swo sw s.heap c _ x g.wf hcx' g.heap hs hf

/-- an empty heap -/
def hempty (less : Nat → Nat → Bool) : HState := { less := less, heap := { arr := [], idx := fun _ => -1 } }

theorem good_empty {less} (s : SWO less) : Good (hempty less) :=
  ⟨s, ⟨List.nodup_nil, by intro i a h; simp [hempty] at h⟩, by intro c hc hcn; simp [hempty] at hcn⟩

theorem hrun_good (ops : List HOp) : ∀ {s : HState}, Good s → LegalRun s ops → ∃ s', hrun s ops = some s' ∧ Good s' := by
  induction ops with
  | nil => intro s g _; exact ⟨s, rfl, g⟩
  | cons op ops ih =>
    intro s g hl
    obtain ⟨r, hr, gr, -⟩ := hstep_good g hl.1
    obtain ⟨s', hs', g'⟩ := ih gr (hl.2 r hr)
    exact ⟨s', by simp only [hrun, hr, Option.bind_some]; exact hs', g'⟩

/-- C13: after any legal sequence of calls on an initially empty heap, with any order: no call panics; the slice has no
repetition and every stored item records its exact position; and a further legal call does not panic and does what the
specification says - in particular `pop` takes out an item that no stored item precedes, and `remove` takes out the item
asked for. -/
theorem C13 (less : Nat → Nat → Bool) (sw : SWO less) (ops : List HOp) (op : HOp) (hl : LegalRun (hempty less) ops) :
    ∃ s, hrun (hempty less) ops = some s ∧ s.heap.arr.Nodup ∧
      (∀ (p x : Nat), s.heap.arr[p]? = some x → s.heap.idx x = (p : Int)) ∧
      (Legal s op → ∃ res s', hstep s op = some (res, s') ∧ HSpec s.less s.heap.arr op res s'.heap.arr) := by
  obtain ⟨s, hs, g⟩ := hrun_good ops (good_empty sw) hl
  refine ⟨s, hs, g.wf.nodup, g.wf.idx, fun h => ?_⟩
  obtain ⟨r, hr, -, sp⟩ := hstep_good g h
  exact ⟨r.1, r.2, hr, sp⟩

/-- pop `n` times -/
def popN (s : HState) : Nat → Option (List Nat × HState)
  | 0 => some ([], s)
  | n + 1 => (hstep s .pop).bind fun r => (popN r.2 n).map fun t => (r.1.toList ++ t.1, t.2)

/-- Sorting: popping everything gives a permutation of what was stored, in order. -/
theorem C13_sorted (less : Nat → Nat → Bool) (sw : SWO less) (ops : List HOp) (hl : LegalRun (hempty less) ops) :
    ∃ s, hrun (hempty less) ops = some s ∧ ∃ out s', popN s s.heap.arr.length = some (out, s') ∧
      out.Perm s.heap.arr ∧ out.Pairwise (fun a b => s.less b a = false) := by
  obtain ⟨s, hs, g⟩ := hrun_good ops (good_empty sw) hl
  refine ⟨s, hs, ?_⟩
  have key : ∀ n (s : HState), s.heap.arr.length = n → Good s → ∃ out s', popN s n = some (out, s') ∧ out.Perm s.heap.arr ∧
      out.Pairwise (fun a b => s.less b a = false) := by
    intro n
    induction n with
    | zero =>
      intro s hn _; refine ⟨[], s, rfl, ?_, List.Pairwise.nil⟩
      rw [List.eq_nil_of_length_eq_zero hn]
    | succ n ih =>
      intro s hn g
      obtain ⟨⟨res, s1⟩, hr, g1, sp⟩ := hstep_good (op := .pop) g trivial
      have hless : s1.less = s.less := by
        simp only [hstep] at hr; split at hr
        · injection hr with hr; rw [Prod.mk.injEq] at hr; rw [← hr.2]
        · obtain ⟨a, _, ha⟩ := Option.map_eq_some_iff.1 hr; rw [Prod.mk.injEq] at ha; rw [← ha.2]
      generalize ha : s.heap.arr = l at sp hn
      generalize ha1 : s1.heap.arr = l1 at sp
      simp only at sp ha1
      cases sp with
      | popEmpty => simp at hn
      | @pop _ _ x hp hmin =>
        have hlen : s1.heap.arr.length = n := by
          rw [ha1]; have := hp.length_eq; simp at this; omega
        obtain ⟨out, s2, h1, h2, h3⟩ := ih s1 hlen g1
        refine ⟨x :: out, s2, ?_, ?_, ?_⟩
        · simp only [popN, hr, Option.bind_some, h1, Option.map_some, Option.toList_some, List.singleton_append]
        · rw [ha1] at h2; exact (List.Perm.cons _ h2).trans hp.symm
        · rw [List.pairwise_cons]
          refine ⟨fun y hy => hmin y (hp.mem_iff.2 (List.mem_cons_of_mem _ ?_)), by rw [hless] at h3; exact h3⟩
          rw [ha1] at h2; exact h2.mem_iff.1 hy
  exact key _ s rfl g

/-- non-trivial instance: push 5, 3, 9, 1, 7; remove 3; pop everything -/
example : ((hrun (hempty fun a b => decide (a < b)) [.push 5, .push 3, .push 9, .push 1, .push 7, .remove 3]).bind
    fun s => (popN s 4).map (·.1)) = some [1, 5, 7, 9] := by decide +kernel

example : SWO (fun a b : Nat => decide (a < b)) := ⟨by simp; omega, by simp; omega⟩

end Verif.Heap
