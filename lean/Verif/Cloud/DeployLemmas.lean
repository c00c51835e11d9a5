import Verif.Cloud.Deploy
/-
Helpers for the properties of deploying: ids of resources, and what belongs to the deployment of a name.
-/
namespace Verif.Cloud.Deploy

/-- what a resource's id and name are -/
class Named (α : Type) where
  id : α → Nat
  name : α → Name

instance : Named Group := ⟨Group.id, Group.name⟩
instance : Named Net := ⟨Net.id, Net.name⟩
instance : Named Router := ⟨Router.id, Router.name⟩
instance : Named Srv := ⟨Srv.id, Srv.name⟩

section
variable {α : Type} [Named α]

/-- ids are below `nx`, and no two names have the same one -/
def Ids (nx : Nat) (l : List α) : Prop :=
  ∀ x ∈ l, Named.id x < nx ∧ ∀ y ∈ l, Named.id x = Named.id y → Named.name x = Named.name y

/-- the id can only be of something with the name -/
def OfName (nx : Nat) (l : List α) (n : Name) (i : Nat) : Prop := i < nx ∧ ∀ x ∈ l, Named.id x = i → Named.name x = n

def J (nx : Nat) (l : List α) (n : Name) (is : List Nat) : Prop := Ids nx l ∧ ∀ i ∈ is, OfName nx l n i

theorem J.mono {nx nx' : Nat} {l : List α} {n is is'} (h : J nx l n is) (hn : nx ≤ nx') (hs : ∀ i ∈ is', i ∈ is) : J nx' l n is' :=
  ⟨fun x hx => ⟨Nat.lt_of_lt_of_le (h.1 x hx).1 hn, (h.1 x hx).2⟩,
   fun i hi => ⟨Nat.lt_of_lt_of_le (h.2 i (hs i hi)).1 hn, (h.2 i (hs i hi)).2⟩⟩

theorem J.add {nx : Nat} {l : List α} {n is} (a : α) (h : J nx l n is) (ha : Named.id a = nx) (hn : Named.name a = n) :
    J (nx + 1) (l ++ [a]) n (nx :: is) := by
  have key : ∀ x ∈ l, Named.id x ≠ nx := fun x hx => Nat.ne_of_lt (h.1 x hx).1
  refine ⟨fun x hx => ⟨?_, fun y hy e => ?_⟩, fun i hi => ⟨?_, fun x hx e => ?_⟩⟩
  · rcases List.mem_append.1 hx with hx | hx
    · exact Nat.lt_succ_of_lt (h.1 x hx).1
    · simp at hx; subst hx; omega
  · rcases List.mem_append.1 hx with h1 | h1 <;> rcases List.mem_append.1 hy with h2 | h2
    · exact (h.1 x h1).2 y h2 e
    · simp at h2; subst h2; exact absurd (e.trans ha) (key x h1)
    · simp at h1; subst h1; exact absurd (e.symm.trans ha) (key y h2)
    · simp at h1 h2; rw [h1, h2]
  · rcases List.mem_cons.1 hi with rfl | hi
    · omega
    · exact Nat.lt_succ_of_lt (h.2 i hi).1
  · rcases List.mem_append.1 hx with hx | hx
    · rcases List.mem_cons.1 hi with rfl | hi
      · exact absurd e (key x hx)
      · exact (h.2 i hi).2 x hx e
    · simp at hx; subst hx; exact hn

theorem J.upd {nx : Nat} {l : List α} {n is} (f : α → α) (hi : ∀ x, Named.id (f x) = Named.id x)
    (hn : ∀ x, Named.name (f x) = Named.name x) (h : J nx l n is) : J nx (l.map f) n is := by
  refine ⟨fun x hx => ?_, fun i hm => ⟨(h.2 i hm).1, fun x hx e => ?_⟩⟩
  · obtain ⟨a, ha, rfl⟩ := List.mem_map.1 hx
    refine ⟨by rw [hi]; exact (h.1 a ha).1, fun y hy e => ?_⟩
    obtain ⟨b, hb, rfl⟩ := List.mem_map.1 hy
    rw [hn, hn]
    rw [hi, hi] at e
    exact (h.1 a ha).2 b hb e
  · obtain ⟨a, ha, rfl⟩ := List.mem_map.1 hx
    rw [hn]
    rw [hi] at e
    exact (h.2 i hm).2 a ha e

theorem J.filter {nx : Nat} {l : List α} {n is} (p : α → Bool) (h : J nx l n is) : J nx (l.filter p) n is :=
  ⟨fun x hx => ⟨(h.1 x (List.mem_filter.1 hx).1).1, fun y hy e =>
      (h.1 x (List.mem_filter.1 hx).1).2 y (List.mem_filter.1 hy).1 e⟩,
   fun i hi => ⟨(h.2 i hi).1, fun x hx e => (h.2 i hi).2 x (List.mem_filter.1 hx).1 e⟩⟩

/-- what has the name -/
def ours (n : Name) (l : List α) : List α := l.filter fun x => decide (Named.name x = n)

/-- what has another name -/
def theirs (n : Name) (l : List α) : List α := l.filter fun x => decide (Named.name x ≠ n)

theorem theirs_add (n : Name) (l : List α) (a : α) (h : Named.name a = n) : theirs n (l ++ [a]) = theirs n l := by
  simp [theirs, h]

theorem ours_add (n : Name) (l : List α) (a : α) (h : Named.name a = n) : ours n (l ++ [a]) = ours n l ++ [a] := by
  simp [ours, h]

theorem theirs_upd {nx : Nat} {is} (n : Name) (l : List α) (f : α → α) (i : Nat) (h : J nx l n is) (hi : i ∈ is)
    (hf : ∀ x, Named.id x ≠ i → f x = x) (hn : ∀ x, Named.name (f x) = Named.name x) : theirs n (l.map f) = theirs n l := by
  have hs := (h.2 i hi).2
  clear h hi
  induction l with
  | nil => rfl
  | cons a l ih =>
    have ih := ih fun x hx => hs x (List.mem_cons_of_mem _ hx)
    simp only [theirs, List.map_cons, List.filter_cons, hn] at ih ⊢
    by_cases ha : Named.name a = n
    · simp only [ha, ne_eq, not_true, decide_false]
      simpa using ih
    · have : f a = a := hf a fun e => ha (hs a (List.mem_cons_self ..) e)
      rw [this, ih]

theorem ours_upd (n : Name) (l : List α) (f : α → α) (hn : ∀ x, Named.name (f x) = Named.name x) :
    ours n (l.map f) = (ours n l).map f := by
  induction l with
  | nil => rfl
  | cons a l ih =>
    simp only [ours, List.map_cons, List.filter_cons, hn] at ih ⊢
    by_cases ha : Named.name a = n <;> simp [ha, ih]

theorem theirs_del {nx : Nat} {is} (n : Name) (l : List α) (i : Nat) (h : J nx l n is) (hi : i ∈ is) :
    theirs n (l.filter fun x => decide (Named.id x ≠ i)) = theirs n l := by
  have hs := (h.2 i hi).2
  simp only [theirs, List.filter_filter]
  refine List.filter_congr fun x hx => ?_
  by_cases e : Named.id x = i
  · simp [hs x hx e]
  · simp [e]

theorem ours_del (n : Name) (l : List α) (i : Nat) :
    ours n (l.filter fun x => decide (Named.id x ≠ i)) = (ours n l).filter fun x => decide (Named.id x ≠ i) := by
  simp only [ours, List.filter_filter]
  refine List.filter_congr fun x _ => ?_
  rw [Bool.and_comm]

theorem mem_ours {n : Name} {l : List α} {x : α} : x ∈ ours n l ↔ x ∈ l ∧ Named.name x = n := by simp [ours]

end

theorem pick_none {n : Name} {d g l} (h : pick n d g l = none) : g = none ∧ ours n l = [] := by
  induction l generalizing d g with
  | nil => exact ⟨h, rfl⟩
  | cons x xs ih =>
    simp only [pick] at h
    by_cases hx : x.name = n
    · rw [if_pos hx] at h
      split at h
      · simp at h
      · split at h
        · simp at h
        · exact absurd (ih h).1 (by simp)
    · rw [if_neg hx] at h
      have hc : ours n (x :: xs) = ours n xs := by
        simp [ours, List.filter_cons, Named.name, hx]
      split at h
      · split at h
        · rename_i hg
          rw [h] at hg
          simp at hg
        · rw [hc]; exact ih h
      · rw [hc]; exact ih h

theorem pick_some {n : Name} {d g l i} (h : pick n d g l = some i) : g = some i ∨ ∃ x ∈ ours n l, x.id = i := by
  induction l generalizing d g with
  | nil => exact .inl h
  | cons x xs ih =>
    have up : (∃ y ∈ ours n xs, y.id = i) → ∃ y ∈ ours n (x :: xs), y.id = i := fun ⟨y, hy, e⟩ =>
      ⟨y, mem_ours.2 ⟨List.mem_cons_of_mem _ (mem_ours.1 hy).1, (mem_ours.1 hy).2⟩, e⟩
    simp only [pick] at h
    by_cases hx : x.name = n
    · have me : some x.id = some i → ∃ y ∈ ours n (x :: xs), y.id = i := fun e =>
        ⟨x, mem_ours.2 ⟨List.mem_cons_self .., hx⟩, by simpa using e⟩
      rw [if_pos hx] at h
      split at h
      · exact .inr (me h)
      · split at h
        · exact .inr (me h)
        · exact .inr ((ih h).elim me up)
    · rw [if_neg hx] at h
      split at h
      · split at h
        · exact .inl h
        · exact (ih h).imp id up
      · exact (ih h).imp id up

/-- the list of groups has one of the name: that is the one found -/
theorem pick_one {n : Name} {l : List Group} {x} (h : ours n l = [x]) : pick n false none l = some x.id := by
  cases hp : pick n false none l with
  | none => rw [(pick_none hp).2] at h; simp at h
  | some i =>
    rcases pick_some hp with hg | ⟨y, hy, e⟩
    · simp at hg
    · rw [h] at hy; simp at hy; rw [← e, hy]

theorem pick_nil {n : Name} {l : List Group} (h : ours n l = []) : pick n false none l = none := by
  cases hp : pick n false none l with
  | none => rfl
  | some i =>
    rcases pick_some hp with hg | ⟨y, hy, _⟩
    · simp at hg
    · rw [h] at hy; simp at hy

theorem subsOf_one {w : World} {n : Name} {is x} (hj : J w.next w.nets n is) (h : ours n w.nets = [x]) : subsOf w x.id = x.subs := by
  have hx : x ∈ w.nets := (mem_ours.1 (by rw [h]; simp : x ∈ ours n w.nets)).1
  have hn : x.name = n := (mem_ours.1 (by rw [h]; simp : x ∈ ours n w.nets)).2
  unfold subsOf
  cases hf : w.nets.find? fun y => decide (y.id = x.id) with
  | none =>
    have := List.find?_eq_none.1 hf x hx
    simp at this
  | some y =>
    have hy := List.mem_of_find?_eq_some hf
    have he := List.find?_some hf
    simp at he
    have : y.name = n := by rw [← hn]; exact (hj.1 y hy).2 x hx he
    have : y ∈ ours n w.nets := mem_ours.2 ⟨hy, this⟩
    rw [h] at this
    simp at this
    subst this
    rfl

theorem find_one {n : Name} {l : List Router} {x} (h : ours n l = [x]) : (l.find? fun y => decide (y.name = n)) = some x := by
  have h' : (l.filter fun y => decide (y.name = n)) = [x] := h
  rw [← List.head?_filter, h']
  rfl

theorem find_nil {n : Name} {l : List Router} (h : ours n l = []) : (l.find? fun y => decide (y.name = n)) = none := by
  have h' : (l.filter fun y => decide (y.name = n)) = [] := h
  rw [← List.head?_filter, h']
  rfl

/-- what a file says -/
def File.res : File → Res
  | .saved r => r
  | _ => {}

def pcG : Pc → List Nat
  | .rules g _ => [g]
  | _ => []

def pcN : Pc → List Nat
  | .subnet n => [n]
  | _ => []

def pcR : Pc → List Nat
  | .iface r => [r]
  | .unroute r => [r]
  | _ => []

@[simp] theorem pcG_off : pcG .off = [] := rfl
@[simp] theorem pcG_idle : pcG .idle = [] := rfl
@[simp] theorem pcG_key : pcG .key = [] := rfl
@[simp] theorem pcG_group : pcG .group = [] := rfl
@[simp] theorem pcG_hostNet : pcG .hostNet = [] := rfl
@[simp] theorem pcG_net : pcG .net = [] := rfl
@[simp] theorem pcG_router : pcG .router = [] := rfl
@[simp] theorem pcG_trunc : pcG .trunc = [] := rfl
@[simp] theorem pcG_write : pcG .write = [] := rfl
@[simp] theorem pcG_know : pcG .know = [] := rfl
@[simp] theorem pcG_tList : pcG .tList = [] := rfl
@[simp] theorem pcG_tRouter : pcG .tRouter = [] := rfl
@[simp] theorem pcG_tNet : pcG .tNet = [] := rfl
@[simp] theorem pcG_tGroup : pcG .tGroup = [] := rfl
@[simp] theorem pcG_tKey : pcG .tKey = [] := rfl
@[simp] theorem pcG_tFile : pcG .tFile = [] := rfl
@[simp] theorem pcG_rules {g l} : pcG (.rules g l) = [g] := rfl
@[simp] theorem pcG_subnet {n} : pcG (.subnet n) = [] := rfl
@[simp] theorem pcG_iface {r} : pcG (.iface r) = [] := rfl
@[simp] theorem pcG_unroute {r} : pcG (.unroute r) = [] := rfl
@[simp] theorem pcG_tSrv {l} : pcG (.tSrv l) = [] := rfl
@[simp] theorem pcG_tIface {k} : pcG (.tIface k) = [] := rfl
@[simp] theorem pcN_off : pcN .off = [] := rfl
@[simp] theorem pcN_idle : pcN .idle = [] := rfl
@[simp] theorem pcN_key : pcN .key = [] := rfl
@[simp] theorem pcN_group : pcN .group = [] := rfl
@[simp] theorem pcN_hostNet : pcN .hostNet = [] := rfl
@[simp] theorem pcN_net : pcN .net = [] := rfl
@[simp] theorem pcN_router : pcN .router = [] := rfl
@[simp] theorem pcN_trunc : pcN .trunc = [] := rfl
@[simp] theorem pcN_write : pcN .write = [] := rfl
@[simp] theorem pcN_know : pcN .know = [] := rfl
@[simp] theorem pcN_tList : pcN .tList = [] := rfl
@[simp] theorem pcN_tRouter : pcN .tRouter = [] := rfl
@[simp] theorem pcN_tNet : pcN .tNet = [] := rfl
@[simp] theorem pcN_tGroup : pcN .tGroup = [] := rfl
@[simp] theorem pcN_tKey : pcN .tKey = [] := rfl
@[simp] theorem pcN_tFile : pcN .tFile = [] := rfl
@[simp] theorem pcN_rules {g l} : pcN (.rules g l) = [] := rfl
@[simp] theorem pcN_subnet {n} : pcN (.subnet n) = [n] := rfl
@[simp] theorem pcN_iface {r} : pcN (.iface r) = [] := rfl
@[simp] theorem pcN_unroute {r} : pcN (.unroute r) = [] := rfl
@[simp] theorem pcN_tSrv {l} : pcN (.tSrv l) = [] := rfl
@[simp] theorem pcN_tIface {k} : pcN (.tIface k) = [] := rfl
@[simp] theorem pcR_off : pcR .off = [] := rfl
@[simp] theorem pcR_idle : pcR .idle = [] := rfl
@[simp] theorem pcR_key : pcR .key = [] := rfl
@[simp] theorem pcR_group : pcR .group = [] := rfl
@[simp] theorem pcR_hostNet : pcR .hostNet = [] := rfl
@[simp] theorem pcR_net : pcR .net = [] := rfl
@[simp] theorem pcR_router : pcR .router = [] := rfl
@[simp] theorem pcR_trunc : pcR .trunc = [] := rfl
@[simp] theorem pcR_write : pcR .write = [] := rfl
@[simp] theorem pcR_know : pcR .know = [] := rfl
@[simp] theorem pcR_tList : pcR .tList = [] := rfl
@[simp] theorem pcR_tRouter : pcR .tRouter = [] := rfl
@[simp] theorem pcR_tNet : pcR .tNet = [] := rfl
@[simp] theorem pcR_tGroup : pcR .tGroup = [] := rfl
@[simp] theorem pcR_tKey : pcR .tKey = [] := rfl
@[simp] theorem pcR_tFile : pcR .tFile = [] := rfl
@[simp] theorem pcR_rules {g l} : pcR (.rules g l) = [] := rfl
@[simp] theorem pcR_subnet {n} : pcR (.subnet n) = [] := rfl
@[simp] theorem pcR_iface {r} : pcR (.iface r) = [r] := rfl
@[simp] theorem pcR_unroute {r} : pcR (.unroute r) = [r] := rfl
@[simp] theorem pcR_tSrv {l} : pcR (.tSrv l) = [] := rfl
@[simp] theorem pcR_tIface {k} : pcR (.tIface k) = [] := rfl
@[simp] theorem res_absent : File.res .absent = {} := rfl
@[simp] theorem res_torn : File.res .torn = {} := rfl
@[simp] theorem res_saved {r} : File.res (.saved r) = r := rfl

/-- the ids the process or its file knows, or is about to use -/
def gIds (s : S) : List Nat := s.m.group.toList ++ s.disk.res.group.toList ++ pcG s.pc

def nIds (s : S) : List Nat := s.m.net.toList ++ s.disk.res.net.toList ++ pcN s.pc

def rIds (s : S) : List Nat := s.m.router.toList ++ s.disk.res.router.toList ++ pcR s.pc

theorem mem_gIds {s : S} {i : Nat} : i ∈ gIds s ↔ s.m.group = some i ∨ s.disk.res.group = some i ∨ i ∈ pcG s.pc := by
  simp [gIds, or_assoc]

theorem mem_nIds {s : S} {i : Nat} : i ∈ nIds s ↔ s.m.net = some i ∨ s.disk.res.net = some i ∨ i ∈ pcN s.pc := by
  simp [nIds, or_assoc]

theorem mem_rIds {s : S} {i : Nat} : i ∈ rIds s ↔ s.m.router = some i ∨ s.disk.res.router = some i ∨ i ∈ pcR s.pc := by
  simp [rIds, or_assoc]

theorem afterGroup_cases (c : Cfg) : afterGroup c = .net ∧ c.own = [] ∨ afterGroup c = .hostNet ∧ c.own ≠ [] := by
  unfold afterGroup
  split
  · exact .inl ⟨rfl, by assumption⟩
  · exact .inr ⟨rfl, by assumption⟩

theorem afterServers_cases (c : Cfg) (l : List Nat) :
    afterServers c l = .tSrv l ∧ l ≠ [] ∨ afterServers c l = .tIface 0 ∧ c.own = [] ∧ l = [] ∨
    afterServers c l = .tKey ∧ c.own ≠ [] ∧ l = [] := by
  unfold afterServers
  split
  · exact .inl ⟨rfl, by assumption⟩
  · rename_i h
    simp only [ne_eq, Classical.not_not] at h
    split
    · exact .inr (.inl ⟨rfl, by assumption, h⟩)
    · exact .inr (.inr ⟨rfl, by assumption, h⟩)

@[simp] theorem pcG_afterGroup (c : Cfg) : pcG (afterGroup c) = [] := by rcases afterGroup_cases c with h | h <;> rw [h.1] <;> rfl
@[simp] theorem pcN_afterGroup (c : Cfg) : pcN (afterGroup c) = [] := by rcases afterGroup_cases c with h | h <;> rw [h.1] <;> rfl
@[simp] theorem pcR_afterGroup (c : Cfg) : pcR (afterGroup c) = [] := by rcases afterGroup_cases c with h | h <;> rw [h.1] <;> rfl
@[simp] theorem pcG_afterServers (c : Cfg) (l) : pcG (afterServers c l) = [] := by
  rcases afterServers_cases c l with h | h | h <;> rw [h.1] <;> rfl
@[simp] theorem pcN_afterServers (c : Cfg) (l) : pcN (afterServers c l) = [] := by
  rcases afterServers_cases c l with h | h | h <;> rw [h.1] <;> rfl
@[simp] theorem pcR_afterServers (c : Cfg) (l) : pcR (afterServers c l) = [] := by
  rcases afterServers_cases c l with h | h | h <;> rw [h.1] <;> rfl

theorem run_append (c : Cfg) (s : S) (a b : List Ev) : run c s (a ++ b) = (run c s a).bind fun t => run c t b := by
  induction a generalizing s with
  | nil => rfl
  | cons e a ih =>
    simp only [List.cons_append, run]
    cases step c s e with
    | none => rfl
    | some u => simpa using ih u

theorem run_inv (c : Cfg) (I : S → Prop) (h : ∀ s e t, I s → step c s e = some t → I t) {s : S} {es : List Ev} {t : S} (hi : I s)
    (hr : run c s es = some t) : I t := by
  induction es generalizing s with
  | nil => simp only [run, Option.some.injEq] at hr; exact hr ▸ hi
  | cons e es ih =>
    simp only [run] at hr
    cases hs : step c s e with
    | none => rw [hs] at hr; simp at hr
    | some u => rw [hs] at hr; exact ih (h s e u hi hs) hr

end Verif.Cloud.Deploy
