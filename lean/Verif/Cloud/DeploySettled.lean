import Verif.Cloud.DeployPhase
/-
Helpers for the properties of deploying: if the last Deploy() that was asked for worked, the process and its file know everything that has
the name, and tearing down finds it.
-/
namespace Verif.Cloud.Deploy

/-- of a history: the last Deploy() that was begun, if any, reported success -/
def settled (log : List Said) : Bool :=
  log.foldl (fun b x => match x with | .deploying => false | .deployed => true | _ => b) true

theorem settled_add (log : List Said) (x : Said) :
    settled (log ++ [x]) = (match x with | .deploying => false | .deployed => true | _ => settled log) := by
  simp only [settled, List.foldl_append, List.foldl_cons, List.foldl_nil]

/-- nothing in the cloud has the name, except servers -/
structure Clean (n : Name) (w : World) : Prop where
  key : ∀ x ∈ w.keys, x.name ≠ n
  group : ∀ x ∈ w.groups, x.name ≠ n
  net : ∀ x ∈ w.nets, x.name ≠ n
  router : ∀ x ∈ w.routers, x.name ≠ n

theorem ours_nil {α : Type} [Named α] {n : Name} {l : List α} : ours n l = [] ↔ ∀ x ∈ l, Named.name x ≠ n := by
  simp [ours, List.filter_eq_nil_iff]

structure Knows (c : Cfg) (w : World) (r : Res) : Prop where
  key : ∀ x ∈ w.keys, x.name = c.name → r.keypair = some c.name
  group : ∀ x ∈ ours c.name w.groups, r.group = some x.id
  net : ∀ x ∈ ours c.name w.nets, r.net = some x.id
  router : ∀ x ∈ ours c.name w.routers, r.router = some x.id

theorem knows_done {c : Cfg} {w : World} {m : Res} (hu : Uniq c w) (ho : c.own = []) (h : Done c w m) : Knows c w m := by
  obtain ⟨hk, hg, hr⟩ := h
  obtain ⟨⟨x, sub, hx, hxm, _⟩, y, hy, hym⟩ := hr ho
  refine ⟨fun _ _ _ => hk.2, fun z hz => ?_, fun z hz => ?_, fun z hz => ?_⟩
  · rcases hg with hg | ⟨v, hv, hvm⟩
    · rw [hu.no hg] at hz; simp at hz
    · rw [hv] at hz; simp at hz; subst hz; exact hvm
  · rw [hx] at hz; simp at hz; subst hz; exact hxm
  · rw [hy] at hz; simp at hz; subst hz; exact hym

structure Kd (c : Cfg) (s : S) : Prop where
  k : Knows c s.w s.disk.res
  torn : s.disk ≠ .torn

/-- how far tearing down has come -/
def St (c : Cfg) (s : S) : Prop :=
  match s.pc with
  | .off => Kd c s ∧ s.log.getLast? ≠ some .tore ∧ s.log.getLast? ≠ some .nothing
  | .idle => Knows c s.w s.m ∧ Kd c s ∧ (s.log.getLast? = some .tore → s.disk = .absent) ∧
      (s.log.getLast? = some .tore ∨ s.log.getLast? = some .nothing → Clean c.name s.w)
  | .tList => Knows c s.w s.m ∧ Kd c s
  | .tSrv _ => Knows c s.w s.m ∧ Kd c s
  | .tIface _ => Knows c s.w s.m ∧ Kd c s
  | .tRouter => Knows c s.w s.m ∧ Kd c s
  | .tNet => Knows c s.w s.m ∧ Kd c s ∧ (s.merr = false → ours c.name s.w.routers = [])
  | .tGroup => Knows c s.w s.m ∧ Kd c s ∧ (s.merr = false → ours c.name s.w.routers = [] ∧ ours c.name s.w.nets = [])
  | .tKey => Knows c s.w s.m ∧ Kd c s ∧
      (s.merr = false → ours c.name s.w.routers = [] ∧ ours c.name s.w.nets = [] ∧ ours c.name s.w.groups = [])
  | .tFile => Knows c s.w s.m ∧ Kd c s ∧ Clean c.name s.w
  | _ => False

def PK (r : Res) : Prop := r.keypair = none → r.pk = none

structure Sv (c : Cfg) (s : S) : Prop where
  st : settled s.log = true → St c s
  pm : PK s.m
  pd : PK s.disk.res

theorem knows_del {c : Cfg} {w w' : World} {r : Res} (h : Knows c w r) (hk : ∀ x ∈ w'.keys, x ∈ w.keys)
    (hg : ∀ x ∈ ours c.name w'.groups, ∃ y ∈ ours c.name w.groups, y.id = x.id)
    (hn : ∀ x ∈ ours c.name w'.nets, ∃ y ∈ ours c.name w.nets, y.id = x.id)
    (hr : ∀ x ∈ ours c.name w'.routers, ∃ y ∈ ours c.name w.routers, y.id = x.id) : Knows c w' r :=
  ⟨fun x hx => h.key x (hk x hx), fun x hx => by obtain ⟨y, hy, e⟩ := hg x hx; rw [← e]; exact h.group y hy,
   fun x hx => by obtain ⟨y, hy, e⟩ := hn x hx; rw [← e]; exact h.net y hy,
   fun x hx => by obtain ⟨y, hy, e⟩ := hr x hx; rw [← e]; exact h.router y hy⟩

theorem sub_same {α : Type} {l : List α} {f : α → Nat} : ∀ x ∈ l, ∃ y ∈ l, f y = f x := fun x hx => ⟨x, hx, rfl⟩

theorem clean_of {c : Cfg} {w : World} (hk : ∀ x ∈ w.keys, x.name ≠ c.name) (hg : ours c.name w.groups = []) (hn : ours c.name w.nets = [])
    (hr : ours c.name w.routers = []) : Clean c.name w :=
  ⟨hk, ours_nil.1 hg, ours_nil.1 hn, ours_nil.1 hr⟩

/-- deletion of what is known leaves none -/
theorem del_all {α : Type} [Named α] {n : Name} {l : List α} {i : Nat} (h : ∀ x ∈ ours n l, Named.id x = i) :
    ours n (l.filter fun x => decide (Named.id x ≠ i)) = [] := by
  rw [ours_del]
  apply List.filter_eq_nil_iff.2
  intro x hx
  simp [h x hx]

theorem del_sub {α : Type} [Named α] {n : Name} {l : List α} {i : Nat} :
    ∀ x ∈ ours n (l.filter fun x => decide (Named.id x ≠ i)), ∃ y ∈ ours n l, Named.id y = Named.id x := by
  intro x hx
  rw [ours_del] at hx
  exact ⟨x, (List.mem_filter.1 hx).1, rfl⟩

theorem finish_sv {c : Cfg} {s : S} (hs : settled s.log = true → Knows c s.w s.m ∧ Kd c s ∧ (s.merr = false → Clean c.name s.w))
    (hpk : s.m.pk = none) (hm : PK s.m) (hd : PK s.disk.res) : Sv c (finish s) := by
  unfold finish
  split
  · refine ⟨fun e => ?_, hm, hd⟩
    rw [settled_add] at e
    obtain ⟨a, b, _⟩ := hs e
    simp only [St]
    exact ⟨a, ⟨b.k, b.torn⟩, by simp, by simp⟩
  · rename_i hmerr
    simp only [Bool.not_eq_true] at hmerr
    split
    · refine ⟨fun e => ?_, hm, hd⟩
      rw [settled_add] at e
      obtain ⟨a, b, d⟩ := hs e
      simp only [St]
      exact ⟨a, ⟨b.k, b.torn⟩, by simp, fun _ => d hmerr⟩
    · refine ⟨fun e => ?_, hm, hd⟩
      obtain ⟨a, b, d⟩ := hs e
      simp only [St]
      exact ⟨a, ⟨b.k, b.torn⟩, d hmerr⟩

theorem unsettled {c : Cfg} {s : S} (h : settled s.log = false) (hm : PK s.m) (hd : PK s.disk.res) : Sv c s :=
  ⟨fun e => by rw [h] at e; simp at e, hm, hd⟩

theorem settled_failed {s : S} : settled (failed s).log = settled s.log := by
  simp only [failed, settled_add]

theorem sv_next {c : Cfg} {s t : S} {o : Out} (ho : c.own = []) (hi : Inv c s) (h : Sv c s) (hn : next c s o = some t) : Sv c t := by
  have un : (∀ x, St c x → x.pc = s.pc → False) → settled s.log = false := by
    intro hf
    cases e : settled s.log with
    | false => rfl
    | true => exact (hf s (h.st e) rfl).elim
  have hm := h.pm
  have hd := h.pd
  unfold next at hn
  split at hn <;> rename_i hp <;> simp only [Option.some.injEq, reduceCtorEq] at hn
  all_goals subst hn
  · have hu : settled s.log = false := un fun x hx e => by simp [St, e, hp] at hx
    unfold doKey
    by_cases ha : s.w.keys.any (fun k => decide (k.name = c.name))
    · rw [if_pos ha]
      cases o
      · exact unsettled hu (fun e => by simp at e) hd
      · exact unsettled (by rw [← hu]; exact settled_failed) hm hd
      · exact unsettled (by rw [← hu]; exact settled_failed) hm hd
    · rw [if_neg ha]
      cases o
      · exact unsettled hu (fun e => by simp at e) hd
      · exact unsettled (by rw [← hu]; exact settled_failed) hm hd
      · exact unsettled (by rw [← hu]; exact settled_failed) hm hd
  · have hu : settled s.log = false := un fun x hx e => by simp [St, e, hp] at hx
    have hf : ∀ x : S, x.log = s.log → settled (failed x).log = false := fun x e => by rw [settled_failed, e, hu]
    unfold doGroup
    split
    · split
      · exact unsettled hu hm hd
      · exact unsettled (hf _ rfl) hm hd
    · cases o
      · exact unsettled hu hm hd
      · exact unsettled (hf _ rfl) hm hd
      · exact unsettled (hf _ rfl) hm hd
  · have hu : settled s.log = false := un fun x hx e => by simp [St, e, hp] at hx
    have hf : ∀ x : S, x.log = s.log → settled (failed x).log = false := fun x e => by rw [settled_failed, e, hu]
    unfold doRule
    cases o
    · dsimp only
      split <;> exact unsettled hu hm hd
    · exact unsettled (hf _ rfl) hm hd
    · exact unsettled (hf _ rfl) hm hd
  · have hu : settled s.log = false := un fun x hx e => by simp [St, e, hp] at hx
    have hf : ∀ x : S, x.log = s.log → settled (failed x).log = false := fun x e => by rw [settled_failed, e, hu]
    split
    · exact unsettled hu hm hd
    · exact unsettled (hf _ rfl) hm hd
  · have hu : settled s.log = false := un fun x hx e => by simp [St, e, hp] at hx
    have hf : ∀ x : S, x.log = s.log → settled (failed x).log = false := fun x e => by rw [settled_failed, e, hu]
    unfold doNet
    split
    · cases o
      · exact unsettled hu hm hd
      · exact unsettled (hf _ rfl) hm hd
      · exact unsettled (hf _ rfl) hm hd
    · split
      · exact unsettled hu hm hd
      · exact unsettled (hf _ rfl) hm hd
    · exact unsettled (hf _ rfl) hm hd
  · have hu : settled s.log = false := un fun x hx e => by simp [St, e, hp] at hx
    have hf : ∀ x : S, x.log = s.log → settled (failed x).log = false := fun x e => by rw [settled_failed, e, hu]
    unfold doSubnet
    split
    · exact unsettled hu hm hd
    · cases o
      · exact unsettled hu hm hd
      · exact unsettled (hf _ rfl) hm hd
      · exact unsettled (hf _ rfl) hm hd
  · have hu : settled s.log = false := un fun x hx e => by simp [St, e, hp] at hx
    have hf : ∀ x : S, x.log = s.log → settled (failed x).log = false := fun x e => by rw [settled_failed, e, hu]
    unfold doRouter
    split
    · split
      · exact unsettled hu hm hd
      · exact unsettled (hf _ rfl) hm hd
    · cases o
      · exact unsettled hu hm hd
      · exact unsettled (hf _ rfl) hm hd
      · exact unsettled (hf _ rfl) hm hd
  · have hu : settled s.log = false := un fun x hx e => by simp [St, e, hp] at hx
    unfold doIface
    cases o <;> exact unsettled hu hm hd
  · have hu : settled s.log = false := un fun x hx e => by simp [St, e, hp] at hx
    have hf : ∀ x : S, x.log = s.log → settled (failed x).log = false := fun x e => by rw [settled_failed, e, hu]
    unfold doUnroute
    cases o <;> exact unsettled (hf _ rfl) hm hd
  · have hu : settled s.log = false := un fun x hx e => by simp [St, e, hp] at hx
    have hf : ∀ x : S, x.log = s.log → settled (failed x).log = false := fun x e => by rw [settled_failed, e, hu]
    split
    · exact unsettled hu hm (fun _ => rfl)
    · exact unsettled (hf _ rfl) hm hd
  · have hu : settled s.log = false := un fun x hx e => by simp [St, e, hp] at hx
    have hf : ∀ x : S, x.log = s.log → settled (failed x).log = false := fun x e => by rw [settled_failed, e, hu]
    split
    · exact unsettled hu hm hm
    · exact unsettled (hf _ rfl) hm hd
  · have hu : settled s.log = false := un fun x hx e => by simp [St, e, hp] at hx
    have hf : ∀ x : S, x.log = s.log → settled (failed x).log = false := fun x e => by rw [settled_failed, e, hu]
    split
    · refine ⟨fun _ => ?_, hm, hd⟩
      have hd := hi.p
      simp only [Ph, hp] at hd
      have hk := knows_done hi.u ho hd.1
      simp only [St]
      exact ⟨hk, ⟨by simp only [hd.2, res_saved]; exact hk, by simp [hd.2]⟩, by simp, by simp⟩
    · exact unsettled (hf _ rfl) hm hd
  · have hs := h.st
    simp only [St, hp] at hs
    have hq : ∀ (t : S) (l : List Nat), t.pc = afterServers c l → Knows c t.w t.m ∧ Kd c t → St c t := by
      intro t l e hk
      rcases afterServers_cases c l with a | a | a
      · rw [a.1] at e; simp only [St, e]; exact hk
      · rw [a.1] at e; simp only [St, e]; exact hk
      · exact absurd ho a.2.1
    unfold doList
    cases o
    · exact ⟨fun e => hq _ _ rfl ⟨(hs e).1, ⟨(hs e).2.k, (hs e).2.torn⟩⟩, hm, hd⟩
    · exact ⟨fun e => hq _ [] rfl ⟨(hs e).1, ⟨(hs e).2.k, (hs e).2.torn⟩⟩, hm, hd⟩
    · exact ⟨fun e => hq _ [] rfl ⟨(hs e).1, ⟨(hs e).2.k, (hs e).2.torn⟩⟩, hm, hd⟩
  · have hs := h.st
    simp only [St, hp] at hs
    have hq : ∀ (t : S) (l : List Nat), t.pc = afterServers c l → Knows c t.w t.m ∧ Kd c t → St c t := by
      intro t l e hk
      rcases afterServers_cases c l with a | a | a
      · rw [a.1] at e; simp only [St, e]; exact hk
      · rw [a.1] at e; simp only [St, e]; exact hk
      · exact absurd ho a.2.1
    refine ⟨fun e => hq _ _ rfl ?_, hm, hd⟩
    have hs := hs e
    unfold doSrv
    split
    · exact ⟨hs.1, ⟨hs.2.k, hs.2.torn⟩⟩
    · exact ⟨⟨hs.1.key, hs.1.group, hs.1.net, hs.1.router⟩, ⟨⟨hs.2.k.key, hs.2.k.group, hs.2.k.net, hs.2.k.router⟩, hs.2.torn⟩⟩
  · have hs := h.st
    simp only [St, hp] at hs
    unfold doTIface
    split
    · rename_i hr
      refine ⟨fun e => ?_, hm, hd⟩
      simp only [St]
      refine ⟨(hs e).1, ⟨(hs e).2.k, (hs e).2.torn⟩, fun _ => ?_⟩
      cases hl : ours c.name s.w.routers with
      | nil => rfl
      | cons x l =>
        have := (hs e).1.router x (by rw [hl]; simp)
        rw [hr] at this
        simp at this
    · refine ⟨fun e => ?_, hm, hd⟩
      simp only [St]
      exact ⟨(hs e).1, ⟨(hs e).2.k, (hs e).2.torn⟩⟩
    · rename_i r sub _ _
      have hw : ∀ q, Knows c s.w q → Knows c { s.w with routers := delIface r sub s.w.routers } q := by
        intro q hq
        refine knows_del hq (fun _ h => h) sub_same sub_same fun x hx => ?_
        dsimp only at hx
        rw [ours_delIface] at hx
        obtain ⟨y, hy, rfl⟩ := List.mem_map.1 hx
        exact ⟨y, hy, by split <;> rfl⟩
      have hkd : Kd c s → ∀ t : S, t.w = { s.w with routers := delIface r sub s.w.routers } → t.disk = s.disk → Kd c t := by
        intro hk t e e'
        exact ⟨by rw [e, e']; exact hw _ hk.k, by rw [e']; exact hk.torn⟩
      split
      · refine ⟨fun e => ?_, hm, hd⟩
        simp only [St]
        exact ⟨hw _ (hs e).1, hkd (hs e).2 _ rfl rfl⟩
      · dsimp only
        by_cases hl : o = .lost
        · simp only [hl, if_true]
          split
          · refine ⟨fun e => ?_, hm, hd⟩
            simp only [St]
            exact ⟨hw _ (hs e).1, hkd (hs e).2 _ rfl rfl⟩
          · refine ⟨fun e => ?_, hm, hd⟩
            simp only [St]
            exact ⟨hw _ (hs e).1, hkd (hs e).2 _ rfl rfl⟩
        · simp only [hl, if_false]
          split
          · refine ⟨fun e => ?_, hm, hd⟩
            simp only [St]
            exact ⟨(hs e).1, ⟨(hs e).2.k, (hs e).2.torn⟩⟩
          · refine ⟨fun e => ?_, hm, hd⟩
            simp only [St]
            exact ⟨(hs e).1, ⟨(hs e).2.k, (hs e).2.torn⟩⟩
  · have hs := h.st
    simp only [St, hp] at hs
    unfold doTRouter
    split
    · rename_i hr
      refine ⟨fun e => ?_, hm, hd⟩
      simp only [St]
      refine ⟨(hs e).1, ⟨(hs e).2.k, (hs e).2.torn⟩, fun _ => ?_⟩
      cases hl : ours c.name s.w.routers with
      | nil => rfl
      | cons x l =>
        have := (hs e).1.router x (by rw [hl]; simp)
        rw [hr] at this
        simp at this
    · rename_i r hr
      have hw : ∀ q, Knows c s.w q → Knows c { s.w with routers := s.w.routers.filter fun x => decide (x.id ≠ r) } q :=
        fun q hq => knows_del hq (fun _ h => h) sub_same sub_same del_sub
      cases o
      · refine ⟨fun e => ?_, hm, hd⟩
        simp only [St]
        refine ⟨hw _ (hs e).1, ⟨hw _ (hs e).2.k, (hs e).2.torn⟩, fun _ => del_all (i := r) fun x hx => ?_⟩
        have := (hs e).1.router x hx
        rw [hr] at this
        exact (Option.some.inj this).symm
      · refine ⟨fun e => ?_, hm, hd⟩
        simp only [St]
        exact ⟨(hs e).1, ⟨(hs e).2.k, (hs e).2.torn⟩, fun e => by simp at e⟩
      · refine ⟨fun e => ?_, hm, hd⟩
        simp only [St]
        exact ⟨hw _ (hs e).1, ⟨hw _ (hs e).2.k, (hs e).2.torn⟩, fun e => by simp at e⟩
  · have hs := h.st
    simp only [St, hp] at hs
    unfold doTNet
    split
    · rename_i hr
      refine ⟨fun e => ?_, hm, hd⟩
      simp only [St]
      refine ⟨(hs e).1, ⟨(hs e).2.1.k, (hs e).2.1.torn⟩, fun hme => ⟨(hs e).2.2 hme, ?_⟩⟩
      cases hl : ours c.name s.w.nets with
      | nil => rfl
      | cons x l =>
        have := (hs e).1.net x (by rw [hl]; simp)
        rw [hr] at this
        simp at this
    · rename_i r hr
      have hw : ∀ q, Knows c s.w q → Knows c { s.w with nets := s.w.nets.filter fun x => decide (x.id ≠ r) } q :=
        fun q hq => knows_del hq (fun _ h => h) sub_same del_sub sub_same
      cases o
      · refine ⟨fun e => ?_, hm, hd⟩
        simp only [St]
        refine ⟨hw _ (hs e).1, ⟨hw _ (hs e).2.1.k, (hs e).2.1.torn⟩, fun hme => ⟨(hs e).2.2 hme, del_all (i := r) fun x hx => ?_⟩⟩
        have := (hs e).1.net x hx
        rw [hr] at this
        exact (Option.some.inj this).symm
      · refine ⟨fun e => ?_, hm, hd⟩
        simp only [St]
        exact ⟨(hs e).1, ⟨(hs e).2.1.k, (hs e).2.1.torn⟩, fun e => by simp at e⟩
      · refine ⟨fun e => ?_, hm, hd⟩
        simp only [St]
        exact ⟨hw _ (hs e).1, ⟨hw _ (hs e).2.1.k, (hs e).2.1.torn⟩, fun e => by simp at e⟩
  · have hs := h.st
    simp only [St, hp] at hs
    unfold doTGroup
    split
    · rename_i hr
      refine ⟨fun e => ?_, hm, hd⟩
      simp only [St]
      refine ⟨(hs e).1, ⟨(hs e).2.1.k, (hs e).2.1.torn⟩, fun hme => ⟨((hs e).2.2 hme).1, ((hs e).2.2 hme).2, ?_⟩⟩
      cases hl : ours c.name s.w.groups with
      | nil => rfl
      | cons x l =>
        have := (hs e).1.group x (by rw [hl]; simp)
        rw [hr] at this
        simp at this
    · rename_i r hr
      have hw : ∀ q, Knows c s.w q → Knows c { s.w with groups := s.w.groups.filter fun x => decide (x.id ≠ r) } q :=
        fun q hq => knows_del hq (fun _ h => h) del_sub sub_same sub_same
      cases o
      · refine ⟨fun e => ?_, hm, hd⟩
        simp only [St]
        refine ⟨hw _ (hs e).1, ⟨hw _ (hs e).2.1.k, (hs e).2.1.torn⟩,
          fun hme => ⟨((hs e).2.2 hme).1, ((hs e).2.2 hme).2, del_all (i := r) fun x hx => ?_⟩⟩
        have := (hs e).1.group x hx
        rw [hr] at this
        exact (Option.some.inj this).symm
      · refine ⟨fun e => ?_, hm, hd⟩
        simp only [St]
        exact ⟨(hs e).1, ⟨(hs e).2.1.k, (hs e).2.1.torn⟩, fun e => by simp at e⟩
      · refine ⟨fun e => ?_, hm, hd⟩
        simp only [St]
        exact ⟨hw _ (hs e).1, ⟨hw _ (hs e).2.1.k, (hs e).2.1.torn⟩, fun e => by simp at e⟩
  · have hs := h.st
    simp only [St, hp] at hs
    unfold doTKey
    split
    · rename_i hk
      refine finish_sv (fun e => ⟨(hs e).1, (hs e).2.1, fun hme => ?_⟩) (hm hk) hm hd
      obtain ⟨h1, h2, h3⟩ := (hs e).2.2 hme
      refine clean_of (fun x hx hn => ?_) h3 h2 h1
      have := (hs e).1.key x hx hn
      rw [hk] at this
      simp at this
    · rename_i k hk
      have hkn : k = c.name := hi.k k (.inl hk)
      subst hkn
      rw [if_pos (by simp [ho])]
      have hw : ∀ q, Knows c s.w q → Knows c { s.w with keys := s.w.keys.filter fun x => decide (x.name ≠ c.name) } q :=
        fun q hq => knows_del hq (fun x h => (List.mem_filter.1 h).1) sub_same sub_same sub_same
      have hm' : PK { s.m with pk := none } := fun _ => rfl
      have hkm : ∀ w, Knows c w s.m → Knows c w { s.m with pk := none } := fun w hq => ⟨hq.key, hq.group, hq.net, hq.router⟩
      cases o
      · refine finish_sv (fun e => ⟨hkm _ (hw _ (hs e).1), ⟨hw _ (hs e).2.1.k, (hs e).2.1.torn⟩, fun hme => ?_⟩) rfl hm' hd
        obtain ⟨h1, h2, h3⟩ := (hs e).2.2 hme
        refine clean_of (fun x hx hn => ?_) h3 h2 h1
        simp [hn] at hx
      · exact finish_sv (fun e => ⟨hkm _ (hs e).1, ⟨(hs e).2.1.k, (hs e).2.1.torn⟩, fun hme => by simp at hme⟩) rfl hm' hd
      · exact finish_sv (fun e => ⟨hkm _ (hw _ (hs e).1), ⟨hw _ (hs e).2.1.k, (hs e).2.1.torn⟩, fun hme => by simp at hme⟩) rfl hm' hd
  · have hs := h.st
    simp only [St, hp] at hs
    have none_known : Clean c.name s.w → Knows c s.w {} := fun hc =>
      ⟨fun x hx e => absurd e (hc.key x hx), fun x hx => absurd (mem_ours.1 hx).2 (hc.group x (mem_ours.1 hx).1),
       fun x hx => absurd (mem_ours.1 hx).2 (hc.net x (mem_ours.1 hx).1), fun x hx => absurd (mem_ours.1 hx).2 (hc.router x (mem_ours.1 hx).1)⟩
    unfold doFile
    cases o
    · refine ⟨fun e => ?_, hm, fun _ => rfl⟩
      rw [settled_add] at e
      simp only [St]
      exact ⟨(hs e).1, ⟨none_known (hs e).2.2, by simp⟩, by simp, fun _ => (hs e).2.2⟩
    · refine ⟨fun e => ?_, hm, hd⟩
      rw [settled_add] at e
      simp only [St]
      exact ⟨(hs e).1, ⟨(hs e).2.1.k, (hs e).2.1.torn⟩, by simp, by simp⟩
    · refine ⟨fun e => ?_, hm, fun _ => rfl⟩
      rw [settled_add] at e
      simp only [St]
      exact ⟨(hs e).1, ⟨none_known (hs e).2.2, by simp⟩, by simp, fun _ => (hs e).2.2⟩

theorem sv_step {c : Cfg} {s t : S} {e : Ev} (ho : c.own = []) (hi : Inv c s) (h : Sv c s) (hs : step c s e = some t) : Sv c t := by
  have hm := h.pm
  have hd := h.pd
  cases e with
  | next o => exact sv_next ho hi h hs
  | new =>
    simp only [step] at hs
    split at hs
    · rename_i hp
      have hst := h.st
      simp only [St, hp] at hst
      split at hs <;> rename_i hf <;> simp only [Option.some.injEq] at hs <;> subst hs
      · refine ⟨fun e => ?_, hm, hd⟩
        rw [settled_add] at e
        exact absurd hf (hst e).1.torn
      · refine ⟨fun e => ?_, fun _ => rfl, hd⟩
        have := (hst e).1.k
        rw [hf, res_absent] at this
        simp only [St]
        exact ⟨this, ⟨(hst e).1.k, (hst e).1.torn⟩, fun a => absurd a (hst e).2.1,
          fun a => a.elim (fun a => absurd a (hst e).2.1) fun a => absurd a (hst e).2.2⟩
      · rw [hf] at hd
        refine ⟨fun e => ?_, hd, by rw [hf]; exact hd⟩
        have := (hst e).1.k
        rw [hf, res_saved] at this
        simp only [St]
        exact ⟨this, ⟨(hst e).1.k, (hst e).1.torn⟩, fun a => absurd a (hst e).2.1,
          fun a => a.elim (fun a => absurd a (hst e).2.1) fun a => absurd a (hst e).2.2⟩
    · simp at hs
  | deploy =>
    simp only [step] at hs
    split at hs
    · rename_i hp
      split at hs <;> simp only [Option.some.injEq] at hs <;> subst hs
      · exact unsettled (by rw [settled_add]) hm hd
      · refine ⟨fun e => ?_, hm, hd⟩
        rw [settled_add] at e
        have hst := h.st e
        simp only [St, hp] at hst ⊢
        exact ⟨hst.1, ⟨hst.2.1.k, hst.2.1.torn⟩, by simp, by simp⟩
    · simp at hs
  | tear =>
    simp only [step] at hs
    split at hs
    · rename_i hp
      simp only [Option.some.injEq] at hs
      subst hs
      refine ⟨fun e => ?_, hm, hd⟩
      have hst := h.st e
      simp only [St, hp] at hst ⊢
      exact ⟨hst.1, ⟨hst.2.1.k, hst.2.1.torn⟩⟩
    · simp at hs
  | spawn u =>
    simp only [step] at hs
    split at hs
    · rename_i hp
      simp only [Option.some.injEq] at hs
      subst hs
      refine ⟨fun e => ?_, hm, hd⟩
      have hst := h.st e
      simp only [St, hp] at hst ⊢
      obtain ⟨a, b, d, f⟩ := hst
      exact ⟨⟨a.key, a.group, a.net, a.router⟩, ⟨⟨b.k.key, b.k.group, b.k.net, b.k.router⟩, b.torn⟩, d,
        fun x => ⟨(f x).key, (f x).group, (f x).net, (f x).router⟩⟩
    · simp at hs
  | kill =>
    simp only [step] at hs
    split at hs
    · simp at hs
    · simp only [Option.some.injEq] at hs
      subst hs
      refine ⟨fun e => ?_, hm, hd⟩
      rw [settled_add] at e
      have hst := h.st e
      have : Kd c s := by
        cases hp : s.pc <;> simp only [St, hp] at hst
        · exact hst.1
        all_goals first | exact hst.2 | exact hst.2.1
      simp only [St]
      exact ⟨⟨this.k, this.torn⟩, by simp, by simp⟩

end Verif.Cloud.Deploy
