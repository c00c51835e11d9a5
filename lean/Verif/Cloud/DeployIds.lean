import Verif.Cloud.DeployLemmas
/-
Helpers for the properties of deploying: the process only ever uses ids of resources that have its name, and leaves others alone.
-/
namespace Verif.Cloud.Deploy

structure JJ (c : Cfg) (s : S) : Prop where
  g : J s.w.next s.w.groups c.name (gIds s)
  n : J s.w.next s.w.nets c.name (nIds s)
  r : J s.w.next s.w.routers c.name (rIds s)

/-- what the cloud has under other names -/
def others (n : Name) (w : World) : List Key × List Group × List Net × List Router :=
  (w.keys.filter fun k => decide (k.name ≠ n), theirs n w.groups, theirs n w.nets, theirs n w.routers)

def Good (c : Cfg) (s t : S) : Prop := JJ c t ∧ others c.name t.w = others c.name s.w

theorem J.idem {α : Type} [Named α] {nx : Nat} {l : List α} {n is is'} (h : J nx l n is) (hs : ∀ i ∈ is', i ∈ is) : J nx l n is' :=
  h.mono (Nat.le_refl _) hs

theorem J.up {α : Type} [Named α] {nx : Nat} {l : List α} {n is is'} (h : J nx l n is) (hs : ∀ i ∈ is', i ∈ is) : J (nx + 1) l n is' :=
  h.mono (Nat.le_succ _) hs

macro "idst" : tactic =>
  `(tactic| (intro i; simp (config := { contextual := true }) [mem_gIds, mem_nIds, mem_rIds, failed, *] <;>
      (try grind)))

theorem good_same {c : Cfg} {s t : S} (h : JJ c s) (hw : t.w = s.w) (hg : ∀ i ∈ gIds t, i ∈ gIds s) (hn : ∀ i ∈ nIds t, i ∈ nIds s)
    (hr : ∀ i ∈ rIds t, i ∈ rIds s) : Good c s t := by
  refine ⟨⟨?_, ?_, ?_⟩, by rw [hw]⟩
  · rw [hw]; exact h.g.idem hg
  · rw [hw]; exact h.n.idem hn
  · rw [hw]; exact h.r.idem hr

macro "unch" h:term : tactic => `(tactic| (refine good_same $h rfl ?_ ?_ ?_ <;> idst))

theorem key_good {c : Cfg} {s : S} (h : JJ c s) (hp : s.pc = .key) (o : Out) : Good c s (doKey c s o) := by
  have hq : pcG (if c.ports = [] then afterGroup c else .group) = [] ∧ pcN (if c.ports = [] then afterGroup c else .group) = [] ∧
      pcR (if c.ports = [] then afterGroup c else .group) = [] := by
    split <;> simp
  unfold doKey
  by_cases hk : s.w.keys.any (fun k => decide (k.name = c.name))
  · rw [if_pos hk]
    split <;> unch h
  · rw [if_neg hk]
    cases o
    · exact ⟨⟨h.g.up (by idst), h.n.up (by idst), h.r.up (by idst)⟩, by simp [others]⟩
    · unch h
    · exact ⟨⟨h.g.up (by idst), h.n.up (by idst), h.r.up (by idst)⟩, by simp [others, failed]⟩

theorem group_good {c : Cfg} {s : S} (h : JJ c s) (hp : s.pc = .group) (o : Out) : Good c s (doGroup c s o) := by
  unfold doGroup
  split
  · rename_i g hg
    rcases pick_some hg with hg | ⟨x, hx, rfl⟩
    · simp at hg
    · have hx := mem_ours.1 hx
      split
      · refine ⟨⟨⟨h.g.1, fun i hi => ?_⟩, J.idem h.n (by idst), J.idem h.r (by idst)⟩, rfl⟩
        rcases mem_gIds.1 hi with e | e | e
        · simp only [Option.some.injEq] at e
          subst e
          exact ⟨(h.g.1 x hx.1).1, fun y hy e => ((h.g.1 y hy).2 x hx.1 e).trans hx.2⟩
        · exact h.g.2 i (mem_gIds.2 (.inr (.inl e)))
        · simp at e
      · unch h
  · cases o
    · refine ⟨⟨(h.g.add _ rfl rfl).idem ?_, J.up h.n (by idst), J.up h.r (by idst)⟩, ?_⟩
      · idst
      · simp only [others]
        rw [theirs_add c.name _ _ rfl]
    · unch h
    · refine ⟨⟨(h.g.add _ rfl rfl).idem ?_, J.up h.n (by idst), J.up h.r (by idst)⟩, ?_⟩
      · idst
      · simp only [others, failed]
        rw [theirs_add c.name _ _ rfl]

theorem rule_good {c : Cfg} {s : S} {g r rs} (h : JJ c s) (hp : s.pc = .rules g (r :: rs)) (o : Out) : Good c s (doRule c s g r rs o) := by
  have hg : g ∈ gIds s := mem_gIds.2 (.inr (.inr (by simp [hp])))
  have hi : ∀ x : Group, Named.id (if x.id = g then { x with rules := x.rules ++ [r] } else x) = Named.id x := by
    intro x; split <;> rfl
  have hn : ∀ x : Group, Named.name (if x.id = g then { x with rules := x.rules ++ [r] } else x) = Named.name x := by
    intro x; split <;> rfl
  have ht : theirs c.name (addRule g r s.w.groups) = theirs c.name s.w.groups :=
    theirs_upd c.name s.w.groups _ g h.g hg (fun x hx => if_neg hx) hn
  have hj : J s.w.next (addRule g r s.w.groups) c.name (gIds s) := J.upd _ hi hn h.g
  unfold doRule
  cases o
  · dsimp only
    split
    · exact ⟨⟨hj.idem (by idst), h.n.idem (by idst), h.r.idem (by idst)⟩, by simp only [others, ht]⟩
    · exact ⟨⟨hj.idem (by idst), h.n.idem (by idst), h.r.idem (by idst)⟩, by simp only [others, ht]⟩
  · unch h
  · exact ⟨⟨hj.idem (by idst), h.n.idem (by idst), h.r.idem (by idst)⟩, by simp only [others, failed, ht]⟩

theorem net_good {c : Cfg} {s : S} (h : JJ c s) (hp : s.pc = .net) (o : Out) : Good c s (doNet c s o) := by
  unfold doNet
  split
  · cases o
    · exact ⟨⟨h.g.up (by idst), (h.n.add _ rfl rfl).idem (by idst), h.r.up (by idst)⟩,
        by simp only [others]; rw [theirs_add c.name _ _ rfl]⟩
    · unch h
    · exact ⟨⟨h.g.up (by idst), (h.n.add _ rfl rfl).idem (by idst), h.r.up (by idst)⟩,
        by simp only [others, failed]; rw [theirs_add c.name _ _ rfl]⟩
  · rename_i x hx
    have hx : x ∈ s.w.nets ∧ x.name = c.name := by
      have : x ∈ s.w.nets.filter fun y => decide (y.name = c.name) := by rw [hx]; simp
      simpa using this
    have ho : OfName s.w.next s.w.nets c.name x.id :=
      ⟨(h.n.1 x hx.1).1, fun y hy e => ((h.n.1 y hy).2 x hx.1 e).trans hx.2⟩
    split
    · refine ⟨⟨h.g.idem (by idst), ⟨h.n.1, fun i hi => ?_⟩, h.r.idem (by idst)⟩, rfl⟩
      rcases mem_nIds.1 hi with e | e | e
      · simp only [Option.some.injEq] at e; subst e; exact ho
      · exact h.n.2 i (mem_nIds.2 (.inr (.inl e)))
      · simp at e; subst e; exact ho
    · unch h
  · unch h

theorem subnet_good {c : Cfg} {s : S} {n} (h : JJ c s) (hp : s.pc = .subnet n) (o : Out) : Good c s (doSubnet s n o) := by
  have hg : n ∈ nIds s := mem_nIds.2 (.inr (.inr (by simp [hp])))
  have hi : ∀ x : Net, Named.id (if x.id = n then { x with subs := x.subs ++ [s.w.next] } else x) = Named.id x := by
    intro x; split <;> rfl
  have hn : ∀ x : Net, Named.name (if x.id = n then { x with subs := x.subs ++ [s.w.next] } else x) = Named.name x := by
    intro x; split <;> rfl
  have ht : theirs c.name (addSub n s.w.next s.w.nets) = theirs c.name s.w.nets :=
    theirs_upd c.name s.w.nets _ n h.n hg (fun x hx => if_neg hx) hn
  have hj : J s.w.next (addSub n s.w.next s.w.nets) c.name (nIds s) := J.upd _ hi hn h.n
  unfold doSubnet
  split
  · unch h
  · cases o
    · exact ⟨⟨h.g.up (by idst), hj.up (by idst), h.r.up (by idst)⟩, by simp only [others, ht]⟩
    · unch h
    · exact ⟨⟨h.g.up (by idst), hj.up (by idst), h.r.up (by idst)⟩, by simp only [others, failed, ht]⟩

theorem router_good {c : Cfg} {s : S} (h : JJ c s) (hp : s.pc = .router) (o : Out) : Good c s (doRouter c s o) := by
  unfold doRouter
  split
  · rename_i x hx
    have hx : x ∈ s.w.routers ∧ x.name = c.name := ⟨List.mem_of_find?_eq_some hx, by simpa using List.find?_some hx⟩
    have ho : OfName s.w.next s.w.routers c.name x.id :=
      ⟨(h.r.1 x hx.1).1, fun y hy e => ((h.r.1 y hy).2 x hx.1 e).trans hx.2⟩
    split
    · refine ⟨⟨h.g.idem (by idst), h.n.idem (by idst), ⟨h.r.1, fun i hi => ?_⟩⟩, rfl⟩
      rcases mem_rIds.1 hi with e | e | e
      · simp only [Option.some.injEq] at e; subst e; exact ho
      · exact h.r.2 i (mem_rIds.2 (.inr (.inl e)))
      · simp at e
    · unch h
  · cases o
    · exact ⟨⟨h.g.up (by idst), h.n.up (by idst), (h.r.add _ rfl rfl).idem (by idst)⟩,
        by simp only [others]; rw [theirs_add c.name _ _ rfl]⟩
    · unch h
    · exact ⟨⟨h.g.up (by idst), h.n.up (by idst), (h.r.add _ rfl rfl).idem (by idst)⟩,
        by simp only [others, failed]; rw [theirs_add c.name _ _ rfl]⟩

theorem iface_good {c : Cfg} {s : S} {r} (h : JJ c s) (hp : s.pc = .iface r) (o : Out) : Good c s (doIface s r o) := by
  have hg : r ∈ rIds s := mem_rIds.2 (.inr (.inr (by simp [hp])))
  have hi : ∀ x : Router, Named.id (if x.id = r then { x with ifaces := x.ifaces ++ [s.m.subnet.getD 0] } else x) = Named.id x := by
    intro x; split <;> rfl
  have hn : ∀ x : Router, Named.name (if x.id = r then { x with ifaces := x.ifaces ++ [s.m.subnet.getD 0] } else x) = Named.name x := by
    intro x; split <;> rfl
  have ht : theirs c.name (addIface r (s.m.subnet.getD 0) s.w.routers) = theirs c.name s.w.routers :=
    theirs_upd c.name s.w.routers _ r h.r hg (fun x hx => if_neg hx) hn
  have hj : J s.w.next (addIface r (s.m.subnet.getD 0) s.w.routers) c.name (rIds s) := J.upd _ hi hn h.r
  unfold doIface
  cases o
  · exact ⟨⟨h.g.idem (by idst), h.n.idem (by idst), hj.idem (by idst)⟩, by simp only [others, ht]⟩
  · unch h
  · exact ⟨⟨h.g.idem (by idst), h.n.idem (by idst), hj.idem (by idst)⟩, by simp only [others, ht]⟩

theorem unroute_good {c : Cfg} {s : S} {r} (h : JJ c s) (hp : s.pc = .unroute r) (o : Out) : Good c s (doUnroute s r o) := by
  have hg : r ∈ rIds s := mem_rIds.2 (.inr (.inr (by simp [hp])))
  have ht : theirs c.name (s.w.routers.filter fun x => decide (x.id ≠ r)) = theirs c.name s.w.routers := theirs_del c.name _ r h.r hg
  unfold doUnroute
  cases o
  · exact ⟨⟨h.g.idem (by idst), h.n.idem (by idst), (h.r.filter _).idem (by idst)⟩, by simp only [others, failed, ht]⟩
  · unch h
  · exact ⟨⟨h.g.idem (by idst), h.n.idem (by idst), (h.r.filter _).idem (by idst)⟩, by simp only [others, failed, ht]⟩

theorem list_good {c : Cfg} {s : S} (h : JJ c s) (hp : s.pc = .tList) (o : Out) : Good c s (doList c s o) := by
  unfold doList
  cases o <;> unch h

theorem srv_good {c : Cfg} {s : S} {i l} (h : JJ c s) (hp : s.pc = .tSrv (i :: l)) (o : Out) : Good c s (doSrv c s i l o) := by
  unfold doSrv
  split
  · unch h
  · exact ⟨⟨h.g.idem (by idst), h.n.idem (by idst), h.r.idem (by idst)⟩, rfl⟩

theorem tiface_good {c : Cfg} {s : S} {k} (h : JJ c s) (hp : s.pc = .tIface k) (o : Out) : Good c s (doTIface s k o) := by
  unfold doTIface
  split
  · unch h
  · unch h
  · rename_i r sub hr hsub
    have hg : r ∈ rIds s := mem_rIds.2 (.inl hr)
    have hi : ∀ x : Router, Named.id (if x.id = r then { x with ifaces := x.ifaces.filter (· ≠ sub) } else x) = Named.id x := by
      intro x; split <;> rfl
    have hn : ∀ x : Router, Named.name (if x.id = r then { x with ifaces := x.ifaces.filter (· ≠ sub) } else x) = Named.name x := by
      intro x; split <;> rfl
    have ht : theirs c.name (delIface r sub s.w.routers) = theirs c.name s.w.routers :=
      theirs_upd c.name s.w.routers _ r h.r hg (fun x hx => if_neg hx) hn
    have hj : J s.w.next (delIface r sub s.w.routers) c.name (rIds s) := J.upd _ hi hn h.r
    split
    · exact ⟨⟨h.g.idem (by idst), h.n.idem (by idst), hj.idem (by idst)⟩, by simp only [others, ht]⟩
    · dsimp only
      by_cases ho : o = .lost
      · simp only [ho, if_true]
        split
        · exact ⟨⟨h.g.idem (by idst), h.n.idem (by idst), hj.idem (by idst)⟩, by simp only [others, ht]⟩
        · exact ⟨⟨h.g.idem (by idst), h.n.idem (by idst), hj.idem (by idst)⟩, by simp only [others, ht]⟩
      · simp only [ho, if_false]
        split <;> unch h

theorem trouter_good {c : Cfg} {s : S} (h : JJ c s) (hp : s.pc = .tRouter) (o : Out) : Good c s (doTRouter s o) := by
  unfold doTRouter
  split
  · unch h
  · rename_i r hr
    have ht : theirs c.name (s.w.routers.filter fun x => decide (x.id ≠ r)) = theirs c.name s.w.routers :=
      theirs_del c.name _ r h.r (mem_rIds.2 (.inl hr))
    cases o
    · exact ⟨⟨h.g.idem (by idst), h.n.idem (by idst), (h.r.filter _).idem (by idst)⟩, by simp only [others, ht]⟩
    · unch h
    · exact ⟨⟨h.g.idem (by idst), h.n.idem (by idst), (h.r.filter _).idem (by idst)⟩, by simp only [others, ht]⟩

theorem tnet_good {c : Cfg} {s : S} (h : JJ c s) (hp : s.pc = .tNet) (o : Out) : Good c s (doTNet s o) := by
  unfold doTNet
  split
  · unch h
  · rename_i r hr
    have ht : theirs c.name (s.w.nets.filter fun x => decide (x.id ≠ r)) = theirs c.name s.w.nets :=
      theirs_del c.name _ r h.n (mem_nIds.2 (.inl hr))
    cases o
    · exact ⟨⟨h.g.idem (by idst), (h.n.filter _).idem (by idst), h.r.idem (by idst)⟩, by simp only [others, ht]⟩
    · unch h
    · exact ⟨⟨h.g.idem (by idst), (h.n.filter _).idem (by idst), h.r.idem (by idst)⟩, by simp only [others, ht]⟩

theorem tgroup_good {c : Cfg} {s : S} (h : JJ c s) (hp : s.pc = .tGroup) (o : Out) : Good c s (doTGroup s o) := by
  unfold doTGroup
  split
  · unch h
  · rename_i r hr
    have ht : theirs c.name (s.w.groups.filter fun x => decide (x.id ≠ r)) = theirs c.name s.w.groups :=
      theirs_del c.name _ r h.g (mem_gIds.2 (.inl hr))
    cases o
    · exact ⟨⟨(h.g.filter _).idem (by idst), h.n.idem (by idst), h.r.idem (by idst)⟩, by simp only [others, ht]⟩
    · unch h
    · exact ⟨⟨(h.g.filter _).idem (by idst), h.n.idem (by idst), h.r.idem (by idst)⟩, by simp only [others, ht]⟩

/-- the only key pair known is that of the name -/
def KN (c : Cfg) (s : S) : Prop := ∀ k, s.m.keypair = some k ∨ s.disk.res.keypair = some k → k = c.name

theorem finish_good {c : Cfg} {s t : S} (h : Good c s t) (hp : pcG t.pc = [] ∧ pcN t.pc = [] ∧ pcR t.pc = []) : Good c s (finish t) := by
  obtain ⟨h, ho⟩ := h
  have e : (finish t).w = t.w ∧ (finish t).m = t.m ∧ (finish t).disk = t.disk ∧ pcG (finish t).pc = [] ∧ pcN (finish t).pc = [] ∧
      pcR (finish t).pc = [] := by
    unfold finish
    split
    · simp
    · split
      · simp
      · split <;> simp
  obtain ⟨h1, h2⟩ := good_same (t := finish t) h e.1 (by intro i; simp [mem_gIds, e]; grind) (by intro i; simp [mem_nIds, e]; grind)
    (by intro i; simp [mem_rIds, e]; grind)
  exact ⟨h1, h2.trans ho⟩

theorem tkey_good {c : Cfg} {s : S} (h : JJ c s) (hk : KN c s) (hp : s.pc = .tKey) (o : Out) : Good c s (doTKey c s o) := by
  unfold doTKey
  split
  · exact finish_good ⟨h, rfl⟩ (by simp [hp])
  · rename_i k hm
    have hkn : k = c.name := hk k (.inl hm)
    subst hkn
    split
    · cases o
      · refine finish_good ⟨⟨h.g.idem (by idst), h.n.idem (by idst), h.r.idem (by idst)⟩, ?_⟩ (by simp [hp])
        simp [others, List.filter_filter]
      · exact finish_good (by unch h) (by simp [hp])
      · refine finish_good ⟨⟨h.g.idem (by idst), h.n.idem (by idst), h.r.idem (by idst)⟩, ?_⟩ (by simp [hp])
        simp [others, List.filter_filter]
    · exact finish_good ⟨h, rfl⟩ (by simp [hp])

theorem file_good {c : Cfg} {s : S} (h : JJ c s) (hp : s.pc = .tFile) (o : Out) : Good c s (doFile s o) := by
  unfold doFile
  cases o <;> unch h

theorem next_good {c : Cfg} {s t : S} {o : Out} (h : JJ c s) (hk : KN c s) (hn : next c s o = some t) : Good c s t := by
  unfold next at hn
  split at hn <;> rename_i hp <;> simp only [Option.some.injEq, reduceCtorEq] at hn
  all_goals subst hn
  · exact key_good h hp o
  · exact group_good h hp o
  · exact rule_good h hp o
  · split <;> unch h
  · exact net_good h hp o
  · exact subnet_good h hp o
  · exact router_good h hp o
  · exact iface_good h hp o
  · exact unroute_good h hp o
  · split <;> unch h
  · split <;> unch h
  · split <;> unch h
  · exact list_good h hp o
  · exact srv_good h hp o
  · exact tiface_good h hp o
  · exact trouter_good h hp o
  · exact tnet_good h hp o
  · exact tgroup_good h hp o
  · exact tkey_good h hk hp o
  · exact file_good h hp o

theorem kn_failed {c : Cfg} {s : S} (h : KN c s) : KN c (failed s) := h

theorem kn_finish {c : Cfg} {s : S} (h : KN c s) : KN c (finish s) := by
  unfold finish
  split
  · exact h
  · split
    · exact h
    · split <;> exact h

theorem kn_next {c : Cfg} {s t : S} {o : Out} (hk : KN c s) (hn : next c s o = some t) : KN c t := by
  unfold next at hn
  split at hn <;> simp only [Option.some.injEq, reduceCtorEq] at hn
  all_goals subst hn
  · have hs : ∀ k, some c.name = some k ∨ s.disk.res.keypair = some k → k = c.name := fun k h =>
      h.elim (fun e => (Option.some.inj e).symm) fun h => hk k (.inr h)
    unfold doKey
    by_cases ha : s.w.keys.any (fun k => decide (k.name = c.name))
    · rw [if_pos ha]
      cases o
      · exact hs
      · exact hk
      · exact hk
    · rw [if_neg ha]
      cases o
      · exact hs
      · exact hk
      · exact hk
  · unfold doGroup
    split
    · split <;> exact hk
    · cases o <;> exact hk
  · unfold doRule
    cases o
    · dsimp only
      split <;> exact hk
    · exact hk
    · exact hk
  · split <;> exact hk
  · unfold doNet
    split
    · cases o <;> exact hk
    · split <;> exact hk
    · exact hk
  · unfold doSubnet
    split
    · exact hk
    · cases o <;> exact hk
  · unfold doRouter
    split
    · split <;> exact hk
    · cases o <;> exact hk
  · unfold doIface
    cases o <;> exact hk
  · unfold doUnroute
    cases o <;> exact hk
  · split
    · exact fun k h => hk k (.inl (h.elim id (by simp)))
    · exact hk
  · split
    · exact fun k h => hk k (.inl (h.elim id (by simp)))
    · exact hk
  · split <;> exact hk
  · unfold doList
    cases o <;> exact hk
  · exact hk
  · unfold doTIface
    split
    · exact hk
    · exact hk
    · split
      · exact hk
      · dsimp only
        by_cases ho : o = .lost
        · simp only [ho, if_true]
          split <;> exact hk
        · simp only [ho, if_false]
          split <;> exact hk
  · unfold doTRouter
    split
    · exact hk
    · cases o <;> exact hk
  · unfold doTNet
    split
    · exact hk
    · cases o <;> exact hk
  · unfold doTGroup
    split
    · exact hk
    · cases o <;> exact hk
  · unfold doTKey
    split
    · exact kn_finish hk
    · split
      · cases o <;> exact kn_finish hk
      · exact kn_finish hk
  · unfold doFile
    cases o
    · exact fun k h => hk k (.inl (h.elim id (by simp)))
    · exact hk
    · exact fun k h => hk k (.inl (h.elim id (by simp)))

theorem step_good {c : Cfg} {s t : S} {e : Ev} (h : JJ c s) (hk : KN c s) (hs : step c s e = some t) : Good c s t ∧ KN c t := by
  cases e with
  | new =>
    simp only [step] at hs
    split at hs
    · split at hs <;> rename_i hd <;> simp only [Option.some.injEq] at hs <;> subst hs
      · exact ⟨by unch h, hk⟩
      · exact ⟨by unch h, fun k h => hk k (.inr (h.elim (by simp) id))⟩
      · refine ⟨by unch h, fun k h => hk k (.inr ?_)⟩
        rw [hd] at h ⊢
        exact h.elim id id
    · simp at hs
  | deploy =>
    simp only [step] at hs
    split at hs
    · split at hs <;> simp only [Option.some.injEq] at hs <;> subst hs
      · exact ⟨by unch h, hk⟩
      · exact ⟨by unch h, hk⟩
    · simp at hs
  | tear =>
    simp only [step] at hs
    split at hs
    · simp only [Option.some.injEq] at hs
      subst hs
      exact ⟨by unch h, hk⟩
    · simp at hs
  | spawn u =>
    simp only [step] at hs
    split at hs
    · simp only [Option.some.injEq] at hs
      subst hs
      exact ⟨⟨⟨h.g.up (by idst), h.n.up (by idst), h.r.up (by idst)⟩, rfl⟩, hk⟩
    · simp at hs
  | next o => exact ⟨next_good h hk hs, kn_next hk hs⟩
  | kill =>
    simp only [step] at hs
    split at hs
    · simp at hs
    · simp only [Option.some.injEq] at hs
      subst hs
      exact ⟨by unch h, hk⟩

end Verif.Cloud.Deploy
