import Verif.Cloud.DeployIds
/-
Helpers for the properties of deploying: what is there at each point of Deploy().
-/
namespace Verif.Cloud.Deploy

def hasKey (c : Cfg) (w : World) (m : Res) : Prop := w.keys.any (fun k => decide (k.name = c.name)) = true ∧ m.keypair = some c.name

def hasG (c : Cfg) (w : World) (m : Res) : Prop := c.ports = [] ∨ ∃ x, ours c.name w.groups = [x] ∧ m.group = some x.id

def hasSub (c : Cfg) (w : World) (m : Res) : Prop :=
  ∃ x sub, ours c.name w.nets = [x] ∧ m.net = some x.id ∧ x.subs = [sub] ∧ m.subnet = some sub

def hasR (c : Cfg) (w : World) (m : Res) : Prop := ∃ x, ours c.name w.routers = [x] ∧ m.router = some x.id

/-- everything is there and known -/
def Done (c : Cfg) (w : World) (m : Res) : Prop := hasKey c w m ∧ hasG c w m ∧ (c.own = [] → hasSub c w m ∧ hasR c w m)

def Ph (c : Cfg) (s : S) : Prop :=
  match s.pc with
  | .off => s.log.getLast? ≠ some .deployed
  | .idle => s.log.getLast? = some .deployed → Done c s.w s.m ∧ s.disk = .saved s.m
  | .group => hasKey c s.w s.m ∧ c.ports ≠ []
  | .rules g _ => hasKey c s.w s.m ∧ c.ports ≠ [] ∧ ∃ x, ours c.name s.w.groups = [x] ∧ x.id = g
  | .net => hasKey c s.w s.m ∧ hasG c s.w s.m ∧ c.own = []
  | .hostNet => hasKey c s.w s.m ∧ hasG c s.w s.m ∧ c.own ≠ []
  | .subnet i => hasKey c s.w s.m ∧ hasG c s.w s.m ∧ c.own = [] ∧ s.m.net = some i ∧ ∃ x, ours c.name s.w.nets = [x] ∧ x.id = i
  | .router => hasKey c s.w s.m ∧ hasG c s.w s.m ∧ c.own = [] ∧ hasSub c s.w s.m
  | .iface r => hasKey c s.w s.m ∧ hasG c s.w s.m ∧ c.own = [] ∧ hasSub c s.w s.m ∧ ∃ x, ours c.name s.w.routers = [x] ∧ x.id = r
  | .trunc => Done c s.w s.m
  | .write => Done c s.w s.m
  | .know => Done c s.w s.m ∧ s.disk = .saved s.m
  | _ => True

/-- at most one of each has the name -/
structure Uniq (c : Cfg) (w : World) : Prop where
  g : (ours c.name w.groups).length ≤ 1
  n : (ours c.name w.nets).length ≤ 1
  r : (ours c.name w.routers).length ≤ 1
  sub : ∀ x ∈ ours c.name w.nets, x.subs.length ≤ 1
  no : c.ports = [] → ours c.name w.groups = []

theorem ph_failed {c : Cfg} {s : S} : Ph c (failed s) := by
  simp [Ph, failed]

theorem len_one {α : Type} {l : List α} (h : l.length ≤ 1) (hx : l ≠ []) : ∃ x, l = [x] := by
  match l, h, hx with
  | [x], _, _ => exact ⟨x, rfl⟩
  | _ :: _ :: _, h, _ => simp at h

theorem len_filter {α : Type} {l : List α} {p : α → Bool} (h : l.length ≤ 1) : (l.filter p).length ≤ 1 :=
  Nat.le_trans (List.length_filter_le _ _) h

theorem key_ph {c : Cfg} {s : S} (hu : Uniq c s.w) (o : Out) : Uniq c (doKey c s o).w ∧ Ph c (doKey c s o) := by
  have next_ph : ∀ t : S, t.pc = (if c.ports = [] then afterGroup c else .group) → hasKey c t.w t.m → Ph c t := by
    intro t hp hk
    by_cases h : c.ports = []
    · rw [if_pos h] at hp
      rcases afterGroup_cases c with ⟨e, ho⟩ | ⟨e, ho⟩ <;> rw [e] at hp <;> simp only [Ph, hp] <;> exact ⟨hk, .inl h, ho⟩
    · rw [if_neg h] at hp
      simp only [Ph, hp]
      exact ⟨hk, h⟩
  unfold doKey
  by_cases ha : s.w.keys.any (fun k => decide (k.name = c.name))
  · rw [if_pos ha]
    split
    · exact ⟨hu, next_ph _ rfl ⟨ha, rfl⟩⟩
    · exact ⟨hu, ph_failed⟩
  · rw [if_neg ha]
    cases o
    · exact ⟨⟨hu.g, hu.n, hu.r, hu.sub, hu.no⟩, next_ph _ rfl ⟨by simp, rfl⟩⟩
    · exact ⟨hu, ph_failed⟩
    · exact ⟨⟨hu.g, hu.n, hu.r, hu.sub, hu.no⟩, ph_failed⟩

theorem ag_ph {c : Cfg} {t : S} (hp : t.pc = afterGroup c) (hk : hasKey c t.w t.m) (hg : hasG c t.w t.m) : Ph c t := by
  rcases afterGroup_cases c with ⟨e, ho⟩ | ⟨e, ho⟩ <;> rw [e] at hp <;> simp only [Ph, hp] <;> exact ⟨hk, hg, ho⟩

theorem group_ph {c : Cfg} {s : S} (hu : Uniq c s.w) (h : Ph c s) (hp : s.pc = .group) (o : Out) :
    Uniq c (doGroup c s o).w ∧ Ph c (doGroup c s o) := by
  simp only [Ph, hp] at h
  unfold doGroup
  split
  · rename_i g hg
    split
    · refine ⟨hu, ag_ph rfl h.1 (.inr ?_)⟩
      rcases pick_some hg with e | ⟨x, hx, rfl⟩
      · simp at e
      · obtain ⟨y, hy⟩ := len_one hu.g (List.ne_nil_of_mem hx)
        rw [hy] at hx
        simp at hx
        subst hx
        exact ⟨x, hy, rfl⟩
    · exact ⟨hu, ph_failed⟩
  · rename_i hg
    have ho := (pick_none hg).2
    have hu' : Uniq c { s.w with groups := s.w.groups ++ [{ id := s.w.next, name := c.name }], next := s.w.next + 1 } :=
      ⟨by dsimp only; rw [ours_add c.name _ _ rfl, ho]; simp, hu.n, hu.r, hu.sub, fun e => absurd e h.2⟩
    cases o
    · refine ⟨hu', ?_⟩
      simp only [Ph]
      exact ⟨h.1, h.2, { id := s.w.next, name := c.name }, by rw [ours_add c.name _ _ rfl, ho]; rfl, rfl⟩
    · exact ⟨hu, ph_failed⟩
    · exact ⟨hu', ph_failed⟩

theorem ours_rule (c : Cfg) (g : Nat) (r : Option Nat) (l : List Group) : ours c.name (addRule g r l) = addRule g r (ours c.name l) :=
  ours_upd c.name l _ (by intro x; split <;> rfl)

theorem ours_sub (c : Cfg) (n sub : Nat) (l : List Net) : ours c.name (addSub n sub l) = addSub n sub (ours c.name l) :=
  ours_upd c.name l _ (by intro x; split <;> rfl)

theorem ours_addIface (c : Cfg) (r sub : Nat) (l : List Router) : ours c.name (addIface r sub l) = addIface r sub (ours c.name l) :=
  ours_upd c.name l _ (by intro x; split <;> rfl)

theorem ours_delIface (c : Cfg) (r sub : Nat) (l : List Router) : ours c.name (delIface r sub l) = delIface r sub (ours c.name l) :=
  ours_upd c.name l _ (by intro x; split <;> rfl)

theorem rule_ph {c : Cfg} {s : S} {g r rs} (hu : Uniq c s.w) (h : Ph c s) (hp : s.pc = .rules g (r :: rs)) (o : Out) :
    Uniq c (doRule c s g r rs o).w ∧ Ph c (doRule c s g r rs o) := by
  simp only [Ph, hp] at h
  obtain ⟨hk, hports, x, hx, rfl⟩ := h
  have ho : ours c.name (addRule x.id r s.w.groups) = [{ x with rules := x.rules ++ [r] }] := by
    rw [ours_rule, hx]; simp [addRule]
  have hu' : Uniq c { s.w with groups := addRule x.id r s.w.groups } :=
    ⟨by dsimp only; rw [ho]; simp, hu.n, hu.r, hu.sub, fun e => absurd e hports⟩
  unfold doRule
  cases o
  · dsimp only
    split
    · exact ⟨hu', ag_ph rfl hk (.inr ⟨_, ho, rfl⟩)⟩
    · refine ⟨hu', ?_⟩
      simp only [Ph]
      exact ⟨hk, hports, _, ho, rfl⟩
  · exact ⟨hu, ph_failed⟩
  · exact ⟨hu', ph_failed⟩

theorem net_ph {c : Cfg} {s : S} (hu : Uniq c s.w) (h : Ph c s) (hp : s.pc = .net) (o : Out) :
    Uniq c (doNet c s o).w ∧ Ph c (doNet c s o) := by
  simp only [Ph, hp] at h
  obtain ⟨hk, hg, hown⟩ := h
  unfold doNet
  split
  · rename_i hf
    have ho : ours c.name (s.w.nets ++ [{ id := s.w.next, name := c.name }]) = [{ id := s.w.next, name := c.name }] := by
      rw [ours_add c.name _ _ rfl, show ours c.name s.w.nets = [] from hf]; rfl
    have hu' : Uniq c { s.w with nets := s.w.nets ++ [{ id := s.w.next, name := c.name }], next := s.w.next + 1 } :=
      ⟨hu.g, by dsimp only; rw [ho]; simp, hu.r, by dsimp only; rw [ho]; simp, hu.no⟩
    cases o
    · refine ⟨hu', ?_⟩
      simp only [Ph]
      exact ⟨hk, hg, hown, trivial, _, ho, rfl⟩
    · exact ⟨hu, ph_failed⟩
    · exact ⟨hu', ph_failed⟩
  · rename_i x hx
    split
    · refine ⟨hu, ?_⟩
      simp only [Ph]
      exact ⟨hk, hg, hown, trivial, _, hx, rfl⟩
    · exact ⟨hu, ph_failed⟩
  · exact ⟨hu, ph_failed⟩

theorem subnet_ph {c : Cfg} {s : S} {i} (hj : JJ c s) (hu : Uniq c s.w) (h : Ph c s) (hp : s.pc = .subnet i) (o : Out) :
    Uniq c (doSubnet s i o).w ∧ Ph c (doSubnet s i o) := by
  simp only [Ph, hp] at h
  obtain ⟨hk, hg, hown, hm, x, hx, rfl⟩ := h
  unfold doSubnet
  rw [subsOf_one hj.n hx]
  split
  · rename_i sub hsub
    refine ⟨hu, ?_⟩
    simp only [Ph]
    exact ⟨hk, hg, hown, x, sub, hx, hm, hsub, rfl⟩
  · rename_i hne
    have hn : x.subs = [] := by
      have := hu.sub x (by rw [hx]; simp)
      match hs : x.subs, this with
      | [], _ => rfl
      | [a], _ => exact absurd hs (hne a)
      | _ :: _ :: _, h => simp at h
    have ho : ours c.name (addSub x.id s.w.next s.w.nets) = [{ x with subs := [s.w.next] }] := by
      rw [ours_sub, hx]; simp [addSub, hn]
    have hu' : Uniq c { s.w with nets := addSub x.id s.w.next s.w.nets, next := s.w.next + 1 } :=
      ⟨hu.g, by dsimp only; rw [ho]; simp, hu.r, by dsimp only; rw [ho]; simp, hu.no⟩
    cases o
    · refine ⟨hu', ?_⟩
      simp only [Ph]
      exact ⟨hk, hg, hown, _, _, ho, hm, rfl, rfl⟩
    · exact ⟨hu, ph_failed⟩
    · exact ⟨hu', ph_failed⟩

theorem router_ph {c : Cfg} {s : S} (hu : Uniq c s.w) (h : Ph c s) (hp : s.pc = .router) (o : Out) :
    Uniq c (doRouter c s o).w ∧ Ph c (doRouter c s o) := by
  simp only [Ph, hp] at h
  obtain ⟨hk, hg, hown, hsub⟩ := h
  unfold doRouter
  split
  · rename_i x hx
    have hn : x.name = c.name := by simpa using List.find?_some hx
    have hm : x ∈ ours c.name s.w.routers := mem_ours.2 ⟨List.mem_of_find?_eq_some hx, hn⟩
    obtain ⟨y, hy⟩ := len_one hu.r (List.ne_nil_of_mem hm)
    rw [hy] at hm
    simp at hm
    subst hm
    split
    · refine ⟨hu, ?_⟩
      simp only [Ph]
      exact ⟨hk, hg, fun _ => ⟨hsub, x, hy, rfl⟩⟩
    · exact ⟨hu, ph_failed⟩
  · rename_i hx
    have hn : ours c.name s.w.routers = [] := by
      apply List.filter_eq_nil_iff.2
      exact fun a ha => List.find?_eq_none.1 hx a ha
    have ho : ours c.name (s.w.routers ++ [{ id := s.w.next, name := c.name }]) = [{ id := s.w.next, name := c.name }] := by
      rw [ours_add c.name _ _ rfl, hn]; rfl
    have hu' : Uniq c { s.w with routers := s.w.routers ++ [{ id := s.w.next, name := c.name }], next := s.w.next + 1 } :=
      ⟨hu.g, hu.n, by dsimp only; rw [ho]; simp, hu.sub, hu.no⟩
    cases o
    · refine ⟨hu', ?_⟩
      simp only [Ph]
      exact ⟨hk, hg, hown, hsub, _, ho, rfl⟩
    · exact ⟨hu, ph_failed⟩
    · exact ⟨hu', ph_failed⟩

theorem iface_ph {c : Cfg} {s : S} {r} (hu : Uniq c s.w) (h : Ph c s) (hp : s.pc = .iface r) (o : Out) :
    Uniq c (doIface s r o).w ∧ Ph c (doIface s r o) := by
  simp only [Ph, hp] at h
  obtain ⟨hk, hg, hown, hsub, x, hx, rfl⟩ := h
  have ho : ours c.name (addIface x.id (s.m.subnet.getD 0) s.w.routers) = [{ x with ifaces := x.ifaces ++ [s.m.subnet.getD 0] }] := by
    rw [ours_addIface, hx]; simp [addIface]
  have hu' : Uniq c { s.w with routers := addIface x.id (s.m.subnet.getD 0) s.w.routers } :=
    ⟨hu.g, hu.n, by dsimp only; rw [ho]; simp, hu.sub, hu.no⟩
  unfold doIface
  cases o
  · refine ⟨hu', ?_⟩
    simp only [Ph]
    exact ⟨hk, hg, fun _ => ⟨hsub, _, ho, rfl⟩⟩
  · exact ⟨hu, trivial⟩
  · exact ⟨hu', trivial⟩

theorem unroute_ph {c : Cfg} {s : S} {r} (hu : Uniq c s.w) (o : Out) : Uniq c (doUnroute s r o).w ∧ Ph c (doUnroute s r o) := by
  have hd : ours c.name (s.w.routers.filter fun x => decide (x.id ≠ r)) = (ours c.name s.w.routers).filter fun x => decide (x.id ≠ r) :=
    ours_del c.name s.w.routers r
  have hu' : Uniq c { s.w with routers := s.w.routers.filter fun x => decide (x.id ≠ r) } :=
    ⟨hu.g, hu.n, by dsimp only; rw [hd]; exact len_filter hu.r, hu.sub, hu.no⟩
  unfold doUnroute
  cases o
  · exact ⟨hu', ph_failed⟩
  · exact ⟨hu, ph_failed⟩
  · exact ⟨hu', ph_failed⟩

theorem finish_ph {c : Cfg} {s : S} : Ph c (finish s) := by
  unfold finish
  split
  · simp [Ph]
  · split
    · simp [Ph]
    · split <;> simp [Ph]

theorem finish_w (s : S) : (finish s).w = s.w := by
  unfold finish
  split
  · rfl
  · split
    · rfl
    · split <;> rfl

theorem as_ph {c : Cfg} {t : S} {l} (h : t.pc = afterServers c l) : Ph c t := by
  rcases afterServers_cases c l with e | e | e <;> rw [e.1] at h <;> simp [Ph, h]

theorem next_ph {c : Cfg} {s t : S} {o : Out} (hj : JJ c s) (hu : Uniq c s.w) (h : Ph c s) (hn : next c s o = some t) :
    Uniq c t.w ∧ Ph c t := by
  unfold next at hn
  split at hn <;> rename_i hp <;> simp only [Option.some.injEq, reduceCtorEq] at hn
  all_goals subst hn
  · exact key_ph hu o
  · exact group_ph hu h hp o
  · exact rule_ph hu h hp o
  · simp only [Ph, hp] at h
    split
    · refine ⟨hu, ?_⟩
      simp only [Ph]
      exact ⟨h.1, h.2.1, fun e => absurd e h.2.2⟩
    · exact ⟨hu, ph_failed⟩
  · exact net_ph hu h hp o
  · exact subnet_ph hj hu h hp o
  · exact router_ph hu h hp o
  · exact iface_ph hu h hp o
  · exact unroute_ph hu o
  · simp only [Ph, hp] at h
    split
    · exact ⟨hu, h⟩
    · exact ⟨hu, ph_failed⟩
  · simp only [Ph, hp] at h
    split
    · exact ⟨hu, h, rfl⟩
    · exact ⟨hu, ph_failed⟩
  · simp only [Ph, hp] at h
    split
    · exact ⟨hu, fun _ => h⟩
    · exact ⟨hu, ph_failed⟩
  · unfold doList
    cases o
    · exact ⟨hu, as_ph rfl⟩
    · exact ⟨hu, as_ph (l := []) rfl⟩
    · exact ⟨hu, as_ph (l := []) rfl⟩
  · unfold doSrv
    split <;> exact ⟨⟨hu.g, hu.n, hu.r, hu.sub, hu.no⟩, as_ph rfl⟩
  · unfold doTIface
    split
    · exact ⟨hu, trivial⟩
    · exact ⟨hu, trivial⟩
    · rename_i k r sub _ _
      have hu' : Uniq c { s.w with routers := delIface r sub s.w.routers } :=
        ⟨hu.g, hu.n, by dsimp only; rw [ours_delIface]; simpa [delIface] using hu.r, hu.sub, hu.no⟩
      split
      · exact ⟨hu', trivial⟩
      · dsimp only
        by_cases ho : o = .lost
        · simp only [ho, if_true]
          split
          · exact ⟨hu', trivial⟩
          · exact ⟨hu', trivial⟩
        · simp only [ho, if_false]
          split
          · exact ⟨hu, trivial⟩
          · exact ⟨hu, trivial⟩
  · unfold doTRouter
    split
    · exact ⟨hu, trivial⟩
    · rename_i r _
      have hd : ours c.name (s.w.routers.filter fun x => decide (x.id ≠ r)) = (ours c.name s.w.routers).filter fun x => decide (x.id ≠ r) :=
        ours_del c.name s.w.routers r
      have hu' : Uniq c { s.w with routers := s.w.routers.filter fun x => decide (x.id ≠ r) } :=
        ⟨hu.g, hu.n, by dsimp only; rw [hd]; exact len_filter hu.r, hu.sub, hu.no⟩
      cases o
      · exact ⟨hu', trivial⟩
      · exact ⟨hu, trivial⟩
      · exact ⟨hu', trivial⟩
  · unfold doTNet
    split
    · exact ⟨hu, trivial⟩
    · rename_i r _
      have hd : ours c.name (s.w.nets.filter fun x => decide (x.id ≠ r)) = (ours c.name s.w.nets).filter fun x => decide (x.id ≠ r) :=
        ours_del c.name s.w.nets r
      have hu' : Uniq c { s.w with nets := s.w.nets.filter fun x => decide (x.id ≠ r) } :=
        ⟨hu.g, by dsimp only; rw [hd]; exact len_filter hu.n, hu.r,
         by dsimp only; rw [hd]; exact fun x hx => hu.sub x (List.mem_filter.1 hx).1, hu.no⟩
      cases o
      · exact ⟨hu', trivial⟩
      · exact ⟨hu, trivial⟩
      · exact ⟨hu', trivial⟩
  · unfold doTGroup
    split
    · exact ⟨hu, trivial⟩
    · rename_i r _
      have hd : ours c.name (s.w.groups.filter fun x => decide (x.id ≠ r)) = (ours c.name s.w.groups).filter fun x => decide (x.id ≠ r) :=
        ours_del c.name s.w.groups r
      have hu' : Uniq c { s.w with groups := s.w.groups.filter fun x => decide (x.id ≠ r) } :=
        ⟨by dsimp only; rw [hd]; exact len_filter hu.g, hu.n, hu.r, hu.sub, by dsimp only; rw [hd]; intro e; rw [hu.no e]; rfl⟩
      cases o
      · exact ⟨hu', trivial⟩
      · exact ⟨hu, trivial⟩
      · exact ⟨hu', trivial⟩
  · unfold doTKey
    split
    · exact ⟨by rw [finish_w]; exact hu, finish_ph⟩
    · split
      · cases o <;> exact ⟨by rw [finish_w]; exact ⟨hu.g, hu.n, hu.r, hu.sub, hu.no⟩, finish_ph⟩
      · exact ⟨by rw [finish_w]; exact hu, finish_ph⟩
  · unfold doFile
    cases o <;> exact ⟨hu, by simp [Ph]⟩

/-- all of these together -/
structure Inv (c : Cfg) (s : S) : Prop where
  j : JJ c s
  k : KN c s
  u : Uniq c s.w
  p : Ph c s

theorem inv_step {c : Cfg} {s t : S} {e : Ev} (h : Inv c s) (hs : step c s e = some t) : Inv c t := by
  obtain ⟨⟨hj, _⟩, hk⟩ := step_good h.j h.k hs
  refine ⟨hj, hk, ?_, ?_⟩ <;> cases e <;> simp only [step] at hs
  case refine_1.new =>
    split at hs
    · split at hs <;> simp only [Option.some.injEq] at hs <;> subst hs <;> exact h.u
    · simp at hs
  case refine_1.deploy =>
    split at hs
    · split at hs <;> simp only [Option.some.injEq] at hs <;> subst hs <;> exact h.u
    · simp at hs
  case refine_1.tear =>
    split at hs
    · simp only [Option.some.injEq] at hs; subst hs; exact h.u
    · simp at hs
  case refine_1.spawn =>
    split at hs
    · simp only [Option.some.injEq] at hs; subst hs; exact ⟨h.u.g, h.u.n, h.u.r, h.u.sub, h.u.no⟩
    · simp at hs
  case refine_1.next => exact (next_ph h.j h.u h.p hs).1
  case refine_1.kill =>
    split at hs
    · simp at hs
    · simp only [Option.some.injEq] at hs; subst hs; exact h.u
  case refine_2.new =>
    split at hs
    · rename_i hp
      split at hs <;> simp only [Option.some.injEq] at hs <;> subst hs
      · simp [Ph, hp]
      · have := h.p
        simp only [Ph, hp] at this
        simp only [Ph]
        exact fun e => absurd e this
      · have := h.p
        simp only [Ph, hp] at this
        simp only [Ph]
        exact fun e => absurd e this
    · simp at hs
  case refine_2.deploy =>
    split at hs
    · split at hs <;> simp only [Option.some.injEq] at hs <;> subst hs <;> simp [Ph, *]
    · simp at hs
  case refine_2.tear =>
    split at hs
    · simp only [Option.some.injEq] at hs; subst hs; simp [Ph]
    · simp at hs
  case refine_2.spawn =>
    split at hs
    · rename_i hp
      simp only [Option.some.injEq] at hs; subst hs
      have := h.p
      simp only [Ph, hp] at this ⊢
      exact this
    · simp at hs
  case refine_2.next => exact (next_ph h.j h.u h.p hs).2
  case refine_2.kill =>
    split at hs
    · simp at hs
    · simp only [Option.some.injEq] at hs; subst hs; simp [Ph]

end Verif.Cloud.Deploy
