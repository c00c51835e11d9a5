import Verif.Cloud.DeployProps
/-
C115, continued: Deploy() again, tearing down, and what an interrupted Deploy() leaves.
-/
namespace Verif.Cloud.Deploy

/-- names that are too long are not names of hosts -/
theorem C115_long (n : Name) (h : 63 < n.length) : hostName n ≠ n := by
  intro e
  have := congrArg List.length e
  simp only [hostName, List.length_take] at this
  omega

example : 63 < "wr-prod-christopher-robin-3f9c2a1e-6a6b-4d1c-9a55-0d6f1f8b2c31-long".toList.length := by decide

/-! ### Deploying again -/

/-- nothing in the cloud changed, except servers -/
def Same (w w' : World) : Prop := w'.keys = w.keys ∧ w'.groups = w.groups ∧ w'.nets = w.nets ∧ w'.routers = w.routers

/-- where the process can be if it only repeats a Deploy() that worked -/
def Again (c : Cfg) (m : Res) : Pc → Prop
  | .off | .idle | .key | .trunc | .write | .know => True
  | .group => c.ports ≠ []
  | .hostNet => c.own ≠ []
  | .net => c.own = []
  | .subnet n => c.own = [] ∧ m.net = some n
  | .router => c.own = []
  | _ => False

structure Kept (c : Cfg) (w : World) (m : Res) (s : S) : Prop where
  same : Same w s.w
  res : s.pc ≠ .off → s.m = m
  disk : s.disk = .torn ∨ s.disk = .saved m
  pc : Again c m s.pc

theorem kept_step {c : Cfg} {w : World} {m : Res} {s t : S} {e : Ev} (hd : Done c w m) (hi : Inv c s) (h : Kept c w m s) (he : e ≠ .tear)
    (hs : step c s e = some t) : Kept c w m t := by
  obtain ⟨hk, hg, hown⟩ := hd
  obtain ⟨h1, h2, h3, h4⟩ := h.same
  have hw : Same w s.w := h.same
  have ok : ∀ u : S, u.w = s.w → (u.pc ≠ .off → u.m = m) → u.disk = s.disk → Again c m u.pc → Kept c w m u := by
    intro u a b d e
    exact ⟨by rw [a]; exact hw, b, by rw [d]; exact h.disk, e⟩
  have bad : s.pc ≠ .off → Kept c w m (failed s) := fun hp => ok _ rfl (fun _ => h.res hp) rfl trivial
  have ag : Again c m (afterGroup c) := by
    rcases afterGroup_cases c with ⟨e, ho⟩ | ⟨e, ho⟩ <;> rw [e] <;> exact ho
  cases e <;> simp only [step] at hs
  case tear => exact absurd rfl he
  case new =>
    split at hs
    · rename_i hp
      split at hs <;> rename_i hf <;> simp only [Option.some.injEq] at hs <;> subst hs
      · exact ok _ rfl (fun e => absurd hp e) rfl h.pc
      · rcases h.disk with e | e <;> rw [hf] at e <;> simp at e
      · rcases h.disk with e | e
        · rw [hf] at e; simp at e
        · rw [hf] at e
          simp only [File.saved.injEq] at e
          exact ok _ rfl (fun _ => e) rfl trivial
    · simp at hs
  case deploy =>
    split at hs
    · rename_i hp
      split at hs <;> simp only [Option.some.injEq] at hs <;> subst hs
      · exact ok _ rfl (fun _ => h.res (by simp [hp])) rfl trivial
      · exact ok _ rfl (fun _ => h.res (by simp [hp])) rfl h.pc
    · simp at hs
  case kill =>
    split at hs
    · simp at hs
    · simp only [Option.some.injEq] at hs
      subst hs
      exact ok _ rfl (fun e => absurd rfl e) rfl trivial
  case spawn u =>
    split at hs
    · rename_i hp
      simp only [Option.some.injEq] at hs
      subst hs
      exact ⟨⟨h1, h2, h3, h4⟩, fun _ => h.res (by simp [hp]), h.disk, h.pc⟩
    · simp at hs
  case next o =>
    have hpc := h.pc
    unfold next at hs
    split at hs <;> rename_i hp <;> simp only [Option.some.injEq, reduceCtorEq] at hs <;> rw [hp] at hpc <;>
      try (exact False.elim hpc)
    all_goals (have hm : s.m = m := h.res (by simp [hp])) <;> (have bad := bad (by simp [hp])) <;> subst hs
    · unfold doKey
      rw [if_pos (by rw [h1]; exact hk.1)]
      split
      · refine ok _ rfl (fun _ => ?_) rfl ?_
        · simp only [hm, ← hk.2]
        · show Again c m (if c.ports = [] then afterGroup c else .group)
          split
          · exact ag
          · assumption
      · exact bad
    · unfold doGroup
      rcases hg with hg | ⟨x, hx, hxm⟩
      · exact absurd hg hpc
      · rw [← h2] at hx
        rw [pick_one hx]
        dsimp only
        split
        · refine ok _ rfl (fun _ => ?_) rfl ag
          simp only [hm, ← hxm]
        · exact bad
    · split
      · exact ok _ rfl (fun _ => hm) rfl trivial
      · exact bad
    · obtain ⟨⟨x, sub, hx, hxm, hsub, hsm⟩, _⟩ := hown hpc
      unfold doNet
      rw [show (s.w.nets.filter fun y => decide (y.name = c.name)) = [x] by rw [h3]; exact hx]
      dsimp only
      split
      · refine ok _ rfl (fun _ => ?_) rfl ⟨hpc, hxm⟩
        simp only [hm, ← hxm]
      · exact bad
    · obtain ⟨⟨x, sub, hx, hxm, hsub, hsm⟩, _⟩ := hown hpc.1
      have e := hpc.2
      rw [hxm] at e
      simp only [Option.some.injEq] at e
      subst e
      unfold doSubnet
      rw [subsOf_one hi.j.n (by rw [h3]; exact hx), hsub]
      refine ok _ rfl (fun _ => ?_) rfl hpc.1
      simp only [hm, ← hsm]
    · obtain ⟨_, x, hx, hxm⟩ := hown hpc
      unfold doRouter
      rw [find_one (by rw [h4]; exact hx)]
      dsimp only
      split
      · refine ok _ rfl (fun _ => ?_) rfl trivial
        simp only [hm, ← hxm]
      · exact bad
    · split
      · exact ⟨hw, fun _ => hm, .inl rfl, trivial⟩
      · exact bad
    · split
      · exact ⟨hw, fun _ => hm, .inr (by rw [hm]), trivial⟩
      · exact bad
    · split
      · exact ok _ rfl (fun _ => hm) rfl trivial
      · exact bad

/-- C115: once a Deploy() worked, nothing that is done later creates or changes a key pair, security group, network or router until
TearDown() is called: not more Deploy()s in any session, whether they work, fail or are killed. What the process knows of the resources
stays the same too, and so does its private key. -/
theorem C115_once (c : Cfg) (w : World) (es₁ es₂ : List Ev) (s t : S) (h : Plain c.name w) (h₁ : run c (start w) es₁ = some s)
    (hd : s.pc = .idle ∧ s.log.getLast? = some .deployed) (h₂ : run c s es₂ = some t) (ht : .tear ∉ es₂) :
    Same s.w t.w ∧ (t.pc = .idle → t.m = s.m) := by
  have hi := inv_run (inv_start h) h₁
  have hp := hi.p
  simp only [Ph, hd.1] at hp
  obtain ⟨hdone, hdisk⟩ := hp hd.2
  have hk : Kept c s.w s.m s := ⟨⟨rfl, rfl, rfl, rfl⟩, fun _ => rfl, .inr hdisk, by rw [hd.1]; trivial⟩
  have key : ∀ {u : S} {es : List Ev}, Inv c u → Kept c s.w s.m u → .tear ∉ es → run c u es = some t → Kept c s.w s.m t := by
    intro u es
    induction es generalizing u with
    | nil => intro _ hk _ hr; simp only [run, Option.some.injEq] at hr; exact hr ▸ hk
    | cons e es ih =>
      intro hi hk hn hr
      simp only [run] at hr
      cases hs : step c u e with
      | none => rw [hs] at hr; simp at hr
      | some v =>
        rw [hs] at hr
        simp only [List.mem_cons, not_or] at hn
        exact ih (inv_step hi hs) (kept_step hdone hi hk (Ne.symm hn.1) hs) hn.2 hr
  have := key hi hk ht h₂
  exact ⟨this.same, fun e => this.res (by simp [e])⟩

/-- a deployment that worked, and another session that deploys again -/
example : ∃ s t, run al (start shared) ([.new] ++ deployOk) = some s ∧ s.pc = .idle ∧ s.log.getLast? = some .deployed ∧
    run al s ([.spawn ['z'], .kill, .new, .deploy] ++ List.replicate 8 (.next .ok)) = some t ∧ t.log.getLast? = some .deployed := by
  refine ⟨_, _, rfl, ?_, ?_, rfl, ?_⟩ <;> decide +kernel

/-! ### What a deployment is good for -/

/-- everything that is needed is there: the key pair's private key is known, the security group opens the ports and ICMP, and the router
connects the subnet of the network -/
structure Usable (c : Cfg) (w : World) (m : Res) : Prop where
  key : ∃ k, w.keys.filter (fun x => decide (x.name = c.name)) = [⟨c.name, k⟩] ∧ m.pk = some k
  group : c.ports ≠ [] → ∃ x ∈ w.groups, x.name = c.name ∧ m.group = some x.id ∧ (∀ p ∈ c.ports, some p ∈ x.rules) ∧ none ∈ x.rules
  net : ∃ x ∈ w.nets, ∃ r ∈ w.routers, ∃ sub, x.name = c.name ∧ r.name = c.name ∧ m.net = some x.id ∧ m.router = some r.id ∧
    m.subnet = some sub ∧ x.subs = [sub] ∧ r.ifaces = [sub]

def keyOk (c : Cfg) (w : World) (m : Res) : Prop :=
  ∃ k, w.keys.filter (fun x => decide (x.name = c.name)) = [⟨c.name, k⟩] ∧ m.pk = some k

def groupOk (c : Cfg) (w : World) (m : Res) : Prop :=
  c.ports ≠ [] → ∃ x, ours c.name w.groups = [x] ∧ m.group = some x.id ∧ x.rules = c.ports.map some ++ [none]

def netOk (c : Cfg) (w : World) (m : Res) : Prop :=
  ∃ x sub, ours c.name w.nets = [x] ∧ m.net = some x.id ∧ m.subnet = some sub ∧ x.subs = [sub]

def routerOk (c : Cfg) (w : World) (m : Res) : Prop :=
  ∃ x sub, ours c.name w.routers = [x] ∧ m.router = some x.id ∧ m.subnet = some sub ∧ x.ifaces = [sub]

/-- how far the first Deploy() has come -/
def First (c : Cfg) (s : S) : Prop :=
  match s.pc with
  | .idle => s.log.getLast? = some .deployed →
      keyOk c s.w s.m ∧ groupOk c s.w s.m ∧ netOk c s.w s.m ∧ routerOk c s.w s.m ∧ s.disk = .saved s.m
  | .key => Clean c.name s.w
  | .group => keyOk c s.w s.m ∧ ours c.name s.w.groups = [] ∧ ours c.name s.w.nets = [] ∧ ours c.name s.w.routers = []
  | .rules g l => keyOk c s.w s.m ∧ (∃ x, ours c.name s.w.groups = [x] ∧ x.id = g ∧ x.rules ++ l = c.ports.map some ++ [none]) ∧
      ours c.name s.w.nets = [] ∧ ours c.name s.w.routers = []
  | .net => keyOk c s.w s.m ∧ groupOk c s.w s.m ∧ ours c.name s.w.nets = [] ∧ ours c.name s.w.routers = []
  | .subnet i => keyOk c s.w s.m ∧ groupOk c s.w s.m ∧ (∃ x, ours c.name s.w.nets = [x] ∧ x.id = i ∧ x.subs = [] ∧ s.m.net = some i) ∧
      ours c.name s.w.routers = []
  | .router => keyOk c s.w s.m ∧ groupOk c s.w s.m ∧ netOk c s.w s.m ∧ ours c.name s.w.routers = []
  | .iface r => keyOk c s.w s.m ∧ groupOk c s.w s.m ∧ netOk c s.w s.m ∧
      ∃ x, ours c.name s.w.routers = [x] ∧ x.id = r ∧ x.ifaces = []
  | .unroute _ => True
  | .trunc => keyOk c s.w s.m ∧ groupOk c s.w s.m ∧ netOk c s.w s.m ∧ routerOk c s.w s.m
  | .write => keyOk c s.w s.m ∧ groupOk c s.w s.m ∧ netOk c s.w s.m ∧ routerOk c s.w s.m
  | .know => keyOk c s.w s.m ∧ groupOk c s.w s.m ∧ netOk c s.w s.m ∧ routerOk c s.w s.m ∧ s.disk = .saved s.m
  | _ => False

theorem first_failed {c : Cfg} {s : S} : First c (failed s) := by simp [First, failed]

theorem first_next {c : Cfg} {s t : S} {o : Out} (ho : c.own = []) (hj : JJ c s) (h : First c s) (hn : next c s o = some t) : First c t := by
  have hag : afterGroup c = .net := by simp [afterGroup, ho]
  unfold next at hn
  split at hn <;> rename_i hp <;> simp only [Option.some.injEq, reduceCtorEq] at hn <;> simp only [First, hp] at h
  all_goals subst hn
  · have hnk : ¬ (s.w.keys.any (fun k => decide (k.name = c.name)) = true) := by
      simp only [List.any_eq_true, decide_eq_true_eq, not_exists, not_and]
      exact h.key
    have hfil : s.w.keys.filter (fun k => decide (k.name = c.name)) = [] :=
      List.filter_eq_nil_iff.2 fun a ha => by simpa using h.key a ha
    unfold doKey
    rw [if_neg hnk]
    cases o
    · have hk : keyOk c { s.w with keys := s.w.keys ++ [⟨c.name, s.w.next⟩], next := s.w.next + 1 }
          { s.m with pk := some s.w.next, keypair := some c.name } := by
        refine ⟨s.w.next, ?_, rfl⟩
        simp [List.filter_append, hfil]
      by_cases hports : c.ports = []
      · simp only [hports, if_true, hag, First]
        exact ⟨hk, fun e => absurd hports e, ours_nil.2 h.net, ours_nil.2 h.router⟩
      · simp only [hports, if_false, First]
        exact ⟨hk, ours_nil.2 h.group, ours_nil.2 h.net, ours_nil.2 h.router⟩
    · exact first_failed
    · exact first_failed
  · obtain ⟨hk, hg, hnn, hr⟩ := h
    unfold doGroup
    rw [pick_nil hg]
    cases o
    · simp only [First]
      exact ⟨hk, ⟨{ id := s.w.next, name := c.name }, by rw [ours_add c.name _ _ rfl, hg]; rfl, rfl, rfl⟩, hnn, hr⟩
    · exact first_failed
    · exact first_failed
  · rename_i g r rs
    obtain ⟨hk, ⟨x, hx, rfl, hrules⟩, hnn, hr⟩ := h
    have hx' : ours c.name (addRule x.id r s.w.groups) = [{ x with rules := x.rules ++ [r] }] := by
      rw [ours_rule, hx]; simp [addRule]
    unfold doRule
    cases o
    · dsimp only
      split
      · rename_i hrs
        simp only [hag, First]
        refine ⟨hk, fun _ => ⟨_, hx', rfl, ?_⟩, hnn, hr⟩
        rw [hrs] at hrules
        exact hrules
      · simp only [First]
        exact ⟨hk, ⟨_, hx', rfl, by simp [← hrules]⟩, hnn, hr⟩
    · exact first_failed
    · exact first_failed
  · obtain ⟨hk, hg, hnn, hr⟩ := h
    unfold doNet
    rw [show (s.w.nets.filter fun y => decide (y.name = c.name)) = [] from hnn]
    cases o
    · simp only [First]
      exact ⟨hk, hg, ⟨{ id := s.w.next, name := c.name }, by rw [ours_add c.name _ _ rfl, hnn]; rfl, rfl, rfl, trivial⟩, hr⟩
    · exact first_failed
    · exact first_failed
  · obtain ⟨hk, hg, ⟨x, hx, rfl, hsub, hm⟩, hr⟩ := h
    unfold doSubnet
    rw [subsOf_one hj.n hx, hsub]
    cases o
    · simp only [First]
      refine ⟨hk, hg, ⟨{ x with subs := [s.w.next] }, s.w.next, ?_, hm, rfl, rfl⟩, hr⟩
      rw [ours_sub, hx]; simp [addSub, hsub]
    · exact first_failed
    · exact first_failed
  · obtain ⟨hk, hg, hnet, hr⟩ := h
    unfold doRouter
    rw [find_nil hr]
    cases o
    · simp only [First]
      exact ⟨hk, hg, hnet, ⟨{ id := s.w.next, name := c.name }, by rw [ours_add c.name _ _ rfl, hr]; rfl, rfl, rfl⟩⟩
    · exact first_failed
    · exact first_failed
  · obtain ⟨hk, hg, hnet, ⟨x, hx, rfl, hif⟩⟩ := h
    unfold doIface
    cases o
    · simp only [First]
      refine ⟨hk, hg, hnet, ?_⟩
      obtain ⟨y, sub, _, _, hsm, _⟩ := hnet
      refine ⟨{ x with ifaces := [sub] }, sub, ?_, rfl, hsm, rfl⟩
      dsimp only
      rw [ours_addIface, hx]; simp [addIface, hif, hsm]
    · trivial
    · trivial
  · unfold doUnroute
    cases o <;> exact first_failed
  · split
    · exact h
    · exact first_failed
  · split
    · exact ⟨h.1, h.2.1, h.2.2.1, h.2.2.2, rfl⟩
    · exact first_failed
  · split
    · exact fun _ => h
    · exact first_failed

theorem first_run {c : Cfg} {s t : S} {os : List Out} (ho : c.own = []) (hi : Inv c s) (h : First c s)
    (hr : run c s (os.map .next) = some t) : First c t ∧ Inv c t := by
  induction os generalizing s with
  | nil => simp only [List.map_nil, run, Option.some.injEq] at hr; exact hr ▸ ⟨h, hi⟩
  | cons o os ih =>
    simp only [List.map_cons, run] at hr
    cases hs : step c s (.next o) with
    | none => rw [hs] at hr; simp at hr
    | some u => rw [hs] at hr; exact ih (inv_step hi hs) (first_next ho hi.j h hs) hr

/-- C115, partial: a Deploy() that finds nothing with the name and reports success leaves all that is needed: its private key, a security
group with all rules, and a network whose subnet the router connects; all of this is in the file. By `C115_once` it stays so. Missing: a
Deploy() that finds what an interrupted one left (`C115_violated_key`, `C115_violated_rules`, `C115_violated_iface`). -/
theorem C115_complete_partial (c : Cfg) (w : World) (es : List Ev) (os : List Out) (s t : S) (h : Plain c.name w) (ho : c.own = [])
    (h₁ : run c (start w) es = some s) (hc : Clean c.name s.w) (h₂ : run c s (.deploy :: os.map .next) = some t) (hp : t.pc = .idle)
    (hl : t.log.getLast? = some .deployed) : Usable c t.w t.m ∧ t.disk = .saved t.m := by
  have hi := inv_run (inv_start h) h₁
  simp only [run] at h₂
  cases hs : step c s .deploy with
  | none => rw [hs] at h₂; simp at h₂
  | some u =>
    rw [hs] at h₂
    have hiu := inv_step hi hs
    simp only [step] at hs
    split at hs
    · split at hs <;> simp only [Option.some.injEq] at hs <;> subst hs
      · have := (first_run ho hiu (by simp only [First]; exact hc) h₂).1
        simp only [First, hp] at this
        obtain ⟨hk, hg, ⟨x, sub, hx, hxm, hsm, hsub⟩, ⟨y, sub', hy, hym, hsm', hif⟩, hd⟩ := this hl
        have mem : ∀ {α : Type} [Named α] {n : Name} {l : List α} {a : α}, ours n l = [a] → a ∈ l ∧ Named.name a = n :=
          fun h => mem_ours.1 (by rw [h]; simp)
        have e : sub' = sub := by rw [hsm] at hsm'; exact (Option.some.inj hsm').symm
        subst e
        refine ⟨⟨hk, fun hports => ?_, ⟨x, (mem hx).1, y, (mem hy).1, sub', (mem hx).2, (mem hy).2, hxm, hym, hsm, hsub, hif⟩⟩, hd⟩
        obtain ⟨z, hz, hzm, hzr⟩ := hg hports
        exact ⟨z, (mem hz).1, (mem hz).2, hzm, fun p hpp => by rw [hzr]; simp [hpp], by rw [hzr]; simp⟩
      · exfalso
        rename_i hidle _
        cases os with
        | nil =>
          simp only [List.map_nil, run, Option.some.injEq, Option.bind_some] at h₂
          subst h₂
          simp at hl
        | cons o os => simp [run, step, next, hidle] at h₂
    · simp at hs

example : ∃ s t, run al (start shared) [.new] = some s ∧ run al s (.deploy :: (List.replicate 12 Out.ok).map .next) = some t ∧
    t.pc = .idle ∧ t.log.getLast? = some .deployed := by
  refine ⟨_, _, rfl, rfl, ?_, ?_⟩ <;> decide +kernel

/-- C115 is violated: Deploy() is killed after it created the key pair. The next Deploy() reports success without a private key. -/
theorem C115_violated_key : ∃ t, run al (start shared) ([.new, .deploy, .next .ok, .kill, .new] ++ deployOk) = some t ∧
    t.log.getLast? = some .deployed ∧ t.w.keys.any (fun k => decide (k.name = al.name)) = true ∧ t.m.pk = none ∧ t.disk = .saved t.m := by
  refine ⟨_, rfl, ?_, ?_, ?_, ?_⟩ <;> decide +kernel

/-- C115 is violated: a rule of the security group cannot be created and Deploy() fails. The next one reports success, but the group does
not open that port. -/
theorem C115_violated_rules : ∃ t g, run al (start shared)
      ([.new, .deploy, .next .ok, .next .ok, .next .fail, .deploy] ++ List.replicate 9 (.next .ok)) = some t ∧
    t.log.getLast? = some .deployed ∧ g ∈ t.w.groups ∧ g.name = al.name ∧ t.m.group = some g.id ∧ g.rules = [] := by
  refine ⟨_, { id := 8, name := al.name }, rfl, ?_, ?_, rfl, ?_, rfl⟩ <;> decide +kernel

/-- C115 is violated: Deploy() is killed after it created the router. The next one reports success, but the router is not connected. -/
theorem C115_violated_iface : ∃ t r, run al (start shared)
      ([.new, .deploy] ++ List.replicate 8 (.next .ok) ++ [.kill, .new, .deploy] ++ List.replicate 8 (.next .ok)) = some t ∧
    t.log.getLast? = some .deployed ∧ r ∈ t.w.routers ∧ r.name = al.name ∧ t.m.router = some r.id ∧ r.ifaces = [] := by
  refine ⟨_, { id := 11, name := al.name }, rfl, ?_, ?_, rfl, ?_, rfl⟩ <;> decide +kernel

/-! ### Tearing down -/

/-- C115, partial: if the last Deploy() that was begun had worked and TearDown() reports success, or that there is nothing to do, then
nothing with the name is left except servers, whatever happened between; after success the file is gone too. Missing: when the last Deploy()
had failed or was killed (`C115_violated_left`), servers (`C115_violated_server_left`), and processes on a server of the cloud. -/
theorem C115_teardown_partial (c : Cfg) (w : World) (es : List Ev) (t : S) (h : Plain c.name w) (ho : c.own = [])
    (hr : run c (start w) es = some t) (hs : settled t.log = true) (hp : t.pc = .idle) :
    (t.log.getLast? = some .tore → Clean c.name t.w ∧ t.disk = .absent) ∧ (t.log.getLast? = some .nothing → Clean c.name t.w) := by
  have key : ∀ {s : S} {es : List Ev}, Inv c s → Sv c s → run c s es = some t → Sv c t := by
    intro s es
    induction es generalizing s with
    | nil => intro _ hk hr; simp only [run, Option.some.injEq] at hr; exact hr ▸ hk
    | cons e es ih =>
      intro hi hk hr
      simp only [run] at hr
      cases hs : step c s e with
      | none => rw [hs] at hr; simp at hr
      | some u =>
        rw [hs] at hr
        exact ih (inv_step hi hs) (sv_step ho hi hk hs) hr
  have := (key (inv_start h) (sv_start h) hr).st hs
  simp only [St, hp] at this
  exact ⟨fun e => ⟨this.2.2.2 (.inl e), this.2.2.1 e⟩, fun e => this.2.2.2 (.inr e)⟩

/-- another session tears down at the second attempt, the network could not be deleted at the first -/
example : ∃ t, run al (start shared) ([.new] ++ deployOk ++ [.kill, .new, .tear] ++ List.replicate 4 (.next .ok) ++ [.next .fail, .next .ok,
      .next .ok, .kill, .new, .tear] ++ List.replicate 16 (.next .ok)) = some t ∧ settled t.log = true ∧ t.pc = .idle ∧
    t.log = [.deploying, .deployed, .killed, .tearFailed, .killed, .tore] := by
  refine ⟨_, rfl, ?_, ?_, ?_⟩ <;> decide +kernel

/-- C115 is violated: Deploy() fails since there may be no more routers. Tearing down then says that there is nothing to tear down, but the
key pair, the security group and the network are left. -/
theorem C115_violated_left : ∃ t, run al (start { shared with servers := [] })
      ([.new, .deploy] ++ List.replicate 7 (.next .ok) ++ [.next .fail, .kill, .new, .tear] ++ List.replicate 5 (.next .ok)) = some t ∧
    t.log = [.deploying, .deployFailed, .killed, .nothing] ∧ t.w.keys.any (fun k => decide (k.name = al.name)) = true ∧
    t.w.groups.any (fun k => decide (k.name = al.name)) = true ∧ t.w.nets.any (fun k => decide (k.name = al.name)) = true := by
  refine ⟨_, rfl, ?_, ?_, ?_, ?_⟩ <;> decide +kernel

end Verif.Cloud.Deploy
