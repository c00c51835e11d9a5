import Verif.Cloud.DeploySettled
/-
C115: deploying to a cloud and tearing down.

In the theorems `start w` is the state before anything was done with the resource name: `w` is the cloud then. `Plain` says that nothing in
it has the name (`Clean`; servers may), and that ids tell resources apart. `others n w` is everything in the cloud, except servers, that has
another name than `n`. `settled log` says that the last Deploy() that was begun reported success.
-/
namespace Verif.Cloud.Deploy

/-- before anything was done with the resource name -/
def start (w : World) : S := { w := w }

structure Plain (n : Name) (w : World) : Prop where
  clean : Clean n w
  groups : Ids w.next w.groups
  nets : Ids w.next w.nets
  routers : Ids w.next w.routers
  servers : ∀ x ∈ w.servers, x.id < w.next ∧ ∀ y ∈ w.servers, x.id = y.id → x = y

theorem inv_start {c : Cfg} {w : World} (h : Plain c.name w) : Inv c (start w) := by
  have hg : ours c.name w.groups = [] := ours_nil.2 h.clean.group
  have hn : ours c.name w.nets = [] := ours_nil.2 h.clean.net
  have hr : ours c.name w.routers = [] := ours_nil.2 h.clean.router
  refine ⟨⟨⟨h.groups, ?_⟩, ⟨h.nets, ?_⟩, ⟨h.routers, ?_⟩⟩, ?_, ⟨?_, ?_, ?_, ?_, fun _ => hg⟩, ?_⟩
  · intro i hi; simp [mem_gIds, start] at hi
  · intro i hi; simp [mem_nIds, start] at hi
  · intro i hi; simp [mem_rIds, start] at hi
  · intro k hk; simp [start] at hk
  · rw [show (start w).w = w from rfl, hg]; simp
  · rw [show (start w).w = w from rfl, hn]; simp
  · rw [show (start w).w = w from rfl, hr]; simp
  · rw [show (start w).w = w from rfl, hn]; simp
  · simp [Ph, start]

theorem sv_start {c : Cfg} {w : World} (h : Plain c.name w) : Sv c (start w) := by
  refine ⟨fun _ => ?_, fun _ => rfl, fun _ => rfl⟩
  simp only [St, start]
  exact ⟨⟨⟨fun x hx e => absurd e (h.clean.key x hx), fun x hx => absurd (mem_ours.1 hx).2 (h.clean.group x (mem_ours.1 hx).1),
       fun x hx => absurd (mem_ours.1 hx).2 (h.clean.net x (mem_ours.1 hx).1),
       fun x hx => absurd (mem_ours.1 hx).2 (h.clean.router x (mem_ours.1 hx).1)⟩, by simp⟩, by simp, by simp⟩

theorem inv_run {c : Cfg} {s t : S} {es : List Ev} (h : Inv c s) (hr : run c s es = some t) : Inv c t :=
  run_inv c (Inv c) (fun _ _ _ hi hs => inv_step hi hs) h hr

/-! The cloud of the examples: somebody else's deployment is in it. -/

def al : Cfg := { name := "wr-prod-al".toList, ports := [22, 46407] }

def shared : World :=
  { keys := [⟨"wr-prod-alice".toList, 0⟩]
    groups := [{ id := 1, name := "default".toList }, { id := 2, name := "wr-prod-alice".toList, rules := [some 22, none] }]
    nets := [{ id := 3, name := "wr-prod-alice".toList, subs := [4] }]
    routers := [{ id := 5, name := "wr-prod-alice".toList, ifaces := [4] }]
    servers := [⟨6, "wr-prod-alice-x".toList⟩]
    next := 7 }

theorem shared_plain : Plain al.name shared := by
  refine ⟨⟨?_, ?_, ?_, ?_⟩, ?_, ?_, ?_, ?_⟩
  · decide
  · decide
  · decide
  · decide
  · show ∀ x ∈ shared.groups, x.id < shared.next ∧ ∀ y ∈ shared.groups, x.id = y.id → x.name = y.name
    decide
  · show ∀ x ∈ shared.nets, x.id < shared.next ∧ ∀ y ∈ shared.nets, x.id = y.id → x.name = y.name
    decide
  · show ∀ x ∈ shared.routers, x.id < shared.next ∧ ∀ y ∈ shared.routers, x.id = y.id → x.name = y.name
    decide
  · decide

/-- a Deploy() in which every call works -/
def deployOk : List Ev := .deploy :: List.replicate 12 (.next .ok)

/-- a TearDown() in which every call works, with one server of ours and one of somebody's -/
def tearOk : List Ev := .tear :: List.replicate 8 (.next .ok)

/-! ### Others -/

/-- C115: whatever happens, all key pairs, security groups, networks and routers that have another name stay exactly as they are. -/
theorem C115_others (c : Cfg) (w : World) (es : List Ev) (t : S) (h : Plain c.name w) (hr : run c (start w) es = some t) :
    others c.name t.w = others c.name w := by
  have key : ∀ {s : S} {es : List Ev}, Inv c s → run c s es = some t → others c.name t.w = others c.name s.w := by
    intro s es
    induction es generalizing s with
    | nil => intro _ hr; simp only [run, Option.some.injEq] at hr; rw [hr]
    | cons e es ih =>
      intro hi hr
      simp only [run] at hr
      cases hs : step c s e with
      | none => rw [hs] at hr; simp at hr
      | some u =>
        rw [hs] at hr
        exact (ih (inv_step hi hs) hr).trans (step_good hi.j hi.k hs).1.2
  exact key (inv_start h) hr

/-- other things than ours really are in this cloud, and things are created and deleted -/
example : ∃ s t, run al (start shared) ([.new] ++ deployOk) = some s ∧ s.log = [.deploying, .deployed] ∧ s.w ≠ shared ∧
    run al s tearOk = some t ∧ t.log = [.deploying, .deployed, .tore] ∧ others al.name t.w = others al.name shared ∧
    (others al.name shared).1 ≠ [] := by
  refine ⟨_, _, rfl, ?_, ?_, rfl, ?_, ?_, ?_⟩ <;> decide +kernel

/-! ### Servers -/

theorem finish_pc (s : S) : (finish s).pc = .idle ∨ (finish s).pc = .tFile := by
  unfold finish
  split
  · exact .inl rfl
  · split
    · exact .inl rfl
    · split
      · exact .inr rfl
      · exact .inl rfl

/-- what a call does to servers -/
theorem next_servers {c : Cfg} {s t : S} {o : Out} (hn : next c s o = some t) :
    (t.w.servers = s.w.servers ∧ s.w.next ≤ t.w.next ∧ ∀ l, t.pc = .tSrv l → s.pc = .tList ∧ l = doomed c s.w) ∨
    (∃ i l, s.pc = .tSrv (i :: l) ∧ t = doSrv c s i l o) := by
  have ag : ∀ l, afterGroup c ≠ .tSrv l := by
    intro l; rcases afterGroup_cases c with h | h <;> rw [h.1] <;> simp
  unfold next at hn
  split at hn <;> rename_i hp <;> simp only [Option.some.injEq, reduceCtorEq] at hn
  all_goals subst hn
  · left
    unfold doKey
    have : ∀ l, (if c.ports = [] then afterGroup c else Pc.group) ≠ .tSrv l := by
      intro l; split
      · exact ag l
      · simp
    by_cases ha : s.w.keys.any (fun k => decide (k.name = c.name))
    · rw [if_pos ha]
      cases o
      · exact ⟨rfl, Nat.le_refl _, fun l e => absurd e (this l)⟩
      · exact ⟨rfl, Nat.le_refl _, fun l e => by simp [failed] at e⟩
      · exact ⟨rfl, Nat.le_refl _, fun l e => by simp [failed] at e⟩
    · rw [if_neg ha]
      cases o
      · exact ⟨rfl, Nat.le_succ _, fun l e => absurd e (this l)⟩
      · exact ⟨rfl, Nat.le_refl _, fun l e => by simp [failed] at e⟩
      · exact ⟨rfl, Nat.le_succ _, fun l e => by simp [failed] at e⟩
  · left
    unfold doGroup
    split
    · split
      · exact ⟨rfl, Nat.le_refl _, fun l e => absurd e (ag l)⟩
      · exact ⟨rfl, Nat.le_refl _, fun l e => by simp [failed] at e⟩
    · cases o
      · exact ⟨rfl, Nat.le_succ _, fun l e => by simp at e⟩
      · exact ⟨rfl, Nat.le_refl _, fun l e => by simp [failed] at e⟩
      · exact ⟨rfl, Nat.le_succ _, fun l e => by simp [failed] at e⟩
  · left
    unfold doRule
    cases o
    · dsimp only
      split
      · exact ⟨rfl, Nat.le_refl _, fun l e => absurd e (ag l)⟩
      · exact ⟨rfl, Nat.le_refl _, fun l e => by simp at e⟩
    · exact ⟨rfl, Nat.le_refl _, fun l e => by simp [failed] at e⟩
    · exact ⟨rfl, Nat.le_refl _, fun l e => by simp [failed] at e⟩
  · left
    split
    · exact ⟨rfl, Nat.le_refl _, fun l e => by simp at e⟩
    · exact ⟨rfl, Nat.le_refl _, fun l e => by simp [failed] at e⟩
  · left
    unfold doNet
    split
    · cases o
      · exact ⟨rfl, Nat.le_succ _, fun l e => by simp at e⟩
      · exact ⟨rfl, Nat.le_refl _, fun l e => by simp [failed] at e⟩
      · exact ⟨rfl, Nat.le_succ _, fun l e => by simp [failed] at e⟩
    · split
      · exact ⟨rfl, Nat.le_refl _, fun l e => by simp at e⟩
      · exact ⟨rfl, Nat.le_refl _, fun l e => by simp [failed] at e⟩
    · exact ⟨rfl, Nat.le_refl _, fun l e => by simp [failed] at e⟩
  · left
    unfold doSubnet
    split
    · exact ⟨rfl, Nat.le_refl _, fun l e => by simp at e⟩
    · cases o
      · exact ⟨rfl, Nat.le_succ _, fun l e => by simp at e⟩
      · exact ⟨rfl, Nat.le_refl _, fun l e => by simp [failed] at e⟩
      · exact ⟨rfl, Nat.le_succ _, fun l e => by simp [failed] at e⟩
  · left
    unfold doRouter
    split
    · split
      · exact ⟨rfl, Nat.le_refl _, fun l e => by simp at e⟩
      · exact ⟨rfl, Nat.le_refl _, fun l e => by simp [failed] at e⟩
    · cases o
      · exact ⟨rfl, Nat.le_succ _, fun l e => by simp at e⟩
      · exact ⟨rfl, Nat.le_refl _, fun l e => by simp [failed] at e⟩
      · exact ⟨rfl, Nat.le_succ _, fun l e => by simp [failed] at e⟩
  · left
    unfold doIface
    cases o <;> exact ⟨rfl, Nat.le_refl _, fun l e => by simp at e⟩
  · left
    unfold doUnroute
    cases o <;> exact ⟨rfl, Nat.le_refl _, fun l e => by simp [failed] at e⟩
  · left
    split
    · exact ⟨rfl, Nat.le_refl _, fun l e => by simp at e⟩
    · exact ⟨rfl, Nat.le_refl _, fun l e => by simp [failed] at e⟩
  · left
    split
    · exact ⟨rfl, Nat.le_refl _, fun l e => by simp at e⟩
    · exact ⟨rfl, Nat.le_refl _, fun l e => by simp [failed] at e⟩
  · left
    split
    · exact ⟨rfl, Nat.le_refl _, fun l e => by simp at e⟩
    · exact ⟨rfl, Nat.le_refl _, fun l e => by simp [failed] at e⟩
  · left
    have as : ∀ l l', afterServers c l = .tSrv l' → l' = l ∧ l ≠ [] := by
      intro l l' e
      rcases afterServers_cases c l with h | h | h <;> rw [h.1] at e <;> simp at e
      exact ⟨e.symm, h.2⟩
    unfold doList
    cases o
    · exact ⟨rfl, Nat.le_refl _, fun l e => ⟨hp, (as _ _ e).1⟩⟩
    · exact ⟨rfl, Nat.le_refl _, fun l e => absurd rfl (as _ _ e).2⟩
    · exact ⟨rfl, Nat.le_refl _, fun l e => absurd rfl (as _ _ e).2⟩
  · rename_i i l
    right
    exact ⟨i, l, hp, rfl⟩
  · left
    unfold doTIface
    split
    · exact ⟨rfl, Nat.le_refl _, fun l e => by simp at e⟩
    · exact ⟨rfl, Nat.le_refl _, fun l e => by simp at e⟩
    · split
      · exact ⟨rfl, Nat.le_refl _, fun l e => by simp at e⟩
      · dsimp only
        by_cases hl : o = .lost
        · simp only [hl, if_true]
          split <;> exact ⟨rfl, Nat.le_refl _, fun l e => by simp at e⟩
        · simp only [hl, if_false]
          split <;> exact ⟨rfl, Nat.le_refl _, fun l e => by simp at e⟩
  · left
    unfold doTRouter
    split
    · exact ⟨rfl, Nat.le_refl _, fun l e => by simp at e⟩
    · cases o <;> exact ⟨rfl, Nat.le_refl _, fun l e => by simp at e⟩
  · left
    unfold doTNet
    split
    · exact ⟨rfl, Nat.le_refl _, fun l e => by simp at e⟩
    · cases o <;> exact ⟨rfl, Nat.le_refl _, fun l e => by simp at e⟩
  · left
    unfold doTGroup
    split
    · exact ⟨rfl, Nat.le_refl _, fun l e => by simp at e⟩
    · cases o <;> exact ⟨rfl, Nat.le_refl _, fun l e => by simp at e⟩
  · left
    have fin : ∀ u : S, u.w.servers = s.w.servers → u.w.next = s.w.next →
        (finish u).w.servers = s.w.servers ∧ s.w.next ≤ (finish u).w.next ∧ ∀ l, (finish u).pc = .tSrv l → s.pc = .tList ∧ l = doomed c s.w := by
      intro u e e'
      rw [finish_w]
      refine ⟨e, by omega, fun l h => ?_⟩
      rcases finish_pc u with h' | h' <;> rw [h'] at h <;> simp at h
    unfold doTKey
    split
    · exact fin _ rfl rfl
    · split
      · cases o <;> exact fin _ rfl rfl
      · exact fin _ rfl rfl
  · left
    unfold doFile
    cases o <;> exact ⟨rfl, Nat.le_refl _, fun l e => by simp at e⟩

structure Srvs (c : Cfg) (s : S) : Prop where
  ids : ∀ x ∈ s.w.servers, x.id < s.w.next ∧ ∀ y ∈ s.w.servers, x.id = y.id → x = y
  doom : ∀ l, s.pc = .tSrv l → ∀ i ∈ l, i < s.w.next ∧ ∀ x ∈ s.w.servers, x.id = i → c.own ≠ x.name ∧ c.name.isPrefixOf x.name

theorem doomed_mem {c : Cfg} {w : World} {i : Nat} (h : i ∈ doomed c w) :
    ∃ x ∈ w.servers, x.id = i ∧ c.own ≠ x.name ∧ c.name.isPrefixOf x.name := by
  obtain ⟨x, hx, rfl⟩ := List.mem_map.1 h
  obtain ⟨h1, h2⟩ := List.mem_filter.1 hx
  simp only [ne_eq, decide_not, Bool.and_eq_true, Bool.not_eq_true', decide_eq_false_iff_not] at h2
  exact ⟨x, h1, rfl, h2⟩

theorem srvs_step {c : Cfg} {s t : S} {e : Ev} (h : Srvs c s) (hs : step c s e = some t) :
    Srvs c t ∧ ∀ x ∈ s.w.servers, c.own = x.name ∨ ¬ c.name.isPrefixOf x.name → x ∈ t.w.servers := by
  have same : ∀ u : S, u.w = s.w → (∀ l, u.pc ≠ .tSrv l) →
      Srvs c u ∧ ∀ x ∈ s.w.servers, c.own = x.name ∨ ¬ c.name.isPrefixOf x.name → x ∈ u.w.servers := by
    intro u e hp
    exact ⟨⟨by rw [e]; exact h.ids, fun l e => absurd e (hp l)⟩, fun x hx _ => by rw [e]; exact hx⟩
  cases e <;> simp only [step] at hs
  case new =>
    split at hs
    · rename_i hp
      split at hs <;> simp only [Option.some.injEq] at hs <;> subst hs
      · exact same _ rfl (by simp [hp])
      · exact same _ rfl (by simp)
      · exact same _ rfl (by simp)
    · simp at hs
  case deploy =>
    split at hs
    · rename_i hp
      split at hs <;> simp only [Option.some.injEq] at hs <;> subst hs
      · exact same _ rfl (by simp)
      · exact same _ rfl (by simp [hp])
    · simp at hs
  case tear =>
    split at hs
    · simp only [Option.some.injEq] at hs
      subst hs
      exact same _ rfl (by simp)
    · simp at hs
  case kill =>
    split at hs
    · simp at hs
    · simp only [Option.some.injEq] at hs
      subst hs
      exact same _ rfl (by simp)
  case spawn u =>
    split at hs
    · rename_i hp
      simp only [Option.some.injEq] at hs
      subst hs
      refine ⟨⟨fun x hx => ?_, fun l e => by simp [hp] at e⟩, fun x hx _ => List.mem_append.2 (.inl hx)⟩
      rcases List.mem_append.1 hx with h1 | h1
      · refine ⟨Nat.lt_succ_of_lt (h.ids x h1).1, fun y hy e => ?_⟩
        rcases List.mem_append.1 hy with h2 | h2
        · exact (h.ids x h1).2 y h2 e
        · simp at h2; subst h2; exact absurd e (Nat.ne_of_lt (h.ids x h1).1)
      · simp at h1
        subst h1
        refine ⟨Nat.lt_succ_self _, fun y hy e => ?_⟩
        rcases List.mem_append.1 hy with h2 | h2
        · exact absurd e.symm (Nat.ne_of_lt (h.ids y h2).1)
        · simp at h2; exact h2.symm
    · simp at hs
  case next o =>
    rcases next_servers hs with ⟨h1, h2, h3⟩ | ⟨i, l, hp, rfl⟩
    · refine ⟨⟨?_, fun l e i hi => ?_⟩, fun x hx _ => by rw [h1]; exact hx⟩
      · rw [h1]
        exact fun x hx => ⟨Nat.lt_of_lt_of_le (h.ids x hx).1 h2, (h.ids x hx).2⟩
      · obtain ⟨_, rfl⟩ := h3 l e
        obtain ⟨x, hx, rfl, hq⟩ := doomed_mem hi
        rw [h1]
        refine ⟨Nat.lt_of_lt_of_le (h.ids x hx).1 h2, fun y hy e => ?_⟩
        rw [(h.ids y hy).2 x hx e]
        exact hq
    · have hd := h.doom _ hp
      have sub : ∀ x ∈ (doSrv c s i l o).w.servers, x ∈ s.w.servers := by
        intro x hx
        unfold doSrv at hx
        split at hx
        · exact hx
        · exact (List.mem_filter.1 hx).1
      have hnx : (doSrv c s i l o).w.next = s.w.next := by unfold doSrv; split <;> rfl
      refine ⟨⟨fun x hx => ⟨by rw [hnx]; exact (h.ids x (sub x hx)).1, fun y hy e => (h.ids x (sub x hx)).2 y (sub y hy) e⟩,
        fun l' e j hj => ?_⟩, fun x hx hx' => ?_⟩
      · have : l' = l := by
          have e : afterServers c l = .tSrv l' := e
          rcases afterServers_cases c l with a | a | a <;> rw [a.1] at e <;> simp at e
          exact e.symm
        subst this
        rw [hnx]
        exact ⟨(hd j (List.mem_cons_of_mem _ hj)).1, fun x hx => (hd j (List.mem_cons_of_mem _ hj)).2 x (sub x hx)⟩
      · unfold doSrv
        split
        · exact hx
        · refine List.mem_filter.2 ⟨hx, ?_⟩
          simp only [ne_eq, decide_not, Bool.not_eq_true', decide_eq_false_iff_not]
          intro e
          have := (hd i (List.mem_cons_self ..)).2 x hx e
          rcases hx' with a | a
          · exact this.1 a
          · exact a this.2

theorem srvs_run {c : Cfg} {s t : S} {es : List Ev} (h : Srvs c s) (hr : run c s es = some t) :
    Srvs c t ∧ ∀ x ∈ s.w.servers, c.own = x.name ∨ ¬ c.name.isPrefixOf x.name → x ∈ t.w.servers := by
  induction es generalizing s with
  | nil => simp only [run, Option.some.injEq] at hr; subst hr; exact ⟨h, fun x hx _ => hx⟩
  | cons e es ih =>
    simp only [run] at hr
    cases hs : step c s e with
    | none => rw [hs] at hr; simp at hr
    | some u =>
      rw [hs] at hr
      obtain ⟨h1, h2⟩ := srvs_step h hs
      obtain ⟨h3, h4⟩ := ih h1 hr
      exact ⟨h3, fun x hx hq => h4 x (h2 x hx hq) hq⟩

theorem srvs_start {c : Cfg} {w : World} (h : Plain c.name w) : Srvs c (start w) :=
  ⟨h.servers, fun l e => by simp [start] at e⟩

/-- C115, partial: servers whose name does not begin with the resource name stay. Missing: the servers of others whose resource name begins
with ours (`C115_violated_servers`). -/
theorem C115_servers_partial (c : Cfg) (w : World) (es : List Ev) (t : S) (x : Srv) (h : Plain c.name w)
    (hr : run c (start w) es = some t) (hx : x ∈ w.servers) (hn : ¬ c.name <+: x.name) : x ∈ t.w.servers :=
  (srvs_run (srvs_start h) hr).2 x hx (.inr fun e => hn (List.isPrefixOf_iff_prefix.1 e))

example : ¬ "wr-prod-bob".toList <+: "wr-prod-alice-x".toList := by decide

/-- C115 is violated: when al tears down, the server of alice is destroyed. -/
theorem C115_violated_servers : ∃ s t, run al (start shared) ([.new] ++ deployOk) = some s ∧ run al s tearOk = some t ∧
    t.log.getLast? = some .tore ∧ shared.servers = [⟨6, "wr-prod-alice-x".toList⟩] ∧ t.w.servers = [] := by
  refine ⟨_, _, rfl, rfl, ?_, ?_, ?_⟩ <;> decide +kernel

/-- C115, partial: a process on a server of the cloud never destroys that server, if the server's name is the name of its host. Missing:
other names (`C115_violated_self`). -/
theorem C115_self_partial (c : Cfg) (w : World) (es : List Ev) (t : S) (x : Srv) (h : Plain c.name w)
    (hr : run c (start w) es = some t) (hx : x ∈ w.servers) (hn : x.name = c.own) : x ∈ t.w.servers :=
  (srvs_run (srvs_start h) hr).2 x hx (.inl hn.symm)

/-- names of up to 63 lower case letters, digits and hyphens are names of hosts -/
theorem C115_host (n : Name) (h : ∀ x ∈ n, hostChar x = true) (hl : n.length ≤ 63) : hostName n = n := by
  have low : ∀ x : Char, hostChar x = true → x.toLower = x := by
    intro x hx
    simp only [hostChar, Bool.or_eq_true, Bool.and_eq_true, decide_eq_true_eq] at hx
    unfold Char.toLower
    split
    · rename_i hu
      exfalso
      simp only [Char.le_def, UInt32.le_iff_toNat_le] at hx
      simp only [ge_iff_le, UInt32.le_iff_toNat_le] at hu
      have e1 : 'a'.val.toNat = 97 := rfl
      have e2 : '0'.val.toNat = 48 := rfl
      have e3 : '9'.val.toNat = 57 := rfl
      have e4 : 'Z'.val.toNat = 90 := rfl
      have e5 : 'A'.val.toNat = 65 := rfl
      rcases hx with (hx | hx) | hx
      · omega
      · omega
      · subst hx
        have e6 : '-'.val.toNat = 45 := rfl
        omega
    · rfl
  have sq : ∀ n : Name, (∀ x ∈ n, hostChar x = true) → squash false n = n := by
    intro n
    induction n with
    | nil => intro _; rfl
    | cons x n ih =>
      intro h
      simp only [squash, h x (List.mem_cons_self ..), if_true, ih fun y hy => h y (List.mem_cons_of_mem _ hy)]
  have mp : n.map Char.toLower = n := by
    have : ∀ x ∈ n, x.toLower = x := fun x hx => low x (h x hx)
    rw [List.map_congr_left this]
    simp
  rw [hostName, mp, sq n h, List.take_of_length_le hl]

example : hostName "wr-prod-al-8ba5".toList = "wr-prod-al-8ba5".toList := by decide
example : hostName "wr-prod-Al_B-8ba5".toList = "wr-prod-al-b-8ba5".toList := by decide

/-- C115 is violated: a server of ours on which the process runs is destroyed by TearDown() if its name is not the name of a host, for
example since it has capital letters or underscores or is too long. -/
theorem C115_violated_self (c : Cfg) (s t : S) (x : Srv) (hs : s.pc = .idle) (hu : s.w.servers = [x]) (hp : c.name <+: x.name)
    (ho : c.own = hostName x.name) (hn : hostName x.name ≠ x.name) (hr : run c s [.tear, .next .ok, .next .ok] = some t) :
    t.w.servers = [] := by
  have hd : doomed c s.w = [x.id] := by
    simp only [doomed, hu, List.filter_cons, List.filter_nil]
    rw [if_pos]
    · rfl
    · simp only [ho, List.isPrefixOf_iff_prefix.2 hp, Bool.and_true, decide_eq_true_eq]
      exact hn
  have hd' : ∀ a b d e f, doomed c { s with pc := a, merr := b, did := d, log := e, m := f }.w = [x.id] := fun _ _ _ _ _ => hd
  simp only [run, step, hs, if_true, Option.bind_some, next, doList, hd, afterServers, ne_eq, List.cons_ne_nil,
    not_false_eq_true, if_true] at hr
  simp only [Option.bind_some, doSrv, Option.some.injEq] at hr
  subst hr
  simp [hu]

/-- such a server; it is running the process -/
example : let n := "wr-prod-Al".toList
    let x : Srv := ⟨3, "wr-prod-Al-8ba5".toList⟩
    let c : Cfg := { name := n, ports := [22], own := hostName x.name }
    hostName x.name ≠ x.name ∧ c.name <+: x.name ∧
    ∃ s t, run c (start { servers := [x], next := 4 }) [.new] = some s ∧ run c s [.tear, .next .ok, .next .ok] = some t ∧
      t.w.servers = [] := by
  refine ⟨by decide, by decide, _, _, rfl, rfl, ?_⟩
  decide +kernel

end Verif.Cloud.Deploy
