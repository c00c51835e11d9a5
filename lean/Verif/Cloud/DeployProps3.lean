import Verif.Cloud.DeployProps2
/-
C115, continued: the servers and the file after tearing down, and processes on a server of the cloud.
-/
namespace Verif.Cloud.Deploy

/-! ### The servers after tearing down -/

/-- while tearing down without errors: the servers still to be destroyed are in the list, or not listed yet -/
def Left (c : Cfg) (s : S) : Prop :=
  match s.pc with
  | .tList => True
  | .tSrv l => ∀ x ∈ s.w.servers, c.own ≠ x.name → c.name.isPrefixOf x.name → x.id ∈ l
  | .idle | .tIface _ | .tRouter | .tNet | .tGroup | .tKey | .tFile =>
      ∀ x ∈ s.w.servers, c.own ≠ x.name → c.name.isPrefixOf x.name → False
  | _ => False

theorem left_finish {c : Cfg} {s : S} (h : ∀ x ∈ s.w.servers, c.own ≠ x.name → c.name.isPrefixOf x.name → False) : Left c (finish s) := by
  unfold finish
  split
  · exact h
  · split
    · exact h
    · split
      · exact h
      · exact h

theorem left_after {c : Cfg} {s : S} {l : List Nat} (hp : s.pc = afterServers c l)
    (h : ∀ x ∈ s.w.servers, c.own ≠ x.name → c.name.isPrefixOf x.name → x.id ∈ l) : Left c s := by
  unfold Left
  rcases afterServers_cases c l with a | a | a <;> rw [hp, a.1]
  · exact h
  all_goals
    intro x hx h1 h2
    have := h x hx h1 h2
    simp_all

theorem left_next {c : Cfg} {s t : S} (h : Left c s) (hn : next c s .ok = some t) : Left c t := by
  unfold next at hn
  split at hn <;> rename_i hp <;> simp only [Option.some.injEq, reduceCtorEq] at hn <;> simp only [Left, hp] at h
  all_goals subst hn
  · refine left_after (l := doomed c s.w) rfl ?_
    intro x hx h1 h2
    refine List.mem_map.2 ⟨x, List.mem_filter.2 ⟨hx, ?_⟩, rfl⟩
    simp [h1, h2]
  · rename_i i l
    refine left_after (l := l) rfl ?_
    intro x hx h1 h2
    have hx : x ∈ s.w.servers.filter fun y => decide (y.id ≠ i) := hx
    obtain ⟨ha, hb⟩ := List.mem_filter.1 hx
    rcases List.mem_cons.1 (h x ha h1 h2) with e | e
    · simp [e] at hb
    · exact e
  · unfold doTIface
    split
    · exact h
    · exact h
    · split
      · exact h
      · dsimp only
        simp only [reduceCtorEq, if_false]
        split
        · exact h
        · exact h
  · unfold doTRouter
    split
    · exact h
    · exact h
  · unfold doTNet
    split
    · exact h
    · exact h
  · unfold doTGroup
    split
    · exact h
    · exact h
  · unfold doTKey
    split
    · exact left_finish h
    · split
      · exact left_finish h
      · exact left_finish h
  · exact h

/-- C115, partial: a TearDown() in which every call works leaves no server whose name begins with the resource name, except the one it runs
on. Missing: calls that fail (`C115_violated_server_left`). -/
theorem C115_servers_gone_partial (c : Cfg) (s t : S) (k : Nat) (hr : run c s (.tear :: List.replicate k (.next .ok)) = some t)
    (hp : t.pc = .idle) : ∀ x ∈ t.w.servers, c.name <+: x.name → x.name = c.own := by
  simp only [run, step] at hr
  split at hr
  · rename_i hi
    have key : ∀ {u : S} {k : Nat}, Left c u → run c u (List.replicate k (.next .ok)) = some t → Left c t := by
      intro u k
      induction k generalizing u with
      | zero => intro h hr; simp only [List.replicate, run, Option.some.injEq] at hr; exact hr ▸ h
      | succ k ih =>
        intro h hr
        simp only [List.replicate, run, step] at hr
        cases hs : next c u .ok with
        | none => rw [hs] at hr; simp at hr
        | some v => rw [hs] at hr; exact ih (left_next h hs) hr
    have := key (by simp [Left]) hr
    simp only [Left, hp] at this
    intro x hx hn
    by_cases e : x.name = c.own
    · exact e
    · exact (this x hx (Ne.symm e) (List.isPrefixOf_iff_prefix.2 hn)).elim
  · simp at hr

/-- two servers of ours are destroyed -/
example : ∃ s t, run al (start { shared with servers := [] }) ([.new] ++ deployOk ++ [.spawn ['y'], .spawn ['z']]) = some s ∧
    s.w.servers.length = 2 ∧ run al s (.tear :: List.replicate 9 (.next .ok)) = some t ∧ t.pc = .idle ∧ t.log.getLast? = some .tore := by
  refine ⟨_, _, rfl, ?_, rfl, ?_, ?_⟩ <;> decide +kernel

/-- C115 is violated: the cloud refuses to destroy a server. TearDown() reports success and removes the file; the server goes on running. -/
theorem C115_violated_server_left : ∃ t, run al (start { shared with servers := [] })
      ([.new] ++ deployOk ++ [.spawn ['z'], .tear, .next .ok, .next .fail] ++ List.replicate 6 (.next .ok)) = some t ∧
    t.log.getLast? = some .tore ∧ t.disk = .absent ∧ t.w.servers.map (·.name) = [al.name ++ "-z".toList] := by
  refine ⟨_, rfl, ?_, ?_, ?_⟩ <;> decide +kernel

/-! ### The file -/

theorem finish_disk (s : S) : (finish s).disk = s.disk := by
  unfold finish
  split
  · rfl
  · split
    · rfl
    · split <;> rfl

theorem finish_log (s : S) : (finish s).pc = .idle ∨ (finish s).log = s.log := by
  unfold finish
  split
  · exact .inl rfl
  · split
    · exact .inl rfl
    · split
      · exact .inr rfl
      · exact .inl rfl

/-- while tearing down -/
def Tearing (s₀ s : S) : Prop :=
  match s.pc with
  | .idle => s.disk = s₀.disk ∨ (s.disk = .absent ∧ s.log = s₀.log ++ [.tore])
  | .tList | .tSrv _ | .tIface _ | .tRouter | .tNet | .tGroup | .tKey | .tFile => s.disk = s₀.disk ∧ s.log = s₀.log
  | _ => False

theorem tearing_finish {s₀ s : S} (h : s.disk = s₀.disk ∧ s.log = s₀.log) : Tearing s₀ (finish s) := by
  unfold finish
  split
  · exact .inl h.1
  · split
    · exact .inl h.1
    · split
      · exact h
      · exact .inl h.1

theorem tearing_next {c : Cfg} {s₀ s t : S} {o : Out} (h : Tearing s₀ s) (hn : next c s o = some t) : Tearing s₀ t := by
  have as : ∀ u : S, (∃ l, u.pc = afterServers c l) → u.disk = s₀.disk ∧ u.log = s₀.log → Tearing s₀ u := by
    rintro u ⟨l, e⟩ hu
    unfold Tearing
    rcases afterServers_cases c l with a | a | a <;> rw [e, a.1] <;> exact hu
  unfold next at hn
  split at hn <;> rename_i hp <;> simp only [Option.some.injEq, reduceCtorEq] at hn <;> simp only [Tearing, hp] at h
  all_goals subst hn
  · unfold doList
    cases o
    · exact as _ ⟨_, rfl⟩ h
    · exact as _ ⟨[], rfl⟩ h
    · exact as _ ⟨[], rfl⟩ h
  · exact as _ ⟨_, rfl⟩ h
  · unfold doTIface
    split
    · exact h
    · exact h
    · split
      · exact h
      · dsimp only
        by_cases hl : o = .lost
        · simp only [hl, if_true]
          split
          · exact h
          · exact h
        · simp only [hl, if_false]
          split
          · exact h
          · exact h
  · unfold doTRouter
    split
    · exact h
    · cases o <;> exact h
  · unfold doTNet
    split
    · exact h
    · cases o <;> exact h
  · unfold doTGroup
    split
    · exact h
    · cases o <;> exact h
  · unfold doTKey
    split
    · exact tearing_finish h
    · split
      · cases o <;> exact tearing_finish h
      · exact tearing_finish h
  · unfold doFile
    cases o
    · exact .inr ⟨rfl, by simp [h.2]⟩
    · exact .inl h.1
    · exact .inr ⟨rfl, by simp [h.2]⟩

/-- C115: a TearDown() that does not report success leaves the file as it was, so that it can be tried again, also by another process. -/
theorem C115_file (c : Cfg) (s t : S) (os : List Out) (hr : run c s (.tear :: os.map .next) = some t) (hp : t.pc = .idle)
    (hl : t.log ≠ s.log ++ [.tore]) : t.disk = s.disk := by
  simp only [run, step] at hr
  split at hr
  · have key : ∀ {u : S} {os : List Out}, Tearing s u → run c u (os.map .next) = some t → Tearing s t := by
      intro u os
      induction os generalizing u with
      | nil => intro h hr; simp only [List.map_nil, run, Option.some.injEq] at hr; exact hr ▸ h
      | cons o os ih =>
        intro h hr
        simp only [List.map_cons, run, step] at hr
        cases hs : next c u o with
        | none => rw [hs] at hr; simp at hr
        | some v => rw [hs] at hr; exact ih (tearing_next h hs) hr
    have := key (by simp [Tearing]) hr
    simp only [Tearing, hp] at this
    rcases this with e | e
    · exact e
    · exact absurd e.2 hl
  · simp at hr

/-- the network could not be deleted; the file is still there -/
example : ∃ s t, run al (start shared) ([.new] ++ deployOk) = some s ∧
    run al s (.tear :: ([.ok, .ok, .ok, .ok, .fail, .ok, .ok] : List Out).map .next) = some t ∧ t.pc = .idle ∧
    t.log = s.log ++ [.tearFailed] ∧ ∃ r, t.disk = .saved r ∧ r.net.isSome := by
  refine ⟨_, _, rfl, rfl, ?_, ?_, _, rfl, ?_⟩ <;> decide +kernel

/-! ### What TearDown() reports -/

/-- tearing down, with an error so far -/
def Failing (s₀ s : S) : Prop :=
  match s.pc with
  | .idle => s.log = s₀.log ++ [.tearFailed]
  | .tSrv _ | .tIface _ | .tRouter | .tNet | .tGroup | .tKey => s.merr = true ∧ s.log = s₀.log
  | _ => False

theorem failing_finish {s₀ s : S} (h : s.merr = true ∧ s.log = s₀.log) : Failing s₀ (finish s) := by
  unfold finish
  rw [if_pos h.1]
  simp only [Failing]
  rw [h.2]

theorem failing_next {c : Cfg} {s₀ s t : S} {o : Out} (h : Failing s₀ s) (hn : next c s o = some t) : Failing s₀ t := by
  have as : ∀ u : S, (∃ l, u.pc = afterServers c l) → u.merr = true ∧ u.log = s₀.log → Failing s₀ u := by
    rintro u ⟨l, e⟩ hu
    unfold Failing
    rcases afterServers_cases c l with a | a | a <;> rw [e, a.1] <;> exact hu
  unfold next at hn
  split at hn <;> rename_i hp <;> simp only [Option.some.injEq, reduceCtorEq] at hn <;> simp only [Failing, hp] at h
  all_goals subst hn
  · exact as _ ⟨_, rfl⟩ h
  · unfold doTIface
    split
    · exact h
    · exact h
    · split
      · exact h
      · dsimp only
        by_cases hl : o = .lost
        · simp only [hl, if_true]
          split
          · exact ⟨by simp [h.1], h.2⟩
          · exact h
        · simp only [hl, if_false]
          split
          · exact ⟨by simp [h.1], h.2⟩
          · exact h
  · unfold doTRouter
    split
    · exact h
    · cases o
      · exact h
      · exact ⟨rfl, h.2⟩
      · exact ⟨rfl, h.2⟩
  · unfold doTNet
    split
    · exact h
    · cases o
      · exact h
      · exact ⟨rfl, h.2⟩
      · exact ⟨rfl, h.2⟩
  · unfold doTGroup
    split
    · exact h
    · cases o
      · exact h
      · exact ⟨rfl, h.2⟩
      · exact ⟨rfl, h.2⟩
  · unfold doTKey
    split
    · exact failing_finish h
    · split
      · cases o
        · exact failing_finish h
        · exact failing_finish ⟨rfl, h.2⟩
        · exact failing_finish ⟨rfl, h.2⟩
      · exact failing_finish h

/-- the call that is made now is one whose failure counts: the list of servers, the last try to remove the interface, the deletion of the
router, the network, the security group or the key pair -/
def counts (c : Cfg) (s : S) : Prop :=
  match s.pc with
  | .tList => True
  | .tIface k => k = 9 ∧ s.m.router ≠ none ∧ s.m.subnet ≠ none
  | .tRouter => s.m.router ≠ none
  | .tNet => s.m.net ≠ none
  | .tGroup => s.m.group ≠ none
  | .tKey => s.m.keypair ≠ none ∧ c.own = []
  | _ => False

/-- C115: if a call that counts fails, TearDown() reports an error. -/
theorem C115_reports (c : Cfg) (s t : S) (o : Out) (os : List Out) (hc : counts c s) (ho : o ≠ .ok)
    (hr : run c s (.next o :: os.map .next) = some t) (hp : t.pc = .idle) : t.log = s.log ++ [.tearFailed] := by
  simp only [run, step] at hr
  cases hs : next c s o with
  | none => rw [hs] at hr; simp at hr
  | some u =>
    rw [hs] at hr
    have hu : Failing s u := by
      unfold next at hs
      split at hs <;> rename_i hpc <;> simp only [Option.some.injEq, reduceCtorEq] at hs <;> simp only [counts, hpc] at hc
      all_goals subst hs
      · have : doList c s o = { s with merr := true, pc := afterServers c [] } := by
          unfold doList; cases o <;> first | rfl | exact absurd rfl ho
        rw [this]
        unfold Failing
        rcases afterServers_cases c [] with a | a | a <;> simp only [a.1]
        · exact ⟨trivial, trivial⟩
        · exact ⟨trivial, trivial⟩
        · exact ⟨trivial, trivial⟩
      · obtain ⟨rfl, hr1, hs1⟩ := hc
        obtain ⟨r, hr1⟩ := Option.ne_none_iff_exists'.1 hr1
        obtain ⟨sub, hs1⟩ := Option.ne_none_iff_exists'.1 hs1
        unfold doTIface
        rw [hr1, hs1]
        cases o
        · exact absurd rfl ho
        · simp [Failing]
        · simp [Failing]
      · obtain ⟨r, hr1⟩ := Option.ne_none_iff_exists'.1 hc
        unfold doTRouter
        rw [hr1]
        cases o
        · exact absurd rfl ho
        · simp [Failing]
        · simp [Failing]
      · obtain ⟨r, hr1⟩ := Option.ne_none_iff_exists'.1 hc
        unfold doTNet
        rw [hr1]
        cases o
        · exact absurd rfl ho
        · simp [Failing]
        · simp [Failing]
      · obtain ⟨r, hr1⟩ := Option.ne_none_iff_exists'.1 hc
        unfold doTGroup
        rw [hr1]
        cases o
        · exact absurd rfl ho
        · simp [Failing]
        · simp [Failing]
      · obtain ⟨r, hr1⟩ := Option.ne_none_iff_exists'.1 hc.1
        unfold doTKey
        rw [hr1]
        dsimp only
        rw [if_pos (by simp [hc.2])]
        cases o
        · exact absurd rfl ho
        · exact failing_finish ⟨rfl, rfl⟩
        · exact failing_finish ⟨rfl, rfl⟩
    have key : ∀ {u : S} {os : List Out}, Failing s u → run c u (os.map .next) = some t → Failing s t := by
      intro u os
      induction os generalizing u with
      | nil => intro h hr; simp only [List.map_nil, run, Option.some.injEq] at hr; exact hr ▸ h
      | cons o os ih =>
        intro h hr
        simp only [List.map_cons, run, step] at hr
        cases hs : next c u o with
        | none => rw [hs] at hr; simp at hr
        | some v => rw [hs] at hr; exact ih (failing_next h hs) hr
    have := key hu hr
    simp only [Failing, hp] at this
    exact this

/-- the interface cannot be removed at any of the ten tries, all else works -/
example : ∃ s t, run al (start shared) ([.new] ++ deployOk ++ [.tear, .next .ok, .next .ok] ++ List.replicate 9 (.next .fail)) = some s ∧
    s.pc = .tIface 9 ∧ s.m.router ≠ none ∧ s.m.subnet ≠ none ∧
    run al s (.next .fail :: ([.ok, .ok, .ok, .ok] : List Out).map .next) = some t ∧ t.pc = .idle := by
  refine ⟨_, _, rfl, ?_, ?_, ?_, rfl, ?_⟩ <;> decide +kernel

/-- tearing down, and nothing was done so far -/
def Undone (s₀ s : S) : Prop :=
  s.merr = false → s.did = false →
    s.w.servers = s₀.w.servers ∧ s.w.nets = s₀.w.nets ∧ s.w.groups = s₀.w.groups ∧
    (s.w.routers = s₀.w.routers ∨ ((∃ k, s.pc = .tIface k ∨ s.pc = .tRouter) ∧ ∃ r, s.m.router = some r ∧ s.w.routers.any (·.id = r) = true))

def Undoing (s₀ s : S) : Prop :=
  match s.pc with
  | .idle => s.log = s₀.log ++ [.nothing] → s.w.servers = s₀.w.servers ∧ s.w.nets = s₀.w.nets ∧ s.w.groups = s₀.w.groups ∧
      s.w.routers = s₀.w.routers
  | .tList => s.log = s₀.log ∧ s.merr = false ∧ s.w = s₀.w
  | .tSrv _ => s.log = s₀.log ∧ (s.did = true ∨ s.merr = true)
  | .tIface _ | .tRouter | .tNet | .tGroup | .tKey => s.log = s₀.log ∧ Undone s₀ s
  | .tFile => s.log = s₀.log
  | _ => False

theorem undoing_finish {s₀ s : S} (hl : s.log = s₀.log) (h : s.merr = false → s.did = false →
    s.w.servers = s₀.w.servers ∧ s.w.nets = s₀.w.nets ∧ s.w.groups = s₀.w.groups ∧ s.w.routers = s₀.w.routers) : Undoing s₀ (finish s) := by
  unfold finish
  split
  · simp only [Undoing]
    intro e; rw [hl] at e; simp at e
  · rename_i hm
    split
    · rename_i hd
      simp only [Undoing]
      exact fun _ => h (by simpa using hm) (by simpa using hd)
    · split
      · exact hl
      · simp only [Undoing]
        intro e; rw [hl] at e; simp at e

theorem undoing_next {c : Cfg} {s₀ s t : S} {o : Out} (h : Undoing s₀ s) (hn : next c s o = some t) : Undoing s₀ t := by
  have as : ∀ u : S, (∃ l, u.pc = afterServers c l ∧ (l ≠ [] → u.did = true ∨ u.merr = true)) → u.log = s₀.log → Undone s₀ u → Undoing s₀ u := by
    rintro u ⟨l, e, hd⟩ hu hn
    unfold Undoing
    rcases afterServers_cases c l with a | a | a <;> rw [e, a.1]
    · exact ⟨hu, hd a.2⟩
    · exact ⟨hu, hn⟩
    · exact ⟨hu, hn⟩
  unfold next at hn
  split at hn <;> rename_i hp <;> simp only [Option.some.injEq, reduceCtorEq] at hn <;> simp only [Undoing, hp] at h
  all_goals subst hn
  · obtain ⟨h1, h2, h3⟩ := h
    unfold doList
    cases o
    · refine as _ ⟨_, rfl, fun hne => .inl (by simpa using hne)⟩ h1 fun _ hd => ?_
      exact ⟨by rw [← h3], by rw [← h3], by rw [← h3], .inl (by rw [← h3])⟩
    · exact as _ ⟨[], rfl, fun e => absurd rfl e⟩ h1 fun e => by simp at e
    · exact as _ ⟨[], rfl, fun e => absurd rfl e⟩ h1 fun e => by simp at e
  · obtain ⟨h1, h2⟩ := h
    refine as _ ⟨_, rfl, fun _ => h2⟩ h1 fun a b => ?_
    rcases h2 with e | e
    · have b : s.did = false := b
      rw [e] at b; simp at b
    · have a : s.merr = false := a
      rw [e] at a; simp at a
  · obtain ⟨h1, h2⟩ := h
    have anyDel : ∀ r sub, (delIface r sub s.w.routers).any (fun x => decide (x.id = r)) = s.w.routers.any (fun x => decide (x.id = r)) := by
      intro r sub
      simp only [delIface, List.any_map]
      congr 1
      funext x
      simp only [Function.comp]
      split <;> rfl
    have idDel : ∀ r sub, s.w.routers.any (fun x => decide (x.id = r)) = false → delIface r sub s.w.routers = s.w.routers := by
      intro r sub hf
      simp only [List.any_eq_false, decide_eq_true_eq] at hf
      simp only [delIface]
      conv => rhs; rw [← List.map_id s.w.routers]
      exact List.map_congr_left fun x hx => if_neg (hf x hx)
    have del : ∀ (u : S) r sub, s.m.router = some r → u.merr = s.merr → u.did = s.did → u.w = { s.w with routers := delIface r sub s.w.routers } →
        u.m = s.m → (∃ k, u.pc = .tIface k ∨ u.pc = .tRouter) → Undone s₀ u := by
      intro u r sub hr a b d e f g i
      obtain ⟨x1, x2, x3, x4⟩ := h2 (a ▸ g) (b ▸ i)
      rw [d]
      refine ⟨x1, x2, x3, ?_⟩
      cases ha : s.w.routers.any (fun x => decide (x.id = r)) with
      | true => exact .inr ⟨f, r, by rw [e]; exact hr, by simp only [anyDel]; exact ha⟩
      | false =>
        rcases x4 with y | ⟨_, r', y1, y2⟩
        · exact .inl (by simp only [idDel _ _ ha]; exact y)
        · rw [hr] at y1
          simp only [Option.some.injEq] at y1
          subst y1
          rw [ha] at y2; simp at y2
    have same : ∀ (u : S), (u.merr = false → s.merr = false) → u.did = s.did → u.w = s.w →
        u.m = s.m → (∃ k, u.pc = .tIface k ∨ u.pc = .tRouter) → Undone s₀ u := by
      intro u a b d e f g i
      obtain ⟨x1, x2, x3, x4⟩ := h2 (a g) (b ▸ i)
      rw [d]
      refine ⟨x1, x2, x3, ?_⟩
      rcases x4 with y | ⟨_, r', y1, y2⟩
      · exact .inl y
      · exact .inr ⟨f, r', by rw [e]; exact y1, y2⟩
    unfold doTIface
    split
    · rename_i hr
      refine ⟨h1, fun a b => ?_⟩
      obtain ⟨x1, x2, x3, x4⟩ := h2 a b
      refine ⟨x1, x2, x3, .inl ?_⟩
      rcases x4 with y | ⟨_, r', y1, y2⟩
      · exact y
      · rw [hr] at y1; simp at y1
    · exact ⟨h1, same _ id rfl rfl rfl ⟨0, .inr rfl⟩⟩
    · rename_i r sub hr hsub
      split
      · exact ⟨h1, del _ r sub hr rfl rfl rfl rfl ⟨0, .inr rfl⟩⟩
      · dsimp only
        by_cases hl : o = .lost
        · simp only [hl, if_true]
          split
          · refine ⟨h1, fun a => ?_⟩
            simp at a
          · exact ⟨h1, del _ r sub hr rfl rfl rfl rfl ⟨_, .inl rfl⟩⟩
        · simp only [hl, if_false]
          split
          · exact ⟨h1, same _ (by simp; exact fun a _ => a) rfl rfl rfl ⟨0, .inr rfl⟩⟩
          · exact ⟨h1, same _ id rfl rfl rfl ⟨_, .inl rfl⟩⟩
  · obtain ⟨h1, h2⟩ := h
    unfold doTRouter
    split
    · rename_i hr
      refine ⟨h1, fun a b => ?_⟩
      obtain ⟨x1, x2, x3, x4⟩ := h2 a b
      refine ⟨x1, x2, x3, .inl ?_⟩
      rcases x4 with y | ⟨_, r', y1, y2⟩
      · exact y
      · rw [hr] at y1; simp at y1
    · rename_i r hr
      cases o
      · refine ⟨h1, fun a b => ?_⟩
        simp only [Bool.or_eq_false_iff] at b
        obtain ⟨x1, x2, x3, x4⟩ := h2 a b.1
        have hf : s.w.routers.filter (fun x => decide (x.id ≠ r)) = s.w.routers := by
          refine List.filter_eq_self.2 fun x hx => ?_
          have := List.any_eq_false.1 b.2 x hx
          simpa using this
        refine ⟨x1, x2, x3, .inl ?_⟩
        show s.w.routers.filter (fun x => decide (x.id ≠ r)) = _
        rw [hf]
        rcases x4 with y | ⟨_, r', y1, y2⟩
        · exact y
        · rw [hr] at y1
          simp only [Option.some.injEq] at y1
          subst y1
          rw [b.2] at y2; simp at y2
      · exact ⟨h1, fun a => by simp at a⟩
      · exact ⟨h1, fun a => by simp at a⟩
  · obtain ⟨h1, h2⟩ := h
    have nop : s.merr = false → s.did = false → s.w.routers = s₀.w.routers := by
      intro a b
      rcases (h2 a b).2.2.2 with y | ⟨⟨k, y⟩, _⟩
      · exact y
      · rw [hp] at y; simp at y
    unfold doTNet
    split
    · exact ⟨h1, fun a b => ⟨(h2 a b).1, (h2 a b).2.1, (h2 a b).2.2.1, .inl (nop a b)⟩⟩
    · rename_i n hr
      cases o
      · refine ⟨h1, fun a b => ?_⟩
        simp only [Bool.or_eq_false_iff] at b
        obtain ⟨x1, x2, x3, x4⟩ := h2 a b.1
        have hf : s.w.nets.filter (fun x => decide (x.id ≠ n)) = s.w.nets := by
          refine List.filter_eq_self.2 fun x hx => ?_
          have := List.any_eq_false.1 b.2 x hx
          simpa using this
        exact ⟨x1, by show s.w.nets.filter (fun x => decide (x.id ≠ n)) = _; rw [hf]; exact x2, x3, .inl (nop a b.1)⟩
      · exact ⟨h1, fun a => by simp at a⟩
      · exact ⟨h1, fun a => by simp at a⟩
  · obtain ⟨h1, h2⟩ := h
    have nop : s.merr = false → s.did = false → s.w.routers = s₀.w.routers := by
      intro a b
      rcases (h2 a b).2.2.2 with y | ⟨⟨k, y⟩, _⟩
      · exact y
      · rw [hp] at y; simp at y
    unfold doTGroup
    split
    · exact ⟨h1, fun a b => ⟨(h2 a b).1, (h2 a b).2.1, (h2 a b).2.2.1, .inl (nop a b)⟩⟩
    · rename_i n hr
      cases o
      · refine ⟨h1, fun a b => ?_⟩
        simp only [Bool.or_eq_false_iff] at b
        obtain ⟨x1, x2, x3, x4⟩ := h2 a b.1
        have hf : s.w.groups.filter (fun x => decide (x.id ≠ n)) = s.w.groups := by
          refine List.filter_eq_self.2 fun x hx => ?_
          have := List.any_eq_false.1 b.2 x hx
          simpa using this
        exact ⟨x1, x2, by show s.w.groups.filter (fun x => decide (x.id ≠ n)) = _; rw [hf]; exact x3, .inl (nop a b.1)⟩
      · exact ⟨h1, fun a => by simp at a⟩
      · exact ⟨h1, fun a => by simp at a⟩
  · obtain ⟨h1, h2⟩ := h
    have all : s.merr = false → s.did = false →
        s.w.servers = s₀.w.servers ∧ s.w.nets = s₀.w.nets ∧ s.w.groups = s₀.w.groups ∧ s.w.routers = s₀.w.routers := by
      intro a b
      obtain ⟨x1, x2, x3, x4⟩ := h2 a b
      rcases x4 with y | ⟨⟨k, y⟩, _⟩
      · exact ⟨x1, x2, x3, y⟩
      · rw [hp] at y; simp at y
    unfold doTKey
    split
    · exact undoing_finish h1 all
    · split
      · cases o
        · exact undoing_finish h1 all
        · exact undoing_finish h1 fun a => by simp at a
        · exact undoing_finish h1 fun a => by simp at a
      · exact undoing_finish h1 all
  · unfold doFile
    cases o
    · simp only [Undoing]
      intro e; rw [h] at e; simp at e
    · simp only [Undoing]
      intro e; rw [h] at e; simp at e
    · simp only [Undoing]
      intro e; rw [h] at e; simp at e

/-- C115: if TearDown() says that there was nothing to tear down, it has left all servers, routers, networks and security groups alone. -/
theorem C115_nothing (c : Cfg) (s t : S) (os : List Out) (hr : run c s (.tear :: os.map .next) = some t) (hp : t.pc = .idle)
    (hl : t.log = s.log ++ [.nothing]) :
    t.w.servers = s.w.servers ∧ t.w.nets = s.w.nets ∧ t.w.groups = s.w.groups ∧ t.w.routers = s.w.routers := by
  simp only [run, step] at hr
  split at hr
  · have key : ∀ {u : S} {os : List Out}, Undoing s u → run c u (os.map .next) = some t → Undoing s t := by
      intro u os
      induction os generalizing u with
      | nil => intro h hr; simp only [List.map_nil, run, Option.some.injEq] at hr; exact hr ▸ h
      | cons o os ih =>
        intro h hr
        simp only [List.map_cons, run, step] at hr
        cases hs : next c u o with
        | none => rw [hs] at hr; simp at hr
        | some v => rw [hs] at hr; exact ih (undoing_next h hs) hr
    have := key (by simp [Undoing]) hr
    simp only [Undoing, hp] at this
    exact this hl
  · simp at hr

example : ∃ s t, run al (start { shared with servers := [] }) [.new] = some s ∧
    run al s (.tear :: ([.ok, .ok, .ok, .ok, .ok] : List Out).map .next) = some t ∧ t.pc = .idle ∧ t.log = s.log ++ [.nothing] := by
  refine ⟨_, _, rfl, rfl, ?_, ?_⟩ <;> decide +kernel

/-- C115: in the name of a host, each run of characters that are not allowed there is one hyphen. -/
theorem C115_host_run (a b r : Name) (ha : ∀ x ∈ a, hostChar x = true) (hb : ∀ x ∈ b, hostChar x = true)
    (hr : ∀ x ∈ r, hostChar x = false) (hn : r ≠ []) : squash false (a ++ r ++ b) = a ++ '-' :: b := by
  have good : ∀ (v : Name) (k : Bool), (∀ x ∈ v, hostChar x = true) → squash k v = v := by
    intro v
    induction v with
    | nil => intro _ _; rfl
    | cons x v ih =>
      intro k h
      simp only [squash, h x (List.mem_cons_self ..), if_true, ih false fun y hy => h y (List.mem_cons_of_mem _ hy)]
  have bad : ∀ v : Name, (∀ x ∈ v, hostChar x = false) → squash true (v ++ b) = b := by
    intro v
    induction v with
    | nil => intro _; exact good b true hb
    | cons x v ih =>
      intro h
      simp only [List.cons_append, squash, h x (List.mem_cons_self ..), if_true, Bool.false_eq_true, if_false,
        ih fun y hy => h y (List.mem_cons_of_mem _ hy)]
  induction a with
  | nil =>
    cases r with
    | nil => exact absurd rfl hn
    | cons x r =>
      simp only [List.nil_append, List.cons_append, squash, hr x (List.mem_cons_self ..), Bool.false_eq_true, if_false,
        bad r fun y hy => hr y (List.mem_cons_of_mem _ hy)]
  | cons x a ih =>
    simp only [List.cons_append, squash, ha x (List.mem_cons_self ..), if_true]
    rw [ih fun y hy => ha y (List.mem_cons_of_mem _ hy)]

example : hostName "Wr-prod-A_. b-8ba5".toList = "wr-prod-a-b-8ba5".toList := by decide

/-- with a file that cannot be read, nothing can be done -/
theorem torn_stuck {c : Cfg} {s t : S} {es : List Ev} (hp : s.pc = .off) (hd : s.disk = .torn) (hr : run c s es = some t) :
    t.pc = .off ∧ t.disk = .torn ∧ t.w = s.w := by
  induction es generalizing s with
  | nil => simp only [run, Option.some.injEq] at hr; subst hr; exact ⟨hp, hd, rfl⟩
  | cons e es ih =>
    simp only [run] at hr
    cases e <;> simp only [step, hp, hd, next, if_true, reduceCtorEq, if_false, Option.bind_some, Option.bind_none] at hr
    obtain ⟨a, b, d⟩ := ih rfl rfl hr
    exact ⟨a, b, d⟩

/-- C115 is violated: Deploy() is killed while it writes the file. Then no process can ever deploy or tear down again, and all resources
stay. -/
theorem C115_violated_torn : ∃ s, run al (start shared) ([.new, .deploy] ++ List.replicate 10 (.next .ok) ++ [.kill]) = some s ∧
    s.w.routers.any (fun k => decide (k.name = al.name)) = true ∧
    (∀ es t, run al s es = some t → t.pc = .off ∧ t.w = s.w) ∧
    ∃ t, run al s [.new, .new] = some t ∧ t.log = s.log ++ [.newFailed, .newFailed] := by
  refine ⟨_, rfl, ?_, fun es t h => ?_, _, rfl, ?_⟩
  · decide +kernel
  · have := torn_stuck (by decide +kernel) (by decide +kernel) h
    exact ⟨this.1, this.2.2⟩
  · decide +kernel

/-! ### On a server of the cloud -/

structure In (c : Cfg) (w : World) (s : S) : Prop where
  nets : s.w.nets = w.nets
  routers : s.w.routers = w.routers
  groups : w.groups <+: s.w.groups
  le : w.next ≤ s.w.next
  pc : match s.pc with
    | .net | .subnet _ | .router | .iface _ | .unroute _ | .tIface _ | .tRouter | .tNet | .tGroup => False
    | .rules g _ => w.next ≤ g
    | _ => True
  sg : s.sg = [] ∨ s.sg = c.name
  kp : s.m.keypair = none ∨ s.m.keypair = some c.name
  dk : s.disk.res.keypair = none ∨ s.disk.res.keypair = some c.name
  keys : (∃ k ∈ w.keys, k.name = c.name) → s.w.keys = w.keys ∧ s.made = false

theorem In.same {c : Cfg} {w : World} {s t : S} (h : In c w s) (hw : t.w = s.w) (hsg : t.sg = [] ∨ t.sg = c.name)
    (hm : t.m.keypair = none ∨ t.m.keypair = some c.name) (hd : t.disk.res.keypair = none ∨ t.disk.res.keypair = some c.name)
    (hmade : (∃ k ∈ w.keys, k.name = c.name) → t.made = false)
    (hp : match t.pc with
      | .net | .subnet _ | .router | .iface _ | .unroute _ | .tIface _ | .tRouter | .tNet | .tGroup => False
      | .rules g _ => w.next ≤ g
      | _ => True) : In c w t :=
  ⟨by rw [hw]; exact h.nets, by rw [hw]; exact h.routers, by rw [hw]; exact h.groups, by rw [hw]; exact h.le, hp, hsg, hm, hd,
    fun e => ⟨by rw [hw]; exact (h.keys e).1, hmade e⟩⟩

theorem prefix_add {α : Type} {l l' m : List α} (h : l <+: l') : l <+: l' ++ m := by
  obtain ⟨k, rfl⟩ := h
  exact ⟨k ++ m, by simp⟩

theorem prefix_rule {l l' : List Group} {n g : Nat} {r : Option Nat} (h : l <+: l') (hl : ∀ x ∈ l, x.id < n) (hg : n ≤ g) :
    l <+: addRule g r l' := by
  obtain ⟨k, rfl⟩ := h
  refine ⟨addRule g r k, ?_⟩
  simp only [addRule, List.map_append]
  congr 1
  symm
  calc l.map _ = l.map id := List.map_congr_left fun x hx => by
        rw [if_neg (by have := hl x hx; omega)]; rfl
    _ = l := by simp

theorem in_step {c : Cfg} {w : World} {s t : S} {e : Ev} (ho : c.own ≠ []) (hg : ∀ x ∈ w.groups, x.id < w.next) (h : In c w s)
    (hs : step c s e = some t) : In c w t := by
  have ag : afterGroup c = .hostNet := by simp [afterGroup, ho]
  have fl : ∀ {u : S}, In c w u → In c w (failed u) := fun {u} hu =>
    hu.same rfl hu.sg hu.kp hu.dk (fun e => (hu.keys e).2) (by simp [failed])
  have fin : ∀ {u : S}, In c w u → In c w (finish u) := by
    intro u hu
    unfold finish
    split
    · exact hu.same rfl hu.sg hu.kp hu.dk (fun e => (hu.keys e).2) (by simp)
    · split
      · exact hu.same rfl hu.sg hu.kp hu.dk (fun e => (hu.keys e).2) (by simp)
      · split
        · exact hu.same rfl hu.sg hu.kp hu.dk (fun e => (hu.keys e).2) (by simp)
        · exact hu.same rfl hu.sg hu.kp hu.dk (fun e => (hu.keys e).2) (by simp)
  cases e <;> simp only [step] at hs
  case new =>
    split at hs
    · rename_i hp
      split at hs <;> rename_i hd <;> simp only [Option.some.injEq] at hs <;> subst hs
      · exact h.same rfl h.sg h.kp h.dk (fun e => (h.keys e).2) (by simp [hp])
      · exact h.same rfl (.inl rfl) (.inl rfl) h.dk (fun _ => rfl) (by simp)
      · have := h.dk
        rw [hd] at this
        exact h.same rfl (.inl rfl) this h.dk (fun _ => rfl) (by simp)
    · simp at hs
  case deploy =>
    split at hs
    · rename_i hp
      split at hs <;> simp only [Option.some.injEq] at hs <;> subst hs
      · exact h.same rfl h.sg h.kp h.dk (fun e => (h.keys e).2) (by simp)
      · exact h.same rfl h.sg h.kp h.dk (fun e => (h.keys e).2) (by simp [hp])
    · simp at hs
  case tear =>
    split at hs
    · simp only [Option.some.injEq] at hs
      subst hs
      exact h.same rfl h.sg h.kp h.dk (fun e => (h.keys e).2) (by simp)
    · simp at hs
  case kill =>
    split at hs
    · simp at hs
    · simp only [Option.some.injEq] at hs
      subst hs
      exact h.same rfl h.sg h.kp h.dk (fun e => (h.keys e).2) (by simp)
  case spawn u =>
    split at hs
    · rename_i hp
      simp only [Option.some.injEq] at hs
      subst hs
      exact ⟨h.nets, h.routers, h.groups, Nat.le_succ_of_le h.le, by simp [hp], h.sg, h.kp, h.dk, h.keys⟩
    · simp at hs
  case next o =>
    have hpc := h.pc
    unfold next at hs
    split at hs <;> rename_i hp <;> simp only [Option.some.injEq, reduceCtorEq] at hs <;> simp only [hp] at hpc
    all_goals subst hs
    · unfold doKey
      have pc : match (if c.ports = [] then afterGroup c else Pc.group) with
          | .net | .subnet _ | .router | .iface _ | .unroute _ | .tIface _ | .tRouter | .tNet | .tGroup => False
          | .rules g _ => w.next ≤ g
          | _ => True := by
        rw [ag]
        by_cases hc : c.ports = []
        · simp [hc]
        · simp [hc]
      by_cases ha : s.w.keys.any (fun k => decide (k.name = c.name))
      · rw [if_pos ha]
        by_cases hok : o = .ok
        · rw [if_pos hok]
          exact h.same rfl h.sg (.inr rfl) h.dk (fun e => (h.keys e).2) pc
        · rw [if_neg hok]
          exact fl h
      · rw [if_neg ha]
        have hno : ¬ ∃ k ∈ w.keys, k.name = c.name := by
          rintro ⟨k, hk, e⟩
          apply ha
          rw [(h.keys ⟨k, hk, e⟩).1]
          exact List.any_eq_true.2 ⟨k, hk, by simp [e]⟩
        cases o
        · exact ⟨h.nets, h.routers, h.groups, Nat.le_succ_of_le h.le, pc, h.sg, .inr rfl, h.dk, fun e => absurd e hno⟩
        · exact fl h
        · exact fl ⟨h.nets, h.routers, h.groups, Nat.le_succ_of_le h.le, h.pc, h.sg, h.kp, h.dk, fun e => absurd e hno⟩
    · unfold doGroup
      split
      · split
        · exact h.same rfl (.inr rfl) h.kp h.dk (fun e => (h.keys e).2) (by simp [ag])
        · exact fl h
      · cases o
        · exact ⟨h.nets, h.routers, prefix_add h.groups, Nat.le_succ_of_le h.le, h.le, h.sg, h.kp, h.dk, h.keys⟩
        · exact fl h
        · exact fl ⟨h.nets, h.routers, prefix_add h.groups, Nat.le_succ_of_le h.le, h.pc, h.sg, h.kp, h.dk, h.keys⟩
    · unfold doRule
      cases o
      · dsimp only
        split
        · exact ⟨h.nets, h.routers, prefix_rule h.groups hg hpc, h.le, by simp [ag], .inr rfl, h.kp, h.dk, h.keys⟩
        · exact ⟨h.nets, h.routers, prefix_rule h.groups hg hpc, h.le, hpc, h.sg, h.kp, h.dk, h.keys⟩
      · exact fl h
      · exact fl ⟨h.nets, h.routers, prefix_rule h.groups hg hpc, h.le, h.pc, h.sg, h.kp, h.dk, h.keys⟩
    · split
      · exact h.same rfl h.sg h.kp h.dk (fun e => (h.keys e).2) (by simp)
      · exact fl h
    · split
      · exact h.same rfl h.sg h.kp (.inl rfl) (fun e => (h.keys e).2) (by simp)
      · exact fl h
    · split
      · exact h.same rfl h.sg h.kp h.kp (fun e => (h.keys e).2) (by simp)
      · exact fl h
    · split
      · exact h.same rfl h.sg h.kp h.dk (fun e => (h.keys e).2) (by simp)
      · exact fl h
    · have as : ∀ l, match afterServers c l with
          | .net | .subnet _ | .router | .iface _ | .unroute _ | .tIface _ | .tRouter | .tNet | .tGroup => False
          | .rules g _ => w.next ≤ g
          | _ => True := by
        intro l
        by_cases hl : l = [] <;> simp [afterServers, hl, ho]
      unfold doList
      cases o
      · exact h.same rfl h.sg h.kp h.dk (fun e => (h.keys e).2) (as _)
      · exact h.same rfl h.sg h.kp h.dk (fun e => (h.keys e).2) (as [])
      · exact h.same rfl h.sg h.kp h.dk (fun e => (h.keys e).2) (as [])
    · have as : ∀ l, match afterServers c l with
          | .net | .subnet _ | .router | .iface _ | .unroute _ | .tIface _ | .tRouter | .tNet | .tGroup => False
          | .rules g _ => w.next ≤ g
          | _ => True := by
        intro l
        by_cases hl : l = [] <;> simp [afterServers, hl, ho]
      unfold doSrv
      by_cases hf : o = .fail
      · rw [if_pos hf]
        exact ⟨h.nets, h.routers, h.groups, h.le, as _, h.sg, h.kp, h.dk, h.keys⟩
      · rw [if_neg hf]
        exact ⟨h.nets, h.routers, h.groups, h.le, as _, h.sg, h.kp, h.dk, h.keys⟩
    · unfold doTKey
      split
      · exact fin h
      · rename_i k hk
        have hkn : k = c.name := by
          rcases h.kp with e | e <;> rw [hk] at e <;> simp at e
          exact e
        by_cases hc : (∃ k ∈ w.keys, k.name = c.name)
        · rw [if_neg]
          · exact fin h
          · rcases h.sg with e | e <;> simp [(h.keys hc).2, e, hkn, ho]
        · have inn : ∀ u : S, u.w.nets = s.w.nets → u.w.routers = s.w.routers → u.w.groups = s.w.groups → u.w.next = s.w.next →
              u.pc = s.pc → u.sg = s.sg → u.m.keypair = s.m.keypair → u.disk = s.disk → In c w u := by
            intro u a b d e f g i j
            exact ⟨a.trans h.nets, b.trans h.routers, by rw [d]; exact h.groups, by rw [e]; exact h.le, by rw [f]; exact h.pc,
              by rw [g]; exact h.sg, by rw [i]; exact h.kp, by rw [j]; exact h.dk, fun e => absurd e hc⟩
          split
          · cases o
            · exact fin (inn _ rfl rfl rfl rfl rfl rfl rfl rfl)
            · exact fin (inn _ rfl rfl rfl rfl rfl rfl rfl rfl)
            · exact fin (inn _ rfl rfl rfl rfl rfl rfl rfl rfl)
          · exact fin h
    · unfold doFile
      cases o
      · exact h.same rfl h.sg h.kp (.inl rfl) (fun e => (h.keys e).2) (by simp)
      · exact h.same rfl h.sg h.kp h.dk (fun e => (h.keys e).2) (by simp)
      · exact h.same rfl h.sg h.kp (.inl rfl) (fun e => (h.keys e).2) (by simp)

/-- C115: processes that run on a server of the cloud never change a network or a router, whatever they are called, keep all security groups
as they are (they may add one), and do not touch any key pair if there already was one with the resource name: the deployment they run in
is not damaged by them. -/
theorem C115_incloud (c : Cfg) (w : World) (es : List Ev) (t : S) (ho : c.own ≠ []) (hg : ∀ x ∈ w.groups, x.id < w.next)
    (hr : run c (start w) es = some t) :
    t.w.nets = w.nets ∧ t.w.routers = w.routers ∧ w.groups <+: t.w.groups ∧
      ((∃ k ∈ w.keys, k.name = c.name) → t.w.keys = w.keys) := by
  have := run_inv c (In c w) (fun _ _ _ hi hs => in_step ho hg hi hs)
    (⟨rfl, rfl, List.prefix_rfl, Nat.le_refl _, by simp [start], .inl rfl, .inl rfl, .inl rfl, fun _ => ⟨rfl, rfl⟩⟩ : In c w (start w)) hr
  exact ⟨this.nets, this.routers, this.groups, fun e => (this.keys e).1⟩

/-- alice's manager runs on alice's server: it deploys, spawns a server and tears down; only the new server is destroyed -/
example : let c : Cfg := { name := "wr-prod-alice".toList, ports := [22], own := "wr-prod-alice-x".toList }
    ∃ t, run c (start shared) ([.new, .deploy] ++ List.replicate 6 (.next .ok) ++ [.spawn ['z'], .tear] ++ List.replicate 4 (.next .ok)) = some t ∧
      t.log = [.deploying, .deployed, .tore] ∧ t.w.servers = shared.servers ∧ t.w.keys = shared.keys := by
  refine ⟨_, rfl, ?_, ?_, ?_⟩ <;> decide +kernel

end Verif.Cloud.Deploy
