import Verif.Sched.K8s
/-!
# C135: Kubernetes is asked for what jobs need, and pods that end are noticed
-/
namespace Verif.Sched.K8s

/-! ## Resources -/

/-- C135: what is asked for is what the job needs, if that is whole cores. -/
theorem C135_requests_partial (r : Req) (h : r.cores % 1000 = 0) :
    (requests false r).cpu = r.cores ∧ (requests false r).mem = r.ram * 2 ^ 20 ∧ (requests false r).disk = r.disk * 2 ^ 30 := by
  refine ⟨?_, ?_, ?_⟩
  · simp only [requests, Bool.false_eq_true, if_false]
    omega
  · simp only [requests]
    omega
  · simp only [requests, Bool.false_eq_true, if_false]
    omega

example : (requests false ⟨500, 2000, 3⟩) = ⟨2000, 524288000, 3221225472⟩ := by decide

/-- C135: it is never more, and less than one core less. -/
theorem C135_requests_near (r : Req) : (requests false r).cpu ≤ r.cores ∧ r.cores < (requests false r).cpu + 1000 := by
  simp only [requests, Bool.false_eq_true, if_false]
  omega

/-- C135: the limits are not less than the job needs, and one with a fifth more memory is not killed. -/
theorem C135_limits (r : Req) :
    r.cores < (limits false r).1 ∧ (limits false r).1 ≤ r.cores + 1000 ∧
      ∀ used, used ≤ (r.ram + r.ram / 5) * 2 ^ 20 → used ≤ (limits false r).2 := by
  refine ⟨?_, ?_, ?_⟩
  · simp only [limits, Bool.false_eq_true, if_false]; omega
  · simp only [limits, Bool.false_eq_true, if_false]; omega
  · intro used h
    have e : (limits false r).2 = (r.ram + r.ram / 5) * 1024 * 1024 := rfl
    rw [e, Nat.mul_assoc]
    exact h

/-- C135 is violated: for a job that needs half a core no CPU is asked for. -/
theorem C135_violated_cores : ∃ r : Req, r.cores = 500 ∧ (requests false r).cpu = 0 := ⟨⟨100, 500, 0⟩, rfl, rfl⟩

/-- C135: a request is said to be possible just if a node is large enough; disks count if any node tells its disk. -/
theorem C135_check (nodes : List Node) (a : Amount) :
    (reqCheck nodes a).1 = true ↔
      ∃ n ∈ nodes, a.cpu ≤ n.cpu ∧ a.mem ≤ n.mem ∧ ((∃ m ∈ nodes, m.disk ≠ none) → a.disk ≤ n.disk.getD 0) := by
  have hs : nodes.any (fun n => n.disk.isSome) = true ↔ ∃ m ∈ nodes, m.disk ≠ none := by
    simp [Option.isSome_iff_ne_none]
  unfold reqCheck
  split
  · rename_i h
    simp only [List.any_eq_true, Bool.and_eq_true, decide_eq_true_eq]
    constructor
    · rintro ⟨n, hn, ⟨h1, h2⟩, h3⟩
      exact ⟨n, hn, h1, h3, fun _ => h2⟩
    · rintro ⟨n, hn, h1, h2, h3⟩
      exact ⟨n, hn, ⟨h1, h3 (hs.mp h)⟩, h2⟩
  · rename_i h
    simp only [List.any_eq_true, Bool.and_eq_true, decide_eq_true_eq]
    constructor
    · rintro ⟨n, hn, h1, h2⟩
      exact ⟨n, hn, h1, h2, fun hm => absurd (hs.mpr hm) h⟩
    · rintro ⟨n, hn, h1, h2, _⟩
      exact ⟨n, hn, h1, h2⟩

example : reqCheck [⟨4000, 100, none⟩, ⟨2000, 500, some 10⟩] ⟨3000, 50, 0⟩ = (true, true) ∧
    reqCheck [⟨4000, 100, none⟩, ⟨2000, 500, some 10⟩] ⟨3000, 50, 1⟩ = (false, true) ∧
    reqCheck [⟨4000, 100, none⟩] ⟨3000, 50, 1⟩ = (true, false) := by decide

/-- C135: a pod of a job that was said to be possible asks for what one of the nodes has. -/
theorem C135_fits (nodes : List Node) (debug : Bool) (r : Req) (h : (reqCheck nodes (requests debug r)).1 = true) :
    ∃ n ∈ nodes, (podRequests debug (reqCheck nodes (requests debug r)).2 r).cpu ≤ n.cpu ∧
      (podRequests debug (reqCheck nodes (requests debug r)).2 r).mem ≤ n.mem ∧
      (podRequests debug (reqCheck nodes (requests debug r)).2 r).disk ≤ n.disk.getD 0 := by
  obtain ⟨n, hn, h1, h2, h3⟩ := (C135_check _ _).mp h
  refine ⟨n, hn, h1, h2, ?_⟩
  unfold podRequests
  by_cases he : (reqCheck nodes (requests debug r)).2 = true
  · rw [he]
    apply h3
    unfold reqCheck at he
    split at he
    · rename_i hs
      simpa [Option.isSome_iff_ne_none] using hs
    · cases he
  · simp [he]

/-! ## The goroutines that check -/

/-- The requests of which there is still something to be said. -/
def Checks.open (s : Checks) : List Nat := s.pending ++ s.a.toList ++ s.b.toList

/-- What was asked in a run. -/
def asked : List CEv → List Nat
  | [] => []
  | .ask n :: es => n :: asked es
  | _ :: es => asked es

theorem count_step (s s' : Checks) (e : CEv) (h : cstep s e = some s') (n : Nat) :
    s'.open.count n + s'.answered.count n = s.open.count n + s.answered.count n + (asked [e]).count n := by
  obtain ⟨a, b, pd, an, nd⟩ := s
  cases e with
  | ask m => cases h; simp only [Checks.open, asked, List.count_append]; omega
  | node => cases h; simp [Checks.open, asked]
  | recvA =>
    cases a <;> cases pd <;> simp [cstep] at h
    subst h
    cases nd <;> simp [Checks.open, asked, handle, List.count_append, List.count_cons, List.count_nil] <;> omega
  | recvB =>
    cases b <;> cases pd <;> simp [cstep] at h
    subst h
    cases nd <;> simp [Checks.open, asked, handle, List.count_append, List.count_cons, List.count_nil] <;> omega
  | swapA =>
    cases a <;> cases b <;> simp [cstep] at h
    subst h
    cases nd <;> simp [Checks.open, asked, handle, List.count_append, List.count_cons, List.count_nil] <;> omega
  | swapB =>
    cases a <;> cases b <;> simp [cstep] at h
    subst h
    cases nd <;> simp [Checks.open, asked, handle, List.count_append, List.count_cons, List.count_nil] <;> omega

theorem asked_cons (e : CEv) (es : List CEv) : asked (e :: es) = asked [e] ++ asked es := by
  cases e <;> simp [asked]

theorem count_run : ∀ (es : List CEv) (s s' : Checks), crun s es = some s' → ∀ n,
    s'.open.count n + s'.answered.count n = s.open.count n + s.answered.count n + (asked es).count n := by
  intro es
  induction es with
  | nil => intro s s' h n; cases h; simp [asked]
  | cons e es ih =>
    intro s s' h n
    simp only [crun, Option.bind_eq_some_iff] at h
    obtain ⟨s1, h1, h2⟩ := h
    rw [ih s1 s' h2 n, count_step s s1 e h1 n, asked_cons e es, List.count_append]
    omega

/-- C135: no request is lost or answered twice. -/
theorem C135_kept (es : List CEv) (s : Checks) (h : crun Checks.init es = some s) (n : Nat) :
    s.open.count n + s.answered.count n = (asked es).count n := by
  rw [count_run es _ _ h n]
  simp [Checks.init, Checks.open]

theorem drain_pending : ∀ (k : Nat) (s : Checks), s.nodes = true → s.a = none → s.pending.length = k →
    ∃ es s', crun s es = some s' ∧ s'.pending = [] ∧ s'.a = none ∧ s'.b = s.b ∧ s'.nodes = true := by
  intro k
  induction k with
  | zero => intro s hn ha hk; exact ⟨[], s, rfl, List.length_eq_zero_iff.mp hk, ha, rfl, hn⟩
  | succ k ih =>
    intro s hn ha hk
    obtain ⟨a, b, pd, an, nd⟩ := s
    cases hn
    cases ha
    cases pd with
    | nil => cases hk
    | cons n ns =>
      obtain ⟨es, s', h1, h2⟩ := ih ⟨none, b, ns, an ++ [n], true⟩ rfl rfl (by simpa using hk)
      exact ⟨.recvA :: es, s', by simpa [crun, cstep, handle] using h1, h2⟩

/-- C135: when a node is known, and not both goroutines send, all requests can still be answered. Partial: see below. -/
theorem C135_answered_partial (s : Checks) (hn : s.nodes = true) (h : s.a = none ∨ s.b = none) :
    ∃ es s', crun s es = some s' ∧ s'.open = [] := by
  obtain ⟨a, b, pd, an, nd⟩ := s
  cases hn
  have key : ∀ (s : Checks), s.nodes = true → s.a = none → s.b = none → ∃ es s', crun s es = some s' ∧ s'.open = [] := by
    intro s hn ha hb
    obtain ⟨es, s', h1, h2, h3, h4, _⟩ := drain_pending _ s hn ha rfl
    refine ⟨es, s', h1, ?_⟩
    simp [Checks.open, h2, h3, h4, hb]
  cases a with
  | none =>
    cases b with
    | none => exact key _ rfl rfl rfl
    | some m =>
      obtain ⟨es, s', h1, h2⟩ := key ⟨none, none, pd, an ++ [m], true⟩ rfl rfl rfl
      exact ⟨.swapA :: es, s', by simpa [crun, cstep, handle] using h1, h2⟩
  | some m =>
    have hb : b = none := by simpa using h
    subst hb
    obtain ⟨es, s', h1, h2⟩ := key ⟨none, none, pd, an ++ [m], true⟩ rfl rfl rfl
    exact ⟨.swapB :: es, s', by simpa [crun, cstep, handle] using h1, h2⟩

/-- C135: once a node is known, no goroutine that waits comes to send again. -/
theorem C135_known (es : List CEv) : ∀ (s s' : Checks), s.nodes = true → (s.a = none ∨ s.b = none) → crun s es = some s' →
    s'.a = none ∨ s'.b = none := by
  induction es with
  | nil => intro s s' _ h hr; cases hr; exact h
  | cons e es ih =>
    intro s s' hn h hr
    simp only [crun, Option.bind_eq_some_iff] at hr
    obtain ⟨s1, h1, h2⟩ := hr
    obtain ⟨a, b, pd, an, nd⟩ := s
    cases hn
    have : s1.nodes = true ∧ (s1.a = none ∨ s1.b = none) := by
      cases e with
      | ask m => cases h1; exact ⟨rfl, h⟩
      | node => cases h1; exact ⟨rfl, h⟩
      | recvA => cases a <;> cases pd <;> simp [cstep] at h1; subst h1; simp [handle]
      | recvB => cases b <;> cases pd <;> simp [cstep] at h1; subst h1; simp [handle]
      | swapA => cases a <;> cases b <;> simp [cstep] at h1; subst h1; simp [handle]
      | swapB => cases a <;> cases b <;> simp [cstep] at h1; subst h1; simp [handle]
    exact ih s1 s' this.1 this.2 h2

theorem both_stuck : ∀ (es : List CEv) (s s' : Checks), s.a.isSome → s.b.isSome → crun s es = some s' →
    s'.a = s.a ∧ s'.b = s.b ∧ s'.answered = s.answered := by
  intro es
  induction es with
  | nil => intro s s' _ _ h; cases h; exact ⟨rfl, rfl, rfl⟩
  | cons e es ih =>
    intro s s' ha hb h
    simp only [crun, Option.bind_eq_some_iff] at h
    obtain ⟨s1, h1, h2⟩ := h
    obtain ⟨a, b, pd, an, nd⟩ := s
    cases a with
    | none => cases ha
    | some a =>
      cases b with
      | none => cases hb
      | some b =>
        cases e with
        | ask m => cases h1; have := ih _ s' (Option.isSome_some) (Option.isSome_some) h2; exact this
        | node => cases h1; have := ih _ s' (Option.isSome_some) (Option.isSome_some) h2; exact this
        | recvA => simp [cstep] at h1
        | recvB => simp [cstep] at h1
        | swapA => simp [cstep] at h1
        | swapB => simp [cstep] at h1

/-- C135 is violated: two jobs that are scheduled before any node is known are never answered, nor is any later one. -/
theorem C135_violated_checks : ∃ es s, crun Checks.init es = some s ∧ s.nodes = true ∧ s.open = [1, 2] ∧
    ∀ es' s', crun s es' = some s' → s'.answered = [] := by
  refine ⟨[.ask 1, .ask 2, .recvA, .recvB, .node], _, rfl, rfl, rfl, ?_⟩
  intro es' s' h
  exact (both_stuck es' _ s' rfl rfl h).2.2

/-! ## Scripts -/

/-- Calls one after the other. -/
def inTurn (jobs : List (Nat × Option Script)) : List SEv := jobs.flatMap fun j => [.begin j.1 j.2, .spawn j.1]

theorem turn_from (c : Script) : ∀ (jobs : List (Nat × Option Script)) (s : Scripts), s.calls = [] →
    (s.pods.map (·.1) ++ jobs.map (·.1)).Nodup →
    ∃ s', srun (some c) s (inTurn jobs) = some s' ∧ s'.pods = s.pods ++ jobs.map fun j => (j.1, some (j.2.getD c)) := by
  intro jobs
  induction jobs with
  | nil => intro s _ _; exact ⟨s, rfl, by simp⟩
  | cons j jobs ih =>
    intro s hc hd
    have hj : j.1 ∉ s.pods.map (·.1) := by
      intro hm
      rw [List.nodup_append] at hd
      exact hd.2.2 _ hm _ (by simp) rfl
    obtain ⟨n, own⟩ := j
    obtain ⟨s', h1, h2⟩ := ih ⟨some (own.getD c), [], s.pods ++ [(n, some (own.getD c))]⟩ rfl (by simpa using hd)
    refine ⟨s', ?_, ?_⟩
    · show srun (some c) s (.begin n own :: .spawn n :: inTurn jobs) = some s'
      have e1 : sstep (some c) s (.begin n own) = some ⟨some (own.getD c), [n], s.pods⟩ := by
        have : ¬ (n ∈ s.calls ∨ n ∈ s.pods.map (·.1)) := by rw [hc]; simp at hj ⊢; exact hj
        simp only [sstep]
        rw [if_neg this, hc]
        cases own <;> rfl
      have e2 : sstep (some c) ⟨some (own.getD c), [n], s.pods⟩ (.spawn n) = some ⟨some (own.getD c), [], s.pods ++ [(n, some (own.getD c))]⟩ := by
        simp [sstep]
      simp only [srun, e1, e2, Option.bind_some]
      exact h1
    · rw [h2]
      simp

/-- C135: with a config map, and pods started one after the other, each has the job's own script or that of the config map. Partial:
    see below. -/
theorem C135_scripts_partial (c : Script) (jobs : List (Nat × Option Script)) (h : (jobs.map (·.1)).Nodup) :
    ∃ s, srun (some c) (Scripts.init none) (inTurn jobs) = some s ∧ s.pods = jobs.map fun j => (j.1, some (j.2.getD c)) := by
  obtain ⟨s, h1, h2⟩ := turn_from c jobs (Scripts.init none) rfl (by simpa [Scripts.init] using h)
  exact ⟨s, h1, by simpa [Scripts.init] using h2⟩

example : (srun (some 9) (Scripts.init none) (inTurn [(1, some 5), (2, none), (3, some 6)])).map (·.pods) =
    some [(1, some 5), (2, some 9), (3, some 6)] := by decide

/-- C135: if no job has its own script, all pods have the script of the config map, or else the default one, in whatever order. -/
theorem C135_scripts_default (config dflt : Option Script) (hd : config = none ∨ dflt = none) (es : List SEv)
    (he : ∀ e ∈ es, ∀ n x, e ≠ .begin n (some x)) (s : Scripts) (h : srun config (Scripts.init dflt) es = some s) :
    ∀ p ∈ s.pods, p.2 = if config = none then dflt else config := by
  have inv : ∀ (es : List SEv) (s s' : Scripts), (∀ e ∈ es, ∀ n x, e ≠ .begin n (some x)) →
      (s.calls ≠ [] → s.name = if config = none then dflt else config) → (config = none → s.name = dflt) →
      (∀ p ∈ s.pods, p.2 = if config = none then dflt else config) → srun config s es = some s' →
      ∀ p ∈ s'.pods, p.2 = if config = none then dflt else config := by
    intro es
    induction es with
    | nil => intro s s' _ _ _ hp h; cases h; exact hp
    | cons e es ih =>
      intro s s' he hc hn hp h
      simp only [srun, Option.bind_eq_some_iff] at h
      obtain ⟨s1, h1, h2⟩ := h
      have he' : ∀ e ∈ es, ∀ n x, e ≠ .begin n (some x) := fun e hm => he e (List.mem_cons_of_mem _ hm)
      cases e with
      | begin n own =>
        cases own with
        | some x => exact absurd rfl (he _ (by simp) n x)
        | none =>
          simp only [sstep] at h1
          split at h1
          · cases h1
          · cases h1
            have k := fun a b c => ih _ s' he' a b c h2
            refine k ?_ ?_ hp
            · intro _
              cases config with
              | none => simpa using hn rfl
              | some c => simp
            · intro hc'
              subst hc'
              exact hn rfl
      | spawn n =>
        simp only [sstep] at h1
        split at h1
        · rename_i hm
          cases h1
          have k := fun a b c => ih _ s' he' a b c h2
          refine k ?_ hn ?_
          · intro _
            exact hc (List.ne_nil_of_mem hm)
          · intro p hm'
            rcases List.mem_append.mp hm' with hm' | hm'
            · exact hp p hm'
            · rw [List.mem_singleton.mp hm']
              exact hc (List.ne_nil_of_mem hm)
        · cases h1
  exact inv es (Scripts.init dflt) s he (fun h => absurd rfl h) (fun _ => rfl) (by intro p hp; cases hp) h

/-- C135 is violated: without a config map, a job without a script is run with the script of the job before. -/
theorem C135_violated_script : (srun none (Scripts.init (some 1)) (inTurn [(1, some 7), (2, none)])).map (·.pods) =
    some [(1, some 7), (2, some 7)] := by decide

/-- C135 is violated: two pods started at the same time may both have the script of one of the jobs. -/
theorem C135_violated_scripts : (srun (some 1) (Scripts.init none) [.begin 1 (some 7), .begin 2 none, .spawn 1, .spawn 2]).map (·.pods) =
    some [(1, some 1), (2, some 1)] := by decide

/-- C135: a command without single quotes is given to the pod as it is. Partial: see below. -/
theorem C135_cmd_partial (cmd : List Char) (h : '\'' ∉ cmd) : podCmd cmd = cmd := by
  unfold podCmd
  rw [List.filter_eq_self]
  intro c hc
  simp only [ne_eq, decide_eq_true_eq]
  rintro rfl
  exact h hc

/-- C135 is violated: an argument in single quotes becomes two. -/
theorem C135_violated_cmd : podCmd "wr runner -s 'my group'".toList = "wr runner -s my group".toList := by decide

/-! ## Files -/

/-- What is to be copied when the manager is deployed: the files below the home directory that exist. -/
def wanted (exist : Path → Bool) (hdir mount : File) (files : List Path) : List (File × File) :=
  (files.filter fun p => exist p && p.home).map fun p => (hdir ++ p.parts, mount ++ p.parts)

/-- A file that exists and is not below the home directory is named before one that is. -/
def Mixed (exist : Path → Bool) (files : List Path) : Prop :=
  ∃ l p m q r, files = l ++ p :: m ++ q :: r ∧ exist p = true ∧ p.home = false ∧ exist q = true ∧ q.home = true

theorem zip_home {α : Type} (f : Path → Nat → Option α) : ∀ (ps : List Path) (k : Nat), (∀ p ∈ ps, p.home = false) →
    ((ps.zipIdx k).filter (fun x => x.1.home)).mapM (fun x => f x.1 x.2) = some [] := by
  intro ps
  induction ps with
  | nil => intro k _; rfl
  | cons p ps ih =>
    intro k h
    rw [List.zipIdx_cons, List.filter_cons_of_neg (by simp [h p (by simp)])]
    exact ih (k + 1) fun q hq => h q (by simp [hq])

theorem deploy_good (hdir mount : File) : ∀ (ps : List Path) (pre : List File) (k : Nat), pre.length = k →
    (∀ l p m q r, ps = l ++ p :: m ++ q :: r → p.home = false → q.home = false) →
    ((ps.zipIdx k).filter (fun x => x.1.home)).mapM (fun x =>
      ((pre ++ (ps.filter (·.home)).map fun p => mount ++ p.parts)[x.2]?).map fun d => (hdir ++ x.1.parts, d)) =
      some ((ps.filter (·.home)).map fun p => (hdir ++ p.parts, mount ++ p.parts)) := by
  intro ps
  induction ps with
  | nil => intro pre k _ _; rfl
  | cons p ps ih =>
    intro pre k hk hm
    by_cases hp : p.home = true
    · have e := ih (pre ++ [mount ++ p.parts]) (k + 1) (by simp [hk]) (by
        intro l a m b r he
        exact hm (p :: l) a m b r (by simp [he]))
      rw [List.zipIdx_cons, List.filter_cons_of_pos (by simpa using hp), List.filter_cons_of_pos (by simpa using hp)]
      simp only [List.map_cons, List.mapM_cons, List.append_assoc, List.cons_append, List.nil_append] at e ⊢
      have h0 : (pre ++ (mount ++ p.parts) :: (ps.filter (·.home)).map fun p => mount ++ p.parts)[k]? = some (mount ++ p.parts) := by
        rw [List.getElem?_append_right (by omega)]
        simp [hk]
      rw [h0, e]
      rfl
    · have hp' : p.home = false := by simpa using hp
      have hall : ∀ q ∈ ps, q.home = false := by
        intro q hq
        obtain ⟨m, r, rfl⟩ := List.append_of_mem hq
        exact hm [] p m q r (by simp) hp'
      rw [List.zipIdx_cons, List.filter_cons_of_neg (by simpa using hp'), List.filter_cons_of_neg (by simpa using hp')]
      have hf : ps.filter (·.home) = [] := by
        rw [List.filter_eq_nil_iff]
        intro q hq
        simp [hall q hq]
      rw [hf]
      exact zip_home (fun p i => ((pre ++ ([] : List Path).map fun p => mount ++ p.parts)[i]?).map fun d => (hdir ++ p.parts, d)) ps (k + 1) hall

theorem split_filter {exist : Path → Bool} : ∀ {files l m r : List Path} {p q : Path}, files.filter exist = l ++ p :: m ++ q :: r →
    ∃ l' m' r', files = l' ++ p :: m' ++ q :: r' ∧ exist p = true ∧ exist q = true := by
  intro files l m r p q h
  have h' : files.filter exist = l ++ (p :: m ++ q :: r) := by simpa using h
  obtain ⟨a, b, rfl, ha, hb⟩ := List.filter_eq_append_iff.mp h'
  have hb' : b.filter exist = (p :: m) ++ q :: r := by simpa using hb
  obtain ⟨c, d, rfl, hc, hd⟩ := List.filter_eq_append_iff.mp hb'
  obtain ⟨c1, c2, rfl, _, hp, _⟩ := List.filter_eq_cons_iff.mp hc
  obtain ⟨d1, d2, rfl, _, hq, _⟩ := List.filter_eq_cons_iff.mp hd
  exact ⟨a ++ c1, c2 ++ d1, d2, by simp, hp, hq⟩

/-- C135: when the manager is deployed, the config files below the home directory that exist are copied, each to its place, if those not
    below it are named last. -/
theorem C135_deploy_partial (exist : Path → Bool) (hdir mount : File) (files : List Path) (h : ¬ Mixed exist files) :
    deployFiles exist hdir mount files = some (wanted exist hdir mount files) := by
  have e := deploy_good hdir mount (files.filter exist) [] 0 rfl (by
    intro l p m q r he hp
    obtain ⟨l', m', r', hf, h1, h2⟩ := split_filter he
    by_cases hq : q.home = true
    · exact absurd ⟨l', p, m', q, r', hf, h1, hp, h2, hq⟩ h
    · simpa using hq)
  simp only [List.nil_append] at e
  unfold deployFiles wanted
  rw [e, List.filter_filter]
  congr 3
  funext p
  exact Bool.and_comm _ _

/-- The index that a path has in `dests`, and if it is there. -/
theorem mapM_none {α β : Type} (f : α → Option β) : ∀ (l : List α) (x : α), x ∈ l → f x = none → l.mapM f = none := by
  intro l
  induction l with
  | nil => intro x h; cases h
  | cons a l ih =>
    intro x h hx
    rw [List.mapM_cons]
    rcases List.mem_cons.mp h with rfl | h
    · rw [hx]; rfl
    · cases f a with
      | none => rfl
      | some b => simp only [Option.bind_eq_bind, Option.bind_some]; rw [ih x h hx]; rfl

/-- C135 is violated: otherwise, always, the program crashes. -/
theorem C135_violated_deploy (exist : Path → Bool) (hdir mount : File) (files : List Path) (h : Mixed exist files) :
    deployFiles exist hdir mount files = none := by
  obtain ⟨l, p, m, q, r, rfl, hp, hph, hq, hqh⟩ := h
  -- the last file below the home directory has an index that is too large
  have hlast : ∀ (x : List Path), (∃ y ∈ x, y.home = true) → ∃ a z b, x = a ++ z :: b ∧ z.home = true ∧ ∀ y ∈ b, y.home = false := by
    intro x
    induction x with
    | nil => rintro ⟨y, hy, _⟩; cases hy
    | cons w x ih =>
      rintro ⟨y, hy, hyh⟩
      by_cases hx : ∃ y ∈ x, y.home = true
      · obtain ⟨a, z, b, rfl, h1, h2⟩ := ih hx
        exact ⟨w :: a, z, b, rfl, h1, h2⟩
      · rcases List.mem_cons.mp hy with rfl | hy
        · refine ⟨[], y, x, rfl, hyh, fun v hv => ?_⟩
          by_cases hvh : v.home = true
          · exact absurd ⟨v, hv, hvh⟩ hx
          · simpa using hvh
        · exact absurd ⟨y, hy, hyh⟩ hx
  obtain ⟨a, z, b, he, hz, hb⟩ := hlast ((m ++ q :: r).filter exist) ⟨q, by simp [hq], hqh⟩
  have hf : (l ++ p :: m ++ q :: r).filter exist = (l.filter exist ++ p :: a) ++ z :: b := by
    have : (l ++ p :: m ++ q :: r) = l ++ p :: (m ++ q :: r) := by simp
    rw [this, List.filter_append, List.filter_cons_of_pos hp, he]
    simp
  unfold deployFiles
  simp only [hf]
  apply mapM_none _ _ (z, (l.filter exist ++ p :: a).length)
  · rw [List.mem_filter]
    refine ⟨?_, hz⟩
    rw [List.mem_zipIdx_iff_getElem?]
    simp
  · rw [Option.map_eq_none_iff, List.getElem?_eq_none_iff, List.length_map]
    have hb0 : b.filter (·.home) = [] := by
      rw [List.filter_eq_nil_iff]
      intro y hy
      simp [hb y hy]
    rw [List.filter_append, List.filter_cons_of_pos (by simpa using hz), hb0, List.filter_append,
      List.filter_cons_of_neg (by simp [hph])]
    have h1 := List.length_filter_le (fun x : Path => x.home) (l.filter exist)
    have h2 := List.length_filter_le (fun x : Path => x.home) a
    simp only [List.length_append, List.length_cons, List.length_nil] at *
    omega

example : Mixed (fun _ => true) [⟨false, ["etc", "s3cfg"]⟩, ⟨true, [".s3cfg"]⟩] := ⟨[], _, [], _, [], rfl, rfl, rfl, rfl, rfl⟩

example : deployFiles (fun p => p.parts ≠ ["no"]) ["home", "ann"] ["wr-tmp"] [⟨true, ["a", "b"]⟩, ⟨true, ["no"]⟩, ⟨true, ["c"]⟩, ⟨false, ["x"]⟩] =
    some [(["home", "ann", "a", "b"], ["wr-tmp", "a", "b"]), (["home", "ann", "c"], ["wr-tmp", "c"])] := by decide

theorem zip_map {α : Type} (f g : α → File) : ∀ l : List α, (l.map f).zip (l.map g) = l.map fun x => (f x, g x) := by
  intro l
  induction l with
  | nil => rfl
  | cons a l ih => simp [ih]

/-- Where a path is in the pod. -/
def place (dir : File) (p : Path) : File := if p.home then dir ++ p.parts else p.parts

/-- C135: just these files are copied to the pods of runners: those that exist, each to the same place; and for pairs, those whose source
    exists, each to the place that was said. -/
theorem C135_files (exist rawExist : Path → Bool) (hdir mount : File) (es : List Entry) (x : File × File) :
    x ∈ podFiles exist rawExist hdir mount es ↔
      (∃ p, .one p ∈ es ∧ exist p = true ∧ x = (place hdir p, place mount p)) ∨
      (∃ a b, .pair a b ∈ es ∧ (a.parts.getLast? = some "client.token" ∨ rawExist a = true) ∧ x = (place hdir a, place mount b)) := by
  unfold podFiles rewriteDests
  simp only [List.map_map]
  rw [zip_map, zip_map]
  simp only [List.mem_append, List.mem_map, List.mem_filterMap, place]
  constructor
  · rintro (⟨p, ⟨e, he, h⟩, rfl⟩ | ⟨⟨a, b⟩, ⟨e, he, h⟩, rfl⟩)
    · cases e with
      | one q =>
        simp only [Option.ite_none_right_eq_some, Option.some.injEq] at h
        obtain ⟨h1, rfl⟩ := h
        exact Or.inl ⟨q, he, h1, rfl⟩
      | pair a b => cases h
    · cases e with
      | one q => cases h
      | pair c d =>
        simp only [Option.ite_none_right_eq_some, Option.some.injEq, Bool.or_eq_true, decide_eq_true_eq] at h
        obtain ⟨h1, h2⟩ := h
        obtain ⟨rfl, rfl⟩ := Prod.mk.inj h2
        exact Or.inr ⟨_, _, he, h1, rfl⟩
  · rintro (⟨p, he, h, rfl⟩ | ⟨a, b, he, h, rfl⟩)
    · exact Or.inl ⟨p, ⟨_, he, by simp [h]⟩, rfl⟩
    · exact Or.inr ⟨(a, b), ⟨_, he, by simp [h]⟩, rfl⟩

/-- C135 is violated: the source of a pair is looked for in a directory called `~`, so that a file in the home directory is not copied. -/
theorem C135_violated_pair (exist : Path → Bool) (hdir mount : File) :
    podFiles exist (fun p => !p.home && exist p) hdir mount [.pair ⟨true, [".s3cfg"]⟩ ⟨true, [".s3cfg2"]⟩] = [] := by
  simp [podFiles, rewriteDests]

/-! ## Waiting for pods -/

/-- What the phase was at some time. -/
def Ended (ok : Bool) (es : List PEv) : Prop := .change (if ok then .succeeded else .failed) ∈ es

def Teller.says : Teller → Option Bool
  | .new b => some b
  | .seen b => some b
  | .send b => some b
  | .close => none

/-- Whatever is told was so. -/
structure Honest (seen : List PEv) (s : Pod) : Prop where
  ok : s.phase = .succeeded → Ended true seen
  bad : s.phase = .failed → Ended false seen
  tells : ∀ t ∈ s.tellers, ∀ b, t.says = some b → Ended b seen
  got : ∀ b, s.got = some b → Ended b seen

theorem Ended.mono {b : Bool} {es : List PEv} (e : PEv) (h : Ended b es) : Ended b (es ++ [e]) := List.mem_append_left _ h

theorem Honest.mono {es : List PEv} {s : Pod} (e : PEv) (h : Honest es s) : Honest (es ++ [e]) s :=
  ⟨fun x => (h.ok x).mono e, fun x => (h.bad x).mono e, fun t ht b hb => (h.tells t ht b hb).mono e, fun b hb => (h.got b hb).mono e⟩

theorem honest_retry {es : List PEv} {s : Pod} (h : Honest es s) : Honest es (retry s) := by
  unfold retry
  split <;> exact ⟨h.ok, h.bad, h.tells, h.got⟩

theorem honest_process {es : List PEv} {s : Pod} (h : Honest es s) : Honest es (process s) := by
  unfold process
  split
  · rename_i hp
    split
    · refine ⟨h.ok, h.bad, ?_, h.got⟩
      intro t ht b hb
      rcases List.mem_append.mp ht with ht | ht
      · exact h.tells t ht b hb
      · rw [List.mem_singleton.mp ht] at hb
        cases hb
        exact h.ok hp
    · exact honest_retry h
  · rename_i hp
    split
    · refine ⟨h.ok, h.bad, ?_, h.got⟩
      intro t ht b hb
      rcases List.mem_append.mp ht with ht | ht
      · exact h.tells t ht b hb
      · rw [List.mem_singleton.mp ht] at hb
        cases hb
        exact h.bad hp
    · exact honest_retry h
  · exact ⟨h.ok, h.bad, h.tells, h.got⟩

theorem honest_tell {es : List PEv} {s s' : Pod} {i : Nat} (h : Honest es s) (hs : tell s i = some s') : Honest es s' := by
  unfold tell at hs
  have setOk : ∀ (t u : Teller), s.tellers[i]? = some t → (∀ b, u.says = some b → t.says = some b) →
      ∀ v ∈ s.tellers.set i u, ∀ b, v.says = some b → Ended b es := by
    intro t u ht hu v hv b hb
    rcases List.mem_or_eq_of_mem_set hv with hv | rfl
    · exact h.tells v hv b hb
    · exact h.tells t (List.mem_of_getElem? ht) b (hu b hb)
  have erOk : ∀ v ∈ s.tellers.eraseIdx i, ∀ b, v.says = some b → Ended b es :=
    fun v hv => h.tells v (List.mem_of_mem_eraseIdx hv)
  split at hs
  · cases hs
  · rename_i b hb
    split at hs <;> cases hs
    · exact ⟨h.ok, h.bad, erOk, h.got⟩
    · exact ⟨h.ok, h.bad, setOk _ _ hb (fun _ x => x), h.got⟩
  · rename_i b hb
    cases hs
    exact ⟨h.ok, h.bad, setOk _ _ hb (fun _ x => x), h.got⟩
  · rename_i b hb
    split at hs
    · cases hs
      exact ⟨h.ok, h.bad, h.tells, h.got⟩
    · split at hs
      · cases hs
        refine ⟨h.ok, h.bad, setOk _ _ hb (by intro _ x; cases x), ?_⟩
        intro c hc
        cases hc
        exact h.tells _ (List.mem_of_getElem? hb) _ rfl
      · cases hs
  · split at hs <;> cases hs
    · exact ⟨h.ok, h.bad, h.tells, h.got⟩
    · exact ⟨h.ok, h.bad, erOk, h.got⟩

theorem honest_step {es : List PEv} {s s' : Pod} {e : PEv} (h : Honest es s) (hs : pstep s e = some s') : Honest (es ++ [e]) s' := by
  cases e with
  | change p =>
    simp only [pstep] at hs
    split at hs <;> cases hs
    have h' := h.mono (.change p)
    refine ⟨?_, ?_, h'.tells, h'.got⟩
    · intro hp
      have hp : p = .succeeded := hp
      subst hp
      simp [Ended]
    · intro hp
      have hp : p = .failed := hp
      subst hp
      simp [Ended]
  | delete =>
    simp only [pstep] at hs
    split at hs <;> cases hs
    have h' := h.mono .delete
    exact ⟨(by intro x; cases x), (by intro x; cases x), h'.tells, h'.got⟩
  | register =>
    simp only [pstep] at hs
    split at hs <;> cases hs
    have h' := h.mono .register
    exact ⟨h'.ok, h'.bad, h'.tells, h'.got⟩
  | process =>
    simp only [pstep] at hs
    split at hs <;> cases hs
    exact honest_process (h.mono _)
  | tell i =>
    simp only [pstep] at hs
    split at hs
    · exact honest_tell (h.mono _) hs
    · cases hs
  | destroy =>
    simp only [pstep] at hs
    split at hs <;> cases hs
    have h' := h.mono .destroy
    exact ⟨(by intro x; cases x), (by intro x; cases x), h'.tells, h'.got⟩

theorem honest_run : ∀ (es pre : List PEv) (s s' : Pod), Honest pre s → prun s es = some s' → Honest (pre ++ es) s' := by
  intro es
  induction es with
  | nil => intro pre s s' h hr; cases hr; simpa using h
  | cons e es ih =>
    intro pre s s' h hr
    simp only [prun, Option.bind_eq_some_iff] at hr
    obtain ⟨s1, h1, h2⟩ := hr
    have := ih (pre ++ [e]) s1 s' (honest_step h h1) h2
    simpa using this

/-- C135: the command is told that its pod succeeded, or failed, only if it did. -/
theorem C135_told (es : List PEv) (s : Pod) (h : prun Pod.init es = some s) (b : Bool) (hb : s.got = some b) :
    .change (if b then .succeeded else .failed) ∈ es := by
  have := honest_run es [] Pod.init s ⟨(by intro x; cases x), (by intro x; cases x), (by intro t ht; cases ht), (by intro b hb; cases hb)⟩ h
  have h' := this.got b hb
  simpa [Ended] using h'

/-- Before the worker takes the pod again, the goroutines that it started have got beyond looking if the command was told. -/
def Calm : Pod → List PEv → Prop
  | _, [] => True
  | s, e :: es => (e = .process → ∀ t ∈ s.tellers, (∃ b, t = .send b) ∨ t = .close) ∧ ∀ s', pstep s e = some s' → Calm s' es

/-- The states of calm runs. -/
def Shape (s : Pod) : Prop :=
  s.panicked = false ∧
    ((s.done = false ∧ s.closed = false ∧ s.got = none ∧ (s.tellers = [] ∨ ∃ b, s.tellers = [.new b] ∨ s.tellers = [.seen b])) ∨
     (s.done = true ∧ s.closed = false ∧ s.got = none ∧ ∃ b, s.tellers = [.send b] ∨ ∃ c, s.tellers = [.send b, .new c]) ∨
     (s.done = true ∧ s.closed = false ∧ s.got ≠ none ∧ (s.tellers = [.close] ∨ ∃ c, s.tellers = [.close, .new c])) ∨
     (s.done = true ∧ s.closed = true ∧ s.got ≠ none ∧ (s.tellers = [] ∨ ∃ c, s.tellers = [.new c])))

theorem shape_tell (s s' : Pod) (i : Nat) (h : Shape s) (hs : tell s i = some s') : Shape s' := by
  obtain ⟨ph, q, r, k, d, c, ts, g, pn⟩ := s
  obtain ⟨hp, h⟩ := h
  cases hp
  have hi : i < ts.length := by
    rcases Nat.lt_or_ge i ts.length with hi | hi
    · exact hi
    · simp [tell, List.getElem?_eq_none hi] at hs
  rcases h with ⟨hd, hc, hg, h⟩ | ⟨hd, hc, hg, h⟩ | ⟨hd, hc, hg, h⟩ | ⟨hd, hc, hg, h⟩
  · simp only at hd hc hg h
    subst hd hc hg
    rcases h with h | ⟨b, h | h⟩ <;> subst h
    · exact absurd hi (by simp)
    · have : i = 0 := by simpa using hi
      subst this
      simp [tell] at hs
      subst hs
      simp [Shape]
    · have : i = 0 := by simpa using hi
      subst this
      simp [tell] at hs
      subst hs
      simp [Shape]
  · simp only at hd hc hg h
    subst hd hc hg
    rcases h with ⟨b, h | ⟨c, h⟩⟩ <;> subst h
    · have : i = 0 := by simpa using hi
      subst this
      simp [tell] at hs
      subst hs
      simp [Shape]
    · have : i = 0 ∨ i = 1 := by simp at hi; omega
      rcases this with this | this <;> subst this <;> simp [tell] at hs <;> subst hs <;> simp [Shape]
  · simp only at hd hc hg h
    subst hd hc
    rcases h with h | ⟨c, h⟩ <;> subst h
    · have : i = 0 := by simpa using hi
      subst this
      simp [tell] at hs
      subst hs
      simp [Shape, hg]
    · have : i = 0 ∨ i = 1 := by simp at hi; omega
      rcases this with this | this <;> subst this <;> simp [tell] at hs <;> subst hs <;> simp [Shape, hg]
  · simp only at hd hc hg h
    subst hd hc
    rcases h with h | ⟨c, h⟩ <;> subst h
    · exact absurd hi (by simp)
    · have : i = 0 := by simpa using hi
      subst this
      simp [tell] at hs
      subst hs
      simp [Shape, hg]

theorem shape_of {s s' : Pod} (h : Shape s) (h1 : s'.panicked = s.panicked) (h2 : s'.done = s.done) (h3 : s'.closed = s.closed)
    (h4 : s'.got = s.got) (h5 : s'.tellers = s.tellers) : Shape s' := by
  unfold Shape
  rw [h1, h2, h3, h4, h5]
  exact h

theorem shape_process (s : Pod) (h : Shape s) (hq : ∀ t ∈ s.tellers, (∃ b, t = .send b) ∨ t = .close) : Shape (process s) := by
  have add : ∀ (b : Bool) (q : Bool) (r : Nat), Shape { s with queued := q, retries := r, tellers := s.tellers ++ [.new b] } := by
    intro b q r
    obtain ⟨hp, h⟩ := h
    refine ⟨hp, ?_⟩
    rcases h with ⟨hd, hc, hg, h⟩ | ⟨hd, hc, hg, h⟩ | ⟨hd, hc, hg, h⟩ | ⟨hd, hc, hg, h⟩
    · refine Or.inl ⟨hd, hc, hg, ?_⟩
      rcases h with h | ⟨b, h | h⟩
      · simp [h]
      · simp [h] at hq
      · simp [h] at hq
    · refine Or.inr (Or.inl ⟨hd, hc, hg, ?_⟩)
      rcases h with ⟨b, h | ⟨c, h⟩⟩
      · simp [h]
      · simp [h] at hq
    · refine Or.inr (Or.inr (Or.inl ⟨hd, hc, hg, ?_⟩))
      rcases h with h | ⟨c, h⟩
      · simp [h]
      · simp [h] at hq
    · refine Or.inr (Or.inr (Or.inr ⟨hd, hc, hg, ?_⟩))
      rcases h with h | ⟨c, h⟩
      · simp [h]
      · simp [h] at hq
  unfold process retry
  split
  · split
    · exact add true false 0
    · split <;> exact shape_of h rfl rfl rfl rfl rfl
  · split
    · exact add false false 0
    · split <;> exact shape_of h rfl rfl rfl rfl rfl
  · exact shape_of h rfl rfl rfl rfl rfl

theorem shape_run : ∀ (es : List PEv) (s s' : Pod), Shape s → Calm s es → prun s es = some s' → Shape s' := by
  intro es
  induction es with
  | nil => intro s s' h _ hr; cases hr; exact h
  | cons e es ih =>
    intro s s' h hc hr
    simp only [prun, Option.bind_eq_some_iff] at hr
    obtain ⟨s1, h1, h2⟩ := hr
    refine ih s1 s' ?_ (hc.2 s1 h1) h2
    cases e with
    | tell i =>
      simp only [pstep] at h1
      split at h1
      · exact shape_tell s s1 i h h1
      · cases h1
    | process =>
      simp only [pstep] at h1
      split at h1 <;> cases h1
      exact shape_process s h (hc.1 rfl)
    | change p => simp only [pstep] at h1; split at h1 <;> cases h1; exact shape_of h rfl rfl rfl rfl rfl
    | delete => simp only [pstep] at h1; split at h1 <;> cases h1; exact shape_of h rfl rfl rfl rfl rfl
    | register => simp only [pstep] at h1; split at h1 <;> cases h1; exact shape_of h rfl rfl rfl rfl rfl
    | destroy => simp only [pstep] at h1; split at h1 <;> cases h1; exact shape_of h rfl rfl rfl rfl rfl

theorem shape_init : Shape Pod.init := by simp [Shape, Pod.init]

/-- C135: if the goroutines that tell are quick, the manager does not crash. Partial: see below. -/
theorem C135_no_panic_partial (es : List PEv) (s : Pod) (hc : Calm Pod.init es) (h : prun Pod.init es = some s) : s.panicked = false :=
  (shape_run es _ _ shape_init hc h).1

theorem prun_append (s : Pod) (xs ys : List PEv) : prun s (xs ++ ys) = (prun s xs).bind fun t => prun t ys := by
  induction xs generalizing s with
  | nil => rfl
  | cons x xs ih =>
    show (pstep s x).bind _ = _
    rw [prun, Option.bind_assoc]
    congr 1
    funext t
    exact ih t

/-- C135: and then the command of a pod that has ended, is known, and was reported, is told, without Kubernetes having to do any more. -/
theorem C135_ends_partial (es : List PEv) (s : Pod) (hc : Calm Pod.init es) (h : prun Pod.init es = some s) (b : Bool)
    (hp : s.phase = if b then .succeeded else .failed) (hk : s.known = true) (hq : s.queued = true) :
    ∃ es' s', prun s es' = some s' ∧ s'.got ≠ none ∧ ∀ e ∈ es', e = .process ∨ e = .tell 0 := by
  have hs := shape_run es _ _ shape_init hc h
  clear h hc
  obtain ⟨ph, q, r, k, d, c, ts, g, pn⟩ := s
  obtain ⟨hpn, hs⟩ := hs
  simp only at hpn hs hp hk hq
  subst hpn hp hk hq
  rcases hs with ⟨hd, hc, hg, h⟩ | ⟨hd, hc, hg, h⟩ | ⟨hd, hc, hg, h⟩ | ⟨hd, hc, hg, h⟩
  · subst hd hc hg
    rcases h with h | ⟨b', h | h⟩
    · subst h
      cases b <;> exact ⟨[.process, .tell 0, .tell 0, .tell 0], _, rfl, by simp, by simp⟩
    · subst h
      exact ⟨[.tell 0, .tell 0, .tell 0], _, rfl, by simp, by simp⟩
    · subst h
      exact ⟨[.tell 0, .tell 0], _, rfl, by simp, by simp⟩
  · subst hd hc hg
    rcases h with ⟨b', h | ⟨c, h⟩⟩
    · subst h
      exact ⟨[.tell 0], _, rfl, by simp, by simp⟩
    · subst h
      exact ⟨[.tell 0], _, rfl, by simp, by simp⟩
  · exact ⟨[], _, rfl, hg, by simp⟩
  · exact ⟨[], _, rfl, hg, by simp⟩

/-- A pod that fails, is reported twice, and of which the command is told. -/
def ordinary : List PEv :=
  [.register, .change .running, .process, .change .failed, .process, .tell 0, .tell 0, .change .failed, .process, .tell 0, .tell 0, .tell 0]

example : (prun Pod.init ordinary).any (fun s => s.got == some false && s.closed && s.tellers.isEmpty) = true := by decide

example : Calm Pod.init ordinary := by
  simp [Calm, ordinary, Pod.init, pstep, okChange, process, tell]

/-- C135 is violated: a pod that is reported twice just when it has ended makes the manager crash. -/
theorem C135_violated_panic : ∃ es s, prun Pod.init es = some s ∧ s.panicked = true ∧ s.phase = .succeeded := by
  refine ⟨[.register, .change .succeeded, .process, .change .succeeded, .process, .tell 0, .tell 1, .tell 0, .tell 1, .tell 0, .tell 0,
    .tell 0], _, rfl, rfl, rfl⟩

theorem never_told : ∀ (es : List PEv) (s s' : Pod), s.phase = .gone → s.tellers = [] → s.got = none → prun s es = some s' →
    s'.got = none := by
  intro es
  induction es with
  | nil => intro s s' _ _ hg h; cases h; exact hg
  | cons e es ih =>
    intro s s' hp ht hg h
    simp only [prun, Option.bind_eq_some_iff] at h
    obtain ⟨s1, h1, h2⟩ := h
    have : s1.phase = .gone ∧ s1.tellers = [] ∧ s1.got = none := by
      cases e with
      | change p =>
        simp only [pstep, hp] at h1
        split at h1
        · rename_i hh; cases p <;> simp [okChange] at hh
        · cases h1
      | delete => simp only [pstep] at h1; split at h1 <;> cases h1; exact ⟨rfl, ht, hg⟩
      | register => simp only [pstep] at h1; split at h1 <;> cases h1; exact ⟨hp, ht, hg⟩
      | process =>
        simp only [pstep] at h1
        split at h1 <;> cases h1
        unfold process
        rw [hp]
        exact ⟨rfl, ht, hg⟩
      | tell i =>
        simp only [pstep, tell, ht] at h1
        split at h1 <;> simp at h1
      | destroy => simp [pstep, hg] at h1
    exact ih s1 s' this.1 this.2.1 this.2.2 h2

/-- C135 is violated: if a running pod is deleted, or is lost with its node, the command is never told. -/
theorem C135_violated_deleted : ∃ es s, prun Pod.init es = some s ∧ s.known = true ∧ s.phase = .gone ∧
    ∀ es' s', prun s es' = some s' → s'.got = none := by
  refine ⟨[.register, .change .running, .process, .delete], _, rfl, rfl, rfl, ?_⟩
  intro es' s' h
  exact never_told es' _ s' rfl rfl rfl h

/-- C135 is violated: the scheduler for Kubernetes never starts. -/
theorem C135_violated_start (configMap script auth : Bool) : start configMap script auth ≠ .running := by
  cases configMap <;> cases script <;> cases auth <;> decide

end Verif.Sched.K8s
