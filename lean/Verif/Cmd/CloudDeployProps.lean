import Verif.Cmd.CloudDeploy
/-!
# C137: deploying to a cloud and tearing down keep the history
-/
namespace Verif.Cmd.CloudDeploy

/-- What may happen without history being lost. -/
def Careful (s3 : Bool) (w : World) : Ev → Prop
  | .dies => w.node = none
  | .deploy e =>
    w.node = none ∨ (∃ n, w.node = some n ∧ n.running = true ∧ e.connects = true) ∨
      (s3 = true ∧ e.status = true ∧ ∀ st, fatal true st = true → e.fails st = false)
  | .teardown force e => force = false ∧ (s3 = true → e.renames = true ∨ w.loc = none)
  | _ => True

/-- All events are. -/
def AllCareful (s3 : Bool) : World → List Ev → Prop
  | _, [] => True
  | w, e :: es => Careful s3 w e ∧ ∀ w', step s3 w e = some w' → AllCareful s3 w' es

structure Inv (s3 : Bool) (w : World) : Prop where
  noBk : s3 = false → w.bk = none
  bk : s3 = true → w.bk.getD [] = w.done
  off : w.node = none → startDb w.loc w.bk = w.done
  on : ∀ n, w.node = some n → n.db = some w.done

theorem effect_id (s3 : Bool) (st : Stage) (w : World) (h1 : st ≠ .db) (h2 : st ≠ .start) : effect s3 st w = w := by
  cases st <;> first | rfl | exact absurd rfl h1 | exact absurd rfl h2

/-- Stages that do nothing to the database can be passed. -/
theorem boot_skip (Q : World → Prop) (s3 : Bool) (fails : Stage → Bool) (existing started : Bool) (rest : List Stage) (w : World) :
    ∀ l : List Stage, (∀ st ∈ l, st ≠ .db ∧ st ≠ .start) → ((∃ st ∈ l, fatal existing st = true ∧ fails st = true) → Q { w with node := none }) →
      Q (boot s3 fails existing started rest w) → Q (boot s3 fails existing started (l ++ rest) w) := by
  intro l
  induction l with
  | nil => intro _ _ h; exact h
  | cons st l ih =>
    intro hl hd h
    have hst := hl st (by simp)
    have hrec := ih (fun x hx => hl x (by simp [hx])) (fun ⟨x, hx, h2⟩ => hd ⟨x, by simp [hx], h2⟩) h
    have hc : cannot st w = false := by simp [cannot, hst.2]
    rw [List.cons_append, boot, hc, effect_id s3 st w hst.1 hst.2, Bool.or_false]
    split
    · exact hrec
    · split
      · rename_i hf
        split
        · rename_i hfat
          exact hd ⟨st, by simp, hfat, hf⟩
        · exact hrec
      · exact hrec

theorem stages_eq : stages = [.exe] ++ (.db :: ([.config, .chmod, .resources, .keyWrite, .keyUpload, .certs, .env, .scripts] ++
    (.start :: ([.token, .forward, .connect] ++ [])))) := rfl

/-- A new node: all went well, or it was torn down. -/
theorem boot_new (s3 : Bool) (fails : Stage → Bool) (w : World) (hi : Inv s3 w) (hn : w.node = none) :
    Inv s3 (boot s3 fails false false stages { w with node := some { db := none, running := false } }) := by
  have h0 := hi.off hn
  have hdown : Inv s3 { w with node := none } := ⟨hi.noBk, hi.bk, fun _ => h0, (by intro n h; cases h)⟩
  obtain ⟨loc, bk, nd, dn⟩ := w
  simp only at hn
  subst hn
  have hup : Inv s3 { loc := loc, bk := bk, node := some { db := some dn, running := true }, done := dn } := by
    refine ⟨hi.noBk, hi.bk, (by intro h; cases h), ?_⟩
    intro n h
    cases h
    rfl
  have fs : ∀ st, fatal false st = true := by intro st; cases st <;> rfl
  have hs : (effect s3 .start (effect s3 .db ⟨loc, bk, some ⟨none, false⟩, dn⟩)) = ⟨loc, bk, some ⟨some dn, true⟩, dn⟩ := by
    cases s3 with
    | true =>
      have := hi.bk rfl
      simp only at this
      simp [effect, onNode, startDb, this]
    | false =>
      have hb := hi.noBk rfl
      simp only at hb
      subst hb
      cases loc with
      | none => simp [startDb] at h0; simp [effect, onNode, startDb, h0]
      | some h => simp [startDb] at h0; simp [effect, onNode, startDb, h0]
  have hdb : ∃ d, effect s3 .db ⟨loc, bk, some ⟨none, false⟩, dn⟩ = ⟨loc, bk, some ⟨d, false⟩, dn⟩ := by
    cases s3 with
    | true => exact ⟨none, rfl⟩
    | false =>
      cases loc with
      | none => exact ⟨none, rfl⟩
      | some h => exact ⟨some h, rfl⟩
  obtain ⟨d, hd⟩ := hdb
  rw [stages_eq]
  refine boot_skip (Inv s3) _ _ _ _ _ _ _ (by decide) (fun _ => ?_) ?_
  · exact hdown
  rw [boot, hd]
  simp only [Bool.false_and, Bool.false_eq_true, if_false, fs, if_true]
  split
  · exact hdown
  · refine boot_skip (Inv s3) _ _ _ _ _ _ _ (by decide) (fun _ => ?_) ?_
    · exact hdown
    rw [boot]
    simp only [Bool.false_and, Bool.false_eq_true, if_false, fs, if_true]
    split
    · exact hdown
    · rw [hd] at hs
      rw [hs]
      refine boot_skip (Inv s3) _ _ _ _ _ _ _ (by decide) (fun _ => ?_) ?_
      · exact hdown
      · exact hup

/-- An existing node, with a backup in S3: it stays, and a manager runs. -/
theorem boot_s3 (fails : Stage → Bool) (hf : ∀ st, fatal true st = true → fails st = false) (w : World) (n : Node) (hi : Inv true w)
    (hn : w.node = some n) : Inv true (boot true fails true (n.running && true) stages w) := by
  obtain ⟨loc, bk, nd, dn⟩ := w
  simp only at hn
  subst hn
  obtain ⟨db, rn⟩ := n
  have hd : db = some dn := hi.on _ rfl
  subst hd
  have hb : bk.getD [] = dn := hi.bk rfl
  have keep : ∀ r, Inv true { loc := loc, bk := bk, node := some { db := some dn, running := r }, done := dn } := by
    intro r
    refine ⟨(by intro h; cases h), fun _ => hb, (by intro h; cases h), ?_⟩
    intro n h
    cases h
    rfl
  have nf : ∀ {l : List Stage} {Q : Prop}, (∃ st ∈ l, fatal true st = true ∧ fails st = true) → Q := by
    rintro l Q ⟨st, _, h1, h2⟩
    rw [hf st h1] at h2
    cases h2
  rw [stages_eq]
  apply boot_skip (Inv true) _ _ _ _ _ _ _ (by decide) nf
  rw [boot]
  have hdb : ∀ w, effect true .db w = w := fun _ => rfl
  simp only [onlyNew, Bool.and_false, Bool.false_eq_true, if_false, hdb, fatal, Bool.not_true, ite_self]
  apply boot_skip (Inv true) _ _ _ _ _ _ _ (by decide) nf
  rw [boot]
  cases rn with
  | true =>
    simp only [onlyNew, Bool.and_true, if_true]
    exact boot_skip (Inv true) _ _ _ _ _ _ _ (by decide) nf (keep true)
  | false =>
    simp only [onlyNew, Bool.and_true, Bool.false_eq_true, if_false, hf .start rfl, cannot, Option.map_some, Option.getD_some, Bool.and_false,
      Bool.or_false]
    exact boot_skip (Inv true) _ _ _ _ _ _ _ (by decide) nf (keep true)

theorem inv_remove {s3 : Bool} {w : World} (e : TearEnv) (h : Inv s3 w) (h2 : startDb w.loc w.bk = w.done) : Inv s3 (remove e w) := by
  unfold remove
  split
  · exact ⟨h.noBk, h.bk, fun _ => h2, (by intro n hn; cases hn)⟩
  · exact h

theorem inv_stop {s3 : Bool} {w : World} (h : Inv s3 w) : Inv s3 (onNode (fun n => { n with running := false }) w) := by
  obtain ⟨loc, bk, nd, dn⟩ := w
  cases nd with
  | none => exact h
  | some n =>
    refine ⟨h.noBk, h.bk, (by intro hh; cases hh), ?_⟩
    intro m hm
    cases hm
    exact h.on n rfl

theorem inv_teardown (s3 : Bool) (e : TearEnv) (w : World) (h : Inv s3 w) (hr : s3 = true → e.renames = true ∨ w.loc = none) :
    Inv s3 (teardown s3 false e w) := by
  obtain ⟨loc, bk, nd, dn⟩ := w
  cases nd with
  | none => exact h
  | some n =>
    have hd := h.on n rfl
    unfold teardown
    simp only [Bool.false_eq_true, if_false, Bool.not_false, Bool.and_true]
    split
    · cases s3 with
      | true =>
        have hb := h.bk rfl
        simp only [Bool.not_true, Bool.false_and, Bool.false_eq_true, if_false, if_true]
        have w0 : Inv true ⟨none, bk, some n, dn⟩ := ⟨h.noBk, h.bk, (by intro hh; cases hh), h.on⟩
        by_cases her : e.renames = true
        · simp only [her, if_true]
          split
          · exact inv_remove e (inv_stop w0) hb
          · exact w0
        · simp only [her, if_false]
          have hl : loc = none := (hr rfl).resolve_left her
          subst hl
          split
          · exact inv_remove e (inv_stop w0) hb
          · exact w0
      | false =>
        simp only [Bool.not_false, Bool.true_and, Bool.false_eq_true, if_false]
        by_cases heb : e.backup = true
        · simp only [heb, if_true, Bool.not_true, Bool.false_eq_true, if_false]
          have w1 : Inv false ⟨n.db, bk, some n, dn⟩ := ⟨h.noBk, h.bk, (by intro hh; cases hh), h.on⟩
          split
          · refine inv_remove e (inv_stop w1) ?_
            show startDb n.db bk = dn
            rw [hd]
            rfl
          · exact w1
        · simp only [heb, Bool.not_false, if_true]
          exact h
    · exact h

theorem inv_step (s3 : Bool) (w w' : World) (e : Ev) (h : Inv s3 w) (hc : Careful s3 w e) (hs : step s3 w e = some w') : Inv s3 w' := by
  cases e with
  | work x =>
    cases hn : w.node with
    | none => simp [step, hn] at hs
    | some n =>
      have hd := h.on n hn
      simp only [step, hn] at hs
      split at hs
      · cases hs
        have e1 : startDb n.db w.bk = w.done := by rw [hd]; rfl
        refine ⟨?_, ?_, (by intro hh; cases hh), ?_⟩
        · intro hs3; simp [hs3, h.noBk hs3]
        · intro hs3; simp [hs3, e1]
        · intro m hm
          cases hm
          simp [e1]
      · cases hs
  | localWork x =>
    cases hn : w.node with
    | some n => simp [step, hn] at hs
    | none =>
      have e1 := h.off hn
      simp only [step, hn] at hs
      cases hs
      refine ⟨?_, ?_, ?_, (by intro m hm; cases hm)⟩
      · intro hs3; simp [hs3, h.noBk hs3]
      · intro hs3; simp [hs3, e1]
      · intro _; simp only [startDb, Option.getD_some]; rw [← e1]; rfl
  | ends =>
    simp only [step] at hs
    split at hs <;> cases hs
    exact inv_stop h
  | dies =>
    cases hs
    exact ⟨h.noBk, h.bk, fun _ => h.off hc, (by intro n hn; cases hn)⟩
  | deploy e =>
    cases hs
    unfold deploy
    cases hn : w.node with
    | none =>
      simp only
      split
      · exact boot_new s3 e.fails w h hn
      · exact h
    | some n =>
      simp only
      rcases hc with hc | ⟨m, hm, h1, h2⟩ | ⟨h1, h2, h3⟩
      · rw [hn] at hc; cases hc
      · rw [hn] at hm; cases hm
        simp [h1, h2, h]
      · subst h1
        split
        · exact h
        · rw [h2]
          exact boot_s3 e.fails h3 w n h hn
  | teardown force e =>
    cases hs
    obtain ⟨hf, hr⟩ := hc
    subst hf
    exact inv_teardown s3 e w h hr

theorem inv_run (s3 : Bool) : ∀ (es : List Ev) (w w' : World), Inv s3 w → AllCareful s3 w es → run s3 w es = some w' → Inv s3 w' := by
  intro es
  induction es with
  | nil => intro w w' h _ hr; cases hr; exact h
  | cons e es ih =>
    intro w w' h hc hr
    simp only [run, Option.bind_eq_some_iff] at hr
    obtain ⟨w1, h1, h2⟩ := hr
    exact ih w1 w' (inv_step s3 w w1 e h hc.1 h1) (hc.2 w1 h1) h2

theorem inv_init (s3 : Bool) : Inv s3 World.init :=
  ⟨fun _ => rfl, fun _ => rfl, fun _ => rfl, (by intro n h; cases h)⟩

/-- C137: the manager that is used next, in the cloud or locally, knows all that was recorded, if teardown is not forced, head nodes are not lost,
    and one deploys to an existing node only to connect to its manager again (or, with a backup in S3, without failures). Partial: see below. -/
theorem C137_history_partial (s3 : Bool) (es : List Ev) (w : World) (hc : AllCareful s3 World.init es) (h : run s3 World.init es = some w) :
    history w = w.done := by
  have hi := inv_run s3 es _ w (inv_init s3) hc h
  unfold history
  cases hn : w.node with
  | none => exact hi.off hn
  | some n => simp only; rw [hi.on n hn]; rfl

/-- C137: deploying again when the manager can be reached changes nothing. -/
theorem C137_again (s3 : Bool) (e : DeployEnv) (w : World) (n : Node) (h : w.node = some n) (hr : n.running = true) (hc : e.connects = true) :
    deploy s3 e w = w := by
  simp [deploy, h, hr, hc]

/-- C137: a teardown that is not forced never deletes the node while something it recorded is nowhere else, however it fails. -/
theorem C137_safe (s3 : Bool) (e : TearEnv) (w : World) (n : Node) (h : w.node = some n) (hs : s3 = false)
    (hd : (teardown s3 false e w).node = none) : (teardown s3 false e w).loc = n.db := by
  subst hs
  unfold teardown at hd ⊢
  simp only [h, Bool.false_eq_true, if_false, Bool.not_false, Bool.and_true, Bool.true_and] at hd ⊢
  by_cases h1 : (n.running && e.connects) = true
  · simp only [h1, if_true] at hd ⊢
    by_cases h2 : e.backup = true
    · simp only [h2, if_true, Bool.not_true, Bool.false_eq_true, if_false] at hd ⊢
      split
      · unfold remove onNode
        split <;> rfl
      · rfl
    · simp only [h2, Bool.not_false, if_true, h] at hd
      cases hd
  · simp only [h1] at hd
    simp [h] at hd

def ok : DeployEnv := { connects := true, status := true, spawns := true, fails := fun _ => false }

def tear : TearEnv := { connects := true, renames := true, backup := true, shutdown := true, removes := true }

/-- Deploy, work, lose the connection and get it again, tear down, work locally, deploy again. -/
def ordinary : List Ev := [.localWork 1, .deploy ok, .work 2, .deploy ok, .work 3, .teardown false tear, .localWork 4, .deploy ok, .work 5]

example : (run false World.init ordinary).map (fun w => (history w, w.loc)) = some ([1, 2, 3, 4, 5], some [1, 2, 3, 4]) := by decide
example : (run true World.init ordinary).map (fun w => (history w, w.loc)) = some ([1, 2, 3, 4, 5], some [1, 2, 3, 4]) := by decide

example (s3 : Bool) : AllCareful s3 World.init ordinary := by
  cases s3 <;>
  simp [AllCareful, Careful, ordinary, step, World.init, startDb, deploy, boot, ok, stages, onlyNew, cannot, fatal, effect, onNode, teardown, tear,
    remove]

/-- C137 is violated: deploying again after the manager in the cloud was stopped replaces its database by the old local one. -/
theorem C137_violated_again : ∃ es w, run false World.init es = some w ∧ w.done = [1, 2] ∧ history w = [1] ∧
    es.length = 5 := ⟨[.localWork 1, .deploy ok, .work 2, .ends, .deploy ok], _, rfl, by decide, by decide, rfl⟩

/-- C137 is violated: also while that manager runs, if it does not answer in time. -/
theorem C137_violated_running : ∃ w, run false World.init [.localWork 1, .deploy ok, .work 2, .deploy { ok with connects := false }] = some w ∧
    w.done = [1, 2] ∧ history w = [1] := ⟨_, rfl, by decide, by decide⟩

/-- C137 is violated: and if the config file cannot be written then, the running deployment is deleted with all it did. -/
theorem C137_violated_teardown : ∃ w,
    run false World.init [.deploy ok, .work 1, .deploy { ok with connects := false, fails := fun st => st = .config }] = some w ∧
      w.done = [1] ∧ w.node = none ∧ history w = [] := ⟨_, rfl, by decide, by decide, by decide⟩

/-- C137 is violated: draining the manager and then forcing a teardown, which is recommended with a backup in S3, leaves the old local database
    in place; what the next local manager does is then backed up over what was done in the cloud. -/
theorem C137_violated_drained : ∃ w,
    run true World.init [.localWork 1, .deploy ok, .work 2, .ends, .teardown true tear, .localWork 3] = some w ∧
      w.done = [1, 2, 3] ∧ history w = [1, 3] ∧ w.bk = some [1, 3] := ⟨_, rfl, by decide, by decide, by decide⟩

/-! ## The forwarders -/

/-- The process named in the file, if it runs, is ours. -/
def Ours (s : Fwd) : Prop := ∀ p b, s.file = some p → (p, b) ∈ s.procs → b = true

/-- No other program gets the pid of a forwarder that ended. -/
def NoReuse : Fwd → List FEv → Prop
  | _, [] => True
  | s, e :: es => (∀ p, e = .other p → s.file ≠ some p) ∧ ∀ s', fstep s e = some s' → NoReuse s' es

theorem fwd_step (s s' : Fwd) (e : FEv) (h : Ours s) (hk : ∀ x ∈ s.killed, x.2 = true) (hr : ∀ p, e = .other p → s.file ≠ some p)
    (hs : fstep s e = some s') : Ours s' ∧ ∀ x ∈ s'.killed, x.2 = true := by
  cases e with
  | forward p =>
    simp only [fstep] at hs
    split at hs
    · cases hs; exact ⟨h, hk⟩
    · split at hs
      · cases hs
      · rename_i hp
        cases hs
        refine ⟨?_, hk⟩
        intro q b hq hb
        cases hq
        rcases List.mem_cons.mp hb with hb | hb
        · cases hb; rfl
        · exact absurd (List.mem_map_of_mem (f := (·.1)) hb) hp
  | cleanup =>
    simp only [fstep] at hs
    split at hs
    · rename_i p hp
      cases hs
      refine ⟨(by intro q b hq; cases hq), ?_⟩
      intro x hx
      rcases List.mem_append.mp hx with hx | hx
      · exact hk x hx
      · obtain ⟨h1, h2⟩ := List.mem_filter.mp hx
        have hf : s.file = some p := (Option.filter_eq_some_iff.mp hp).1
        have : x.1 = p := by simpa using h2
        obtain ⟨x1, x2⟩ := x
        cases this
        exact h _ _ hf h1
    · cases hs
      exact ⟨(by intro q b hq; cases hq), hk⟩
  | gone p =>
    cases hs
    refine ⟨?_, hk⟩
    intro q b hq hb
    exact h q b hq (List.mem_filter.mp hb).1
  | other p =>
    simp only [fstep] at hs
    split at hs
    · cases hs
    · cases hs
      refine ⟨?_, hk⟩
      intro q b hq hb
      rcases List.mem_cons.mp hb with hb | hb
      · cases hb
        exact absurd hq (hr p rfl)
      · exact h q b hq hb

theorem fwd_run : ∀ (es : List FEv) (s s' : Fwd), Ours s → (∀ x ∈ s.killed, x.2 = true) → NoReuse s es → frun s es = some s' →
    ∀ x ∈ s'.killed, x.2 = true := by
  intro es
  induction es with
  | nil => intro s s' _ hk _ h; cases h; exact hk
  | cons e es ih =>
    intro s s' h hk hr hs
    simp only [frun, Option.bind_eq_some_iff] at hs
    obtain ⟨s1, h1, h2⟩ := hs
    obtain ⟨a, b⟩ := fwd_step s s1 e h hk hr.1 h1
    exact ih s1 s' a b (hr.2 s1 h1) h2

/-- C137: only processes that `wr` started are killed, if pids are not used again. Partial: see below. -/
theorem C137_kills_partial (es : List FEv) (s : Fwd) (hr : NoReuse Fwd.init es) (h : frun Fwd.init es = some s) :
    ∀ x ∈ s.killed, x.2 = true :=
  fwd_run es _ s (by intro p b hf; cases hf) (by intro x hx; cases hx) hr h

/-- C137: after forwarding was started the process in the file runs, and after cleaning up it does not. -/
theorem C137_forwards (s s' : Fwd) (p : Nat) (h : fstep s (.forward p) = some s') :
    (check s').isSome = true ∧ ∀ s'', fstep s' .cleanup = some s'' → s''.file = none ∧ ∀ q, s'.file = some q → q ∉ s''.procs.map (·.1) := by
  have hc : (check s').isSome = true := by
    simp only [fstep] at h
    split at h
    · rename_i hc; cases h; exact hc
    · split at h
      · cases h
      · cases h
        simp [check, Option.filter]
  refine ⟨hc, ?_⟩
  intro s'' hs
  simp only [fstep] at hs
  split at hs
  · rename_i q hq
    cases hs
    refine ⟨rfl, ?_⟩
    intro q' hq'
    have hf := (Option.filter_eq_some_iff.mp hq).1
    rw [hf] at hq'
    cases hq'
    intro hm
    obtain ⟨x, hx, rfl⟩ := List.mem_map.mp hm
    have := (List.mem_filter.mp hx).2
    simp at this
  · rename_i hq
    rw [hq] at hc
    cases hc

example : (frun Fwd.init [.forward 7, .gone 7, .other 8, .forward 9, .cleanup]).map (fun s => (s.killed, s.procs)) =
    some ([(9, true)], [(8, false)]) := by decide

example : NoReuse Fwd.init [.forward 7, .gone 7, .other 8, .forward 9, .cleanup] := by
  simp [NoReuse, fstep, Fwd.init, check, Option.filter]

/-- C137 is violated: when a forwarder has ended, say because the machine was restarted, another program that has its pid now is taken for it, and
    is killed. -/
theorem C137_violated_kills : ∃ s, frun Fwd.init [.forward 7, .gone 7, .other 7, .forward 9, .cleanup] = some s ∧ s.killed = [(7, false)] :=
  ⟨_, rfl, rfl⟩

end Verif.Cmd.CloudDeploy
