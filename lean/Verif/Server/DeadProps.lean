/-
Properties of finding out that a job is dead (C114).
-/
import Verif.Server.Dead

namespace Verif.Server.Dead

/-! ### Specification -/

/-- the command of a reservation is running -/
def Alive (s : S) (r : Nat) : Prop := ∃ c, s.clients[r]? = some c ∧ c.alive = true

/-- what the server does by itself about a lost job -/
def Own : Ev → Prop
  | .check _ _ | .kill _ | .wake _ | .late _ | .behave _ => True
  | _ => False

/-- nothing of the following happens: a user kills the job; a runner is not heard of before it said that it started the command; what is
done about a reservation is done when there already is another -/
def Calm (s : S) : Ev → Prop
  | .ttr => s.started = true
  | .userKill => False
  | .kill i => ∀ r, s.threads[i]? = some (.kill r) → r = s.cur
  | .late i => ∀ r, s.threads[i]? = some (.release r) → r = s.cur
  | _ => True

def CalmRun : S → List Ev → Prop
  | _, [] => True
  | s, e :: es => Calm s e ∧ ∀ s', step s e = some s' → CalmRun s' es

/-! ### Lemmas -/

private theorem mem_set {α} {l : List α} {i : Nat} {t x y : α} (h : l[i]? = some x) (ht : t ∈ l) (hne : t ≠ x) : t ∈ l.set i y := by
  obtain ⟨k, hk⟩ := List.getElem?_of_mem ht
  have hki : i ≠ k := by rintro rfl; rw [h] at hk; cases hk; exact hne rfl
  exact List.mem_of_getElem? (i := k) (by rw [List.getElem?_set_ne hki]; exact hk)

private theorem mem_erase {α} {l : List α} {i : Nat} {t x : α} (h : l[i]? = some x) (ht : t ∈ l) (hne : t ≠ x) : t ∈ l.eraseIdx i := by
  obtain ⟨k, hk⟩ := List.getElem?_of_mem ht
  have hki : i ≠ k := by rintro rfl; rw [h] at hk; cases hk; exact hne rfl
  rcases Nat.lt_or_gt_of_ne hki with h1 | h1
  · refine List.mem_of_getElem? (i := k - 1) ?_
    rw [List.getElem?_eraseIdx_of_ge (by omega)]
    rw [show k - 1 + 1 = k by omega]; exact hk
  · refine List.mem_of_getElem? (i := k) ?_
    rw [List.getElem?_eraseIdx_of_lt h1]; exact hk

private theorem set_mem {α} {l : List α} {i : Nat} {t y : α} (h : t ∈ l.set i y) : t ∈ l ∨ t = y := by
  rcases List.mem_or_eq_of_mem_set h with h | h
  · exact Or.inl h
  · exact Or.inr h

private theorem become_mem {s : S} {i : Nat} {o : Option Thread} {t : Thread} (h : t ∈ (become s i o).threads) : t ∈ s.threads ∨ o = some t := by
  unfold become at h
  cases o with
  | some y =>
    rcases set_mem h with h | h
    · exact Or.inl h
    · exact Or.inr (by rw [h])
  | none => exact Or.inl (List.mem_of_mem_eraseIdx h)

/-- what holds in every state -/
private structure Inv (s : S) : Prop where
  proc : ∀ (r : Nat) (c : Client), s.clients[r]? = some c → (c.alive = true → c.proc ≠ none) ∧ ∀ h p, c.proc = some (h, p) → 0 < p
  cur : s.sub = .run → s.cur < s.clients.length
  check : ∀ r h p, Thread.check r h p ∈ s.threads → ∃ c, s.clients[r]? = some c ∧ c.proc = some (h, p)
  kill : ∀ r, Thread.kill r ∈ s.threads → ∃ c, s.clients[r]? = some c ∧ c.proc ≠ none ∧ c.alive = false
  here : s.sub = .run → s.started = true → ∃ c, s.clients[s.cur]? = some c ∧ c.proc = some (s.host, s.pid)
  exited : s.sub = .run → s.exited = false
  running : s.state = .running → s.sub = .run ∧ s.started = true

/-- the parts of the state that releasing and killing change -/
private structure Same (s s' : S) : Prop where
  clients : s'.clients = s.clients
  threads : s'.threads = s.threads
  cur : s'.cur = s.cur
  host : s'.host = s.host
  pid : s'.pid = s.pid
  started : s'.started = s.started
  lost : s'.lost = s.lost
  sub : s'.sub = s.sub ∨ s.sub = .run
  recovered : s'.recovered = s.recovered

private theorem release_same (s : S) (ex force : Bool) : Same s (release s ex force).1 := by
  unfold release
  cases hs : s.sub <;> simp only
  · exact ⟨rfl, rfl, rfl, rfl, rfl, rfl, rfl, by simp, rfl⟩
  · split
    · exact ⟨rfl, rfl, rfl, rfl, rfl, rfl, rfl, by simp, rfl⟩
    · split
      · exact ⟨rfl, rfl, rfl, rfl, rfl, rfl, rfl, by simp, rfl⟩
      · exact ⟨rfl, rfl, rfl, rfl, rfl, rfl, rfl, by simp [hs], rfl⟩
  · exact ⟨rfl, rfl, rfl, rfl, rfl, rfl, rfl, by simp [hs], rfl⟩
  · split
    · split
      · exact ⟨rfl, rfl, rfl, rfl, rfl, rfl, rfl, by simp, rfl⟩
      · exact ⟨rfl, rfl, rfl, rfl, rfl, rfl, rfl, by simp [hs], rfl⟩
    · exact ⟨rfl, rfl, rfl, rfl, rfl, rfl, rfl, by simp, rfl⟩
  · exact ⟨rfl, rfl, rfl, rfl, rfl, rfl, rfl, by simp, rfl⟩

private theorem release_sub (s : S) (ex force : Bool) : (release s ex force).1.sub ≠ .run := by
  unfold release
  cases hs : s.sub <;> simp only
  · simp [hs]
  · split
    · simp [hs]
    · split <;> simp [hs]
  · split <;> simp
  · split
    · split <;> simp [hs]
    · simp [hs]
  · simp [hs]

private theorem release_state (s : S) (ex force : Bool) (h : s.state = .running → s.sub = .run) : (release s ex force).1.state ≠ .running := by
  have key : s.sub ≠ .run → s.state ≠ .running := fun h1 h2 => h1 (h h2)
  unfold release
  cases hs : s.sub <;> simp only
  · exact key (by simp [hs])
  · split
    · exact key (by simp [hs])
    · split
      · exact key (by simp [hs])
      · repeat' split
        all_goals simp
  · repeat' split
    all_goals simp
  · split
    · split
      · exact key (by simp [hs])
      · repeat' split
        all_goals simp
    · exact key (by simp [hs])
  · exact key (by simp [hs])

private theorem release_kc (s : S) (ex force : Bool) : (release s ex force).1.killCalled = s.killCalled := by
  unfold release
  cases hs : s.sub <;> simp only <;> repeat' split
  all_goals rfl

private theorem kill_run (s : S) (h : s.sub = .run) :
    killJob s = if s.lost then release { s with killCalled := true } true false else ({ s with killCalled := true }, true) := by
  unfold killJob; simp only [h]

private theorem kill_not (s : S) (h : s.sub ≠ .run) : (killJob s).1 = s := by
  unfold killJob
  split
  · rfl
  · rename_i hs; exact absurd hs h
  · rfl

private theorem same_refl (s : S) : Same s s := ⟨rfl, rfl, rfl, rfl, rfl, rfl, rfl, Or.inl rfl, rfl⟩

private theorem kill_same (s : S) : Same s (killJob s).1 := by
  by_cases hs : s.sub = .run
  · rw [kill_run s hs]
    split
    · have h := release_same { s with killCalled := true } true false
      exact ⟨h.clients, h.threads, h.cur, h.host, h.pid, h.started, h.lost, Or.inr hs, h.recovered⟩
    · exact ⟨rfl, rfl, rfl, rfl, rfl, rfl, rfl, Or.inl rfl, rfl⟩
  · rw [kill_not s hs]; exact same_refl s

private theorem kill_lost (s : S) (hl : s.lost = true) : (killJob s).1.sub ≠ .run := by
  by_cases hs : s.sub = .run
  · rw [kill_run s hs, if_pos hl]; exact release_sub _ _ _
  · rw [kill_not s hs]; exact hs

private theorem kill_state (s : S) (h : s.state = .running → s.sub = .run) : (killJob s).1.state = .running → (killJob s).1.sub = .run := by
  by_cases hs : s.sub = .run
  · rw [kill_run s hs]
    split
    · intro h1; exact absurd h1 (release_state _ _ _ (fun _ => hs))
    · intro _; exact hs
  · rw [kill_not s hs]; exact h

private theorem kill_exited (s : S) (h : (killJob s).1.sub = .run) : (killJob s).1.exited = s.exited := by
  by_cases hs : s.sub = .run
  · rw [kill_run s hs] at h ⊢
    split
    · rename_i hl; rw [if_pos hl] at h; exact absurd h (release_sub _ _ _)
    · rfl
  · rw [kill_not s hs]

/-- a job that is still running after it was killed has the state it had -/
private theorem kill_still (s : S) (h : (killJob s).1.sub = .run) : (killJob s).1.state = s.state := by
  by_cases hs : s.sub = .run
  · rw [kill_run s hs] at h ⊢
    split
    · rename_i hl; rw [if_pos hl] at h; exact absurd h (release_sub _ _ _)
    · rfl
  · rw [kill_not s hs]

/-- an invariant only depends on some parts -/
private theorem inv_same {s s' : S} (v : Inv s) (h : Same s s') (hx : s'.sub = .run → s'.exited = s.exited)
    (hr : s'.state = .running → s'.sub = .run ∧ s'.started = true) : Inv s' where
  proc := by rw [h.clients]; exact v.proc
  cur := by
    intro h1
    have h2 : s.sub = .run := by rcases h.sub with h2 | h2 <;> simp_all
    rw [h.cur, h.clients]; exact v.cur h2
  check := by rw [h.threads, h.clients]; exact v.check
  kill := by rw [h.threads, h.clients]; exact v.kill
  here := by
    intro h1 h3
    have h2 : s.sub = .run := by rcases h.sub with h2 | h2 <;> simp_all
    rw [h.cur, h.clients, h.host, h.pid]
    rw [h.started] at h3
    exact v.here h2 h3
  exited := by
    intro h1
    have h2 : s.sub = .run := by rcases h.sub with h2 | h2 <;> simp_all
    rw [hx h1]; exact v.exited h2
  running := hr

private theorem inv_release {s : S} (v : Inv s) (ex force : Bool) : Inv (release s ex force).1 :=
  inv_same v (release_same s ex force) (fun h => absurd h (release_sub _ _ _))
    (fun h => absurd h (release_state _ _ _ (fun h => (v.running h).1)))

private theorem inv_kill {s : S} (v : Inv s) : Inv (killJob s).1 := by
  refine inv_same v (kill_same s) (kill_exited s) (fun h => ?_)
  have h1 := kill_state s (fun h => (v.running h).1) h
  refine ⟨h1, ?_⟩
  rw [(kill_same s).started]
  have h2 : s.sub = .run := by rcases (kill_same s).sub with h2 | h2 <;> simp_all
  have h3 : s.state = .running := by rw [← kill_still s h1]; exact h
  exact (v.running h3).2

private theorem inv_become {s : S} (v : Inv s) (i : Nat) (o : Option Thread)
    (hc : ∀ r h p, o = some (.check r h p) → ∃ c, s.clients[r]? = some c ∧ c.proc = some (h, p))
    (hk : ∀ r, o = some (.kill r) → ∃ c, s.clients[r]? = some c ∧ c.proc ≠ none ∧ c.alive = false) : Inv (become s i o) where
  proc := v.proc
  cur := v.cur
  check := by
    intro r h p ht
    rcases become_mem ht with ht | ht
    · exact v.check r h p ht
    · exact hc r h p ht
  kill := by
    intro r ht
    rcases become_mem ht with ht | ht
    · exact v.kill r ht
    · exact hk r ht
  here := v.here
  exited := v.exited
  running := v.running

/-- a change of one client that keeps its process, or gives one to a client that had none -/
private theorem inv_client {s : S} (v : Inv s) (r : Nat) (c c' : Client) (hr : s.clients[r]? = some c)
    (hp : c.proc ≠ none → c'.proc = c.proc ∧ (c.alive = false → c'.alive = false))
    (hn : (c'.alive = true → c'.proc ≠ none) ∧ ∀ h p, c'.proc = some (h, p) → 0 < p) : Inv { s with clients := s.clients.set r c' } := by
  have hlt : r < s.clients.length := (List.getElem?_eq_some_iff.mp hr).1
  have get : ∀ (x : Nat) (d : Client), s.clients[x]? = some d → d.proc ≠ none →
      ∃ d', (s.clients.set r c')[x]? = some d' ∧ d'.proc = d.proc ∧ (d.alive = false → d'.alive = false) := by
    intro x d hd hne
    by_cases hx : r = x
    · subst hx
      rw [hr] at hd; cases hd
      exact ⟨c', by simp [hlt], hp hne⟩
    · exact ⟨d, by rw [List.getElem?_set_ne hx]; exact hd, rfl, id⟩
  exact {
    proc := by
      intro x d hd
      by_cases hx : r = x
      · subst hx
        simp [hlt] at hd
        rw [← hd]; exact hn
      · rw [List.getElem?_set_ne hx] at hd; exact v.proc x d hd
    cur := by simpa using v.cur
    check := by
      intro x h p ht
      obtain ⟨d, hd, hdp⟩ := v.check x h p ht
      obtain ⟨d', h1, h2, -⟩ := get x d hd (by simp [hdp])
      exact ⟨d', h1, by rw [h2, hdp]⟩
    kill := by
      intro x ht
      obtain ⟨d, hd, hdp, hda⟩ := v.kill x ht
      obtain ⟨d', h1, h2, h3⟩ := get x d hd hdp
      exact ⟨d', h1, by rw [h2]; exact hdp, h3 hda⟩
    here := by
      intro h1 h2
      obtain ⟨d, hd, hdp⟩ := v.here h1 h2
      obtain ⟨d', h3, h4, -⟩ := get _ d hd (by simp [hdp])
      exact ⟨d', h3, by rw [h4, hdp]⟩
    exited := v.exited
    running := v.running }

private theorem append_get {α} {l : List α} {x : α} {r : Nat} {c : α} (h : l[r]? = some c) : (l ++ [x])[r]? = some c := by
  rw [List.getElem?_append_left (List.getElem?_eq_some_iff.mp h).1]; exact h

private theorem not_there {s : S} {h p r : Nat} {c : Client} (ht : there s h p = false) (hc : s.clients[r]? = some c) (hp : c.proc = some (h, p)) :
    c.alive = false := by
  unfold there at ht
  rw [List.any_eq_false] at ht
  have := ht c (List.mem_of_getElem? hc)
  simpa [hp] using this

private theorem inv_step {s s' : S} (v : Inv s) {e : Ev} (h : step s e = some s') : Inv s' := by
  cases e with
  | reserve =>
    simp only [step] at h
    split at h
    · rename_i hs
      cases h
      exact {
        proc := by
          intro r c hc
          simp only at hc
          by_cases hr : r < s.clients.length
          · rw [List.getElem?_append_left hr] at hc; exact v.proc r c hc
          · rw [List.getElem?_append_right (by omega)] at hc
            rcases Nat.eq_zero_or_pos (r - s.clients.length) with h0 | h0
            · rw [h0] at hc; simp at hc; subst hc; simp
            · rw [List.getElem?_eq_none (by simp; omega)] at hc; cases hc
        cur := by simp
        check := by
          intro r h p ht
          obtain ⟨c, h1, h2⟩ := v.check r h p ht
          exact ⟨c, append_get h1, h2⟩
        kill := by
          intro r ht
          obtain ⟨c, h1, h2⟩ := v.kill r ht
          exact ⟨c, append_get h1, h2⟩
        here := by simp
        exited := by simp
        running := by
          intro h1
          have := (v.running h1).1
          rw [hs] at this; cases this }
    · cases h
  | launch r host pid =>
    simp only [step] at h
    cases hc : s.clients[r]? with
    | none => simp [hc] at h
    | some c =>
      simp only [hc] at h
      split at h
      · rename_i hh
        cases h
        exact inv_client v r c _ hc (fun hne => absurd hh.1 hne) ⟨by simp, by
          intro h p hp
          simp at hp
          rw [← hp.2]; exact hh.2.2.1⟩
      · cases h
  | start r =>
    simp only [step] at h
    cases hc : s.clients[r]? with
    | none => simp [hc] at h
    | some c =>
      simp only [hc] at h
      cases hp : c.proc with
      | none => simp [hp] at h
      | some hpid =>
        obtain ⟨host, pid⟩ := hpid
        simp only [hp] at h
        split at h
        · rename_i hh
          cases h
          exact {
            proc := v.proc
            cur := v.cur
            check := v.check
            kill := v.kill
            here := fun _ _ => ⟨c, by rw [← hh.1]; exact hc, hp⟩
            exited := v.exited
            running := fun _ => ⟨hh.2.1, rfl⟩ }
        · cases h
  | touch r =>
    simp only [step] at h
    split at h
    · split at h
      · cases h; exact ⟨v.proc, v.cur, v.check, v.kill, v.here, v.exited, v.running⟩
      · cases h; exact ⟨v.proc, v.cur, v.check, v.kill, v.here, v.exited, v.running⟩
    · cases h
  | exit r =>
    simp only [step] at h
    cases hc : s.clients[r]? with
    | none => simp [hc] at h
    | some c =>
      simp only [hc] at h
      split at h
      · cases h
        exact inv_client v r c _ hc (fun _ => ⟨rfl, fun _ => rfl⟩) ⟨by simp, (v.proc r c hc).2⟩
      · cases h
  | done r how =>
    simp only [step] at h
    cases hc : s.clients[r]? with
    | none => simp [hc] at h
    | some c =>
      simp only [hc] at h
      split at h
      · have v1 := inv_client v r c { c with ended := true } hc (fun _ => ⟨rfl, fun h => h⟩) (v.proc r c hc)
        cases how with
        | archive =>
          simp only at h
          split at h
          · cases h
            exact ⟨v1.proc, by simp, v1.check, v1.kill, by simp, by simp, by simp⟩
          · cases h
        | release => simp only at h; cases h; exact inv_release v1 _ _
        | bury => simp only at h; cases h; exact inv_release v1 _ _
      · cases h
  | ttr =>
    simp only [step] at h
    split at h
    · rename_i hh
      cases h
      unfold ttr
      split
      · rename_i hst
        simp only [Bool.and_eq_true] at hst
        exact {
          proc := v.proc
          cur := v.cur
          check := by
            intro r h p ht
            simp only at ht
            split at ht
            · simp at ht; exact v.check r h p ht
            · split at ht
              · exact v.check r h p ht
              · simp at ht
                rcases ht with ht | ⟨rfl, rfl, rfl⟩
                · exact v.check r h p ht
                · exact v.here hh.1 hst.1
          kill := by
            intro r ht
            simp only at ht
            split at ht
            · simp at ht; exact v.kill r ht
            · split at ht
              · exact v.kill r ht
              · simp at ht; exact v.kill r ht
          here := v.here
          exited := v.exited
          running := v.running }
      · rename_i hst
        have hx := v.exited hh.1
        simp [hx] at hst
        exact ⟨v.proc, by simp, v.check, v.kill, by simp, by simp, by
          intro h1
          have := (v.running h1).2
          rw [hst] at this; cases this⟩
    · cases h
  | check i o =>
    simp only [step] at h
    split at h
    · rename_i r host pid ht
      obtain ⟨c, hc, hp⟩ := v.check r host pid (List.mem_of_getElem? ht)
      split at h
      · cases h
      · rename_i hno
        split at h
        · cases h; exact inv_become v i _ (by simp) (by simp)
        · rename_i ho
          cases h
          refine inv_become v i _ (by simp) ?_
          intro r' hr'
          simp at hr'
          subst hr'
          refine ⟨c, hc, by simp [hp], ?_⟩
          have ho : o = .notThere := by
            rcases Decidable.em (o = .notThere) with h | h
            · exact h
            · exact absurd (Or.inr h) ho
          exact not_there (by simpa [ho] using hno) hc hp
    · cases h
  | kill i =>
    simp only [step] at h
    split at h
    · cases h
      refine inv_become (inv_kill v) i _ ?_ ?_
      · intro r h p hh; split at hh <;> simp at hh
      · intro r hh; split at hh <;> simp at hh
    · cases h
  | behave i =>
    simp only [step] at h
    split at h
    · cases h
      have v1 : Inv { s with behaved := if s.sub = .gone then s.behaved else s.behaved + 1 } :=
        ⟨v.proc, v.cur, v.check, v.kill, v.here, v.exited, v.running⟩
      exact inv_become v1 i _ (by simp) (by simp)
    · cases h
  | wake i =>
    simp only [step] at h
    split at h
    · cases h
      refine inv_become v i _ ?_ ?_
      · intro r h p hh
        split at hh
        · rename_i hc
          simp at hh
          obtain ⟨rfl, rfl, rfl⟩ := hh
          exact v.here hc.1 (v.running hc.2.1).2
        · cases hh
      · intro r hh; split at hh <;> simp at hh
    · cases h
  | late i =>
    simp only [step] at h
    split at h
    · cases h; exact inv_become (inv_release v _ _) i _ (by simp) (by simp)
    · cases h
  | userKill => simp only [step] at h; cases h; exact inv_kill v
  | view =>
    simp only [step] at h
    split at h
    · cases h
      exact ⟨v.proc, v.cur, v.check, v.kill, v.here, v.exited, by
        intro h1
        simp only at h1
        split at h1 <;> cases h1⟩
    · cases h
  | delayOver =>
    simp only [step] at h
    split at h
    · rename_i hs
      cases h
      exact ⟨v.proc, by simp, v.check, v.kill, by simp, by simp, by
        intro h1
        have := (v.running h1).1
        rw [hs] at this; cases this⟩
    · cases h
  | kick =>
    simp only [step] at h
    split at h
    · cases h
      exact ⟨v.proc, by simp, v.check, v.kill, by simp, by simp, by simp⟩
    · cases h

private theorem run_inv (P : S → Prop) (hstep : ∀ s e s', P s → step s e = some s' → P s') : ∀ (es : List Ev) (s s' : S), P s → run s es = some s' → P s'
  | [], s, s', h, hr => by cases hr; exact h
  | e :: es, s, s', h, hr => by
    simp only [run] at hr
    cases hs : step s e with
    | none => simp [hs] at hr
    | some t =>
      simp only [hs, Option.bind_some] at hr
      exact run_inv P hstep es t s' (hstep s e t h hs) hr

private theorem inv_added (n : Nat) : Inv (added n) := by
  constructor <;> simp [added]

private theorem inv_recovered (n l h p : Nat) (hp : 0 < p) : Inv (recovered n l h p) := by
  constructor <;> simp [recovered]
  · intro r c hc
    cases r with
    | zero =>
      simp at hc; subst hc
      simpa using hp
    | succ r => simp at hc

/-- C114: when the server is about to give up a job since its process is gone, the command of the reservation that it looked for is not
running. -/
theorem C114_checked (n : Nat) (es : List Ev) (s : S) (h : run (added n) es = some s) (r : Nat) (hk : Thread.kill r ∈ s.threads) :
    ¬ Alive s r := by
  have v := run_inv Inv (fun _ _ _ v h => inv_step v h) es _ _ (inv_added n) h
  rintro ⟨c, hc, ha⟩
  obtain ⟨d, hd, -, hd2⟩ := v.kill r hk
  rw [hc] at hd; cases hd; rw [ha] at hd2; cases hd2

/-! ### One command at a time -/

private structure InvC (s : S) : Prop where
  inv : Inv s
  others : ∀ (r : Nat) (c : Client), s.clients[r]? = some c → (r ≠ s.cur ∨ s.sub ≠ .run) → c.alive = false ∧ (c.proc = none → c.ended = true)
  killed : s.sub = .run → s.started = true → s.killCalled = true → ∃ c, s.clients[s.cur]? = some c ∧ c.alive = false
  release : ∀ r, Thread.release r ∈ s.threads → ∃ c, s.clients[r]? = some c ∧ c.proc ≠ none ∧ c.alive = false

private theorem c_become {s : S} (v : InvC s) (i : Nat) (o : Option Thread) (hi : Inv (become s i o)) (hr : ∀ r, o ≠ some (.release r)) : InvC (become s i o) where
  inv := hi
  others := v.others
  killed := v.killed
  release := by
    intro r ht
    rcases become_mem ht with ht | ht
    · exact v.release r ht
    · exact absurd ht (hr r)

private theorem c_client {s : S} (v : InvC s) (r : Nat) (c c' : Client) (hr : s.clients[r]? = some c) (hi : Inv { s with clients := s.clients.set r c' })
    (hp : c.alive = false → c.proc ≠ none → c'.alive = false ∧ c'.proc ≠ none)
    (ho : c.alive = false → (c.proc = none → c.ended = true) → c'.alive = false ∧ (c'.proc = none → c'.ended = true))
    (hk : s.sub = .run → s.started = true → r = s.cur → c.alive = false → c'.alive = false) :
    InvC { s with clients := s.clients.set r c' } := by
  have hlt : r < s.clients.length := (List.getElem?_eq_some_iff.mp hr).1
  exact {
    inv := hi
    others := by
      intro x d hd hx
      by_cases h : r = x
      · subst h
        simp [hlt] at hd
        subst hd
        have := v.others r c hr hx
        exact ho this.1 this.2
      · rw [List.getElem?_set_ne h] at hd; exact v.others x d hd hx
    killed := by
      intro h1 h2 h3
      obtain ⟨d, hd, hda⟩ := v.killed h1 h2 h3
      by_cases h : r = s.cur
      · subst h
        rw [hr] at hd; cases hd
        exact ⟨c', by simp [hlt], hk h1 h2 rfl hda⟩
      · exact ⟨d, by simp only; rw [List.getElem?_set_ne h]; exact hd, hda⟩
    release := by
      intro x ht
      obtain ⟨d, hd, hd1, hd2⟩ := v.release x ht
      by_cases h : r = x
      · subst h
        rw [hr] at hd; cases hd
        have := hp hd2 hd1
        exact ⟨c', by simp [hlt], this.2, this.1⟩
      · exact ⟨d, by simp only; rw [List.getElem?_set_ne h]; exact hd, hd1, hd2⟩ }

/-- the job leaves the run queue, and the command of its reservation is dead -/
private theorem c_leave {s s' : S} (v : InvC s) (hs : Same s s') (hi : Inv s') (hn : s'.sub ≠ .run)
    (hd : s.sub = .run → ∃ c, s.clients[s.cur]? = some c ∧ c.alive = false ∧ (c.proc = none → c.ended = true)) : InvC s' where
  inv := hi
  others := by
    intro r c hc _
    rw [hs.clients] at hc
    by_cases h1 : s.sub = .run
    · by_cases h2 : r = s.cur
      · obtain ⟨d, hd1, hd2, hd3⟩ := hd h1
        rw [h2, hd1] at hc; cases hc
        exact ⟨hd2, hd3⟩
      · exact v.others r c hc (Or.inl h2)
    · exact v.others r c hc (Or.inr h1)
  killed := fun h => absurd h hn
  release := by rw [hs.threads, hs.clients]; exact v.release

private theorem c_step {s s' : S} (v : InvC s) {e : Ev} (hc : Calm s e) (h : step s e = some s') : InvC s' := by
  have hi : Inv s' := inv_step v.inv h
  cases e with
  | reserve =>
    simp only [step] at h
    split at h
    · rename_i hs
      cases h
      refine ⟨hi, ?_, by simp, ?_⟩
      · intro r c hc' hr
        simp only [ne_eq, not_true_eq_false, or_false] at hr
        by_cases hlt : r < s.clients.length
        · rw [List.getElem?_append_left hlt] at hc'
          exact v.others r c hc' (Or.inr (by simp [hs]))
        · rw [List.getElem?_eq_none (by simp; omega)] at hc'; cases hc'
      · intro r ht
        obtain ⟨c, h1, h2⟩ := v.release r ht
        exact ⟨c, append_get h1, h2⟩
    · cases h
  | launch r host pid =>
    simp only [step] at h
    cases hcl : s.clients[r]? with
    | none => simp [hcl] at h
    | some c =>
      simp only [hcl] at h
      split at h
      · rename_i hh
        cases h
        refine c_client v r c _ hcl hi (fun _ hne => absurd hh.1 hne) ?_ ?_
        · intro _ h2
          have := h2 hh.1
          rw [hh.2.1] at this; cases this
        · intro h1 h2 h3 _
          obtain ⟨d, hd, hdp⟩ := v.inv.here h1 h2
          rw [← h3, hcl] at hd; cases hd
          rw [hh.1] at hdp; cases hdp
      · cases h
  | start r =>
    simp only [step] at h
    cases hcl : s.clients[r]? with
    | none => simp [hcl] at h
    | some c =>
      simp only [hcl] at h
      cases hp : c.proc with
      | none => simp [hp] at h
      | some hpid =>
        obtain ⟨host, pid⟩ := hpid
        simp only [hp] at h
        split at h
        · cases h
          exact ⟨hi, v.others, by simp, v.release⟩
        · cases h
  | touch r =>
    simp only [step] at h
    split at h
    · split at h
      · cases h; exact ⟨hi, v.others, v.killed, v.release⟩
      · cases h; exact ⟨hi, v.others, v.killed, v.release⟩
    · cases h
  | exit r =>
    simp only [step] at h
    cases hcl : s.clients[r]? with
    | none => simp [hcl] at h
    | some c =>
      simp only [hcl] at h
      split at h
      · cases h
        exact c_client v r c _ hcl hi (fun _ h2 => ⟨rfl, h2⟩) (fun _ h2 => ⟨rfl, h2⟩) (fun _ _ _ _ => rfl)
      · cases h
  | done r how =>
    simp only [step] at h
    cases hcl : s.clients[r]? with
    | none => simp [hcl] at h
    | some c =>
      simp only [hcl] at h
      split at h
      · rename_i hh
        have hlt : r < s.clients.length := (List.getElem?_eq_some_iff.mp hcl).1
        have i1 := inv_client v.inv r c { c with ended := true } hcl (fun _ => ⟨rfl, fun h => h⟩) (v.inv.proc r c hcl)
        have v1 : InvC { s with clients := s.clients.set r { c with ended := true } } :=
          c_client v r c _ hcl i1 (fun h1 h2 => ⟨h1, h2⟩) (fun h1 h2 => ⟨h1, fun _ => rfl⟩) (fun _ _ _ h => h)
        have hd : ∃ c', ({ s with clients := s.clients.set r { c with ended := true } } : S).clients[s.cur]? = some c' ∧ c'.alive = false ∧
            (c'.proc = none → c'.ended = true) := by
          refine ⟨{ c with ended := true }, ?_, hh.2.2.1, fun _ => rfl⟩
          simp only
          rw [← hh.1]; simp [hlt]
        cases how with
        | archive =>
          simp only at h
          split at h
          · cases h
            exact c_leave v1 ⟨rfl, rfl, rfl, rfl, rfl, rfl, rfl, Or.inr hh.2.1, rfl⟩ hi (by simp) (fun _ => hd)
          · cases h
        | release => simp only at h; cases h; exact c_leave v1 (release_same _ _ _) hi (release_sub _ _ _) (fun _ => hd)
        | bury => simp only at h; cases h; exact c_leave v1 (release_same _ _ _) hi (release_sub _ _ _) (fun _ => hd)
      · cases h
  | ttr =>
    simp only [step] at h
    split at h
    · rename_i hh
      cases h
      have hst : s.started = true := hc
      have hx := v.inv.exited hh.1
      refine ⟨hi, ?_, ?_, ?_⟩
      · simp only [ttr, hst, hx, Bool.not_false, Bool.and_self, if_true]; exact v.others
      · simp only [ttr, hst, hx, Bool.not_false, Bool.and_self, if_true]; exact fun h1 _ h2 => v.killed h1 hst h2
      · simp only [ttr, hst, hx, Bool.not_false, Bool.and_self, if_true]
        intro r ht
        split at ht
        · rename_i hk
          simp at ht
          rcases ht with ht | rfl
          · exact v.release r ht
          · obtain ⟨c, h1, h2⟩ := v.killed hh.1 hst hk
            obtain ⟨d, h3, h4⟩ := v.inv.here hh.1 hst
            rw [h1] at h3; cases h3
            exact ⟨c, h1, by simp [h4], h2⟩
        · split at ht
          · exact v.release r ht
          · simp at ht; exact v.release r ht
    · cases h
  | check i o =>
    simp only [step] at h
    split at h
    · split at h
      · cases h
      · split at h
        · cases h; exact c_become v i _ hi (by simp)
        · cases h; exact c_become v i _ hi (by simp)
    · cases h
  | kill i =>
    simp only [step] at h
    split at h
    · rename_i r ht
      have hr : r = s.cur := hc r ht
      obtain ⟨c, hcl, hp, ha⟩ := v.inv.kill r (List.mem_of_getElem? ht)
      rw [hr] at hcl
      have v1 : InvC (killJob s).1 := by
        have hk := inv_kill v.inv
        have hsame := kill_same s
        by_cases hrun : (killJob s).1.sub = .run
        · refine ⟨hk, ?_, ?_, ?_⟩
          · intro x d hd hx
            rw [hsame.clients] at hd
            have hsr : s.sub = .run := by rcases hsame.sub with h2 | h2 <;> simp_all
            refine v.others x d hd ?_
            rw [hsame.cur] at hx
            rcases hx with hx | hx
            · exact Or.inl hx
            · exact absurd hrun hx
          · intro _ _ _
            rw [hsame.clients, hsame.cur]
            exact ⟨c, hcl, ha⟩
          · rw [hsame.threads, hsame.clients]; exact v.release
        · exact c_leave v hsame hk hrun (fun _ => ⟨c, hcl, ha, fun h => absurd h hp⟩)
      cases h
      refine c_become v1 i _ hi ?_
      intro x; split <;> simp
    · cases h
  | behave i =>
    simp only [step] at h
    split at h
    · cases h
      have v1 : InvC { s with behaved := if s.sub = .gone then s.behaved else s.behaved + 1 } :=
        ⟨⟨v.inv.proc, v.inv.cur, v.inv.check, v.inv.kill, v.inv.here, v.inv.exited, v.inv.running⟩, v.others, v.killed, v.release⟩
      exact c_become v1 i _ hi (by simp)
    · cases h
  | wake i =>
    simp only [step] at h
    split at h
    · cases h
      refine c_become v i _ hi ?_
      intro x; split <;> simp
    · cases h
  | late i =>
    simp only [step] at h
    split at h
    · rename_i r ht
      have hr : r = s.cur := hc r ht
      obtain ⟨c, hcl, hp, ha⟩ := v.release r (List.mem_of_getElem? ht)
      rw [hr] at hcl
      cases h
      exact c_become (c_leave v (release_same _ _ _) (inv_release v.inv _ _) (release_sub _ _ _) (fun _ => ⟨c, hcl, ha, fun h => absurd h hp⟩)) i _ hi (by simp)
    · cases h
  | userKill => exact absurd hc id
  | view =>
    simp only [step] at h
    split at h
    · cases h; exact ⟨hi, v.others, v.killed, v.release⟩
    · cases h
  | delayOver =>
    simp only [step] at h
    split at h
    · rename_i hs
      cases h
      exact ⟨hi, fun r c hcl _ => v.others r c hcl (Or.inr (by simp [hs])), by simp, v.release⟩
    · cases h
  | kick =>
    simp only [step] at h
    split at h
    · rename_i hs
      cases h
      exact ⟨hi, fun r c hcl _ => v.others r c hcl (Or.inr (by simp [hs])), by simp, v.release⟩
    · cases h

private theorem c_run : ∀ (es : List Ev) (s s' : S), InvC s → CalmRun s es → run s es = some s' → InvC s'
  | [], s, s', h, _, hr => by cases hr; exact h
  | e :: es, s, s', h, hc, hr => by
    simp only [run] at hr
    cases hs : step s e with
    | none => simp [hs] at hr
    | some t =>
      simp only [hs, Option.bind_some] at hr
      exact c_run es t s' (c_step h hc.1 hs) (hc.2 t hs) hr

private theorem c_added (n : Nat) : InvC (added n) := ⟨inv_added n, by simp [added], by simp [added], by simp [added]⟩

private theorem c_recovered (n l h p : Nat) (hp : 0 < p) : InvC (recovered n l h p) := by
  refine ⟨inv_recovered n l h p hp, ?_, by simp [recovered], by simp [recovered]⟩
  intro r c hc hr
  cases r with
  | zero => simp [recovered] at hr
  | succ r => simp [recovered] at hc

/-- C114: if users kill nothing, runners are heard of until they said that they started the command, and nothing is done late, then the
command only runs for the job's latest reservation, and only while the job is running: never twice at a time. (Partial: see the
`violated` theorems for each condition.) -/
theorem C114_one_partial (n : Nat) (es : List Ev) (s : S) (hc : CalmRun (added n) es) (h : run (added n) es = some s) (r : Nat)
    (ha : Alive s r) : r = s.cur ∧ s.sub = .run := by
  have v := c_run es _ _ (c_added n) hc h
  obtain ⟨c, hcl, hal⟩ := ha
  refine ⟨?_, ?_⟩
  · rcases Decidable.em (r = s.cur) with h | h
    · exact h
    · rw [(v.others r c hcl (Or.inl h)).1] at hal; cases hal
  · rcases Decidable.em (s.sub = .run) with h | h
    · exact h
    · rw [(v.others r c hcl (Or.inr h)).1] at hal; cases hal

/-- C114: the same for a job that was running when the server started. -/
theorem C114_one_recovered_partial (n l host pid : Nat) (hp : 0 < pid) (es : List Ev) (s : S) (hc : CalmRun (recovered n l host pid) es)
    (h : run (recovered n l host pid) es = some s) (r : Nat) (ha : Alive s r) : r = s.cur ∧ s.sub = .run := by
  have v := c_run es _ _ (c_recovered n l host pid hp) hc h
  obtain ⟨c, hcl, hal⟩ := ha
  refine ⟨?_, ?_⟩
  · rcases Decidable.em (r = s.cur) with h | h
    · exact h
    · rw [(v.others r c hcl (Or.inl h)).1] at hal; cases hal
  · rcases Decidable.em (s.sub = .run) with h | h
    · exact h
    · rw [(v.others r c hcl (Or.inr h)).1] at hal; cases hal

/-! ### A dead job is found -/

private def Watch : Thread → Bool
  | .check _ _ _ | .kill _ | .wait | .release _ => true
  | .behave => false

private structure InvW (s : S) : Prop where
  inv : Inv s
  fresh : s.recovered = false
  state : s.sub = .run → s.started = true → s.state = .running
  watch : s.sub = .run → s.started = true → s.lost = true → ∃ t ∈ s.threads, Watch t = true

private theorem w_keep {s : S} (v : InvW s) (i : Nat) (x : Thread) (hx : s.threads[i]? = some x) (o : Option Thread) (hi : Inv (become s i o))
    (h : Watch x = true → s.sub = .run → s.started = true → s.lost = true → ∃ y, o = some y ∧ Watch y = true) : InvW (become s i o) where
  inv := hi
  fresh := v.fresh
  state := v.state
  watch := by
    intro h1 h2 h3
    obtain ⟨t, ht, hw⟩ := v.watch h1 h2 h3
    by_cases htx : t = x
    · obtain ⟨y, hy, hyw⟩ := h (htx ▸ hw) h1 h2 h3
      subst hy
      refine ⟨y, ?_, hyw⟩
      have hlt : i < s.threads.length := (List.getElem?_eq_some_iff.mp hx).1
      exact List.mem_of_getElem? (i := i) (by simp [become, hlt])
    · refine ⟨t, ?_, hw⟩
      cases o with
      | some y => exact mem_set hx ht htx
      | none => exact mem_erase hx ht htx

private theorem w_gone {s' : S} (hf : s'.recovered = false) (hi : Inv s') (hn : s'.sub ≠ .run) : InvW s' :=
  ⟨hi, hf, fun h => absurd h hn, fun h => absurd h hn⟩

private theorem w_step {s s' : S} (v : InvW s) {e : Ev} (hv : e ≠ .view) (h : step s e = some s') : InvW s' := by
  have hi : Inv s' := inv_step v.inv h
  cases e with
  | reserve =>
    simp only [step] at h
    split at h
    · cases h; exact ⟨hi, v.fresh, by simp, by simp⟩
    · cases h
  | launch r host pid =>
    simp only [step] at h
    cases hcl : s.clients[r]? with
    | none => simp [hcl] at h
    | some c =>
      simp only [hcl] at h
      split at h
      · cases h; exact ⟨hi, v.fresh, v.state, v.watch⟩
      · cases h
  | start r =>
    simp only [step] at h
    cases hcl : s.clients[r]? with
    | none => simp [hcl] at h
    | some c =>
      simp only [hcl] at h
      cases hp : c.proc with
      | none => simp [hp] at h
      | some hpid =>
        obtain ⟨host, pid⟩ := hpid
        simp only [hp] at h
        split at h
        · cases h; exact ⟨hi, v.fresh, fun _ _ => rfl, by simp⟩
        · cases h
  | touch r =>
    simp only [step] at h
    split at h
    · split at h
      · cases h; exact ⟨hi, v.fresh, v.state, v.watch⟩
      · cases h; exact ⟨hi, v.fresh, v.state, by simp⟩
    · cases h
  | exit r =>
    simp only [step] at h
    cases hcl : s.clients[r]? with
    | none => simp [hcl] at h
    | some c =>
      simp only [hcl] at h
      split at h
      · cases h; exact ⟨hi, v.fresh, v.state, v.watch⟩
      · cases h
  | done r how =>
    simp only [step] at h
    cases hcl : s.clients[r]? with
    | none => simp [hcl] at h
    | some c =>
      simp only [hcl] at h
      split at h
      · cases how with
        | archive =>
          simp only at h
          split at h
          · cases h; exact w_gone v.fresh hi (by simp)
          · cases h
        | release => simp only at h; cases h; exact w_gone ((release_same _ _ _).recovered.trans v.fresh) hi (release_sub _ _ _)
        | bury => simp only at h; cases h; exact w_gone ((release_same _ _ _).recovered.trans v.fresh) hi (release_sub _ _ _)
      · cases h
  | ttr =>
    simp only [step] at h
    split at h
    · cases h
      unfold ttr at hi ⊢
      split
      · rename_i hst
        rw [if_pos hst] at hi
        refine ⟨hi, v.fresh, v.state, ?_⟩
        intro _ _ _
        simp only [v.fresh, Bool.false_eq_true, if_false]
        split
        · exact ⟨.release s.cur, by simp, rfl⟩
        · exact ⟨.check s.cur s.host s.pid, by simp, rfl⟩
      · rename_i hst
        rw [if_neg hst] at hi
        exact w_gone v.fresh hi (by simp)
    · cases h
  | check i o =>
    simp only [step] at h
    split at h
    · rename_i ht
      split at h
      · cases h
      · split at h
        · cases h; exact w_keep v i _ ht _ hi (fun _ _ _ _ => ⟨_, rfl, rfl⟩)
        · cases h; exact w_keep v i _ ht _ hi (fun _ _ _ _ => ⟨_, rfl, rfl⟩)
    · cases h
  | kill i =>
    simp only [step] at h
    split at h
    · rename_i r ht
      have hsame := kill_same s
      have v1 : InvW (killJob s).1 := by
        have hk := inv_kill v.inv
        by_cases hrun : (killJob s).1.sub = .run
        · have hsr : s.sub = .run := by rcases hsame.sub with h2 | h2 <;> simp_all
          refine ⟨hk, hsame.recovered.trans v.fresh, ?_, ?_⟩
          · intro _ h2
            rw [hsame.started] at h2
            rw [kill_still s hrun]; exact v.state hsr h2
          · intro _ h2 h3
            rw [hsame.lost] at h3
            exact absurd hrun (kill_lost s h3)
        · exact w_gone (hsame.recovered.trans v.fresh) hk hrun
      cases h
      have ht' : (killJob s).1.threads[i]? = some (.kill r) := by rw [hsame.threads]; exact ht
      refine w_keep v1 i _ ht' _ hi ?_
      intro _ h1 _ h3
      rw [hsame.lost] at h3
      exact absurd h1 (kill_lost s h3)
    · cases h
  | behave i =>
    simp only [step] at h
    split at h
    · rename_i ht
      cases h
      have v1 : InvW { s with behaved := if s.sub = .gone then s.behaved else s.behaved + 1 } :=
        ⟨⟨v.inv.proc, v.inv.cur, v.inv.check, v.inv.kill, v.inv.here, v.inv.exited, v.inv.running⟩, v.fresh, v.state, v.watch⟩
      exact w_keep v1 i .behave ht _ hi (by simp [Watch])
    · cases h
  | wake i =>
    simp only [step] at h
    split at h
    · rename_i ht
      cases h
      refine w_keep v i _ ht _ hi ?_
      intro _ h1 h2 h3
      rw [if_pos ⟨h1, v.state h1 h2, h3⟩]
      exact ⟨_, rfl, rfl⟩
    · cases h
  | late i =>
    simp only [step] at h
    split at h
    · cases h
      exact w_gone (by simp only [become]; exact (release_same _ _ _).recovered.trans v.fresh) hi (by simp only [become]; exact release_sub _ _ _)
    · cases h
  | userKill =>
    simp only [step] at h
    cases h
    have hsame := kill_same s
    by_cases hrun : (killJob s).1.sub = .run
    · have hsr : s.sub = .run := by rcases hsame.sub with h2 | h2 <;> simp_all
      refine ⟨hi, hsame.recovered.trans v.fresh, ?_, ?_⟩
      · intro _ h2
        rw [hsame.started] at h2
        rw [kill_still s hrun]; exact v.state hsr h2
      · intro _ h2 h3
        rw [hsame.lost] at h3
        exact absurd hrun (kill_lost s h3)
    · exact w_gone (hsame.recovered.trans v.fresh) hi hrun
  | view => exact absurd rfl hv
  | delayOver =>
    simp only [step] at h
    split at h
    · cases h; exact w_gone v.fresh hi (by simp)
    · cases h
  | kick =>
    simp only [step] at h
    split at h
    · cases h; exact w_gone v.fresh hi (by simp)
    · cases h

private theorem w_run : ∀ (es : List Ev) (s s' : S), InvW s → .view ∉ es → run s es = some s' → InvW s'
  | [], s, s', h, _, hr => by cases hr; exact h
  | e :: es, s, s', h, hc, hr => by
    simp only [run] at hr
    cases hs : step s e with
    | none => simp [hs] at hr
    | some t =>
      simp only [hs, Option.bind_some] at hr
      simp only [List.mem_cons, not_or] at hc
      exact w_run es t s' (w_step h (Ne.symm hc.1) hs) hc.2 hr

private theorem w_added (n : Nat) : InvW (added n) := ⟨inv_added n, rfl, by simp [added], by simp [added]⟩

private theorem release_run (s : S) (h : s.sub = .run) (hs : s.started = true) (hl : 0 < s.left) (hb : s.left < 256) :
    (release s true false).1.sub = (if s.left = 1 then .bury else .delay) ∧ (release s true false).1.left = s.left - 1 := by
  unfold release
  simp only [h, hs, Bool.false_or, Bool.true_and, decide_eq_true_eq, Bool.false_eq_true, if_false, if_true]
  exact ⟨trivial, by omega⟩

/-- from a goroutine that is about to kill it, or to look for it again, the lost job is given up -/
private theorem from_kill (s : S) (i r : Nat) (h : s.sub = .run) (hl : s.lost = true) (hs : s.started = true) (ht : s.threads[i]? = some (.kill r))
    (hp : 0 < s.left) (hb : s.left < 256) : ∃ s', run s [.kill i] = some s' ∧ s'.sub = (if s.left = 1 then .bury else .delay) ∧ s'.left = s.left - 1 := by
  have hr := release_run { s with killCalled := true } h hs hp hb
  refine ⟨_, by simp only [run, step, ht, Option.bind_some]; rfl, ?_⟩
  simp only [become]
  rw [kill_run s h, if_pos hl]
  exact hr

private theorem get_set {s : S} {i : Nat} {x t : Thread} (ht : s.threads[i]? = some x) : (become s i (some t)).threads[i]? = some t := by
  have hlt : i < s.threads.length := (List.getElem?_eq_some_iff.mp ht).1
  simp [become, hlt]

private theorem from_check (s : S) (i : Nat) (h : s.sub = .run) (hl : s.lost = true) (hs : s.started = true)
    (ht : s.threads[i]? = some (.check s.cur s.host s.pid)) (hn : there s s.host s.pid = false) (hpid : 0 < s.pid) (hp : 0 < s.left) (hb : s.left < 256) :
    ∃ s', run s [.check i .notThere, .kill i] = some s' ∧ s'.sub = (if s.left = 1 then .bury else .delay) ∧ s'.left = s.left - 1 := by
  have h1 : step s (.check i .notThere) = some (become s i (some (.kill s.cur))) := by
    simp only [step, ht]
    rw [if_neg (by simp [hn]), if_neg (by simp; omega)]
  obtain ⟨s', h2, h3⟩ := from_kill (become s i (some (.kill s.cur))) i s.cur h hl hs (get_set ht) hp hb
  refine ⟨s', ?_, h3⟩
  simp only [run, h1, Option.bind_some] at h2 ⊢
  exact h2

private theorem from_wait (s : S) (i : Nat) (h : s.sub = .run) (hl : s.lost = true) (hs : s.started = true) (hst : s.state = .running)
    (ht : s.threads[i]? = some .wait) (hn : there s s.host s.pid = false) (hpid : 0 < s.pid) (hp : 0 < s.left) (hb : s.left < 256) :
    ∃ s', run s [.wake i, .check i .notThere, .kill i] = some s' ∧ s'.sub = (if s.left = 1 then .bury else .delay) ∧ s'.left = s.left - 1 := by
  have h1 : step s (.wake i) = some (become s i (some (.check s.cur s.host s.pid))) := by
    simp only [step, ht]
    rw [if_pos ⟨h, hst, hl⟩]
  obtain ⟨s', h2, h3⟩ := from_check (become s i (some (.check s.cur s.host s.pid))) i h hl hs (get_set ht) hn hpid hp hb
  refine ⟨s', ?_, h3⟩
  rw [run, h1, Option.bind_some]; exact h2

/-- C114: a job that is lost and whose process is gone can always still be found dead by what the server does by itself: it then is
delayed, or buried if it was its last try. (Partial: not for jobs that were running when the server started, and not if a user killed other
jobs of its group on the web page, see `C114_violated_recovered` and `C114_violated_view`.) -/
theorem C114_found_partial (n : Nat) (es : List Ev) (s : S) (h : run (added n) es = some s) (hv : .view ∉ es) (hr : s.sub = .run)
    (hs : s.started = true) (hl : s.lost = true) (hd : there s s.host s.pid = false) (hp : 0 < s.left) (hb : s.left < 256) :
    ∃ es' s', (∀ e ∈ es', Own e) ∧ run s es' = some s' ∧ s'.sub = (if s.left = 1 then .bury else .delay) ∧ s'.left = s.left - 1 := by
  have v := w_run es _ _ (w_added n) hv h
  have hpid : 0 < s.pid := by
    obtain ⟨c, hc, hcp⟩ := v.inv.here hr hs
    exact (v.inv.proc _ c hc).2 _ _ hcp
  have hst := v.state hr hs
  obtain ⟨t, ht, hw⟩ := v.watch hr hs hl
  obtain ⟨i, hi⟩ := List.getElem?_of_mem ht
  cases t with
  | behave => cases hw
  | kill r =>
    obtain ⟨s', h1, h2⟩ := from_kill s i r hr hl hs hi hp hb
    exact ⟨_, s', by simp [Own], h1, h2⟩
  | wait =>
    obtain ⟨s', h1, h2⟩ := from_wait s i hr hl hs hst hi hd hpid hp hb
    exact ⟨_, s', by simp [Own], h1, h2⟩
  | check r host pid =>
    have h0 : step s (.check i .failed) = some (become s i (some .wait)) := by simp [step, hi]
    obtain ⟨s', h1, h2⟩ := from_wait (become s i (some .wait)) i hr hl hs hst (get_set hi) hd hpid hp hb
    refine ⟨.check i .failed :: [.wake i, .check i .notThere, .kill i], s', by simp [Own], ?_, h2⟩
    rw [run, h0, Option.bind_some]; exact h1
  | release r =>
    refine ⟨[.late i], become (release s true false).1 i none, by simp [Own], by simp [run, step, hi], ?_⟩
    simp only [become]
    exact release_run s hr hs hp hb

/-- without goroutines the server does nothing by itself -/
private theorem idle (s : S) (ht : s.threads = []) : ∀ es' s', (∀ e ∈ es', Own e) → run s es' = some s' → s' = s := by
  intro es'
  cases es' with
  | nil => intro s' _ h; cases h; rfl
  | cons e es =>
    intro s' ho h
    have := ho e (by simp)
    cases e <;> simp [Own] at this <;> simp [run, step, ht] at h

/-! ### Cases -/

private def lostOnce : List Ev := [.reserve, .launch 0 7 100, .start 0, .touch 0, .ttr]

/-- it dies, is found dead when it is looked for again, and is tried again -/
private def diesOnce : List Ev := lostOnce ++ [.check 0 .failed, .exit 0, .wake 0, .check 0 .notThere, .kill 0, .behave 0, .delayOver, .reserve, .launch 1 8 101, .start 1]

example : CalmRun (added 2) diesOnce := by
  simp [diesOnce, lostOnce, CalmRun, Calm, step, added, there, ttr, become, killJob, release]

example : ∃ s, run (added 2) diesOnce = some s ∧ Alive s 1 ∧ s.left = 2 ∧ s.behaved = 1 := ⟨_, rfl, ⟨_, rfl, rfl⟩, rfl, rfl⟩
example : ∃ s, run (added 2) (lostOnce ++ [.check 0 .failed, .exit 0]) = some s ∧ s.sub = .run ∧ s.started = true ∧ s.lost = true ∧
    there s s.host s.pid = false ∧ s.left = 3 := ⟨_, rfl, rfl, rfl, rfl, rfl, rfl⟩
example : ∃ s, run (added 2) (lostOnce ++ [.exit 0, .check 0 .notThere]) = some s ∧ Thread.kill 0 ∈ s.threads := ⟨_, rfl, by decide⟩
example : CalmRun (recovered 2 3 7 100) [.ttr, .exit 0, .done 0 .release, .delayOver, .reserve] := by
  simp [CalmRun, Calm, step, recovered, ttr, release]

/-- C114 is violated: a runner that is not heard of before it said that it started the command loses the job: the command then is run
twice at a time. -/
theorem C114_violated_unstarted : ∃ es s, run (added 2) es = some s ∧ .userKill ∉ es ∧ Alive s 0 ∧ Alive s 1 :=
  ⟨[.reserve, .launch 0 7 100, .ttr, .delayOver, .reserve, .launch 1 8 100, .start 1], _, rfl, by decide, ⟨_, rfl, rfl⟩, ⟨_, rfl, rfl⟩⟩

/-- C114 is violated: a job that a user kills while its runner can not be reached is run again without it being known that it is dead. -/
theorem C114_violated_killed : ∃ es s, run (added 2) es = some s ∧ (∀ i o, .check i o ∉ es) ∧ es.count .userKill = 1 ∧ Alive s 0 ∧ Alive s 1 :=
  ⟨[.reserve, .launch 0 7 100, .start 0, .userKill, .ttr, .late 0, .delayOver, .reserve, .launch 1 8 100, .start 1], _, rfl, by simp, by decide,
    ⟨_, rfl, rfl⟩, ⟨_, rfl, rfl⟩⟩

/-- C114 is violated: two goroutines find the same command dead (the job was lost twice); the second kills the job when it already runs
again, so that its command is told to stop although no one asked for that. -/
theorem C114_violated_late : ∃ es s, run (added 2) es = some s ∧ .userKill ∉ es ∧ Alive s 1 ∧ s.told = [1] :=
  ⟨[.reserve, .launch 0 7 100, .start 0, .ttr, .touch 0, .ttr, .exit 0, .check 0 .notThere, .check 1 .notThere, .kill 0, .delayOver, .reserve,
    .launch 1 8 100, .start 1, .kill 1, .touch 1], _, rfl, by decide, ⟨_, rfl, rfl⟩, rfl⟩

/-- C114 is violated: and if that run is lost as well, it is given up although its command is running. -/
theorem C114_violated_overtaken : ∃ es s, run (added 2) es = some s ∧ .userKill ∉ es ∧ Alive s 1 ∧ Alive s 2 :=
  ⟨[.reserve, .launch 0 7 100, .start 0, .ttr, .exit 0, .check 0 .notThere, .done 0 .release, .delayOver, .reserve,
    .launch 1 8 100, .start 1, .ttr, .kill 0, .delayOver, .reserve, .launch 2 9 100], _, rfl, by decide, ⟨_, rfl, rfl⟩, ⟨_, rfl, rfl⟩⟩

/-- C114 is violated: the command has ended well, but the runner could not tell the server for some time: the server gives up the job,
and the runner can not say any more that it is complete. -/
theorem C114_violated_finished : ∃ es s, run (added 2) es = some s ∧ .userKill ∉ es ∧ s.sub = .delay ∧ step s (.done 0 .archive) = none ∧
    ∃ s', run s [.delayOver, .reserve, .launch 1 8 100] = some s' :=
  ⟨[.reserve, .launch 0 7 100, .start 0, .exit 0, .ttr, .check 0 .notThere, .kill 0], _, rfl, by decide, rfl, rfl, _, rfl⟩

/-- C114 is violated: a runner that reserves a job that was killed in an earlier try is told to kill it until it says that it started the
command. -/
theorem C114_violated_stale : ∃ es s, run (added 2) es = some s ∧ s.told = [1] ∧ (es.drop 6).count .userKill = 0 ∧ es[6]? = some .reserve :=
  ⟨[.reserve, .launch 0 7 100, .start 0, .ttr, .userKill, .delayOver, .reserve, .touch 1], _, rfl, rfl, by decide, rfl⟩

/-- C114 is violated: a job that was running when the server started is never found dead, not even in later tries. -/
theorem C114_violated_recovered : ∃ es s, run (recovered 2 3 7 100) es = some s ∧ s.sub = .run ∧ s.cur = 1 ∧ s.lost = true ∧ ¬ Alive s 1 ∧
    ∀ es' s', (∀ e ∈ es', Own e) → run s es' = some s' → s' = s := by
  refine ⟨[.exit 0, .done 0 .release, .delayOver, .reserve, .launch 1 8 100, .start 1, .exit 1, .ttr], _, rfl, rfl, rfl, rfl, ?_, ?_⟩
  · rintro ⟨c, hc, ha⟩
    cases hc; cases ha
  · exact idle _ rfl

/-- C114 is violated: if a user kills other jobs of its group on the web page, a lost job is no longer looked for. -/
theorem C114_violated_view : ∃ es s, run (added 2) es = some s ∧ .userKill ∉ es ∧ s.sub = .run ∧ s.started = true ∧ s.lost = true ∧ ¬ Alive s 0 ∧
    ∀ es' s', (∀ e ∈ es', Own e) → run s es' = some s' → s' = s := by
  refine ⟨lostOnce ++ [.check 0 .failed, .view, .exit 0, .wake 0], _, rfl, by decide, rfl, rfl, rfl, ?_, ?_⟩
  · rintro ⟨c, hc, ha⟩
    cases hc; cases ha
  · exact idle _ rfl

/-- C114 is violated: the behaviours for failed jobs are triggered by the server after the runner has already ended the job. -/
theorem C114_violated_behaviours : ∃ es s, run (added 2) es = some s ∧ .done 0 .bury ∈ es ∧ s.behaved = 1 :=
  ⟨lostOnce ++ [.exit 0, .check 0 .notThere, .done 0 .bury, .kill 0, .behave 0], _, rfl, by decide, rfl⟩

/-- C114: only the runner that has the job can keep it from being lost: a runner whose reservation is over is refused. -/
theorem C114_heard (s : S) (r : Nat) (h : (step s (.touch r)).isSome) : r = s.cur ∧ s.sub = .run := by
  simp only [step] at h
  split at h
  · assumption
  · simp at h

example : (step { added 2 with sub := .run, cur := 1 } (.touch 1)).isSome := by decide

/-- C114: giving the job back uses up a try only if the job was started, and then buries it if that was the last one. -/
theorem C114_tries (s t : S) (r : Nat) (h : step s (.done r .release) = some t) :
    (s.started = false → t.sub = .delay ∧ t.left = s.left) ∧
    (s.started = true → 1 < s.left → s.left < 256 → t.sub = .delay ∧ t.left = s.left - 1) ∧
    (s.started = true → s.left = 1 → t.sub = .bury ∧ t.left = 0 ∧ t.state = .buried) := by
  simp only [step] at h
  split at h
  · split at h
    · rename_i hc
      simp only [Option.some.injEq] at h
      subst h
      simp only [release, hc.2.1, Bool.false_or]
      refine ⟨fun h => ?_, fun h h1 h2 => ?_, fun h h1 => ?_⟩
      · simp [h]
      · have : ¬ s.left = 1 := by omega
        simp [h, this]
        omega
      · simp [h, h1]
    · simp at h
  · simp at h

example : ∃ s, run (added 2) [.reserve, .launch 0 1 5, .start 0, .exit 0, .done 0 .release] = some s ∧ s.left = 2 := ⟨_, rfl, rfl⟩

end Verif.Server.Dead
