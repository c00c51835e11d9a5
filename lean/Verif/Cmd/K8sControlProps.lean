import Verif.Cmd.K8sControl
/-!
# C139: the manager's pod gets its files, is recorded and is reached
-/
namespace Verif.Cmd.K8sControl

/-! ## Specification -/

/-- What a word from the cluster says of a pod, if it is about that pod. -/
def hear (p : Pod) (t : Option Obs) : Ev → Option Obs
  | .see q o => if p = q then some o else t
  | .gone q => if p = q then none else t
  | _ => t

/-- What the cluster last said of a pod -/
def truth (es : List Ev) (p : Pod) : Option Obs := es.foldl (hear p) none

/-- Which pod an act is about -/
def Act.pod : Act → Pod
  | .saw p _ => p
  | .failed p => p
  | .gaveUp p => p
  | .copied p _ => p

/-- Acts that are the end of a look -/
def Act.isLook : Act → Bool
  | .copied _ _ => false
  | _ => true

/-- The looks at a pod, the newest first -/
def looks (log : List Act) (p : Pod) : List Act := log.filter fun a => a.isLook && decide (a.pod = p)

/-- Everything done about a pod, the newest first -/
def about (log : List Act) (p : Pod) : List Act := log.filter fun a => decide (a.pod = p)

/-- There is nothing to do: every note has been delivered, no key waits, none is being worked on. -/
structure Quiet (s : St) : Prop where
  notes : s.notes = []
  queue : s.queue = []
  later : s.later = []
  work : s.work = .idle

/-! ## Runs -/

theorem step_dead {s : St} {e : Ev} (h : s.dead = true) : step s e = s := by simp [step, h]

theorem run_dead {s : St} (h : s.dead = true) : ∀ es, run s es = s
  | [] => rfl
  | e :: es => by
    show run (step s e) es = s
    rw [step_dead h]
    exact run_dead h es

theorem run_cons (s : St) (e : Ev) (es : List Ev) : run s (e :: es) = run (step s e) es := rfl

theorem run_inv {P : St → Prop} {Q : Ev → Prop} (h : ∀ s e, s.dead = false → Q e → P s → P (step1 s e)) :
    ∀ (es : List Ev) (s : St), (∀ e ∈ es, Q e) → P s → P (run s es)
  | [], _, _, hs => hs
  | e :: es, s, hq, hs => by
    rw [run_cons]
    refine run_inv h es _ (fun x hx => hq x (by simp [hx])) ?_
    unfold step
    split
    · exact hs
    · rename_i hd
      exact h s e (by simpa using hd) (hq e (by simp)) hs

/-! ## What is stored is what the cluster said -/

@[simp] theorem done_store (s : St) (p : Pod) : (done s p).store = s.store := by unfold done; split <;> rfl
@[simp] theorem done_notes (s : St) (p : Pod) : (done s p).notes = s.notes := by unfold done; split <;> rfl
@[simp] theorem done_later (s : St) (p : Pod) : (done s p).later = s.later := by unfold done; split <;> rfl
@[simp] theorem done_dirty (s : St) (p : Pod) : (done s p).dirty = s.dirty := by unfold done; split <;> rfl
@[simp] theorem done_work (s : St) (p : Pod) : (done s p).work = .idle := by unfold done; split <;> rfl
@[simp] theorem done_log (s : St) (p : Pod) : (done s p).log = s.log := by unfold done; split <;> rfl
@[simp] theorem done_tries (s : St) (p : Pod) : (done s p).tries = s.tries := by unfold done; split <;> rfl
@[simp] theorem done_file (s : St) (p : Pod) : (done s p).file = s.file := by unfold done; split <;> rfl
@[simp] theorem done_starting (s : St) (p : Pod) : (done s p).starting = s.starting := by unfold done; split <;> rfl
@[simp] theorem done_active (s : St) (p : Pod) : (done s p).active = s.active := by unfold done; split <;> rfl
@[simp] theorem done_ready (s : St) (p : Pod) : (done s p).ready = s.ready := by unfold done; split <;> rfl
@[simp] theorem done_ports (s : St) (p : Pod) : (done s p).ports = s.ports := by unfold done; split <;> rfl
@[simp] theorem done_dead (s : St) (p : Pod) : (done s p).dead = s.dead := by unfold done; split <;> rfl
theorem done_queue (s : St) (p q : Pod) : q ∈ (done s p).queue ↔ q ∈ s.queue ∨ q = p ∧ p ∈ s.dirty := by
  unfold done
  split
  · rename_i h
    simp [h]
  · rename_i h
    simp [h]

@[simp] theorem add_store (s : St) (p : Pod) : (add s p).store = s.store := by unfold add; split; rfl; split <;> rfl
@[simp] theorem add_notes (s : St) (p : Pod) : (add s p).notes = s.notes := by unfold add; split; rfl; split <;> rfl
@[simp] theorem add_later (s : St) (p : Pod) : (add s p).later = s.later := by unfold add; split; rfl; split <;> rfl
@[simp] theorem add_work (s : St) (p : Pod) : (add s p).work = s.work := by unfold add; split; rfl; split <;> rfl
@[simp] theorem add_log (s : St) (p : Pod) : (add s p).log = s.log := by unfold add; split; rfl; split <;> rfl
@[simp] theorem add_tries (s : St) (p : Pod) : (add s p).tries = s.tries := by unfold add; split; rfl; split <;> rfl
@[simp] theorem add_file (s : St) (p : Pod) : (add s p).file = s.file := by unfold add; split; rfl; split <;> rfl
@[simp] theorem add_starting (s : St) (p : Pod) : (add s p).starting = s.starting := by unfold add; split; rfl; split <;> rfl
@[simp] theorem add_active (s : St) (p : Pod) : (add s p).active = s.active := by unfold add; split; rfl; split <;> rfl
@[simp] theorem add_ready (s : St) (p : Pod) : (add s p).ready = s.ready := by unfold add; split; rfl; split <;> rfl
@[simp] theorem add_ports (s : St) (p : Pod) : (add s p).ports = s.ports := by unfold add; split; rfl; split <;> rfl
@[simp] theorem add_dead (s : St) (p : Pod) : (add s p).dead = s.dead := by unfold add; split; rfl; split <;> rfl
theorem add_dirty (s : St) (p q : Pod) : q ∈ (add s p).dirty ↔ q ∈ s.dirty ∨ q = p := by
  unfold add
  split
  · rename_i h
    constructor
    · exact Or.inl
    · rintro (h' | h')
      · exact h'
      · exact h' ▸ h
  · split <;> simp [or_comm]
theorem add_queue (s : St) (p q : Pod) : q ∈ (add s p).queue ↔ q ∈ s.queue ∨ q = p ∧ p ∉ s.dirty ∧ busy s.work ≠ some p := by
  unfold add
  split
  · rename_i h
    simp [h]
  · rename_i h
    split
    · rename_i hb
      simp [hb]
    · rename_i hb
      simp [h, hb]

/-- What a look, a failing look and the others do, case by case. -/
theorem look_cases (s : St) (p : Pod) (op : FileOp) :
    (∃ f st, look s p op = done (forget { s with log := .saw p (s.store p) :: s.log, file := f, starting := st } p) p ∧
        (∀ o, s.store p = some o → todo o ≠ .copy ∧ todo o ≠ .panic) ∧
        ((f = s.file ∧ st = s.starting ∧ (∀ o, s.store p = some o → todo o ≠ .forward)) ∨
          ∃ o, s.store p = some o ∧ todo o = .forward ∧ f = (record p op s.file).1 ∧
            st = if (record p op s.file).2 then s.starting ++ [(p, o)] else s.starting)) ∨
      (∃ o, s.store p = some o ∧ todo o = .copy ∧ look s p op = { s with log := .saw p (s.store p) :: s.log, work := .copying p }) ∨
      (∃ o, s.store p = some o ∧ todo o = .panic ∧ look s p op = { s with log := .saw p (s.store p) :: s.log, dead := true }) := by
  unfold look
  cases ho : s.store p with
  | none => exact Or.inl ⟨s.file, s.starting, by simp [ho], by simp, Or.inl ⟨rfl, rfl, by simp⟩⟩
  | some o =>
    cases ht : todo o with
    | nothing => exact Or.inl ⟨s.file, s.starting, by simp [ho, ht], by simp [ht], Or.inl ⟨rfl, rfl, by simp [ht]⟩⟩
    | copy => exact Or.inr (Or.inl ⟨o, rfl, ht, by simp [ho, ht]⟩)
    | panic => exact Or.inr (Or.inr ⟨o, rfl, ht, by simp [ho, ht]⟩)
    | forward =>
      refine Or.inl ⟨(record p op s.file).1, if (record p op s.file).2 then s.starting ++ [(p, o)] else s.starting, ?_, by simp [ht],
        Or.inr ⟨o, rfl, ht, rfl, rfl⟩⟩
      simp only [ho, ht]
      split <;> simp_all

theorem lookFails_cases (s : St) (p : Pod) :
    (s.tries p < maxRetries ∧ lookFails s p = done { s with
        log := .failed p :: s.log, later := s.later ++ [p], tries := fun q => if q = p then s.tries p + 1 else s.tries q } p) ∨
      (¬ s.tries p < maxRetries ∧ lookFails s p = done (forget { s with log := .gaveUp p :: .failed p :: s.log } p) p) := by
  unfold lookFails
  by_cases h : s.tries p < maxRetries
  · exact Or.inl ⟨h, by simp [h]⟩
  · exact Or.inr ⟨h, by simp [h]⟩

theorem listen_cases (s : St) (p : Pod) (o : Obs) (dials : Bool) :
    (listen s p o dials = { s with starting := s.starting.erase (p, o) } ∧
        (o.phase = false ∨ s.ports < 2 ∨ dials = false ∨ s.active.isSome = true)) ∨
      (listen s p o dials = { s with starting := s.starting.erase (p, o), dead := true } ∧ (2 < s.ports ∨ s.ready = true)) ∨
      (listen s p o dials = { s with starting := s.starting.erase (p, o), active := some p, ready := true } ∧ o.phase = true ∧
        s.ports = 2 ∧ dials = true ∧ s.active = none ∧ s.ready = false) := by
  unfold listen
  simp only
  split
  · rename_i h
    exact Or.inl ⟨rfl, Or.inl (by simpa using h)⟩
  rename_i h1
  split
  · rename_i h
    exact Or.inr (Or.inl ⟨rfl, Or.inl h⟩)
  rename_i h2
  split
  · rename_i h
    exact Or.inl ⟨rfl, Or.inr (Or.inl h)⟩
  rename_i h3
  split
  · rename_i h
    exact Or.inl ⟨rfl, Or.inr (Or.inr (Or.inl (by simpa using h)))⟩
  rename_i h4
  split
  · rename_i h
    exact Or.inl ⟨rfl, Or.inr (Or.inr (Or.inr h))⟩
  rename_i h5
  split
  · rename_i h
    exact Or.inr (Or.inl ⟨rfl, Or.inr h⟩)
  · rename_i h6
    exact Or.inr (Or.inr ⟨rfl, by simpa using h1, by omega, by simpa using h4, by simpa using h5, by simpa using h6⟩)

theorem step1_store (s : St) (e : Ev) (p : Pod) : (step1 s e).store p = hear p (s.store p) e := by
  cases e with
  | see q o => rfl
  | gone q => rfl
  | deliver => simp only [step1, hear]; split <;> simp
  | take => simp only [step1, hear]; split <;> rfl
  | look op =>
    simp only [step1, hear]
    split
    · rename_i q _
      rcases look_cases s q op with ⟨f, st, h, _⟩ | ⟨o, _, _, h⟩ | ⟨o, _, _, h⟩ <;> rw [h] <;> simp [forget]
    · rfl
  | lookFails =>
    simp only [step1, hear]
    split
    · rename_i q _
      rcases lookFails_cases s q with ⟨_, h⟩ | ⟨_, h⟩ <;> rw [h] <;> simp [forget]
    · rfl
  | retry => simp only [step1, hear]; split <;> simp
  | attachEnds a =>
    simp only [step1, hear]
    split
    · split <;> simp [forget]
    · rfl
  | listen q o d =>
    simp only [step1, hear]
    split
    · rcases listen_cases s q o d with ⟨h, _⟩ | ⟨h, _⟩ | ⟨h, _⟩ <;> rw [h]
    · rfl
  | lost => rfl

theorem run_store (p : Pod) : ∀ (es : List Ev) (s : St), (run s es).dead = false → (run s es).store p = es.foldl (hear p) (s.store p)
  | [], _, _ => rfl
  | e :: es, s, h => by
    rw [run_cons] at h ⊢
    by_cases hd : s.dead = true
    · rw [step_dead hd, run_dead hd] at h
      rw [h] at hd
      cases hd
    · rw [run_store p es _ h]
      simp only [List.foldl_cons]
      rw [show step s e = step1 s e by simp [step, hd], step1_store]

/-! ## The last state of every pod is acted on -/

theorem looks_cons (a : Act) (log : List Act) (p : Pod) :
    looks (a :: log) p = if a.isLook && decide (a.pod = p) then a :: looks log p else looks log p := by
  unfold looks
  rw [List.filter_cons]

theorem about_cons (a : Act) (log : List Act) (p : Pod) :
    about (a :: log) p = if a.pod = p then a :: about log p else about log p := by
  unfold about
  rw [List.filter_cons]
  simp

/-- `p` has been looked at as it is, or was given up, or has never been there. -/
def Told (s : St) (p : Pod) : Prop :=
  (s.store p = none ∧ looks s.log p = []) ∨ (looks s.log p).head? = some (.saw p (s.store p)) ∨ (looks s.log p).head? = some (.gaveUp p)

structure Inv (s : St) : Prop where
  waits : ∀ p ∈ s.dirty, p ∈ s.queue ∨ busy s.work = some p
  seen : ∀ p, Told s p ∨ p ∈ s.notes ∨ p ∈ s.later ∨ p ∈ s.dirty ∨ s.work = .got p
  copied : ∀ p o, (looks s.log p).head? = some (.saw p (some o)) → todo o = .copy →
    s.work = .copying p ∨ s.work = .hung p ∨ ∃ e, (about s.log p).head? = some (.copied p e)

theorem inv_start (l : Bool) (n : Nat) (f : Res) : Inv (start l n f) :=
  ⟨by simp [start], fun p => Or.inl (Or.inl ⟨rfl, rfl⟩), by simp [start, looks]⟩

theorem told_congr {s t : St} {p : Pod} (h1 : t.store p = s.store p) (h2 : looks t.log p = looks s.log p) (h : Told s p) : Told t p := by
  unfold Told at *
  rw [h1, h2]
  exact h

theorem inv_add {s : St} {p : Pod} (h1 : ∀ q ∈ s.dirty, q ∈ s.queue ∨ busy s.work = some q)
    (h2 : ∀ q, q = p ∨ Told s q ∨ q ∈ s.notes ∨ q ∈ s.later ∨ q ∈ s.dirty ∨ s.work = .got q)
    (h3 : ∀ q o, (looks s.log q).head? = some (.saw q (some o)) → todo o = .copy →
      s.work = .copying q ∨ s.work = .hung q ∨ ∃ e, (about s.log q).head? = some (.copied q e)) : Inv (add s p) := by
  refine ⟨fun q hq => ?_, fun q => ?_, fun q o => ?_⟩
  · rw [add_dirty] at hq
    rw [add_queue, add_work]
    by_cases hqd : q ∈ s.dirty
    · rcases h1 q hqd with h | h
      · exact Or.inl (Or.inl h)
      · exact Or.inr h
    · rcases hq with hq | hq
      · exact absurd hq hqd
      · subst hq
        by_cases hb : busy s.work = some q
        · exact Or.inr hb
        · exact Or.inl (Or.inr ⟨rfl, hqd, hb⟩)
  · rw [add_dirty, add_work, add_notes, add_later]
    rcases h2 q with h | h | h | h | h | h
    · exact Or.inr (Or.inr (Or.inr (Or.inl (Or.inr h))))
    · exact Or.inl (told_congr (by simp) (by simp) h)
    · exact Or.inr (Or.inl h)
    · exact Or.inr (Or.inr (Or.inl h))
    · exact Or.inr (Or.inr (Or.inr (Or.inl (Or.inl h))))
    · exact Or.inr (Or.inr (Or.inr (Or.inr h)))
  · rw [add_log, add_work]
    exact h3 q o

/-- The end of the work on `p`, whose look has been logged. -/
theorem inv_done {s : St} {p : Pod} (h1 : ∀ q ∈ s.dirty, q ∈ s.queue ∨ q = p)
    (h2 : ∀ q, Told s q ∨ q ∈ s.notes ∨ q ∈ s.later ∨ q ∈ s.dirty)
    (h3 : ∀ q o, (looks s.log q).head? = some (.saw q (some o)) → todo o = .copy →
      ∃ e, (about s.log q).head? = some (.copied q e)) : Inv (done s p) := by
  refine ⟨fun q hq => ?_, fun q => ?_, fun q o => ?_⟩
  · rw [done_dirty] at hq
    rw [done_queue]
    rcases h1 q hq with h | h
    · exact Or.inl (Or.inl h)
    · exact Or.inl (Or.inr ⟨h, h ▸ hq⟩)
  · rw [done_dirty, done_notes, done_later]
    rcases h2 q with h | h | h | h
    · exact Or.inl (told_congr (by simp) (by simp) h)
    · exact Or.inr (Or.inl h)
    · exact Or.inr (Or.inr (Or.inl h))
    · exact Or.inr (Or.inr (Or.inr (Or.inl h)))
  · rw [done_log]
    intro ha hb
    exact Or.inr (Or.inr (h3 q o ha hb))

theorem inv_step (s : St) (e : Ev) (h : Inv s) : Inv (step1 s e) := by
  cases e with
  | see p o =>
    refine ⟨h.waits, fun q => ?_, h.copied⟩
    by_cases hq : q = p
    · exact Or.inr (Or.inl (by simp [step1, hq]))
    · rcases h.seen q with h | h | h | h | h
      · exact Or.inl (told_congr (s := s) (by simp [step1, hq]) rfl h)
      · exact Or.inr (Or.inl (by simp [step1, h]))
      · exact Or.inr (Or.inr (Or.inl h))
      · exact Or.inr (Or.inr (Or.inr (Or.inl h)))
      · exact Or.inr (Or.inr (Or.inr (Or.inr h)))
  | gone p =>
    refine ⟨h.waits, fun q => ?_, h.copied⟩
    by_cases hq : q = p
    · exact Or.inr (Or.inl (by simp [step1, hq]))
    · rcases h.seen q with h | h | h | h | h
      · exact Or.inl (told_congr (s := s) (by simp [step1, hq]) rfl h)
      · exact Or.inr (Or.inl (by simp [step1, h]))
      · exact Or.inr (Or.inr (Or.inl h))
      · exact Or.inr (Or.inr (Or.inr (Or.inl h)))
      · exact Or.inr (Or.inr (Or.inr (Or.inr h)))
  | deliver =>
    simp only [step1]
    split
    · exact h
    · rename_i p ns hn
      refine inv_add h.waits (fun q => ?_) h.copied
      rcases h.seen q with h | h | h | h | h
      · exact Or.inr (Or.inl (told_congr rfl rfl h))
      · rw [hn] at h
        rcases List.mem_cons.mp h with h | h
        · exact Or.inl h
        · exact Or.inr (Or.inr (Or.inl h))
      · exact Or.inr (Or.inr (Or.inr (Or.inl h)))
      · exact Or.inr (Or.inr (Or.inr (Or.inr (Or.inl h))))
      · exact Or.inr (Or.inr (Or.inr (Or.inr (Or.inr h))))
  | retry =>
    simp only [step1]
    split
    · exact h
    · rename_i p ns hn
      refine inv_add h.waits (fun q => ?_) h.copied
      rcases h.seen q with h | h | h | h | h
      · exact Or.inr (Or.inl (told_congr rfl rfl h))
      · exact Or.inr (Or.inr (Or.inl h))
      · rw [hn] at h
        rcases List.mem_cons.mp h with h | h
        · exact Or.inl h
        · exact Or.inr (Or.inr (Or.inr (Or.inl h)))
      · exact Or.inr (Or.inr (Or.inr (Or.inr (Or.inl h))))
      · exact Or.inr (Or.inr (Or.inr (Or.inr (Or.inr h))))
  | take =>
    simp only [step1]
    split
    · rename_i p q hw hq
      refine ⟨fun r hr => ?_, fun r => ?_, fun r o ha hb => ?_⟩
      · simp only [List.mem_filter, decide_eq_true_eq, ne_eq] at hr
        rcases h.waits r hr.1 with h | h
        · rw [hq] at h
          rcases List.mem_cons.mp h with h | h
          · exact absurd h hr.2
          · exact Or.inl h
        · rw [hw] at h
          cases h
      · by_cases hr : r = p
        · exact Or.inr (Or.inr (Or.inr (Or.inr (by simp [hr]))))
        · rcases h.seen r with h | h | h | h | h
          · exact Or.inl (told_congr rfl rfl h)
          · exact Or.inr (Or.inl h)
          · exact Or.inr (Or.inr (Or.inl h))
          · exact Or.inr (Or.inr (Or.inr (Or.inl (by simp [h, hr]))))
          · rw [hw] at h
            cases h
      · rcases h.copied r o ha hb with h | h | h
        · rw [hw] at h
          cases h
        · rw [hw] at h
          cases h
        · exact Or.inr (Or.inr h)
    · exact h
  | look op =>
    simp only [step1]
    split
    · rename_i p hw
      have hwaits : ∀ q ∈ s.dirty, q ∈ s.queue ∨ q = p := by
        intro q hq
        rcases h.waits q hq with h | h
        · exact Or.inl h
        · rw [hw] at h
          cases h
          exact Or.inr rfl
      have hlooks : ∀ q, q ≠ p → looks (.saw p (s.store p) :: s.log) q = looks s.log q := by
        intro q hq
        rw [looks_cons]
        simp [Act.pod, Act.isLook, Ne.symm hq]
      have hlook : looks (.saw p (s.store p) :: s.log) p = .saw p (s.store p) :: looks s.log p := by
        rw [looks_cons]
        simp [Act.pod, Act.isLook]
      have habout : ∀ q, q ≠ p → about (.saw p (s.store p) :: s.log) q = about s.log q := by
        intro q hq
        rw [about_cons]
        simp [Act.pod, Ne.symm hq]
      have hcop : ∀ q o, q ≠ p → (looks (.saw p (s.store p) :: s.log) q).head? = some (.saw q (some o)) → todo o = .copy →
          ∃ e, (about (.saw p (s.store p) :: s.log) q).head? = some (.copied q e) := by
        intro q o hq ha hb
        rw [hlooks q hq] at ha
        rw [habout q hq]
        rcases h.copied q o ha hb with h | h | h
        · rw [hw] at h
          cases h
        · rw [hw] at h
          cases h
        · exact h
      have hseen : ∀ t : St, t.store = s.store → t.log = .saw p (s.store p) :: s.log → ∀ q, Told t q ∨ q ∈ s.notes ∨ q ∈ s.later ∨ q ∈ s.dirty := by
        intro t h1 h2 q
        by_cases hq : q = p
        · subst hq
          exact Or.inl (Or.inr (Or.inl (by rw [h1, h2, hlook]; rfl)))
        · rcases h.seen q with h | h | h | h | h
          · exact Or.inl (told_congr (by rw [h1]) (by rw [h2, hlooks q hq]) h)
          · exact Or.inr (Or.inl h)
          · exact Or.inr (Or.inr (Or.inl h))
          · exact Or.inr (Or.inr (Or.inr h))
          · rw [hw] at h
            cases h
            exact absurd rfl hq
      rcases look_cases s p op with ⟨f, st, he, hno, _⟩ | ⟨o, ho, ht, he⟩ | ⟨o, ho, ht, he⟩
      · rw [he]
        refine inv_done hwaits (hseen _ rfl rfl) (fun q o ha hb => ?_)
        by_cases hq : q = p
        · subst hq
          simp only [forget] at ha
          rw [hlook] at ha
          simp only [List.head?_cons, Option.some.injEq, Act.saw.injEq, true_and] at ha
          exact absurd hb (hno o ha).1
        · exact hcop q o hq ha hb
      · rw [he]
        refine ⟨fun q hq => ?_, fun q => ?_, fun q o' ha hb => ?_⟩
        · rcases hwaits q hq with h | h
          · exact Or.inl h
          · exact Or.inr (by simp [busy, h])
        · rcases hseen { s with log := .saw p (s.store p) :: s.log, work := .copying p } rfl rfl q with h | h | h | h
          · exact Or.inl h
          · exact Or.inr (Or.inl h)
          · exact Or.inr (Or.inr (Or.inl h))
          · exact Or.inr (Or.inr (Or.inr (Or.inl h)))
        · by_cases hq : q = p
          · exact Or.inl (by simp [hq])
          · exact Or.inr (Or.inr (hcop q o' hq ha hb))
      · rw [he]
        refine ⟨fun q hq => ?_, fun q => ?_, fun q o' ha hb => ?_⟩
        · rcases hwaits q hq with h | h
          · exact Or.inl h
          · exact Or.inr (by simp [hw, busy, h])
        · rcases hseen { s with log := .saw p (s.store p) :: s.log, dead := true } rfl rfl q with h | h | h | h
          · exact Or.inl h
          · exact Or.inr (Or.inl h)
          · exact Or.inr (Or.inr (Or.inl h))
          · exact Or.inr (Or.inr (Or.inr (Or.inl h)))
        · by_cases hq : q = p
          · subst hq
            rw [show looks _ q = _ from hlook] at ha
            simp only [List.head?_cons, Option.some.injEq, Act.saw.injEq, true_and, ho] at ha
            subst ha
            rw [ht] at hb
            cases hb
          · exact Or.inr (Or.inr (hcop q o' hq ha hb))
    · exact h
  | lookFails =>
    simp only [step1]
    split
    · rename_i p hw
      have hwaits : ∀ q ∈ s.dirty, q ∈ s.queue ∨ q = p := by
        intro q hq
        rcases h.waits q hq with h | h
        · exact Or.inl h
        · rw [hw] at h
          cases h
          exact Or.inr rfl
      have hcop : ∀ q o, (looks s.log q).head? = some (.saw q (some o)) → todo o = .copy →
          ∃ e, (about s.log q).head? = some (.copied q e) := by
        intro q o ha hb
        rcases h.copied q o ha hb with h | h | h
        · rw [hw] at h
          cases h
        · rw [hw] at h
          cases h
        · exact h
      have hl1 : ∀ q, q ≠ p → looks (.failed p :: s.log) q = looks s.log q := by
        intro q hq
        rw [looks_cons]
        simp [Act.pod, Ne.symm hq]
      have ha1 : ∀ q, q ≠ p → about (.failed p :: s.log) q = about s.log q := by
        intro q hq
        rw [about_cons]
        simp [Act.pod, Ne.symm hq]
      have hl2 : ∀ q, q ≠ p → looks (.gaveUp p :: .failed p :: s.log) q = looks s.log q := by
        intro q hq
        rw [looks_cons]
        simp [Act.pod, Ne.symm hq, hl1 q hq]
      have ha2 : ∀ q, q ≠ p → about (.gaveUp p :: .failed p :: s.log) q = about s.log q := by
        intro q hq
        rw [about_cons]
        simp [Act.pod, Ne.symm hq, ha1 q hq]
      rcases lookFails_cases s p with ⟨_, he⟩ | ⟨_, he⟩
      · rw [he]
        refine inv_done hwaits (fun q => ?_) (fun q o ha hb => ?_)
        · by_cases hq : q = p
          · exact Or.inr (Or.inr (Or.inl (by simp [hq])))
          · rcases h.seen q with h | h | h | h | h
            · exact Or.inl (told_congr (s := s) rfl (hl1 q hq) h)
            · exact Or.inr (Or.inl h)
            · exact Or.inr (Or.inr (Or.inl (by simp [h])))
            · exact Or.inr (Or.inr (Or.inr h))
            · rw [hw] at h
              cases h
              exact absurd rfl hq
        · by_cases hq : q = p
          · subst hq
            simp [looks_cons, Act.pod, Act.isLook] at ha
          · simp only [hl1 q hq] at ha
            simp only [ha1 q hq]
            exact hcop q o ha hb
      · rw [he]
        refine inv_done hwaits (fun q => ?_) (fun q o ha hb => ?_)
        · by_cases hq : q = p
          · subst hq
            exact Or.inl (Or.inr (Or.inr (by simp [forget, looks_cons, Act.pod, Act.isLook])))
          · rcases h.seen q with h | h | h | h | h
            · exact Or.inl (told_congr (s := s) rfl (hl2 q hq) h)
            · exact Or.inr (Or.inl h)
            · exact Or.inr (Or.inr (Or.inl h))
            · exact Or.inr (Or.inr (Or.inr h))
            · rw [hw] at h
              cases h
              exact absurd rfl hq
        · by_cases hq : q = p
          · subst hq
            simp [forget, looks_cons, Act.pod, Act.isLook] at ha
          · simp only [forget, hl2 q hq] at ha
            simp only [forget, ha2 q hq]
            exact hcop q o ha hb
    · exact h
  | attachEnds a =>
    simp only [step1]
    split
    · rename_i p hw
      split
      · refine ⟨fun q hq => ?_, fun q => ?_, fun q o ha hb => ?_⟩
        · rcases h.waits q hq with h | h
          · exact Or.inl h
          · rw [hw] at h
            exact Or.inr h
        · rcases h.seen q with h | h | h | h | h
          · exact Or.inl (told_congr rfl rfl h)
          · exact Or.inr (Or.inl h)
          · exact Or.inr (Or.inr (Or.inl h))
          · exact Or.inr (Or.inr (Or.inr (Or.inl h)))
          · rw [hw] at h
            cases h
        · rcases h.copied q o ha hb with h | h | h
          · rw [hw] at h
            cases h
            exact Or.inr (Or.inl rfl)
          · rw [hw] at h
            cases h
          · exact Or.inr (Or.inr h)
      · rename_i e _
        have hl : ∀ q, looks (.copied p e :: s.log) q = looks s.log q := by
          intro q
          rw [looks_cons]
          simp [Act.isLook]
        refine inv_done (fun q hq => ?_) (fun q => ?_) (fun q o ha hb => ?_)
        · rcases h.waits q hq with h | h
          · exact Or.inl h
          · rw [hw] at h
            cases h
            exact Or.inr rfl
        · rcases h.seen q with h | h | h | h | h
          · exact Or.inl (told_congr (s := s) rfl (hl q) h)
          · exact Or.inr (Or.inl h)
          · exact Or.inr (Or.inr (Or.inl h))
          · exact Or.inr (Or.inr (Or.inr h))
          · rw [hw] at h
            cases h
        · simp only [forget, hl] at ha
          by_cases hq : q = p
          · subst hq
            exact ⟨e, by simp [forget, about_cons, Act.pod]⟩
          · rcases h.copied q o ha hb with h | h | ⟨e', h⟩
            · rw [hw] at h
              cases h
              exact absurd rfl hq
            · rw [hw] at h
              cases h
            · exact ⟨e', by simp [forget, about_cons, Act.pod, Ne.symm hq, h]⟩
    · exact h
  | listen p o d =>
    simp only [step1]
    split
    · rcases listen_cases s p o d with ⟨he, _⟩ | ⟨he, _⟩ | ⟨he, _⟩ <;> rw [he] <;> exact ⟨h.waits, h.seen, h.copied⟩
    · exact h
  | lost => exact ⟨h.waits, h.seen, h.copied⟩

theorem inv_run (l : Bool) (n : Nat) (f : Res) (es : List Ev) : Inv (run (start l n f) es) :=
  run_inv (Q := fun _ => True) (fun s e _ _ h => inv_step s e h) es _ (fun _ _ => trivial) (inv_start l n f)

/-- However the words of the cluster come and whatever fails: once there is nothing to do, the last look at each pod that is there was at the state
that the cluster last reported, unless looking at it failed so often that it was given up. -/
theorem C139_acted (logger : Bool) (ports : Nat) (file : Res) (es : List Ev) (alive : (run (start logger ports file) es).dead = false)
    (quiet : Quiet (run (start logger ports file) es)) (p : Pod) (o : Obs) (ho : truth es p = some o) :
    (looks (run (start logger ports file) es).log p).head? = some (.saw p (some o)) ∨
      (looks (run (start logger ports file) es).log p).head? = some (.gaveUp p) := by
  have hi := inv_run logger ports file es
  have hs : (run (start logger ports file) es).store p = some o := by
    rw [run_store p es _ alive]
    exact ho
  rcases hi.seen p with h | h | h | h | h
  · rcases h with h | h | h
    · rw [hs] at h
      cases h.1
    · rw [hs] at h
      exact Or.inl h
    · exact Or.inr h
  · rw [quiet.notes] at h
    cases h
  · rw [quiet.later] at h
    cases h
  · rcases hi.waits p h with h | h
    · rw [quiet.queue] at h
      cases h
    · rw [quiet.work] at h
      cases h
  · rw [quiet.work] at h
    cases h

/-- A pod whose init container runs gets the files: once there is nothing to do, the last thing done about it is a copy that returned, with
an error or not (unless it was given up). -/
theorem C139_copied_partial (logger : Bool) (ports : Nat) (file : Res) (es : List Ev)
    (alive : (run (start logger ports file) es).dead = false) (quiet : Quiet (run (start logger ports file) es)) (p : Pod) (o : Obs)
    (ho : truth es p = some o) (hr : o.init = some .running) :
    (∃ err, (about (run (start logger ports file) es).log p).head? = some (.copied p err)) ∨
      (looks (run (start logger ports file) es).log p).head? = some (.gaveUp p) := by
  rcases C139_acted logger ports file es alive quiet p o ho with h | h
  · rcases (inv_run logger ports file es).copied p o h (by simp [todo, hr]) with h | h | h
    · rw [quiet.work] at h
      cases h
    · rw [quiet.work] at h
      cases h
    · exact Or.inl h
  · exact Or.inr h

/-! ## Trying again -/

structure Tries (s : St) : Prop where
  bound : ∀ p, s.tries p ≤ maxRetries
  failed : ∀ p, s.work = .copying p ∨ s.work = .hung p ∨ s.dead = true ∨ ∃ rest, looks s.log p = List.replicate (s.tries p) (.failed p) ++ rest
  gaveUp : ∀ p newer older, s.log = newer ++ .gaveUp p :: older → ∃ rest, looks older p = List.replicate 6 (.failed p) ++ rest

theorem tries_same {s t : St} (h : Tries s) (h1 : t.tries = s.tries) (h2 : t.log = s.log)
    (h3 : ∀ p, s.work = .copying p ∨ s.work = .hung p ∨ s.dead = true → t.work = .copying p ∨ t.work = .hung p ∨ t.dead = true) : Tries t := by
  refine ⟨by rw [h1]; exact h.bound, fun p => ?_, by rw [h2]; exact h.gaveUp⟩
  rw [h1, h2]
  have := h.failed p
  have := h3 p
  grind

/-- Something other than giving up is logged. -/
theorem gaveUp_cons {log : List Act} {a : Act} (h : ∀ p newer older, log = newer ++ .gaveUp p :: older →
    ∃ rest, looks older p = List.replicate 6 (.failed p) ++ rest) (ha : ∀ p, a ≠ .gaveUp p) :
    ∀ p newer older, a :: log = newer ++ .gaveUp p :: older → ∃ rest, looks older p = List.replicate 6 (.failed p) ++ rest := by
  intro p newer older he
  cases newer with
  | nil =>
    simp only [List.nil_append, List.cons.injEq] at he
    exact absurd he.1 (ha p)
  | cons b newer =>
    simp only [List.cons_append, List.cons.injEq] at he
    exact h p newer older he.2

theorem tries_step (s : St) (e : Ev) (hd : s.dead = false) (h : Tries s) : Tries (step1 s e) := by
  cases e with
  | see p o => exact tries_same h rfl rfl (fun _ hh => hh)
  | gone p => exact tries_same h rfl rfl (fun _ hh => hh)
  | deliver =>
    simp only [step1]
    split
    · exact h
    · exact tries_same h (by simp) (by simp) (fun p => by simp)
  | retry =>
    simp only [step1]
    split
    · exact h
    · exact tries_same h (by simp) (by simp) (fun p => by simp)
  | take =>
    simp only [step1]
    split
    · rename_i hw _
      exact tries_same h rfl rfl (fun p hh => by rw [hw, hd] at hh; grind)
    · exact h
  | look op =>
    simp only [step1]
    split
    · rename_i p hw
      have hf : ∀ q, q ≠ p → ∃ rest, looks s.log q = List.replicate (s.tries q) (.failed q) ++ rest := by
        intro q hq
        rcases h.failed q with h | h | h | h
        · rw [hw] at h
          cases h
          try exact absurd rfl hq
        · rw [hw] at h
          cases h
        · rw [hd] at h
          cases h
        · exact h
      have hl : ∀ q, q ≠ p → looks (.saw p (s.store p) :: s.log) q = looks s.log q := by
        intro q hq
        rw [looks_cons]
        simp [Act.pod, Ne.symm hq]
      rcases look_cases s p op with ⟨f, st, he, _⟩ | ⟨o, ho, ht, he⟩ | ⟨o, ho, ht, he⟩
      · rw [he]
        refine ⟨fun q => ?_, fun q => ?_, ?_⟩
        · simp only [done_tries, forget]
          split
          · exact Nat.zero_le _
          · exact h.bound q
        · simp only [done_tries, done_log, forget]
          split
          · exact Or.inr (Or.inr (Or.inr ⟨_, (List.nil_append _).symm⟩))
          · rename_i hq
            rw [hl q hq]
            exact Or.inr (Or.inr (Or.inr (hf q hq)))
        · simp only [done_log, forget]
          exact gaveUp_cons h.gaveUp (fun _ hh => by cases hh)
      · rw [he]
        refine ⟨h.bound, fun q => ?_, gaveUp_cons h.gaveUp (fun _ hh => by cases hh)⟩
        by_cases hq : q = p
        · exact Or.inl (by simp [hq])
        · simp only [hl q hq]
          exact Or.inr (Or.inr (Or.inr (hf q hq)))
      · rw [he]
        exact ⟨h.bound, fun q => Or.inr (Or.inr (Or.inl rfl)), gaveUp_cons h.gaveUp (fun _ hh => by cases hh)⟩
    · exact h
  | lookFails =>
    simp only [step1]
    split
    · rename_i p hw
      have hf : ∀ q, q ≠ p → ∃ rest, looks s.log q = List.replicate (s.tries q) (.failed q) ++ rest := by
        intro q hq
        rcases h.failed q with h | h | h | h
        · rw [hw] at h
          cases h
          try exact absurd rfl hq
        · rw [hw] at h
          cases h
        · rw [hd] at h
          cases h
        · exact h
      have hl : ∀ q, q ≠ p → looks (.failed p :: s.log) q = looks s.log q := by
        intro q hq
        rw [looks_cons]
        simp [Act.pod, Ne.symm hq]
      have hp : looks (.failed p :: s.log) p = .failed p :: looks s.log p := by
        rw [looks_cons]
        simp [Act.pod, Act.isLook]
      have hfp : ∃ rest, looks s.log p = List.replicate (s.tries p) (.failed p) ++ rest := by
        rcases h.failed p with h | h | h | h
        · rw [hw] at h
          cases h
        · rw [hw] at h
          cases h
        · rw [hd] at h
          cases h
        · exact h
      rcases lookFails_cases s p with ⟨ht, he⟩ | ⟨ht, he⟩
      · rw [he]
        refine ⟨fun q => ?_, fun q => ?_, ?_⟩
        · simp only [done_tries]
          split
          · exact ht
          · exact h.bound q
        · simp only [done_tries, done_log]
          split
          · rename_i hq
            subst hq
            obtain ⟨r, hr⟩ := hfp
            exact Or.inr (Or.inr (Or.inr ⟨r, by rw [hp, hr, List.replicate_succ]; rfl⟩))
          · rename_i hq
            rw [hl q hq]
            exact Or.inr (Or.inr (Or.inr (hf q hq)))
        · simp only [done_log]
          exact gaveUp_cons h.gaveUp (fun _ hh => by cases hh)
      · rw [he]
        have h5 : s.tries p = 5 := by
          have := h.bound p
          unfold maxRetries at *
          omega
        refine ⟨fun q => ?_, fun q => ?_, ?_⟩
        · simp only [done_tries, forget]
          split
          · exact Nat.zero_le _
          · exact h.bound q
        · simp only [done_tries, done_log, forget]
          split
          · exact Or.inr (Or.inr (Or.inr ⟨_, (List.nil_append _).symm⟩))
          · rename_i hq
            rw [looks_cons]
            simp only [Act.pod, Act.isLook, Bool.true_and, decide_eq_true_eq, Ne.symm hq, if_false, Ne.eq_def]
            rw [hl q hq]
            exact Or.inr (Or.inr (Or.inr (hf q hq)))
        · simp only [done_log, forget]
          intro q newer older hh
          cases newer with
          | nil =>
            simp only [List.nil_append, List.cons.injEq, Act.gaveUp.injEq] at hh
            obtain ⟨rfl, rfl⟩ := hh
            obtain ⟨r, hr⟩ := hfp
            rw [h5] at hr
            exact ⟨r, by rw [hp, hr]; rfl⟩
          | cons b newer =>
            simp only [List.cons_append, List.cons.injEq] at hh
            exact gaveUp_cons h.gaveUp (a := .failed p) (fun _ hh => by cases hh) q newer older hh.2
    · exact h
  | attachEnds a =>
    simp only [step1]
    split
    · rename_i p hw
      have hf : ∀ q, q ≠ p → ∃ rest, looks s.log q = List.replicate (s.tries q) (.failed q) ++ rest := by
        intro q hq
        rcases h.failed q with h | h | h | h
        · rw [hw] at h
          cases h
          try exact absurd rfl hq
        · rw [hw] at h
          cases h
        · rw [hd] at h
          cases h
        · exact h
      split
      · refine tries_same h rfl rfl (fun q hh => ?_)
        rw [hw, hd] at hh
        simp only [Work.copying.injEq, reduceCtorEq, Bool.false_eq_true, or_false] at hh
        exact Or.inr (Or.inl (by rw [hh]))
      · rename_i e _
        have hl : ∀ q, looks (.copied p e :: s.log) q = looks s.log q := by
          intro q
          rw [looks_cons]
          simp [Act.isLook]
        refine ⟨fun q => ?_, fun q => ?_, ?_⟩
        · simp only [done_tries, forget]
          split
          · exact Nat.zero_le _
          · exact h.bound q
        · simp only [done_tries, done_log, forget]
          split
          · exact Or.inr (Or.inr (Or.inr ⟨_, (List.nil_append _).symm⟩))
          · rename_i hq
            rw [hl q]
            exact Or.inr (Or.inr (Or.inr (hf q hq)))
        · simp only [done_log, forget]
          exact gaveUp_cons h.gaveUp (fun _ hh => by cases hh)
    · exact h
  | listen p o d =>
    simp only [step1]
    split
    · rcases listen_cases s p o d with ⟨he, _⟩ | ⟨he, _⟩ | ⟨he, _⟩ <;> rw [he]
      · exact tries_same h rfl rfl (fun _ hh => hh)
      · exact tries_same h rfl rfl (fun _ _ => Or.inr (Or.inr rfl))
      · exact tries_same h rfl rfl (fun _ hh => hh)
    · exact h
  | lost => exact tries_same h rfl rfl (fun _ hh => hh)

/-- A pod is given up only when looking at it has failed six times running. -/
theorem C139_retry (logger : Bool) (ports : Nat) (file : Res) (es : List Ev) (p : Pod) (newer older : List Act)
    (h : (run (start logger ports file) es).log = newer ++ .gaveUp p :: older) :
    ∃ rest, looks older p = List.replicate 6 (.failed p) ++ rest :=
  (run_inv (P := Tries) (Q := fun _ => True) (fun s e hd _ h => tries_step s e hd h) es _ (fun _ _ => trivial)
    ⟨fun _ => Nat.zero_le _, fun _ => Or.inr (Or.inr (Or.inr ⟨[], rfl⟩)), by simp [start]⟩).gaveUp p newer older h

/-! ## What is recorded and forwarded -/

/-- A step, as far as the log, the file and the forwarding are concerned. -/
inductive Shape (s : St) : Ev → St → Prop
  | same (e t) (hl : t.log = s.log) (hf : t.file = s.file) (hs : t.starting = s.starting) (ha : t.active = s.active) (hr : t.ready = s.ready)
      (hp : t.ports = s.ports) : Shape s e t
  | other (e t a) (hl : t.log = a ++ s.log) (hn : ∀ p o, Act.saw p o ∉ a) (hf : t.file = s.file) (hs : t.starting = s.starting)
      (ha : t.active = s.active) (hr : t.ready = s.ready) (hp : t.ports = s.ports) : Shape s e t
  | look (e t p) (hl : t.log = .saw p (s.store p) :: s.log) (hn : ∀ o, s.store p = some o → todo o ≠ .forward) (hf : t.file = s.file)
      (hs : t.starting = s.starting) (ha : t.active = s.active) (hr : t.ready = s.ready) (hp : t.ports = s.ports) : Shape s e t
  | forward (op t p o) (ho : s.store p = some o) (ht : todo o = .forward) (hl : t.log = .saw p (some o) :: s.log)
      (hf : t.file = (record p op s.file).1) (hs : t.starting = if (record p op s.file).2 then s.starting ++ [(p, o)] else s.starting)
      (ha : t.active = s.active) (hr : t.ready = s.ready) (hp : t.ports = s.ports) : Shape s (.look op) t
  | refused (p o d t) (hm : (p, o) ∈ s.starting) (hw : o.phase = false ∨ s.ports < 2 ∨ d = false ∨ s.active.isSome = true ∨ t.dead = true)
      (hl : t.log = s.log) (hf : t.file = s.file) (hs : t.starting = s.starting.erase (p, o)) (ha : t.active = s.active)
      (hr : t.ready = s.ready) (hp : t.ports = s.ports) (hd : t.dead = true → 2 < s.ports ∨ s.ready = true) : Shape s (.listen p o d) t
  | listens (p o d t) (hm : (p, o) ∈ s.starting) (hph : o.phase = true) (hd : d = true) (hn : s.active = none) (hl : t.log = s.log)
      (hf : t.file = s.file) (hs : t.starting = s.starting.erase (p, o)) (ha : t.active = some p) (hr : t.ready = true)
      (hp : t.ports = s.ports) (hp2 : s.ports = 2) (hr0 : s.ready = false) : Shape s (.listen p o d) t
  | lost (t) (hl : t.log = s.log) (hf : t.file = s.file) (hs : t.starting = s.starting) (ha : t.active = none) (hr : t.ready = s.ready)
      (hp : t.ports = s.ports) : Shape s .lost t

theorem shape (s : St) (e : Ev) (hd : s.dead = false) : Shape s e (step1 s e) := by
  cases e with
  | see p o => exact .same _ _ rfl rfl rfl rfl rfl rfl
  | gone p => exact .same _ _ rfl rfl rfl rfl rfl rfl
  | deliver =>
    simp only [step1]
    split
    · exact .same _ _ rfl rfl rfl rfl rfl rfl
    · exact .same _ _ (by simp) (by simp) (by simp) (by simp) (by simp) (by simp)
  | retry =>
    simp only [step1]
    split
    · exact .same _ _ rfl rfl rfl rfl rfl rfl
    · exact .same _ _ (by simp) (by simp) (by simp) (by simp) (by simp) (by simp)
  | take =>
    simp only [step1]
    split <;> exact .same _ _ rfl rfl rfl rfl rfl rfl
  | look op =>
    simp only [step1]
    split
    · rename_i p hw
      rcases look_cases s p op with ⟨f, st, he, hn, ⟨h1, h2, h3⟩ | ⟨o, ho, ht, h1, h2⟩⟩ | ⟨o, ho, ht, he⟩ | ⟨o, ho, ht, he⟩
      · rw [he]
        exact .look _ _ p (by simp [forget]) h3 (by simp [forget, h1]) (by simp [forget, h2]) (by simp [forget]) (by simp [forget])
          (by simp [forget])
      · rw [he]
        exact .forward op _ p o ho ht (by simp [forget, ho]) (by simp [forget, h1]) (by simp [forget, h2]) (by simp [forget])
          (by simp [forget]) (by simp [forget])
      · rw [he]
        exact .look _ _ p rfl (by simp [ho, ht]) rfl rfl rfl rfl rfl
      · rw [he]
        exact .look _ _ p rfl (by simp [ho, ht]) rfl rfl rfl rfl rfl
    · exact .same _ _ rfl rfl rfl rfl rfl rfl
  | lookFails =>
    simp only [step1]
    split
    · rename_i p hw
      rcases lookFails_cases s p with ⟨_, he⟩ | ⟨_, he⟩
      · rw [he]
        exact .other _ _ [.failed p] (by simp) (by simp) (by simp) (by simp) (by simp) (by simp) (by simp)
      · rw [he]
        exact .other _ _ [.gaveUp p, .failed p] (by simp [forget]) (by simp) (by simp [forget]) (by simp [forget]) (by simp [forget])
          (by simp [forget]) (by simp [forget])
    · exact .same _ _ rfl rfl rfl rfl rfl rfl
  | attachEnds a =>
    simp only [step1]
    split
    · rename_i p hw
      split
      · exact .same _ _ rfl rfl rfl rfl rfl rfl
      · rename_i e _
        exact .other _ _ [.copied p e] (by simp [forget]) (by simp) (by simp [forget]) (by simp [forget]) (by simp [forget])
          (by simp [forget]) (by simp [forget])
    · exact .same _ _ rfl rfl rfl rfl rfl rfl
  | listen p o d =>
    simp only [step1]
    split
    · rename_i hm
      rcases listen_cases s p o d with ⟨he, h⟩ | ⟨he, h⟩ | ⟨he, h1, h2, h3, h4, h5⟩
      · rw [he]
        refine .refused p o d _ hm ?_ rfl rfl rfl rfl rfl rfl (fun h => ?_)
        · rcases h with h | h | h | h
          · exact Or.inl h
          · exact Or.inr (Or.inl h)
          · exact Or.inr (Or.inr (Or.inl h))
          · exact Or.inr (Or.inr (Or.inr (Or.inl h)))
        · simp only [hd] at h
          cases h
      · rw [he]
        exact .refused p o d _ hm (Or.inr (Or.inr (Or.inr (Or.inr rfl)))) rfl rfl rfl rfl rfl rfl (fun _ => h)
      · rw [he]
        exact .listens p o d _ hm h1 h3 h4 rfl rfl rfl rfl rfl rfl h2 h5
    · exact .same _ _ rfl rfl rfl rfl rfl rfl
  | lost => exact .lost _ rfl rfl rfl rfl rfl rfl

/-- Its init container was seen to run. -/
def SawInit (log : List Act) (p : Pod) : Prop := ∃ o, Act.saw p (some o) ∈ log ∧ o.init = some .running

theorem SawInit.cons {log p} (a) (h : SawInit log p) : SawInit (a :: log) p := by
  obtain ⟨o, ho, hi⟩ := h
  exact ⟨o, List.mem_cons_of_mem _ ho, hi⟩

@[simp] theorem done_work_idle (s : St) (p : Pod) : (done s p).work = .idle := by unfold done; split <;> rfl
@[simp] theorem add_work_same (s : St) (p : Pod) : (add s p).work = s.work := by unfold add; split; rfl; split <;> rfl

/-- Files are copied only to pods whose init container was seen to run. -/
theorem C139_only (logger : Bool) (ports : Nat) (file : Res) (es : List Ev) (p : Pod) (err : Bool)
    (h : Act.copied p err ∈ (run (start logger ports file) es).log) : SawInit (run (start logger ports file) es).log p := by
  have key := run_inv (Q := fun _ => True)
    (P := fun s => (∀ p err, Act.copied p err ∈ s.log → SawInit s.log p) ∧ ∀ p, s.work = .copying p → SawInit s.log p) ?_ es
    (start logger ports file) (fun _ _ => trivial) ⟨(fun p err h => by cases h), (fun p h => by cases h)⟩
  · exact key.1 p err h
  · rintro s e hd - ⟨h1, h2⟩
    have same : ∀ t : St, t.log = s.log → (t.work = s.work ∨ ∀ p, t.work ≠ .copying p) →
        (∀ p err, Act.copied p err ∈ t.log → SawInit t.log p) ∧ ∀ p, t.work = .copying p → SawInit t.log p := by
      intro t hl hw
      rw [hl]
      refine ⟨h1, fun p h => ?_⟩
      rcases hw with hw | hw
      · exact h2 p (hw ▸ h)
      · exact absurd h (hw p)
    have saw : ∀ (t : St) (q : Pod) (x : Option Obs), t.log = .saw q x :: s.log → (∀ p, t.work = .copying p → p = q ∧ ∃ o, x = some o ∧ o.init = some .running) →
        (∀ p err, Act.copied p err ∈ t.log → SawInit t.log p) ∧ ∀ p, t.work = .copying p → SawInit t.log p := by
      intro t q x hl hw
      rw [hl]
      refine ⟨fun p err h => ?_, fun p h => ?_⟩
      · rcases List.mem_cons.1 h with h | h
        · cases h
        · exact (h1 p err h).cons _
      · obtain ⟨rfl, o, rfl, hi⟩ := hw p h
        exact ⟨o, List.mem_cons_self .., hi⟩
    cases e with
    | see p o => exact same _ rfl (Or.inl rfl)
    | gone p => exact same _ rfl (Or.inl rfl)
    | deliver =>
      simp only [step1]
      split
      · exact same _ rfl (Or.inl rfl)
      · exact same _ (by simp) (Or.inl (by simp))
    | retry =>
      simp only [step1]
      split
      · exact same _ rfl (Or.inl rfl)
      · exact same _ (by simp) (Or.inl (by simp))
    | take =>
      simp only [step1]
      split
      · exact same _ rfl (Or.inr (by simp))
      · exact same _ rfl (Or.inl rfl)
    | look op =>
      simp only [step1]
      split
      · rename_i p hw
        rcases look_cases s p op with ⟨f, st, he, hn, h⟩ | ⟨o, ho, ht, he⟩ | ⟨o, ho, ht, he⟩
        · rw [he]
          exact saw _ p (s.store p) (by simp [forget]) (by simp)
        · rw [he]
          refine saw _ p (s.store p) rfl fun q hq => ?_
          have hq : Work.copying p = .copying q := hq
          injection hq with hq
          refine ⟨hq.symm, o, ho, ?_⟩
          unfold todo at ht
          split at ht <;> first | assumption | (simp at ht; done) | (split at ht <;> simp at ht)
        · rw [he]
          refine saw _ p (s.store p) rfl fun q hq => ?_
          have hq : s.work = .copying q := hq
          rw [hw] at hq
          cases hq
      · exact same _ rfl (Or.inl rfl)
    | lookFails =>
      simp only [step1]
      split
      · rename_i p hw
        rcases lookFails_cases s p with ⟨_, he⟩ | ⟨_, he⟩
        · rw [he]
          refine ⟨fun p' err h => ?_, fun p' h => by simp at h⟩
          have h : Act.copied p' err ∈ s.log := by simpa using h
          simpa using (h1 p' err h).cons _
        · rw [he]
          refine ⟨fun p' err h => ?_, fun p' h => by simp at h⟩
          have h : Act.copied p' err ∈ s.log := by simpa [forget] using h
          simpa [forget] using ((h1 p' err h).cons _).cons _
      · exact same _ rfl (Or.inl rfl)
    | attachEnds a =>
      simp only [step1]
      split
      · rename_i p hw
        split
        · exact same _ rfl (Or.inr (by simp))
        · rename_i e _
          refine ⟨fun p' err h => ?_, fun p' h => by simp at h⟩
          have h : p' = p ∧ err = e ∨ Act.copied p' err ∈ s.log := by simpa [forget] using h
          rcases h with ⟨rfl, _⟩ | h
          · simpa [forget] using (h2 _ hw).cons _
          · simpa [forget] using (h1 p' err h).cons _
      · exact same _ rfl (Or.inl rfl)
    | listen p o d =>
      simp only [step1]
      split
      · rcases listen_cases s p o d with ⟨he, h⟩ | ⟨he, h⟩ | ⟨he, _⟩ <;> rw [he] <;> exact same _ rfl (Or.inl rfl)
      · exact same _ rfl (Or.inl rfl)
    | lost => exact same _ rfl (Or.inl rfl)

/-- The manager was seen to run in `p`. -/
def Ran (log : List Act) (p : Pod) : Prop := ∃ o, Act.saw p (some o) ∈ log ∧ todo o = .forward

/-- The file does not come to name anything but a pod in which the manager was seen to run; and ports are forwarded to such a pod only, and only
if its phase was "Running". -/
theorem C139_names (logger : Bool) (ports : Nat) (file : Res) (es : List Ev) :
    ((run (start logger ports file) es).file = file ∨ (run (start logger ports file) es).file = .junk ∨
      ∃ p, Ran (run (start logger ports file) es).log p ∧ (run (start logger ports file) es).file = .pod (some p)) ∧
    ∀ p, (run (start logger ports file) es).active = some p →
      ∃ o, Act.saw p (some o) ∈ (run (start logger ports file) es).log ∧ todo o = .forward ∧ o.phase = true := by
  have key := run_inv (Q := fun _ => True)
    (P := fun s => (s.file = file ∨ s.file = .junk ∨ ∃ p, Ran s.log p ∧ s.file = .pod (some p)) ∧
      (∀ p, s.active = some p → ∃ o, Act.saw p (some o) ∈ s.log ∧ todo o = .forward ∧ o.phase = true) ∧
      ∀ p o, (p, o) ∈ s.starting → Act.saw p (some o) ∈ s.log ∧ todo o = .forward) ?_ es (start logger ports file) (fun _ _ => trivial)
    ⟨Or.inl rfl, (fun p h => by cases h), (fun p o h => by cases h)⟩
  · exact ⟨key.1, key.2.1⟩
  · rintro s e hd - ⟨h1, h2, h3⟩
    cases shape s e hd with
    | same e t hl hf hs ha hr hp => rw [hl, hf, hs, ha]; exact ⟨h1, h2, h3⟩
    | other e t a hl hn hf hs ha hr hp =>
      rw [hl, hf, hs, ha]
      refine ⟨?_, fun p h => ?_, fun p o h => ?_⟩
      · rcases h1 with h | h | ⟨p, ⟨o, ho, ht⟩, h⟩
        · exact Or.inl h
        · exact Or.inr (Or.inl h)
        · exact Or.inr (Or.inr ⟨p, ⟨o, by simp [ho], ht⟩, h⟩)
      · obtain ⟨o, ho, ht⟩ := h2 p h
        exact ⟨o, by simp [ho], ht⟩
      · obtain ⟨ho, ht⟩ := h3 p o h
        exact ⟨by simp [ho], ht⟩
    | look e t q hl hn hf hs ha hr hp =>
      rw [hl, hf, hs, ha]
      refine ⟨?_, fun p h => ?_, fun p o h => ?_⟩
      · rcases h1 with h | h | ⟨p, ⟨o, ho, ht⟩, h⟩
        · exact Or.inl h
        · exact Or.inr (Or.inl h)
        · exact Or.inr (Or.inr ⟨p, ⟨o, by simp [ho], ht⟩, h⟩)
      · obtain ⟨o, ho, ht⟩ := h2 p h
        exact ⟨o, by simp [ho], ht⟩
      · obtain ⟨ho, ht⟩ := h3 p o h
        exact ⟨by simp [ho], ht⟩
    | forward op t q o' ho' ht' hl hf hs ha hr hp =>
      rw [hl, hf, hs, ha]
      refine ⟨?_, fun p h => ?_, fun p o h => ?_⟩
      · have old : s.file = file ∨ s.file = .junk ∨ ∃ p, Ran (.saw q (some o') :: s.log) p ∧ s.file = .pod (some p) := by
          rcases h1 with h | h | ⟨p, ⟨o, ho, ht⟩, h⟩
          · exact Or.inl h
          · exact Or.inr (Or.inl h)
          · exact Or.inr (Or.inr ⟨p, ⟨o, by simp [ho], ht⟩, h⟩)
        have new : Ran (.saw q (some o') :: s.log) q := ⟨o', by simp, ht'⟩
        have hrec : (record q op s.file).1 = s.file ∨ (record q op s.file).1 = .junk ∨ (record q op s.file).1 = .pod (some q) := by
          cases op <;> cases s.file <;> simp [record]
        rcases hrec with h | h | h
        · rw [h]
          exact old
        · exact Or.inr (Or.inl h)
        · exact Or.inr (Or.inr ⟨q, new, h⟩)
      · obtain ⟨o, ho, ht⟩ := h2 p h
        exact ⟨o, by simp [ho], ht⟩
      · have hm : (p, o) ∈ s.starting ∨ (p, o) = (q, o') := by
          split at h
          · simpa using h
          · exact Or.inl h
        rcases hm with h | h
        · obtain ⟨ho, ht⟩ := h3 p o h
          exact ⟨by simp [ho], ht⟩
        · cases h
          exact ⟨by simp, ht'⟩
    | refused q o' d t hm hw hl hf hs ha hr hp hdd =>
      rw [hl, hf, hs, ha]
      exact ⟨h1, h2, fun p o h => h3 p o (List.mem_of_mem_erase h)⟩
    | listens q o' d t hm hph hdd hn hl hf hs ha hr hp hp2 hr0 =>
      rw [hl, hf, hs, ha]
      refine ⟨h1, fun p h => ?_, fun p o h => h3 p o (List.mem_of_mem_erase h)⟩
      cases h
      exact ⟨o', (h3 q o' hm).1, (h3 q o' hm).2, hph⟩
    | lost t hl hf hs ha hr hp =>
      rw [hl, hf, hs, ha]
      exact ⟨h1, (fun p h => by cases h), h3⟩

/-- The pod in which the manager was last seen to run -/
def lastRan (log : List Act) : Option Pod :=
  log.findSome? fun a => match a with
    | .saw p (some o) => if todo o = .forward then some p else none
    | _ => none

theorem lastRan_other {a log : List Act} (hn : ∀ p o, Act.saw p o ∉ a) : lastRan (a ++ log) = lastRan log := by
  induction a with
  | nil => rfl
  | cons x a ih =>
    rw [List.cons_append, lastRan, List.findSome?_cons]
    have hx : ∀ p o, x ≠ Act.saw p o := fun p o h => hn p o (by simp [h])
    have := ih (fun p o h => hn p o (by simp [h]))
    cases x with
    | saw p o => exact absurd rfl (hx p o)
    | failed p => exact this
    | gaveUp p => exact this
    | copied p e => exact this

/-- If the file can be read and written, it names the pod in which the manager was last seen to run. -/
theorem C139_last (logger : Bool) (ports : Nat) (p0 : Option Pod) (es : List Ev) (ok : ∀ op, .look op ∈ es → op = .ok) :
    (run (start logger ports (.pod p0)) es).file = .pod ((lastRan (run (start logger ports (.pod p0)) es).log).or p0) := by
  refine run_inv (Q := fun e => ∀ op, e = .look op → op = .ok) (P := fun s => s.file = .pod ((lastRan s.log).or p0)) ?_ es _
    (fun e he op h => ok op (h ▸ he)) rfl
  intro s e hd hq h
  cases shape s e hd with
  | same e t hl hf hs ha hr hp => rw [hl, hf, h]
  | other e t a hl hn hf hs ha hr hp => rw [hl, hf, h, lastRan_other hn]
  | look e t q hl hn hf hs ha hr hp =>
    rw [hl, hf, h]
    unfold lastRan
    rw [List.findSome?_cons]
    cases ho : s.store q with
    | none => rfl
    | some o => simp [hn o ho]
  | forward op t q o' ho' ht' hl hf hs ha hr hp =>
    rw [hl, hf, hq op rfl, h]
    simp [record, lastRan, List.findSome?_cons, ht']
  | refused q o' d t hm hw hl hf hs ha hr hp hdd => rw [hl, hf, h]
  | listens q o' d t hm hph hdd hn hl hf hs ha hr hp hp2 hr0 => rw [hl, hf, h]
  | lost t hl hf hs ha hr hp => rw [hl, hf, h]

/-- All that is stored or seen was reported. -/
theorem reported (logger : Bool) (ports : Nat) (file : Res) (es : List Ev) :
    (∀ p o, (run (start logger ports file) es).store p = some o → .see p o ∈ es) ∧
      ∀ p o, Act.saw p (some o) ∈ (run (start logger ports file) es).log → .see p o ∈ es := by
  refine run_inv (Q := fun e => e ∈ es)
    (P := fun s => (∀ p o, s.store p = some o → .see p o ∈ es) ∧ ∀ p o, Act.saw p (some o) ∈ s.log → .see p o ∈ es) ?_ es
    (start logger ports file) (fun e he => he) ⟨(fun p o h => by cases h), (fun p o h => by cases h)⟩
  rintro s e hd he ⟨h1, h2⟩
  refine ⟨fun p o h => ?_, fun p o h => ?_⟩
  · rw [step1_store] at h
    unfold hear at h
    split at h
    · split at h
      · rename_i hpq
        cases h
        exact hpq ▸ he
      · exact h1 p o h
    · split at h
      · cases h
      · exact h1 p o h
    · exact h1 p o h
  · cases shape s e hd with
    | same e t hl hf hs ha hr hp => exact h2 p o (hl ▸ h)
    | other e t a hl hn hf hs ha hr hp =>
      rw [hl] at h
      rcases List.mem_append.mp h with h | h
      · exact absurd h (hn p (some o))
      · exact h2 p o h
    | look e t q hl hn hf hs ha hr hp =>
      rw [hl] at h
      rcases List.mem_cons.mp h with h | h
      · simp only [Act.saw.injEq] at h
        exact h1 p o (by rw [h.1, ← h.2])
      · exact h2 p o h
    | forward op t q o' ho' ht' hl hf hs ha hr hp =>
      rw [hl] at h
      rcases List.mem_cons.mp h with h | h
      · simp only [Act.saw.injEq, Option.some.injEq] at h
        exact h1 p o (by rw [h.1, h.2, ho'])
      · exact h2 p o h
    | refused q o' d t hm hw hl hf hs ha hr hp hdd => exact h2 p o (hl ▸ h)
    | listens q o' d t hm hph hdd hn hl hf hs ha hr hp hp2 hr0 => exact h2 p o (hl ▸ h)
    | lost t hl hf hs ha hr hp => exact h2 p o (hl ▸ h)

theorem mem_of_looks_head {log : List Act} {p : Pod} {a : Act} (h : (looks log p).head? = some a) : a ∈ log :=
  (List.mem_filter.mp (List.mem_of_mem_head? (Option.mem_def.mpr h))).1

/-- If the manager was reported to run in one pod only, the file can be read and written and there is nothing to do, the file names that pod
(unless it was given up). -/
theorem C139_recorded_partial (logger : Bool) (ports : Nat) (p0 : Option Pod) (es : List Ev) (ok : ∀ op, .look op ∈ es → op = .ok)
    (alive : (run (start logger ports (.pod p0)) es).dead = false) (quiet : Quiet (run (start logger ports (.pod p0)) es))
    (p : Pod) (o : Obs) (ho : truth es p = some o) (hm : o.init = some .terminated ∧ o.main = some .running)
    (only : ∀ q o', .see q o' ∈ es → o'.main = some .running → q = p) :
    (run (start logger ports (.pod p0)) es).file = .pod (some p) ∨
      (looks (run (start logger ports (.pod p0)) es).log p).head? = some (.gaveUp p) := by
  rcases C139_acted logger ports (.pod p0) es alive quiet p o ho with h | h
  · left
    rw [C139_last logger ports p0 es ok]
    have hmem := mem_of_looks_head h
    have ht : todo o = .forward := by simp [todo, hm.1, hm.2]
    cases hl : lastRan (run (start logger ports (.pod p0)) es).log with
    | none =>
      unfold lastRan at hl
      rw [List.findSome?_eq_none_iff] at hl
      have := hl _ hmem
      simp [ht] at this
    | some q =>
      unfold lastRan at hl
      obtain ⟨a, ha, hq⟩ := List.exists_of_findSome?_eq_some hl
      have : q = p := by
        split at hq
        · rename_i p' o' 
          split at hq
          · rename_i ht'
            cases hq
            refine only _ o' ((reported logger ports (.pod p0) es).2 _ _ ha) ?_
            unfold todo at ht'
            split at ht' <;> try cases ht'
            split at ht' <;> first | assumption | cases ht'
          · cases hq
        · cases hq
      rw [this]
      rfl
  · exact Or.inr h

/-- If connections can be made and are not lost, the file can be read, and a pod in which the manager runs is reported as running, then once there
is nothing to do the ports are forwarded to a pod in which the manager was seen to run (unless the pod was given up). -/
theorem C139_forwarded_partial (logger : Bool) (p0 : Option Pod) (es : List Ev) (ok : ∀ op, .look op ∈ es → op = .ok)
    (dials : ∀ p o d, .listen p o d ∈ es → d = true) (kept : .lost ∉ es)
    (phase : ∀ p o, .see p o ∈ es → o.main = some .running → o.phase = true)
    (alive : (run (start logger cmdPorts (.pod p0)) es).dead = false) (quiet : Quiet (run (start logger cmdPorts (.pod p0)) es))
    (started : (run (start logger cmdPorts (.pod p0)) es).starting = [])
    (p : Pod) (o : Obs) (ho : truth es p = some o) (hm : o.init = some .terminated ∧ o.main = some .running) :
    (∃ q, (run (start logger cmdPorts (.pod p0)) es).active = some q ∧ Ran (run (start logger cmdPorts (.pod p0)) es).log q) ∨
      (looks (run (start logger cmdPorts (.pod p0)) es).log p).head? = some (.gaveUp p) := by
  have fwd : ∀ o, todo o = .forward → o.main = some .running := by
    intro o ht
    unfold todo at ht
    split at ht <;> try cases ht
    split at ht <;> first | assumption | cases ht
  rcases C139_acted logger cmdPorts (.pod p0) es alive quiet p o ho with h | h
  · left
    have key := run_inv (Q := fun e => e ∈ es)
      (P := fun s => s.ports = 2 ∧ (s.active = none → s.ready = false) ∧ s.file ≠ .junk ∧ (∀ q o, (q, o) ∈ s.starting → o.phase = true) ∧
        (∀ q o, s.store q = some o → .see q o ∈ es) ∧ ((∃ q, Ran s.log q) → s.active.isSome = true ∨ s.starting ≠ [])) ?_ es
      (start logger cmdPorts (.pod p0)) (fun _ he => he)
      ⟨rfl, fun _ => rfl, (fun h => by cases h), (fun q o h => by cases h), (fun q o h => by cases h),
        (fun ⟨q, o, h, _⟩ => by cases h)⟩
    · have hran : Ran (run (start logger cmdPorts (.pod p0)) es).log p :=
        ⟨o, mem_of_looks_head h, by simp [todo, hm.1, hm.2]⟩
      rcases key.2.2.2.2.2 ⟨p, hran⟩ with h | h
      · obtain ⟨q, hq⟩ := Option.isSome_iff_exists.mp h
        obtain ⟨o', h1, h2, _⟩ := (C139_names logger cmdPorts (.pod p0) es).2 q hq
        exact ⟨q, hq, o', h1, h2⟩
      · exact absurd started h
    · rintro s e hd he ⟨h1, h2, h3, h4, h5, h6⟩
      have h5' : ∀ q o, (step1 s e).store q = some o → .see q o ∈ es := by
        intro q o h
        rw [step1_store] at h
        unfold hear at h
        split at h
        · split at h
          · rename_i hpq
            cases h
            exact hpq ▸ he
          · exact h5 q o h
        · split at h
          · cases h
          · exact h5 q o h
        · exact h5 q o h
      refine ⟨?_, ?_, ?_, ?_, h5', ?_⟩ <;> cases shape s e hd with
      | same e t hl hf hs ha hr hp => simp only [hl, hf, hs, ha, hr, hp]; assumption
      | other e t a hl hn hf hs ha hr hp =>
        simp only [hl, hf, hs, ha, hr, hp]
        first
        | assumption
        | rintro ⟨q, o, hm, ht⟩
          refine h6 ⟨q, o, ?_, ht⟩
          rcases List.mem_append.mp hm with h | h
          · exact absurd h (hn _ _)
          · exact h
      | look e t q hl hn hf hs ha hr hp =>
        simp only [hl, hf, hs, ha, hr, hp]
        first
        | assumption
        | rintro ⟨q', o, hm, ht⟩
          refine h6 ⟨q', o, ?_, ht⟩
          rcases List.mem_cons.mp hm with h | h
          · simp only [Act.saw.injEq] at h
            exact absurd ht (hn o h.2.symm)
          · exact h
      | forward op t q o' ho' ht' hl hf hs ha hr hp =>
        have hop := ok op he
        subst hop
        have hrec : record q .ok s.file = (.pod (some q), true) := by
          cases hfile : s.file with
          | junk => exact absurd hfile h3
          | pod x => rfl
        rw [hrec] at hf hs
        simp only [if_true] at hs
        simp only [hl, hf, hs, ha, hr, hp]
        first
        | assumption
        | intro q2 o2 h
          rcases List.mem_append.mp h with h | h
          · exact h4 q2 o2 h
          · simp only [List.mem_singleton, Prod.mk.injEq] at h
            rw [h.2]
            exact phase q o' (h5 q o' ho') (fwd o' ht')
        | exact fun _ => Or.inr (List.append_ne_nil_of_right_ne_nil _ (List.cons_ne_nil _ _))
        | simp
      | refused q o' d t hm hw hl hf hs ha hr hp hdd =>
        have hphase := h4 q o' hm
        have hdial := dials q o' d he
        have hact : s.active.isSome = true := by
          rcases hw with h | h | h | h | h
          · rw [hphase] at h
            cases h
          · omega
          · rw [hdial] at h
            cases h
          · exact h
          · rcases hdd h with h | h
            · omega
            · cases hact : s.active with
              | none =>
                rw [h2 hact] at h
                cases h
              | some q => rfl
        simp only [hl, hf, hs, ha, hr, hp]
        first
        | assumption
        | exact fun q2 o2 h => h4 q2 o2 (List.mem_of_mem_erase h)
        | exact fun _ => Or.inl hact
      | listens q o' d t hm hph hdd hn hl hf hs ha hr hp hp2 hr0 =>
        simp only [hl, hf, hs, ha, hr, hp]
        first
        | assumption
        | exact fun q2 o2 h => h4 q2 o2 (List.mem_of_mem_erase h)
        | exact fun _ => Or.inl rfl
        | simp
      | lost t hl hf hs ha hr hp => exact absurd he kept
  · exact Or.inr h

/-! ## The files -/

theorem unpack_spec (l : List Entry) : ∀ (fs : Str → Option Content) (n : Str),
    unpack fs l n = match (l.reverse.find? fun e => e.1 = n) with
      | some e => some e.2
      | none => fs n := by
  induction l with
  | nil => intro fs n; rfl
  | cons e l ih =>
    intro fs n
    show unpack _ l n = _
    rw [ih, List.reverse_cons, List.find?_append]
    cases hf : l.reverse.find? (fun e => decide (e.1 = n)) with
    | some x => simp
    | none =>
      by_cases he : e.1 = n
      · simp [he]
      · simp [he, Ne.symm he]

theorem makeTar_ok {disk : Str → Option Content} {files : List Pair} (h : ∀ p ∈ files, (disk p.src).isSome = true) :
    makeTar disk files = (files.filterMap (fun p => (disk p.src).map fun c => (entryName p, c)), false) := by
  induction files with
  | nil => rfl
  | cons p ps ih =>
    obtain ⟨c, hc⟩ := Option.isSome_iff_exists.mp (h p (by simp))
    rw [makeTar, hc, ih (fun q hq => h q (by simp [hq]))]
    simp [hc]

/-- Where a file goes: to the path that was given, or to the file's own name in the directory that was given; that name is what follows the
last slash of its path. -/
theorem C139_where (p : Pair) :
    ((∀ d, p.dest ≠ d ++ ['/']) → entryName p = p.dest) ∧
      ∀ d dir name, p.dest = d ++ ['/'] → '/' ∉ name → p.src = dir ++ '/' :: name → entryName p = d ++ '/' :: name := by
  constructor
  · intro h
    unfold entryName
    rw [if_neg]
    intro he
    unfold endsInSlash at he
    simp only [decide_eq_true_eq] at he
    obtain ⟨d, hd⟩ := List.getLast?_eq_some_iff.mp he
    exact h d hd
  · intro d dir name hd hn hs
    unfold entryName
    rw [if_pos (by simp [endsInSlash, hd])]
    have : base p.src = name := by
      unfold base
      rw [hs, List.reverse_append, List.reverse_cons, List.append_assoc, List.takeWhile_append_of_pos]
      · simp
      · intro a ha
        simp only [ne_eq, decide_not, Bool.not_eq_true', decide_eq_false_iff_not]
        intro hh
        exact hn (hh ▸ List.mem_reverse.mp ha)
    rw [this, hd]
    simp

/-- If every file can be read and attaching goes well, copying succeeds, each file is where it should be (the last of those that go to the same
place), and the pod's other files are as they were. -/
theorem C139_files_partial (disk : Str → Option Content) (files : List Pair) (fs : Str → Option Content)
    (h : ∀ p ∈ files, (disk p.src).isSome = true) :
    (copyTar disk files (.all false) fs).1 = .returns false ∧
      (∀ before p after, files = before ++ p :: after → (∀ q ∈ after, entryName q ≠ entryName p) →
        (copyTar disk files (.all false) fs).2 (entryName p) = disk p.src) ∧
      ∀ n, (∀ p ∈ files, entryName p ≠ n) → (copyTar disk files (.all false) fs).2 n = fs n := by
  refine ⟨rfl, fun before p after hf hl => ?_, fun n hn => ?_⟩
  · show unpack fs (makeTar disk files).1 (entryName p) = _
    rw [makeTar_ok h, unpack_spec]
    obtain ⟨c, hc⟩ := Option.isSome_iff_exists.mp (h p (by simp [hf]))
    have : (List.filterMap (fun p => (disk p.src).map fun c => (entryName p, c)) files).reverse.find? (fun e => decide (e.1 = entryName p)) =
        some (entryName p, c) := by
      rw [hf, List.filterMap_append, List.filterMap_cons, hc]
      simp only [Option.map_some, List.reverse_append, List.reverse_cons, List.append_assoc, List.find?_append]
      rw [List.find?_eq_none.mpr]
      · simp
      · intro e he
        simp only [List.mem_reverse, List.mem_filterMap, Option.map_eq_some_iff] at he
        obtain ⟨q, hq, c', _, rfl⟩ := he
        simpa using hl q hq
    rw [this, hc]
  · show unpack fs (makeTar disk files).1 n = _
    rw [makeTar_ok h, unpack_spec, List.find?_eq_none.mpr]
    intro e he
    simp only [List.mem_reverse, List.mem_filterMap, Option.map_eq_some_iff] at he
    obtain ⟨q, hq, c', _, rfl⟩ := he
    simpa using hn q hq

/-! ## Where it fails -/

/-- **Violated**: as `wr k8s deploy` starts it, the controller dies at once: the options have no logger. Nothing is ever looked at, recorded or
forwarded, whatever the cluster does. -/
theorem C139_violated_logger (file : Res) (es : List Ev) :
    (run (start cmdLogger cmdPorts file) es).dead = true ∧ (run (start cmdLogger cmdPorts file) es).log = [] ∧
      (run (start cmdLogger cmdPorts file) es).file = file ∧ (run (start cmdLogger cmdPorts file) es).active = none := by
  rw [run_dead (show (start cmdLogger cmdPorts file).dead = true from rfl)]
  exact ⟨rfl, rfl, rfl, rfl⟩

/-- A pod whose init container runs; one whose manager runs -/
def initRuns : Obs := { init := some .running, main := some .waiting, phase := false }
def mgrRuns : Obs := { init := some .terminated, main := some .running, phase := true }

/-- A pod comes up as it should. -/
def goodRun : List Ev :=
  [.see 0 { init := some .waiting, main := some .waiting, phase := false }, .deliver, .see 0 initRuns, .take, .look .ok, .deliver, .take, .look .ok,
   .see 0 mgrRuns, .deliver, .attachEnds (.all false), .take, .look .ok, .listen 0 mgrRuns true]

def good : St := run (start true cmdPorts (.pod none)) goodRun

instance (s : St) : Decidable (Quiet s) :=
  if h : s.notes = [] ∧ s.queue = [] ∧ s.later = [] ∧ s.work = .idle then .isTrue ⟨h.1, h.2.1, h.2.2.1, h.2.2.2⟩
  else .isFalse fun q => h ⟨q.notes, q.queue, q.later, q.work⟩

/-- The hypotheses of `C139_acted`, `C139_recorded_partial` and `C139_forwarded_partial` are met, and so are the conclusions. -/
example : good.dead = false ∧ Quiet good ∧ good.starting = [] ∧ truth goodRun 0 = some mgrRuns ∧
    (looks good.log 0).head? = some (.saw 0 (some mgrRuns)) ∧ Act.copied 0 false ∈ good.log ∧ good.file = .pod (some 0) ∧
    good.active = some 0 := by decide +kernel

example : (∀ op, Ev.look op ∈ goodRun → op = .ok) ∧ (∀ p o d, Ev.listen p o d ∈ goodRun → d = true) ∧ Ev.lost ∉ goodRun ∧
    (∀ p o, Ev.see p o ∈ goodRun → o.main = some .running → o.phase = true) ∧
    (∀ q o, Ev.see q o ∈ goodRun → o.main = some .running → q = 0) := by
  refine ⟨?_, ?_, by decide, ?_, ?_⟩
  · simp [goodRun]
  · simp [goodRun]
  · intro p o h
    simp only [goodRun, List.mem_cons, Ev.see.injEq, reduceCtorEq, List.not_mem_nil, or_false, false_or] at h
    rcases h with ⟨_, rfl⟩ | ⟨_, rfl⟩ | ⟨_, rfl⟩ <;> decide
  · intro p o h
    simp only [goodRun, List.mem_cons, Ev.see.injEq, reduceCtorEq, List.not_mem_nil, or_false, false_or] at h
    rcases h with ⟨h, _⟩ | ⟨h, _⟩ | ⟨h, _⟩ <;> exact fun _ => h

/-- `C139_copied_partial`: a pod that waits for the files gets them. -/
example : let s := run (start true cmdPorts (.pod none)) [.see 0 initRuns, .deliver, .take, .look .ok, .attachEnds (.all false)]
    s.dead = false ∧ Quiet s ∧ (about s.log 0).head? = some (.copied 0 false) := by decide +kernel

/-- `C139_retry`: a pod is given up. -/
example : let s := run (start true cmdPorts (.pod none)) ([.see 0 initRuns, .deliver] ++
      (List.replicate 6 [Ev.take, .lookFails, .retry]).flatten)
    s.dead = false ∧ Quiet s ∧ s.log = .gaveUp 0 :: List.replicate 6 (.failed 0) := by decide +kernel

/-- **Violated**: if attaching to the init container ends before all has been read, as it does when it fails, the worker waits for ever, and
nothing is done any more about this or any other pod. -/
theorem C139_violated_hang :
    (run (start true cmdPorts (.pod none)) [.see 0 initRuns, .deliver, .take, .look .ok, .attachEnds (.early 0 true)]).work = .hung 0 ∧
      ∀ (s : St) (p : Pod) (es : List Ev), s.work = .hung p → (run s es).work = .hung p ∧ (run s es).log = s.log := by
  refine ⟨by decide +kernel, fun s p es h => ?_⟩
  refine run_inv (Q := fun _ => True) (P := fun t => t.work = .hung p ∧ t.log = s.log) ?_ es s (fun _ _ => trivial) ⟨h, rfl⟩
  rintro t e hd - ⟨h1, h2⟩
  cases e with
  | see q o => exact ⟨h1, h2⟩
  | gone q => exact ⟨h1, h2⟩
  | deliver =>
    simp only [step1]
    split
    · exact ⟨h1, h2⟩
    · exact ⟨by simp [h1], by simp [h2]⟩
  | retry =>
    simp only [step1]
    split
    · exact ⟨h1, h2⟩
    · exact ⟨by simp [h1], by simp [h2]⟩
  | take => simp only [step1, h1]; exact ⟨trivial, h2⟩
  | look op => simp only [step1, h1]; exact ⟨trivial, h2⟩
  | lookFails => simp only [step1, h1]; exact ⟨trivial, h2⟩
  | attachEnds a => simp only [step1, h1]; exact ⟨trivial, h2⟩
  | listen q o d =>
    simp only [step1]
    split
    · rcases listen_cases t q o d with ⟨he, _⟩ | ⟨he, _⟩ | ⟨he, _⟩ <;> rw [he] <;> exact ⟨h1, h2⟩
    · exact ⟨h1, h2⟩
  | lost => exact ⟨h1, h2⟩

/-- **Violated**: a copy that failed is not tried again: there is nothing to do, the pod still waits for its files, and until the cluster has
something new to say nothing more is done. -/
theorem C139_violated_again :
    (let s := run (start true cmdPorts (.pod none)) [.see 0 initRuns, .deliver, .take, .look .ok, .attachEnds (.all true)]
     s.dead = false ∧ Quiet s ∧ s.store 0 = some initRuns ∧ (about s.log 0).head? = some (.copied 0 true)) ∧
      ∀ (s : St) (es : List Ev), Quiet s → (∀ e ∈ es, (∀ p o, e ≠ .see p o) ∧ ∀ p, e ≠ .gone p) → (run s es).log = s.log := by
  refine ⟨by decide +kernel, fun s es hq hes => ?_⟩
  refine (run_inv (Q := fun e => (∀ p o, e ≠ .see p o) ∧ ∀ p, e ≠ .gone p) (P := fun t => Quiet t ∧ t.log = s.log) ?_ es s hes ⟨hq, rfl⟩).2
  rintro t e hd he ⟨h1, h2⟩
  cases e with
  | see q o => exact absurd rfl (he.1 q o)
  | gone q => exact absurd rfl (he.2 q)
  | deliver => simp only [step1, h1.notes]; exact ⟨h1, h2⟩
  | retry => simp only [step1, h1.later]; exact ⟨h1, h2⟩
  | take => simp only [step1, h1.work, h1.queue]; exact ⟨h1, h2⟩
  | look op => simp only [step1, h1.work]; exact ⟨h1, h2⟩
  | lookFails => simp only [step1, h1.work]; exact ⟨h1, h2⟩
  | attachEnds a => simp only [step1, h1.work]; exact ⟨h1, h2⟩
  | listen q o d =>
    simp only [step1]
    split
    · rcases listen_cases t q o d with ⟨he, _⟩ | ⟨he, _⟩ | ⟨he, _⟩ <;> rw [he] <;>
        exact ⟨⟨h1.notes, h1.queue, h1.later, h1.work⟩, h2⟩
    · exact ⟨h1, h2⟩
  | lost => exact ⟨⟨h1.notes, h1.queue, h1.later, h1.work⟩, h2⟩

/-- **Violated**: if a file cannot be read, it and those after it are not copied, and the copy is said to have gone well. -/
theorem C139_violated_unread (disk : Str → Option Content) (before : List Pair) (p : Pair) (after : List Pair) (fs : Str → Option Content)
    (h : disk p.src = none) :
    (copyTar disk (before ++ p :: after) (.all false) fs).1 = .returns false ∧
      ∀ n, (∀ q ∈ before, entryName q ≠ n) → (copyTar disk (before ++ p :: after) (.all false) fs).2 n = fs n := by
  refine ⟨rfl, fun n hn => ?_⟩
  show unpack fs (makeTar disk (before ++ p :: after)).1 n = _
  rw [unpack_spec, List.find?_eq_none.mpr]
  intro e he
  rw [List.mem_reverse] at he
  have : ∀ l : List Pair, (∀ q ∈ l, entryName q ≠ n) → ∀ e ∈ (makeTar disk (l ++ p :: after)).1, e.1 ≠ n := by
    intro l
    induction l with
    | nil =>
      intro _ e he
      simp [makeTar, h] at he
    | cons q l ih =>
      intro hl e he
      rw [List.cons_append, makeTar] at he
      cases hd : disk q.src with
      | none => simp [hd] at he
      | some c =>
        simp only [hd, List.mem_cons] at he
        rcases he with he | he
        · rw [he]
          exact hl q (by simp)
        · exact ih (fun x hx => hl x (by simp [hx])) e he
  simpa using this before hn e he

example : (copyTar (fun n => if n = ['/', 'a'] then some ⟨420, [1]⟩ else none) [⟨['/', 'b'], ['/', 'x']⟩, ⟨['/', 'a'], ['/', 'y', '/']⟩]
    (.all false) (fun _ => none)).2 ['/', 'y', '/', 'a'] = none ∧
    (copyTar (fun n => if n = ['/', 'a'] then some ⟨420, [1]⟩ else none) [⟨['/', 'a'], ['/', 'y', '/']⟩] (.all false) (fun _ => none)).2
      ['/', 'y', '/', 'a'] = some ⟨420, [1]⟩ := by decide +kernel

/-- **Violated**: a pod that has the status of its init container and none of its containers kills the process. -/
theorem C139_violated_status :
    (run (start true cmdPorts (.pod none)) [.see 0 { init := some .terminated, main := none, phase := false }, .deliver, .take, .look .ok]).dead =
      true := by decide +kernel

/-- **Violated**: when the connection has been lost, as when the manager's pod is replaced, the next forwarding kills the process. -/
theorem C139_violated_replaced :
    (run good [.lost, .gone 0, .see 1 mgrRuns, .deliver, .deliver, .take, .look .ok, .take, .look .ok]).dead = false ∧
    (run good [.lost, .gone 0, .see 1 mgrRuns, .deliver, .deliver, .take, .look .ok, .take, .look .ok, .listen 1 mgrRuns true]).dead = true := by
  decide +kernel

/-- **Violated**: and if it is lost only after the new pod was seen, the ports are forwarded to nothing, with nothing left to do. -/
theorem C139_violated_unreached :
    let es := [Ev.gone 0, .see 1 mgrRuns, .deliver, .deliver, .take, .look .ok, .take, .look .ok, .listen 1 mgrRuns true, .lost]
    let s := run good es
    s.dead = false ∧ Quiet s ∧ s.starting = [] ∧ s.store 1 = some mgrRuns ∧ s.active = none := by decide +kernel

/-- **Violated**: in general: once the ports have been forwarded and the connection has been lost, they are never forwarded again. -/
theorem C139_violated_once (s : St) (es : List Ev) (hr : s.ready = true) (ha : s.active = none) :
    (run s es).active = none := by
  refine (run_inv (Q := fun _ => True) (P := fun s => s.ready = true ∧ s.active = none) ?_ es s (fun _ _ => trivial) ⟨hr, ha⟩).2
  rintro s e hd - ⟨h1, h2⟩
  cases shape s e hd with
  | same e t hl hf hs ha hr hp => rw [hr, ha]; exact ⟨h1, h2⟩
  | other e t a hl hn hf hs ha hr hp => rw [hr, ha]; exact ⟨h1, h2⟩
  | look e t q hl hn hf hs ha hr hp => rw [hr, ha]; exact ⟨h1, h2⟩
  | forward op t q o' ho' ht' hl hf hs ha hr hp => rw [hr, ha]; exact ⟨h1, h2⟩
  | refused q o' d t hm hw hl hf hs ha hr hp hdd => rw [hr, ha]; exact ⟨h1, h2⟩
  | listens q o' d t hm hph hdd hn hl hf hs ha hr hp hp2 hr0 => rw [h1] at hr0; cases hr0
  | lost t hl hf hs ha hr hp => rw [hr, ha]; exact ⟨h1, rfl⟩

example : (run good [.lost]).ready = true ∧ (run good [.lost]).active = none ∧ (run good [.lost]).dead = false := by decide +kernel

/-- **Violated**: a pod that is being replaced and is reported again is recorded over its successor, and stays so when it is gone. -/
theorem C139_violated_named :
    let es := [Ev.see 1 mgrRuns, .deliver, .take, .look .ok, .listen 1 mgrRuns true, .see 0 mgrRuns, .deliver, .take, .look .ok, .listen 0 mgrRuns true,
      .gone 0, .deliver, .take, .look .ok]
    let s := run good es
    s.dead = false ∧ Quiet s ∧ s.store 0 = none ∧ s.store 1 = some mgrRuns ∧ s.file = .pod (some 0) := by decide +kernel

/-- **Violated**: if the writing of the file ends early it can never be read again, and no ports are forwarded after that. -/
theorem C139_violated_torn :
    (run (start true cmdPorts (.pod none)) [.see 0 mgrRuns, .deliver, .take, .look .torn]).file = .junk ∧
      ∀ (s : St) (es : List Ev), s.file = .junk → (run s es).file = .junk ∧ ∀ x ∈ (run s es).starting, x ∈ s.starting := by
  refine ⟨by decide +kernel, fun s es h => ?_⟩
  refine run_inv (Q := fun _ => True) (P := fun t => t.file = .junk ∧ ∀ x ∈ t.starting, x ∈ s.starting) ?_ es s (fun _ _ => trivial)
    ⟨h, fun _ hx => hx⟩
  rintro t e hd - ⟨h1, h2⟩
  cases shape t e hd with
  | same e u hl hf hs ha hr hp => rw [hf, hs]; exact ⟨h1, h2⟩
  | other e u a hl hn hf hs ha hr hp => rw [hf, hs]; exact ⟨h1, h2⟩
  | look e u q hl hn hf hs ha hr hp => rw [hf, hs]; exact ⟨h1, h2⟩
  | forward op u q o' ho' ht' hl hf hs ha hr hp =>
    have : record q op .junk = (.junk, false) := by cases op <;> rfl
    rw [hf, hs, h1, this]
    exact ⟨rfl, h2⟩
  | refused q o' d u hm hw hl hf hs ha hr hp hdd => rw [hf, hs]; exact ⟨h1, fun x hx => h2 x (List.mem_of_mem_erase hx)⟩
  | listens q o' d u hm hph hdd hn hl hf hs ha hr hp hp2 hr0 => rw [hf, hs]; exact ⟨h1, fun x hx => h2 x (List.mem_of_mem_erase hx)⟩
  | lost u hl hf hs ha hr hp => rw [hf, hs]; exact ⟨h1, h2⟩

/-- With any other number of ports nothing is forwarded, or the process dies. -/
theorem C139_ports (n : Nat) (hn : n ≠ 2) (logger : Bool) (file : Res) (es : List Ev) : (run (start logger n file) es).active = none := by
  refine (run_inv (Q := fun _ => True) (P := fun s => s.ports = n ∧ s.active = none) ?_ es (start logger n file) (fun _ _ => trivial) ⟨rfl, rfl⟩).2
  rintro s e hd - ⟨h1, h2⟩
  cases shape s e hd with
  | same e t hl hf hs ha hr hp => rw [hp, ha]; exact ⟨h1, h2⟩
  | other e t a hl hn hf hs ha hr hp => rw [hp, ha]; exact ⟨h1, h2⟩
  | look e t q hl hn hf hs ha hr hp => rw [hp, ha]; exact ⟨h1, h2⟩
  | forward op t q o' ho' ht' hl hf hs ha hr hp => rw [hp, ha]; exact ⟨h1, h2⟩
  | refused q o' d t hm hw hl hf hs ha hr hp hdd => rw [hp, ha]; exact ⟨h1, h2⟩
  | listens q o' d t hm hph hdd hn' hl hf hs ha hr hp hp2 hr0 => exact absurd (h1.symm.trans hp2) hn
  | lost t hl hf hs ha hr hp => rw [hp, ha]; exact ⟨h1, rfl⟩

end Verif.Cmd.K8sControl
