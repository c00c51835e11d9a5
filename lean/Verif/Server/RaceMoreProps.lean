/-
C124, more: what is archived is out of the queue; runs that did not start cost
nothing.
-/
import Verif.Server.RaceProps

namespace Verif.Server.Race

theorem gone_stepThr {s s' : S} {i : Nat} {ch : Option Nat} {t : Thr} (hs : stepThr s i ch t = some s') (k : Nat)
    (hk : (s.jobs k).sub = .gone) : (s'.jobs k).sub = .gone := by
  cases t <;> simp only [stepThr] at hs
  all_goals ((repeat' split at hs) <;> first
    | (exfalso; cases hs; done)
    | (obtain rfl := Option.some.inj hs
       simp only [go, tell, put, inc, decr]
       grind))

theorem gone_step {s s' : S} {ev : Ev} (hs : step s ev = some s') (k : Nat) (hk : (s.jobs k).sub = .gone) :
    (s'.jobs k).sub = .gone := by
  cases ev <;> simp only [step] at hs
  case step i ch =>
    split at hs
    · exact gone_stepThr hs k hk
    · cases hs
  all_goals ((repeat' split at hs) <;> first
    | (exfalso; cases hs; done)
    | (obtain rfl := Option.some.inj hs
       simp only [request, put]
       grind))

def ArchGone (s : S) : Prop := ∀ c k, Told.archived c k ∈ s.told → (s.jobs k).sub = .gone

theorem archGone_step {s s' : S} {ev : Ev} (h : ArchGone s) (hs : step s ev = some s') : ArchGone s' := by
  intro c k hx
  by_cases ho : Told.archived c k ∈ s.told
  · exact gone_step hs k (h c k ho)
  · cases ev <;> simp only [step] at hs
    case step i ch =>
      split at hs
      · rename_i t hi
        cases t <;> simp only [stepThr] at hs
        all_goals ((repeat' split at hs) <;> first
          | (exfalso; cases hs; done)
          | (obtain rfl := Option.some.inj hs
             simp only [go, tell, put, inc, decr] at hx ⊢
             grind))
      · cases hs
    all_goals ((repeat' split at hs) <;> first
      | (exfalso; cases hs; done)
      | (obtain rfl := Option.some.inj hs
         simp only [request, put] at hx ⊢
         grind))

/-- C124.  In every interleaving, even with repeated requests: when a client has
been told that its job is archived, the job has left the queue, for good. -/
theorem C124_archived_gone (lim : Nat → Option Nat) (es : List Ev) (s : S) (hr : run (init lim) es = some s)
    (c k : Nat) (ht : Told.archived c k ∈ s.told) : (s.jobs k).sub = .gone := by
  have : ∀ (es : List Ev) (a : S), ArchGone a → run a es = some s → ArchGone s := by
    intro es
    induction es with
    | nil => intro a ha hr; cases hr; exact ha
    | cons e es ih =>
      intro a ha hr
      simp only [run, Option.bind_eq_some_iff] at hr
      obtain ⟨s1, h1, h2⟩ := hr
      exact ih s1 (archGone_step ha h1) h2
  exact this es _ (by intro c k h; simp [init] at h) hr c k ht

example : ∃ s, run (init two) ([.add 7 3 [1]] ++ take 0 10 ++ [.start 10 7, .step 1 none, .finish 0 okEnd .archive,
    .step 2 none, .step 2 none, .step 2 none, .step 2 none, .step 2 none]) = some s ∧
    Told.archived 10 7 ∈ s.told := ⟨_, rfl, by decide⟩

/-! ## runs that did not start -/

/-- the goroutine buries nothing -/
def mild : Thr → Prop
  | .fin _ _ _ fb => fb = false
  | .act _ _ _ fb bury _ => fb = false ∧ bury = false
  | .chk _ _ fb | .dec _ _ fb | .set _ _ fb | .last _ fb => fb = false
  | .st _ _ => False
  | _ => True

structure Mild (s : S) : Prop where
  thr : ∀ t ∈ s.thr, mild t
  started : ∀ k, (s.jobs k).started = false
  sub : ∀ k, (s.jobs k).sub ≠ .bury
  st : ∀ k, (s.jobs k).st ≠ .buried
  ub : ∀ k, (s.jobs k).ub = (s.jobs k).retries + 1

/-- nothing is started, and nobody asks for a burial -/
def NoStart : Ev → Prop
  | .start _ _ => False
  | .finish _ _ kind => kind ≠ .bury
  | .again _ _ _ kind => kind ≠ .bury
  | _ => True

instance (e : Ev) : Decidable (NoStart e) := by cases e <;> unfold NoStart <;> infer_instance

theorem mild_go {s s' : S} {i : Nat} {t' : Thr} (h : Mild s) (ht : s'.thr = s.thr.set i t') (hm : mild t')
    (hj : ∀ k, (s'.jobs k).started = false ∧ (s'.jobs k).sub ≠ .bury ∧ (s'.jobs k).st ≠ .buried ∧
      (s'.jobs k).ub = (s'.jobs k).retries + 1) : Mild s' := by
  refine ⟨?_, fun k => (hj k).1, fun k => (hj k).2.1, fun k => (hj k).2.2.1, fun k => (hj k).2.2.2⟩
  intro t hx
  rw [ht] at hx
  rcases mem_set hx with hx | rfl
  · exact h.thr t hx
  · exact hm

theorem mild_request {s : S} (h : Mild s) (c k : Nat) (e : End) {kind : Kind} (hk : kind ≠ .bury) (hs : List (Nat × Nat)) :
    Mild (request { s with has := hs } c k e kind) := by
  have h1 : (request { s with has := hs } c k e kind).jobs = s.jobs := by
    unfold request
    simp only
    split
    · rfl
    · split
      · rfl
      · split
        · rfl
        · cases kind <;> rfl
  have h2 : (request { s with has := hs } c k e kind).thr = s.thr ∨
      ∃ t, mild t ∧ (request { s with has := hs } c k e kind).thr = s.thr ++ [t] := by
    unfold request
    simp only
    split
    · exact .inl rfl
    · split
      · exact .inl rfl
      · split
        · exact .inl rfl
        · cases kind
          · exact .inr ⟨.fin c k e false, rfl, rfl⟩
          · exact absurd rfl hk
          · exact .inr ⟨.achk c k e, trivial, rfl⟩
  refine ⟨?_, by rw [h1]; exact h.started, by rw [h1]; exact h.sub, by rw [h1]; exact h.st, by rw [h1]; exact h.ub⟩
  intro t ht
  rcases h2 with e2 | ⟨t2, hm, e2⟩
  · rw [e2] at ht; exact h.thr t ht
  · rw [e2] at ht
    rcases List.mem_append.1 ht with ht | ht
    · exact h.thr t ht
    · simp at ht; rw [ht]; exact hm

theorem mild_step {s s' : S} {ev : Ev} (h : Mild s) (hn : NoStart ev) (hs : step s ev = some s') : Mild s' := by
  obtain ⟨h1, h2, h3, h4, h5⟩ := h
  have h : Mild s := ⟨h1, h2, h3, h4, h5⟩
  cases ev <;> simp only [step] at hs
  case step i ch =>
    split at hs
    · rename_i t hi
      have hm := h1 t (List.mem_of_getElem? hi)
      cases t <;> simp only [stepThr] at hs
      all_goals ((repeat' split at hs) <;> first
        | (exfalso; cases hs; done)
        | (exfalso; simp only [mild] at hm; done)
        | (exfalso; simp only [mild] at hm; grind)
        | (obtain rfl := Option.some.inj hs
           first
             | refine mild_go h rfl ?_ ?_
             | refine mild_go (t' := .done) h rfl ?_ ?_
           · simp only [mild] at hm ⊢
             try grind [mild]
           · intro x
             (try simp only [mild] at hm)
             simp only [go, tell, put, inc, decr]
             have := h2 x; have := h3 x; have := h4 x; have := h5 x
             try grind))
    · cases hs
  case start => exact hn.elim
  case reserve c gs =>
    split at hs
    · cases hs
      exact ⟨by intro t ht; rcases List.mem_append.1 ht with ht | ht; exact h1 t ht; simp at ht; subst ht; trivial, h2, h3, h4, h5⟩
    · cases hs
  case finish i e kind =>
    split at hs
    · cases hs
      exact mild_request h _ _ _ hn _
    · cases hs
  case again c k e kind =>
    cases hs
    exact mild_request h _ _ _ hn s.has
  all_goals
    (split at hs
     · cases hs
       refine ⟨?_, ?_, ?_, ?_, ?_⟩ <;> simp only [put] <;> grind [mild]
     · cases hs)

/-- C124.  In every interleaving, even with repeated requests: a job that clients
take and give back without having started it loses none of its retries, and is
not buried. -/
theorem C124_not_started_kept (lim : Nat → Option Nat) (es : List Ev) (hn : ∀ e ∈ es, NoStart e) (s : S)
    (hr : run (init lim) es = some s) (k : Nat) :
    (s.jobs k).ub = (s.jobs k).retries + 1 ∧ (s.jobs k).sub ≠ .bury ∧ (s.jobs k).st ≠ .buried := by
  have : ∀ (es : List Ev) (a : S), (∀ e ∈ es, NoStart e) → Mild a → run a es = some s → Mild s := by
    intro es
    induction es with
    | nil => intro a _ ha hr; cases hr; exact ha
    | cons e es ih =>
      intro a hn ha hr
      simp only [run, Option.bind_eq_some_iff] at hr
      obtain ⟨s1, h1, h2⟩ := hr
      exact ih s1 (fun x hx => hn x (by simp [hx])) (mild_step ha (hn e (by simp)) h1) h2
  have hm := this es _ hn (by constructor <;> simp [init, noJob]) hr
  exact ⟨hm.ub k, hm.sub k, hm.st k⟩

/-- given back by a client that did not start it, with no retries -/
example : ∃ s, run (init two) ([.add 7 0 [1]] ++ take 0 10 ++ [.finish 0 badEnd .release,
    .step 1 none, .step 1 none, .step 1 none, .step 1 none, .step 1 none, .step 1 none]) = some s ∧
    (s.jobs 7).sub = .delay ∧ (s.jobs 7).ub = 1 := ⟨_, rfl, by decide⟩

end Verif.Server.Race
