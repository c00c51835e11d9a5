import Verif.Rp.Props
/-! # More properties of the resource protector: C21, C56, C57, C58 -/
namespace Verif.Rp

/-! ## C21 -/

/-- The scheduler is prompt: a `process` that was started runs before anything else happens. -/
def Prompt (s : State) : List Label → Prop
  | [] => True
  | l :: ls => (0 < s.procs → ∃ a, l = .process a) ∧ ∀ s', step s l = some s' → Prompt s' ls

/-- What prompt histories keep. -/
structure Spaced (s : State) : Prop where
  one : s.procs ≤ 1
  bound : ∀ r < s.next, (s.req r).tokens ≤ s.max
  past : ∀ t, s.last = some t → t ≤ s.now
  proc : 0 < s.procs → ∀ t, s.last = some t → t + s.delay ≤ s.now
  wake : ∀ w, s.wake = some w → s.procs = 0 ∧ ∃ t, s.last = some t ∧ t + s.delay ≤ w
  first : s.last = none → s.used = 0 ∧ s.repros = 0 ∧ (s.pending = [] ∨ s.procs = 1)

theorem spaced_one {s : State} (p : Spaced s) (hp : s.procs = 0) (s' : State) (e0 : ∀ r < s.next, (s'.req r).tokens = (s.req r).tokens) (e1 : s'.next = s.next) (e2 : s'.max = s.max)
    (e3 : s'.last = s.last) (e4 : s'.now = s.now) (e5 : s'.delay = s.delay) (e6 : s'.wake = s.wake) (e7 : s'.procs = s.procs)
    (e8 : s.last = none → s'.used = 0) (e9 : s.pending = [] → s'.pending = []) (e10 : s.last = none → s'.repros = s.repros) : Spaced s' := by
  constructor
  · rw [e7]; exact p.one
  · intro r hr; rw [e1] at hr; rw [e0 r hr, e2]; exact p.bound r hr
  · rw [e3, e4]; exact p.past
  · rw [e7, e3, e4, e5]; exact p.proc
  · rw [e6, e7, e3, e5]; exact p.wake
  · intro h; rw [e3] at h
    have := p.first h
    refine ⟨e8 h, by rw [e10 h]; exact this.2.1, ?_⟩
    rcases this.2.2 with h' | h'
    · exact Or.inl (e9 h')
    · omega

/-- Before the first `process` that did something, nothing has been granted. -/
def Quiet (s : State) : Prop := s.last = none → ∀ r, (s.req r).active = false

theorem not_new {s s' : State} (v' : Inv s') (h : newGrants s s' = []) (r : Nat) (hr : (s.req r).active = false) : (s'.req r).active = false := by
  cases ha : (s'.req r).active with
  | false => rfl
  | true =>
    have hl : r < s'.next := v'.lt_of (by intro e; rw [e] at ha; simp at ha)
    have : (r, s.now) ∈ newGrants s s' := by
      unfold newGrants; simp [hl, ha, hr]
    rw [h] at this; simp at this

theorem last_other {s s' : State} {l : Label} (h : step s l = some s') (hl : ∀ a, l ≠ .process a) : s'.last = s.last := by
  cases l with
  | process a => exact absurd rfl (hl a)
  | request n =>
    simp only [step, request] at h; split at h <;> simp at h; subst h
    split
    · rfl
    split
    · rfl
    split <;> rfl
  | wait r t =>
    simp only [step, wait] at h; split at h <;> simp at h; subst h
    split
    · cases t <;> simp only [Bool.false_eq_true, if_false, if_true]
      all_goals
        split
        · rfl
        split <;> rfl
    · rfl
  | timer r =>
    simp only [step, timer] at h; split at h <;> simp at h; subst h
    split
    · rfl
    split <;> rfl
  | waitTrue r => simp only [step] at h; split at h <;> simp at h; subst h; rfl
  | waitFalse r => simp only [step] at h; split at h <;> simp at h; subst h; rfl
  | touch r => simp only [step] at h; split at h <;> simp at h; subst h; split <;> rfl
  | release r => simp only [step] at h; split at h <;> simp at h; subst h; split <;> rfl
  | shutdown => simp only [step] at h; split at h <;> simp at h; subst h; rfl
  | reprocess =>
    simp only [step, reprocess] at h; split at h <;> simp at h; subst h
    split
    · rfl
    split
    · rfl
    split <;> rfl
  | awake =>
    simp only [step] at h; split at h
    · split at h <;> simp at h; subst h; rfl
    · simp at h
  | goLimit r =>
    simp only [step] at h; split at h
    · split at h <;> simp at h; subst h; rfl
    · simp at h
  | goFinish r => simp only [step] at h; split at h <;> simp at h; subst h; rfl
  | goRelease r =>
    simp only [step] at h; split at h
    · split at h <;> simp at h; subst h; rfl
    · simp at h
  | goTouch r =>
    simp only [step] at h; split at h
    · split at h <;> simp at h; subst h; rfl
    · simp at h
  | goReturn r => simp only [step] at h; split at h <;> simp at h; subst h; rfl
  | tick d => simp only [step] at h; simp at h; subst h; rfl

theorem step_quiet {s s' : State} {l : Label} (v : Inv s) (ht : TimersOk s) (q : Quiet s) (h : step s l = some s') : Quiet s' := by
  have v' := (step_inv v ht h).1
  intro hn r
  by_cases hpr : ∃ a, l = .process a
  · obtain ⟨a, rfl⟩ := hpr
    simp only [step] at h; split at h <;> simp at h
    have v1 := (inv_same v { s with procs := s.procs - 1 } rfl rfl rfl (fun _ h => h) (Nat.le_refl _) rfl rfl).1
    rcases process_cases { s with procs := s.procs - 1 } a v1 with hc | ⟨_, _, _, _, _, hc⟩
    · rw [h] at hc
      rcases hc.2.2 with hc' | hc'
      · rw [hn] at hc'
        exact not_new v' hc.1 r (q hc'.symm r)
      · rw [hn] at hc'; simp at hc'
    · rw [h, hn] at hc; simp at hc
  · have hl : ∀ a, l ≠ .process a := fun a e => hpr ⟨a, e⟩
    rw [last_other h hl] at hn
    exact not_new v' (grants_process v h hl) r (q hn r)

theorem step_spaced {s s' : State} {l : Label} (v : Inv s) (ht : TimersOk s) (hm : 0 < s.max) (p : Spaced s) (qt : Quiet s)
    (hl : 0 < s.procs → ∃ a, l = .process a) (h : step s l = some s') : Spaced s' := by
  have le := (step_inv v ht h).2
  by_cases hpr : ∃ a, l = .process a
  · obtain ⟨a, rfl⟩ := hpr
    simp only [step] at h; split at h <;> simp at h
    rename_i hc; simp at hc
    have hone : s.procs = 1 := by have := p.one; omega
    subst h
    unfold process
    simp only
    split
    · rename_i he
      refine ⟨by simp only; omega, p.bound, p.past, by simp only; omega, ?_, ?_⟩
      · intro w hw; exact absurd (p.wake w hw).1 hc.2
      · intro hn; have := p.first hn; exact ⟨this.1, this.2.1, Or.inl he⟩
    rename_i r rest hp
    have hr : r ∈ s.pending := by rw [hp]; simp
    have hb := p.bound r (v.lt r hr)
    have nowake : s.wake = none := by
      cases hw : s.wake with
      | none => rfl
      | some w => exact absurd (p.wake w hw).1 hc.2
    split
    · rename_i hu
      refine ⟨by simp only; omega, p.bound, p.past, by simp only; omega, ?_, ?_⟩
      · intro w hw; simp [nowake] at hw
      · intro hn; have h1 := (p.first hn).1; rw [h1] at hu; omega
    split
    · refine ⟨by simp only; omega, p.bound, ?_, by simp only; omega, ?_, by simp⟩
      · intro t h; simp at h; simp only; omega
      · intro w hw; simp [nowake] at hw
    split
    · rename_i hf
      refine ⟨by simp only; omega, p.bound, p.past, by simp only; omega, ?_, ?_⟩
      · intro w hw; simp [nowake] at hw
      · intro hn; have := p.first hn; omega
    · refine ⟨by simp only; omega, ?_, ?_, by simp only; omega, ?_, by simp⟩
      · intro x hx
        have hgt : (grant (s.req r)).tokens = (s.req r).tokens := by unfold grant; split <;> rfl
        show (upd s.req r _ x).tokens ≤ s.max
        rw [tokens_upd (by exact hgt)]; exact p.bound x hx
      · intro t h; simp at h; simp only; omega
      · intro w hw; simp [nowake] at hw
  · have hp0 : s.procs = 0 := by
      by_cases h0 : 0 < s.procs
      · exact absurd (hl h0) hpr
      · omega
    have gen := spaced_one p hp0 s'
    have tk := le.tokens
    cases l with
    | process a => exact absurd ⟨a, rfl⟩ hpr
    | request n =>
      have hf := v.fresh s.next (Nat.le_refl _)
      simp only [step, request] at h; split at h <;> simp at h; subst h
      split
      · exact p
      rename_i hn
      split
      · exact p
      have hb : ∀ r < s.next + 1, (upd s.req s.next { tokens := n } r).tokens ≤ s.max := by
        intro r hr
        by_cases e : r = s.next
        · subst e; rw [upd_same]; simp only; omega
        · rw [upd_ne _ _ e]; exact p.bound r (by omega)
      split
      · rename_i hlast
        refine ⟨by simp only; omega, hb, p.past, ?_, ?_, ?_⟩
        · intro _ t h; rw [hlast.1] at h; simp at h
        · intro w hw; obtain ⟨_, t, h, _⟩ := p.wake w hw; rw [hlast.1] at h; simp at h
        · intro hn; have := p.first hn; exact ⟨this.1, this.2.1, Or.inr (by simp only; omega)⟩
      · rename_i hlast
        refine ⟨p.one, hb, p.past, p.proc, p.wake, ?_⟩
        intro hn
        exfalso
        have := p.first hn
        rcases this.2.2 with h' | h'
        · exact hlast ⟨hn, by simp [h']⟩
        · omega
    | wait r t =>
      simp only [step, wait] at h; split at h <;> simp at h; subst h
      split
      · cases t <;> simp only [Bool.false_eq_true, if_false, if_true]
        all_goals
          split
          · exact spaced_one p hp0 _ (fun _ _ => rfl) rfl rfl rfl rfl rfl rfl rfl (fun h => (p.first h).1) id (fun _ => rfl)
          split
          · exact spaced_one p hp0 _ (fun _ _ => rfl) rfl rfl rfl rfl rfl rfl rfl (fun h => (p.first h).1) id (fun _ => rfl)
          · exact spaced_one p hp0 _ (fun x _ => tokens_upd (f := s.req) (r := r) (q := { s.req r with waiting := true, waiter := true }) rfl x) rfl rfl rfl rfl rfl rfl rfl (fun h => (p.first h).1) id (fun _ => rfl)
      · exact p
    | timer r =>
      simp only [step, timer] at h; split at h <;> simp at h; subst h
      split
      · exact spaced_one p hp0 _ (fun _ _ => rfl) rfl rfl rfl rfl rfl rfl rfl (fun h => (p.first h).1) id (fun _ => rfl)
      split
      · exact spaced_one p hp0 _ (fun _ _ => rfl) rfl rfl rfl rfl rfl rfl rfl (fun h => (p.first h).1) (fun h => by simp [h]) (fun _ => rfl)
      · exact spaced_one p hp0 _ (fun x _ => tokens_upd (f := s.req) (r := r) (q := { s.req r with cancelCh := true }) rfl x) rfl rfl rfl rfl rfl rfl rfl (fun h => (p.first h).1) (fun h => by simp [h]) (fun _ => rfl)
    | waitTrue r =>
      simp only [step] at h; split at h <;> simp at h; subst h
      exact gen tk rfl rfl rfl rfl rfl rfl rfl (fun h => (p.first h).1) id (fun _ => rfl)
    | waitFalse r =>
      simp only [step] at h; split at h <;> simp at h; subst h
      exact gen tk rfl rfl rfl rfl rfl rfl rfl (fun h => (p.first h).1) id (fun _ => rfl)
    | touch r =>
      simp only [step] at h; split at h <;> simp at h; subst h
      split
      · exact spaced_one p hp0 _ (fun x _ => tokens_upd (touch_tokens _) x) rfl rfl rfl rfl rfl rfl rfl (fun h => (p.first h).1) id (fun _ => rfl)
      · exact p
    | release r =>
      simp only [step] at h; split at h <;> simp at h; subst h
      split
      · exact spaced_one p hp0 _ (fun x _ => tokens_upd (release_tokens _) x) rfl rfl rfl rfl rfl rfl rfl (fun h => (p.first h).1) id (fun _ => rfl)
      · exact p
    | shutdown =>
      simp only [step] at h; split at h <;> simp at h; subst h
      exact gen tk rfl rfl rfl rfl rfl rfl rfl (fun _ => rfl) id (fun _ => rfl)
    | reprocess =>
      simp only [step, reprocess] at h; split at h <;> simp at h
      rename_i hc; simp at hc
      have hlast : s.last ≠ none := fun hn => hc.2 (p.first hn).2.1
      subst h
      split
      · exact ⟨p.one, p.bound, p.past, p.proc, p.wake, fun hn => absurd hn hlast⟩
      · rename_i hnw
        split
        · rename_i hn; exact absurd hn hlast
        · rename_i hw t hlt
          have hpast := p.past t hlt
          split
          · refine ⟨p.one, p.bound, p.past, p.proc, ?_, fun hn => absurd hn hlast⟩
            intro w hw'; simp at hw'
            refine ⟨hp0, t, hlt, ?_⟩
            simp only; omega
          · rename_i hlt'
            refine ⟨by simp only; omega, p.bound, p.past, ?_, ?_, fun hn => absurd hn hlast⟩
            · intro _ t' ht'; simp only at ht'; rw [hlt] at ht'; simp at ht'; subst ht'; simp only at hlt' ⊢; omega
            · intro w hw'; have hnw : s.wake = none := hnw; have hw' : s.wake = some w := hw'; rw [hnw] at hw'; simp at hw'
    | awake =>
      simp only [step] at h; split at h
      · rename_i w hw
        split at h <;> simp at h; subst h
        rename_i hc; simp at hc
        obtain ⟨_, t, hlt, hd⟩ := p.wake w hw
        refine ⟨by simp only; omega, p.bound, p.past, ?_, ?_, fun hn => by simp [hlt] at hn⟩
        · intro _ t' ht'; simp only at ht'; rw [hlt] at ht'; simp at ht'; subst ht'; simp only; omega
        · intro w hw'; simp at hw'
      · simp at h
    | goLimit r =>
      simp only [step] at h; split at h
      · split at h <;> simp at h; subst h
        exact gen tk rfl rfl rfl rfl rfl rfl rfl (fun h => (p.first h).1) id (fun _ => rfl)
      · simp at h
    | goFinish r =>
      simp only [step] at h; split at h <;> simp at h; subst h
      exact gen tk rfl rfl rfl rfl rfl rfl rfl (fun h => (p.first h).1) id (fun _ => rfl)
    | goRelease r =>
      simp only [step] at h; split at h
      · split at h <;> simp at h; subst h
        exact gen tk rfl rfl rfl rfl rfl rfl rfl (fun h => (p.first h).1) id (fun _ => rfl)
      · simp at h
    | goTouch r =>
      simp only [step] at h; split at h
      · split at h <;> simp at h; subst h
        exact gen tk rfl rfl rfl rfl rfl rfl rfl (fun h => (p.first h).1) id (fun _ => rfl)
      · simp at h
    | goReturn r =>
      simp only [step] at h; split at h <;> simp at h; subst h
      rename_i hc; simp at hc
      have hlast : s.last ≠ none := by
        intro hn
        have := (v.idle r).1 (qt hn r)
        rw [hc.2] at this; simp at this
      exact gen tk rfl rfl rfl rfl rfl rfl rfl (fun h => absurd h hlast) id (fun h => absurd h hlast)
    | tick d =>
      simp only [step] at h; simp at h; subst h
      refine ⟨p.one, p.bound, ?_, by simp only; omega, p.wake, p.first⟩
      intro t ht; have := p.past t ht; simp only; omega

theorem grants_spaced {s : State} {ls : List Label} (v : Inv s) (ht : TimersOk s) (hm : 0 < s.max) (p : Spaced s) (qt : Quiet s) (hp : Prompt s ls) :
    ((grants s ls).map (·.2)).Pairwise (fun a b => a + s.delay ≤ b) ∧ ∀ g ∈ grants s ls, ∀ t, s.last = some t → t + s.delay ≤ g.2 := by
  induction ls generalizing s with
  | nil => simp [grants]
  | cons l ls ih =>
    unfold grants
    cases hs : step s l with
    | none => simp
    | some s' =>
      simp only
      have vs := step_inv v ht hs
      have ts := step_timers v ht hs
      obtain ⟨p1, p2⟩ := ih vs.1 ts (by rw [vs.2.max]; exact hm) (step_spaced v ht hm p qt hp.1 hs) (step_quiet v ht qt hs) (hp.2 s' hs)
      rw [vs.2.delay] at p1 p2
      by_cases hpr : ∃ a, l = .process a
      · obtain ⟨a, rfl⟩ := hpr
        simp only [step] at hs; split at hs <;> simp at hs
        rename_i hc; simp at hc
        have v1 := (inv_same v { s with procs := s.procs - 1 } rfl rfl rfl (fun _ h => h) (Nat.le_refl _) rfl rfl).1
        rcases process_cases { s with procs := s.procs - 1 } a v1 with ⟨h1, _, h3⟩ | ⟨r, rest, h1, h2, h3, h4⟩
        · rw [hs] at h1 h3
          have h1 : newGrants s s' = [] := h1
          rw [h1, List.nil_append]
          refine ⟨p1, ?_⟩
          intro g hg t hlt
          rcases h3 with h3 | h3
          · exact p2 g hg t (by rw [h3]; exact hlt)
          · have := p2 g hg _ h3
            have := p.past t hlt
            simp only at *; omega
        · rw [hs] at h2 h4
          have h2 : newGrants s s' = [(r, s.now)] := h2
          rw [h2]
          constructor
          · simp only [List.singleton_append, List.map_cons, List.pairwise_cons]
            refine ⟨?_, p1⟩
            intro x hx
            obtain ⟨g, hg, rfl⟩ := List.mem_map.1 hx
            exact p2 g hg _ h4
          · intro g hg t hlt
            simp only [List.singleton_append, List.mem_cons] at hg
            have := p.proc (by omega) t hlt
            rcases hg with rfl | hg
            · exact this
            · have := p2 g hg _ h4
              simp only at *; omega
      · have hl : ∀ a, l ≠ .process a := fun a e => hpr ⟨a, e⟩
        rw [grants_process v hs hl, List.nil_append]
        refine ⟨p1, ?_⟩
        intro g hg t hlt
        exact p2 g hg t (by rw [last_other hs hl]; exact hlt)

/-- C21, for prompt histories: any two grants are at least the delay apart. In general it is false (below). -/
theorem C21_partial (max : Int) (delay timeout : Nat) (hm : 0 < max) (ls : List Label) (hp : Prompt (new max delay timeout) ls) :
    ((grants (new max delay timeout) ls).map (·.2)).Pairwise (fun a b => a + delay ≤ b) :=
  (grants_spaced (inv_new max delay timeout) (by intro r hr; simp [new] at hr) hm
    (by constructor <;> simp [new]) (by intro _ r; rfl) hp).1

/-- A decidable form of `Prompt`. -/
def promptB (s : State) : List Label → Bool
  | [] => true
  | l :: ls => (s.procs == 0 || (match l with | .process _ => true | _ => false)) && (match step s l with | some s' => promptB s' ls | none => true)

theorem prompt_of_B {s : State} {ls : List Label} (h : promptB s ls = true) : Prompt s ls := by
  induction ls generalizing s with
  | nil => trivial
  | cons l ls ih =>
    simp only [promptB, Bool.and_eq_true, Bool.or_eq_true, beq_iff_eq] at h
    refine ⟨?_, ?_⟩
    · intro hp
      rcases h.1 with h1 | h1
      · omega
      · cases l <;> simp at h1
        exact ⟨_, rfl⟩
    · intro s' hs; have := h.2; rw [hs] at this; exact ih this

def demoPrompt : List Label :=
  [.request 2, .process none, .request 1, .wait 1 true, .touch 0, .goTouch 0, .reprocess, .tick 7, .awake, .process none,
   .request 2, .reprocess, .release 0, .goRelease 0, .goReturn 0, .tick 5, .awake, .process none, .waitTrue 1]
example : Prompt (new 3 5 10) demoPrompt := prompt_of_B (by decide +kernel)
example : grants (new 3 5 10) demoPrompt = [(0, 0), (1, 7), (2, 12)] := by decide +kernel

/-- C21 is false in general: a `reprocess` that has woken up gives up the lock before it calls `process`; a second one started
in between passes too, and the two `process` calls grant two requests at the same time. -/
theorem C21_violated : ∃ ls, grants (new 5 10 100) ls = [(0, 0), (1, 10), (2, 10)] :=
  ⟨[.request 1, .process none, .request 1, .reprocess, .tick 10, .awake, .request 1, .reprocess, .process none, .process none],
    by decide +kernel⟩

/-- And at the very start: the first request is processed without a delay, but maybe late, while the second waits only from the
moment of its own request. -/
theorem C21_violated_start : ∃ ls, grants (new 5 10 100) ls = [(0, 9), (1, 10)] :=
  ⟨[.request 1, .request 1, .reprocess, .tick 9, .process none, .tick 1, .awake, .process none], by decide +kernel⟩

/-! ## C56: a request that waits is never forgotten -/

/-- C56: while a request is pending there is always a goroutine on its way to look at the pending requests, or tokens that
will be returned (and whose return starts such a goroutine). -/
theorem C56_partial (max : Int) (delay timeout : Nat) (hm : 0 < max) (ls : List Label) (s : State)
    (tame : ∀ l ∈ ls, Tame l) (h : run (new max delay timeout) ls = some s) (hp : s.pending ≠ []) :
    0 < s.procs ∨ 0 < s.repros ∨ s.wake.isSome = true ∨ ∃ r < s.next, taken (s.req r) = true :=
  run_alert (inv_new max delay timeout) (by intro r hr; simp [new] at hr) (tok_new (by omega)) hm (by intro h; exact absurd rfl h) tame h hp

/-- It is false with a maximum of zero, which is accepted: a request for no tokens is never granted. -/
theorem C56_violated_zero : ∃ s, run (new 0 0 10) [.request 0, .process none] = some s ∧ s.pending = [0] ∧ s.procs = 0 ∧ s.repros = 0 ∧ s.wake = none ∧
    ∀ r, taken (s.req r) = false := by
  refine ⟨_, rfl, rfl, rfl, rfl, rfl, ?_⟩
  intro r
  show taken (upd (fun _ => ({ tokens := 0 } : Req)) 0 { tokens := 0 } r) = false
  unfold upd; split <;> rfl

/-! ## C57: no sequence of calls blocks the protector for ever -/

/-- C57 is false: wait twice with a timeout for the same granted receipt, release it, and let both timeouts pass: the second
timeout goroutine blocks on the full cancel channel while it holds the protector's lock; from then on no call to
`Request`, `WaitUntilGranted`, `Touch`, `Release` or `Shutdown` gets through, whatever happens. -/
theorem C57_violated : ∃ ls s, run (new 1 0 10) ls = some s ∧
    ∀ ls' s', run s ls' = some s' → ∀ r n t, step s' (.request n) = none ∧ step s' (.wait r t) = none ∧ step s' (.touch r) = none ∧
      step s' (.release r) = none ∧ step s' .shutdown = none := by
  have h : ((run (new 1 0 10) [.request 1, .process none, .wait 0 true, .wait 0 true, .release 0, .timer 0, .timer 0]).map (·.stuck)) = some true := by
    decide +kernel
  obtain ⟨s, h1, h2⟩ := Option.map_eq_some_iff.1 h
  refine ⟨_, s, h1, ?_⟩
  have mono : ∀ {s s' : State} {l}, s.stuck = true → step s l = some s' → s'.stuck = true := by
    intro s s' l hs h
    cases l <;> simp only [step, hs, Bool.true_or, if_true, reduceCtorEq] at h
    · split at h <;> simp at h; subst h; first | exact hs | rfl
    · split at h <;> simp at h; subst h; first | exact hs | rfl
    · split at h <;> simp at h
    · split at h
      · split at h <;> simp at h; subst h; first | exact hs | rfl
      · simp at h
    · split at h <;> simp at h; subst h; first | exact hs | rfl
    · split at h
      · split at h <;> simp at h; subst h; first | exact hs | rfl
      · simp at h
    · split at h
      · split at h <;> simp at h; subst h; first | exact hs | rfl
      · simp at h
    · simp at h; subst h; first | exact hs | rfl
  have all : ∀ ls' {s s' : State}, s.stuck = true → run s ls' = some s' → s'.stuck = true := by
    intro ls'
    induction ls' with
    | nil => intro s s' hs h; simp [run] at h; subst h; exact hs
    | cons l ls ih =>
      intro s s' hs h
      simp only [run] at h
      obtain ⟨s1, h1, h2⟩ := Option.bind_eq_some_iff.1 h
      exact ih (mono hs h1) h2
  intro ls' s' hr r n t
  have := all ls' h2 hr
  simp [step, this]

/-! ## C58: granted tokens come back -/

/-- C58, first part: the release timeout takes tokens back only when the receipt has not been touched for the whole timeout:
the managing goroutine reaches the timeout case only `timeout` after the grant or the last touch it has seen. -/
theorem C58_not_early_partial (s s' : State) (r : Nat) (h : step s (.goLimit r) = some s') :
    ∃ since, (s.req r).phase = .select since ∧ since + s.timeout ≤ s.now := by
  simp only [step] at h; split at h
  · rename_i since hp; split at h
    · rename_i hc; exact ⟨since, hp, hc⟩
    · simp at h
  · simp at h

/-- C58 is false: two `Touch` calls between the timeout case being chosen and `finish()` block for ever with the request's lock
held, and then the tokens are never returned, whatever happens. -/
theorem C58_violated : ∃ ls s, run (new 1 0 10) ls = some s ∧ ∀ ls' s', run s ls' = some s' → (s'.req 0).phase = .limit := by
  have h : ((run (new 1 0 10) [.request 1, .process none, .tick 10, .goLimit 0, .touch 0, .touch 0]).map fun s =>
      ((s.req 0).phase, (s.req 0).touchBlocked, (s.req 0).active, s.pending, s.next)) = some (.limit, true, true, [], 1) := by
    decide +kernel
  obtain ⟨s, h1, h2⟩ := Option.map_eq_some_iff.1 h
  simp only [Prod.mk.injEq] at h2
  refine ⟨_, s, h1, ?_⟩
  obtain ⟨v, ht, _⟩ := run_inv (inv_new 1 0 10) (by intro r hr; simp [new] at hr) h1
  have mono : ∀ {s s' : State} {l}, Inv s → 0 < s.next → (s.req 0).phase = .limit ∧ (s.req 0).touchBlocked = true → step s l = some s' →
      (s'.req 0).phase = .limit ∧ (s'.req 0).touchBlocked = true := by
    intro s s' l v hn hs h
    have other : ∀ (r : Nat) (q : Req), r ≠ 0 → (upd s.req r q 0).phase = .limit ∧ (upd s.req r q 0).touchBlocked = true := by
      intro r q hr; rw [upd_ne _ _ (Ne.symm hr)]; exact hs
    have keep : ∀ (r : Nat) (q : Req), q.phase = (s.req r).phase → q.touchBlocked = (s.req r).touchBlocked →
        (upd s.req r q 0).phase = .limit ∧ (upd s.req r q 0).touchBlocked = true := by
      intro r q h1 h2
      by_cases e : r = 0
      · subst e; rw [upd_same, h1, h2]; exact hs
      · exact other r q e
    cases l with
    | request n =>
      simp only [step, request] at h; split at h <;> simp at h; subst h
      split
      · exact hs
      split
      · exact hs
      split <;> exact other _ _ (by omega)
    | wait r t =>
      simp only [step, wait] at h; split at h <;> simp at h; subst h
      split
      · cases t <;> simp only [Bool.false_eq_true, if_false, if_true]
        all_goals
          split
          · exact hs
          split
          · exact hs
          · exact keep r _ rfl rfl
      · exact hs
    | timer r =>
      simp only [step, timer] at h; split at h <;> simp at h; subst h
      split
      · exact hs
      split
      · exact hs
      · exact keep r _ rfl rfl
    | waitTrue r => simp only [step] at h; split at h <;> simp at h; subst h; exact keep r _ rfl rfl
    | waitFalse r => simp only [step] at h; split at h <;> simp at h; subst h; exact keep r _ rfl rfl
    | touch r =>
      simp only [step] at h; split at h <;> simp at h; subst h
      rename_i hc; simp at hc
      split
      · rename_i hm
        exact other r _ (by rintro rfl; have := hc.2 hm; rw [hs.2] at this; simp at this)
      · exact hs
    | release r =>
      simp only [step] at h; split at h <;> simp at h; subst h
      rename_i hc; simp at hc
      split
      · rename_i hm
        exact other r _ (by rintro rfl; have := hc.2 hm; rw [hs.2] at this; simp at this)
      · exact hs
    | shutdown =>
      simp only [step] at h; split at h <;> simp at h; subst h
      simp only [shutdown]; split
      · rw [release_phase]; refine ⟨hs.1, ?_⟩; unfold release; split <;> exact hs.2
      · exact hs
    | process a =>
      simp only [step, process] at h; split at h <;> simp at h; subst h
      split
      · exact hs
      rename_i r rest hp
      split
      · exact hs
      split
      · exact hs
      split
      · exact hs
      · refine other r _ ?_
        rintro rfl
        have := (v.idle 0).1 (v.pend 0 (by rw [hp]; simp))
        rw [hs.1] at this; simp at this
    | reprocess =>
      simp only [step, reprocess] at h; split at h <;> simp at h; subst h
      split
      · exact hs
      split
      · exact hs
      split <;> exact hs
    | awake =>
      simp only [step] at h; split at h
      · split at h <;> simp at h; subst h; exact hs
      · simp at h
    | goLimit r =>
      simp only [step] at h; split at h
      · rename_i hp; split at h <;> simp at h; subst h
        exact other r _ (by rintro rfl; rw [hs.1] at hp; simp at hp)
      · simp at h
    | goFinish r =>
      simp only [step] at h; split at h <;> simp at h; subst h
      rename_i hc; simp at hc
      exact other r _ (by rintro rfl; rw [hs.2] at hc; simp at hc)
    | goRelease r =>
      simp only [step] at h; split at h
      · rename_i hp; split at h <;> simp at h; subst h
        exact other r _ (by rintro rfl; rw [hs.1] at hp; simp at hp)
      · simp at h
    | goTouch r =>
      simp only [step] at h; split at h
      · rename_i hp; split at h <;> simp at h; subst h
        exact other r _ (by rintro rfl; rw [hs.1] at hp; simp at hp)
      · simp at h
    | goReturn r =>
      simp only [step] at h; split at h <;> simp at h; subst h
      rename_i hc; simp at hc
      exact other r _ (by rintro rfl; rw [hs.1] at hc; simp at hc)
    | tick d => simp only [step] at h; simp at h; subst h; exact hs
  have all : ∀ ls' {s s' : State}, Inv s → TimersOk s → 0 < s.next → (s.req 0).phase = .limit ∧ (s.req 0).touchBlocked = true → run s ls' = some s' →
      (s'.req 0).phase = .limit := by
    intro ls'
    induction ls' with
    | nil => intro s s' _ _ _ hs h; simp [run] at h; subst h; exact hs.1
    | cons l ls ih =>
      intro s s' v ht hn hs h
      simp only [run] at h
      obtain ⟨s1, h1, h2⟩ := Option.bind_eq_some_iff.1 h
      have vs := step_inv v ht h1
      exact ih vs.1 (step_timers v ht h1) (Nat.lt_of_lt_of_le hn vs.2.next) (mono v hn hs h1) h2
  intro ls' s' hr
  exact all ls' v ht (by omega) ⟨h2.1, h2.2.1⟩ hr

end Verif.Rp
