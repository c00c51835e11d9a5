import Verif.Client.DirsLemmas
/-!
# C147: jobs that share a working directory do not disturb each other while their directories are made and removed
-/
namespace Verif.Client.Dirs

/-- the client is over: its job ended and its directory is removed, or it got none -/
def Over (c : Client) : Prop := c.at_ = .done ∨ c.at_ = .failed

/-- **C147**: when all clients are over, nothing they made is left below `Cwd`, whatever the order of their system calls was. -/
theorem C147_clean {es : List Ev} {s : St} (h : run {} es = some s) (hall : ∀ c ∈ s.clients, Over c) : s.dirs = [] ∧ s.holds = [] := by
  have hi := inv_run inv_init h
  have hd : s.dirs = [] := by
    apply List.eq_nil_iff_forall_not_mem.2
    intro q hq
    obtain ⟨t, c, h1, x, h2, _⟩ := hi.owner q hq
    rcases hall c (List.mem_of_getElem? h1) with hc | hc <;> (unfold base at h2; rw [hc] at h2; cases h2)
  refine ⟨hd, List.eq_nil_iff_forall_not_mem.2 fun q hq => ?_⟩
  have := hi.holdsIn q hq
  rw [hd] at this; cases this

/-- **C147**: while a job runs, its own directory and all those above it are there, and no other job has the same one. -/
theorem C147_safe {es : List Ev} {s : St} (h : run {} es = some s) {t : Nat} {c : Client} {l : Path} (ht : s.clients[t]? = some c)
    (hr : c.at_ = .running l) :
    l.tail = c.dir ∧ (∀ p, p <:+ l → p ≠ [] → p ∈ s.dirs) ∧
      ∀ (u : Nat) (e : Client), s.clients[u]? = some e → e.at_ = .running l → u = t := by
  have hi := inv_run inv_init h
  have hl : leafOf c = some l := by unfold leafOf; rw [hr]
  obtain ⟨h1, h2, hlen⟩ := (hi.fine t c ht).2.1 l hl
  refine ⟨h2, ?_, fun u e hu he => hi.distinct u t e c l hu ht (by unfold leafOf; rw [he]) hl⟩
  clear hl hr h2 hlen
  induction l with
  | nil => intro p hp hne; exact absurd (List.suffix_nil.1 hp) hne
  | cons a l ih =>
    intro p hp hne
    rcases List.suffix_cons_iff.1 hp with rfl | hp
    · exact h1
    · rcases hi.closed _ h1 with h3 | h3
      · simp only [List.tail_cons] at h3
        subst h3
        exact absurd (List.suffix_nil.1 hp) hne
      · exact ih h3 p hp hne

/-! ## The hold file -/

/-- the client is between making the hold file and removing it -/
def Window (c : Client) : Prop := c.at_ = .temp ∨ ∃ l, c.at_ = .unhold l

/-- no two clients of the same directory are between making the hold file and removing it -/
def Apart (s : St) : Prop :=
  ∀ (t u : Nat) (c e : Client), s.clients[t]? = some c → s.clients[u]? = some e → c.dir = e.dir → Window c → Window e → t = u

def Held (s : St) : Prop := ∀ (t : Nat) (c : Client), s.clients[t]? = some c → c.at_ = .temp → c.dir ∈ s.holds

theorem held_step {s s' : St} {e : Ev} (hn : Apart s) (h : Held s) (hs : step s e = some s') : Held s' := by
  cases e with
  | arrive d =>
    simp only [step] at hs
    split at hs
    · cases hs
      intro t c ht hc
      rcases (get_append _ _ _ _).1 ht with ht | ⟨_, rfl⟩
      · exact h t c ht hc
      · cases hc
    · cases hs
  | go t n =>
    simp only [step] at hs
    split at hs
    · cases hs
    · rename_i c ht
      split at hs
      · cases hs
      · rename_i ds hs' a hc
        cases hs
        intro u e hu he
        rcases (get_set ht).1 hu with ⟨_, rfl⟩ | ⟨hut, hu'⟩
        · simp only at he
          subst he
          obtain ⟨d, st⟩ := c
          cases st with
          | hold =>
            simp only [call] at hc
            split at hc
            · cases hc; exact mem_ins.2 (.inr rfl)
            · cases hc
          | down k todo =>
            cases todo with
            | nil => cases hc
            | cons q r =>
              simp only [call, mkFailed] at hc
              split at hc
              · cases hc
              · split at hc <;> cases hc
          | up k q b =>
            simp only [call] at hc
            split at hc <;> cases hc
          | temp =>
            simp only [call] at hc
            split at hc
            · split at hc <;> cases hc
            · cases hc
          | unhold l => cases l <;> cases hc
          | running l => cases hc
          | rm q =>
            simp only [call] at hc
            split at hc
            · cases hc
            · split at hc <;> cases hc
          | done => cases hc
          | failed => cases hc
        · have hh := h u e hu' he
          show e.dir ∈ hs'
          obtain ⟨d, st⟩ := c
          cases st with
          | hold =>
            simp only [call] at hc
            split at hc
            · cases hc; exact mem_ins.2 (.inl hh)
            · cases hc; exact hh
          | down k todo =>
            cases todo with
            | nil => cases hc; exact hh
            | cons q r =>
              simp only [call] at hc
              split at hc <;> (cases hc; exact hh)
          | up k q b => cases hc; exact hh
          | temp =>
            simp only [call] at hc
            split at hc
            · split at hc
              · cases hc
              · cases hc; exact hh
            · cases hc; exact hh
          | unhold l =>
            cases hc
            simp only [List.mem_filter, decide_eq_true_eq]
            exact ⟨hh, fun hd => hut (hn u t e _ hu' ht hd (.inl he) (.inr ⟨l, rfl⟩))⟩
          | running l => cases hc; exact hh
          | rm q =>
            simp only [call] at hc
            split at hc
            · cases hc; exact hh
            · split at hc <;> (cases hc; exact hh)
          | done => cases hc
          | failed => cases hc

/-- `P` holds in all states on the way -/
def Always (P : St → Prop) (s : St) (es : List Ev) : Prop := ∀ es1 s1, es1 <+: es → run s es1 = some s1 → P s1

theorem always_cons {P : St → Prop} {s s1 : St} {e : Ev} {es : List Ev} (h : Always P s (e :: es)) (he : step s e = some s1) :
    P s ∧ Always P s1 es := by
  refine ⟨h [] s (List.nil_prefix) rfl, fun es1 s2 hp hr => h (e :: es1) s2 ?_ ?_⟩
  · obtain ⟨r, rfl⟩ := hp; exact ⟨r, rfl⟩
  · simp only [run, he]; exact hr

theorem held_run {es : List Ev} : ∀ {s s' : St}, Held s → run s es = some s' → Always Apart s es → Held s' := by
  induction es with
  | nil => intro s s' h hs _; cases hs; exact h
  | cons e es ih =>
    intro s s' h hs ha
    simp only [run] at hs
    cases he : step s e with
    | none => rw [he] at hs; cases hs
    | some s1 =>
      rw [he] at hs
      obtain ⟨h1, h2⟩ := always_cons ha he
      exact ih (held_step h1 h he) hs h2

/-- **C147**, in part: a client that made its hold file gets a directory of its own, whatever the others remove meanwhile, if it is never
between making and removing the hold file at the same time as another client of the same directory. Missing: clients that are, see
`C147_violated_hold`. -/
theorem C147_hold_partial {es : List Ev} {s : St} (h : run {} es = some s) (ha : Always Apart {} es) {t n : Nat} {c : Client}
    (ht : s.clients[t]? = some c) (hc : c.at_ = .temp) (hnew : n :: c.dir ∉ s.dirs) :
    ∃ s', step s (.go t n) = some s' ∧ n :: c.dir ∈ s'.dirs ∧ s'.clients[t]? = some ⟨c.dir, .unhold (some (n :: c.dir))⟩ := by
  have hi := inv_run inv_init h
  have hh := held_run (s := {}) (by intro t c h; simp at h) h ha t c ht hc
  have hd := hi.holdsIn _ hh
  have hth : there s.dirs c.dir = true := there_iff.2 (.inr hd)
  have hlt := (List.getElem?_eq_some_iff.1 ht).1
  obtain ⟨d, st⟩ := c
  cases hc
  refine ⟨_, by simp only [step, ht, call, hth, if_true]; rw [if_neg (by simpa using hnew)], by simp, by simp [hlt]⟩

/-! ## How often it is tried -/

/-- a directory that was there is not there any more -/
def lost (s s' : St) : Bool := s.dirs.any fun q => !s'.dirs.contains q

/-- in how many steps a directory was removed -/
def removals (s : St) : List Ev → Nat
  | [] => 0
  | e :: es => match step s e with
    | none => 0
    | some s' => (if lost s s' then 1 else 0) + removals s' es

theorem not_lost {s s' : St} (h : ¬ lost s s' = true) {q : Path} (hq : q ∈ s.dirs) : q ∈ s'.dirs := by
  apply Classical.byContradiction
  intro hn
  apply h
  simp only [lost, List.any_eq_true]
  exact ⟨q, hq, by simpa using hn⟩

/-- a client that has tried `k` times saw `k` directories removed -/
def Tried (R : Nat) (dirs : List Path) (c : Client) : Prop :=
  match c.at_ with
  | .up k q below => k ≤ R ∧ Chain q below c.dir
  | .down k todo => k ≤ R ∧ ∃ x, Chain x todo c.dir ∧ (x = [] ∨ x ∈ dirs ∨ k + 1 ≤ R)
  | .hold => c.dir = [] ∨ c.dir ∈ dirs ∨ 1 ≤ R
  | .unhold none => 4 ≤ R
  | .failed => 4 ≤ R
  | _ => True

theorem tried_mono {s s' : St} {R : Nat} {c : Client} (h : Tried R s.dirs c) : Tried (R + if lost s s' then 1 else 0) s'.dirs c := by
  have key : ∀ {x : Path} {k : Nat}, k ≤ R → (x = [] ∨ x ∈ s.dirs ∨ k + 1 ≤ R) →
      (x = [] ∨ x ∈ s'.dirs ∨ k + 1 ≤ R + if lost s s' then 1 else 0) := by
    intro x k hk hx
    rcases hx with hx | hx | hx
    · exact .inl hx
    · by_cases hl : lost s s' = true
      · rw [if_pos hl]; exact .inr (.inr (by omega))
      · exact .inr (.inl (not_lost hl hx))
    · exact .inr (.inr (by omega))
  obtain ⟨d, st⟩ := c
  cases st with
  | up k q b => exact ⟨Nat.le_trans h.1 (Nat.le_add_right _ _), h.2⟩
  | down k todo =>
    obtain ⟨h1, x, h2, h3⟩ := h
    exact ⟨Nat.le_trans h1 (Nat.le_add_right _ _), x, h2, key h1 h3⟩
  | hold => exact key (k := 0) (Nat.zero_le _) h
  | unhold l =>
    cases l with
    | none => exact Nat.le_trans h (Nat.le_add_right _ _)
    | some l => trivial
  | failed => exact Nat.le_trans h (Nat.le_add_right _ _)
  | temp => trivial
  | running l => trivial
  | rm q => trivial
  | done => trivial

/-- what the client's own step does -/
theorem tried_call {R R' : Nat} {ds hs ds' hs' : List Path} {d : Path} {n : Nat} {st a : At} (hR : R ≤ R') (hd : st = .temp → d ∈ ds)
    (h : Tried R ds ⟨d, st⟩) (hc : call ds hs d n st = some (ds', hs', a)) : Tried R' ds' ⟨d, a⟩ := by
  cases st with
  | up k q below =>
    obtain ⟨h1, h2⟩ := h
    cases hc
    by_cases hth : there ds q = true
    · simp only [if_pos hth]
      exact ⟨Nat.le_trans h1 hR, q, h2, (there_iff.1 hth).imp id .inl⟩
    · simp only [if_neg hth]
      exact ⟨Nat.le_trans h1 hR, rfl, (there_false.1 hth).1, h2⟩
  | down k todo =>
    obtain ⟨h1, x, h2, h3⟩ := h
    cases todo with
    | nil =>
      cases hc
      cases h2
      exact h3.imp id (Or.imp id (fun h => by omega))
    | cons q r =>
      obtain ⟨h4, h5, h6⟩ := h2
      simp only [call] at hc
      split at hc
      · cases hc
        exact ⟨Nat.le_trans h1 hR, q, h6, .inr (.inl (mem_ins.2 (.inr rfl)))⟩
      · rename_i hth
        cases hc
        obtain ⟨g1, g2⟩ := there_false.1 hth
        have hk : k + 1 ≤ R := by
          rcases h3 with h3 | h3 | h3
          · exact absurd (h4.trans h3) g1
          · exact absurd (h4 ▸ h3) g2
          · exact h3
        unfold mkFailed
        by_cases hk3 : k + 1 ≤ 3
        · simp only [if_pos hk3]; exact ⟨Nat.le_trans hk hR, rfl⟩
        · simp only [if_neg hk3]; show 4 ≤ R'; omega
  | hold =>
    simp only [call] at hc
    split at hc
    · cases hc; trivial
    · rename_i hth
      cases hc
      obtain ⟨g1, g2⟩ := there_false.1 hth
      rcases h with h | h | h
      · exact absurd h g1
      · exact absurd h g2
      · exact ⟨Nat.le_trans h hR, rfl⟩
  | temp =>
    simp only [call] at hc
    rw [if_pos (there_iff.2 (.inr (hd rfl)))] at hc
    split at hc
    · cases hc
    · cases hc; trivial
  | unhold l =>
    cases l with
    | none => cases hc; exact Nat.le_trans h hR
    | some l => cases hc; trivial
  | running l => cases hc; trivial
  | rm q =>
    simp only [call] at hc
    split at hc
    · cases hc; trivial
    · split at hc <;> (cases hc; trivial)
  | done => cases hc
  | failed => cases hc

theorem tried_step {s s' : St} {e : Ev} {R : Nat} (hi : Inv s) (hh : Held s) (h : ∀ c ∈ s.clients, Tried R s.dirs c)
    (hs : step s e = some s') : ∀ c ∈ s'.clients, Tried (R + if lost s s' then 1 else 0) s'.dirs c := by
  have others : ∀ c ∈ s.clients, Tried (R + if lost s s' then 1 else 0) s'.dirs c := fun c hc => tried_mono (h c hc)
  cases e with
  | arrive d =>
    simp only [step] at hs
    split at hs
    · cases hs
      intro c hc
      rcases List.mem_append.1 hc with hc | hc
      · exact others c hc
      · rw [List.mem_singleton.1 hc]; exact ⟨Nat.zero_le _, rfl⟩
    · cases hs
  | go t n =>
    simp only [step] at hs
    split at hs
    · cases hs
    · rename_i c ht
      split at hs
      · cases hs
      · rename_i ds hs' a hc
        cases hs
        intro e hmem
        obtain ⟨u, hu⟩ := List.mem_iff_getElem?.1 hmem
        rcases (get_set ht).1 hu with ⟨_, rfl⟩ | ⟨_, hu'⟩
        · exact tried_call (Nat.le_add_right _ _) (fun hst => hi.holdsIn _ (hh t c ht hst)) (h c (List.mem_of_getElem? ht)) hc
        · exact others e (List.mem_of_getElem? hu')

theorem tried_run {es : List Ev} : ∀ {s s' : St} {R : Nat}, Inv s → Held s → (∀ c ∈ s.clients, Tried R s.dirs c) → run s es = some s' →
    Always Apart s es → ∀ c ∈ s'.clients, Tried (R + removals s es) s'.dirs c := by
  induction es with
  | nil => intro s s' R _ _ h hs _; cases hs; exact h
  | cons e es ih =>
    intro s s' R hi hh h hs ha
    simp only [run] at hs
    cases he : step s e with
    | none => rw [he] at hs; cases hs
    | some s1 =>
      rw [he] at hs
      obtain ⟨h1, h2⟩ := always_cons ha he
      have := ih (inv_step hi he) (held_step h1 hh he) (tried_step hi hh h he) hs h2
      simp only [removals, he, ← Nat.add_assoc]
      exact this

/-- **C147**, in part: a client gets no directory only if directories were removed at least four times before, if no two clients of the same
directory are between making and removing the hold file at the same time. Missing: it gets one however often, see `C147_violated_mkdir`. -/
theorem C147_tries_partial {es : List Ev} {s : St} (h : run {} es = some s) (ha : Always Apart {} es) {c : Client} (hc : c ∈ s.clients)
    (hf : c.at_ = .failed) : 4 ≤ removals {} es := by
  have := tried_run (s := {}) (R := 0) inv_init (by intro t c h; simp at h) (fun c hc => by cases hc) h ha c hc
  unfold Tried at this
  rw [hf] at this
  simpa using this

/-! ## A client that is left alone -/

theorem run_append (s : St) (a b : List Ev) : run s (a ++ b) = (run s a).bind fun s' => run s' b := by
  induction a generalizing s with
  | nil => rfl
  | cons e a ih =>
    simp only [List.cons_append, run]
    cases step s e with
    | none => rfl
    | some s1 => exact ih s1

/-- client `t` alone gets from `s` to `s'` -/
def Gets (t n : Nat) (s s' : St) : Prop := ∃ k, run s (gos t n k) = some s'

theorem Gets.trans {t n : Nat} {s s1 s2 : St} (h1 : Gets t n s s1) (h2 : Gets t n s1 s2) : Gets t n s s2 := by
  obtain ⟨a, h1⟩ := h1
  obtain ⟨b, h2⟩ := h2
  refine ⟨a + b, ?_⟩
  rw [show gos t n (a + b) = gos t n a ++ gos t n b from (List.replicate_append_replicate).symm, run_append, h1]
  exact h2

theorem gets_one {t n : Nat} {s : St} {c : Client} (ht : s.clients[t]? = some c) {ds hs : List Path} {a : At}
    (hc : call s.dirs s.holds c.dir n c.at_ = some (ds, hs, a)) :
    Gets t n s { dirs := ds, holds := hs, clients := s.clients.set t { c with at_ := a } } := by
  refine ⟨1, ?_⟩
  simp only [gos, List.replicate, run, step, ht, hc]
  rfl

theorem set_get {t : Nat} {l : List Client} {c x : Client} (ht : l[t]? = some c) : (l.set t x)[t]? = some x := (get_set ht).2 (.inl ⟨rfl, rfl⟩)

theorem gets_up {t n k : Nat} {d : Path} (q : Path) : ∀ {s : St} {below : List Path}, s.clients[t]? = some ⟨d, .up k q below⟩ →
    Chain q below d → ∃ s' todo x, Gets t n s s' ∧ s'.dirs = s.dirs ∧ s'.clients[t]? = some ⟨d, .down k todo⟩ ∧ Chain x todo d ∧
      there s'.dirs x = true := by
  induction q with
  | nil =>
    intro s below ht hch
    exact ⟨_, below, [], gets_one ht rfl, rfl, by rw [set_get ht]; simp [there], hch, by simp [there]⟩
  | cons a q ih =>
    intro s below ht hch
    by_cases hth : there s.dirs (a :: q) = true
    · exact ⟨_, below, a :: q, gets_one ht rfl, rfl, by rw [set_get ht]; simp [hth], hch, hth⟩
    · obtain ⟨s', todo, x, h1, h2, h3⟩ := ih (s := { s with clients := s.clients.set t ⟨d, .up k q ((a :: q) :: below)⟩ })
        (below := (a :: q) :: below) (set_get ht) ⟨rfl, by simp, hch⟩
      refine ⟨s', todo, x, Gets.trans ?_ h1, h2, h3⟩
      have := gets_one (n := n) ht (ds := s.dirs) (hs := s.holds) (a := .up k q ((a :: q) :: below)) (by simp [call, hth])
      exact this

theorem gets_down {t n k : Nat} {d : Path} (todo : List Path) : ∀ {s : St} {x : Path}, s.clients[t]? = some ⟨d, .down k todo⟩ →
    Chain x todo d → there s.dirs x = true → n :: d ∉ s.dirs →
    ∃ s', Gets t n s s' ∧ s'.clients[t]? = some ⟨d, .hold⟩ ∧ there s'.dirs d = true ∧ n :: d ∉ s'.dirs := by
  induction todo with
  | nil =>
    intro s x ht hch hth hn
    cases hch
    exact ⟨_, gets_one ht rfl, set_get ht, hth, hn⟩
  | cons q r ih =>
    intro s x ht hch hth hn
    obtain ⟨h1, h2, h3⟩ := hch
    have hq : n :: d ≠ q := by
      intro hh
      have := h3.length
      rw [← hh] at this
      simp at this
      omega
    obtain ⟨s', g1, g2⟩ := ih (s := { s with dirs := ins s.dirs q, clients := s.clients.set t ⟨d, .down k r⟩ }) (x := q) (set_get ht) h3
      (there_iff.2 (.inr (mem_ins.2 (.inr rfl)))) (fun hh => (mem_ins.1 hh).elim hn hq)
    exact ⟨s', Gets.trans (gets_one ht (by simp only [call, h1, hth, if_true])) g1, g2⟩

/-- **C147**: in every state that can be reached, a client that begins to make its directory, or tries again, gets it if it is left alone. -/
theorem C147_alone {es : List Ev} {s : St} (h : run {} es = some s) {t n k : Nat} {q d : Path} {below : List Path}
    (ht : s.clients[t]? = some ⟨d, .up k q below⟩) (hnew : n :: d ∉ s.dirs) :
    ∃ m s', run s (List.replicate m (.go t n)) = some s' ∧ s'.clients[t]? = some ⟨d, .running (n :: d)⟩ ∧ n :: d ∈ s'.dirs := by
  have hch : Chain q below d := ((inv_run inv_init h).fine t _ ht).2.2
  obtain ⟨s1, todo, x, g1, e1, c1, ch1, th1⟩ := gets_up (n := n) q ht hch
  obtain ⟨s2, g2, c2, th2, n2⟩ := gets_down todo c1 ch1 th1 (e1 ▸ hnew)
  have g3 := gets_one (n := n) c2 (ds := s2.dirs) (hs := ins s2.holds d) (a := .temp) (by simp [call, th2])
  have g4 := gets_one (n := n) (set_get c2 (x := ⟨d, .temp⟩)) (s := { dirs := s2.dirs, holds := ins s2.holds d, clients := _ })
    (ds := s2.dirs ++ [n :: d]) (hs := ins s2.holds d) (a := .unhold (some (n :: d))) (by simp [call, th2, n2])
  have c4 := set_get (set_get c2 (x := ⟨d, .temp⟩)) (x := (⟨d, .unhold (some (n :: d))⟩ : Client))
  have g5 := gets_one (n := n) c4 (s := { dirs := s2.dirs ++ [n :: d], holds := ins s2.holds d, clients := _ }) rfl
  obtain ⟨m, hm⟩ := (((g1.trans g2).trans g3).trans g4).trans g5
  exact ⟨m, _, hm, set_get c4, by simp⟩

/-! ## While nobody removes -/

/-- the client has not begun to remove its directory -/
def Early (c : Client) : Prop := c.at_ ≠ .done ∧ ∀ q, c.at_ ≠ .rm q

/-- what a client counts on is there -/
def Good (dirs : List Path) (c : Client) : Prop :=
  match c.at_ with
  | .up _ q below => Chain q below c.dir
  | .down _ todo => ∃ x, Chain x todo c.dir ∧ (x = [] ∨ x ∈ dirs)
  | .hold => c.dir = [] ∨ c.dir ∈ dirs
  | .temp => c.dir = [] ∨ c.dir ∈ dirs
  | .unhold l => l ≠ none
  | .running _ => True
  | _ => False

theorem good_mono {ds ds' : List Path} (h : ∀ q ∈ ds, q ∈ ds') {c : Client} (hg : Good ds c) : Good ds' c := by
  obtain ⟨d, st⟩ := c
  cases st with
  | down k todo =>
    obtain ⟨x, h1, h2⟩ := hg
    exact ⟨x, h1, h2.imp id (h x)⟩
  | hold => exact Or.imp id (h d) hg
  | temp => exact Or.imp id (h d) hg
  | _ => exact hg

theorem good_call {ds hs ds' hs' : List Path} {d : Path} {n : Nat} {st a : At} (hg : Good ds ⟨d, st⟩)
    (hc : call ds hs d n st = some (ds', hs', a)) (he : Early ⟨d, a⟩) : Good ds' ⟨d, a⟩ ∧ ∀ q ∈ ds, q ∈ ds' := by
  cases st with
  | up k q below =>
    have hg : Chain q below d := hg
    cases hc
    refine ⟨?_, fun _ h => h⟩
    by_cases hth : there ds q = true
    · simp only [if_pos hth]; exact ⟨q, hg, there_iff.1 hth⟩
    · simp only [if_neg hth]; exact ⟨rfl, (there_false.1 hth).1, hg⟩
  | down k todo =>
    obtain ⟨x, h1, h2⟩ := hg
    cases todo with
    | nil => cases hc; cases h1; exact ⟨h2, fun _ h => h⟩
    | cons q r =>
      obtain ⟨h3, h4, h5⟩ := h1
      simp only [call] at hc
      rw [if_pos (there_iff.2 (h3 ▸ h2))] at hc
      cases hc
      exact ⟨⟨q, h5, .inr (mem_ins.2 (.inr rfl))⟩, fun y hy => mem_ins.2 (.inl hy)⟩
  | hold =>
    simp only [call] at hc
    rw [if_pos (there_iff.2 hg)] at hc
    cases hc
    exact ⟨hg, fun _ h => h⟩
  | temp =>
    simp only [call] at hc
    rw [if_pos (there_iff.2 hg)] at hc
    split at hc
    · cases hc
    · cases hc
      exact ⟨by simp [Good], fun y hy => List.mem_append_left _ hy⟩
  | unhold l =>
    cases l with
    | none => exact absurd rfl hg
    | some l => cases hc; exact ⟨trivial, fun _ h => h⟩
  | running l => cases hc; exact absurd rfl (he.2 _)
  | rm q => exact absurd hg id
  | done => cases hc
  | failed => cases hc

/-- who has begun to remove its directory goes on so -/
theorem early_call {ds hs ds' hs' : List Path} {d : Path} {n : Nat} {st a : At} (hc : call ds hs d n st = some (ds', hs', a))
    (he : Early ⟨d, a⟩) : Early ⟨d, st⟩ := by
  refine ⟨fun h => ?_, fun q h => ?_⟩
  · simp only at h; subst h; cases hc
  · simp only at h; subst h
    simp only [call] at hc
    split at hc
    · cases hc; exact he.1 rfl
    · split at hc
      · cases hc; exact he.2 _ rfl
      · cases hc; exact he.1 rfl

theorem early_step {s s' : St} {e : Ev} (hs : step s e = some s') (he : ∀ c ∈ s'.clients, Early c) : ∀ c ∈ s.clients, Early c := by
  cases e with
  | arrive d =>
    simp only [step] at hs
    split at hs
    · cases hs; exact fun c hc => he c (List.mem_append_left _ hc)
    · cases hs
  | go t n =>
    simp only [step] at hs
    split at hs
    · cases hs
    · rename_i c ht
      split at hs
      · cases hs
      · rename_i ds hs' a hc
        cases hs
        intro e hmem
        obtain ⟨u, hu⟩ := List.mem_iff_getElem?.1 hmem
        by_cases hut : u = t
        · subst hut
          rw [ht] at hu; cases hu
          exact early_call hc (he _ (List.mem_iff_getElem?.2 ⟨u, (get_set ht).2 (.inl ⟨rfl, rfl⟩)⟩))
        · exact he e (List.mem_iff_getElem?.2 ⟨u, (get_set ht).2 (.inr ⟨hut, hu⟩)⟩)

theorem good_step {s s' : St} {e : Ev} (h : ∀ c ∈ s.clients, Good s.dirs c) (hs : step s e = some s') (he : ∀ c ∈ s'.clients, Early c) :
    ∀ c ∈ s'.clients, Good s'.dirs c := by
  cases e with
  | arrive d =>
    simp only [step] at hs
    split at hs
    · cases hs
      intro c hc
      rcases List.mem_append.1 hc with hc | hc
      · exact h c hc
      · rw [List.mem_singleton.1 hc]; exact rfl
    · cases hs
  | go t n =>
    simp only [step] at hs
    split at hs
    · cases hs
    · rename_i c ht
      split at hs
      · cases hs
      · rename_i ds hs' a hc
        cases hs
        have hmine := good_call (h c (List.mem_of_getElem? ht)) hc
          (he _ (List.mem_iff_getElem?.2 ⟨t, (get_set ht).2 (.inl ⟨rfl, rfl⟩)⟩))
        intro e hmem
        obtain ⟨u, hu⟩ := List.mem_iff_getElem?.1 hmem
        rcases (get_set ht).1 hu with ⟨_, rfl⟩ | ⟨_, hu'⟩
        · exact hmine.1
        · exact good_mono hmine.2 (h e (List.mem_of_getElem? hu'))

theorem good_run {es : List Ev} : ∀ {s s' : St}, (∀ c ∈ s.clients, Good s.dirs c) → run s es = some s' → (∀ c ∈ s'.clients, Early c) →
    (∀ c ∈ s.clients, Early c) ∧ ∀ c ∈ s'.clients, Good s'.dirs c := by
  have early : ∀ {es : List Ev} {s s' : St}, run s es = some s' → (∀ c ∈ s'.clients, Early c) → ∀ c ∈ s.clients, Early c := by
    intro es
    induction es with
    | nil => intro s s' h he; cases h; exact he
    | cons e es ih =>
      intro s s' h he
      simp only [run] at h
      cases hs : step s e with
      | none => rw [hs] at h; cases h
      | some s1 => rw [hs] at h; exact early_step hs (ih h he)
  induction es with
  | nil => intro s s' hg h he; cases h; exact ⟨he, hg⟩
  | cons e es ih =>
    intro s s' hg h he
    refine ⟨early h he, ?_⟩
    simp only [run] at h
    cases hs : step s e with
    | none => rw [hs] at h; cases h
    | some s1 => rw [hs] at h; exact (ih (good_step hg hs (early h he)) h he).2

/-- **C147**, in part: any number of clients can make their directories at the same time, the same ones or others; none of them fails as long
as none removes any. Missing: clients that remove theirs meanwhile, see `C147_violated_hold` and `C147_violated_mkdir`. -/
theorem C147_making_partial {es : List Ev} {s : St} (h : run {} es = some s) (hr : ∀ c ∈ s.clients, c.at_ ≠ .done ∧ ∀ q, c.at_ ≠ .rm q) :
    ∀ c ∈ s.clients, c.at_ ≠ .failed := by
  intro c hc hf
  have := (good_run (s := {}) (fun c hc => by cases hc) h hr).2 c hc
  unfold Good at this
  rw [hf] at this
  exact this

/-! ## The code violates the rest -/

def d1 : Path := [3, 2, 1, 0]
def d2 : Path := [6, 5, 4, 0]

/-- two clients with the same directory: the second makes its hold file while that of the first is there, the first removes it, ends and
removes the directory -/
def shared : List Ev := [.arrive d1, .arrive d1] ++ gos 0 7 11 ++ gos 1 8 3 ++ gos 0 7 8 ++ gos 1 8 2

/-- The code violates C147: a client whose hold file is there gets no directory, as the hold file is one for all and the first to be done
removes it. -/
theorem C147_violated_hold : ∃ es s, run {} es = some s ∧ s.clients = [⟨d1, .done⟩, ⟨d1, .failed⟩] ∧ s.dirs = [] :=
  ⟨shared, _, rfl, by decide, by decide⟩

/-- a client of `d2` comes and goes while client 0 makes `d1` -/
def cyc (t : Nat) : List Ev := .arrive d2 :: (gos t 7 17 ++ gos 0 7 4 ++ gos t 7 1 ++ gos 0 7 1)

def unlucky : List Ev := [.arrive d1] ++ cyc 1 ++ cyc 2 ++ cyc 3 ++ cyc 4 ++ gos 0 7 1

/-- The code violates C147: a client gets no directory though nobody else uses the same one, as `os.MkdirAll` is tried four times only. -/
theorem C147_violated_mkdir : ∃ es s, run {} es = some s ∧ s.clients.head? = some ⟨d1, .failed⟩ ∧ ∀ c ∈ s.clients.tail, c.dir ≠ d1 :=
  ⟨unlucky, _, rfl, by decide +kernel, by decide +kernel⟩

/-! ## Examples -/

/-- two clients with different directories below the same one -/
def two : List Ev := [.arrive d1, .arrive d2] ++ gos 0 7 11 ++ gos 1 8 9

def windowB (c : Client) : Bool := match c.at_ with | .temp => true | .unhold _ => true | _ => false

def apartB (s : St) : Bool := (List.range s.clients.length).all fun t => (List.range s.clients.length).all fun u =>
  match s.clients[t]?, s.clients[u]? with
  | some c, some e => t == u || c.dir != e.dir || !(windowB c && windowB e)
  | _, _ => true

theorem windowB_true {c : Client} (h : Window c) : windowB c = true := by
  rcases h with h | ⟨l, h⟩ <;> (unfold windowB; rw [h])

theorem apartB_true {s : St} (h : apartB s = true) : Apart s := by
  intro t u c e ht hu hd hc he
  have h1 := (List.getElem?_eq_some_iff.1 ht).1
  have h2 := (List.getElem?_eq_some_iff.1 hu).1
  have := List.all_eq_true.1 (List.all_eq_true.1 h t (List.mem_range.2 h1)) u (List.mem_range.2 h2)
  simpa [ht, hu, hd, windowB_true hc, windowB_true he] using this

def alwaysB (s : St) : List Ev → Bool
  | [] => apartB s
  | e :: es => apartB s && match step s e with | none => true | some s' => alwaysB s' es

theorem alwaysB_true {es : List Ev} : ∀ {s : St}, alwaysB s es = true → Always Apart s es := by
  induction es with
  | nil =>
    intro s h es1 s1 hp hr
    rw [List.prefix_nil.1 hp] at hr
    cases hr; exact apartB_true h
  | cons e es ih =>
    intro s h es1 s1 hp hr
    simp only [alwaysB, Bool.and_eq_true] at h
    cases es1 with
    | nil => cases hr; exact apartB_true h.1
    | cons e1 es1 =>
      obtain ⟨rfl, hp2⟩ := List.cons_prefix_cons.1 hp
      simp only [run] at hr
      cases he : step s e1 with
      | none => rw [he] at hr; cases hr
      | some s2 =>
        rw [he] at hr
        have h2 := h.2
        rw [he] at h2
        exact ih h2 es1 s1 hp2 hr

/-- both clients have the same directory; the first ended after the second made its hold file, and could not remove it -/
def kept : List Ev := [.arrive d1, .arrive d1] ++ gos 0 7 13 ++ gos 1 8 3 ++ gos 0 7 2

-- `C147_hold_partial`
example : ∃ s, run {} kept = some s ∧ Always Apart {} kept ∧ s.clients = [⟨d1, .done⟩, ⟨d1, .temp⟩] ∧ 8 :: d1 ∉ s.dirs :=
  ⟨_, rfl, alwaysB_true (by decide +kernel), by decide +kernel, by decide +kernel⟩

-- `C147_tries_partial`
example : ∃ s, run {} unlucky = some s ∧ Always Apart {} unlucky ∧ ⟨d1, .failed⟩ ∈ s.clients :=
  ⟨_, rfl, alwaysB_true (by decide +kernel), by decide +kernel⟩

-- `C147_alone`: one tries again after the other removed what it had found
example : ∃ s, run {} ([.arrive d1, .arrive d2] ++ gos 1 8 17 ++ gos 0 7 4 ++ gos 1 8 1 ++ gos 0 7 1) = some s ∧
    s.clients[0]? = some ⟨d1, .up 1 d1 []⟩ := ⟨_, rfl, by decide +kernel⟩

-- `C147_safe`, `C147_making_partial`: both run
example : ∃ s, run {} (two ++ gos 0 7 2 ++ gos 1 8 2) = some s ∧ s.clients = [⟨d1, .running (7 :: d1)⟩, ⟨d2, .running (8 :: d2)⟩] :=
  ⟨_, rfl, by decide +kernel⟩

-- `C147_safe`: one ended and removed all it could while the other ran
example : ∃ s, run {} (two ++ gos 0 7 2 ++ gos 1 8 2 ++ gos 0 7 5) = some s ∧ s.clients = [⟨d1, .done⟩, ⟨d2, .running (8 :: d2)⟩] ∧
    s.dirs = [[0], [4, 0], [5, 4, 0], d2, 8 :: d2] :=
  ⟨_, rfl, by decide +kernel, by decide +kernel⟩

-- `C147_clean`: both ended
example : ∃ s, run {} (two ++ gos 0 7 2 ++ gos 1 8 2 ++ gos 0 7 5 ++ gos 1 8 6) = some s ∧ s.clients = [⟨d1, .done⟩, ⟨d2, .done⟩] :=
  ⟨_, rfl, by decide +kernel⟩

end Verif.Client.Dirs
