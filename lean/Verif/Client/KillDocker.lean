/-
Killing the command of a job: its container (C130).
-/
import Verif.Client.Kill

namespace Verif.Client.Kill

/-! ## Specification -/

/-- a container that runs -/
def runs (d : D) (i : Nat) : Prop := ∃ c ∈ d.cons, c.id = i ∧ c.running = true

/-- a container the command made -/
def owned (d : D) (i : Nat) : Prop := ∃ c ∈ d.cons, c.id = i ∧ c.own = true

instance (d : D) (i : Nat) : Decidable (runs d i) := by unfold runs; infer_instance
instance (d : D) (i : Nat) : Decidable (owned d i) := by unfold owned; infer_instance

/-- the numbers of containers are used in order -/
structure DWF (d : D) : Prop where
  nodup : (d.cons.map (·.id)).Nodup
  lt : ∀ c ∈ d.cons, c.id < d.next

/-- what "monitor docker" means: a new container, or one of that name -/
def Candidate (d : D) (c : Con) : Prop := c ∈ d.cons ∧ c.running = true ∧
  (d.mode = .first → c.id ∉ d.old) ∧ (∀ n, d.mode = .named n → c.name = n)

/-- nobody else makes a container that could be taken for the job's, and the file is written with the job's -/
def fair (d : D) : DEv → Prop
  | .create n own => own = true ∨ ∃ k, d.mode = .named k ∧ n ≠ k
  | .write i => owned d i
  | _ => True

def dalong (P : D → DEv → Prop) : D → List DEv → Prop
  | _, [] => True
  | d, e :: es => P d e ∧ ∀ d', dstep d e = some d' → dalong P d' es

/-! ## Helpers -/

theorem mem_stop {cs : List Con} {i : Nat} {y : Con} : y ∈ stopCon cs i ↔ ∃ c ∈ cs, y = { c with running := if c.id = i then false else c.running } := by
  unfold stopCon
  rw [List.mem_map]
  constructor
  · rintro ⟨c, hc, rfl⟩; exact ⟨c, hc, rfl⟩
  · rintro ⟨c, hc, rfl⟩; exact ⟨c, hc, rfl⟩

theorem stop_ids (cs : List Con) (i : Nat) : (stopCon cs i).map (·.id) = cs.map (·.id) := by
  unfold stopCon
  rw [List.map_map]
  rfl

/-- what holds of a step, whatever it is -/
structure DLater (d e : D) : Prop where
  wf : DWF e
  mode : e.mode = d.mode
  old : e.old = d.old
  next : d.next ≤ e.next
  owned : ∀ i, owned d i → owned e i
  dead : ∀ i, i < d.next → ¬ runs d i → ¬ runs e i
  known : ∀ i, d.known = some i → e.known = some i
  peak : d.peak ≤ e.peak
  cpu : d.cpu ≤ e.cpu

theorem dlater_stop {d e : D} {i : Nat} (h : DWF d) (h1 : e.cons = stopCon d.cons i) (h2 : e.next = d.next) (hm : e.mode = d.mode)
    (ho : e.old = d.old) (hk : e.known = d.known) (hp : e.peak = d.peak) (hc : e.cpu = d.cpu) : DLater d e := by
  refine ⟨⟨by rw [h1, stop_ids]; exact h.nodup, ?_⟩, hm, ho, by omega, ?_, ?_, fun j hj => hk.trans hj, by omega, by omega⟩
  · intro c hc'
    rw [h1] at hc'
    obtain ⟨x, hx, rfl⟩ := mem_stop.mp hc'
    rw [h2]
    exact h.lt x hx
  · rintro j ⟨c, hc', e1, e2⟩
    exact ⟨{ c with running := if c.id = i then false else c.running }, by rw [h1]; exact mem_stop.mpr ⟨c, hc', rfl⟩, e1, e2⟩
  · rintro j _ hn ⟨c, hc', e1, e2⟩
    rw [h1] at hc'
    obtain ⟨x, hx, rfl⟩ := mem_stop.mp hc'
    simp only at e1 e2
    split at e2
    · cases e2
    · exact hn ⟨x, hx, e1, e2⟩

theorem dlater_same {d e : D} (h : DWF d) (h1 : e.cons = d.cons) (h2 : e.next = d.next) (hm : e.mode = d.mode)
    (ho : e.old = d.old) (hk : ∀ i, d.known = some i → e.known = some i) (hp : d.peak ≤ e.peak) (hc : d.cpu ≤ e.cpu) : DLater d e := by
  refine ⟨⟨by rw [h1]; exact h.nodup, by rw [h1, h2]; exact h.lt⟩, hm, ho, by omega, ?_, ?_, hk, hp, hc⟩
  · unfold owned; rw [h1]; exact fun _ h => h
  · unfold runs; rw [h1]; exact fun _ _ h => h

theorem learn_known {d : D} {ok : Bool} {i : Nat} (h : d.known = some i) : learn d ok = some i := by
  unfold learn
  rw [h]

theorem dlater_step {d e : D} {v : DEv} (h : DWF d) (hs : dstep d v = some e) : DLater d e := by
  cases v with
  | create n own =>
    simp only [dstep] at hs
    cases hs
    refine ⟨⟨?_, ?_⟩, rfl, rfl, by simp, ?_, ?_, fun _ h => h, Nat.le_refl _, Nat.le_refl _⟩
    · simp only [List.map_append, List.map_cons, List.map_nil]
      rw [List.nodup_append]
      refine ⟨h.nodup, by simp, ?_⟩
      intro a ha b hb
      simp at hb
      subst hb
      obtain ⟨y, hy, rfl⟩ := List.mem_map.mp ha
      exact Nat.ne_of_lt (h.lt y hy)
    · intro c hc
      simp only [List.mem_append, List.mem_singleton] at hc
      rcases hc with hc | rfl
      · have := h.lt c hc
        simp only
        omega
      · simp
    · rintro i ⟨c, hc, e1, e2⟩
      exact ⟨c, by simp [hc], e1, e2⟩
    · rintro i hi hn ⟨c, hc, e1, e2⟩
      simp only [List.mem_append, List.mem_singleton] at hc
      rcases hc with hc | rfl
      · exact hn ⟨c, hc, e1, e2⟩
      · simp only at e1
        omega
  | stop i =>
    simp only [dstep] at hs
    cases hs
    exact dlater_stop (i := i) h rfl rfl rfl rfl rfl rfl rfl
  | write i =>
    simp only [dstep] at hs
    cases hs
    exact dlater_same h rfl rfl rfl rfl (fun _ h => h) (Nat.le_refl _) (Nat.le_refl _)
  | tick mem ok stats =>
    simp only [dstep] at hs
    split at hs
    · cases hs
    · cases hs
      refine dlater_same h rfl rfl rfl rfl (fun i hi => learn_known hi) ?_ (Nat.le_max_left _ _)
      simp only
      split
      · exact Nat.le_max_left _ _
      · exact Nat.le_refl _
  | kill ok =>
    simp only [dstep] at hs
    split at hs
    · cases hs
    · split at hs
      · rename_i i hk
        cases hs
        cases ok
        · exact dlater_same h (by simp) rfl rfl rfl (fun _ h => h) (Nat.le_refl _) (Nat.le_refl _)
        · exact dlater_stop (i := i) h (by simp) rfl rfl rfl rfl rfl rfl
      · cases hs
        exact dlater_same h rfl rfl rfl rfl (fun _ h => h) (Nat.le_refl _) (Nat.le_refl _)

theorem DLater.refl {d : D} (h : DWF d) : DLater d d := dlater_same h rfl rfl rfl rfl (fun _ h => h) (Nat.le_refl _) (Nat.le_refl _)

theorem DLater.trans {a b c : D} (h1 : DLater a b) (h2 : DLater b c) : DLater a c :=
  ⟨h2.wf, h2.mode.trans h1.mode, h2.old.trans h1.old, Nat.le_trans h1.next h2.next, fun i h => h2.owned i (h1.owned i h),
    fun i hi h => h2.dead i (Nat.lt_of_lt_of_le hi h1.next) (h1.dead i hi h), fun i h => h2.known i (h1.known i h),
    Nat.le_trans h1.peak h2.peak, Nat.le_trans h1.cpu h2.cpu⟩

theorem dlater_run {es : List DEv} : ∀ {d e : D}, DWF d → drun d es = some e → DLater d e := by
  induction es with
  | nil => intro d e h hr; cases hr; exact .refl h
  | cons v es ih =>
    intro d e h hr
    unfold drun at hr
    cases h1 : dstep d v with
    | none => rw [h1] at hr; cases hr
    | some u =>
      rw [h1] at hr
      have l := dlater_step h h1
      exact l.trans (ih l.wf hr)

theorem drun_append {es fs : List DEv} : ∀ {s t : D}, drun s (es ++ fs) = some t → ∃ u, drun s es = some u ∧ drun u fs = some t := by
  induction es with
  | nil => intro s t h; exact ⟨s, rfl, h⟩
  | cons e es ih =>
    intro s t h
    simp only [List.cons_append, drun] at h ⊢
    cases h1 : dstep s e with
    | none => rw [h1] at h; cases h
    | some u =>
      rw [h1] at h
      exact ih h

/-- containers that could be taken are the job's -/
structure Ours (d : D) : Prop where
  named : ∀ n, d.mode = .named n → ∀ c ∈ d.cons, c.name = n → c.own = true
  first : d.mode = .first → ∀ c ∈ d.cons, c.id ∉ d.old → c.own = true
  file : ∀ i, d.file = some i → owned d i
  known : ∀ i, d.known = some i → owned d i
  ended : ∀ i ∈ d.ended, owned d i

theorem look_ours {d : D} (h : Ours d) {i : Nat} (hl : look d = some i) : owned d i := by
  unfold look at hl
  split at hl
  · rename_i hm
    cases hf : d.cons.find? (fun c => c.running = true ∧ c.id ∉ d.old) with
    | none => rw [hf] at hl; cases hl
    | some c =>
      rw [hf] at hl
      simp at hl
      have hc := List.mem_of_find?_eq_some hf
      have hp := List.find?_some hf
      simp at hp
      exact ⟨c, hc, hl, h.first hm c hc hp.2⟩
  · rename_i n hm
    split at hl
    · rename_i c hf
      cases hl
      have hc := List.mem_of_find?_eq_some hf
      have hp := List.find?_some hf
      simp at hp
      exact ⟨c, hc, rfl, h.named n hm c hc hp.2⟩
    · cases hf : d.file with
      | none => rw [hf] at hl; cases hl
      | some j =>
        rw [hf] at hl
        simp only [Option.bind_some] at hl
        cases hg : d.cons.find? (fun c => c.running = true ∧ c.id = j) with
        | none => rw [hg] at hl; cases hl
        | some c =>
          rw [hg] at hl
          simp at hl
          have hp := List.find?_some hg
          simp at hp
          rw [← hl, hp.2]
          exact h.file j hf

theorem learn_ours {d : D} (h : Ours d) {ok : Bool} {i : Nat} (hl : learn d ok = some i) : owned d i := by
  unfold learn at hl
  split at hl
  · rename_i j hk
    cases hl
    exact h.known i hk
  · split at hl
    · exact look_ours h hl
    · cases hl

theorem ours_step {d e : D} {v : DEv} (hw : DWF d) (h : Ours d) (hf : fair d v) (hs : dstep d v = some e) : Ours e := by
  have hl := dlater_step hw hs
  have old : ∀ i, e.known = some i → d.known = some i → owned e i := fun i _ hk => hl.owned i (h.known i hk)
  cases v with
  | create n own =>
    simp only [dstep] at hs
    cases hs
    refine ⟨?_, ?_, fun i hi => hl.owned i (h.file i hi), fun i hi => hl.owned i (h.known i hi), fun i hi => hl.owned i (h.ended i hi)⟩
    · intro k hk c hc hn
      simp only [List.mem_append, List.mem_singleton] at hc
      rcases hc with hc | rfl
      · exact h.named k hk c hc hn
      · rcases hf with hf | ⟨k', hk', hne⟩
        · exact hf
        · simp only at hk hn
          rw [hk] at hk'
          cases hk'
          exact absurd hn hne
    · intro hk c hc hn
      simp only [List.mem_append, List.mem_singleton] at hc
      rcases hc with hc | rfl
      · exact h.first hk c hc hn
      · rcases hf with hf | ⟨k', hk', hne⟩
        · exact hf
        · simp only at hk
          rw [hk] at hk'
          cases hk'
  | stop i =>
    simp only [dstep] at hs
    cases hs
    refine ⟨?_, ?_, fun i hi => hl.owned i (h.file i hi), fun i hi => hl.owned i (h.known i hi), fun i hi => hl.owned i (h.ended i hi)⟩
    · intro k hk c hc hn
      obtain ⟨x, hx, rfl⟩ := mem_stop.mp hc
      exact h.named k hk x hx hn
    · intro hk c hc hn
      obtain ⟨x, hx, rfl⟩ := mem_stop.mp hc
      exact h.first hk x hx hn
  | write i =>
    simp only [dstep] at hs
    cases hs
    refine ⟨h.named, h.first, ?_, fun i hi => hl.owned i (h.known i hi), fun i hi => hl.owned i (h.ended i hi)⟩
    intro j hj
    cases hj
    exact hl.owned _ hf
  | tick mem ok stats =>
    simp only [dstep] at hs
    split at hs
    · cases hs
    · cases hs
      refine ⟨h.named, h.first, fun i hi => hl.owned i (h.file i hi), ?_, fun i hi => hl.owned i (h.ended i hi)⟩
      intro i hi
      exact hl.owned i (learn_ours h hi)
  | kill ok =>
    simp only [dstep] at hs
    split at hs
    · cases hs
    · split at hs
      · rename_i i hk
        cases hs
        refine ⟨?_, ?_, fun i hi => hl.owned i (h.file i hi), fun i hi => hl.owned i (h.known i hi), ?_⟩
        · intro k hk c hc hn
          cases ok
          · exact h.named k hk c (by simpa using hc) hn
          · obtain ⟨x, hx, rfl⟩ := mem_stop.mp (by simpa using hc)
            exact h.named k hk x hx hn
        · intro hk c hc hn
          cases ok
          · exact h.first hk c (by simpa using hc) hn
          · obtain ⟨x, hx, rfl⟩ := mem_stop.mp (by simpa using hc)
            exact h.first hk x hx hn
        · intro j hj
          rcases List.mem_cons.mp hj with rfl | hj
          · exact hl.owned _ (h.known _ hk)
          · exact hl.owned _ (h.ended _ hj)
      · cases hs
        exact ⟨h.named, h.first, h.file, h.known, h.ended⟩

theorem ours_run {es : List DEv} : ∀ {d e : D}, DWF d → Ours d → dalong fair d es → drun d es = some e → Ours e := by
  induction es with
  | nil => intro d e _ h _ hr; cases hr; exact h
  | cons v es ih =>
    intro d e hw h hf hr
    unfold drun at hr
    cases h1 : dstep d v with
    | none => rw [h1] at hr; cases hr
    | some u =>
      rw [h1] at hr
      exact ih (dlater_step hw h1).wf (ours_step hw h hf.1 h1) (hf.2 u h1) hr

/-! ## Properties -/

/-- **C130**, as far as it is so: if no other container has the name (or with "?": nobody else makes a container while the job runs), and
the file is only written with the number of the job's container, then a kill ends no container but the job's. -/
theorem C130_container_own_partial {mode : Mode} {cons : List Con} {next : Nat} {es : List DEv} {d : D}
    (hw : DWF (D.init mode cons next none)) (hn : ∀ n, mode = .named n → ∀ c ∈ cons, c.name ≠ n)
    (hf : dalong fair (D.init mode cons next none) es) (hr : drun (D.init mode cons next none) es = some d) :
    ∀ i ∈ d.ended, owned d i := by
  have h0 : Ours (D.init mode cons next none) := by
    refine ⟨?_, ?_, ?_, ?_, ?_⟩
    · intro n hm c hc he
      exact absurd he (hn n hm c hc)
    · intro hm c hc hne
      exfalso
      have hm' : mode = .first := hm
      subst hm'
      exact hne (List.mem_map.mpr ⟨c, hc, rfl⟩)
    · intro i hi; cases hi
    · intro i hi; cases hi
    · intro i hi; cases hi
  exact (ours_run hw h0 hf hr).ended

theorem look_candidate {d : D} {c : Con} (hc : Candidate d c) (hu : ∀ c', Candidate d c' → c' = c) : look d = some c.id := by
  obtain ⟨h1, h2, h3, h4⟩ := hc
  unfold look
  cases hm : d.mode with
  | first =>
    simp only
    cases hf : d.cons.find? (fun c => c.running = true ∧ c.id ∉ d.old) with
    | none =>
      have := List.find?_eq_none.mp hf c h1
      simp [h2, h3 hm] at this
    | some c' =>
      have hp := List.find?_some hf
      simp at hp
      have := hu c' ⟨List.mem_of_find?_eq_some hf, hp.1, fun _ => hp.2, by intro n hn; rw [hm] at hn; cases hn⟩
      simp [this]
  | named n =>
    simp only
    cases hf : d.cons.find? (fun c => c.running = true ∧ c.name = n) with
    | none =>
      have := List.find?_eq_none.mp hf c h1
      simp [h2, h4 n hm] at this
    | some c' =>
      have hp := List.find?_some hf
      simp at hp
      have := hu c' ⟨List.mem_of_find?_eq_some hf, hp.1, (by intro hn; rw [hm] at hn; cases hn),
        (by intro k hn; rw [hm] at hn; cases hn; exact hp.2)⟩
      simp [this]

/-- **C130**, as far as it is so: if a container that is the only one in question runs at a check of which docker answers, then a later
kill that docker answers ends it, and it never runs again - whatever happens to containers, the file and checks in between and after. -/
theorem C130_container_ended_partial {d e : D} {c : Con} {mem : Option Nat} {stats : Option (Nat × Nat)} {es fs : List DEv} (hw : DWF d)
    (hk : d.known = none) (hc : Candidate d c) (hu : ∀ c', Candidate d c' → c' = c)
    (hr : drun d (.tick mem true stats :: es ++ .kill true :: fs) = some e) : ¬ runs e c.id := by
  obtain ⟨u, h1, h2⟩ := drun_append hr
  unfold drun at h1
  cases h3 : dstep d (.tick mem true stats) with
  | none => rw [h3] at h1; cases h1
  | some a =>
    rw [h3] at h1
    have hka : a.known = some c.id := by
      simp only [dstep] at h3
      split at h3
      · cases h3
      · cases h3
        simp only [learn, hk]
        exact look_candidate hc hu
    have la := dlater_step hw h3
    have lu := dlater_run la.wf h1
    unfold drun at h2
    cases h4 : dstep u (.kill true) with
    | none => rw [h4] at h2; cases h2
    | some v =>
      rw [h4] at h2
      have lv := dlater_step lu.wf h4
      have le := dlater_run lv.wf h2
      have hd : ¬ runs v c.id := by
        simp only [dstep, lu.known _ hka] at h4
        split at h4
        · cases h4
        · cases h4
          rintro ⟨x, hx, e1, e2⟩
          obtain ⟨y, hy, rfl⟩ := mem_stop.mp (by simpa using hx)
          simp only at e1 e2
          rw [if_pos e1] at e2
          cases e2
      have hlt : c.id < v.next := by
        have := hw.lt c hc.1
        have := la.next
        have := lu.next
        have := lv.next
        omega
      exact le.dead _ hlt hd

/-- **C130**: the peak memory and the processor time that are reported are not less than what any check saw, of the process and - if the
process could be looked at - of its container. -/
theorem C130_usage {d a e : D} {m : Nat} {ok : Bool} {stats : Option (Nat × Nat)} {es : List DEv} (hw : DWF d)
    (h1 : dstep d (.tick (some m) ok stats) = some a) (hr : drun a es = some e) :
    m ≤ e.peak ∧ ∀ i cm cc, a.known = some i → stats = some (cm, cc) → cm ≤ e.peak ∧ cc ≤ e.cpu := by
  have la := dlater_step hw h1
  have le := dlater_run la.wf hr
  have hp := le.peak
  have hc := le.cpu
  simp only [dstep] at h1
  split at h1
  · cases h1
  · cases h1
    simp only at hp hc
    refine ⟨?_, ?_⟩
    · refine Nat.le_trans ?_ hp
      refine Nat.le_trans ?_ (Nat.le_max_right _ _)
      unfold memOf
      split
      · split <;> omega
      · exact Nat.le_refl _
    · intro i cm cc hk hs
      simp only at hk
      subst hs
      rw [hk] at hp hc
      simp only [memOf, cpuOf] at hp hc
      refine ⟨Nat.le_trans ?_ hp, Nat.le_trans (Nat.le_max_right _ _) hc⟩
      refine Nat.le_trans ?_ (Nat.le_max_right _ _)
      split <;> omega

/-- **C130**: and they are numbers that some check saw: a check leaves the peak, or makes it the memory it saw of the process or of the
container, and so for the processor time. -/
theorem C130_usage_seen {d a : D} {mem : Option Nat} {ok : Bool} {stats : Option (Nat × Nat)} (h1 : dstep d (.tick mem ok stats) = some a) :
    (a.peak = d.peak ∨ mem = some a.peak ∨ ∃ cc, stats = some (a.peak, cc)) ∧ (a.cpu = d.cpu ∨ ∃ cm, stats = some (cm, a.cpu)) := by
  simp only [dstep] at h1
  split at h1
  · cases h1
  · cases h1
    simp only
    refine ⟨?_, ?_⟩
    · cases mem with
      | none => exact Or.inl rfl
      | some m =>
        simp only
        unfold memOf
        split
        · rename_i _ _ _ cm cc _
          split
          · rcases Nat.le_total d.peak cm with h | h
            · exact Or.inr (Or.inr ⟨cc, by rw [Nat.max_eq_right h]⟩)
            · exact Or.inl (Nat.max_eq_left h)
          · rcases Nat.le_total d.peak m with h | h
            · exact Or.inr (Or.inl (by rw [Nat.max_eq_right h]))
            · exact Or.inl (Nat.max_eq_left h)
        · rcases Nat.le_total d.peak m with h | h
          · exact Or.inr (Or.inl (by rw [Nat.max_eq_right h]))
          · exact Or.inl (Nat.max_eq_left h)
    · unfold cpuOf
      split
      · rename_i _ _ _ cm cc _
        rcases Nat.le_total d.cpu cc with h | h
        · exact Or.inr ⟨cm, by rw [Nat.max_eq_right h]⟩
        · exact Or.inl (Nat.max_eq_left h)
      · exact Or.inl (Nat.max_eq_left (Nat.zero_le _))

/-! ## A concrete case, and what is not so -/

/-- one container of somebody else is there -/
def others : List Con := [⟨3, 7, false, true⟩]

def ex1 : List DEv := [.create 1 true, .create 8 false, .tick (some 10) true (some (50, 4)), .tick (some 60) true (some (40, 9)), .kill true]

example : DWF (D.init (.named 1) others 4 none) := ⟨by decide, by decide⟩

example : dalong fair (D.init (.named 1) others 4 none) ex1 :=
  ⟨Or.inl rfl, fun _ h => by
    cases h
    exact ⟨Or.inr ⟨1, rfl, by decide⟩, fun _ h => by
      cases h
      exact ⟨trivial, fun _ h => by cases h; exact ⟨trivial, fun _ h => by cases h; exact ⟨trivial, fun _ _ => trivial⟩⟩⟩⟩⟩

example : (drun (D.init (.named 1) others 4 none) ex1).map (fun d => (d.ended, d.cons.map (fun c => (c.id, c.running)), d.peak, d.cpu)) =
    some ([4], [(3, true), (4, false), (5, true)], 60, 9) := by decide

example : Candidate { D.init (.named 1) others 5 none with cons := others ++ [⟨4, 1, true, true⟩] } ⟨4, 1, true, true⟩ :=
  ⟨by decide, rfl, by decide, by intro n hn; cases hn; rfl⟩

/-- **C130** is not so: a kill before the first check leaves the container. -/
theorem C130_violated_early : (drun (D.init (.named 1) others 4 none) [.create 1 true, .kill true]).map (fun d =>
    (d.ended, d.cons.map (fun c => (c.id, c.own, c.running)))) = some ([], [(3, false, true), (4, true, true)]) := by decide

/-- **C130** is not so: with "?", the container of another job that starts one at the same time is ended, and its own goes on. -/
theorem C130_violated_other : (drun (D.init .first others 4 none) [.create 8 false, .tick (some 10) true none, .create 1 true, .kill true]).map
    (fun d => (d.ended, d.cons.map (fun c => (c.id, c.own, c.running)))) =
    some ([4], [(3, false, true), (4, false, false), (5, true, true)]) := by decide

/-- **C130** is not so: with a name, a container that was there before the job, of that name, is taken for the job's. -/
theorem C130_violated_same_name : (drun (D.init (.named 7) others 4 none) [.tick (some 10) true none, .kill true]).map (fun d =>
    (d.ended, d.cons.map (fun c => (c.id, c.own, c.running)))) = some ([3], [(3, false, false)]) := by decide

/-- and the memory of the container doesn't count at a check that can't look at the process -/
theorem C130_violated_memory : (drun (D.init (.named 1) others 4 none) [.create 1 true, .tick none true (some (50, 4))]).map (fun d =>
    (d.known, d.peak, d.cpu)) = some (some 4, 0, 4) := by decide

end Verif.Client.Kill
