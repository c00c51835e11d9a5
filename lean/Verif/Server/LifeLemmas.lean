import Verif.Server.Life

/-! # Lemmas on the life-cycle model -/

namespace Verif.Server

theorem upd_same {α : Type} (f : Nat → α) (i : Nat) (a : α) : upd f i a i = a := by simp [upd]

theorem upd_ne {α : Type} (f : Nat → α) {i j : Nat} (a : α) (h : j ≠ i) : upd f i a j = f j := by
  simp [upd, h]

/-- The job an op is about. -/
def Op.key : Op → Nat
  | .add k _ _ => k
  | .reserve _ k => k
  | .jstart _ k _ => k
  | .jtouch _ k => k
  | .jarchive _ k _ => k
  | .jrelease _ k _ => k
  | .jbury _ k _ => k
  | .jkick k => k
  | .jkill k => k
  | .jdel k => k
  | .ttr k => k
  | .reap k => k
  | .delayed k => k
  | .depUpdate k => k

theorem getij_ok {s : Life} {c k : Nat} {b : Bool} {j : Job} (h : getij s c k b = .ok j) :
    s.jobs k = some j ∧ j.by' = some c ∧ (b = true → j.sub = .run) := by
  unfold getij at h
  split at h
  · cases h
  · split at h
    · cases h
    · split at h
      · cases h
      · injection h with h
        subst h
        rename_i h1 h2 h3
        refine ⟨h1, ?_, ?_⟩
        · exact Classical.not_not.1 h3
        · intro hb; subst hb
          simp at h2
          exact h2

theorem getij_err {s : Life} {c k : Nat} {b : Bool} {r : Resp} (h : getij s c k b = .error r) :
    (r = .badJob ∧ (s.jobs k = none ∨ ∃ j, s.jobs k = some j ∧ b = true ∧ j.sub ≠ .run)) ∨
    (r = .mustReserve ∧ ∃ j, s.jobs k = some j ∧ j.by' ≠ some c) := by
  unfold getij at h
  split at h
  · injection h with h; subst h; exact .inl ⟨rfl, .inl ‹_›⟩
  · split at h
    · injection h with h; subst h
      rename_i j hj h2
      simp at h2
      exact .inl ⟨rfl, .inr ⟨_, hj, h2⟩⟩
    · split at h
      · injection h with h; subst h
        exact .inr ⟨rfl, _, ‹_›, ‹_›⟩
      · cases h

/-- The counts of limited groups after dropping what was held. -/
theorem dropHeld_eq (lim : Nat → Option Nat) (g : Nat) (hg : (lim g).isSome) :
    ∀ (held : List Nat) (cnt : Nat → Nat), dropHeld lim cnt held g = cnt g - held.count g := by
  intro held
  induction held with
  | nil => intro cnt; simp [dropHeld]
  | cons a l ih =>
    intro cnt
    have e : dropHeld lim cnt (a :: l) g = dropHeld lim (dec1 lim cnt a) l g := rfl
    rw [e, ih]
    by_cases h : a = g
    · subst h
      simp only [dec1, hg, if_true, upd_same, List.count_cons_self]
      omega
    · have : dec1 lim cnt a g = cnt g := by
        unfold dec1; split
        · exact upd_ne _ _ (Ne.symm h)
        · rfl
      rw [this, List.count_cons_of_ne h]

/-- The counts of limited groups after an increment. -/
theorem incAll_eq (lim : Nat → Option Nat) (g : Nat) (hg : (lim g).isSome) :
    ∀ (gs : List Nat) (cnt : Nat → Nat), gs.foldl (inc1 lim) cnt g = cnt g + gs.count g := by
  intro gs
  induction gs with
  | nil => intro cnt; simp
  | cons a l ih =>
    intro cnt
    simp only [List.foldl_cons]
    rw [ih]
    by_cases h : a = g
    · subst h
      simp only [inc1, hg, if_true, upd_same, List.count_cons_self]
      omega
    · have : inc1 lim cnt a g = cnt g := by
        unfold inc1; split
        · exact upd_ne _ _ (Ne.symm h)
        · rfl
      rw [this, List.count_cons_of_ne h]

/-- How many slots of group `g` a job holds. -/
def hc (o : Option Job) (g : Nat) : Nat :=
  match o with
  | none => 0
  | some j => j.held.count g

/-- The step changed only job `k`, and the counts by as much as what `k` holds changed. -/
structure Bal (s s' : Life) (k : Nat) : Prop where
  lim : s'.lim = s.lim
  others : ∀ k', k' ≠ k → s'.jobs k' = s.jobs k'
  cnt : ∀ g, (s.lim g).isSome → s'.cnt g + hc (s.jobs k) g = s.cnt g + hc (s'.jobs k) g

/-- A job holds slots only while in the run sub-queue, before it exited, and its own groups. -/
def HoldOk (j : Job) : Prop :=
  (j.held = [] ∨ (j.sub = .run ∧ j.exited = false ∧ j.held = j.groups)) ∧ j.groups.Nodup

/-- The invariant behind C33. -/
structure HInv (s : Life) : Prop where
  ok : ∀ k j, s.jobs k = some j → HoldOk j
  sum : ∃ ks : List Nat, ks.Nodup ∧ (∀ k, s.jobs k ≠ none → k ∈ ks) ∧
    ∀ g, (s.lim g).isSome → s.cnt g = (ks.map fun k => hc (s.jobs k) g).sum

theorem sum_ge {f : Nat → Nat} {ks : List Nat} {k : Nat} (h : k ∈ ks) :
    f k ≤ (ks.map f).sum := by
  induction ks with
  | nil => cases h
  | cons a l ih =>
    simp only [List.map_cons, List.sum_cons]
    rcases List.mem_cons.1 h with h | h
    · subst h; omega
    · have := ih h; omega

theorem HInv.le {s : Life} (h : HInv s) {k g : Nat} (hg : (s.lim g).isSome) :
    hc (s.jobs k) g ≤ s.cnt g := by
  obtain ⟨ks, _, h2, h3⟩ := h.sum
  rw [h3 g hg]
  by_cases hk : s.jobs k = none
  · simp [hk, hc]
  · exact sum_ge (f := fun k => hc (s.jobs k) g) (h2 k hk)

theorem sum_change {f f' : Nat → Nat} {ks : List Nat} (hn : ks.Nodup) {k : Nat}
    (hk : k ∈ ks) (ho : ∀ k', k' ≠ k → f' k' = f k') :
    (ks.map f').sum + f k = (ks.map f).sum + f' k := by
  induction ks with
  | nil => cases hk
  | cons a l ih =>
    simp only [List.map_cons, List.sum_cons]
    rw [List.nodup_cons] at hn
    rcases List.mem_cons.1 hk with h | h
    · subst h
      have : l.map f' = l.map f := by
        apply List.map_congr_left
        intro x hx
        apply ho
        intro e; subst e; exact hn.1 hx
      rw [this]; omega
    · have e := ih hn.2 h
      have hak : a ≠ k := by intro e; subst e; exact hn.1 h
      rw [ho a hak]; omega

theorem HInv.bal {s s' : Life} (h : HInv s) {k : Nat} (b : Bal s s' k)
    (hok : ∀ j, s'.jobs k = some j → HoldOk j) : HInv s' := by
  refine ⟨?_, ?_⟩
  · intro k' j hj
    by_cases e : k' = k
    · subst e; exact hok j hj
    · rw [b.others k' e] at hj; exact h.ok k' j hj
  · obtain ⟨ks, hn, hm, hs⟩ := h.sum
    by_cases hk : k ∈ ks
    · refine ⟨ks, hn, ?_, ?_⟩
      · intro k' hk'
        by_cases e : k' = k
        · subst e; exact hk
        · rw [b.others k' e] at hk'; exact hm k' hk'
      · intro g hg
        rw [b.lim] at hg
        have e1 := hs g hg
        have e2 := b.cnt g hg
        have e3 := sum_change (f := fun k => hc (s.jobs k) g) (f' := fun k => hc (s'.jobs k) g)
          hn hk (fun k' e => by simp only [b.others k' e])
        omega
    · have hnone : s.jobs k = none := by
        by_cases e : s.jobs k = none
        · exact e
        · exact absurd (hm k e) hk
      refine ⟨k :: ks, List.nodup_cons.2 ⟨hk, hn⟩, ?_, ?_⟩
      · intro k' hk'
        by_cases e : k' = k
        · subst e; exact List.mem_cons_self ..
        · rw [b.others k' e] at hk'; exact List.mem_cons_of_mem _ (hm k' hk')
      · intro g hg
        rw [b.lim] at hg
        have e1 := hs g hg
        have e2 := b.cnt g hg
        have e3 : (ks.map fun k => hc (s'.jobs k) g) = (ks.map fun k => hc (s.jobs k) g) := by
          apply List.map_congr_left
          intro x hx
          have : x ≠ k := by intro e; subst e; exact hk hx
          rw [b.others x this]
        simp only [List.map_cons, List.sum_cons, e3]
        have e4 : hc (s.jobs k) g = 0 := by rw [hnone]; rfl
        omega

theorem bal_refl (s : Life) (k : Nat) : Bal s s k := ⟨rfl, fun _ _ => rfl, fun _ _ => rfl⟩

/-- Storing a job that holds what it held. -/
theorem bal_put_same {s : Life} {k : Nat} {j j' : Job} (h : s.jobs k = some j)
    (he : j'.held = j.held) : Bal s (put s k j' s.cnt) k := by
  refine ⟨rfl, fun k' e => upd_ne _ _ e, ?_⟩
  intro g _
  simp only [put, upd_same, h, hc, he]

/-- Storing a job that holds nothing, having dropped what it held. -/
theorem bal_put_drop {s : Life} (hi : HInv s) {k : Nat} {j j' : Job} (h : s.jobs k = some j)
    (he : j'.held = []) : Bal s (put s k j' (dropHeld s.lim s.cnt j.held)) k := by
  refine ⟨rfl, fun k' e => upd_ne _ _ e, ?_⟩
  intro g hg
  have hl := hi.le (k := k) hg
  simp only [put, upd_same, h, hc, he, List.count_nil] at hl ⊢
  rw [dropHeld_eq s.lim g hg]
  omega

theorem afterExit_held {j : Job} (e : Option End) (hj : HoldOk j) : (afterExit j e).held = [] := by
  unfold afterExit
  split
  · rename_i hx
    rcases hj.1 with h | ⟨_, h, _⟩
    · exact h
    · simp [hx] at h
  · split
    · rfl
    · split <;> rfl

theorem afterExit_groups {j : Job} (e : Option End) : (afterExit j e).groups = j.groups := by
  unfold afterExit
  split
  · rfl
  · split
    · rfl
    · split <;> rfl

theorem afterExit_sub {j : Job} (e : Option End) : (afterExit j e).sub = j.sub := by
  unfold afterExit
  split
  · rfl
  · split
    · rfl
    · split <;> rfl

theorem afterExit_started {j : Job} (e : Option End) : (afterExit j e).started = j.started := by
  unfold afterExit
  split
  · rfl
  · split
    · rfl
    · split <;> rfl

theorem afterExit_until {j : Job} (e : Option End) : (afterExit j e).until' = j.until' := by
  unfold afterExit
  split
  · rfl
  · split
    · rfl
    · split <;> rfl

theorem afterExit_retries {j : Job} (e : Option End) : (afterExit j e).retries = j.retries := by
  unfold afterExit
  split
  · rfl
  · split
    · rfl
    · split <;> rfl

theorem afterExit_by {j : Job} (e : Option End) : (afterExit j e).by' = j.by' := by
  unfold afterExit
  split
  · rfl
  · split
    · rfl
    · split <;> rfl

/-- The counts after `updateAfterExit` are those after dropping what was held. -/
theorem afterExitCnt_eq {s : Life} {j : Job} (hj : HoldOk j) :
    afterExitCnt s j = dropHeld s.lim s.cnt j.held := by
  unfold afterExitCnt
  split
  · rename_i hx
    rcases hj.1 with h | ⟨_, h, _⟩
    · rw [h]; rfl
    · simp [hx] at h
  · rfl

theorem HoldOk.of_nil {j : Job} (h : j.held = []) (hn : j.groups.Nodup) : HoldOk j :=
  ⟨.inl h, hn⟩

/-- `endRun` keeps the books, whatever sub-queue the job was put in just before. -/
theorem endRun_bal {s : Life} (hi : HInv s) {k : Nat} {j j1 : Job} (h : s.jobs k = some j)
    (h1 : j1.held = j.held) (h2 : j1.groups = j.groups) (h3 : j1.exited = j.exited)
    (e : Option End) (f : Bool) :
    Bal s (endRun s k j1 e f) k ∧
      (∀ j', (endRun s k j1 e f).jobs k = some j' → HoldOk j') := by
  have hok := hi.ok k j h
  have ha : (afterExit j1 e).held = [] := by
    unfold afterExit
    split
    · rename_i hx
      rw [h3] at hx
      rcases hok.1 with h | ⟨_, h, _⟩
      · rw [h1, h]
      · simp [hx] at h
    · split
      · rfl
      · split <;> rfl
  have hc : afterExitCnt s j1 = dropHeld s.lim s.cnt j.held := by
    unfold afterExitCnt
    rw [h3, h1]
    exact afterExitCnt_eq (s := s) hok
  unfold endRun
  simp only
  rw [hc]
  refine ⟨bal_put_drop hi h (by simpa using ha), ?_⟩
  intro j' hj'
  simp only [put, upd_same, Option.some.injEq] at hj'
  subst hj'
  exact HoldOk.of_nil (by simpa using ha) (by simp only [afterExit_groups, h2]; exact hok.2)

theorem releaseJob_bal {s : Life} (hi : HInv s) {k : Nat} {j j1 : Job} (h : s.jobs k = some j)
    (h1 : j1.held = j.held) (h2 : j1.groups = j.groups) (h3 : j1.exited = j.exited)
    (e : Option End) (f : Bool) :
    Bal s (releaseJob s k j1 e f).1 k ∧
      (∀ j', (releaseJob s k j1 e f).1.jobs k = some j' → HoldOk j') := by
  have triv : Bal s s k ∧ (∀ j', s.jobs k = some j' → HoldOk j') := ⟨bal_refl _ _, hi.ok k⟩
  unfold releaseJob
  split
  · split
    · split
      · exact triv
      · exact endRun_bal hi h h1 h2 h3 e f
    · split
      · exact endRun_bal hi h (j1 := { j1 with sub := .bury }) h1 h2 h3 e f
      · exact triv
  · split
    · split
      · exact triv
      · exact endRun_bal hi h h1 h2 h3 e f
    · split
      · exact endRun_bal hi h (j1 := { j1 with sub := .delay }) h1 h2 h3 e f
      · exact triv

/-- Jobs are added with limit groups that have no duplicates (server.go:1958-1962: they are
sorted and deduplicated first). -/
def OpOk : Op → Prop
  | .add _ _ gs => gs.Nodup
  | .depUpdate _ => False
  | _ => True

theorem lstep_hinv {s : Life} (hi : HInv s) {o : Op} (ho : OpOk o) : HInv (lstep s o).1 := by
  have triv : Bal s s o.key ∧ (∀ j', s.jobs o.key = some j' → HoldOk j') :=
    ⟨bal_refl _ _, hi.ok o.key⟩
  suffices hs : Bal s (lstep s o).1 o.key ∧
      (∀ j', (lstep s o).1.jobs o.key = some j' → HoldOk j') from hi.bal hs.1 hs.2
  have keep : ∀ (k : Nat) (j j' : Job), s.jobs k = some j → j'.held = j.held →
      j'.groups = j.groups → j'.sub = j.sub → j'.exited = j.exited →
      Bal s (put s k j' s.cnt) k ∧ (∀ j'', (put s k j' s.cnt).jobs k = some j'' → HoldOk j'') := by
    intro k j j' hj e1 e2 e3 e4
    refine ⟨bal_put_same hj e1, ?_⟩
    intro j'' hj''
    simp only [put, upd_same, Option.some.injEq] at hj''
    subst hj''
    have := hi.ok k j hj
    unfold HoldOk at this ⊢
    rw [e1, e2, e3, e4]; exact this
  have drop : ∀ (k : Nat) (j j' : Job), s.jobs k = some j → j'.held = [] →
      j'.groups = j.groups → Bal s (put s k j' (dropHeld s.lim s.cnt j.held)) k ∧
        (∀ j'', (put s k j' (dropHeld s.lim s.cnt j.held)).jobs k = some j'' → HoldOk j'') := by
    intro k j j' hj e1 e2
    refine ⟨bal_put_drop hi hj e1, ?_⟩
    intro j'' hj''
    simp only [put, upd_same, Option.some.injEq] at hj''
    subst hj''
    exact HoldOk.of_nil e1 (e2 ▸ (hi.ok k j hj).2)
  cases o with
  | add k r gs =>
    simp only [lstep, add, Op.key] at triv ⊢
    split
    · exact ⟨⟨rfl, fun _ _ => rfl, fun _ _ => rfl⟩, triv.2⟩
    · rename_i hn
      refine ⟨⟨rfl, fun k' e => upd_ne _ _ e, ?_⟩, ?_⟩
      · intro g _; simp [upd_same, hn, hc]
      · intro j' hj'
        simp only [upd_same, Option.some.injEq] at hj'
        subst hj'
        exact HoldOk.of_nil rfl ho
  | reserve c k =>
    simp only [lstep, reserve, Op.key] at triv ⊢
    split
    · exact triv
    · rename_i j hj
      split
      · rename_i hr
        simp only [Bool.and_eq_true, decide_eq_true_eq] at hr
        have hok := hi.ok k j hj
        have hh : j.held = [] := by
          rcases hok.1 with h | ⟨h, _⟩
          · exact h
          · rw [hr.1] at h; cases h
        have hg : (if j.groups.isEmpty then j.held else j.groups) = j.groups := by
          split
          · rename_i he; rw [hh]; simp at he; exact he.symm
          · rfl
        rw [hg]
        refine ⟨⟨rfl, fun k' e => upd_ne _ _ e, ?_⟩, ?_⟩
        · intro g hgl
          simp only [put, upd_same, hj, hc, hh, List.count_nil]
          rw [incAll_eq s.lim g hgl]
          rfl
        · intro j' hj'
          simp only [put, upd_same, Option.some.injEq] at hj'
          subst hj'
          exact ⟨.inr ⟨rfl, rfl, rfl⟩, hok.2⟩
      · exact triv
  | jstart c k v =>
    simp only [lstep, jstart, Op.key] at triv ⊢
    split
    · exact triv
    · rename_i j hj
      split
      · exact keep k j _ (getij_ok hj).1 rfl rfl rfl rfl
      · exact triv
  | jtouch c k =>
    simp only [lstep, jtouch, Op.key] at triv ⊢
    split
    · exact triv
    · rename_i j hj
      split
      · exact triv
      · exact keep k j _ (getij_ok hj).1 rfl rfl rfl rfl
  | jarchive c k e =>
    simp only [lstep, jarchive, Op.key] at triv ⊢
    split
    · exact triv
    · rename_i j hj
      have hj := (getij_ok hj).1
      have hok := hi.ok k j hj
      rw [afterExitCnt_eq hok]
      split
      · exact drop k j _ hj (afterExit_held e hok) (afterExit_groups e)
      · refine ⟨⟨rfl, fun k' e => upd_ne _ _ e, ?_⟩, ?_⟩
        · intro g hg
          have hl := hi.le (k := k) hg
          simp only [upd_same, hj, hc] at hl ⊢
          rw [dropHeld_eq s.lim g hg]
          omega
        · intro j' hj'; simp [upd_same] at hj'
  | jrelease c k e =>
    simp only [lstep, jrelease, Op.key] at triv ⊢
    split
    · exact triv
    · rename_i j hj
      exact releaseJob_bal hi (getij_ok hj).1 rfl rfl rfl e _
  | jbury c k e =>
    simp only [lstep, jbury, Op.key] at triv ⊢
    split
    · exact triv
    · rename_i j hj
      exact releaseJob_bal hi (getij_ok hj).1 rfl rfl rfl e _
  | jkick k =>
    simp only [lstep, jkick, Op.key] at triv ⊢
    split
    · exact triv
    · rename_i j hj
      split
      · rename_i hb
        have hh : j.held = [] := by
          rcases (hi.ok k j hj).1 with h | ⟨h, _⟩
          · exact h
          · rw [hb] at h; cases h
        refine ⟨bal_put_same hj rfl, ?_⟩
        intro j' hj'
        simp only [put, upd_same, Option.some.injEq] at hj'
        subst hj'
        exact HoldOk.of_nil hh (hi.ok k j hj).2
      · exact triv
  | jkill k =>
    simp only [lstep, jkill, Op.key] at triv ⊢
    split
    · exact triv
    · rename_i j hj
      split
      · split
        · exact releaseJob_bal hi hj (j1 := { j with killed := true }) rfl rfl rfl _ _
        · exact keep k j _ hj rfl rfl rfl rfl
      · exact triv
  | jdel k =>
    simp only [lstep, jdel, Op.key] at triv ⊢
    split
    · exact triv
    · rename_i j hj
      split
      · exact triv
      · rename_i hb
        have hh : j.held = [] := by
          rcases (hi.ok k j hj).1 with h | ⟨h, _⟩
          · exact h
          · exact absurd h hb
        refine ⟨⟨rfl, fun k' e => upd_ne _ _ e, ?_⟩, ?_⟩
        · intro g _; simp [upd_same, hj, hc, hh]
        · intro j' hj'; simp [upd_same] at hj'
  | ttr k =>
    simp only [lstep, ttr, Op.key] at triv ⊢
    split
    · exact triv
    · rename_i j hj
      split
      · split
        · exact keep k j _ hj rfl rfl rfl rfl
        · exact drop k j _ hj rfl rfl
      · exact triv
  | reap k =>
    simp only [lstep, reap, Op.key] at triv ⊢
    split
    · exact triv
    · rename_i j hj
      split
      · exact releaseJob_bal hi hj rfl rfl rfl _ _
      · exact triv
  | delayed k =>
    simp only [lstep, delayed, Op.key] at triv ⊢
    split
    · exact triv
    · rename_i j hj
      split
      · rename_i hb
        have hh : j.held = [] := by
          rcases (hi.ok k j hj).1 with h | ⟨h, _⟩
          · exact h
          · rw [hb] at h; cases h
        refine ⟨bal_put_same hj rfl, ?_⟩
        intro j' hj'
        simp only [put, upd_same, Option.some.injEq] at hj'
        subst hj'
        exact HoldOk.of_nil hh (hi.ok k j hj).2
      · exact triv
  | depUpdate k => exact ho.elim

theorem fresh_hinv (lim : Nat → Option Nat) : HInv (fresh lim) :=
  ⟨fun _ _ h => by simp [fresh] at h, [], List.nodup_nil, fun _ h => by simp [fresh] at h,
    fun _ _ => rfl⟩

theorem lrun_hinv {s : Life} (hi : HInv s) : ∀ {os : List Op}, (∀ o ∈ os, OpOk o) →
    HInv (lrun s os) := by
  intro os
  induction os generalizing s with
  | nil => intro _; exact hi
  | cons o os ih =>
    intro h
    exact ih (lstep_hinv hi (h o (List.mem_cons_self ..)))
      (fun o' h' => h o' (List.mem_cons_of_mem _ h'))

end Verif.Server
