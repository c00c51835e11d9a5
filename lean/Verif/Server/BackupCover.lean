import Verif.Server.BackupProps

/-! Lemmas: a change that was reported will get into the backup. -/
namespace Verif.Server.Backup

structure Inv2 (s : St) : Prop extends Inv s where
  cf : s.closed = true → s.backingUp = true → s.final = true
  sh : s.shut = true → s.closed = true ∧ s.backingUp = false ∧ ∀ a ∈ s.threads, closer a = false
  cw : .closeWait ∈ s.threads → s.notified = true ∨ .notify ∈ s.threads ∨ s.backingUp = true

theorem inv2_init (e : Bool) : Inv2 (init e) := by
  refine ⟨inv_init e, ?_, ?_, ?_⟩ <;> simp [init]

/-- A move that changes neither `closed`, nor whether a backup is being made, nor the notifications -/
theorem inv2_plain {s : St} (hs : Inv2 s) {i : Nat} {t t' : Thread} (hi : s.threads[i]? = some t) (s' : St) (hs' : Inv s')
    (hth : s'.threads = s.threads.set i t') (h1 : s'.closed = s.closed) (h2 : s'.backingUp = s.backingUp) (h3 : s'.final = s.final)
    (h4 : s'.shut = s.shut) (h5 : s.notified = true → s'.notified = true)
    (hc : closer t' = true → closer t = true) (hcw : t' = .closeWait → t = .closeWait) (hn : t = .notify → s'.notified = true) :
    Inv2 s' := by
  have hm := List.mem_of_getElem? hi
  refine ⟨hs', ?_, ?_, ?_⟩
  · rw [h1, h2, h3]; exact hs.cf
  · rw [h1, h2, h4, hth]
    intro h
    obtain ⟨a, b, c⟩ := hs.sh h
    refine ⟨a, b, fun x hx => ?_⟩
    rcases mem_set_cases hx with rfl | hx
    · cases hcx : closer x with
      | false => rfl
      | true => have := c t hm; rw [hc hcx] at this; cases this
    · exact c x hx
  · rw [hth, h2]
    intro h
    have h : .closeWait ∈ s.threads := by
      rcases mem_set_cases h with h | h
      · rw [← hcw h.symm]; exact hm
      · exact h
    rcases hs.cw h with h | h | h
    · exact .inl (h5 h)
    · by_cases e : t = .notify
      · exact .inl (hn e)
      · exact .inr (.inl (mem_set_keep hi h (fun e' => e e'.symm)))
    · exact .inr (.inr h)

theorem inv2_move {s s' : St} (hs : Inv2 s) (i : Nat) (ok : Bool) (h : move s i ok = some s') : Inv2 s' := by
  have hinv := inv_move hs.toInv i ok h
  unfold move at h
  split at h
  · rename_i hi
    cases h
    unfold background at hinv ⊢
    split at hinv
    · rename_i h; rw [if_pos h]
      exact inv2_plain hs hi _ hinv rfl rfl rfl rfl rfl id (by simp [closer]) (by simp) (by simp)
    · rename_i hcl; rw [if_neg hcl]
      split at hinv
      · rename_i h; rw [if_pos h]
        exact inv2_plain hs hi _ hinv rfl rfl rfl rfl rfl id (by simp [closer]) (by simp) (by simp)
      · rename_i h; rw [if_neg h]
        have hcl : s.closed = false := by
          cases hc : s.closed with
          | false => rfl
          | true => rw [hc] at hcl; simp at hcl
        refine ⟨hinv, ?_, ?_, ?_⟩
        · intro h; rw [show s.closed = true from h] at hcl; cases hcl
        · intro h; rw [(hs.sh h).1] at hcl; cases hcl
        · intro _; exact .inr (.inr rfl)
  · rename_i hi
    split at h
    · cases h
      exact inv2_plain hs hi _ hinv rfl rfl rfl rfl rfl id (by simp [closer]) (by simp) (by simp)
    · cases h
  · rename_i c hi
    cases h
    exact inv2_plain hs hi _ hinv rfl rfl rfl rfl rfl id (by cases c <;> simp [closer]) (by simp) (by simp)
  · rename_i c t v hi
    split at h
    · cases h
      exact inv2_plain hs hi _ hinv rfl rfl rfl rfl rfl id (by cases c <;> simp [closer]) (by simp) (by simp)
    · cases h
      exact inv2_plain hs hi _ hinv rfl rfl rfl rfl rfl id (by cases c <;> simp [closer]) (by simp) (by simp)
  · rename_i c t hi
    split at h
    · split at h
      · cases h
        exact inv2_plain hs hi _ hinv rfl rfl rfl rfl rfl id (by cases c <;> simp [closer]) (by simp) (by simp)
      · cases h
        exact inv2_plain hs hi _ hinv rfl rfl rfl rfl rfl id (by cases c <;> simp [closer]) (by simp) (by simp)
    · cases h
      exact inv2_plain hs hi _ hinv rfl rfl rfl rfl rfl id (by cases c <;> simp [closer]) (by simp) (by simp)
  · -- finished false
    rename_i t hi
    have hb : s.backingUp = true := by
      cases hb : s.backingUp with
      | true => rfl
      | false => have := hs.w0 hb _ (List.mem_of_getElem? hi); simp [worker] at this
    have hsh : s.shut = false := by
      cases hsh : s.shut with
      | false => rfl
      | true => have := (hs.sh hsh).2.1; rw [hb] at this; cases this
    cases h
    unfold finish at hinv ⊢
    simp only at hinv ⊢
    split at hinv
    · rename_i hf; rw [if_pos hf]
      refine ⟨hinv, fun _ h => (by cases h), fun h => ?_, fun h => ?_⟩
      · rw [show s.shut = true from h] at hsh; cases hsh
      · exact .inr (.inl (mem_set_self hi))
    · rename_i hf; rw [if_neg hf]
      have nocw : .closeWait ∉ s.threads := by
        intro h
        cases hc : s.closed with
        | true => exact hf (hs.cf hc hb)
        | false => have := hs.c0 hc _ h; simp [closer] at this
      split at hinv
      · rename_i hq; rw [if_pos hq]
        refine ⟨hinv, fun _ h => (by cases h), fun h => ?_, fun h => ?_⟩
        · rw [show s.shut = true from h] at hsh; cases hsh
        · rcases mem_set_cases h with h | h
          · cases h
          · exact absurd h nocw
      · rename_i hq; rw [if_neg hq]
        refine ⟨hinv, fun _ h => (by cases h), fun h => ?_, fun h => ?_⟩
        · rw [show s.shut = true from h] at hsh; cases hsh
        · rcases mem_set_cases h with h | h
          · cases h
          · exact absurd h nocw
  · -- finished true
    rename_i t hi
    cases h
    have hd := hs.cd _ (List.mem_of_getElem? hi) rfl (by simp)
    have hun : ∀ a ∈ s.threads.set i .done, closer a = false := by
      intro a ha
      rcases mem_set_other ha with rfl | ⟨j, hj, h⟩
      · rfl
      · cases hca : closer a with
        | false => rfl
        | true => exact absurd (hs.c1 j i a _ h hi hca rfl) hj
    refine ⟨hinv, hs.cf, fun _ => ⟨hd.2, hd.1, hun⟩, fun h => ?_⟩
    have := hun _ h
    simp [closer] at this
  · -- notify
    rename_i hi
    cases h
    exact inv2_plain hs hi _ hinv rfl rfl rfl rfl rfl (fun _ => rfl) (by simp [closer]) (by simp) (fun _ => rfl)
  · -- closeWait
    rename_i hi
    split at h
    · cases h
      exact inv2_plain hs hi _ hinv rfl rfl rfl rfl rfl id (by simp [closer]) (by simp) (by simp)
    · cases h
  · -- closeDrain
    rename_i hi
    have hd := hs.cd _ (List.mem_of_getElem? hi) rfl (by simp)
    split at h
    · cases h
      exact inv2_plain hs hi _ hinv rfl rfl rfl rfl rfl id (by simp [closer]) (by simp) (by simp)
    · cases h
      have hun : ∀ a ∈ s.threads.set i .done, closer a = false := by
        intro a ha
        rcases mem_set_other ha with rfl | ⟨j, hj, h⟩
        · rfl
        · cases hca : closer a with
          | false => rfl
          | true => exact absurd (hs.c1 j i a _ h hi hca rfl) hj
      refine ⟨hinv, hs.cf, fun _ => ⟨hd.2, hd.1, hun⟩, fun h => ?_⟩
      have := hun _ h
      simp [closer] at this
  · cases h
  · cases h

theorem inv2_step {s : St} (hs : Inv2 s) (e : Ev) : Inv2 (step s e) := by
  have hinv := inv_step hs.toInv e
  cases e with
  | commit asks =>
    simp only [step] at hinv ⊢
    split
    · exact hs
    · rename_i hsh
      rw [if_neg hsh] at hinv
      refine ⟨hinv, hs.cf, fun h => absurd h hsh, fun h => ?_⟩
      cases asks with
      | true =>
        have h : .closeWait ∈ s.threads := by
          rcases List.mem_append.1 h with h | h
          · exact h
          · simp at h
        rcases hs.cw h with h | h | h
        · exact .inl h
        · exact .inr (.inl (List.mem_append_left _ h))
        · exact .inr (.inr h)
      | false => exact hs.cw h
  | move i ok =>
    simp only [step]
    cases h : move s i ok with
    | none => exact hs
    | some s' => exact inv2_move hs i ok h
  | close =>
    simp only [step, close] at hinv ⊢
    split
    · exact hs
    · rename_i hc
      rw [if_neg hc] at hinv
      split
      · rename_i hb
        rw [if_pos hb] at hinv
        refine ⟨hinv, fun _ _ => rfl, fun h => absurd (hs.sh h).1 hc, fun _ => .inr (.inr hb)⟩
      · rename_i hb
        rw [if_neg hb] at hinv
        refine ⟨hinv, fun _ h => absurd h hb, fun h => absurd (hs.sh h).1 hc, fun h => ?_⟩
        have h : .closeWait ∈ s.threads := by
          rcases List.mem_append.1 h with h | h
          · exact h
          · simp at h
        have := hs.c0 (by simpa using hc) _ h
        simp [closer] at this
  | tick d => exact ⟨hinv, hs.cf, hs.sh, hs.cw⟩
  | restart =>
    refine ⟨hinv, ?_, ?_, ?_⟩ <;> simp [step]

theorem inv2_run {s : St} (hs : Inv2 s) (evs : List Ev) : Inv2 (run s evs) := by
  induction evs generalizing s with
  | nil => exact hs
  | cons e evs ih => exact ih (inv2_step hs e)

/-- Version `n` is in the backup, or it will be. -/
inductive Cov (n : Nat) (s : St) : Prop
  | file (h : Newer s.file n)
  | call (h : .call ∈ s.threads) (hc : s.closed = false)
  | wait (u : Nat) (h : .wait u ∈ s.threads)
  | start (c : Bool) (h : .start c ∈ s.threads)
  | copying (c : Bool) (t v : Nat) (h : .copying c t v ∈ s.threads) (hv : n ≤ v)
  | copied (c : Bool) (t v : Nat) (h : .copied c t ∈ s.threads) (ht : s.tmp = some (.full v)) (hv : n ≤ v)
  | queued (h : s.queued = true) (hb : s.backingUp = true) (hc : s.closed = false)
  | closing (h : s.queued = true) (a : Thread) (ha : a ∈ s.threads) (hca : a = .closeWait ∨ a = .closeDrain)

/-- a thread that writes to the files keeps the others from it -/
theorem tmp_move {s s' : St} (hs : Inv s) (i j : Nat) (ok : Bool) (h : move s i ok = some s') (hj : j ≠ i) (c : Bool) (t : Nat)
    (hm : s.threads[j]? = some (.copied c t)) : s'.tmp = s.tmp := by
  have key : ∀ a, s.threads[i]? = some a → ¬ (worker a = true ∨ (closer a = true ∧ a ≠ .closeWait)) :=
    fun a ha => alone hs hm ha (fun e => hj e.symm) (by cases c <;> simp [worker, closer])
  unfold move at h
  split at h
  · cases h
    unfold background
    split
    · rfl
    · split <;> rfl
  · rename_i hi; exact absurd (by simp [worker]) (key _ hi)
  · rename_i c hi; exact absurd (by cases c <;> simp [worker, closer]) (key _ hi)
  · rename_i c _ _ hi; exact absurd (by cases c <;> simp [worker, closer]) (key _ hi)
  · rename_i c _ hi; exact absurd (by cases c <;> simp [worker, closer]) (key _ hi)
  · rename_i hi; exact absurd (by simp [worker]) (key _ hi)
  · rename_i hi; exact absurd (by simp [closer]) (key _ hi)
  · cases h; rfl
  · split at h
    · cases h; rfl
    · cases h
  · rename_i hi; exact absurd (by simp [closer]) (key _ hi)
  · cases h
  · cases h

theorem threads_move {s s' : St} {i : Nat} {ok : Bool} (h : move s i ok = some s') :
    ∃ t t', s.threads[i]? = some t ∧ s'.threads = s.threads.set i t' := by
  unfold move at h
  split at h
  · rename_i hi
    cases h
    unfold background
    split
    · exact ⟨_, _, hi, rfl⟩
    · split <;> exact ⟨_, _, hi, rfl⟩
  · rename_i hi
    split at h
    · cases h; exact ⟨_, _, hi, rfl⟩
    · cases h
  · rename_i hi; cases h; exact ⟨_, _, hi, rfl⟩
  · rename_i hi; split at h <;> (cases h; exact ⟨_, _, hi, rfl⟩)
  · rename_i hi
    split at h
    · split at h <;> (cases h; exact ⟨_, _, hi, rfl⟩)
    · cases h; exact ⟨_, _, hi, rfl⟩
  · rename_i hi
    cases h
    unfold finish
    simp only
    split
    · exact ⟨_, _, hi, rfl⟩
    · split <;> exact ⟨_, _, hi, rfl⟩
  · rename_i hi; cases h; exact ⟨_, _, hi, rfl⟩
  · rename_i hi; cases h; exact ⟨_, _, hi, rfl⟩
  · rename_i hi
    split at h
    · cases h; exact ⟨_, _, hi, rfl⟩
    · cases h
  · rename_i hi; split at h <;> (cases h; exact ⟨_, _, hi, rfl⟩)
  · cases h
  · cases h

theorem closed_move {s s' : St} {i : Nat} {ok : Bool} (h : move s i ok = some s') :
    s'.closed = s.closed ∧ s'.enabled = s.enabled ∧ s'.ver = s.ver := by
  unfold move at h
  split at h
  · cases h
    unfold background
    split
    · exact ⟨rfl, rfl, rfl⟩
    · split <;> exact ⟨rfl, rfl, rfl⟩
  · split at h
    · cases h; exact ⟨rfl, rfl, rfl⟩
    · cases h
  · cases h; exact ⟨rfl, rfl, rfl⟩
  · split at h <;> (cases h; exact ⟨rfl, rfl, rfl⟩)
  · split at h
    · split at h <;> (cases h; exact ⟨rfl, rfl, rfl⟩)
    · cases h; exact ⟨rfl, rfl, rfl⟩
  · cases h
    unfold finish
    simp only
    split
    · exact ⟨rfl, rfl, rfl⟩
    · split <;> exact ⟨rfl, rfl, rfl⟩
  · cases h; exact ⟨rfl, rfl, rfl⟩
  · cases h; exact ⟨rfl, rfl, rfl⟩
  · split at h
    · cases h; exact ⟨rfl, rfl, rfl⟩
    · cases h
  · split at h <;> (cases h; exact ⟨rfl, rfl, rfl⟩)
  · cases h
  · cases h

/-- what the queue of one backup becomes -/
theorem queued_move {s s' : St} (hs : Inv2 s) {i : Nat} {ok : Bool} (h : move s i ok = some s') (hq : s.queued = true)
    (hb : s.backingUp = true) (hc : s.closed = false) :
    (s'.queued = true ∧ s'.backingUp = true) ∨ .call ∈ s'.threads := by
  have hf : s.final = false := by
    cases hf : s.final with
    | false => rfl
    | true => rw [hs.fin hf] at hc; cases hc
  unfold move at h
  split at h
  · cases h
    unfold background
    split
    · exact .inl ⟨hq, hb⟩
    · exact .inl ⟨rfl, hb⟩
  · split at h
    · cases h; exact .inl ⟨hq, hb⟩
    · cases h
  · cases h; exact .inl ⟨hq, hb⟩
  · split at h <;> (cases h; exact .inl ⟨hq, hb⟩)
  · split at h
    · split at h <;> (cases h; exact .inl ⟨hq, hb⟩)
    · cases h; exact .inl ⟨hq, hb⟩
  · rename_i hi
    cases h
    unfold finish
    simp only [hf, hq]
    exact .inr (mem_set_self hi)
  · cases h; exact .inl ⟨hq, hb⟩
  · cases h; exact .inl ⟨hq, hb⟩
  · split at h
    · cases h; exact .inl ⟨hq, hb⟩
    · cases h
  · rename_i hi
    have := (hs.cd _ (List.mem_of_getElem? hi) rfl (by simp)).2
    rw [this] at hc; cases hc
  · cases h
  · cases h

/-- and when the database is being closed -/
theorem queued_move_closed {s s' : St} (hs : Inv2 s) {i : Nat} {ok : Bool} (h : move s i ok = some s') (hq : s.queued = true)
    (hc : s.closed = true) (he : s.enabled = true) (a : Thread) (ha : a ∈ s.threads) (hca : a = .closeWait ∨ a = .closeDrain) :
    .start true ∈ s'.threads ∨ (s'.queued = true ∧ ∃ a ∈ s'.threads, a = .closeWait ∨ a = .closeDrain) := by
  have keep : ∀ (l : List Thread) (t t' : Thread), s.threads[i]? = some t → l = s.threads.set i t' → t ≠ a →
      ∃ a ∈ l, a = .closeWait ∨ a = .closeDrain := by
    intro l t t' hi hl hn
    exact ⟨a, by rw [hl]; exact mem_set_keep hi ha (fun e => hn e.symm), hca⟩
  have hcla : closer a = true := by rcases hca with rfl | rfl <;> rfl
  unfold move at h
  split at h
  · rename_i hi
    cases h
    unfold background
    rw [if_pos (by rw [hc]; rfl)]
    exact .inr ⟨hq, keep _ _ _ hi rfl (by rintro rfl; simp at hca)⟩
  · rename_i hi
    split at h
    · cases h; exact .inr ⟨hq, keep _ _ _ hi rfl (by rintro rfl; simp at hca)⟩
    · cases h
  · rename_i hi
    cases h; exact .inr ⟨hq, keep _ _ _ hi rfl (by rintro rfl; simp at hca)⟩
  · rename_i hi
    split at h <;> (cases h; exact .inr ⟨hq, keep _ _ _ hi rfl (by rintro rfl; simp at hca)⟩)
  · rename_i hi
    split at h
    · split at h <;> (cases h; exact .inr ⟨hq, keep _ _ _ hi rfl (by rintro rfl; simp at hca)⟩)
    · cases h; exact .inr ⟨hq, keep _ _ _ hi rfl (by rintro rfl; simp at hca)⟩
  · rename_i hi
    cases h
    have hb : s.backingUp = true := by
      cases hb : s.backingUp with
      | true => rfl
      | false => have := hs.w0 hb _ (List.mem_of_getElem? hi); simp [worker] at this
    unfold finish
    simp only [hs.cf hc hb, if_true]
    exact .inr ⟨hq, keep _ _ _ hi rfl (by rintro rfl; simp at hca)⟩
  · rename_i hi
    cases h; exact .inr ⟨hq, keep _ _ _ hi rfl (by rintro rfl; simp at hca)⟩
  · rename_i hi
    cases h; exact .inr ⟨hq, keep _ _ _ hi rfl (by rintro rfl; simp at hca)⟩
  · rename_i hi
    split at h
    · cases h; exact .inr ⟨hq, .closeDrain, mem_set_self hi, .inr rfl⟩
    · cases h
  · rename_i hi
    rw [he, hq] at h
    cases h
    exact .inl (mem_set_self hi)
  · cases h
  · cases h

/-- A move without failures keeps a version covered. -/
theorem cov_move {s s' : St} (hs : Inv2 s) (n : Nat) (hv : n ≤ s.ver) (he : s.enabled = true) (hc : Cov n s) (i : Nat)
    (h : move s i true = some s') : Cov n s' := by
  obtain ⟨t0, t', hi0, hth⟩ := threads_move h
  have keep : ∀ a, a ∈ s.threads → a ≠ t0 → a ∈ s'.threads := fun a ha hn => by rw [hth]; exact mem_set_keep hi0 ha hn
  cases hc with
  | file hf =>
    have := newer_step hs.toInv (.move i true) n hf
    simp only [step, h] at this
    exact .file this
  | call hm hcl =>
    by_cases e : (.call : Thread) = t0
    · subst e
      simp only [move, hi0] at h
      cases h
      unfold background
      rw [if_neg (by rw [hcl, he]; simp)]
      split
      · rename_i hb; exact .queued rfl hb hcl
      · exact .wait _ (mem_set_self hi0)
    · exact .call (keep _ hm e) (by rw [(closed_move h).1]; exact hcl)
  | wait u hm =>
    by_cases e : (.wait u : Thread) = t0
    · subst e
      simp only [move, hi0] at h
      split at h
      · cases h; exact .start false (mem_set_self hi0)
      · cases h
    · exact .wait u (keep _ hm e)
  | start c hm =>
    by_cases e : (.start c : Thread) = t0
    · subst e
      simp only [move, hi0] at h
      cases h; exact .copying c s.now s.ver (mem_set_self hi0) hv
    · exact .start c (keep _ hm e)
  | copying c t v hm hv' =>
    by_cases e : (.copying c t v : Thread) = t0
    · subst e
      simp only [move, hi0] at h
      cases h; exact .copied c t v (mem_set_self hi0) rfl hv'
    · exact .copying c t v (keep _ hm e) hv'
  | copied c t v hm ht hv' =>
    obtain ⟨j, hj⟩ := List.mem_iff_getElem?.1 hm
    by_cases e : j = i
    · subst e
      simp only [move, hj, ht] at h
      cases h; exact .file ⟨v, rfl, hv'⟩
    · refine .copied c t v ?_ (by rw [tmp_move hs.toInv i j true h e c t hj]; exact ht) hv'
      rw [hth]
      exact List.mem_iff_getElem?.2 ⟨j, by rw [List.getElem?_set, if_neg (fun x => e x.symm)]; exact hj⟩
  | queued hq hb hcl =>
    rcases queued_move hs h hq hb hcl with ⟨h1, h2⟩ | h1
    · exact .queued h1 h2 (by rw [(closed_move h).1]; exact hcl)
    · exact .call h1 (by rw [(closed_move h).1]; exact hcl)
  | closing hq a ha hca =>
    have hcl : s.closed = true := by
      cases hcl : s.closed with
      | true => rfl
      | false => have := hs.c0 hcl a ha; rcases hca with rfl | rfl <;> simp [closer] at this
    rcases queued_move_closed hs h hq hcl he a ha hca with h1 | ⟨h1, b, hb, hcb⟩
    · exact .start true h1
    · exact .closing h1 b hb hcb

/-- So do all events of a quiet history. -/
theorem cov_step {s : St} (hs : Inv2 s) (n : Nat) (hv : n ≤ s.ver) (he : s.enabled = true) (hc : Cov n s) (e : Ev) (hq : Quiet e) :
    Cov n (step s e) := by
  cases e with
  | commit asks =>
    simp only [step]
    split
    · exact hc
    · have keep : ∀ a, a ∈ s.threads → a ∈ (if asks = true then s.threads ++ [.call] else s.threads) := by
        intro a ha
        split
        · exact List.mem_append_left _ ha
        · exact ha
      cases hc with
      | file h => exact .file h
      | call h hc => exact .call (keep _ h) hc
      | wait u h => exact .wait u (keep _ h)
      | start c h => exact .start c (keep _ h)
      | copying c t v h hv => exact .copying c t v (keep _ h) hv
      | copied c t v h ht hv => exact .copied c t v (keep _ h) ht hv
      | queued h hb hc => exact .queued h hb hc
      | closing h a ha hca => exact .closing h a (keep _ ha) hca
  | move i ok =>
    cases ok with
    | false => exact absurd hq id
    | true =>
      simp only [step]
      cases h : move s i true with
      | none => exact hc
      | some s' => exact cov_move hs n hv he hc i h
  | tick d =>
    cases hc with
    | file h => exact .file h
    | call h hc => exact .call h hc
    | wait u h => exact .wait u h
    | start c h => exact .start c h
    | copying c t v h hv => exact .copying c t v h hv
    | copied c t v h ht hv => exact .copied c t v h ht hv
    | queued h hb hc => exact .queued h hb hc
    | closing h a ha hca => exact .closing h a ha hca
  | close => exact absurd hq id
  | restart => exact absurd hq id

theorem ver_step (s : St) (e : Ev) : s.ver ≤ (step s e).ver ∧ (step s e).enabled = s.enabled := by
  cases e with
  | commit asks => simp only [step]; split <;> simp
  | move i ok =>
    simp only [step]
    cases h : move s i ok with
    | none => exact ⟨Nat.le_refl _, rfl⟩
    | some s' => have := closed_move h; exact ⟨Nat.le_of_eq this.2.2.symm, this.2.1⟩
  | close => simp only [step, close]; split <;> (try split) <;> exact ⟨Nat.le_refl _, rfl⟩
  | tick d => exact ⟨Nat.le_refl _, rfl⟩
  | restart => exact ⟨Nat.le_refl _, rfl⟩

theorem ver_run (evs : List Ev) : ∀ s, s.ver ≤ (run s evs).ver ∧ (run s evs).enabled = s.enabled := by
  induction evs with
  | nil => intro s; exact ⟨Nat.le_refl _, rfl⟩
  | cons e evs ih =>
    intro s
    have h1 := ver_step s e
    have h2 := ih (step s e)
    exact ⟨Nat.le_trans h1.1 h2.1, by rw [← h1.2]; exact h2.2⟩

theorem cov_run (n : Nat) (evs : List Ev) (hq : ∀ e ∈ evs, Quiet e) : ∀ s, Inv2 s → n ≤ s.ver → s.enabled = true → Cov n s → Cov n (run s evs) := by
  induction evs with
  | nil => intro s _ _ _ h; exact h
  | cons e evs ih =>
    intro s hs hv he hc
    refine ih (fun e he => hq e (List.mem_cons_of_mem _ he)) (step s e) (inv2_step hs e) (Nat.le_trans hv (ver_step s e).1) ?_
      (cov_step hs n hv he hc e (hq e (by simp)))
    rw [(ver_step s e).2]; exact he

/-- a version that is covered stays covered when the database is closed, if nobody is about to ask for a backup -/
theorem cov_close {s : St} (n : Nat) (hcl : s.closed = false) (hc : Cov n s) (hn : .call ∉ s.threads) : Cov n (close s) := by
  unfold close
  rw [if_neg (by rw [hcl]; simp)]
  split
  · cases hc with
    | file h => exact .file h
    | call h _ => exact absurd h hn
    | wait u h => exact .wait u (List.mem_append_left _ h)
    | start c h => exact .start c (List.mem_append_left _ h)
    | copying c t v h hv => exact .copying c t v (List.mem_append_left _ h) hv
    | copied c t v h ht hv => exact .copied c t v (List.mem_append_left _ h) ht hv
    | queued h hb hc => exact .closing h .closeWait (by simp) (.inl rfl)
    | closing h a ha hca => exact .closing h a (List.mem_append_left _ ha) hca
  · rename_i hb
    cases hc with
    | file h => exact .file h
    | call h _ => exact absurd h hn
    | wait u h => exact .wait u (List.mem_append_left _ h)
    | start c h => exact .start c (List.mem_append_left _ h)
    | copying c t v h hv => exact .copying c t v (List.mem_append_left _ h) hv
    | copied c t v h ht hv => exact .copied c t v (List.mem_append_left _ h) ht hv
    | queued h hb' hc => exact absurd hb' hb
    | closing h a ha hca => exact .closing h a (List.mem_append_left _ ha) hca

/-- Backups are off: nothing is ever written. -/
theorem off_step {s : St} (he : s.enabled = false) (hf : s.file = none ∧ s.tmp = none) (hb : s.backingUp = false) (hn : s.notified = false)
    (ht : ∀ t ∈ s.threads, t = .call ∨ t = .closeDrain ∨ t = .done) (e : Ev) :
    ((step s e).file = none ∧ (step s e).tmp = none) ∧ (step s e).backingUp = false ∧ (step s e).notified = false ∧
      ∀ t ∈ (step s e).threads, t = .call ∨ t = .closeDrain ∨ t = .done := by
  cases e with
  | commit asks =>
    simp only [step]
    split
    · exact ⟨hf, hb, hn, ht⟩
    · refine ⟨hf, hb, hn, ?_⟩
      intro t h
      cases asks with
      | false => exact ht t h
      | true =>
        rcases List.mem_append.1 h with h | h
        · exact ht t h
        · exact .inl (by simpa using h)
  | move i ok =>
    simp only [step]
    have setd : ∀ t ∈ s.threads.set i .done, t = .call ∨ t = .closeDrain ∨ t = .done := by
      intro t h
      rcases mem_set_cases h with h | h
      · exact .inr (.inr h)
      · exact ht t h
    cases h : move s i ok with
    | none => exact ⟨hf, hb, hn, ht⟩
    | some s' =>
      obtain ⟨t, _, hi, _⟩ := threads_move h
      simp only [Option.getD_some]
      rcases ht t (List.mem_of_getElem? hi) with rfl | rfl | rfl
      · simp only [move, hi] at h
        cases h
        unfold background
        rw [if_pos (by rw [he]; simp)]
        exact ⟨hf, hb, hn, setd⟩
      · simp only [move, hi, he] at h
        cases h
        exact ⟨hf, hb, hn, setd⟩
      · simp [move, hi] at h
  | close =>
    simp only [step, close]
    split
    · exact ⟨hf, hb, hn, ht⟩
    · rw [if_neg (by rw [hb]; simp)]
      refine ⟨hf, hb, hn, ?_⟩
      intro t h
      rcases List.mem_append.1 h with h | h
      · exact ht t h
      · exact .inr (.inl (by simpa using h))
  | tick d => exact ⟨hf, hb, hn, ht⟩
  | restart => exact ⟨hf, rfl, rfl, by simp [step]⟩

theorem off_run (evs : List Ev) : ∀ (s : St), s.enabled = false → s.file = none ∧ s.tmp = none → s.backingUp = false → s.notified = false →
    (∀ t ∈ s.threads, t = .call ∨ t = .closeDrain ∨ t = .done) → (run s evs).file = none ∧ (run s evs).tmp = none := by
  induction evs with
  | nil => intro s _ h _ _ _; exact h
  | cons e evs ih =>
    intro s he hf hb hn ht
    obtain ⟨h1, h2, h3, h4⟩ := off_step he hf hb hn ht e
    exact ih (step s e) (by rw [(ver_step s e).2]; exact he) h1 h2 h3 h4

/-- Nobody starts before time `T`. -/
structure Gap (T : Nat) (s : St) : Prop where
  last : ∃ l, s.last = some l ∧ T ≤ l + s.waitT ∧ l ≤ s.now
  wait : ∀ u, .wait u ∈ s.threads → T ≤ u
  later : ∀ t ∈ s.threads, worker t = true → (∀ u, t ≠ .wait u) → T ≤ s.now
  stop : s.stopWait = false
  closed : s.closed = false
  noclose : ∀ t ∈ s.threads, closer t = false

theorem gap_move {s s' : St} (hs : Inv2 s) (T : Nat) (hg : Gap T s) (i : Nat) (ok : Bool) (h : move s i ok = some s') : Gap T s' := by
  obtain ⟨l, hl, hT, hln⟩ := hg.last
  have hf : s.final = false := by
    cases hf : s.final with
    | false => rfl
    | true => have := hs.fin hf; rw [hg.closed] at this; cases this
  have later : ∀ t t' , s.threads[i]? = some t → worker t = true → (∀ u, t ≠ .wait u) → worker t' = true → (∀ u, t' ≠ .wait u) →
      closer t' = false → (∀ u, Thread.wait u ∈ s.threads.set i t' → T ≤ u) ∧
      (∀ a ∈ s.threads.set i t', worker a = true → (∀ u, a ≠ .wait u) → T ≤ s.now) ∧ ∀ a ∈ s.threads.set i t', closer a = false := by
    intro t t' hi hw hnw _ hnw' hc'
    have hT := hg.later t (List.mem_of_getElem? hi) hw hnw
    refine ⟨fun u hu => ?_, fun _ _ _ _ => hT, fun a ha => ?_⟩
    · rcases mem_set_cases hu with h | h
      · exact absurd h.symm (hnw' u)
      · exact hg.wait u h
    · rcases mem_set_cases ha with h | h
      · rw [h]; exact hc'
      · exact hg.noclose a h
  have gone : ∀ t', worker t' = false → closer t' = false → (∀ u, Thread.wait u ∈ s.threads.set i t' → T ≤ u) ∧
      (∀ a ∈ s.threads.set i t', worker a = true → (∀ u, a ≠ .wait u) → T ≤ s.now) ∧ ∀ a ∈ s.threads.set i t', closer a = false := by
    intro t' hw' hc'
    refine ⟨fun u hu => ?_, fun a ha hwa hna => ?_, fun a ha => ?_⟩
    · rcases mem_set_cases hu with h | h
      · rw [← h] at hw'; simp [worker] at hw'
      · exact hg.wait u h
    · rcases mem_set_cases ha with h | h
      · rw [h, hw'] at hwa; cases hwa
      · exact hg.later a h hwa hna
    · rcases mem_set_cases ha with h | h
      · rw [h]; exact hc'
      · exact hg.noclose a h
  unfold move at h
  split at h
  · rename_i hi
    cases h
    unfold background
    obtain ⟨g1, g2, g3⟩ := gone .done rfl rfl
    split
    · exact ⟨⟨l, hl, hT, hln⟩, g1, g2, hg.stop, hg.closed, g3⟩
    · split
      · exact ⟨⟨l, hl, hT, hln⟩, g1, g2, hg.stop, hg.closed, g3⟩
      · rename_i hb
        rw [hl]
        refine ⟨⟨l, rfl, hT, hln⟩, fun u hu => ?_, fun a ha hwa hna => ?_, hg.stop, hg.closed, fun a ha => ?_⟩
        · rcases mem_set_cases hu with h | h
          · cases h; exact hT
          · exact hg.wait u h
        · rcases mem_set_cases ha with h | h
          · exact absurd h (hna _)
          · exact hg.later a h hwa hna
        · rcases mem_set_cases ha with h | h
          · rw [h]; rfl
          · exact hg.noclose a h
  · rename_i u hi
    split at h
    · rename_i hu
      cases h
      have hu : u ≤ s.now := by rw [hg.stop] at hu; simpa using hu
      have hTu := hg.wait u (List.mem_of_getElem? hi)
      refine ⟨⟨l, hl, hT, hln⟩, fun u hu => ?_, fun _ _ _ _ => Nat.le_trans hTu hu, hg.stop, hg.closed, fun a ha => ?_⟩
      · rcases mem_set_cases hu with h | h
        · cases h
        · exact hg.wait u h
      · rcases mem_set_cases ha with h | h
        · rw [h]; rfl
        · exact hg.noclose a h
    · cases h
  · rename_i c hi
    cases h
    cases c with
    | true => have := hg.noclose _ (List.mem_of_getElem? hi); simp [closer] at this
    | false =>
      obtain ⟨g1, g2, g3⟩ := later _ (.copying false s.now s.ver) hi rfl (by simp) rfl (by simp) rfl
      exact ⟨⟨l, hl, hT, hln⟩, g1, g2, hg.stop, hg.closed, g3⟩
  · rename_i c t v hi
    cases c with
    | true => have := hg.noclose _ (List.mem_of_getElem? hi); simp [closer] at this
    | false =>
      split at h
      · cases h
        obtain ⟨g1, g2, g3⟩ := later _ (.copied false t) hi rfl (by simp) rfl (by simp) rfl
        exact ⟨⟨l, hl, hT, hln⟩, g1, g2, hg.stop, hg.closed, g3⟩
      · cases h
        obtain ⟨g1, g2, g3⟩ := later _ (.finished false t) hi rfl (by simp) rfl (by simp) rfl
        exact ⟨⟨l, hl, hT, hln⟩, g1, g2, hg.stop, hg.closed, g3⟩
  · rename_i c t hi
    cases c with
    | true => have := hg.noclose _ (List.mem_of_getElem? hi); simp [closer] at this
    | false =>
      obtain ⟨g1, g2, g3⟩ := later _ (.finished false t) hi rfl (by simp) rfl (by simp) rfl
      split at h
      · split at h <;> (cases h; exact ⟨⟨l, hl, hT, hln⟩, g1, g2, hg.stop, hg.closed, g3⟩)
      · cases h; exact ⟨⟨l, hl, hT, hln⟩, g1, g2, hg.stop, hg.closed, g3⟩
  · rename_i t hi
    cases h
    have hTn := hg.later _ (List.mem_of_getElem? hi) rfl (by simp)
    unfold finish
    simp only [hf]
    obtain ⟨g1, g2, g3⟩ := gone .done rfl rfl
    obtain ⟨k1, k2, k3⟩ := gone .call rfl rfl
    split
    · rename_i h; cases h
    · split
      · exact ⟨⟨s.now, rfl, Nat.le_trans hTn (Nat.le_add_right _ _), Nat.le_refl _⟩, k1, k2, hg.stop, hg.closed, k3⟩
      · exact ⟨⟨s.now, rfl, Nat.le_trans hTn (Nat.le_add_right _ _), Nat.le_refl _⟩, g1, g2, hg.stop, hg.closed, g3⟩
  · rename_i hi; have := hg.noclose _ (List.mem_of_getElem? hi); simp [closer] at this
  · rename_i hi
    cases h
    obtain ⟨g1, g2, g3⟩ := gone .done rfl rfl
    exact ⟨⟨l, hl, hT, hln⟩, g1, g2, hg.stop, hg.closed, g3⟩
  · rename_i hi; have := hg.noclose _ (List.mem_of_getElem? hi); simp [closer] at this
  · rename_i hi; have := hg.noclose _ (List.mem_of_getElem? hi); simp [closer] at this
  · cases h
  · cases h

theorem gap_run (T : Nat) (evs : List Ev) (hq : ∀ e ∈ evs, e ≠ .close ∧ e ≠ .restart) : ∀ s, Inv2 s → Gap T s → Gap T (run s evs) := by
  induction evs with
  | nil => intro s _ h; exact h
  | cons e evs ih =>
    intro s hs hg
    refine ih (fun e he => hq e (List.mem_cons_of_mem _ he)) (step s e) (inv2_step hs e) ?_
    have hq := hq e (by simp)
    cases e with
    | commit asks =>
      simp only [step]
      split
      · exact hg
      · cases asks with
        | false => exact ⟨hg.last, hg.wait, hg.later, hg.stop, hg.closed, hg.noclose⟩
        | true =>
          have other : ∀ a, a ∈ s.threads ++ [.call] → a = .call ∨ a ∈ s.threads := by
            intro a ha
            rcases List.mem_append.1 ha with h | h
            · exact .inr h
            · exact .inl (by simpa using h)
          refine ⟨hg.last, fun u hu => ?_, fun t ht hw hn => ?_, hg.stop, hg.closed, fun t ht => ?_⟩
          · rcases other _ hu with h | h
            · cases h
            · exact hg.wait u h
          · rcases other _ ht with h | h
            · subst h; simp [worker] at hw
            · exact hg.later t h hw hn
          · rcases other _ ht with h | h
            · subst h; rfl
            · exact hg.noclose t h
    | move i ok =>
      simp only [step]
      cases h : move s i ok with
      | none => exact hg
      | some s' => exact gap_move hs T hg i ok h
    | close => exact absurd rfl hq.1
    | tick d =>
      obtain ⟨l, h1, h2, h3⟩ := hg.last
      exact ⟨⟨l, h1, h2, Nat.le_trans h3 (Nat.le_add_right _ _)⟩, hg.wait,
        fun t ht hw hn => Nat.le_trans (hg.later t ht hw hn) (Nat.le_add_right _ _), hg.stop, hg.closed, hg.noclose⟩
    | restart => exact absurd rfl hq.2

/-- the configured gap, and that waiting is cut short only when the manager is stopped -/
def Inv3 (s : St) : Prop := 30 ≤ s.waitT ∧ (s.stopWait = true → s.closed = true)

theorem inv3_move {s s' : St} (hs : Inv3 s) {i : Nat} {ok : Bool} (h : move s i ok = some s') : Inv3 s' := by
  unfold move at h
  split at h
  · cases h
    unfold background
    split
    · exact hs
    · split <;> exact hs
  · split at h
    · cases h; exact hs
    · cases h
  · cases h; exact hs
  · split at h <;> (cases h; exact hs)
  · split at h
    · split at h <;> (cases h; exact hs)
    · cases h; exact hs
  · rename_i t _
    cases h
    have hw : 30 ≤ if s.now - t > minGap then s.now - t else s.waitT := by
      split
      · rename_i h; simp only [minGap] at h; omega
      · exact hs.1
    unfold finish
    simp only
    split
    · exact ⟨hw, fun h => by cases h⟩
    · split <;> exact ⟨hw, hs.2⟩
  · cases h; exact hs
  · cases h; exact hs
  · split at h
    · cases h; exact hs
    · cases h
  · split at h <;> (cases h; exact hs)
  · cases h
  · cases h

theorem inv3_run (evs : List Ev) : ∀ s, Inv3 s → Inv3 (run s evs) := by
  induction evs with
  | nil => intro s h; exact h
  | cons e evs ih =>
    intro s hs
    refine ih (step s e) ?_
    cases e with
    | commit asks => simp only [step]; split <;> exact hs
    | move i ok =>
      simp only [step]
      cases h : move s i ok with
      | none => exact hs
      | some s' => exact inv3_move hs h
    | close =>
      simp only [step, close]
      split
      · exact hs
      · split
        · exact ⟨hs.1, fun _ => rfl⟩
        · exact ⟨hs.1, fun _ => rfl⟩
    | tick d => exact hs
    | restart => exact ⟨by simp [step, minGap], by simp [step]⟩

/-- after the end of a backup -/
theorem gap_finish {s : St} (hs : Inv2 s) (h3 : Inv3 s) {i t0 : Nat} (hi : s.threads[i]? = some (.finished false t0)) (hc : s.closed = false) :
    ∃ T, s.now + 30 ≤ T ∧ s.now + (s.now - t0) ≤ T ∧ Gap T (finish s i t0) := by
  obtain ⟨W, hW⟩ : ∃ W, (if s.now - t0 > minGap then s.now - t0 else s.waitT) = W := ⟨_, rfl⟩
  have hW1 : 30 ≤ W ∧ s.now - t0 ≤ W := by
    have := h3.1
    by_cases h : s.now - t0 > minGap
    · rw [if_pos h] at hW; simp only [minGap] at h; omega
    · rw [if_neg h] at hW; simp only [minGap] at h; omega
  refine ⟨s.now + W, ?_, ?_, ?_⟩
  · omega
  · omega
  · have hf : s.final = false := by
      cases hf : s.final with
      | false => rfl
      | true => have := hs.fin hf; rw [hc] at this; cases this
    have hst : s.stopWait = false := by
      cases hst : s.stopWait with
      | false => rfl
      | true => have := h3.2 hst; rw [hc] at this; cases this
    have nw : ∀ t', worker t' = false → ∀ a ∈ s.threads.set i t', worker a = false := by
      intro t' ht' a ha
      rcases mem_set_other ha with rfl | ⟨j, hj, h⟩
      · exact ht'
      · cases hwa : worker a with
        | false => rfl
        | true => exact absurd (hs.w1 j i a _ h hi hwa rfl) hj
    have nc : ∀ t', closer t' = false → ∀ a ∈ s.threads.set i t', closer a = false := by
      intro t' ht' a ha
      rcases mem_set_cases ha with rfl | h
      · exact ht'
      · exact hs.c0 hc a h
    unfold finish
    simp only [hf, hW]
    rw [if_neg (by simp)]
    split
    · refine ⟨⟨s.now, rfl, Nat.le_refl _, Nat.le_refl _⟩, fun u hu => ?_, fun t ht hw _ => ?_, hst, hc, nc .call rfl⟩
      · have := nw .call rfl _ hu; simp [worker] at this
      · rw [nw .call rfl t ht] at hw; cases hw
    · refine ⟨⟨s.now, rfl, Nat.le_refl _, Nat.le_refl _⟩, fun u hu => ?_, fun t ht hw _ => ?_, hst, hc, nc .done rfl⟩
      · have := nw .done rfl _ hu; simp [worker] at this
      · rw [nw .done rfl t ht] at hw; cases hw

end Verif.Server.Backup
