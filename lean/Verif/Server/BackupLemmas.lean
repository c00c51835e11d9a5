import Verif.Server.Backup

/-! Lemmas about the background backup: the invariant of all histories. -/
namespace Verif.Server.Backup

/-- a goroutine of `backgroundBackup`, before its end -/
def worker : Thread → Bool
  | .wait _ | .start false | .copying false _ _ | .copied false _ | .finished false _ => true
  | _ => false

/-- the thread that closes the database -/
def closer : Thread → Bool
  | .closeWait | .closeDrain | .start true | .copying true _ _ | .copied true _ | .finished true _ => true
  | _ => false

/-- a file's version is at most `v` (and the file is whole) -/
def Upto (f : Option Content) (v : Nat) : Prop :=
  match f with
  | none => True
  | some .torn => False
  | some (.full u) => u ≤ v

theorem Upto.mono {f : Option Content} {v w : Nat} (h : Upto f v) (hw : v ≤ w) : Upto f w := by
  cases f with
  | none => trivial
  | some c =>
    cases c with
    | torn => exact h
    | full u => exact Nat.le_trans (show u ≤ v from h) hw

structure Inv (s : St) : Prop where
  w1 : ∀ (i j : Nat) (a b : Thread), s.threads[i]? = some a → s.threads[j]? = some b → worker a = true → worker b = true → i = j
  w0 : s.backingUp = false → ∀ a ∈ s.threads, worker a = false
  wb : s.backingUp = true → ∃ a ∈ s.threads, worker a = true
  c1 : ∀ (i j : Nat) (a b : Thread), s.threads[i]? = some a → s.threads[j]? = some b → closer a = true → closer b = true → i = j
  c0 : s.closed = false → ∀ a ∈ s.threads, closer a = false
  cd : ∀ a ∈ s.threads, closer a = true → a ≠ .closeWait → s.backingUp = false ∧ s.closed = true
  nt : s.notified = true ∨ .notify ∈ s.threads → s.backingUp = false ∧ s.closed = true
  fin : s.final = true → s.closed = true
  fl : Upto s.file s.ver
  cy : ∀ c t v, .copying c t v ∈ s.threads → v ≤ s.ver ∧ Upto s.file v
  cp : ∀ c t, .copied c t ∈ s.threads → ∃ v, s.tmp = some (.full v) ∧ v ≤ s.ver ∧ Upto s.file v

theorem inv_init (e : Bool) : Inv (init e) := by
  constructor <;> simp [init, Upto]

/-- what is in the list after one thread moved -/
theorem mem_set_cases {l : List Thread} {i : Nat} {t a : Thread} (h : a ∈ l.set i t) : a = t ∨ a ∈ l := by
  rcases List.mem_or_eq_of_mem_set h with h | h
  · exact .inr h
  · exact .inl h

theorem getElem?_set_cases {l : List Thread} {i j : Nat} {t a : Thread} (h : (l.set i t)[j]? = some a) :
    (j = i ∧ a = t) ∨ (j ≠ i ∧ l[j]? = some a) := by
  rw [List.getElem?_set] at h
  split at h
  · rename_i e
    split at h
    · cases h; exact .inl ⟨e.symm, rfl⟩
    · cases h
  · rename_i e
    exact .inr ⟨fun e' => e e'.symm, h⟩

/-- threads other than `i` that are in the list after `i` moved -/
theorem mem_set_other {l : List Thread} {i : Nat} {t a : Thread} (h : a ∈ l.set i t) :
    a = t ∨ ∃ j, j ≠ i ∧ l[j]? = some a := by
  obtain ⟨j, hj⟩ := List.mem_iff_getElem?.1 h
  rcases getElem?_set_cases hj with ⟨_, h⟩ | ⟨h, h'⟩
  · exact .inl h
  · exact .inr ⟨j, h, h'⟩

/-- uniqueness is kept if the thread that moved was of the kind before, or is not of it now -/
theorem unique_set (p : Thread → Bool) {l : List Thread} {i : Nat} {t t' : Thread} (hi : l[i]? = some t)
    (hp : p t' = true → p t = true ∨ ∀ a ∈ l, p a = false)
    (h : ∀ (i j : Nat) (a b : Thread), l[i]? = some a → l[j]? = some b → p a = true → p b = true → i = j) :
    ∀ (j k : Nat) (a b : Thread), (l.set i t')[j]? = some a → (l.set i t')[k]? = some b → p a = true → p b = true → j = k := by
  intro j k a b hj hk ha hb
  rcases getElem?_set_cases hj with ⟨ej, ea⟩ | ⟨_, h1⟩ <;> rcases getElem?_set_cases hk with ⟨ek, eb⟩ | ⟨_, h2⟩
  · rw [ej, ek]
  · subst ea
    rcases hp ha with hp | hp
    · rw [ej]; exact h i k t b hi h2 hp hb
    · rw [hp b (List.mem_of_getElem? h2)] at hb; cases hb
  · subst eb
    rcases hp hb with hp | hp
    · rw [ek]; exact h j i a t h1 hi ha hp
    · rw [hp a (List.mem_of_getElem? h1)] at ha; cases ha
  · exact h j k a b h1 h2 ha hb

theorem unique_append (p : Thread → Bool) {l : List Thread} {t : Thread} (hp : p t = true → ∀ a ∈ l, p a = false)
    (h : ∀ (i j : Nat) (a b : Thread), l[i]? = some a → l[j]? = some b → p a = true → p b = true → i = j) :
    ∀ (j k : Nat) (a b : Thread), (l ++ [t])[j]? = some a → (l ++ [t])[k]? = some b → p a = true → p b = true → j = k := by
  have hs : ∀ (j : Nat) (a : Thread), (l ++ [t])[j]? = some a → (j = l.length ∧ a = t) ∨ l[j]? = some a := by
    intro j a hj
    rw [List.getElem?_append] at hj
    split at hj
    · exact .inr hj
    · rename_i hn
      have : j - l.length = 0 := by
        rcases Nat.eq_zero_or_pos (j - l.length) with h | h
        · exact h
        · rw [List.getElem?_eq_none (by simp; omega)] at hj; cases hj
      rw [this] at hj
      cases hj
      exact .inl ⟨by omega, rfl⟩
  intro j k a b hj hk ha hb
  rcases hs j a hj with ⟨ej, ea⟩ | h1 <;> rcases hs k b hk with ⟨ek, eb⟩ | h2
  · omega
  · subst ea; rw [hp ha b (List.mem_of_getElem? h2)] at hb; cases hb
  · subst eb; rw [hp hb a (List.mem_of_getElem? h1)] at ha; cases ha
  · exact h j k a b h1 h2 ha hb

theorem mem_set_self {l : List Thread} {i : Nat} {t t' : Thread} (h : l[i]? = some t) : t' ∈ l.set i t' := by
  obtain ⟨hl, _⟩ := List.getElem?_eq_some_iff.1 h
  exact List.mem_iff_getElem?.2 ⟨i, by rw [List.getElem?_set]; simp [hl]⟩

theorem mem_set_keep {l : List Thread} {i : Nat} {t t' a : Thread} (h : l[i]? = some t) (ha : a ∈ l) (hn : a ≠ t) : a ∈ l.set i t' := by
  obtain ⟨j, hj⟩ := List.mem_iff_getElem?.1 ha
  refine List.mem_iff_getElem?.2 ⟨j, ?_⟩
  rw [List.getElem?_set, if_neg]
  · exact hj
  · rintro rfl
    rw [h] at hj; cases hj; exact hn rfl

/-- nobody else writes to the temporary file while a thread that makes a backup does -/
theorem alone {s : St} (hs : Inv s) {i j : Nat} {a b : Thread} (hi : s.threads[i]? = some a) (hj : s.threads[j]? = some b) (hn : j ≠ i)
    (ha : worker a = true ∨ (closer a = true ∧ a ≠ .closeWait)) : ¬ (worker b = true ∨ (closer b = true ∧ b ≠ .closeWait)) := by
  intro hb
  have ma := List.mem_of_getElem? hi
  have mb := List.mem_of_getElem? hj
  rcases ha with ha | ⟨ha, ha'⟩ <;> rcases hb with hb | ⟨hb, hb'⟩
  · exact hn (hs.w1 j i b a hj hi hb ha)
  · have := hs.w0 (hs.cd b mb hb hb').1 a ma
    rw [this] at ha; cases ha
  · have := hs.w0 (hs.cd a ma ha ha').1 b mb
    rw [this] at hb; cases hb
  · exact hn (hs.c1 j i b a hj hi hb ha)

/-- A move that leaves the shared state as it is but for the files. -/
theorem inv_plain {s : St} (hs : Inv s) {i : Nat} {t t' : Thread} (hi : s.threads[i]? = some t)
    (hw : worker t' = worker t) (hc : closer t' = closer t) (hcw : t' ≠ .closeWait) (hcw2 : t ≠ .closeWait) (hn : t' ≠ .notify)
    (f g : Option Content) (hf : Upto f s.ver)
    (hcy : ∀ c u v, t' = .copying c u v → v ≤ s.ver ∧ Upto f v)
    (hcp : ∀ c u, t' = .copied c u → ∃ v, g = some (.full v) ∧ v ≤ s.ver ∧ Upto f v)
    (hsh : (worker t = true ∨ (closer t = true ∧ t ≠ .closeWait)) ∨ (f = s.file ∧ g = s.tmp)) :
    Inv ({ s with file := f, tmp := g }.at i t') := by
  have hm := List.mem_of_getElem? hi
  have other : ∀ a, a ∈ s.threads.set i t' → a = t' ∨ a ∈ s.threads := fun a => mem_set_cases
  constructor
  · exact unique_set worker hi (fun h => .inl (hw ▸ h)) hs.w1
  · intro hb a ha
    rcases other a ha with rfl | h
    · rw [hw]; exact hs.w0 hb t hm
    · exact hs.w0 hb a h
  · intro hb
    obtain ⟨a, ha, hwa⟩ := hs.wb hb
    by_cases e : a = t
    · exact ⟨t', mem_set_self hi, by rw [hw, ← e, hwa]⟩
    · exact ⟨a, mem_set_keep hi ha e, hwa⟩
  · exact unique_set closer hi (fun h => .inl (hc ▸ h)) hs.c1
  · intro hb a ha
    rcases other a ha with rfl | h
    · rw [hc]; exact hs.c0 hb t hm
    · exact hs.c0 hb a h
  · intro a ha hca hna
    rcases other a ha with rfl | h
    · exact hs.cd t hm (hc ▸ hca) hcw2
    · exact hs.cd a h hca hna
  · intro h
    refine hs.nt (h.imp id fun h => ?_)
    rcases other _ h with h | h
    · exact absurd h.symm hn
    · exact h
  · exact hs.fin
  · exact hf
  · intro c u v h
    rcases mem_set_other h with h | ⟨j, hj, h⟩
    · exact hcy c u v h.symm
    · rcases hsh with hsh | ⟨hsh, _⟩
      · exact absurd (by cases c <;> simp [worker, closer]) (alone hs hi h hj hsh)
      · subst hsh; exact hs.cy c u v (List.mem_of_getElem? h)
  · intro c u h
    rcases mem_set_other h with h | ⟨j, hj, h⟩
    · exact hcp c u h.symm
    · rcases hsh with hsh | ⟨hsh, hsh'⟩
      · exact absurd (by cases c <;> simp [worker, closer]) (alone hs hi h hj hsh)
      · subst hsh hsh'; exact hs.cp c u (List.mem_of_getElem? h)

/-- A move that changes the flags of the database but no file, and is not into or out of writing to a file. -/
theorem inv_flags {s : St} (hs : Inv s) {i : Nat} {t t' : Thread} (hi : s.threads[i]? = some t)
    (s' : St) (hver : s'.ver = s.ver) (hfile : s'.file = s.file) (htmp : s'.tmp = s.tmp) (hcl : s'.closed = s.closed)
    (hth : s'.threads = s.threads.set i t')
    (hfin : s'.final = true → s.final = true)
    (hcy : ∀ c u v, t' ≠ .copying c u v) (hcp : ∀ c u, t' ≠ .copied c u)
    (hw1 : worker t' = true → worker t = true ∨ ∀ a ∈ s.threads, worker a = false)
    (hw0 : s'.backingUp = false → worker t' = false ∧ (s.backingUp = false ∨ worker t = true))
    (hwb : s'.backingUp = true → worker t' = true ∨ (s.backingUp = true ∧ worker t = false))
    (hc : closer t' = true → closer t = true)
    (hcd : closer t' = true → t' ≠ .closeWait → s'.backingUp = false ∧ s.closed = true)
    (hbk : s.backingUp = false → s.closed = true → s'.backingUp = false)
    (hnt : s'.notified = true ∨ t' = .notify → (s.notified = true ∨ t = .notify) ∨ (s'.backingUp = false ∧ s.closed = true)) :
    Inv s' := by
  have hm := List.mem_of_getElem? hi
  have other : ∀ a, a ∈ s.threads.set i t' → a = t' ∨ a ∈ s.threads := fun a => mem_set_cases
  constructor
  · rw [hth]; exact unique_set worker hi hw1 hs.w1
  · intro hb a ha
    rw [hth] at ha
    obtain ⟨h1, h2⟩ := hw0 hb
    rcases mem_set_other ha with rfl | ⟨j, hj, h⟩
    · exact h1
    · rcases h2 with h2 | h2
      · exact hs.w0 h2 a (List.mem_of_getElem? h)
      · cases hwa : worker a with
        | false => rfl
        | true => exact absurd (hs.w1 j i a t h hi hwa h2) hj
  · intro hb
    rw [hth]
    rcases hwb hb with h | ⟨h, h'⟩
    · exact ⟨t', mem_set_self hi, h⟩
    · obtain ⟨a, ha, hwa⟩ := hs.wb h
      exact ⟨a, mem_set_keep hi ha (by rintro rfl; rw [h'] at hwa; cases hwa), hwa⟩
  · rw [hth]; exact unique_set closer hi (fun h => .inl (hc h)) hs.c1
  · intro hb a ha
    rw [hth] at ha
    rw [hcl] at hb
    rcases other a ha with rfl | h
    · cases hca : closer a with
      | false => rfl
      | true => rw [hs.c0 hb t hm] at hc; exact absurd (hc hca) (by simp)
    · exact hs.c0 hb a h
  · intro a ha hca hna
    rw [hth] at ha
    rw [hcl]
    rcases other a ha with rfl | h
    · exact hcd hca hna
    · have := hs.cd a h hca hna
      exact ⟨hbk this.1 this.2, this.2⟩
  · rw [hth, hcl]
    intro h
    have h' : (s'.notified = true ∨ t' = .notify) ∨ .notify ∈ s.threads := by
      rcases h with h | h
      · exact .inl (.inl h)
      · rcases other _ h with h | h
        · exact .inl (.inr h.symm)
        · exact .inr h
    rcases h' with h | h
    · rcases hnt h with (h | h) | h
      · have := hs.nt (.inl h); exact ⟨hbk this.1 this.2, this.2⟩
      · subst h; have := hs.nt (.inr hm); exact ⟨hbk this.1 this.2, this.2⟩
      · exact h
    · have := hs.nt (.inr h); exact ⟨hbk this.1 this.2, this.2⟩
  · intro h; rw [hcl]; exact hs.fin (hfin h)
  · rw [hfile, hver]; exact hs.fl
  · intro c u v h
    rw [hth] at h
    rw [hfile, hver]
    rcases other _ h with h | h
    · exact absurd h.symm (hcy c u v)
    · exact hs.cy c u v h
  · intro c u h
    rw [hth] at h
    rw [hfile, hver, htmp]
    rcases other _ h with h | h
    · exact absurd h.symm (hcp c u)
    · exact hs.cp c u h

theorem inv_move {s s' : St} (hs : Inv s) (i : Nat) (ok : Bool) (h : move s i ok = some s') : Inv s' := by
  unfold move at h
  split at h
  · -- call
    rename_i hi
    cases h
    unfold background
    split
    · exact inv_flags hs (t' := .done) hi _ rfl rfl rfl rfl rfl id (by simp) (by simp) (by simp [worker]) (fun h => ⟨rfl, .inl h⟩)
        (fun h => .inr ⟨h, rfl⟩) (by simp [closer]) (by simp [closer]) (fun h _ => h) (fun h => .inl (h.imp id (by simp)))
    · rename_i hcl
      split
      · exact inv_flags hs (t' := .done) hi _ rfl rfl rfl rfl rfl id (by simp) (by simp) (by simp [worker]) (fun h => ⟨rfl, .inl h⟩)
          (fun h => .inr ⟨h, rfl⟩) (by simp [closer]) (by simp [closer]) (fun h _ => h) (fun h => .inl (h.imp id (by simp)))
      · rename_i hb
        have hb : s.backingUp = false := by simpa using hb
        have hcl : s.closed = false := by
          cases hc : s.closed with
          | false => rfl
          | true => rw [hc] at hcl; simp at hcl
        refine inv_flags hs (t' := .wait _) hi _ rfl rfl rfl rfl rfl id (by simp) (by simp) (fun _ => .inr (hs.w0 hb)) (fun h => by cases h)
          (fun _ => .inl rfl) (by simp [closer]) (by simp [closer]) (fun _ h => by rw [hcl] at h; cases h) (fun h => ?_)
        rcases h with h | h
        · exact .inl (.inl h)
        · cases h
  · -- wait
    rename_i u hi
    split at h
    · cases h
      exact inv_flags hs (t' := .start false) hi _ rfl rfl rfl rfl rfl id (by simp) (by simp) (fun _ => .inl rfl)
        (fun h => by have := hs.w0 h _ (List.mem_of_getElem? hi); simp [worker] at this)
        (fun h => .inl rfl) (by simp [closer]) (by simp [closer]) (fun h _ => h) (fun h => .inl (h.imp id (by simp)))
    · cases h
  · -- start
    rename_i c hi
    cases h
    refine inv_plain hs (t' := .copying c s.now s.ver) hi (by cases c <;> rfl) (by cases c <;> rfl) (by simp) (by simp) (by simp)
      s.file (some .torn) hs.fl ?_ (by simp) (.inl (by cases c <;> simp [worker, closer]))
    intro c' u v e
    cases e
    exact ⟨Nat.le_refl _, hs.fl⟩
  · -- copying
    rename_i c t v hi
    have hy := hs.cy c t v (List.mem_of_getElem? hi)
    split at h
    · cases h
      refine inv_plain hs (t' := .copied c t) hi (by cases c <;> rfl) (by cases c <;> rfl) (by simp) (by simp) (by simp)
        s.file (some (.full v)) hs.fl (by simp) ?_ (.inl (by cases c <;> simp [worker, closer]))
      intro c' u _
      exact ⟨v, rfl, hy⟩
    · cases h
      exact inv_plain hs (t' := .finished c t) hi (by cases c <;> rfl) (by cases c <;> rfl) (by simp) (by simp) (by simp)
        s.file none hs.fl (by simp) (by simp) (.inl (by cases c <;> simp [worker, closer]))
  · -- copied
    rename_i c t hi
    obtain ⟨v, hv, hle, hup⟩ := hs.cp c t (List.mem_of_getElem? hi)
    rw [hv] at h
    simp only at h
    split at h
    · cases h
      exact inv_plain hs (t' := .finished c t) hi (by cases c <;> rfl) (by cases c <;> rfl) (by simp) (by simp) (by simp)
        (some (.full v)) none hle (by simp) (by simp) (.inl (by cases c <;> simp [worker, closer]))
    · cases h
      exact inv_plain hs (t' := .finished c t) hi (by cases c <;> rfl) (by cases c <;> rfl) (by simp) (by simp) (by simp)
        s.file s.tmp hs.fl (by simp) (by simp) (.inr ⟨rfl, rfl⟩)
  · -- finished false
    rename_i t hi
    cases h
    unfold finish
    simp only
    split
    · rename_i hf
      exact inv_flags hs (t' := .notify) hi _ rfl rfl rfl rfl rfl (fun h => by cases h) (by simp) (by simp) (by simp [worker])
        (fun _ => ⟨rfl, .inr rfl⟩) (fun h => by cases h) (by simp [closer]) (by simp [closer]) (fun _ _ => rfl)
        (fun _ => .inr ⟨rfl, hs.fin hf⟩)
    · split
      · exact inv_flags hs (t' := .call) hi _ rfl rfl rfl rfl rfl id (by simp) (by simp) (by simp [worker])
          (fun _ => ⟨rfl, .inr rfl⟩) (fun h => by cases h) (by simp [closer]) (by simp [closer]) (fun _ _ => rfl)
          (fun h => .inl (h.imp id (by simp)))
      · exact inv_flags hs (t' := .done) hi _ rfl rfl rfl rfl rfl id (by simp) (by simp) (by simp [worker])
          (fun _ => ⟨rfl, .inr rfl⟩) (fun h => by cases h) (by simp [closer]) (by simp [closer]) (fun _ _ => rfl)
          (fun h => .inl (h.imp id (by simp)))
  · -- finished true
    rename_i t hi
    cases h
    exact inv_flags hs (t' := .done) hi _ rfl rfl rfl rfl rfl id (by simp) (by simp) (by simp [worker]) (fun h => ⟨rfl, .inl h⟩)
      (fun h => .inr ⟨h, rfl⟩) (by simp [closer]) (by simp [closer]) (fun h _ => h) (fun h => .inl (h.imp id (by simp)))
  · -- notify
    rename_i hi
    cases h
    exact inv_flags hs (t' := .done) hi _ rfl rfl rfl rfl rfl id (by simp) (by simp) (by simp [worker]) (fun h => ⟨rfl, .inl h⟩)
      (fun h => .inr ⟨h, rfl⟩) (by simp [closer]) (by simp [closer]) (fun h _ => h) (fun h => .inl (.inr rfl))
  · -- closeWait
    rename_i hi
    split at h
    · rename_i hn
      cases h
      have := hs.nt (.inl hn)
      exact inv_flags hs (t' := .closeDrain) hi _ rfl rfl rfl rfl rfl id (by simp) (by simp) (by simp [worker]) (fun h => ⟨rfl, .inl h⟩)
        (fun h => .inr ⟨h, rfl⟩) (by simp [closer]) (fun _ _ => this) (fun h _ => h) (fun h => .inl (h.imp id (by simp)))
    · cases h
  · -- closeDrain
    rename_i hi
    have := hs.cd _ (List.mem_of_getElem? hi) rfl (by simp)
    split at h
    · cases h
      exact inv_flags hs (t' := .start true) hi _ rfl rfl rfl rfl rfl id (by simp) (by simp) (by simp [worker]) (fun h => ⟨rfl, .inl h⟩)
        (fun h => .inr ⟨h, rfl⟩) (by simp [closer]) (fun _ _ => this) (fun h _ => h) (fun h => .inl (h.imp id (by simp)))
    · cases h
      exact inv_flags hs (t' := .done) hi _ rfl rfl rfl rfl rfl id (by simp) (by simp) (by simp [worker]) (fun h => ⟨rfl, .inl h⟩)
        (fun h => .inr ⟨h, rfl⟩) (by simp [closer]) (by simp [closer]) (fun h _ => h) (fun h => .inl (h.imp id (by simp)))
  · cases h
  · cases h

/-- A new thread that is not a goroutine of `backgroundBackup`. -/
theorem inv_append {s : St} (hs : Inv s) {t : Thread} (s' : St) (hver : s.ver ≤ s'.ver) (hfile : s'.file = s.file) (htmp : s'.tmp = s.tmp)
    (hth : s'.threads = s.threads ++ [t]) (hbk : s'.backingUp = s.backingUp) (hnt : s'.notified = s.notified)
    (hcl : s'.closed = true ∨ (s'.closed = s.closed ∧ closer t = false)) (hfin : s'.final = true → s'.closed = true)
    (hw : worker t = false) (hc : closer t = true → s.closed = false) (hn : t ≠ .notify)
    (hcd : closer t = true → t ≠ .closeWait → s.backingUp = false ∧ s'.closed = true)
    (hcy : ∀ c u v, t ≠ .copying c u v) (hcp : ∀ c u, t ≠ .copied c u) : Inv s' := by
  have hclosed : s.closed = true → s'.closed = true := by
    rcases hcl with h | ⟨h, _⟩
    · exact fun _ => h
    · rw [h]; exact id
  have other : ∀ a, a ∈ s.threads ++ [t] → a = t ∨ a ∈ s.threads := by
    intro a ha
    rcases List.mem_append.1 ha with h | h
    · exact .inr h
    · exact .inl (by simpa using h)
  constructor
  · rw [hth]; exact unique_append worker (fun h => by rw [hw] at h; cases h) hs.w1
  · intro hb a ha
    rw [hth] at ha; rw [hbk] at hb
    rcases other a ha with rfl | h
    · exact hw
    · exact hs.w0 hb a h
  · intro hb
    rw [hbk] at hb
    obtain ⟨a, ha, hwa⟩ := hs.wb hb
    exact ⟨a, by rw [hth]; exact List.mem_append_left _ ha, hwa⟩
  · rw [hth]; exact unique_append closer (fun h => hs.c0 (hc h)) hs.c1
  · intro hb a ha
    rw [hth] at ha
    rcases hcl with h | ⟨h, h'⟩
    · rw [h] at hb; cases hb
    · rcases other a ha with rfl | h2
      · exact h'
      · rw [h] at hb; exact hs.c0 hb a h2
  · intro a ha hca hna
    rw [hth] at ha; rw [hbk]
    rcases other a ha with rfl | h
    · exact hcd hca hna
    · have := hs.cd a h hca hna
      exact ⟨this.1, hclosed this.2⟩
  · rw [hth, hnt, hbk]
    intro h
    have := hs.nt (h.imp id fun h => by
      rcases other _ h with h | h
      · exact absurd h.symm hn
      · exact h)
    exact ⟨this.1, hclosed this.2⟩
  · exact hfin
  · rw [hfile]; exact hs.fl.mono hver
  · intro c u v h
    rw [hth] at h
    rw [hfile]
    rcases other _ h with h | h
    · exact absurd h.symm (hcy c u v)
    · have := hs.cy c u v h
      exact ⟨Nat.le_trans this.1 hver, this.2⟩
  · intro c u h
    rw [hth] at h
    rw [hfile, htmp]
    rcases other _ h with h | h
    · exact absurd h.symm (hcp c u)
    · obtain ⟨v, h1, h2, h3⟩ := hs.cp c u h
      exact ⟨v, h1, Nat.le_trans h2 hver, h3⟩

theorem inv_step {s : St} (hs : Inv s) (e : Ev) : Inv (step s e) := by
  cases e with
  | commit asks =>
    simp only [step]
    split
    · exact hs
    · cases asks with
      | true =>
        exact inv_append hs (t := .call) _ (Nat.le_succ _) rfl rfl rfl rfl rfl (.inr ⟨rfl, rfl⟩) hs.fin rfl (by simp [closer]) (by simp)
          (by simp [closer]) (by simp) (by simp)
      | false =>
        refine ⟨hs.w1, hs.w0, hs.wb, hs.c1, hs.c0, hs.cd, hs.nt, hs.fin, hs.fl.mono (Nat.le_succ _), ?_, ?_⟩
        · intro c t v h
          have := hs.cy c t v h
          exact ⟨Nat.le_succ_of_le this.1, this.2⟩
        · intro c t h
          obtain ⟨v, h1, h2, h3⟩ := hs.cp c t h
          exact ⟨v, h1, Nat.le_succ_of_le h2, h3⟩
  | move i ok =>
    simp only [step]
    cases h : move s i ok with
    | none => exact hs
    | some s' => exact inv_move hs i ok h
  | close =>
    simp only [step, close]
    split
    · exact hs
    · rename_i hc
      have hc : s.closed = false := by simpa using hc
      split
      · exact inv_append hs (t := .closeWait) _ (Nat.le_refl _) rfl rfl rfl rfl rfl (.inl rfl) (fun _ => rfl) rfl (fun _ => hc) (by simp)
          (fun _ h => absurd rfl h) (by simp) (by simp)
      · rename_i hb
        exact inv_append hs (t := .closeDrain) _ (Nat.le_refl _) rfl rfl rfl rfl rfl (.inl rfl) (fun _ => rfl) rfl (fun _ => hc) (by simp)
          (fun _ _ => ⟨by simpa using hb, rfl⟩) (by simp) (by simp)
  | tick d => exact ⟨hs.w1, hs.w0, hs.wb, hs.c1, hs.c0, hs.cd, hs.nt, hs.fin, hs.fl, hs.cy, hs.cp⟩
  | restart =>
    simp only [step]
    constructor <;> simp
    exact hs.fl

theorem inv_run {s : St} (hs : Inv s) (evs : List Ev) : Inv (run s evs) := by
  induction evs generalizing s with
  | nil => exact hs
  | cons e evs ih => exact ih (inv_step hs e)

end Verif.Server.Backup
