import Verif.Server.InitDb

/-!
# C90: starting the manager never loses the database
-/
namespace Verif.Server.InitDb

/-- Nothing fails, and bolt refuses files that are cut short. -/
def Sound (e : Env) : Prop := e.production = true ∧ e.acceptsTorn = false ∧ e.download = true ∧ e.copy = true ∧ e.remove = true

/-- C90, kept: a database that can be opened is used as it is; no file is touched -/
theorem C90_kept (e : Env) (w : World) (v : Nat) (hp : e.production = true) (h : w.db = some (.good v)) :
    start e w = { steps := [], result := .opened (.good v) } := by
  simp [start, openDb, opens, hp, h]

example : start {} ⟨some (.good 3), some (.good 2)⟩ = { steps := [], result := .opened (.good 3) } := by decide

theorem copy_bk (e : Env) (w : World) (f : File) : ∀ x ∈ (copyAndOpen e w f).steps, x.bk = w.bk := by
  intro x hx
  unfold copyAndOpen at hx
  simp only at hx
  split at hx <;> simp at hx
  · rcases hx with rfl | rfl <;> rfl
  · subst hx; rfl

theorem open_bk (e : Env) (w : World) : ∀ x ∈ (openDb e w).steps, x.bk = w.bk := by
  intro x hx
  unfold openDb at hx
  split at hx
  · split at hx
    · simp at hx; subst hx; rfl
    · exact copy_bk e w _ x hx
  · split at hx
    · simp at hx
    · split at hx
      · simp at hx
      · split at hx
        · simp at hx
        · split at hx
          · split at hx
            · rcases List.mem_cons.1 hx with h | h
              · subst h; rfl
              · exact copy_bk e { w with db := none } _ x h
            · simp at hx
          · simp at hx

/-- C90, the backup is kept: in production, at no point of a start, whatever fails, is the backup changed -/
theorem C90_backup (e : Env) (w : World) (hp : e.production = true) : ∀ x ∈ (start e w).steps, x.bk = w.bk := by
  intro x hx
  unfold start at hx
  rw [if_pos hp] at hx
  split at hx
  · split at hx
    · rcases List.mem_cons.1 hx with h | h
      · subst h; rfl
      · exact (open_bk e _ x h :)
    · exact open_bk e w x hx
  · exact open_bk e w x hx

/-- C90, where it comes from: with a local backup, the manager works with its own database if that opens, else with the backup; it starts
empty only if there is neither -/
theorem C90_source (e : Env) (w : World) (hp : e.production = true) (hs : e.s3 = false) :
    match (start e w).result with
    | .failed => True
    | .opened f => (w.db = some f ∨ ((∀ d, w.db = some d → opens e d = false) ∧ w.bk = some f)) ∧ opens e f = true
    | .fresh => w.db = none ∧ w.bk = none := by
  obtain ⟨db, bk⟩ := w
  obtain ⟨p, s, a, dl, cp, rm⟩ := e
  simp only at hp hs
  subst hp hs
  cases db with
  | none =>
    cases bk with
    | none => simp [start, openDb]
    | some f =>
      cases cp <;> simp [start, openDb, copyAndOpen]
      by_cases h : opens { production := true, s3 := false, acceptsTorn := a, download := dl, copy := true, remove := rm } f = true <;>
        simp [h]
  | some d =>
    cases ho : opens { production := true, s3 := false, acceptsTorn := a, download := dl, copy := cp, remove := rm } d with
    | true => simp [start, openDb, ho]
    | false =>
      cases bk with
      | none => simp [start, openDb, ho]
      | some f =>
        cases hf : opens { production := true, s3 := false, acceptsTorn := a, download := dl, copy := cp, remove := rm } f with
        | false => simp [start, openDb, ho, hf]
        | true => cases rm <;> cases cp <;> simp [start, openDb, copyAndOpen, ho, hf]

/-- C90, restored: a database that is missing or refused is restored from the backup, local or in S3, if nothing fails -/
theorem C90_restored (e : Env) (w : World) (v : Nat) (he : Sound e) (hd : w.db = none ∨ w.db = some .bad ∨ w.db = some .torn)
    (hb : w.bk = some (.good v)) : (start e w).result = .opened (.good v) ∧ (start e w).final w = ⟨some (.good v), some (.good v)⟩ := by
  obtain ⟨db, bk⟩ := w
  obtain ⟨p, s, a, dl, cp, rm⟩ := e
  obtain ⟨h1, h2, h3, h4, h5⟩ := he
  simp only at hd hb h1 h2 h3 h4 h5
  subst hb h1 h2 h3 h4 h5
  rcases hd with rfl | rfl | rfl <;> cases s <;> simp [start, openDb, copyAndOpen, opens, Outcome.final]

example : Sound {} ∧ Sound { s3 := true } := by simp [Sound]

/-- The files while a restoration is under way: the backup is whole, and the database is missing, refused, torn or restored. -/
def Restoring (v : Nat) (w : World) : Prop :=
  w.bk = some (.good v) ∧ (w.db = none ∨ w.db = some .bad ∨ w.db = some .torn ∨ w.db = some (.good v))

theorem copy_restoring (e : Env) (v : Nat) (w : World) (h : w.bk = some (.good v)) :
    ∀ x ∈ (copyAndOpen e w (.good v)).steps, Restoring v x := by
  intro x hx
  have hb := copy_bk e w _ x hx
  refine ⟨by rw [hb, h], ?_⟩
  unfold copyAndOpen at hx
  simp only at hx
  split at hx <;> simp at hx
  · rcases hx with rfl | rfl <;> simp
  · subst hx; simp

theorem open_restoring (e : Env) (v : Nat) (w : World) (hs3 : e.s3 = false ∨ w.db ≠ none) (h : Restoring v w) :
    ∀ x ∈ (openDb e w).steps, Restoring v x := by
  intro x hx
  unfold openDb at hx
  split at hx
  · rename_i hd
    have hs3 : e.s3 = false := hs3.resolve_right (fun k => k hd)
    rw [hs3] at hx
    simp only [Bool.false_and, h.1] at hx
    exact copy_restoring e v w h.1 x hx
  · split at hx
    · simp at hx
    · split at hx
      · simp at hx
      · rw [h.1] at hx
        simp only at hx
        split at hx
        · split at hx
          · rcases List.mem_cons.1 hx with k | k
            · subst k; exact ⟨rfl, .inl rfl⟩
            · exact copy_restoring e v _ rfl x k
          · simp at hx
        · simp at hx

theorem start_restoring (e : Env) (v : Nat) (w : World) (hp : e.production = true) (hs3 : e.s3 = false ∨ e.download = true)
    (h : Restoring v w) : ∀ x ∈ (start e w).steps, Restoring v x := by
  intro x hx
  unfold start at hx
  rw [if_pos hp] at hx
  split at hx
  · rw [h.1] at hx
    simp only at hx
    have k : Restoring v ⟨some (.good v), some (.good v)⟩ := ⟨rfl, .inr (.inr (.inr rfl))⟩
    rcases List.mem_cons.1 hx with hx | hx
    · subst hx; exact k
    · exact open_restoring e v _ (.inr (by simp)) k x hx
  · rename_i hc
    refine open_restoring e v w ?_ h x hx
    rcases hs3 with hs3 | hs3
    · exact .inl hs3
    · by_cases hd : w.db = none
      · left
        rw [hd, hs3] at hc
        simpa using hc
      · exact .inr hd

theorem crash_restoring (e : Env) (v : Nat) (w : World) (n : Nat) (hp : e.production = true) (hs3 : e.s3 = false ∨ e.download = true)
    (h : Restoring v w) : Restoring v (crash e w n) := by
  unfold crash
  cases hl : ((start e w).steps.take n).getLast? with
  | none => exact h
  | some x =>
    exact start_restoring e v w hp hs3 h x (List.mem_of_mem_take (List.mem_of_getLast? hl))

theorem crashes_restoring (v : Nat) (l : List (Env × Nat)) (hl : ∀ p ∈ l, p.1.production = true ∧ (p.1.s3 = false ∨ p.1.download = true)) :
    ∀ w, Restoring v w → Restoring v (crashes w l) := by
  induction l with
  | nil => intro w h; exact h
  | cons p l ih =>
    intro w h
    have hp := hl p (by simp)
    exact ih (fun q hq => hl q (List.mem_cons_of_mem _ hq)) _ (crash_restoring p.1 v w p.2 hp.1 hp.2 h)

/-- C90, crashes: however often a start is cut short at whatever point, or fails, a later start for which nothing fails has the database of
the backup, if bolt refuses files that are cut short and downloads from S3 do not fail while there is no database.

Missing: bolt does not refuse all of them, and failed downloads (below). -/
theorem C90_crash_partial (w : World) (v : Nat) (l : List (Env × Nat)) (e : Env) (he : Sound e)
    (hl : ∀ p ∈ l, p.1.production = true ∧ (p.1.s3 = false ∨ p.1.download = true))
    (hd : w.db = none ∨ w.db = some .bad) (hb : w.bk = some (.good v)) : (start e (crashes w l)).result = .opened (.good v) := by
  have h : Restoring v w := ⟨hb, hd.elim .inl (fun h => .inr (.inl h))⟩
  have h2 := crashes_restoring v l hl w h
  rcases h2.2 with k | k | k | k
  · exact (C90_restored e _ v he (.inl k) h2.1).1
  · exact (C90_restored e _ v he (.inr (.inl k)) h2.1).1
  · exact (C90_restored e _ v he (.inr (.inr k)) h2.1).1
  · rw [C90_kept e _ v he.1 k]

/-- three starts that are cut short: after the removal of the database, in the middle of the copy, and in a copy that fails -/
example : crashes ⟨some .bad, some (.good 7)⟩ [({}, 1), ({}, 1), ({ copy := false }, 2)] = ⟨some .torn, some (.good 7)⟩ ∧
    (start {} (crashes ⟨some .bad, some (.good 7)⟩ [({}, 1), ({}, 1), ({ copy := false }, 2)])).result = .opened (.good 7) := by decide

/-- C90, refused: if neither can be opened the manager does not start, and both files stay as they are -/
theorem C90_refused (e : Env) (w : World) (d : File) (hp : e.production = true) (hd : w.db = some d) (ho : opens e d = false)
    (hb : ∀ f, w.bk = some f → opens e f = false) : start e w = { steps := [], result := .failed } := by
  obtain ⟨db, bk⟩ := w
  simp only at hd hb
  subst hd
  cases bk with
  | none => simp [start, openDb, hp, ho]
  | some f => simp [start, openDb, hp, ho, hb f rfl]

example : start {} ⟨some .bad, some .bad⟩ = { steps := [], result := .failed } := by decide

/-- C90, development: a development manager starts with an empty database, and removes the old files -/
theorem C90_development (e : Env) (w : World) (hp : e.production = false) :
    (start e w).result = .fresh ∧ (start e w).final w = ⟨some (.good 0), none⟩ := by
  simp [start, openDb, hp, Outcome.final]

example : (start { production := false } ⟨some (.good 5), some (.good 4)⟩).result = .fresh := by decide

/-- C90, violated: if the process dies while the backup is copied, and enough was written for bolt to open it, the next start works with the
part that was copied, although the backup is whole -/
theorem C90_violated_torn : ∃ (w : World) (n : Nat), w.bk = some (.good 7) ∧
    (start { acceptsTorn := true } (crash { acceptsTorn := true } w n)).result = .opened .torn :=
  ⟨⟨none, some (.good 7)⟩, 1, by decide⟩

/-- C90, violated: if the database is missing and the backup is in S3 and cannot be downloaded just now, the manager starts with an empty
database instead of failing (the next backup will replace the one in S3) -/
theorem C90_violated_s3 (e : Env) (w : World) (hp : e.production = true) (hs : e.s3 = true) (hd : e.download = false) (hw : w.db = none) :
    (start e w).result = .fresh := by
  simp [start, openDb, hp, hs, hd, hw]

example : (start { s3 := true, download := false } ⟨none, some (.good 7)⟩).result = .fresh := by decide

end Verif.Server.InitDb
