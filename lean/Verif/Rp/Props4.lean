import Verif.Rp.Props3
/-! # C56, C20, C57: requests that fit, and calls that have no effect -/
namespace Verif.Rp

/-- Somebody is on the way to look at the pending requests. -/
def Coming (s : State) : Prop := 0 < s.procs ∨ 0 < s.repros ∨ s.wake.isSome = true

/-- The first pending request does not fit, or somebody is on the way. -/
def Fits (s : State) : Prop :=
  ∀ r rest, s.pending = r :: rest → Coming s ∨ s.used = s.max ∨ s.max - s.used < (s.req r).tokens

theorem Fits.congr {s s' : State} (f : Fits s) (h1 : s'.pending = s.pending) (h2 : s'.procs = s.procs) (h3 : s'.repros = s.repros)
    (h4 : s'.wake = s.wake) (h5 : s'.used = s.used) (h6 : s'.max = s.max) (h7 : ∀ r, (s'.req r).tokens = (s.req r).tokens) : Fits s' := by
  intro r rest hp
  have := f r rest (by rw [← h1]; exact hp)
  unfold Coming at this ⊢
  rw [h2, h3, h4, h5, h6, h7]
  exact this

theorem Fits.coming {s : State} (h : Coming s) : Fits s := fun _ _ _ => Or.inl h

theorem upd_tokens {f : Nat → Req} {r : Nat} {q : Req} (h : q.tokens = (f r).tokens) (x : Nat) : (upd f r q x).tokens = (f x).tokens := by
  unfold upd; split
  · rename_i e; rw [h, e]
  · rfl

theorem fits_request {s : State} (f : Fits s) (n : Int) : Fits (request s n) := by
  unfold request
  split
  · exact f
  split
  · exact f
  simp only
  split
  · exact Fits.coming (Or.inl (Nat.succ_pos _))
  · exact Fits.coming (Or.inr (Or.inl (Nat.succ_pos _)))

theorem fits_wait {s : State} (f : Fits s) (r : Nat) (t : Bool) : Fits (wait s r t) := by
  unfold wait
  split
  · cases t <;> simp only [if_true, Bool.false_eq_true, if_false] <;> (repeat' split) <;>
      first
      | exact f
      | exact f.congr rfl rfl rfl rfl rfl rfl (fun _ => rfl)
      | exact f.congr rfl rfl rfl rfl rfl rfl (upd_tokens (by rfl))
  · exact f

theorem fits_process {s : State} (a : Option Int) : Fits (process s a) := by
  unfold process
  split
  · rename_i h; intro r rest hp; rw [h] at hp; cases hp
  · rename_i r rest h
    split
    · rename_i hu; exact fun _ _ _ => Or.inr (Or.inl hu)
    simp only
    split
    · exact Fits.coming (Or.inr (Or.inl (Nat.succ_pos _)))
    split
    · rename_i hq
      intro r' rest' hp
      rw [h] at hp; cases hp
      exact Or.inr (Or.inr hq.2)
    · by_cases hr : rest = []
      · intro r' rest' hp
        simp only [hr] at hp; cases hp
      · exact Fits.coming (Or.inr (Or.inl (by simp only [if_neg hr]; exact Nat.succ_pos _)))

theorem fits_reprocess {s : State} : Fits (reprocess s) := by
  unfold reprocess
  split
  · rename_i h; exact Fits.coming (Or.inr (Or.inr (by rw [h]; rfl)))
  split
  · exact Fits.coming (Or.inr (Or.inr rfl))
  split
  · exact Fits.coming (Or.inr (Or.inr rfl))
  · exact Fits.coming (Or.inl (Nat.succ_pos _))


/-- Neither a timeout of a wait nor Shutdown. -/
def Calm : Label → Prop
  | .timer _ | .shutdown => False
  | _ => True

theorem fits_step {s s' : State} {l : Label} (f : Fits s) (c : Calm l) (h : step s l = some s') : Fits s' := by
  cases l with
  | timer r => exact absurd c (fun h => h)
  | shutdown => exact absurd c (fun h => h)
  | request n => simp only [step] at h; split at h; cases h; cases h; exact fits_request f n
  | wait r t => simp only [step] at h; split at h; cases h; cases h; exact fits_wait f r t
  | waitTrue r => simp only [step] at h; split at h; cases h; exact f.congr rfl rfl rfl rfl rfl rfl (upd_tokens (by rfl)); cases h
  | waitFalse r => simp only [step] at h; split at h; cases h; exact f.congr rfl rfl rfl rfl rfl rfl (upd_tokens (by rfl)); cases h
  | touch r =>
    simp only [step] at h; split at h; cases h; cases h; split
    · exact f.congr rfl rfl rfl rfl rfl rfl (upd_tokens (touch_tokens _))
    · exact f
  | release r =>
    simp only [step] at h; split at h; cases h; cases h; split
    · exact f.congr rfl rfl rfl rfl rfl rfl (upd_tokens (release_tokens _))
    · exact f
  | process a => simp only [step] at h; split at h; cases h; cases h; exact fits_process a
  | reprocess => simp only [step] at h; split at h; cases h; cases h; exact fits_reprocess
  | awake =>
    simp only [step] at h; split at h
    · split at h; cases h; cases h; exact Fits.coming (Or.inl (Nat.succ_pos _))
    · cases h
  | goLimit r =>
    simp only [step] at h; split at h
    · split at h; cases h; exact f.congr rfl rfl rfl rfl rfl rfl (upd_tokens (by rfl)); cases h
    · cases h
  | goFinish r => simp only [step] at h; split at h; cases h; exact f.congr rfl rfl rfl rfl rfl rfl (upd_tokens (by rfl)); cases h
  | goRelease r =>
    simp only [step] at h; split at h
    · split at h; cases h; exact f.congr rfl rfl rfl rfl rfl rfl (upd_tokens (by rfl)); cases h
    · cases h
  | goTouch r =>
    simp only [step] at h; split at h
    · split at h; cases h; exact f.congr rfl rfl rfl rfl rfl rfl (upd_tokens (by rfl)); cases h
    · cases h
  | goReturn r =>
    simp only [step] at h; split at h; cases h; cases h
    by_cases hp : s.pending = []
    · intro r' rest' hp'; rw [show (giveBack s r).pending = s.pending from rfl, hp] at hp'; cases hp'
    · exact Fits.coming (Or.inr (Or.inl (by simp only [giveBack, if_neg hp]; exact Nat.succ_pos _)))
  | tick d => simp only [step] at h; cases h; exact f.congr rfl rfl rfl rfl rfl rfl (fun _ => rfl)

theorem fits_run : ∀ (ls : List Label) {s s' : State}, Fits s → (∀ l ∈ ls, Calm l) → run s ls = some s' → Fits s'
  | [], s, s', f, _, h => by simp only [run] at h; cases h; exact f
  | l :: ls, s, s', f, c, h => by
    simp only [run] at h
    obtain ⟨x, hx, hy⟩ := Option.bind_eq_some_iff.1 h
    exact fits_run ls (fits_step f (c l (List.mem_cons_self ..)) hx) (fun m hm => c m (List.mem_cons_of_mem _ hm)) hy

/-- C56: if the request whose turn it is fits in the tokens that are free, somebody is on the way to grant it: it does not have to wait for
other tokens to be returned. Here for histories without Shutdown in which no wait times out. -/
theorem C56_fits_partial (max : Int) (delay timeout : Nat) (ls : List Label) (s : State) (calm : ∀ l ∈ ls, Calm l)
    (h : run (new max delay timeout) ls = some s) (r : Nat) (rest : List Nat) (hp : s.pending = r :: rest)
    (h1 : 1 ≤ (s.req r).tokens) (h2 : s.used + (s.req r).tokens ≤ s.max) :
    0 < s.procs ∨ 0 < s.repros ∨ s.wake.isSome = true := by
  have f : Fits (new max delay timeout) := by intro r rest hp; simp [new] at hp
  rcases fits_run ls f calm h r rest hp with hc | hu | hu
  · exact hc
  · omega
  · omega

/-- two requests for one token are granted one after the other, a third is on its way -/
example : ∃ s, run (new 3 5 10) [.request 1, .request 1, .request 1, .process none, .reprocess, .tick 5, .awake, .process none] = some s ∧
    s.pending = [2] ∧ s.used + (s.req 2).tokens ≤ s.max ∧ s.repros = 3 :=
  ⟨_, rfl, by decide +kernel, by decide +kernel, by decide +kernel⟩

/-- C56 is violated when a wait times out: the request behind it fits in the tokens that are free, but nobody is on the way to grant it; it
waits for tokens of others to be returned, or for another request to be made. -/
theorem C56_violated_timeout : ∃ ls s, run (new 3 5 10) ls = some s ∧ (∀ l ∈ ls, Tame l) ∧ s.pending = [2] ∧ (s.req 2).tokens = 1 ∧ s.used = 1 ∧
    s.procs = 0 ∧ s.repros = 0 ∧ s.wake = none ∧ s.stuck = false :=
  ⟨[.request 1, .process none, .request 3, .request 1, .reprocess, .reprocess, .tick 5, .awake, .process none, .wait 1 true, .timer 1, .waitFalse 1],
    _, rfl, by intro l hl; simp at hl; rcases hl with rfl | rfl | rfl | rfl | rfl | rfl | rfl | rfl | rfl | rfl | rfl | rfl <;> simp [Tame], by decide +kernel, by decide +kernel,
    by decide +kernel, by decide +kernel, by decide +kernel, by decide +kernel, by decide +kernel⟩

/-- C57: touching a request that is not granted has no effect at all. -/
theorem C57_touch (s s' : State) (r : Nat) (h : (granted s r).1 = false) (hs : step s (.touch r) = some s') : s' = s := by
  simp only [step] at hs
  split at hs
  · cases hs
  cases hs
  split
  · rename_i hm
    have e : touch (s.req r) = s.req r := by
      unfold granted at h
      rw [if_pos hm] at h
      unfold touch
      split
      · rfl
      · rename_i hq
        split at h
        · cases h
        · rename_i hg
          exfalso
          cases ha : (s.req r).active <;> cases hd : (s.req r).done <;> simp [ha, hd] at hq hg
    rw [e]
    have : upd s.req r (s.req r) = s.req := by
      funext x; unfold upd; split
      · rename_i e; rw [e]
      · rfl
    rw [this]
  · rfl

example : ∃ s, run (new 2 0 10) [.request 2, .request 1, .process none, .touch 1] = some s ∧ (granted s 1) = (false, true) :=
  ⟨_, rfl, by decide +kernel⟩

/-- C20: once a granted request is released, one is told that it is not granted and that there is no point in asking again. -/
theorem C20_released (s s' : State) (r : Nat) (h : (granted s r).1 = true) (hs : step s (.release r) = some s') :
    granted s' r = (false, false) := by
  have hm : s.inMap r = true := by
    cases hm : s.inMap r with
    | true => rfl
    | false => simp [granted, hm] at h
  have ha : (s.req r).active = true ∧ (s.req r).done = false := by
    unfold granted at h
    rw [if_pos hm] at h
    cases ha : (s.req r).active <;> cases hd : (s.req r).done <;> simp [ha, hd] at h ⊢
  simp only [step] at hs
  split at hs
  · cases hs
  cases hs
  unfold granted
  simp [hm, upd, release, ha.1, ha.2]

example : ∃ s s', run (new 2 0 10) [.request 2, .process none] = some s ∧ granted s 0 = (true, false) ∧ step s (.release 0) = some s' ∧
    granted s' 0 = (false, false) := ⟨_, _, rfl, by decide +kernel, rfl, by decide +kernel⟩

end Verif.Rp
