import Verif.Server.Race
/-
Properties of concurrent requests: C124.
-/
namespace Verif.Server.Race

/-! ## specification -/

/-- a history in which clients ask for the end of a job only once, and only if
they were handed it -/
def Proper (es : List Ev) : Prop := ∀ c k e kind, Ev.again c k e kind ∉ es

/-- the number of jobs in limit group `g` that clients are working on -/
def working (s : S) (g : Nat) : Nat := s.has.countP fun p => g ∈ (s.jobs p.2).groups

/-- no request is being handled and no client has a job -/
def Quiet (s : S) : Prop := (∀ t ∈ s.thr, t = .done) ∧ s.has = []

/-! ## sums over the goroutines -/

def tsum (f : Thr → Nat) (l : List Thr) : Nat := (l.map f).sum

theorem tsum_append (f : Thr → Nat) (l : List Thr) (t : Thr) : tsum f (l ++ [t]) = tsum f l + f t := by
  simp [tsum]

theorem tsum_set (f : Thr → Nat) {l : List Thr} {i : Nat} {t : Thr} (h : l[i]? = some t) (t' : Thr) :
    tsum f (l.set i t') + f t = tsum f l + f t' := by
  induction l generalizing i with
  | nil => simp at h
  | cons a l ih =>
    cases i with
    | zero =>
      simp only [List.getElem?_cons_zero, Option.some.injEq] at h
      subst h
      simp [tsum]
      omega
    | succ i =>
      simp only [List.getElem?_cons_succ] at h
      have := ih h
      simp only [tsum, List.set_cons_succ, List.map_cons, List.sum_cons] at this ⊢
      omega

theorem tsum_ge (f : Thr → Nat) {l : List Thr} {t : Thr} (h : t ∈ l) : f t ≤ tsum f l := by
  induction l with
  | nil => simp at h
  | cons a l ih =>
    simp only [tsum, List.map_cons, List.sum_cons]
    rcases List.mem_cons.1 h with rfl | h
    · omega
    · have := ih h
      unfold tsum at this
      omega

theorem tsum_ge2 (f : Thr → Nat) {l : List Thr} {i : Nat} {t t2 : Thr} (h : l[i]? = some t) (t' : Thr)
    (h2 : t2 ∈ l.set i t') : t2 = t' ∨ f t + f t2 ≤ tsum f l := by
  induction l generalizing i with
  | nil => simp at h
  | cons a l ih =>
    cases i with
    | zero =>
      simp only [List.getElem?_cons_zero, Option.some.injEq] at h
      subst h
      simp only [List.set_cons_zero, List.mem_cons] at h2
      rcases h2 with h2 | h2
      · exact Or.inl h2
      · right
        have := tsum_ge f h2
        simp only [tsum, List.map_cons, List.sum_cons] at this ⊢
        omega
    | succ i =>
      simp only [List.getElem?_cons_succ] at h
      simp only [List.set_cons_succ, List.mem_cons] at h2
      rcases h2 with rfl | h2
      · right
        have := tsum_ge f (List.mem_of_getElem? h)
        simp only [tsum, List.map_cons, List.sum_cons] at this ⊢
        omega
      · rcases ih h h2 with h3 | h3
        · exact Or.inl h3
        · right
          simp only [tsum, List.map_cons, List.sum_cons] at h3 ⊢
          omega

/-- 1 if the request holds job `k`, which must then be running -/
def occT (k : Nat) : Thr → Nat
  | .got _ _ x | .noted _ x | .reply _ x | .fin _ x _ _ | .act _ x _ _ _ _ | .achk _ x _ | .adec _ x _ | .aset _ x _
  | .alock _ x | .arem _ x => if x = k then 1 else 0
  | _ => 0

/-- the slots of `g` that the request holds or will give back -/
def wT (grp : Nat → List Nat) (g : Nat) : Thr → Nat
  | .slot _ gs | .empty gs | .got _ gs _ => gs.count g
  | .noted _ x | .reply _ x | .fin _ x _ _ | .act _ x _ _ _ _ | .chk x _ _ | .dec x _ _ | .achk _ x _ | .adec _ x _ =>
    (grp x).count g
  | _ => 0

def grp (s : S) (k : Nat) : List Nat := (s.jobs k).groups

def occH (l : List (Nat × Nat)) (k : Nat) : Nat := l.countP fun p => p.2 = k

def wH (gr : Nat → List Nat) (l : List (Nat × Nat)) (g : Nat) : Nat := (l.map fun p => (gr p.2).count g).sum

/-- the client and the job of a request that is the owner of the job -/
def ownT : Thr → Option (Nat × Nat)
  | .reply c k | .fin c k _ _ | .act c k _ _ _ _ | .achk c k _ | .adec c k _ | .aset c k _ | .alock c k | .arem c k =>
    some (c, k)
  | _ => none

def keyT : Thr → Option Nat
  | .got _ _ x | .noted _ x | .reply _ x | .fin _ x _ _ | .act _ x _ _ _ _ | .chk x _ _ | .dec x _ _ | .set x _ _
  | .last x _ | .achk _ x _ | .adec _ x _ | .aset _ x _ | .alock _ x | .arem _ x | .st _ x | .kicked x => some x
  | _ => none

def gsT : Thr → List Nat
  | .resv _ gs | .slot _ gs | .empty gs | .got _ gs _ => gs
  | _ => []

def runN (j : Job) : Nat := if j.sub = .run then 1 else 0

theorem runN_le (j : Job) : runN j ≤ 1 := by unfold runN; split <;> omega

structure Inv (s : S) : Prop where
  occ : ∀ k, tsum (occT k) s.thr + occH s.has k ≤ runN (s.jobs k)
  w : ∀ g, tsum (wT (grp s) g) s.thr + wH (grp s) s.has g ≤ s.count g
  held : ∀ k, (s.jobs k).held = [] ∨ (s.jobs k).held = (s.jobs k).groups
  got : ∀ c gs k, Thr.got c gs k ∈ s.thr → gs = (s.jobs k).groups
  own : ∀ t ∈ s.thr, ∀ c k, ownT t = some (c, k) → (s.jobs k).owner = some c
  ownH : ∀ p ∈ s.has, (s.jobs p.2).owner = some p.1
  ment : ∀ t ∈ s.thr, ∀ k, keyT t = some k → (s.jobs k).sub ≠ .absent
  mentH : ∀ p ∈ s.has, (s.jobs p.2).sub ≠ .absent
  noheld : ∀ k, (s.jobs k).sub = .absent → (s.jobs k).held = []

/-- the counts stay within the limits -/
structure Lim (s : S) : Prop where
  lim : ∀ g n, s.lim g = some n → s.count g ≤ n
  nodup : ∀ t ∈ s.thr, (gsT t).Nodup

theorem mem_set {l : List Thr} {i : Nat} {t t' : Thr} (h : t ∈ l.set i t') : t ∈ l ∨ t = t' :=
  List.mem_or_eq_of_mem_set h

theorem room_spec {s : S} {gs : List Nat} (h : room s gs = true) {g n : Nat} (hg : g ∈ gs) (hl : s.lim g = some n) :
    s.count g < n := by
  have := List.all_eq_true.1 h g hg
  simp only [hl] at this
  simpa using this

theorem Lim.of {s s' : S} (h : Lim s) (hc : ∀ g, s'.count g ≤ s.count g) (hl : s'.lim = s.lim)
    (ht : ∀ t ∈ s'.thr, t ∈ s.thr ∨ (gsT t).Nodup) : Lim s' := by
  constructor
  · intro g n hg
    rw [hl] at hg
    exact Nat.le_trans (hc g) (h.lim g n hg)
  · intro t hx
    rcases ht t hx with hx | hx
    · exact h.nodup t hx
    · exact hx

@[simp] theorem put_count (s : S) (k : Nat) (j : Job) : (put s k j).count = s.count := rfl
@[simp] theorem put_lim (s : S) (k : Nat) (j : Job) : (put s k j).lim = s.lim := rfl
@[simp] theorem put_thr (s : S) (k : Nat) (j : Job) : (put s k j).thr = s.thr := rfl
@[simp] theorem put_has (s : S) (k : Nat) (j : Job) : (put s k j).has = s.has := rfl
theorem put_jobs (s : S) (k : Nat) (j : Job) (x : Nat) : (put s k j).jobs x = if x = k then j else s.jobs x := rfl
@[simp] theorem go_count (s : S) (i : Nat) (t : Thr) : (go s i t).count = s.count := rfl
@[simp] theorem go_lim (s : S) (i : Nat) (t : Thr) : (go s i t).lim = s.lim := rfl
@[simp] theorem go_thr (s : S) (i : Nat) (t : Thr) : (go s i t).thr = s.thr.set i t := rfl
@[simp] theorem go_has (s : S) (i : Nat) (t : Thr) : (go s i t).has = s.has := rfl
@[simp] theorem go_jobs (s : S) (i : Nat) (t : Thr) : (go s i t).jobs = s.jobs := rfl
@[simp] theorem tell_count (s : S) (t : Told) : (tell s t).count = s.count := rfl
@[simp] theorem tell_lim (s : S) (t : Told) : (tell s t).lim = s.lim := rfl
@[simp] theorem tell_thr (s : S) (t : Told) : (tell s t).thr = s.thr := rfl
@[simp] theorem tell_has (s : S) (t : Told) : (tell s t).has = s.has := rfl
@[simp] theorem tell_jobs (s : S) (t : Told) : (tell s t).jobs = s.jobs := rfl
@[simp] theorem decr_lim (s : S) (gs : List Nat) : (decr s gs).lim = s.lim := rfl
@[simp] theorem decr_thr (s : S) (gs : List Nat) : (decr s gs).thr = s.thr := rfl
@[simp] theorem decr_has (s : S) (gs : List Nat) : (decr s gs).has = s.has := rfl
@[simp] theorem decr_jobs (s : S) (gs : List Nat) : (decr s gs).jobs = s.jobs := rfl
theorem decr_count (s : S) (gs : List Nat) (g : Nat) : (decr s gs).count g = s.count g - gs.count g := rfl
@[simp] theorem inc_lim (s : S) (gs : List Nat) : (inc s gs).lim = s.lim := rfl
@[simp] theorem inc_thr (s : S) (gs : List Nat) : (inc s gs).thr = s.thr := rfl
@[simp] theorem inc_has (s : S) (gs : List Nat) : (inc s gs).has = s.has := rfl
@[simp] theorem inc_jobs (s : S) (gs : List Nat) : (inc s gs).jobs = s.jobs := rfl
theorem inc_count (s : S) (gs : List Nat) (g : Nat) : (inc s gs).count g = s.count g + gs.count g := rfl

theorem Lim.go {s s' : S} {i : Nat} {t t' : Thr} (h : Lim s) (hi : s.thr[i]? = some t)
    (hc : ∀ g, s'.count g ≤ s.count g) (hl : s'.lim = s.lim) (ht : s'.thr = s.thr.set i t')
    (hg : gsT t' = gsT t ∨ gsT t' = []) : Lim s' := by
  refine h.of hc hl ?_
  intro x hx
  rw [ht] at hx
  rcases mem_set hx with hx | rfl
  · exact Or.inl hx
  · right
    have := h.nodup t (List.mem_of_getElem? hi)
    rcases hg with hg | hg
    · rw [hg]; exact this
    · rw [hg]; exact List.nodup_nil

set_option maxHeartbeats 1000000 in
theorem lim_stepThr {s s' : S} {i : Nat} {ch : Option Nat} {t : Thr} (h : Lim s) (hi : s.thr[i]? = some t)
    (hs : stepThr s i ch t = some s') : Lim s' := by
  have le1 : ∀ gs g, (decr s gs).count g ≤ s.count g := fun gs g => by rw [decr_count]; omega
  cases t <;> simp only [stepThr] at hs
  case resv c gs =>
    have hnd := h.nodup _ (List.mem_of_getElem? hi)
    simp only [gsT] at hnd
    split at hs
    · rename_i hr
      obtain rfl := Option.some.inj hs
      constructor
      · intro g n hg
        simp only [go_lim, inc_lim] at hg
        simp only [go_count, inc_count]
        have h1 := h.lim g n hg
        by_cases hm : g ∈ gs
        · have := room_spec hr hm hg
          have h2 := List.nodup_iff_count.1 hnd g
          omega
        · rw [List.count_eq_zero_of_not_mem hm]; omega
      · intro x hx
        rcases mem_set hx with hx | rfl
        · exact h.nodup x hx
        · exact hnd
    · obtain rfl := Option.some.inj hs
      exact h.go hi (fun g => Nat.le_refl _) rfl rfl (Or.inr rfl)
  case slot c gs =>
    split at hs
    · obtain rfl := Option.some.inj hs
      exact h.go hi (fun g => Nat.le_refl _) rfl rfl (Or.inl rfl)
    · split at hs
      · obtain rfl := Option.some.inj hs
        exact h.go hi (fun g => Nat.le_refl _) rfl rfl (Or.inl rfl)
      · cases hs
  case empty gs =>
    obtain rfl := Option.some.inj hs
    exact h.go hi (fun g => le1 _ g) rfl rfl (Or.inr rfl)
  case dec k e fb =>
    obtain rfl := Option.some.inj hs
    exact h.go hi (fun g => le1 _ g) rfl rfl (Or.inr (by split <;> rfl))
  case adec c k e =>
    obtain rfl := Option.some.inj hs
    exact h.go hi (fun g => le1 _ g) rfl rfl (Or.inr (by split <;> rfl))
  case chk k e fb =>
    obtain rfl := Option.some.inj hs
    exact h.go hi (fun g => Nat.le_refl _) rfl rfl (Or.inr (by split <;> rfl))
  case achk c k e =>
    obtain rfl := Option.some.inj hs
    exact h.go hi (fun g => Nat.le_refl _) rfl rfl (Or.inr (by split <;> rfl))
  case done => cases hs
  all_goals
    (repeat' split at hs) <;> obtain rfl := Option.some.inj hs <;>
      exact h.go hi (fun g => Nat.le_refl _) rfl rfl (Or.inr rfl)

theorem request_shape (s : S) (c k : Nat) (e : End) (kind : Kind) :
    (∃ x, request s c k e kind = tell s x ∧ ((s.jobs k).sub = .run → (s.jobs k).owner ≠ some c)) ∨
    ((s.jobs k).owner = some c ∧ (s.jobs k).sub ≠ .absent ∧
      ∃ t, (t = .fin c k e false ∨ t = .fin c k e true ∨ t = .achk c k e) ∧
        request s c k e kind = { s with thr := s.thr ++ [t] }) := by
  unfold request tell
  simp only
  split
  · rename_i h; left; exact ⟨_, rfl, by intro h1; simp [h1] at h⟩
  · split
    · rename_i h; left; exact ⟨_, rfl, by intro h1; simp [h1] at h⟩
    · split
      · rename_i h; left; exact ⟨_, rfl, fun _ => h⟩
      · rename_i h1 h2 h3
        right
        refine ⟨by simpa using h3, by intro h; exact h1 (Or.inl h), ?_⟩
        cases kind
        · exact ⟨_, Or.inl rfl, rfl⟩
        · exact ⟨_, Or.inr (Or.inl rfl), rfl⟩
        · exact ⟨_, Or.inr (Or.inr rfl), rfl⟩

theorem lim_request {s : S} {c k : Nat} {e : End} {kind : Kind} (h : Lim s) : Lim (request s c k e kind) := by
  rcases request_shape s c k e kind with ⟨x, hx, _⟩ | ⟨_, _, t, ht, hx⟩
  · rw [hx]; exact h.of (fun _ => Nat.le_refl _) rfl (fun t ht => Or.inl ht)
  · rw [hx]
    refine h.of (fun _ => Nat.le_refl _) rfl (fun y hy => ?_)
    rcases List.mem_append.1 hy with hy | hy
    · exact Or.inl hy
    · simp only [List.mem_singleton] at hy
      subst hy
      right
      rcases ht with rfl | rfl | rfl <;> exact List.nodup_nil

theorem lim_step {s s' : S} {ev : Ev} (h : Lim s) (hs : step s ev = some s') : Lim s' := by
  cases ev <;> simp only [step] at hs
  case add k r gs =>
    split at hs
    · obtain rfl := Option.some.inj hs
      exact h.of (fun _ => Nat.le_refl _) rfl (fun t ht => Or.inl ht)
    · cases hs
  case reserve c gs =>
    split at hs
    · rename_i hn
      obtain rfl := Option.some.inj hs
      refine h.of (fun _ => Nat.le_refl _) rfl (fun t ht => ?_)
      rcases List.mem_append.1 ht with ht | ht
      · exact Or.inl ht
      · simp only [List.mem_singleton] at ht; subst ht; exact Or.inr hn
    · cases hs
  case finish i e kind =>
    split at hs
    · obtain rfl := Option.some.inj hs
      exact lim_request (h.of (fun _ => Nat.le_refl _) rfl (fun t ht => Or.inl ht))
    · cases hs
  case again c k e kind =>
    obtain rfl := Option.some.inj hs
    exact lim_request h
  case start c k =>
    split at hs
    · obtain rfl := Option.some.inj hs
      refine h.of (fun _ => Nat.le_refl _) rfl (fun t ht => ?_)
      rcases List.mem_append.1 ht with ht | ht
      · exact Or.inl ht
      · simp only [List.mem_singleton] at ht; subst ht; exact Or.inr List.nodup_nil
    · cases hs
  case step i ch =>
    split at hs
    · rename_i t ht
      exact lim_stepThr h ht hs
    · cases hs
  case expire k =>
    split at hs
    · obtain rfl := Option.some.inj hs
      exact h.of (fun _ => Nat.le_refl _) rfl (fun t ht => Or.inl ht)
    · cases hs
  case kick k =>
    split at hs
    · obtain rfl := Option.some.inj hs
      refine h.of (fun _ => Nat.le_refl _) rfl (fun t ht => ?_)
      rcases List.mem_append.1 ht with ht | ht
      · exact Or.inl ht
      · simp only [List.mem_singleton] at ht; subst ht; exact Or.inr List.nodup_nil
    · cases hs
  case del k =>
    split at hs
    · obtain rfl := Option.some.inj hs
      exact h.of (fun _ => Nat.le_refl _) rfl (fun t ht => Or.inl ht)
    · cases hs

/-! ## the invariant -/

/-- a step of one goroutine -/
theorem inv_go {s s' : S} {i : Nat} {t t' : Thr} (h : Inv s) (hi : s.thr[i]? = some t)
    (hthr : s'.thr = s.thr.set i t') (hhas : s'.has = s.has)
    (hgr : ∀ k, (s'.jobs k).groups = (s.jobs k).groups)
    (hocc : ∀ k, occT k t' + runN (s.jobs k) ≤ occT k t + runN (s'.jobs k))
    (hw : ∀ g, wT (grp s) g t' + s.count g ≤ wT (grp s) g t + s'.count g)
    (hheld : ∀ k, (s'.jobs k).held = [] ∨ (s'.jobs k).held = (s.jobs k).groups)
    (hgot : ∀ c gs k, t' = Thr.got c gs k → gs = (s.jobs k).groups)
    (hown : ∀ c k, ownT t' = some (c, k) → (s'.jobs k).owner = some c)
    (howner : ∀ k, (s'.jobs k).owner = (s.jobs k).owner ∨ 1 ≤ occT k t)
    (hment : ∀ k, keyT t' = some k → (s'.jobs k).sub ≠ .absent)
    (habs : ∀ k, (s'.jobs k).sub = .absent → (s.jobs k).sub = .absent)
    (hnoheld : ∀ k, (s'.jobs k).sub = .absent → (s'.jobs k).held = []) : Inv s' := by
  have egr : grp s' = grp s := funext hgr
  constructor
  · intro k
    have := h.occ k
    have e := tsum_set (occT k) hi t'
    have h1 := hocc k
    rw [hthr, hhas]
    omega
  · intro g
    have := h.w g
    have e := tsum_set (wT (grp s) g) hi t'
    have h1 := hw g
    rw [hthr, hhas, egr]
    omega
  · intro k; rw [hgr]; exact hheld k
  · intro c gs k hk
    rw [hgr]
    rw [hthr] at hk
    rcases mem_set hk with hk | hk
    · exact h.got c gs k hk
    · exact hgot c gs k hk.symm
  · intro t2 ht2 c k hk
    rw [hthr] at ht2
    rcases tsum_ge2 (occT k) hi t' ht2 with rfl | h2
    · exact hown c k hk
    · rcases mem_set ht2 with hm | rfl
      · rcases howner k with h3 | h3
        · rw [h3]; exact h.own t2 hm c k hk
        · have h4 : occT k t2 = 1 := by
            cases t2 <;> simp only [ownT, Option.some.injEq, Prod.mk.injEq, reduceCtorEq] at hk <;>
              simp [occT, hk.2]
          have := h.occ k
          have := runN_le (s.jobs k)
          omega
      · exact hown c k hk
  · intro p hp
    rw [hhas] at hp
    rcases howner p.2 with h3 | h3
    · rw [h3]; exact h.ownH p hp
    · have := h.occ p.2
      have h5 : 1 ≤ occH s.has p.2 := List.countP_pos_iff.2 ⟨p, hp, by simp⟩
      have h6 := tsum_ge (occT p.2) (List.mem_of_getElem? hi)
      have := runN_le (s.jobs p.2)
      omega
  · intro t2 ht2 k hk
    rw [hthr] at ht2
    rcases mem_set ht2 with hm | rfl
    · intro ha
      exact h.ment t2 hm k hk (habs k ha)
    · exact hment k hk
  · intro p hp ha
    rw [hhas] at hp
    exact h.mentH p hp (habs _ ha)
  · exact hnoheld

set_option maxHeartbeats 8000000 in
theorem inv_stepThr {s s' : S} {i : Nat} {ch : Option Nat} {t : Thr} (h : Inv s) (hi : s.thr[i]? = some t)
    (ht : ∀ c k, t ≠ .reply c k) (hs : stepThr s i ch t = some s') : Inv s' := by
  have hin := List.mem_of_getElem? hi
  have hm := h.ment t hin
  have ho := h.own t hin
  have hheld := h.held
  have hnh := h.noheld
  have hgot := h.got
  have hc : ∀ g, wT (grp s) g t ≤ s.count g := fun g => by
    have h1 := h.w g
    have := tsum_ge (wT (grp s) g) hin
    omega
  have hocc : ∀ k, occT k t ≤ runN (s.jobs k) := fun k => by
    have h1 := h.occ k
    have := tsum_ge (occT k) hin
    omega
  have hcnt : ∀ k g, (s.jobs k).held.count g ≤ (s.jobs k).groups.count g := fun k g => by
    rcases hheld k with h1 | h1 <;> rw [h1] <;> simp
  cases t <;> simp only [stepThr] at hs
  case done => cases hs
  case reply c k => exact absurd rfl (ht c k)
  all_goals
    (repeat' split at hs) <;> first
    | (exfalso; cases hs; done)
    | (obtain rfl := Option.some.inj hs
       clear hs
       refine inv_go h hi rfl rfl ?_ ?_ ?_ ?_ ?_ ?_ ?_ ?_ ?_ ?_ <;>
         (try simp only [go_jobs, put_jobs, go_count, put_count, decr_jobs, tell_jobs, tell_count, inc_jobs]) <;>
         grind [occT, wT, ownT, keyT, runN, grp, decr_count, inc_count])

theorem occH_append (l : List (Nat × Nat)) (p : Nat × Nat) (k : Nat) :
    occH (l ++ [p]) k = occH l k + if p.2 = k then 1 else 0 := by
  simp [occH, List.countP_append, List.countP_cons]

theorem wH_append (gr : Nat → List Nat) (l : List (Nat × Nat)) (p : Nat × Nat) (g : Nat) :
    wH gr (l ++ [p]) g = wH gr l g + (gr p.2).count g := by
  simp [wH]

theorem occH_erase {l : List (Nat × Nat)} {i : Nat} {p : Nat × Nat} (h : l[i]? = some p) (k : Nat) :
    occH (l.eraseIdx i) k + (if p.2 = k then 1 else 0) = occH l k := by
  induction l generalizing i with
  | nil => simp at h
  | cons a l ih =>
    cases i with
    | zero =>
      simp only [List.getElem?_cons_zero, Option.some.injEq] at h
      subst h
      simp [occH, List.countP_cons]
    | succ i =>
      simp only [List.getElem?_cons_succ] at h
      have := ih h
      simp only [occH, List.eraseIdx_cons_succ, List.countP_cons] at this ⊢
      omega

theorem wH_erase (gr : Nat → List Nat) {l : List (Nat × Nat)} {i : Nat} {p : Nat × Nat} (h : l[i]? = some p) (g : Nat) :
    wH gr (l.eraseIdx i) g + (gr p.2).count g = wH gr l g := by
  induction l generalizing i with
  | nil => simp at h
  | cons a l ih =>
    cases i with
    | zero =>
      simp only [List.getElem?_cons_zero, Option.some.injEq] at h
      subst h
      simp [wH]
      omega
    | succ i =>
      simp only [List.getElem?_cons_succ] at h
      have := ih h
      simp only [wH, List.eraseIdx_cons_succ, List.map_cons, List.sum_cons] at this ⊢
      omega

theorem occH_pos {l : List (Nat × Nat)} {p : Nat × Nat} (h : p ∈ l) : 1 ≤ occH l p.2 :=
  List.countP_pos_iff.2 ⟨p, h, by simp⟩

/-- a client that has a job owns it, and the job is running -/
theorem Inv.hasRun {s : S} (h : Inv s) {p : Nat × Nat} (hp : p ∈ s.has) :
    (s.jobs p.2).sub = .run ∧ (s.jobs p.2).owner = some p.1 := by
  refine ⟨?_, h.ownH p hp⟩
  have h1 := h.occ p.2
  have h2 := occH_pos hp
  unfold runN at h1
  split at h1
  · assumption
  · omega

theorem request_has {s : S} (c k : Nat) (e : End) (kind : Kind) (h1 : (s.jobs k).sub = .run)
    (h2 : (s.jobs k).owner = some c) :
    ∃ t, (t = .fin c k e false ∨ t = .fin c k e true ∨ t = .achk c k e) ∧
      request s c k e kind = { s with thr := s.thr ++ [t] } := by
  rcases request_shape s c k e kind with ⟨x, _, hx⟩ | ⟨_, _, h⟩
  · exact absurd h2 (hx h1)
  · exact h

theorem inv_reply {s : S} {i c k : Nat} (h : Inv s) (hi : s.thr[i]? = some (.reply c k)) :
    Inv { go s i .done with has := s.has ++ [(c, k)] } := by
  have hin := List.mem_of_getElem? hi
  have hm := h.ment _ hin
  have ho := h.own _ hin
  constructor
  · intro x
    have h1 := h.occ x
    have e := tsum_set (occT x) hi .done
    simp only [go_thr, go_jobs, occH_append]
    simp only [occT] at e
    omega
  · intro g
    have h1 := h.w g
    have e := tsum_set (wT (grp s) g) hi .done
    show tsum (wT (grp s) g) (s.thr.set i .done) + wH (grp s) (s.has ++ [(c, k)]) g ≤ s.count g
    rw [wH_append]
    simp only [wT] at e ⊢
    omega
  · exact h.held
  · intro c' gs x hx
    rcases mem_set hx with hx | hx
    · exact h.got _ _ _ hx
    · cases hx
  · intro t ht c' x hx
    rcases mem_set ht with ht | rfl
    · exact h.own _ ht _ _ hx
    · cases hx
  · intro p hp
    rcases List.mem_append.1 hp with hp | hp
    · exact h.ownH p hp
    · simp only [List.mem_singleton] at hp
      subst hp
      exact ho _ _ rfl
  · intro t ht x hx
    rcases mem_set ht with ht | rfl
    · exact h.ment _ ht _ hx
    · cases hx
  · intro p hp
    rcases List.mem_append.1 hp with hp | hp
    · exact h.mentH p hp
    · simp only [List.mem_singleton] at hp
      subst hp
      exact hm _ rfl
  · exact h.noheld

theorem inv_finish {s : S} {i c k : Nat} {e : End} {kind : Kind} (h : Inv s) (hi : s.has[i]? = some (c, k)) :
    Inv (request { s with has := s.has.eraseIdx i } c k e kind) := by
  have hin := List.mem_of_getElem? hi
  obtain ⟨h1, h2⟩ := h.hasRun hin
  obtain ⟨t, ht, hr⟩ := request_has (s := { s with has := s.has.eraseIdx i }) c k e kind h1 h2
  rw [hr]
  have sub : ∀ p ∈ s.has.eraseIdx i, p ∈ s.has := fun p hp => List.mem_of_mem_eraseIdx hp
  have ot : ∀ x, occT x t = if k = x then 1 else 0 := by intro x; rcases ht with rfl | rfl | rfl <;> rfl
  have wt : ∀ g, wT (grp s) g t = (grp s k).count g := by intro x; rcases ht with rfl | rfl | rfl <;> rfl
  have ow : ownT t = some (c, k) := by rcases ht with rfl | rfl | rfl <;> rfl
  have ky : keyT t = some k := by rcases ht with rfl | rfl | rfl <;> rfl
  have ng : ∀ c' gs x, t ≠ .got c' gs x := by intro c' gs x hx; rcases ht with rfl | rfl | rfl <;> cases hx
  constructor
  · intro x
    have h3 := h.occ x
    have h4 := occH_erase hi x
    simp only [tsum_append, ot]
    simp only at h4
    omega
  · intro g
    have h3 := h.w g
    have h4 := wH_erase (grp s) hi g
    show tsum (wT (grp s) g) (s.thr ++ [t]) + wH (grp s) (s.has.eraseIdx i) g ≤ s.count g
    rw [tsum_append, wt]
    simp only at h4
    omega
  · exact h.held
  · intro c' gs x hx
    rcases List.mem_append.1 hx with hx | hx
    · exact h.got _ _ _ hx
    · exact absurd (List.mem_singleton.1 hx).symm (ng _ _ _)
  · intro t' ht' c' x hx
    rcases List.mem_append.1 ht' with ht' | ht'
    · exact h.own _ ht' _ _ hx
    · rw [List.mem_singleton.1 ht', ow] at hx
      cases hx
      exact h2
  · intro p hp
    exact h.ownH p (sub p hp)
  · intro t' ht' x hx
    rcases List.mem_append.1 ht' with ht' | ht'
    · exact h.ment _ ht' _ hx
    · rw [List.mem_singleton.1 ht', ky] at hx
      cases hx
      exact h.mentH _ hin
  · intro p hp
    exact h.mentH p (sub p hp)
  · exact h.noheld

/-- the jobs change, but not their groups, owners and notes; a goroutine that
holds nothing may be started -/
theorem inv_other {s s' : S} (h : Inv s) (l : List Thr) (hthr : s'.thr = s.thr ++ l) (hhas : s'.has = s.has)
    (hcount : s'.count = s.count) (hgr : ∀ k, (s'.jobs k).groups = (s.jobs k).groups)
    (hrun : ∀ k, (s.jobs k).sub = .run → (s'.jobs k).sub = .run)
    (hheld : ∀ k, (s'.jobs k).held = (s.jobs k).held) (hown : ∀ k, (s'.jobs k).owner = (s.jobs k).owner)
    (habs : ∀ k, (s'.jobs k).sub = .absent → (s.jobs k).sub = .absent)
    (hl : l = [] ∨ ∃ t, l = [t] ∧ (∀ k, occT k t = 0) ∧ (∀ gr g, wT gr g t = 0) ∧ ownT t = none ∧
      (∀ c gs k, t ≠ .got c gs k) ∧ ∀ k, keyT t = some k → (s'.jobs k).sub ≠ .absent) : Inv s' := by
  have egr : grp s' = grp s := funext hgr
  have e1 : ∀ k, tsum (occT k) s'.thr = tsum (occT k) s.thr := by
    intro k; rw [hthr]
    rcases hl with rfl | ⟨t, rfl, h1, _⟩
    · simp
    · rw [tsum_append, h1]; rfl
  have e2 : ∀ gr g, tsum (wT gr g) s'.thr = tsum (wT gr g) s.thr := by
    intro gr g; rw [hthr]
    rcases hl with rfl | ⟨t, rfl, _, h1, _⟩
    · simp
    · rw [tsum_append, h1]; rfl
  have e3 : ∀ t ∈ s'.thr, t ∈ s.thr ∨ (ownT t = none ∧ (∀ c gs k, t ≠ .got c gs k) ∧
      ∀ k, keyT t = some k → (s'.jobs k).sub ≠ .absent) := by
    intro t ht
    rw [hthr] at ht
    rcases List.mem_append.1 ht with ht | ht
    · exact Or.inl ht
    · rcases hl with rfl | ⟨t', rfl, _, _, h1⟩
      · cases ht
      · rw [List.mem_singleton.1 ht]; exact Or.inr h1
  have hr : ∀ k, runN (s.jobs k) ≤ runN (s'.jobs k) := by
    intro k; have := hrun k; unfold runN; split
    · rename_i h1; rw [if_pos (this h1)]; exact Nat.le_refl _
    · omega
  constructor
  · intro k; rw [e1, hhas]; exact Nat.le_trans (h.occ k) (hr k)
  · intro g; rw [e2, hhas, hcount, egr]; exact h.w g
  · intro k; rw [hheld, hgr]; exact h.held k
  · intro c gs k hk
    rw [hgr]
    rcases e3 _ hk with hk | hk
    · exact h.got _ _ _ hk
    · exact absurd rfl (hk.2.1 c gs k)
  · intro t ht c k hk
    rw [hown]
    rcases e3 _ ht with ht | ht
    · exact h.own _ ht _ _ hk
    · rw [ht.1] at hk; cases hk
  · intro p hp; rw [hhas] at hp; rw [hown]; exact h.ownH p hp
  · intro t ht k hk
    rcases e3 _ ht with ht | ht
    · exact fun ha => h.ment _ ht _ hk (habs k ha)
    · exact ht.2.2 k hk
  · intro p hp ha; rw [hhas] at hp; exact h.mentH p hp (habs _ ha)
  · intro k hk; rw [hheld]; exact h.noheld k (habs k hk)

theorem tsum_congr {f g : Thr → Nat} {l : List Thr} (h : ∀ t ∈ l, f t = g t) : tsum f l = tsum g l := by
  unfold tsum
  rw [List.map_congr_left h]

theorem inv_add {s : S} {k r : Nat} {gs : List Nat} (h : Inv s) (ha : (s.jobs k).sub = .absent) :
    Inv (put s k ⟨.ready, none, false, false, false, r + 1, r, .ready, [], gs⟩) := by
  have hne : ∀ t ∈ s.thr, ∀ x, keyT t = some x → x ≠ k := fun t ht x hx e => h.ment t ht x hx (e ▸ ha)
  have hnH : ∀ p ∈ s.has, p.2 ≠ k := fun p hp e => h.mentH p hp (e ▸ ha)
  constructor
  · intro x
    have := h.occ x
    simp only [put_thr, put_has, put_jobs]
    split
    · rename_i e
      subst e
      simp only [runN, ha] at this ⊢
      simpa using this
    · exact this
  · intro g
    have e1 : tsum (wT (grp (put s k ⟨.ready, none, false, false, false, r + 1, r, .ready, [], gs⟩)) g) s.thr =
        tsum (wT (grp s) g) s.thr := by
      apply tsum_congr
      intro t ht
      have := hne t ht
      cases t <;> simp only [wT, keyT, grp, put_jobs] at this ⊢ <;> grind
    have e2 : wH (grp (put s k ⟨.ready, none, false, false, false, r + 1, r, .ready, [], gs⟩)) s.has g =
        wH (grp s) s.has g := by
      unfold wH
      congr 1
      apply List.map_congr_left
      intro p hp
      simp only [grp, put_jobs, if_neg (hnH p hp)]
    simp only [put_thr, put_has, put_count, e1, e2]
    exact h.w g
  · intro x; simp only [put_jobs]; split
    · exact Or.inl rfl
    · exact h.held x
  · intro c gs' x hx
    simp only [put_jobs]
    rw [if_neg (hne _ hx x rfl)]
    exact h.got _ _ _ hx
  · intro t ht c x hx
    have hk : keyT t = some x := by
      cases t <;> simp only [ownT, Option.some.injEq, Prod.mk.injEq, reduceCtorEq] at hx <;> simp [keyT, hx.2]
    simp only [put_jobs]
    rw [if_neg (hne _ ht x hk)]
    exact h.own _ ht _ _ hx
  · intro p hp
    simp only [put_jobs]
    rw [if_neg (hnH p hp)]
    exact h.ownH p hp
  · intro t ht x hx
    simp only [put_jobs]
    rw [if_neg (hne _ ht x hx)]
    exact h.ment t ht x hx
  · intro p hp
    simp only [put_jobs]
    rw [if_neg (hnH p hp)]
    exact h.mentH p hp
  · intro x
    simp only [put_jobs]
    split
    · intro _; rfl
    · exact h.noheld x

theorem inv_step {s s' : S} {ev : Ev} (h : Inv s) (hp : ∀ c k e kind, ev ≠ .again c k e kind)
    (hs : step s ev = some s') : Inv s' := by
  cases ev <;> simp only [step] at hs
  case add k r gs =>
    split at hs
    · rename_i ha
      obtain rfl := Option.some.inj hs
      exact inv_add h ha.1
    · cases hs
  case reserve c gs =>
    split at hs
    · obtain rfl := Option.some.inj hs
      exact inv_other h [.resv c gs] rfl rfl rfl (fun _ => rfl) (fun _ h => h) (fun _ => rfl) (fun _ => rfl)
        (fun _ h => h) (Or.inr ⟨_, rfl, fun _ => rfl, fun _ _ => rfl, rfl, fun _ _ _ h => (by cases h), fun _ h => (by cases h)⟩)
    · cases hs
  case finish i e kind =>
    split at hs
    · rename_i c k hi
      obtain rfl := Option.some.inj hs
      exact inv_finish h hi
    · cases hs
  case again c k e kind => exact absurd rfl (hp c k e kind)
  case start c k =>
    split at hs
    · rename_i hk
      obtain rfl := Option.some.inj hs
      refine inv_other h [.st c k] rfl rfl rfl (fun _ => rfl) (fun _ h => h) (fun _ => rfl) (fun _ => rfl)
        (fun _ h => h) (Or.inr ⟨_, rfl, fun _ => rfl, fun _ _ => rfl, rfl, fun _ _ _ h => (by cases h), fun x hx => ?_⟩)
      simp only [keyT, Option.some.injEq] at hx
      subst hx
      simp [hk.1]
    · cases hs
  case step i ch =>
    split at hs
    · rename_i t ht
      by_cases hr : ∃ c k, t = .reply c k
      · obtain ⟨c, k, rfl⟩ := hr
        simp only [stepThr, Option.some.injEq] at hs
        subst hs
        exact inv_reply h ht
      · exact inv_stepThr h ht (fun c k e => hr ⟨c, k, e⟩) hs
    · cases hs
  case expire k =>
    split at hs
    · rename_i hk
      obtain rfl := Option.some.inj hs
      refine inv_other h [] (by simp) rfl rfl ?_ ?_ ?_ ?_ ?_ (Or.inl rfl) <;> intro x <;> simp only [put_jobs] <;> grind
    · cases hs
  case kick k =>
    split at hs
    · rename_i hk
      obtain rfl := Option.some.inj hs
      refine inv_other h [.kicked k] rfl rfl rfl ?_ ?_ ?_ ?_ ?_ (Or.inr ⟨_, rfl, fun _ => rfl, fun _ _ => rfl, rfl,
        fun _ _ _ h => (by cases h), ?_⟩) <;> intro x <;> simp only [put_jobs, keyT] <;> grind
    · cases hs
  case del k =>
    split at hs
    · rename_i hk
      obtain rfl := Option.some.inj hs
      refine inv_other h [] (by simp) rfl rfl ?_ ?_ ?_ ?_ ?_ (Or.inl rfl) <;> intro x <;> simp only [put_jobs] <;> grind
    · cases hs

theorem inv_init (lim : Nat → Option Nat) : Inv (init lim) := by
  constructor <;> simp [init, tsum, occH, wH, noJob]

theorem lim_init (lim : Nat → Option Nat) : Lim (init lim) := by
  constructor <;> simp [init]

theorem lim_run {s s' : S} (h : Lim s) (es : List Ev) (hr : run s es = some s') : Lim s' := by
  induction es generalizing s with
  | nil => cases hr; exact h
  | cons e es ih =>
    simp only [run, Option.bind_eq_some_iff] at hr
    obtain ⟨s1, h1, h2⟩ := hr
    exact ih (lim_step h h1) h2

theorem inv_run {s s' : S} (h : Inv s) (es : List Ev) (hp : Proper es) (hr : run s es = some s') : Inv s' := by
  induction es generalizing s with
  | nil => cases hr; exact h
  | cons e es ih =>
    simp only [run, Option.bind_eq_some_iff] at hr
    obtain ⟨s1, h1, h2⟩ := hr
    exact ih (inv_step h (fun c k e' kind he => hp c k e' kind (by simp [he])) h1)
      (fun c k e' kind he => hp c k e' kind (by simp [he])) h2

theorem lim_step_lim {s s' : S} {ev : Ev} (hs : step s ev = some s') : s'.lim = s.lim := by
  cases ev <;> simp only [step] at hs
  case step i ch =>
    split at hs
    · rename_i t _
      cases t <;> simp only [stepThr] at hs
      all_goals ((repeat' split at hs) <;> first | (exfalso; cases hs; done) | (obtain rfl := Option.some.inj hs; rfl))
    · cases hs
  case finish i e kind =>
    split at hs
    · obtain rfl := Option.some.inj hs
      rename_i c k _
      rcases request_shape { s with has := s.has.eraseIdx i } c k e kind with ⟨x, hx, _⟩ | ⟨_, _, t, _, hx⟩ <;> rw [hx] <;> rfl
    · cases hs
  case again c k e kind =>
    obtain rfl := Option.some.inj hs
    rcases request_shape s c k e kind with ⟨x, hx, _⟩ | ⟨_, _, t, _, hx⟩ <;> rw [hx] <;> rfl
  all_goals ((repeat' split at hs) <;> first | (exfalso; cases hs; done) | (obtain rfl := Option.some.inj hs; rfl))

theorem run_lim {s s' : S} (es : List Ev) (hr : run s es = some s') : s'.lim = s.lim := by
  induction es generalizing s with
  | nil => cases hr; rfl
  | cons e es ih =>
    simp only [run, Option.bind_eq_some_iff] at hr
    obtain ⟨s1, h1, h2⟩ := hr
    rw [ih h2, lim_step_lim h1]

/-! ## the properties -/

/-- C124.  However requests interleave, and whatever clients send, no limit
group's count exceeds its limit. -/
theorem C124_count (lim : Nat → Option Nat) (es : List Ev) (s : S) (hr : run (init lim) es = some s) :
    ∀ g n, lim g = some n → s.count g ≤ n := by
  intro g n hg
  have h := lim_run (lim_init lim) es hr
  have e : s.lim = lim := run_lim es hr
  exact h.lim g n (by rw [e]; exact hg)

/-- C124 (partial: see the violation for clients that repeat themselves).  In
every interleaving, at most one client has a job at any time, and then the job
is running and reserved by it. -/
theorem C124_one_client_partial (lim : Nat → Option Nat) (es : List Ev) (hp : Proper es) (s : S)
    (hr : run (init lim) es = some s) :
    (∀ c c' k, (c, k) ∈ s.has → (c', k) ∈ s.has → c = c') ∧ (s.has.map Prod.snd).Nodup ∧
    ∀ c k, (c, k) ∈ s.has → (s.jobs k).sub = .run ∧ (s.jobs k).owner = some c := by
  have h := inv_run (inv_init lim) es hp hr
  have h3 : ∀ c k, (c, k) ∈ s.has → (s.jobs k).sub = .run ∧ (s.jobs k).owner = some c :=
    fun c k hk => h.hasRun hk
  refine ⟨?_, ?_, h3⟩
  · intro c c' k h1 h2
    have e1 := (h3 _ _ h1).2
    have e2 := (h3 _ _ h2).2
    rw [e1] at e2
    exact Option.some.inj e2
  · rw [List.nodup_iff_count]
    intro k
    have h1 := h.occ k
    have h2 := runN_le (s.jobs k)
    have : (s.has.map Prod.snd).count k = occH s.has k := by
      simp only [List.count, List.countP_map, occH]
      apply List.countP_congr
      intro p _
      simp
    omega

/-- C124.  In every interleaving of proper requests the clients are never
working on more jobs of a limit group than its limit. -/
theorem C124_limit_partial (lim : Nat → Option Nat) (es : List Ev) (hp : Proper es) (s : S)
    (hr : run (init lim) es = some s) : ∀ g n, lim g = some n → working s g ≤ n := by
  intro g n hg
  have h := inv_run (inv_init lim) es hp hr
  have h1 := C124_count lim es s hr g n hg
  have h2 := h.w g
  have : ∀ l : List (Nat × Nat), l.countP (fun p => decide (g ∈ (s.jobs p.2).groups)) ≤ wH (grp s) l g := by
    intro l
    induction l with
    | nil => simp [wH]
    | cons a l ih =>
      simp only [List.countP_cons, wH, List.map_cons, List.sum_cons] at ih ⊢
      have : (if decide (g ∈ (s.jobs a.2).groups) = true then 1 else 0) ≤ (grp s a.2).count g := by
        split
        · rename_i hm
          exact List.count_pos_iff.2 (of_decide_eq_true hm)
        · omega
      omega
  have h3 := this s.has
  unfold working
  omega

/-- what a client is told when the server thinks the job is not its -/
def Refusal : Told → Prop
  | .mustReserve _ _ | .badJob _ _ | .notRunning _ _ => True
  | _ => False

theorem told_stepThr {s s' : S} {i : Nat} {ch : Option Nat} {t : Thr} (h : Inv s) (hi : s.thr[i]? = some t)
    (hs : stepThr s i ch t = some s') (x : Told) (hx : x ∈ s'.told) (hr : Refusal x) : x ∈ s.told := by
  have hocc : ∀ k, 1 ≤ occT k t → (s.jobs k).sub = .run := by
    intro k hk
    have h1 := h.occ k
    have h2 := tsum_ge (occT k) (List.mem_of_getElem? hi)
    unfold runN at h1
    split at h1
    · assumption
    · omega
  cases t <;> simp only [stepThr] at hs
  all_goals ((repeat' split at hs) <;> first
    | (exfalso; cases hs; done)
    | (obtain rfl := Option.some.inj hs
       simp only [occT, go, tell, put, inc, decr, List.mem_append, List.mem_singleton] at hocc hx
       grind [Refusal]))

theorem told_run {s s' : S} (h : Inv s) (es : List Ev) (hp : Proper es) (hr : run s es = some s')
    (x : Told) (hx : x ∈ s'.told) (hrx : Refusal x) : x ∈ s.told := by
  induction es generalizing s with
  | nil => cases hr; exact hx
  | cons ev es ih =>
    simp only [run, Option.bind_eq_some_iff] at hr
    obtain ⟨s1, h1, h2⟩ := hr
    have hev : ∀ c k e' kind, ev ≠ .again c k e' kind := fun c k e' kind he => hp c k e' kind (by simp [he])
    have := ih (inv_step h hev h1) (fun c k e' kind he => hp c k e' kind (by simp [he])) h2
    cases ev <;> simp only [step] at h1
    case step i ch =>
      split at h1
      · rename_i t hi
        exact told_stepThr h hi h1 x this hrx
      · cases h1
    case finish i e kind =>
      split at h1
      · rename_i c k hi
        obtain rfl := Option.some.inj h1
        obtain ⟨e1, e2⟩ := h.hasRun (List.mem_of_getElem? hi)
        obtain ⟨t, _, hq⟩ := request_has (s := { s with has := s.has.eraseIdx i }) c k e kind e1 e2
        rw [hq] at this
        exact this
      · cases h1
    case again c k e kind => exact absurd rfl (hev c k e kind)
    all_goals ((repeat' split at h1) <;> first | (exfalso; cases h1; done) | (obtain rfl := Option.some.inj h1; exact this))

/-- C124.  In every interleaving, a client that was handed a job and asks once
for its end is never told that the job isn't its, or isn't running, or doesn't
exist. -/
theorem C124_accepted_partial (lim : Nat → Option Nat) (es : List Ev) (hp : Proper es) (s : S)
    (hr : run (init lim) es = some s) (c k : Nat) :
    Told.mustReserve c k ∉ s.told ∧ Told.badJob c k ∉ s.told ∧ Told.notRunning c k ∉ s.told := by
  have h : ∀ x, Refusal x → x ∉ s.told := fun x hx hm =>
    absurd (told_run (inv_init lim) es hp hr x hm hx) (by simp [init])
  exact ⟨h _ trivial, h _ trivial, h _ trivial⟩

/-! ## what goes wrong -/

def okEnd : End := ⟨true, true⟩
def badEnd : End := ⟨true, false⟩

/-- one group with two slots -/
def two : Nat → Option Nat := fun g => if g = 1 then some 2 else none

/-- a client takes job 7 -/
def take (i c : Nat) : List Ev :=
  [.reserve c [1], .step i none, .step i (some 7), .step i none, .step i none, .step i none]

def trTwo : List Ev :=
  [.add 7 3 [1]] ++ take 0 10 ++
  -- client 10 releases the job, twice (its first request timed out); the second
  -- request is handled when client 20's reservation has not noted its client yet
  [.again 10 7 badEnd .release, .again 10 7 badEnd .release,
   .step 1 none, .step 2 none, .step 1 none, .step 1 none, .step 1 none, .step 1 none, .step 1 none,
   .expire 7, .reserve 20 [1], .step 3 none, .step 3 (some 7), .step 3 none, .step 2 none, .step 3 none, .step 3 none,
   .expire 7, .reserve 30 [1], .step 4 none, .step 4 (some 7), .step 4 none, .step 4 none, .step 4 none]

/-- C124 is violated when a client repeats its request to release a job (as it
does when the first is not answered in time): the server tests that the job is
reserved by the client, and only later moves the job in the queue.  If the job
has been reserved by another client meanwhile, it is taken from that client and
handed out again: two clients run it at the same time. -/
theorem C124_violated_two_clients : ∃ s, run (init two) trTwo = some s ∧
    (20, 7) ∈ s.has ∧ (30, 7) ∈ s.has := by
  refine ⟨_, rfl, ?_, ?_⟩ <;> decide

def trLeak : List Ev :=
  [.add 7 0 [1]] ++ take 0 10 ++
  -- the job is buried, kicked before the end of the burial's handling, and
  -- reserved by another client
  [.finish 0 badEnd .bury, .step 1 none, .step 1 none, .kick 7, .step 2 none,
   .reserve 20 [1], .step 3 none, .step 3 (some 7), .step 3 none, .step 3 none, .step 3 none,
   .step 1 none, .step 1 none, .step 1 none, .step 1 none,
   -- and that client buries it as well
   .finish 0 badEnd .bury, .step 4 none, .step 4 none, .step 4 none, .step 4 none]

instance (s : S) : Decidable (Quiet s) := by unfold Quiet; infer_instance

/-- C124 is violated when a buried job is kicked (or the delay of a released
one ends) and reserved again before the server has dealt with its end: the
slot of the first reservation is never given back, so that the group has one
slot less for ever, although nobody is working. -/
theorem C124_violated_leak : Proper trLeak ∧ ∃ s, run (init two) trLeak = some s ∧
    Quiet s ∧ s.count 1 = 1 ∧ working s 1 = 0 := by
  refine ⟨?_, _, rfl, ?_, ?_, ?_⟩
  · intro c k e kind h
    simp [trLeak, take] at h
  all_goals decide

def trArchive : List Ev :=
  [.add 7 0 [1]] ++ take 0 10 ++
  [.start 10 7, .step 1 none, .finish 0 badEnd .bury, .step 2 none, .step 2 none, .kick 7, .step 3 none,
   .reserve 20 [1], .step 4 none, .step 4 (some 7), .step 4 none, .step 4 none, .step 4 none,
   .start 20 7, .step 5 none,
   .step 2 none, .step 2 none, .step 2 none, .step 2 none,
   .finish 0 okEnd .archive, .step 6 none, .step 6 none]

/-- C124 is violated by the same race in another way: the second run ends well,
but the end of the first is noted for it, and the request to archive it is
refused. -/
theorem C124_violated_archive : Proper trArchive ∧ ∃ s, run (init two) trArchive = some s ∧
    (s.jobs 7).started = true ∧ Told.badRequest 20 7 ∈ s.told ∧ Told.archived 20 7 ∉ s.told := by
  refine ⟨?_, _, rfl, ?_, ?_, ?_⟩
  · intro c k e kind h
    simp [trArchive, take] at h
  all_goals decide

/-! ## the hypotheses can be met -/

def trUse : List Ev :=
  [.add 7 0 [1], .add 8 0 [1], .add 9 0 [1],
   .reserve 10 [1], .reserve 20 [1], .reserve 30 [1], .step 1 none, .step 0 none, .step 2 none,
   .step 1 (some 8), .step 0 (some 7), .step 0 none, .step 1 none, .step 1 none, .step 0 none, .step 0 none, .step 1 none]

/-- three clients ask for a job of a group with two slots: two get one -/
example : Proper trUse ∧ ∃ s, run (init two) trUse = some s ∧ s.has = [(10, 7), (20, 8)] ∧ working s 1 = 2 ∧
    s.count 1 = 2 ∧ (s.jobs 9).sub = .ready := by
  refine ⟨?_, _, rfl, ?_, ?_, ?_, ?_⟩
  · intro c k e kind h
    simp [trUse] at h
  all_goals decide

end Verif.Server.Race
