import Verif.Server.RaceProps
/-
Concurrent requests: slots of limit groups are given back (C124).
-/
namespace Verif.Server.Race

/-! ## specification -/

/-- the job whose end the request still has to note -/
def pending : Thr → Option Nat
  | .chk k _ _ | .dec k _ _ | .set k _ _ => some k
  | _ => none

/-- no job is handed out while the server has yet to note the end of its last
run -/
def Calm (s : S) : List Ev → Prop
  | [] => True
  | e :: es => (∀ i k, e = .step i (some k) → ∀ t ∈ s.thr, pending t ≠ some k) ∧
    ∀ s', step s e = some s' → Calm s' es

/-! ## invariant -/

def pendT (k : Nat) : Thr → Nat
  | .chk x _ _ | .dec x _ _ | .set x _ _ => if x = k then 1 else 0
  | t => occT k t

/-- the request still has the slots of job `k` -/
def holdT (k : Nat) : Thr → Nat
  | .noted _ x | .reply _ x | .fin _ x _ _ | .act _ x _ _ _ _ | .chk x _ _ | .dec x _ _ | .achk _ x _ | .adec _ x _ =>
    if x = k then 1 else 0
  | _ => 0

/-- the last run of the job has not been noted to have ended -/
def exT : Thr → Option Nat
  | .reply _ x | .fin _ x _ _ | .act _ x _ _ _ _ | .chk x _ _ | .dec x _ _ | .achk _ x _ | .adec _ x _ => some x
  | _ => none

theorem holdT_le (k : Nat) (t : Thr) : holdT k t ≤ pendT k t := by
  cases t <;> simp [holdT, pendT, occT]

theorem exT_le {k : Nat} {t : Thr} (h : exT t = some k) : pendT k t = 1 := by
  cases t <;> simp only [exT, Option.some.injEq, reduceCtorEq] at h <;> simp [pendT, occT, h]

theorem tsum_mono {f g : Thr → Nat} (h : ∀ t, f t ≤ g t) (l : List Thr) : tsum f l ≤ tsum g l := by
  induction l with
  | nil => simp [tsum]
  | cons a l ih =>
    simp only [tsum, List.map_cons, List.sum_cons] at ih ⊢
    have := h a
    omega

structure Cal (s : S) : Prop where
  w : ∀ g, tsum (wT (grp s) g) s.thr + wH (grp s) s.has g = s.count g
  pend : ∀ k, tsum (pendT k) s.thr + occH s.has k ≤ 1
  heldYes : ∀ k, 1 ≤ tsum (holdT k) s.thr + occH s.has k → (s.jobs k).held = (s.jobs k).groups
  heldNo : ∀ k, tsum (holdT k) s.thr + occH s.has k = 0 → (s.jobs k).held = []
  ex : ∀ t ∈ s.thr, ∀ k, exT t = some k → (s.jobs k).exited = false
  exH : ∀ p ∈ s.has, (s.jobs p.2).exited = false

theorem cal_go {s s' : S} {i : Nat} {t t' : Thr} (h : Cal s) (hi : s.thr[i]? = some t)
    (hthr : s'.thr = s.thr.set i t') (hhas : s'.has = s.has)
    (hgr : ∀ k, (s'.jobs k).groups = (s.jobs k).groups)
    (hw : ∀ g, wT (grp s) g t' + s.count g = wT (grp s) g t + s'.count g)
    (hpend : ∀ k, pendT k t' ≤ pendT k t ∨ tsum (pendT k) s.thr + occH s.has k + pendT k t' ≤ 1)
    (hheld : ∀ k, (holdT k t' = holdT k t ∧ (s'.jobs k).held = (s.jobs k).held) ∨
      (holdT k t' = 1 ∧ (s'.jobs k).held = (s.jobs k).groups) ∨
      (holdT k t = 1 ∧ holdT k t' = 0 ∧ (s'.jobs k).held = []))
    (hex : ∀ k, (s'.jobs k).exited = false ∨ (s'.jobs k).exited = (s.jobs k).exited ∨ 1 ≤ pendT k t)
    (hex' : ∀ k, exT t' = some k → (s'.jobs k).exited = false) : Cal s' := by
  have egr : grp s' = grp s := funext hgr
  constructor
  · intro g
    have := h.w g
    have e := tsum_set (wT (grp s) g) hi t'
    have h1 := hw g
    rw [hthr, hhas, egr]
    omega
  · intro k
    have := h.pend k
    have e := tsum_set (pendT k) hi t'
    rw [hthr, hhas]
    rcases hpend k with h1 | h1 <;> omega
  · intro k hk
    have := h.pend k
    have h0 := tsum_mono (holdT_le k) s.thr
    have e := tsum_set (holdT k) hi t'
    rw [hthr, hhas] at hk
    rw [hgr]
    rcases hheld k with ⟨h1, h2⟩ | ⟨h1, h2⟩ | ⟨h1, h2, h3⟩
    · rw [h2]; exact h.heldYes k (by omega)
    · exact h2
    · omega
  · intro k hk
    have e := tsum_set (holdT k) hi t'
    have e' := tsum_ge (holdT k) (List.mem_of_getElem? hi)
    rw [hthr, hhas] at hk
    rcases hheld k with ⟨h1, h2⟩ | ⟨h1, h2⟩ | ⟨h1, h2, h3⟩
    · rw [h2]; exact h.heldNo k (by omega)
    · omega
    · exact h3
  · intro t2 ht2 k hk
    rw [hthr] at ht2
    rcases tsum_ge2 (pendT k) hi t' ht2 with rfl | h2
    · exact hex' k hk
    · rcases mem_set ht2 with hm | rfl
      · rcases hex k with h3 | h3 | h3
        · exact h3
        · rw [h3]; exact h.ex t2 hm k hk
        · have := exT_le hk
          have := h.pend k
          omega
      · exact hex' k hk
  · intro p hp
    rw [hhas] at hp
    rcases hex p.2 with h3 | h3 | h3
    · exact h3
    · rw [h3]; exact h.exH p hp
    · have := h.pend p.2
      have := occH_pos hp
      have := tsum_ge (pendT p.2) (List.mem_of_getElem? hi)
      omega

theorem pend_zero {s : S} (hI : Inv s) {k : Nat} (hr : (s.jobs k).sub = .ready)
    (hc : ∀ t ∈ s.thr, pending t ≠ some k) : tsum (pendT k) s.thr + occH s.has k = 0 := by
  have h1 := hI.occ k
  unfold runN at h1
  rw [hr] at h1
  have h2 : tsum (pendT k) s.thr = tsum (occT k) s.thr := by
    apply tsum_congr
    intro t ht
    have := hc t ht
    cases t <;> simp_all [pending, pendT, occT]
  simp at h1
  omega

set_option maxHeartbeats 1000000 in
theorem cal_stepThr {s s' : S} {i : Nat} {ch : Option Nat} {t : Thr} (hI : Inv s) (h : Cal s)
    (hi : s.thr[i]? = some t) (hc : ∀ k, ch = some k → ∀ t ∈ s.thr, pending t ≠ some k)
    (ht : ∀ c k, t ≠ .reply c k) (hs : stepThr s i ch t = some s') : Cal s' := by
  have hin := List.mem_of_getElem? hi
  have hex := h.ex t hin
  have hgot : ∀ c gs k, t = .got c gs k → gs = (s.jobs k).groups := fun c gs k e => hI.got c gs k (e ▸ hin)
  have hw := h.w
  have hwg : ∀ g, wT (grp s) g t ≤ s.count g := fun g => by
    have := hw g
    have := tsum_ge (wT (grp s) g) hin
    omega
  have hheld : ∀ k, 1 ≤ holdT k t → (s.jobs k).held = (s.jobs k).groups := fun k hk => by
    apply h.heldYes k
    have := tsum_ge (holdT k) hin
    omega
  have hz : ∀ k, ch = some k → (s.jobs k).sub = .ready → tsum (pendT k) s.thr + occH s.has k = 0 :=
    fun k hk hr => pend_zero hI hr (hc k hk)
  have hrun : ∀ k, 1 ≤ occT k t → (s.jobs k).sub = .run := by
    intro k hk
    have h1 := hI.occ k
    have h2 := tsum_ge (occT k) hin
    unfold runN at h1
    split at h1
    · assumption
    · omega
  cases t
  case reply c k => exact absurd rfl (ht c k)
  case act c k e fb bury cur =>
    have hk := hrun k (by simp [occT])
    simp only [stepThr, hk, reduceCtorEq, or_self, if_false, if_true] at hs
    split at hs <;>
     (obtain rfl := Option.some.inj hs
      refine cal_go h hi rfl rfl ?_ ?_ ?_ ?_ ?_ ?_ <;>
         (try simp only [go_jobs, put_jobs, go_count, put_count, decr_jobs, tell_jobs, tell_count, inc_jobs]) <;>
         grind [occT, wT, pendT, holdT, exT, grp, decr_count, inc_count])
  all_goals simp only [stepThr] at hs
  all_goals ((repeat' split at hs) <;> first
    | (exfalso; cases hs; done)
    | (obtain rfl := Option.some.inj hs
       refine cal_go h hi rfl rfl ?_ ?_ ?_ ?_ ?_ ?_ <;>
         (try simp only [go_jobs, put_jobs, go_count, put_count, decr_jobs, tell_jobs, tell_count, inc_jobs]) <;>
         grind [occT, wT, pendT, holdT, exT, grp, decr_count, inc_count]))

theorem cal_reply {s : S} {i c k : Nat} (h : Cal s) (hi : s.thr[i]? = some (.reply c k)) :
    Cal { go s i .done with has := s.has ++ [(c, k)] } := by
  have hin := List.mem_of_getElem? hi
  constructor
  · intro g
    have h1 := h.w g
    have e := tsum_set (wT (grp s) g) hi .done
    show tsum (wT (grp s) g) (s.thr.set i .done) + wH (grp s) (s.has ++ [(c, k)]) g = s.count g
    rw [wH_append]
    simp only [wT] at e ⊢
    omega
  · intro x
    have h1 := h.pend x
    have e := tsum_set (pendT x) hi .done
    simp only [go_thr, occH_append]
    simp only [pendT, occT] at e
    omega
  · intro x hx
    have e := tsum_set (holdT x) hi .done
    simp only [go_thr, occH_append] at hx
    simp only [holdT] at e
    exact h.heldYes x (by omega)
  · intro x hx
    have e := tsum_set (holdT x) hi .done
    simp only [go_thr, occH_append] at hx
    simp only [holdT] at e
    exact h.heldNo x (by omega)
  · intro t ht x hx
    rcases mem_set ht with ht | rfl
    · exact h.ex _ ht _ hx
    · cases hx
  · intro p hp
    rcases List.mem_append.1 hp with hp | hp
    · exact h.exH p hp
    · rw [List.mem_singleton.1 hp]
      exact h.ex _ hin k rfl

theorem cal_finish {s : S} {i c k : Nat} {e : End} {kind : Kind} (hI : Inv s) (h : Cal s) (hi : s.has[i]? = some (c, k)) :
    Cal (request { s with has := s.has.eraseIdx i } c k e kind) := by
  have hin := List.mem_of_getElem? hi
  obtain ⟨h1, h2⟩ := hI.hasRun hin
  obtain ⟨t, ht, hr⟩ := request_has (s := { s with has := s.has.eraseIdx i }) c k e kind h1 h2
  rw [hr]
  have sub : ∀ p ∈ s.has.eraseIdx i, p ∈ s.has := fun p hp => List.mem_of_mem_eraseIdx hp
  have ot : ∀ x, pendT x t = if k = x then 1 else 0 := by intro x; rcases ht with rfl | rfl | rfl <;> rfl
  have hl : ∀ x, holdT x t = if k = x then 1 else 0 := by intro x; rcases ht with rfl | rfl | rfl <;> rfl
  have wt : ∀ g, wT (grp s) g t = (grp s k).count g := by intro x; rcases ht with rfl | rfl | rfl <;> rfl
  have ky : exT t = some k := by rcases ht with rfl | rfl | rfl <;> rfl
  constructor
  · intro g
    have h3 := h.w g
    have h4 := wH_erase (grp s) hi g
    show tsum (wT (grp s) g) (s.thr ++ [t]) + wH (grp s) (s.has.eraseIdx i) g = s.count g
    rw [tsum_append, wt]
    simp only at h4
    omega
  · intro x
    have h3 := h.pend x
    have h4 := occH_erase hi x
    simp only [tsum_append, ot]
    simp only at h4
    omega
  · intro x hx
    have h4 := occH_erase hi x
    simp only [tsum_append, hl] at hx
    simp only at h4
    exact h.heldYes x (by omega)
  · intro x hx
    have h4 := occH_erase hi x
    simp only [tsum_append, hl] at hx
    simp only at h4
    exact h.heldNo x (by omega)
  · intro t' ht' x hx
    rcases List.mem_append.1 ht' with ht' | ht'
    · exact h.ex _ ht' _ hx
    · rw [List.mem_singleton.1 ht', ky] at hx
      cases hx
      exact h.exH _ hin
  · intro p hp
    exact h.exH p (sub p hp)

theorem cal_other {s s' : S} (h : Cal s) (l : List Thr) (hthr : s'.thr = s.thr ++ l) (hhas : s'.has = s.has)
    (hcount : s'.count = s.count) (hgr : ∀ k, (s'.jobs k).groups = (s.jobs k).groups)
    (hheld : ∀ k, (s'.jobs k).held = (s.jobs k).held) (hex : ∀ k, (s'.jobs k).exited = (s.jobs k).exited)
    (hl : l = [] ∨ ∃ t, l = [t] ∧ (∀ k, pendT k t = 0) ∧ (∀ gr g, wT gr g t = 0) ∧ exT t = none) : Cal s' := by
  have egr : grp s' = grp s := funext hgr
  have key : ∀ f : Thr → Nat, (∀ t, l = [t] → f t = 0) → tsum f s'.thr = tsum f s.thr := by
    intro f hf
    rw [hthr]
    rcases hl with rfl | ⟨t, rfl, _⟩
    · simp
    · rw [tsum_append, hf t rfl]; rfl
  have kp : ∀ k, tsum (pendT k) s'.thr = tsum (pendT k) s.thr := fun k => key _ (by
    intro t ht
    rcases hl with rfl | ⟨t', e, h1, _⟩
    · cases ht
    · rw [e] at ht; cases ht; exact h1 k)
  have kh : ∀ k, tsum (holdT k) s'.thr = tsum (holdT k) s.thr := fun k => key _ (by
    intro t ht
    rcases hl with rfl | ⟨t', e, h1, _⟩
    · cases ht
    · rw [e] at ht; cases ht
      have := holdT_le k t
      rw [h1 k] at this
      omega)
  have kw : ∀ gr g, tsum (wT gr g) s'.thr = tsum (wT gr g) s.thr := fun gr g => key _ (by
    intro t ht
    rcases hl with rfl | ⟨t', e, _, h1, _⟩
    · cases ht
    · rw [e] at ht; cases ht; exact h1 gr g)
  constructor
  · intro g; rw [kw, hhas, hcount, egr]; exact h.w g
  · intro k; rw [kp, hhas]; exact h.pend k
  · intro k hk; rw [kh, hhas] at hk; rw [hheld, hgr]; exact h.heldYes k hk
  · intro k hk; rw [kh, hhas] at hk; rw [hheld]; exact h.heldNo k hk
  · intro t ht k hk
    rw [hex]
    rw [hthr] at ht
    rcases List.mem_append.1 ht with ht | ht
    · exact h.ex t ht k hk
    · rcases hl with rfl | ⟨t', rfl, _, _, h1⟩
      · cases ht
      · rw [List.mem_singleton.1 ht, h1] at hk; cases hk
  · intro p hp; rw [hhas] at hp; rw [hex]; exact h.exH p hp

theorem cal_add {s : S} {k r : Nat} {gs : List Nat} (hI : Inv s) (h : Cal s) (ha : (s.jobs k).sub = .absent) :
    Cal (put s k ⟨.ready, none, false, false, false, r + 1, r, .ready, [], gs⟩) := by
  have hne : ∀ t ∈ s.thr, ∀ x, keyT t = some x → x ≠ k := fun t ht x hx e => hI.ment t ht x hx (e ▸ ha)
  have hnH : ∀ p ∈ s.has, p.2 ≠ k := fun p hp e => hI.mentH p hp (e ▸ ha)
  constructor
  · intro g
    have e1 : tsum (wT (grp (put s k ⟨.ready, none, false, false, false, r + 1, r, .ready, [], gs⟩)) g) s.thr =
        tsum (wT (grp s) g) s.thr := by
      apply tsum_congr
      intro t ht
      have := hne t ht
      cases t <;> simp only [wT, keyT, grp, put_jobs] at this ⊢ <;> grind
    have e2 : wH (grp (put s k ⟨.ready, none, false, false, false, r + 1, r, .ready, [], gs⟩)) s.has g =
        wH (grp s) s.has g := by
      unfold wH
      congr 1
      apply List.map_congr_left
      intro p hp
      simp only [grp, put_jobs, if_neg (hnH p hp)]
    simp only [put_thr, put_has, put_count, e1, e2]
    exact h.w g
  · exact h.pend
  · intro x hx
    have := h.heldYes x hx
    simp only [put_jobs]
    split
    · rename_i e
      subst e
      have h0 : tsum (holdT x) s.thr = 0 := by
        have : tsum (holdT x) s.thr = tsum (fun _ => 0) s.thr := by
          apply tsum_congr
          intro t ht
          have := hne t ht
          cases t <;> simp_all [holdT, keyT]
        rw [this]
        unfold tsum
        induction s.thr <;> simp_all
      have h1 : occH s.has x = 0 := by
        unfold occH
        rw [List.countP_eq_zero]
        intro p hp
        simpa using hnH p hp
      simp only [put_thr, put_has] at hx
      omega
    · exact this
  · intro x hx
    simp only [put_jobs]
    split
    · rfl
    · exact h.heldNo x hx
  · intro t ht x hx
    simp only [put_jobs]
    split
    · rfl
    · exact h.ex t ht x hx
  · intro p hp
    simp only [put_jobs]
    split
    · rfl
    · exact h.exH p hp

theorem cal_step {s s' : S} {ev : Ev} (hI : Inv s) (h : Cal s) (hp : ∀ c k e kind, ev ≠ .again c k e kind)
    (hc : ∀ i k, ev = .step i (some k) → ∀ t ∈ s.thr, pending t ≠ some k) (hs : step s ev = some s') : Cal s' := by
  cases ev <;> simp only [step] at hs
  case add k r gs =>
    split at hs
    · rename_i ha
      obtain rfl := Option.some.inj hs
      exact cal_add hI h ha.1
    · cases hs
  case reserve c gs =>
    split at hs
    · obtain rfl := Option.some.inj hs
      exact cal_other h [.resv c gs] rfl rfl rfl (fun _ => rfl) (fun _ => rfl) (fun _ => rfl)
        (Or.inr ⟨_, rfl, fun _ => rfl, fun _ _ => rfl, rfl⟩)
    · cases hs
  case finish i e kind =>
    split at hs
    · rename_i c k hi
      obtain rfl := Option.some.inj hs
      exact cal_finish hI h hi
    · cases hs
  case again c k e kind => exact absurd rfl (hp c k e kind)
  case start c k =>
    split at hs
    · obtain rfl := Option.some.inj hs
      exact cal_other h [.st c k] rfl rfl rfl (fun _ => rfl) (fun _ => rfl) (fun _ => rfl)
        (Or.inr ⟨_, rfl, fun _ => rfl, fun _ _ => rfl, rfl⟩)
    · cases hs
  case step i ch =>
    split at hs
    · rename_i t ht
      by_cases hr : ∃ c k, t = .reply c k
      · obtain ⟨c, k, rfl⟩ := hr
        simp only [stepThr, Option.some.injEq] at hs
        subst hs
        exact cal_reply h ht
      · exact cal_stepThr hI h ht (fun k e => hc i k (by rw [e])) (fun c k e => hr ⟨c, k, e⟩) hs
    · cases hs
  case expire k =>
    split at hs
    · obtain rfl := Option.some.inj hs
      refine cal_other h [] (by simp) rfl rfl ?_ ?_ ?_ (Or.inl rfl) <;> intro x <;> simp only [put_jobs] <;> grind
    · cases hs
  case kick k =>
    split at hs
    · obtain rfl := Option.some.inj hs
      refine cal_other h [.kicked k] rfl rfl rfl ?_ ?_ ?_ (Or.inr ⟨_, rfl, fun _ => rfl, fun _ _ => rfl, rfl⟩) <;>
        intro x <;> simp only [put_jobs] <;> grind
    · cases hs
  case del k =>
    split at hs
    · obtain rfl := Option.some.inj hs
      refine cal_other h [] (by simp) rfl rfl ?_ ?_ ?_ (Or.inl rfl) <;> intro x <;> simp only [put_jobs] <;> grind
    · cases hs

theorem cal_init (lim : Nat → Option Nat) : Cal (init lim) := by
  constructor <;> simp [init, tsum, occH, wH, noJob]

theorem cal_run {s s' : S} (hI : Inv s) (h : Cal s) (es : List Ev) (hp : Proper es) (hc : Calm s es)
    (hr : run s es = some s') : Cal s' := by
  induction es generalizing s with
  | nil => cases hr; exact h
  | cons ev es ih =>
    simp only [run, Option.bind_eq_some_iff] at hr
    obtain ⟨s1, h1, h2⟩ := hr
    have hev : ∀ c k e' kind, ev ≠ .again c k e' kind := fun c k e' kind he => hp c k e' kind (by simp [he])
    exact ih (inv_step hI hev h1) (cal_step hI h hev hc.1 h1) (fun c k e' kind he => hp c k e' kind (by simp [he]))
      (hc.2 s1 h1) h2

/-! ## the properties -/

/-- C124 (partial: `C124_violated_leak` shows what is missing).  If no job is
handed out before the end of its last run has been noted, every slot of a limit
group is given back: when no request is being handled and no client has a job,
all counts are zero. -/
theorem C124_no_leak_partial (lim : Nat → Option Nat) (es : List Ev) (hp : Proper es) (hc : Calm (init lim) es) (s : S)
    (hr : run (init lim) es = some s) (hq : Quiet s) : ∀ g, s.count g = 0 := by
  intro g
  have h := (cal_run (inv_init lim) (cal_init lim) es hp hc hr).w g
  have e : tsum (wT (grp s) g) s.thr = 0 := by
    have e1 : tsum (wT (grp s) g) s.thr = tsum (fun _ => 0) s.thr := by
      apply tsum_congr
      intro t ht
      rw [hq.1 t ht]; rfl
    rw [e1]
    unfold tsum
    induction s.thr <;> simp_all
  rw [e, hq.2] at h
  simpa [wH] using h.symm

/-- C124 (partial, as above).  While no request is being handled, the count of
a limit group is the number of slots of the jobs that clients are working on,
and these jobs are the ones that remember their slots. -/
theorem C124_slots_partial (lim : Nat → Option Nat) (es : List Ev) (hp : Proper es) (hc : Calm (init lim) es) (s : S)
    (hr : run (init lim) es = some s) (hq : ∀ t ∈ s.thr, t = .done) :
    (∀ g, s.count g = (s.has.map fun p => (s.jobs p.2).groups.count g).sum) ∧
    ∀ k, (s.jobs k).held = if ∃ p ∈ s.has, p.2 = k then (s.jobs k).groups else [] := by
  have h := cal_run (inv_init lim) (cal_init lim) es hp hc hr
  have z : ∀ f : Thr → Nat, f .done = 0 → tsum f s.thr = 0 := by
    intro f hf
    have e1 : tsum f s.thr = tsum (fun _ => 0) s.thr := by
      apply tsum_congr
      intro t ht
      rw [hq t ht, hf]
    rw [e1]
    unfold tsum
    induction s.thr <;> simp_all
  constructor
  · intro g
    have := h.w g
    rw [z _ rfl] at this
    simp only [Nat.zero_add] at this
    exact this.symm
  · intro k
    have h0 : tsum (holdT k) s.thr = 0 := z _ rfl
    split
    · rename_i hk
      obtain ⟨p, hp, rfl⟩ := hk
      have := occH_pos hp
      exact h.heldYes _ (by omega)
    · rename_i hk
      apply h.heldNo
      have : occH s.has k = 0 := by
        unfold occH
        rw [List.countP_eq_zero]
        intro p hp
        simp only [decide_eq_true_eq]
        exact fun e => hk ⟨p, hp, e⟩
      omega

/-! ## the hypotheses can be met -/

/-- a job is buried, kicked, taken again and released -/
def trCalm : List Ev :=
  [.add 7 0 [1]] ++ take 0 10 ++
  [.finish 0 badEnd .bury, .step 1 none, .step 1 none, .kick 7, .step 1 none, .step 1 none, .step 2 none, .step 1 none,
   .step 1 none,
   .reserve 20 [1], .step 3 none, .step 3 (some 7), .step 3 none, .step 3 none, .step 3 none,
   .finish 0 badEnd .release, .step 4 none, .step 4 none, .step 4 none, .step 4 none, .step 4 none, .step 4 none]

def calmB (s : S) : List Ev → Bool
  | [] => true
  | e :: es => (match e with
      | .step _ (some k) => s.thr.all fun t => pending t ≠ some k
      | _ => true) &&
    match step s e with
    | some s' => calmB s' es
    | none => true

theorem calm_of {s : S} {es : List Ev} (h : calmB s es = true) : Calm s es := by
  induction es generalizing s with
  | nil => trivial
  | cons e es ih =>
    simp only [calmB, Bool.and_eq_true] at h
    refine ⟨?_, ?_⟩
    · intro i k he t ht
      have h1 := h.1
      rw [he] at h1
      simpa using List.all_eq_true.1 h1 t ht
    · intro s' hs
      have h2 := h.2
      rw [hs] at h2
      exact ih h2

example : Proper trCalm ∧ Calm (init two) trCalm ∧ ∃ s, run (init two) trCalm = some s ∧ Quiet s ∧ s.count 1 = 0 := by
  refine ⟨?_, calm_of (by decide), _, rfl, ?_, ?_⟩
  · intro c k e kind h
    simp [trCalm, take] at h
  all_goals decide

/-- in the middle of it, somebody has the job and the slot -/
example : ∃ s, run (init two) (trCalm.take 22) = some s ∧ s.count 1 = 1 ∧ s.has = [(20, 7)] ∧
    (s.jobs 7).held = [1] ∧ ∀ t ∈ s.thr, t = .done := by
  refine ⟨_, rfl, ?_, ?_, ?_, ?_⟩ <;> decide

/-- the history of `C124_violated_leak` isn't calm -/
example : ¬ Calm (init two) trLeak := fun h => by
  obtain ⟨s, hr, hq, h1, _⟩ := C124_violated_leak.2
  have := C124_no_leak_partial two trLeak C124_violated_leak.1 h s hr hq 1
  omega

end Verif.Server.Race
