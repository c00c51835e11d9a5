import Verif.Sched.Local
/-!
# C43: the local scheduler never over-commits RAM or cores
-/
namespace Verif.Sched.Local

/-- specification: the total of a requirement over the commands that are now running -/
def inUse (f : Req → Int) (s : S) : Int := ((s.threads.filter fun t => t.phase = .using).map fun t => f t.req).sum

/-- specification: the number of commands now running that need no core -/
def zeroCoreRuns (s : S) : Int := (s.threads.filter fun t => t.phase = .using ∧ t.req.cores = 0).length

/-- specification: requirements are not negative, and no wait for the reservation of resources takes more than a minute -/
def Sensible : Ev → Prop
  | .schedule _ r _ => 0 ≤ r.ram ∧ 0 ≤ r.cores
  | .recover r => 0 ≤ r.ram ∧ 0 ≤ r.cores
  | .timeout _ => False
  | _ => True

/-! ### Sums -/

private def W (P : Phase → Bool) (f : Req → Int) (ts : List Thread) : Int := (ts.map fun t => if P t.phase then f t.req else 0).sum

private def using' : Phase → Bool := fun p => p = .using
private def active : Phase → Bool := fun p => p = .using ∨ p = .starting

private def fz (r : Req) : Int := if r.cores = 0 then 1 else 0

theorem sum_set {α} (g : α → Int) : ∀ (l : List α) (i : Nat) (a b : α), l[i]? = some a →
    ((l.set i b).map g).sum = (l.map g).sum - g a + g b
  | [], _, _, _, h => by simp at h
  | x :: l, 0, a, b, h => by simp at h; subst h; simp; omega
  | x :: l, i + 1, a, b, h => by
    simp only [List.getElem?_cons_succ] at h
    simp only [List.set_cons_succ, List.map_cons, List.sum_cons, sum_set g l i a b h]; omega

private theorem sum_erase {α} (g : α → Int) : ∀ (l : List α) (i : Nat) (a : α), l[i]? = some a →
    ((l.eraseIdx i).map g).sum = (l.map g).sum - g a
  | [], _, _, h => by simp at h
  | x :: l, 0, a, h => by simp at h; subst h; simp; omega
  | x :: l, i + 1, a, h => by
    simp only [List.getElem?_cons_succ] at h
    simp only [List.eraseIdx_cons_succ, List.map_cons, List.sum_cons, sum_erase g l i a h]; omega

private theorem W_set {P f} {ts : List Thread} {i : Nat} {t : Thread} (h : ts[i]? = some t) (ph : Phase) :
    W P f (ts.set i { t with phase := ph }) = W P f ts - (if P t.phase then f t.req else 0) + (if P ph then f t.req else 0) := by
  unfold W; rw [sum_set _ _ _ _ _ h]

private theorem W_append {P f} (a b : List Thread) : W P f (a ++ b) = W P f a + W P f b := by
  unfold W; simp

private theorem W_replicate {P f} (n : Nat) (t : Thread) (h : P t.phase = true) : W P f (List.replicate n t) = n * f t.req := by
  unfold W
  rw [List.map_replicate]
  simp only [h, if_true]
  induction n with
  | zero => simp
  | succ n ih => rw [List.replicate_succ, List.sum_cons, ih]; simp [Int.add_mul]; omega

private theorem W_replicate0 {P f} (n : Nat) (t : Thread) (h : P t.phase = false) : W P f (List.replicate n t) = 0 := by
  unfold W
  rw [List.map_replicate]
  simp only [h]
  induction n with
  | zero => rfl
  | succ n ih => rw [List.replicate_succ, List.sum_cons, ih]; rfl

private theorem W_none {P f} {ts : List Thread} (h : ∀ t ∈ ts, P t.phase = false) : W P f ts = 0 := by
  unfold W
  induction ts with
  | nil => rfl
  | cons a ts ih =>
    rw [List.map_cons, List.sum_cons, ih (fun t ht => h t (List.mem_cons_of_mem _ ht)), h a (by simp)]; rfl

private theorem W_le {f} {ts : List Thread} (hf : ∀ t ∈ ts, 0 ≤ f t.req) : W using' f ts ≤ W active f ts := by
  unfold W
  induction ts with
  | nil => simp
  | cons a ts ih =>
    have := ih fun t ht => hf t (List.mem_cons_of_mem _ ht)
    have h0 := hf a (by simp)
    simp only [List.map_cons, List.sum_cons]
    cases h : a.phase <;> simp [using', active] at * <;> omega

private theorem W_eq {f} {ts : List Thread} (h : ∀ t ∈ ts, t.phase ≠ .starting) : W active f ts = W using' f ts := by
  unfold W
  congr 1
  apply List.map_congr_left
  intro t ht
  have := h t ht
  cases hp : t.phase <;> simp [using', active, hp] at *

private theorem inUse_eq (f : Req → Int) (s : S) : inUse f s = W using' f s.threads := by
  unfold inUse W
  induction s.threads with
  | nil => rfl
  | cons a ts ih =>
    rw [List.filter_cons]
    by_cases h : a.phase = .using
    · simp [h, using', ih]
    · simp [h, using', ih]

private theorem zero_eq (s : S) : zeroCoreRuns s = W using' fz s.threads := by
  unfold zeroCoreRuns W
  induction s.threads with
  | nil => rfl
  | cons a ts ih =>
    rw [List.filter_cons, List.map_cons, List.sum_cons, ← ih]
    by_cases h : a.phase = .using <;> by_cases h' : a.req.cores = 0 <;> simp [h, h', using', fz]
    omega

private theorem sum_nonneg : ∀ (l : List Int), (∀ x ∈ l, 0 ≤ x) → 0 ≤ l.sum
  | [], _ => by simp
  | a :: l, h => by
    have := h a (by simp)
    have := sum_nonneg l fun x hx => h x (List.mem_cons_of_mem _ hx)
    simp only [List.sum_cons]; omega

/-! ### How many can run -/

private theorem floorDiv_le {a b n : Int} (hb : 0 ≤ b) (hn : 1 ≤ n) (h : n ≤ floorDiv a b) : n * b ≤ a := by
  unfold floorDiv at h
  split at h
  · omega
  · have hb' : 0 < b := by omega
    rw [Int.fdiv_eq_ediv_of_nonneg _ hb] at h
    exact Int.le_trans (Int.mul_le_mul_of_nonneg_right h hb) (Int.ediv_mul_le a (by omega))

private theorem canCount_le {s : S} {r : Req} {n : Int} (h1 : 0 ≤ r.ram) (h2 : 0 ≤ r.cores) (hn : 1 ≤ n) (h : n ≤ canCount s r) :
    n * r.ram ≤ s.maxRAM - s.ram ∧ (if r.cores = 0 then n ≤ s.maxCores * 2 - s.zeroCores else n * r.cores ≤ s.maxCores * 1000 - s.cores) := by
  unfold canCount at h
  simp only at h
  generalize hc : floorDiv (s.maxRAM - s.ram) r.ram = c at h
  generalize hc2 : (if r.cores = 0 then s.maxCores * zeroCoreMultiplier - s.zeroCores
      else floorDiv (s.maxCores * 1000 - s.cores) r.cores) = c2 at h
  have key : n ≤ c ∧ n ≤ c2 := by
    by_cases hneg : c < 0
    · simp only [hneg, if_true] at h; split at h <;> omega
    · simp only [hneg, if_false] at h
      split at h
      · split at h
        · split at h <;> omega
        · omega
      · omega
  refine ⟨floorDiv_le h1 hn (by rw [hc]; exact key.1), ?_⟩
  have := key.2
  rw [← hc2] at this
  split
  · rename_i hz; rw [if_pos hz] at this; exact this
  · rename_i hz; rw [if_neg hz] at this; exact floorDiv_le h2 hn this

private theorem canCount_ge {s : S} {r : Req} (c1 : 1 ≤ floorDiv (s.maxRAM - s.ram) r.ram)
    (c2 : 1 ≤ (if r.cores = 0 then s.maxCores * zeroCoreMultiplier - s.zeroCores else floorDiv (s.maxCores * 1000 - s.cores) r.cores)) :
    1 ≤ canCount s r := by
  unfold canCount
  simp only
  rw [if_neg (show ¬ floorDiv (s.maxRAM - s.ram) r.ram < 0 by omega), if_pos c1]
  generalize (if r.cores = 0 then s.maxCores * zeroCoreMultiplier - s.zeroCores else floorDiv (s.maxCores * 1000 - s.cores) r.cores) = d at *
  repeat' split
  all_goals omega

/-! ### The invariant -/

private def Nonneg (r : Req) : Prop := 0 ≤ r.ram ∧ 0 ≤ r.cores

private structure J (R C : Int) (s : S) : Prop where
  mr : s.maxRAM = R
  mc : s.maxCores = C
  ramEq : s.ram = W using' Req.ram s.threads + (s.recovered.map Req.ram).sum
  coresEq : s.cores = W using' Req.cores s.threads + (s.recovered.map Req.cores).sum
  zeroEq : s.zeroCores = W using' fz s.threads + (s.recovered.map fz).sum
  ramLe : W active Req.ram s.threads ≤ R
  coresLe : W active Req.cores s.threads ≤ C * 1000
  zeroLe : W active fz s.threads ≤ C * 2
  nj : ∀ j ∈ s.jobs, Nonneg j.req
  nt : ∀ t ∈ s.threads, Nonneg t.req
  nr : ∀ r ∈ s.recovered, Nonneg r
  waits : ∀ i t, s.threads[i]? = some t → t.phase = .starting → ∃ w ∈ s.procs, i ∈ w
  one : s.procs.length ≤ 1
  proc : s.procs ≠ [] → s.processing = true

private theorem mem_set_thread {ts : List Thread} {i : Nat} {t : Thread} {ph : Phase} {x : Thread}
    (hx : x ∈ ts.set i { t with phase := ph }) : x ∈ ts ∨ x = { t with phase := ph } := by
  rcases List.mem_or_eq_of_mem_set hx with h | h
  · exact Or.inl h
  · exact Or.inr h

/-- the run of thread `i` goes on to a phase other than starting -/
private theorem J.phase {R C : Int} {s s' : S} {i : Nat} {t : Thread} {ph : Phase} (h : J R C s) (ht : s.threads[i]? = some t)
    (hph : ph ≠ .starting) (hact : active ph = true → active t.phase = true)
    (e : s'.threads = s.threads.set i { t with phase := ph })
    (emr : s'.maxRAM = s.maxRAM) (emc : s'.maxCores = s.maxCores) (er : s'.recovered = s.recovered)
    (eprocs : s'.procs = s.procs) (eproc : s'.processing = s.processing)
    (ej : ∀ j ∈ s'.jobs, Nonneg j.req)
    (eram : s'.ram = s.ram - (if using' t.phase then t.req.ram else 0) + (if using' ph then t.req.ram else 0))
    (ecores : s'.cores = s.cores - (if using' t.phase then t.req.cores else 0) + (if using' ph then t.req.cores else 0))
    (ezero : s'.zeroCores = s.zeroCores - (if using' t.phase then fz t.req else 0) + (if using' ph then fz t.req else 0)) :
    J R C s' := by
  have hmem : t ∈ s.threads := List.mem_of_getElem? ht
  obtain ⟨p1, p2⟩ := h.nt t hmem
  have p3 : 0 ≤ fz t.req := by unfold fz; split <;> omega
  have hle : ∀ f : Req → Int, 0 ≤ f t.req → W active f s'.threads ≤ W active f s.threads := by
    intro f hf
    rw [e, W_set ht]
    by_cases ha : active ph = true
    · simp [ha, hact ha]
    · simp only [ha, if_false, Bool.false_eq_true]; split <;> omega
  refine ⟨by rw [emr, h.mr], by rw [emc, h.mc], ?_, ?_, ?_, Int.le_trans (hle _ p1) h.ramLe, Int.le_trans (hle _ p2) h.coresLe,
    Int.le_trans (hle _ p3) h.zeroLe, ej, ?_, by rw [er]; exact h.nr, ?_, by rw [eprocs]; exact h.one, by rw [eprocs, eproc]; exact h.proc⟩
  · rw [eram, e, W_set ht, er, h.ramEq]; omega
  · rw [ecores, e, W_set ht, er, h.coresEq]; omega
  · rw [ezero, e, W_set ht, er, h.zeroEq]; omega
  · intro x hx
    rw [e] at hx
    rcases mem_set_thread hx with hx | rfl
    · exact h.nt x hx
    · exact ⟨p1, p2⟩
  · intro k x hx hs
    rw [e] at hx
    rw [eprocs]
    by_cases hk : k = i
    · subst hk
      rw [List.getElem?_set_self (by rw [List.getElem?_eq_some_iff] at ht; exact ht.1)] at hx
      injection hx with hx; subst hx
      exact absurd hs hph
    · rw [List.getElem?_set_ne (Ne.symm hk)] at hx
      exact h.waits k x hx hs

/-- nothing about runs and resources changes -/
private theorem J.same {R C : Int} {s s' : S} (h : J R C s) (emr : s'.maxRAM = s.maxRAM) (emc : s'.maxCores = s.maxCores)
    (e1 : s'.ram = s.ram) (e2 : s'.cores = s.cores) (e3 : s'.zeroCores = s.zeroCores) (e4 : s'.threads = s.threads)
    (e5 : s'.recovered = s.recovered) (ej : ∀ j ∈ s'.jobs, Nonneg j.req) (e6 : s'.procs = s.procs) (e7 : s'.processing = s.processing) : J R C s' := by
  obtain ⟨a, b, c, d, e, f, g, i, j, k, l, m, n, o⟩ := h
  constructor <;> (try simp only [emr, emc, e1, e2, e3, e4, e5, e6, e7]) <;> assumption

private theorem noStarting {R C : Int} {s : S} (h : J R C s) {p : Nat} {w : List Nat} (hp : s.procs[p]? = some w)
    (hw : w.all (reservedSent s) = true) : ∀ t ∈ s.threads, t.phase ≠ .starting := by
  intro t ht hs
  obtain ⟨i, hi⟩ := List.mem_iff_getElem?.1 ht
  obtain ⟨w', hw', hiw⟩ := h.waits i t hi hs
  have : w' = w := by
    match hq : s.procs, h.one with
    | [x], _ =>
      rw [hq] at hp hw'
      match p with
      | 0 => simp at hp hw'; rw [hw', hp]
    | [], _ => rw [hq] at hw'; cases hw'
  subst this
  have := List.all_eq_true.1 hw i hiw
  simp [reservedSent, hi, hs] at this

private theorem J.step {R C : Int} {s s' : S} {e : Ev} {o : List Obs} (h : J R C s) (hs : Sensible e) (hst : step s e = some (s', o)) :
    J R C s' := by
  cases e with
  | schedule cmd r n =>
    simp only [Local.step] at hst
    split at hst
    · simp at hst; obtain ⟨rfl, -⟩ := hst; exact h
    · split at hst
      · cases hst
      · split at hst
        · simp at hst; obtain ⟨rfl, -⟩ := hst
          refine h.same rfl rfl rfl rfl rfl rfl rfl ?_ rfl rfl
          intro j hj
          rcases List.mem_append.1 hj with hj | hj
          · exact h.nj j hj
          · simp at hj; subst hj; exact hs
        · simp at hst; obtain ⟨rfl, -⟩ := hst
          exact h.same rfl rfl rfl rfl rfl rfl rfl h.nj rfl rfl
  | update =>
    simp only [Local.step] at hst
    split at hst
    · cases hst
    · split at hst
      · cases hst
      · rename_i cmd j n _ _ job hj
        have hset : ∀ x ∈ s.jobs.set j { job with count := n, dec := decrements n (s.running cmd) }, Nonneg x.req := by
          intro x hx
          rcases List.mem_or_eq_of_mem_set hx with hx | rfl
          · exact h.nj x hx
          · exact h.nj job (List.mem_of_getElem? hj)
        simp only [Option.some.injEq, Prod.mk.injEq] at hst; obtain ⟨rfl, -⟩ := hst
        split
        · exact h.same rfl rfl rfl rfl rfl rfl rfl hset rfl rfl
        · exact h.same rfl rfl rfl rfl rfl rfl rfl hset rfl rfl
  | begin =>
    simp only [Local.step] at hst
    split at hst
    · cases hst
    · split at hst
      · simp at hst; obtain ⟨rfl, -⟩ := hst
        exact h.same rfl rfl rfl rfl rfl rfl rfl h.nj rfl rfl
      · rename_i hproc
        simp at hst; obtain ⟨rfl, -⟩ := hst
        have hnil : s.procs = [] := by
          cases hq : s.procs with
          | nil => rfl
          | cons a l => exact absurd (h.proc (by simp [hq])) hproc
        obtain ⟨a, b, c, d, e, f, g, i, j, k, l, m, n, o⟩ := h
        refine ⟨a, b, c, d, e, f, g, i, j, k, l, ?_, by simp [hnil], fun _ => rfl⟩
        intro x t hx ht
        obtain ⟨w, hw, hxw⟩ := m x t hx ht
        rw [hnil] at hw; cases hw
  | pick p cmd =>
    simp only [Local.step] at hst
    split at hst
    · rename_i waits j hp hq
      split at hst
      · cases hst
      · rename_i hall
        have hall : waits.all (reservedSent s) = true := by simpa using hall
        split at hst
        · cases hst
        · rename_i job hjob
          split at hst
          · simp only [Option.some.injEq, Prod.mk.injEq] at hst; obtain ⟨rfl, -⟩ := hst
            exact h.same rfl rfl rfl rfl rfl rfl rfl h.nj rfl rfl
          · split at hst
            · simp at hst; obtain ⟨rfl, -⟩ := hst; exact h
            · split at hst
              · simp at hst; obtain ⟨rfl, -⟩ := hst; exact h
              · rename_i hshould hcan
                generalize hn : atMost (canCount s job.req) (job.count - s.running cmd) = n at hst hcan
                simp only [Option.some.injEq, Prod.mk.injEq] at hst; obtain ⟨rfl, -⟩ := hst
                have hn1 : 1 ≤ n := by omega
                have hnle : n ≤ canCount s job.req := by rw [← hn]; unfold atMost; split <;> omega
                obtain ⟨q1, q2⟩ := h.nj job (List.mem_of_getElem? hjob)
                obtain ⟨b1, b2⟩ := canCount_le q1 q2 hn1 hnle
                have hno := noStarting h hp hall
                have htn : (n.toNat : Int) = n := by omega
                have hrec : ∀ f : Req → Int, (∀ r ∈ s.recovered, 0 ≤ f r) → 0 ≤ (s.recovered.map f).sum := by
                  intro f hf
                  apply sum_nonneg
                  intro x hx
                  obtain ⟨r, hr, rfl⟩ := List.mem_map.1 hx
                  exact hf r hr
                have r1 := hrec Req.ram fun r hr => (h.nr r hr).1
                have r2 := hrec Req.cores fun r hr => (h.nr r hr).2
                have r3 := hrec fz fun r hr => by unfold fz; split <;> omega
                have hu : ∀ f, W using' f (s.threads ++ List.replicate n.toNat ⟨j, cmd, job.req, .starting⟩) = W using' f s.threads := by
                  intro f; rw [W_append, W_replicate0 _ _ rfl]; omega
                have ha : ∀ f, W active f (s.threads ++ List.replicate n.toNat ⟨j, cmd, job.req, .starting⟩) = W using' f s.threads + n * f job.req := by
                  intro f; rw [W_append, W_replicate _ _ rfl, W_eq hno, htn]
                have e1 := h.ramEq; have e2 := h.coresEq; have e3 := h.zeroEq
                have l2 := h.coresLe; have l3 := h.zeroLe
                rw [W_eq hno] at l2 l3
                rw [h.mr] at b1; rw [h.mc] at b2
                unfold start
                refine ⟨h.mr, h.mc, ?_, ?_, ?_, ?_, ?_, ?_, h.nj, ?_, h.nr, ?_, by simpa using h.one, ?_⟩
                · simp only [hu]; exact e1
                · simp only [hu]; exact e2
                · simp only [hu]; exact e3
                · simp only [ha]; omega
                · simp only [ha]
                  split at b2
                  · rename_i hz; rw [hz]; omega
                  · omega
                · simp only [ha, fz]
                  split at b2
                  · rename_i hz; rw [if_pos hz]; simp only [Int.mul_one]; omega
                  · rename_i hz; rw [if_neg hz]; omega
                · intro t ht
                  rcases List.mem_append.1 ht with ht | ht
                  · exact h.nt t ht
                  · obtain ⟨_, rfl⟩ := List.mem_replicate.1 ht; exact ⟨q1, q2⟩
                · intro i t hi hts
                  simp only at hi
                  by_cases hlt : i < s.threads.length
                  · rw [List.getElem?_append_left hlt] at hi
                    exact absurd hts (hno t (List.mem_of_getElem? hi))
                  · have hi2 : i < s.threads.length + n.toNat := by
                      have := (List.getElem?_eq_some_iff.1 hi).1
                      simpa using this
                    refine ⟨_, List.mem_set (l := s.procs) (i := p) (by rw [List.getElem?_eq_some_iff] at hp; exact hp.1) _, ?_⟩
                    rw [List.mem_map]
                    exact ⟨i - s.threads.length, by rw [List.mem_range]; omega, by omega⟩
                · intro hne
                  simp only at hne
                  apply h.proc
                  intro hnil; rw [hnil] at hne; simp at hne
    · cases hst
  | finish p =>
    simp only [Local.step] at hst
    split at hst
    · cases hst
    · rename_i w hp
      split at hst
      · cases hst
      · rename_i hall
        have hall : w.all (reservedSent s) = true := by
          cases hb : w.all (reservedSent s) with
          | true => rfl
          | false => exact absurd (Or.inr (by simp [hb])) hall
        simp at hst; obtain ⟨rfl, -⟩ := hst
        have hno := noStarting h hp hall
        have hnil : s.procs.eraseIdx p = [] := by
          match hq : s.procs, h.one, p with
          | [x], _, 0 => rfl
          | [x], _, p + 1 => rw [hq] at hp; simp at hp
          | [], _, _ => rfl
        obtain ⟨a, b, c, d, e, f, g, i, j, k, l, m, n, o⟩ := h
        refine ⟨a, b, c, d, e, f, g, i, j, k, l, ?_, by simp [hnil], by simp [hnil]⟩
        intro x t hx ht
        exact absurd ht (hno t (List.mem_of_getElem? hx))
  | reserve t =>
    simp only [Local.step] at hst
    split at hst
    · rename_i th hth
      split at hst
      · rename_i hph
        simp only [Option.some.injEq, Prod.mk.injEq] at hst; obtain ⟨rfl, -⟩ := hst
        refine h.phase hth (ph := .using) (by simp) (by rw [hph]; decide) ?_ ?_ ?_ ?_ ?_ ?_ ?_ ?_ ?_ ?_ <;>
          (unfold setPhase take; simp only [hph, using', fz]; split <;> simp_all)
        · exact h.nj
        · exact h.nj
      · cases hst
    · cases hst
  | fail t =>
    simp only [Local.step] at hst
    split at hst
    · rename_i th hth
      split at hst
      · rename_i hph
        simp only [Option.some.injEq, Prod.mk.injEq] at hst; obtain ⟨rfl, -⟩ := hst
        exact h.phase hth (ph := .failed) (by simp) (by simp [active]) rfl rfl rfl rfl rfl rfl h.nj (by simp [hph, using', setPhase])
          (by simp [hph, using', setPhase]) (by simp [hph, using', setPhase])
      · cases hst
    · cases hst
  | free t =>
    simp only [Local.step] at hst
    split at hst
    · rename_i th hth
      split at hst
      · rename_i hph
        simp only [Option.some.injEq, Prod.mk.injEq] at hst; obtain ⟨rfl, -⟩ := hst
        refine h.phase hth (ph := .freed) (by simp) (by simp [active]) ?_ ?_ ?_ ?_ ?_ ?_ ?_ ?_ ?_ ?_ <;>
          (unfold setPhase giveBack; simp only [hph, using', fz]; split <;> simp_all)
        · exact h.nj
        · exact h.nj
      · cases hst
    · cases hst
  | done t =>
    simp only [Local.step] at hst
    split at hst
    · rename_i th hth
      split at hst
      · rename_i hph
        have hu : using' th.phase = false := by rcases hph with hph | hph <;> rw [hph] <;> decide
        split at hst
        · cases hst
        · rename_i job hjob
          split at hst
          · simp only [Option.some.injEq, Prod.mk.injEq] at hst; obtain ⟨rfl, -⟩ := hst
            have hset : ∀ x ∈ s.jobs.set th.job (countRun job), Nonneg x.req := by
              intro x hx
              rcases List.mem_or_eq_of_mem_set hx with hx | rfl
              · exact h.nj x hx
              · have := h.nj job (List.mem_of_getElem? hjob); unfold countRun; split <;> exact this
            split <;> exact h.phase hth (ph := .gone) (by simp) (by simp [active]) rfl rfl rfl rfl rfl rfl hset (by rw [hu]; simp [using', setPhase, removeKey])
              (by rw [hu]; simp [using', setPhase, removeKey]) (by rw [hu]; simp [using', setPhase, removeKey])
          · simp only [Option.some.injEq, Prod.mk.injEq] at hst; obtain ⟨rfl, -⟩ := hst
            exact h.phase hth (ph := .gone) (by simp) (by simp [active]) rfl rfl rfl rfl rfl rfl h.nj (by rw [hu]; simp [using', setPhase])
              (by rw [hu]; simp [using', setPhase]) (by rw [hu]; simp [using', setPhase])
      · cases hst
    · cases hst
  | recover r =>
    simp only [Local.step, Option.some.injEq, Prod.mk.injEq] at hst; obtain ⟨rfl, -⟩ := hst
    have e1 := h.ramEq; have e2 := h.coresEq; have e3 := h.zeroEq
    unfold take
    obtain ⟨a, b, c, d, e, f, g, i, j, k, l, m, n, o⟩ := h
    split
    · rename_i hz
      refine ⟨a, b, ?_, ?_, ?_, f, g, i, j, k, ?_, m, n, o⟩
      · simp only [List.map_append, List.sum_append, e1, List.map_cons, List.map_nil, List.sum_cons, List.sum_nil]; omega
      · simp only [List.map_append, List.sum_append, e2, List.map_cons, List.map_nil, List.sum_cons, List.sum_nil]; omega
      · simp only [List.map_append, List.sum_append, e3, List.map_cons, List.map_nil, List.sum_cons, List.sum_nil]; simp only [fz, hz, if_true]; omega
      · intro x hx; rcases List.mem_append.1 hx with hx | hx
        · exact l x hx
        · simp at hx; subst hx; exact hs
    · rename_i hz
      refine ⟨a, b, ?_, ?_, ?_, f, g, i, j, k, ?_, m, n, o⟩
      · simp only [List.map_append, List.sum_append, e1, List.map_cons, List.map_nil, List.sum_cons, List.sum_nil]; omega
      · simp only [List.map_append, List.sum_append, e2, List.map_cons, List.map_nil, List.sum_cons, List.sum_nil]; omega
      · simp only [List.map_append, List.sum_append, e3, List.map_cons, List.map_nil, List.sum_cons, List.sum_nil]; simp only [fz, hz, if_false]; omega
      · intro x hx; rcases List.mem_append.1 hx with hx | hx
        · exact l x hx
        · simp at hx; subst hx; exact hs
  | exited i =>
    simp only [Local.step] at hst
    split at hst
    · rename_i r hr
      simp only [Option.some.injEq, Prod.mk.injEq] at hst; obtain ⟨rfl, -⟩ := hst
      have e1 := h.ramEq; have e2 := h.coresEq; have e3 := h.zeroEq
      have s1 := sum_erase Req.ram _ _ _ hr
      have s2 := sum_erase Req.cores _ _ _ hr
      have s3 := sum_erase fz _ _ _ hr
      unfold giveBack
      obtain ⟨a, b, c, d, e, f, g, i, j, k, l, m, n, o⟩ := h
      split
      · rename_i hz
        refine ⟨a, b, ?_, ?_, ?_, f, g, i, j, k, fun x hx => l x (List.mem_of_mem_eraseIdx hx), m, n, o⟩
        · simp only [e1, s1]; omega
        · simp only [e2, s2]; omega
        · simp only [e3, s3]; simp only [fz, hz, if_true]; omega
      · rename_i hz
        refine ⟨a, b, ?_, ?_, ?_, f, g, i, j, k, fun x hx => l x (List.mem_of_mem_eraseIdx hx), m, n, o⟩
        · simp only [e1, s1]; omega
        · simp only [e2, s2]; omega
        · simp only [e3, s3]; simp only [fz, hz, if_false]; omega
    · cases hst
  | timeout p => exact absurd hs id

private theorem J.run {R C : Int} (h : List Ev) : ∀ {s s' : S} {o : List Obs}, J R C s → (∀ e ∈ h, Sensible e) → run s h = some (s', o) → J R C s' := by
  induction h with
  | nil => intro s s' o hj _ hr; simp [Local.run] at hr; obtain ⟨rfl, -⟩ := hr; exact hj
  | cons e h ih =>
    intro s s' o hj hse hr
    simp only [Local.run] at hr
    cases hst : Local.step s e with
    | none => rw [hst] at hr; cases hr
    | some p =>
      obtain ⟨s1, o1⟩ := p
      rw [hst] at hr
      simp only [Option.bind_some, Option.map_eq_some_iff] at hr
      obtain ⟨⟨s2, o2⟩, h1, h2⟩ := hr
      simp at h2; obtain ⟨rfl, -⟩ := h2
      exact ih (hj.step (hse e (by simp)) hst) (fun x hx => hse x (List.mem_cons_of_mem _ hx)) h1

/-- C43, if no command takes longer than a minute to start: at every moment of every history, the RAM and cores of the
running commands do not exceed the maxima, and neither does the number of those that need no core. -/
theorem C43_partial (R C : Int) (hR : 0 ≤ R) (hC : 0 ≤ C) (h : List Ev) (hs : ∀ e ∈ h, Sensible e) (s : S) (o : List Obs)
    (hr : run (init R C) h = some (s, o)) :
    inUse Req.ram s ≤ R ∧ inUse Req.cores s ≤ C * 1000 ∧ zeroCoreRuns s ≤ C * 2 := by
  have hj : J R C s := J.run (s := init R C) h ⟨rfl, rfl, rfl, rfl, rfl, hR, by show (0 : Int) ≤ C * 1000; omega, by show (0 : Int) ≤ C * 2; omega, by simp [init], by simp [init],
    by simp [init], by simp [init], by simp [init], by simp [init]⟩ hs hr
  rw [inUse_eq, inUse_eq, zero_eq]
  exact ⟨Int.le_trans (W_le fun t ht => (hj.nt t ht).1) hj.ramLe, Int.le_trans (W_le fun t ht => (hj.nt t ht).2) hj.coresLe,
    Int.le_trans (W_le fun t ht => by unfold fz; split <;> omega) hj.zeroLe⟩

/-- Requirements that are accepted can be met: with nothing running, at least one such command can be run. -/
theorem C43_fits (R C : Int) (hC : 1 ≤ C) (r : Req) (hr : 1 ≤ r.ram) (hc : 0 ≤ r.cores) (hok : reqCheck (init R C) r = true) :
    1 ≤ canCount (init R C) r := by
  unfold reqCheck at hok
  simp only [init, not_or, Int.not_lt, decide_eq_true_eq] at hok
  obtain ⟨h1, h2⟩ := hok
  rw [Int.fdiv_eq_ediv_of_nonneg _ (by omega)] at h2
  have c1 : 1 ≤ floorDiv (R - 0) r.ram := by
    unfold floorDiv
    rw [if_neg (by omega), Int.fdiv_eq_ediv_of_nonneg _ (by omega)]
    exact (Int.le_ediv_iff_mul_le (by omega)).2 (by omega)
  have c2 : 1 ≤ (if r.cores = 0 then C * zeroCoreMultiplier - 0 else floorDiv (C * 1000 - 0) r.cores) := by
    split
    · unfold zeroCoreMultiplier; omega
    · unfold floorDiv
      rw [if_neg (by omega), Int.fdiv_eq_ediv_of_nonneg _ (by omega)]
      exact (Int.le_ediv_iff_mul_le (by omega)).2 (by omega)
  exact canCount_ge (s := init R C) c1 c2

/-- A command that asks for no RAM is accepted and can never be run. -/
theorem C43_zero_ram (s : S) (c : Int) : canCount s ⟨0, c⟩ = 0 := by
  simp [canCount, floorDiv]

private theorem ex {α β : Type} {e : Option (α × β)} {p : α → Bool} (h : e.any (fun x => p x.1) = true) : ∃ a b, e = some (a, b) ∧ p a = true := by
  cases e with
  | none => cases h
  | some x => exact ⟨x.1, x.2, rfl, h⟩

/-- C43 does not hold if starting a command takes more than a minute: of a machine with 10 MB, 20 MB are then used. -/
theorem C43_violated : ∃ h s o, run (init 10 4) h = some (s, o) ∧ inUse Req.ram s = 20 := by
  have : ∃ s o, run (init 10 4) [.schedule "a" ⟨10, 1000⟩ 1, .schedule "b" ⟨10, 1000⟩ 1, .begin, .pick 0 "a", .timeout 0, .pick 0 "b",
      .reserve 0, .reserve 1] = some (s, o) ∧ (inUse Req.ram s == 20) = true := ex (by decide +kernel)
  obtain ⟨s, o, h1, h2⟩ := this
  exact ⟨_, s, o, h1, by simpa using h2⟩

/-- A non-trivial case of `C43_partial`: the machine is filled to its limit. -/
example : ∃ s o, run (init 10 4) [.schedule "a" ⟨4, 1500⟩ 3, .schedule "b" ⟨2, 0⟩ 3, .begin, .pick 0 "a", .reserve 1, .reserve 0, .pick 0 "b", .reserve 2]
    = some (s, o) ∧ (inUse Req.ram s == 10 && inUse Req.cores s == 3000 && zeroCoreRuns s == 1) = true := ex (by decide +kernel)

end Verif.Sched.Local
