import Verif.Limiter.Restart
/-! # C141: the slots of limit groups through restarts -/
namespace Verif.Limiter.Restart
open Verif.Limiter

/-! ### Specification -/

/-- the number of jobs that runners have and that are in the group -/
def inGroup (jobs : List RJob) (n : String) : Nat := (jobs.filter fun j => j.groups.contains n).length

/-- A name is a time window that is open, or no window. -/
def openAt (win : String → Option GroupData) (c : Clock) (n : String) : Prop := ∀ g, win n = some g → g.canIncrement c = true

/-- What the partial theorems need of a step: limits are not negative and not given to a group that is in use without a limit; the
groups of a job are distinct; a manager is restarted when the time windows of its running jobs are open and no more jobs of a group
are running than its limit is now. -/
def Proper (win : String → Option GroupData) (s : RS) : ROp → Prop
  | .set n k => 0 ≤ k ∧ win n = none ∧ (inForce win s.st n = none → inGroup s.jobs n = 0)
  | .reserve _ _ groups => groups.Nodup
  | .restart c order => (∀ l, (order l).Perm l) ∧
      ∀ j ∈ s.jobs, j.started = true → ∀ n ∈ j.groups, openAt win c n ∧
        ∀ v, win n = none → inForce win s.st n = some v → (inGroup (s.jobs.filter (·.started)) n : Int) ≤ v
  | _ => True

def ProperRun (win : String → Option GroupData) : RS → List ROp → Prop
  | _, [] => True
  | s, o :: os => Proper win s o ∧ ProperRun win (rstep win s o) os

/-- What names of windows stand for (`NameToGroupData`, C18). -/
def Windows (win : String → Option GroupData) : Prop := ∀ n g, win n = some g → g.isCount = false ∧ g.isValid = true

/-! ### Proof -/

/-- the count in memory -/
def cnt (mem : Groups) (n : String) : Int := match mem n with | some g => g.current | none => 0

structure RInv (win : String → Option GroupData) (s : RS) : Prop where
  sinv : SInv win s.st
  window : ∀ n g g', win n = some g → s.st.mem n = some g' → g' = g
  count : ∀ n v, win n = none → s.st.db n = some v → cnt s.st.mem n = inGroup s.jobs n
  held : ∀ j ∈ s.jobs, j.held = j.groups
  nodup : ∀ j ∈ s.jobs, j.groups.Nodup

theorem inGroup_cons (j : RJob) (js : List RJob) (n : String) :
    inGroup (j :: js) n = inGroup js n + (if n ∈ j.groups then 1 else 0) := by
  unfold inGroup
  by_cases h : n ∈ j.groups <;> simp [List.filter_cons, h]

theorem inGroup_perm {a b : List RJob} (h : a.Perm b) (n : String) : inGroup a n = inGroup b n :=
  (h.filter _).length_eq

theorem inGroup_erase {js : List RJob} {j : RJob} (h : j ∈ js) (n : String) :
    inGroup js n = inGroup (js.erase j) n + (if n ∈ j.groups then 1 else 0) := by
  rw [← inGroup_cons]; exact inGroup_perm (List.perm_cons_erase h) n

/-- memory as far as it matters: what a window's name stands for, and for a limited group its limit and its count -/
structure MInv (win : String → Option GroupData) (db : String → Option Int) (mem : Groups) (f : String → Int) : Prop where
  pos : ∀ n v, db n = some v → 0 ≤ v
  agree : ∀ n g, win n = none → mem n = some g → g.isCount = true ∧ db n = some g.limit
  window : ∀ n g g', win n = some g → mem n = some g' → g' = g
  count : ∀ n v, win n = none → db n = some v → cnt mem n = f n

theorem eff_win {win db mem f} (hW : Windows win) (i : MInv win db mem f) {n g} (h : win n = some g) :
    eff (retrieve win db) mem n = some g := by
  unfold eff
  cases hm : mem n with
  | some g' => rw [i.window n g g' h hm]
  | none => simp [retrieve, h, Option.filter, (hW n g h).2]

theorem eff_none {win db mem f} (i : MInv win db mem f) {n} (h : win n = none) (hd : db n = none) :
    eff (retrieve win db) mem n = none := by
  unfold eff
  cases hm : mem n with
  | some g' => have := (i.agree n g' h hm).2; rw [hd] at this; simp at this
  | none => simp [retrieve, h, hd, newCount, GroupData.isValid, Option.filter]

theorem eff_some {win db mem f} (i : MInv win db mem f) {n v} (h : win n = none) (hd : db n = some v) :
    eff (retrieve win db) mem n = some { mode := .count, limit := v, current := f n } := by
  have hc := i.count n v h hd
  unfold cnt at hc
  unfold eff
  cases hm : mem n with
  | some g' =>
    rw [hm] at hc; simp only at hc
    have := i.agree n g' h hm
    have h1 := this.1
    obtain ⟨m, l, c⟩ := g'
    simp only [GroupData.isCount, decide_eq_true_eq] at h1
    have h2 := this.2
    rw [hd] at h2
    simp only [Option.some.injEq] at h2
    simp only at hc
    rw [h1, h2, hc]
  | none =>
    rw [hm] at hc; simp only at hc
    have hv := i.pos n v hd
    have : ¬ v < 0 := by omega
    simp [retrieve, h, hd, newCount, GroupData.isValid, Option.filter, this, ← hc]

/-- what it takes to be let through -/
def Admits (win : String → Option GroupData) (db : String → Option Int) (f : String → Int) (c : Clock) (ns : List String) : Prop :=
  ∀ n ∈ ns, openAt win c n ∧ ∀ v, win n = none → db n = some v → f n < v

theorem increment_ok {win db mem f} (hW : Windows win) (i : MInv win db mem f) (c : Clock) (ns : List String) (hd : ns.Nodup) :
    ((increment c (retrieve win db) mem ns).2 = true ↔ Admits win db f c ns) ∧
    MInv win db (increment c (retrieve win db) mem ns).1
      (fun n => f n + if (increment c (retrieve win db) mem ns).2 = true ∧ n ∈ ns then 1 else 0) := by
  obtain ⟨h1, h2⟩ := increment_spec c (retrieve win db) mem ns
  constructor
  · rw [h1]
    constructor
    · intro h n hn
      refine ⟨fun g hg => h n hn g (eff_win hW i hg), fun v hw hv => ?_⟩
      have := h n hn _ (eff_some i hw hv)
      simpa [GroupData.canIncrement] using this
    · intro h n hn g hg
      cases hw : win n with
      | some g' => rw [eff_win hW i hw] at hg; injection hg with hg; subst hg; exact (h n hn).1 _ hw
      | none =>
        cases hv : db n with
        | none => rw [eff_none i hw hv] at hg; simp at hg
        | some v =>
          rw [eff_some i hw hv] at hg; injection hg with hg; subst hg
          simpa [GroupData.canIncrement] using (h n hn).2 v hw hv
  · generalize increment c (retrieve win db) mem ns = r at *
    obtain ⟨mem', ok⟩ := r
    simp only at h2 ⊢
    refine ⟨i.pos, ?_, ?_, ?_⟩
    · intro n g hw hm
      have he := eff_of_mem (cb := retrieve win db) hm
      rw [h2] at he
      cases hv : db n with
      | none => rw [eff_none i hw hv] at he; split at he <;> simp at he
      | some v =>
        rw [eff_some i hw hv] at he
        split at he
        · simp only [Option.map_some, Option.some.injEq] at he; subst he
          exact ⟨by rw [(bump_data _ _ _).1]; rfl, by rw [(bump_data _ _ _).2]⟩
        · injection he with he; subst he; exact ⟨rfl, rfl⟩
    · intro n g g' hw hm
      have he := eff_of_mem (cb := retrieve win db) hm
      rw [h2, eff_win hW i hw] at he
      have : bump ns n g = g := by unfold bump; rw [if_neg]; rw [(hW n g hw).1]; simp
      split at he
      · simp only [Option.map_some, Option.some.injEq] at he; rw [← he, this]
      · injection he with he; exact he.symm
    · intro n v hw hv
      have he := h2 n
      rw [eff_some i hw hv] at he
      have key : eff (retrieve win db) mem' n =
          some { mode := .count, limit := v, current := f n + if ok = true ∧ n ∈ ns then 1 else 0 } := by
        rw [he]
        cases ok
        · simp
        · simp only [if_true, Option.map_some, bump, GroupData.isCount, decide_true, true_and]
          rw [hd.count]
          by_cases hn : n ∈ ns <;> simp [hn]
      unfold eff at key
      unfold cnt
      cases hm : mem' n with
      | some g => rw [hm] at key; injection key with key; subst key; rfl
      | none =>
        rw [hm] at key
        have hv0 := i.pos n v hv
        have : ¬ v < 0 := by omega
        simp only [retrieve, hw, hv, newCount, this, if_false, GroupData.isValid] at key
        simp [Option.filter] at key
        omega

theorem decrement_ok {win db mem f} (hW : Windows win) (i : MInv win db mem f) (ns : List String) (hd : ns.Nodup)
    (hf : ∀ n, 0 ≤ f n) (hp : ∀ n ∈ ns, 0 < f n) :
    MInv win db (decrement mem ns) (fun n => f n - if n ∈ ns then 1 else 0) := by
  have data := decrement_data ns mem
  refine ⟨i.pos, ?_, ?_, ?_⟩
  · intro n g hw hm
    obtain ⟨g', h1, h2, h3⟩ := data n g hm
    rw [h2, h3]; exact i.agree n g' hw h1
  · intro n g g' hw hm
    by_cases hn : n ∈ ns
    · rw [decrement_mem ns mem n hd hn] at hm
      cases hmm : mem n with
      | none => rw [hmm] at hm; simp at hm
      | some x =>
        have := i.window n g x hw hmm; subst this
        rw [hmm] at hm
        have hx := (hW n x hw).1
        simp only [Option.bind_some, dec1, GroupData.decrement, hx] at hm
        simpa using hm.symm
    · rw [decrement_other ns mem n hn] at hm; exact i.window n g g' hw hm
  · intro n v hw hv
    have hc := i.count n v hw hv
    by_cases hn : n ∈ ns
    · unfold cnt at hc ⊢
      rw [decrement_mem ns mem n hd hn, if_pos hn]
      have := hp n hn
      cases hm : mem n with
      | none => rw [hm] at hc; simp only at hc; omega
      | some g =>
        rw [hm] at hc; simp only at hc
        have hg := (i.agree n g hw hm).1
        have h0 : ¬ g.current = 0 := by omega
        simp only [Option.bind_some, dec1, GroupData.decrement, hg, not_true, if_false, h0]
        by_cases hl : g.current - 1 < 1
        · simp only [hl, decide_true, if_true]; omega
        · simp only [hl, decide_false, Bool.false_eq_true, if_false]; omega
    · unfold cnt at hc ⊢
      rw [decrement_other ns mem n hn, if_neg hn, hc]; omega

theorem RInv.m {win s} (i : RInv win s) : MInv win s.st.db s.st.mem (fun n => inGroup s.jobs n) :=
  ⟨i.sinv.pos, i.sinv.agree, i.window, i.count⟩

theorem RInv.mk' {win} {s : RS} (m : MInv win s.st.db s.st.mem (fun n => inGroup s.jobs n))
    (h : ∀ j ∈ s.jobs, j.held = j.groups) (d : ∀ j ∈ s.jobs, j.groups.Nodup) : RInv win s :=
  ⟨⟨m.pos, m.agree⟩, m.window, m.count, h, d⟩

theorem MInv.congr {win db mem f f'} (i : MInv win db mem f) (h : ∀ n v, win n = none → db n = some v → f n = f' n) : MInv win db mem f' :=
  ⟨i.pos, i.agree, i.window, fun n v hw hv => by rw [i.count n v hw hv, h n v hw hv]⟩

theorem reserve_ok {win s} (hW : Windows win) (i : RInv win s) (c : Clock) (key : Nat) (groups : List String) (hd : groups.Nodup) :
    RInv win (reserve win s c key groups).1 ∧
    ((reserve win s c key groups).2 = true ↔
      s.jobs.any (·.key = key) = false ∧ Admits win s.st.db (fun n => inGroup s.jobs n) c groups) ∧
    ((reserve win s c key groups).2 = true → ∃ j, j.key = key ∧ j.groups = groups ∧ (reserve win s c key groups).1.jobs = j :: s.jobs) ∧
    ((reserve win s c key groups).2 = false → (reserve win s c key groups).1.jobs = s.jobs) ∧
    (reserve win s c key groups).1.st.db = s.st.db := by
  unfold reserve
  by_cases hk : s.jobs.any (·.key = key) = true
  · rw [if_pos hk]; exact ⟨i, by simp [hk], by simp, fun _ => rfl, rfl⟩
  · rw [if_neg hk]
    have hk' : s.jobs.any (·.key = key) = false := by simpa using hk
    by_cases he : groups = []
    · rw [if_pos he]; subst he
      refine ⟨RInv.mk' (i.m.congr ?_) ?_ ?_, ?_, ?_, ?_, rfl⟩
      · intro n v _ _; rw [inGroup_cons]; simp
      · intro j hj; rcases List.mem_cons.1 hj with rfl | hj
        · rfl
        · exact i.held j hj
      · intro j hj; rcases List.mem_cons.1 hj with rfl | hj
        · simp
        · exact i.nodup j hj
      · simp only [hk', true_and, true_iff]; intro n hn; simp at hn
      · intro _; exact ⟨_, rfl, rfl, rfl⟩
      · intro h; simp at h
    · rw [if_neg he]
      obtain ⟨h1, h2⟩ := increment_ok hW i.m c groups hd
      generalize increment c (retrieve win s.st.db) s.st.mem groups = r at *
      obtain ⟨mem, ok⟩ := r
      cases ok
      · refine ⟨RInv.mk' (h2.congr ?_) i.held i.nodup, ?_, ?_, fun _ => rfl, rfl⟩
        · intro n v _ _; simp
        · simp only [hk', true_and]; exact h1
        · intro h; simp at h
      · refine ⟨RInv.mk' (h2.congr ?_) ?_ ?_, ?_, ?_, ?_, rfl⟩
        · intro n v _ _; rw [inGroup_cons]; simp only [true_and]; split <;> simp
        · intro j hj; rcases List.mem_cons.1 hj with rfl | hj
          · rfl
          · exact i.held j hj
        · intro j hj; rcases List.mem_cons.1 hj with rfl | hj
          · exact hd
          · exact i.nodup j hj
        · simp only [hk', true_and]; simpa only [true_iff] using h1
        · intro _; exact ⟨_, rfl, rfl, rfl⟩
        · intro h; simp at h

theorem recover_ok {win db} (hW : Windows win) (c : Clock) (js : List RJob) : ∀ {mem f}, MInv win db mem f →
    (∀ j ∈ js, j.groups.Nodup) →
    (∀ j ∈ js, ∀ n ∈ j.groups, openAt win c n ∧ ∀ v, win n = none → db n = some v → f n + (inGroup js n : Int) ≤ v) →
    MInv win db (recoverLoop c (retrieve win db) mem js).1 (fun n => f n + inGroup js n) ∧
    (recoverLoop c (retrieve win db) mem js).2 = js.map fun j => { j with held := j.groups } := by
  induction js with
  | nil => intro mem f i _ _; exact ⟨i.congr (by intro n v _ _; simp [inGroup]), rfl⟩
  | cons j js ih =>
    intro mem f i hd ha
    have hdj := hd j (by simp)
    have hdr : ∀ j ∈ js, j.groups.Nodup := fun j h => hd j (by simp [h])
    unfold recoverLoop
    by_cases he : j.groups = []
    · rw [if_pos he]
      obtain ⟨h1, h2⟩ := ih i hdr (by
        intro k hk n hn
        have := ha k (by simp [hk]) n hn
        refine ⟨this.1, fun v hw hv => ?_⟩
        have := this.2 v hw hv
        rw [inGroup_cons] at this; split at this <;> simp at this <;> omega)
      refine ⟨h1.congr ?_, ?_⟩
      · intro n v _ _; rw [inGroup_cons, he]; simp
      · simp only [h2, List.map_cons, he]
    · rw [if_neg he]
      obtain ⟨h1, h2⟩ := increment_ok hW i c j.groups hdj
      have hok : (increment c (retrieve win db) mem j.groups).2 = true := by
        rw [h1]; intro n hn
        have := ha j (by simp) n hn
        refine ⟨this.1, fun v hw hv => ?_⟩
        have := this.2 v hw hv
        rw [inGroup_cons, if_pos hn] at this
        omega
      simp only [hok, true_and] at h2
      obtain ⟨h3, h4⟩ := ih h2 hdr (by
        intro k hk n hn
        have := ha k (by simp [hk]) n hn
        refine ⟨this.1, fun v hw hv => ?_⟩
        have := this.2 v hw hv
        rw [inGroup_cons] at this
        split at this <;> simp_all <;> omega)
      refine ⟨h3.congr ?_, ?_⟩
      · intro n v _ _; rw [inGroup_cons]; split <;> simp <;> omega
      · simp only [h4, hok, if_true, List.map_cons]

theorem inForce_db' {win s n} (i : RInv win s) (hw : win n = none) : inForce win s.st n = s.st.db n := inForce_db i.sinv hw

theorem inGroup_map (g : RJob → RJob) (hg : ∀ j, (g j).groups = j.groups) (js : List RJob) (n : String) :
    inGroup (js.map g) n = inGroup js n := by
  induction js with
  | nil => rfl
  | cons j js ih => rw [List.map_cons, inGroup_cons, inGroup_cons, ih, hg]

theorem inGroup_pos {js : List RJob} {j : RJob} (h : j ∈ js) {n : String} (hn : n ∈ j.groups) : 0 < inGroup js n := by
  rw [inGroup_erase h, if_pos hn]; omega

theorem restart_ok {win s} (hW : Windows win) (i : RInv win s) (c : Clock) (order : List RJob → List RJob)
    (hp : Proper win s (.restart c order)) :
    RInv win (restart win s c order) ∧
    (restart win s c order).jobs = (order (s.jobs.filter (·.started))).map fun j => { j with held := j.groups } := by
  obtain ⟨ho, ha⟩ := hp
  have hperm := ho (s.jobs.filter (·.started))
  have hmem : ∀ j, j ∈ order (s.jobs.filter (·.started)) → j ∈ s.jobs ∧ j.started = true := by
    intro j hj; have := hperm.mem_iff.1 hj; simpa using this
  have i0 : MInv win s.st.db (fun _ => none) (fun _ => 0) :=
    ⟨i.sinv.pos, by intro n g _ h; simp at h, by intro n g g' _ h; simp at h, by intro n v _ _; rfl⟩
  obtain ⟨h1, h2⟩ := recover_ok hW c (order (s.jobs.filter (·.started))) i0
    (fun j hj => i.nodup j (hmem j hj).1)
    (by
      intro j hj n hn
      obtain ⟨hj1, hj2⟩ := hmem j hj
      obtain ⟨h1, h2⟩ := ha j hj1 hj2 n hn
      refine ⟨h1, fun v hw hv => ?_⟩
      rw [inGroup_perm hperm]
      have := h2 v hw (by rw [inForce_db' i hw]; exact hv)
      omega)
  refine ⟨RInv.mk' ?_ ?_ ?_, h2⟩
  · refine h1.congr ?_
    intro n v _ _
    simp only [restart, h2]
    rw [inGroup_map (fun j => { j with held := j.groups }) (fun _ => rfl)]; omega
  · intro j hj
    simp only [restart, h2] at hj
    obtain ⟨k, _, rfl⟩ := List.mem_map.1 hj
    rfl
  · intro j hj
    simp only [restart, h2] at hj
    obtain ⟨k, hk, rfl⟩ := List.mem_map.1 hj
    exact i.nodup k (hmem k hk).1

theorem set_ok {win s n k} (i : RInv win s) (hk : 0 ≤ k) (hw : win n = none) (hu : s.st.db n = none → inGroup s.jobs n = 0) :
    RInv win { s with st := getSet s.st n (newCount k) } := by
  obtain ⟨⟨h1, h2⟩, _⟩ := store_step (n := n) i.sinv hk
  obtain ⟨hc, hl, hv⟩ := newCount_count hk
  have hmem : (getSet s.st n (newCount k)).mem = setLimit s.st.mem n (newCount k) := by
    unfold getSet
    have : (dbStore1 s.st.db n (newCount k)).2.2 = false := by
      unfold dbStore1
      have hl' : (newCount k).limit' = k := by unfold GroupData.limit'; rw [hc, if_pos rfl, hl]
      rw [hc, hl']
      simp only [not_true, if_false]
      have : ¬ k < 0 := by omega
      simp only [this, if_false]
      split
      · split <;> rfl
      · rfl
    generalize dbStore1 s.st.db n (newCount k) = r at *
    obtain ⟨a, b, c⟩ := r
    simp only at this ⊢
    subst this
    simp only [hv, if_true, Bool.false_eq_true, if_false]
  have hoth : ∀ m, m ≠ n → setLimit s.st.mem n (newCount k) m = s.st.mem m := by
    intro m hm; unfold setLimit; cases s.st.mem n <;> simp [put, hm]
  have hcnt : cnt (setLimit s.st.mem n (newCount k)) n = cnt s.st.mem n := by
    unfold cnt setLimit
    cases hm : s.st.mem n with
    | none => simp only [put, if_true]; unfold newCount; by_cases hk0 : k < 0 <;> simp [hk0]
    | some g => simp only [put, if_true]; unfold GroupData.setLimit; split <;> rfl
  refine ⟨h1, ?_, ?_, i.held, i.nodup⟩
  · intro m g g' hwm hm
    rw [hmem] at hm
    have : m ≠ n := by intro e; subst e; rw [hw] at hwm; simp at hwm
    rw [hoth m this] at hm
    exact i.window m g g' hwm hm
  · intro m v hwm hv
    rw [hmem]
    by_cases e : m = n
    · subst e
      rw [hcnt]
      cases hd : s.st.db m with
      | some v' => exact i.count m v' hwm hd
      | none =>
        rw [hu hd]
        unfold cnt
        cases hm : s.st.mem m with
        | none => rfl
        | some g => have := (i.sinv.agree m g hwm hm).2; rw [hd] at this; simp at this
    · have hcm : cnt (setLimit s.st.mem n (newCount k)) m = cnt s.st.mem m := by unfold cnt; rw [hoth m e]
      rw [hcm]
      rw [h2] at hv
      simp only [e, if_false] at hv
      exact i.count m v hwm hv

theorem ask_ok {win s} (hW : Windows win) (i : RInv win s) (n : String) :
    RInv win { s with st := { s.st with mem := (getLimit (retrieve win s.st.db) s.st.mem n).1 } } := by
  have he : (getLimit (retrieve win s.st.db) s.st.mem n).1 = (vivify (retrieve win s.st.db) s.st.mem n).1 := by
    unfold getLimit; split <;> simp_all
  rw [he]
  rcases vivify_fst (retrieve win s.st.db) s.st.mem n with e | ⟨hn, e⟩
  · rw [e]; exact i
  · rw [e]
    refine RInv.mk' ⟨i.sinv.pos, ?_, ?_, ?_⟩ i.held i.nodup
    · intro m g hw hm
      by_cases hmn : m = n
      · subst hmn
        simp only [put, if_true] at hm
        cases hd : s.st.db m with
        | none => rw [eff_none i.m hw hd] at hm; simp at hm
        | some v => rw [eff_some i.m hw hd] at hm; injection hm with hm; subst hm; exact ⟨rfl, rfl⟩
      · simp only [put, hmn, if_false] at hm; exact i.sinv.agree m g hw hm
    · intro m g g' hw hm
      by_cases hmn : m = n
      · subst hmn
        simp only [put, if_true] at hm
        rw [eff_win hW i.m hw] at hm; injection hm with hm; exact hm.symm
      · simp only [put, hmn, if_false] at hm; exact i.window m g g' hw hm
    · intro m v hw hv
      by_cases hmn : m = n
      · subst hmn
        simp only [cnt, put, if_true]
        rw [eff_some i.m hw hv]
      · have := i.count m v hw hv
        simpa only [cnt, put, hmn, if_false] using this

theorem finish_ok {win s} (hW : Windows win) (i : RInv win s) (key : Nat) : RInv win (finish s key) := by
  unfold finish
  cases hf : s.jobs.find? (·.key = key) with
  | none => exact i
  | some j =>
    have hj := List.mem_of_find?_eq_some hf
    have hd := i.nodup j hj
    have hh := i.held j hj
    simp only
    have := decrement_ok hW i.m j.held (by rw [hh]; exact hd) (fun n => by omega)
      (by intro n hn; rw [hh] at hn; have := inGroup_pos hj hn; omega)
    refine RInv.mk' (this.congr ?_) (fun k hk => i.held k (List.mem_of_mem_erase hk)) (fun k hk => i.nodup k (List.mem_of_mem_erase hk))
    intro n v _ _
    rw [hh, inGroup_erase hj]
    split <;> simp

theorem started_ok {win s} (i : RInv win s) (key : Nat) :
    RInv win { s with jobs := s.jobs.map fun j => if j.key = key then { j with started := true } else j } := by
  refine RInv.mk' (i.m.congr ?_) ?_ ?_
  · intro n v _ _
    simp only
    rw [inGroup_map]
    intro j; split <;> rfl
  · intro j hj
    obtain ⟨k, hk, rfl⟩ := List.mem_map.1 hj
    have := i.held k hk
    split <;> exact this
  · intro j hj
    obtain ⟨k, hk, rfl⟩ := List.mem_map.1 hj
    have := i.nodup k hk
    split <;> exact this

theorem rrun_ok {win} (hW : Windows win) (os : List ROp) : ∀ {s}, RInv win s → ProperRun win s os → RInv win (rrun win s os) := by
  induction os with
  | nil => intro s i _; exact i
  | cons o os ih =>
    intro s i hp
    refine ih ?_ hp.2
    have h1 := hp.1
    cases o with
    | set n k => exact set_ok i h1.1 h1.2.1 (fun hd => h1.2.2 (by rw [inForce_db' i h1.2.1]; exact hd))
    | reserve c key groups => exact (reserve_ok hW i c key groups h1).1
    | started key => exact started_ok i key
    | finish key => exact finish_ok hW i key
    | ask n => exact ask_ok hW i n
    | restart c order => exact (restart_ok hW i c order h1).1

theorem rinit (win) : RInv win {} :=
  RInv.mk' ⟨by intro n v h; simp at h, by intro n g _ h; simp at h, by intro n g g' _ h; simp at h, by intro n v _ _; rfl⟩
    (by intro j h; simp at h) (by intro j h; simp at h)

/-! ### Properties -/

/-- C141: after every history, with any number of restarts, a job that runners do not have is handed out exactly if each of its
time windows is open and each of its limited groups has fewer jobs with runners than its limit in force; afterwards no limited
group of the job has more than its limit. -/
theorem C141_admitted_partial {win} (hW : Windows win) (os : List ROp) (hp : ProperRun win {} os) (c : Clock) (key : Nat)
    (groups : List String) (hd : groups.Nodup) (hk : ∀ j ∈ (rrun win {} os).jobs, j.key ≠ key) :
    let s := rrun win {} os
    let r := reserve win s c key groups
    (r.2 = true ↔ ∀ n ∈ groups, openAt win c n ∧ ∀ v, win n = none → inForce win s.st n = some v → (inGroup s.jobs n : Int) < v) ∧
    (r.2 = true → ∀ n ∈ groups, ∀ v, win n = none → inForce win r.1.st n = some v → (inGroup r.1.jobs n : Int) ≤ v) ∧
    (r.2 = false → r.1.jobs = s.jobs) := by
  intro s r
  have i : RInv win s := rrun_ok hW os (rinit win) hp
  obtain ⟨h1, h2, h3, h4, h5⟩ := reserve_ok hW i c key groups hd
  have hk' : s.jobs.any (·.key = key) = false := by
    rw [List.any_eq_false]; intro j hj; simpa using hk j hj
  have e : (r.2 = true ↔ ∀ n ∈ groups, openAt win c n ∧ ∀ v, win n = none → inForce win s.st n = some v → (inGroup s.jobs n : Int) < v) := by
    rw [h2]; simp only [hk', true_and]
    unfold Admits
    constructor
    · intro h n hn; exact ⟨(h n hn).1, fun v hw hv => (h n hn).2 v hw (by rw [← inForce_db' i hw]; exact hv)⟩
    · intro h n hn; exact ⟨(h n hn).1, fun v hw hv => (h n hn).2 v hw (by rw [inForce_db' i hw]; exact hv)⟩
  refine ⟨e, fun ht n hn v hw hv => ?_, h4⟩
  obtain ⟨j, _, hg, hj⟩ := h3 ht
  rw [inForce_db' h1 hw, h5, ← inForce_db' i hw] at hv
  have := ((e.1 ht) n hn).2 v hw hv
  rw [hj, inGroup_cons, hg, if_pos hn]
  omega

/-- C141: after every history each job that a runner has is noted to hold one slot of each of its groups, and of no other: that is
what its end gives back. -/
theorem C141_held_partial {win} (hW : Windows win) (os : List ROp) (hp : ProperRun win {} os) :
    ∀ j ∈ (rrun win {} os).jobs, j.held = j.groups := (rrun_ok hW os (rinit win) hp).held

/-- C141: a restart keeps exactly the jobs that had started, whatever the order of the database. -/
theorem C141_kept_partial {win} (hW : Windows win) (os : List ROp) (hp : ProperRun win {} os) (c : Clock) (order : List RJob → List RJob)
    (hr : Proper win (rrun win {} os) (.restart c order)) :
    let s := rrun win {} os
    ((restart win s c order).jobs.map (·.key)).Perm ((s.jobs.filter (·.started)).map (·.key)) ∧
    ∀ n, win n = none → inForce win (restart win s c order).st n = inForce win s.st n := by
  intro s
  have i : RInv win s := rrun_ok hW os (rinit win) hp
  obtain ⟨h1, h2⟩ := restart_ok hW i c order hr
  refine ⟨?_, fun n hw => ?_⟩
  · rw [h2, List.map_map]
    exact (hr.1 _).map _
  · rw [inForce_db' h1 hw, inForce_db' i hw]; rfl

/-- a history: limits, jobs taken, a restart with one started and one not, limits changed -/
def demo : List ROp := [.set "a" 2, .reserve ⟨10, 10⟩ 1 ["a", "w"], .started 1, .reserve ⟨10, 10⟩ 2 ["a"], .restart ⟨20, 20⟩ List.reverse,
  .ask "a", .set "a" 1]
/-- "w" is open until 100 -/
def demoWin : String → Option GroupData := fun n => if n = "w" then some { mode := .beforeTime, limit := 100 } else none

theorem demoWin_ok : Windows demoWin := by
  intro n g h; unfold demoWin at h; split at h
  · injection h with h; subst h; decide
  · simp at h

example : ProperRun demoWin {} demo := by
  refine ⟨⟨by decide, by decide +kernel, fun _ => rfl⟩, (by decide : ["a", "w"].Nodup), trivial, (by decide : ["a"].Nodup), ⟨fun l => List.reverse_perm l, ?_⟩, trivial,
    ⟨by decide, by decide +kernel, ?_⟩, trivial⟩
  · have : (rrun demoWin {} (demo.take 4)).jobs = [{ key := 2, groups := ["a"], held := ["a"] }, { key := 1, groups := ["a", "w"], held := ["a", "w"], started := true }] := by
      decide +kernel
    intro j hj hs n hn
    have hj : j ∈ (rrun demoWin {} (demo.take 4)).jobs := hj
    rw [this] at hj
    simp only [List.mem_cons, List.not_mem_nil, or_false] at hj
    rcases hj with rfl | rfl
    · simp at hs
    · simp only [List.mem_cons, List.not_mem_nil, or_false] at hn
      rcases hn with rfl | rfl
      · refine ⟨fun g hg => by simp [demoWin] at hg, fun v _ hv => ?_⟩
        have h2 : inForce demoWin (rrun demoWin {} (demo.take 4)).st "a" = some 2 := by decide +kernel
        have hv : inForce demoWin (rrun demoWin {} (demo.take 4)).st "a" = some v := hv
        rw [h2] at hv; injection hv with hv; subst hv
        have h3 : inGroup ((rrun demoWin {} (demo.take 4)).jobs.filter (·.started)) "a" = 1 := by decide +kernel
        have : (inGroup ((rrun demoWin {} (demo.take 4)).jobs.filter (·.started)) "a" : Int) ≤ 2 := by rw [h3]; decide
        exact this
      · refine ⟨fun g hg => ?_, fun v hw => by simp [demoWin] at hw⟩
        simp only [demoWin, if_true, Option.some.injEq] at hg
        subst hg; decide
  · intro h
    have h2 : inForce demoWin (rrun demoWin {} (demo.take 6)).st "a" = some 2 := by decide +kernel
    have h : inForce demoWin (rrun demoWin {} (demo.take 6)).st "a" = none := h
    rw [h2] at h; simp at h

example : (rrun demoWin {} demo).jobs = [{ key := 1, groups := ["a", "w"], held := ["a", "w"], started := true }] ∧
    (reserve demoWin (rrun demoWin {} demo) ⟨30, 30⟩ 3 ["a"]).2 = false ∧
    (reserve demoWin (rrun demoWin {} (demo ++ [.finish 1])) ⟨30, 30⟩ 3 ["a"]).2 = true := by decide +kernel

/-- the number of jobs that will give back a slot of the group when they end -/
def holding (jobs : List RJob) (n : String) : Nat := (jobs.filter fun j => j.held.contains n).length

theorem holding_cons (j : RJob) (js : List RJob) (n : String) :
    holding (j :: js) n = holding js n + (if n ∈ j.held then 1 else 0) := by
  unfold holding
  by_cases h : n ∈ j.held <;> simp [List.filter_cons, h]

theorem recover_counts {win db} (hW : Windows win) (c : Clock) (js : List RJob) : ∀ {mem f}, MInv win db mem f →
    (∀ j ∈ js, j.groups.Nodup) →
    MInv win db (recoverLoop c (retrieve win db) mem js).1 (fun n => f n + holding (recoverLoop c (retrieve win db) mem js).2 n) := by
  induction js with
  | nil => intro mem f i _; exact i.congr (by intro n v _ _; simp [recoverLoop, holding])
  | cons j js ih =>
    intro mem f i hd
    have hdr : ∀ j ∈ js, j.groups.Nodup := fun j h => hd j (by simp [h])
    unfold recoverLoop
    by_cases he : j.groups = []
    · rw [if_pos he]
      exact (ih i hdr).congr (by intro n v _ _; simp only [holding_cons]; simp)
    · rw [if_neg he]
      obtain ⟨h1, h2⟩ := increment_ok hW i c j.groups (hd j (by simp))
      refine (ih h2 hdr).congr ?_
      intro n v _ _
      simp only [holding_cons]
      generalize increment c (retrieve win db) mem j.groups = r at *
      obtain ⟨mem', ok⟩ := r
      cases ok
      · simp
      · by_cases hn : n ∈ j.groups <;> simp [hn]; omega

/-- C141: after every restart, whatever the limits and windows were before it, the slots in use of each limited group are as many as the
running jobs will give back: no job will give back a slot that is another's. -/
theorem C141_counted {win} (hW : Windows win) (s : RS) (hp : ∀ n v, s.st.db n = some v → 0 ≤ v) (hd : ∀ j ∈ s.jobs, j.groups.Nodup) (c : Clock)
    (order : List RJob → List RJob) (ho : ∀ l, (order l).Perm l) (n : String) (v : Int) (hw : win n = none) (hv : s.st.db n = some v) :
    cnt (rstep win s (.restart c order)).st.mem n = holding (rstep win s (.restart c order)).jobs n := by
  have i : MInv win s.st.db (fun _ => none) (fun _ => 0) := ⟨hp, by simp, by simp, by simp [cnt]⟩
  have := (recover_counts hW c (order (s.jobs.filter (·.started))) i (by
    intro j hj
    have := (ho _).mem_iff.1 hj
    exact hd j (List.mem_filter.1 this).1)).count n v hw hv
  simp only [rstep, restart]
  rw [this]; simp

/-- with a limit lowered to 1 the second of two running jobs is not counted, and holds nothing -/
example : let s := rrun (fun _ => none) {} [.set "a" 2, .reserve ⟨0, 0⟩ 1 ["a"], .started 1, .reserve ⟨0, 0⟩ 2 ["a"], .started 2, .set "a" 1,
      .restart ⟨0, 0⟩ id]
    (s.jobs.map (·.held)) = [["a"], []] ∧ cnt s.st.mem "a" = 1 ∧ holding s.jobs "a" = 1 ∧ inGroup s.jobs "a" = 2 := by decide +kernel

/-- C141 is false if a time window of a running job has closed when the manager is restarted: none of its groups is counted then, so
a group with a limit of 1 gets a second job. -/
theorem C141_violated_window : ∃ os : List ROp, os = [.set "a" 1, .reserve ⟨10, 10⟩ 1 ["a", "w"], .started 1, .restart ⟨200, 200⟩ id] ∧
    inForce demoWin (rrun demoWin {} os).st "a" = some 1 ∧ inGroup (rrun demoWin {} os).jobs "a" = 1 ∧
    (reserve demoWin (rrun demoWin {} os) ⟨200, 200⟩ 2 ["a"]).2 = true ∧
    inGroup (reserve demoWin (rrun demoWin {} os) ⟨200, 200⟩ 2 ["a"]).1.jobs "a" = 2 :=
  ⟨_, rfl, by decide +kernel, by decide +kernel, by decide +kernel, by decide +kernel⟩

/-- C141 is false if a limit was lowered below the number of running jobs before a restart: without the restart a job is only handed
out when there is room; after it, the end of one job lets the next one in though the group is still full. -/
theorem C141_violated_lowered : ∃ os : List ROp, os = [.set "a" 2, .reserve ⟨0, 0⟩ 1 ["a"], .started 1, .reserve ⟨0, 0⟩ 2 ["a"], .started 2, .set "a" 1] ∧
    (reserve (fun _ => none) (rrun (fun _ => none) {} (os ++ [.finish 2])) ⟨0, 0⟩ 3 ["a"]).2 = false ∧
    inForce (fun _ => none) (rrun (fun _ => none) {} (os ++ [.restart ⟨0, 0⟩ id, .finish 2])).st "a" = some 1 ∧
    inGroup (rrun (fun _ => none) {} (os ++ [.restart ⟨0, 0⟩ id, .finish 2])).jobs "a" = 1 ∧
    (reserve (fun _ => none) (rrun (fun _ => none) {} (os ++ [.restart ⟨0, 0⟩ id, .finish 2])) ⟨0, 0⟩ 3 ["a"]).2 = true :=
  ⟨_, rfl, by decide +kernel, by decide +kernel, by decide +kernel, by decide +kernel⟩

end Verif.Limiter.Restart
