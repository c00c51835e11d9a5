/-
C128  The LSF emulation: numbers of jobs, and bkill.
-/
import Verif.Cmd.Lsf

namespace Verif.Cmd.Lsf

/-! ## numbers -/

/-- the manager is not restarted, and bsub mode is not set by modifying jobs -/
def Plain : IdEv → Prop
  | .restart => False
  | .mod1 => False
  | .mod2 _ => False
  | _ => True

instance (e : IdEv) : Decidable (Plain e) := by cases e <;> (unfold Plain; infer_instance)

structure IdInv (s : Ids) : Prop where
  le : ∀ k i, s.q k = some i ∨ s.comp k = some i → i ≤ s.next
  inj : ∀ k k' i, (s.q k = some i ∨ s.comp k = some i) → (s.q k' = some i ∨ s.comp k' = some i) → i ≠ 0 → k = k'

theorem idInv_step {s s' : Ids} {e} (h : IdInv s) (hp : Plain e) (hs : idStep s e = some s') : IdInv s' := by
  obtain ⟨h1, h2⟩ := h
  have q1 : ∀ k i, s.q k = some i → i ≤ s.next := fun k i h => h1 k i (.inl h)
  have q2 : ∀ k i, s.comp k = some i → i ≤ s.next := fun k i h => h1 k i (.inr h)
  have q3 : ∀ k k' i, s.q k = some i → s.q k' = some i → i ≠ 0 → k = k' := fun k k' i h h' => h2 k k' i (.inl h) (.inl h')
  have q4 : ∀ k k' i, s.q k = some i → s.comp k' = some i → i ≠ 0 → k = k' := fun k k' i h h' => h2 k k' i (.inl h) (.inr h')
  have q5 : ∀ k k' i, s.comp k = some i → s.comp k' = some i → i ≠ 0 → k = k' := fun k k' i h h' => h2 k k' i (.inr h) (.inr h')
  cases e with
  | add k b =>
    simp only [idStep, Option.some.injEq] at hs
    subst hs
    constructor <;> grind [put]
  | back k =>
    simp only [idStep] at hs
    split at hs
    · cases hs; constructor <;> grind [put]
    · cases hs
  | complete k =>
    simp only [idStep] at hs
    split at hs
    · cases hs; constructor <;> grind [put]
    · cases hs
  | delete k => simp only [idStep, Option.some.injEq] at hs; subst hs; constructor <;> grind [put]
  | save k =>
    simp only [idStep] at hs
    split at hs
    · cases hs; exact ⟨h1, h2⟩
    · cases hs
  | mod1 => exact hp.elim
  | mod2 k => exact hp.elim
  | restart => exact hp.elim

theorem idInv_run : ∀ es (s s' : Ids), IdInv s → (∀ e ∈ es, Plain e) → idRun s es = some s' → IdInv s'
  | [], s, s', h, _, hr => by cases hr; exact h
  | e :: es, s, s', h, hp, hr => by
    simp only [idRun, Option.bind_eq_some_iff] at hr
    obtain ⟨t, h1, h2⟩ := hr
    exact idInv_run es t s' (idInv_step h (hp e (by simp)) h1) (fun e he => hp e (by simp [he])) h2

/-- C128.  As long as the manager runs (and bsub mode is not set by modifying jobs), no two jobs in the queue have the same
number, whatever is added, comes back, ends or is deleted. -/
theorem C128_numbers_partial (es : List IdEv) (s : Ids) (hp : ∀ e ∈ es, Plain e) (hr : idRun ids0 es = some s) (k k' i : Nat)
    (h : s.q k = some i) (h' : s.q k' = some i) (hi : i ≠ 0) : k = k' :=
  (idInv_run es _ _ ⟨by simp [ids0], by simp [ids0]⟩ hp hr).inj k k' i (.inl h) (.inl h') hi

/-- C128.  A job keeps its number for as long as it is in the queue and the manager runs. -/
theorem C128_number_kept_partial (s s' : Ids) (e : IdEv) (hp : Plain e) (k i : Nat) (h : s.q k = some i)
    (hs : idStep s e = some s') : s'.q k = some i ∨ s'.q k = none := by
  cases e with
  | add k b => simp only [idStep, Option.some.injEq] at hs; subst hs; grind [put]
  | back k => simp only [idStep] at hs; split at hs <;> cases hs; grind [put]
  | complete k => simp only [idStep] at hs; split at hs <;> cases hs; grind [put]
  | delete k => simp only [idStep, Option.some.injEq] at hs; subst hs; grind [put]
  | save k => simp only [idStep] at hs; split at hs <;> cases hs; exact .inl h
  | mod1 => exact hp.elim
  | mod2 k => exact hp.elim
  | restart => exact hp.elim

/-- C128.  Jobs added with bsub have a number, others have none. -/
theorem C128_number_given (s : Ids) (k : Key) (b : Bool) (h : s.q k = none) :
    ∃ s' i, idStep s (.add k b) = some s' ∧ s'.q k = some i ∧ (i ≠ 0 ↔ b = true) := by
  refine ⟨_, if b then s.next + 1 else 0, rfl, ?_, ?_⟩
  · simp [h, put]
  · cases b <;> simp

example : ∃ s, idRun ids0 [.add 1 true, .add 2 false, .add 3 true, .complete 1, .add 4 true, .back 1] = some s ∧
    s.q 1 = some 1 ∧ s.q 2 = some 0 ∧ s.q 3 = some 2 ∧ s.q 4 = some 3 := ⟨_, rfl, rfl, rfl, rfl, rfl⟩

/-- C128 fails: after the manager was restarted, new jobs get the numbers of those that are still there. -/
theorem C128_violated_restart : ∃ s, idRun ids0 [.add 1 true, .restart, .add 2 true] = some s ∧
    s.q 1 = some 1 ∧ s.q 2 = some 1 := ⟨_, rfl, rfl, rfl⟩

/-- C128 fails: a command was submitted as job 1, and submitted again (which is refused as a duplicate).  After a restart of
the manager it is job 2, and there is no job 1. -/
theorem C128_violated_renumbered : ∃ s s', idRun ids0 [.add 7 true, .add 7 true] = some s ∧ s.q 7 = some 1 ∧
    idStep s .restart = some s' ∧ s'.q 7 = some 2 ∧ ∀ k, s'.q k ≠ some 1 := by
  refine ⟨_, _, rfl, rfl, rfl, rfl, ?_⟩
  intro k
  by_cases h : k = 7 <;> simp [put, ids0, h]

/-- C128 fails: setting bsub mode of a job while another is added gives both the same number. -/
theorem C128_violated_modified : ∃ s, idRun ids0 [.add 1 false, .mod1, .add 2 true, .mod2 1] = some s ∧
    s.q 1 = some 2 ∧ s.q 2 = some 2 := ⟨_, rfl, rfl, rfl⟩

/-! ## bkill: which jobs -/

/-- the job that bkill is working on -/
def busy : Pc → Option Key
  | .killing k => some k
  | .waiting k => some k
  | .deleting k => some k
  | _ => none

structure KInv (p : Par) (s : K) : Prop where
  nodup : s.want.Nodup
  want : ∀ i ∈ s.want, i ∈ p.args
  busy : ∀ k, busy s.pc = some k → p.num k ∈ s.want
  only : ∀ k, k ∈ s.killed ∨ k ∈ s.deleted → p.num k ∈ p.args
  all : s.pc ≠ .start → ∀ i ∈ p.args, i ∈ s.want ∨ .terminated i ∈ s.out
  outs : ∀ o ∈ s.out, o.id ∈ p.args ∧ (s.pc ≠ .done → o.id ∉ s.want)
  once : (s.out.map Out.id).Nodup
  start : s.pc = .start → s.out = [] ∧ s.killed = [] ∧ s.deleted = []
  fin : s.pc = .done → ∀ i ∈ p.args, i ∈ s.out.map Out.id

theorem nodup_eraseDups (l : List Nat) : l.eraseDups.Nodup := by
  suffices h : ∀ n (l : List Nat), l.length ≤ n → l.eraseDups.Nodup from h _ l (Nat.le_refl _)
  intro n
  induction n with
  | zero =>
    intro l hl
    have : l = [] := by cases l with
      | nil => rfl
      | cons a l => simp at hl
    subst this; simp
  | succ n ih =>
    intro l hl
    cases l with
    | nil => simp
    | cons a l =>
      rw [List.eraseDups_cons, List.nodup_cons]
      refine ⟨by simp [List.mem_eraseDups], ih _ ?_⟩
      have := List.length_filter_le (fun b => !b == a) l
      simp only [List.length_cons] at hl
      omega

theorem kinv_init (p : Par) (srv) : KInv p (k0 srv) := by
  constructor <;> simp [k0, busy]

theorem kinv_step {p : Par} {s s' : K} {e} (h : KInv p s) (hs : kStep p s e = some s') : KInv p s' := by
  cases e with
  | env k st =>
    simp only [kStep] at hs
    split at hs
    · cases hs; exact ⟨h.nodup, h.want, h.busy, h.only, h.all, h.outs, h.once, h.start, h.fin⟩
    · cases hs
  | fetch =>
    simp only [kStep] at hs
    split at hs
    · rename_i hpc
      cases hs
      obtain ⟨o1, o2, o3⟩ := h.start hpc
      exact ⟨nodup_eraseDups _, fun i hi => by simpa using hi, by simp [busy], by simp [o2, o3],
        fun _ i hi => .inl (by simpa using hi), by simp [o1], by simp [o1], by simp, by simp⟩
    · cases hs
  | next =>
    simp only [kStep] at hs
    split at hs
    · rename_i hpc
      split at hs
      · cases hs
        refine ⟨h.nodup, h.want, by simp [busy], h.only, fun _ i hi => ?_, ?_, ?_, by simp, ?_⟩
        · rcases h.all (by simp [hpc]) i hi with h1 | h1
          · exact .inl h1
          · exact .inr (by simp [h1])
        · intro o ho
          simp only [List.mem_append, List.mem_map] at ho
          refine ⟨?_, by simp⟩
          rcases ho with ho | ⟨i, hi, rfl⟩
          · exact (h.outs o ho).1
          · exact h.want i hi
        · simp only [List.map_append, List.map_map]
          have e : (Out.id ∘ Out.finished) = id := rfl
          rw [e, List.map_id, List.nodup_append]
          refine ⟨h.once, h.nodup, ?_⟩
          intro a ha b hb
          obtain ⟨o, ho, rfl⟩ := List.mem_map.1 ha
          rintro rfl
          exact (h.outs o ho).2 (by simp [hpc]) hb
        · intro _ i hi
          simp only [List.map_append, List.map_map, List.mem_append]
          rcases h.all (by simp [hpc]) i hi with h1 | h1
          · exact .inr (List.mem_map.2 ⟨i, h1, rfl⟩)
          · exact .inl (List.mem_map.2 ⟨_, h1, rfl⟩)
      · rename_i k st r _
        split at hs
        · cases hs; exact ⟨h.nodup, h.want, h.busy, h.only, h.all, h.outs, h.once, h.start, h.fin⟩
        · rename_i hw
          have hw' : p.num k ∈ s.want := Classical.byContradiction hw
          have key : ∀ pc, busy pc = some k → pc ≠ .start → pc ≠ .done → KInv p { s with todo := r, pc := pc } := by
            intro pc hb h1 h2
            refine ⟨h.nodup, h.want, ?_, h.only, fun _ => h.all (by simp [hpc]),
              fun o ho => ⟨(h.outs o ho).1, fun _ => (h.outs o ho).2 (by simp [hpc])⟩, h.once, fun e => absurd e h1, fun e => absurd e h2⟩
            intro k' hk'
            rw [hb] at hk'
            obtain rfl := Option.some.inj hk'
            exact hw'
          split at hs <;> cases hs
          · exact key (.killing k) rfl (by simp) (by simp)
          · exact key (.deleting k) rfl (by simp) (by simp)
    · cases hs
  | kill ok =>
    simp only [kStep] at hs
    split at hs
    · rename_i k hpc
      have hw := h.busy k (by simp [hpc, busy])
      have ha := h.all (by simp [hpc])
      have ho : ∀ o ∈ s.out, o.id ∈ p.args ∧ o.id ∉ s.want := fun o ho => ⟨(h.outs o ho).1, (h.outs o ho).2 (by simp [hpc])⟩
      cases ok <;> cases hs
      · exact ⟨h.nodup, h.want, by simp [busy], h.only, fun _ => ha, fun o hx => ⟨(ho o hx).1, fun _ => (ho o hx).2⟩, h.once, by simp, by simp⟩
      · refine ⟨h.nodup, h.want, ?_, ?_, fun _ => ha, fun o hx => ⟨(ho o hx).1, fun _ => (ho o hx).2⟩, h.once, by simp, by simp⟩
        · intro k' hk'
          simp only [if_true, busy, Option.some.injEq] at hk'
          subst hk'
          exact hw
        · intro k' hk'
          simp only [if_true, List.mem_cons] at hk'
          rcases hk' with (rfl | hk') | hk'
          · exact h.want _ hw
          · exact h.only _ (.inl hk')
          · exact h.only _ (.inr hk')
    · cases hs
  | poll ok =>
    simp only [kStep] at hs
    split at hs
    · rename_i k hpc
      have hw := h.busy k (by simp [hpc, busy])
      have key : ∀ pc, (busy pc = some k ∨ busy pc = none) → pc ≠ .start → pc ≠ .done → KInv p { s with pc := pc } := by
        intro pc hb h1 h2
        refine ⟨h.nodup, h.want, ?_, h.only, fun _ => h.all (by simp [hpc]),
          fun o ho => ⟨(h.outs o ho).1, fun _ => (h.outs o ho).2 (by simp [hpc])⟩, h.once, fun e => absurd e h1, fun e => absurd e h2⟩
        intro k' hk'
        simp only at hk'
        rcases hb with hb | hb <;> rw [hb] at hk'
        · obtain rfl := Option.some.inj hk'
          exact hw
        · cases hk'
      split at hs
      · cases hs; exact key .loop (.inr rfl) (by simp) (by simp)
      · split at hs <;> cases hs
        · exact key .crashed (.inr rfl) (by simp) (by simp)
        · exact key (.deleting k) (.inl rfl) (by simp) (by simp)
        · exact h
    · cases hs
  | del dep ok =>
    simp only [kStep] at hs
    split at hs
    · rename_i k hpc
      have hw := h.busy k (by simp [hpc, busy])
      have ha := h.all (by simp [hpc])
      have ho : ∀ o ∈ s.out, o.id ∈ p.args ∧ o.id ∉ s.want := fun o ho => ⟨(h.outs o ho).1, (h.outs o ho).2 (by simp [hpc])⟩
      split at hs <;> cases hs
      · exact ⟨h.nodup, h.want, by simp [busy], h.only, fun _ => ha, fun o hx => ⟨(ho o hx).1, fun _ => (ho o hx).2⟩, h.once, by simp, by simp⟩
      · refine ⟨h.nodup.filter _, fun i hi => h.want i (List.mem_filter.1 hi).1, by simp [busy], ?_, ?_, ?_, ?_, by simp, by simp⟩
        · intro k' hk'
          simp only at hk'
          rcases hk' with hk' | hk'
          · exact h.only _ (.inl hk')
          · split at hk'
            · rcases List.mem_cons.1 hk' with rfl | hk'
              · exact h.want _ hw
              · exact h.only _ (.inr hk')
            · exact h.only _ (.inr hk')
        · intro _ i hi
          simp only [List.mem_filter, List.mem_append, List.mem_singleton]
          by_cases e : i = p.num k
          · exact .inr (.inr (by rw [e]))
          · rcases ha i hi with h1 | h1
            · exact .inl ⟨h1, by simpa using e⟩
            · exact .inr (.inl h1)
        · intro o hx
          simp only [List.mem_append, List.mem_singleton] at hx
          rcases hx with hx | rfl
          · exact ⟨(ho o hx).1, fun _ hm => (ho o hx).2 (List.mem_filter.1 hm).1⟩
          · exact ⟨h.want _ hw, fun _ hm => by
              have := (List.mem_filter.1 hm).2
              simp [Out.id] at this⟩
        · simp only [List.map_append, List.map_cons, List.map_nil]
          rw [List.nodup_append]
          refine ⟨h.once, by simp, ?_⟩
          intro a ha' b hb
          obtain ⟨o, hx, rfl⟩ := List.mem_map.1 ha'
          simp only [List.mem_singleton] at hb
          subst hb
          intro e
          exact (ho o hx).2 (e ▸ hw)
    · cases hs

theorem kinv_run {p : Par} : ∀ es (s s' : K), KInv p s → kRun p s es = some s' → KInv p s'
  | [], s, s', h, hr => by cases hr; exact h
  | e :: es, s, s', h, hr => by
    simp only [kRun, Option.bind_eq_some_iff] at hr
    obtain ⟨t, h1, h2⟩ := hr
    exact kinv_run es t s' (kinv_step h h1) h2

/-- C128, `bkill`.  Whatever happens meanwhile, it kills and deletes only jobs with numbers that were given. -/
theorem C128_bkill_only (p : Par) (srv) (es : List KEv) (s : K) (hr : kRun p (k0 srv) es = some s) (k : Key)
    (h : k ∈ s.killed ∨ k ∈ s.deleted) : p.num k ∈ p.args := (kinv_run es _ _ (kinv_init p srv) hr).only k h

/-- C128, `bkill`.  Whatever happens meanwhile, when it ends there is exactly one line for each number given, and no
other. -/
theorem C128_bkill_lines (p : Par) (srv) (es : List KEv) (s : K) (hr : kRun p (k0 srv) es = some s) (hd : s.pc = .done) :
    (s.out.map Out.id).Nodup ∧ ∀ i, i ∈ s.out.map Out.id ↔ i ∈ p.args := by
  have h := kinv_run es _ _ (kinv_init p srv) hr
  refine ⟨h.once, fun i => ⟨?_, h.fin hd i⟩⟩
  intro hi
  obtain ⟨o, ho, rfl⟩ := List.mem_map.1 hi
  exact (h.outs o ho).1

/-! ## bkill: what it says is so -/

/-- no job changes but that those that were killed are buried; no request fails, and no job to delete has dependants -/
def Quiet (s : K) : KEv → Prop
  | .env k st => k ∈ s.killed ∧ s.srv k = some .running ∧ st = some .buried
  | .kill ok => ok = true
  | .poll ok => ok = true
  | .del dep ok => dep = false ∧ ok = true
  | _ => True

instance (s : K) (e : KEv) : Decidable (Quiet s e) := by cases e <;> (unfold Quiet; infer_instance)

def QuietAll (p : Par) (s : K) : List KEv → Prop
  | [] => True
  | e :: es => Quiet s e ∧ match kStep p s e with | some s' => QuietAll p s' es | none => True

instance decQuietAll (p : Par) : ∀ (s : K) (es : List KEv), Decidable (QuietAll p s es)
  | _, [] => by unfold QuietAll; infer_instance
  | s, e :: es => by
    unfold QuietAll
    have : ∀ s', Decidable (QuietAll p s' es) := fun s' => decQuietAll p s' es
    cases kStep p s e <;> infer_instance

/-- a job that bkill can end: it waits, runs or is buried -/
def Plainly : Option St → Bool
  | some .pending => true
  | some .running => true
  | some .buried => true
  | _ => false

/-- the jobs at the beginning: those with the numbers given have different numbers, and are not lost, nor reserved -/
structure Fine (p : Par) (srv : Key → Option St) : Prop where
  inj : ∀ k ∈ p.keys, ∀ k' ∈ p.keys, p.num k = p.num k' → p.num k ∈ p.args → k = k'
  ok : ∀ k ∈ p.keys, p.num k ∈ p.args → ∀ st, srv k = some st → incomplete st = true → Plainly (some st) = true

structure QInv (p : Par) (srv0 : Key → Option St) (s : K) : Prop where
  start : s.pc = .start → s.srv = srv0 ∧ s.todo = [] ∧ s.out = [] ∧ s.killed = []
  todo : ∀ k st, (k, st) ∈ s.todo → k ∈ p.keys ∧ s.srv k = some st ∧ srv0 k = some st ∧ incomplete st = true ∧ k ∉ s.killed
  todoN : (s.todo.map (·.1)).Nodup
  busyK : ∀ k, busy s.pc = some k → k ∈ p.keys ∧ (∀ st, (k, st) ∉ s.todo) ∧ ∃ st, srv0 k = some st ∧ incomplete st = true
  kill : ∀ k, s.pc = .killing k → s.srv k = some .running ∧ k ∉ s.killed
  wait : ∀ k, s.pc = .waiting k → s.srv k = some .running ∨ s.srv k = some .buried
  del : ∀ k, s.pc = .deleting k → s.srv k = some .pending ∨ s.srv k = some .buried
  rest : s.pc ≠ .start → ∀ k ∈ p.keys, p.num k ∈ p.args → ∀ st, srv0 k = some st → incomplete st = true →
    (k, st) ∈ s.todo ∨ busy s.pc = some k ∨ (s.srv k = none ∧ .terminated (p.num k) ∈ s.out)
  said : ∀ i, .terminated i ∈ s.out → ∃ k ∈ p.keys, p.num k = i ∧ s.srv k = none ∧ ∃ st, srv0 k = some st ∧ incomplete st = true
  crash : s.pc ≠ .crashed
  wanted : s.pc ≠ .start → ∀ i ∈ p.args, i ∉ s.want → .terminated i ∈ s.out
  gone : ∀ k, s.srv k = none → ∀ st, (k, st) ∉ s.todo
  fin : s.pc = .done → s.todo = []

theorem fetch_keys (f : Key → Option St) : ∀ l : List Key,
    (l.filterMap fun k => (f k).bind fun st => if incomplete st then some (k, st) else none).map (·.1) =
      l.filter fun k => (f k).any incomplete
  | [] => rfl
  | k :: l => by
    have ih := fetch_keys f l
    rw [List.filterMap_cons, List.filter_cons]
    cases h : f k with
    | none => simpa using ih
    | some st => cases h2 : incomplete st <;> simpa [h2] using ih

set_option maxHeartbeats 2000000 in
theorem qinv_step {p : Par} {srv0} {s s' : K} {e} (hn : p.keys.Nodup) (hf : Fine p srv0) (hk : KInv p s) (h : QInv p srv0 s) (hq : Quiet s e)
    (hs : kStep p s e = some s') : QInv p srv0 s' := by
  obtain ⟨a1, a2, a3, a4, a5, a6, a7, a8, a9, a10, a11, a12, a13⟩ := h
  cases e with
  | env k st =>
    simp only [kStep] at hs
    split at hs
    · cases hs
      obtain ⟨q1, q2, rfl⟩ := hq
      constructor <;> simp only <;> grind [busy]
    · cases hs
  | fetch =>
    simp only [kStep] at hs
    split at hs
    · rename_i hpc
      cases hs
      obtain ⟨b1, b2, b3, b4⟩ := a1 hpc
      have hm : ∀ k st, (k, st) ∈ (p.keys.filterMap fun k => (s.srv k).bind fun st => if incomplete st then some (k, st) else none) ↔
          k ∈ p.keys ∧ srv0 k = some st ∧ incomplete st = true := by
        intro k st
        rw [b1]
        simp only [List.mem_filterMap, Option.bind_eq_some_iff]
        grind
      have hN : ((p.keys.filterMap fun k => (s.srv k).bind fun st => if incomplete st then some (k, st) else none).map (·.1)).Nodup := by
        rw [fetch_keys]
        exact hn.filter _
      refine ⟨by simp, ?_, hN, by simp [busy], by simp, by simp, by simp, ?_, by simp [b3], by simp, ?_, ?_, by simp⟩
      · intro k st h
        obtain ⟨h1, h2, h3⟩ := (hm k st).1 h
        exact ⟨h1, by rw [b1]; exact h2, h2, h3, by simp [b4]⟩
      · intro _ k h1 h2 st h3 h4
        exact .inl ((hm k st).2 ⟨h1, h3, h4⟩)
      · intro _ i hi hi'
        simp [hi] at hi'
      · intro k h1 st h2
        have := (hm k st).1 h2
        simp only [b1] at h1
        rw [this.2.1] at h1
        cases h1
    · cases hs
  | next =>
    simp only [kStep] at hs
    split at hs
    · rename_i hpc
      split at hs
      · rename_i hl
        cases hs
        constructor <;> simp only <;> grind [busy]
      · rename_i k st r hl
        have hok := hf.ok k
        have hin := hf.inj k
        have hkw := hk.want
        split at hs
        · cases hs
          constructor <;> simp only <;> grind [busy]
        · rename_i hw
          split at hs <;> cases hs
          · constructor <;> simp only <;> grind [busy]
          · have : st = .pending ∨ st = .buried := by
              obtain ⟨h1, h2, h3, h4, h5⟩ := a2 k st (by simp [hl])
              have := hok h1 (hkw _ (Classical.byContradiction hw)) st h3 h4
              cases st <;> simp_all [Plainly]
            constructor <;> simp only <;> grind [busy]
    · cases hs
  | kill ok =>
    simp only [kStep] at hs
    split at hs
    · rename_i k hpc
      have : ok = true := hq
      subst this
      cases hs
      constructor <;> simp only [if_true] <;> grind [busy]
    · cases hs
  | poll ok =>
    simp only [kStep] at hs
    split at hs
    · rename_i k hpc
      have : ok = true := hq
      subst this
      rw [if_neg (by simp)] at hs
      split at hs <;> cases hs
      · grind
      · constructor <;> simp only <;> grind [busy]
      · exact ⟨a1, a2, a3, a4, a5, a6, a7, a8, a9, a10, a11, a12, a13⟩
    · cases hs
  | del dep ok =>
    simp only [kStep] at hs
    split at hs
    · rename_i k hpc
      obtain ⟨rfl, rfl⟩ := hq
      have hd : deletable (s.srv k) false = true := by
        rcases a7 k hpc with h | h <;> rw [h] <;> rfl
      rw [if_neg (by simp)] at hs
      simp only [hd, if_true] at hs
      cases hs
      have hkw := hk.busy k (by simp [hpc, busy])
      constructor <;> simp only <;> grind [busy]
    · cases hs

theorem qinv_run {p : Par} {srv0} (hn : p.keys.Nodup) (hf : Fine p srv0) : ∀ es (s s' : K), KInv p s → QInv p srv0 s → QuietAll p s es →
    kRun p s es = some s' → QInv p srv0 s'
  | [], s, s', _, h, _, hr => by cases hr; exact h
  | e :: es, s, s', hk, h, hq, hr => by
    simp only [kRun, Option.bind_eq_some_iff] at hr
    obtain ⟨t, h1, h2⟩ := hr
    simp only [QuietAll, h1] at hq
    exact qinv_run hn hf es t s' (kinv_step hk h1) (qinv_step hn hf hk h hq.1 h1) hq.2 h2

/-- C128, `bkill`.  If jobs have different numbers, those with numbers that were given are not lost or reserved and have no
dependants, nothing else happens to them and no request fails: when bkill ends, the jobs with these numbers are gone, each of
them was reported as being terminated, and the other numbers as finished. -/
theorem C128_bkill_partial (p : Par) (hn : p.keys.Nodup) (srv : Key → Option St) (hf : Fine p srv) (es : List KEv) (s : K)
    (hq : QuietAll p (k0 srv) es) (hr : kRun p (k0 srv) es = some s) (hd : s.pc = .done) :
    (∀ k ∈ p.keys, p.num k ∈ p.args → ∀ st, srv k = some st → incomplete st = true → s.srv k = none) ∧
    (∀ i, .terminated i ∈ s.out ↔ i ∈ p.args ∧ ∃ k ∈ p.keys, p.num k = i ∧ ∃ st, srv k = some st ∧ incomplete st = true) := by
  have h0 : QInv p srv (k0 srv) := by constructor <;> simp [k0, busy]
  have h := qinv_run hn hf es _ _ (kinv_init p srv) h0 hq hr
  have hk := kinv_run es _ _ (kinv_init p srv) hr
  have key : ∀ k ∈ p.keys, p.num k ∈ p.args → ∀ st, srv k = some st → incomplete st = true →
      s.srv k = none ∧ .terminated (p.num k) ∈ s.out := by
    intro k h1 h2 st h3 h4
    rcases h.rest (by simp [hd]) k h1 h2 st h3 h4 with h5 | h5 | h5
    · rw [h.fin hd] at h5; cases h5
    · rw [hd] at h5; cases h5
    · exact h5
  refine ⟨fun k h1 h2 st h3 h4 => (key k h1 h2 st h3 h4).1, fun i => ⟨fun hi => ?_, ?_⟩⟩
  · obtain ⟨k, h1, h2, h3, h4⟩ := h.said i hi
    exact ⟨(hk.outs _ hi).1, k, h1, h2, h4⟩
  · rintro ⟨h1, k, h2, rfl, st, h3, h4⟩
    exact (key k h2 h1 st h3 h4).2

/-- three jobs: 1 runs, 2 is buried, 3 waits and is not of bsub -/
def three : Key → Option St := fun k => if k = 1 then some .running else if k = 2 then some .buried else if k = 3 then some .pending else none

def parThree (args : List Nat) : Par := ⟨fun k => if k = 3 then 0 else k + 10, [1, 2, 3], args⟩

example : ∃ s, kRun (parThree [12, 11, 77, 12]) (k0 three) [.fetch, .next, .kill true, .poll true, .env 1 (some .buried), .poll true,
      .del false true, .next, .del false true, .next, .next] = some s ∧
    QuietAll (parThree [12, 11, 77, 12]) (k0 three) [.fetch, .next, .kill true, .poll true, .env 1 (some .buried), .poll true,
      .del false true, .next, .del false true, .next, .next] ∧
    s.pc = .done ∧ s.out = [.terminated 11, .terminated 12, .finished 77] ∧ s.deleted = [2, 1] :=
  ⟨_, rfl, by decide +kernel, rfl, rfl, rfl⟩

example : Fine (parThree [12, 11, 77, 12]) three := by
  constructor
  · decide
  · intro k hk hn st hs hi
    simp only [parThree, List.mem_cons, List.not_mem_nil, or_false] at hk
    rcases hk with rfl | rfl | rfl <;> cases hs <;> rfl

/-! ## where bkill fails -/

/-- the job is complete and bkill waits for it -/
theorem waits_step {p : Par} {s s' : K} {k e} (h : s.pc = .waiting k ∧ s.srv k = some .complete)
    (he : e ≠ .env k (some .pending) ∧ e ≠ .poll false) (hs : kStep p s e = some s') :
    (s'.pc = .waiting k ∧ s'.srv k = some .complete) ∧ s'.out = s.out := by
  obtain ⟨h1, h2⟩ := h
  cases e with
  | env k' st =>
    simp only [kStep] at hs
    split at hs
    · rename_i hl
      cases hs
      by_cases hk : k' = k
      · subst hk
        rw [h2] at hl
        cases st with
        | none => cases hl
        | some st => cases st <;> first | (exact absurd rfl he.1) | cases hl
      · exact ⟨⟨h1, by simp only; rw [if_neg (fun e => hk e.symm)]; exact h2⟩, rfl⟩
    · cases hs
  | fetch => simp [kStep, h1] at hs
  | next => simp [kStep, h1] at hs
  | kill ok => simp [kStep, h1] at hs
  | poll ok =>
    simp only [kStep, h1, h2] at hs
    split at hs
    · rename_i hb
      cases ok
      · exact absurd rfl he.2
      · simp at hb
    · cases hs; exact ⟨⟨h1, h2⟩, rfl⟩
  | del dep ok => simp [kStep, h1] at hs

theorem waits_run {p : Par} {k} : ∀ es (s s' : K), s.pc = .waiting k ∧ s.srv k = some .complete →
    (∀ e ∈ es, e ≠ .env k (some .pending) ∧ e ≠ .poll false) → kRun p s es = some s' → s'.pc = .waiting k ∧ s'.out = s.out
  | [], s, s', h, _, hr => by cases hr; exact ⟨h.1, rfl⟩
  | e :: es, s, s', h, he, hr => by
    simp only [kRun, Option.bind_eq_some_iff] at hr
    obtain ⟨t, h1, h2⟩ := hr
    obtain ⟨h3, h4⟩ := waits_step h (he e (by simp)) h1
    have := waits_run es t s' h3 (fun e he' => he e (by simp [he'])) h2
    exact ⟨this.1, this.2.trans h4⟩

/-- C128 fails: if the job succeeds before the kill reaches it, bkill never ends, whatever happens but that the server fails or
the job is added again, and says nothing about any job. -/
theorem C128_violated_never_ends : ∃ s, kRun (parThree [11, 12]) (k0 three) [.fetch, .next, .kill true, .env 1 (some .complete)] = some s ∧
    ∀ es s', (∀ e ∈ es, e ≠ .env 1 (some .pending) ∧ e ≠ .poll false) → kRun (parThree [11, 12]) s es = some s' →
      s'.pc = .waiting 1 ∧ s'.out = [] :=
  ⟨_, rfl, fun es s' he hr => waits_run es _ s' ⟨rfl, rfl⟩ he hr⟩

/-- C128 fails: a job that was reserved meanwhile is reported as being terminated, and runs. -/
theorem C128_violated_runs : ∃ s, kRun ⟨fun k => k, [1], [1]⟩ (k0 fun k => if k = 1 then some .pending else none)
      [.fetch, .next, .env 1 (some .reserved), .del false true, .next, .env 1 (some .running)] = some s ∧
    s.pc = .done ∧ s.out = [.terminated 1] ∧ s.srv 1 = some .running := ⟨_, rfl, rfl, rfl, rfl⟩

/-- C128 fails: so is a lost job, which stays. -/
theorem C128_violated_lost_job : ∃ s, kRun ⟨fun k => k, [1], [1]⟩ (k0 fun k => if k = 1 then some .lost else none)
      [.fetch, .next, .del false true, .next] = some s ∧
    s.pc = .done ∧ s.out = [.terminated 1] ∧ s.srv 1 = some .lost := ⟨_, rfl, rfl, rfl, rfl⟩

/-- C128 fails: so is a job that others depend on, which stays. -/
theorem C128_violated_dependants : ∃ s, kRun ⟨fun k => k, [1], [1]⟩ (k0 fun k => if k = 1 then some .pending else none)
      [.fetch, .next, .del true true, .next] = some s ∧
    s.pc = .done ∧ s.out = [.terminated 1] ∧ s.srv 1 = some .pending := ⟨_, rfl, rfl, rfl, rfl⟩

/-- C128 fails: a running job that could not be killed is reported as finished. -/
theorem C128_violated_finished : ∃ s, kRun (parThree [11]) (k0 three) [.fetch, .next, .kill false, .next, .next, .next] = some s ∧
    s.pc = .done ∧ s.out = [.finished 11] ∧ s.srv 1 = some .running := ⟨_, rfl, rfl, rfl, rfl⟩

/-- C128 fails: `bkill 0` deletes a job that was not added with bsub. -/
theorem C128_violated_zero : ∃ s, kRun (parThree [0]) (k0 three) [.fetch, .next, .next, .next, .del false true, .next] = some s ∧
    s.pc = .done ∧ (parThree [0]).num 3 = 0 ∧ s.deleted = [3] := ⟨_, rfl, rfl, rfl, rfl⟩

/-- C128 fails: of two jobs with the same number (C128_violated_restart) only one is ended. -/
theorem C128_violated_same_number : ∃ s, kRun ⟨fun _ => 1, [1, 2], [1]⟩ (k0 fun k => if k = 1 ∨ k = 2 then some .pending else none)
      [.fetch, .next, .del false true, .next, .next] = some s ∧
    s.pc = .done ∧ s.out = [.terminated 1] ∧ s.srv 2 = some .pending := ⟨_, rfl, rfl, rfl, rfl⟩

/-- C128 fails: bkill crashes if the job it killed is deleted by someone else before it looks again. -/
theorem C128_violated_crash : ∃ s, kRun (parThree [11]) (k0 three)
      [.fetch, .next, .kill true, .env 1 (some .buried), .env 1 none, .poll true] = some s ∧
    s.pc = .crashed := ⟨_, rfl, rfl⟩

end Verif.Cmd.Lsf
