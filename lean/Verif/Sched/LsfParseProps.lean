/- C133: what wr knows of the LSF queues is what `bqueues -l` says. -/
import Verif.Sched.LsfParseLemmas

namespace Verif.Sched.LsfParse
open Verif.Sched.Lsf (Crit Queue contains usable highest tracked)
open Verif.Utils.Config (digits itoa digits_itoa itoa_ne)
open Verif.Sched.LsfText

/-! ## Specification -/

/-- what the text about a queue says of it. For a queue that the user `me` may not use, the hosts and chunks are not looked at -/
def queueOf (me : Str) (gs : List (Str × List Str)) (d : Desc) : Queue where
  name := d.name
  permitted := decide ("all".toList ∈ d.users ∨ me ∈ d.users)
  attr
    | .prio => some d.prio
    | .max => d.max
    | .maxUser => d.maxUser
    | .runlimit => d.run.map fun r => r.mins * 60
    | .memlimit => d.mem.map fun m => megabytes (Lim.tr m.lim)
    | .numUsers => some (numUsers d.users)
    | .hosts => if "all".toList ∈ d.users ∨ me ∈ d.users then d.hosts.map (numHosts gs) else none
    | .chunkSize => if "all".toList ∈ d.users ∨ me ∈ d.users then d.chunk else none

/-! ## One queue -/

variable {me : Str} {gs : List (Str × List Str)} {pre : List (Str × (Crit → Option Nat))} {hi : Crit → Nat} {q : Str} {a : Crit → Option Nat}

private theorem run_top (d : Desc) (h : d.Wf) (hq : d.name ∉ pre.map (·.1)) (x : Option Str) :
    runFrom me gs (between pre hi x) d.top = .ok (clean pre (prioHigh d hi) d.name (prioAttr d (fun _ => none))) := by
  have hq0 : ∀ l ∈ d.q0, Quiet l := fun l hl => h.quiet l (by simp [hl])
  have hq1 : ∀ l ∈ d.q1, Quiet l := fun l hl => h.quiet l (by simp [hl])
  unfold Desc.top
  rw [List.cons_append, List.cons_append, run_cons _ (step_queue h.name h.nameRest hq), runFrom_append _ _ _ _ (by
    rw [runFrom_append _ _ _ _ (run_quiet _ hq0)]
    exact run_prio d h hq)]
  exact run_quiet _ hq1

def midAttr (d : Desc) (a : Crit → Option Nat) : Crit → Option Nat :=
  updO (updO a .runlimit (d.run.map fun r => r.mins * 60)) .memlimit (d.mem.map fun m => megabytes (Lim.tr m.lim))

def midHigh (d : Desc) (hi : Crit → Nat) : Crit → Nat := updHO hi .memlimit (d.mem.map fun m => megabytes (Lim.tr m.lim))

private theorem run_mid (d : Desc) (h : d.Wf) (hq : q ∉ pre.map (·.1)) :
    ∃ b, runFrom me gs (clean pre hi q a) d.mid = .ok { clean pre (midHigh d hi) q (midAttr d a) with dflt := b } := by
  have hq2 : ∀ l ∈ d.q2, Quiet l := fun l hl => h.quiet l (by simp [hl])
  have hq3 : ∀ l ∈ d.q3, Quiet l := fun l hl => h.quiet l (by simp [hl])
  have hq4 : ∀ l ∈ d.q4, Quiet l := fun l hl => h.quiet l (by simp [hl])
  -- the defaults
  have hd : ∃ b, runFrom me gs (clean pre hi q a) (defaultLines d.defaults) = .ok { clean pre hi q a with dflt := b } := by
    cases hdf : d.defaults with
    | none => exact ⟨false, rfl⟩
    | some ls =>
      refine ⟨true, ?_⟩
      show runFrom me gs _ (_ :: ls) = _
      rw [run_cons _ step_default]
      exact run_default ls (h.defaults ls hdf)
  obtain ⟨b, hb⟩ := hd
  unfold Desc.mid
  rw [runFrom_append _ _ _ _ hb]
  cases hm : d.maximum with
  | false =>
    obtain ⟨e1, e2⟩ := h.maximum hm
    refine ⟨b, ?_⟩
    unfold midHigh midAttr
    rw [e1, e2]
    rfl
  | true =>
    refine ⟨false, ?_⟩
    rw [if_pos rfl]
    simp only [List.cons_append]
    rw [run_cons _ (step_max b)]
    have hrun : runFrom me gs (clean pre hi q a) (runLines d.run) = .ok (clean pre hi q (updO a .runlimit (d.run.map fun r => r.mins * 60))) := by
      cases hr : d.run with
      | none => rfl
      | some r => exact run_run r (h.run r hr) hq
    have hmem : runFrom me gs (clean pre hi q (updO a .runlimit (d.run.map fun r => r.mins * 60))) (memLines d.mem) = .ok (clean pre (midHigh d hi) q (midAttr d a)) := by
      unfold midHigh midAttr
      cases hr : d.mem with
      | none => rfl
      | some r => exact run_mem r (h.mem r hr) hq
    rw [runFrom_append _ _ _ _ (by
      rw [runFrom_append _ _ _ _ (by
        rw [runFrom_append _ _ _ _ (by
          rw [runFrom_append _ _ _ _ (run_quiet _ hq2)]
          exact hrun)]
        exact run_quiet _ hq3)]
      exact hmem)]
    exact run_quiet _ hq4

private theorem not_queue {d : Desc} : (∀ l, Quiet l → ¬ "QUEUE: ".toList <+: l) ∧ ¬ "QUEUE: ".toList <+: d.hostsLine ∧
    ∀ g n, ¬ "QUEUE: ".toList <+: chunkText g n := by
  refine ⟨fun l h => (other_ot h.1).queue, ?_, fun g n => ?_⟩
  · unfold Desc.hostsLine
    rw [List.append_assoc]
    exact first_ne (by decide)
  · unfold chunkText
    rw [List.append_assoc]
    exact first_ne (by decide)

def lowAttr (gs : List (Str × List Str)) (d : Desc) (a : Crit → Option Nat) : Crit → Option Nat :=
  updO (updO (upd a .numUsers (numUsers d.users)) .hosts (d.hosts.map (numHosts gs))) .chunkSize d.chunk

private theorem run_low (d : Desc) (h : d.Wf) (hq : q ∉ pre.map (·.1)) (b : Bool) :
    runFrom me gs { clean pre hi q a with dflt := b } d.low =
      .ok (if permitted me d.users then clean pre (updHO hi .hosts (d.hosts.map (numHosts gs))) q (lowAttr gs d a) else between pre hi none) := by
  have hq5 : ∀ l ∈ d.q5, Quiet l := fun l hl => h.quiet l (by simp [hl])
  have hq6 : ∀ l ∈ d.q6, Quiet l := fun l hl => h.quiet l (by simp [hl])
  have hq7 : ∀ l ∈ d.q7, Quiet l := fun l hl => h.quiet l (by simp [hl])
  have hq8 : ∀ l ∈ d.q8, Quiet l := fun l hl => h.quiet l (by simp [hl])
  have e : d.low = ("SCHEDULING PARAMETERS".toList ++ d.schedRest) :: (d.q5 ++ (d.usersLine :: (d.q6 ++ (d.hostsLine :: (d.q7 ++
    (chunkLines d.gc d.chunk ++ d.q8)))))) := by
    unfold Desc.low
    simp only [List.append_assoc, List.cons_append]
  rw [e, run_cons _ (step_sched b _ h.sched.1 h.sched.2), runFrom_append _ _ _ _ (run_quiet _ hq5), run_cons _ (step_users d h hq)]
  by_cases hp : permitted me d.users
  · rw [if_pos hp, if_pos hp, runFrom_append _ _ _ _ (run_quiet _ hq6), run_cons _ (step_hosts d h hq), runFrom_append _ _ _ _ (run_quiet _ hq7)]
    have hc : runFrom me gs (clean pre (updHO hi .hosts (d.hosts.map (numHosts gs))) q
        (updO (upd a .numUsers (numUsers d.users)) .hosts (d.hosts.map (numHosts gs)))) (chunkLines d.gc d.chunk) = .ok (clean pre (updHO hi .hosts (d.hosts.map (numHosts gs))) q (lowAttr gs d a)) := by
      unfold lowAttr
      cases hch : d.chunk with
      | none => rfl
      | some n =>
        show runFrom me gs _ [chunkText d.gc n] = _
        rw [run_cons _ (step_chunk d.gc n hq)]
        rfl
    rw [runFrom_append _ _ _ _ hc]
    exact run_quiet _ hq8
  · rw [if_neg hp, if_neg hp]
    apply run_skip
    have nq := not_queue (d := d)
    intro l hl
    simp only [List.mem_append, List.mem_cons] at hl
    rcases hl with hl | rfl | hl | hl | hl
    · exact nq.1 l (hq6 l hl)
    · exact nq.2.1
    · exact nq.1 l (hq7 l hl)
    · cases hch : d.chunk with
      | none => rw [hch] at hl; exact absurd hl (by simp [chunkLines])
      | some n =>
        rw [hch] at hl
        rw [List.mem_singleton.mp hl]
        exact nq.2.2 _ _
    · exact nq.1 l (hq8 l hl)

private theorem updO_eq (a : Crit → Option Nat) (c : Crit) (o : Option Nat) (c' : Crit) :
    updO a c o c' = if c' = c then o.or (a c') else a c' := by
  cases o with
  | none => simp [updO]
  | some v => simp only [updO, upd]; split <;> simp

private theorem attr_eq (d : Desc) (hp : permitted me d.users) :
    lowAttr gs d (midAttr d (prioAttr d (fun _ => none))) = (queueOf me gs d).attr := by
  funext c
  have qh : (queueOf me gs d).attr .hosts = d.hosts.map (numHosts gs) := if_pos hp
  have qc : (queueOf me gs d).attr .chunkSize = d.chunk := if_pos hp
  unfold lowAttr midAttr prioAttr
  cases c
  · simp [updO_eq, upd]; rfl
  · simp [updO_eq, upd]; rfl
  · simp [updO_eq, upd, qh]
  · simp [updO_eq, upd]; rfl
  · simp [updO_eq, upd, qc]
  · simp [updO_eq, upd]; rfl
  · simp [updO_eq, upd]; rfl
  · simp [updO_eq, upd]; rfl

private theorem updHO_eq (hi : Crit → Nat) (c : Crit) (o : Option Nat) (c' : Crit) :
    updHO hi c o c' = if c' = c then Nat.max (hi c) (o.getD 0) else hi c' := by
  cases o with
  | none => simp only [updHO, Option.getD_none]; split <;> rename_i h <;> simp [h]
  | some v =>
    simp only [updHO, updH, Option.getD_some]
    by_cases h : c' = c
    · subst h
      simp only [true_and, if_true]
      split
      · rename_i hv
        exact (Nat.max_eq_right (Nat.le_of_lt hv)).symm
      · rename_i hv
        exact (Nat.max_eq_left (Nat.le_of_not_lt hv)).symm
    · simp [h]

private theorem high_eq (d : Desc) (c : Crit) :
    (if permitted me d.users then updHO (midHigh d (prioHigh d hi)) .hosts (d.hosts.map (numHosts gs)) else midHigh d (prioHigh d hi)) c =
      if tracked c = true then Nat.max (hi c) (((queueOf me gs d).attr c).getD 0) else hi c := by
  unfold midHigh prioHigh
  by_cases hp : permitted me d.users
  · have qh : (queueOf me gs d).attr .hosts = d.hosts.map (numHosts gs) := if_pos hp
    rw [if_pos hp]
    cases c
    · simp [updHO_eq, tracked]; rfl
    · simp [updHO_eq, tracked]; rfl
    · simp [updHO_eq, tracked, qh]
    · simp [updHO_eq, tracked]
    · simp [updHO_eq, tracked]
    · simp [updHO_eq, tracked]
    · simp [updHO_eq, tracked]
    · simp [updHO_eq, tracked]; rfl
  · have qh : (queueOf me gs d).attr .hosts = none := if_neg hp
    rw [if_neg hp]
    cases c
    · simp [updHO_eq, tracked]; rfl
    · simp [updHO_eq, tracked]; rfl
    · simp [updHO_eq, tracked, qh]
    · simp [updHO_eq, tracked]
    · simp [updHO_eq, tracked]
    · simp [updHO_eq, tracked]
    · simp [updHO_eq, tracked]
    · simp [updHO_eq, tracked]; rfl

private theorem run_one (d : Desc) (h : d.Wf) (hq : d.name ∉ pre.map (·.1)) (x : Option Str) :
    ∃ y hi', runFrom me gs (between pre hi x) d.text =
        .ok (between (pre ++ if permitted me d.users then [(d.name, (queueOf me gs d).attr)] else []) hi' y) ∧
      ∀ c, hi' c = if tracked c = true then Nat.max (hi c) (((queueOf me gs d).attr c).getD 0) else hi c := by
  obtain ⟨b, hb⟩ := run_mid (me := me) (gs := gs) (pre := pre) (hi := prioHigh d hi) (q := d.name) (a := prioAttr d (fun _ => none)) d h hq
  have hl := run_low (me := me) (gs := gs) (pre := pre) (hi := midHigh d (prioHigh d hi)) (q := d.name)
    (a := midAttr d (prioAttr d (fun _ => none))) d h hq b
  have he := high_eq (me := me) (gs := gs) (hi := hi) d
  unfold Desc.text
  rw [runFrom_append (d.top ++ d.mid) d.low _ _ (by
    rw [runFrom_append _ _ _ _ (run_top d h hq x)]
    exact hb), hl]
  by_cases hp : permitted me d.users
  · simp only [if_pos hp] at he ⊢
    rw [attr_eq d hp]
    exact ⟨some d.name, _, rfl, he⟩
  · simp only [if_neg hp] at he ⊢
    exact ⟨none, _, by rw [List.append_nil], he⟩

private theorem run_all : ∀ (ds : List Desc) (pre : List (Str × (Crit → Option Nat))) (hi : Crit → Nat) (x : Option Str), (∀ d ∈ ds, d.Wf) →
    (ds.map (·.name)).Nodup → (∀ d ∈ ds, d.name ∉ pre.map (·.1)) →
    ∃ y hi', runFrom me gs (between pre hi x) (ds.flatMap Desc.text) =
        .ok (between (pre ++ (usable (ds.map (queueOf me gs))).map fun q => (q.name, q.attr)) hi' y) ∧
      ∀ c, hi' c = if tracked c = true then (ds.map (queueOf me gs)).foldl (fun m q => Nat.max m ((q.attr c).getD 0)) (hi c) else hi c
  | [], pre, hi, x, _, _, _ => ⟨x, hi, by simp [runFrom, usable], by simp⟩
  | d :: ds, pre, hi, x, hw, hn, hp => by
    simp only [List.map_cons, List.nodup_cons] at hn
    obtain ⟨y, hi1, h1, h2⟩ := run_one (me := me) (gs := gs) (hi := hi) d (hw d (by simp)) (hp d (by simp)) x
    obtain ⟨z, hi2, h3, h4⟩ := run_all ds (pre ++ if permitted me d.users then [(d.name, (queueOf me gs d).attr)] else []) hi1 y
      (fun e he => hw e (by simp [he])) hn.2 (by
        intro e he hm
        rw [List.map_append, List.mem_append] at hm
        rcases hm with hm | hm
        · exact hp e (by simp [he]) hm
        · split at hm
          · simp only [List.map_cons, List.map_nil, List.mem_singleton] at hm
            exact hn.1 (hm ▸ List.mem_map_of_mem he)
          · simp at hm)
    refine ⟨z, hi2, ?_, fun c => ?_⟩
    · rw [List.flatMap_cons, runFrom_append _ _ _ _ h1, h3]
      congr 2
      rw [List.append_assoc]
      congr 1
      by_cases hpm : permitted me d.users
      · rw [if_pos hpm]
        have : (queueOf me gs d).permitted = true := decide_eq_true hpm
        unfold usable
        rw [List.map_cons, List.filter_cons_of_pos this]
        rfl
      · rw [if_neg hpm]
        have : ¬ (queueOf me gs d).permitted = true := by
          intro hc
          exact hpm (of_decide_eq_true hc)
        unfold usable
        rw [List.map_cons, List.filter_cons_of_neg this]
        rfl
    · rw [h4 c, List.map_cons, List.foldl_cons]
      split <;> rename_i ht
      · rw [h2 c, if_pos ht]
      · rw [h2 c, if_neg ht]

private theorem parse_run (me : Str) (gs : List (Str × List Str)) (ls : List Str) (h : ∀ l ∈ ls, ¬ "QUEUE: ".toList <+: l) (ls' : List Str) :
    parse me gs (ls ++ ls') = runFrom me gs (between [] (fun _ => 0) none) ls' :=
  runFrom_append ls ls' _ _ (run_skip ls h)

/-- C133: for every description of queues, in the form that `bqueues -l` prints, by any spacing and with any other lines in it, wr starts and
knows exactly the queues that list the user or `all`, in order, each with exactly the priority, limits, users, hosts and chunk size that its
description says (default limits are not taken for maximum ones); and the highest values it has seen are those of all descriptions. Partial:
permission by way of user groups and excluded users is another matter (`C133_violated_group`, `C133_violated_excluded`), memory limits are
rounded (`C133_memory_near`), and hosts that are excluded are counted (`C133_violated_hosts`). -/
theorem C133_queues_partial (me : Str) (gs : List (Str × List Str)) (before : List Str) (ds : List Desc)
    (hb : ∀ l ∈ before, ¬ "QUEUE: ".toList <+: l) (hw : ∀ d ∈ ds, d.Wf) (hn : (ds.map (·.name)).Nodup) :
    ∃ p, parse me gs (before ++ ds.flatMap Desc.text) = .ok p ∧
      p.queues = (usable (ds.map (queueOf me gs))).map (fun q => (q.name, q.attr)) ∧
      ∀ c, tracked c = true → p.highest c = highest (ds.map (queueOf me gs)) c := by
  obtain ⟨y, hi', h1, h2⟩ := run_all (me := me) (gs := gs) ds [] (fun _ => 0) none hw hn (by simp)
  refine ⟨_, by rw [parse_run me gs before hb]; exact h1, by simp [between], fun c hc => ?_⟩
  have := h2 c
  rw [if_pos hc] at this
  exact this

/-- C133: the number of hosts (and of users) is that of the different ones: any list of them without repetition is as long -/
theorem C133_count (l l' : List Str) (hn : l'.Nodup) (hm : ∀ x, x ∈ l' ↔ x ∈ l) : (distinct l).length = l'.length := by
  have h1 := (distinct_nodup l).length_le_of_subset (l₂ := l') (fun x hx => (hm x).mpr ((distinct_mem l x).mp hx))
  have h2 := hn.length_le_of_subset (l₂ := distinct l) (fun x hx => (distinct_mem l x).mpr ((hm x).mp hx))
  omega

end Verif.Sched.LsfParse
