import Verif.Server.Learn

/-! # C81: how what was learned and failures change what a job asks for

`Override` is 0 to use what was learned, 1 to use it if it is more, 2 to use what the user gave. -/
namespace Verif.Server.Learn

namespace Spec

/-- the user gave memory, time and disk -/
def Given (r : Req) : Prop := r.ram > 0 ∧ r.time > 0 ∧ (r.disk > 0 ∨ r.diskSet = true)

/-- no less of anything -/
def Covers (a b : Req) : Prop := b.ram ≤ a.ram ∧ b.disk ≤ a.disk ∧ b.time ≤ a.time

/-- something was learned about all three -/
def Known (r : Req) : Prop := r.ram > 0 ∧ r.time > 0 ∧ r.disk > 0

/-- what a run that ended for want of something used of it: memory and time, and disk in GB, of which the statistics have 1/1024 -/
def Enough (e : End) (r : Req) : Prop :=
  (e.fail = .ram → e.peakRAM + 1000 ≤ r.ram) ∧ (e.fail = .time → e.wall + 3600 ≤ r.time) ∧
    (e.fail = .disk → 13 * e.peakDisk ≤ 10 * 1024 * r.disk)

end Spec

theorem ceilDiv_ge (n d : Int) (hd : 0 < d) : n ≤ ceilDiv n d * d := by
  unfold ceilDiv
  rw [Int.fdiv_eq_ediv_of_nonneg _ (by omega)]
  have h := Int.mul_ediv_add_emod (-n) d
  have h2 := Int.emod_nonneg (-n) (show d ≠ 0 by omega)
  rw [Int.neg_mul, Int.mul_comm]
  omega

theorem moreRAM_ge (peak : Int) : peak + 1000 ≤ moreRAM peak := by
  unfold moreRAM
  have hu : 10 * peak + 10000 ≤ (if (if peak ≤ 8192 then 20 * peak else 13 * peak) < 10 * peak + 10000 then 10 * peak + 10000
      else (if peak ≤ 8192 then 20 * peak else 13 * peak)) := by split <;> omega
  have := ceilDiv_ge (if (if peak ≤ 8192 then 20 * peak else 13 * peak) < 10 * peak + 10000 then 10 * peak + 10000
      else (if peak ≤ 8192 then 20 * peak else 13 * peak)) 1000 (by decide)
  simp only
  omega

theorem moreDisk_ge (peak : Int) : 13 * peak ≤ 10 * 1024 * moreDisk peak := by
  unfold moreDisk
  have := ceilDiv_ge (13 * peak) (1024 * 1000) (by decide)
  omega

theorem afterFailure_covers (j : Job) (r : Req) : Spec.Covers (afterFailure j r) r := by
  unfold afterFailure Spec.Covers
  split
  · exact ⟨Int.le_refl _, Int.le_refl _, Int.le_refl _⟩
  · split
    · split <;> simp <;> omega
    · split <;> simp <;> omega
    · split <;> simp <;> omega
    · exact ⟨Int.le_refl _, Int.le_refl _, Int.le_refl _⟩

theorem afterFailure_enough (j : Job) (e : End) (r : Req) (ho : j.override ≠ 2) : Spec.Enough e (afterFailure (j.ended e) r) := by
  have h1 := moreRAM_ge e.peakRAM
  have h2 := moreDisk_ge e.peakDisk
  unfold afterFailure Spec.Enough Job.ended
  simp only
  rw [if_neg ho]
  refine ⟨?_, ?_, ?_⟩ <;> intro hf <;> simp only [hf] <;> split <;> (try simp only) <;> omega

/-- C81, the user's values: with an override of 2 a job that was given memory, time and disk asks for those, whatever was learned and however it failed. -/
theorem C81_user (j : Job) (r : Req) (ho : j.override = 2) (hg : Spec.Given j.original) :
    ∃ j', adjust j (some r) = some j' ∧ j'.req = j.req := by
  obtain ⟨h1, h2, h3⟩ := hg
  refine ⟨_, rfl, ?_⟩
  simp only [afterFailure, if_pos ho]
  have hl : ∀ given cur rec', given = true → learn j.override given cur rec' = cur := by
    intro given cur rec' h
    unfold learn
    rw [h, ho]
    simp
  unfold learnAll
  rw [hl _ _ _ (by simpa using h1), hl _ _ _ (by simpa using h3), hl _ _ _ (by simpa using h2)]

/-- and so over any number of failed attempts -/
theorem C81_user_history (es : List (End × Req)) : ∀ j : Job, j.override = 2 → Spec.Given j.original → (attempts j es).req = j.req := by
  induction es with
  | nil => intro j _ _; rfl
  | cons x es ih =>
    obtain ⟨e, r⟩ := x
    intro j ho hg
    have hg' : Spec.Given (j.ended e).original := hg
    obtain ⟨j', h, hr⟩ := C81_user (j.ended e) r ho hg'
    have ho' : j'.override = 2 := by
      cases h; exact ho
    have hor : j'.original = j.original := by
      cases h; rfl
    rw [attempts, h]
    simp only [Option.getD_some]
    rw [ih j' ho' (by rw [hor]; exact hg), hr]
    rfl

/-- C81, learning: with an override of 0 what is known is what is asked for, but for more after a failure; with one of 1 it is the larger of that and
what was asked for before. -/
theorem C81_learn (j : Job) (r : Req) (hk : Spec.Known r) :
    ∃ j', adjust j (some r) = some j' ∧
      (j.override = 0 → j.fail = .none ∨ j.fail = .other → j'.req.ram = r.ram ∧ j'.req.disk = r.disk ∧ j'.req.time = r.time) ∧
      (j.override = 0 → Spec.Covers j'.req r) ∧
      (j.override = 1 → Spec.Covers j'.req r) := by
  obtain ⟨h1, h2, h3⟩ := hk
  refine ⟨_, rfl, ?_, ?_, ?_⟩
  · intro ho hf
    have hl : ∀ given cur rec', rec' > 0 → learn j.override given cur rec' = rec' := by
      intro given cur rec' h
      unfold learn
      rw [ho, if_pos h]
      simp
    have he : afterFailure j (learnAll j r) = learnAll j r := by
      unfold afterFailure
      rw [if_neg (by omega)]
      rcases hf with hf | hf <;> rw [hf]
    simp only [he]
    unfold learnAll
    exact ⟨hl _ _ _ h1, hl _ _ _ h3, hl _ _ _ h2⟩
  · intro ho
    have hl : ∀ given cur rec', rec' > 0 → learn j.override given cur rec' = rec' := by
      intro given cur rec' h
      unfold learn
      rw [ho, if_pos h]
      simp
    have hc := afterFailure_covers j (learnAll j r)
    unfold Spec.Covers at hc ⊢
    unfold learnAll at hc
    simp only [hl _ _ _ h1, hl _ _ _ h2, hl _ _ _ h3] at hc
    simpa only [learnAll, hl _ _ _ h1, hl _ _ _ h2, hl _ _ _ h3] using hc
  · intro ho
    have hl : ∀ given cur rec', rec' > 0 → rec' ≤ learn j.override given cur rec' := by
      intro given cur rec' h
      unfold learn
      rw [ho, if_pos h]
      cases given
      · simp
      · simp only [if_true]
        split <;> omega
    have hc := afterFailure_covers j (learnAll j r)
    unfold Spec.Covers at hc ⊢
    have a := hl (decide (j.original.ram > 0)) j.req.ram _ h1
    have b := hl (decide (j.original.disk > 0) || j.original.diskSet) j.req.disk _ h3
    have c := hl (decide (j.original.time > 0)) j.req.time _ h2
    exact ⟨Int.le_trans a hc.1, Int.le_trans b hc.2.1, Int.le_trans c hc.2.2⟩

/-- C81, after a failure: a run that ended for want of memory or time is followed by one with a GB more than was used, or an hour; one that ended for want of disk by one with 30% more. -/
theorem C81_failure (j : Job) (e : End) (r : Req) (ho : j.override ≠ 2) :
    ∃ j', adjust (j.ended e) (some r) = some j' ∧ Spec.Enough e j'.req :=
  ⟨_, rfl, afterFailure_enough j e _ ho⟩

/-- one round with an override of 1 -/
theorem step_mono (j : Job) (e : End) (r : Req) (ho : j.override = 1) (hg : Spec.Given j.original) :
    ∃ j', adjust (j.ended e) (some r) = some j' ∧ j'.override = 1 ∧ j'.original = j.original ∧ Spec.Covers j'.req j.req := by
  refine ⟨_, rfl, ho, rfl, ?_⟩
  have hl : ∀ given cur rec', given = true → cur ≤ learn 1 given cur rec' := by
    intro given cur rec' h
    unfold learn
    rw [h]
    simp only [if_true]
    split
    · split <;> omega
    · omega
  obtain ⟨h1, h2, h3⟩ := hg
  have hc := afterFailure_covers (j.ended e) (learnAll (j.ended e) r)
  have hov : (j.ended e).override = 1 := ho
  have hor : (j.ended e).original = j.original := rfl
  unfold Spec.Covers at hc ⊢
  have a := hl (decide (j.original.ram > 0)) j.req.ram r.ram (by simpa using h1)
  have b := hl (decide (j.original.disk > 0) || j.original.diskSet) j.req.disk r.disk (by simpa using h3)
  have c := hl (decide (j.original.time > 0)) j.req.time r.time (by simpa using h2)
  simp only [learnAll, hov, hor] at hc ⊢
  exact ⟨Int.le_trans a hc.1, Int.le_trans b hc.2.1, Int.le_trans c hc.2.2⟩

theorem attempts_mono (es : List (End × Req)) : ∀ j : Job, j.override = 1 → Spec.Given j.original → Spec.Covers (attempts j es).req j.req := by
  induction es with
  | nil => intro j _ _; exact ⟨Int.le_refl _, Int.le_refl _, Int.le_refl _⟩
  | cons x es ih =>
    obtain ⟨e, r⟩ := x
    intro j ho hg
    obtain ⟨j', h, ho', hor, hc⟩ := step_mono j e r ho hg
    rw [attempts, h]
    simp only [Option.getD_some]
    have := ih j' ho' (by rw [hor]; exact hg)
    unfold Spec.Covers at *
    omega

theorem attempts_append (es es' : List (End × Req)) : ∀ j, attempts j (es ++ es') = attempts (attempts j es) es' := by
  induction es with
  | nil => intro j; rfl
  | cons x es ih => obtain ⟨e, r⟩ := x; intro j; exact ih _

theorem attempts_keep (es : List (End × Req)) : ∀ j, j.override = 1 → (attempts j es).override = 1 ∧ (attempts j es).original = j.original := by
  induction es with
  | nil => intro j h; exact ⟨h, rfl⟩
  | cons x es ih =>
    obtain ⟨e, r⟩ := x
    intro j h
    have := ih ((adjust (j.ended e) (some r)).getD j) h
    exact ⟨this.1, this.2⟩

/-- C81, over all attempts: with an override of 1 a job for which the user gave memory, time and disk never asks for less than before, so never again for as little as a
run that ended for want of it used. -/
theorem C81_history_partial (j : Job) (ho : j.override = 1) (hg : Spec.Given j.original) (es es' : List (End × Req)) (e : End) (r : Req) :
    Spec.Enough e (attempts j (es ++ (e, r) :: es')).req := by
  rw [attempts_append]
  obtain ⟨ho1, hor1⟩ := attempts_keep es j ho
  generalize attempts j es = j1 at ho1 hor1
  have hg1 : Spec.Given j1.original := by rw [hor1]; exact hg
  obtain ⟨j', h, ho', hor', -⟩ := step_mono j1 e r ho1 hg1
  obtain ⟨j'', h'', hen⟩ := C81_failure j1 e r (by omega)
  rw [h] at h''
  cases h''
  rw [attempts, h]
  simp only [Option.getD_some]
  have hm := attempts_mono es' j' ho' (by rw [hor']; exact hg1)
  unfold Spec.Covers at hm
  unfold Spec.Enough at *
  refine ⟨fun x => ?_, fun x => ?_, fun x => ?_⟩
  · have := hen.1 x; omega
  · have := hen.2.1 x; omega
  · have := hen.2.2 x; omega

/-! ## examples and violations -/

/-- 500 MB, an hour and no disk given -/
def small (override : Nat) : Job := { req := { ram := 500, disk := 0, diskSet := true, time := 3600 }, override := override }

/-- the hypotheses are met -/
example : Spec.Given (small 1).original ∧ Spec.Known (recommendedReq 700 3000 60) := by
  refine ⟨⟨by decide, by decide, .inr rfl⟩, by decide, by decide, by decide⟩

/-- a run with too little memory, one that failed by itself: the memory stays -/
example : (attempts (small 1) [(⟨.ram, 600, 0, 10⟩, recommendedReq 700 0 0), (⟨.other, 20, 0, 10⟩, recommendedReq 700 0 0)]).req =
    { ram := 1600, disk := 0, diskSet := true, time := 3600 } := by decide +kernel

/-- With the default override of 0 what a run needed is forgotten when a later run fails in another way: the job is run again with less memory than it is
known to need. -/
theorem C81_violated_forgotten :
    (attempts (small 0) [(⟨.ram, 5000, 0, 10⟩, recommendedReq 700 0 0)]).req.ram = 10000 ∧
    (attempts (small 0) [(⟨.ram, 5000, 0, 10⟩, recommendedReq 700 0 0), (⟨.other, 20, 0, 10⟩, recommendedReq 700 0 0)]).req.ram = 700 := by
  decide +kernel

/-- an override of 2 is not honoured for memory that is 0, nor for a disk of 0 that was not set -/
theorem C81_violated_zero :
    (adjust { req := { ram := 0, disk := 0, diskSet := false, time := 3600 }, override := 2 } (some (recommendedReq 700 3000 60))).map (·.req) =
      some { ram := 700, disk := 3, diskSet := false, time := 3600 } := by decide +kernel

/-- with a database that returns an error, as a closed one does, a job that failed for want of memory, disk or time ends the server -/
theorem C81_violated_panic (j : Job) (h : j.fail = .ram ∨ j.fail = .disk ∨ j.fail = .time) : adjust j none = none := by
  rcases h with h | h | h <;> simp [adjust, h]

end Verif.Server.Learn
