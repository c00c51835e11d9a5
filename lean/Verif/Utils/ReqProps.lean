import Verif.Utils.Model

/-! # C40: scheduler requests are never smaller than the job needs; C41: release delays -/

namespace Verif.Utils

private theorem wrap_id {x : Int} (h1 : -(2 ^ 63) ≤ x) (h2 : x < 2 ^ 63) : wrap64 x = x := by
  unfold wrap64; omega

/-- C40: for every time that is a Go duration (64 bits), not within half an hour of the largest or the smallest, the request has
at least the memory, at most 100 MB more; the time is the least whole number of half hours that is enough; cores, disk
and other requirements are those of the job. -/
theorem C40_enough {C O : Type} (req : Req C O) (h1 : -(2 ^ 63) + halfHour ≤ req.time) (h2 : req.time < 2 ^ 63 - halfHour) :
    req.ram ≤ (reqForScheduler req).ram ∧ (reqForScheduler req).ram ≤ req.ram + 100 ∧
    (∃ k, (reqForScheduler req).time = k * halfHour) ∧
    req.time ≤ (reqForScheduler req).time ∧ (reqForScheduler req).time < req.time + halfHour ∧
    (reqForScheduler req).cores = req.cores ∧ (reqForScheduler req).disk = req.disk ∧
    (reqForScheduler req).other = req.other := by
  refine ⟨by simp only [reqForScheduler]; split <;> omega, by simp only [reqForScheduler]; split <;> omega, ?_⟩
  have key : ∃ k, (reqForScheduler req).time = k * halfHour ∧ req.time ≤ k * halfHour ∧
      k * halfHour < req.time + halfHour := by
    simp only [reqForScheduler]
    generalize req.time = t at h1 h2
    have hm : halfHour = 1800000000000 := rfl
    have hdiv := Int.tdiv_mul_add_tmod t halfHour
    generalize hq : t.tdiv halfHour = q at hdiv
    generalize hr : t.tmod halfHour = r at hdiv
    have hq1 : (q + 1) * halfHour = q * halfHour + halfHour := by rw [Int.add_mul, Int.one_mul]
    unfold durRound
    simp only [hr]
    by_cases ht : t < 0
    · have hr1 : r ≤ 0 := by
        rw [← hr]; rw [Int.tmod_eq_emod]
        have := Int.emod_nonneg t (b := halfHour) (by decide)
        have := Int.emod_lt_of_pos t (b := halfHour) (by decide)
        split <;> rename_i hc
        · rcases hc with hc | hc
          · omega
          · have := Int.emod_eq_zero_of_dvd hc; omega
        · have : (halfHour.natAbs : Int) = halfHour := rfl
          omega
      have hr2 : -halfHour < r := by
        rw [← hr]
        have h3 := Int.emod_nonneg t (b := halfHour) (by decide)
        rw [Int.tmod_eq_emod]
        have : (halfHour.natAbs : Int) = halfHour := rfl
        split <;> omega
      rw [if_pos ht]
      split
      · rw [wrap_id (by omega) (by omega)]
        rw [if_neg (by omega)]
        exact ⟨q, by omega, by omega, by omega⟩
      · rw [wrap_id (x := t - halfHour + -r) (by omega) (by omega)]
        rw [if_pos (show t - halfHour + -r < t by omega), if_pos (by omega), wrap_id (by omega) (by omega)]
        exact ⟨q, by omega, by omega, by omega⟩
    · have hr1 : 0 ≤ r := by rw [← hr]; exact Int.tmod_nonneg _ (by omega)
      have hr2 : r < halfHour := by rw [← hr]; exact Int.tmod_lt_of_pos _ (by decide)
      rw [if_neg ht]
      split
      · rw [wrap_id (by omega) (by omega)]
        split
        · rw [wrap_id (by omega) (by omega)]
          exact ⟨q + 1, by omega, by omega, by omega⟩
        · exact ⟨q, by omega, by omega, by omega⟩
      · rw [wrap_id (x := t + halfHour - r) (by omega) (by omega), if_pos (show t + halfHour - r > t by omega),
          if_neg (by omega)]
        exact ⟨q + 1, by omega, by omega, by omega⟩
  obtain ⟨k, e, l, u⟩ := key
  exact ⟨⟨k, e⟩, by omega, by omega, rfl, rfl, rfl⟩

/-- 45 minutes and 500 MB become an hour and 600 MB. -/
example : let r := reqForScheduler (⟨500, 2700000000000, (), 3, (), false, true, false⟩ : Req Unit Unit)
    (r.ram, r.time, r.disk) = (600, 3600000000000, 3) := by decide

/-- The flags that tell a deliberate 0 from a missing value are not passed on. -/
theorem C40_flags_dropped {C O : Type} (req : Req C O) :
    (reqForScheduler req).coresSet = false ∧ (reqForScheduler req).diskSet = false := ⟨rfl, rfl⟩

/-! ## C41 -/

/-- Specification: the backoff after `n` earlier runs: half a minute, doubled `n` times, at most half an hour (in
nanoseconds). -/
def backoff (n : Nat) : Int := min (30 * 60 * 1000000000) (30 * 1000000000 * 2 ^ n)

private theorem forAttempt_nat (n : Nat) : forAttempt (n : Int) = backoff n := by
  unfold forAttempt backoff
  rw [if_neg (by omega)]; simp [delayMax, delayMin]

private theorem backoff_bounds (n : Nat) : 30000000000 ≤ backoff n ∧ backoff n ≤ 1800000000000 := by
  unfold backoff
  have : (1 : Int) ≤ 2 ^ n := by
    have := Nat.one_le_two_pow (n := n)
    exact_mod_cast this
  omega

/-- C41: for every number of earlier runs and whatever the random part `j`, the delay is at least the backoff, and less
than half a minute longer; so it is at least the minimum, and at most the maximum plus the minimum. -/
theorem C41_partial (n : Nat) (j : Int) (h1 : -delayMin ≤ j) (h2 : j ≤ 0) :
    backoff n ≤ calculateItemDelay n j ∧ calculateItemDelay n j ≤ backoff n + 30 * 1000000000 ∧
    delayMin ≤ calculateItemDelay n j ∧ calculateItemDelay n j ≤ delayMax + delayMin := by
  have hb := backoff_bounds n
  unfold calculateItemDelay
  rw [forAttempt_nat]
  simp only [delayMin, delayMax] at *
  rw [if_neg (by omega)]
  omega

/-- C41: the backoff does not decrease, and doubles until it reaches the maximum. -/
theorem C41_grows (n m : Nat) (h : n ≤ m) : backoff n ≤ backoff m ∧
    (backoff n < delayMax → backoff (n + 1) = min delayMax (2 * backoff n)) := by
  have h2 : (2 : Int) ^ n ≤ 2 ^ m := by
    have := Nat.pow_le_pow_right (n := 2) (by decide) h
    exact_mod_cast this
  unfold backoff delayMax
  refine ⟨by omega, fun _ => ?_⟩
  rw [Int.pow_succ]; omega

/-- The byte arithmetic of setItemDelay: for a job with fewer than 255 retries whose `k`-th run starts (`k ≤ Retries`
runs having failed before), the attempt number is `k`. -/
theorem C41_attempt_partial (r : UInt8) (k : Nat) (hr : r.toNat < 255) (hk : k ≤ r.toNat) (j : Int) :
    setItemDelay r (r + 1 - UInt8.ofNat k) j = calculateItemDelay k j := by
  unfold setItemDelay
  congr 1
  have hk' : k % 256 = k := Nat.mod_eq_of_lt (by omega)
  have h1 : (r + 1 - UInt8.ofNat k).toNat = r.toNat + 1 - k := by
    rw [UInt8.toNat_sub, UInt8.toNat_add]
    simp only [UInt8.toNat_ofNat', UInt8.toNat_one]
    omega
  rw [h1]; omega

/-- C41 fails: the delay can be more than the maximum. -/
theorem C41_violated_max : calculateItemDelay 10 (-delayMin) = delayMax + delayMin := by decide

/-- C41 fails for jobs with 255 retries: the first failure is followed by the longest delay, the second by one of at
most a minute and a half. -/
theorem C41_violated_255 : setItemDelay 255 (255 + 1) 0 = delayMax ∧
    ∀ j, -delayMin ≤ j → j ≤ 0 → setItemDelay 255 (255 + 1 - 1) j ≤ 90 * 1000000000 := by
  refine ⟨by decide, fun j h1 h2 => ?_⟩
  have : setItemDelay 255 (255 + 1 - 1) j = calculateItemDelay (1 : Nat) j := by
    unfold setItemDelay
    rfl
  rw [this]
  have := (C41_partial 1 j h1 h2).2.1
  have hb : backoff 1 = 60 * 1000000000 := by decide
  omega

example : calculateItemDelay 3 (-10000000000) = 250 * 1000000000 := by decide

end Verif.Utils
