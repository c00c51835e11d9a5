/- C133: the memory limits of LSF queues and jobs, and the groups of hosts. -/
import Verif.Sched.LsfParseProps

namespace Verif.Sched.LsfParse
open Verif.Utils.Config (digits itoa digits_itoa itoa_ne)
open Verif.Sched.LsfText

/-! ## Rounding -/

private theorem nearest_exact (q b : Nat) (hb : 0 < b) : nearest (q * b) b = q := by
  unfold nearest
  rw [Nat.mul_mod_left, Nat.mul_div_cancel _ hb, if_pos (by omega)]

private theorem nearest_near (a b : Nat) (hb : 0 < b) : 2 * (nearest a b * b) ≤ 2 * a + b ∧ 2 * a ≤ 2 * (nearest a b * b) + b := by
  have h := Nat.div_add_mod a b
  have hm := Nat.mod_lt a hb
  have hs : (a / b + 1) * b = b * (a / b) + b := by rw [Nat.add_mul, Nat.one_mul, Nat.mul_comm]
  have hs' : (a / b) * b = b * (a / b) := Nat.mul_comm _ _
  unfold nearest
  split
  · rw [hs']; omega
  · split
    · rw [hs]; omega
    · split
      · rw [hs']; omega
      · rw [hs]; omega

private theorem near24_exact (n d k j : Nat) (hd : 0 < d) (hk : k < 2 ^ 24) (hj : 23 ≤ j) (h : n * 2 ^ 64 = d * (k * 2 ^ j)) :
    near24 n d = k * 2 ^ j := by
  unfold near24
  have hv : n * 2 ^ 64 / d = k * 2 ^ j := by rw [h, Nat.mul_div_cancel_left _ hd]
  simp only [hv]
  by_cases h0 : k = 0
  · subst h0
    rw [Nat.zero_mul, if_pos (by decide)]
  · have hle : 2 ^ 23 ≤ k * 2 ^ j := by
      calc 2 ^ 23 ≤ 2 ^ j := Nat.pow_le_pow_right (by decide) hj
        _ ≤ k * 2 ^ j := Nat.le_mul_of_pos_left _ (by omega)
    rw [if_neg (by omega)]
    have hl : (k * 2 ^ j).log2 < 24 + j := by
      rw [Nat.log2_lt (Nat.ne_of_gt (Nat.lt_of_lt_of_le (by decide) hle)), Nat.pow_add]
      exact Nat.mul_lt_mul_of_pos_right hk (Nat.pow_pos (by decide))
    have hg : (k * 2 ^ j).log2 ≥ 23 := (Nat.le_log2 (Nat.ne_of_gt (Nat.lt_of_lt_of_le (by decide) hle))).mpr hle
    generalize hu : (k * 2 ^ j).log2 - 23 = u
    have huj : u ≤ j := by omega
    have hp : 2 ^ j = 2 ^ (j - u) * 2 ^ u := by rw [← Nat.pow_add, Nat.sub_add_cancel huj]
    have e : n * 2 ^ 64 = (k * 2 ^ (j - u)) * (d * 2 ^ u) := by
      rw [h, hp]
      ac_rfl
    rw [e, nearest_exact _ _ (Nat.mul_pos hd (Nat.pow_pos (by decide))), hp, Nat.mul_assoc]

private theorem near_arith (r b x : Nat) (h1 : b * 2 ^ 23 ≤ x) (h2 : 2 * r ≤ 2 * x + b) (h3 : 2 * x ≤ 2 * r + b) :
    r * 2 ^ 24 ≤ x * (2 ^ 24 + 1) ∧ x * (2 ^ 24 - 1) ≤ r * 2 ^ 24 := by omega

private theorem near24_near (n d : Nat) (hd : 0 < d) (hv : 2 ^ 23 ≤ n * 2 ^ 64 / d) :
    near24 n d * d * 2 ^ 24 ≤ n * 2 ^ 64 * (2 ^ 24 + 1) ∧ n * 2 ^ 64 * (2 ^ 24 - 1) ≤ near24 n d * d * 2 ^ 24 := by
  unfold near24
  simp only
  rw [if_neg (by omega)]
  have hg : (n * 2 ^ 64 / d).log2 ≥ 23 := (Nat.le_log2 (Nat.ne_of_gt (Nat.lt_of_lt_of_le (by decide) hv))).mpr hv
  have hlog : 2 ^ (n * 2 ^ 64 / d).log2 ≤ n * 2 ^ 64 / d := Nat.log2_self_le (Nat.ne_of_gt (Nat.lt_of_lt_of_le (by decide) hv))
  have hvd : n * 2 ^ 64 / d * d ≤ n * 2 ^ 64 := Nat.div_mul_le_self _ _
  generalize hu : (n * 2 ^ 64 / d).log2 - 23 = u
  have hlu : (n * 2 ^ 64 / d).log2 = u + 23 := by omega
  rw [hlu, Nat.pow_add] at hlog
  have hdu : d * 2 ^ u * 2 ^ 23 ≤ n * 2 ^ 64 := by
    calc d * 2 ^ u * 2 ^ 23 = 2 ^ u * 2 ^ 23 * d := by ac_rfl
      _ ≤ n * 2 ^ 64 / d * d := Nat.mul_le_mul_right _ hlog
      _ ≤ _ := hvd
  have hn := nearest_near (n * 2 ^ 64) (d * 2 ^ u) (Nat.mul_pos hd (Nat.pow_pos (by decide)))
  have e : nearest (n * 2 ^ 64) (d * 2 ^ u) * 2 ^ u * d = nearest (n * 2 ^ 64) (d * 2 ^ u) * (d * 2 ^ u) := by ac_rfl
  rw [e]
  exact near_arith _ _ _ hdu hn.1 hn.2

/-! ## Limits of queues -/

/-- the number of thousandths of MB, a fraction: what the limit says times the kB of its unit -/
def Lim.number (m : Lim) : Nat := (digits 10 (itoa m.int ++ m.frac)).getD 0

private theorem unit_cases {u : Char} (h : u ∈ ['K', 'M', 'G', 'T']) : ∃ k l, 0 < l ∧ kb u * l = 1000 * k ∧ k ≤ 1000000 ∧
    ∀ (i f : Str), megabytes (i, f, u) = near24 ((digits 10 (i ++ f)).getD 0) (10 ^ f.length) * k / (l * 2 ^ 64) := by
  simp only [List.mem_cons, List.not_mem_nil, or_false] at h
  rcases h with rfl | rfl | rfl | rfl
  · refine ⟨1, 1000, by decide, by decide, by decide, fun i f => ?_⟩
    simp [megabytes]
  · refine ⟨1, 1, by decide, by decide, by decide, fun i f => ?_⟩
    simp [megabytes]
  · refine ⟨1000, 1, by decide, by decide, by decide, fun i f => ?_⟩
    simp [megabytes]
  · refine ⟨1000000, 1, by decide, by decide, by decide, fun i f => ?_⟩
    simp [megabytes]

/-- C133: a memory limit of a queue that is a whole number (below 2²⁴) of kB, MB, GB or TB is known as exactly as many MB, rounded down -/
theorem C133_memory_partial (m : Lim) (hu : m.unit ∈ ['K', 'M', 'G', 'T']) (hf : m.frac = []) (hi : m.int < 2 ^ 24) :
    megabytes (Lim.tr m) = m.int * kb m.unit / 1000 := by
  obtain ⟨k, l, hl, hk, _, hm⟩ := unit_cases hu
  unfold Lim.tr
  rw [hm, hf, List.append_nil, digits_itoa]
  simp only [Option.getD_some, List.length_nil, Nat.pow_zero]
  rw [near24_exact m.int 1 m.int 64 (by decide) hi (by decide) (by rw [Nat.one_mul])]
  have e1 : m.int * 2 ^ 64 * k = m.int * k * 2 ^ 64 := by ac_rfl
  rw [e1, Nat.mul_div_mul_right _ _ (by decide)]
  have e2 : m.int * kb m.unit / 1000 = m.int * kb m.unit * l / (1000 * l) := (Nat.mul_div_mul_right _ _ hl).symm
  have e3 : m.int * kb m.unit * l = 1000 * (m.int * k) := by
    rw [Nat.mul_assoc, hk]; ac_rfl
  rw [e2, e3, Nat.mul_div_mul_left _ _ (by decide)]

example : ∃ m : Lim, m.unit ∈ ['K', 'M', 'G', 'T'] ∧ m.frac = [] ∧ m.int < 2 ^ 24 ∧ megabytes (Lim.tr m) = 512000 :=
  ⟨⟨4, 512, [], 'G'⟩, by decide, rfl, by decide, by rw [C133_memory_partial _ (by decide) rfl (by decide)]; decide⟩

/-- C133: and one with a fraction, of any size, is known to a relative error of 2⁻²⁴, rounded down; `number / 10 ^ frac.length` is the number of
units -/
theorem C133_memory_near (m : Lim) (hu : m.unit ∈ ['K', 'M', 'G', 'T']) :
    megabytes (Lim.tr m) * 1000 * 10 ^ m.frac.length * 2 ^ 24 ≤ Lim.number m * kb m.unit * (2 ^ 24 + 1) ∧
      Lim.number m * kb m.unit * (2 ^ 24 - 1) ≤ (megabytes (Lim.tr m) + 1) * 1000 * 10 ^ m.frac.length * 2 ^ 24 := by
  obtain ⟨k, l, hl, hk, hk6, hm⟩ := unit_cases hu
  have hD : 0 < 10 ^ m.frac.length := Nat.pow_pos (by decide)
  unfold Lim.tr Lim.number
  rw [hm]
  generalize 10 ^ m.frac.length = D at hD ⊢
  generalize (digits 10 (itoa m.int ++ m.frac)).getD 0 = N
  by_cases hv : 2 ^ 23 ≤ N * 2 ^ 64 / D
  · obtain ⟨h1, h2⟩ := near24_near N D hD hv
    generalize near24 N D = f at h1 h2 ⊢
    have hS : 0 < l * 2 ^ 64 := Nat.mul_pos hl (by decide)
    have d1 : f * k / (l * 2 ^ 64) * (l * 2 ^ 64) ≤ f * k := Nat.div_mul_le_self _ _
    have d2 : f * k < (f * k / (l * 2 ^ 64) + 1) * (l * 2 ^ 64) := by
      rw [Nat.add_mul, Nat.one_mul]
      exact Nat.lt_div_mul_add hS
    generalize f * k / (l * 2 ^ 64) = mb at d1 d2 ⊢
    constructor
    · apply Nat.le_of_mul_le_mul_right _ hS
      calc mb * 1000 * D * 2 ^ 24 * (l * 2 ^ 64) = mb * (l * 2 ^ 64) * (1000 * D * 2 ^ 24) := by ac_rfl
        _ ≤ f * k * (1000 * D * 2 ^ 24) := Nat.mul_le_mul_right _ d1
        _ = f * D * 2 ^ 24 * (1000 * k) := by ac_rfl
        _ ≤ N * 2 ^ 64 * (2 ^ 24 + 1) * (1000 * k) := Nat.mul_le_mul_right _ h1
        _ = N * 2 ^ 64 * (2 ^ 24 + 1) * (kb m.unit * l) := by rw [hk]
        _ = N * kb m.unit * (2 ^ 24 + 1) * (l * 2 ^ 64) := by ac_rfl
    · apply Nat.le_of_mul_le_mul_right _ hS
      calc N * kb m.unit * (2 ^ 24 - 1) * (l * 2 ^ 64) = N * 2 ^ 64 * (2 ^ 24 - 1) * (kb m.unit * l) := by ac_rfl
        _ = N * 2 ^ 64 * (2 ^ 24 - 1) * (1000 * k) := by rw [hk]
        _ ≤ f * D * 2 ^ 24 * (1000 * k) := Nat.mul_le_mul_right _ h2
        _ = f * k * (1000 * D * 2 ^ 24) := by ac_rfl
        _ ≤ (mb + 1) * (l * 2 ^ 64) * (1000 * D * 2 ^ 24) := Nat.mul_le_mul_right _ (Nat.le_of_lt d2)
        _ = (mb + 1) * 1000 * D * 2 ^ 24 * (l * 2 ^ 64) := by ac_rfl
  · have hz : near24 N D = 0 := by
      unfold near24
      simp only
      rw [if_pos (by omega)]
    rw [hz, Nat.zero_mul, Nat.zero_div]
    have hlt : N * 2 ^ 64 < 2 ^ 23 * D := by
      have := (Nat.div_lt_iff_lt_mul hD).mp (Nat.lt_of_not_le hv)
      exact this
    have hkb : kb m.unit ≤ 1000000000 := by
      have : ∀ u ∈ ['K', 'M', 'G', 'T'], kb u ≤ 1000000000 := by decide
      exact this _ hu
    refine ⟨by simp, ?_⟩
    have : N * kb m.unit ≤ N * 1000000000 := Nat.mul_le_mul_left _ hkb
    omega

/-- C133 is violated: a limit of 0.7 GB is known as 699 MB, so a job that needs 700 MB is not given to that queue -/
theorem C133_violated_rounding : ∃ m : Lim, m.Wf ∧ Lim.number m * kb m.unit = 700 * 1000 * 10 ^ m.frac.length ∧ megabytes (Lim.tr m) = 699 := by
  refine ⟨⟨0, 0, ['7'], 'G'⟩, ⟨by decide, by decide⟩, by decide, by decide +kernel⟩

/-- C133 is violated: a limit of 1 PB is known as 1 MB -/
theorem C133_violated_peta : ∃ m : Lim, m.Wf ∧ m.int * kb m.unit = 1000000000000 ∧ megabytes (Lim.tr m) = 1 := by
  refine ⟨⟨0, 1, [], 'P'⟩, ⟨by decide, by decide⟩, by decide, by decide +kernel⟩

/-! ## Limits of jobs -/

/-- the first letter of the unit is found, in a line like `LSF_UNIT_FOR_LIMITS = MB` -/
theorem unitChar_line : ∀ (name : Str) (n : Nat) (u : Char) (rest : Str), '=' ∉ name → isWord u = true →
    unitChar (name ++ '=' :: (spaces n ++ u :: rest)) = some u
  | [], n, u, rest, _, hu => by
    have hsp : isSp u = false := by
      rw [Bool.eq_false_iff]
      intro h
      simp only [isSp, Bool.or_eq_true, decide_eq_true_eq] at h
      rcases h with (((rfl | rfl) | rfl) | rfl) | rfl <;> exact absurd hu (by decide)
    have : (spaces n ++ u :: rest).dropWhile isSp = u :: rest := spaces_drop n (by simpa using hsp)
    simp only [List.nil_append, unitChar, if_true, this, hu]
  | c :: name, n, u, rest, h, hu => by
    simp only [List.mem_cons, not_or] at h
    simp only [List.cons_append, unitChar]
    rw [if_neg (fun e => h.1 e.symm)]
    exact unitChar_line name n u rest h.2 hu

/-- the line about the unit -/
def conf (name : Str) (n : Nat) (u : Char) (rest : Str) : Str := name ++ '=' :: (spaces n ++ u :: rest)

private theorem conf_ne (name : Str) (n : Nat) (u : Char) (rest : Str) : conf name n u rest ≠ [] := by
  intro h
  have := congrArg List.length h
  simp [conf] at this

/-- C133: if the unit of limits is MB, a job that needs some MB (below 2²⁴) is submitted with exactly that limit; if it is kB, with exactly that
many thousands (below 134218 MB) -/
theorem C133_flag_partial (name rest : Str) (n ram : Nat) (hn : '=' ∉ name) :
    (ram < 2 ^ 24 → (multiplier (conf name n 'M' rest)).map (fun x => memFlag x ram) = some ram) ∧
      (ram < 134218 → (multiplier (conf name n 'K' rest)).map (fun x => memFlag x ram) = some (ram * 1000)) := by
  constructor
  · intro h
    unfold multiplier
    rw [if_neg (conf_ne _ _ _ _)]
    have hu : unitChar (conf name n 'M' rest) = some 'M' := unitChar_line name n 'M' rest hn (by decide)
    rw [hu, if_pos rfl]
    simp only [Option.map_some, Option.some.injEq]
    unfold memFlag
    rw [near24_exact 1 1 1 64 (by decide) (by decide) (by decide) (by decide), near24_exact ram 1 ram 64 (by decide) h (by decide) (by rw [Nat.one_mul]),
      near24_exact (ram * 2 ^ 64 * (1 * 2 ^ 64)) (2 ^ 128) ram 64 (by decide) h (by decide) (by
        have : (2 : Nat) ^ 128 = 2 ^ 64 * 2 ^ 64 := by decide
        rw [this]; ac_rfl), nearest_exact _ _ (by decide)]
  · intro h
    unfold multiplier
    rw [if_neg (conf_ne _ _ _ _)]
    have hu : unitChar (conf name n 'K' rest) = some 'K' := unitChar_line name n 'K' rest hn (by decide)
    rw [hu, if_neg (by decide), if_neg (by decide)]
    simp only [Option.map_some, Option.some.injEq]
    unfold memFlag
    rw [near24_exact 1000 1 1000 64 (by decide) (by decide) (by decide) (by decide),
      near24_exact ram 1 ram 64 (by decide) (by omega) (by decide) (by rw [Nat.one_mul]),
      near24_exact (ram * 2 ^ 64 * (1000 * 2 ^ 64)) (2 ^ 128) (ram * 125) 67 (by decide) (by omega) (by decide) (by omega)]
    have e : ram * 125 * 2 ^ 67 = ram * 1000 * 2 ^ 64 := by omega
    rw [e, nearest_exact _ _ (by decide)]

example : (multiplier (conf "LSF_UNIT_FOR_LIMITS ".toList 1 'M' ['B'])).map (fun x => memFlag x 1400) = some 1400 :=
  (C133_flag_partial _ _ 1 1400 (by decide)).1 (by decide)

/-- C133 is violated: if the unit of limits is GB, a job that needs 1400 MB is submitted with a limit of 1 GB, and one that needs 500 MB with a
limit of 0 -/
theorem C133_violated_giga : (multiplier (conf "LSF_UNIT_FOR_LIMITS ".toList 1 'G' ['B'])).map (fun x => (memFlag x 1400, memFlag x 500)) = some (1, 0) := by
  decide +kernel

/-- C133: if the unit is GB, of two whole numbers that are as near the even one is the limit -/
theorem C133_half : (multiplier (conf "LSF_UNIT_FOR_LIMITS ".toList 1 'G' ['B'])).map (fun x => (memFlag x 2500, memFlag x 9500)) = some (2, 10) := by
  decide +kernel

/-- C133 is violated: if it is TB, a job that needs 500 MB is submitted with a limit of 500000 TB -/
theorem C133_violated_tera : (multiplier (conf "LSF_UNIT_FOR_LIMITS ".toList 1 'T' ['B'])).map (fun x => memFlag x 500) = some 500000 := by
  decide +kernel

/-- C133 is violated: if the unit is not configured (LSF's default is then kB), wr does not start -/
theorem C133_violated_unset : multiplier [] = none := rfl

end Verif.Sched.LsfParse
