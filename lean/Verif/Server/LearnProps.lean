import Verif.Server.Learn

/-! # C80: the memory, disk and time that are learned from past runs -/
namespace Verif.Server.Learn
open Verif.Util.Bolt

namespace Spec

/-- the values seen in runs of a group, each once, in ascending order -/
def ValuesOf (runs : List (Key × Nat)) (group : Key) (vs : List Nat) : Prop :=
  vs.Pairwise (· < ·) ∧ ∀ v, v ∈ vs ↔ (group, v) ∈ runs

/-- the records of other groups cannot be taken for those of this one -/
def Alone (runs : List (Key × Nat)) (group : Key) : Prop :=
  ∀ r ∈ runs, r.1 ≠ group → ¬ group <+: r.1 ++ "_::_".toList ++ fmt20 r.2

/-- how many of the values are above `r` -/
def above (r : Nat) (vs : List Nat) : Nat := (vs.filter fun v => decide (v > r)).length

end Spec

/-! ## keys -/

theorem digit_lt {a b : Nat} (h : a % 10 < b % 10) : digit a < digit b := by
  have ha : a % 10 < 10 := Nat.mod_lt _ (by decide)
  have hb : b % 10 < 10 := Nat.mod_lt _ (by decide)
  have key : ∀ x y : Fin 10, x.1 < y.1 → Char.ofNat (48 + x.1) < Char.ofNat (48 + y.1) := by decide
  exact key ⟨a % 10, ha⟩ ⟨b % 10, hb⟩ h

theorem space_lt_digit (a : Nat) : ' ' < digit a := by
  have ha : a % 10 < 10 := Nat.mod_lt _ (by decide)
  have key : ∀ x : Fin 10, ' ' < Char.ofNat (48 + x.1) := by decide
  exact key ⟨a % 10, ha⟩

theorem padded_length : ∀ k v, (padded k v).length = k
  | 0, _ => rfl
  | k + 1, v => by simp [padded, padded_length k]

theorem append_lt_left : ∀ (a b c d : List Char), a.length = b.length → a < b → a ++ c < b ++ d
  | [], [], _, _, _, h => absurd h (List.lt_irrefl _)
  | [], _ :: _, _, _, h, _ => by simp at h
  | _ :: _, [], _, _, h, _ => by simp at h
  | x :: a, y :: b, c, d, h, h' => by
    rw [List.cons_lt_cons_iff] at h'
    simp only [List.cons_append]
    rw [List.cons_lt_cons_iff]
    rcases h' with h' | ⟨rfl, h'⟩
    · exact .inl h'
    · exact .inr ⟨rfl, append_lt_left a b c d (by simpa using h) h'⟩

theorem padded_lt : ∀ (k a b : Nat), b < 10 ^ k → a < b → padded k a < padded k b
  | 0, a, b, hb, h => by simp at hb; omega
  | k + 1, a, b, hb, h => by
    unfold padded
    by_cases e : a / 10 = b / 10
    · rw [e]
      apply List.append_left_lt
      rw [List.cons_lt_cons_iff]
      left
      by_cases ha : a = 0
      · rw [if_pos ha, if_neg (by omega)]
        exact space_lt_digit b
      · rw [if_neg ha, if_neg (by omega)]
        exact digit_lt (by omega)
    · refine append_lt_left _ _ _ _ (by simp [padded_length]) (padded_lt k _ _ ?_ (by omega))
      rw [Nat.pow_succ] at hb
      omega

theorem fmt20_lt (a b : Nat) (hb : b < 10 ^ 20) (h : a < b) : fmt20 a < fmt20 b := by
  unfold fmt20
  by_cases e : a / 10 = b / 10
  · rw [e]
    apply List.append_left_lt
    rw [List.cons_lt_cons_iff]
    exact .inl (digit_lt (by omega))
  · refine append_lt_left _ _ _ _ (by simp [padded_length]) (padded_lt 19 _ _ ?_ (by omega))
    have : (10 : Nat) ^ 20 = 10 * 10 ^ 19 := by decide
    omega

theorem statKey_lt (g : Key) (a b : Nat) (hb : b < 10 ^ 20) (h : a < b) : statKey g a < statKey g b := by
  unfold statKey
  exact List.append_left_lt (fmt20_lt a b hb h)

theorem statKey_inj (g : Key) (a b : Nat) (ha : a < 10 ^ 20) (hb : b < 10 ^ 20) (h : statKey g a = statKey g b) : a = b := by
  rcases Nat.lt_trichotomy a b with h' | h' | h'
  · have := statKey_lt g a b hb h'
    rw [h] at this
    exact absurd this (lt_irrefl _)
  · exact h'
  · have := statKey_lt g b a ha h'
    rw [h] at this
    exact absurd this (lt_irrefl _)

theorem statKey_prefix (g : Key) (v : Nat) : g <+: statKey g v := by
  unfold statKey
  rw [List.append_assoc]
  exact List.prefix_append _ _

/-! ## the bucket -/

theorem recorded_append (runs : List (Key × Nat)) (r : Key × Nat) : recorded (runs ++ [r]) = record (recorded runs) r := by
  simp [recorded, List.foldl_append]

theorem recorded_sorted (runs : List (Key × Nat)) : Sorted (recorded runs) := by
  suffices h : ∀ (runs : List (Key × Nat)) (b : Bucket Nat), Sorted b → Sorted (runs.foldl record b) from h runs [] List.Pairwise.nil
  intro runs
  induction runs with
  | nil => intro b h; exact h
  | cons r runs ih => intro b h; exact ih _ (sorted_put _ _ _ h)

theorem foldl_get (k : Key) (v : Nat) : ∀ (runs : List (Key × Nat)) (b : Bucket Nat), get k (runs.foldl record b) = some v →
    (∃ r ∈ runs, statKey r.1 r.2 = k ∧ r.2 = v) ∨ get k b = some v
  | [], b, h => .inr h
  | r :: runs, b, h => by
    rcases foldl_get k v runs (record b r) h with ⟨r', h1, h2⟩ | h
    · exact .inl ⟨r', List.mem_cons_of_mem _ h1, h2⟩
    · unfold record at h
      rw [get_put] at h
      split at h
      · rename_i e
        exact .inl ⟨r, by simp, e.symm, by simpa using h⟩
      · exact .inr h

theorem foldl_get_some (k : Key) : ∀ (runs : List (Key × Nat)) (b : Bucket Nat), ((∃ r ∈ runs, statKey r.1 r.2 = k) ∨ (get k b).isSome) →
    (get k (runs.foldl record b)).isSome
  | [], b, h => by
    rcases h with ⟨r, h, -⟩ | h
    · simp at h
    · exact h
  | r :: runs, b, h => by
    refine foldl_get_some k runs (record b r) ?_
    rcases h with ⟨r', h, he⟩ | h
    · rcases List.mem_cons.1 h with rfl | h
      · right; unfold record; rw [get_put, if_pos he.symm]; rfl
      · exact .inl ⟨r', h, he⟩
    · right
      unfold record
      rw [get_put]
      split
      · rfl
      · exact h

/-- the statistics that are looked at for a group are those of its runs -/
theorem scan_values (runs : List (Key × Nat)) (g : Key) (hb : ∀ r ∈ runs, r.2 < 10 ^ 20) (ha : Spec.Alone runs g) :
    Spec.ValuesOf runs g ((scan g (recorded runs)).map (·.2)) := by
  have hs := recorded_sorted runs
  have hmem : ∀ k v, (k, v) ∈ scan g (recorded runs) → k = statKey g v ∧ (g, v) ∈ runs := by
    intro k v h
    obtain ⟨h1, h2⟩ := (mem_scan g _ hs _).1 h
    rcases foldl_get k v runs [] ((mem_iff_get k v _ hs).1 h1) with ⟨r, hr, hk, hv⟩ | h
    · by_cases e : r.1 = g
      · subst hv; subst e
        exact ⟨hk.symm, hr⟩
      · exact absurd (by rw [← hk] at h2; exact h2) (ha r hr e)
    · simp [get_nil] at h
  constructor
  · rw [List.pairwise_map]
    refine List.Pairwise.imp_of_mem ?_ (sorted_scan g _ hs)
    intro a b ha' hb' hlt
    obtain ⟨ka, ra⟩ := hmem a.1 a.2 ha'
    obtain ⟨kb, rb⟩ := hmem b.1 b.2 hb'
    rw [ka, kb] at hlt
    rcases Nat.lt_trichotomy a.2 b.2 with h | h | h
    · exact h
    · rw [h] at hlt; exact absurd hlt (lt_irrefl _)
    · exact absurd (lt_trans hlt (statKey_lt g _ _ (hb _ ra) h)) (lt_irrefl _)
  · intro v
    constructor
    · intro h
      obtain ⟨e, he, rfl⟩ := List.mem_map.1 h
      exact (hmem e.1 e.2 he).2
    · intro h
      have hsome := foldl_get_some (statKey g v) runs [] (.inl ⟨(g, v), h, rfl⟩)
      obtain ⟨w, hw⟩ := Option.isSome_iff_exists.1 hsome
      have hin : (statKey g v, w) ∈ scan g (recorded runs) :=
        (mem_scan g _ hs _).2 ⟨(mem_iff_get _ _ _ hs).2 hw, statKey_prefix g v⟩
      obtain ⟨he, hr⟩ := hmem _ _ hin
      have : v = w := statKey_inj g v w (hb _ h) (hb _ hr) he
      subst this
      exact List.mem_map.2 ⟨_, hin, rfl⟩

/-! ## the loop -/

theorem snoc_ind {P : List Nat → Prop} (h0 : P []) (h1 : ∀ vs v, P vs → P (vs ++ [v])) (vs : List Nat) : P vs := by
  have h : ∀ ws : List Nat, P ws.reverse := by
    intro ws
    induction ws with
    | nil => exact h0
    | cons w ws ih => rw [List.reverse_cons]; exact h1 _ _ ih
  have := h vs.reverse
  rwa [List.reverse_reverse] at this

theorem getLastD_snoc (vs : List Nat) (v : Nat) : (vs ++ [v]).getLastD 0 = v := by
  rw [List.getLastD_eq_getLast?]; simp

/-- how many values the window holds after `n` values -/
def held (n : Nat) : Nat := if n ≤ 5 then n else max 5 (n / 20)

theorem loop_inv (vs : List Nat) :
    (vs.foldl Loop.step {}).count = vs.length ∧
    (vs.foldl Loop.step {}).prev = vs.drop (vs.length - held vs.length) ∧
    (vs.foldl Loop.step {}).max = vs.getLastD 0 ∧
    (vs.foldl Loop.step {}).rec' = if vs.length ≤ 5 then 0 else vs.getD (vs.length - held vs.length - 1) 0 := by
  induction vs using snoc_ind with
  | h0 => simp [held]
  | h1 vs v ih =>
    obtain ⟨h1, h2, h3, h4⟩ := ih
    rw [List.foldl_append, List.foldl_cons, List.foldl_nil]
    generalize vs.foldl Loop.step {} = s at h1 h2 h3 h4
    have hle : held vs.length ≤ vs.length := by unfold held; split <;> omega
    have hlen : s.prev.length = held vs.length := by rw [h2, List.length_drop]; omega
    have hnew : s.prev ++ [v] = (vs ++ [v]).drop (vs.length - held vs.length) := by
      rw [h2, List.drop_append_of_le_length (by omega)]
    unfold Loop.step
    rw [h1, hlen]
    have hfull : full (vs.length + 1) (held vs.length + 1) = true ↔ held (vs.length + 1) = held vs.length := by
      unfold full held
      split <;> simp only [decide_eq_true_eq] <;> split <;> split <;> omega
    have hheld : held (vs.length + 1) = held vs.length ∨ held (vs.length + 1) = held vs.length + 1 := by
      unfold held; split <;> split <;> omega
    by_cases hf : full (vs.length + 1) (held vs.length + 1) = true
    · rw [if_pos hf]
      have he := hfull.1 hf
      have h5 : ¬ vs.length + 1 ≤ 5 := by
        intro h
        have : held (vs.length + 1) = vs.length + 1 := by simp [held, h]
        have : held vs.length = vs.length := by unfold held; split <;> omega
        omega
      simp only [List.length_append, List.length_cons, List.length_nil, Nat.zero_add]
      refine ⟨trivial, ?_, (getLastD_snoc vs v).symm, ?_⟩
      · rw [hnew, List.tail_drop, he]
        congr 1
        omega
      · rw [if_neg h5, hnew, he]
        have hi : vs.length - held vs.length < (vs ++ [v]).length := by simp; omega
        rw [List.headD_eq_head?_getD, List.head?_drop, List.getD_eq_getElem?_getD]
        congr 2
        omega
    · rw [if_neg hf]
      have he : held (vs.length + 1) = held vs.length + 1 := by
        rcases hheld with h | h
        · exact absurd (hfull.2 h) hf
        · exact h
      simp only [List.length_append, List.length_cons, List.length_nil, Nat.zero_add]
      refine ⟨trivial, ?_, (getLastD_snoc vs v).symm, ?_⟩
      · rw [hnew, he]
        congr 1
        omega
      · rw [h4, he]
        by_cases h5 : vs.length + 1 ≤ 5
        · rw [if_pos (by omega), if_pos h5]
        · rw [if_neg h5]
          have h6 : ¬ vs.length ≤ 5 := by
            intro h
            have e1 : held vs.length = vs.length := by unfold held; rw [if_pos h]
            have : held (vs.length + 1) = 5 := by
              have : vs.length = 5 := by omega
              rw [this]; rfl
            omega
          rw [if_neg h6]
          rw [List.getD_eq_getElem?_getD, List.getD_eq_getElem?_getD, List.getElem?_append_left (by omega)]
          congr 2
          omega

/-! ## rounding -/

theorem roundUp (r round : Nat) (hr : 0 < round) :
    r ≤ (r + round - 1) / round * round ∧ (r + round - 1) / round * round < r + round := by
  have h := Nat.div_add_mod (r + round - 1) round
  have h2 := Nat.mod_lt (r + round - 1) hr
  rw [Nat.mul_comm] at h
  omega

/-- what is recommended, given the value found and the last one -/
theorem finish_spec (rec' max round : Nat) (hr : 0 < round) (hle : rec' ≤ max) :
    (finish rec' max round = 0 ↔ max = 0) ∧ rec' ≤ finish rec' max round ∧ finish rec' max round < max + round ∨
      (0 < max ∧ max < round ∧ finish rec' max round = round) := by
  unfold finish
  by_cases h0 : rec' = 0 ∧ max = 0
  · rw [if_pos h0]; left; omega
  · rw [if_neg h0]
    have hmax : 0 < max := by omega
    have e : ∃ r, rec' ≤ r ∧ r ≤ max ∧ 0 < r ∧
        (if (max : Int) - ((if rec' = 0 then max else rec' : Nat) : Int) < (round : Int) then max else (if rec' = 0 then max else rec')) = r := by
      refine ⟨_, ?_, ?_, ?_, rfl⟩ <;> (split <;> split <;> omega)
    obtain ⟨r, h1, h2, h3, he⟩ := e
    simp only [he]
    have hup := roundUp r round hr
    by_cases hlt : r < round
    · rw [if_pos hlt, if_neg (by simp)]
      by_cases hm : max < round
      · exact .inr ⟨hmax, hm, rfl⟩
      · left; omega
    · rw [if_neg hlt]
      left
      split
      · omega
      · omega

theorem finish_le (rec' max round : Nat) (hr : 0 < round) (hle : rec' ≤ max) : rec' ≤ finish rec' max round := by
  rcases finish_spec rec' max round hr hle with h | h <;> omega

theorem finish_zero (rec' max round : Nat) (hr : 0 < round) (hle : rec' ≤ max) : finish rec' max round = 0 ↔ max = 0 := by
  rcases finish_spec rec' max round hr hle with h | h <;> omega

theorem finish_lt (rec' max round : Nat) (hr : 0 < round) (hle : rec' ≤ max) : finish rec' max round < max + round := by
  rcases finish_spec rec' max round hr hle with h | h <;> omega

theorem finish_mod (rec' max round : Nat) : finish rec' max round % round = 0 := by
  unfold finish
  split
  · exact Nat.zero_mod _
  · simp only
    generalize (if (if (max : Int) - _ < (round : Int) then max else _) < round then round else _) = r
    split
    · exact Nat.mul_mod_left _ _
    · omega

theorem finish_max (max round : Nat) (hr : 0 < round) : max ≤ finish 0 max round := by
  unfold finish
  by_cases h0 : max = 0
  · omega
  · rw [if_neg (by omega)]
    have e : (max : Int) - max < round := by omega
    simp only [reduceIte, e]
    have h : max ≤ (if max < round then round else max) := by split <;> omega
    generalize (if max < round then round else max) = r at h
    have := roundUp r round hr
    split <;> omega

/-! ## the property -/

theorem getLastD_max (vs : List Nat) (h : vs.Pairwise (· < ·)) : ∀ v ∈ vs, v ≤ vs.getLastD 0 := by
  induction vs using snoc_ind with
  | h0 => intro v hv; cases hv
  | h1 vs x _ =>
    intro v hv
    have := getLastD_snoc vs x
    rw [this]
    rcases List.mem_append.1 hv with hv | hv
    · exact Nat.le_of_lt ((List.pairwise_append.1 h).2.2 v hv x (by simp))
    · simp at hv; omega

theorem getLastD_mem (vs : List Nat) (h : vs ≠ []) : vs.getLastD 0 ∈ vs := by
  cases vs with
  | nil => exact absurd rfl h
  | cons v vs => rw [List.getLastD_eq_getLast?, List.getLast?_eq_some_getLast (by simp)]; exact List.getLast_mem _

theorem above_le (vs : List Nat) (h : vs.Pairwise (· < ·)) (i r : Nat) (hi : i < vs.length) (hr : vs.getD i 0 ≤ r) :
    Spec.above r vs ≤ vs.length - (i + 1) := by
  unfold Spec.above
  rw [← List.take_append_drop (i + 1) vs, List.filter_append, List.length_append]
  have h1 : (vs.take (i + 1)).filter (fun v => decide (v > r)) = [] := by
    rw [List.filter_eq_nil_iff]
    intro v hv
    obtain ⟨j, hj, rfl⟩ := List.mem_iff_getElem.1 hv
    rw [List.length_take] at hj
    rw [List.getElem_take]
    have hle : vs[j] ≤ vs[i] := by
      rcases Nat.lt_or_ge j i with hlt | hge
      · exact Nat.le_of_lt (List.pairwise_iff_getElem.1 h j i (by omega) hi hlt)
      · have : j = i := by omega
        subst this
        exact Nat.le_refl _
    rw [List.getD_eq_getElem?_getD, List.getElem?_eq_getElem hi] at hr
    simp at hr ⊢
    omega
  rw [h1]
  have := List.length_filter_le (fun v => decide (v > r)) (vs.drop (i + 1))
  rw [List.length_drop] at this
  simp only [List.length_nil, List.length_append, List.length_take, List.length_drop]
  omega

theorem scan_eq_values (runs : List (Key × Nat)) (g : Key) (vs : List Nat)
    (hb : ∀ r ∈ runs, r.2 < 10 ^ 20) (ha : Spec.Alone runs g) (hv : Spec.ValuesOf runs g vs) :
    (scan g (recorded runs)).map (·.2) = vs := by
  have hsv := scan_values runs g hb ha
  have hp : ((scan g (recorded runs)).map (·.2)).Perm vs := by
    refine (List.perm_ext_iff_of_nodup ?_ ?_).2 ?_
    · exact hsv.1.imp (fun h => Nat.ne_of_lt h)
    · exact hv.1.imp (fun h => Nat.ne_of_lt h)
    · intro a; rw [hsv.2, hv.2]
  refine hp.eq_of_pairwise ?_ hsv.1 hv.1
  intro a b _ _ h1 h2
  exact absurd (Nat.lt_trans h1 h2) (Nat.lt_irrefl _)

/-- C80: The recommendation is a multiple of the rounding amount, and 0 only if nothing but zeros was recorded. It is less than the largest value plus that amount. At most five values,
or 5% of them if that is more, are above it; none if there are no more than five. -/
theorem C80_partial (runs : List (Key × Nat)) (g : Key) (round : Nat) (vs : List Nat) (hr : 0 < round)
    (hb : ∀ r ∈ runs, r.2 < 10 ^ 20) (ha : Spec.Alone runs g) (hv : Spec.ValuesOf runs g vs) :
    recommended (recorded runs) g round % round = 0 ∧
    (recommended (recorded runs) g round = 0 ↔ ∀ v ∈ vs, v = 0) ∧
    (vs ≠ [] → ∃ v ∈ vs, recommended (recorded runs) g round < v + round) ∧
    Spec.above (recommended (recorded runs) g round) vs ≤ max 5 (vs.length / 20) ∧
    (vs.length ≤ 5 → ∀ v ∈ vs, v ≤ recommended (recorded runs) g round) := by
  have heq := scan_eq_values runs g vs hb ha hv
  obtain ⟨-, -, h3, h4⟩ := loop_inv vs
  unfold recommended
  simp only [heq]
  rw [h3, h4]
  have hheld : ¬ vs.length ≤ 5 → held vs.length ≤ vs.length - 1 ∧ held vs.length = max 5 (vs.length / 20) := by
    intro h; unfold held; rw [if_neg h]; omega
  have hle : (if vs.length ≤ 5 then 0 else vs.getD (vs.length - held vs.length - 1) 0) ≤ vs.getLastD 0 := by
    split
    · exact Nat.zero_le _
    · rename_i h
      refine getLastD_max vs hv.1 _ ?_
      have := hheld h
      rw [List.getD_eq_getElem?_getD, List.getElem?_eq_getElem (by omega)]
      exact List.getElem_mem _
  refine ⟨finish_mod _ _ _, ?_, ?_, ?_, ?_⟩
  · rw [finish_zero _ _ _ hr hle]
    constructor
    · intro h v hv'
      have := getLastD_max vs hv.1 v hv'
      omega
    · intro h
      by_cases hn : vs = []
      · subst hn; rfl
      · exact h _ (getLastD_mem vs hn)
  · intro hn
    exact ⟨_, getLastD_mem vs hn, finish_lt _ _ _ hr hle⟩
  · by_cases h5 : vs.length ≤ 5
    · have : Spec.above (finish (if vs.length ≤ 5 then 0 else vs.getD (vs.length - held vs.length - 1) 0) (vs.getLastD 0) round) vs ≤ vs.length :=
        List.length_filter_le _ _
      omega
    · rw [if_neg h5]
      rw [if_neg h5] at hle
      have := hheld h5
      have hab := above_le vs hv.1 (vs.length - held vs.length - 1)
        (finish (vs.getD (vs.length - held vs.length - 1) 0) (vs.getLastD 0) round) (by omega) (finish_le _ _ _ hr hle)
      omega
  · intro h5 v hv'
    rw [if_pos h5]
    exact Nat.le_trans (getLastD_max vs hv.1 v hv') (finish_max _ _ hr)

/-- C80, the percentile: with a hundred values or more, at most 5% of them are above the recommendation. -/
theorem C80_percentile_partial (runs : List (Key × Nat)) (g : Key) (round : Nat) (vs : List Nat) (hr : 0 < round)
    (hb : ∀ r ∈ runs, r.2 < 10 ^ 20) (ha : Spec.Alone runs g) (hv : Spec.ValuesOf runs g vs) (hn : 100 ≤ vs.length) :
    20 * Spec.above (recommended (recorded runs) g round) vs ≤ vs.length := by
  have := (C80_partial runs g round vs hr hb ha hv).2.2.2.1
  omega

/-! ## examples and violations -/

/-- the hypotheses of `C80_partial` are met: three runs of one group, and one of another -/
example : recommended (recorded [("align".toList, 310), ("align".toList, 4500), ("sort".toList, 9000), ("align".toList, 310), ("align".toList, 1200)])
    "align".toList 100 = 4500 := by decide +kernel

example : Spec.ValuesOf [("a".toList, 5), ("b".toList, 9), ("a".toList, 3), ("a".toList, 5)] "a".toList [3, 5] ∧
    Spec.Alone [("a".toList, 5), ("b".toList, 9), ("a".toList, 3), ("a".toList, 5)] "a".toList := by
  refine ⟨⟨by decide, ?_⟩, ?_⟩
  · intro v
    simp only [List.mem_cons, Prod.mk.injEq, List.not_mem_nil, or_false, true_and]
    constructor
    · rintro (h | h) <;> simp [h]
    · rintro (h | h | h | h)
      · exact .inr h
      · exact absurd h.1 (by decide)
      · exact .inl h
      · exact .inr h
  · intro r hr hne
    simp only [List.mem_cons, List.not_mem_nil, or_false] at hr
    rcases hr with rfl | rfl | rfl | rfl
    · exact absurd rfl hne
    · intro h
      have := (List.cons_prefix_cons.1 h).1
      exact absurd this (by decide)
    · exact absurd rfl hne
    · exact absurd rfl hne

/-- with six values the lowest is recommended, not the largest or a percentile -/
theorem C80_violated_few : recommended (recorded (([1000, 2000, 3000, 4000, 5000, 6000] : List Nat).map fun v => ("g".toList, v))) "g".toList 100 = 1000 := by
  decide +kernel

/-- the runs of a group whose name goes on after that of this one are counted for this one; the last of them is taken for the largest of all -/
theorem C80_violated_group : recommended (recorded [("g".toList, 50000), ("ga".toList, 100)]) "g".toList 100 = 100 := by decide +kernel

/-- the memory of 195 runs -/
def seen : List Nat := (List.range 100).map (fun i => 1000 * (i + 1)) ++ List.replicate 95 100000

/-- a hundred values that were seen, of which the largest was seen in 96 of 195 runs: more than half of the runs needed more than is recommended -/
theorem C80_violated_often :
    recommended (recorded (seen.map fun v => ("g".toList, v))) "g".toList 100 = 95000 ∧
    2 * Spec.above 95000 seen > seen.length := by
  refine ⟨?_, by decide +kernel⟩
  have hall : ∀ r ∈ seen.map (fun v => ("g".toList, v)), r.1 = "g".toList ∧ r.2 ≤ 100000 := by decide +kernel
  have h := scan_eq_values (seen.map fun v => ("g".toList, v)) "g".toList ((List.range 100).map fun i => 1000 * (i + 1))
    (fun r hr => Nat.lt_of_le_of_lt (hall r hr).2 (by decide)) (fun r hr hne => absurd (hall r hr).1 hne) ⟨by decide +kernel, ?_⟩
  · unfold recommended
    simp only [h]
    decide +kernel
  · intro v
    constructor
    · intro hv
      exact List.mem_map.2 ⟨v, List.mem_append_left _ hv, rfl⟩
    · intro hv
      obtain ⟨w, hw, e⟩ := List.mem_map.1 hv
      have : w = v := by injection e
      subst this
      rcases List.mem_append.1 hw with hw | hw
      · exact hw
      · rw [List.eq_of_mem_replicate hw]
        decide +kernel

end Verif.Server.Learn
