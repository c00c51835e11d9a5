import Verif.Limiter.Parse
/-!
# Property C18: limit group names are parsed unambiguously
-/
namespace Verif.Limiter

/-! ### Specification: how groups are spelled -/

/-- the decimal digit -/
def dg (n : Nat) : Char := Nat.digitChar n
/-- two decimal digits -/
def two (n : Nat) : List Char := [dg (n / 10), dg (n % 10)]
/-- `hh:mm:ss` -/
def hms (h m s : Nat) : List Char := two h ++ ':' :: (two m ++ ':' :: two s)
/-- `YYYY-MM-DD hh:mm:ss` -/
def ymdhms (t : Stamp) : List Char :=
  two (t.year / 100) ++ (two (t.year % 100) ++ '-' :: (two t.month ++ '-' :: (two t.day ++ ' ' :: hms t.hour t.min t.sec)))
def spaces (k : Nat) : List Char := List.replicate k ' '
/-- `<`, with any number of spaces on both sides -/
def lt (j k : Nat) (rest : List Char) : List Char := spaces j ++ '<' :: (spaces k ++ rest)

/-- a time of day -/
structure TOD where
  (h m s : Nat)
def TOD.ok (t : TOD) : Prop := t.h < 24 ∧ t.m < 60 ∧ t.s < 60
def TOD.secs (t : TOD) : Int := t.h * 3600 + t.m * 60 + t.s
def TOD.text (t : TOD) : List Char := hms t.h t.m t.s

/-- the six kinds of window and how they are spelled -/
inductive Window (unixOf : Stamp → Int) : List Char → GroupData → Prop where
  | beforeTime (t : TOD) (h : t.ok) (j k) : Window unixOf ("time".toList ++ lt j k t.text) { mode := .beforeTime, limit := t.secs }
  | afterTime (t : TOD) (h : t.ok) (j k) : Window unixOf (t.text ++ lt j k "time".toList) { mode := .afterTime, current := t.secs }
  | betweenTimes (t u : TOD) (h : t.ok) (h' : u.ok) (j k j' k') :
    Window unixOf (t.text ++ lt j k ("time".toList ++ lt j' k' u.text)) { mode := .betweenTimes, current := t.secs, limit := u.secs }
  | beforeDateTime (t : Stamp) (h : t.ok) (hy : t.year < 10000) (j k) :
    Window unixOf ("datetime".toList ++ lt j k (ymdhms t)) { mode := .beforeDateTime, limit := unixOf t }
  | afterDateTime (t : Stamp) (h : t.ok) (hy : t.year < 10000) (j k) :
    Window unixOf (ymdhms t ++ lt j k "datetime".toList) { mode := .afterDateTime, current := unixOf t }
  | betweenDateTimes (t u : Stamp) (h : t.ok) (h' : u.ok) (hy : t.year < 10000) (hy' : u.year < 10000) (j k j' k') :
    Window unixOf (ymdhms t ++ lt j k ("datetime".toList ++ lt j' k' (ymdhms u)))
      { mode := .betweenDateTimes, current := unixOf t, limit := unixOf u }

/-- decimal notation of a natural number -/
def dec (n : Nat) : List Char := if _h : n < 10 then [dg n] else dec (n / 10) ++ [dg (n % 10)]
termination_by n

/-- decimal notation of an integer -/
def decInt (n : Int) : List Char := if n < 0 then '-' :: dec n.natAbs else dec n.natAbs

/-! ### Lemmas -/

theorem dg_digit : ∀ n, n < 10 → (dg n).isDigit = true ∧ (dg n).toNat - 48 = n ∧ dg n ≠ ':' ∧ dg n ≠ ' ' ∧ dg n ≠ 't' ∧ dg n ≠ 'd' ∧ dg n ≠ '-' ∧ dg n ≠ '+' := by
  decide

theorem isDigit_dg (c : Char) (h : c.isDigit = true) : c.toNat - 48 < 10 ∧ dg (c.toNat - 48) = c := by
  simp only [Char.isDigit, Bool.and_eq_true, decide_eq_true_eq] at h
  have h1 : 48 ≤ c.toNat := by have := h.1; simp only [GE.ge, UInt32.le_iff_toNat_le] at this; exact this
  have h2 : c.toNat ≤ 57 := by have := h.2; simp only [UInt32.le_iff_toNat_le] at this; exact this
  refine ⟨by omega, ?_⟩
  have key : ∀ n, n < 10 → (dg n).toNat = n + 48 := by decide
  have := key (c.toNat - 48) (by omega)
  apply Char.ext
  apply UInt32.toNat_inj.1
  show (dg (c.toNat - 48)).toNat = c.toNat
  omega

theorem pm_ch (c ps xs) : pmatch (.ch c :: ps) (c :: xs) = pmatch ps xs := by simp [pmatch]
theorem pm_dig {n ps xs} (h : n < 10) : pmatch (.dig :: ps) (dg n :: xs) = (pmatch ps xs).map (n :: ·) := by
  have := dg_digit n h
  simp only [pmatch, this.1, if_true, this.2.1]
theorem pm_two {n ps xs} (h : n < 100) : pmatch (.dig :: .dig :: ps) (two n ++ xs) =
    (pmatch ps xs).map (fun l => n / 10 :: n % 10 :: l) := by
  show pmatch _ (dg _ :: dg _ :: xs) = _
  rw [pm_dig (by omega), pm_dig (by omega), Option.map_map]; rfl
theorem drop_spaces (k c xs) (h : c ≠ ' ') : (spaces k ++ c :: xs).dropWhile (· = ' ') = c :: xs := by
  induction k with
  | zero => simp [spaces, h]
  | succ k ih => simpa [spaces, List.replicate_succ] using ih
theorem pm_sp {k ps c xs} (h : c ≠ ' ') : pmatch (.sp :: ps) (spaces k ++ c :: xs) = pmatch ps (c :: xs) := by
  show pmatch ps _ = _; rw [drop_spaces _ _ _ h]
theorem pm_lt {j k ps c xs} (h : c ≠ ' ') : pmatch (ltPat ++ ps) (lt j k (c :: xs)) = pmatch ps (c :: xs) := by
  show pmatch (.sp :: .ch '<' :: .sp :: ps) (spaces j ++ '<' :: (spaces k ++ c :: xs)) = _
  rw [pm_sp (by decide), pm_ch, pm_sp h]
theorem pm_time {t : TOD} {ps xs} (h : t.ok) : pmatch (timePat ++ ps) (t.text ++ xs) =
    (pmatch ps xs).map (fun l => t.h / 10 :: t.h % 10 :: t.m / 10 :: t.m % 10 :: t.s / 10 :: t.s % 10 :: l) := by
  obtain ⟨h1, h2, h3⟩ := h
  show pmatch (.dig :: .dig :: .ch ':' :: .dig :: .dig :: .ch ':' :: .dig :: .dig :: ps) (hms _ _ _ ++ xs) = _
  unfold hms
  simp only [List.append_assoc, List.cons_append]
  rw [pm_two (by omega), pm_ch, pm_two (by omega), pm_ch, pm_two (by omega)]
  simp only [Option.map_map]; rfl
theorem ok_hour {t : Stamp} (h : t.ok) : (TOD.mk t.hour t.min t.sec).ok := ⟨h.2.2.2.2.1, h.2.2.2.2.2.1, h.2.2.2.2.2.2⟩
theorem ok_day {t : Stamp} (h : t.ok) : t.day < 100 := by
  have := h.2.2.2.1; unfold daysIn at this; split at this <;> (split at this <;> omega)
theorem pm_dateTime {t : Stamp} {ps xs} (h : t.ok) (hy : t.year < 10000) : pmatch (dateTimePat ++ ps) (ymdhms t ++ xs) =
    (pmatch ps xs).map (fun l => t.year / 100 / 10 :: t.year / 100 % 10 :: t.year % 100 / 10 :: t.year % 100 % 10 ::
      t.month / 10 :: t.month % 10 :: t.day / 10 :: t.day % 10 :: t.hour / 10 :: t.hour % 10 ::
      t.min / 10 :: t.min % 10 :: t.sec / 10 :: t.sec % 10 :: l) := by
  show pmatch (.dig :: .dig :: .dig :: .dig :: .ch '-' :: .dig :: .dig :: .ch '-' :: .dig :: .dig :: .ch ' ' :: (timePat ++ ps)) _ = _
  unfold ymdhms
  simp only [List.append_assoc, List.cons_append]
  rw [pm_two (by omega), pm_two (by omega), pm_ch, pm_two (by have := h.2.1; omega), pm_ch, pm_two (ok_day h), pm_ch]
  have := pm_time (ps := ps) (xs := xs) (ok_hour h)
  unfold TOD.text at this
  rw [this]
  simp only [Option.map_map]; rfl
theorem pm_word (w : List Char) (ps xs) : pmatch (w.map .ch ++ ps) (w ++ xs) = pmatch ps xs := by
  induction w with
  | nil => rfl
  | cons c w ih => simp [pm_ch, ih]

theorem text_cons {t : TOD} (h : t.ok) (xs) : ∃ n r, n < 10 ∧ t.text ++ xs = dg n :: r :=
  ⟨t.h / 10, _, by have := h.1; omega, rfl⟩
theorem ymd_cons {t : Stamp} (hy : t.year < 10000) (xs) : ∃ n m p r, n < 10 ∧ m < 10 ∧ p < 10 ∧ ymdhms t ++ xs = dg n :: dg m :: dg p :: r :=
  ⟨t.year / 100 / 10, t.year / 100 % 10, t.year % 100 / 10, _, by omega, by omega, by omega, rfl⟩
theorem text_cons3 {t : TOD} (h : t.ok) (xs) : ∃ n m r, n < 10 ∧ m < 10 ∧ t.text ++ xs = dg n :: dg m :: ':' :: r :=
  ⟨t.h / 10, t.h % 10, _, by have := h.1; omega, by omega, rfl⟩

theorem secs_ok {t : TOD} (h : t.ok) : timeToSecs (10 * (t.h / 10) + t.h % 10) (10 * (t.m / 10) + t.m % 10) (10 * (t.s / 10) + t.s % 10) = some t.secs := by
  obtain ⟨h1, h2, h3⟩ := h
  rw [show 10 * (t.h / 10) + t.h % 10 = t.h by omega, show 10 * (t.m / 10) + t.m % 10 = t.m by omega,
    show 10 * (t.s / 10) + t.s % 10 = t.s by omega]
  unfold timeToSecs; rw [if_pos ⟨h1, h2, h3⟩]; rfl

theorem stamp_ok (unixOf) {t : Stamp} (h : t.ok) (hy : t.year < 10000) :
    stampToUnix unixOf (stampOf (t.year / 100 / 10) (t.year / 100 % 10) (t.year % 100 / 10) (t.year % 100 % 10)
      (t.month / 10) (t.month % 10) (t.day / 10) (t.day % 10) (t.hour / 10) (t.hour % 10)
      (t.min / 10) (t.min % 10) (t.sec / 10) (t.sec % 10)) = some (unixOf t) := by
  have : stampOf (t.year / 100 / 10) (t.year / 100 % 10) (t.year % 100 / 10) (t.year % 100 % 10)
      (t.month / 10) (t.month % 10) (t.day / 10) (t.day % 10) (t.hour / 10) (t.hour % 10)
      (t.min / 10) (t.min % 10) (t.sec / 10) (t.sec % 10) = t := by
    cases t; unfold stampOf; simp only at hy ⊢; congr 1 <;> omega
  rw [this]; unfold stampToUnix; rw [if_pos h]

theorem pm_fail_digit_t {n ps r} (h : n < 10) : pmatch (timeWord ++ ps) (dg n :: r) = none := by
  have := dg_digit n h
  show pmatch (.ch 't' :: _) _ = none
  simp [pmatch, this.2.2.2.2.1]
theorem pm_fail_digit_d {n ps r} (h : n < 10) : pmatch (dateTimeWord ++ ps) (dg n :: r) = none := by
  have := dg_digit n h
  show pmatch (.ch 'd' :: _) _ = none
  simp [pmatch, this.2.2.2.2.2.1]
theorem pm_fail_third {n m p ps r} (h : n < 10) (h2 : m < 10) (h3 : p < 10) : pmatch (timePat ++ ps) (dg n :: dg m :: dg p :: r) = none := by
  have := dg_digit p h3
  show pmatch (.dig :: .dig :: .ch ':' :: _) _ = none
  rw [pm_dig h, pm_dig h2]; simp [pmatch, this.2.2.1]
theorem pm_fail_third' {n m ps r} (h : n < 10) (h2 : m < 10) : pmatch (dateTimePat ++ ps) (dg n :: dg m :: ':' :: r) = none := by
  show pmatch (.dig :: .dig :: .dig :: _) _ = none
  rw [pm_dig h, pm_dig h2]; simp [pmatch]

/-- C18: a name that spells a window is parsed to that window, and keeps its full name. -/
theorem C18_windows (unixOf : Stamp → Int) (s : List Char) (d : GroupData) (h : Window unixOf s d) :
    nameToGroupData unixOf s = (s, some d) := by
  cases h with
  | beforeTime t h j k =>
    have e : beforeTimeLimitParse ("time".toList ++ lt j k t.text) = some ("time".toList ++ lt j k t.text, { mode := .beforeTime, limit := t.secs }) := by
      unfold beforeTimeLimitParse
      have : pmatch beforeTimePat ("time".toList ++ lt j k t.text) = some [t.h / 10, t.h % 10, t.m / 10, t.m % 10, t.s / 10, t.s % 10] := by
        unfold beforeTimePat timeWord
        rw [List.append_assoc, pm_word]
        obtain ⟨n, r, hn, hr⟩ := text_cons h []
        rw [List.append_nil] at hr
        rw [hr, pm_lt (dg_digit n hn).2.2.2.1, ← hr]
        have := pm_time (ps := []) (xs := []) h
        simpa [pmatch] using this
      rw [this]; simp only; rw [secs_ok h]; rfl
    unfold nameToGroupData; rw [e]
  | afterTime t h j k =>
    obtain ⟨n, r, hn, hr⟩ := text_cons h (lt j k "time".toList)
    have e1 : beforeTimeLimitParse (t.text ++ lt j k "time".toList) = none := by
      unfold beforeTimeLimitParse beforeTimePat; rw [hr, List.append_assoc, pm_fail_digit_t hn]
    have e2 : afterTimeLimitParse (t.text ++ lt j k "time".toList) = some (t.text ++ lt j k "time".toList, { mode := .afterTime, current := t.secs }) := by
      unfold afterTimeLimitParse
      have : pmatch afterTimePat (t.text ++ lt j k "time".toList) = some [t.h / 10, t.h % 10, t.m / 10, t.m % 10, t.s / 10, t.s % 10] := by
        unfold afterTimePat timeWord
        rw [List.append_assoc, pm_time h]
        have h1 : pmatch (ltPat ++ "time".toList.map .ch) (lt j k "time".toList) = some [] := by
          rw [show "time".toList = 't' :: "ime".toList from rfl, pm_lt (by decide)]
          exact pm_word "time".toList [] []
        rw [h1]; rfl
      rw [this]; simp only; rw [secs_ok h]; rfl
    unfold nameToGroupData; rw [e1, e2]
  | betweenTimes t u h h' j k j' k' =>
    obtain ⟨n, r, hn, hr⟩ := text_cons h (lt j k ("time".toList ++ lt j' k' u.text))
    obtain ⟨n', r', hn', hr'⟩ := text_cons h' []
    rw [List.append_nil] at hr'
    have e1 : beforeTimeLimitParse (t.text ++ lt j k ("time".toList ++ lt j' k' u.text)) = none := by
      unfold beforeTimeLimitParse beforeTimePat; rw [hr, List.append_assoc, pm_fail_digit_t hn]
    have e2 : afterTimeLimitParse (t.text ++ lt j k ("time".toList ++ lt j' k' u.text)) = none := by
      unfold afterTimeLimitParse
      have : pmatch afterTimePat (t.text ++ lt j k ("time".toList ++ lt j' k' u.text)) = none := by
        unfold afterTimePat timeWord
        rw [List.append_assoc, pm_time h]
        rw [show "time".toList ++ lt j' k' u.text = 't' :: ("ime".toList ++ lt j' k' u.text) from rfl, pm_lt (by decide)]
        rw [show 't' :: ("ime".toList ++ lt j' k' u.text) = "time".toList ++ lt j' k' u.text from rfl]
        have := pm_word "time".toList [] (lt j' k' u.text)
        rw [List.append_nil] at this; rw [this]
        have hne : ∃ c r, lt j' k' u.text = c :: r := by
          cases j' with
          | zero => exact ⟨_, _, rfl⟩
          | succ m => exact ⟨_, _, rfl⟩
        obtain ⟨c, r, hc⟩ := hne
        rw [hc]; rfl
      rw [this]
    have e3 : betweenTimesLimitParse (t.text ++ lt j k ("time".toList ++ lt j' k' u.text)) =
        some (t.text ++ lt j k ("time".toList ++ lt j' k' u.text), { mode := .betweenTimes, current := t.secs, limit := u.secs }) := by
      unfold betweenTimesLimitParse
      have : pmatch betweenTimesPat (t.text ++ lt j k ("time".toList ++ lt j' k' u.text)) =
          some [t.h / 10, t.h % 10, t.m / 10, t.m % 10, t.s / 10, t.s % 10, u.h / 10, u.h % 10, u.m / 10, u.m % 10, u.s / 10, u.s % 10] := by
        unfold betweenTimesPat timeWord
        simp only [List.append_assoc]
        rw [pm_time h, show "time".toList ++ lt j' k' u.text = 't' :: ("ime".toList ++ lt j' k' u.text) from rfl, pm_lt (by decide)]
        rw [show 't' :: ("ime".toList ++ lt j' k' u.text) = "time".toList ++ lt j' k' u.text from rfl, pm_word]
        rw [hr', pm_lt (dg_digit n' hn').2.2.2.1, ← hr']
        have := pm_time (ps := []) (xs := []) h'
        rw [List.append_nil, List.append_nil] at this
        rw [this]; rfl
      rw [this]; simp only; rw [secs_ok h]; simp only [Option.bind_some]; rw [secs_ok h']; rfl
    unfold nameToGroupData; rw [e1, e2, e3]
  | beforeDateTime t h hy j k =>
    obtain ⟨n, m, p, r, hn, hm, hp, hr⟩ := ymd_cons hy []
    rw [List.append_nil] at hr
    have e1 : beforeTimeLimitParse ("datetime".toList ++ lt j k (ymdhms t)) = none := rfl
    have e2 : afterTimeLimitParse ("datetime".toList ++ lt j k (ymdhms t)) = none := rfl
    have e3 : betweenTimesLimitParse ("datetime".toList ++ lt j k (ymdhms t)) = none := rfl
    have e4 : beforeDateTimeLimitParse unixOf ("datetime".toList ++ lt j k (ymdhms t)) =
        some ("datetime".toList ++ lt j k (ymdhms t), { mode := .beforeDateTime, limit := unixOf t }) := by
      unfold beforeDateTimeLimitParse
      have : pmatch beforeDateTimePat ("datetime".toList ++ lt j k (ymdhms t)) = some [t.year / 100 / 10, t.year / 100 % 10, t.year % 100 / 10, t.year % 100 % 10,
          t.month / 10, t.month % 10, t.day / 10, t.day % 10, t.hour / 10, t.hour % 10, t.min / 10, t.min % 10, t.sec / 10, t.sec % 10] := by
        unfold beforeDateTimePat dateTimeWord
        rw [List.append_assoc, pm_word, hr, pm_lt (dg_digit n hn).2.2.2.1, ← hr]
        have := pm_dateTime (ps := []) (xs := []) h hy
        rw [List.append_nil, List.append_nil] at this
        rw [this]; rfl
      rw [this]; simp only; rw [stamp_ok unixOf h hy]; rfl
    unfold nameToGroupData; rw [e1, e2, e3, e4]
  | afterDateTime t h hy j k =>
    obtain ⟨n, m, p, r, hn, hm, hp, hr⟩ := ymd_cons hy (lt j k "datetime".toList)
    have e1 : beforeTimeLimitParse (ymdhms t ++ lt j k "datetime".toList) = none := by
      unfold beforeTimeLimitParse beforeTimePat; rw [hr, List.append_assoc, pm_fail_digit_t hn]
    have e2 : afterTimeLimitParse (ymdhms t ++ lt j k "datetime".toList) = none := by
      unfold afterTimeLimitParse afterTimePat; rw [hr, List.append_assoc, pm_fail_third hn hm hp]
    have e3 : betweenTimesLimitParse (ymdhms t ++ lt j k "datetime".toList) = none := by
      unfold betweenTimesLimitParse betweenTimesPat; simp only [List.append_assoc]; rw [hr, pm_fail_third hn hm hp]
    have e4 : beforeDateTimeLimitParse unixOf (ymdhms t ++ lt j k "datetime".toList) = none := by
      unfold beforeDateTimeLimitParse beforeDateTimePat; rw [hr, List.append_assoc, pm_fail_digit_d hn]
    have e5 : afterDateTimeLimitParse unixOf (ymdhms t ++ lt j k "datetime".toList) =
        some (ymdhms t ++ lt j k "datetime".toList, { mode := .afterDateTime, current := unixOf t }) := by
      unfold afterDateTimeLimitParse
      have : pmatch afterDateTimePat (ymdhms t ++ lt j k "datetime".toList) = some [t.year / 100 / 10, t.year / 100 % 10, t.year % 100 / 10, t.year % 100 % 10,
          t.month / 10, t.month % 10, t.day / 10, t.day % 10, t.hour / 10, t.hour % 10, t.min / 10, t.min % 10, t.sec / 10, t.sec % 10] := by
        unfold afterDateTimePat dateTimeWord
        rw [List.append_assoc, pm_dateTime h hy]
        have h1 : pmatch (ltPat ++ "datetime".toList.map .ch) (lt j k "datetime".toList) = some [] := by
          rw [show "datetime".toList = 'd' :: "atetime".toList from rfl, pm_lt (by decide)]
          exact pm_word "datetime".toList [] []
        rw [h1]; rfl
      rw [this]; simp only; rw [stamp_ok unixOf h hy]; rfl
    unfold nameToGroupData; rw [e1, e2, e3, e4, e5]
  | betweenDateTimes t u h h' hy hy' j k j' k' =>
    obtain ⟨n, m, p, r, hn, hm, hp, hr⟩ := ymd_cons hy (lt j k ("datetime".toList ++ lt j' k' (ymdhms u)))
    obtain ⟨n', m', p', r', hn', hm', hp', hr'⟩ := ymd_cons hy' []
    rw [List.append_nil] at hr'
    have e1 : beforeTimeLimitParse (ymdhms t ++ lt j k ("datetime".toList ++ lt j' k' (ymdhms u))) = none := by
      unfold beforeTimeLimitParse beforeTimePat; rw [hr, List.append_assoc, pm_fail_digit_t hn]
    have e2 : afterTimeLimitParse (ymdhms t ++ lt j k ("datetime".toList ++ lt j' k' (ymdhms u))) = none := by
      unfold afterTimeLimitParse afterTimePat; rw [hr, List.append_assoc, pm_fail_third hn hm hp]
    have e3 : betweenTimesLimitParse (ymdhms t ++ lt j k ("datetime".toList ++ lt j' k' (ymdhms u))) = none := by
      unfold betweenTimesLimitParse betweenTimesPat; simp only [List.append_assoc]; rw [hr, pm_fail_third hn hm hp]
    have e4 : beforeDateTimeLimitParse unixOf (ymdhms t ++ lt j k ("datetime".toList ++ lt j' k' (ymdhms u))) = none := by
      unfold beforeDateTimeLimitParse beforeDateTimePat; rw [hr, List.append_assoc, pm_fail_digit_d hn]
    have e5 : afterDateTimeLimitParse unixOf (ymdhms t ++ lt j k ("datetime".toList ++ lt j' k' (ymdhms u))) = none := by
      unfold afterDateTimeLimitParse
      have : pmatch afterDateTimePat (ymdhms t ++ lt j k ("datetime".toList ++ lt j' k' (ymdhms u))) = none := by
        unfold afterDateTimePat dateTimeWord
        rw [List.append_assoc, pm_dateTime h hy]
        rw [show "datetime".toList ++ lt j' k' (ymdhms u) = 'd' :: ("atetime".toList ++ lt j' k' (ymdhms u)) from rfl, pm_lt (by decide)]
        rw [show 'd' :: ("atetime".toList ++ lt j' k' (ymdhms u)) = "datetime".toList ++ lt j' k' (ymdhms u) from rfl]
        have := pm_word "datetime".toList [] (lt j' k' (ymdhms u))
        rw [List.append_nil] at this; rw [this]
        have hne : ∃ c r, lt j' k' (ymdhms u) = c :: r := by
          cases j' with
          | zero => exact ⟨_, _, rfl⟩
          | succ m => exact ⟨_, _, rfl⟩
        obtain ⟨c, r, hc⟩ := hne
        rw [hc]; rfl
      rw [this]
    have e6 : betweenDateTimesLimitParse unixOf (ymdhms t ++ lt j k ("datetime".toList ++ lt j' k' (ymdhms u))) =
        some (ymdhms t ++ lt j k ("datetime".toList ++ lt j' k' (ymdhms u)), { mode := .betweenDateTimes, current := unixOf t, limit := unixOf u }) := by
      unfold betweenDateTimesLimitParse
      have : pmatch betweenDateTimesPat (ymdhms t ++ lt j k ("datetime".toList ++ lt j' k' (ymdhms u))) =
          some [t.year / 100 / 10, t.year / 100 % 10, t.year % 100 / 10, t.year % 100 % 10,
          t.month / 10, t.month % 10, t.day / 10, t.day % 10, t.hour / 10, t.hour % 10, t.min / 10, t.min % 10, t.sec / 10, t.sec % 10,
          u.year / 100 / 10, u.year / 100 % 10, u.year % 100 / 10, u.year % 100 % 10,
          u.month / 10, u.month % 10, u.day / 10, u.day % 10, u.hour / 10, u.hour % 10, u.min / 10, u.min % 10, u.sec / 10, u.sec % 10] := by
        unfold betweenDateTimesPat dateTimeWord
        simp only [List.append_assoc]
        rw [pm_dateTime h hy, show "datetime".toList ++ lt j' k' (ymdhms u) = 'd' :: ("atetime".toList ++ lt j' k' (ymdhms u)) from rfl, pm_lt (by decide)]
        rw [show 'd' :: ("atetime".toList ++ lt j' k' (ymdhms u)) = "datetime".toList ++ lt j' k' (ymdhms u) from rfl, pm_word]
        rw [hr', pm_lt (dg_digit n' hn').2.2.2.1, ← hr']
        have := pm_dateTime (ps := []) (xs := []) h' hy'
        rw [List.append_nil, List.append_nil] at this
        rw [this]; rfl
      rw [this]; simp only; rw [stamp_ok unixOf h hy]; simp only [Option.bind_some]; rw [stamp_ok unixOf h' hy']; rfl
    unfold nameToGroupData; rw [e1, e2, e3, e4, e5, e6]

/-! ### The converse: nothing else is a window -/

theorem mem_takeWhile_imp' {α} {p : α → Bool} {l : List α} {x : α} (h : x ∈ l.takeWhile p) : p x = true := by
  induction l with
  | nil => simp at h
  | cons a l ih =>
    rw [List.takeWhile_cons] at h
    split at h
    · rcases List.mem_cons.1 h with rfl | h
      · assumption
      · exact ih h
    · simp at h


theorem inv_ch {c ps s ds} (h : pmatch (.ch c :: ps) s = some ds) : ∃ t, s = c :: t ∧ pmatch ps t = some ds := by
  cases s with
  | nil => simp [pmatch] at h
  | cons x xs =>
    simp only [pmatch] at h
    split at h
    · rename_i e; subst e; exact ⟨xs, rfl, h⟩
    · simp at h
theorem inv_dig {ps s ds} (h : pmatch (.dig :: ps) s = some ds) : ∃ n t ds', n < 10 ∧ s = dg n :: t ∧ ds = n :: ds' ∧ pmatch ps t = some ds' := by
  cases s with
  | nil => simp [pmatch] at h
  | cons x xs =>
    simp only [pmatch] at h
    split at h
    · rename_i e
      obtain ⟨ds', h1, h2⟩ := Option.map_eq_some_iff.1 h
      obtain ⟨a, b⟩ := isDigit_dg x e
      exact ⟨_, xs, ds', a, by rw [b], h2.symm, h1⟩
    · simp at h
theorem inv_sp {ps s ds} (h : pmatch (.sp :: ps) s = some ds) : ∃ k t, s = spaces k ++ t ∧ pmatch ps t = some ds := by
  simp only [pmatch] at h
  refine ⟨(s.takeWhile (· = ' ')).length, _, ?_, h⟩
  have hsp : spaces (s.takeWhile (· = ' ')).length = s.takeWhile (· = ' ') := by
    unfold spaces
    symm
    rw [List.eq_replicate_iff]
    refine ⟨rfl, ?_⟩
    intro b hb
    have := mem_takeWhile_imp' hb
    simpa using this
  rw [hsp, List.takeWhile_append_dropWhile]
theorem inv_two {ps s ds} (h : pmatch (.dig :: .dig :: ps) s = some ds) :
    ∃ a b t ds', a < 10 ∧ b < 10 ∧ s = two (10 * a + b) ++ t ∧ ds = a :: b :: ds' ∧ pmatch ps t = some ds' := by
  obtain ⟨a, t, ds1, ha, rfl, rfl, h1⟩ := inv_dig h
  obtain ⟨b, t, ds2, hb, rfl, rfl, h2⟩ := inv_dig h1
  refine ⟨a, b, t, ds2, ha, hb, ?_, rfl, h2⟩
  unfold two
  rw [show (10 * a + b) / 10 = a by omega, show (10 * a + b) % 10 = b by omega]; rfl
theorem inv_lt {ps s ds} (h : pmatch (ltPat ++ ps) s = some ds) : ∃ j k t, s = lt j k t ∧ pmatch ps t = some ds := by
  obtain ⟨j, t, rfl, h1⟩ := inv_sp (ps := .ch '<' :: .sp :: ps) h
  obtain ⟨t, rfl, h2⟩ := inv_ch h1
  obtain ⟨k, t, rfl, h3⟩ := inv_sp h2
  exact ⟨j, k, t, rfl, h3⟩
theorem inv_word (w : List Char) {ps} : ∀ {s ds}, pmatch (w.map .ch ++ ps) s = some ds → ∃ t, s = w ++ t ∧ pmatch ps t = some ds := by
  induction w with
  | nil => intro s ds h; exact ⟨s, rfl, h⟩
  | cons c w ih =>
    intro s ds h
    obtain ⟨t, rfl, h1⟩ := inv_ch (c := c) (ps := w.map .ch ++ ps) (by simpa using h)
    obtain ⟨t, rfl, h2⟩ := ih h1
    exact ⟨t, rfl, h2⟩
theorem inv_time {ps s ds} (h : pmatch (timePat ++ ps) s = some ds) :
    ∃ a b c d e f t ds', s = (TOD.mk (10 * a + b) (10 * c + d) (10 * e + f)).text ++ t ∧
      ds = a :: b :: c :: d :: e :: f :: ds' ∧ pmatch ps t = some ds' := by
  obtain ⟨a, b, t, ds1, ha, hb, rfl, rfl, h1⟩ := inv_two (ps := .ch ':' :: .dig :: .dig :: .ch ':' :: .dig :: .dig :: ps) h
  obtain ⟨t, rfl, h2⟩ := inv_ch h1
  obtain ⟨c, d, t, ds2, hc, hd, rfl, rfl, h3⟩ := inv_two h2
  obtain ⟨t, rfl, h4⟩ := inv_ch h3
  obtain ⟨e, f, t, ds3, he, hf, rfl, rfl, h5⟩ := inv_two h4
  exact ⟨a, b, c, d, e, f, t, ds3, by simp [TOD.text, hms], rfl, h5⟩
theorem inv_dateTime {ps s ds} (h0 : pmatch (dateTimePat ++ ps) s = some ds) :
    ∃ a b c d e f g h i j k l m n t ds', s = ymdhms (stampOf a b c d e f g h i j k l m n) ++ t ∧ (stampOf a b c d e f g h i j k l m n).year < 10000 ∧
      ds = a :: b :: c :: d :: e :: f :: g :: h :: i :: j :: k :: l :: m :: n :: ds' ∧ pmatch ps t = some ds' := by
  obtain ⟨a, b, t, ds1, ha, hb, rfl, rfl, h1⟩ := inv_two (ps := .dig :: .dig :: .ch '-' :: .dig :: .dig :: .ch '-' :: .dig :: .dig :: .ch ' ' :: (timePat ++ ps)) h0
  obtain ⟨c, d, t, ds1, hc, hd, rfl, rfl, h1_1⟩ := inv_two h1
  obtain ⟨t, rfl, h1_2⟩ := inv_ch h1_1
  obtain ⟨e, f, t, ds1, he, hf, rfl, rfl, h1_3⟩ := inv_two h1_2
  obtain ⟨t, rfl, h1_4⟩ := inv_ch h1_3
  obtain ⟨g, h, t, ds1, hg, hh, rfl, rfl, h1_5⟩ := inv_two h1_4
  obtain ⟨t, rfl, h1_6⟩ := inv_ch h1_5
  obtain ⟨i, j, k, l, m, n, t, ds1, rfl, rfl, h1_7⟩ := inv_time h1_6
  refine ⟨a, b, c, d, e, f, g, h, i, j, k, l, m, n, t, ds1, ?_, ?_, rfl, h1_7⟩
  · unfold ymdhms stampOf
    simp only
    rw [show (1000 * a + 100 * b + 10 * c + d) / 100 = 10 * a + b by omega, show (1000 * a + 100 * b + 10 * c + d) % 100 = 10 * c + d by omega]
    simp [TOD.text]
  · unfold stampOf; simp only; omega
theorem inv_nil {s ds} (h : pmatch [] s = some ds) : s = [] ∧ ds = [] := by
  cases s <;> simp [pmatch] at h ⊢; exact h

theorem secs_inv {h m s t} (e : timeToSecs h m s = some t) : (TOD.mk h m s).ok ∧ t = (TOD.mk h m s).secs := by
  unfold timeToSecs at e
  split at e
  · rename_i hk; injection e with e; exact ⟨hk, e.symm⟩
  · simp at e
theorem stamp_inv {unixOf st t} (e : stampToUnix unixOf st = some t) : st.ok ∧ t = unixOf st := by
  unfold stampToUnix at e
  split at e
  · rename_i hk; injection e with e; exact ⟨hk, e.symm⟩
  · simp at e

theorem only_beforeTime (unixOf) {s r} (h : beforeTimeLimitParse s = some r) : r.1 = s ∧ Window unixOf s r.2 := by
  unfold beforeTimeLimitParse at h
  split at h
  · rename_i a b c d e f hm
    obtain ⟨t, ht, hr⟩ := Option.map_eq_some_iff.1 h
    obtain ⟨hok, rfl⟩ := secs_inv ht
    unfold beforeTimePat timeWord at hm
    rw [List.append_assoc] at hm
    obtain ⟨t, rfl, hm_1⟩ := inv_word _ hm
    obtain ⟨j, k, t, rfl, hm_2⟩ := inv_lt hm_1
    obtain ⟨a', b', c', d', e', f', t, ds', rfl, hds, hm_3⟩ := inv_time (ps := []) (by simpa using hm_2)
    obtain ⟨rfl, rfl⟩ := inv_nil hm_3
    simp only [List.cons.injEq, and_true] at hds
    obtain ⟨rfl, rfl, rfl, rfl, rfl, rfl⟩ := hds
    subst hr
    refine ⟨rfl, ?_⟩
    rw [List.append_nil]; exact .beforeTime _ hok j k
  · simp at h

theorem only_afterTime (unixOf) {s r} (h : afterTimeLimitParse s = some r) : r.1 = s ∧ Window unixOf s r.2 := by
  unfold afterTimeLimitParse at h
  split at h
  · rename_i a b c d e f hm
    obtain ⟨t, ht, hr⟩ := Option.map_eq_some_iff.1 h
    obtain ⟨hok, rfl⟩ := secs_inv ht
    unfold afterTimePat timeWord at hm
    rw [List.append_assoc] at hm
    obtain ⟨a', b', c', d', e', f', t, ds', rfl, hds, hm_1⟩ := inv_time hm
    obtain ⟨j, k, t, rfl, hm_2⟩ := inv_lt hm_1
    rw [← List.append_nil (List.map _ _)] at hm_2
    obtain ⟨t, rfl, hm_3⟩ := inv_word _ hm_2
    obtain ⟨rfl, rfl⟩ := inv_nil hm_3
    simp only [List.cons.injEq, and_true] at hds
    obtain ⟨rfl, rfl, rfl, rfl, rfl, rfl⟩ := hds
    subst hr
    refine ⟨rfl, ?_⟩
    rw [List.append_nil]; exact .afterTime _ hok j k
  · simp at h

theorem only_betweenTimes (unixOf) {s r} (h : betweenTimesLimitParse s = some r) : r.1 = s ∧ Window unixOf s r.2 := by
  unfold betweenTimesLimitParse at h
  split at h
  · rename_i hm
    obtain ⟨t, ht, hr⟩ := Option.bind_eq_some_iff.1 h
    obtain ⟨u, hu, hr⟩ := Option.map_eq_some_iff.1 hr
    obtain ⟨hok, rfl⟩ := secs_inv ht
    obtain ⟨hok', rfl⟩ := secs_inv hu
    unfold betweenTimesPat timeWord at hm
    simp only [List.append_assoc] at hm
    obtain ⟨_, _, _, _, _, _, t, ds', rfl, hds, hm_1⟩ := inv_time hm
    obtain ⟨j, k, t, rfl, hm_2⟩ := inv_lt hm_1
    obtain ⟨t, rfl, hm_3⟩ := inv_word _ hm_2
    obtain ⟨j', k', t, rfl, hm_4⟩ := inv_lt hm_3
    obtain ⟨_, _, _, _, _, _, t, ds'', rfl, hds', hm_5⟩ := inv_time (ps := []) (by simpa using hm_4)
    obtain ⟨rfl, rfl⟩ := inv_nil hm_5
    subst hds'
    simp only [List.cons.injEq, and_true] at hds
    obtain ⟨rfl, rfl, rfl, rfl, rfl, rfl, rfl, rfl, rfl, rfl, rfl, rfl⟩ := hds
    subst hr
    refine ⟨rfl, ?_⟩
    rw [List.append_nil]; exact .betweenTimes _ _ hok hok' j k j' k'
  · simp at h

theorem only_beforeDateTime {unixOf s r} (h : beforeDateTimeLimitParse unixOf s = some r) : r.1 = s ∧ Window unixOf s r.2 := by
  unfold beforeDateTimeLimitParse at h
  split at h
  · rename_i hm
    obtain ⟨t, ht, hr⟩ := Option.map_eq_some_iff.1 h
    obtain ⟨hok, rfl⟩ := stamp_inv ht
    unfold beforeDateTimePat dateTimeWord at hm
    rw [List.append_assoc] at hm
    obtain ⟨t, rfl, hm_1⟩ := inv_word _ hm
    obtain ⟨j, k, t, rfl, hm_2⟩ := inv_lt hm_1
    obtain ⟨_, _, _, _, _, _, _, _, _, _, _, _, _, _, t, ds', rfl, hy, hds, hm_3⟩ := inv_dateTime (ps := []) (by simpa using hm_2)
    obtain ⟨rfl, rfl⟩ := inv_nil hm_3
    simp only [List.cons.injEq, and_true] at hds
    obtain ⟨rfl, rfl, rfl, rfl, rfl, rfl, rfl, rfl, rfl, rfl, rfl, rfl, rfl, rfl⟩ := hds
    subst hr
    refine ⟨rfl, ?_⟩
    rw [List.append_nil]; exact .beforeDateTime _ hok hy j k
  · simp at h

theorem only_afterDateTime {unixOf s r} (h : afterDateTimeLimitParse unixOf s = some r) : r.1 = s ∧ Window unixOf s r.2 := by
  unfold afterDateTimeLimitParse at h
  split at h
  · rename_i hm
    obtain ⟨t, ht, hr⟩ := Option.map_eq_some_iff.1 h
    obtain ⟨hok, rfl⟩ := stamp_inv ht
    unfold afterDateTimePat dateTimeWord at hm
    rw [List.append_assoc] at hm
    obtain ⟨_, _, _, _, _, _, _, _, _, _, _, _, _, _, t, ds', rfl, hy, hds, hm_1⟩ := inv_dateTime hm
    obtain ⟨j, k, t, rfl, hm_2⟩ := inv_lt hm_1
    rw [← List.append_nil (List.map _ _)] at hm_2
    obtain ⟨t, rfl, hm_3⟩ := inv_word _ hm_2
    obtain ⟨rfl, rfl⟩ := inv_nil hm_3
    simp only [List.cons.injEq, and_true] at hds
    obtain ⟨rfl, rfl, rfl, rfl, rfl, rfl, rfl, rfl, rfl, rfl, rfl, rfl, rfl, rfl⟩ := hds
    subst hr
    refine ⟨rfl, ?_⟩
    rw [List.append_nil]; exact .afterDateTime _ hok hy j k
  · simp at h

theorem only_betweenDateTimes {unixOf s r} (h : betweenDateTimesLimitParse unixOf s = some r) : r.1 = s ∧ Window unixOf s r.2 := by
  unfold betweenDateTimesLimitParse at h
  split at h
  · rename_i hm
    obtain ⟨t, ht, hr⟩ := Option.bind_eq_some_iff.1 h
    obtain ⟨u, hu, hr⟩ := Option.map_eq_some_iff.1 hr
    obtain ⟨hok, rfl⟩ := stamp_inv ht
    obtain ⟨hok', rfl⟩ := stamp_inv hu
    unfold betweenDateTimesPat dateTimeWord at hm
    simp only [List.append_assoc] at hm
    obtain ⟨_, _, _, _, _, _, _, _, _, _, _, _, _, _, t, ds', rfl, hy, hds, hm_1⟩ := inv_dateTime hm
    obtain ⟨j, k, t, rfl, hm_2⟩ := inv_lt hm_1
    obtain ⟨t, rfl, hm_3⟩ := inv_word _ hm_2
    obtain ⟨j', k', t, rfl, hm_4⟩ := inv_lt hm_3
    obtain ⟨_, _, _, _, _, _, _, _, _, _, _, _, _, _, t, ds'', rfl, hy', hds', hm_5⟩ := inv_dateTime (ps := []) (by simpa using hm_4)
    obtain ⟨rfl, rfl⟩ := inv_nil hm_5
    subst hds'
    simp only [List.cons.injEq, and_true] at hds
    obtain ⟨rfl, rfl, rfl, rfl, rfl, rfl, rfl, rfl, rfl, rfl, rfl, rfl, rfl, rfl, rfl, rfl, rfl, rfl, rfl, rfl, rfl, rfl, rfl, rfl, rfl, rfl, rfl, rfl⟩ := hds
    subst hr
    refine ⟨rfl, ?_⟩
    rw [List.append_nil]; exact .betweenDateTimes _ _ hok hok' hy hy' j k j' k'
  · simp at h

theorem count_inv {s n : List Char} {d} (h : countLimitParse s = some (n, d)) :
    ∃ t k, s = n ++ ':' :: t ∧ ':' ∉ n ∧ parseInt t = some k ∧ d = newCount k := by
  unfold countLimitParse at h
  split at h
  · simp at h
  · rename_i x t hd
    obtain ⟨k, hk, e⟩ := Option.map_eq_some_iff.1 h
    rw [Prod.mk.injEq] at e
    have hx : x = ':' := by
      have := List.head?_dropWhile_not (fun c : Char => decide (c ≠ ':')) s
      rw [hd] at this
      simpa using this
    subst hx
    refine ⟨t, k, ?_, ?_, hk, e.2.symm⟩
    · rw [← e.1, ← hd, List.takeWhile_append_dropWhile]
    · rw [← e.1]; intro hm
      have := mem_takeWhile_imp' hm
      simp at this

/-- C18, converse: a name gets group data only if it spells a window (then it keeps its full name), or it is a name
without `:`, a colon and an integer (then it gets that count as limit, and loses the suffix). -/
theorem C18_only (unixOf : Stamp → Int) (s n : List Char) (d : GroupData) (h : nameToGroupData unixOf s = (n, some d)) :
    (n = s ∧ Window unixOf s d) ∨
    (∃ t k, s = n ++ ':' :: t ∧ ':' ∉ n ∧ parseInt t = some k ∧ d = newCount k) := by
  unfold nameToGroupData at h
  split at h
  · rename_i hp; injection h with h1 h2; injection h2 with h2; subst h1; subst h2
    exact Or.inl (only_beforeTime unixOf hp)
  split at h
  · rename_i hp; injection h with h1 h2; injection h2 with h2; subst h1; subst h2
    exact Or.inl (only_afterTime unixOf hp)
  split at h
  · rename_i hp; injection h with h1 h2; injection h2 with h2; subst h1; subst h2
    exact Or.inl (only_betweenTimes unixOf hp)
  split at h
  · rename_i hp; injection h with h1 h2; injection h2 with h2; subst h1; subst h2
    exact Or.inl (only_beforeDateTime hp)
  split at h
  · rename_i hp; injection h with h1 h2; injection h2 with h2; subst h1; subst h2
    exact Or.inl (only_afterDateTime hp)
  split at h
  · rename_i hp; injection h with h1 h2; injection h2 with h2; subst h1; subst h2
    exact Or.inl (only_betweenDateTimes hp)
  split at h
  · rename_i hp; injection h with h1 h2; injection h2 with h2; subst h1; subst h2
    exact Or.inr (count_inv hp)
  · injection h with h1 h2; simp at h2

theorem mem_colons {unixOf s d} (h : Window unixOf s d) : 2 ≤ s.count ':' := by
  have hh : ∀ h m s, 2 ≤ (hms h m s).count ':' := by
    intro h m s; unfold hms; simp only [List.count_append, List.count_cons_self]; omega
  have hy : ∀ t, 2 ≤ (ymdhms t).count ':' := by
    intro t; unfold ymdhms
    have := hh t.hour t.min t.sec
    simp only [List.count_append, List.count_cons]; omega
  have hl : ∀ j k r, r.count ':' ≤ (lt j k r).count ':' := by
    intro j k r; unfold lt; simp only [List.count_append, List.count_cons]; omega
  cases h with
  | beforeTime t h j k => have := hh t.h t.m t.s; have := hl j k t.text; rw [List.count_append]; unfold TOD.text at *; omega
  | afterTime t h j k => have := hh t.h t.m t.s; rw [List.count_append]; unfold TOD.text at *; omega
  | betweenTimes t u h h' j k j' k' => have := hh t.h t.m t.s; rw [List.count_append]; unfold TOD.text at *; omega
  | beforeDateTime t h hyy j k => have := hy t; have := hl j k (ymdhms t); rw [List.count_append]; omega
  | afterDateTime t h hyy j k => have := hy t; rw [List.count_append]; omega
  | betweenDateTimes t u h h' hyy hyy' j k j' k' => have := hy t; rw [List.count_append]; omega

theorem dec_spec (n : Nat) : dec n ≠ [] ∧ (dec n).all (·.isDigit) = true ∧
    (dec n).foldl (fun acc c => 10 * acc + (c.toNat - 48)) 0 = n := by
  induction n using Nat.strongRecOn with
  | _ n ih =>
    unfold dec
    split
    · rename_i h
      have := dg_digit n h
      simp [this.1, this.2.1]
    · rename_i h
      obtain ⟨h1, h2, h3⟩ := ih (n / 10) (by omega)
      have := dg_digit (n % 10) (by omega)
      refine ⟨by simp, ?_, ?_⟩
      · rw [List.all_append, h2]; simp [this.1]
      · rw [List.foldl_append, h3]; simp only [List.foldl_cons, List.foldl_nil, this.2.1]; omega

theorem parseDigits_dec (n : Nat) : parseDigits (dec n) = some n := by
  obtain ⟨h1, h2, h3⟩ := dec_spec n
  unfold parseDigits
  split
  · rename_i e; exact absurd e h1
  · rw [if_pos h2, h3]

theorem dec_head (n : Nat) : ∃ c r, dec n = c :: r ∧ c ≠ '-' ∧ c ≠ '+' ∧ c ≠ ':' := by
  obtain ⟨h1, h2, _⟩ := dec_spec n
  cases h : dec n with
  | nil => exact absurd h h1
  | cons c r =>
    rw [h] at h2; simp only [List.all_cons, Bool.and_eq_true] at h2
    obtain ⟨a, b⟩ := isDigit_dg c h2.1
    have := dg_digit _ a
    rw [b] at this
    exact ⟨c, r, rfl, this.2.2.2.2.2.2.1, this.2.2.2.2.2.2.2, this.2.2.1⟩

theorem parseInt_decInt (n : Int) (h1 : -2 ^ 63 ≤ n) (h2 : n < 2 ^ 63) : parseInt (decInt n) = some n := by
  unfold decInt
  split
  · rename_i h
    unfold parseInt
    simp only [parseDigits_dec, Option.bind_some]
    rw [if_pos (by omega)]; congr 1; omega
  · rename_i h
    obtain ⟨c, r, e, hc1, hc2, _⟩ := dec_head n.natAbs
    have hp := parseDigits_dec n.natAbs
    rw [e] at hp ⊢
    unfold parseInt
    split
    · rename_i e'; injection e' with e' _; exact absurd e' hc1
    · rename_i e'; injection e' with e' _; exact absurd e' hc2
    · rw [hp]; simp only [Option.bind_some]; rw [if_pos (by omega)]; congr 1; omega

theorem decInt_colon (n : Int) : ':' ∉ decInt n := by
  have : ∀ m, ':' ∉ dec m := by
    intro m hm
    have := (dec_spec m).2.1
    rw [List.all_eq_true] at this
    have := this _ hm
    revert this; decide
  unfold decInt; split <;> simp [this]

/-- the parsers other than the first six: if no window is spelled, what the count parser says -/
theorem no_window {unixOf s} (h : ∀ d, ¬ Window unixOf s d) : nameToGroupData unixOf s =
    match countLimitParse s with
    | some (n, d) => (n, some d)
    | none => (s, none) := by
  have e1 : beforeTimeLimitParse s = none := by
    cases hp : beforeTimeLimitParse s with
    | none => rfl
    | some r => exact absurd (only_beforeTime unixOf hp).2 (h _)
  have e2 : afterTimeLimitParse s = none := by
    cases hp : afterTimeLimitParse s with
    | none => rfl
    | some r => exact absurd (only_afterTime unixOf hp).2 (h _)
  have e3 : betweenTimesLimitParse s = none := by
    cases hp : betweenTimesLimitParse s with
    | none => rfl
    | some r => exact absurd (only_betweenTimes unixOf hp).2 (h _)
  have e4 : beforeDateTimeLimitParse unixOf s = none := by
    cases hp : beforeDateTimeLimitParse unixOf s with
    | none => rfl
    | some r => exact absurd (only_beforeDateTime hp).2 (h _)
  have e5 : afterDateTimeLimitParse unixOf s = none := by
    cases hp : afterDateTimeLimitParse unixOf s with
    | none => rfl
    | some r => exact absurd (only_afterDateTime hp).2 (h _)
  have e6 : betweenDateTimesLimitParse unixOf s = none := by
    cases hp : betweenDateTimesLimitParse unixOf s with
    | none => rfl
    | some r => exact absurd (only_betweenDateTimes hp).2 (h _)
  unfold nameToGroupData
  simp only [e1, e2, e3, e4, e5, e6]
  split <;> simp_all

/-- C18: `name:n` (name without colon, n a 64-bit integer) is the group `name` with limit `n` (no valid limit if n is
negative). -/
theorem C18_count (unixOf : Stamp → Int) (name : List Char) (n : Int) (hn : ':' ∉ name) (h1 : -2 ^ 63 ≤ n) (h2 : n < 2 ^ 63) :
    nameToGroupData unixOf (name ++ ':' :: decInt n) = (name, some (newCount n)) := by
  have hc : (name ++ ':' :: decInt n).count ':' = 1 := by
    rw [List.count_append, List.count_cons_self, List.count_eq_zero_of_not_mem hn, List.count_eq_zero_of_not_mem (decInt_colon n)]
  rw [no_window (fun d hw => by have := mem_colons hw; omega)]
  unfold countLimitParse
  have hne : ∀ c ∈ name, decide (c ≠ ':') = true := by intro c hc; simp only [decide_eq_true_eq]; rintro rfl; exact hn hc
  rw [List.dropWhile_append_of_pos hne, List.takeWhile_append_of_pos hne]
  simp [parseInt_decInt n h1 h2]

/-- C18: a name without a colon is a plain name with no limit of its own. -/
theorem C18_plain (unixOf : Stamp → Int) (name : List Char) (hn : ':' ∉ name) : nameToGroupData unixOf name = (name, none) := by
  rw [no_window (fun d hw => by have := mem_colons hw; rw [List.count_eq_zero_of_not_mem hn] at this; omega)]
  unfold countLimitParse
  have hne : ∀ c ∈ name, decide (c ≠ ':') = true := by intro c hc; simp only [decide_eq_true_eq]; rintro rfl; exact hn hc
  have : name.dropWhile (fun c => decide (c ≠ ':')) = [] := by
    have := List.dropWhile_append_of_pos (p := fun c => decide (c ≠ ':')) (l₂ := []) hne
    simpa using this
  rw [this]

/-- C18, unambiguity: the windows spelled by a name are one. -/
theorem C18_unambiguous (unixOf : Stamp → Int) (s : List Char) (d d' : GroupData) (h : Window unixOf s d) (h' : Window unixOf s d') :
    d = d' := by
  have a := C18_windows unixOf s d h
  rw [C18_windows unixOf s d' h'] at a
  injection a with _ a; injection a with a; exact a.symm

/-- Specification: leap years of the Gregorian calendar. -/
def Leap (y : Nat) : Prop := 4 ∣ y ∧ (¬ 100 ∣ y ∨ 400 ∣ y)

/-- Specification: the number of days of the twelve months. -/
def months (feb : Nat) : List Nat := [31, feb, 31, 30, 31, 30, 31, 31, 30, 31, 30, 31]

/-- Specification: a date of the calendar and a time of day. -/
def RealStamp (t : Stamp) : Prop :=
  (∃ n feb, ((Leap t.year ∧ feb = 29) ∨ (¬ Leap t.year ∧ feb = 28)) ∧
    1 ≤ t.month ∧ (months feb)[t.month - 1]? = some n ∧ 1 ≤ t.day ∧ t.day ≤ n) ∧
  t.hour ≤ 23 ∧ t.min ≤ 59 ∧ t.sec ≤ 59

/-- C18, dates: the dates and times accepted in windows are those of the calendar. -/
theorem C18_dates (t : Stamp) : t.ok ↔ RealStamp t := by
  obtain ⟨y, mo, d, h, mi, s⟩ := t
  have key : ∀ n, (∃ feb, ((Leap y ∧ feb = 29) ∨ (¬ Leap y ∧ feb = 28)) ∧ 1 ≤ mo ∧
      (months feb)[mo - 1]? = some n) ↔ (1 ≤ mo ∧ mo ≤ 12 ∧ n = daysIn y mo) := by
    intro n
    have hl : Leap y ↔ (y % 4 = 0 ∧ (y % 100 ≠ 0 ∨ y % 400 = 0)) := by
      unfold Leap; omega
    rw [hl]
    constructor
    · rintro ⟨feb, hf, h1, h2⟩
      have h3 : mo - 1 < 12 := by
        rcases Nat.lt_or_ge (mo - 1) 12 with h3 | h3
        · exact h3
        · rw [List.getElem?_eq_none (by simpa [months] using h3)] at h2; cases h2
      refine ⟨h1, by omega, ?_⟩
      obtain ⟨k, rfl⟩ : ∃ k, mo = k + 1 := ⟨mo - 1, by omega⟩
      have hk : k = 0 ∨ k = 1 ∨ k = 2 ∨ k = 3 ∨ k = 4 ∨ k = 5 ∨ k = 6 ∨ k = 7 ∨ k = 8 ∨ k = 9 ∨
        k = 10 ∨ k = 11 := by omega
      unfold daysIn
      rcases hk with rfl | rfl | rfl | rfl | rfl | rfl | rfl | rfl | rfl | rfl | rfl | rfl <;>
        simp [months] at h2 ⊢ <;> subst h2 <;>
        rcases hf with ⟨h4, h5⟩ | ⟨h4, h5⟩ <;> simp [h5] at * <;> (try split) <;> omega
    · rintro ⟨h1, h2, h3⟩
      refine ⟨if (y % 4 = 0 ∧ (y % 100 ≠ 0 ∨ y % 400 = 0)) then 29 else 28, ?_, h1, ?_⟩
      · split
        · exact Or.inl ⟨‹_›, rfl⟩
        · exact Or.inr ⟨‹_›, rfl⟩
      · obtain ⟨k, rfl⟩ : ∃ k, mo = k + 1 := ⟨mo - 1, by omega⟩
        have hk : k = 0 ∨ k = 1 ∨ k = 2 ∨ k = 3 ∨ k = 4 ∨ k = 5 ∨ k = 6 ∨ k = 7 ∨ k = 8 ∨ k = 9 ∨
          k = 10 ∨ k = 11 := by omega
        unfold daysIn at h3
        rcases hk with rfl | rfl | rfl | rfl | rfl | rfl | rfl | rfl | rfl | rfl | rfl | rfl <;>
          simp [months] at h3 ⊢ <;> first | exact h3.symm | (rw [h3])
  unfold Stamp.ok RealStamp
  dsimp only
  constructor
  · rintro ⟨h1, h2, h3, h4, h5, h6, h7⟩
    obtain ⟨feb, hf, hm, hn⟩ := (key (daysIn y mo)).mpr ⟨h1, h2, rfl⟩
    exact ⟨⟨_, feb, hf, hm, hn, h3, h4⟩, by omega, by omega, by omega⟩
  · rintro ⟨⟨n, feb, hf, hm, hn, h3, h4⟩, h5, h6, h7⟩
    obtain ⟨h1, h2, rfl⟩ := (key n).mp ⟨feb, hf, hm, hn⟩
    exact ⟨h1, h2, h3, h4, by omega, by omega, by omega⟩

example : RealStamp ⟨2020, 2, 29, 12, 0, 0⟩ := (C18_dates _).mp (by decide)
example : ¬ RealStamp ⟨1900, 2, 29, 12, 0, 0⟩ := fun h => absurd ((C18_dates _).mpr h) (by decide)

example (unixOf) : Window unixOf "17:00:00 < time < 20:30:05".toList ⟨.betweenTimes, 73805, 61200⟩ :=
  .betweenTimes ⟨17, 0, 0⟩ ⟨20, 30, 5⟩ ⟨by decide, by decide, by decide⟩ ⟨by decide, by decide, by decide⟩ 1 1 1 1
example (unixOf : Stamp → Int) : Window unixOf "2020-02-29 12:00:00<datetime".toList ⟨.afterDateTime, 0, unixOf ⟨2020, 2, 29, 12, 0, 0⟩⟩ :=
  .afterDateTime ⟨2020, 2, 29, 12, 0, 0⟩ (by decide) (by decide) 0 0
example (unixOf) : nameToGroupData unixOf ("irods".toList ++ ':' :: decInt 12) = ("irods".toList, some (newCount 12)) :=
  C18_count unixOf _ 12 (by decide) (by decide) (by decide)
example : decInt (-12) = "-12".toList ∧ decInt 0 = "0".toList := by decide +kernel

end Verif.Limiter
