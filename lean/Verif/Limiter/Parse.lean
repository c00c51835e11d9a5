import Verif.Limiter.Model
/-!
# Model of limit group name parsing (`/repo/limiter/group.go:51-198`)

Names are lists of characters.  The regular expressions are sequences of literal characters, `\d` and ` *`; the matcher
takes spaces greedily and never goes back, which is exact because ` *` is always followed by something that is not a space
(the theorems `C18_windows` and `C18_only` characterise what is accepted without reference to it).  `time.Parse` and `time.ParseInLocation` are modelled as the
range checks they make on the numbers (the regular expressions fix the shape); the conversion of a local date and time to
Unix seconds depends on the time zone and is a parameter `unixOf`.
-/
namespace Verif.Limiter

/-- elements of the regular expressions -/
inductive Pat where
  /-- a literal character -/
  | ch (c : Char)
  /-- ` *` -/
  | sp
  /-- `\d` -/
  | dig
  deriving DecidableEq, Repr

/-- `FindStringSubmatch` for an anchored expression: the digits, in order. -/
def pmatch : List Pat → List Char → Option (List Nat)
  | [], [] => some []
  | [], _ :: _ => none
  | .sp :: ps, xs => pmatch ps (xs.dropWhile (· = ' '))
  | .ch c :: ps, x :: xs => if x = c then pmatch ps xs else none
  | .dig :: ps, x :: xs => if x.isDigit then (pmatch ps xs).map ((x.toNat - 48) :: ·) else none
  | .ch _ :: _, [] => none
  | .dig :: _, [] => none

/-- `\d\d:\d\d:\d\d` -/
def timePat : List Pat := [.dig, .dig, .ch ':', .dig, .dig, .ch ':', .dig, .dig]
/-- `\d\d\d\d-\d\d-\d\d \d\d:\d\d:\d\d` -/
def dateTimePat : List Pat :=
  [.dig, .dig, .dig, .dig, .ch '-', .dig, .dig, .ch '-', .dig, .dig, .ch ' '] ++ timePat
/-- ` *< *` -/
def ltPat : List Pat := [.sp, .ch '<', .sp]
def timeWord : List Pat := "time".toList.map .ch
def dateTimeWord : List Pat := "datetime".toList.map .ch

/-- group.go:52-57, the six expressions. -/
def beforeTimePat := timeWord ++ ltPat ++ timePat
def afterTimePat := timePat ++ ltPat ++ timeWord
def betweenTimesPat := timePat ++ ltPat ++ timeWord ++ ltPat ++ timePat
def beforeDateTimePat := dateTimeWord ++ ltPat ++ dateTimePat
def afterDateTimePat := dateTimePat ++ ltPat ++ dateTimeWord
def betweenDateTimesPat := dateTimePat ++ ltPat ++ dateTimeWord ++ ltPat ++ dateTimePat

/-- group.go:90-97 `timeToSecs`, with `time.Parse(time.TimeOnly, …)`'s range checks. -/
def timeToSecs (h m s : Nat) : Option Int :=
  if h < 24 ∧ m < 60 ∧ s < 60 then some (h * 3600 + m * 60 + s) else none

/-- days of the month in Go's `time` package (`daysIn`). -/
def daysIn (y mo : Nat) : Nat :=
  if mo = 2 then (if y % 4 = 0 ∧ (y % 100 ≠ 0 ∨ y % 400 = 0) then 29 else 28)
  else if mo = 4 ∨ mo = 6 ∨ mo = 9 ∨ mo = 11 then 30 else 31

/-- a calendar date and time of day -/
structure Stamp where
  (year month day hour min sec : Nat)
  deriving DecidableEq, Repr

/-- what `time.ParseInLocation(time.DateTime, …)` accepts -/
def Stamp.ok (t : Stamp) : Prop :=
  1 ≤ t.month ∧ t.month ≤ 12 ∧ 1 ≤ t.day ∧ t.day ≤ daysIn t.year t.month ∧ t.hour < 24 ∧ t.min < 60 ∧ t.sec < 60
instance (t : Stamp) : Decidable t.ok := inferInstanceAs (Decidable (_ ∧ _))

/-- `time.ParseInLocation(time.DateTime, …)` and `Unix()` -/
def stampToUnix (unixOf : Stamp → Int) (t : Stamp) : Option Int := if t.ok then some (unixOf t) else none

def stampOf (a b c d e f g h i j k l m n : Nat) : Stamp :=
  ⟨1000 * a + 100 * b + 10 * c + d, 10 * e + f, 10 * g + h, 10 * i + j, 10 * k + l, 10 * m + n⟩

/-- strconv.ParseInt(s, 10, 64) (group.go:65): an optional sign, then at least one digit; out of range is an error. -/
def parseDigits : List Char → Option Nat
  | [] => none
  | cs => if cs.all (·.isDigit) then some (cs.foldl (fun acc c => 10 * acc + (c.toNat - 48)) 0) else none

def parseInt (cs : List Char) : Option Int :=
  match cs with
  | '-' :: ds => (parseDigits ds).bind fun n => if n ≤ 2 ^ 63 then some (-(n : Int)) else none
  | '+' :: ds => (parseDigits ds).bind fun n => if n < 2 ^ 63 then some (n : Int) else none
  | ds => (parseDigits ds).bind fun n => if n < 2 ^ 63 then some (n : Int) else none

/-- group.go:62-74 `countLimitParse` (a nil second value and the first value that goes with it are both dropped by the
caller). -/
def countLimitParse (name : List Char) : Option (List Char × GroupData) :=
  match name.dropWhile (· ≠ ':') with
  | [] => none
  | _ :: t => (parseInt t).map fun n => (name.takeWhile (· ≠ ':'), newCount n)

/-- group.go:76-88 -/
def beforeTimeLimitParse (name : List Char) : Option (List Char × GroupData) :=
  match pmatch beforeTimePat name with
  | some [a, b, c, d, e, f] => (timeToSecs (10 * a + b) (10 * c + d) (10 * e + f)).map fun t => (name, { mode := .beforeTime, limit := t })
  | _ => none
/-- group.go:99-111 -/
def afterTimeLimitParse (name : List Char) : Option (List Char × GroupData) :=
  match pmatch afterTimePat name with
  | some [a, b, c, d, e, f] => (timeToSecs (10 * a + b) (10 * c + d) (10 * e + f)).map fun t => (name, { mode := .afterTime, current := t })
  | _ => none
/-- group.go:113-130 -/
def betweenTimesLimitParse (name : List Char) : Option (List Char × GroupData) :=
  match pmatch betweenTimesPat name with
  | some [a, b, c, d, e, f, a', b', c', d', e', f'] =>
    (timeToSecs (10 * a + b) (10 * c + d) (10 * e + f)).bind fun t =>
    (timeToSecs (10 * a' + b') (10 * c' + d') (10 * e' + f')).map fun u => (name, { mode := .betweenTimes, current := t, limit := u })
  | _ => none
/-- group.go:132-144 -/
def beforeDateTimeLimitParse (unixOf : Stamp → Int) (name : List Char) : Option (List Char × GroupData) :=
  match pmatch beforeDateTimePat name with
  | some [a, b, c, d, e, f, g, h, i, j, k, l, m, n] =>
    (stampToUnix unixOf (stampOf a b c d e f g h i j k l m n)).map fun t => (name, { mode := .beforeDateTime, limit := t })
  | _ => none
/-- group.go:146-158 -/
def afterDateTimeLimitParse (unixOf : Stamp → Int) (name : List Char) : Option (List Char × GroupData) :=
  match pmatch afterDateTimePat name with
  | some [a, b, c, d, e, f, g, h, i, j, k, l, m, n] =>
    (stampToUnix unixOf (stampOf a b c d e f g h i j k l m n)).map fun t => (name, { mode := .afterDateTime, current := t })
  | _ => none
/-- group.go:160-177 -/
def betweenDateTimesLimitParse (unixOf : Stamp → Int) (name : List Char) : Option (List Char × GroupData) :=
  match pmatch betweenDateTimesPat name with
  | some [a, b, c, d, e, f, g, h, i, j, k, l, m, n, a', b', c', d', e', f', g', h', i', j', k', l', m', n'] =>
    (stampToUnix unixOf (stampOf a b c d e f g h i j k l m n)).bind fun t =>
    (stampToUnix unixOf (stampOf a' b' c' d' e' f' g' h' i' j' k' l' m' n')).map fun u =>
      (name, { mode := .betweenDateTimes, current := t, limit := u })
  | _ => none

/-- group.go:181-198 `NameToGroupData`; `none` is a nil `GroupData`. -/
def nameToGroupData (unixOf : Stamp → Int) (name : List Char) : List Char × Option GroupData :=
  match beforeTimeLimitParse name with
  | some (n, d) => (n, some d)
  | none => match afterTimeLimitParse name with
  | some (n, d) => (n, some d)
  | none => match betweenTimesLimitParse name with
  | some (n, d) => (n, some d)
  | none => match beforeDateTimeLimitParse unixOf name with
  | some (n, d) => (n, some d)
  | none => match afterDateTimeLimitParse unixOf name with
  | some (n, d) => (n, some d)
  | none => match betweenDateTimesLimitParse unixOf name with
  | some (n, d) => (n, some d)
  | none => match countLimitParse name with
  | some (n, d) => (n, some d)
  | none => (name, none)

end Verif.Limiter
