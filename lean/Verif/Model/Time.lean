import Verif.Model.Py
import Verif.Model.Float64
/-!
# Model of `timeparser.py`

Regular expressions are backtracking matchers: the list of all matches in the order in which Python's
`re` tries them, so that the first one is the match Python finds.  `\d` stands for all decimal digits of
Unicode; the table is a parameter (`Nd`) of which only the ASCII part is fixed.
-/
namespace Verif.Time
open Verif

/-- The decimal digits (Unicode category Nd) and their values. -/
structure Nd where
  val : Char → Option Nat
  ascii : ∀ c : Char, c.toNat < 128 → val c = digitVal c
  small : ∀ c d, val c = some d → d < 10

variable (U : Nd)

/-! ## Regular expressions -/

/-- All matches of a pattern at the start of a string: the value of its groups and the rest. -/
abbrev Re (α : Type) := Str → List (α × Str)

namespace Re
variable {α β : Type}

def done (a : α) : Re α := fun s => [(a, s)]

/-- Sequence -/
def seq (m : Re α) (f : α → Re β) : Re β := fun s => (m s).flatMap fun p => f p.1 p.2

/-- `(m|n)` -/
def alt (m n : Re α) : Re α := fun s => m s ++ n s

/-- `m?` as a group, greedy -/
def opt (m : Re α) : Re (Option α) := alt (seq m fun a => done (some a)) (done none)

/-- One character of a class -/
def cls (p : Char → Bool) : Re Char
  | [] => []
  | c :: r => if p c then [(c, r)] else []

/-- A literal character -/
def lit (x : Char) : Re Char := cls (· == x)

/-- `\d` -/
def digit : Re Char := cls fun c => (U.val c).isSome

/-- `\d+`, greedy -/
def digits : Re Str
  | [] => []
  | c :: r =>
    if (U.val c).isSome then ((digits r).map fun p => (c :: p.1, p.2)) ++ [([c], r)] else []

/-- `\d+X` -/
def unit (x : Char) : Re Str := seq (digits U) fun ds => seq (lit x) fun _ => done ds

/-- `\d+(?:,\d+)?S`: the digits before and after the comma -/
def seconds : Re (Str × Option Str) :=
  seq (digits U) fun ds => seq (opt (seq (lit ',') fun _ => digits U)) fun fr =>
    seq (lit 'S') fun _ => done (ds, fr)

end Re

/-- The six groups of `duration_matcher` (without the unit letters). -/
structure Parts where
  years : Option Str
  months : Option Str
  days : Option Str
  hours : Option Str
  minutes : Option Str
  seconds : Option (Str × Option Str)
  deriving DecidableEq, Repr

open Re in
/-- `^P(\d+Y)?(\d+M)?(\d+D)?(?:T(\d+H)?(\d+M)?(\d+(?:,\d+)?S)?)?`, timeparser.py:18 -/
def durationRe : Re Parts :=
  seq (lit 'P') fun _ => seq (opt (unit U 'Y')) fun y => seq (opt (unit U 'M')) fun m =>
  seq (opt (unit U 'D')) fun d =>
  seq (opt (seq (lit 'T') fun _ => seq (opt (unit U 'H')) fun h => seq (opt (unit U 'M')) fun n =>
    seq (opt (seconds U)) fun s => done (h, n, s))) fun t =>
  match t with
  | none => done ⟨y, m, d, none, none, none⟩
  | some (h, n, s) => done ⟨y, m, d, h, n, s⟩

/-- `$`: the end of the string, or a newline at its end -/
def atEnd (s : Str) : Bool := s == [] || s == ['\n']

/-- `duration_matcher.match(duration)`, timeparser.py:18 and 70 -/
def durationMatch (s : Str) : Option Parts :=
  (((durationRe U s).filter fun p => atEnd p.2).head?).map (·.1)

/-! ## Numbers -/

/-- Value of a string of digits. -/
def number (ds : Str) : Nat := ds.foldl (fun a c => a * 10 + (U.val c).getD 0) 0

/-- Python numbers as the parser uses them: integers and floats (`none` is infinity), not negative. -/
inductive Num where
  | int (n : Nat)
  | flt (x : Option Rat)
  deriving DecidableEq

/-- `clean`, timeparser.py:63-68, for a whole number: `float` rounds the exact value. -/
def clean (g : Option Str) : Num :=
  match g with
  | none => .int 0
  | some ds => .flt (F64.round (number U ds))

/-- The exact value of `n,n`. -/
def decimal (ds : Str) (fr : Option Str) : Rat :=
  match fr with
  | none => number U ds
  | some fs => (number U ds : Rat) + (number U fs : Rat) / ((10 ^ fs.length : Nat) : Rat)

/-- `clean`, timeparser.py:63-68, for the seconds (comma replaced by a point) -/
def cleanSeconds (g : Option (Str × Option Str)) : Num :=
  match g with
  | none => .int 0
  | some (ds, fr) => .flt (F64.round (decimal U ds fr))

/-- `a * k` for an integer `k` -/
def Num.mul (a : Num) (k : Nat) : Num :=
  match a with
  | .int n => .int (n * k)
  | .flt x => .flt (x.bind fun v => F64.round (v * k))

def Num.float : Num → Option Rat
  | .int n => F64.round n
  | .flt x => x

/-- `a + b` -/
def Num.add (a b : Num) : Num :=
  match a, b with
  | .int m, .int n => .int (m + n)
  | a, b => .flt (a.float.bind fun x => b.float.bind fun y => F64.round (x + y))

/-! ## timedelta

A `timedelta` is its number of microseconds. -/

abbrev Delta := Int

/-- `timedelta.days` -/
def Delta.days (d : Delta) : Int := d / 86400000000
/-- `timedelta.seconds` -/
def Delta.secs (d : Delta) : Nat := ((d % 86400000000) / 1000000).toNat
/-- `timedelta.microseconds` -/
def Delta.micros (d : Delta) : Nat := (d % 1000000).toNat

/-- CPython `_datetimemodule.c: accum`: adds `num * factor` microseconds; whole microseconds go to the
integer `x`, fractions to the float `left`. -/
def accum (acc : Nat × Rat) (num : Num) (factor : Nat) : Except Exc (Nat × Rat) :=
  match num with
  | .int n => .ok (acc.1 + n * factor, acc.2)
  | .flt none => .error .OverflowError
  | .flt (some d) =>
    let fr := d - d.floor
    let x := acc.1 + d.floor.toNat * factor
    if fr = 0 then .ok (x, acc.2)
    else match F64.round (factor * fr) with
      | none => .error .OverflowError
      | some p => match F64.round (acc.2 + (p - p.floor)) with
        | none => .error .OverflowError
        | some l => .ok (x + p.floor.toNat, l)

/-- C `round`: ties away from zero (not negative) -/
def cround (x : Rat) : Int := (x + 1 / 2).floor

/-- The rounding at the end of CPython `delta_new`: to nearest, ties to an even total. -/
def finish (x : Nat) (left : Rat) : Int :=
  if left = 0 then x
  else
    let whole := cround left
    if whole - left = 1 / 2 then
      let odd : Nat := x % 2
      (x : Int) + (2 * cround ((left + odd) / 2) - odd)
    else x + whole

/-- `timedelta` values lie below 10**9 days. -/
def limit : Int := 1000000000 * 86400000000

/-- `timedelta(days=…, hours=…, minutes=…, seconds=…)`, CPython `delta_new` -/
def timedelta (days hours minutes seconds : Num) : Except Exc Delta := do
  let a ← accum (0, 0) seconds 1000000
  let a ← accum a minutes 60000000
  let a ← accum a hours 3600000000
  let a ← accum a days 86400000000
  let us := finish a.1 a.2
  if us < limit then .ok us else .error .OverflowError

/-- `duration_parser`, timeparser.py:61-77 -/
def durationParser (s : Str) : Except Exc Delta :=
  match durationMatch U s with
  | none => .error .ValueError
  | some g =>
    let days := (((clean U g.years).mul 365).add ((clean U g.months).mul 30)).add (clean U g.days)
    timedelta days (clean U g.hours) (clean U g.minutes) (cleanSeconds U g.seconds)

/-- `%0wd` for a number that is not negative -/
def pad (w n : Nat) : Str := List.replicate (w - (natStr n).length) '0' ++ natStr n

/-- `int(n / k)`: a float division -/
def fdiv (n k : Nat) : Nat := match F64.round ((n : Rat) / k) with
  | some q => q.floor.toNat
  | none => 0

/-- `get_time`, timeparser.py:81-86 -/
def getTime (seconds : Nat) : Nat × Nat × Nat :=
  (fdiv seconds 3600, fdiv (seconds % 3600) 60, (seconds % 3600) % 60)

/-- `duration_to_string`, timeparser.py:79-97 -/
def durationToString (d : Delta) : Str :=
  let t := getTime d.secs
  (if d.days ≠ 0 then 'P' :: (intStr d.days ++ ['D']) else ['P']) ++
  ('T' :: (pad 2 t.1 ++ 'H' :: (pad 2 t.2.1 ++ 'M' :: pad 2 t.2.2))) ++
  (if 0 < d.micros then (',' :: pad 6 d.micros).take 5 ++ ['S'] else ['S'])

/-! ## Dates -/

/-- Days of a month (proleptic Gregorian calendar) -/
def monthDays (y m : Nat) : Nat :=
  if m = 2 then (if y % 4 = 0 ∧ (y % 100 ≠ 0 ∨ y % 400 = 0) then 29 else 28)
  else if m = 4 ∨ m = 6 ∨ m = 9 ∨ m = 11 then 30 else 31

structure Date where
  year : Nat
  month : Nat
  day : Nat
  deriving DecidableEq, Repr

/-- What the constructor `date` accepts. -/
def Date.ok (d : Date) : Bool :=
  1 ≤ d.year && d.year ≤ 9999 && 1 ≤ d.month && d.month ≤ 12 && 1 ≤ d.day && d.day ≤ monthDays d.year d.month

/-- Time of day of a `datetime` without time zone -/
structure Clock where
  hour : Nat
  minute : Nat
  second : Nat
  micro : Nat
  deriving DecidableEq, Repr

def Clock.ok (t : Clock) : Bool := t.hour < 24 && t.minute < 60 && t.second < 60 && t.micro < 1000000

def between (a b : Char) (c : Char) : Bool := a.toNat ≤ c.toNat && c.toNat ≤ b.toNat

namespace Re

def two (m n : Re Char) : Re Str := seq m fun a => seq n fun b => done [a, b]
def one (m : Re Char) : Re Str := seq m fun a => done [a]
def rng (a b : Char) : Re Char := cls (between a b)

/-! The patterns of `_strptime.TimeRE`. -/

/-- `\d\d\d\d` -/
def reY : Re Str := seq (two (digit U) (digit U)) fun a => seq (two (digit U) (digit U)) fun b => done (a ++ b)
/-- `1[0-2]|0[1-9]|[1-9]` -/
def rem : Re Str := alt (two (lit '1') (rng '0' '2')) (alt (two (lit '0') (rng '1' '9')) (one (rng '1' '9')))
/-- `3[0-1]|[1-2]\d|0[1-9]|[1-9]| [1-9]` -/
def red : Re Str := alt (two (lit '3') (rng '0' '1')) (alt (two (rng '1' '2') (digit U))
  (alt (two (lit '0') (rng '1' '9')) (alt (one (rng '1' '9')) (two (lit ' ') (rng '1' '9')))))
/-- `2[0-3]|[0-1]\d|\d` -/
def reH : Re Str := alt (two (lit '2') (rng '0' '3')) (alt (two (rng '0' '1') (digit U)) (one (digit U)))
/-- `[0-5]\d|\d` -/
def reM : Re Str := alt (two (rng '0' '5') (digit U)) (one (digit U))
/-- `6[0-1]|[0-5]\d|\d` -/
def reS : Re Str := alt (two (lit '6') (rng '0' '1')) (alt (two (rng '0' '5') (digit U)) (one (digit U)))

/-- DATE_FORMAT, timeparser.py:15 -/
def date : Re Date :=
  seq (reY U) fun y => seq (lit '-') fun _ => seq rem fun m => seq (lit '-') fun _ => seq (red U) fun d =>
    done ⟨number U y, number U m, number U d⟩

/-- DATETIME_FORMAT, timeparser.py:14; letters match in both cases -/
def datetime : Re (Date × Clock) :=
  seq (date U) fun d => seq (cls fun c => c == 'T' || c == 't') fun _ =>
  seq (reH U) fun h => seq (lit ':') fun _ => seq (reM U) fun m => seq (lit ':') fun _ => seq (reS U) fun s =>
    done (d, ⟨number U h, number U m, number U s, 0⟩)

end Re

/-- `datetime.strptime`: the first match has to be the whole text and the values have to be valid. -/
def strptime {α : Type} (re : Re α) (ok : α → Bool) (s : Str) : Except Exc α :=
  match (re s).head? with
  | none => .error .ValueError
  | some (a, rest) => if rest = [] ∧ ok a then .ok a else .error .ValueError

/-- The values of a `TimeParser` -/
inductive Value where
  | date (d : Date)
  | datetime (d : Date) (t : Clock)
  | duration (d : Delta)
  deriving DecidableEq

/-- `parse`, timeparser.py:38-47 -/
def parse (s : Str) : Except Exc Value :=
  if s.head? = some 'P' then (durationParser U s).map .duration
  else if 'T' ∈ s then (strptime (Re.datetime U) (fun p => p.1.ok && p.2.ok) s).map fun p => .datetime p.1 p.2
  else (strptime (Re.date U) Date.ok s).map .date

/-- `__str__`, timeparser.py:28-36.  `year` is `%Y` of the platform's `strftime` (with or without leading
zeros). -/
def toString (year : Nat → Str) : Value → Str
  | .date d => year d.year ++ '-' :: (pad 2 d.month ++ '-' :: pad 2 d.day)
  | .datetime d t => year d.year ++ '-' :: (pad 2 d.month ++ '-' :: (pad 2 d.day ++ 'T' ::
      (pad 2 t.hour ++ ':' :: (pad 2 t.minute ++ ':' :: pad 2 t.second))))
  | .duration d => durationToString d

/-- A `TimeParser` object -/
structure Parser where
  timestr : Str
  value : Value
  deriving DecidableEq

/-- `TimeParser(time)`, timeparser.py:20-26, of a string. -/
def Parser.ofStr (s : Str) : Except Exc Parser := (parse U s).map fun v => ⟨s, v⟩

/-- `TimeParser(time)`, timeparser.py:20-26, of a date, datetime or timedelta. -/
def Parser.ofValue (year : Nat → Str) (v : Value) : Parser := ⟨toString year v, v⟩

/-- `str(parser)`, timeparser.py:28-36 -/
def Parser.str (year : Nat → Str) (p : Parser) : Str := toString year p.value

/-- `is_date`, timeparser.py:49-51: `datetime` is a subclass of `date`. -/
def Parser.isDate (p : Parser) : Bool := match p.value with
  | .date _ => true
  | .datetime _ _ => true
  | .duration _ => false

/-- `has_time`, timeparser.py:53-55 -/
def Parser.hasTime (p : Parser) : Bool := match p.value with
  | .datetime _ _ => true
  | _ => false

/-- `is_duration`, timeparser.py:57-59 -/
def Parser.isDuration (p : Parser) : Bool := match p.value with
  | .duration _ => true
  | _ => false

end Verif.Time
