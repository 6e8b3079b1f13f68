import Verif.Spec.Timestamp

/-!
Model of the timestamps of `engines/pkg/schema/schema.go` (156-191) with the part of the package `time` which they use
(`time.Parse` and `Time.Format` for the layouts of the table; `format.go` of Go 1.21, written from its documented and
published source, as a trusted description of the library).

A time is modelled by its civil date and clock in its location and by the offset of that location from UTC in seconds.
Every `time.Time` determines these (`Date`, `Clock`, `Nanosecond`, `Zone`); the instant is the civil time less the
offset.  The name of the location is not modelled.  `time.Parse` for a text with a zone takes the civil time of the
text for the civil time in a location with the offset of the text (`Date(..., UTC)`, `addSec(-offset)`,
`FixedZone(offset)`), which is why `parse` returns the fields as they were read.

Simplified: layouts are cut into their elements once and not again for each element; branches of the library which no
layout of the table reaches (names of months and days, years of two digits, clocks of twelve hours, days of the year)
are left out; the fast path `parseRFC3339` of `time.Parse`, which gives the same results where it succeeds, is left
out.  Strings are lists of characters instead of bytes: all texts which are accepted are ASCII.
-/

namespace Verif.Timestamp

/-- The elements of layouts, Go `time/format.go` `std…`. -/
inductive Std where
  | longYear | numMonth | zeroMonth | day | zeroDay | hour | minute | zeroMinute | second | zeroSecond
  /-- `.999…`, a fraction which may be left out -/
  | frac9
  /-- `Z07:00` -/
  | isoColonTZ
  /-- `-07:00` -/
  | numColonTZ
  deriving DecidableEq, Repr

/-- Go `isDigit` on a character. -/
def digit (c : Char) : Bool := decide ('0' ≤ c) && decide (c ≤ '9')

/-- The value of a digit. -/
def digitVal (c : Char) : Nat := c.toNat - '0'.toNat

/-- Go `time/format.go` `nextStdChunk`, the cases of the switch at one position of the layout; called for
schema.go:156-164. -/
def stdAt : List Char → Option (Std × List Char)
  | '0' :: '1' :: r => some (.zeroMonth, r)
  | '0' :: '2' :: r => some (.zeroDay, r)
  | '0' :: '4' :: r => some (.zeroMinute, r)
  | '0' :: '5' :: r => some (.zeroSecond, r)
  | '1' :: '5' :: r => some (.hour, r)
  | '1' :: r => some (.numMonth, r)
  | '2' :: '0' :: '0' :: '6' :: r => some (.longYear, r)
  | '2' :: r => some (.day, r)
  | '4' :: r => some (.minute, r)
  | '5' :: r => some (.second, r)
  | '-' :: '0' :: '7' :: ':' :: '0' :: '0' :: r => some (.numColonTZ, r)
  | 'Z' :: '0' :: '7' :: ':' :: '0' :: '0' :: r => some (.isoColonTZ, r)
  | '.' :: '9' :: r =>
    match r.dropWhile (· = '9') with
    | [] => some (.frac9, [])
    | c :: r' => if digit c then none else some (.frac9, c :: r')
  | _ => none

/-- Go `time/format.go` `nextStdChunk`: the text before the next element, the element, the rest. -/
def nextStdChunk : List Char → List Char × Option Std × List Char
  | [] => ([], none, [])
  | c :: cs =>
    match stdAt (c :: cs) with
    | some (s, r) => ([], some s, r)
    | none => let (p, s, r) := nextStdChunk cs; (c :: p, s, r)

/-- The elements of a layout with the texts before them, and the text after the last one; the calls of `nextStdChunk`
by the loop of Go `time/format.go` `parse`.  `f` bounds the number of elements. -/
def chunks : Nat → List Char → List (List Char × Std) × List Char
  | 0, l => ([], l)
  | f + 1, l =>
    match nextStdChunk l with
    | (p, none, _) => ([], p)
    | (p, some s, r) => let (cs, e) := chunks f r; ((p, s) :: cs, e)

/-- Go `time/format.go` `skip`, with `cutspace`. -/
def skip : List Char → List Char → Option (List Char)
  | v, [] => some v
  | v, p :: ps =>
    if p = ' ' then
      match v with
      | [] => skip [] (ps.dropWhile (· = ' '))
      | c :: v' => if c = ' ' then skip (v'.dropWhile (· = ' ')) (ps.dropWhile (· = ' ')) else none
    else
      match v with
      | [] => none
      | c :: v' => if c = p then skip v' ps else none
termination_by _ ps => ps.length
decreasing_by
  · have : (ps.dropWhile (· = ' ')).length ≤ ps.length := List.Sublist.length_le (List.dropWhile_sublist _)
    simp only [List.length_cons]; omega
  · have : (ps.dropWhile (· = ' ')).length ≤ ps.length := List.Sublist.length_le (List.dropWhile_sublist _)
    simp only [List.length_cons]; omega
  · simp

/-- Go `time/format.go` `getnum`. -/
def getnum (fixed : Bool) : List Char → Option (Nat × List Char)
  | [] => none
  | [a] => if digit a then (if fixed then none else some (digitVal a, [])) else none
  | a :: b :: r =>
    if digit a then
      if digit b then some (digitVal a * 10 + digitVal b, r)
      else if fixed then none else some (digitVal a, b :: r)
    else none

/-- The number written with digits, Go `time/format.go` `atoi`. -/
def number (ds : List Char) : Nat := ds.foldl (fun n c => n * 10 + digitVal c) 0

/-- Go `time/format.go` `parseNanoseconds` of the digits after the sign: nine digits count. -/
def nanoseconds (ds : List Char) : Nat := number (ds.take 9) * 10 ^ (9 - (ds.take 9).length)

/-- Go `time/format.go` `commaOrPeriod`. -/
def commaOrPeriod (c : Char) : Bool := decide (c = '.') || decide (c = ',')

/-- The digits of a fraction of a second at the beginning of the value: the loops of the cases `stdSecond` and
`stdFracSecond9` of Go `time/format.go` `parse`. -/
def fraction : List Char → Option (Nat × List Char)
  | c :: d :: r =>
    if commaOrPeriod c && digit d then
      some (nanoseconds (d :: r.takeWhile digit), r.dropWhile digit)
    else none
  | _ => none

/-- The variables of Go `time/format.go` `parse`: `month` and `day` begin with -1, replaced by 1 at the end; without
a zone the time is in UTC. -/
def start : Time := ⟨0, 1, 1, 0, 0, 0, 0, 0⟩

/-- Go `time/format.go` `parse`, the cases of the switch: the value of one element is read.  `frac` is set if the next
element of the layout is a fraction. -/
def item (frac : Bool) (t : Time) : Std → List Char → Option (Time × List Char)
  | .longYear, a :: b :: c :: d :: r =>
    if digit a && digit b && digit c && digit d then some ({ t with year := number [a, b, c, d] }, r) else none
  | .longYear, _ => none
  | .numMonth, v =>
    match getnum false v with
    | some (n, r) => if 0 < n ∧ n ≤ 12 then some ({ t with month := n }, r) else none
    | none => none
  | .zeroMonth, v =>
    match getnum true v with
    | some (n, r) => if 0 < n ∧ n ≤ 12 then some ({ t with month := n }, r) else none
    | none => none
  | .day, v =>
    match getnum false v with
    | some (n, r) => some ({ t with day := n }, r)
    | none => none
  | .zeroDay, v =>
    match getnum true v with
    | some (n, r) => some ({ t with day := n }, r)
    | none => none
  | .hour, v =>
    match getnum false v with
    | some (n, r) => if n < 24 then some ({ t with hour := n }, r) else none
    | none => none
  | .minute, v =>
    match getnum false v with
    | some (n, r) => if n < 60 then some ({ t with minute := n }, r) else none
    | none => none
  | .zeroMinute, v =>
    match getnum true v with
    | some (n, r) => if n < 60 then some ({ t with minute := n }, r) else none
    | none => none
  | .second, v =>
    match getnum false v with
    | some (n, r) => if n < 60 then some (fractional { t with second := n } r) else none
    | none => none
  | .zeroSecond, v =>
    match getnum true v with
    | some (n, r) => if n < 60 then some (fractional { t with second := n } r) else none
    | none => none
  | .frac9, v =>
    match fraction v with
    | some (n, r) => some ({ t with nsec := n }, r)
    | none => some (t, v)
  | .isoColonTZ, 'Z' :: r => some ({ t with offset := 0 }, r)
  | .isoColonTZ, v => zone v
  | .numColonTZ, v => zone v
where
  /-- A fraction which is in the value but not in the layout. -/
  fractional (t : Time) (r : List Char) : Time × List Char :=
    if frac then (t, r)
    else
      match fraction r with
      | some (n, r') => ({ t with nsec := n }, r')
      | none => (t, r)
  /-- The offset of a zone. -/
  zone : List Char → Option (Time × List Char)
    | s :: a :: b :: c :: d :: e :: r =>
      if c = ':' then
        match getnum true [a, b], getnum true [d, e] with
        | some (h, _), some (m, _) =>
          if h ≤ 24 ∧ m ≤ 60 then
            if s = '+' then some ({ t with offset := ((h * 60 + m) * 60 : Nat) }, r)
            else if s = '-' then some ({ t with offset := -((h * 60 + m) * 60 : Nat) }, r)
            else none
          else none
        | _, _ => none
      else none
    | _ => none

/-- If the next element of the layout is a fraction, Go `time/format.go` `parse`, case `stdSecond`. -/
def fracNext : List (List Char × Std) → Bool
  | (_, .frac9) :: _ => true
  | _ => false

/-- The loop of Go `time/format.go` `parse`; `e` is the text of the layout after its last element. -/
def run (e : List Char) : List (List Char × Std) → Time → List Char → Option Time
  | [], t, v =>
    match skip v e with
    | some [] => some t
    | _ => none
  | (p, s) :: cs, t, v =>
    match skip v p with
    | some v' =>
      match item (fracNext cs) t s v' with
      | some (t', r) => run e cs t' r
      | none => none
    | none => none

/-- Go `time/time.go` `isLeap`. -/
def isLeap (y : Int) : Bool := decide (y % 4 = 0) && (decide (y % 100 ≠ 0) || decide (y % 400 = 0))

/-- Go `time/time.go` `daysIn`. -/
def daysIn (m : Nat) (y : Int) : Nat :=
  if m = 2 then (if isLeap y then 29 else 28)
  else if m = 4 ∨ m = 6 ∨ m = 9 ∨ m = 11 then 30 else 31

/-- Go `time/format.go` `Parse`, `parse`: called by schema.go:169 and 185. -/
def parse (layout value : List Char) : Option Time :=
  let (cs, e) := chunks layout.length layout
  match run e cs start value with
  | some t => if 1 ≤ t.day ∧ t.day ≤ daysIn t.month t.year then some t else none
  | none => none

/-- schema.go:156-164 `timestampLayouts`, with the constants `time.RFC3339`, `time.RFC3339Nano` and `time.DateOnly`. -/
def timestampLayouts : List (List Char) :=
  ["2006-01-02T15:04:05Z07:00".toList,
   "2006-01-02T15:04:05.999999999Z07:00".toList,
   "2006-01-02".toList,
   "2006-1-2T15:4:5.999999999Z07:00".toList,
   "2001-1-2t15:4:5.999999999-07:00".toList,
   "2001-1-2 15:4:5.999999999".toList,
   "2001-1-2".toList]

/-- schema.go:167-175 `IsTimestamp`. -/
def isTimestamp (s : List Char) : Bool := timestampLayouts.any fun l => (parse l s).isSome

/-- schema.go:183-191 `ToTimestamp`; `none` is an error. -/
def toTimestamp (s : List Char) : Option Time := timestampLayouts.findSome? fun l => parse l s

/-- Go `time/format.go` `appendInt` of a number which is not negative: decimal digits, filled with zeros. -/
def padded (width n : Nat) : List Char :=
  let ds := Nat.toDigits 10 n
  List.replicate (width - ds.length) '0' ++ ds

/-- schema.go:178-180 `FromTimestamp`: Go `Time.Format(time.RFC3339)`, `time/format_rfc3339.go`
`appendFormatRFC3339` without fractions. -/
def fromTimestamp (t : Time) : List Char :=
  (if t.year < 0 then ['-'] else []) ++ padded 4 t.year.natAbs ++ '-' :: padded 2 t.month ++ '-' :: padded 2 t.day ++
  'T' :: padded 2 t.hour ++ ':' :: padded 2 t.minute ++ ':' :: padded 2 t.second ++
  if t.offset = 0 then ['Z']
  else
    let z := Int.tdiv t.offset 60
    (if z < 0 then '-' else '+') :: (padded 2 (z.natAbs / 60) ++ ':' :: padded 2 (z.natAbs % 60))

end Verif.Timestamp
