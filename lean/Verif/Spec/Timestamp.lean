/-!
Timestamps of YAML 1.1 (https://yaml.org/type/timestamp.html): the texts of the type and the times which they denote.
Blanks are spaces and tabs; blanks before a zone are allowed for `Z` and for offsets, as in the example
`2001-12-14 21:59:43.10 -5` of that page.
-/

namespace Verif.Timestamp

abbrev Text := List Char

/-- A time: civil date and clock with the offset of the location in seconds.  The instant is the civil time less the
offset. -/
structure Time where
  year : Int
  month : Nat
  day : Nat
  hour : Nat
  minute : Nat
  second : Nat
  nsec : Nat
  offset : Int
  deriving DecidableEq, Repr

namespace Yaml

/-- Decimal digits. -/
def Dig (c : Char) : Prop := '0' ≤ c ∧ c ≤ '9'

/-- The number written with digits. -/
def value : Text → Nat
  | [] => 0
  | c :: ds => (c.toNat - 48) * 10 ^ ds.length + value ds

/-- `n` digits with their number. -/
def Digits (n : Nat) (s : Text) (k : Nat) : Prop := s.length = n ∧ (∀ c ∈ s, Dig c) ∧ k = value s

instance {c : Char} : Decidable (Dig c) := by unfold Dig; infer_instance

instance {n : Nat} {s : Text} {k : Nat} : Decidable (Digits n s k) := by unfold Digits; infer_instance

/-- One digit or two. -/
def Short (s : Text) (k : Nat) : Prop := Digits 1 s k ∨ Digits 2 s k

/-- The number of days of a month in the Gregorian calendar. -/
def lastDay (y : Int) : Nat → Nat
  | 2 => if y % 400 = 0 ∨ (y % 4 = 0 ∧ y % 100 ≠ 0) then 29 else 28
  | 4 | 6 | 9 | 11 => 30
  | _ => 31

/-- The date and the clock exist. -/
def Valid (t : Time) : Prop :=
  1 ≤ t.month ∧ t.month ≤ 12 ∧ 1 ≤ t.day ∧ t.day ≤ lastDay t.year t.month ∧
    t.hour < 24 ∧ t.minute < 60 ∧ t.second < 60

instance {t : Time} : Decidable (Valid t) := by unfold Valid; infer_instance

/-- Whole nanoseconds of a decimal fraction with these digits. -/
def nanos (ds : Text) : Nat := value ds * 10 ^ 9 / 10 ^ ds.length

/-- The fraction of a second. -/
def Fraction (s : Text) (n : Nat) : Prop :=
  (s = [] ∧ n = 0) ∨ ∃ ds, s = '.' :: ds ∧ (∀ c ∈ ds, Dig c) ∧ n = nanos ds

/-- Blanks. -/
def Blanks (s : Text) : Prop := ∀ c ∈ s, c = ' ' ∨ c = '\t'

/-- What stands between date and clock. -/
def Sep (s : Text) : Prop := s = ['T'] ∨ s = ['t'] ∨ (s ≠ [] ∧ Blanks s)

/-- A sign with the offset of so many seconds. -/
def Signed (c : Char) (k : Nat) (o : Int) : Prop := (c = '+' ∧ o = k) ∨ (c = '-' ∧ o = -(k : Int))

/-- A zone with its offset in seconds; times without a zone are in UTC. -/
inductive Zone : Text → Int → Prop
  | none : Zone [] 0
  | utc {b : Text} (hb : Blanks b) : Zone (b ++ ['Z']) 0
  | hours {b hh : Text} {c : Char} {h : Nat} {o : Int} (hb : Blanks b) (hh' : Short hh h) (ho : Signed c (h * 3600) o) :
      Zone (b ++ c :: hh) o
  | minutes {b hh mm : Text} {c : Char} {h m : Nat} {o : Int} (hb : Blanks b) (hh' : Short hh h) (hm : Digits 2 mm m)
      (ho : Signed c (h * 3600 + m * 60) o) : Zone (b ++ c :: (hh ++ ':' :: mm)) o

/-- The texts of the type with their times. -/
inductive Stamp : Text → Time → Prop
  | date {y m d : Text} {t : Time} {yy : Nat} (hy : Digits 4 y yy) (hyy : t.year = yy) (hm : Digits 2 m t.month)
      (hd : Digits 2 d t.day) (h0 : t.hour = 0 ∧ t.minute = 0 ∧ t.second = 0 ∧ t.nsec = 0 ∧ t.offset = 0)
      (hv : Valid t) : Stamp (y ++ '-' :: (m ++ '-' :: d)) t
  | full {y m d sep h mi s fr z : Text} {t : Time} {yy : Nat} (hy : Digits 4 y yy) (hyy : t.year = yy)
      (hm : Short m t.month) (hd : Short d t.day) (hs : Sep sep) (hh : Short h t.hour) (hmi : Digits 2 mi t.minute)
      (hse : Digits 2 s t.second) (hf : Fraction fr t.nsec) (hz : Zone z t.offset) (hv : Valid t) :
      Stamp (y ++ '-' :: (m ++ '-' :: (d ++ (sep ++ (h ++ ':' :: (mi ++ ':' :: (s ++ (fr ++ z)))))))) t

end Yaml

end Verif.Timestamp
