/-!
YAML 1.2 core schema, integers (YAML specification 10.3.2): which integer a plain text denotes.
Independent of the Go code and of `strconv`.
-/

namespace Verif.CoreSchema

/-- Value of a (decimal or hexadecimal) digit. -/
def digit (c : Char) : Nat :=
  if c.toNat ≤ 57 then c.toNat - 48 else if c.toNat ≤ 70 then c.toNat - 55 else c.toNat - 87

/-- Number denoted by a digit string. -/
def number (base : Nat) (ds : List Char) : Nat := ds.foldl (fun n c => n * base + digit c) 0

def IsDecDigit (c : Char) : Prop := c ∈ "0123456789".toList
def IsOctDigit (c : Char) : Prop := c ∈ "01234567".toList
def IsHexDigit (c : Char) : Prop := c ∈ "0123456789abcdefABCDEF".toList

instance (c : Char) : Decidable (IsDecDigit c) := by unfold IsDecDigit; infer_instance
instance (c : Char) : Decidable (IsOctDigit c) := by unfold IsOctDigit; infer_instance
instance (c : Char) : Decidable (IsHexDigit c) := by unfold IsHexDigit; infer_instance

/-- The text denotes the integer, according to the core schema:
`[-+]? [0-9]+`, `0o [0-7]+`, `0x [0-9a-fA-F]+`. -/
inductive Denotes : List Char → Int → Prop
  | dec (ds : List Char) (h : ds ≠ []) (hd : ∀ c ∈ ds, IsDecDigit c) : Denotes ds (number 10 ds)
  | plus (ds : List Char) (h : ds ≠ []) (hd : ∀ c ∈ ds, IsDecDigit c) :
      Denotes ('+' :: ds) (number 10 ds)
  | minus (ds : List Char) (h : ds ≠ []) (hd : ∀ c ∈ ds, IsDecDigit c) :
      Denotes ('-' :: ds) (-(number 10 ds : Int))
  | oct (ds : List Char) (h : ds ≠ []) (hd : ∀ c ∈ ds, IsOctDigit c) :
      Denotes ('0' :: 'o' :: ds) (number 8 ds)
  | hex (ds : List Char) (h : ds ≠ []) (hd : ∀ c ∈ ds, IsHexDigit c) :
      Denotes ('0' :: 'x' :: ds) (number 16 ds)

/-- A decimal text whose digits begin with a superfluous zero (`08`, `-010`). -/
def LeadingZero (s : List Char) : Prop :=
  ∃ c ds, IsDecDigit c ∧ (s = '0' :: c :: ds ∨ s = '+' :: '0' :: c :: ds ∨ s = '-' :: '0' :: c :: ds)

/-- The signed values of a bit size. -/
def InRange (bits : Nat) (v : Int) : Prop := -(2 ^ (bits - 1)) ≤ v ∧ v < 2 ^ (bits - 1)

instance (bits : Nat) (v : Int) : Decidable (InRange bits v) := by unfold InRange; infer_instance

/-- `[-+]?` -/
def Sign (s : List Char) : Prop := s = [] ∨ s = ['-'] ∨ s = ['+']

/-- `[0-9]*` -/
def Digits (s : List Char) : Prop := ∀ c ∈ s, IsDecDigit c

/-- `\. [0-9]+ | [0-9]+ ( \. [0-9]* )?` -/
inductive Mantissa : List Char → Prop
  | fraction (ds) (h : ds ≠ []) (hd : Digits ds) : Mantissa ('.' :: ds)
  | whole (ds) (h : ds ≠ []) (hd : Digits ds) : Mantissa ds
  | both (ds es) (h : ds ≠ []) (hd : Digits ds) (he : Digits es) : Mantissa (ds ++ '.' :: es)

/-- `( [eE] [-+]? [0-9]+ )?` -/
inductive Exponent : List Char → Prop
  | none : Exponent []
  | some (c sign ds) (hc : c = 'e' ∨ c = 'E') (hs : Sign sign) (h : ds ≠ []) (hd : Digits ds) :
      Exponent (c :: (sign ++ ds))

/-- Texts tagged as floats by the core schema (the last three lines of the table for numbers). -/
inductive FloatText : List Char → Prop
  | number (sign m e) (hs : Sign sign) (hm : Mantissa m) (he : Exponent e) : FloatText (sign ++ m ++ e)
  | infinity (sign i) (hs : Sign sign) (hi : i ∈ [".inf", ".Inf", ".INF"].map String.toList) : FloatText (sign ++ i)
  | nan (s) (h : s ∈ [".nan", ".NaN", ".NAN"].map String.toList) : FloatText s

/-- Texts tagged as null. -/
def NullText (s : List Char) : Prop := s ∈ ["null", "Null", "NULL", "~", ""].map String.toList

/-- Texts tagged as the given boolean. -/
def BoolText (s : List Char) : Bool → Prop
  | true => s ∈ ["true", "True", "TRUE"].map String.toList
  | false => s ∈ ["false", "False", "FALSE"].map String.toList

end Verif.CoreSchema
