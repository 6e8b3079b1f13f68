import Verif.Spec.CoreSchema

/-!
Values of float texts, YAML 1.2 core schema (10.3.2): a text denotes `± m · 10 ^ (x - k)` with the number `m` of its digits,
the number `k` of digits after the point and the exponent `x`.
-/

namespace Verif.FloatValue

open Verif.CoreSchema

/-- A sign; `true` is the minus. -/
inductive Signed : List Char → Bool → Prop
  | none : Signed [] false
  | plus : Signed ['+'] false
  | minus : Signed ['-'] true

/-- Digits with a point or without: their number, and how many follow the point. -/
inductive MantissaOf : List Char → Nat → Nat → Prop
  | fraction (ds) (h : ds ≠ []) (hd : Digits ds) : MantissaOf ('.' :: ds) (number 10 ds) ds.length
  | whole (ds) (h : ds ≠ []) (hd : Digits ds) : MantissaOf ds (number 10 ds) 0
  | both (ds es) (h : ds ≠ []) (hd : Digits ds) (he : Digits es) :
      MantissaOf (ds ++ '.' :: es) (number 10 (ds ++ es)) es.length

/-- The exponent. -/
inductive ExponentOf : List Char → Int → Prop
  | none : ExponentOf [] 0
  | some (c sign neg ds) (hc : c = 'e' ∨ c = 'E') (hs : Signed sign neg) (h : ds ≠ []) (hd : Digits ds) :
      ExponentOf (c :: (sign ++ ds)) (if neg then -(number 10 ds : Int) else number 10 ds)

/-- The text denotes the number `± m · 10 ^ (x - k)`. -/
inductive Number : List Char → Bool → Nat → Nat → Int → Prop
  | mk {sign mant ex : List Char} {neg : Bool} {m k : Nat} {x : Int} (hs : Signed sign neg) (hm : MantissaOf mant m k)
      (he : ExponentOf ex x) : Number (sign ++ mant ++ ex) neg m k x

end Verif.FloatValue
