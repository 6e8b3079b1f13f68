/-! Specification of proper nesting of brackets. -/

namespace Verif.Spec.Nesting

/-- `Nested pairs w`: the brackets in `w` are properly nested and closed.  `pairs` lists (opener, closer);
everything else in `w` is ignored. -/
inductive Nested {T : Type} (pairs : List (T × T)) : List T → Prop
  | nil : Nested pairs []
  | other (t : T) (w : List T) : (∀ p ∈ pairs, t ≠ p.1 ∧ t ≠ p.2) → Nested pairs w → Nested pairs (t :: w)
  | pair (o c : T) (w v : List T) : (o, c) ∈ pairs → Nested pairs w → Nested pairs v →
      Nested pairs (o :: w ++ c :: v)

/-- Openers and closers are different symbols and an opener has one closer. -/
structure Proper {T : Type} (pairs : List (T × T)) : Prop where
  disjoint : ∀ p ∈ pairs, ∀ q ∈ pairs, p.1 ≠ q.2
  functional : ∀ p ∈ pairs, ∀ q ∈ pairs, p.1 = q.1 → p.2 = q.2

end Verif.Spec.Nesting
