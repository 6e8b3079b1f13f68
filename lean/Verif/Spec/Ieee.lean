import Mathlib.Data.Rat.Defs
import Mathlib.Algebra.Order.Field.Rat
import Mathlib.Algebra.Order.Group.Abs

/-!
Magnitudes of the floats of IEEE 754: `m · 2 ^ e` with a bounded number `m` of `p` bits.  The first magnitude beyond the greatest
float (`2 ^ p` times the greatest power) is a point, too: what is nearest to it overflows.
-/

namespace Verif.Ieee

/-- The points of a format. -/
def Point (p : Nat) (lo hi : Int) (x : ℚ) : Prop :=
  ∃ (m : Nat) (e : Int), m ≤ 2 ^ p ∧ lo ≤ e ∧ e ≤ hi ∧ x = m * (2 : ℚ) ^ e

/-- Single precision. -/
def Single : ℚ → Prop := Point 24 (-149) 104

/-- Double precision. -/
def Double : ℚ → Prop := Point 53 (-1074) 971

/-- `d` is a point nearest to `q`. -/
def Nearest (P : ℚ → Prop) (q d : ℚ) : Prop := P d ∧ ∀ y, P y → |q - d| ≤ |q - y|

/-- `d` is the point nearest to `q`, and the only one. -/
def OnlyNearest (P : ℚ → Prop) (q d : ℚ) : Prop := P d ∧ ∀ y, P y → y ≠ d → |q - d| < |q - y|

end Verif.Ieee
