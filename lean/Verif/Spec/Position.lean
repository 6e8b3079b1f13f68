import Verif.Model.Lexer

/-!
Row and column reached after reading a text: columns count runes since the last line break, a line break is
`CR LF`, `CR` or `LF`.
-/

namespace Verif.Spec.Position

open Verif.Lexer (Pos)

/-- The position of the last rune read, after reading a text from position `p`. -/
def advance (p : Pos) : List Char → Pos
  | [] => p
  | '\r' :: '\n' :: r => advance ⟨p.row + 1, 0⟩ r
  | '\r' :: r => advance ⟨p.row + 1, 0⟩ r
  | '\n' :: r => advance ⟨p.row + 1, 0⟩ r
  | _ :: r => advance ⟨p.row, p.col + 1⟩ r

/-- Position after the text from the beginning of the source (the first rune is in row 1, column 1). -/
def after (text : List Char) : Pos := advance ⟨1, 0⟩ text

/-- Reading order of positions. -/
def Before (p q : Pos) : Prop := p.row < q.row ∨ (p.row = q.row ∧ p.col < q.col)

instance (p q : Pos) : Decidable (Before p q) := by unfold Before; infer_instance

end Verif.Spec.Position
