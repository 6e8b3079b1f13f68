import Verif.Model.Builder
import Verif.Model.Writer

/-! Model of `encode.go`: the encoder made of the builder and the writer of the yayamls engine. -/

namespace Verif.Encoder

open Verif.Ast Verif.Builder Verif.Writer

/-- encode.go:168-174 `EncodeToString` (and 176-182, 184-190, see `Verif.Props.Writer.variants_agree`): the outcome of
encoding what the builder `b` holds with the writer `w`.  It is a relation because the tree hangs in the heap. -/
inductive Encodes (b : Builder) (w : Writer) : Outcome → Prop
  | error {e} : (result b).1.2 = some e → Encodes b w .failed
  | nilTree : (result b).1 = (none, none) → Encodes b w .panicked
  | tree {a n} : (result b).1 = (some a, none) → Reads b.heap (fun _ => True) a n → Encodes b w (writeString w n).1

end Verif.Encoder
