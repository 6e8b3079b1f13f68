/-!
Token types, token.go. The `Token` structure itself is in `Verif.Model.Lexer`.
-/

namespace Verif.Token

/-- engines/yayamls/token/token.go:12-70 `Type`. -/
inductive TokType where
  | unknown | sequenceEntry | mappingKey | mappingValue | collectEntry
  | sequenceStart | sequenceEnd | mappingStart | mappingEnd
  | comment | anchor | alias | tag | literal | folded | singleQuote | doubleQuote | directive
  | lineBreak | space | tab | bom | eof | documentEnd | directiveEnd | string
  | stripChomping | keepChomping
deriving DecidableEq, Repr, Inhabited

namespace TokType

/-- token.go:136-143 `IsWhiteSpace`. -/
def isWhiteSpace : TokType → Bool
  | space | tab => true
  | _ => false

/-- token.go:147-154 `IsNonBreak`. -/
def isNonBreak : TokType → Bool
  | bom | lineBreak | eof => false
  | _ => true

/-- token.go:157-164 `MayPrecedeWord`. -/
def mayPrecedeWord : TokType → Bool
  | space | tab | lineBreak | unknown => true
  | _ => false

/-- token.go:168-175 `IsOpeningFlowIndicator`. -/
def isOpeningFlowIndicator : TokType → Bool
  | mappingStart | sequenceStart | collectEntry => true
  | _ => false

/-- token.go:179-186 `IsClosingFlowIndicator`. -/
def isClosingFlowIndicator : TokType → Bool
  | mappingEnd | sequenceEnd | collectEntry => true
  | _ => false

end TokType

end Verif.Token
