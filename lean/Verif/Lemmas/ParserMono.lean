import Verif.Model.ParserDocs

/-!
More fuel does not change the outcome of the parser.
-/

set_option linter.unusedVariables false
set_option linter.unusedSectionVars false

namespace Verif.Parser

open Verif.Token Verif.Lexer Verif.Ast

variable {σ α β : Type}

/-- The outcome `x` was reached with less fuel than `y`. -/
def Le (x y : Res α) : Prop := x = .timeout ∨ x = y

/-- `m` has less fuel than `m'`. -/
def MLe (m m' : M σ α) : Prop := ∀ t, Le (m t) (m' t)

theorem MLe.refl (m : M σ α) : MLe m m := fun _ => .inr rfl

theorem MLe.fuel (m : M σ α) : MLe outOfFuel m := fun _ => .inl rfl

theorem MLe.bind {m m' : M σ α} {k k' : α → M σ β} (h : MLe m m') (hk : ∀ a, MLe (k a) (k' a)) :
    MLe (m >>= k) (m' >>= k') := by
  intro t
  show Le (M.bind m k t) (M.bind m' k' t)
  unfold M.bind
  rcases h t with h | h
  · rw [h]; exact .inl rfl
  · rw [h]
    cases m' t with
    | timeout => exact .inl rfl
    | panic => exact .inr rfl
    | ok r => exact hk r.1 r.2

theorem MLe.ite {c : Prop} [Decidable c] {m m' k k' : M σ α} (h : MLe m m') (hk : MLe k k') :
    MLe (if c then m else k) (if c then m' else k') := by
  split
  · exact h
  · exact hk

theorem MLe.attempt {v : α → Bool} {m m' : M σ α} (h : MLe m m') : MLe (attempt v m) (attempt v m') :=
  (MLe.refl _).bind fun _ => h.bind fun _ => MLe.refl _

theorem MLe.loop {f f' : Nat} (hf : f ≤ f') {body body' : α → M σ (Bool × α)} (h : ∀ x, MLe (body x) (body' x)) (x : α) :
    MLe (loop f body x) (loop f' body' x) := by
  induction f generalizing f' x with
  | zero => exact MLe.fuel _
  | succ f ih =>
    obtain ⟨g, rfl⟩ : ∃ g, f' = g + 1 := ⟨f' - 1, by omega⟩
    exact (h x).bind fun r => MLe.ite (ih (by omega) _) (MLe.refl _)

theorem MLe.tries {f f' : Nat} (hf : f ≤ f') {body body' : α → M σ (Bool × α)} (h : ∀ x, MLe (body x) (body' x)) (x : α) :
    MLe (tries f body x) (tries f' body' x) := MLe.loop hf (fun x => (h x).attempt) x

variable [TokenStream σ]

theorem skipWhile_mono {f f' : Nat} (hf : f ≤ f') (pred : Tok → Bool) :
    MLe (skipWhile f pred : M σ Unit) (skipWhile f' pred) := MLe.loop hf (fun _ => MLe.refl _) _

theorem takeWhile_mono {f f' : Nat} (hf : f ≤ f') (pred : Tok → Bool) (buf : Buf) :
    MLe (takeWhile f pred buf : M σ Buf) (takeWhile f' pred buf) := MLe.loop hf (fun _ => MLe.refl _) _

/-- One production has less fuel than the other one. -/
abbrev CLe (c c' : Content σ) : Prop := ∀ i x, MLe (c i x) (c' i x)

/-- The productions have less fuel. -/
structure CallsLe (c c' : Calls σ) : Prop where
  json : CLe c.json c'.json
  node : CLe c.node c'.node
  indented : CLe c.indented c'.indented

/-- One step of a proof that more fuel does not change the outcome. -/
macro "mono0" : tactic => `(tactic| first
  | with_reducible exact MLe.refl _
  | with_reducible assumption
  | with_reducible refine MLe.bind ?_ (fun _ => ?_)
  | with_reducible refine MLe.ite ?_ ?_
  | with_reducible refine MLe.attempt ?_
  | with_reducible refine MLe.tries ‹_› (fun _ => ?_) _
  | with_reducible refine MLe.loop ‹_› (fun _ => ?_) _
  | with_reducible exact skipWhile_mono ‹_› _
  | with_reducible exact takeWhile_mono ‹_› _ _
  | split
  | dsimp only)

theorem parseSeparateInLine_mono {f f' : Nat} (hf : f ≤ f') :
    MLe (parseSeparateInLine f : M σ Bool) (parseSeparateInLine f') := by
  unfold parseSeparateInLine
  repeat' first
  | mono0
  | (with_reducible intro _)

theorem parseCommentText_mono {f f' : Nat} (hf : f ≤ f') :
    MLe (parseCommentText f : M σ Bool) (parseCommentText f') := by
  unfold parseCommentText
  repeat' first
  | mono0
  | (with_reducible intro _)

theorem parseCommentLine_mono {f f' : Nat} (hf : f ≤ f') :
    MLe (parseCommentLine f : M σ Bool) (parseCommentLine f') := by
  unfold parseCommentLine
  repeat' first
  | with_reducible refine parseSeparateInLine_mono ‹_›
  | with_reducible refine parseCommentText_mono ‹_›
  | mono0
  | (with_reducible intro _)

theorem parseSeparatedComment_mono {f f' : Nat} (hf : f ≤ f') :
    MLe (parseSeparatedComment f : M σ Bool) (parseSeparatedComment f') := by
  unfold parseSeparatedComment
  repeat' first
  | with_reducible refine parseSeparateInLine_mono ‹_›
  | with_reducible refine parseCommentText_mono ‹_›
  | mono0
  | (with_reducible intro _)

theorem commentLines_mono {f f' : Nat} (hf : f ≤ f') :
    MLe (commentLines f : M σ Unit) (commentLines f') := by
  unfold commentLines
  repeat' first
  | with_reducible refine parseCommentLine_mono ‹_›
  | mono0
  | (with_reducible intro _)

theorem parseComments_mono {f f' : Nat} (hf : f ≤ f') :
    MLe (parseComments f : M σ Bool) (parseComments f') := by
  unfold parseComments
  repeat' first
  | with_reducible refine parseSeparatedComment_mono ‹_›
  | with_reducible refine commentLines_mono ‹_›
  | mono0
  | (with_reducible intro _)

theorem countSpaces_mono {f f' : Nat} (hf : f ≤ f') (n : Int) :
    MLe (countSpaces f n : M σ Int) (countSpaces f' n) := by
  unfold countSpaces
  repeat' first
  | mono0
  | (with_reducible intro _)

theorem parseIndentLowerBound_mono {f f' : Nat} (hf : f ≤ f') (lowerBound : Int) :
    MLe (parseIndentLowerBound f lowerBound : M σ (Option Int)) (parseIndentLowerBound f' lowerBound) := by
  unfold parseIndentLowerBound
  repeat' first
  | with_reducible refine countSpaces_mono ‹_› _
  | mono0
  | (with_reducible intro _)

theorem parseIndent_mono {f f' : Nat} (hf : f ≤ f') (ind : Ind) :
    MLe (parseIndent f ind : M σ (Bool × Ind)) (parseIndent f' ind) := by
  unfold parseIndent
  repeat' first
  | with_reducible refine parseIndentLowerBound_mono ‹_› _
  | mono0
  | (with_reducible intro _)

theorem parseFlowLinePrefix_mono {f f' : Nat} (hf : f ≤ f') (ind : Ind) :
    MLe (parseFlowLinePrefix f ind : M σ (Bool × Ind)) (parseFlowLinePrefix f' ind) := by
  unfold parseFlowLinePrefix
  repeat' first
  | with_reducible refine parseSeparateInLine_mono ‹_›
  | with_reducible refine parseIndent_mono ‹_› _
  | mono0
  | (with_reducible intro _)

theorem parseLinePrefix_mono {f f' : Nat} (hf : f ≤ f') (ind : Ind) (ctx : PCtx) :
    MLe (parseLinePrefix f ind ctx : M σ (Bool × Ind)) (parseLinePrefix f' ind ctx) := by
  unfold parseLinePrefix
  repeat' first
  | with_reducible refine parseIndent_mono ‹_› _
  | with_reducible refine parseFlowLinePrefix_mono ‹_› _
  | mono0
  | (with_reducible intro _)

theorem parseEmpty_mono {f f' : Nat} (hf : f ≤ f') (ind : Ind) (ctx : PCtx) (buf : Buf) :
    MLe (parseEmpty f ind ctx buf : M σ (Bool × Ind × Buf)) (parseEmpty f' ind ctx buf) := by
  unfold parseEmpty
  repeat' first
  | with_reducible refine parseLinePrefix_mono ‹_› _ _
  | mono0
  | (with_reducible intro _)

theorem parseSeparateLines_mono {f f' : Nat} (hf : f ≤ f') (ind : Ind) :
    MLe (parseSeparateLines f ind : M σ (Bool × Ind)) (parseSeparateLines f' ind) := by
  unfold parseSeparateLines
  repeat' first
  | with_reducible refine parseSeparateInLine_mono ‹_›
  | with_reducible refine parseComments_mono ‹_›
  | with_reducible refine parseFlowLinePrefix_mono ‹_› _
  | mono0
  | (with_reducible intro _)

theorem parseSeparate_mono {f f' : Nat} (hf : f ≤ f') (ind : Ind) (ctx : PCtx) :
    MLe (parseSeparate f ind ctx : M σ (Bool × Ind)) (parseSeparate f' ind ctx) := by
  unfold parseSeparate
  repeat' first
  | with_reducible refine parseSeparateInLine_mono ‹_›
  | with_reducible refine parseSeparateLines_mono ‹_› _
  | mono0
  | (with_reducible intro _)

theorem parseBlockHeader_mono {f f' : Nat} (hf : f ≤ f') :
    MLe (parseBlockHeader f : M σ (Option (Chomping × Int))) (parseBlockHeader f') := by
  unfold parseBlockHeader
  repeat' first
  | with_reducible refine parseSeparatedComment_mono ‹_›
  | mono0
  | (with_reducible intro _)

theorem parseProperties_mono {f f' : Nat} (hf : f ≤ f') (ind : Ind) (ctx : PCtx) :
    MLe (parseProperties f ind ctx : M σ (Node × Ind)) (parseProperties f' ind ctx) := by
  unfold parseProperties
  repeat' first
  | with_reducible refine parseSeparate_mono ‹_› _ _
  | mono0
  | (with_reducible intro _)

theorem empties_mono {f f' : Nat} (hf : f ≤ f') (ctx : PCtx) (x : Ind × Buf) :
    MLe (empties f ctx x : M σ (Ind × Buf)) (empties f' ctx x) := by
  unfold empties
  repeat' first
  | with_reducible refine parseEmpty_mono ‹_› _ _ _
  | mono0
  | (with_reducible intro _)

theorem parseTrimmed_mono {f f' : Nat} (hf : f ≤ f') (ind : Ind) (ctx : PCtx) (buf : Buf) :
    MLe (parseTrimmed f ind ctx buf : M σ (Bool × Ind × Buf)) (parseTrimmed f' ind ctx buf) := by
  unfold parseTrimmed
  repeat' first
  | with_reducible refine parseEmpty_mono ‹_› _ _ _
  | with_reducible refine empties_mono ‹_› _ _
  | mono0
  | (with_reducible intro _)

theorem parseFoldedLineBreak_mono {f f' : Nat} (hf : f ≤ f') (ind : Ind) (ctx : PCtx) (buf : Buf) :
    MLe (parseFoldedLineBreak f ind ctx buf : M σ (Bool × Ind × Buf)) (parseFoldedLineBreak f' ind ctx buf) := by
  unfold parseFoldedLineBreak
  repeat' first
  | with_reducible refine parseTrimmed_mono ‹_› _ _ _
  | mono0
  | (with_reducible intro _)

theorem parseFlowFolded_mono {f f' : Nat} (hf : f ≤ f') (ind : Ind) (buf : Buf) :
    MLe (parseFlowFolded f ind buf : M σ (Bool × Ind × Buf)) (parseFlowFolded f' ind buf) := by
  unfold parseFlowFolded
  repeat' first
  | with_reducible refine parseSeparateInLine_mono ‹_›
  | with_reducible refine parseFlowLinePrefix_mono ‹_› _
  | with_reducible refine parseFoldedLineBreak_mono ‹_› _ _ _
  | mono0
  | (with_reducible intro _)

theorem parsePlainInLine_mono {f f' : Nat} (hf : f ≤ f') (ctx : PCtx) (buf : Buf) :
    MLe (parsePlainInLine f ctx buf : M σ (Bool × Buf)) (parsePlainInLine f' ctx buf) := by
  unfold parsePlainInLine
  repeat' first
  | mono0
  | (with_reducible intro _)

theorem parsePlainOneLine_mono {f f' : Nat} (hf : f ≤ f') (ctx : PCtx) :
    MLe (parsePlainOneLine f ctx : M σ Node) (parsePlainOneLine f' ctx) := by
  unfold parsePlainOneLine
  repeat' first
  | with_reducible refine parsePlainInLine_mono ‹_› _ _
  | mono0
  | (with_reducible intro _)

theorem parsePlainNextLine_mono {f f' : Nat} (hf : f ≤ f') (ind : Ind) (ctx : PCtx) (buf : Buf) :
    MLe (parsePlainNextLine f ind ctx buf : M σ (Bool × Ind × Buf)) (parsePlainNextLine f' ind ctx buf) := by
  unfold parsePlainNextLine
  repeat' first
  | with_reducible refine parseFlowFolded_mono ‹_› _ _
  | with_reducible refine parsePlainInLine_mono ‹_› _ _
  | mono0
  | (with_reducible intro _)

theorem plainLines_mono {f f' : Nat} (hf : f ≤ f') (ctx : PCtx) (x : Ind × Buf) :
    MLe (plainLines f ctx x : M σ (Ind × Buf)) (plainLines f' ctx x) := by
  unfold plainLines
  repeat' first
  | with_reducible refine parsePlainNextLine_mono ‹_› _ _ _
  | mono0
  | (with_reducible intro _)

theorem parsePlainMultiLine_mono {f f' : Nat} (hf : f ≤ f') (ind : Ind) (ctx : PCtx) :
    MLe (parsePlainMultiLine f ind ctx : M σ (Node × Ind)) (parsePlainMultiLine f' ind ctx) := by
  unfold parsePlainMultiLine
  repeat' first
  | with_reducible refine parsePlainOneLine_mono ‹_› _
  | with_reducible refine plainLines_mono ‹_› _ _
  | mono0
  | (with_reducible intro _)

theorem parsePlain_mono {f f' : Nat} (hf : f ≤ f') (ind : Ind) (ctx : PCtx) :
    MLe (parsePlain f ind ctx : M σ (Node × Ind)) (parsePlain f' ind ctx) := by
  unfold parsePlain
  repeat' first
  | with_reducible refine parsePlainOneLine_mono ‹_› _
  | with_reducible refine parsePlainMultiLine_mono ‹_› _ _
  | mono0
  | (with_reducible intro _)

theorem parseQuotedOneLine_mono {f f' : Nat} (hf : f ≤ f') (cst : YamlChar.CharSet) (q : Quoting) :
    MLe (parseQuotedOneLine f cst q : M σ Node) (parseQuotedOneLine f' cst q) := by
  unfold parseQuotedOneLine
  repeat' first
  | mono0
  | (with_reducible intro _)

theorem parseDoubleEscaped_mono {f f' : Nat} (hf : f ≤ f') (ind : Ind) (buf : Buf) :
    MLe (parseDoubleEscaped f ind buf : M σ (Bool × Ind × Buf)) (parseDoubleEscaped f' ind buf) := by
  unfold parseDoubleEscaped
  repeat' first
  | with_reducible refine parseFlowLinePrefix_mono ‹_› _
  | with_reducible refine parseEmpty_mono ‹_› _ _ _
  | mono0
  | (with_reducible intro _)

theorem parseDoubleBreak_mono {f f' : Nat} (hf : f ≤ f') (ind : Ind) (buf : Buf) :
    MLe (parseDoubleBreak f ind buf : M σ (Bool × Ind × Buf)) (parseDoubleBreak f' ind buf) := by
  unfold parseDoubleBreak
  repeat' first
  | with_reducible refine parseFlowFolded_mono ‹_› _ _
  | with_reducible refine parseDoubleEscaped_mono ‹_› _ _
  | mono0
  | (with_reducible intro _)

theorem parseQuotedNextLine_mono {f f' n n' : Nat} (hf : f ≤ f') (hn : n ≤ n') (cst : YamlChar.CharSet)
    {brk brk' : Ind → Buf → M σ (Bool × Ind × Buf)} (hbrk : ∀ x0 x1, MLe (brk x0 x1) (brk' x0 x1)) (ind : Ind) (buf : Buf) :
    MLe (parseQuotedNextLine f cst brk n ind buf) (parseQuotedNextLine f' cst brk' n' ind buf) := by
  induction n generalizing n' ind buf with
  | zero => exact MLe.fuel _
  | succ n ih =>
    obtain ⟨g, rfl⟩ : ∃ g, n' = g + 1 := ⟨n' - 1, by omega⟩
    unfold parseQuotedNextLine
    repeat' first
    | exact hbrk _ _
    | with_reducible exact ih (Nat.le_of_succ_le_succ hn) _ _
    | mono0

theorem parseQuotedMultiLine_mono {f f' : Nat} (hf : f ≤ f') (cst : YamlChar.CharSet) {brk brk' : Ind → Buf → M σ (Bool × Ind × Buf)} (hbrk : ∀ x0 x1, MLe (brk x0 x1) (brk' x0 x1)) (q : Quoting) (ind : Ind) :
    MLe (parseQuotedMultiLine f cst brk q ind : M σ (Node × Ind)) (parseQuotedMultiLine f' cst brk' q ind) := by
  unfold parseQuotedMultiLine
  repeat' first
  | with_reducible exact parseQuotedNextLine_mono ‹_› ‹_› _ ‹_› _ _
  | mono0
  | exact hbrk _ _
  | (with_reducible intro _)

theorem parseQuotedText_mono {f f' : Nat} (hf : f ≤ f') (cst : YamlChar.CharSet) {brk brk' : Ind → Buf → M σ (Bool × Ind × Buf)} (hbrk : ∀ x0 x1, MLe (brk x0 x1) (brk' x0 x1)) (q : Quoting) (ind : Ind) (ctx : PCtx) :
    MLe (parseQuotedText f cst brk q ind ctx : M σ (Node × Ind)) (parseQuotedText f' cst brk' q ind ctx) := by
  unfold parseQuotedText
  repeat' first
  | with_reducible refine parseQuotedOneLine_mono ‹_› _ _
  | with_reducible refine parseQuotedMultiLine_mono ‹_› _ ?_ _ _
  | mono0
  | exact hbrk _ _
  | (with_reducible intro _)

theorem parseQuoted_mono {f f' : Nat} (hf : f ≤ f') (quote : TokType) (cst : YamlChar.CharSet) {brk brk' : Ind → Buf → M σ (Bool × Ind × Buf)} (hbrk : ∀ x0 x1, MLe (brk x0 x1) (brk' x0 x1)) (q : Quoting) (ind : Ind) (ctx : PCtx) :
    MLe (parseQuoted f quote cst brk q ind ctx : M σ (Node × Ind)) (parseQuoted f' quote cst brk' q ind ctx) := by
  unfold parseQuoted
  repeat' first
  | with_reducible refine parseQuotedText_mono ‹_› _ ?_ _ _ _
  | mono0
  | exact hbrk _ _
  | (with_reducible intro _)

theorem parseDoubleQuoted_mono {f f' : Nat} (hf : f ≤ f') (ind : Ind) (ctx : PCtx) :
    MLe (parseDoubleQuoted f ind ctx : M σ (Node × Ind)) (parseDoubleQuoted f' ind ctx) := by
  unfold parseDoubleQuoted
  repeat' first
  | with_reducible refine parseDoubleBreak_mono ‹_› _ _
  | with_reducible refine parseQuoted_mono ‹_› _ _ ?_ _ _ _
  | mono0
  | (with_reducible intro _)

theorem parseSingleQuoted_mono {f f' : Nat} (hf : f ≤ f') (ind : Ind) (ctx : PCtx) :
    MLe (parseSingleQuoted f ind ctx : M σ (Node × Ind)) (parseSingleQuoted f' ind ctx) := by
  unfold parseSingleQuoted
  repeat' first
  | with_reducible refine parseFlowFolded_mono ‹_› _ _
  | with_reducible refine parseQuoted_mono ‹_› _ _ ?_ _ _ _
  | mono0
  | (with_reducible intro _)

theorem optSeparate_mono {f f' : Nat} (hf : f ≤ f') (ind : Ind) (ctx : PCtx) :
    MLe (optSeparate f ind ctx : M σ Ind) (optSeparate f' ind ctx) := by
  unfold optSeparate
  repeat' first
  | with_reducible refine parseSeparate_mono ‹_› _ _
  | mono0
  | (with_reducible intro _)

theorem parseGenericFlowNode_mono {f f' : Nat} (hf : f ≤ f') (ind : Ind) (ctx : PCtx) {content content' : Content σ} (hcontent : CLe content content') :
    MLe (parseGenericFlowNode f ind ctx content : M σ (Node × Ind)) (parseGenericFlowNode f' ind ctx content') := by
  unfold parseGenericFlowNode
  repeat' first
  | with_reducible refine parseSeparate_mono ‹_› _ _
  | with_reducible refine parseProperties_mono ‹_› _ _
  | mono0
  | exact hcontent _ _
  | (with_reducible intro _)

theorem parseFlowContent_mono {f f' : Nat} (hf : f ≤ f') {json json' : Content σ} (hjson : CLe json json') (ind : Ind) (ctx : PCtx) :
    MLe (parseFlowContent f json ind ctx : M σ (Node × Ind)) (parseFlowContent f' json' ind ctx) := by
  unfold parseFlowContent
  repeat' first
  | with_reducible refine parsePlain_mono ‹_› _ _
  | mono0
  | exact hjson _ _
  | (with_reducible intro _)

theorem parseFlowNode_mono {f f' : Nat} (hf : f ≤ f') {json json' : Content σ} (hjson : CLe json json') (ind : Ind) (ctx : PCtx) :
    MLe (parseFlowNode f json ind ctx : M σ (Node × Ind)) (parseFlowNode f' json' ind ctx) := by
  unfold parseFlowNode
  repeat' first
  | with_reducible refine parseGenericFlowNode_mono ‹_› _ _ (by first | assumption | exact CallsLe.json ‹_›)
  | with_reducible refine parseGenericFlowNode_mono ‹_› _ _ (fun _ _ => ?_)
  | with_reducible refine parseFlowContent_mono ‹_› (by first | assumption | exact CallsLe.json ‹_›) _ _
  | with_reducible refine parseFlowContent_mono ‹_› (fun _ _ => ?_) _ _
  | mono0
  | exact hjson _ _
  | (with_reducible intro _)

theorem parseFlowYAMLNode_mono {f f' : Nat} (hf : f ≤ f') (ind : Ind) (ctx : PCtx) :
    MLe (parseFlowYAMLNode f ind ctx : M σ (Node × Ind)) (parseFlowYAMLNode f' ind ctx) := by
  unfold parseFlowYAMLNode
  repeat' first
  | with_reducible refine parsePlain_mono ‹_› _ _
  | with_reducible refine parseGenericFlowNode_mono ‹_› _ _ (by first | assumption | exact CallsLe.json ‹_›)
  | with_reducible refine parseGenericFlowNode_mono ‹_› _ _ (fun _ _ => ?_)
  | mono0
  | (with_reducible intro _)

theorem parseFlowJSONNode_mono {f f' : Nat} (hf : f ≤ f') {json json' : Content σ} (hjson : CLe json json') (ind : Ind) (ctx : PCtx) :
    MLe (parseFlowJSONNode f json ind ctx : M σ (Node × Ind)) (parseFlowJSONNode f' json' ind ctx) := by
  unfold parseFlowJSONNode
  repeat' first
  | with_reducible refine parseSeparate_mono ‹_› _ _
  | with_reducible refine parseProperties_mono ‹_› _ _
  | mono0
  | exact hjson _ _
  | (with_reducible intro _)

theorem parseImplicitYAMLKey_mono {f f' : Nat} (hf : f ≤ f') (ctx : PCtx) :
    MLe (parseImplicitYAMLKey f ctx : M σ Node) (parseImplicitYAMLKey f' ctx) := by
  unfold parseImplicitYAMLKey
  repeat' first
  | with_reducible refine parseSeparateInLine_mono ‹_›
  | with_reducible refine parseFlowYAMLNode_mono ‹_› _ _
  | mono0
  | (with_reducible intro _)

theorem parseImplicitJSONKey_mono {f f' : Nat} (hf : f ≤ f') {json json' : Content σ} (hjson : CLe json json') (ctx : PCtx) :
    MLe (parseImplicitJSONKey f json ctx : M σ Node) (parseImplicitJSONKey f' json' ctx) := by
  unfold parseImplicitJSONKey
  repeat' first
  | with_reducible refine parseSeparateInLine_mono ‹_›
  | with_reducible refine parseFlowJSONNode_mono ‹_› (by first | assumption | exact CallsLe.json ‹_›) _ _
  | with_reducible refine parseFlowJSONNode_mono ‹_› (fun _ _ => ?_) _ _
  | mono0
  | exact hjson _ _
  | (with_reducible intro _)

theorem parseFlowMappingSeparateValue_mono {f f' : Nat} (hf : f ≤ f') {json json' : Content σ} (hjson : CLe json json') (ind : Ind) (ctx : PCtx) :
    MLe (parseFlowMappingSeparateValue f json ind ctx : M σ (Node × Ind)) (parseFlowMappingSeparateValue f' json' ind ctx) := by
  unfold parseFlowMappingSeparateValue
  repeat' first
  | with_reducible refine parseSeparate_mono ‹_› _ _
  | with_reducible refine parseFlowNode_mono ‹_› (by first | assumption | exact CallsLe.json ‹_›) _ _
  | with_reducible refine parseFlowNode_mono ‹_› (fun _ _ => ?_) _ _
  | mono0
  | exact hjson _ _
  | (with_reducible intro _)

theorem parseFlowMappingAdjacentValue_mono {f f' : Nat} (hf : f ≤ f') {json json' : Content σ} (hjson : CLe json json') (ind : Ind) (ctx : PCtx) :
    MLe (parseFlowMappingAdjacentValue f json ind ctx : M σ (Node × Ind)) (parseFlowMappingAdjacentValue f' json' ind ctx) := by
  unfold parseFlowMappingAdjacentValue
  repeat' first
  | with_reducible refine optSeparate_mono ‹_› _ _
  | with_reducible refine parseFlowNode_mono ‹_› (by first | assumption | exact CallsLe.json ‹_›) _ _
  | with_reducible refine parseFlowNode_mono ‹_› (fun _ _ => ?_) _ _
  | mono0
  | exact hjson _ _
  | (with_reducible intro _)

theorem parseFlowMappingEmptyKeyEntry_mono {f f' : Nat} (hf : f ≤ f') {json json' : Content σ} (hjson : CLe json json') (ind : Ind) (ctx : PCtx) :
    MLe (parseFlowMappingEmptyKeyEntry f json ind ctx : M σ (Node × Ind)) (parseFlowMappingEmptyKeyEntry f' json' ind ctx) := by
  unfold parseFlowMappingEmptyKeyEntry
  repeat' first
  | with_reducible refine parseFlowMappingSeparateValue_mono ‹_› (by first | assumption | exact CallsLe.json ‹_›) _ _
  | with_reducible refine parseFlowMappingSeparateValue_mono ‹_› (fun _ _ => ?_) _ _
  | mono0
  | exact hjson _ _
  | (with_reducible intro _)

theorem parseFlowMappingYAMLKeyEntry_mono {f f' : Nat} (hf : f ≤ f') {json json' : Content σ} (hjson : CLe json json') (ind : Ind) (ctx : PCtx) :
    MLe (parseFlowMappingYAMLKeyEntry f json ind ctx : M σ (Node × Ind)) (parseFlowMappingYAMLKeyEntry f' json' ind ctx) := by
  unfold parseFlowMappingYAMLKeyEntry
  repeat' first
  | with_reducible refine optSeparate_mono ‹_› _ _
  | with_reducible refine parseFlowYAMLNode_mono ‹_› _ _
  | with_reducible refine parseFlowMappingSeparateValue_mono ‹_› (by first | assumption | exact CallsLe.json ‹_›) _ _
  | with_reducible refine parseFlowMappingSeparateValue_mono ‹_› (fun _ _ => ?_) _ _
  | mono0
  | exact hjson _ _
  | (with_reducible intro _)

theorem parseFlowMappingJSONKeyEntry_mono {f f' : Nat} (hf : f ≤ f') {json json' : Content σ} (hjson : CLe json json') (ind : Ind) (ctx : PCtx) :
    MLe (parseFlowMappingJSONKeyEntry f json ind ctx : M σ (Node × Ind)) (parseFlowMappingJSONKeyEntry f' json' ind ctx) := by
  unfold parseFlowMappingJSONKeyEntry
  repeat' first
  | with_reducible refine optSeparate_mono ‹_› _ _
  | with_reducible refine parseFlowJSONNode_mono ‹_› (by first | assumption | exact CallsLe.json ‹_›) _ _
  | with_reducible refine parseFlowJSONNode_mono ‹_› (fun _ _ => ?_) _ _
  | with_reducible refine parseFlowMappingAdjacentValue_mono ‹_› (by first | assumption | exact CallsLe.json ‹_›) _ _
  | with_reducible refine parseFlowMappingAdjacentValue_mono ‹_› (fun _ _ => ?_) _ _
  | mono0
  | exact hjson _ _
  | (with_reducible intro _)

theorem parseFlowMappingImplicitEntry_mono {f f' : Nat} (hf : f ≤ f') {json json' : Content σ} (hjson : CLe json json') (ind : Ind) (ctx : PCtx) :
    MLe (parseFlowMappingImplicitEntry f json ind ctx : M σ (Node × Ind)) (parseFlowMappingImplicitEntry f' json' ind ctx) := by
  unfold parseFlowMappingImplicitEntry
  repeat' first
  | with_reducible refine parseFlowMappingEmptyKeyEntry_mono ‹_› (by first | assumption | exact CallsLe.json ‹_›) _ _
  | with_reducible refine parseFlowMappingEmptyKeyEntry_mono ‹_› (fun _ _ => ?_) _ _
  | with_reducible refine parseFlowMappingYAMLKeyEntry_mono ‹_› (by first | assumption | exact CallsLe.json ‹_›) _ _
  | with_reducible refine parseFlowMappingYAMLKeyEntry_mono ‹_› (fun _ _ => ?_) _ _
  | with_reducible refine parseFlowMappingJSONKeyEntry_mono ‹_› (by first | assumption | exact CallsLe.json ‹_›) _ _
  | with_reducible refine parseFlowMappingJSONKeyEntry_mono ‹_› (fun _ _ => ?_) _ _
  | mono0
  | exact hjson _ _
  | (with_reducible intro _)

theorem parseFlowMappingExplicitEntry_mono {f f' : Nat} (hf : f ≤ f') {json json' : Content σ} (hjson : CLe json json') (ind : Ind) (ctx : PCtx) :
    MLe (parseFlowMappingExplicitEntry f json ind ctx : M σ (Node × Ind)) (parseFlowMappingExplicitEntry f' json' ind ctx) := by
  unfold parseFlowMappingExplicitEntry
  repeat' first
  | with_reducible refine parseFlowMappingImplicitEntry_mono ‹_› (by first | assumption | exact CallsLe.json ‹_›) _ _
  | with_reducible refine parseFlowMappingImplicitEntry_mono ‹_› (fun _ _ => ?_) _ _
  | mono0
  | exact hjson _ _
  | (with_reducible intro _)

theorem parseFlowMappingEntry_mono {f f' : Nat} (hf : f ≤ f') {json json' : Content σ} (hjson : CLe json json') (ind : Ind) (ctx : PCtx) :
    MLe (parseFlowMappingEntry f json ind ctx : M σ (Node × Ind)) (parseFlowMappingEntry f' json' ind ctx) := by
  unfold parseFlowMappingEntry
  repeat' first
  | with_reducible refine parseSeparate_mono ‹_› _ _
  | with_reducible refine parseFlowMappingImplicitEntry_mono ‹_› (by first | assumption | exact CallsLe.json ‹_›) _ _
  | with_reducible refine parseFlowMappingImplicitEntry_mono ‹_› (fun _ _ => ?_) _ _
  | with_reducible refine parseFlowMappingExplicitEntry_mono ‹_› (by first | assumption | exact CallsLe.json ‹_›) _ _
  | with_reducible refine parseFlowMappingExplicitEntry_mono ‹_› (fun _ _ => ?_) _ _
  | mono0
  | exact hjson _ _
  | (with_reducible intro _)

theorem flowMappingEntries_mono {f f' : Nat} (hf : f ≤ f') {json json' : Content σ} (hjson : CLe json json') (ctx : PCtx) (x : List Node × Ind) :
    MLe (flowMappingEntries f json ctx x : M σ (List Node × Ind)) (flowMappingEntries f' json' ctx x) := by
  unfold flowMappingEntries
  repeat' first
  | with_reducible refine optSeparate_mono ‹_› _ _
  | with_reducible refine parseFlowMappingEntry_mono ‹_› (by first | assumption | exact CallsLe.json ‹_›) _ _
  | with_reducible refine parseFlowMappingEntry_mono ‹_› (fun _ _ => ?_) _ _
  | mono0
  | exact hjson _ _
  | (with_reducible intro _)

theorem parseFlowMappingEntries_mono {f f' : Nat} (hf : f ≤ f') {json json' : Content σ} (hjson : CLe json json') (ind : Ind) (ctx : PCtx) :
    MLe (parseFlowMappingEntries f json ind ctx : M σ (Node × Ind)) (parseFlowMappingEntries f' json' ind ctx) := by
  unfold parseFlowMappingEntries
  repeat' first
  | with_reducible refine parseFlowMappingEntry_mono ‹_› (by first | assumption | exact CallsLe.json ‹_›) _ _
  | with_reducible refine parseFlowMappingEntry_mono ‹_› (fun _ _ => ?_) _ _
  | with_reducible refine flowMappingEntries_mono ‹_› (by first | assumption | exact CallsLe.json ‹_›) _ _
  | with_reducible refine flowMappingEntries_mono ‹_› (fun _ _ => ?_) _ _
  | mono0
  | exact hjson _ _
  | (with_reducible intro _)

theorem parseFlowMapping_mono {f f' : Nat} (hf : f ≤ f') {json json' : Content σ} (hjson : CLe json json') (ind : Ind) (ctx : PCtx) :
    MLe (parseFlowMapping f json ind ctx : M σ (Node × Ind)) (parseFlowMapping f' json' ind ctx) := by
  unfold parseFlowMapping
  repeat' first
  | with_reducible refine optSeparate_mono ‹_› _ _
  | with_reducible refine parseFlowMappingEntries_mono ‹_› (by first | assumption | exact CallsLe.json ‹_›) _ _
  | with_reducible refine parseFlowMappingEntries_mono ‹_› (fun _ _ => ?_) _ _
  | mono0
  | exact hjson _ _
  | (with_reducible intro _)

theorem parseFlowPairJSONKeyEntry_mono {f f' : Nat} (hf : f ≤ f') {json json' : Content σ} (hjson : CLe json json') (ind : Ind) (ctx : PCtx) :
    MLe (parseFlowPairJSONKeyEntry f json ind ctx : M σ (Node × Ind)) (parseFlowPairJSONKeyEntry f' json' ind ctx) := by
  unfold parseFlowPairJSONKeyEntry
  repeat' first
  | with_reducible refine parseImplicitJSONKey_mono ‹_› (by first | assumption | exact CallsLe.json ‹_›) _
  | with_reducible refine parseImplicitJSONKey_mono ‹_› (fun _ _ => ?_) _
  | with_reducible refine parseFlowMappingAdjacentValue_mono ‹_› (by first | assumption | exact CallsLe.json ‹_›) _ _
  | with_reducible refine parseFlowMappingAdjacentValue_mono ‹_› (fun _ _ => ?_) _ _
  | mono0
  | exact hjson _ _
  | (with_reducible intro _)

theorem parseFlowPairYAMLKeyEntry_mono {f f' : Nat} (hf : f ≤ f') {json json' : Content σ} (hjson : CLe json json') (ind : Ind) (ctx : PCtx) :
    MLe (parseFlowPairYAMLKeyEntry f json ind ctx : M σ (Node × Ind)) (parseFlowPairYAMLKeyEntry f' json' ind ctx) := by
  unfold parseFlowPairYAMLKeyEntry
  repeat' first
  | with_reducible refine parseImplicitYAMLKey_mono ‹_› _
  | with_reducible refine parseFlowMappingSeparateValue_mono ‹_› (by first | assumption | exact CallsLe.json ‹_›) _ _
  | with_reducible refine parseFlowMappingSeparateValue_mono ‹_› (fun _ _ => ?_) _ _
  | mono0
  | exact hjson _ _
  | (with_reducible intro _)

theorem parseFlowPairEntry_mono {f f' : Nat} (hf : f ≤ f') {json json' : Content σ} (hjson : CLe json json') (ind : Ind) (ctx : PCtx) :
    MLe (parseFlowPairEntry f json ind ctx : M σ (Node × Ind)) (parseFlowPairEntry f' json' ind ctx) := by
  unfold parseFlowPairEntry
  repeat' first
  | with_reducible refine parseFlowMappingEmptyKeyEntry_mono ‹_› (by first | assumption | exact CallsLe.json ‹_›) _ _
  | with_reducible refine parseFlowMappingEmptyKeyEntry_mono ‹_› (fun _ _ => ?_) _ _
  | with_reducible refine parseFlowPairJSONKeyEntry_mono ‹_› (by first | assumption | exact CallsLe.json ‹_›) _ _
  | with_reducible refine parseFlowPairJSONKeyEntry_mono ‹_› (fun _ _ => ?_) _ _
  | with_reducible refine parseFlowPairYAMLKeyEntry_mono ‹_› (by first | assumption | exact CallsLe.json ‹_›) _ _
  | with_reducible refine parseFlowPairYAMLKeyEntry_mono ‹_› (fun _ _ => ?_) _ _
  | mono0
  | exact hjson _ _
  | (with_reducible intro _)

theorem parseFlowPair_mono {f f' : Nat} (hf : f ≤ f') {json json' : Content σ} (hjson : CLe json json') (ind : Ind) (ctx : PCtx) :
    MLe (parseFlowPair f json ind ctx : M σ (Node × Ind)) (parseFlowPair f' json' ind ctx) := by
  unfold parseFlowPair
  repeat' first
  | with_reducible refine parseSeparate_mono ‹_› _ _
  | with_reducible refine parseFlowMappingExplicitEntry_mono ‹_› (by first | assumption | exact CallsLe.json ‹_›) _ _
  | with_reducible refine parseFlowMappingExplicitEntry_mono ‹_› (fun _ _ => ?_) _ _
  | with_reducible refine parseFlowPairEntry_mono ‹_› (by first | assumption | exact CallsLe.json ‹_›) _ _
  | with_reducible refine parseFlowPairEntry_mono ‹_› (fun _ _ => ?_) _ _
  | mono0
  | exact hjson _ _
  | (with_reducible intro _)

theorem parseFlowSequenceEntry_mono {f f' : Nat} (hf : f ≤ f') {json json' : Content σ} (hjson : CLe json json') (ind : Ind) (ctx : PCtx) :
    MLe (parseFlowSequenceEntry f json ind ctx : M σ (Node × Ind)) (parseFlowSequenceEntry f' json' ind ctx) := by
  unfold parseFlowSequenceEntry
  repeat' first
  | with_reducible refine parseFlowNode_mono ‹_› (by first | assumption | exact CallsLe.json ‹_›) _ _
  | with_reducible refine parseFlowNode_mono ‹_› (fun _ _ => ?_) _ _
  | with_reducible refine parseFlowPair_mono ‹_› (by first | assumption | exact CallsLe.json ‹_›) _ _
  | with_reducible refine parseFlowPair_mono ‹_› (fun _ _ => ?_) _ _
  | mono0
  | exact hjson _ _
  | (with_reducible intro _)

theorem flowSequenceEntries_mono {f f' : Nat} (hf : f ≤ f') {json json' : Content σ} (hjson : CLe json json') (ctx : PCtx) (x : List Node × Ind) :
    MLe (flowSequenceEntries f json ctx x : M σ (List Node × Ind)) (flowSequenceEntries f' json' ctx x) := by
  unfold flowSequenceEntries
  repeat' first
  | with_reducible refine optSeparate_mono ‹_› _ _
  | with_reducible refine parseFlowSequenceEntry_mono ‹_› (by first | assumption | exact CallsLe.json ‹_›) _ _
  | with_reducible refine parseFlowSequenceEntry_mono ‹_› (fun _ _ => ?_) _ _
  | mono0
  | exact hjson _ _
  | (with_reducible intro _)

theorem parseFlowSequenceEntries_mono {f f' : Nat} (hf : f ≤ f') {json json' : Content σ} (hjson : CLe json json') (ind : Ind) (ctx : PCtx) :
    MLe (parseFlowSequenceEntries f json ind ctx : M σ (Node × Ind)) (parseFlowSequenceEntries f' json' ind ctx) := by
  unfold parseFlowSequenceEntries
  repeat' first
  | with_reducible refine parseFlowSequenceEntry_mono ‹_› (by first | assumption | exact CallsLe.json ‹_›) _ _
  | with_reducible refine parseFlowSequenceEntry_mono ‹_› (fun _ _ => ?_) _ _
  | with_reducible refine flowSequenceEntries_mono ‹_› (by first | assumption | exact CallsLe.json ‹_›) _ _
  | with_reducible refine flowSequenceEntries_mono ‹_› (fun _ _ => ?_) _ _
  | mono0
  | exact hjson _ _
  | (with_reducible intro _)

theorem parseInFlow_mono {f f' : Nat} (hf : f ≤ f') {json json' : Content σ} (hjson : CLe json json') (ind : Ind) (ctx : PCtx) :
    MLe (parseInFlow f json ind ctx : M σ (Node × Ind)) (parseInFlow f' json' ind ctx) := by
  unfold parseInFlow
  repeat' first
  | with_reducible refine parseFlowSequenceEntries_mono ‹_› (by first | assumption | exact CallsLe.json ‹_›) _ _
  | with_reducible refine parseFlowSequenceEntries_mono ‹_› (fun _ _ => ?_) _ _
  | mono0
  | exact hjson _ _
  | (with_reducible intro _)

theorem parseFlowSequence_mono {f f' : Nat} (hf : f ≤ f') {json json' : Content σ} (hjson : CLe json json') (ind : Ind) (ctx : PCtx) :
    MLe (parseFlowSequence f json ind ctx : M σ (Node × Ind)) (parseFlowSequence f' json' ind ctx) := by
  unfold parseFlowSequence
  repeat' first
  | with_reducible refine optSeparate_mono ‹_› _ _
  | with_reducible refine parseInFlow_mono ‹_› (by first | assumption | exact CallsLe.json ‹_›) _ _
  | with_reducible refine parseInFlow_mono ‹_› (fun _ _ => ?_) _ _
  | mono0
  | exact hjson _ _
  | (with_reducible intro _)

theorem parseFlowJSONContent_mono {f f' : Nat} (hf : f ≤ f') {json json' : Content σ} (hjson : CLe json json') (ind : Ind) (ctx : PCtx) :
    MLe (parseFlowJSONContent f json ind ctx : M σ (Node × Ind)) (parseFlowJSONContent f' json' ind ctx) := by
  unfold parseFlowJSONContent
  repeat' first
  | with_reducible refine parseDoubleQuoted_mono ‹_› _ _
  | with_reducible refine parseSingleQuoted_mono ‹_› _ _
  | with_reducible refine parseFlowMapping_mono ‹_› (by first | assumption | exact CallsLe.json ‹_›) _ _
  | with_reducible refine parseFlowMapping_mono ‹_› (fun _ _ => ?_) _ _
  | with_reducible refine parseFlowSequence_mono ‹_› (by first | assumption | exact CallsLe.json ‹_›) _ _
  | with_reducible refine parseFlowSequence_mono ‹_› (fun _ _ => ?_) _ _
  | mono0
  | exact hjson _ _
  | (with_reducible intro _)

theorem parseFlowInBlock_mono {f f' : Nat} (hf : f ≤ f') {json json' : Content σ} (hjson : CLe json json') (ind : Ind) :
    MLe (parseFlowInBlock f json ind : M σ Node) (parseFlowInBlock f' json' ind) := by
  unfold parseFlowInBlock
  repeat' first
  | with_reducible refine parseComments_mono ‹_›
  | with_reducible refine parseSeparate_mono ‹_› _ _
  | with_reducible refine parseFlowNode_mono ‹_› (by first | assumption | exact CallsLe.json ‹_›) _ _
  | with_reducible refine parseFlowNode_mono ‹_› (fun _ _ => ?_) _ _
  | mono0
  | exact hjson _ _
  | (with_reducible intro _)

theorem rawLine_mono {f f' : Nat} (hf : f ≤ f') (buf : Buf) :
    MLe (rawLine f buf : M σ Buf) (rawLine f' buf) := by
  unfold rawLine
  repeat' first
  | mono0
  | (with_reducible intro _)

theorem parseLiteralText_mono {f f' : Nat} (hf : f ≤ f') (ind : Ind) (buf : Buf) :
    MLe (parseLiteralText f ind buf : M σ (Bool × Ind × Buf)) (parseLiteralText f' ind buf) := by
  unfold parseLiteralText
  repeat' first
  | with_reducible refine parseIndent_mono ‹_› _
  | with_reducible refine parseEmpty_mono ‹_› _ _ _
  | with_reducible refine rawLine_mono ‹_› _
  | mono0
  | (with_reducible intro _)

theorem parseLiteralNext_mono {f f' : Nat} (hf : f ≤ f') (ind : Ind) (buf : Buf) :
    MLe (parseLiteralNext f ind buf : M σ (Bool × Ind × Buf)) (parseLiteralNext f' ind buf) := by
  unfold parseLiteralNext
  repeat' first
  | with_reducible refine parseLiteralText_mono ‹_› _ _
  | mono0
  | (with_reducible intro _)

theorem parseTrailComments_mono {f f' : Nat} (hf : f ≤ f') (ind : Ind) :
    MLe (parseTrailComments f ind : M σ Bool) (parseTrailComments f' ind) := by
  unfold parseTrailComments
  repeat' first
  | with_reducible refine parseCommentText_mono ‹_›
  | with_reducible refine commentLines_mono ‹_›
  | mono0
  | (with_reducible intro _)

theorem parseStripEmpty_mono {f f' : Nat} (hf : f ≤ f') (ind : Ind) :
    MLe (parseStripEmpty f ind : M σ Bool) (parseStripEmpty f' ind) := by
  unfold parseStripEmpty
  repeat' first
  | with_reducible refine parseTrailComments_mono ‹_› _
  | mono0
  | (with_reducible intro _)

theorem parseKeepEmpty_mono {f f' : Nat} (hf : f ≤ f') (ind : Ind) (buf : Buf) :
    MLe (parseKeepEmpty f ind buf : M σ (Bool × Ind × Buf)) (parseKeepEmpty f' ind buf) := by
  unfold parseKeepEmpty
  repeat' first
  | with_reducible refine empties_mono ‹_› _ _
  | with_reducible refine parseTrailComments_mono ‹_› _
  | mono0
  | (with_reducible intro _)

theorem parseChompedEmpty_mono {f f' : Nat} (hf : f ≤ f') (ind : Ind) (chomping : Chomping) (buf : Buf) :
    MLe (parseChompedEmpty f ind chomping buf : M σ (Bool × Ind × Buf)) (parseChompedEmpty f' ind chomping buf) := by
  unfold parseChompedEmpty
  repeat' first
  | with_reducible refine parseStripEmpty_mono ‹_› _
  | with_reducible refine parseKeepEmpty_mono ‹_› _ _
  | mono0
  | (with_reducible intro _)

theorem literalLines_mono {f f' : Nat} (hf : f ≤ f') (x : Ind × Buf) :
    MLe (literalLines f x : M σ (Ind × Buf)) (literalLines f' x) := by
  unfold literalLines
  repeat' first
  | with_reducible refine parseLiteralNext_mono ‹_› _ _
  | mono0
  | (with_reducible intro _)

theorem parseLiteralContent_mono {f f' : Nat} (hf : f ≤ f') (ind : Ind) (chomping : Chomping) :
    MLe (parseLiteralContent f ind chomping : M σ Node) (parseLiteralContent f' ind chomping) := by
  unfold parseLiteralContent
  repeat' first
  | with_reducible refine parseLiteralText_mono ‹_› _ _
  | with_reducible refine parseChompedEmpty_mono ‹_› _ _ _
  | with_reducible refine literalLines_mono ‹_› _
  | mono0
  | (with_reducible intro _)

theorem parseLiteral_mono {f f' : Nat} (hf : f ≤ f') (ind : Ind) :
    MLe (parseLiteral f ind : M σ Node) (parseLiteral f' ind) := by
  unfold parseLiteral
  repeat' first
  | with_reducible refine parseBlockHeader_mono ‹_›
  | with_reducible refine parseLiteralContent_mono ‹_› _ _
  | mono0
  | (with_reducible intro _)

theorem parseFoldedText_mono {f f' : Nat} (hf : f ≤ f') (ind : Ind) (buf : Buf) :
    MLe (parseFoldedText f ind buf : M σ (Bool × Ind × Buf)) (parseFoldedText f' ind buf) := by
  unfold parseFoldedText
  repeat' first
  | with_reducible refine parseIndent_mono ‹_› _
  | with_reducible refine rawLine_mono ‹_› _
  | mono0
  | (with_reducible intro _)

theorem parseSpacedText_mono {f f' : Nat} (hf : f ≤ f') (ind : Ind) (buf : Buf) :
    MLe (parseSpacedText f ind buf : M σ (Bool × Ind × Buf)) (parseSpacedText f' ind buf) := by
  unfold parseSpacedText
  repeat' first
  | with_reducible refine parseIndent_mono ‹_› _
  | with_reducible refine rawLine_mono ‹_› _
  | mono0
  | (with_reducible intro _)

theorem parseSpacedLineBreak_mono {f f' : Nat} (hf : f ≤ f') (ind : Ind) (buf : Buf) :
    MLe (parseSpacedLineBreak f ind buf : M σ (Bool × Ind × Buf)) (parseSpacedLineBreak f' ind buf) := by
  unfold parseSpacedLineBreak
  repeat' first
  | with_reducible refine empties_mono ‹_› _ _
  | mono0
  | (with_reducible intro _)

theorem linesWith_mono {f f' : Nat} (hf : f ≤ f') {brk brk' : Ind → Buf → M σ (Bool × Ind × Buf)} (hbrk : ∀ x0 x1, MLe (brk x0 x1) (brk' x0 x1)) {line line' : Ind → Buf → M σ (Bool × Ind × Buf)} (hline : ∀ x0 x1, MLe (line x0 x1) (line' x0 x1)) (x : Ind × Buf) :
    MLe (linesWith f brk line x : M σ (Ind × Buf)) (linesWith f' brk' line' x) := by
  unfold linesWith
  repeat' first
  | mono0
  | exact hbrk _ _
  | exact hline _ _
  | (with_reducible intro _)

theorem parseSpacedLines_mono {f f' : Nat} (hf : f ≤ f') (ind : Ind) (buf : Buf) :
    MLe (parseSpacedLines f ind buf : M σ (Bool × Ind × Buf)) (parseSpacedLines f' ind buf) := by
  unfold parseSpacedLines
  repeat' first
  | with_reducible refine parseSpacedText_mono ‹_› _ _
  | with_reducible refine parseSpacedLineBreak_mono ‹_› _ _
  | with_reducible refine linesWith_mono ‹_› ?_ ?_ _
  | mono0
  | (with_reducible intro _)

theorem parseFoldedLines_mono {f f' : Nat} (hf : f ≤ f') (ind : Ind) (buf : Buf) :
    MLe (parseFoldedLines f ind buf : M σ (Bool × Ind × Buf)) (parseFoldedLines f' ind buf) := by
  unfold parseFoldedLines
  repeat' first
  | with_reducible refine parseFoldedLineBreak_mono ‹_› _ _ _
  | with_reducible refine parseFoldedText_mono ‹_› _ _
  | with_reducible refine linesWith_mono ‹_› ?_ ?_ _
  | mono0
  | (with_reducible intro _)

theorem parseSameLines_mono {f f' : Nat} (hf : f ≤ f') (ind : Ind) (buf : Buf) :
    MLe (parseSameLines f ind buf : M σ (Bool × Ind × Buf)) (parseSameLines f' ind buf) := by
  unfold parseSameLines
  repeat' first
  | with_reducible refine empties_mono ‹_› _ _
  | with_reducible refine parseSpacedLines_mono ‹_› _ _
  | with_reducible refine parseFoldedLines_mono ‹_› _ _
  | mono0
  | (with_reducible intro _)

theorem diffLines_mono {f f' : Nat} (hf : f ≤ f') (x : Ind × Buf) :
    MLe (diffLines f x : M σ (Ind × Buf)) (diffLines f' x) := by
  unfold diffLines
  repeat' first
  | with_reducible refine parseSameLines_mono ‹_› _ _
  | mono0
  | (with_reducible intro _)

theorem parseDiffLines_mono {f f' : Nat} (hf : f ≤ f') (ind : Ind) (buf : Buf) :
    MLe (parseDiffLines f ind buf : M σ (Bool × Ind × Buf)) (parseDiffLines f' ind buf) := by
  unfold parseDiffLines
  repeat' first
  | with_reducible refine parseSameLines_mono ‹_› _ _
  | with_reducible refine diffLines_mono ‹_› _
  | mono0
  | (with_reducible intro _)

theorem parseFoldedContent_mono {f f' : Nat} (hf : f ≤ f') (ind : Ind) (chomping : Chomping) :
    MLe (parseFoldedContent f ind chomping : M σ Node) (parseFoldedContent f' ind chomping) := by
  unfold parseFoldedContent
  repeat' first
  | with_reducible refine parseChompedEmpty_mono ‹_› _ _ _
  | with_reducible refine parseDiffLines_mono ‹_› _ _
  | mono0
  | (with_reducible intro _)

theorem parseFolded_mono {f f' : Nat} (hf : f ≤ f') (ind : Ind) :
    MLe (parseFolded f ind : M σ Node) (parseFolded f' ind) := by
  unfold parseFolded
  repeat' first
  | with_reducible refine parseBlockHeader_mono ‹_›
  | with_reducible refine parseFoldedContent_mono ‹_› _ _
  | mono0
  | (with_reducible intro _)

theorem parseBlockScalar_mono {f f' : Nat} (hf : f ≤ f') (ind : Ind) (ctx : PCtx) :
    MLe (parseBlockScalar f ind ctx : M σ (Node × Ind)) (parseBlockScalar f' ind ctx) := by
  unfold parseBlockScalar
  repeat' first
  | with_reducible refine parseSeparate_mono ‹_› _ _
  | with_reducible refine parseProperties_mono ‹_› _ _
  | with_reducible refine parseLiteral_mono ‹_› _
  | with_reducible refine parseFolded_mono ‹_› _
  | mono0
  | (with_reducible intro _)

theorem blockEntries_mono {f f' : Nat} (hf : f ≤ f') {entry entry' : Ind → M σ (Node × Ind)} (hentry : ∀ x0, MLe (entry x0) (entry' x0)) (x : List Node × Ind) :
    MLe (blockEntries f entry x : M σ (List Node × Ind)) (blockEntries f' entry' x) := by
  unfold blockEntries
  repeat' first
  | with_reducible refine parseIndent_mono ‹_› _
  | mono0
  | exact hentry _
  | (with_reducible intro _)

theorem parseBlockMappingExplicitKey_mono {c c' : Calls σ} (hc : CallsLe c c') (ind : Ind) :
    MLe (parseBlockMappingExplicitKey c ind) (parseBlockMappingExplicitKey c' ind) := by
  unfold parseBlockMappingExplicitKey
  repeat' first
  | exact hc.indented _ _
  | mono0

theorem parseBlockSequenceEntry_mono {c c' : Calls σ} (hc : CallsLe c c') (ind : Ind) :
    MLe (parseBlockSequenceEntry c ind) (parseBlockSequenceEntry c' ind) := by
  unfold parseBlockSequenceEntry
  repeat' first
  | exact hc.indented _ _
  | mono0

theorem parseBlockSequence_mono {f f' : Nat} (hf : f ≤ f') {c c' : Calls σ} (hc : CallsLe c c') (ind : Ind) :
    MLe (parseBlockSequence f c ind : M σ Node) (parseBlockSequence f' c' ind) := by
  unfold parseBlockSequence
  repeat' first
  | with_reducible refine parseIndent_mono ‹_› _
  | with_reducible refine blockEntries_mono ‹_› ?_ _
  | with_reducible exact parseBlockSequenceEntry_mono ‹_› _
  | mono0
  | exact hc.json _ _
  | exact hc.node _ _
  | exact hc.indented _ _
  | (with_reducible intro _)

theorem parseCompactSequence_mono {f f' : Nat} (hf : f ≤ f') {c c' : Calls σ} (hc : CallsLe c c') (ind : Ind) :
    MLe (parseCompactSequence f c ind : M σ (Node × Ind)) (parseCompactSequence f' c' ind) := by
  unfold parseCompactSequence
  repeat' first
  | with_reducible refine blockEntries_mono ‹_› ?_ _
  | with_reducible exact parseBlockSequenceEntry_mono ‹_› _
  | mono0
  | exact hc.json _ _
  | exact hc.node _ _
  | exact hc.indented _ _
  | (with_reducible intro _)

theorem parseSeqSpace_mono {f f' : Nat} (hf : f ≤ f') {c c' : Calls σ} (hc : CallsLe c c') (ind : Ind) (ctx : PCtx) :
    MLe (parseSeqSpace f c ind ctx : M σ Node) (parseSeqSpace f' c' ind ctx) := by
  unfold parseSeqSpace
  repeat' first
  | with_reducible refine parseBlockSequence_mono ‹_› ‹_› _
  | mono0
  | exact hc.json _ _
  | exact hc.node _ _
  | exact hc.indented _ _
  | (with_reducible intro _)

theorem parseBlockMappingExplicitValue_mono {f f' : Nat} (hf : f ≤ f') {c c' : Calls σ} (hc : CallsLe c c') (ind : Ind) :
    MLe (parseBlockMappingExplicitValue f c ind : M σ (Node × Ind)) (parseBlockMappingExplicitValue f' c' ind) := by
  unfold parseBlockMappingExplicitValue
  repeat' first
  | with_reducible refine parseIndent_mono ‹_› _
  | mono0
  | exact hc.json _ _
  | exact hc.node _ _
  | exact hc.indented _ _
  | (with_reducible intro _)

theorem parseBlockMappingExplicitEntry_mono {f f' : Nat} (hf : f ≤ f') {c c' : Calls σ} (hc : CallsLe c c') (ind : Ind) :
    MLe (parseBlockMappingExplicitEntry f c ind : M σ (Node × Ind)) (parseBlockMappingExplicitEntry f' c' ind) := by
  unfold parseBlockMappingExplicitEntry
  repeat' first
  | with_reducible refine parseBlockMappingExplicitValue_mono ‹_› ‹_› _
  | with_reducible exact parseBlockMappingExplicitKey_mono ‹_› _
  | mono0
  | exact hc.json _ _
  | exact hc.node _ _
  | exact hc.indented _ _
  | (with_reducible intro _)

theorem parseBlockMappingImplicitKey_mono {f f' : Nat} (hf : f ≤ f') {c c' : Calls σ} (hc : CallsLe c c') :
    MLe (parseBlockMappingImplicitKey f c : M σ Node) (parseBlockMappingImplicitKey f' c') := by
  unfold parseBlockMappingImplicitKey
  repeat' first
  | with_reducible refine parseImplicitYAMLKey_mono ‹_› _
  | with_reducible refine parseImplicitJSONKey_mono ‹_› (by first | assumption | exact CallsLe.json ‹_›) _
  | with_reducible refine parseImplicitJSONKey_mono ‹_› (fun _ _ => ?_) _
  | mono0
  | exact hc.json _ _
  | exact hc.node _ _
  | exact hc.indented _ _
  | (with_reducible intro _)

theorem parseBlockMappingImplicitValue_mono {f f' : Nat} (hf : f ≤ f') {c c' : Calls σ} (hc : CallsLe c c') (ind : Ind) :
    MLe (parseBlockMappingImplicitValue f c ind : M σ (Node × Ind)) (parseBlockMappingImplicitValue f' c' ind) := by
  unfold parseBlockMappingImplicitValue
  repeat' first
  | with_reducible refine parseComments_mono ‹_›
  | mono0
  | exact hc.json _ _
  | exact hc.node _ _
  | exact hc.indented _ _
  | (with_reducible intro _)

theorem parseBlockMappingImplicitEntry_mono {f f' : Nat} (hf : f ≤ f') {c c' : Calls σ} (hc : CallsLe c c') (ind : Ind) :
    MLe (parseBlockMappingImplicitEntry f c ind : M σ (Node × Ind)) (parseBlockMappingImplicitEntry f' c' ind) := by
  unfold parseBlockMappingImplicitEntry
  repeat' first
  | with_reducible refine parseBlockMappingImplicitKey_mono ‹_› ‹_›
  | with_reducible refine parseBlockMappingImplicitValue_mono ‹_› ‹_› _
  | mono0
  | exact hc.json _ _
  | exact hc.node _ _
  | exact hc.indented _ _
  | (with_reducible intro _)

theorem parseBlockMappingEntry_mono {f f' : Nat} (hf : f ≤ f') {c c' : Calls σ} (hc : CallsLe c c') (ind : Ind) :
    MLe (parseBlockMappingEntry f c ind : M σ (Node × Ind)) (parseBlockMappingEntry f' c' ind) := by
  unfold parseBlockMappingEntry
  repeat' first
  | with_reducible refine parseBlockMappingExplicitEntry_mono ‹_› ‹_› _
  | with_reducible refine parseBlockMappingImplicitEntry_mono ‹_› ‹_› _
  | mono0
  | exact hc.json _ _
  | exact hc.node _ _
  | exact hc.indented _ _
  | (with_reducible intro _)

theorem parseBlockMapping_mono {f f' : Nat} (hf : f ≤ f') {c c' : Calls σ} (hc : CallsLe c c') (ind : Ind) :
    MLe (parseBlockMapping f c ind : M σ Node) (parseBlockMapping f' c' ind) := by
  unfold parseBlockMapping
  repeat' first
  | with_reducible refine parseIndent_mono ‹_› _
  | with_reducible refine blockEntries_mono ‹_› ?_ _
  | with_reducible refine parseBlockMappingEntry_mono ‹_› ‹_› _
  | mono0
  | exact hc.json _ _
  | exact hc.node _ _
  | exact hc.indented _ _
  | (with_reducible intro _)

theorem parseCompactMapping_mono {f f' : Nat} (hf : f ≤ f') {c c' : Calls σ} (hc : CallsLe c c') (ind : Ind) :
    MLe (parseCompactMapping f c ind : M σ (Node × Ind)) (parseCompactMapping f' c' ind) := by
  unfold parseCompactMapping
  repeat' first
  | with_reducible refine blockEntries_mono ‹_› ?_ _
  | with_reducible refine parseBlockMappingEntry_mono ‹_› ‹_› _
  | mono0
  | exact hc.json _ _
  | exact hc.node _ _
  | exact hc.indented _ _
  | (with_reducible intro _)

theorem parseBlockCollection_mono {f f' : Nat} (hf : f ≤ f') {c c' : Calls σ} (hc : CallsLe c c') (ind : Ind) (ctx : PCtx) :
    MLe (parseBlockCollection f c ind ctx : M σ (Node × Ind)) (parseBlockCollection f' c' ind ctx) := by
  unfold parseBlockCollection
  repeat' first
  | with_reducible refine parseComments_mono ‹_›
  | with_reducible refine parseSeparate_mono ‹_› _ _
  | with_reducible refine parseProperties_mono ‹_› _ _
  | with_reducible refine parseSeqSpace_mono ‹_› ‹_› _ _
  | with_reducible refine parseBlockMapping_mono ‹_› ‹_› _
  | mono0
  | exact hc.json _ _
  | exact hc.node _ _
  | exact hc.indented _ _
  | (with_reducible intro _)

theorem parseBlockInBlock_mono {f f' : Nat} (hf : f ≤ f') {c c' : Calls σ} (hc : CallsLe c c') (ind : Ind) (ctx : PCtx) :
    MLe (parseBlockInBlock f c ind ctx : M σ (Node × Ind)) (parseBlockInBlock f' c' ind ctx) := by
  unfold parseBlockInBlock
  repeat' first
  | with_reducible refine parseBlockScalar_mono ‹_› _ _
  | with_reducible refine parseBlockCollection_mono ‹_› ‹_› _ _
  | mono0
  | exact hc.json _ _
  | exact hc.node _ _
  | exact hc.indented _ _
  | (with_reducible intro _)

theorem parseBlockNode_mono {f f' : Nat} (hf : f ≤ f') {c c' : Calls σ} (hc : CallsLe c c') (ind : Ind) (ctx : PCtx) :
    MLe (parseBlockNode f c ind ctx : M σ (Node × Ind)) (parseBlockNode f' c' ind ctx) := by
  unfold parseBlockNode
  repeat' first
  | with_reducible refine parseFlowInBlock_mono ‹_› (by first | assumption | exact CallsLe.json ‹_›) _
  | with_reducible refine parseFlowInBlock_mono ‹_› (fun _ _ => ?_) _
  | with_reducible refine parseBlockInBlock_mono ‹_› ‹_› _ _
  | mono0
  | exact hc.json _ _
  | exact hc.node _ _
  | exact hc.indented _ _
  | (with_reducible intro _)

theorem parseBlockIndented_mono {f f' : Nat} (hf : f ≤ f') {c c' : Calls σ} (hc : CallsLe c c') (ind : Ind) (ctx : PCtx) :
    MLe (parseBlockIndented f c ind ctx : M σ (Node × Ind)) (parseBlockIndented f' c' ind ctx) := by
  unfold parseBlockIndented
  repeat' first
  | with_reducible refine parseComments_mono ‹_›
  | with_reducible refine parseIndent_mono ‹_› _
  | with_reducible refine parseCompactSequence_mono ‹_› ‹_› _
  | with_reducible refine parseCompactMapping_mono ‹_› ‹_› _
  | with_reducible refine parseBlockNode_mono ‹_› ‹_› _ _
  | mono0
  | exact hc.json _ _
  | exact hc.node _ _
  | exact hc.indented _ _
  | (with_reducible intro _)

theorem calls_mono {f f' : Nat} (hf : f ≤ f') : CallsLe (calls f : Calls σ) (calls f') := by
  induction f generalizing f' with
  | zero => exact ⟨fun _ _ => MLe.fuel _, fun _ _ => MLe.fuel _, fun _ _ => MLe.fuel _⟩
  | succ f ih =>
    obtain ⟨g, rfl⟩ : ∃ g, f' = g + 1 := ⟨f' - 1, by omega⟩
    have h := ih (f' := g) (by omega)
    have hg : f ≤ g := by omega
    exact ⟨fun i x => parseFlowJSONContent_mono hg h.json i x, fun i x => parseBlockNode_mono hg h i x,
      fun i x => parseBlockIndented_mono hg h i x⟩

theorem parseBareDocument_mono {f f' : Nat} (hf : f ≤ f') :
    MLe (parseBareDocument f : M σ Node) (parseBareDocument f') := by
  unfold parseBareDocument
  repeat' first
  | mono0
  | exact (calls_mono hf).node _ _
  | intro _

theorem parseReservedDirective_mono {f f' : Nat} (hf : f ≤ f') :
    MLe (parseReservedDirective f : M σ Bool) (parseReservedDirective f') := by
  unfold parseReservedDirective
  repeat' first
  | with_reducible refine parseSeparateInLine_mono ‹_›
  | mono0
  | (with_reducible intro _)

theorem parseTagDirective_mono {f f' : Nat} (hf : f ≤ f') :
    MLe (parseTagDirective f : M σ Bool) (parseTagDirective f') := by
  unfold parseTagDirective
  repeat' first
  | with_reducible refine parseSeparateInLine_mono ‹_›
  | mono0
  | (with_reducible intro _)

theorem parseYAMLDirective_mono {f f' : Nat} (hf : f ≤ f') :
    MLe (parseYAMLDirective f : M σ Bool) (parseYAMLDirective f') := by
  unfold parseYAMLDirective
  repeat' first
  | mono0
  | (with_reducible intro _)

theorem parseDirective_mono {f f' : Nat} (hf : f ≤ f') :
    MLe (parseDirective f : M σ Bool) (parseDirective f') := by
  unfold parseDirective
  repeat' first
  | with_reducible refine parseComments_mono ‹_›
  | with_reducible refine parseReservedDirective_mono ‹_›
  | with_reducible refine parseTagDirective_mono ‹_›
  | with_reducible refine parseYAMLDirective_mono ‹_›
  | mono0
  | (with_reducible intro _)

theorem parseExplicitDocument_mono {f f' : Nat} (hf : f ≤ f') :
    MLe (parseExplicitDocument f : M σ Node) (parseExplicitDocument f') := by
  unfold parseExplicitDocument
  repeat' first
  | with_reducible refine parseComments_mono ‹_›
  | with_reducible refine parseBareDocument_mono ‹_›
  | mono0
  | (with_reducible intro _)

theorem parseDirectiveDocument_mono {f f' : Nat} (hf : f ≤ f') :
    MLe (parseDirectiveDocument f : M σ Node) (parseDirectiveDocument f') := by
  unfold parseDirectiveDocument
  repeat' first
  | with_reducible refine parseDirective_mono ‹_›
  | with_reducible refine parseExplicitDocument_mono ‹_›
  | mono0
  | (with_reducible intro _)

theorem parseAnyDocument_mono {f f' : Nat} (hf : f ≤ f') :
    MLe (parseAnyDocument f : M σ Node) (parseAnyDocument f') := by
  unfold parseAnyDocument
  repeat' first
  | with_reducible refine parseBareDocument_mono ‹_›
  | with_reducible refine parseExplicitDocument_mono ‹_›
  | with_reducible refine parseDirectiveDocument_mono ‹_›
  | mono0
  | (with_reducible intro _)

theorem parseDocumentSuffix_mono {f f' : Nat} (hf : f ≤ f') :
    MLe (parseDocumentSuffix f : M σ Bool) (parseDocumentSuffix f') := by
  unfold parseDocumentSuffix
  repeat' first
  | with_reducible refine parseComments_mono ‹_›
  | mono0
  | (with_reducible intro _)

theorem prefixLines_mono {f f' : Nat} (hf : f ≤ f') (notNull : Bool) :
    MLe (prefixLines f notNull : M σ Bool) (prefixLines f' notNull) := by
  unfold prefixLines
  repeat' first
  | with_reducible refine parseCommentLine_mono ‹_›
  | mono0
  | (with_reducible intro _)

theorem parseDocumentPrefix_mono {f f' : Nat} (hf : f ≤ f') :
    MLe (parseDocumentPrefix f : M σ Bool) (parseDocumentPrefix f') := by
  unfold parseDocumentPrefix
  repeat' first
  | with_reducible refine prefixLines_mono ‹_› _
  | mono0
  | (with_reducible intro _)

theorem prefixes_mono {f f' : Nat} (hf : f ≤ f') :
    MLe (prefixes f : M σ Unit) (prefixes f') := by
  unfold prefixes
  repeat' first
  | with_reducible refine parseDocumentPrefix_mono ‹_›
  | mono0
  | (with_reducible intro _)

theorem parseSuffixesAndPrefixes_mono {f f' : Nat} (hf : f ≤ f') :
    MLe (parseSuffixesAndPrefixes f : M σ Bool) (parseSuffixesAndPrefixes f') := by
  unfold parseSuffixesAndPrefixes
  repeat' first
  | with_reducible refine parseDocumentSuffix_mono ‹_›
  | with_reducible refine prefixes_mono ‹_›
  | mono0
  | (with_reducible intro _)

theorem addDocument_mono {f f' : Nat} (hf : f ≤ f') (docs : List Node) :
    MLe (addDocument f docs : M σ (List Node)) (addDocument f' docs) := by
  unfold addDocument
  repeat' first
  | with_reducible refine parseAnyDocument_mono ‹_›
  | mono0
  | (with_reducible intro _)

theorem streamStep_mono {f f' : Nat} (hf : f ≤ f') (docs : List Node) :
    MLe (streamStep f docs : M σ (Bool × List Node)) (streamStep f' docs) := by
  unfold streamStep
  repeat' first
  | with_reducible refine parseCommentLine_mono ‹_›
  | with_reducible refine parseExplicitDocument_mono ‹_›
  | with_reducible refine parseSuffixesAndPrefixes_mono ‹_›
  | with_reducible refine addDocument_mono ‹_› _
  | mono0
  | (with_reducible intro _)

theorem parseStream_mono {f f' : Nat} (hf : f ≤ f') :
    MLe (parseStream f : M σ Node) (parseStream f') := by
  unfold parseStream
  repeat' first
  | with_reducible refine prefixes_mono ‹_›
  | with_reducible refine addDocument_mono ‹_› _
  | with_reducible refine streamStep_mono ‹_› _
  | mono0
  | (with_reducible intro _)

theorem parse_mono {f f' : Nat} (hf : f ≤ f') :
    MLe (parse f : M σ Node) (parse f') := by
  unfold parse
  repeat' first
  | with_reducible refine parseStream_mono ‹_›
  | mono0
  | (with_reducible intro _)

end Verif.Parser
