import Verif.Lemmas.ParserSpec
import Verif.Spec.Tree

/-!
Specifications of the elementary productions.
-/

set_option linter.unusedSimpArgs false
set_option linter.unusedSectionVars false
set_option linter.unusedVariables false
set_option linter.unnecessarySeqFocus false

namespace Verif.Parser

open Verif.Token Verif.Lexer Verif.Ast

variable {σ α β : Type} [TokenStream σ] [StreamOk σ]

variable {B n f : Nat}

/-- White space is skipped, or it is the start of a line. -/
theorem parseSeparateInLine_spec (hf : 2 * B + 1 < f + n) :
    Spec B n (parseSeparateInLine f : M σ Bool) (fun r g g' => r = true → g < g' ∨ g % 2 = 0) := by
  refine .intro (fun t A hst hg => ?_)
  have hG := hst.r.g_le
  unfold parseSeparateInLine
  wp1; wp1; wp1
  · wp <;> grind
  wp1; wp1; wp1; wp1
  by_cases hw : isWhite t.tok = true
  · obtain ⟨f', rfl⟩ | hf0 : (∃ f', f = f' + 1) ∨ f = 0 := by
      cases f
      · exact .inr rfl
      · exact .inl ⟨_, rfl⟩
    · have hsk : Spec B (n + 1) (loop f' (fun (u : Unit) => do
          let t ← (tok : M σ Tok)
          if isWhite t then do
            next
            pure (true, u)
          else pure (false, u)) ()) (fun _ _ _ => True) :=
        skipWhile_spec (pred := isWhite) (by omega)
      unfold skipWhile
      rw [loop]
      wp <;> grind
    · omega
  · wp
    all_goals grind

theorem parseCommentText_spec (hf : 2 * B + 1 < f + n) :
    Spec B n (parseCommentText f : M σ Bool) (fun r g g' => r = true → g < g') := by
  refine .intro (fun t A hst hg => ?_)
  unfold parseCommentText
  wp <;> grind

theorem parseCommentLine_spec (hf : 2 * B + 1 < f + n) :
    Spec B n (parseCommentLine f : M σ Bool) (fun r g g' => r = true → g < g') := by
  refine .intro (fun t A hst hg => ?_)
  unfold parseCommentLine
  wp <;> grind

theorem parseSeparatedComment_spec (hf : 2 * B + 1 < f + n) :
    Spec B n (parseSeparatedComment f : M σ Bool) (fun _ _ _ => True) := by
  refine .intro (fun t A hst hg => ?_)
  unfold parseSeparatedComment
  wp <;> grind

theorem commentLines_spec (hf : 2 * B + 1 < f + n) :
    Spec B n (commentLines f : M σ Unit) (fun _ _ _ => True) := by
  refine tries_spec (σ := σ) (fun _ => True) (fun _ _ => .intro (fun t A hst hg => ?_)) () hf trivial
  wp <;> grind

theorem parseComments_spec (hf : 2 * B + 1 < f + n) :
    Spec B n (parseComments f : M σ Bool) (fun _ _ _ => True) := by
  refine .intro (fun t A hst hg => ?_)
  unfold parseComments
  wp <;> grind

theorem spaces_spec : ∀ k : Nat, Spec B n (spaces k : M σ Bool) (fun _ _ _ => True) := by
  intro k
  induction k with
  | zero => exact .intro (fun t A hst hg => by unfold spaces; wp <;> grind)
  | succ k ih => exact .intro (fun t A hst hg => by unfold spaces; wp <;> grind)

theorem parseIndentStrict_spec (k : Int) : Spec B n (parseIndentStrict k : M σ Bool) (fun _ _ _ => True) := by
  refine .intro (fun t A hst hg => ?_)
  have := @spaces_spec σ _ _ B n
  unfold parseIndentStrict
  wp <;> grind

theorem countSpaces_spec (hf : 2 * B + 1 < f + n) (k : Int) :
    Spec B n (countSpaces f k : M σ Int) (fun _ _ _ => True) := by
  refine loop_spec (σ := σ) (fun _ => True) (fun x hx => .intro (fun t A hst hg => ?_)) f n k (Nat.le_refl _) hf trivial
  wp <;> grind

theorem parseIndentLowerBound_spec (hf : 2 * B + 1 < f + n) (k : Int) :
    Spec B n (parseIndentLowerBound f k : M σ (Option Int)) (fun _ _ _ => True) := by
  refine .intro (fun t A hst hg => ?_)
  have := @spaces_spec σ _ _ B n
  unfold parseIndentLowerBound
  wp <;> grind

theorem parseIndent_spec (hf : 2 * B + 1 < f + n) (ind : Ind) :
    Spec B n (parseIndent f ind : M σ (Bool × Ind)) (fun _ _ _ => True) := by
  refine .intro (fun t A hst hg => ?_)
  have := @parseIndentStrict_spec σ _ _ B n
  unfold parseIndent
  wp <;> grind

theorem upToSpaces_spec : ∀ k : Nat, Spec B n (upToSpaces k : M σ Unit) (fun _ _ _ => True) := by
  intro k
  induction k with
  | zero => exact .intro (fun t A hst hg => by unfold upToSpaces; wp <;> grind)
  | succ k ih => exact .intro (fun t A hst hg => by unfold upToSpaces; wp <;> grind)

theorem parseBorderedIndent_spec (k l : Int) : Spec B n (parseBorderedIndent k l : M σ Bool) (fun _ _ _ => True) := by
  refine .intro (fun t A hst hg => ?_)
  have := @upToSpaces_spec σ _ _ B n
  unfold parseBorderedIndent
  wp <;> grind

theorem parseIndentLessThan_spec (hf : 2 * B + 1 < f + n) (k : Int) :
    Spec B n (parseIndentLessThan k : M σ Bool) (fun _ _ _ => True) := parseBorderedIndent_spec _ _

theorem parseIndentLessThanOrEqual_spec (hf : 2 * B + 1 < f + n) (k : Int) :
    Spec B n (parseIndentLessThanOrEqual k : M σ Bool) (fun _ _ _ => True) := parseBorderedIndent_spec _ _

theorem parseFlowLinePrefix_spec (hf : 2 * B + 1 < f + n) (ind : Ind) :
    Spec B n (parseFlowLinePrefix f ind : M σ (Bool × Ind)) (fun _ _ _ => True) := by
  refine .intro (fun t A hst hg => ?_)
  unfold parseFlowLinePrefix
  wp <;> grind

theorem parseLinePrefix_spec (hf : 2 * B + 1 < f + n) (ind : Ind) (ctx : PCtx) :
    Spec B n (parseLinePrefix f ind ctx : M σ (Bool × Ind)) (fun _ _ _ => True) := by
  refine .intro (fun t A hst hg => ?_)
  unfold parseLinePrefix
  wp <;> grind

theorem parseEmpty_spec (hf : 2 * B + 1 < f + n) (ind : Ind) (ctx : PCtx) (buf : Buf) :
    Spec B n (parseEmpty f ind ctx buf : M σ (Bool × Ind × Buf))
      (fun r g g' => buf.length ≤ r.2.2.length ∧ (r.1 = true → g < g')) := by
  refine .intro (fun t A hst hg => ?_)
  unfold parseEmpty
  wp <;> grind

theorem parseSeparateLines_spec (hf : 2 * B + 1 < f + n) (ind : Ind) :
    Spec B n (parseSeparateLines f ind : M σ (Bool × Ind)) (fun _ _ _ => True) := by
  refine .intro (fun t A hst hg => ?_)
  unfold parseSeparateLines
  wp <;> grind

theorem parseSeparate_spec (hf : 2 * B + 1 < f + n) (ind : Ind) (ctx : PCtx) :
    Spec B n (parseSeparate f ind ctx : M σ (Bool × Ind)) (fun _ _ _ => True) := by
  refine .intro (fun t A hst hg => ?_)
  unfold parseSeparate
  wp <;> grind

theorem parseChompingIndicator_spec (hf : 2 * B + 1 < f + n) :
    Spec B n (parseChompingIndicator : M σ Chomping) (fun c _ _ => c ≠ .unknown) := by
  refine .intro (fun t A hst hg => ?_)
  unfold parseChompingIndicator
  wp <;> grind

theorem parseIndentationIndicator_spec (hf : 2 * B + 1 < f + n) :
    Spec B n (parseIndentationIndicator : M σ (Option Int)) (fun _ _ _ => True) := by
  refine .intro (fun t A hst hg => ?_)
  unfold parseIndentationIndicator
  wp <;> grind

theorem parseBlockHeader_spec (hf : 2 * B + 1 < f + n) :
    Spec B n (parseBlockHeader f : M σ (Option (Chomping × Int))) (fun r _ _ => ∀ h, r = some h → h.1 ≠ .unknown) := by
  refine .intro (fun t A hst hg => ?_)
  unfold parseBlockHeader
  wp <;> grind

/-! ### Properties -/

/-- A valid node is complete. -/
def NodeOk (n : Node) : Prop := validNode n = true → Spec.Tree.Complete Spec.Tree.LooseProperties n

theorem nodeOk_invalid : NodeOk .invalid := by intro h; cases h
theorem nodeOk_null : NodeOk .null := fun _ => .null
theorem nodeOk_text (s : List Char) (q : Quoting) : NodeOk (.text s q) := fun _ => .text s q
theorem nodeOk_alias (s : List Char) : NodeOk (.alias s) := fun _ => .alias s

theorem parseAliasNode_spec (hf : 2 * B + 1 < f + n) : Spec B n (parseAliasNode : M σ Node) (fun r _ _ => NodeOk r) := by
  refine .intro (fun t A hst hg => ?_)
  have := nodeOk_invalid
  have := nodeOk_alias
  unfold parseAliasNode
  wp <;> grind

theorem parseAnchorProperty_spec (hf : 2 * B + 1 < f + n) :
    Spec B n (parseAnchorProperty : M σ Node) (fun r _ _ => r = .invalid ∨ ∃ s, r = .anchor s) := by
  refine .intro (fun t A hst hg => ?_)
  unfold parseAnchorProperty
  wp <;> grind

theorem parseTagHandle_spec (hf : 2 * B + 1 < f + n) : Spec B n (parseTagHandle : M σ Bool) (fun _ _ _ => True) := by
  refine .intro (fun t A hst hg => ?_)
  unfold parseTagHandle
  wp <;> grind

theorem parseTagProperty_spec (hf : 2 * B + 1 < f + n) :
    Spec B n (parseTagProperty : M σ Node) (fun r _ _ => r = .invalid ∨ ∃ s, r = .tag s) := by
  refine .intro (fun t A hst hg => ?_)
  unfold parseTagProperty
  wp <;> grind

/-- A valid properties node is as it should be. -/
def PropOk (n : Node) : Prop := validNode n = true → Spec.Tree.LooseProperties n

theorem propOk_invalid : PropOk .invalid := by intro h; cases h

theorem propOk_tag (s : List Char) (x : Node) (h : x = .nil ∨ x = .invalid ∨ ∃ a, x = .anchor a) :
    PropOk (.properties (.tag s) x) := by
  intro _
  rcases h with rfl | rfl | ⟨a, rfl⟩
  · exact .strict _ (.tag s)
  · exact .tag s
  · exact .strict _ (.both s a)

theorem propOk_anchor (s : List Char) (x : Node) (h : x = .nil ∨ x = .invalid ∨ ∃ a, x = .tag a) :
    PropOk (.properties x (.anchor s)) := by
  intro _
  rcases h with rfl | rfl | ⟨a, rfl⟩
  · exact .strict _ (.anchor s)
  · exact .anchor s
  · exact .strict _ (.both a s)

theorem invalid_invalid : validNode .invalid = false := rfl

theorem parseProperties_spec (hf : 2 * B + 1 < f + n) (ind : Ind) (ctx : PCtx) :
    Spec B n (parseProperties f ind ctx : M σ (Node × Ind)) (fun r _ _ => PropOk r.1) := by
  refine .intro (fun t A hst hg => ?_)
  have h0 := propOk_invalid
  have h1 := propOk_tag
  have h2 := propOk_anchor
  have h3 := invalid_invalid
  unfold parseProperties
  wp <;> grind

end Verif.Parser
