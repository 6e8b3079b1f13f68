import Verif.Lemmas.ParserFlowSpec
import Verif.Model.ParserBlock

/-!
Specifications of the productions of block nodes.
-/

set_option linter.unusedSimpArgs false
set_option linter.unusedSectionVars false
set_option linter.unusedVariables false
set_option linter.unnecessarySeqFocus false

namespace Verif.Parser

open Verif.Token Verif.Lexer Verif.Ast

variable {σ α β : Type} [TokenStream σ] [StreamOk σ]

variable {B n f : Nat}

/-! ### Literal and folded scalars -/

theorem rawLine_spec (hf : 2 * B + 1 < f + n) (buf : Buf) :
    Spec B n (rawLine f buf : M σ Buf) (fun r g g' => buf.length ≤ r.length) := by
  refine .intro (fun t A hst hg => ?_)
  unfold rawLine
  wpg

theorem parseLiteralText_spec (hf : 2 * B + 1 < f + n) (ind : Ind) (buf : Buf) :
    Spec B n (parseLiteralText f ind buf : M σ (Bool × Ind × Buf)) (fun r g g' => buf.length ≤ r.2.2.length) := by
  refine .intro (fun t A hst hg => ?_)
  have := fun (x : Ind × Buf) => tries_spec (σ := σ) (B := B) (n := n) (f := f)
    (body := fun x : Ind × Buf => parseEmpty f x.1 .blockIn x.2) (fun r => x.2.length ≤ r.2.length)
    (fun y hy => .intro (fun t A hst hg => by wpg)) x hf (Nat.le_refl _)
  unfold parseLiteralText
  wpg

theorem parseLiteralNext_spec (hf : 2 * B + 1 < f + n) (ind : Ind) (buf : Buf) :
    Spec B n (parseLiteralNext f ind buf : M σ (Bool × Ind × Buf)) (fun r g g' => buf.length ≤ r.2.2.length ∧ (r.1 = true → g < g')) := by
  refine .intro (fun t A hst hg => ?_)
  unfold parseLiteralNext
  wpg

theorem parseTrailComments_spec (hf : 2 * B + 1 < f + n) (ind : Ind) :
    Spec B n (parseTrailComments f ind : M σ Bool) (fun r g g' => True) := by
  refine .intro (fun t A hst hg => ?_)
  unfold parseTrailComments
  wpg

theorem parseStripEmpty_spec (hf : 2 * B + 1 < f + n) (ind : Ind) :
    Spec B n (parseStripEmpty f ind : M σ Bool) (fun r g g' => True) := by
  refine .intro (fun t A hst hg => ?_)
  have := tries_spec (σ := σ) (B := B) (n := n) (f := f)
    (body := fun u => do
      let i ← parseIndentLessThanOrEqual ind.value
      if !i then pure (false, u) else
      let t ← tok
      if t.type ≠ .lineBreak then pure (false, u) else do
      next
      pure (true, u)) (fun _ => True)
    (fun y hy => .intro (fun t A hst hg => by wpg)) () hf trivial
  unfold parseStripEmpty
  wpg

theorem parseKeepEmpty_spec (hf : 2 * B + 1 < f + n) (ind : Ind) (buf : Buf) :
    Spec B n (parseKeepEmpty f ind buf : M σ (Bool × Ind × Buf)) (fun r g g' => buf.length ≤ r.2.2.length) := by
  refine .intro (fun t A hst hg => ?_)
  unfold parseKeepEmpty
  wpg

theorem parseChompedEmpty_spec (hf : 2 * B + 1 < f + n) (ind : Ind) (ch : Chomping) (buf : Buf) :
    Spec B n (parseChompedEmpty f ind ch buf : M σ (Bool × Ind × Buf)) (fun r g g' => buf.length ≤ r.2.2.length) := by
  refine .intro (fun t A hst hg => ?_)
  unfold parseChompedEmpty
  wpg

theorem parseChompedLast_spec (hf : 2 * B + 1 < f + n) (ch : Chomping) (hc : ch ≠ .unknown) (buf : Buf) :
    Spec B n (parseChompedLast ch buf : M σ (Bool × Buf)) (fun r g g' => buf.length ≤ r.2.length) := by
  refine .intro (fun t A hst hg => ?_)
  unfold parseChompedLast
  wpg

theorem literalLines_spec (hf : 2 * B + 1 < f + n) (x : Ind × Buf) :
    Spec B n (literalLines f x : M σ (Ind × Buf)) (fun r _ _ => x.2.length ≤ r.2.length) := by
  refine tries_spec (σ := σ) (fun r => x.2.length ≤ r.2.length) (fun y hy => .intro (fun t A hst hg => ?_)) x hf (Nat.le_refl _)
  wpg

theorem parseLiteralContent_spec (hf : 2 * B + 1 < f + n) (ind : Ind) (ch : Chomping) (hc : ch ≠ .unknown) :
    Spec B n (parseLiteralContent f ind ch : M σ Node) (fun r g g' => NodeOk r) := by
  refine .intro (fun t A hst hg => ?_)
  unfold parseLiteralContent
  wpg

theorem parseLiteral_spec (hf : 2 * B + 1 < f + n) (ind : Ind) :
    Spec B n (parseLiteral f ind : M σ Node) (fun r g g' => NodeOk r) := by
  refine .intro (fun t A hst hg => ?_)
  unfold parseLiteral
  iterate 4 wp1
  · wpg
  iterate 3 wp1
  · wpg
  iterate 4 wp1
  rename_i h _ _ _ _ hh
  cases h with
  | none => wpg
  | some h =>
    have := hh h rfl
    dsimp only
    wpg

theorem parseFoldedText_spec (hf : 2 * B + 1 < f + n) (ind : Ind) (buf : Buf) :
    Spec B n (parseFoldedText f ind buf : M σ (Bool × Ind × Buf)) (fun r g g' => buf.length ≤ r.2.2.length ∧ (r.1 = true → g < g')) := by
  refine .intro (fun t A hst hg => ?_)
  unfold parseFoldedText
  wpg

theorem parseSpacedText_spec (hf : 2 * B + 1 < f + n) (ind : Ind) (buf : Buf) :
    Spec B n (parseSpacedText f ind buf : M σ (Bool × Ind × Buf)) (fun r g g' => buf.length ≤ r.2.2.length ∧ (r.1 = true → g < g')) := by
  refine .intro (fun t A hst hg => ?_)
  unfold parseSpacedText
  wpg

theorem parseSpacedLineBreak_spec (hf : 2 * B + 1 < f + n) (ind : Ind) (buf : Buf) :
    Spec B n (parseSpacedLineBreak f ind buf : M σ (Bool × Ind × Buf)) (fun r g g' => buf.length ≤ r.2.2.length) := by
  refine .intro (fun t A hst hg => ?_)
  unfold parseSpacedLineBreak
  wpg

theorem linesWith_spec {brk line : Ind → Buf → M σ (Bool × Ind × Buf)} (hf : 2 * B + 1 < f + n)
    (hb : ∀ ind buf, Spec B n (brk ind buf) (fun r _ _ => buf.length ≤ r.2.2.length))
    (hl : ∀ ind buf, Spec B n (line ind buf) (fun r g g' => buf.length ≤ r.2.2.length ∧ (r.1 = true → g < g')))
    (x : Ind × Buf) :
    Spec B n (linesWith f brk line x) (fun r _ _ => x.2.length ≤ r.2.length) := by
  refine tries_spec (σ := σ) (fun r => x.2.length ≤ r.2.length) (fun y hy => .intro (fun t A hst hg => ?_)) x hf (Nat.le_refl _)
  wpg

theorem parseSpacedLines_spec (hf : 2 * B + 1 < f + n) (ind : Ind) (buf : Buf) :
    Spec B n (parseSpacedLines f ind buf : M σ (Bool × Ind × Buf)) (fun r g g' => buf.length ≤ r.2.2.length ∧ (r.1 = true → g < g')) := by
  refine .intro (fun t A hst hg => ?_)
  have := fun x => linesWith_spec (σ := σ) hf (fun ind buf => parseSpacedLineBreak_spec hf ind buf)
    (fun ind buf => parseSpacedText_spec hf ind buf) x
  unfold parseSpacedLines
  wpg

theorem parseFoldedLines_spec (hf : 2 * B + 1 < f + n) (ind : Ind) (buf : Buf) :
    Spec B n (parseFoldedLines f ind buf : M σ (Bool × Ind × Buf)) (fun r g g' => buf.length ≤ r.2.2.length ∧ (r.1 = true → g < g')) := by
  refine .intro (fun t A hst hg => ?_)
  have := fun x => linesWith_spec (σ := σ) hf
    (fun ind buf => (parseFoldedLineBreak_spec hf ind .blockIn buf).mono (Nat.le_refl _) (fun _ _ _ _ h => h.1))
    (fun ind buf => parseFoldedText_spec hf ind buf) x
  unfold parseFoldedLines
  wpg

theorem parseSameLines_spec (hf : 2 * B + 1 < f + n) (ind : Ind) (buf : Buf) :
    Spec B n (parseSameLines f ind buf : M σ (Bool × Ind × Buf)) (fun r g g' => buf.length ≤ r.2.2.length) := by
  refine .intro (fun t A hst hg => ?_)
  unfold parseSameLines
  wpg

theorem diffLines_spec (hf : 2 * B + 1 < f + n) (x : Ind × Buf) :
    Spec B n (diffLines f x : M σ (Ind × Buf)) (fun r _ _ => x.2.length ≤ r.2.length) := by
  refine tries_spec (σ := σ) (fun r => x.2.length ≤ r.2.length) (fun y hy => .intro (fun t A hst hg => ?_)) x hf (Nat.le_refl _)
  wpg

theorem parseDiffLines_spec (hf : 2 * B + 1 < f + n) (ind : Ind) (buf : Buf) :
    Spec B n (parseDiffLines f ind buf : M σ (Bool × Ind × Buf)) (fun r g g' => buf.length ≤ r.2.2.length) := by
  refine .intro (fun t A hst hg => ?_)
  unfold parseDiffLines
  wpg

theorem parseFoldedContent_spec (hf : 2 * B + 1 < f + n) (ind : Ind) (ch : Chomping) (hc : ch ≠ .unknown) :
    Spec B n (parseFoldedContent f ind ch : M σ Node) (fun r g g' => NodeOk r) := by
  refine .intro (fun t A hst hg => ?_)
  unfold parseFoldedContent
  wpg

theorem parseFolded_spec (hf : 2 * B + 1 < f + n) (ind : Ind) :
    Spec B n (parseFolded f ind : M σ Node) (fun r g g' => NodeOk r) := by
  refine .intro (fun t A hst hg => ?_)
  unfold parseFolded
  iterate 4 wp1
  · wpg
  iterate 3 wp1
  · wpg
  iterate 4 wp1
  rename_i h _ _ _ _ hh
  cases h with
  | none => wpg
  | some h =>
    have := hh h rfl
    dsimp only
    wpg

theorem propOk_nil : PropOk .nil := by intro h; cases h

theorem parseBlockScalar_spec (hf : 2 * B + 1 < f + n) (ind : Ind) (ctx : PCtx) :
    Spec B n (parseBlockScalar f ind ctx : M σ (Node × Ind)) (fun r g g' => NodeOk r.1) := by
  refine .intro (fun t A hst hg => ?_)
  have h0 := propOk_nil
  unfold parseBlockScalar
  wpg

/-! ### Collections -/

theorem blockEntries_spec {entry : Ind → M σ (Node × Ind)} (Inv : List Node → Prop) (ok : Node → Prop)
    (hs : ∀ l e, Inv l → ok e → validNode e = true → Inv (l ++ [e])) (hf : 2 * B + 1 < f + n)
    (he : ∀ ind, Spec B n (entry ind) (fun r g g' => ok r.1 ∧ (validNode r.1 = true → g < g')))
    (x : List Node × Ind) (hx : Inv x.1) : Spec B n (blockEntries f entry x) (fun r _ _ => Inv r.1) := by
  refine tries_spec (σ := σ) (fun r => Inv r.1) (fun y hy => .intro (fun t A hst hg => ?_)) x hf hx
  wpg

/-- The specification of `parseBlockNode` and `parseBlockIndented`. -/
structure CallsOk (B n : Nat) (c : Calls σ) : Prop where
  node : ∀ ind ctx, Spec B n (c.node ind ctx) (fun r _ _ => NodeOk r.1)
  indented : ∀ ind ctx, Spec B n (c.indented ind ctx) (fun r _ _ => NodeOk r.1)

variable {c : Calls σ}

theorem parseBlockSequenceEntry_spec (hc : CallsOk B (n + 1) c) (hf : 2 * B + 1 < f + n) (ind : Ind) :
    Spec B n (parseBlockSequenceEntry c ind) (fun r g g' => NodeOk r.1 ∧ (validNode r.1 = true → g < g')) := by
  refine .intro (fun t A hst hg => ?_)
  have h1 := hc.node
  have h2 := hc.indented
  unfold parseBlockSequenceEntry
  wpg

theorem parseBlockSequence_spec (hc : CallsOk B (n + 1) c) (hf : 2 * B + 1 < f + n) (ind : Ind) :
    Spec B n (parseBlockSequence f c ind) (fun r g g' => NodeOk r) := by
  refine .intro (fun t A hst hg => ?_)
  have h1 := hc.node
  have h2 := hc.indented
  unfold parseBlockSequence
  iterate 3 wp1
  · wpg
  iterate 3 wp1
  · wpg
  iterate 2 wp1
  rename_i r _ _ _ _ hr
  by_cases hv : validNode r.1 = true
  · have := blockEntries_spec ElemsOk NodeOk (fun l e h1 h2 h3 => elemsOk_snoc h1 h2 h3) hf
      (fun ind => parseBlockSequenceEntry_spec hc hf ind) ([r.1], r.2) (elemsOk_one hr.1 hv)
    wpg
  · wpg

theorem parseCompactSequence_spec (hc : CallsOk B (n + 1) c) (hf : 2 * B + 1 < f + n) (ind : Ind) :
    Spec B n (parseCompactSequence f c ind) (fun r g g' => NodeOk r.1) := by
  refine .intro (fun t A hst hg => ?_)
  have h1 := hc.node
  have h2 := hc.indented
  unfold parseCompactSequence
  iterate 3 wp1
  · wpg
  iterate 2 wp1
  rename_i r _ _ _ _ hr
  by_cases hv : validNode r.1 = true
  · have := blockEntries_spec ElemsOk NodeOk (fun l e h1 h2 h3 => elemsOk_snoc h1 h2 h3) hf
      (fun ind => parseBlockSequenceEntry_spec hc hf ind) ([r.1], r.2) (elemsOk_one hr.1 hv)
    wpg
  · wpg

theorem parseSeqSpace_spec (hc : CallsOk B (n + 1) c) (hf : 2 * B + 1 < f + n) (ind : Ind) (ctx : PCtx) :
    Spec B n (parseSeqSpace f c ind ctx) (fun r g g' => NodeOk r) := by
  refine .intro (fun t A hst hg => ?_)
  have h1 := hc.node
  have h2 := hc.indented
  unfold parseSeqSpace
  wpg

theorem parseBlockMappingExplicitValue_spec (hc : CallsOk B (n + 1) c) (hf : 2 * B + 1 < f + n) (ind : Ind) :
    Spec B n (parseBlockMappingExplicitValue f c ind) (fun r g g' => NodeOk r.1) := by
  refine .intro (fun t A hst hg => ?_)
  have h1 := hc.node
  have h2 := hc.indented
  unfold parseBlockMappingExplicitValue
  wpg

theorem parseBlockMappingExplicitKey_spec (hc : CallsOk B (n + 1) c) (hf : 2 * B + 1 < f + n) (ind : Ind) :
    Spec B n (parseBlockMappingExplicitKey c ind) (fun r g g' => NodeOk r.1 ∧ (validNode r.1 = true → g < g')) := by
  refine .intro (fun t A hst hg => ?_)
  have h1 := hc.node
  have h2 := hc.indented
  unfold parseBlockMappingExplicitKey
  wpg

theorem parseBlockMappingExplicitEntry_spec (hc : CallsOk B (n + 1) c) (hf : 2 * B + 1 < f + n) (ind : Ind) :
    Spec B n (parseBlockMappingExplicitEntry f c ind) (fun r g g' => EntryOk r.1 ∧ (validNode r.1 = true → g < g')) := by
  refine .intro (fun t A hst hg => ?_)
  have h1 := hc.node
  have h2 := hc.indented
  unfold parseBlockMappingExplicitEntry
  wpg

theorem parseBlockMappingImplicitKey_spec (hj : JsonOk B n c.json) (hc : CallsOk B (n + 1) c) (hf : 2 * B + 1 < f + n) :
    Spec B n (parseBlockMappingImplicitKey f c) (fun r g g' => NodeOk r) := by
  refine .intro (fun t A hst hg => ?_)
  have h1 := hc.node
  have h2 := hc.indented
  unfold parseBlockMappingImplicitKey
  wpg

theorem parseBlockMappingImplicitValue_spec (hj : JsonOk B n c.json) (hc : CallsOk B (n + 1) c) (hf : 2 * B + 1 < f + n) (ind : Ind) :
    Spec B n (parseBlockMappingImplicitValue f c ind) (fun r g g' => NodeOk r.1 ∧ (validNode r.1 = true → g < g')) := by
  refine .intro (fun t A hst hg => ?_)
  have h1 := hc.node
  have h2 := hc.indented
  unfold parseBlockMappingImplicitValue
  wpg

theorem parseBlockMappingImplicitEntry_spec (hj : JsonOk B n c.json) (hc : CallsOk B (n + 1) c) (hf : 2 * B + 1 < f + n) (ind : Ind) :
    Spec B n (parseBlockMappingImplicitEntry f c ind) (fun r g g' => EntryOk r.1 ∧ (validNode r.1 = true → g < g')) := by
  refine .intro (fun t A hst hg => ?_)
  have h1 := hc.node
  have h2 := hc.indented
  unfold parseBlockMappingImplicitEntry
  wpg

theorem parseBlockMappingEntry_spec (hj : JsonOk B n c.json) (hc : CallsOk B (n + 1) c) (hf : 2 * B + 1 < f + n) (ind : Ind) :
    Spec B n (parseBlockMappingEntry f c ind) (fun r g g' => EntryOk r.1 ∧ (validNode r.1 = true → g < g')) := by
  refine .intro (fun t A hst hg => ?_)
  have h1 := hc.node
  have h2 := hc.indented
  unfold parseBlockMappingEntry
  wpg

theorem parseBlockMapping_spec (hj : JsonOk B n c.json) (hc : CallsOk B (n + 1) c) (hf : 2 * B + 1 < f + n) (ind : Ind) :
    Spec B n (parseBlockMapping f c ind) (fun r g g' => NodeOk r) := by
  refine .intro (fun t A hst hg => ?_)
  have h1 := hc.node
  have h2 := hc.indented
  unfold parseBlockMapping
  iterate 3 wp1
  · wpg
  iterate 3 wp1
  · wpg
  iterate 2 wp1
  rename_i r _ _ _ _ hr
  by_cases hv : validNode r.1 = true
  · have := blockEntries_spec EntriesOk EntryOk (fun l e h1 h2 h3 => entriesOk_snoc' h1 h2 h3) hf
      (fun ind => parseBlockMappingEntry_spec hj hc hf ind) ([r.1], r.2) (entriesOk_one hr.1.1 hr.1.2 hv)
    wpg
  · wpg

theorem parseCompactMapping_spec (hj : JsonOk B n c.json) (hc : CallsOk B (n + 1) c) (hf : 2 * B + 1 < f + n) (ind : Ind) :
    Spec B n (parseCompactMapping f c ind) (fun r g g' => NodeOk r.1) := by
  refine .intro (fun t A hst hg => ?_)
  have h1 := hc.node
  have h2 := hc.indented
  unfold parseCompactMapping
  iterate 3 wp1
  · wpg
  iterate 2 wp1
  rename_i r _ _ _ _ hr
  by_cases hv : validNode r.1 = true
  · have := blockEntries_spec EntriesOk EntryOk (fun l e h1 h2 h3 => entriesOk_snoc' h1 h2 h3) hf
      (fun ind => parseBlockMappingEntry_spec hj hc hf ind) ([r.1], r.2) (entriesOk_one hr.1.1 hr.1.2 hv)
    wpg
  · wpg

theorem parseBlockCollection_spec (hj : JsonOk B n c.json) (hc : CallsOk B (n + 1) c) (hf : 2 * B + 1 < f + n) (ind : Ind) (ctx : PCtx) :
    Spec B n (parseBlockCollection f c ind ctx) (fun r g g' => NodeOk r.1) := by
  refine .intro (fun t A hst hg => ?_)
  have h0 := propOk_invalid
  have h1 := hc.node
  have h2 := hc.indented
  unfold parseBlockCollection
  wpg

theorem parseBlockInBlock_spec (hj : JsonOk B n c.json) (hc : CallsOk B (n + 1) c) (hf : 2 * B + 1 < f + n) (ind : Ind) (ctx : PCtx) :
    Spec B n (parseBlockInBlock f c ind ctx) (fun r g g' => NodeOk r.1) := by
  refine .intro (fun t A hst hg => ?_)
  have h1 := hc.node
  have h2 := hc.indented
  unfold parseBlockInBlock
  wpg

theorem parseBlockNode_spec (hj : JsonOk B n c.json) (hc : CallsOk B (n + 1) c) (hf : 2 * B + 1 < f + n) (ind : Ind) (ctx : PCtx) :
    Spec B n (parseBlockNode f c ind ctx) (fun r g g' => NodeOk r.1) := by
  refine .intro (fun t A hst hg => ?_)
  have h1 := hc.node
  have h2 := hc.indented
  unfold parseBlockNode
  wpg

theorem parseBlockIndented_spec (hj : JsonOk B n c.json) (hc : CallsOk B (n + 1) c) (hf : 2 * B + 1 < f + n) (ind : Ind) (ctx : PCtx) :
    Spec B n (parseBlockIndented f c ind ctx) (fun r g g' => NodeOk r.1) := by
  refine .intro (fun t A hst hg => ?_)
  have h1 := hc.node
  have h2 := hc.indented
  unfold parseBlockIndented
  wpg

end Verif.Parser
