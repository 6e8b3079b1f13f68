import Verif.Lemmas.ParserElem
import Verif.Model.ParserFlow

/-!
Specifications of the productions of flow nodes.
-/

set_option linter.unusedSimpArgs false
set_option linter.unusedSectionVars false
set_option linter.unusedVariables false
set_option linter.unnecessarySeqFocus false

namespace Verif.Parser

open Verif.Token Verif.Lexer Verif.Ast

variable {σ α β : Type} [TokenStream σ] [StreamOk σ]

variable {B n f : Nat}

/-! ### Nodes -/

theorem nodeOk_nil : NodeOk .nil := by intro h; cases h

theorem nodeOk_entry {k v : Node} (hk : NodeOk k) (hv : NodeOk v) (hk' : validNode k = true) (hv' : validNode v = true) :
    NodeOk (.mappingEntry k v) := fun _ => .entry k v (hk hk') (hv hv')

theorem nodeOk_content {p c : Node} (hp : PropOk p) (hc : NodeOk c) (hc' : validNode c = true) :
    NodeOk (newContentNode p c) := by
  intro _
  unfold newContentNode
  split
  · exact .content p c (hp ‹_›) (hc hc')
  · exact hc hc'

theorem valid_null : validNode .null = true := rfl
theorem valid_entry (k v : Node) : validNode (.mappingEntry k v) = true := rfl
theorem valid_text (s : List Char) (q : Quoting) : validNode (.text s q) = true := rfl

/-- Elements of a sequence. -/
def ElemsOk (l : List Node) : Prop := ∀ e ∈ l, NodeOk e ∧ validNode e = true

/-- Elements of a mapping. -/
def EntriesOk (l : List Node) : Prop := ∀ e ∈ l, Spec.Tree.IsEntry e ∧ NodeOk e ∧ validNode e = true

theorem elemsOk_nil : ElemsOk [] := by intro e h; cases h
theorem entriesOk_nil : EntriesOk [] := by intro e h; cases h

theorem elemsOk_snoc {l : List Node} {e : Node} (h : ElemsOk l) (he : NodeOk e) (hv : validNode e = true) :
    ElemsOk (l ++ [e]) := by
  intro x hx
  rcases List.mem_append.1 hx with hx | hx
  · exact h x hx
  · rw [List.mem_singleton.1 hx]; exact ⟨he, hv⟩

theorem entriesOk_snoc {l : List Node} {e : Node} (h : EntriesOk l) (he : NodeOk e) (hi : validNode e = true → Spec.Tree.IsEntry e)
    (hv : validNode e = true) : EntriesOk (l ++ [e]) := by
  intro x hx
  rcases List.mem_append.1 hx with hx | hx
  · exact h x hx
  · rw [List.mem_singleton.1 hx]; exact ⟨hi hv, he, hv⟩

theorem elemsOk_one {e : Node} (he : NodeOk e) (hv : validNode e = true) : ElemsOk [e] := elemsOk_snoc elemsOk_nil he hv

theorem entriesOk_one {e : Node} (he : NodeOk e) (hi : validNode e = true → Spec.Tree.IsEntry e) (hv : validNode e = true) :
    EntriesOk [e] := entriesOk_snoc entriesOk_nil he hi hv

theorem nodeOk_sequence {l : List Node} (h : ElemsOk l) : NodeOk (.sequence l) :=
  fun _ => .sequence l (fun e he => (h e he).1 (h e he).2)

theorem nodeOk_mapping {l : List Node} (h : EntriesOk l) : NodeOk (.mapping l) :=
  fun _ => .mapping l (fun e he => (h e he).1) (fun e he => (h e he).2.1 (h e he).2.2)

/-- A valid node is a complete entry. -/
def EntryOk (n : Node) : Prop := NodeOk n ∧ (validNode n = true → Spec.Tree.IsEntry n)

theorem entryOk_invalid : EntryOk .invalid := ⟨nodeOk_invalid, fun h => by cases h⟩

theorem entryOk_entry {k v : Node} (hk : NodeOk k) (hv : NodeOk v) (hk' : validNode k = true) (hv' : validNode v = true) :
    EntryOk (.mappingEntry k v) := ⟨nodeOk_entry hk hv hk' hv', fun _ => .entry k v⟩

theorem EntryOk.node {n : Node} (h : EntryOk n) : NodeOk n := h.1

theorem entriesOk_snoc' {l : List Node} {e : Node} (h : EntriesOk l) (he : EntryOk e) (hv : validNode e = true) :
    EntriesOk (l ++ [e]) := entriesOk_snoc h he.1 he.2 hv

theorem plainSafe_string {t : Tok} {ctx : PCtx} (h : isPlainSafeToken t ctx = true) : t.type = .string := by
  unfold isPlainSafeToken at h
  split at h <;> simp_all [stringIn]

theorem plainSafe_ok {t : Tok} {ctx : PCtx} (h : isPlainSafeToken t ctx = true) : t.type ≠ .bom ∧ t.type ≠ .eof := by
  simp [plainSafe_string h]

theorem plainIndicator_ok {t : Tok} (h : isPlainIndicator t = true) : t.type ≠ .bom ∧ t.type ≠ .eof := by
  simp only [isPlainIndicator, Bool.or_eq_true, decide_eq_true_eq] at h
  rcases h with (h | h) | h <;> simp [h]

theorem plainSafe_ok' {t u : Tok} {ctx : PCtx} (e : t = u) (h : isPlainSafeToken u ctx = true) :
    t.type ≠ .bom ∧ t.type ≠ .eof := e ▸ plainSafe_ok h

theorem plainIndicator_ok' {t u : Tok} (e : t = u) (h : isPlainIndicator u = true) : t.type ≠ .bom ∧ t.type ≠ .eof :=
  e ▸ plainIndicator_ok h

macro_rules
  | `(tactic| wpt) => `(tactic| first
    | exact (plainSafe_ok (by assumption)).1
    | exact (plainSafe_ok (by assumption)).2
    | exact (plainIndicator_ok (by assumption)).1
    | exact (plainIndicator_ok (by assumption)).2
    | exact (plainSafe_ok' (by assumption) (by assumption)).1
    | exact (plainSafe_ok' (by assumption) (by assumption)).2
    | exact (plainIndicator_ok' (by assumption) (by assumption)).1
    | exact (plainIndicator_ok' (by assumption) (by assumption)).2
    | fail)

instance (cst : YamlChar.CharSet) : TokOk (isQuotedText cst) := ⟨fun t h => by
  simp only [isQuotedText, Bool.or_eq_true] at h
  rcases h with h | h
  · exact stringIn_ok h
  · exact white_ok h⟩

/-- All steps, then the conditions on nodes and buffers. -/
macro "wpg" : tactic => `(tactic| wp <;> grind [okNode, NodeOk, nodeOk_invalid, nodeOk_nil, nodeOk_null, nodeOk_text, invalid_invalid, valid_null,
  valid_entry, valid_text, → EntryOk.node, entryOk_invalid, entryOk_entry, nodeOk_entry, nodeOk_content, nodeOk_sequence, nodeOk_mapping,
  elemsOk_nil, entriesOk_nil, elemsOk_one, elemsOk_snoc, entriesOk_snoc'])

/-! ### Line breaks inside of text -/

theorem empties_spec (hf : 2 * B + 1 < f + n) (ctx : PCtx) (x : Ind × Buf) :
    Spec B n (empties f ctx x : M σ (Ind × Buf)) (fun r _ _ => x.2.length ≤ r.2.length) := by
  refine tries_spec (σ := σ) (fun r => x.2.length ≤ r.2.length) (fun y hy => .intro (fun t A hst hg => ?_)) x hf (Nat.le_refl _)
  wpg

theorem parseTrimmed_spec (hf : 2 * B + 1 < f + n) (ind : Ind) (ctx : PCtx) (buf : Buf) :
    Spec B n (parseTrimmed f ind ctx buf : M σ (Bool × Ind × Buf))
      (fun r g g' => buf.length ≤ r.2.2.length ∧ (r.1 = true → g < g')) := by
  refine .intro (fun t A hst hg => ?_)
  unfold parseTrimmed
  wpg

theorem parseFoldedLineBreak_spec (hf : 2 * B + 1 < f + n) (ind : Ind) (ctx : PCtx) (buf : Buf) :
    Spec B n (parseFoldedLineBreak f ind ctx buf : M σ (Bool × Ind × Buf))
      (fun r g g' => buf.length ≤ r.2.2.length ∧ (r.1 = true → g < g')) := by
  refine .intro (fun t A hst hg => ?_)
  unfold parseFoldedLineBreak
  wpg

theorem parseFlowFolded_spec (hf : 2 * B + 1 < f + n) (ind : Ind) (buf : Buf) :
    Spec B n (parseFlowFolded f ind buf : M σ (Bool × Ind × Buf))
      (fun r g g' => buf.length ≤ r.2.2.length ∧ (r.1 = true → g < g')) := by
  refine .intro (fun t A hst hg => ?_)
  unfold parseFlowFolded
  wpg

/-! ### Plain scalars -/

theorem parsePlainFirst_spec (hf : 2 * B + 1 < f + n) (ctx : PCtx) (buf : Buf) :
    Spec B n (parsePlainFirst ctx buf : M σ (Bool × Buf)) (fun r _ _ => buf.length ≤ r.2.length) := by
  refine .intro (fun t A hst hg => ?_)
  unfold parsePlainFirst
  wpg

theorem parsePlainInLine_spec (hf : 2 * B + 1 < f + n) (ctx : PCtx) (buf : Buf) :
    Spec B n (parsePlainInLine f ctx buf : M σ (Bool × Buf)) (fun r _ _ => buf.length ≤ r.2.length) := by
  refine .intro (fun t A hst hg => ?_)
  unfold parsePlainInLine
  have := loop_spec (σ := σ) (B := B) (n := n) (body := fun buf : Buf => do
    setCheckpoint
    let b ← takeWhile f isWhite buf
    let t ← tok
    if !isPlainSafeToken t ctx then do
      let b ← truncate buf.length b
      rollback
      pure (false, b)
    else do
      commit
      next
      pure (true, b ++ t.origin)) (fun r => buf.length ≤ r.length) (fun y hy => .intro (fun t A hst hg => by wpg)) f n buf
      (Nat.le_refl _) hf (Nat.le_refl _)
  wpg

theorem parsePlainOneLine_spec (hf : 2 * B + 1 < f + n) (ctx : PCtx) :
    Spec B n (parsePlainOneLine f ctx : M σ Node) (fun r _ _ => NodeOk r) := by
  refine .intro (fun t A hst hg => ?_)
  unfold parsePlainOneLine
  wpg

theorem parsePlainNextLine_spec (hf : 2 * B + 1 < f + n) (ind : Ind) (ctx : PCtx) (buf : Buf) :
    Spec B n (parsePlainNextLine f ind ctx buf : M σ (Bool × Ind × Buf))
      (fun r g g' => buf.length ≤ r.2.2.length ∧ (r.1 = true → g < g')) := by
  refine .intro (fun t A hst hg => ?_)
  unfold parsePlainNextLine
  wpg

theorem plainLines_spec (hf : 2 * B + 1 < f + n) (ctx : PCtx) (x : Ind × Buf) :
    Spec B n (plainLines f ctx x : M σ (Ind × Buf)) (fun r _ _ => x.2.length ≤ r.2.length) := by
  refine tries_spec (σ := σ) (fun r => x.2.length ≤ r.2.length) (fun y hy => .intro (fun t A hst hg => ?_)) x hf (Nat.le_refl _)
  wpg

theorem parsePlainMultiLine_spec (hf : 2 * B + 1 < f + n) (ind : Ind) (ctx : PCtx) :
    Spec B n (parsePlainMultiLine f ind ctx : M σ (Node × Ind)) (fun r _ _ => NodeOk r.1) := by
  refine .intro (fun t A hst hg => ?_)
  unfold parsePlainMultiLine
  wpg

theorem parsePlain_spec (hf : 2 * B + 1 < f + n) (ind : Ind) (ctx : PCtx) :
    Spec B n (parsePlain f ind ctx : M σ (Node × Ind)) (fun r _ _ => NodeOk r.1) := by
  refine .intro (fun t A hst hg => ?_)
  unfold parsePlain
  wpg

/-! ### Quoted scalars -/

theorem parseQuotedOneLine_spec (hf : 2 * B + 1 < f + n) (cst : YamlChar.CharSet) (q : Quoting) :
    Spec B n (parseQuotedOneLine f cst q : M σ Node) (fun r _ _ => NodeOk r) := by
  refine .intro (fun t A hst hg => ?_)
  unfold parseQuotedOneLine
  wpg

theorem parseDoubleEscaped_spec (hf : 2 * B + 1 < f + n) (ind : Ind) (buf : Buf) :
    Spec B n (parseDoubleEscaped f ind buf : M σ (Bool × Ind × Buf))
      (fun r g g' => buf.length ≤ r.2.2.length ∧ (r.1 = true → g < g')) := by
  refine .intro (fun t A hst hg => ?_)
  unfold parseDoubleEscaped
  have := fun (x : Ind × Buf) => loop_spec (σ := σ) (B := B) (n := n) (body := fun x : Ind × Buf => do
        setCheckpoint
        let r ← parseEmpty f x.1 .flowIn x.2
        if r.1 then do
          commit
          pure (true, r.2)
        else do
          let b ← truncate x.2.length r.2.2
          pure (false, r.2.1, b)) (fun r => x.2.length ≤ r.2.length) (fun y hy => .intro (fun t A hst hg => by
      wp
      · grind
      · exact ⟨(St.leak ‹_› ‹_›).adv, by grind⟩)) f n x (Nat.le_refl _) hf (Nat.le_refl _)
  wpg

theorem parseDoubleBreak_spec (hf : 2 * B + 1 < f + n) (ind : Ind) (buf : Buf) :
    Spec B n (parseDoubleBreak f ind buf : M σ (Bool × Ind × Buf))
      (fun r g g' => buf.length ≤ r.2.2.length ∧ (r.1 = true → g < g')) := by
  refine .intro (fun t A hst hg => ?_)
  unfold parseDoubleBreak
  wpg

theorem parseQuotedNextLine_spec {brk : Ind → Buf → M σ (Bool × Ind × Buf)} {cst : YamlChar.CharSet}
    (hf : 2 * B + 1 < f + n)
    (hb : ∀ ind buf, Spec B n (brk ind buf) (fun r g g' => buf.length ≤ r.2.2.length ∧ (r.1 = true → g < g'))) :
    ∀ (k n' : Nat) (ind : Ind) (buf : Buf), n ≤ n' → 2 * B + 1 < k + n' →
    Spec B n' (parseQuotedNextLine f cst brk k ind buf)
      (fun r g g' => buf.length ≤ r.2.2.length ∧ (r.1 = true → g < g')) := by
  intro k
  induction k with
  | zero =>
    intro n' ind buf _ hf' t A hr _ hg
    have := hr.g_le
    omega
  | succ k ih =>
    intro n' ind buf hn hf'
    refine .intro (fun t A hst hg => ?_)
    have hf1 : 2 * B + 1 < f + n' := by omega
    have ih' := fun ind buf => ih (n' + 1) ind buf (by omega) (by omega)
    clear ih
    unfold parseQuotedNextLine
    wpg

theorem parseQuotedMultiLine_spec {brk : Ind → Buf → M σ (Bool × Ind × Buf)} {cst : YamlChar.CharSet}
    (hf : 2 * B + 1 < f + n)
    (hb : ∀ ind buf, Spec B n (brk ind buf) (fun r g g' => buf.length ≤ r.2.2.length ∧ (r.1 = true → g < g')))
    (q : Quoting) (ind : Ind) :
    Spec B n (parseQuotedMultiLine f cst brk q ind) (fun r _ _ => NodeOk r.1) := by
  refine .intro (fun t A hst hg => ?_)
  have := fun ind buf => parseQuotedNextLine_spec (cst := cst) hf hb f n ind buf (Nat.le_refl _) hf
  unfold parseQuotedMultiLine
  wpg

theorem parseQuotedText_spec {brk : Ind → Buf → M σ (Bool × Ind × Buf)} {cst : YamlChar.CharSet}
    (hf : 2 * B + 1 < f + n)
    (hb : ∀ ind buf, Spec B n (brk ind buf) (fun r g g' => buf.length ≤ r.2.2.length ∧ (r.1 = true → g < g')))
    (q : Quoting) (ind : Ind) (ctx : PCtx) :
    Spec B n (parseQuotedText f cst brk q ind ctx) (fun r _ _ => NodeOk r.1) := by
  refine .intro (fun t A hst hg => ?_)
  unfold parseQuotedText
  wpg

theorem parseQuoted_spec {brk : Ind → Buf → M σ (Bool × Ind × Buf)} {cst : YamlChar.CharSet} {quote : TokType}
    (hq1 : quote ≠ .bom) (hq2 : quote ≠ .eof)
    (hf : 2 * B + 1 < f + n)
    (hb : ∀ ind buf, Spec B n (brk ind buf) (fun r g g' => buf.length ≤ r.2.2.length ∧ (r.1 = true → g < g')))
    (q : Quoting) (ind : Ind) (ctx : PCtx) :
    Spec B n (parseQuoted f quote cst brk q ind ctx) (fun r _ _ => NodeOk r.1) := by
  refine .intro (fun t A hst hg => ?_)
  unfold parseQuoted
  wpg

theorem parseDoubleQuoted_spec (hf : 2 * B + 1 < f + n) (ind : Ind) (ctx : PCtx) :
    Spec B n (parseDoubleQuoted f ind ctx : M σ (Node × Ind)) (fun r _ _ => NodeOk r.1) :=
  parseQuoted_spec (by decide) (by decide) hf (fun ind buf => parseDoubleBreak_spec hf ind buf) _ _ _

theorem parseSingleQuoted_spec (hf : 2 * B + 1 < f + n) (ind : Ind) (ctx : PCtx) :
    Spec B n (parseSingleQuoted f ind ctx : M σ (Node × Ind)) (fun r _ _ => NodeOk r.1) :=
  parseQuoted_spec (by decide) (by decide) hf (fun ind buf => parseFlowFolded_spec hf ind buf) _ _ _

/-! ### Flow nodes -/

theorem optSeparate_spec (hf : 2 * B + 1 < f + n) (ind : Ind) (ctx : PCtx) :
    Spec B n (optSeparate f ind ctx : M σ Ind) (fun _ _ _ => True) := by
  refine .intro (fun t A hst hg => ?_)
  unfold optSeparate
  wpg

/-- The specification of `parseFlowJSONContent`. -/
def JsonOk (B n : Nat) (json : Content σ) : Prop := ∀ ind ctx, Spec B n (json ind ctx) (fun r _ _ => NodeOk r.1)

theorem JsonOk.le {B n n' : Nat} {json : Content σ} (h : JsonOk B n json) (hn : n ≤ n') : JsonOk B n' json :=
  fun ind ctx => (h ind ctx).le hn

theorem parseGenericFlowNode_spec (hf : 2 * B + 1 < f + n) (ind : Ind) (ctx : PCtx) {content : Content σ}
    (hc : ∀ ind ctx, Spec B n (content ind ctx) (fun r _ _ => NodeOk r.1)) :
    Spec B n (parseGenericFlowNode f ind ctx content) (fun r _ _ => NodeOk r.1) := by
  refine .intro (fun t A hst hg => ?_)
  unfold parseGenericFlowNode
  wpg

variable {json : Content σ}

theorem parseFlowContent_spec (hj : JsonOk B n json) (hf : 2 * B + 1 < f + n) (ind : Ind) (ctx : PCtx) :
    Spec B n (parseFlowContent f json ind ctx) (fun r _ _ => NodeOk r.1) := by
  refine .intro (fun t A hst hg => ?_)
  have hj1 := fun ind ctx => hj ind ctx
  unfold parseFlowContent
  wpg

theorem parseFlowNode_spec (hj : JsonOk B n json) (hf : 2 * B + 1 < f + n) (ind : Ind) (ctx : PCtx) :
    Spec B n (parseFlowNode f json ind ctx) (fun r _ _ => NodeOk r.1) :=
  parseGenericFlowNode_spec hf ind ctx (fun ind ctx => parseFlowContent_spec hj hf ind ctx)

theorem parseFlowYAMLNode_spec (hf : 2 * B + 1 < f + n) (ind : Ind) (ctx : PCtx) :
    Spec B n (parseFlowYAMLNode f ind ctx : M σ (Node × Ind)) (fun r _ _ => NodeOk r.1) :=
  parseGenericFlowNode_spec hf ind ctx (fun ind ctx => parsePlain_spec hf ind ctx)

theorem parseFlowJSONNode_spec (hj : JsonOk B n json) (hf : 2 * B + 1 < f + n) (ind : Ind) (ctx : PCtx) :
    Spec B n (parseFlowJSONNode f json ind ctx) (fun r _ _ => NodeOk r.1) := by
  refine .intro (fun t A hst hg => ?_)
  have hj1 := fun ind ctx => hj ind ctx
  unfold parseFlowJSONNode
  wpg

theorem parseImplicitYAMLKey_spec (hf : 2 * B + 1 < f + n) (ctx : PCtx) :
    Spec B n (parseImplicitYAMLKey f ctx : M σ Node) (fun r _ _ => NodeOk r) := by
  refine .intro (fun t A hst hg => ?_)
  unfold parseImplicitYAMLKey
  wpg

theorem parseImplicitJSONKey_spec (hj : JsonOk B n json) (hf : 2 * B + 1 < f + n) (ctx : PCtx) :
    Spec B n (parseImplicitJSONKey f json ctx) (fun r _ _ => NodeOk r) := by
  refine .intro (fun t A hst hg => ?_)
  have hj1 := fun ind ctx => hj ind ctx
  unfold parseImplicitJSONKey
  wpg

theorem parseFlowMappingSeparateValue_spec (hj : JsonOk B n json) (hf : 2 * B + 1 < f + n) (ind : Ind) (ctx : PCtx) :
    Spec B n (parseFlowMappingSeparateValue f json ind ctx) (fun r _ _ => NodeOk r.1) := by
  refine .intro (fun t A hst hg => ?_)
  have hj1 := fun ind ctx => hj ind ctx
  unfold parseFlowMappingSeparateValue
  wpg

theorem parseFlowMappingAdjacentValue_spec (hj : JsonOk B n json) (hf : 2 * B + 1 < f + n) (ind : Ind) (ctx : PCtx) :
    Spec B n (parseFlowMappingAdjacentValue f json ind ctx) (fun r _ _ => NodeOk r.1) := by
  refine .intro (fun t A hst hg => ?_)
  have hj1 := fun ind ctx => hj ind ctx
  unfold parseFlowMappingAdjacentValue
  wpg

theorem parseFlowMappingEmptyKeyEntry_spec (hj : JsonOk B n json) (hf : 2 * B + 1 < f + n) (ind : Ind) (ctx : PCtx) :
    Spec B n (parseFlowMappingEmptyKeyEntry f json ind ctx) (fun r _ _ => EntryOk r.1) := by
  refine .intro (fun t A hst hg => ?_)
  have hj1 := fun ind ctx => hj ind ctx
  unfold parseFlowMappingEmptyKeyEntry
  wpg

theorem parseFlowMappingYAMLKeyEntry_spec (hj : JsonOk B n json) (hf : 2 * B + 1 < f + n) (ind : Ind) (ctx : PCtx) :
    Spec B n (parseFlowMappingYAMLKeyEntry f json ind ctx) (fun r _ _ => EntryOk r.1) := by
  refine .intro (fun t A hst hg => ?_)
  have hj1 := fun ind ctx => hj ind ctx
  unfold parseFlowMappingYAMLKeyEntry
  wpg

theorem parseFlowMappingJSONKeyEntry_spec (hj : JsonOk B n json) (hf : 2 * B + 1 < f + n) (ind : Ind) (ctx : PCtx) :
    Spec B n (parseFlowMappingJSONKeyEntry f json ind ctx) (fun r _ _ => EntryOk r.1) := by
  refine .intro (fun t A hst hg => ?_)
  have hj1 := fun ind ctx => hj ind ctx
  unfold parseFlowMappingJSONKeyEntry
  wpg

theorem parseFlowMappingImplicitEntry_spec (hj : JsonOk B n json) (hf : 2 * B + 1 < f + n) (ind : Ind) (ctx : PCtx) :
    Spec B n (parseFlowMappingImplicitEntry f json ind ctx) (fun r _ _ => EntryOk r.1) := by
  refine .intro (fun t A hst hg => ?_)
  have hj1 := fun ind ctx => hj ind ctx
  unfold parseFlowMappingImplicitEntry
  wpg

theorem parseFlowMappingExplicitEntry_spec (hj : JsonOk B n json) (hf : 2 * B + 1 < f + n) (ind : Ind) (ctx : PCtx) :
    Spec B n (parseFlowMappingExplicitEntry f json ind ctx) (fun r _ _ => EntryOk r.1) := by
  refine .intro (fun t A hst hg => ?_)
  have hj1 := fun ind ctx => hj ind ctx
  unfold parseFlowMappingExplicitEntry
  wpg

theorem parseFlowMappingEntry_spec (hj : JsonOk B n json) (hf : 2 * B + 1 < f + n) (ind : Ind) (ctx : PCtx) :
    Spec B n (parseFlowMappingEntry f json ind ctx) (fun r _ _ => EntryOk r.1) := by
  refine .intro (fun t A hst hg => ?_)
  have hj1 := fun ind ctx => hj ind ctx
  unfold parseFlowMappingEntry
  wpg

theorem flowMappingEntries_spec (hj : JsonOk B n json) (hf : 2 * B + 1 < f + n) (ctx : PCtx) (x : List Node × Ind)
    (hx : EntriesOk x.1) : Spec B n (flowMappingEntries f json ctx x) (fun r _ _ => EntriesOk r.1) := by
  refine loop_spec (σ := σ) (fun r => EntriesOk r.1) (fun y hy => .intro (fun t A hst hg => ?_)) f n x (Nat.le_refl _) hf hx
  wpg

theorem parseFlowMappingEntries_spec (hj : JsonOk B n json) (hf : 2 * B + 1 < f + n) (ind : Ind) (ctx : PCtx) :
    Spec B n (parseFlowMappingEntries f json ind ctx) (fun r _ _ => NodeOk r.1) := by
  refine .intro (fun t A hst hg => ?_)
  unfold parseFlowMappingEntries
  iterate 3 wp1
  · wpg
  iterate 2 wp1
  rename_i r _ _ _ _ hr
  by_cases hv : validNode r.1 = true
  · have := flowMappingEntries_spec hj hf ctx ([r.1], r.2) (entriesOk_one hr.1 hr.2 hv)
    wpg
  · wpg

theorem parseFlowMapping_spec (hj : JsonOk B (n + 1) json) (hf : 2 * B + 1 < f + n) (ind : Ind) (ctx : PCtx) :
    Spec B n (parseFlowMapping f json ind ctx) (fun r _ _ => NodeOk r.1) := by
  refine .intro (fun t A hst hg => ?_)
  have hf1 : 2 * B + 1 < f + (n + 1) := by omega
  have hj1 := fun ind ctx => hj ind ctx
  unfold parseFlowMapping
  wpg

theorem parseFlowPairJSONKeyEntry_spec (hj : JsonOk B n json) (hf : 2 * B + 1 < f + n) (ind : Ind) (ctx : PCtx) :
    Spec B n (parseFlowPairJSONKeyEntry f json ind ctx) (fun r _ _ => EntryOk r.1) := by
  refine .intro (fun t A hst hg => ?_)
  have hj1 := fun ind ctx => hj ind ctx
  unfold parseFlowPairJSONKeyEntry
  wpg

theorem parseFlowPairYAMLKeyEntry_spec (hj : JsonOk B n json) (hf : 2 * B + 1 < f + n) (ind : Ind) (ctx : PCtx) :
    Spec B n (parseFlowPairYAMLKeyEntry f json ind ctx) (fun r _ _ => EntryOk r.1) := by
  refine .intro (fun t A hst hg => ?_)
  have hj1 := fun ind ctx => hj ind ctx
  unfold parseFlowPairYAMLKeyEntry
  wpg

theorem parseFlowPairEntry_spec (hj : JsonOk B n json) (hf : 2 * B + 1 < f + n) (ind : Ind) (ctx : PCtx) :
    Spec B n (parseFlowPairEntry f json ind ctx) (fun r _ _ => EntryOk r.1) := by
  refine .intro (fun t A hst hg => ?_)
  have hj1 := fun ind ctx => hj ind ctx
  unfold parseFlowPairEntry
  wpg

theorem parseFlowPair_spec (hj : JsonOk B n json) (hf : 2 * B + 1 < f + n) (ind : Ind) (ctx : PCtx) :
    Spec B n (parseFlowPair f json ind ctx) (fun r _ _ => EntryOk r.1) := by
  refine .intro (fun t A hst hg => ?_)
  have hj1 := fun ind ctx => hj ind ctx
  unfold parseFlowPair
  wpg

theorem parseFlowSequenceEntry_spec (hj : JsonOk B n json) (hf : 2 * B + 1 < f + n) (ind : Ind) (ctx : PCtx) :
    Spec B n (parseFlowSequenceEntry f json ind ctx) (fun r _ _ => NodeOk r.1) := by
  refine .intro (fun t A hst hg => ?_)
  have hj1 := fun ind ctx => hj ind ctx
  unfold parseFlowSequenceEntry
  wpg

theorem flowSequenceEntries_spec (hj : JsonOk B n json) (hf : 2 * B + 1 < f + n) (ctx : PCtx) (x : List Node × Ind)
    (hx : ElemsOk x.1) : Spec B n (flowSequenceEntries f json ctx x) (fun r _ _ => ElemsOk r.1) := by
  refine loop_spec (σ := σ) (fun r => ElemsOk r.1) (fun y hy => .intro (fun t A hst hg => ?_)) f n x (Nat.le_refl _) hf hx
  wpg

theorem parseFlowSequenceEntries_spec (hj : JsonOk B n json) (hf : 2 * B + 1 < f + n) (ind : Ind) (ctx : PCtx) :
    Spec B n (parseFlowSequenceEntries f json ind ctx) (fun r _ _ => NodeOk r.1) := by
  refine .intro (fun t A hst hg => ?_)
  unfold parseFlowSequenceEntries
  iterate 3 wp1
  · wpg
  iterate 2 wp1
  rename_i r _ _ _ _ hr
  by_cases hv : validNode r.1 = true
  · have := flowSequenceEntries_spec hj hf ctx ([r.1], r.2) (elemsOk_one hr hv)
    wpg
  · wpg

theorem parseInFlow_spec (hj : JsonOk B n json) (hf : 2 * B + 1 < f + n) (ind : Ind) (ctx : PCtx) :
    Spec B n (parseInFlow f json ind ctx) (fun r _ _ => NodeOk r.1) := by
  refine .intro (fun t A hst hg => ?_)
  have hj1 := fun ind ctx => hj ind ctx
  unfold parseInFlow
  wpg

theorem parseFlowSequence_spec (hj : JsonOk B (n + 1) json) (hf : 2 * B + 1 < f + n) (ind : Ind) (ctx : PCtx) :
    Spec B n (parseFlowSequence f json ind ctx) (fun r _ _ => NodeOk r.1) := by
  refine .intro (fun t A hst hg => ?_)
  have hf1 : 2 * B + 1 < f + (n + 1) := by omega
  have hj1 := fun ind ctx => hj ind ctx
  unfold parseFlowSequence
  wpg

theorem parseFlowJSONContent_spec (hj : JsonOk B (n + 1) json) (hf : 2 * B + 1 < f + n) (ind : Ind) (ctx : PCtx) :
    Spec B n (parseFlowJSONContent f json ind ctx) (fun r _ _ => NodeOk r.1) := by
  refine .intro (fun t A hst hg => ?_)
  have hj1 := fun ind ctx => hj ind ctx
  unfold parseFlowJSONContent
  wpg

theorem parseFlowInBlock_spec (hj : JsonOk B n json) (hf : 2 * B + 1 < f + n) (ind : Ind) :
    Spec B n (parseFlowInBlock f json ind) (fun r _ _ => NodeOk r) := by
  refine .intro (fun t A hst hg => ?_)
  have hj1 := fun ind ctx => hj ind ctx
  unfold parseFlowInBlock
  wpg

end Verif.Parser
