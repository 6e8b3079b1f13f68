import Verif.Lemmas.TextFlow
import Verif.Model.ParserDocs

/-!
What the productions of block nodes have read.
-/

set_option linter.unusedSimpArgs false
set_option linter.unusedSectionVars false
set_option linter.unusedVariables false
set_option linter.unnecessarySeqFocus false

namespace Verif.Parser

open Verif.Token Verif.Lexer Verif.Ast Verif.Spec.Says

variable {σ α β : Type} [TokenStream σ] [StreamOk σ] [TextStream σ]

variable {B f : Nat} {S : List Char}

/-! ### Literal and folded scalars -/

theorem rawLine_t {buf : Buf} : TSpec B S (rawLine f buf : M σ Buf) (fun r A A' => Wr A.x A'.x buf r) := by
  refine .intro (fun t A hst => ?_)
  unfold rawLine
  tp <;> grind [Wr.wide]

theorem literalEmpties_t (x : Ind × Buf) : TSpec B S (tries f (fun x => (parseEmpty f x.1 .blockIn x.2 : M σ (Bool × Ind × Buf))) x)
    (fun y A A' => Wr A.x A'.x x.2 y.2) := by
  refine tries_t (σ := σ) (fun A A' x y => Wr A.x A'.x x.2 y.2) (fun x => .intro (fun t A hst => ?_)) ?_ x
  · tp
    all_goals grind [Wr.wide, Wr.refl]
  · grind [Wr.trans]

theorem parseLiteralText_t {ind : Ind} {buf : Buf} :
    TSpec B S (parseLiteralText f ind buf : M σ (Bool × Ind × Buf)) (fun r A A' => Wrote A.x A'.x buf r.1 r.2.2) := by
  refine .intro (fun t A hst => ?_)
  have := literalEmpties_t (σ := σ) (B := B) (S := S) (f := f)
  unfold parseLiteralText
  tp <;> grind [Wrote, Wr.wide, Wr.pre, Pre.refl]

theorem parseLiteralNext_t {ind : Ind} {buf : Buf} :
    TSpec B S (parseLiteralNext f ind buf : M σ (Bool × Ind × Buf)) (fun r A A' => Wrote A.x A'.x buf r.1 r.2.2) := by
  refine .intro (fun t A hst => ?_)
  have h1 : Wr A.x A.x buf buf := Wr.refl _ (List.prefix_refl _)
  unfold parseLiteralNext
  tp <;> grind [Wrote, Wr.wide, Wr.pre, Pre.refl, Pre.take]

theorem parseTrailComments_t {ind : Ind} : TSpec B S (parseTrailComments f ind : M σ Bool) (fun r A A' => True) := by
  refine .intro (fun t A hst => ?_)
  unfold parseTrailComments
  tp <;> grind

theorem parseStripEmpty_t {ind : Ind} : TSpec B S (parseStripEmpty f ind : M σ Bool) (fun r A A' => True) := by
  refine .intro (fun t A hst => ?_)
  have := tries_t (σ := σ) (B := B) (S := S) (f := f)
    (body := fun u => do
      let i ← parseIndentLessThanOrEqual ind.value
      if !i then pure (false, u) else
      let t ← tok
      if t.type ≠ .lineBreak then pure (false, u) else do
      next
      pure (true, u)) (fun _ _ _ _ => True)
    (fun y => .intro (fun t A hst => by tp <;> grind)) (by grind) ()
  unfold parseStripEmpty
  tp <;> grind

theorem parseKeepEmpty_t {ind : Ind} {buf : Buf} :
    TSpec B S (parseKeepEmpty f ind buf : M σ (Bool × Ind × Buf)) (fun r A A' => Wr A.x A'.x buf r.2.2) := by
  refine .intro (fun t A hst => ?_)
  unfold parseKeepEmpty
  tp <;> grind [Wr.wide, Wr.refl, Pre.take, Pre.refl]

theorem parseChompedEmpty_t {ind : Ind} {ch : Chomping} {buf : Buf} :
    TSpec B S (parseChompedEmpty f ind ch buf : M σ (Bool × Ind × Buf)) (fun r A A' => Wr A.x A'.x buf r.2.2) := by
  refine .intro (fun t A hst => ?_)
  unfold parseChompedEmpty
  tp <;> grind [Wr.refl]

theorem parseChompedLast_t {ch : Chomping} (hc : ch ≠ .unknown) {buf : Buf} :
    TSpec B S (parseChompedLast ch buf : M σ (Bool × Buf)) (fun r A A' => Wr A.x A'.x buf r.2) := by
  refine .intro (fun t A hst => ?_)
  have h1 : Wr A.x A.x buf buf := Wr.refl _ (List.prefix_refl _)
  unfold parseChompedLast
  tp <;> grind [Wr.wide]

theorem literalLines_t {x : Ind × Buf} :
    TSpec B S (literalLines f x : M σ (Ind × Buf)) (fun y A A' => Wr A.x A'.x x.2 y.2) := by
  refine tries_t (σ := σ) (fun A A' x y => Wr A.x A'.x x.2 y.2) (fun x => .intro (fun t A hst => ?_)) ?_ x
  · tp
    all_goals grind [Wrote, Wr.wide, Wr.refl, Pre.take]
  · grind [Wr.trans]

theorem parseLiteralContent_t {ind : Ind} {ch : Chomping} (hc : ch ≠ .unknown) :
    TSpec B S (parseLiteralContent f ind ch : M σ Node) (fun r A A' => validNode r = true → Saying A.x A'.x r) := by
  refine .intro (fun t A hst => ?_)
  have := invalid_invalid
  unfold parseLiteralContent
  tp <;> grind [Wrote, Wr.wide, Wr.trans, texting, Texting.saying]

theorem parseLiteral_t {ind : Ind} :
    TSpec B S (parseLiteral f ind : M σ Node) (fun r A A' => validNode r = true → Saying A.x A'.x r) := by
  refine .intro (fun t A hst => ?_)
  have := invalid_invalid
  unfold parseLiteral
  iterate 4 tp1
  · tp <;> grind
  iterate 3 tp1
  · tp <;> grind
  iterate 4 tp1
  rename_i h _ _ _ _ hh
  cases h with
  | none => tp <;> grind
  | some h =>
    have : h.1 ≠ .unknown := by grind
    dsimp only
    tp <;> grind [Saying.wide]

theorem parseFoldedText_t {ind : Ind} {buf : Buf} :
    TSpec B S (parseFoldedText f ind buf : M σ (Bool × Ind × Buf)) (fun r A A' => Wrote A.x A'.x buf r.1 r.2.2) := by
  refine .intro (fun t A hst => ?_)
  have h1 : Wr A.x A.x buf buf := Wr.refl _ (List.prefix_refl _)
  unfold parseFoldedText
  tp <;> grind [Wrote, Wr.wide, Wr.pre, Pre.refl]

theorem parseSpacedText_t {ind : Ind} {buf : Buf} :
    TSpec B S (parseSpacedText f ind buf : M σ (Bool × Ind × Buf)) (fun r A A' => Wrote A.x A'.x buf r.1 r.2.2) := by
  refine .intro (fun t A hst => ?_)
  have h1 : Wr A.x A.x buf buf := Wr.refl _ (List.prefix_refl _)
  unfold parseSpacedText
  tp <;> grind [Wrote, Wr.wide, Wr.pre, Pre.refl]

theorem parseSpacedLineBreak_t {ind : Ind} {buf : Buf} :
    TSpec B S (parseSpacedLineBreak f ind buf : M σ (Bool × Ind × Buf)) (fun r A A' => Wrote A.x A'.x buf r.1 r.2.2) := by
  refine .intro (fun t A hst => ?_)
  have h1 : ink t.tok.origin = [] → Wr A.x A.x buf (buf ++ t.tok.origin) := fun h => Wr.soft _ h (List.prefix_refl _)
  unfold parseSpacedLineBreak
  tp <;> grind [Wrote, Wr.wide, Wr.pre, Pre.refl, Orig.lineBreak]

theorem linesWith_t {brk line : Ind → Buf → M σ (Bool × Ind × Buf)}
    (hb : ∀ ind buf, TSpec B S (brk ind buf) (fun r A A' => Wrote A.x A'.x buf r.1 r.2.2))
    (hl : ∀ ind buf, TSpec B S (line ind buf) (fun r A A' => Wrote A.x A'.x buf r.1 r.2.2)) {x : Ind × Buf} :
    TSpec B S (linesWith f brk line x) (fun y A A' => Wr A.x A'.x x.2 y.2) := by
  refine tries_t (σ := σ) (fun A A' x y => Wr A.x A'.x x.2 y.2) (fun x => .intro (fun t A hst => ?_)) ?_ x
  · tp
    all_goals grind [Wrote, Wr.wide, Wr.refl, Pre.take, Wr.pre]
  · grind [Wr.trans]

theorem parseSpacedLines_t {ind : Ind} {buf : Buf} :
    TSpec B S (parseSpacedLines f ind buf : M σ (Bool × Ind × Buf)) (fun r A A' => Wrote A.x A'.x buf r.1 r.2.2) := by
  refine .intro (fun t A hst => ?_)
  have := fun x => linesWith_t (σ := σ) (B := B) (S := S) (f := f) (fun ind buf => parseSpacedLineBreak_t (f := f) (ind := ind) (buf := buf))
    (fun ind buf => parseSpacedText_t (f := f) (ind := ind) (buf := buf)) (x := x)
  unfold parseSpacedLines
  tp <;> grind [Wrote, Wr.wide, Wr.pre, Pre.refl]

theorem parseFoldedLines_t {ind : Ind} {buf : Buf} :
    TSpec B S (parseFoldedLines f ind buf : M σ (Bool × Ind × Buf)) (fun r A A' => Wrote A.x A'.x buf r.1 r.2.2) := by
  refine .intro (fun t A hst => ?_)
  have := fun x => linesWith_t (σ := σ) (B := B) (S := S) (f := f)
    (brk := fun i b => parseFoldedLineBreak f i .blockIn b)
    (fun ind buf => parseFoldedLineBreak_t (f := f) (ind := ind) (buf := buf))
    (fun ind buf => parseFoldedText_t (f := f) (ind := ind) (buf := buf)) (x := x)
  unfold parseFoldedLines
  tp <;> grind [Wrote, Wr.wide, Wr.pre, Pre.refl]

theorem Wrote.take {g g' : Txt} {a b r : Buf} {ok : Bool} (h : Wrote g g' (List.take a.length b) ok r) (h1 : Pre a b) :
    Wrote g g' a ok r := by
  rwa [h1.take] at h

theorem parseSameLines_t {ind : Ind} {buf : Buf} :
    TSpec B S (parseSameLines f ind buf : M σ (Bool × Ind × Buf)) (fun r A A' => Wrote A.x A'.x buf r.1 r.2.2) := by
  refine .intro (fun t A hst => ?_)
  unfold parseSameLines
  tp
  all_goals first
    | grind [Wrote, Wr.wide, Wr.pre, Pre.refl, Pre.take]
    | (rename_i h11 h12 x9 x10 h13 h14 h15 x11 x12 x13 h16 h17 h18 h19
       have h0 : Wr A.x _ buf _ := ‹Wr A.x _ _ _›
       have h2 : Pre buf x11.2.2 := h0.pre.trans (h18.take h11.1).1
       exact ⟨by rw [h2.take]; exact .refl _, nofun⟩)

theorem diffLines_t {x : Ind × Buf} :
    TSpec B S (diffLines f x : M σ (Ind × Buf)) (fun y A A' => Wr A.x A'.x x.2 y.2) := by
  refine tries_t (σ := σ) (fun A A' x y => Wr A.x A'.x x.2 y.2) (fun x => .intro (fun t A hst => ?_)) ?_ x
  · have h1 : Wr A.x A.x x.2 x.2 := Wr.refl _ (List.prefix_refl _)
    tp
    all_goals grind [Wrote, Wr.wide, Pre.take, Wr.pre, Pre.refl, Pre.app]
  · grind [Wr.trans]

theorem parseDiffLines_t {ind : Ind} {buf : Buf} :
    TSpec B S (parseDiffLines f ind buf : M σ (Bool × Ind × Buf)) (fun r A A' => Wrote A.x A'.x buf r.1 r.2.2) := by
  refine .intro (fun t A hst => ?_)
  unfold parseDiffLines
  tp <;> grind [Wrote, Wr.wide, Wr.pre, Pre.refl]

theorem parseFoldedContent_t {ind : Ind} {ch : Chomping} (hc : ch ≠ .unknown) :
    TSpec B S (parseFoldedContent f ind ch : M σ Node) (fun r A A' => validNode r = true → Saying A.x A'.x r) := by
  refine .intro (fun t A hst => ?_)
  have := invalid_invalid
  unfold parseFoldedContent
  tp <;> grind [Wrote, Wr.wide, Wr.trans, texting, Texting.saying]

theorem parseFolded_t {ind : Ind} :
    TSpec B S (parseFolded f ind : M σ Node) (fun r A A' => validNode r = true → Saying A.x A'.x r) := by
  refine .intro (fun t A hst => ?_)
  have := invalid_invalid
  unfold parseFolded
  iterate 4 tp1
  · tp <;> grind
  iterate 3 tp1
  · tp <;> grind
  iterate 4 tp1
  rename_i h _ _ _ _ hh
  cases h with
  | none => tp <;> grind
  | some h =>
    have : h.1 ≠ .unknown := by grind
    dsimp only
    tp <;> grind [Saying.wide]

theorem parseBlockScalar_t {ind : Ind} {ctx : PCtx} :
    TSpec B S (parseBlockScalar f ind ctx : M σ (Node × Ind)) (fun r A A' => okNode r = true → Saying A.x A'.x r.1) := by
  refine .intro (fun t A hst => ?_)
  have := invalid_invalid
  have : validNode .nil = false := rfl
  unfold parseBlockScalar
  tp <;> grind [okNode, saying_content, saying_bare]

/-! ### Collections -/

section Block

variable {c : Calls σ} (hj : JsonT B S c.json) (hn : ContentT B S c.node) (hi : ContentT B S c.indented) {ind : Ind} {ctx : PCtx}

/-- A list which grows with the entries. -/
theorem blockEntries_t {entry : Ind → M σ (Node × Ind)} {E : Txt → Txt → Node → Prop} {L : Txt → Txt → List Node → Prop}
    (he : ∀ ind, TSpec B S (entry ind) (fun r A A' => okNode r = true → E A.x A'.x r.1))
    (hw : ∀ {g a b es}, L g a es → a ≤ b → L g b es)
    (hL : ∀ {g a b c g' es n}, L g a es → E b c n → a ≤ b → c ≤ g' → L g g' (es ++ [n])) {x : List Node × Ind} :
    TSpec B S (blockEntries f entry x) (fun y A A' => ∀ g, L g A.x x.1 → L g A'.x y.1) := by
  refine tries_t (σ := σ) (fun A A' x y => ∀ g, L g A.x x.1 → L g A'.x y.1) (fun x => .intro (fun t A hst => ?_)) (by grind) x
  tp
  all_goals grind [okNode]

/-- A dash and a value. -/
def Dashing (g g' : Txt) (n : Node) : Prop := ∃ u, Says n u ∧ Btw g g' ('-' :: u)

theorem dashing {g g' a b c d : Txt} {n : Node} (h1 : Btw a b ['-']) (h2 : Saying c d n) (l1 : g ≤ a) (l2 : b ≤ c) (l3 : d ≤ g') :
    Dashing g g' n := by
  obtain ⟨u, hu, hb⟩ := h2
  exact ⟨u, hu, (h1.app l2 hb).wide l1 l3⟩

/-- The entries of a block sequence. -/
def DashList (g g' : Txt) (es : List Node) : Prop := ∃ u, Dashed es u ∧ Btw g g' u

theorem DashList.wide {a b c d : Txt} {n : List Node} (h : DashList b c n) (h1 : a ≤ b) (h2 : c ≤ d) : DashList a d n := by
  obtain ⟨u, hu, hb⟩ := h
  exact ⟨u, hu, hb.wide h1 h2⟩

theorem dashList_one {g g' : Txt} {n : Node} (h : Dashing g g' n) : DashList g g' [n] := by
  obtain ⟨u, hu, hb⟩ := h
  exact ⟨_, .one _ _ hu, hb⟩

theorem dashList_more {g a b c g' : Txt} {es : List Node} {n : Node} (h1 : DashList g a es) (h2 : Dashing b c n)
    (l1 : a ≤ b) (l2 : c ≤ g') : DashList g g' (es ++ [n]) := by
  obtain ⟨u, hu, hb⟩ := h1
  obtain ⟨w, hw, hd⟩ := h2
  exact ⟨_, .more _ _ _ _ hu hw, (hb.app l1 hd).wide (List.prefix_refl _) l2⟩

/-- The entries of a block mapping. -/
def EntryList (g g' : Txt) (es : List Node) : Prop := ∃ u, Listed es u ∧ Btw g g' u

theorem EntryList.wide {a b c d : Txt} {n : List Node} (h : EntryList b c n) (h1 : a ≤ b) (h2 : c ≤ d) : EntryList a d n := by
  obtain ⟨u, hu, hb⟩ := h
  exact ⟨u, hu, hb.wide h1 h2⟩

theorem entryList_one {g g' : Txt} {n : Node} (h : Saying g g' n) : EntryList g g' [n] := by
  obtain ⟨u, hu, hb⟩ := h
  exact ⟨_, .one _ _ hu, hb⟩

theorem entryList_more {g a b c g' : Txt} {es : List Node} {n : Node} (h1 : EntryList g a es) (h2 : Saying b c n)
    (l1 : a ≤ b) (l2 : c ≤ g') : EntryList g g' (es ++ [n]) := by
  obtain ⟨u, hu, hb⟩ := h1
  obtain ⟨w, hw, hd⟩ := h2
  exact ⟨_, .more _ _ _ _ hu hw, (hb.app l1 hd).wide (List.prefix_refl _) l2⟩

theorem saying_dashed {g g' a b : Txt} {es : List Node} (h : DashList a b es) (l1 : g ≤ a) (l2 : b ≤ g') :
    Saying g g' (.sequence es) := by
  obtain ⟨u, hu, hb⟩ := h
  exact ⟨_, .dashed _ _ hu, hb.wide l1 l2⟩

theorem saying_listed {g g' a b : Txt} {es : List Node} (h : EntryList a b es) (l1 : g ≤ a) (l2 : b ≤ g') :
    Saying g g' (.mapping es) := by
  obtain ⟨u, hu, hb⟩ := h
  exact ⟨_, .listed _ _ hu, hb.wide l1 l2⟩

include hi

theorem parseBlockSequenceEntry_t :
    TSpec B S (parseBlockSequenceEntry c ind) (fun r A A' => okNode r = true → Dashing A.x A'.x r.1) := by
  refine .intro (fun t A hst => ?_)
  have := invalid_invalid
  unfold ContentT at hi
  unfold parseBlockSequenceEntry
  tp <;> grind [okNode, dashing, Orig.sequenceEntry]

theorem dashes_t {x : List Node × Ind} : TSpec B S (blockEntries f (parseBlockSequenceEntry c) x)
    (fun y A A' => ∀ g, DashList g A.x x.1 → DashList g A'.x y.1) :=
  blockEntries_t (L := DashList) (fun _ => parseBlockSequenceEntry_t hi) (fun h1 h2 => h1.wide (List.prefix_refl _) h2) dashList_more

theorem parseBlockSequence_t :
    TSpec B S (parseBlockSequence f c ind) (fun r A A' => validNode r = true → Saying A.x A'.x r) := by
  refine .intro (fun t A hst => ?_)
  have := invalid_invalid
  have := fun x => dashes_t (f := f) hi (x := x)
  unfold parseBlockSequence
  tp <;> grind [okNode, → dashList_one, saying_dashed]

theorem parseCompactSequence_t :
    TSpec B S (parseCompactSequence f c ind) (fun r A A' => okNode r = true → Saying A.x A'.x r.1) := by
  refine .intro (fun t A hst => ?_)
  have := invalid_invalid
  have := fun x => dashes_t (f := f) hi (x := x)
  unfold parseCompactSequence
  tp <;> grind [okNode, → dashList_one, saying_dashed]

theorem parseSeqSpace_t :
    TSpec B S (parseSeqSpace f c ind ctx) (fun r A A' => validNode r = true → Saying A.x A'.x r) := by
  refine .intro (fun t A hst => ?_)
  have := invalid_invalid
  unfold parseSeqSpace
  tp <;> grind [okNode]

theorem parseBlockMappingExplicitValue_t :
    TSpec B S (parseBlockMappingExplicitValue f c ind) (fun r A A' => okNode r = true → Valued A.x A'.x r.1) := by
  refine .intro (fun t A hst => ?_)
  have := invalid_invalid
  unfold ContentT at hi
  unfold parseBlockMappingExplicitValue
  tp <;> grind [okNode, valued, Orig.mappingValue]

theorem parseBlockMappingExplicitKey_t :
    TSpec B S (parseBlockMappingExplicitKey c ind) (fun r A A' => okNode r = true → Saying A.x A'.x r.1) := by
  refine .intro (fun t A hst => ?_)
  have := invalid_invalid
  unfold ContentT at hi
  unfold parseBlockMappingExplicitKey
  tp <;> grind [okNode, Saying.wide]

theorem parseBlockMappingExplicitEntry_t :
    TSpec B S (parseBlockMappingExplicitEntry f c ind) (fun r A A' => okNode r = true → Saying A.x A'.x r.1) := by
  refine .intro (fun t A hst => ?_)
  have := invalid_invalid
  unfold parseBlockMappingExplicitEntry
  tp <;> grind [okNode, saying_entry, saying_key]

omit hi

include hj

theorem parseBlockMappingImplicitKey_t :
    TSpec B S (parseBlockMappingImplicitKey f c) (fun r A A' => validNode r = true → Saying A.x A'.x r) := by
  refine .intro (fun t A hst => ?_)
  have := invalid_invalid
  unfold parseBlockMappingImplicitKey
  tp <;> grind [Saying.wide]

omit hj

include hn

theorem parseBlockMappingImplicitValue_t :
    TSpec B S (parseBlockMappingImplicitValue f c ind) (fun r A A' => okNode r = true → Valued A.x A'.x r.1) := by
  refine .intro (fun t A hst => ?_)
  have := invalid_invalid
  unfold ContentT at hn
  unfold parseBlockMappingImplicitValue
  tp <;> grind [okNode, valued, valued_null, Orig.mappingValue]

include hj

theorem parseBlockMappingImplicitEntry_t :
    TSpec B S (parseBlockMappingImplicitEntry f c ind) (fun r A A' => okNode r = true → Saying A.x A'.x r.1) := by
  refine .intro (fun t A hst => ?_)
  have := invalid_invalid
  unfold parseBlockMappingImplicitEntry
  tp <;> grind [okNode, saying_entry, saying_noKey, Valued.wide]

include hi

theorem parseBlockMappingEntry_t :
    TSpec B S (parseBlockMappingEntry f c ind) (fun r A A' => okNode r = true → Saying A.x A'.x r.1) := by
  refine .intro (fun t A hst => ?_)
  have := invalid_invalid
  unfold parseBlockMappingEntry
  tp <;> grind [okNode]

theorem entries_t {x : List Node × Ind} : TSpec B S (blockEntries f (parseBlockMappingEntry f c) x)
    (fun y A A' => ∀ g, EntryList g A.x x.1 → EntryList g A'.x y.1) :=
  blockEntries_t (L := EntryList) (fun _ => parseBlockMappingEntry_t hj hn hi) (fun h1 h2 => h1.wide (List.prefix_refl _) h2)
    entryList_more

theorem parseBlockMapping_t :
    TSpec B S (parseBlockMapping f c ind) (fun r A A' => validNode r = true → Saying A.x A'.x r) := by
  refine .intro (fun t A hst => ?_)
  have := invalid_invalid
  have := fun x => entries_t (f := f) hj hn hi (x := x)
  unfold parseBlockMapping
  tp <;> grind [okNode, → entryList_one, saying_listed]

theorem parseCompactMapping_t :
    TSpec B S (parseCompactMapping f c ind) (fun r A A' => okNode r = true → Saying A.x A'.x r.1) := by
  refine .intro (fun t A hst => ?_)
  have := invalid_invalid
  have := fun x => entries_t (f := f) hj hn hi (x := x)
  unfold parseCompactMapping
  tp <;> grind [okNode, → entryList_one, saying_listed]

theorem parseBlockCollection_t :
    TSpec B S (parseBlockCollection f c ind ctx) (fun r A A' => okNode r = true → Saying A.x A'.x r.1) := by
  refine .intro (fun t A hst => ?_)
  have := invalid_invalid
  unfold parseBlockCollection
  tp <;> grind [okNode, saying_content, saying_bare]

theorem parseBlockInBlock_t :
    TSpec B S (parseBlockInBlock f c ind ctx) (fun r A A' => okNode r = true → Saying A.x A'.x r.1) := by
  refine .intro (fun t A hst => ?_)
  have := invalid_invalid
  unfold parseBlockInBlock
  tp <;> grind [okNode, Saying.wide]

theorem parseBlockNode_t : ContentT B S (parseBlockNode f c) := by
  intro ind ctx
  refine .intro (fun t A hst => ?_)
  have := invalid_invalid
  unfold parseBlockNode
  tp <;> grind [okNode, Saying.wide]

theorem parseBlockIndented_t : ContentT B S (parseBlockIndented f c) := by
  intro ind ctx
  refine .intro (fun t A hst => ?_)
  have := invalid_invalid
  have : ∀ ind ctx, TSpec B S (parseBlockNode f c ind ctx) _ := parseBlockNode_t hj hn hi
  unfold parseBlockIndented
  tp <;> grind [okNode, Saying.wide, saying_null]

end Block

/-- All productions say their text. -/
theorem calls_t : ∀ f, JsonT B S (calls (σ := σ) f).json ∧ ContentT B S (calls (σ := σ) f).node ∧
    ContentT B S (calls (σ := σ) f).indented := by
  intro f
  induction f with
  | zero =>
    refine ⟨fun _ _ => ?_, fun _ _ => ?_, fun _ _ => ?_⟩ <;>
    · intro t A _ _ _ a t' e
      cases e
  | succ f ih =>
    obtain ⟨hj, hn, hi⟩ := ih
    exact ⟨parseFlowJSONContent_t hj, parseBlockNode_t hj hn hi, parseBlockIndented_t hj hn hi⟩

end Verif.Parser
