import Verif.Lemmas.Krfl
import Verif.Lemmas.ParserEntry
import Verif.Lemmas.Writer
import Verif.Spec.Tree
import Verif.Spec.TreeEq

/-! C09, C10, C11, C22, C42: the parser of the yayamls engine (`engines/yayamls/parser`). -/

namespace Verif.Props.Parser

open Verif.Token Verif.Lexer Verif.Ast Verif.Parser

/-- What the global pools may contain when a parse starts: everything that earlier parses left (with any source, any
options, and any of the entry points), in any order and with any part of it dropped, as `sync.Pool` may do. -/
inductive History : Pools Lexer → Prop where
  | start : History emptyPools
  | parsed (w w' : Pools Lexer) (src : List Char) (omitStream : Bool) (o : Outcome) : History w →
      Conv (fun f => parseString f omitStream (newTokenizer src) w) (o, w') → History w'
  | released (w w' : Pools Lexer) (src : List Char) (r : Node × List PErr) : History w →
      Conv (fun f => parseAndRelease f (newTokenizer src) w) (r, w') → History w'
  | dropped (w w' : Pools Lexer) : History w → w'.accessors ⊆ w.accessors → w'.parsers ⊆ w.parsers →
      w'.bufs ⊆ w.bufs → History w'

theorem History.ok {w : Pools Lexer} (h : History w) : PoolsOk w := by
  induction h with
  | start => exact ⟨fun x hx => (by cases hx), fun x hx => (by cases hx)⟩
  | parsed w w' src o r _ hc ih =>
    obtain ⟨docs, errs, w1, w0, -, h1, h2, -⟩ := parseString_ok (o := o) (lexerOk_new src) ih
    have := hc.det h2
    simp only [Prod.mk.injEq] at this
    rw [this.2]; exact h1
  | released w w' src r _ hc ih =>
    obtain ⟨docs, errs, w1, w0, -, h1, h2, -⟩ := parseAndRelease_ok (lexerOk_new src) ih
    have := hc.det h2
    simp only [Prod.mk.injEq] at this
    rw [this.2]; exact h1
  | dropped w w' _ h1 _ h3 ih => exact ⟨fun x hx => ih.1 x (h1 hx), fun x hx => ih.2 x (h3 hx)⟩

/-- The history of a process which has parsed a document and dropped the accessor. -/
example : ∃ w, History w ∧ w ≠ emptyPools := by
  obtain ⟨docs, errs, w', w0, -, h1, h2, h3⟩ := parseString_ok (o := true) (lexerOk_new ['a']) History.start.ok
  refine ⟨_, .parsed emptyPools w' ['a'] true _ .start h2, ?_⟩
  obtain ⟨f0, h⟩ := h2
  have := h f0 (Nat.le_refl _)
  simp only [parseString, parseTokenStream] at this
  intro hw
  subst hw
  cases hp : (parse f0 (newParser (getAccessor emptyPools (newTokenizer ['a'])).1 (emptyPools : Pools Lexer).bufs) :
      Res (Node × P Lexer)) with
  | timeout => rw [hp] at this; simp at this
  | panic => rw [hp] at this; simp at this
  | ok r =>
    rw [hp] at this
    simp [emptyPools] at this

/-- **C09.** Parsing ends for every source text, with a tree or an error: it never panics, and the bounds on loops and
recursion in the model are never reached. -/
theorem parse_ends (src : List Char) (omitStream : Bool) (w : Pools Lexer) (hw : History w) :
    ∃ o w', Conv (fun f => parseString f omitStream (newTokenizer src) w) (o, w') := by
  obtain ⟨docs, errs, w', w0, -, -, h, -⟩ := parseString_ok (o := omitStream) (lexerOk_new src) hw.ok
  exact ⟨_, _, h⟩

/-- C09.  A number of rounds of the loops and of levels of recursion which suffices: linear in the length. -/
theorem parse_ends_linear (src : List Char) (omitStream : Bool) (w : Pools Lexer) (hw : History w) (f : Nat)
    (hf : 2 * src.length + 3 < f) : ∃ r, parseString f omitStream (newTokenizer src) w = .ok r := by
  obtain ⟨docs, t', -, -, h, -⟩ := run_ok (s := newTokenizer src) (f := f) (lexerOk_new src) hw.ok hf
  simp only [parseString, parseTokenStream, h]
  exact ⟨_, rfl⟩

/-- C09.  The entry point for prepared tokens.  The premise holds for all tokens made by the tokenizer: a byte order mark
is not spelt as the name of a directive. -/
theorem parse_tokens_ends (ts : List Tok) (h : ∀ t ∈ ts, t.type = .bom → t.origin ≠ ['Y', 'A', 'M', 'L'] ∧ t.origin ≠ ['T', 'A', 'G']) :
    ∃ r w', Conv (fun f => parseAndRelease f (⟨ts⟩ : SimpleStream) emptyPools) (r, w') := by
  obtain ⟨docs, errs, w', w0, -, -, hc, -⟩ := parseAndRelease_ok (s := (⟨ts⟩ : SimpleStream)) (w := emptyPools) h
    ⟨fun x hx => (by cases hx), fun x hx => (by cases hx)⟩
  exact ⟨_, _, hc⟩

example : ∀ t ∈ [({ type := .bom, origin := ['﻿'] } : Tok), { type := .string, origin := ['T', 'A', 'G'] }],
    t.type = .bom → t.origin ≠ ['Y', 'A', 'M', 'L'] ∧ t.origin ≠ ['T', 'A', 'G'] := by decide

/-- **C11.** There is a tree exactly if there is no error; and tree and error are the same as if nothing had been parsed
before. -/
theorem tree_or_error (src : List Char) (omitStream : Bool) (w w' : Pools Lexer) (o : Outcome) (hw : History w)
    (h : Conv (fun f => parseString f omitStream (newTokenizer src) w) (o, w')) :
    (o.err = [] ↔ o.tree ≠ .nil) ∧
      ∃ w0, Conv (fun f => parseString f omitStream (newTokenizer src) emptyPools) (o, w0) := by
  obtain ⟨docs, errs, w1, w0, hd, -, h1, h2⟩ := parseString_ok (o := omitStream) (lexerOk_new src) hw.ok
  have := h.det h1
  simp only [Prod.mk.injEq] at this
  obtain ⟨rfl, rfl⟩ := this
  refine ⟨?_, _, h2⟩
  obtain ⟨e1, e2, e3⟩ := finish_spec hd omitStream errs
  rw [e1]
  constructor
  · intro he hn
    have := e2 he
    rw [hn] at this
    cases this
  · intro hn
    apply Classical.byContradiction
    intro he
    exact hn (e3 he)

/-- **C10 (partial).** In a tree which is returned without an error nothing is missing: the leaves are texts, aliases and
nulls, mappings consist of entries which have a key and a value, and node properties hold a tag or an anchor.

Missing: in the place of the absent one of tag and anchor there may be the marker of a failed parse, see
`marker_in_properties`. -/
theorem tree_complete_partial (src : List Char) (omitStream : Bool) (w w' : Pools Lexer) (o : Outcome) (hw : History w)
    (h : Conv (fun f => parseString f omitStream (newTokenizer src) w) (o, w')) (he : o.err = []) :
    Spec.Tree.Complete Spec.Tree.LooseProperties o.tree := by
  obtain ⟨docs, errs, w1, w0, hd, -, h1, -⟩ := parseString_ok (o := omitStream) (lexerOk_new src) hw.ok
  have := h.det h1
  simp only [Prod.mk.injEq] at this
  obtain ⟨rfl, rfl⟩ := this
  obtain ⟨e1, e2, -⟩ := finish_spec hd omitStream errs
  exact e2 (e1 ▸ he)

/-- Outcome of the parser on a source, in a new process. -/
def outcome (f : Nat) (src : List Char) : Option Outcome :=
  match parseString f true (newTokenizer src) emptyPools with
  | .ok r => some r.1
  | _ => none

theorem conv_outcome {f : Nat} {src : List Char} {o : Outcome} (h : outcome f src = some o) :
    ∃ w, Conv (fun f => parseString f true (newTokenizer src) emptyPools) (o, w) := by
  unfold outcome at h
  cases hp : parseString f true (newTokenizer src) (emptyPools : Pools Lexer) with
  | timeout => rw [hp] at h; cases h
  | panic => rw [hp] at h; cases h
  | ok r =>
    rw [hp] at h
    cases h
    exact ⟨r.2, conv_of_le (fun f f' hf => parseString_mono hf true _ _) hp⟩

/-- C10 fails: the tree of `!a b` has a marker of a failed parse as anchor. -/
theorem marker_in_properties : ∃ w, Conv (fun f => parseString f true (newTokenizer "!a b".toList) emptyPools)
    (⟨.content (.properties (.tag ['a']) (.basic .invalid)) (.text ['b'] .unknown), []⟩, w) :=
  conv_outcome (f := 20) (by krfl)

/-- C10 fails. -/
theorem not_well_formed : ¬ ∀ (src : List Char) (w' : Pools Lexer) (o : Outcome),
    Conv (fun f => parseString f true (newTokenizer src) emptyPools) (o, w') → o.err = [] → Spec.Tree.WellFormed o.tree := by
  intro h
  obtain ⟨w, hc⟩ := marker_in_properties
  have := h _ _ _ hc rfl
  cases this with
  | content _ _ hp _ => cases hp

/-- A document with a mapping, for the theorems above. -/
example : ∃ w, Conv (fun f => parseString f true (newTokenizer "k: v".toList) emptyPools)
    (⟨.mapping [.mappingEntry (.text ['k'] .unknown) (.text ['v'] .unknown)], []⟩, w) :=
  conv_outcome (f := 20) (by krfl)

/-- A document with an error. -/
example : ∃ w, Conv (fun f => parseString f true (newTokenizer "[".toList) emptyPools)
    (⟨.nil, [.unbalancedOpening (some .sequenceStart) ⟨1, 2⟩]⟩, w) :=
  conv_outcome (f := 20) (by krfl)

/-- Nested empty flow sequences. -/
def nested : Nat → List Char
  | 0 => []
  | n + 1 => '[' :: (nested n ++ [']'])

/-- The tree of nested flow sequences. -/
def nestedTree : Nat → Node
  | 0 => .sequence []
  | n + 1 => .sequence [nestedTree n]

/-- **C42** fails: a flow sequence in five flow sequences is refused, because the parser tries the innermost one more than
64 times. -/
theorem deep_flow_refused : ∃ w, Conv (fun f => parseString f true (newTokenizer (nested 6)) emptyPools)
    (⟨.nil, [.deadEnd ⟨1, 7⟩]⟩, w) :=
  conv_outcome (f := 40) (by krfl)

/-- C42 fails. -/
theorem nested_flow_refused : ¬ ∀ n, ∃ w, Conv (fun f => parseString f true (newTokenizer (nested (n + 1))) emptyPools)
    (⟨nestedTree n, []⟩, w) := by
  intro h
  obtain ⟨w, hc⟩ := h 5
  obtain ⟨w', hc'⟩ := deep_flow_refused
  have := hc.det hc'
  simp at this

/-- Up to five are accepted. -/
example : ∀ n < 5, ∃ w, Conv (fun f => parseString f true (newTokenizer (nested (n + 1))) emptyPools)
    (⟨nestedTree n, []⟩, w)
  | 0, _ => conv_outcome (f := 40) (by krfl)
  | 1, _ => conv_outcome (f := 40) (by krfl)
  | 2, _ => conv_outcome (f := 40) (by krfl)
  | 3, _ => conv_outcome (f := 40) (by krfl)
  | 4, _ => conv_outcome (f := 40) (by krfl)

/-- **C22** fails for quoted texts: the parser does not undo the quoting of the writer.  The text `a'b`, written as
`'a''b'`, comes back as `a''b`. -/
theorem quoted_text_changed :
    (Writer.writeString Writer.newWriter (.text "a'b".toList .single)).1 = .text "'a''b'".toList ∧
      ∃ w, Conv (fun f => parseString f true (newTokenizer "'a''b'".toList) emptyPools)
        (⟨.text "a''b".toList .single, []⟩, w) :=
  ⟨by decide +kernel, conv_outcome (f := 30) (by krfl)⟩

/-- C22 fails for empty collections: nothing is written, and no document is found. -/
theorem empty_sequence_lost :
    (Writer.writeString Writer.newWriter (.sequence [])).1 = .text [] ∧
      ∃ w, Conv (fun f => parseString f true (newTokenizer []) emptyPools) (⟨.stream [], []⟩, w) :=
  ⟨by decide +kernel, conv_outcome (f := 10) (by krfl)⟩

/-- C22 fails. -/
theorem roundtrip_fails : ¬ ∀ (n : Node) (s : List Char), (Writer.writeString Writer.newWriter n).1 = .text s →
    ∃ o w, Conv (fun f => parseString f true (newTokenizer s) emptyPools) (o, w) ∧ o.err = [] ∧ TreeEq.Same n o.tree := by
  intro h
  obtain ⟨h1, w, hc⟩ := quoted_text_changed
  obtain ⟨o, w', hc', -, hs⟩ := h _ _ h1
  have := hc.det hc'
  simp only [Prod.mk.injEq] at this
  rw [← this.1] at hs
  cases hs with
  | missing h1 _ => cases h1

end Verif.Props.Parser
