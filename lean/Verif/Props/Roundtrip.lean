import Verif.Lemmas.WrittenRun
import Verif.Props.Parser
import Verif.Props.Writer
import Mathlib.Tactic.FinCases

/-! C22: what is written is read back (`engines/yayamls/encode/writer.go`, `engines/yayamls/lexer`,
`engines/yayamls/parser`). -/

namespace Verif.Props.Roundtrip

open Verif.Token Verif.Lexer Verif.Ast Verif.Parser Verif.Props.Parser

/-- **C22 (partial).** A tree of sequences and mappings which are not empty, nested to any depth, with texts of plain words
(with commas and brackets in them as items and values), texts in quotes without characters that need escapes, nulls and aliases as items, keys and values, with texts of several lines as
items and values, and with tags and anchors at scalars and at values of mappings; or a single such scalar on one line: whatever was written and parsed before, the writer writes it, and the
parser reads the text back without an error, as the same tree with the same quotes, but nulls become the text `null`.

Missing: texts in quotes with escapes and empty collections (false, see `Props/Parser.lean: roundtrip_fails`), items of sequences
which are collections with properties (false, see `marked_item_lost`), properties and collections as keys, properties of the
document (false, see `Props/Writer.lean: complex_key_misplaced`, `empty_sequence_unwritten`), texts of
several lines which start with white space or a line break, or with a quote in the first word of a line (false, see
`leading_break_changed`, `leading_space_lost`, `quote_loses_rest`), bare texts on one line whose words start with indicators or have
quotes, `!` or `%` inside (false, see `bare_apostrophe_lost`), bare keys with commas or brackets (false, see
`bare_comma_key_lost`). -/
theorem roundtrip_partial (n : Node) (h : WritableTree.Document n) (w0 : Writer.Writer) (pools : Pools Lexer) (hp : History pools)
    (omitStream : Bool) : ∃ text, (Writer.writeString w0 n).1 = .text text ∧
      ∃ d, BlockText.tidy d = WritableTree.reread n ∧
        ∃ pools', Conv (fun f => parseString f omitStream (newTokenizer text) pools)
          (⟨if omitStream then d else .stream [d], []⟩, pools') := by
  have key : ∃ text, (Writer.writeString w0 n).1 = .text text ∧ BlockText.Stream text [WritableTree.reread n] := by
    have line : (∃ u, Layout.leaf n = some [u] ∧ BlockText.Stream u [WritableTree.reread n] ∧
        BlockText.Stream (u ++ ['\n']) [WritableTree.reread n]) →
        ∃ text, (Writer.writeString w0 n).1 = .text text ∧ BlockText.Stream text [WritableTree.reread n] := by
      rintro ⟨u, h1, h2, h3⟩
      obtain ⟨t, h4, h5⟩ := Writer.written_scalar w0 n [u] h1
      refine ⟨t, h4, ?_⟩
      rcases h5 with rfl | h5
      · simpa [Layout.unlines] using h3
      · have : t = u := by simpa [Layout.unlines] using h5
        rw [this]
        exact h2
    cases h with
    | coll h =>
      obtain ⟨ls, h1, h2⟩ := document_reads h
      exact ⟨_, Writer.written_layout_partial w0 n ls h1, h2⟩
    | key h => exact line (scalar_document_reads h)
    | sentence h hq => exact line (sentence_document_reads h hq)
  obtain ⟨text, h1, h2⟩ := key
  obtain ⟨es, h3, h4, h5⟩ := front_stream h2
  obtain ⟨d, ds, rfl, h6, h7⟩ := tidies_cons h4
  obtain rfl : ds = [] := by cases ds <;> simp_all [BlockText.tidies]
  obtain ⟨w', -, hc⟩ := parseString_docs omitStream (lexerOk_new _) hp.ok (serves_toks _) rfl rfl rfl h5 h3
  refine ⟨text, h1, d, h6, w', ?_⟩
  cases omitStream <;> exact hc

/-- C22.  Without nulls this is the same tree. -/
theorem roundtrip_same_partial (n : Node) (h : WritableTree.Document n) (hn : WritableTree.hasNull n = false) (w0 : Writer.Writer)
    (pools : Pools Lexer) (hp : History pools) :
    ∃ text, (Writer.writeString w0 n).1 = .text text ∧
      ∃ n' pools', Conv (fun f => parseString f true (newTokenizer text) pools) (⟨n', []⟩, pools') ∧ TreeEq.Same n n' := by
  obtain ⟨text, h1, d, h2, w', h3⟩ := roundtrip_partial n h w0 pools hp true
  refine ⟨text, h1, d, w', h3, ?_⟩
  cases h with
  | coll h => exact coll_same h h2 hn
  | key h => exact key_same h h2 hn
  | sentence => rw [WritableTree.reread] at h2; rw [tidy_text h2]; exact .text

/-- C22.  Without properties and aliases the tree is known exactly. -/
theorem roundtrip_plain_partial (n : Node) (h : PlainTree.Coll n) (w0 : Writer.Writer) (pools : Pools Lexer) (hp : History pools)
    (omitStream : Bool) : ∃ text, (Writer.writeString w0 n).1 = .text text ∧
      ∃ pools', Conv (fun f => parseString f omitStream (newTokenizer text) pools)
        (⟨if omitStream then PlainTree.reread n else .stream [PlainTree.reread n], []⟩, pools') := by
  obtain ⟨h1, h2⟩ := coll_writable h
  obtain ⟨text, h3, d, h4, w', h5⟩ := roundtrip_partial n (.coll h1) w0 pools hp omitStream
  rw [h2] at h4
  rw [coll_tidied h h4] at h5
  exact ⟨text, h3, w', h5⟩

/-- In block style: `[!!t &a v, {k: &b [x, *a], *b: "y"}]`. -/
example : WritableTree.Document (.sequence [.content (.properties (.tag ['t']) (.anchor ['a'])) (.text ['v'] .absent),
    .mapping [.mappingEntry (.text ['k'] .unknown) (.content (.properties .nil (.anchor ['b']))
      (.sequence [.text ['x'] .absent, .alias ['a']])), .mappingEntry (.alias ['b']) (.text ['y'] .double)]]) := by
  have word : ∀ c : Char, c ∉ PlainTree.forbidden → c ∉ PlainTree.indicators → c ≠ ':' → [c] ∉ PlainTree.markers →
      PlainTree.Phrase [c] := fun c h1 h2 h3 h4 =>
    .word ⟨by simpa using h1, ⟨c, [], rfl, h2⟩, by simpa using h3, h4⟩
  have name : ∀ c : Char, BlockText.nameChar c = true → c ≠ '-' → BlockText.Name [c] := fun c h1 h2 =>
    ⟨by simpa using h1, c, [], rfl, h2⟩
  refine .coll (.sequence (.leaf (.marked (.both (name _ (by decide) (by decide)) (by decide) (name _ (by decide) (by decide)))
    (.scalar (.text (word _ (by decide) (by decide) (by decide) (by decide)) .absent))))
    (.cons (.coll (.mapping (.entry (.scalar (.text (word _ (by decide) (by decide) (by decide) (by decide)) .unknown))
      (.marked (.anchor .nil (name _ (by decide) (by decide)))
        (.sequence (.leaf (.key (.scalar (.text (word _ (by decide) (by decide) (by decide) (by decide)) .absent))))
          (.cons (.leaf (.key (.ref (name _ (by decide) (by decide))))) .nil))))
      (.cons (.entry (.ref (name _ (by decide) (by decide))) (.item (.leaf (.key (.scalar (.quoted .double ?_)))))) .nil))) .nil))
  intro c hc; fin_cases hc; decide

/-- In block style: `[{k: !!t "a: b\n\n  - c"}, "d\n\n"]`, with the texts as literal scalars. -/
example : WritableTree.Document (.sequence [.mapping [.mappingEntry (.text ['k'] .unknown)
    (.content (.properties (.tag ['t']) .nil) (.text "a: b\n\n  - c".toList .absent))], .text "d\n\n".toList .absent]) := by
  have lit : ∀ {t : List Char}, t ≠ [] → (∀ c ∈ t, c ∉ ['\n', '\r', '\uFEFF']) →
      (∀ c ∈ t.takeWhile (fun c => c ∉ [' ', '\t']), c ∉ ['\'', '"']) → (∀ c, t.head? = some c → c ∉ ['[', '{']) →
      t = [] ∨ BlockText.LitLine t := fun h1 h2 h3 h4 => .inr ⟨h1, h2, h3, h4⟩
  refine .coll (.sequence (.coll (.mapping (.entry (.scalar (.text (.word ⟨by decide, ⟨_, _, rfl, by decide⟩, by decide, by decide⟩)
    .unknown)) (.item (.leaf (.markedProse (.tag ⟨by decide, 't', [], rfl, by decide⟩ (by decide) .nil) ?_)))) .nil))
    (.cons (.leaf (.prose ?_)) .nil))
  · refine ⟨by decide, ⟨'a', _, rfl, by decide⟩, fun l hl => ?_⟩
    have e : Layout.linesOf "a: b\n\n  - c".toList = ["a: b".toList, [], "  - c".toList] := rfl
    rw [e] at hl
    fin_cases hl
    · exact lit (by decide) (by decide) (by decide) (by decide)
    · exact .inl rfl
    · exact lit (by decide) (by decide) (by decide) (by decide)
  · refine ⟨by decide, ⟨'d', _, rfl, by decide⟩, fun l hl => ?_⟩
    have e : Layout.linesOf "d\n\n".toList = [['d'], []] := rfl
    rw [e] at hl
    fin_cases hl
    · exact lit (by decide) (by decide) (by decide) (by decide)
    · exact .inl rfl

/-- In block style: `[[{a  b#: c}, {-1: {"k v": [x:y, null, '', "[é] # , "]}}]]`. -/
example : PlainTree.Coll (.sequence [.sequence [.mapping [.mappingEntry (.text "a  b#".toList .absent) (.text ['c'] .unknown)],
    .mapping [.mappingEntry (.text "-1".toList .absent) (.mapping [.mappingEntry (.text "k v".toList .double)
      (.sequence [.text "x:y".toList .absent, .null, .text [] .single, .text "[é] # , ".toList .double])])]]]) := by
  have word : ∀ (c : Char) (r : List Char), (∀ d ∈ c :: r, d ∉ PlainTree.forbidden) → c ∉ PlainTree.indicators →
      (c :: r).getLast? ≠ some ':' → (c :: r) ∉ PlainTree.markers → PlainTree.Word (c :: r) :=
    fun c r h1 h2 h3 h4 => ⟨h1, ⟨c, r, rfl, h2⟩, h3, h4⟩
  refine .sequence (.coll (.sequence (.coll (.mapping (.entry (.text ?_ .absent) (.scalar (.text ?_ .unknown))) .nil))
    (.cons (.coll (.mapping (.entry (.text ?_ .absent) (.coll (.mapping (.entry (.quoted .double ?_) (.coll (.sequence
      (.scalar (.text ?_ .absent)) (.cons (.scalar .null) (.cons (.scalar (.quoted .single ?_)) (.cons (.scalar (.quoted .double ?_))
        .nil)))))) .nil)))
      .nil)) .nil))) .nil
  · exact .more (w := ['a']) (j := 1) (t := "b#".toList) (word _ _ (by decide) (by decide) (by decide) (by decide))
      (.word (word _ _ (by decide) (by decide) (by decide) (by decide)))
  · exact .word (word _ _ (by decide) (by decide) (by decide) (by decide))
  · exact .word (word _ _ (by decide) (by decide) (by decide) (by decide))
  · intro c hc; fin_cases hc <;> decide
  · exact .word (word _ _ (by decide) (by decide) (by decide) (by decide))
  · intro c hc; cases hc
  · intro c hc; fin_cases hc <;> decide

/-- C22 fails for items with properties which are collections: a sequence is lost without an error, and the anchor of a mapping
becomes the anchor of its first key. -/
theorem marked_item_lost :
    (Writer.writeString Writer.newWriter (.sequence [.content (.properties .nil (.anchor ['a'])) (.sequence [.text ['x'] .absent])])).1 =
      .text "- &a - x\n".toList ∧
    (∃ w, Conv (fun f => parseString f true (newTokenizer "- &a - x\n".toList) emptyPools) (⟨.stream [], []⟩, w)) ∧
    (Writer.writeString Writer.newWriter (.sequence [.content (.properties .nil (.anchor ['a']))
      (.mapping [.mappingEntry (.text ['k'] .absent) (.text ['v'] .absent)])])).1 = .text "- &a k: v\n".toList ∧
    (∃ w, Conv (fun f => parseString f true (newTokenizer "- &a k: v\n".toList) emptyPools)
      (⟨.sequence [.mapping [.mappingEntry (.content (.properties .invalid (.anchor ['a'])) (.text ['k'] .unknown))
        (.text ['v'] .unknown)]], []⟩, w)) :=
  ⟨by decide +kernel, conv_outcome (f := 40) (by krfl), by decide +kernel, conv_outcome (f := 40) (by krfl)⟩

/-- C22 fails for bare texts which start with a line break: the indentation becomes a part of the text. -/
theorem leading_break_changed :
    (Writer.writeString Writer.newWriter (.sequence [.text "\na".toList .absent])).1 = .text "- |-\n\n  a\n".toList ∧
    (∃ w, Conv (fun f => parseString f true (newTokenizer "- |-\n\n  a\n".toList) emptyPools)
      (⟨.sequence [.text "\n  a".toList .unknown], []⟩, w)) :=
  ⟨by decide +kernel, conv_outcome (f := 40) (by krfl)⟩

/-- C22 fails for texts of several lines which start with a space: the space is lost. -/
theorem leading_space_lost :
    (Writer.writeString Writer.newWriter (.sequence [.text " a\n b".toList .absent])).1 = .text "- |-\n   a\n   b\n".toList ∧
    (∃ w, Conv (fun f => parseString f true (newTokenizer "- |-\n   a\n   b\n".toList) emptyPools)
      (⟨.sequence [.text "a\nb".toList .unknown], []⟩, w)) :=
  ⟨by decide +kernel, conv_outcome (f := 40) (by krfl)⟩

/-- C22 fails for texts of several lines with a quote in the first word of a line: the items after it are lost without an
error. -/
theorem quote_loses_rest :
    (Writer.writeString Writer.newWriter (.sequence [.text "it's\na".toList .absent, .text ['b'] .absent])).1 =
      .text "- |-\n  it's\n  a\n- b\n".toList ∧
    (∃ w, Conv (fun f => parseString f true (newTokenizer "- |-\n  it's\n  a\n- b\n".toList) emptyPools)
      (⟨.sequence [.text "it's\na".toList .unknown], []⟩, w)) :=
  ⟨by decide +kernel, conv_outcome (f := 40) (by krfl)⟩

/-- In block style: `[Hello, world]` as a single item, with a tag. -/
example : WritableTree.Document (.sequence [.content (.properties (.tag ['t']) .nil) (.text "Hello, world".toList .absent)]) := by
  have word : ∀ (c : Char) (r : List Char), (∀ d ∈ c :: r, d ∉ PlainTree.breaking) → c ∉ PlainTree.indicators → c ∉ ['[', '{'] →
      (c :: r).getLast? ≠ some ':' → (c :: r) ∉ PlainTree.markers → PlainTree.LooseWord (c :: r) :=
    fun c r h1 h2 h3 h4 h5 => ⟨h1, ⟨c, r, rfl, h2, h3⟩, h4, h5⟩
  exact .coll (.sequence (.leaf (.marked (.tag ⟨by decide, 't', [], rfl, by decide⟩ (by decide) .nil) (.sentence
    ⟨.more (w := "Hello,".toList) (j := 0) (t := "world".toList) (word _ _ (by decide) (by decide) (by decide) (by decide) (by decide))
      (.word (word _ _ (by decide) (by decide) (by decide) (by decide) (by decide))), by simp⟩ .absent))) .nil)

/-- C22 fails for bare texts with a quote, `!` or `%` in them, or with a dash between spaces: they are written as they are, and the
whole document is lost without an error. -/
theorem bare_apostrophe_lost :
    (Writer.writeString Writer.newWriter (.sequence [.text "don't".toList .absent])).1 = .text "- don't\n".toList ∧
    (∃ w, Conv (fun f => parseString f true (newTokenizer "- don't\n".toList) emptyPools) (⟨.stream [], []⟩, w)) ∧
    (Writer.writeString Writer.newWriter (.sequence [.text "50%".toList .absent])).1 = .text "- 50%\n".toList ∧
    (∃ w, Conv (fun f => parseString f true (newTokenizer "- 50%\n".toList) emptyPools) (⟨.stream [], []⟩, w)) ∧
    (Writer.writeString Writer.newWriter (.sequence [.text "x - y".toList .absent])).1 = .text "- x - y\n".toList ∧
    (∃ w, Conv (fun f => parseString f true (newTokenizer "- x - y\n".toList) emptyPools) (⟨.stream [], []⟩, w)) :=
  ⟨by decide +kernel, conv_outcome (f := 40) (by krfl), by decide +kernel, conv_outcome (f := 40) (by krfl), by decide +kernel,
    conv_outcome (f := 40) (by krfl)⟩

/-- C22 fails for bare keys with a comma. -/
theorem bare_comma_key_lost :
    (Writer.writeString Writer.newWriter (.mapping [.mappingEntry (.text "a,b".toList .absent) (.text ['c'] .absent)])).1 =
      .text "a,b: c\n".toList ∧
    (∃ w, Conv (fun f => parseString f true (newTokenizer "a,b: c\n".toList) emptyPools) (⟨.stream [], []⟩, w)) :=
  ⟨by decide +kernel, conv_outcome (f := 40) (by krfl)⟩

/-- C22 fails for nulls: they come back as texts. -/
theorem null_becomes_text : (Writer.writeString Writer.newWriter (.sequence [.null])).1 = .text "- null\n".toList ∧
    (∃ w, Conv (fun f => parseString f true (newTokenizer "- null\n".toList) emptyPools)
      (⟨.sequence [.text "null".toList .unknown], []⟩, w)) ∧
    ¬ TreeEq.Same (.sequence [.null]) (.sequence [.text "null".toList .unknown]) := by
  refine ⟨by decide +kernel, conv_outcome (f := 20) (by krfl), ?_⟩
  intro h
  cases h with
  | missing h => cases h
  | sequence h =>
    cases h with
    | cons h =>
      cases h with
      | missing h => cases h

end Verif.Props.Roundtrip
