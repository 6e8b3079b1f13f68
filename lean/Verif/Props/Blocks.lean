import Verif.Lemmas.TextDocs
import Verif.Lemmas.WrittenRun
import Verif.Props.Parser
import Mathlib.Tactic.FinCases

/-! C61: texts in block style are read as the trees they stand for (`engines/yayamls/lexer`, `engines/yayamls/parser`). -/

namespace Verif.Props.Blocks

open Verif.Token Verif.Lexer Verif.Ast Verif.Parser Verif.Props.Parser Verif.BlockText

/-- The documents as the result of a parse: without the stream around a single one if this is asked for. -/
def asResult : Bool → List Node → Node
  | true, [d] => d
  | _, ds => .stream ds

/-- **C61 (partial).** Every text in block style (`Spec/BlockText.lean`: sequences and mappings nested to any depth with any
indentation, entries with and without a `?`, scalars of plain words, on one or more lines and with commas and brackets in them unless they are keys, in quotes on one or
more lines, kept as written with their escapes, or in the literal or folded style, sequences and mappings in brackets on one or more lines, aliases, anchors, tags, absent values, comments, blank lines, several documents with `---` and `...`, directives) is read without an error, as the trees
it stands for, whatever was parsed before.  An absent tag or anchor is the nil interface or the invalid node.

Missing: within brackets absent keys, single pairs in sequences (false, see `single_pair_bare`), properties (those of keys in quotes false, see `quoted_key_properties_lose`), collections as keys,
more than four sequences within each other (six are refused, see C42), collections in brackets as keys in blocks without a `?`; folded scalars with lines
which do not start with a plain word or are more indented (false, see `folded_doubled`), indentation indicators, scalars over several lines within brackets, escaped line breaks and the escapes
`\b` and backslash with tab (false, see `Json.backspace_loses`), tabs between tokens, byte order marks, directives with a local tag prefix (false, see `local_prefix_loses`) or a space before `%`
(false, see `spaced_directive_loses`), comments behind unknown directives, `!<…>` and named tag handles; bare texts with quotes,
`!` or `%` in them, or with words that start with an indicator (false, see `apostrophe_loses`, `percent_loses`,
`spaced_dash_loses`, `spaced_bracket_loses`), keys with commas or brackets (false, see `comma_in_key_loses`); properties of keys (false, see `key_properties_lost`), a dash at the very end of the text (false, see
`last_dash_lost`), dashes in tags (false, see `dash_in_tag_refused`), literal scalars with a quote in the first word of a line or
a bracket in front of it (false, see `literal_quote_loses`, `literal_bracket_refused`), which start with a blank line or are empty
(false, see `literal_blank_swallows`, `literal_empty_swallows`), or whose text is in column 0 (false, see
`literal_root_swallows`); closing brackets in the column of the key before them (false, see `closing_bracket_loses`), comments
within brackets (false, see `comment_in_brackets_kept`), spaces at the ends of lines within quotes (false, see `quoted_space_kept`),
and carriage returns in literal scalars or at the ends of blank lines within other ones (false, see `carriage_return_kept`,
`blank_carriage_return_kept`). -/
theorem block_text_read_partial (text : List Char) (es : List Node) (h : BlockText.Stream text es) (pools : Pools Lexer)
    (hp : History pools) (omitStream : Bool) : ∃ docs, tidies docs = es ∧
      ∃ pools', Conv (fun f => parseString f omitStream (newTokenizer text) pools) (⟨asResult omitStream docs, []⟩, pools') := by
  obtain ⟨docs, h1, h2, h3⟩ := front_stream h
  obtain ⟨w', -, hc⟩ := parseString_docs omitStream (lexerOk_new _) hp.ok (serves_toks _) rfl rfl rfl h3 h1
  refine ⟨docs, h2, w', ?_⟩
  have : finish omitStream (.stream docs, []) = ⟨asResult omitStream docs, []⟩ := by
    cases omitStream with
    | false => rfl
    | true =>
      cases docs with
      | nil => rfl
      | cons d ds => cases ds <;> rfl
  rw [← this]
  exact hc

/-- C61.  A text in block style stands for one list of trees only. -/
theorem block_text_unambiguous (text : List Char) (es es' : List Node) (h : BlockText.Stream text es)
    (h' : BlockText.Stream text es') : es = es' := by
  obtain ⟨docs, h1, w, h2⟩ := block_text_read_partial text es h emptyPools .start false
  obtain ⟨docs', h1', w', h2'⟩ := block_text_read_partial text es' h' emptyPools .start false
  have := h2.det h2'
  simp only [asResult, Prod.mk.injEq, Outcome.mk.injEq, Node.stream.injEq, and_true] at this
  rw [← h1, ← h1', this.1]

/-- C61.  The number of blank lines and comments before a document does not matter. -/
theorem gap_ignored_partial (g text : List Char) (es : List Node) (hg : Gap false g) (h : First text es) (pools : Pools Lexer)
    (hp : History pools) (omitStream : Bool) : ∃ docs docs' pools' pools'', tidies docs = tidies docs' ∧
      Conv (fun f => parseString f omitStream (newTokenizer (g ++ text)) pools) (⟨asResult omitStream docs, []⟩, pools') ∧
      Conv (fun f => parseString f omitStream (newTokenizer text) pools) (⟨asResult omitStream docs', []⟩, pools'') := by
  obtain ⟨docs, h1, w, h2⟩ := block_text_read_partial _ es (.mk hg (by simp) h) pools hp omitStream
  obtain ⟨docs', h1', w', h2'⟩ := block_text_read_partial _ es (.mk (z := false) .nil (by simp) h) pools hp omitStream
  exact ⟨docs, docs', w, w', h1.trans h1'.symm, h2, h2'⟩

/-- The text of the example below. -/
def sample : List Char := "# list\n- &a x y  # one\r\n-  k: *a\n   \"l\" :\n   - !!t\n     'v'\n\n   m:\n-\n--- *b\n...\n".toList

/-- The documents of the example below. -/
def sampleDocs : List Node :=
  [.sequence [.content (.properties .nil (.anchor ['a'])) (.text "x y".toList .unknown),
    .mapping [.mappingEntry (.text ['k'] .unknown) (.alias ['a']),
      .mappingEntry (.text ['l'] .double) (.sequence [.content (.properties (.tag ['t']) .nil) (.text ['v'] .single)]),
      .mappingEntry (.text ['m'] .unknown) .null],
    .null],
   .alias ['b']]

/-- Comments, a phrase with an anchor, a mapping in a sequence with an alias, a sequence in the column of its mapping, a quoted
text with a tag on another line, absent values, two documents. -/
theorem sample_stream : BlockText.Stream sample sampleDocs := by
  have word : ∀ c : Char, c ∉ PlainTree.forbidden → c ∉ PlainTree.indicators → c ≠ ':' → [c] ∉ PlainTree.markers →
      PlainTree.Word [c] := fun c h1 h2 h3 h4 =>
    ⟨by simpa using h1, ⟨c, [], rfl, h2⟩, by simpa using h3, h4⟩
  have name : ∀ c : Char, nameChar c = true → c ≠ '-' → Name [c] := fun c h1 h2 => ⟨by simpa using h1, c, [], rfl, h2⟩
  have nl : ∀ z, Eol z ['\n'] := fun z => .line (i := 0) .none (.inr rfl) .nil
  have x : PlainTree.Phrase "x y".toList :=
    .more (w := ['x']) (j := 0) (word 'x' (by decide) (by decide) (by decide) (by decide))
      (.word (word 'y' (by decide) (by decide) (by decide) (by decide)))
  have one : Eol false "  # one\r\n".toList := .brk (i := 2) (u := "# one".toList) (g := [])
    (.remark (c := " one".toList) (by intro c hc; fin_cases hc <;> decide)) (.inl (by decide)) .crlf .nil
  have verb : ∀ q, ∀ c : Char, 0x20 ≤ c.toNat → c ∉ PlainTree.signs q → PlainTree.Within q [c] := fun q c h1 h2 => by
    exact .char h1 h2 .nil
  have i1 : Item 0 false " &a x y  # one\r\n".toList (.content (.properties .nil (.anchor ['a'])) (.text "x y".toList .unknown)) :=
    .leaf (.props (u := [' ']) (v := ['&', 'a']) (u' := [' ']) (v' := "x y".toList) (.mid (i := 0))
      (.anchor (name 'a' (by decide) (by decide))) (.mid (i := 0)) (.scalar (.phrase x)) one)
  have v1 : Value 3 false " *a\n".toList (.alias ['a']) :=
    .leaf (.atom (u := [' ']) (v := ['*', 'a']) (.mid (i := 0)) (.ref (name 'a' (by decide) (by decide))) (nl _))
  have i2 : Item 3 false " !!t\n     'v'\n\n".toList (.content (.properties (.tag ['t']) .nil) (.text ['v'] .single)) :=
    .leaf (.props (u := [' ']) (v := "!!t".toList) (u' := "\n     ".toList) (v' := "'v'".toList) (w := "\n\n".toList) (.mid (i := 0))
      (.tag (.two (name 't' (by decide) (by decide)) (by decide))) (.lines (u := ['\n']) (m := 5) (nl _) (by decide))
      (.scalar (.single (t := ['v']) (verb .single 'v' (by decide) (by decide))))
      (.line (i := 0) (u := []) (g := ['\n']) .none (.inr rfl) (.line (i := 0) (u := []) (g := []) .none .nil)))
  have v2 : Value 3 false "\n   - !!t\n     'v'\n\n".toList (.sequence [.content (.properties (.tag ['t']) .nil) (.text ['v'] .single)]) :=
    .flush (n := 3) (w := ['\n']) (u := "- !!t\n     'v'\n\n".toList) (nl _) (.last i2)
  have p1 : Pairs 3 false "k: *a\n   \"l\" :\n   - !!t\n     'v'\n\n   m:\n".toList
      [.mappingEntry (.text ['k'] .unknown) (.alias ['a']),
        .mappingEntry (.text ['l'] .double) (.sequence [.content (.properties (.tag ['t']) .nil) (.text ['v'] .single)]),
        .mappingEntry (.text ['m'] .unknown) .null] :=
    .cons (i := 0) (k := ['k']) (u := " *a\n".toList) (v := "\"l\" :\n   - !!t\n     'v'\n\n   m:\n".toList)
      (.scalar (.phrase (.word (word 'k' (by decide) (by decide) (by decide) (by decide))))) v1
      (.cons (i := 1) (k := "\"l\"".toList) (u := "\n   - !!t\n     'v'\n\n".toList) (v := "m:\n".toList)
        (.scalar (.double (t := ['l']) (verb .double 'l' (by decide) (by decide)))) v2
        (.last (i := 0) (k := ['m']) (u := ['\n'])
          (.scalar (.phrase (.word (word 'm' (by decide) (by decide) (by decide) (by decide))))) (.null (nl _))))
  have i3 : Item 0 false "  k: *a\n   \"l\" :\n   - !!t\n     'v'\n\n   m:\n".toList _ :=
    .compact (n := 0) (j := 1) (u := "k: *a\n   \"l\" :\n   - !!t\n     'v'\n\n   m:\n".toList) (.map p1)
  have b : Block 0 false "- &a x y  # one\r\n-  k: *a\n   \"l\" :\n   - !!t\n     'v'\n\n   m:\n-\n".toList _ :=
    .seq (.cons (n := 0) (u := " &a x y  # one\r\n".toList) (v := "-  k: *a\n   \"l\" :\n   - !!t\n     'v'\n\n   m:\n-\n".toList) i1
      (.cons (n := 0) (u := "  k: *a\n   \"l\" :\n   - !!t\n     'v'\n\n   m:\n".toList) (v := "-\n".toList) i3
        (.last (n := 0) (u := ['\n']) (.null (nl _) (by decide)))))
  have d2 : Docs "--- *b\n...\n".toList [.alias ['b']] :=
    .explicit (z := false) (u := " *b\n".toList) (v := "...\n".toList)
      (.leaf (.atom (u := [' ']) (v := ['*', 'b']) (.mid (i := 0)) (.ref (name 'b' (by decide) (by decide))) (nl _))) (by simp)
      (.suffix (z := false) (u := ['\n']) (v := []) (nl _) (by simp) (.first .done))
  exact .mk (z := false) (g := "# list\n".toList)
    (u := "- &a x y  # one\r\n-  k: *a\n   \"l\" :\n   - !!t\n     'v'\n\n   m:\n-\n--- *b\n...\n".toList)
    (.line (i := 0) (u := "# list".toList) (g := []) (.remark (c := " list".toList) (by intro c hc; fin_cases hc <;> decide)) .nil)
    (by simp)
    (.implicit (z := false) (u := "- &a x y  # one\r\n-  k: *a\n   \"l\" :\n   - !!t\n     'v'\n\n   m:\n-\n".toList)
      (v := "--- *b\n...\n".toList) (.block (m := 0) b) (by simp) d2)

example : ∃ docs, tidies docs = sampleDocs ∧
    ∃ w, Conv (fun f => parseString f true (newTokenizer sample) emptyPools) (⟨.stream docs, []⟩, w) := by
  obtain ⟨docs, h1, w, h2⟩ := block_text_read_partial _ _ sample_stream emptyPools .start true
  refine ⟨docs, h1, w, ?_⟩
  match docs, h1, h2 with
  | [], h1, _ => simp [tidies, sampleDocs] at h1
  | [_], h1, _ => simp [tidies, sampleDocs] at h1
  | _ :: _ :: _, _, h2 => exact h2

/-- The text of the example below. -/
def prose : List Char := "# s\na: |  # t\n  x: y\n\n    z\nb:\n- !t |-\n  us\n# w\n--- |+\n v\n\n".toList

/-- A clipped text with a colon, a blank line and a line with more spaces; a stripped one with a tag, and a comment after it; a
kept one as a document. -/
theorem prose_stream : BlockText.Stream prose
    [.mapping [.mappingEntry (.text ['a'] .unknown) (.text "x: y\n\n  z\n".toList .unknown),
      .mappingEntry (.text ['b'] .unknown)
        (.sequence [.content (.properties (.tag ['t']) .nil) (.text "us".toList .unknown)])],
      .text "v\n\n".toList .unknown] := by
  have word : ∀ c : Char, c ∉ PlainTree.forbidden → c ∉ PlainTree.indicators → c ≠ ':' → [c] ∉ PlainTree.markers →
      PlainTree.Word [c] := fun c h1 h2 h3 h4 =>
    ⟨by simpa using h1, ⟨c, [], rfl, h2⟩, by simpa using h3, h4⟩
  have nl : ∀ z, Eol z ['\n'] := fun z => .line (i := 0) .none (.inr rfl) .nil
  have l1 : Literal 1 2 false "|  # t\n  x: y\n\n    z\n".toList "x: y\n\n  z\n".toList :=
    .mk (ch := .clip) (i := 2) (a := "# t".toList) (t := "x: y".toList) (u := "\n\n    z".toList) (v := "\n\n  z".toList)
      (w := ['\n']) (o := some 0) .none (.remark (c := " t".toList) (by intro c hc; fin_cases hc <;> decide)) (.inl (by decide))
      ⟨by decide, by decide, by decide, by decide⟩ (by decide)
      (.more (i := 1) (g := ['\n']) (t := "  z".toList) (.cons (j := 0) (by decide) .nil)
        ⟨by decide, by decide, by decide, by decide⟩ .stop) (.line .nil) (by simp)
  have l2 : Literal 1 2 false "|-\n  us\n# w\n".toList "us".toList :=
    .mk (ch := .strip) (i := 0) (a := []) (t := "us".toList) (u := []) (v := []) (w := "\n# w\n".toList) (o := some 0) .none .none
      (.inr rfl) ⟨by decide, by decide, by decide, by decide⟩ (by decide) .stop
      (.notes (g := []) (g' := "# w\n".toList) .nil
        (.line (j := 0) (c := " w".toList) (by decide) (by intro c hc; fin_cases hc <;> decide) .nil)) (by simp)
  have l3 : Literal 0 1 true "|+\n v\n\n".toList "v\n\n".toList :=
    .mk (ch := .keep) (i := 0) (a := []) (t := ['v']) (u := []) (v := []) (w := "\n\n".toList) (o := some 1) .none .none
      (.inr rfl) ⟨by decide, by decide, by decide, by decide⟩ (by decide) .stop (.line (.cons (j := 0) (by decide) .nil)) (by simp)
  have b : Block 0 false "a: |  # t\n  x: y\n\n    z\nb:\n- !t |-\n  us\n# w\n".toList _ :=
    .map (.cons (i := 0) (k := ['a']) (u := " |  # t\n  x: y\n\n    z\n".toList) (v := "b:\n- !t |-\n  us\n# w\n".toList)
      (.scalar (.phrase (.word (word 'a' (by decide) (by decide) (by decide) (by decide)))))
      (.leaf (.lit (u := [' ']) (.mid (i := 0)) (by decide) (by decide) l1))
      (.last (i := 0) (k := ['b']) (u := "\n- !t |-\n  us\n# w\n".toList)
        (.scalar (.phrase (.word (word 'b' (by decide) (by decide) (by decide) (by decide)))))
        (.flush (w := ['\n']) (u := "- !t |-\n  us\n# w\n".toList) (nl _)
          (.last (u := " !t |-\n  us\n# w\n".toList)
            (.leaf (.propsLit (u := [' ']) (v := "!t".toList) (u' := [' ']) (.mid (i := 0))
              (.tag (.one (t := ['t']) ⟨by decide, 't', [], rfl, by decide⟩ (by decide))) (.mid (i := 0)) (by decide) (by decide) l2))))))
  have d : Docs "--- |+\n v\n\n".toList [.text "v\n\n".toList .unknown] :=
    .explicit (z := true) (u := " |+\n v\n\n".toList) (v := [])
      (.leaf (.lit (u := [' ']) (.mid (i := 0)) (by decide) (by decide) l3)) (by simp) .done
  exact .mk (z := false) (g := "# s\n".toList)
    (u := "a: |  # t\n  x: y\n\n    z\nb:\n- !t |-\n  us\n# w\n--- |+\n v\n\n".toList)
    (.line (i := 0) (u := "# s".toList) (g := []) (.remark (c := " s".toList) (by intro c hc; fin_cases hc <;> decide)) .nil)
    (by simp)
    (.implicit (z := false) (u := "a: |  # t\n  x: y\n\n    z\nb:\n- !t |-\n  us\n# w\n".toList)
      (v := "--- |+\n v\n\n".toList) (.block (m := 0) b) (by simp) d)

/-- The text of the example below. -/
def folds : List Char := "a: >  # t\n  x: y\n  don \"t's\n\n\n  z: \nb: !t >-\n  us\n  v\n--- >+\n w\n\n".toList

/-- A clipped text with a colon, with quotes within a line, two blank lines and a colon at the end; a stripped one with a tag; a kept one as a
document. -/
theorem folds_stream : BlockText.Stream folds
    [.mapping [.mappingEntry (.text ['a'] .unknown) (.text "x: y don \"t's\n\nz: \n".toList .unknown),
      .mappingEntry (.text ['b'] .unknown) (.content (.properties (.tag ['t']) .nil) (.text "us v".toList .unknown))],
      .text "w\n\n".toList .unknown] := by
  have word : ∀ c : Char, c ∉ PlainTree.forbidden → c ∉ PlainTree.indicators → c ≠ ':' → [c] ∉ PlainTree.markers →
      PlainTree.Word [c] := fun c h1 h2 h3 h4 =>
    ⟨by simpa using h1, ⟨c, [], rfl, h2⟩, by simpa using h3, h4⟩
  have loose : ∀ c : Char, c ∉ PlainTree.breaking → c ∉ PlainTree.indicators → c ∉ ['[', '{'] → c ≠ ':' → [c] ∉ PlainTree.markers →
      PlainTree.LooseWord [c] := fun c h1 h2 h3 h4 h5 =>
    ⟨by simpa using h1, ⟨c, [], rfl, h2, h3⟩, by simpa using h4, h5⟩
  have l1 : Literal 1 2 false ">  # t\n  x: y\n  don \"t's\n\n\n  z: \n".toList "x: y don \"t's\n\nz: \n".toList :=
    .folded (ch := .clip) (i := 2) (a := "# t".toList) (t := "x: y".toList) (u := "\n  don \"t's\n\n\n  z: ".toList)
      (v := " don \"t's\n\nz: ".toList) (w := ['\n']) (o := some 0) .none
      (.remark (c := " t".toList) (by intro c hc; fin_cases hc <;> decide)) (.inl (by decide))
      (.colon (w := ['x']) (v := " y".toList) (loose 'x' (by decide) (by decide) (by decide) (by decide) (by decide)) (by decide) (by decide))
      (.more (i := 0) (g := []) (t := "don \"t's".toList) (u := "\n\n\n  z: ".toList) (v := "\n\nz: ".toList) .nil
        (.word (w := "don".toList) (v := " \"t's".toList) ⟨by decide, ⟨'d', "on".toList, rfl, by decide, by decide⟩, by decide, by decide⟩
          (by decide) (by decide))
        (.more (i := 2) (g := "\n\n".toList) (t := "z: ".toList) (u := []) (v := [])
          (.cons (j := 0) (by decide) (.cons (j := 0) (by decide) .nil))
          (.colon (w := ['z']) (v := [' ']) (loose 'z' (by decide) (by decide) (by decide) (by decide) (by decide)) (by decide) (by decide)) .stop))
      (.line .nil)
  have l2 : Literal 1 2 false ">-\n  us\n  v\n".toList "us v".toList :=
    .folded (ch := .strip) (i := 0) (a := []) (t := "us".toList) (u := "\n  v".toList) (v := " v".toList) (w := ['\n']) (o := some 0) .none .none
      (.inr rfl) (.word (w := "us".toList) (v := []) ⟨by decide, ⟨'u', ['s'], rfl, by decide, by decide⟩, by decide, by decide⟩
        (by decide) (by decide))
      (.more (i := 0) (g := []) (t := ['v']) (u := []) (v := []) .nil
        (.word (w := ['v']) (v := []) (loose 'v' (by decide) (by decide) (by decide) (by decide) (by decide)) (by decide) (by decide)) .stop)
      (.line .nil)
  have l3 : Literal 0 1 true ">+\n w\n\n".toList "w\n\n".toList :=
    .folded (ch := .keep) (i := 0) (a := []) (t := ['w']) (u := []) (v := []) (w := "\n\n".toList) (o := some 1) .none .none
      (.inr rfl) (.word (w := ['w']) (v := []) (loose 'w' (by decide) (by decide) (by decide) (by decide) (by decide)) (by decide) (by decide))
      .stop (.line (.cons (j := 0) (by decide) .nil))
  have b : Block 0 false "a: >  # t\n  x: y\n  don \"t's\n\n\n  z: \nb: !t >-\n  us\n  v\n".toList _ :=
    .map (.cons (i := 0) (k := ['a']) (u := " >  # t\n  x: y\n  don \"t's\n\n\n  z: \n".toList) (v := "b: !t >-\n  us\n  v\n".toList)
      (.scalar (.phrase (.word (word 'a' (by decide) (by decide) (by decide) (by decide)))))
      (.leaf (.lit (u := [' ']) (.mid (i := 0)) (by decide) (by decide) l1))
      (.last (i := 0) (k := ['b']) (u := " !t >-\n  us\n  v\n".toList)
        (.scalar (.phrase (.word (word 'b' (by decide) (by decide) (by decide) (by decide)))))
        (.leaf (.propsLit (u := [' ']) (v := "!t".toList) (u' := [' ']) (.mid (i := 0))
          (.tag (.one (t := ['t']) ⟨by decide, 't', [], rfl, by decide⟩ (by decide))) (.mid (i := 0)) (by decide) (by decide) l2))))
  have d : Docs "--- >+\n w\n\n".toList [.text "w\n\n".toList .unknown] :=
    .explicit (z := true) (u := " >+\n w\n\n".toList) (v := [])
      (.leaf (.lit (u := [' ']) (.mid (i := 0)) (by decide) (by decide) l3)) (by simp) .done
  exact .mk (z := false) (g := []) (u := folds) .nil (by simp)
    (.implicit (z := false) (u := "a: >  # t\n  x: y\n  don \"t's\n\n\n  z: \nb: !t >-\n  us\n  v\n".toList)
      (v := "--- >+\n w\n\n".toList) (.block (m := 0) b) (by simp) d)

/-- Literal and folded scalars with their indentation, in a mapping within a mapping: it is counted from the column of the inner
mapping. -/
theorem indicators_stream : BlockText.Stream "k:\n  a: |2-\n    x\n  b: >+3\n     y\n".toList
    [.mapping [.mappingEntry (.text ['k'] .unknown) (.mapping [.mappingEntry (.text ['a'] .unknown) (.text ['x'] .unknown),
      .mappingEntry (.text ['b'] .unknown) (.text "y\n".toList .unknown)])]] := by
  have word : ∀ c : Char, c ∉ PlainTree.forbidden → c ∉ PlainTree.indicators → c ≠ ':' → [c] ∉ PlainTree.markers →
      PlainTree.Word [c] := fun c h1 h2 h3 h4 =>
    ⟨by simpa using h1, ⟨c, [], rfl, h2⟩, by simpa using h3, h4⟩
  have l1 : Literal 3 4 false "|2-\n    x\n".toList ['x'] :=
    .mk (ch := .strip) (i := 0) (s := "2-".toList) (a := []) (t := ['x']) (u := []) (v := []) (w := ['\n']) (o := some 0)
      (.before (by decide) (by decide)) .none (.inr rfl) ⟨by decide, by decide, by decide, by decide⟩ (by decide) .stop (.line .nil) (by simp)
  have l2 : Literal 3 5 true ">+3\n     y\n".toList "y\n".toList :=
    .folded (ch := .keep) (i := 0) (s := "+3".toList) (a := []) (t := ['y']) (u := []) (v := []) (w := ['\n']) (o := some 0)
      (.behind (by decide) (by decide)) .none (.inr rfl)
      (.word (w := ['y']) (v := []) ⟨by decide, ⟨'y', [], rfl, by decide, by decide⟩, by decide, by decide⟩ (by decide) (by decide))
      .stop (.line .nil)
  have b : Block 0 true "k:\n  a: |2-\n    x\n  b: >+3\n     y\n".toList _ :=
    .map (.last (i := 0) (k := ['k']) (u := "\n  a: |2-\n    x\n  b: >+3\n     y\n".toList)
      (.scalar (.phrase (.word (word 'k' (by decide) (by decide) (by decide) (by decide)))))
      (.under (w := ['\n']) (m := 2) (u := "a: |2-\n    x\n  b: >+3\n     y\n".toList) (.line (i := 0) .none (.inr rfl) .nil) (by decide)
        (.map (.cons (i := 0) (k := ['a']) (u := " |2-\n    x\n".toList) (v := "b: >+3\n     y\n".toList)
          (.scalar (.phrase (.word (word 'a' (by decide) (by decide) (by decide) (by decide)))))
          (.leaf (.lit (u := [' ']) (.mid (i := 0)) (by decide) (by decide) l1))
          (.last (i := 0) (k := ['b']) (u := " >+3\n     y\n".toList)
            (.scalar (.phrase (.word (word 'b' (by decide) (by decide) (by decide) (by decide)))))
            (.leaf (.lit (u := [' ']) (.mid (i := 0)) (by decide) (by decide) l2)))))))
  exact .mk (z := false) (g := []) .nil (by simp) (.implicit (v := []) (.block (m := 0) b) (by simp) .done)

/-- The text of the example below. -/
def brackets : List Char := "a: [x y,\n\n {\"b\":'c' , d :\n  *e}, [] ] # f\n".toList

/-- A sequence in brackets as a value: words, a mapping with a key in quotes right before its value and an alias, an empty
sequence; two line breaks, a blank line, a comment. -/
theorem brackets_stream : BlockText.Stream brackets
    [.mapping [.mappingEntry (.text ['a'] .unknown) (.sequence [.text "x y".toList .unknown,
      .mapping [.mappingEntry (.text ['b'] .double) (.text ['c'] .single), .mappingEntry (.text ['d'] .unknown) (.alias ['e'])],
      .sequence []])]] := by
  have word : ∀ c : Char, c ∉ PlainTree.forbidden → c ∉ PlainTree.indicators → c ≠ ':' → [c] ∉ PlainTree.markers →
      PlainTree.Word [c] := fun c h1 h2 h3 h4 =>
    ⟨by simpa using h1, ⟨c, [], rfl, h2⟩, by simpa using h3, h4⟩
  have ph : Scalar "x y".toList (.text "x y".toList .unknown) :=
    .phrase (.more (w := ['x']) (j := 0) (t := ['y']) (word 'x' (by decide) (by decide) (by decide) (by decide))
      (.word (word 'y' (by decide) (by decide) (by decide) (by decide))))
  have m : Flow (some 1) .coll 3 "{\"b\":'c' , d :\n  *e}".toList _ :=
    .map (w := []) (u := "\"b\":'c' , d :\n  *e".toList) (.here (j := 0))
      (.pairs (w := [' ']) (w' := [' ']) (u := "\"b\":'c'".toList) (v := "d :\n  *e".toList)
        (.plain <| .tight (u := "\"b\"".toList) (v := "'c'".toList) (.double (t := ['b']) (.of (by decide))) (by decide)
          (.single (t := ['c']) (.of (by decide))) (by decide)) (.here (j := 1)) (.here (j := 1))
        (.lastPair (w := []) (u := "d :\n  *e".toList) (.plain <| .pair (w := [' ']) (w' := "\n  ".toList) (u := ['d']) (v := "*e".toList)
          (.scalar (.phrase (.word (word 'd' (by decide) (by decide) (by decide) (by decide))))) (by decide) (.here (j := 1))
          (.lines (i := 0) (j := 2) (g := []) .nil (by decide)) (by simp)
          (.atom (.ref (a := ['e']) ⟨by decide, 'e', [], rfl, by decide⟩) (by decide))) (.here (j := 0))))
  have s : Flow (some 1) .coll 4 "[x y,\n\n {\"b\":'c' , d :\n  *e}, [] ]".toList _ :=
    .seq (w := []) (u := "x y,\n\n {\"b\":'c' , d :\n  *e}, [] ".toList) (.here (j := 0))
      (.items (w := []) (w' := "\n\n ".toList) (u := "x y".toList) (v := "{\"b\":'c' , d :\n  *e}, [] ".toList)
        (.atom (.scalar ph) (by decide)) (.here (j := 0))
        (.lines (i := 0) (j := 1) (g := ['\n']) (.line (j := 0) (g := []) .nil) (by decide))
        (.items (w := []) (w' := [' ']) (u := "{\"b\":'c' , d :\n  *e}".toList) (v := "[] ".toList) (.coll m) (.here (j := 0))
          (.here (j := 1))
          (.item (w := [' ']) (u := "[]".toList) (.coll (.noItems (n := 2) (w := []) (.here (j := 0)))) (.here (j := 1)))))
  have b : Block 0 true brackets _ :=
    .map (.last (i := 0) (k := ['a']) (u := brackets.drop 2)
      (.scalar (.phrase (.word (word 'a' (by decide) (by decide) (by decide) (by decide)))))
      (.leaf (.atom (u := [' ']) (w := " # f\n".toList) (.mid (i := 0)) (.body (.coll s))
        (.line (i := 1) (u := "# f".toList) (g := []) (.remark (c := " f".toList) (by intro c hc; fin_cases hc <;> decide))
          (.inl (by decide)) .nil))))
  have := BlockText.Stream.mk (z := false) (g := []) .nil (by simp) (.implicit (v := []) (.block (m := 0) b) (by simp) .done)
  simpa [sp] using this

/-- Entries without values, a `?`, commas at the end. -/
theorem absent_stream : BlockText.Stream "- {a, ? 'b' :,\n c: [d,], }\n".toList
    [.sequence [.mapping [.mappingEntry (.text ['a'] .unknown) .null, .mappingEntry (.text ['b'] .single) .null,
      .mappingEntry (.text ['c'] .unknown) (.sequence [.text ['d'] .unknown])]]] := by
  have word : ∀ c : Char, c ∉ PlainTree.forbidden → c ∉ PlainTree.indicators → c ≠ ':' → [c] ∉ PlainTree.markers →
      Atom [c] (.text [c] .unknown) := fun c h1 h2 h3 h4 =>
    .scalar (.phrase (.word ⟨by simpa using h1, ⟨c, [], rfl, h2⟩, by simpa using h3, h4⟩))
  have s : Flow (some 1) .coll 4 "[d,]".toList _ :=
    .seq (w := []) (u := "d,".toList) (.here (j := 0)) (.itemComma (u := ['d']) (w := []) (w' := [])
      (.atom (word 'd' (by decide) (by decide) (by decide) (by decide)) (by decide)) (.here (j := 0)) (.here (j := 0)))
  have m : Flow (some 1) .coll 4 "{a, ? 'b' :,\n c: [d,], }".toList _ :=
    .map (w := []) (u := "a, ? 'b' :,\n c: [d,], ".toList) (.here (j := 0))
      (.pairs (w := []) (w' := [' ']) (u := ['a']) (v := "? 'b' :,\n c: [d,], ".toList)
        (.plain (.alone (word 'a' (by decide) (by decide) (by decide) (by decide)) (by decide))) (.here (j := 0)) (.here (j := 1))
        (.pairs (w := []) (w' := "\n ".toList) (u := "? 'b' :".toList) (v := "c: [d,], ".toList)
          (.asked (j := 0) (u := "'b' :".toList) (.void (u := "'b'".toList) (w := [' '])
            (.scalar (.single (t := ['b']) (.of (by decide)))) (by decide) (.here (j := 1))))
          (.here (j := 0)) (.lines (i := 0) (j := 1) (g := []) .nil (by decide))
          (.pairComma (w := []) (w' := [' ']) (u := "c: [d,]".toList)
            (.plain (.pair (w := []) (w' := [' ']) (u := ['c']) (v := "[d,]".toList)
              (word 'c' (by decide) (by decide) (by decide) (by decide)) (by decide) (.here (j := 0)) (.here (j := 1)) (by simp) (.coll s)))
            (.here (j := 0)) (.here (j := 1)))))
  have b : Block 0 true "- {a, ? 'b' :,\n c: [d,], }\n".toList _ :=
    .seq (.last (u := " {a, ? 'b' :,\n c: [d,], }\n".toList)
      (.leaf (.atom (u := [' ']) (w := "\n".toList) (.mid (i := 0)) (.body (.coll m))
        (.line (i := 0) (u := []) (g := []) .none (.inr rfl) .nil))))
  have := BlockText.Stream.mk (z := false) (g := []) .nil (by simp) (.implicit (v := []) (.block (m := 0) b) (by simp) .done)
  simpa [sp] using this

/-- Escapes, an escaped quote at the end, a doubled quote: all are kept as they are written. -/
theorem escapes_stream : BlockText.Stream "- \"a\\tb\\x4f\\\"\" # c\n- 'it''s'\n".toList
    [.sequence [.text "a\\tb\\x4f\\\"".toList .double, .text "it''s".toList .single]] := by
  have d : PlainTree.Within .double "a\\tb\\x4f\\\"".toList :=
    .char (by decide) (by decide) (.escape (e := ['t']) rfl (.letter (by decide)) (.char (by decide) (by decide)
      (.escape (e := "x4f".toList) rfl (.number (l := 'x') (ds := ['4', 'f']) (by decide) (by decide)) (.escape (e := ['"']) rfl (.letter (by decide)) .nil))))
  have s : PlainTree.Within .single "it''s".toList :=
    .char (by decide) (by decide) (.char (by decide) (by decide) (.twice rfl (.char (by decide) (by decide) .nil)))
  have b : Block 0 true "- \"a\\tb\\x4f\\\"\" # c\n- 'it''s'\n".toList _ :=
    .seq (.cons (u := " \"a\\tb\\x4f\\\"\" # c\n".toList) (v := "- 'it''s'\n".toList)
      (.leaf (.atom (u := [' ']) (w := " # c\n".toList) (.mid (i := 0)) (.body (.scalar (.double d)))
        (.line (i := 1) (u := "# c".toList) (g := []) (.remark (c := " c".toList) (by intro c hc; fin_cases hc <;> decide))
          (.inl (by decide)) .nil)))
      (.last (u := " 'it''s'\n".toList)
        (.leaf (.atom (u := [' ']) (w := "\n".toList) (.mid (i := 0)) (.body (.scalar (.single s)))
          (.line (i := 0) (u := []) (g := []) .none (.inr rfl) .nil)))))
  have := BlockText.Stream.mk (z := false) (g := []) .nil (by simp) (.implicit (v := []) (.block (m := 0) b) (by simp) .done)
  simpa [sp] using this

/-- The text of the example below. -/
def asked : List Char := "? [a]\n: - b\n  - c\n? |\n  d\n? e: f\n:\ng: h\n? # i\n".toList

/-- Entries with a `?`: a sequence in brackets as a key with a sequence as its value, a literal scalar without a value, a mapping as
a key with an absent value, an entry without a `?` and an absent key. -/
theorem asked_stream : BlockText.Stream asked
    [.mapping [.mappingEntry (.sequence [.text ['a'] .unknown]) (.sequence [.text ['b'] .unknown, .text ['c'] .unknown]),
      .mappingEntry (.text "d\n".toList .unknown) .null,
      .mappingEntry (.mapping [.mappingEntry (.text ['e'] .unknown) (.text ['f'] .unknown)]) .null,
      .mappingEntry (.text ['g'] .unknown) (.text ['h'] .unknown),
      .mappingEntry .null .null]] := by
  have word : ∀ c : Char, c ∉ PlainTree.forbidden → c ∉ PlainTree.indicators → c ≠ ':' → [c] ∉ PlainTree.markers →
      Scalar [c] (.text [c] .unknown) := fun c h1 h2 h3 h4 =>
    .phrase (.word ⟨by simpa using h1, ⟨c, [], rfl, h2⟩, by simpa using h3, h4⟩)
  have nl : ∀ z, Eol z ['\n'] := fun z => .line (i := 0) .none (.inr rfl) .nil
  have leaf : ∀ n c, c ∉ PlainTree.forbidden → c ∉ PlainTree.indicators → c ≠ ':' → [c] ∉ PlainTree.markers →
      Leaf n false [' ', c, '\n'] (.text [c] .unknown) := fun n c h1 h2 h3 h4 =>
    .atom (u := [' ']) (v := [c]) (.mid (i := 0)) (.body (.scalar (word c h1 h2 h3 h4))) (nl _)
  have k1 : Field 0 false " [a]\n".toList (.sequence [.text ['a'] .unknown]) :=
    .value (.leaf (.atom (u := [' ']) (v := "[a]".toList) (.mid (i := 0)) (.body (.coll (.seq (w := []) (u := ['a']) (.here (j := 0))
      (.item (u := ['a']) (w := []) (.atom (.scalar (word 'a' (by decide) (by decide) (by decide) (by decide))) (by decide))
        (.here (j := 0)))))) (nl _)))
  have v1 : Field 0 false " - b\n  - c\n".toList (.sequence [.text ['b'] .unknown, .text ['c'] .unknown]) :=
    .compact (j := 0) (u := "- b\n  - c\n".toList) (.seq (.cons (n := 2) (u := " b\n".toList) (v := "- c\n".toList)
      (.leaf (leaf _ 'b' (by decide) (by decide) (by decide) (by decide)))
      (.last (u := " c\n".toList) (.leaf (leaf _ 'c' (by decide) (by decide) (by decide) (by decide))))))
  have k2 : Field 0 false " |\n  d\n".toList (.text "d\n".toList .unknown) :=
    .value (.leaf (.lit (m := 2) (u := [' ']) (.mid (i := 0)) (by decide) (by decide)
      (.mk (ch := .clip) (i := 0) (a := []) (t := ['d']) (u := []) (v := []) (w := ['\n']) (o := some 0) .none .none (.inr rfl)
        ⟨by decide, by decide, by decide, by decide⟩ (by decide) .stop (.line .nil) (by simp))))
  have k3 : Field 0 false " e: f\n".toList (.mapping [.mappingEntry (.text ['e'] .unknown) (.text ['f'] .unknown)]) :=
    .compact (j := 0) (u := "e: f\n".toList) (.map (.last (i := 0) (k := ['e']) (u := " f\n".toList)
      (.scalar (word 'e' (by decide) (by decide) (by decide) (by decide)))
      (.leaf (leaf _ 'f' (by decide) (by decide) (by decide) (by decide)))))
  have k5 : Field 0 false " # i\n".toList .null :=
    .value (.null (.line (i := 1) (u := "# i".toList) (g := []) (.remark (c := " i".toList) (by intro c hc; fin_cases hc <;> decide))
      (.inl (by decide)) .nil))
  have b : Block 0 false asked _ :=
    .map (.entryCons (n := 0) (k := " [a]\n".toList) (u := " - b\n  - c\n".toList)
      (v := "? |\n  d\n? e: f\n:\ng: h\n? # i\n".toList) k1 v1
      (.keyCons (n := 0) (k := " |\n  d\n".toList) (v := "? e: f\n:\ng: h\n? # i\n".toList) k2
        (.entryCons (n := 0) (k := " e: f\n".toList) (u := ['\n']) (v := "g: h\n? # i\n".toList) k3 (.value (.null (nl _)))
          (.cons (n := 0) (i := 0) (k := ['g']) (u := " h\n".toList) (v := "? # i\n".toList)
            (.scalar (word 'g' (by decide) (by decide) (by decide) (by decide)))
            (.leaf (leaf _ 'h' (by decide) (by decide) (by decide) (by decide)))
            (.keyLast (n := 0) k5)))))
  exact .mk (z := false) (g := []) (u := asked) .nil (by simp)
    (.implicit (z := false) (u := asked) (v := []) (.block (m := 0) b) (by simp) .done)

/-- C61 fails for keys with properties: as a value, the mapping is lost without an error; as a document too. -/
theorem key_properties_lost :
    (∃ w, Conv (fun f => parseString f true (newTokenizer "k:\n  &b x: y\n".toList) emptyPools)
      (⟨.mapping [.mappingEntry (.text ['k'] .unknown) .null], []⟩, w)) ∧
    (∃ w, Conv (fun f => parseString f true (newTokenizer "&b x: y\n".toList) emptyPools) (⟨.stream [], []⟩, w)) :=
  ⟨conv_outcome (f := 40) (by krfl), conv_outcome (f := 40) (by krfl)⟩

/-- C61 fails for a dash at the end of a text without a line feed: the item is lost without an error. -/
theorem last_dash_lost :
    (∃ w, Conv (fun f => parseString f true (newTokenizer "- a\n-\n".toList) emptyPools)
      (⟨.sequence [.text ['a'] .unknown, .null], []⟩, w)) ∧
    (∃ w, Conv (fun f => parseString f true (newTokenizer "- a\n-".toList) emptyPools)
      (⟨.sequence [.text ['a'] .unknown], []⟩, w)) :=
  ⟨conv_outcome (f := 40) (by krfl), conv_outcome (f := 40) (by krfl)⟩

/-- An error as the outcome of a parse. -/
theorem refused {text : List Char} (h : (outcome 80 text).map (fun o => o.err.isEmpty) = some false) :
    ∃ o w, Conv (fun f => parseString f true (newTokenizer text) emptyPools) (o, w) ∧ o.err ≠ [] := by
  cases ho : outcome 80 text with
  | none => rw [ho] at h; cases h
  | some o =>
    rw [ho] at h
    obtain ⟨w, hw⟩ := conv_outcome ho
    refine ⟨o, w, hw, ?_⟩
    intro h0
    simp [h0] at h

/-- C61 fails for tags with dashes: there is an error. -/
theorem dash_in_tag_refused : ∃ o w, Conv (fun f => parseString f true (newTokenizer "!a-b x".toList) emptyPools) (o, w) ∧
    o.err ≠ [] := by
  exact refused (by decide +kernel)

/-- C61: the secondary tag handle is not told from the primary one. -/
theorem tag_handles_merged :
    (∃ w, Conv (fun f => parseString f true (newTokenizer "!!a x".toList) emptyPools)
      (⟨.content (.properties (.tag ['a']) .invalid) (.text ['x'] .unknown), []⟩, w)) ∧
    (∃ w, Conv (fun f => parseString f true (newTokenizer "!a x".toList) emptyPools)
      (⟨.content (.properties (.tag ['a']) .invalid) (.text ['x'] .unknown), []⟩, w)) :=
  ⟨conv_outcome (f := 40) (by krfl), conv_outcome (f := 40) (by krfl)⟩

/-- C61 fails for literal scalars with a quote in the first word of a line: what follows is lost without an error. -/
theorem literal_quote_loses :
    ∃ w, Conv (fun f => parseString f true (newTokenizer "a: |-\n  it's\nb: c\n".toList) emptyPools)
      (⟨.mapping [.mappingEntry (.text ['a'] .unknown) (.text "it's".toList .unknown)], []⟩, w) :=
  conv_outcome (f := 40) (by krfl)

/-- C61 fails for literal scalars with an opening bracket at the start of a line: there is an error. -/
theorem literal_bracket_refused : ∃ o w,
    Conv (fun f => parseString f true (newTokenizer "a: |-\n  [x\nb: c\n".toList) emptyPools) (o, w) ∧ o.err ≠ [] := by
  exact refused (by decide +kernel)

/-- C61 fails for literal scalars which start with a blank line: the indentation is taken from it, so that the rest of the
document becomes part of the text. -/
theorem literal_blank_swallows :
    ∃ w, Conv (fun f => parseString f true (newTokenizer "a: |-\n\n  x\nb: c\n".toList) emptyPools)
      (⟨.mapping [.mappingEntry (.text ['a'] .unknown) (.text "\n  x\nb: c".toList .unknown)], []⟩, w) :=
  conv_outcome (f := 40) (by krfl)

/-- C61 fails for empty literal scalars: the next entry becomes the text. -/
theorem literal_empty_swallows :
    ∃ w, Conv (fun f => parseString f true (newTokenizer "a: |-\nb: c\n".toList) emptyPools)
      (⟨.mapping [.mappingEntry (.text ['a'] .unknown) (.text "b: c".toList .unknown)], []⟩, w) :=
  conv_outcome (f := 40) (by krfl)

/-- C61 fails for literal scalars in column 0: the lines with `---` which follow become part of the text. -/
theorem literal_root_swallows :
    ∃ w, Conv (fun f => parseString f true (newTokenizer "|-\nx\n---\ny".toList) emptyPools)
      (⟨.text "x\n---\ny".toList .unknown, []⟩, w) :=
  conv_outcome (f := 40) (by krfl)

/-- C61: a line of a literal scalar which is less indented than its first one ends the document without an error. -/
theorem literal_dedent_loses :
    ∃ w, Conv (fun f => parseString f true (newTokenizer "a: |-\n   x\n  y\nb: c\n".toList) emptyPools)
      (⟨.mapping [.mappingEntry (.text ['a'] .unknown) (.text "x".toList .unknown)], []⟩, w) :=
  conv_outcome (f := 40) (by krfl)

/-- C61 fails for folded scalars with two lines in a row which are more indented than the first one: the line break between them
is doubled. -/
theorem folded_doubled :
    ∃ w, Conv (fun f => parseString f true (newTokenizer ">\n  a\n   b\n   c\n  d\n".toList) emptyPools)
      (⟨.text "a\n b\n\n c\nd\n".toList .unknown, []⟩, w) :=
  conv_outcome (f := 60) (by krfl)

/-- C61 fails for folded scalars whose first line is more indented than the next one: the rest is lost without an error. -/
theorem folded_dedent_loses :
    ∃ w, Conv (fun f => parseString f true (newTokenizer "a: >\n   x\n  y\nb: c\n".toList) emptyPools)
      (⟨.mapping [.mappingEntry (.text ['a'] .unknown) (.text "x\n".toList .unknown)], []⟩, w) :=
  conv_outcome (f := 60) (by krfl)

/-- C61 fails for folded scalars which start with a blank line: the rest of the document becomes part of the text. -/
theorem folded_blank_swallows :
    ∃ w, Conv (fun f => parseString f true (newTokenizer "a: >\n\n  x\nb: c\n".toList) emptyPools)
      (⟨.mapping [.mappingEntry (.text ['a'] .unknown) (.text "\n  x\nb: c\n".toList .unknown)], []⟩, w) :=
  conv_outcome (f := 60) (by krfl)

/-- C61 fails for folded scalars with an opening bracket at the start of a line: there is an error. -/
theorem folded_bracket_refused : ∃ o w,
    Conv (fun f => parseString f true (newTokenizer "a: >\n  [x\n".toList) emptyPools) (o, w) ∧ o.err ≠ [] :=
  refused (by decide +kernel)

/-- C61 fails for a closing bracket in the column of the key: the document is lost without an error. -/
theorem closing_bracket_loses :
    ∃ w, Conv (fun f => parseString f true (newTokenizer "a: [\n  b\n]\n".toList) emptyPools) (⟨.stream [], []⟩, w) :=
  conv_outcome (f := 60) (by krfl)

/-- C61 fails for single pairs in sequences in brackets: the item is the entry itself, not a mapping with this entry. -/
theorem single_pair_bare :
    ∃ w, Conv (fun f => parseString f true (newTokenizer "[a: b]\n".toList) emptyPools)
      (⟨.sequence [.mappingEntry (.text ['a'] .unknown) (.text ['b'] .unknown)], []⟩, w) :=
  conv_outcome (f := 60) (by krfl)

/-- C61 fails for properties of keys in quotes within brackets: the document is lost without an error. -/
theorem quoted_key_properties_lose :
    ∃ w, Conv (fun f => parseString f true (newTokenizer "{&x \"a\": b}\n".toList) emptyPools) (⟨.stream [], []⟩, w) :=
  conv_outcome (f := 60) (by krfl)

/-- C61 fails for carriage returns in a literal scalar: they are kept, although line breaks of any kind are to be read as line
feeds. -/
theorem carriage_return_kept :
    ∃ w, Conv (fun f => parseString f true (newTokenizer "a: |\r\n  x\r\n  y\r\n".toList) emptyPools)
      (⟨.mapping [.mappingEntry (.text ['a'] .unknown) (.text "x\r\ny\r\n".toList .unknown)], []⟩, w) :=
  conv_outcome (f := 60) (by krfl)

/-- C61 fails for comments within brackets: they become part of the text before them. -/
theorem comment_in_brackets_kept :
    ∃ w, Conv (fun f => parseString f true (newTokenizer "[a, b # c\n, d]".toList) emptyPools)
      (⟨.sequence [.text ['a'] .unknown, .text "b # c".toList .unknown, .text ['d'] .unknown], []⟩, w) :=
  conv_outcome (f := 60) (by krfl)

/-- Plain texts with commas and brackets. -/
def sentences : List Char := "- Hello, world\n- a: x[1] ,y\n  b: &c f{z}\n".toList

theorem sentences_stream : BlockText.Stream sentences
    [.sequence [.text "Hello, world".toList .unknown,
      .mapping [.mappingEntry (.text ['a'] .unknown) (.text "x[1] ,y".toList .unknown),
        .mappingEntry (.text ['b'] .unknown) (.content (.properties .nil (.anchor ['c'])) (.text "f{z}".toList .unknown))]]] := by
  have word : ∀ (c : Char) (r : List Char), (∀ d ∈ c :: r, d ∉ PlainTree.breaking) → c ∉ PlainTree.indicators → c ∉ ['[', '{'] →
      (c :: r).getLast? ≠ some ':' → (c :: r) ∉ PlainTree.markers → PlainTree.LooseWord (c :: r) :=
    fun c r h1 h2 h3 h4 h5 => ⟨h1, ⟨c, r, rfl, h2, h3⟩, h4, h5⟩
  have key : ∀ c : Char, c ∉ PlainTree.forbidden → c ∉ PlainTree.indicators → c ≠ ':' → [c] ∉ PlainTree.markers →
      Atom [c] (.text [c] .unknown) := fun c h1 h2 h3 h4 =>
    .scalar (.phrase (.word ⟨by simpa using h1, ⟨c, [], rfl, h2⟩, by simpa using h3, h4⟩))
  have nl : Eol false ['\n'] := .line (i := 0) .none (.inr rfl) .nil
  have hello : PlainTree.Sentence "Hello, world".toList :=
    ⟨.more (w := "Hello,".toList) (j := 0) (t := "world".toList) (word _ _ (by decide) (by decide) (by decide) (by decide) (by decide))
      (.word (word _ _ (by decide) (by decide) (by decide) (by decide) (by decide))), by simp⟩
  have xy : PlainTree.Sentence "x[1] ,y".toList :=
    ⟨.more (w := "x[1]".toList) (j := 0) (t := ",y".toList) (word _ _ (by decide) (by decide) (by decide) (by decide) (by decide))
      (.word (word _ _ (by decide) (by decide) (by decide) (by decide) (by decide))), by simp⟩
  have fz : PlainTree.Sentence "f{z}".toList :=
    ⟨.word (word _ _ (by decide) (by decide) (by decide) (by decide) (by decide)), by simp⟩
  have i1 : Item 0 false " Hello, world\n".toList (.text "Hello, world".toList .unknown) :=
    .leaf (.atom (u := [' ']) (v := "Hello, world".toList) (.mid (i := 0)) (.body (.sentence hello)) nl)
  have v1 : Value 2 false " x[1] ,y\n".toList (.text "x[1] ,y".toList .unknown) :=
    .leaf (.atom (u := [' ']) (v := "x[1] ,y".toList) (.mid (i := 0)) (.body (.sentence xy)) nl)
  have v2 : Value 2 false " &c f{z}\n".toList (.content (.properties .nil (.anchor ['c'])) (.text "f{z}".toList .unknown)) :=
    .leaf (.props (u := [' ']) (v := ['&', 'c']) (u' := [' ']) (v' := "f{z}".toList) (.mid (i := 0))
      (.anchor ⟨by decide, 'c', [], rfl, by decide⟩) (.mid (i := 0)) (.sentence fz) nl)
  have p1 : Pairs 2 false "a: x[1] ,y\n  b: &c f{z}\n".toList _ :=
    .cons (i := 0) (k := ['a']) (u := " x[1] ,y\n".toList) (v := "b: &c f{z}\n".toList)
      (key 'a' (by decide) (by decide) (by decide) (by decide)) v1
      (.last (i := 0) (k := ['b']) (u := " &c f{z}\n".toList) (key 'b' (by decide) (by decide) (by decide) (by decide)) v2)
  have b : Block 0 false sentences _ :=
    .seq (.cons (n := 0) (u := " Hello, world\n".toList) (v := "- a: x[1] ,y\n  b: &c f{z}\n".toList) i1
      (.last (n := 0) (u := " a: x[1] ,y\n  b: &c f{z}\n".toList) (.compact (j := 0) (.map p1))))
  have := BlockText.Stream.mk (z := false) (g := []) .nil (by simp) (.implicit (v := []) (.block (m := 0) b) (by simp) .done)
  simpa [sp] using this

/-- Plain texts on several lines. -/
def paragraphs : List Char := "- one, two\r\n  three \n \n\n    four\n- k: b\n    c # d\n".toList

theorem paragraphs_stream : BlockText.Stream paragraphs
    [.sequence [.text "one, two three\n\nfour".toList .unknown,
      .mapping [.mappingEntry (.text ['k'] .unknown) (.text "b c".toList .unknown)]]] := by
  have word : ∀ (c : Char) (r : List Char), (∀ d ∈ c :: r, d ∉ PlainTree.breaking) → c ∉ PlainTree.indicators → c ∉ ['[', '{'] →
      (c :: r).getLast? ≠ some ':' → (c :: r) ∉ PlainTree.markers → PlainTree.LooseWord (c :: r) :=
    fun c r h1 h2 h3 h4 h5 => ⟨h1, ⟨c, r, rfl, h2, h3⟩, h4, h5⟩
  have nl : Eol false ['\n'] := .line (i := 0) .none (.inr rfl) .nil
  have nl' : Eol false " # d\n".toList := .line (i := 1) (u := "# d".toList) (.remark (c := " d".toList) (by intro c hc; fin_cases hc <;> decide)) (.inl (by omega)) .nil
  have t1 : PlainTree.Sentence "one, two".toList :=
    ⟨.more (w := "one,".toList) (j := 0) (t := "two".toList) (word _ _ (by decide) (by decide) (by decide) (by decide) (by decide))
      (.word (word _ _ (by decide) (by decide) (by decide) (by decide) (by decide))), by simp⟩
  have t2 : PlainTree.Sentence "three".toList := ⟨.word (word _ _ (by decide) (by decide) (by decide) (by decide) (by decide)), by simp⟩
  have t3 : PlainTree.Sentence "four".toList := ⟨.word (word _ _ (by decide) (by decide) (by decide) (by decide) (by decide)), by simp⟩
  have t4 : PlainTree.Sentence "b".toList := ⟨.word (word _ _ (by decide) (by decide) (by decide) (by decide) (by decide)), by simp⟩
  have t5 : PlainTree.Sentence "c".toList := ⟨.word (word _ _ (by decide) (by decide) (by decide) (by decide) (by decide)), by simp⟩
  have w1 : Wraps 1 " \n \n\n    four".toList "\n\nfour".toList :=
    .more (i := 1) (j := 4) (c := 2) (b := ['\n']) (g := " \n\n".toList) (t := "four".toList) (u := []) (v := []) .lf
      (.cons (j := 1) (g := ['\n']) (.cons (j := 0) .nil)) (by omega) t3 .stop
  have w2 : Wraps 1 "\r\n  three \n \n\n    four".toList " three\n\nfour".toList :=
    .more (i := 0) (j := 2) (c := 0) (b := ['\r', '\n']) (g := []) (t := "three".toList) .crlf .nil (by omega) t2 w1
  have w3 : Wraps 3 "\n    c".toList " c".toList :=
    .more (i := 0) (j := 4) (c := 0) (b := ['\n']) (g := []) (t := "c".toList) (u := []) (v := []) .lf .nil (by omega) t5 .stop
  have i1 : Item 0 false " one, two\r\n  three \n \n\n    four\n".toList (.text "one, two three\n\nfour".toList .unknown) :=
    .leaf (.atom (u := [' ']) (v := "one, two\r\n  three \n \n\n    four".toList) (.mid (i := 0)) (.body (.lines t1 w2)) nl)
  have v1 : Value 2 false " b\n    c # d\n".toList (.text "b c".toList .unknown) :=
    .leaf (.atom (u := [' ']) (v := "b\n    c".toList) (.mid (i := 0)) (.body (.lines t4 w3)) nl')
  have p1 : Pairs 2 false "k: b\n    c # d\n".toList _ :=
    .last (i := 0) (k := ['k']) (u := " b\n    c # d\n".toList)
      (.scalar (.phrase (.word ⟨by decide, ⟨'k', [], rfl, by decide⟩, by decide, by decide⟩))) v1
  have b : Block 0 false paragraphs _ :=
    .seq (.cons (n := 0) (u := " one, two\r\n  three \n \n\n    four\n".toList) (v := "- k: b\n    c # d\n".toList) i1
      (.last (n := 0) (u := " k: b\n    c # d\n".toList) (.compact (j := 0) (.map p1))))
  have := BlockText.Stream.mk (z := false) (g := []) .nil (by simp) (.implicit (v := []) (.block (m := 0) b) (by simp) .done)
  simpa [sp] using this

/-- Texts in quotes on several lines. -/
def verses : List Char := "- \"one: two\n  - three\r\n \n\n    \"\n- &a '\n\n  # b'\n".toList

theorem verses_stream : BlockText.Stream verses
    [.sequence [.text "one: two - three\n\n".toList .double,
      .content (.properties .nil (.anchor ['a'])) (.text "\n# b".toList .single)]] := by
  have nl : Eol false ['\n'] := .line (i := 0) .none (.inr rfl) .nil
  have w1 : Folds .double 1 "\r\n \n\n    ".toList "\n\n".toList :=
    .last (j := 4) (c := 2) (b := ['\r', '\n']) (g := " \n\n".toList) (t := []) .crlf (.cons (j := 1) (g := ['\n']) (.cons (j := 0) .nil))
      (by omega) (.of (by decide)) (by decide) (by omega)
  have w2 : Folds .double 1 "\n  - three\r\n \n\n    ".toList " - three\n\n".toList :=
    .more (j := 2) (c := 0) (b := ['\n']) (g := []) (t := "- three".toList) .lf .nil (by omega) (.of (by decide))
      (by decide) (by decide) (by decide) (by omega) w1
  have w3 : Folds .single 1 "\n\n  # b".toList "\n# b".toList :=
    .last (j := 2) (c := 1) (b := ['\n']) (g := ['\n']) (t := "# b".toList) .lf (.cons (j := 0) .nil) (by omega)
      (.of (by decide)) (by decide) (by omega)
  have i1 : Item 0 false " \"one: two\n  - three\r\n \n\n    \"\n".toList (.text "one: two - three\n\n".toList .double) :=
    .leaf (.atom (u := [' ']) (v := "\"one: two\n  - three\r\n \n\n    \"".toList) (.mid (i := 0))
      (.body (.doubleLines (t := "one: two".toList) (.of (by decide)) (by decide) w2)) nl)
  have i2 : Item 0 false " &a '\n\n  # b'\n".toList _ :=
    .leaf (.props (u := [' ']) (v := "&a".toList) (u' := [' ']) (v' := "'\n\n  # b'".toList) (.mid (i := 0))
      (.anchor (a := ['a']) ⟨by decide, ⟨'a', [], rfl, by decide⟩⟩) (.mid (i := 0)) (.singleLines (t := []) (.of (by decide)) (by decide) w3) nl)
  have b : Block 0 false verses _ :=
    .seq (.cons (n := 0) (u := " \"one: two\n  - three\r\n \n\n    \"\n".toList) (v := "- &a '\n\n  # b'\n".toList) i1 (.last (n := 0) i2))
  have := BlockText.Stream.mk (z := false) (g := []) .nil (by simp) (.implicit (v := []) (.block (m := 0) b) (by simp) .done)
  simpa [sp] using this

/-- C61 fails for texts in quotes with spaces at the end of a line which is not the last one: the spaces are kept. -/
theorem quoted_space_kept :
    ∃ w, Conv (fun f => parseString f true (newTokenizer "a: \"b \n  c\"\n".toList) emptyPools)
      (⟨.mapping [.mappingEntry (.text ['a'] .unknown) (.text "b  c".toList .double)], []⟩, w) :=
  conv_outcome (f := 60) (by krfl)

/-- C61 fails for blank lines within a plain text which end with a carriage return and a line feed: both are kept. -/
theorem blank_carriage_return_kept :
    ∃ w, Conv (fun f => parseString f true (newTokenizer "a: x\r\n\r\n  y\r\n".toList) emptyPools)
      (⟨.mapping [.mappingEntry (.text ['a'] .unknown) (.text "x\r\ny".toList .unknown)], []⟩, w) :=
  conv_outcome (f := 60) (by krfl)

/-- C61 fails for plain texts with a quote in them, whether a word starts with it or not: the document is lost without an error. -/
theorem apostrophe_loses :
    (∃ w, Conv (fun f => parseString f true (newTokenizer "a: don't\n".toList) emptyPools) (⟨.stream [], []⟩, w)) ∧
    (∃ w, Conv (fun f => parseString f true (newTokenizer "a: the \"b\"\n".toList) emptyPools) (⟨.stream [], []⟩, w)) :=
  ⟨conv_outcome (f := 60) (by krfl), conv_outcome (f := 60) (by krfl)⟩

/-- C61 fails for plain texts with `%` or `!` in them: the document is lost without an error. -/
theorem percent_loses :
    (∃ w, Conv (fun f => parseString f true (newTokenizer "a: 50%\n".toList) emptyPools) (⟨.stream [], []⟩, w)) ∧
    (∃ w, Conv (fun f => parseString f true (newTokenizer "a: wow!\n".toList) emptyPools) (⟨.stream [], []⟩, w)) :=
  ⟨conv_outcome (f := 60) (by krfl), conv_outcome (f := 60) (by krfl)⟩

/-- C61 fails for plain texts with a dash, an ampersand, an asterisk, a bar or `>` between spaces: the document is lost without an
error. -/
theorem spaced_dash_loses :
    (∃ w, Conv (fun f => parseString f true (newTokenizer "a: x - y\n".toList) emptyPools) (⟨.stream [], []⟩, w)) ∧
    (∃ w, Conv (fun f => parseString f true (newTokenizer "a: x & y\n".toList) emptyPools) (⟨.stream [], []⟩, w)) ∧
    (∃ w, Conv (fun f => parseString f true (newTokenizer "a: x * y\n".toList) emptyPools) (⟨.stream [], []⟩, w)) ∧
    (∃ w, Conv (fun f => parseString f true (newTokenizer "a: x | y\n".toList) emptyPools) (⟨.stream [], []⟩, w)) ∧
    (∃ w, Conv (fun f => parseString f true (newTokenizer "a: x > y\n".toList) emptyPools) (⟨.stream [], []⟩, w)) :=
  ⟨conv_outcome (f := 60) (by krfl), conv_outcome (f := 60) (by krfl), conv_outcome (f := 60) (by krfl),
    conv_outcome (f := 60) (by krfl), conv_outcome (f := 60) (by krfl)⟩

/-- C61 fails for plain texts with a word that starts with a bracket: the document is lost without an error. -/
theorem spaced_bracket_loses :
    ∃ w, Conv (fun f => parseString f true (newTokenizer "a: see [1]\n".toList) emptyPools) (⟨.stream [], []⟩, w) :=
  conv_outcome (f := 60) (by krfl)

/-- C61 fails for keys with commas or brackets in them: the document is lost without an error. -/
theorem comma_in_key_loses :
    (∃ w, Conv (fun f => parseString f true (newTokenizer "a,b: c\n".toList) emptyPools) (⟨.stream [], []⟩, w)) ∧
    (∃ w, Conv (fun f => parseString f true (newTokenizer "a[]: c\n".toList) emptyPools) (⟨.stream [], []⟩, w)) :=
  ⟨conv_outcome (f := 60) (by krfl), conv_outcome (f := 60) (by krfl)⟩

/-- C61: an entry without a text in a sequence in brackets is not refused, but the document is lost. -/
theorem empty_item_loses :
    ∃ w, Conv (fun f => parseString f true (newTokenizer "[a,,b]".toList) emptyPools) (⟨.stream [], []⟩, w) :=
  conv_outcome (f := 60) (by krfl)

/-- Directives of all kinds. -/
def directives : List Char :=
  "# c\n%YAML 1.2  # v\n%TAG  !e-1! tag:x.org,2000:a/ \n\n%TAG ! b\n%TAG !!  c # d\n%FOO bar  !#baz\r\n--- a\n...\n%YAML 1.1\n---\n".toList

/-- The directives of the text above, without the last one. -/
theorem directives_first :
    Directives ("%YAML 1.2  # v\n%TAG  !e-1! tag:x.org,2000:a/ \n\n%TAG ! b\n%TAG !!  c # d\n%FOO bar  !#baz\r\n".toList) := by
  refine .more (u := "%YAML 1.2  # v\n".toList) (.yaml (i := 1) (a := ['1']) (b := ['2']) (w := "  # v\n".toList) (by decide)
    ⟨by decide, by decide⟩ ⟨by decide, by decide⟩
    (.line (i := 2) (g := []) (.remark (c := " v".toList) (by intro c hc; fin_cases hc <;> decide)) (by decide) .nil)) ?_
  refine .more (u := "%TAG  !e-1! tag:x.org,2000:a/ \n\n".toList) (.tag (i := 2) (j := 1) (h := "!e-1!".toList)
    (t := "tag:x.org,2000:a/".toList) (w := " \n\n".toList) (by decide) (.named (w := "e-1".toList) (by decide) (by decide)) (by decide)
    ⟨by decide, 't', _, rfl, by decide⟩ (.line (i := 1) (u := []) (g := ['\n']) .none (by decide) (.line (i := 0) (g := []) .none .nil))) ?_
  refine .more (u := "%TAG ! b\n".toList) (.tag (i := 1) (j := 1) (h := ['!']) (t := ['b']) (w := ['\n']) (by decide) .one (by decide)
    ⟨by decide, 'b', _, rfl, by decide⟩ (.line (i := 0) (u := []) (g := []) .none (by decide) .nil)) ?_
  refine .more (u := "%TAG !!  c # d\n".toList) (.tag (i := 1) (j := 2) (h := ['!', '!']) (t := ['c']) (w := " # d\n".toList) (by decide)
    .two (by decide) ⟨by decide, 'c', _, rfl, by decide⟩ (.line (i := 1) (u := "# d".toList) (g := [])
      (.remark (c := " d".toList) (by intro c hc; fin_cases hc <;> decide)) (by decide) .nil)) ?_
  exact .one (.other (n := "FOO".toList) (u := " bar  !#baz".toList) (b := ['\r', '\n']) (g := []) ⟨by decide, by decide⟩ (by decide) (by decide)
    (.cons (i := 1) (w := "bar".toList) (u := "  !#baz".toList) (by decide) ⟨by decide, by decide⟩
      (.cons (i := 2) (w := "!#baz".toList) (u := []) (by decide) ⟨by decide, by decide⟩ .nil)) .crlf .nil)

theorem directives_stream : BlockText.Stream directives [.text ['a'] .unknown, .null] := by
  have w : PlainTree.Word ['a'] := ⟨by decide, ⟨'a', [], rfl, by decide⟩, by decide, by decide⟩
  refine .mk (z := false) (g := "# c\n".toList)
    (.line (i := 0) (u := "# c".toList) (g := []) (.remark (c := " c".toList) (by intro c hc; fin_cases hc <;> decide)) .nil) (by simp)
    (.directives (z := false) (u := " a\n".toList) (v := "...\n%YAML 1.1\n---\n".toList) directives_first ?_ (by simp) ?_)
  · exact .leaf (.atom (u := [' ']) (v := ['a']) (w := ['\n']) (.mid (i := 0)) (.body (.scalar (.phrase (.word w))))
      (.line (i := 0) (u := []) (g := []) .none (.inr rfl) .nil))
  · exact .suffix (z := false) (u := ['\n']) (v := "%YAML 1.1\n---\n".toList) (.line (i := 0) (u := []) (g := []) .none (.inr rfl) .nil) (by simp)
      (.first (.directives (z := false) (d := "%YAML 1.1\n".toList) (u := ['\n']) (v := [])
        (.one (.yaml (i := 1) (a := ['1']) (b := ['1']) (w := ['\n']) (by decide) ⟨by decide, by decide⟩ ⟨by decide, by decide⟩
          (.line (i := 0) (u := []) (g := []) .none (.inr rfl) .nil)))
        (.null (.line (i := 0) (u := []) (g := []) .none (.inr rfl) .nil)) (by simp) .done))

/-- C61 fails for directives with a local tag prefix: the text is lost without an error. -/
theorem local_prefix_loses :
    ∃ w, Conv (fun f => parseString f true (newTokenizer "%TAG !e! !foo\n--- a\n".toList) emptyPools) (⟨.stream [], []⟩, w) :=
  conv_outcome (f := 60) (by krfl)

/-- C61 fails for directives with a space in front: the text is lost without an error. -/
theorem spaced_directive_loses :
    ∃ w, Conv (fun f => parseString f true (newTokenizer " %YAML 1.2\n--- a\n".toList) emptyPools) (⟨.stream [], []⟩, w) :=
  conv_outcome (f := 60) (by krfl)

end Verif.Props.Blocks
