# Formal model of yamly

## Layout

* `properties.jsonl` – the properties, in terms of the API and observable effects.
* `lean/Verif/Model/*.lean` – the model: one Lean file per Go file or package; every definition cites the Go lines it models.
* `lean/Verif/Spec/*.lean` – small specifications which do not mention the model (cursor semantics, Dyck words, value trees,
  the regular expressions of the core schema, ...).
* `lean/Verif/Lemmas/*.lean` – invariants, simulations, symbolic execution rules.
* `lean/Verif/Props/*.lean` – the property theorems and, beside each, a concrete `example` which meets its hypotheses.
* `MANIFEST.json` – property → status and exact theorem names.
* `seeded/LOG.jsonl` – mutation testing: one line per seeded bug.

## Trusted base

* Lean 4.33.0's kernel.  The only axioms are `propext`, `Classical.choice` and `Quot.sound`; no own axioms, no `sorry`, no
  `native_decide`, no `bv_decide`.  The table at the end lists the axioms per theorem.
* `decide +kernel`, `rfl` and `krfl` (`Lemmas/Krfl.lean`: an elaborator which closes `a = b` with `Eq.refl a` and leaves the
  check to the kernel, where the elaborator's own unifier would need too long) are used for concrete witnesses only, that is
  for negations (`∃ input, …`) and examples.  The kernel checks every one of them; nothing is compiled.
* The hand translation from Go to Lean, which no tool checks.  Conventions:
  * A Go `string` is a `List Char`, the sequence of runes which `range s` gives; byte sequences which are not UTF-8 are outside
    of the model unless a module says otherwise.  The end-of-input rune `-1` is `none : Option Char`.
  * Slices are lists (arrays with explicit capacity where aliasing matters: `BalanceCheck`).  Pointers to nodes which nobody
    changes after their creation are tree values; where nodes are changed through pointers there is an explicit heap (both
    builders, the goyaml graph, the raw transformer, the goyaml reader).
  * Errors are values, a panic is an explicit outcome.  Loops without an obvious bound and mutual recursion take fuel
    (`Model/Res.lean`): `timeout`, `panic` and `ok` are distinct, `Conv g x` says that every large enough fuel gives `ok x`.
    Theorems about such functions are stated with `Conv` (or "for every fuel"), divergence as "no fuel suffices"; for the
    parser, `Lemmas/ParserMono.lean` proves that more fuel never changes an answer.
  * Goroutines and channels are a transition system with explicit steps; theorems speak about all its executions.
  * Maps are association lists with distinct keys; where Go iterates a map, the order is an arbitrary permutation.
  * `sync.Pool` may hand out any object put back before, or a new one, and may drop objects at any time.

## What is modelled

| Go file | Lean model | left out |
|---------|-----------|----------|
| engines/yayamls/pkg/cpaccessor/accessor.go | `CPAccessor` | – |
| engines/yayamls/token/{bitmap,token}.go | `Bitmap`, `Token` | `String` methods |
| engines/yayamls/lexer/*.go | `Lexer`, `RuneStream` | `utf8.DecodeRune` follows its documentation |
| engines/yayamls/yamlchar/*.go | `YamlChar` | – |
| engines/yayamls/parser/internal/{balancecheck,deadend} | `BalanceCheck`, `Parser` | – |
| engines/yayamls/parser/*.go | `Parser`, `ParserFlow`, `ParserBlock`, `ParserDocs` | wording of the error messages (errors.go) |
| engines/yayamls/ast/node.go, visitor.go | `Ast` | `String` methods, positions |
| engines/yayamls/ast/astcmp/comparator.go | `Comparator` | – |
| engines/yayamls/ast/astprint/printer.go | `Printer` | errors of the writer (ignored by the code) |
| engines/yayamls/encode/{builder,writer}.go | `Builder`, `Writer`, `WriterKeeper` (with an anchors keeper) | – |
| engines/yayamls/decode/{reader,expected,iterator,anchors,any,error}.go | `Reader`, `Iterator`, `AnyBuilder` | error texts |
| engines/yayamls/schema, engines/pkg/schema | `Schema`, `Strconv`, `Generic`, `Timestamp`, `Binary`, `Float` | shortest digits and rounding of floats are parameters (`strconv`), readers and encoders take the texts of floats as parameters; readers take the class of timestamps as a parameter; `time.Parse` and `Time.Format` follow the published source of Go 1.21 for the layouts of the table |
| engines/goyaml/encode/builder.go | `GoyamlBuilder` | – |
| engines/goyaml/decode/{reader,expected,iterator,any,raw,error}.go, schema | `GoyamlReader`, `GoyamlAnyBuilder`, `GoyamlGraph`, `RawTransformer` | error texts |
| decode.go, encode.go | `Decoder`, `Inserter`, `Encoder` | – |
| generator/generator.go, tags.go | `GenNames`, `GenFields`, `GenTypes` | the text of the file header |
| generator/decoder.go, encoder.go | `GenTypes` (which types are met), `GenCode` (what the written code does), `GenText` (the written text) | interfaces, byte arrays, custom methods: see the header of `GenCode` |
| engines/*/engine.go | `GenNames` (packages), `GenText` (the written text) | |
| generator/bootstrap/generator.go | `Bootstrap`, `BootMain` | `strconv.IsPrint` is a parameter; the temporary file, `go run` and gofmt are not modelled |
| generator/parser/*.go | `PkgPath` | the cache; `go env`, `go/parser`, `strconv.Unquote` are parameters |
| cmd/yamlygen/main.go | `Cmd` (name of the output file) | flags, choice of the directory and of the engine |

Not modelled at all: gopkg.in/yaml.v3 (its nodes are inputs, its emitter and parser are not looked into), `reflect` (a table of
type descriptions), `strconv` for floats (but for digits and exponents in `Float`), `time` (but for `Timestamp`), `fmt`, the Go compiler and `go run`, the operating system, exhaustion of
memory or stack, data races on objects which the API does not declare safe for concurrent use, goyaml/encode/writer.go (three
calls of yaml.v3), strslice (unsafe conversions), the benchmark directory.

## Properties

Status `partial` means that the statement in `properties.jsonl` is *not* proved as it stands.  In all such cases but those marked
otherwise the reason is that the code violates it: then there is a theorem proving the negation by a concrete witness, and
`_partial` theorems for the largest part of the claim that holds.

### C01 Checkpoints never lose, repeat or reorder stream elements — proved

* Model: CPAccessor.
* Proof: refinement of the accessor (buffer, cursor in the buffer, saved element, checkpoint stack) to `Spec/Cursor`, by an invariant over all call histories.
* Result: refinement of the accessor to a cursor over the stream for every history without panics, also after a reset.
* Theorems: `Accessor.next_returns_element_at_cursor`, `Accessor.pulled_eq_seen`, `Accessor.reset_reads_afresh`.

### C02 Rollback reports the element that preceded the checkpoint — partial

* Model: CPAccessor.
* Proof: refinement of the accessor (buffer, cursor in the buffer, saved element, checkpoint stack) to `Spec/Cursor`, by an invariant over all call histories.
* Result: false in general: the saved element is stale after a nested rollback; negation proved by witness, partial theorem for the remaining histories.
* Theorems: `Accessor.rollback_returns_element_before_checkpoint_partial`, `Accessor.rollback_value_stale`.

### C03 Tokenisation loses no input — proved

* Model: Lexer.
* Proof: invariant of the tokenizer over arbitrary interleavings of `Next` and raw-mode switches; each step consumes a prefix of the rest and positions are those of `Spec/Position`.
* Theorems: `Lexer.tokenisation_lossless`, `Lexer.rune_accessor_refines`.

### C04 Tokenisation terminates and end-of-input is final — proved

* Model: Lexer.
* Proof: invariant of the tokenizer over arbitrary interleavings of `Next` and raw-mode switches; each step consumes a prefix of the rest and positions are those of `Spec/Position`.
* Theorems: `Lexer.tokenisation_terminates`, `Lexer.next_fuel_irrelevant`.

### C05 Token positions never go backwards — proved

* Model: Lexer.
* Proof: invariant of the tokenizer over arbitrary interleavings of `Next` and raw-mode switches; each step consumes a prefix of the rest and positions are those of `Spec/Position`.
* Theorems: `Lexer.token_positions_increase`, `Lexer.token_positions_exact`.

### C06 Memoised character class answers equal direct answers — proved

* Model: Bitmap.
* Proof: the map holds only answers which agree with the predicates, an invariant over query sequences.
* Theorems: `Memo.memoised_eq_direct`, `Memo.get_after_set`, `Memo.get_after_set_other`, `Memo.second_query_is_cached`.

### C07 Bracket balance is decided exactly — proved

* Model: BalanceCheck.
* Proof: the stack of openers is the residue of the word read; equivalence with the inductive `Spec/Nesting`.
* Theorems: `Balance.isBalanced_iff_nested`, `Balance.add_false_iff_hopeless`, `Balance.peekLastUnbalanced_none_iff`, `Balance.parserPairs_proper`.

### C08 Backtracking restores the bracket balance — partial

* Model: BalanceCheck.
* Proof: the stack of openers is the residue of the word read; equivalence with the inductive `Spec/Nesting`.
* Result: false in general: the memento shares the backing array; negation proved.
* Theorems: `Balance.memento_restores_partial`, `Balance.memento_forgets`.

### C09 The parser terminates on every input — proved

* Model: Parser, ParserFlow, ParserBlock, ParserDocs.
* Proof: weakest-precondition rules for the parser monad (`Lemmas/ParserWp`) and one specification per production (`Lemmas/Parser*Spec`): relation between the accessor and a cursor over the token stream, a measure bounding loops and recursion, no panic; induction over the measure.
* Result: every source, every history of earlier parses, every option set; no panic and no unbounded loop or recursion; the entry point for prepared tokens under a premise on byte order marks.
* Theorems: `Parser.parse_ends`, `Parser.parse_ends_linear`, `Parser.parse_tokens_ends`.

### C10 Successfully parsed trees are well formed — partial

* Model: same as C09.
* Proof: the specifications carry well-formedness of the nodes (`Spec/Tree`).
* Result: false for the absent one of tag and anchor in node properties (negation proved: !a b); everything else is complete in every returned tree.
* Theorems: `Parser.tree_complete_partial`, `Parser.marker_in_properties`, `Parser.not_well_formed`.

### C11 Parse outcome is a tree or an error, never both, and does not depend on earlier parses — proved

* Model: same as C09.
* Proof: monotonicity in the fuel gives determinacy; an invariant of the global pools over all histories of earlier parses.
* Result: every source, every option set, every history of earlier parses through the global pools, which may drop items.
* Theorems: `Parser.tree_or_error`, `Parser.parse_ends`.

### C12 Single quoting round-trips — proved

* Model: YamlChar.
* Proof: induction over the string; the escape table of `Spec/Escapes` for C50.
* Theorems: `Quoting.single_quote_roundtrip`, `Quoting.single_quoted_form_recognised`.

### C13 Double quoting round-trips — partial

* Model: YamlChar.
* Proof: induction over the string; the escape table of `Spec/Escapes` for C50.
* Result: false for characters written as \x escapes; negation proved by witness.
* Theorems: `Quoting.double_quote_roundtrip_partial`, `Quoting.double_quote_roundtrip_fails`, `Quoting.printable_iff`.

### C14 Double quoted output is always lexically valid — partial

* Model: YamlChar.
* Proof: induction over the string; the escape table of `Spec/Escapes` for C50.
* Result: false for backspace; negation proved by witness.
* Theorems: `Quoting.double_quoted_form_recognised_partial`, `Quoting.double_quoted_backspace_rejected`, `Quoting.double_quoted_form_one_line`.

### C15 Integers round-trip through their text form — proved

* Model: Schema, Strconv.
* Proof: induction over digit lists; the values of `Spec/CoreSchema`.
* Theorems: `Scalars.integer_roundtrip`, `Scalars.unsigned_roundtrip`, `Scalars.integer_text_injective`.

### C16 Text classified as integer converts — partial

* Model: Schema, Strconv.
* Proof: induction over digit lists; the values of `Spec/CoreSchema`.
* Result: false for superfluous leading zeros and for + signed unsigned texts; negations proved.
* Theorems: `Scalars.isInteger_iff`, `Scalars.integer_text_converts_partial`, `Scalars.unsigned_text_converts_partial`, `Scalars.integer_text_rejected`, `Scalars.leading_zero_is_octal`, `Scalars.leading_zero_wrong_value`, `Scalars.unsigned_plus_rejected`.

### C17 Scalar classes do not overlap — proved

* Model: Schema.
* Proof: classifiers are shown equal to the languages of the regular expressions in `Spec/CoreSchema`.
* Theorems: `Scalars.classes_disjoint`, `Scalars.decimal_integer_is_float`, `Scalars.octal_integer_not_float`, `Scalars.boolean_roundtrip`, `Scalars.integer_text_class`.

### C18 Tree builder builds exactly the inserted value — proved

* Model: Builder, GoyamlBuilder.
* Proof: simulation of the heap-mutating builders by the machine of `Spec/Protocol` (open collections as a zipper), invariants over all call sequences.
* Result: both engines.
* Theorems: `Builder.builder_faithful`, `Builder.tree_unique`, `Builder.returned_tree_immutable`, `GoyamlBuilder.builder_faithful`, `GoyamlBuilder.tree_unique`, `GoyamlBuilder.returned_tree_immutable`.

### C19 Builder misuse is reported and latched — proved

* Model: Builder, GoyamlBuilder.
* Proof: simulation of the heap-mutating builders by the machine of `Spec/Protocol` (open collections as a zipper), invariants over all call sequences.
* Result: both engines; an error is held exactly when the calls are not admissible (goyaml admits the end of a mapping between key and value, which is C20).
* Theorems: `Builder.misuse_detected`, `Builder.first_error_wins`, `Builder.result_resets`, `GoyamlBuilder.misuse_detected`, `GoyamlBuilder.first_error_wins`, `GoyamlBuilder.result_resets`.

### C20 A mapping cannot be closed between a key and its value — partial

* Model: Builder, GoyamlBuilder.
* Proof: simulation of the heap-mutating builders by the machine of `Spec/Protocol` (open collections as a zipper), invariants over all call sequences.
* Result: false for the goyaml engine and for unfinished documents; negations proved by witness.
* Theorems: `Builder.pending_key_reported`, `Builder.encoder_total_partial`, `Builder.unfinished_mapping_panics`, `Builder.empty_document_panics`, `GoyamlBuilder.pending_key_unreported`.

### C21 Encoding is a function of the tree — proved

* Model: Writer.
* Proof: structural induction over trees: the buffer after a visit is the lines of `Spec/Layout`.
* Result: writer without anchors keeper.
* Theorems: `Writer.written_text_function_of_tree`, `Writer.variants_agree`, `Writer.write_succeeds`, `Writer.indentation_restored`, `Writer.empty_sequence_unwritten`.

### C22 Encode then parse gives the tree back — partial

* Model: Writer, Lexer, Parser*.
* Proof: the writer writes the lines of Spec/Layout (C20); the tokens of these lines are derived by induction over the tree (Lemmas/LexRun, Lemmas/WrittenRun); the productions of the parser are executed exactly on such tokens, for every fuel, including every alternative which they try and give up (Lemmas/ParserExec, ParserRun*); Spec/PlainTree and Spec/WritableTree say which trees are meant; negations by witnesses.
* Result: proved for trees of non-empty sequences and mappings, nested to any depth, with texts of plain words (with commas and brackets in items and values), texts in single or double quotes without characters that need escapes, nulls (which come back as the text null) and aliases as items, keys and values, with texts of several lines (literal scalars) as items and values, with tags and anchors at scalars and at values of mappings, and for single scalars, for every earlier history of the pools; false for texts with escapes, empty collections, collections with properties in sequences, texts of several lines which start with white space or have a quote in the first word of a line, bare texts with quotes, `!`, `%` or indicators between spaces, bare keys with commas (negations proved).
* Theorems: `Roundtrip.roundtrip_partial`, `Roundtrip.roundtrip_same_partial`, `Roundtrip.roundtrip_plain_partial`, `Roundtrip.null_becomes_text`, `Roundtrip.marked_item_lost`, `Roundtrip.leading_break_changed`, `Roundtrip.leading_space_lost`, `Roundtrip.quote_loses_rest`, `Roundtrip.bare_apostrophe_lost`, `Roundtrip.bare_comma_key_lost`, `Parser.roundtrip_fails`, `Parser.quoted_text_changed`, `Parser.empty_sequence_lost`.

### C23 Decoder cursor walks the document in order — proved

* Model: Reader, GoyamlReader, Iterator.
* Proof: refinement of the readers to the cursor of `Spec/DecoderCursor` over all call histories.
* Result: both engines, well-formed documents without aliases (aliases are C26); every call history refines a cursor over the document.
* Theorems: `GoyamlReader.decoder_is_cursor`, `GoyamlReader.run_of_cursor`, `GoyamlReader.reads_in_order`, `GoyamlReader.scalars_in_order`, `GoyamlReader.opens_document`, `Reader.decoder_is_cursor`, `Reader.run_of_cursor`, `Reader.reads_in_order`, `Reader.scalars_in_order`.

### C24 Decoder errors are sticky and harmless — proved

* Model: Reader, GoyamlReader, Iterator.
* Proof: refinement of the readers to the cursor of `Spec/DecoderCursor` over all call histories.
* Result: both engines, from every state; collection states must not be nil to be asked (on documents without aliases none is, states_present).
* Theorems: `GoyamlReader.decoder_errors_sticky`, `GoyamlReader.errors_sticky`, `GoyamlReader.errors_stay`, `GoyamlReader.states_present`, `Reader.decoder_errors_sticky`, `Reader.errors_sticky`, `Reader.errors_stay`, `Reader.states_present`.

### C25 Decoding loops terminate after an error — partial

* Model: Reader, GoyamlReader.
* Proof: as C23; negations by witness states in which an invariant keeps the loop running.
* Result: both engines; false for yayamls after any fatal error and for goyaml in multi-error mode: HasUnprocessedItems stays true forever (negations proved).
* Theorems: `GoyamlReader.loops_end_partial`, `GoyamlReader.no_items_after_error`, `GoyamlReader.multi_loop_forever`, `Reader.loops_end_or_fail_partial`, `Reader.loop_forever`.

### C26 Aliases are read once, like the node they stand for — partial

* Model: Reader, GoyamlReader.
* Proof: as C23; negations by witness states in which an invariant keeps the loop running.
* Result: both engines; false: the alias is not consumed (negations proved).
* Theorems: `GoyamlReader.alias_reads_target_partial`, `GoyamlReader.alias_read_again`, `Reader.alias_reads_target_partial`, `Reader.alias_read_again`.

### C27 Generic decoding is total and structural — partial

* Model: AnyBuilder, GoyamlAnyBuilder.
* Proof: induction over the derivation of the value by the rules of `Spec/GenericValue`, `Spec/GoyamlValue`.
* Result: both engines; false for self-referring anchors (generic decoding never ends, negation proved); every document with a value by the rules decodes to it, every alias-free (goyaml: acyclic) document ends.
* Theorems: `AnyBuilder.any_value`, `AnyBuilder.plain_value`, `AnyBuilder.value_unique`, `AnyBuilder.any_terminates_partial`, `AnyBuilder.self_reference_diverges`, `GoyamlAnyBuilder.any_value`, `GoyamlAnyBuilder.plain_value`, `GoyamlAnyBuilder.value_unique`, `GoyamlAnyBuilder.any_terminates_partial`, `GoyamlAnyBuilder.self_reference_diverges`.

### C28 Explicit keys win over merged keys — partial

* Model: AnyBuilder, GoyamlAnyBuilder.
* Proof: induction over the derivation of the value by the rules of `Spec/GenericValue`, `Spec/GoyamlValue`.
* Result: both engines; false for mappings nested in merged mappings and for lists of mappings (negations proved); proved for all other mappings.
* Theorems: `AnyBuilder.merge_precedence`, `AnyBuilder.map_keys_distinct`, `AnyBuilder.merge_decoded_partial`, `AnyBuilder.nested_mapping_flattened`, `AnyBuilder.merge_list_drops_entry`, `GoyamlAnyBuilder.merge_decoded_partial`, `GoyamlAnyBuilder.nested_mapping_flattened`, `GoyamlAnyBuilder.merge_list_drops_entry`.

### C29 Reporting no error changes nothing — partial

* Model: Reader, GoyamlReader, Iterator.
* Proof: refinement of the readers to the cursor of `Spec/DecoderCursor` over all call histories.
* Result: holds for yayamls from every state; false for goyaml, negation proved.
* Theorems: `GoyamlReader.add_nil_empties`, `GoyamlReader.add_nil_loses_item`, `Reader.add_nil_nothing`.

### C30 Probing for null does not disturb decoding — partial

* Model: Reader, GoyamlReader, Iterator.
* Proof: refinement of the readers to the cursor of `Spec/DecoderCursor` over all call histories.
* Result: proved for goyaml; for yayamls proved for all calls but Raw, Node and Skip, for which it is false in mappings (negation proved).
* Theorems: `GoyamlReader.probe_harmless`, `GoyamlReader.probe_takes_null`, `Reader.probe_harmless_partial`, `Reader.probe_takes_null`, `Reader.probe_splits_entry`.

### C31 Skip skips exactly one value — partial

* Model: Reader, GoyamlReader, Iterator.
* Proof: refinement of the readers to the cursor of `Spec/DecoderCursor` over all call histories.
* Result: both engines; false at aliases (negations proved); proved for all documents without aliases.
* Theorems: `GoyamlReader.skip_reads_partial`, `GoyamlReader.skip_then_read_partial`, `GoyamlReader.skip_alias_stays`, `Reader.skip_reads_partial`, `Reader.skip_then_read_partial`, `Reader.skip_alias_stays`.

### C32 Tree comparison finishes under every schedule — partial

* Model: Comparator.
* Proof: transition system of the three goroutines; invariant (what was sent is a prefix of the traversal), measure for termination, confluence.
* Result: false for trees with a nil interface value among the children of a stream, sequence or mapping: every schedule panics (proved); proved for all others.
* Theorems: `Comparator.comparison_finishes_partial`, `Comparator.comparison_terminates`, `Comparator.answer_unique_partial`, `Comparator.nil_child_panics`.

### C33 Tree comparison decides equality of trees — partial

* Model: Comparator.
* Proof: transition system of the three goroutines; invariant (what was sent is a prefix of the traversal), measure for termination, confluence.
* Result: equal trees are found equal; the converse is false ([[a], b] and [[a, b]], negation proved) and proved for trees of the same shape.
* Theorems: `Comparator.same_trees_equal`, `Comparator.decides_equality_partial`, `Comparator.equal_equivalence`, `Comparator.ends_ignored`.

### C34 Extracting raw YAML leaves the document intact — partial

* Model: RawTransformer.
* Proof: invariant over transform steps of the heap: the list of changes undoes them.
* Result: proved for all graphs in which no alias stands for an alias (yaml.v3 parses no others) whenever the transformation ends, and it ends for every acyclic graph; for circular aliases it never ends and for hand-made alias chains it does not restore (negations proved).
* Theorems: `RawTransformer.raw_restores`, `RawTransformer.raw_ends`, `RawTransformer.raw_cycle_diverges`, `RawTransformer.chain_not_restored`.

### C35 Generated function names are unique and stable — proved

* Model: GenNames.
* Proof: invariants of the name tables over request histories.
* Result: for every letter table and every map iteration order.
* Theorems: `GenNames.names_unique_stable`, `GenNames.name_found`.

### C36 Import aliases are unique and stable — proved

* Model: GenNames.
* Proof: invariants of the name tables over request histories.
* Result: paths are compared after the vendoring directories are cut off, as the generator intends.
* Theorems: `GenNames.aliases_unique_stable`, `GenNames.alias_found`, `GenNames.header_imports`, `GenNames.vendoring_cut`.

### C37 Every reachable type is generated exactly once — partial

* Model: GenTypes.
* Proof: invariant of the worklist; `Spec/Discovered` for the types to be generated; measure over finite type graphs.
* Result: exactly once: proved for every run that ends; termination is false for types which are parts of themselves without a struct in between and for structs inlining themselves (negations proved) and proved for all other finite type graphs.
* Theorems: `GenTypes.each_type_once`, `GenTypes.run_ends_partial`, `GenTypes.recursive_slice_diverges`, `GenFields.inlined_in_itself_diverges`.

### C38 Outer struct fields shadow embedded ones — partial

* Model: GenFields.
* Proof: induction over the field list; `Spec/Selector` for the meaning of Go selectors.
* Result: Go names are distinct; false for names in the document and for inlined fields (negations proved).
* Theorems: `GenFields.names_distinct`, `GenFields.declared_wins_partial`, `GenFields.fields_found_partial`, `GenFields.inlined_field_loses`, `GenFields.yaml_names_collide`, `GenFields.inlined_in_itself_diverges`.

### C39 Generated code round-trips values — partial

* Model: GenCode, Builder, Encoder, Writer, Lexer, Parser*, Reader.
* Proof: induction over types: encoder calls give the tree of the value, decoder calls on its cursor give the value back (`Spec/GenValues`); with C22 also through the text: the tree read back from the text shows the same values (`Lemmas/GenText`), so that MarshalYAML and UnmarshalYAML are composed (`Props/EndToEnd`).
* Result: through trees: both engines, all values in the fragment Fits; through texts (MarshalYAML, then UnmarshalYAML, yayamls engine): collections in this fragment, at any depth, without empty collections and without strings that need escapes; outside of these fragments the property is false (eight witnesses); what is assumed of texts of floats is shown for the texts of FromFloat (C76, C77).
* Theorems: `FloatsEndToEnd.floats_faithful`, `FloatsEndToEnd.marshal_unmarshal_floats_partial`, `EndToEnd.marshal_unmarshal_partial`, `EndToEnd.line_break_changed`, `EndToEnd.empty_item_nil`, `EndToEnd.empty_document_refused`, `GenCode.roundtrip_yayamls_partial`, `GenCode.roundtrip_goyaml_partial`, `GenCode.nil_pointee_lost`, `GenCode.empty_slice_lost`, `GenCode.empty_map_lost`, `GenCode.negative_zero_lost`, `GenCode.fields_after_text_lost`.

### C40 A fixed-size array consumes exactly its sequence — partial

* Model: GenCode.
* Proof: symbolic execution of the generated decoder over the cursor, induction over types and fuel.
* Result: holds for sequences not longer than the array; false for longer ones (witness: a field silently gets a key as its value).
* Theorems: `GenCode.array_consumes_partial`, `GenCode.array_overflow`.

### C41 A failed generation never leaves the output half written — partial

* Model: Bootstrap.
* Proof: invariant over the steps of the pipeline with crashes between any two.
* Result: false: a crash leaves a half-written file, a failing write of the stub is ignored (negations proved); proved for every return without failing writes and every crash outside of the two writing phases.
* Theorems: `Bootstrap.success_complete`, `Bootstrap.returned_whole_partial`, `Bootstrap.between_writes_whole_partial`, `Bootstrap.half_written`, `Bootstrap.failure_loses_previous`, `Bootstrap.damaged_stub`.

### C42 Nested flow collections are accepted at every depth — partial

* Model: Parser*.
* Proof: kernel evaluation for the witness at depth 6, and the same outcome for every greater depth.
* Result: false: six nested flow sequences are refused (negation proved).
* Theorems: `Parser.deep_flow_refused`, `Parser.nested_flow_refused`.

### C43 A second document is reported — partial

* Model: Builder, GoyamlBuilder.
* Proof: simulation of the heap-mutating builders by the machine of `Spec/Protocol` (open collections as a zipper), invariants over all call sequences.
* Result: false: a second document silently replaces a finished collection; negation proved by witness; the exact set of accepted histories is misuse_detected.
* Theorems: `Builder.second_root_replaces`, `Builder.misuse_detected`.

### C44 Quoted scalars decode generically as strings — partial

* Model: AnyBuilder, GoyamlAnyBuilder.
* Proof: induction over the derivation of the value by the rules of `Spec/GenericValue`, `Spec/GoyamlValue`.
* Result: false: negation proved.
* Theorems: `AnyBuilder.quoted_number_not_string`, `GoyamlAnyBuilder.quoted_number_not_string`.

### C45 No sequence of decoder calls panics — partial

* Model: Reader, GoyamlReader, Iterator.
* Proof: refinement of the readers to the cursor of `Spec/DecoderCursor` over all call histories.
* Result: both engines, documents without aliases; false for yayamls in multi-error mode on null nodes and for goyaml on the node of an empty text (negations proved).
* Theorems: `GoyamlReader.no_panic_partial`, `GoyamlReader.empty_state_panics`, `GoyamlReader.empty_state_silent`, `Reader.no_panic_partial`, `Reader.null_state_panics`.

### C46 A failing decoder call returns the zero value — partial

* Model: Reader, GoyamlReader, Iterator.
* Proof: refinement of the readers to the cursor of `Spec/DecoderCursor` over all call histories.
* Result: both engines, documents without aliases; false for yayamls in multi-error mode on null nodes (negation proved).
* Theorems: `GoyamlReader.error_means_zero_partial`, `Reader.error_means_zero_partial`, `Reader.null_stale_value`.

### C47 Names of generated functions are Go identifiers — partial

* Model: GenNames.
* Proof: invariants of the name tables over request histories.
* Result: false for type names starting with a non-ASCII letter (negation proved); proved for ASCII.
* Theorems: `GenNames.names_are_identifiers_partial`, `GenNames.name_broken`.

### C48 Scalar classification is that of the YAML core schema — proved

* Model: Schema.
* Proof: classifiers are shown equal to the languages of the regular expressions in `Spec/CoreSchema`.
* Result: specification of the core schema's regular expressions in Spec/CoreSchema.lean.
* Theorems: `Scalars.classification_is_core_schema`.

### C49 Generated code refers to the fields it was generated for — partial

* Model: GenFields.
* Proof: induction over the field list; `Spec/Selector` for the meaning of Go selectors.
* Result: false for names occurring at several depths and for inline on named fields (negations proved); proved if no name occurs twice.
* Theorems: `GenFields.fields_promoted`, `GenFields.fields_denote_partial`, `GenFields.wrong_field_selected`, `GenFields.named_inline_not_selectable`.

### C50 Escape sequences mean what YAML says — partial

* Model: YamlChar.
* Proof: induction over the string; the escape table of `Spec/Escapes` for C50.
* Result: false for escapes by number and the escaped tab (witnesses).
* Theorems: `Quoting.escapes_mean_partial`, `Quoting.unknown_escape_rejected`, `Quoting.escaped_tab_rejected`, `Quoting.escape_by_number_misread`, `Quoting.number_escape_fails`, `Quoting.number_escape_ignored`, `Quoting.number_escape_digits`, `Quoting.number_escape_neighbour`, `Quoting.surrogate_escape_replaced`.

### C51 Trees are written as two-space indented block documents — partial

* Model: Writer.
* Proof: structural induction over trees: the buffer after a visit is the lines of `Spec/Layout`.
* Result: false for collections as keys of nested mappings; properties at the root and on keys are glued to the text.
* Theorems: `Writer.written_layout_partial`, `Writer.written_scalar`, `Writer.complex_key_misplaced`.

### C52 A null is one value — partial

* Model: GenCode.
* Proof: symbolic execution of the generated decoder over the cursor, induction over types and fuel.
* Result: holds for all types but structs; false for structs (witnesses).
* Theorems: `GenCode.null_reads_zero_partial`, `GenCode.struct_null_swallows`, `GenCode.struct_null_refused`.

### C53 Generated decoders end without a panic — partial

* Model: GenCode.
* Proof: symbolic execution of the generated decoder over the cursor, induction over types and fuel.
* Result: goyaml engine without multiple errors; false for the yayamls engine (witness).
* Theorems: `GenCode.decoder_ends_partial`, `GenCode.decoder_runs_forever`.

### C54 Raw text stands on its own — partial

* Model: RawTransformer.
* Proof: reading rules of `Spec/RawText`; induction over the traversal.
* Result: the value is kept for every graph; aliases are resolved in the text if no anchor is defined twice; false for redefined anchors (witness: another value).
* Theorems: `RawText.raw_keeps_value`, `RawText.raw_self_contained_partial`, `RawText.redefined_alias_wrong`.

### C55 Struct tags are understood as written — proved

* Model: GenFields.
* Proof: induction over the tag (`Spec/FieldTags`: a tag is a name and options with commas between them); induction over the recursion of getStructFields for soundness, over `Listed` for completeness.
* Result: the value of the key yaml in the tag; reflect.StructTag.Get itself is not modelled.
* Theorems: `FieldTags.tags_understood`, `FieldTags.tags_unique`.

### C56 Exported fields all have a place in the document — partial

* Model: GenFields.
* Proof: induction over the tag (`Spec/FieldTags`: a tag is a name and options with commas between them); induction over the recursion of getStructFields for soundness, over `Listed` for completeness.
* Result: nothing else is listed (proved); no name is missing if the inlined fields are structs, pointers to structs or of basic kinds; false for inlined slices, maps and interfaces (witness: an embedded slice is lost).
* Theorems: `FieldTags.only_listed`, `FieldTags.all_listed_partial`, `FieldTags.spread_slice_lost`.

### C57 Printed trees show every node — partial

* Model: Printer.
* Proof: the text written by a visit is the drawing of `Spec/Drawing`: mutual induction over the tree with the set of ended levels as invariant; reading depths and labels back from the lines gives injectivity.
* Result: false: nil among documents or entries panics (exactly then), a line break and the escape for it look the same, the text of a root is printed over several lines (theorems); proved for all other trees.
* Theorems: `Printer.print_draws_partial`, `Printer.print_determines_partial`, `Printer.breaks_not_told_apart`, `Printer.nil_entry_panics`.

### C58 Default output files of different types differ — partial

* Model: Cmd.
* Proof: induction over the words with the window (previous, current, next rune) of the loop; unicode predicates are parameters with laws.
* Result: proved for names made of words (an upper case letter, then lower case letters); false in general: FooBar and Foo_Bar share a file, the file of _T is ignored (witnesses).
* Theorems: `Cmd.snake_case_partial`, `Cmd.abbreviation_partial`, `Cmd.files_differ_partial`, `Cmd.default_accepted`, `Cmd.names_collide`, `Cmd.ignored_file`.

### C59 Package name and import path are those of the directory — partial

* Model: PkgPath.
* Proof: paths as lists of elements; induction over elements and lines; `path/filepath` follows its documentation.
* Result: in modules: proved, with the module path found in every go.mod file which declares it without quotes; without modules false for every directory (proved: the last element is lost); the name is proved for directories with one package and depends on the order of a map otherwise (witness).
* Theorems: `PkgPath.path_in_module`, `PkgPath.module_found_partial`, `PkgPath.gopath_loses_last`, `PkgPath.outside_refused_partial`, `PkgPath.above_src_accepted`, `PkgPath.name_found_partial`, `PkgPath.name_by_chance`, `PkgPath.clean_same_place`.

### C60 Generated decoders give documents their meaning — partial

* Model: GenCode, Reader, GoyamlReader.
* Proof: documents and their meaning are relations (`Spec/Meaning`), trees are related to documents without the decoders (`Spec/Represents`); mutual induction over the meaning, against the cursor which both engines refine; assignments to a map are a fold whose result is characterised by first occurrences and last values.
* Result: the meaning of documents is a relation independent of the decoders (Spec/Meaning, Spec/Represents); proved for all documents which have a meaning there, for both engines, and from every text in block style (the grammar of C61, with indentation, comments, properties and quotes); left out are nulls for structs and scalars, longer sequences than arrays, integers with superfluous leading zeros (what happens then is stated by other theorems), and aliases; unknown keys with nulls are accepted even if unknown fields are refused (witness).
* Theorems: `Meaning.decoder_meaning_yayamls_partial`, `Meaning.decoder_meaning_goyaml_partial`, `Meaning.text_meaning_partial`, `Meaning.null_document_partial`, `Meaning.key_order_irrelevant`, `Meaning.missing_fields_kept`, `Meaning.field_given`, `Meaning.meaning_unique`, `Meaning.unknown_null_accepted`.

### C61 Block texts are read as the trees they stand for — partial

* Model: Lexer, Parser*.
* Proof: two steps: every text of the grammar (`Spec/BlockText`) gives tokens of a grammar over token positions (`Lemmas/TextRun`, `TextBlock`, `LexDirs`, `TextDocs`: mutual induction over the text, with the state of the lexer as invariant); on such tokens every production of the parser has the result which the grammar says (`Lemmas/ParserRun*`: mutual induction over the token grammar, for every history of the pools). Unambiguity follows because the parser is a function.
* Result: proved for the grammar of Spec/BlockText (block collections to any depth, entries with and without a `?`, collections in brackets on one or more lines with at most four sequences within each other, with absent values and commas at the end, plain scalars on one or more lines, with commas and brackets within words of items and values, quoted scalars on one or more lines, literal scalars and folded ones with any chomping, with or without the indentation behind the bar (which then is that of the first line), aliases, anchors, tags, comments, blank lines, documents, directives; line breaks of any kind outside of literal scalars); lines of folded scalars which do not start with a plain word, scalars over several lines within brackets, and comments behind unknown directives are left out; false for directives with a local tag prefix or a space in front (the text is lost without an error), for keys with properties (content is lost without an error), for a dash at the very end, for tags with dashes, for some literal and folded scalars (more indented lines, among others), for closing brackets in the column of the key, comments within brackets, plain texts with quotes, `!`, `%` or indicators between spaces, keys with commas, spaces at the ends of lines within quotes, and carriage returns in literal scalars and blank lines of other ones (witnesses).
* Theorems: `Blocks.block_text_read_partial`, `Blocks.block_text_unambiguous`, `Blocks.gap_ignored_partial`, `Blocks.key_properties_lost`, `Blocks.last_dash_lost`, `Blocks.dash_in_tag_refused`, `Blocks.tag_handles_merged`, `Blocks.literal_quote_loses`, `Blocks.literal_bracket_refused`, `Blocks.literal_blank_swallows`, `Blocks.literal_empty_swallows`, `Blocks.literal_root_swallows`, `Blocks.literal_dedent_loses`, `Blocks.closing_bracket_loses`, `Blocks.comment_in_brackets_kept`, `Blocks.empty_item_loses`, `Blocks.apostrophe_loses`, `Blocks.percent_loses`, `Blocks.spaced_dash_loses`, `Blocks.spaced_bracket_loses`, `Blocks.comma_in_key_loses`, `Blocks.carriage_return_kept`, `Blocks.blank_carriage_return_kept`, `Blocks.quoted_space_kept`, `Blocks.folded_doubled`, `Blocks.folded_dedent_loses`, `Blocks.folded_blank_swallows`, `Blocks.folded_bracket_refused`, `Blocks.local_prefix_loses`, `Blocks.spaced_directive_loses`, `Blocks.single_pair_bare`, `Blocks.quoted_key_properties_lose`.

### C62 JSON texts are read with JSON's meaning — partial

* Model: Lexer, Parser*.
* Proof: JSON texts and their values are a grammar of their own (`Spec/Json`); every text is a collection in brackets of `Spec/BlockText` (`Lemmas/JsonText`: induction over the text), so that C61 applies; in brackets the tokens are followed with the stack of contexts of the lexer as invariant (`Lemmas/LexFlow`).
* Result: false for compact JSON (an object as a value right after the colon loses the document without an error, an array is refused) for six nested arrays, and for strings with escapes: each string with a backslash is kept as it is written and not decoded (string_decoded_iff, for all strings), and the escape of the backspace loses the document (witnesses); proved for JSON without escapes and tabs, and with the strings as written for JSON with escapes, with space after the colons before arrays and objects and at most four arrays within each other.
* Theorems: `Json.json_text_read_partial`, `Json.json_unmarshalled_partial`, `Json.json_text_unambiguous_partial`, `Json.compact_object_lost`, `Json.compact_array_refused`, `Json.deep_array_refused`, `Json.escapes_kept`, `Json.json_text_as_written_partial`, `Json.string_decoded_iff`, `Json.backspace_loses`.

### C63 Character classes are those of the YAML specification — partial

* Model: YamlChar.
* Proof: the productions are sets of characters and inductive sets of strings (`Spec/CharClasses`); induction over the length of the string, since escapes take several characters at a time.
* Result: exact for decimal numbers, words and texts in single quotes; false for links (parentheses are refused, braces accepted), for tags (dashes are refused), for texts in double quotes (the escape of the backspace is refused) and for anchors (spaces are accepted), each with a witness; exact for all other strings of these classes.
* Theorems: `CharClasses.decimal_exact`, `CharClasses.word_exact`, `CharClasses.single_exact`, `CharClasses.double_exact`, `CharClasses.uri_exact_partial`, `CharClasses.tag_exact_partial`, `CharClasses.anchor_exact_partial`, `CharClasses.unknown_empty`, `CharClasses.blank_exact`, `CharClasses.blank_ahead`, `CharClasses.parenthesis_refused`, `CharClasses.brace_accepted`, `CharClasses.dash_refused`, `CharClasses.space_accepted`, `CharClasses.backspace_refused`.

### C64 With an anchors keeper the writer writes what aliases stand for — partial

* Model: WriterKeeper, Writer.
* Proof: what a tree stands for is a relation over places of the document (`Spec/Expansion`), for any implementation of the interface; induction over it relates the visit with a keeper to the visit of the expanded tree without one; the fuel bounds aliases behind aliases only.
* Result: proved for every keeper, state and tree except keys which are aliases to collections, which are written without the question mark so that the text is another document (witness); a keeper with a tree containing its own alias makes the writer run forever (proved).
* Theorems: `WriterKeeper.written_expanded_partial`, `WriterKeeper.no_dangling_alias`, `WriterKeeper.expansion_unique`, `WriterKeeper.keeper_irrelevant`, `WriterKeeper.unknown_alias_fails`, `WriterKeeper.alias_key_lost`, `WriterKeeper.alias_loop_diverges`.

### C65 Sources in UTF-8 are read as they are — proved

* Model: RuneStream, Lexer.
* Proof: the specification is the encoding of characters in the library of Lean (`Spec/Utf8`); decoding is its inverse by cases over the ranges of the first byte and linear arithmetic; induction over the decoding for the calls of `Next`.
* Result: utf8.DecodeRune of Go's library is modelled by its documentation; the specification uses the encoding of Lean's library.
* Theorems: `Utf8.source_decoded`, `Utf8.valid_text_kept`, `Utf8.decoding_unique`, `Utf8.lossless_iff`, `Utf8.broken_byte_changed`, `Utf8.token_bytes_lossless`.

### C66 The bootstrap program hands every setting on — proved

* Model: BootMain, Bootstrap.
* Proof: an independent reader of the needed part of Go (`Spec/GoProgram`: lines, string literals with escapes, calls of setters, imports, tokens) is run on the text; string literals by cases over the escapes of `%q`.
* Result: strconv.IsPrint is any predicate which is false for the newline; types, package names and engines are on one line (identifiers).
* Theorems: `BootMain.program_settings`, `BootMain.stub_code`, `BootMain.stub_tags`, `BootMain.stub_no_tags`.

### C67 The parser invents nothing — proved

* Model: Lexer, Parser, ParserFlow, ParserBlock, ParserDocs.
* Proof: the specification (`Spec/Says`, `Spec/Gist`) is a relation between trees and words, independent of the parser; every production has a specification about the text between the token where it starts and the token where it ends (`Lemmas/TextRules` to `TextStreams`), by induction over the fuel through all rollbacks; the tokens carry the whole source (C03).
* Result: says nothing about characters of the source which the tree drops, nor about blanks inside scalars (see C39, C60).
* Theorems: `Invents.spelled_by_source`, `Invents.texts_from_source`, `Invents.marks_from_source`, `Invents.no_new_character`.

### C68 Integer conversion accepts exactly the integer literals of Go — proved

* Model: Schema, Strconv.
* Proof: the grammar of Go's integer literals (`Spec/GoInteger`) against the two loops over the digits: each loop preserves the invariant "the rest continues a literal", both directions by induction.
* Result: exact set of the accepted texts with their values.
* Theorems: `Scalars.toInteger_iff`, `Scalars.toUnsignedInteger_iff`, `Scalars.conversion_accepts_more`, `Scalars.stray_underscores`.

### C69 The brackets of generated code are closed — partial

* Model: GenText.
* Proof: a scan with the stack of open brackets recognises exactly the grammar of closed texts (`Spec/GoText`, both directions by induction); every function of the generator leaves the stack as it is: induction over the fuel, with the literals followed by a small tactic whose answers the kernel checks.
* Result: proved for all encoders and for whole files of the engine yayamls; for goyaml false with types which implement yaml.Unmarshaler and with interface{} (witnesses), proved for all other types; names for documents must be able to stand in a literal (C71; witness); the texts of type names, function names and imports are parameters which must be closed.
* Theorems: `GenText.encoder_closed`, `GenText.yayamls_file_closed`, `GenText.file_closed_partial`, `GenText.goyaml_any_not_closed`, `GenText.goyaml_unmarshaler_not_closed`, `GenText.quote_not_closed`.

### C70 Generated code calls methods on the variable at hand — partial

* Model: GenText.
* Proof: the grammar of primary and unary expressions (`Spec/GoText`) is unambiguous (induction over the length, by the last character and the bracket which it closes); the text of a place is read by induction over the place.
* Result: proved for variables and for decoders; false for encoders behind a pointer, where the star takes the call (proved for all variables and methods, and that such text is written for a field of type *time.Time); type assertions and slices of bytes are left out.
* Theorems: `GenText.place_read`, `GenText.decoder_calls_on_variable`, `GenText.encoder_calls_on_variable_partial`, `GenText.encoder_calls_on_pointer`, `GenText.pointer_to_text_written`.

### C71 Literals of generated code denote the names of the fields — partial

* Model: GenText.
* Proof: induction over the name; lengths for names with a backslash.
* Result: true for names without quotes, backslashes and line breaks; false for every name with a backslash, and for quotes (witnesses).
* Theorems: `GenText.literal_denotes_partial`, `GenText.backslash_denotes_other`, `GenText.backslash_denotes_tab`, `GenText.quote_not_closed`, `GenText.decoder_case`, `GenText.encoder_name`.

### C72 Variables of generated code have names of their own — proved

* Model: GenText.
* Proof: the digits of a number are a prefix which the suffix cannot continue; the counter never decreases (induction over the fuel).
* Theorems: `GenText.names_differ`, `GenText.name_ident`, `GenText.name_not_fixed`, `GenText.fresh_name`, `GenText.decoder_names_kept`, `GenText.encoder_names_kept`.

### C73 Type texts of generated code denote the types — partial

* Model: GenTypeName, GenNames.
* Proof: the grammar of types with the scopes of names (`Spec/GoType`) is unambiguous (mutual induction over the derivations; the kind of a type is told by the first characters); the text is derived by induction over the type, with the table of imports growing.
* Result: proved for all types which can be written in the file (the exact condition is Writable); false for tags with a carriage return, embedded fields of alias types, fields not exported of struct types from other packages, packages whose path ends in a keyword or in the name of a predeclared type (witnesses); instances of generic types and types of functions, channels and interfaces with methods are not in the grammar.
* Theorems: `GenTypeName.text_denotes_partial`, `GenTypeName.texts_differ`, `GenTypeName.text_found`, `GenTypeName.text_closed`, `GenTypeName.aliases_names`, `GenTypeName.tag_loses_return`, `GenTypeName.embedded_alias_lost`, `GenTypeName.foreign_field_lost`, `GenTypeName.keyword_alias`, `GenTypeName.alias_hides`.

### C74 Timestamps are read and written exactly — partial

* Model: Timestamp.
* Proof: each element of a layout is shown equivalent to a relation between the value and what is read of it; composing these along the seven layouts gives the exact grammar of the accepted texts, which is unambiguous; the grammar of YAML (`Spec/Timestamp`) is compared with it by splitting at separators.
* Result: exact set of the accepted texts with their times; false for timestamps with a small t, with blanks or without a zone (the layouts for them have the wrong reference year and match dates of the year 0 instead), and for times with fractions, with seconds in their offset or outside of the years 0 to 9999 (witnesses); time.Parse and Time.Format are modelled from the published source of Go.
* Theorems: `Timestamp.accepted_iff`, `Timestamp.isTimestamp_iff`, `Timestamp.accepted_no_other_class`, `Timestamp.stamp_value`, `Timestamp.full_accepted_iff`, `Timestamp.lower_and_spaced_refused`, `Timestamp.stamp_read_partial`, `Timestamp.date_read`, `Timestamp.text_of_time_partial`, `Timestamp.lower_refused`, `Timestamp.spaced_refused`, `Timestamp.long_year_taken`, `Timestamp.short_date_refused`, `Timestamp.fraction_lost`, `Timestamp.offset_seconds_lost`, `Timestamp.year_lost`, `GenericTime.time_iff`, `GenericTime.other_not_time`, `GenericTime.time_order`.

### C75 Binary scalars are recognised exactly — partial

* Model: Binary.
* Proof: induction in steps of four characters over the text; the words of a text are a relation which the function is shown to compute; splitting and joining of decodings at whole groups.
* Result: exact set of the accepted texts; exact for texts without white space; with white space every word is checked by itself, so lines which are not multiples of four characters are refused and padding inside is accepted (witnesses); proved for lines of whole groups with padding in the last only.
* Theorems: `Binary.regex_iff`, `Binary.fields_of_words`, `Binary.words_exist`, `Binary.accepted_iff`, `Binary.one_word_iff`, `Binary.wrapped_accepted_partial`, `Binary.accepted_binary_partial`, `Binary.encode_decodes`, `Binary.encode_accepted`, `Binary.decodes_unique`, `Binary.odd_lines_refused`, `Binary.lines_of_70_refused`, `Binary.inner_padding_accepted`, `Binary.foreign_space_accepted`.

### C76 Floats survive their texts — partial

* Model: Float.
* Proof: the digit loop is followed by induction with the difference of its two counters as the invariant; the text is taken apart by the grammar of the core schema with values (`Spec/FloatValue`); `Contract` is the only assumption about rounding and is met by an example.
* Result: 64 bits (32 bits: C77); assumes of strconv that the shortest digits round back to the float (`Contract`) and nothing else about rounding; the text denotes the shortest digits and is read as what it denotes, proved for all digits; texts with exponents of 100000 and more, which are written for no float, are read with a cut exponent (witness).
* Theorems: `Float.text_denotes`, `Float.text_is_float`, `Float.text_converts`, `Float.round_trip`, `Float.text_injective`, `Float.read_only_numbers`, `Float.converted_is_float`, `Float.generic_float`, `Float.number_read_partial`, `Float.float_text_converts_partial`, `Float.long_exponent_cut`.

### C77 Floats of single precision survive as doubles — proved

* Model: Float.
* Proof: a single which is a double nearest to a number is the only single nearest to it: a second one would put the number in the middle, where a double beside the single is nearer (`Lemmas/Ieee`, over the rationals).
* Result: assumes of strconv that the shortest digits of a double lie nearest to it and that reading rounds to the only nearest single (`Nearly`); that nearest double implies only nearest single is proved for the points of IEEE 754 with gradual underflow and overflow.
* Theorems: `Float32.single_round_trip`, `Float32.special_round_trip`, `Verif.Ieee.nearest_double_single`.

### C78 Errors are kept and recognised — proved

* Model: Errors, Reader, GoyamlReader.
* Proof: a relation between the errors held before and after (`Lemmas/ErrorsLater`: a fatal error stays, denied values are only added at the end), shown for every function of both readers by induction over the fuel and over histories of calls; errors are trees, `errors.Is` is a recursion over them.
* Result: all trees and graphs, with aliases; assumes that errors of strconv, time, fmt and yaml.v3 are neither denied values nor the end of the stream (`Foreign`); errors.Is and errors.Join are modelled after their sources; errors.As is not modelled.
* Theorems: `Errors.found_in_join`, `Errors.join_iff`, `Errors.unknown_field`, `Errors.denied_iff`, `Errors.error_nil_iff`, `Errors.recognised_yayamls`, `Errors.recognised_goyaml`, `Errors.kept_yayamls`, `Errors.kept_goyaml`, `Errors.nested`.

### C79 Loops in generated code handle one item per round — proved

* Model: GenText.
* Proof: the text is taken apart line by line with the lemma for sequential writes (`seq_ok`), and compared with the expected lines written out.
* Result: the complete text of each loop with the text for the item inside; byte slices and byte arrays, which have no loops of this kind, excepted; the text for the item is by `decBody`/`encBody` for the place named in the theorem (places read back by C69 place_read, names fresh by C69); what Go does with the text is modelled by GenCode (C36 and others), not derived from the text.
* Theorems: `GenLoops.decoder_slice`, `GenLoops.decoder_array`, `GenLoops.decoder_map`, `GenLoops.encoder_slice`, `GenLoops.encoder_array`, `GenLoops.encoder_map`.

### C80 Basic values are read and written by the methods of their kind — proved

* Model: GenText, GenCode.
* Proof: cases over the kinds, with the Go code of each call of the interfaces written out independently (`goCall`, `goInsert`).
* Result: texts of lines; the link to the running code is to `Model/GenCode` (same calls) for the basic kinds; the tables of the generator are modelled kind by kind, with width 0 for int and uint; byte arrays are not included (their code does not compile, see the findings).
* Theorems: `GenBasics.decoder_basic`, `GenBasics.encoder_basic`, `GenBasics.time_calls`, `GenBasics.bytes_calls`, `GenBasics.decoder_pointer`.

### C81 Functions for structs have one case and one block per field — proved

* Model: GenText.
* Proof: as C79, with an induction over the fields (`all_map`).
* Result: the complete texts of the functions, with the text of the decoder (encoder) of each field inside; the fields are those which GenTypes chooses; what the literals denote is C70.
* Theorems: `GenStructs.struct_decoder`, `GenStructs.struct_encoder`.

### C82 Methods used by generated code, and fields left out — proved

* Model: GenText, GenCode.
* Proof: as C79; conditions in Go have a text and a meaning, written out independently (`Cond`), and are compared with both models by cases over the kinds.
* Result: the complete texts; what `reflect` answers about methods is a parameter (`Types`); UnmarshalYamly has no error to pass on; the text of goyaml for `UnmarshalYAML` is as it is in the code, with a parenthesis missing (a finding of C69); omitted_when for the kinds of GenCode (interfaces are not in it).
* Theorems: `GenMethods.decoder_yamly`, `GenMethods.decoder_yayamls`, `GenMethods.decoder_goyaml`, `GenMethods.decoder_text`, `GenMethods.decoder_plain`, `GenMethods.encoder_yamly`, `GenMethods.encoder_engine`, `GenMethods.encoder_text`, `GenMethods.encoder_plain`, `GenMethods.omitted_when`.

### C83 Generated code calls only functions which are generated with it — proved

* Model: GenText, GenTypes.
* Proof: noninterference: the text is the same for two namings of functions which agree on the registered types, by induction over the fuel for bodies, then for functions and files with `each_type_once`.
* Result: runs which end without an error, with enough fuel for each type (premise `hf`; termination is C37, run_ends_partial); the two models describe the same types (`Same`, `SameFields`), which is assumed of what `reflect` answers; that the functions written are those of the list is `each_type_once`.
* Theorems: `GenCalls.dec_same`, `GenCalls.enc_same`, `GenCalls.functions_mention`, `GenCalls.file_mentions`.

## Findings

Behaviour of the code which contradicts a property or an evident intention.  Those with a theorem are machine-checked
consequences of the model; the others were found while reading and are recorded for completeness.

With a theorem:

* cpaccessor: the element reported by `Rollback` is stale after a nested rollback (C02).
* balancecheck: a memento shares the backing array of the stack (C08).
* parser: the marker of a failed parse is stored as tag or anchor of properties (C10); six nested flow sequences are
  refused because the dead-end finder counts six visits of one token (C42); quoted texts keep their escapes, empty collections
  come back as null, so that writing and parsing does not round-trip (C22);
  a written sequence with an anchor inside of a sequence (`- &a - x`) is read as nothing, without an error, and the anchor of a mapping
  (`- &a k: v`) goes to its first key (C22); a text which starts with a line break comes back with the indentation in it (C22).
* yamlchar: characters written as `\x..` are not read back (C13); the backspace is written raw (C14); escapes by number give
  other characters and an escaped tab is refused (C50).
* schema: `ParseInt` with base 0 reads `010` as octal and refuses `09`; `+1` is classified as unsigned and refused (C16).
* builders: `EndMapping` between key and value is accepted by goyaml (C20); a second document replaces the first (C43).
* decoders: loops over collections never end after an error (C25); an alias is not consumed (C26); self-referring anchors make
  `Any` run forever (C27); nested mappings of merged mappings are flattened (C28); goyaml's `AddError(nil)` drains the open
  collections (C29); `Skip`, `Raw` and `Node` after a failed `TryNull` read the wrong node in yayamls (C30); quoted scalars are
  resolved like plain ones (C44); multi-error mode of yayamls panics on nulls, or returns earlier values (C45, C46).
  For the node of an empty text, goyaml's `Sequence` and `Mapping` return a nil collection state, which panics when asked (C45).
* comparator: `[[a], b]` and `[[a, b]]` are found equal (C33); a nil document panics in a goroutine (C32).
* raw transformer: circular aliases never end (C34); redefined anchors make the text mean something else (C54).
* generator: unbounded recursion for self-containing types without a struct in between (C37); duplicate keys (C38); fields of the
  wrong selector (C49); names which are no identifiers (C47); no round-trip for values outside of the fragments `Fits` and `Full`, e.g. strings with line breaks and empty collections (C39); arrays shorter than
  the sequence desynchronise the decoder (C40); a struct meeting null reads on (C52); yayamls-generated loops do not end (C53);
  with unknown fields disallowed, an unknown key with a null is accepted; a null document leaves a variable which is no struct unchanged (C60).
* bootstrap: a crash leaves a half-written file, the error of writing the stub is ignored (C41).
* generator: the fields of an embedded slice or map without a tag are lost (C56); a module whose path is looked up outside of a module loses
  the last element of its directory, and a directory beside `src` is accepted (C59); the name of the package depends on the order of a map (C59).
* printer: a nil entry panics; `\\n` written out and a line break give the same text (C57).
* command: `FooBar` and `Foo_Bar` share an output file; that of `_T` is ignored by the Go tools (C58).
* parser: a mapping whose first key has properties is lost without an error (`k:⏎  &b x: y`), and so is a `-` at the very end of the text;
  tags with dashes are refused; `!!a` and `!a` give the same tree (C61).
* parser, literal scalars: a quote in the first word of a line (`a: |-⏎  it's⏎b: c`) makes everything after the scalar disappear
  without an error; `[` or `{` at the start of a line is an error; a scalar which starts with a blank line, is empty, or has its text
  in column 0 swallows the entries or documents after it; a dedented line ends the document without an error (C61).
* writer: texts of several lines which start with a space or a line break come back changed, and a quote in the first word of
  a line loses the items after it (C22).
* quoted texts: escapes in double quotes and doubled single quotes are never decoded, so that `"\n"` is read as the two characters `\n`
  (C62, `escapes_kept`): the unquoting functions of `yamlchar` are called nowhere outside of tests.
* parser, brackets: compact JSON such as `{"a":{"b":1}}` is lost without an error, `{"a":[1]}` is refused (C62); a closing bracket in
  the column of its key (`a: [⏎  b⏎]`) and an empty entry (`[a,,b]`) lose the document without an error; comments within brackets become
  text (C61).
* parser, folded scalars: the line break between two more indented lines is doubled (`>⏎  a⏎   b⏎   c⏎  d` is read as `a⏎ b⏎⏎ c⏎d`); a dedented line
  ends the document without an error, an opening bracket at the start of a line is refused, a blank first line swallows the rest (C61).
* parser, texts in quotes on several lines: spaces at the ends of lines are kept instead of being dropped (C61).
* parser, literal scalars and blank lines within plain scalars: carriage returns are kept in the text instead of being read as line feeds (C61).
* parser, plain texts: `a: don't`, `a: 50%`, `a: wow!`, `a: x - y`, `a: see [1]` and keys such as `a,b` lose the document without an
  error (C61); the writer writes such texts as they are when no quotes are asked for (C22).
* yamlchar: links with parentheses and tags with dashes are refused, links with braces accepted, the escape `\\b` is refused (C63).
* writer with an anchors keeper: a key which is an alias to a collection is written without the question mark, so that `{*a: v}` becomes
  `- x⏎: v` (C64).
* `%TAG !e! !foo` (a local tag prefix) and directives with a space in front lose the whole text without an error: the prefix is read
  in raw mode as one string, so `parseLocalTagPrefix` never sees its `!` (C61).
* generator, encoders: for pointers the star is put in front of the variable and the method behind it, so a field of type `*time.Time` gives
  `out.InsertRawText(*in.T.MarshalText())`, which is not Go (C70).
* goyaml engine: the code for types with `UnmarshalYAML` and for `interface{}` lacks parentheses and a brace (C69).
* A carriage return in the tag of a struct type without a name is lost (raw literals drop it), an embedded field of an alias type
  gets the name of the aliased type, a package whose path ends in a keyword (`x/go`) or in the name of a predeclared type
  (`x/string`) gets this as its alias (C73).
* generator: names of fields are put into literals as they are; a backslash or a quote in a tag changes the name or breaks the file (C71).
* The last three timestamp layouts begin with `2001` instead of `2006`, the year of Go's reference time, so they stand for a day, a zero
  and a month: `2001-12-14t21:59:43.10-05:00`, `2001-12-14 21:59:43.10 -5` and `2001-1-2` are refused, `20012-03-04` is taken for the
  4th of March of the year 0; `FromTimestamp` drops fractions of a second and the seconds of offsets (C74).
* `IsBinary` matches every word of the text by itself: base64 in lines whose lengths are not multiples of four is refused (`QU`, line
  break, `JD`), padding inside (`QQ== QUJD`) and no-break spaces are accepted (C75).

Without a theorem:

* parseFolded lacks a `return` after a failed cast; parseFlowJSONNode keeps the
  properties after a rollback if the separation fails; `{a,,b}` is accepted; errors raised inside a lookahead are permanent;
  parseDoubleEscaped leaks a checkpoint (`"a \⏎b"`), after which an outer rollback goes back only to the leaked position; a
  flow pair is not wrapped in a mapping (`[a: b]` contains a mapping entry); accessors put into the pool are never taken out
  again (pointer to pointer); the pool of parsers is never read.
* with the build tag `nounsafe` the package strslice declares `StringToBytes` and `BytesToString` instead of `StringToBytesSlice` and
  `BytesSliceToString`, which lexer and parser call, so that the module does not compile.
* engine.go of goyaml writes `in.AddError((x).UnmarshalYAML(extIn.Node())` with a missing parenthesis,
  `GenerateUnmarshalEmptyInterfaceAssertions` lacks a brace, the encoder for `interface{}` writes
  `if m, ok := x.(yamly.MarshalerYamly) {` without `; ok`, `in.AddError(m.UnmarshalYamly(in))` uses the result of a method
  without result; byte arrays give `copy(arr, …)` of an array; a conditional check followed by a TextUnmarshaler lacks a closing
  brace; tag names are put unescaped into `case "name":`; the custom functions for `time.Time` are never reached.
* The writer puts the colon of a complex key into
  column 0, and glues properties of the root and of keys to the text.

## Axioms per theorem

Printed by `#print axioms` for every theorem of `MANIFEST.json` (names without `Verif.Props.`).

* no axioms (4): `Balance.memento_forgets`, `Builder.result_resets`, `GoyamlBuilder.result_resets`, `GoyamlReader.opens_document`.
* `Classical.choice`, `Quot.sound`, `propext` (423): `Accessor.next_returns_element_at_cursor`, `Accessor.pulled_eq_seen`, `Accessor.reset_reads_afresh`, `Accessor.rollback_returns_element_before_checkpoint_partial`, `AnyBuilder.any_terminates_partial`, `AnyBuilder.any_value`, `AnyBuilder.map_keys_distinct`, `AnyBuilder.merge_decoded_partial`, `AnyBuilder.merge_list_drops_entry`, `AnyBuilder.merge_precedence`, `AnyBuilder.nested_mapping_flattened`, `AnyBuilder.plain_value`, `AnyBuilder.quoted_number_not_string`, `AnyBuilder.self_reference_diverges`, `AnyBuilder.value_unique`, `Balance.isBalanced_iff_nested`, `Balance.memento_restores_partial`, `Balance.peekLastUnbalanced_none_iff`, `Binary.accepted_binary_partial`, `Binary.accepted_iff`, `Binary.decodes_unique`, `Binary.encode_accepted`, `Binary.encode_decodes`, `Binary.foreign_space_accepted`, `Binary.inner_padding_accepted`, `Binary.lines_of_70_refused`, `Binary.odd_lines_refused`, `Binary.one_word_iff`, `Binary.regex_iff`, `Binary.wrapped_accepted_partial`, `Blocks.apostrophe_loses`, `Blocks.blank_carriage_return_kept`, `Blocks.block_text_read_partial`, `Blocks.block_text_unambiguous`, `Blocks.carriage_return_kept`, `Blocks.closing_bracket_loses`, `Blocks.comma_in_key_loses`, `Blocks.comment_in_brackets_kept`, `Blocks.dash_in_tag_refused`, `Blocks.empty_item_loses`, `Blocks.folded_blank_swallows`, `Blocks.folded_bracket_refused`, `Blocks.folded_dedent_loses`, `Blocks.folded_doubled`, `Blocks.gap_ignored_partial`, `Blocks.key_properties_lost`, `Blocks.last_dash_lost`, `Blocks.literal_blank_swallows`, `Blocks.literal_bracket_refused`, `Blocks.literal_dedent_loses`, `Blocks.literal_empty_swallows`, `Blocks.literal_quote_loses`, `Blocks.literal_root_swallows`, `Blocks.local_prefix_loses`, `Blocks.percent_loses`, `Blocks.quoted_key_properties_lose`, `Blocks.quoted_space_kept`, `Blocks.single_pair_bare`, `Blocks.spaced_bracket_loses`, `Blocks.spaced_dash_loses`, `Blocks.spaced_directive_loses`, `Blocks.tag_handles_merged`, `BootMain.program_settings`, `BootMain.stub_code`, `BootMain.stub_no_tags`, `BootMain.stub_tags`, `Bootstrap.between_writes_whole_partial`, `Bootstrap.damaged_stub`, `Bootstrap.failure_loses_previous`, `Bootstrap.half_written`, `Bootstrap.returned_whole_partial`, `Bootstrap.success_complete`, `Builder.builder_faithful`, `Builder.empty_document_panics`, `Builder.encoder_total_partial`, `Builder.first_error_wins`, `Builder.misuse_detected`, `Builder.pending_key_reported`, `Builder.returned_tree_immutable`, `Builder.second_root_replaces`, `Builder.unfinished_mapping_panics`, `CharClasses.anchor_exact_partial`, `CharClasses.backspace_refused`, `CharClasses.brace_accepted`, `CharClasses.dash_refused`, `CharClasses.decimal_exact`, `CharClasses.double_exact`, `CharClasses.parenthesis_refused`, `CharClasses.single_exact`, `CharClasses.space_accepted`, `CharClasses.tag_exact_partial`, `CharClasses.unknown_empty`, `CharClasses.uri_exact_partial`, `CharClasses.word_exact`, `Cmd.default_accepted`, `Cmd.files_differ_partial`, `Cmd.ignored_file`, `Cmd.names_collide`, `Comparator.answer_unique_partial`, `Comparator.comparison_finishes_partial`, `Comparator.comparison_terminates`, `Comparator.decides_equality_partial`, `Comparator.ends_ignored`, `Comparator.equal_equivalence`, `Comparator.nil_child_panics`, `EndToEnd.empty_document_refused`, `EndToEnd.empty_item_nil`, `EndToEnd.line_break_changed`, `EndToEnd.marshal_unmarshal_partial`, `Errors.kept_goyaml`, `Errors.kept_yayamls`, `Errors.recognised_goyaml`, `Errors.recognised_yayamls`, `FieldTags.all_listed_partial`, `FieldTags.only_listed`, `FieldTags.spread_slice_lost`, `FieldTags.tags_understood`, `Float.converted_is_float`, `Float.float_text_converts_partial`, `Float.generic_float`, `Float.long_exponent_cut`, `Float.number_read_partial`, `Float.read_only_numbers`, `Float.round_trip`, `Float.text_converts`, `Float.text_denotes`, `Float.text_injective`, `Float.text_is_float`, `Float32.single_round_trip`, `Float32.special_round_trip`, `FloatsEndToEnd.floats_faithful`, `FloatsEndToEnd.marshal_unmarshal_floats_partial`, `GenBasics.bytes_calls`, `GenBasics.decoder_basic`, `GenBasics.decoder_pointer`, `GenBasics.encoder_basic`, `GenBasics.time_calls`, `GenCalls.dec_same`, `GenCalls.enc_same`, `GenCalls.file_mentions`, `GenCalls.functions_mention`, `GenCode.array_consumes_partial`, `GenCode.array_overflow`, `GenCode.decoder_ends_partial`, `GenCode.decoder_runs_forever`, `GenCode.empty_map_lost`, `GenCode.empty_slice_lost`, `GenCode.fields_after_text_lost`, `GenCode.negative_zero_lost`, `GenCode.nil_pointee_lost`, `GenCode.null_reads_zero_partial`, `GenCode.roundtrip_goyaml_partial`, `GenCode.roundtrip_yayamls_partial`, `GenCode.struct_null_refused`, `GenCode.struct_null_swallows`, `GenFields.declared_wins_partial`, `GenFields.fields_denote_partial`, `GenFields.fields_found_partial`, `GenFields.fields_promoted`, `GenFields.inlined_field_loses`, `GenFields.inlined_in_itself_diverges`, `GenFields.named_inline_not_selectable`, `GenFields.names_distinct`, `GenFields.wrong_field_selected`, `GenFields.yaml_names_collide`, `GenLoops.decoder_array`, `GenLoops.decoder_map`, `GenLoops.decoder_slice`, `GenLoops.encoder_array`, `GenLoops.encoder_map`, `GenLoops.encoder_slice`, `GenMethods.decoder_goyaml`, `GenMethods.decoder_plain`, `GenMethods.decoder_text`, `GenMethods.decoder_yamly`, `GenMethods.decoder_yayamls`, `GenMethods.encoder_engine`, `GenMethods.encoder_plain`, `GenMethods.encoder_text`, `GenMethods.encoder_yamly`, `GenMethods.omitted_when`, `GenNames.alias_found`, `GenNames.aliases_unique_stable`, `GenNames.header_imports`, `GenNames.name_broken`, `GenNames.name_found`, `GenNames.names_are_identifiers_partial`, `GenNames.names_unique_stable`, `GenNames.vendoring_cut`, `GenStructs.struct_decoder`, `GenStructs.struct_encoder`, `GenText.backslash_denotes_other`, `GenText.backslash_denotes_tab`, `GenText.decoder_calls_on_variable`, `GenText.decoder_case`, `GenText.decoder_names_kept`, `GenText.encoder_calls_on_pointer`, `GenText.encoder_calls_on_variable_partial`, `GenText.encoder_closed`, `GenText.encoder_name`, `GenText.encoder_names_kept`, `GenText.file_closed_partial`, `GenText.fresh_name`, `GenText.goyaml_any_not_closed`, `GenText.goyaml_unmarshaler_not_closed`, `GenText.name_ident`, `GenText.name_not_fixed`, `GenText.names_differ`, `GenText.place_read`, `GenText.pointer_to_text_written`, `GenText.quote_not_closed`, `GenText.yayamls_file_closed`, `GenTypeName.alias_hides`, `GenTypeName.aliases_names`, `GenTypeName.embedded_alias_lost`, `GenTypeName.foreign_field_lost`, `GenTypeName.keyword_alias`, `GenTypeName.tag_loses_return`, `GenTypeName.text_closed`, `GenTypeName.text_denotes_partial`, `GenTypeName.text_found`, `GenTypeName.texts_differ`, `GenTypes.each_type_once`, `GenTypes.recursive_slice_diverges`, `GenTypes.run_ends_partial`, `GenericTime.other_not_time`, `GenericTime.time_iff`, `GenericTime.time_order`, `GoyamlAnyBuilder.any_terminates_partial`, `GoyamlAnyBuilder.any_value`, `GoyamlAnyBuilder.merge_decoded_partial`, `GoyamlAnyBuilder.merge_list_drops_entry`, `GoyamlAnyBuilder.nested_mapping_flattened`, `GoyamlAnyBuilder.plain_value`, `GoyamlAnyBuilder.quoted_number_not_string`, `GoyamlAnyBuilder.self_reference_diverges`, `GoyamlAnyBuilder.value_unique`, `GoyamlBuilder.builder_faithful`, `GoyamlBuilder.first_error_wins`, `GoyamlBuilder.misuse_detected`, `GoyamlBuilder.pending_key_unreported`, `GoyamlBuilder.returned_tree_immutable`, `GoyamlReader.add_nil_empties`, `GoyamlReader.add_nil_loses_item`, `GoyamlReader.alias_read_again`, `GoyamlReader.alias_reads_target_partial`, `GoyamlReader.decoder_errors_sticky`, `GoyamlReader.decoder_is_cursor`, `GoyamlReader.empty_state_panics`, `GoyamlReader.empty_state_silent`, `GoyamlReader.error_means_zero_partial`, `GoyamlReader.errors_stay`, `GoyamlReader.errors_sticky`, `GoyamlReader.loops_end_partial`, `GoyamlReader.multi_loop_forever`, `GoyamlReader.no_items_after_error`, `GoyamlReader.no_panic_partial`, `GoyamlReader.probe_harmless`, `GoyamlReader.probe_takes_null`, `GoyamlReader.reads_in_order`, `GoyamlReader.run_of_cursor`, `GoyamlReader.scalars_in_order`, `GoyamlReader.skip_alias_stays`, `GoyamlReader.skip_reads_partial`, `GoyamlReader.skip_then_read_partial`, `GoyamlReader.states_present`, `Invents.marks_from_source`, `Invents.no_new_character`, `Invents.spelled_by_source`, `Invents.texts_from_source`, `Json.backspace_loses`, `Json.compact_array_refused`, `Json.compact_object_lost`, `Json.deep_array_refused`, `Json.escapes_kept`, `Json.json_text_as_written_partial`, `Json.json_text_read_partial`, `Json.json_text_unambiguous_partial`, `Json.json_unmarshalled_partial`, `Json.string_decoded_iff`, `Lexer.rune_accessor_refines`, `Lexer.token_positions_exact`, `Lexer.token_positions_increase`, `Lexer.tokenisation_lossless`, `Lexer.tokenisation_terminates`, `Meaning.decoder_meaning_goyaml_partial`, `Meaning.decoder_meaning_yayamls_partial`, `Meaning.field_given`, `Meaning.key_order_irrelevant`, `Meaning.meaning_unique`, `Meaning.missing_fields_kept`, `Meaning.null_document_partial`, `Meaning.text_meaning_partial`, `Meaning.unknown_null_accepted`, `Memo.get_after_set`, `Memo.get_after_set_other`, `Memo.memoised_eq_direct`, `Memo.second_query_is_cached`, `Parser.deep_flow_refused`, `Parser.empty_sequence_lost`, `Parser.marker_in_properties`, `Parser.nested_flow_refused`, `Parser.not_well_formed`, `Parser.parse_ends`, `Parser.parse_ends_linear`, `Parser.parse_tokens_ends`, `Parser.quoted_text_changed`, `Parser.roundtrip_fails`, `Parser.tree_complete_partial`, `Parser.tree_or_error`, `PkgPath.above_src_accepted`, `PkgPath.gopath_loses_last`, `PkgPath.module_found_partial`, `PkgPath.name_by_chance`, `PkgPath.outside_refused_partial`, `PkgPath.path_in_module`, `Printer.breaks_not_told_apart`, `Printer.nil_entry_panics`, `Printer.print_determines_partial`, `Printer.print_draws_partial`, `Quoting.double_quote_roundtrip_partial`, `Quoting.double_quoted_backspace_rejected`, `Quoting.double_quoted_form_one_line`, `Quoting.double_quoted_form_recognised_partial`, `Quoting.escapes_mean_partial`, `Quoting.number_escape_fails`, `Quoting.number_escape_ignored`, `Quoting.number_escape_neighbour`, `Quoting.printable_iff`, `Quoting.single_quote_roundtrip`, `Quoting.single_quoted_form_recognised`, `Quoting.surrogate_escape_replaced`, `RawText.raw_self_contained_partial`, `RawTransformer.raw_ends`, `Reader.add_nil_nothing`, `Reader.alias_read_again`, `Reader.alias_reads_target_partial`, `Reader.decoder_errors_sticky`, `Reader.decoder_is_cursor`, `Reader.error_means_zero_partial`, `Reader.errors_stay`, `Reader.errors_sticky`, `Reader.loop_forever`, `Reader.loops_end_or_fail_partial`, `Reader.no_panic_partial`, `Reader.null_stale_value`, `Reader.null_state_panics`, `Reader.probe_harmless_partial`, `Reader.probe_splits_entry`, `Reader.probe_takes_null`, `Reader.reads_in_order`, `Reader.run_of_cursor`, `Reader.scalars_in_order`, `Reader.skip_alias_stays`, `Reader.skip_reads_partial`, `Reader.skip_then_read_partial`, `Reader.states_present`, `Roundtrip.bare_apostrophe_lost`, `Roundtrip.bare_comma_key_lost`, `Roundtrip.leading_break_changed`, `Roundtrip.leading_space_lost`, `Roundtrip.marked_item_lost`, `Roundtrip.null_becomes_text`, `Roundtrip.quote_loses_rest`, `Roundtrip.roundtrip_partial`, `Roundtrip.roundtrip_plain_partial`, `Roundtrip.roundtrip_same_partial`, `Scalars.boolean_roundtrip`, `Scalars.classes_disjoint`, `Scalars.classification_is_core_schema`, `Scalars.conversion_accepts_more`, `Scalars.decimal_integer_is_float`, `Scalars.integer_roundtrip`, `Scalars.integer_text_class`, `Scalars.integer_text_converts_partial`, `Scalars.integer_text_injective`, `Scalars.integer_text_rejected`, `Scalars.isInteger_iff`, `Scalars.leading_zero_is_octal`, `Scalars.leading_zero_wrong_value`, `Scalars.octal_integer_not_float`, `Scalars.stray_underscores`, `Scalars.toInteger_iff`, `Scalars.toUnsignedInteger_iff`, `Scalars.unsigned_plus_rejected`, `Scalars.unsigned_roundtrip`, `Scalars.unsigned_text_converts_partial`, `Timestamp.accepted_iff`, `Timestamp.accepted_no_other_class`, `Timestamp.date_read`, `Timestamp.fraction_lost`, `Timestamp.full_accepted_iff`, `Timestamp.isTimestamp_iff`, `Timestamp.long_year_taken`, `Timestamp.lower_and_spaced_refused`, `Timestamp.lower_refused`, `Timestamp.offset_seconds_lost`, `Timestamp.short_date_refused`, `Timestamp.spaced_refused`, `Timestamp.stamp_read_partial`, `Timestamp.stamp_value`, `Timestamp.text_of_time_partial`, `Timestamp.year_lost`, `Utf8.broken_byte_changed`, `Utf8.decoding_unique`, `Utf8.lossless_iff`, `Utf8.source_decoded`, `Utf8.token_bytes_lossless`, `Utf8.valid_text_kept`, `Verif.Ieee.nearest_double_single`, `Writer.complex_key_misplaced`, `Writer.empty_sequence_unwritten`, `Writer.indentation_restored`, `Writer.variants_agree`, `Writer.write_succeeds`, `Writer.written_layout_partial`, `Writer.written_scalar`, `Writer.written_text_function_of_tree`, `WriterKeeper.alias_key_lost`, `WriterKeeper.alias_loop_diverges`, `WriterKeeper.keeper_irrelevant`, `WriterKeeper.unknown_alias_fails`, `WriterKeeper.written_expanded_partial`.
* `Quot.sound`, `propext` (20): `Balance.add_false_iff_hopeless`, `Balance.parserPairs_proper`, `Binary.words_exist`, `Comparator.same_trees_equal`, `Errors.denied_iff`, `Errors.error_nil_iff`, `Errors.found_in_join`, `Errors.join_iff`, `Errors.nested`, `Lexer.next_fuel_irrelevant`, `PkgPath.clean_same_place`, `Quoting.double_quote_roundtrip_fails`, `Quoting.escape_by_number_misread`, `Quoting.escaped_tab_rejected`, `Quoting.number_escape_digits`, `Quoting.unknown_escape_rejected`, `RawText.raw_keeps_value`, `RawTransformer.raw_cycle_diverges`, `RawTransformer.raw_restores`, `WriterKeeper.no_dangling_alias`.
* `propext` (15): `Accessor.rollback_value_stale`, `Binary.fields_of_words`, `Builder.tree_unique`, `CharClasses.blank_ahead`, `CharClasses.blank_exact`, `Cmd.abbreviation_partial`, `Cmd.snake_case_partial`, `Errors.unknown_field`, `FieldTags.tags_unique`, `GenText.literal_denotes_partial`, `GoyamlBuilder.tree_unique`, `PkgPath.name_found_partial`, `RawText.redefined_alias_wrong`, `RawTransformer.chain_not_restored`, `WriterKeeper.expansion_unique`.
