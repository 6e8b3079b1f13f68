{
 "claims": [
  {
   "property": "C01",
   "status": "proved",
   "theorems": [
    "Verif.Props.Accessor.next_returns_element_at_cursor",
    "Verif.Props.Accessor.pulled_eq_seen",
    "Verif.Props.Accessor.reset_reads_afresh"
   ],
   "note": "refinement of the accessor to a cursor over the stream for every history without panics, also after a reset"
  },
  {
   "property": "C02",
   "status": "partial",
   "theorems": [
    "Verif.Props.Accessor.rollback_returns_element_before_checkpoint_partial",
    "Verif.Props.Accessor.rollback_value_stale"
   ],
   "note": "false in general: the saved element is stale after a nested rollback; negation proved by witness, partial theorem for the remaining histories"
  },
  {
   "property": "C03",
   "status": "proved",
   "theorems": [
    "Verif.Props.Lexer.tokenisation_lossless",
    "Verif.Props.Lexer.rune_accessor_refines"
   ],
   "note": ""
  },
  {
   "property": "C04",
   "status": "proved",
   "theorems": [
    "Verif.Props.Lexer.tokenisation_terminates",
    "Verif.Props.Lexer.next_fuel_irrelevant"
   ],
   "note": ""
  },
  {
   "property": "C05",
   "status": "proved",
   "theorems": [
    "Verif.Props.Lexer.token_positions_increase",
    "Verif.Props.Lexer.token_positions_exact"
   ],
   "note": ""
  },
  {
   "property": "C06",
   "status": "proved",
   "theorems": [
    "Verif.Props.Memo.memoised_eq_direct",
    "Verif.Props.Memo.get_after_set",
    "Verif.Props.Memo.get_after_set_other",
    "Verif.Props.Memo.second_query_is_cached"
   ],
   "note": ""
  },
  {
   "property": "C07",
   "status": "proved",
   "theorems": [
    "Verif.Props.Balance.isBalanced_iff_nested",
    "Verif.Props.Balance.add_false_iff_hopeless",
    "Verif.Props.Balance.peekLastUnbalanced_none_iff",
    "Verif.Props.Balance.parserPairs_proper"
   ],
   "note": ""
  },
  {
   "property": "C08",
   "status": "partial",
   "theorems": [
    "Verif.Props.Balance.memento_restores_partial",
    "Verif.Props.Balance.memento_forgets"
   ],
   "note": "false in general: the memento shares the backing array; negation proved"
  },
  {
   "property": "C09",
   "status": "proved",
   "theorems": [
    "Verif.Props.Parser.parse_ends",
    "Verif.Props.Parser.parse_ends_linear",
    "Verif.Props.Parser.parse_tokens_ends"
   ],
   "note": "every source, every history of earlier parses, every option set; no panic and no unbounded loop or recursion; the entry point for prepared tokens under a premise on byte order marks"
  },
  {
   "property": "C10",
   "status": "partial",
   "theorems": [
    "Verif.Props.Parser.tree_complete_partial",
    "Verif.Props.Parser.marker_in_properties",
    "Verif.Props.Parser.not_well_formed"
   ],
   "note": "false for the absent one of tag and anchor in node properties (negation proved: !a b); everything else is complete in every returned tree"
  },
  {
   "property": "C11",
   "status": "proved",
   "theorems": [
    "Verif.Props.Parser.tree_or_error",
    "Verif.Props.Parser.parse_ends"
   ],
   "note": "every source, every option set, every history of earlier parses through the global pools, which may drop items"
  },
  {
   "property": "C12",
   "status": "proved",
   "theorems": [
    "Verif.Props.Quoting.single_quote_roundtrip",
    "Verif.Props.Quoting.single_quoted_form_recognised"
   ],
   "note": ""
  },
  {
   "property": "C13",
   "status": "partial",
   "theorems": [
    "Verif.Props.Quoting.double_quote_roundtrip_partial",
    "Verif.Props.Quoting.double_quote_roundtrip_fails",
    "Verif.Props.Quoting.printable_iff"
   ],
   "note": "false for characters written as \\x escapes; negation proved by witness"
  },
  {
   "property": "C14",
   "status": "partial",
   "theorems": [
    "Verif.Props.Quoting.double_quoted_form_recognised_partial",
    "Verif.Props.Quoting.double_quoted_backspace_rejected",
    "Verif.Props.Quoting.double_quoted_form_one_line"
   ],
   "note": "false for backspace; negation proved by witness"
  },
  {
   "property": "C15",
   "status": "proved",
   "theorems": [
    "Verif.Props.Scalars.integer_roundtrip",
    "Verif.Props.Scalars.unsigned_roundtrip",
    "Verif.Props.Scalars.integer_text_injective"
   ],
   "note": ""
  },
  {
   "property": "C16",
   "status": "partial",
   "theorems": [
    "Verif.Props.Scalars.isInteger_iff",
    "Verif.Props.Scalars.integer_text_converts_partial",
    "Verif.Props.Scalars.unsigned_text_converts_partial",
    "Verif.Props.Scalars.integer_text_rejected",
    "Verif.Props.Scalars.leading_zero_is_octal",
    "Verif.Props.Scalars.leading_zero_wrong_value",
    "Verif.Props.Scalars.unsigned_plus_rejected"
   ],
   "note": "false for superfluous leading zeros and for + signed unsigned texts; negations proved"
  },
  {
   "property": "C17",
   "status": "proved",
   "theorems": [
    "Verif.Props.Scalars.classes_disjoint",
    "Verif.Props.Scalars.decimal_integer_is_float",
    "Verif.Props.Scalars.octal_integer_not_float",
    "Verif.Props.Scalars.boolean_roundtrip",
    "Verif.Props.Scalars.integer_text_class"
   ],
   "note": ""
  },
  {
   "property": "C18",
   "status": "proved",
   "theorems": [
    "Verif.Props.Builder.builder_faithful",
    "Verif.Props.Builder.tree_unique",
    "Verif.Props.Builder.returned_tree_immutable",
    "Verif.Props.GoyamlBuilder.builder_faithful",
    "Verif.Props.GoyamlBuilder.tree_unique",
    "Verif.Props.GoyamlBuilder.returned_tree_immutable"
   ],
   "note": "both engines"
  },
  {
   "property": "C19",
   "status": "proved",
   "theorems": [
    "Verif.Props.Builder.misuse_detected",
    "Verif.Props.Builder.first_error_wins",
    "Verif.Props.Builder.result_resets",
    "Verif.Props.GoyamlBuilder.misuse_detected",
    "Verif.Props.GoyamlBuilder.first_error_wins",
    "Verif.Props.GoyamlBuilder.result_resets"
   ],
   "note": "both engines; an error is held exactly when the calls are not admissible (goyaml admits the end of a mapping between key and value, which is C20)"
  },
  {
   "property": "C20",
   "status": "partial",
   "theorems": [
    "Verif.Props.Builder.pending_key_reported",
    "Verif.Props.Builder.encoder_total_partial",
    "Verif.Props.Builder.unfinished_mapping_panics",
    "Verif.Props.Builder.empty_document_panics",
    "Verif.Props.GoyamlBuilder.pending_key_unreported"
   ],
   "note": "false for the goyaml engine and for unfinished documents; negations proved by witness"
  },
  {
   "property": "C21",
   "status": "proved",
   "theorems": [
    "Verif.Props.Writer.written_text_function_of_tree",
    "Verif.Props.Writer.variants_agree",
    "Verif.Props.Writer.write_succeeds",
    "Verif.Props.Writer.indentation_restored",
    "Verif.Props.Writer.empty_sequence_unwritten"
   ],
   "note": "writer without anchors keeper"
  },
  {
   "property": "C22",
   "status": "partial",
   "theorems": [
    "Verif.Props.Roundtrip.roundtrip_partial",
    "Verif.Props.Roundtrip.roundtrip_same_partial",
    "Verif.Props.Roundtrip.roundtrip_plain_partial",
    "Verif.Props.Roundtrip.null_becomes_text",
    "Verif.Props.Roundtrip.marked_item_lost",
    "Verif.Props.Roundtrip.leading_break_changed",
    "Verif.Props.Roundtrip.leading_space_lost",
    "Verif.Props.Roundtrip.quote_loses_rest",
    "Verif.Props.Roundtrip.bare_apostrophe_lost",
    "Verif.Props.Roundtrip.bare_comma_key_lost",
    "Verif.Props.Parser.roundtrip_fails",
    "Verif.Props.Parser.quoted_text_changed",
    "Verif.Props.Parser.empty_sequence_lost"
   ],
   "note": "proved for trees of non-empty sequences and mappings, nested to any depth, with texts of plain words (with commas and brackets in items and values), texts in single or double quotes without characters that need escapes, nulls (which come back as the text null) and aliases as items, keys and values, with texts of several lines (literal scalars) as items and values, with tags and anchors at scalars and at values of mappings, and for single scalars, for every earlier history of the pools; false for texts with escapes, empty collections, collections with properties in sequences, texts of several lines which start with white space or have a quote in the first word of a line, bare texts with quotes, `!`, `%` or indicators between spaces, bare keys with commas (negations proved)"
  },
  {
   "property": "C23",
   "status": "proved",
   "theorems": [
    "Verif.Props.GoyamlReader.decoder_is_cursor",
    "Verif.Props.GoyamlReader.run_of_cursor",
    "Verif.Props.GoyamlReader.reads_in_order",
    "Verif.Props.GoyamlReader.scalars_in_order",
    "Verif.Props.GoyamlReader.opens_document",
    "Verif.Props.Reader.decoder_is_cursor",
    "Verif.Props.Reader.run_of_cursor",
    "Verif.Props.Reader.reads_in_order",
    "Verif.Props.Reader.scalars_in_order"
   ],
   "note": "both engines, well-formed documents without aliases (aliases are C26); every call history refines a cursor over the document"
  },
  {
   "property": "C24",
   "status": "proved",
   "theorems": [
    "Verif.Props.GoyamlReader.decoder_errors_sticky",
    "Verif.Props.GoyamlReader.errors_sticky",
    "Verif.Props.GoyamlReader.errors_stay",
    "Verif.Props.GoyamlReader.states_present",
    "Verif.Props.Reader.decoder_errors_sticky",
    "Verif.Props.Reader.errors_sticky",
    "Verif.Props.Reader.errors_stay",
    "Verif.Props.Reader.states_present"
   ],
   "note": "both engines, from every state; collection states must not be nil to be asked (on documents without aliases none is, states_present)"
  },
  {
   "property": "C25",
   "status": "partial",
   "theorems": [
    "Verif.Props.GoyamlReader.loops_end_partial",
    "Verif.Props.GoyamlReader.no_items_after_error",
    "Verif.Props.GoyamlReader.multi_loop_forever",
    "Verif.Props.Reader.loops_end_or_fail_partial",
    "Verif.Props.Reader.loop_forever"
   ],
   "note": "both engines; false for yayamls after any fatal error and for goyaml in multi-error mode: HasUnprocessedItems stays true forever (negations proved)"
  },
  {
   "property": "C26",
   "status": "partial",
   "theorems": [
    "Verif.Props.GoyamlReader.alias_reads_target_partial",
    "Verif.Props.GoyamlReader.alias_read_again",
    "Verif.Props.Reader.alias_reads_target_partial",
    "Verif.Props.Reader.alias_read_again"
   ],
   "note": "both engines; false: the alias is not consumed (negations proved)"
  },
  {
   "property": "C27",
   "status": "partial",
   "theorems": [
    "Verif.Props.AnyBuilder.any_value",
    "Verif.Props.AnyBuilder.plain_value",
    "Verif.Props.AnyBuilder.value_unique",
    "Verif.Props.AnyBuilder.any_terminates_partial",
    "Verif.Props.AnyBuilder.self_reference_diverges",
    "Verif.Props.GoyamlAnyBuilder.any_value",
    "Verif.Props.GoyamlAnyBuilder.plain_value",
    "Verif.Props.GoyamlAnyBuilder.value_unique",
    "Verif.Props.GoyamlAnyBuilder.any_terminates_partial",
    "Verif.Props.GoyamlAnyBuilder.self_reference_diverges"
   ],
   "note": "both engines; false for self-referring anchors (generic decoding never ends, negation proved); every document with a value by the rules decodes to it, every alias-free (goyaml: acyclic) document ends"
  },
  {
   "property": "C28",
   "status": "partial",
   "theorems": [
    "Verif.Props.AnyBuilder.merge_precedence",
    "Verif.Props.AnyBuilder.map_keys_distinct",
    "Verif.Props.AnyBuilder.merge_decoded_partial",
    "Verif.Props.AnyBuilder.nested_mapping_flattened",
    "Verif.Props.AnyBuilder.merge_list_drops_entry",
    "Verif.Props.GoyamlAnyBuilder.merge_decoded_partial",
    "Verif.Props.GoyamlAnyBuilder.nested_mapping_flattened",
    "Verif.Props.GoyamlAnyBuilder.merge_list_drops_entry"
   ],
   "note": "both engines; false for mappings nested in merged mappings and for lists of mappings (negations proved); proved for all other mappings"
  },
  {
   "property": "C29",
   "status": "partial",
   "theorems": [
    "Verif.Props.GoyamlReader.add_nil_empties",
    "Verif.Props.GoyamlReader.add_nil_loses_item",
    "Verif.Props.Reader.add_nil_nothing"
   ],
   "note": "holds for yayamls from every state; false for goyaml, negation proved"
  },
  {
   "property": "C30",
   "status": "partial",
   "theorems": [
    "Verif.Props.GoyamlReader.probe_harmless",
    "Verif.Props.GoyamlReader.probe_takes_null",
    "Verif.Props.Reader.probe_harmless_partial",
    "Verif.Props.Reader.probe_takes_null",
    "Verif.Props.Reader.probe_splits_entry"
   ],
   "note": "proved for goyaml; for yayamls proved for all calls but Raw, Node and Skip, for which it is false in mappings (negation proved)"
  },
  {
   "property": "C31",
   "status": "partial",
   "theorems": [
    "Verif.Props.GoyamlReader.skip_reads_partial",
    "Verif.Props.GoyamlReader.skip_then_read_partial",
    "Verif.Props.GoyamlReader.skip_alias_stays",
    "Verif.Props.Reader.skip_reads_partial",
    "Verif.Props.Reader.skip_then_read_partial",
    "Verif.Props.Reader.skip_alias_stays"
   ],
   "note": "both engines; false at aliases (negations proved); proved for all documents without aliases"
  },
  {
   "property": "C32",
   "status": "partial",
   "theorems": [
    "Verif.Props.Comparator.comparison_finishes_partial",
    "Verif.Props.Comparator.comparison_terminates",
    "Verif.Props.Comparator.answer_unique_partial",
    "Verif.Props.Comparator.nil_child_panics"
   ],
   "note": "false for trees with a nil interface value among the children of a stream, sequence or mapping: every schedule panics (proved); proved for all others"
  },
  {
   "property": "C33",
   "status": "partial",
   "theorems": [
    "Verif.Props.Comparator.same_trees_equal",
    "Verif.Props.Comparator.decides_equality_partial",
    "Verif.Props.Comparator.equal_equivalence",
    "Verif.Props.Comparator.ends_ignored"
   ],
   "note": "equal trees are found equal; the converse is false ([[a], b] and [[a, b]], negation proved) and proved for trees of the same shape"
  },
  {
   "property": "C34",
   "status": "partial",
   "theorems": [
    "Verif.Props.RawTransformer.raw_restores",
    "Verif.Props.RawTransformer.raw_ends",
    "Verif.Props.RawTransformer.raw_cycle_diverges",
    "Verif.Props.RawTransformer.chain_not_restored"
   ],
   "note": "proved for all graphs in which no alias stands for an alias (yaml.v3 parses no others) whenever the transformation ends, and it ends for every acyclic graph; for circular aliases it never ends and for hand-made alias chains it does not restore (negations proved)"
  },
  {
   "property": "C35",
   "status": "proved",
   "theorems": [
    "Verif.Props.GenNames.names_unique_stable",
    "Verif.Props.GenNames.name_found"
   ],
   "note": "for every letter table and every map iteration order"
  },
  {
   "property": "C36",
   "status": "proved",
   "theorems": [
    "Verif.Props.GenNames.aliases_unique_stable",
    "Verif.Props.GenNames.alias_found",
    "Verif.Props.GenNames.header_imports",
    "Verif.Props.GenNames.vendoring_cut"
   ],
   "note": "paths are compared after the vendoring directories are cut off, as the generator intends"
  },
  {
   "property": "C37",
   "status": "partial",
   "theorems": [
    "Verif.Props.GenTypes.each_type_once",
    "Verif.Props.GenTypes.run_ends_partial",
    "Verif.Props.GenTypes.recursive_slice_diverges",
    "Verif.Props.GenFields.inlined_in_itself_diverges"
   ],
   "note": "exactly once: proved for every run that ends; termination is false for types which are parts of themselves without a struct in between and for structs inlining themselves (negations proved) and proved for all other finite type graphs"
  },
  {
   "property": "C38",
   "status": "partial",
   "theorems": [
    "Verif.Props.GenFields.names_distinct",
    "Verif.Props.GenFields.declared_wins_partial",
    "Verif.Props.GenFields.fields_found_partial",
    "Verif.Props.GenFields.inlined_field_loses",
    "Verif.Props.GenFields.yaml_names_collide",
    "Verif.Props.GenFields.inlined_in_itself_diverges"
   ],
   "note": "Go names are distinct; false for names in the document and for inlined fields (negations proved)"
  },
  {
   "property": "C39",
   "status": "partial",
   "theorems": [
    "Verif.Props.FloatsEndToEnd.floats_faithful",
    "Verif.Props.FloatsEndToEnd.marshal_unmarshal_floats_partial",
    "Verif.Props.EndToEnd.marshal_unmarshal_partial",
    "Verif.Props.EndToEnd.line_break_changed",
    "Verif.Props.EndToEnd.empty_item_nil",
    "Verif.Props.EndToEnd.empty_document_refused",
    "Verif.Props.GenCode.roundtrip_yayamls_partial",
    "Verif.Props.GenCode.roundtrip_goyaml_partial",
    "Verif.Props.GenCode.nil_pointee_lost",
    "Verif.Props.GenCode.empty_slice_lost",
    "Verif.Props.GenCode.empty_map_lost",
    "Verif.Props.GenCode.negative_zero_lost",
    "Verif.Props.GenCode.fields_after_text_lost"
   ],
   "note": "through trees: both engines, all values in the fragment Fits; through texts (MarshalYAML, then UnmarshalYAML, yayamls engine): collections in this fragment, at any depth, without empty collections and without strings that need escapes; outside of these fragments the property is false (eight witnesses); what is assumed of texts of floats is shown for the texts of FromFloat (C76, C77)"
  },
  {
   "property": "C40",
   "status": "partial",
   "theorems": [
    "Verif.Props.GenCode.array_consumes_partial",
    "Verif.Props.GenCode.array_overflow"
   ],
   "note": "holds for sequences not longer than the array; false for longer ones (witness: a field silently gets a key as its value)"
  },
  {
   "property": "C41",
   "status": "partial",
   "theorems": [
    "Verif.Props.Bootstrap.success_complete",
    "Verif.Props.Bootstrap.returned_whole_partial",
    "Verif.Props.Bootstrap.between_writes_whole_partial",
    "Verif.Props.Bootstrap.half_written",
    "Verif.Props.Bootstrap.failure_loses_previous",
    "Verif.Props.Bootstrap.damaged_stub"
   ],
   "note": "false: a crash leaves a half-written file, a failing write of the stub is ignored (negations proved); proved for every return without failing writes and every crash outside of the two writing phases"
  },
  {
   "property": "C42",
   "status": "partial",
   "theorems": [
    "Verif.Props.Parser.deep_flow_refused",
    "Verif.Props.Parser.nested_flow_refused"
   ],
   "note": "false: six nested flow sequences are refused (negation proved)"
  },
  {
   "property": "C43",
   "status": "partial",
   "theorems": [
    "Verif.Props.Builder.second_root_replaces",
    "Verif.Props.Builder.misuse_detected"
   ],
   "note": "false: a second document silently replaces a finished collection; negation proved by witness; the exact set of accepted histories is misuse_detected"
  },
  {
   "property": "C44",
   "status": "partial",
   "theorems": [
    "Verif.Props.AnyBuilder.quoted_number_not_string",
    "Verif.Props.GoyamlAnyBuilder.quoted_number_not_string"
   ],
   "note": "false: negation proved"
  },
  {
   "property": "C45",
   "status": "partial",
   "theorems": [
    "Verif.Props.GoyamlReader.no_panic_partial",
    "Verif.Props.GoyamlReader.empty_state_panics",
    "Verif.Props.GoyamlReader.empty_state_silent",
    "Verif.Props.Reader.no_panic_partial",
    "Verif.Props.Reader.null_state_panics"
   ],
   "note": "both engines, documents without aliases; false for yayamls in multi-error mode on null nodes and for goyaml on the node of an empty text (negations proved)"
  },
  {
   "property": "C46",
   "status": "partial",
   "theorems": [
    "Verif.Props.GoyamlReader.error_means_zero_partial",
    "Verif.Props.Reader.error_means_zero_partial",
    "Verif.Props.Reader.null_stale_value"
   ],
   "note": "both engines, documents without aliases; false for yayamls in multi-error mode on null nodes (negation proved)"
  },
  {
   "property": "C47",
   "status": "partial",
   "theorems": [
    "Verif.Props.GenNames.names_are_identifiers_partial",
    "Verif.Props.GenNames.name_broken"
   ],
   "note": "false for type names starting with a non-ASCII letter (negation proved); proved for ASCII"
  },
  {
   "property": "C48",
   "status": "proved",
   "theorems": [
    "Verif.Props.Scalars.classification_is_core_schema"
   ],
   "note": "specification of the core schema's regular expressions in Spec/CoreSchema.lean"
  },
  {
   "property": "C49",
   "status": "partial",
   "theorems": [
    "Verif.Props.GenFields.fields_promoted",
    "Verif.Props.GenFields.fields_denote_partial",
    "Verif.Props.GenFields.wrong_field_selected",
    "Verif.Props.GenFields.named_inline_not_selectable"
   ],
   "note": "false for names occurring at several depths and for inline on named fields (negations proved); proved if no name occurs twice"
  },
  {
   "property": "C50",
   "status": "partial",
   "theorems": [
    "Verif.Props.Quoting.escapes_mean_partial",
    "Verif.Props.Quoting.unknown_escape_rejected",
    "Verif.Props.Quoting.escaped_tab_rejected",
    "Verif.Props.Quoting.escape_by_number_misread",
    "Verif.Props.Quoting.number_escape_fails",
    "Verif.Props.Quoting.number_escape_ignored",
    "Verif.Props.Quoting.number_escape_digits",
    "Verif.Props.Quoting.number_escape_neighbour",
    "Verif.Props.Quoting.surrogate_escape_replaced"
   ],
   "note": "false for escapes by number and the escaped tab (witnesses)"
  },
  {
   "property": "C51",
   "status": "partial",
   "theorems": [
    "Verif.Props.Writer.written_layout_partial",
    "Verif.Props.Writer.written_scalar",
    "Verif.Props.Writer.complex_key_misplaced"
   ],
   "note": "false for collections as keys of nested mappings; properties at the root and on keys are glued to the text"
  },
  {
   "property": "C52",
   "status": "partial",
   "theorems": [
    "Verif.Props.GenCode.null_reads_zero_partial",
    "Verif.Props.GenCode.struct_null_swallows",
    "Verif.Props.GenCode.struct_null_refused"
   ],
   "note": "holds for all types but structs; false for structs (witnesses)"
  },
  {
   "property": "C53",
   "status": "partial",
   "theorems": [
    "Verif.Props.GenCode.decoder_ends_partial",
    "Verif.Props.GenCode.decoder_runs_forever"
   ],
   "note": "goyaml engine without multiple errors; false for the yayamls engine (witness)"
  },
  {
   "property": "C54",
   "status": "partial",
   "theorems": [
    "Verif.Props.RawText.raw_keeps_value",
    "Verif.Props.RawText.raw_self_contained_partial",
    "Verif.Props.RawText.redefined_alias_wrong"
   ],
   "note": "the value is kept for every graph; aliases are resolved in the text if no anchor is defined twice; false for redefined anchors (witness: another value)"
  },
  {
   "property": "C55",
   "status": "proved",
   "theorems": [
    "Verif.Props.FieldTags.tags_understood",
    "Verif.Props.FieldTags.tags_unique"
   ],
   "note": "the value of the key yaml in the tag; reflect.StructTag.Get itself is not modelled"
  },
  {
   "property": "C56",
   "status": "partial",
   "theorems": [
    "Verif.Props.FieldTags.only_listed",
    "Verif.Props.FieldTags.all_listed_partial",
    "Verif.Props.FieldTags.spread_slice_lost"
   ],
   "note": "nothing else is listed (proved); no name is missing if the inlined fields are structs, pointers to structs or of basic kinds; false for inlined slices, maps and interfaces (witness: an embedded slice is lost)"
  },
  {
   "property": "C57",
   "status": "partial",
   "theorems": [
    "Verif.Props.Printer.print_draws_partial",
    "Verif.Props.Printer.print_determines_partial",
    "Verif.Props.Printer.breaks_not_told_apart",
    "Verif.Props.Printer.nil_entry_panics"
   ],
   "note": "false: nil among documents or entries panics (exactly then), a line break and the escape for it look the same, the text of a root is printed over several lines (theorems); proved for all other trees"
  },
  {
   "property": "C58",
   "status": "partial",
   "theorems": [
    "Verif.Props.Cmd.snake_case_partial",
    "Verif.Props.Cmd.abbreviation_partial",
    "Verif.Props.Cmd.files_differ_partial",
    "Verif.Props.Cmd.default_accepted",
    "Verif.Props.Cmd.names_collide",
    "Verif.Props.Cmd.ignored_file"
   ],
   "note": "proved for names made of words (an upper case letter, then lower case letters); false in general: FooBar and Foo_Bar share a file, the file of _T is ignored (witnesses)"
  },
  {
   "property": "C59",
   "status": "partial",
   "theorems": [
    "Verif.Props.PkgPath.path_in_module",
    "Verif.Props.PkgPath.module_found_partial",
    "Verif.Props.PkgPath.gopath_loses_last",
    "Verif.Props.PkgPath.outside_refused_partial",
    "Verif.Props.PkgPath.above_src_accepted",
    "Verif.Props.PkgPath.name_found_partial",
    "Verif.Props.PkgPath.name_by_chance",
    "Verif.Props.PkgPath.clean_same_place"
   ],
   "note": "in modules: proved, with the module path found in every go.mod file which declares it without quotes; without modules false for every directory (proved: the last element is lost); the name is proved for directories with one package and depends on the order of a map otherwise (witness)"
  },
  {
   "property": "C60",
   "status": "partial",
   "theorems": [
    "Verif.Props.Meaning.decoder_meaning_yayamls_partial",
    "Verif.Props.Meaning.decoder_meaning_goyaml_partial",
    "Verif.Props.Meaning.text_meaning_partial",
    "Verif.Props.Meaning.null_document_partial",
    "Verif.Props.Meaning.key_order_irrelevant",
    "Verif.Props.Meaning.missing_fields_kept",
    "Verif.Props.Meaning.field_given",
    "Verif.Props.Meaning.meaning_unique",
    "Verif.Props.Meaning.unknown_null_accepted"
   ],
   "note": "the meaning of documents is a relation independent of the decoders (Spec/Meaning, Spec/Represents); proved for all documents which have a meaning there, for both engines, and from every text in block style (the grammar of C61, with indentation, comments, properties and quotes); left out are nulls for structs and scalars, longer sequences than arrays, integers with superfluous leading zeros (what happens then is stated by other theorems), and aliases; unknown keys with nulls are accepted even if unknown fields are refused (witness)"
  },
  {
   "property": "C61",
   "status": "partial",
   "theorems": [
    "Verif.Props.Blocks.block_text_read_partial",
    "Verif.Props.Blocks.block_text_unambiguous",
    "Verif.Props.Blocks.gap_ignored_partial",
    "Verif.Props.Blocks.key_properties_lost",
    "Verif.Props.Blocks.last_dash_lost",
    "Verif.Props.Blocks.dash_in_tag_refused",
    "Verif.Props.Blocks.tag_handles_merged",
    "Verif.Props.Blocks.literal_quote_loses",
    "Verif.Props.Blocks.literal_bracket_refused",
    "Verif.Props.Blocks.literal_blank_swallows",
    "Verif.Props.Blocks.literal_empty_swallows",
    "Verif.Props.Blocks.literal_root_swallows",
    "Verif.Props.Blocks.literal_dedent_loses",
    "Verif.Props.Blocks.closing_bracket_loses",
    "Verif.Props.Blocks.comment_in_brackets_kept",
    "Verif.Props.Blocks.empty_item_loses",
    "Verif.Props.Blocks.apostrophe_loses",
    "Verif.Props.Blocks.percent_loses",
    "Verif.Props.Blocks.spaced_dash_loses",
    "Verif.Props.Blocks.spaced_bracket_loses",
    "Verif.Props.Blocks.comma_in_key_loses",
    "Verif.Props.Blocks.carriage_return_kept",
    "Verif.Props.Blocks.blank_carriage_return_kept",
    "Verif.Props.Blocks.quoted_space_kept",
    "Verif.Props.Blocks.folded_doubled",
    "Verif.Props.Blocks.folded_dedent_loses",
    "Verif.Props.Blocks.folded_blank_swallows",
    "Verif.Props.Blocks.folded_bracket_refused",
    "Verif.Props.Blocks.local_prefix_loses",
    "Verif.Props.Blocks.spaced_directive_loses",
    "Verif.Props.Blocks.single_pair_bare",
    "Verif.Props.Blocks.quoted_key_properties_lose"
   ],
   "note": "proved for the grammar of Spec/BlockText (block collections to any depth, entries with and without a `?`, collections in brackets on one or more lines with at most four sequences within each other, with absent values and commas at the end, plain scalars on one or more lines, with commas and brackets within words of items and values, quoted scalars on one or more lines, literal scalars and folded ones with any chomping, with or without the indentation behind the bar (which then is that of the first line), aliases, anchors, tags, comments, blank lines, documents, directives; line breaks of any kind outside of literal scalars); lines of folded scalars which do not start with a plain word, scalars over several lines within brackets, and comments behind unknown directives are left out; false for directives with a local tag prefix or a space in front (the text is lost without an error), for keys with properties (content is lost without an error), for a dash at the very end, for tags with dashes, for some literal and folded scalars (more indented lines, among others), for closing brackets in the column of the key, comments within brackets, plain texts with quotes, `!`, `%` or indicators between spaces, keys with commas, spaces at the ends of lines within quotes, and carriage returns in literal scalars and blank lines of other ones (witnesses)"
  },
  {
   "property": "C62",
   "status": "partial",
   "theorems": [
    "Verif.Props.Json.json_text_read_partial",
    "Verif.Props.Json.json_unmarshalled_partial",
    "Verif.Props.Json.json_text_unambiguous_partial",
    "Verif.Props.Json.compact_object_lost",
    "Verif.Props.Json.compact_array_refused",
    "Verif.Props.Json.deep_array_refused",
    "Verif.Props.Json.escapes_kept",
    "Verif.Props.Json.json_text_as_written_partial",
    "Verif.Props.Json.string_decoded_iff",
    "Verif.Props.Json.backspace_loses"
   ],
   "note": "false for compact JSON (an object as a value right after the colon loses the document without an error, an array is refused) for six nested arrays, and for strings with escapes: each string with a backslash is kept as it is written and not decoded (string_decoded_iff, for all strings), and the escape of the backspace loses the document (witnesses); proved for JSON without escapes and tabs, and with the strings as written for JSON with escapes, with space after the colons before arrays and objects and at most four arrays within each other"
  },
  {
   "property": "C63",
   "status": "partial",
   "theorems": [
    "Verif.Props.CharClasses.decimal_exact",
    "Verif.Props.CharClasses.word_exact",
    "Verif.Props.CharClasses.single_exact",
    "Verif.Props.CharClasses.double_exact",
    "Verif.Props.CharClasses.uri_exact_partial",
    "Verif.Props.CharClasses.tag_exact_partial",
    "Verif.Props.CharClasses.anchor_exact_partial",
    "Verif.Props.CharClasses.unknown_empty",
    "Verif.Props.CharClasses.blank_exact",
    "Verif.Props.CharClasses.blank_ahead",
    "Verif.Props.CharClasses.parenthesis_refused",
    "Verif.Props.CharClasses.brace_accepted",
    "Verif.Props.CharClasses.dash_refused",
    "Verif.Props.CharClasses.space_accepted",
    "Verif.Props.CharClasses.backspace_refused"
   ],
   "note": "exact for decimal numbers, words and texts in single quotes; false for links (parentheses are refused, braces accepted), for tags (dashes are refused), for texts in double quotes (the escape of the backspace is refused) and for anchors (spaces are accepted), each with a witness; exact for all other strings of these classes"
  },
  {
   "property": "C64",
   "status": "partial",
   "theorems": [
    "Verif.Props.WriterKeeper.written_expanded_partial",
    "Verif.Props.WriterKeeper.no_dangling_alias",
    "Verif.Props.WriterKeeper.expansion_unique",
    "Verif.Props.WriterKeeper.keeper_irrelevant",
    "Verif.Props.WriterKeeper.unknown_alias_fails",
    "Verif.Props.WriterKeeper.alias_key_lost",
    "Verif.Props.WriterKeeper.alias_loop_diverges"
   ],
   "note": "proved for every keeper, state and tree except keys which are aliases to collections, which are written without the question mark so that the text is another document (witness); a keeper with a tree containing its own alias makes the writer run forever (proved)"
  },
  {
   "property": "C65",
   "status": "proved",
   "theorems": [
    "Verif.Props.Utf8.source_decoded",
    "Verif.Props.Utf8.valid_text_kept",
    "Verif.Props.Utf8.decoding_unique",
    "Verif.Props.Utf8.lossless_iff",
    "Verif.Props.Utf8.broken_byte_changed",
    "Verif.Props.Utf8.token_bytes_lossless"
   ],
   "note": "utf8.DecodeRune of Go's library is modelled by its documentation; the specification uses the encoding of Lean's library"
  },
  {
   "property": "C66",
   "status": "proved",
   "theorems": [
    "Verif.Props.BootMain.program_settings",
    "Verif.Props.BootMain.stub_code",
    "Verif.Props.BootMain.stub_tags",
    "Verif.Props.BootMain.stub_no_tags"
   ],
   "note": "strconv.IsPrint is any predicate which is false for the newline; types, package names and engines are on one line (identifiers)"
  },
  {
   "property": "C67",
   "status": "proved",
   "theorems": [
    "Verif.Props.Invents.spelled_by_source",
    "Verif.Props.Invents.texts_from_source",
    "Verif.Props.Invents.marks_from_source",
    "Verif.Props.Invents.no_new_character"
   ],
   "note": "says nothing about characters of the source which the tree drops, nor about blanks inside scalars (see C39, C60)"
  },
  {
   "property": "C68",
   "status": "proved",
   "theorems": [
    "Verif.Props.Scalars.toInteger_iff",
    "Verif.Props.Scalars.toUnsignedInteger_iff",
    "Verif.Props.Scalars.conversion_accepts_more",
    "Verif.Props.Scalars.stray_underscores"
   ],
   "note": "exact set of the accepted texts with their values"
  },
  {
   "property": "C69",
   "status": "partial",
   "theorems": [
    "Verif.Props.GenText.encoder_closed",
    "Verif.Props.GenText.yayamls_file_closed",
    "Verif.Props.GenText.file_closed_partial",
    "Verif.Props.GenText.goyaml_any_not_closed",
    "Verif.Props.GenText.goyaml_unmarshaler_not_closed",
    "Verif.Props.GenText.quote_not_closed"
   ],
   "note": "proved for all encoders and for whole files of the engine yayamls; for goyaml false with types which implement yaml.Unmarshaler and with interface{} (witnesses), proved for all other types; names for documents must be able to stand in a literal (C71; witness); the texts of type names, function names and imports are parameters which must be closed"
  },
  {
   "property": "C70",
   "status": "partial",
   "theorems": [
    "Verif.Props.GenText.place_read",
    "Verif.Props.GenText.decoder_calls_on_variable",
    "Verif.Props.GenText.encoder_calls_on_variable_partial",
    "Verif.Props.GenText.encoder_calls_on_pointer",
    "Verif.Props.GenText.pointer_to_text_written"
   ],
   "note": "proved for variables and for decoders; false for encoders behind a pointer, where the star takes the call (proved for all variables and methods, and that such text is written for a field of type *time.Time); type assertions and slices of bytes are left out"
  },
  {
   "property": "C71",
   "status": "partial",
   "theorems": [
    "Verif.Props.GenText.literal_denotes_partial",
    "Verif.Props.GenText.backslash_denotes_other",
    "Verif.Props.GenText.backslash_denotes_tab",
    "Verif.Props.GenText.quote_not_closed",
    "Verif.Props.GenText.decoder_case",
    "Verif.Props.GenText.encoder_name"
   ],
   "note": "true for names without quotes, backslashes and line breaks; false for every name with a backslash, and for quotes (witnesses)"
  },
  {
   "property": "C72",
   "status": "proved",
   "theorems": [
    "Verif.Props.GenText.names_differ",
    "Verif.Props.GenText.name_ident",
    "Verif.Props.GenText.name_not_fixed",
    "Verif.Props.GenText.fresh_name",
    "Verif.Props.GenText.decoder_names_kept",
    "Verif.Props.GenText.encoder_names_kept"
   ],
   "note": ""
  },
  {
   "property": "C73",
   "status": "partial",
   "theorems": [
    "Verif.Props.GenTypeName.text_denotes_partial",
    "Verif.Props.GenTypeName.texts_differ",
    "Verif.Props.GenTypeName.text_found",
    "Verif.Props.GenTypeName.text_closed",
    "Verif.Props.GenTypeName.aliases_names",
    "Verif.Props.GenTypeName.tag_loses_return",
    "Verif.Props.GenTypeName.embedded_alias_lost",
    "Verif.Props.GenTypeName.foreign_field_lost",
    "Verif.Props.GenTypeName.keyword_alias",
    "Verif.Props.GenTypeName.alias_hides"
   ],
   "note": "proved for all types which can be written in the file (the exact condition is Writable); false for tags with a carriage return, embedded fields of alias types, fields not exported of struct types from other packages, packages whose path ends in a keyword or in the name of a predeclared type (witnesses); instances of generic types and types of functions, channels and interfaces with methods are not in the grammar"
  },
  {
   "property": "C74",
   "status": "partial",
   "theorems": [
    "Verif.Props.Timestamp.accepted_iff",
    "Verif.Props.Timestamp.isTimestamp_iff",
    "Verif.Props.Timestamp.accepted_no_other_class",
    "Verif.Props.Timestamp.stamp_value",
    "Verif.Props.Timestamp.full_accepted_iff",
    "Verif.Props.Timestamp.lower_and_spaced_refused",
    "Verif.Props.Timestamp.stamp_read_partial",
    "Verif.Props.Timestamp.date_read",
    "Verif.Props.Timestamp.text_of_time_partial",
    "Verif.Props.Timestamp.lower_refused",
    "Verif.Props.Timestamp.spaced_refused",
    "Verif.Props.Timestamp.long_year_taken",
    "Verif.Props.Timestamp.short_date_refused",
    "Verif.Props.Timestamp.fraction_lost",
    "Verif.Props.Timestamp.offset_seconds_lost",
    "Verif.Props.Timestamp.year_lost",
    "Verif.Props.GenericTime.time_iff",
    "Verif.Props.GenericTime.other_not_time",
    "Verif.Props.GenericTime.time_order"
   ],
   "note": "exact set of the accepted texts with their times; false for timestamps with a small t, with blanks or without a zone (the layouts for them have the wrong reference year and match dates of the year 0 instead), and for times with fractions, with seconds in their offset or outside of the years 0 to 9999 (witnesses); time.Parse and Time.Format are modelled from the published source of Go"
  },
  {
   "property": "C75",
   "status": "partial",
   "theorems": [
    "Verif.Props.Binary.regex_iff",
    "Verif.Props.Binary.fields_of_words",
    "Verif.Props.Binary.words_exist",
    "Verif.Props.Binary.accepted_iff",
    "Verif.Props.Binary.one_word_iff",
    "Verif.Props.Binary.wrapped_accepted_partial",
    "Verif.Props.Binary.accepted_binary_partial",
    "Verif.Props.Binary.encode_decodes",
    "Verif.Props.Binary.encode_accepted",
    "Verif.Props.Binary.decodes_unique",
    "Verif.Props.Binary.odd_lines_refused",
    "Verif.Props.Binary.lines_of_70_refused",
    "Verif.Props.Binary.inner_padding_accepted",
    "Verif.Props.Binary.foreign_space_accepted"
   ],
   "note": "exact set of the accepted texts; exact for texts without white space; with white space every word is checked by itself, so lines which are not multiples of four characters are refused and padding inside is accepted (witnesses); proved for lines of whole groups with padding in the last only"
  },
  {
   "property": "C76",
   "status": "partial",
   "theorems": [
    "Verif.Props.Float.text_denotes",
    "Verif.Props.Float.text_is_float",
    "Verif.Props.Float.text_converts",
    "Verif.Props.Float.round_trip",
    "Verif.Props.Float.text_injective",
    "Verif.Props.Float.read_only_numbers",
    "Verif.Props.Float.converted_is_float",
    "Verif.Props.Float.generic_float",
    "Verif.Props.Float.number_read_partial",
    "Verif.Props.Float.float_text_converts_partial",
    "Verif.Props.Float.long_exponent_cut"
   ],
   "note": "64 bits (32 bits: C77); assumes of strconv that the shortest digits round back to the float (`Contract`) and nothing else about rounding; the text denotes the shortest digits and is read as what it denotes, proved for all digits; texts with exponents of 100000 and more, which are written for no float, are read with a cut exponent (witness)"
  },
  {
   "property": "C77",
   "status": "proved",
   "theorems": [
    "Verif.Props.Float32.single_round_trip",
    "Verif.Props.Float32.special_round_trip",
    "Verif.Ieee.nearest_double_single"
   ],
   "note": "assumes of strconv that the shortest digits of a double lie nearest to it and that reading rounds to the only nearest single (`Nearly`); that nearest double implies only nearest single is proved for the points of IEEE 754 with gradual underflow and overflow"
  },
  {
   "property": "C78",
   "status": "proved",
   "theorems": [
    "Verif.Props.Errors.found_in_join",
    "Verif.Props.Errors.join_iff",
    "Verif.Props.Errors.unknown_field",
    "Verif.Props.Errors.denied_iff",
    "Verif.Props.Errors.error_nil_iff",
    "Verif.Props.Errors.recognised_yayamls",
    "Verif.Props.Errors.recognised_goyaml",
    "Verif.Props.Errors.kept_yayamls",
    "Verif.Props.Errors.kept_goyaml",
    "Verif.Props.Errors.nested"
   ],
   "note": "all trees and graphs, with aliases; assumes that errors of strconv, time, fmt and yaml.v3 are neither denied values nor the end of the stream (`Foreign`); errors.Is and errors.Join are modelled after their sources; errors.As is not modelled"
  },
  {
   "property": "C79",
   "status": "proved",
   "theorems": [
    "Verif.Props.GenLoops.decoder_slice",
    "Verif.Props.GenLoops.decoder_array",
    "Verif.Props.GenLoops.decoder_map",
    "Verif.Props.GenLoops.encoder_slice",
    "Verif.Props.GenLoops.encoder_array",
    "Verif.Props.GenLoops.encoder_map"
   ],
   "note": "the complete text of each loop with the text for the item inside; byte slices and byte arrays, which have no loops of this kind, excepted; the text for the item is by `decBody`/`encBody` for the place named in the theorem (places read back by C69 place_read, names fresh by C69); what Go does with the text is modelled by GenCode (C36 and others), not derived from the text"
  },
  {
   "property": "C80",
   "status": "proved",
   "theorems": [
    "Verif.Props.GenBasics.decoder_basic",
    "Verif.Props.GenBasics.encoder_basic",
    "Verif.Props.GenBasics.time_calls",
    "Verif.Props.GenBasics.bytes_calls",
    "Verif.Props.GenBasics.decoder_pointer"
   ],
   "note": "texts of lines; the link to the running code is to `Model/GenCode` (same calls) for the basic kinds; the tables of the generator are modelled kind by kind, with width 0 for int and uint; byte arrays are not included (their code does not compile, see the findings)"
  },
  {
   "property": "C81",
   "status": "proved",
   "theorems": [
    "Verif.Props.GenStructs.struct_decoder",
    "Verif.Props.GenStructs.struct_encoder"
   ],
   "note": "the complete texts of the functions, with the text of the decoder (encoder) of each field inside; the fields are those which GenTypes chooses; what the literals denote is C70"
  },
  {
   "property": "C82",
   "status": "proved",
   "theorems": [
    "Verif.Props.GenMethods.decoder_yamly",
    "Verif.Props.GenMethods.decoder_yayamls",
    "Verif.Props.GenMethods.decoder_goyaml",
    "Verif.Props.GenMethods.decoder_text",
    "Verif.Props.GenMethods.decoder_plain",
    "Verif.Props.GenMethods.encoder_yamly",
    "Verif.Props.GenMethods.encoder_engine",
    "Verif.Props.GenMethods.encoder_text",
    "Verif.Props.GenMethods.encoder_plain",
    "Verif.Props.GenMethods.omitted_when"
   ],
   "note": "the complete texts; what `reflect` answers about methods is a parameter (`Types`); UnmarshalYamly has no error to pass on; the text of goyaml for `UnmarshalYAML` is as it is in the code, with a parenthesis missing (a finding of C69); omitted_when for the kinds of GenCode (interfaces are not in it)"
  },
  {
   "property": "C83",
   "status": "proved",
   "theorems": [
    "Verif.Props.GenCalls.dec_same",
    "Verif.Props.GenCalls.enc_same",
    "Verif.Props.GenCalls.functions_mention",
    "Verif.Props.GenCalls.file_mentions"
   ],
   "note": "runs which end without an error, with enough fuel for each type (premise `hf`; termination is C37, run_ends_partial); the two models describe the same types (`Same`, `SameFields`), which is assumed of what `reflect` answers; that the functions written are those of the list is `each_type_once`"
  }
 ]
}