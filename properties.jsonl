{"id": "C01", "title": "Checkpoints never lose, repeat or reorder stream elements", "statement": "Reading through a checkpointing accessor is reading through a cursor over the underlying stream: after any sequence of Next/SetCheckpoint/Rollback/Commit calls the value returned by Next is the element of the underlying stream at the cursor position, where Next advances the cursor, Rollback moves it back to where the innermost open checkpoint was set and Commit drops the innermost checkpoint.", "quantifier": "every underlying stream, every finite history of operations, any nesting depth of checkpoints", "why_tests_cant": "the accessor has a ring of interacting cases (buffer, buffer cursor, stack) and the parser drives it with arbitrary deep backtracking; tests only replay a few histories", "anchors": ["engines/yayamls/pkg/cpaccessor/accessor.go: CheckpointingAccessor.Next", "engines/yayamls/pkg/cpaccessor/accessor.go: SetCheckpoint", "engines/yayamls/pkg/cpaccessor/accessor.go: Rollback", "engines/yayamls/pkg/cpaccessor/accessor.go: Commit"]}
{"id": "C02", "title": "Rollback reports the element that preceded the checkpoint", "statement": "Rollback returns the element most recently returned by Next at the moment the restored checkpoint was set (this is what the parser installs as its current token).", "quantifier": "every stream and every history of operations in which that element exists", "why_tests_cant": "only particular interleavings of draining the replay buffer with no open checkpoint make the remembered element stale", "anchors": ["engines/yayamls/pkg/cpaccessor/accessor.go: CheckpointingAccessor.Rollback", "engines/yayamls/parser/parser.go: rollback"]}
{"id": "C03", "title": "Tokenisation loses no input", "statement": "The texts (Origin) of the tokens produced for a source, concatenated in order up to the first end-of-input token, are exactly the characters of the source, even if raw mode is switched on and off between any two tokens.", "quantifier": "every source text and every schedule of SetRawMode/UnsetRawMode between Next calls", "why_tests_cant": "the tokenizer has seven context modes with lookahead and lookbehind; a dropped or duplicated character in one mode combination is invisible to sample inputs", "anchors": ["engines/yayamls/lexer/tokenizer.go: Tokenizer.Next", "engines/yayamls/lexer/context.go: matchSpecialToken"]}
{"id": "C04", "title": "Tokenisation terminates and end-of-input is final", "statement": "Every call of the tokenizer returns, at most length-of-source + 1 calls are needed to reach the end-of-input token, and once it was returned every later call returns it again.", "quantifier": "every source text, every raw mode schedule, any number of calls", "why_tests_cant": "non-termination or a resurrected token can only be excluded by an argument over all inputs", "anchors": ["engines/yayamls/lexer/tokenizer.go: emitToken", "engines/yayamls/lexer/context.go", "engines/yayamls/lexer/rune_stream.go"]}
{"id": "C05", "title": "Token positions never go backwards", "statement": "Successive tokens have positions that never decrease in reading order (row, then column) and a token never starts after it ends.", "quantifier": "every source text and raw mode schedule", "why_tests_cant": "the position bookkeeping is spread over all matching functions, which advance the column themselves; the dead-end detector and the parser error messages key on it", "anchors": ["engines/yayamls/lexer/tokenizer.go: emitToken", "engines/yayamls/lexer/context.go"]}
{"id": "C06", "title": "Memoised character class answers equal direct answers", "statement": "Asking a token whether its text conforms to a character class gives the same answer as evaluating the class predicate on the text, no matter which classes were asked before, in which order and how often.", "quantifier": "every token text and every finite sequence of character class queries", "why_tests_cant": "the cache packs eight three-valued entries into 16 bits; interference between entries depends on the query history", "anchors": ["engines/yayamls/token/bitmap.go: conformationBitmap", "engines/yayamls/token/token.go: Token.ConformsCharSet", "engines/yayamls/yamlchar/charset.go"]}
{"id": "C07", "title": "Bracket balance is decided exactly", "statement": "The balance check used for flow collections reports 'balanced' exactly for the token sequences whose brackets and braces are properly nested and closed, and reports an unmatched closer for good.", "quantifier": "every finite sequence of token types", "why_tests_cant": "nesting is unbounded; properness is an inductive notion", "anchors": ["engines/yayamls/parser/internal/balancecheck/balancecheck.go: BalanceChecker.Add", "IsBalanced", "PeekLastUnbalanced"]}
{"id": "C08", "title": "Backtracking restores the bracket balance", "statement": "Taking a memento of the balance checker, feeding any tokens and restoring the memento leaves the checker answering as if these tokens had never been fed.", "quantifier": "every state reachable by token feeding and every token sequence fed in between", "why_tests_cant": "the memento only keeps the depth and a flag; only some push/pop patterns expose this", "anchors": ["engines/yayamls/parser/internal/balancecheck/balancecheck.go: Memento", "SetMemento", "engines/yayamls/parser/parser.go: setCheckpoint"]}
{"id": "C09", "title": "The parser terminates on every input", "statement": "Parsing returns (with a tree or an error) for every source text.", "quantifier": "every source text, including ill-formed ones", "why_tests_cant": "mutually recursive backtracking parser with unbounded loops; a single non-consuming cycle hangs the process on attacker-controlled input", "anchors": ["engines/yayamls/parser/parser.go: ParseString", "engines/yayamls/parser/documents.go", "engines/yayamls/parser/block.go", "engines/yayamls/parser/flow.go"]}
{"id": "C10", "title": "Successfully parsed trees are well formed", "statement": "A tree returned by the parser without an error contains no failed-parse marker node: collections contain only present entries, mapping entries hold a key and a value, node properties hold only tag/anchor nodes. Decoders rely on this when they visit the tree.", "quantifier": "every source text accepted by the parser", "why_tests_cant": "there are about a hundred production functions returning an 'invalid' marker that every caller must intercept", "anchors": ["engines/yayamls/parser", "engines/yayamls/ast/node.go: ValidNode", "engines/yayamls/decode/reader.go"]}
{"id": "C11", "title": "Parse outcome is a tree or an error, never both, and does not depend on earlier parses", "statement": "ParseString/ParseBytes return a tree exactly when they return no error, and the outcome is a function of the source and the options only, whatever was parsed earlier in the process.", "quantifier": "every source, every option set, every history of earlier parse calls", "why_tests_cant": "the implementation recycles parser, accessor and buffer objects through pools; leaks depend on history", "anchors": ["engines/yayamls/parser/parser.go: parseTokens", "getParser", "engines/yayamls/parser/token_source.go: release"]}
{"id": "C12", "title": "Single quoting round-trips", "statement": "Un-quoting the single-quoted form of a string gives the string back, for every string made of characters that may appear in a single-quoted scalar, and the quoted form is recognised as a single-quoted scalar.", "quantifier": "every string", "why_tests_cant": "unbounded strings; interaction of adjacent quotes", "anchors": ["engines/yayamls/yamlchar/transformations.go: ConvertToYAMLSingleQuotedString", "ConvertFromYAMLSingleQuotedString", "engines/yayamls/yamlchar/chars.go: IsSingleQuotedString"]}
{"id": "C13", "title": "Double quoting round-trips", "statement": "Un-quoting the double-quoted form of a string gives the string back.", "quantifier": "every string", "why_tests_cant": "unbounded strings over the whole of Unicode; the hexadecimal escape path is only exercised by control characters", "anchors": ["engines/yayamls/yamlchar/transformations.go: ConvertToYAMLDoubleQuotedString", "ConvertFromYAMLDoubleQuotedString"]}
{"id": "C14", "title": "Double quoted output is always lexically valid", "statement": "The double-quoted form the encoder writes for a string is accepted by the validity check the parser applies to double-quoted scalars.", "quantifier": "every string", "why_tests_cant": "unbounded strings; the escape tables of the writer and of the checker are independent", "anchors": ["engines/yayamls/yamlchar/transformations.go: escapeCharacter", "engines/yayamls/yamlchar/chars.go: IsDoubleQuotedString", "IsEscapedCharacter"]}
{"id": "C15", "title": "Integers round-trip through their text form", "statement": "The text written for a signed or unsigned integer is classified as an integer and converts back to the same value at every bit size that can hold it, and is rejected at every bit size that cannot.", "quantifier": "every 64-bit signed and unsigned integer, bit sizes 8/16/32/64", "why_tests_cant": "2^64 values times bit sizes", "anchors": ["engines/pkg/schema/schema.go: FromInteger", "ToInteger", "FromUnsignedInteger", "ToUnsignedInteger", "IsInteger"]}
{"id": "C16", "title": "Text classified as integer converts", "statement": "Every plain text classified as a (signed, unsigned) integer converts without a syntax error, to the value that the YAML core schema assigns to it.", "quantifier": "every text", "why_tests_cant": "the classifier is a set of regular expressions, the converter is a base-guessing number parser", "anchors": ["engines/pkg/schema/schema.go: IsInteger", "IsUnsignedInteger", "ToInteger", "ToUnsignedInteger"]}
{"id": "C17", "title": "Scalar classes do not overlap", "statement": "No text is classified as two of: null, boolean, integer/float, merge key; integer texts in decimal form are also float texts; and texts written for integers, booleans and null are classified as exactly their own class.", "quantifier": "every text", "why_tests_cant": "the classes are regular languages; disjointness is a statement about all strings", "anchors": ["engines/pkg/schema/schema.go"]}
{"id": "C18", "title": "Tree builder builds exactly the inserted value", "statement": "Inserting a value by the bracketed protocol (scalars, StartSequence..EndSequence, StartMapping key value..EndMapping) yields, without error, exactly the tree of that value in the same order, for both engines.", "quantifier": "every finite value tree of any depth and width, both engines", "why_tests_cant": "nesting is unbounded; the builder is a stack machine whose behaviour depends on the whole insertion history", "anchors": ["engines/yayamls/encode/builder.go: ASTBuilder", "engines/goyaml/encode/builder.go: ASTBuilder", "encode.go: Inserter"]}
{"id": "C19", "title": "Builder misuse is reported and latched", "statement": "Closing a collection that is not the innermost open one is an error; the first error wins, every later insertion is ignored, and Result reports it and resets the builder to its initial state.", "quantifier": "every history of Inserter calls", "why_tests_cant": "histories are unbounded", "anchors": ["engines/yayamls/encode/builder.go: EndSequence", "EndMapping", "Result", "engines/goyaml/encode/builder.go"]}
{"id": "C20", "title": "A mapping cannot be closed between a key and its value", "statement": "EndMapping called when a key was inserted without a value is reported as an error by both engines and an Encoder never panics on the tree produced without error.", "quantifier": "every insertion history, both engines", "why_tests_cant": "histories are unbounded; the engines implement the rule independently", "anchors": ["engines/yayamls/encode/builder.go: EndMapping", "engines/goyaml/encode/builder.go: EndMapping", "decode.go", "encode.go"]}
{"id": "C21", "title": "Encoding is a function of the tree", "statement": "The text written for a tree is independent of what the same writer wrote before (including failed writes), and the string, bytes and stream variants write the same text.", "quantifier": "every tree and every history of earlier writes on the same writer", "why_tests_cant": "history dependence", "anchors": ["engines/yayamls/encode/writer.go: ASTWriter"]}
{"id": "C22", "title": "Encode then parse gives the tree back", "statement": "Parsing the text written for a tree gives an equivalent tree (same structure and scalar texts).", "quantifier": "every tree built by the encoder", "why_tests_cant": "unbounded trees; composition of writer, tokenizer and backtracking parser", "anchors": ["engines/yayamls/encode/writer.go", "engines/yayamls/lexer", "engines/yayamls/parser"]}
{"id": "C23", "title": "Decoder cursor walks the document in order", "statement": "Decoder calls that follow the shape of a document return exactly its scalars in document order without error, and the collection states handed out report unprocessed items exactly while entries remain.", "quantifier": "every document tree without aliases, any depth and width, both engines", "why_tests_cant": "unbounded trees; the decoder is a resumable visitor over a route stack", "anchors": ["engines/yayamls/decode/reader.go: ASTReader", "engines/yayamls/decode/expected.go", "engines/goyaml/decode/reader.go", "engines/goyaml/decode/expected.go"]}
{"id": "C24", "title": "Decoder errors are sticky and harmless", "statement": "After the decoder reported a fatal error, every later call returns the zero value and the first error stays reported.", "quantifier": "every document, every call history after the error, both engines", "why_tests_cant": "histories are unbounded", "anchors": ["engines/yayamls/decode/reader.go: AddError", "Error", "engines/goyaml/decode/reader.go"]}
{"id": "C25", "title": "Decoding loops terminate after an error", "statement": "The loop 'while the collection state has unprocessed items, decode one item' terminates whatever happens to the decoder inside the body (in particular after a fatal error).", "quantifier": "every document, every nesting of loops, error raised at any point, both engines", "why_tests_cant": "hang on malformed input; requires reasoning about every failing point", "anchors": ["engines/yayamls/decode/reader.go: appendError", "engines/goyaml/decode/reader.go: setFatalError", "generator/decoder.go"]}
{"id": "C26", "title": "Aliases are read once, like the node they stand for", "statement": "Decoding an alias yields the value of the anchored node once, after which decoding continues with the element following the alias.", "quantifier": "every document with aliases at any position, both engines", "why_tests_cant": "position dependence: tests only have an alias in last position", "anchors": ["engines/yayamls/decode/reader.go: VisitAliasNode", "engines/goyaml/decode/reader.go: visitNode"]}
{"id": "C27", "title": "Generic decoding is total and structural", "statement": "Any() returns, for every document, the generic value (nil, bool, number, string, list, string-keyed map) corresponding to the tree, last duplicate key winning.", "quantifier": "every document tree", "why_tests_cant": "unbounded trees; aliases may be cyclic", "anchors": ["engines/yayamls/decode/any.go: anyBuilder", "engines/goyaml/decode/any.go"]}
{"id": "C28", "title": "Explicit keys win over merged keys", "statement": "In generic decoding, a key written in a mapping always has the written value and never the one from a '<<' merge, wherever the merge entry stands; merged keys otherwise appear with their values; earlier merges win over later ones.", "quantifier": "every mapping, every number and position of merge entries", "why_tests_cant": "depends on the relative order of arbitrary many entries", "anchors": ["engines/yayamls/decode/any.go: VisitMappingNode", "mergeMaps", "engines/goyaml/decode/any.go"]}
{"id": "C29", "title": "Reporting no error changes nothing", "statement": "AddError(nil), which generated code performs after every successful custom unmarshalling, leaves the decoder unchanged.", "quantifier": "every decoder state, both engines", "why_tests_cant": "effects depend on the decoder position; the loss of following elements is silent", "anchors": ["engines/yayamls/decode/reader.go: AddError", "engines/goyaml/decode/reader.go: AddError", "generator/decoder.go"]}
{"id": "C30", "title": "Probing for null does not disturb decoding", "statement": "TryNull returning false leaves the decoder such that the following call gives the result it would have given without the probe; returning true it consumes exactly the null.", "quantifier": "every decoder position and every following call", "why_tests_cant": "generated code probes before every value", "anchors": ["engines/yayamls/decode/reader.go: TryNull", "engines/yayamls/decode/expected.go: expectNull", "engines/goyaml/decode/reader.go"]}
{"id": "C31", "title": "Skip skips exactly one value", "statement": "Skip moves the decoder past exactly the next value, whatever its size, and the following call reads the value after it.", "quantifier": "every document, every skipped subtree", "why_tests_cant": "unbounded subtrees", "anchors": ["engines/yayamls/decode/reader.go: Skip", "engines/goyaml/decode/reader.go: Skip"]}
{"id": "C32", "title": "Tree comparison finishes under every schedule", "statement": "The concurrent tree comparison never deadlocks, always stops both producer goroutines, and its answer does not depend on scheduling.", "quantifier": "every pair of trees and every interleaving of the two producers and the consumer", "why_tests_cant": "schedules", "anchors": ["engines/yayamls/ast/astcmp/comparator.go: Comparator.Equal"]}
{"id": "C33", "title": "Tree comparison decides equality of trees", "statement": "Comparing two trees gives 'equal' exactly if they have the same structure and texts.", "quantifier": "every pair of trees", "why_tests_cant": "quantifies over all tree shapes", "anchors": ["engines/yayamls/ast/astcmp/comparator.go: compareNodes", "engines/yayamls/ast/astcmp/comparator.go: Equal"]}
{"id": "C34", "title": "Extracting raw YAML leaves the document intact", "statement": "Raw() of the goyaml engine temporarily rewrites the node graph and restores it: afterwards every node of the document has the content and anchor it had before.", "quantifier": "every node graph with shared aliased nodes", "why_tests_cant": "sharing patterns are unbounded", "anchors": ["engines/goyaml/decode/raw.go: rawTransformer"]}
{"id": "C35", "title": "Generated function names are unique and stable", "statement": "During one generation run, two different Go types never get the same generated function name and one type always gets the same name, whatever the order and number of requests.", "quantifier": "every sequence of name requests over every set of types", "why_tests_cant": "collision handling depends on the request history", "anchors": ["generator/generator.go: generateFunctionName"]}
{"id": "C36", "title": "Import aliases are unique and stable", "statement": "Two different package paths never get the same import alias in a generated file and a path keeps its alias.", "quantifier": "every sequence of alias requests", "why_tests_cant": "history dependence", "anchors": ["generator/generator.go: pkgAlias"]}
{"id": "C37", "title": "Every reachable type is generated exactly once", "statement": "The generator run ends with a decoder/encoder emitted exactly once for each type that was registered or discovered on the way.", "quantifier": "every finite type reference graph, including cyclic ones", "why_tests_cant": "graphs are unbounded and may be cyclic", "anchors": ["generator/generator.go: Run", "addType"]}
{"id": "C38", "title": "Outer struct fields shadow embedded ones", "statement": "In the list of YAML fields of a struct each field name occurs once; a field declared in the struct wins over an embedded one with the same name.", "quantifier": "every struct type with any nesting of embedded structs", "why_tests_cant": "nesting is unbounded", "anchors": ["generator/generator.go: getStructFields", "mergeStructFields"]}
{"id": "C39", "title": "Generated code round-trips values", "statement": "Decoding with the generated decoder the tree built by the generated encoder gives the encoded value back.", "quantifier": "every modelled type and every value of it, both engines", "why_tests_cant": "types and values are unbounded; two code generators must agree", "anchors": ["generator/encoder.go", "generator/decoder.go"]}
{"id": "C40", "title": "A fixed-size array consumes exactly its sequence", "statement": "Decoding a sequence into a fixed-size array leaves the decoder after the sequence, whatever its length.", "quantifier": "every array size and sequence length", "why_tests_cant": "length mismatch desynchronises everything after", "anchors": ["generator/decoder.go: generateDecoderBodyWithoutCheck"]}
{"id": "C41", "title": "A failed generation never leaves the output half written", "statement": "At every point where the generation pipeline may fail or crash, the output file holds its previous content, the compilable stub or the complete result.", "quantifier": "every crash/failure point of the pipeline", "why_tests_cant": "crash points", "anchors": ["generator/bootstrap/generator.go: Generator.Generate"]}
{"id": "C42", "title": "Nested flow collections are accepted at every depth", "statement": "A properly nested flow sequence is parsed without error at any depth.", "quantifier": "every nesting depth", "why_tests_cant": "the dead-end detector counts backtracking attempts, which grow with depth", "anchors": ["engines/yayamls/parser/internal/deadend/finder.go", "engines/yayamls/parser/flow.go"]}
{"id": "C43", "title": "A second document is reported", "statement": "Inserting anything after the document is complete is reported as an error instead of silently discarding the finished document.", "quantifier": "every insertion history", "why_tests_cant": "whether the document is complete depends on the whole history", "anchors": ["engines/yayamls/encode/builder.go: insertNode", "engines/goyaml/encode/builder.go: insertNode"]}
{"id": "C44", "title": "Quoted scalars decode generically as strings", "statement": "Any() of a quoted scalar is the string between the quotes, never a number, boolean, time or null.", "quantifier": "every quoted scalar text", "why_tests_cant": "unbounded set of texts; whether a text looks like a number depends on all of its characters", "anchors": ["engines/yayamls/decode/any.go: extractAnyValueFromText"]}
{"id": "C45", "title": "No sequence of decoder calls panics", "statement": "On every well-formed document, every sequence of decoder calls and collection state calls, in any order and whether they fit the document or not, returns without a panic.", "quantifier": "all documents, all call sequences, both error modes, both engines", "why_tests_cant": "There are infinitely many documents and call orders; a panic hides in a combination such as a mode flag and an empty value at an unexpected place.", "anchors": ["engines/yayamls/decode/reader.go:272-298", "engines/yayamls/decode/reader.go:432-457", "engines/goyaml/decode/reader.go"]}
{"id": "C46", "title": "A failing decoder call returns the zero value", "statement": "Every reading call during which an error is recorded (fatal or, in multi-error mode, a denied value) returns the zero value of its type, never a value read earlier.", "quantifier": "all documents, all call sequences, both error modes, both engines", "why_tests_cant": "Whether a stale value leaks depends on the whole history of calls and on the kind of node met.", "anchors": ["engines/yayamls/decode/reader.go:163-270", "engines/yayamls/decode/reader.go:432-457", "engines/goyaml/decode/reader.go"]}
{"id": "C47", "title": "Names of generated functions are Go identifiers", "statement": "Every name the generator picks for a decoding or encoding function consists of letters and digits only, so that the generated file is accepted by the compiler.", "quantifier": "every package path and type name, both kinds of functions, every numeric suffix", "why_tests_cant": "Go identifiers may use any Unicode letter; the names are built from arbitrary package paths.", "anchors": ["generator/generator.go: functionName", "generator/generator.go: joinFunctionNameParts", "generator/generator.go: safeTypeName"]}
{"id": "C48", "title": "Scalar classification is that of the YAML core schema", "statement": "A plain text is classified as null, boolean (of a value), integer or float exactly if the YAML 1.2 core schema resolves it so (decimal integers being floats, too).", "quantifier": "every text", "why_tests_cant": "the classes are infinite regular languages", "anchors": ["engines/pkg/schema/schema.go: IsNull", "IsBoolean", "IsInteger", "IsFloat"]}
{"id": "C49", "title": "Generated code refers to the fields it was generated for", "statement": "For each field in the list the generator computes for a struct, the Go selector with that name denotes this very field (so that decoded values go to, and encoded values come from, the field whose type and tag were used).", "quantifier": "every struct type with any nesting of embedded and inlined structs", "why_tests_cant": "Go's promotion rules depend on the depths of all fields in an unbounded nesting", "anchors": ["generator/generator.go: getStructFields", "mergeStructFields", "generator/decoder.go: generateStructFieldDecoder", "generator/encoder.go: generateStructFieldEncoder"]}
{"id": "C50", "title": "Escape sequences mean what YAML says", "statement": "The content of a double-quoted scalar is converted to the string it denotes by the YAML 1.2 escape table; unknown escapes are rejected.", "quantifier": "every double-quoted content", "why_tests_cant": "unbounded strings, seventeen escapes plus numeric ones in any position", "anchors": ["engines/pkg/yamlchar/transformations.go: ConvertFromYAMLDoubleQuotedString", "unescapeCharacter"]}
{"id": "C51", "title": "Trees are written as two-space indented block documents", "statement": "The text written for a tree consists of the lines obtained compositionally from the lines of its parts: items behind a dash, entries behind their key, nested lines indented by two columns.", "quantifier": "every tree of any depth", "why_tests_cant": "the writer keeps an indentation counter and pending separators; errors show only for particular nestings", "anchors": ["engines/yayamls/encode/writer.go"]}
{"id": "C52", "title": "A null is one value", "statement": "Generated code which meets a null reads it as the zero value of the type (or refuses it) and reads nothing else of the document.", "quantifier": "every modelled type, every surrounding document", "why_tests_cant": "a missing return shows only when something follows the null", "anchors": ["generator/decoder.go: generateDecoderBodyWithoutCheck"]}
{"id": "C53", "title": "Generated decoders end without a panic", "statement": "A generated decoder returns, without a panic, for every document, whether or not the document has the expected shape.", "quantifier": "every modelled type, every document without aliases", "why_tests_cant": "ill-formed documents are unbounded; loops in generated code ask HasUnprocessedItems, which depends on the error handling of the engine", "anchors": ["generator/decoder.go", "engines/goyaml/decode/reader.go", "engines/yayamls/decode/reader.go"]}
{"id": "C54", "title": "Raw text stands on its own", "statement": "The text returned by Raw() of the goyaml engine has the value of the node, and every alias in it refers to an anchor defined before in the same text, at the node it stood for in the document.", "quantifier": "every acyclic node graph, every node of it", "why_tests_cant": "depends on which anchors were met before; nested, repeated and redefined anchors are unbounded combinations", "anchors": ["engines/goyaml/decode/raw.go", "engines/goyaml/decode/reader.go: Raw"]}
{"id": "C55", "title": "Struct tags are understood as written", "statement": "A tag yaml:\"name,option,option\" gives the field this name and exactly the options omitempty and inline which stand in it; the field is left out exactly if the whole tag is a dash.", "quantifier": "every tag", "why_tests_cant": "tags are arbitrary texts; empty names, repeated commas and the dash with options are easy to miss", "anchors": ["generator/tags.go"]}
{"id": "C56", "title": "Exported fields all have a place in the document", "statement": "The list of fields of a struct consists of its exported fields; those to be inlined are replaced with the fields of their struct types, at any depth, and stay if they have no fields of their own. Nothing is listed besides, and no name is missing.", "quantifier": "every table of types, every struct in it for which the list is found", "why_tests_cant": "embedding may be nested, through pointers and with tags, without bound", "anchors": ["generator/generator.go: getStructFields, mergeStructFields", "generator/tags.go"]}
{"id": "C57", "title": "Printed trees show every node", "statement": "The text printed for a syntax tree has one line per node, in the order of the tree, with the edges of its ancestors before it, as the usual drawing of a tree; types, texts and the shape of the tree can be read back from it. Every tree is printed without a panic.", "quantifier": "every syntax tree", "why_tests_cant": "depends on which ancestors are last among their siblings, for unbounded depth and width", "anchors": ["engines/yayamls/ast/astprint/printer.go"]}
{"id": "C58", "title": "Default output files of different types differ", "statement": "The default name of the output file is the name of the type in snake case; it is accepted as a file name, and different types have different files, which the Go tools do not ignore.", "quantifier": "every name of a type", "why_tests_cant": "names are arbitrary identifiers; upper case, digits and underscores combine without bound", "anchors": ["cmd/yamlygen/main.go: toSnakeCase, generate"]}
{"id": "C59", "title": "Package name and import path are those of the directory", "statement": "The import path found for a directory is that of the module and the path of the directory in it, or the path below src of an entry of GOPATH; the package name is that of its files. The module path is found in every go.mod file which declares one.", "quantifier": "every directory, every go.mod file, every order of iteration over the packages", "why_tests_cant": "the order of a map and the layout of directories and go.mod files cannot be enumerated", "anchors": ["generator/parser/pkgpath.go", "generator/parser/modulepath.go", "generator/parser/parser.go"]}
{"id": "C60", "title": "Generated decoders give documents their meaning", "statement": "Decoding a document into a variable gives the variable the value which the document means for its type: scalars by their text, sequences element by element, mappings key by key with the last value of a repeated key, fields by their names; fields without a key and fields with a null keep their values, unknown keys are skipped if allowed. The order of the keys does not matter for structs.", "quantifier": "every package of types, every type, every document without aliases, every old value of the variable, both engines", "why_tests_cant": "types and documents nest without bound and the old value is arbitrary", "anchors": ["generator/decoder.go", "engines/yayamls/decode/reader.go", "engines/goyaml/decode/reader.go"]}
{"id": "C61", "title": "Block texts are read as the trees they stand for", "statement": "A text of block sequences and mappings, with scalars, collections in brackets, aliases, anchors, tags, comments, blank lines and several documents, is parsed without an error into the trees it stands for; the text stands for one list of trees only.", "quantifier": "every text in the grammar of Spec/BlockText, at every depth and with every indentation, every history of earlier parses, both stream options", "why_tests_cant": "texts nest without bound, and indentation, comments and blank lines combine freely; ambiguity cannot be excluded by examples", "anchors": ["engines/yayamls/parser/parser.go", "engines/yayamls/parser/block.go", "engines/yayamls/parser/flow.go", "engines/yayamls/parser/documents.go", "engines/yayamls/parser/properties.go", "engines/yayamls/lexer/tokenizer.go", "engines/yayamls/lexer/context.go"]}
{"id": "C62", "title": "JSON texts are read with JSON's meaning", "statement": "A JSON text is parsed without an error into the tree of its value: objects as mappings with their pairs in order, arrays as sequences, strings as quoted texts, numbers, booleans and null as bare texts.", "quantifier": "every JSON text in the grammar of Spec/Json, every history of earlier parses", "why_tests_cant": "values nest without bound, and the parser's handling of brackets depends on the white space and on the depth", "anchors": ["engines/yayamls/parser/flow.go", "engines/yayamls/lexer/context.go", "engines/yayamls/lexer/tokenizer.go"]}
{"id": "C63", "title": "Character classes are those of the YAML specification", "statement": "ConformsCharSet accepts exactly the strings which YAML 1.2.2 allows for the class: decimal numbers, words, links and tags with percent escapes, anchors, plain scalars in brackets, and texts in single and double quotes.", "quantifier": "every string, every class", "why_tests_cant": "there are infinitely many strings, and characters range over all of Unicode", "anchors": ["engines/yayamls/yamlchar/chars.go", "engines/yayamls/yamlchar/charset.go"]}
{"id": "C64", "title": "With an anchors keeper the writer writes what aliases stand for", "statement": "With an anchors keeper, aliases to anchors which the document does not contain earlier are written as the trees which the keeper knows, all other parts as without a keeper; the text has no dangling aliases; an alias which nobody knows is an error.", "quantifier": "every implementation and state of the keeper, every tree, every state of the writer", "why_tests_cant": "aliases may stand for trees with further aliases, anchors in written trees change what later aliases mean, and the keeper is an interface with any implementation", "anchors": ["engines/yayamls/encode/writer.go", "engines/yayamls/decode/anchors.go"]}
{"id": "C65", "title": "Sources in UTF-8 are read as they are", "statement": "The rune stream gives the characters of the source in order and the end-of-file mark from then on; each byte at which no character starts is read as U+FFFD, and nothing else is changed. For sources in UTF-8 the texts of the tokens, encoded again, are the bytes of the source.", "quantifier": "every sequence of bytes, every number of calls", "why_tests_cant": "there are infinitely many sources, and the encoding has many special cases (overlong encodings, surrogates, truncated characters)", "anchors": ["engines/yayamls/lexer/rune_stream.go"]}
{"id": "C66", "title": "The bootstrap program hands every setting on", "statement": "The temporary program written by the bootstrap step, read as Go, imports the package of the type, the generator and the chosen engine, and gives the generator exactly the settings of the command line and the type which the stub exports; the stub is a file of that package declaring this type and the two methods with the receivers of the generated ones, under the build tags.", "quantifier": "every combination of settings, whatever characters are in them", "why_tests_cant": "the settings are arbitrary strings put into source code; no finite set of them shows that quoting never breaks out of a literal", "anchors": ["generator/bootstrap/generator.go"]}
{"id": "C67", "title": "The parser invents nothing", "statement": "Whenever the parser reports no error, its tree can be spelled with characters of the source in the order of the source: every bracket, dash, colon, comma, quote, every mark and name of an anchor, alias or tag, and every character of a scalar which is not blank is taken from a place of its own. In particular the texts of the scalars, in document order, form a subsequence of the source, and there are no more anchors, aliases, tags, quoted scalars or entries with a value than marks for them.", "quantifier": "every source and every history of earlier parses in the process", "why_tests_cant": "the parser backtracks with saved token buffers, pools its buffers between parses and caches tokens; duplicated, reordered or stale text can appear in any of unboundedly many combinations of productions", "anchors": ["engines/yayamls/parser/parser.go", "engines/yayamls/parser/flow.go", "engines/yayamls/parser/block.go", "engines/yayamls/parser/documents.go", "engines/yayamls/parser/properties.go", "engines/yayamls/lexer/tokenizer.go"]}
{"id": "C68", "title": "Integer conversion accepts exactly the integer literals of Go", "statement": "ToInteger converts a text exactly if it is an integer literal of Go (decimal, binary, octal with or without the letter, hexadecimal; single underscores between digits or behind the prefix) with an optional sign whose number fits the bit size, to that number; ToUnsignedInteger likewise without a sign. The bit size 0 is the size of int.", "quantifier": "every text and every bit size", "why_tests_cant": "base detection, digit loop and the separate underscore check of the number parser interact; the set of texts is infinite", "anchors": ["engines/pkg/schema/schema.go: ToInteger", "ToUnsignedInteger"]}
{"id": "C69", "title": "The brackets of generated code are closed", "statement": "In every file the generator writes, each opening parenthesis, bracket and brace outside of string literals is closed by its own closing one, and each string literal ends, so that the file has the block structure which is meant.", "quantifier": "every set of types (all kinds, any nesting, methods or not), all options, both engines", "why_tests_cant": "the text is pieced together from fragments on separate code paths, with early returns between an opening and its closing fragment; the types nest without bound, and the existing examples use few combinations", "anchors": ["generator/decoder.go", "generator/encoder.go", "generator/generator.go", "engines/yayamls/engine.go", "engines/goyaml/engine.go"]}
{"id": "C70", "title": "Generated code calls methods on the variable at hand", "statement": "The text which the generator builds for a variable (field, element, value behind a pointer, nested in any way) is read by the grammar of Go as that variable, and a method call written for it is read as a call of the method on that variable.", "quantifier": "every variable reachable through fields, indices and pointers, every method", "why_tests_cant": "operator precedence only matters for particular nestings, of which there are infinitely many; the examples have no pointer to a type with methods", "anchors": ["generator/decoder.go", "generator/encoder.go", "engines/yayamls/engine.go", "engines/goyaml/engine.go"]}
{"id": "C71", "title": "Literals of generated code denote the names of the fields", "statement": "The string literal written for the name of a field, in the switch of the decoder and in the encoder, denotes exactly this name.", "quantifier": "every field name, including those from tags with arbitrary characters", "why_tests_cant": "names come from struct tags and may have any characters; tests have only letters and underscores", "anchors": ["generator/decoder.go", "generator/encoder.go"]}
{"id": "C72", "title": "Variables of generated code have names of their own", "statement": "The names picked for variables are Go identifiers, differ from each other, from all names picked before and from the fixed names of the generated functions.", "quantifier": "every number of variables, every nesting of types", "why_tests_cant": "numbers are followed by suffixes without a separator; a clash would appear for particular numbers only, and nesting is unbounded", "anchors": ["generator/generator.go", "generator/decoder.go", "generator/encoder.go"]}
{"id": "C73", "title": "Type texts of generated code denote the types", "statement": "The text which the generator writes for a type (pointers, slices, arrays, maps, structs without a name with tags and embedded fields, types of any package) denotes exactly this type in the generated file with its import clauses, and the texts of different types differ.", "quantifier": "every type, every history of types written before and after, both engines", "why_tests_cant": "types nest without bound, aliases depend on all types written before, tags have arbitrary characters; a wrong text for a rare combination compiles to another type or not at all", "anchors": ["generator/generator.go: extractTypeName", "escapeTag", "pkgAlias", "generator/decoder.go", "generator/encoder.go"]}
{"id": "C74", "title": "Timestamps are read and written exactly", "statement": "ToTimestamp accepts exactly the timestamps of YAML and converts each to the date, the time and the offset which it denotes; IsTimestamp says whether it succeeds; a text which is accepted is of no other class of scalars; the text of a time is a timestamp which denotes this time.", "quantifier": "every text, every time", "why_tests_cant": "seven layouts are tried in turn and each has its own grammar with optional parts; a layout which never matches, or which matches other texts than meant, is seen only with particular texts", "anchors": ["engines/pkg/schema/schema.go: timestampLayouts", "IsTimestamp", "ToTimestamp", "FromTimestamp"]}
{"id": "C75", "title": "Binary scalars are recognised exactly", "statement": "IsBinary accepts exactly the texts which, without white space and line breaks, are base64 of some bytes (RFC 4648); in particular the text of any bytes, in lines of any length.", "quantifier": "every text, every list of bytes", "why_tests_cant": "whether a text is accepted depends on the lengths of its words modulo four and on the place of the padding; only particular splits into lines show the difference", "anchors": ["engines/pkg/schema/schema.go: base64Regex", "IsBinary"]}
{"id": "C76", "title": "Floats survive their texts", "statement": "The text which FromFloat writes denotes the decimal number of the float, is of the class of floats and of no other class of scalars, and ToFloat converts it back to the same float, infinities and NaN included; texts of the class of floats convert to what they denote, rounded.", "quantifier": "every float, every text of the class of floats, every rounding that takes the shortest digits of a float back to it", "why_tests_cant": "mantissas and exponents of any length; a lost digit, a wrong exponent or a text taken for an integer shows only for particular numbers", "anchors": ["engines/pkg/schema/schema.go: FromFloat", "ToFloat", "IsFloat"]}
{"id": "C77", "title": "Floats of single precision survive as doubles", "statement": "A float32 which generated code writes as a float64 and reads with 32 bits is read as the same float32: rounding the shortest digits of the double directly to single precision gives the single again, without a tie, an underflow or an overflow.", "quantifier": "every float32 including subnormal ones, zeros, the greatest one, infinities and NaN", "why_tests_cant": "four billion floats; errors of double rounding show only in the neighbourhood of midpoints, powers of two and the ends of the range", "anchors": ["generator/encoder.go: primitiveEncoders", "generator/decoder.go: primitiveDecoders", "engines/pkg/schema/schema.go: FromFloat", "ToFloat"]}
{"id": "C78", "title": "Errors are kept and recognised", "statement": "The error of a decoder is nil exactly if no error was recorded; errors.Is finds ErrDenied in it exactly if a value was denied (or an added error says so) and ErrEndOfStream exactly if the document ended too early; an added error, such as that of another decoder or of an unknown field, is found in it; what is found once is found after all further calls.", "quantifier": "all documents including aliases, all histories of calls, both error modes, both engines, all errors passed to AddError", "why_tests_cant": "errors are joined, wrapped and passed from decoder to decoder in any number and order; an error lost or hidden in one of these histories goes unnoticed", "anchors": ["decode.go: ErrDenied, DenyError, UnknownFieldError", "engines/yayamls/decode/reader.go: appendError, AddError, Error", "engines/goyaml/decode/reader.go: appendError, AddError, Error, setFatalError", "engines/yayamls/decode/error.go", "engines/goyaml/decode/error.go"]}
{"id": "C79", "title": "Loops in generated code handle one item per round", "statement": "Generated decoders read every item of a slice, array or map into a place of its own and store it in the same round: appended to the slice, at the next index of the array, under its key in the map, and loop as long as items are left (and, for arrays, elements). Generated encoders insert every item, with key before value, between the start and the end of one sequence or mapping.", "quantifier": "all types of items, all nestings of loops, all indentations and counters of variables, both engines", "why_tests_cant": "code is generated for any type, with loops nested to any depth; a test compiles the code of a few types only", "anchors": ["generator/decoder.go: generateDecoderBodyWithoutCheck", "generator/encoder.go: generateEncoderBodyWithoutCheck", "generator/generator.go: generateVarName"]}
{"id": "C80", "title": "Basic values are read and written by the methods of their kind", "statement": "The line a generated decoder has for a basic value is one call of the decoder with the right width, converted to the type and assigned to the place; that of an encoder one call of the inserter with the value converted to the type of the parameter; both are the calls which the model of the running code makes. Times are timestamps, byte slices strings or null, pointers nil for null and otherwise followed, inside of collections after allocation.", "quantifier": "all basic kinds with all widths, all named types, all places, both engines, all decoders and inserters", "why_tests_cant": "the tables of the generator have an entry per kind; a wrong width or method shows only for types and values no test has", "anchors": ["generator/decoder.go: basicDecoders, customDecoders, generateDecoderBodyWithoutCheck", "generator/encoder.go: basicEncoderFormatStrings, customEncoderFormatStrings"]}
{"id": "C81", "title": "Functions for structs have one case and one block per field", "statement": "The generated decoder of a struct allocates the embedded pointers, loops over the entries of the mapping, passes over nulls, and has one case per field, in order, with the name of the field and the decoder of its type for the place out.Field, and a default which skips or reports unknown keys as the option says. The generated encoder writes one mapping with a block per field, in order: the name, then the value of in.Field; with omitempty behind the check that the value is not empty; with pointer receivers null for nil.", "quantifier": "all structs with any number of fields and embedded pointers, all types of fields, all options, both engines", "why_tests_cant": "code is generated for any struct; a field lost, repeated or moved in the text shows only for structs no test has", "anchors": ["generator/decoder.go: generateStructDecoder, generateStructFieldDecoder", "generator/encoder.go: generateStructEncoder, generateStructFieldEncoder"]}
{"id": "C82", "title": "Methods used by generated code, and fields left out", "statement": "Generated code decodes (encodes) a type by UnmarshalYamly (MarshalYamly) if it has it, otherwise by the method of the engine, otherwise by the method for texts, otherwise by its kind; the type for which the function is generated always by its kind; errors of these methods are passed to AddError. The condition behind which a field with omitempty is written is met exactly by the values which the model of the running code does not leave out.", "quantifier": "all types with all sets of methods, all places, both engines, all values of the type", "why_tests_cant": "types may have any subset of eight methods; the order of preference shows only for types with several", "anchors": ["generator/decoder.go: generateDecoderBody", "generator/encoder.go: generateEncoderBody, generateNotEmptyCheck", "engines/yayamls/engine.go: UnmarshalersImplementationCheck, MarshalersImplementationCheck", "engines/goyaml/engine.go: UnmarshalersImplementationCheck, MarshalersImplementationCheck"]}
{"id": "C83", "title": "Generated code calls only functions which are generated with it", "statement": "The text of a generated file names no decoding or encoding function other than those of the types for which the same run writes functions: if all other types had functions of other names, the same file would be written.", "quantifier": "all types, nested and referring to each other in any way, all options, both engines, all names of functions", "why_tests_cant": "the list of types is found by a walk over the type, the calls are written by another; that both agree for every graph of types is not seen from a few packages which compile", "anchors": ["generator/generator.go: Generate, addType", "generator/decoder.go: generateDecoderBodyWithoutCheck", "generator/encoder.go: generateEncoderBodyWithoutCheck"]}
