{"id": "C01", "title": "Source positions are exact", "statement": "Whatever calls were made on a source buffer, the line:column it reports is 1 + the number of newlines consumed so far and 1 + the number of characters consumed since the last newline. Consequently every token (except the error raised inside a number) carries the line:column of the first character of its own lexeme.", "quantifier": "all source texts, all sequences of buffer reads, all tokens of the file", "why_tests_cant": "the input space is infinite; a test fixes finitely many inputs", "anchors": ["src/buf.rs: Buf::get, Buf::pos, read_set, skip_literal, until_literal, skip_until", "src/lexer.rs: read_token"]}
{"id": "C02", "title": "Tokenisation is lossless", "statement": "Reading one token splits the remaining source into blanks, the lexeme of that token, and the rest: no character is dropped, duplicated or reordered, and the lexeme agrees with the token's kind and content.", "quantifier": "all source texts", "why_tests_cant": "the input space is infinite; a test fixes finitely many inputs", "anchors": ["src/lexer.rs: read_token, read_word, read_number, read_hex, read_string_literal, read_char_literal, read_multiline_comment"]}
{"id": "C03", "title": "Operators are read by longest match", "statement": "When the next lexeme is punctuation, the token returned is the longest operator of the language that is a prefix of the source; `a+++b`, `x<<=1`, `a->b` are never split into shorter operators.", "quantifier": "all source texts that begin with punctuation", "why_tests_cant": "the input space is infinite; a test fixes finitely many inputs; every continuation after the operator matters", "anchors": ["src/lexer.rs: read_token symbols table"]}
{"id": "C04", "title": "Tokenising makes progress and stops", "statement": "Every token other than an 'unexpected character' error consumes at least one character, so reading tokens from any source reaches the end, an error token or a crash after at most length-many reads; an 'unexpected character' error is returned again for ever without consuming anything.", "quantifier": "all source texts", "why_tests_cant": "termination and crash freedom quantify over every input", "anchors": ["src/lexer.rs: read_token, Lexer::get"]}
{"id": "C05", "title": "The lexer never crashes", "statement": "No source text makes the tokenizer abort: malformed text becomes an error token. (False of the code: a source that ends inside a character literal, after a backslash in a string, or after an exponent marker aborts. The exact set of crashing inputs is characterised.)", "quantifier": "all source texts", "why_tests_cant": "the input space is infinite; a test fixes finitely many inputs", "anchors": ["src/lexer.rs: read_number, read_string_literal, read_char_literal unwrap()"]}
{"id": "C06", "title": "Lookahead is transparent", "statement": "Any interleaving of get, peek, peekn, more, follows, eat and unget-of-the-last-token observes one fixed token sequence - the non-comment tokens of the file in order; peeking never changes what is later returned.", "quantifier": "all source texts and all sequences of lexer calls", "why_tests_cant": "quantifies over all call histories", "anchors": ["src/lexer.rs: Lexer::get, unget, peek, peekn, more, follows, eat"]}
{"id": "C07", "title": "Blanks and comments are insignificant", "statement": "Between two tokens, any amount of blanks and comments may be inserted without changing the kinds and contents of the tokens read.", "quantifier": "all token sequences and all layouts", "why_tests_cant": "the input space is infinite; a test fixes finitely many inputs", "anchors": ["src/lexer.rs: read_token, Lexer::get"]}
{"id": "C08", "title": "String literals keep their value", "statement": "The C text emitted for a string literal denotes the same sequence of characters as the literal in the source, including multi-line literals (each line break is a newline character) and literals written as adjacent parts. (False of the code for a backslash before a line break and for parts joined across a numeric escape.)", "quantifier": "all string contents", "why_tests_cant": "the input space is infinite; a test fixes finitely many inputs", "anchors": ["src/lexer.rs: read_string_literal", "src/format_c.rs: format_literal"]}
{"id": "C09", "title": "Number and character literals are copied verbatim", "statement": "A number or character literal reaches the C output with exactly its source spelling, and a decimal literal with an exponent is one token. (False for exponents with an explicit plus sign: 1e+5 is split in three.)", "quantifier": "all literals", "why_tests_cant": "the input space is infinite; a test fixes finitely many inputs", "anchors": ["src/lexer.rs: read_number, read_hex, read_char_literal", "src/format_c.rs: format_literal"]}
{"id": "C10", "title": "Import names resolve by rule", "statement": "An import ending in .c denotes the file relative to the importing file's directory, any other import denotes <home>/lib/<name>.c; it fails exactly when that file does not exist, and the namespace is the file's base name without .c.", "quantifier": "all importing paths, import names, file systems", "why_tests_cant": "the input space is infinite; a test fixes finitely many inputs", "anchors": ["src/resolve.rs: resolve_import, basename"]}
{"id": "C11", "title": "Import loops are reported, and loading stops", "statement": "If following imports from the main file can reach a cycle of paths the build fails with an 'import loop' error; if it cannot (and all files are readable) loading terminates and succeeds.", "quantifier": "all finite import graphs", "why_tests_cant": "quantifies over all graphs, including unbounded depth", "anchors": ["src/build.rs: load_tree"]}
{"id": "C12", "title": "Dependencies come first", "statement": "In the module list every module appears after all modules it imports, and the main module is last.", "quantifier": "all acyclic import graphs", "why_tests_cant": "all graph shapes (diamonds, deep chains)", "anchors": ["src/build.rs: load_tree, uniq, parse_project"]}
{"id": "C13", "title": "Each reachable module is compiled exactly once", "statement": "The module list contains exactly the paths reachable from the main file through imports, with no path twice.", "quantifier": "all acyclic import graphs", "why_tests_cant": "all graph shapes", "anchors": ["src/build.rs: load_tree, uniq, parse_project"]}
{"id": "C14", "title": "Global names of different modules never clash", "statement": "The C names generated for exported elements are different whenever the module or the element name is different.", "quantifier": "all projects, all pairs of modules and names", "why_tests_cant": "quantifies over all pairs of names in all projects", "anchors": ["src/build.rs: parse_project uniqid", "src/translator.rs: nsprefix"]}
{"id": "C15", "title": "Generated names are valid C identifiers", "statement": "If an exported element has an identifier for a name, its generated C name is an identifier too. (False for modules whose file name is not itself an identifier, such as a-b.c.)", "quantifier": "all module file names and element names", "why_tests_cant": "the input space is infinite; a test fixes finitely many inputs", "anchors": ["src/build.rs: parse_project uniqid", "src/translator.rs: nsprefix"]}
{"id": "C16", "title": "Link libraries", "statement": "The linker is given libm first and then every #link library of every module of the project, each one once, in order of first mention.", "quantifier": "all projects", "why_tests_cant": "the input space is infinite; a test fixes finitely many inputs", "anchors": ["src/build.rs: build_prog link", "src/translator.rs: translate link"]}
{"id": "C17", "title": "Expressions are parsed by precedence", "statement": "The parser accepts an expression token sequence and builds a tree exactly as the declared grammar says: postfix binds tighter than prefix, then * / %, + -, shifts, comparisons, equality, & ^ | && ||, assignment; binary operators associate to the left; parentheses override.", "quantifier": "all expression trees and token sequences", "why_tests_cant": "all nestings, unbounded depth", "anchors": ["src/parser.rs: parse_expr, parse_seq_expr, parse_prefix_expr, base, operator_strength"]}
{"id": "C18", "title": "Parsing terminates", "statement": "For every token sequence the parser stops. (False of the code: a function body that is not closed before the end of the file makes it loop for ever. Everything else terminates.)", "quantifier": "all token sequences", "why_tests_cant": "termination is not testable", "anchors": ["src/parser.rs: read_body, parse_module"]}
{"id": "C19", "title": "The parser never crashes", "statement": "Malformed input is reported as an error, never by aborting. (False of the code: many truncated inputs and `a ~ b` abort.)", "quantifier": "all token sequences", "why_tests_cant": "the input space is infinite; a test fixes finitely many inputs", "anchors": ["src/parser.rs: peek().unwrap(), operator_strength"]}
{"id": "C20", "title": "No module comes out of a file with errors", "statement": "If any statement of a file fails to parse, the whole parse fails and every recorded error is returned; a parsed module accounts for every token of the file. (The last part and the failure are true; errors recorded inside a statement that then fails as a whole are lost.)", "quantifier": "all token sequences", "why_tests_cant": "the input space is infinite; a test fixes finitely many inputs", "anchors": ["src/parser.rs: parse_module, read_body"]}
{"id": "C21", "title": "A module exports exactly its pub declarations", "statement": "The names importable from a module are exactly the enum constants, functions, typedefs and struct typedefs declared pub. (False for `pub typedef struct x y;`, which is not exported.)", "quantifier": "all modules", "why_tests_cant": "the input space is infinite; a test fixes finitely many inputs", "anchors": ["src/parser.rs: get_exports", "src/nodes.rs: exports_has"]}
{"id": "C22", "title": "Comparisons have type bool", "statement": "A comparison that type-checks has type bool. (False of the code for two bools.)", "quantifier": "all pairs of types", "why_tests_cant": "the input space is infinite; a test fixes finitely many inputs", "anchors": ["src/types.rs: typeof_cmp"]}
{"id": "C23", "title": "Arithmetic typing", "statement": "Arithmetic on two numeric operands type-checks, never crashes, gives the type of one of the operands - the wider one for two operands of equal class - and does not depend on the order of operands up to width. (+ and - with a constant on the right are a counterexample in the code.)", "quantifier": "all pairs of types", "why_tests_cant": "the input space is infinite; a test fixes finitely many inputs", "anchors": ["src/types.rs: typeof_arith, typeof_plusminus, widest_type, typesize"]}
{"id": "C24", "title": "Dereferencing an address gives the type back", "statement": "The type of *&x is the type of x. (False of the code when x is an array or a function.)", "quantifier": "all types", "why_tests_cant": "the input space is infinite; a test fixes finitely many inputs", "anchors": ["src/types.rs: typeof_addr, typeof_deref"]}
{"id": "C25", "title": "Calls are checked for arity", "statement": "A call of a function whose type is known is accepted only with exactly the declared number of arguments, or at least that number if it is variadic; and has the declared return type.", "quantifier": "all function types and argument lists", "why_tests_cant": "the input space is infinite; a test fixes finitely many inputs", "anchors": ["src/translator.rs: typeof_call, typefrom_funcdecl"]}
{"id": "C26", "title": "Identifiers resolve to the innermost declaration", "statement": "An identifier refers to the declaration in the innermost enclosing scope that declares it; the translator prefixes it with the module id exactly when that declaration is an exported module element.", "quantifier": "all scope stacks and names", "why_tests_cant": "all nestings", "anchors": ["src/translator.rs: find_binding, mark_binding_use, tr_nsid, add_binding"]}
{"id": "C27", "title": "Unused and undefined names are rejected", "statement": "A module translates only if every private function, constant, variable and parameter is used and every unqualified identifier is declared in scope or built in.", "quantifier": "all modules", "why_tests_cant": "the input space is infinite; a test fixes finitely many inputs", "anchors": ["src/translator.rs: end_scope, mark_binding_use, tr_nsid"]}
{"id": "C28", "title": "Only exported elements are reachable from other modules", "statement": "A qualified name m.x translates only if the imported module exports x, and its C name is then the one the module itself uses to define x; an import that is never used is rejected.", "quantifier": "all projects", "why_tests_cant": "the input space is infinite; a test fixes finitely many inputs", "anchors": ["src/translator.rs: tr_nsid, tr_typename, translate"]}
{"id": "C29", "title": "A function that must return a value cannot fall off its end", "statement": "If a function with a non-void result is accepted then no execution of its body reaches the end without returning. (False of the code: if without else, while, and pointers-to-pointers to void are accepted.)", "quantifier": "all function bodies, all executions", "why_tests_cant": "quantifies over all executions of all bodies", "anchors": ["src/node_queries.rs: body_returns", "src/translator.rs: tr_func_decl"]}
{"id": "C30", "title": "Declaration lists expand one by one", "statement": "A parameter or field list `T a, *b, c[3]` yields exactly one C parameter or field per declared name, in order, each with the common type and its own form.", "quantifier": "all declaration lists", "why_tests_cant": "the input space is infinite; a test fixes finitely many inputs", "anchors": ["src/translator.rs: tr_func_params, tr_struct_typedef", "src/parser.rs: parse_function_parameter, parse_type_and_forms"]}
{"id": "C31", "title": "Every function is declared before any function body", "statement": "In the emitted C module each function other than main has a prototype identical to its definition, and all prototypes, types, macros and variables precede all function bodies.", "quantifier": "all modules", "why_tests_cant": "the input space is infinite; a test fixes finitely many inputs", "anchors": ["src/translator.rs: tr_func_decl, reorder_elems, translate"]}
{"id": "C32", "title": "Reordering loses nothing", "statement": "Emitted module elements are the translated elements in stable group order; the only elements removed are typedefs and struct definitions whose text equals an earlier one's.", "quantifier": "all element lists", "why_tests_cant": "the input space is infinite; a test fixes finitely many inputs", "anchors": ["src/translator.rs: reorder_elems"]}
{"id": "C33", "title": "Private means static", "statement": "A function is emitted with `static` exactly when it is neither pub nor main; module variables are always static.", "quantifier": "all functions", "why_tests_cant": "the input space is infinite; a test fixes finitely many inputs", "anchors": ["src/translator.rs: tr_func_decl", "src/format_c.rs: fmt_func_def, fmt_forward_func, format_module"]}
{"id": "C34", "title": "Importing a module brings in exactly its public interface", "statement": "The declarations injected for the imports are the public typedefs, structs, enums, prototypes and macros of the imported C modules, each key once, never a definition or a private element.", "quantifier": "all projects", "why_tests_cant": "the input space is infinite; a test fixes finitely many inputs", "anchors": ["src/translator.rs: get_module_synopsis, expand_imports, get_obj_key"]}
{"id": "C35", "title": "switch never falls through", "statement": "Executing the C emitted for a switch runs exactly the body of the case that lists the value (or default, or nothing), whatever the order of cases and the shape of the bodies.", "quantifier": "all switch statements, all values, all executions", "why_tests_cant": "all executions of all bodies", "anchors": ["src/translator.rs: mk_old_switch", "src/format_c.rs: fmt_switch"]}
{"id": "C36", "title": "switch str selects by string equality", "statement": "The code emitted for switch str runs the body of the first case that lists a string equal to the value, else default. (The value expression is evaluated once per comparison, so this holds for side-effect free values only.)", "quantifier": "all switch str statements, all values, all executions", "why_tests_cant": "all executions", "anchors": ["src/translator.rs: mk_str_switch, mk_switchstr_cond, mk_switchstr_else"]}
{"id": "C37", "title": "panic never returns", "statement": "The code emitted for a panic statement prints the position and the message to stderr and exits with status 1; no statement after it runs.", "quantifier": "all panic statements and contexts", "why_tests_cant": "the input space is infinite; a test fixes finitely many inputs", "anchors": ["src/translator.rs: mk_panic, tr_body"]}
{"id": "C38", "title": "calloc! returns memory or exits", "statement": "calloc!(n, s) calls calloc with the same arguments, returns its result if it is not NULL and otherwise exits with status 1; the helper is defined, before its first use, in every module that uses it and only there.", "quantifier": "all modules, all executions", "why_tests_cant": "the input space is infinite; a test fixes finitely many inputs", "anchors": ["src/translator.rs: tr_call, mk_calloc_or_panic, translate"]}
{"id": "C39", "title": "Emitted expressions keep their structure", "statement": "Reading the emitted C text of an expression with the C grammar gives back the tree that was translated. (False of the code: a - (b - c), (*p)[i], (*p)++, -(-x), ((T)x)->f lose their parentheses. Characterised exactly where it holds.)", "quantifier": "all expression trees", "why_tests_cant": "all nestings, unbounded depth", "anchors": ["src/format_c.rs: fmt_expr, format_binary_op"]}
{"id": "C40", "title": "Nested if/else keeps its pairing", "statement": "Every branch and loop body is emitted in braces, so in the C text each else belongs to the if it was written for.", "quantifier": "all statement nestings", "why_tests_cant": "the input space is infinite; a test fixes finitely many inputs", "anchors": ["src/format_c.rs: format_statement, format_body"]}
{"id": "C41", "title": "Translation preserves statement behaviour", "statement": "Running a translated body step by step gives the same outcome (normal end, break, continue, return value, exit) and the same effects as running the source body, for any expression semantics respected by the expression translation.", "quantifier": "all bodies, all initial states, all executions", "why_tests_cant": "all executions of all programs", "anchors": ["src/translator.rs: tr_body, tr_if, tr_for, tr_while, tr_switch, tr_return"]}
{"id": "C42", "title": "The test runner's exit status tells the truth", "statement": "che test exits with a non-zero status if and only if some test failed. (False of the code: tests that fail to build are not counted, and 256 failures wrap to status 0.)", "quantifier": "all outcomes of all test sets", "why_tests_cant": "the input space is infinite; a test fixes finitely many inputs", "anchors": ["src/main_test.rs: run, run_arg"]}
{"id": "C43", "title": "Unrelated files do not matter", "statement": "The outcome of a build is determined by the contents of the files reachable from the main file (and the existence of the imported paths); changing any other file changes nothing.", "quantifier": "all file systems that agree on the reachable files", "why_tests_cant": "relational property over pairs of file systems", "anchors": ["src/build.rs: parse_project"]}
{"id": "C44", "title": "Concurrent runs do not interfere", "statement": "Two `che run` processes each execute the program they built. (False of the code: both build into the same path.)", "quantifier": "all interleavings of two processes", "why_tests_cant": "all schedules", "anchors": ["src/main_run.rs: run"]}
{"id": "C45", "title": "Type names are known before parsing", "statement": "The pre-parser reports every type name that a typedef or #type line of the file declares and every import, in source order, and rejects a file with a lexical error outside typedefs. (A stray character inside a typedef makes it loop for ever.)", "quantifier": "all source texts", "why_tests_cant": "the input space is infinite; a test fixes finitely many inputs", "anchors": ["src/preparser.rs: preparse, get_typename, skip_brackets"]}
{"id": "C46", "title": "Hexadecimal output can be read back", "statement": "Writing bytes through the hex encoder produces two hexadecimal digits per byte that decode to the same bytes, and reports the number of characters written.", "quantifier": "all byte strings", "why_tests_cant": "the input space is infinite; a test fixes finitely many inputs", "anchors": ["lib/enc/hex.c"]}
{"id": "C47", "title": "URL encoding can be read back", "statement": "The URL encoder writes a text whose percent-decoding is the input string, and never reports an error for a destination that accepts everything.", "quantifier": "all byte strings without NUL", "why_tests_cant": "the input space is infinite; a test fixes finitely many inputs", "anchors": ["lib/enc/urlencode.c"]}
{"id": "C48", "title": "Fixed-width integers round-trip", "statement": "Integers written with a given byte order are read back as the same value by the reader of the same width and order; the bytes are those of that byte order. (Short input for 3 and 4 byte reads stores a wrong value before reporting failure.)", "quantifier": "all values, all streams", "why_tests_cant": "all 2^32 values and all streams", "anchors": ["lib/enc/endian.c"]}
{"id": "C49", "title": "Bit streams keep every bit in order", "statement": "Closing a bit writer successfully means the destination holds exactly the bits written, in the chosen order, padded with fewer than eight zeros; a bit reader over a file returns exactly its bits and then -1 for ever. (Over a memory buffer the end is not detected.)", "quantifier": "all bit sequences, all byte strings, both orders", "why_tests_cant": "the input space is infinite; a test fixes finitely many inputs", "anchors": ["lib/bits.c"]}
{"id": "C50", "title": "LZW compression loses nothing", "statement": "Decompressing what the compressor wrote gives the original data. (False of the code for some inputs, where the decoder panics at the end code; never wrong data; always right if a zero byte is appended.)", "quantifier": "all data over alphabets of up to 256 symbols, any length, any number of dictionary resets", "why_tests_cant": "the input space is infinite; a test fixes finitely many inputs", "anchors": ["lib/compress/lzw.c: compress, decodeinto, decode"]}
{"id": "C51", "title": "LZW emits greedy codes", "statement": "The compressed stream is the sequence of codes of greedy parsing with the growing dictionary, each in the width given by the size of the dictionary, followed by the end code and fewer than eight zero bits.", "quantifier": "all data", "why_tests_cant": "the input space is infinite; a test fixes finitely many inputs", "anchors": ["lib/compress/lzw.c: compress, match, codewidth"]}
{"id": "C52", "title": "A map holds the last value of each key", "statement": "Reading a key of a map gives the value last assigned to it or nothing; its size is the number of different keys; iteration shows each key once, in the order of first assignment.", "quantifier": "all histories of assignments", "why_tests_cant": "the input space is infinite; a test fixes finitely many inputs", "anchors": ["lib/clip/map.c"]}
{"id": "C53", "title": "A hash map holds the last value of each key", "statement": "Reading a key of a hash map gives the value last assigned to it or nothing, however often the map has grown. (False of the code for the empty key and for keys whose values change their length.)", "quantifier": "all histories of assignments", "why_tests_cant": "the input space is infinite; a test fixes finitely many inputs", "anchors": ["lib/clip/map2.c"]}
{"id": "C54", "title": "A string table holds the last string of each name", "statement": "Reading a name gives the string last assigned to it or nothing.", "quantifier": "all histories of assignments", "why_tests_cant": "the input space is infinite; a test fixes finitely many inputs", "anchors": ["lib/clip/stringtable.c"]}
{"id": "C55", "title": "A buffer is a queue of bytes", "statement": "Any sequence of writes and reads of a buffer returns what a queue of bytes would return.", "quantifier": "all sequences of calls", "why_tests_cant": "the input space is infinite; a test fixes finitely many inputs", "anchors": ["lib/clip/buffer.c"]}
{"id": "C56", "title": "Vectors and linked lists hold what was added, in order", "statement": "Item i of a vector is the i-th one added, through any number of reallocations; appending to a linked list adds at the end; removing takes out the first matching node only.", "quantifier": "all sequences of calls", "why_tests_cant": "the input space is infinite; a test fixes finitely many inputs", "anchors": ["lib/clip/vec.c", "lib/clip/llist.c"]}
{"id": "C57", "title": "String functions do what they say", "statement": "starts_with, ends_with, casecmp, trim, rtrim, split, allupper and the digit functions do what their comments say. (False of ends_with, which ignores the first character of the suffix, and of trim for vertical tabs and form feeds at the end.)", "quantifier": "all strings", "why_tests_cant": "the input space is infinite; a test fixes finitely many inputs", "anchors": ["lib/strings.c"]}
{"id": "C58", "title": "A string builder holds the concatenation", "statement": "A builder holds the concatenation of what was added since it was last cleared, followed by NUL. (Formatted text is cut at 999 bytes.)", "quantifier": "all sequences of calls", "why_tests_cant": "the input space is infinite; a test fixes finitely many inputs", "anchors": ["lib/strbuilder.c"]}
{"id": "C59", "title": "SHA-1 computes SHA-1", "statement": "Adding the bytes of a message one by one and ending gives the SHA-1 digest of FIPS 180-4; the formatted digest is its hexadecimal form; a finished sum refuses more. (False of the code for the empty message, which is never initialised, and for 2 GiB and more.)", "quantifier": "all messages", "why_tests_cant": "the input space is infinite; a test fixes finitely many inputs", "anchors": ["lib/crypt/sha1.c"]}
{"id": "C60", "title": "MD5 computes MD5", "statement": "The digest of a buffer is its MD5 digest after RFC 1321, including the table of sines; the printed digest is its hexadecimal form; md5_eq is equality. (False of the code for messages with a byte 0xFF, where the message ends for it.)", "quantifier": "all messages", "why_tests_cant": "the input space is infinite; a test fixes finitely many inputs", "anchors": ["lib/crypt/md5.c"]}
{"id": "C61", "title": "A memory file behaves like a file", "statement": "Any sequence of writes, reads, rewinds, resets and tells of a memory file returns what a file with a position would return. (False of the code: memgetc takes 0xFF for the end, memprintf writes nothing.)", "quantifier": "all sequences of calls", "why_tests_cant": "the input space is infinite; a test fixes finitely many inputs", "anchors": ["lib/mem.c"]}
{"id": "C62", "title": "The translator never crashes", "statement": "Files that load and parse never make the translator crash. (False of the code: a name declared twice in a scope, an imported type used as a value, an array key that is not a plain name, <<= and >>=, an empty switch str and a #define without a value all panic. These are all the ways.)", "quantifier": "all projects", "why_tests_cant": "the input space is infinite; a test fixes finitely many inputs", "anchors": ["src/translator.rs:113-1672"]}
{"id": "C63", "title": "What is translated is printed", "statement": "Printing a translated project never crashes and writes one C file for each module.", "quantifier": "all projects", "why_tests_cant": "the input space is infinite; a test fixes finitely many inputs", "anchors": ["src/build.rs:32-79", "src/build.rs:222-242", "src/format_c.rs:5-26"]}
{"id": "C64", "title": "deptree prints the tree of imports", "statement": "For a project without errors, che deptree ends, prints the tree of the imports of the main file (every import of a file once below it, in the order of the text, indented by its depth) and nothing else, and has status 0; otherwise it reports the errors with status 1.", "quantifier": "all projects", "why_tests_cant": "the input space is infinite; a test fixes finitely many inputs", "anchors": ["src/main_deptree.rs"]}
{"id": "C65", "title": "exports lists what files export", "statement": "che exports prints for each file its path, its pub constants, types and functions, in the order of the text, the functions in Che syntax; it stops with status 1 at the first file with errors. (False of the code: the names of a parameter group are run together, and ... alone is preceded by a comma.)", "quantifier": "all projects", "why_tests_cant": "the input space is infinite; a test fixes finitely many inputs", "anchors": ["src/main_exports.rs", "src/format_che.rs:122-140"]}
{"id": "C66", "title": "The executable is named after the source", "statement": "che build SRC puts the executable in the current directory, named as the source file without its extension, and does not write over the source. (False of the code for a source without an extension in the current directory.)", "quantifier": "all paths", "why_tests_cant": "the input space is infinite; a test fixes finitely many inputs", "anchors": ["src/main_build.rs:9-20", "src/main_install.rs:11-18"]}
{"id": "C67", "title": "Status 0 means that the work was done", "statement": "The commands build, install, run and genc end with status 0 exactly if the project has been built (or its C files written), and che ends with status 0 only for a command it knows. (False of the code: an unknown command succeeds; genc without arguments crashes.)", "quantifier": "all arguments and projects", "why_tests_cant": "the input space is infinite; a test fixes finitely many inputs", "anchors": ["src/main.rs:47-58", "src/main_build.rs", "src/main_install.rs", "src/main_run.rs", "src/main_genc.rs"]}
{"id": "C68", "title": "A tokenizer answers for the text at its place", "statement": "Whatever calls are made on a tokenizer of a file or of a string, with buffers large enough, each answer (characters, blanks, names, numbers, literals, positions) is the one for the place in the text that the calls before have reached, and no array is written past its end. (False of a descriptor that delivers a literal in two pieces, and of literals of more than 100 bytes.)", "quantifier": "all texts, all sequences of calls", "why_tests_cant": "the input space is infinite; a test fixes finitely many inputs", "anchors": ["lib/tokenizer.c"]}
{"id": "C69", "title": "JSON texts are read", "statement": "Every JSON text of RFC 8259 is read as the value it stands for. (False of the code: \\n, \\t, \\u and so on are read as the letter; a number of 100 bytes or more overflows a buffer.)", "quantifier": "all texts", "why_tests_cant": "the input space is infinite; a test fixes finitely many inputs", "anchors": ["lib/formats/json.c:232-432"]}
{"id": "C70", "title": "Only JSON texts are read", "statement": "Parsing ends for every text; if it succeeds then the text is JSON and the value is that of the text; otherwise it reports an error. (False of the code: what follows the value is ignored, zeros may come before numbers, any character may follow a backslash.)", "quantifier": "all texts", "why_tests_cant": "the input space is infinite; a test fixes finitely many inputs", "anchors": ["lib/formats/json.c:232-432"]}
{"id": "C71", "title": "JSON texts are written", "statement": "The text written for a value is a JSON text of RFC 8259 that stands for it, and write_string writes a JSON string. (False of the code: line feeds and tabs are written wrong, other control characters and the names of objects as they are.)", "quantifier": "all values", "why_tests_cant": "the input space is infinite; a test fixes finitely many inputs", "anchors": ["lib/formats/json.c:455-570"]}
{"id": "C72", "title": "JSON values survive writing, reading and copying", "statement": "A value that is written and read again, or copied, is the same value; putting a value under a name changes this name only and keeps the order. (False of the code: strings with line feeds or tabs, names with quotes or backslashes; copying a null stops the program.)", "quantifier": "all values", "why_tests_cant": "the input space is infinite; a test fixes finitely many inputs", "anchors": ["lib/formats/json.c"]}
{"id": "C73", "title": "che test reports every test", "statement": "che test runs each file named *.test.c below the directories given, once; its report has a part for each in order, with OK exactly for those that are built and succeed; the last line says OK only if all passed. (False of the code: a test that does not build does not count as a failure.)", "quantifier": "all directories and projects", "why_tests_cant": "the input space is infinite; a test fixes finitely many inputs", "anchors": ["src/main_test.rs"]}
{"id": "C74", "title": "Comma-separated values are read", "statement": "Reading a text of RFC 4180 gives the values of its records, and no array is written past its end. (False of the code: an empty field at the end of a record is lost; a value of 4096 bytes or more overflows a buffer; after a closing quote anything but a comma or a line end makes the reader drop the rest of the text.)", "quantifier": "all texts", "why_tests_cant": "the input space is infinite; a test fixes finitely many inputs", "anchors": ["lib/formats/csv.c:1-111"]}
{"id": "C75", "title": "Comma-separated values are written", "statement": "The lines written for records are a text of RFC 4180 for them and are read back the same. (False of the code: a quote in a value is written with a backslash, which ends the value.)", "quantifier": "all lists of records", "why_tests_cant": "the input space is infinite; a test fixes finitely many inputs", "anchors": ["lib/formats/csv.c:113-137"]}
{"id": "C76", "title": "csv2json prints the records", "statement": "csv2json prints for every record after the header a line with the JSON object that has the values of the record under the names of the header; with -n the names are col0, col1 and so on. (False of the code: names of more than 4 bytes are written past the end of the memory allotted for them.)", "quantifier": "all texts", "why_tests_cant": "the input space is infinite; a test fixes finitely many inputs", "anchors": ["prog/csv2json/csv2json.c"]}
{"id": "C77", "title": "Bencoded data is read", "statement": "With the reader before the bencoding of a value, its calls (type, readnum, strsize, readbuf, key, enter, more, leave) give this value and leave the reader behind it, and skip leaves it there too. (False of the code: values more than ten deep stop the program; integers that do not fit in an int, and the smallest int, overflow; skip never returns from a list whose end is missing.)", "quantifier": "all values", "why_tests_cant": "the input space is infinite; a test fixes finitely many inputs", "anchors": ["lib/formats/bencode.c"]}
{"id": "C78", "title": "Bencoded data is written", "statement": "The calls of the writer write the bencoding of a value, to a file or to a buffer; if there is not enough room then its beginning is written and a call says so. (False of the code: the smallest int overflows.)", "quantifier": "all values, all sizes of the buffer", "why_tests_cant": "the input space is infinite; a test fixes finitely many inputs", "anchors": ["lib/formats/bencode_writer.c"]}
{"id": "C79", "title": "prog/bencode shows bencoded data", "statement": "For a file of bencoded values prog/bencode prints every value: items of lists with their numbers and entries of dictionaries with their keys on lines of their own, a margin for the depth, and for a string that is cut how many bytes are not shown. (False of the code: the number of bytes not shown is one too many.)", "quantifier": "all lists of values", "why_tests_cant": "the input space is infinite; a test fixes finitely many inputs", "anchors": ["prog/bencode/bencode.c"]}
{"id": "C80", "title": "A printed module is read back as its declarations", "statement": "Read by the rules of C for lines, directives, tokens, declarations and functions, the file printed for a module has exactly the elements of the module, in order, each with its names, types, parameters, members and statements, and it cannot be read in another way. (False of the code: a function with the parameters ... alone is printed as (, ...void); an empty enumeration, structure or union is not C.)", "quantifier": "all modules", "why_tests_cant": "the input space is infinite; a test fixes finitely many inputs", "anchors": ["src/format_c.rs: format_module, fmt_enumdef, fmt_func_def, fmt_forward_func, format_union"]}
{"id": "C81", "title": "What is written with a Huffman tree is read back", "statement": "A message over the characters of the text that a tree was built from, written with the tree, is read back with the tree; the file holds the code of the message and fewer than eight zero bits. (False of the code: with a single character nothing is written; for an empty text there is no tree; the filling of the last byte is read as characters.)", "quantifier": "all texts and messages, any order of qsort for equal counts", "why_tests_cant": "the input space is infinite; a test fixes finitely many inputs", "anchors": ["lib/compress/huffman.c:93-238"]}
{"id": "C82", "title": "No code for a text is shorter than that of its Huffman tree", "statement": "The text that a tree is built from has in the code of the tree at most as many bits as in any code that can be decoded.", "quantifier": "all texts, all codes, any order of qsort for equal counts", "why_tests_cant": "the input space is infinite; a test fixes finitely many inputs", "anchors": ["lib/compress/huffman.c:93-130"]}
{"id": "C83", "title": "The words of a Huffman code fit the table of the writer", "statement": "No word of the tree for a text is longer than the 16 places for it in the writer's table. (False of the code for texts of 4181 characters or more.)", "quantifier": "all texts", "why_tests_cant": "the input space is infinite; a test fixes finitely many inputs", "anchors": ["lib/compress/huffman.c:93-130", "lib/compress/huffman.c:185-221"]}
{"id": "C84", "title": "Trees from code lengths have the canonical code", "statement": "The tree made from numbers of words of each length and a list of values gives the values in order the words of the canonical code (RFC 1951, 3.2.2), and it is made whenever these words exist. (False of the code: codes that need more than 512 nodes stop the program.)", "quantifier": "all lists of lengths and values", "why_tests_cant": "the input space is infinite; a test fixes finitely many inputs", "anchors": ["lib/compress/huffman.c:37-88"]}
{"id": "C85", "title": "Runes are converted to and from UTF-8", "statement": "runetochar writes the UTF-8 of a character; get_rune reads at any place of a string the character whose UTF-8 stands there, and gives U+FFFD and one byte where none stands; it reads nothing past the terminator. (False of the code: the three-byte forms of surrogates are read and written; runes from 80000000 are written as one byte.)", "quantifier": "all characters, all strings", "why_tests_cant": "the input space is infinite; a test fixes finitely many inputs", "anchors": ["lib/utf.c:274-353", "lib/utf.c:1504-1546"]}
{"id": "C86", "title": "UTF-8 strings are counted and searched by characters", "statement": "For the UTF-8 of a text runecount gives the number of its characters, utfnlen the number of those that are complete within n bytes, fullrune whether a character is complete, runenlen the number of bytes written for runes; utfrune and utfrrune give the first and the last place of a character, utfutf the first place of a text.", "quantifier": "all texts and characters", "why_tests_cant": "the input space is infinite; a test fixes finitely many inputs", "anchors": ["lib/utf.c:355-399", "lib/utf.c:1548-1586", "lib/utf.c:1624-1727"]}
{"id": "C87", "title": "Case and class of runes", "statement": "The binary searches find the row of the tables that is for a rune, if there is one; upper case runes are those that have another lower case, and the other way round; the two mappings undo each other except for the runes listed; for ASCII the functions agree with the usual ones.", "quantifier": "all runes", "why_tests_cant": "the input space is infinite; a test fixes finitely many inputs", "anchors": ["lib/utf.c:401-1502"]}
{"id": "C88", "title": "Strings of runes are copied, compared and searched", "statement": "The functions runestrcmp, runestrncmp, runestrcpy, runestrncpy, runestrcat, runestrdup and runestrchr do for strings of runes what those of C do for bytes, and utfecpy copies as much of a string as there is room for. (False of the code: the terminator is not copied, and for an empty source memory after it is read; a rune that is not the first is looked for forever; utfecpy copies only the first byte.)", "quantifier": "all strings and buffers", "why_tests_cant": "the input space is infinite; a test fixes finitely many inputs", "anchors": ["lib/utf.c:86-248", "lib/utf.c:1588-1622"]}
{"id": "C89", "title": "Unification finds a most general unifier", "statement": "The function unify of prog/logic returns a substitution exactly if the two terms have a unifier; the solutions of the substitution are the unifiers of the terms, and one of them is most general. (False of the code where a term would have to contain itself, and for functions of one name with different numbers of arguments.)", "quantifier": "all terms with a fixed number of arguments for each function name", "why_tests_cant": "the input space is infinite; a test fixes finitely many inputs", "anchors": ["prog/logic/logic.c:38-137"]}
{"id": "C90", "title": "Terms are read as they are printed", "statement": "The program prog/logic reads every term with names of at most nine letters and at most ten arguments from the text that it prints for it; reading any text ends, with such a term or with an error; what is printed for two terms is NULL or a substitution whose solutions are the unifiers.", "quantifier": "all terms and texts", "why_tests_cant": "the input space is infinite; a test fixes finitely many inputs", "anchors": ["prog/logic/logic.c:27-36", "prog/logic/logic.c:81-95", "prog/logic/logic.c:139-194"]}
{"id": "C91", "title": "Searching finds the first and longest match of an expression", "statement": "If regexec reports a match then the expression matches there and the groups are where they are reported, no match begins earlier and none from the same place is longer; if it reports none there is none; and it comes to an end. (False of the code: expressions that begin with ^ miss lines; the list of threads can be written past its end, or be too short.)", "quantifier": "all expressions that are accepted, all texts and places to begin", "why_tests_cant": "the input space is infinite; a test fixes finitely many inputs", "anchors": ["prog/libregexp9/regexp9.c:784-1150"]}
{"id": "C92", "title": "Expressions are compiled", "statement": "The functions regcomp and regcompnl accept every expression within the limits of nesting, of groups and of classes, and refuse every text that is not an expression; regcomplit accepts every text without backslashes. (Of the language: a dash after [^ makes a range from the end of a line. False of the code: regcomplit drops backslashes.)", "quantifier": "all expressions", "why_tests_cant": "the input space is infinite; a test fixes finitely many inputs", "anchors": ["prog/libregexp9/regexp9.c:225-783"]}
{"id": "C93", "title": "Groups are put into templates", "statement": "After a match regsub writes the template with the groups in it, cut to the room there is, and a terminator. (False of the code: for groups that were not asked for it reads past the array.)", "quantifier": "all expressions, texts, templates and sizes", "why_tests_cant": "the input space is infinite; a test fixes finitely many inputs", "anchors": ["prog/libregexp9/regexp9.c:1152-1205"]}
{"id": "C94", "title": "Options of programs are read as declared", "statement": "opt.parse accepts the arguments that are a line of the declared options with values of their types followed by as many arguments as were asked for, stores those values and returns those arguments, and ends the program with a message for all others; opt.dispatch calls the subcommand of the name given. (False of the code: numbers that the type does not hold have no defined outcome.)", "quantifier": "all declarations and all arguments", "why_tests_cant": "the input space is infinite; a test fixes finitely many inputs", "anchors": ["lib/opt.c:22-245", "lib/opt.c:291-335"]}
{"id": "C95", "title": "URLs are taken apart", "statement": "url.parse gives schema, hostname, port and path of a URL and refuses texts that are no URLs. (False of the code: parts that do not fit their arrays, and texts of more than ten bytes without a colon, are written past the ends of the arrays.)", "quantifier": "all texts", "why_tests_cant": "the input space is infinite; a test fixes finitely many inputs", "anchors": ["lib/url.c:3-51"]}
{"id": "C96", "title": "Files are read line by line", "statement": "linereader.read gives the lines of a file one after another, of any length, the last one with or without a newline. (False of the code: the byte 255 is taken as the end of the file.)", "quantifier": "all files", "why_tests_cant": "the input space is infinite; a test fixes finitely many inputs", "anchors": ["lib/linereader.c:1-47"]}
{"id": "C97", "title": "Tables are printed in columns", "statement": "table.print prints the values pushed in rows of ncols values, each one whole, padded to the width of its column, with a gap after it. (False of the code: the width of a column is that of its widest value plus two only if no value is one or two longer than one seen before it; a last row that is not full is not ended.)", "quantifier": "all tables with a column", "why_tests_cant": "the input space is infinite; a test fixes finitely many inputs", "anchors": ["lib/table.c:1-80"]}
{"id": "C98", "title": "Durations are printed and read", "statement": "time.dur_fmt prints minutes, seconds and milliseconds in the format asked for and says whether they fitted; time.parse_duration reads minutes, seconds and a fraction. (False of the code: more than 2147 seconds overflow, hours are not read, some fractions lose a microsecond, and milliseconds after a comma are not filled up.)", "quantifier": "all durations that are not negative, all texts", "why_tests_cant": "the input space is infinite; a test fixes finitely many inputs", "anchors": ["lib/time.c:83-221"]}
{"id": "C99", "title": "ISO times are printed and read", "statement": "time.parse_iso reads what time.fmt_iso_iso prints; time.iso_tolocal moves a time by the offset of the zone. (False of the code: zones are not printed, zones west of Greenwich are not read, fractions are taken as milliseconds whatever their length, and whole hours have sixty minutes.)", "quantifier": "all times, all texts", "why_tests_cant": "the input space is infinite; a test fixes finitely many inputs", "anchors": ["lib/time.c:22-25", "lib/time.c:212-335"]}
{"id": "C100", "title": "PNG files show the image", "statement": "png.write makes a PNG file (signature, chunks with their CRC-32, zlib data with its Adler-32 checksum) whose picture is the image; in the gray modes it has the gray levels. (False of the code: transparency is written as alpha, white comes out as 254, some gray levels are one too low, and images with more than 256 colours lose colours in the mode with a palette.)", "quantifier": "all images, all modes", "why_tests_cant": "the input space is infinite; a test fixes finitely many inputs", "anchors": ["lib/formats/png.c:18-190", "lib/formats/png.c:192-203", "lib/formats/png.c:242-322"]}
{"id": "C101", "title": "Images are changed where they are asked to be", "statement": "image.set changes one pixel and image.get returns it; fill, clear and apply change all pixels, explode enlarges the image, paste copies the part of a picture that is inside the image. (False of the code: a picture that begins left of or above the image is refused.)", "quantifier": "all images, all places", "why_tests_cant": "the input space is infinite; a test fixes finitely many inputs", "anchors": ["lib/image.c:14-65", "lib/image.c:83-133"]}
{"id": "C102", "title": "BMP files show the image", "statement": "bmp.write makes a BMP file with the size and the colours of the image, and a BMP file shows one picture only.", "quantifier": "all images", "why_tests_cant": "the input space is infinite; a test fixes finitely many inputs", "anchors": ["lib/formats/bmp.c:6-78"]}
{"id": "C103", "title": "PPM files show the image", "statement": "ppm.writeimg makes a PPM file with the size and the colours of the image. (False of the code: on a little-endian machine red and blue are exchanged.)", "quantifier": "all images", "why_tests_cant": "the input space is infinite; a test fixes finitely many inputs", "anchors": ["lib/formats/ppm.c:5-18"]}
{"id": "C104", "title": "HTTP requests are read", "statement": "http.read_request accepts exactly the texts that are requests (a request line and headers, each ended by CR LF, and an empty line), and returns their method, address, version and headers. (False of the code: a request with more than 100 headers is outside of the array.)", "quantifier": "all texts", "why_tests_cant": "the input space is infinite; a test fixes finitely many inputs", "anchors": ["lib/protocols/http.c:202-228", "lib/protocols/http.c:343-372"]}
{"id": "C105", "title": "HTTP requests are written as they are read", "statement": "http.write_request writes the method, the address with the encoded parameters, the version and the headers, so that read_request returns the same request. (False of the code: addresses of 996 bytes and more are cut, large parameters are outside of a buffer, and line ends in values make more headers.)", "quantifier": "all requests", "why_tests_cant": "the input space is infinite; a test fixes finitely many inputs", "anchors": ["lib/protocols/http.c:79-175"]}
{"id": "C106", "title": "HTTP methods and headers are looked up by name", "statement": "http.method_from_string accepts the names of the methods only, and http.get_header returns the value of the first header with the name, whatever its case. (False of the code: the case of header names matters.)", "quantifier": "all names, all requests", "why_tests_cant": "the input space is infinite; a test fixes finitely many inputs", "anchors": ["lib/protocols/http.c:22-27", "lib/protocols/http.c:178-187"]}
{"id": "C107", "title": "HTTP responses are read", "statement": "http.parse_response returns the status, the headers and the body of a response, with a body as long as Content-Length says or up to the end of the text, and refuses all other texts. (False of the code: a byte 255 ends the body, bodies over 1000 bytes are written outside of the array, a response without lengths and Connection compares NULL, a negative length is an empty body, and texts that end after a header are accepted.)", "quantifier": "all responses, all texts", "why_tests_cant": "the input space is infinite; a test fixes finitely many inputs", "anchors": ["lib/protocols/http.c:56-65", "lib/protocols/http.c:189-198", "lib/protocols/http.c:232-339"]}
{"id": "C108", "title": "The web server serves files inside its home directory only", "statement": "webserver answers a request with the file that the path names, and only if that file is inside the home directory; it runs files of cgi-bin only. (False of the code: a server in /srv/www gives away /srv/www-private, and runs /cgi-bin/../x.)", "quantifier": "all requests, all file systems", "why_tests_cant": "the input space is infinite; a test fixes finitely many inputs", "anchors": ["prog/webserver/webserver.c:108-124", "prog/webserver/webserver.c:68-95", "lib/os/fs.c:52-63"]}
{"id": "C109", "title": "Heads of CGI answers are read", "statement": "cgi.parse_head returns the headers of a CGI answer and the position of its body. (False of the code: after an empty value the next line becomes the value, and more than 100 headers are outside of the array.)", "quantifier": "all answers", "why_tests_cant": "the input space is infinite; a test fixes finitely many inputs", "anchors": ["lib/protocols/cgi.c:11-53"]}
{"id": "C110", "title": "The LC-3 emulator executes instructions as the manual says", "statement": "prog/emu/lc3.c executes the instructions and traps of the LC-3 as they are described in Patt and Patel: registers, condition codes, memory, program counter, input and output. (False of the code: JSRR R7 jumps to the address that was just saved, IN of a byte over 127 sets the upper byte, and reading the keyboard status twice loses a key.)", "quantifier": "all instructions, all states", "why_tests_cant": "the input space is infinite; a test fixes finitely many inputs", "anchors": ["prog/emu/lc3.c:116-139", "prog/emu/lc3.c:150-170", "prog/emu/lc3.c:179-363"]}
{"id": "C111", "title": "The LC-3 emulator loads images", "statement": "prog/emu/lc3.c puts the words of an image at its origin, leaves the rest of the memory empty, and refuses images that are longer than the memory. (False of the code: a word 0xFEFF is written after the image, and images that fill the memory are refused.)", "quantifier": "all images", "why_tests_cant": "the input space is infinite; a test fixes finitely many inputs", "anchors": ["prog/emu/lc3.c:94-114", "lib/bytereader.c:24-45"]}
{"id": "C112", "title": "The CHIP-8 emulator executes instructions as the reference says", "statement": "prog/emu/chip8.c loads a program and the digits, and executes each instruction of the CHIP-8 as Cowgod's reference says. (False of the code: SUB and SUBN, shifts of VF, sprites over an edge of the screen, waiting for a key, and programs of more than 3584 bytes.)", "quantifier": "all instructions, all states", "why_tests_cant": "the input space is infinite; a test fixes finitely many inputs", "anchors": ["prog/emu/chip8.c:49-127", "prog/emu/chip8.c:174-433", "prog/emu/chip8instr.c:26-110", "lib/bits.c:30-34"]}
{"id": "C113", "title": "The timers of the CHIP-8 emulator run while the program runs", "statement": "The delay and sound timers of prog/emu/chip8.c run down to zero, and a program can read the time that is left. (False of the code: no instruction is executed while a timer runs, so that programs read zero.)", "quantifier": "all states", "why_tests_cant": "the input space is infinite; a test fixes finitely many inputs", "anchors": ["prog/emu/chip8.c:134-159"]}
{"id": "C114", "title": "The CHIP-8 emulator shows the screen", "statement": "After every instruction that changes the screen, prog/emu/chip8.c prints the screen. (False of the code: a screen with the same number of pixels as before is not printed.)", "quantifier": "all screens", "why_tests_cant": "the input space is infinite; a test fixes finitely many inputs", "anchors": ["prog/emu/chip8.c:502-524"]}
{"id": "C115", "title": "XML files are walked as trees", "statement": "lib/formats/xml.c opens a file at its root element, and xml_enter, xml_next and xml_leave move in the tree of elements; xml_nodename and xml_attr give the name and the attributes of the element at which the reader is. (False of the code: files without a header, with texts, comments, values in single quotes, digits in names or spaces in closing tags are refused, and so are more than four elements inside each other.)", "quantifier": "all files, all sequences of moves", "why_tests_cant": "the input space is infinite; a test fixes finitely many inputs", "anchors": ["lib/formats/xml.c:59-301", "lib/formats/xml.c:315-444"]}
{"id": "C116", "title": "XML files that are not well-formed are reported", "statement": "When a file is not well-formed, lib/formats/xml.c sets an error and its functions return. (False of the code: a wrong tag inside an element makes xml_leave and xml_next run forever, a file that ends after an opening tag ends the program, and what follows the root is not checked.)", "quantifier": "all files", "why_tests_cant": "the input space is infinite; a test fixes finitely many inputs", "anchors": ["lib/formats/xml.c:59-301", "lib/formats/xml.c:315-444"]}
{"id": "C117", "title": "Config files are read as their pairs", "statement": "The loop over lib/formats/conf.c's next gives the pairs of keys and values of a file in their order: one in each line, without the spaces around the key and the value, lines without a pair and comments left out. (False of the code: spaces before a comment or a line's end, and a carriage return, become part of the value, tabs do not separate, and a value loses = at its beginning; long lines end the program, long keys are written past their array, and a byte 255 ends a line.)", "quantifier": "all files", "why_tests_cant": "the input space is infinite; a test fixes finitely many inputs", "anchors": ["lib/formats/conf.c:12-16", "lib/formats/conf.c:35-65", "lib/formats/conf.c:67-100"]}
{"id": "C118", "title": "Lines of config files that are no pairs are reported", "statement": "When a line of a config file has text but no separator or no value, lib/formats/conf.c reports an error with the number of the line, after the pairs before it have been given. (False of the code: the number is not always that of the line, and lines without =, without a key or with more than one = are read as pairs.)", "quantifier": "all files", "why_tests_cant": "the input space is infinite; a test fixes finitely many inputs", "anchors": ["lib/formats/conf.c:35-65", "lib/formats/conf.c:67-100"]}
{"id": "C119", "title": "WebVTT subtitles are read", "statement": "The loop over lib/formats/vtt.c's read gives the subtitles of a file in their order, with their times and their texts without tags; a file without the header is refused. (False of the code: the last subtitle is lost when no empty line follows it, settings leave a space after the times, long lines are written past the end of the text, and names of subtitles, times without hours, comments and titles are refused.)", "quantifier": "all files", "why_tests_cant": "the input space is infinite; a test fixes finitely many inputs", "anchors": ["lib/formats/vtt.c:13-22", "lib/formats/vtt.c:38-124", "lib/formats/vtt.c:139-179"]}
{"id": "C120", "title": "WAV files are read", "statement": "lib/formats/wav.c opens a WAV file with PCM samples with its channels, frequency and bits per sample, and the loop over more and read_samplef gives its frames in their order, each sample as a part of the greatest one. (False of the code: a file that ends within its samples is read without an error, as silence or as whatever is in the memory; values of 1000 bytes are written past the end of an array; extended descriptions, samples of one byte and unknown blocks end the program.)", "quantifier": "all files", "why_tests_cant": "the input space is infinite; a test fixes finitely many inputs", "anchors": ["lib/formats/wav.c:54-146", "lib/formats/wav.c:182-195", "lib/formats/wav.c:209-261", "lib/formats/wav.c:283-327"]}
{"id": "C121", "title": "WAV files are written", "statement": "lib/formats/wav.c writes frames as a WAV file that has them: the sample of a value between -1 and 1 is that part of the greatest sample, louder values are the greatest sample, and reading the file gives the frames. (False of the code: louder values wrap around, and the lengths in the head are not set, so that reading a written file never ends.)", "quantifier": "all frames", "why_tests_cant": "the input space is infinite; a test fixes finitely many inputs", "anchors": ["lib/formats/wav.c:41-47", "lib/formats/wav.c:148-207", "lib/formats/wav.c:263-275", "lib/formats/wav.c:329-331"]}
{"id": "C122", "title": "Random numbers", "statement": "lib/rnd.c: intn(n) gives a number below n, and ends the program when n is 0; u() gives a number of [0, 1); the generator meets every state before it comes back, and returns every 32-bit number equally often, whatever the seed is. (False of the code: u() gives 1 for the greatest 32-bit number.)", "quantifier": "all seeds and numbers of calls", "why_tests_cant": "the input space is infinite; a test fixes finitely many inputs", "anchors": ["lib/rnd.c:3-40"]}
{"id": "C123", "title": "Sorting demo sorts", "statement": "Every sort of prog/sort-circle ends and leaves the array in order, whatever the order of its values is. (False of the code: the radix sort stops at the first digit whose column is already in order; stooge sort reads an array of no values.)", "quantifier": "all lengths and orders of the array", "why_tests_cant": "the input space is infinite; a test fixes finitely many inputs", "anchors": ["prog/sort-circle/sort-circle.c:120-122", "prog/sort-circle/sort-circle.c:150-167", "prog/sort-circle/sort-circle.c:249-371"]}
{"id": "C124", "title": "Sorting demo shuffles", "statement": "The shuffle of prog/sort-circle loses no value, each order comes from exactly one sequence of random numbers, and these are the numbers of lib/rnd.c one after another, each below its limit.", "quantifier": "all arrays and seeds", "why_tests_cant": "the input space is infinite; a test fixes finitely many inputs", "anchors": ["prog/sort-circle/sort-circle.c:136-148", "lib/rnd.c:3-35"]}
{"id": "C125", "title": "Trim", "statement": "prog/trim removes the space at the end of each line of a file, gives all lines the line end asked for, loses nothing else, prints the name of the file exactly when it has changed, and leaves a trimmed file alone. (False of the code: a carriage return that is not before a line feed loses the rest of the file, a byte 255 is lost, and a last line without an end is an error unless line ends are converted.)", "quantifier": "all files of lines and all line ends asked for", "why_tests_cant": "the input space is infinite; a test fixes finitely many inputs", "anchors": ["prog/trim/trim.c:5-13", "prog/trim/trim.c:63-240"]}
{"id": "C126", "title": "Zipranges", "statement": "prog/zipranges writes the numbers it reads as ranges that give them in the same order, no two neighbours of which could be one range. (False of the code: more than 4000 ranges are written past the array, and a number after the greatest int overflows.)", "quantifier": "all sequences of numbers", "why_tests_cant": "the input space is infinite; a test fixes finitely many inputs", "anchors": ["prog/zipranges/zipranges.c:1-42"]}
{"id": "C127", "title": "Statistics of a series", "statement": "lib/stats.c: a series has the count, the least and the greatest value of what was added, and its percentile p is a value with p per cent of the values before it, in whatever order values are added and percentiles asked for. (False of the code: the percentile 100, and any percentile of no values, is read past the end.)", "quantifier": "all sequences of operations", "why_tests_cant": "the input space is infinite; a test fixes finitely many inputs", "anchors": ["lib/stats.c:3-60", "lib/stats.c:91-109"]}
{"id": "C128", "title": "Sampling from a distribution", "statement": "lib/stats.c: sample_from_distribution chooses each index as often as its frequency says. (False of the code: only the last 32 bits of the sum of the frequencies are used.)", "quantifier": "all lists of frequencies and all seeds", "why_tests_cant": "the input space is infinite; a test fixes finitely many inputs", "anchors": ["lib/stats.c:147-166"]}
{"id": "C129", "title": "Pipe between threads is a queue", "statement": "lib/os/threads.c: for any number of threads that read, write and close a pipe in any interleaving, each call has its effect at one moment between its beginning and its end, and the effects are those of a first-in first-out queue of 32 items: no item is lost, duplicated or reordered, the mutex is always held where the pipe is used, and a read reports the end only when the pipe is closed and empty. Nothing is written into a closed pipe. (The last sentence is false of the code: a writer that waited for a place writes into the closed pipe, and the item is lost.)", "quantifier": "all numbers of threads, all calls, all interleavings", "why_tests_cant": "the input space is infinite; a test fixes finitely many inputs", "anchors": ["lib/os/threads.c:65-73", "lib/os/threads.c:92-186"]}
{"id": "C130", "title": "Pipe between threads has no lost wakeups", "statement": "lib/os/threads.c: when no thread can take a step, each thread is out of the pipe, or reading an empty pipe that is not closed, or writing to a full pipe; and an execution with finitely many calls and spurious wakeups ends, whatever the scheduler does.", "quantifier": "all numbers of threads, all calls, all interleavings", "why_tests_cant": "the input space is infinite; a test fixes finitely many inputs", "anchors": ["lib/os/threads.c:92-186"]}
{"id": "C131", "title": "Requests of exab", "statement": "prog/exab: in every interleaving of the main thread and its workers the program ends, and then exactly the requests asked for have been made. (False of the code: with no workers, or when all workers fail to connect, more than 32 requests are waited for for ever.)", "quantifier": "all numbers of requests and workers, all interleavings", "why_tests_cant": "the input space is infinite; a test fixes finitely many inputs", "anchors": ["prog/exab/exab.c:71-118", "lib/os/threads.c:92-186"]}
{"id": "C132", "title": "Pieces of a torrent", "statement": "lib/formats/torrent.c, prog/torrent/files.c: a torrent has as many pieces as its size needs; all but the last have the length the torrent says, the last one has what is left and is not empty, and the lengths add up to the size of the files. (A torrent with pieces of length zero is divided by zero.)", "quantifier": "all torrents", "why_tests_cant": "the input space is infinite; a test fixes finitely many inputs", "anchors": ["lib/formats/torrent.c:62-92", "prog/torrent/files.c:187-192"]}
{"id": "C133", "title": "Ranges of pieces in files", "statement": "prog/torrent/files.c: the slices of files that a range of a piece is mapped to are, one after another, exactly the bytes of the range in all files together; they are inside of the files and in their order.", "quantifier": "all torrents, all ranges", "why_tests_cant": "the input space is infinite; a test fixes finitely many inputs", "anchors": ["prog/torrent/files.c:35-87"]}
{"id": "C134", "title": "Ranges of pieces are read and written", "statement": "prog/torrent/files.c: writing a range of a piece changes exactly its bytes in the files, reading it gives these bytes, and when ranges that cover a torrent have been written in any order, the files are those of the torrent. (False of the code for ranges over the end of a file: each file is read to and written from the beginning of the buffer.)", "quantifier": "all torrents, all ranges, all files on the disk", "why_tests_cant": "the input space is infinite; a test fixes finitely many inputs", "anchors": ["prog/torrent/files.c:90-151"]}
{"id": "C135", "title": "Pieces are checked", "statement": "prog/torrent/files.c: a piece is accepted exactly if the SHA-1 digest of its bytes in the files is the one the torrent has for it. (False of the code for pieces over the end of a file: right ones are refused.)", "quantifier": "all torrents, all pieces, all files on the disk", "why_tests_cant": "the input space is infinite; a test fixes finitely many inputs", "anchors": ["prog/torrent/files.c:153-184", "lib/formats/torrent.c:54-59"]}
{"id": "C136", "title": "Messages between peers", "statement": "prog/torrent/peerproto.c, prog/torrent/peer.c: each message is written as its encoding; a handshake and messages that come in, cut in any way, are read as what they are, in order, each as soon as it is complete and not before; and no input makes the program use memory that is not its own. (The last part is false of the code: a bitfield with more than 1000 flags is written outside of an array, and lengths near 2^32 and pieces shorter than 9 bytes wrap.)", "quantifier": "all messages, all ways of cutting", "why_tests_cant": "the input space is infinite; a test fixes finitely many inputs", "anchors": ["prog/torrent/peerproto.c:17-174", "prog/torrent/peer.c:43-54", "prog/torrent/peer.c:111-142", "prog/torrent/peer.c:158-201"]}
{"id": "C137", "title": "Requests for a piece", "statement": "prog/torrent/peer.c: the requests for a piece are for the blocks of 16384 bytes it consists of, in order, the last of which may be shorter, if the requests fit into the buffer of 1000000 bytes.", "quantifier": "all torrents, all pieces", "why_tests_cant": "the input space is infinite; a test fixes finitely many inputs", "anchors": ["prog/torrent/peer.c:273-305"]}
{"id": "C138", "title": "Battleship: ships are placed", "statement": "prog/battleship/game.c, battleship.c: a ship is placed with the keys exactly if all its squares are on the board and none is on or beside another ship; whatever is tried, ships that have been placed are where the board shows them and do not touch each other; and placing at random can choose any place where a ship fits. (The last part is false of the code: the last column and the last row are never reached along the ship.)", "quantifier": "all sequences of attempts, all random numbers", "why_tests_cant": "the input space is infinite; a test fixes finitely many inputs", "anchors": ["prog/battleship/game.c:136-160", "prog/battleship/game.c:189-258", "prog/battleship/battleship.c:280-298"]}
{"id": "C139", "title": "Battleship: shells", "statement": "prog/battleship/game.c, battleship.c: a shell is a miss where there is no ship, a hit where there is one, and sinks a ship when its last square is hit, after which the ship and the water around it are shown; the hits of each ship are the squares of it that have been shelled, and what each player is shown is true; no shell uses memory outside of the boards.", "quantifier": "all games, all squares that have not been shelled", "why_tests_cant": "the input space is infinite; a test fixes finitely many inputs", "anchors": ["prog/battleship/game.c:162-186", "prog/battleship/game.c:260-334", "prog/battleship/battleship.c:150-199"]}
{"id": "C140", "title": "Battleship: the computer", "statement": "prog/battleship/ai.c: whatever the random numbers are, the computer shells a square of the board that it has not shelled, or turns from one end of a ship to the other; it never panics, finds no directions outside of its tables, and sinks a ship that it has hit before it looks for another.", "quantifier": "all games, all random numbers", "why_tests_cant": "the input space is infinite; a test fixes finitely many inputs", "anchors": ["prog/battleship/ai.c:45-281"]}
{"id": "C141", "title": "Battleship: games end", "statement": "prog/battleship/battleship.c: regular, blitz and salvo games end after at most 300 turns, whatever squares the player chooses, and the winner is the one who has shelled all ships of the other and has one left.", "quantifier": "all games, all choices of the player, all random numbers", "why_tests_cant": "the input space is infinite; a test fixes finitely many inputs", "anchors": ["prog/battleship/battleship.c:104-199", "prog/battleship/game.c:170-186", "prog/battleship/game.c:316-327"]}
{"id": "C142", "title": "Battleship: who is next", "statement": "prog/battleship/battleship.c: in a blitz game a player goes on exactly after a hit. (False of the code for the computer: a shell at random does not set what the turn returns, so its turn ends after a hit, and goes on after misses once it has sunk a ship.)", "quantifier": "all games", "why_tests_cant": "the input space is infinite; a test fixes finitely many inputs", "anchors": ["prog/battleship/battleship.c:122-130", "prog/battleship/battleship.c:150-199", "prog/battleship/ai.c:69-89"]}
{"id": "C143", "title": "Torrent files are read", "statement": "lib/formats/torrent.c: parsing a .torrent file gives the values of its keys, which may stand in any order, the files with their paths, and as infohash the SHA-1 digest of the text of info; keys of no interest are skipped. (False of the code for keys of info and of files that it does not know, which end the program, for numbers from 2^31, and for paths of 200 bytes, which are written over the end of an array.)", "quantifier": "all dictionaries with different keys", "why_tests_cant": "the input space is infinite; a test fixes finitely many inputs", "anchors": ["lib/formats/torrent.c:100-233"]}
{"id": "C144", "title": "Torrent files are made", "statement": "prog/torrent/cmd_create.c, lib/formats/torrent.c: the command create writes a bencoded file with the name and the length of the shared file and the SHA-1 digests of all its pieces of 256 KB, and says if it could not. (False of the code for files from 2 GB, for names of 200 bytes or more, which are written over the end of an array, and if the disk is full, which is not noticed.)", "quantifier": "all files", "why_tests_cant": "the input space is infinite; a test fixes finitely many inputs", "anchors": ["prog/torrent/cmd_create.c:6-94", "lib/formats/torrent.c:235-261", "lib/os/fs.c:215-223"]}
{"id": "C145", "title": "A shared file can be checked", "statement": "prog/torrent, lib/formats/torrent.c: what create writes is read by parse, and with it a piece of a downloaded file is accepted exactly if it has the SHA-1 digest of the same piece of the shared file; so the shared file itself is accepted.", "quantifier": "all files, all copies of the same length", "why_tests_cant": "the input space is infinite; a test fixes finitely many inputs", "anchors": ["prog/torrent/cmd_create.c:6-94", "lib/formats/torrent.c:100-261", "prog/torrent/files.c:153-184"]}
{"id": "C146", "title": "Symbols are unique", "statement": "prog/wisp: the table of symbols finds the value that was given last to a name, and two symbols are the same object exactly if they have the same name.", "quantifier": "all names, any order", "why_tests_cant": "the input space is infinite; a test fixes finitely many inputs", "anchors": ["prog/wisp/hashtab.c:40-139", "prog/wisp/hashtab.c:282-296", "prog/wisp/eval.c:371-419"]}
{"id": "C147", "title": "Symbols have dynamic scope", "statement": "prog/wisp: a binding hides the value of a symbol until it is removed; assignments change the last binding; a new symbol is nil, a keyword is itself. (False of the code from 8 nested bindings on: the array of values does not grow and is left.)", "quantifier": "all sequences of bindings and assignments", "why_tests_cant": "the input space is infinite; a test fixes finitely many inputs", "anchors": ["prog/wisp/eval.c:351-419"]}
{"id": "C148", "title": "Pools give objects that are not in use", "statement": "prog/wisp/mem.c: a new object is clean and not in use, also after releases; objects in use keep what is in them.", "quantifier": "all sequences of allocations, releases and writes", "why_tests_cant": "the input space is infinite; a test fixes finitely many inputs", "anchors": ["prog/wisp/mem.c:5-70"]}
{"id": "C149", "title": "Texts survive quoting", "statement": "prog/wisp: addslashes gives the text in quotes with backslashes before quotes and backslashes, within its array; the reader reads it back. (False of the code for byte 255 in a text from memory, which is taken for the end.)", "quantifier": "all texts without zero bytes", "why_tests_cant": "the input space is infinite; a test fixes finitely many inputs", "anchors": ["prog/wisp/util.c:1-34", "prog/wisp/eater.c:35-117", "prog/wisp/eval.c:1273-1279"]}
{"id": "C150", "title": "Values are read as they were printed", "statement": "prog/wisp: what obj_print prints is read by read_sexp as an equal value, also value after value from a file, after white space and comments, with quotes before it, and after a first line that names the interpreter. (False of the code for 31 open brackets, where the stack of the reader is left, for symbols like nan, and for symbols with #! at the start of a file. Texts of floats are not modelled.)", "quantifier": "all values", "why_tests_cant": "the input space is infinite; a test fixes finitely many inputs", "anchors": ["prog/wisp/eval.c:489-541", "prog/wisp/eval.c:1137-1464", "prog/wisp/eater.c:35-117"]}
{"id": "C151", "title": "The reader takes any input", "statement": "prog/wisp: read_sexp ends for every input, reports errors as the error symbol and can be called again; a closing bracket too many is such an error. (False of the code for numbers from 2^31, for a point without a pair, and for 31 open brackets, all of which are undefined behaviour.)", "quantifier": "all inputs, any number of calls", "why_tests_cant": "the input space is infinite; a test fixes finitely many inputs", "anchors": ["prog/wisp/eval.c:1137-1464", "prog/wisp/eater.c:35-117"]}
{"id": "C152", "title": "Subtitles are read and written", "statement": "lib/formats/srt.c: the subtitles of an SRT file are read in order, with their numbers, times and texts, and printed subtitles are read as the same. (False of the code for text lines that are numbers, for the empty file, for a last subtitle without text, for lines of times from 39 bytes on and for texts from 1000 bytes on.)", "quantifier": "all SRT files; all lists of subtitles", "why_tests_cant": "the input space is infinite; a test fixes finitely many inputs", "anchors": ["lib/formats/srt.c:16-117"]}
{"id": "C153", "title": "srt2jsonl prints a JSON object for each subtitle", "statement": "prog/srt2jsonl: for every subtitle a line is printed with a JSON object of its number, times and text. (False of the code for control characters other than tabs and line ends.)", "quantifier": "all SRT files", "why_tests_cant": "the input space is infinite; a test fixes finitely many inputs", "anchors": ["prog/srt2jsonl/srt2jsonl.c:4-29", "lib/formats/srt.c:16-117"]}
{"id": "C154", "title": "The frames of an MP3 file are read", "statement": "lib/formats/mp3.c: from a file of MP3 frames of 44100 Hz, whatever is before them, all the frames are read, in order, with their rates and times, and a first frame of information is put aside. (False of the code for bytes before the first frame that are not groups of four, for tags at the end, frames with checksums, rate 0 or 15, and for a last frame that is cut.)", "quantifier": "all files of frames", "why_tests_cant": "the input space is infinite; a test fixes finitely many inputs", "anchors": ["lib/formats/mp3.c:57-262"]}
{"id": "C155", "title": "mp3cuespl splits an MP3 file into tracks", "statement": "prog/mp3cuespl: every frame is written to exactly one track, in order, the one in whose time it ends, and a frame of information gets the numbers of the track. (False of the code for tracks that begin after the end, and for frames of information of one channel, of less than 152 bytes or of tracks without frames.)", "quantifier": "all files of frames and lists of positions", "why_tests_cant": "the input space is infinite; a test fixes finitely many inputs", "anchors": ["prog/mp3cuespl/mp3cuespl.c:104-167", "lib/formats/mp3.c:57-310"]}
{"id": "C156", "title": "The tracks of a cue sheet are read", "statement": "lib/formats/cue.c: the tracks of a cue sheet are read in order with their titles and with the positions of their last indexes; sheets with more than a hundred tracks or with an index before the first track are refused. (False of the code for other keywords, empty lines, indexes after 01 and titles of 100 bytes, which stop the program, for lines of indexes of 300 bytes, which are written past an array, and positions lose their frames.)", "quantifier": "all sheets", "why_tests_cant": "the input space is infinite; a test fixes finitely many inputs", "anchors": ["lib/formats/cue.c:39-218"]}
{"id": "C157", "title": "mp3cuespl reads lists of tracks", "statement": "prog/mp3cuespl: from a text with a line for every track, its number, a dot, its title and its duration, every track is read with its number and title, and its position is the sum of the durations before it. (False of the code for more than a hundred tracks and titles of a thousand bytes, which are written past arrays, for tracks of 35:48 or more and for lines of a duration only.)", "quantifier": "all lists of tracks", "why_tests_cant": "the input space is infinite; a test fixes finitely many inputs", "anchors": ["prog/mp3cuespl/tracklist.c:20-87", "prog/mp3cuespl/mp3cuespl.c:84-100"]}
{"id": "C158", "title": "vtt2jsonl prints WebVTT subtitles as lines of JSON", "statement": "prog/vtt2jsonl prints a line for every subtitle of a WebVTT file, in order, with a JSON object that has its times and its text without tags; without the first line WEBVTT it reports an error and fails. (False of the code as C119 is, for characters below 32, and without the first line the subtitles are printed too.)", "quantifier": "all files", "why_tests_cant": "the input space is infinite; a test fixes finitely many inputs", "anchors": ["prog/vtt2jsonl/vtt2jsonl.c:4-31"]}
{"id": "C159", "title": "decompose strips the lines of docker-compose", "statement": "prog/decompose prints every line of docker-compose without colours and padding, with the name of the container in brackets before the message; a message that is a JSON object gets the name as its first member. (False of the code for empty messages, which lose the end of the line, for objects without members, for names of 100 bytes and for a last line of one word.)", "quantifier": "all files of lines with names and messages", "why_tests_cant": "the input space is infinite; a test fixes finitely many inputs", "anchors": ["prog/decompose/decompose.c:5-55"]}
{"id": "C160", "title": "noext cuts extensions", "statement": "prog/noext prints every argument without its extension. (False of the code for dots in directories.)", "quantifier": "all lists of arguments", "why_tests_cant": "the input space is infinite; a test fixes finitely many inputs", "anchors": ["prog/noext/noext.c:2-25"]}
{"id": "C161", "title": "TIFF directories are read", "statement": "lib/formats/tiff.c reads from a TIFF file, in either order of bytes, all the directories with the entries that they have, with their tags, types, counts and values, and refuses other files; the string of an entry is the string that it has. (False of the code for values of less than four bytes in files with the most significant bytes first, for strings of up to four bytes, for directories that are their own next ones, which are read forever, and for files that are cut off, which are read past the end.)", "quantifier": "all sequences of bytes, all entries", "why_tests_cant": "the input space is infinite; a test fixes finitely many inputs", "anchors": ["lib/formats/tiff.c:67-91", "lib/formats/tiff.c:108-135", "lib/formats/tiff.c:154-162", "lib/formats/tiff.c:172-193"]}
{"id": "C162", "title": "chargen sends the printable characters in rounds", "statement": "prog/chargen answers every packet of a client with a line of 72 characters; what a client gets are the printable ASCII characters in turn, in rounds, with nothing lost or repeated, whatever reads and writes return. (False of the code for the zero after every round, for the first 28 packets, which are not answered, and for reads that fail, which are.)", "quantifier": "all results of reads and writes", "why_tests_cant": "the input space is infinite; a test fixes finitely many inputs", "anchors": ["prog/chargen/chargen.c:13-22", "prog/chargen/chargen.c:39-41", "prog/chargen/chargen.c:47-98"]}
{"id": "C163", "title": "rtf2html prints RTF as HTML", "statement": "prog/rtf2html prints an RTF file as an HTML document in which every paragraph is a p and every text with a look is a span with that look, all of them closed and in the right order; it refuses files that are not RTF. (False of the code for a last paragraph without an end, for the characters < and &, for ends of lines, for groups, and for control words other than the few that it knows.)", "quantifier": "all files of paragraphs with changes of the look", "why_tests_cant": "the input space is infinite; a test fixes finitely many inputs", "anchors": ["prog/rtf2html/rtf2html.c:3-77", "prog/rtf2html/rtf2html.c:97-187"]}
{"id": "C164", "title": "multicut prints columns", "statement": "prog/multicut prints for every line the words with the numbers that are its arguments, in the order of the arguments, with tabs between them, and nothing for words that are not there; more than ten numbers and lines of more than 100 words are errors. (False of the code for white space at the beginning of a line, which counts as a word, and for lines of more than 4095 bytes, which are cut.)", "quantifier": "all lists of numbers, all files of lines of words", "why_tests_cant": "the input space is infinite; a test fixes finitely many inputs", "anchors": ["prog/multicut/multicut.c:1-62"]}
{"id": "C165", "title": "calls of types are their expressions", "statement": "In prog/tsmeta, a call of a type is what the expression of the type is with the arguments in the place of the parameters; expressions without names are their own results, and names that are not defined are errors. (False of the code if a parameter has a name that is used elsewhere: with type Wrap<T> = [T] and type G<T> = Wrap<T>, G<1> never ends; and missing arguments are not checked for.)", "quantifier": "all types, all expressions, all calls", "why_tests_cant": "the input space is infinite; a test fixes finitely many inputs", "anchors": ["prog/tsmeta/tsmeta.c:45-114"]}
{"id": "C166", "title": "datelog writes lines to the files of their months", "statement": "prog/datelog adds every line of its input to the end of the file YYYY-MM.log of the month in which it is read, in order, and changes no other files; different months have different files; with -o it also prints the input; if a line cannot be written it ends with status 1, and the lines before it are in their files. (False of the code for lines as long as the buffer, which may be in two files, and for lines with zero bytes.)", "quantifier": "all inputs, all times in the years 1000 to 9999, all failures to open or write", "why_tests_cant": "the input space is infinite; a test fixes finitely many inputs", "anchors": ["prog/datelog/datelog.c:1-75"]}
{"id": "C167", "title": "jsonl2csv prints objects as records", "statement": "prog/jsonl2csv prints for every line with a JSON object a record of RFC 4180 with the values that the object has for the names in the first object, and nothing for names that it does not have; lines that are not JSON are skipped with a message; an input without objects and a first object with more than 100 names are errors. (False of the code for values with quotes, which are not doubled, for lines with values that are not objects, and for escapes that C69 excludes.)", "quantifier": "all inputs of lines of less than 4095 bytes", "why_tests_cant": "the input space is infinite; a test fixes finitely many inputs", "anchors": ["prog/jsonl2csv/jsonl2csv.c:1-65", "lib/formats/csv.c:113-137"]}
{"id": "C168", "title": "rand prints random strings", "statement": "prog/rand prints as many lines as it is asked for, each with as many characters as it is asked for, all of them of the kinds that are selected; with any seed each of these characters comes at some place of a long enough output; unknown selectors are errors. (False of the code: the selector for letters also selects digits, digits come twice as often as letters if both are selected, and an empty selector stops the program.)", "quantifier": "all numbers of lines, all lengths, all seeds, all selectors", "why_tests_cant": "the input space is infinite; a test fixes finitely many inputs", "anchors": ["prog/rand/rand.c:1-50", "lib/rnd.c:8-35"]}
{"id": "C169", "title": "avg prints averages of sliding windows", "statement": "prog/avg reads lines with a time and a number and prints, for each window of as many consecutive lines as asked for, the time of the line in its middle and the average of its numbers, and nothing if there are fewer lines; a line whose time is not a time stops the program. (False of the code: a missing number is taken as zero or read from what is left in the buffer.)", "quantifier": "all inputs, all sizes of the window", "why_tests_cant": "the input space is infinite; a test fixes finitely many inputs", "anchors": ["prog/avg/avg.c:1-67"]}
{"id": "C170", "title": "echo7 sends back what it receives", "statement": "prog/echo7 sends back to a client the bytes it receives, in their order, nothing else, and all of them unless a read or a write fails, which is reported; then it closes the connection. (False of the code: after a write that sends a part of the bytes the rest is not sent.)", "quantifier": "all bytes, all splits of them by reads, all results of reads and writes", "why_tests_cant": "the input space is infinite; a test fixes finitely many inputs", "anchors": ["prog/echo7/echo7.c:31-56", "lib/reader.c:24-28", "lib/os/net.c:84-87", "lib/os/net.c:325-328"]}
{"id": "C171", "title": "floatbits prints the parts of a double", "statement": "prog/floatbits prints the sign, the exponent and the mantissa of a double as they are in its 64 bits, as numbers and as bits. (False of the code: for the bits of the mantissa it prints 52 zeros whatever the number is.)", "quantifier": "all doubles", "why_tests_cant": "the space of doubles is too large to test, and a test of the program fixes nine of them", "anchors": ["prog/floatbits/floatbits.c:27-92", "lib/bits.c:23-27"]}
{"id": "C172", "title": "stats takes the columns of its input", "statement": "prog/stats adds the values of each column of its input, in their order, to the series of that column; an input without values on its first line, or with lines with another number of values than the first one, is refused. (False of the code: a line with more than ten values writes past the end of an array.)", "quantifier": "all inputs, all readers of numbers", "why_tests_cant": "the input space is infinite; a test fixes finitely many inputs", "anchors": ["prog/stats/stats.c:3-53"]}
{"id": "C173", "title": "MIME types are found by extensions", "statement": "lib/mime: lookup gives a MIME type, a kind of media and a subtype with a slash between them, for the well known extensions, and nothing for texts that are not extensions in small letters; an extension has one type. (False of the code: the type of ppt has no slash, webp and webm are audio, and some extensions are missing.)", "quantifier": "all texts", "why_tests_cant": "the input space is infinite; a test fixes finitely many inputs", "anchors": ["lib/mime.c:4-94"]}
