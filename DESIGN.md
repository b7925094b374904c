# A formal model of the Che compiler

The subject is `gaswelder/che` (Rust, `/repo/src`): a translator from a C dialect
("Che") to C99.  This directory holds a Lean 4 model of it and theorems about the
model.

## Layout

| directory | contents |
|---|---|
| `lean/Verif/Model/` | the model, one file per source file, every definition citing file and lines |
| `lean/Verif/Spec/` | independent specifications (what the properties mean), not using model helpers |
| `lean/Verif/Proofs/` | helper lemmas |
| `lean/Verif/Props/` | the property theorems, each with a concrete non-vacuity example |
| `properties.jsonl` | the property list |
| `MANIFEST.json` | property -> theorems |
| `seeded/LOG.jsonl` | mutation experiments |

The same four directories have a `Lib/` part for the library written in Che itself
(`/repo/lib/*.c`).

## Modelling conventions

* A function taking `&mut` becomes a function returning the new value.
* `usize` is `Nat`; nothing in the properties is about overflow.
* `String`/`Vec<char>` are `String`/`List Char`; `Vec` is `List`.
* Outcomes are explicit: value, `Err`, panic, and "did not return within the
  recursion budget".  A loop or recursion takes a budget (fuel).  Where it
  terminates we prove that a budget given by the input size is enough; where it
  does not, we prove that no budget is enough.
* `HashMap`/`HashSet` are association lists: the compiler never iterates them.
* Non-ASCII `char::is_alphanumeric` is a parameter (`class Unicode`): all
  theorems hold for any table.
* The lexer model is exact at character level.  The parser model consumes the
  token sequence; C06 is the theorem that lookahead through the queue is the
  same as reading that sequence.
* The file system is a function from paths to optional contents; `CHELANG_HOME`
  is a parameter.

For the library (`Model/Lib`):

* `uint8_t` ... `uint32_t` are Lean's fixed-width integers and wrap as in C; `int` and
  `size_t` are `Int` and `Nat` unless a definition says otherwise.
* A buffer with a length is a list.  Allocation succeeds; freeing is not tracked.
* A `reader.t` is a source (file, memory, descriptor that delivers chunks); a `writer.t`
  is what it has received and where it gets full (`Model/Lib/IO`).
* A struct changed through a pointer is returned.
* `char` is signed and eight bits wide, `int` has 32 bits, `size_t` 64.

## Trusted base

* Lean's kernel (4.33.0).
* Axioms: only `propext`, `Classical.choice`, `Quot.sound` (checked with
  `#print axioms` for each property theorem).  No own axioms, no `sorry`, no
  `native_decide`, no `bv_decide`.
* The reading of the Rust source and of the library in Che: nothing connects the model to the code except
  the citations.
* Specifications of the outside world used in statements: the C grammar fragment
  and the C statement semantics in `Spec/`.

## Not modelled

* `c99`, the linker, process spawning, the Rust `md5` crate, thread timing, the real file
  system's concurrency (C44 models only the shared path).
* C expression evaluation: statement semantics is parameterised by it.
* Of the programs in `prog` all but `csv2json`, `bencode`, `logic`, the machines of `emu`, how `webserver` answers a request, and `libregexp9/regexp9.c` without its functions for strings of runes (`Model/Prog`), and of these the
  reading of the command line and of the file.
* Of the library: everything that has no file in `Model/Lib` (most formats, network,
  sound, processes and so on).  `double` is a type with its printing and reading as
  parameters (`Model/Lib/Json`).
* The text of the operating system's errors.

## Specifications

* `Spec/Lex`, `Spec/Strings`: lexemes of the language and the value of a C literal
  (C11 6.4.4.4 and 6.4.5).  Trigraphs and universal character names are left out.
* `Spec/Grammar*`: the grammar of Che as inductive relations over tokens.  The
  parser is proved sound and complete for it (C17).
* `Spec/Scoping`, `Spec/Emit`: which declaration a name refers to, and the C tree a
  module must become, as recursive functions without state.  The translator (a
  state machine with scope stacks) is proved to produce that tree.
* `Spec/Exec`: the meaning of statements, for Che and for C.  What an expression
  does is a parameter: evaluating one is a computation in an arbitrary monad, so it
  may have any effect.  C statements (`KStmt`) are those of C: labels stand before
  statements, a switch jumps to a label and control falls through.  Loops are given
  a number of rounds; theorems are equalities for every number.  `lower` is the
  reading of the printed text as C statements: the `break` printed after a case body,
  the empty statement after `return;`.
* `Spec/CLex`, `Spec/CGrammar`: C99 tokens (longest match) and expressions (6.5, 6.7.8)
  as inductive relations.  Which words are type names is a parameter.  Left out:
  comments (a text with one is not read at all), universal character names, `?:`, the
  comma operator, compound literals, `sizeof` of a declarator with brackets.  Both
  relations are proved deterministic.  String literals are joined by spelling.
* `Spec/CPrint`: `Plain` (names, literals and operators are those of C and do not run
  together in print), `Faithful` (no parentheses missing), `canon` (what text can at
  best give back: `NULL` is a word, `{}` is printed `{0}`).
* `Spec/CStmtGrammar`: C99 statements and local declarations (6.7, 6.8) as production
  rules over tokens.  Left out: `do`, `goto`, labels other than `case` and `default`,
  declarators with parentheses, a switch body that is not a compound statement.  As in
  the standard the rules do not pair `else` with `if`.  `Alike R I` relates statements
  that differ in their expressions only, `PlainS`/`FaithfulS` carry `Plain`/`Faithful`
  to statements, `Textual` says that a meaning depends on the text only.
* `Spec/CUnit`: C99 6.10, 6.7 and 6.9 for whole files (C80).  `CFile` cuts a text into
  directives and tokens, line by line; `CUnit` has the rules for declarations and
  functions.  `ExtAlike R I` relates declarations that differ in expressions only.
  Left out: the effect of directives, trigraphs, `\\` at the end of a line, more than
  one declarator in a declaration, and typedef names that become known as the file is
  read (`ty` is given in advance).
* `Spec/DemoSem`: a small concrete meaning, used only in examples and to show that
  the hypotheses about meanings can be met.

## Validation

The model was run over all 215 `.c` files of `/repo` (this is a test, not a proof).
213 are accepted; the other two contain errors the compiler is meant to report
(`prog/wisp/util.test.c`, `prog/lexer/lexer.c`).

## Properties: plan

* C01 positions: `Buf` operations; invariant "line/col = function of consumed text" over every operation, lifted to `readToken`.
* C02 lossless: `readToken` splits `rest` as blanks ++ lexeme ++ rest'; lexeme relation per kind in `Spec/Lex`.
* C03 longest match: table argument: no symbol is a proper prefix of a later one.
* C04 progress: length decreases; budget `length+1` always enough up to error; stray characters repeat.
* C05 no crash: negation by witnesses; exact characterisation of crashing inputs per literal kind.
* C06 lookahead: refinement of `Lexer` (buffer+queue) to a token list with a cursor, for all call sequences.
* C07 layout: token kinds/contents unaffected by inserted blanks/comments.
* C08/C09 literals: C string denotation spec; theorems on safe contents, witnesses on bad ones.
* C10 resolve: path function against a spec over path components.
* C11-C13 build: `load_tree`/`build_project` over an abstract import graph; loop detection, topological order, uniqueness.
* C14/C15 names: mangling injective; valid identifier iff base name is.
* C16 link libs: fold = dedup of concatenation.
* C17 grammar: declarative precedence grammar; parser sound and complete for it.
* C18/C19 termination and crashes: budget bound; hang witness for all budgets; crash witnesses; partial theorem.
* C20 errors; C21 exports: invariants of `parse_module` / `get_exports`.
* C22-C25 typing: class tables, total case analysis on types.
* C26-C28 scopes: scope stack lookup spec; translator invariants.
* C29 returns: big-step completion semantics; counterexamples; partial theorem.
* C30-C34 emitted module structure: list theorems over `translate`.
* C35-C38, C41: statement semantics for Che and C; simulation.
* C39 printing: independent C expression grammar; printed text parses back on safe trees; witnesses on unsafe.
* C40 pairing: C statement grammar; every reading of a printed body has the structure of the tree.
* C80 files: the file is cut into the tokens of its elements (`Proofs/CUnitToks`, `CUnitLines`), every declaration read from them ends where the element ends (`CUnitBack`), and the tokens of an element with its parentheses are a declaration (`CUnitDerive`). C31 and C41 are restated for what C finds in the file. `Spec/Leaves` and `Spec/Writable` put the conditions on the Che modules instead (names, literals, shapes, missing parentheses); `Proofs/LeavesPlain*` and `WritableProject` show that translated modules keep them, imports included, and `Props/Whole` states C80, C41 and C31 for the files that `writeC99` makes of an accepted project.  `Proofs/WritableCheck` is a test for these conditions, used in the examples only.
* C42 test runner; C43 file-system locality; C44 two-process interleaving witness; C45 pre-parser.
* C46-C48 hex, URL and integer encodings: spec decoders (`Spec/Lib/Enc`); round trip by induction over the bytes.
* C49 bit streams: invariant "bits written so far = bits of the output ++ bits of the pending byte".
* C50/C51 LZW: the compressor's run as an inductive relation (`Trace`); the decoder is one entry behind; induction over the run.
* C52-C56 collections: histories of assignments against association lists (`Spec/Lib/Coll`); invariants of the hash table (probe chains without gaps) and of the vector's memory.
* C57/C58 strings: prefix, suffix and infix of lists; the builder's memory is the text followed by zeros.
* C59/C60 digests: FIPS 180-4 and RFC 1321 over bits and 32-bit words (`Spec/Lib/Sha1`, `Spec/Lib/Md5`); the rounds by equality of bit vectors, the padding by an invariant of the stream, the table of sines by bounding the power series of exp (`Proofs/Lib/Sine`).
* C61 memory files: a list of bytes and a position; invariant of the memory block.
* C62 crashes of the translator: `Spec/Crash.lean` lists what a module must not contain, from the source alone; every call is shown to panic only if the list is violated and to succeed only if it is not (`Proofs/Crash.lean`), using what the grammar guarantees (`Proofs/Good.lean`) and that imports come first (C12).
* C63 printing: no translated element has an operator unknown to `operator_strength`.
* C64 deptree: the printer's state against the text of an inductively defined tree; imports come first (C12), so printing ends.
* C65 exports: the printed text as a function of the `pub` declarations (C21); names begin with a letter (C02), so the column of stars is right.
* C66/C67 commands: Rust's path functions on components; the statuses against what `build_prog` did.
* C68 tokenizer: `Spec/Lib/Cursor` is a text with a place in it; the cache followed by what the reader still holds is the rest of the text; every call is shown to keep this.
* C69-C72 JSON: RFC 8259 as an inductive relation with a lexicon as parameter (`Spec/Lib/Json`); the parser is reduced to one on lists, which is proved sound and complete for the lenient lexicon it really accepts; the writer is proved to give texts of a lexicon.
* C73 tests: an inductive relation for the tests in a tree of directories; the report as a function of what became of each test.
* C74/C75 comma-separated values: RFC 4180 as inductive relations (`Spec/Lib/Csv`); every call of the reader at a place in such a text.
* C76 csv2json: its loops print what the loops of C74 collect; the text is that of C71.
* C77/C78 bencode: `Spec/Lib/Bencode` has values and their text; programs that use all calls of the reader and writer read and write every value
  (mutual induction on values); undefined behaviour of C (overflow of `int`, reading past the end) is a panic of its own in the model.
* C79 prog/bencode: `Spec/Lib/BencodeText` has the text shown for a value; the counter of list items is a natural number in the model.
* C81-C84 Huffman: `Spec/Lib/Huffman` has the words of a tree, decodable codes and the canonical code. The merging loop is handled by one induction
  (`mergeLoop_ind`) for any invariant: counts and values; Fibonacci numbers against heights (C83); depths that satisfy Kraft's inequality and cost no more than
  a given code (C82, with an exchange argument on lists). `treefrom` keeps a tree filled from the left (`Pk`). `qsort` is any function that sorts.
  `printtree` and `printcodes` are not modelled.
* C85-C88 UTF-8 and runes: the specification is `String.utf8EncodeChar` of Lean's library. The bit operations of `get_rune` and `runetochar`
  are turned into arithmetic (`or_shift`, `cont_byte`); strings are handled at the starts of characters, and the search for a text
  uses that no character begins inside another (`strstr_skip`) and that no encoding begins another (`encode_prefix`). The tables are copied from the
  file; that they are ascending, and the claims about every rune with a case, are checked by the kernel for the rows, the rest is proved for any table.
* C89/C90 unification: `Spec/Prog/Logic` has substitution, unifiers and most general unifiers. Every call keeps the set of solutions
  (`unify_right`); that a call with a unifier returns is an induction on the size of the common instance and then on the place of names in the
  substitution (`rank`), in which a name is bound only to younger names (`Ordered`); the most general unifier replaces names until they are free (`Resolves`).
* C91/C92 libregexp9: `Spec/Prog/Regexp9` has expressions as trees with the matching relation (groups included) and the grammar. A
  compiler on trees runs beside the real one (`Proofs/Prog/Regexp9Parse`, `Regexp9Comp`); the code of a tree is a part of the program
  with one way in and out (`Regexp9Frag`), the optimiser skips empty instructions (`Regexp9Opt`), the list of threads covers all runs of
  the program (`Regexp9Exec`, `Regexp9Loop`), and along `next` a number goes down, so runs end (`Regexp9Total`). What is accepted is an expression
  because missing operands are counted and never come back, and the other symbols follow an automaton (`Regexp9Conv`).
* C93 regsub: templates as lists of pieces; a match keeps its groups within it.
* C94 options: `Spec/Lib/Opt` has command lines as an inductive relation (`Line`); a round of the loop is a step of it. `sscanf` with `%f` is a
  parameter, the text of `usage` is not modelled, and numbers that do not fit are undefined, as in the C standard.
* C95-C97 URLs, lines and tables: `Spec/Lib/Text`. The parts of a URL are what `takeWhile` gives; lines are an inductive relation that
  has one solution (`lines_unique`); a printed table is laid out by `Laid` with widths that the first loop finds.
* C98/C99 durations and times: `Spec/Lib/Time` has numbers written with leading zeros (`Field`) or as they are read (`Num`). Doubles are
  exact fractions rounded to 53 bits (`nearest`, `shift`, `double`), with the error bounds in `Proofs/Lib/Time`; fractions of up to three digits are
  checked by the kernel, all of them. The functions that ask for the time, `fromunix`, `sub`, and the format "logfile" are not modelled.
* C100 PNG: `Spec/Lib/Png` reads a file back: chunks, CRC-32 by its polynomial, zlib with stored blocks, Adler-32, lines with filter 0, and the five
  kinds of pixels. The table of `png.c` is compared with the polynomial for all 256 entries. Gray levels are sums of doubles; `Proofs/Lib/PngGray` bounds the error.
* C101 images: `Spec/Lib/Image`: an image shows a function of places. Floats (`blend`, `mix`, `from_hsl`, `from_hsv`, `mapcolor`) and `testimage` are not modelled.
* C102/C103 BMP and PPM: `Spec/Lib/Bmp` says where the fields and samples of a file are.
* C104–C107 HTTP: `Spec/Lib/Http` says what a request is as a relation between texts and requests. Not modelled of `http.c`: `errstr`, `write_404`,
  `write_405`, `write_501`, `serve_text`, `servefile`.
* C108 webserver: inside a directory means equal to it or continued after a slash. The system's `realpath` is a parameter; sockets, threads and logging are not modelled.
* C109 CGI heads: lines `name: value` and an empty line, with LF or CR LF.
* C110–C111 LC-3: `Spec/Prog/Lc3` is the machine of Patt and Patel, 2nd edition, appendix A, without interrupts. What the keyboard holds when it is polled
  and what is typed are lists; the terminal and signals are not modelled.
* C112–C114 CHIP-8: `Spec/Prog/Chip8` is the machine of Cowgod's reference, without `SYS`; shifts are those of `Vx`, and sprites go on at the other side of the screen.
  Random bytes and keys are parameters; the terminal, sound, sleeping, signals and the disassembler are not modelled. Reading `OP` without a value is a panic that begins with "undefined".
* C115/C116 XML: `Spec/Lib/Xml` has trees of elements with attributes, their texts as relations (no character data, comments or references, as the
  code knows none; the space before an attribute's name may be missing), and a cursor in a tree. Texts of error messages, lines and columns are not modelled;
  the loops have fuel, and results hold for all sufficiently large fuel.
* C117/C118 config files: `Spec/Lib/Conf` has lines, comments, keys and values as relations; the program's limits are in `C117_Line`. C119 WebVTT: `Spec/Lib/Vtt` has
  the header, subtitles, their lines and tags as relations; `Shown` says what is left of a text without its tags. Opening files is not modelled, nor is a failing `realloc`.
* C120/C121 WAV: `Spec/Lib/Wav` has little-endian numbers, sounds, the blocks of a file and the rounding of a fraction to 53 bits. A double is a sign and a fraction whose
  operations are exact ones rounded once; infinities, NaNs and subnormal numbers do not occur in reading. `loadfile`'s clips, and opening and closing files, are not modelled.
* C122 random numbers: the state is the 64-bit number of the generator; seeding from the time and the process is not modelled. C123/C124 sort-circle: the array, the sorts and
  the shuffle are modelled; what is drawn and heard is not. An array of different values is asked for only where the program needs it (the quicksort does not end otherwise).
* C125 trim: a file is its bytes; the temporary file, the renaming and the options are not modelled. C126 zipranges: scanf("%d") is modelled as its standard says, numbers out of int as an error of the model.
  C127/C128 statistics: a double is modelled by its place in the order (an integer), so NaN is not covered; qsort is the stable merge sort of Lean's library, of which only that it sorts is used.
* C129-C131 threads: a transition system with one step for each statement of each thread, any scheduler, POSIX mutexes and condition variables with spurious wakeups; memory is sequentially consistent, which the
  mutex gives (that it is held wherever the pipe is used is proved, as otherwise the model fails with "undefined"). Failures of `pthread` functions are not modelled. Of `exab` only the calls of the pipe are modelled.
* C132-C137 torrents: of `lib/formats/torrent.c` the sizes and hashes (not reading and writing `.torrent` files), `prog/torrent/files.c` with a disk of files that can all be opened and written, the messages of
  `prog/torrent/peerproto.c`, and of `prog/torrent/peer.c` how messages are put together from what comes in, and the requests for a piece. Paths fit into their arrays. That `msg_t.data` is used at an odd address
  as a structure of `uint32_t` is not counted as undefined. Not modelled: `ioloop.c`, `tracker.c`, `torrent.c`, and the answers to messages.
* C138-C142 battleship: `game.c`, `ai.c` and the turns and games of `battleship.c`. Not modelled: what is drawn (`render.c`), the log, how keys move the cursor, and `main`; the player chooses any square of the
  board that has not been shelled (`playerturn_getcoords` asks again otherwise). `rnd.intn` gives any numbers below the bound. That a random placement ends is not claimed: it depends on the random numbers.
* C143-C145 `.torrent` files: `parse` and `writefile` of `torrent.c`, and `cmd_create.c`. Not modelled: what is printed, `loadfile`/`free` (the contents of the file are given), and that memory may not suffice. Bytes of the
  array of digests after the last digest are not modelled: only the digests are written.
* C146-C151 `prog/wisp`: `hashtab.c`, the symbols of `eval.c`, `mem.c`, `addslashes`, `eater.c`, and the reader and printer of `eval.c`. Objects are values or numbers (addresses); reference counts, the evaluator, `detach`,
  hashing of objects and arithmetic are not modelled. A float is its text: `strtod` and `%g` are not modelled, only which texts are floats. What is printed for errors and prompts is not modelled.
* C152-C153 `lib/formats/srt.c` (all of it) and `prog/srt2jsonl`. `stdin` is a list of bytes; `sscanf` is modelled for the two formats that are used. The adjustment of times in `prog/srtadjust`, which is done with floats, is not modelled.
* C154-C155 `lib/formats/mp3.c` (all of it but closing, and of a Xing header only the name, since the other fields are read and not used) and `cuespl` and `write_track` of `prog/mp3cuespl`. A file is the list of the bytes that are left and whether a read has met the end. Times do not overflow; names of files, messages and the reading of the list of tracks are not modelled.
* C156 `lib/formats/cue.c` (`parse` and all that it calls). Of an entry only what `readcue` uses is kept, and `sscanf` is modelled for the one format as in C152. An overflow of a number is undefined. Not modelled: `cue_track`, `cue_ntracks`, `pos_us`, which return fields, and the limit of 100 bytes of an error message.
* C157 `prog/mp3cuespl/tracklist.c` (all of it) and `loadtxt` of `prog/mp3cuespl/mp3cuespl.c`. Files open and are read without errors; sums of durations do not overflow.
* C158 `prog/vtt2jsonl` (all of it), on the models of `lib/formats/vtt.c` and of `json.write_string`. C159 `prog/decompose` (all of it but the buffering of the output), on the model of `lib/linereader.c`. C160 `prog/noext` (all of it). Printing does not fail.
* C161 `lib/formats/tiff.c`: `parse`, `read_dir`, `readbytes`, `getstring`. Not modelled: `readfile`, `freefile`, `read_rational`, `typename`, `tagname`. Reading past the end of the data is a panic of the model that begins with "undefined".
* C162 `prog/chargen` (what one client gets): `process_client`, `send_line`, `writech`, `nextch`. What reads and writes return is given; what was sent by a write that failed is not known. Not modelled: `main`, the log.
* C163 `prog/rtf2html` (all of it but the opening of the file). The tokenizer is the bytes that are left; printing does not fail; a control word of 20 bytes or more is undefined.
* C164 `prog/multicut` (all of it but the reading of the numbers with `sscanf`). Printing does not fail.
* C165 `prog/tsmeta/tsmeta.c` (`eval` of expressions and `get_tdef`). Not modelled: `read.c`, `format.c`, the sizes of the arrays (100 types, names of 10 bytes), and the case for `ID` nodes, which `read.c` does not make.
* C166 `prog/datelog` (all of it but the arguments). What the clock says at each line, and whether a file can be opened and written to, is given; a write that fails writes nothing; printing does not fail.
* C167 `prog/jsonl2csv` (all of it). Printing does not fail; `double`s are as in C69.
* C168 `prog/rand` (all of it but the options, and the seed from the clock). Printing does not fail.
* C169 `prog/avg` (all of it but the options). Sums of doubles are taken as exact; how their quotients are printed is given. Printing does not fail, and what is printed before a panic is left out.
* C170 `prog/echo7` (`process_client`, for one client). What reads and writes do is given; the log and the text of the messages are left out.
* C171 `prog/floatbits` (`parse_double` and `printbits`). A double is given by its eight bytes, the lowest one first. The table is not modelled.
* C172 `prog/stats` (`main` up to the call of `print_results`, and `readvals`). What `strtod` reads is given; `print_results` is not modelled.
* C173 `lib/mime.c` (all of it). The table was copied by a script.
