"""Writes /verif/MANIFEST.json from the table below.

Each row: property, status, theorem names (without the Che.Props. prefix), note.
"""
import json, os, re

P = "Che.Props."
ROWS = [
    ("C01", "proved", ["C01_buffer", "C01_meaning", "C01_token", "C01_call", "C01_file"], ""),
    ("C02", "proved", ["C02_token", "C02_grammar", "C02_file"], ""),
    ("C03", "proved", ["C03_longest", "C03_read"], ""),
    ("C04", "proved", ["C04_progress", "C04_stops", "C04_endless", "C04_stuck_forever"],
     "Lexing stops unless it meets a character that starts no token; then it never does."),
    ("C05", "partial", ["C05_partial", "C05_read_partial", "C05_final_newline", "C05_counterexample"],
     "The crashing texts are characterised exactly; they all end inside a literal."),
    ("C06", "proved", ["C06_transparent", "C06_sequence", "C06_every_call_returns", "C06_peek"], ""),
    ("C07", "partial", ["C07_insert_partial", "C07_counterexample"],
     "False directly after a slash, and inside the line of an import or a macro."),
    ("C08", "partial", ["C08_partial", "C08_single", "C08_emitted", "C08_counterexample",
                        "C08_counterexample_backslash"],
     "Holds unless a numeric escape at the end of a part is lengthened by the next one, or a backslash stands "
     "before a line break."),
    ("C09", "partial", ["C09_verbatim", "C09_atom", "C09_translated", "C09_exponent_partial", "C09_counterexample"],
     "Verbatim for every literal; exponents with a plus sign are split."),
    ("C10", "partial", ["C10_path", "C10_namespace_partial", "C10_counterexample"],
     "Path: both directions. Namespace: exact for ASCII file names, false for others."),
    ("C11", "proved", ["C11_load_tree", "C11_project", "C11_needs_finite"],
     "Both directions; finiteness of the reachable graph is needed and shown to be needed."),
    ("C12", "proved", ["C12_dependencies_first"], ""),
    ("C13", "proved", ["C13_each_module_once"], ""),
    ("C14", "proved", ["C14_names_injective"], ""),
    ("C15", "partial", ["C15_iff_partial", "C15_partial", "C15_counterexample"],
     "Exact characterisation; false for file names such as a-b.c."),
    ("C16", "partial", ["C16_partial", "C16_counterexample"],
     "Exact argument list; values are de-duplicated before trimming, so `#link m` gives -l m twice."),
    ("C17", "proved", ["C17_precedence", "C17_accepts_only_grammar", "C17_one_tree", "C17_two_operators"], ""),
    ("C18", "partial", ["C18_expression_stops_partial", "C18_definitions_stop_partial", "C18_budget_decides_partial",
                        "C18_grammatical_stops_partial", "C18_unclosed_body", "C18_counterexample"],
     "False: a body that the file does not close makes the parser loop. Expressions and type definitions always stop, and files of the grammar do."),
    ("C19", "partial", ["C19_crash_reason_partial", "C19_grammatical_partial", "C19_counterexample"],
     "False. Every crash is one of the listed reasons; files of the grammar never crash it."),
    ("C20", "partial", ["C20_module_iff_grammar", "C20_bad_file_fails", "C20_body_errors_partial",
                        "C20_file_errors_partial", "C20_lost_error_counterexample"],
     "Modules come out exactly for the files of the grammar. Errors recorded inside a statement that then fails as a whole are lost."),
    ("C21", "partial", ["C21_partial", "C21_kinds_partial", "C21_counterexample"],
     "Exact for enums, functions, typedefs and structs; `pub typedef struct x y` exports nothing."),
    ("C22", "partial", ["C22_partial", "C22_counterexample"],
     "The comparison of two bools has the type boo."),
    ("C23", "partial", ["C23_arith", "C23_order", "C23_partial", "C23_counterexample",
                        "C23_counterexample_mixed"],
     "Holds for all arithmetic other than + and -, and for + and - on one kind of number or with a constant on "
     "the left; + and - with a constant on the right give the constant's type, on mixed kinds are rejected."),
    ("C24", "partial", ["C24_partial", "C24_counterexample"],
     "Exactly the types made of a name and pointers."),
    ("C25", "proved", ["C25_known", "C25_call", "C25_declared", "C25_local", "C25_imported"],
     "calloc! is typed as its helper."),
    ("C26", "partial", ["C26_partial", "C26_innermost", "C26_expression", "C26_counterexample_main",
                        "C26_C27_counterexample_key"],
     "All mentions of unqualified names in a translated module; false for `main` and composite literal keys."),
    ("C27", "partial", ["C27_partial", "C26_C27_counterexample_key"],
     "Names used as composite literal keys are not looked at."),
    ("C28", "partial", ["C28_partial", "C28_imports_used", "C28_counterexample"],
     "False for a function with a parameter of its own name."),
    ("C29", "partial", ["C29_partial", "C29_counterexample"],
     "False of the code. C29_partial: accepted functions whose last statements are firm (else branches return, loops are while (true) without break, no break out of a switch). C29_counterexample: four accepted functions that reach their end."),
    ("C30", "proved", ["C30_parameters", "C30_fields"], ""),
    ("C31", "partial", ["C31_partial", "C31_bodies_last", "C31_helper_first", "C31_file_partial", "C31_file_order_partial", "C31_project_partial", "C31_counterexample"],
     "The helper for calloc! has no prototype; it comes first instead."),
    ("C32", "proved", ["C32_reordering"], ""),
    ("C33", "partial", ["C33_partial", "C33_functions", "C33_variables", "C33_counterexample"],
     "False for a main that returns a pointer."),
    ("C34", "proved", ["C34_imports"], ""),
    ("C35", "proved", ["C35_switch", "C35_source", "C35_translated", "C35_text"],
     "For any meaning of expressions with lawful scopes; the C statements include fall-through."),
    ("C36", "proved", ["C36_first_equal", "C36_translated", "C36_counterexample"],
     "For values that can be evaluated again without effect, as the property says; the counterexample shows the need."),
    ("C37", "proved", ["C37_panic", "C37_never_returns", "C37_rest", "C37_translated"], "exit(1) is assumed not to return."),
    ("C38", "proved", ["C38_helper", "C38_not_null", "C38_call", "C38_translated", "C38_defined"],
     "exit(1) is assumed not to return; a module that exports its own calloc_or_panic is left out."),
    ("C39", "partial", ["C39_reads_back_partial", "C39_exact_partial", "C39_initializer_partial",
                        "C39_counterexample_minus", "C39_counterexample_index", "C39_counterexample_increment",
                        "C39_counterexample_call", "C39_counterexample_negation", "C39_counterexample_cast"],
     "False of the code; for properly spelt trees the set of trees that are read back is characterised exactly."),
    ("C40", "proved", ["C40_pairing", "C40_one_reading", "C40_reads_back", "C40_grammar_is_ambiguous"],
     "For bodies whose names, literals and operators are C's (PlainSs); without that the text has no reading at all to speak of."),
    ("C41", "partial", ["C41_function_partial", "C41_statements_partial", "C41_text_partial", "C41_file_partial", "C41_project_partial", "C41_counterexample"],
     "False of the code for a break directly in a case of a switch str (C41_counterexample); proved for everything else."),
    ("C42", "partial", ["C42_status", "C42_exact", "C42_partial", "C42_counterexample_build",
                        "C42_counterexample_wrap"],
     "Exact status; false for build failures and multiples of 256 failures."),
    ("C43", "proved", ["C43_project", "C43_build"], ""),
    ("C45", "partial", ["C45_sound", "C45_complete", "C45_rejects", "C45_counterexample"],
     "Accepted files exactly; a stray character inside a typedef hangs."),
    ("C44", "partial", ["C44_partial", "C44_counterexample"],
     "Holds for runs that do not overlap; false for overlapping runs."),
    ("C46", "proved", ["C46_count", "C46_round_trip"], ""),
    ("C47", "proved", ["C47_round_trip", "C47_no_error"], ""),
    ("C48", "partial", ["C48_write4be", "C48_write4le", "C48_write2le", "C48_read4be", "C48_read4le", "C48_read3le",
                        "C48_read2", "C48_round_trip", "C48_short", "C48_counterexample_short"],
     "Values round-trip; short input is reported but the target is overwritten first."),
    ("C49", "partial", ["C49_unpack", "C49_write", "C49_no_error", "C49_read", "C49_end", "C49_round_trip",
                        "C49_readn", "C49_counterexample_memory"],
     "False for memory readers at the end; proved for files."),
    ("C50", "partial", ["C50_lossless_partial", "C50_right_or_panic_partial", "C50_counterexample_end",
                        "C50_counterexample_alphabet", "C50_counterexample_pieces"],
     "False of the code; right when a zero byte follows the compressed data, and never wrong data."),
    ("C51", "proved", ["C51_greedy", "C51_codewidth", "C51_fits", "C51_counterexample_smallest"], ""),
    ("C52", "proved", ["C52_get", "C52_size", "C52_iteration", "C52_large"], ""),
    ("C53", "partial", ["C53_get_partial", "C53_counterexample_empty", "C53_counterexample_longer",
                        "C53_counterexample_shorter"],
     "False of the code; proved for non-empty keys whose values keep their length."),
    ("C54", "proved", ["C54_get"], ""),
    ("C55", "proved", ["C55_queue", "C55_size"], ""),
    ("C56", "proved", ["C56_vector", "C56_append", "C56_remove"], ""),
    ("C57", "partial", ["C57_starts_with", "C57_starts_with_i", "C57_casecmp", "C57_ends_with_partial",
                        "C57_ends_with_complete", "C57_counterexample_ends_with", "C57_rtrim", "C57_trim_partial",
                        "C57_counterexample_trim", "C57_split", "C57_counterexample_split", "C57_digits", "C57_allupper"],
     "False of ends_with and trim; what they do instead is proved exactly. The other functions are right."),
    ("C58", "partial", ["C58_text", "C58_raw", "C58_counterexample_format"],
     "Right, except that formatted text is cut at 999 bytes without an error."),
    ("C59", "partial", ["C59_sha1_partial", "C59_finished", "C59_format", "C59_counterexample_empty", "C59_counterexample_length"],
     "Right for all non-empty messages whose length is below 2^31 - 72 (modulo 2^32); false for the others, which is shown."),
    ("C60", "partial", ["C60_exact", "C60_md5_partial", "C60_table", "C60_sprint", "C60_eq", "C60_counterexample"],
     "What is computed is given exactly: the MD5 of the message up to its first byte 0xFF. The table of sines is proved from the power series."),
    ("C61", "partial", ["C61_file_partial", "C61_read", "C61_counterexample_ff", "C61_counterexample_printf", "C61_counterexample_printf_text"],
     "False of memgetc (byte 0xFF) and memprintf; everything else is right."),
    ("C62", "partial", ["C62_partial", "C62_accepted_partial", "C62_counterexample"],
     "False as stated, one counterexample for each crash. Proved: a crash of the translator means that a module is not fine (Spec/Crash.lean lists what must not be in it), and no project with such a module is accepted."),
    ("C63", "proved", ["C63_printed", "C63_build"], ""),
    ("C64", "proved", ["C64_deptree", "C64_errors"], ""),
    ("C65", "partial", ["C65_printed", "C65_errors", "C65_partial", "C65_counterexample"],
     "What is printed is given exactly; it is Che syntax if every parameter has its own type and ... does not stand alone."),
    ("C66", "partial", ["C66_name", "C66_bare", "C66_here", "C66_partial", "C66_counterexample", "C66_not_full"],
     "False of the code for a source without extension in the current directory, which the executable replaces."),
    ("C67", "partial", ["C67_build", "C67_install", "C67_run", "C67_genc", "C67_errors", "C67_cc_fails", "C67_partial", "C67_counterexample", "C67_genc_crash"],
     "Right for the known commands; an unknown command ends with status 0."),
    ("C68", "partial", ["C68_tokenizer", "C68_pieces", "C68_counterexample", "C68_long_literal"],
     "For files and strings; a literal that a descriptor delivers in two pieces is missed."),
    ("C69", "partial", ["C69_partial", "C69_counterexample", "C69_long_number"],
     "For texts with no escapes but those of quote, backslash and slash, and numbers of less than 100 bytes; false otherwise."),
    ("C70", "partial", ["C70_partial", "C70_refused", "C70_distinct"],
     "Parsing ends, and what is read is exactly what a lenient grammar allows; it need not be JSON."),
    ("C71", "partial", ["C71_partial", "C71_counterexample", "C71_name", "C71_write_string_partial", "C71_write_string_counterexample"],
     "Without control characters, and without quotes and backslashes in names; false otherwise. How a double is printed is a parameter."),
    ("C72", "partial", ["C72_partial", "C72_counterexample", "C72_clone", "C72_put"],
     "Without tabs and line feeds in strings and without quotes and backslashes in names; false otherwise."),
    ("C73", "partial", ["C73_found", "C73_report", "C73_partial", "C73_counterexample"],
     "The report is given exactly; the last line is right when all tests build."),
    ("C74", "partial", ["C74_partial", "C74_counterexample", "C74_false", "C74_long_value", "C74_rest_lost", "C74_unterminated"],
     "When the last field of a record is not empty and values have less than 4096 bytes and no zero; false otherwise."),
    ("C75", "partial", ["C75_partial", "C75_counterexample", "C75_false"], "Without quotes in values; false otherwise."),
    ("C76", "partial", ["C76_partial", "C76_counterexample"],
     "For at most 100 fields, names of at most 4 bytes and no control characters but tabs and line ends; false of longer names."),
    ("C77", "partial", ["C77_partial", "C77_deep", "C77_smallest", "C77_false", "C77_skip_forever", "C77_distinct"],
     "For integers of 32 bits but the smallest and values at most ten deep; false otherwise."),
    ("C78", "partial", ["C78_partial", "C78_counterexample", "C78_false", "C78_read_back"], "For integers of 32 bits but the smallest; false of it."),
    ("C79", "partial", ["C79_partial", "C79_counterexample", "C79_false", "C79_ambiguous"],
     "What is printed is given exactly for keys of at most 100 bytes and the values of C77; the number of bytes not shown is one too many."),
    ("C80", "partial", ["C80_declarations_partial", "C80_one_reading_partial", "C80_reads_back_partial", "C80_project_declarations_partial", "C80_project_partial", "C80_lone_dots", "C80_counterexample"],
     "For modules whose elements are spelt properly; C80_project_*: the files written for accepted projects, with the conditions put on the source modules (Writable, Bracketed). (PlainElem: names, literals and operators are C's, directives keep to one line, nothing is empty, ... follows a parameter). C80_lone_dots and C80_counterexample: f(...) is accepted and printed as no C. Type names are given in advance; the effects of directives on the text are not described."),
    ("C81", "partial", ["C81_round_trip", "C81_short", "C81_counterexample_single", "C81_counterexample_end", "C81_counterexample_empty"],
     "For texts of at least two different characters whose words have at most 16 bits (always so below 4181 characters, C81_short), when as many characters are read as were written; false otherwise. The order of qsort for equal counts is arbitrary."),
    ("C82", "proved", ["C82_optimal", "C82_decodable"], "For every non-empty text and every uniquely decodable code, with Kraft and McMillan's inequality from Mathlib."),
    ("C83", "partial", ["C83_fib", "C83_fits", "C83_counterexample"], "For texts of fewer than 4181 characters; the bound is exact."),
    ("C84", "partial", ["C84_canonical", "C84_complete", "C84_read", "C84_counterexample_pool"], "When 512 nodes are enough: twice the number of values plus the number of lengths at most 512. Every tree that is made has the canonical code, without this condition."),
    ("C85", "partial", ["C85_write", "C85_read", "C85_safe", "C85_strict_partial", "C85_round_trip", "C85_counterexample_surrogate", "C85_counterexample_big"], "Except for surrogates, and for runes from 80000000, of which it is false."),
    ("C86", "proved", ["C86_count", "C86_count_total", "C86_nlen", "C86_full", "C86_len", "C86_first", "C86_last", "C86_sub"], ""),
    ("C87", "proved", ["C87_tables", "C87_alpha", "C87_changes", "C87_upper_lower", "C87_lower_upper", "C87_title", "C87_ascii"], ""),
    ("C88", "partial", ["C88_compare", "C88_dup_partial", "C88_ncpy_partial", "C88_cpy_partial", "C88_cat_partial", "C88_counterexample_cpy", "C88_counterexample_chr", "C88_counterexample_utfecpy"], "For sources that are not empty, and without the terminator. runestrecpy, runestrncat, runestrstr and runestrrchr are not modelled."),
    ("C89", "partial", ["C89_sound", "C89_complete", "C89_steps", "C89_counterexample_occurs", "C89_counterexample_endless", "C89_counterexample_arity"],
     "Proved as far as it is true: every result is right in the sense that a substitution has the unifiers as its solutions and no substitution is returned only if there is no unifier; if there is a unifier a substitution is returned and it has a most general solution. Not true, with counterexamples: for terms without a unifier that would need an infinite term a substitution is returned, or the call does not return; with different numbers of arguments unequal terms are taken for equal or NULL is used."),
    ("C90", "proved", ["C90_round_trip", "C90_read", "C90_run", "C90_counterexample_name"],
     "Longer names and more arguments are written past the end of arrays (undefined behaviour, a panic of its own in the model)."),
    ("C91", "partial", ["C91_match", "C91_no", "C91_ends", "C91_counterexample_bol", "C91_counterexample_list", "C91_counterexample_full"],
     "For texts of one line, or expressions that have no ^ or can match within a line, and when the list of threads is long enough; false otherwise, with counterexamples. Reported matches are right without these conditions. For mp[0].ep = NULL; rregexec (the same for strings of runes) is not modelled."),
    ("C92", "proved", ["C92_accepts", "C92_refuses", "C92_literal", "C92_counterexample_literal", "C92_counterexample_dash"],
     "For UTF-8 texts. That searches find what the expression matches is C91, which is stated for the programs these functions make. For texts with backslashes regcomplit is described by the counterexample only."),
    ("C93", "proved", ["C93_regsub", "C93_null", "C93_template", "C93_counterexample"], "For groups that were asked for; C93_counterexample shows what happens for others. rregsub is not modelled."),
    ("C94", "partial", ["C94_declare", "C94_parse", "C94_unambiguous", "C94_refused_partial", "C94_counterexample", "C94_last", "C94_dispatch"],
     "For all declarations and arguments without zero bytes. Missing: numbers that the type does not hold, for which sscanf has no defined outcome (C94_counterexample; C94_refused_partial says exactly which arguments these are). sscanf with %f is a parameter; the text of usage is not modelled."),
    ("C95", "partial", ["C95_parse", "C95_unambiguous", "C95_refused_partial", "C95_counterexample"],
     "Missing: texts whose parts do not fit, which is false of the code (C95_counterexample; C95_refused_partial says exactly which texts these are)."),
    ("C96", "partial", ["C96_lines", "C96_exists", "C96_any_partial", "C96_counterexample"],
     "Full for files without the bytes 0 and 255; C96_any_partial says what is read of any file."),
    ("C97", "partial", ["C97_print", "C97_push", "C97_gap_partial", "C97_counterexample_gap", "C97_counterexample_row"],
     "The layout is proved for all tables. Missing: the gap, which is false of the code in general."),
    ("C98", "partial", ["C98_mmss", "C98_mmssms", "C98_hhmmssms_partial", "C98_hmmssmmm", "C98_unambiguous", "C98_fits", "C98_parse_partial", "C98_nofraction", "C98_fraction_partial", "C98_fraction", "C98_round_trip_partial", "C98_counterexample_ms", "C98_counterexample_long", "C98_counterexample_hours", "C98_counterexample_fraction", "C98_counterexample_tail"],
     "The texts read are described exactly. Missing: what is false of the code (see the counterexamples); the format \"logfile\" is not modelled."),
    ("C99", "partial", ["C99_round_trip", "C99_parse_partial", "C99_refused", "C99_format", "C99_local_partial", "C99_counterexample_zone", "C99_counterexample_west", "C99_counterexample_fraction", "C99_counterexample_empty", "C99_counterexample_cut", "C99_counterexample_local"],
     "The round trip holds for all times in UTC with numbers that are not negative. Missing: what is false of the code (see the counterexamples). The offset of the zone is a parameter."),
    ("C100", "partial", ["C100_plain", "C100_rgba", "C100_rgb", "C100_gray_partial", "C100_palette_partial", "C100_palette", "C100_wide", "C100_counterexample_gray", "C100_counterexample_alpha"],
     "The file is read back by an independent decoder, for all images that fit. Missing: what is false of the code (see the counterexamples and C100_palette_partial, which is exact)."),
    ("C101", "partial", ["C101_new", "C101_set", "C101_outside", "C101_fill", "C101_apply", "C101_explode", "C101_paste", "C101_paste_negative", "C101_unique"],
     "Missing: what is false of the code (C101_paste_negative). The functions that compute with floats are not modelled."),
    ("C102", "proved", ["C102_bmp", "C102_unique"],
     "For sizes that fit in the header."),
    ("C103", "partial", ["C103_ppm_partial", "C103_gray", "C103_counterexample"],
     "C103_ppm_partial is exact. Missing: what is false of the code (see the counterexample)."),
    ("C104", "partial", ["C104_read", "C104_sound", "C104_unique", "C104_counterexample_many"],
     "Requests of at most 100 headers. Missing: what is false of the code (see the counterexample)."),
    ("C105", "partial", ["C105_written_partial", "C105_counterexample_param", "C105_round_trip", "C105_values", "C105_new", "C105_param", "C105_set", "C105_counterexample_cut", "C105_counterexample_injection"],
     "For addresses that fit and texts without line ends. Missing: what is false of the code (see the counterexamples)."),
    ("C106", "partial", ["C106_header", "C106_method", "C106_counterexample_case"],
     "Missing: what is false of the code (see the counterexample)."),
    ("C107", "partial", ["C107_length_partial", "C107_close", "C107_sound_partial", "C107_counterexample_byte", "C107_counterexample_large", "C107_counterexample_null", "C107_counterexample_negative", "C107_counterexample_end"],
     "For bodies without the byte 255 of at most 1000 bytes. Missing: what is false of the code (see the counterexamples)."),
    ("C108", "partial", ["C108_exact", "C108_serves", "C108_inside_partial", "C108_counterexample", "C108_counterexample_cgi"],
     "What the system's realpath returns is a parameter. Missing: what is false of the code (see the counterexamples)."),
    ("C109", "partial", ["C109_head_partial", "C109_ends", "C109_counterexample_empty", "C109_counterexample_many", "C109_counterexample_long"],
     "For values that are not empty and at most 100 headers. Missing: what is false of the code (see the counterexamples)."),
    ("C110", "partial", ["C110_step_partial", "C110_run_partial", "C110_keyboard", "C110_counterexample_jsrr", "C110_counterexample_in", "C110_counterexample_key"],
     "All instructions but JSRR R7, and IN for bytes below 128. Missing: what is false of the code (see the counterexamples)."),
    ("C111", "partial", ["C111_load_partial", "C111_refused", "C111_counterexample"],
     "What is in the memory after loading, with the extra word. Missing: what is false of the code (see the counterexample)."),
    ("C112", "partial", ["C112_step_partial", "C112_run_partial", "C112_load_partial", "C112_keys", "C112_counterexample_sub", "C112_counterexample_subn", "C112_counterexample_shift", "C112_counterexample_edge", "C112_counterexample_key", "C112_counterexample_large"],
     "All instructions but SUB, SUBN that borrows, shifts of VF, sprites over an edge and waiting for a key. Missing: what is false of the code (see the counterexamples)."),
    ("C113", "partial", ["C113_wait_partial", "C113_counterexample"],
     "The timers run down. Missing: what is false of the code (see the counterexample)."),
    ("C114", "partial", ["C114_draw_partial", "C114_counterexample"],
     "Screens whose number of pixels has changed. Missing: what is false of the code (see the counterexample)."),
    ("C115", "partial", ["C115_walk_partial", "C115_counterexample_depth", "C115_counterexample_files"],
     "All files of elements with attributes, up to four inside each other, and all sequences of moves. Missing: what is false of the code (see the counterexamples)."),
    ("C116", "partial", ["C116_sound", "C116_counterexample_loop", "C116_counterexample_end", "C116_counterexample_rest"],
     "When a walk over the root ends without an error, the text begins with a well-formed file. Missing: what is false of the code (see the counterexamples)."),
    ("C117", "partial", ["C117_pairs_partial", "C117_room", "C117_counterexample", "C117_counterexample_long", "C117_counterexample_255"],
     "All files of lines with only spaces around the separator, no blanks after a value, no = at its beginning, and no more bytes than the arrays have. Missing: what is false of the code (see the counterexamples)."),
    ("C118", "partial", ["C118_reported_partial", "C118_counterexample_number", "C118_counterexample_read"],
     "All files with a line that has no separator or no value are reported after the pairs before it. Missing: that the number is the line's, which is false of the code (see the counterexamples)."),
    ("C119", "partial", ["C119_read_partial", "C119_refused", "C119_header", "C119_times", "C119_counterexample_last", "C119_counterexample_space", "C119_counterexample_long", "C119_counterexample_refused"],
     "All files in which an empty line follows the last subtitle, tags are closed and lines are short; files without the header are refused. Missing: what is false of the code (see the counterexamples)."),
    ("C120", "partial", ["C120_read_partial", "C120_counterexample_truncated", "C120_counterexample_long", "C120_counterexample_refused"],
     "All files with one or two channels, samples of two or three bytes, named values shorter than 1000 bytes and padding. Missing: what is false of the code (see the counterexamples)."),
    ("C121", "partial", ["C121_written_partial", "C121_same", "C121_counterexample_read", "C121_counterexample_loud"],
     "All frames of values between -1 and 1; what was read of 16-bit stereo files is written as the same samples. Missing: what is false of the code (see the counterexamples)."),
    ("C122", "partial", ["C122_intn", "C122_period", "C122_states", "C122_numbers", "C122_uniform", "C122_u_partial", "C122_counterexample_u"],
     "All seeds. Missing: what is false of the code (see the counterexample), and the seed that is taken from the time and the process when none is given."),
    ("C123", "partial", ["C123_sorts", "C123_start", "C123_equal", "C123_radix_partial", "C123_radix_small", "C123_counterexample_radix", "C123_counterexample_empty"],
     "All lengths and orders, for five of the six sorts, and the radix sort for no more than 8 values. Missing: what is false of the code (see the counterexamples)."),
    ("C124", "proved", ["C124_shuffle", "C124_perm", "C124_orders", "C124_then_sorted"],
     "All arrays shorter than 2^31, the limit of int, and all seeds."),
    ("C125", "partial", ["C125_rstrip", "C125_trim_partial", "C125_files", "C125_again", "C125_counterexample_cr", "C125_counterexample_ff", "C125_counterexample_last"],
     "All files without the byte 255 in which each carriage return is before a line feed. Missing: what is false of the code (see the counterexamples), and the options and the temporary file."),
    ("C126", "partial", ["C126_ranges_partial", "C126_exist", "C126_bad", "C126_counterexample_many", "C126_counterexample_greatest"],
     "All inputs of numbers of int. Missing: what is false of the code (see the counterexamples)."),
    ("C127", "partial", ["C127_values", "C127_percentile_partial", "C127_median", "C127_counterexample_100", "C127_counterexample_empty"],
     "All sequences of operations on a series of less than 2^31 values. Missing: what is false of the code (see the counterexamples), and the sum, average and deviation, which are of double."),
    ("C128", "partial", ["C128_sample_partial", "C128_counterexample_large", "C128_counterexample_sum"],
     "All frequencies with a sum below 2^32. Missing: what is false of the code (see the counterexamples)."),
    ("C129", "partial", ["C129_queue", "C129_fifo", "C129_end", "C129_counterexample_closed"],
     "All numbers of threads, all sequences of calls, all interleavings of single statements, spurious wakeups included. Missing: what is false of the code (see the counterexample)."),
    ("C130", "proved", ["C130_waits", "C130_ends"],
     "All numbers of threads, all sequences of calls, all interleavings of single statements."),
    ("C131", "partial", ["C131_requests_partial", "C131_counterexample_none", "C131_counterexample_connect"],
     "All numbers of requests, one worker or more that connects, all interleavings. Missing: what is false of the code (see the counterexamples), and the requests themselves."),
    ("C132", "partial", ["C132_pieces", "C132_counterexample_zero"],
     "All torrents with pieces of some length whose size is below 2^64. Missing: what is false of the code (see the counterexample)."),
    ("C133", "proved", ["C133_map"],
     "All torrents whose size is below 2^64, all ranges inside of them."),
    ("C134", "partial", ["C134_read_partial", "C134_missing", "C134_write_partial", "C134_download", "C134_read_two", "C134_write_two", "C134_counterexample_read", "C134_counterexample_write"],
     "All torrents, all ranges inside of one file and shorter than 2^31. For ranges over the end of a file the theorems say what happens instead. Missing: what is false of the code (see the counterexamples)."),
    ("C135", "partial", ["C135_check_partial", "C135_counterexample_two"],
     "All pieces inside of one file. Missing: what is false of the code (see the counterexample)."),
    ("C136", "partial", ["C136_write", "C136_read", "C136_handshake", "C136_stream", "C136_stream_all", "C136_counterexample_bitfield", "C136_counterexample_length", "C136_counterexample_piece"],
     "All messages, all ways of cutting them into what comes in at once, if the stash has room. Missing: what is false of the code (see the counterexamples), and the answers to messages."),
    ("C137", "proved", ["C137_requests"],
     "All torrents, all pieces whose requests fit into the buffer."),
    ("C138", "partial", ["C138_fleet", "C138_key", "C138_random", "C138_counterexample"],
     "All sequences of attempts. Missing: what is false of the code (see the counterexample). The option -c, with which ships may touch, has no effect in the code: it is not copied to the game."),
    ("C139", "proved", ["C139_truth", "C139_known", "C139_player", "C140_turn"],
     "All games that can be reached with any choices and random numbers."),
    ("C140", "proved", ["C140_turn", "C140_one"],
     "All games that can be reached with any choices and random numbers."),
    ("C141", "proved", ["C141_regular", "C141_blitz", "C141_salvo"],
     "All games."),
    ("C142", "partial", ["C139_player", "C142_partial", "C142_random", "C142_counterexample"],
     "The player always; the computer if it does not shell at random. Missing: what is false of the code (see the counterexample)."),
    ("C143", "partial", ["C143_parse_partial", "C143_counterexample_source", "C143_counterexample_md5sum", "C143_counterexample_large", "C143_counterexample_path", "C143_counterexample_junk"],
     "All dictionaries with different keys, known keys of info and files, texts of fewer than 200 bytes, numbers below 2^31. Missing: what is false of the code (see the counterexamples)."),
    ("C144", "partial", ["C144_create_partial", "C144_counterexample_name", "C144_counterexample_large", "C144_counterexample_full"],
     "All files of less than 2 GB with names of fewer than 200 bytes. Missing: what is false of the code (see the counterexamples). The program has the piece on the stack and asks for memory of the size of the file; that these may fail is not modelled."),
    ("C145", "partial", ["C145_share_partial"],
     "All files of less than 2 GB with names of fewer than 200 bytes; beyond that see the counterexamples of C144."),
    ("C146", "proved", ["C146_table", "C146_symbols"],
     "All insertions; all names, asked for in any order. Names are given as bytes without zeros; they are shorter than 2^32 bytes."),
    ("C147", "partial", ["C147_scope_partial", "C147_counterexample"],
     "All sequences with at most 8 bindings at once. Missing: what is false of the code (see the counterexample)."),
    ("C148", "proved", ["C148_alloc", "C148_free", "C148_distinct", "C148_create"],
     "All reachable pools. mm_destroy, which is not called and releases the wrong pointer, is not modelled; that malloc may fail is not modelled."),
    ("C149", "partial", ["C149_addslashes", "C149_read", "C149_counterexample_memory"],
     "All texts without zeros, read from a file. Missing: texts from memory with byte 255, of which it is false."),
    ("C150", "partial", ["C150_value_partial", "C150_file_partial", "C150_text_partial", "C150_first_line", "C150_counterexample_deep", "C150_counterexample_nan", "C150_counterexample_shebang"],
     "All values without floats, with numbers of 32 bits, names that do not look like something else and at most 30 open brackets. Missing: floats (printing and reading of their digits is not modelled) and what is false of the code (see the counterexamples)."),
    ("C151", "partial", ["C151_reader_partial", "C151_calls_partial", "C151_unbalanced", "C151_counterexample_number", "C151_counterexample_point"],
     "All inputs: every call ends or meets one of the three undefined behaviours named. Missing: what is false of the code (see the counterexamples and C150_counterexample_deep)."),
    ("C152", "partial", ["C152_read_partial", "C152_print", "C152_round_trip", "C152_counterexample_number", "C152_counterexample_empty", "C152_counterexample_file", "C152_counterexample_places", "C152_counterexample_long"],
     "All files of the grammar of Spec/Lib/Srt.lean; printing and reading again for all lists. Missing: what is false of the code (see the counterexamples)."),
    ("C153", "partial", ["C153_partial", "C153_counterexample"],
     "All files of the grammar whose texts have no control characters but tabs and line ends. Missing: what is false of the code (see the counterexample, and those of C152)."),
    ("C154", "partial", ["C154_frames", "C154_info", "C154_panics", "C154_counterexample_shifted", "C154_counterexample_tag", "C154_counterexample_free", "C154_counterexample_only_info", "C154_counterexample_cut"],
     "All files of frames, after any groups of four bytes that do not begin like a header. Missing: what is false of the code (see C154_panics and the counterexamples)."),
    ("C155", "partial", ["C155_split", "C155_info", "C155_counterexample_beyond", "C155_counterexample_first", "C155_counterexample_short", "C155_counterexample_mono", "C155_counterexample_empty"],
     "All files of frames and all positions up to the end; with information, positions more than a frame apart and files of less than 16 megabytes. Missing: what is false of the code (see the counterexamples)."),
    ("C156", "partial", ["C156_read_partial", "C156_refused", "C156_counterexample_frames", "C156_counterexample_keyword", "C156_counterexample_title", "C156_counterexample_index"],
     "All sheets of lines with the keywords REM, PERFORMER, TITLE, FILE, TRACK and INDEX, of any length; positions in whole seconds. Missing: what is false of the code (see the counterexamples)."),
    ("C157", "partial", ["C157_positions_partial", "C157_too_many", "C157_no_number", "C157_counterexample_long", "C157_counterexample_word", "C157_counterexample_title"],
     "All lists of at most a hundred tracks of up to 35:47, in lines of less than 4095 bytes. Missing: what is false of the code (see the counterexamples), and durations with fractions, which C98 is about."),
    ("C158", "partial", ["C158_partial", "C158_refused", "C158_counterexample_last", "C158_counterexample_goes_on"],
     "All files as in C119 whose texts have no characters below 32 but tabs, carriage returns and ends of lines; any file with another first line. Missing: what is false of the code (see the counterexamples)."),
    ("C159", "partial", ["C159_lines_partial", "C159_json", "C159_counterexample_empty", "C159_counterexample_no_members", "C159_counterexample_undefined"],
     "All files of lines with names of less than 100 bytes and messages that do not begin with white space or an escape, without the bytes 0 and 255. Missing: what is false of the code (see the counterexamples)."),
    ("C160", "partial", ["C160_partial", "C160_counterexample"],
     "All arguments: what is cut is the part from the last dot on, unless the dot is the first character. Missing: what is false of the code (see the counterexample)."),
    ("C161", "partial", ["C161_dirs", "C161_string_partial", "C161_counterexample_values", "C161_counterexample_cycle", "C161_counterexample_short"],
     "All data: the directories are read exactly when they are there; strings that are elsewhere in the file. Missing: what is false of the code (see the counterexamples)."),
    ("C162", "partial", ["C162_partial", "C162_counterexample_zero", "C162_counterexample_nothing", "C162_counterexample_failed"],
     "All results of reads and writes. Missing: what is false of the code (see the counterexamples)."),
    ("C163", "partial", ["C163_partial", "C163_refused", "C163_negative", "C163_indent", "C163_counterexample_open", "C163_counterexample_text", "C163_counterexample_group", "C163_counterexample_words"],
     "All files with a head of words without effect and one font, and paragraphs that end with \\par, made of runs with changes of alignment and size and texts with quotes; white space after control words is lost. Missing: other files, of which what is false is in the counterexamples."),
    ("C164", "partial", ["C164_partial", "C164_refused", "C164_counterexample_indented", "C164_counterexample_many", "C164_counterexample_long"],
     "All lists of up to ten numbers, all files of lines of up to 100 words and less than 4095 bytes, with any white space between words and at the end; the numbers are given (sscanf is not modelled). Missing: what is false of the code (see the counterexamples), and empty lines."),
    ("C165", "partial", ["C165_partial", "C165_unique", "C165_values", "C165_result", "C165_unknown", "C165_counterexample_capture", "C165_counterexample_missing"],
     "All types whose name and parameters are used nowhere else: a call has a result just when the expression with the arguments in it has, and it is the same one. Calls with values of types that use only their parameters have results. Missing: what is false of the code (see the counterexamples)."),
    ("C166", "partial", ["C166_partial", "C166_failure", "C166_name", "C166_apart", "C166_counterexample_long", "C166_counterexample_zero"],
     "All inputs of lines without zero bytes that fit the buffer, whatever its size, with or without an end of the last line; all sequences of months. Missing: what is false of the code (see the counterexamples)."),
    ("C167", "partial", ["C167_partial", "C167_empty", "C167_many", "C167_counterexample_quote", "C167_counterexample_number", "C167_counterexample_array"],
     "All inputs of lines that are objects of strings without quotes, numbers that are printed as they are read, booleans and null, or that do not begin with a value. Missing: values with others inside, which are printed as JSON text, and what is false of the code (see the counterexamples)."),
    ("C168", "partial", ["C168_partial", "C168_numbers", "C168_all", "C168_refused", "C168_counterexample_alpha", "C168_counterexample_twice", "C168_counterexample_empty"],
     "All numbers of lines, lengths and seeds, and all selectors with at least one letter, where digits count as selected by a. Missing: what is false of the code (see the counterexamples)."),
    ("C169", "partial", ["C169_partial", "C169_refused", "C169_counterexample_number", "C169_counterexample_column"],
     "All windows of at least one line and all inputs of lines of up to 4095 bytes with times and numbers. Missing: how quotients are printed, and what is false of the code (see the counterexamples)."),
    ("C170", "partial", ["C170_partial", "C170_prefix", "C170_silent", "C170_ends", "C170_counterexample_short"],
     "All bytes, splits and results. Missing: what is false of the code (see the counterexample), other clients, and the text of the messages."),
    ("C171", "partial", ["C171_partial", "C171_exponent", "C171_counterexample_mantissa"],
     "All doubles; the bits of the exponent are printed with the lowest one first. Missing: the table, the text of the value, and what is false of the code (see the counterexample)."),
    ("C172", "partial", ["C172_partial", "C172_empty", "C172_uneven", "C172_counterexample_columns"],
     "All inputs of lines of up to 4095 bytes, all of which end with an end of line, and all functions for strtod. Missing: what is printed of the series, and what is false of the code (see the counterexample)."),
    ("C173", "partial", ["C173_partial", "C173_found", "C173_once", "C173_none", "C173_known", "C173_counterexample_ppt", "C173_counterexample_webp", "C173_counterexample_missing"],
     "All texts. Missing: what is false of the code (see the counterexamples)."),
]

root = os.path.dirname(os.path.dirname(os.path.abspath(__file__)))
src = ""
for d, _, fs in os.walk(os.path.join(root, "lean", "Verif")):
    for f in fs:
        src += open(os.path.join(d, f)).read() if f.endswith(".lean") else ""
claims = []
for prop, status, thms, note in sorted(ROWS):
    for t in thms:
        assert re.search(r"theorem %s\b" % re.escape(t), src), t
    claims.append({"property": prop, "status": status, "theorems": [P + t for t in thms], "note": note})
with open(os.path.join(root, "MANIFEST.json"), "w") as f:
    json.dump({"claims": claims}, f, indent=1)
    f.write("\n")
print(len(claims), "claims")
