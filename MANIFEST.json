{
 "claims": [
  {
   "property": "C01",
   "status": "proved",
   "theorems": [
    "Che.Props.C01_buffer",
    "Che.Props.C01_meaning",
    "Che.Props.C01_token",
    "Che.Props.C01_call",
    "Che.Props.C01_file"
   ],
   "note": ""
  },
  {
   "property": "C02",
   "status": "proved",
   "theorems": [
    "Che.Props.C02_token",
    "Che.Props.C02_grammar",
    "Che.Props.C02_file"
   ],
   "note": ""
  },
  {
   "property": "C03",
   "status": "proved",
   "theorems": [
    "Che.Props.C03_longest",
    "Che.Props.C03_read"
   ],
   "note": ""
  },
  {
   "property": "C04",
   "status": "proved",
   "theorems": [
    "Che.Props.C04_progress",
    "Che.Props.C04_stops",
    "Che.Props.C04_endless",
    "Che.Props.C04_stuck_forever"
   ],
   "note": "Lexing stops unless it meets a character that starts no token; then it never does."
  },
  {
   "property": "C05",
   "status": "partial",
   "theorems": [
    "Che.Props.C05_partial",
    "Che.Props.C05_read_partial",
    "Che.Props.C05_final_newline",
    "Che.Props.C05_counterexample"
   ],
   "note": "The crashing texts are characterised exactly; they all end inside a literal."
  },
  {
   "property": "C06",
   "status": "proved",
   "theorems": [
    "Che.Props.C06_transparent",
    "Che.Props.C06_sequence",
    "Che.Props.C06_every_call_returns",
    "Che.Props.C06_peek"
   ],
   "note": ""
  },
  {
   "property": "C07",
   "status": "partial",
   "theorems": [
    "Che.Props.C07_insert_partial",
    "Che.Props.C07_counterexample"
   ],
   "note": "False directly after a slash, and inside the line of an import or a macro."
  },
  {
   "property": "C08",
   "status": "partial",
   "theorems": [
    "Che.Props.C08_partial",
    "Che.Props.C08_single",
    "Che.Props.C08_emitted",
    "Che.Props.C08_counterexample",
    "Che.Props.C08_counterexample_backslash"
   ],
   "note": "Holds unless a numeric escape at the end of a part is lengthened by the next one, or a backslash stands before a line break."
  },
  {
   "property": "C09",
   "status": "partial",
   "theorems": [
    "Che.Props.C09_verbatim",
    "Che.Props.C09_atom",
    "Che.Props.C09_translated",
    "Che.Props.C09_exponent_partial",
    "Che.Props.C09_counterexample"
   ],
   "note": "Verbatim for every literal; exponents with a plus sign are split."
  },
  {
   "property": "C10",
   "status": "partial",
   "theorems": [
    "Che.Props.C10_path",
    "Che.Props.C10_namespace_partial",
    "Che.Props.C10_counterexample"
   ],
   "note": "Path: both directions. Namespace: exact for ASCII file names, false for others."
  },
  {
   "property": "C100",
   "status": "partial",
   "theorems": [
    "Che.Props.C100_plain",
    "Che.Props.C100_rgba",
    "Che.Props.C100_rgb",
    "Che.Props.C100_gray_partial",
    "Che.Props.C100_palette_partial",
    "Che.Props.C100_palette",
    "Che.Props.C100_wide",
    "Che.Props.C100_counterexample_gray",
    "Che.Props.C100_counterexample_alpha"
   ],
   "note": "The file is read back by an independent decoder, for all images that fit. Missing: what is false of the code (see the counterexamples and C100_palette_partial, which is exact)."
  },
  {
   "property": "C101",
   "status": "partial",
   "theorems": [
    "Che.Props.C101_new",
    "Che.Props.C101_set",
    "Che.Props.C101_outside",
    "Che.Props.C101_fill",
    "Che.Props.C101_apply",
    "Che.Props.C101_explode",
    "Che.Props.C101_paste",
    "Che.Props.C101_paste_negative",
    "Che.Props.C101_unique"
   ],
   "note": "Missing: what is false of the code (C101_paste_negative). The functions that compute with floats are not modelled."
  },
  {
   "property": "C102",
   "status": "proved",
   "theorems": [
    "Che.Props.C102_bmp",
    "Che.Props.C102_unique"
   ],
   "note": "For sizes that fit in the header."
  },
  {
   "property": "C103",
   "status": "partial",
   "theorems": [
    "Che.Props.C103_ppm_partial",
    "Che.Props.C103_gray",
    "Che.Props.C103_counterexample"
   ],
   "note": "C103_ppm_partial is exact. Missing: what is false of the code (see the counterexample)."
  },
  {
   "property": "C104",
   "status": "partial",
   "theorems": [
    "Che.Props.C104_read",
    "Che.Props.C104_sound",
    "Che.Props.C104_unique",
    "Che.Props.C104_counterexample_many"
   ],
   "note": "Requests of at most 100 headers. Missing: what is false of the code (see the counterexample)."
  },
  {
   "property": "C105",
   "status": "partial",
   "theorems": [
    "Che.Props.C105_written_partial",
    "Che.Props.C105_counterexample_param",
    "Che.Props.C105_round_trip",
    "Che.Props.C105_values",
    "Che.Props.C105_new",
    "Che.Props.C105_param",
    "Che.Props.C105_set",
    "Che.Props.C105_counterexample_cut",
    "Che.Props.C105_counterexample_injection"
   ],
   "note": "For addresses that fit and texts without line ends. Missing: what is false of the code (see the counterexamples)."
  },
  {
   "property": "C106",
   "status": "partial",
   "theorems": [
    "Che.Props.C106_header",
    "Che.Props.C106_method",
    "Che.Props.C106_counterexample_case"
   ],
   "note": "Missing: what is false of the code (see the counterexample)."
  },
  {
   "property": "C107",
   "status": "partial",
   "theorems": [
    "Che.Props.C107_length_partial",
    "Che.Props.C107_close",
    "Che.Props.C107_sound_partial",
    "Che.Props.C107_counterexample_byte",
    "Che.Props.C107_counterexample_large",
    "Che.Props.C107_counterexample_null",
    "Che.Props.C107_counterexample_negative",
    "Che.Props.C107_counterexample_end"
   ],
   "note": "For bodies without the byte 255 of at most 1000 bytes. Missing: what is false of the code (see the counterexamples)."
  },
  {
   "property": "C108",
   "status": "partial",
   "theorems": [
    "Che.Props.C108_exact",
    "Che.Props.C108_serves",
    "Che.Props.C108_inside_partial",
    "Che.Props.C108_counterexample",
    "Che.Props.C108_counterexample_cgi"
   ],
   "note": "What the system's realpath returns is a parameter. Missing: what is false of the code (see the counterexamples)."
  },
  {
   "property": "C109",
   "status": "partial",
   "theorems": [
    "Che.Props.C109_head_partial",
    "Che.Props.C109_ends",
    "Che.Props.C109_counterexample_empty",
    "Che.Props.C109_counterexample_many",
    "Che.Props.C109_counterexample_long"
   ],
   "note": "For values that are not empty and at most 100 headers. Missing: what is false of the code (see the counterexamples)."
  },
  {
   "property": "C11",
   "status": "proved",
   "theorems": [
    "Che.Props.C11_load_tree",
    "Che.Props.C11_project",
    "Che.Props.C11_needs_finite"
   ],
   "note": "Both directions; finiteness of the reachable graph is needed and shown to be needed."
  },
  {
   "property": "C110",
   "status": "partial",
   "theorems": [
    "Che.Props.C110_step_partial",
    "Che.Props.C110_run_partial",
    "Che.Props.C110_keyboard",
    "Che.Props.C110_counterexample_jsrr",
    "Che.Props.C110_counterexample_in",
    "Che.Props.C110_counterexample_key"
   ],
   "note": "All instructions but JSRR R7, and IN for bytes below 128. Missing: what is false of the code (see the counterexamples)."
  },
  {
   "property": "C111",
   "status": "partial",
   "theorems": [
    "Che.Props.C111_load_partial",
    "Che.Props.C111_refused",
    "Che.Props.C111_counterexample"
   ],
   "note": "What is in the memory after loading, with the extra word. Missing: what is false of the code (see the counterexample)."
  },
  {
   "property": "C112",
   "status": "partial",
   "theorems": [
    "Che.Props.C112_step_partial",
    "Che.Props.C112_run_partial",
    "Che.Props.C112_load_partial",
    "Che.Props.C112_keys",
    "Che.Props.C112_counterexample_sub",
    "Che.Props.C112_counterexample_subn",
    "Che.Props.C112_counterexample_shift",
    "Che.Props.C112_counterexample_edge",
    "Che.Props.C112_counterexample_key",
    "Che.Props.C112_counterexample_large"
   ],
   "note": "All instructions but SUB, SUBN that borrows, shifts of VF, sprites over an edge and waiting for a key. Missing: what is false of the code (see the counterexamples)."
  },
  {
   "property": "C113",
   "status": "partial",
   "theorems": [
    "Che.Props.C113_wait_partial",
    "Che.Props.C113_counterexample"
   ],
   "note": "The timers run down. Missing: what is false of the code (see the counterexample)."
  },
  {
   "property": "C114",
   "status": "partial",
   "theorems": [
    "Che.Props.C114_draw_partial",
    "Che.Props.C114_counterexample"
   ],
   "note": "Screens whose number of pixels has changed. Missing: what is false of the code (see the counterexample)."
  },
  {
   "property": "C115",
   "status": "partial",
   "theorems": [
    "Che.Props.C115_walk_partial",
    "Che.Props.C115_counterexample_depth",
    "Che.Props.C115_counterexample_files"
   ],
   "note": "All files of elements with attributes, up to four inside each other, and all sequences of moves. Missing: what is false of the code (see the counterexamples)."
  },
  {
   "property": "C116",
   "status": "partial",
   "theorems": [
    "Che.Props.C116_sound",
    "Che.Props.C116_counterexample_loop",
    "Che.Props.C116_counterexample_end",
    "Che.Props.C116_counterexample_rest"
   ],
   "note": "When a walk over the root ends without an error, the text begins with a well-formed file. Missing: what is false of the code (see the counterexamples)."
  },
  {
   "property": "C117",
   "status": "partial",
   "theorems": [
    "Che.Props.C117_pairs_partial",
    "Che.Props.C117_room",
    "Che.Props.C117_counterexample",
    "Che.Props.C117_counterexample_long",
    "Che.Props.C117_counterexample_255"
   ],
   "note": "All files of lines with only spaces around the separator, no blanks after a value, no = at its beginning, and no more bytes than the arrays have. Missing: what is false of the code (see the counterexamples)."
  },
  {
   "property": "C118",
   "status": "partial",
   "theorems": [
    "Che.Props.C118_reported_partial",
    "Che.Props.C118_counterexample_number",
    "Che.Props.C118_counterexample_read"
   ],
   "note": "All files with a line that has no separator or no value are reported after the pairs before it. Missing: that the number is the line's, which is false of the code (see the counterexamples)."
  },
  {
   "property": "C119",
   "status": "partial",
   "theorems": [
    "Che.Props.C119_read_partial",
    "Che.Props.C119_refused",
    "Che.Props.C119_header",
    "Che.Props.C119_times",
    "Che.Props.C119_counterexample_last",
    "Che.Props.C119_counterexample_space",
    "Che.Props.C119_counterexample_long",
    "Che.Props.C119_counterexample_refused"
   ],
   "note": "All files in which an empty line follows the last subtitle, tags are closed and lines are short; files without the header are refused. Missing: what is false of the code (see the counterexamples)."
  },
  {
   "property": "C12",
   "status": "proved",
   "theorems": [
    "Che.Props.C12_dependencies_first"
   ],
   "note": ""
  },
  {
   "property": "C120",
   "status": "partial",
   "theorems": [
    "Che.Props.C120_read_partial",
    "Che.Props.C120_counterexample_truncated",
    "Che.Props.C120_counterexample_long",
    "Che.Props.C120_counterexample_refused"
   ],
   "note": "All files with one or two channels, samples of two or three bytes, named values shorter than 1000 bytes and padding. Missing: what is false of the code (see the counterexamples)."
  },
  {
   "property": "C121",
   "status": "partial",
   "theorems": [
    "Che.Props.C121_written_partial",
    "Che.Props.C121_same",
    "Che.Props.C121_counterexample_read",
    "Che.Props.C121_counterexample_loud"
   ],
   "note": "All frames of values between -1 and 1; what was read of 16-bit stereo files is written as the same samples. Missing: what is false of the code (see the counterexamples)."
  },
  {
   "property": "C122",
   "status": "partial",
   "theorems": [
    "Che.Props.C122_intn",
    "Che.Props.C122_period",
    "Che.Props.C122_states",
    "Che.Props.C122_numbers",
    "Che.Props.C122_uniform",
    "Che.Props.C122_u_partial",
    "Che.Props.C122_counterexample_u"
   ],
   "note": "All seeds. Missing: what is false of the code (see the counterexample), and the seed that is taken from the time and the process when none is given."
  },
  {
   "property": "C123",
   "status": "partial",
   "theorems": [
    "Che.Props.C123_sorts",
    "Che.Props.C123_start",
    "Che.Props.C123_equal",
    "Che.Props.C123_radix_partial",
    "Che.Props.C123_radix_small",
    "Che.Props.C123_counterexample_radix",
    "Che.Props.C123_counterexample_empty"
   ],
   "note": "All lengths and orders, for five of the six sorts, and the radix sort for no more than 8 values. Missing: what is false of the code (see the counterexamples)."
  },
  {
   "property": "C124",
   "status": "proved",
   "theorems": [
    "Che.Props.C124_shuffle",
    "Che.Props.C124_perm",
    "Che.Props.C124_orders",
    "Che.Props.C124_then_sorted"
   ],
   "note": "All arrays shorter than 2^31, the limit of int, and all seeds."
  },
  {
   "property": "C125",
   "status": "partial",
   "theorems": [
    "Che.Props.C125_rstrip",
    "Che.Props.C125_trim_partial",
    "Che.Props.C125_files",
    "Che.Props.C125_again",
    "Che.Props.C125_counterexample_cr",
    "Che.Props.C125_counterexample_ff",
    "Che.Props.C125_counterexample_last"
   ],
   "note": "All files without the byte 255 in which each carriage return is before a line feed. Missing: what is false of the code (see the counterexamples), and the options and the temporary file."
  },
  {
   "property": "C126",
   "status": "partial",
   "theorems": [
    "Che.Props.C126_ranges_partial",
    "Che.Props.C126_exist",
    "Che.Props.C126_bad",
    "Che.Props.C126_counterexample_many",
    "Che.Props.C126_counterexample_greatest"
   ],
   "note": "All inputs of numbers of int. Missing: what is false of the code (see the counterexamples)."
  },
  {
   "property": "C127",
   "status": "partial",
   "theorems": [
    "Che.Props.C127_values",
    "Che.Props.C127_percentile_partial",
    "Che.Props.C127_median",
    "Che.Props.C127_counterexample_100",
    "Che.Props.C127_counterexample_empty"
   ],
   "note": "All sequences of operations on a series of less than 2^31 values. Missing: what is false of the code (see the counterexamples), and the sum, average and deviation, which are of double."
  },
  {
   "property": "C128",
   "status": "partial",
   "theorems": [
    "Che.Props.C128_sample_partial",
    "Che.Props.C128_counterexample_large",
    "Che.Props.C128_counterexample_sum"
   ],
   "note": "All frequencies with a sum below 2^32. Missing: what is false of the code (see the counterexamples)."
  },
  {
   "property": "C129",
   "status": "partial",
   "theorems": [
    "Che.Props.C129_queue",
    "Che.Props.C129_fifo",
    "Che.Props.C129_end",
    "Che.Props.C129_counterexample_closed"
   ],
   "note": "All numbers of threads, all sequences of calls, all interleavings of single statements, spurious wakeups included. Missing: what is false of the code (see the counterexample)."
  },
  {
   "property": "C13",
   "status": "proved",
   "theorems": [
    "Che.Props.C13_each_module_once"
   ],
   "note": ""
  },
  {
   "property": "C130",
   "status": "proved",
   "theorems": [
    "Che.Props.C130_waits",
    "Che.Props.C130_ends"
   ],
   "note": "All numbers of threads, all sequences of calls, all interleavings of single statements."
  },
  {
   "property": "C131",
   "status": "partial",
   "theorems": [
    "Che.Props.C131_requests_partial",
    "Che.Props.C131_counterexample_none",
    "Che.Props.C131_counterexample_connect"
   ],
   "note": "All numbers of requests, one worker or more that connects, all interleavings. Missing: what is false of the code (see the counterexamples), and the requests themselves."
  },
  {
   "property": "C132",
   "status": "partial",
   "theorems": [
    "Che.Props.C132_pieces",
    "Che.Props.C132_counterexample_zero"
   ],
   "note": "All torrents with pieces of some length whose size is below 2^64. Missing: what is false of the code (see the counterexample)."
  },
  {
   "property": "C133",
   "status": "proved",
   "theorems": [
    "Che.Props.C133_map"
   ],
   "note": "All torrents whose size is below 2^64, all ranges inside of them."
  },
  {
   "property": "C134",
   "status": "partial",
   "theorems": [
    "Che.Props.C134_read_partial",
    "Che.Props.C134_missing",
    "Che.Props.C134_write_partial",
    "Che.Props.C134_download",
    "Che.Props.C134_read_two",
    "Che.Props.C134_write_two",
    "Che.Props.C134_counterexample_read",
    "Che.Props.C134_counterexample_write"
   ],
   "note": "All torrents, all ranges inside of one file and shorter than 2^31. For ranges over the end of a file the theorems say what happens instead. Missing: what is false of the code (see the counterexamples)."
  },
  {
   "property": "C135",
   "status": "partial",
   "theorems": [
    "Che.Props.C135_check_partial",
    "Che.Props.C135_counterexample_two"
   ],
   "note": "All pieces inside of one file. Missing: what is false of the code (see the counterexample)."
  },
  {
   "property": "C136",
   "status": "partial",
   "theorems": [
    "Che.Props.C136_write",
    "Che.Props.C136_read",
    "Che.Props.C136_handshake",
    "Che.Props.C136_stream",
    "Che.Props.C136_stream_all",
    "Che.Props.C136_counterexample_bitfield",
    "Che.Props.C136_counterexample_length",
    "Che.Props.C136_counterexample_piece"
   ],
   "note": "All messages, all ways of cutting them into what comes in at once, if the stash has room. Missing: what is false of the code (see the counterexamples), and the answers to messages."
  },
  {
   "property": "C137",
   "status": "proved",
   "theorems": [
    "Che.Props.C137_requests"
   ],
   "note": "All torrents, all pieces whose requests fit into the buffer."
  },
  {
   "property": "C138",
   "status": "partial",
   "theorems": [
    "Che.Props.C138_fleet",
    "Che.Props.C138_key",
    "Che.Props.C138_random",
    "Che.Props.C138_counterexample"
   ],
   "note": "All sequences of attempts. Missing: what is false of the code (see the counterexample). The option -c, with which ships may touch, has no effect in the code: it is not copied to the game."
  },
  {
   "property": "C139",
   "status": "proved",
   "theorems": [
    "Che.Props.C139_truth",
    "Che.Props.C139_known",
    "Che.Props.C139_player",
    "Che.Props.C140_turn"
   ],
   "note": "All games that can be reached with any choices and random numbers."
  },
  {
   "property": "C14",
   "status": "proved",
   "theorems": [
    "Che.Props.C14_names_injective"
   ],
   "note": ""
  },
  {
   "property": "C140",
   "status": "proved",
   "theorems": [
    "Che.Props.C140_turn",
    "Che.Props.C140_one"
   ],
   "note": "All games that can be reached with any choices and random numbers."
  },
  {
   "property": "C141",
   "status": "proved",
   "theorems": [
    "Che.Props.C141_regular",
    "Che.Props.C141_blitz",
    "Che.Props.C141_salvo"
   ],
   "note": "All games."
  },
  {
   "property": "C142",
   "status": "partial",
   "theorems": [
    "Che.Props.C139_player",
    "Che.Props.C142_partial",
    "Che.Props.C142_random",
    "Che.Props.C142_counterexample"
   ],
   "note": "The player always; the computer if it does not shell at random. Missing: what is false of the code (see the counterexample)."
  },
  {
   "property": "C143",
   "status": "partial",
   "theorems": [
    "Che.Props.C143_parse_partial",
    "Che.Props.C143_counterexample_source",
    "Che.Props.C143_counterexample_md5sum",
    "Che.Props.C143_counterexample_large",
    "Che.Props.C143_counterexample_path",
    "Che.Props.C143_counterexample_junk"
   ],
   "note": "All dictionaries with different keys, known keys of info and files, texts of fewer than 200 bytes, numbers below 2^31. Missing: what is false of the code (see the counterexamples)."
  },
  {
   "property": "C144",
   "status": "partial",
   "theorems": [
    "Che.Props.C144_create_partial",
    "Che.Props.C144_counterexample_name",
    "Che.Props.C144_counterexample_large",
    "Che.Props.C144_counterexample_full"
   ],
   "note": "All files of less than 2 GB with names of fewer than 200 bytes. Missing: what is false of the code (see the counterexamples). The program has the piece on the stack and asks for memory of the size of the file; that these may fail is not modelled."
  },
  {
   "property": "C145",
   "status": "partial",
   "theorems": [
    "Che.Props.C145_share_partial"
   ],
   "note": "All files of less than 2 GB with names of fewer than 200 bytes; beyond that see the counterexamples of C144."
  },
  {
   "property": "C146",
   "status": "proved",
   "theorems": [
    "Che.Props.C146_table",
    "Che.Props.C146_symbols"
   ],
   "note": "All insertions; all names, asked for in any order. Names are given as bytes without zeros; they are shorter than 2^32 bytes."
  },
  {
   "property": "C147",
   "status": "partial",
   "theorems": [
    "Che.Props.C147_scope_partial",
    "Che.Props.C147_counterexample"
   ],
   "note": "All sequences with at most 8 bindings at once. Missing: what is false of the code (see the counterexample)."
  },
  {
   "property": "C148",
   "status": "proved",
   "theorems": [
    "Che.Props.C148_alloc",
    "Che.Props.C148_free",
    "Che.Props.C148_distinct",
    "Che.Props.C148_create"
   ],
   "note": "All reachable pools. mm_destroy, which is not called and releases the wrong pointer, is not modelled; that malloc may fail is not modelled."
  },
  {
   "property": "C149",
   "status": "partial",
   "theorems": [
    "Che.Props.C149_addslashes",
    "Che.Props.C149_read",
    "Che.Props.C149_counterexample_memory"
   ],
   "note": "All texts without zeros, read from a file. Missing: texts from memory with byte 255, of which it is false."
  },
  {
   "property": "C15",
   "status": "partial",
   "theorems": [
    "Che.Props.C15_iff_partial",
    "Che.Props.C15_partial",
    "Che.Props.C15_counterexample"
   ],
   "note": "Exact characterisation; false for file names such as a-b.c."
  },
  {
   "property": "C150",
   "status": "partial",
   "theorems": [
    "Che.Props.C150_value_partial",
    "Che.Props.C150_file_partial",
    "Che.Props.C150_text_partial",
    "Che.Props.C150_first_line",
    "Che.Props.C150_counterexample_deep",
    "Che.Props.C150_counterexample_nan",
    "Che.Props.C150_counterexample_shebang"
   ],
   "note": "All values without floats, with numbers of 32 bits, names that do not look like something else and at most 30 open brackets. Missing: floats (printing and reading of their digits is not modelled) and what is false of the code (see the counterexamples)."
  },
  {
   "property": "C151",
   "status": "partial",
   "theorems": [
    "Che.Props.C151_reader_partial",
    "Che.Props.C151_calls_partial",
    "Che.Props.C151_unbalanced",
    "Che.Props.C151_counterexample_number",
    "Che.Props.C151_counterexample_point"
   ],
   "note": "All inputs: every call ends or meets one of the three undefined behaviours named. Missing: what is false of the code (see the counterexamples and C150_counterexample_deep)."
  },
  {
   "property": "C152",
   "status": "partial",
   "theorems": [
    "Che.Props.C152_read_partial",
    "Che.Props.C152_print",
    "Che.Props.C152_round_trip",
    "Che.Props.C152_counterexample_number",
    "Che.Props.C152_counterexample_empty",
    "Che.Props.C152_counterexample_file",
    "Che.Props.C152_counterexample_places",
    "Che.Props.C152_counterexample_long"
   ],
   "note": "All files of the grammar of Spec/Lib/Srt.lean; printing and reading again for all lists. Missing: what is false of the code (see the counterexamples)."
  },
  {
   "property": "C153",
   "status": "partial",
   "theorems": [
    "Che.Props.C153_partial",
    "Che.Props.C153_counterexample"
   ],
   "note": "All files of the grammar whose texts have no control characters but tabs and line ends. Missing: what is false of the code (see the counterexample, and those of C152)."
  },
  {
   "property": "C154",
   "status": "partial",
   "theorems": [
    "Che.Props.C154_frames",
    "Che.Props.C154_info",
    "Che.Props.C154_panics",
    "Che.Props.C154_counterexample_shifted",
    "Che.Props.C154_counterexample_tag",
    "Che.Props.C154_counterexample_free",
    "Che.Props.C154_counterexample_only_info",
    "Che.Props.C154_counterexample_cut"
   ],
   "note": "All files of frames, after any groups of four bytes that do not begin like a header. Missing: what is false of the code (see C154_panics and the counterexamples)."
  },
  {
   "property": "C155",
   "status": "partial",
   "theorems": [
    "Che.Props.C155_split",
    "Che.Props.C155_info",
    "Che.Props.C155_counterexample_beyond",
    "Che.Props.C155_counterexample_first",
    "Che.Props.C155_counterexample_short",
    "Che.Props.C155_counterexample_mono",
    "Che.Props.C155_counterexample_empty"
   ],
   "note": "All files of frames and all positions up to the end; with information, positions more than a frame apart and files of less than 16 megabytes. Missing: what is false of the code (see the counterexamples)."
  },
  {
   "property": "C156",
   "status": "partial",
   "theorems": [
    "Che.Props.C156_read_partial",
    "Che.Props.C156_refused",
    "Che.Props.C156_counterexample_frames",
    "Che.Props.C156_counterexample_keyword",
    "Che.Props.C156_counterexample_title",
    "Che.Props.C156_counterexample_index"
   ],
   "note": "All sheets of lines with the keywords REM, PERFORMER, TITLE, FILE, TRACK and INDEX, of any length; positions in whole seconds. Missing: what is false of the code (see the counterexamples)."
  },
  {
   "property": "C157",
   "status": "partial",
   "theorems": [
    "Che.Props.C157_positions_partial",
    "Che.Props.C157_too_many",
    "Che.Props.C157_no_number",
    "Che.Props.C157_counterexample_long",
    "Che.Props.C157_counterexample_word",
    "Che.Props.C157_counterexample_title"
   ],
   "note": "All lists of at most a hundred tracks of up to 35:47, in lines of less than 4095 bytes. Missing: what is false of the code (see the counterexamples), and durations with fractions, which C98 is about."
  },
  {
   "property": "C158",
   "status": "partial",
   "theorems": [
    "Che.Props.C158_partial",
    "Che.Props.C158_refused",
    "Che.Props.C158_counterexample_last",
    "Che.Props.C158_counterexample_goes_on"
   ],
   "note": "All files as in C119 whose texts have no characters below 32 but tabs, carriage returns and ends of lines; any file with another first line. Missing: what is false of the code (see the counterexamples)."
  },
  {
   "property": "C159",
   "status": "partial",
   "theorems": [
    "Che.Props.C159_lines_partial",
    "Che.Props.C159_json",
    "Che.Props.C159_counterexample_empty",
    "Che.Props.C159_counterexample_no_members",
    "Che.Props.C159_counterexample_undefined"
   ],
   "note": "All files of lines with names of less than 100 bytes and messages that do not begin with white space or an escape, without the bytes 0 and 255. Missing: what is false of the code (see the counterexamples)."
  },
  {
   "property": "C16",
   "status": "partial",
   "theorems": [
    "Che.Props.C16_partial",
    "Che.Props.C16_counterexample"
   ],
   "note": "Exact argument list; values are de-duplicated before trimming, so `#link m` gives -l m twice."
  },
  {
   "property": "C160",
   "status": "partial",
   "theorems": [
    "Che.Props.C160_partial",
    "Che.Props.C160_counterexample"
   ],
   "note": "All arguments: what is cut is the part from the last dot on, unless the dot is the first character. Missing: what is false of the code (see the counterexample)."
  },
  {
   "property": "C161",
   "status": "partial",
   "theorems": [
    "Che.Props.C161_dirs",
    "Che.Props.C161_string_partial",
    "Che.Props.C161_counterexample_values",
    "Che.Props.C161_counterexample_cycle",
    "Che.Props.C161_counterexample_short"
   ],
   "note": "All data: the directories are read exactly when they are there; strings that are elsewhere in the file. Missing: what is false of the code (see the counterexamples)."
  },
  {
   "property": "C162",
   "status": "partial",
   "theorems": [
    "Che.Props.C162_partial",
    "Che.Props.C162_counterexample_zero",
    "Che.Props.C162_counterexample_nothing",
    "Che.Props.C162_counterexample_failed"
   ],
   "note": "All results of reads and writes. Missing: what is false of the code (see the counterexamples)."
  },
  {
   "property": "C163",
   "status": "partial",
   "theorems": [
    "Che.Props.C163_partial",
    "Che.Props.C163_refused",
    "Che.Props.C163_negative",
    "Che.Props.C163_indent",
    "Che.Props.C163_counterexample_open",
    "Che.Props.C163_counterexample_text",
    "Che.Props.C163_counterexample_group",
    "Che.Props.C163_counterexample_words"
   ],
   "note": "All files with a head of words without effect and one font, and paragraphs that end with \\par, made of runs with changes of alignment and size and texts with quotes; white space after control words is lost. Missing: other files, of which what is false is in the counterexamples."
  },
  {
   "property": "C164",
   "status": "partial",
   "theorems": [
    "Che.Props.C164_partial",
    "Che.Props.C164_refused",
    "Che.Props.C164_counterexample_indented",
    "Che.Props.C164_counterexample_many",
    "Che.Props.C164_counterexample_long"
   ],
   "note": "All lists of up to ten numbers, all files of lines of up to 100 words and less than 4095 bytes, with any white space between words and at the end; the numbers are given (sscanf is not modelled). Missing: what is false of the code (see the counterexamples), and empty lines."
  },
  {
   "property": "C165",
   "status": "partial",
   "theorems": [
    "Che.Props.C165_partial",
    "Che.Props.C165_unique",
    "Che.Props.C165_values",
    "Che.Props.C165_result",
    "Che.Props.C165_unknown",
    "Che.Props.C165_counterexample_capture",
    "Che.Props.C165_counterexample_missing"
   ],
   "note": "All types whose name and parameters are used nowhere else: a call has a result just when the expression with the arguments in it has, and it is the same one. Calls with values of types that use only their parameters have results. Missing: what is false of the code (see the counterexamples)."
  },
  {
   "property": "C166",
   "status": "partial",
   "theorems": [
    "Che.Props.C166_partial",
    "Che.Props.C166_failure",
    "Che.Props.C166_name",
    "Che.Props.C166_apart",
    "Che.Props.C166_counterexample_long",
    "Che.Props.C166_counterexample_zero"
   ],
   "note": "All inputs of lines without zero bytes that fit the buffer, whatever its size, with or without an end of the last line; all sequences of months. Missing: what is false of the code (see the counterexamples)."
  },
  {
   "property": "C167",
   "status": "partial",
   "theorems": [
    "Che.Props.C167_partial",
    "Che.Props.C167_empty",
    "Che.Props.C167_many",
    "Che.Props.C167_counterexample_quote",
    "Che.Props.C167_counterexample_number",
    "Che.Props.C167_counterexample_array"
   ],
   "note": "All inputs of lines that are objects of strings without quotes, numbers that are printed as they are read, booleans and null, or that do not begin with a value. Missing: values with others inside, which are printed as JSON text, and what is false of the code (see the counterexamples)."
  },
  {
   "property": "C168",
   "status": "partial",
   "theorems": [
    "Che.Props.C168_partial",
    "Che.Props.C168_numbers",
    "Che.Props.C168_all",
    "Che.Props.C168_refused",
    "Che.Props.C168_counterexample_alpha",
    "Che.Props.C168_counterexample_twice",
    "Che.Props.C168_counterexample_empty"
   ],
   "note": "All numbers of lines, lengths and seeds, and all selectors with at least one letter, where digits count as selected by a. Missing: what is false of the code (see the counterexamples)."
  },
  {
   "property": "C169",
   "status": "partial",
   "theorems": [
    "Che.Props.C169_partial",
    "Che.Props.C169_refused",
    "Che.Props.C169_counterexample_number",
    "Che.Props.C169_counterexample_column"
   ],
   "note": "All windows of at least one line and all inputs of lines of up to 4095 bytes with times and numbers. Missing: how quotients are printed, and what is false of the code (see the counterexamples)."
  },
  {
   "property": "C17",
   "status": "proved",
   "theorems": [
    "Che.Props.C17_precedence",
    "Che.Props.C17_accepts_only_grammar",
    "Che.Props.C17_one_tree",
    "Che.Props.C17_two_operators"
   ],
   "note": ""
  },
  {
   "property": "C170",
   "status": "partial",
   "theorems": [
    "Che.Props.C170_partial",
    "Che.Props.C170_prefix",
    "Che.Props.C170_silent",
    "Che.Props.C170_ends",
    "Che.Props.C170_counterexample_short"
   ],
   "note": "All bytes, splits and results. Missing: what is false of the code (see the counterexample), other clients, and the text of the messages."
  },
  {
   "property": "C171",
   "status": "partial",
   "theorems": [
    "Che.Props.C171_partial",
    "Che.Props.C171_exponent",
    "Che.Props.C171_counterexample_mantissa"
   ],
   "note": "All doubles; the bits of the exponent are printed with the lowest one first. Missing: the table, the text of the value, and what is false of the code (see the counterexample)."
  },
  {
   "property": "C172",
   "status": "partial",
   "theorems": [
    "Che.Props.C172_partial",
    "Che.Props.C172_empty",
    "Che.Props.C172_uneven",
    "Che.Props.C172_counterexample_columns"
   ],
   "note": "All inputs of lines of up to 4095 bytes, all of which end with an end of line, and all functions for strtod. Missing: what is printed of the series, and what is false of the code (see the counterexample)."
  },
  {
   "property": "C173",
   "status": "partial",
   "theorems": [
    "Che.Props.C173_partial",
    "Che.Props.C173_found",
    "Che.Props.C173_once",
    "Che.Props.C173_none",
    "Che.Props.C173_known",
    "Che.Props.C173_counterexample_ppt",
    "Che.Props.C173_counterexample_webp",
    "Che.Props.C173_counterexample_missing"
   ],
   "note": "All texts. Missing: what is false of the code (see the counterexamples)."
  },
  {
   "property": "C18",
   "status": "partial",
   "theorems": [
    "Che.Props.C18_expression_stops_partial",
    "Che.Props.C18_definitions_stop_partial",
    "Che.Props.C18_budget_decides_partial",
    "Che.Props.C18_grammatical_stops_partial",
    "Che.Props.C18_unclosed_body",
    "Che.Props.C18_counterexample"
   ],
   "note": "False: a body that the file does not close makes the parser loop. Expressions and type definitions always stop, and files of the grammar do."
  },
  {
   "property": "C19",
   "status": "partial",
   "theorems": [
    "Che.Props.C19_crash_reason_partial",
    "Che.Props.C19_grammatical_partial",
    "Che.Props.C19_counterexample"
   ],
   "note": "False. Every crash is one of the listed reasons; files of the grammar never crash it."
  },
  {
   "property": "C20",
   "status": "partial",
   "theorems": [
    "Che.Props.C20_module_iff_grammar",
    "Che.Props.C20_bad_file_fails",
    "Che.Props.C20_body_errors_partial",
    "Che.Props.C20_file_errors_partial",
    "Che.Props.C20_lost_error_counterexample"
   ],
   "note": "Modules come out exactly for the files of the grammar. Errors recorded inside a statement that then fails as a whole are lost."
  },
  {
   "property": "C21",
   "status": "partial",
   "theorems": [
    "Che.Props.C21_partial",
    "Che.Props.C21_kinds_partial",
    "Che.Props.C21_counterexample"
   ],
   "note": "Exact for enums, functions, typedefs and structs; `pub typedef struct x y` exports nothing."
  },
  {
   "property": "C22",
   "status": "partial",
   "theorems": [
    "Che.Props.C22_partial",
    "Che.Props.C22_counterexample"
   ],
   "note": "The comparison of two bools has the type boo."
  },
  {
   "property": "C23",
   "status": "partial",
   "theorems": [
    "Che.Props.C23_arith",
    "Che.Props.C23_order",
    "Che.Props.C23_partial",
    "Che.Props.C23_counterexample",
    "Che.Props.C23_counterexample_mixed"
   ],
   "note": "Holds for all arithmetic other than + and -, and for + and - on one kind of number or with a constant on the left; + and - with a constant on the right give the constant's type, on mixed kinds are rejected."
  },
  {
   "property": "C24",
   "status": "partial",
   "theorems": [
    "Che.Props.C24_partial",
    "Che.Props.C24_counterexample"
   ],
   "note": "Exactly the types made of a name and pointers."
  },
  {
   "property": "C25",
   "status": "proved",
   "theorems": [
    "Che.Props.C25_known",
    "Che.Props.C25_call",
    "Che.Props.C25_declared",
    "Che.Props.C25_local",
    "Che.Props.C25_imported"
   ],
   "note": "calloc! is typed as its helper."
  },
  {
   "property": "C26",
   "status": "partial",
   "theorems": [
    "Che.Props.C26_partial",
    "Che.Props.C26_innermost",
    "Che.Props.C26_expression",
    "Che.Props.C26_counterexample_main",
    "Che.Props.C26_C27_counterexample_key"
   ],
   "note": "All mentions of unqualified names in a translated module; false for `main` and composite literal keys."
  },
  {
   "property": "C27",
   "status": "partial",
   "theorems": [
    "Che.Props.C27_partial",
    "Che.Props.C26_C27_counterexample_key"
   ],
   "note": "Names used as composite literal keys are not looked at."
  },
  {
   "property": "C28",
   "status": "partial",
   "theorems": [
    "Che.Props.C28_partial",
    "Che.Props.C28_imports_used",
    "Che.Props.C28_counterexample"
   ],
   "note": "False for a function with a parameter of its own name."
  },
  {
   "property": "C29",
   "status": "partial",
   "theorems": [
    "Che.Props.C29_partial",
    "Che.Props.C29_counterexample"
   ],
   "note": "False of the code. C29_partial: accepted functions whose last statements are firm (else branches return, loops are while (true) without break, no break out of a switch). C29_counterexample: four accepted functions that reach their end."
  },
  {
   "property": "C30",
   "status": "proved",
   "theorems": [
    "Che.Props.C30_parameters",
    "Che.Props.C30_fields"
   ],
   "note": ""
  },
  {
   "property": "C31",
   "status": "partial",
   "theorems": [
    "Che.Props.C31_partial",
    "Che.Props.C31_bodies_last",
    "Che.Props.C31_helper_first",
    "Che.Props.C31_file_partial",
    "Che.Props.C31_file_order_partial",
    "Che.Props.C31_project_partial",
    "Che.Props.C31_counterexample"
   ],
   "note": "The helper for calloc! has no prototype; it comes first instead."
  },
  {
   "property": "C32",
   "status": "proved",
   "theorems": [
    "Che.Props.C32_reordering"
   ],
   "note": ""
  },
  {
   "property": "C33",
   "status": "partial",
   "theorems": [
    "Che.Props.C33_partial",
    "Che.Props.C33_functions",
    "Che.Props.C33_variables",
    "Che.Props.C33_counterexample"
   ],
   "note": "False for a main that returns a pointer."
  },
  {
   "property": "C34",
   "status": "proved",
   "theorems": [
    "Che.Props.C34_imports"
   ],
   "note": ""
  },
  {
   "property": "C35",
   "status": "proved",
   "theorems": [
    "Che.Props.C35_switch",
    "Che.Props.C35_source",
    "Che.Props.C35_translated",
    "Che.Props.C35_text"
   ],
   "note": "For any meaning of expressions with lawful scopes; the C statements include fall-through."
  },
  {
   "property": "C36",
   "status": "proved",
   "theorems": [
    "Che.Props.C36_first_equal",
    "Che.Props.C36_translated",
    "Che.Props.C36_counterexample"
   ],
   "note": "For values that can be evaluated again without effect, as the property says; the counterexample shows the need."
  },
  {
   "property": "C37",
   "status": "proved",
   "theorems": [
    "Che.Props.C37_panic",
    "Che.Props.C37_never_returns",
    "Che.Props.C37_rest",
    "Che.Props.C37_translated"
   ],
   "note": "exit(1) is assumed not to return."
  },
  {
   "property": "C38",
   "status": "proved",
   "theorems": [
    "Che.Props.C38_helper",
    "Che.Props.C38_not_null",
    "Che.Props.C38_call",
    "Che.Props.C38_translated",
    "Che.Props.C38_defined"
   ],
   "note": "exit(1) is assumed not to return; a module that exports its own calloc_or_panic is left out."
  },
  {
   "property": "C39",
   "status": "partial",
   "theorems": [
    "Che.Props.C39_reads_back_partial",
    "Che.Props.C39_exact_partial",
    "Che.Props.C39_initializer_partial",
    "Che.Props.C39_counterexample_minus",
    "Che.Props.C39_counterexample_index",
    "Che.Props.C39_counterexample_increment",
    "Che.Props.C39_counterexample_call",
    "Che.Props.C39_counterexample_negation",
    "Che.Props.C39_counterexample_cast"
   ],
   "note": "False of the code; for properly spelt trees the set of trees that are read back is characterised exactly."
  },
  {
   "property": "C40",
   "status": "proved",
   "theorems": [
    "Che.Props.C40_pairing",
    "Che.Props.C40_one_reading",
    "Che.Props.C40_reads_back",
    "Che.Props.C40_grammar_is_ambiguous"
   ],
   "note": "For bodies whose names, literals and operators are C's (PlainSs); without that the text has no reading at all to speak of."
  },
  {
   "property": "C41",
   "status": "partial",
   "theorems": [
    "Che.Props.C41_function_partial",
    "Che.Props.C41_statements_partial",
    "Che.Props.C41_text_partial",
    "Che.Props.C41_file_partial",
    "Che.Props.C41_project_partial",
    "Che.Props.C41_counterexample"
   ],
   "note": "False of the code for a break directly in a case of a switch str (C41_counterexample); proved for everything else."
  },
  {
   "property": "C42",
   "status": "partial",
   "theorems": [
    "Che.Props.C42_status",
    "Che.Props.C42_exact",
    "Che.Props.C42_partial",
    "Che.Props.C42_counterexample_build",
    "Che.Props.C42_counterexample_wrap"
   ],
   "note": "Exact status; false for build failures and multiples of 256 failures."
  },
  {
   "property": "C43",
   "status": "proved",
   "theorems": [
    "Che.Props.C43_project",
    "Che.Props.C43_build"
   ],
   "note": ""
  },
  {
   "property": "C44",
   "status": "partial",
   "theorems": [
    "Che.Props.C44_partial",
    "Che.Props.C44_counterexample"
   ],
   "note": "Holds for runs that do not overlap; false for overlapping runs."
  },
  {
   "property": "C45",
   "status": "partial",
   "theorems": [
    "Che.Props.C45_sound",
    "Che.Props.C45_complete",
    "Che.Props.C45_rejects",
    "Che.Props.C45_counterexample"
   ],
   "note": "Accepted files exactly; a stray character inside a typedef hangs."
  },
  {
   "property": "C46",
   "status": "proved",
   "theorems": [
    "Che.Props.C46_count",
    "Che.Props.C46_round_trip"
   ],
   "note": ""
  },
  {
   "property": "C47",
   "status": "proved",
   "theorems": [
    "Che.Props.C47_round_trip",
    "Che.Props.C47_no_error"
   ],
   "note": ""
  },
  {
   "property": "C48",
   "status": "partial",
   "theorems": [
    "Che.Props.C48_write4be",
    "Che.Props.C48_write4le",
    "Che.Props.C48_write2le",
    "Che.Props.C48_read4be",
    "Che.Props.C48_read4le",
    "Che.Props.C48_read3le",
    "Che.Props.C48_read2",
    "Che.Props.C48_round_trip",
    "Che.Props.C48_short",
    "Che.Props.C48_counterexample_short"
   ],
   "note": "Values round-trip; short input is reported but the target is overwritten first."
  },
  {
   "property": "C49",
   "status": "partial",
   "theorems": [
    "Che.Props.C49_unpack",
    "Che.Props.C49_write",
    "Che.Props.C49_no_error",
    "Che.Props.C49_read",
    "Che.Props.C49_end",
    "Che.Props.C49_round_trip",
    "Che.Props.C49_readn",
    "Che.Props.C49_counterexample_memory"
   ],
   "note": "False for memory readers at the end; proved for files."
  },
  {
   "property": "C50",
   "status": "partial",
   "theorems": [
    "Che.Props.C50_lossless_partial",
    "Che.Props.C50_right_or_panic_partial",
    "Che.Props.C50_counterexample_end",
    "Che.Props.C50_counterexample_alphabet",
    "Che.Props.C50_counterexample_pieces"
   ],
   "note": "False of the code; right when a zero byte follows the compressed data, and never wrong data."
  },
  {
   "property": "C51",
   "status": "proved",
   "theorems": [
    "Che.Props.C51_greedy",
    "Che.Props.C51_codewidth",
    "Che.Props.C51_fits",
    "Che.Props.C51_counterexample_smallest"
   ],
   "note": ""
  },
  {
   "property": "C52",
   "status": "proved",
   "theorems": [
    "Che.Props.C52_get",
    "Che.Props.C52_size",
    "Che.Props.C52_iteration",
    "Che.Props.C52_large"
   ],
   "note": ""
  },
  {
   "property": "C53",
   "status": "partial",
   "theorems": [
    "Che.Props.C53_get_partial",
    "Che.Props.C53_counterexample_empty",
    "Che.Props.C53_counterexample_longer",
    "Che.Props.C53_counterexample_shorter"
   ],
   "note": "False of the code; proved for non-empty keys whose values keep their length."
  },
  {
   "property": "C54",
   "status": "proved",
   "theorems": [
    "Che.Props.C54_get"
   ],
   "note": ""
  },
  {
   "property": "C55",
   "status": "proved",
   "theorems": [
    "Che.Props.C55_queue",
    "Che.Props.C55_size"
   ],
   "note": ""
  },
  {
   "property": "C56",
   "status": "proved",
   "theorems": [
    "Che.Props.C56_vector",
    "Che.Props.C56_append",
    "Che.Props.C56_remove"
   ],
   "note": ""
  },
  {
   "property": "C57",
   "status": "partial",
   "theorems": [
    "Che.Props.C57_starts_with",
    "Che.Props.C57_starts_with_i",
    "Che.Props.C57_casecmp",
    "Che.Props.C57_ends_with_partial",
    "Che.Props.C57_ends_with_complete",
    "Che.Props.C57_counterexample_ends_with",
    "Che.Props.C57_rtrim",
    "Che.Props.C57_trim_partial",
    "Che.Props.C57_counterexample_trim",
    "Che.Props.C57_split",
    "Che.Props.C57_counterexample_split",
    "Che.Props.C57_digits",
    "Che.Props.C57_allupper"
   ],
   "note": "False of ends_with and trim; what they do instead is proved exactly. The other functions are right."
  },
  {
   "property": "C58",
   "status": "partial",
   "theorems": [
    "Che.Props.C58_text",
    "Che.Props.C58_raw",
    "Che.Props.C58_counterexample_format"
   ],
   "note": "Right, except that formatted text is cut at 999 bytes without an error."
  },
  {
   "property": "C59",
   "status": "partial",
   "theorems": [
    "Che.Props.C59_sha1_partial",
    "Che.Props.C59_finished",
    "Che.Props.C59_format",
    "Che.Props.C59_counterexample_empty",
    "Che.Props.C59_counterexample_length"
   ],
   "note": "Right for all non-empty messages whose length is below 2^31 - 72 (modulo 2^32); false for the others, which is shown."
  },
  {
   "property": "C60",
   "status": "partial",
   "theorems": [
    "Che.Props.C60_exact",
    "Che.Props.C60_md5_partial",
    "Che.Props.C60_table",
    "Che.Props.C60_sprint",
    "Che.Props.C60_eq",
    "Che.Props.C60_counterexample"
   ],
   "note": "What is computed is given exactly: the MD5 of the message up to its first byte 0xFF. The table of sines is proved from the power series."
  },
  {
   "property": "C61",
   "status": "partial",
   "theorems": [
    "Che.Props.C61_file_partial",
    "Che.Props.C61_read",
    "Che.Props.C61_counterexample_ff",
    "Che.Props.C61_counterexample_printf",
    "Che.Props.C61_counterexample_printf_text"
   ],
   "note": "False of memgetc (byte 0xFF) and memprintf; everything else is right."
  },
  {
   "property": "C62",
   "status": "partial",
   "theorems": [
    "Che.Props.C62_partial",
    "Che.Props.C62_accepted_partial",
    "Che.Props.C62_counterexample"
   ],
   "note": "False as stated, one counterexample for each crash. Proved: a crash of the translator means that a module is not fine (Spec/Crash.lean lists what must not be in it), and no project with such a module is accepted."
  },
  {
   "property": "C63",
   "status": "proved",
   "theorems": [
    "Che.Props.C63_printed",
    "Che.Props.C63_build"
   ],
   "note": ""
  },
  {
   "property": "C64",
   "status": "proved",
   "theorems": [
    "Che.Props.C64_deptree",
    "Che.Props.C64_errors"
   ],
   "note": ""
  },
  {
   "property": "C65",
   "status": "partial",
   "theorems": [
    "Che.Props.C65_printed",
    "Che.Props.C65_errors",
    "Che.Props.C65_partial",
    "Che.Props.C65_counterexample"
   ],
   "note": "What is printed is given exactly; it is Che syntax if every parameter has its own type and ... does not stand alone."
  },
  {
   "property": "C66",
   "status": "partial",
   "theorems": [
    "Che.Props.C66_name",
    "Che.Props.C66_bare",
    "Che.Props.C66_here",
    "Che.Props.C66_partial",
    "Che.Props.C66_counterexample",
    "Che.Props.C66_not_full"
   ],
   "note": "False of the code for a source without extension in the current directory, which the executable replaces."
  },
  {
   "property": "C67",
   "status": "partial",
   "theorems": [
    "Che.Props.C67_build",
    "Che.Props.C67_install",
    "Che.Props.C67_run",
    "Che.Props.C67_genc",
    "Che.Props.C67_errors",
    "Che.Props.C67_cc_fails",
    "Che.Props.C67_partial",
    "Che.Props.C67_counterexample",
    "Che.Props.C67_genc_crash"
   ],
   "note": "Right for the known commands; an unknown command ends with status 0."
  },
  {
   "property": "C68",
   "status": "partial",
   "theorems": [
    "Che.Props.C68_tokenizer",
    "Che.Props.C68_pieces",
    "Che.Props.C68_counterexample",
    "Che.Props.C68_long_literal"
   ],
   "note": "For files and strings; a literal that a descriptor delivers in two pieces is missed."
  },
  {
   "property": "C69",
   "status": "partial",
   "theorems": [
    "Che.Props.C69_partial",
    "Che.Props.C69_counterexample",
    "Che.Props.C69_long_number"
   ],
   "note": "For texts with no escapes but those of quote, backslash and slash, and numbers of less than 100 bytes; false otherwise."
  },
  {
   "property": "C70",
   "status": "partial",
   "theorems": [
    "Che.Props.C70_partial",
    "Che.Props.C70_refused",
    "Che.Props.C70_distinct"
   ],
   "note": "Parsing ends, and what is read is exactly what a lenient grammar allows; it need not be JSON."
  },
  {
   "property": "C71",
   "status": "partial",
   "theorems": [
    "Che.Props.C71_partial",
    "Che.Props.C71_counterexample",
    "Che.Props.C71_name",
    "Che.Props.C71_write_string_partial",
    "Che.Props.C71_write_string_counterexample"
   ],
   "note": "Without control characters, and without quotes and backslashes in names; false otherwise. How a double is printed is a parameter."
  },
  {
   "property": "C72",
   "status": "partial",
   "theorems": [
    "Che.Props.C72_partial",
    "Che.Props.C72_counterexample",
    "Che.Props.C72_clone",
    "Che.Props.C72_put"
   ],
   "note": "Without tabs and line feeds in strings and without quotes and backslashes in names; false otherwise."
  },
  {
   "property": "C73",
   "status": "partial",
   "theorems": [
    "Che.Props.C73_found",
    "Che.Props.C73_report",
    "Che.Props.C73_partial",
    "Che.Props.C73_counterexample"
   ],
   "note": "The report is given exactly; the last line is right when all tests build."
  },
  {
   "property": "C74",
   "status": "partial",
   "theorems": [
    "Che.Props.C74_partial",
    "Che.Props.C74_counterexample",
    "Che.Props.C74_false",
    "Che.Props.C74_long_value",
    "Che.Props.C74_rest_lost",
    "Che.Props.C74_unterminated"
   ],
   "note": "When the last field of a record is not empty and values have less than 4096 bytes and no zero; false otherwise."
  },
  {
   "property": "C75",
   "status": "partial",
   "theorems": [
    "Che.Props.C75_partial",
    "Che.Props.C75_counterexample",
    "Che.Props.C75_false"
   ],
   "note": "Without quotes in values; false otherwise."
  },
  {
   "property": "C76",
   "status": "partial",
   "theorems": [
    "Che.Props.C76_partial",
    "Che.Props.C76_counterexample"
   ],
   "note": "For at most 100 fields, names of at most 4 bytes and no control characters but tabs and line ends; false of longer names."
  },
  {
   "property": "C77",
   "status": "partial",
   "theorems": [
    "Che.Props.C77_partial",
    "Che.Props.C77_deep",
    "Che.Props.C77_smallest",
    "Che.Props.C77_false",
    "Che.Props.C77_skip_forever",
    "Che.Props.C77_distinct"
   ],
   "note": "For integers of 32 bits but the smallest and values at most ten deep; false otherwise."
  },
  {
   "property": "C78",
   "status": "partial",
   "theorems": [
    "Che.Props.C78_partial",
    "Che.Props.C78_counterexample",
    "Che.Props.C78_false",
    "Che.Props.C78_read_back"
   ],
   "note": "For integers of 32 bits but the smallest; false of it."
  },
  {
   "property": "C79",
   "status": "partial",
   "theorems": [
    "Che.Props.C79_partial",
    "Che.Props.C79_counterexample",
    "Che.Props.C79_false",
    "Che.Props.C79_ambiguous"
   ],
   "note": "What is printed is given exactly for keys of at most 100 bytes and the values of C77; the number of bytes not shown is one too many."
  },
  {
   "property": "C80",
   "status": "partial",
   "theorems": [
    "Che.Props.C80_declarations_partial",
    "Che.Props.C80_one_reading_partial",
    "Che.Props.C80_reads_back_partial",
    "Che.Props.C80_project_declarations_partial",
    "Che.Props.C80_project_partial",
    "Che.Props.C80_lone_dots",
    "Che.Props.C80_counterexample"
   ],
   "note": "For modules whose elements are spelt properly; C80_project_*: the files written for accepted projects, with the conditions put on the source modules (Writable, Bracketed). (PlainElem: names, literals and operators are C's, directives keep to one line, nothing is empty, ... follows a parameter). C80_lone_dots and C80_counterexample: f(...) is accepted and printed as no C. Type names are given in advance; the effects of directives on the text are not described."
  },
  {
   "property": "C81",
   "status": "partial",
   "theorems": [
    "Che.Props.C81_round_trip",
    "Che.Props.C81_short",
    "Che.Props.C81_counterexample_single",
    "Che.Props.C81_counterexample_end",
    "Che.Props.C81_counterexample_empty"
   ],
   "note": "For texts of at least two different characters whose words have at most 16 bits (always so below 4181 characters, C81_short), when as many characters are read as were written; false otherwise. The order of qsort for equal counts is arbitrary."
  },
  {
   "property": "C82",
   "status": "proved",
   "theorems": [
    "Che.Props.C82_optimal",
    "Che.Props.C82_decodable"
   ],
   "note": "For every non-empty text and every uniquely decodable code, with Kraft and McMillan's inequality from Mathlib."
  },
  {
   "property": "C83",
   "status": "partial",
   "theorems": [
    "Che.Props.C83_fib",
    "Che.Props.C83_fits",
    "Che.Props.C83_counterexample"
   ],
   "note": "For texts of fewer than 4181 characters; the bound is exact."
  },
  {
   "property": "C84",
   "status": "partial",
   "theorems": [
    "Che.Props.C84_canonical",
    "Che.Props.C84_complete",
    "Che.Props.C84_read",
    "Che.Props.C84_counterexample_pool"
   ],
   "note": "When 512 nodes are enough: twice the number of values plus the number of lengths at most 512. Every tree that is made has the canonical code, without this condition."
  },
  {
   "property": "C85",
   "status": "partial",
   "theorems": [
    "Che.Props.C85_write",
    "Che.Props.C85_read",
    "Che.Props.C85_safe",
    "Che.Props.C85_strict_partial",
    "Che.Props.C85_round_trip",
    "Che.Props.C85_counterexample_surrogate",
    "Che.Props.C85_counterexample_big"
   ],
   "note": "Except for surrogates, and for runes from 80000000, of which it is false."
  },
  {
   "property": "C86",
   "status": "proved",
   "theorems": [
    "Che.Props.C86_count",
    "Che.Props.C86_count_total",
    "Che.Props.C86_nlen",
    "Che.Props.C86_full",
    "Che.Props.C86_len",
    "Che.Props.C86_first",
    "Che.Props.C86_last",
    "Che.Props.C86_sub"
   ],
   "note": ""
  },
  {
   "property": "C87",
   "status": "proved",
   "theorems": [
    "Che.Props.C87_tables",
    "Che.Props.C87_alpha",
    "Che.Props.C87_changes",
    "Che.Props.C87_upper_lower",
    "Che.Props.C87_lower_upper",
    "Che.Props.C87_title",
    "Che.Props.C87_ascii"
   ],
   "note": ""
  },
  {
   "property": "C88",
   "status": "partial",
   "theorems": [
    "Che.Props.C88_compare",
    "Che.Props.C88_dup_partial",
    "Che.Props.C88_ncpy_partial",
    "Che.Props.C88_cpy_partial",
    "Che.Props.C88_cat_partial",
    "Che.Props.C88_counterexample_cpy",
    "Che.Props.C88_counterexample_chr",
    "Che.Props.C88_counterexample_utfecpy"
   ],
   "note": "For sources that are not empty, and without the terminator. runestrecpy, runestrncat, runestrstr and runestrrchr are not modelled."
  },
  {
   "property": "C89",
   "status": "partial",
   "theorems": [
    "Che.Props.C89_sound",
    "Che.Props.C89_complete",
    "Che.Props.C89_steps",
    "Che.Props.C89_counterexample_occurs",
    "Che.Props.C89_counterexample_endless",
    "Che.Props.C89_counterexample_arity"
   ],
   "note": "Proved as far as it is true: every result is right in the sense that a substitution has the unifiers as its solutions and no substitution is returned only if there is no unifier; if there is a unifier a substitution is returned and it has a most general solution. Not true, with counterexamples: for terms without a unifier that would need an infinite term a substitution is returned, or the call does not return; with different numbers of arguments unequal terms are taken for equal or NULL is used."
  },
  {
   "property": "C90",
   "status": "proved",
   "theorems": [
    "Che.Props.C90_round_trip",
    "Che.Props.C90_read",
    "Che.Props.C90_run",
    "Che.Props.C90_counterexample_name"
   ],
   "note": "Longer names and more arguments are written past the end of arrays (undefined behaviour, a panic of its own in the model)."
  },
  {
   "property": "C91",
   "status": "partial",
   "theorems": [
    "Che.Props.C91_match",
    "Che.Props.C91_no",
    "Che.Props.C91_ends",
    "Che.Props.C91_counterexample_bol",
    "Che.Props.C91_counterexample_list",
    "Che.Props.C91_counterexample_full"
   ],
   "note": "For texts of one line, or expressions that have no ^ or can match within a line, and when the list of threads is long enough; false otherwise, with counterexamples. Reported matches are right without these conditions. For mp[0].ep = NULL; rregexec (the same for strings of runes) is not modelled."
  },
  {
   "property": "C92",
   "status": "proved",
   "theorems": [
    "Che.Props.C92_accepts",
    "Che.Props.C92_refuses",
    "Che.Props.C92_literal",
    "Che.Props.C92_counterexample_literal",
    "Che.Props.C92_counterexample_dash"
   ],
   "note": "For UTF-8 texts. That searches find what the expression matches is C91, which is stated for the programs these functions make. For texts with backslashes regcomplit is described by the counterexample only."
  },
  {
   "property": "C93",
   "status": "proved",
   "theorems": [
    "Che.Props.C93_regsub",
    "Che.Props.C93_null",
    "Che.Props.C93_template",
    "Che.Props.C93_counterexample"
   ],
   "note": "For groups that were asked for; C93_counterexample shows what happens for others. rregsub is not modelled."
  },
  {
   "property": "C94",
   "status": "partial",
   "theorems": [
    "Che.Props.C94_declare",
    "Che.Props.C94_parse",
    "Che.Props.C94_unambiguous",
    "Che.Props.C94_refused_partial",
    "Che.Props.C94_counterexample",
    "Che.Props.C94_last",
    "Che.Props.C94_dispatch"
   ],
   "note": "For all declarations and arguments without zero bytes. Missing: numbers that the type does not hold, for which sscanf has no defined outcome (C94_counterexample; C94_refused_partial says exactly which arguments these are). sscanf with %f is a parameter; the text of usage is not modelled."
  },
  {
   "property": "C95",
   "status": "partial",
   "theorems": [
    "Che.Props.C95_parse",
    "Che.Props.C95_unambiguous",
    "Che.Props.C95_refused_partial",
    "Che.Props.C95_counterexample"
   ],
   "note": "Missing: texts whose parts do not fit, which is false of the code (C95_counterexample; C95_refused_partial says exactly which texts these are)."
  },
  {
   "property": "C96",
   "status": "partial",
   "theorems": [
    "Che.Props.C96_lines",
    "Che.Props.C96_exists",
    "Che.Props.C96_any_partial",
    "Che.Props.C96_counterexample"
   ],
   "note": "Full for files without the bytes 0 and 255; C96_any_partial says what is read of any file."
  },
  {
   "property": "C97",
   "status": "partial",
   "theorems": [
    "Che.Props.C97_print",
    "Che.Props.C97_push",
    "Che.Props.C97_gap_partial",
    "Che.Props.C97_counterexample_gap",
    "Che.Props.C97_counterexample_row"
   ],
   "note": "The layout is proved for all tables. Missing: the gap, which is false of the code in general."
  },
  {
   "property": "C98",
   "status": "partial",
   "theorems": [
    "Che.Props.C98_mmss",
    "Che.Props.C98_mmssms",
    "Che.Props.C98_hhmmssms_partial",
    "Che.Props.C98_hmmssmmm",
    "Che.Props.C98_unambiguous",
    "Che.Props.C98_fits",
    "Che.Props.C98_parse_partial",
    "Che.Props.C98_nofraction",
    "Che.Props.C98_fraction_partial",
    "Che.Props.C98_fraction",
    "Che.Props.C98_round_trip_partial",
    "Che.Props.C98_counterexample_ms",
    "Che.Props.C98_counterexample_long",
    "Che.Props.C98_counterexample_hours",
    "Che.Props.C98_counterexample_fraction",
    "Che.Props.C98_counterexample_tail"
   ],
   "note": "The texts read are described exactly. Missing: what is false of the code (see the counterexamples); the format \"logfile\" is not modelled."
  },
  {
   "property": "C99",
   "status": "partial",
   "theorems": [
    "Che.Props.C99_round_trip",
    "Che.Props.C99_parse_partial",
    "Che.Props.C99_refused",
    "Che.Props.C99_format",
    "Che.Props.C99_local_partial",
    "Che.Props.C99_counterexample_zone",
    "Che.Props.C99_counterexample_west",
    "Che.Props.C99_counterexample_fraction",
    "Che.Props.C99_counterexample_empty",
    "Che.Props.C99_counterexample_cut",
    "Che.Props.C99_counterexample_local"
   ],
   "note": "The round trip holds for all times in UTC with numbers that are not negative. Missing: what is false of the code (see the counterexamples). The offset of the zone is a parameter."
  }
 ]
}
