{
 "claims": [
  {
   "property": "C01",
   "status": "proved",
   "theorems": [
    "Snek.C01_number_roundtrip",
    "Snek.C01_reference_roundtrip",
    "Snek.C01_builtin_roundtrip",
    "Snek.C01_markers_distinct",
    "Snek.C01_reference_injective"
   ],
   "note": "All float patterns, all object kinds, all aligned offsets."
  },
  {
   "property": "C02",
   "status": "proved",
   "theorems": [
    "Snek.C02_operators",
    "Snek.C02_trichotomy",
    "Snek.C02_order",
    "Snek.C02_kinds",
    "Snek.C02_nan",
    "Snek.C02_violated_math_nan"
   ],
   "note": "Order laws for all scalars in stored form; the C library NaN constant math.nan is not in stored form and breaks equality (C02_violated_math_nan)."
  },
  {
   "property": "C03",
   "status": "partial",
   "theorems": [
    "Snek.C03_equality",
    "Snek.C03_less_sound",
    "Snek.C03_lexicographic_partial",
    "Snek.C03_antisymmetric_partial",
    "Snek.C03_spec_total",
    "Snek.C03_violated_prefix"
   ],
   "note": "Equality and every \"less\" answer are right for all finite values; the full order is proved except when the left list is a proper prefix of the right one, where the code is wrong (C03_violated_prefix)."
  },
  {
   "property": "C04",
   "status": "partial",
   "theorems": [
    "Snek.C04_slice_partial",
    "Snek.C04_violated_reserved_bound",
    "Snek.C04_violated_truncation",
    "Snek.C04_violated_overflow",
    "Snek.Store.C04_list_partial",
    "Snek.Store.C04_string_partial"
   ],
   "note": "Proved for the index computation and for lists, tuples and strings in memory, for bounds and lengths in the stated ranges; the code violates the property at reserved, truncating and overflowing bounds (C04_violated_*)."
  },
  {
   "property": "C05",
   "status": "proved",
   "theorems": [
    "Snek.Store.C05_list_get",
    "Snek.Store.C05_string_get",
    "Snek.Store.C05_list_store",
    "Snek.Store.C05_list_del",
    "Snek.Store.C05_get_safe",
    "Snek.Store.C05_store_safe",
    "Snek.Store.C05_violated_fraction",
    "Snek.Store.C05_violated_store",
    "Snek.Store.C05_violated_del"
   ],
   "note": "Reads, stores and deletes for every integer index in the range of offsets, safety for any index value. Non-integer indices are accepted or act despite the error (C05_violated_*)."
  },
  {
   "property": "C06",
   "status": "partial",
   "theorems": [
    "Snek.C06_map_partial",
    "Snek.C06_literal",
    "Snek.C06_scalar_keys",
    "Snek.C06_violated_tuple_prefix",
    "Snek.Store.C06_heap_partial",
    "Snek.Store.C06_heap_store_partial",
    "Snek.Store.C08_heap_partial",
    "Snek.Store.C07_heap_partial",
    "Snek.Store.C06_heap_display_partial"
   ],
   "note": "All histories over totally ordered keys (all scalars, or any set of immutable keys without tuple-prefix pairs). Tuple keys that are prefixes of each other break it (C06_violated_tuple_prefix). C06_heap_partial says the same of a dictionary object in the memory of a running program, with anything else happening between the assignments that does not assign to it; C06_heap_store_partial that an assignment fails only if the allocator refuses; C06_heap_display_partial that a display makes a new dictionary with the pairs stored in the order written. C98_dict_* state it for the running machine."
  },
  {
   "property": "C07",
   "status": "partial",
   "theorems": [
    "Snek.C07_canonical_partial"
   ],
   "note": "Same key hypothesis as C06. Equal keys and identical values in the same order; identical arrays when equal keys are identical. C07_heap_partial: the same for dictionary objects in memory."
  },
  {
   "property": "C08",
   "status": "partial",
   "theorems": [
    "Snek.C08_delete_partial"
   ],
   "note": "Same key hypothesis as C06. The list header is assumed not to move while a missing key is inserted and removed again (raw pointer at snek-list.c:229). C08_heap_partial: the same for dictionary objects in memory; an error only if the allocator refuses."
  },
  {
   "property": "C09",
   "status": "partial",
   "theorems": [
    "Snek.Store.C09_present_number",
    "Snek.Store.C09_present",
    "Snek.Store.C09_absent_partial",
    "Snek.Store.C09_violated_absent",
    "Snek.Store.C09_violated_neighbour"
   ],
   "note": "Key present: proved for all operators and operands, container values included, on the real comparison with constant keys. Key absent: an error is always reported (C09_absent_partial), but the dictionary is left with an additional entry (C09_violated_absent, C09_violated_neighbour)."
  },
  {
   "property": "C10",
   "status": "proved",
   "theorems": [
    "Snek.Store.C10_plus",
    "Snek.Store.C10_times",
    "Snek.Store.C10_append",
    "Snek.Store.C10_plus_refused",
    "Snek.Store.C10_violated_negative"
   ],
   "note": "All lists and tuples, counts and aliasing patterns, with memory exhaustion as the other outcome, as long as the result is within the range of offsets (C13 shows what happens beyond). Negative counts give None (C10_violated_negative)."
  },
  {
   "property": "C11",
   "status": "proved",
   "theorems": [
    "Snek.Store.C11_strings",
    "Snek.Store.C11_tuples",
    "Snek.Store.C11_store_refused",
    "Snek.Store.C11_augment_refused",
    "Snek.Store.C11_del_refused",
    "Snek.Store.C11_tuple_augmented",
    "Snek.Store.C11_string_augmented"
   ],
   "note": "All histories of container operations from empty memory; refusal of stores, augmented stores and deletes; += makes a new object."
  },
  {
   "property": "C12",
   "status": "proved",
   "theorems": [
    "Snek.C12_mutable_iff",
    "Snek.C12_mutable_refused"
   ],
   "note": "All histories, all keys."
  },
  {
   "property": "C13",
   "status": "partial",
   "theorems": [
    "Snek.Store.C13_storage_partial",
    "Snek.Store.C13_growth_partial",
    "Snek.Store.C13_violated_times",
    "Snek.Store.C13_violated_string"
   ],
   "note": "All histories of container operations whose results are within the range of offsets, every allocator behaviour: no access outside the storage of an object. Beyond that range the size computation wraps and the code writes outside (C13_violated_times, C13_violated_string)."
  },
  {
   "property": "C14",
   "status": "proved",
   "theorems": [
    "Snek.C14_invisible",
    "Snek.C14_invisible_snek",
    "Snek.C14_collect",
    "Snek.C14_always",
    "Snek.C14_demo_state",
    "Snek.Ptr.C14_containers"
   ],
   "note": "Simulation of a reference machine without collector for every program of heap operations, every pool and table size; instantiated with the snek objects. C14_containers: a collection of a pool in order does to strings and lists exactly what the container operations of C75 ask of a collector (`Moved`), and the next block is at an unused address. Root registration by the interpreter (values on the stack or in the root table across allocations) is the discipline the machine models, known breaches are listed in DESIGN.md."
  },
  {
   "property": "C15",
   "status": "proved",
   "theorems": [
    "Snek.C15_packed"
   ],
   "note": "All heaps, including cyclic garbage."
  },
  {
   "property": "C16",
   "status": "proved",
   "theorems": [
    "Snek.C16_fresh",
    "Snek.C16_aligned",
    "Snek.C16_zero"
   ],
   "note": "Fresh allocations do not overlap live objects in any heap history, and every byte of a new allocation reads as zero (byte-level model of the memset and of the pool after compaction)."
  },
  {
   "property": "C17",
   "status": "proved",
   "theorems": [
    "Snek.C17_exact"
   ],
   "note": "Exact condition, both directions. Wrap-around of the 16-bit size computation is the subject of C13."
  },
  {
   "property": "C18",
   "status": "proved",
   "theorems": [
    "Snek.C18_tables"
   ],
   "note": "All table sizes >= 1, both styles; termination included."
  },
  {
   "property": "C19",
   "status": "proved",
   "theorems": [
    "Snek.C19_order",
    "Snek.C19_order_alloc"
   ],
   "note": "Collections and allocations."
  },
  {
   "property": "C20",
   "status": "proved",
   "theorems": [
    "Snek.C20_incremental",
    "Snek.C20_mark"
   ],
   "note": "All heaps with a mark left by an earlier full collection."
  },
  {
   "property": "C21",
   "status": "proved",
   "theorems": [
    "Snek.C21_lowest",
    "Snek.C21_lookup"
   ],
   "note": "All discovery orders, all table sizes >= 1."
  },
  {
   "property": "C22",
   "status": "proved",
   "theorems": [
    "Snek.Name.C22_builtin",
    "Snek.Name.C22_interned",
    "Snek.Name.C22_total"
   ],
   "note": "Any session of requests on the name table, with the built-in names included; allocation failure gives no id and changes nothing."
  },
  {
   "property": "C23",
   "status": "partial",
   "theorems": [
    "Snek.C23_push_pop",
    "Snek.C23_scoping",
    "Snek.C23_rules",
    "Snek.C23_violated_oom"
   ],
   "note": "Proved for every history of calls, returns, globals and assignments with memory available; when memory runs out creating a local the code assigns the global instead (C23_violated_oom)."
  },
  {
   "property": "C24",
   "status": "partial",
   "theorems": [
    "Snek.C24_cut_number",
    "Snek.C24_cut_value",
    "Snek.C24_bytes",
    "Snek.C24_earlier_partial",
    "Snek.C24_next_partial",
    "Snek.C24_last_partial",
    "Snek.C24_violated",
    "Snek.C24_violated_16bit",
    "Snek.C24_violated_local"
   ],
   "note": "Earlier variables and the last variable are fine; deleting any other variable destroys later ones (C24_violated), and del inside a function removes the global (C24_violated_local)."
  },
  {
   "property": "C25",
   "status": "partial",
   "theorems": [
    "Snek.C25_accepts",
    "Snek.C25_bound",
    "Snek.C25_good_call_partial",
    "Snek.C25_violated_missing",
    "Snek.C25_violated_beyond"
   ],
   "note": "Exact acceptance condition and binding proved for all calls; agrees with the intended rule when required parameters are positional; otherwise violated (C25_violated_missing, C25_violated_beyond). Default values are filled in by compiled code, not by this function."
  },
  {
   "property": "C26",
   "status": "proved",
   "theorems": [
    "Snek.Lang.C26_call_returns",
    "Snek.Lang.C26_call_error",
    "Snek.Lang.C26_callers_untouched",
    "Snek.Lang.C26_return_address",
    "Snek.Lang.C26_call_saves_return_address"
   ],
   "note": "For compiled programs (Spec/LangWf lists the excluded sources) the value, stack, frames and code; for arbitrary bytecode the return address and the callers frames."
  },
  {
   "property": "C27",
   "status": "proved",
   "theorems": [
    "Snek.Lang.C27_prompt",
    "Snek.Lang.C27_prompt_error",
    "Snek.Lang.C27_in_context",
    "Snek.Lang.C27_in_context_error"
   ],
   "note": "All expressions of Spec/LangWf (the exclusions are the bugs of C29 and C33 and operand overflow), any operations on values, any surrounding code and pending operands."
  },
  {
   "property": "C28",
   "status": "proved",
   "theorems": [
    "Snek.Lang.C28_and_false",
    "Snek.Lang.C28_and_true",
    "Snek.Lang.C28_and_error",
    "Snek.Lang.C28_or_true",
    "Snek.Lang.C28_or_false",
    "Snek.Lang.C28_or_error",
    "Snek.Lang.C28_left_error"
   ],
   "note": "All operands, also b failing or not terminating."
  },
  {
   "property": "C29",
   "status": "partial",
   "theorems": [
    "Snek.Lang.C29_chain_partial",
    "Snek.Lang.Demo.C29_violated_is",
    "Snek.Lang.Demo.C29_violated_default"
   ],
   "note": "All chain lengths; excluded are links through is/in and chains at the start of a parameter default, where the code is wrong (C29_violated_is, C29_violated_default)."
  },
  {
   "property": "C30",
   "status": "proved",
   "theorems": [
    "Snek.Lang.C30_finishes",
    "Snek.Lang.C30_returns",
    "Snek.Lang.C30_fails",
    "Snek.Lang.C30_stray_break",
    "Snek.Lang.C30_one_ending",
    "Snek.Lang.C30_one_error"
   ],
   "note": "All statement trees of Spec/LangWf; endings are unique. Programs that do not end: C72."
  },
  {
   "property": "C31",
   "status": "partial",
   "theorems": [
    "Snek.Lang.C31_falls_off_partial",
    "Snek.Lang.Demo.C31_violated"
   ],
   "note": "Bodies that do not end in a conditional return; for those the code is wrong (C31_violated)."
  },
  {
   "property": "C32",
   "status": "proved",
   "theorems": [
    "Snek.Lang.C32_range",
    "Snek.Lang.C32_rangeElems",
    "Snek.Lang.C32_container",
    "Snek.Lang.C32_list",
    "Snek.Lang.C32_dict",
    "Snek.Lang.C32_string",
    "Snek.Lang.Demo.C32_violated_none",
    "Snek.Lang.Demo.C32_violated_assigned",
    "Snek.Lang.Demo.C32_variable_after"
   ],
   "note": "Range loops for integer bounds and steps up to 2^23 whose body does not assign the loop variable; loops over lists, tuples, dictionaries and strings as long as the body does not change the container; nested loops and called functions do not disturb loop state. Violations recorded: a None element ends a loop early; assigning a range loop's variable in its body changes the iteration; the variable ends up past the last element."
  },
  {
   "property": "C33",
   "status": "partial",
   "theorems": [
    "Snek.Lang.C33_mark_command_partial",
    "Snek.Lang.C33_mark_function_partial",
    "Snek.Lang.C33_move_command_partial",
    "Snek.Lang.C33_move_function_partial",
    "Snek.Lang.C33_line_partial",
    "Snek.Lang.Demo.C33_violated_mark",
    "Snek.Lang.Demo.C33_violated_move",
    "Snek.Lang.Demo.C33_violated_line"
   ],
   "note": "Marking, relocation and line lookup for all commands and functions whose dictionary displays the size table does not misread; violated otherwise (C33_violated_mark, C33_violated_move) and for lines of functions with defaults (C33_violated_line)."
  },
  {
   "property": "C34",
   "status": "proved",
   "theorems": [
    "Snek.Lang.C34_literal",
    "Snek.Lang.C34_string_literal",
    "Snek.Lang.C34_prompt"
   ],
   "note": "All 32-bit literals but -0, which no literal denotes; any result of the undefined float to int8 conversion."
  },
  {
   "property": "C35",
   "status": "partial",
   "theorems": [
    "Snek.C35_ring",
    "Snek.C35_div",
    "Snek.C35_mod_partial",
    "Snek.C35_mod_nonneg",
    "Snek.C35_compare",
    "Snek.C35_representable",
    "Snek.C35_violated_mod"
   ],
   "note": "+ - * // and comparisons are exact for all 24-bit integers; % is exact unless the intermediate product exceeds 2^24, where the code is wrong (C35_violated_mod). IEEE rounding of the hardware is trusted."
  },
  {
   "property": "C36",
   "status": "partial",
   "theorems": [
    "Snek.C36_bitwise",
    "Snek.C36_shift",
    "Snek.C36_not_integer",
    "Snek.C36_violated_lnot"
   ],
   "note": "& | ^ << >> proved, non-integers rejected; shifts that C leaves undefined are excluded; ~ is violated (C36_violated_lnot)."
  },
  {
   "property": "C37",
   "status": "proved",
   "theorems": [
    "Snek.Parse.C37_reads",
    "Snek.Parse.C37_only",
    "Snek.Parse.C37_unique",
    "Snek.Parse.C37_roundtrip",
    "Snek.Parse.C37_injective",
    "Snek.Parse.C37_violated_pow"
   ],
   "note": "At the level of tokens: every expression tree, with any redundant parentheses; soundness, completeness and uniqueness, and the round trip through a printer with minimal parentheses. The generated table parser is taken to be the LL(1) parser of snek-gram.ll. The right operand of ** is not a signed expression: 2 ** -1 is rejected (C37_violated_pow)."
  },
  {
   "property": "C38",
   "status": "partial",
   "theorems": [
    "Snek.Lex.C38_returns_partial",
    "Snek.Lex.C38_progress",
    "Snek.Lex.C38_pushback",
    "Snek.Lex.C38_violated_comment"
   ],
   "note": "Every call of the lexer returns, consumes input and never overflows the push-back buffer, for every text whose comments are ended by a newline; a comment at the very end of the text is never left (C38_violated_comment)."
  },
  {
   "property": "C39",
   "status": "partial",
   "theorems": [
    "Snek.Lex.C39_word",
    "Snek.Lex.C39_unary_partial",
    "Snek.Lex.C39_two_words",
    "Snek.Lex.C39_violated"
   ],
   "note": "Every word is one token; not/is followed by any identifier that does not begin with in/not; the two-word operators with any spacing. For identifiers that do begin so the claim is false, for every one of them (C39_violated)."
  },
  {
   "property": "C40",
   "status": "proved",
   "theorems": [
    "Snek.Lex.C40_literal",
    "Snek.Lex.C40_toolong",
    "Snek.Lex.C40_writable",
    "Snek.Lex.C40_roundtrip",
    "Snek.Lex.C40_violated_hex"
   ],
   "note": "Every string without NUL, every mixture of documented escapes up to \\x7f, both kinds of quotes; over-long literals are rejected. \\x80 to \\xff are rejected and \\x00 ends the string (C40_violated_hex)."
  },
  {
   "property": "C41",
   "status": "partial",
   "theorems": [
    "Snek.Lex.C41_token",
    "Snek.Lex.C41_value_partial",
    "Snek.Lex.C41_integer_partial",
    "Snek.Lex.C41_violated_rounding"
   ],
   "note": "Tokenization proved for all number literals; the value of integer literals below 2^32-16 on the AVR builds (correctly rounded, exact to 2^24). Above, the AVR conversion is not correctly rounded (C41_violated_rounding); the other builds use the C library."
  },
  {
   "property": "C42",
   "status": "partial",
   "theorems": [
    "Snek.Parse.C42_blocks_partial",
    "Snek.Parse.C42_closed",
    "Snek.Parse.C42_relative",
    "Snek.Parse.C42_inconsistent",
    "Snek.Parse.C42_violated_wrap"
   ],
   "note": "Every non-interactive file whose lines are indented by less than 256 columns: the tokens are those of the indentation algorithm of the Python reference manual, including rejection. 256 columns wrap to none (C42_violated_wrap)."
  },
  {
   "property": "C43",
   "status": "partial",
   "theorems": [
    "Snek.Lex.C43_count",
    "Snek.Lex.C43_token_partial",
    "Snek.Lex.C43_violated_string"
   ],
   "note": "The line counter is right in every reachable lexer state and at every token, whatever was pushed back, except after a string literal that contains an escaped newline (C43_violated_string). That the parser records the counter right after the first token of a statement is part of the translations C60 and C76."
  },
  {
   "property": "C44",
   "status": "partial",
   "theorems": [
    "Snek.Io.C44_line_partial",
    "Snek.Io.C44_lines_partial",
    "Snek.Io.C44_echo",
    "Snek.Io.C44_interrupt",
    "Snek.Io.C44_violated_interrupt",
    "Snek.Io.C44_bounds",
    "Snek.Io.C44_idle"
   ],
   "note": "Every keystroke sequence, in terms of an editor that knows only the line typed so far; the echo shows that line on a terminal; the buffer bound. Missing: ^C abandons the line, but what was typed before it is delivered with the next line (C44_violated_interrupt). Characters are unsigned and the device never reports end of file."
  },
  {
   "property": "C45",
   "status": "proved",
   "theorems": [
    "Snek.Uart.C45_fifo",
    "Snek.Uart.C45_order",
    "Snek.Uart.C45_lossless",
    "Snek.Uart.C45_bounds"
   ],
   "note": "Every interleaving of the reader with the receiver and transmitter interrupts, every ring size. Steps are indivisible because the code runs with interrupts disabled."
  },
  {
   "property": "C46",
   "status": "partial",
   "theorems": [
    "Snek.Uart.C46_alternate",
    "Snek.Uart.C46_resume",
    "Snek.Uart.C46_stop_partial",
    "Snek.Uart.C46_violated_stop"
   ],
   "note": "Alternation and XON after draining for every execution. XOFF is shown when the host had been told XON; it fails while XON is still owed: then XON is sent with a full buffer (C46_violated_stop). Executions without the probe ^T, after the program has written something."
  },
  {
   "property": "C47",
   "status": "proved",
   "theorems": [
    "Snek.Eeprom.C47_boot",
    "Snek.Eeprom.C47_show",
    "Snek.Eeprom.C47_roundtrip",
    "Snek.Eeprom.C47_overlong",
    "Snek.Eeprom.C47_crash",
    "Snek.Eeprom.C47_write_bounds",
    "Snek.Eeprom.C47_erase",
    "Snek.Eeprom.C47_abort"
   ],
   "note": "For every text free of ^D and 255 (^E is skipped, CR becomes NL) and every previous contents: what is saved is read back at boot and shown; a text as long as the memory is kept whole and the rest of the keys go to the interpreter; a write cut short, also with a torn byte, leaves the new prefix followed by the old contents; no address outside the memory is used. The megaAVR flash variant (chips/atmega/snek-atmega-flash.c) is a separate property, C63."
  },
  {
   "property": "C48",
   "status": "proved",
   "theorems": [
    "Snek.Flash.C48_memory",
    "Snek.Flash.C48_roundtrip",
    "Snek.Flash.C48_outside",
    "Snek.Flash.C48_violated_overrun",
    "Snek.Flash.C48_erase"
   ],
   "note": "For every even page size, every row-aligned base, all previous contents of memory, page buffer and writer variables, and every text: the exact resulting memory (C48_memory), read-back (C48_roundtrip), nothing outside of the region changed if the text fits (C48_outside), erase (C48_erase). C48_violated_overrun: eeprom.write does not check the capacity, so a longer text is written over what follows the region."
  },
  {
   "property": "C49",
   "status": "partial",
   "theorems": [
    "Snek.Random.C49_reproducible",
    "Snek.Random.C49_small_reproducible",
    "Snek.Random.C49_randrange_partial",
    "Snek.Random.C49_randrange_zero",
    "Snek.Random.C49_small_randrange_partial",
    "Snek.Random.C49_violated_small_zero",
    "Snek.Random.C49_violated_randrange",
    "Snek.Random.C49_random_partial",
    "Snek.Random.C49_violated_random",
    "Snek.Random.C49_violated_small_random",
    "Snek.Random.C49_period",
    "Snek.Random.C49_small_period",
    "Snek.Random.C49_violated_small_alternates"
   ],
   "note": "Reproducibility, randrange up to 2^24, the exact condition for random() < 1, and that the states do not repeat within 2^64 (small generator: 2^32) draws: all seeds and states. Violated: randrange above 2^24 and random() can return their upper limit (C49_violated_randrange, C49_violated_random); the small generator returns up to 2, divides by zero for randrange(0), and alternates for randrange(2)."
  },
  {
   "property": "C50",
   "status": "partial",
   "theorems": [
    "Snek.C50_gcd_partial",
    "Snek.C50_one_partial",
    "Snek.C50_violated_coprime",
    "Snek.C50_violated_zero"
   ],
   "note": "All pairs of integers that fit into int and have a common divisor above 1. For coprime pairs the result is wrong unless the first is 1 (C50_violated_coprime, for all of them), and gcd(x, 0) is 0 (C50_violated_zero)."
  },
  {
   "property": "C51",
   "status": "proved",
   "theorems": [
    "Snek.Format.C51_format",
    "Snek.Format.C51_defined",
    "Snek.Format.C51_violated_empty",
    "Snek.Format.C51_arguments",
    "Snek.Format.C51_integers",
    "Snek.Format.C51_strings"
   ],
   "note": "All formats and arguments whose numbers fit in an int (C51_defined; beyond that the conversion is undefined C behaviour). C51_violated_empty: the empty format with no arguments gives None. Library conversions of fractions (%e %f %g) are a parameter."
  },
  {
   "property": "C52",
   "status": "proved",
   "theorems": [
    "Snek.Store.C52_concat",
    "Snek.Store.C52_times",
    "Snek.Store.C52_in",
    "Snek.Store.C52_len",
    "Snek.Store.C52_index"
   ],
   "note": "All strings and counts as long as the result is within the range of offsets, memory exhaustion being the other outcome."
  },
  {
   "property": "C53",
   "status": "proved",
   "theorems": [
    "Snek.Store.C53_container",
    "Snek.Store.C53_string",
    "Snek.Store.C53_refused",
    "Snek.Store.C53_violated_numbers"
   ],
   "note": "All containers and values that do not contain themselves, NaN in canonical form. Two numbers: both operators return the left operand (C53_violated_numbers)."
  },
  {
   "property": "C54",
   "status": "proved",
   "theorems": [
    "Snek.Session.C54_ready",
    "Snek.Session.C54_fresh",
    "Snek.Session.C54_one_message",
    "Snek.Session.C54_first_message",
    "Snek.Session.C54_interrupt",
    "Snek.Session.C54_session",
    "Snek.Session.Demo.C54_violated_lingering"
   ],
   "note": "Histories of any length. The parser is an input of the session model (what it makes of a line); which code it makes is C27/C30. C54_session is about commands of the kinds the compiler theorems cover, for which storing `_` finds memory; C54_violated_lingering is what happens otherwise."
  },
  {
   "property": "C55",
   "status": "proved",
   "theorems": [
    "Snek.C55_truth",
    "Snek.C55_none_and_zero",
    "Snek.C55_violated_functions"
   ],
   "note": "Exact characterisation; functions are false contrary to the manual (C55_violated_functions)."
  },
  {
   "property": "C56",
   "status": "proved",
   "theorems": [
    "Snek.C56_power",
    "Snek.C56_operator"
   ],
   "note": "All integer bases and exponents whose power is at most 2^24 in magnitude."
  },
  {
   "property": "C57",
   "status": "proved",
   "theorems": [
    "Snek.Format.C57_repr",
    "Snek.Format.C57_print",
    "Snek.Format.C57_injective",
    "Snek.Format.C57_violated_quotes"
   ],
   "note": "C57_repr and C57_print: the printed form of every finite value is the documented one. C57_injective: different values print differently, for every number formatting that is itself injective and avoids the delimiters. C57_violated_quotes: quotes inside strings are not escaped, so values with such strings can print alike."
  },
  {
   "property": "C58",
   "status": "partial",
   "theorems": [
    "Snek.Lang.C58_no_write_outside",
    "Snek.Lang.C58_overflow_ends_partial",
    "Snek.Lang.C58_no_read_below_partial",
    "Snek.Lang.Demo.C58_violated"
   ],
   "note": "No write outside for any code; overflow ends the run; no read below when there is room, whether the command ends or not. Violated: operands of one instruction overflowing the stack by one are read below its bottom (C58_violated)."
  },
  {
   "property": "C59",
   "status": "proved",
   "theorems": [
    "Snek.C59_rounded",
    "Snek.C59_neg",
    "Snek.C59_zero_sign"
   ],
   "note": "All finite operands; the IEEE operations are those of Model/F32, whose rounding is proved here, the machine implementing them is trusted."
  },
  {
   "property": "C60",
   "status": "proved",
   "theorems": [
    "Snek.Parse.C60_reads",
    "Snek.Parse.C60_only",
    "Snek.Parse.C60_unique",
    "Snek.Parse.C60_statement",
    "Snek.Parse.C60_block",
    "Snek.Parse.C60_nested",
    "Snek.Parse.C60_line"
   ],
   "note": "At the level of tokens: soundness, completeness, uniqueness, nesting of blocks, line marks. The generated table parser is taken to be the LL(1) parser of snek-gram.ll; its stacks are unbounded here."
  },
  {
   "property": "C61",
   "status": "partial",
   "theorems": [
    "Snek.Parse.C61_program_partial",
    "Snek.Parse.C61_only",
    "Snek.Parse.C61_unique"
   ],
   "note": "Composition of C42 and C60 from characters to syntax trees. Assumes what C42 assumes: non-interactive input that ends in a newline, indentation below 256 columns, fewer than 255 open brackets, tokens that fit the token buffer. String values and names are abstracted to the numbers the lexer assigns to them."
  },
  {
   "property": "C62",
   "status": "partial",
   "theorems": [
    "Snek.Uart.C62_output",
    "Snek.Uart.C62_no_overwrite",
    "Snek.Uart.C62_accept",
    "Snek.Uart.C62_stopped",
    "Snek.Uart.C62_progress_partial",
    "Snek.Uart.C62_violated_probe"
   ],
   "note": "Order, completeness, no overwriting, silence while stopped: every execution. Progress: executions without the probe ^T; with it the device stalls (C62_violated_probe)."
  },
  {
   "property": "C63",
   "status": "proved",
   "theorems": [
    "Snek.FlashAvr.C63_memory",
    "Snek.FlashAvr.C63_cut",
    "Snek.FlashAvr.C63_roundtrip",
    "Snek.FlashAvr.C63_overlong",
    "Snek.FlashAvr.C63_outside",
    "Snek.FlashAvr.C63_interrupted",
    "Snek.FlashAvr.C63_erase",
    "Snek.FlashAvr.C63_violated_erase",
    "Snek.FlashAvr.C63_violated_nofuse"
   ],
   "note": "C63_memory gives the whole memory after a write; C63_roundtrip, C63_overlong, C63_outside, C63_interrupted and C63_erase follow for every text free of ^D and 255. The page-erase itself is taken as atomic. C63_violated_erase and C63_violated_nofuse are the two defects."
  },
  {
   "property": "C64",
   "status": "proved",
   "theorems": [
    "Snek.Format.C64_close",
    "Snek.Format.C64_zero",
    "Snek.Format.C64_roundtrip",
    "Snek.Format.C64_distinct",
    "Snek.Format.C64_library",
    "Snek.Format.C64_values"
   ],
   "note": "For the exact %.9g of C11 (round to nearest, as glibc, newlib and picolibc do). The AVR strfromg, which prints at most eight digits, is not covered."
  },
  {
   "property": "C65",
   "status": "partial",
   "theorems": [
    "Snek.Draw.C65_picture_partial",
    "Snek.Draw.C65_short_tame",
    "Snek.Draw.C65_violated_astray",
    "Snek.Draw.C65_violated_outside"
   ],
   "note": "All sequences of drawing operations and all initial display contents, for lines that are not both long and almost level (3*dx <= 2*dy + 127, or level). For the others the claim is false: the 8-bit error term overflows; witnesses C65_violated_astray (the line ends elsewhere) and C65_violated_outside (a write outside of the frame buffer)."
  },
  {
   "property": "C66",
   "status": "proved",
   "theorems": [
    "Snek.Atof.C66_value",
    "Snek.Atof.C66_literal",
    "Snek.Atof.C66_violated_nearest"
   ],
   "note": "All literals up to 255 characters. The result need not be the nearest number: 0.9 is not (C66_violated_nearest)."
  },
  {
   "property": "C67",
   "status": "partial",
   "theorems": [
    "Snek.Time.C67_reading_partial",
    "Snek.Time.C67_order",
    "Snek.Time.C67_sleep_partial",
    "Snek.Time.C67_wakes",
    "Snek.Time.C67_ticks",
    "Snek.Time.C67_ticks_exact",
    "Snek.Time.C67_monotonic",
    "Snek.Time.C67_violated_usb",
    "Snek.Time.C67_violated_long",
    "Snek.Time.C67_violated_samd"
   ],
   "note": "Proved for AVR ports whose clock interrupt has priority over the others in use (328P, 1284, 2560, 4809 with USART3), under the assumptions that no two overflows go by unserved, and for sleeps below 2^31 ticks. Missing because false: on the 32u4 a USB interrupt can hide an overflow (C67_violated_usb), longer sleeps return at once (C67_violated_long), on the SAMD21 time runs backwards within each tick (C67_violated_samd)."
  },
  {
   "property": "C68",
   "status": "proved",
   "theorems": [
    "Snek.Builtin.C68_print",
    "Snek.Builtin.C68_print_end",
    "Snek.Builtin.C68_len",
    "Snek.Builtin.C68_ord_chr",
    "Snek.Builtin.C68_violated_ord",
    "Snek.Builtin.C68_abs",
    "Snek.Builtin.C68_int",
    "Snek.Builtin.C68_input"
   ],
   "note": "float and int of a string call the C library and are not covered. Where char is signed, ord(chr(n)) is n - 256 from 128 on (C68_violated_ord)."
  },
  {
   "property": "C69",
   "status": "partial",
   "theorems": [
    "Snek.Session.C69_file_partial"
   ],
   "note": "From characters to effects, for all texts whose lines and tokens spell a program (Spec.Spelling, Spec.Layout, Spec.Program) and all meanings (Spec.Lang). Missing: texts with a syntax error after some good commands (what is executed of them is C77, for the table-driven parser); statements excluded by WfS (the miscompiled ones, see C27/C30) ; programs that never end are C72; how names, numbers and strings are represented is a parameter (C43, C66, C45)."
  },
  {
   "property": "C70",
   "status": "partial",
   "theorems": [
    "Snek.Gpio.C70_power",
    "Snek.Gpio.C70_power_limits",
    "Snek.Gpio.C70_power_mono",
    "Snek.Gpio.C70_level_partial",
    "Snek.Gpio.C70_input",
    "Snek.Gpio.C70_read",
    "Snek.Gpio.C70_pull",
    "Snek.Gpio.C70_read_value",
    "Snek.Gpio.C70_violated_after_read",
    "Snek.Gpio.C70_violated_stays_input",
    "Snek.Gpio.C70_violated_pin19",
    "Snek.Gpio.C70_violated_nan",
    "Snek.Gpio.C70_violated_pull",
    "Snek.Gpio.C70_violated_output"
   ],
   "note": "Proved for every history on the ATmega328P: pins that are talked to and never read, except pin 19. False for pins that are also read, for pin 19 and for pull-ups of A1 to A5 (witnesses). tone, onfor (on, sleep, off) and other boards are not modelled."
  },
  {
   "property": "C71",
   "status": "partial",
   "theorems": [
    "Snek.Strfromg.C71_close",
    "Snek.Strfromg.C71_between",
    "Snek.Strfromg.C71_integer",
    "Snek.Strfromg.C71_special",
    "Snek.Strfromg.C71_fits",
    "Snek.Strfromg.C71_violated_distinct",
    "Snek.Strfromg.C71_violated_tiny"
   ],
   "note": "proved for zeros, infinities, NaN and every number from 714 * 2^-149 on (length: for all). Below 72 * 2^-149 ftoa_engine.c divides by zero (C71_violated_tiny), between the two the last digit is rounded up always. Different numbers can print alike (C71_violated_distinct). The boards link the assembler version of the engine in avr-libc, which is not in the repository"
  },
  {
   "property": "C72",
   "status": "proved",
   "theorems": [
    "Snek.Lang.C72_does_all",
    "Snek.Lang.C72_goes_on",
    "Snek.Lang.C72_does_only",
    "Snek.Lang.C72_ends_iff",
    "Snek.Session.C72_file"
   ],
   "note": "For the commands of Spec/LangWf (the miscompiled ones are excluded, see C27/C30). The order of the cut-off points is that of the machine: the later ones are reached from any earlier state."
  },
  {
   "property": "C73",
   "status": "partial",
   "theorems": [
    "Snek.Lang.C73_code_sound_partial",
    "Snek.Lang.C73_control_flow_partial",
    "Snek.Lang.C73_strings_partial",
    "Snek.Lang.Demo.C73_violated_dict"
   ],
   "note": "Proved for all programs the parser accepts except those excluded by Spec/LangWf (dictionary displays with certain numbers of entries where jumps are patched, `is`/`in` inside comparison chains, oversized operands); for the first the property is false: C73_violated_dict."
  },
  {
   "property": "C74",
   "status": "partial",
   "theorems": [
    "Snek.Machine.C74_memory_safe_partial",
    "Snek.Machine.C74_next_command_partial",
    "Snek.Machine.C74_history_partial",
    "Snek.Machine.Demo.C74_violated_none"
   ],
   "note": "Proved for all histories in which no operation is asked for something larger than offsets can express (for those see C13), None is not called (C74_violated_none: the property is false then) and no value that contains itself is printed, compared or hashed (the C code recurses until the C stack is exhausted). Objects are identified by number; that the collector preserves them is C14."
  },
  {
   "property": "C75",
   "status": "partial",
   "theorems": [
    "Snek.Ptr.C75_results_partial",
    "Snek.Ptr.C75_collectors_partial",
    "Snek.Ptr.C75_violated_repeat",
    "Snek.Ptr.C75_violated_full",
    "Snek.Ptr.C75_violated_del"
   ],
   "note": "For any collector that does `Moved` to the pool (C14_containers: the compacting collector does) and any sequence of operations whose pointers the code saves (`Safe`): results as without collector. Not covered, and violated: repeating a string, del of a missing key, operations without three free stack entries; not covered: % on strings, augmented assignment to a missing key, results beyond the range of offsets, builtins."
  },
  {
   "property": "C76",
   "status": "partial",
   "theorems": [
    "Snek.Pda.C76_exact_or_memory_partial",
    "Snek.Pda.C76_exact_partial",
    "Snek.Pda.C76_violated_elif",
    "Snek.Pda.C76_violated_elif_127",
    "Snek.Pda.C76_violated_function"
   ],
   "note": "proved for programs whose commands need no more values than the value stack holds and no more than SNEK_MAX_FORMALS formals (both bounds explicit, Spec/Depth), for every size of the symbol stack; beyond, the claim is false (C76_violated_*)"
  },
  {
   "property": "C77",
   "status": "proved",
   "theorems": [
    "Snek.Pda.C77_stops",
    "Snek.Pda.C77_only_commands",
    "Snek.Pda.C77_success",
    "Snek.Pda.C77_error",
    "Snek.Pda.C77_memory",
    "Snek.Pda.C77_decides"
   ],
   "note": "on the model of the table-driven parser that lola generates (an LL(1) machine for snek-gram.ll), for every text and all stack sizes; the condition that no value is lost is roomy (two free places at every step). C77_decides shows that sizes with which nothing is lost exist for every text."
  },
  {
   "property": "C78",
   "status": "partial",
   "theorems": [
    "Snek.Fsum.C78_exact_partial",
    "Snek.Fsum.C78_small_partial",
    "Snek.Fsum.C78_order",
    "Snek.Fsum.C78_infinite",
    "Snek.Fsum.C78_dict",
    "Snek.Fsum.C78_violated_overflow"
   ],
   "note": "for every list of finite numbers: a finite result is the correctly rounded exact sum; finite is proved for up to 15000 numbers whose magnitudes add up to at most 2^126. Beyond, a sum can overflow on the way although its result is a number (C78_violated_overflow). Binary32 arithmetic as in Model/F32, without excess precision (the code uses volatile variables)."
  },
  {
   "property": "C79",
   "status": "proved",
   "theorems": [
    "Snek.Isclose.C79_symmetric",
    "Snek.Isclose.C79_nan",
    "Snek.Isclose.C79_rule",
    "Snek.Isclose.C79_reflexive",
    "Snek.Isclose.C79_violated_inf"
   ],
   "note": "on binary32 arithmetic as in Model/F32 and fmaxf as in C11; infinities are not close to themselves (C79_violated_inf), which the statement does not claim"
  },
  {
   "property": "C80",
   "status": "partial",
   "theorems": [
    "Snek.UsbSamd.C80_input",
    "Snek.UsbSamd.C80_accepts",
    "Snek.UsbSamd.C80_drains",
    "Snek.UsbSamd.C80_violated_stall",
    "Snek.UsbSamd.C80_interrupt_partial",
    "Snek.UsbSamd.C80_interrupt_now_partial",
    "Snek.UsbSamd.C80_violated_second",
    "Snek.UsbSamd.C80_violated_full",
    "Snek.UsbSamd.C80_violated_late",
    "Snek.UsbSamd.C80_output",
    "Snek.UsbSamd.C80_flush",
    "Snek.UsbSamd.C80_flush_again",
    "Snek.UsbSamd.C80_output_progress",
    "Snek.UsbSamd.C80_text",
    "Snek.UsbSamd.C80_violated_quiet"
   ],
   "note": "Input and output orders, completeness and the absence of waits for ever are proved for all interleavings (input: without empty packets, C80_violated_stall). ^C: proved for packets handled one at a time; missed in the second of two waiting packets, behind a full queue, and in a race of the handler with the hardware (C80_violated_second, _full, _late). Output before the first input is dropped (C80_violated_quiet). Not modelled: endpoint 0, reset, a second configuration."
  },
  {
   "property": "C81",
   "status": "partial",
   "theorems": [
    "Snek.Neopixel.C81_wire",
    "Snek.Neopixel.C81_wires_partial",
    "Snek.Neopixel.C81_shows",
    "Snek.Neopixel.C81_shows_two_partial",
    "Snek.Neopixel.C81_error_partial",
    "Snek.Neopixel.C81_brightness",
    "Snek.Neopixel.C81_brightness_limits",
    "Snek.Neopixel.C81_violated_two",
    "Snek.Neopixel.C81_violated_single",
    "Snek.Neopixel.C81_violated_error",
    "Snek.Neopixel.C81_violated_high"
   ],
   "note": "Proved for lists of colours on one wire, from any state. On two wires every lamp gets the first colour (C81_violated_two; proved for equal colours). One colour without a list sends three pixels, two of them from behind the buffer (C81_violated_single), and errors in it do not stop it (C81_violated_error). The pin must be low before (C81_violated_high). Time of instructions other than the waits is not modelled."
  },
  {
   "property": "C82",
   "status": "partial",
   "theorems": [
    "Snek.Pins.C82_power",
    "Snek.Pins.C82_power_limits",
    "Snek.Pins.C82_power_mono",
    "Snek.Pins.C82_level",
    "Snek.Pins.C82_stopall",
    "Snek.Pins.C82_motor",
    "Snek.Pins.C82_input",
    "Snek.Pins.C82_read",
    "Snek.Pins.C82_read_value",
    "Snek.Pins.C82_boards_partial",
    "Snek.Pins.C82_level_boards",
    "Snek.Pins.C82_violated_same_pin",
    "Snek.Pins.C82_violated_no_channel",
    "Snek.Pins.C82_violated_motor_talkto",
    "Snek.Pins.C82_violated_pin0",
    "Snek.Pins.C82_violated_after_read",
    "Snek.Pins.C82_violated_nan"
   ],
   "note": "proved for every board whose table has distinct pins and right channels, hence for seven boards entirely and for the Crickit but for pins 14, 15, 22 and 23, where the table is wrong; also false: talkto of a turning motor, calls before the first talkto, setpower after read, setpower of NaN. What is sent to the lamps of the board at start is C81."
  },
  {
   "property": "C83",
   "status": "partial",
   "theorems": [
    "Snek.AvrPins.C83_boards_partial",
    "Snek.AvrPins.C83_power",
    "Snek.AvrPins.C83_power_limits",
    "Snek.AvrPins.C83_level_partial",
    "Snek.AvrPins.C83_input",
    "Snek.AvrPins.C83_read_partial",
    "Snek.AvrPins.C83_pull",
    "Snek.AvrPins.C83_read_value_partial",
    "Snek.AvrPins.C83_reset_partial",
    "Snek.AvrPins.C83_violated_pin6",
    "Snek.AvrPins.C83_violated_stopall",
    "Snek.AvrPins.C83_violated_pullup",
    "Snek.AvrPins.C83_violated_a8",
    "Snek.AvrPins.C83_violated_uduino",
    "Snek.AvrPins.C83_violated_spi",
    "Snek.AvrPins.C83_violated_reset",
    "Snek.AvrPins.C83_violated_after_read",
    "Snek.AvrPins.C83_violated_nan"
   ],
   "note": "proved for all four boards but for: pins that are both read and talked to; pin 6 of the ATmega32U4 boards, pin 5 of the Nano Every with stopall, pull-ups on the Nano Every, A8 to A15 of the Mega, the new start after reset on the ATmega32U4 boards, setpower of NaN: false there (C83_violated_*). Pins 0 and 1 of Mega and Nano Every belong to the serial port, which is not modelled"
  },
  {
   "property": "C84",
   "status": "partial",
   "theorems": [
    "Snek.Tone.C84_safe_partial",
    "Snek.Tone.C84_wave",
    "Snek.Tone.C84_pitch",
    "Snek.Tone.C84_stop",
    "Snek.Tone.C84_shape",
    "Snek.Tone.C84_rest",
    "Snek.Tone.C84_level",
    "Snek.Tone.C84_note_328_partial",
    "Snek.Tone.C84_low_328",
    "Snek.Tone.C84_quiet_328_partial",
    "Snek.Tone.C84_lasts_328",
    "Snek.Tone.C84_note_every",
    "Snek.Tone.C84_quiet_every",
    "Snek.Tone.C84_restored_every",
    "Snek.Tone.C84_violated_range",
    "Snek.Tone.C84_violated_negative",
    "Snek.Tone.C84_violated_rest",
    "Snek.Tone.C84_violated_power",
    "Snek.Tone.C84_violated_off",
    "Snek.Tone.C84_violated_tonefor",
    "Snek.Tone.C84_violated_pin6",
    "Snek.Tone.C84_violated_high",
    "Snek.Tone.C84_violated_on",
    "Snek.Tone.C84_violated_pin9"
   ],
   "note": "Proved: on the ATmega328P boards from 31 Hz to 4 MHz with all powers 0 or 1, on the Nano Every from 0.3 Hz to 6 MHz after any calls, tone starts a wave of the given frequency (rounding bounded); tone(0) ends it; stopall and off end it on the Nano Every; on the SAMD21 boards the samples are those of the wave at the frequency (to the rounding of the step), at the level of the pin, continuous in phase, and tone(0) lets the wave end; no undefined step for frequencies from 0 to 24000 Hz. Not provable, since false (C84_violated_*): other powers, off and stopall on the ATmega328P boards, tonefor, other pins of the same timer, frequencies outside the ranges, quiet output after the end on SAMD21. Not modelled: the timer period of the DAC (2001 counts instead of 2000)."
  },
  {
   "property": "C85",
   "status": "partial",
   "theorems": [
    "Snek.Pow.C85_exp_partial",
    "Snek.Pow.C85_log",
    "Snek.Pow.C85_ipow",
    "Snek.Pow.C85_pow_partial",
    "Snek.Pow.C85_violated_large",
    "Snek.Pow.C85_violated_zero",
    "Snek.Pow.C85_violated_negative",
    "Snek.Pow.C85_violated_odd",
    "Snek.Pow.C85_violated_root",
    "Snek.Pow.C85_violated_exact"
   ],
   "note": "Proved for all positive bases and exponents up to 65536 in size where the power is between exp(-60) and exp(60), for natural exponents below 256 and bases of either sign where the power is between 2^-100 and 2^120, for exp below 64 in size, for log of every positive number. False of the code, with witnesses: larger powers, zero to other exponents, negative bases with negative or large integer exponents, NaN for roots of negative numbers. The bound is not claimed to be the best."
  },
  {
   "property": "C86",
   "status": "partial",
   "theorems": [
    "Snek.UsbAvr.C86_input",
    "Snek.UsbAvr.C86_accepts",
    "Snek.UsbAvr.C86_drains",
    "Snek.UsbAvr.C86_returns",
    "Snek.UsbAvr.C86_interrupt_partial",
    "Snek.UsbAvr.C86_interrupt_read",
    "Snek.UsbAvr.C86_violated_full",
    "Snek.UsbAvr.C86_output",
    "Snek.UsbAvr.C86_flush",
    "Snek.UsbAvr.C86_returned",
    "Snek.UsbAvr.C86_waits",
    "Snek.UsbAvr.C86_progress"
   ],
   "note": "Proved: input in order and complete, nothing stuck, output in order and complete, short last packet, waiting only for the host, termination; for all interleavings. ^C: proved unless the queue is full; with a full queue it is not noticed (witness). Endpoint 0, reset and reconfiguration are not modelled."
  },
  {
   "property": "C87",
   "status": "partial",
   "theorems": [
    "Snek.Ev3.C87_sound",
    "Snek.Ev3.C87_readonly",
    "Snek.Ev3.C87_port",
    "Snek.Ev3.C87_mode",
    "Snek.Ev3.C87_closed",
    "Snek.Ev3.C87_numbers",
    "Snek.Ev3.C87_complete_partial",
    "Snek.Ev3.C87_violated_foreign",
    "Snek.Ev3.C87_violated_unplug"
   ],
   "note": "Sound in every history and schedule; no descriptor is left open; numbers of 32 bits are read whole. Complete only when all attached sensors are known and nothing is detached in the search: an unknown sensor hides the others (C87_violated_foreign), and so does a sensor detached at the wrong moment (C87_violated_unplug)."
  },
  {
   "property": "C88",
   "status": "partial",
   "theorems": [
    "Snek.Ev3.C88_orders_partial",
    "Snek.Ev3.C88_failed_partial",
    "Snek.Ev3.C88_read_partial",
    "Snek.Ev3.C88_talkto",
    "Snek.Ev3.C88_unchosen",
    "Snek.Ev3.C88_closed",
    "Snek.Ev3.C88_speed",
    "Snek.Ev3.C88_text",
    "Snek.Ev3.C88_complete_partial",
    "Snek.Ev3.C88_violated_first",
    "Snek.Ev3.C88_violated_absent"
   ],
   "note": "In every history and schedule a command without an error gives exactly its orders to one motor, of the chosen port or number 0; with an error at most a beginning. Missing: that it is never motor 0 of another port, which is false (C88_violated_first, C88_violated_absent). Complete when motor 0 is the one at the port or is detached."
  },
  {
   "property": "C89",
   "status": "partial",
   "theorems": [
    "Snek.Relay.C89_sessions",
    "Snek.Relay.C89_sleep",
    "Snek.Relay.C89_unreachable",
    "Snek.Relay.C89_exit_partial",
    "Snek.Relay.C89_killed_partial",
    "Snek.Relay.C89_interrupts",
    "Snek.Relay.C89_interrupt",
    "Snek.Relay.C89_arrives",
    "Snek.Relay.C89_violated_typeahead",
    "Snek.Relay.C89_violated_slow",
    "Snek.Relay.C89_violated_halfclose",
    "Snek.Relay.C89_violated_client"
   ],
   "note": "In every run all traffic falls into sessions and nothing is lost, repeated or moved within one; the server sleeps only when nothing can move; everything arrives while both sides take bytes; interrupts are counted. Missing: the last output of Snek can be lost (C89_violated_typeahead, C89_violated_slow), a half-closed client gets no answer, and a client can kill the server (C89_violated_client)."
  },
  {
   "property": "C90",
   "status": "partial",
   "theorems": [
    "Snek.Ev3Store.C90_write_partial",
    "Snek.Ev3Store.C90_crash",
    "Snek.Ev3Store.C90_violated_eof",
    "Snek.Ev3Store.C90_violated_binary",
    "Snek.Ev3Store.C90_show_partial",
    "Snek.Ev3Store.C90_erased",
    "Snek.Ev3Store.C90_violated_long",
    "Snek.Ev3Store.C90_violated_stack"
   ],
   "note": "A text without 0xff is stored whole, a crash leaves the old program or a beginning of the new one, erase leaves nothing, and a program shorter than 4096 bytes is shown right in zeroed memory. Missing, because false: the end of the input (C90_violated_eof), 0xff (C90_violated_binary), longer programs (C90_violated_long) and memory that is not zero (C90_violated_stack)."
  },
  {
   "property": "C91",
   "status": "partial",
   "theorems": [
    "Snek.Scarce.C91_stops",
    "Snek.Scarce.C91_enough",
    "Snek.Scarce.C91_reported",
    "Snek.Scarce.C91_executed_partial",
    "Snek.Scarce.C91_violated_def",
    "Snek.Scarce.C91_violated_write"
   ],
   "note": "Stopping, agreement with unlimited memory, and that a refusal is never reported as success, for all answers and texts. What is executed after a refusal is shown to be complete commands, and at most a line-number instruction or a function: that a function is defined then is a defect (C91_violated_def), as is a write behind the block (C91_violated_write). Assumes that no value is lost for want of room on the value stack (C76). Refusals to the lexer are not modelled."
  },
  {
   "property": "C92",
   "status": "partial",
   "theorems": [
    "Snek.Snekde.C92_keys_partial",
    "Snek.Snekde.C92_up",
    "Snek.Snekde.C92_down_partial",
    "Snek.Snekde.C92_cursor_partial",
    "Snek.Snekde.C92_unwind_partial",
    "Snek.Snekde.C92_undo_partial",
    "Snek.Snekde.C92_indent_partial",
    "Snek.Snekde.C92_newline_partial",
    "Snek.Snekde.C92_page_partial",
    "Snek.Snekde.C92_violated_page",
    "Snek.Snekde.C92_violated_indent",
    "Snek.Snekde.C92_violated_last",
    "Snek.Snekde.C92_violated_copy",
    "Snek.Snekde.C92_violated_shared",
    "Snek.Snekde.C92_violated_load"
   ],
   "note": "Proved for one window with which nothing else happens: every key, the places, and undoing everything. Not true of snekde as it is: both windows share the undo list, loading does not empty it, and indenting a line that is indented too deep deletes code (violated theorems)."
  },
  {
   "property": "C93",
   "status": "partial",
   "theorems": [
    "Snek.Link.C93_order",
    "Snek.Link.C93_kept_partial",
    "Snek.Link.C93_delivered_partial",
    "Snek.Link.C93_ends",
    "Snek.Link.C93_violated_question",
    "Snek.Link.C93_violated_busy"
   ],
   "note": "Proved: order in every schedule; without a wait that ends by itself no byte of the text is dropped, and with a ring of more places than bytes per question everything is delivered. The ring of the device has one place too few for the question (violated theorems)."
  },
  {
   "property": "C94",
   "status": "partial",
   "theorems": [
    "Snek.PutGet.C94_put_partial",
    "Snek.PutGet.C94_get",
    "Snek.PutGet.C94_roundtrip_partial",
    "Snek.PutGet.C94_violated_tab",
    "Snek.PutGet.C94_violated_accent",
    "Snek.PutGet.C94_violated_blank"
   ],
   "note": "Proved for every text of printable ASCII characters and newlines that fits, and for every stored program what of it is shown. Tabs and characters beyond ASCII are lost by Get (violated theorems)."
  },
  {
   "property": "C95",
   "status": "partial",
   "theorems": [
    "Snek.I2c.C95_put_partial",
    "Snek.I2c.C95_get_partial",
    "Snek.I2c.C95_accel_partial",
    "Snek.I2c.C95_violated_odd",
    "Snek.I2c.C95_violated_missing",
    "Snek.I2c.C95_violated_range",
    "Snek.I2c.C95_violated_torn"
   ],
   "note": "Proved for an even address byte with a device there, byte arguments, and for accel a sensor that takes no new sample during the call; the violated theorems show the other cases, which are silent."
  },
  {
   "property": "C96",
   "status": "partial",
   "theorems": [
    "Snek.UsbControl.C96_answers_partial",
    "Snek.UsbControl.C96_descriptor_partial",
    "Snek.UsbControl.C96_serial",
    "Snek.UsbControl.C96_coding_partial",
    "Snek.UsbControl.C96_progress_partial",
    "Snek.UsbControl.C96_ends",
    "Snek.UsbControl.C96_address_partial",
    "Snek.UsbControl.C96_violated_configuration",
    "Snek.UsbControl.C96_violated_exact",
    "Snek.UsbControl.C96_violated_address"
   ],
   "note": "Proved for every table of descriptors, every sequence of requests and every interleaving of host, hardware and interrupt handler: the answers (C96_answers_partial, C96_descriptor_partial, C96_coding_partial), no request hangs (C96_progress_partial, C96_ends), the address (C96_address_partial), and that the serial number tells boards apart (C96_serial). Missing: the number of the configuration (false, C96_violated_configuration), requests that get exactly as many bytes as wanted in full packets (false, C96_violated_exact), and for progress and address the case that an address is given while the interrupt of the packet before is not served (false, C96_violated_address). Reset and a host that gives up are not modelled."
  },
  {
   "property": "C97",
   "status": "partial",
   "theorems": [
    "Snek.Baro.C97_baro_zero",
    "Snek.Baro.C97_baro_sign",
    "Snek.Baro.C97_baro_partial",
    "Snek.Baro.C97_violated_sign"
   ],
   "note": "Proved for all constants and readings for which the formula of the data sheet stays in 32 bits: what baro gives, exactly (C97_baro_sign), and that it is the pressure if P8 and P9 are not negative (C97_baro_partial). For negative ones the claim is false (C97_violated_sign). The sensor must not change its readings during the call."
  },
  {
   "property": "C98",
   "status": "partial",
   "theorems": [
    "Snek.Machine.C98_compare_partial",
    "Snek.Machine.C98_nan",
    "Snek.Machine.C98_is",
    "Snek.Machine.C98_in",
    "Snek.Machine.C98_in_string",
    "Snek.Machine.C98_truth",
    "Snek.Machine.C98_negate",
    "Snek.Machine.C98_complement_partial",
    "Snek.Machine.C98_unary_refused",
    "Snek.Machine.C98_display",
    "Snek.Machine.C98_concat",
    "Snek.Machine.C98_append",
    "Snek.Machine.C98_arithmetic",
    "Snek.Machine.C98_index",
    "Snek.Machine.C98_store",
    "Snek.Machine.C98_delete",
    "Snek.Machine.C98_names",
    "Snek.Machine.C98_print",
    "Snek.Machine.C98_str",
    "Snek.Machine.C98_len",
    "Snek.Machine.C98_chr",
    "Snek.Machine.C98_ord_partial",
    "Snek.Machine.C98_abs",
    "Snek.Machine.C98_int",
    "Snek.Machine.C98_arity",
    "Snek.Machine.C98_device_arity",
    "Snek.Machine.C98_violated_outside",
    "Snek.Machine.C98_for_list",
    "Snek.Machine.C98_for_dict",
    "Snek.Machine.C98_for_string",
    "Snek.Machine.C98_dict_display_partial",
    "Snek.Machine.C98_dict_get_partial",
    "Snek.Machine.C98_dict_store_partial",
    "Snek.Machine.C98_dict_delete_partial",
    "Snek.Machine.C98_divide_partial",
    "Snek.Machine.C98_floor",
    "Snek.Machine.C98_bits",
    "Snek.Machine.C98_shift",
    "Snek.Machine.C98_power",
    "Snek.Machine.C98_bits_refused",
    "Snek.Machine.C98_kinds_refused",
    "Snek.Machine.C98_string_concat",
    "Snek.Machine.C98_string_repeat",
    "Snek.Machine.C98_repeat",
    "Snek.Machine.C98_format",
    "Snek.Machine.C98_slice_partial",
    "Snek.Machine.C98_string_slice_partial",
    "Snek.Machine.C98_augment",
    "Snek.Machine.C98_augment_any",
    "Snek.Machine.C98_augment_dict"
   ],
   "note": "Missing: comparisons in which a list is a proper prefix of the other (they are wrong, C03); ~ of non-negative integers (wrong, C36) and ord of bytes from 128 (signed char, C68); // and % where quotient times divisor exceeds 2^24 (C35); slices of operands near the range of offsets (C04); dictionaries (display, read, store, delete, in) with the key restriction of C06; augmented assignment to elements of lists for all values (C98_augment_any) and of dictionaries for numbers (others: C09)."
  },
  {
   "property": "C99",
   "status": "partial",
   "theorems": [
    "Snek.Posix.C99_typed",
    "Snek.Posix.C99_prompts",
    "Snek.Posix.C99_session_end",
    "Snek.Posix.C99_file",
    "Snek.Posix.C99_status",
    "Snek.Posix.C99_help",
    "Snek.Posix.C99_clean_line",
    "Snek.Posix.C99_clean_end",
    "Snek.Posix.C99_violated_interrupt_at_prompt",
    "Snek.Posix.C99_violated_race",
    "Snek.Posix.C99_violated_fgets",
    "Snek.Posix.C99_violated_leftover",
    "Snek.Posix.C99_violated_option"
   ],
   "note": "Proved over any history in which ^C does not arrive inside the call that reads a character (it may arrive anywhere else, or in that call after the flag was cleared). Missing: ^C while a character is read ends the session and loses a character, ^C between the test and clearing the flag is lost (C99_violated_interrupt_at_prompt, C99_violated_race). readline and getopt_long are inputs."
  },
  {
   "property": "C100",
   "status": "partial",
   "theorems": [
    "Snek.Uf2.C100_image",
    "Snek.Uf2.C100_numbered",
    "Snek.Uf2.C100_defined",
    "Snek.Uf2.C100_back",
    "Snek.Uf2.C100_hex",
    "Snek.Uf2.C100_convert",
    "Snek.Uf2.C100_violated_order",
    "Snek.Uf2.C100_violated_skip"
   ],
   "note": "Proved for all images, addresses, families and orders of sectors; HEX files whose records fill pages one after another. Missing, because false: HEX files that come back to an earlier page (C100_violated_order). Converting foreign UF2 files stops at a sector that is not a block (C100_violated_skip)."
  },
  {
   "property": "C101",
   "status": "partial",
   "theorems": [
    "Snek.C101_factorial",
    "Snek.C101_limit",
    "Snek.C101_other",
    "Snek.C101_violated_domain"
   ],
   "note": "Proved for all arguments. Missing, because false: an error for numbers that have no factorial (C101_violated_domain; C101_other says what they give)."
  },
  {
   "property": "C102",
   "status": "partial",
   "theorems": [
    "Snek.Metal.C102_output",
    "Snek.Metal.C102_device",
    "Snek.Metal.C102_accept",
    "Snek.Metal.C102_progress",
    "Snek.Metal.C102_resume",
    "Snek.Metal.C102_input_partial",
    "Snek.Metal.C102_order",
    "Snek.Metal.C102_violated_xoff",
    "Snek.Metal.C102_violated_wakeup"
   ],
   "note": "Proved for all histories, ring sizes and device queues. Missing, because false: XOFF from the other side stops the output (C102_violated_xoff); a byte that comes just before the program waits is noticed (C102_violated_wakeup: getc itself is modelled as attempts). Input is lossless for senders that obey XON and XOFF with fewer than N/2 bytes late (C102_input_partial)."
  },
  {
   "property": "C103",
   "status": "partial",
   "theorems": [
    "Snek.MetalTime.C103_clock",
    "Snek.MetalTime.C103_expire_partial",
    "Snek.MetalTime.C103_waits",
    "Snek.MetalTime.C103_monotonic",
    "Snek.MetalTime.C103_violated_uptime"
   ],
   "note": "The end of a sleep is within 2 ms for uptimes up to 2^23 ms (2.3 hours) and durations from 2^-136 s to 2^22 ms (C103_expire_partial). Missing, because false: later (C103_violated_uptime). The metal library is input."
  },
  {
   "property": "C104",
   "status": "partial",
   "theorems": [
    "Snek.MetalGpio.C104_pins_partial",
    "Snek.MetalGpio.C104_direction",
    "Snek.MetalGpio.C104_refused",
    "Snek.MetalGpio.C104_violated_stopall",
    "Snek.MetalGpio.C104_violated_alias",
    "Snek.MetalGpio.C104_violated_setpower",
    "Snek.MetalGpio.C104_violated_direction"
   ],
   "note": "Missing, because false: both names of one place (18/20, 19/21; C104_violated_alias), setpower of something that is not a number (C104_violated_setpower). stopall and the direction do nothing (C104_violated_stopall, C104_violated_direction). The metal library is input."
  },
  {
   "property": "C105",
   "status": "partial",
   "theorems": [
    "Snek.Narrow.C105_level_partial",
    "Snek.Narrow.C105_pull_partial",
    "Snek.Narrow.C105_read",
    "Snek.Narrow.C105_source_partial",
    "Snek.Narrow.C105_dim_partial",
    "Snek.Narrow.C105_violated_dim",
    "Snek.Narrow.C105_full",
    "Snek.Narrow.C105_violated_pull15",
    "Snek.Narrow.C105_violated_pull16",
    "Snek.Narrow.C105_violated_read",
    "Snek.Narrow.C105_violated_after_read"
   ],
   "note": "Proved for pins that were not read and, if they can be dimmed, with no or full power. Missing, because false: after read (C105_violated_after_read), dimming of four pins (C105_violated_dim), pull-ups from pin 15 up (C105_violated_pull15, C105_violated_pull16), reading of analog pins with pull-up (C105_violated_read). The shift by 16 or more, undefined in C, is taken as 0."
  }
 ]
}