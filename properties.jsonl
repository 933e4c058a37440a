{"id": "C01", "title": "Tagged values never confuse numbers with objects", "statement": "A number stored in a variable, list or stack slot comes back as the same number (any NaN comes back as a NaN), an object reference comes back with the same kind and the same heap address, and no number, object reference, None or internal marker is ever mistaken for another of these.", "quantifier": "all 2^32 float bit patterns, all four object kinds, all word-aligned heap offsets below the pool limit", "why_tests_cant": "The value space is 2^32 words times every offset; tests touch a handful of constants and never the NaN/-infinity boundary region where the tags live.", "anchors": ["snek.h:snek_poly_t,SNEK_NAN_U,SNEK_NULL_U,snek_is_float", "snek-poly.c:snek_poly_type,snek_poly_to_offset,snek_offset_to_poly,snek_float_to_poly"]}
{"id": "C02", "title": "Scalar comparison is a consistent total order", "statement": "For numbers other than NaN and for strings, exactly one of a<b, a==b, a>b holds, the order is transitive, == is an equivalence relation, <= is the negation of > and values of different kinds are always ordered the same way round.", "quantifier": "all pairs and triples of scalar values", "why_tests_cant": "Transitivity and trichotomy range over all triples of values; a test only samples triples.", "anchors": ["snek-poly.c:snek_poly_cmp", "snek-exec.c:snek_binary"]}
{"id": "C03", "title": "Lists and tuples compare lexicographically", "statement": "Comparing two lists or two tuples gives the lexicographic order of their elements, a proper prefix coming first, so that a<b exactly when b>a. (The code violates this for proper prefixes.)", "quantifier": "all pairs of finite nested lists/tuples", "why_tests_cant": "Requires all pairs of nested values; the existing tests compare equal-length or differing-in-element lists only.", "anchors": ["snek-list.c:snek_list_cmp", "snek-poly.c:snek_poly_cmp"]}
{"id": "C04", "title": "Slices select exactly the Python slice positions", "statement": "v[start:end:stride] on a string, list or tuple returns the elements at exactly the positions a Python slice selects, in that order, with every missing bound defaulted as Python does.", "quantifier": "all lengths, all present or absent start, end and non-zero stride values in the index range", "why_tests_cant": "Four unbounded integer parameters with sign-dependent defaults and clamping; tests enumerate a few short lengths.", "anchors": ["snek-exec.c:snek_op_slice", "snek-list.c:snek_list_slice", "snek-string.c:snek_string_slice", "snek.h:snek_slice_t"]}
{"id": "C05", "title": "Indexing addresses exactly the elements that exist", "statement": "v[i] on a list, tuple or string yields element i for 0<=i<len, element len+i for -len<=i<0, and an error for every other index; a read or write never touches storage outside the elements.", "quantifier": "all lengths and all representable indices", "why_tests_cant": "Out-of-range behaviour for every index including the wrap-around region cannot be enumerated by tests.", "anchors": ["snek-list.c:_snek_list_ref", "snek-string.c:snek_string_get", "snek-poly.c:snek_poly_get_soffset"]}
{"id": "C06", "title": "A dictionary is a finite map", "statement": "After any sequence of stores, deletes and literals, d[k] returns the value most recently stored under a key equal to k and not deleted since, reports an error when there is none, `k in d` agrees with that, len(d) counts the keys, and no key occurs twice.", "quantifier": "all finite histories of dictionary operations over keys that are totally ordered", "why_tests_cant": "The sorted-array invariant has to survive every history; tests replay a few histories.", "anchors": ["snek-list.c:_snek_list_ref,snek_list_del,snek_list_imm"]}
{"id": "C07", "title": "Dictionaries are canonical", "statement": "Two dictionaries holding the same key/value pairs are stored, printed and iterated identically no matter in which order or with which overwritten values they were built; in a literal with duplicate keys the last entry wins.", "quantifier": "all pairs of histories that produce equal maps", "why_tests_cant": "Quantifies over pairs of unbounded histories.", "anchors": ["snek-list.c:snek_list_imm,_snek_list_ref", "snek-poly.c:snek_poly_format"]}
{"id": "C08", "title": "Deleting a dictionary key removes only that key", "statement": "del d[k] removes the entry for k if there is one and changes no other entry; if there is none the dictionary is left with the same entries.", "quantifier": "all dictionaries and keys", "why_tests_cant": "Every dictionary and key, including absent keys where the implementation first inserts and then deletes.", "anchors": ["snek-list.c:snek_list_del"]}
{"id": "C09", "title": "Augmented assignment to a dictionary entry changes that entry only", "statement": "d[k] op= v with k present replaces the value of k by (old op v) and changes nothing else; with k absent it reports an error and leaves d with the entries it had. (The code violates the second half: it does report an error, but leaves an entry for k with a left-over value behind.)", "quantifier": "all dictionaries, keys, operators and operands", "why_tests_cant": "Needs the interaction of the value stack with dictionary growth for every dictionary; no test covers it.", "anchors": ["snek-exec.c:snek_assign", "snek-list.c:_snek_list_ref"]}
{"id": "C10", "title": "List arithmetic and aliasing", "statement": "a+b and a*n build new lists holding the concatenation / n-fold repetition and leave the operands unchanged; a+=b on a list changes the one shared object so every alias sees the appended elements, including when a and b are the same list.", "quantifier": "all lists, all counts, all aliasing patterns", "why_tests_cant": "Aliasing patterns and lengths are unbounded.", "anchors": ["snek-list.c:snek_list_plus,snek_list_times,snek_list_append", "snek-exec.c:snek_binary,snek_assign"]}
{"id": "C11", "title": "Tuples and strings are immutable", "statement": "No statement or operation changes the elements of an existing tuple or the characters of an existing string: index assignment and del on them are errors and augmented assignment builds a new value.", "quantifier": "all sequences of operations and all tuples/strings reachable before them", "why_tests_cant": "An invariant over every history of operations, not over one call.", "anchors": ["snek-exec.c:snek_assign,snek_list_plus", "snek-list.c:snek_list_del"]}
{"id": "C12", "title": "Mutable keys are refused", "statement": "Storing under a key that is a list, a dictionary, or a tuple containing one at any depth is refused with an error and leaves the dictionary unchanged; every other key is accepted.", "quantifier": "all key values of any nesting depth", "why_tests_cant": "Nesting depth is unbounded.", "anchors": ["snek-list.c:snek_mutable,_snek_list_ref"]}
{"id": "C13", "title": "List storage is always large enough", "statement": "A list's storage always holds at least as many slots as it has elements, growth preserves existing elements, and memory requested for n elements covers n elements. (With 16-bit offsets the size computation wraps and the request is too small.)", "quantifier": "all sizes and all resize histories", "why_tests_cant": "The overflow region needs lists of thousands of elements on a particular offset width.", "anchors": ["snek-list.c:snek_list_alloc,snek_list_resize,snek_list_times", "snek-memory.c:snek_alloc"]}
{"id": "C14", "title": "Garbage collection is invisible", "statement": "After a collection every value reachable from variables, the stack, the running code and the names is unchanged: same structure, same contents, same sharing (identity) between objects.", "quantifier": "all heaps, all root sets, all object graphs including cycles, all pool and chunk-table sizes", "why_tests_cant": "Object graphs are unbounded and cyclic; the collector only misbehaves for particular layouts.", "anchors": ["snek-memory.c:snek_collect,walk,snek_mark_addr,snek_move_addr,move_map,find_chunk,note_chunk"]}
{"id": "C15", "title": "A full collection reclaims all garbage", "statement": "After a full collection the used part of the pool is exactly the total size of the reachable objects, packed from the bottom without holes.", "quantifier": "all heaps and root sets, including cyclic garbage", "why_tests_cant": "Any unreachable structure, including cycles, must be freed; tests check a few.", "anchors": ["snek-memory.c:snek_collect"]}
{"id": "C16", "title": "Allocation returns fresh storage", "statement": "Every successful allocation returns a word-aligned, zero-filled region inside the pool that overlaps no reachable object, and leaves all reachable values unchanged.", "quantifier": "all heap states and request sizes", "why_tests_cant": "Depends on every earlier allocation history.", "anchors": ["snek-memory.c:snek_alloc"]}
{"id": "C17", "title": "Out of memory is reported only when memory is really exhausted", "statement": "An allocation fails only when the reachable objects plus the rounded request exceed the pool.", "quantifier": "all heap states and request sizes", "why_tests_cant": "Needs completeness of the collector for every heap.", "anchors": ["snek-memory.c:snek_alloc,snek_collect"]}
{"id": "C18", "title": "Collection result does not depend on the chunk-table size", "statement": "The number of passes forced by the fixed relocation table does not change the result: any table size gives the same final heap, and collection always terminates.", "quantifier": "all heaps and all table sizes >= 1", "why_tests_cant": "Ports use different table sizes; only a proof covers all sizes and heaps.", "anchors": ["snek-memory.c:SNEK_NCHUNK,note_chunk,snek_collect"]}
{"id": "C19", "title": "Collection preserves the relative order of object addresses", "statement": "If one object lies below another before a collection it still does afterwards, so dictionaries keyed by functions (ordered by address) stay searchable.", "quantifier": "all heaps", "why_tests_cant": "Quantifies over all heaps and pairs of objects.", "anchors": ["snek-memory.c:snek_collect", "snek-poly.c:snek_poly_cmp"]}
{"id": "C20", "title": "An incremental collection only moves new objects", "statement": "A quick collection never moves an object allocated before the last full collection and still never loses or changes a reachable object.", "quantifier": "all heaps and collection histories", "why_tests_cant": "Depends on the history of collections.", "anchors": ["snek-memory.c:snek_collect,SNEK_COLLECT_INCREMENTAL,snek_last_top"]}
{"id": "C21", "title": "Relocation lookup is exact", "statement": "The relocation table keeps the lowest reachable objects in address order, whatever order they are discovered in, and looking up an address in it returns exactly that object's new address.", "quantifier": "all discovery orders and table sizes", "why_tests_cant": "All permutations of discovery order for unbounded tables.", "anchors": ["snek-memory.c:note_chunk,find_chunk,move_map"]}
{"id": "C22", "title": "Names are interned one-to-one", "statement": "Asking for the id of a spelling always gives the same id, different spellings give different ids, and the spelling can be recovered from the id, for the whole session.", "quantifier": "all sequences of name lookups", "why_tests_cant": "An invariant over the entire session history.", "anchors": ["snek-name.c:snek_name_id,snek_name_string"]}
{"id": "C23", "title": "Variable scoping", "statement": "Inside a function an assignment creates or updates a local variable and leaves the global of the same name alone unless `global` names it; a read prefers the local and falls back to the global; an assignment to one name never changes another; locals disappear when the function returns.", "quantifier": "all frames, names and sequences of assignments and calls", "why_tests_cant": "Quantifies over all interleavings of assignments in nested calls.", "anchors": ["snek-frame.c:snek_frame_lookup,snek_variable_lookup,snek_frame_mark_global,snek_id_ref"]}
{"id": "C24", "title": "del of a variable removes only that variable", "statement": "After `del x`, x is undefined and every other variable keeps its value. (The code violates this: variables created after x are destroyed.)", "quantifier": "all global frames and names", "why_tests_cant": "Any set of globals in any creation order.", "anchors": ["snek-frame.c:snek_variable_delete,snek_id_del"]}
{"id": "C25", "title": "Call argument binding", "statement": "A call binds positional arguments left to right, named arguments by name, omitted optional parameters to their defaults; too many arguments, unknown names, or a parameter given twice are errors, and so is a missing required parameter. (The code violates the last part when named arguments are used.)", "quantifier": "all parameter lists and all argument lists", "why_tests_cant": "Combinatorially many parameter/argument shapes.", "anchors": ["snek-func.c:snek_func_push,snek_func_actual"]}
{"id": "C26", "title": "Calls return to the caller", "statement": "When a called function returns, execution continues right after the call with the caller's local variables, pending operands and code, for every nesting of calls.", "quantifier": "all call stacks", "why_tests_cant": "Unbounded recursion depth.", "anchors": ["snek-frame.c:snek_frame_push,snek_frame_pop", "snek-exec.c:snek_exec,snek_call"]}
{"id": "C27", "title": "Expressions evaluate as written", "statement": "Running the code generated for any expression yields the value the source expression denotes, evaluating operands left to right exactly once, and leaves the operand stack as it was.", "quantifier": "all expression trees, all program states", "why_tests_cant": "Expression trees are unbounded; compiler correctness needs induction.", "anchors": ["snek-gram.ll:expr productions", "snek-code.c:snek_code_add_op,snek_code_set_push", "snek-exec.c:snek_exec"]}
{"id": "C28", "title": "and/or short-circuit", "statement": "`a and b` / `a or b` evaluate b only when needed and yield the operand value that decided the result.", "quantifier": "all operand expressions and states", "why_tests_cant": "Needs all operands including ones with side effects and errors.", "anchors": ["snek-gram.ll:expr-and-p,expr-or-p", "snek-exec.c:snek_op_branch_false,snek_op_branch_true"]}
{"id": "C29", "title": "Chained comparison", "statement": "a op1 b op2 c ... means a op1 b and b op2 c ... with every operand evaluated at most once and evaluation stopping at the first false link. (The code violates this for chains through is/in and for chains at the start of a default-argument expression.)", "quantifier": "all chain lengths, operators and operand expressions", "why_tests_cant": "Chains of any length with operands of any shape.", "anchors": ["snek-gram.ll:expr-cmp-p", "snek-code.c:snek_code_patch_forward"]}
{"id": "C30", "title": "Control flow executes as written", "statement": "if/elif/else, while/else, break, continue, return, assert, pass and statement sequences execute exactly the statements the source prescribes.", "quantifier": "all statement trees and program states", "why_tests_cant": "Unbounded nesting and iteration counts.", "anchors": ["snek-gram.ll:if-stat,while-stat,for-stat,compound-stat", "snek-code.c:snek_code_patch_branch,snek_code_patch_forward"]}
{"id": "C31", "title": "A function that falls off its end returns None", "statement": "Calling a function whose body finishes without executing return yields None. (The code violates this when the last instruction is a return inside a conditional.)", "quantifier": "all function bodies and calls", "why_tests_cant": "Quantifies over all bodies and all paths through them.", "anchors": ["snek-gram.ll:def-stat", "snek-code.c:snek_code_delete_prev"]}
{"id": "C32", "title": "for loops visit every element once, in order", "statement": "for x in range(a,b,s) visits a, a+s, ... up to but excluding b; for x in v over a list, tuple, string or dictionary visits each element (key) in order exactly once; else runs exactly when no break happened. (A None element ends the loop early.)", "quantifier": "all integer bounds within the exact range, all containers", "why_tests_cant": "All bounds/containers; float rounding only shows near the limits.", "anchors": ["snek-gram.ll:for-stat", "snek-exec.c:snek_range_start,snek_range_step,snek_in_step"]}
{"id": "C33", "title": "Every scan over generated code sees true instruction boundaries", "statement": "Marking, relocating, patching and line lookup walk compiled code instruction by instruction without losing synchronisation. (The code violates this after a dictionary literal.)", "quantifier": "all compiled programs", "why_tests_cant": "Holds or fails depending on operand bytes of arbitrary programs.", "anchors": ["snek-code.c:snek_op_operand_size,snek_code_mark,snek_code_move,snek_code_patch_forward,snek_code_line"]}
{"id": "C34", "title": "Constants survive compilation", "statement": "A numeric literal in source evaluates to that number in the running program, whichever of the compact or full encodings is chosen.", "quantifier": "all representable literal values", "why_tests_cant": "2^31 literals, with an encoding boundary at small integers.", "anchors": ["snek-code.c:snek_code_add_number", "snek-exec.c:snek_op_int,snek_op_num"]}
{"id": "C35", "title": "Integer arithmetic is exact up to 24 bits", "statement": "+, -, *, //, % and comparisons on integers give the exact integer result whenever operands and result are at most 2^24 in magnitude, and x == (x//y)*y + x%y holds with 0 <= x%y < y for positive y.", "quantifier": "all integer pairs with results in the exact range", "why_tests_cant": "2^50 operand pairs.", "anchors": ["snek-exec.c:snek_binary", "snek.h:snek_float_to_poly"]}
{"id": "C36", "title": "Bitwise operators act on the integer values", "statement": "&, |, ^, <<, >> and ~ applied to integers in range give the two's complement result of the corresponding integer operation and are rejected on non-numbers. (~ yields an unsigned result.)", "quantifier": "all 32-bit integer operands representable as numbers", "why_tests_cant": "2^48 operand pairs.", "anchors": ["snek-exec.c:snek_binary,snek_unary", "snek-poly.c:snek_poly_get_int"]}
{"id": "C37", "title": "Operator precedence and associativity", "statement": "Any expression written with at least the parentheses that the precedence and associativity of its operators require is read as that expression; only such texts are accepted, and none has two readings.", "quantifier": "all expression trees", "why_tests_cant": "Unbounded expression trees.", "anchors": ["snek-gram.ll:expr productions"]}
{"id": "C38", "title": "Lexical analysis terminates on every input", "statement": "The tokenizer consumes input or reaches end of file in finitely many reads on every input text. (The code violates this: a comment at end of file without a newline loops forever.)", "quantifier": "all input texts", "why_tests_cant": "All byte sequences.", "anchors": ["snek-lex.c:comment,snek_lex"]}
{"id": "C39", "title": "Keyword operators respect word boundaries", "statement": "`not`, `is` followed by an identifier are the operator and that identifier, for every identifier. (The code violates this for identifiers starting with in / not.)", "quantifier": "all identifiers and following texts", "why_tests_cant": "All identifiers.", "anchors": ["snek-lex.c:trailing"]}
{"id": "C40", "title": "String literals denote their characters", "statement": "Writing any string of ordinary characters with the documented escapes and reading it back gives the same string; over-long literals are rejected rather than truncated. (Escapes above \\x7f are rejected.)", "quantifier": "all character sequences", "why_tests_cant": "All strings.", "anchors": ["snek-lex.c:string,hex,add_token"]}
{"id": "C41", "title": "Numbers in source mean what they say", "statement": "A decimal integer literal, with or without grouping underscores, denotes that integer (exactly up to 2^24, correctly rounded otherwise) and tokenization stops at the first character that cannot continue a number.", "quantifier": "all digit strings", "why_tests_cant": "All digit strings.", "anchors": ["snek-lex.c:number", "snek-atof.c"]}
{"id": "C42", "title": "Block structure follows indentation", "statement": "For any sequence of line indentations the tokenizer and parser open a block exactly when indentation increases after a colon line and close blocks down to a previously open level, never leaving blocks open at end of input and rejecting a dedent to a level that was never opened.", "quantifier": "all sequences of indentation depths", "why_tests_cant": "Unbounded nesting and line counts.", "anchors": ["snek-lex.c:snek_lex,snek_current_indent", "snek-gram.ll:suite"]}
{"id": "C43", "title": "Line numbers in errors are right", "statement": "The line number recorded for a statement equals one plus the number of newlines before it, whatever lookahead and pushback happened.", "quantifier": "all input texts", "why_tests_cant": "Every text with every pushback pattern.", "anchors": ["snek-lex.c:lexchar,unlexchar,snek_lex_line"]}
{"id": "C44", "title": "The interactive line editor returns what was typed", "statement": "The line handed to the interpreter is the typed characters with backspace/delete and line-kill applied, ended by a newline; the buffer never overflows and characters beyond its capacity are ignored.", "quantifier": "all keystroke sequences", "why_tests_cant": "All keystroke sequences.", "anchors": ["snek-io.c:snek_io_getc"]}
{"id": "C45", "title": "Serial input is a FIFO under interrupts", "statement": "Bytes received by the interrupt handler are delivered to the program in order, each exactly once, for every interleaving of interrupts with the reader; bytes are dropped only while the buffer is full, or by ^C, which discards what is waiting before it. XON, XOFF and the probe ^T are not delivered.", "quantifier": "all interleavings of interrupt and reader steps", "why_tests_cant": "Schedules are unbounded; races show up only in rare interleavings.", "anchors": ["chips/atmega/snek-atmega-serial.c"]}
{"id": "C46", "title": "Serial flow control alternates and prevents overrun", "statement": "XOFF and XON are sent alternately, XOFF is in effect whenever the buffer is above the high-water mark, and XON is sent again once it has drained.", "quantifier": "all interleavings", "why_tests_cant": "Schedules.", "anchors": ["chips/atmega/snek-atmega-serial.c"]}
{"id": "C47", "title": "Programs saved in EEPROM are read back unchanged", "statement": "A program written to EEPROM is read back at boot byte for byte up to its end marker; erasing makes it empty; interrupting a write at any point never makes the reader run past the EEPROM.", "quantifier": "all program texts that fit and all crash points", "why_tests_cant": "All texts and all crash points.", "anchors": ["chips/avr/snek-avr-eeprom.c", "chips/atmega/snek-atmega-eeprom.c"]}
{"id": "C48", "title": "Programs saved in flash are read back unchanged", "statement": "After writing a program to flash a byte at a time and finishing, flash holds exactly those bytes from its start, whatever was there before.", "quantifier": "all byte sequences that fit and all previous contents", "why_tests_cant": "All contents and page boundary alignments.", "anchors": ["chips/samd21/ao-flash-samd21.c", "chips/samd21/snek-eeprom.c"]}
{"id": "C49", "title": "Random numbers: reproducible and in range", "statement": "seed(s) makes the following sequence a function of s only; random() is in [0,1) and randrange(n) in 0..n-1. (The range parts are violated through rounding and, in the small generator, a scale factor of two.)", "quantifier": "all seeds, states and limits", "why_tests_cant": "2^64 generator states.", "anchors": ["snek-random.c", "snek-random-small.c"]}
{"id": "C50", "title": "math.gcd returns the greatest common divisor", "statement": "gcd(a,b) is the greatest common divisor. (The code violates this for most coprime arguments and for zero.)", "quantifier": "all pairs of positive integers", "why_tests_cant": "All pairs.", "anchors": ["snek-math.c:gcdf"]}
{"id": "C51", "title": "String formatting consumes exactly its arguments", "statement": "fmt % args succeeds exactly when the number of conversions in fmt equals the number of arguments and yields fmt with each conversion replaced, in order; %% yields one percent sign.", "quantifier": "all format strings and argument tuples", "why_tests_cant": "All format strings.", "anchors": ["snek-string.c:snek_string_interpolate"]}
{"id": "C52", "title": "String operators", "statement": "a+b is concatenation, s*n repetition, `x in s` is the substring relation, len and indexing agree with the characters.", "quantifier": "all strings and counts", "why_tests_cant": "All strings.", "anchors": ["snek-string.c:snek_string_cat,snek_string_times", "snek-exec.c:snek_is_in"]}
{"id": "C53", "title": "in and not in are complementary", "statement": "`x in c` is true exactly when some element (key, substring) of c equals x, and `x not in c` is its negation for every container and value.", "quantifier": "all containers and values", "why_tests_cant": "All containers.", "anchors": ["snek-exec.c:snek_binary"]}
{"id": "C54", "title": "Errors leave the interpreter usable", "statement": "After any history of commands, run-time errors, syntax errors and interrupts the next command starts with no active calls, an empty operand stack and no pending value; of the errors of a command only the first is reported; what was assigned before the error keeps its value; a session behaves as the sequence of the meanings of its commands, whatever failed before. ^C, typed at any moment, leaves variables and devices as the command had made them after one of its instructions. (If there is no memory for `_` the next command is lost without a message.)", "quantifier": "all histories of commands, all error points and all moments of an interrupt", "why_tests_cant": "Every possible error point in every program, followed by every program.", "anchors": ["snek-exec.c:snek_exec", "snek-error.c:snek_error_name", "snek-gram.ll:command", "snek-parse.c:snek_parse"]}
{"id": "C55", "title": "Truth values", "statement": "A value counts as true exactly when it is a non-zero number, a non-empty string/list/tuple/dictionary; None is false. (Functions are documented to be true but count as false.)", "quantifier": "all values", "why_tests_cant": "All values.", "anchors": ["snek-poly.c:snek_poly_true"]}
{"id": "C56", "title": "Power by repeated squaring", "statement": "Integer powers computed by the small power routine equal repeated multiplication for every exponent.", "quantifier": "all bases and exponents", "why_tests_cant": "All exponents.", "anchors": ["snek-pow.c:ipow"]}
{"id": "C57", "title": "Printing of nested containers", "statement": "The printed form of a finite value lists its elements in order with the documented brackets and separators, so different nested values of numbers print differently.", "quantifier": "all finite nested values", "why_tests_cant": "Unbounded nesting.", "anchors": ["snek-poly.c:snek_poly_format"]}
{"id": "C58", "title": "Stack overflow is caught", "statement": "An expression nesting that exceeds the operand stack is reported as an error and nothing outside the stack is ever written or read.", "quantifier": "all sequences of stack operations", "why_tests_cant": "All programs.", "anchors": ["snek-exec.c:snek_stack_push,snek_stack_pop"]}
{"id": "C59", "title": "Arithmetic is correctly rounded", "statement": "For finite numbers a + b, a - b, a * b and a / b (b not zero) are the exact results rounded to the nearest representable number, ties to even, and infinite exactly when the exact result is beyond the largest number by at least half a step.", "quantifier": "all pairs of finite numbers", "why_tests_cant": "2^64 pairs of operands.", "anchors": ["snek-exec.c:snek_binary"]}
{"id": "C60", "title": "Every program is read as the statements it consists of, and nothing else is accepted", "statement": "For every sequence of tokens: if it forms a program according to the grammar of statements (simple statements joined by ';', if/elif/else, while/else, for-in, for-range, def with defaults, import, nested blocks), the parser accepts it and produces exactly that program, each statement marked with the line of its first token; if it does not, the parser rejects it; and no sequence forms two programs, so every else belongs to exactly one statement.", "quantifier": "all token sequences with any line numbers, any nesting depth", "why_tests_cant": "Unboundedly many programs; tests fix a few shapes.", "anchors": ["snek-gram.ll", "snek-parse.c:snek_parse"]}
{"id": "C61", "title": "A source text is read as the program it spells", "statement": "For every file, written as logical lines of words, operators, literals, blanks, comments, blank lines and bracketed continuation lines with consistent or inconsistent indentation: the interpreter accepts it exactly if the indentation is consistent and the tokens form a program, the program it produces is that one, every statement carries the number of the line it starts on, and no text is read as two programs.", "quantifier": "all files of any length, nesting and layout", "why_tests_cant": "Unboundedly many texts; lexer, indentation and parser interact.", "anchors": ["snek-lex.c:snek_lex", "snek-gram.ll", "snek-parse.c:snek_parse"]}
{"id": "C62", "title": "Serial output is complete and in order under flow control", "statement": "The bytes a program writes are sent in order, none lost, duplicated or overwritten in the transmitter, for every interleaving of program, interrupts and hardware; nothing is sent while the host has stopped the device, and when the host lets it run everything written is sent eventually. (Progress is violated after a probe ^T: the transmitter's interrupt stays off.)", "quantifier": "all interleavings of writer, receiver interrupt, transmitter interrupt and hardware steps", "why_tests_cant": "Schedules are unbounded.", "anchors": ["chips/atmega/snek-atmega-serial.c:_snek_uart_tx_start,snek_uart_putch"]}
{"id": "C63", "title": "A program saved in megaAVR flash is the program read at boot", "statement": "On the ATmega4809 (whose EEPROM is too small) eeprom.write() stores the typed text in the flash behind the interpreter, page by page: after ^D it is what is read at boot and what eeprom.show() prints, text that does not fit is cut off one byte before the end, nothing outside the region changes, and a write that is interrupted leaves whole new pages followed by the old contents. eeprom.erase() empties the store. (Violated: erase looks at address 0 instead of the store and may do nothing; without the APPEND fuse the text is stored into I/O registers.)", "quantifier": "all texts, previous contents, page sizes, region sizes and points of interruption between bytes", "why_tests_cant": "Unboundedly many texts and contents; page boundaries and the unwritten last byte interact.", "anchors": ["chips/atmega/snek-atmega-flash.c:snek_builtin_eeprom_write,snek_builtin_eeprom_show,snek_builtin_eeprom_erase,snek_eeprom_getchar"]}
{"id": "C64", "title": "Numbers print so that they can be told apart and read back", "statement": "The text printed for a finite number is a decimal within half of 1e-8 of it, relatively, so that correctly rounding that decimal gives back exactly that number; different numbers, infinities and NaN print differently, and so do different lists, tuples and dictionaries of them.", "quantifier": "all 2^32 number representations and all finite nested values", "why_tests_cant": "Testing all numbers does not settle nested values, and no test settles the relation to exact decimals.", "anchors": ["snek-print.c:snek_poly_format", "snek-poly.c:snek_float_to_poly"]}
{"id": "C65", "title": "draw.line draws straight lines and the display shows them", "statement": "On the SSD1315 display, draw.line(x, y) sets exactly the pixels of a straight line from the position of the pen to (x, y) moved into the picture to the colour chosen, leaves the pen there, touches nothing outside of the frame buffer, and after any sequence of draw.erase, draw.color, draw.move and draw.line the display shows the picture that was drawn, whatever it showed at power-on.", "quantifier": "all pairs of end points, all sequences of drawing operations, all initial display contents", "why_tests_cant": "There are four million pairs of end points and unboundedly many sequences; the error term is an 8-bit variable that overflows only for some slopes.", "anchors": ["snek-ssd1315.c: snek_builtin_draw_line, snek_builtin_draw_move, snek_builtin_draw_erase, snek_builtin_draw_color, set_bit, paint_block, snek_oled_init, snek_get_coord"]}
{"id": "C66", "title": "Decimal fractions and exponents mean what they say", "statement": "A number literal with fraction and exponent, whatever the number of its digits, denotes on the AVR builds the number written to within one part in a million if that lies between 2.4e-38 and 1.7e38; zero denotes zero.", "quantifier": "all literals of up to 255 characters", "why_tests_cant": "There are more literals than can be tried, and the error depends on every digit and on the chain of multiplications by powers of ten.", "anchors": ["snek-atof.c: atoff", "snek-lex.c: number"]}
{"id": "C67", "title": "The clock does not jump and sleep does not end early", "statement": "A reading of the clock is the time at some moment during the call, whatever interrupts arrive while it is taken; time.monotonic does not go backwards (until the 32-bit count wraps); time.sleep(s) that is not interrupted lasts at least s, up to one tick and the precision of a float, and ends at the first look at the clock after that.", "quantifier": "all interleavings of the program's instructions, the counter and the interrupt handlers; all durations", "why_tests_cant": "The failure needs an overflow of the counter between two particular instructions; a test meets it once in thousands of calls.", "anchors": ["chips/avr/ao-snek-avr.c: snek_ticks, snek_builtin_time_sleep, snek_builtin_time_monotonic", "chips/atmega/snek-atmega-time.c", "chips/samd21/ao-timer.c: ao_time_ns"]}
{"id": "C68", "title": "The builtin functions compute what they are documented to", "statement": "print writes the texts of its arguments with one blank between them and then a newline or the text of end; input returns the line as edited and consumes nothing after it; len is the number of bytes, elements or keys; ord(chr(n)) is n for n from 1 to 127 (to 255 where char is unsigned); abs is the magnitude; int is the integer next to the number toward zero.", "quantifier": "all argument lists and values; all sequences of keys", "why_tests_cant": "Argument lists, numbers and key sequences are unbounded.", "anchors": ["snek-builtin.c", "snek-input.c: snek_builtin_input, snek_builtin_int", "snek-poly.c: snek_poly_len"]}
{"id": "C69", "title": "A program file does what its text says", "statement": "Loading a file whose text is a program changes the variables and the world exactly as the meaning of that program says: functions are defined, statements executed in order, and the first error ends the program with one message.", "quantifier": "all program texts with any layout, all initial variables, all machines and worlds", "why_tests_cant": "Texts, programs and runs are unbounded; every part from the lexer to the bytecode loop takes part.", "anchors": ["snek-parse.c: snek_parse", "snek-gram.ll: start, command", "snek-lex.c", "snek-code.c", "snek-exec.c", "snek-func.c: snek_func_alloc"]}
{"id": "C70", "title": "A pin does what the last commands for it said", "statement": "On an ATmega328P board, after any sequence of talkto, setpower, setleft, setright, on, off, stopall, pullup, pullnone and read calls, a pin that was talked to drives its power if it is on and nothing if it is off, whatever was done with other pins in between; a pin never talked to drives nothing; read makes a pin an input with the pull-up it was given; setpower(p) gives 255 p to the nearest step, nothing below 0, full power above 1, and never less for more; an analog pin reads the converter's fraction correctly rounded.", "quantifier": "all sequences of calls, all pins, all powers, all converter values", "why_tests_cant": "The pins share registers bit by bit and two kinds of output (timer or level), so an error shows only for particular combinations of earlier calls on other pins; sequences are unbounded.", "anchors": ["chips/atmega/snek-328p.c:set_out", "chips/atmega/snek-328p.c:set_dir", "chips/atmega/snek-328p.c:snek_builtin_setpower", "chips/atmega/snek-328p.c:snek_builtin_talkto", "chips/atmega/snek-328p.c:snek_builtin_read", "chips/atmega/snek-328p.c:snek_builtin_stopall"]}
{"id": "C71", "title": "AVR boards print numbers to eight digits", "statement": "On an AVR board a number prints as a decimal that lies between the number's two neighbours, within 5.2 parts in 10^8 (7.2 for subnormal numbers from 714 * 2^-149 on); an integer below 10^8 prints as exactly its digits; zeros, infinities and NaN print as 0, inf and nan with their sign; no text has more than 14 characters.", "quantifier": "all 2^32 bit patterns", "why_tests_cant": "An exhaustive run on a board takes days, and the error bound, the carry into a new digit and the table of 32 factors each matter for a few numbers only.", "anchors": ["chips/avr/strfromg.c: strfromg", "chips/avr/ftoa_engine.c: __ftoa_engine", "chips/avr/snek-avr.h: strfromf", "chips/atmega/snek-atmega.h: strfromf"]}
{"id": "C72", "title": "Programs that do not end do what they say for ever", "statement": "A command that does not end (while True: ...) keeps the interpreter busy: it never stops by itself, fails or crashes; everything the program does up to any moment the interpreter has done at some moment, and the interpreter never does anything else. A command's run ends if and only if the program, read as its text says, does. When a program file gets to such a command, the commands before have taken effect and loading never returns.", "quantifier": "all commands, all function tables, all variables and worlds, all moments of the infinite run", "why_tests_cant": "No test can observe that a run never ends, nor all its moments.", "anchors": ["snek-exec.c: snek_exec", "snek-code.c", "snek-parse.c: snek_parse"]}
{"id": "C73", "title": "The interpreter only executes instructions of the program", "statement": "While a program runs, the interpreter never takes the operand of an instruction, or bytes outside the program's code, for an instruction: at every moment it is at the beginning of an instruction that the compiler emitted for the program, whose operands lie in the same code block; jumps lead to such instructions or leave the block, a function returns to the instruction after its call, and the only string constants it loads are the program's.", "quantifier": "all programs, all values of variables, all results of operations, all allocation failures, all moments of the run", "why_tests_cant": "A jump into the middle of an instruction shows only for particular lengths and contents of the code between the jump and its target; tests run a few programs.", "anchors": ["snek-code.c: snek_code_patch_forward", "snek-code.c: snek_op_operand_size", "snek-exec.c: snek_exec", "snek.h: snek_code_patch_branch"]}
{"id": "C74", "title": "Programs do not corrupt memory", "statement": "From power-on, whatever commands are run, whatever they fail on, whether or not there is memory and whatever devices deliver: no operation reads or writes memory outside of the strings, lists and tables it works on, and everything a program can reach - variables, arguments, elements of lists, intermediate results - is at every moment a number, a string or list that exists, a function, a builtin function, or None. A run leaves memory in order for the next command.", "quantifier": "all histories of commands, all programs, all allocation failures, all device inputs, all moments of the run", "why_tests_cant": "Corruption shows later and elsewhere; it takes one particular combination of operations, values and failures out of unboundedly many, and a test that does not crash does not show that nothing was overwritten.", "anchors": ["snek-exec.c: snek_exec", "snek-exec.c: snek_call", "snek-list.c", "snek-string.c", "snek-slice.c", "snek-frame.c", "snek.h: snek_poly_to_builtin", "snek-func.c"]}
{"id": "C75", "title": "A collection in the middle of an operation does not change its result", "statement": "Whenever memory is allocated while an operation on strings, lists or dictionaries is going on - building, concatenating, repeating, slicing, indexing, comparing, assigning, deleting - the collector may run, move every object and reuse what is not reachable. Values, variables and results are then the same as if nothing had ever moved, for any sequence of operations, and every access is to the object meant.", "quantifier": "all sequences of operations, all values, all collectors that preserve what is reachable and all moments at which they move things, all allocation failures", "why_tests_cant": "A pointer left unsaved for one statement goes wrong only if a collection happens in just that statement and moves or reuses just that object; tests rarely collect there.", "anchors": ["snek-list.c: snek_list_resize", "snek-list.c: snek_list_append", "snek-list.c: snek_list_plus", "snek-list.c: _snek_list_ref", "snek-list.c: snek_list_imm", "snek-string.c: snek_string_cat", "snek-exec.c: snek_stack_push", "snek-exec.c: snek_assign", "snek-memory.c: snek_alloc"]}
{"id": "C76", "title": "A command is translated exactly or refused, however it is nested", "statement": "The parser works with stacks of fixed size. For every program, either each command is translated to exactly the code of its statements - every branch, loop, call and assignment with the operands it was written with - or the parser stops with an out of memory message, and then the commands it had read before are the first commands of the program, translated exactly. No nesting of statements and expressions makes it confuse the parts of a statement or leave its arrays.", "quantifier": "all programs, of any length and nesting depth; all sizes of the parser's stacks", "why_tests_cant": "The depth at which a stack overflows depends on the combination of nested constructs; every combination has its own, and below it nothing is to be seen.", "anchors": ["snek-parse.c: _value_push", "snek-parse.c: _value_pop", "snek-parse.c: value_stack", "snek-parse.c: PARSE_STACK_SIZE", "snek-gram.ll", "chips/avr/snek-avr.h: VALUE_STACK_SIZE", "snek-code.c: snek_code_patch_branch"]}
{"id": "C77", "title": "Nothing of a command with an error in it is executed", "statement": "Whatever text is given to the parser - a program, a program with a mistake in it, or no program at all - it stops. As long as no value was lost from its value stack, what it has handed over for execution by then is the code of complete commands the text begins with, and nothing else: no part of a command with an error in it. It reports success exactly when the text is a program, a syntax error only where no command begins, and it never takes a value from the empty value stack.", "quantifier": "all texts (token sequences), correct or not; all sizes of the parser's stacks; every moment at which it can stop", "why_tests_cant": "There are unboundedly many wrong texts, an error can be at any place of any command, and a value taken from below the stack shows, if at all, as wrong code.", "anchors": ["snek-gram.ll", "snek-parse.c: snek_parse", "snek-parse.c: _value_pop", "snek-parse.c: lex", "snek-code.c: snek_code_finish"]}
{"id": "C78", "title": "math.fsum adds numbers as if without rounding", "statement": "math.fsum of a list or tuple of numbers is the exact sum of all of them, rounded once to the nearest number (ties to even), unless a sum overflows on the way; so it does not depend on their order. With at most 15000 numbers whose magnitudes add up to at most 2^126 nothing overflows. With an infinity or a NaN among them the result is not a finite number. Of a dictionary the keys are added.", "quantifier": "all lists of numbers: every length, order, sign and magnitude", "why_tests_cant": "A wrong last bit needs a particular pattern of exponents spread over several partial sums, and ties that are decided by a partial sum far below; the tests sum one list of equal numbers.", "anchors": ["snek-math.c: snek_builtin_math_fsum", "snek-math.c: getf", "snek-math.c: putf"]}
{"id": "C79", "title": "math.isclose compares within tolerances", "statement": "For finite numbers and tolerances math.isclose(a, b) is true exactly when the distance of a and b, rounded, is at most rel_tol (1e-6 if not given) times the larger of the magnitudes, rounded, or at most abs_tol (0 if not given). It does not depend on the order of a and b, also for infinities and NaNs; a finite number is close to itself; nothing is close to a NaN.", "quantifier": "all numbers, infinities and NaNs; all lists of named arguments", "why_tests_cant": "Symmetry and the exact boundary are claims about all pairs of numbers and tolerances.", "anchors": ["snek-math.c: snek_builtin_math_isclose"]}
{"id": "C80", "title": "The USB console of the SAMD21 boards loses nothing", "statement": "What a program on a SAMD21 board reads from the console is what the host sent, in order, nothing twice and nothing left out; what the host receives is what the program printed, each line end as carriage return and line feed, and a finished line arrives completely. Neither side waits for ever while the other has something for it. ^C from the host raises the abort flag, even if the program does not read.", "quantifier": "all sequences of packets from and to the host, runs of the interrupt handler and steps of the program; all sizes of the queue", "why_tests_cant": "The claim is about interleavings of three parties around two banks of buffers; the losses happen only in certain orders, for instance a packet that arrives between two statements of the handler.", "anchors": ["chips/samd21/ao-usb-samd21.c: ao_usb_fifo_check", "chips/samd21/ao-usb-samd21.c: samd21_usb_isr", "chips/samd21/ao-usb-samd21.c: ao_usb_putc", "chips/samd21/ao-usb-samd21.c: ao_usb_flush", "chips/samd21/ao-usb-samd21.c: ao_usb_getc", "chips/samd21/ao-snek.c: ao_usb_out_hook", "ao/ao.h: ao_fifo_insert"]}
{"id": "C81", "title": "Coloured lamps show the colours given to neopixel", "statement": "neopixel with a list of colours sends exactly these colours to the lamps, in order and in the lamps' own signal form, on one wire or on two, whatever was shown before, and touches no other memory; neopixel with one colour sets one lamp. Brightnesses from 0 to 1 are sent as the nearest of 256. Anything that is not a colour is an error, and nothing is sent.", "quantifier": "all lists of colours of all lengths, all values of their components, all earlier contents of memory", "why_tests_cant": "A wrong colour shows only on particular lamps and values, and what is read behind the buffer depends on the history of the memory; tests on the host do not contain this code at all.", "anchors": ["chips/samd21/snek-gpio.c: snek_builtin_neopixel", "chips/samd21/snek-gpio.c: set_neopixel", "chips/samd21/snek-gpio.c: snek_poly_to_inten", "chips/samd21/ao-neopixel.c: ao_snek_neopixel_write", "chips/samd21/ao-apa102.c: ao_snek_apa102_write"]}
{"id": "C82", "title": "Pins of the SAMD21 boards", "statement": "On the boards with a SAMD21 chip (Crickit, Feather, ItsyBitsy M0, Metro M0, Nano 33 IoT, Snekboard, Xiao, Circuit Playground), whatever state the chip was in before and after every sequence of calls of talkto, setpower, setleft, setright, on, off, pullnone, pullup, pulldown, read and stopall, every pin that was talked to and not read since gives exactly what the last calls for it asked for: nothing if off, else its power, as a part of 65535 for pins with a timer or the DAC and fully otherwise, counted from the top for pins connected the other way round. Calls for other pins do not change it. Of the two pins of a motor never are both given power. After stopall() all outputs give nothing. A pin that was never talked to drives nothing; read(p) makes p an input, pulled as the last call said, and returns 0 or 1, or the converter's value as a part of 4095, correctly rounded. setpower(v) is the nearest of the 65536 powers, 0 below 0 and full above 1, and is monotone. The tables of all boards give each pin a chip pin, timer channel and converter input that the chip has there, and no two pins the same.", "quantifier": "every board table with distinct pins, hence all eight boards; every state of the chip at start; every sequence of calls of any length with any pins and powers; every pin; every value of the converter", "why_tests_cant": "What a pin does depends on five registers, shared with neighbouring pins and timers, written by every earlier call; tests on a desk check a few pins one after the other on one board.", "anchors": ["chips/samd21/snek-gpio.c: set_out, set_in, set_dir, snek_builtin_talkto, snek_builtin_setpower, snek_builtin_on, snek_builtin_off, snek_builtin_read, snek_builtin_stopall, ao_snek_port_init", "chips/samd21/ao-snek.c: ao_snek_set_pwm, ao_snek_clr_pmux, ao_snek_set_dac, ao_snek_set_adc", "chips/samd21/ao-arch-funcs.h: ao_enable_output, ao_enable_input", "ports/*/ao-pins.h"]}
{"id": "C83", "title": "Pins of the other AVR boards", "statement": "On the Mega, the ItsyBitsy 32u4, the uduino and the Nano Every, after every sequence of calls of talkto, setpower, setleft, setright, on, off, pullnone, pullup, read and stopall, every pin that was talked to and never read drives exactly what the last calls for it asked for: 0 if off, else its power if the chip can dim the pin, else fully on; calls for other pins do not change it. A pin that was never talked to drives nothing. read(p) makes p an input with the pull-up as the last pullup or pullnone said (at the start: up for digital pins), and returns 0 or 1 of that very pin, or the converter's value for that very pin as a part of 1023, correctly rounded. setpower(v) is the nearest of the possible powers, 0 below 0 and full above 1. After reset() all pins are inputs and everything is as at the start.", "quantifier": "all four board tables; every sequence of calls of any length with any pins and powers; every pin; every state before reset; every value of the pins and the converter", "why_tests_cant": "What a pin does depends on shared registers written by every earlier call; tests on a desk check a few pins one after the other on one board.", "anchors": ["ports/mega/snek-mega.c: port_init, set_dir, set_out, snek_builtin_talkto, snek_builtin_setpower, snek_builtin_read, snek_builtin_stopall", "chips/avr/ao-snek-avr.c: port_init, set_dir, set_out, snek_builtin_read, snek_builtin_stopall, snek_builtin_reset", "ports/itsybitsy5v/ao-pins.h", "ports/uduino/ao-pins.h", "ports/nano-every/snek-nano-every.c: port_init, set_dir, set_out, tone_reset, snek_builtin_read, snek_builtin_stopall"]}
{"id": "C84", "title": "tone plays the frequency it is given", "statement": "tone(f) starts a wave of frequency f on the board's speaker pin, whatever was called before: on the boards with an ATmega328P a square wave, on the Nano Every a square wave, on the SAMD21 boards with a DAC a sine wave whose level is the power of the pin, without a jump when the frequency or the level changes. tone(0) ends it, and so do off of its pin and stopall; then the output is quiet. No frequency makes the code read outside its table or do something undefined. The other pins are not affected.", "quantifier": "all frequencies (finite numbers), all sequences of calls and timer interrupts, all levels, every later sample", "why_tests_cant": "The frequency is computed by single precision division and a choice of prescaler, so every frequency has its own rounding; and what sounds depends on registers that every other call may have changed.", "anchors": ["chips/atmega/snek-328p.c: snek_builtin_tone, snek_builtin_tonefor, tcc0_reset, snek_builtin_stopall", "ports/nano-every/snek-nano-every.c: snek_builtin_tone, tone_reset", "chips/samd21/ao-dac-samd21.c: SAMD21_TCC_ISR, ao_dac_set, ao_dac_set_hz", "chips/samd21/sine.h", "chips/samd21/snek-gpio.c: snek_builtin_tone, snek_builtin_tonefor"]}
{"id": "C85", "title": "Powers on boards without a mathematics library are close to the real power", "statement": "On the boards whose firmware brings its own powf (Duemilanove, Grove Beginner Kit, Nano Every, uduino, ItsyBitsy 5v), a ** b is the real number a to the power b but for a relative error of at most (25 + 36 |b| + 60 |b log a|) * 2^-24; with a natural exponent below 256 and a base of either sign, but for x roundings; exp and log, from which it is made, have errors of at most (13 + 45 |x|) * 2^-24 relative to the result, and (30 + 3 |log x|) * 2^-24. A power that is too large for a number is infinity and one that is no real number is a NaN; a power of zero is zero; no other power is.", "quantifier": "all finite bases and exponents", "why_tests_cant": "An error bound is about all 2^64 pairs of base and exponent; a test samples some. The errors of the series, of the squarings that follow it and of the Newton rounds add up differently for each argument.", "anchors": ["snek-pow.c: expf, logf, ipow, powf", "snek-exec.c: snek_binary", "chips/avr/snek-avr.defs", "ports/duemilanove/Makefile", "ports/grove/Makefile", "ports/nano-every/Makefile"]}
{"id": "C86", "title": "The USB console of the ATmega32U4 boards loses nothing", "statement": "On the boards with an ATmega32U4 (uduino, ItsyBitsy 5v), once the host has configured the device: the program reads the bytes the host has sent, in order, none lost, none twice, and is not left waiting while one is there; the host gets what the program has printed, in order, with each line end as carriage return and line feed, and after a line end or a flush everything is on its way and the last packet is a short one; printing waits only for the host, and goes on when the host takes a packet. A ^C interrupts the program when it arrives. All this no matter when packets come and go, also between the read and the write of a single assignment to a register.", "quantifier": "all sequences of packets, interrupts, calls and register accesses, all interleavings, all sizes of the queue", "why_tests_cant": "The host acts in the middle of any instruction sequence; a lost interrupt or flag shows only in one interleaving of many.", "anchors": ["chips/avr/ao-usb-avr.c: _ao_usb_fifo_check, _ao_usb_pollchar, ao_usb_getc, _ao_usb_in_wait, _ao_usb_in_send, ao_usb_flush, ao_usb_putc, ISR(USB_COM_vect)", "ao/ao.h: ao_fifo", "ao/ao-notask.c: ao_sleep", "ports/itsybitsy5v/ao-pins.h"]}
{"id": "C87", "title": "On the LEGO EV3, reading a port gives the value of the sensor attached to that port", "statement": "Whatever sensors have been attached and detached before and are during the call, and whichever system calls fail: if read(p) returns without an error, p is a port from 1 to 4 and the value is what the files of a sensor attached to port p showed during the call, read as the manual says (0 or 1, centimetres, a fraction, a colour, three components); a light_... call changes the mode of the light sensor at that port or of none; no call leaves a file open; a sensor that is attached is read.", "quantifier": "all histories of calls, all schedules of attaching, detaching, changing readings and failing system calls between any two system calls, all ports, all readings", "why_tests_cant": "Sensors move between ports while a table of the program remembers where they were; a test attaches a few sensors and does not detach one between two system calls of a reading.", "anchors": ["ports/ev3/sensors.c: get_sensor_port,get_sensor_kind,discover_sensor2,discover_sensor,discover_sensors2,discover_sensors,open_sensor,get_sensor,button,distance,light,light_read_intensity,light_read_color_name,light_read_rgb,light_set_mode,snek_ev3_sensors_read", "ports/ev3/utils.c: cutprefix,read_noeintr,sysfs_read,sysfs_read_int,sysfs_read_int_range,sysfs_write"]}
{"id": "C88", "title": "On the LEGO EV3, a motor command is carried out by the motor of the port last chosen", "statement": "Whatever motors have been attached and detached before and are during the call, and whichever system calls fail: a motor command that returns without an error has given exactly its orders, in order and in the units of the driver, to one motor, attached to the port named by the latest valid talkto; with an error at most a beginning of them; position() and read(letter) return what that motor showed during the call, in turns; before a port is chosen every command is an error; a speed is never ordered above the greatest speed of the motor; no call leaves a file open; every number fits its buffer.", "quantifier": "all histories of calls, all schedules of attaching, detaching and failing system calls between any two system calls, all ports, all float arguments", "why_tests_cant": "Motors move between ports while a table of the program remembers where they were; a test with one motor at port A cannot tell which motor obeys.", "anchors": ["ports/ev3/motors.c: get_selected_motor,discover_motor2,discover_motor,discover_motors2,discover_motors,open_motor,get_motor,motor_port,motor_read_ratio,snek_ev3_motors_read,snek_builtin_talkto,call_with_current_motor0,call_with_current_motor1,motor_setspeed,motor_setleft,motor_setright,motor_on,motor_off,motor_onfor,motor_setposition,motor_position,motor_coast,motor_brake,motor_hold,motor_ramp,motor_ramp_up,motor_ramp_down", "ports/ev3/utils.c: sysfs_write,sysfs_write_int,sysfs_read_int"]}
{"id": "C89", "title": "The network server of the LEGO EV3 carries every byte between its client and Snek once and in order", "statement": "Whatever clients connect, send, finish, break off or stop taking bytes, and whatever Snek writes, at any moment: what Snek is given to read falls into sessions, one at most for each client, each a beginning of what that client sent (all of it if the client finishes); what Snek writes during a session reaches that client, each output in its order, but for at most one byte when the session is cut off, and reaches nobody else; the server waits only when nothing can move, so everything arrives as long as both sides take bytes; Ctrl-C becomes one signal and is never held up; the server ends only when Snek has exited, after passing on its last output.", "quantifier": "all histories of connections, bytes, finished and broken connections, full buffers and exits, at every point between two system calls of the server", "why_tests_cant": "A test connects one client at a time; what is lost when a client breaks off, is replaced or is slow at the moment Snek exits depends on the point between poll and the next system call.", "anchors": ["ports/ev3/snekserver.c: main,validate,poll_noeintr,recv_noeintr"]}
{"id": "C90", "title": "On the LEGO EV3, eeprom.write() stores what is sent up to Ctrl-D and eeprom.show() prints what is stored", "statement": "For every text and whatever was stored before: after eeprom.write() the stored program is exactly the text sent before Ctrl-D, and what follows is read by Snek; a crash at any system call leaves the old program or a beginning of the new one; the end of the input ends the program too; eeprom.show() prints exactly what is stored, between Ctrl-B and Ctrl-C if asked; after eeprom.erase() nothing.", "quantifier": "all texts of all lengths, all previous contents, all numbers of completed system calls at a crash, all contents of memory", "why_tests_cant": "What is printed depends on the length of the program and on what is in memory beyond it; a test with a short program in fresh memory sees nothing.", "anchors": ["ports/ev3/snek-main.c: snek_builtin_eeprom_write,snek_builtin_eeprom_erase,snek_builtin_eeprom_show"]}
{"id": "C91", "title": "When memory runs out while a program is compiled, the error is reported and nothing of the unfinished command is executed", "statement": "For every program and whichever requests of the compiler for memory are refused: the parser stops; without a refusal it does what it does with unlimited memory; after a refusal it never reports success, and what is executed is the commands before the one that was being compiled, each of them complete, and nothing of that one: no statement of it, and no function is defined.", "quantifier": "all token sequences, all sequences of answers to requests for memory, all contents of unwritten memory, all sizes of the stacks", "why_tests_cant": "Which request is refused depends on what a program has stored; the flag is looked at only when the next token is read, so that what matters is which actions of the parser lie between any request and the next token.", "anchors": ["snek-code.c: compile_extend,snek_code_add_op,snek_code_finish,snek_code_patch_forward,snek_code_delete_prev", "snek-parse.c: token,parse", "snek-gram.ll: command", "snek-memory.c: snek_alloc", "snek-exec.c: snek_exec"]}
{"id": "C92", "title": "The editor of snekde keeps the program it was given, but for what the keys say, and undo takes it back", "statement": "For every text and every sequence of keys in a window of snekde: each key does what it says to the text, the cursor, the selection and the cut buffer, and to nothing else; indenting a line changes nothing but the spaces it begins with; the cursor and the selection always are places of the text; and undoing as often as there is something to undo brings back the text that was loaded.", "quantifier": "all texts, all places of cursor and selection, all cut buffers, all sequences of keys, all histories of what can be undone", "why_tests_cant": "Texts and key sequences are unbounded, and what undo does depends on everything that was done before, in both windows.", "anchors": ["snekde/snekde.py: EditWin,dispatch,point_to_cursor,cursor_to_point,insert,delete,push_undo,pop_undo,backspace,indent,auto_indent,set_text,run"]}
{"id": "C93", "title": "What snekde sends reaches a device without flow control, in order and without overrunning it", "statement": "For every text sent by snekde and every timing of both sides: the device reads the bytes in order, none twice and none that was not sent; no byte is dropped because the receive buffer of the device is full; and when nothing is left to do, the device has read everything.", "quantifier": "all texts, all divisions of them into writes, all interleavings of sender, line, receive interrupt and reader, waits that end by themselves included", "why_tests_cant": "The loss needs a particular interleaving of sixteen bytes, a question, a busy device and a wait; the schedules are unbounded.", "anchors": ["snekde/snekde.py: SnekDevice.writer,SnekDevice.writeb,SnekMonitor.sync,SnekMonitor.receive", "chips/atmega/snek-atmega-serial.c: ring_put,ring_get,RX_vect,snek_uart_getch", "snek-io.h: snek_raw_getc"]}
{"id": "C94", "title": "The program that snekde puts on a device is the one in the editor, and getting it shows it again", "statement": "For every text in the editor of snekde that the device has room for, whatever was stored before and however the transfer is divided: after Put the device holds exactly that text, and after Get the editor shows exactly the text that is stored, whatever else the device prints.", "quantifier": "all texts, all contents of the store, all divisions of the transfer, all output around it", "why_tests_cant": "The text passes an encoding, a framing with questions, a store with an end mark, a line discipline and a decoder; that they compose to the identity is a statement about all texts.", "anchors": ["snekde/snekde.py: snekde_put_text,snekde_get_text,SnekMonitor.receive,SnekMonitor.add_to,SnekDevice.reader,SnekDevice.writer", "chips/atmega/snek-atmega-eeprom.c: snek_builtin_eeprom_write,snek_builtin_eeprom_show", "chips/atmega/snek-atmega-serial.c: snek_uart_putch"]}
{"id": "C95", "title": "Registers on the I2C bus are read and written", "statement": "i2c.put(addr, reg, val) sets one register of the device at that address to the value and changes no other register of any device; i2c.get(addr, reg) gives the value of that register and changes none; accel() gives the three counts of the sensor divided by the count of one g, each correctly rounded.", "quantifier": "every set of devices on the bus, with any contents, any rule for the next register and any changes of other registers by themselves at any moment; every address, register and value", "why_tests_cant": "A test has one device on the bus and reads back what it wrote; it cannot have a sensor change between any two bytes, nor every device that could be disturbed.", "anchors": ["snek-i2c.c: snek_builtin_i2c_put, snek_builtin_i2c_get", "chips/atmega/snek-atmega-i2c.c: snek_i2c_start, snek_i2c_write, snek_i2c_read_nak, snek_i2c_stop, snek_i2c_put, snek_i2c_get", "snek-lis3dh.c: snek_builtin_accel"]}
{"id": "C96", "title": "The board describes itself over USB", "statement": "Whatever the host asks a SAMD21 board over the control endpoint, and however the packets, the interrupts and the interrupt handler interleave, each request gets the answer that it is to get: a descriptor (a configuration with all that belongs to it, the serial number as the 32 hexadecimal digits of the board's number), the status, or the line coding that was set last, as much as the host wants; no request hangs; the board has the address it was given.", "quantifier": "every table of descriptors, every board number, every sequence of requests of a host that keeps to the rules, every interleaving of host, hardware and interrupt handler", "why_tests_cant": "the order of packets and interrupts depends on the host and on timing; a host can ask for any length, and whether a stale packet or an early change of address hurts depends on the schedule", "anchors": ["chips/samd21/ao-usb-samd21.c: ao_usb_ep0_setup, ao_usb_ep0_handle, ao_usb_ep0_flush, ao_usb_ep0_fill, ao_usb_get_descriptor, ao_usb_serial_init, samd21_usb_isr", "ao/ao-product.c: ao_usb_descriptors"]}
{"id": "C97", "title": "The barometer gives the pressure", "statement": "baro() gives the pressure in Pa that the data sheet of the BMP280 assigns to the sensor's constants and readings, whatever those are, as long as the formula stays in 32 bits. Proved for constants P8 and P9 that are not negative; for the others the result is off by exactly 32768 or 65536 Pa.", "quantifier": "every set of the twelve constants, every pair of readings, every bus with the sensor and any other devices on it", "why_tests_cant": "each sensor has its own twelve constants, 24 bytes, and two readings of 20 bits; whether a conversion between signed and unsigned numbers hurts depends on their signs", "anchors": ["snek-bmp280.c: snek_builtin_baro, sample, get8"]}
{"id": "C98", "title": "The operators and builtin functions of a running program compute what the values say", "statement": "In a running program == != < > <= >= give what the order of the two values says (NaN is unequal to everything and unordered); is and is not tell whether two values are the same number, the same characters or the same object; in and not in tell membership and substrings; if, while, and, or and not test truth; - and ~ negate; [..] and (..) make a new list or tuple of the values in order; + - * // % ** & | ^ << >> on integers, + and += on lists, + on strings, repetition of strings, lists and tuples, slices, % formatting, l[k], l[k] = v, l[k] op= v and del l[k] act on exactly the operands given; an operator that makes an object fails for lack of memory only if the allocator refuses a request; print writes the texts of its arguments after what was printed before; str, len, chr, ord, abs and int give what they say; wrong numbers of arguments are errors; for visits elements, keys or characters. None of them prints or changes anything else.", "quantifier": "every pair of values that do not contain themselves, every memory, every configuration of the table of builtins, every answer of the allocator", "why_tests_cant": "The operators are reached through the opcode, the kinds of the operands and the state of memory; tests try some pairs, not every pair of nested values in every memory", "anchors": ["snek-exec.c: snek_binary, snek_exec, snek_assign, snek_call_builtin, snek_in_step", "snek-poly.c: snek_poly_cmp, snek_poly_true", "snek-list.c: snek_list_imm", "snek-builtin.c: snek_builtin_print, snek_builtin_len, snek_builtin_ord, snek_builtin_chr, snek_builtin_abs", "snek-input.c: snek_builtin_int"]}
{"id": "C99", "title": "At the prompt of the interpreter on a computer every character typed is read once, and the exit status tells what failed", "statement": "On a computer the interpreter reads exactly the characters of the lines typed, each line followed by one newline, in order, none twice and none lost; ^C while a program runs (or between two characters) gives the end of input until the interpreter starts over, and what was typed further is still read then. Before each line there is one prompt: + in the middle of a command, > otherwise. An error, a syntax error or lack of memory does not end a session: it ends where the input ends, with success except in the middle of a command. A file is run up to its first error. The exit status is 0 exactly if all that was run succeeded; a file that cannot be opened gives 1 and runs nothing; --version and --help run nothing. With -i the session after a file that ends with a newline starts with what is typed: nothing of the file is left over.", "quantifier": "every sequence of lines, every interleaving of reading, errors, interrupts and restarts, every combination of options and outcomes, every text of a file", "why_tests_cant": "An interrupt can arrive at any instruction; tests type a few lines without one", "anchors": ["ports/posix/snek-main.c: main, snek_getc, snek_getc_interactive, sigint", "snek-parse.c: snek_parse", "snek-lex.c: snek_lex, ungetbuf"]}
{"id": "C100", "title": "The UF2 file of a release puts exactly the firmware on the board", "statement": "The file made from a firmware image for a board with a UF2 boot loader consists of sectors that the boot loader takes for blocks of its family, numbered in order; a board that gets them in any order, each once or more often, holds the image from the chosen address on, zeros up to the end of its last page, and what it held before elsewhere. There is a file exactly if all addresses fit into 32 bits. Converting the file back gives the address and the image (in whole pages). The same for an image given as Intel HEX, with either kind of line end: every address holds the last byte given for it.", "quantifier": "every image, address, family, every order and repetition of the sectors, every previous contents of the board, every list of HEX records", "why_tests_cant": "Images differ in length and contents; the operating system writes the sectors in an order nobody controls", "anchors": ["chips/samd21/uf2conv.py: convert_to_uf2, convert_from_uf2, convert_from_hex_to_uf2, Block, is_uf2, is_hex, main"]}
{"id": "C101", "title": "math.factorial gives n!", "statement": "math.factorial(n) is n! exactly as long as single precision can hold it by repeated multiplication (up to 13), within a relative error of 2^-22 up to 34, and infinity from 35 on, where n! is beyond the largest number. It ends for every argument, including infinities and NaN. For numbers without a factorial (negative, not an integer) Python raises an error.", "quantifier": "Every number n, and every other argument", "why_tests_cant": "The argument is any of 2^32 patterns; the error of repeated rounding and the end of the loop must be bounded for each of them", "anchors": ["snek-math.c: factorialf, m1(math_factorial, factorialf)"]}
{"id": "C102", "title": "The serial line of the HiFive1 loses nothing and leaves nobody waiting", "statement": "What a program writes is sent in order, none lost or duplicated, never overrunning the device's queue, and all of it leaves on the line. What comes is read in order and never twice; if the sender obeys XON and XOFF with fewer than 32 bytes late, nothing is lost. When the program has read everything the sender is told to go on.", "quantifier": "Every sequence of received bytes, reads, writes, transmitter interrupts and bytes leaving on the line, every ring size and every size of the device's queue", "why_tests_cant": "The outcome depends on when interrupts come between the program's steps and on how many bytes were late", "anchors": ["ports/hifive1revb/snek-metal-uart.c: snek_uart_isr, snek_uart_getc, snek_uart_putc, _snek_uart_tx_start, _snek_uart_xon, _snek_uart_xoff, ring_get, ring_put"]}
{"id": "C103", "title": "The clock of the HiFive1", "statement": "The clock gives the milliseconds since the start; time.monotonic does not go backwards until the count wraps; time.sleep(s) ends when s seconds have passed, up to 2 ms, whenever it is called, unless it is interrupted.", "quantifier": "All cycle counts and frequencies, all durations, all uptimes", "why_tests_cant": "The error depends on how long the board has been running; tests run shortly after the start", "anchors": ["ports/hifive1revb/snek-metal-builtin.c: snek_millis, snek_builtin_time_sleep, snek_builtin_time_monotonic"]}
{"id": "C104", "title": "Pins of the HiFive1 follow the program", "statement": "A pin that was talked to and not read since is an output, high exactly if the last calls for it left it on with some power; calls for other pins do not change it. A pin that was never talked to, or was read since, is not driven. A number that is not a pin is refused and nothing changes.", "quantifier": "Every sequence of calls of talkto, setpower, on, off, setleft, setright, pullnone, pullup, pulldown, read and stopall with any arguments, every pin", "why_tests_cant": "The state of a pin depends on the whole history of calls, including those for other pins; tests see a few histories", "anchors": ["ports/hifive1revb/snek-metal-gpio.c: pin_map, set_dir, set_out, snek_poly_get_pin, snek_builtin_talkto, snek_builtin_setpower, snek_builtin_on, snek_builtin_off, snek_builtin_read, snek_builtin_stopall"]}
{"id": "C105", "title": "Pins of the narrow 1284 follow the program", "statement": "A pin that was talked to is an output, high exactly if the last calls for it left it on with some power (setleft and setright count for the second pin of a motor, stopall for all); calls for other pins do not change it. pullup and pullnone are for the pin they name. read makes the pin an input with or without pull-up as asked and takes its value from that pin.", "quantifier": "Every sequence of calls of talkto, setpower, on, off, setleft, setright, pullnone, pullup, read and stopall, every pin", "why_tests_cant": "The state of a pin depends on the whole history of calls, including those for other pins; that a shift works for low pins says nothing about high ones", "anchors": ["ports/narrow-1284/snek-narrow-1284.c: ddr_reg, pin_reg, port_reg, has_pwm, tcc_reg, set_dir, set_on, set_off, set_out, snek_builtin_talkto, snek_builtin_pullnone, snek_builtin_pullup, snek_builtin_read, snek_builtin_stopall"]}
