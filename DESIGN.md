# Design of the snek model and proofs

Subject: keith-packard/snek, sources in /repo (read as text, never built here).
Everything below lives in the Lake project /verif/lean (Lean 4.33.0, core library only).

## Layout

* `Verif/Model/*`  – the model of the C code, function by function, each definition citing the lines it models.
* `Verif/Spec/*`   – small specifications (what the English property says). They share data types with the model (values,
  syntax trees, tokens), not its functions, except that the evaluator of `Spec/Lang` takes the operations on values (`Prim`)
  and the variable operations (`Model/Frame`, specified by C23) as given.
* `Verif/Proofs/*` – helper lemmas.
* `Verif/Props/*`  – the property theorems (names `Cnn_...`), each with `example`s showing that its hypotheses are met
  by a concrete non-trivial case, and, where the code violates the property, a theorem `Cnn_violated_*` with a concrete witness.
  A theorem that proves less than the English property has the suffix `_partial`; the module says what is missing.
* `properties.jsonl` the properties; `MANIFEST.json` which theorem proves which; `AXIOMS.md` the axioms of every claimed theorem;
  `seeded/LOG.jsonl` the wrong programs the theorems were tried on.

## Trusted base

* Lean's kernel and the axioms `propext`, `Classical.choice`, `Quot.sound` (nothing else; `AXIOMS.md` lists them theorem by
  theorem). No `sorry`, no own axioms, no `native_decide`, no `bv_decide`. Concrete runs (examples and witnesses) are
  evaluated by the kernel (`decide +kernel`, `rfl`). Mathlib is used by C85 only: the real numbers, `Real.exp` and `Real.log`
  are its definitions.
* That the model says what the C says. Each definition cites its source lines; simplifications are in its comment and in
  the section "Not modelled".
* C integer types are modelled at their width where the width matters (16/32 bit offsets, 8 bit indent, int8 tags ...), and as
  `Nat`/`Int` where the code cannot reach the limit; the comment says which. Undefined behaviour is a separate outcome.
* IEEE 754 binary32 arithmetic of compiler, hardware or soft-float library: `Model/F32` is the standard's definition (round to
  nearest, ties to even) on bit patterns; C59 shows that it is.
* The C library: `strtof` (non-AVR builds) and libm are not modelled; `%.9g` is modelled as C11 with exact rounding (`Model/Libc`).
* `lola`, the parser generator (not in the repository): its parser is taken to be the LL(1) parser of snek-gram.ll that reads a
  token only when one is needed, and runs actions in the order of the productions.
* Devices: ATmega/AVR EEPROM (byte writes are atomic), SAMD21 flash (page buffer, `WP` clears bits only, `ER` erases a row, `PBC`),
  ATmega4809 flash (page buffer, `PAGEERASEWRITE` atomic per page), interrupts are atomic with respect to `cli`/`sei` sections.

## Plan per property

| id | property | what is modelled | how it is proved (status) |
|----|----------|------------------|------------------|
| C01 | Tagged values never confuse numbers with objects | poly encode/decode on 32-bit words (`Model/Poly`) | bit-vector lemmas, case analysis, no enumeration (proved) |
| C02 | Scalar comparison is a consistent total order | `snek_poly_cmp` on scalars, IEEE order on bit patterns (`Model/Cmp`) | order key into `Int`, lexicographic order on bytes (proved) |
| C03 | Lists and tuples compare lexicographically | `snek_list_cmp` on finite value trees; on memory objects in `Model/HeapCmp` | structural induction; false when the left list is a proper prefix: witness, and the theorem for all other pairs (partial) |
| C04 | Slices select exactly the Python slice positions | `snek_slice` arithmetic at C `int` width, slice step/test | equality with the Python index list for all inputs in range; false at reserved, fractional and overflowing bounds: witnesses (partial) |
| C05 | Indexing addresses exactly the elements that exist | `_snek_list_ref` (list branch), `snek_string_get` | case analysis over integers; false for fractional and non-number indices: witnesses (proved) |
| C06 | A dictionary is a finite map | dictionary branch of `_snek_list_ref`, `snek_list_imm`, membership | binary search invariant, refinement to a finite map over histories; false for tuple keys of which one is a prefix of the other: witness (partial) |
| C07 | Dictionaries are canonical | same | sortedness is unique (partial) |
| C08 | Deleting a dictionary key removes only that key | `snek_list_del` on dictionaries | same invariant (partial) |
| C09 | Augmented assignment to a dictionary entry changes that entry only | element branch of `snek_assign` | false for absent keys: witnesses; proved for present ones (partial) |
| C10 | List arithmetic and aliasing | list operations on memory objects (`Model/Store`) | refinement to sequences; aliasing by object identity (proved) |
| C11 | Tuples and strings are immutable | same | no operation changes a tuple or string object: invariant over histories (proved) |
| C12 | Mutable keys are refused | `snek_mutable` and the key check | structural induction (proved) |
| C13 | List storage is always large enough | `snek_list_alloc/resize/times`, string makers with offset width | invariant over histories; false beyond the offset range: witnesses (partial) |
| C14 | Garbage collection is invisible | `snek-memory.c`: chunk table, mark walk, compaction, move walk, multi-pass `snek_collect`, `snek_alloc` over a typed object store (`Model/Gc`, `HeapObj`, `GcMachine`) | depth-first search invariants, loop invariants; simulation of a machine without collector (proved) |
| C15 | A full collection reclaims all garbage | same | explicit formula for the new addresses (proved) |
| C16 | Allocation returns fresh storage | same, and `snek_alloc` on bytes | disjointness from the reachable objects (proved) |
| C17 | Out of memory is reported only when memory is really exhausted | same | exact characterisation of failure (proved) |
| C18 | Collection result does not depend on the chunk-table size | same | result independent of the table size (proved) |
| C19 | Collection preserves the relative order of object addresses | same | monotone relocation (proved) |
| C20 | An incremental collection only moves new objects | same | objects below the incremental start stay (proved) |
| C21 | Relocation lookup is exact | `find_chunk`, `add_chunk`, relocation lookup | binary search invariants (proved) |
| C22 | Names are interned one-to-one | `snek-name.c` | invariant over lookups (proved) |
| C23 | Variable scoping | `snek-frame.c` (`Model/Frame`) | refinement to local/global maps over histories; false when memory runs out: witness (partial) |
| C24 | del of a variable removes only that variable | `snek_variable_delete` on the bytes of the variables, related to the copies per variable of `Model/Frame` | false for later variables and inside functions: witnesses; proved for earlier and last (partial) |
| C25 | Call argument binding | `snek-func.c` | equality with a binding specification; false for missing required parameters after named ones: witnesses (partial) |
| C26 | Calls return to the caller | call/return of `snek_exec` (`Model/Vm`) | from compiler correctness (proved) |
| C27 | Expressions evaluate as written | code generator (`Model/Compile`, actions of snek-gram.ll) and virtual machine (`Model/Vm`) on bytes | compiler correctness by induction against the evaluator `Spec/Lang` (proved) |
| C28 | and/or short-circuit | same | same (proved) |
| C29 | Chained comparison | same | same, induction on the chain; false for chains through is/in and at the start of a default: witnesses (partial) |
| C30 | Control flow executes as written | same | same, statements (proved) |
| C31 | A function that falls off its end returns None | same | same; false for bodies that end in a conditional return: witness (partial) |
| C32 | for loops visit every element once, in order | `snek_range_start/step`, `snek_in_step` (`Model/Iter`, `Vm`) | induction on the element list; rounding lemmas for the range counter (proved) |
| C33 | Every scan over generated code sees true instruction boundaries | `snek_code_mark/move/line` scanners over bytes | boundary invariant by induction on code; false after dictionary displays: witnesses (partial) |
| C34 | Constants survive compilation | constants in code | round trip of operand bytes (proved) |
| C35 | Integer arithmetic is exact up to 24 bits | IEEE binary32 + - * / floor on bit patterns (`Model/F32`, `Number`) | exactness lemma for representable results; `%` false beyond 2^24 intermediate: witness (partial) |
| C36 | Bitwise operators act on the integer values | integer conversions and bit operators | bit lemmas; `~` false: witness (partial) |
| C37 | Operator precedence and associativity | LL(1) parser for the `expr` productions (`Model/Parse`) | parse exactly the grammar of `Spec/Syntax`, unique reading, print/parse round trip (proved) |
| C38 | Lexical analysis terminates on every input | `snek-lex.c` over an input stream with the unget buffer (`Model/Lex`) | termination measure; false for a comment at the end of file: witness (partial) |
| C39 | Keyword operators respect word boundaries | same | induction on words; false: witnesses for all such names (partial) |
| C40 | String literals denote their characters | same | round trip over all writable byte strings (proved) |
| C41 | Numbers in source mean what they say | same and `snek-atof.c` (`Model/Atof`) | digit loop invariant, rounding lemma (partial) |
| C42 | Block structure follows indentation | line starts of `snek-lex.c`, layout protocol with the parser (`Model/Layout`) | equality with the algorithm of the Python reference manual; false at 256 columns: witness (partial) |
| C43 | Line numbers in errors are right | line counter | invariant over lexer states; false after an escaped newline in a string: witness (partial) |
| C44 | The interactive line editor returns what was typed | `snek-io.c` (`Model/Io`) | refinement to an editor on key sequences and a terminal (partial) |
| C45 | Serial input is a FIFO under interrupts | AVR serial driver: interrupts and reader as indivisible steps (`Model/Uart`) | invariants over all schedules (proved) |
| C46 | Serial flow control alternates and prevents overrun | same | same; false while XON is owed: witness (partial) |
| C47 | Programs saved in EEPROM are read back unchanged | EEPROM store (`Model/Eeprom`) | induction on the text, every crash point (proved) |
| C48 | Programs saved in flash are read back unchanged | SAMD21 flash store and device (`Model/Flash`) | invariant of the page loop; overrun: witness (proved) |
| C49 | Random numbers: reproducible and in range | both random generators (`Model/Random`) | arithmetic, rounding, period by linear algebra over GF(2); range violations: witnesses (partial) |
| C50 | math.gcd returns the greatest common divisor | `gcdf` | characterisation; false for coprime pairs and zero: for all of them (partial) |
| C51 | String formatting consumes exactly its arguments | `snek_string_interpolate` (`Model/Format`) | equality with a specification of `%` (proved) |
| C52 | String operators | string functions | induction (proved) |
| C53 | in and not in are complementary | membership | case analysis; false for numbers: witness (proved) |
| C54 | Errors leave the interpreter usable | session loop: `snek_exec` entry/exit, `snek_error_name`, `snek_parse` (`Model/Session`) | invariants over histories, simulation of interrupted by uninterrupted runs; false when `_` cannot be stored: witness (proved) |
| C55 | Truth values | `snek_poly_true` | case analysis; functions count as false: witness (proved) |
| C56 | Power by repeated squaring | `snek-pow.c` `ipow` | induction on the exponent (proved) |
| C57 | Printing of nested containers | `snek_poly_format` (`Model/Format`) | equality with a printed-form specification, injectivity; quotes are not escaped: witness (proved) |
| C58 | Stack overflow is caught | value stack with its bounds | invariant over all code; read below the bottom: witness (partial) |
| C59 | Arithmetic is correctly rounded | `Model/F32` | rounded result is the nearest, ties to even (proved) |
| C60 | Every program is read as the statements it consists of, and nothing else is accepted | LL(1) parser for statements (`Model/ParseStmt`) | accepts exactly the grammar of `Spec/Program` (proved) |
| C61 | A source text is read as the program it spells | composition lexer, layout, parser | composition of C42 and C60 (partial) |
| C62 | Serial output is complete and in order under flow control | serial output path | queue invariant over schedules, progress; the probe ^T stalls: witness (partial) |
| C63 | A program saved in megaAVR flash is the program read at boot | megaAVR flash store and device (`Model/FlashAvr`) | invariant of the page loop, every crash point; two violations: witnesses (proved) |
| C64 | Numbers print so that they can be told apart and read back | exact `%.9g` (`Model/Libc`) and number printing | nine digits separate binary32 values: interval arithmetic on integers (proved) |
| C65 | draw.line draws straight lines and the display shows them | snek-ssd1315.c: frame buffer bits, blocks of display bytes, the line loop with 8-bit variables (`Model/Draw`) | loop invariant of the error term; refinement to a sheet of dots over all histories; false for long, almost level lines: witnesses (partial) |
| C66 | Decimal fractions and exponents mean what they say | `atoff` (`Model/Atof`) on IEEE arithmetic | invariant of the digit loop, accumulation of relative errors over the powers of ten (proved) |
| C67 | The clock does not jump and sleep does not end early | `snek_ticks` instruction by instruction with the counter and the interrupt logic of the AVR, `time.sleep`, `time.monotonic` (`Model/Time`) | invariant over all interleavings; signed comparison modulo 2^32; rounding errors and monotonicity of rounding; false on the 32u4 and the SAMD21 and for long sleeps: witnesses (partial) |
| C68 | The builtin functions compute what they are documented to | snek-builtin.c, `input` and `int` of snek-input.c (`Model/Builtin`), on the line editor of C44 | induction over the arguments; composition with C44; integers and rounding as in C35 (proved) |
| C69 | A program file does what its text says | lexer, parser, compiler and bytecode machine together (`Model/Load` on top of `Model/Layout`, `Compile`, `Vm`, `Session`) | composition of C61 with C27/C30 by induction over the commands (partial) |
| C70 | A pin does what the last commands for it said | pin functions of chips/atmega/snek-328p.c on the registers of the chip (`Model/Gpio`) | refinement to a table of pins by an invariant over all histories, with disjointness of the register bits; rounding errors and monotonicity of rounding; false after `read`, for pin 19 and for pull-ups of A1 to A5: witnesses (partial) |
| C71 | AVR boards print numbers to eight digits | chips/avr/strfromg.c and chips/avr/ftoa_engine.c (`Model/Strfromg`) | loop invariants of the digit loops, relative error of the table of factors (32 entries), error analysis in exact integers; text as in C64; false for numbers below 72 * 2^-149, and different numbers can print alike: witnesses (partial) |
| C72 | Programs that do not end do what they say for ever | bytecode machine and compiler (`Model/Vm`, `Model/Compile`) against the evaluator of `Spec/Lang`, whose fuel cut-off carries the globals and world reached | simulation for the cut-off points (C30 machinery) and, by induction on a number of machine steps, that with enough fuel the cut-off is later in the run than that number (`Proofs/Halt`) (proved) |
| C73 | The interpreter only executes instructions of the program | Model/Compile, Model/Bytecode, Model/Vm; sound code in Spec/Flow in terms of the bytes and `fetch` | jump targets of the emitted items are item boundaries by induction over expressions and statements, also after patching; then an invariant of the machine steps, for every operation parameter (partial) |
| C74 | Programs do not corrupt memory | the whole machine: bytecode loop, variables, containers, comparison, formatting and builtins on one memory (`Model/Machine`); devices and libm arbitrary; the model notes every operation and flags accesses outside of objects | an invariant of memory and values preserved by every operation (`Proofs/StoreSafe`, `Proofs/Machine`) and lifted through the bytecode loop for any such invariant (`Proofs/VmKeep`), using that only instructions of the program are executed (C73); induction over histories (partial) |
| C75 | A collection in the middle of an operation does not change its result | snek-list.c, snek-string.c and the container cases of snek-exec.c statement by statement with addresses, the value stack used to save pointers and an arbitrary moving collector (`Model/Ptr`), against the model without addresses (`Model/Store`, `Spec/NoGc`) | a representation relation (where each object and its storage is) kept by every function: pointers in local variables are only related as long as no allocation happens, saved ones are renamed with the roots; induction over the operations (partial) |
| C76 | A command is translated exactly or refused, however it is nested | the table-driven parser with its actions, the value stack, the symbol stack and the list of formals (`Model/Pda`), against the grammar (`Spec/Program`) and the code for a tree (`Model/Compile`) | what each nonterminal does to tokens, values and compile buffer, by induction over the recursive descent that C60 ties to the grammar; then from unlimited to limited stack: the same steps or out of memory (partial) |
| C77 | Nothing of a command with an error in it is executed | the table-driven parser on arbitrary tokens (`Model/Pda`), against the grammar (`Spec/Program`); `Spec/Room`: runs that lose no value | soundness: a run through a nonterminal is a reading of the recursive descent, by induction on its length, using determinism and C76; a run through a command is isolated from what is below on the stack, and only its last symbol hands something over; termination by (tokens left, weight of the stack up to the first symbol that needs a token); no underflow by typing the symbols with what they take from and leave on the value stack (proved) |
| C78 | math.fsum adds numbers as if without rounding | `math.fsum` with its list of partial sums on binary32 numbers (`Model/Fsum`, `Model/F32`); the sum in `Z` in units of 2^-149 and `Nearest` (`Spec/Number`) | the error of an addition is itself a number and is computed exactly (Dekker/Knuth two-sum, from the rounding specification); invariant: the partial sums do not overlap and their sum is exact; the last addition of partial sums rounds like the whole, the tie being corrected by the sign of the next one; for the bound, the magnitudes grow by at most 277 halves of a last place for each number (partial) |
| C79 | math.isclose compares within tolerances | `math.isclose` (`Model/Isclose`) on binary32 numbers (`Model/F32`), `fmaxf` as the C standard has it | cases on NaN, infinite, finite; distance and product by the rounding specification (`Spec/Number`) (proved) |
| C80 | The USB console of the SAMD21 boards loses nothing | the two data endpoints with their banks and flags, `ao_fifo`, the OUT and IN parts of the interrupt handler, `ao_usb_getc`, `ao_usb_putc`, `ao_usb_flush`, the ^C hook (`Model/UsbSamd`); the endpoint hardware after the data sheet; any list of events | invariants over runs: which bank is older, which flags exclude each other, and that delivered, queued and banked bytes together are those accepted (input) or printed (output); ring buffer by arithmetic modulo its size (partial) |
| C81 | Coloured lamps show the colours given to neopixel | `snek_builtin_neopixel` with its buffer (memory behind it included), the writers for WS2812 and APA102 lamps as sequences of pin changes and waits (`Model/Neopixel`); decoders after the data sheets (`Spec/Lamps`) | induction over bits and pixels: decoding the signal gives back the colours; brightness by the rounding specification (shared with C70) (partial) |
| C82 | Pins of the SAMD21 boards | Model/Pins: the eight board tables, the registers PORT DIR, OUT, PINCFG, PMUX (nibbles), the compare registers of the timers, the DAC, and the functions of snek-gpio.c and ao-snek.c on them; Spec/Pins: the data sheet (which pin is connected to which timer output and converter input; what a pin drives), and the manual (what has been asked of a pin) | a frame lemma per register write, an invariant over the calls that relates registers to what was asked for, with the pins of a motor as one group; the tables by computation; floats by the lemmas of C70 (partial) |
| C83 | Pins of the other AVR boards | Model/AvrPins: one model of the pin functions of three files, which differ in the tables and switches of `Board`; registers DDR, PORT, the compare and control registers of the timers with their bit operations, flags in bits or bytes; Spec/AvrPins: the boards' pin diagrams, the data sheets (timer outputs, converter inputs, pull-ups) and the manual | frame lemmas per register bit, an invariant over the calls for the pins that share nothing with others, the tables by computation; floats by C70 and C82 (partial) |
| C84 | tone plays the frequency it is given | Model/Tone: the timer registers of the ATmega328P and of the Nano Every on top of the pin models of C70 and C83, and the DAC's phase accumulator with its sine table and interrupt; Spec/Tone: what the data sheets say the timers do with those registers, when a period counts as one of frequency f, the shape of the wave | floats by the rounding lemmas of C70; the choice of prescaler by induction over the loop; an invariant over the calls for the bits of the timer; an invariant (phase below 2^24, step at most 2^24) over all samples and calls for the DAC (partial) |
| C85 | Powers on boards without a mathematics library are close to the real power | Model/Pow: frexpf, expf, logf and powf of snek-pow.c on bit patterns; Spec/Real: the real number a bit pattern stands for, on Mathlib's real numbers | each operation is its real counterpart but for |x|/2^24 + 2^-150 (from the exact rounding of C59); the series with its truncation (Real.exp_bound), squarings as relative errors, five Newton rounds as intervals for the error (d - 1 + exp (-d) is about d^2/2); the power by the derivative of exp. The partial part: beyond exp 60, zero and negative bases with other exponents the code is wrong (partial) |
| C86 | The USB console of the ATmega32U4 boards loses nothing | Model/UsbAvr: the two data endpoints as the data sheet describes them, and the driver cut into single register accesses (a read and a write for each &=), with interrupts, packets and calls as events | an invariant for each point of the code, by cases over the events; termination by a measure. Partial: ^C with a full queue (partial) |
| C87 | On the LEGO EV3, reading a port gives the value of the sensor attached to that port | Model/Ev3: the directories of the kernel, a schedule with one slot for each system call, in which anything can be attached, detached or changed and the call can fail, and the functions of sensors.c and utils.c over it | the tables of the program are true of the devices there have been, since a number is not used again; by induction over the history and the schedule. Partial: one unknown sensor hides the others (partial) |
| C88 | On the LEGO EV3, a motor command is carried out by the motor of the port last chosen | Model/Ev3Motors: the functions of motors.c over the directories, schedules and system calls of Model/Ev3 | the table of motors holds 0 or a motor that is or was at that port, by induction over the history and the schedule; every call then gives its orders to that motor. Partial: 0 is also the number of a motor (partial) |
| C89 | The network server of the LEGO EV3 carries every byte between its client and Snek once and in order | Model/Relay: one turn of the loop of snekserver.c as a function of what poll says, over a network of clients and a Snek process to which anything happens before and after poll | an invariant that splits all traffic into sessions, by cases over events and branches; progress by a measure of what is on its way. Partial: the last output of Snek can be lost, and a client can kill the server (partial) |
| C90 | On the LEGO EV3, eeprom.write() stores what is sent up to Ctrl-D and eeprom.show() prints what is stored | Model/Ev3Store: eeprom.write() system call by system call over the file and the input, eeprom.show() over the contents of memory | induction over the text. Partial: 0xff ends a program, the end of the input does not, and show relies on a NUL in memory (partial) |
| C91 | When memory runs out while a program is compiled, the error is reported and nothing of the unfinished command is executed | Model/Scarce: the parser and the actions of Model/Pda with the compile buffer as a block that has to be replaced by a longer one, snek_abort, and an arbitrary sequence of answers to requests for memory | simulation of Model/Pda until the first refusal; afterwards an invariant over stack and code (the code begins with a whole line instruction, or a further token is needed, which ends the run), by cases over the productions and actions. Partial: a function whose end is refused is defined all the same (partial) |
| C92 | The editor of snekde keeps the program it was given, but for what the keys say, and undo takes it back | Model/Snekde: EditWin of the development environment as functions on a window and the list of what can be undone, the two windows sharing that list | every key against a reference editor of a text before and a text behind the cursor (Spec/Snekde), by finding the line of every place; undo by an invariant over the list, and by induction over the keys. Partial: one window with which nothing else happens, and lines that are not indented too deep (partial) |
| C93 | What snekde sends reaches a device without flow control, in order and without overrunning it | Model/Link: the writer of snekde with its ENQ after 16 bytes, the line, the receive ring and the reader of the device as one state in which anything can happen next | an invariant over the bytes under way (the bytes since the last answer, at most one ENQ behind them), by induction over the events; the end by a measure. Partial: the ENQ is the 17th byte for a ring of 16, and waits end after a second (partial) |
| C94 | The program that snekde puts on a device is the one in the editor, and getting it shows it again | Model/PutGet: what snekde sends for Put and does with what it receives, byte by byte, with the store of Model/Eeprom and the serial output of the device | the ENQs are filtered out again (induction), the store by C47, the receiver by induction over the program. Partial: printable ASCII and newlines, that fit (partial) |
| C95 | Registers on the I2C bus are read and written | The bus with devices that have registers and change by themselves between any two operations (Model/I2c): START, bytes, STOP; put, get and accel on top | Each operation maps a function over the devices; what the composed function keeps and changes; the rounding of a division from C59 (partial) |
| C96 | The board describes itself over USB | `Model/UsbControl`: endpoint 0 of chips/samd21/ao-usb-samd21.c, its interrupt handler, the registers of the endpoint, and a host; `Spec/UsbControl`: what each request is to get | an invariant of all reachable states that ties the packet in the bank, the work left and the phase of the host to the answer; a measure that every step but the start of a request makes smaller; an invariant on addresses (partial) |
| C97 | The barometer gives the pressure | `Model/Baro`: snek-bmp280.c over the bus of `Model/I2c`, with wrapping arithmetic; `Spec/Baro`: the formula of the data sheet in integers | each conversion is the identity while the steps fit, except the two unsigned products, whose exact error is computed; induction over the registers read (partial) |
| C98 | The operators and builtin functions of a running program compute what the values say | `Machine.prim`: the operations the virtual machine calls (Model/Machine) with values read as trees (`Store.Unfolds`); Spec/Ops says what each should give. | Each operator is traced through the machine to the operation and its theorem (C03, C04, C05, C06, C08, C09, C10, C32, C35, C36, C51, C52, C53, C55, C56, C68); an operator that makes an object may fail only when the allocator refuses a request (`S.Short`); a value that unfolds to a tree is read as that tree within the depth bound (paths of distinct objects). (partial) |
| C99 | At the prompt of the interpreter on a computer every character typed is read once, and the exit status tells what failed | `Model/Posix`: the reader with its line, the prompts, the two flags and the place in `snek_getc` at which ^C arrives; the loop of `snek_parse` over outcomes; `main`. `Spec/Posix`: what should be read and which prompts seen. The lexer is that of `Model/Lex` | simulation of the reader by the list of characters still to come, over any history; induction over outcomes; the lexer by a relation that follows the last character taken. Partial: ^C while a character is read, and between the test and clearing the flag (partial) |
| C100 | The UF2 file of a release puts exactly the firmware on the board | `Model/Uf2`: uf2conv.py on lists of bytes; an exception is none. `Spec/Uf2`: the memory of a board, what its boot loader does with a sector (UF2 format), HEX files as lists of records and what they put where | fields of a packed block; sectors that agree on what they write can be burnt in any order (induction); the blocks made from HEX by an invariant over the bytes put. Partial: HEX files that come back to an earlier page (partial) |
| C101 | math.factorial gives n! | `Model/Math`: `factorialf` with its loop; multiplication and comparison are those of Fp32 | the loop looks at its bound only through comparisons with small integers, so any argument behaves as the integer below it; the 35 integers that matter by evaluation in the kernel; monotone growth of n! beyond. Partial: no error for numbers without a factorial (partial) |
| C102 | The serial line of the HiFive1 loses nothing and leaves nobody waiting | `Model/Metal`: the driver of the HiFive1 as indivisible steps over the shared variables and the device's queue (the rings are those of `Model/Uart`). `Spec/SerialFlow`: when a sender that obeys XON and XOFF may send | invariant: the transmitter's interrupt is enabled whenever something waits for it; a measure for progress; the lateness of the sender bounds the ring. Partial: XOFF from the other side is ignored, and a wakeup can be lost (partial) |
| C103 | The clock of the HiFive1 | `Model/MetalTime`: the count of milliseconds, the computed end of a sleep, the loop's condition, monotonic | three roundings (product, sum with 0.5, sum with the uptime) by relative errors; monotone rounding. Partial: uptimes up to 2^23 ms, because false later (partial) |
| C104 | Pins of the HiFive1 follow the program | `Model/MetalGpio`: the map of pins to lines, the static variables and the chip's registers as functions of the line. `Spec/MetalGpio`: what was asked last of each pin | invariant between the state and what was asked, by induction over the calls; two pins share a line only if they are twins. Partial: 18/20 and 19/21 under both names and setpower of something that is not a number, because false (partial) |
| C105 | Pins of the narrow 1284 follow the program | `Model/Narrow`: the registers and tables of the board, with `int` of 16 bits. `Spec/Narrow`: the place of each pin on the chip, its timer, and what was asked last | setting a bit changes one place (32 pins, 8 bits, by evaluation); invariant by induction over the calls and the loop of stopall. Partial: no power between none and full on pins that can be dimmed (false on four of them), pins read before, pull-ups of pins from 15 up and analog pins with pull-up, because false (partial) |

## How the parts fit together

Source text → (`Model/Lex`, `Model/Layout`: C38–C43) → tokens → (`Model/Parse`, `Model/ParseStmt`: C37, C60, C61) → syntax trees
→ (`Model/Compile`: C27–C34) → bytes → (`Model/Vm`: C26–C32, C58) → operations on values (`Prim`). The operations are a parameter of
machine and evaluator: arbitrary functions with arbitrary effects, so a theorem about programs holds whatever they do. What they do is
modelled separately: numbers (`Number`, `F32`: C35, C36, C56, C59), comparison (`Cmp`, `HeapCmp`: C02, C03), containers in memory
(`Store`, `Dict`, `Slice`: C04–C13, C52, C53), printing (`Format`, `Libc`: C51, C57, C64). `Store` has memory objects by identity and an
allocator that answers as it likes; that the real allocator and collector look like that to code that keeps its values in roots is C14
(`Gc`, `GcMachine`). A session at the prompt is `Model/Session` (C54).

`Model/Machine` puts the parts together: it gives the machine the operations of `Store`, `Cmp`, `Format` and `Builtin` on one memory (the
C library, libm and device builtins stay parameters). As a check of the model - not of the theorems - lexer, parser, compiler and this
machine were run on the project's own test programs (/repo/test/pass-*.py, fail-*.py): all pass or fail as they should, except for those
that need libm, `random` or `%f`/`%e`.

## Modelled and not modelled, file by file

| file | modelled | not modelled |
|------|----------|--------------|
| snek-poly.c, snek.h | tags, conversions, `snek_poly_cmp`, `_true`, `_len` | `snek_poly_print` (a call of `snek_poly_format`) |
| snek-list.c | all operations | cyclic lists (the recursion of compare and print does not end on them) |
| snek-string.c | make, get, cat, times, slice, interpolate | growth of the conversion buffer (`snek_buf_realloc`): memory for it is available |
| snek-memory.c | all of the collector and `snek_alloc` | debug output, `type_name` |
| snek-name.c, snek-frame.c, snek-func.c | all | |
| snek-code.c | emission, patching, scanners, line lookup | `snek_code_dump*` |
| snek-exec.c | all instructions, value stack, operators, assignment, loops, calls | |
| snek-gram.ll, snek-parse.c | all productions and actions, the parser's stacks (`Model/Pda`), session loop; refused memory while compiling (`Model/Scarce`) | |
| snek-lex.c | all | |
| snek-atof.c, snek-pow.c, snek-random.c, snek-random-small.c, snek-io.c, snek-io.h, snek-print.c | all | |
| chips/avr/strfromg.c, chips/avr/ftoa_engine.c | all | the assembler `__ftoa_engine` of avr-libc, which the boards link instead of ftoa_engine.c |
| snek-error.c | when a message is printed | texts of messages |
| snek-math.c | see `Model/Math` | functions that only call libm |
| chips/atmega/snek-atmega-time.c; the clock part of chips/avr/ao-snek-avr.c | all (with the counter and the interrupts) | the set-up of the timer |
| snek-builtin.c, snek-input.c | all but the part named at the right (`Model/Builtin`) | `math.sqrt`, `sys.stdout.flush`, `float` and `int` of a string (`strtof`) |
| snek-ssd1315.c | see `Model/Draw` | the transfers to the display |
| chips/atmega/snek-atmega-serial.c, snek-atmega-eeprom.c, snek-atmega-flash.c, chips/avr/snek-avr-eeprom.c, chips/samd21/ao-flash-samd21.c, snek-eeprom.c | all | clock and port set-up |
| snek-i2c.c, chips/atmega/snek-atmega-i2c.c, `accel` of snek-lis3dh.c | all (`Model/I2c`) | `snek_i2c_read_ack`, speed and pull-ups |
| snek-bmp280.c | all that is compiled (`Model/Baro`) | the branches that the preprocessor leaves out |
| chips/atmega/snek-328p.c, chips/atmega/snek-atmega.h, ports/{duemilanove,mega,nano-every,itsybitsy5v,…} and the pins of chips/avr/ao-snek-avr.c | pins: `Model/Gpio`, `Model/AvrPins`; tone: `Model/Tone` | clock set-up; the analog converter itself |
| chips/samd21/snek-gpio.c, ao-snek.c, ao-dac-samd21.c, ao-tc-samd21.c, ao-tcc-samd21.c, ports/*/ao-pins.h, ao-apa102.c, ao-neopixel.c | pins: `Model/Pins`; lamps: `Model/Neopixel`; tone: `Model/Tone` | clock set-up, ao-adc-samd21.c, ao-dma-samd21.c, drive strength |
| chips/avr/ao-usb-avr.c, chips/samd21/ao-usb-samd21.c | the data endpoints (`Model/UsbAvr`, `Model/UsbSamd`); endpoint 0 of the SAMD21 (`Model/UsbControl`) | endpoint 0 of the AVR, reset |
| ports/ev3/*.c | sensors, motors, server, store and main program (`Model/Ev3`, `Ev3Motors`, `Relay`, `Ev3Store`) | |
| snekde/snekde.py | editing (`Model/Snekde`), transfer (`Model/Link`), Put and Get (`Model/PutGet`) | drawing, dialogs, files, finding the device, the console window |
| ports/posix/snek-main.c | `snek_getc`, `snek_getc_interactive`, `sigint`, `main` (C99) | readline, getopt_long, messages; snek-posix.c, snek-curses |
| chips/samd21/uf2conv.py | conversions from images and HEX, and back (C100) | drives, messages, command line |
| snek-temperature.c, ports/{esp32,qemu-*}, ports/narrow-1284 except its pins (C105), ports/hifive1revb except its serial driver (C102), clock (C103) and pins (C104), chips/qemu, chips/samd21/ao-serial-samd21.c, ao/ao-led.c, ao/ao-panic.c, ao/ao-product.c, hosts/*, the libm copies in chips/atmega other than those of C85 | | not modelled |

## Simplifications that matter

* The collector's theorems (C14) are about code that keeps every value it needs in a root across an allocation. The code does not
  everywhere: findings 3, 4, 14, 37 and 59 below are places where a raw pointer survives an allocation. `Model/Store` behaves at these
  places as if no collection moved the object; `Model/Ptr` has the addresses, and C75 shows where that makes no difference.
* `Model/Lex` works on a whole text; the interactive prompt's second line buffer is in `Model/Io`.
* Evaluation of programs is for values of `Prim`; heap exhaustion is an outcome of its operations.

## Findings

Places where the code does not do what its documentation or the property says, found while modelling. Those with a name in brackets
are theorems.

1. `snek_op_operand_size` lacks `snek_op_dict`: scans over code lose the instruction boundary after a dictionary display [C33_violated_mark, _move].
2. `snek_list_cmp` says that a proper prefix is greater [C03_violated_prefix]; dictionaries with such tuple keys lose entries [C06_violated_tuple_prefix].
3. `snek_list_del` uses the lookup that adds: `del d[missing]` succeeds silently; it keeps a raw pointer across that allocation.
4. `d[missing] op= v` reports an error, but inserts the key with a stale value [C09_violated_absent, _neighbour]; the error is a type error, as inserting pushed the key on the value stack over the saved dictionary.
5. `size * count` and `alloc * 4` wrap in 16 bits [C13_violated_times, _string].
6. Overflow of the value stack by a push is noticed only after the next instruction [C58_violated].
7. `snek_code_line` does not mask the push flag [C33_violated_line].
8. A comment at the end of the file loops forever [C38_violated_comment].
9. `snek_variable_delete` copies too few bytes; it only looks at globals [C24_violated*].
10. Missing required parameters are detected by slot position only [C25_violated_*].
11. `snek_parse_formals` overflows at the 11th formal; duplicate formals are not detected.
12. `gcdf` is wrong for coprime arguments and zero [C50_violated_*].
13. `math.fsum` of a dictionary sums keys and values.
14. `snek_string_times` keeps its operand out of the roots.
15. `"" % ()` is None [C51_violated_empty].
16. `"\x80"` … `"\xff"` are rejected, `"\x00"` truncates [C40_violated_hex].
17. `.` is read as 0; `.5.5`, `1e`, `1e+` are accepted.
18. Assigning to the variable of a range loop changes the iteration [C32_violated_assigned].
19. A for loop over a container stops at an element None [C32_violated_none].
20. Functions are false [C55_violated_functions].
21. `None()`: `snek_poly_to_builtin` looks its entry up in the table of builtins without a check (snek.h:965-969, snek-exec.c:899-904), so the machine reads and jumps through memory far outside of the table [C74_violated_none].
22. Conversion of large numbers to int, and some shifts, are undefined behaviour; `~x` is not `-x-1` [C36_violated_lnot].
23. `math.nan` equals every number [C02_violated_math_nan].
24. Chained comparisons through `is`/`in` are wrong [C29_violated_is, _default].
25. A function that ends in a conditional return returns the condition [C31_violated].
26. `not index`, `is nothing` are mis-lexed [C39_violated].
27. Over-long names are truncated and lose a character.
28. ^C keeps what was typed before it for the next line [C44_violated_interrupt].
29. `random.random()` can be 1.0, `randrange` can return its limit [C49_violated_*].
30. The indentation wraps at 256 [C42_violated_wrap]; 256 positional actuals are encoded as one named.
31. SAMD21 `eeprom.write` does not check the capacity [C48_violated_overrun].
32. Comparing or printing a list that contains itself does not end.
33. Slices with reserved, fractional or overflowing bounds [C04_violated_*]; slicing a dictionary uses raw positions.
34. `[1] * -1` is None [C10_violated_negative].
35. `1 in 2` returns the left operand [C53_violated_numbers].
36. The mark size of list storage is not rounded.
37. A collection during the second `compile_extend` of a string constant.
38. Out of memory while creating a local assigns the global [C23_violated_oom].
39. `%` is inexact when `(x // y) * y` exceeds 2^24 [C35_violated_mod].
40. `snek_line` is not restored after a call returns.
41. The line mark of `elif` runs only at the end of the previous branch.
42. A list display of 257 elements overflows the value stack [C58_violated].
43. `del` of an undefined name does nothing, silently.
44. A failing augmented assignment stores None.
45. `l["a"] = v` reports an error and overwrites `l[0]` [C05_violated_store, _del, _fraction].
46. `2 ** -1` is a syntax error [C37_violated_pow].
47. An escaped newline in a string is not counted [C43_violated_string].
48. The parser ignores that its value stack is full.
49. An unterminated string at the end of the file adds NULs until the buffer is full.
50. A name that ends exactly at the end of the file loses its last character.
51. AVR `atoff` is not correctly rounded from 4294967280 on [C41_violated_rounding].
52. Any assignment operator is accepted for named actuals and defaults; `(x) = 3` and `from x import /` are accepted.
53. The bracket depth wraps at 256.
54. Serial: XON is sent with a full buffer when it was owed [C46_violated_stop].
55. Serial: the echo of ^T does not enable the transmitter: output stalls [C62_violated_probe].
56. `snek_io_backspace` echoes in raw mode; byte 0xff equals EOF where char is signed.
57. chips/atmega/snek-atmega-flash.c: erase looks at address 0 [C63_violated_erase]; with FUSE_APPEND = 0 it writes I/O registers [C63_violated_nofuse].
58. EEPROM: a text that is too long leaves its rest in the input.
59. `snek_poly_format` reads the string after `put_c`, which may collect.
60. `strfromf` of the ESP32 port is `sprintf` into 32 bytes: `"%f" % 1e38` overflows; AVR prints eight digits.
61. Quotes in strings are not escaped when a container is printed [C57_violated_quotes].
62. If there is no memory for `_` or a function name, `snek_abort` stays set: the next command is lost without a message [C54_violated_lingering].
63. chips/samd21/ao-timer.c `ao_time_ns` adds the SysTick count, which counts down: `time.monotonic` goes backwards within a tick [C67_violated_samd].
64. chips/avr/ao-snek-avr.c `snek_ticks` on the ATmega32u4: with a USB interrupt pending the timer overflow may not be served between the reading of TCNT0 and `cli`; the time is then 256 ticks too small [C67_violated_usb].
65. `time.sleep` of more than 2^31 ticks returns at once [C67_violated_long]; negative times convert out of range.
66. snek-ssd1315.c `draw.line`: the 8-bit error term overflows for long, almost level lines [C65_violated_astray, C65_violated_outside].
67. `ord` of a character above 127 is negative where `char` is signed.
68. The AVR conversion of literals is not correctly rounded even for short ones: `0.9`, `0.05`, `0.0005` [C66_violated_nearest].
69. snek-input.c `snek_builtin_input` does not check the result of `snek_alloc(1)`: with no memory left `snek_string_cat` takes the length of a null string.
70. snek-builtin.c `snek_builtin_chr` takes the low byte of its argument: `chr(256)` is the empty string, `chr(300)` is `,`; where `char` is signed `ord(chr(n))` is n - 256 from 128 on [C68_violated_ord].
71. chips/atmega/snek-328p.c `setpower` has a debugging `printf("%p\\n", &p)` left in: every call prints an address [C70_violated_output]; `setpower` of NaN is an undefined conversion [C70_violated_nan].
72. snek-328p.c `has_pwm` masks the pin with 15, so pin 19 (A5) counts as a PWM pin: `on()` on it writes through a pointer read past the end of a table [C70_violated_pin19].
73. snek-328p.c `pullup` and `pullnone` shift a 16-bit `int`: nothing happens for A2 to A5, and A1 changes all of them [C70_violated_pull].
74. snek-328p.c `talkto` makes a pin an output without setting it: one that was read before is driven high (its pull-up) though it is off [C70_violated_after_read], and after `read` of an output `on()` has no effect [C70_violated_stays_input].
75. snek-328p.c `stopall` tests `SNEK_builtin_tone` where the macro is `SNEK_BUILTIN_tone`: the tone generator is not reset.
76. On AVR boards `strfromf` ignores its format (snek-avr.h:74): `'%f' % 1` is "1", `%e` and `%E` print like `%g`.
77. On AVR boards eight digits are printed, not the nine of snek-print.c:111: 1000.00006 and 1000.00012 both print as 1000.0001 and read back as the same number (`C71_violated_distinct`).
78. ftoa_engine.c divides by zero for numbers below 72 * 2^-149 (`C71_violated_tiny`): `decimal` reaches 0 before a digit is found. Up to 713 * 2^-149 the eighth digit is rounded up whatever follows.
79. In a loop (or `if`), the statement on source line 61 after a dictionary display of 23 entries is miscompiled: the scanner reads the line number as an unresolved `break`, overwrites the next opcode, and the machine executes operand bytes [C73_violated_dict].
80. `snek_stack_push` pushes nothing when the value stack is full (16 entries on the ATmega328P, 32 on other AVRs, 256 elsewhere), but the matching `snek_stack_pop_list` or `_string` pops all the same. `[1, 2, ..., 14, [1] + [2]]` on an ATmega328P: `snek_list_plus` takes a number for the address of its operand, reads and copies from there, and the stack pointer is off [C75_violated_full].
81. `d[k] += v` for a missing key reads the new entry's value before it is written: a word beyond the old size, which collections do not update. If it was a list or string that has since been moved or collected, the operation works on whatever is there now.
82. `del d[k]` for a missing key that makes the dictionary grow uses the list header's old address [C75_violated_del]; `"ab" * 2` reads the operand at its old address after allocating the result [C75_violated_repeat] (findings 3 and 14 seen with addresses).
83. The parser's value stack has room for 127 values, on AVR boards for 16. `_value_push` drops a value when it is full and no action looks at its result, while the pops go on: an `if` with 8 `elif`s on an AVR board (6 in a function, with comparisons and blocks), with 63 on the others, is mistranslated without a message, and the parser reads and writes `value_stack[-1]` [C76_violated_elif, C76_violated_elif_127, C76_violated_function]. The index stays negative for the following commands of the same text.
84. When memory runs out while a command is compiled, `compile_extend` (snek-code.c:100-190) returns without the bytes and its callers go on: `snek_code_add_op_code` and the operand writers then work on the last byte there is, or just outside of the buffer, `snek_code_add_string` copies its operand behind it, and `def` without room for the code leaves its identifier on the value stack. The exception is looked at only when the next token is read. What follows from it is C91.
85. `math.fsum` (snek-math.c:73-158): a sum whose result is a number can be a NaN because a partial sum overflows [C78_violated_overflow: 3e38 + 3e38 - 3e38]. `o++` for dictionaries has no effect (the loop starts with `o = 0`): the keys are added, not the values [C78_dict]. It does not look at the type of its argument (snek-math.c:76; `snek_ref` accepts any value but null): `math.fsum(1.5)` or `math.fsum('a')` reads memory at an offset made of the bits of the argument as a list, also outside of the pool (not modelled).
86. `math.isclose(inf, inf)` is False, as inf - inf is a NaN (Python: True) [C79_violated_inf].
87. SAMD21 USB console (chips/samd21/ao-usb-samd21.c:532-592): the interrupt handler moves one packet for each interrupt, and `ao_usb_getc` looks at the banks only after it has taken a byte. With an empty packet in front, the next packet stays in its bank until another one arrives [C80_violated_stall].
88. SAMD21 USB console: ^C is looked for only in the packet at the front. It is missed in the second of two packets served by one interrupt [C80_violated_second], and when the queue and one bank are full because the program does not read (321 bytes typed ahead): from then on no ^C can stop the program [C80_violated_full]. The hook reads the bank after it has been given back to the hardware; a packet that arrives in between hides a ^C, the program then reads it as input [C80_violated_late].
89. SAMD21 USB console: what is printed before the host has sent its first packet is thrown away [C80_violated_quiet].
90. `ao_snek_apa102_write` (chips/samd21/ao-apa102.c:58-63) does not advance `pixels`: all lamps get the colour of the first [C81_violated_two].
91. `neopixel` with one colour (chips/samd21/snek-gpio.c:731-760) allocates and sets one pixel and sends three, the length of the colour: two lamps get colours from whatever is behind the buffer, possibly behind the pool [C81_violated_single]. An error in such a colour is reported, but the lamps are set [C81_violated_error]. The signal is made by toggling the pin: if the pin is high (`on()`), it is inverted [C81_violated_high].
92. On the Crickit, pins 14 and 15 (CAP3, CAP4) are both PA06 (`ports/crickit/ao-pins.h`): the table has the wrong pin for 15. `talkto(15)` turns off pin 14 (C82_violated_same_pin).
93. On the Crickit, pins 22 and 23 are given channels 3 and 2 of timer TCC1, which has only two channels; the outputs at these pins follow channels 1 and 0, those of pins 20 and 21. Partial power on 22 or 23 does nothing, and they follow 20 and 21 (C82_violated_no_channel).
94. On the Crickit, `talkto` of a motor that is turning left drives both of its pins high between `ao_enable_output` and `set_out`, which brakes it for a moment (C82_violated_motor_talkto).
95. On SAMD21 boards `on()` and `setpower()` before any `talkto()` act on pin 0, which is not an output: full power does nothing, partial power is driven by the timer. The same after `read` of the current pin (C82_violated_pin0, C82_violated_after_read).
96. The manual says that the digital pins of ItsyBitsy M0 and Metro M0 are pulled up by default; the code pulls no pin (C82_read with no pull call).
97. `setpower("x")` is an error, but the power of the current pin has been set to 0 then: `snek_poly_get_float` returns 0 and the function goes on (not modelled: C82 has the calls with valid arguments).
98. When an analog pin is read, `ao_enable_input` clears the multiplexer bit PMUXEN that `ao_snek_set_adc` has just set, so the converter reads a pin whose analog function is not selected (C82_read shows the bit clear; what the chip then measures is not modelled).
99. ATmega32U4 boards: `COM4D1` of pin 6 is a bit of `TCCR4C` but is written to `TCCR4A`; with a power between 0 and 1 the pin is not driven by its timer (C83_violated_pin6).
100. Nano Every: `stopall` calls `tone_reset`, which clears pin 5's on flag and its timer bit before the loop that would clear its output bit: pin 5, once fully on, is high after `stopall()` (C83_violated_stopall).
101. Nano Every: a pull-up is switched by `PINnCTRL`, not by the output register as on older chips: `pullup` and the default pull-up never do anything (C83_violated_pullup).
102. Mega: `read(A8)` to `read(A15)` set the low bits of `ADMUX` to 8 to 15 without `MUX5`: those select differential inputs of other pins (C83_violated_a8).
103. µduino: the table has 20 pins, `NUM_PIN` is 23: pins 20 to 22 are accepted and all are port B bit 0 (C83_violated_uduino). ItsyBitsy: MISO, MOSI and SCK get no pull-up at the start (C83_violated_spi).
104. ATmega32U4 boards: `reset()` restores only variables of the objects named `snek*`; those of `ao-snek-avr.o` (which pins are on, pulled up, current) survive, so that a pin is still on after `reset()` (C83_violated_reset).
105. `stopall` (and ^C) on the ATmega328P boards: the reset of the timer is inside `#ifdef SNEK_builtin_tone`, a macro that is never defined, so the tone goes on; `off` does not end it either (C84_violated_off).
106. On those boards a power other than 0 and 1 for pin 5 is a compare value beyond what the timer counts to in a tone, so that there is none (C84_violated_power); `tone` takes the timer from pin 6 and any power of pin 6 changes the frequency (C84_violated_pin6).
107. `tonefor` calls `on` and never `off`: when the tone is over the pin is driven high (C84_violated_tonefor), and on the Nano Every, with the speaker's pin current and at full power, `on` takes the pin from the timer, so that there is no tone at all (C84_violated_on).
108. Nano Every: the tone sets the period of the timer of pins 9 and 10, whose power changes with it (C84_violated_pin9).
109. SAMD21: above the sample rate (24000 Hz) the code takes off one turn where several are needed, and reads outside the sine table (C84_violated_range); above half of it, it plays another frequency.
110. SAMD21: when a tone is over the DAC keeps the last sample, up to half the level at 6000 Hz, even if the pin is turned off in the meantime (C84_violated_rest).
111. All boards: a negative frequency (or NaN, or a tiny one) is converted to an unsigned integer, which is undefined in C (C84_violated_negative). On the ATmega328P a frequency above 8 MHz gives a compare value of 255, so 31250 Hz (C84_violated_high).
112. `expf` (snek-pow.c:47-50) gives up at 64, though e to the 88 is a number: powers above 6.2 * 10^27 with an exponent that is not a natural number below 256 are infinity, and those below 1.6 * 10^-28 zero (C85_violated_large).
113. `logf` of 0 or of a negative number is some number (five rounds of Newton's method go nowhere): 0 ** 0.5 is 0.058 and 0 ** -1 is 296.8 (C85_violated_zero); (-2) ** -1 is infinity (C85_violated_negative), (-1) ** 257 is 0 (C85_violated_odd), (-8) ** 0.5 is 0 and not a NaN (C85_violated_root).
114. With exponents that are not natural numbers below 256 exact powers are missed: 2 ** -1 is 0.50000006 and 4 ** 0.5 is 1.9999999 (C85_violated_exact). `uint8_t u = b` is undefined for exponents outside of -1 to 256.
115. ATmega32U4 boards: ^C is seen only when its byte is moved to the input queue; with 64 bytes in the queue that the program does not read it is not seen (C86_violated_full). What is printed before the host has configured the device is thrown away (ao-usb-avr.c:303-304, not in the model).
116. ATmega32U4 boards: `_ao_usb_in_wait` acknowledges `TXINI` by reading and writing `UEINTX`; if the host takes a packet in between, the write also clears `FIFOCON` and sends an empty packet. The text is not affected (an example beside C86_progress).
117. ATmega32U4 boards, endpoint 0 (not modelled): GET_STATUS, GET_CONFIGURATION and GET_INTERFACE are answered with the bytes at address 0 of the flash memory, as `ao_usb_ep0_in_data` is 0 (ao-usb-avr.c:201-221).
118. LEGO EV3: a sensor the port does not know, or one with an address of another form (a multiplexer), makes the search for sensors fail as a whole, so a known sensor at another port cannot be read either (sensors.c:112-144, 165-190; `C87_violated_foreign`).
119. LEGO EV3: a sensor detached in the search after its directory was opened makes the search fail, though the code means to ignore a sensor that goes away (sensors.c:149-156, 113-119; `C87_violated_unplug`).
120. LEGO EV3: the table of motors uses 0 for "not known", but 0 is the number of the first motor. After a start with motors at A and B, `talkto("B")` followed by `on()` starts the motor at A, since `motor0` can be opened and no search is made (motors.c:67, 182-208; `C88_violated_first`).
121. LEGO EV3: for the same reason, an order to a port with no motor starts motor 0 and reports no error (`C88_violated_absent`).
122. LEGO EV3: `talkto` takes its argument for a string without looking at its type (motors.c:212-222, 271-280), so `talkto(1)` follows a number as an address. Not modelled: the argument is a string.
123. LEGO EV3, `snekserver`: when Snek exits while a byte of the client is on its way, the server writes it to a pipe without a reader and is killed by `SIGPIPE`; the last output of Snek (a message, say) is lost (snekserver.c:435-442, `C89_violated_typeahead`).
124. LEGO EV3, `snekserver`: while a byte is held for a client that takes no more for a moment, the outputs of Snek are not asked for, so that an exit of Snek ends the server at once and the rest is lost (snekserver.c:361-364, 478-505, `C89_violated_slow`).
125. LEGO EV3, `snekserver`: a client that has sent all it wants and says so (a half-closed connection, as of `nc`) is cut off and gets no answer (snekserver.c:421-424, `C89_violated_halfclose`).
126. LEGO EV3, `snekserver`: a client that finishes and breaks off between `poll` and `write` kills the server with `SIGPIPE` (`C89_violated_client`). On a machine with signed `char` the byte 0xff would also be taken for `EOF`; the EV3 is not one.
127. LEGO EV3: `eeprom.write()` compares what `getc` returns with 0xff and not with `EOF`. At the end of the input it writes bytes 0xff for ever (snek-main.c:192-202, `C90_violated_eof`), and a byte 0xff ends the program (`C90_violated_binary`).
128. LEGO EV3: `eeprom.show()` prints its buffer with `fputs` though nothing ends it with a NUL (snek-main.c:225-235). It prints what memory holds after the program, and of a program longer than 4096 bytes the last turn prints the rest of the turn before (`C90_violated_long`, `C90_violated_stack`).
129. When memory runs out in the last instruction of a one-line `def`, or in the `null` that ends any `def`, no further token is read before the function is built: the error is reported, and a function with an incomplete code is stored under its name [C91_violated_def]. Calling it later executes an instruction whose operand is the next opcode or lies outside of the code, such as an assignment to another variable.
130. When the compile buffer is full and cannot be extended, `snek_code_add_op` has already made the byte behind the block the previous instruction, and `snek_code_set_push` sets a bit in it before the next token is read [C91_violated_write].
131. `indent` of snekde (snekde.py:770-779) leaves the cursor behind the spaces of the line and then deletes forward: a line that is indented deeper than wanted keeps its spaces and loses as many characters of its code, or of the lines below it [C92_violated_indent].
132. `undo = []` (snekde.py:415) is an attribute of the class: both windows share one list. After something was typed at the prompt, undo in the window of the program removes characters of the program, or leaves the cursor behind the end of the text [C92_violated_shared].
133. `set_text` of snekde does not empty the list: after loading or getting another program, undo applies old changes to it [C92_violated_load].
134. `last_ch` of snekde for an empty first line reads index -1, the last character of the text [C92_violated_last].
135. Control-C, which the manual gives for copying (doc/snek.adoc:2400), is always taken as an interrupt by `run` (snekde.py:1363-1365) [C92_violated_copy].
136. `snekde_save_file` (snekde.py:1339-1351) shows that a file already exists and then overwrites it.
137. snekde sends 16 bytes and then ENQ (snekde.py:200, 326-338) to a device whose ring has 16 places (snek-atmega-serial.c:26): when the device does not read meanwhile, the ENQ is dropped and snekde waits in vain for a second [C93_violated_question]; when it does not read for more than a second, text is dropped [C93_violated_busy].
138. snekde drops all control characters but the newline from a program it gets (snekde.py:1511-1513): the tabs of a program that was loaded from a file and put on a device are missing when it is got back, and with them its indentation [C94_violated_tab].
139. snekde decodes every byte by itself (snekde.py:285, 1525-1532): no character beyond ASCII survives Get, nor is it shown in the output of a program [C94_violated_accent].
140. No error on the I2C bus is ever noticed: the status of the interface is not looked at. A put to an address where no device is does nothing, a get there gives what the wires show, and an odd address makes put read (C95_violated_missing, C95_violated_odd). Arguments are reduced to a byte without a check (C95_violated_range).
141. accel() reads the two bytes of an axis in separate transfers without the block data update bit of the sensor being set: a sample that arrives in between gives a count made of two halves (C95_violated_torn).
142. SAMD21 (chips/samd21/ao-usb-samd21.c:243, 432-433): `ao_usb_set_configuration` sets `ao_usb_configuration` to 0 just after the number was stored there, so that GET_CONFIGURATION always says 0, "not configured" [C96_violated_configuration].
143. SAMD21 (chips/samd21/ao-usb-samd21.c:262-263, 502): if a host wants a multiple of 32 bytes and gets them all, the device is still in `DATA_IN` and makes an empty packet ready when the last one is acknowledged. The next request gets that one as its answer [C96_violated_exact].
144. SAMD21 (chips/samd21/ao-usb-samd21.c:485, 506-507), and in the same way AVR: when the interrupt for the last packet before is served together with a SET_ADDRESS request, the address changes before the request is answered, and the host waits in vain [C96_violated_address].
145. SAMD21 and AVR: requests that the device does not know are answered with an empty packet and not refused; the AVR writes a line coding that is set over its copy of the request.
146. snek-bmp280.c:169-170: `p` is unsigned, so that the products with `dig_P9` and `dig_P8` are, and `>>` shifts zeros in. The data sheet has casts to signed here. With a negative P8 (the data sheet's example has -14600) `baro()` is too large by exactly 32768 Pa: 133424 instead of 100656 [C97_baro_sign, C97_violated_sign]. No port in the repository includes the file.
147. snek-bmp280.c:93-148: `baro()` reads right after it has started the sensor, which has the reset value 0x80000 in its registers until the first conversion is done; and the bytes of a reading are fetched one by one, while the sensor goes on measuring.
148. ports/posix/snek-main.c:84-99: ^C typed while the interpreter waits at a prompt makes `snek_getc` return EOF once the line is entered, and the first character of the line is lost; at "> " this ends the session with status 0, at "+ " with a syntax error "EOF" and status 1 (C99_violated_interrupt_at_prompt).
149. ports/posix/snek-main.c:88-89: ^C that arrives between the test of `snek_abort` and clearing `snek_sigint` is not seen by the reader (C99_violated_race).
150. ports/posix/snek-main.c:43-51, 73-78: built without `readline` a line keeps its newline, and each line is followed by an empty one; lines of more than 255 characters are split (C99_violated_fgets).
151. ports/posix/snek-main.c:126-131: `getopt_long` reports an unknown option as '?', so that the status is 0; the `default` with status 1 is never reached (C99_violated_option).
152. snek-parse.c:221-240, snek-lex.c:48-49: `snek_parse` does not empty the push-back buffer. After a syntax error in a file given with `-i`, the characters pushed back are read in front of the first line typed (C99_violated_leftover).
153. ports/posix/snek-posix.c:21-34: `exit(None)` and `exit('')` give status 1, in Python `exit(None)` gives 0 (not modelled).
154. chips/samd21/uf2conv.py:197-199: a HEX file that comes back to a page gets a second block for it, with zeros where the first had bytes: the bytes given first are lost (C100_violated_order).
155. chips/samd21/uf2conv.py:82, 89, 96, 98, 100: the messages join a text and a number, which raises TypeError; a sector that is not a block, meant to be skipped, ends the conversion (C100_violated_skip). Line 176: an empty line in a HEX file without end record raises IndexError. Line 362: `write_file(outbuf, d + ...)` has its arguments exchanged, so that copying to a drive fails (read, not modelled). A file of fewer than 8 bytes raises an exception in `is_uf2`.
156. snek-math.c:39-50: `math.factorial` gives no error for numbers that have no factorial: `factorial(2.5)` is 2, `factorial(-1)` and `factorial(nan)` are 1 (C101_violated_domain, C101_other).
157. ports/hifive1revb/snek-metal-uart.c:93-115, 183-188: XOFF from the other side sets `tx_flow`, which nothing reads: the output goes on (C102_violated_xoff).
158. ports/hifive1revb/snek-metal-uart.c:144-149: `snek_uart_getc` enables interrupts and then waits for one. A byte that comes in between is put into the ring and the program waits all the same, until another interrupt (C102_violated_wakeup).
159. ports/hifive1revb/snek-metal-builtin.c:36: the end of a sleep is computed as a `float` (unsigned count plus `float`). The longer the board runs the coarser it gets: after 9 hours and 20 minutes `time.sleep(0.001)` does not wait (C103_violated_uptime).
160. ports/hifive1revb/snek-metal-gpio.c:233-237: `stopall` does nothing, the pins stay on (C104_violated_stopall); so do `setleft`, `setright` (C104_violated_direction) and the functions for pull resistors (:166-176, 192-208).
161. ports/hifive1revb/snek-metal-gpio.c:51-55: pins 18 and 20, and 19 and 21, are one line each with two switches: `talkto(20)` turns off what is on as 18 (C104_violated_alias).
162. ports/hifive1revb/snek-metal-gpio.c:159-163: `setpower` of something that is not a number raises an error and sets the power to 0 all the same (C104_violated_setpower).
163. ports/narrow-1284/snek-narrow-1284.c:365, 374: `1 << p` is an `int` of 16 bits. `pullnone(15)` also takes the pull-ups from pins 16 to 23 and `pullup(15)` gives pull-ups to A0 to A7 (C105_violated_pull15); for pins 16 to 31 the shift is undefined and, taken as 0, nothing happens (C105_violated_pull16).
164. ports/narrow-1284/snek-narrow-1284.c:118-126: `pin_reg` has no case for pins 24 to 31; an analog pin with pull-up is read from port C (C105_violated_read).
165. ports/narrow-1284/snek-narrow-1284.c:190-195: the bits that connect channel B of a timer are set in register B; they are in register A. Pins 4, 7, 12 and 14 cannot be dimmed (C105_violated_dim). By reading only: :76 sets TCCR2A where TCCR3A is meant.
166. ports/narrow-1284/snek-narrow-1284.c:261-266: `talkto` does not set the output, so a pin that was read with its pull-up is driven high although it is off (C105_violated_after_read).
167. snekde/snekde.py:618-623: page up is to move up by `lines - 1` (so the comment says, and page down does), but `pos[1] - (self.lines) - 1` moves by `lines + 1`: page down and then page up does not lead back, and two lines are never seen (C92_violated_page).
