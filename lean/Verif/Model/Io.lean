/-!
# The interactive line editor

Models `snek-io.c` and `snek_raw_getc` of `snek-io.h` (with SNEK_BUILTIN_input). The keys come from a list; a call that needs more
keys than the list holds yields `none`: it waits. What is printed is a list of bytes.

Simplifications: a byte is a number 0 … 255, so `char` is unsigned (where it is signed the code compares `(uint8_t) c`, and the
caller sees a character of 128 or more as a negative number); the device never reports end of file.
-/
namespace Snek.Io

/-- Static variables of snek-io.c:18-38 and of snek_in_input (snek-input.c). -/
structure St where
  /-- `raw_mode` -/
  raw : Bool
  /-- `buf[SNEK_IO_LINEBUF]` -/
  buf : List UInt8
  /-- `used`, `avail` (`uint8_t`) -/
  used : Nat
  avail : Nat
  /-- `unget`; 0 is none -/
  unget : UInt8
  /-- keys to come, everything printed so far -/
  keys : List UInt8
  out : List UInt8
  /-- a byte outside `buf` was written or read (undefined behaviour in C) -/
  oob : Bool
  deriving DecidableEq, Repr

/-- What `snek_io_getc` returns. -/
inductive Res
  | char (c : UInt8)
  | eof
  deriving DecidableEq, Repr

/-- Static initialisation; `buf` holds zeros. -/
def St.init (size : Nat) (keys : List UInt8) : St := ⟨false, List.replicate size 0, 0, 0, 0, keys, [], false⟩

/-- SNEK_IO_PUTC, SNEK_IO_PUTS. -/
def put (l : List UInt8) (s : St) : St := { s with out := s.out ++ l }

/-- `snek_io_backspace`, snek-io.c:22-27. -/
def backspace (s : St) : St := put [8, 32, 8] { s with avail := s.avail - 1 }

/-- `snek_io_addc`, snek-io.c:29-35. -/
def addc (c : UInt8) (s : St) : St :=
  let s := { s with buf := s.buf.set s.avail c, oob := s.oob || decide (s.buf.length ≤ s.avail), avail := (s.avail + 1) % 256 }
  if s.raw then s else put [c] s

/-- `while (avail) snek_io_backspace()`, snek-io.c:94-96; `n` is `avail`. -/
def kill : Nat → St → St
  | 0, s => s
  | n + 1, s => kill n (backspace s)


/-- The switch of `snek_io_getc`, snek-io.c:73-108: return, leave the loop, or continue it. -/
inductive Next
  | ret
  | leave
  | again
  deriving DecidableEq

/-- One key, snek-io.c:73-108. -/
def key (size : Nat) (inInput : Bool) (c : UInt8) (s : St) : Next × St :=
  if c = 10 then (.leave, addc 10 s)
  else if c = 14 then (.again, { s with raw := true })
  else if c = 15 then (.again, { s with raw := false })
  else if c = 3 then
    if inInput then (.ret, { s with unget := c })
    else (.ret, if s.raw then s else put [94, 67, 10] s)
  else if c = 8 ∨ c = 127 then (.again, if s.avail ≠ 0 then backspace s else s)
  else if c = 21 then (.again, kill s.avail s)
  else
    let c := if c = 9 then 32 else c
    (.again, if 32 ≤ c ∧ s.avail < size - 1 then addc c s else s)

/-- The loop of `snek_io_getc`, snek-io.c:60-110, with `snek_raw_getc` (snek-io.h:39-53, ^E is answered by ^F), on the keys to come (`s.keys` is stale inside); `true`: return EOF. -/
def loop (size : Nat) (inInput : Bool) : List UInt8 → St → Option (Bool × St)
  | [], _ => none
  | c :: ks, s =>
    if c = 5 then loop size inInput ks (put [6] s)
    else
      match key size inInput (if c = 13 then 10 else c) s with
      | (.ret, s) => some (true, { s with keys := ks })
      | (.leave, s) => some (false, { s with keys := ks })
      | (.again, s) => loop size inInput ks s

/-- The loop, beginning with a character that was kept, snek-io.c:63-71. -/
def fill (size : Nat) (inInput : Bool) (s : St) : Option (Bool × St) :=
  if s.unget ≠ 0 then
    match key size inInput s.unget { s with unget := 0 } with
    | (.ret, s) => some (true, s)
    | (.leave, s) => some (false, s)
    | (.again, s) => loop size inInput s.keys s
  else loop size inInput s.keys s

/-- `return buf[used++]`, snek-io.c:112. -/
def take (s : St) : Res × St :=
  (.char (s.buf.getD s.used 0), { s with used := (s.used + 1) % 256, oob := s.oob || decide (s.buf.length ≤ s.used) })

/-- `snek_io_getc`, snek-io.c:42-113. `middle` is `snek_parse_middle`, `inInput` is `snek_in_input`. -/
def getc (size : Nat) (middle inInput : Bool) (s : St) : Option (Res × St) :=
  if s.used = s.avail then
    let s := if inInput then s else put [if middle then 43 else 62, 32] s
    match fill size inInput { s with used := 0, avail := 0 } with
    | none => none
    | some (true, s) => some (.eof, s)
    | some (false, s) => some (take s)
  else some (take s)

end Snek.Io
