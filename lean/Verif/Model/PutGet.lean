import Verif.Model.Eeprom
/-!
# Putting a program on a device and getting it back

`snekde_put_text` and `snekde_get_text` (snekde/snekde.py:1275-1292), `SnekMonitor.receive` and `add_to` (lines 1470-1532), with the store of
Model/Eeprom at the other end of the line.

Simplifications: the line loses nothing (see C93); the ENQs of the writer are put in where the writer puts them; of what the device does with the
command line itself nothing is modelled, its output is any bytes.
-/
namespace Snek.PutGet

abbrev Text := List Char

/-- `str.encode("utf-8")`. -/
def encode (t : Text) : List UInt8 := t.flatMap String.utf8EncodeChar

/-- The bytes of an ASCII string of the program. -/
def ascii (s : String) : List UInt8 := s.toList.map fun c => c.toNat.toUInt8

/-- `command`, snekde/snekde.py:393-394. -/
def command (data intr : List UInt8) : List UInt8 := [14] ++ intr ++ data

/-- `len(text.strip()) == 0`, snekde/snekde.py:1283: nothing but white space. Simplified: of the characters that Python takes as white space, only those that a
keyboard writes. -/
def blank (t : Text) : Bool := t.all fun c => c.isWhitespace

/-- What `snekde_put_text` gives to the writer, snekde/snekde.py:1281-1291. -/
def put (t : Text) : List UInt8 :=
  if blank t then []
  else command (ascii "eeprom.write()\n") [3] ++ encode t ++ [4] ++ command (ascii "reset()\n") []

/-- What the writer makes of it, snekde/snekde.py:326-338: an ENQ after every `lim` bytes, of which `sent` have been sent before. -/
def enq (lim : Nat) : Nat → List UInt8 → List UInt8
  | _, [] => []
  | sent, b :: q => if sent + 1 ≥ lim then b :: 5 :: enq lim 0 q else b :: enq lim (sent + 1) q

/-- `snek_uart_putch`, chips/atmega/snek-atmega-serial.c:207-224: a carriage return before every newline. -/
def uart (out : List UInt8) : List UInt8 := out.flatMap fun c => if c = 10 then [13, 10] else [c]

/-- The texts of the two windows and `getting_text` (snekde/snekde.py:1445). -/
structure Mon where
  getting : Bool
  edit : Text
  repl : Text
  deriving DecidableEq, Repr

/-- `str(b, encoding="utf-8", errors="ignore")` for one byte: half a character is ignored. -/
def decode1 (b : UInt8) : Text := if b < 128 then [Char.ofNat b.toNat] else []

/-- `receive` with one byte, snekde/snekde.py:1482-1532. The reader takes one byte at a time (line 285). -/
def receive (m : Mon) (b : UInt8) : Mon :=
  if b = 2 then { m with getting := true }
  else if b = 3 then { m with getting := false }
  else if b = 6 then m
  else if b = 0x14 then m
  else if b < 0x20 ∧ b ≠ 10 then m
  else if m.getting then { m with edit := m.edit ++ decode1 b } else { m with repl := m.repl ++ decode1 b }

/-- `snekde_get_text`, snekde/snekde.py:1275-1278, and what arrives after it. -/
def get (m : Mon) (arrives : List UInt8) : Mon := arrives.foldl receive { m with edit := [] }

end Snek.PutGet
