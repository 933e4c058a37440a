/-!
# Saving a program in the flash of a SAMD21

Models chips/samd21/ao-flash-samd21.c and chips/samd21/snek-eeprom.c, and of the device what they use: stores to flash addresses go to the
page buffer (manual write mode, ao-timer.c:277), `WP` programs a page from it, which can only clear bits, `ER` erases a row of four pages,
`PBC` sets the page buffer to ones. (The device sets the buffer to ones after `WP`, too; nothing relies on it, and here it does not.)

`P` is the page size, a power of two, `base` the address of `__flash__`, `size` the size of the region. Unlocking, waiting for the
controller and blocking interrupts are not modelled. An address is a number; the region is not checked by the writer.
-/
namespace Snek.Flash

/-- The device, and the static variables of ao-flash-samd21.c:109-111. -/
structure St where
  mem : Nat → UInt8
  pbuf : Nat → UInt8
  /-- `flash_write_offset` -/
  off : Nat
  /-- `flash_write_byte` -/
  byte : UInt8
  /-- `flash_write_pending` -/
  pending : Bool

variable (P base : Nat)

/-- A 16-bit store to the flash address `addr`: the page buffer. -/
def store16 (addr : Nat) (lo hi : UInt8) (s : St) : St :=
  { s with pbuf := fun i => if i = addr % P then lo else if i = addr % P + 1 then hi else s.pbuf i }

/-- Command `WP` at `addr`: program the page. -/
def cmdWP (addr : Nat) (s : St) : St :=
  { s with mem := fun a => if a / P = addr / P then s.mem a &&& s.pbuf (a % P) else s.mem a }

/-- Command `ER` at `addr`: erase the row. -/
def cmdER (addr : Nat) (s : St) : St :=
  { s with mem := fun a => if a / (4 * P) = addr / (4 * P) then 0xff else s.mem a }

/-- Command `PBC`: clear the page buffer. -/
def cmdPBC (s : St) : St := { s with pbuf := fun _ => 0xff }

/-- `_ao_flash_row_erased`, ao-flash-samd21.c:124-135. -/
def rowErased (dst : Nat) (s : St) : Bool := (List.range (4 * P)).all fun o => s.mem (dst + o) == 0xff

/-- `ao_flash_start_page`, ao-flash-samd21.c:138-153. -/
def startPage (dst : Nat) (s : St) : St :=
  let s := if dst % (4 * P) = 0 then (if rowErased P dst s then s else cmdER P dst s) else s
  cmdPBC s

/-- `ao_flash_finish_page`, ao-flash-samd21.c:155-165. -/
def finishPage (dst : Nat) (s : St) : St := cmdWP P dst s

/-- `ao_flash_write_init`, ao-flash-samd21.c:167-172. -/
def writeInit (s : St) : St := { s with off := 0, pending := false }

/-- `ao_flash_write_byte`, ao-flash-samd21.c:174-195. -/
def writeByte (c : UInt8) (s : St) : St :=
  let s := if s.off % P = 0 then startPage P (base + s.off) s else s
  let s :=
    if s.pending then { store16 P (base + s.off) s.byte c s with off := s.off + 2, pending := false }
    else { s with byte := c, pending := true }
  if s.off % P = 0 then finishPage P (base + s.off - P) s else s

/-- `ao_flash_write_flush`, ao-flash-samd21.c:197-205. -/
def writeFlush (s : St) : St :=
  let s := if s.pending then writeByte P base 0xff s else s
  if s.off % P ≠ 0 then finishPage P (base + s.off / P * P) s else s

/-- The loop of `snek_builtin_eeprom_write`, snek-eeprom.c:28-37, with `snek_raw_getc` (snek-io.h:39-53); `none`: it waits for more keys.
The result has the keys that are left. -/
def writeLoop : List UInt8 → St → Option (List UInt8 × St)
  | [], _ => none
  | k :: ks, s =>
    if k = 5 then writeLoop ks s
    else
      let c := if k = 13 then 10 else k
      let c := if c = 4 then 0xff else c
      let s := writeByte P base c s
      if c = 0xff then some (ks, s) else writeLoop ks s

/-- `snek_builtin_eeprom_write`, snek-eeprom.c:21-40. -/
def write (keys : List UInt8) (s : St) : Option (List UInt8 × St) :=
  match writeLoop P base keys (writeInit s) with
  | none => none
  | some (ks, s) => some (ks, writeFlush P base s)

/-- What the interpreter reads at boot until EOF: `snek_eeprom_getchar`, snek-eeprom.c:85-97, and `ao_flash_read_byte`,
ao-flash-samd21.c:215-221, from offset `o`. -/
def load (size : Nat) (mem : Nat → UInt8) (o : Nat) : List UInt8 :=
  if _h : o < size then
    if mem (base + o) ≠ 0xff then mem (base + o) :: load size mem (o + 1) else []
  else []
termination_by size - o

/-- `ao_flash_first_erased`, ao-flash-samd21.c:223-234, from `offset` downwards. -/
def firstErased (mem : Nat → UInt8) : Nat → Nat
  | 0 => 0
  | o + 1 => if mem (base + o) ≠ 0xff then o + 1 else firstErased mem o

/-- The loop of `ao_flash_erase_all`, ao-flash-samd21.c:247-255, from row number `r` (`offset` is `r * row_size`). -/
def eraseRows : Nat → St → St
  | 0, s => cmdER P base s
  | r + 1, s => eraseRows r (cmdER P (base + (r + 1) * (4 * P)) s)

/-- `ao_flash_erase_all`, ao-flash-samd21.c:236-256. -/
def eraseAll (size : Nat) (s : St) : St :=
  let o := firstErased base s.mem size
  if o = 0 then s else eraseRows P base ((o - 1) / (4 * P)) s

end Snek.Flash
