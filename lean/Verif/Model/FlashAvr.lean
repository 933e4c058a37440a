/-!
# Saving a program in the flash of a megaAVR

Models chips/atmega/snek-atmega-flash.c, and of the device what it uses: the flash is mapped at `M`..`E` in the data space; a store there
goes to the page buffer and selects the page, the command `PAGEERASEWRITE` replaces the selected page by the page buffer, after which the
page buffer is all ones, as it is after `PAGEBUFCLR` (ATmega4809 data sheet, NVMCTRL; in the buffer stores can only clear bits). A store
below `M` reaches an I/O register or the RAM.

`P` is PROGMEM_PAGE_SIZE, `M` MAPPED_PROGMEM_START, `E` MAPPED_PROGMEM_END (inclusive, 0xffff on the ATmega4809), `start` the result of
`flash_start`. Waiting for the controller and for the sender (`snek_uart_wait_queued`) is not modelled.
-/
namespace Snek.FlashAvr

/-- The device, and the static variables of snek-atmega-flash.c:20-21. -/
structure St where
  mem : Nat → UInt8
  pbuf : Nat → UInt8
  /-- The page selected by the last store. -/
  page : Nat
  /-- `flash_write_addr` -/
  addr : Nat
  /-- `flash_write_page_pending` -/
  pending : Bool

variable (P M E : Nat)

/-- `flash_start`, snek-atmega-flash.c:23-31; `append` is FUSE_APPEND. NULL is 0. -/
def flashStart (append : UInt8) : Nat := if append = 0 then 0 else M + append.toNat * 256

/-- `flash_size`, snek-atmega-flash.c:39-46. The subtraction is done in `ptrdiff_t`, 16 bits on AVR: here it does not overflow. -/
def flashSize (start : Nat) : Nat := if start = 0 then 0 else E - start + 1

/-- A store in the data space. -/
def store (a : Nat) (b : UInt8) (s : St) : St :=
  if a < M then { s with mem := fun x => if x = a then b else s.mem x }
  else { s with pbuf := fun i => if i = a % P then s.pbuf i &&& b else s.pbuf i, page := a / P }

/-- The command `PAGEERASEWRITE`. -/
def cmdEraseWrite (s : St) : St :=
  { s with mem := fun a => if a / P = s.page then s.pbuf (a % P) else s.mem a, pbuf := fun _ => 0xff }

/-- `flash_write_init`, snek-atmega-flash.c:77-83. -/
def writeInit (start : Nat) (s : St) : St := { s with addr := start, pending := false, pbuf := fun _ => 0xff }

/-- `flash_write_flush`, snek-atmega-flash.c:85-104. -/
def flush (s : St) : St := if s.pending then cmdEraseWrite P { s with pending := false } else s

/-- `flash_write_byte`, snek-atmega-flash.c:106-114. -/
def writeByte (b : UInt8) (s : St) : St :=
  let s := { store P M s.addr b s with pending := true }
  let s := if (s.addr + 1) % P = 0 then flush P s else s
  { s with addr := s.addr + 1 }

/-- The loop of `snek_builtin_eeprom_write`, snek-atmega-flash.c:127-136, with `snek_raw_getc` (snek-io.h:39-53) and `flash_write_full`
(snek-atmega-flash.c:63-67). The result: whether it has ended, the keys that are left, the device. -/
def writeLoop : List UInt8 → St → Bool × List UInt8 × St
  | [], s => (false, [], s)
  | k :: ks, s =>
    if k = 5 then writeLoop ks s
    else
      let c := if k = 13 then 10 else k
      let c := if c = 4 then 0xff else c
      let s := writeByte P M c s
      if s.addr = E then (true, ks, s)
      else if c = 0xff then (true, ks, s) else writeLoop ks s

/-- `snek_builtin_eeprom_write`, snek-atmega-flash.c:122-139. -/
def write (start : Nat) (keys : List UInt8) (s : St) : Bool × List UInt8 × St :=
  match writeLoop P M E keys (writeInit start s) with
  | (false, r) => (false, r)
  | (true, ks, s) => (true, ks, flush P s)

/-- The loop of `snek_builtin_eeprom_show`, snek-atmega-flash.c:151-156, from `addr`; pointers have 16 bits. `none`: it has not ended after
`fuel` bytes. -/
def showLoop (mem : Nat → UInt8) : Nat → Nat → Option (List UInt8)
  | 0, _ => none
  | fuel + 1, addr =>
    if addr ≤ E then
      if mem addr = 0xff then some []
      else (showLoop mem fuel ((addr + 1) % 65536)).map (mem addr :: ·)
    else some []

/-- `snek_builtin_eeprom_show`, snek-atmega-flash.c:141-160; `mark`: it was called with an argument. -/
def show_ (start : Nat) (mark : Bool) (mem : Nat → UInt8) (fuel : Nat) : Option (List UInt8) :=
  (showLoop E mem fuel start).map fun t => (if mark then [2] else []) ++ t ++ (if mark then [3] else [])

/-- `snek_builtin_eeprom_erase`, snek-atmega-flash.c:162-171. -/
def erase (start : Nat) (s : St) : St :=
  if s.mem 0 ≠ 0xff then flush P (writeByte P M 0xff (writeInit start s)) else s

/-- What the interpreter reads at boot until EOF: `snek_eeprom_getchar`, snek-atmega-flash.c:173-187, from offset `o`. -/
def load (start size : Nat) (mem : Nat → UInt8) (o : Nat) : List UInt8 :=
  if _h : o < size then
    if mem (start + o) ≠ 0xff then mem (start + o) :: load start size mem (o + 1) else []
  else []
termination_by size - o

end Snek.FlashAvr
