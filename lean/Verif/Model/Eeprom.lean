/-!
# Saving a program in EEPROM

Models chips/atmega/snek-atmega-eeprom.c and chips/avr/snek-avr-eeprom.c (which differ in how the device is accessed only), with
`snek_raw_getc` of snek-io.h. `N` is EEPROM_SIZE (E2END + 1, at most 4096, so the 16-bit addresses do not wrap). The memory is a list; an
access beyond its end yields `none`. The keys come from a list; a list that ends early is a writer that was interrupted (reset, power
loss) while waiting for a key or just after storing a byte.
-/
namespace Snek.Eeprom

/-- The result of `eeprom.write()`: whether it returned, the keys it did not read, the memory, and what was printed. -/
structure W where
  done : Bool
  rest : List UInt8
  mem : List UInt8
  out : List UInt8
  deriving DecidableEq, Repr

variable (N : Nat)

/-- `snek_builtin_eeprom_write`, snek-atmega-eeprom.c:23-41, snek-avr-eeprom.c:55-73, from address `addr`; `snek_raw_getc`,
snek-io.h:39-53, answers ^E by ^F and turns a carriage return into a newline. `none`: a byte is stored outside the memory. -/
def write : List UInt8 → Nat → List UInt8 → List UInt8 → Option W
  | [], _, mem, out => some ⟨false, [], mem, out⟩
  | k :: ks, addr, mem, out =>
    if k = 5 then write ks addr mem (out ++ [6])
    else
      let c := if k = 13 then 10 else k
      let c := if c = 4 then 0xff else c
      if mem.length ≤ addr then none
      else
        let mem := mem.set addr c
        if addr + 1 = N then some ⟨true, ks, mem, out⟩
        else if c = 0xff then some ⟨true, ks, mem, out⟩
        else write ks (addr + 1) mem out

/-- The outcome of reading: a character or EOF, with the new address; `fault`: the memory was read outside its bounds. -/
inductive R
  | char (c : UInt8) (addr : Nat)
  | eof
  | fault
  deriving DecidableEq, Repr

/-- `snek_eeprom_getchar`, snek-atmega-eeprom.c:74-86, snek-avr-eeprom.c:86-92, 119-131. -/
def getchar (abort : Bool) (mem : List UInt8) (addr : Nat) : R :=
  if addr < N ∧ abort = false then
    match mem[addr]? with
    | none => .fault
    | some c => if c ≠ 0xff then .char c (addr + 1) else .eof
  else .eof

/-- The characters that the interpreter reads at boot until EOF, from address `addr` (`snek_parse` reads until EOF). `none`: fault. -/
def load (mem : List UInt8) (addr : Nat) : Option (List UInt8) :=
  if _h : addr < N then
    match getchar N false mem addr with
    | .char c _ => (load mem (addr + 1)).map (c :: ·)
    | .eof => some []
    | .fault => none
  else some []
termination_by N - addr

/-- The loop of `snek_builtin_eeprom_show`, snek-atmega-eeprom.c:53-58, snek-avr-eeprom.c:104-106. -/
def showLoop (mem : List UInt8) (addr : Nat) : Option (List UInt8) :=
  if _h : addr < N then
    match mem[addr]? with
    | none => none
    | some c => if c = 0xff then some [] else (showLoop mem (addr + 1)).map (c :: ·)
  else some []
termination_by N - addr

/-- `snek_builtin_eeprom_show`, snek-atmega-eeprom.c:43-62, snek-avr-eeprom.c:94-110; `mark`: it was called with an argument. -/
def show_ (mark : Bool) (mem : List UInt8) : Option (List UInt8) :=
  (showLoop N mem 0).map fun t => (if mark then [2] else []) ++ t ++ (if mark then [3] else [])

/-- `snek_builtin_eeprom_erase`, snek-atmega-eeprom.c:66-72, snek-avr-eeprom.c:112-118. -/
def erase (mem : List UInt8) : Option (List UInt8) :=
  match mem[0]? with
  | none => none
  | some c => some (if c ≠ 0xff then mem.set 0 0xff else mem)

end Snek.Eeprom
