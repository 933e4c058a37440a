/-!
# The stored program of the LEGO EV3 (`ports/ev3/snek-main.c`)

On the EV3 the program is kept in a file. The boards keep it in memory: see C47, C48 and C63 for them.
Simplifications: `open`, `write` and `read` do not fail (if they do, Snek exits), `read` gives as much as fits; `char` has eight bits.
-/
namespace Snek.Ev3Store

abbrev Byte := BitVec 8

/-- What the console still has to say, and whether it ends then (or Snek waits for more). -/
structure Input where
  bytes : List Byte
  ends : Bool

/-- `getc(stdin)`: ports/ev3/snek-main.c:193. `none`: Snek waits. -/
def Input.getc (i : Input) : Option (Int × Input) :=
  match i.bytes with
  | b :: r => some (b.toNat, { i with bytes := r })
  | [] => if i.ends then some (-1, i) else none

/-- Where `eeprom.write()` is. -/
inductive Pc
  | opening
  | copying
  | done
  deriving DecidableEq

structure State where
  /-- the file, if there is one -/
  file : Option (List Byte)
  input : Input
  pc : Pc

/-- One system call of `eeprom.write()`: ports/ev3/snek-main.c:183-205 `snek_builtin_eeprom_write`. -/
def step (s : State) : State :=
  match s.pc with
  | .opening => { s with file := some [], pc := .copying }
  | .copying =>
    match s.input.getc with
    | none => s
    | some (c, i) =>
      if c = 4 ∨ c = 0xff then { s with input := i, pc := .done }
      else { s with file := s.file.map (· ++ [BitVec.ofInt 8 c]), input := i }
  | .done => s

def steps : Nat → State → State
  | 0, s => s
  | n + 1, s => steps n (step s)

/-- ports/ev3/snek-main.c:207-212 `snek_builtin_eeprom_erase` -/
def erase (_ : Option (List Byte)) : Option (List Byte) := none

/-- `fputs` of what is in memory from the start of the buffer on: up to the first NUL. -/
def fputs (memory : List Byte) : List Byte := memory.takeWhile (· ≠ 0)

/-- The loop of `eeprom.show()`: ports/ev3/snek-main.c:225-235. `buf` is the contents of the buffer and `beyond` what lies after it in memory. That the
buffer of one turn is that of the next, with its contents, is what compilers do; C leaves it open. The first argument bounds the turns. -/
def showLoop (beyond : List Byte) : Nat → List Byte → List Byte → List Byte
  | 0, _, _ => []
  | n + 1, buf, file =>
    let got := file.take 4096
    if got = [] then []
    else
      let buf := got ++ buf.drop got.length
      fputs (buf ++ beyond) ++ showLoop beyond n buf (file.drop 4096)

/-- ports/ev3/snek-main.c:214-242 `snek_builtin_eeprom_show`: what is printed; `framed` if there is an argument. -/
def eepromShow (framed : Bool) (buf beyond : List Byte) (file : Option (List Byte)) : List Byte :=
  (if framed then [2] else []) ++ (match file with
    | none => []
    | some f => showLoop beyond (f.length + 1) buf f) ++ (if framed then [3] else [])

end Snek.Ev3Store
