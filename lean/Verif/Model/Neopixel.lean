import Verif.Model.Cmp
import Verif.Model.F32
/-!
# Coloured lamps: `neopixel` on the SAMD21 boards

`snek_builtin_neopixel` and its helpers (chips/samd21/snek-gpio.c:691-768), and what is sent on the wires for the two kinds of lamps
(ao-neopixel.c, ao-apa102.c). Time is counted in `ao_arch_nop`s, the other instructions count nothing.
-/
namespace Snek.Neopixel

/-- `struct snek_neopixel`, ao-snek.h:91-98. -/
structure Pixel where
  extra : BitVec 8
  b : BitVec 8
  r : BitVec 8
  g : BitVec 8
  deriving DecidableEq, Repr

/-- The member `p` of the union: little endian, `g` is the most significant byte. -/
def Pixel.p (x : Pixel) : BitVec 32 := x.g ++ x.r ++ x.b ++ x.extra

/-- What happens at the pin. -/
inductive Ev | toggle | wait (n : Nat)
  deriving DecidableEq, Repr

/-- The loop over bits of `ao_snek_neopixel_write`, ao-neopixel.c:33-92, `k` bits to go. -/
def bits : Nat → BitVec 32 → List Ev
  | 0, _ => []
  | k + 1, p =>
    [.toggle, .wait 8] ++ (if p.msb then [.wait 18, .toggle] else [.toggle, .wait 13]) ++ [.wait 6] ++ bits k (p <<< 1)

/-- `ao_snek_neopixel_write`, ao-neopixel.c:22-95: `n` pixels of the memory `mem`, from index `i` on. -/
def write (mem : Nat → Pixel) : Nat → Nat → List Ev
  | 0, _ => []
  | n + 1, i => bits 24 (mem i).p ++ write mem n (i + 1)

/-- What happens at the clock and data pins. -/
inductive Ev2 | clockHigh | clockToggle | data (v : Bool)
  deriving DecidableEq, Repr

/-- The macro `bit`, ao-apa102.c:22-29. -/
def bit2 (v : Bool) : List Ev2 := [.clockToggle, .data v, .clockToggle]

/-- The macro `byte`, ao-apa102.c:31-37. -/
def byte2 (v : BitVec 8) : List Ev2 := (List.range 8).flatMap fun i => bit2 (v.getLsbD (7 - i))

/-- The macro `repeat`, ao-apa102.c:39-43. -/
def repeat2 (v : Bool) (c : Nat) : List Ev2 := (List.replicate c (bit2 v)).flatten

/-- The loop over pixels of `ao_snek_apa102_write`, ao-apa102.c:58-63. (`pixels` is not advanced.) -/
def frames2 (pixels : Pixel) : Nat → List Ev2
  | 0 => []
  | n + 1 => byte2 0xff ++ byte2 pixels.b ++ byte2 pixels.g ++ byte2 pixels.r ++ frames2 pixels n

/-- `ao_snek_apa102_write`, ao-apa102.c:45-65. -/
def write2 (mem : Nat → Pixel) (n : Nat) : List Ev2 := [.clockHigh] ++ repeat2 false 32 ++ frames2 (mem 0) n ++ repeat2 true 32

/-- An element of a pixel. -/
inductive Color | num (v : BitVec 32) | other
  deriving DecidableEq, Repr

/-- An element of the argument: a number, a list or tuple, or anything else. -/
inductive Elem | num (v : BitVec 32) | seq (l : List Color) | other
  deriving DecidableEq, Repr

/-- The argument: a list or tuple, or anything else. -/
inductive Arg | seq (l : List Elem) | other

/-- `snek_poly_to_inten`, snek-gpio.c:691-698, of a number. `none`: the conversion to `uint8_t` is undefined (a NaN). -/
def inten (f : BitVec 32) : Option (BitVec 8) :=
  let f := if fltF f 0 then 0 else f
  let f := if fltF 0x3f800000 f then 0x3f800000 else f
  let f := fadd (fmul f 0x437f0000) 0x3f000000
  if isFin f ∧ 0 ≤ ftrunc f ∧ ftrunc f < 256 then some (BitVec.ofInt 8 (ftrunc f)) else none

/-- `snek_neopixels` (`none`: NULL; else the memory from there on) and `snek_neopixel_count`, snek-gpio.c:700-701. `abort` is
`snek_abort`; `outside` tells that memory behind the allocated pixels has been read or written. -/
structure St where
  mem : Option (Nat → Pixel)
  count : Nat
  abort : Bool
  outside : Bool

/-- The same function of any value: a type error, and 0, if it is not a number (`snek_poly_get_float`, snek-poly.c:148-155). -/
def toInten (s : St) : Color → Option (BitVec 8 × St)
  | .num v => (inten v).map fun b => (b, s)
  | .other => some (0, { s with abort := true })

/-- An element of the argument as the elements of a pixel: the argument itself is used as one when it is a colour. -/
def Elem.color : Elem → Color
  | .num v => .num v
  | _ => .other

/-- `set_neopixel`, snek-gpio.c:703-716. -/
def setPixel (s : St) (p : Nat) : Elem → Option St
  | .seq [r, g, b] => do
    let (r, s) ← toInten s r
    let (g, s) ← toInten s g
    let (b, s) ← toInten s b
    let mem ← s.mem
    pure { s with mem := some fun i => if i = p then { mem p with r, g, b } else mem i, outside := s.outside || decide (s.count ≤ p) }
  | _ => some { s with abort := true }

/-- The loop of snek-gpio.c:749-753; `false`: left with an error. -/
def setPixels (s : St) (p : Nat) : List Elem → Option (Bool × St)
  | [] => some (true, s)
  | e :: l => do
    let s ← setPixel s p e
    if s.abort then pure (false, s) else setPixels s (p + 1) l

/-- What is sent. -/
inductive Sent | nothing | one (l : List Ev) | two (l : List Ev2)

/-- A list of three elements, the first of which is a number: one colour, snek-gpio.c:731. -/
def immediate : List Elem → Bool
  | [.num _, _, _] => true
  | _ => false

/-- Memory for `size` pixels, snek-gpio.c:736-745. `fresh` is the memory a new allocation returns (`none`: out of memory, an error). -/
def room (fresh : Option (Nat → Pixel)) (size : Nat) (s : St) : St :=
  if s.mem.isNone || decide (s.count < size) then
    match fresh with
    | none => { s with mem := none, abort := true }
    | some m => { s with mem := some m, count := size }
  else s

/-- The colours, snek-gpio.c:747-754; `false`: left with an error. -/
def fill (s : St) (l : List Elem) : Option (Bool × St) :=
  if immediate l then (setPixel s 0 (.seq (l.map Elem.color))).map fun s => (true, s) else setPixels s 0 l

/-- `snek_builtin_neopixel`, snek-gpio.c:718-768. `two`: there are two current pins, for data and clock. -/
def neopixel (fresh : Option (Nat → Pixel)) (two : Bool) (s : St) : Arg → Option (Sent × St)
  | .other => some (.nothing, { s with abort := true })
  | .seq l =>
    let s := room fresh (if immediate l then 1 else l.length) s
    if s.mem.isNone then some (.nothing, s)
    else
      (fill s l).bind fun (go, s) =>
        if !go then some (.nothing, s)
        else s.mem.map fun mem =>
          (if two then .two (write2 mem l.length) else .one (write mem l.length 0),
            { s with outside := s.outside || decide (s.count < l.length) })

end Snek.Neopixel
