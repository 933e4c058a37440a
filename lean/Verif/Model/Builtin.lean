import Verif.Model.Format
import Verif.Model.Io
/-!
# Builtin functions

Models `snek-builtin.c` (except `sys.stdout.flush` and `math.sqrt`, which only call the C library), `snek_poly_len` (snek-poly.c:125-143),
`snek_string_make` (snek-string.c:17-24), and of `snek-input.c` `input`, and `float` and `int` of a number.

Values are trees (see `Verif.Model.Cmp`); memory for results is always available. An error is `none`: it is reported and the call has
no result.
-/
namespace Snek.Builtin

/-- `snek_poly_len`, snek-poly.c:125-143. -/
def polyLen : Tree → Nat
  | .str s => s.length
  | .list ty l => if ty = .dict then l.length / 2 else l.length
  | _ => 0

/-- `snek_builtin_len`, snek-builtin.c:18-22, with `snek_soffset_to_poly`, snek-poly.c:41-45 (the length fits a `snek_soffset_t`). -/
def len (t : Tree) : Tree := .num (floatToPoly (intToF (polyLen t)))

/-- The part of the output before `end`: the first loop of `snek_builtin_print`, snek-builtin.c:27-32. `none`: an argument cannot be
printed (does not happen with the format 's'). -/
def printArgs (L : Format.Lib) : List Tree → Option (List UInt8)
  | [] => some []
  | t :: l => do
    let a ← Format.fmt L 115 t
    let b ← printArgs L l
    pure (a ++ (if l.length ≠ 0 then [32] else []) ++ b)

/-- The second loop of `snek_builtin_print`, snek-builtin.c:35-40, over the named arguments (`endId` is SNEK_BUILTIN_end); `none` is
SNEK_NULL. -/
def printEnd (endId : Nat) : List (Nat × Tree) → Tree → Tree
  | [], e => e
  | (id, v) :: l, e => printEnd endId l (if id = endId then v else e)

/-- `snek_is_null`, snek.h:340-344: the value is `None`. -/
def isNull : Tree → Bool
  | .builtin o => o = 0x7ffffc
  | _ => false

/-- `snek_builtin_print`, snek-builtin.c:24-46: the bytes written. -/
def print (L : Format.Lib) (endId : Nat) (args : List Tree) (named : List (Nat × Tree)) : Option (List UInt8) := do
  let a ← printArgs L args
  let e := printEnd endId named (.builtin 0x7ffffc)
  let b ← if !isNull e then Format.fmt L 115 e else some [10]
  pure (a ++ b)

/-- `snek_builtin_ord`, snek-builtin.c:55-61; `signed`: `char` is signed (AVR, x86) or not (ARM). -/
def ord (signed : Bool) : Tree → Option Tree
  | .str s => some (.num (floatToPoly (intToF (if signed then Format.charInt (s.headD 0) else (s.headD 0).toNat))))
  | _ => none

/-- `snek_builtin_chr`, snek-builtin.c:63-68, with `snek_string_make`, snek-string.c:17-24; a `snek_soffset_t` has `W` bits. The outer
`none`: the conversion is undefined. -/
def chr (W : Nat) : Tree → Option (Option Tree)
  | .num u => (fToInt W u).map fun i => some (.str (if i % 256 = 0 then [] else [.ofNat (i % 256).toNat]))
  | _ => some none

/-- `fabs`: the sign bit cleared. -/
def fabs (u : BitVec 32) : BitVec 32 := BitVec.ofNat 32 (u.toNat % 2 ^ 31)

/-- `snek_builtin_abs`, snek-builtin.c:76-80. -/
def abs : Tree → Option Tree
  | .num u => some (.num (floatToPoly (fabs u)))
  | _ => none

/-- `truncf`: the integer next to the number toward zero, exact (C11 7.12.9.8, F.10.6.8); zero results keep the sign. -/
def truncf (u : BitVec 32) : BitVec 32 :=
  if !isFin u || fval u % 2 ^ 149 = 0 then u
  else if ftrunc u = 0 then fmk (fneg u) 0 else fround (ftrunc u * 2 ^ 149)

/-- `snek_builtin_int` of a number, snek-input.c:64-68 and 44-61. -/
def int (u : BitVec 32) : BitVec 32 := floatToPoly (truncf (floatToPoly u))

/-- The loop of `snek_builtin_input`, snek-input.c:35-38, with what was read so far; `getchar` is `snek_io_getc`. A NUL adds nothing
(`snek_string_cat`). `none`: it waits. The first argument bounds the number of calls. -/
def inputLoop (size : Nat) (middle : Bool) : Nat → List UInt8 → Io.St → Option (List UInt8 × Io.St)
  | 0, _, _ => none
  | n + 1, acc, s =>
    match Io.getc size middle true s with
    | none => none
    | some (.eof, s) => some (acc, s)
    | some (.char c, s) => if c = 10 then some (acc, s) else inputLoop size middle n (if c = 0 then acc else acc ++ [c]) s

/-- `snek_builtin_input`, snek-input.c:20-41, with at most one argument, the prompt. -/
def input (L : Format.Lib) (size : Nat) (middle : Bool) (n : Nat) (prompt : Option Tree) (s : Io.St) : Option (List UInt8 × Io.St) :=
  match prompt with
  | none => inputLoop size middle n [] s
  | some t => (Format.fmt L 115 t).bind fun p => inputLoop size middle n [] (Io.put p s)

end Snek.Builtin
