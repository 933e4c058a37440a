import Verif.Model.Frame
/-!
# Values with object numbers

A `snek_poly_t` as a program sees it: a number, or a reference to an object. The word and its tags are `Model/Poly` (C01, C02);
that a collection moves objects without a program noticing is C14.
-/
namespace Snek.Store

/-- A `snek_poly_t` with references as object numbers. A builtin is its offset, snek.h:951-957. -/
inductive Val
  | num (u : BitVec 32)
  | str (i : Nat)
  | list (i : Nat)
  | func (i : Nat)
  | builtin (i : Nat)
  deriving DecidableEq, Repr

/-- `SNEK_NULL`, snek.h:320. -/
def Val.none : Val := .builtin 0x7ffffc

/-- `SNEK_GLOBAL`, snek.h:322. -/
def Val.global : Val := .builtin 0x7ffff8

/-- What zero-filled storage holds: the word 0, which is the number 0.0. -/
def Val.zero : Val := .num 0

/-- Type number of a value (`snek_poly_type`, snek-poly.c:60-64; `snek_type_t`, snek.h). -/
def Val.type : Val → PType
  | .num _ => .float | .str _ => .string | .list _ => .list | .func _ => .func | .builtin _ => .builtin

/-- `snek_poly_to_offset`, snek.h:903-907: the object a value refers to. -/
def Val.ref : Val → Nat
  | .num _ => 0 | .str i => i | .list i => i | .func i => i | .builtin i => i

/-- `snek_float_to_poly`, snek-poly.c:33-39. -/
def Val.ofF (f : BitVec 32) : Val := .num (floatToPoly f)

/-- `snek_is_global`, snek.h:352-356. -/
def Val.isGlobal (v : Val) : Bool := v == Val.global

/-- `snek_is_null`, snek.h:340-344. -/
def Val.isNull (v : Val) : Bool := v == Val.none

instance : FrameVal Val := ⟨Val.zero, Val.global, Val.isGlobal⟩

/-- A value as a word, with object number `i` at offset `4 * i` (snek.h:897-969). -/
def Val.word : Val → Poly
  | .num u => u
  | .str i => offsetToPoly (BitVec.ofNat 32 (4 * i)) .string
  | .list i => offsetToPoly (BitVec.ofNat 32 (4 * i)) .list
  | .func i => offsetToPoly (BitVec.ofNat 32 (4 * i)) .func
  | .builtin i => offsetToPoly (BitVec.ofNat 32 i) .builtin

/-- `snek_variable_t` in memory, when values are stored as the words `word v`. The first bytes of a word are its low bytes; with zeros for
the others it is a number, since a reference has ones at the top of the word
(`C24_cut_number`, `C24_cut_value`). -/
def valVarBytes (word : Val → Poly) (idBytes pad : Nat) : VarBytes Val where
  size := (polyVarBytes idBytes pad).size
  cut k v :=
    let c := (polyVarBytes idBytes pad).cut k ⟨word v.value, v.id⟩
    ⟨if 4 ≤ k then v.value else .num c.value, c.id⟩

end Snek.Store
