/-!
# Tagged values (`snek_poly_t`)

Models `snek.h` 41-79, 179-185, 318-356, 897-969 and `snek-poly.c` 17-65, 166-170.
A `snek_poly_t` is a 32-bit word (`.u`) that is also read as an IEEE binary32 (`.f`);
the model keeps the bit pattern only, so `.u`/`.f` punning is the identity.
-/
namespace Snek

/-- `snek_poly_t` (snek.h:76-79): the 32-bit word, float and integer views share it. -/
abbrev Poly := BitVec 32

/-- snek.h:56 -/
def OFFSET_MASK : BitVec 32 := 0x007ffffc#32
/-- snek.h:57 -/
def EXPONENT_MASK : BitVec 32 := 0xff800000#32
/-- snek.h:58 -/
def NINF : BitVec 32 := 0xff800000#32
/-- snek.h:318 -/
def NAN_U : BitVec 32 := 0x7fffffff#32
/-- snek.h:320 -/
def NULL_U : BitVec 32 := 0xfffffffc#32
/-- snek.h:322 -/
def GLOBAL_U : BitVec 32 := 0xfffffff8#32
/-- snek.h:324 -/
def INVALID_U : BitVec 32 := 0xfffffff4#32

/-- `snek_type_t`, snek.h:179-185 (same numeric order: `snek_poly_cmp` subtracts them). -/
inductive PType | builtin | list | string | func | float
  deriving DecidableEq, Repr

/-- Numeric value of `snek_type_t`, snek.h:179-185. -/
def PType.num : PType → Nat
  | .builtin => 0 | .list => 1 | .string => 2 | .func => 3 | .float => 4

/-- `isnanf` on a bit pattern (IEEE binary32: exponent all ones, mantissa non-zero). -/
def isNanF (f : BitVec 32) : Bool := 0x7f800000 < f.toNat % 2 ^ 31

/-- `snek_float_to_poly`, snek-poly.c:33-39. -/
def floatToPoly (f : BitVec 32) : Poly := if isNanF f then NAN_U else f

/-- `snek_poly_to_float`, snek.h:909-913. -/
def polyToFloat (v : Poly) : BitVec 32 := v

/-- `snek_is_float`, snek-poly.c:47-53. -/
def isFloat (v : Poly) : Bool := (v &&& EXPONENT_MASK) != EXPONENT_MASK || v == NINF

/-- The low tag bits as a type, the `(v.u & 3)` of snek-poly.c:64. -/
def tagType (v : Poly) : PType :=
  if v &&& 3#32 = 0#32 then .builtin
  else if v &&& 3#32 = 1#32 then .list
  else if v &&& 3#32 = 2#32 then .string
  else .func

/-- `snek_poly_type`, snek-poly.c:61-65. -/
def polyType (v : Poly) : PType := if isFloat v then .float else tagType v

/-- `snek_offset_to_poly`, snek.h:897-901. The C offset is 16 or 32 bits wide and is zero-extended. -/
def offsetToPoly (off : BitVec 32) (t : PType) : Poly := EXPONENT_MASK ||| off ||| BitVec.ofNat 32 t.num

/-- `snek_poly_to_offset`, snek.h:903-907. -/
def polyToOffset (v : Poly) : BitVec 32 := v &&& OFFSET_MASK

/-- `snek_is_null`, snek.h:340-344. -/
def isNull (v : Poly) : Bool := v == NULL_U
/-- `snek_is_invalid`, snek.h:346-350. -/
def isInvalid (v : Poly) : Bool := v == INVALID_U
/-- `snek_is_global`, snek.h:352-356. -/
def isGlobal (v : Poly) : Bool := v == GLOBAL_U
/-- `snek_is_nan`, snek-poly.c:166-170. -/
def isNan (v : Poly) : Bool := v == NAN_U

/-- Function-valued branch of `snek_builtin_id_to_poly`, snek.h:951-957. -/
def builtinIdToPoly (id : Nat) : Poly := offsetToPoly (BitVec.ofNat 32 (id * 4)) .builtin
/-- `snek_poly_to_builtin_id`, snek.h:959-963. -/
def polyToBuiltinId (v : Poly) : Nat := (polyToOffset v).toNat / 4

end Snek
