import Verif.Model.Vm
/-!
# Elements of a container in a `for` loop
-/
namespace Snek.Vm
open Store (Val)

/-- The switch of `snek_in_step` for lists, tuples and dictionaries, snek-exec.c:211-222; `data`: the used part of the storage
(`list->size` words; a dictionary alternates keys and values), `i`: the loop's counter. The counter is compared and used as
an unsigned offset of `8 * W` bits. -/
def iterElem (W : Nat) (dict : Bool) (data : List Val) (i : Int) : Val :=
  let i := if dict then i * 2 else i
  (data[(i % 2 ^ (8 * W)).toNat]?).getD Val.none

/-- `snek_string_get`, snek-string.c:39-55, up to the allocation of the result: the byte of the string at index `so`, `none` for
"no such element". `so` is the index after conversion to a signed offset of `8 * W` bits; the arithmetic is unsigned.
The terminating zero byte is part of the storage. -/
def stringAt (W : Nat) (str : List UInt8) (so : Int) : Option UInt8 :=
  let o := (if so < 0 then (str.length : Int) - -so else so) % 2 ^ (8 * W)
  if (str.length : Int) ≤ o then none else (str ++ [0])[o.toNat]?

end Snek.Vm
