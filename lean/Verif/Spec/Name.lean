/-! # Interning: what the table of builtin names must look like and what a session is -/
namespace Spec.Name

abbrev Str := List UInt8

/-- Encoding of the generated table: builtin names NUL-terminated, then keywords preceded by their token byte
(`snek-builtin.py` output; layout as read by snek-name.c). -/
def encode (names : List Str) (kws : List (UInt8 × Str)) : List UInt8 :=
  names.flatMap (fun n => n ++ [0]) ++ kws.flatMap (fun k => k.1 :: k.2 ++ [0])

/-- What is required of the generated table: spellings are non-empty, have no NUL, and no spelling occurs twice. -/
structure Ok (names : List Str) (kws : List (UInt8 × Str)) : Prop where
  names_ne : names ≠ []
  nonempty : ∀ s ∈ names ++ kws.map (·.2), s ≠ [] ∧ (0 : UInt8) ∉ s
  nodup : (names ++ kws.map (·.2)).Nodup

/-- A request for the id of a spelling; the flag says whether memory is available for a new name. -/
structure Req where
  name : Str
  ok : Bool

end Spec.Name
