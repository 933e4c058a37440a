/-!
# Names

Models `snek-name.c`: the table of builtin names and keywords and the list of names made while running.

Simplifications: the name list (`snek_names`, linked through pool offsets) is a Lean list, newest first (its survival across
collections is C14); ids are natural numbers (`snek_id_t` has 16 or 32 bits, a pool of that many bytes cannot hold that many
names); whether `snek_alloc` succeeds is an input.
-/
namespace Snek.Name

/-- A C string: the bytes before the terminator. -/
abbrev Str := List UInt8

/-- The C string starting at index `i` of the table (`&snek_builtin_names[i]`). -/
def cstr (tbl : List UInt8) (i : Nat) : Str := (tbl.drop i).takeWhile (· ≠ 0)

/-- The loop of `snek_name_id_builtin`, snek-name.c:53-68: `e` is SNEK_BUILTIN_END. Note that `k` changes before the index
step of the same iteration. Result: id and keyword flag; `none` is the C result 0. -/
def idBuiltinLoop (tbl : List UInt8) (e : Nat) (name : Str) (i k id : Nat) : Option (Nat × Bool) :=
  if i < tbl.length then
    if name = cstr tbl (i + k) then
      if id ≥ e then some ((tbl[i]?.getD 0).toNat, true) else some (id, false)
    else
      let id := id + 1
      let k := if id = e then 1 else k
      idBuiltinLoop tbl e name (i + ((cstr tbl (i + k)).length + 1 + k)) k id
  else none
termination_by tbl.length - i
decreasing_by omega

/-- `snek_name_id_builtin`, snek-name.c:46-70. -/
def idBuiltin (tbl : List UInt8) (e : Nat) (name : Str) : Option (Nat × Bool) := idBuiltinLoop tbl e name 0 0 1

/-- The loop of `snek_name_string_builtin`, snek-name.c:80-83: `n` is the remaining count `--id`. -/
def stringBuiltinLoop (tbl : List UInt8) (i : Nat) : Nat → Nat
  | 0 => i
  | n + 1 => stringBuiltinLoop tbl (i + ((cstr tbl i).length + 1)) n

/-- `snek_name_string_builtin`, snek-name.c:72-85. (`id` 0 is never passed.) -/
def stringBuiltin (tbl : List UInt8) (e id : Nat) : Option Str :=
  if id ≥ e then none else some (cstr tbl (stringBuiltinLoop tbl 0 (id - 1)))

/-- `snek_names` (newest first) and `snek_id`, snek-name.c:17-18. -/
structure St where
  names : List Str
  id : Nat

/-- The static initialisation, snek-name.c:17-18. -/
def St.init (e : Nat) : St := ⟨[], e⟩

/-- The search loop of `snek_name_id`, snek-name.c:98-103. -/
def findName (name : Str) : List Str → Nat → Option Nat
  | [], _ => none
  | n :: l, id => if n = name then some id else findName name l (id - 1)

/-- Result of `snek_name_id`: an id with the keyword flag, or SNEK_ID_NONE. -/
inductive R | id (i : Nat) (keyword : Bool) | none
  deriving DecidableEq, Repr

/-- `snek_name_id`, snek-name.c:87-112; `ok`: the allocation succeeds. -/
def nameId (tbl : List UInt8) (e : Nat) (ok : Bool) (name : Str) (s : St) : R × St :=
  match idBuiltin tbl e name with
  | some (i, kw) => (.id i kw, s)
  | none =>
    match findName name s.names s.id with
    | some i => (.id i false, s)
    | none =>
      if ok then (.id (s.id + 1) false, ⟨name :: s.names, s.id + 1⟩) else (.none, s)

/-- The loop of `snek_name_string`, snek-name.c:126-130. -/
def findId (m : Nat) : List Str → Nat → Option Str
  | [], _ => none
  | n :: l, id => if id = m then some n else findId m l (id - 1)

/-- `snek_name_string`, snek-name.c:114-132. -/
def nameString (tbl : List UInt8) (e : Nat) (s : St) (m : Nat) : Option Str :=
  match stringBuiltin tbl e m with
  | some b => some b
  | none => findId m s.names s.id

end Snek.Name
