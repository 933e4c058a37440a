import Verif.Model.Poly
/-!
# Variables and call frames

Models `snek-frame.c` and `snek-func.c`.

Simplifications: frames are Lean lists of variables instead of pool blocks linked by offsets (their survival across
collections is C14); the C pointer to a variable is a location (which frame, which index); whether each allocation succeeds
is an input. Ids are natural numbers. `snek_variable_delete` is modelled on bytes because its copy is byte-wise.
-/
namespace Snek

/-- What the frame code needs to know about values: the zero word of fresh storage and the `SNEK_GLOBAL` marker. -/
class FrameVal (α : Type) where
  zero : α
  global : α
  isGlobal : α → Bool

instance : FrameVal Poly := ⟨0, GLOBAL_U, Snek.isGlobal⟩

/-- `snek_variable_t`, snek.h:251-254. -/
structure Var (α : Type) where
  value : α
  id : Nat
  deriving DecidableEq, Repr

/-- `snek_frame_t`, snek.h:256-262; `code` and `ip` are where to continue in the caller. `γ` stands for code references. -/
structure Frame (α γ : Type) where
  vars : List (Var α)
  code : γ
  ip : Nat

/-- `snek_globals` and the chain starting at `snek_frame` (`[]` is NULL), snek-frame.c:17-18. -/
structure Frames (α γ : Type) where
  globals : List (Var α)
  frames : List (Frame α γ)

/-- A `snek_poly_t *` into a frame. -/
inductive VLoc | glob (i : Nat) | local (i : Nat)
  deriving DecidableEq, Repr

variable {α γ : Type}

/-- The search loop of `snek_variable_lookup`, snek-frame.c:95-98. -/
def varIndex (vars : List (Var α)) (id : Nat) : Option Nat := vars.findIdx? (fun v => v.id = id)

/-- `snek_pick_frame`, snek-frame.c:20-25: the variables, `none` for NULL. -/
def pickFrame (s : Frames α γ) (globals : Bool) : Option (List (Var α)) :=
  if globals then some s.globals else s.frames.head?.map (·.vars)

/-- Replace the variables of the picked frame. -/
def putFrame (s : Frames α γ) (globals : Bool) (vars : List (Var α)) : Frames α γ :=
  if globals then { s with globals := vars }
  else match s.frames with
    | [] => s
    | f :: fs => { s with frames := { f with vars := vars } :: fs }

/-- The location of variable `i` of the picked frame. -/
def mkLoc (globals : Bool) (i : Nat) : VLoc := if globals then .glob i else .local i

/-- `snek_variable_lookup` with `snek_variable_insert`, snek-frame.c:48-68 and 85-108. The inserted variable's value is the
zero word of fresh storage. `ok`: the allocation succeeds. -/
def variableLookup [FrameVal α] (s : Frames α γ) (globals : Bool) (id : Nat) (insert ok : Bool) :
    Option VLoc × Frames α γ :=
  match pickFrame s globals with
  | none => (none, s)
  | some vars =>
    match varIndex vars id with
    | some i => (some (mkLoc globals i), s)
    | none =>
      if insert && ok then
        (some (mkLoc globals vars.length), putFrame s globals (vars ++ [⟨FrameVal.zero, id⟩]))
      else (none, s)

/-- Read through a location. -/
def Frames.get [FrameVal α] (s : Frames α γ) : VLoc → α
  | .glob i => (s.globals[i]?.map (·.value)).getD FrameVal.zero
  | .local i => (((s.frames.head?.map (·.vars)).getD [])[i]?.map (·.value)).getD FrameVal.zero

/-- Change the value of variable `i`. -/
def setVar (vars : List (Var α)) (i : Nat) (v : α) : List (Var α) :=
  vars.modify i (fun x => { x with value := v })

/-- Write through a location. -/
def Frames.set (s : Frames α γ) : VLoc → α → Frames α γ
  | .glob i, v => { s with globals := setVar s.globals i v }
  | .local i, v => match s.frames with
    | [] => s
    | f :: fs => { s with frames := { f with vars := setVar f.vars i v } :: fs }

/-- `snek_frame_lookup`, snek-frame.c:110-120; `okL`, `okG`: the allocation in the local / global frame succeeds. -/
def frameLookup [FrameVal α] (s : Frames α γ) (id : Nat) (insert okL okG : Bool) : Option VLoc × Frames α γ :=
  match variableLookup s false id insert okL with
  | (some l, s') =>
    if FrameVal.isGlobal (s'.get l) then variableLookup s' true id insert okG else (some l, s')
  | (none, s') => variableLookup s' true id insert okG

/-- `snek_id_ref`, snek-frame.c:166-173. -/
abbrev idRef [FrameVal α] (s : Frames α γ) (id : Nat) (insert okL okG : Bool) := frameLookup s id insert okL okG

/-- `snek_id_store`, snek-frame.c:175-187. -/
def idStore [FrameVal α] (s : Frames α γ) (id : Nat) (v : α) (okL okG : Bool) : Bool × Frames α γ :=
  match idRef s id true okL okG with
  | (none, s') => (false, s')
  | (some l, s') => (true, s'.set l v)

/-- `snek_frame_mark_global`, snek-frame.c:122-132. -/
def markGlobal [FrameVal α] (s : Frames α γ) (id : Nat) (ok : Bool) : Frames α γ :=
  match s.frames with
  | [] => s
  | _ :: _ =>
    match variableLookup s false id true ok with
    | (some l, s') => s'.set l FrameVal.global
    | (none, s') => s'

/-- `snek_id_is_local`, snek-frame.c:189-193. -/
def isLocalId [FrameVal α] (s : Frames α γ) (id : Nat) : Bool := (variableLookup s false id false false).1.isSome

/-- `snek_frame_push`, snek-frame.c:134-148 (successful). Fresh storage is zero-filled. -/
def framePush [FrameVal α] (s : Frames α γ) (code : γ) (ip nformal : Nat) : Frames α γ :=
  { s with frames := ⟨List.replicate nformal ⟨FrameVal.zero, 0⟩, code, ip⟩ :: s.frames }

/-- `snek_frame_pop`, snek-frame.c:150-164: `none` at top level. -/
def framePop (s : Frames α γ) : Option (γ × Nat) × Frames α γ :=
  match s.frames with
  | [] => (none, s)
  | f :: fs => (some (f.code, f.ip), { s with frames := fs })

/-- How `snek_variable_t` lies in memory: its size, and the variable that one sees where only the first `k` bytes of a variable were
copied to zero-filled memory. -/
structure VarBytes (α : Type) where
  size : Nat
  cut : Nat → Var α → Var α

/-- `memcpy` of `k` bytes from consecutive variables to fresh, zero-filled memory for as many. -/
def copyBytes (B : VarBytes α) : Nat → List (Var α) → List (Var α)
  | _, [] => []
  | k, v :: l => (if B.size ≤ k then v else B.cut k v) :: copyBytes B (k - B.size) l

/-- `snek_variable_delete`, snek-frame.c:70-83 (allocation succeeds): `i * sizeof` bytes are copied from the start, then
`nvariables - i - 1` *bytes* (not variables) from variable `i + 1` on; the rest of the fresh block is zero. That this is what the copies
do to the bytes (`variableDeleteMem`) is `C24_bytes`. -/
def variableDelete (B : VarBytes α) (vars : List (Var α)) (i : Nat) : List (Var α) :=
  vars.take i ++ copyBytes B (vars.length - i - 1) (vars.drop (i + 1))

/-- Byte layout of `snek_variable_t`: `sizeof` and (de)serialisation. -/
structure VarEnc (α : Type) where
  size : Nat
  enc : Var α → List UInt8
  dec : List UInt8 → Var α

/-- Split into consecutive pieces of `n` bytes, `k` of them. -/
def pieces (n : Nat) : (k : Nat) → List UInt8 → List (List UInt8)
  | 0, _ => []
  | k + 1, l => l.take n :: pieces n k (l.drop n)

/-- `snek_variable_delete`, snek-frame.c:70-83, on the bytes of the variables. -/
def variableDeleteMem (B : VarEnc α) (vars : List (Var α)) (i : Nat) : List (Var α) :=
  let old := vars.flatMap B.enc
  let n := vars.length - 1
  let new := old.take (i * B.size) ++ (old.drop ((i + 1) * B.size)).take (vars.length - i - 1)
  let new := new ++ List.replicate (n * B.size - new.length) 0
  (pieces B.size n new).map B.dec

/-- `snek_id_del`, snek-frame.c:195-207. -/
def idDel (B : VarBytes α) (s : Frames α γ) (id : Nat) : Bool × Frames α γ :=
  match varIndex s.globals id with
  | some i => (true, { s with globals := variableDelete B s.globals i })
  | none => (false, s)

/-- Little-endian bytes. -/
def leBytes : (k : Nat) → Nat → List UInt8
  | 0, _ => []
  | k + 1, n => UInt8.ofNat (n % 256) :: leBytes k (n / 256)

/-- Little-endian value. -/
def leNat : List UInt8 → Nat
  | [] => 0
  | b :: l => b.toNat + 256 * leNat l

/-- `snek_variable_t` in memory: the value word, then the id (`idBytes` is 2 or 4), padding to `4 + idBytes + pad`. -/
def polyVarEnc (idBytes pad : Nat) : VarEnc Poly where
  size := 4 + idBytes + pad
  enc v := leBytes 4 v.value.toNat ++ leBytes idBytes v.id ++ List.replicate pad 0
  dec l := ⟨BitVec.ofNat 32 (leNat (l.take 4)), leNat ((l.drop 4).take idBytes)⟩

/-- What partial copies of such variables give. -/
def polyVarBytes (idBytes pad : Nat) : VarBytes Poly where
  size := 4 + idBytes + pad
  cut k v := (polyVarEnc idBytes pad).dec (((polyVarEnc idBytes pad).enc v).take k ++ List.replicate (4 + idBytes + pad - k) 0)

/-! ## Function calls: binding actuals to formals -/

/-- The descriptive part of `snek_func_t`, snek.h:237-242. -/
structure FuncSig where
  formals : List Nat
  nrequired : Nat

/-- Outcome of `snek_func_push`: the new frame's variables, or the error of snek-func.c:97 or 137. -/
inductive BindR (α : Type)
  | ok (vars : List (Var α))
  | tooMany
  | badArg (id : Nat)
  deriving DecidableEq, Repr

/-- `snek_func_actual`, snek-func.c:44-63: compare with the slots above `pos`, then fill slot `pos`. `none`: duplicate. -/
def funcActual (vars : List (Var α)) (id : Nat) (value : α) (pos : Nat) : Option (List (Var α)) :=
  if (vars.drop (pos + 1)).any (fun v => v.id = id) then none else some (vars.set pos ⟨value, id⟩)

/-- The named part of the loop of `snek_func_push`, snek-func.c:105-125: the actuals `named` (last first) go to the slots
`pos = nposition + named.length - 1` downwards. -/
def bindNamed (f : FuncSig) (npos : Nat) : List (Nat × α) → List (Var α) → Except Nat (List (Var α))
  | [], vars => .ok vars
  | (id, v) :: rest, vars =>
    if id ∉ f.formals then .error id
    else match funcActual vars id v (npos + rest.length) with
      | none => .error id
      | some vars => bindNamed f npos rest vars

/-- The positional part of the same loop (last first). `none` formals cannot occur: the count was checked. -/
def bindPos (f : FuncSig) : List α → List (Var α) → Except Nat (List (Var α))
  | [], vars => .ok vars
  | v :: rest, vars =>
    let id := f.formals[rest.length]?.getD 0
    match funcActual vars id v rest.length with
    | none => .error id
    | some vars => bindPos f rest vars

/-- Id found at `variables[pos]` by the loop of snek-func.c:128-132: inside the frame the slot's id, beyond its end whatever
the memory after the frame holds (`beyond`). -/
def slotId (vars : List (Var α)) (beyond : Nat → Nat) (pos : Nat) : Nat :=
  match vars[pos]? with
  | some v => v.id
  | none => beyond pos

/-- `snek_func_push`, snek-func.c:79-143, the frame having been allocated. The stack holds the positional actuals `pos`, then
the named ones `named` as (id, value) pairs (the id is pushed as a number). -/
def funcBind [FrameVal α] (f : FuncSig) (beyond : Nat → Nat) (pos : List α) (named : List (Nat × α)) : BindR α :=
  let nparam := pos.length + named.length
  if pos.length > f.formals.length then .tooMany
  else
    match bindNamed f pos.length named.reverse (List.replicate nparam ⟨FrameVal.zero, 0⟩) with
    | .error id => .badArg id
    | .ok vars =>
      match bindPos f pos.reverse vars with
      | .error id => .badArg id
      | .ok vars =>
        match (List.range f.nrequired).find? (fun p => slotId vars beyond p = 0) with
        | some p => .badArg (f.formals[p]?.getD 0)
        | none => .ok vars

end Snek
