/-!
# Making the file for the boot loader

Models `chips/samd21/uf2conv.py`, which makes the `.uf2` files of a release (chips/samd21/snek-samd21.defs:110-111): `is_uf2`, `is_hex`,
`convert_from_uf2`, `convert_to_uf2`, `Block`, `convert_from_hex_to_uf2` and the choice between them in `main`. Python's integers are natural
numbers, an exception is `none`. Not modelled: finding the drive of a board and copying to it, messages, the command line.
-/
namespace Snek.Uf2

/-- `UF2_MAGIC_START0`, `UF2_MAGIC_START1`, `UF2_MAGIC_END`, uf2conv.py:38-40. -/
def magic0 : Nat := 0x0A324655
def magic1 : Nat := 0x9E5D5157
def magicEnd : Nat := 0x0AB16F30

/-- One `I` of `struct.pack("<I…")`. -/
def pack1 (n : Nat) : List UInt8 := [.ofNat n, .ofNat (n / 256), .ofNat (n / 65536), .ofNat (n / 16777216)]

/-- `struct.pack("<II…")`: an exception if a number needs more than 32 bits. -/
def pack (l : List Nat) : Option (List UInt8) := if l.all (· < 2 ^ 32) then some (l.flatMap pack1) else none

/-- One `I` of `struct.unpack("<I…")`. -/
def unpack1 : List UInt8 → Nat
  | a :: b :: c :: d :: _ => a.toNat + 256 * b.toNat + 65536 * c.toNat + 16777216 * d.toNat
  | _ => 0

/-- Header field `k` of a block. -/
def field (b : List UInt8) (k : Nat) : Nat := unpack1 (b.drop (4 * k))

/-- `is_uf2`, uf2conv.py:57-59. -/
def isUf2 (buf : List UInt8) : Option Bool := if buf.length < 8 then none else some (field buf 0 = magic0 && field buf 1 = magic1)

/-- A character of `[:0-9a-fA-F\r\n]`. -/
def hexChar (c : UInt8) : Bool := c = 58 || (48 ≤ c && c ≤ 57) || (97 ≤ c && c ≤ 102) || (65 ≤ c && c ≤ 70) || c = 13 || c = 10

/-- `is_hex`, uf2conv.py:62-69. Text of these characters can always be decoded. -/
def isHex (buf : List UInt8) : Bool := buf.head? = some 58 && buf.all hexChar

/-- The 512 byte blocks, uf2conv.py:74-79. -/
def cut (buf : List UInt8) : List (List UInt8) := (List.range (buf.length / 512)).map fun i => (buf.drop (i * 512)).take 512

/-- The loop of `convert_from_uf2`, uf2conv.py:77-105, with `appstartaddr`, `curraddr` and `outp`. The messages join a text and a number, which
is an exception: a block with bad magic is not skipped. -/
def fromLoop (app : Nat) (cur : Option Nat) (out : List UInt8) : List (List UInt8) → Option (Nat × List UInt8)
  | [] => some (app, out)
  | b :: bs =>
    if field b 0 ≠ magic0 ∨ field b 1 ≠ magic1 then none
    else if field b 2 % 2 = 1 then fromLoop app cur out bs
    else if field b 4 > 476 then none
    else
      let newaddr := field b 3
      let app' := match cur with | none => newaddr | some _ => app
      let c := cur.getD newaddr
      if newaddr < c then none
      else if newaddr - c > 10 * 1024 * 1024 then none
      else if (newaddr - c) % 4 ≠ 0 then none
      else fromLoop app' (some (newaddr + field b 4)) (out ++ List.replicate (newaddr - c) 0 ++ (b.drop 32).take (field b 4)) bs

/-- `convert_from_uf2`, uf2conv.py:72-106: the start address and the contents. -/
def fromUf2 (app : Nat) (buf : List UInt8) : Option (Nat × List UInt8) := fromLoop app none [] (cut buf)

/-- The flags, uf2conv.py:119-121, 148-150. -/
def flags (family : Nat) : Nat := if family ≠ 0 then 0x2000 else 0

/-- One turn of the loop of `convert_to_uf2`, uf2conv.py:116-137. -/
def block (family app n : Nat) (content : List UInt8) (no : Nat) : Option (List UInt8) := do
  let ptr := 256 * no
  let chunk := (content.drop ptr).take 256
  let hd ← pack [magic0, magic1, flags family, ptr + app, 256, no, n, family]
  let chunk := chunk ++ List.replicate (256 - chunk.length) 0
  let b := hd ++ chunk ++ List.replicate 220 0 ++ pack1 magicEnd
  if b.length = 512 then some b else none

/-- `convert_to_uf2`, uf2conv.py:109-138. -/
def toUf2 (family app : Nat) (content : List UInt8) : Option (List UInt8) :=
  let n := (content.length + 255) / 256
  ((List.range n).mapM (block family app n content)).map List.flatten

/-- `Block`, uf2conv.py:141-144. -/
structure Blk where
  addr : Nat
  bytes : List UInt8
  deriving DecidableEq, Repr

/-- `Block.encode`, uf2conv.py:146-166. -/
def Blk.encode (family n : Nat) (b : Blk) (no : Nat) : Option (List UInt8) := do
  let hd ← pack [magic0, magic1, flags family, b.addr, 256, no, n, family]
  let hd := hd ++ b.bytes.take 256
  some (hd ++ List.replicate (508 - hd.length) 0 ++ pack1 magicEnd)

/-- The value of a digit. `int(…, 16)` is applied to two characters of `[:0-9a-fA-F\r\n]` only; that it skips a carriage return at the side
of a digit is not modelled (an exception here). -/
def digit (c : UInt8) : Option Nat :=
  if 48 ≤ c ∧ c ≤ 57 then some (c.toNat - 48)
  else if 97 ≤ c ∧ c ≤ 102 then some (c.toNat - 87)
  else if 65 ≤ c ∧ c ≤ 70 then some (c.toNat - 55)
  else none

/-- The numbers of a line after the colon, uf2conv.py:178-182. -/
def recOf : List UInt8 → Option (List Nat)
  | a :: b :: l => do
    let x ← digit a
    let y ← digit b
    let r ← recOf l
    return (16 * x + y) :: r
  | _ => some []

/-- One byte, uf2conv.py:197-200; the blocks are in reverse order, the first is `currblock`. -/
def put (blocks : List Blk) (addr v : Nat) : List Blk :=
  match blocks with
  | [] => [⟨addr / 256 * 256, (List.replicate 256 0).set (addr % 256) (.ofNat v)⟩]
  | b :: r =>
    if b.addr / 256 ≠ addr / 256 then ⟨addr / 256 * 256, (List.replicate 256 0).set (addr % 256) (.ofNat v)⟩ :: b :: r
    else { b with bytes := b.bytes.set (addr % 256) (.ofNat v) } :: r

/-- The bytes of a data record, uf2conv.py:195-202. -/
def putAll (blocks : List Blk) (addr : Nat) : List Nat → List Blk
  | [] => blocks
  | v :: l => putAll (put blocks addr v) (addr + 1) l

/-- The lines, uf2conv.py:175-202, with `upper` and the blocks. `line[0]` of an empty line is an exception. Lower bits that `|` would join are
zero, except that records of type 2 are checked for it. -/
def hexLoop (upper : Nat) (blocks : List Blk) : List (List UInt8) → Option (List Blk)
  | [] => some blocks
  | [] :: _ => none
  | (c :: l) :: ls =>
    if c ≠ 58 then hexLoop upper blocks ls
    else
      match recOf l with
      | some (_ :: r1 :: r2 :: tp :: r) =>
        if tp = 4 then
          match r with
          | r4 :: r5 :: _ => hexLoop ((r4 * 256 + r5) * 65536) blocks ls
          | _ => none
        else if tp = 2 then
          match r with
          | r4 :: r5 :: _ => if (r4 * 256 + r5) * 16 % 65536 ≠ 0 then none else hexLoop ((r4 * 256 + r5) * 16) blocks ls
          | _ => none
        else if tp = 1 then some blocks
        else if tp = 0 then hexLoop upper (putAll blocks (upper + r1 * 256 + r2) r.dropLast) ls
        else hexLoop upper blocks ls
      | _ => none

/-- `buf.split("\n")`. -/
def split : List UInt8 → List (List UInt8)
  | [] => [[]]
  | c :: l =>
    if c = 10 then [] :: split l
    else match split l with
      | h :: t => (c :: h) :: t
      | [] => [[c]]

/-- `convert_from_hex_to_uf2`, uf2conv.py:169-207. -/
def fromHex (family : Nat) (buf : List UInt8) : Option (List UInt8) := do
  let rev ← hexLoop 0 [] (split buf)
  let blocks := rev.reverse
  let l ← (List.range blocks.length).mapM fun i => do (← blocks[i]?).encode family blocks.length i
  return l.flatten

/-- `main`, uf2conv.py:335-347: what is written, for `-b app`, `-f family`. Without any block the message about the start address is an
exception (here also if there is a data record, without any bytes). -/
def convert (family app : Nat) (buf : List UInt8) : Option (List UInt8) := do
  if ← isUf2 buf then
    return (← fromUf2 app buf).2
  else if isHex buf then
    let r ← fromHex family buf
    if r = [] then none else return r
  else toUf2 family app buf

end Snek.Uf2
