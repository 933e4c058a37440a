/-!
# Files for the boot loader

After the description of the UF2 format (github.com/microsoft/uf2) and of Intel HEX files.
-/
namespace Snek.Uf2

/-- Memory of a board. -/
abbrev Mem := Nat → UInt8

/-- The 32 bit number at byte `i`, little-endian. -/
def at4 (b : List UInt8) (i : Nat) : Nat :=
  (b.getD i 0).toNat + 2 ^ 8 * (b.getD (i + 1) 0).toNat + 2 ^ 16 * (b.getD (i + 2) 0).toNat + 2 ^ 24 * (b.getD (i + 3) 0).toNat

/-- A sector that the boot loader of a device of family `dev` takes for a block: the three magic numbers, at most 476 bytes, the flag "not main
flash" is not set, and if there is a family it is this one. -/
def Accepted (dev : Nat) (b : List UInt8) : Prop :=
  b.length = 512 ∧ at4 b 0 = 0x0A324655 ∧ at4 b 4 = 0x9E5D5157 ∧ at4 b 508 = 0x0AB16F30 ∧ at4 b 16 ≤ 476 ∧
  (at4 b 8).testBit 0 = false ∧ ((at4 b 8).testBit 13 = true → at4 b 28 = dev)

instance (dev : Nat) (b : List UInt8) : Decidable (Accepted dev b) := by unfold Accepted; infer_instance

/-- The boot loader gets a sector: the bytes from 32 on go to the address at 12, as many as 16 says. -/
def burn (dev : Nat) (mem : Mem) (b : List UInt8) : Mem := fun a =>
  if Accepted dev b ∧ at4 b 12 ≤ a ∧ a < at4 b 12 + at4 b 16 then b.getD (32 + (a - at4 b 12)) 0 else mem a

/-- The sectors of a file. -/
def sectors (file : List UInt8) : List (List UInt8) := (List.range (file.length / 512)).map fun i => (file.drop (512 * i)).take 512

/-- A length in whole pages of 256 bytes. -/
def whole (n : Nat) : Nat := (n + 255) / 256 * 256

/-- A line of an Intel HEX file: the upper half of the addresses that follow; bytes for a lower half. -/
inductive Rec | base (hi : Nat) | data (lo : Nat) (bytes : List UInt8)
  deriving DecidableEq, Repr

/-- Numbers and lengths that fit. -/
def Rec.Fits : Rec → Prop
  | .base hi => hi < 65536
  | .data lo bytes => lo < 65536 ∧ bytes.length < 256

/-- A digit in capitals. -/
def hexDigit (n : Nat) : UInt8 := if n < 10 then .ofNat (48 + n) else .ofNat (55 + n)

/-- A line: the colon, all bytes and the checksum, which makes the sum 0. -/
def lineOf (bytes : List UInt8) : List UInt8 :=
  58 :: (bytes ++ [0 - bytes.sum]).flatMap fun b => [hexDigit (b.toNat / 16), hexDigit (b.toNat % 16)]

/-- The line of a record: length, address, type, data. -/
def Rec.line : Rec → List UInt8
  | .base hi => lineOf [2, 0, 0, 4, .ofNat (hi / 256), .ofNat (hi % 256)]
  | .data lo bytes => lineOf ([.ofNat bytes.length, .ofNat (lo / 256), .ofNat (lo % 256), 0] ++ bytes)

/-- A file: the lines, each followed by `nl` (a newline, or carriage return and newline), and the end record. -/
def hexText (nl : List UInt8) (recs : List Rec) : List UInt8 := (recs.map Rec.line ++ [lineOf [0, 0, 0, 1]]).flatMap (· ++ nl)

/-- What the records put where, in their order. -/
def writes (upper : Nat) : List Rec → List (Nat × UInt8)
  | [] => []
  | .base hi :: l => writes (hi * 65536) l
  | .data lo bytes :: l => (List.range bytes.length).map (fun i => (upper + lo + i, bytes.getD i 0)) ++ writes upper l

/-- The last byte put at an address. -/
def lastAt (w : List (Nat × UInt8)) (a : Nat) : Option UInt8 := (w.reverse.find? (·.1 = a)).map (·.2)

/-- Pages are filled one after another. -/
def Ascending (w : List (Nat × UInt8)) : Prop := w.Pairwise (fun x y => x.1 / 256 ≤ y.1 / 256)

end Snek.Uf2
