/-!
# Control requests of a USB serial device (USB 2.0, 9.4; CDC PSTN 6.3)

What the host asks and what it is to get. Requests that a device does not know are answered with nothing here (the standard wants a refusal).
-/
namespace Spec.UsbControl

/-- A request: direction, type (0 standard, 1 class), recipient (0 device, 1 interface, 2 endpoint), number, value, length, and the data that the host sends. -/
structure Req where
  dirIn : Bool
  type : Nat
  recip : Nat
  request : Nat
  value : Nat
  length : Nat
  data : List UInt8 := []
  deriving DecidableEq, Repr

/-- The host's requests to set and get the line coding (rate, stop bits, parity, data bits). -/
def setsCoding (r : Req) : Bool := !r.dirIn && r.type == 1 && r.request == 0x20
def getsCoding (r : Req) : Bool := r.type == 1 && r.request == 0x21

/-- 115200 baud, 8 data bits. -/
def initialCoding : List UInt8 := [0x00, 0xc2, 0x01, 0x00, 0, 0, 8]

/-- The line coding after some requests: that of the last one that sets it. -/
def coding : List Req → List UInt8
  | [] => initialCoding
  | r :: l => if l.any setsCoding then coding l else if setsCoding r then r.data else initialCoding

/-- The request for a descriptor (of the device). -/
def getsDescriptor (r : Req) : Bool := r.type == 0 && r.recip == 0 && r.request == 6

/-- The request for the number of the configuration. -/
def getsConfiguration (r : Req) : Bool := r.type == 0 && r.recip == 0 && r.request == 8

/-- The request for an address. -/
def setsAddress (r : Req) : Bool := r.type == 0 && r.recip == 0 && r.request == 5

/-- The configuration after some requests. -/
def configuration : List Req → UInt8
  | [] => 0
  | r :: l =>
    let isSet (r : Req) : Bool := r.type == 0 && r.recip == 0 && r.request == 9
    if l.any isSet then configuration l else if isSet r then UInt8.ofNat r.value else 0

/-- The descriptor with a number among those of a type: it and all that follow. -/
def find (t : Nat) : Nat → List (List UInt8) → List (List UInt8)
  | _, [] => []
  | i, b :: l => if b[1]? = some (UInt8.ofNat t) then match i with | 0 => b :: l | i + 1 => find t i l else find t i l

/-- A board: the descriptors of its kind, and its own number, of 128 bits. -/
structure Board where
  blocks : List (List UInt8)
  id : Nat

/-- The number of a board as a string descriptor: length, type 3, 32 hexadecimal digits, the highest first, in two bytes each. -/
def serial (id : Nat) : List UInt8 :=
  66 :: 3 :: (List.range 32).flatMap fun k => [UInt8.ofNat ("0123456789abcdef".toList.getD (id / 16 ^ (31 - k) % 16) '?').toNat, 0]

/-- What a request for a descriptor is to get: the descriptor; for a configuration (type 2) that one and what belongs to it, as many bytes as it
says in its bytes 2 and 3. String 3, if there is one, is the number of the board. -/
def descriptor (board : Board) (value : Nat) : List UInt8 :=
  match find (value / 256) (value % 256) board.blocks with
  | [] => []
  | b :: l =>
    if value / 256 = 2 then (b :: l).flatten.take ((b.getD 2 0).toNat + 256 * (b.getD 3 0).toNat)
    else if value / 256 = 3 ∧ value % 256 = 3 then serial board.id
    else b

/-- All that there is to say to a request after those before it. -/
def full (board : Board) (before : List Req) (r : Req) : List UInt8 :=
  if r.type = 0 ∧ r.request = 0 ∧ r.recip ≤ 2 then [0, 0]
  else if getsDescriptor r then descriptor board r.value
  else if getsConfiguration r then [configuration before]
  else if r.type = 0 ∧ r.recip = 1 ∧ r.request = 10 then [0]
  else if getsCoding r then coding before
  else []

/-- What the host is to get: as much of it as it wants. -/
def answer (board : Board) (before : List Req) (r : Req) : List UInt8 := (full board before r).take r.length

end Spec.UsbControl
