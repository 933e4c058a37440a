import Verif.Spec.UsbControl
/-!
# Endpoint 0 of the SAMD21 boards

chips/samd21/ao-usb-samd21.c:181-508 and the part of the interrupt handler for endpoint 0 (565-576), with a host. `ao_usb_setup` is a `Req`, with its
`dir_type_recip` taken apart. `AO_USB_DEVICE_ID_SERIAL` is 1 (27-29).

The hardware (SAM D21 data sheet, 32.6.2), which is not in the repository: bank 0 takes SETUP packets, always, and OUT packets if it is free; both set BK0RDY, and
the interrupt flag RXSTP or TRCPT0. An IN packet is taken from bank 1 if BK1RDY is set, which clears it and sets TRCPT1. The endpoint takes part only
when the address in the packet is its own.

The handler reads and clears the flags, then does up to three things one after the other (`work`); the host can do something between any two of these.

The host does one request after the other and never gives one up: after the SETUP packet it asks for data until it has as much as it wanted or a packet
has less than 32 bytes, then sends an empty packet; or sends the data and asks for an empty packet. Reset is not modelled.
-/
namespace Snek.UsbControl
open Spec.UsbControl (Req)

/-- `ao_usb_ep0_state`, ao-usb.h:139-141. -/
inductive EpState | idle | dataIn | dataOut
  deriving DecidableEq, Repr

/-- What the handler still has to do, ao-usb-samd21.c:105-107. -/
inductive Work | setup | rx | tx
  deriving DecidableEq, Repr

/-- What is in bank 0. -/
inductive Packet | setup (r : Req) | data (d : List UInt8)
  deriving DecidableEq, Repr

/-- The device: its variables (ao-usb-samd21.c:36-62, 101-111) and the registers of endpoint 0. -/
structure Dev where
  state : EpState := .idle
  /-- from `ao_usb_ep0_in_data` on -/
  inData : List UInt8 := []
  inLen : Nat := 0
  /-- `ao_usb_ep0_out_data` as the number of bytes of the line coding before it -/
  outOff : Nat := 0
  outLen : Nat := 0
  coding : List UInt8
  configuration : UInt8 := 0
  address : Nat := 0
  pending : Bool := false
  /-- the register DADD -/
  dadd : Nat := 0
  bk0 : Bool := false
  outBuf : Packet := .data []
  bk1 : Option (List UInt8) := none
  rxstp : Bool := false
  trcpt0 : Bool := false
  trcpt1 : Bool := false
  work : List Work := []

/-- `ao_usb_ep0_flush`, ao-usb-samd21.c:249-273. -/
def flush (s : Dev) : Dev :=
  if s.bk1.isSome then s
  else
    let n := if s.inLen > 32 then 32 else s.inLen
    { s with state := if n < 32 then .idle else s.state, inLen := s.inLen - n, inData := s.inData.drop n, bk1 := some (s.inData.take n) }

/-- `ao_usb_ep0_in_reset`, ao-usb-samd21.c:293-298. -/
def inReset (s : Dev) : Dev := { s with inData := [], inLen := 0 }

/-- `ao_usb_ep0_in_queue_byte`, ao-usb-samd21.c:300-305; only after `inReset`. -/
def queue (s : Dev) (a : UInt8) : Dev := if s.inLen < 2 then { s with inData := s.inData ++ [a], inLen := s.inLen + 1 } else s

/-- `ao_usb_ep0_in_set`, ao-usb-samd21.c:307-312. -/
def inSet (s : Dev) (d : List UInt8) (n : Nat) : Dev := { s with inData := d, inLen := n }

/-- `ao_usb_ep0_in_start`, ao-usb-samd21.c:321-328. -/
def inStart (s : Dev) (max : Nat) : Dev := flush { s with inLen := if s.inLen > max then max else s.inLen }

/-- The loop of `ao_usb_get_descriptor`, ao-usb-samd21.c:373-393: the memory from the descriptor that is found on, and the length. -/
def walk (t : Nat) : Nat → Nat → List UInt8 → Option (List UInt8 × Nat)
  | 0, _, _ => none
  | fuel + 1, i, mem =>
    let len := (mem.getD 0 0).toNat
    if len = 0 then none
    else if (mem.getD 1 0).toNat = t then
      match i with
      | 0 => some (mem, if t = 2 then (mem.getD 2 0).toNat else len)
      | i + 1 => walk t fuel i (mem.drop len)
    else walk t fuel i (mem.drop len)

/-- `hex_to_ucs2`, ao-usb-samd21.c:336-346. -/
def hexToUcs2 (w : Nat) : List UInt8 :=
  [28, 24, 20, 16, 12, 8, 4, 0].flatMap fun i =>
    let bits := (w >>> i) &&& 0xf
    [UInt8.ofNat ((if bits < 10 then 48 else 97 - 10) + bits), 0]

/-- `ao_usb_serial_init`, ao-usb-samd21.c:351-360: `ao_usb_serial`. The words are at samd21.h:1727-1756. -/
def serialInit (w0 w1 w2 w3 : Nat) : List UInt8 := [66, 3] ++ hexToUcs2 w0 ++ hexToUcs2 w1 ++ hexToUcs2 w2 ++ hexToUcs2 w3

/-- `ao_usb_descriptors` (ao-product.c:60-188) and `ao_usb_serial`. -/
structure Mem where
  table : List UInt8
  serial : List UInt8

/-- `ao_usb_get_descriptor`, ao-usb-samd21.c:365-394. -/
def getDescriptor (mem : Mem) (s : Dev) (value length : Nat) : Dev :=
  match walk (value / 256) mem.table.length (value % 256) mem.table with
  | none => s
  | some (d, n) =>
    let (d, n) := if value / 256 = 3 ∧ value % 256 = 3 then (mem.serial, mem.serial.length) else (d, n)
    inSet s d (if n > length then length else n)

/-- `ao_usb_set_configuration`, ao-usb-samd21.c:204-247, as far as endpoint 0 is concerned. -/
def setConfiguration (s : Dev) : Dev := { s with configuration := 0 }

/-- The `switch` of `ao_usb_ep0_setup`, ao-usb-samd21.c:412-472. -/
def dispatch (mem : Mem) (s : Dev) (r : Req) : Dev :=
  match r.type with
  | 0 =>
    match r.recip with
    | 0 =>
      match r.request with
      | 0 => queue (queue s 0) 0
      | 5 => { s with address := r.value, pending := true }
      | 6 => getDescriptor mem s r.value r.length
      | 8 => queue s s.configuration
      | 9 => setConfiguration { s with configuration := UInt8.ofNat r.value }
      | _ => s
    | 1 =>
      match r.request with
      | 0 => queue (queue s 0) 0
      | 10 => queue s 0
      | _ => s
    | 2 =>
      match r.request with
      | 0 => queue (queue s 0) 0
      | _ => s
    | _ => s
  | 1 =>
    match r.request with
    | 0x20 => { s with outOff := 0, outLen := 7 }
    | 0x21 => inSet s s.coding 7
    | _ => s
  | _ => s

/-- `ao_usb_ep0_setup`, ao-usb-samd21.c:396-479. A SETUP packet has 8 bytes. -/
def setup (mem : Mem) (s : Dev) : Dev :=
  match s.outBuf with
  | .data _ => s
  | .setup r =>
    let s := { s with outLen := 0, bk0 := false }
    let s := { s with state := if r.dirIn = true ∨ r.length = 0 then .dataIn else .dataOut }
    let s := inReset s
    let s := dispatch mem s r
    if s.state = .dataIn then inStart s r.length else s

/-- `ao_usb_ep0_fill`, ao-usb-samd21.c:276-291, for data. -/
def fill (s : Dev) : Dev :=
  match s.outBuf with
  | .setup _ => s
  | .data d =>
    let n := if d.length > s.outLen then s.outLen else d.length
    { s with outLen := s.outLen - n, coding := s.coding.take s.outOff ++ d.take n ++ s.coding.drop (s.outOff + n), outOff := s.outOff + n, bk0 := false }

/-- One part of `ao_usb_ep0_handle`, ao-usb-samd21.c:485-507. -/
def handle (mem : Mem) (s : Dev) : Work → Dev
  | .setup => setup mem s
  | .rx =>
    if s.state = .dataOut then
      let s := fill s
      if s.outLen = 0 then inStart { s with state := .dataIn } 0 else s
    else s
  | .tx =>
    let s := if s.state = .dataIn then flush s else s
    if s.pending then { s with dadd := s.address, pending := false } else s

/-- `samd21_usb_isr`, ao-usb-samd21.c:565-576: read and clear the flags. -/
def isr (s : Dev) : Dev :=
  { s with
    work := (if s.rxstp then [.setup] else if s.trcpt0 then [.rx] else []) ++ (if s.trcpt1 then [.tx] else [])
    rxstp := false, trcpt0 := false, trcpt1 := false }

/-! ## The host -/

/-- What the host is at. -/
inductive Phase
  | idle
  | dataIn (r : Req) (got : List UInt8)
  | statusOut (r : Req) (got : List UInt8)
  | dataOut (r : Req)
  | statusIn (r : Req)
  deriving DecidableEq, Repr

/-- Device, host, and the requests that are done, with what the host got. -/
structure State where
  dev : Dev
  phase : Phase := .idle
  addr : Nat := 0
  done : List (Req × List UInt8) := []

/-- After the SETUP packet. -/
def afterSetup (r : Req) : Phase := if r.length = 0 then .statusIn r else if r.dirIn then .dataIn r [] else .dataOut r

/-- The address for the next request. -/
def afterDone (r : Req) (a : Nat) : Nat := if Spec.UsbControl.setsAddress r then r.value else a

/-- One step of device, hardware or host. `may` says which requests the host makes when. -/
inductive Step (may : Dev → Req → Prop) (mem : Mem) : State → State → Prop
  | isr (s) : s.dev.work = [] → (s.dev.rxstp || s.dev.trcpt0 || s.dev.trcpt1) = true → Step may mem s { s with dev := isr s.dev }
  | work (s w l) : s.dev.work = w :: l → Step may mem s { s with dev := handle mem { s.dev with work := l } w }
  | setup (s r) : s.phase = .idle → s.dev.dadd = s.addr → may s.dev r →
      Step may mem s { s with dev := { s.dev with bk0 := true, outBuf := .setup r, rxstp := true }, phase := afterSetup r }
  | dataIn (s r got p) : s.phase = .dataIn r got → s.dev.dadd = s.addr → s.dev.bk1 = some p →
      Step may mem s { s with dev := { s.dev with bk1 := none, trcpt1 := true },
                              phase := if p.length < 32 ∨ r.length ≤ (got ++ p).length then .statusOut r (got ++ p) else .dataIn r (got ++ p) }
  | statusOut (s r got) : s.phase = .statusOut r got → s.dev.dadd = s.addr → s.dev.bk0 = false →
      Step may mem s { dev := { s.dev with bk0 := true, outBuf := .data [], trcpt0 := true }, phase := .idle, addr := afterDone r s.addr, done := s.done ++ [(r, got)] }
  | dataOut (s r) : s.phase = .dataOut r → s.dev.dadd = s.addr → s.dev.bk0 = false →
      Step may mem s { s with dev := { s.dev with bk0 := true, outBuf := .data r.data, trcpt0 := true }, phase := .statusIn r }
  | statusIn (s r p) : s.phase = .statusIn r → s.dev.dadd = s.addr → s.dev.bk1 = some p →
      Step may mem s { dev := { s.dev with bk1 := none, trcpt1 := true }, phase := .idle, addr := afterDone r s.addr, done := s.done ++ [(r, p)] }

/-- The device as it starts, `{115200, 0, 0, 8}` at ao-usb-samd21.c:330. -/
def init : State := { dev := { coding := [0x00, 0xc2, 0x01, 0x00, 0, 0, 8] } }

inductive Reach (may : Dev → Req → Prop) (mem : Mem) : State → Prop
  | init : Reach may mem init
  | step (s s') : Reach may mem s → Step may mem s s' → Reach may mem s'

end Snek.UsbControl
