/-!
# Sending to a device without flow control

`SnekDevice.writer` and `SnekMonitor.sync` of snekde (snekde/snekde.py:294-346, 1450-1457) with the receiving interrupt and the reader of the
device (chips/atmega/snek-atmega-serial.c:72-105, 164-203, snek-io.h:39-53). snekde sends `lim` bytes, then ENQ (5), and waits for ACK (6), for a second at
most. The device answers ENQ when it is read from the ring of `size` bytes, into which the interrupt puts what arrives. Both numbers are
16 (snekde.py:200, snek-atmega-serial.c:26).

Everything that happens is an event, in any order: bytes are under way for as long as it takes, the device reads when it has the time to.
An event that is not possible changes nothing.

Simplifications: `serial.write` is taken byte by byte; the bytes that the interrupt of the device takes for itself (3, 0x11, 0x13, 0x14) are not
sent here, with them the interrupt of snekde (lines 322-325); the ACKs are counted.
-/
namespace Snek.Link

/-- `write_queue` with `send_data`, `sent`, whether `sync` waits; the bytes under way; the ring; the ACKs under way; what the device has read; whether
a byte was dropped because the ring was full. -/
structure St where
  queue : List UInt8
  sent : Nat
  waiting : Bool
  wire : List UInt8
  ring : List UInt8
  acks : Nat
  got : List UInt8
  lost : Bool
  deriving DecidableEq, Repr

def St.init : St := ⟨[], 0, false, [], [], 0, [], false⟩

inductive Ev where
  /-- `writeb`, snekde/snekde.py:382-388 -/
  | more (data : List UInt8)
  /-- the writer goes on, snekde/snekde.py:326-338 -/
  | send
  /-- a byte reaches the device, snek-atmega-serial.c:164-189 -/
  | arrive
  /-- the device reads a byte, snek-io.h:39-53 -/
  | read
  /-- an ACK reaches snekde, snekde/snekde.py:1497-1502 -/
  | ack
  /-- the wait of `sync` ends after a second, snekde/snekde.py:1456 -/
  | timeout
  deriving DecidableEq, Repr

variable (lim size : Nat)

/-- One event. -/
def step (s : St) : Ev → St
  | .more d => { s with queue := s.queue ++ d }
  | .send =>
    if s.waiting then s
    else if s.sent ≥ lim then { s with wire := s.wire ++ [5], waiting := true, sent := 0 }
    else match s.queue with
      | [] => s
      | b :: q => { s with queue := q, wire := s.wire ++ [b], sent := s.sent + 1 }
  | .arrive => match s.wire with
    | [] => s
    | b :: w => if s.ring.length = size then { s with wire := w, lost := true } else { s with wire := w, ring := s.ring ++ [b] }
  | .read => match s.ring with
    | [] => s
    | b :: r => if b = 5 then { s with ring := r, acks := s.acks + 1 } else { s with ring := r, got := s.got ++ [b] }
  | .ack => if s.acks = 0 then s else { s with acks := s.acks - 1, waiting := false }
  | .timeout => { s with waiting := false }

def run (evs : List Ev) : St := evs.foldl (step lim size) St.init

end Snek.Link
