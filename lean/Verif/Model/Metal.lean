import Verif.Model.Uart
/-!
# The serial driver of the HiFive1 Rev B

Models `ports/hifive1revb/snek-metal-uart.c`. The device has a queue of `cap` bytes in front of the line. The program and the interrupt
handler touch the shared variables only with interrupts disabled, so an execution is a sequence of indivisible steps: the handler, one
attempt of `snek_uart_getc` or `snek_uart_putc` (the code between `disable_interrupt` and `enable_interrupt`), and a byte leaving the queue
for the line. Any sequence of steps that the hardware allows is an execution.

The rings are the same code as on the ATmega (`Uart.ringGet`, `Uart.ringPut`): `ring_full`, `ring_empty`, `ring_get`, `ring_put`,
snek-metal-uart.c:50-85. Simplifications: `read` and `count` are numbers; `& (RINGSIZE - 1)` is `% N` (RINGSIZE is 64); the calls of the
metal library are what they are documented to do (`metal_uart_txready` is 0 where the queue has room, `metal_uart_getc` gives -1 where
nothing has come). `snek_uart_setup`, `snek_uart_init` and `wait_interrupt` are not modelled.
-/
namespace Snek.Metal
open Snek.Uart (Ring Sent ringGet ringPut)

/-- Static variables, snek-metal-uart.c:34-48, `snek_abort`, and the device: what was given to its queue so far, how much of that is
still in the queue, and whether the transmitter's interrupt is enabled. -/
structure St where
  rx : Ring
  tx : Ring
  /-- `rx_flow`: 0 FLOW_EMPTY, 1 FLOW_RUNNING, 2 FLOW_FULL, 3 FLOW_STOPPED -/
  flow : Nat
  /-- `tx_flow` -/
  txStop : Bool
  abort : Bool
  ie : Bool
  sent : List Sent
  queued : Nat
  deriving DecidableEq, Repr

variable (N cap : Nat)

/-- `next_flow`, snek-metal-uart.c:87-91. -/
def nextFlow (s : St) : St := { s with flow := (s.flow + 1) % 4 }

/-- `metal_uart_putc` and `metal_uart_transmit_interrupt_enable`, snek-metal-uart.c:112-113. -/
def send (b : Sent) (s : St) : St := { s with sent := s.sent ++ [b], queued := s.queued + 1, ie := true }

/-- `_snek_uart_tx_start`, snek-metal-uart.c:93-115. -/
def txStart (s : St) : St :=
  if s.queued < cap then
    if s.flow % 2 = 0 then
      let s := nextFlow s
      send (.flow (if s.flow = 1 then 17 else 19)) s
    else
      match ringGet N s.tx with
      | (none, _) => s
      | (some c, tx) => send (.data c) { s with tx := tx }
  else s

/-- `_snek_uart_flow_do`, snek-metal-uart.c:117-122. -/
def flowDo (s : St) : St := txStart N cap (nextFlow s)

/-- `_snek_uart_xon`, snek-metal-uart.c:124-129. -/
def xon (s : St) : St := if s.flow = 3 ∧ s.rx.count = 0 then flowDo N cap s else s

/-- `_snek_uart_xoff`, snek-metal-uart.c:131-136; `ring_mostly_full`, :60-63. -/
def xoff (s : St) : St := if s.flow = 1 ∧ N / 2 ≤ s.rx.count then flowDo N cap s else s

/-- The byte enters the ring, snek-metal-uart.c:193-194. -/
def accept (c : UInt8) (s : St) : St := xoff N cap { s with rx := (ringPut N s.rx c).2 }

/-- The part of the handler for the transmitter, snek-metal-uart.c:196-200. -/
def isrTx (s : St) : St := if s.queued < cap then txStart N cap (xon N cap { s with ie := false }) else s

/-- `snek_uart_isr`, snek-metal-uart.c:173-201; the byte that has come, if any. -/
def isr (c : Option UInt8) (s : St) : St :=
  match c with
  | none => isrTx N cap s
  | some c =>
    if c = 3 then isrTx N cap (accept N cap c { s with abort := true })
    else if c = 19 then { s with txStop := true }
    else if c = 17 then txStart N cap { s with txStop := false }
    else isrTx N cap (accept N cap c s)

/-- One attempt of `snek_uart_getc`, snek-metal-uart.c:138-154; `none`: it tries again. -/
def getc (s : St) : Option UInt8 × St :=
  match ringGet N s.rx with
  | (none, _) => (none, s)
  | (some c, rx) => (some c, xon N cap { s with rx := rx })

/-- One attempt of `snek_uart_putc`, snek-metal-uart.c:156-171, `false`: it tries again. (A newline is preceded by a call for a
carriage return, :160-161, that is by further attempts.) -/
def putc (c : UInt8) (s : St) : Bool × St :=
  match ringPut N s.tx c with
  | (false, _) => (false, s)
  | (true, tx) => (true, txStart N cap { s with tx := tx })

/-- What can happen. -/
inductive Ev
  | recv (c : UInt8)
  | ready
  | get
  | put (c : UInt8)
  | shift
  deriving DecidableEq, Repr

/-- A step. The interrupt of the transmitter comes only if it is enabled and the queue holds less than one byte (the watermark of
snek-metal-uart.c:206). -/
def step (e : Ev) (s : St) : St :=
  match e with
  | .recv c => isr N cap (some c) s
  | .ready => if s.ie = true ∧ s.queued < 1 then isr N cap none s else s
  | .get => (getc N cap s).2
  | .put c => (putc N cap c s).2
  | .shift => { s with queued := s.queued - 1 }

/-- Static initialisation. -/
def St.init : St := ⟨⟨0, 0, List.replicate N 0⟩, ⟨0, 0, List.replicate N 0⟩, 0, false, false, false, [], 0⟩

/-- What has left on the line. -/
def St.line (s : St) : List Sent := s.sent.take (s.sent.length - s.queued)

end Snek.Metal
