/-!
# The serial driver of the ATmega ports

Models `chips/atmega/snek-atmega-serial.c`. The program and the two interrupt handlers touch the shared variables only with interrupts
disabled, so an execution is a sequence of indivisible steps: a received byte (`ISR(RX_vect)`), the transmitter asking for data
(`ISR(UDRE_vect)`), one attempt of `snek_uart_getch` or `snek_uart_putch` (the code between `cli` and `sei`), and the hardware taking
the byte in the transmit register. Any sequence of steps that the hardware allows is an execution.

Simplifications: `read` and `count` are numbers (they stay below the ring size, C45); `& (UART_RINGSIZE - 1)` is `% N`, which is the same
as the ring size is a power of two (16); the wait for TX_EMPTY in the handler of ^T is part of that step. `snek_uart_init`,
`snek_uart_wait_queued` (which changes nothing) and the baud rate are not modelled.
-/
namespace Snek.Uart

/-- `uart_ring_t`, snek-atmega-serial.c:29-33. -/
structure Ring where
  read : Nat
  count : Nat
  buf : List UInt8
  deriving DecidableEq, Repr

/-- A byte written to the transmit register, and by whom. -/
inductive Sent
  | flow (c : UInt8)
  | data (c : UInt8)
  | echo (c : UInt8)
  deriving DecidableEq, Repr

/-- Static variables, snek-atmega-serial.c:35-43, and the device. -/
structure St where
  rx : Ring
  tx : Ring
  /-- `rx_flow`: 0 FLOW_EMPTY, 1 FLOW_RUNNING, 2 FLOW_FULL, 3 FLOW_STOPPED -/
  flow : Nat
  /-- `tx_flow` -/
  txStop : Bool
  /-- `snek_abort` -/
  abort : Bool
  /-- TX_EMPTY(): the transmit register is free -/
  txEmpty : Bool
  /-- the transmitter's interrupt is enabled -/
  dre : Bool
  /-- everything written to the transmit register so far -/
  sent : List Sent
  /-- the transmit register was written although it was not free: a byte is lost -/
  lost : Bool
  deriving DecidableEq, Repr

variable (N : Nat)

/-- `ring_get`, snek-atmega-serial.c:84-93. -/
def ringGet (r : Ring) : Option UInt8 × Ring :=
  if r.count = 0 then (none, r)
  else (some (r.buf.getD r.read 0), { r with read := (r.read + 1) % N, count := r.count - 1 })

/-- `ring_put`, snek-atmega-serial.c:95-104. -/
def ringPut (r : Ring) (c : UInt8) : Bool × Ring :=
  if r.count = N then (false, r)
  else (true, { r with buf := r.buf.set ((r.read + r.count) % N) c, count := r.count + 1 })

/-- `next_flow`, snek-atmega-serial.c:106-110. -/
def nextFlow (s : St) : St := { s with flow := (s.flow + 1) % 4 }

/-- `TX_DATA = c`. -/
def write (b : Sent) (s : St) : St := { s with sent := s.sent ++ [b], lost := s.lost || !s.txEmpty, txEmpty := false }

/-- `_snek_uart_tx_start`, snek-atmega-serial.c:112-135. -/
def txStart (s : St) : St :=
  if s.txEmpty && !s.txStop then
    if s.flow % 2 = 0 then
      let s := nextFlow s
      write (.flow (if s.flow = 1 then 17 else 19)) { s with dre := true }
    else
      match ringGet N s.tx with
      | (none, _) => s
      | (some c, tx) => write (.data c) { s with tx := tx, dre := true }
  else s

/-- `_snek_uart_flow_do`, snek-atmega-serial.c:137-142. -/
def flowDo (s : St) : St := txStart N (nextFlow s)

/-- `_snek_uart_xon`, snek-atmega-serial.c:144-149. -/
def xon (s : St) : St := if s.flow = 3 ∧ s.rx.count = 0 then flowDo N s else s

/-- `_snek_uart_xoff`, snek-atmega-serial.c:151-156; `ring_mostly_full`, :79-82. -/
def xoff (s : St) : St := if s.flow = 1 ∧ N / 2 ≤ s.rx.count then flowDo N s else s

/-- `ISR(UDRE_vect)`, snek-atmega-serial.c:158-163. -/
def udre (s : St) : St := txStart N (xon N { s with dre := false })

/-- The byte enters the ring, snek-atmega-serial.c:186-188. -/
def accept (c : UInt8) (s : St) : St := xoff N { s with rx := (ringPut N s.rx c).2 }

/-- `ISR(RX_vect)`, snek-atmega-serial.c:165-189. -/
def rxIsr (c : UInt8) (s : St) : St :=
  if c = 3 then accept N c { s with abort := true, rx := { s.rx with count := 0 } }
  else if c = 19 then { s with txStop := true }
  else if c = 17 then txStart N { s with txStop := false }
  else if c = 20 then write (.echo c) { s with txEmpty := true }
  else accept N c s

/-- One attempt of `snek_uart_getch`, snek-atmega-serial.c:191-205; `none`: it tries again. -/
def getch (s : St) : Option UInt8 × St :=
  match ringGet N s.rx with
  | (none, _) => (none, s)
  | (some c, rx) => (some c, xon N { s with rx := rx })

/-- One attempt of `snek_uart_putch`, snek-atmega-serial.c:215-224, `false`: it tries again. (A newline is preceded by a call for a
carriage return, :207-214, that is by further attempts.) -/
def putch (c : UInt8) (s : St) : Bool × St :=
  match ringPut N s.tx c with
  | (false, _) => (false, s)
  | (true, tx) => (true, txStart N { s with tx := tx })

/-- What can happen. -/
inductive Ev
  | recv (c : UInt8)
  | ready
  | get
  | put (c : UInt8)
  | taken
  deriving DecidableEq, Repr

/-- A step; an interrupt of the transmitter that is not due does not happen, nor does the hardware take a byte twice. -/
def step (e : Ev) (s : St) : St :=
  match e with
  | .recv c => rxIsr N c s
  | .ready => if s.dre && s.txEmpty then udre N s else s
  | .get => (getch N s).2
  | .put c => (putch N c s).2
  | .taken => { s with txEmpty := true }

/-- Static initialisation. -/
def St.init : St := ⟨⟨0, 0, List.replicate N 0⟩, ⟨0, 0, List.replicate N 0⟩, 0, false, false, true, false, [], false⟩

end Snek.Uart
