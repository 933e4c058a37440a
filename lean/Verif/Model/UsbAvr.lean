import Verif.Model.UsbSamd
/-!
# USB console of the ATmega32U4 boards

The two data endpoints of the console: chips/avr/ao-usb-avr.c (µduino, ItsyBitsy 5v), after the host has configured the device; reset, a second
configuration and endpoint 0 are not modelled.

The hardware (ATmega16U4/32U4 data sheet, 22.12 to 22.14), which is not in the repository: an endpoint has two banks, used in turn; one is
current. For an OUT endpoint a packet goes to a free bank; if there is none the host is told to try again. `FIFOCON`: the current bank holds a
packet; `RWAL`: a byte of it is unread; `RXOUTI`: set when the current bank gets a packet, or a bank with one becomes current. Writing 0 to
`FIFOCON` frees the current bank and makes the other current; writing 0 to `RXOUTI` clears it. For an IN endpoint `FIFOCON`: the current
bank is free for data; `RWAL`: and has room; `TXINI`: set when the current bank becomes free, or a free bank becomes current. Writing 0 to
`FIFOCON` hands the current bank to the host and makes the other current. Writing 1 to any of these bits does nothing.

The functions run with interrupts blocked, but the hardware acts at any moment. So the code is cut into single register accesses, and anything the
host does can come between them. `UENUM` is left out: each function selects its endpoint after it has blocked interrupts or has been woken.
`UEINTX &= ~x` is a read and a write, and the write clears whatever was 0 at the read.
-/
namespace Snek.UsbAvr
open UsbSamd (Byte Fifo)

/-! ## From the host to the program -/

/-- Where the processor is in `_ao_usb_fifo_check`, ao-usb-avr.c:326-357. -/
inductive Pc where
  /-- elsewhere; interrupts are not blocked -/
  | idle
  /-- line 329: `while (!ao_fifo_full(..))` -/
  | top
  /-- line 332: `intx = UEINTX` -/
  | sample
  /-- line 338, the read of `UEINTX &= ~FIFOCON`; with `intx & RXOUTI` -/
  | rmw (rx : Bool)
  /-- line 338, the write; with `intx & RXOUTI` and the bit `RXOUTI` of the value read -/
  | write (rx r : Bool)
  /-- line 343: `UEIENX |= RXOUTE` -/
  | enable
  /-- line 348: `UEINTX = ~RXOUTI` -/
  | ack
  /-- line 352: `c = UEDATX` and what follows -/
  | pull
deriving DecidableEq

/-- The OUT endpoint and the variables for it. -/
structure Out where
  /-- the packets in the banks, the current bank's first, without the bytes that have been read -/
  banks : List (List Byte)
  /-- `RXOUTI` in `UEINTX` -/
  rxouti : Bool
  /-- `RXOUTE` in `UEIENX`: interrupt if `RXOUTI` -/
  rxoute : Bool
  /-- `ao_usb_rx_fifo` -/
  fifo : Fifo
  /-- `snek_abort` -/
  abort : Bool
  pc : Pc
  /-- the byte that `ao_usb_getc` is going to return, if it is what called `_ao_usb_fifo_check` -/
  ret : Option Byte
  /-- not part of the device: all bytes of all packets accepted so far -/
  got : List Byte

/-- After `_ao_usb_set_configuration`, ao-usb-avr.c:71-110. -/
def Out.init : Out := ⟨[], false, true, ⟨0, 0, fun _ => 0⟩, false, .idle, none, []⟩

/-- The host sends a packet. -/
def Out.packet (p : List Byte) (s : Out) : Out :=
  if s.banks.length < 2 ∧ p.length ≤ 64 then
    { s with banks := s.banks ++ [p], rxouti := s.rxouti || s.banks.isEmpty, got := s.got ++ p }
  else s

/-- `FIFOCON` is written 0: the current bank is freed. -/
def Out.release (s : Out) : Out := { s with banks := s.banks.tail, rxouti := s.rxouti || !s.banks.tail.isEmpty }

/-- `_ao_usb_fifo_check` returns: to the interrupt handler, or to `_ao_usb_pollchar` and `ao_usb_getc`, which return `ret`. -/
def Out.leave (s : Out) : Out × Option Byte := ({ s with pc := .idle, ret := none }, s.ret)

/-- One step of `_ao_usb_fifo_check`, ao-usb-avr.c:326-357. `N` is `AO_FIFO_SIZE`. -/
def Out.step (N : Nat) (s : Out) : Out × Option Byte :=
  match s.pc with
  | .idle => (s, none)
  | .top => if s.fifo.count = N then s.leave else ({ s with pc := .sample }, none)
  | .sample =>
    match s.banks with
    | (_ :: _) :: _ => ({ s with pc := .pull }, none)
    | [] :: _ => ({ s with pc := .rmw s.rxouti }, none)
    | [] => ({ s with pc := if s.rxouti then .ack else .enable }, none)
  | .rmw rx => ({ s with pc := .write rx s.rxouti }, none)
  | .write rx r => ({ { s with rxouti := s.rxouti && r }.release with pc := if rx then .ack else .enable }, none)
  | .enable => { s with rxoute := true }.leave
  | .ack => ({ s with rxouti := false, pc := .sample }, none)
  | .pull =>
    match s.banks with
    | (c :: p) :: b => ({ s with banks := p :: b, abort := s.abort || c == 3, fifo := s.fifo.insert N c, pc := .top }, none)
    | _ => (s, none)

/-- `ao_usb_getc` with `_ao_usb_pollchar`, ao-usb-avr.c:359-380, up to `_ao_usb_fifo_check`. With an empty queue it sleeps until an interrupt and starts again. -/
def Out.getc (N : Nat) (s : Out) : Out :=
  if s.pc = .idle ∧ ¬ s.fifo.empty then { s with fifo := (s.fifo.take N).2, ret := some (s.fifo.take N).1, pc := .top } else s

/-- The interrupt handler, ao-usb-avr.c:409-429, up to `_ao_usb_fifo_check`. -/
def Out.irq (s : Out) : Out := if s.pc = .idle ∧ s.rxouti ∧ s.rxoute then { s with rxoute := false, pc := .top } else s

/-- What can happen. -/
inductive OutEv where
  | packet (p : List Byte)
  /-- `RXOUTI` is set for another reason (when the other bank gets a packet: the data sheet leaves it open) -/
  | flag
  | irq
  | getc
  | step
  /-- the program clears the abort flag (snek.h, `snek_abort`) -/
  | clear

/-- An event, and the byte that `ao_usb_getc` returns, if it does. -/
def Out.ev (N : Nat) (s : Out) : OutEv → Out × Option Byte
  | .packet p => (s.packet p, none)
  | .flag => ({ s with rxouti := true }, none)
  | .irq => (s.irq, none)
  | .getc => (s.getc N, none)
  | .step => s.step N
  | .clear => ({ s with abort := false }, none)

/-- A run: the state and the bytes `ao_usb_getc` has returned. -/
def Out.run (N : Nat) (evs : List OutEv) : Out × List Byte :=
  evs.foldl (fun x e => ((x.1.ev N e).1, x.2 ++ (x.1.ev N e).2.toList)) (Out.init, [])

/-! ## From the program to the host -/

/-- What is to be done when there is room: a byte to write (`ao_usb_putc`) or a packet to send (`ao_usb_flush`). -/
inductive Act where
  | put (c : Byte)
  | flush
deriving DecidableEq

/-- Where the processor is in `_ao_usb_in_wait`, `_ao_usb_in_send`, `ao_usb_flush` and `ao_usb_putc`, ao-usb-avr.c:243-324. -/
inductive IPc where
  /-- between two calls -/
  | idle
  /-- at the start of an act -/
  | start
  /-- line 249: is `RWAL` set? -/
  | waitR
  /-- line 255: is `TXINI` set? -/
  | waitT
  /-- line 257: `UEIENX |= TXINE` -/
  | waitE
  /-- line 258: `ao_sleep`, interrupts are not blocked -/
  | sleep
  /-- line 261: the read of `UEINTX &= ~TXINI` -/
  | ackR
  /-- line 261: the write, with the bit `FIFOCON` of the value read -/
  | ackW (fc : Bool)
  /-- line 314: `UEDATX = c` -/
  | data
  /-- line 317: is `RWAL` clear? -/
  | full
  /-- line 269: the read of `UEINTX &= ~FIFOCON` -/
  | sendR
  /-- line 269: the write, with the bit `TXINI` of the value read -/
  | sendW (r : Bool)
  /-- the end of an act: `ao_usb_in_flushed = false` of `ao_usb_putc`, line 319 -/
  | fin
deriving DecidableEq

/-- What the program calls. -/
inductive Op where
  | putc (c : Byte)
  | flush
deriving DecidableEq

/-- The IN endpoint and the variables for it. -/
structure In where
  /-- the banks the host may take, oldest first -/
  queue : List (List Byte)
  /-- the bytes in the current bank -/
  cur : List Byte
  txini : Bool
  txine : Bool
  /-- `ao_usb_in_flushed` -/
  flushed : Bool
  /-- the acts left of the call, the current one first -/
  todo : List Act
  pc : IPc
  /-- not part of the device: the packets the host has taken -/
  taken : List (List Byte)
  /-- not part of the device: the calls so far -/
  ops : List Op

/-- After `_ao_usb_set_configuration`, ao-usb-avr.c:71-110. -/
def In.init : In := ⟨[], [], true, false, false, [], .idle, [], []⟩

/-- The current bank is free: `FIFOCON`. -/
def In.free (s : In) : Bool := s.queue.length < 2

/-- `RWAL`. -/
def In.rwal (s : In) : Bool := s.free && s.cur.length < 64

/-- The host takes a packet. -/
def In.take (s : In) : In :=
  match s.queue with
  | [] => s
  | p :: q => { s with queue := q, taken := s.taken ++ [p], txini := s.txini || !s.free }

/-- `FIFOCON` is written 0. -/
def In.release (s : In) : In :=
  if s.free then { s with queue := s.queue ++ [s.cur], cur := [], txini := s.txini || decide (s.queue.length + 1 < 2) } else s

/-- `ao_usb_putc`, ao-usb-avr.c:298-324: a newline is a carriage return, the newline, and a flush. -/
def acts : Op → List Act
  | .putc c => if c = 10 then [.put 13, .put 10, .flush] else [.put c]
  | .flush => [.flush]

/-- The next act, or the return to the program. -/
def In.next (s : In) : In :=
  match s.todo with
  | [] => { s with pc := .idle }
  | [_] => { s with todo := [], pc := .idle }
  | _ :: t => { s with todo := t, pc := .start }

/-- One step of the code. -/
def In.step (s : In) : In :=
  match s.pc with
  | .idle | .sleep => s
  | .start =>
    match s.todo with
    | .flush :: _ => if s.flushed then s.next else { s with pc := .waitR }
    | .put _ :: _ => { s with pc := .waitR }
    | [] => { s with pc := .idle }
  | .waitR =>
    if s.rwal then
      match s.todo with
      | .flush :: _ => if s.flushed then s.next else { s with flushed := true, pc := .sendR }
      | _ => { s with pc := .data }
    else { s with pc := .waitT }
  | .waitT => { s with pc := if s.txini then .ackR else .waitE }
  | .waitE => { s with txine := true, pc := .sleep }
  | .ackR => { s with pc := .ackW s.free }
  | .ackW fc => if fc then { s with txini := false, pc := .waitR } else { { s with txini := false }.release with pc := .waitR }
  | .data =>
    match s.todo with
    | .put c :: _ => if s.rwal then { s with cur := s.cur ++ [c], pc := .full } else { s with pc := .full }
    | _ => s
  | .full => { s with pc := if s.rwal then .fin else .sendR }
  | .sendR => { s with pc := .sendW s.txini }
  | .sendW r => { { s with txini := s.txini && r }.release with pc := .fin }
  | .fin =>
    match s.todo with
    | .put _ :: _ => { s with flushed := false }.next
    | _ => s.next

/-- The program calls `ao_usb_putc` or `ao_usb_flush`. -/
def In.call (o : Op) (s : In) : In := if s.pc = .idle then { s with todo := acts o, pc := .start, ops := s.ops ++ [o] } else s

/-- The interrupt handler for the endpoint, ao-usb-avr.c:416-420. -/
def In.irq (s : In) : In :=
  if (s.pc = .idle ∨ s.pc = .sleep) ∧ s.txine ∧ s.txini then { s with txine := false, pc := if s.pc = .sleep then .waitT else s.pc } else s

/-- Another interrupt: `ao_sleep` returns after any, ao/ao-notask.c:22-28. -/
def In.wake (s : In) : In := if s.pc = .sleep then { s with pc := .waitT } else s

inductive InEv where
  | take
  /-- `TXINI` is set for another reason -/
  | flag
  | irq
  | wake
  | call (o : Op)
  | step

def In.ev (s : In) : InEv → In
  | .take => s.take
  | .flag => { s with txini := true }
  | .irq => s.irq
  | .wake => s.wake
  | .call o => s.call o
  | .step => s.step

def In.run (evs : List InEv) : In := evs.foldl In.ev In.init

end Snek.UsbAvr
