import Verif.Model.Arch
/-!
# USB console of the SAMD21 boards

The two data endpoints of the console: chips/samd21/ao-usb-samd21.c, with `ao_fifo` (ao/ao.h) and the hook that looks for ^C
(chips/samd21/ao-snek.c), as compiled with `USE_USB_FIFO` and `AO_USB_OUT_HOOK` (all SAMD21 boards), after the host has configured the
device; a second configuration, reset and endpoint 0 are not modelled.

The hardware (SAM D21 data sheet, 32.6.2, dual bank endpoints), which is not in the repository: an endpoint has two banks, used in
turn. An OUT packet goes to the current bank if that one is free (its `BKnRDY` is clear), which sets `BKnRDY`, the interrupt flag
`TRCPTn` and makes the other bank current; otherwise the host is told to try again. An IN packet is taken from the current bank if its
`BKnRDY` is set, which clears it, sets `TRCPTn` and makes the other bank current.

All functions here run with interrupts blocked. The hardware can act at any moment, but whatever it does between two steps of a function
commutes with the rest of it - with one exception, the parameter `late` of `fifoCheck`. So functions are single events.
-/
namespace Snek.UsbSamd

abbrev Byte := UInt8

/-- Bank number, `false` for 0. -/
abbrev Bank := Bool

/-- Assignment to an element of an array. -/
def set {α β : Type} [DecidableEq α] (f : α → β) (a : α) (v : β) : α → β := fun x => if x = a then v else f x

/-! ## `ao_fifo` -/

/-- `struct ao_fifo`, ao.h:126-130. -/
structure Fifo where
  remove : Nat
  count : Nat
  fifo : Nat → Byte

/-- `ao_fifo_insert`, ao.h:132-138. `N` is `AO_FIFO_SIZE`, a power of two. -/
def Fifo.insert (N : Nat) (f : Fifo) (c : Byte) : Fifo :=
  { f with fifo := set f.fifo ((f.remove + f.count) % N) c, count := f.count + 1 }

/-- `ao_fifo_remove`, ao.h:140-147. -/
def Fifo.take (N : Nat) (f : Fifo) : Byte × Fifo :=
  (f.fifo f.remove, { f with remove := (f.remove + 1) % N, count := f.count - 1 })

/-- `ao_fifo_empty`, ao.h:155-159. -/
def Fifo.empty (f : Fifo) : Bool := f.count == 0

/-- `ao_fifo_has_space`, ao.h:167-171. -/
def Fifo.hasSpace (N : Nat) (f : Fifo) (amount : Nat) : Bool := amount ≤ N - f.count

/-! ## From the host to the program -/

/-- The OUT endpoint and the variables for it. -/
structure Out where
  /-- the banks: `ao_usb_out_buf` and its byte count, ao-usb-samd21.c:81 -/
  buf : Bank → List Byte
  /-- `BKnRDY`: the bank holds a packet -/
  rdy : Bank → Bool
  /-- the bank for the next packet -/
  cur : Bank
  /-- the interrupt flags `TRCPTn` -/
  trcpt : Bank → Bool
  /-- `ao_usb_out_avail`, ao-usb-samd21.c:101 -/
  avail : Bank → Bool
  /-- `ao_usb_out_rx_which`, ao-usb-samd21.c:77 -/
  which : Bank
  /-- `ao_usb_rx_fifo` -/
  fifo : Fifo
  /-- `ao_usb_running` -/
  running : Bool
  /-- `snek_abort` -/
  abort : Bool
  /-- not part of the device: all bytes of all packets accepted so far -/
  got : List Byte

/-- After `ao_usb_set_configuration`, ao-usb-samd21.c:203-246. -/
def Out.init : Out :=
  { buf := fun _ => [], rdy := fun _ => false, cur := false, trcpt := fun _ => false, avail := fun _ => false, which := true,
    fifo := ⟨0, 0, fun _ => 0⟩, running := false, abort := false, got := [] }

/-- The hardware receives a packet, of at most 64 bytes (`AO_USB_OUT_SIZE`); it is refused if the bank is not free. -/
def Out.packet (p : List Byte) (s : Out) : Out :=
  if s.rdy s.cur || decide (64 < p.length) then s
  else { s with got := s.got ++ p, buf := set s.buf s.cur p, rdy := set s.rdy s.cur true, trcpt := set s.trcpt s.cur true, cur := !s.cur }

/-- `ao_usb_out_hook`, ao-snek.c:122-130. -/
def hook (p : List Byte) (s : Out) : Out := if 3 ∈ p then { s with abort := true } else s

/-- `ao_usb_fifo_check`, ao-usb-samd21.c:532-554. The hook reads the bank after it has been given back to the hardware: `late` is a packet
that arrives just in between, into the same bank if that is the current one. -/
def fifoCheck (N : Nat) (late : Option (List Byte)) (s : Out) : Out :=
  let next := !s.which
  if s.avail next then
    let len := (s.buf next).length
    if s.fifo.hasSpace N len then
      let s := { s with fifo := (s.buf next).foldl (Fifo.insert N) s.fifo, rdy := set s.rdy next false, avail := set s.avail next false,
                        which := next }
      let old := s.buf next
      let s := match late with
        | none => s
        | some p => s.packet p
      hook ((s.buf next ++ old.drop (s.buf next).length).take len) s
    else hook (s.buf next) s
  else s

/-- The OUT part of `samd21_usb_isr`, ao-usb-samd21.c:578-592. -/
def Out.isr (N : Nat) (late : Option (List Byte)) (s : Out) : Out :=
  let flags := s.trcpt
  let s := { s with trcpt := fun _ => false }
  if flags false || flags true then
    fifoCheck N late { s with avail := fun b => s.avail b || flags b, running := true }
  else s

/-- One round of `ao_usb_getc`: `_ao_usb_pollchar`, ao-usb-samd21.c:715-760; `none` is AO_READ_AGAIN, after which it sleeps until the
next interrupt and tries again. -/
def Out.getc (N : Nat) (late : Option (List Byte)) (s : Out) : Option Byte × Out :=
  if !s.running then (none, s)
  else if s.fifo.empty then (none, s)
  else
    let (c, fifo) := s.fifo.take N
    (some c, fifoCheck N late { s with fifo })

/-! ## From the program to the host -/

/-- The IN endpoint and the variables for it. -/
structure In where
  /-- `ao_usb_in_buf`, ao-usb-samd21.c:73 -/
  buf : Bank → Nat → Byte
  /-- the byte counts of the banks -/
  len : Bank → Nat
  /-- `BKnRDY`: the bank holds a packet for the host -/
  rdy : Bank → Bool
  /-- the bank the host's next packet is taken from -/
  cur : Bank
  /-- the interrupt flags `TRCPTn` -/
  trcpt : Bank → Bool
  /-- `ao_usb_in_tx_which`, `ao_usb_tx_count`, ao-usb-samd21.c:71-72 -/
  which : Bank
  count : Nat
  /-- `ao_usb_in_flushed`, ao-usb-samd21.c:90 -/
  flushed : Bool
  /-- `ao_usb_in_pending`, ao-usb-samd21.c:96 -/
  pending : Bank → Bool
  /-- `ao_usb_running` -/
  running : Bool

/-- After `ao_usb_set_configuration`, ao-usb-samd21.c:203-246. -/
def In.init (running : Bool) : In :=
  { buf := fun _ _ => 0, len := fun _ => 0, rdy := fun _ => false, cur := false, trcpt := fun _ => false, which := false, count := 0,
    flushed := true, pending := fun _ => false, running }

/-- The host takes a packet, if there is one. -/
def In.take (s : In) : Option (List Byte) × In :=
  if s.rdy s.cur then
    (some ((List.range (s.len s.cur)).map (s.buf s.cur)),
      { s with rdy := set s.rdy s.cur false, trcpt := set s.trcpt s.cur true, cur := !s.cur })
  else (none, s)

/-- The IN part of `samd21_usb_isr`, ao-usb-samd21.c:595-603. -/
def In.isr (s : In) : In :=
  { s with trcpt := fun _ => false, pending := fun b => s.pending b && !s.trcpt b }

/-- `_ao_usb_in_send`, ao-usb-samd21.c:623-637. -/
def In.send (s : In) : In :=
  { s with pending := set s.pending s.which true, flushed := if s.count ≠ 64 then true else s.flushed, len := set s.len s.which s.count,
           rdy := set s.rdy s.which true, which := !s.which, count := 0 }

/-- What is to be done: a byte, or a flush. -/
inductive Op | byte (c : Byte) | flush
  deriving DecidableEq, Repr

/-- `ao_usb_putc` for a character, ao-usb-samd21.c:672-695: the order of its parts. -/
def putc (c : Byte) : List Op := if c = 10 then [.byte 13, .byte c, .flush] else [.byte c]

/-- A part of `ao_usb_putc`, ao-usb-samd21.c:680-690, or `ao_usb_flush`, :648-670. `none`: it sleeps (`_ao_usb_in_wait`, :640-646) until the
next interrupt and tries again. -/
def In.op (s : In) : Op → Option In
  | .byte c =>
    if !s.running then some s
    else if s.pending s.which then none
    else
      let s := { s with flushed := false, buf := set s.buf s.which (set (s.buf s.which) s.count c), count := s.count + 1 }
      some (if s.count = 64 then s.send else s)
  | .flush =>
    if !s.running then some s
    else if s.flushed then some s
    else if s.pending s.which then none
    else some s.send

/-! ## Runs -/

/-- What can happen at the OUT endpoint: a packet from the host, the interrupt handler, a round of `ao_usb_getc`. -/
inductive OutEv
  | packet (p : List Byte)
  | isr (late : Option (List Byte))
  | getc (late : Option (List Byte))

/-- A run, with the bytes the program has been given. -/
def Out.step (N : Nat) (x : Out × List Byte) : OutEv → Out × List Byte
  | .packet p => (x.1.packet p, x.2)
  | .isr late => (x.1.isr N late, x.2)
  | .getc late => let (c, s) := x.1.getc N late; (s, x.2 ++ c.toList)

def Out.run (N : Nat) (evs : List OutEv) : Out × List Byte := evs.foldl (Out.step N) (Out.init, [])

/-- What can happen at the IN endpoint: the program gets on, the host takes a packet, the interrupt handler runs. -/
inductive InEv | op (o : Op) | take | isr
  deriving DecidableEq, Repr

/-- A run, with the operations completed and the packets the host has taken. -/
def In.step (x : In × List Op × List (List Byte)) : InEv → In × List Op × List (List Byte)
  | .op o => match x.1.op o with
    | none => x
    | some s => (s, x.2.1 ++ [o], x.2.2)
  | .take => (x.1.take.2, x.2.1, x.2.2 ++ x.1.take.1.toList)
  | .isr => (x.1.isr, x.2)

def In.run (running : Bool) (evs : List InEv) : In × List Op × List (List Byte) := evs.foldl In.step (In.init running, [], [])

/-- Packets of the run are not empty. -/
def OutEv.full : OutEv → Prop
  | .packet p => p ≠ []
  | .isr late => ∀ p, late = some p → p ≠ []
  | .getc late => ∀ p, late = some p → p ≠ []

/-- No packet arrives while the handler is looking at one. -/
def OutEv.calm : OutEv → Prop
  | .packet _ => True
  | .isr late => late = none
  | .getc late => late = none

/-- The bytes of an operation. -/
def opBytes : Op → List Byte
  | .byte c => [c]
  | .flush => []

end Snek.UsbSamd
