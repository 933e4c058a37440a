import Verif.Spec.Relay
/-!
# The server of the LEGO EV3 (`ports/ev3/snekserver.c`)

Simplifications:
* `char` is unsigned, as on the ARM of the EV3; so the `int` that holds `EOF` or a byte is an `Option`.
* A `write` that `poll` has announced succeeds, waiting if it must, unless its reader is gone. A `write` to a pipe without a reader is a `SIGPIPE`, which nobody handles: the
  server ends. A `write` to a broken connection is an error, and a `SIGPIPE` if the client had finished before (as in Linux: `tcp_reset`, `sk_stream_error`).
* `recv` of a broken connection first gives what has arrived.
* A system call interrupted by a signal is repeated and not seen. `poll`, `waitpid` and the system calls of the start do not fail; `accept` may.
* The start (`args`, `setup_listen`, `run_snek`) is not modelled.
-/
namespace Snek.Relay

inductive Status
  | running
  /-- `exit(1)`: Snek has exited -/
  | exited
  /-- `exit(255)`, which the code says is not reached -/
  | exit255
  /-- ended by `SIGPIPE` -/
  | killed
  deriving DecidableEq

/-- The server: ports/ev3/snekserver.c:308-313 `connected_socket`, `stdin_buf`, `stdout_buf`. -/
structure Srv where
  net : Net
  conn : Option Nat := none
  inBuf : Option Byte := none
  outBuf : Option Byte := none
  status : Status := .running

/-- The connected client. -/
def Srv.peer (s : Srv) : Option Client := s.conn.bind (s.net.clients[·]?)

/-! What `poll` says of the five descriptors: ports/ev3/snekserver.c:316-373. -/

/-- `fds[FD_CONNECTED].revents & (POLLHUP | POLLERR)` -/
def Srv.hup (s : Srv) : Bool := s.peer.any (·.reset)
/-- `fds[FD_LISTEN].revents & POLLIN` -/
def Srv.knock (s : Srv) : Bool := !s.net.backlog.isEmpty
/-- `fds[FD_CONNECTED].revents & POLLIN`, not asked for while a byte is held: 344-347 -/
def Srv.pin (s : Srv) : Bool := s.inBuf.isNone && s.peer.any fun c => !c.queue.isEmpty || c.fin
/-- `fds[FD_CONNECTED].revents & POLLPRI` -/
def Srv.pri (s : Srv) : Bool := s.peer.any (·.urgent)
/-- `fds[FD_STDIN].revents & POLLOUT`, asked for when a byte is held: 354-357. A pipe without a reader can still have room. -/
def Srv.feed (s : Srv) : Bool := s.inBuf.isSome && s.net.inRoom
/-- `fds[FD_CONNECTED].revents & POLLOUT`, not asked for without a byte: 349-352 -/
def Srv.pout (s : Srv) : Bool := s.outBuf.isSome && s.peer.any (·.room)
/-- `POLLIN` is asked for on the outputs of Snek: 359-364 -/
def Srv.asks (s : Srv) : Bool := !(s.outBuf.isSome && s.conn.isSome)
/-- `fds[FD_STDERR].revents & POLLIN` -/
def Srv.errIn (s : Srv) : Bool := s.asks && !s.net.errq.isEmpty
/-- `fds[FD_STDOUT].revents & POLLIN` -/
def Srv.outIn (s : Srv) : Bool := s.asks && !s.net.outq.isEmpty
/-- `POLLHUP` or `POLLERR` on a pipe -/
def Srv.gone (s : Srv) : Bool := !s.net.alive
/-- `poll` does not return. -/
def Srv.asleep (s : Srv) : Bool :=
  !(s.hup || s.knock || s.pin || s.pri || s.feed || s.pout || s.errIn || s.outIn || s.gone)

/-! What is done then; `s` is the state at the system call. -/

/-- The connection is closed: ports/ev3/snekserver.c:389-394, and 421-424 -/
def Srv.drop (s : Srv) : Srv := { s with conn := none, inBuf := none, outBuf := none }

/-- ports/ev3/snekserver.c:398-412, with an `accept` that may fail -/
def Srv.accept (s : Srv) (fails : Bool) : Srv :=
  if fails then s
  else
    match s.net.backlog with
    | [] => s
    | k :: r => { s with net := { s.net with backlog := r }, conn := some k, inBuf := none, outBuf := none }

/-- ports/ev3/snekserver.c:416-433 -/
def Srv.recv (s : Srv) (oob : Bool) : Srv :=
  match s.conn, s.peer with
  | some k, some c =>
    if oob then
      if c.urgent then { s with net := { s.net.client k fun c => { c with urgent := false } with kills := s.net.kills + 1 } } else s
    else
      match c.queue with
      | b :: r => { s with net := s.net.client k fun c => { c with queue := r }, inBuf := some b }
      | [] => if c.reset then s else if c.fin then s.drop else s
  | _, _ => s

/-- ports/ev3/snekserver.c:435-442 -/
def Srv.toSnek (s : Srv) : Srv :=
  match s.inBuf with
  | none => s
  | some b =>
    if s.net.alive then { s with net := { s.net with fed := s.net.fed ++ [b] }, inBuf := none } else { s with status := .killed }

/-- ports/ev3/snekserver.c:446-452 -/
def Srv.toClient (s : Srv) : Srv :=
  match s.conn, s.peer, s.outBuf with
  | some k, some c, some b =>
    if c.reset then (if c.fin then { s with status := .killed } else s)
    else { s with net := s.net.client k fun c => { c with got := c.got ++ [b] }, outBuf := none }
  | _, _, _ => s

/-- What has been read is kept if a client is connected and dropped if none is: ports/ev3/snekserver.c:456-461, 467-472 -/
def Srv.keep (s : Srv) (b : Byte) : Srv := if s.conn.isSome then { s with outBuf := some b } else s

/-- ports/ev3/snekserver.c:454-463 -/
def Srv.fromErr (s : Srv) : Srv :=
  match s.net.errq with
  | [] => s
  | b :: r => { s with net := { s.net with errq := r } }.keep b

/-- ports/ev3/snekserver.c:465-474 -/
def Srv.fromOut (s : Srv) : Srv :=
  match s.net.outq with
  | [] => s
  | b :: r => { s with net := { s.net with outq := r } }.keep b

/-- What happens in one turn of the loop: before `poll` returns, and between it and the system call that follows. -/
structure Turn where
  before : List Ev := []
  between : List Ev := []
  acceptFails : Bool := false

/-- One turn of the loop: ports/ev3/snekserver.c:315-509. If `poll` does not return the turn is not finished, and nothing is done. -/
def turn (s0 : Srv) (t : Turn) : Srv :=
  if s0.status ≠ .running then s0
  else
    let s := { s0 with net := events s0.net t.before }
    if s.asleep then s
    else
      let s' := { s with net := events s.net t.between }
      if s.hup then s'.drop
      else if s.knock then s'.accept t.acceptFails
      else if s.pin || s.pri then s'.recv s.pri
      else if s.feed then s'.toSnek
      else if s.pout then s'.toClient
      else if s.errIn then s'.fromErr
      else if s.outIn then s'.fromOut
      else if s.gone then { s' with status := .exited }
      else { s' with status := .exit255 }

/-- The server when it starts. -/
def srv0 : Srv := { net := {} }

def turns (ts : List Turn) : Srv := ts.foldl turn srv0

end Snek.Relay
