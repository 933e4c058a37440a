/-!
# A server that joins clients on a network to one Snek process

The world of the server: clients that connect, send, finish sending, break the connection or take no more bytes, and the Snek process. Nothing here mentions
the code of the server.
-/
namespace Snek.Relay

abbrev Byte := BitVec 8

/-- A client and its connection. -/
structure Client where
  /-- everything it has sent -/
  sent : List Byte := []
  /-- what of it the server has not received -/
  queue : List Byte := []
  /-- everything it has been sent -/
  got : List Byte := []
  /-- it sends no more (FIN) -/
  fin : Bool := false
  /-- it has broken the connection (RST) -/
  reset : Bool := false
  /-- an urgent byte (Ctrl-C) waits -/
  urgent : Bool := false
  /-- its connection takes another byte -/
  room : Bool := true

/-- The network and Snek. -/
structure Net where
  /-- all the clients there have been, by number -/
  clients : List Client := []
  /-- those that wait to be accepted, the first first -/
  backlog : List Nat := []
  /-- Snek runs -/
  alive : Bool := true
  /-- the pipe of its input takes another byte -/
  inRoom : Bool := true
  /-- everything written to its input -/
  fed : List Byte := []
  /-- everything it has written to its output and to its error output -/
  out : List Byte := []
  err : List Byte := []
  /-- what of it has not been taken from the pipes -/
  outq : List Byte := []
  errq : List Byte := []
  /-- signals of interruption it got, and urgent bytes sent -/
  kills : Nat := 0
  urgents : Nat := 0

/-- What can happen at any moment. -/
inductive Ev
  | connect
  | send (k : Nat) (bs : List Byte)
  | urgent (k : Nat)
  | finish (k : Nat)
  | reset (k : Nat)
  | room (k : Nat) (b : Bool)
  | out (bs : List Byte)
  | err (bs : List Byte)
  | inRoom (b : Bool)
  | exit

/-- A client does something. -/
def Net.client (n : Net) (k : Nat) (f : Client → Client) : Net := { n with clients := n.clients.modify k f }

/-- The effect of an event. Whoever has finished sends no more. A second urgent byte takes the place of one that waits. -/
def event (n : Net) : Ev → Net
  | .connect => { n with clients := n.clients ++ [{}], backlog := n.backlog ++ [n.clients.length] }
  | .send k bs => n.client k fun c => if c.fin || c.reset then c else { c with sent := c.sent ++ bs, queue := c.queue ++ bs }
  | .urgent k =>
    match n.clients[k]? with
    | some c => if c.fin || c.reset || c.urgent then n else { n.client k fun c => { c with urgent := true } with urgents := n.urgents + 1 }
    | none => n
  | .finish k => n.client k fun c => { c with fin := true }
  | .reset k => n.client k fun c => { c with reset := true }
  | .room k b => n.client k fun c => { c with room := b }
  | .out bs => if n.alive then { n with out := n.out ++ bs, outq := n.outq ++ bs } else n
  | .err bs => if n.alive then { n with err := n.err ++ bs, errq := n.errq ++ bs } else n
  | .inRoom b => { n with inRoom := b }
  | .exit => { n with alive := false }

def events (n : Net) (es : List Ev) : Net := es.foldl event n

/-- `m` is made of `a` and `b`, each in its order. -/
inductive Shuffle : List Byte → List Byte → List Byte → Prop
  | nil : Shuffle [] [] []
  | left {a b m x} : Shuffle a b m → Shuffle (a ++ [x]) b (m ++ [x])
  | right {a b m x} : Shuffle a b m → Shuffle a (b ++ [x]) (m ++ [x])

/-- The time for which one client is connected, or none is: what Snek was given to read in it, and what was taken from its two outputs. -/
structure Session where
  who : Option Nat := none
  inp : List Byte := []
  out : List Byte := []
  err : List Byte := []
  /-- it ended because the client had finished -/
  finished : Bool := false

/-- What a session that is over amounts to: Snek was given a beginning of what the client sent, all of it if the client finished; and the client got what
Snek wrote in that time, but for at most one byte. A session without a client gave Snek nothing. -/
def Session.Fair (n : Net) (x : Session) : Prop :=
  match x.who with
  | none => x.inp = []
  | some k => ∃ c m, n.clients[k]? = some c ∧ x.inp <+: c.sent ∧ (x.finished = true → x.inp = c.sent) ∧
    Shuffle x.out x.err m ∧ (c.got = m ∨ ∃ b, m = c.got ++ [b])

/-- What a session that is not over amounts to: the same, with at most one byte held in each direction. -/
def Session.Open (n : Net) (x : Session) : Prop :=
  match x.who with
  | none => x.inp = []
  | some k => ∃ c held held', n.clients[k]? = some c ∧ c.sent = x.inp ++ held ++ c.queue ∧ held.length ≤ 1 ∧
    Shuffle x.out x.err (c.got ++ held') ∧ held'.length ≤ 1

/-- All that client `k` has sent in session `x` has been given to Snek. -/
def Session.AllIn (n : Net) (x : Session) (k : Nat) : Prop := ∃ c, n.clients[k]? = some c ∧ x.inp = c.sent

/-- All that Snek has written has been taken, and client `k` has got all of it that was taken in session `x`. -/
def Session.AllOut (n : Net) (x : Session) (k : Nat) : Prop :=
  n.outq = [] ∧ n.errq = [] ∧ ∃ c, n.clients[k]? = some c ∧ Shuffle x.out x.err c.got

/-- The sessions account for everything Snek has read and written: nothing is lost between them, invented, repeated or moved, and no client has two. -/
structure Account (n : Net) (xs : List Session) : Prop where
  fed : n.fed = xs.flatMap (·.inp)
  out : n.out = xs.flatMap (·.out) ++ n.outq
  err : n.err = xs.flatMap (·.err) ++ n.errq
  once : (xs.filterMap (·.who)).Nodup

end Snek.Relay
