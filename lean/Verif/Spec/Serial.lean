/-!
# Queues for a serial line

Bytes 17 (XON), 19 (XOFF) and 20 (a probe) are not data; 3 (^C) discards what was received before it.
-/
namespace Spec.Serial

/-- Bytes that are not delivered to the program. -/
def isControl (c : UInt8) : Bool := c = 17 || c = 19 || c = 20

/-- A byte arrives at a queue of `N` places. -/
def arrive (N : Nat) (q : List UInt8) (c : UInt8) : List UInt8 :=
  if c = 3 then [3]
  else if isControl c then q
  else if q.length < N then q ++ [c] else q

/-- XON and XOFF in turn, starting with XON. -/
def alternating (n : Nat) : List UInt8 := (List.range n).map fun i => if i % 2 = 0 then 17 else 19

end Spec.Serial
