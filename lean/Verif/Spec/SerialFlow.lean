/-!
# What a sender that obeys XON and XOFF may do

The receiver has room for `N` bytes. When `N / 2` of them wait unread the sender is to be stopped; it may go on when XON is sent. It
takes a while until the sender knows, so some bytes come late.
-/
namespace Spec.SerialFlow

/-- How many bytes came late; `none`: the sender may send. -/
abbrev Late := Option Nat

/-- May another byte come? Fewer than `N / 2` bytes are late. -/
def mayCome (N : Nat) : Late → Prop
  | none => True
  | some k => k + 1 < N / 2

/-- A byte has come, `unread` bytes wait now. -/
def come (N unread : Nat) : Late → Late
  | none => if N / 2 ≤ unread then some 0 else none
  | some k => some (k + 1)

end Spec.SerialFlow
