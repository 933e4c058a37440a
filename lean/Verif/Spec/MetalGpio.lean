import Verif.Model.MetalGpio
/-!
# What calls ask of pins

Only the type of the calls is that of the model. Pins are those printed on the board: 0 to 21 except 14; 20 and 21 are the same places
as 18 and 19.
-/
namespace Spec.MetalGpio
open Snek.MetalGpio (Call)

def valid (p : Int) : Prop := 0 ≤ p ∧ p < 22 ∧ p ≠ 14

instance (p : Int) : Decidable (valid p) := by unfold valid; infer_instance

/-- What was asked last: the pin talked to, and for every pin whether it is on, its power and whether it is an output. -/
structure Asked where
  cur : Int
  on : Int → Bool
  power : Int → Nat
  out : Int → Bool

def set {β : Type} (f : Int → β) (q : Int) (v : β) : Int → β := fun p => if p = q then v else f p

def Asked.init : Asked := ⟨0, fun _ => false, fun _ => 255, fun _ => false⟩

def ask (a : Asked) : Call → Asked
  | .talkto p d => if valid p ∧ valid d then { a with cur := p, out := set (set a.out p true) d true } else a
  | .setpower (some v) => { a with power := set a.power a.cur v }
  | .on => { a with on := set a.on a.cur true }
  | .off => { a with on := set a.on a.cur false }
  | .read p => if valid p then { a with out := set a.out p false } else a
  | _ => a

/-- The other name of the same place, if there is one. -/
def twin (p : Int) : Int := if p = 18 then 20 else if p = 19 then 21 else if p = 20 then 18 else if p = 21 then 19 else -1

/-- The call names the pin. -/
def names (q : Int) : Call → Prop
  | .talkto p d => p = q ∨ d = q
  | .read p => p = q
  | _ => False

/-- High if on with some power. -/
def Asked.level (a : Asked) (p : Int) : Bool := a.on p && decide (a.power p ≠ 0)

end Spec.MetalGpio
