import Verif.Proofs.StoreSafe
/-! Concrete environments for the examples about containers. -/
namespace Snek.Store

/-- The code on target `A`, with arbitrary but fixed outcomes of formatting and of undefined conversions. -/
def demoEnv (A : Arch) : Env := Env.real A (fun _ _ => 0) (fun _ _ _ => Option.none) (fun _ _ _ => 0) (fun _ => 0)

/-- Empty memory that never runs out. -/
def demoStart : S := S.start fun _ _ => true

/-- The number 1. -/
def one : Val := .num 0x3f800000
/-- The number 2. -/
def two : Val := .num 0x40000000

end Snek.Store
