import Verif.Model.Gc
/-!
# The pool as bytes

`snek_alloc` on the bytes of the pool. What a collection does to the bytes is a parameter here (what it does to objects is in `Verif.Model.Gc`).
-/
namespace Snek.Gc

/-- `snek_pool` and `snek_top`. -/
structure Bytes where
  mem : Nat → UInt8
  top : Nat

/-- `memset(addr, '\0', size)`. -/
def zeroFill (mem : Nat → UInt8) (addr size : Nat) : Nat → UInt8 := fun i => if addr ≤ i ∧ i < addr + size then 0 else mem i

/-- Taking the storage, snek-memory.c:727-731. -/
def bumpBytes (s : Bytes) (size : Nat) : Nat × Bytes := (s.top, ⟨zeroFill s.mem s.top size, s.top + size⟩)

/-- `snek_alloc`, snek-memory.c:714-732. `collect style` is `snek_collect`; `none` is NULL. -/
def allocBytes (pool : Nat) (collect : Style → Bytes → Bytes) (s : Bytes) (size : Nat) : Option (Nat × Bytes) :=
  let size := sizeRound size
  if pool - s.top < size then
    let s1 := collect .incremental s
    if pool - s1.top < size then
      let s2 := collect .full s1
      if pool - s2.top < size then none else some (bumpBytes s2 size)
    else some (bumpBytes s1 size)
  else some (bumpBytes s size)

end Snek.Gc
