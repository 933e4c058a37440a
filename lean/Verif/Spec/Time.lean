import Verif.Model.Time
/-!
# What a clock is

`t` is the number of increments of the hardware counter. The variable `tocks` together with the pending overflow accounts for all
whole turns of the counter.
-/
namespace Snek.Time

/-- The count of turns is right: it lags by one exactly while the overflow interrupt is pending. -/
def Keeps (P : Port) (s : Cpu) : Prop := ∃ k, s.tocks = BitVec.ofNat 32 k ∧ k + (if s.ovf then 1 else 0) = s.t / 2 ^ P.w

/-- `r` is the time, in ticks modulo 2^32, at a moment between `lo` and `hi`. -/
def TimeIn (P : Port) (lo hi : Nat) (r : BitVec 32) : Prop := ∃ T, lo ≤ T ∧ T ≤ hi ∧ r = BitVec.ofNat 32 (T / 2 ^ P.shift)

end Snek.Time
