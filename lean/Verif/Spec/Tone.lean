import Verif.Model.Tone
import Verif.Spec.Number
/-!
# tone

The data sheets: what the timers do with the registers. The manual: a tone of the given frequency.
-/
namespace Spec.Tone
open Snek Snek.Tone

/-- Division of the clock of timer 0 (ATmega328P data sheet, CS02:0). -/
def div8 : Nat → Nat
  | 1 => 1 | 2 => 8 | 3 => 64 | 4 => 256 | 5 => 1024 | _ => 0

/-- The pin of the speaker (PD5, OC0B) changes at each compare match if the pin is an output, the timer's mode is "clear timer on compare match" (WGM01 alone) and
COM0B is 1. The timer counts to OCR0A, so that OCR0B must not be greater. The number of clocks between changes. -/
def sound8 (s : St8) : Option Nat :=
  if (s.g.r .ddrd).getLsbD 5 ∧ (s.g.r .tccr0a).getLsbD 4 ∧ ¬ (s.g.r .tccr0a).getLsbD 5 ∧ (s.g.r .tccr0a).getLsbD 1 ∧ ¬ (s.g.r .tccr0a).getLsbD 0 ∧
      (s.g.r .ocr0b).toNat ≤ (s.g.r .ocr0a).toNat
  then some (div8 s.cs * ((s.g.r .ocr0a).toNat + 1)) else none

/-- Division of the clock of TCA0 (ATmega4809 data sheet, CLKSEL). -/
def div16 : Nat → Nat
  | 0 => 1 | 1 => 2 | 2 => 4 | 3 => 8 | 4 => 16 | 5 => 64 | 6 => 256 | 7 => 1024 | _ => 0

/-- PB2 is a wave with periods of `PER + 1` counts if it is an output, the mode is single slope (CTRLB ends in 3), channel 2 is enabled (bit 6) and its
compare value is neither 0 nor beyond the period. The number of clocks of a period. -/
def sound16 (s : St16) : Option Nat :=
  if (s.p.ddr .pb).getLsbD 2 ∧ (s.p.tcc .tca0).getLsbD 6 ∧ (s.p.tcc .tca0).getLsbD 0 ∧ (s.p.tcc .tca0).getLsbD 1 ∧ ¬ (s.p.tcc .tca0).getLsbD 2 ∧
      0 < (s.p.ocr .tca0 2).toNat ∧ (s.p.ocr .tca0 2).toNat ≤ s.per.toNat
  then some (div16 s.cs * (s.per.toNat + 1)) else none

/-- Clocks for which a channel's output is high in a period of TCA0, of how many. -/
def high16 (s : St16) (ch : Nat) : Nat × Nat := (min (s.p.ocr .tca0 ch).toNat (s.per.toNat + 1), s.per.toNat + 1)

/-- `t` clocks, `c` of which make a second, are the period of frequency `f` (in units of 2^-149 Hz), never too long but for rounding (2^-24), and too short by
at most one clock and a part in `k`. -/
def Pitch (c k t : Nat) (f : Int) : Prop :=
  2 ^ 24 * (t * f) ≤ (2 ^ 24 + 1) * (c * 2 ^ 149) ∧ (2 ^ 24 - 1) * (k * (c * 2 ^ 149)) < 2 ^ 24 * ((t * (k + 1) + k) * f)

/-- The shape of a wave: 256 values for a turn of 2^24. -/
def shape (phase : Nat) : Nat := sine.getD (phase % 2 ^ 24 / 2 ^ 16) 0

/-- So many samples. -/
def ticks : Nat → Dac → Option Dac
  | 0, s => some s
  | n + 1, s => (ticks n s).bind tick

/-- A frequency the code is made for: from 0 to the sample rate. -/
def Audible (hz : BitVec 32) : Prop := hz.toNat % 2 ^ 31 < 0x7f800000 ∧ 0 ≤ f32val hz ∧ f32val hz ≤ 24000 * 2 ^ 149

end Spec.Tone
