/-!
# A program store

The store holds the bytes up to the first 255, or all of them.
-/
namespace Spec.Eeprom

/-- The program in a memory. -/
def program (mem : List UInt8) : List UInt8 := mem.takeWhile (· ≠ 0xff)

/-- What a sender sends: ^E asks for an answer and is not text, a carriage return stands for a newline. -/
def typed (keys : List UInt8) : List UInt8 := (keys.filter (· ≠ 5)).map fun k => if k = 13 then 10 else k

/-- Text: neither ^D, which ends the program, nor 255, which is the mark of the end in memory. -/
def Text (t : List UInt8) : Prop := ∀ c ∈ t, c ≠ 4 ∧ c ≠ 0xff

end Spec.Eeprom
