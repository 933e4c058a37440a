import Verif.Model.Machine
import Verif.Proofs.DemoVm
/-!
# A small configuration of the whole machine

An AVR with `print`, `len` and `None`, a function `def double(x): return x + x`, and a string constant.
-/
namespace Snek.Machine.Demo
open Store (Val S)
open Snek.Vm Snek.Lang
open Snek.Lang.Demo (lit run)

/-- Names: 1 `print`, 2 `len`, 3 `None`, 4 `end`, 10 `l`, 11 `double`, 12 `x`. -/
def cfg : Cfg Unit where
  A := .avr
  cap := 64
  signedChar := true
  L := ⟨16, fun _ _ => [], fun u => if u = lit 1 then [49] else if u = lit 2 then [50] else [78], fun _ => []⟩
  powf a _ := a
  strtof _ := 0
  any _ _ _ := 0
  anyOff _ := 0
  builtinMax := 5
  table x := if x = 1 then .print else if x = 2 then .len else .const none
  endId := 4
  other _ _ _ _ d := (.none, d)
  beyond _ _ := 1
  word := Val.word
  pad := 0

/-- `return x + x` -/
def defs (_ : Nat) : FunDef := ⟨.nil, .seq (.line 1) (.ret (.some (.binary .plus (.name 12) (.name 12))))⟩

/-- One formal. -/
def sig (_ : Nat) : FuncSig := ⟨[12], 1⟩

/-- The machine. -/
def P : Prim (World Unit) := Machine.prim cfg sig fun k => emitDef 2 (fun _ => 0) (defs k)

theorem compiled : Compiled P (fun _ => 0) defs where
  width := by decide
  code k := rfl
  small k := by simp only [defs]; decide +kernel
  wf k := by
    refine ⟨trivial, ?_, by simp [defs], rfl, fun _ => rfl⟩
    simp [defs, WfS, WfE, WfOpt, P, prim]
    decide +kernel

/-- Memory with the string constant `'hi'`. -/
def st (mem : Nat → Nat → Bool) : S := ⟨[.str [104, 105]], none, mem, 0, false⟩

/-- At the start of a command: `double` is defined. -/
def begin_ (mem : Nat → Nat → Bool) : End (World Unit) := ⟨[⟨.func 0, 11⟩], ⟨st mem, [], (), false, []⟩, 0⟩

/-- `l = double([1, 2])` / `print(l[3], len('hi'))` -/
def cmd : Stmt :=
  .seq (.line 1) (.seq (.assign .plain 10 (.call (.name 11) (.cons (.build .list (.cons (.num (lit 1)) (.cons (.num (lit 2)) .nil))) .nil) .nil))
    (.seq (.line 2) (.expr (.call (.name 1) (.cons (.index (.name 10) (.num (lit 3))) (.cons (.call (.name 2) (.cons (.str 0) .nil) .nil) .nil)) .nil))))

theorem cmd_wf : CmdWf 2 (fun _ => 0) cmd := by
  refine ⟨?_, rfl, by decide +kernel⟩
  simp [cmd, WfS, WfE, WfArgs, WfNamed, Exprs.length, Named.length]; decide +kernel

/-- The output of a finished run, and whether memory was accessed outside of objects. -/
def printed : Out (World Unit) → Option (List UInt8 × Bool)
  | .done _ e => some (e.w.out, e.w.wild)
  | _ => none

/-- The same for a run stopped by an error. -/
def failed : Out (World Unit) → Option (List UInt8 × Bool)
  | .abort e => some (e.w.out, e.w.wild)
  | _ => none

end Snek.Machine.Demo
