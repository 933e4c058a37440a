import Verif.Model.Compile
import Verif.Proofs.Bytecode
/-!
# Structural description of the compiled code

The same code as `Model/Compile` produces, as a list of instructions computed without a buffer. `Proofs/CompRefine` shows
that the bytes are the encoding of this list; `Proofs/CompSim` that running it does what `Spec/Lang` says.
-/
namespace Snek.Lang
open Snek.Vm

/-- Instruction with push flag. -/
abbrev Item := Ins × Bool

/-- Size in bytes. -/
def isz (W : Nat) : List Item → Nat
  | [] => 0
  | it :: l => it.1.size W + isz W l

/-- Encoding. -/
def enc (W : Nat) : List Item → List UInt8
  | [] => []
  | it :: l => encode W it.1 it.2 ++ enc W l

variable (W : Nat) (conv : BitVec 32 → BitVec 8)

mutual
/-- Code of an expression at offset `base`; `p`: push flag of its last instruction; `lk`: not used here. -/
def compE (p : Bool) (base : Nat) : Expr → List Item
  | .num u => [(numIns conv u, p)]
  | .str o => [(.string o, p)]
  | .name x => [(.id x, p)]
  | .unary op e => compE false base e ++ [(.unary op, p)]
  | .binary op a c => compE true base a ++ compE false (base + isz W (compE true base a)) c ++ [(.arith op, p)]
  | .and a c =>
    compE false base a ++
      (.branchFalse (base + isz W (compE false base a) + (1 + W) +
        isz W (compE false (base + isz W (compE false base a) + (1 + W)) c)), false) ::
      (compE false (base + isz W (compE false base a) + (1 + W)) c ++ [(.nop, p)])
  | .or a c =>
    compE false base a ++
      (.branchTrue (base + isz W (compE false base a) + (1 + W) +
        isz W (compE false (base + isz W (compE false base a) + (1 + W)) c)), false) ::
      (compE false (base + isz W (compE false base a) + (1 + W)) c ++ [(.nop, p)])
  | .cmp a r c more =>
    let ca := compE true base a
    let cc := compE false (base + isz W ca) c
    let b2 := base + isz W ca + isz W cc
    let t := b2 + isz W (compMore (fun c => .chain c 0) b2 r more)
    ca ++ (cc ++ (compMore (fun c => .chain c t) b2 r more ++ [(.nop, p)]))
  | .index a i => compE true base a ++ compE false (base + isz W (compE true base a)) i ++ [(.array, p)]
  | .slice a s e t =>
    let ca := compE true base a
    let cs := compOpt (base + isz W ca) s
    let ce := compOpt (base + isz W ca + isz W cs) e
    let ct := compOpt (base + isz W ca + isz W cs + isz W ce) t
    ca ++ (cs ++ (ce ++ (ct ++ [(.slice (sliceFlags s e t), p)])))
  | .call f args named =>
    let cf := compE true base f
    let ca := compArgs (base + isz W cf) args
    let cn := compNamed (base + isz W cf + isz W ca) named
    cf ++ (ca ++ (cn ++ [(.call (args.length + 256 * named.length), p)]))
  | .build k es => compArgs base es ++ [(.mk k es.length, p)]

/-- After the right operand of `r`: the comparison and the further links; `lk c` is the instruction of a non-final link. -/
def compMore (lk : Vm.CmpOp → Ins) (base : Nat) (r : RelOp) : Chain → List Item
  | .nil => [(.rel r, false)]
  | .cons r' c rest =>
    let i := match r with | .cmp o => lk o | _ => lk .eq
    let cc := compE false (base + i.size W) c
    (i, true) :: (cc ++ compMore lk (base + i.size W + isz W cc) r' rest)

/-- An optional operand, pushed. -/
def compOpt (base : Nat) : OptE → List Item
  | .none => []
  | .some e => compE true base e

/-- Operands, each pushed. -/
def compArgs (base : Nat) : Exprs → List Item
  | .nil => []
  | .cons e es => compE true base e ++ compArgs (base + isz W (compE true base e)) es

/-- Named actuals. -/
def compNamed (base : Nat) : Named → List Item
  | .nil => []
  | .cons x e rest =>
    let i := numIns conv (intToF x)
    let ce := compE true (base + i.size W) e
    (i, true) :: (ce ++ compNamed (base + i.size W + isz W ce) rest)
end

/-- Resolve a forward reference. -/
def fwdIns (op t : Nat) : Ins := if op = 58 then .branch t else .chain (Vm.CmpOp.dec (op - 6)) t

/-- `snek_code_patch_forward` on an instruction. -/
def patchItem (kind t : Nat) (it : Item) : Item :=
  match it.1 with
  | .forward f => if f % 256 = kind then (fwdIns (f / 256) t, it.2) else it
  | _ => it

/-- Offset of the code after the jump over an `else` part. -/
def elseOff (base : Nat) : Else → Nat
  | .none => base
  | .els _ => base + (1 + W)
  | .elif .. => base + (1 + W) + (1 + W)

mutual
/-- Code of a statement at offset `base`. -/
def compS (fd : Nat) (base : Nat) : Stmt → List Item
  | .skip => []
  | .line n => [(.line n, false)]
  | .seq a c => compS fd base a ++ compS fd (base + isz W (compS fd base a)) c
  | .expr e => compE W conv false base e
  | .assign op x e => compE W conv false base e ++ [(.assign op x, false)]
  | .assignIdx op a i e =>
    let ca := compE W conv true base a
    let ci := compE W conv true (base + isz W ca) i
    ca ++ (ci ++ (compE W conv false (base + isz W ca + isz W ci) e ++ [(.assign op 0, false)]))
  | .ret .none => [(.null, false), (.ret, false)]
  | .ret (.some e) => compE W conv false base e ++ [(.ret, false)]
  | .brk => [(.forward (fwBreak + 58 * 256), false)]
  | .cont => [(.forward (fwContinue + 58 * 256), false)]
  | .global x => [(.global x, false)]
  | .del x => [(.del x, false)]
  | .delIdx a i =>
    let ca := compE W conv true base a
    ca ++ (compE W conv false (base + isz W ca) i ++ [(.del 0, false)])
  | .assert e => compE W conv false base e ++ [(.assert, false)]
  | .ifs c t els =>
    let cc := compE W conv false base c
    let b1 := base + isz W cc + (1 + W)
    let ct := compS fd b1 t
    let b2 := b1 + isz W ct
    let ce := compElse fd b2 els
    cc ++ (.branchFalse (elseOff W b2 els), false) :: (ct ++ ce).map (patchItem fwIf (b2 + isz W ce))
  | .whil c body els =>
    let cc := compE W conv false base c
    let b1 := base + isz W cc + (1 + W)
    let cb := compS fd b1 body
    let b2 := b1 + isz W cb + (1 + W)
    let ce := compS fd b2 els
    cc ++ (.branchFalse b2, false) ::
      ((cb.map (patchItem fwContinue base)).map (patchItem fwBreak (b2 + isz W ce)) ++ (.branch base, false) :: ce)
  | .forRange x args body els =>
    let ca := compArgs W conv base args
    let b0 := base + isz W ca + (1 + (W + (1 + W)))
    let b1 := b0 + (1 + (W + (1 + W)))
    let cb := compS (fd + 1) b1 body
    let b2 := b1 + isz W cb + (1 + W)
    let ce := compS fd b2 els
    ca ++ (.rangeStart args.length (UInt8.ofNat fd) x, false) :: (.rangeStep b2 (UInt8.ofNat fd) x, false) ::
      ((cb.map (patchItem fwContinue b0)).map (patchItem fwBreak (b2 + isz W ce)) ++ (.branch b0, false) :: ce)
  | .forIn x e body els =>
    let ca := compE W conv false base e
    let z := numIns conv 0
    let b0 := base + isz W ca + (1 + W) + z.size W + (1 + W)
    let b1 := b0 + (1 + (W + (1 + W)))
    let cb := compS (fd + 1) b1 body
    let b2 := b1 + isz W cb + (1 + W)
    let ce := compS fd b2 els
    ca ++ (.assign .plain (forTmp W (UInt8.ofNat fd) 0), false) :: (z, false) ::
      (.assign .plain (forTmp W (UInt8.ofNat fd) 1), false) :: (.inStep b2 (UInt8.ofNat fd) x, false) ::
      ((cb.map (patchItem fwContinue b0)).map (patchItem fwBreak (b2 + isz W ce)) ++ (.branch b0, false) :: ce)

/-- Code of `elif` and `else` parts, starting with the jump that ends the previous block. -/
def compElse (fd : Nat) (base : Nat) : Else → List Item
  | .none => []
  | .els s => (.forward (fwIf + 58 * 256), false) :: compS fd (base + (1 + W)) s
  | .elif l c t rest =>
    let b0 := base + (1 + W) + (1 + W)
    let cc := compE W conv false b0 c
    let b1 := b0 + isz W cc + (1 + W)
    let ct := compS fd b1 t
    (.line l, false) :: (.forward (fwIf + 58 * 256), false) ::
      (cc ++ (.branchFalse (elseOff W (b1 + isz W ct) rest), false) :: (ct ++ compElse fd (b1 + isz W ct) rest))
end

/-- Parameter defaults. -/
def compDefaults (base : Nat) : Named → List Item
  | .nil => []
  | .cons x e rest =>
    let ce := compE W conv false base e
    ce ++ (.assign .named x, false) :: compDefaults (base + isz W ce + (1 + W)) rest

/-- Code of a function. -/
def compF (f : FunDef) : List Item :=
  let cd := compDefaults W conv 0 f.defaults
  let l := cd ++ compS W conv 0 (isz W cd) f.body
  match l.getLast? with
  | some (.ret, _) => l.dropLast
  | _ => l ++ [(.null, false)]

variable {W conv}

@[simp] theorem isz_nil : isz W [] = 0 := rfl
@[simp] theorem isz_cons (it : Item) (l : List Item) : isz W (it :: l) = it.1.size W + isz W l := rfl
@[simp] theorem isz_append (a b : List Item) : isz W (a ++ b) = isz W a + isz W b := by
  induction a with
  | nil => simp
  | cons x a ih => simp [ih]; omega
@[simp] theorem enc_nil : enc W [] = [] := rfl
@[simp] theorem enc_append (a b : List Item) : enc W (a ++ b) = enc W a ++ enc W b := by
  induction a with
  | nil => simp
  | cons x a ih => simp [enc, ih]
@[simp] theorem enc_length (l : List Item) : (enc W l).length = isz W l := by
  induction l with
  | nil => rfl
  | cons x a ih => simp [enc, ih, encode_length]

theorem fwdIns_size (op t : Nat) : (fwdIns op t).size W = 1 + W := by
  unfold fwdIns; split <;> simp [Ins.size, Ins.operands, leBytes_length]

theorem patchItem_size (k t : Nat) (it : Item) : (patchItem k t it).1.size W = it.1.size W := by
  unfold patchItem
  split
  · rename_i f h
    split
    · rw [h]; simp [fwdIns_size]; simp [Ins.size, Ins.operands, leBytes_length]
    · rfl
  · rfl

@[simp] theorem isz_patch (k t : Nat) (l : List Item) : isz W (l.map (patchItem k t)) = isz W l := by
  induction l with
  | nil => rfl
  | cons x l ih => simp [ih, patchItem_size]

end Snek.Lang
