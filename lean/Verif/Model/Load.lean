import Verif.Model.Session
import Verif.Model.Layout
import Verif.Model.Compile
/-!
# Loading a file

`snek_parse` (snek-parse.c:221-291) on input that is not interactive: lexer, parser, code generator and machine together. In the C program
a command is run as soon as it is parsed; here the text is parsed first, which makes no difference for texts without syntax errors (the
others are not modelled).
-/
namespace Snek.Session
open Store (Val)
open Snek.Vm Snek.Lang Snek.Parse Snek.Lex

variable {σ μ : Type}

/-- What the actions of `command` do, snek-gram.ll:17-56, with `snek_func_alloc`, snek-func.c:19-35: the code of a statement is run; the
code of a function is stored with its formals in an object `f`, which becomes the value of the function's name; `import` does nothing. -/
inductive Act (P : Prim σ) (conv : BitVec 32 → BitVec 8) (oom : μ) (f : Val) : Cmd → Sess σ μ → Sess σ μ → Prop
  | stat {s v a b} (h : Exec P false (emitCommand P.W conv s) a v b) : Act P conv oom f (.stat s) a b
  | fn {x xs d a} (ht : f.type = .func) (hc : P.code f.ref = emitDef P.W conv d)
      (hs : P.sig f.ref = ⟨xs, xs.length - d.defaults.length⟩) : Act P conv oom f (.fn x xs d) a (store P oom x f a)
  | imp {a} : Act P conv oom f .imp a a

/-- `start`, snek-gram.ll:14-16: one command after the other. After an error `parse` returns (snek-gram.ll:23-24, snek-parse.c:155-157) and
so does `snek_parse` (snek-parse.c:248-249). `place n` is the object made by command number `n`. -/
inductive Acts (P : Prim σ) (conv : BitVec 32 → BitVec 8) (oom : μ) (place : Nat → Val) : Nat → List Cmd → Sess σ μ → Sess σ μ → Prop
  | nil (n s) : Acts P conv oom place n [] s s
  | cons {n c l s t u} (h : Act P conv oom (place n) c s t) (ha : t.abort = false) (r : Acts P conv oom place (n + 1) l t u) :
      Acts P conv oom place n (c :: l) s u
  | stop {n c l s t} (h : Act P conv oom (place n) c s t) (ha : t.abort = true) : Acts P conv oom place n (c :: l) s t

/-- `snek_parse` on a file, snek-parse.c:221-249. -/
inductive Load (P : Prim σ) (conv : BitVec 32 → BitVec 8) (oom : μ) (place : Nat → Val)
    (C : Cfg) (id : List Ch → Nat) (num : List Ch → BitVec 32) (str : List Ch → Nat) (text : List Ch) (s t : Sess σ μ) : Prop
  | mk (k : Nat) (cs : List Cmd) (h : program C id num str k text = some cs) (r : Acts P conv oom place 0 cs (reset s) t)

end Snek.Session
