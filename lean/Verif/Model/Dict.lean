import Verif.Model.Cmp
import Verif.Spec.Dict
/-!
# Dictionaries

Models the dictionary branch of `_snek_list_ref` (snek-list.c:160-209), `snek_list_get` (217-224), `snek_list_del`
(226-250), the dictionary branch of `snek_list_imm` (273-304) and the membership loop of `snek_binary` (snek-exec.c:382-397).

A dictionary is its flat array key, value, key, value, ... (`data`, of length `size`). Everything is parametric in the value type,
in the comparison `cmp` (`snek_poly_cmp(a, b, false)`) and in `isMut` (`snek_mutable`).

Simplifications: allocation succeeds (failure is the subject of C13/C17); offsets are `Nat` (`l + r` is below the number of
words of the pool, so it does not wrap); the contents of the two slots added by `snek_list_resize` are a parameter `junk`
(they are whatever the storage held).
-/
namespace Snek.Dict

variable {α : Type}

/-- The search loop, snek-list.c:169-178. `none` is an out-of-bounds read. -/
def search (cmp : α → α → Int) (data : List α) (p : α) (l r : Nat) : Option Nat :=
  if h : l < r then
    let o := (l + r) / 2 / 2 * 2
    match data[o]? with
    | none => none
    | some i => if cmp i p < 0 then search cmp data p (o + 2) r else search cmp data p l o
  else some l
termination_by r - l
decreasing_by all_goals omega

/-- Result of `_snek_list_ref`: memory fault, `fail` (NULL, after reporting an error if asked to), or the
dictionary's array after a possible insertion and the position of the value slot. -/
inductive Ref (α : Type)
  | fault
  | fail
  | slot (data : List α) (o : Nat)

/-- Insertion, snek-list.c:185-191: grow by two slots, shift the entries from `o` on up by two, write the key. The value slot
keeps what was there: the old word at `o+1` or, at the end, the word of the storage. -/
def insert (junk : α) (data : List α) (o : Nat) (p : α) : List α :=
  data.take o ++ [p, (data[o + 1]?).getD junk] ++ data.drop o

/-- `_snek_list_ref` on a dictionary, snek-list.c:168-193. -/
def ref (cmp : α → α → Int) (isMut : α → Bool) (junk : α) (data : List α) (p : α) (add : Bool) : Ref α :=
  match search cmp data p 0 data.length with
  | none => .fault
  | some o =>
    match data[o]? with
    | some k =>
      if cmp p k ≠ 0 then
        if !add then .fail else if isMut p then .fail else .slot (insert junk data o p) (o + 1)
      else .slot data (o + 1)
    | none => if !add then .fail else if isMut p then .fail else .slot (insert junk data o p) (o + 1)

/-- Outcome of an operation that yields something. -/
inductive Out (β : Type)
  | fault
  | error
  | ok (b : β)
  deriving DecidableEq, Repr

/-- `d[k]` read: `snek_list_get`, snek-list.c:217-224 (the reference is read immediately). -/
def get (cmp : α → α → Int) (isMut : α → Bool) (junk : α) (data : List α) (p : α) : Out α :=
  match ref cmp isMut junk data p false with
  | .fault => .fault
  | .fail => .error
  | .slot d o => match d[o]? with | none => .fault | some v => .ok v

/-- `d[k] = v`: `snek_assign` (snek-exec.c:634,665) with `snek_list_ref`. -/
def store (cmp : α → α → Int) (isMut : α → Bool) (junk : α) (data : List α) (p v : α) : Out (List α) :=
  match ref cmp isMut junk data p true with
  | .fault => .fault
  | .fail => .error
  | .slot d o => if o < d.length then .ok (d.set o v) else .fault

/-- `del d[k]`: `snek_list_del`, snek-list.c:226-250, dictionary case. The list header is assumed not to move during the
insertion a missing key causes (snek-list.c:229 keeps a raw pointer across an allocation). -/
def del (cmp : α → α → Int) (isMut : α → Bool) (junk : α) (data : List α) (p : α) : Out (List α) :=
  match ref cmp isMut junk data p true with
  | .fault => .fault
  | .fail => .error
  | .slot d o => .ok (d.take (o - 1) ++ d.drop (o - 1 + 2))

/-- `k in d`, snek-exec.c:390-396 with step 2. -/
def member (cmp : α → α → Int) (p : α) : List α → Bool
  | k :: _ :: d => if cmp p k = 0 then true else member cmp p d
  | [k] => cmp p k = 0
  | [] => false

/-- The loop of `snek_list_imm` for a dictionary, snek-list.c:286-295: stores the pairs in source order; a refused key is
reported and skipped. -/
def imm (cmp : α → α → Int) (isMut : α → Bool) (junk : α) : List (α × α) → List α → Out (List α)
  | [], data => .ok data
  | (k, v) :: ps, data =>
    match store cmp isMut junk data k v with
    | .fault => .fault
    | .error => imm cmp isMut junk ps data
    | .ok d => imm cmp isMut junk ps d

/-- One statement on the dictionary. A statement that reports an error leaves the array as it was. -/
def step (cmp : α → α → Int) (isMut : α → Bool) (junk : α) (data : List α) : Spec.DictOp α → Option (List α)
  | .store k v => match store cmp isMut junk data k v with | .fault => none | .error => some data | .ok d => some d
  | .del k => match del cmp isMut junk data k with | .fault => none | .error => some data | .ok d => some d

/-- A sequence of statements; `junk n` is what the storage holds when `n` statements remain. -/
def run (cmp : α → α → Int) (isMut : α → Bool) (junk : Nat → α) : List (Spec.DictOp α) → List α → Option (List α)
  | [], d => some d
  | op :: ops, d => (step cmp isMut (junk ops.length) d op).bind (run cmp isMut junk ops)

end Snek.Dict
