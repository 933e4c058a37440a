import Verif.Proofs.Loop
import Verif.Proofs.DemoVm
/-!
# C32 `for` loops visit every element once, in order

About the evaluator of `Spec/Lang.lean`, which C27 and C30 show the compiled code to agree with; its loop steps are the model of
`snek_range_start`, `snek_range_step` and `snek_in_step`. `ForEach` (`Spec/Loop.lean`) says that the body is run once for each
element of a list, in order, with the loop variable bound to it, that `else` runs after the last element and only then, and that
`break`, `return` and errors end the loop. The loops keep their state in variables with reserved names; that no statement, no
function it calls and no nested loop disturbs the state of an enclosing loop is part of what is proved (`keeps`).

Assumptions: variables can be allocated (running out of memory stops the program), no `del` of a variable (it destroys other
variables, C24), the program uses no reserved name (no source name has such an id), at most 256 loops are nested.
-/
namespace Snek.Lang
open Store (Val)
open Snek.Vm Spec

section
variable {σ : Type} {P : Prim σ} {defs : Nat → FunDef}

/-- `for x in range(a, b, t)` visits exactly `rangeElems a b t` in order: bounds and step integers of at most 2^23 in
magnitude, the body does not assign `x`. -/
theorem C32_range (hP : TamePrim P) (hD : TameDefs P.W defs) {d fd x : Nat} {args : Exprs} {body els : Stmt} {s0 s : St σ}
    (ht : TameS P.W fd (.forRange x args body els)) (hs : TameSt P.W s0) {k : Nat} {vs : List Val} {a b t : Int}
    (hargs : evalArgs P defs k d args s0 = .ok vs s) (hvs : RangeArgs a b t vs) (ha : Small a) (hb : Small b) (hst : Small t)
    (h0 : t ≠ 0) (hbody : Leaves P defs d (fd + 1) body x) {n : Nat} {r : R σ Flow}
    (hr : execS P defs n d fd (.forRange x args body els) s0 = r) (hn : r.cut = false) :
    ∃ s1, OnlyVar P.W x s s1 ∧
      ForEach (BindInt P.W x) (fun s r => ∃ m, execS P defs m d (fd + 1) body s = r) (RangeEnd P defs d fd x els)
        (rangeElems a b t) s1 r := by
  simp only [TameS] at ht
  have hi0 := inv_of_tame hs
  have hi := ((keeps P defs hP hD k).args d args s0 ht.2.2.1 hi0 vs s hargs).2.1
  obtain ⟨fr, w, u, l, tt, h1, h2, h3, h4, h5, h6, h7, h8⟩ := rangeStart_eq hP ht.1 ht.2.1 hi hvs ha hst h0
  refine ⟨_, h8, ?_⟩
  cases n with
  | zero => rw [← hr, execS] at hn; simp [R.cut] at hn
  | succ n =>
    rw [execS] at hr
    have hev : evalArgs P defs n d args s0 = .ok vs s := by
      have m1 := evalArgs_more (P := P) (defs := defs) (Nat.le_max_left n k) d args s0
      have m2 := evalArgs_more (P := P) (defs := defs) (Nat.le_max_right n k) d args s0
      rw [hargs] at m2
      rcases m2 with m2 | m2
      · simp [R.cut] at m2
      · rcases m1 with m1 | m1
        · rw [← hr, R.bind_cut m1] at hn; simp at hn
        · rw [m1]; exact m2.symm
    rw [hev] at hr
    simp only [R.bind, h1] at hr
    have hg := rangeStart_good hP hi ht.1 ht.2.1 h1
    exact range_loop hP hD ht.1 ht.2.1 ht.2.2.2.1 hbody hb hst h0 h3 h4 n _ a u r hg.1 (by obtain ⟨a1, a2⟩ := ha; constructor <;> omega)
      h5 h6 h7 h2 hr hn

/-- What `rangeElems` contains: `a + i*t` for `i = 0, 1, ...`, on this side of `b`, and all of these. -/
theorem C32_rangeElems (a b t : Int) (ht : t ≠ 0) :
    (∀ i : Nat, ∀ v, (rangeElems a b t)[i]? = some v → v = a + i * t ∧ (0 < t → v < b) ∧ (t < 0 → b < v)) ∧
    (∀ i : Nat, (0 < t ∧ a + i * t < b ∨ t < 0 ∧ b < a + i * t) → (rangeElems a b t)[i]? = some (a + i * t)) := by
  constructor
  · intro i
    induction i generalizing a with
    | zero =>
      intro v hv
      rw [rangeElems_step a b t ht] at hv
      split at hv
      · simp only [List.getElem?_cons_zero, Option.some.injEq] at hv
        subst hv; simp; omega
      · simp at hv
    | succ i ih =>
      intro v hv
      rw [rangeElems_step a b t ht] at hv
      split at hv
      · rw [List.getElem?_cons_succ] at hv
        obtain ⟨h1, h2⟩ := ih _ _ hv
        refine ⟨?_, h2⟩
        rw [h1, Int.natCast_succ, Int.add_mul]; omega
      · simp at hv
  · intro i
    induction i generalizing a with
    | zero =>
      intro h
      rw [rangeElems_step a b t ht, if_pos (by omega)]
      simp
    | succ i ih =>
      intro h
      have e : a + ((i + 1 : Nat) : Int) * t = a + t + i * t := by rw [Int.natCast_succ, Int.add_mul]; omega
      rw [e] at h ⊢
      have h1 : 0 ≤ (i : Int) := by omega
      rw [rangeElems_step a b t ht, if_pos ?_, List.getElem?_cons_succ]
      · exact ih _ h
      · rcases h with ⟨h, h2⟩ | ⟨h, h2⟩
        · have := Int.mul_nonneg h1 (show 0 ≤ t by omega); left; omega
        · have := Int.mul_nonneg h1 (show 0 ≤ -t by omega); rw [Int.mul_neg] at this; right; omega

/-- `for x in e` visits the elements the container yields, in order, as long as the body does not change the container
(`C`: its contents are as they were). The body may assign `x`. -/
theorem C32_container {ε : Type} {Is : ε → Val → σ → Prop} {C : σ → Prop} (hP : TamePrim P) (hD : TameDefs P.W defs) {d fd x : Nat}
    {e : Expr} {body els : Stmt} {s0 s : St σ} (ht : TameS P.W fd (.forIn x e body els)) (hs : TameSt P.W s0) {k : Nat} {arr : Val}
    (he : evalE P defs k d e s0 = .ok arr s) {es : List ε} (hy : Elements P C Is arr es) (hc : C s.w)
    (hlen : es.length < 2 ^ 24) (hlen2 : (es.length : Int) < 2 ^ (8 * P.W - 1))
    (hC : ∀ m s f t, C s.w → execS P defs m d (fd + 1) body s = .ok f t → C t.w) {n : Nat} {r : R σ Flow}
    (hr : execS P defs n d fd (.forIn x e body els) s0 = r) (hn : r.cut = false) :
    ∃ s1, (∀ y, ¬ Hidden P.W y → s1.read y = s.read y) ∧ C s1.w ∧
      ForEach (BindElem Is C P.W x) (fun s r => ∃ m, execS P defs m d (fd + 1) body s = r) (InEnd P defs C d fd els) es s1 r := by
  simp only [TameS] at ht
  have hi0 := inv_of_tame hs
  obtain ⟨hclean, hi, -⟩ := (keeps P defs hP hD k).e d e s0 ht.2.2.1 hi0 arr s he
  have t0 := tmp_hidden hP.width ht.2.1 (i := 0) (by decide)
  have t1 := tmp_hidden hP.width ht.2.1 (i := 1) (by decide)
  have x2 : forTmp P.W (UInt8.ofNat fd) 0 ≠ forTmp P.W (UInt8.ofNat fd) 1 := by
    have e0 := forTmp_eq hP.width ht.2.1 (i := 0) (by decide)
    have e1 := forTmp_eq hP.width ht.2.1 (i := 1) (by decide)
    omega
  obtain ⟨fr1, a1, a2, a3⟩ := store_good hP (K := fun _ => False) hi (x := forTmp P.W (UInt8.ofNat fd) 0) hclean id
  obtain ⟨fr2, b1, b2, b3⟩ := store_good hP (K := fun _ => False) (s := ⟨fr1, (P.varAlloc s.w).2.2⟩) a3.1
    (x := forTmp P.W (UInt8.ofNat fd) 1) (v := Val.zero) (by decide) id
  have e1 : s.assign P .plain (forTmp P.W (UInt8.ofNat fd) 0) arr = .ok arr ⟨fr1, (P.varAlloc s.w).2.2⟩ := by
    rw [St.assign, assignId]
    simp only [plainStore, a1]
    rfl
  have e2 : (⟨fr1, (P.varAlloc s.w).2.2⟩ : St σ).assign P .plain (forTmp P.W (UInt8.ofNat fd) 1) Val.zero =
      .ok Val.zero ⟨fr2, (P.varAlloc (P.varAlloc s.w).2.2).2.2⟩ := by
    rw [St.assign, assignId]
    simp only [plainStore, b1]
    rfl
  have ra := read_assign s.fr.abs (forTmp P.W (UInt8.ofNat fd) 0) arr
  have rb := read_assign fr1.abs (forTmp P.W (UInt8.ofNat fd) 1) Val.zero
  rw [← a2] at ra
  simp only [] at b2
  rw [← b2] at rb
  refine ⟨⟨fr2, (P.varAlloc (P.varAlloc s.w).2.2).2.2⟩, fun y hh => ?_, hy.alloc _ (hy.alloc _ hc), ?_⟩
  · have y0 : y ≠ forTmp P.W (UInt8.ofNat fd) 0 := fun e => hh (e ▸ t0)
    have y1 : y ≠ forTmp P.W (UInt8.ofNat fd) 1 := fun e => hh (e ▸ t1)
    rw [read_abs, read_abs]
    exact (rb.2 y y1).trans (ra.2 y y0)
  cases n with
  | zero => rw [← hr, execS] at hn; simp [R.cut] at hn
  | succ n =>
    rw [execS] at hr
    have hev : evalE P defs n d e s0 = .ok arr s := by
      have m1 := evalE_more (P := P) (defs := defs) (Nat.le_max_left n k) d e s0
      have m2 := evalE_more (P := P) (defs := defs) (Nat.le_max_right n k) d e s0
      rw [he] at m2
      rcases m2 with m2 | m2
      · simp [R.cut] at m2
      · rcases m1 with m1 | m1
        · rw [← hr, R.bind_cut m1] at hn; simp at hn
        · rw [m1]; exact m2.symm
    rw [hev] at hr
    simp only [R.bind, e1, e2] at hr
    have hloc : LocalVal fr2.abs (forTmp P.W (UInt8.ofNat fd) 1) := by
      rw [b2]; exact localVal_assign P a3.1 t1
    have := in_loop hP hD ht.1 ht.2.1 ht.2.2.2.1 hy hlen hlen2 hC n ⟨fr2, (P.varAlloc (P.varAlloc s.w).2.2).2.2⟩ 0 0 r (by omega)
      b3.1 hloc (hy.alloc _ (hy.alloc _ hc)) (by rw [read_abs]; exact (rb.2 _ x2).trans ra.1) (by rw [read_abs]; exact rb.1)
      (denotes_zero false) hr hn
    rwa [List.drop_zero] at this

/-- Lists and tuples with the contents `data` yield the elements before the first `None` — all of them if there is none. -/
theorem C32_list {C : σ → Prop} {arr : Val} {data : List Val} (halloc : ∀ w, C w → C (P.varAlloc w).2.2)
    (hlen : (data.length : Int) < 2 ^ (8 * P.W)) (hiter : ∀ w i, C w → P.iter arr i w = (some (iterElem P.W false data i), w)) :
    Elements P C (fun e v _ => v = e) arr (data.takeWhile (· ≠ Val.none)) ∧
    (Val.none ∉ data → data.takeWhile (· ≠ Val.none) = data) := by
  have hget : ∀ i : Nat, i ≤ data.length → iterElem P.W false data i = (data[i]?).getD Val.none := by
    intro i hi
    unfold iterElem
    simp only [Bool.false_eq_true, if_false]
    rw [Int.emod_eq_of_lt (by omega) (by omega), Int.toNat_natCast]
  have hpre : ∀ i : Nat, i < (data.takeWhile (· ≠ Val.none)).length → data[i]? = (data.takeWhile (· ≠ Val.none))[i]? := by
    intro i hi
    have := List.takeWhile_append_dropWhile (p := fun v => decide (v ≠ Val.none)) (l := data)
    conv => lhs; rw [← this]
    rw [List.getElem?_append_left hi]
  have hle : (data.takeWhile (· ≠ Val.none)).length ≤ data.length := (List.takeWhile_sublist _).length_le
  refine ⟨⟨?_, ?_, halloc⟩, ?_⟩
  · intro w i e hc he
    have hi : i < (data.takeWhile (· ≠ Val.none)).length := (List.getElem?_eq_some_iff.1 he).1
    refine ⟨e, w, ?_, ?_, hc, rfl⟩
    · rw [hiter w i hc, hget i (by omega), hpre i hi, he]; rfl
    · have hm : e ∈ data.takeWhile (· ≠ Val.none) := List.mem_of_getElem? he
      have : ∀ l : List Val, e ∈ l.takeWhile (· ≠ Val.none) → e ≠ Val.none := by
        intro l
        induction l with
        | nil => simp
        | cons a l ih =>
          rw [List.takeWhile_cons]
          split
          · rename_i h
            intro hm
            rcases List.mem_cons.1 hm with rfl | hm
            · exact of_decide_eq_true h
            · exact ih hm
          · simp
      exact this data hm
  · intro w hc
    refine ⟨w, ?_, hc⟩
    rw [hiter w _ hc, hget _ hle]
    have : ∀ l : List Val, (l[(l.takeWhile (· ≠ Val.none)).length]?).getD Val.none = Val.none := by
      intro l
      induction l with
      | nil => rfl
      | cons a l ih =>
        rw [List.takeWhile_cons]
        split
        · rw [List.length_cons, List.getElem?_cons_succ]; exact ih
        · rename_i h
          simp only [List.length_nil, List.getElem?_cons_zero, Option.getD_some]
          simpa using h
    rw [this]
  · intro hn
    have : ∀ l : List Val, Val.none ∉ l → l.takeWhile (· ≠ Val.none) = l := by
      intro l
      induction l with
      | nil => intro _; rfl
      | cons a l ih =>
        intro h
        rw [List.takeWhile_cons, if_pos (decide_eq_true (show a ≠ Val.none from fun e => h (e ▸ List.mem_cons_self))), ih fun h' => h (List.mem_cons_of_mem _ h')]
    exact this data hn

theorem keysOf_get : ∀ (data : List Val) (i : Nat), data.length % 2 = 0 → (keysOf data)[i]? = data[2 * i]?
  | [], i, _ => by simp [keysOf]
  | [a], i, h => by simp at h
  | a :: b :: rest, 0, _ => by simp [keysOf]
  | a :: b :: rest, i + 1, h => by
    rw [keysOf, List.getElem?_cons_succ, keysOf_get rest i (by simp at h; omega), show 2 * (i + 1) = 2 * i + 1 + 1 by omega,
      List.getElem?_cons_succ, List.getElem?_cons_succ]

theorem keysOf_length (data : List Val) (h : data.length % 2 = 0) : 2 * (keysOf data).length = data.length := by
  match data with
  | [] => rfl
  | [a] => simp at h
  | a :: b :: rest =>
    have := keysOf_length rest (by simp at h; omega)
    simp only [keysOf, List.length_cons]; omega

/-- Dictionaries yield their keys (no `None` among them). -/
theorem C32_dict {C : σ → Prop} {arr : Val} {data : List Val} (halloc : ∀ w, C w → C (P.varAlloc w).2.2)
    (hlen : (data.length : Int) < 2 ^ (8 * P.W)) (heven : data.length % 2 = 0) (hnone : Val.none ∉ keysOf data)
    (hiter : ∀ w i, C w → P.iter arr i w = (some (iterElem P.W true data i), w)) :
    Elements P C (fun e v _ => v = e) arr (keysOf data) := by
  have hl := keysOf_length data heven
  have hget : ∀ i : Nat, i ≤ (keysOf data).length → iterElem P.W true data i = ((keysOf data)[i]?).getD Val.none := by
    intro i hi
    unfold iterElem
    simp only [if_true]
    rw [Int.emod_eq_of_lt (by omega) (by omega), keysOf_get data i heven, show ((i : Int) * 2).toNat = 2 * i by omega]
  refine ⟨?_, ?_, halloc⟩
  · intro w i e hc he
    have hi := (List.getElem?_eq_some_iff.1 he).1
    exact ⟨e, w, by rw [hiter w i hc, hget i (by omega), he]; rfl, fun h => hnone (h ▸ List.mem_of_getElem? he), hc, rfl⟩
  · intro w hc
    refine ⟨w, ?_, hc⟩
    rw [hiter w _ hc, hget _ (Nat.le_refl _), List.getElem?_eq_none (Nat.le_refl _)]
    rfl

/-- Strings yield their characters; `IsChar c v w`: `v` is a one-character string made of `c`. -/
theorem C32_string {C : σ → Prop} {arr : Val} {str : List UInt8} {IsChar : UInt8 → Val → σ → Prop}
    (halloc : ∀ w, C w → C (P.varAlloc w).2.2) (hlen : (str.length : Int) < 2 ^ (8 * P.W))
    (hiter : ∀ w i, C w → match stringAt P.W str i with
      | none => P.iter arr i w = (some Val.none, w)
      | some c => ∃ v w', P.iter arr i w = (some v, w') ∧ v ≠ Val.none ∧ C w' ∧ IsChar c v (P.varAlloc w').2.2) :
    Elements P C IsChar arr str := by
  have hget : ∀ i : Nat, i ≤ str.length → stringAt P.W str i = str[i]? := by
    intro i hi
    unfold stringAt
    simp only []
    rw [if_neg (show ¬ (i : Int) < 0 by omega), Int.emod_eq_of_lt (by omega) (by omega), Int.toNat_natCast]
    split
    · rw [List.getElem?_eq_none (by omega)]
    · exact List.getElem?_append_left (by omega)
  refine ⟨?_, ?_, halloc⟩
  · intro w i e hc he
    have hi := (List.getElem?_eq_some_iff.1 he).1
    have := hiter w i hc
    rw [hget i (by omega), he] at this
    exact this
  · intro w hc
    have := hiter w str.length hc
    rw [hget _ (Nat.le_refl _), List.getElem?_eq_none (Nat.le_refl _)] at this
    exact ⟨w, this, hc⟩

end

/-! ## Instances -/

namespace Demo

/-- The demo machine with addition, and a list `[5, 7, None, 9]` to iterate over. -/
def loopData : List Val := [num 5, num 7, Val.none, num 9]
/-- The operations. -/
def loopP : Prim Log := { prim 256 defs sig with
  arith := fun _ _ a b w => (Val.ofF (fadd (getFloat a).1 (getFloat b).1), false, w)
  unary := fun _ _ w => (some Val.none, w)
  iter := fun _ i w => (some (iterElem 2 false loopData i), w) }

theorem loopP_tame : TamePrim loopP where
  width := by decide
  alloc _ := ⟨rfl, rfl⟩
  rel r a b w v h := by
    simp only [loopP, prim, Option.some.injEq] at h
    rw [← h]; split <;> decide +kernel
  index a b w v h := by simp [loopP, prim] at h
  arith op i a b w := clean_float _
  unary u a w v h := by simp only [loopP, Option.some.injEq] at h; rw [← h]; decide
  slice a b c t w v h := by simp [loopP, prim] at h
  build k l w v h := by simp only [loopP, prim, Option.some.injEq] at h; rw [← h]; decide
  storeIdx op a i x w v h := by simp [loopP, prim] at h
  builtinVal x h := by
    have : x = 0 ∨ x = 1 := by simp only [loopP, prim] at h; omega
    rcases this with rfl | rfl <;> decide
  callBuiltin f a b w v h := by simp only [loopP, prim, Option.some.injEq] at h; rw [← h]; decide
  iter a i w v h := by
    simp only [loopP, Option.some.injEq] at h
    rw [← h]
    unfold iterElem loopData
    simp only []
    generalize Int.toNat _ = k
    match k with
    | 0 => decide +kernel
    | 1 => decide +kernel
    | 2 => decide +kernel
    | 3 => decide +kernel
    | k + 4 => simp; decide

theorem loopDefs_tame : TameDefs loopP.W defs := by
  intro k
  by_cases h : k = 8
  · subst h
    simp [defs, factBody, TameD, TameS, TameE, TameC, TameA, TameN, TameElse, TameO]
  · simp [defs, h, TameD, TameS]

/-- `for x in range(2, 11, 3): total += x`; `x` is name 7, `total` name 9. -/
def sumLoop : Stmt := .forRange 7 (.cons (.num (lit 2)) (.cons (.num (lit 11)) (.cons (.num (lit 3)) .nil)))
  (.assign (.aug .plus) 9 (.name 7)) .skip

/-- Start: `total` is 100. -/
def sumStart : St Log := ⟨⟨[⟨num 100, 9⟩], []⟩, []⟩

theorem sum_leaves (d fd : Nat) : Leaves loopP defs d fd (.assign (.aug .plus) 9 (.name 7)) 7 := by
  intro m s f t hc h
  match m with
  | 0 => simp [execS] at h
  | 1 => simp [execS, evalE, R.bind] at h
  | m + 2 =>
    simp only [execS, evalE] at h
    cases hl : loadName loopP s.fr 7 with
    | none => rw [hl] at h; simp [R.bind, St.fail] at h
    | some v =>
      rw [hl] at h
      simp only [R.bind, St.assign] at h
      have hv : Val.isGlobal v = false := by
        unfold loadName at hl
        cases h7 : loadId s.fr 7 with
        | some u => rw [h7] at hl; simp only [Option.some.injEq] at hl; subst hl; exact hc 7 _ h7
        | none => rw [h7] at hl; simp [loopP, prim] at hl
      rcases ha : assignId loopP (.aug .plus) 9 v s.fr s.w with ⟨_ | r, fr', w'⟩
      · rw [ha] at h; simp at h
      · rw [ha] at h
        simp only [R.ok.injEq] at h
        rw [← h.2, read_abs, read_abs]
        rcases (assignId_ok loopP_tame hv ha).2 with rfl | ⟨u, _, he⟩
        · rfl
        · simp only []
          rw [he]; exact (read_assign _ _ _).2 7 (by decide)

/-- Hypotheses of `C32_range`: the body runs for 2, 5 and 8 (this run does end). -/
example : ∃ r s1, execS loopP defs 20 0 0 sumLoop sumStart = r ∧ r.cut = false ∧ OnlyVar 2 7 sumStart s1 ∧
    ForEach (BindInt 2 7) (fun s r => ∃ m, execS loopP defs m 0 1 (.assign (.aug .plus) 9 (.name 7)) s = r)
      (RangeEnd loopP defs 0 0 7 .skip) [2, 5, 8] s1 r := by
  have hn : ∃ w, value (execS loopP defs 20 0 0 sumLoop sumStart) = some w := ⟨(.normal, []), by decide +kernel⟩
  obtain ⟨w, hw⟩ := hn
  obtain ⟨z, hz, -⟩ := value_ok hw
  have := C32_range (P := loopP) (defs := defs) (s := sumStart) (s0 := sumStart) (d := 0) (fd := 0) (x := 7) (k := 10)
    (vs := [num 2, num 11, num 3]) (a := 2) (b := 11) (t := 3) (args := .cons (.num (lit 2)) (.cons (.num (lit 11)) (.cons (.num (lit 3)) .nil)))
    (body := .assign (.aug .plus) 9 (.name 7)) (els := .skip) loopP_tame loopDefs_tame
    (by refine ⟨by unfold Hidden; decide, by decide, ?_, ?_, trivial⟩
        · simp only [TameA, TameE]; decide
        · exact ⟨by unfold Hidden; decide, trivial⟩)
    ⟨by intro v hv; simp [sumStart] at hv; subst hv; decide +kernel, by intro f hf; simp [sumStart] at hf⟩
    (by simp [evalArgs, evalE, R.bind, needRoom, sumStart, loopP, prim, num])
    ⟨intToF_denotes (by constructor <;> decide), intToF_denotes (by constructor <;> decide), intToF_denotes (by constructor <;> decide)⟩
    (by constructor <;> decide) (by constructor <;> decide) (by constructor <;> decide) (by decide) (sum_leaves _ _) hz rfl
  obtain ⟨s1, h1, h2⟩ := this
  exact ⟨_, s1, hz, rfl, h1, h2⟩

example : rangeElems 2 11 3 = [2, 5, 8] ∧ rangeElems 10 0 (-4) = [10, 6, 2] ∧ rangeElems 5 5 1 = [] := by decide

/-- A list with a `None` in the middle: only what is before it is visited. -/
theorem list_yields : Elements loopP (fun _ => True) (fun e v _ => v = e) (.list 16) [num 5, num 7] := by
  have := (C32_list (P := loopP) (C := fun _ => True) (arr := (.list 16)) (data := loopData) (fun _ _ => trivial) (by decide)
    (fun _ _ _ => rfl)).1
  rwa [show loopData.takeWhile (· ≠ Val.none) = [num 5, num 7] by decide +kernel] at this

/-- `for x in [...]: print(x)` with the list above. -/
def printLoop : Stmt := .forIn 7 (.build .list .nil) (.expr (.call (.name 1) (.cons (.name 7) .nil) .nil)) .skip

/-- Hypotheses of `C32_container`. -/
example : ∃ r s1, execS loopP defs 20 0 0 printLoop sumStart = r ∧ r.cut = false ∧ (∀ y, ¬ Hidden 2 y → s1.read y = sumStart.read y) ∧
    ForEach (BindElem (fun e v _ => v = e) (fun _ => True) 2 7)
      (fun s r => ∃ m, execS loopP defs m 0 1 (.expr (.call (.name 1) (.cons (.name 7) .nil) .nil)) s = r)
      (InEnd loopP defs (fun _ => True) 0 0 .skip) [num 5, num 7] s1 r := by
  have hn : ∃ w, value (execS loopP defs 20 0 0 printLoop sumStart) = some w := ⟨(.normal, [num 5, num 7]), by decide +kernel⟩
  obtain ⟨w, hw⟩ := hn
  obtain ⟨z, hz, -⟩ := value_ok hw
  have := C32_container (P := loopP) (defs := defs) (s := sumStart) (s0 := sumStart) (d := 0) (fd := 0) (x := 7) (k := 10)
    (e := .build .list .nil) (body := .expr (.call (.name 1) (.cons (.name 7) .nil) .nil)) (els := .skip) loopP_tame loopDefs_tame
    (by refine ⟨by unfold Hidden; decide, by decide, trivial, ?_, trivial⟩
        exact ⟨trivial, ⟨trivial, trivial⟩, trivial⟩)
    ⟨by intro v hv; simp [sumStart] at hv; subst hv; decide +kernel, by intro f hf; simp [sumStart] at hf⟩
    (arr := (.list 16))
    (by simp [evalArgs, evalE, R.bind, loopP, prim, St.prim]) list_yields trivial (by decide) (by decide) (fun _ _ _ _ _ _ => trivial)
    hz rfl
  obtain ⟨s1, h1, -, h2⟩ := this
  exact ⟨_, s1, hz, rfl, h1, h2⟩

/-- A `None` element ends the loop: of `[5, 7, None, 9]` the loop prints 5 and 7. -/
theorem C32_violated_none : value (execS loopP defs 20 0 0 printLoop sumStart) = some (.normal, [num 5, num 7]) := by
  decide +kernel

/-- The variable of a range loop is also its counter. Assigning it changes which elements are visited:
`for x in range(0, 10): print(x); x += 4` prints 0 and 5 only. -/
theorem C32_violated_assigned :
    value (execS loopP defs 20 0 0 (.forRange 7 (.cons (.num (lit 0)) (.cons (.num (lit 10)) .nil))
      (.seq (.expr (.call (.name 1) (.cons (.name 7) .nil) .nil)) (.assign (.aug .plus) 7 (.num (lit 4)))) .skip) sumStart) =
    some (.normal, [num 0, num 5]) := by
  decide +kernel

/-- After a completed range loop the variable is past the last element: `for x in range(3): pass`, then `x` is 3. -/
theorem C32_variable_after :
    value (execS loopP defs 20 0 0 (.seq (.forRange 7 (.cons (.num (lit 3)) .nil) .skip .skip)
      (.expr (.call (.name 1) (.cons (.name 7) .nil) .nil))) sumStart) = some (.normal, [num 3]) := by
  decide +kernel

end Demo

end Snek.Lang
