import Verif.Proofs.Strings
import Verif.Proofs.DemoVm
/-!
# C33 Scans over compiled code see true instruction boundaries

The scans of the garbage collector (`codeStrings`: which strings does this code refer to; `codeMove`: rewrite those references)
and the scan for the first line of a function (`codeLine`), for commands and functions whose dictionary displays all have an
operand the scanner does not misread (`DictOk`, through `WfS W true`). Jump patching is the subject of C27 to C30.
-/
namespace Snek.Lang
open Snek.Vm

section
variable {W : Nat} {conv : BitVec 32 → BitVec 8}

/-- Programs in which every dictionary display is `DictOk`, not just those where jumps are patched. -/
structure Scannable (W : Nat) (f : FunDef) : Prop where
  defaults : WfNamed W true f.defaults
  body : WfS W true f.body
  first : ∀ x e rest, f.defaults = .cons x e rest → leftCmp e = false
  line : startsLine f.body = true

/-- The line a statement's line mark gives. -/
def firstLine : Stmt → Nat
  | .line n => n
  | .seq a _ => firstLine a
  | _ => 0

theorem compDefaults_scan (base : Nat) (ds : Named) (wf : WfNamed W true ds) : ∀ it ∈ compDefaults W conv base ds, ScanOk it.1 := by
  cases ds with
  | nil => simp [compDefaults]
  | cons x e rest =>
    simp only [compDefaults, List.forall_mem_append, List.forall_mem_cons]
    exact ⟨compE_scan _ _ e wf.2.2.1, trivial, compDefaults_scan _ rest wf.2.2.2⟩

/-- The function's instructions, and that they can be scanned. -/
theorem emitDef_items (hW : 2 ≤ W) (f : FunDef) (h : Scannable W f) (hsz : (emitDef W conv f).length < 256 ^ W - 1) :
    ∃ l, emitDef W conv f = enc W l ∧ (∀ it ∈ l, ScanOk it.1) ∧ (∀ it ∈ l, it.1.Fits W) ∧
      l.filterMap itemStr = strsN f.defaults ++ strsS f.body := by
  obtain ⟨l, hl, hcase⟩ := emitDef_enc (conv := conv) hW f h.defaults h.body h.first h.line
  have hscan : ∀ it ∈ l, ScanOk it.1 := by
    rw [hl]; simp only [List.forall_mem_append]
    exact ⟨compDefaults_scan _ _ h.defaults, compS_scan _ _ _ h.body⟩
  have hstr : l.filterMap itemStr = strsN f.defaults ++ strsS f.body := by
    rw [hl, List.filterMap_append, compDefaults_strs, compS_strs]
  have hfit : isz W l < 256 ^ W → ∀ it ∈ l, it.1.Fits W := by
    intro hs
    rw [hl, isz_append] at hs
    rw [hl]; simp only [List.forall_mem_append]
    exact ⟨compDefaults_fits hW _ _ h.defaults (by omega), compS_fits hW _ _ _ h.body (by omega)⟩
  rcases hcase with ⟨init, hi, he⟩ | ⟨-, he⟩
  · rw [he, enc_length] at hsz
    have := hfit (by rw [hi]; simp [sz_ret]; omega)
    rw [hi] at hscan hstr this
    simp only [List.forall_mem_append] at hscan this
    refine ⟨init, he, hscan.1, this.1, ?_⟩
    rwa [List.filterMap_append, show List.filterMap itemStr [(Ins.ret, false)] = [] from rfl, List.append_nil] at hstr
  · rw [he, enc_length] at hsz
    have := hfit (by simp at hsz; omega)
    refine ⟨l ++ [(.null, false)], he, ?_, ?_, ?_⟩
    · simp only [List.forall_mem_append]; exact ⟨hscan, by simp [ScanOk]⟩
    · simp only [List.forall_mem_append]; exact ⟨this, by simp [Ins.Fits]⟩
    · rwa [List.filterMap_append, show List.filterMap itemStr [(Ins.null, false)] = [] from rfl, List.append_nil]

theorem command_items (hW : 2 ≤ W) (s : Stmt) (h : WfS W true s) (hl : startsLine s = true)
    (hsz : (emitCommand W conv s).length < 256 ^ W) :
    (∀ it ∈ compS W conv 0 0 s, ScanOk it.1) ∧ (∀ it ∈ compS W conv 0 0 s, it.1.Fits W) := by
  rw [emitCommand_enc hW s h hl, enc_length] at hsz
  exact ⟨compS_scan _ _ _ h, compS_fits hW _ _ _ h (by omega)⟩

/-- The collector finds exactly the string constants of a command, in source order. Missing for the full property: dictionary
displays that are not `DictOk`. -/
theorem C33_mark_command_partial (hW : 2 ≤ W) (s : Stmt) (h : WfS W true s) (hl : startsLine s = true)
    (hsz : (emitCommand W conv s).length < 256 ^ W) : codeStrings W (emitCommand W conv s) 0 = strsS s := by
  obtain ⟨h1, h2⟩ := command_items hW s h hl hsz
  rw [emitCommand_enc hW s h hl]
  have := strings_items (by omega) _ h1 h2 []
  simp only [List.nil_append, isz_nil] at this
  rw [this, compS_strs]

/-- The collector finds exactly the string constants of a function: those of the parameter defaults, then those of the body. -/
theorem C33_mark_function_partial (hW : 2 ≤ W) (f : FunDef) (h : Scannable W f) (hsz : (emitDef W conv f).length < 256 ^ W - 1) :
    codeStrings W (emitDef W conv f) 0 = strsN f.defaults ++ strsS f.body := by
  obtain ⟨l, he, h1, h2, h3⟩ := emitDef_items hW f h hsz
  rw [he, ← h3]
  simpa using strings_items (by omega) l h1 h2 []

/-- Rewriting the string references of a command's code for strings that moved gives the code of the command with the moved
strings: nothing else changes. -/
theorem C33_move_command_partial (hW : 2 ≤ W) (g : Nat → Nat) (hg : ∀ o, o < 256 ^ W → g o < 256 ^ W) (s : Stmt) (h : WfS W true s)
    (hl : startsLine s = true) (hsz : (emitCommand W conv s).length < 256 ^ W) :
    codeMove W g (emitCommand W conv s) 0 (emitCommand W conv s).length = emitCommand W conv (mapStrS g s) := by
  obtain ⟨h1, h2⟩ := command_items hW s h hl hsz
  rw [emitCommand_enc hW s h hl, emitCommand_enc hW _ (wfS_mapStr hg true s h) (by rw [startsLine_mapStr]; exact hl), compS_mapStr,
    enc_length]
  simpa using move_items (by omega) g _ h1 h2 []

/-- The same for a function. -/
theorem C33_move_function_partial (hW : 2 ≤ W) (g : Nat → Nat) (hg : ∀ o, o < 256 ^ W → g o < 256 ^ W) (f : FunDef)
    (h : Scannable W f) (hsz : (emitDef W conv f).length < 256 ^ W - 1) :
    codeMove W g (emitDef W conv f) 0 (emitDef W conv f).length = emitDef W conv (mapStrF g f) := by
  have hz : ∀ x e rest, (mapStrF g f).defaults = .cons x e rest → leftCmp e = false := by
    intro x e rest he
    cases hd : f.defaults with
    | nil => simp [mapStrF, hd, mapStrN] at he
    | cons x' e' rest' =>
      simp only [mapStrF, hd, mapStrN, Named.cons.injEq] at he
      rw [← he.2.1, leftCmp_mapStr]
      exact h.first _ _ _ hd
  obtain ⟨l, hl, hcase⟩ := emitDef_enc (conv := conv) hW f h.defaults h.body h.first h.line
  obtain ⟨l', hl', hcase'⟩ := emitDef_enc (conv := conv) hW (mapStrF g f) (wfN_mapStr hg true _ h.defaults)
    (wfS_mapStr hg true _ h.body) hz (by rw [show (mapStrF g f).body = mapStrS g f.body from rfl, startsLine_mapStr]; exact h.line)
  have hll : l' = l.map (itemMap g) := by
    rw [hl', hl]
    simp only [mapStrF, compDefaults_mapStr, compS_mapStr, List.map_append, isz_itemMap]
  have hret : itemMap g (.ret, false) = (.ret, false) := rfl
  have hinv : ∀ it, itemMap g it = (.ret, false) → it = (.ret, false) := by
    rintro ⟨i, p⟩ hi
    cases i <;> simp [itemMap] at hi ⊢
    exact hi
  have hm : ∀ l2, emitDef W conv f = enc W l2 → (∀ it ∈ l2, ScanOk it.1) → (∀ it ∈ l2, it.1.Fits W) →
      codeMove W g (emitDef W conv f) 0 (emitDef W conv f).length = enc W (l2.map (itemMap g)) := by
    intro l2 e h1 h2
    rw [e, enc_length]
    simpa using move_items (by omega) g l2 h1 h2 []
  have hscan : ∀ it ∈ l, ScanOk it.1 := by
    rw [hl]; simp only [List.forall_mem_append]
    exact ⟨compDefaults_scan _ _ h.defaults, compS_scan _ _ _ h.body⟩
  have hfit : isz W l < 256 ^ W → ∀ it ∈ l, it.1.Fits W := by
    intro hs
    rw [hl, isz_append] at hs
    rw [hl]; simp only [List.forall_mem_append]
    exact ⟨compDefaults_fits hW _ _ h.defaults (by omega), compS_fits hW _ _ _ h.body (by omega)⟩
  rcases hcase with ⟨init, hi, he⟩ | ⟨hno, he⟩
  · rw [he, enc_length] at hsz
    have hfit := hfit (by rw [hi]; simp [sz_ret]; omega)
    rw [hi] at hscan hfit
    simp only [List.forall_mem_append] at hscan hfit
    rw [hm init he hscan.1 hfit.1]
    rcases hcase' with ⟨init', hi', he'⟩ | ⟨hno', _⟩
    · rw [he']
      rw [hll, hi, List.map_append, List.map_cons, List.map_nil, hret] at hi'
      rw [(List.append_inj' hi' rfl).1]
    · exact absurd (by rw [hll, hi, List.map_append, List.map_cons, List.map_nil, hret]) (hno' (init.map (itemMap g)))
  · rw [he, enc_length] at hsz
    have hfit := hfit (by simp at hsz; omega)
    rw [hm _ he (by simp only [List.forall_mem_append]; exact ⟨hscan, by simp [ScanOk]⟩)
      (by simp only [List.forall_mem_append]; exact ⟨hfit, by simp [Ins.Fits]⟩)]
    rcases hcase' with ⟨init', hi', _⟩ | ⟨_, he'⟩
    · exfalso
      rw [hll] at hi'
      obtain ⟨a, b, hab, _, hb⟩ := List.map_eq_append_iff.1 hi'
      cases b with
      | nil => simp at hb
      | cons x b =>
        simp only [List.map_cons, List.cons.injEq, List.map_eq_nil_iff] at hb
        rw [hb.2, hinv x hb.1] at hab
        exact hno a hab
    · rw [he', hll]; simp [itemMap]

theorem compS_first (fd base : Nat) (s : Stmt) (hl : startsLine s = true) :
    ∃ rest, compS W conv fd base s = (.line (firstLine s), false) :: rest := by
  cases s with
  | line n => exact ⟨[], by simp [compS, firstLine]⟩
  | seq a b =>
    obtain ⟨r, hr⟩ := compS_first fd base a hl
    exact ⟨_, by simp only [compS, firstLine]; rw [hr]; rfl⟩
  | _ => simp [startsLine] at hl

/-- The line of a function without parameter defaults is the line of its first statement. Missing for the full property:
parameter defaults (the scan for lines does not mask the push flag). -/
theorem C33_line_partial (hW : 2 ≤ W) (f : FunDef) (hb : WfS W false f.body) (hl : startsLine f.body = true) (hd : f.defaults = .nil)
    (hn : firstLine f.body < 256 ^ W) : codeLine W (emitDef W conv f) 0 = firstLine f.body := by
  obtain ⟨l, hl2, hcase⟩ := emitDef_enc (conv := conv) (z := false) hW f (by rw [hd]; exact trivial) hb (by rw [hd]; intro x e rest h; simp at h) hl
  obtain ⟨rest, hr⟩ := compS_first (W := W) (conv := conv) 0 (isz W (compDefaults W conv 0 f.defaults)) f.body hl
  rw [hr, hd] at hl2
  simp only [compDefaults, List.nil_append] at hl2
  have key : ∀ l', codeLine W (enc W ((.line (firstLine f.body), false) :: l')) 0 = firstLine f.body := by
    intro l'
    have e : enc W ((.line (firstLine f.body), false) :: l') = [66] ++ (leBytes W (firstLine f.body) ++ enc W l') := by
      simp [enc, encode, Ins.opcode, Ins.operands]
    rw [codeLine.eq_def, e, if_pos (by simp)]
    simp only [List.cons_append, List.nil_append, List.getElem?_cons_zero, Option.getD_some, UInt8.reduceToNat, if_true]
    have := rd_at [66] (leBytes W (firstLine f.body)) (enc W l') W (leBytes_length _ _)
    simp only [List.cons_append, List.nil_append, List.length_cons, List.length_nil] at this
    rw [this, leNat_leBytes W _ hn]
  rcases hcase with ⟨init, hi, he⟩ | ⟨-, he⟩
  · rw [he]
    cases init with
    | nil => rw [hl2] at hi; simp at hi
    | cons x init =>
      rw [hl2] at hi
      simp only [List.cons_append, List.cons.injEq] at hi
      rw [← hi.1]
      exact key _
  · rw [he, hl2]
    exact key _

end

namespace Demo

/-! ## The hypotheses can be met -/

/-- `if "a" < x: return ["b", {1: "c"}]`, strings at 8, 12 and 16. -/
def strBody : Stmt :=
  .seq (.line 7) (.ifs (.cmp (.str 8) (.cmp .lt) (.name 40) .nil)
    (.seq (.line 8) (.ret (.some (.build .list (.cons (.str 12) (.cons (.build .dict (.cons (.num (lit 1)) (.cons (.str 16) .nil))) .nil)))))) .none)

theorem strBody_wf : WfS 2 true strBody := by
  simp [strBody, WfS, WfE, WfChain, WfElse, WfOpt, WfArgs, Exprs.length, DictOk]
  decide +kernel

/-- The function `def f(p = "d"): ...` with this body, the string at 20. -/
def strFun : FunDef := ⟨.cons 41 (.str 20) .nil, strBody⟩

theorem strFun_ok : Scannable 2 strFun := by
  refine ⟨by simp [strFun, WfNamed, WfE], strBody_wf, ?_, rfl⟩
  intro x e rest h
  simp only [strFun, Named.cons.injEq] at h
  rw [← h.2.1]; rfl

/-- All four strings are found. -/
example : codeStrings 2 (emitDef 2 (fun _ => 0) strFun) 0 = [20, 8, 12, 16] :=
  C33_mark_function_partial (by decide) strFun strFun_ok (by decide +kernel)

/-- All four strings are rewritten. -/
example : codeMove 2 (· - 4) (emitDef 2 (fun _ => 0) strFun) 0 (emitDef 2 (fun _ => 0) strFun).length =
    emitDef 2 (fun _ => 0) (mapStrF (· - 4) strFun) :=
  C33_move_function_partial (by decide) _ (by intro o h; omega) strFun strFun_ok (by decide +kernel)

example : codeStrings 2 (emitCommand 2 (fun _ => 0) strBody) 0 = [8, 12, 16] :=
  C33_mark_command_partial (by decide) strBody strBody_wf rfl (by decide +kernel)

example : codeMove 2 (· - 4) (emitCommand 2 (fun _ => 0) strBody) 0 (emitCommand 2 (fun _ => 0) strBody).length =
    emitCommand 2 (fun _ => 0) (mapStrS (· - 4) strBody) :=
  C33_move_command_partial (by decide) _ (by intro o h; omega) strBody strBody_wf rfl (by decide +kernel)

/-- The line of that function without its default. -/
example : codeLine 2 (emitDef 2 (fun _ => 0) ⟨.nil, strBody⟩) 0 = 7 :=
  C33_line_partial (by decide) ⟨.nil, strBody⟩ (by simp [strBody, WfS, WfE, WfChain, WfElse, WfOpt, WfArgs, Exprs.length, DictOk]; decide +kernel)
    rfl rfl (by decide)

/-! ## The code is wrong for other dictionary displays and defaults -/

/-- `[{1: 1, 2: 2, 3: 3}, "a"]`, the string at 12. -/
def dict3 : Stmt :=
  .seq (.line 1) (.expr (.build .list (.cons (.build .dict (.cons (.num (lit 1)) (.cons (.num (lit 1)) (.cons (.num (lit 2)) (.cons (.num (lit 2))
    (.cons (.num (lit 3)) (.cons (.num (lit 3)) .nil))))))) (.cons (.str 12) .nil))))

/-- The collector does not see the string: it would be freed while the code still refers to it. -/
theorem C33_violated_mark : strsS dict3 = [12] ∧ codeStrings 2 (emitCommand 2 (fun u => BitVec.ofNat 8 (u.toNat / 2 ^ 22 % 4)) dict3) 0 = [] := by
  refine ⟨rfl, by decide +kernel⟩

/-- Nor does it rewrite the reference when the string moves. -/
theorem C33_violated_move : codeMove 2 (fun _ => 8) (emitCommand 2 (fun u => BitVec.ofNat 8 (u.toNat / 2 ^ 22 % 4)) dict3) 0
    (emitCommand 2 (fun u => BitVec.ofNat 8 (u.toNat / 2 ^ 22 % 4)) dict3).length =
    emitCommand 2 (fun u => BitVec.ofNat 8 (u.toNat / 2 ^ 22 % 4)) dict3 := by decide +kernel

/-- `def f(a = 66 + 1):` on line 7 is said to be on line 300. -/
theorem C33_violated_line : codeLine 2 (emitDef 2 (fun u => if u = lit 66 then 66 else 1)
    ⟨.cons 40 (.binary .plus (.num (lit 66)) (.num (lit 1))) .nil, .line 7⟩) 0 = 300 := by decide +kernel

end Demo
end Snek.Lang
