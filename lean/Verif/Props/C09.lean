import Verif.Proofs.DemoStore
import Verif.Proofs.StoreSafe
import Verif.Proofs.HeapCmp
/-!
# C09 Augmented assignment to a dictionary entry

The full claim: `d[k] op= v` with `k` present replaces the value by `old op v` and nothing else; with `k` absent it reports an error
and leaves `d` as it was. With `k` absent the code reports an error, but leaves an entry for `k` behind.
-/
namespace Snek.Store
open Spec

variable {E : Env}

/-- A lookup that succeeds finds the slot, whether or not it would have added the key. -/
theorem ref_found {s : S} {i : Nat} {o : LObj} {p v : Val} (ho : s.lst i = some o) (ht : o.type = .dict)
    (h : index E s (.list i) p = some (v, s)) (hab : s.abort = false) :
    ∃ n key, o.data[n]? = some key ∧ n < o.size ∧ E.cmp s.objs p key = 0 ∧ o.data[n + 1]? = some v ∧ ref E s i p true = some (some (n + 1), s) := by
  simp only [index, get, ref, ho, Option.bind_eq_bind, Option.bind_some, if_pos ht, Option.pure_def] at h ⊢
  obtain ⟨⟨r, s2⟩, h1, h⟩ := Option.bind_eq_some_iff.1 h
  obtain ⟨n, hn, h1⟩ := Option.bind_eq_some_iff.1 h1
  simp only [hn, Option.bind_some]
  have bad : ∀ {x}, (some (none, s.fail) : Option (Option Nat × S)) = some x → x = (r, s2) → False := by
    rintro x hx rfl
    simp only [Option.some.injEq, Prod.mk.injEq] at hx
    obtain ⟨rfl, rfl⟩ := hx
    simp only [Option.some.injEq, Prod.mk.injEq] at h
    have := congrArg S.abort h.2
    rw [hab] at this; cases this
  by_cases hlt : n < o.size
  · rw [if_pos hlt] at h1 ⊢
    cases hk : o.data[n]? with
    | none => rw [hk] at h1; cases h1
    | some key =>
      rw [hk] at h1
      simp only [Option.map_some, Option.bind_some] at h1 ⊢
      by_cases hc : E.cmp s.objs p key = 0
      · simp only [hc, decide_true, if_true, Option.some.injEq, Prod.mk.injEq] at h1 ⊢
        obtain ⟨rfl, rfl⟩ := h1
        simp only [ho, Option.bind_some] at h
        obtain ⟨w, hw, h⟩ := Option.bind_eq_some_iff.1 h
        simp only [Option.some.injEq, Prod.mk.injEq] at h
        rw [h.1] at hw
        exact ⟨n, key, hk, hlt, hc, hw, by simp [hlt, hk, hc]⟩
      · simp only [hc, decide_false, Bool.false_eq_true, if_false, Bool.not_false, if_true] at h1
        exact (bad h1 rfl).elim
  · rw [if_neg hlt] at h1
    simp only [Option.bind_some, Bool.false_eq_true, if_false, Bool.not_false, if_true] at h1
    exact (bad h1 rfl).elim

/-- `d[k] op= y` where `d[k]` is the number `x`: exactly one value of the dictionary changes, the one stored under a key equal to
`k`, from `x` to the result of `x op y`; no error, no other object changes. -/
theorem C09_present_number (s : S) (hs : Ok s) (hab : s.abort = false) (i : Nat) (l : List Val) (hl : s.elems i = some (.dict, l)) (p : Val)
    (x y r : BitVec 32) (op : BinOp) (hx : index E s (.list i) p = some (.num x, s)) (hop : numBinary E.powf op x y = .ok r) :
    ∃ n key s', l[n]? = some key ∧ E.cmp s.objs p key = 0 ∧ l[n + 1]? = some (.num x) ∧
      augElem E op (.list i) p (.num y) s = some s' ∧ s'.elems i = some (.dict, l.set (n + 1) (.num r)) ∧ s'.abort = false ∧
      ∀ j, j ≠ i → s'.objs[j]? = s.objs[j]? := by
  obtain ⟨o, ho, hl⟩ := Option.map_eq_some_iff.1 hl
  simp only [Prod.mk.injEq] at hl
  obtain ⟨o1, o2, o3⟩ := hs.1 i o ho
  obtain ⟨n, key, k1, k2, k3, k4, k5⟩ := ref_found ho hl.1 hx hab
  have hn : n + 1 < o.size := by
    have hev := o3 hl.1
    obtain ⟨k, q1, -, q2, q3⟩ := search_even (E.cmp s.objs) o.data p o.size 0 o.size (by omega) rfl hev (by omega) (by omega)
    have : n = k := by
      simp only [ref, ho, Option.bind_eq_bind, Option.bind_some, if_pos hl.1, Option.pure_def, q1] at k5
      by_cases hlt : k < o.size
      · rw [if_pos hlt, List.getElem?_eq_getElem (by omega)] at k5
        simp only [Option.map_some, Option.bind_some] at k5
        split at k5
        · simp only [Option.some.injEq, Prod.mk.injEq] at k5; omega
        · simp only [Bool.not_true, Bool.false_eq_true, if_false] at k5
          split at k5
          · simp at k5
          · obtain ⟨⟨ok, s1⟩, r1, k5⟩ := Option.bind_eq_some_iff.1 k5
            split at k5
            · simp at k5
            · obtain ⟨o', -, k5⟩ := Option.bind_eq_some_iff.1 k5
              split at k5
              · cases k5
              · obtain ⟨d, -, k5⟩ := Option.bind_eq_some_iff.1 k5
                obtain ⟨d', -, k5⟩ := Option.bind_eq_some_iff.1 k5
                simp only [Option.some.injEq, Prod.mk.injEq] at k5; omega
      · rw [if_neg hlt] at k5
        simp only [Option.bind_some, Bool.false_eq_true, if_false, Bool.not_true] at k5
        split at k5
        · simp at k5
        · obtain ⟨⟨ok, s1⟩, r1, k5⟩ := Option.bind_eq_some_iff.1 k5
          split at k5
          · simp at k5
          · obtain ⟨o', -, k5⟩ := Option.bind_eq_some_iff.1 k5
            split at k5
            · cases k5
            · obtain ⟨d, -, k5⟩ := Option.bind_eq_some_iff.1 k5
              obtain ⟨d', -, k5⟩ := Option.bind_eq_some_iff.1 k5
              simp only [Option.some.injEq, Prod.mk.injEq] at k5; omega
    omega
  have hel : elemRef E s (.list i) p = some (some (i, n + 1), s) := by
    simp only [elemRef, ho, hl.1, LType.readonly, Option.bind_eq_bind, Option.bind_some, Option.pure_def, Bool.false_eq_true, if_false, k5]
  obtain ⟨o', w1, w2, w3, w4, w5⟩ := setSlot_ok hs ho hn (.num r)
  refine ⟨n, key, s.setl i o', ?_, k3, ?_, ?_, ?_, hab, fun j hj => ?_⟩
  · rw [← hl.2, List.getElem?_take_of_lt k2]; exact k1
  · rw [← hl.2, List.getElem?_take_of_lt hn]; exact k4
  · simp only [augElem, hel, ho, k4, arith, hop, Option.bind_eq_bind, Option.bind_some, storeElem, w1, resized, ne_eq, not_true, decide_false,
      Bool.false_eq_true, if_false]
  · simp only [S.elems, lst_setl_self ho, Option.map_some, w3, w4, w5, hl.1, ← hl.2, List.take_set]
  · simp only [S.setl]; rw [List.getElem?_set_ne (Ne.symm hj)]

theorem search_congr {α : Type} {cmp cmp' : α → α → Int} (data : List α) (p : α) (m : Nat)
    (h : ∀ k x, k < m → k % 2 = 0 → data[k]? = some x → cmp x p = cmp' x p) :
    ∀ n l r, r - l ≤ n → r ≤ m → Dict.search cmp data p l r = Dict.search cmp' data p l r := by
  intro n
  induction n with
  | zero =>
    intro l r hn _
    rw [Dict.search, Dict.search, dif_neg (by omega), dif_neg (by omega)]
  | succ n ih =>
    intro l r hn hm
    rw [Dict.search, Dict.search]
    by_cases hlr : l < r
    · rw [dif_pos hlr, dif_pos hlr]
      simp only []
      cases hd : data[(l + r) / 2 / 2 * 2]? with
      | none => rfl
      | some x =>
        simp only [h _ x (by omega) (by omega) hd]
        split
        · exact ih _ _ (by omega) hm
        · exact ih _ _ (by omega) (by omega)
    · rw [dif_neg hlr, dif_neg hlr]

mutual
/-- A value that cannot change looks the same after an operation. -/
theorem unfolds_keep {s s' : S} (hf : ∀ (i : Nat) x, s.objs[i]? = some x → Frozen x → s'.objs[i]? = some x) :
    ∀ (t : Tree) (v : Val), t.mutable = false → Unfolds s.objs t v → Unfolds s'.objs t v
  | .num _, _, _, h => h
  | .func _, _, _, h => h
  | .builtin _, _, _, h => h
  | .str b, _, _, ⟨i, h1, h2⟩ => ⟨i, h1, hf i _ h2 trivial⟩
  | .list t l, _, hm, ⟨i, o, h1, h2, h3, h4⟩ => by
    have ht : t = .tuple ∧ anyMutable l = false := by
      cases t <;> simp_all [Tree.mutable, LType.readonly]
    exact ⟨i, o, h1, hf i _ h2 (by simp only [Frozen]; rw [h3, ht.1]), h3, unfoldsL_keep hf l _ ht.2 h4⟩
theorem unfoldsL_keep {s s' : S} (hf : ∀ (i : Nat) x, s.objs[i]? = some x → Frozen x → s'.objs[i]? = some x) :
    ∀ (l : List Tree) (vs : List Val), anyMutable l = false → UnfoldsL s.objs l vs → UnfoldsL s'.objs l vs
  | [], [], _, _ => trivial
  | [], _ :: _, _, h => h
  | _ :: _, [], _, h => h
  | t :: l, v :: vs, hm, h => by
    simp only [anyMutable, Bool.or_eq_false_iff] at hm
    exact ⟨unfolds_keep hf t v hm.1 h.1, unfoldsL_keep hf l vs hm.2 h.2⟩
end

/-- The value cannot change: a number, a string, a function, or a tuple of such. -/
def Constant (s : S) (v : Val) : Prop := ∃ t : Tree, t.mutable = false ∧ Unfolds s.objs t v

section
variable {A : Arch} {powf : BitVec 32 → BitVec 32 → BitVec 32} {fmt : List Obj → List UInt8 → Val → Option (Option (List UInt8))}
  {any : BinOp → BitVec 32 → BitVec 32 → BitVec 32} {anyOff : BitVec 32 → Int}

/-- `d[k] op= v` where `d[k]` is any value `old` and `old op= v` gives `r` without error, changing memory as `old op= v` does (`s1`:
a list is extended in place): exactly one value of the dictionary changes, the one stored under a key equal to `k`, from `old` to `r`; no
error, and all other objects are as `old op= v` leaves them. The keys are constants (C12: others are refused). -/
theorem C09_present (s : S) (hs : Ok s) (hr : Rel True s s) (hab : s.abort = false) (i : Nat) (l : List Val)
    (hl : s.elems i = some (.dict, l)) (hkeys : ∀ n key, n % 2 = 0 → l[n]? = some key → Constant s key) (p v old r : Val) (hp : Constant s p)
    (op : BinOp) (hx : index (.real A powf fmt any anyOff) s (.list i) p = some (old, s)) (hv : VOk s v)
    (hf : arithFits (.real A powf fmt any anyOff) op old v s) (s1 : S)
    (hop : arith (.real A powf fmt any anyOff) op true old v s = some (r, s1)) (hab1 : s1.abort = false) :
    ∃ n key s', n % 2 = 0 ∧ l[n]? = some key ∧ (Env.real A powf fmt any anyOff).cmp s.objs p key = 0 ∧ l[n + 1]? = some old ∧
      augElem (.real A powf fmt any anyOff) op (.list i) p v s = some s' ∧ s1.elems i = some (.dict, l) ∧
      s'.elems i = some (.dict, l.set (n + 1) r) ∧ s'.abort = false ∧ ∀ j, j ≠ i → s'.objs[j]? = s1.objs[j]? := by
  generalize hE : Env.real A powf fmt any anyOff = E at *
  have hl0 := hl
  obtain ⟨o, ho, hl⟩ := Option.map_eq_some_iff.1 hl
  simp only [Prod.mk.injEq] at hl
  obtain ⟨o1, o2, o3⟩ := hs.1 i o ho
  obtain ⟨n, key, k1, k2, k3, k4, k5⟩ := ref_found ho hl.1 hx hab
  obtain ⟨n', q1, -, q2, q3⟩ := search_even (E.cmp s.objs) o.data p o.size 0 o.size (by omega) rfl (o3 hl.1) (by omega) (by omega)
  have hnn : n = n' := by
    have k5 := k5
    simp only [ref, ho, Option.bind_eq_bind, Option.bind_some, if_pos hl.1, Option.pure_def, q1] at k5
    by_cases hlt : n' < o.size
    · rw [if_pos hlt, List.getElem?_eq_getElem (by omega)] at k5
      simp only [Option.map_some, Option.bind_some] at k5
      split at k5
      · simp only [Option.some.injEq, Prod.mk.injEq] at k5; omega
      · simp only [Bool.not_true, Bool.false_eq_true, if_false] at k5
        split at k5
        · simp at k5
        · obtain ⟨⟨ok, s1⟩, r1, k5⟩ := Option.bind_eq_some_iff.1 k5
          split at k5
          · simp at k5
          · obtain ⟨o', -, k5⟩ := Option.bind_eq_some_iff.1 k5
            split at k5
            · cases k5
            · obtain ⟨d, -, k5⟩ := Option.bind_eq_some_iff.1 k5
              obtain ⟨d', -, k5⟩ := Option.bind_eq_some_iff.1 k5
              simp only [Option.some.injEq, Prod.mk.injEq] at k5; omega
    · rw [if_neg hlt] at k5
      simp only [Option.bind_some, Bool.false_eq_true, if_false, Bool.not_true] at k5
      split at k5
      · simp at k5
      · obtain ⟨⟨ok, s1⟩, r1, k5⟩ := Option.bind_eq_some_iff.1 k5
        split at k5
        · simp at k5
        · obtain ⟨o', -, k5⟩ := Option.bind_eq_some_iff.1 k5
          split at k5
          · cases k5
          · obtain ⟨d, -, k5⟩ := Option.bind_eq_some_iff.1 k5
            obtain ⟨d', -, k5⟩ := Option.bind_eq_some_iff.1 k5
            simp only [Option.some.injEq, Prod.mk.injEq] at k5; omega
  subst hnn
  have hn : n + 1 < o.size := by have := o3 hl.1; omega
  have hel : elemRef E s (.list i) p = some (some (i, n + 1), s) := by
    simp only [elemRef, ho, hl.1, LType.readonly, Option.bind_eq_bind, Option.bind_some, Option.pure_def, Bool.false_eq_true, if_false, k5]
  -- the operation on the old value
  have hold : VOk s old := (hr.words trivial i o ho old (List.mem_of_getElem? k4)).vok
  obtain ⟨r', s1', m1, m2, m3⟩ := arith_ok (E := E) (ip := true) hs hold hv hf
  rw [hop] at m1
  obtain ⟨rfl, rfl⟩ : r = r' ∧ s1 = s1' := by simpa using m1
  have ho1 := m3 i o ho hl.1
  have hfr := (arith_rel hr hop).1.froz
  -- the second search
  have hcmp : ∀ a b, Constant s a → Constant s b → E.cmp s1.objs a b = E.cmp s.objs a b := by
    rintro a b ⟨ta, ha, hau⟩ ⟨tb, hb, hbu⟩
    rw [← hE, real_cmp hau hbu, real_cmp (unfolds_keep hfr ta a ha hau) (unfolds_keep hfr tb b hb hbu)]
  have hkey : ∀ k x, k < o.size → k % 2 = 0 → o.data[k]? = some x → Constant s x := fun k x h1 h2 h3 =>
    hkeys k x h2 (by rw [← hl.2, List.getElem?_take_of_lt h1]; exact h3)
  have hs1 : Dict.search (E.cmp s1.objs) o.data p 0 o.size = some n := by
    rw [← q1]
    exact search_congr o.data p o.size (fun k x h1 h2 h3 => hcmp _ _ (hkey k x h1 h2 h3) hp) o.size 0 o.size (by omega) (Nat.le_refl _)
  have hel1 : elemRef E s1 (.list i) p = some (some (i, n + 1), s1) := by
    simp only [elemRef, ref, ho1, hl.1, LType.readonly, Option.bind_eq_bind, Option.bind_some, Option.pure_def, Bool.false_eq_true, if_false,
      if_true, hs1, if_pos k2, k1, Option.map_some, hcmp _ _ hp (hkey n key k2 q3 k1), k3, decide_true]
  obtain ⟨o', w1, w2, w3, w4, w5⟩ := setSlot_ok m2 ho1 hn r
  refine ⟨n, key, s1.setl i o', q3, ?_, k3, ?_, ?_, ?_, ?_, hab1, fun j hj => ?_⟩
  · rw [← hl.2, List.getElem?_take_of_lt k2]; exact k1
  · rw [← hl.2, List.getElem?_take_of_lt hn]; exact k4
  · simp only [augElem, hel, ho, k4, hop, Option.bind_eq_bind, Option.bind_some, storeElem, hel1, w1, resized, ne_eq, not_true, decide_false,
      Bool.false_eq_true, if_false]
  · simp only [S.elems, ho1, Option.map_some, hl.1, hl.2]
  · simp only [S.elems, lst_setl_self ho1, Option.map_some, w3, w4, w5, hl.1, ← hl.2, List.take_set]
  · simp only [S.setl]; rw [List.getElem?_set_ne (Ne.symm hj)]
end

/-- `ref` on a dictionary after its search found position `n`. -/
theorem ref_after {s : S} {i : Nat} {o : LObj} {p : Val} {n : Nat} (ho : s.lst i = some o) (ht : o.type = .dict)
    (hn : Dict.search (E.cmp s.objs) o.data p 0 o.size = some n) (add : Bool) :
    ref E s i p add = (if n < o.size then (o.data[n]?).map (fun x => decide (E.cmp s.objs p x = 0)) else some false).bind fun found =>
      if found then some (some (n + 1), s)
      else if !add then some (none, s.fail)
      else if E.isMut s.objs p then some (none, s.fail)
      else (resize E s i (E.off (o.size + 2))).bind fun x =>
        if !x.1 then some (none, x.2)
        else (x.2.lst i).bind fun o =>
          if o.size < n + 2 then none
          else (mmove o.data (n + 2) n (o.size - n - 2)).bind fun d => (mset d n p).bind fun d =>
            some (some (n + 1), x.2.setl i { o with data := d }) := by
  simp only [ref, ho, Option.bind_eq_bind, Option.bind_some, if_pos ht, Option.pure_def, hn]
  split <;> rfl

/-- `d[k] op= v` with `k` absent always ends with an error, whatever the memory. (It changes the dictionary all the same, see below.) -/
theorem C09_absent_partial (hA : 1 < E.A.offBits) (s : S) (i : Nat) (l : List Val) (hl : s.elems i = some (.dict, l)) (p v : Val) (op : BinOp)
    (hx : index E s (.list i) p = some (Val.none, s.fail)) (hab : s.abort = false) (s' : S)
    (h : augElem E op (.list i) p v s = some s') : s'.abort = true := by
  obtain ⟨o, ho, hl⟩ := Option.map_eq_some_iff.1 hl
  simp only [Prod.mk.injEq] at hl
  simp only [index, get, Option.bind_eq_bind, Option.pure_def] at hx
  simp only [augElem, elemRef, ho, hl.1, LType.readonly, Option.bind_eq_bind, Option.bind_some, Option.pure_def, Bool.false_eq_true, if_false] at h
  obtain ⟨⟨r, s2⟩, h1, hx⟩ := Option.bind_eq_some_iff.1 hx
  obtain ⟨n, hn⟩ : ∃ n, Dict.search (E.cmp s.objs) o.data p 0 o.size = some n := by
    have h1 := h1
    simp only [ref, ho, Option.bind_eq_bind, Option.bind_some, if_pos hl.1] at h1
    obtain ⟨n, hn, -⟩ := Option.bind_eq_some_iff.1 h1
    exact ⟨n, hn⟩
  rw [ref_after ho hl.1 hn] at h1 h
  obtain ⟨found, hf, h1⟩ := Option.bind_eq_some_iff.1 h1
  simp only [hf, Option.bind_some] at h
  have hff : found = false := by
    cases found with
    | false => rfl
    | true =>
      simp only [if_true, Option.some.injEq, Prod.mk.injEq] at h1
      obtain ⟨rfl, rfl⟩ := h1
      simp only [ho, Option.bind_some] at hx
      obtain ⟨w, -, hx⟩ := Option.bind_eq_some_iff.1 hx
      simp only [Option.some.injEq, Prod.mk.injEq] at hx
      have := congrArg S.abort hx.2
      rw [hab] at this; cases this
  subst hff
  simp only [Bool.false_eq_true, if_false, Bool.not_true] at h
  obtain ⟨⟨q, s1⟩, h2, h⟩ := Option.bind_eq_some_iff.1 h
  obtain ⟨⟨q0, s0⟩, h0, h2⟩ := Option.bind_eq_some_iff.1 h2
  split at h0
  · cases h0; cases h2; cases h; rfl
  · obtain ⟨⟨ok, s3⟩, h3, h0⟩ := Option.bind_eq_some_iff.1 h0
    have hres : (ok = false → s3.abort = true) ∧ (ok = true → ∀ o3, s3.lst i = some o3 → o3.size = E.off (o.size + 2)) := by
      simp only [resize, ho, Option.bind_eq_bind, Option.bind_some, Option.pure_def, S.ask, hl.1, LType.readonly, Bool.false_eq_true, if_false] at h3
      split at h3
      · cases h3
        exact ⟨by simp, fun _ o3 h => by rw [lst_setl_self ho] at h; cases h; rfl⟩
      · split at h3
        · rename_i hk
          cases h3
          refine ⟨fun _ => ?_, by simp⟩
          simp only [Bool.or_eq_true]
          exact .inr hk
        · obtain ⟨old, -, h3⟩ := Option.bind_eq_some_iff.1 h3
          obtain ⟨data, -, h3⟩ := Option.bind_eq_some_iff.1 h3
          cases h3
          refine ⟨by simp, fun _ o3 h => ?_⟩
          have h := (lst_setl_self (s := (s.ask (E.off (listAlloc E (E.off (o.size + 2)) * 4))).2) (o := o) ho).symm.trans h
          cases h; rfl
    simp only at h0
    cases ok with
    | false =>
      cases h0; cases h2; cases h
      exact hres.1 rfl
    | true =>
      simp only [Bool.not_true, Bool.false_eq_true, if_false] at h0
      obtain ⟨o3, h4, h0⟩ := Option.bind_eq_some_iff.1 h0
      split at h0
      · cases h0
      · obtain ⟨d, -, h0⟩ := Option.bind_eq_some_iff.1 h0
        obtain ⟨d', -, h0⟩ := Option.bind_eq_some_iff.1 h0
        cases h0; cases h2
        simp only [Option.bind_some] at h
        obtain ⟨o4, h5, h⟩ := Option.bind_eq_some_iff.1 h
        obtain ⟨old, h6, h⟩ := Option.bind_eq_some_iff.1 h
        obtain ⟨⟨r, s5⟩, h7, h⟩ := Option.bind_eq_some_iff.1 h
        have hrs : resized s (s3.setl i { o3 with data := d' }) i = true := by
          simp only [resized, ho, lst_setl_self h4, Option.map_some, hres.2 rfl o3 h4, decide_eq_true_eq, ne_eq, Option.some.injEq]
          intro he
          have hp : 4 ≤ 2 ^ E.A.offBits := Nat.pow_le_pow_right (n := 2) (by omega) (show 2 ≤ E.A.offBits by omega)
          simp only [Env.off] at he
          by_cases hlt : o.size + 2 < 2 ^ E.A.offBits
          · rw [Nat.mod_eq_of_lt hlt] at he; omega
          · have h8 := Nat.mod_lt (o.size + 2) (show 0 < 2 ^ E.A.offBits by omega)
            have h9 := Nat.mod_eq_sub_mod (a := o.size + 2) (b := 2 ^ E.A.offBits) (by omega)
            have h10 := Nat.mod_le (o.size + 2 - 2 ^ E.A.offBits) (2 ^ E.A.offBits)
            omega
        simp only [hrs, if_true] at h
        cases h; rfl

theorem search_done {α : Type} (cmp : α → α → Int) (data : List α) (p : α) (l : Nat) : Dict.search cmp data p l l = some l := by
  rw [Dict.search, dif_neg (Nat.lt_irrefl l)]

theorem search_low {α : Type} (cmp : α → α → Int) (data : List α) (p i : α) (l r o : Nat) (h : l < r) (ho : (l + r) / 2 / 2 * 2 = o)
    (hd : data[o]? = some i) (hc : ¬ cmp i p < 0) : Dict.search cmp data p l r = Dict.search cmp data p l o := by
  rw [Dict.search, dif_pos h]
  simp only [ho, hd, if_neg hc]

/-- A memory holding one dictionary with these entries, as `{k: v, ...}` leaves it. -/
def demoDict (d : List Val) (n alloc : Nat) : S := ⟨[.list ⟨.dict, n, alloc, d⟩], Option.none, fun _ _ => true, 2, false⟩

/-- `d = {1: 2}; d[1] += 1`: the hypotheses hold. -/
example : runOps (demoEnv .posix) [.build .dict [one, two]] demoStart = some (demoDict [one, two, Val.zero, Val.zero, Val.zero] 2 5) ∧
    index (demoEnv .posix) (demoDict [one, two, Val.zero, Val.zero, Val.zero] 2 5) (.list 0) one =
      some (two, demoDict [one, two, Val.zero, Val.zero, Val.zero] 2 5) ∧
    numBinary (demoEnv .posix).powf .plus 0x40000000 0x3f800000 = .ok 0x40400000 := by
  have hc : ∀ objs, (demoEnv .posix).cmp objs one one = 0 := fun objs => by
    simp [demoEnv, Env.real, hcmp, Val.type, one]; decide +kernel
  have hm : ∀ objs, (demoEnv .posix).isMut objs one = false := fun objs => by simp [demoEnv, Env.real, hmut, one]
  refine ⟨?_, ?_, by decide +kernel⟩
  · have e : ∀ l, step (demoEnv .posix) (.build .dict [one, two]) demoStart = l → runOps (demoEnv .posix) [.build .dict [one, two]] demoStart = l := by
      rintro l rfl; cases h : step (demoEnv .posix) (.build .dict [one, two]) demoStart <;> simp [runOps, h]
    apply e
    simp only [step, imm]
    have e1 : make (demoEnv .posix) demoStart ((demoEnv .posix).off [one, two].length) .dict =
      some (some 0, demoDict [Val.zero, Val.zero, Val.zero, Val.zero, Val.zero] 2 5) := rfl
    rw [e1]
    simp [demoDict, S.lst, S.setl, immLoop, pairs, ref, search_done, hm, resize]
    rfl
  · have e : ∀ objs, Dict.search ((demoEnv .posix).cmp objs) [one, two, Val.zero, Val.zero, Val.zero] one 0 2 = some 0 := fun objs => by
      rw [search_low _ _ _ one 0 2 0 (by decide) rfl rfl (by rw [hc]; decide), search_done]
    simp [index, get, ref, demoDict, S.lst, e, hc]

/-- A dictionary `{1: [1]}` and a list `[2]`. -/
def demoNested : S :=
  ⟨[.list ⟨.dict, 2, 5, [one, .list 1, Val.zero, Val.zero, Val.zero]⟩, .list ⟨.list, 1, 4, [one, Val.zero, Val.zero, Val.zero]⟩,
    .list ⟨.list, 1, 4, [two, Val.zero, Val.zero, Val.zero]⟩], Option.none, fun _ _ => true, 2, false⟩

/-- `d[1] += [2]` on it: the hypotheses of `C09_present` hold; the list in the dictionary becomes `[1, 2]`. -/
example : ∃ s', augElem (demoEnv .posix) .plus (.list 0) one (.list 2) demoNested = some s' ∧ s'.elems 0 = some (.dict, [one, .list 1]) ∧
    s'.elems 1 = some (.list, [one, two]) := by
  have hc : ∀ objs, (demoEnv .posix).cmp objs one one = 0 := fun objs => by
    simp [demoEnv, Env.real, hcmp, Val.type, one]; decide +kernel
  have hsr : ∀ objs, Dict.search ((demoEnv .posix).cmp objs) [one, .list 1, Val.zero, Val.zero, Val.zero] one 0 2 = some 0 := fun objs => by
    rw [search_low _ _ _ one 0 2 0 (by decide) rfl rfl (by rw [hc]; decide), search_done]
  have h3 : ∀ i o, demoNested.lst i = some o → i < 3 := fun i o h => (lst_lt h : i < 3)
  have hw : ∀ i o, demoNested.lst i = some o → LOk o ∧ ∀ v ∈ o.data, POk (fun _ => True) demoNested v := by
    intro i o h
    have hp : ∀ o, demoNested.lst 1 = some o → POk (fun _ => True) demoNested (.list 1) := fun o h => ⟨o, h⟩
    have hi := h3 i o h
    have : i = 0 ∨ i = 1 ∨ i = 2 := by omega
    rcases this with rfl | rfl | rfl <;> cases h <;> refine ⟨⟨by decide, rfl, by decide⟩, ?_⟩ <;>
      simp only [List.mem_cons, List.not_mem_nil, or_false] <;> rintro v (rfl | rfl | rfl | rfl | rfl) <;>
      first | trivial | exact hp _ rfl
  obtain ⟨n, key, s', q0, q1, -, q2, q3, q4, q5, -, q6⟩ := C09_present (A := .posix) (powf := (demoEnv .posix).powf) (fmt := (demoEnv .posix).fmt)
    (any := (demoEnv .posix).any) (anyOff := (demoEnv .posix).anyOff) demoNested ⟨fun i o h => (hw i o h).1, fun i h => by cases h⟩
    ⟨.refl _, fun _ _ h _ => h, fun _ i o h => (hw i o h).2, fun i h => by cases h⟩ rfl 0 [one, .list 1] rfl
    (fun n key hn hk => by
      match n, hn with
      | 0, _ => cases hk; exact ⟨.num _, rfl, rfl⟩
      | n + 2, _ => simp at hk)
    one (.list 2) (.list 1) (.list 1) ⟨.num _, rfl, rfl⟩ .plus
    (by
      show index (demoEnv .posix) demoNested (.list 0) one = _
      have l0 : demoNested.lst 0 = some ⟨.dict, 2, 5, [one, .list 1, Val.zero, Val.zero, Val.zero]⟩ := rfl
      simp only [index, get, ref, l0, Option.bind_eq_bind, Option.bind_some, hsr]
      simp [hc, l0])
    ⟨_, rfl⟩ (fun x y hx hy => by cases hx; cases hy; show (_ : Nat) < 2 ^ 32; decide)
    { demoNested with objs := [.list ⟨.dict, 2, 5, [one, .list 1, Val.zero, Val.zero, Val.zero]⟩, .list ⟨.list, 2, 4, [one, two, Val.zero, Val.zero]⟩,
      .list ⟨.list, 1, 4, [two, Val.zero, Val.zero, Val.zero]⟩] } rfl rfl
  have hn : n = 0 := by
    match n, q0 with
    | 0, _ => rfl
    | n + 2, _ => simp at q1
  subst hn
  refine ⟨s', q3, q5, ?_⟩
  have := q6 1 (by decide)
  simp only [S.elems, S.lst, this]
  rfl

/-- `d = {}; d[1] += 1`: the hypothesis of `C09_absent_partial` holds. -/
example : index (demoEnv .posix) (demoDict [] 0 0) (.list 0) one = some (Val.none, (demoDict [] 0 0).fail) := by
  simp [index, get, ref, demoDict, S.lst, search_done]

/-- `d = {}; d[1] += 1` reports an error and creates the entry `1: 0` from the zero in fresh storage. -/
theorem C09_violated_absent : ∃ s', augElem (demoEnv .posix) .plus (.list 0) one one (demoDict [] 0 0) = some s' ∧ s'.abort = true ∧
    s'.elems 0 = some (.dict, [one, Val.zero]) := by
  have hc : ∀ objs, (demoEnv .posix).cmp objs one one = 0 := fun objs => by
    simp [demoEnv, Env.real, hcmp, Val.type, one]; decide +kernel
  have hm : ∀ objs, (demoEnv .posix).isMut objs one = false := fun objs => by simp [demoEnv, Env.real, hmut, one]
  refine ⟨demoDict [one, Val.zero, Val.zero, Val.zero, Val.zero] 2 5 |> (fun s => { s with clock := 3, abort := true }), ?_, rfl, rfl⟩
  have e1 : ref (demoEnv .posix) (demoDict [] 0 0) 0 one true =
      some (some 1, { demoDict [one, Val.zero, Val.zero, Val.zero, Val.zero] 2 5 with clock := 3 }) := by
    simp [ref, demoDict, S.lst, search_done, hm, resize]
    rfl
  have e3 : arith (demoEnv .posix) .plus true Val.zero one { demoDict [one, Val.zero, Val.zero, Val.zero, Val.zero] 2 5 with clock := 3 } =
      some (one, { demoDict [one, Val.zero, Val.zero, Val.zero, Val.zero] 2 5 with clock := 3 }) := by
    have : numBinary (demoEnv .posix).powf .plus 0 0x3f800000 = .ok 0x3f800000 := by decide +kernel
    simp only [arith, Val.zero, one, this]
  have l1 : (demoDict [] 0 0).lst 0 = some ⟨.dict, 0, 0, []⟩ := rfl
  have l2 : S.lst { demoDict [one, Val.zero, Val.zero, Val.zero, Val.zero] 2 5 with clock := 3 } 0 =
    some ⟨.dict, 2, 5, [one, Val.zero, Val.zero, Val.zero, Val.zero]⟩ := rfl
  simp only [augElem, elemRef, l1, l2, LType.readonly, e1, e3, resized, Option.bind_eq_bind, Option.bind_some, Option.pure_def,
    Bool.false_eq_true, if_false, List.getElem?_cons_succ, List.getElem?_cons_zero]
  rfl

/-- `d = {1: 2}; d[0] += 1` reports an error and creates the entry `0: 2` from the value of the entry for 1. -/
theorem C09_violated_neighbour : ∃ s', augElem (demoEnv .posix) .plus (.list 0) Val.zero one (demoDict [one, two, Val.zero, Val.zero, Val.zero] 2 5) = some s' ∧
    s'.abort = true ∧ s'.elems 0 = some (.dict, [Val.zero, two, one, two]) := by
  have hc : ∀ objs, (demoEnv .posix).cmp objs Val.zero Val.zero = 0 := fun objs => by
    simp [demoEnv, Env.real, hcmp, Val.type, Val.zero]; decide +kernel
  have hc1 : ∀ objs, (demoEnv .posix).cmp objs one Val.zero = 1 := fun objs => by
    simp [demoEnv, Env.real, hcmp, Val.type, Val.zero, one]; decide +kernel
  have hc2 : ∀ objs, (demoEnv .posix).cmp objs Val.zero one = -1 := fun objs => by
    simp [demoEnv, Env.real, hcmp, Val.type, Val.zero, one]; decide +kernel
  have hm : ∀ objs, (demoEnv .posix).isMut objs Val.zero = false := fun objs => by simp [demoEnv, Env.real, hmut, Val.zero]
  refine ⟨{ demoDict [Val.zero, two, one, two, Val.zero] 4 5 with abort := true }, ?_, rfl, rfl⟩
  have e1 : ref (demoEnv .posix) (demoDict [one, two, Val.zero, Val.zero, Val.zero] 2 5) 0 Val.zero true =
      some (some 1, demoDict [Val.zero, two, one, two, Val.zero] 4 5) := by
    have e : ∀ objs, Dict.search ((demoEnv .posix).cmp objs) [one, two, Val.zero, Val.zero, Val.zero] Val.zero 0 2 = some 0 := fun objs => by
      rw [search_low _ _ _ one 0 2 0 (by decide) rfl rfl (by rw [hc1]; decide), search_done]
    simp [ref, demoDict, S.lst, e, hm, resize, hc2]
    rfl
  have e3 : arith (demoEnv .posix) .plus true two one (demoDict [Val.zero, two, one, two, Val.zero] 4 5) =
      some (.num 0x40400000, demoDict [Val.zero, two, one, two, Val.zero] 4 5) := by
    have : numBinary (demoEnv .posix).powf .plus 0x40000000 0x3f800000 = .ok 0x40400000 := by decide +kernel
    simp only [arith, two, one, this]
  have l1 : (demoDict [one, two, Val.zero, Val.zero, Val.zero] 2 5).lst 0 = some ⟨.dict, 2, 5, [one, two, Val.zero, Val.zero, Val.zero]⟩ := rfl
  have l2 : (demoDict [Val.zero, two, one, two, Val.zero] 4 5).lst 0 = some ⟨.dict, 4, 5, [Val.zero, two, one, two, Val.zero]⟩ := rfl
  simp only [augElem, elemRef, l1, l2, LType.readonly, e1, e3, resized, Option.bind_eq_bind, Option.bind_some, Option.pure_def,
    Bool.false_eq_true, if_false, List.getElem?_cons_succ, List.getElem?_cons_zero]
  rfl

end Snek.Store
