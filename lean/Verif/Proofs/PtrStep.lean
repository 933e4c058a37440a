import Verif.Proofs.PtrStr
import Verif.Spec.NoGc
/-!
# The operators at addresses
-/
namespace Snek.Ptr
open Store (Val S Obj LObj Env mcpy mread mmove mset lst_iff bytes_iff optList inLoop)

variable {φ δ ρ : Nat → Nat} {v v' : V} {loc loc' : List Val} {H H' : Nat → Nat → Prop} {p p' : P} {K : Coll} {E : Env}

/-- An operation with a result. -/
def Does (v : V) (f : Option (Val × P)) (x : Val) (s' : S) : Prop :=
  ∃ φ' δ' p', f = some (ren φ' x, p') ∧ Sim φ' δ' { v with s := s' } [x] none2 p'

theorem does_val (T : Sim φ δ v loc none2 p) {x : Val} (hx : addr x = none) : Does v (some (x, p)) x v.s :=
  ⟨φ, δ, p, (by cases x <;> simp [addr] at hx <;> rfl), T.locals fun y hy => by simp at hy; subst hy; exact ok_none hx⟩

theorem does_fail (T : Sim φ δ v loc none2 p) {x : Val} (hx : addr x = none) : Does v (some (x, p.fail)) x v.s.fail :=
  ⟨φ, δ, p.fail, (by cases x <;> simp [addr] at hx <;> rfl), T.fail.locals fun y hy => by simp at hy; subst hy; exact ok_none hx⟩

theorem does_err (T : Sim φ δ v loc none2 p) {x : Val} {s' : S} (h : Store.typeErr v.s = some (x, s')) : Does v (typeErr p) x s' := by
  injection h with h; injection h with h1 h2; subst h1 h2
  exact does_fail T rfl

theorem does_list {f : Option (Option Nat × P)} {r : Option Nat} {s' : S}
    (h : ∃ φ' δ' p', f = some (r.map φ', p') ∧ Sim φ' δ' { v with s := s' } (r.toList.map .list) none2 p') :
    Does v (f.bind fun q => some (optList q.1, q.2)) (optList r) s' := by
  obtain ⟨φ1, δ1, p1, e, T1⟩ := h
  refine ⟨φ1, δ1, p1, by rw [e]; cases r <;> rfl, T1.locals fun y hy => ?_⟩
  simp only [List.mem_singleton] at hy
  subst hy
  cases r with
  | none => exact ok_none (x := Val.none) rfl
  | some i => exact ok_loc (by simp [optList])

theorem index_sim (hK : K.Good) (hE : RealCmp E) (T : Sim φ δ v loc none2 p) {a b x : Val} {s' : S}
    (ha : a ∈ v.roots ++ loc) (hb : b ∈ v.roots ++ loc) (room : v.stk.length + 1 < v.cap) (hO : Store.Ok v.s)
    (hr : Store.index E v.s a b = some (x, s')) : Does v (Ptr.index K E p (ren φ a) (ren φ b)) x s' := by
  cases a with
  | list i => exact get_sim hK hE T ha (ok_root hb) room hO hr
  | str i => exact strGet_sim hK T (.root ha rfl) hr
  | num u => exact does_err T hr
  | func u => exact does_err T hr
  | builtin u => exact does_err T hr

theorem arithTimes_sim (hK : K.Good) (T : Sim φ δ v loc none2 p) {a b x : Val} {s' : S} (ns : ∀ i, a ≠ .str i)
    (ha : a ∈ v.roots ++ loc) (room : v.stk.length + 1 < v.cap) (hr : Store.arithTimes E v.s a b = some (x, s')) :
    Does v (Ptr.arithTimes K E p (ren φ a) (ren φ b)) x s' := by
  cases b with
  | num u =>
    simp only [Store.arithTimes] at hr
    show Does v (Ptr.arithTimes K E p (ren φ a) (.num u)) x s'
    simp only [Ptr.arithTimes]
    split at hr
    · rename_i hn
      rw [if_pos hn]
      injection hr with hr; injection hr with h1 h2; subst h1 h2
      exact does_val T rfl
    · rename_i hn
      rw [if_neg hn]
      cases a with
      | list i =>
        simp only [Option.bind_eq_bind] at hr
        obtain ⟨o, ho, hr⟩ := Option.bind_eq_some_iff.mp hr
        obtain ⟨g, l, G⟩ := T.lst (i := i) (.root ha rfl) ho
        simp only [ren, G.hd, G.type, Option.bind_eq_bind, Option.bind_some]
        split at hr
        · rename_i ht
          rw [if_pos ht]
          exact does_err T hr
        · rename_i ht
          rw [if_neg ht]
          obtain ⟨⟨r, s1⟩, h1, hr⟩ := Option.bind_eq_some_iff.mp hr
          injection hr with hr; injection hr with h3 h4; subst h3 h4
          exact does_list (times_sim hK T (.root ha rfl) room h1)
      | str i => exact absurd rfl (ns i)
      | num u => exact does_err T hr
      | func u => exact does_err T hr
      | builtin u => exact does_err T hr
  | list i => exact does_err T hr
  | str i => exact does_err T hr
  | func u => exact does_err T hr
  | builtin u => exact does_err T hr

theorem plus_arith (hK : K.Good) (T : Sim φ δ v loc none2 p) {ip : Bool} {i j : Nat} {x : Val} {s' : S}
    (ha : Val.list i ∈ v.roots ++ loc) (hb : Val.list j ∈ v.roots ++ loc) (room : v.stk.length + 2 < v.cap)
    (hf : ∀ x y, v.s.lst i = some x → v.s.lst j = some y → Store.Fits E (x.size + y.size))
    (hr : Store.arith E .plus ip (.list i) (.list j) v.s = some (x, s')) :
    Does v (Ptr.arith K E .plus ip (.list (φ i)) (.list (φ j)) p) x s' := by
  simp only [Store.arith, Option.bind_eq_bind] at hr
  obtain ⟨a, hla, hr⟩ := Option.bind_eq_some_iff.mp hr
  obtain ⟨b, hlb, hr⟩ := Option.bind_eq_some_iff.mp hr
  obtain ⟨g, l, G⟩ := T.lst (i := i) (.root ha rfl) hla
  obtain ⟨g', l', G'⟩ := T.lst (i := j) (.root hb rfl) hlb
  simp only [Ptr.arith, G.hd, G.type, G'.hd, G'.type, Option.bind_eq_bind, Option.bind_some]
  split at hr
  · rename_i ht
    rw [if_pos ht]
    by_cases hc : (ip && !a.type.readonly) = true
    · simp only [hc, if_true] at hr ⊢
      obtain ⟨⟨r, s1⟩, h1, hr⟩ := Option.bind_eq_some_iff.mp hr
      injection hr with hr; injection hr with h3 h4; subst h3 h4
      exact does_list (append_sim hK T ha hb (by omega) hla hlb (hf a b hla hlb).off h1)
    · simp only [Bool.not_eq_true] at hc
      simp only [hc, Bool.false_eq_true, if_false] at hr ⊢
      obtain ⟨⟨r, s1⟩, h1, hr⟩ := Option.bind_eq_some_iff.mp hr
      injection hr with hr; injection hr with h3 h4; subst h3 h4
      exact does_list (plus_sim hK T (.root ha rfl) (.root hb rfl) room hla hlb h1)
  · rename_i ht
    rw [if_neg ht]
    exact does_err T hr

theorem arith_sim (hK : K.Good) (T : Sim φ δ v loc none2 p) {op : BinOp} {ip : Bool} {a b x : Val} {s' : S}
    (ha : a ∈ v.roots ++ loc) (hb : b ∈ v.roots ++ loc) (room : v.stk.length + 2 < v.cap) (hf : Store.arithFits E op a b v.s)
    (hR : Rooted op a b) (hr : Store.arith E op ip a b v.s = some (x, s')) :
    Does v (Ptr.arith K E op ip (ren φ a) (ren φ b) p) x s' := by
  have nums : ∀ u w, a = .num u → b = .num w → Does v (Ptr.arith K E op ip (ren φ a) (ren φ b) p) x s' := by
    rintro u w rfl rfl
    simp only [Store.arith] at hr
    simp only [ren, Ptr.arith]
    revert hr
    generalize numBinary E.powf op u w = z
    intro hr
    cases z with
    | ok z => injection hr with hr; injection hr with h1 h2; subst h1 h2; exact does_val T rfl
    | error => injection hr with hr; injection hr with h1 h2; subst h1 h2; exact does_fail T rfl
    | undefined => injection hr with hr; injection hr with h1 h2; subst h1 h2; exact does_val T rfl
  cases op with
  | plus =>
    cases a with
    | num u => cases b <;> first | exact nums _ _ rfl rfl | exact does_err T hr
    | str i =>
      cases b with
      | str j => exact strCat_sim hK T (.root ha rfl) (.root hb rfl) (by omega) hr
      | _ => exact does_err T hr
    | list i =>
      cases b with
      | list j => exact plus_arith hK T ha hb room hf hr
      | _ => exact does_err T hr
    | func u => cases b <;> exact does_err T hr
    | builtin u => cases b <;> exact does_err T hr
  | times =>
    cases a with
    | num u =>
      cases b with
      | num w => exact nums _ _ rfl rfl
      | str j => exact hR.elim
      | list j => exact arithTimes_sim (b := .num u) hK T (by simp) hb (by omega) hr
      | func w => exact arithTimes_sim (b := .num u) hK T (by simp) hb (by omega) hr
      | builtin w => exact arithTimes_sim (b := .num u) hK T (by simp) hb (by omega) hr
    | str i => cases b <;> first | exact hR.elim | exact does_err T hr
    | list i =>
      have key := fun b' => arithTimes_sim (E := E) (a := .list i) (b := b') (x := x) (s' := s') hK T (by simp) ha (by omega)
      cases b with
      | num w => exact key (.num w) hr
      | str w => exact key (.str w) hr
      | list w => exact key (.list w) hr
      | func w => exact key (.func w) hr
      | builtin w => exact key (.builtin w) hr
    | func u =>
      have key := fun b' => arithTimes_sim (E := E) (a := .func u) (b := b') (x := x) (s' := s') hK T (by simp) ha (by omega)
      cases b with
      | num w => exact key (.num w) hr
      | str w => exact key (.str w) hr
      | list w => exact key (.list w) hr
      | func w => exact key (.func w) hr
      | builtin w => exact key (.builtin w) hr
    | builtin u =>
      have key := fun b' => arithTimes_sim (E := E) (a := .builtin u) (b := b') (x := x) (s' := s') hK T (by simp) ha (by omega)
      cases b with
      | num w => exact key (.num w) hr
      | str w => exact key (.str w) hr
      | list w => exact key (.list w) hr
      | func w => exact key (.func w) hr
      | builtin w => exact key (.builtin w) hr
  | mod => cases a <;> cases b <;> first | exact hR.elim | exact nums _ _ rfl rfl | exact does_err T hr
  | _ => cases a <;> cases b <;> first | exact nums _ _ rfl rfl | exact does_err T hr

theorem inLoop_map {f g : Val → Val → Int} {a a' : Val} {st : Nat} (hst : 0 < st) : ∀ (n : Nat) {l : List Val}, l.length ≤ n →
    (∀ y ∈ l, f a' (ren φ y) = g a y) → inLoop f a' st hst (l.map (ren φ)) = inLoop g a st hst l := by
  intro n
  induction n with
  | zero => intro l hn _; cases l with | nil => simp [inLoop] | cons _ _ => simp at hn
  | succ n ih =>
    intro l hn h
    cases l with
    | nil => simp [inLoop]
    | cons y l =>
      rw [List.map_cons, inLoop, inLoop, h y (by simp)]
      split
      · rfl
      · rw [← List.map_cons, ← List.map_drop]
        refine ih (by simp at hn ⊢; omega) fun z hz => h z (List.mem_of_mem_drop hz)

theorem isIn_sim (hE : RealCmp E) (T : Sim φ δ v loc none2 p) {pos : Bool} {a b x : Val} {s' : S}
    (ha : a ∈ v.roots ++ loc) (hb : b ∈ v.roots ++ loc) (hr : Store.isIn E pos a b v.s = some (x, s')) :
    Does v (Ptr.isIn pos (ren φ a) (ren φ b) p) x s' := by
  have lst : ∀ j, b = .list j → (∀ u w, ¬(a = .num u ∧ b = .num w)) → Does v (Ptr.isIn pos (ren φ a) (ren φ b) p) x s' := by
    rintro j rfl -
    have hr' : (v.s.lst j).bind (fun o => (mread o.data o.size).bind fun l =>
        some (Store.ofBool (inLoop (E.cmp v.s.objs) a (if o.type = .dict then 2 else 1) (by split <;> omega) l == pos), v.s)) = some (x, s') := by
      cases a <;> exact hr
    obtain ⟨o, ho, hr'⟩ := Option.bind_eq_some_iff.mp hr'
    obtain ⟨l, hl, hr'⟩ := Option.bind_eq_some_iff.mp hr'
    injection hr' with hr'; injection hr' with h1 h2; subst h1 h2
    obtain ⟨g, l0, G⟩ := T.lst (i := j) (.root hb rfl) ho
    have el : ∀ y ∈ l, Ok v loc none2 y := by
      obtain ⟨_, _, _, _, h3⟩ := T.take (i := j) (.root hb rfl) ho
      unfold Store.mread at hl
      split at hl
      · injection hl with hl; subst hl; exact h3
      · cases hl
    have e : Ptr.isIn pos (ren φ a) (ren φ (.list j)) p = some
        (Store.ofBool (inLoop (E.cmp v.s.objs) a (if o.type = .dict then 2 else 1) (by split <;> omega) l == pos), p) := by
      have e1 : Ptr.isIn pos (ren φ a) (ren φ (.list j)) p = (p.hd (φ j)).bind (fun h => (p.wds h).bind fun w => (mread w h.size).bind fun l =>
          some (Store.ofBool (inLoop p.cmp (ren φ a) (if h.type = .dict then 2 else 1) (by split <;> omega) l == pos), p)) := by
        cases a <;> rfl
      rw [e1, G.hd, Option.bind_some, G.wds, Option.bind_some, G.size, G.agree.mread (Nat.le_refl _) (fun _ _ h => h) hl, Option.bind_some]
      simp only [G.type]
      rw [inLoop_map _ _ (Nat.le_refl _) fun y hy => cmp_sim hE T (ok_root ha) (el y hy)]
    rw [e]
    exact does_val T rfl
  cases b with
  | list j => exact lst j rfl (by simp)
  | num w =>
    cases a with
    | num u => injection hr with hr; injection hr with h1 h2; subst h1 h2; exact does_val T rfl
    | _ => exact does_err T hr
  | str j =>
    cases a with
    | str i =>
      simp only [Store.isIn, Option.bind_eq_bind] at hr
      obtain ⟨b, hlb, hr⟩ := Option.bind_eq_some_iff.mp hr
      obtain ⟨a, hla, hr⟩ := Option.bind_eq_some_iff.mp hr
      injection hr with hr; injection hr with h1 h2; subst h1 h2
      simp only [ren, Ptr.isIn, T.bytes (.root ha rfl) hla, T.bytes (.root hb rfl) hlb, Option.bind_eq_bind, Option.bind_some]
      exact does_val T rfl
    | _ => exact does_err T hr
  | func w => cases a <;> exact does_err T hr
  | builtin w => cases a <;> exact does_err T hr

theorem sliceArg_ren (d : Int) (o : Option Val) : Store.sliceArg E d (o.map (ren φ)) = Store.sliceArg E d o := by
  cases o with
  | none => rfl
  | some x => cases x <;> rfl

theorem len_sim (T : Sim φ δ v loc H p) {x : Val} {n : Nat} (hx : Ok v loc H x) (h : Store.len v.s x = some n) : Ptr.len p (ren φ x) = some n := by
  cases x with
  | str i =>
    simp only [Store.len, Option.bind_eq_bind] at h
    obtain ⟨b, hb, h⟩ := Option.bind_eq_some_iff.mp h
    injection h with h; subst h
    simp only [ren, Ptr.len, T.bytes (ok_str hx) hb, Option.bind_eq_bind, Option.bind_some]; rfl
  | list i =>
    simp only [Store.len, Option.bind_eq_bind] at h
    obtain ⟨o, ho, h⟩ := Option.bind_eq_some_iff.mp h
    injection h with h; subst h
    obtain ⟨g, l, G⟩ := T.lst (ok_list hx) ho
    simp only [ren, Ptr.len, G.hd, G.type, G.size, Option.bind_eq_bind, Option.bind_some]; rfl
  | num u => exact h
  | func u => exact h
  | builtin u => exact h

theorem slice_sim (hK : K.Good) (hA : E.A.Valid) (T : Sim φ δ v loc none2 p) {x y : Val} {a b c : Option Val} {s' : S}
    (hx : x ∈ v.roots ++ loc) (room : v.stk.length + 1 < v.cap) (hO : Store.Ok v.s) (hf : Store.sliceFits E x a b c v.s)
    (hr : Store.slice E x a b c v.s = some (y, s')) :
    Does v (Ptr.slice K E (ren φ x) (a.map (ren φ)) (b.map (ren φ)) (c.map (ren φ)) p) y s' := by
  simp only [Store.slice, Option.bind_eq_bind] at hr
  simp only [Ptr.slice, sliceArg_ren, Option.bind_eq_bind]
  have hst : ∀ c : Bool, Sim φ δ { v with s := if c = true then v.s.fail else v.s } loc none2 (if c = true then p.fail else p) ∧
      (if c = true then v.s.fail else v.s).objs = v.s.objs := by
    intro c; cases c
    · exact ⟨T, rfl⟩
    · exact ⟨T.fail, rfl⟩
  obtain ⟨T1, ob⟩ := hst ((Store.sliceArg E 1 c).2 || (Store.sliceArg E E.A.soffNone b).2 || (Store.sliceArg E E.A.soffNone a).2)
  revert T1 ob hr
  generalize hs1 : (if ((Store.sliceArg E 1 c).2 || (Store.sliceArg E E.A.soffNone b).2 || (Store.sliceArg E E.A.soffNone a).2) = true
    then v.s.fail else v.s) = s1
  generalize (if ((Store.sliceArg E 1 c).2 || (Store.sliceArg E E.A.soffNone b).2 || (Store.sliceArg E E.A.soffNone a).2) = true
    then p.fail else p) = p1
  intro hr T1 ob
  have he : s1.empty = v.s.empty := by rw [← hs1]; split <;> rfl
  have hx1 : x ∈ ({ v with s := s1 } : V).roots ++ loc := by simpa only [V.roots, he] using hx
  obtain ⟨n, hn, hr⟩ := Option.bind_eq_some_iff.mp hr
  rw [len_sim T1 (ok_root hx1) hn]
  simp only [Option.bind_some]
  have hn0 : Store.len v.s x = some n := by
    rw [← hn]; cases x <;> simp only [Store.len, Store.lst_congr ob, Store.bytes_congr ob]
  obtain ⟨f1, f2, f3, f4, f5⟩ := hf n hn0
  have ret : ∀ {q : P} {s2 : S}, Sim φ δ { v with s := s2 } loc none2 q → s2.empty = v.s.empty → Does v (some (ren φ x, q)) x s2 := by
    intro q s2 T2 he2
    refine ⟨φ, δ, q, rfl, T2.locals fun y hy => ?_⟩
    simp only [List.mem_singleton] at hy
    subst hy
    exact ok_root (by simpa only [V.roots, he2] using hx)
  split at hr
  · rename_i ht
    rw [if_pos ht]
    injection hr with hr; injection hr with h1 h2; subst h1 h2
    exact ret (s2 := s1.fail) T1.fail he
  · rename_i ht
    rw [if_neg ht]
    obtain ⟨t, hc, hr⟩ := Option.bind_eq_some_iff.mp hr
    simp only [hc, Option.bind_some]
    cases x with
    | str i => exact strSlice_sim (v := { v with s := s1 }) hK T1 (.root hx1 rfl) (by simp only; omega) hr
    | list i =>
      have hP := Store.pow_split (E := E) hA
      have hPn : (2 : Int) ^ E.A.offBits = ((2 ^ E.A.offBits : Nat) : Int) := by push_cast; rfl
      simp only [Store.len, Option.bind_eq_bind] at hn0
      obtain ⟨o, ho, hn0⟩ := Option.bind_eq_some_iff.mp hn0
      obtain ⟨l1, l2, -⟩ := hO.1 _ o ho
      have hbn : n ≤ o.size := by
        injection hn0 with hn0
        split at hn0 <;> omega
      have hl : (o.data.take n).length = n := by rw [List.length_take]; omega
      rw [Store.sliceArg_eq] at ht
      obtain ⟨c', c1, c2, c3, c4, c5⟩ := slice_run E.A hA (o.data.take n) n (by omega) (by omega) _ _ _ ht f2 f3 f4 f5
      rw [Store.sliceArg_eq, Store.sliceArg_eq, Store.sliceArg_eq, c1] at hc
      injection hc with hc
      subst hc
      refine listSlice_sim (v := { v with s := s1 }) hK T1 (.root hx1 rfl) (by simp only; omega)
        (by simp only [Store.lst_congr ob]; exact ho) (Store.sliceLoop_take (L := n) (by rw [List.take_take, Nat.min_eq_left hbn]; exact c3)) hr
    | num u => injection hr with hr; injection hr with h1 h2; subst h1 h2; exact ret T1 he
    | func u => injection hr with hr; injection hr with h1 h2; subst h1 h2; exact ret T1 he
    | builtin u => injection hr with hr; injection hr with h1 h2; subst h1 h2; exact ret T1 he

/-! ## The machine operations -/

/-- A result to the accumulator. -/
theorem Sim.setAcc (T : Sim φ δ v loc none2 p) {x : Val} (hx : Ok v loc none2 x) : Sim φ δ { v with acc := x } [] none2 { p with acc := ren φ x } := by
  refine T.roots rfl rfl ?_ T.stack rfl T.ext T.empty T.mem T.clock T.abort T.cap rfl
  intro y hy
  simp only [V.roots, List.append_nil, List.mem_append, List.mem_cons] at hy
  rcases hy with (h | h | h) | h
  · exact ok_stk h
  · exact h ▸ hx
  · exact ok_ext h
  · exact ok_root (by simp only [V.roots, List.mem_append, List.mem_cons]; exact .inl (.inr h))

/-- The relation after an operation that ends in a state. -/
def Goes (f : Option P) (v : V) : Prop := ∃ φ' δ' p', f = some p' ∧ Sim φ' δ' v [] none2 p'

theorem Does.goes {f : Option (Val × P)} {x : Val} {s' : S} (h : Does v f x s') : Goes (f.map P.res) { v with acc := x, s := s' } := by
  obtain ⟨φ1, δ1, p1, e, T1⟩ := h
  exact ⟨φ1, δ1, _, by rw [e]; rfl, T1.setAcc (ok_loc (by simp))⟩

theorem elemRef_list {ip : Val} {i : Nat} {p1 p2 : P} (h1 : p.pop = some (ip, p1)) (h2 : p1.pop = some (.list i, p2)) :
    Ptr.elemRef K E p = (p2.hd i).bind fun h => if h.type.readonly = true then some (none, p2.fail) else Ptr.ref K E p2 i ip true := by
  simp only [Ptr.elemRef, h1, h2, Option.bind_eq_bind, Option.bind_some]; rfl

theorem elemRef_other {ip lp : Val} {p1 p2 : P} (h1 : p.pop = some (ip, p1)) (h2 : p1.pop = some (lp, p2)) (h : ∀ i, lp ≠ .list i) :
    Ptr.elemRef K E p = some (none, p2.fail) := by
  cases lp <;> first | exact absurd rfl (h _) | (simp only [Ptr.elemRef, h1, h2, Option.bind_eq_bind, Option.bind_some]; rfl)

theorem storeElem_sim (hK : K.Good) (hE : RealCmp E) (T : Sim φ δ v loc none2 p) {ip lp : Val} {l : List Val} {s' : S}
    (h : v.stk = ip :: lp :: l) (room : v.stk.length < v.cap) (hf : Store.dictFits E lp 2 v.s)
    (hr : Store.storeElem E lp ip v.acc v.s = some s') : Goes (Ptr.storeElem K E p) { v with stk := l, s := s' } := by
  obtain ⟨p1, e1, T1, -⟩ := T.pop h
  obtain ⟨p2, e2, T2, -⟩ := T1.pop (v := { v with stk := lp :: l }) rfl
  have nil : ∀ {v' : V} {φ' δ' : Nat → Nat} {loc' : List Val} {q : P}, Sim φ' δ' v' loc' none2 q → Sim φ' δ' v' [] none2 q :=
    fun T' => T'.locals (by simp)
  simp only [Ptr.storeElem, Option.bind_eq_bind]
  simp only [Store.storeElem, Option.bind_eq_bind] at hr
  cases lp with
  | list i =>
    simp only [Store.elemRef, Option.bind_eq_bind] at hr
    rw [elemRef_list e1 e2]
    obtain ⟨q, h1, hr⟩ := Option.bind_eq_some_iff.mp hr
    obtain ⟨o, ho, h1⟩ := Option.bind_eq_some_iff.mp h1
    obtain ⟨g, w, G⟩ := T2.lst (i := i) (.root (x := .list i) (by simp) rfl) ho
    simp only [G.hd, G.type, Option.bind_some]
    split at h1
    · rename_i ht
      injection h1 with h1; subst h1; injection hr with hr; subst hr
      rw [if_pos ht]
      exact ⟨φ, δ, p2.fail, rfl, nil T2.fail⟩
    · rename_i ht
      rw [if_neg ht]
      obtain ⟨⟨r, s1⟩, h2, h1⟩ := Option.bind_eq_some_iff.mp h1
      have hl : l.length + 1 < v.cap := by rw [h] at room; simp at room; omega
      obtain ⟨φ1, δ1, p3, e3, T3⟩ := ref_sim (x := ip) hK hE T2 (by simp) (ok_loc (by simp)) ho (fun ht _ => (hf o ho ht).off) hl h2
      rw [e3]
      cases r with
      | none =>
        injection h1 with h1; subst h1; injection hr with hr; subst hr
        refine ⟨φ1, δ1, p3, rfl, nil (T3.more fun j m o _ _ hh => ?_)⟩
        cases hh.2.1
      | some k =>
        injection h1 with h1; subst h1
        simp only at hr
        simp only [Option.map_some, Option.bind_some, T3.acc]
        obtain ⟨p4, e4, T4⟩ := setSlot_sim (k := k) (y := v.acc) T3 (ok_list (ok_loc (by simp))) ok_acc hr
        refine ⟨φ1, δ1, p4, e4, nil (T4.more fun j m o _ _ hh => ?_)⟩
        obtain ⟨⟨h1, h2, -⟩, h3⟩ := hh
        injection h2 with h2
        exact h3 ⟨h1, h2.symm⟩
  | _ => injection hr with hr; subst hr; rw [elemRef_other e1 e2 (by rintro i ⟨⟩)]; exact ⟨φ, δ, p2.fail, rfl, nil T2.fail⟩

theorem present_size {s s' : S} {l i : Val} {j k : Nat} {o o' : LObj} (h : Present E s l i) (hl : l = .list j) (ho : s.lst j = some o)
    (hr : Store.ref E s j i true = some (some k, s')) (ho' : s'.lst j = some o') : o'.size < o.size + 2 := by
  have := h j k s' hl hr
  simp only [Store.resized, ho, ho', Option.map_some, decide_eq_false_iff_not, ne_eq, Classical.not_not, Option.some.injEq] at this
  omega

theorem delElem_sim (hK : K.Good) (hE : RealCmp E) (T : Sim φ δ v loc none2 p) {lp : Val} {l : List Val} {s' : S}
    (h : v.stk = lp :: l) (room : v.stk.length < v.cap) (hO : Store.Ok v.s) (hf : Store.dictFits E lp 2 v.s) (hp : Present E v.s lp v.acc)
    (hr : Store.delElem E lp v.acc v.s = some s') : Goes (Ptr.delElem K E p) { v with stk := l, s := s' } := by
  obtain ⟨p1, e1, T1, -⟩ := T.pop h
  simp only [Ptr.delElem, e1, Option.bind_eq_bind, Option.bind_some]
  cases lp with
  | list i =>
    simp only [Store.delElem] at hr
    simp only [ren]
    obtain ⟨o, ho⟩ : ∃ o, v.s.lst i = some o := by
      cases ho : v.s.lst i with
      | none => simp [Store.del, Store.ref, ho] at hr
      | some o => exact ⟨o, rfl⟩
    have hl : l.length + 1 < v.cap := by rw [h] at room; simpa using room
    have := del_sim (x := v.acc) hK hE T1 (by simp) ok_acc hl hO ho (fun ht => (hf o ho ht).off)
      (fun k s1 o1 a b => present_size hp rfl ho a b) hr
    rw [show ren φ v.acc = p1.acc from T1.acc.symm] at this
    exact this
  | _ => injection hr with hr; subst hr; exact ⟨φ, δ, p1.fail, rfl, T1.fail.locals (by simp)⟩

theorem augElem_sim (hK : K.Good) (hE : RealCmp E) (T : Sim φ δ v loc none2 p) {op : BinOp} {ip lp : Val} {l : List Val} {v' : V}
    (h : v.stk = ip :: lp :: l) (room : v.Room) (hO : Store.Ok v.s) (hf : (Store.Op.aug op lp ip v.acc).fits E v.s) (hp : Present E v.s lp ip)
    (hR : ∀ j k s' o old, Store.elemRef E v.s lp ip = some (some (j, k), s') → s'.lst j = some o → o.data[k]? = some old → Rooted op old v.acc)
    (hf2 : ∀ x s2 j k s1 o old, Store.elemRef E v.s lp ip = some (some (j, k), s1) → s1.lst j = some o → o.data[k]? = some old →
      Store.arith E op true old v.acc s1 = some (x, s2) → Store.dictFits E lp 2 s2)
    (hr : vstep E (.aug op) v = some v') : Goes (Ptr.augElem K E op p) v' := by
  obtain ⟨p1, e1, T1, a1, -⟩ := T.pop h
  obtain ⟨p2, e2, T2, a2, -⟩ := T1.pop (v := { v with stk := lp :: l }) rfl
  rw [a1] at a2
  have nil : ∀ {v' : V} {φ' δ' : Nat → Nat} {loc' : List Val} {q : P}, Sim φ' δ' v' loc' none2 q → Sim φ' δ' v' [] none2 q :=
    fun T' => T'.locals (by simp)
  simp only [Ptr.augElem, Option.bind_eq_bind]
  simp only [vstep, h, Option.bind_eq_bind] at hr
  obtain ⟨q, h1, hr⟩ := Option.bind_eq_some_iff.mp hr
  have h1' := h1
  cases lp with
  | list i =>
    simp only [Store.elemRef, Option.bind_eq_bind] at h1
    rw [elemRef_list e1 e2]
    obtain ⟨o, ho, h1⟩ := Option.bind_eq_some_iff.mp h1
    have hi2 : R { v with stk := l } (.list i :: ip :: loc) none2 i := .root (x := .list i) (by simp) rfl
    obtain ⟨g, w, G⟩ := T2.lst hi2 ho
    simp only [G.hd, G.type, Option.bind_some]
    split at h1
    · rename_i ht
      injection h1 with h1; subst h1; injection hr with hr; subst hr
      rw [if_pos ht]
      exact ⟨φ, δ, p2.fail, rfl, nil T2.fail⟩
    · rename_i ht
      rw [if_neg ht]
      obtain ⟨⟨r, s1⟩, h2, h1⟩ := Option.bind_eq_some_iff.mp h1
      have hoff : o.type = .dict → E.off (o.size + 2) = o.size + 2 := fun ht => ((hf.1 o ho ht).mono (by omega)).off
      cases r with
      | none =>
        injection h1 with h1; subst h1; injection hr with hr; subst hr
        have hl : l.length + 1 < v.cap := by
          have := room; simp only [V.Room, h, List.length_cons] at this; omega
        obtain ⟨φ1, δ1, p3, e3, T3⟩ := ref_sim (x := ip) hK hE T2 (by simp) (ok_loc (by simp)) ho (fun ht _ => hoff ht) hl h2
        rw [e3]
        refine ⟨φ1, δ1, p3, rfl, nil (T3.more fun j m o _ _ hh => ?_)⟩
        cases hh.2.1
      | some k =>
        injection h1 with h1; subst h1
        obtain ⟨p3, e3, T3, a3, hs, hk⟩ := ref_here (K := K) hE T2 hi2 (ok_loc (x := ip) (by simp)) ho h2
          (fun _ o' ho' => present_size hp rfl ho h2 ho') (fun ht _ => hoff ht)
        replace hk := hk (hO.1 i o ho)
        have hso : s1.objs = v.s.objs := by rcases hs with rfl | rfl <;> rfl
        have hse : s1.empty = v.s.empty := by rcases hs with rfl | rfl <;> rfl
        have ho1 : s1.lst i = some o := by rw [Store.lst_congr hso]; exact ho
        simp only [ho1, Option.bind_some] at hr
        obtain ⟨old, hold, hr⟩ := Option.bind_eq_some_iff.mp hr
        obtain ⟨⟨x, s2⟩, h3, hr⟩ := Option.bind_eq_some_iff.mp hr
        obtain ⟨s3, h4, hr⟩ := Option.bind_eq_some_iff.mp hr
        injection hr with hr; subst hr
        have hi3 : R { v with stk := l, s := s1 } (.list i :: ip :: loc) none2 i := .root (x := .list i) (by simp) rfl
        obtain ⟨g3, w3, G3⟩ := T3.lst hi3 ho1
        have hw : w3[k]? = some (ren φ old) := by rw [G3.agree.2 k hk (fun hh => hh), hold]; rfl
        simp only [e3, Option.bind_some, G3.hd, G3.wds, hw]
        have hold' : Ok { v with stk := l, s := s1 } (.list i :: ip :: loc) none2 old := ok_elem hi3 ho1 hk (fun hh => hh) hold
        have T4 : Sim φ δ { v with s := s1 } [old] none2
            { p3 with stack := ren φ ip :: ren φ (.list i) :: p3.stack, above := p.above } := by
          refine T3.roots rfl rfl ?_ ?_ T3.acc T3.ext T3.empty T3.mem T3.clock T3.abort T3.cap rfl
          · intro y hy
            simp only [V.roots, h, List.mem_append, List.mem_cons, List.not_mem_nil, or_false] at hy
            rcases hy with (((h | h | h) | h | h) | h) | h
            · exact h ▸ ok_loc (by simp)
            · exact h ▸ ok_loc (by simp)
            · exact ok_stk h
            · exact h ▸ ok_acc
            · exact ok_ext h
            · exact ok_root (by simp only [V.roots, List.mem_append]; exact .inl (.inr h))
            · exact h ▸ hold'
          · simp only [T3.stack, h, List.map_cons]
        have e4 : p3.unpop2 = some { p3 with stack := ren φ ip :: ren φ (.list i) :: p3.stack, above := p.above } := by
          simp only [P.unpop2, a3, a2]
        rw [e4, Option.bind_some]
        obtain ⟨φ1, δ1, p5, e5, T5⟩ := arith_sim (a := old) (b := v.acc) hK T4 (by simp) (by simp [V.roots]) (by simp only; exact room)
          (hf.2 i k s1 o old h1' ho1 hold) (hR i k s1 o old h1' ho1 hold) h3
        rw [show ren φ v.acc = p3.acc from T3.acc.symm] at e5
        simp only [e5, Option.bind_some]
        have T6 := T5.setAcc (x := x) (ok_loc (by simp))
        have room' : v.stk.length < v.cap := by have := room; simp only [V.Room] at this; omega
        exact storeElem_sim hK hE T6 h room' (hf2 x s2 i k s1 o old h1' ho1 hold h3) h4
  | _ =>
    injection h1 with h1; subst h1; injection hr with hr; subst hr
    rw [elemRef_other e1 e2 (by rintro i ⟨⟩)]
    exact ⟨φ, δ, p2.fail, rfl, nil T2.fail⟩

end Snek.Ptr
