import Verif.Proofs.PtrImm
/-!
# Slices and strings at addresses
-/
namespace Snek.Ptr
open Store (Val S Obj LObj Env mcpy mread mmove mset lst_iff bytes_iff)

variable {φ δ ρ : Nat → Nat} {v v' : V} {loc loc' : List Val} {H H' : Nat → Nat → Prop} {p p' : P} {K : Coll} {E : Env}

theorem sliceLoop_map {α β : Type} {A : Arch} {f : α → β} {data l : List α} {n k : Nat} {t : Int} (h : sliceLoop A data n k t = some l) :
    sliceLoop A (data.map f) n k t = some (l.map f) := by
  induction n generalizing k l with
  | zero => injection h with h; subst h; rfl
  | succ n ih =>
    simp only [sliceLoop, Option.bind_eq_bind, Option.pure_def] at h ⊢
    obtain ⟨x, hx, h⟩ := Option.bind_eq_some_iff.mp h
    obtain ⟨r, hr, h⟩ := Option.bind_eq_some_iff.mp h
    injection h with h
    subst h
    simp only [List.getElem?_map, hx, Option.map_some, Option.bind_some, ih hr, List.map_cons]

theorem sliceLoop_length {α : Type} {A : Arch} {data l : List α} {n k : Nat} {t : Int} (h : sliceLoop A data n k t = some l) : l.length = n := by
  induction n generalizing k l with
  | zero => injection h with h; subst h; rfl
  | succ n ih =>
    simp only [sliceLoop, Option.bind_eq_bind, Option.pure_def] at h
    obtain ⟨x, hx, h⟩ := Option.bind_eq_some_iff.mp h
    obtain ⟨r, hr, h⟩ := Option.bind_eq_some_iff.mp h
    injection h with h
    subst h
    simp [ih hr]

theorem sliceLoop_mem {α : Type} {A : Arch} {data l : List α} {n k : Nat} {t : Int} (h : sliceLoop A data n k t = some l) : ∀ x ∈ l, x ∈ data := by
  induction n generalizing k l with
  | zero => injection h with h; subst h; simp
  | succ n ih =>
    simp only [sliceLoop, Option.bind_eq_bind, Option.pure_def] at h
    obtain ⟨x, hx, h⟩ := Option.bind_eq_some_iff.mp h
    obtain ⟨r, hr, h⟩ := Option.bind_eq_some_iff.mp h
    injection h with h
    subst h
    intro y hy
    rcases List.mem_cons.mp hy with rfl | hy
    · exact List.mem_of_getElem? hx
    · exact ih hr y hy

/-- `snek_list_slice`. -/
theorem listSlice_sim (hK : K.Good) (T : Sim φ δ v loc none2 p) {i : Nat} {o : LObj} {t : SliceT} {l : List Val} {x : Val} {s' : S}
    (hi : R v loc none2 i) (room : v.stk.length + 1 < v.cap) (ho : v.s.lst i = some o)
    (hl : sliceLoop E.A (o.data.take o.size) t.count t.pos t.stride = some l)
    (hr : Store.listSlice E v.s i t = some (x, s')) :
    ∃ φ' δ' p', Ptr.listSlice K E p (φ i) t = some (ren φ' x, p') ∧ Sim φ' δ' { v with s := s' } [x] none2 p' := by
  obtain ⟨g, l0, G⟩ := T.lst hi ho
  simp only [Store.listSlice, ho, Option.bind_eq_bind, Option.bind_some] at hr
  simp only [Ptr.listSlice, G.hd, G.type, Option.bind_eq_bind, Option.bind_some]
  split at hr
  · rename_i h
    rw [if_pos h]
    injection hr with hr; injection hr with h2 h3; subst h2 h3
    exact ⟨φ, δ, p, rfl, T.locals fun y hy => by simp at hy; subst hy; exact hi.list⟩
  · rename_i h
    rw [if_neg h]
    obtain ⟨⟨n, s1⟩, hz, hr⟩ := Option.bind_eq_some_iff.mp hr
    have T1 := T.push hi.list (by omega)
    have hp1 : p.push (.list (φ i)) = p.push (ren φ (.list i)) := rfl
    obtain ⟨φ1, δ1, p1, e1, T2, keep⟩ := make_sim (v := { v with stk := .list i :: v.stk }) hK T1 (by simp; omega) hz
    obtain ⟨p2, e2, T3⟩ := T2.popList (i := i) (l := v.stk) rfl
    simp only [hp1, e1, e2, Option.bind_some]
    cases n with
    | none =>
      injection hr with hr; injection hr with h2 h3; subst h2 h3
      exact ⟨φ1, δ1, p2, rfl, T3.locals fun y hy => by simp at hy; subst hy; exact ok_none (x := Val.none) rfl⟩
    | some n =>
      simp only [Option.map_some] at hr ⊢
      rw [Store.sliceLoop_take hl] at hr
      obtain ⟨g3, l3, G3, t3, ok3⟩ := T3.take (i := i) (.root (x := .list i) (by simp) rfl) (keep i o ho)
      have hl3 : sliceLoop E.A l3 t.count t.pos t.stride = some (l.map (ren φ1)) := by
        apply Store.sliceLoop_take (L := g3.size)
        rw [t3]
        exact sliceLoop_map hl
      simp only [G3.hd, G3.wds, Option.bind_some, hl3]
      simp only [Option.bind_some] at hr
      split at hr
      · rename_i h0
        injection hr with hr; injection hr with h2 h3; subst h2 h3
        rw [if_pos (by rw [h0]; rfl)]
        exact ⟨φ1, δ1, p2, rfl, T3.locals fun y hy => ok_loc (by simp at hy; subst hy; simp)⟩
      · rename_i h0
        rw [if_neg (by simpa using h0)]
        obtain ⟨s2, h4, hr⟩ := Option.bind_eq_some_iff.mp hr
        injection hr with hr; injection hr with h5 h6; subst h5 h6
        obtain ⟨p3, e3, T4⟩ := poke_sim0 T3 (i := n) (.root (x := .list n) (by simp) rfl) h4 (fun y hy => ok3 y (sliceLoop_mem hl y hy))
        rw [e3]
        exact ⟨φ1, δ1, p3, rfl, T4.locals fun y hy => ok_loc (by simp at hy; subst hy; simp)⟩

/-! ## Strings -/

/-- Space for a new string. -/
theorem newStr_sim (hK : K.Good) (T : Sim φ δ v loc none2 p) {b : List UInt8} {x : Val} {s' : S}
    (hr : Store.newStr E v.s b = some (x, s')) :
    ∃ φ' δ' q s1, Sim φ' δ' { v with s := s1 } [] none2 q ∧ s1.objs = v.s.objs ∧ s1.empty = v.s.empty ∧
      ((strAlloc K E p b.length = (none, q) ∧ x = Val.none ∧ s' = s1) ∨
       ∃ a, strAlloc K E p b.length = (some a, { q with n := q.n + 1 }) ∧ Unused φ' δ' { v with s := s1 } [] none2 a ∧
         x = .str s1.objs.length ∧ s' = s1.push (.str b) ∧ ¬E.off (b.length + 1) < b.length + 1) := by
  simp only [Store.newStr] at hr
  obtain ⟨φ', δ', p1, T1, h⟩ := T.alloc hK (E.off (b.length + 1)) (.str [])
  refine ⟨φ', δ', p1, (v.s.ask (E.off (b.length + 1))).2, T1, rfl, rfl, ?_⟩
  rcases h with ⟨h1, a, h2, h3, h4⟩ | ⟨h1, h2⟩
  · rw [h1] at hr
    simp only [Bool.not_true, Bool.false_eq_true, if_false] at hr
    split at hr
    · cases hr
    · rename_i hlt
      injection hr with hr; injection hr with h5 h6; subst h5 h6
      exact .inr ⟨a, by simp [strAlloc, h2], h4, rfl, rfl, hlt⟩
  · rw [h1] at hr
    simp only [Bool.not_false, if_true] at hr
    injection hr with hr; injection hr with h5 h6; subst h5 h6
    exact .inl ⟨by simp [strAlloc, h2], rfl, rfl⟩

/-- Its content. -/
theorem strFill_sim (T : Sim φ δ v loc none2 p) {a : Nat} {b : List UInt8} (hu : Unused φ δ v loc none2 a)
    (hb : ¬E.off (b.length + 1) < b.length + 1) :
    ∃ φ' p', strFill E { p with n := p.n + 1 } a b = some (ren φ' (.str v.s.objs.length), p') ∧
      Sim φ' δ { v with s := v.s.push (.str b) } [.str v.s.objs.length] none2 p' := by
  have T1 := (T.put_unused hu (.str b)).new (a := a) hu (.str b) (by simp [P.put])
  refine ⟨_, _, ?_, T1.locals fun y hy => ok_loc (by simp at hy; subst hy; exact List.mem_cons_self ..)⟩
  simp [strFill, hb, ren, P.put]

theorem popStr_n {k : Nat} : ({ p with n := k } : P).popStr = p.popStr.map fun (a, q) => (a, { q with n := k }) := by
  unfold P.popStr P.pop
  cases p.stack with
  | nil => rfl
  | cons x l => cases x <;> rfl

theorem Sim.popStrU (T : Sim φ δ v loc none2 p) {i a : Nat} {l : List Val} (h : v.stk = .str i :: l) (hu : Unused φ δ v loc none2 a) :
    ∃ p', p.popStr = some (φ i, p') ∧ Sim φ δ { v with stk := l } (.str i :: loc) none2 p' ∧
      Unused φ δ { v with stk := l } (.str i :: loc) none2 a ∧ p'.n = p.n := by
  obtain ⟨p', h1, h2⟩ := T.popStr h
  exact ⟨p', h1, h2, hu.pop h, by rw [h2.n, T.n]⟩

/-- `snek_string_cat`. -/
theorem strCat_sim (hK : K.Good) (T : Sim φ δ v loc none2 p) {i j : Nat} {x : Val} {s' : S}
    (hi : R v loc none2 i) (hj : R v loc none2 j) (room : v.stk.length + 1 < v.cap) (hr : Store.strCat E v.s i j = some (x, s')) :
    ∃ φ' δ' p', Ptr.strCat K E p (φ i) (φ j) = some (ren φ' x, p') ∧ Sim φ' δ' { v with s := s' } [x] none2 p' := by
  simp only [Store.strCat, Option.bind_eq_bind] at hr
  obtain ⟨a, ha, hr⟩ := Option.bind_eq_some_iff.mp hr
  obtain ⟨b, hb, hr⟩ := Option.bind_eq_some_iff.mp hr
  have T1 := (T.push hi.str (by omega)).push (x := .str j) hj.str.push (by simp; omega)
  have hp1 : (p.push (.str (φ i))).push (.str (φ j)) = (p.push (ren φ (.str i))).push (ren φ (.str j)) := rfl
  obtain ⟨φ1, δ1, q, s1, T2, h1, h2, h⟩ := newStr_sim (v := { v with stk := .str j :: .str i :: v.stk }) hK T1 hr
  simp only [Ptr.strCat, T.bytes hi ha, T.bytes hj hb, Option.bind_eq_bind, Option.bind_some, hp1]
  rw [List.length_append] at h
  rcases h with ⟨e1, rfl, rfl⟩ | ⟨c, e1, hu, rfl, rfl, hlt⟩
  · obtain ⟨p2, e2, T3⟩ := T2.popStr (i := j) (l := .str i :: v.stk) rfl
    obtain ⟨p3, e3, T4⟩ := T3.popStr (i := i) (l := v.stk) rfl
    simp only [e1, e2, e3, Option.bind_some]
    exact ⟨φ1, δ1, p3, rfl, T4.locals fun y hy => by simp at hy; subst hy; exact ok_none (x := Val.none) rfl⟩
  · obtain ⟨p2, e2, T3, hu3, n3⟩ := T2.popStrU (i := j) (l := .str i :: v.stk) rfl hu
    obtain ⟨p3, e3, T4, hu4, n4⟩ := T3.popStrU (i := i) (l := v.stk) rfl hu3
    have hi4 : R { v with s := s1 } [.str i, .str j] none2 i := .root (x := .str i) (by simp) rfl
    have hj4 : R { v with s := s1 } [.str i, .str j] none2 j := .root (x := .str j) (by simp) rfl
    have c1 := T4.bytes hi4 (b := a) (by rw [bytes_iff, h1]; exact bytes_iff.mp ha)
    have c2 := T4.bytes hj4 (b := b) (by rw [bytes_iff, h1]; exact bytes_iff.mp hb)
    have c1' : ({ p3 with n := q.n + 1 } : P).chars (φ1 i) = some a := c1
    have c2' : ({ p3 with n := q.n + 1 } : P).chars (φ1 j) = some b := c2
    simp only [e1, popStr_n, e2, e3, Option.map_some, Option.bind_some, c1', c2', List.take_length]
    obtain ⟨φ2, p5, e5, T5⟩ := strFill_sim (E := E) (b := a ++ b) T4 hu4 (by rw [List.length_append]; exact hlt)
    rw [show q.n = p3.n from by omega]
    exact ⟨φ2, δ1, p5, e5, T5⟩

/-- `snek_string_slice`. -/
theorem strSlice_sim (hK : K.Good) (T : Sim φ δ v loc none2 p) {i : Nat} {t : SliceT} {x : Val} {s' : S}
    (hi : R v loc none2 i) (room : v.stk.length < v.cap) (hr : Store.strSlice E v.s i t = some (x, s')) :
    ∃ φ' δ' p', Ptr.strSlice K E p (φ i) t = some (ren φ' x, p') ∧ Sim φ' δ' { v with s := s' } [x] none2 p' := by
  simp only [Store.strSlice, Option.bind_eq_bind] at hr
  obtain ⟨a, ha, hr⟩ := Option.bind_eq_some_iff.mp hr
  simp only [Ptr.strSlice, T.bytes hi ha, Option.bind_eq_bind, Option.bind_some]
  split at hr
  · rename_i h
    rw [if_pos h]
    injection hr with hr; injection hr with h2 h3; subst h2 h3
    exact ⟨φ, δ, p, rfl, T.locals fun y hy => by simp at hy; subst hy; exact hi.str⟩
  · rename_i h
    rw [if_neg h]
    obtain ⟨l, hl, hr⟩ := Option.bind_eq_some_iff.mp hr
    have T1 := T.push hi.str room
    have hp1 : p.push (.str (φ i)) = p.push (ren φ (.str i)) := rfl
    obtain ⟨φ1, δ1, q, s1, T2, h1, h2, h⟩ := newStr_sim (v := { v with stk := .str i :: v.stk }) hK T1 hr
    rw [sliceLoop_length hl] at h
    rcases h with ⟨e1, rfl, rfl⟩ | ⟨c, e1, hu, rfl, rfl, hlt⟩
    · obtain ⟨p2, e2, T3⟩ := T2.popStr (i := i) (l := v.stk) rfl
      simp only [hp1, e1, e2, Option.bind_some]
      exact ⟨φ1, δ1, p2, rfl, T3.locals fun y hy => by simp at hy; subst hy; exact ok_none (x := Val.none) rfl⟩
    · obtain ⟨p2, e2, T3, hu3, n3⟩ := T2.popStrU (i := i) (l := v.stk) rfl hu
      have hi4 : R { v with s := s1 } [.str i] none2 i := .root (x := .str i) (by simp) rfl
      have c1 := T3.bytes hi4 (b := a) (by rw [bytes_iff, h1]; exact bytes_iff.mp ha)
      have c1' : ({ p2 with n := q.n + 1 } : P).chars (φ1 i) = some a := c1
      simp only [hp1, e1, popStr_n, e2, Option.map_some, Option.bind_some, c1', hl]
      obtain ⟨φ2, p5, e5, T5⟩ := strFill_sim (E := E) T3 hu3 (by rw [sliceLoop_length hl]; exact hlt)
      rw [show q.n = p2.n from by omega]
      exact ⟨φ2, δ1, p5, e5, T5⟩

/-- A new string from characters that were copied before. -/
theorem strNew_sim (hK : K.Good) (T : Sim φ δ v loc none2 p) {b : List UInt8} {x : Val} {s' : S}
    (hr : Store.newStr E v.s b = some (x, s')) :
    ∃ φ' δ' p', (match strAlloc K E p b.length with
        | (none, p) => some (Val.none, p)
        | (some r, p) => strFill E p r b) = some (ren φ' x, p') ∧ Sim φ' δ' { v with s := s' } [x] none2 p' := by
  obtain ⟨φ1, δ1, q, s1, T2, h1, h2, h⟩ := newStr_sim hK T hr
  rcases h with ⟨e1, rfl, rfl⟩ | ⟨c, e1, hu, rfl, rfl, hlt⟩
  · rw [e1]
    exact ⟨φ1, δ1, q, rfl, T2.locals fun y hy => by simp at hy; subst hy; exact ok_none (x := Val.none) rfl⟩
  · rw [e1]
    obtain ⟨φ2, p5, e5, T5⟩ := strFill_sim (E := E) T2 hu hlt
    exact ⟨φ2, δ1, p5, e5, T5⟩

/-- `snek_string_get`. -/
theorem strGet_sim (hK : K.Good) (T : Sim φ δ v loc none2 p) {i : Nat} {y x : Val} {s' : S}
    (hi : R v loc none2 i) (hr : Store.strGet E v.s i y = some (x, s')) :
    ∃ φ' δ' p', Ptr.strGet K E p (φ i) (ren φ y) = some (ren φ' x, p') ∧ Sim φ' δ' { v with s := s' } [x] none2 p' := by
  simp only [Store.strGet, Option.bind_eq_bind] at hr
  obtain ⟨b, hb, hr⟩ := Option.bind_eq_some_iff.mp hr
  have hsoff : Store.soff E (ren φ y) = Store.soff E y := by cases y <;> rfl
  simp only [Ptr.strGet, T.bytes hi hb, Option.bind_eq_bind, Option.bind_some, hsoff]
  revert hr
  obtain ⟨so, e⟩ := Store.soff E y
  simp only
  generalize (if so < 0 then E.off (b.length + (2 ^ E.A.offBits - E.off (-so).toNat)) else so.toNat) = k
  intro hr
  have T1 : Sim φ δ { v with s := if e = true then v.s.fail else v.s } loc none2 (if e = true then p.fail else p) := by
    split
    · exact T.fail
    · exact T
  split at hr
  · rename_i hk
    rw [if_pos hk]
    injection hr with hr; injection hr with h2 h3; subst h2 h3
    exact ⟨φ, δ, _, rfl, T1.fail.locals fun y hy => by simp at hy; subst hy; exact ok_none (x := Val.none) rfl⟩
  · rename_i hk
    rw [if_neg hk]
    obtain ⟨c, hc, hr⟩ := Option.bind_eq_some_iff.mp hr
    simp only [hc, Option.bind_some]
    exact strNew_sim (b := [c]) hK T1 hr

end Snek.Ptr
