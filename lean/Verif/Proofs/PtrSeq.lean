import Verif.Proofs.PtrList
/-!
# Appending, concatenating and repeating lists at addresses
-/
namespace Snek.Ptr
open Store (Val S Obj LObj Env mcpy mread mmove mset lst_iff bytes_iff)

variable {φ δ ρ : Nat → Nat} {v v' : V} {loc loc' : List Val} {H H' : Nat → Nat → Prop} {p p' : P} {K : Coll} {E : Env}

theorem R.push {x : Val} {i : Nat} (h : R v loc H i) : R { v with stk := x :: v.stk } loc H i := by
  refine R.sub (v' := v) (v := { v with stk := x :: v.stk }) (loc' := loc) (H' := H) rfl (fun y hy => ok_root ?_) (fun _ _ _ _ _ h => h) h
  simp only [V.roots, List.mem_append, List.mem_cons] at hy ⊢
  rcases hy with ((h | h | h) | h) | h <;> simp [h]

theorem Ok.push {x y : Val} (h : Ok v loc H y) : Ok { v with stk := x :: v.stk } loc H y := fun i hi => (h i hi).push

theorem resize_size {s s' : S} {i n : Nat} (hr : Store.resize E s i n = some (true, s')) :
    ∃ o o', s.lst i = some o ∧ s'.lst i = some o' ∧ o'.size = n ∧ o'.type = o.type := by
  simp only [Store.resize, Option.bind_eq_bind] at hr
  obtain ⟨o, ho, hr⟩ := Option.bind_eq_some_iff.mp hr
  split at hr
  · injection hr with hr; injection hr with _ hs; subst hs
    exact ⟨o, _, ho, Store.lst_setl_self ho, rfl, rfl⟩
  · revert hr
    generalize (if o.type.readonly then n else Store.listAlloc E n) = al
    intro hr
    split at hr
    · injection hr with hr; injection hr with h _; cases h
    · obtain ⟨old, h1, hr⟩ := Option.bind_eq_some_iff.mp hr
      obtain ⟨data, h2, hr⟩ := Option.bind_eq_some_iff.mp hr
      injection hr with hr; injection hr with _ hs; subst hs
      exact ⟨o, _, ho, Store.lst_setl_self (s := (s.ask (E.off (al * 4))).2) ho, rfl, rfl⟩

theorem poke_lst {s s' : S} {i k : Nat} {src : List Val} {o : LObj} (ho : s.lst i = some o) (hr : Store.poke s i k src = some s') :
    (∃ o', s'.lst i = some o' ∧ o'.size = o.size ∧ o'.type = o.type) ∧ ∀ j, j ≠ i → s'.lst j = s.lst j := by
  simp only [Store.poke, ho, Option.bind_eq_bind, Option.bind_some] at hr
  obtain ⟨d, hd, hr⟩ := Option.bind_eq_some_iff.mp hr
  injection hr with hr
  subst hr
  exact ⟨⟨_, Store.lst_setl_self ho, rfl, rfl⟩, fun j hj => Store.lst_setl_ne hj⟩

theorem peek_len {s : S} {i n : Nat} {src : List Val} (h : Store.peek s i n = some src) : src.length = n := by
  simp only [Store.peek, Option.bind_eq_bind] at h
  obtain ⟨o, ho, h⟩ := Option.bind_eq_some_iff.mp h
  unfold Store.mread at h
  split at h
  · injection h with h; subst h; simp; omega
  · cases h

/-- The end of `snek_list_append`: the words are copied over the slots that were added. -/
theorem append_end {i j : Nat} {a b o' : LObj} {src : List Val} {s' : S} {c : Prop}
    (T : Sim φ δ v loc (fun k m => k = i ∧ a.size ≤ m ∧ c) p) (hi : Val.list i ∈ v.roots ++ loc) (hj : Val.list j ∈ v.roots ++ loc)
    (ho : v.s.lst i = some o') (hn : o'.size = a.size + b.size) (hb : ∃ q, v.s.lst j = some q ∧ b.size ≤ q.size)
    (hab : j = i → b.size ≤ a.size) (h1 : Store.peek v.s j b.size = some src) (h2 : Store.poke v.s i a.size src = some s') :
    ∃ p1, (Ptr.peek p (φ j) b.size).bind (fun x => Ptr.poke p (φ i) a.size x) = some p1 ∧
      Sim φ δ { v with s := s' } loc none2 p1 := by
  obtain ⟨q, hq, hqb⟩ := hb
  obtain ⟨e1, e2⟩ := peek_sim T (.root hj rfl) hq hqb (by
    rintro m hm ⟨rfl, h, -⟩
    have := hab rfl
    omega) h1
  obtain ⟨p1, e3, T1⟩ := poke_sim T (.root hi rfl) h2 e2
  refine ⟨p1, by rw [e1]; exact e3, T1.holes fun k m q' hq' hm => ?_⟩
  constructor
  · rintro ⟨⟨rfl, h3, -⟩, h4⟩
    apply h4
    obtain ⟨o2, h5, h6, -⟩ := (poke_lst ho h2).1
    have : o2 = q' := by rw [h5] at hq'; exact Option.some.inj hq'
    subst this
    rw [peek_len h1]
    exact ⟨rfl, h3, by omega⟩
  · exact fun h => h.elim

/-- `snek_list_append`. -/
theorem append_sim (hK : K.Good) (T : Sim φ δ v loc none2 p) {i j : Nat} {a b : LObj} {r : Option Nat} {s' : S}
    (hi : Val.list i ∈ v.roots ++ loc) (hj : Val.list j ∈ v.roots ++ loc) (room : v.stk.length + 1 < v.cap)
    (ha : v.s.lst i = some a) (hb : v.s.lst j = some b) (hf : E.off (a.size + b.size) = a.size + b.size)
    (hr : Store.append E v.s i j = some (r, s')) :
    ∃ φ' δ' p', Ptr.append K E p (φ i) (φ j) = some (r.map φ', p') ∧ Sim φ' δ' { v with s := s' } (r.toList.map .list) none2 p' := by
  have hRi : R v loc none2 i := .root hi rfl
  have hRj : R v loc none2 j := .root hj rfl
  obtain ⟨g, l, G⟩ := T.lst hRi ha
  obtain ⟨g', l', G'⟩ := T.lst hRj hb
  simp only [Store.append, ha, hb, hf, Option.bind_eq_bind, Option.bind_some] at hr
  obtain ⟨⟨ok, s1⟩, hz, hr⟩ := Option.bind_eq_some_iff.mp hr
  simp only [Ptr.append, G.hd, G'.hd, G.size, G'.size, hf, Option.bind_eq_bind, Option.bind_some]
  by_cases hij : j = i
  · subst hij
    have hab : b = a := by rw [ha] at hb; exact (Option.some.inj hb).symm
    subst hab
    simp only [BEq.rfl, if_true]
    obtain ⟨φ1, δ1, p1, e1, T1⟩ := resize_sim hK T hi (by omega) ha hz
    rw [e1]
    cases ok with
    | false =>
      simp only [Bool.not_false, if_true] at hr
      injection hr with hr; injection hr with h1 h2; subst h1 h2
      exact ⟨φ1, δ1, p1, rfl, (T1.locals (loc' := []) (by simp)).holes fun _ _ _ _ _ => by simp [none2]⟩
    | true =>
      simp only [Bool.not_true, Bool.false_eq_true, if_false] at hr
      obtain ⟨src, h1, hr⟩ := Option.bind_eq_some_iff.mp hr
      obtain ⟨s2, h2, hr⟩ := Option.bind_eq_some_iff.mp hr
      injection hr with hr; injection hr with h3 h4; subst h3 h4
      obtain ⟨o, o', ho, ho', hsz, -⟩ := resize_size hz
      obtain ⟨p2, e2, T2⟩ := append_end (v := { v with s := s1 }) (i := j) (j := j) (a := b) (b := b) (c := b.size + b.size ≤ b.alloc)
        (T1.holes fun _ _ _ _ _ => by simp) (by simp) (by simp) ho' hsz ⟨o', ho', by omega⟩ (fun _ => Nat.le_refl _) h1 h2
      refine ⟨φ1, δ1, p2, ?_, by simpa using T2⟩
      simp only [if_true, Option.bind_some]
      rw [Option.bind_eq_some_iff] at e2
      obtain ⟨x, h5, h6⟩ := e2
      simp [h5, h6]
  · have hne : (φ j == φ i) = false := by
      rw [beq_eq_false_iff_ne]
      exact fun e => hij (T.injO _ _ hRj hRi e)
    simp only [hne, Bool.false_eq_true, if_false]
    have T0 := T.push hRj.list (by omega)
    have hpush : p.push (.list (φ j)) = p.push (ren φ (.list j)) := rfl
    rw [hpush]
    have hi' : Val.list i ∈ ({ v with stk := Val.list j :: v.stk } : V).roots ++ loc := by
      simp only [V.roots, List.mem_append, List.mem_cons] at hi ⊢
      rcases hi with ((h | h | h) | h) | h <;> simp [h]
    obtain ⟨φ1, δ1, p1, e1, T1⟩ := resize_sim (v := { v with stk := Val.list j :: v.stk }) hK T0 hi' (by simpa using room) ha hz
    rw [e1]
    simp only [Option.bind_some]
    obtain ⟨p2, e2, T2⟩ := T1.popList (i := j) (l := v.stk) rfl
    rw [e2]
    simp only [Option.bind_some]
    cases ok with
    | false =>
      simp only [Bool.not_false, if_true] at hr
      injection hr with hr; injection hr with h1 h2; subst h1 h2
      exact ⟨φ1, δ1, p2, rfl, (T2.locals (loc' := []) (by simp)).holes fun _ _ _ _ _ => by simp [none2]⟩
    | true =>
      simp only [Bool.not_true, Bool.false_eq_true, if_false] at hr
      obtain ⟨src, h1, hr⟩ := Option.bind_eq_some_iff.mp hr
      obtain ⟨s2, h2, hr⟩ := Option.bind_eq_some_iff.mp hr
      injection hr with hr; injection hr with h3 h4; subst h3 h4
      obtain ⟨o, o', ho, ho', hsz, -⟩ := resize_size hz
      have hb' : s1.lst j = some b := by rw [resize_keeps hz j hij]; exact hb
      obtain ⟨p3, e3, T3⟩ := append_end (v := { v with s := s1 }) (i := i) (j := j) (a := a) (b := b) (c := a.size + b.size ≤ a.alloc)
        (T2.holes fun _ _ _ _ _ => by simp) (by simp) (by simp) ho' hsz ⟨b, hb', Nat.le_refl _⟩ (fun h => absurd h hij) h1 h2
      refine ⟨φ1, δ1, p3, ?_, (T3.locals fun x hx => ok_loc ?_)⟩
      · rw [Option.bind_eq_some_iff] at e3
        obtain ⟨x, h5, h6⟩ := e3
        simp [h5, h6]
      · simp at hx ⊢; exact .inr hx

/-- `snek_list_plus`. -/
theorem plus_sim (hK : K.Good) (T : Sim φ δ v loc none2 p) {i j : Nat} {a b : LObj} {r : Option Nat} {s' : S}
    (hi : R v loc none2 i) (hj : R v loc none2 j) (room : v.stk.length + 2 < v.cap)
    (ha : v.s.lst i = some a) (hb : v.s.lst j = some b)
    (hr : Store.plus E v.s i j = some (r, s')) :
    ∃ φ' δ' p', Ptr.plus K E p (φ i) (φ j) = some (r.map φ', p') ∧ Sim φ' δ' { v with s := s' } (r.toList.map .list) none2 p' := by
  have T0 := T.push hi.list (by omega)
  have T1 := T0.push (x := .list j) hj.list.push (by simp; omega)
  have hp1 : (p.push (.list (φ i))).push (.list (φ j)) = (p.push (ren φ (.list i))).push (ren φ (.list j)) := rfl
  obtain ⟨g, l, G⟩ := T1.lst (i := i) (.root (x := .list i) (by simp [V.roots]) rfl) ha
  obtain ⟨g', l', G'⟩ := T1.lst (i := j) (.root (x := .list j) (by simp [V.roots]) rfl) hb
  simp only [Store.plus, ha, hb, Option.bind_eq_bind, Option.bind_some] at hr
  obtain ⟨⟨n, s1⟩, hz, hr⟩ := Option.bind_eq_some_iff.mp hr
  obtain ⟨φ1, δ1, p1, e1, T2, keep⟩ := make_sim (v := { v with stk := .list j :: .list i :: v.stk }) hK T1 (by simp; omega) hz
  simp only [Ptr.plus, hp1, G.hd, G'.hd, G.size, G'.size, G.type, Option.bind_eq_bind, Option.bind_some, e1]
  obtain ⟨p2, e2, T3⟩ := T2.popList (i := j) (l := .list i :: v.stk) rfl
  obtain ⟨p3, e3, T4⟩ := T3.popList (i := i) (l := v.stk) rfl
  simp only [e2, e3, Option.bind_some]
  cases n with
  | none =>
    injection hr with hr; injection hr with h1 h2; subst h1 h2
    exact ⟨φ1, δ1, p3, rfl, T4.locals (by simp)⟩
  | some n =>
    simp only at hr
    obtain ⟨x, h1, hr⟩ := Option.bind_eq_some_iff.mp hr
    obtain ⟨s2, h2, hr⟩ := Option.bind_eq_some_iff.mp hr
    obtain ⟨y, h3, hr⟩ := Option.bind_eq_some_iff.mp hr
    obtain ⟨s3, h4, hr⟩ := Option.bind_eq_some_iff.mp hr
    injection hr with hr; injection hr with h5 h6; subst h5 h6
    have ha1 := keep i a ha
    have hb1 := keep j b hb
    obtain ⟨g4, l4, G4⟩ := T4.lst (i := i) (.root (x := .list i) (by simp) rfl) ha1
    obtain ⟨g5, l5, G5⟩ := T4.lst (i := j) (.root (x := .list j) (by simp) rfl) hb1
    simp only [Option.map_some, G4.hd, G5.hd, G4.size, G5.size, Option.bind_some]
    obtain ⟨e4, ok4⟩ := peek_sim T4 (i := i) (.root (x := .list i) (by simp) rfl) ha1 (Nat.le_refl _) (fun _ _ h => h) h1
    obtain ⟨p4, e5, T5⟩ := poke_sim0 T4 (i := n) (.root (x := .list n) (by simp) rfl) h2 ok4
    rw [e4]
    simp only [Option.bind_some, e5]
    have hb2 : ∃ q, s2.lst j = some q ∧ q.size = b.size := by
      by_cases hjn : j = n
      · subst hjn
        obtain ⟨⟨o', h5, h6, -⟩, -⟩ := poke_lst hb1 h2
        exact ⟨o', h5, h6⟩
      · simp only [Store.poke, Option.bind_eq_bind] at h2
        obtain ⟨q, hq, h2⟩ := Option.bind_eq_some_iff.mp h2
        obtain ⟨d, hd, h2⟩ := Option.bind_eq_some_iff.mp h2
        injection h2 with h2
        subst h2
        exact ⟨b, by rw [Store.lst_setl_ne hjn]; exact hb1, rfl⟩
    obtain ⟨q, hq, hqs⟩ := hb2
    obtain ⟨e6, ok6⟩ := peek_sim T5 (i := j) (.root (x := .list j) (by simp) rfl) hq (by omega) (fun _ _ h => h) h3
    obtain ⟨p5, e7, T6⟩ := poke_sim0 T5 (i := n) (.root (x := .list n) (by simp) rfl) h4 ok6
    rw [e6]
    simp only [Option.bind_some, e7]
    refine ⟨φ1, δ1, p5, rfl, T6.locals fun x hx => ok_loc ?_⟩
    simp at hx ⊢
    exact .inr (.inr hx)

theorem timesLoop_sim {n : Nat} {src : List Val} (c : Nat) : ∀ {p : P} {v : V} {k : Nat} {s' : S}, Sim φ δ v (src ++ [.list n]) none2 p →
    Store.timesLoop v.s n k src c = some s' →
    ∃ p', Ptr.timesLoop p (φ n) k (src.map (ren φ)) c = some p' ∧ Sim φ δ { v with s := s' } (src ++ [.list n]) none2 p' := by
  induction c with
  | zero => intro p v k s' T hr; injection hr with hr; subst hr; exact ⟨p, rfl, T⟩
  | succ c ih =>
    intro p v k s' T hr
    simp only [Store.timesLoop, Option.bind_eq_bind] at hr
    obtain ⟨s1, h1, hr⟩ := Option.bind_eq_some_iff.mp hr
    obtain ⟨p1, e1, T1⟩ := poke_sim0 T (.root (x := .list n) (by simp) rfl) h1 (fun x hx => ok_loc (by simp [hx]))
    obtain ⟨p2, e2, T2⟩ := ih T1 hr
    exact ⟨p2, by simp only [Ptr.timesLoop, e1, Option.bind_eq_bind, Option.bind_some, List.length_map, e2], T2⟩

/-- `snek_list_times`. -/
theorem times_sim (hK : K.Good) (T : Sim φ δ v loc none2 p) {i : Nat} {c : Int} {r : Option Nat} {s' : S}
    (hi : R v loc none2 i) (room : v.stk.length + 1 < v.cap) (hr : Store.times E v.s i c = some (r, s')) :
    ∃ φ' δ' p', Ptr.times K E p (φ i) c = some (r.map φ', p') ∧ Sim φ' δ' { v with s := s' } (r.toList.map .list) none2 p' := by
  have T1 := T.push hi.list (by omega)
  have hp1 : p.push (.list (φ i)) = p.push (ren φ (.list i)) := rfl
  simp only [Store.times, Option.bind_eq_bind] at hr
  obtain ⟨a, ha, hr⟩ := Option.bind_eq_some_iff.mp hr
  obtain ⟨⟨n, s1⟩, hz, hr⟩ := Option.bind_eq_some_iff.mp hr
  obtain ⟨g, l, G⟩ := T1.lst (i := i) (.root (x := .list i) (by simp [V.roots]) rfl) ha
  obtain ⟨φ1, δ1, p1, e1, T2, keep⟩ := make_sim (v := { v with stk := .list i :: v.stk }) hK T1 (by simp; omega) hz
  simp only [Ptr.times, hp1, G.hd, G.size, G.type, Option.bind_eq_bind, Option.bind_some, e1]
  obtain ⟨p2, e2, T3⟩ := T2.popList (i := i) (l := v.stk) rfl
  simp only [e2, Option.bind_some]
  cases n with
  | none =>
    injection hr with hr; injection hr with h1 h2; subst h1 h2
    exact ⟨φ1, δ1, p2, rfl, T3.locals (by simp)⟩
  | some n =>
    simp only [Option.map_some] at hr ⊢
    revert hr
    generalize (if c < 0 then 0 else c.toNat) = c'
    intro hr
    split at hr
    · rename_i hc
      injection hr with hr; injection hr with h1 h2; subst h1 h2
      rw [if_pos hc]
      exact ⟨φ1, δ1, p2, rfl, T3.locals fun x hx => ok_loc (by simp at hx ⊢; exact .inr hx)⟩
    · rename_i hc
      rw [if_neg hc]
      obtain ⟨src, h1, hr⟩ := Option.bind_eq_some_iff.mp hr
      obtain ⟨s2, h2, hr⟩ := Option.bind_eq_some_iff.mp hr
      injection hr with hr; injection hr with h5 h6; subst h5 h6
      obtain ⟨e3, ok3⟩ := peek_sim T3 (i := i) (.root (x := .list i) (by simp) rfl) (keep i a ha) (Nat.le_refl _) (fun _ _ h => h) h1
      have T4 := T3.locals (loc' := src ++ [.list n]) (by
        intro x hx
        rcases List.mem_append.mp hx with h | h
        · exact ok3 x h
        · exact ok_loc (by simp at h; simp [h]))
      obtain ⟨p3, e4, T5⟩ := timesLoop_sim c' T4 h2
      refine ⟨φ1, δ1, p3, by simp [e3, e4], T5.locals fun x hx => ok_loc (by simp at hx ⊢; exact .inr hx)⟩

end Snek.Ptr
