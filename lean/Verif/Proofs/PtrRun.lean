import Verif.Proofs.PtrStep
/-!
# Sequences of operations at addresses
-/
namespace Snek.Ptr
open Store (Val S Obj LObj Env Rel VOk Ty)

variable {φ δ ρ : Nat → Nat} {v v' : V} {loc : List Val} {p p' : P} {K : Coll} {E : Env}

/-! ## Without a collector -/

/-- The objects are well formed and the values of the machine refer to them. -/
structure VInv (v : V) : Prop where
  ok : Store.Ok v.s
  rel : Rel True v.s v.s
  stk : ∀ x ∈ v.stk, VOk v.s x
  acc : VOk v.s v.acc
  ext : ∀ x ∈ v.ext, VOk v.s x

theorem VInv.next (h : VInv v) {s' : S} {x : Val} {l : List Val} (hl : ∀ y ∈ l, y ∈ v.stk) (ok : Store.Ok s') (r : Rel True v.s s') (t : Ty v.s s')
    (hx : VOk s' x) : VInv { v with stk := l, acc := x, s := s' } :=
  ⟨ok, r.self, fun y hy => t.vok (h.stk y (hl y hy)), hx, fun y hy => t.vok (h.ext y hy)⟩

theorem VInv.post (h : VInv v) {f : Option (Val × S)} {l : List Val} (hl : ∀ y ∈ l, y ∈ v.stk) (ok : Store.Runs f)
    (rel : ∀ x s', f = some (x, s') → Store.Post (fun _ => True) True v.s v.s x s') : ∃ v', f.map (v.res l) = some v' ∧ VInv v' := by
  obtain ⟨x, s', e, hO⟩ := ok
  obtain ⟨k1, k2, k3⟩ := rel x s' e
  exact ⟨_, by rw [e]; rfl, h.next hl hO k1 k2 (k3 trivial).vok⟩

theorem popIf_mem {b : Bool} {l l1 : List Val} {t : Option Val} (h : popIf b l = some (t, l1)) : ∀ y ∈ l1, y ∈ l := by
  cases b with
  | false => injection h with h; injection h with _ h; subst h; exact fun _ h => h
  | true =>
    cases l with
    | nil => cases h
    | cons x l => injection h with h; injection h with _ h; subst h; exact fun _ h => List.mem_cons_of_mem _ h

theorem aug_fits (hI : VInv v) {op : BinOp} {ip lp : Val} {l : List Val} (h : v.stk = ip :: lp :: l)
    (hf : (Store.Op.aug op lp ip v.acc).fits E v.s) {x : Val} {s1 s2 : S} {i k : Nat} {o : LObj} {old : Val}
    (h1 : Store.elemRef E v.s lp ip = some (some (i, k), s1)) (h4 : s1.lst i = some o) (h5 : o.data[k]? = some old)
    (h6 : Store.arith E op true old v.acc s1 = some (x, s2)) :
    Store.dictFits E lp 2 s2 ∧ Store.Ok s2 ∧ Rel True v.s s2 ∧ Ty v.s s2 ∧ VOk s2 x := by
  have hl : VOk v.s lp := hI.stk _ (by simp [h])
  have hi : VOk v.s ip := hI.stk _ (by simp [h])
  obtain ⟨r, s', h1', h2, hf2, h3⟩ := Store.elemRef_ok (E := E) (ip := ip) hI.ok hl (n := 2) hf.1
  rw [h1] at h1'; injection h1' with h1'; injection h1' with e1 e2; subst e1 e2
  obtain ⟨k1, k2, -⟩ := Store.elemRef_rel hI.rel (fun _ => hi.pok) h1
  obtain ⟨hlp, -⟩ := h3 i k rfl
  have hm : old ∈ o.data := List.mem_of_getElem? h5
  obtain ⟨x', s2', m1, m2, m3⟩ := Store.arith_ok (E := E) (op := op) (ip := true) h2 (k1.words trivial i o h4 _ hm).vok
    (k2.vok hI.acc) (hf.2 i k s1 o _ h1 h4 h5)
  rw [h6] at m1; injection m1 with m1; injection m1 with e1 e2; subst e1 e2
  obtain ⟨r1, ty, r3⟩ := Store.arith_rel k1 h6
  refine ⟨?_, m2, r1, k2.trans ty, (r3 trivial).vok⟩
  subst hlp
  intro q hq hd
  obtain ⟨q', hq', hq2⟩ := ty.lst i o h4
  rw [hq] at hq'; cases hq'
  have hk3 := m3 i o h4 (by rw [← hq2]; exact hd)
  rw [hq] at hk3; cases hk3
  exact hf2 _ h4 hd

/-- A safe operation runs and keeps the objects well formed. -/
theorem vstep_ok (hA : E.A.Valid) (hI : VInv v) {op : Op} (hs : Safe E v op) : ∃ v', vstep E op v = some v' ∧ VInv v' := by
  cases op with
  | push =>
    simp only [vstep]
    split
    · exact ⟨_, rfl, hI.next (fun _ h => h) hI.ok.fail hI.rel.fail (.fail _) (Ty.vok (.fail _) hI.acc)⟩
    · refine ⟨_, rfl, hI.ok, hI.rel, fun x hx => ?_, hI.acc, hI.ext⟩
      rcases List.mem_cons.mp hx with h | h
      · exact h ▸ hI.acc
      · exact hI.stk x h
  | const x =>
    refine ⟨_, rfl, hI.ok, hI.rel, hI.stk, ?_, hI.ext⟩
    have : addr x = none := hs
    cases x <;> first | trivial | cases this
  | load k =>
    have hk : k < v.ext.length := hs
    simp only [vstep, Option.bind_eq_bind, List.getElem?_eq_getElem hk, Option.bind_some]
    exact ⟨_, rfl, hI.ok, hI.rel, hI.stk, hI.ext _ (List.getElem_mem hk), hI.ext⟩
  | save k =>
    have hk : k < v.ext.length := hs
    simp only [vstep, if_pos hk]
    refine ⟨_, rfl, hI.ok, hI.rel, hI.stk, hI.acc, fun x hx => ?_⟩
    rcases List.mem_or_eq_of_mem_set hx with h | h
    · exact hI.ext x h
    · exact h ▸ hI.acc
  | lit b => exact hI.post (fun _ h => h) (Store.newStr_ok hI.ok hs) fun x s' h => Store.newStr_rel hI.rel h
  | arith op =>
    obtain ⟨a, l, h, -, hf, -⟩ := hs
    simp only [vstep, h]
    exact hI.post (by simp_all) (Store.arith_ok hI.ok (hI.stk _ (by simp [h])) hI.acc hf).runs fun x s' h => Store.arith_rel hI.rel h
  | index =>
    obtain ⟨a, l, h, -⟩ := hs
    simp only [vstep, h]
    exact hI.post (by simp_all) (Store.index_ok hA hI.ok (hI.stk _ (by simp [h]))) fun x s' h => Store.index_rel hI.rel (fun _ => hI.acc.pok) h
  | isIn pos =>
    obtain ⟨a, l, h⟩ := hs
    simp only [vstep, h]
    exact hI.post (by simp_all) (Store.isIn_ok hI.ok (hI.stk _ (by simp [h])) hI.acc) fun x s' h => Store.isIn_rel hI.rel h
  | slice start stop stride =>
    obtain ⟨t, q, s, x, l1, l2, l3, l4, h1, h2, h3, rfl, -, hf⟩ := hs
    have hm : ∀ y ∈ x :: l4, y ∈ v.stk := fun y hy => popIf_mem h1 y (popIf_mem h2 y (popIf_mem h3 y hy))
    have hx := hI.stk x (hm x (by simp))
    simp only [vstep, h1, h2, h3, Option.bind_eq_bind, Option.bind_some]
    exact hI.post (fun y hy => hm y (by simp [hy])) (Store.slice_ok hA hI.ok hx hf) fun x s' h => Store.slice_rel hI.rel (fun _ => hx.pok) h
  | build t n =>
    obtain ⟨hn, -, hf, hd⟩ := hs
    have hlen : (v.stk.take n).reverse.length = n := by simp; omega
    simp only [vstep, if_pos hn]
    exact hI.post (fun y hy => List.mem_of_mem_drop hy) (Store.imm_ok hI.ok (by rw [hlen]; exact hf) (by rw [hlen]; exact hd))
      fun x s' h => Store.imm_rel hI.rel (fun _ y hy => (hI.stk y (List.mem_of_mem_take (List.mem_reverse.mp hy))).pok) h
  | store =>
    obtain ⟨i, l, stk, h, -, hf⟩ := hs
    obtain ⟨s', e, hO⟩ := Store.storeElem_ok (E := E) (ip := i) (v := v.acc) hI.ok (hI.stk l (by simp [h])) hf
    obtain ⟨k1, k2⟩ := Store.storeElem_rel hI.rel (fun _ => (hI.stk i (by simp [h])).pok) (fun _ => hI.acc.pok) e
    simp only [vstep, h, e]
    exact ⟨_, rfl, hI.next (by simp_all) hO k1 k2 (k2.vok hI.acc)⟩
  | aug op =>
    obtain ⟨i, l, stk, h, -, hf, -, -⟩ := hs
    have hl := hI.stk l (by simp [h])
    have hi := hI.stk i (by simp [h])
    have hsub : ∀ y ∈ stk, y ∈ v.stk := by simp_all
    obtain ⟨r, s1, h1, h2, -, h3⟩ := Store.elemRef_ok (E := E) (ip := i) hI.ok hl (n := 2) hf.1
    obtain ⟨k1, k2, -⟩ := Store.elemRef_rel hI.rel (fun _ => hi.pok) h1
    simp only [vstep, h, h1, Option.bind_eq_bind, Option.bind_some]
    cases r with
    | none => exact ⟨_, rfl, hI.next hsub h2 k1 k2 (k2.vok hI.acc)⟩
    | some q =>
      obtain ⟨j, k⟩ := q
      obtain ⟨hlp, o, h4, h5⟩ := h3 j k rfl
      obtain ⟨l1, l2, -⟩ := h2.1 j o h4
      have hk : o.data[k]? = some (o.data[k]'(by omega)) := List.getElem?_eq_getElem (by omega)
      obtain ⟨x, s2, m1, -, -⟩ := Store.arith_ok (E := E) (op := op) (ip := true) h2
        (k1.words trivial j o h4 _ (List.getElem_mem (by omega))).vok (k2.vok hI.acc) (hf.2 j k s1 o _ h1 h4 hk)
      obtain ⟨f1, f2, f3, f4, f5⟩ := aug_fits hI h hf h1 h4 hk m1
      obtain ⟨s3, e3, hO⟩ := Store.storeElem_ok (E := E) (ip := i) (v := x) f2 (f4.vok hl) f1
      obtain ⟨g1, g2⟩ := Store.storeElem_rel f3 (fun _ => (f4.vok hi).pok) (fun _ => f5.pok) e3
      simp only [h4, hk, m1, e3, Option.bind_some]
      exact ⟨_, rfl, hI.next hsub hO g1 (f4.trans g2) (g2.vok f5)⟩
  | del =>
    obtain ⟨l, stk, h, -, hf, -⟩ := hs
    have hl := hI.stk l (by simp [h])
    have hsub : ∀ y ∈ stk, y ∈ v.stk := by simp_all
    simp only [vstep, h]
    cases l with
    | list i =>
      obtain ⟨o, ho⟩ := hl
      obtain ⟨s', e, hO⟩ := Store.del_ok (E := E) hI.ok ho (fun ht => hf o ho ht) v.acc
      obtain ⟨k1, k2⟩ := Store.del_rel hI.rel (fun _ => hI.acc.pok) e
      exact ⟨_, by simp only [Store.delElem, e]; rfl, hI.next hsub hO k1 k2 (k2.vok hI.acc)⟩
    | _ => exact ⟨_, rfl, hI.next hsub hI.ok.fail hI.rel.fail (.fail _) (Ty.vok (.fail _) hI.acc)⟩

/-! ## With a collector -/

theorem popIf_sim (T : Sim φ δ v loc none2 p) {b : Bool} {t : Option Val} {l : List Val} (h : popIf b v.stk = some (t, l)) :
    ∃ p', p.popIf b = some (t.map (ren φ), p') ∧ Sim φ δ { v with stk := l } (t.toList ++ loc) none2 p' := by
  cases b with
  | false => injection h with h; injection h with h1 h2; subst h1 h2; exact ⟨p, rfl, T⟩
  | true =>
    cases hs : v.stk with
    | nil => rw [hs] at h; cases h
    | cons x l' =>
      rw [hs] at h; injection h with h; injection h with h1 h2; subst h1 h2
      obtain ⟨p1, e, T1, -⟩ := T.pop hs
      exact ⟨p1, by simp only [P.popIf, if_true, e]; rfl, T1⟩

theorem popIf_len {b : Bool} {l l1 : List Val} {t : Option Val} (h : popIf b l = some (t, l1)) : l1.length ≤ l.length := by
  cases b with
  | false => injection h with h; injection h with _ h; subst h; exact Nat.le_refl _
  | true =>
    cases l with
    | nil => cases h
    | cons x l => injection h with h; injection h with _ h; subst h; simp

/-- A safe operation at addresses does the same. -/
theorem step_sim (hK : K.Good) (hE : RealCmp E) (hA : E.A.Valid) (T : Sim φ δ v [] none2 p) (hI : VInv v) {op : Op} (hs : Safe E v op)
    (hr : vstep E op v = some v') : Goes (step K E op p) v' := by
  cases op with
  | push =>
    simp only [vstep] at hr
    split at hr
    · rename_i hc
      injection hr with hr; subst hr
      refine ⟨φ, δ, p.fail, ?_, T.fail⟩
      simp only [step, P.push, T.stack, T.cap, List.length_map, hc, if_true]
    · rename_i hc
      injection hr with hr; subst hr
      have hc' : ¬p.stack.length = p.cap := by rw [T.stack, T.cap, List.length_map]; exact hc
      refine ⟨φ, δ, { p with stack := p.acc :: p.stack, above := p.above.drop 1 }, by simp only [step, P.push, if_neg hc'], ?_⟩
      refine T.roots rfl rfl ?_ (by simp only [T.stack, T.acc, List.map_cons]) T.acc T.ext T.empty T.mem T.clock T.abort T.cap rfl
      intro y hy
      simp only [V.roots, List.append_nil, List.cons_append, List.mem_cons] at hy
      rcases hy with h | h
      · exact h ▸ ok_acc
      · exact ok_root (by simpa only [V.roots, List.append_nil] using h)
  | const x =>
    injection hr with hr; subst hr
    have hx : addr x = none := hs
    refine ⟨φ, δ, { p with acc := ren φ x }, ?_, T.setAcc (ok_none hx)⟩
    rw [show ren φ x = x by cases x <;> simp [addr] at hx <;> rfl]; rfl
  | load k =>
    have hk : k < v.ext.length := hs
    simp only [vstep, Option.bind_eq_bind, List.getElem?_eq_getElem hk, Option.bind_some] at hr
    injection hr with hr; subst hr
    refine ⟨φ, δ, { p with acc := ren φ v.ext[k] }, ?_, T.setAcc (ok_ext (List.getElem_mem hk))⟩
    simp only [step, T.ext, List.getElem?_map, List.getElem?_eq_getElem hk]; rfl
  | save k =>
    have hk : k < v.ext.length := hs
    simp only [vstep, if_pos hk] at hr
    injection hr with hr; subst hr
    refine ⟨φ, δ, { p with ext := p.ext.set k p.acc }, by simp only [step, T.ext, List.length_map, if_pos hk], ?_⟩
    refine T.roots rfl rfl ?_ T.stack T.acc ?_ T.empty T.mem T.clock T.abort T.cap rfl
    · intro y hy
      simp only [V.roots, List.append_nil, List.mem_append, List.mem_cons] at hy
      rcases hy with (h | h | h) | h
      · exact ok_stk h
      · exact h ▸ ok_acc
      · rcases List.mem_or_eq_of_mem_set h with h | h
        · exact ok_ext h
        · exact h ▸ ok_acc
      · exact ok_root (by simp only [V.roots, List.mem_append, List.mem_cons]; exact .inl (.inr h))
    · rw [T.ext, T.acc, List.map_set]
  | lit b =>
    simp only [vstep] at hr
    obtain ⟨⟨x, s'⟩, h1, hr⟩ := Option.map_eq_some_iff.mp hr
    subst hr
    have := Does.goes (strNew_sim hK T h1)
    have e : step K E (.lit b) p = Option.map P.res (match strAlloc K E p b.length with
        | (none, p) => some (Val.none, p)
        | (some r, p) => strFill E p r b) := by
      simp only [step]
      split <;> rename_i h <;> rw [h] <;> rfl
    rw [e]
    exact this
  | arith op =>
    obtain ⟨a, l, h, hroom, hf, hR⟩ := hs
    simp only [vstep, h] at hr
    obtain ⟨⟨x, s'⟩, h1, hr⟩ := Option.map_eq_some_iff.mp hr
    subst hr
    obtain ⟨p1, e1, T1, -⟩ := T.pop h
    have hl : l.length + 2 < v.cap := by simp only [V.Room, h, List.length_cons] at hroom; omega
    have D := Does.goes (arith_sim (a := a) (b := v.acc) (ip := false) hK T1 (by simp) (by simp [V.roots]) hl hf hR h1)
    rw [show ren φ v.acc = p1.acc from T1.acc.symm] at D
    have e : step K E (.arith op) p = (Ptr.arith K E op false (ren φ a) p1.acc p1).map P.res := by
      simp only [step, e1, Option.bind_eq_bind, Option.bind_some]
      exact (Option.map_eq_bind).symm
    rw [e]; exact D
  | index =>
    obtain ⟨a, l, h, hroom⟩ := hs
    simp only [vstep, h] at hr
    obtain ⟨⟨x, s'⟩, h1, hr⟩ := Option.map_eq_some_iff.mp hr
    subst hr
    obtain ⟨p1, e1, T1, -⟩ := T.pop h
    have hl : l.length + 1 < v.cap := by simp only [V.Room, h, List.length_cons] at hroom; omega
    have D := Does.goes (index_sim (a := a) (b := v.acc) hK hE T1 (by simp) (by simp [V.roots]) hl hI.ok h1)
    rw [show ren φ v.acc = p1.acc from T1.acc.symm] at D
    have e : step K E .index p = (Ptr.index K E p1 (ren φ a) p1.acc).map P.res := by
      simp only [step, e1, Option.bind_eq_bind, Option.bind_some]
      exact (Option.map_eq_bind).symm
    rw [e]; exact D
  | isIn pos =>
    obtain ⟨a, l, h⟩ := hs
    simp only [vstep, h] at hr
    obtain ⟨⟨x, s'⟩, h1, hr⟩ := Option.map_eq_some_iff.mp hr
    subst hr
    obtain ⟨p1, e1, T1, -⟩ := T.pop h
    have D := Does.goes (isIn_sim (a := a) (b := v.acc) hE T1 (by simp) (by simp [V.roots]) h1)
    rw [show ren φ v.acc = p1.acc from T1.acc.symm] at D
    have e : step K E (.isIn pos) p = (Ptr.isIn pos (ren φ a) p1.acc p1).map P.res := by
      simp only [step, e1, Option.bind_eq_bind, Option.bind_some]
      exact (Option.map_eq_bind).symm
    rw [e]; exact D
  | slice start stop stride =>
    obtain ⟨t, q, s, x, l1, l2, l3, l4, h1, h2, h3, rfl, hroom, hf⟩ := hs
    simp only [vstep, h1, h2, h3, Option.bind_eq_bind, Option.bind_some] at hr
    obtain ⟨⟨y, s'⟩, h4, hr⟩ := Option.map_eq_some_iff.mp hr
    subst hr
    obtain ⟨p1, e1, T1⟩ := popIf_sim T h1
    obtain ⟨p2, e2, T2⟩ := popIf_sim T1 h2
    obtain ⟨p3, e3, T3⟩ := popIf_sim T2 h3
    obtain ⟨p4, e4, T4, -⟩ := T3.pop (v := { v with stk := x :: l4 }) rfl
    have T5 := T4.setAcc (x := x) (ok_loc (by simp))
    have hl : l4.length + 1 < v.cap := by
      have := popIf_len h1; have := popIf_len h2; have := popIf_len h3
      simp only [V.Room, List.length_cons] at *; omega
    have D := Does.goes (slice_sim (x := x) hK hA T5 (by simp [V.roots]) hl hI.ok hf h4)
    have e : step K E (.slice start stop stride) p =
        (Ptr.slice K E (ren φ x) (s.map (ren φ)) (q.map (ren φ)) (t.map (ren φ)) { p4 with acc := ren φ x }).map P.res := by
      simp only [step, e1, e2, e3, e4, Option.bind_eq_bind, Option.bind_some]
      exact (Option.map_eq_bind).symm
    rw [e]; exact D
  | build t n =>
    obtain ⟨hn, hroom, hf, hd⟩ := hs
    simp only [vstep, if_pos hn] at hr
    obtain ⟨⟨x, s'⟩, h1, hr⟩ := Option.map_eq_some_iff.mp hr
    subst hr
    have hl : v.stk.length < v.cap := by simp only [V.Room] at hroom; omega
    obtain ⟨φ1, δ1, p1, e1, T1⟩ := imm_sim hK hE T hn hl hI.ok hf hd h1
    exact ⟨φ1, δ1, _, by simp only [step, e1]; rfl, T1.setAcc (ok_loc (by simp))⟩
  | store =>
    obtain ⟨i, l, stk, h, hroom, hf⟩ := hs
    simp only [vstep, h] at hr
    obtain ⟨s', h1, hr⟩ := Option.map_eq_some_iff.mp hr
    subst hr
    exact storeElem_sim hK hE T h (by simp only [V.Room] at hroom; omega) hf h1
  | aug op =>
    obtain ⟨i, l, stk, h, hroom, hf, hp, hR⟩ := hs
    exact augElem_sim hK hE T h hroom hI.ok hf hp hR (fun x s2 j k s1 o old a b c d => (aug_fits hI h hf a b c d).1) hr
  | del =>
    obtain ⟨l, stk, h, hroom, hf, hp⟩ := hs
    simp only [vstep, h] at hr
    obtain ⟨s', h1, hr⟩ := Option.map_eq_some_iff.mp hr
    subst hr
    exact delElem_sim hK hE T h (by simp only [V.Room] at hroom; omega) hI.ok hf hp h1

/-- Any number of safe operations. -/
theorem run_sim (hK : K.Good) (hE : RealCmp E) (hA : E.A.Valid) : ∀ {ops : List Op} {φ δ : Nat → Nat} {v : V} {p : P}, Sim φ δ v [] none2 p →
    VInv v → AllSafe E ops v → ∃ v', vrun E ops v = some v' ∧ Goes (run K E ops p) v' := by
  intro ops
  induction ops with
  | nil => intro φ δ v p T _ _; exact ⟨v, rfl, φ, δ, p, rfl, T⟩
  | cons op ops ih =>
    intro φ δ v p T hI hs
    by_cases ha : v.s.abort = true
    · exact ⟨v, by simp [vrun, ha], φ, δ, p, by simp [run, T.abort, ha], T⟩
    · rcases hs with h | ⟨h, hs⟩
      · exact absurd h ha
      · obtain ⟨v1, e1, hI1⟩ := vstep_ok hA hI h
        obtain ⟨φ1, δ1, p1, e2, T1⟩ := step_sim hK hE hA T hI h e1
        obtain ⟨v2, e3, φ2, δ2, p2, e4, T2⟩ := ih T1 hI1 (hs v1 e1)
        exact ⟨v2, by simp [vrun, ha, e1, e3], φ2, δ2, p2, by simp [run, T.abort, ha, e2, e4], T2⟩

/-- What is seen is the same. -/
theorem look_sim (T : Sim φ δ v loc none2 p) (n : Nat) : ∀ {x : Val}, Ok v loc none2 x → plook p n (ren φ x) = vlook v.s n x := by
  induction n with
  | zero => intro x _; rfl
  | succ n ih =>
    intro x hx
    cases x with
    | list i =>
      have hi := ok_list hx
      simp only [ren, plook, vlook]
      cases ho : v.s.lst i with
      | some o =>
        obtain ⟨g, l, G, h1, h2⟩ := T.take hi ho
        simp only [G.hd, G.wds, G.type, h1, List.map_map]
        congr 1
        exact List.map_congr_left fun y hy => ih (h2 y hy)
      | none =>
        cases hh : v.s.objs[i]? with
        | none => exact (T.objNone hi hh).elim
        | some ob =>
          cases ob with
          | list o => rw [Store.lst_iff.mpr hh] at ho; cases ho
          | str b =>
            have : p.hd (φ i) = none := by simp only [P.hd, T.objStr hi hh]
            simp only [this]
    | str i =>
      have hi := ok_str hx
      simp only [ren, plook, vlook]
      cases hh : v.s.objs[i]? with
      | none => exact (T.objNone hi hh).elim
      | some ob =>
        cases ob with
        | list o =>
          have hn : v.s.bytes i = none := by simp [S.bytes, hh]
          obtain ⟨g, l, G⟩ := T.lst hi (Store.lst_iff.mpr hh)
          have : p.chars (φ i) = none := by simp only [P.chars, hd_blk.mp G.hd]
          simp only [this, hn]
        | str b =>
          have hb := Store.bytes_iff.mpr hh
          simp only [hb, T.bytes hi hb]
    | num u => rfl
    | func u => rfl
    | builtin u => rfl

end Snek.Ptr
