import Verif.Proofs.PtrWords
/-!
# The list functions at addresses do what they do on numbered objects
-/
namespace Snek.Ptr
open Store (Val S Obj LObj Env mcpy mread mmove mset lst_iff bytes_iff)

variable {φ δ ρ : Nat → Nat} {v v' : V} {loc loc' : List Val} {H H' : Nat → Nat → Prop} {p p' : P} {K : Coll} {E : Env}

/-- Only the size changes. -/
theorem resize_room (T : Sim φ δ v loc none2 p) {i n : Nat} {o : LObj} (hi : R v loc none2 i) (ho : v.s.lst i = some o)
    (hn : n ≤ o.alloc) :
    Store.resize E v.s i n = some (true, v.s.setl i { o with size := n }) ∧
    ∃ δ' p', Ptr.resize K E p (φ i) n = some (some (φ i), p') ∧ p'.stack = p.stack ∧
      Sim φ δ' { v with s := v.s.setl i { o with size := n } } loc (fun j m => j = i ∧ o.size ≤ m) p' := by
  obtain ⟨g, l, G⟩ := T.lst hi ho
  refine ⟨by simp [Store.resize, ho, hn], fun j => if j = i then g.data else δ j, p.put (φ i) (.head { g with size := n }), ?_, rfl, ?_⟩
  · simp [Ptr.resize, G.hd, G.alloc, hn]
  · refine T.setl (l' := l) (h' := { g with size := n }) hi ho (fun j m hj => ?_) G.type rfl G.alloc (fun ha => ?_) ?_ ?_ hd_put ?_ ?_ rfl
    · simp [none2, hj]
    · exact .inl ⟨G.data (G.alloc ▸ ha), G.alloc ▸ ha⟩
    · refine G.agree.mono fun m hm hb => ⟨?_, id⟩
      simp only [true_and] at hb
      omega
    · intro m x hm hb hx
      simp only [true_and] at hb
      exact ok_elem hi ho (by omega) id hx
    · rw [wds_put_ne]
      · exact G.wds
      · intro ha e
        exact T.sep i i o hi hi ho (G.alloc ▸ ha) (by rw [← G.data (G.alloc ▸ ha)]; exact e.symm)
    · intro a ha _
      exact .inr (by simp [P.put, ha])

/-- `snek_list_resize`. -/
theorem resize_sim (hK : K.Good) (T : Sim φ δ v loc none2 p) {i n : Nat} {o : LObj} {b : Bool} {s' : S}
    (hi : Val.list i ∈ v.roots ++ loc)
    (room : v.stk.length < v.cap) (ho : v.s.lst i = some o) (hr : Store.resize E v.s i n = some (b, s')) :
    ∃ φ' δ' p', Ptr.resize K E p (φ i) n = some (if b then some (φ' i) else none, p') ∧
      Sim φ' δ' { v with s := s' } [.list i] (fun j m => b = true ∧ j = i ∧ o.size ≤ m ∧ n ≤ o.alloc) p' := by
  have hR : R v loc none2 i := .root hi rfl
  by_cases hn : n ≤ o.alloc
  · obtain ⟨h1, δ', p', h2, -, h3⟩ := resize_room (K := K) (E := E) T hR ho hn
    rw [h1] at hr
    injection hr with hr
    injection hr with hb hs
    subst hb hs
    refine ⟨φ, δ', p', by simpa using h2, ?_⟩
    have h4 := h3.locals (loc' := [.list i]) (by
      intro x hx
      simp only [List.mem_singleton] at hx
      subst hx
      exact ok_root hi)
    refine h4.holes fun j m q _ _ => ?_
    simp [hn]
  · obtain ⟨g, l, G⟩ := T.lst hR ho
    have T1 := T.push hR.list room
    have hpush : p.push (.list (φ i)) = p.push (ren φ (.list i)) := rfl
    obtain ⟨φ', δ', p1, T2, hal⟩ := T1.alloc hK (E.off ((if o.type.readonly then n else Store.listAlloc E n) * 4))
      (.words (List.replicate (E.off ((if o.type.readonly then n else Store.listAlloc E n) * 4) / 4) Val.zero))
    obtain ⟨p2, hp2, T3⟩ := T2.popList (i := i) (l := v.stk) rfl
    simp only [Store.resize, ho, Option.bind_eq_bind, Option.bind_some, hn, if_false] at hr
    simp only [Ptr.resize, G.hd, G.alloc, G.type, hn, hpush, Option.bind_eq_bind, Option.bind_some, if_false]
    revert hr hal T2 hp2 T3
    generalize (if o.type.readonly then n else Store.listAlloc E n) = al
    intro T2 hal hp2 T3 hr
    have e0 : ({ v with stk := Val.list i :: v.stk } : V).s = v.s := rfl
    rw [e0] at hal
    rcases hal with ⟨ok, a, ha, hab, hu⟩ | ⟨ok, ha⟩
    · rw [ok] at hr
      simp only [Bool.not_true, Bool.false_eq_true, if_false] at hr
      obtain ⟨old, h1, hr⟩ := Option.bind_eq_some_iff.mp hr
      obtain ⟨data, h2, hr⟩ := Option.bind_eq_some_iff.mp hr
      injection hr with hr
      injection hr with hb hs
      subst hb hs
      rw [ha]
      simp only [hp2, Option.bind_some]
      have hR3 : R { v with s := (v.s.ask (E.off (al * 4))).2 } [.list i] none2 i := .root (x := .list i) (by simp) rfl
      have ho3 : (v.s.ask (E.off (al * 4))).2.lst i = some o := ho
      obtain ⟨g3, l3, G3⟩ := T3.lst hR3 ho3
      have m1 := G3.agree.mread (k := min n o.size) (by omega) (fun _ _ h => h) h1
      have m2 := mcpy_map (φ := φ') h2
      rw [map_zero] at m2
      rw [G3.hd]
      simp only [Option.bind_some, G3.wds, G3.size, m1, m2]
      have hu3 : Unused φ' δ' { v with s := (v.s.ask (E.off (al * 4))).2 } [.list i] none2 a := hu.pop rfl
      refine ⟨φ', fun j => if j = i then a else δ' j, _, rfl, ?_⟩
      have hne : φ' i ≠ a := (hu3 i hR3).1
      refine Sim.setl T3 (l' := data.map (ren φ')) (h' := ⟨o.type, n, al, a⟩) hR3 ho3 (fun j m hj => ?_) rfl rfl rfl
        (fun _ => .inr hu3) ?_ ?_ ?_ ?_ ?_ rfl
      · simp [none2, hj]
      · exact Agree.of_map _ _ _ _
      · intro m x hm _ hx
        rw [get_mcpy h2] at hx
        split at hx
        · rename_i hc
          simp only [Nat.sub_zero] at hx
          have hmm : m < min n o.size := by
            unfold Store.mread at h1
            split at h1
            · injection h1 with h1; subst h1; simp at hc; omega
            · cases h1
          have hx' : o.data[m]? = some x := by
            unfold Store.mread at h1
            split at h1
            · injection h1 with h1; subst h1
              rwa [List.getElem?_take_of_lt hmm] at hx
            · cases h1
          exact ok_elem hR3 ho3 (by omega) id hx'
        · apply ok_none
          have := List.mem_of_getElem? hx
          rw [List.eq_of_mem_replicate this]; rfl
      · simp only [G3.type]; exact hd_put
      · by_cases hz : al = 0
        · subst hz
          have : data = [] := by
            have := Store.mcpy_len h2
            simp [Env.off] at this
            exact this
          simp [P.wds, this]
        · rw [wds_blk (by simpa using hz)]
          simp [P.put, Ne.symm hne]
      · intro x hx hx2
        by_cases hz : x = a
        · exact .inl (hz ▸ hu3)
        · exact .inr (by simp [P.put, hx, hz])
    · rw [ok] at hr
      simp only [Bool.not_false, if_true] at hr
      injection hr with hr
      injection hr with hb hs
      subst hb hs
      rw [ha]
      simp only [hp2, Option.bind_some]
      refine ⟨φ', δ', p2, rfl, ?_⟩
      exact T3.holes fun _ _ _ _ _ => by simp [none2]

/-- `snek_list_head_alloc`. -/
theorem headAlloc_sim (hK : K.Good) (T : Sim φ δ v loc none2 p) {t : LType} {r : Option Nat} {s' : S}
    (hr : Store.headAlloc E v.s t = (r, s')) :
    ∃ φ' δ' p', Ptr.headAlloc K E p t = (r.map φ', p') ∧ Sim φ' δ' { v with s := s' } (r.toList.map .list) none2 p' ∧
      (∀ i, r = some i → s'.lst i = some ⟨t, 0, 0, []⟩) ∧ ∀ i o, v.s.lst i = some o → s'.lst i = some o := by
  obtain ⟨φ', δ', p1, T1, hal⟩ := T.alloc hK (E.A.offBits / 2) (.head ⟨t, 0, 0, 0⟩)
  unfold Store.headAlloc at hr
  unfold Ptr.headAlloc
  rcases hal with ⟨ok, a, ha, hab, hu⟩ | ⟨ok, ha⟩
  · rw [ha]
    simp only [ok, if_true] at hr
    injection hr with h1 h2
    subst h1 h2
    refine ⟨_, δ', _, ?_, T1.new hu (.list ⟨t, 0, 0, []⟩) ⟨rfl, rfl, rfl, 0, hab⟩, ?_, ?_⟩
    · simp
    · rintro i ⟨⟩
      rw [Store.lst_push]; simp
    · intro i o ho
      rw [Store.lst_push, if_neg]
      · exact ho
      · have := Store.lst_lt ho; simp; omega
  · rw [ha]
    simp only [ok] at hr
    injection hr with h1 h2
    subst h1 h2
    refine ⟨_, δ', _, ?_, T1, by rintro i ⟨⟩, fun i o ho => ho⟩
    simp

theorem resize_keeps {s s' : S} {i n : Nat} {b : Bool} (hr : Store.resize E s i n = some (b, s')) (j : Nat) (hj : j ≠ i) :
    s'.lst j = s.lst j := by
  simp only [Store.resize, Option.bind_eq_bind] at hr
  obtain ⟨o, ho, hr⟩ := Option.bind_eq_some_iff.mp hr
  split at hr
  · injection hr with hr; injection hr with _ hs; subst hs; exact Store.lst_setl_ne hj
  · revert hr
    generalize (if o.type.readonly then n else Store.listAlloc E n) = al
    intro hr
    split at hr
    · injection hr with hr; injection hr with _ hs; subst hs; rfl
    · obtain ⟨old, h1, hr⟩ := Option.bind_eq_some_iff.mp hr
      obtain ⟨data, h2, hr⟩ := Option.bind_eq_some_iff.mp hr
      injection hr with hr; injection hr with _ hs; subst hs
      rw [Store.lst_setl_ne hj]; rfl

/-- `snek_list_make`. -/
theorem make_sim (hK : K.Good) (T : Sim φ δ v loc none2 p) {n : Nat} {t : LType} {r : Option Nat} {s' : S}
    (room : v.stk.length < v.cap) (hr : Store.make E v.s n t = some (r, s')) :
    ∃ φ' δ' p', Ptr.make K E p n t = some (r.map φ', p') ∧ Sim φ' δ' { v with s := s' } (r.toList.map .list) none2 p' ∧
      ∀ i o, v.s.lst i = some o → s'.lst i = some o := by
  unfold Store.make at hr
  unfold Ptr.make
  split at hr
  · rename_i hn
    rw [if_pos hn, T.empty]
    cases he : v.s.empty with
    | some i =>
      rw [he] at hr
      injection hr with hr; injection hr with h1 h2; subst h1 h2
      refine ⟨φ, δ, p, rfl, T.locals ?_, fun _ _ h => h⟩
      intro x hx
      simp at hx
      subst hx
      exact ok_empty he
    | none =>
      rw [he] at hr
      simp only [Option.map_none]
      revert hr
      generalize hq : Store.headAlloc E v.s t = q
      obtain ⟨r1, s1⟩ := q
      intro hr
      injection hr with hr; injection hr with h1 h2; subst h1 h2
      obtain ⟨φ', δ', p', h1, T1, -, h3⟩ := headAlloc_sim hK T hq
      rw [h1]
      refine ⟨φ', δ', _, rfl, ?_, h3⟩
      refine T1.roots rfl rfl ?_ T1.stack T1.acc T1.ext rfl T1.mem T1.clock T1.abort T1.cap rfl
      intro x hx
      simp only [V.roots, List.mem_append] at hx
      rcases hx with (hx | hx) | hx
      · exact ok_root (by simp only [V.roots, List.mem_append]; exact .inl (.inl hx))
      · exact ok_loc hx
      · exact ok_loc hx
  · rename_i hn
    rw [if_neg hn]
    revert hr
    generalize hq : Store.headAlloc E v.s t = q
    obtain ⟨r1, s1⟩ := q
    intro hr
    obtain ⟨φ1, δ1, p1, h1, T1, hnew, hold⟩ := headAlloc_sim hK T hq
    rw [h1]
    cases r1 with
    | none =>
      injection hr with hr; injection hr with h1 h2; subst h1 h2
      exact ⟨φ1, δ1, p1, rfl, T1, hold⟩
    | some i =>
      simp only [Option.bind_eq_bind] at hr
      obtain ⟨⟨b, s2⟩, hz, hr⟩ := Option.bind_eq_some_iff.mp hr
      injection hr with hr; injection hr with h1 h2
      have hi := hnew i rfl
      obtain ⟨φ2, δ2, p2, h3, T2⟩ := resize_sim (v := { v with s := s1 }) hK T1 (i := i) (by simp) room hi hz
      simp only [Option.map_some]
      rw [h3]
      subst h1 h2
      refine ⟨φ2, δ2, p2, by cases b <;> rfl, ?_, ?_⟩
      · have T3 : Sim φ2 δ2 { v with s := s2 } [.list i] none2 p2 := T2.holes (v := { v with s := s2 }) (fun j m q hq hm => by
          constructor
          · rintro ⟨hb, rfl, -, h0⟩
            exfalso
            subst hb
            have h0 : n = 0 := by simpa using h0
            subst h0
            have : Store.resize E s1 j 0 = some (true, s1.setl j ⟨t, 0, 0, []⟩) := by simp [Store.resize, hi]
            rw [this] at hz
            injection hz with hz; injection hz with _ hz
            subst hz
            have hq : (s1.setl j ⟨t, 0, 0, []⟩).lst j = some q := hq
            rw [Store.lst_setl_self hi] at hq
            injection hq with hq
            subst hq
            exact absurd hm (by simp)
          · intro h; exact h.elim)
        refine T3.locals fun x hx => ok_loc ?_
        cases b <;> simp_all
      · intro j o ho
        rw [resize_keeps hz j]
        · exact hold j o ho
        · rintro rfl
          have h5 := Store.lst_lt ho
          unfold Store.headAlloc at hq
          simp only at hq
          split at hq
          · injection hq with hq _; injection hq with hq; simp at hq; omega
          · injection hq with hq; cases hq

/-- Reading words. -/
theorem peek_sim (T : Sim φ δ v loc H p) {i n : Nat} {o : LObj} {src : List Val} (hi : R v loc H i) (ho : v.s.lst i = some o)
    (hn : n ≤ o.size) (hb : ∀ m, m < n → ¬H i m) (hr : Store.peek v.s i n = some src) :
    Ptr.peek p (φ i) n = some (src.map (ren φ)) ∧ ∀ x ∈ src, Ok v loc H x := by
  obtain ⟨g, l, G⟩ := T.lst hi ho
  simp only [Store.peek, ho, Option.bind_eq_bind, Option.bind_some] at hr
  refine ⟨?_, ?_⟩
  · simp only [Ptr.peek, G.hd, G.wds, Option.bind_eq_bind, Option.bind_some]
    exact G.agree.mread hn hb hr
  · intro x hx
    unfold Store.mread at hr
    split at hr
    · injection hr with hr
      subst hr
      obtain ⟨m, hm⟩ := List.getElem?_of_mem hx
      have hm' : m < n := by
        have := (List.getElem?_eq_some_iff.mp hm).1; simp at this; omega
      rw [List.getElem?_take_of_lt hm'] at hm
      exact ok_elem hi ho (by omega) (hb m hm') hm
    · cases hr

/-- New words for list `i`, in place. -/
theorem Sim.setWords (T : Sim φ δ v loc H p) {i : Nat} {o : LObj} {g : Head} {l l' d : List Val} {sz : Nat} (hi : R v loc H i)
    (ho : v.s.lst i = some o) (G : HoldsL φ (δ i) (H i) o p (φ i) g l) (ha : o.alloc ≠ 0)
    (hH : ∀ j m, j ≠ i → (H' j m ↔ H j m)) (ag : Agree φ (H' i) sz l' d)
    (el : ∀ m x, m < sz → ¬H' i m → d[m]? = some x → Ok v loc H x) :
    Sim φ δ { v with s := v.s.setl i { o with size := sz, data := d } } loc H'
      ((p.put g.data (.words l')).put (φ i) (.head { g with size := sz })) := by
  have hne : φ i ≠ g.data := by rw [G.data ha]; exact T.sep i i o hi hi ho ha
  have := T.setl (H' := H') (l' := l') (h' := { g with size := sz }) (o' := { o with size := sz, data := d })
    (p' := (p.put g.data (.words l')).put (φ i) (.head { g with size := sz })) hi ho hH G.type rfl G.alloc
    (fun _ => .inl ⟨G.data ha, ha⟩) ag el hd_put (by
      rw [wds_put_ne (h := { g with size := sz }) (fun _ e => hne e.symm), wds_blk (by simpa [G.alloc] using ha)]
      simp [P.put]) (by
      intro a h1 h2
      exact .inr (by simp [P.put, h1, h2 (by simpa [G.alloc] using ha)])) rfl
  have hδ : (fun j => if j = i then g.data else δ j) = δ := by
    funext j
    by_cases hj : j = i
    · rw [if_pos hj, hj]; exact G.data ha
    · rw [if_neg hj]
  simpa only [hδ] using this

theorem put_same {a : Nat} {h : Head} (hh : p.hd a = some h) : p.put a (.head h) = p := by
  cases p
  simp only [P.put, P.mk.injEq, and_true]
  funext x
  split
  · rename_i e; rw [e]; exact (hd_blk.mp hh).symm
  · rfl

/-- The same with an unchanged size. -/
theorem Sim.setWords' (T : Sim φ δ v loc H p) {i : Nat} {o : LObj} {g : Head} {l l' d : List Val} (hi : R v loc H i)
    (ho : v.s.lst i = some o) (G : HoldsL φ (δ i) (H i) o p (φ i) g l) (ha : o.alloc ≠ 0)
    (hH : ∀ j m, j ≠ i → (H' j m ↔ H j m)) (ag : Agree φ (H' i) o.size l' d)
    (el : ∀ m x, m < o.size → ¬H' i m → d[m]? = some x → Ok v loc H x) :
    Sim φ δ { v with s := v.s.setl i { o with data := d } } loc H' (p.put g.data (.words l')) := by
  have := T.setWords hi ho G ha hH ag el
  have hne : φ i ≠ g.data := by rw [G.data ha]; exact T.sep i i o hi hi ho ha
  have e : (p.put g.data (.words l')).put (φ i) (.head { g with size := o.size }) = p.put g.data (.words l') := by
    apply put_same
    rw [hd_put_ne hne, G.hd, ← G.size]
  rwa [e] at this

theorem nil_of_alloc {i : Nat} {o : LObj} {g : Head} {l : List Val} (G : HoldsL φ (δ i) (H i) o p (φ i) g l) (ha : o.alloc = 0) :
    o.data = [] ∧ l = [] := by
  have : l = [] := by have := G.wds; simp [P.wds, G.alloc, ha] at this; exact this
  subst this
  exact ⟨List.eq_nil_of_length_eq_zero G.agree.1.symm, rfl⟩

/-- Writing words. -/
theorem poke_sim (T : Sim φ δ v loc H p) {i k : Nat} {src : List Val} {s' : S} (hi : R v loc H i)
    (hr : Store.poke v.s i k src = some s') (hs : ∀ x ∈ src, Ok v loc H x) :
    ∃ p', Ptr.poke p (φ i) k (src.map (ren φ)) = some p' ∧
      Sim φ δ { v with s := s' } loc (fun j m => H j m ∧ ¬(j = i ∧ k ≤ m ∧ m < k + src.length)) p' := by
  simp only [Store.poke, Option.bind_eq_bind] at hr
  obtain ⟨o, ho, hr⟩ := Option.bind_eq_some_iff.mp hr
  obtain ⟨d, hd, hr⟩ := Option.bind_eq_some_iff.mp hr
  injection hr with hr
  subst hr
  obtain ⟨g, l, G⟩ := T.lst hi ho
  obtain ⟨l', hl', A⟩ := G.agree.mcpy hd
  simp only [Ptr.poke, G.hd, G.wds, hl', Option.bind_eq_bind, Option.bind_some, G.alloc]
  by_cases ha : o.alloc = 0
  · rw [if_pos ha]
    obtain ⟨h1, h2⟩ := nil_of_alloc G ha
    refine ⟨p, rfl, ?_⟩
    have hd0 : d = [] := List.eq_nil_of_length_eq_zero (by rw [Store.mcpy_len hd, h1]; rfl)
    have hs0 : src = [] := by
      unfold Store.mcpy at hd
      split at hd
      · rename_i hk; rw [h1] at hk; exact List.eq_nil_of_length_eq_zero (by simp only [List.length_nil] at hk; omega)
      · cases hd
    have : v.s.setl i { o with data := d } = v.s := by
      rw [hd0, ← h1]; exact Store.setl_same ho
    rw [this]
    subst hs0
    refine T.holes fun j m q _ _ => ?_
    simp only [List.length_nil]
    constructor
    · intro h; exact ⟨h, by omega⟩
    · exact fun h => h.1
  · rw [if_neg ha]
    refine ⟨_, rfl, T.setWords' hi ho G ha ?_ (A.mono ?_) ?_⟩
    · intro j m hj
      simp [hj]
    · intro m hm hb
      refine ⟨hm, ?_⟩
      simpa using hb
    · intro m x hm hb hx
      rw [get_mcpy hd] at hx
      split at hx
      · exact hs x (List.mem_of_getElem? hx)
      · rename_i hc
        refine ok_elem hi ho hm (fun h => hb ⟨h, ?_⟩) hx
        rintro ⟨-, h2⟩
        exact hc h2

/-- After `poke` into a list without left-out slots. -/
theorem poke_sim0 (T : Sim φ δ v loc none2 p) {i k : Nat} {src : List Val} {s' : S} (hi : R v loc none2 i)
    (hr : Store.poke v.s i k src = some s') (hs : ∀ x ∈ src, Ok v loc none2 x) :
    ∃ p', Ptr.poke p (φ i) k (src.map (ren φ)) = some p' ∧ Sim φ δ { v with s := s' } loc none2 p' := by
  obtain ⟨p', h1, h2⟩ := poke_sim T hi hr hs
  exact ⟨p', h1, h2.holes fun j m q _ _ => by simp [none2]⟩

end Snek.Ptr
