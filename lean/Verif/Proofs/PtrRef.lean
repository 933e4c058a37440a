import Verif.Proofs.PtrSeq
import Verif.Proofs.StoreSafe
/-!
# Comparison, references and elements at addresses
-/
namespace Snek.Ptr
open Store (Val S Obj LObj Env mcpy mread mmove mset lst_iff bytes_iff hcmp hcmpLoop hmut hmutLoop)

variable {φ δ ρ : Nat → Nat} {v v' : V} {loc loc' : List Val} {H H' : Nat → Nat → Prop} {p p' : P} {K : Coll} {E : Env}

/-- Comparison and mutability are those of the code (`Store.Env.real`). -/
def RealCmp (E : Env) : Prop :=
  (∀ objs a b, E.cmp objs a b = (hcmp objs (objs.length + 1) a b).getD 0) ∧
  ∀ objs a, E.isMut objs a = (hmut objs (objs.length + 1) a).getD true

/-! ## Comparison -/

theorem hcmpLoop_map {f g : Val → Val → Option Int} {h : Val → Val} : ∀ {l l' : List Val},
    (∀ a ∈ l, ∀ b ∈ l', f (h a) (h b) = g a b) → hcmpLoop f (l.map h) (l'.map h) = hcmpLoop g l l'
  | [], [], _ => rfl
  | [], _ :: _, _ => rfl
  | _ :: _, [], _ => rfl
  | a :: l, b :: l', hh => by
    simp only [List.map_cons, hcmpLoop, hh a (by simp) b (by simp)]
    rw [hcmpLoop_map fun x hx y hy => hh x (by simp [hx]) y (by simp [hy])]

theorem hmutLoop_map {f g : Val → Option Bool} {h : Val → Val} : ∀ {l : List Val},
    (∀ a ∈ l, f (h a) = g a) → hmutLoop f (l.map h) = hmutLoop g l
  | [], _ => rfl
  | a :: l, hh => by
    simp only [List.map_cons, hmutLoop, hh a (by simp)]
    rw [hmutLoop_map fun x hx => hh x (by simp [hx])]

theorem Sim.take (T : Sim φ δ v loc none2 p) {i : Nat} {o : LObj} (hi : R v loc none2 i) (ho : v.s.lst i = some o) :
    ∃ g l, HoldsL φ (δ i) (none2 i) o p (φ i) g l ∧ l.take g.size = (o.data.take o.size).map (ren φ) ∧
      ∀ x ∈ o.data.take o.size, Ok v loc none2 x := by
  obtain ⟨g, l, G⟩ := T.lst hi ho
  refine ⟨g, l, G, by rw [G.size]; exact G.agree.take fun _ _ h => h, fun x hx => ?_⟩
  obtain ⟨m, hm⟩ := List.getElem?_of_mem hx
  have hm' : m < o.size := by
    have := (List.getElem?_eq_some_iff.mp hm).1; simp at this; omega
  rw [List.getElem?_take_of_lt hm'] at hm
  exact ok_elem hi ho hm' id hm

theorem Sim.objStr (T : Sim φ δ v loc H p) {i : Nat} (hi : R v loc H i) {b : List UInt8} (h : v.s.objs[i]? = some (.str b)) :
    p.blk (φ i) = some (.str b) := by
  have := T.obj i hi
  unfold Holds at this
  rwa [h] at this

theorem Sim.objNone (T : Sim φ δ v loc H p) {i : Nat} (hi : R v loc H i) (h : v.s.objs[i]? = none) : False := by
  have := T.obj i hi
  unfold Holds at this
  rwa [h] at this

theorem pcmp_sim (T : Sim φ δ v loc none2 p) (n : Nat) : ∀ {a b : Val}, Ok v loc none2 a → Ok v loc none2 b →
    pcmp p n (ren φ a) (ren φ b) = hcmp v.s.objs n a b := by
  induction n with
  | zero => intros; rfl
  | succ n ih =>
    intro a b ha hb
    cases a <;> cases b <;> try rfl
    case str.str i j =>
      simp only [ren, pcmp, hcmp]
      cases hi : v.s.objs[i]? with
      | none => exact (T.objNone (ok_str ha) hi).elim
      | some x =>
        cases hj : v.s.objs[j]? with
        | none => exact (T.objNone (ok_str hb) hj).elim
        | some y =>
          cases x with
          | str x =>
            have e1 : p.chars (φ i) = some x := by simp only [P.chars, T.objStr (ok_str ha) hi]
            cases y with
            | str y =>
              have e2 : p.chars (φ j) = some y := by simp only [P.chars, T.objStr (ok_str hb) hj]
              simp only [e1, e2]
            | list y =>
              obtain ⟨g, l, G, -⟩ := T.take (ok_str hb) (lst_iff.mpr hj)
              have e2 : p.chars (φ j) = none := by simp only [P.chars, hd_blk.mp G.hd]
              simp only [e1, e2]
          | list x =>
            obtain ⟨g, l, G, -⟩ := T.take (ok_str ha) (lst_iff.mpr hi)
            have e2 : p.chars (φ i) = none := by simp only [P.chars, hd_blk.mp G.hd]
            simp only [e2]
    case list.list i j =>
      simp only [ren, pcmp, hcmp]
      cases hi : v.s.objs[i]? with
      | none => exact (T.objNone (ok_list ha) hi).elim
      | some x =>
        cases hj : v.s.objs[j]? with
        | none => exact (T.objNone (ok_list hb) hj).elim
        | some y =>
          cases x with
          | str x =>
            have e1 : p.hd (φ i) = none := by simp only [P.hd, T.objStr (ok_list ha) hi]
            simp only [e1]
          | list x =>
            obtain ⟨g, l, G, t1, o1⟩ := T.take (ok_list ha) (lst_iff.mpr hi)
            cases y with
            | str y =>
              have e1 : p.hd (φ j) = none := by simp only [P.hd, T.objStr (ok_list hb) hj]
              simp only [e1, G.hd]
            | list y =>
              obtain ⟨g', l', G', t2, o2⟩ := T.take (ok_list hb) (lst_iff.mpr hj)
              simp only [G.hd, G'.hd, G.type, G'.type, G.wds, G'.wds, t1, t2]
              rw [hcmpLoop_map fun a h1 b h2 => ih (o1 a h1) (o2 b h2)]

theorem pmut_sim (T : Sim φ δ v loc none2 p) (n : Nat) : ∀ {a : Val}, Ok v loc none2 a →
    pmut p n (ren φ a) = hmut v.s.objs n a := by
  induction n with
  | zero => intros; rfl
  | succ n ih =>
    intro a ha
    cases a <;> try rfl
    case list i =>
      simp only [ren, pmut, hmut]
      cases hi : v.s.objs[i]? with
      | none => exact (T.objNone (ok_list ha) hi).elim
      | some x =>
        cases x with
        | str x =>
          have e1 : p.hd (φ i) = none := by simp only [P.hd, T.objStr (ok_list ha) hi]
          simp only [e1]
        | list x =>
          obtain ⟨g, l, G, t1, o1⟩ := T.take (ok_list ha) (lst_iff.mpr hi)
          simp only [G.hd, G.type, G.wds, t1]
          rw [hmutLoop_map fun a h1 => ih (o1 a h1)]

theorem cmp_sim (hE : RealCmp E) (T : Sim φ δ v loc none2 p) {a b : Val} (ha : Ok v loc none2 a) (hb : Ok v loc none2 b) :
    p.cmp (ren φ a) (ren φ b) = E.cmp v.s.objs a b := by
  rw [P.cmp, hE.1, pcmp_sim T _ ha hb, T.n]

theorem isMut_sim (hE : RealCmp E) (T : Sim φ δ v loc none2 p) {a : Val} (ha : Ok v loc none2 a) :
    p.isMut (ren φ a) = E.isMut v.s.objs a := by
  rw [P.isMut, hE.2, pmut_sim T _ ha, T.n]

/-! ## `_snek_list_ref` -/

theorem search_map {f g : Val → Val → Int} {l data : List Val} {x x' : Val} {n : Nat} (hl : ∀ m, m < n → l[m]? = (data[m]?).map (ren φ))
    (hc : ∀ m y, m < n → data[m]? = some y → f (ren φ y) x' = g y x) : ∀ (c a r : Nat), r - a ≤ c → r ≤ n →
    Dict.search f l x' a r = Dict.search g data x a r := by
  intro c
  induction c with
  | zero =>
    intro a r h1 h2
    rw [Dict.search, Dict.search, dif_neg (by omega), dif_neg (by omega)]
  | succ c ih =>
    intro a r h1 h2
    rw [Dict.search]
    rw [Dict.search.eq_def g]
    split
    · rename_i h
      have hm : (a + r) / 2 / 2 * 2 < n := by omega
      simp only [hl _ hm]
      cases hy : data[(a + r) / 2 / 2 * 2]? with
      | none => rfl
      | some y =>
        simp only [Option.map_some, hc _ y hm hy]
        rw [ih _ r (by omega) h2, ih a _ (by omega) (by omega)]
    · rfl

/-- The key is looked up with the same result. -/
theorem search_sim (hE : RealCmp E) (T : Sim φ δ v loc none2 p) {i : Nat} {o : LObj} {g : Head} {l : List Val} {x : Val}
    (hi : R v loc none2 i) (ho : v.s.lst i = some o) (G : HoldsL φ (δ i) (none2 i) o p (φ i) g l) (hx : Ok v loc none2 x) :
    Dict.search p.cmp l (ren φ x) 0 o.size = Dict.search (E.cmp v.s.objs) o.data x 0 o.size ∧
    ∀ k, (if k < o.size then (l[k]?).map (fun y => decide (p.cmp (ren φ x) y = 0)) else some false) =
      if k < o.size then (o.data[k]?).map (fun y => decide (E.cmp v.s.objs x y = 0)) else some false := by
  refine ⟨search_map (fun m hm => G.agree.2 m hm id) (fun m y hm hy => cmp_sim hE T (ok_elem hi ho hm id hy) hx) _ 0 o.size
    (Nat.le_refl _) (Nat.le_refl _), fun k => ?_⟩
  split
  · rename_i hk
    rw [G.agree.2 k hk id]
    cases hy : o.data[k]? with
    | none => rfl
    | some y => simp only [Option.map_some, cmp_sim hE T hx (ok_elem hi ho hk id hy)]
  · rfl

/-- Insertion of the key, after the list was made larger. -/
theorem insert_sim {i k sz : Nat} {o : LObj} {g : Head} {l d1 d2 : List Val} {x : Val} {c : Prop}
    (T : Sim φ δ v loc (fun j m => j = i ∧ sz ≤ m ∧ c) p) (hi : R v loc (fun j m => j = i ∧ sz ≤ m ∧ c) i)
    (hx : Ok v loc (fun j m => j = i ∧ sz ≤ m ∧ c) x) (ho : v.s.lst i = some o) (hs : o.size = sz + 2) (hk : k ≤ sz)
    (G : HoldsL φ (δ i) ((fun j m => j = i ∧ sz ≤ m ∧ c) i) o p (φ i) g l)
    (h1 : mmove o.data (k + 2) k (o.size - k - 2) = some d1) (h2 : mset d1 k x = some d2) :
    ∃ l1 l2, mmove l (k + 2) k (o.size - k - 2) = some l1 ∧ mset l1 k (ren φ x) = some l2 ∧
      Sim φ δ { v with s := v.s.setl i { o with data := d2 } } loc (fun j m => j = i ∧ m = k + 1 ∧ sz ≤ m ∧ c)
        (p.put g.data (.words l2)) := by
  have ha : o.alloc ≠ 0 := by
    intro ha
    have := (nil_of_alloc (H := fun j m => j = i ∧ sz ≤ m ∧ c) G ha).1
    unfold Store.mmove at h1
    split at h1
    · rename_i h; rw [this, List.length_nil] at h; omega
    · cases h1
  obtain ⟨l1, e1, A1⟩ := G.agree.mmove h1 (by omega)
  obtain ⟨l2, e2, A2⟩ := A1.mset h2
  refine ⟨l1, l2, e1, e2, T.setWords' hi ho G ha (fun j m hj => by simp [hj]) ?_ ?_⟩
  · refine A2.mono fun m hm hb => ⟨hm, ?_⟩
    rintro ⟨h3, h4⟩
    split at h3
    · obtain ⟨-, h5, -⟩ := h3; omega
    · obtain ⟨-, h5, h6⟩ := h3; exact hb ⟨rfl, by omega, by omega, h6⟩
  · intro m y hm hb hy
    rw [get_mset h2, get_mmove h1] at hy
    split at hy
    · injection hy with hy; subst hy; exact hx
    · split at hy
      · exact ok_elem hi ho (by omega) (by rintro ⟨-, h, -⟩; omega) hy
      · rename_i h3 h4
        exact ok_elem hi ho hm (by rintro ⟨-, h, hc⟩; exact hb ⟨rfl, by omega, by omega, hc⟩) hy

theorem sref_dict {s : S} {i : Nat} {o : LObj} {x : Val} {add : Bool} (ho : s.lst i = some o) (ht : o.type = .dict) :
    Store.ref E s i x add = (Dict.search (E.cmp s.objs) o.data x 0 o.size).bind fun k =>
      (if k < o.size then (o.data[k]?).map (fun y => decide (E.cmp s.objs x y = 0)) else some false).bind fun found =>
      if found then some (some (k + 1), s) else
      if !add then some (none, s.fail) else
      if E.isMut s.objs x then some (none, s.fail) else
      (Store.resize E s i (E.off (o.size + 2))).bind fun (ok, s) =>
      if !ok then some (none, s) else
      (s.lst i).bind fun o =>
      if o.size < k + 2 then none else
      (mmove o.data (k + 2) k (o.size - k - 2)).bind fun d =>
      (mset d k x).bind fun d => some (some (k + 1), s.setl i { o with data := d }) := by
  simp only [Store.ref, ho, Option.bind_eq_bind, Option.bind_some, if_pos ht]
  congr 1
  funext k
  split <;> rfl

theorem pref_dict {a : Nat} {g : Head} {l : List Val} {x : Val} {add : Bool} (hg : p.hd a = some g) (hl : p.wds g = some l)
    (ht : g.type = .dict) :
    Ptr.ref K E p a x add = (Dict.search p.cmp l x 0 g.size).bind fun k =>
      (if k < g.size then (l[k]?).map (fun y => decide (p.cmp x y = 0)) else some false).bind fun found =>
      if found then some (some (a, k + 1), p) else
      if !add then some (none, p.fail) else
      if p.isMut x then some (none, p.fail) else
      (Ptr.resize K E (p.push x) a (E.off (g.size + 2))).bind fun (r, p) =>
      p.pop.bind fun (x, p) =>
      match r with
      | none => some (none, p)
      | some a =>
      (p.hd a).bind fun g =>
      (p.wds g).bind fun l =>
      if g.size < k + 2 then none else
      (mmove l (k + 2) k (g.size - k - 2)).bind fun d =>
      (mset d k x).bind fun d => some (some (a, k + 1), p.put g.data (.words d)) := by
  simp only [Ptr.ref, hg, hl, Option.bind_eq_bind, Option.bind_some, if_pos ht]
  congr 1
  funext k
  split <;> rfl

theorem found_lt {f : Val → Bool} {l : List Val} {k n : Nat} (h : (if k < n then (l[k]?).map f else some false) = some true) : k < n := by
  split at h
  · assumption
  · cases h

/-- `_snek_list_ref` where the element exists: nothing is moved. -/
theorem ref_here (hE : RealCmp E) (T : Sim φ δ v loc none2 p) {i k : Nat} {o : LObj} {x : Val} {add : Bool} {s' : S}
    (hi : R v loc none2 i) (hx : Ok v loc none2 x) (ho : v.s.lst i = some o)
    (hr : Store.ref E v.s i x add = some (some k, s')) (hs : add = true → ∀ o', s'.lst i = some o' → o'.size < o.size + 2)
    (hf : o.type = .dict → add = true → E.off (o.size + 2) = o.size + 2) :
    ∃ p', Ptr.ref K E p (φ i) (ren φ x) add = some (some (φ i, k), p') ∧ Sim φ δ { v with s := s' } loc none2 p' ∧
      p'.above = p.above ∧ (s' = v.s ∨ s' = v.s.fail) ∧ (Store.LOk o → k < o.size) := by
  obtain ⟨g, l, G⟩ := T.lst hi ho
  by_cases ht : o.type = .dict
  · rw [sref_dict ho ht] at hr
    rw [pref_dict G.hd G.wds (G.type.trans ht), G.size]
    obtain ⟨q1, q2⟩ := search_sim hE T hi ho G hx
    obtain ⟨k0, h1, hr⟩ := Option.bind_eq_some_iff.mp hr
    obtain ⟨f, h2, hr⟩ := Option.bind_eq_some_iff.mp hr
    rw [q1, h1]
    simp only [Option.bind_some]
    rw [q2, h2]
    simp only [Option.bind_some]
    cases f with
    | true =>
      simp only [if_true] at hr ⊢
      injection hr with hr; injection hr with h3 h4; subst h4; injection h3 with h3; subst h3
      have := found_lt h2
      refine ⟨p, rfl, T, rfl, .inl rfl, fun ⟨o1, o2, o3⟩ => ?_⟩
      have hev := o3 ht
      obtain ⟨k, k1, -, k2, k3⟩ := Store.search_even (E.cmp v.s.objs) o.data x o.size 0 o.size (by omega) rfl hev (by omega) (by omega)
      rw [h1] at k1
      injection k1 with k1
      omega
    | false =>
      simp only [Bool.false_eq_true, if_false] at hr
      cases add with
      | false => simp at hr
      | true =>
        simp only [Bool.not_true, Bool.false_eq_true, if_false] at hr
        split at hr
        · simp at hr
        · obtain ⟨⟨ok, s1⟩, h3, hr⟩ := Option.bind_eq_some_iff.mp hr
          cases ok with
          | false => simp at hr
          | true =>
            simp only [Bool.not_true, Bool.false_eq_true, if_false] at hr
            obtain ⟨o1, h4, hr⟩ := Option.bind_eq_some_iff.mp hr
            obtain ⟨_, o2, -, h5, h6, -⟩ := resize_size h3
            have : o2 = o1 := by rw [h5] at h4; exact Option.some.inj h4
            subst this
            split at hr
            · cases hr
            · obtain ⟨d1, h7, hr⟩ := Option.bind_eq_some_iff.mp hr
              obtain ⟨d2, h8, hr⟩ := Option.bind_eq_some_iff.mp hr
              injection hr with hr; injection hr with _ h9; subst h9
              have := hs rfl _ (Store.lst_setl_self h4)
              rw [hf ht rfl] at h6
              simp only at this
              omega
  · simp only [Store.ref, ho, Option.bind_eq_bind, Option.bind_some, if_neg ht] at hr
    simp only [Ptr.ref, G.hd, G.wds, G.type, G.size, Option.bind_eq_bind, Option.bind_some, if_neg ht]
    have hsoff : Store.soff E (ren φ x) = Store.soff E x := by cases x <;> rfl
    rw [hsoff]
    revert hr
    obtain ⟨so, e⟩ := Store.soff E x
    simp only
    generalize (if so < 0 then E.off (o.size + (2 ^ E.A.offBits - E.off (-so).toNat)) else so.toNat) = q
    intro hr
    split at hr
    · simp at hr
    · rename_i hq
      injection hr with hr; injection hr with h3 h4; subst h4; injection h3 with h3; subst h3
      simp only [if_neg hq]
      refine ⟨_, rfl, ?_, ?_, ?_, fun _ => by omega⟩
      · split
        · exact T.fail
        · exact T
      · split <;> rfl
      · split
        · exact .inr rfl
        · exact .inl rfl

theorem setl_setl {s : S} {i : Nat} {a b : LObj} : (s.setl i a).setl i b = s.setl i b := by
  simp [S.setl]

/-- `_snek_list_ref` on a dictionary with room: nothing is moved; the value slot of a new key at the end is not yet valid. -/
theorem ref_room (hE : RealCmp E) (T : Sim φ δ v loc none2 p) {i : Nat} {o : LObj} {x : Val} {r : Option Nat} {s' : S}
    (hi : Val.list i ∈ v.roots ++ loc) (hx : Ok v loc none2 x) (ho : v.s.lst i = some o) (ht : o.type = .dict)
    (hf : E.off (o.size + 2) = o.size + 2) (ha : o.size + 2 ≤ o.alloc) (room : v.stk.length < v.cap)
    (hr : Store.ref E v.s i x true = some (r, s')) :
    ∃ δ' p', Ptr.ref K E p (φ i) (ren φ x) true = some (r.map (fun k => (φ i, k)), p') ∧
      Sim φ δ' { v with s := s' } loc (fun j m => j = i ∧ r = some m ∧ o.size ≤ m) p' ∧
      ∃ o', s'.lst i = some o' ∧ o'.type = .dict ∧ o'.alloc = o.alloc ∧ o'.size ≤ o.size + 2 := by
  have hR : R v loc none2 i := .root hi rfl
  obtain ⟨g, l, G⟩ := T.lst hR ho
  rw [sref_dict ho ht] at hr
  rw [pref_dict G.hd G.wds (G.type.trans ht), G.size]
  obtain ⟨q1, q2⟩ := search_sim hE T hR ho G hx
  obtain ⟨k0, h1, hr⟩ := Option.bind_eq_some_iff.mp hr
  obtain ⟨f, h2, hr⟩ := Option.bind_eq_some_iff.mp hr
  rw [q1, h1]
  simp only [Option.bind_some]
  rw [q2, h2]
  simp only [Option.bind_some]
  cases f with
  | true =>
    simp only [if_true] at hr ⊢
    injection hr with hr; injection hr with h3 h4; subst h4 h3
    have := found_lt h2
    refine ⟨δ, p, rfl, T.holes fun j m q hq hm => ?_, o, ho, ht, rfl, by omega⟩
    simp only [none2, Option.some.injEq, false_iff]
    rintro ⟨rfl, -, h⟩
    rw [ho] at hq
    injection hq with hq
    subst hq
    omega
  | false =>
    simp only [Bool.false_eq_true, if_false, Bool.not_true] at hr ⊢
    rw [isMut_sim hE T hx]
    split at hr
    · rename_i hm
      injection hr with hr; injection hr with h3 h4; subst h4 h3
      rw [if_pos hm]
      exact ⟨δ, _, rfl, T.fail.holes fun j m q hq hm => by simp [none2], o, ho, ht, rfl, by omega⟩
    · rename_i hm
      rw [if_neg hm, hf]
      rw [hf] at hr
      have T0 := T.push hx room
      obtain ⟨z1, δ1, p1, z2, z3, T1⟩ := resize_room (K := K) (E := E) T0 hR.push ho ha
      rw [z1] at hr
      simp only [Option.bind_some, Bool.not_true, Bool.false_eq_true, if_false] at hr
      rw [z2]
      simp only [Option.bind_some]
      obtain ⟨p2, e2, T2, -, -⟩ := T1.pop (x := x) (l := v.stk) rfl
      rw [e2]
      simp only [Option.bind_some]
      rw [Store.lst_setl_self ho] at hr
      simp only [Option.bind_some] at hr
      split at hr
      · cases hr
      · rename_i hk
        obtain ⟨d1, h7, hr⟩ := Option.bind_eq_some_iff.mp hr
        obtain ⟨d2, h8, hr⟩ := Option.bind_eq_some_iff.mp hr
        injection hr with hr; injection hr with h3 h9; subst h9 h3
        have T3 : Sim φ δ1 { v with s := v.s.setl i { o with size := o.size + 2 } } (x :: loc) (fun j m => j = i ∧ o.size ≤ m ∧ True) p2 :=
          T2.holes fun j m q hq hm => by simp
        have ho1 : (v.s.setl i { o with size := o.size + 2 }).lst i = some { o with size := o.size + 2 } := Store.lst_setl_self ho
        have hi3 : R { v with s := v.s.setl i { o with size := o.size + 2 } } (x :: loc) (fun j m => j = i ∧ o.size ≤ m ∧ True) i :=
          .root (x := .list i) (by
            simp only [V.roots, List.mem_append, List.mem_cons] at hi ⊢
            rcases hi with h | h
            · exact .inl h
            · exact .inr (.inr h)) rfl
        obtain ⟨g3, l3, G3⟩ := T3.lst hi3 ho1
        obtain ⟨l4, l5, e4, e5, T4⟩ := insert_sim T3 hi3 (ok_loc (by simp)) ho1 rfl (by omega) G3 h7 h8
        simp only [G3.hd, G3.wds, G3.size, Option.bind_some, if_neg hk, e4, e5]
        refine ⟨δ1, _, rfl, ?_, ?_⟩
        · have := T4.locals (loc' := loc) fun y hy => ok_loc (by simp [hy])
          refine this.holes fun j m q hq hm => ?_
          simp only [Option.some.injEq, and_true]
          constructor
          · rintro ⟨h1, h2, h3⟩; exact ⟨h1, h2.symm, h3⟩
          · rintro ⟨h1, h2, h3⟩; exact ⟨h1, h2.symm, h3⟩
        · exact ⟨{ o with size := o.size + 2, data := d2 }, by rw [setl_setl]; exact Store.lst_setl_self ho, ht, rfl, Nat.le_refl _⟩

/-- `_snek_list_ref`. -/
theorem ref_sim (hK : K.Good) (hE : RealCmp E) (T : Sim φ δ v loc none2 p) {i : Nat} {o : LObj} {x : Val} {add : Bool} {r : Option Nat}
    {s' : S} (hi : Val.list i ∈ v.roots ++ loc) (hx : Ok v loc none2 x) (ho : v.s.lst i = some o)
    (hf : o.type = .dict → add = true → E.off (o.size + 2) = o.size + 2) (room : v.stk.length + 1 < v.cap)
    (hr : Store.ref E v.s i x add = some (r, s')) :
    ∃ φ' δ' p', Ptr.ref K E p (φ i) (ren φ x) add = some (r.map (fun k => (φ' i, k)), p') ∧
      Sim φ' δ' { v with s := s' } [.list i] (fun j m => j = i ∧ r = some m ∧ o.size ≤ m ∧ add = true ∧ o.type = .dict) p' := by
  have hR : R v loc none2 i := .root hi rfl
  have hloc : Sim φ δ v [.list i] none2 p := T.locals fun y hy => by
    simp only [List.mem_singleton] at hy; subst hy; exact ok_root hi
  obtain ⟨g, l, G⟩ := T.lst hR ho
  by_cases ht : o.type = .dict
  · rw [sref_dict ho ht] at hr
    rw [pref_dict G.hd G.wds (G.type.trans ht), G.size]
    obtain ⟨q1, q2⟩ := search_sim hE T hR ho G hx
    obtain ⟨k0, h1, hr⟩ := Option.bind_eq_some_iff.mp hr
    obtain ⟨f, h2, hr⟩ := Option.bind_eq_some_iff.mp hr
    rw [q1, h1]
    simp only [Option.bind_some]
    rw [q2, h2]
    simp only [Option.bind_some]
    cases f with
    | true =>
      simp only [if_true] at hr ⊢
      injection hr with hr; injection hr with h3 h4; subst h4 h3
      have := found_lt h2
      refine ⟨φ, δ, p, rfl, hloc.holes fun j m q hq hm => ?_⟩
      simp only [none2, Option.some.injEq, false_iff]
      rintro ⟨rfl, -, h, -⟩
      rw [ho] at hq
      injection hq with hq
      subst hq
      omega
    | false =>
      simp only [Bool.false_eq_true, if_false] at hr ⊢
      cases add with
      | false =>
        simp only [Bool.not_false, if_true] at hr ⊢
        injection hr with hr; injection hr with h3 h4; subst h4 h3
        exact ⟨φ, δ, _, rfl, hloc.fail.holes fun j m q hq hm => by simp [none2]⟩
      | true =>
        simp only [Bool.not_true, Bool.false_eq_true, if_false] at hr ⊢
        rw [isMut_sim hE T hx]
        split at hr
        · rename_i hm
          injection hr with hr; injection hr with h3 h4; subst h4 h3
          rw [if_pos hm]
          exact ⟨φ, δ, _, rfl, hloc.fail.holes fun j m q hq hm => by simp [none2]⟩
        · rename_i hm
          rw [if_neg hm, hf ht rfl]
          rw [hf ht rfl] at hr
          obtain ⟨⟨ok, s1⟩, hz, hr⟩ := Option.bind_eq_some_iff.mp hr
          have T0 := T.push hx (by omega)
          have hi' : Val.list i ∈ ({ v with stk := x :: v.stk } : V).roots ++ loc := by
            simp only [V.roots, List.mem_append, List.mem_cons] at hi ⊢
            rcases hi with ((h | h | h) | h) | h <;> simp [h]
          obtain ⟨φ1, δ1, p1, z2, T1⟩ := resize_sim (v := { v with stk := x :: v.stk }) hK T0 hi' (by simpa using room) ho hz
          rw [z2]
          simp only [Option.bind_some]
          obtain ⟨p2, e2, T2, -, -⟩ := T1.pop (x := x) (l := v.stk) rfl
          rw [e2]
          simp only [Option.bind_some]
          cases ok with
          | false =>
            simp only [Bool.not_false, if_true] at hr
            injection hr with hr; injection hr with h3 h4; subst h4 h3
            exact ⟨φ1, δ1, p2, rfl, (T2.locals fun y hy => ok_loc (by simp at hy; simp [hy])).holes fun j m q hq hm => by simp⟩
          | true =>
            simp only [Bool.not_true, Bool.false_eq_true, if_false] at hr
            obtain ⟨o1, h4, hr⟩ := Option.bind_eq_some_iff.mp hr
            obtain ⟨_, o2, -, h5, h6, -⟩ := resize_size hz
            have : o2 = o1 := by rw [h5] at h4; exact Option.some.inj h4
            subst this
            simp only [if_true]
            split at hr
            · cases hr
            · rename_i hk
              obtain ⟨d1, h7, hr⟩ := Option.bind_eq_some_iff.mp hr
              obtain ⟨d2, h8, hr⟩ := Option.bind_eq_some_iff.mp hr
              injection hr with hr; injection hr with h3 h9; subst h9 h3
              have T3 : Sim φ1 δ1 { v with s := s1 } [x, .list i] (fun j m => j = i ∧ o.size ≤ m ∧ o.size + 2 ≤ o.alloc) p2 :=
                T2.holes fun j m q hq hm => by simp
              have hi3 : R { v with s := s1 } [x, .list i] (fun j m => j = i ∧ o.size ≤ m ∧ o.size + 2 ≤ o.alloc) i :=
                .root (x := .list i) (by simp) rfl
              obtain ⟨g3, l3, G3⟩ := T3.lst hi3 h5
              obtain ⟨l4, l5, e4, e5, T4⟩ := insert_sim T3 hi3 (ok_loc (by simp)) h5 h6 (by omega) G3 h7 h8
              simp only [G3.hd, G3.wds, G3.size, Option.bind_some, if_neg hk, e4, e5]
              refine ⟨φ1, δ1, _, rfl, (T4.locals fun y hy => ok_loc (by simp at hy; simp [hy])).more fun j m q hq hm => ?_⟩
              rintro ⟨h1, h2, h3, -⟩
              exact ⟨h1, by rw [h2], h3, trivial, ht⟩
  · simp only [Store.ref, ho, Option.bind_eq_bind, Option.bind_some, if_neg ht] at hr
    simp only [Ptr.ref, G.hd, G.wds, G.type, G.size, Option.bind_eq_bind, Option.bind_some, if_neg ht]
    have hsoff : Store.soff E (ren φ x) = Store.soff E x := by cases x <;> rfl
    rw [hsoff]
    revert hr
    obtain ⟨so, e⟩ := Store.soff E x
    simp only
    generalize (if so < 0 then E.off (o.size + (2 ^ E.A.offBits - E.off (-so).toNat)) else so.toNat) = q
    intro hr
    split at hr
    · rename_i hq
      injection hr with hr; injection hr with h3 h4; subst h4 h3
      simp only [if_pos hq]
      refine ⟨φ, δ, _, rfl, ?_⟩
      split
      · exact hloc.fail.fail.holes fun j m q hq hm => by simp [none2]
      · exact hloc.fail.holes fun j m q hq hm => by simp [none2]
    · rename_i hq
      injection hr with hr; injection hr with h3 h4; subst h4 h3
      simp only [if_neg hq]
      refine ⟨φ, δ, _, rfl, ?_⟩
      split
      · exact hloc.fail.holes fun j m q hq hm => by simp [none2, ht]
      · exact hloc.holes fun j m q hq hm => by simp [none2, ht]

/-! ## Elements -/

/-- `*ref = y`. -/
theorem setSlot_sim (T : Sim φ δ v loc H p) {i k : Nat} {y : Val} {s' : S} (hi : R v loc H i) (hy : Ok v loc H y)
    (hr : Store.setSlot v.s i k y = some s') :
    ∃ p', Ptr.setSlot p (φ i) k (ren φ y) = some p' ∧ Sim φ δ { v with s := s' } loc (fun j m => H j m ∧ ¬(j = i ∧ m = k)) p' := by
  simp only [Store.setSlot, Option.bind_eq_bind] at hr
  obtain ⟨o, ho, hr⟩ := Option.bind_eq_some_iff.mp hr
  obtain ⟨d, hd, hr⟩ := Option.bind_eq_some_iff.mp hr
  injection hr with hr
  subst hr
  obtain ⟨g, l, G⟩ := T.lst hi ho
  have ha : o.alloc ≠ 0 := by
    intro ha
    have := (nil_of_alloc G ha).1
    unfold Store.mset at hd
    split at hd
    · rename_i h; rw [this, List.length_nil] at h; omega
    · cases hd
  obtain ⟨l', e1, A1⟩ := G.agree.mset hd
  refine ⟨_, by simp only [Ptr.setSlot, G.hd, G.wds, Option.bind_eq_bind, Option.bind_some, e1]; rfl,
    T.setWords' hi ho G ha (fun j m hj => by simp [hj]) ?_ ?_⟩
  · exact A1.mono fun m hm hb => ⟨hm, fun h => hb ⟨h.1, fun h' => h.2 h'.2⟩⟩
  · intro m x hm hb hx
    rw [get_mset hd] at hx
    split at hx
    · injection hx with hx; subst hx; exact hy
    · rename_i hmk
      exact ok_elem hi ho hm (fun h => hb ⟨h, fun h' => hmk h'.2⟩) hx

/-- `snek_list_get`. -/
theorem get_sim (hK : K.Good) (hE : RealCmp E) (T : Sim φ δ v loc none2 p) {i : Nat} {x y : Val} {s' : S}
    (hi : Val.list i ∈ v.roots ++ loc) (hx : Ok v loc none2 x) (room : v.stk.length + 1 < v.cap) (hO : Store.Ok v.s)
    (hr : Store.get E v.s i x = some (y, s')) :
    ∃ φ' δ' p', Ptr.get K E p (φ i) (ren φ x) = some (ren φ' y, p') ∧ Sim φ' δ' { v with s := s' } [y] none2 p' := by
  simp only [Store.get, Option.bind_eq_bind] at hr
  obtain ⟨⟨r, s1⟩, h1, hr⟩ := Option.bind_eq_some_iff.mp hr
  obtain ⟨o, ho⟩ : ∃ o, v.s.lst i = some o := by
    cases ho : v.s.lst i with
    | none => simp [Store.ref, ho] at h1
    | some o => exact ⟨o, rfl⟩
  cases r with
  | none =>
    obtain ⟨φ1, δ1, p1, e1, T1⟩ := ref_sim hK hE T hi hx ho (by simp) room h1
    have T2 := T1.holes (H' := none2) fun j m q hq hm => by simp [none2]
    simp only [Ptr.get, e1, Option.bind_eq_bind, Option.bind_some]
    injection hr with hr; injection hr with h2 h3; subst h2 h3
    exact ⟨φ1, δ1, p1, rfl, T2.locals fun y hy => by simp at hy; subst hy; exact ok_none (x := Val.none) rfl⟩
  | some k =>
    obtain ⟨p1, e1, T1, -, h2, h3⟩ := ref_here (K := K) hE T (.root hi rfl) hx ho h1 (by simp) (by simp)
    simp only [Ptr.get, e1, Option.bind_eq_bind, Option.bind_some]
    have hs1 : s1.objs = v.s.objs ∧ s1.empty = v.s.empty := by rcases h2 with rfl | rfl <;> exact ⟨rfl, rfl⟩
    simp only [Store.lst_congr hs1.1, ho, Option.bind_some] at hr
    obtain ⟨y1, hy, hr⟩ := Option.bind_eq_some_iff.mp hr
    injection hr with hr; injection hr with h4 h5; subst h4 h5
    have hk := h3 (hO.1 i o ho)
    have ho1 : s1.lst i = some o := by rw [Store.lst_congr hs1.1]; exact ho
    have hR : R { v with s := s1 } loc none2 i := .root (x := .list i) (by
      simpa only [V.roots, hs1.2] using hi) rfl
    obtain ⟨g, l, G⟩ := T1.lst hR ho1
    refine ⟨φ, δ, p1, ?_, T1.locals fun y hy' => ?_⟩
    · simp only [G.hd, G.wds, Option.bind_some, G.agree.2 k hk id, hy, Option.map_some]; rfl
    · simp at hy'; subst hy'; exact ok_elem hR ho1 hk id hy

/-- `snek_list_del` of an element that exists, and errors. -/
theorem del_sim (hK : K.Good) (hE : RealCmp E) (T : Sim φ δ v loc none2 p) {i : Nat} {o : LObj} {x : Val} {s' : S}
    (hi : Val.list i ∈ v.roots ++ loc) (hx : Ok v loc none2 x) (room : v.stk.length + 1 < v.cap) (hO : Store.Ok v.s)
    (ho : v.s.lst i = some o) (hf : o.type = .dict → E.off (o.size + 2) = o.size + 2)
    (here : ∀ k s1 o1, Store.ref E v.s i x true = some (some k, s1) → s1.lst i = some o1 → o1.size < o.size + 2)
    (hr : Store.del E v.s i x = some s') :
    ∃ φ' δ' p', Ptr.del K E p (φ i) (ren φ x) = some p' ∧ Sim φ' δ' { v with s := s' } [] none2 p' := by
  simp only [Store.del, Option.bind_eq_bind] at hr
  obtain ⟨⟨r, s1⟩, h1, hr⟩ := Option.bind_eq_some_iff.mp hr
  cases r with
  | none =>
    obtain ⟨φ1, δ1, p1, e1, T1⟩ := ref_sim hK hE T hi hx ho (fun h _ => hf h) room h1
    have T2 := T1.holes (H' := none2) fun j m q hq hm => by simp [none2]
    simp only [Ptr.del, e1, Option.bind_eq_bind, Option.bind_some]
    injection hr with hr; subst hr
    exact ⟨φ1, δ1, p1, rfl, T2.locals (by simp)⟩
  | some k =>
    obtain ⟨p1, e1, T1, -, h2, h3⟩ := ref_here (K := K) hE T (.root hi rfl) hx ho h1 (fun _ o1 h => here _ _ o1 h1 h) (fun h _ => hf h)
    have hk := h3 (hO.1 i o ho)
    have hs1 : s1.objs = v.s.objs ∧ s1.empty = v.s.empty := by rcases h2 with rfl | rfl <;> exact ⟨rfl, rfl⟩
    have ho1 : s1.lst i = some o := by rw [Store.lst_congr hs1.1]; exact ho
    have hR : R { v with s := s1 } loc none2 i := .root (x := .list i) (by
      simpa only [V.roots, hs1.2] using hi) rfl
    obtain ⟨g, l, G⟩ := T1.lst hR ho1
    have ha : o.alloc ≠ 0 := by have := (hO.1 i o ho).1; omega
    simp only [ho1, Option.bind_some] at hr
    simp only [Ptr.del, e1, Option.bind_eq_bind, Option.bind_some, G.hd, G.wds, G.type, G.size, ne_eq, not_true_eq_false, if_false]
    have key : ∀ (a b c n : Nat) (d : List Val), mmove o.data a b c = some d → b + c ≤ o.size → n ≤ o.size →
        ∃ l', mmove l a b c = some l' ∧ Sim φ δ { v with s := s1.setl i { o with size := n, data := d } } [] none2
          ((p1.put g.data (.words l')).put (φ i) (.head { g with size := n })) := by
      intro a b c n d hd hb hn
      obtain ⟨l', e2, A2⟩ := G.agree.mmove hd hb
      refine ⟨l', e2, (T1.setWords hR ho1 G ha (H' := none2) (fun _ _ _ => Iff.rfl) ?_ ?_).locals (by simp)⟩
      · exact A2.mono fun m hm _ => ⟨by omega, by split <;> exact id⟩
      · intro m y hm _ hy
        rw [get_mmove hd] at hy
        split at hy
        · exact ok_elem hR ho1 (by omega) id hy
        · exact ok_elem hR ho1 (by omega) id hy
    cases ht : o.type with
    | tuple =>
      rw [ht] at hr
      injection hr with hr; subst hr
      simp only [if_true]
      exact ⟨φ, δ, _, rfl, T1.fail.locals (by simp)⟩
    | list =>
      rw [ht] at hr
      obtain ⟨d, hd, hr⟩ := Option.bind_eq_some_iff.mp hr
      injection hr with hr; subst hr
      obtain ⟨l', e2, T2⟩ := key _ _ _ (o.size - 1) d hd (by omega) (by omega)
      simp only [reduceCtorEq, if_false, e2, Option.bind_some]
      exact ⟨φ, δ, _, rfl, by simpa only [ht, G.type] using T2⟩
    | dict =>
      rw [ht] at hr
      obtain ⟨d, hd, hr⟩ := Option.bind_eq_some_iff.mp hr
      injection hr with hr; subst hr
      obtain ⟨l', e2, T2⟩ := key _ _ _ (o.size - 2) d hd (by
        have := (hO.1 i o ho).2.2 ht
        omega) (by omega)
      simp only [reduceCtorEq, if_false, e2, Option.bind_some]
      exact ⟨φ, δ, _, rfl, by simpa only [ht, G.type] using T2⟩

end Snek.Ptr
