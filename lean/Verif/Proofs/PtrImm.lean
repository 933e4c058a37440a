import Verif.Proofs.PtrRef
/-!
# Building containers at addresses
-/
namespace Snek.Ptr
open Store (Val S Obj LObj Env mcpy mread mmove mset lst_iff bytes_iff)

variable {φ δ ρ : Nat → Nat} {v v' : V} {loc loc' : List Val} {H H' : Nat → Nat → Prop} {p p' : P} {K : Coll} {E : Env}

theorem Sim.drop (n : Nat) : ∀ {v : V} {p : P} {loc : List Val}, Sim φ δ v loc H p → n ≤ v.stk.length →
    ∃ p', p.drop n = some p' ∧ Sim φ δ { v with stk := v.stk.drop n } ((v.stk.take n).reverse ++ loc) H p' := by
  induction n with
  | zero => intro v p loc T _; exact ⟨p, rfl, by simpa using T⟩
  | succ n ih =>
    intro v p loc T hn
    cases hs : v.stk with
    | nil => rw [hs] at hn; simp at hn
    | cons x l =>
      obtain ⟨p1, e1, T1, -⟩ := T.pop hs
      obtain ⟨p2, e2, T2⟩ := ih T1 (by rw [hs] at hn; simpa using hn)
      exact ⟨p2, by simp only [P.drop, e1, Option.bind_eq_bind, Option.bind_some, e2], by simpa using T2⟩

theorem pairs_take {l : List Val} {c : Nat} {k x : Val} (hk : l[2 * c + 1]? = some k) (hx : l[2 * c]? = some x) :
    Store.pairs (l.take (2 * (c + 1))).reverse = (k, x) :: Store.pairs (l.take (2 * c)).reverse := by
  have e : l.take (2 * (c + 1)) = l.take (2 * c) ++ [x, k] := by
    rw [show 2 * (c + 1) = 2 * c + 1 + 1 from by omega, List.take_succ, List.take_succ, hx, hk]
    simp
  rw [e, List.reverse_append]
  rfl

/-- The loop over keys and values. -/
theorem immLoop_sim (hE : RealCmp E) {i N : Nat} (hN : N < 2 ^ E.A.offBits) (c : Nat) : ∀ {δ : Nat → Nat} {v : V} {p : P} {o : LObj} {s' : S},
    Sim φ δ v [.list i] none2 p → 2 * c ≤ v.stk.length → v.stk.length < v.cap → v.s.lst i = some o → o.type = .dict →
    o.size + 2 * c ≤ N → N ≤ o.alloc → Store.immLoop E v.s i (Store.pairs (v.stk.take (2 * c)).reverse) = some s' →
    ∃ δ' p', Ptr.immLoop K E p (φ i) c = some p' ∧ Sim φ δ' { v with s := s' } [.list i] none2 p' := by
  induction c with
  | zero =>
    intro δ v p o s' T _ _ _ _ _ _ hr
    simp only [Nat.mul_zero, List.take_zero, List.reverse_nil, Store.pairs, Store.immLoop] at hr
    injection hr with hr
    subst hr
    exact ⟨δ, p, rfl, T⟩
  | succ c ih =>
    intro δ v p o s' T hc room ho ht hs ha hr
    obtain ⟨x, hx⟩ : ∃ x, v.stk[2 * c]? = some x := ⟨_, List.getElem?_eq_getElem (by omega)⟩
    obtain ⟨k, hk⟩ : ∃ k, v.stk[2 * c + 1]? = some k := ⟨_, List.getElem?_eq_getElem (by omega)⟩
    rw [pairs_take hk hx, Store.immLoop, Option.bind_eq_bind] at hr
    obtain ⟨⟨r, s1⟩, h1, hr⟩ := Option.bind_eq_some_iff.mp hr
    have okk : Ok v [.list i] none2 k := ok_stk (List.mem_of_getElem? hk)
    obtain ⟨δ1, p1, e1, T1, o1, ho1, ht1, ha1, hs1⟩ := ref_room (K := K) hE T (by simp) okk ho ht
      (Store.off_lt (by omega)) (by omega) room h1
    have gx : p.stack[2 * c]? = some (ren φ x) := by rw [T.stack, List.getElem?_map, hx]; rfl
    have gk : p.stack[2 * c + 1]? = some (ren φ k) := by rw [T.stack, List.getElem?_map, hk]; rfl
    simp only [Ptr.immLoop, gx, gk, Option.bind_eq_bind, Option.bind_some, e1]
    cases r with
    | none =>
      simp only [Option.map_none] at hr ⊢
      exact ih (v := { v with s := s1 }) (T1.holes fun j m q hq hm => by simp [none2]) (by simp only; omega) room ho1 ht1 (by omega)
        (by omega) hr
    | some q =>
      simp only [Option.map_some] at hr ⊢
      obtain ⟨s2, h2, hr⟩ := Option.bind_eq_some_iff.mp hr
      obtain ⟨p2, e2, T2⟩ := setSlot_sim T1 (i := i) (.root (x := .list i) (by simp) rfl) (ok_stk (List.mem_of_getElem? hx)) h2
      rw [e2]
      simp only [Option.bind_some]
      simp only [Store.setSlot, ho1, Option.bind_eq_bind, Option.bind_some] at h2
      obtain ⟨d, hd, h2⟩ := Option.bind_eq_some_iff.mp h2
      injection h2 with h2
      subst h2
      refine ih (v := { v with s := s1.setl i { o1 with data := d } }) (T2.holes fun j m q hq hm => ?_) (by simp only; omega) room
        (Store.lst_setl_self ho1) ht1 (by simp only; omega) (by simp only; omega) hr
      simp only [none2, Option.some.injEq, iff_false]
      rintro ⟨⟨h3, h4, -⟩, h5⟩
      exact h5 ⟨h3, h4.symm⟩

/-- `snek_list_imm`. -/
theorem imm_sim (hK : K.Good) (hE : RealCmp E) (T : Sim φ δ v loc none2 p) {n : Nat} {t : LType} {x : Val} {s' : S}
    (hn : n ≤ v.stk.length) (room : v.stk.length < v.cap) (hO : Store.Ok v.s) (hf : Store.Fits E n) (hd : t = .dict → n % 2 = 0)
    (hr : Store.imm E v.s t (v.stk.take n).reverse = some (x, s')) :
    ∃ φ' δ' p', Ptr.imm K E p n t = some (ren φ' x, p') ∧ Sim φ' δ' { v with stk := v.stk.drop n, s := s' } [x] none2 p' := by
  have hlen : (v.stk.take n).reverse.length = n := by simp; omega
  simp only [Store.imm, hlen, hf.off, Option.bind_eq_bind] at hr
  obtain ⟨⟨r, s1⟩, h1, hr⟩ := Option.bind_eq_some_iff.mp hr
  obtain ⟨φ1, δ1, p1, e1, T1, -⟩ := make_sim hK T room h1
  simp only [Ptr.imm, hf.off, Option.bind_eq_bind, e1, Option.bind_some]
  obtain ⟨r', s1', h1', hnew⟩ := Store.make_new (t := t) hO hf hd
  rw [h1] at h1'
  injection h1' with h1'
  injection h1' with h2 h3
  subst h2 h3
  cases r with
  | none =>
    injection hr with hr; injection hr with h2 h3; subst h2 h3
    obtain ⟨p2, e2, T2⟩ := T1.drop n hn
    simp only [Option.map_none, e2, Option.bind_some]
    exact ⟨φ1, δ1, p2, rfl, T2.locals fun y hy => by simp at hy; subst hy; exact ok_none (x := Val.none) rfl⟩
  | some i =>
    rcases hnew with ⟨h, -⟩ | ⟨k, o, h, N, h2, h3, -⟩
    · cases h
    injection h with h
    subst h
    simp only [Option.map_some] at hr ⊢
    split at hr
    · rename_i ht
      rw [if_pos ht]
      rw [N.lst] at hr
      simp only [Option.bind_some] at hr
      obtain ⟨s2, h4, hr⟩ := Option.bind_eq_some_iff.mp hr
      injection hr with hr; injection hr with h5 h6; subst h5 h6
      have hal : n ≤ o.alloc := by have := (N.ok.1 i o N.lst).1; omega
      obtain ⟨-, δ2, p2, e2, -, T2⟩ := resize_room (K := K) (E := E) (n := 0) T1 (.root (x := .list i) (by simp) rfl) N.lst (Nat.zero_le _)
      obtain ⟨g, l, G⟩ := T1.lst (i := i) (.root (x := .list i) (by simp) rfl) N.lst
      simp only [Ptr.resize, G.hd, Option.bind_eq_bind, Option.bind_some, Nat.zero_le, if_true] at e2
      injection e2 with e2; injection e2 with _ e2
      subst e2
      simp only [G.hd, Option.bind_some]
      have hev := hd ht
      have h2n : 2 * (n / 2) = n := by omega
      obtain ⟨δ3, p3, e3, T3⟩ := immLoop_sim (K := K) hE (N := n) (by unfold Store.Fits at hf; omega) (n / 2)
        (v := { v with s := s1.setl i { o with size := 0 } }) (s' := s2)
        (T2.holes fun j m q hq hm => by
          simp only [none2, iff_false]
          rintro ⟨rfl, -⟩
          rw [Store.lst_setl_self N.lst] at hq
          injection hq with hq
          subst hq
          simp at hm) (by simp only; omega) room (Store.lst_setl_self N.lst) (h2.trans ht) (by simp only; omega) (by simp only; omega)
        (by simp only [h2n]; exact h4)
      simp only [e3, Option.bind_some]
      obtain ⟨p4, e4, T4⟩ := T3.drop n hn
      simp only [e4, Option.bind_some]
      exact ⟨φ1, δ3, p4, rfl, T4.locals fun y hy => ok_loc (by simp at hy; subst hy; simp)⟩
    · rename_i ht
      rw [if_neg ht]
      split at hr
      · rename_i hz
        injection hr with hr; injection hr with h5 h6; subst h5 h6
        have hn0 : n = 0 := by rw [← hlen, hz]; rfl
        rw [if_pos hn0]
        subst hn0
        exact ⟨φ1, δ1, p1, rfl, by simpa using T1⟩
      · rename_i hz
        have hn0 : n ≠ 0 := by rintro rfl; exact hz (by simp)
        have hps : n ≤ p1.stack.length := by rw [T1.stack]; simpa using hn
        rw [if_neg hn0, if_pos hps]
        obtain ⟨s2, h4, hr⟩ := Option.bind_eq_some_iff.mp hr
        injection hr with hr; injection hr with h5 h6; subst h5 h6
        obtain ⟨p2, e2, T2⟩ := T1.drop n hn
        have hl : (p1.stack.take n).reverse = (v.stk.take n).reverse.map (ren φ1) := by
          rw [T1.stack]; simp only [List.map_reverse, List.map_take]
        obtain ⟨p3, e3, T3⟩ := poke_sim0 T2 (i := i) (.root (x := .list i) (by simp) rfl) h4 (fun y hy => ok_loc (by
          exact List.mem_append_left _ hy))
        simp only [e2, Option.bind_some, hl, e3]
        exact ⟨φ1, δ1, p3, rfl, T3.locals fun y hy => ok_loc (by simp at hy; subst hy; simp)⟩

end Snek.Ptr
