import Verif.Props.C06
import Verif.Props.C07
import Verif.Props.C09
import Verif.Props.C53
import Verif.Proofs.DemoStore
import Verif.Spec.DictHeap
import Verif.Proofs.Short
/-!
# C06, C07 for dictionaries in memory

The search compares keys in the memory of the moment; keys are values that cannot change, so it sees the same trees each time.
-/
namespace Snek.Store
open Spec
open Dict (flat Repr)

/-- A reference depends on the comparison with the keys only. -/
theorem dref_congr {α : Type} {cmp cmp' : α → α → Int} {m m' : α → Bool} (junk : α) (ps : List (α × α)) (p : α) (add : Bool)
    (h1 : ∀ q ∈ ps, cmp q.1 p = cmp' q.1 p) (h2 : ∀ q ∈ ps, cmp p q.1 = cmp' p q.1) (h3 : m p = m' p) :
    Dict.ref cmp m junk (flat ps) p add = Dict.ref cmp' m' junk (flat ps) p add := by
  have hs : Dict.search cmp (flat ps) p 0 (flat ps).length = Dict.search cmp' (flat ps) p 0 (flat ps).length := by
    refine search_congr (flat ps) p (flat ps).length ?_ _ _ _ (Nat.le_refl _) (Nat.le_refl _)
    intro k x _ hk hx
    obtain ⟨j, rfl⟩ : ∃ j, k = 2 * j := ⟨k / 2, by omega⟩
    rw [Dict.flat_even] at hx
    obtain ⟨q, hq, rfl⟩ := Option.map_eq_some_iff.1 hx
    exact h1 q (List.mem_of_getElem? hq)
  obtain ⟨j, hj, -⟩ := Dict.search_range cmp' ps p ps.length 0 ps.length (by omega) (by omega) (Nat.le_refl _)
  rw [Nat.mul_zero, ← Dict.flat_length] at hj
  unfold Dict.ref
  rw [hs, hj]
  simp only [h3]
  cases hd : (flat ps)[2 * j]? with
  | none => rfl
  | some x =>
    rw [Dict.flat_even] at hd
    obtain ⟨q, hq, rfl⟩ := Option.map_eq_some_iff.1 hd
    simp only [h2 q (List.mem_of_getElem? hq)]

section
variable {E : Env}

/-- Reading through a reference changes nothing. -/
theorem ref_false {s : S} (hs : Ok s) {i : Nat} {o : LObj} (h : s.lst i = some o) (ht : o.type = .dict) (junk : Val) (p : Val) :
    match Dict.ref (E.cmp s.objs) (E.isMut s.objs) junk (o.data.take o.size) p false with
    | .fault => False
    | .fail => Store.ref E s i p false = some (none, s.fail)
    | .slot d k => d = o.data.take o.size ∧ k < o.size ∧ Store.ref E s i p false = some (some k, s) := by
  obtain ⟨o1, o2, o3⟩ := hs.1 i o h
  have hev := o3 ht
  have hlen : (o.data.take o.size).length = o.size := by rw [List.length_take]; omega
  obtain ⟨k, k1, -, k2, k3⟩ := search_even (E.cmp s.objs) o.data p o.size 0 o.size (by omega) rfl hev (by omega) (by omega)
  have hk' : Dict.search (E.cmp s.objs) (o.data.take o.size) p 0 (o.data.take o.size).length = some k := by
    rw [hlen, search_take _ _ _ o.size o.size 0 o.size (by omega) (Nat.le_refl _)]; exact k1
  simp only [Store.ref, h, Option.bind_eq_bind, Option.bind_some, if_pos ht, k1, Option.pure_def, Dict.ref, hk']
  by_cases hks : k < o.size
  · have hk2 : (o.data.take o.size)[k]? = some (o.data[k]'(by omega)) := by
      rw [List.getElem?_take_of_lt hks]; exact List.getElem?_eq_getElem (by omega)
    rw [if_pos hks, List.getElem?_eq_getElem (show k < o.data.length by omega), Option.map_some, Option.bind_some, hk2]
    by_cases hc : E.cmp s.objs p (o.data[k]'(by omega)) = 0
    · simp only [hc, ne_eq, not_true, if_false, decide_true, if_true, true_and, and_true]; omega
    · simp [hc]
  · rw [if_neg hks, List.getElem?_eq_none (by omega)]
    simp

/-- A reference to a new entry fails only if the allocator refuses. -/
theorem ref_true_short {s s' : S} {i : Nat} {o : LObj} (h : s.lst i = some o) (ht : o.type = .dict) {p : Val} (hm : E.isMut s.objs p = false)
    (hr : Store.ref E s i p true = some (none, s')) : s.Short := by
  simp only [Store.ref, h, Option.bind_eq_bind, Option.bind_some, if_pos ht, Option.pure_def] at hr
  obtain ⟨k, -, hr⟩ := Option.bind_eq_some_iff.1 hr
  have tail : ∀ s', ((resize E s i (E.off (o.size + 2))).bind fun x =>
      if (!x.1) = true then some ((none : Option Nat), x.2)
      else (x.2.lst i).bind fun o => if o.size < k + 2 then none
        else (mmove o.data (k + 2) k (o.size - k - 2)).bind fun d => (mset d k p).bind fun d =>
          some (some (k + 1), x.2.setl i { o with data := d })) = some (none, s') → s.Short := by
    intro s' hr
    obtain ⟨⟨b, s1⟩, h1, hr⟩ := Option.bind_eq_some_iff.1 hr
    cases b with
    | false => exact resize_short h1
    | true =>
      simp only [Bool.not_true, Bool.false_eq_true, if_false] at hr
      obtain ⟨o', -, hr⟩ := Option.bind_eq_some_iff.1 hr
      split at hr
      · cases hr
      · obtain ⟨_, -, hr⟩ := Option.bind_eq_some_iff.1 hr
        obtain ⟨_, -, hr⟩ := Option.bind_eq_some_iff.1 hr
        simp at hr
  split at hr
  · obtain ⟨f, -, hr⟩ := Option.bind_eq_some_iff.1 hr
    cases f with
    | true => simp at hr
    | false =>
      simp only [Bool.false_eq_true, if_false, Bool.not_true, hm] at hr
      exact tail _ hr
  · simp only [Bool.false_eq_true, if_false, Bool.not_true, hm] at hr
    exact tail _ hr

theorem resize_clock {s s' : S} {i n : Nat} {b : Bool} (h : resize E s i n = some (b, s')) : s.clock ≤ s'.clock := by
  simp only [resize, Option.bind_eq_bind, Option.pure_def] at h
  obtain ⟨o, -, h⟩ := Option.bind_eq_some_iff.1 h
  split at h
  · simp only [Option.some.injEq, Prod.mk.injEq] at h; rw [← h.2]; exact Nat.le_refl _
  · generalize E.off ((if o.type.readonly = true then n else listAlloc E n) * 4) = c at h
    cases hm : (s.ask c).1 with
    | false =>
      simp only [hm, Bool.not_false, if_true, Option.some.injEq, Prod.mk.injEq] at h; rw [← h.2]; exact Nat.le_succ _
    | true =>
      simp only [hm, Bool.not_true, Bool.false_eq_true, if_false] at h
      obtain ⟨_, -, h⟩ := Option.bind_eq_some_iff.1 h
      obtain ⟨_, -, h⟩ := Option.bind_eq_some_iff.1 h
      simp only [Option.some.injEq, Prod.mk.injEq] at h; rw [← h.2]; exact Nat.le_succ _

theorem make_clock {s s' : S} {n : Nat} {r : Option Nat} (h : make E s n .dict = some (r, s')) : s.clock ≤ s'.clock := by
  unfold make at h
  rw [if_neg (fun e => by cases e.2)] at h
  cases hm : (s.ask (E.A.offBits / 2)).1 with
  | false =>
    simp only [headAlloc, hm, Bool.false_eq_true, if_false, Option.some.injEq, Prod.mk.injEq] at h; rw [← h.2]; exact Nat.le_succ _
  | true =>
    simp only [headAlloc, hm, if_true, Option.bind_eq_bind, Option.pure_def] at h
    obtain ⟨⟨b, s1⟩, h1, h⟩ := Option.bind_eq_some_iff.1 h
    have hc := resize_clock h1
    simp only [Option.some.injEq, Prod.mk.injEq] at h
    rw [← h.2]; exact Nat.le_trans (Nat.le_succ _) hc

theorem ref_clock {s s' : S} {i : Nat} {o : LObj} (h : s.lst i = some o) (ht : o.type = .dict) {p : Val} {r : Option Nat}
    (hr : Store.ref E s i p true = some (r, s')) : s.clock ≤ s'.clock := by
  simp only [Store.ref, h, Option.bind_eq_bind, Option.bind_some, if_pos ht, Option.pure_def] at hr
  obtain ⟨k, -, hr⟩ := Option.bind_eq_some_iff.1 hr
  have tail : ((resize E s i (E.off (o.size + 2))).bind fun x =>
      if (!x.1) = true then some ((none : Option Nat), x.2)
      else (x.2.lst i).bind fun o => if o.size < k + 2 then none
        else (mmove o.data (k + 2) k (o.size - k - 2)).bind fun d => (mset d k p).bind fun d =>
          some (some (k + 1), x.2.setl i { o with data := d })) = some (r, s') → s.clock ≤ s'.clock := by
    intro hr
    obtain ⟨⟨b, s1⟩, h1, hr⟩ := Option.bind_eq_some_iff.1 hr
    have hc := resize_clock h1
    split at hr
    · simp only [Option.some.injEq, Prod.mk.injEq] at hr; rw [← hr.2]; exact hc
    · obtain ⟨o', -, hr⟩ := Option.bind_eq_some_iff.1 hr
      split at hr
      · cases hr
      · obtain ⟨_, -, hr⟩ := Option.bind_eq_some_iff.1 hr
        obtain ⟨_, -, hr⟩ := Option.bind_eq_some_iff.1 hr
        simp only [Option.some.injEq, Prod.mk.injEq] at hr; rw [← hr.2]; exact hc
  have rest : ∀ f : Bool, (if f = true then some (some (k + 1), s) else if (!true) = true then some (none, s.fail)
      else if E.isMut s.objs p = true then some (none, s.fail) else ((resize E s i (E.off (o.size + 2))).bind fun x =>
      if (!x.1) = true then some ((none : Option Nat), x.2)
      else (x.2.lst i).bind fun o => if o.size < k + 2 then none
        else (mmove o.data (k + 2) k (o.size - k - 2)).bind fun d => (mset d k p).bind fun d =>
          some (some (k + 1), x.2.setl i { o with data := d }))) = some (r, s') → s.clock ≤ s'.clock := by
    intro f hr
    split at hr
    · simp only [Option.some.injEq, Prod.mk.injEq] at hr; rw [← hr.2]; exact Nat.le_refl _
    · rw [if_neg (by decide)] at hr
      split at hr
      · simp only [Option.some.injEq, Prod.mk.injEq] at hr; rw [← hr.2]; exact Nat.le_refl _
      · exact tail hr
  split at hr
  · obtain ⟨f, -, hr⟩ := Option.bind_eq_some_iff.1 hr
    exact rest f hr
  · exact rest false hr

theorem inLoop_flat (cmp : Val → Val → Int) (a : Val) (h : 0 < 2) (ps : List (Val × Val)) :
    inLoop cmp a 2 h (flat ps) = true ↔ ∃ q ∈ ps, cmp a q.1 = 0 := by
  induction ps with
  | nil => simp [flat, inLoop]
  | cons q ps ih =>
    simp only [flat, inLoop_two]
    split
    · rename_i hc; simp [hc]
    · rename_i hc; simp [hc, ih]

end

section
variable {A : Arch} {powf : BitVec 32 → BitVec 32 → BitVec 32} {fmt : List Obj → List UInt8 → Val → Option (Option (List UInt8))}
  {any : BinOp → BitVec 32 → BitVec 32 → BitVec 32} {anyOff : BitVec 32 → Int}

local notation "R" => Env.real A powf fmt any anyOff

variable {i : Nat} {τ : Val → Tree} {G : Tree → Prop}

/-- The comparison of what the keys look like. -/
def tcmp (τ : Val → Tree) (a b : Val) : Int := (τ a).cmp (τ b)

def tmut (τ : Val → Tree) (a : Val) : Bool := (τ a).mutable

/-- Equal keys. -/
def SameKey (τ : Val → Tree) (a b : Val) : Prop := Same (τ a) (τ b)

theorem ord_keys (hG : ∀ t, G t → Stored t ∧ t.mutable = false) (hc : ∀ a b, G a → G b → ¬ PrefixClash a b) :
    Dict.OrdOn (fun v => G (τ v)) (tcmp τ) := by
  have O := Dict.ordTree G (fun k hk => (hG k hk).1) hc
  exact ⟨fun a b ha hb => O.anti _ _ ha hb, fun a b c ha hb hcc => O.tri _ _ _ ha hb hcc⟩

theorem same_keys (hG : ∀ t, G t → Stored t ∧ t.mutable = false) (a b : Val) (ha : G (τ a)) (hb : G (τ b)) : tcmp τ a b = 0 ↔ SameKey τ a b := by
  unfold tcmp SameKey
  rw [cmp_zero_ok, okCmp_same _ _ (hG _ ha).1 (hG _ hb).1]

/-- What holds after a history. -/
structure Holding (i : Nat) (τ : Val → Tree) (G : Tree → Prop) (h : List (DictOp Val)) (s : S) (ps : List (Val × Val)) : Prop where
  ok : Ok s
  elems : s.elems i = some (.dict, flat ps)
  repr : Repr (fun v => G (τ v)) (tcmp τ) (SameKey τ) h ps
  keys : ∀ q ∈ ps, Unfolds s.objs (τ q.1) q.1
  len : ps.length ≤ h.length

/-- The reference to a key in memory. -/
theorem Holding.ref {h : List (DictOp Val)} {s : S} {ps : List (Val × Val)} (H : Holding i τ G h s ps) (hf : Fits R (2 * ps.length + 2)) (k : Val)
    (hk : Unfolds s.objs (τ k) k) (add : Bool) :
    ∃ o junk r s', s.lst i = some o ∧ o.type = .dict ∧ Store.ref R s i k add = some (r, s') ∧ s'.mem = s.mem ∧ s'.empty = s.empty ∧
      match Dict.ref (tcmp τ) (tmut τ) junk (flat ps) k add with
      | .fault => False
      | .fail => r = none ∧ s' = s.fail
      | .slot d n =>
        (r = none ∧ s'.abort = true ∧ s'.objs = s.objs) ∨
        (r = some n ∧ n < d.length ∧ 0 < n ∧ s'.abort = s.abort ∧
          ∃ o', s'.objs = s.objs.set i (.list o') ∧ o'.type = .dict ∧ LOk o' ∧ o'.data.take o'.size = d) := by
  obtain ⟨o, ho, hl⟩ := Option.map_eq_some_iff.1 H.elems
  simp only [Prod.mk.injEq] at hl
  obtain ⟨o1, o2, -⟩ := H.ok.1 i o ho
  have hsz : o.size = 2 * ps.length := by
    have := congrArg List.length hl.2
    rw [List.length_take, Dict.flat_length] at this; omega
  obtain ⟨junk, r, s', h1, h2, h3, h4⟩ := ref_dict (E := R) H.ok ho hl.1 (by rw [hsz]; exact hf) k add
  refine ⟨o, junk, r, s', ho, hl.1, h1, h2, h3, ?_⟩
  rw [hl.2, dref_congr (cmp' := tcmp τ) (m' := tmut τ) junk ps k add (fun q hq => real_cmp (H.keys q hq) hk) (fun q hq => real_cmp hk (H.keys q hq))
    (real_mut hk)] at h4
  exact h4

theorem frozen_set {s : S} {o o' : LObj} (ho : s.lst i = some o) (ht : o.type = .dict) {s' : S} (h : s'.objs = s.objs.set i (.list o')) (j : Nat) (x : Obj)
    (hx : s.objs[j]? = some x) (hf : Frozen x) : s'.objs[j]? = some x := by
  by_cases hj : j = i
  · subst hj
    rw [lst_iff.1 ho] at hx
    cases hx
    simp only [Frozen] at hf
    rw [ht] at hf; cases hf
  · rw [h, List.getElem?_set_ne (Ne.symm hj)]; exact hx

variable (hG : ∀ t, G t → Stored t ∧ t.mutable = false) (hc : ∀ a b, G a → G b → ¬ PrefixClash a b)
include hG hc

theorem Holding.store {h : List (DictOp Val)} {s : S} {ps : List (Val × Val)} (H : Holding i τ G h s ps) (hf : Fits R (2 * ps.length + 2)) (k v : Val)
    (hg : G (τ k)) (hk : Unfolds s.objs (τ k) k) :
    ∃ s', storeElem R (.list i) k v s = some s' ∧ s'.mem = s.mem ∧ s.clock ≤ s'.clock ∧ (∀ j, j ≠ i → s'.objs[j]? = s.objs[j]?) ∧
      ((s'.abort = true ∧ s'.objs = s.objs ∧ s.Short ∧ Ok s') ∨ (s'.abort = s.abort ∧ ∃ ps', Holding i τ G (.store k v :: h) s' ps')) := by
  have O := ord_keys (τ := τ) hG hc
  obtain ⟨o, junk, r, s', ho, ht, h1, h2, h3, h4⟩ := H.ref hf k hk true
  obtain ⟨ps', q1, q2⟩ := H.repr.store O (fun a b ha hb => same_keys hG a b ha hb) (tmut τ) junk k v hg (hG _ hg).2
  have hel : elemRef R s (.list i) k = some (r.map fun n => (i, n), s') := by
    simp only [elemRef, ho, ht, LType.readonly, h1, Option.bind_eq_bind, Option.bind_some, Option.pure_def, Bool.false_eq_true, if_false]
    cases r <;> rfl
  cases hr : Dict.ref (tcmp τ) (tmut τ) junk (flat ps) k true with
  | fault => rw [hr] at h4; cases h4
  | fail => simp only [Dict.store, hr] at q1; cases q1
  | slot d n =>
    rw [hr] at h4
    simp only [Dict.store, hr] at q1
    rcases h4 with ⟨rfl, h5, h6⟩ | ⟨rfl, h5, h6, h7, o', h8, h9, h10, h11⟩
    · exact ⟨s', by simp only [storeElem, hel, Option.map_none, Option.bind_eq_bind, Option.bind_some, Option.pure_def], h2, ref_clock ho ht h1, fun j _ => by rw [h6], .inl ⟨h5, h6, ref_true_short ho ht ((real_mut hk).trans (hG _ hg).2) h1, H.ok.congr h6 h3⟩⟩
    · rw [if_pos h5] at q1
      have hd : d.set n v = flat ps' := by injection q1
      have hl' : s'.lst i = some o' := by rw [lst_congr (s := s.setl i o') h8]; exact lst_setl_self ho
      have hok : Ok s' := (H.ok.setl ho h10 (fun he => by
        obtain ⟨x, hx, hx2, -⟩ := H.ok.2 i he
        rw [ho] at hx; cases hx; rw [ht] at hx2; cases hx2)).congr h8 h3
      have hlen : d.length = o'.size := by rw [← h11, List.length_take]; have := h10.1; have := h10.2.1; omega
      obtain ⟨o2, w1, w2, w3, w4, w5⟩ := setSlot_ok hok hl' (k := n) (by omega) v
      have hobj : (s'.setl i o2).objs = s.objs.set i (.list o2) := by rw [objs_setl, h8, List.set_set]
      have hkeep := unfolds_keep (frozen_set ho ht hobj)
      refine ⟨s'.setl i o2, by simp only [storeElem, hel, Option.map_some, Option.bind_eq_bind, Option.bind_some, w1], h2, (ref_clock ho ht h1 : s.clock ≤ s'.clock),
        fun j hj => by rw [hobj, List.getElem?_set_ne (Ne.symm hj)], .inr ⟨h7, ps', w2, ?_, q2, ?_, ?_⟩⟩
      · simp only [S.elems, lst_setl_self hl', Option.map_some, w3, w4, w5, h9, List.take_set, h11, hd]
      · obtain ⟨lo, hi, -, -, hst⟩ := Dict.store_spec O (tmut τ) junk ps k v H.repr.sorted hg (hG _ hg).2
        have hin : ∀ q ∈ ps', (∃ q' ∈ ps, q'.1 = q.1) ∨ q.1 = k := by
          rcases hst with ⟨k0, w, -, e1, e2⟩ | ⟨e1, e2⟩
          · have e3 : ps' = lo ++ (k0, v) :: hi := by
              simp only [Dict.store, hr, if_pos h5] at e2
              injection e2 with e2; exact Dict.flat_inj (hd.symm.trans e2)
            subst e3; subst e1
            intro q hq
            left
            rcases List.mem_append.1 hq with hq | hq
            · exact ⟨q, by simp [hq], rfl⟩
            · rcases List.mem_cons.1 hq with rfl | hq
              · exact ⟨(k0, w), by simp, rfl⟩
              · exact ⟨q, by simp [hq], rfl⟩
          · have e3 : ps' = lo ++ (k, v) :: hi := by
              simp only [Dict.store, hr, if_pos h5] at e2
              injection e2 with e2; exact Dict.flat_inj (hd.symm.trans e2)
            subst e3; subst e1
            intro q hq
            rcases List.mem_append.1 hq with hq | hq
            · exact .inl ⟨q, by simp [hq], rfl⟩
            · rcases List.mem_cons.1 hq with rfl | hq
              · exact .inr rfl
              · exact .inl ⟨q, by simp [hq], rfl⟩
        intro q hq
        have hmut : (τ q.1).mutable = false := (hG _ (q2.sorted.key q hq)).2
        rcases hin q hq with ⟨q', hq', e⟩ | e
        · rw [← e] at hmut ⊢; exact hkeep _ _ hmut (H.keys q' hq')
        · rw [e] at hmut ⊢; exact hkeep _ _ hmut hk
      · have e1 := dref_length hr
        have e2 := congrArg List.length hd
        rw [Dict.flat_length] at e1
        rw [List.length_set, Dict.flat_length] at e2
        have := H.len
        simp only [List.length_cons]; omega

theorem Holding.del {h : List (DictOp Val)} {s : S} {ps : List (Val × Val)} (H : Holding i τ G h s ps) (hf : Fits R (2 * ps.length + 2)) (k : Val)
    (hg : G (τ k)) (hk : Unfolds s.objs (τ k) k) :
    ∃ s', delElem R (.list i) k s = some s' ∧ s'.mem = s.mem ∧ (∀ j, j ≠ i → s'.objs[j]? = s.objs[j]?) ∧
      ((s'.abort = true ∧ s'.objs = s.objs ∧ s.Short) ∨ (s'.abort = s.abort ∧ ∃ ps', Holding i τ G (.del k :: h) s' ps' ∧ ∃ lo hi, ps' = lo ++ hi ∧ (∀ e ∈ lo ++ hi, tcmp τ k e.1 ≠ 0) ∧
        ((∃ k0 w, tcmp τ k k0 = 0 ∧ ps = lo ++ (k0, w) :: hi) ∨ ps = lo ++ hi))) := by
  have O := ord_keys (τ := τ) hG hc
  obtain ⟨o, junk, r, s', ho, ht, h1, h2, h3, h4⟩ := H.ref hf k hk true
  obtain ⟨ps', q1, q2⟩ := H.repr.del O (fun a b ha hb => same_keys hG a b ha hb) (tmut τ) junk k hg (hG _ hg).2
  cases hr : Dict.ref (tcmp τ) (tmut τ) junk (flat ps) k true with
  | fault => rw [hr] at h4; cases h4
  | fail => simp only [Dict.del, hr] at q1; cases q1
  | slot d n =>
    rw [hr] at h4
    simp only [Dict.del, hr] at q1
    rcases h4 with ⟨rfl, h5, h6⟩ | ⟨rfl, h5, h6, h7, o', h8, h9, h10, h11⟩
    · exact ⟨s', by simp only [delElem, Store.del, h1, Option.bind_eq_bind, Option.bind_some, Option.pure_def], h2, fun j _ => by rw [h6], .inl ⟨h5, h6, ref_true_short ho ht ((real_mut hk).trans (hG _ hg).2) h1⟩⟩
    · have hd : d.take (n - 1) ++ d.drop (n - 1 + 2) = flat ps' := by injection q1
      have hl' : s'.lst i = some o' := by rw [lst_congr (s := s.setl i o') h8]; exact lst_setl_self ho
      have hok : Ok s' := (H.ok.setl ho h10 (fun he => by
        obtain ⟨x, hx, hx2, -⟩ := H.ok.2 i he
        rw [ho] at hx; cases hx; rw [ht] at hx2; cases hx2)).congr h8 h3
      obtain ⟨l1, l2, l3⟩ := h10
      have hlen : d.length = o'.size := by rw [← h11, List.length_take]; omega
      have hev := l3 h9
      have hm : mmove o'.data (n - 1) (n + 1) (o'.size - (n - 1) - 2) =
        some (o'.data.take (n - 1) ++ (o'.data.drop (n + 1)).take (o'.size - (n - 1) - 2) ++ o'.data.drop (n - 1 + (o'.size - (n - 1) - 2))) :=
          if_pos (by omega)
      generalize hD : o'.data.take (n - 1) ++ (o'.data.drop (n + 1)).take (o'.size - (n - 1) - 2) ++ o'.data.drop (n - 1 + (o'.size - (n - 1) - 2)) = D at hm
      have hDl := mmove_len hm
      have hDt : D.take (o'.size - 2) = flat ps' := by
        rw [← hd, ← hD]
        have e1 : (o'.data.take (n - 1) ++ (o'.data.drop (n + 1)).take (o'.size - (n - 1) - 2)).length = o'.size - 2 := by
          simp only [List.length_append, List.length_take, List.length_drop]; omega
        rw [List.take_append_of_le_length (by omega), List.take_of_length_le (by omega), ← h11, List.take_take, Nat.min_eq_left (by omega),
          List.drop_take, show n - 1 + 2 = n + 1 by omega]
        congr 2; omega
      let o2 : LObj := { o' with size := o'.size - 2, data := D }
      have hobj : (s'.setl i o2).objs = s.objs.set i (.list o2) := by rw [objs_setl, h8, List.set_set]
      have hkeep := unfolds_keep (frozen_set ho ht hobj)
      have hok2 : Ok (s'.setl i o2) := hok.setl hl' ⟨by simp only [o2]; omega, by simp only [o2]; omega, fun _ => by simp only [o2]; omega⟩
        (empty_excl hok hl' (by rw [h9]; decide))
      obtain ⟨lo, hi, hlo, hhi, hdel, hsp⟩ := Dict.del_spec O (tmut τ) junk ps k H.repr.sorted hg (hG _ hg).2
      have e3 : ps' = lo ++ hi := by
        simp only [Dict.del, hr] at hdel
        injection hdel with hdel; exact Dict.flat_inj (hd.symm.trans hdel)
      have hin : ∀ q ∈ ps', q ∈ ps := by
        intro q hq
        rw [e3] at hq
        rcases hsp with ⟨k0, w, -, e⟩ | e
        · rw [e]; rcases List.mem_append.1 hq with hq | hq <;> simp [hq]
        · rw [e]; exact hq
      refine ⟨s'.setl i o2, ?_, h2, fun j hj => by rw [hobj, List.getElem?_set_ne (Ne.symm hj)], .inr ⟨h7, ps', ⟨hok2, ?_, q2, ?_, ?_⟩, lo, hi, e3, ?_, hsp⟩⟩
      · simp only [delElem, Store.del, h1, Option.bind_eq_bind, Option.bind_some, Option.pure_def, hl', h9, hm, o2]
      · simp only [S.elems, lst_setl_self hl', Option.map_some, o2, h9, hDt]
      · intro q hq
        exact hkeep _ _ (hG _ (q2.sorted.key q hq)).2 (H.keys q (hin q hq))
      · have : ps'.length ≤ ps.length := by
          rw [e3]; rcases hsp with ⟨k0, w, -, e⟩ | e <;> rw [e] <;> simp only [List.length_append, List.length_cons] <;> omega
        have := H.len
        simp only [List.length_cons]; omega
      · intro e he
        have hke : G (τ e.1) := H.repr.sorted.key e (hin e (e3 ▸ he))
        rcases List.mem_append.1 he with h' | h'
        · have := hlo e h'; have := O.anti e.1 k hke hg; omega
        · have := hhi e h'; omega

/-- After any history of a dictionary that was empty. -/
theorem History.holding {h : List (DictOp Val)} {s0 s : S} (hh : History R i τ h s0 s) (hs : Ok s0) (he : s0.elems i = some (.dict, []))
    (hk : ∀ op ∈ h, G (τ op.key)) (hf : Fits R (2 * h.length)) : ∃ ps, Holding i τ G h s ps := by
  have O := ord_keys (τ := τ) hG hc
  induction hh with
  | start s => exact ⟨[], hs, he, Repr.init O (fun a b ha hb => same_keys hG a b ha hb), (fun q hq => by cases hq), Nat.le_refl _⟩
  | store h s s1 s2 k v _ hu hst ha ih =>
    simp only [List.length_cons] at hf
    obtain ⟨ps, H⟩ := ih hs he (fun op ho => hk op (List.mem_cons_of_mem _ ho)) (hf.mono (by omega))
    obtain ⟨s', e1, -, -, -, e2⟩ := H.store (A := A) (powf := powf) (fmt := fmt) (any := any) (anyOff := anyOff) hG hc (hf.mono (by have := H.len; omega)) k v
      (hk (.store k v) List.mem_cons_self) hu
    rw [hst] at e1; cases e1
    rcases e2 with ⟨e2, -⟩ | ⟨-, e2⟩
    · rw [ha] at e2; cases e2
    · exact e2
  | del h s s1 s2 k _ hu hst ha ih =>
    simp only [List.length_cons] at hf
    obtain ⟨ps, H⟩ := ih hs he (fun op ho => hk op (List.mem_cons_of_mem _ ho)) (hf.mono (by omega))
    obtain ⟨s', e1, -, -, e2⟩ := H.del (A := A) (powf := powf) (fmt := fmt) (any := any) (anyOff := anyOff) hG hc (hf.mono (by have := H.len; omega)) k
      (hk (.del k) List.mem_cons_self) hu
    rw [hst] at e1; cases e1
    rcases e2 with ⟨e2, -⟩ | ⟨-, ps', e2, -⟩
    · rw [ha] at e2; cases e2
    · exact ⟨ps', e2⟩
  | other h s s1 s2 _ hok hel hfr ih =>
    obtain ⟨ps, H⟩ := ih hs he hk hf
    exact ⟨ps, hok, by rw [hel]; exact H.elems, H.repr, fun q hq => unfolds_keep hfr _ _ (hG _ (H.repr.sorted.key q hq)).2 (H.keys q hq), H.len⟩

/-- What a read of a key gives. -/
theorem Holding.index {h : List (DictOp Val)} {s : S} {ps : List (Val × Val)} (H : Holding i τ G h s ps) (k : Val) (hg : G (τ k))
    (hk : Unfolds s.objs (τ k) k) :
    (∃ v, Holds (SameKey τ) h k v ∧ Store.index R s (.list i) k = some (v, s)) ∨
    ((¬ ∃ v, Holds (SameKey τ) h k v) ∧ Store.index R s (.list i) k = some (Val.none, s.fail)) := by
  have O := ord_keys (τ := τ) hG hc
  obtain ⟨o, ho, hl⟩ := Option.map_eq_some_iff.1 H.elems
  simp only [Prod.mk.injEq] at hl
  have h4 := ref_false (E := R) H.ok ho hl.1 Val.zero k
  rw [hl.2, dref_congr (cmp' := tcmp τ) (m' := tmut τ) Val.zero ps k false (fun q hq => real_cmp (H.keys q hq) hk) (fun q hq => real_cmp hk (H.keys q hq))
    (real_mut hk)] at h4
  rcases Dict.get_spec O (tmut τ) Val.zero ps k H.repr.sorted hg with ⟨k', v, hm, hcmp, hgt⟩ | ⟨hne, hgt⟩
  · left
    refine ⟨v, (H.repr.holds k hg v).1 ⟨k', hm, hcmp⟩, ?_⟩
    unfold Dict.get at hgt
    cases hr : Dict.ref (tcmp τ) (tmut τ) Val.zero (flat ps) k false with
    | fault => rw [hr] at h4; cases h4
    | fail => rw [hr] at hgt; cases hgt
    | slot d n =>
      rw [hr] at h4 hgt
      obtain ⟨e1, e2, e3⟩ := h4
      simp only [] at hgt
      have hv : o.data[n]? = some v := by
        subst e1
        rw [← hl.2, List.getElem?_take_of_lt e2] at hgt
        split at hgt
        · cases hgt
        · rename_i e; rw [e]; cases hgt; rfl
      simp only [Store.index, Store.get, e3, Option.bind_eq_bind, Option.bind_some, ho, hv, Option.pure_def]
  · right
    refine ⟨?_, ?_⟩
    · rintro ⟨v, hv⟩
      obtain ⟨k', hm, hcm⟩ := (H.repr.holds k hg v).2 hv
      exact hne _ hm hcm
    · unfold Dict.get at hgt
      cases hr : Dict.ref (tcmp τ) (tmut τ) Val.zero (flat ps) k false with
      | fault => rw [hr] at h4; cases h4
      | fail => rw [hr] at h4; simp only [Store.index, Store.get, h4, Option.bind_eq_bind, Option.bind_some, Option.pure_def]
      | slot d n =>
        rw [hr] at hgt
        simp only [] at hgt
        split at hgt <;> cases hgt

/-- C06 for a dictionary object in the memory of a running program: after any history of assignments and deletions, with anything in between that
leaves the dictionary alone, reads, `in`, `len` and the entries are those of the finite map the history describes; reading a missing key is an
error and changes nothing else. `G` are the keys used, as in `C06_map_partial`. -/
theorem C06_heap_partial {h : List (DictOp Val)} {s0 s : S} (hh : History R i τ h s0 s) (hs : Ok s0) (he : s0.elems i = some (.dict, []))
    (hk : ∀ op ∈ h, G (τ op.key)) (hf : Fits R (2 * h.length)) :
    (∀ k, G (τ k) → Unfolds s.objs (τ k) k →
      (∀ v, Holds (fun a b => Same (τ a) (τ b)) h k v →
        Store.index R s (.list i) k = some (v, s) ∧ ∀ pos, isIn R pos k (.list i) s = some (ofBool pos, s)) ∧
      ((¬ ∃ v, Holds (fun a b => Same (τ a) (τ b)) h k v) →
        Store.index R s (.list i) k = some (Val.none, s.fail) ∧ ∀ pos, isIn R pos k (.list i) s = some (ofBool (!pos), s))) ∧
    ∃ d, s.elems i = some (.dict, d) ∧ len s (.list i) = some (entries d).length ∧
      (entries d).Pairwise (fun a b => ¬ Same (τ a.1) (τ b.1)) ∧
      (∀ e ∈ entries d, Holds (fun a b => Same (τ a) (τ b)) h e.1 e.2) := by
  have O := ord_keys (τ := τ) hG hc
  obtain ⟨ps, H⟩ := hh.holding hG hc hs he hk hf
  obtain ⟨o, ho, hl⟩ := Option.map_eq_some_iff.1 H.elems
  simp only [Prod.mk.injEq] at hl
  obtain ⟨o1, o2, -⟩ := H.ok.1 i o ho
  have hsz : o.size = 2 * ps.length := by
    have := congrArg List.length hl.2
    rw [List.length_take, Dict.flat_length] at this; omega
  have hin : ∀ k, Unfolds s.objs (τ k) k → ∀ b : Bool, (b = true ↔ ∃ q ∈ ps, tcmp τ k q.1 = 0) → ∀ pos, isIn R pos k (.list i) s = some (ofBool (b == pos), s) := by
    intro k hk b hb pos
    have e1 : mread o.data o.size = some (flat ps) := by rw [mread, if_pos (by omega), hl.2]
    have e2 : ∀ w, inLoop ((R).cmp s.objs) k 2 w (flat ps) = b := by
      intro w
      rw [Bool.eq_iff_iff, inLoop_flat, hb]
      constructor
      · rintro ⟨q, hq, e⟩; exact ⟨q, hq, by rw [real_cmp hk (H.keys q hq)] at e; exact e⟩
      · rintro ⟨q, hq, e⟩; exact ⟨q, hq, by rw [real_cmp hk (H.keys q hq)]; exact e⟩
    cases k <;> simp only [isIn, ho, Option.bind_eq_bind, Option.bind_some, e1, hl.1, if_true, e2, Option.pure_def]
  refine ⟨fun k hg hu => ⟨fun v hv => ?_, fun hn => ?_⟩, flat ps, H.elems, ?_, ?_, ?_⟩
  · obtain ⟨k', hm, hcm⟩ := (H.repr.holds k hg v).2 hv
    refine ⟨?_, fun pos => ?_⟩
    · rcases H.index (A := A) (powf := powf) (fmt := fmt) (any := any) (anyOff := anyOff) hG hc k hg hu with ⟨v', hv', e⟩ | ⟨hn, -⟩
      · obtain ⟨k2, hm2, hcm2⟩ := (H.repr.holds k hg v').2 hv'
        rw [e, (Dict.sorted_unique O ps H.repr.sorted k hg k' v k2 v' hm hm2 hcm hcm2).2]
      · exact absurd ⟨v, hv⟩ hn
    · rw [hin k hu true ⟨fun _ => ⟨_, hm, hcm⟩, fun _ => rfl⟩]; cases pos <;> rfl
  · refine ⟨?_, fun pos => ?_⟩
    · rcases H.index (A := A) (powf := powf) (fmt := fmt) (any := any) (anyOff := anyOff) hG hc k hg hu with ⟨v', hv', e⟩ | ⟨-, e⟩
      · exact absurd ⟨v', hv'⟩ hn
      · exact e
    · rw [hin k hu false ⟨(fun e => by cases e), fun ⟨q, hq, e⟩ => absurd ⟨q.2, (H.repr.holds k hg q.2).1 ⟨q.1, hq, e⟩⟩ hn⟩]; cases pos <;> rfl
  · simp only [len, ho, Option.bind_eq_bind, Option.bind_some, Option.pure_def, hl.1, if_true, Dict.entries_flat, hsz]
    congr 1; omega
  · rw [Dict.entries_flat, List.pairwise_iff_getElem]
    intro a b ha hb hab hsame
    have hl := H.repr.sorted.lt a b hab hb
    have := (same_keys hG ps[a].1 ps[b].1 (H.repr.sorted.key _ (List.getElem_mem _)) (H.repr.sorted.key _ (List.getElem_mem _))).2 hsame
    omega
  · rw [Dict.entries_flat]
    intro e he
    exact (H.repr.holds e.1 (H.repr.sorted.key e he) e.2).1 ⟨e.1, he, O.refl _ (H.repr.sorted.key e he)⟩

/-- After any history the next assignment `d[k] = v` ends, changes no other object and reports an error only if the allocator refuses memory; then the
dictionary is as before. -/
theorem C06_heap_store_partial {h : List (DictOp Val)} {s0 s : S} (hh : History R i τ h s0 s) (hs : Ok s0) (he : s0.elems i = some (.dict, []))
    (hk : ∀ op ∈ h, G (τ op.key)) (hf : Fits R (2 * h.length + 2)) (k v : Val) (hg : G (τ k)) (hu : Unfolds s.objs (τ k) k) :
    ∃ s', storeElem R (.list i) k v s = some s' ∧ s'.mem = s.mem ∧ (∀ j, j ≠ i → s'.objs[j]? = s.objs[j]?) ∧
      ((s'.abort = true ∧ s'.objs = s.objs ∧ s.Short) ∨
       (s'.abort = s.abort ∧ Store.index R s' (.list i) k = some (v, s'))) := by
  obtain ⟨ps, H⟩ := hh.holding hG hc hs he hk (hf.mono (by omega))
  obtain ⟨s', e1, em, -, e2, e3⟩ := H.store (A := A) (powf := powf) (fmt := fmt) (any := any) (anyOff := anyOff) hG hc (hf.mono (by have := H.len; omega)) k v hg hu
  refine ⟨s', e1, em, e2, e3.imp (fun ⟨a, b, c, _⟩ => ⟨a, b, c⟩) ?_⟩
  rintro ⟨e4, ps', H'⟩
  refine ⟨e4, ?_⟩
  have hu' : Unfolds s'.objs (τ k) k := by
    refine unfolds_keep ?_ _ _ (hG _ hg).2 hu
    intro j x hx hfz
    by_cases hj : j = i
    · subst hj
      obtain ⟨o, ho, hl⟩ := Option.map_eq_some_iff.1 H.elems
      rw [lst_iff.1 ho] at hx
      cases hx
      simp only [Prod.mk.injEq] at hl
      simp only [Frozen] at hfz
      rw [hl.1] at hfz; cases hfz
    · rw [e2 j hj]; exact hx
  have O := ord_keys (τ := τ) hG hc
  have hh' : Holds (SameKey τ) (.store k v :: h) k v := Holds.here _ _ _ _ ((same_keys hG k k hg hg).1 (O.refl k hg))
  obtain ⟨k', hm, hcm⟩ := (H'.repr.holds k hg v).2 hh'
  rcases H'.index (A := A) (powf := powf) (fmt := fmt) (any := any) (anyOff := anyOff) hG hc k hg hu' with ⟨v', hv', e⟩ | ⟨hn, -⟩
  · obtain ⟨k2, hm2, hcm2⟩ := (H'.repr.holds k hg v').2 hv'
    rw [e, (Dict.sorted_unique O ps' H'.repr.sorted k hg k' v k2 v' hm hm2 hcm hcm2).2]
  · exact absurd ⟨v, hh'⟩ hn

/-- After any history `del d[k]` ends, changes no other object and reports an error only if the allocator refuses memory (then the dictionary is as
before); otherwise the entries left are those whose key is not equal to `k`, in the same order. -/
theorem C08_heap_partial {h : List (DictOp Val)} {s0 s : S} (hh : History R i τ h s0 s) (hs : Ok s0) (he : s0.elems i = some (.dict, []))
    (hk : ∀ op ∈ h, G (τ op.key)) (hf : Fits R (2 * h.length + 2)) (k : Val) (hg : G (τ k)) (hu : Unfolds s.objs (τ k) k) :
    ∃ d s', s.elems i = some (.dict, d) ∧ delElem R (.list i) k s = some s' ∧ s'.mem = s.mem ∧ (∀ j, j ≠ i → s'.objs[j]? = s.objs[j]?) ∧
      ((s'.abort = true ∧ s'.objs = s.objs ∧ s.Short) ∨
       (s'.abort = s.abort ∧ ∃ d' lo hi, s'.elems i = some (.dict, d') ∧ d'.length % 2 = 0 ∧ entries d' = lo ++ hi ∧
        (∀ e ∈ lo ++ hi, ¬ Same (τ k) (τ e.1)) ∧
        (entries d = lo ++ hi ∨ ∃ e, Same (τ k) (τ e.1) ∧ entries d = lo ++ e :: hi))) := by
  have O := ord_keys (τ := τ) hG hc
  obtain ⟨ps, H⟩ := hh.holding hG hc hs he hk (hf.mono (by omega))
  obtain ⟨s', e1, em, e2, e3⟩ := H.del (A := A) (powf := powf) (fmt := fmt) (any := any) (anyOff := anyOff) hG hc (hf.mono (by have := H.len; omega)) k hg hu
  refine ⟨flat ps, s', H.elems, e1, em, e2, e3.imp id ?_⟩
  rintro ⟨e4, ps', H', lo, hi, q1, q2, q3⟩
  have hsub : ∀ e ∈ lo ++ hi, e ∈ ps := by
    intro e he
    rcases q3 with ⟨k0, w, -, hps⟩ | hps
    · rw [hps]; rcases List.mem_append.1 he with he | he <;> simp [he]
    · rw [hps]; exact he
  refine ⟨e4, flat ps', lo, hi, H'.elems, by rw [Dict.flat_length]; omega, by rw [Dict.entries_flat, q1], ?_, ?_⟩
  · intro e he hsame
    exact q2 e he ((same_keys hG k e.1 hg (H.repr.sorted.key e (hsub e he))).2 hsame)
  · rw [Dict.entries_flat]
    rcases q3 with ⟨k0, w, hcm, hps⟩ | hps
    · exact .inr ⟨(k0, w), (same_keys hG k k0 hg (H.repr.sorted.key (k0, w) (by rw [hps]; simp))).1 hcm, hps⟩
    · exact .inl hps

/-- C07 for dictionary objects: two dictionaries, of one program or of two, whose histories describe the same map have the same values in the same
order under equal keys. -/
theorem C07_heap_partial {i' : Nat} {h h' : List (DictOp Val)} {s0 s s0' s' : S} (hh : History R i τ h s0 s) (hh' : History R i' τ h' s0' s')
    (hs : Ok s0) (hs' : Ok s0') (he : s0.elems i = some (.dict, [])) (he' : s0'.elems i' = some (.dict, []))
    (hk : ∀ op ∈ h, G (τ op.key)) (hk' : ∀ op ∈ h', G (τ op.key)) (hf : Fits R (2 * h.length)) (hf' : Fits R (2 * h'.length))
    (heq : ∀ k, G (τ k) → ∀ v, Holds (fun a b => Same (τ a) (τ b)) h k v ↔ Holds (fun a b => Same (τ a) (τ b)) h' k v) :
    ∃ d d', s.elems i = some (.dict, d) ∧ s'.elems i' = some (.dict, d') ∧ d.length = d'.length ∧ (entries d).map (·.2) = (entries d').map (·.2) ∧
      ∀ (n : Nat) (a b : Val × Val), (entries d)[n]? = some a → (entries d')[n]? = some b → Same (τ a.1) (τ b.1) := by
  have O := ord_keys (τ := τ) hG hc
  obtain ⟨ps, H⟩ := hh.holding hG hc hs he hk hf
  obtain ⟨qs, H'⟩ := hh'.holding hG hc hs' he' hk' hf'
  obtain ⟨c1, c2⟩ := canonical_of O ps qs H.repr.sorted H'.repr.sorted
    (fun k hg v => by rw [H.repr.holds k hg v, H'.repr.holds k hg v]; exact heq k hg v)
  have hlen := congrArg List.length c1
  simp only [List.length_map] at hlen
  refine ⟨flat ps, flat qs, H.elems, H'.elems, by rw [Dict.flat_length, Dict.flat_length, hlen], by rw [Dict.entries_flat, Dict.entries_flat]; exact c1, ?_⟩
  rw [Dict.entries_flat, Dict.entries_flat]
  intro n a b ha hb
  exact (same_keys hG a.1 b.1 (H.repr.sorted.key a (List.mem_of_getElem? ha)) (H'.repr.sorted.key b (List.mem_of_getElem? hb))).1 (c2 n a b ha hb)

omit hG hc in
theorem pairs_entries : ∀ l : List Val, pairs l = entries l
  | [] => rfl
  | [_] => rfl
  | _ :: _ :: l => by simp only [pairs, entries, pairs_entries l]

omit hG hc in
theorem entries_length : ∀ l : List Val, (entries l).length = l.length / 2
  | [] => rfl
  | [_] => by simp [entries]
  | _ :: _ :: l => by simp only [entries, List.length_cons, entries_length l]; omega

omit hG hc in
theorem Holding.again {h : List (DictOp Val)} {s s' : S} {ps : List (Val × Val)} (H : Holding i τ G h s ps) (hok : Ok s') (ho : s'.objs = s.objs) :
    Holding i τ G h s' ps :=
  ⟨hok, by rw [S.elems, lst_congr ho]; exact H.elems, H.repr, fun q hq => by rw [ho]; exact H.keys q hq, H.len⟩

/-- The loop of a dictionary display is the stores of its pairs. -/
theorem immLoop_history (l : List (Val × Val)) : ∀ {h : List (DictOp Val)} {s : S} {ps : List (Val × Val)}, Holding i τ G h s ps →
    Fits R (2 * (h.length + l.length)) → (∀ q ∈ l, G (τ q.1) ∧ Unfolds s.objs (τ q.1) q.1) →
    ∃ s', immLoop R s i l = some s' ∧ (∀ j, j ≠ i → s'.objs[j]? = s.objs[j]?) ∧ (s.abort = true → s'.abort = true) ∧
      ((s'.abort = true ∧ (s.abort = true ∨ s.Short)) ∨
       (s.abort = false ∧ s'.abort = false ∧ ∀ s0, History R i τ h s0 s → History R i τ ((l.map fun q => .store q.1 q.2).reverse ++ h) s0 s')) := by
  induction l with
  | nil =>
    intro h s ps H _ _
    refine ⟨s, rfl, fun _ _ => rfl, id, ?_⟩
    cases hab : s.abort with
    | true => exact .inl ⟨rfl, .inl rfl⟩
    | false => exact .inr ⟨rfl, rfl, fun s0 hh => hh⟩
  | cons q l ih =>
    intro h s ps H hf hq
    obtain ⟨k, v⟩ := q
    simp only [List.length_cons] at hf
    obtain ⟨hg, hu⟩ := hq _ List.mem_cons_self
    simp only at hg hu
    obtain ⟨o, ho, hl⟩ := Option.map_eq_some_iff.1 H.elems
    simp only [Prod.mk.injEq] at hl
    obtain ⟨s1, e1, em, ec, e2, e3⟩ := H.store (A := A) (powf := powf) (fmt := fmt) (any := any) (anyOff := anyOff) hG hc
      (hf.mono (by have := H.len; omega)) k v hg hu
    have hstep : immLoop R s i ((k, v) :: l) = immLoop R s1 i l := by
      rw [immLoop]
      simp only [storeElem, elemRef, ho, hl.1, LType.readonly, Bool.false_eq_true, if_false, Option.bind_eq_bind, Option.bind_some, Option.pure_def] at e1 ⊢
      cases hr : Store.ref R s i k true with
      | none => rw [hr] at e1; cases e1
      | some x =>
        obtain ⟨r, s2⟩ := x
        rw [hr] at e1
        cases r with
        | none => simp only [Option.bind_some, Option.some.injEq] at e1 ⊢; rw [e1]
        | some p => simp only [Option.bind_some] at e1 ⊢; rw [e1, Option.bind_some]
    rw [hstep]
    have hu1 : ∀ q ∈ l, G (τ q.1) ∧ Unfolds s1.objs (τ q.1) q.1 := by
      intro q hql
      obtain ⟨g, u⟩ := hq q (List.mem_cons_of_mem _ hql)
      refine ⟨g, unfolds_keep ?_ _ _ (hG _ g).2 u⟩
      intro j x hx hfz
      by_cases hj : j = i
      · subst hj
        rw [lst_iff.1 ho] at hx
        cases hx
        simp only [Frozen] at hfz
        rw [hl.1] at hfz; cases hfz
      · rw [e2 j hj]; exact hx
    rcases e3 with ⟨a1, a2, a3, a4⟩ | ⟨a1, ps', H'⟩
    · obtain ⟨s', b1, b2, b3, b4⟩ := ih (H.again a4 a2) (hf.mono (by omega)) hu1
      exact ⟨s', b1, fun j hj => (b2 j hj).trans (e2 j hj), fun _ => b3 a1, .inl ⟨b3 a1, .inr a3⟩⟩
    · obtain ⟨s', b1, b2, b3, b4⟩ := ih H' (hf.mono (by simp only [List.length_cons]; omega)) hu1
      refine ⟨s', b1, fun j hj => (b2 j hj).trans (e2 j hj), fun hab => b3 (a1.trans hab), ?_⟩
      rcases b4 with ⟨c1, c2⟩ | ⟨c1, c2, c3⟩
      · refine .inl ⟨c1, c2.imp (fun hab => a1 ▸ hab) fun hsh => short_later hsh ec em⟩
      · refine .inr ⟨a1 ▸ c1, c2, fun s0 hh => ?_⟩
        have := c3 s0 (History.store _ _ _ _ _ _ hh hu e1 c1)
        simpa only [List.map_cons, List.reverse_cons, List.append_assoc, List.singleton_append] using this

/-- A dictionary display makes a new dictionary and stores its pairs in it in the order written; an error only if the allocator refuses memory. Nothing
that existed changes. -/
theorem C06_heap_display_partial (s : S) (hs : Ok s) (hab : s.abort = false) (l : List Val) (heven : l.length % 2 = 0) (hf : Fits R l.length)
    (hk : ∀ q ∈ entries l, G (τ q.1) ∧ Unfolds s.objs (τ q.1) q.1) :
    ∃ r s', imm R s .dict l = some (r, s') ∧ (∀ j, j < s.objs.length → s'.objs[j]? = s.objs[j]?) ∧
      ((s'.abort = true ∧ s.Short) ∨
       (s'.abort = false ∧ r = .list s.objs.length ∧ ∃ s0, Ok s0 ∧ s0.elems s.objs.length = some (.dict, []) ∧
        History R s.objs.length τ ((entries l).map fun q => .store q.1 q.2).reverse s0 s')) := by
  obtain ⟨r, s1, h1, h2, h3, h4⟩ := make_ok (E := R) (t := .dict) hs hf (fun _ => heven)
  simp only [imm, Option.bind_eq_bind, Option.pure_def, hf.off, h1, Option.bind_some]
  rcases h4 with ⟨rfl, h4⟩ | ⟨k, o, rfl, h4, h5, h6, h7, -, ⟨rfl, h9⟩ | ⟨-, h9, -⟩⟩
  · exact ⟨_, _, rfl, fun j hj => by obtain ⟨t, ht⟩ := h2.pre; rw [← ht, List.getElem?_append_left hj], .inl ⟨h4, make_short h1⟩⟩
  · simp only [if_true, h5, Option.bind_some, pairs_entries]
    have hok1 : Ok s1 := h2.ok hs
    obtain ⟨l1, l2, l3⟩ := hok1.1 _ _ h5
    let o2 : LObj := { o with size := 0 }
    have hok2 : Ok (s1.setl s.objs.length o2) := hok1.setl h5 ⟨Nat.zero_le _, l2, fun _ => rfl⟩ (empty_excl hok1 h5 (by rw [h6]; decide))
    have hel : (s1.setl s.objs.length o2).elems s.objs.length = some (.dict, []) := by
      simp only [S.elems, lst_setl_self h5, Option.map_some, o2, h6, List.take_zero]
    have hob : ∀ j, j < s.objs.length → (s1.setl s.objs.length o2).objs[j]? = s.objs[j]? := by
      intro j hj
      rw [objs_setl, List.getElem?_set_ne (by omega), h9, List.getElem?_append_left hj]
    have O := ord_keys (τ := τ) hG hc
    have H : Holding s.objs.length τ G [] (s1.setl s.objs.length o2) [] :=
      ⟨hok2, hel, Repr.init O (fun a b ha hb => same_keys hG a b ha hb), (fun q hq => by cases hq), Nat.le_refl _⟩
    have hlen := entries_length l
    obtain ⟨s', b1, b2, b3, b4⟩ := immLoop_history (A := A) (powf := powf) (fmt := fmt) (any := any) (anyOff := anyOff) hG hc (entries l) H
      (hf.mono (by simp only [List.length_nil]; omega)) (fun q hq => by
        obtain ⟨g, u⟩ := hk q hq
        refine ⟨g, unfolds_keep ?_ _ _ (hG _ g).2 u⟩
        intro j x hx _
        rw [hob j (List.getElem?_eq_some_iff.1 hx).1]; exact hx)
    refine ⟨.list s.objs.length, s', by rw [show ({ o with size := 0 } : LObj) = o2 from rfl, b1, Option.bind_some],
      fun j hj => (b2 j (by omega)).trans (hob j hj), ?_⟩
    have hab2 : (s1.setl s.objs.length o2).abort = false := h4.trans hab
    rcases b4 with ⟨c1, c2⟩ | ⟨-, c2, c3⟩
    · refine .inl ⟨c1, ?_⟩
      rcases c2 with c2 | c2
      · rw [hab2] at c2; cases c2
      · exact short_later (s' := s1.setl s.objs.length o2) c2 (make_clock h1 : s.clock ≤ s1.clock) h2.mem
    · have := c3 _ (History.start _)
      rw [List.append_nil] at this
      exact .inr ⟨c2, rfl, _, hok2, hel, this⟩
  · cases h9

end

/-! The hypotheses are met: `d = {}; d[1] = 2; d["a"] = 1; del d[1]` with the scalars as keys. -/
section
def demoHeap : S := ⟨[.list ⟨.dict, 0, 0, []⟩, .str [97]], Option.none, fun _ _ => true, 2, false⟩

def demoKey : Val → Tree
  | .num x => .num x
  | .str _ => .str [97]
  | _ => .none

theorem demoHeap_ok : Ok demoHeap := by
  refine ⟨fun i o h => ?_, fun i h => by cases h⟩
  rw [lst_iff] at h
  match i with
  | 0 => cases h; exact ⟨Nat.le_refl _, rfl, fun _ => rfl⟩
  | 1 => cases h
  | n + 2 => cases h

example : ∃ s, History (demoEnv .posix) 0 demoKey [.del one, .store (.str 1) one, .store one two] demoHeap s ∧ s.abort = false ∧
    (∀ op ∈ [DictOp.del one, .store (.str 1) one, .store one two], Scalar (demoKey op.key)) := by
  have g1 : Scalar (demoKey one) := by intro h; revert h; decide
  have g2 : Scalar (demoKey (.str 1)) := trivial
  have fits : ∀ n, n ≤ 100 → Fits (demoEnv .posix) n := by
    intro n hn
    show (n + n / 8 + 6) * 4 < 2 ^ 32
    omega
  have u1 : ∀ s : S, Unfolds s.objs (demoKey one) one := fun s => by simp only [demoKey, one, Unfolds]
  have u2 : ∀ s : S, s.objs[1]? = some (.str [97]) → Unfolds s.objs (demoKey (.str 1)) (.str 1) := fun s h => by
    simp only [demoKey, Unfolds]; exact ⟨1, rfl, h⟩
  have ns : ∀ s : S, s.mem = demoHeap.mem → ¬ s.Short := by
    rintro s h ⟨k, n, -, e⟩; rw [h] at e; cases e
  obtain ⟨s1, a1, a2, a3, a4⟩ := C06_heap_store_partial C06_scalar_keys.1 C06_scalar_keys.2 (History.start (E := demoEnv .posix) (i := 0) (τ := demoKey) demoHeap)
    demoHeap_ok rfl (fun op h => by cases h) (fits _ (by decide)) one two g1 (u1 _)
  have a4 := (a4.resolve_left fun h => ns _ rfl h.2.2).1
  have h1 := History.store _ _ _ _ _ _ (History.start (E := demoEnv .posix) (i := 0) (τ := demoKey) demoHeap) (u1 _) a1 a4
  have k1 : ∀ op ∈ [DictOp.store one two], Scalar (demoKey op.key) := by
    intro op h; simp only [List.mem_cons, List.not_mem_nil, or_false] at h; subst h; exact g1
  have o1 : s1.objs[1]? = some (.str [97]) := a3 1 (by decide)
  obtain ⟨s2, b1, b2, b3, b4⟩ := C06_heap_store_partial C06_scalar_keys.1 C06_scalar_keys.2 h1
    demoHeap_ok rfl k1 (fits _ (by decide)) (.str 1) one g2 (u2 _ o1)
  have b4 := (b4.resolve_left fun h => ns _ a2 h.2.2).1.trans a4
  have h2 := History.store _ _ _ _ _ _ h1 (u2 _ o1) b1 b4
  have k2 : ∀ op ∈ [DictOp.store (.str 1) one, .store one two], Scalar (demoKey op.key) := by
    intro op h; simp only [List.mem_cons, List.not_mem_nil, or_false] at h
    rcases h with rfl | rfl
    · exact g2
    · exact g1
  obtain ⟨_, s3, -, c1, c2, c3, c4⟩ := C08_heap_partial C06_scalar_keys.1 C06_scalar_keys.2 h2
    demoHeap_ok rfl k2 (fits _ (by decide)) one g1 (u1 _)
  have c4 := (c4.resolve_left fun h => ns _ (b2.trans a2) h.2.2).1.trans b4
  refine ⟨s3, History.del _ _ _ _ _ h2 (u1 _) c1 c4, c4, ?_⟩
  intro op h
  rcases List.mem_cons.1 h with rfl | h
  · exact g1
  · exact k2 op h
end

end Snek.Store
