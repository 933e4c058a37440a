import Verif.Proofs.StoreOps
import Verif.Proofs.SliceCalc
/-! No container operation reads or writes outside an object, and memory stays well formed. -/
namespace Snek.Store

variable {E : Env}

/-- Success of an operation, with memory well formed after it. -/
def Runs {α : Type} (x : Option (α × S)) : Prop := ∃ r s', x = some (r, s') ∧ Ok s'

/-- Dictionaries are left alone. -/
def Keeps (s s' : S) : Prop := ∀ i o, s.lst i = some o → o.type = .dict → s'.lst i = some o

/-- Success that leaves dictionaries alone. -/
def RunsK {α : Type} (s : S) (x : Option (α × S)) : Prop := ∃ r s', x = some (r, s') ∧ Ok s' ∧ Keeps s s'

theorem RunsK.runs {α : Type} {s : S} {x : Option (α × S)} (h : RunsK s x) : Runs x := by
  obtain ⟨r, s', h1, h2, -⟩ := h; exact ⟨r, s', h1, h2⟩

theorem Keeps.rfl {s : S} : Keeps s s := fun _ _ h _ => h
theorem Keeps.fail {s : S} : Keeps s s.fail := fun _ _ h _ => h
theorem Ext.keeps {s s' : S} (h : Ext s s') : Keeps s s' := fun _ _ hi _ => h.lst hi

theorem dref_length {α : Type} {cmp : α → α → Int} {isMut : α → Bool} {junk : α} {data : List α} {p : α} {add : Bool} {d : List α} {k : Nat}
    (h : Dict.ref cmp isMut junk data p add = .slot d k) : d.length ≤ data.length + 2 := by
  have hi : ∀ o, (Dict.insert junk data o p).length ≤ data.length + 2 := fun o => by
    simp only [Dict.insert, List.length_append, List.length_take, List.length_cons, List.length_nil, List.length_drop]; omega
  unfold Dict.ref at h
  split at h
  · cases h
  · split at h
    · split at h
      · split at h
        · cases h
        · split at h
          · cases h
          · cases h; exact hi _
      · cases h; omega
    · split at h
      · cases h
      · split at h
        · cases h
        · cases h; exact hi _

theorem ref_ok {s : S} (hs : Ok s) {i : Nat} {o : LObj} (h : s.lst i = some o) (hf : o.type = .dict → Fits E (o.size + 2)) (p : Val) (add : Bool) :
    ∃ r s', ref E s i p add = some (r, s') ∧ Ok s' ∧ s'.empty = s.empty ∧ s'.objs.length = s.objs.length ∧
      (∀ j, j ≠ i → s'.objs[j]? = s.objs[j]?) ∧
      ∃ o', s'.lst i = some o' ∧ o'.type = o.type ∧ o'.size ≤ o.size + 2 ∧ (o.type ≠ .dict → o' = o) ∧ ∀ k, r = some k → k < o'.size := by
  by_cases ht : o.type = .dict
  · obtain ⟨junk, r, s', h1, h2, h3, h4⟩ := ref_dict hs h ht (hf ht) p add
    refine ⟨r, s', h1, ?_⟩
    have htu : ∀ q : LObj, q.type = .dict → s.empty = some i → q.type = .tuple ∧ q.size = 0 ∧ q.data = [] := fun q _ he => by
      obtain ⟨x, hx, hx2, -⟩ := hs.2 i he
      rw [h] at hx; cases hx; rw [ht] at hx2; cases hx2
    split at h4
    · cases h4
    · obtain ⟨rfl, rfl⟩ := h4
      exact ⟨hs.fail, h3, rfl, fun _ _ => rfl, o, h, rfl, by omega, fun _ => rfl, by rintro k ⟨⟩⟩
    · rename_i d k hd
      rcases h4 with ⟨rfl, h5, h6⟩ | ⟨rfl, h5, h6, h7, o', h8, h9, h10, h11⟩
      · exact ⟨hs.congr h6 h3, h3, by rw [h6], fun _ _ => by rw [h6], o, by rw [lst_congr h6]; exact h, rfl, by omega, fun _ => rfl, by rintro k ⟨⟩⟩
      · have hl : s'.lst i = some o' := by rw [lst_congr (s := s.setl i o') h8]; exact lst_setl_self h
        have hlen : d.length = o'.size := by rw [← h11, List.length_take]; have := h10.1; have := h10.2.1; omega
        have hle := dref_length hd
        rw [List.length_take] at hle
        refine ⟨(hs.setl h h10 (htu o' h9)).congr h8 h3, h3, by rw [h8, List.length_set], fun j hj => ?_, o', hl, by rw [h9, ht], by omega,
          fun hh => absurd ht hh, ?_⟩
        · rw [h8, List.getElem?_set_ne (Ne.symm hj)]
        · rintro k ⟨⟩; omega
  · simp only [ref, h, Option.bind_eq_bind, Option.bind_some, if_neg ht, Option.pure_def]
    generalize (if (soff E p).1 < 0 then E.off (o.size + (2 ^ E.A.offBits - E.off (-(soff E p).1).toNat)) else (soff E p).1.toNat) = k
    have hs2 : Ok (if (soff E p).2 = true then s.fail else s) ∧ (if (soff E p).2 = true then s.fail else s).empty = s.empty ∧
        (if (soff E p).2 = true then s.fail else s).objs = s.objs := by
      split
      · exact ⟨hs.fail, rfl, rfl⟩
      · exact ⟨hs, rfl, rfl⟩
    generalize (if (soff E p).2 = true then s.fail else s) = s2 at hs2
    obtain ⟨e1, e2, e3⟩ := hs2
    split
    · exact ⟨_, _, rfl, e1.fail, e2, by rw [objs_fail, e3], fun _ _ => by rw [objs_fail, e3], o, by rw [lst_fail, lst_congr e3]; exact h, rfl, by omega,
        fun _ => rfl, by rintro k ⟨⟩⟩
    · rename_i hk
      exact ⟨_, _, rfl, e1, e2, by rw [e3], fun _ _ => by rw [e3], o, by rw [lst_congr e3]; exact h, rfl, by omega, fun _ => rfl,
        by rintro k ⟨⟩; omega⟩

theorem get_ok {s : S} (hs : Ok s) {i : Nat} {o : LObj} (h : s.lst i = some o) (p : Val) : Runs (get E s i p) := by
  by_cases ht : o.type = .dict
  · -- a lookup that does not add
    obtain ⟨o1, o2, o3⟩ := hs.1 i o h
    have hev := o3 ht
    obtain ⟨k, k1, -, k2, k3⟩ := search_even (E.cmp s.objs) o.data p o.size 0 o.size (by omega) rfl hev (by omega) (by omega)
    simp only [Runs, get, ref, h, Option.bind_eq_bind, Option.bind_some, if_pos ht, k1, Option.pure_def]
    by_cases hk : k < o.size
    · rw [if_pos hk, List.getElem?_eq_getElem (show k < o.data.length by omega), Option.map_some, Option.bind_some]
      split
      · simp only [Option.bind_some, h]
        rw [List.getElem?_eq_getElem (show k + 1 < o.data.length by omega), Option.bind_some]
        exact ⟨_, _, rfl, hs⟩
      · exact ⟨_, _, rfl, hs.fail⟩
    · rw [if_neg hk]
      exact ⟨_, _, rfl, hs.fail⟩
  · obtain ⟨r, s', h1, h2, h3, h4, h5, o', h6, h7, h8, h9, h10⟩ := ref_ok (E := E) hs h (fun hh => absurd hh ht) p false
    simp only [Runs, get, h1, Option.bind_eq_bind, Option.bind_some, Option.pure_def]
    cases r with
    | none => exact ⟨_, _, rfl, h2⟩
    | some k =>
      have hk := h10 k rfl
      have ho := h2.1 i o' h6
      simp only [h6, Option.bind_some]
      rw [List.getElem?_eq_getElem (show k < o'.data.length by have := ho.1; have := ho.2.1; omega), Option.bind_some]
      exact ⟨_, _, rfl, h2⟩

theorem empty_excl {s : S} (hs : Ok s) {i : Nat} {o : LObj} (h : s.lst i = some o) (ht : o.type ≠ .tuple) {P : Prop} (he : s.empty = some i) : P := by
  obtain ⟨x, hx, hx2, -⟩ := hs.2 i he
  rw [h] at hx; cases hx; exact absurd hx2 ht

theorem del_ok {s : S} (hs : Ok s) {i : Nat} {o : LObj} (h : s.lst i = some o) (hf : o.type = .dict → Fits E (o.size + 2)) (p : Val) :
    ∃ s', del E s i p = some s' ∧ Ok s' := by
  obtain ⟨r, s', h1, h2, h3, h4, h5, o', h6, h7, h8, h9, h10⟩ := ref_ok (E := E) hs h hf p true
  simp only [del, h1, Option.bind_eq_bind, Option.bind_some, Option.pure_def]
  cases r with
  | none => exact ⟨_, rfl, h2⟩
  | some k =>
    have hk := h10 k rfl
    obtain ⟨l1, l2, l3⟩ := h2.1 i o' h6
    simp only [h6, Option.bind_some]
    split
    · exact ⟨_, rfl, h2.fail⟩
    · rename_i ht
      have hm : mmove o'.data k (k + 1) (o'.size - k - 1) =
        some (o'.data.take k ++ (o'.data.drop (k + 1)).take (o'.size - k - 1) ++ o'.data.drop (k + (o'.size - k - 1))) := if_pos (by omega)
      rw [hm, Option.bind_some]
      refine ⟨_, rfl, h2.setl h6 ⟨?_, by rw [mmove_len hm]; exact l2, fun hh => by simp only at hh; rw [ht] at hh; cases hh⟩
        (empty_excl h2 h6 (by rw [ht]; decide))⟩
      simp only; omega
    · rename_i ht
      have hm : mmove o'.data (k - 1) (k + 1) (o'.size - (k - 1) - 2) =
        some (o'.data.take (k - 1) ++ (o'.data.drop (k + 1)).take (o'.size - (k - 1) - 2) ++ o'.data.drop (k - 1 + (o'.size - (k - 1) - 2))) :=
          if_pos (by have := l3 ht; omega)
      rw [hm, Option.bind_some]
      refine ⟨_, rfl, h2.setl h6 ⟨?_, by rw [mmove_len hm]; exact l2, fun hh => ?_⟩ (empty_excl h2 h6 (by rw [ht]; decide))⟩
      · simp only; omega
      · have := l3 ht; simp only; omega

theorem setSlot_ok {s : S} (hs : Ok s) {i k : Nat} {o : LObj} (h : s.lst i = some o) (hk : k < o.size) (v : Val) :
    ∃ o', setSlot s i k v = some (s.setl i o') ∧ Ok (s.setl i o') ∧ o'.type = o.type ∧ o'.size = o.size ∧ o'.data = o.data.set k v := by
  obtain ⟨l1, l2, l3⟩ := hs.1 i o h
  have hm : mset o.data k v = some (o.data.set k v) := if_pos (by omega)
  simp only [setSlot, h, Option.bind_eq_bind, Option.bind_some, hm, Option.pure_def]
  refine ⟨_, rfl, hs.setl h ⟨l1, by rw [mset_len hm]; exact l2, l3⟩ ?_, rfl, rfl, rfl⟩
  intro he
  obtain ⟨x, hx, hx2, hx3, hx4⟩ := hs.2 i he
  rw [h] at hx; cases hx; omega

theorem immLoop_ok {s : S} (hs : Ok s) {i : Nat} {o : LObj} (h : s.lst i = some o) (ht : o.type = .dict) (l : List (Val × Val))
    (hf : Fits E (o.size + 2 * l.length)) : ∃ s', immLoop E s i l = some s' ∧ Ok s' := by
  induction l generalizing s o with
  | nil => exact ⟨s, rfl, hs⟩
  | cons q l ih =>
    obtain ⟨k, v⟩ := q
    rw [List.length_cons] at hf
    obtain ⟨r, s', h1, h2, h3, h4, h5, o', h6, h7, h8, h9, h10⟩ := ref_ok (E := E) hs h (fun _ => hf.mono (by omega)) k true
    simp only [immLoop, h1, Option.bind_eq_bind, Option.bind_some]
    cases r with
    | none => exact ih h2 h6 (by rw [h7, ht]) (hf.mono (by omega))
    | some p =>
      obtain ⟨o2, m1, m2, m3, m4, -⟩ := setSlot_ok h2 h6 (h10 p rfl) v
      simp only [m1, Option.bind_some]
      exact ih m2 (lst_setl_self h6) (by rw [m3, h7, ht]) (hf.mono (by omega))

theorem pairs_length (l : List Val) : 2 * (pairs l).length ≤ l.length := by
  induction l using pairs.induct with
  | case1 k v l ih => rw [pairs]; simp only [List.length_cons]; omega
  | case2 l hl => rw [pairs]; · simp
                  · exact hl

theorem imm_ok {s : S} (hs : Ok s) {t : LType} {l : List Val} (hf : Fits E l.length) (hd : t = .dict → l.length % 2 = 0) : Runs (imm E s t l) := by
  simp only [Runs, imm, Option.bind_eq_bind, Option.pure_def, hf.off]
  obtain ⟨r, s1, h1, ⟨rfl, h2, h3⟩ | ⟨k, o, rfl, N, h2, h3, h4⟩⟩ := make_new (t := t) hs hf hd
  · simp only [h1, Option.bind_some]
    exact ⟨_, _, rfl, h2.ok hs⟩
  · simp only [h1, Option.bind_some]
    split
    · rename_i ht
      rw [N.lst, Option.bind_some]
      obtain ⟨l1, l2, l3⟩ := N.ok.1 k o N.lst
      have hok : Ok (s1.setl k { o with size := 0 }) := N.ok.setl N.lst ⟨Nat.zero_le _, l2, fun _ => rfl⟩
        (empty_excl N.ok N.lst (by rw [h2, ht]; decide))
      obtain ⟨s2, m1, m2⟩ := immLoop_ok hok (lst_setl_self N.lst) (by rw [← ht, ← h2]) (pairs l) (hf.mono (by have := pairs_length l; simp only; omega))
      rw [m1, Option.bind_some]
      exact ⟨_, _, rfl, m2⟩
    · split
      · exact ⟨_, _, rfl, N.ok⟩
      · obtain ⟨s2, o2, p1, N2, -⟩ := N.poke (p := 0) (src := l) (by omega)
        rw [p1, Option.bind_some]
        exact ⟨_, _, rfl, N2.ok⟩

theorem newStr_okK {s : S} (hs : Ok s) {b : List UInt8} (hf : b.length + 1 < 2 ^ E.A.offBits) : RunsK s (newStr E s b) := by
  simp only [RunsK, newStr, off_lt hf, Nat.lt_irrefl, if_false]
  split
  · exact ⟨_, _, rfl, hs.ask _, fun _ _ h _ => h⟩
  · refine ⟨_, _, rfl, (hs.ask _).push (by rintro o ⟨⟩), fun i o h _ => ?_⟩
    rw [lst_push, if_neg (by rw [objs_ask]; exact Nat.ne_of_lt (lst_lt h))]; exact h

theorem newStr_ok {s : S} (hs : Ok s) {b : List UInt8} (hf : b.length + 1 < 2 ^ E.A.offBits) : Runs (newStr E s b) := (newStr_okK hs hf).runs

theorem sliceLoop_take {A : Arch} {α : Type} {data l : List α} {L n p : Nat} {t : Int} (h : sliceLoop A (data.take L) n p t = some l) :
    sliceLoop A data n p t = some l := by
  induction n generalizing p l with
  | zero => exact h
  | succ n ih =>
    simp only [sliceLoop, Option.bind_eq_bind, Option.pure_def] at h ⊢
    obtain ⟨x, h1, h⟩ := Option.bind_eq_some_iff.1 h
    obtain ⟨rest, h2, h⟩ := Option.bind_eq_some_iff.1 h
    cases h
    have hp : p < L := by
      have := (List.getElem?_eq_some_iff.1 h1).1
      rw [List.length_take] at this; omega
    rw [List.getElem?_take_of_lt hp] at h1
    rw [h1, Option.bind_some, ih h2, Option.bind_some]

theorem listSlice_ok {s : S} (hs : Ok s) {i : Nat} {o : LObj} (h : s.lst i = some o) {t : SliceT} {l : List Val} (hf : Fits E t.count)
    (hl : sliceLoop E.A o.data t.count t.pos t.stride = some l) (hlen : l.length = t.count) : Runs (listSlice E s i t) := by
  simp only [Runs, listSlice, h, Option.bind_eq_bind, Option.bind_some, Option.pure_def]
  split
  · exact ⟨_, _, rfl, hs⟩
  · obtain ⟨r, s1, h1, ⟨rfl, h2, h3⟩ | ⟨k, q, rfl, N, h2, h3, h4⟩⟩ := make_new (t := if o.type.readonly = true then .tuple else .list) hs hf
      (fun hh => by split at hh <;> cases hh)
    · simp only [h1, Option.bind_some]
      exact ⟨_, _, rfl, h2.ok hs⟩
    · simp only [h1, Option.bind_some, hl]
      split
      · exact ⟨_, _, rfl, N.ok⟩
      · obtain ⟨s2, o2, p1, N2, -⟩ := N.poke (p := 0) (src := l) (by omega)
        rw [p1, Option.bind_some]
        exact ⟨_, _, rfl, N2.ok⟩

theorem two_lt (hA : E.A.Valid) : 65535 < 2 ^ E.A.offBits :=
  Nat.lt_of_lt_of_le (by decide : 65535 < 2 ^ 16) (Nat.pow_le_pow_right (by decide) hA.lo)

theorem strGet_ok (hA : E.A.Valid) {s : S} (hs : Ok s) {i : Nat} {b : List UInt8} (h : s.bytes i = some b) (p : Val) : Runs (strGet E s i p) := by
  simp only [Runs, strGet, h, Option.bind_eq_bind, Option.bind_some, Option.pure_def]
  generalize (if (soff E p).1 < 0 then E.off (b.length + (2 ^ E.A.offBits - E.off (-(soff E p).1).toNat)) else (soff E p).1.toNat) = k
  have hs2 : Ok (if (soff E p).2 = true then s.fail else s) := by
    split
    · exact hs.fail
    · exact hs
  split
  · exact ⟨_, _, rfl, hs2.fail⟩
  · rw [List.getElem?_eq_getElem (by simp; omega), Option.bind_some]
    exact newStr_ok hs2 (by have := two_lt hA; simp; omega)

theorem index_ok (hA : E.A.Valid) {s : S} (hs : Ok s) {a b : Val} (ha : VOk s a) : Runs (index E s a b) := by
  unfold index
  split
  · obtain ⟨o, ho⟩ := ha; exact get_ok hs ho b
  · obtain ⟨o, ho⟩ := ha; exact strGet_ok hA hs ho b
  · exact ⟨_, _, rfl, hs.fail⟩

theorem isIn_ok {s : S} (hs : Ok s) {pos : Bool} {a b : Val} (ha : VOk s a) (hb : VOk s b) : Runs (isIn E pos a b s) := by
  unfold isIn
  split
  · exact ⟨_, _, rfl, hs⟩
  · obtain ⟨o, ho⟩ := hb
    obtain ⟨l1, l2, -⟩ := hs.1 _ o ho
    simp only [ho, Option.bind_eq_bind, Option.bind_some, mread_ok (show o.size ≤ o.data.length by omega), Option.pure_def]
    exact ⟨_, _, rfl, hs⟩
  · obtain ⟨x, hx⟩ := ha
    obtain ⟨y, hy⟩ := hb
    simp only [hx, hy, Option.bind_eq_bind, Option.bind_some, Option.pure_def]
    exact ⟨_, _, rfl, hs⟩
  · exact ⟨_, _, rfl, hs.fail⟩

theorem len_ok {s : S} {v : Val} (hv : VOk s v) : ∃ n, len s v = some n := by
  cases v with
  | str i => obtain ⟨b, hb⟩ := hv; exact ⟨_, by simp only [len, hb]; rfl⟩
  | list i => obtain ⟨b, hb⟩ := hv; exact ⟨_, by simp only [len, hb]; rfl⟩
  | num u => exact ⟨0, rfl⟩
  | func u => exact ⟨0, rfl⟩
  | builtin u => exact ⟨0, rfl⟩

theorem sliceArg_eq (d : Int) (p : Option Val) : (sliceArg E d p).1 = (p.map (fun x => (soff E x).1)).getD d := by
  cases p <;> rfl

theorem pow_split (hA : E.A.Valid) : (2 : Int) ^ E.A.offBits = 2 * 2 ^ (E.A.offBits - 1) := by
  have := hA.lo
  obtain ⟨m, hm⟩ : ∃ m, E.A.offBits = m + 1 := ⟨E.A.offBits - 1, by omega⟩
  rw [hm, Nat.add_sub_cancel, Int.pow_succ]; omega

theorem slice_ok (hA : E.A.Valid) {s : S} (hs : Ok s) {v : Val} {p q t : Option Val} (hv : VOk s v) (hf : sliceFits E v p q t s) :
    Runs (slice E v p q t s) := by
  obtain ⟨n, hn⟩ := len_ok hv
  obtain ⟨f1, f2, f3, f4, f5⟩ := hf n hn
  have hP := pow_split hA
  have hPn : (2 : Int) ^ E.A.offBits = ((2 ^ E.A.offBits : Nat) : Int) := by push_cast; rfl
  simp only [slice, Option.bind_eq_bind, Option.pure_def, sliceArg_eq]
  have hs2 : ∀ c : Bool, Ok (if c = true then s.fail else s) ∧ (if c = true then s.fail else s).objs = s.objs := fun c => by
    cases c
    · exact ⟨hs, rfl⟩
    · exact ⟨hs.fail, rfl⟩
  generalize hs' : (if ((sliceArg E 1 t).2 || (sliceArg E E.A.soffNone q).2 || (sliceArg E E.A.soffNone p).2) = true then s.fail else s) = s'
  obtain ⟨e1, e2⟩ := hs2 ((sliceArg E 1 t).2 || (sliceArg E E.A.soffNone q).2 || (sliceArg E E.A.soffNone p).2)
  rw [hs'] at e1 e2
  have hn' : len s' v = some n := by
    rw [← hn]; cases v <;> simp only [len, lst_congr e2, bytes_congr e2]
  rw [hn', Option.bind_some]
  generalize p.map (fun x => (soff E x).1) = p' at *
  generalize q.map (fun x => (soff E x).1) = q' at *
  generalize (t.map (fun x => (soff E x).1)).getD 1 = d at *
  split
  · exact ⟨_, _, rfl, e1.fail⟩
  · rename_i hd
    cases v with
    | str i =>
      obtain ⟨b, hb⟩ := hv
      have hbn : n = b.length := by simp only [len, hb] at hn; cases hn; rfl
      obtain ⟨c, c1, c2, c3, c4, c5⟩ := slice_run E.A hA (b ++ [0]) n (by simp; omega) (by simp; omega) p' q' d hd f2 f3 f4 f5
      rw [c1, Option.bind_some]
      simp only [strSlice, bytes_congr e2, hb, Option.bind_eq_bind, Option.bind_some, Option.pure_def]
      split
      · exact ⟨_, _, rfl, e1⟩
      · rw [c3, Option.bind_some]
        exact newStr_ok e1 (by omega)
    | list i =>
      obtain ⟨o, ho⟩ := hv
      obtain ⟨l1, l2, -⟩ := hs.1 _ o ho
      have hbn : n ≤ o.size := by
        simp only [len, ho, Option.bind_eq_bind, Option.bind_some, Option.pure_def, Option.some.injEq] at hn
        split at hn <;> omega
      have hl : (o.data.take n).length = n := by rw [List.length_take]; omega
      obtain ⟨c, c1, c2, c3, c4, c5⟩ := slice_run E.A hA (o.data.take n) n (by omega) (by omega) p' q' d hd f2 f3 f4 f5
      rw [c1, Option.bind_some]
      exact listSlice_ok e1 (by rw [lst_congr e2]; exact ho) ((f1 i rfl).mono c2) (sliceLoop_take c3) c4
    | num u =>
      obtain ⟨c, c1, -⟩ := slice_run E.A hA (List.replicate n ()) n (by simp) (by simp; omega) p' q' d hd f2 f3 f4 f5
      rw [c1]; exact ⟨_, _, rfl, e1⟩
    | func u =>
      obtain ⟨c, c1, -⟩ := slice_run E.A hA (List.replicate n ()) n (by simp) (by simp; omega) p' q' d hd f2 f3 f4 f5
      rw [c1]; exact ⟨_, _, rfl, e1⟩
    | builtin u =>
      obtain ⟨c, c1, -⟩ := slice_run E.A hA (List.replicate n ()) n (by simp) (by simp; omega) p' q' d hd f2 f3 f4 f5
      rw [c1]; exact ⟨_, _, rfl, e1⟩

theorem arithTimes_ok {s : S} (hs : Ok s) {a b : Val} (ha : VOk s a) (hf : timesFits E a b s) : RunsK s (arithTimes E s a b) := by
  unfold arithTimes
  split
  · rename_i u
    simp only
    split
    · exact ⟨_, _, rfl, hs, Keeps.rfl⟩
    · rename_i hn
      split
      · obtain ⟨o, ho⟩ := ha
        simp only [ho, Option.bind_eq_bind, Option.bind_some]
        split
        · exact ⟨_, _, rfl, hs.fail, Keeps.fail⟩
        · rename_i ht
          obtain ⟨r, s', h1, h3, h2, -⟩ := times_ok (E := E) hs ho (n := (soff E (.num u)).1) (by omega) (hf o ho) ht
          rw [h1, Option.bind_some]
          exact ⟨_, _, rfl, h2, h3.keeps⟩
      · obtain ⟨x, hx⟩ := ha
        simp only [strTimes, hx, Option.bind_eq_bind, Option.bind_some]
        refine newStr_okK hs ?_
        have := hf x hx
        simpa [List.length_flatten] using this
      · exact ⟨_, _, rfl, hs.fail, Keeps.fail⟩
  · exact ⟨_, _, rfl, hs.fail, Keeps.fail⟩

theorem readonly_list {t : LType} (h1 : t ≠ .dict) (h2 : t.readonly = false) : t = .list := by
  cases t
  · rfl
  · cases h2
  · exact absurd rfl h1

theorem arith_ok {s : S} (hs : Ok s) {op : BinOp} {ip : Bool} {a b : Val} (ha : VOk s a) (hb : VOk s b) (hf : arithFits E op a b s) :
    RunsK s (arith E op ip a b s) := by
  unfold arith
  split
  · split <;> first | exact ⟨_, _, rfl, hs, Keeps.rfl⟩ | exact ⟨_, _, rfl, hs.fail, Keeps.fail⟩
  · split
    · split
      · obtain ⟨x, hx⟩ := ha
        obtain ⟨y, hy⟩ := hb
        simp only [strCat, hx, hy, Option.bind_eq_bind, Option.bind_some]
        exact newStr_okK hs (by rw [List.length_append]; exact hf x y hx hy)
      · obtain ⟨x, hx⟩ := ha
        obtain ⟨y, hy⟩ := hb
        simp only [hx, hy, Option.bind_eq_bind, Option.bind_some]
        split
        · rename_i ht
          split
          · rename_i hro
            obtain ⟨r, s', h1, h2, -, -, h3, -⟩ := append_ok (E := E) hs hx hy (hf x y hx hy) (readonly_list ht.2 (by simpa using (Bool.and_eq_true_iff.1 hro).2))
            rw [h1, Option.bind_some]
            exact ⟨_, _, rfl, h2, fun k o hk hd => by
              rw [lst_iff, h3 k (fun e => by subst e; rw [hx] at hk; cases hk; exact ht.2 hd)]; exact lst_iff.1 hk⟩
          · obtain ⟨r, s', h1, h3, h2, -⟩ := plus_ok (E := E) hs hx hy (hf x y hx hy) ht.2
            rw [h1, Option.bind_some]
            exact ⟨_, _, rfl, h2, h3.keeps⟩
        · exact ⟨_, _, rfl, hs.fail, Keeps.fail⟩
      · exact ⟨_, _, rfl, hs.fail, Keeps.fail⟩
    · split
      · exact arithTimes_ok hs hb hf.2
      · exact arithTimes_ok hs ha hf.1
    · split
      · obtain ⟨x, hx⟩ := ha
        simp only [hx, Option.bind_eq_bind, Option.bind_some]
        split
        · rename_i r hr
          exact newStr_okK hs (hf x r hx hr)
        · exact ⟨_, _, rfl, hs, Keeps.rfl⟩
        · exact ⟨_, _, rfl, hs.fail, Keeps.fail⟩
      · exact ⟨_, _, rfl, hs.fail, Keeps.fail⟩
    · exact ⟨_, _, rfl, hs.fail, Keeps.fail⟩

theorem elemRef_ok {s : S} (hs : Ok s) {lp ip : Val} (hl : VOk s lp) {n : Nat} (hf : dictFits E lp (n + 2) s) :
    ∃ r s', elemRef E s lp ip = some (r, s') ∧ Ok s' ∧ dictFits E lp n s' ∧
      ∀ i k, r = some (i, k) → lp = .list i ∧ ∃ o, s'.lst i = some o ∧ k < o.size := by
  unfold elemRef
  split
  · rename_i i
    obtain ⟨o, ho⟩ := hl
    simp only [ho, Option.bind_eq_bind, Option.bind_some, Option.pure_def]
    have hf0 : dictFits E (.list i) n s := fun o h1 h2 => (hf o h1 h2).mono (by omega)
    split
    · exact ⟨_, _, rfl, hs.fail, hf0, by rintro i k ⟨⟩⟩
    · obtain ⟨r, s', h1, h2, h3, h4, h5, o', h6, h7, h8, h9, h10⟩ := ref_ok (E := E) hs ho (fun ht => (hf o ho ht).mono (by omega)) ip true
      rw [h1, Option.bind_some]
      have hf1 : dictFits E (.list i) n s' := fun q h11 h2 => by
        rw [h6] at h11; cases h11
        exact (hf o ho (by rw [← h7]; exact h2)).mono (by omega)
      cases r with
      | none => exact ⟨_, _, rfl, h2, hf1, by rintro i k ⟨⟩⟩
      | some k =>
        refine ⟨_, _, rfl, h2, hf1, ?_⟩
        rintro i k ⟨⟩
        exact ⟨rfl, o', h6, h10 _ rfl⟩
  · refine ⟨_, _, rfl, hs.fail, ?_, by rintro i k ⟨⟩⟩
    exact hf_fail hs hf
where
  hf_fail {s : S} (_ : Ok s) {lp : Val} {n : Nat} (hf : dictFits E lp (n + 2) s) : dictFits E lp n s.fail := by
    cases lp with
    | list i => exact fun o h1 h2 => (hf o h1 h2).mono (by omega)
    | _ => trivial

theorem storeElem_ok {s : S} (hs : Ok s) {lp ip v : Val} (hl : VOk s lp) (hf : dictFits E lp 2 s) :
    ∃ s', storeElem E lp ip v s = some s' ∧ Ok s' := by
  obtain ⟨r, s', h1, h2, -, h3⟩ := elemRef_ok (E := E) (ip := ip) hs hl (n := 0) hf
  simp only [storeElem, h1, Option.bind_eq_bind, Option.bind_some, Option.pure_def]
  cases r with
  | none => exact ⟨_, rfl, h2⟩
  | some q =>
    obtain ⟨i, k⟩ := q
    obtain ⟨-, o, h4, h5⟩ := h3 i k rfl
    obtain ⟨o', m1, m2, -⟩ := setSlot_ok h2 h4 h5 v
    exact ⟨_, m1, m2⟩

theorem augElem_ok {s : S} (hs : Ok s) (hr : Rel True s s) {op : BinOp} {lp ip v : Val} (hl : VOk s lp) (hi : VOk s ip) (hv : VOk s v)
    (hf : (Op.aug op lp ip v).fits E s) : ∃ s', augElem E op lp ip v s = some s' ∧ Ok s' := by
  obtain ⟨r, s', h1, h2, hf2, h3⟩ := elemRef_ok (E := E) (ip := ip) hs hl (n := 2) hf.1
  obtain ⟨k1, k2, -⟩ := elemRef_rel hr (fun _ => hi.pok) h1
  simp only [augElem, h1, Option.bind_eq_bind, Option.bind_some, Option.pure_def]
  cases r with
  | none => exact ⟨_, rfl, h2⟩
  | some q =>
    obtain ⟨i, k⟩ := q
    obtain ⟨hlp, o, h4, h5⟩ := h3 i k rfl
    obtain ⟨l1, l2, -⟩ := h2.1 i o h4
    have hk : o.data[k]? = some (o.data[k]'(by omega)) := List.getElem?_eq_getElem (by omega)
    simp only [h4, Option.bind_some, hk]
    obtain ⟨x, s2, m1, m2, m3⟩ := arith_ok (E := E) (op := op) (ip := true) h2 (k1.words trivial i o h4 _ (List.getElem_mem (by omega))).vok
      (k2.vok hv) (hf.2 i k s' o _ h1 h4 hk)
    rw [m1, Option.bind_some]
    simp only
    split
    · exact ⟨_, rfl, m2.fail⟩
    have ty := (arith_rel k1 m1).2.1
    refine storeElem_ok m2 ((k2.trans ty).vok hl) ?_
    subst hlp
    intro q hq hd
    obtain ⟨q', hq', hq2⟩ := ty.lst i o h4
    rw [hq] at hq'; cases hq'
    have hk3 := m3 i o h4 (by rw [← hq2]; exact hd)
    rw [hq] at hk3; cases hk3
    exact hf2 _ h4 hd

/-- One operation. -/
theorem step_ok (hA : E.A.Valid) {s : S} (hs : Ok s) (hr : Rel True s s) {op : Op} (hv : op.vok s) (hf : op.fits E s) :
    ∃ s', step E op s = some s' ∧ Ok s' := by
  have lift : ∀ {x : Option (Val × S)}, Runs x → ∃ s', x.map (·.2) = some s' ∧ Ok s' := by
    rintro x ⟨r, s', rfl, h⟩; exact ⟨s', rfl, h⟩
  cases op with
  | arith op ip a b => exact lift (arith_ok hs hv.1 hv.2 hf).runs
  | index a b => exact lift (index_ok hA hs hv.1)
  | isIn p a b => exact lift (isIn_ok hs hv.1 hv.2)
  | slice v p q t => exact lift (slice_ok hA hs hv hf)
  | build t l => exact lift (imm_ok hs hf.1 hf.2)
  | store l i v => exact storeElem_ok hs hv.1 hf
  | aug op l i v => exact augElem_ok hs hr hv.1 hv.2.1 hv.2.2 hf
  | del l i =>
    simp only [step, delElem]
    split
    · obtain ⟨o, ho⟩ := hv.1; exact del_ok hs ho (hf o ho) i
    · exact ⟨_, rfl, hs.fail⟩

theorem RelQ.self {Q : Nat → Prop} {c : Prop} {s0 s : S} (h : RelQ Q c s0 s) : RelQ Q c s s := ⟨.refl s, fun _ _ h _ => h, h.words, h.emp⟩

/-- Any allowed sequence of operations runs without leaving the objects. -/
theorem runOps_ok (hA : E.A.Valid) {s : S} (hs : Ok s) (hr : Rel True s s) (ops : List Op) (h : Allowed E ops s) :
    ∃ s', runOps E ops s = some s' ∧ Ok s' ∧ Rel True s' s' := by
  induction ops generalizing s with
  | nil => exact ⟨s, rfl, hs, hr⟩
  | cons op ops ih =>
    obtain ⟨s1, h1, h2⟩ := step_ok hA hs hr h.1 h.2.1
    have hr1 := (step_rel hr (fun _ => h.1) h1).1.self
    simp only [runOps, h1, Option.bind_some]
    exact ih h2 hr1 (h.2.2 s1 h1)

theorem start_ok (mem : Nat → Nat → Bool) : Ok (S.start mem) :=
  ⟨fun i o h => by rw [lst_iff] at h; simp [S.start] at h, fun i h => by cases h⟩

theorem start_rel (c : Prop) (mem : Nat → Nat → Bool) : Rel c (S.start mem) (S.start mem) :=
  ⟨.refl _, fun _ _ h _ => h, fun _ i o h => by rw [lst_iff] at h; simp [S.start] at h, fun i h => by cases h⟩

end Snek.Store
