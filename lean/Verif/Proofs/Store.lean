import Verif.Spec.Store
/-! Lemmas about containers in memory. -/
namespace Snek.Store

variable {E : Env}

/-! ## Words -/

theorem mcpy_ok {α : Type} {d src : List α} {p : Nat} (h : p + src.length ≤ d.length) :
    mcpy d p src = some (d.take p ++ src ++ d.drop (p + src.length)) := if_pos h

theorem mread_ok {α : Type} {d : List α} {n : Nat} (h : n ≤ d.length) : mread d n = some (d.take n) := if_pos h

theorem mcpy_len {α : Type} {d src d' : List α} {p : Nat} (h : mcpy d p src = some d') : d'.length = d.length := by
  unfold mcpy at h; split at h
  · cases h; simp only [List.length_append, List.length_take, List.length_drop]; omega
  · cases h

theorem mmove_len {α : Type} {d d' : List α} {a b n : Nat} (h : mmove d a b n = some d') : d'.length = d.length := by
  unfold mmove at h; split at h
  · cases h; simp only [List.length_append, List.length_take, List.length_drop]; omega
  · cases h

theorem mset_len {α : Type} {d d' : List α} {a : Nat} {x : α} (h : mset d a x = some d') : d'.length = d.length := by
  unfold mset at h; split at h
  · cases h; simp
  · cases h

/-! ## Objects -/

theorem lst_iff {s : S} {i : Nat} {o : LObj} : s.lst i = some o ↔ s.objs[i]? = some (.list o) := by
  unfold S.lst
  split <;> rename_i h
  · rw [h]; simp
  · constructor
    · intro h'; cases h'
    · intro h'; exact absurd h' (by intro h2; exact h _ h2)

theorem lst_lt {s : S} {i : Nat} {o : LObj} (h : s.lst i = some o) : i < s.objs.length :=
  (List.getElem?_eq_some_iff.1 (lst_iff.1 h)).1

@[simp] theorem lst_fail (s : S) (i : Nat) : s.fail.lst i = s.lst i := rfl
@[simp] theorem objs_fail (s : S) : s.fail.objs = s.objs := rfl
@[simp] theorem empty_fail (s : S) : s.fail.empty = s.empty := rfl
@[simp] theorem objs_ask (s : S) (n : Nat) : (s.ask n).2.objs = s.objs := rfl
@[simp] theorem empty_ask (s : S) (n : Nat) : (s.ask n).2.empty = s.empty := rfl
@[simp] theorem lst_ask (s : S) (n i : Nat) : (s.ask n).2.lst i = s.lst i := rfl
@[simp] theorem objs_setl (s : S) (i : Nat) (o : LObj) : (s.setl i o).objs = s.objs.set i (.list o) := rfl
@[simp] theorem empty_setl (s : S) (i : Nat) (o : LObj) : (s.setl i o).empty = s.empty := rfl
@[simp] theorem abort_setl (s : S) (i : Nat) (o : LObj) : (s.setl i o).abort = s.abort := rfl

theorem lst_congr {s s' : S} (h : s'.objs = s.objs) (j : Nat) : s'.lst j = s.lst j := by unfold S.lst; rw [h]

theorem bytes_congr {s s' : S} (h : s'.objs = s.objs) (j : Nat) : s'.bytes j = s.bytes j := by unfold S.bytes; rw [h]

theorem lst_setl_self {s : S} {i : Nat} {o o' : LObj} (h : s.lst i = some o) : (s.setl i o').lst i = some o' := by
  rw [lst_iff, objs_setl, List.getElem?_set_self (lst_lt h)]

theorem lst_setl_ne {s : S} {i j : Nat} {o : LObj} (h : j ≠ i) : (s.setl i o).lst j = s.lst j := by
  unfold S.lst
  rw [objs_setl, List.getElem?_set_ne (Ne.symm h)]

theorem bytes_setl {s : S} {i : Nat} {o o' : LObj} (h : s.lst i = some o) (j : Nat) : (s.setl i o').bytes j = s.bytes j := by
  unfold S.bytes
  rw [objs_setl, List.getElem?_set]
  by_cases hj : i = j
  · subst hj; rw [if_pos rfl, if_pos (lst_lt h), lst_iff.1 h]
  · rw [if_neg hj]

/-- Replacing a list object keeps the state well formed. -/
theorem Ok.setl {s : S} (h : Ok s) {i : Nat} {o o' : LObj} (hi : s.lst i = some o) (ho : LOk o')
    (he : s.empty = some i → o'.type = .tuple ∧ o'.size = 0 ∧ o'.data = []) : Ok (s.setl i o') := by
  refine ⟨fun j q hq => ?_, fun j hj => ?_⟩
  · by_cases hji : j = i
    · subst hji; rw [lst_setl_self hi] at hq; cases hq; exact ho
    · rw [lst_setl_ne hji] at hq; exact h.1 j q hq
  · by_cases hji : j = i
    · subst hji; exact ⟨o', lst_setl_self hi, he hj⟩
    · rw [lst_setl_ne hji]; exact h.2 j hj

theorem Ok.congr {s s' : S} (h : Ok s) (h1 : s'.objs = s.objs) (h2 : s'.empty = s.empty) : Ok s' := by
  have hl : ∀ i, s'.lst i = s.lst i := fun i => by unfold S.lst; rw [h1]
  refine ⟨fun i o hi => h.1 i o (hl i ▸ hi), fun i hi => ?_⟩
  rw [hl]; exact h.2 i (h2 ▸ hi)

theorem Ok.fail {s : S} (h : Ok s) : Ok s.fail := h.congr rfl rfl
theorem Ok.ask {s : S} (h : Ok s) (n : Nat) : Ok (s.ask n).2 := h.congr rfl rfl

theorem lst_push {s : S} {x : Obj} (j : Nat) :
    (s.push x).lst j = if j = s.objs.length then (match x with | .list o => some o | _ => none) else s.lst j := by
  unfold S.lst S.push
  by_cases hj : j = s.objs.length
  · subst hj; rw [if_pos rfl]; simp only [List.getElem?_concat_length]; cases x <;> rfl
  · rw [if_neg hj]
    by_cases hlt : j < s.objs.length
    · simp only [List.getElem?_append_left hlt]
    · have : (s.objs ++ [x])[j]? = none := List.getElem?_eq_none (by simp; omega)
      simp only [this, List.getElem?_eq_none (Nat.le_of_not_lt hlt)]

theorem Ok.push {s : S} (h : Ok s) {x : Obj} (hx : ∀ o, x = .list o → LOk o) : Ok (s.push x) := by
  refine ⟨fun i o hi => ?_, fun i hi => ?_⟩
  · rw [lst_push] at hi
    split at hi
    · cases x with
      | list q => simp only [Option.some.injEq] at hi; subst hi; exact hx _ rfl
      | str b => cases hi
    · exact h.1 i o hi
  · obtain ⟨o, ho, hh⟩ := h.2 i hi
    refine ⟨o, ?_, hh⟩
    rw [lst_push, if_neg (Nat.ne_of_lt (lst_lt ho))]; exact ho

/-! ## Sizes -/

theorem off_lt {n : Nat} (h : n < 2 ^ E.A.offBits) : E.off n = n := Nat.mod_eq_of_lt h

theorem Fits.mono {n m : Nat} (h : Fits E n) (hm : m ≤ n) : Fits E m := by
  unfold Fits at *
  have : m / 8 ≤ n / 8 := Nat.div_le_div_right hm
  omega

theorem Fits.off {n : Nat} (h : Fits E n) : E.off n = n := by
  apply off_lt; unfold Fits at h; omega

theorem Fits.alloc {n : Nat} (h : Fits E n) : n ≤ listAlloc E n ∧ E.off (listAlloc E n * 4) = listAlloc E n * 4 := by
  unfold Fits at h
  have h1 : (n + n / 8 + if n < 9 then 3 else 6) ≤ n + n / 8 + 6 := by split <;> omega
  have h2 : listAlloc E n = n + n / 8 + if n < 9 then 3 else 6 := off_lt (by omega)
  rw [h2]
  refine ⟨by omega, off_lt (by omega)⟩

theorem Fits.bytes {n : Nat} (h : Fits E n) : E.off (n * 4) = n * 4 := by
  apply off_lt; unfold Fits at h; omega

/-! ## Growth -/

/-- Growing or shrinking list `i` to `n` elements. -/
theorem resize_ok {s : S} {i n : Nat} {o : LObj} (h : s.lst i = some o) (ho : LOk o) (hf : Fits E n) :
    ∃ b s', resize E s i n = some (b, s') ∧ s'.empty = s.empty ∧ s'.mem = s.mem ∧
      ((b = true ∧ s'.abort = s.abort ∧ ∃ o', s'.objs = s.objs.set i (.list o') ∧ o'.type = o.type ∧ o'.size = n ∧
          n ≤ o'.alloc ∧ o'.data.length = o'.alloc ∧ o'.data.take (min n o.size) = o.data.take (min n o.size) ∧
          ∀ v ∈ o'.data, v ∈ o.data ∨ v = Val.zero) ∨
        (b = false ∧ s'.abort = true ∧ s'.objs = s.objs)) := by
  obtain ⟨h1, h2, -⟩ := ho
  simp only [resize, h, Option.bind_eq_bind, Option.bind_some, Option.pure_def]
  split
  · rename_i hle
    exact ⟨true, _, rfl, rfl, rfl, .inl ⟨rfl, rfl, _, rfl, rfl, rfl, hle, h2, rfl, fun v hv => .inl hv⟩⟩
  · rename_i hgt
    have ha : n ≤ (if o.type.readonly = true then n else listAlloc E n) := by
      split
      · exact Nat.le_refl _
      · exact hf.alloc.1
    have hb : E.off ((if o.type.readonly = true then n else listAlloc E n) * 4) =
        (if o.type.readonly = true then n else listAlloc E n) * 4 := by
      split
      · exact hf.bytes
      · exact hf.alloc.2
    generalize (if o.type.readonly = true then n else listAlloc E n) = al at *
    simp only [hb, Nat.mul_div_cancel _ (show 0 < 4 by decide)]
    cases hm : (s.ask (al * 4)).1 with
    | false =>
      refine ⟨false, (s.ask (al * 4)).2, by simp, rfl, rfl, .inr ⟨rfl, ?_, rfl⟩⟩
      simp only [S.ask] at hm ⊢; rw [hm]; simp
    | true =>
      rw [mread_ok (by omega), Option.bind_some, mcpy_ok (by simp; omega), Option.bind_some]
      simp only [Bool.not_true, Bool.false_eq_true, if_false]
      refine ⟨true, _, rfl, rfl, rfl, .inl ⟨rfl, ?_, _, rfl, rfl, rfl, ha, ?_, ?_, ?_⟩⟩
      · simp only [S.ask, abort_setl] at hm ⊢; rw [hm]; simp
      · simp; omega
      · simp only [List.take_zero, List.nil_append]
        rw [List.take_append_of_le_length (by simp; omega), List.take_take, Nat.min_self]
      · intro v hv
        simp only [List.take_zero, List.nil_append, List.mem_append, List.drop_replicate] at hv
        rcases hv with hv | hv
        · exact .inl (List.mem_of_mem_take hv)
        · exact .inr (List.eq_of_mem_replicate hv)

/-- `s'` has the objects of `s` and possibly more, all well formed. -/
structure Ext (s s' : S) : Prop where
  pre : s.objs <+: s'.objs
  ok : Ok s → Ok s'
  mem : s'.mem = s.mem

theorem Ext.lst {s s' : S} (h : Ext s s') {i : Nat} {o : LObj} (hi : s.lst i = some o) : s'.lst i = some o := by
  obtain ⟨t, ht⟩ := h.pre
  rw [lst_iff, ← ht, List.getElem?_append_left (lst_lt hi)]; exact lst_iff.1 hi

theorem Ext.refl (s : S) : Ext s s := ⟨List.prefix_refl _, id, rfl⟩
theorem Ext.of_objs {s s' : S} (h : s'.objs = s.objs) (h2 : s'.empty = s.empty) (h3 : s'.mem = s.mem) : Ext s s' :=
  ⟨h ▸ List.prefix_refl _, fun hs => hs.congr h h2, h3⟩
theorem Ext.push {s : S} {x : Obj} (hx : ∀ o, x = .list o → LOk o) : Ext s (s.push x) :=
  ⟨List.prefix_append _ _, fun h => h.push hx, rfl⟩

/-- Making a list of `n` elements: it is new (or the shared empty tuple), large enough, and nothing else changes. -/
theorem make_ok {s : S} (hs : Ok s) {n : Nat} {t : LType} (hf : Fits E n) (hd : t = .dict → n % 2 = 0) :
    ∃ r s', make E s n t = some (r, s') ∧ Ext s s' ∧ (s.abort = true → s'.abort = true) ∧
      ((r = none ∧ s'.abort = true) ∨
       (∃ k o, r = some k ∧ s'.abort = s.abort ∧ s'.lst k = some o ∧ o.type = t ∧ o.size = n ∧ (∀ v ∈ o.data, v = Val.zero) ∧
          ((k = s.objs.length ∧ s'.objs = s.objs ++ [.list o]) ∨ (n = 0 ∧ t = .tuple ∧ s.empty = some k ∧ s' = s)))) := by
  unfold make
  have hnew : ∀ t, LOk ⟨t, 0, 0, []⟩ := fun t => ⟨Nat.le_refl _, rfl, fun _ => rfl⟩
  split
  · rename_i h0
    cases he : s.empty with
    | some i =>
      obtain ⟨o, h1, h2, h3, h4⟩ := hs.2 i he
      exact ⟨some i, s, rfl, .refl s, id, .inr ⟨i, o, rfl, rfl, h1, by rw [h2, h0.2], by rw [h3, h0.1], by rw [h4]; simp,
        .inr ⟨h0.1, h0.2, rfl, rfl⟩⟩⟩
    | none =>
      simp only [headAlloc]
      cases hm : (s.ask (E.A.offBits / 2)).1 with
      | false =>
        simp only [Bool.false_eq_true, if_false]
        have : (s.ask (E.A.offBits / 2)).2.abort = true := by simp only [S.ask] at hm ⊢; rw [hm]; simp
        exact ⟨none, _, rfl, .of_objs rfl he.symm rfl, fun _ => this, .inl ⟨rfl, this⟩⟩
      | true =>
        simp only [if_true]
        have ha : (s.ask (E.A.offBits / 2)).2.abort = s.abort := by simp only [S.ask] at hm ⊢; rw [hm]; simp
        have hl : ((s.ask (E.A.offBits / 2)).2.push (.list ⟨t, 0, 0, []⟩)).lst s.objs.length = some ⟨t, 0, 0, []⟩ := by
          rw [lst_push]; simp
        refine ⟨some _, _, rfl, ⟨List.prefix_append _ _, fun h => ?_, rfl⟩, ?_, .inr ⟨_, ⟨t, 0, 0, []⟩, rfl, ha, hl, rfl, h0.1.symm, by simp, .inl ⟨rfl, rfl⟩⟩⟩
        · have h1 := (h.ask (E.A.offBits / 2)).push (x := .list ⟨t, 0, 0, []⟩) (by rintro o ⟨⟩; exact hnew t)
          refine ⟨h1.1, fun i hi => ?_⟩
          simp only [objs_ask, Option.some.injEq] at hi
          subst hi
          exact ⟨_, hl, h0.2, rfl, rfl⟩
        · intro h; rw [← h]; exact ha
  · rename_i h0
    simp only [headAlloc]
    cases hm : (s.ask (E.A.offBits / 2)).1 with
    | false =>
      simp only [Bool.false_eq_true, if_false]
      have : (s.ask (E.A.offBits / 2)).2.abort = true := by simp only [S.ask] at hm ⊢; rw [hm]; simp
      exact ⟨none, _, rfl, .of_objs rfl rfl rfl, fun _ => this, .inl ⟨rfl, this⟩⟩
    | true =>
      simp only [if_true, objs_ask]
      have ha : (s.ask (E.A.offBits / 2)).2.abort = s.abort := by simp only [S.ask] at hm ⊢; rw [hm]; simp
      have hl : ((s.ask (E.A.offBits / 2)).2.push (.list ⟨t, 0, 0, []⟩)).lst s.objs.length = some ⟨t, 0, 0, []⟩ := by
        rw [lst_push]; simp
      obtain ⟨b, s', h1, h2, h3, h4⟩ := resize_ok (E := E) hl (hnew t) hf
      have hE : Ext s ((s.ask (E.A.offBits / 2)).2.push (.list ⟨t, 0, 0, []⟩)) :=
        ⟨List.prefix_append _ _, fun h => (h.ask _).push (by rintro o ⟨⟩; exact hnew t), rfl⟩
      simp only [h1, Option.bind_eq_bind, Option.bind_some, Option.pure_def]
      rcases h4 with ⟨rfl, h5, o', h6, h7, h8, h9, h10, -, h11⟩ | ⟨rfl, h5, h6⟩
      · have hobj : s'.objs = s.objs ++ [.list o'] := by
          rw [h6]; simp only [S.push, objs_ask]
          rw [List.set_append_right _ _ (Nat.le_refl _)]; simp
        have hlk : s'.lst s.objs.length = some o' := by rw [lst_iff, hobj]; simp
        refine ⟨_, s', rfl, ⟨?_, fun h => ?_, h3⟩, ?_, .inr ⟨_, o', rfl, ?_, hlk, h7, h8, fun v hv => by simpa using h11 v hv, .inl ⟨rfl, hobj⟩⟩⟩
        · rw [hobj]; exact List.prefix_append _ _
        · refine (h.push (x := .list o') ?_).congr hobj ?_
          · rintro o ⟨⟩; exact ⟨by omega, h10, fun hdd => by rw [h8]; exact hd (by rw [← hdd, h7])⟩
          · rw [h2]; rfl
        · intro h; rw [h5, ← h]; exact ha
        · rw [h5]; exact ha
      · refine ⟨_, s', rfl, ⟨?_, fun h => (hE.ok h).congr h6 h2, by rw [h3]; rfl⟩, fun _ => h5, .inl ⟨rfl, h5⟩⟩
        rw [h6]; exact hE.pre

/-- Writing into the storage of a list. -/
theorem poke_ok {s : S} {i p : Nat} {o : LObj} {src : List Val} (h : s.lst i = some o) (hp : p + src.length ≤ o.data.length) :
    poke s i p src = some (s.setl i { o with data := o.data.take p ++ src ++ o.data.drop (p + src.length) }) := by
  simp only [poke, h, Option.bind_eq_bind, Option.bind_some, mcpy_ok hp, Option.pure_def]

theorem peek_ok {s : S} {i n : Nat} {o : LObj} (h : s.lst i = some o) (hn : n ≤ o.data.length) :
    peek s i n = some (o.data.take n) := by
  simp only [peek, h, Option.bind_eq_bind, Option.bind_some, mread_ok hn]

/-- List object `k` with header and storage `o` was added to `s` (or is the shared empty tuple). -/
structure New (s s' : S) (k : Nat) (o : LObj) : Prop where
  lst : s'.lst k = some o
  ok : Ok s'
  abort : s'.abort = s.abort
  mem : s'.mem = s.mem
  alt : (k = s.objs.length ∧ s'.objs = s.objs ++ [.list o]) ∨ (o.size = 0 ∧ o.type = .tuple ∧ s.empty = some k ∧ s' = s)

theorem New.old {s s' : S} {k : Nat} {o : LObj} (h : New s s' k o) {i : Nat} {q : LObj} (hi : s.lst i = some q) :
    s'.lst i = some q := by
  rcases h.alt with ⟨-, h1⟩ | ⟨-, -, -, h1⟩
  · rw [lst_iff, h1, List.getElem?_append_left (lst_lt hi)]; exact lst_iff.1 hi
  · rw [h1]; exact hi

theorem New.ext {s s' : S} {k : Nat} {o : LObj} (h : New s s' k o) : Ext s s' := by
  refine ⟨?_, fun _ => h.ok, h.mem⟩
  rcases h.alt with ⟨-, h1⟩ | ⟨-, -, -, h1⟩
  · rw [h1]; exact List.prefix_append _ _
  · rw [h1]; exact List.prefix_refl _

/-- Result of making a list. -/
theorem make_new {s : S} (hs : Ok s) {n : Nat} {t : LType} (hf : Fits E n) (hd : t = .dict → n % 2 = 0) :
    ∃ r s', make E s n t = some (r, s') ∧
      ((r = none ∧ Ext s s' ∧ s'.abort = true) ∨ (∃ k o, r = some k ∧ New s s' k o ∧ o.type = t ∧ o.size = n ∧ ∀ v ∈ o.data, v = Val.zero)) := by
  obtain ⟨r, s', h1, h2, -, ⟨h4, h5⟩ | ⟨k, o, h4, h5, h6, h7, h8, h10, h9⟩⟩ := make_ok hs hf hd
  · exact ⟨r, s', h1, .inl ⟨h4, h2, h5⟩⟩
  · refine ⟨r, s', h1, .inr ⟨k, o, h4, ⟨h6, h2.ok hs, h5, h2.mem, ?_⟩, h7, h8, h10⟩⟩
    rcases h9 with h9 | ⟨h9, h10, h11, h12⟩
    · exact .inl h9
    · exact .inr ⟨by rw [h8, h9], by rw [h7, h10], h11, h12⟩

theorem setl_same {s : S} {k : Nat} {o : LObj} (h : s.lst k = some o) : s.setl k o = s := by
  have : s.objs.set k (.list o) = s.objs := by
    obtain ⟨h1, h2⟩ := List.getElem?_eq_some_iff.1 (lst_iff.1 h)
    rw [← h2]; exact List.set_getElem_self h1
  simp only [S.setl, this]

/-- Writing elements of a new list. -/
theorem New.poke {s s' : S} {k : Nat} {o : LObj} (h : New s s' k o) {p : Nat} {src : List Val} (hp : p + src.length ≤ o.size) :
    ∃ s'' o', poke s' k p src = some s'' ∧ New s s'' k o' ∧ o'.type = o.type ∧ o'.size = o.size ∧
      o'.data = o.data.take p ++ src ++ o.data.drop (p + src.length) := by
  obtain ⟨h1, h2, h3⟩ := h.ok.1 k o h.lst
  refine ⟨_, _, poke_ok h.lst (by omega), ⟨lst_setl_self h.lst, ?_, h.abort, h.mem, ?_⟩, rfl, rfl, rfl⟩
  · refine h.ok.setl h.lst ⟨h1, ?_, h3⟩ ?_
    · simp only [List.length_append, List.length_take, List.length_drop]; omega
    · intro he
      obtain ⟨q, hq, hq2⟩ := h.ok.2 k he
      rw [h.lst] at hq; cases hq
      refine ⟨hq2.1, hq2.2.1, ?_⟩
      have hsrc : src = [] := List.length_eq_zero_iff.1 (by omega)
      rw [hsrc, hq2.2.2]; simp
  · rcases h.alt with ⟨h4, h5⟩ | ⟨h4, h5, h6, h7⟩
    · refine .inl ⟨h4, ?_⟩
      rw [objs_setl, h5, h4, List.set_append_right _ _ (Nat.le_refl _)]; simp
    · refine .inr ⟨h4, h5, h6, ?_⟩
      have hsrc : src = [] := List.length_eq_zero_iff.1 (by omega)
      have hp0 : p = 0 := by omega
      subst hsrc; subst hp0; subst h7
      simp only [List.take_zero, List.nil_append, List.length_nil, Nat.add_zero, List.drop_zero]
      exact setl_same h.lst

/-- What a new list holds. -/
theorem New.elems {s s' : S} {k : Nat} {o : LObj} (h : New s s' k o) : s'.elems k = some (o.type, o.data.take o.size) := by
  unfold S.elems; rw [h.lst]; rfl

/-- The outcome of an operation that builds a list with these elements and changes nothing else: it fails for lack of memory,
or the list is a new object (or the shared empty tuple). -/
def Builds (s : S) (t : LType) (l : List Val) (r : Option Nat) (s' : S) : Prop :=
  Ext s s' ∧ Ok s' ∧ ((r = none ∧ s'.abort = true) ∨
    (∃ k, r = some k ∧ s'.abort = s.abort ∧ s'.elems k = some (t, l) ∧ (k = s.objs.length ∨ (t = .tuple ∧ l = [] ∧ s.empty = some k))))

theorem New.builds {s s' : S} {k : Nat} {o : LObj} (h : New s s' k o) {t : LType} {l : List Val} (ht : o.type = t)
    (hl : o.data.take o.size = l) : Builds s t l (some k) s' := by
  refine ⟨h.ext, h.ok, .inr ⟨k, rfl, h.abort, by rw [h.elems, ht, hl], ?_⟩⟩
  rcases h.alt with ⟨h4, -⟩ | ⟨h4, h5, h6, -⟩
  · exact .inl h4
  · exact .inr ⟨by rw [← ht, h5], by rw [← hl, h4]; rfl, h6⟩

/-- `+` -/
theorem plus_ok {s : S} (hs : Ok s) {i j : Nat} {a b : LObj} (ha : s.lst i = some a) (hb : s.lst j = some b)
    (hf : Fits E (a.size + b.size)) (ht : a.type ≠ .dict) :
    ∃ r s', plus E s i j = some (r, s') ∧ Builds s a.type (a.data.take a.size ++ b.data.take b.size) r s' := by
  obtain ⟨a1, a2, -⟩ := hs.1 i a ha
  obtain ⟨b1, b2, -⟩ := hs.1 j b hb
  simp only [plus, ha, hb, Option.bind_eq_bind, Option.bind_some, hf.off]
  obtain ⟨r, s1, h1, ⟨rfl, h2, h3⟩ | ⟨k, o, rfl, N, h2, h3, h4⟩⟩ := make_new (t := a.type) hs hf (fun h => absurd h ht)
  · simp only [h1, Option.bind_some, Option.pure_def]
    exact ⟨_, _, rfl, h2, h2.ok hs, .inl ⟨rfl, h3⟩⟩
  · simp only [h1, Option.bind_some, Option.pure_def]
    have la : (a.data.take a.size).length = a.size := by rw [List.length_take]; omega
    have lb : (b.data.take b.size).length = b.size := by rw [List.length_take]; omega
    rw [peek_ok (N.old ha) (by omega), Option.bind_some]
    obtain ⟨s2, o2, p1, N2, p2, p3, p4⟩ := N.poke (p := 0) (src := a.data.take a.size) (by rw [la]; omega)
    rw [p1, Option.bind_some, peek_ok (N2.old hb) (by omega), Option.bind_some]
    obtain ⟨s3, o3, q1, N3, q2, q3, q4⟩ := N2.poke (p := a.size) (src := b.data.take b.size) (by rw [lb]; omega)
    rw [q1, Option.bind_some]
    refine ⟨_, _, rfl, N3.builds (by rw [q2, p2, h2]) ?_⟩
    have e1 : o2.data.take a.size = a.data.take a.size := by
      rw [p4, List.take_zero, List.nil_append, List.take_append_of_le_length (by omega), List.take_of_length_le (by omega)]
    rw [q4, q3, p3, h3, e1]
    rw [List.take_append_of_le_length (by simp only [List.length_append]; omega), List.take_of_length_le (by simp only [List.length_append]; omega)]

theorem timesLoop_ok {s s' : S} {k : Nat} {o : LObj} (N : New s s' k o) {src : List Val} (c p : Nat)
    (hp : p + c * src.length ≤ o.size) : 
    ∃ s'' o', timesLoop s' k p src c = some s'' ∧ New s s'' k o' ∧ o'.type = o.type ∧ o'.size = o.size ∧
      o'.data.take (p + c * src.length) = o.data.take p ++ (List.replicate c src).flatten := by
  induction c generalizing s' o p with
  | zero => exact ⟨s', o, rfl, N, rfl, rfl, by simp⟩
  | succ c ih =>
    rw [Nat.succ_mul] at hp
    obtain ⟨s2, o2, p1, N2, p2, p3, p4⟩ := N.poke (p := p) (src := src) (by omega)
    simp only [timesLoop, p1, Option.bind_eq_bind, Option.bind_some]
    obtain ⟨s3, o3, q1, N3, q2, q3, q4⟩ := ih N2 (p + src.length) (by rw [p3]; omega)
    refine ⟨s3, o3, q1, N3, by rw [q2, p2], by rw [q3, p3], ?_⟩
    obtain ⟨k1, k2, -⟩ := N.ok.1 _ _ N.lst
    rw [Nat.succ_mul, show p + (c * src.length + src.length) = p + src.length + c * src.length by omega, q4, p4]
    rw [List.take_append_of_le_length (by simp only [List.length_append, List.length_take]; omega),
      List.take_of_length_le (by simp only [List.length_append, List.length_take]; omega), List.append_assoc]
    rfl

/-- `*` -/
theorem times_ok {s : S} (hs : Ok s) {i : Nat} {a : LObj} (ha : s.lst i = some a) {n : Int} (hn : 0 ≤ n)
    (hf : Fits E (a.size * n.toNat)) (ht : a.type ≠ .dict) :
    ∃ r s', times E s i n = some (r, s') ∧ Builds s a.type (List.replicate n.toNat (a.data.take a.size)).flatten r s' := by
  obtain ⟨a1, a2, -⟩ := hs.1 i a ha
  simp only [times, ha, Option.bind_eq_bind, Option.bind_some, if_neg (show ¬ n < 0 by omega), hf.off]
  obtain ⟨r, s1, h1, ⟨rfl, h2, h3⟩ | ⟨k, o, rfl, N, h2, h3, h4⟩⟩ := make_new (t := a.type) hs hf (fun h => absurd h ht)
  · simp only [h1, Option.bind_some, Option.pure_def]
    exact ⟨_, _, rfl, h2, h2.ok hs, .inl ⟨rfl, h3⟩⟩
  · simp only [h1, Option.bind_some, Option.pure_def]
    split
    · rename_i h0
      refine ⟨_, _, rfl, N.builds h2 ?_⟩
      rw [h3, h0]; simp
    · have la : (a.data.take a.size).length = a.size := by rw [List.length_take]; omega
      rw [peek_ok (N.old ha) (by omega), Option.bind_some]
      obtain ⟨s2, o2, p1, N2, p2, p3, p4⟩ := timesLoop_ok N (src := a.data.take a.size) n.toNat 0
        (by rw [la, h3, Nat.mul_comm]; omega)
      rw [p1, Option.bind_some]
      refine ⟨_, _, rfl, N2.builds (by rw [p2, h2]) ?_⟩
      rw [p3, h3]
      rw [la, Nat.zero_add, Nat.mul_comm, List.take_zero, List.nil_append] at p4
      exact p4

/-- `s'` differs from `s` at most in list object `i`, which keeps its type, and in objects added. -/
structure Only (i : Nat) (s s' : S) : Prop where
  len : s.objs.length ≤ s'.objs.length
  same : ∀ j, j < s.objs.length → j ≠ i → s'.objs[j]? = s.objs[j]?

/-- `+=` -/
theorem append_ok {s : S} (hs : Ok s) {i j : Nat} {a b : LObj} (ha : s.lst i = some a) (hb : s.lst j = some b)
    (hf : Fits E (a.size + b.size)) (ht : a.type = .list) :
    ∃ r s', append E s i j = some (r, s') ∧ Ok s' ∧ s'.mem = s.mem ∧ s'.objs.length = s.objs.length ∧
      (∀ k, k ≠ i → s'.objs[k]? = s.objs[k]?) ∧
      ((r = none ∧ s'.abort = true ∧ s'.objs = s.objs) ∨
       (r = some i ∧ s'.abort = s.abort ∧ s'.elems i = some (.list, a.data.take a.size ++ b.data.take b.size))) := by
  obtain ⟨a1, a2, -⟩ := hs.1 i a ha
  obtain ⟨b1, b2, -⟩ := hs.1 j b hb
  simp only [append, ha, hb, Option.bind_eq_bind, Option.bind_some, hf.off]
  obtain ⟨r, s1, h1, h2, h3, h4⟩ := resize_ok ha (hs.1 i a ha) hf
  simp only [h1, Option.bind_some, Option.pure_def]
  rcases h4 with ⟨rfl, h5, o, h6, h7, h8, h9, h10, h11, h12⟩ | ⟨rfl, h5, h6⟩
  · have hs1 : s1.lst i = some o := by rw [lst_congr (s := s.setl i o) h6]; exact lst_setl_self ha
    have hne : s.empty ≠ some i := fun he => by
      obtain ⟨q, hq, hq2, -⟩ := hs.2 i he
      rw [ha] at hq; cases hq; rw [ht] at hq2; cases hq2
    have ho : LOk o := ⟨by omega, h10, fun h => by rw [h7, ht] at h; cases h⟩
    have hok1 : Ok s1 := (hs.setl ha ho (fun he => absurd he hne)).congr h6 h2
    rw [Nat.min_eq_right (by omega)] at h11
    have hsrc : peek s1 j b.size = some (b.data.take b.size) := by
      by_cases hij : j = i
      · subst hij
        rw [ha] at hb; cases hb
        rw [peek_ok hs1 (by omega), h11]
      · refine peek_ok ?_ (by omega)
        rw [lst_congr (s := s.setl i o) h6, lst_setl_ne hij]; exact hb
    have lb : (b.data.take b.size).length = b.size := by rw [List.length_take]; omega
    simp only [Bool.not_true, Bool.false_eq_true, if_false]
    rw [hsrc, Option.bind_some, poke_ok hs1 (by rw [lb]; omega), Option.bind_some]
    refine ⟨_, _, rfl, ?_, h3, ?_, ?_, .inr ⟨rfl, h5, ?_⟩⟩
    · refine hok1.setl hs1 ⟨ho.1, ?_, ho.2.2⟩ (fun he => absurd (h2 ▸ he) hne)
      simp only [List.length_append, List.length_take, List.length_drop]; omega
    · rw [objs_setl, List.length_set, h6, List.length_set]
    · intro k hk
      rw [objs_setl, List.getElem?_set_ne (Ne.symm hk), h6, List.getElem?_set_ne (Ne.symm hk)]
    · unfold S.elems
      rw [lst_setl_self hs1]
      simp only [Option.map_some, h7, ht, h8, Option.some.injEq, Prod.mk.injEq, true_and]
      rw [← h11, List.take_append_of_le_length (by simp only [List.length_append, List.length_take]; omega),
        List.take_of_length_le (by simp only [List.length_append, List.length_take]; omega)]
  · simp only [Bool.not_false, if_true]
    exact ⟨_, _, rfl, hs.congr h6 h2, h3, by rw [h6], fun k _ => by rw [h6], .inl ⟨rfl, h5, h6⟩⟩

end Snek.Store
