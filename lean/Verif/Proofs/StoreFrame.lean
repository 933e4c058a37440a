import Verif.Proofs.StoreRef
/-! What container operations leave alone, and that values in memory refer to objects of the right kind. -/
namespace Snek.Store

variable {E : Env} {Q : Nat → Prop} {c : Prop}

/-- Lists stay lists of the same type, strings stay strings. -/
structure Ty (s s' : S) : Prop where
  len : s.objs.length ≤ s'.objs.length
  lst : ∀ i o, s.lst i = some o → ∃ o', s'.lst i = some o' ∧ o'.type = o.type
  str : ∀ i b, s.bytes i = some b → s'.bytes i = some b

/-- `VOk`, and builtin values are None or satisfy `Q`. -/
def POk (Q : Nat → Prop) (s : S) : Val → Prop
  | .list i => ∃ o, s.lst i = some o
  | .str i => ∃ b, s.bytes i = some b
  | .builtin i => Q i ∨ i = 0x7ffffc
  | _ => True

theorem POk.vok {Q : Nat → Prop} {s : S} {v : Val} (h : POk Q s v) : VOk s v := by
  cases v <;> first | exact h | trivial

theorem VOk.pok {s : S} {v : Val} (h : VOk s v) : POk (fun _ => True) s v := by
  cases v <;> first | exact h | exact .inl trivial

theorem Ty.refl (s : S) : Ty s s := ⟨Nat.le_refl _, fun _ o h => ⟨o, h, rfl⟩, fun _ _ h => h⟩
theorem Ty.trans {a b d : S} (h : Ty a b) (h' : Ty b d) : Ty a d := by
  refine ⟨Nat.le_trans h.len h'.len, fun i o ho => ?_, fun i x hx => h'.str i x (h.str i x hx)⟩
  obtain ⟨o1, h1, h2⟩ := h.lst i o ho
  obtain ⟨o2, h3, h4⟩ := h'.lst i o1 h1
  exact ⟨o2, h3, by rw [h4, h2]⟩
theorem Ty.of_objs {s s' : S} (h : s'.objs = s.objs) : Ty s s' :=
  ⟨by rw [h]; exact Nat.le_refl _, fun i o ho => ⟨o, by rw [lst_congr h]; exact ho, rfl⟩, fun i b hb => by rw [bytes_congr h]; exact hb⟩
theorem Ty.ask (s : S) (n : Nat) : Ty s (s.ask n).2 := .of_objs rfl
theorem Ty.fail (s : S) : Ty s s.fail := .of_objs rfl
theorem Ty.pok {s s' : S} (h : Ty s s') {v : Val} (hv : POk Q s v) : POk Q s' v := by
  cases v with
  | list i => obtain ⟨o, ho⟩ := hv; obtain ⟨o', h', -⟩ := h.lst i o ho; exact ⟨o', h'⟩
  | str i => obtain ⟨b, hb⟩ := hv; exact ⟨b, h.str i b hb⟩
  | num _ => trivial
  | func _ => trivial
  | builtin _ => exact hv

theorem Ty.vok {s s' : S} (h : Ty s s') {v : Val} (hv : VOk s v) : VOk s' v := (h.pok hv.pok).vok

theorem vok_zero (s : S) : POk Q s Val.zero := trivial
theorem vok_none (s : S) : POk Q s Val.none := .inr rfl

theorem Ty.setl {s : S} {i : Nat} {o o' : LObj} (h : s.lst i = some o) (ht : o'.type = o.type) : Ty s (s.setl i o') := by
  refine ⟨by simp, fun j q hq => ?_, fun j b hb => by rw [bytes_setl h]; exact hb⟩
  by_cases hj : j = i
  · subst hj; rw [h] at hq; cases hq; exact ⟨o', lst_setl_self h, ht⟩
  · exact ⟨q, by rw [lst_setl_ne hj]; exact hq, rfl⟩

theorem bytes_lt {s : S} {i : Nat} {b : List UInt8} (h : s.bytes i = some b) : s.objs[i]? = some (.str b) := by
  unfold S.bytes at h
  split at h
  · cases h; assumption
  · cases h

theorem bytes_iff {s : S} {i : Nat} {b : List UInt8} : s.bytes i = some b ↔ s.objs[i]? = some (.str b) :=
  ⟨bytes_lt, fun h => by unfold S.bytes; rw [h]⟩

theorem Ty.push (s : S) (x : Obj) : Ty s (s.push x) := by
  refine ⟨by simp [S.push], fun i o ho => ⟨o, ?_, rfl⟩, fun i b hb => ?_⟩
  · rw [lst_push, if_neg (Nat.ne_of_lt (lst_lt ho))]; exact ho
  · rw [bytes_iff] at hb ⊢
    simp only [S.push]
    rw [List.getElem?_append_left (List.getElem?_eq_some_iff.1 hb).1]; exact hb

/-- What holds of the state `s` in the middle of an operation started in `s0`: immutable objects are as they were, types are
kept, and (under `c`) all words in memory are proper values. -/
structure RelQ (Q : Nat → Prop) (c : Prop) (s0 s : S) : Prop where
  ty : Ty s0 s
  froz : ∀ (i : Nat) x, s0.objs[i]? = some x → Frozen x → s.objs[i]? = some x
  words : c → ∀ i o, s.lst i = some o → ∀ v ∈ o.data, POk Q s v
  emp : EmptyOk s

/-- With no condition on builtin values. -/
abbrev Rel (c : Prop) (s0 s : S) : Prop := RelQ (fun _ => True) c s0 s

theorem RelQ.of_objs {s0 s s' : S} (h : RelQ Q c s0 s) (ho : s'.objs = s.objs) (he : s'.empty = s.empty) : RelQ Q c s0 s' := by
  refine ⟨h.ty.trans (.of_objs ho), fun i x hx hf => by rw [ho]; exact h.froz i x hx hf, fun hc i o hi v hv => ?_, fun i hi => ?_⟩
  · exact (Ty.of_objs ho).pok (h.words hc i o (by rw [← lst_congr ho]; exact hi) v hv)
  · rw [he] at hi; obtain ⟨o, h1, h2⟩ := h.emp i hi; exact ⟨o, by rw [lst_congr ho]; exact h1, h2⟩

theorem RelQ.fail {s0 s : S} (h : RelQ Q c s0 s) : RelQ Q c s0 s.fail := h.of_objs rfl rfl
theorem RelQ.ask {s0 s : S} (h : RelQ Q c s0 s) (n : Nat) : RelQ Q c s0 (s.ask n).2 := h.of_objs rfl rfl

/-- May list object `i` be changed? -/
def Wr (s0 : S) (i : Nat) (o : LObj) : Prop := s0.objs.length ≤ i ∨ o.type ≠ .tuple

theorem RelQ.setl {s0 s : S} (h : RelQ Q c s0 s) {i : Nat} {o o' : LObj} (hi : s.lst i = some o) (ht : o'.type = o.type)
    (hw : Wr s0 i o) (hd : c → ∀ v ∈ o'.data, POk Q s v) (he : s.empty = some i → o'.data = []) : RelQ Q c s0 (s.setl i o') := by
  have hty : Ty s (s.setl i o') := .setl hi ht
  refine ⟨h.ty.trans hty, fun j x hx hf => ?_, fun hc j q hq v hv => hty.pok ?_, fun j hj => ?_⟩
  · have h1 := h.froz j x hx hf
    have hji : j ≠ i := by
      rintro rfl
      rw [lst_iff.1 hi] at h1; cases h1
      rcases hw with hw | hw
      · have := (List.getElem?_eq_some_iff.1 hx).1; omega
      · exact hw hf
    rw [objs_setl, List.getElem?_set_ne (Ne.symm hji)]; exact h1
  · by_cases hji : j = i
    · subst hji; rw [lst_setl_self hi] at hq; cases hq; exact hd hc v hv
    · rw [lst_setl_ne hji] at hq; exact h.words hc j q hq v hv
  · obtain ⟨q, h1, h2, h3⟩ := h.emp j hj
    by_cases hji : j = i
    · subst hji; rw [hi] at h1; cases h1; exact ⟨o', lst_setl_self hi, by rw [ht, h2], he hj⟩
    · exact ⟨q, by rw [lst_setl_ne hji]; exact h1, h2, h3⟩

theorem RelQ.push {s0 s : S} (h : RelQ Q c s0 s) {x : Obj} (hx : ∀ o, x = .list o → ∀ v ∈ o.data, POk Q s v) : RelQ Q c s0 (s.push x) := by
  have hty : Ty s (s.push x) := .push s x
  refine ⟨h.ty.trans hty, fun j y hy hf => ?_, fun hc j q hq v hv => hty.pok ?_, fun j hj => ?_⟩
  · have h1 := h.froz j y hy hf
    simp only [S.push]
    rw [List.getElem?_append_left (List.getElem?_eq_some_iff.1 h1).1]; exact h1
  · rw [lst_push] at hq
    split at hq
    · cases x with
      | list o => simp only [Option.some.injEq] at hq; subst hq; exact hx _ rfl v hv
      | str b => cases hq
    · exact h.words hc j q hq v hv
  · obtain ⟨q, h1, h2⟩ := h.emp j hj
    exact ⟨q, by rw [lst_push, if_neg (Nat.ne_of_lt (lst_lt h1))]; exact h1, h2⟩

/-! ## Operations -/

theorem mem_mcpy {α : Type} {d src d' : List α} {p : Nat} (h : mcpy d p src = some d') {v : α} (hv : v ∈ d') : v ∈ d ∨ v ∈ src := by
  unfold mcpy at h; split at h
  · cases h
    simp only [List.mem_append] at hv
    rcases hv with (hv | hv) | hv
    · exact .inl (List.mem_of_mem_take hv)
    · exact .inr hv
    · exact .inl (List.mem_of_mem_drop hv)
  · cases h

theorem mem_mread {α : Type} {d d' : List α} {n : Nat} (h : mread d n = some d') {v : α} (hv : v ∈ d') : v ∈ d := by
  unfold mread at h; split at h
  · cases h; exact List.mem_of_mem_take hv
  · cases h

theorem mem_mmove {α : Type} {d d' : List α} {a b n : Nat} (h : mmove d a b n = some d') {v : α} (hv : v ∈ d') : v ∈ d := by
  unfold mmove at h; split at h
  · cases h
    simp only [List.mem_append] at hv
    rcases hv with (hv | hv) | hv
    · exact List.mem_of_mem_take hv
    · exact List.mem_of_mem_drop (List.mem_of_mem_take hv)
    · exact List.mem_of_mem_drop hv
  · cases h

theorem mem_mset {α : Type} {d d' : List α} {a : Nat} {x : α} (h : mset d a x = some d') {v : α} (hv : v ∈ d') : v ∈ d ∨ v = x := by
  unfold mset at h; split at h
  · cases h; exact List.mem_or_eq_of_mem_set hv
  · cases h

theorem resize_rel {s0 s s' : S} (h : RelQ Q c s0 s) {i n : Nat} {o : LObj} {b : Bool} (hi : s.lst i = some o) (hw : Wr s0 i o)
    (he : s.empty ≠ some i) (hr : resize E s i n = some (b, s')) :
    RelQ Q c s0 s' ∧ Ty s s' ∧ s'.empty = s.empty := by
  simp only [resize, hi, Option.bind_eq_bind, Option.bind_some, Option.pure_def] at hr
  split at hr
  · cases hr
    exact ⟨h.setl hi rfl hw (fun hc v hv => h.words hc i o hi v hv) (fun h => absurd h he), .setl hi rfl, rfl⟩
  · generalize (if o.type.readonly = true then n else listAlloc E n) = al at hr
    split at hr
    · cases hr; exact ⟨h.ask _, .of_objs rfl, rfl⟩
    · obtain ⟨old, h1, hr⟩ := Option.bind_eq_some_iff.1 hr
      obtain ⟨data, h2, hr⟩ := Option.bind_eq_some_iff.1 hr
      cases hr
      refine ⟨(h.ask _).setl hi rfl hw (fun hc v hv => ?_) (fun h => absurd h he), (Ty.ask s _).trans (.setl hi rfl), rfl⟩
      rcases mem_mcpy h2 hv with hv | hv
      · rw [List.eq_of_mem_replicate hv]; exact vok_zero _
      · exact (Ty.ask s _).pok (h.words hc i o hi v (mem_mread h1 hv))

theorem headAlloc_rel {s0 s s' : S} (h : RelQ Q c s0 s) {t : LType} {r : Option Nat} (hr : headAlloc E s t = (r, s')) :
    RelQ Q c s0 s' ∧ Ty s s' ∧ s'.empty = s.empty ∧
      ∀ k, r = some k → s'.lst k = some ⟨t, 0, 0, []⟩ ∧ k = s.objs.length := by
  simp only [headAlloc] at hr
  split at hr
  · cases hr
    refine ⟨(h.ask _).push (by rintro o ⟨⟩ v hv; cases hv), (Ty.ask s _).trans (.push _ _), rfl, ?_⟩
    rintro k ⟨⟩
    refine ⟨?_, rfl⟩
    rw [lst_push]; simp
  · cases hr
    exact ⟨h.ask _, .of_objs rfl, rfl, by rintro k ⟨⟩⟩

/-- A list that may be written: a new one, or one without storage. -/
def Fresh (s0 : S) (k : Nat) (o : LObj) : Prop := s0.objs.length ≤ k ∨ o.data = []

theorem make_rel {s0 s s' : S} (h : RelQ Q c s0 s) {n : Nat} {t : LType} {r : Option Nat} (hr : make E s n t = some (r, s')) :
    RelQ Q c s0 s' ∧ Ty s s' ∧ ∀ k, r = some k → ∃ o, s'.lst k = some o ∧ o.type = t ∧ Fresh s0 k o ∧ (s'.empty = some k → o.data = []) := by
  unfold make at hr
  split at hr
  · rename_i h0
    split at hr
    · rename_i i he
      cases hr
      refine ⟨h, .refl _, ?_⟩
      rintro k ⟨⟩
      obtain ⟨o, h1, h2, h3⟩ := h.emp i he
      exact ⟨o, h1, by rw [h2, h0.2], .inr h3, fun _ => h3⟩
    · rename_i he
      cases hh : headAlloc E s t with
      | mk r1 s1 =>
        rw [hh] at hr; cases hr
        obtain ⟨h1, h2, h3, h4⟩ := headAlloc_rel h hh
        have hlst : ∀ j, ({ s1 with empty := r } : S).lst j = s1.lst j := fun j => rfl
        refine ⟨⟨h1.ty.trans (.of_objs rfl), h1.froz, fun hc i o hi v hv => (Ty.of_objs (s := s1) rfl).pok (h1.words hc i o hi v hv), ?_⟩,
          h2.trans (.of_objs rfl), ?_⟩
        · intro i hi
          obtain ⟨h5, -⟩ := h4 i hi
          exact ⟨_, h5, h0.2, rfl⟩
        · intro k hk
          obtain ⟨h5, h6⟩ := h4 k hk
          exact ⟨_, h5, rfl, .inr rfl, fun _ => rfl⟩
  · split at hr
    · rename_i s1 hh
      cases hr
      obtain ⟨h1, h2, h3, h4⟩ := headAlloc_rel h hh
      exact ⟨h1, h2, by rintro k ⟨⟩⟩
    · rename_i i s1 hh
      obtain ⟨h1, h2, h3, h4⟩ := headAlloc_rel h hh
      obtain ⟨h5, h6⟩ := h4 i rfl
      simp only [Option.bind_eq_bind, Option.pure_def] at hr
      obtain ⟨⟨ok, s2⟩, h7, hr⟩ := Option.bind_eq_some_iff.1 hr
      cases hr
      have hl : s0.objs.length ≤ i := by rw [h6]; exact h.ty.len
      have hne : s1.empty ≠ some i := by
        intro he
        rw [h3] at he
        obtain ⟨q, hq, -⟩ := h.emp i he
        have := lst_lt hq
        omega
      obtain ⟨k1, k2, k3⟩ := resize_rel h1 h5 (.inl hl) hne h7
      refine ⟨k1, h2.trans k2, fun k hk => ?_⟩
      have : k = i := by cases ok <;> simp_all
      subst this
      obtain ⟨o', k4, k5⟩ := k2.lst k _ h5
      exact ⟨o', k4, k5, .inl hl, fun he => absurd (k3 ▸ he) hne⟩

theorem poke_rel {s0 s s' : S} (h : RelQ Q c s0 s) {k p : Nat} {o : LObj} {src : List Val} (hk : s.lst k = some o)
    (hf : Fresh s0 k o ∨ o.type ≠ .tuple) (hsrc : c → ∀ v ∈ src, POk Q s v) (hr : poke s k p src = some s') :
    RelQ Q c s0 s' ∧ Ty s s' ∧ s'.empty = s.empty ∧ ∃ o', s'.lst k = some o' ∧ o'.type = o.type ∧ o'.data.length = o.data.length := by
  simp only [poke, hk, Option.bind_eq_bind, Option.bind_some, Option.pure_def] at hr
  obtain ⟨d, h1, hr⟩ := Option.bind_eq_some_iff.1 hr
  cases hr
  have hlen := mcpy_len h1
  have hdn : o.data = [] → d = [] := fun hd => List.length_eq_zero_iff.1 (by rw [hlen, hd]; rfl)
  have hempty : s.empty = some k → d = [] := fun he => by
    obtain ⟨q, hq, -, hq2⟩ := h.emp k he
    rw [hk] at hq; cases hq; exact hdn hq2
  refine ⟨?_, .setl hk rfl, rfl, _, lst_setl_self hk, rfl, hlen⟩
  by_cases hd : o.data = []
  · rw [show ({ o with data := d } : LObj) = o by cases o; simp_all, setl_same hk]; exact h
  · refine h.setl hk rfl ?_ (fun hc v hv => ?_) hempty
    · rcases hf with (hf | hf) | hf
      · exact .inl hf
      · exact absurd hf hd
      · exact .inr hf
    · rcases mem_mcpy h1 hv with hv | hv
      · exact h.words hc k o hk v hv
      · exact hsrc hc v hv

theorem peek_words {s0 s : S} (h : RelQ Q c s0 s) {i n : Nat} {src : List Val} (hr : peek s i n = some src) (hc : c) :
    ∀ v ∈ src, POk Q s v := by
  simp only [peek, Option.bind_eq_bind] at hr
  obtain ⟨o, h1, hr⟩ := Option.bind_eq_some_iff.1 hr
  intro v hv
  exact h.words hc i o h1 v (mem_mread hr hv)

end Snek.Store
