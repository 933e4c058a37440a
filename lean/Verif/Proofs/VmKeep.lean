import Verif.Model.Vm
/-! What every operation of the machine keeps, the whole machine keeps. -/
namespace Snek.Vm
open Store (Val)

variable {σ γ : Type}

/-- Variables hold values with `V`; those of calls may be marked as global instead. -/
structure FrOk (V : Val → Prop) (fr : Frames Val γ) : Prop where
  glob : ∀ x ∈ fr.globals, V x.value
  loc : ∀ f ∈ fr.frames, ∀ x ∈ f.vars, V x.value ∨ x.value = Val.global

variable {V V' : Val → Prop} {fr : Frames Val γ}

theorem FrOk.mono (h : FrOk V fr) (hm : ∀ v, V v → V' v) : FrOk V' fr :=
  ⟨fun x hx => hm _ (h.glob x hx), fun f hf x hx => (h.loc f hf x hx).imp (hm _) id⟩

theorem FrOk.put_glob (h : FrOk V fr) {l : List (Var Val)} (hl : ∀ x ∈ l, V x.value) : FrOk V (putFrame fr true l) :=
  ⟨hl, h.loc⟩

theorem FrOk.put_loc (h : FrOk V fr) {l : List (Var Val)} (hl : ∀ x ∈ l, V x.value ∨ x.value = Val.global) :
    FrOk V (putFrame fr false l) := by
  unfold putFrame
  simp only [Bool.false_eq_true, if_false]
  split
  · exact h
  · rename_i f fs hf
    refine ⟨h.glob, fun g hg x hx => ?_⟩
    simp only [List.mem_cons] at hg
    rcases hg with rfl | hg
    · exact hl x hx
    · exact h.loc g (by rw [hf]; exact List.mem_cons_of_mem _ hg) x hx

theorem FrOk.lookup (h : FrOk V fr) (hz : V Val.zero) (g : Bool) (id : Nat) (ins ok : Bool) :
    FrOk V (variableLookup fr g id ins ok).2 ∧ ∀ l, (variableLookup fr g id ins ok).1 = some l → ∃ i, l = mkLoc g i := by
  unfold variableLookup
  cases hp : pickFrame fr g with
  | none => exact ⟨h, fun l hl => by cases hl⟩
  | some vars =>
    simp only
    cases varIndex vars id with
    | some i => exact ⟨h, fun l hl => by cases hl; exact ⟨i, rfl⟩⟩
    | none =>
      simp only
      split
      · refine ⟨?_, fun l hl => by cases hl; exact ⟨_, rfl⟩⟩
        cases g with
        | true =>
          cases hp
          refine h.put_glob fun x hx => ?_
          simp only [List.mem_append, List.mem_singleton] at hx
          rcases hx with hx | rfl
          · exact h.glob x hx
          · exact hz
        | false =>
          simp only [pickFrame, Bool.false_eq_true, if_false, Option.map_eq_some_iff] at hp
          obtain ⟨f, hf, rfl⟩ := hp
          refine h.put_loc fun x hx => ?_
          simp only [List.mem_append, List.mem_singleton] at hx
          rcases hx with hx | rfl
          · exact h.loc f (List.mem_of_mem_head? hf) x hx
          · exact .inl hz
      · exact ⟨h, fun l hl => by cases hl⟩

theorem mem_setVar {vars : List (Var Val)} {i : Nat} {v : Val} {x : Var Val} (hx : x ∈ setVar vars i v) : x.value = v ∨ x ∈ vars := by
  unfold setVar at hx
  obtain ⟨n, hn⟩ := List.getElem?_of_mem hx
  rw [List.getElem?_modify] at hn
  split at hn
  · obtain ⟨y, hy, rfl⟩ := Option.map_eq_some_iff.1 hn
    exact .inl rfl
  · simp only [id_map'] at hn
    exact .inr (List.mem_of_getElem? hn)

theorem FrOk.set (h : FrOk V fr) (l : VLoc) {v : Val} (hv : V v) : FrOk V (fr.set l v) := by
  cases l with
  | glob i =>
    refine ⟨fun x hx => ?_, h.loc⟩
    rcases mem_setVar hx with hx | hx
    · rw [hx]; exact hv
    · exact h.glob x hx
  | «local» i =>
    unfold Frames.set
    simp only
    split
    · exact h
    · rename_i f fs hf
      refine ⟨h.glob, fun g hg x hx => ?_⟩
      simp only [List.mem_cons] at hg
      rcases hg with rfl | hg
      · rcases mem_setVar hx with hx | hx
        · rw [hx]; exact .inl hv
        · exact h.loc f (by rw [hf]; exact List.mem_cons_self ..) x hx
      · exact h.loc g (by rw [hf]; exact List.mem_cons_of_mem _ hg) x hx

theorem FrOk.mark (h : FrOk V fr) (i : Nat) : FrOk V (fr.set (.local i) Val.global) := by
  unfold Frames.set
  simp only
  split
  · exact h
  · rename_i f fs hf
    refine ⟨h.glob, fun g hg x hx => ?_⟩
    simp only [List.mem_cons] at hg
    rcases hg with rfl | hg
    · rcases mem_setVar hx with hx | hx
      · exact .inr hx
      · exact h.loc f (by rw [hf]; exact List.mem_cons_self ..) x hx
    · exact h.loc g (by rw [hf]; exact List.mem_cons_of_mem _ hg) x hx

theorem FrOk.get_glob (h : FrOk V fr) (hz : V Val.zero) (i : Nat) : V (fr.get (.glob i)) := by
  unfold Frames.get
  simp only
  cases hi : fr.globals[i]? with
  | none => exact hz
  | some x => exact h.glob x (List.mem_of_getElem? hi)

theorem FrOk.get_loc (h : FrOk V fr) (hz : V Val.zero) (i : Nat) : V (fr.get (.local i)) ∨ fr.get (.local i) = Val.global := by
  unfold Frames.get
  cases hf : fr.frames.head? with
  | none => exact .inl hz
  | some f =>
    simp only [Option.map_some, Option.getD_some]
    cases hi : f.vars[i]? with
    | none => exact .inl hz
    | some x => exact h.loc f (List.mem_of_mem_head? hf) x (List.mem_of_getElem? hi)

theorem FrOk.frameLookup (h : FrOk V fr) (hz : V Val.zero) (id : Nat) (ins okL okG : Bool) :
    FrOk V (frameLookup fr id ins okL okG).2 ∧
      ∀ l, (frameLookup fr id ins okL okG).1 = some l → V ((frameLookup fr id ins okL okG).2.get l) := by
  unfold Snek.frameLookup
  have h1 := h.lookup hz false id ins okL
  revert h1; generalize variableLookup fr false id ins okL = q; intro h1; obtain ⟨r, fr1⟩ := q
  have hg : FrOk V (variableLookup fr1 true id ins okG).2 ∧
      ∀ l, (variableLookup fr1 true id ins okG).1 = some l → V ((variableLookup fr1 true id ins okG).2.get l) := by
    have h2 := h1.1.lookup hz true id ins okG
    refine ⟨h2.1, fun l hl => ?_⟩
    obtain ⟨i, rfl⟩ := h2.2 l hl
    exact h2.1.get_glob hz i
  cases r with
  | none => exact hg
  | some l =>
    simp only
    split
    · exact hg
    · rename_i hng
      refine ⟨h1.1, fun l' hl => ?_⟩
      cases hl
      obtain ⟨i, rfl⟩ := h1.2 l rfl
      refine (h1.1.get_loc hz i).resolve_right fun hx => hng ?_
      have hm : mkLoc false i = .local i := rfl
      rw [hm, hx]; rfl

theorem lookup_same (g : Bool) (id : Nat) : (variableLookup fr g id false false).2 = fr := by
  unfold variableLookup
  cases pickFrame fr g with
  | none => rfl
  | some vars => simp only; cases varIndex vars id <;> rfl

theorem frameLookup_same (id : Nat) : (frameLookup fr id false false false).2 = fr := by
  unfold frameLookup
  have h1 := lookup_same (fr := fr) false id
  revert h1; generalize variableLookup fr false id false false = q; intro h1; obtain ⟨r, fr1⟩ := q
  simp only at h1
  subst h1
  cases r with
  | none => exact lookup_same true id
  | some l => simp only; split; exact lookup_same true id; rfl

theorem FrOk.found (h : FrOk V fr) (hz : V Val.zero) {id : Nat} {l : VLoc} (hl : (Snek.frameLookup fr id false false false).1 = some l) :
    V (fr.get l) := by
  have h1 := (h.frameLookup hz id false false false).2 l hl
  rwa [frameLookup_same] at h1

theorem FrOk.load (h : FrOk V fr) (hz : V Val.zero) {id : Nat} {v : Val} (hv : loadId fr id = some v) : V v := by
  unfold loadId at hv
  have h1 := (h.frameLookup hz id false false false).2
  revert h1 hv; generalize Snek.frameLookup fr id false false false = q; intro hv h1; obtain ⟨r, fr1⟩ := q
  cases r with
  | none => cases hv
  | some l => cases hv; exact h1 l rfl

theorem FrOk.idStore (h : FrOk V fr) (hz : V Val.zero) (id : Nat) {v : Val} (hv : V v) (okL okG : Bool) :
    FrOk V (idStore fr id v okL okG).2 := by
  unfold Snek.idStore idRef
  have h1 := (h.frameLookup hz id true okL okG).1
  revert h1; generalize Snek.frameLookup fr id true okL okG = q; intro h1; obtain ⟨r, fr1⟩ := q
  cases r with
  | none => exact h1
  | some l => exact h1.set l hv

theorem FrOk.markGlobal (h : FrOk V fr) (hz : V Val.zero) (id : Nat) (ok : Bool) : FrOk V (markGlobal fr id ok) := by
  unfold Snek.markGlobal
  split
  · exact h
  · have h1 := h.lookup hz false id true ok
    revert h1; generalize variableLookup fr false id true ok = q; intro h1; obtain ⟨r, fr1⟩ := q
    cases r with
    | none => exact h1.1
    | some l => obtain ⟨i, rfl⟩ := h1.2 l rfl; exact h1.1.mark i

theorem mem_copyBytes {B : VarBytes Val} (hc : ∀ k x, V x.value → V (B.cut k x).value) {l : List (Var Val)} (hl : ∀ x ∈ l, V x.value)
    (k : Nat) : ∀ x ∈ copyBytes B k l, V x.value := by
  induction l generalizing k with
  | nil => intro x hx; cases hx
  | cons y l ih =>
    intro x hx
    simp only [copyBytes, List.mem_cons] at hx
    rcases hx with rfl | hx
    · have hy := hl y (List.mem_cons_self ..)
      split
      · exact hy
      · exact hc _ _ hy
    · exact ih (fun x hx => hl x (List.mem_cons_of_mem _ hx)) _ x hx

theorem FrOk.idDel (h : FrOk V fr) {B : VarBytes Val} (hc : ∀ k x, V x.value → V (B.cut k x).value) (id : Nat) : FrOk V (idDel B fr id).2 := by
  unfold Snek.idDel
  split
  · rename_i i hi
    refine ⟨fun x hx => ?_, h.loc⟩
    simp only [variableDelete, List.mem_append] at hx
    rcases hx with hx | hx
    · exact h.glob x (List.mem_of_mem_take hx)
    · exact mem_copyBytes hc (fun x hx => h.glob x (List.mem_of_mem_drop hx)) _ x hx
  · exact h

/-! ## Calls -/

theorem mem_pairUp {W : Nat} (n : Nat) {l : List Val} (hn : l.length ≤ n) {q : Nat × Val} (hq : q ∈ pairUp W l) : q.2 ∈ l := by
  induction n generalizing l with
  | zero => cases l with
    | nil => cases hq
    | cons a l => simp at hn
  | succ n ih =>
    match l, hq with
    | a :: v :: l, hq =>
      simp only [pairUp, List.mem_cons] at hq
      rcases hq with rfl | hq
      · simp
      · have := ih (l := l) (by simp at hn; omega) hq
        simp [this]

theorem funcActual_vals {vars vars' : List (Var Val)} {id pos : Nat} {v : Val} (h : ∀ x ∈ vars, V x.value) (hv : V v)
    (hr : funcActual vars id v pos = some vars') : ∀ x ∈ vars', V x.value := by
  unfold funcActual at hr
  split at hr
  · cases hr
  · cases hr
    intro x hx
    rcases List.mem_or_eq_of_mem_set hx with hx | rfl
    · exact h x hx
    · exact hv

theorem bindNamed_vals {f : FuncSig} {npos : Nat} {named : List (Nat × Val)} {vars vars' : List (Var Val)}
    (h : ∀ x ∈ vars, V x.value) (hv : ∀ q ∈ named, V q.2) (hr : bindNamed f npos named vars = .ok vars') : ∀ x ∈ vars', V x.value := by
  induction named generalizing vars with
  | nil => cases hr; exact h
  | cons q rest ih =>
    obtain ⟨id, v⟩ := q
    simp only [bindNamed] at hr
    split at hr
    · cases hr
    · split at hr
      · cases hr
      · rename_i vars1 h1
        exact ih (funcActual_vals h (hv (id, v) (List.mem_cons_self ..)) h1) (fun q hq => hv q (List.mem_cons_of_mem _ hq)) hr

theorem bindPos_vals {f : FuncSig} {pos : List Val} {vars vars' : List (Var Val)}
    (h : ∀ x ∈ vars, V x.value) (hv : ∀ v ∈ pos, V v) (hr : bindPos f pos vars = .ok vars') : ∀ x ∈ vars', V x.value := by
  induction pos generalizing vars with
  | nil => cases hr; exact h
  | cons v rest ih =>
    simp only [bindPos] at hr
    split at hr
    · cases hr
    · rename_i vars1 h1
      exact ih (funcActual_vals h (hv v (List.mem_cons_self ..)) h1) (fun q hq => hv q (List.mem_cons_of_mem _ hq)) hr

theorem funcBind_vals {f : FuncSig} {beyond : Nat → Nat} {pos : List Val} {named : List (Nat × Val)} {vars : List (Var Val)}
    (hz : V Val.zero) (hp : ∀ v ∈ pos, V v) (hn : ∀ q ∈ named, V q.2) (hr : funcBind f beyond pos named = .ok vars) :
    ∀ x ∈ vars, V x.value := by
  simp only [funcBind] at hr
  split at hr
  · cases hr
  · split at hr
    · cases hr
    · rename_i v1 h1
      split at hr
      · cases hr
      · rename_i v2 h2
        split at hr
        · cases hr
        · cases hr
          refine bindPos_vals (bindNamed_vals (fun x hx => ?_) (fun q hq => hn q (List.mem_reverse.1 hq)) h1)
            (fun v hv => hp v (List.mem_reverse.1 hv)) h2
          rw [(List.mem_replicate.1 hx).2]; exact hz

/-! ## The machine -/

/-- Result of an operation started in `w`. -/
def Res (I : σ → Prop) (V : σ → Val → Prop) (T : σ → σ → Prop) (w : σ) (r : Option Val × σ) : Prop :=
  T w r.2 ∧ I r.2 ∧ ∀ v, r.1 = some v → V r.2 v

/-- The operations keep the invariant `I` and give values with `V` when given such; `T` relates earlier to later states. -/
structure Closed (P : Prim σ) (I : σ → Prop) (V : σ → Val → Prop) (T : σ → σ → Prop) : Prop where
  refl : ∀ w, T w w
  trans : ∀ {a b c}, T a b → T b c → T a c
  mono : ∀ {w w' v}, T w w' → V w v → V w' v
  num : ∀ w u, V w (.num u)
  none : ∀ w, V w Val.none
  name : ∀ w x, x < P.builtinMax → V w (P.builtinVal x)
  rel : ∀ w r a b, I w → V w a → V w b → Res I V T w (P.rel r a b w)
  index : ∀ w a b, I w → V w a → V w b → Res I V T w (P.index a b w)
  arith : ∀ w o ip a b, I w → V w a → V w b →
    T w (P.arith o ip a b w).2.2 ∧ I (P.arith o ip a b w).2.2 ∧ V (P.arith o ip a b w).2.2 (P.arith o ip a b w).1
  unary : ∀ w u a, I w → V w a → Res I V T w (P.unary u a w)
  slice : ∀ w v p q t, I w → V w v → Res I V T w (P.slice v p q t w)
  build : ∀ w k l, I w → (∀ v ∈ l, V w v) → Res I V T w (P.build k l w)
  storeIdx : ∀ w a l i v, I w → V w l → V w i → V w v → Res I V T w (P.storeIdx a l i v w)
  delIdx : ∀ w l i, I w → V w l → V w i → T w (P.delIdx l i w).2 ∧ I (P.delIdx l i w).2
  call : ∀ w f pos named, I w → V w f → f.type = .builtin → (∀ v ∈ pos, V w v) → (∀ v ∈ named, V w v) →
    Res I V T w (P.callBuiltin f pos named w)
  varAlloc : ∀ w, I w → T w (P.varAlloc w).2.2 ∧ I (P.varAlloc w).2.2
  frameAlloc : ∀ w, I w → T w (P.frameAlloc w).2 ∧ I (P.frameAlloc w).2
  iter : ∀ w v i, I w → V w v → Res I V T w (P.iter v i w)
  cut : ∀ w k x, V w x.value → V w (P.varBytes.cut k x).value

/-- Everything the machine holds is proper. -/
structure Good (I : σ → Prop) (V : σ → Val → Prop) (s : Vm σ) : Prop where
  inv : I s.w
  acc : V s.w s.acc
  stack : ∀ v ∈ s.stack, V s.w v
  fr : FrOk (V s.w) s.fr

/-- The machine after an instruction started in `w`. -/
def ExGood (I : σ → Prop) (V : σ → Val → Prop) (T : σ → σ → Prop) (w : σ) : ExR σ → Prop
  | .ok s _ => Good I V s ∧ T w s.w
  | .error s => Good I V s ∧ T w s.w
  | .fault => True

section
variable {P : Prim σ} {I : σ → Prop} {V : σ → Val → Prop} {T : σ → σ → Prop} (H : Closed P I V T)
include H

theorem Good.world {s : Vm σ} (h : Good I V s) {w : σ} (ht : T s.w w) (hi : I w) : Good I V { s with w := w } :=
  ⟨hi, H.mono ht h.acc, fun v hv => H.mono ht (h.stack v hv), h.fr.mono fun _ => H.mono ht⟩

omit H in
theorem Good.setAcc {s : Vm σ} (h : Good I V s) {v : Val} (hv : V s.w v) : Good I V { s with acc := v } :=
  ⟨h.inv, hv, h.stack, h.fr⟩

omit H in
theorem Good.setFr {s : Vm σ} (h : Good I V s) {fr : Frames Val (List UInt8)} (hf : FrOk (V s.w) fr) : Good I V { s with fr := fr } :=
  ⟨h.inv, h.acc, h.stack, hf⟩

omit H in
theorem Good.setIp {s : Vm σ} (h : Good I V s) (i : Nat) : Good I V { s with ip := i } := ⟨h.inv, h.acc, h.stack, h.fr⟩

theorem res_good {s : Vm σ} (h : Good I V s) {w0 : σ} (h0 : T w0 s.w) {r : Option Val × σ} (hr : Res I V T s.w r) (push : Bool) :
    ExGood I V T w0 (s.res push r) := by
  obtain ⟨r, w⟩ := r
  obtain ⟨h1, h2, h3⟩ := hr
  have hw := Good.world H h h1 h2
  cases r with
  | none => exact ⟨hw, H.trans h0 h1⟩
  | some v => exact ⟨hw.setAcc (h3 v rfl), H.trans h0 h1⟩

omit H in
theorem pop_good {s : Vm σ} (h : Good I V s) {w0 : σ} {k : Val → Vm σ → ExR σ}
    (hk : ∀ v s', V s'.w v → Good I V s' → s'.w = s.w → s'.acc = s.acc → s'.fr = s.fr → ExGood I V T w0 (k v s')) :
    ExGood I V T w0 (s.pop k) := by
  unfold Vm.pop
  split
  · trivial
  · rename_i x l hx
    exact hk _ _ (h.stack x (by rw [hx]; exact List.mem_cons_self ..))
      ⟨h.inv, h.acc, fun v hv => h.stack v (by rw [hx]; exact List.mem_cons_of_mem _ hv), h.fr⟩ rfl rfl rfl

omit H in
theorem popIf_good {s : Vm σ} (h : Good I V s) {w0 : σ} {b : Bool} {k : Option Val → Vm σ → ExR σ}
    (hk : ∀ v s', Good I V s' → s'.w = s.w → ExGood I V T w0 (k v s')) : ExGood I V T w0 (s.popIf b k) := by
  unfold Vm.popIf
  split
  · exact pop_good h fun v s' _ h2 h3 _ _ => hk _ _ h2 h3
  · exact hk _ _ h rfl

omit H in
theorem popN_good {s : Vm σ} (h : Good I V s) {w0 : σ} {n : Nat} {k : List Val → Vm σ → ExR σ}
    (hk : ∀ l s', (∀ v ∈ l, V s'.w v) → Good I V s' → s'.w = s.w → ExGood I V T w0 (k l s')) : ExGood I V T w0 (s.popN n k) := by
  unfold Vm.popN
  split
  · exact hk _ _ (fun v hv => h.stack v (List.mem_of_mem_take (List.mem_reverse.1 hv)))
      ⟨h.inv, h.acc, fun v hv => h.stack v (List.mem_of_mem_drop hv), h.fr⟩ rfl
  · trivial

omit H in
theorem zero_ok (H : Closed P I V T) (w : σ) : V w Val.zero := H.num w _

theorem storeId_good {fr : Frames Val γ} {w : σ} (hi : I w) (hf : FrOk (V w) fr) (x : Nat) {v : Val} (hv : V w v) :
    T w (storeId P fr w x v).2.2 ∧ I (storeId P fr w x v).2.2 ∧ FrOk (V (storeId P fr w x v).2.2) (storeId P fr w x v).2.1 := by
  obtain ⟨h1, h2⟩ := H.varAlloc w hi
  exact ⟨h1, h2, (hf.idStore (zero_ok H w) x hv _ _).mono fun _ => H.mono h1⟩

theorem plainStore_good {fr : Frames Val γ} {w : σ} (hi : I w) (hf : FrOk (V w) fr) (x : Nat) {v : Val} (hv : V w v) :
    let r := plainStore P fr x v w
    T w r.2.2 ∧ I r.2.2 ∧ FrOk (V r.2.2) r.2.1 ∧ ∀ v, r.1 = some v → V r.2.2 v := by
  obtain ⟨h1, h2, h3⟩ := storeId_good H hi hf x hv
  refine ⟨h1, h2, h3, fun v' h' => ?_⟩
  simp only [plainStore] at h'
  split at h'
  · cases h'; exact H.mono h1 hv
  · cases h'

theorem assignId_good {fr : Frames Val γ} {w : σ} (hi : I w) (hf : FrOk (V w) fr) (a : AOp) (x : Nat) {v : Val} (hv : V w v) :
    let r := assignId P a x v fr w
    T w r.2.2 ∧ I r.2.2 ∧ FrOk (V r.2.2) r.2.1 ∧ ∀ v, r.1 = some v → V r.2.2 v := by
  cases a with
  | plain => exact plainStore_good H hi hf x hv
  | named =>
    simp only [assignId]
    split
    · exact ⟨H.refl w, hi, hf, fun v' h => by cases h; exact hv⟩
    · exact plainStore_good H hi hf x hv
  | aug op =>
    simp only [assignId]
    split
    · exact ⟨H.refl w, hi, hf, fun v' h => by cases h⟩
    · split
      · exact ⟨H.refl w, hi, hf, fun v' h => by cases h⟩
      · rename_i old ho
        obtain ⟨h1, h2, h3⟩ := H.arith w op true old v hi (hf.load (zero_ok H w) ho) hv
        obtain ⟨k1, k2, k3, k4⟩ := plainStore_good H h2 (hf.mono fun _ => H.mono h1) x h3
        refine ⟨H.trans h1 k1, k2, k3, fun v' h => ?_⟩
        simp only at h
        split at h
        · cases h
        · exact k4 v' h

theorem rangeStart_good {fr : Frames Val γ} {w : σ} (hi : I w) (hf : FrOk (V w) fr) (x : Nat) (d : UInt8) (args : List Val) :
    let r := rangeStart P x d args fr w
    T w r.2.2 ∧ I r.2.2 ∧ FrOk (V r.2.2) r.2.1 := by
  have go : ∀ a b c : BitVec 32,
      let r1 := storeId P fr w x (Val.ofF a)
      let r2 := storeId P r1.2.1 r1.2.2 (forTmp P.W d 0) (Val.ofF b)
      let r3 := storeId P r2.2.1 r2.2.2 (forTmp P.W d 1) (Val.ofF c)
      T w r3.2.2 ∧ I r3.2.2 ∧ FrOk (V r3.2.2) r3.2.1 := by
    intro a b c r1 r2 r3
    obtain ⟨a1, a2, a3⟩ := storeId_good H hi hf x (H.num w (floatToPoly a))
    obtain ⟨b1, b2, b3⟩ := storeId_good H a2 a3 (forTmp P.W d 0) (H.num _ (floatToPoly b))
    obtain ⟨c1, c2, c3⟩ := storeId_good H b2 b3 (forTmp P.W d 1) (H.num _ (floatToPoly c))
    exact ⟨H.trans a1 (H.trans b1 c1), c2, c3⟩
  simp only [rangeStart]
  split
  · exact go _ _ _
  · exact go _ _ _
  · split
    · exact ⟨H.refl w, hi, hf⟩
    · exact go _ _ _
  · exact ⟨H.refl w, hi, hf⟩

theorem rangeStep_good {fr : Frames Val γ} {w : σ} (hf : FrOk (V w) fr) (x : Nat) (d : UInt8) :
    FrOk (V w) (rangeStep P x d fr).2 := by
  unfold rangeStep
  split
  · simp only
    have key : ∀ (lx : VLoc) (u : BitVec 32) (b c : Bool),
        FrOk (V w) (if b then (LoopR.error, fr.set lx (Val.ofF u)) else if c then (.stop, fr.set lx (Val.ofF u)) else (.go, fr.set lx (Val.ofF u))).2 := by
      intro lx u b c
      cases b <;> cases c <;> exact hf.set _ (H.num w _)
    exact key _ _ _ _
  · exact hf

omit H in
theorem get_set (fr : Frames Val γ) (l l' : VLoc) (v : Val) :
    (fr.set l v).get l' = v ∨ (fr.set l v).get l' = fr.get l' := by
  have key : ∀ (vars : List (Var Val)) (i j : Nat),
      (((setVar vars i v)[j]?.map (·.value)).getD FrameVal.zero) = v ∨
      (((setVar vars i v)[j]?.map (·.value)).getD FrameVal.zero) = ((vars[j]?.map (·.value)).getD FrameVal.zero) := by
    intro vars i j
    unfold setVar
    rw [List.getElem?_modify]
    cases vars[j]? with
    | none => right; split <;> rfl
    | some y => split; left; rfl; right; rfl
  cases l with
  | glob i =>
    cases l' with
    | glob j => exact key _ _ _
    | «local» j => exact .inr rfl
  | «local» i =>
    unfold Frames.set
    simp only
    split
    · exact .inr rfl
    · rename_i f fs hf
      cases l' with
      | glob j => exact .inr rfl
      | «local» j =>
        unfold Frames.get
        simp only [hf, List.head?_cons, Option.map_some, Option.getD_some]
        exact key _ _ _

theorem inStep_good {fr : Frames Val γ} {w : σ} (hi : I w) (hf : FrOk (V w) fr) (x : Nat) (d : UInt8) :
    let r := inStep P x d fr w
    T w r.2.2 ∧ I r.2.2 ∧ FrOk (V r.2.2) r.2.1 := by
  intro r
  simp only [r, inStep]
  split
  · rename_i li la h1 h2
    have hf' := hf.set li (v := Val.ofF (intToF (toSoff P.W (getFloat (fr.get li)).1 + 1))) (H.num w _)
    have ha : V w ((fr.set li (Val.ofF (intToF (toSoff P.W (getFloat (fr.get li)).1 + 1)))).get la) := by
      rcases get_set fr li la (Val.ofF (intToF (toSoff P.W (getFloat (fr.get li)).1 + 1))) with h | h
      · rw [h]; exact H.num w _
      · rw [h]; exact hf.found (zero_ok H w) h2
    obtain ⟨k1, k2, k3⟩ := H.iter w _ (toSoff P.W (getFloat (fr.get li)).1) hi ha
    have hf2 := hf'.mono fun _ => H.mono k1
    split
    · rename_i w1 he
      rw [he] at k1 k2 hf2
      exact ⟨k1, k2, hf2⟩
    · rename_i v w1 he
      rw [he] at k1 k2 k3 hf2
      split
      · exact ⟨k1, k2, hf2⟩
      · split
        · exact ⟨k1, k2, hf2⟩
        · obtain ⟨m1, m2, m3⟩ := storeId_good H k2 hf2 x (k3 v rfl)
          split
          · rename_i fr2 w2 he2
            rw [he2] at m1 m2 m3
            exact ⟨H.trans k1 m1, m2, m3⟩
          · rename_i fr2 w2 he2
            rw [he2] at m1 m2 m3
            exact ⟨H.trans k1 m1, m2, m3⟩
  · exact ⟨H.refl w, hi, hf⟩

theorem callIns_good {s : Vm σ} (h : Good I V s) (ip0 n : Nat) (push : Bool) : ExGood I V T s.w (callIns P ip0 n push s) := by
  unfold callIns
  refine popN_good h fun args s1 ha h1 e1 => ?_
  refine pop_good h1 fun fv s2 hf h2 e2 _ _ => ?_
  have e : s2.w = s.w := e2.trans e1
  rw [← e]
  rw [← e2] at ha
  split
  · obtain ⟨k1, k2⟩ := H.frameAlloc s2.w h2.inv
    split
    · rename_i w he
      rw [he] at k1 k2
      exact ⟨Good.world H h2 k1 k2, k1⟩
    · rename_i w he
      rw [he] at k1 k2
      have hw := Good.world H h2 k1 k2
      simp only
      split
      · rename_i vars hb
        have hv := funcBind_vals (V := V w) (zero_ok H w) (fun v hv => H.mono k1 (ha v (List.mem_of_mem_take hv)))
          (fun q hq => H.mono k1 (ha _ (List.mem_of_mem_drop (mem_pairUp _ (Nat.le_refl _) hq)))) hb
        refine ⟨⟨k2, H.mono k1 hf, hw.stack, hw.fr.glob, fun f hf x hx => ?_⟩, k1⟩
        simp only [List.mem_cons] at hf
        rcases hf with rfl | hf
        · exact .inl (hv x hx)
        · exact hw.fr.loc f hf x hx
      · exact ⟨hw, k1⟩
  · rename_i ht
    exact res_good H h2 (H.refl _) (H.call s2.w fv _ _ h2.inv hf ht (fun v hv => ha v (List.mem_of_mem_take hv))
      (fun v hv => ha v (List.mem_of_mem_drop hv))) push
  · exact ⟨h2, H.refl _⟩

theorem exec1_good {s : Vm σ} (h : Good I V s) (i : Ins) (hi : ∀ o, i = .string o → V s.w (.str o)) (push : Bool) (ip0 : Nat) :
    ExGood I V T s.w (exec1 P i push ip0 s) := by
  have hr := H.refl s.w
  cases i with
  | chain c t =>
    simp only [exec1]
    refine pop_good h fun x s1 hx h1 e1 _ _ => ?_
    rw [← e1]
    obtain ⟨k1, k2, k3⟩ := H.rel s1.w (.cmp c) x s1.acc h1.inv hx h1.acc
    split
    · rename_i w he
      rw [he] at k1 k2
      exact ⟨Good.world H h1 k1 k2, k1⟩
    · rename_i r w he
      rw [he] at k1 k2 k3
      split
      · exact ⟨Good.world H h1 k1 k2, k1⟩
      · exact ⟨((Good.world H h1 k1 k2).setAcc (k3 r rfl)).setIp t, k1⟩
  | rel r =>
    simp only [exec1]
    refine pop_good h fun x s1 hx h1 e1 _ _ => ?_
    rw [← e1]
    exact res_good H h1 (H.refl _) (H.rel s1.w r x s1.acc h1.inv hx h1.acc) push
  | array =>
    simp only [exec1]
    refine pop_good h fun x s1 hx h1 e1 _ _ => ?_
    rw [← e1]
    exact res_good H h1 (H.refl _) (H.index s1.w x s1.acc h1.inv hx h1.acc) push
  | arith op =>
    simp only [exec1]
    refine pop_good h fun x s1 hx h1 e1 _ _ => ?_
    rw [← e1]
    obtain ⟨k1, k2, k3⟩ := H.arith s1.w op false x s1.acc h1.inv hx h1.acc
    refine res_good H h1 (H.refl _) ⟨k1, k2, fun v hv => ?_⟩ push
    simp only at hv
    split at hv
    · cases hv
    · cases hv; exact k3
  | assign a x =>
    simp only [exec1]
    split
    · refine pop_good h fun ip s1 hx h1 e1 _ _ => ?_
      refine pop_good h1 fun lp s2 hx2 h2 e2 _ _ => ?_
      rw [← e1, ← e2]
      rw [← e2] at hx
      exact res_good H h2 (H.refl _) (H.storeIdx s2.w a lp ip s2.acc h2.inv hx2 hx h2.acc) push
    · obtain ⟨k1, k2, k3, k4⟩ := assignId_good H h.inv h.fr a x h.acc
      have hw := Good.world H h k1 k2
      cases hr1 : (assignId P a x s.acc s.fr s.w).1 with
      | none =>
        simp only [Vm.res]
        exact ⟨⟨k2, hw.acc, hw.stack, k3⟩, k1⟩
      | some v =>
        simp only [Vm.res]
        exact ⟨⟨k2, k4 v hr1, hw.stack, k3⟩, k1⟩
  | num u => exact ⟨h.setAcc (H.num _ u), hr⟩
  | int b => exact ⟨h.setAcc (H.num _ _), hr⟩
  | string o => exact ⟨h.setAcc (hi o rfl), hr⟩
  | mk k n =>
    simp only [exec1]
    refine popN_good h fun l s1 hl h1 e1 => ?_
    rw [← e1]
    exact res_good H h1 (H.refl _) (H.build s1.w k l h1.inv hl) push
  | id x =>
    simp only [exec1]
    split
    · rename_i v hv
      refine ⟨h.setAcc ?_, hr⟩
      unfold loadName at hv
      split at hv
      · rename_i v' hv'
        cases hv; exact h.fr.load (zero_ok H _) hv'
      · split at hv
        · rename_i hx
          cases hv; exact H.name _ x hx
        · cases hv
    · exact ⟨h, hr⟩
  | unary u =>
    cases u with
    | not => exact ⟨h.setAcc (H.num _ _), hr⟩
    | uminus => exact res_good H h hr (H.unary s.w .uminus s.acc h.inv h.acc) push
    | lnot => exact res_good H h hr (H.unary s.w .lnot s.acc h.inv h.acc) push
  | call n => exact callIns_good H h ip0 n push
  | slice f =>
    simp only [exec1]
    refine popIf_good h fun p s1 h1 e1 => popIf_good h1 fun q s2 h2 e2 => popIf_good h2 fun t s3 h3 e3 => ?_
    refine pop_good h3 fun v s4 hv h4 e4 _ _ => ?_
    have e : s4.w = s.w := e4.trans (e3.trans (e2.trans e1))
    rw [← e]
    exact res_good H h4 (H.refl _) (H.slice s4.w v t q p h4.inv hv) push
  | global x =>
    obtain ⟨k1, k2⟩ := H.varAlloc s.w h.inv
    have hw := Good.world H h k1 k2
    have hg := hw.fr.markGlobal (zero_ok H _) x (P.varAlloc s.w).1
    simp only [exec1]
    split
    · exact ⟨⟨k2, hw.acc, hw.stack, hg⟩, k1⟩
    · exact ⟨⟨k2, hw.acc, hw.stack, hg⟩, k1⟩
  | del x =>
    simp only [exec1]
    split
    · refine pop_good h fun lp s1 hx h1 e1 _ _ => ?_
      rw [← e1]
      obtain ⟨k1, k2⟩ := H.delIdx s1.w lp s1.acc h1.inv hx h1.acc
      split
      · rename_i w he
        rw [he] at k1 k2
        exact ⟨(Good.world H h1 k1 k2).setAcc (H.none _), k1⟩
      · rename_i w he
        rw [he] at k1 k2
        exact ⟨Good.world H h1 k1 k2, k1⟩
    · exact ⟨h.setFr (h.fr.idDel (H.cut s.w) x), hr⟩
  | ret => exact ⟨h.setIp _, hr⟩
  | assert =>
    simp only [exec1]
    split
    · exact ⟨h.setAcc (H.none _), hr⟩
    · exact ⟨h, hr⟩
  | branch t => exact ⟨h.setIp _, hr⟩
  | branchTrue t =>
    simp only [exec1]
    split
    · exact ⟨h.setIp _, hr⟩
    · exact ⟨h, hr⟩
  | branchFalse t =>
    simp only [exec1]
    split
    · exact ⟨h, hr⟩
    · exact ⟨h.setIp _, hr⟩
  | forward _ => exact ⟨h, hr⟩
  | rangeStart n d x =>
    simp only [exec1]
    refine popN_good h fun l s1 hl h1 e1 => ?_
    rw [← e1]
    obtain ⟨k1, k2, k3⟩ := rangeStart_good H h1.inv h1.fr x d l
    have hw := Good.world H h1 k1 k2
    split
    · rename_i fr w he
      rw [he] at k1 k2 k3 hw
      exact ⟨⟨k2, hw.acc, hw.stack, k3⟩, k1⟩
    · rename_i fr w he
      rw [he] at k1 k2 k3 hw
      exact ⟨⟨k2, hw.acc, hw.stack, k3⟩, k1⟩
  | rangeStep t d x =>
    have k := rangeStep_good H h.fr x d
    simp only [exec1]
    split <;> (rename_i fr he; rw [he] at k)
    · exact ⟨h.setFr k, hr⟩
    · exact ⟨(h.setFr k).setIp t, hr⟩
    · exact ⟨h.setFr k, hr⟩
  | inStep t d x =>
    obtain ⟨k1, k2, k3⟩ := inStep_good H h.inv h.fr x d
    have hw := Good.world H h k1 k2
    simp only [exec1]
    split <;> (rename_i fr w he; rw [he] at k1 k2 k3 hw)
    · exact ⟨⟨k2, hw.acc, hw.stack, k3⟩, k1⟩
    · exact ⟨⟨k2, hw.acc, hw.stack, k3⟩, k1⟩
    · exact ⟨⟨k2, hw.acc, hw.stack, k3⟩, k1⟩
  | line n => exact ⟨⟨h.inv, h.acc, h.stack, h.fr⟩, hr⟩
  | null => exact ⟨h.setAcc (H.none _), hr⟩
  | nop => exact ⟨h, hr⟩

/-- The result of a step. -/
def OutGood (I : σ → Prop) (V : σ → Val → Prop) (T : σ → σ → Prop) (w : σ) : Out σ → Prop
  | .run s => Good I V s ∧ T w s.w
  | .done v e => I e.w ∧ V e.w v ∧ (∀ x ∈ e.globals, V e.w x.value) ∧ T w e.w
  | .abort e => I e.w ∧ (∀ x ∈ e.globals, V e.w x.value) ∧ T w e.w
  | .fault => True

omit H in
theorem Good.push {s : Vm σ} (h : Good I V s) : Good I V (s.pushAcc P) := by
  unfold Vm.pushAcc
  split
  · exact ⟨h.inv, h.acc, h.stack, h.fr⟩
  · refine ⟨h.inv, h.acc, fun v hv => ?_, h.fr⟩
    simp only [List.mem_cons] at hv
    rcases hv with rfl | hv
    · exact h.acc
    · exact h.stack v hv

omit H in
theorem pushAcc_w (P : Prim σ) (s : Vm σ) : (s.pushAcc P).w = s.w := by unfold Vm.pushAcc; split <;> rfl

theorem step_good {s : Vm σ} (h : Good I V s)
    (hi : s.ip < s.code.length → ∀ o, (fetch P.W s.code s.ip).1 = .string o → V s.w (.str o)) : OutGood I V T s.w (step P s) := by
  unfold step
  split
  · rename_i hlt
    have k := exec1_good H (h.setIp (fetch P.W s.code s.ip).2.2) (fetch P.W s.code s.ip).1 (hi hlt) (fetch P.W s.code s.ip).2.1 s.ip
    simp only
    split
    · trivial
    · rename_i s1 he
      rw [he] at k
      exact ⟨k.1.inv, k.1.fr.glob, k.2⟩
    · rename_i s1 push he
      rw [he] at k
      split
      · exact ⟨k.1.inv, k.1.fr.glob, k.2⟩
      · split
        · exact ⟨k.1.push, by rw [pushAcc_w]; exact k.2⟩
        · exact k
  · unfold framePop
    cases hf : s.fr.frames with
    | nil =>
      simp only
      split
      · exact ⟨h.inv, h.fr.glob, H.refl _⟩
      · exact ⟨h.inv, h.acc, h.fr.glob, H.refl _⟩
    | cons f fs =>
      simp only
      have hg : Good I V { s with code := f.code, ip := f.ip + P.W + 1, fr := { s.fr with frames := fs } } :=
        ⟨h.inv, h.acc, h.stack, h.fr.glob, fun g hg => h.fr.loc g (by rw [hf]; exact List.mem_cons_of_mem _ hg)⟩
      split
      · exact ⟨hg.push, by rw [pushAcc_w]; exact H.refl _⟩
      · exact ⟨hg, H.refl _⟩

end
end Snek.Vm
