import Verif.Spec.Machine
import Verif.Proofs.StoreSafe
import Verif.Proofs.VmKeep
/-! The operations of the machine keep memory in order. -/
namespace Snek.Machine
open Store (Val Obj S Op Ok VOk POk RelQ Ty Runs)
open Vm (Prim RelOp UnOp MkKind AOp Res)

variable {κ : Type} {C : Cfg κ}

/-- `InOrder` in the form of the lemmas about containers. -/
structure WOk (C : Cfg κ) (w : World κ) : Prop where
  ok : Ok w.st
  rel : RelQ (Function C) True w.st w.st
  tame : w.wild = false

def MI (C : Cfg κ) (w : World κ) : Prop := Clean C w → WOk C w
def MV (C : Cfg κ) (w : World κ) (v : Val) : Prop := Clean C w → POk (Function C) w.st v
def MT (C : Cfg κ) (w w' : World κ) : Prop := (∀ e ∈ w.hist, e ∈ w'.hist) ∧ (Clean C w' → Ty w.st w'.st)

theorem MT.clean {w w' : World κ} (h : MT C w w') (hc : Clean C w') : Clean C w := fun e he => hc e (h.1 e he)

theorem MT.refl (w : World κ) : MT C w w := ⟨fun _ h => h, fun _ => .refl _⟩

theorem MT.trans {a b c : World κ} (h1 : MT C a b) (h2 : MT C b c) : MT C a c :=
  ⟨fun e he => h2.1 e (h1.1 e he), fun hc => (h1.2 (h2.clean hc)).trans (h2.2 hc)⟩

theorem MV.mono {w w' : World κ} {v : Val} (h : MT C w w') (hv : MV C w v) : MV C w' v := fun hc => (h.2 hc).pok (hv (h.clean hc))

/-- The operation stays in bounds and gives a proper value. -/
def OpOk (C : Cfg κ) (s : S) (f : S → Option (Val × S)) : Prop :=
  ∃ r s', f { s with abort := false } = some (r, s') ∧ Ok s' ∧ RelQ (Function C) True { s with abort := false } s' ∧
    POk (Function C) s' r

theorem ok_reset {s : S} (h : Ok s) (b : Bool) : Ok { s with abort := b } := h
theorem rel_reset {Q : Nat → Prop} {s : S} (h : RelQ Q True s s) (b : Bool) : RelQ Q True { s with abort := b } { s with abort := b } :=
  ⟨.refl _, fun _ _ h _ => h, h.words, h.emp⟩
theorem ty_reset {s s' : S} {b : Bool} (h : Ty { s with abort := b } s') : Ty s s' := ⟨h.len, h.lst, h.str⟩

theorem run_keep {w : World κ} {f : S → Option (Val × S)} (hI : MI C w) (hf : WOk C w → Clean C w → OpOk C w.st f) :
    Res (MI C) (MV C) (MT C) w (w.run f) := by
  unfold World.run
  have key : ∀ {w' : World κ} {r : Option Val}, w'.hist = w.hist →
      (Clean C w → WOk C w' ∧ Ty w.st w'.st ∧ ∀ v, r = some v → POk (Function C) w'.st v) → Res (MI C) (MV C) (MT C) w (r, w') := by
    intro w' r hh h
    have hcl : Clean C w' → Clean C w := fun hc e he => hc e (by rw [hh]; exact he)
    exact ⟨⟨fun e he => by rw [hh]; exact he, fun hc => (h (hcl hc)).2.1⟩, fun hc => (h (hcl hc)).1, fun v hv hc => (h (hcl hc)).2.2 v hv⟩
  split
  · rename_i hn
    refine key rfl fun hc => ?_
    obtain ⟨r, s', h1, -⟩ := hf (hI hc) hc
    rw [hn] at h1; cases h1
  · rename_i v s hs
    refine key rfl fun hc => ?_
    obtain ⟨r, s', h1, h2, h3, h5⟩ := hf (hI hc) hc
    rw [hs] at h1; cases h1
    refine ⟨⟨h2, h3.self, (hI hc).tame⟩, ty_reset h3.ty, fun v' hv => ?_⟩
    split at hv
    · cases hv
    · cases hv; exact h5

theorem note_keep {w : World κ} (e : Ev) (hI : MI C w) : MI C (w.note e) ∧ MT C w (w.note e) :=
  ⟨fun hc => let h := hI (fun e' he => hc e' (List.mem_cons_of_mem _ he)); ⟨h.ok, h.rel, h.tame⟩,
   ⟨fun e' he => List.mem_cons_of_mem _ he, fun _ => .refl _⟩⟩

theorem Res.trans {w w1 : World κ} {r : Option Val × World κ} (ht : MT C w w1) (h : Res (MI C) (MV C) (MT C) w1 r) :
    Res (MI C) (MV C) (MT C) w r := ⟨ht.trans h.1, h.2⟩

theorem exec_keep {w : World κ} {o : Op} {f : S → Option (Val × S)} (hI : MI C w)
    (hf : WOk C w → Clean C w → o.fits (env C) { w.st with abort := false } → OpOk C w.st f) :
    Res (MI C) (MV C) (MT C) w (w.exec o f) := by
  obtain ⟨h1, h2⟩ := note_keep (.op o { w.st with abort := false }) hI
  refine Res.trans h2 (run_keep h1 fun _ hc => ?_)
  exact hf (hI (h2.clean hc)) (h2.clean hc) (hc _ (List.mem_cons_self ..))

/-- The result is there and nothing happened to memory. -/
theorem same_keep {w : World κ} {r : Option Val} (hI : MI C w) (hr : ∀ v, r = some v → MV C w v) : Res (MI C) (MV C) (MT C) w (r, w) :=
  ⟨.refl w, hI, hr⟩

theorem num_ok (w : World κ) (u : BitVec 32) : MV C w (.num u) := fun _ => trivial
theorem none_ok (w : World κ) : MV C w Val.none := fun _ => .inr rfl

theorem endless_keep {w : World κ} (v : Val) (hI : MI C w) : Res (MI C) (MV C) (MT C) w (none, w.note (.endless v)) :=
  ⟨(note_keep _ hI).2, (note_keep _ hI).1, fun _ h => by cases h⟩

theorem fail_keep {w : World κ} (hI : MI C w) : Res (MI C) (MV C) (MT C) w (none, w) := same_keep hI fun _ h => by cases h

/-- The case does not arise. -/
theorem wild_keep {w : World κ} (hno : Clean C w → False) : Res (MI C) (MV C) (MT C) w (none, { w with wild := true }) :=
  ⟨⟨fun _ h => h, fun hc => (hno hc).elim⟩, fun hc => (hno hc).elim, fun _ h => by cases h⟩

theorem wk {s s' : S} (h : RelQ (Function C) True s s') : Store.Rel True s s' :=
  ⟨h.ty, h.froz, fun hc i o ho v hv => (h.words hc i o ho v hv).vok.pok, h.emp⟩

theorem post {s s' : S} {r : Val} {f : S → Option (Val × S)} (hr : f { s with abort := false } = some (r, s')) (hk : Ok s')
    (hp : Store.Post (Function C) True { s with abort := false } { s with abort := false } r s') : OpOk C s f :=
  ⟨r, s', hr, hk, hp.1, hp.2.2 trivial⟩

theorem envA : (env C).A = C.A := rfl

variable (hA : C.A.Valid)
include hA

omit hA in
theorem arith_okm {w : World κ} (hw : WOk C w) {op : BinOp} {ip : Bool} {a b : Val} (ha : POk (Function C) w.st a) (hb : POk (Function C) w.st b)
    (hf : Store.arithFits (env C) op a b { w.st with abort := false }) : OpOk C w.st (Store.arith (env C) op ip a b) := by
  obtain ⟨r, s', h1, h2, -⟩ := Store.arith_ok (E := env C) (ip := ip) (ok_reset hw.ok false) ha.vok hb.vok hf
  exact post h1 h2 (Store.arith_rel (rel_reset hw.rel false) h1)

theorem index_okm {w : World κ} (hw : WOk C w) {a b : Val} (ha : POk (Function C) w.st a) (hb : POk (Function C) w.st b) :
    OpOk C w.st fun s => Store.index (env C) s a b := by
  obtain ⟨r, s', h1, h2⟩ := Store.index_ok (E := env C) (b := b) hA (ok_reset hw.ok false) ha.vok
  exact post h1 h2 (Store.index_rel (rel_reset hw.rel false) (fun _ => hb) h1)

omit hA in
theorem isIn_okm {w : World κ} (hw : WOk C w) {p : Bool} {a b : Val} (ha : POk (Function C) w.st a) (hb : POk (Function C) w.st b) :
    OpOk C w.st (Store.isIn (env C) p a b) := by
  obtain ⟨r, s', h1, h2⟩ := Store.isIn_ok (E := env C) (pos := p) (ok_reset hw.ok false) ha.vok hb.vok
  exact post h1 h2 (Store.isIn_rel (rel_reset hw.rel false) h1)

theorem slice_okm {w : World κ} (hw : WOk C w) {v : Val} {p q t : Option Val} (hv : POk (Function C) w.st v)
    (hf : Store.sliceFits (env C) v p q t { w.st with abort := false }) : OpOk C w.st (Store.slice (env C) v p q t) := by
  obtain ⟨r, s', h1, h2⟩ := Store.slice_ok (E := env C) hA (ok_reset hw.ok false) hv.vok hf
  exact post h1 h2 (Store.slice_rel (rel_reset hw.rel false) (fun _ => hv) h1)

omit hA in
theorem build_okm {w : World κ} (hw : WOk C w) {t : LType} {l : List Val} (hl : ∀ v ∈ l, POk (Function C) w.st v)
    (hf : Store.Fits (env C) l.length) (hd : t = .dict → l.length % 2 = 0) : OpOk C w.st fun s => Store.imm (env C) s t l := by
  obtain ⟨r, s', h1, h2⟩ := Store.imm_ok (E := env C) (ok_reset hw.ok false) hf hd
  exact post h1 h2 (Store.imm_rel (rel_reset hw.rel false) (fun _ => hl) h1)

omit hA in
theorem newStr_okm {w : World κ} (hw : WOk C w) {b : List UInt8} (hf : b.length + 1 < 2 ^ C.A.offBits) :
    OpOk C w.st fun s => Store.newStr (env C) s b := by
  obtain ⟨r, s', h1, h2⟩ := Store.newStr_ok (E := env C) (ok_reset hw.ok false) hf
  exact post h1 h2 (Store.newStr_rel (rel_reset hw.rel false) h1)

omit hA in
theorem augElem_map (op : BinOp) (lp ip v : Val) (s : S) : (augElem C op lp ip v s).map (·.2) = Store.augElem (env C) op lp ip v s := by
  unfold augElem Store.augElem
  cases Store.elemRef (env C) s lp ip with
  | none => rfl
  | some r =>
    obtain ⟨r, s1⟩ := r
    cases r with
    | none => rfl
    | some q =>
      obtain ⟨i, k⟩ := q
      simp only [Option.bind_eq_bind, Option.bind_some, Option.pure_def]
      cases s1.lst i with
      | none => rfl
      | some o =>
        simp only [Option.bind_some]
        cases o.data[k]? with
        | none => rfl
        | some old =>
          simp only [Option.bind_some]
          cases Store.arith (env C) op true old v s1 with
          | none => rfl
          | some x =>
            simp only [Option.bind_some]
            split
            · rfl
            · cases Store.storeElem (env C) lp ip x.1 x.2 <;> rfl

omit hA in
theorem augElem_post {s0 s s' : S} (h : RelQ (Function C) True s0 s) {op : BinOp} {lp ip v r : Val} (hp : POk (Function C) s ip)
    (hr : augElem C op lp ip v s = some (r, s')) : Store.Post (Function C) True s0 s r s' := by
  simp only [augElem, Option.bind_eq_bind, Option.pure_def] at hr
  obtain ⟨⟨q, s1⟩, h3, hr⟩ := Option.bind_eq_some_iff.1 hr
  obtain ⟨k1, k2, k3⟩ := Store.elemRef_rel h (fun _ => hp) h3
  cases q with
  | none => cases hr; exact ⟨k1, k2, fun _ => Store.vok_none _⟩
  | some ik =>
    obtain ⟨i, k⟩ := ik
    simp only at hr
    obtain ⟨o, h4, hr⟩ := Option.bind_eq_some_iff.1 hr
    obtain ⟨old, h5, hr⟩ := Option.bind_eq_some_iff.1 hr
    obtain ⟨⟨x, s2⟩, h6, hr⟩ := Option.bind_eq_some_iff.1 hr
    obtain ⟨m1, m2, m3⟩ := Store.arith_rel k1 h6
    simp only at hr
    split at hr
    · cases hr; exact ⟨m1.fail, k2.trans (m2.trans (.fail _)), m3⟩
    obtain ⟨s3, h7, hr⟩ := Option.bind_eq_some_iff.1 hr
    cases hr
    obtain ⟨n1, n2⟩ := Store.storeElem_rel m1 (fun _ => (k2.trans m2).pok hp) m3 h7
    exact ⟨n1, k2.trans (m2.trans n2), fun hc => n2.pok (m3 hc)⟩

omit hA in
theorem storeIdx_keep {w : World κ} (a : AOp) {l i v : Val} (hI : MI C w) (hl : MV C w l) (hi : MV C w i) (hv : MV C w v) :
    Res (MI C) (MV C) (MT C) w (storeIdx C a l i v w) := by
  have plain : Res (MI C) (MV C) (MT C) w
      (w.exec (.store l i v) (fun s => (Store.storeElem (env C) l i v s).map fun s => (v, s))) := by
    refine exec_keep hI fun hw hc hf => ?_
    obtain ⟨s', h1, h2⟩ := Store.storeElem_ok (E := env C) (ip := i) (v := v) (ok_reset hw.ok false) (hl hc).vok hf
    obtain ⟨k1, k2⟩ := Store.storeElem_rel (rel_reset hw.rel false) (fun _ => hi hc) (fun _ => hv hc) h1
    exact ⟨v, s', by simp only [h1]; rfl, h2, k1, (ty_reset k2).pok (hv hc)⟩
  cases a with
  | plain => exact plain
  | named => exact plain
  | aug op =>
    refine exec_keep hI fun hw hc hf => ?_
    obtain ⟨s', h1, h2⟩ := Store.augElem_ok (E := env C) (ok_reset hw.ok false) (wk (rel_reset hw.rel false)) (hl hc).vok (hi hc).vok
      (hv hc).vok hf
    rw [← augElem_map] at h1
    obtain ⟨⟨r, s2⟩, h3, h4⟩ := Option.map_eq_some_iff.1 h1
    cases h4
    exact post h3 h2 (augElem_post (rel_reset hw.rel false) (hi hc) h3)

omit hA in
theorem delIdx_keep {w : World κ} {l i : Val} (hI : MI C w) (hl : MV C w l) (hi : MV C w i) :
    MT C w (delIdx C l i w).2 ∧ MI C (delIdx C l i w).2 := by
  have : Res (MI C) (MV C) (MT C) w (w.exec (.del l i) (fun s => (Store.delElem (env C) l i s).map fun s => (Val.none, s))) := by
    refine exec_keep hI fun hw hc hf => ?_
    unfold Store.delElem
    split
    · rename_i k
      obtain ⟨o, ho⟩ := (hl hc)
      obtain ⟨s', h1, h2⟩ := Store.del_ok (E := env C) (ok_reset hw.ok false) ho (hf o ho) i
      obtain ⟨k1, k2⟩ := Store.del_rel (rel_reset hw.rel false) (fun _ => hi hc) h1
      exact ⟨_, s', by simp only [h1]; rfl, h2, k1, Store.vok_none _⟩
    · exact ⟨_, _, rfl, (ok_reset hw.ok false).fail, (rel_reset hw.rel false).fail, Store.vok_none _⟩
  exact ⟨this.1, this.2.1⟩

omit hA in
theorem iter_keep (hA : C.A.Valid) {w : World κ} {v : Val} (i : Int) (hI : MI C w) (hv : MV C w v) :
    Res (MI C) (MV C) (MT C) w (iter C v i w) := by
  cases v with
  | list k =>
    simp only [iter]
    split
    · rename_i o ho
      refine same_keep hI fun v h hc => ?_
      cases h
      simp only [Vm.iterElem]
      cases hd : (o.data.take o.size)[((if decide (o.type = .dict) = true then i * 2 else i) % 2 ^ (8 * (C.A.offBits / 8))).toNat]? with
      | none => exact Store.vok_none _
      | some x => exact (hI hc).rel.words trivial k o ho x (List.mem_of_mem_take (List.mem_of_getElem? hd))
    · rename_i hn
      refine wild_keep fun hc => ?_
      obtain ⟨o, ho⟩ := hv hc
      rw [hn] at ho; cases ho
  | str k =>
    simp only [iter]
    split
    · split
      · refine run_keep hI fun hw hc => newStr_okm hw ?_
        have := Store.two_lt (E := env C) hA
        rw [envA] at this
        simp only [List.length_singleton]; omega
      · exact same_keep hI fun v h => by cases h; exact none_ok w
    · rename_i hn
      refine wild_keep fun hc => ?_
      obtain ⟨o, ho⟩ := hv hc
      rw [hn] at ho; cases ho
  | num u => exact fail_keep hI
  | func u => exact fail_keep hI
  | builtin u => exact fail_keep hI

omit hA in
theorem num_keep {w : World κ} (u : BitVec 32) (hI : MI C w) : Res (MI C) (MV C) (MT C) w (num u w) :=
  same_keep hI fun v h => by cases h; exact num_ok w _

omit hA in
theorem text_keep {w : World κ} (b : List UInt8) (hI : MI C w) :
    Res (MI C) (MV C) (MT C) w ((w.note (.text b)).run fun s => Store.newStr (env C) s b) := by
  obtain ⟨h1, h2⟩ := note_keep (.text b) hI
  exact Res.trans h2 (run_keep h1 fun hw hc => newStr_okm hw (hc _ (List.mem_cons_self ..)))

omit hA in
theorem call1_keep (hA : C.A.Valid) {w : World κ} (b : Bi) {v : Val} (hI : MI C w) (hv : MV C w v) :
    Res (MI C) (MV C) (MT C) w (call1 C b v w) := by
  have h16 := Store.two_lt (E := env C) hA
  rw [envA] at h16
  have bad : ∀ {i : Nat}, v = .str i → w.st.bytes i = none → Res (MI C) (MV C) (MT C) w (none, { w with wild := true }) := by
    intro i hi hn
    refine wild_keep fun hc => ?_
    have := hv hc
    rw [hi] at this
    obtain ⟨o, ho⟩ := this
    rw [hn] at ho; cases ho
  cases b with
  | len =>
    simp only [call1]
    split
    · exact num_keep _ hI
    · rename_i hn
      refine wild_keep fun hc => ?_
      obtain ⟨n, h⟩ := Store.len_ok (hv hc).vok
      rw [hn] at h; cases h
  | ord =>
    simp only [call1]
    split
    · split
      · exact num_keep _ hI
      · rename_i hn; exact bad rfl hn
    · exact fail_keep hI
  | chr =>
    simp only [call1]
    split
    · refine run_keep hI fun hw hc => newStr_okm hw ?_
      split
      · simp only [List.length_nil]; omega
      · simp only [List.length_singleton]; omega
    · exact fail_keep hI
  | abs =>
    simp only [call1]
    split
    · exact num_keep _ hI
    · exact fail_keep hI
  | int =>
    simp only [call1]
    split
    · exact num_keep _ hI
    · split
      · exact num_keep _ hI
      · rename_i hn; exact bad rfl hn
    · exact fail_keep hI
  | float =>
    simp only [call1]
    split
    · exact num_keep _ hI
    · split
      · exact num_keep _ hI
      · rename_i hn; exact bad rfl hn
    · exact fail_keep hI
  | str =>
    simp only [call1]
    split
    · exact endless_keep v hI
    · split
      · exact fail_keep hI
      · exact text_keep _ hI
  | const _ => exact fail_keep hI
  | print => exact fail_keep hI
  | other _ => exact fail_keep hI

omit hA in
theorem print_keep {w : World κ} (pos named : List Val) (hI : MI C w) : Res (MI C) (MV C) (MT C) w (print C pos named w) := by
  unfold print
  split
  · split
    · exact ⟨⟨fun _ h => h, fun _ => .refl _⟩, fun hc => let h := hI hc; ⟨h.ok, h.rel, h.tame⟩, fun v h hc => by cases h; exact .inr rfl⟩
    · exact fail_keep hI
  · exact endless_keep _ hI

omit hA in
theorem callOther_keep {w : World κ} (x : Nat) (pos named : List Val) (hI : MI C w) :
    Res (MI C) (MV C) (MT C) w (callOther C x pos named w) := by
  unfold callOther
  generalize C.other x pos named w.st.objs w.dev = r
  obtain ⟨r, d⟩ := r
  have h1 : MI C { w with dev := d } := fun hc => let h := hI hc; ⟨h.ok, h.rel, h.tame⟩
  have h2 : MT C w { w with dev := d } := ⟨fun _ h => h, fun _ => .refl _⟩
  refine Res.trans h2 ?_
  cases r with
  | none => exact same_keep h1 fun v h => by cases h; exact none_ok _
  | num u => exact num_keep _ h1
  | str b => exact text_keep b h1
  | tuple l =>
    refine exec_keep h1 fun hw hc hf => build_okm hw (fun v hv => ?_) hf.1 hf.2
    obtain ⟨u, -, rfl⟩ := List.mem_map.1 hv
    trivial
  | error => exact fail_keep h1

omit hA in
theorem call_keep (hA : C.A.Valid) {w : World κ} {f : Val} {pos named : List Val} (hI : MI C w) (hf : MV C w f) (ht : f.type = .builtin)
    (hp : ∀ v ∈ pos, MV C w v) : Res (MI C) (MV C) (MT C) w (callBuiltin C f pos named w) := by
  cases f with
  | builtin off =>
    have href : Val.ref (.builtin off) = off := rfl
    simp only [callBuiltin, href]
    obtain ⟨h1, h2⟩ := note_keep (.call off) hI
    refine Res.trans h2 ?_
    have fine : Clean C (w.note (.call off)) → ∃ x, off / 4 = x ∧ x ≠ 0 ∧ x < C.builtinMax ∧ ∀ c, C.table x ≠ .const c := by
      intro hc
      obtain ⟨f1, f2⟩ : off ≠ 0x7ffffc ∧ off ≠ 0 := hc _ (List.mem_cons_self ..)
      rcases hf (h2.clean hc) with h | h
      · obtain ⟨x, rfl, hx, hx2⟩ := h
        exact ⟨x, by omega, by omega, hx, hx2⟩
      · exact absurd h f1
    split
    · rename_i hbad
      refine wild_keep fun hc => ?_
      obtain ⟨x, hx, hx2, hx3, -⟩ := fine hc
      rw [hx] at hbad
      omega
    · split
      · rename_i c hcon
        refine wild_keep fun hc => ?_
        obtain ⟨x, hx, hx2, hx3, hx4⟩ := fine hc
        rw [hx] at hcon
        exact hx4 c hcon
      · exact print_keep pos named h1
      · exact callOther_keep _ pos named h1
      · split
        · exact fail_keep h1
        · exact callOther_keep _ pos named h1
      · split
        · exact call1_keep hA _ h1 (MV.mono h2 (hp _ (List.mem_cons_self ..)))
        · exact fail_keep h1
  | num _ => cases ht
  | str _ => cases ht
  | list _ => cases ht
  | func _ => cases ht

omit hA in
theorem alloc_keep {w : World κ} (hI : MI C w) : MT C w w.alloc.2 ∧ MI C w.alloc.2 := by
  have ho : w.alloc.2.st.objs = w.st.objs := rfl
  have he : w.alloc.2.st.empty = w.st.empty := rfl
  refine ⟨⟨fun _ h => h, fun _ => .of_objs ho⟩, fun hc => ?_⟩
  have h := hI hc
  exact ⟨h.ok, (h.rel.of_objs ho he).self, h.tame⟩

theorem machine_closed (sig : Nat → FuncSig) (code : Nat → List UInt8) : Vm.Closed (prim C sig code) (MI C) (MV C) (MT C) where
  refl := .refl
  trans := .trans
  mono := .mono
  num w u := num_ok w u
  none w := none_ok w
  name w x hx := by
    intro _
    show POk (Function C) w.st (builtinVal C x)
    unfold builtinVal
    split
    · exact .inr rfl
    · trivial
    · rename_i h1 h2
      refine .inl ⟨x, rfl, hx, fun c hc => ?_⟩
      cases c with
      | none => exact h1 hc
      | some u => exact h2 u hc
  rel w r a b hI ha hb := by
    show Res _ _ _ w (rel C r a b w)
    cases r with
    | cmp c =>
      simp only [rel]
      split
      · exact same_keep hI fun v h => by cases h; exact num_ok w _
      · split
        · exact same_keep hI fun v h => by cases h; exact num_ok w _
        · exact endless_keep _ hI
    | is => exact same_keep hI fun v h => by cases h; exact num_ok w _
    | isNot => exact same_keep hI fun v h => by cases h; exact num_ok w _
    | isIn => exact exec_keep hI fun hw hc _ => isIn_okm hw (ha hc) (hb hc)
    | notIn => exact exec_keep hI fun hw hc _ => isIn_okm hw (ha hc) (hb hc)
  index w a b hI ha hb := exec_keep hI fun hw hc _ => index_okm hA hw (ha hc) (hb hc)
  arith w o ip a b hI ha hb := by
    obtain ⟨h1, h2⟩ := note_keep (.op (.arith o ip a b) { w.st with abort := false }) hI
    have key : Clean C (w.note (.op (.arith o ip a b) { w.st with abort := false })) → OpOk C w.st (Store.arith (env C) o ip a b) :=
      fun hc => arith_okm (hI (h2.clean hc)) (ha (h2.clean hc)) (hb (h2.clean hc)) (hc _ (List.mem_cons_self ..))
    simp only [prim]
    split
    · rename_i hn
      have no : Clean C (w.note (.op (.arith o ip a b) { w.st with abort := false })) → False := by
        intro hc
        obtain ⟨r, s', h, -⟩ := key hc
        rw [hn] at h; cases h
      exact ⟨⟨h2.1, fun hc => (no hc).elim⟩, fun hc => (no hc).elim, fun hc => (no hc).elim⟩
    · rename_i v s hs
      refine ⟨⟨h2.1, fun hc => ?_⟩, fun hc => ?_, fun hc => ?_⟩
      all_goals
        obtain ⟨r, s', h, k1, k2, k3⟩ := key hc
        rw [hs] at h; cases h
      · exact ty_reset k2.ty
      · exact ⟨k1, k2.self, (h1 hc).tame⟩
      · exact k3
  unary w u a hI ha := by
    show Res _ _ _ w (unary C u a w)
    unfold unary
    split
    · split
      · exact same_keep hI fun v h => by cases h; exact num_ok w _
      · split
        · exact same_keep hI fun v h => by cases h; exact num_ok w _
        · exact same_keep hI fun v h => by cases h; exact num_ok w _
        · exact fail_keep hI
    · exact fail_keep hI
  slice w v p q t hI hv := exec_keep hI fun hw hc hf => slice_okm hA hw (hv hc) hf
  build w k l hI hl := exec_keep hI fun hw hc hf => build_okm hw (fun v hv => hl v hv hc) hf.1 hf.2
  storeIdx w a l i v hI hl hi hv := storeIdx_keep a hI hl hi hv
  delIdx w l i hI hl hi := delIdx_keep hI hl hi
  call w f pos named hI hf ht hp hn := call_keep hA hI hf ht hp
  varAlloc w hI := by
    obtain ⟨a1, a2⟩ := alloc_keep hI
    obtain ⟨b1, b2⟩ := alloc_keep a2
    exact ⟨a1.trans b1, b2⟩
  frameAlloc w hI := alloc_keep hI
  iter w v i hI hv := iter_keep hA i hI hv
  cut w k x hx := by
    show MV C w (if 4 ≤ k then x.value else .num _)
    split
    · exact hx
    · exact num_ok w _

end Snek.Machine
