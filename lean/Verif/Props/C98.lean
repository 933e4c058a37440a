import Verif.Spec.Ops
import Verif.Proofs.MachTree
import Verif.Proofs.StoreSafe
import Verif.Proofs.DemoMachine
import Verif.Props.C03
import Verif.Props.C05
import Verif.Props.C10
import Verif.Props.C32
import Verif.Props.C35
import Verif.Props.C36
import Verif.Props.C52
import Verif.Props.C53
import Verif.Props.C55
import Verif.Props.C68
/-!
# C98: the operators and builtin functions of the running machine compute what the values say

The other claims speak about the operations one by one. Here they are those of the machine that runs the compiled code (`Machine.prim`, what
the theorems about programs are instantiated with): an operator of the source reaches the operation meant for it, with its operands in
order, gives its result, prints nothing and touches nothing else.
-/
namespace Snek.Machine
open Store (Val S Obj Unfolds UnfoldsL)
open Vm (Prim)
open Spec

variable {κ : Type} {C : Cfg κ} {sig : Nat → FuncSig} {code : Nat → List UInt8}

theorem run_some {w : World κ} {f : S → Option (Val × S)} {r : Val} {s' : S} (h : f { w.st with abort := false } = some (r, s')) :
    w.run f = (if s'.abort then none else some r, { w with st := s' }) := by
  unfold World.run; rw [h]

theorem exec_some {w : World κ} {o : Store.Op} {f : S → Option (Val × S)} {r : Val} {s' : S} (h : f { w.st with abort := false } = some (r, s')) :
    w.exec o f = (if s'.abort then none else some r, { (w.note (.op o { w.st with abort := false })) with st := s' }) :=
  run_some (w := w.note _) h

theorem quiet_note (w : World κ) (e : Ev) {s' : S} (h : s'.objs = w.st.objs) : Quiet w { (w.note e) with st := s' } := ⟨h, rfl, rfl, rfl⟩

/-- A world that is used nowhere but in its parts. -/
theorem ok_reset2 {s : S} (h : Store.Ok s) : Store.Ok { s with abort := false } := h

theorem gives_exec {w : World κ} {o : Store.Op} {f : S → Option (Val × S)} {r : Val} {s' : S} (h : f { w.st with abort := false } = some (r, s'))
    (ha : s'.abort = false) (ho : s'.objs = w.st.objs) : Gives w r (w.exec o f) := by
  rw [exec_some h, ha]
  exact ⟨rfl, quiet_note _ _ ho⟩

theorem refused_exec {w : World κ} {o : Store.Op} {f : S → Option (Val × S)} {r : Val} {s' : S} (h : f { w.st with abort := false } = some (r, s'))
    (ha : s'.abort = true) (ho : s'.objs = w.st.objs) : Refused w (w.exec o f) := by
  rw [exec_some h, ha]
  exact ⟨rfl, quiet_note _ _ ho⟩

theorem unf_num {objs : List Obj} {t : Tree} {u : BitVec 32} (h : Unfolds objs t (.num u)) : t = .num u := by
  cases t <;> simp only [Unfolds] at h
  · cases h; rfl
  all_goals first | (cases h; done) | (obtain ⟨_, h, _⟩ := h; cases h; done) | (obtain ⟨_, _, h, _⟩ := h; cases h; done)

theorem unf_str {objs : List Obj} {t : Tree} {i : Nat} (h : Unfolds objs t (.str i)) : ∃ s, t = .str s ∧ objs[i]? = some (.str s) := by
  cases t <;> simp only [Unfolds] at h
  case str s => obtain ⟨j, e, h⟩ := h; cases e; exact ⟨s, rfl, h⟩
  all_goals first | (cases h; done) | (obtain ⟨_, h, _⟩ := h; cases h; done) | (obtain ⟨_, _, h, _⟩ := h; cases h; done)

theorem unfL_length {objs : List Obj} : ∀ {l : List Tree} {vs : List Val}, UnfoldsL objs l vs → vs.length = l.length
  | [], [], _ => rfl
  | [], _ :: _, h => by simp [UnfoldsL] at h
  | _ :: _, [], h => by simp [UnfoldsL] at h
  | _ :: l, _ :: vs, h => by
    simp only [UnfoldsL] at h
    simp only [List.length_cons, unfL_length h.2]

/-! ## Comparisons -/

/-- `== != < > <= >=` on values other than `NaN`: what the order of the values says. Missing: pairs in which, somewhere inside, the left
list is a proper prefix of the right one (C03: they compare as equal). -/
theorem C98_compare_partial (c : Vm.CmpOp) (w : World κ) (a b : Val) (t t' : Tree) (ha : Unfolds w.st.objs t a) (hb : Unfolds w.st.objs t' b)
    (hst : Stored t) (hst' : Stored t') (hn : a ≠ .num NAN_U) (hn' : b ≠ .num NAN_U) (hp : ¬ PrefixClash t t') :
    ∃ r : Bool, (r = true ↔ Says c t t') ∧ (prim C sig code).rel (.cmp c) a b w = (some (Store.ofBool r), w) := by
  obtain ⟨h1, h2, h3⟩ := C03_lexicographic_partial t t' hst hst' hp
  have hnan : ∀ v : Val, v ≠ .num NAN_U → valNan v = false := by
    intro v hv
    cases v <;> simp_all [valNan, isNan]
  refine ⟨holds c (t.cmp t'), ?_, ?_⟩
  · cases c <;> simp only [holds, Says, decide_eq_true_eq, ← h1, ← h2, ← h3] <;> omega
  · show rel C (.cmp c) a b w = _
    simp only [rel, hnan a hn, hnan b hn', Bool.or_self, Bool.false_eq_true, if_false]
    rw [Store.hcmp_tree t t' ha hb (.nil _) (by simp)]

/-- `NaN` is unequal to everything and in no order with anything. -/
theorem C98_nan (c : Vm.CmpOp) (w : World κ) (a b : Val) (h : a = .num NAN_U ∨ b = .num NAN_U) :
    (prim C sig code).rel (.cmp c) a b w = (some (Store.ofBool (c = .ne)), w) := by
  show rel C (.cmp c) a b w = _
  have : (valNan a || valNan b) = true := by
    rcases h with rfl | rfl <;> simp [valNan, isNan]
  simp only [rel, this, if_true]

/-- `is` and `is not`. -/
theorem C98_is (w : World κ) (a b : Val) (t t' : Tree) (ha : Unfolds w.st.objs t a) (hb : Unfolds w.st.objs t' b) (hst : Stored t) (hst' : Stored t') :
    ∃ r : Bool, (r = true ↔ Identical w.st.objs a b) ∧ (prim C sig code).rel .is a b w = (some (Store.ofBool r), w) ∧
      (prim C sig code).rel .isNot a b w = (some (Store.ofBool (!r)), w) := by
  refine ⟨same w.st a b, ?_, rfl, rfl⟩
  unfold Identical
  cases a with
  | num u =>
    cases b with
    | num v =>
      cases unf_num ha
      cases unf_num hb
      have h := (C03_lexicographic_partial (.num u) (.num v) hst hst' (by simp [PrefixClash])).2.1
      simp only [same, decide_eq_true_eq]
      rw [show numCmp u v = Tree.cmp (.num u) (.num v) by simp only [Tree.cmp], h]
      constructor
      · exact fun h => .inr (.inl ⟨u, v, rfl, rfl, h⟩)
      · rintro (h | ⟨_, _, h1, h2, h⟩ | ⟨_, _, _, h, _⟩)
        · cases h; exact .inl rfl
        · cases h1; cases h2; exact h
        · cases h
    | _ => simp [same]
  | str i =>
    cases b with
    | str j =>
      obtain ⟨x, rfl, hx⟩ := unf_str ha
      obtain ⟨y, rfl, hy⟩ := unf_str hb
      simp only [same, decide_eq_true_eq, S.bytes, hx, hy, Option.some.injEq]
      constructor
      · rintro rfl; exact .inr (.inr ⟨i, j, _, rfl, rfl, hx, hy⟩)
      · rintro (h | ⟨_, _, h, _⟩ | ⟨_, _, s, h1, h2, h3, h4⟩)
        · cases h; rw [hx] at hy; cases hy; rfl
        · cases h
        · cases h1; cases h2; rw [hx] at h3; rw [hy] at h4; cases h3; cases h4; rfl
    | _ => simp [same]
  | _ => simp [same]

/-- `in` and `not in` for lists, tuples and dictionaries. -/
theorem C98_in (w : World κ) (hs : Store.Ok w.st) (a : Val) (j : Nat) (t : Tree) (ty : LType) (l : List Tree)
    (ha : Unfolds w.st.objs t a) (hj : Unfolds w.st.objs (.list ty l) (.list j)) (hst : Stored t) (hsl : StoredList l) :
    ∃ found : Bool, (found = true ↔ ∃ x ∈ Store.members ty l, Same t x) ∧
      Gives w (Store.ofBool found) ((prim C sig code).rel .isIn a (.list j) w) ∧
      Gives w (Store.ofBool (!found)) ((prim C sig code).rel .notIn a (.list j) w) := by
  obtain ⟨f, h1, h2, h3⟩ := Store.C53_container (A := C.A) (powf := C.powf) (fmt := fmtOf C) (any := C.any) (anyOff := C.anyOff)
    { w.st with abort := false } (ok_reset2 hs) a j t ty l ha hj hst hsl
  exact ⟨f, h1, gives_exec h2 rfl rfl, gives_exec h3 rfl rfl⟩

/-- `in` and `not in` for strings: the substring relation. -/
theorem C98_in_string (w : World κ) (i j : Nat) (a b : List UInt8) (hi : w.st.bytes i = some a) (hj : w.st.bytes j = some b) :
    ∃ found : Bool, (found = true ↔ ∃ p q, b = p ++ a ++ q) ∧
      Gives w (Store.ofBool found) ((prim C sig code).rel .isIn (.str i) (.str j) w) ∧
      Gives w (Store.ofBool (!found)) ((prim C sig code).rel .notIn (.str i) (.str j) w) := by
  obtain ⟨f, h1, h2, h3⟩ := Store.C53_string (E := env C) { w.st with abort := false } i j a b hi hj
  exact ⟨f, h1, gives_exec h2 rfl rfl, gives_exec h3 rfl rfl⟩

/-! ## Truth, negation -/

/-- What `if`, `while`, `and`, `or`, `not` and `assert` test. -/
theorem C98_truth (w : World κ) (hs : Store.Ok w.st) (v : Val) (t : Tree) (h : Unfolds w.st.objs t v) : (prim C sig code).truth w v = true ↔ Truthy t := by
  rw [← C55_truth t]
  show truth w v = true ↔ _
  cases t with
  | num u =>
    simp only [Unfolds] at h; subst h
    have e : fkey 0#32 = 0 := by decide
    have e2 : isNanF 0#32 = false := by decide
    simp only [truth, feq, Tree.truth, e, e2]
    cases isNanF u <;> simp [e, e2]
  | func i => simp only [Unfolds] at h; subst h; simp [truth, Tree.truth]
  | builtin i => simp only [Unfolds] at h; subst h; simp [truth, Tree.truth]
  | str s =>
    simp only [Unfolds] at h
    obtain ⟨i, rfl, h⟩ := h
    cases s <;> simp [truth, S.bytes, h, Tree.truth]
  | list ty l =>
    simp only [Unfolds] at h
    obtain ⟨i, o, rfl, h1, h2, h3⟩ := h
    obtain ⟨k1, k2, -⟩ := hs.1 i o (Store.lst_iff.2 h1)
    have hl := unfL_length h3
    rw [List.length_take, Nat.min_eq_left (by omega)] at hl
    simp only [truth, Store.lst_iff.2 h1, hl]
    cases l <;> simp [Tree.truth]

/-- `-x`. -/
theorem C98_negate (w : World κ) (u : BitVec 32) (hf : u.toNat % 2 ^ 31 < 0x7f800000) :
    ∃ v : BitVec 32, v.toNat % 2 ^ 31 < 0x7f800000 ∧ f32val v = -f32val u ∧ (prim C sig code).unary .uminus (.num u) w = (some (.num v), w) := by
  have hfin : isFin (fneg1 u) = true := by unfold fneg1; exact isFin_fmk _ _ hf
  have hv : (fneg1 u).toNat % 2 ^ 31 < 0x7f800000 := by simpa [isFin] using hfin
  have hn : isNanF (fneg1 u) = false := by unfold isNanF; exact decide_eq_false (by omega)
  refine ⟨fneg1 u, hv, by rw [fval_eq_spec, fval_eq_spec, fval_fneg1], ?_⟩
  show unary C .uminus (.num u) w = _
  simp only [unary, numUminus, floatToPoly, hn, Bool.false_eq_true, if_false]

/-- `~x` for a negative integer is `-x - 1`; for others see `C36_violated_lnot`. -/
theorem C98_complement_partial (w : World κ) (u : BitVec 32) (x : Int) (hu : Denotes u x) (hx : -2 ^ 24 ≤ x) (hneg : x < 0) :
    ∃ v, Denotes v (-x - 1) ∧ (prim C sig code).unary .lnot (.num u) w = (some (.num v), w) := by
  have hd : Denotes (intToF (-x - 1)) (-x - 1) := intToF_denotes ⟨by omega, by omega⟩
  refine ⟨_, hd, ?_⟩
  have hi : floatToInt u = some (some x) := floatToInt_int hu ⟨by omega, by omega⟩
  have hb : ((~~~ BitVec.ofInt 32 x).toNat : Int) = -x - 1 := by
    rw [BitVec.toNat_not, BitVec.toNat_ofInt]
    omega
  show unary C .lnot (.num u) w = _
  simp only [unary, numLnot, hi, hb, hd.toPoly]

/-- `-` and `~` of anything that is not a number are errors. -/
theorem C98_unary_refused (o : Vm.UnOp) (v : Val) (w : World κ) (h : ∀ u, v ≠ .num u) : (prim C sig code).unary o v w = (none, w) := by
  show unary C o v w = _
  cases v <;> first | rfl | exact absurd rfl (h _)

/-! ## Displays, elements -/

theorem imm_builds {E : Store.Env} {s : S} (hs : Store.Ok s) {t : LType} (ht : t ≠ .dict) {l : List Val} (hf : Store.Fits E l.length) :
    Store.MakesList s t l (Store.imm E s t l) := by
  have : Store.imm E s t l = ((Store.make E s (E.off l.length) t).bind fun p =>
      match p with
      | (none, s) => some (none, s)
      | (some i, s) => if l = [] then some (some i, s) else (Store.poke s i 0 l).map fun s => (some i, s)).bind fun p => some (Store.optList p.1, p.2) := by
    simp only [Store.imm, Option.bind_eq_bind, Option.pure_def]
    cases Store.make E s (E.off l.length) t with
    | none => rfl
    | some p =>
      obtain ⟨r, s1⟩ := p
      cases r with
      | none => rfl
      | some i =>
        simp only [Option.bind_some, if_neg ht]
        split
        · rfl
        · cases Store.poke s1 i 0 l <;> rfl
  rw [this]
  refine Store.Builds.makes ?_ fun s' h => ?_
  rotate_left
  · obtain ⟨⟨r, s1⟩, h1, h⟩ := Option.bind_eq_some_iff.1 h
    cases r with
    | none => exact Store.make_short h1
    | some i =>
      simp only [] at h
      split at h
      · simp at h
      · cases hp : Store.poke s1 i 0 l <;> simp [hp] at h
  rw [hf.off]
  obtain ⟨r, s1, h1, ⟨rfl, h2, h3⟩ | ⟨k, o, rfl, N, h2, h3, h4⟩⟩ := Store.make_new (E := E) (t := t) hs hf (fun h => absurd h ht)
  · rw [h1]
    exact ⟨_, _, rfl, h2, h2.ok hs, .inl ⟨rfl, h3⟩⟩
  · rw [h1]
    simp only [Option.bind_some]
    by_cases hl : l = []
    · subst hl
      rw [if_pos rfl]
      exact ⟨_, _, rfl, N.builds h2 (by rw [h3]; rfl)⟩
    · rw [if_neg hl]
      obtain ⟨s2, o2, p1, N2, p2, p3, p4⟩ := N.poke (p := 0) (src := l) (by omega)
      rw [p1]
      refine ⟨_, _, rfl, N2.builds (by rw [p2, h2]) ?_⟩
      rw [p4, p3, h3, List.take_zero, List.nil_append, List.take_append_of_le_length (by omega), List.take_of_length_le (by omega)]

theorem gives_list {w : World κ} {o : Store.Op} {f : S → Option (Val × S)} {t : LType} {l : List Val}
    (h : Store.MakesList { w.st with abort := false } t l (f { w.st with abort := false })) : GivesList w t l (w.exec o f) := by
  obtain ⟨r, s', h1, h2, h3⟩ := h
  rw [exec_some h1]
  refine ⟨⟨h2, rfl, rfl, rfl⟩, ?_⟩
  rcases h3 with ⟨-, h3, h4⟩ | ⟨k, rfl, h3, h4, h5⟩
  · left; rw [h3]; exact ⟨rfl, h4⟩
  · right; refine ⟨k, by rw [h3]; rfl, h4, h5⟩

/-- `[a, b, ...]` and `(a, b, ...)`: a new list or tuple of the values in order. -/
theorem C98_display (w : World κ) (hs : Store.Ok w.st) (l : List Val) (hf : Store.Fits (env C) l.length) :
    GivesList w .list l ((prim C sig code).build .list l w) ∧ GivesList w .tuple l ((prim C sig code).build .tuple l w) :=
  ⟨gives_list (imm_builds (ok_reset2 hs) (by decide) hf), gives_list (imm_builds (ok_reset2 hs) (by decide) hf)⟩

/-- `a + b` of lists or of tuples: a new one with the elements of both. -/
theorem C98_concat (w : World κ) (hs : Store.Ok w.st) (i j : Nat) (t : LType) (ht : t = .list ∨ t = .tuple) (l l' : List Val)
    (hi : w.st.elems i = some (t, l)) (hj : w.st.elems j = some (t, l')) (hf : Store.Fits (env C) (l.length + l'.length)) :
    ∃ v err w', (prim C sig code).arith .plus false (.list i) (.list j) w = (v, err, w') ∧
      GivesList w t (l ++ l') (if err then none else some v, w') := by
  obtain ⟨r, s', h1, h2, h3⟩ := Store.C10_plus (E := env C) { w.st with abort := false } (ok_reset2 hs) i j t ht l l' hi hj hf
  refine ⟨r, s'.abort, { (w.note (.op (.arith .plus false (.list i) (.list j)) { w.st with abort := false })) with st := s' }, ?_, ⟨h2, rfl, rfl, rfl⟩, ?_⟩
  · show (match Store.arith (env C) .plus false (.list i) (.list j) { w.st with abort := false } with | none => _ | some (v, s) => _) = _
    rw [h1]
  · rcases h3 with ⟨-, h3, h4⟩ | ⟨k, rfl, h3, h4, h5⟩
    · left; rw [h3]; exact ⟨rfl, h4⟩
    · right; refine ⟨k, by rw [h3]; rfl, h4, h5⟩

/-- `l += m` of lists: the object `l` itself gets the elements of `m`, or the allocator refuses, there is an error and nothing changes. -/
theorem C98_append (w : World κ) (hs : Store.Ok w.st) (i j : Nat) (l l' : List Val) (hi : w.st.elems i = some (.list, l))
    (hj : w.st.elems j = some (.list, l')) (hf : Store.Fits (env C) (l.length + l'.length)) :
    ∃ v err w', (prim C sig code).arith .plus true (.list i) (.list j) w = (v, err, w') ∧ w'.out = w.out ∧ w'.dev = w.dev ∧ w'.wild = w.wild ∧
      (∀ k, k ≠ i → w'.st.objs[k]? = w.st.objs[k]?) ∧
      ((err = true ∧ w'.st.objs = w.st.objs ∧ w.st.Short) ∨ (err = false ∧ v = .list i ∧ w'.st.elems i = some (.list, l ++ l'))) := by
  obtain ⟨r, s', h1, h2, h3, h4⟩ := Store.C10_append (E := env C) { w.st with abort := false } (ok_reset2 hs) i j l l' hi hj hf
  refine ⟨r, s'.abort, { (w.note (.op (.arith .plus true (.list i) (.list j)) { w.st with abort := false })) with st := s' }, ?_, rfl, rfl, rfl, h3, ?_⟩
  · show (match Store.arith (env C) .plus true (.list i) (.list j) { w.st with abort := false } with | none => _ | some (v, s) => _) = _
    rw [h1]
  · rcases h4 with ⟨-, h4, h5⟩ | ⟨rfl, h4, h5⟩
    · exact .inl ⟨h4, h5⟩
    · exact .inr ⟨h4, rfl, h5⟩

/-- `+`, `-` and `*` on integers, alone or in `+=` and the like: the integer, when it is at most 2^24 in magnitude. -/
theorem C98_arithmetic (w : World κ) (inPlace : Bool) (a b : BitVec 32) (x y : Int) (ha : Denotes a x) (hb : Denotes b y) :
    (Int24 (x + y) → ∃ u w', Denotes u (x + y) ∧ Quiet w w' ∧ (prim C sig code).arith .plus inPlace (.num a) (.num b) w = (.num u, false, w')) ∧
    (Int24 (x - y) → ∃ u w', Denotes u (x - y) ∧ Quiet w w' ∧ (prim C sig code).arith .minus inPlace (.num a) (.num b) w = (.num u, false, w')) ∧
    (Int24 (x * y) → ∃ u w', Denotes u (x * y) ∧ Quiet w w' ∧ (prim C sig code).arith .times inPlace (.num a) (.num b) w = (.num u, false, w')) := by
  obtain ⟨h1, h2, h3⟩ := C35_ring C.powf a b x y ha hb
  have key : ∀ (op : BinOp) (u : BitVec 32), numBinary C.powf op a b = .ok u →
      ∃ w', Quiet w w' ∧ (prim C sig code).arith op inPlace (.num a) (.num b) w = (.num u, false, w') := by
    intro op u h
    refine ⟨{ (w.note (.op (.arith op inPlace (.num a) (.num b)) { w.st with abort := false })) with st := { w.st with abort := false } },
      quiet_note _ _ rfl, ?_⟩
    show (match Store.arith (env C) op inPlace (.num a) (.num b) { w.st with abort := false } with | none => _ | some (v, s) => _) = _
    have : Store.arith (env C) op inPlace (.num a) (.num b) { w.st with abort := false } = some (.num u, { w.st with abort := false }) := by
      simp only [Store.arith, env, Store.Env.real, h]
    rw [this]
  refine ⟨fun h => ?_, fun h => ?_, fun h => ?_⟩
  · obtain ⟨u, e, hu⟩ := h1 h; obtain ⟨w', q, e⟩ := key _ u e; exact ⟨u, w', hu, q, e⟩
  · obtain ⟨u, e, hu⟩ := h2 h; obtain ⟨w', q, e⟩ := key _ u e; exact ⟨u, w', hu, q, e⟩
  · obtain ⟨u, e, hu⟩ := h3 h; obtain ⟨w', q, e⟩ := key _ u e; exact ⟨u, w', hu, q, e⟩

/-- `l[k]`. -/
theorem C98_index (hA : C.A.Valid) (w : World κ) (hs : Store.Ok w.st) (i : Nat) (t : LType) (l : List Val) (hl : w.st.elems i = some (t, l))
    (ht : t = .list ∨ t = .tuple) (hb : l.length < 2 ^ C.A.offBits) (u : BitVec 32) (k : Int) (hu : Denotes u k)
    (h1 : -(2 ^ (C.A.offBits - 1)) ≤ k) (h2 : k < 2 ^ (C.A.offBits - 1)) :
    match Store.elemAt l k with
    | some v => Gives w v ((prim C sig code).index (.list i) (.num u) w)
    | none => Refused w ((prim C sig code).index (.list i) (.num u) w) := by
  have h := Store.C05_list_get (E := env C) hA { w.st with abort := false } (ok_reset2 hs) i t l hl ht hb u k hu h1 h2
  cases he : Store.elemAt l k with
  | some v => rw [he] at h; exact gives_exec h rfl rfl
  | none => rw [he] at h; exact refused_exec h rfl rfl

/-- `l[k] = v`: that element of the object, and nothing else, is replaced; or there is no such element, an error. -/
theorem C98_store (hA : C.A.Valid) (w : World κ) (hs : Store.Ok w.st) (i : Nat) (l : List Val) (hl : w.st.elems i = some (.list, l))
    (hb : l.length < 2 ^ C.A.offBits) (u : BitVec 32) (k : Int) (hu : Denotes u k)
    (h1 : -(2 ^ (C.A.offBits - 1)) ≤ k) (h2 : k < 2 ^ (C.A.offBits - 1)) (v : Val) :
    match Store.elemAt l k with
    | some _ => ∃ w', (prim C sig code).storeIdx .plain (.list i) (.num u) v w = (some v, w') ∧ w'.st.elems i = some (.list, Store.setAt l k v) ∧
        (∀ j, j ≠ i → w'.st.objs[j]? = w.st.objs[j]?) ∧ w'.out = w.out ∧ w'.dev = w.dev ∧ w'.wild = w.wild
    | none => Refused w ((prim C sig code).storeIdx .plain (.list i) (.num u) v w) := by
  have h := Store.C05_list_store (E := env C) hA { w.st with abort := false } (ok_reset2 hs) i l hl hb u k hu h1 h2 v
  cases he : Store.elemAt l k with
  | some x =>
    rw [he] at h
    obtain ⟨s', e1, e2, e3, e4⟩ := h
    have hr := exec_some (w := w) (o := .store (.list i) (.num u) v) (f := fun s => (Store.storeElem (env C) (.list i) (.num u) v s).map fun s => (v, s))
      (r := v) (s' := s') (by simp only [e1, Option.map_some])
    rw [e3] at hr
    exact ⟨_, hr, e2, e4, rfl, rfl, rfl⟩
  | none =>
    rw [he] at h
    exact refused_exec (f := fun s => (Store.storeElem (env C) (.list i) (.num u) v s).map fun s => (v, s))
      (r := v) (s' := { w.st with abort := true }) (by simp only [h, Option.map_some]; rfl) rfl rfl

/-- `del l[k]`. -/
theorem C98_delete (hA : C.A.Valid) (w : World κ) (hs : Store.Ok w.st) (i : Nat) (l : List Val) (hl : w.st.elems i = some (.list, l))
    (hb : l.length < 2 ^ C.A.offBits) (u : BitVec 32) (k : Int) (hu : Denotes u k)
    (h1 : -(2 ^ (C.A.offBits - 1)) ≤ k) (h2 : k < 2 ^ (C.A.offBits - 1)) :
    match Store.elemAt l k with
    | some _ => ∃ w', (prim C sig code).delIdx (.list i) (.num u) w = (true, w') ∧ w'.st.elems i = some (.list, Store.delAt l k) ∧
        (∀ j, j ≠ i → w'.st.objs[j]? = w.st.objs[j]?) ∧ w'.out = w.out ∧ w'.dev = w.dev ∧ w'.wild = w.wild
    | none => ∃ w', (prim C sig code).delIdx (.list i) (.num u) w = (false, w') ∧ Quiet w w' := by
  have h := Store.C05_list_del (E := env C) hA { w.st with abort := false } (ok_reset2 hs) i l hl hb u k hu h1 h2
  cases he : Store.elemAt l k with
  | some x =>
    rw [he] at h
    obtain ⟨s', e1, e2, e3, e4⟩ := h
    have hr := exec_some (w := w) (o := .del (.list i) (.num u)) (f := fun s => (Store.delElem (env C) (.list i) (.num u) s).map fun s => (Val.none, s))
      (r := Val.none) (s' := s') (by simp only [e1, Option.map_some])
    rw [e3] at hr
    refine ⟨{ (w.note (.op (.del (.list i) (.num u)) { w.st with abort := false })) with st := s' }, ?_, e2, e4, rfl, rfl, rfl⟩
    show delIdx C _ _ _ = _
    unfold delIdx
    rw [hr]; rfl
  | none =>
    rw [he] at h
    have hr := exec_some (w := w) (o := .del (.list i) (.num u)) (f := fun s => (Store.delElem (env C) (.list i) (.num u) s).map fun s => (Val.none, s))
      (r := Val.none) (s' := { w.st with abort := true }) (by simp only [h, Option.map_some]; rfl)
    refine ⟨_, ?_, quiet_note w (.op (.del (.list i) (.num u)) { w.st with abort := false }) (s' := { w.st with abort := true }) rfl⟩
    show delIdx C _ _ _ = _
    unfold delIdx
    rw [hr]; rfl

/-! ## Calls of builtin functions -/

/-- The name of a builtin function gives a value that calls the function of this name. -/
theorem call_eq {x : Nat} {pos named : List Val} {w : World κ} (hx : 0 < x) (hm : x < C.builtinMax) :
    (prim C sig code).callBuiltin (.builtin (4 * x)) pos named w = (match C.table x with
    | .const _ => (none, { (w.note (.call (4 * x))) with wild := true })
    | .print => print C pos named (w.note (.call (4 * x)))
    | .other none => callOther C x pos named (w.note (.call (4 * x)))
    | .other (some n) => if pos.length ≠ n ∨ named ≠ [] then (none, w.note (.call (4 * x))) else callOther C x pos named (w.note (.call (4 * x)))
    | b =>
      match pos, named with
      | [v], [] => call1 C b v (w.note (.call (4 * x)))
      | _, _ => (none, w.note (.call (4 * x)))) := by
  have e : 4 * x / 4 = x := by omega
  show callBuiltin C (.builtin (4 * x)) pos named w = _
  unfold callBuiltin
  simp only [Val.ref, e, if_neg (show ¬ (x = 0 ∨ C.builtinMax ≤ x) by omega)]
  rfl

/-- A number in the table of builtins is a function or a constant; the name of a function is the value that calls it. -/
theorem C98_names (x : Nat) : (∀ v, C.table x = .const v → (prim C sig code).builtinVal x = match v with | none => Val.none | some u => .num u) ∧
    ((∀ v, C.table x ≠ .const v) → (prim C sig code).builtinVal x = .builtin (4 * x)) := by
  constructor
  · intro v h
    show builtinVal C x = _
    unfold builtinVal
    rw [h]
    cases v <;> rfl
  · intro h
    show builtinVal C x = _
    unfold builtinVal
    cases hx : C.table x <;> first | rfl | exact absurd hx (h _)

/-- `print(a, b, ...)` writes the texts of its arguments with one blank between them, then a newline, after what was printed before, and
gives `None`. -/
theorem C98_print (w : World κ) (x : Nat) (hx : 0 < x) (hm : x < C.builtinMax) (ht : C.table x = .print) (args : List Val) (ts : List Tree)
    (ha : UnfoldsL w.st.objs ts args) (texts : List (List UInt8)) (h : ts.map (Format.fmt C.L 115) = texts.map some) :
    ∃ w', (prim C sig code).callBuiltin (.builtin (4 * x)) args [] w = (some Val.none, w') ∧ w'.st.objs = w.st.objs ∧
      w'.out = w.out ++ [32].intercalate texts ++ [10] ∧ w'.dev = w.dev ∧ w'.wild = w.wild := by
  rw [call_eq hx hm, ht]
  have h1 : args.mapM (tree (w.note (.call (4 * x))).st.objs) = some ts := tree_unfoldsL ha
  refine ⟨{ (w.note (.call (4 * x))) with out := w.out ++ ([32].intercalate texts ++ [10]) }, ?_, rfl, by simp only [List.append_assoc], rfl, rfl⟩
  simp only [print, h1, Vm.pairUp, List.mapM_nil, Option.pure_def, Builtin.C68_print C.L C.endId ts texts h]
  rfl

theorem newStr_gives {w : World κ} {b : List UInt8} (hb : b.length + 1 < 2 ^ C.A.offBits) :
    GivesStr w b (w.run fun s => Store.newStr (env C) s b) := by
  have ho : (env C).off (b.length + 1) = b.length + 1 := Store.off_lt hb
  cases hm : w.st.mem w.st.clock (b.length + 1) with
  | false =>
    have h : Store.newStr (env C) { w.st with abort := false } b = some (Val.none, ({ w.st with abort := false } : S).ask (b.length + 1) |>.2) := by
      simp only [Store.newStr, ho, S.ask, hm, Bool.not_false, if_true]
    rw [run_some (w := w) (f := fun s => Store.newStr (env C) s b) h]
    refine ⟨⟨List.prefix_refl _, rfl, rfl, rfl⟩, .inl ⟨?_, hm⟩⟩
    simp only [S.ask, hm, Bool.not_false, Bool.or_true, if_true]
  | true =>
    have h : Store.newStr (env C) { w.st with abort := false } b =
        some (.str w.st.objs.length, (({ w.st with abort := false } : S).ask (b.length + 1)).2.push (.str b)) := by
      simp only [Store.newStr, ho, S.ask, hm, Bool.not_true, Bool.false_eq_true, if_false, Nat.lt_irrefl]
    rw [run_some (w := w) (f := fun s => Store.newStr (env C) s b) h]
    refine ⟨⟨List.prefix_append _ _, rfl, rfl, rfl⟩, .inr ⟨w.st.objs.length, ?_, Nat.le_refl _, ?_⟩⟩
    · simp only [S.push, S.ask, hm, Bool.not_true, Bool.or_self, Bool.false_eq_true, if_false]
    · simp [S.push, S.ask, S.bytes]

/-- `str(v)`: a new string with the text of the value, as `print` writes it. -/
theorem C98_str (w : World κ) (x : Nat) (hx : 0 < x) (hm : x < C.builtinMax) (ht : C.table x = .str) (v : Val) (t : Tree)
    (hv : Unfolds w.st.objs t v) (b : List UInt8) (h : Format.fmt C.L 115 t = some b) (hb : b.length + 1 < 2 ^ C.A.offBits) :
    GivesStr w b ((prim C sig code).callBuiltin (.builtin (4 * x)) [v] [] w) := by
  rw [call_eq hx hm, ht]
  have h1 : tree (w.note (.call (4 * x))).st.objs v = some t := tree_unfolds hv
  simp only [call1, h1, h]
  obtain ⟨h2, h3⟩ := newStr_gives (C := C) (w := (w.note (.call (4 * x))).note (.text b)) hb
  exact ⟨⟨h2.objs, h2.out, h2.dev, h2.wild⟩, h3⟩

/-- `len(v)`: the characters of a string, the elements of a list or tuple, the keys of a dictionary. -/
theorem C98_len (w : World κ) (hs : Store.Ok w.st) (x : Nat) (hx : 0 < x) (hm : x < C.builtinMax) (ht : C.table x = .len) (v : Val) (n : Nat) (hn : n ≤ 2 ^ 24)
    (hv : (∃ i b, v = .str i ∧ w.st.bytes i = some b ∧ n = b.length) ∨
      (∃ i ty l, v = .list i ∧ w.st.elems i = some (ty, l) ∧ ty ≠ .dict ∧ n = l.length) ∨
      (∃ i l, v = .list i ∧ w.st.elems i = some (.dict, l) ∧ l.length = 2 * n)) :
    ∃ u, Denotes u n ∧ Gives w (.num u) ((prim C sig code).callBuiltin (.builtin (4 * x)) [v] [] w) := by
  rw [call_eq hx hm, ht]
  have hd : Denotes (intToF n) n := intToF_denotes ⟨by omega, by omega⟩
  have hl : Store.len w.st v = some n := by
    rcases hv with ⟨i, b, rfl, h, rfl⟩ | ⟨i, ty, l, rfl, h, h2, rfl⟩ | ⟨i, l, rfl, h, h2⟩
    · exact Store.C52_len _ _ _ h
    · obtain ⟨o, ho, h1, h3, h4⟩ := Store.elems_obj hs h
      simp only [Store.len, ho, Option.bind_eq_bind, Option.bind_some, h1, if_neg h2, Option.pure_def, h4]
    · obtain ⟨o, ho, h1, h3, h4⟩ := Store.elems_obj hs h
      simp only [Store.len, ho, Option.bind_eq_bind, Option.bind_some, h1, if_true, Option.pure_def, ← h4, h2]
      congr 1; omega
  refine ⟨_, hd, ?_⟩
  have hl2 : Store.len (w.note (.call (4 * x))).st v = some n := hl
  simp only [call1, hl2, num, hd.ofF]
  exact ⟨rfl, ⟨rfl, rfl, rfl, rfl⟩⟩

/-- `chr(n)` for 1 … 255: a new string of this byte. -/
theorem C98_chr (hA : C.A.Valid) (w : World κ) (x : Nat) (hx : 0 < x) (hm : x < C.builtinMax) (ht : C.table x = .chr) (n : Nat) (h0 : 0 < n) (hn : n ≤ 255)
    (u : BitVec 32) (hu : Denotes u n) : GivesStr w [.ofNat n] ((prim C sig code).callBuiltin (.builtin (4 * x)) [.num u] [] w) := by
  rw [call_eq hx hm, ht]
  have hW : 16 ≤ C.A.offBits := hA.1
  have e : fToInt C.A.offBits u = some (n : Int) := by
    have e : ftrunc u = n := by unfold ftrunc; rw [hu.val]; exact Int.mul_tdiv_cancel _ (by decide)
    have hp : (2:Int) ^ 15 ≤ 2 ^ (C.A.offBits - 1) := by
      have := Nat.pow_le_pow_right (n := 2) (by decide) (show 15 ≤ C.A.offBits - 1 by omega)
      exact_mod_cast this
    unfold fToInt
    rw [e, if_pos ⟨hu.fin, by omega, by omega⟩]
  have e2 : (Store.soff (env C) (.num u)).1 = n := by
    show (fToInt C.A.offBits u).getD _ = _
    rw [e]; rfl
  have h2 : ((n : Int) % 256).toNat = n := by omega
  have h3 : ¬ (n : Int) % 256 = 0 := by omega
  simp only [call1, e2, h2, if_neg h3]
  obtain ⟨k1, k2⟩ := newStr_gives (C := C) (w := w.note (.call (4 * x))) (b := [.ofNat n])
    (by have := Nat.pow_le_pow_right (n := 2) (by decide) hW; simp only [List.length_singleton]; omega)
  exact ⟨⟨k1.objs, k1.out, k1.dev, k1.wild⟩, k2⟩

/-- `ord(s)` of a string that begins with a byte below 128. -/
theorem C98_ord_partial (w : World κ) (x : Nat) (hx : 0 < x) (hm : x < C.builtinMax) (ht : C.table x = .ord) (i : Nat) (c : UInt8) (s : List UInt8)
    (hi : w.st.bytes i = some (c :: s)) (hc : c < 128) :
    ∃ u, Denotes u c.toNat ∧ Gives w (.num u) ((prim C sig code).callBuiltin (.builtin (4 * x)) [.str i] [] w) := by
  rw [call_eq hx hm, ht]
  have hlt := c.toNat_lt
  have hd : Denotes (intToF c.toNat) c.toNat := intToF_denotes ⟨by omega, by omega⟩
  refine ⟨_, hd, ?_⟩
  have hi2 : (w.note (.call (4 * x))).st.bytes i = some (c :: s) := hi
  have he : (if C.signedChar then Format.charInt ((c :: s).headD 0) else ((c :: s).headD 0).toNat : Int) = c.toNat := by
    simp only [List.headD_cons, Format.charInt, hc, if_true, ite_self]
  simp only [call1, hi2, he, num, hd.ofF]
  exact ⟨rfl, ⟨rfl, rfl, rfl, rfl⟩⟩

/-- `abs(x)` of a finite number. -/
theorem C98_abs (w : World κ) (x : Nat) (hx : 0 < x) (hm : x < C.builtinMax) (ht : C.table x = .abs) (u : BitVec 32) (hf : u.toNat % 2 ^ 31 < 0x7f800000) :
    ∃ v : BitVec 32, v.toNat < 0x7f800000 ∧ f32val v = (f32val u).natAbs ∧
      Gives w (.num v) ((prim C sig code).callBuiltin (.builtin (4 * x)) [.num u] [] w) := by
  rw [call_eq hx hm, ht]
  obtain ⟨v, h1, h2, h3⟩ := Builtin.C68_abs u hf
  refine ⟨v, h2, h3, ?_⟩
  simp only [Builtin.abs, Option.some.injEq, Tree.num.injEq] at h1
  simp only [call1, num, Val.ofF, h1]
  exact ⟨rfl, ⟨rfl, rfl, rfl, rfl⟩⟩

/-- `int(x)` of a finite number: the next integer toward zero. -/
theorem C98_int (w : World κ) (x : Nat) (hx : 0 < x) (hm : x < C.builtinMax) (ht : C.table x = .int) (u : BitVec 32) (hf : u.toNat % 2 ^ 31 < 0x7f800000) :
    ∃ (v : BitVec 32) (i : Int), Denotes v i ∧ i.natAbs * 2 ^ 149 ≤ (f32val u).natAbs ∧ (f32val u).natAbs < (i.natAbs + 1) * 2 ^ 149 ∧
      (0 ≤ f32val u → 0 ≤ i) ∧ (f32val u ≤ 0 → i ≤ 0) ∧
      Gives w (.num v) ((prim C sig code).callBuiltin (.builtin (4 * x)) [.num u] [] w) := by
  rw [call_eq hx hm, ht]
  obtain ⟨i, h1, h2, h3, h4, h5⟩ := Builtin.C68_int u hf
  refine ⟨_, i, h1, h2, h3, h4, h5, ?_⟩
  have hp : floatToPoly u = u := by rw [floatToPoly, show isNanF u = false by unfold isNanF; exact decide_eq_false (by omega)]; rfl
  simp only [call1, num, Val.ofF, Builtin.int, hp]
  exact ⟨rfl, ⟨rfl, rfl, rfl, rfl⟩⟩

/-- A call of one of these with another number of arguments, or with a named one, is an error that changes nothing. -/
theorem C98_arity (w : World κ) (x : Nat) (hx : 0 < x) (hm : x < C.builtinMax) (ht : C.table x ∈ [Bi.len, .ord, .chr, .abs, .int, .float, .str])
    (pos named : List Val) (h : pos.length ≠ 1 ∨ named ≠ []) : Refused w ((prim C sig code).callBuiltin (.builtin (4 * x)) pos named w) := by
  rw [call_eq hx hm]
  have hq : Refused w ((none, w.note (.call (4 * x))) : Option Val × World κ) := ⟨rfl, ⟨rfl, rfl, rfl, rfl⟩⟩
  have key : ∀ b : Bi, (match pos, named with
      | [v], [] => call1 C b v (w.note (.call (4 * x)))
      | _, _ => (none, w.note (.call (4 * x)))) = (none, w.note (.call (4 * x))) := by
    intro b
    rcases pos with _ | ⟨a, _ | ⟨a', l⟩⟩ <;> rcases named with _ | ⟨c, m⟩ <;> simp_all
  simp only [List.mem_cons, List.not_mem_nil, or_false] at ht
  rcases ht with ht | ht | ht | ht | ht | ht | ht <;> (rw [ht]; simp only []; rw [key]; exact hq)

/-- A function of the board that takes a fixed number of arguments is called with exactly that many, and its devices are not touched otherwise. -/
theorem C98_device_arity (w : World κ) (x n : Nat) (hx : 0 < x) (hm : x < C.builtinMax) (ht : C.table x = .other (some n)) (pos named : List Val)
    (h : pos.length ≠ n ∨ named ≠ []) : Refused w ((prim C sig code).callBuiltin (.builtin (4 * x)) pos named w) := by
  rw [call_eq hx hm, ht]
  simp only [if_pos h]
  exact ⟨rfl, ⟨rfl, rfl, rfl, rfl⟩⟩

/-- Calling a value such as `None`, whose number is not that of an entry, reads outside of the table of builtins (the machine records it; what
the real code does then depends on what is there). -/
theorem C98_violated_outside (w : World κ) (f : Val) (pos named : List Val) (h : f.ref / 4 = 0 ∨ C.builtinMax ≤ f.ref / 4) :
    ((prim C sig code).callBuiltin f pos named w).1 = none ∧ ((prim C sig code).callBuiltin f pos named w).2.wild = true := by
  show (callBuiltin C f pos named w).1 = none ∧ (callBuiltin C f pos named w).2.wild = true
  unfold callBuiltin
  simp only [if_pos h, and_self]

/-! ## Iteration -/

/-- `for x in l` visits the elements of the list or tuple (up to one that is `None`), as long as it is not changed. -/
theorem C98_for_list (k : Nat) (t : LType) (ht : t ≠ .dict) (l : List Val) (hlen : (l.length : Int) < 2 ^ (8 * (C.A.offBits / 8))) :
    Lang.Elements (prim C sig code) (fun w => w.st.elems k = some (t, l)) (fun e v _ => v = e) (.list k) (l.takeWhile (· ≠ Val.none)) := by
  refine (Lang.C32_list (P := prim C sig code) (fun w h => h) hlen fun w i h => ?_).1
  obtain ⟨o, ho, h⟩ := Option.map_eq_some_iff.1 h
  cases h
  show iter C (.list k) i w = _
  simp only [iter, ho, ht, decide_false]
  rfl

/-- `for x in d` visits the keys of the dictionary. -/
theorem C98_for_dict (k : Nat) (l : List Val) (hlen : (l.length : Int) < 2 ^ (8 * (C.A.offBits / 8))) (heven : l.length % 2 = 0)
    (hnone : Val.none ∉ Lang.keysOf l) :
    Lang.Elements (prim C sig code) (fun w => w.st.elems k = some (.dict, l)) (fun e v _ => v = e) (.list k) (Lang.keysOf l) := by
  refine Lang.C32_dict (P := prim C sig code) (fun w h => h) hlen heven hnone fun w i h => ?_
  obtain ⟨o, ho, h⟩ := Option.map_eq_some_iff.1 h
  simp only [Prod.mk.injEq] at h
  show iter C (.list k) i w = _
  simp only [iter, ho, h.1, h.2, decide_true]
  rfl

/-- `for c in s` visits the characters of the string, as strings of one character, while there is memory for them. -/
theorem C98_for_string (hA : C.A.Valid) (k : Nat) (b : List UInt8) (hlen : (b.length : Int) < 2 ^ (8 * (C.A.offBits / 8))) :
    Lang.Elements (prim C sig code) (fun w => w.st.bytes k = some b ∧ ∀ t n, w.st.mem t n = true)
      (fun c v w => ∃ i, v = .str i ∧ w.st.bytes i = some [c]) (.str k) b := by
  refine Lang.C32_string (P := prim C sig code) (fun w h => h) hlen fun w i h => ?_
  cases hc : Vm.stringAt (prim C sig code).W b i with
  | none =>
    show iter C (.str k) i w = _
    simp only [iter, h.1]
    rw [show Vm.stringAt (C.A.offBits / 8) b i = none from hc]
  | some c =>
    have hb : [c].length + 1 < 2 ^ C.A.offBits := by
      have hW : 16 ≤ C.A.offBits := hA.1
      have := Nat.pow_le_pow_right (n := 2) (by decide) hW; simp only [List.length_singleton]; omega
    have ho : (env C).off ([c].length + 1) = [c].length + 1 := Store.off_lt hb
    have hn : Store.newStr (env C) { w.st with abort := false } [c] =
        some (.str w.st.objs.length, (({ w.st with abort := false } : S).ask ([c].length + 1)).2.push (.str [c])) := by
      simp only [Store.newStr, ho, S.ask, h.2, Bool.not_true, Bool.false_eq_true, if_false, Nat.lt_irrefl]
    refine ⟨.str w.st.objs.length, { w with st := (({ w.st with abort := false } : S).ask ([c].length + 1)).2.push (.str [c]) }, ?_, by simp [Val.none], ⟨?_, h.2⟩, _, rfl, ?_⟩
    · show iter C (.str k) i w = _
      simp only [iter, h.1]
      rw [show Vm.stringAt (C.A.offBits / 8) b i = some c from hc]
      simp only []
      rw [run_some (w := w) (f := fun s => Store.newStr (env C) s [c]) hn]
      simp only [S.push, S.ask, h.2, Bool.not_true, Bool.or_self, Bool.false_eq_true, if_false]
    · have hk := h.1
      have hlt : k < w.st.objs.length := by
        unfold S.bytes at hk
        split at hk
        · rename_i e; exact (List.getElem?_eq_some_iff.1 e).1
        · cases hk
      unfold S.bytes at hk ⊢
      simp only [S.push, S.ask]
      rw [List.getElem?_append_left hlt]; exact hk
    · simp [prim, World.alloc, S.push, S.ask, S.bytes]

/-! ## Concrete cases -/

section
open Demo

/-- `[1, 'hi']`, `'hi'`, `(2,)` in memory. -/
def demoW : World Unit := ⟨⟨[.str [104, 105], .list ⟨.list, 2, 3, [.num (Lang.Demo.lit 1), .str 0, Val.zero]⟩, .list ⟨.tuple, 1, 1, [.num (Lang.Demo.lit 2)]⟩],
  none, fun _ _ => true, 0, false⟩, [62], (), false, []⟩

example : Unfolds demoW.st.objs (.list .list [.num (Lang.Demo.lit 1), .str [104, 105]]) (.list 1) := by
  simp [Unfolds, UnfoldsL, demoW]

example : Stored (.list .list [.num (Lang.Demo.lit 1), .str [104, 105]]) ∧ ¬ PrefixClash (.list .list [.num (Lang.Demo.lit 1), .str [104, 105]]) (.str [104, 105]) := by
  refine ⟨by simp [Stored, StoredList]; decide +kernel, by simp [PrefixClash]⟩

/-- `1 < 2`, `2 <= 1`, `'hi' in [1, 'hi']`, `'hi' is 'hi'`. -/
example : (P.rel (.cmp .lt) (.num (Lang.Demo.lit 1)) (.num (Lang.Demo.lit 2)) demoW).1 = some (Store.ofBool true) ∧
    (P.rel (.cmp .le) (.num (Lang.Demo.lit 2)) (.num (Lang.Demo.lit 1)) demoW).1 = some (Store.ofBool false) ∧
    (P.rel .isIn (.str 0) (.list 1) demoW).1 = some (Store.ofBool true) ∧ (P.rel .is (.str 0) (.str 0) demoW).1 = some (Store.ofBool true) := by
  decide +kernel

/-- `print(1, 'hi')` after a prompt. -/
example : (P.callBuiltin (.builtin 4) [.num (Lang.Demo.lit 1), .str 0] [] demoW).2.out = [62, 49, 32, 104, 105, 10] := by decide +kernel

/-- The hypotheses of `C98_print` for it. -/
example : UnfoldsL demoW.st.objs [.num (Lang.Demo.lit 1), .str [104, 105]] [.num (Lang.Demo.lit 1), .str 0] ∧
    [Tree.num (Lang.Demo.lit 1), .str [104, 105]].map (Format.fmt cfg.L 115) = [[49], [104, 105]].map some := by
  refine ⟨by simp [UnfoldsL, Unfolds, demoW], by decide +kernel⟩

/-- `-1`, `[1, 'hi'][1]`, `len([1, 'hi'])`. -/
example : (P.unary .uminus (.num (Lang.Demo.lit 1)) demoW).1 = some (.num 0xbf800000) ∧ (P.index (.list 1) (.num (Lang.Demo.lit 1)) demoW).1 = some (.str 0) ∧
    (P.callBuiltin (.builtin 8) [.list 1] [] demoW).1 = some (.num (Lang.Demo.lit 2)) := by decide +kernel

example : demoW.st.elems 1 = some (.list, [.num (Lang.Demo.lit 1), .str 0]) := by decide +kernel

end

end Snek.Machine
