import Verif.Spec.NoGc
import Verif.Proofs.StoreFrame
/-!
# How a pool with addresses represents numbered objects
-/
namespace Snek.Ptr
open Store (Val S Obj LObj Env lst_iff bytes_iff)

/-- Roots by number. -/
def V.roots (v : V) : List Val := v.stk ++ v.acc :: v.ext ++ v.s.empty.toList.map .list

/-- Objects reachable from the roots and the values `loc`; slots in `H` are not looked at. -/
inductive R (v : V) (loc : List Val) (H : Nat → Nat → Prop) : Nat → Prop
  | root {x : Val} {i : Nat} : x ∈ v.roots ++ loc → addr x = some i → R v loc H i
  | elem {i j m : Nat} {o : LObj} {x : Val} : R v loc H i → v.s.lst i = some o → m < o.size → ¬H i m → o.data[m]? = some x →
      addr x = some j → R v loc H j

/-- Nothing left out. -/
def none2 : Nat → Nat → Prop := fun _ _ => False

/-- Two storages hold the same up to `n`, except in `bad`. -/
def Agree (φ : Nat → Nat) (bad : Nat → Prop) (n : Nat) (l data : List Val) : Prop :=
  l.length = data.length ∧ ∀ m, m < n → ¬bad m → l[m]? = (data[m]?).map (ren φ)

/-- The list at an address is list `o`. -/
structure HoldsL (φ : Nat → Nat) (d : Nat) (bad : Nat → Prop) (o : LObj) (p : P) (a : Nat) (h : Head) (l : List Val) : Prop where
  hd : p.hd a = some h
  type : h.type = o.type
  size : h.size = o.size
  alloc : h.alloc = o.alloc
  data : o.alloc ≠ 0 → h.data = d
  wds : p.wds h = some l
  agree : Agree φ bad o.size l o.data

/-- The object at an address is object `i`. -/
def Holds (φ δ : Nat → Nat) (H : Nat → Nat → Prop) (s : S) (p : P) (i : Nat) : Prop :=
  match s.objs[i]? with
  | some (.str b) => p.blk (φ i) = some (.str b)
  | some (.list o) => ∃ h l, HoldsL φ (δ i) (H i) o p (φ i) h l
  | none => False

/-- Representation: `φ` says where objects are, `δ` where the storage of lists is. -/
structure Sim (φ δ : Nat → Nat) (v : V) (loc : List Val) (H : Nat → Nat → Prop) (p : P) : Prop where
  stack : p.stack = v.stk.map (ren φ)
  acc : p.acc = ren φ v.acc
  ext : p.ext = v.ext.map (ren φ)
  empty : p.empty = v.s.empty.map φ
  mem : p.mem = v.s.mem
  clock : p.clock = v.s.clock
  abort : p.abort = v.s.abort
  cap : p.cap = v.cap
  n : p.n = v.s.objs.length
  obj : ∀ i, R v loc H i → Holds φ δ H v.s p i
  injO : ∀ i j, R v loc H i → R v loc H j → φ i = φ j → i = j
  injD : ∀ i j o o', R v loc H i → R v loc H j → v.s.lst i = some o → v.s.lst j = some o' → o.alloc ≠ 0 → o'.alloc ≠ 0 →
    δ i = δ j → i = j
  sep : ∀ i j o, R v loc H i → R v loc H j → v.s.lst j = some o → o.alloc ≠ 0 → φ i ≠ δ j

/-- A value that refers to reachable objects only. -/
def Ok (v : V) (loc : List Val) (H : Nat → Nat → Prop) (x : Val) : Prop := ∀ i, addr x = some i → R v loc H i

/-- An address that is not in use. -/
def Unused (φ δ : Nat → Nat) (v : V) (loc : List Val) (H : Nat → Nat → Prop) (a : Nat) : Prop :=
  ∀ i, R v loc H i → φ i ≠ a ∧ ∀ o, v.s.lst i = some o → o.alloc ≠ 0 → δ i ≠ a

variable {φ δ ρ : Nat → Nat} {v v' : V} {loc loc' : List Val} {H H' : Nat → Nat → Prop} {p p' : P} {K : Coll} {E : Env}

/-! ## Values -/

theorem ren_comp (f g : Nat → Nat) (x : Val) : ren f (ren g x) = ren (f ∘ g) x := by cases x <;> rfl

theorem map_ren_comp (f g : Nat → Nat) (l : List Val) : (l.map (ren g)).map (ren f) = l.map (ren (f ∘ g)) := by
  rw [List.map_map]; congr 1; funext x; exact ren_comp f g x

theorem addr_ren (f : Nat → Nat) (x : Val) : addr (ren f x) = (addr x).map f := by cases x <;> rfl

theorem ren_congr {f g : Nat → Nat} {x : Val} (h : ∀ i, addr x = some i → f i = g i) : ren f x = ren g x := by
  cases x <;> simp_all [ren, addr]

theorem map_ren_congr {f g : Nat → Nat} {l : List Val} (h : ∀ x ∈ l, ∀ i, addr x = some i → f i = g i) :
    l.map (ren f) = l.map (ren g) := List.map_congr_left fun x hx => ren_congr (h x hx)

theorem ok_root {x : Val} (h : x ∈ v.roots ++ loc) : Ok v loc H x := fun _ hi => .root h hi
theorem ok_loc {x : Val} (h : x ∈ loc) : Ok v loc H x := ok_root (List.mem_append_right _ h)
theorem ok_stk {x : Val} (h : x ∈ v.stk) : Ok v loc H x := ok_root (by simp [V.roots, h])
theorem ok_acc : Ok v loc H v.acc := ok_root (by simp [V.roots])
theorem ok_ext {x : Val} (h : x ∈ v.ext) : Ok v loc H x := ok_root (by simp [V.roots, h])
theorem ok_empty {i : Nat} (h : v.s.empty = some i) : Ok v loc H (.list i) := ok_root (by simp [V.roots, h])
theorem ok_list {i : Nat} (h : Ok v loc H (.list i)) : R v loc H i := h i rfl
theorem ok_str {i : Nat} (h : Ok v loc H (.str i)) : R v loc H i := h i rfl
theorem R.list {i : Nat} (h : R v loc H i) : Ok v loc H (.list i) := fun _ e => by injection e with e; exact e ▸ h
theorem R.str {i : Nat} (h : R v loc H i) : Ok v loc H (.str i) := fun _ e => by injection e with e; exact e ▸ h
theorem ok_none {x : Val} (h : addr x = none) : Ok v loc H x := fun i hi => by rw [h] at hi; cases hi

/-- Fewer roots, fewer objects. -/
theorem R.sub (hs : v'.s.objs = v.s.objs) (hr : ∀ x ∈ v'.roots ++ loc', Ok v loc H x)
    (hH : ∀ i m o, v.s.lst i = some o → m < o.size → H i m → H' i m) {i : Nat} (h : R v' loc' H' i) : R v loc H i := by
  induction h with
  | root hx ha => exact hr _ hx _ ha
  | elem _ ho hm hb hx ha ih =>
    rw [Store.lst_congr hs] at ho
    exact .elem ih ho hm (fun hb' => hb (hH _ _ _ ho hm hb')) hx ha

/-! ## Reading -/

theorem Sim.lt (T : Sim φ δ v loc H p) {i : Nat} (h : R v loc H i) : i < v.s.objs.length := by
  have := T.obj i h
  unfold Holds at this
  cases e : v.s.objs[i]? with
  | none => rw [e] at this; exact this.elim
  | some x => exact (List.getElem?_eq_some_iff.mp e).1

theorem Sim.lst (T : Sim φ δ v loc H p) {i : Nat} (h : R v loc H i) {o : LObj} (ho : v.s.lst i = some o) :
    ∃ g l, HoldsL φ (δ i) (H i) o p (φ i) g l := by
  have := T.obj i h
  unfold Holds at this
  rwa [lst_iff.mp ho] at this

theorem Sim.bytes (T : Sim φ δ v loc H p) {i : Nat} (h : R v loc H i) {b : List UInt8} (hb : v.s.bytes i = some b) :
    p.chars (φ i) = some b := by
  have := T.obj i h
  unfold Holds at this
  rw [bytes_iff.mp hb] at this
  simp only at this
  simp only [P.chars, this]

/-- Elements of a reachable list. -/
theorem ok_elem {i m : Nat} {o : LObj} {x : Val} (h : R v loc H i) (ho : v.s.lst i = some o) (hm : m < o.size) (hb : ¬H i m)
    (hx : o.data[m]? = some x) : Ok v loc H x := fun _ ha => .elem h ho hm hb hx ha

/-! ## Reachability in the pool -/

theorem mem_roots (T : Sim φ δ v loc H p) {x : Val} (h : x ∈ v.roots) : ren φ x ∈ p.roots := by
  simp only [V.roots, P.roots, List.mem_append, List.mem_cons, List.mem_map, Option.mem_toList] at h ⊢
  rw [T.stack, T.acc, T.ext, T.empty]
  rcases h with (h | rfl | h) | ⟨i, h, rfl⟩
  · exact .inl (.inl (List.mem_map_of_mem h))
  · exact .inl (.inr (.inl rfl))
  · exact .inl (.inr (.inr (List.mem_map_of_mem h)))
  · exact .inr ⟨φ i, by rw [Option.mem_def.mp h]; rfl, rfl⟩

theorem R.weaken {i : Nat} (h : R v [] H i) : R v loc H i :=
  R.sub (v' := v) rfl (fun _ hx => ok_root (by simp at hx; simp [hx])) (fun _ _ _ _ _ h => h) h

theorem Sim.reach (T : Sim φ δ v loc none2 p) {i : Nat} (h : R v [] none2 i) : p.Reach (φ i) := by
  induction h with
  | root hx ha => exact .root (mem_roots T (by simpa using hx)) (by rw [addr_ren, ha]; rfl)
  | elem hi ho hm hb hx ha ih =>
    obtain ⟨g, l, G⟩ := T.lst hi.weaken ho
    exact .elem ih G.hd G.wds (G.size ▸ hm) (by rw [G.agree.2 _ hm hb, hx]; rfl) (by rw [addr_ren, ha]; rfl)

theorem Sim.usedO (T : Sim φ δ v loc none2 p) {i : Nat} (h : R v [] none2 i) : p.Used (φ i) := .inl (T.reach h)

theorem Sim.usedD (T : Sim φ δ v loc none2 p) {i : Nat} (h : R v [] none2 i) {o : LObj} (ho : v.s.lst i = some o) (ha : o.alloc ≠ 0) :
    p.Used (δ i) := by
  obtain ⟨g, l, G⟩ := T.lst h.weaken ho
  exact .inr ⟨_, _, T.reach h, G.hd, G.alloc ▸ ha, G.data ha⟩

/-! ## A collection -/

theorem wds_blk {h : Head} {l : List Val} (ha : h.alloc ≠ 0) : p.wds h = some l ↔ p.blk h.data = some (.words l) := by
  unfold P.wds
  rw [if_neg ha]
  split
  · rename_i e; rw [e]; simp
  · rename_i e
    constructor
    · intro h; cases h
    · intro h; exact absurd h (e l)

theorem hd_blk {a : Nat} {h : Head} : p.hd a = some h ↔ p.blk a = some (.head h) := by
  unfold P.hd
  split
  · rename_i e; rw [e]; simp
  · rename_i e
    constructor
    · intro h; cases h
    · intro hh; exact absurd hh (e h)

theorem Sim.moved (T : Sim φ δ v loc none2 p) (M : Moved ρ p p') : Sim (ρ ∘ φ) (ρ ∘ δ) v [] none2 p' where
  stack := by rw [M.stack, T.stack, map_ren_comp]
  acc := by rw [M.acc, T.acc, ren_comp]
  ext := by rw [M.ext, T.ext, map_ren_comp]
  empty := by rw [M.empty, T.empty, Option.map_map]
  mem := M.rest.1.trans T.mem
  clock := M.rest.2.1.trans T.clock
  abort := M.rest.2.2.1.trans T.abort
  cap := M.rest.2.2.2.1.trans T.cap
  n := M.rest.2.2.2.2.trans T.n
  obj := by
    intro i hi
    have h := T.obj i hi.weaken
    unfold Holds at h ⊢
    cases e : v.s.objs[i]? with
    | none => rw [e] at h; exact h
    | some x =>
      cases x with
      | str b => rw [e] at h; exact M.str _ _ (T.reach hi) h
      | list o =>
        rw [e] at h
        obtain ⟨g, l, G⟩ := h
        obtain ⟨d, h1, h2⟩ := M.head _ _ (T.reach hi) G.hd
        by_cases ha : g.alloc = 0
        · refine ⟨_, [], h1, G.type, G.size, G.alloc, fun hne => absurd (G.alloc ▸ ha) hne, ?_, ?_⟩
          · simp [P.wds, ha]
          · have hl : l = [] := by have := G.wds; simp [P.wds, ha] at this; exact this
            have := G.agree
            rw [hl] at this
            refine ⟨this.1, fun m hm hb => ?_⟩
            have h0 : o.data = [] := List.eq_nil_of_length_eq_zero this.1.symm
            simp [h0]
        · obtain ⟨l', w1, w2, w3⟩ := M.words _ _ _ (T.reach hi) G.hd ha G.wds
          refine ⟨_, l', h1, G.type, G.size, G.alloc, fun hne => (h2 ha).trans (by rw [G.data hne]; rfl), ?_, ?_⟩
          · rw [wds_blk (by simpa using ha)]
            simp only [h2 ha, w1]
          · refine ⟨w2.trans G.agree.1, fun m hm hb => ?_⟩
            rw [w3 m (G.size ▸ hm), G.agree.2 m hm hb, Option.map_map]
            congr 1; funext x; exact ren_comp ρ φ x
  injO := fun i j hi hj e => T.injO i j hi.weaken hj.weaken (M.inj _ _ (T.usedO hi) (T.usedO hj) e)
  injD := fun i j o o' hi hj ho ho' ha ha' e =>
    T.injD i j o o' hi.weaken hj.weaken ho ho' ha ha' (M.inj _ _ (T.usedD hi ho ha) (T.usedD hj ho' ha') e)
  sep := fun i j o hi hj ho ha e =>
    T.sep i j o hi.weaken hj.weaken ho ha (M.inj _ _ (T.usedO hi) (T.usedD hj ho ha) e)

/-! ## Changes that keep the objects -/

theorem Holds.congr {s' : S} {i : Nat} (h : Holds φ δ H v.s p i) (hb : p'.blk = p.blk) (hs : s'.objs = v.s.objs) : Holds φ δ H s' p' i := by
  unfold Holds at h ⊢
  rw [hs]
  cases e : v.s.objs[i]? with
  | none => rw [e] at h; exact h
  | some x =>
    cases x with
    | str b => rw [e] at h; simp only at h ⊢; rw [hb]; exact h
    | list o =>
      rw [e] at h
      obtain ⟨g, l, G⟩ := h
      exact ⟨g, l, by simpa [P.hd, hb] using G.hd, G.type, G.size, G.alloc, G.data, by simpa [P.wds, hb] using G.wds, G.agree⟩

/-- Roots, flags, locals can change as long as nothing new becomes reachable. -/
theorem Sim.roots (T : Sim φ δ v loc H p) (hs : v'.s.objs = v.s.objs) (hb : p'.blk = p.blk)
    (hr : ∀ x ∈ v'.roots ++ loc', Ok v loc H x)
    (stack : p'.stack = v'.stk.map (ren φ)) (acc : p'.acc = ren φ v'.acc) (ext : p'.ext = v'.ext.map (ren φ))
    (empty : p'.empty = v'.s.empty.map φ) (mem : p'.mem = v'.s.mem) (clock : p'.clock = v'.s.clock) (abort : p'.abort = v'.s.abort)
    (cap : p'.cap = v'.cap) (n : p'.n = p.n) : Sim φ δ v' loc' H p' := by
  have sub : ∀ i, R v' loc' H i → R v loc H i := fun i h => R.sub hs hr (fun _ _ _ _ _ h => h) h
  refine ⟨stack, acc, ext, empty, mem, clock, abort, cap, by rw [n, T.n, hs], ?_, ?_, ?_, ?_⟩
  · exact fun i hi => (T.obj i (sub i hi)).congr hb hs
  · exact fun i j hi hj e => T.injO i j (sub i hi) (sub j hj) e
  · intro i j o o' hi hj ho ho' ha ha' e
    rw [Store.lst_congr hs] at ho ho'
    exact T.injD i j o o' (sub i hi) (sub j hj) ho ho' ha ha' e
  · intro i j o hi hj ho ha
    rw [Store.lst_congr hs] at ho
    exact T.sep i j o (sub i hi) (sub j hj) ho ha

/-- Other locals. -/
theorem Sim.locals (T : Sim φ δ v loc H p) (hr : ∀ x ∈ loc', Ok v loc H x) : Sim φ δ v loc' H p :=
  T.roots rfl rfl (fun x hx => by
    rcases List.mem_append.mp hx with h | h
    · exact ok_root (List.mem_append_left _ h)
    · exact hr x h) T.stack T.acc T.ext T.empty T.mem T.clock T.abort T.cap rfl

theorem Sim.push (T : Sim φ δ v loc H p) {x : Val} (hx : Ok v loc H x) (room : v.stk.length < v.cap) :
    Sim φ δ { v with stk := x :: v.stk } loc H (p.push (ren φ x)) := by
  have hp : p.push (ren φ x) = { p with stack := ren φ x :: p.stack, above := p.above.drop 1 } := by
    unfold P.push
    rw [if_neg]
    rw [T.stack, T.cap, List.length_map]; omega
  rw [hp]
  refine T.roots rfl rfl ?_ ?_ T.acc T.ext T.empty T.mem T.clock T.abort T.cap rfl
  · intro y hy
    have : y = x ∨ y ∈ v.roots ++ loc := by
      simp only [V.roots, List.mem_append, List.mem_cons] at hy ⊢
      rcases hy with ((((h | h) | h) | h) | h) <;> simp [h]
    rcases this with rfl | h
    · exact hx
    · exact ok_root h
  · simp [T.stack]

theorem Sim.pop (T : Sim φ δ v loc H p) {x : Val} {l : List Val} (h : v.stk = x :: l) :
    ∃ p', p.pop = some (ren φ x, p') ∧ Sim φ δ { v with stk := l } (x :: loc) H p' ∧ p'.above = ren φ x :: p.above ∧
      p'.blk = p.blk := by
  have hs := T.stack
  rw [h, List.map_cons] at hs
  refine ⟨{ p with stack := l.map (ren φ), above := ren φ x :: p.above }, by simp [P.pop, hs], ?_, rfl, rfl⟩
  refine T.roots rfl rfl ?_ rfl T.acc T.ext T.empty T.mem T.clock T.abort T.cap rfl
  intro y hy
  apply ok_root
  simp only [V.roots, List.mem_append, List.mem_cons, h] at hy ⊢
  rcases hy with ((h | h) | h) | h | h <;> simp [h]

theorem Sim.popList (T : Sim φ δ v loc H p) {i : Nat} {l : List Val} (h : v.stk = .list i :: l) :
    ∃ p', p.popList = some (φ i, p') ∧ Sim φ δ { v with stk := l } (.list i :: loc) H p' := by
  obtain ⟨p', h1, h2, -⟩ := T.pop h
  exact ⟨p', by simp only [P.popList, h1, ren], h2⟩

theorem Sim.popStr (T : Sim φ δ v loc H p) {i : Nat} {l : List Val} (h : v.stk = .str i :: l) :
    ∃ p', p.popStr = some (φ i, p') ∧ Sim φ δ { v with stk := l } (.str i :: loc) H p' := by
  obtain ⟨p', h1, h2, -⟩ := T.pop h
  exact ⟨p', by simp only [P.popStr, h1, ren], h2⟩

theorem Sim.fail (T : Sim φ δ v loc H p) : Sim φ δ { v with s := v.s.fail } loc H p.fail :=
  T.roots rfl rfl (fun _ hx => ok_root hx) T.stack T.acc T.ext T.empty T.mem T.clock rfl T.cap rfl

/-- More slots left out. -/
theorem Sim.more (T : Sim φ δ v loc H p) (h : ∀ i m o, v.s.lst i = some o → m < o.size → H i m → H' i m) : Sim φ δ v loc H' p := by
  have sub : ∀ i, R v loc H' i → R v loc H i := fun i hi =>
    R.sub rfl (fun _ hx => ok_root hx) (fun i m o ho hm hb => h i m o ho hm hb) hi
  refine ⟨T.stack, T.acc, T.ext, T.empty, T.mem, T.clock, T.abort, T.cap, T.n, ?_, ?_, ?_, ?_⟩
  · intro i hi
    have := T.obj i (sub i hi)
    unfold Holds at this ⊢
    cases e : v.s.objs[i]? with
    | none => rw [e] at this; exact this
    | some x =>
      cases x with
      | str b => rw [e] at this; exact this
      | list o =>
        rw [e] at this
        obtain ⟨g, l, G⟩ := this
        exact ⟨g, l, G.hd, G.type, G.size, G.alloc, G.data, G.wds, G.agree.1, fun m hm hb =>
          G.agree.2 m hm fun hb' => hb (h i m o (lst_iff.mpr e) hm hb')⟩
  · exact fun i j hi hj e => T.injO i j (sub i hi) (sub j hj) e
  · exact fun i j o o' hi hj ho ho' ha ha' e => T.injD i j o o' (sub i hi) (sub j hj) ho ho' ha ha' e
  · exact fun i j o hi hj ho ha => T.sep i j o (sub i hi) (sub j hj) ho ha

/-- The same slots left out. -/
theorem Sim.holes (T : Sim φ δ v loc H p) (h : ∀ i m o, v.s.lst i = some o → m < o.size → (H i m ↔ H' i m)) : Sim φ δ v loc H' p :=
  T.more fun i m o ho hm => (h i m o ho hm).mp

/-! ## Writing -/

theorem hd_put_ne {a x : Nat} {b : Blk} (h : x ≠ a) : (p.put a b).hd x = p.hd x := by simp [P.hd, P.put, h]
theorem hd_put {a : Nat} {h : Head} : (p.put a (.head h)).hd a = some h := by simp [P.hd, P.put]
theorem wds_put_ne {a : Nat} {b : Blk} {h : Head} (hn : h.alloc ≠ 0 → h.data ≠ a) : (p.put a b).wds h = p.wds h := by
  unfold P.wds
  split
  · rfl
  · rename_i ha; simp [P.put, hn ha]
theorem wds_put {h : Head} {l : List Val} (ha : h.alloc ≠ 0) : (p.put h.data (.words l)).wds h = some l := by
  rw [wds_blk ha]; simp [P.put]

/-- Two pools with the same blocks at the addresses in use. -/
theorem Sim.blocks (T : Sim φ δ v loc H p) (hO : ∀ i, R v loc H i → p'.blk (φ i) = p.blk (φ i))
    (hD : ∀ i o, R v loc H i → v.s.lst i = some o → o.alloc ≠ 0 → p'.blk (δ i) = p.blk (δ i))
    (rest : { p' with blk := p.blk } = p ∨ { p' with blk := p.blk, above := p.above } = p) : Sim φ δ v loc H p' := by
  have hf : p'.stack = p.stack ∧ p'.acc = p.acc ∧ p'.ext = p.ext ∧ p'.empty = p.empty ∧ p'.mem = p.mem ∧ p'.clock = p.clock ∧
      p'.abort = p.abort ∧ p'.cap = p.cap ∧ p'.n = p.n := by
    rcases rest with h | h <;> (cases p; cases p'; simp_all)
  obtain ⟨h1, h2, h3, h4, h5, h6, h7, h8, h9⟩ := hf
  refine ⟨h1.trans T.stack, h2.trans T.acc, h3.trans T.ext, h4.trans T.empty, h5.trans T.mem, h6.trans T.clock, h7.trans T.abort,
    h8.trans T.cap, h9.trans T.n, ?_, T.injO, T.injD, T.sep⟩
  intro i hi
  have h := T.obj i hi
  unfold Holds at h ⊢
  cases e : v.s.objs[i]? with
  | none => rw [e] at h; exact h
  | some x =>
    cases x with
    | str b => rw [e] at h; simp only at h ⊢; rw [hO i hi]; exact h
    | list o =>
      rw [e] at h
      obtain ⟨g, l, G⟩ := h
      refine ⟨g, l, by simpa [P.hd, hO i hi] using G.hd, G.type, G.size, G.alloc, G.data, ?_, G.agree⟩
      by_cases ha : g.alloc = 0
      · simpa [P.wds, ha] using G.wds
      · have ha' : o.alloc ≠ 0 := G.alloc ▸ ha
        rw [wds_blk ha, G.data ha', hD i o hi (lst_iff.mpr e) ha', ← G.data ha']
        exact (wds_blk ha).mp G.wds

theorem Sim.put_unused (T : Sim φ δ v loc H p) {a : Nat} (hu : Unused φ δ v loc H a) (b : Blk) : Sim φ δ v loc H (p.put a b) :=
  T.blocks (fun i hi => by simp [P.put, (hu i hi).1]) (fun i o hi ho ha => by simp [P.put, (hu i hi).2 o ho ha]) (.inl rfl)

/-- Overwriting list `i`. -/
theorem Sim.setl (T : Sim φ δ v loc H p) {i : Nat} {o o' : LObj} {h' : Head} {l' : List Val} (hi : R v loc H i)
    (ho : v.s.lst i = some o) (hH : ∀ j m, j ≠ i → (H' j m ↔ H j m))
    (ty : h'.type = o'.type) (sz : h'.size = o'.size) (al : h'.alloc = o'.alloc)
    (hdat : h'.alloc ≠ 0 → (h'.data = δ i ∧ o.alloc ≠ 0) ∨ Unused φ δ v loc H h'.data)
    (ag : Agree φ (H' i) o'.size l' o'.data)
    (el : ∀ m x, m < o'.size → ¬H' i m → o'.data[m]? = some x → Ok v loc H x)
    (hd' : p'.hd (φ i) = some h') (wd' : p'.wds h' = some l')
    (same : ∀ a, a ≠ φ i → (h'.alloc ≠ 0 → a ≠ h'.data) → Unused φ δ v loc H a ∨ p'.blk a = p.blk a)
    (rest : { p' with blk := p.blk } = p) :
    Sim φ (fun j => if j = i then h'.data else δ j) { v with s := v.s.setl i o' } loc H' p' := by
  have hlt := T.lt hi
  have sub : ∀ j, R { v with s := v.s.setl i o' } loc H' j → R v loc H j := by
    intro j hj
    induction hj with
    | root hx ha => exact .root hx ha
    | @elem j k m q x _ hq hm hb hx ha ih =>
      by_cases hji : j = i
      · subst hji
        have : q = o' := by
          have := Store.lst_setl_self (o' := o') ho
          simp only at hq; rw [this] at hq; exact (Option.some.inj hq).symm
        subst this
        exact el m x hm hb hx _ ha
      · simp only at hq
        rw [Store.lst_setl_ne hji] at hq
        exact .elem ih hq hm (fun h => hb ((hH j m hji).mpr h)) hx ha
  have hr : p'.stack = p.stack ∧ p'.acc = p.acc ∧ p'.ext = p.ext ∧ p'.empty = p.empty ∧ p'.mem = p.mem ∧ p'.clock = p.clock ∧
      p'.abort = p.abort ∧ p'.cap = p.cap ∧ p'.n = p.n := by
    cases p; cases p'; simp_all
  obtain ⟨h1, h2, h3, h4, h5, h6, h7, h8, h9⟩ := hr
  have blkO : ∀ j, j ≠ i → R v loc H j → p'.blk (φ j) = p.blk (φ j) := by
    intro j hj hRj
    refine (same _ (fun e => hj (T.injO _ _ hRj hi e)) (fun ha e => ?_)).resolve_left fun hu => (hu j hRj).1 rfl
    rcases hdat ha with ⟨hd, hoa⟩ | hu
    · exact T.sep j i o hRj hi ho hoa (e.trans hd)
    · exact (hu j hRj).1 e
  have blkD : ∀ j q, j ≠ i → R v loc H j → v.s.lst j = some q → q.alloc ≠ 0 → p'.blk (δ j) = p.blk (δ j) := by
    intro j q hj hRj hq hqa
    refine (same _ (fun e => T.sep i j q hi hRj hq hqa e.symm) (fun ha e => ?_)).resolve_left fun hu => (hu j hRj).2 q hq hqa rfl
    rcases hdat ha with ⟨hd, hoa⟩ | hu
    · exact hj (T.injD j i q o hRj hi hq ho hqa hoa (e.trans hd))
    · exact (hu j hRj).2 q hq hqa e
  refine ⟨h1.trans T.stack, h2.trans T.acc, h3.trans T.ext, h4.trans T.empty, h5.trans T.mem, h6.trans T.clock, h7.trans T.abort,
    h8.trans T.cap, h9.trans (by simp [T.n]), ?_, ?_, ?_, ?_⟩
  · intro j hj
    have hRj := sub j hj
    by_cases hji : j = i
    · subst hji
      unfold Holds
      have : (v.s.setl j o').objs[j]? = some (.list o') := by simp [hlt]
      simp only [this, if_true]
      exact ⟨h', l', hd', ty, sz, al, fun _ => rfl, wd', ag⟩
    · have h := T.obj j hRj
      unfold Holds at h ⊢
      have : (v.s.setl i o').objs[j]? = v.s.objs[j]? := by
        simp only [Store.objs_setl]; rw [List.getElem?_set_ne (by omega)]
      simp only [this]
      cases e : v.s.objs[j]? with
      | none => rw [e] at h; exact h
      | some x =>
        cases x with
        | str b => rw [e] at h; simp only at h ⊢; rw [blkO j hji hRj]; exact h
        | list q =>
          rw [e] at h
          obtain ⟨g, l, G⟩ := h
          simp only [if_neg hji]
          have hq := lst_iff.mpr e
          refine ⟨g, l, by simpa [P.hd, blkO j hji hRj] using G.hd, G.type, G.size, G.alloc, G.data, ?_, G.agree.1, fun m hm hb =>
            G.agree.2 m hm fun hb' => hb ((hH j m hji).mpr hb')⟩
          by_cases ha : g.alloc = 0
          · simpa [P.wds, ha] using G.wds
          · have ha' : q.alloc ≠ 0 := G.alloc ▸ ha
            rw [wds_blk ha, G.data ha', blkD j q hji hRj hq ha', ← G.data ha']
            exact (wds_blk ha).mp G.wds
  · exact fun j k hj hk e => T.injO j k (sub j hj) (sub k hk) e
  · intro j k q q' hj hk hq hq' ha ha' e
    simp only at hq hq' e
    by_cases hji : j = i
    · by_cases hki : k = i
      · rw [hji, hki]
      · exfalso
        rw [if_pos hji, if_neg hki] at e
        rw [Store.lst_setl_ne hki] at hq'
        subst hji
        have : q = o' := by rw [Store.lst_setl_self ho] at hq; exact (Option.some.inj hq).symm
        subst this
        rcases hdat (al ▸ ha) with ⟨hd, hoa⟩ | hu
        · exact hki (T.injD _ _ _ _ (sub k hk) hi hq' ho ha' hoa (e.symm.trans hd))
        · exact (hu k (sub k hk)).2 _ hq' ha' e.symm
    · by_cases hki : k = i
      · exfalso
        rw [if_neg hji, if_pos hki] at e
        rw [Store.lst_setl_ne hji] at hq
        subst hki
        have : q' = o' := by rw [Store.lst_setl_self ho] at hq'; exact (Option.some.inj hq').symm
        subst this
        rcases hdat (al ▸ ha') with ⟨hd, hoa⟩ | hu
        · exact hji (T.injD _ _ _ _ (sub j hj) hi hq ho ha hoa (e.trans hd))
        · exact (hu j (sub j hj)).2 _ hq ha e
      · rw [if_neg hji, if_neg hki] at e
        rw [Store.lst_setl_ne hji] at hq
        rw [Store.lst_setl_ne hki] at hq'
        exact T.injD _ _ _ _ (sub j hj) (sub k hk) hq hq' ha ha' e
  · intro j k q hj hk hq ha
    simp only at hq ⊢
    by_cases hki : k = i
    · rw [if_pos hki]
      subst hki
      have : q = o' := by rw [Store.lst_setl_self ho] at hq; exact (Option.some.inj hq).symm
      subst this
      rcases hdat (al ▸ ha) with ⟨hd, hoa⟩ | hu
      · rw [hd]; exact T.sep _ _ _ (sub j hj) hi ho hoa
      · exact (hu j (sub j hj)).1
    · rw [if_neg hki]
      rw [Store.lst_setl_ne hki] at hq
      exact T.sep _ _ _ (sub j hj) (sub k hk) hq ha

/-! ## New objects -/

/-- A value naming object `n`. -/
def Obj.val (n : Nat) : Obj → Val
  | .str _ => .str n
  | .list _ => .list n

theorem Sim.new (T : Sim φ δ v loc H p) {a : Nat} (hu : Unused φ δ v loc H a) (ob : Obj)
    (hob : match ob with
      | .str b => p.blk a = some (.str b)
      | .list o => o.size = 0 ∧ o.alloc = 0 ∧ o.data = [] ∧ ∃ d, p.blk a = some (.head ⟨o.type, 0, 0, d⟩)) :
    Sim (fun j => if j = v.s.objs.length then a else φ j) δ { v with s := v.s.push ob } (Obj.val v.s.objs.length ob :: loc) H
      { p with n := p.n + 1 } := by
  have hpush : ∀ j, (v.s.push ob).objs[j]? = if j = v.s.objs.length then some ob else v.s.objs[j]? := by
    intro j
    simp only [Store.S.push]
    split
    · rename_i h; simp [h]
    · rename_i h
      by_cases hj : j < v.s.objs.length
      · rw [List.getElem?_append_left hj]
      · rw [List.getElem?_append_right (by omega), List.getElem?_eq_none (l := v.s.objs) (by omega)]
        rw [List.getElem?_eq_none]; simp; omega
  have sub : ∀ j, R { v with s := v.s.push ob } (Obj.val v.s.objs.length ob :: loc) H j → R v loc H j ∨ j = v.s.objs.length := by
    intro j hj
    induction hj with
    | @root x i hx ha =>
      simp only [List.mem_append, List.mem_cons] at hx
      rcases hx with h | rfl | h
      · exact .inl (.root (List.mem_append_left _ h) ha)
      · right
        cases ob <;> simp [Obj.val, addr] at ha <;> exact ha.symm
      · exact .inl (.root (List.mem_append_right _ h) ha)
    | @elem j k m q x _ hq hm hb hx ha ih =>
      have hq := lst_iff.mp hq
      simp only [hpush] at hq
      rcases ih with ih | rfl
      · rw [if_neg (by have := T.lt ih; omega)] at hq
        exact .inl (.elem ih (lst_iff.mpr hq) hm hb hx ha)
      · rw [if_pos rfl] at hq
        injection hq with hq
        subst hq
        rw [hob.1] at hm
        omega
  have ne : ∀ j, R v loc H j → j ≠ v.s.objs.length := fun j h => by have := T.lt h; omega
  have cg : ∀ x, Ok v loc H x → ren φ x = ren (fun j => if j = v.s.objs.length then a else φ j) x := fun x hx =>
    ren_congr fun i hi => by rw [if_neg (ne i (hx i hi))]
  have cgl : ∀ l : List Val, (∀ x ∈ l, Ok v loc H x) → l.map (ren φ) = l.map (ren (fun j => if j = v.s.objs.length then a else φ j)) :=
    fun l hl => List.map_congr_left fun x hx => cg x (hl x hx)
  have fst : ∀ j, R v loc H j → (if j = v.s.objs.length then a else φ j) = φ j := fun j h => if_neg (ne j h)
  have lstn : ∀ q, (v.s.push ob).lst v.s.objs.length = some q → q.alloc = 0 := by
    intro q hq
    have hq := lst_iff.mp hq
    rw [hpush, if_pos rfl] at hq
    injection hq with hq
    subst hq
    exact hob.2.1
  have lsto : ∀ j q, R v loc H j → (v.s.push ob).lst j = some q → v.s.lst j = some q := by
    intro j q hj hq
    have hq := lst_iff.mp hq
    rw [hpush, if_neg (ne j hj)] at hq
    exact lst_iff.mpr hq
  refine ⟨T.stack.trans (cgl _ fun x hx => ok_stk hx), T.acc.trans (cg _ ok_acc), T.ext.trans (cgl _ fun x hx => ok_ext hx), ?_, T.mem,
    T.clock, T.abort, T.cap, by simp [T.n, Store.S.push], ?_, ?_, ?_, ?_⟩
  · refine T.empty.trans ?_
    show v.s.empty.map φ = v.s.empty.map _
    cases e : v.s.empty with
    | none => rfl
    | some i => simp only [Option.map_some]; rw [fst i (ok_list (ok_empty e))]
  · intro j hj
    unfold Holds
    simp only [hpush]
    rcases sub j hj with h | rfl
    · rw [if_neg (ne j h), fst j h]
      have h0 := T.obj j h
      unfold Holds at h0
      cases e : v.s.objs[j]? with
      | none => rw [e] at h0; exact h0
      | some x =>
        cases x with
        | str b => rw [e] at h0; exact h0
        | list q =>
          rw [e] at h0
          obtain ⟨g, l, G⟩ := h0
          refine ⟨g, l, by simpa [P.hd] using G.hd, G.type, G.size, G.alloc, G.data, by simpa [P.wds] using G.wds, G.agree.1,
            fun m hm hb => ?_⟩
          rw [G.agree.2 m hm hb]
          cases e2 : q.data[m]? with
          | none => rfl
          | some x => simp only [Option.map_some]; rw [cg x (ok_elem h (lst_iff.mpr e) hm hb e2)]
    · rw [if_pos rfl]
      cases ob with
      | str b => simp only [if_true]; exact hob
      | list o =>
        obtain ⟨d, hd⟩ := hob.2.2.2
        simp only [if_true]
        refine ⟨⟨o.type, 0, 0, d⟩, [], hd_blk.mpr hd, rfl, hob.1.symm, hob.2.1.symm, fun h => absurd hob.2.1 h, by simp [P.wds],
          by rw [hob.2.2.1], fun m hm => ?_⟩
        rw [hob.1] at hm; omega
  · intro i j hi hj e
    rcases sub i hi with h | rfl <;> rcases sub j hj with h' | rfl
    · rw [fst i h, fst j h'] at e; exact T.injO i j h h' e
    · rw [fst i h, if_pos rfl] at e; exact absurd e (hu i h).1
    · rw [fst j h', if_pos rfl] at e; exact absurd e.symm (hu j h').1
    · rfl
  · intro i j o o' hi hj ho ho' ha ha' e
    rcases sub i hi with h | rfl
    · rcases sub j hj with h' | rfl
      · exact T.injD i j o o' h h' (lsto i o h ho) (lsto j o' h' ho') ha ha' e
      · exact absurd (lstn _ ho') ha'
    · exact absurd (lstn _ ho) ha
  · intro i j o hi hj ho ha
    rcases sub j hj with h' | rfl
    · rcases sub i hi with h | rfl
      · rw [fst i h]; exact T.sep i j o h h' (lsto j o h' ho) ha
      · rw [if_pos rfl]; exact fun e => (hu j h').2 o (lsto j o h' ho) ha e.symm
    · exact absurd (lstn _ ho) ha

theorem Unused.sub {a : Nat} (hu : Unused φ δ v loc H a) (hs : v'.s.objs = v.s.objs) (hr : ∀ x ∈ v'.roots ++ loc', Ok v loc H x) :
    Unused φ δ v' loc' H a := by
  intro j hj
  have := hu j (R.sub hs hr (fun _ _ _ _ _ h => h) hj)
  refine ⟨this.1, fun o ho => this.2 o ?_⟩
  rwa [Store.lst_congr hs] at ho

theorem Unused.pop {a : Nat} {x : Val} {l : List Val} (hu : Unused φ δ v loc H a) (h : v.stk = x :: l) :
    Unused φ δ { v with stk := l } (x :: loc) H a := by
  refine hu.sub rfl fun y hy => ok_root ?_
  simp only [V.roots, List.mem_append, List.mem_cons, h] at hy ⊢
  rcases hy with ((h | h | h) | h) | h | h <;> simp [h]

/-! ## The allocator -/

theorem Unused.of_not_used (T : Sim φ δ v [] none2 p) {a : Nat} (h : ¬p.Used a) : Unused φ δ v [] none2 a := fun _ hi =>
  ⟨fun e => h (e ▸ T.usedO hi), fun _ ho ha e => h (e ▸ T.usedD hi ho ha)⟩

theorem Sim.alloc (hK : K.Good) (T : Sim φ δ v loc none2 p) (bytes : Nat) (b : Blk) :
    ∃ φ' δ' p', Sim φ' δ' { v with s := (v.s.ask bytes).2 } [] none2 p' ∧
      (((v.s.ask bytes).1 = true ∧ ∃ a, Ptr.alloc K p bytes b = (some a, p') ∧ p'.blk a = some b ∧
          Unused φ' δ' { v with s := (v.s.ask bytes).2 } [] none2 a) ∨
        ((v.s.ask bytes).1 = false ∧ Ptr.alloc K p bytes b = (none, p'))) := by
  have e1 : p.mem p.clock bytes = (v.s.ask bytes).1 := by rw [T.mem, T.clock]; rfl
  have S1 : Sim φ δ { v with s := (v.s.ask bytes).2 } loc none2
      { p with clock := p.clock + 1, abort := p.abort || !(v.s.ask bytes).1 } :=
    T.roots rfl rfl (fun _ hx => ok_root hx) T.stack T.acc T.ext T.empty T.mem (by rw [T.clock]; rfl) (by rw [T.abort]; rfl) T.cap rfl
  obtain ⟨ρ, M⟩ := hK.1 { p with clock := p.clock + 1, abort := p.abort || !(v.s.ask bytes).1 }
  have S2 := S1.moved M
  cases e : (v.s.ask bytes).1 with
  | false =>
    rw [e] at M S1 S2 e1
    refine ⟨_, _, _, S2, .inr ⟨rfl, ?_⟩⟩
    simp only [Ptr.alloc, e1]
    rfl
  | true =>
    rw [e] at M S1 S2 e1
    have hu := Unused.of_not_used S2 (hK.2 { p with clock := p.clock + 1, abort := p.abort || !true })
    refine ⟨_, _, _, S2.put_unused hu b, .inl ⟨rfl, _, ?_, ?_, hu⟩⟩
    · simp only [Ptr.alloc, e1]
      rfl
    · simp [P.put]

end Snek.Ptr
