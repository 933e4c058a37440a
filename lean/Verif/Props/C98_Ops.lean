import Verif.Props.C98
import Verif.Props.C04_Heap
import Verif.Props.C09
import Verif.Props.C51
import Verif.Props.C56
/-!
# C98, continued: the other operators, slices, formatting, augmented assignment to elements
-/
namespace Snek.Machine
open Store (Val S Obj Unfolds)
open Vm (Prim)
open Spec

variable {κ : Type} {C : Cfg κ} {sig : Nat → FuncSig} {code : Nat → List UInt8}

/-! ## Numbers -/

theorem arith_some {w : World κ} {op : BinOp} {ip : Bool} {a b r : Val} {s' : S}
    (h : Store.arith (env C) op ip a b { w.st with abort := false } = some (r, s')) :
    (prim C sig code).arith op ip a b w = (r, s'.abort, { (w.note (.op (.arith op ip a b) { w.st with abort := false })) with st := s' }) := by
  show (match Store.arith (env C) op ip a b { w.st with abort := false } with | none => _ | some (v, s) => _) = _
  rw [h]

theorem arith_num {op : BinOp} {a b u : BitVec 32} (w : World κ) (inPlace : Bool) (h : numBinary C.powf op a b = .ok u) :
    ∃ w', Quiet w w' ∧ (prim C sig code).arith op inPlace (.num a) (.num b) w = (.num u, false, w') := by
  have e : Store.arith (env C) op inPlace (.num a) (.num b) { w.st with abort := false } = some (.num u, { w.st with abort := false }) := by
    simp only [Store.arith, env, Store.Env.real, h]
  refine ⟨_, ?_, arith_some e⟩
  exact quiet_note _ _ rfl

/-- `//` and `%` on integers: quotient and remainder, the remainder with the sign of the divisor (as long as the product of quotient and divisor
is at most 2^24 in magnitude: C35). -/
theorem C98_divide_partial (w : World κ) (inPlace : Bool) (a b : BitVec 32) (x y : Int) (ha : Denotes a x) (hb : Denotes b y) (hx : Int24 x)
    (hy : Int24 y) (h0 : y ≠ 0) (hp : Int24 (x.fdiv y * y)) :
    ∃ q r u v w1 w2, Denotes u q ∧ Denotes v r ∧ Quiet w w1 ∧ Quiet w w2 ∧
      (prim C sig code).arith .div inPlace (.num a) (.num b) w = (.num u, false, w1) ∧
      (prim C sig code).arith .mod inPlace (.num a) (.num b) w = (.num v, false, w2) ∧
      x = q * y + r ∧ (0 < y → 0 ≤ r ∧ r < y) ∧ (y < 0 → y < r ∧ r ≤ 0) := by
  obtain ⟨q, r, ⟨u, e1, h1⟩, ⟨v, e2, h2⟩, h3⟩ := C35_mod_partial C.powf a b x y ha hb hx hy h0 hp
  obtain ⟨w1, q1, e1⟩ := arith_num (C := C) (sig := sig) (code := code) w inPlace e1
  obtain ⟨w2, q2, e2⟩ := arith_num (C := C) (sig := sig) (code := code) w inPlace e2
  exact ⟨q, r, u, v, w1, w2, h1, h2, q1, q2, e1, e2, h3⟩

/-- `//` alone: the floor of the quotient, for all integers up to 2^24. -/
theorem C98_floor (w : World κ) (inPlace : Bool) (a b : BitVec 32) (x y : Int) (ha : Denotes a x) (hb : Denotes b y) (hx : Int24 x) (hy : Int24 y)
    (h0 : y ≠ 0) : ∃ u w', Denotes u (x.fdiv y) ∧ Quiet w w' ∧ (prim C sig code).arith .div inPlace (.num a) (.num b) w = (.num u, false, w') := by
  obtain ⟨u, e, h⟩ := C35_div C.powf a b x y ha hb hx hy h0
  obtain ⟨w', q, e⟩ := arith_num (C := C) (sig := sig) (code := code) w inPlace e
  exact ⟨u, w', h, q, e⟩

/-- `&`, `|` and `^` on integers, bit by bit in two's complement. -/
theorem C98_bits (w : World κ) (inPlace : Bool) (a b : BitVec 32) (x y : Int) (ha : Denotes a x) (hb : Denotes b y) (hx : Int32 x) (hy : Int32 y)
    (op : BinOp) (f : Prop → Prop → Prop) (hop : (op = .land ∧ f = And) ∨ (op = .lor ∧ f = Or) ∨ (op = .lxor ∧ f = fun p q => ¬ (p ↔ q))) :
    ∃ r, Int32 r ∧ (∀ k, ibit r k ↔ f (ibit x k) (ibit y k)) ∧
      (Int24 r → ∃ u w', Denotes u r ∧ Quiet w w' ∧ (prim C sig code).arith op inPlace (.num a) (.num b) w = (.num u, false, w')) := by
  obtain ⟨⟨r1, i1, b1, n1⟩, ⟨r2, i2, b2, n2⟩, ⟨r3, i3, b3, n3⟩⟩ := C36_bitwise C.powf a b x y ha hb hx hy
  have key : ∀ (op : BinOp) (r : Int), (∃ u, numBinary C.powf op a b = .ok u ∧ Denotes u r) →
      ∃ u w', Denotes u r ∧ Quiet w w' ∧ (prim C sig code).arith op inPlace (.num a) (.num b) w = (.num u, false, w') := by
    rintro op r ⟨u, e, h⟩
    obtain ⟨w', q, e⟩ := arith_num (C := C) (sig := sig) (code := code) w inPlace e
    exact ⟨u, w', h, q, e⟩
  rcases hop with ⟨rfl, rfl⟩ | ⟨rfl, rfl⟩ | ⟨rfl, rfl⟩
  · exact ⟨r1, i1, b1, fun h => key _ _ (n1 h)⟩
  · exact ⟨r2, i2, b2, fun h => key _ _ (n2 h)⟩
  · exact ⟨r3, i3, b3, fun h => key _ _ (n3 h)⟩

/-- `<<` of integers that are not negative and `>>`, by up to 31 places. -/
theorem C98_shift (w : World κ) (inPlace : Bool) (a b : BitVec 32) (x : Int) (n : Nat) (ha : Denotes a x) (hb : Denotes b n) (hx : Int32 x) (hn : n < 32) :
    (0 ≤ x → Int24 (x * 2 ^ n) →
      ∃ u w', Denotes u (x * 2 ^ n) ∧ Quiet w w' ∧ (prim C sig code).arith .lshift inPlace (.num a) (.num b) w = (.num u, false, w')) ∧
    (Int24 (x / 2 ^ n) → ∃ u w', Denotes u (x / 2 ^ n) ∧ Quiet w w' ∧ (prim C sig code).arith .rshift inPlace (.num a) (.num b) w = (.num u, false, w')) := by
  obtain ⟨h1, h2⟩ := C36_shift C.powf a b x n ha hb hx hn
  refine ⟨fun p q => ?_, fun q => ?_⟩
  · obtain ⟨u, e, h⟩ := h1 p q
    obtain ⟨w', q, e⟩ := arith_num (C := C) (sig := sig) (code := code) w inPlace e
    exact ⟨u, w', h, q, e⟩
  · obtain ⟨u, e, h⟩ := h2 q
    obtain ⟨w', q, e⟩ := arith_num (C := C) (sig := sig) (code := code) w inPlace e
    exact ⟨u, w', h, q, e⟩

/-- `**` with a natural exponent below 256, where the code's own power function is used (snek-pow.c). -/
theorem C98_power (gen : BitVec 32 → BitVec 32 → BitVec 32) (hC : C.powf = powfSmall gen) (w : World κ) (inPlace : Bool) (a b : BitVec 32) (z : Int) (x : Nat)
    (ha : Denotes a z) (hb : Denotes b x) (hx : x < 256) (h : Int24 (z ^ x)) :
    ∃ u w', Denotes u (z ^ x) ∧ Quiet w w' ∧ (prim C sig code).arith .pow inPlace (.num a) (.num b) w = (.num u, false, w') := by
  obtain ⟨u, e, hu⟩ := C56_operator gen a b z x ha hb hx h
  rw [← hC] at e
  obtain ⟨w', q, e⟩ := arith_num (C := C) (sig := sig) (code := code) w inPlace e
  exact ⟨u, w', hu, q, e⟩

/-- A number that is not an integer as operand of a bit operator is an error. -/
theorem C98_bits_refused (op : BinOp) (hop : op ∈ [.land, .lor, .lxor, .lshift, .rshift]) (w : World κ) (inPlace : Bool) (a b : BitVec 32) (i : Int)
    (hf : a.toNat % 2 ^ 31 < 0x7f800000) (hi : ¬ (2 ^ 149 ∣ f32val a)) (hb : Denotes b i) (hib : Int32 i) :
    (∃ v w', Quiet w w' ∧ (prim C sig code).arith op inPlace (.num a) (.num b) w = (v, true, w')) ∧
    (∃ v w', Quiet w w' ∧ (prim C sig code).arith op inPlace (.num b) (.num a) w = (v, true, w')) := by
  obtain ⟨h1, h2⟩ := C36_not_integer C.powf op hop a b i hf hi hb hib
  have key : ∀ a b, numBinary C.powf op a b = .error → ∃ v w', Quiet w w' ∧ (prim C sig code).arith op inPlace (.num a) (.num b) w = (v, true, w') := by
    intro a b h
    have e : Store.arith (env C) op inPlace (.num a) (.num b) { w.st with abort := false } =
        some (.num (C.any op a b), ({ w.st with abort := false } : S).fail) := by
      simp only [Store.arith, env, Store.Env.real, h]
    refine ⟨_, _, ?_, arith_some e⟩
    exact quiet_note _ _ rfl
  exact ⟨key _ _ h1, key _ _ h2⟩

/-- Operands of other kinds: an error for all operators but `+`, `*` and `%`, and nothing changes. -/
theorem C98_kinds_refused (op : BinOp) (hop : op ≠ .plus ∧ op ≠ .times ∧ op ≠ .mod) (w : World κ) (inPlace : Bool) (a b : Val)
    (h : ∀ u v, ¬ (a = .num u ∧ b = .num v)) :
    ∃ v w', Quiet w w' ∧ (prim C sig code).arith op inPlace a b w = (v, true, w') := by
  have e : Store.arith (env C) op inPlace a b { w.st with abort := false } = some (Val.none, ({ w.st with abort := false } : S).fail) := by
    unfold Store.arith
    split
    · exact absurd ⟨rfl, rfl⟩ (h _ _)
    · cases op <;> first | rfl | exact absurd rfl hop.1 | exact absurd rfl hop.2.1 | exact absurd rfl hop.2.2
  refine ⟨_, _, ?_, arith_some e⟩
  exact quiet_note _ _ rfl

/-! ## Strings and lists -/

/-- What an arithmetic operator gives, as an option. -/
def result (x : Val × Bool × World κ) : Option Val × World κ := (if x.2.1 then none else some x.1, x.2.2)

theorem arith_string {w : World κ} {op : BinOp} {ip : Bool} {a b : Val} {t : List UInt8}
    (h : Store.MakesStr { w.st with abort := false } t (Store.arith (env C) op ip a b { w.st with abort := false })) :
    GivesStr w t (result ((prim C sig code).arith op ip a b w)) := by
  obtain ⟨r, s', h1, h2, h3⟩ := h
  rw [arith_some h1]
  refine ⟨⟨h2, rfl, rfl, rfl⟩, ?_⟩
  rcases h3 with ⟨-, h3, h4⟩ | ⟨rfl, h3, h4⟩
  · left; exact ⟨by simp [result, h3], h4⟩
  · right; exact ⟨_, by simp [result, h3], Nat.le_refl _, h4⟩

theorem arith_list {w : World κ} {op : BinOp} {ip : Bool} {a b : Val} {t : LType} {l : List Val}
    (h : Store.MakesList { w.st with abort := false } t l (Store.arith (env C) op ip a b { w.st with abort := false })) :
    GivesList w t l (result ((prim C sig code).arith op ip a b w)) := by
  obtain ⟨r, s', h1, h2, h3⟩ := h
  rw [arith_some h1]
  refine ⟨⟨h2, rfl, rfl, rfl⟩, ?_⟩
  rcases h3 with ⟨-, h3, h4⟩ | ⟨k, rfl, h3, h4, h5⟩
  · left; exact ⟨by simp [result, h3], h4⟩
  · right; exact ⟨k, by simp [result, h3], h4, h5⟩

/-- `s + t` of strings. -/
theorem C98_string_concat (w : World κ) (inPlace : Bool) (i j : Nat) (a b : List UInt8) (hi : w.st.bytes i = some a) (hj : w.st.bytes j = some b)
    (hf : a.length + b.length + 1 < 2 ^ C.A.offBits) : GivesStr w (a ++ b) (result ((prim C sig code).arith .plus inPlace (.str i) (.str j) w)) :=
  arith_string (Store.C52_concat (E := env C) { w.st with abort := false } i j a b hi hj hf inPlace)

/-- `s * n` and `n * s` of a string. -/
theorem C98_string_repeat (w : World κ) (inPlace : Bool) (i : Nat) (a : List UInt8) (hi : w.st.bytes i = some a) (u : BitVec 32) (n : Nat)
    (hu : Denotes u n) (hn : (n : Int) < 2 ^ (C.A.offBits - 1)) (hf : n * a.length + 1 < 2 ^ C.A.offBits) :
    GivesStr w (List.replicate n a).flatten (result ((prim C sig code).arith .times inPlace (.str i) (.num u) w)) ∧
    GivesStr w (List.replicate n a).flatten (result ((prim C sig code).arith .times inPlace (.num u) (.str i) w)) :=
  have h := Store.C52_times (E := env C) { w.st with abort := false } i a hi u n hu hn hf inPlace
  ⟨arith_string h.1, arith_string h.2⟩

/-- `l * n` and `n * l` of a list or tuple. -/
theorem C98_repeat (w : World κ) (hs : Store.Ok w.st) (inPlace : Bool) (i : Nat) (t : LType) (ht : t = .list ∨ t = .tuple) (l : List Val)
    (hi : w.st.elems i = some (t, l)) (u : BitVec 32) (n : Nat) (hu : Denotes u n) (hn : (n : Int) < 2 ^ (C.A.offBits - 1))
    (hf : Store.Fits (env C) (l.length * n)) :
    GivesList w t (List.replicate n l).flatten (result ((prim C sig code).arith .times inPlace (.list i) (.num u) w)) ∧
    GivesList w t (List.replicate n l).flatten (result ((prim C sig code).arith .times inPlace (.num u) (.list i) w)) :=
  have h := Store.C10_times (E := env C) { w.st with abort := false } (ok_reset2 hs) i t ht l hi u n hu hn hf inPlace
  ⟨arith_list h.1, arith_list h.2⟩

/-- `s % v`: the conversions of the format replaced in order by the texts of the arguments, if there are as many as it takes; otherwise, or if it
is no format, an error, and nothing changes. -/
theorem C98_format (w : World κ) (inPlace : Bool) (i : Nat) (a : List UInt8) (hi : w.st.bytes i = some a) (ha : a ≠ []) (v : Val) (t : Tree)
    (hv : Unfolds w.st.objs t v) (hd : Format.InRange C.L.intBits t)
    (hf : ∀ ps, Spec.Print.pieces a = some ps → (Spec.Print.fill (Format.textOf C.L) ps (Format.argsOf t)).length + 1 < 2 ^ C.A.offBits) :
    match Spec.Print.pieces a with
    | some ps =>
      if Spec.Print.arity ps = (Format.argsOf t).length then
        GivesStr w (Spec.Print.fill (Format.textOf C.L) ps (Format.argsOf t)) (result ((prim C sig code).arith .mod inPlace (.str i) v w))
      else Refused w (result ((prim C sig code).arith .mod inPlace (.str i) v w))
    | none => Refused w (result ((prim C sig code).arith .mod inPlace (.str i) v w)) := by
  have hall : ∀ f, ∀ x ∈ Format.argsOf t, Format.fmt C.L f x ≠ none := by
    intro f x hx
    apply Format.C51_defined
    cases t with
    | list ty l =>
      have aux : ∀ l : List Tree, Format.AllInRange C.L.intBits l → ∀ x ∈ l, Format.InRange C.L.intBits x := by
        intro l
        induction l with
        | nil => intro _ x hx; cases hx
        | cons y l ih =>
          intro h x hx
          simp only [Format.AllInRange] at h
          rcases List.mem_cons.1 hx with rfl | hx
          · exact h.1
          · exact ih h.2 x hx
      cases ty with
      | dict => simp only [Format.argsOf, List.mem_singleton] at hx; rw [hx]; exact hd
      | list => exact aux l (by simpa only [Format.InRange] using hd) x hx
      | tuple => exact aux l (by simpa only [Format.InRange] using hd) x hx
    | _ => simp only [Format.argsOf, List.mem_singleton] at hx; rw [hx]; exact hd
  have hint := Format.C51_format C.L a t ha hall
  have ht : tree w.st.objs v = some t := tree_unfolds hv
  have hb : ({ w.st with abort := false } : S).bytes i = some a := hi
  have err : Format.interpolate C.L a t = .error → Refused w (result ((prim C sig code).arith .mod inPlace (.str i) v w)) := by
    intro h
    have e : Store.arith (env C) .mod inPlace (.str i) v { w.st with abort := false } = some (Val.none, ({ w.st with abort := false } : S).fail) := by
      simp only [Store.arith, hb, Option.bind_eq_bind, Option.bind_some, env, Store.Env.real, fmtOf, ht, h]
      rfl
    rw [arith_some e]
    exact ⟨rfl, quiet_note _ _ rfl⟩
  cases hp : Spec.Print.pieces a with
  | none => rw [hp] at hint; exact err hint
  | some ps =>
    rw [hp] at hint
    simp only []
    by_cases hl : Spec.Print.arity ps = (Format.argsOf t).length
    · rw [if_pos hl]
      simp only [if_pos hl] at hint
      apply arith_string
      have e : Store.arith (env C) .mod inPlace (.str i) v { w.st with abort := false } =
          Store.newStr (env C) { w.st with abort := false } (Spec.Print.fill (Format.textOf C.L) ps (Format.argsOf t)) := by
        simp only [Store.arith, hb, Option.bind_eq_bind, Option.bind_some, env, Store.Env.real, fmtOf, ht, hint]
      rw [e]
      exact Store.newStr_makes _ (hf ps hp)
    · rw [if_neg hl]
      simp only [if_neg hl] at hint
      exact err hint

/-! ## Slices -/

/-- `l[p:q:t]` of a list or tuple: the elements a Python slice selects; a slice of all of a tuple may be the tuple itself. A step of 0 is an error. -/
theorem C98_slice_partial (hA : C.A.Valid) (w : World κ) (hs : Store.Ok w.st) (i : Nat) (ty : LType) (hty : ty = .list ∨ ty = .tuple) (l : List Val)
    (hi : w.st.elems i = some (ty, l)) (hfit : Store.Fits (env C) l.length) (p q t : Option Val) (start stop stride : Option Int)
    (hp : Store.Operand (env C) p start) (hq : Store.Operand (env C) q stop) (ht : Store.Operand (env C) t stride)
    (hs1 : start ≠ some C.A.soffNone) (hs2 : stop ≠ some C.A.soffNone)
    (hoff : (l.length : Int) + (start.getD 0).natAbs + (stop.getD 0).natAbs + 4 < 2 ^ (C.A.offBits - 1))
    (hint : (l.length : Int) + (start.getD 0).natAbs + (stop.getD 0).natAbs + (stride.getD 1).natAbs + 4 < 2 ^ (C.A.intBits - 1)) :
    (stride = some 0 → Refused w ((prim C sig code).slice (.list i) p q t w)) ∧
    (stride ≠ some 0 → GivesList w ty (Spec.slice l start stop (stride.getD 1)) ((prim C sig code).slice (.list i) p q t w) ∨
      (ty = .tuple ∧ Spec.slice l start stop (stride.getD 1) = l ∧ Gives w (.list i) ((prim C sig code).slice (.list i) p q t w))) := by
  obtain ⟨h1, h2⟩ := Store.C04_list_partial (E := env C) hA { w.st with abort := false } (ok_reset2 hs) i ty hty l hi hfit p q t start stop stride
    hp hq ht hs1 hs2 hoff hint
  refine ⟨fun h => refused_exec (h1 h) rfl rfl, fun h => ?_⟩
  rcases h2 h with h2 | ⟨h3, h4, h5⟩
  · exact .inl (gives_list h2)
  · exact .inr ⟨h3, h4, gives_exec h5 rfl rfl⟩

/-- The same for strings. -/
theorem C98_string_slice_partial (hA : C.A.Valid) (w : World κ) (i : Nat) (b : List UInt8) (hi : w.st.bytes i = some b) (p q t : Option Val)
    (start stop stride : Option Int) (hp : Store.Operand (env C) p start) (hq : Store.Operand (env C) q stop) (ht : Store.Operand (env C) t stride)
    (hs1 : start ≠ some C.A.soffNone) (hs2 : stop ≠ some C.A.soffNone)
    (hoff : (b.length : Int) + (start.getD 0).natAbs + (stop.getD 0).natAbs + 4 < 2 ^ (C.A.offBits - 1))
    (hint : (b.length : Int) + (start.getD 0).natAbs + (stop.getD 0).natAbs + (stride.getD 1).natAbs + 4 < 2 ^ (C.A.intBits - 1)) :
    (stride = some 0 → Refused w ((prim C sig code).slice (.str i) p q t w)) ∧
    (stride ≠ some 0 → GivesStr w (Spec.slice b start stop (stride.getD 1)) ((prim C sig code).slice (.str i) p q t w) ∨
      (Spec.slice b start stop (stride.getD 1) = b ∧ Gives w (.str i) ((prim C sig code).slice (.str i) p q t w))) := by
  obtain ⟨h1, h2⟩ := Store.C04_string_partial (E := env C) hA { w.st with abort := false } i b hi p q t start stop stride hp hq ht hs1 hs2 hoff hint
  refine ⟨fun h => refused_exec (h1 h) rfl rfl, fun h => ?_⟩
  rcases h2 h with ⟨r, s', e, e2, e3⟩ | ⟨h4, h5⟩
  · left
    show GivesStr w _ (w.exec _ _)
    rw [exec_some e]
    refine ⟨⟨e2, rfl, rfl, rfl⟩, ?_⟩
    rcases e3 with ⟨-, e3, e4⟩ | ⟨rfl, e3, e4⟩
    · left; rw [e3]; exact ⟨rfl, e4⟩
    · right; exact ⟨_, by rw [e3]; rfl, Nat.le_refl _, e4⟩
  · exact .inr ⟨h4, gives_exec h5 rfl rfl⟩

/-! ## Augmented assignment to elements -/

theorem augElem_value {op : BinOp} {lp ip v old r : Val} {s s2 s' : S} {i k : Nat} {o : Store.LObj}
    (h1 : Store.elemRef (env C) s lp ip = some (some (i, k), s)) (h2 : s.lst i = some o) (h3 : o.data[k]? = some old)
    (h4 : Store.arith (env C) op true old v s = some (r, s2)) (h : Store.augElem (env C) op lp ip v s = some s') :
    augElem C op lp ip v s = some (r, s') := by
  have hr : Store.resized s s i = false := by simp [Store.resized]
  unfold Store.augElem at h
  simp only [h1, h2, h3, h4, hr, Option.bind_eq_bind, Option.bind_some, Bool.false_eq_true, if_false] at h
  unfold augElem
  simp only [h1, h2, h3, h4, hr, h, Option.bind_eq_bind, Option.bind_some, Bool.false_eq_true, if_false, Option.pure_def]

/-- `l[k] op= y` where `l[k]` is a number and the operator gives one: that element, and nothing else, is replaced; without such an element there is an
error. -/
theorem C98_augment (hA : C.A.Valid) (w : World κ) (hs : Store.Ok w.st) (i : Nat) (l : List Val) (hl : w.st.elems i = some (.list, l))
    (hb : l.length < 2 ^ C.A.offBits) (u : BitVec 32) (k : Int) (hu : Denotes u k)
    (h1 : -(2 ^ (C.A.offBits - 1)) ≤ k) (h2 : k < 2 ^ (C.A.offBits - 1)) (op : BinOp) (y : BitVec 32) :
    (∀ x r, Store.elemAt l k = some (.num x) → numBinary C.powf op x y = .ok r →
      ∃ w', (prim C sig code).storeIdx (.aug op) (.list i) (.num u) (.num y) w = (some (.num r), w') ∧
        w'.st.elems i = some (.list, Store.setAt l k (.num r)) ∧
        (∀ j, j ≠ i → w'.st.objs[j]? = w.st.objs[j]?) ∧ w'.out = w.out ∧ w'.dev = w.dev ∧ w'.wild = w.wild) ∧
    (Store.elemAt l k = none → Refused w ((prim C sig code).storeIdx (.aug op) (.list i) (.num u) (.num y) w)) := by
  have hl0 : ({ w.st with abort := false } : S).elems i = some (.list, l) := hl
  have hs0 : Store.Ok { w.st with abort := false } := ok_reset2 hs
  generalize hS : ({ w.st with abort := false } : S) = s at *
  have hSo : s.objs = w.st.objs := by rw [← hS]
  have hSa : s.abort = false := by rw [← hS]
  obtain ⟨o, ho, hl'⟩ := Option.map_eq_some_iff.1 hl0
  simp only [Prod.mk.injEq] at hl'
  obtain ⟨o1, o2, -⟩ := hs0.1 i o ho
  have hd : o.type ≠ .dict := by rw [hl'.1]; decide
  have hlen : l.length = o.size := by rw [← hl'.2, List.length_take]; omega
  obtain ⟨p1, p2⟩ := Store.elemAt_pos (E := env C) l hA hb h1
  rw [hlen] at p1 p2
  have hx : Store.elemRef (env C) s (.list i) (.num u) = if o.size ≤ Store.pos (env C) o.size k then some (none, s.fail) else
      some (some (i, Store.pos (env C) o.size k), s) := by
    simp only [Store.elemRef, ho, Store.ref_seq ho hd, Store.soff_denotes (E := env C) hu h1 h2, hl'.1, LType.readonly, Option.bind_eq_bind, Option.bind_some,
      Option.pure_def, Bool.false_eq_true, if_false]
    by_cases hc : o.size ≤ Store.pos (env C) o.size k
    · simp only [if_pos hc]
    · simp only [if_neg hc]
  constructor
  · intro x r he hr
    have hlt : Store.pos (env C) o.size k < o.size := by
      by_cases hc : o.size ≤ Store.pos (env C) o.size k
      · rw [p2 hc] at he; cases he
      · omega
    obtain ⟨q1, q2⟩ := p1 hlt
    rw [if_neg (by omega)] at hx
    have hdat : o.data[Store.pos (env C) o.size k]? = some (.num x) := by
      rw [q1, ← hl'.2, List.getElem?_take_of_lt hlt] at he
      exact he
    have har : Store.arith (env C) op true (.num x) (.num y) s = some (.num r, s) := by
      simp only [Store.arith, env, Store.Env.real, hr]
    have hst := Store.C05_list_store (E := env C) hA s hs0 i l hl0 hb u k hu h1 h2 (.num r)
    rw [he] at hst
    obtain ⟨s', e1, e2, e3, e4⟩ := hst
    have haug : Store.augElem (env C) op (.list i) (.num u) (.num y) s = some s' := by
      have hrz : Store.resized s s i = false := by simp [Store.resized]
      unfold Store.augElem
      simp only [hx, ho, hdat, har, hrz, e1, Option.bind_eq_bind, Option.bind_some, Bool.false_eq_true, if_false]
    have hv := augElem_value hx ho hdat har haug
    rw [← hS] at hv
    have hv2 : (prim C sig code).storeIdx (.aug op) (.list i) (.num u) (.num y) w = _ := exec_some hv
    rw [e3, hSa] at hv2
    exact ⟨_, hv2, e2, fun j hj => (e4 j hj).trans (by rw [hSo]), rfl, rfl, rfl⟩
  · intro he
    have hc : o.size ≤ Store.pos (env C) o.size k := by
      by_cases hc : o.size ≤ Store.pos (env C) o.size k
      · exact hc
      · obtain ⟨q1, -⟩ := p1 (by omega)
        rw [he, List.getElem?_eq_getElem (by omega)] at q1
        cases q1
    rw [if_pos hc] at hx
    have hv : augElem C op (.list i) (.num u) (.num y) s = some (Val.none, s.fail) := by
      unfold augElem
      simp only [hx, Option.bind_eq_bind, Option.bind_some, Option.pure_def]
    rw [← hS] at hv
    exact refused_exec hv rfl rfl

theorem arith_done {w w2 : World κ} {op : BinOp} {ip : Bool} {a b r : Val} (h : (prim C sig code).arith op ip a b w = (r, false, w2)) :
    Store.arith (env C) op ip a b { w.st with abort := false } = some (r, w2.st) ∧ w2.st.abort = false ∧ w2.out = w.out ∧ w2.dev = w.dev ∧
      w2.wild = w.wild := by
  simp only [prim] at h
  split at h
  · cases h
  · rename_i v s e
    simp only [Prod.mk.injEq] at h
    obtain ⟨rfl, h2, rfl⟩ := h
    exact ⟨e, h2, rfl, rfl, rfl⟩

/-- `l[k] op= v` for any values: what the operator gives for `l[k]` and `v` is stored there, and nothing else changes that the operator does not change
(which must not be the list itself). -/
theorem C98_augment_any (hA : C.A.Valid) (w w2 : World κ) (hs : Store.Ok w.st) (i : Nat) (l : List Val) (hl : w.st.elems i = some (.list, l))
    (hb : l.length < 2 ^ C.A.offBits) (u : BitVec 32) (k : Int) (hu : Denotes u k)
    (h1 : -(2 ^ (C.A.offBits - 1)) ≤ k) (h2 : k < 2 ^ (C.A.offBits - 1)) (op : BinOp) (old v r : Val) (he : Store.elemAt l k = some old)
    (hop : (prim C sig code).arith op true old v w = (r, false, w2)) (hs2 : Store.Ok w2.st) (hl2 : w2.st.elems i = some (.list, l)) :
    ∃ w', (prim C sig code).storeIdx (.aug op) (.list i) (.num u) v w = (some r, w') ∧
      w'.st.elems i = some (.list, Store.setAt l k r) ∧
      (∀ j, j ≠ i → w'.st.objs[j]? = w2.st.objs[j]?) ∧ w'.out = w.out ∧ w'.dev = w.dev ∧ w'.wild = w.wild := by
  obtain ⟨har, hab, -⟩ := arith_done hop
  have hl0 : ({ w.st with abort := false } : S).elems i = some (.list, l) := hl
  have hs0 : Store.Ok { w.st with abort := false } := ok_reset2 hs
  generalize hS : ({ w.st with abort := false } : S) = s at *
  obtain ⟨o, ho, hl'⟩ := Option.map_eq_some_iff.1 hl0
  simp only [Prod.mk.injEq] at hl'
  obtain ⟨o1, o2, -⟩ := hs0.1 i o ho
  have hd : o.type ≠ .dict := by rw [hl'.1]; decide
  have hlen : l.length = o.size := by rw [← hl'.2, List.length_take]; omega
  obtain ⟨p1, p2⟩ := Store.elemAt_pos (E := env C) l hA hb h1
  rw [hlen] at p1 p2
  have hlt : Store.pos (env C) o.size k < o.size := by
    by_cases hc : o.size ≤ Store.pos (env C) o.size k
    · rw [p2 hc] at he; cases he
    · omega
  obtain ⟨q1, q2⟩ := p1 hlt
  have hx : Store.elemRef (env C) s (.list i) (.num u) = some (some (i, Store.pos (env C) o.size k), s) := by
    simp only [Store.elemRef, ho, Store.ref_seq ho hd, Store.soff_denotes (E := env C) hu h1 h2, hl'.1, LType.readonly, Option.bind_eq_bind, Option.bind_some,
      Option.pure_def, Bool.false_eq_true, if_false, if_neg (show ¬ o.size ≤ Store.pos (env C) o.size k by omega)]
  have hdat : o.data[Store.pos (env C) o.size k]? = some old := by
    rw [q1, ← hl'.2, List.getElem?_take_of_lt hlt] at he
    exact he
  have hst := Store.C05_list_store (E := env C) hA w2.st hs2 i l hl2 hb u k hu h1 h2 r
  rw [he] at hst
  obtain ⟨s', e1, e2, e3, e4⟩ := hst
  have haug : Store.augElem (env C) op (.list i) (.num u) v s = some s' := by
    have hrz : Store.resized s s i = false := by simp [Store.resized]
    unfold Store.augElem
    simp only [hx, ho, hdat, har, hrz, e1, Option.bind_eq_bind, Option.bind_some, Bool.false_eq_true, if_false]
  have hv := augElem_value hx ho hdat har haug
  rw [← hS] at hv
  have hv2 : (prim C sig code).storeIdx (.aug op) (.list i) (.num u) v w = _ := exec_some hv
  rw [e3, hab] at hv2
  exact ⟨_, hv2, e2, e4, rfl, rfl, rfl⟩

/-- `d[key] op= y` where `d[key]` is a number and the operator gives one: the value under a key that equals `key`, and nothing else, is replaced. -/
theorem C98_augment_dict (w : World κ) (hs : Store.Ok w.st) (i : Nat) (l : List Val) (hl : w.st.elems i = some (.dict, l)) (key : Val) (x y r : BitVec 32)
    (op : BinOp) (hx : Store.index (env C) { w.st with abort := false } (.list i) key = some (.num x, { w.st with abort := false }))
    (hop : numBinary C.powf op x y = .ok r) :
    ∃ n found w', l[n]? = some found ∧ (env C).cmp w.st.objs key found = 0 ∧ l[n + 1]? = some (.num x) ∧
      (prim C sig code).storeIdx (.aug op) (.list i) key (.num y) w = (some (.num r), w') ∧ w'.st.elems i = some (.dict, l.set (n + 1) (.num r)) ∧
      (∀ j, j ≠ i → w'.st.objs[j]? = w.st.objs[j]?) ∧ w'.out = w.out ∧ w'.dev = w.dev ∧ w'.wild = w.wild := by
  obtain ⟨n, found, s', k1, k2, k3, k4, k5, k6, k7⟩ := Store.C09_present_number (E := env C) { w.st with abort := false } (ok_reset2 hs) rfl i l hl key x y r op hx hop
  obtain ⟨o, ho, hl'⟩ := Option.map_eq_some_iff.1 (show ({ w.st with abort := false } : S).elems i = some (.dict, l) from hl)
  simp only [Prod.mk.injEq] at hl'
  obtain ⟨n', key', m1, m2, m3, m4, m5⟩ := Store.ref_found ho hl'.1 hx rfl
  have hel : Store.elemRef (env C) { w.st with abort := false } (.list i) key = some (some (i, n' + 1), { w.st with abort := false }) := by
    simp only [Store.elemRef, ho, m5, hl'.1, LType.readonly, Option.bind_eq_bind, Option.bind_some, Option.pure_def, Bool.false_eq_true, if_false]
  have har : Store.arith (env C) op true (.num x) (.num y) { w.st with abort := false } = some (.num r, { w.st with abort := false }) := by
    simp only [Store.arith, env, Store.Env.real, hop]
  have hv := augElem_value hel ho m4 har k4
  have hv2 : (prim C sig code).storeIdx (.aug op) (.list i) key (.num y) w = _ := exec_some hv
  rw [k6] at hv2
  exact ⟨n, found, _, k1, k2, k3, hv2, k5, k7, rfl, rfl, rfl⟩

/-! ## Cases: `'hi' + 'hi'`, `'hi' * 2`, `2 * [1, 'hi']`, `'%d!' % 2`, `[1, 'hi'][::-1]`, `'hi'[1:]`, `7 // -2`, `-7 % 2`, `2 ** 3`, and
`l[0] += 2`. -/

section
open Demo

example : (P.arith .plus false (.str 0) (.str 0) demoW).1 = .str 3 ∧
    (P.arith .plus false (.str 0) (.str 0) demoW).2.2.st.bytes 3 = some [104, 105, 104, 105] ∧
    (P.arith .times false (.str 0) (.num (Lang.Demo.lit 2)) demoW).2.2.st.bytes 3 = some [104, 105, 104, 105] ∧
    (P.arith .times false (.num (Lang.Demo.lit 2)) (.list 1) demoW).2.2.st.elems 3 =
      some (.list, [.num (Lang.Demo.lit 1), .str 0, .num (Lang.Demo.lit 1), .str 0]) := by decide +kernel

example : (P.slice (.list 1) none none (some (.num 0xbf800000)) demoW).1 = some (.list 3) ∧
    (P.slice (.list 1) none none (some (.num 0xbf800000)) demoW).2.st.elems 3 = some (.list, [.str 0, .num (Lang.Demo.lit 1)]) ∧
    (P.slice (.str 0) (some (.num (Lang.Demo.lit 1))) none none demoW).2.st.bytes 3 = some [105] ∧
    (P.slice (.str 0) none none (some (.num 0)) demoW).1 = none := by decide +kernel

/-- `7 // -2 = -4`, `-7 % 2 = 1`, `6 & 3 = 2`, `1 << 3 = 8`. -/
example : (P.arith .div false (.num (intToF 7)) (.num (intToF (-2))) demoW).1 = .num (intToF (-4)) ∧
    (P.arith .mod false (.num (intToF (-7))) (.num (intToF 2)) demoW).1 = .num (intToF 1) ∧
    (P.arith .land false (.num (intToF 6)) (.num (intToF 3)) demoW).1 = .num (intToF 2) ∧
    (P.arith .lshift false (.num (intToF 1)) (.num (intToF 3)) demoW).1 = .num (intToF 8) := by decide +kernel

/-- `'hi' - 1` and `1.5 & 1` are errors. -/
example : (P.arith .minus false (.str 0) (.num (Lang.Demo.lit 1)) demoW).2.1 = true ∧
    (P.arith .land false (.num 0x3fc00000) (.num (Lang.Demo.lit 1)) demoW).2.1 = true := by decide +kernel

/-- `l[0] += 2` and the hypotheses of `C98_augment` for it; `l[5] += 2` is an error. -/
example : (P.storeIdx (.aug .plus) (.list 1) (.num (Lang.Demo.lit 0)) (.num (Lang.Demo.lit 2)) demoW).2.st.elems 1 = some (.list, [.num (intToF 3), .str 0]) ∧
    (P.storeIdx (.aug .plus) (.list 1) (.num (Lang.Demo.lit 5)) (.num (Lang.Demo.lit 2)) demoW).1 = none ∧
    Store.elemAt [.num (Lang.Demo.lit 1), Val.str 0] 0 = some (.num (Lang.Demo.lit 1)) ∧
    numBinary cfg.powf .plus (Lang.Demo.lit 1) (Lang.Demo.lit 2) = .ok (intToF 3) := by decide +kernel

/-- `l[1] += 'hi'`: the string in the list is replaced by the longer one; the hypotheses of `C98_augment_any`. -/
example : (P.storeIdx (.aug .plus) (.list 1) (.num (Lang.Demo.lit 1)) (.str 0) demoW).2.st.elems 1 = some (.list, [.num (Lang.Demo.lit 1), .str 3]) ∧
    (P.storeIdx (.aug .plus) (.list 1) (.num (Lang.Demo.lit 1)) (.str 0) demoW).2.st.bytes 3 = some [104, 105, 104, 105] ∧
    (P.arith .plus true (.str 0) (.str 0) demoW).2.1 = false ∧
    (P.arith .plus true (.str 0) (.str 0) demoW).2.2.st.elems 1 = some (.list, [.num (Lang.Demo.lit 1), .str 0]) := by decide +kernel

/-- A world with the format `n=%d` and the dictionary `{1: 2}`. -/
def demoFmt : World Unit := ⟨⟨[.str [110, 61, 37, 100], .list ⟨.dict, 2, 2, [.num (Lang.Demo.lit 1), .num (Lang.Demo.lit 2)]⟩],
  none, fun _ _ => true, 0, false⟩, [], (), false, []⟩

/-- `'n=%d' % 2`, `'n=%d' % (dictionary)` takes it as one argument, and `d[1] += 2`. -/
example : (P.arith .mod false (.str 0) (.num (Lang.Demo.lit 2)) demoFmt).2.2.st.bytes 2 = some [110, 61, 50] ∧
    Spec.Print.pieces [110, 61, 37, 100] = some [.lit 110, .lit 61, .conv 100] ∧
    (P.storeIdx (.aug .plus) (.list 1) (.num (Lang.Demo.lit 1)) (.num (Lang.Demo.lit 2)) demoFmt).2.st.elems 1 =
      some (.dict, [.num (Lang.Demo.lit 1), .num (intToF 4)]) := by decide +kernel

end

end Snek.Machine
