import Verif.Proofs.Frame
/-!
# C24 del of a variable removes only that variable

Violated: the copy of the variables after the deleted one counts bytes instead of variables (snek-frame.c:79-81).
-/
namespace Snek

variable {α γ : Type}

/-- Serialisation is faithful on the variables in question. -/
structure VarEnc.Faithful (B : VarEnc α) (ok : Var α → Prop) : Prop where
  len : ∀ v, (B.enc v).length = B.size
  dec : ∀ v, ok v → B.dec (B.enc v) = v

theorem leBytes_length (k n : Nat) : (leBytes k n).length = k := by
  induction k generalizing n with
  | zero => rfl
  | succ k ih => simp [leBytes, ih]

theorem leNat_leBytes (k n : Nat) (h : n < 256 ^ k) : leNat (leBytes k n) = n := by
  induction k generalizing n with
  | zero => simp at h; subst h; rfl
  | succ k ih =>
    simp only [leBytes, leNat]
    rw [ih _ (by rw [Nat.pow_succ] at h; omega)]
    have : (UInt8.ofNat (n % 256)).toNat = n % 256 := by simp
    omega

/-- The three layouts in use (2-byte ids without and with padding, 4-byte ids) are faithful for ids that fit. -/
theorem polyVarEnc_faithful (idBytes pad : Nat) : (polyVarEnc idBytes pad).Faithful (fun v => v.id < 256 ^ idBytes) := by
  constructor
  · intro v; simp [polyVarEnc, leBytes_length]; omega
  · intro v hv
    simp only [polyVarEnc]
    have e1 : (leBytes 4 v.value.toNat ++ leBytes idBytes v.id ++ List.replicate pad 0).take 4 = leBytes 4 v.value.toNat := by
      rw [List.append_assoc, List.take_left' (leBytes_length _ _)]
    have e2 : ((leBytes 4 v.value.toNat ++ leBytes idBytes v.id ++ List.replicate pad 0).drop 4).take idBytes = leBytes idBytes v.id := by
      rw [List.append_assoc, List.drop_left' (leBytes_length _ _), List.take_left' (leBytes_length _ _)]
    rw [e1, e2, leNat_leBytes _ _ hv, leNat_leBytes 4 _ (by have := v.value.isLt; omega)]
    simp

private theorem pieces_append (B : VarEnc α) (ok : Var α → Prop) (hB : B.Faithful ok) (l : List (Var α)) (hl : ∀ v ∈ l, ok v)
    (k : Nat) (rest : List UInt8) :
    (pieces B.size (l.length + k) (l.flatMap B.enc ++ rest)).map B.dec = l ++ (pieces B.size k rest).map B.dec := by
  induction l with
  | nil => simp
  | cons a l ih =>
    have e : (a :: l).length + k = (l.length + k) + 1 := by simp; omega
    rw [e]
    simp only [pieces, List.flatMap_cons, List.append_assoc, List.map_cons]
    rw [List.take_left' (hB.len a), List.drop_left' (hB.len a), hB.dec a (hl a (by simp)), ih (fun v hv => hl v (by simp [hv]))]
    rfl

private theorem flat_len (B : VarEnc α) {ok} (hB : B.Faithful ok) (l : List (Var α)) : (l.flatMap B.enc).length = l.length * B.size := by
  induction l with
  | nil => simp
  | cons a l ih => simp [hB.len, ih, Nat.add_mul]; omega

private theorem pieces_copy (idBytes pad : Nat) (l : List (Var Poly)) (hl : ∀ v ∈ l, v.id < 256 ^ idBytes) (k : Nat) (hk : k ≤ l.length * (4 + idBytes + pad)) :
    (pieces (4 + idBytes + pad) l.length ((l.flatMap (polyVarEnc idBytes pad).enc).take k ++
      List.replicate (l.length * (4 + idBytes + pad) - k) 0)).map (polyVarEnc idBytes pad).dec = copyBytes (polyVarBytes idBytes pad) k l := by
  have hB := polyVarEnc_faithful idBytes pad
  induction l generalizing k with
  | nil => simp [pieces, copyBytes]
  | cons a l ih =>
    have hlen : ((polyVarEnc idBytes pad).enc a).length = 4 + idBytes + pad := hB.len a
    have hmul : (a :: l).length * (4 + idBytes + pad) = l.length * (4 + idBytes + pad) + (4 + idBytes + pad) := by
      rw [List.length_cons, Nat.succ_mul]
    have hc : copyBytes (polyVarBytes idBytes pad) k (a :: l) = (if 4 + idBytes + pad ≤ k then a else (polyVarBytes idBytes pad).cut k a) ::
      copyBytes (polyVarBytes idBytes pad) (k - (4 + idBytes + pad)) l := rfl
    rw [hmul] at hk ⊢
    rw [hc, List.length_cons]
    simp only [pieces, List.flatMap_cons, List.map_cons]
    by_cases h : 4 + idBytes + pad ≤ k
    · have et : List.take k ((polyVarEnc idBytes pad).enc a ++ l.flatMap (polyVarEnc idBytes pad).enc) =
          (polyVarEnc idBytes pad).enc a ++ (l.flatMap (polyVarEnc idBytes pad).enc).take (k - (4 + idBytes + pad)) := by
        rw [List.take_append, List.take_of_length_le (by omega), hlen]
      rw [if_pos h, et, List.append_assoc, List.take_left' hlen, List.drop_left' hlen,
        hB.dec a (hl a (by simp)), ← ih (fun v hv => hl v (by simp [hv])) _ (by omega),
        show l.length * (4 + idBytes + pad) + (4 + idBytes + pad) - k = l.length * (4 + idBytes + pad) - (k - (4 + idBytes + pad)) by omega]
    · have e : List.take k ((polyVarEnc idBytes pad).enc a ++ l.flatMap (polyVarEnc idBytes pad).enc) ++
          List.replicate (l.length * (4 + idBytes + pad) + (4 + idBytes + pad) - k) 0 =
          (((polyVarEnc idBytes pad).enc a).take k ++ List.replicate (4 + idBytes + pad - k) 0) ++
            List.replicate (l.length * (4 + idBytes + pad)) 0 := by
        rw [List.take_append_of_le_length (by omega), List.append_assoc, List.replicate_append_replicate]
        congr 2; omega
      have el : ((((polyVarEnc idBytes pad).enc a).take k ++ List.replicate (4 + idBytes + pad - k) 0)).length = 4 + idBytes + pad := by
        simp only [List.length_append, List.length_take, List.length_replicate]; omega
      rw [if_neg h, e, List.take_left' el, List.drop_left' el]
      congr 1
      have := ih (fun v hv => hl v (by simp [hv])) 0 (by omega)
      rw [List.take_zero, List.nil_append, Nat.sub_zero] at this
      rw [this, show k - (4 + idBytes + pad) = 0 by omega]

theorem leNat_zeros (n : Nat) : leNat (List.replicate n 0) = 0 := by
  induction n with
  | zero => rfl
  | succ n ih => simp [List.replicate_succ, leNat, ih]

theorem leNat_append (a b : List UInt8) : leNat (a ++ b) = leNat a + 256 ^ a.length * leNat b := by
  induction a with
  | nil => simp [leNat]
  | cons x a ih => simp only [List.cons_append, leNat, ih, List.length_cons, Nat.pow_succ]; rw [Nat.mul_add, ← Nat.mul_assoc, Nat.mul_comm 256 (256 ^ a.length)]; omega

theorem leNat_lt (a : List UInt8) : leNat a < 256 ^ a.length := by
  induction a with
  | nil => simp [leNat]
  | cons x a ih => have := x.toNat_lt; simp only [leNat, List.length_cons, Nat.pow_succ]; omega

/-- The first bytes of a word with zeros for the others are a number. -/
theorem C24_cut_number (idBytes pad k : Nat) (hk : k < 4) (v : Var Poly) : polyType ((polyVarBytes idBytes pad).cut k v).value = .float := by
  have h1 : ((polyVarBytes idBytes pad).cut k v).value = BitVec.ofNat 32 (leNat ((leBytes 4 v.value.toNat).take k)) := by
    simp only [polyVarBytes, polyVarEnc]
    congr 1
    have e : (leBytes 4 v.value.toNat ++ leBytes idBytes v.id ++ List.replicate pad 0).take k = (leBytes 4 v.value.toNat).take k := by
      rw [List.append_assoc, List.take_append_of_le_length (by rw [leBytes_length]; omega)]
    rw [e, List.take_append, leNat_append, List.take_replicate, leNat_zeros, List.take_take]
    rw [Nat.mul_zero, Nat.add_zero, Nat.min_eq_right (by omega)]
  have h2 : leNat ((leBytes 4 v.value.toNat).take k) < 2 ^ 24 := by
    refine Nat.lt_of_lt_of_le (leNat_lt _) ?_
    rw [List.length_take, leBytes_length]
    have : 256 ^ (min k 4) ≤ 256 ^ 3 := Nat.pow_le_pow_right (by decide) (by omega)
    simpa using this
  rw [h1]
  generalize leNat ((leBytes 4 v.value.toNat).take k) = n at h2
  have : isFloat (BitVec.ofNat 32 n) = true := by
    have : (BitVec.ofNat 32 n &&& EXPONENT_MASK) ≠ EXPONENT_MASK := by
      intro h
      have h3 : (BitVec.ofNat 32 n)[31] = true := by
        have := congrArg (fun x : BitVec 32 => x[31]) h
        simpa [EXPONENT_MASK] using this
      rw [BitVec.getElem_eq_testBit_toNat, BitVec.toNat_ofNat, Nat.mod_eq_of_lt (Nat.lt_of_lt_of_le h2 (by decide)),
        Nat.testBit_lt_two_pow (Nat.lt_of_lt_of_le h2 (by decide))] at h3
      cases h3
    simp [isFloat, this]
  simp [polyType, this]
/-- A value of which all bytes were copied is as it was. -/
theorem C24_cut_value (idBytes pad k : Nat) (hk : 4 ≤ k) (v : Var Poly) : ((polyVarBytes idBytes pad).cut k v).value = v.value := by
  simp only [polyVarBytes, polyVarEnc]
  have e : (((leBytes 4 v.value.toNat ++ leBytes idBytes v.id ++ List.replicate pad 0).take k ++
      List.replicate (4 + idBytes + pad - k) 0)).take 4 = leBytes 4 v.value.toNat := by
    have e1 : (leBytes 4 v.value.toNat ++ leBytes idBytes v.id ++ List.replicate pad 0).take k =
        leBytes 4 v.value.toNat ++ (leBytes idBytes v.id ++ List.replicate pad 0).take (k - 4) := by
      rw [List.append_assoc, List.take_append, leBytes_length, List.take_of_length_le (by rw [leBytes_length]; exact hk)]
    rw [e1, List.append_assoc, List.take_left' (leBytes_length ..)]
  rw [e, leNat_leBytes 4 _ (by have := v.value.isLt; simpa using this)]
  simp

/-- The copies between the variables' bytes give what `variableDelete` says, for ids that fit their field. -/
theorem C24_bytes (idBytes pad : Nat) (vars : List (Var Poly)) (i : Nat) (hi : i < vars.length) (hl : ∀ v ∈ vars, v.id < 256 ^ idBytes) :
    variableDeleteMem (polyVarEnc idBytes pad) vars i = variableDelete (polyVarBytes idBytes pad) vars i := by
  have hB := polyVarEnc_faithful idBytes pad
  obtain ⟨pre, v, post, rfl, rfl⟩ : ∃ pre v post, vars = pre ++ v :: post ∧ i = pre.length := by
    refine ⟨vars.take i, vars[i], vars.drop (i + 1), ?_, by simp; omega⟩
    rw [List.getElem_cons_drop, List.take_append_drop]
  unfold variableDeleteMem variableDelete
  have e1 : ((pre ++ v :: post).flatMap (polyVarEnc idBytes pad).enc).take (pre.length * (polyVarEnc idBytes pad).size) =
      pre.flatMap (polyVarEnc idBytes pad).enc := by
    rw [List.flatMap_append, ← flat_len _ hB pre, List.take_left' rfl]
  have e2 : ((pre ++ v :: post).flatMap (polyVarEnc idBytes pad).enc).drop ((pre.length + 1) * (polyVarEnc idBytes pad).size) =
      post.flatMap (polyVarEnc idBytes pad).enc := by
    rw [show pre ++ v :: post = (pre ++ [v]) ++ post by simp, List.flatMap_append,
      show (pre.length + 1) * (polyVarEnc idBytes pad).size = ((pre ++ [v]).flatMap (polyVarEnc idBytes pad).enc).length by
        rw [flat_len _ hB]; simp, List.drop_left' rfl]
  have e3 : (pre ++ v :: post).length - pre.length - 1 = post.length := by simp
  have e4 : (pre ++ v :: post).length - 1 = pre.length + post.length := by simp
  have e5 : ((post.flatMap (polyVarEnc idBytes pad).enc)).length = post.length * (4 + idBytes + pad) := flat_len _ hB post
  have hle : post.length ≤ post.length * (4 + idBytes + pad) := Nat.le_mul_of_pos_right _ (by omega)
  simp only [e1, e2, e3, e4]
  rw [List.append_assoc, pieces_append _ _ hB pre (fun w hw => hl w (by simp [hw]))]
  rw [List.take_left' rfl, show (pre ++ v :: post).drop (pre.length + 1) = post by
    rw [show pre ++ v :: post = (pre ++ [v]) ++ post by simp]; exact List.drop_left' (by simp)]
  congr 1
  rw [← pieces_copy idBytes pad post (fun w hw => hl w (by simp [hw])) _ hle]
  congr 4
  have : (pre.flatMap (polyVarEnc idBytes pad).enc).length = pre.length * (4 + idBytes + pad) := flat_len _ hB pre
  simp only [List.length_append, List.length_take, this, e5]
  show (pre.length + post.length) * (4 + idBytes + pad) - _ = _
  rw [Nat.add_mul]; omega

/-- Every variable created before the deleted one survives unchanged, whatever the layout. -/
theorem C24_earlier_partial (B : VarBytes α) (pre post : List (Var α)) (v : Var α) :
    ∃ rest, variableDelete B (pre ++ v :: post) pre.length = pre ++ rest ∧ rest.length = post.length := by
  have hc : ∀ k (l : List (Var α)), (copyBytes B k l).length = l.length := by
    intro k l
    induction l generalizing k with
    | nil => rfl
    | cons a l ih => simp [copyBytes, ih]
  unfold variableDelete
  refine ⟨copyBytes B ((pre ++ v :: post).length - pre.length - 1) ((pre ++ v :: post).drop (pre.length + 1)), by rw [List.take_left' rfl], ?_⟩
  rw [hc]
  simp

/-- With at least as many variables after the deleted one as one takes bytes, the next variable survives. -/
theorem C24_next_partial (B : VarBytes α) (pre post : List (Var α)) (v w : Var α) (h : B.size ≤ post.length + 1) :
    ∃ rest, variableDelete B (pre ++ v :: w :: post) pre.length = pre ++ w :: rest := by
  unfold variableDelete
  rw [List.take_left' rfl, show (pre ++ v :: w :: post).drop (pre.length + 1) = w :: post by
    rw [show pre ++ v :: w :: post = (pre ++ [v]) ++ w :: post by simp]; exact List.drop_left' (by simp)]
  simp only [copyBytes]
  rw [if_pos (by simp; omega)]
  exact ⟨_, rfl⟩

/-- Deleting the most recently created variable is right: the others keep their values and the name is undefined. Missing
from the full claim: variables created after the deleted one, see `C24_violated`. -/
theorem C24_last_partial (B : VarBytes Poly) (s : Frames Poly γ) (pre : List (Var Poly))
    (x : Nat) (v : Poly) (hs : s.globals = pre ++ [⟨v, x⟩]) (hnd : (s.globals.map (·.id)).Nodup) :
    (idDel B s x).1 = true ∧ (idDel B s x).2.frames = s.frames ∧
    look (idDel B s x).2.globals x = none ∧ ∀ y, y ≠ x → look (idDel B s x).2.globals y = look s.globals y := by
  rw [hs] at hnd
  simp only [List.map_append, List.map_cons, List.map_nil] at hnd
  have hx : x ∉ pre.map (·.id) := by
    intro h
    exact (List.nodup_append.1 hnd).2.2 x h x (by simp) rfl
  have hnone : varIndex pre x = none := by
    unfold varIndex
    rw [List.findIdx?_eq_none_iff]
    intro w hw
    simp only [decide_eq_false_iff_not]
    intro he; exact hx (List.mem_map.2 ⟨w, hw, he⟩)
  have hidx : varIndex s.globals x = some pre.length := by rw [hs]; exact varIndex_append v hnone
  obtain ⟨rest, hr, hl⟩ := C24_earlier_partial B pre [] ⟨v, x⟩
  have hrest : rest = [] := List.length_eq_zero_iff.1 hl
  have hd : idDel B s x = (true, { s with globals := pre }) := by
    unfold idDel
    rw [hidx]
    simp only [hs, hr, hrest, List.append_nil]
  rw [hd]
  refine ⟨rfl, rfl, look_none.1 hnone, ?_⟩
  intro y hy
  rw [hs, look_append v hnone]
  simp [Spec.upd, hy]

/-- The full claim is false: with globals `x` then `y`, `del x` leaves `y` undefined (32-bit layout). -/
theorem C24_violated :
    let s : Frames Poly Unit := ⟨[⟨0x3f800000#32, 100⟩, ⟨0x40000000#32, 101⟩], []⟩
    look s.globals 101 = some 0x40000000#32 ∧ look (idDel (polyVarBytes 4 0) s 100).2.globals 101 = none := by
  constructor <;> decide +kernel

/-- The same on the 16-bit targets. -/
theorem C24_violated_16bit :
    let s : Frames Poly Unit := ⟨[⟨0x3f800000#32, 100⟩, ⟨0x40000000#32, 101⟩], []⟩
    look (idDel (polyVarBytes 2 2) s 100).2.globals 101 = none ∧ look (idDel (polyVarBytes 2 0) s 100).2.globals 101 = none := by
  constructor <;> decide +kernel

/-- `del` inside a function of a name that is local there removes the global of that name and keeps the local. -/
theorem C24_violated_local :
    let s : Frames Poly Unit := ⟨[⟨0x3f800000#32, 100⟩], [⟨[⟨0x40000000#32, 100⟩], (), 0⟩]⟩
    idRead (idDel (polyVarBytes 4 0) s 100).2 100 = some 0x40000000#32 ∧ look (idDel (polyVarBytes 4 0) s 100).2.globals 100 = none := by
  constructor <;> decide +kernel

/-- Three globals, the last one deleted. -/
example : ∃ (s : Frames Poly Unit) (pre : List (Var Poly)) (x : Nat) (v : Poly), s.globals = pre ++ [⟨v, x⟩] ∧ pre.length = 2 ∧
    (s.globals.map (·.id)).Nodup ∧ ∀ w ∈ pre, w.id < 256 ^ 4 :=
  ⟨⟨[⟨1, 100⟩, ⟨2, 101⟩, ⟨3, 102⟩], []⟩, [⟨1, 100⟩, ⟨2, 101⟩], 102, 3, rfl, rfl, by decide, by decide⟩

end Snek
