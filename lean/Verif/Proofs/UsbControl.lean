import Verif.Model.UsbControl
/-! # Endpoint 0: the table, and the invariant -/
namespace Snek.UsbControl
open Spec.UsbControl

/-- A table of descriptors: each begins with its length and has a type; those of type 2 say (in fewer than 256 bytes) how much belongs to them. -/
def WfList : List (List UInt8) → Prop
  | [] => True
  | b :: l => (2 ≤ b.length ∧ b.length < 256 ∧ b.getD 0 0 = UInt8.ofNat b.length ∧
      (b.getD 1 0 = 2 → 4 ≤ b.length ∧ b.getD 3 0 = 0 ∧ (b.getD 2 0).toNat ≤ (b :: l).flatten.length)) ∧ WfList l

/-- The table in tableOf: the descriptors and a zero. -/
def tableOf (blocks : List (List UInt8)) : List UInt8 := blocks.flatten ++ [0]

theorem getD_append {b l : List UInt8} {i : Nat} (h : i < b.length) : (b ++ l).getD i 0 = b.getD i 0 := by
  simp only [List.getD_eq_getElem?_getD, List.getElem?_append_left h]

/-- The loop finds what the specification says. -/
theorem walk_find (t : Nat) (ht : t < 256) : ∀ (blocks : List (List UInt8)) (fuel i : Nat), WfList blocks → blocks.length < fuel →
    match walk t fuel i (tableOf blocks), find t i blocks with
    | none, [] => True
    | some (d, n), b :: l => d = tableOf (b :: l) ∧ WfList (b :: l) ∧ (b.getD 1 0).toNat = t ∧ n = (if t = 2 then (b.getD 2 0).toNat else b.length)
    | _, _ => False := by
  intro blocks
  induction blocks with
  | nil =>
    intro fuel i _ hf
    cases fuel with
    | zero => simp at hf
    | succ f => simp [walk, find, tableOf]
  | cons b l ih =>
    intro fuel i hw hf
    cases fuel with
    | zero => simp at hf
    | succ f =>
      have hw' := hw
      obtain ⟨⟨h1, h2, h3, _⟩, hl⟩ := hw
      have m0 : (tableOf (b :: l)).getD 0 0 = b.getD 0 0 := by
        unfold tableOf; rw [List.flatten_cons, List.append_assoc]; exact getD_append (by omega)
      have m1 : (tableOf (b :: l)).getD 1 0 = b.getD 1 0 := by
        unfold tableOf; rw [List.flatten_cons, List.append_assoc]; exact getD_append (by omega)
      have n0 : (b.getD 0 0).toNat = b.length := by
        rw [h3, UInt8.toNat_ofNat']; exact Nat.mod_eq_of_lt h2
      have md : (tableOf (b :: l)).drop b.length = tableOf l := by
        unfold tableOf; rw [List.flatten_cons, List.append_assoc, List.drop_left]
      have e1 : b[1]? = some (b.getD 1 0) := by
        rw [List.getD_eq_getElem?_getD, List.getElem?_eq_getElem (by omega)]; rfl
      have et : ((b.getD 1 0).toNat = t) ↔ (b.getD 1 0 = UInt8.ofNat t) := by
        rw [← UInt8.toNat_inj, UInt8.toNat_ofNat', Nat.mod_eq_of_lt (by omega)]
      unfold walk find
      simp only [m0, m1, n0, md, e1, Option.some.injEq]
      rw [if_neg (by omega)]
      by_cases c : (b.getD 1 0).toNat = t
      · rw [if_pos c, if_pos (et.mp c)]
        cases i with
        | zero =>
          refine ⟨rfl, hw', c, ?_⟩
          by_cases c2 : t = 2
          · rw [if_pos c2, if_pos c2]
            have h4 := (hw'.1.2.2.2 (by rw [← UInt8.toNat_inj, c, c2]; rfl)).1
            unfold tableOf; rw [List.flatten_cons, List.append_assoc, getD_append (by omega)]
          · rw [if_neg c2, if_neg c2]
        | succ i => exact ih f i hl (by simp at hf; omega)
      · rw [if_neg c, if_neg (fun h => c (et.mpr h))]
        exact ih f i hl (by simp at hf; omega)

theorem wf_length : ∀ {blocks : List (List UInt8)}, WfList blocks → blocks.length < (tableOf blocks).length
  | [], _ => by simp [tableOf]
  | b :: l, h => by
    have := wf_length h.2
    have := h.1.1
    simp only [tableOf, List.flatten_cons, List.length_append, List.length_cons] at *
    omega

/-- A board whose table is one. -/
def Wf (board : Board) : Prop := WfList board.blocks

/-- What is in memory: the table, and the number in four words. -/
def memory (board : Board) : Mem :=
  { table := tableOf board.blocks
    serial := serialInit (board.id / 2 ^ 96 % 2 ^ 32) (board.id / 2 ^ 64 % 2 ^ 32) (board.id / 2 ^ 32 % 2 ^ 32) (board.id % 2 ^ 32) }

theorem hex_digit (n : Nat) (h : n < 16) :
    UInt8.ofNat ((if n < 10 then 48 else 97 - 10) + n) = UInt8.ofNat ("0123456789abcdef".toList.getD n '?').toNat := by
  have : ∀ n : Fin 16, UInt8.ofNat ((if n.val < 10 then 48 else 97 - 10) + n.val) = UInt8.ofNat ("0123456789abcdef".toList.getD n.val '?').toNat := by decide +kernel
  exact this ⟨n, h⟩

theorem hexToUcs2_eq (id j : Nat) : hexToUcs2 (id / 2 ^ (32 * j) % 2 ^ 32) =
    [7, 6, 5, 4, 3, 2, 1, 0].flatMap fun k => [UInt8.ofNat ("0123456789abcdef".toList.getD (id / 16 ^ (8 * j + k) % 16) '?').toNat, 0] := by
  have key : ∀ k, k < 8 → ((id / 2 ^ (32 * j) % 2 ^ 32) >>> (4 * k)) &&& 0xf = id / 16 ^ (8 * j + k) % 16 := by
    intro k hk
    have e1 : ∀ x, x &&& 0xf = x % 16 := fun x => Nat.and_two_pow_sub_one_eq_mod x 4
    rw [e1, Nat.shiftRight_eq_div_pow, Nat.pow_add, ← Nat.div_div_eq_div_mul, show (16 : Nat) = 2 ^ 4 from rfl, ← Nat.pow_mul, ← Nat.pow_mul,
      show 4 * (8 * j) = 32 * j from by omega]
    generalize id / 2 ^ (32 * j) = x
    match k, hk with
    | 0, _ => simp
    | 1, _ => simp; omega
    | 2, _ => simp; omega
    | 3, _ => simp; omega
    | 4, _ => simp; omega
    | 5, _ => simp; omega
    | 6, _ => simp; omega
    | 7, _ => simp; omega
  unfold hexToUcs2
  simp only [List.flatMap_cons, List.flatMap_nil]
  have k0 := key 0 (by omega); have k1 := key 1 (by omega); have k2 := key 2 (by omega); have k3 := key 3 (by omega)
  have k4 := key 4 (by omega); have k5 := key 5 (by omega); have k6 := key 6 (by omega); have k7 := key 7 (by omega)
  simp only [Nat.mul_zero, Nat.reduceMul] at k0 k1 k2 k3 k4 k5 k6 k7
  rw [k0, k1, k2, k3, k4, k5, k6, k7]
  have m : ∀ x, x % 16 < 16 := fun x => Nat.mod_lt _ (by omega)
  simp only [hex_digit _ (m _)]

/-- What is sent as the number of the board is its number. -/
theorem serial_eq (board : Board) : (memory board).serial = serial board.id := by
  have h3 := hexToUcs2_eq board.id 3
  have h2 := hexToUcs2_eq board.id 2
  have h1 := hexToUcs2_eq board.id 1
  have h0 := hexToUcs2_eq board.id 0
  simp only [Nat.mul_zero, Nat.pow_zero, Nat.div_one, Nat.reduceMul] at h3 h2 h1 h0
  unfold memory serialInit serial
  rw [h3, h2, h1, h0, show List.range 32 = [0, 1, 2, 3, 4, 5, 6, 7, 8, 9, 10, 11, 12, 13, 14, 15, 16, 17, 18, 19, 20, 21, 22, 23, 24, 25, 26, 27, 28, 29, 30, 31] from by decide]
  simp only [List.flatMap_cons, List.flatMap_nil, List.append_nil, List.cons_append, List.nil_append, Nat.reduceAdd, Nat.reduceSub]

/-- What `getDescriptor` leaves to be sent, of as much as is wanted. -/
theorem getDescriptor_reply {blocks : Board} (hw : Wf blocks) (s : Dev) (h0 : s.inLen = 0) (value length : Nat) (hv : value < 65536) :
    let s' := getDescriptor (memory blocks) s value length
    (s'.inData.take s'.inLen).take length = (descriptor blocks value).take length ∧ s'.inLen ≤ length ∧
      s'.inData.take s'.inLen = (descriptor blocks value).take length ∧ (s'.inLen ≤ s'.inData.length) := by
  have key := walk_find (value / 256) (by omega) blocks.blocks (memory blocks).table.length (value % 256) hw (wf_length hw)
  rw [show (memory blocks).table = tableOf blocks.blocks from rfl] at key
  unfold getDescriptor descriptor
  dsimp only
  rw [show (memory blocks).table = tableOf blocks.blocks from rfl]
  split at key
  · rename_i e1 e2
    rw [e1, e2]
    simp [h0]
  · rename_i d n b l e1 e2
    obtain ⟨k1, k2, k3, k4⟩ := key
    rw [e1, e2]
    simp only [inSet]
    have hmin : ∀ n, (if n > length then length else n) = min length n := by intro n; split <;> omega
    by_cases c3 : value / 256 = 3 ∧ value % 256 = 3
    · have c2 : ¬ value / 256 = 2 := by omega
      simp only [if_pos c3, if_neg c2, hmin, serial_eq]
      refine ⟨?_, by omega, ?_, by omega⟩
      · rw [List.take_take]
        by_cases c : (serial blocks.id).length ≤ length
        · rw [List.take_of_length_le (by omega), List.take_of_length_le c]
        · congr 1; omega
      · by_cases c : (serial blocks.id).length ≤ length
        · rw [List.take_of_length_le (by omega), List.take_of_length_le c]
        · congr 1; omega
    rw [if_neg c3]
    dsimp only
    have hfin : ∃ m, n = m ∧ (if value / 256 = 2 then (b :: l).flatten.take ((b.getD 2 0).toNat + 256 * (b.getD 3 0).toNat) else if value / 256 = 3 ∧ value % 256 = 3 then serial blocks.id else b) = d.take m ∧ m ≤ d.length := by
      refine ⟨n, rfl, ?_, ?_⟩
      · rw [k1, k4]
        by_cases c2 : value / 256 = 2
        · rw [if_pos c2, if_pos c2]
          obtain ⟨q1, q2, q3⟩ := k2.1.2.2.2 (by rw [← UInt8.toNat_inj, k3, c2]; rfl)
          rw [q2]
          unfold tableOf
          rw [List.take_append_of_le_length q3]
          simp
        · rw [if_neg c2, if_neg c2, if_neg c3]
          unfold tableOf
          rw [List.flatten_cons, List.append_assoc, List.take_left]
      · rw [k1, k4]
        unfold tableOf
        by_cases c2 : value / 256 = 2
        · rw [if_pos c2]
          obtain ⟨q1, q2, q3⟩ := k2.1.2.2.2 (by rw [← UInt8.toNat_inj, k3, c2]; rfl)
          rw [List.length_append]; omega
        · rw [if_neg c2]; simp only [List.flatten_cons, List.length_append]; omega
    obtain ⟨m, rfl, hm, hle⟩ := hfin
    rw [hm]
    rw [hmin]
    refine ⟨?_, by omega, ?_, by omega⟩
    · rw [List.take_take, List.take_take]; congr 1; omega
    · rw [List.take_take]
  · exact key.elim

/-! ## Requests -/

/-- A host that keeps to the rules: it sends data only to set the line coding, and 7 bytes then; an address is given without data. -/
structure Polite (r : Req) : Prop where
  value : r.value < 65536
  coding : setsCoding r = true → r.length = 7 ∧ r.data.length = 7
  data : r.dirIn = false → r.length = 0 ∨ setsCoding r = true
  address : setsAddress r = true → r.dirIn = false ∧ r.length = 0 ∧ r.value < 128

/-- What a request is to get does not come to exactly what was wanted in full packets. -/
def Loose (blocks : Board) (r : Req) : Prop :=
  r.length % 32 ≠ 0 ∨ r.length = 0 ∨ (getsDescriptor r = true → (descriptor blocks r.value).length < r.length)

/-- What is to be sent. -/
structure Good (blocks : Board) (hist : List Req) (r : Req) (D : List UInt8) : Prop where
  le : D.length ≤ r.length
  loose : D.length % 32 ≠ 0 ∨ D.length < r.length ∨ r.length = 0
  right : getsConfiguration r = false → D = answer blocks hist r

theorem dispatch_frame (mem : Mem) (s : Dev) (r : Req) :
    (dispatch mem s r).state = s.state ∧ (dispatch mem s r).bk1 = s.bk1 ∧ (dispatch mem s r).bk0 = s.bk0 ∧ (dispatch mem s r).work = s.work ∧
    (dispatch mem s r).rxstp = s.rxstp ∧ (dispatch mem s r).trcpt0 = s.trcpt0 ∧ (dispatch mem s r).trcpt1 = s.trcpt1 ∧
    (dispatch mem s r).coding = s.coding ∧ (dispatch mem s r).dadd = s.dadd := by
  have gd : ∀ v l, (getDescriptor mem s v l).state = s.state ∧ (getDescriptor mem s v l).bk1 = s.bk1 ∧ (getDescriptor mem s v l).bk0 = s.bk0 ∧
      (getDescriptor mem s v l).work = s.work ∧ (getDescriptor mem s v l).rxstp = s.rxstp ∧ (getDescriptor mem s v l).trcpt0 = s.trcpt0 ∧
      (getDescriptor mem s v l).trcpt1 = s.trcpt1 ∧ (getDescriptor mem s v l).coding = s.coding ∧ (getDescriptor mem s v l).dadd = s.dadd := by
    intro v l
    unfold getDescriptor
    split
    · exact ⟨rfl, rfl, rfl, rfl, rfl, rfl, rfl, rfl, rfl⟩
    · exact ⟨rfl, rfl, rfl, rfl, rfl, rfl, rfl, rfl, rfl⟩
  have q : ∀ (s : Dev) (a : UInt8), (queue s a).state = s.state ∧ (queue s a).bk1 = s.bk1 ∧ (queue s a).bk0 = s.bk0 ∧ (queue s a).work = s.work ∧
      (queue s a).rxstp = s.rxstp ∧ (queue s a).trcpt0 = s.trcpt0 ∧ (queue s a).trcpt1 = s.trcpt1 ∧ (queue s a).coding = s.coding ∧
      (queue s a).dadd = s.dadd := by
    intro s a
    unfold queue
    split <;> exact ⟨rfl, rfl, rfl, rfl, rfl, rfl, rfl, rfl, rfl⟩
  have qq : ∀ (a b : UInt8), (queue (queue s a) b).state = s.state ∧ (queue (queue s a) b).bk1 = s.bk1 ∧ (queue (queue s a) b).bk0 = s.bk0 ∧
      (queue (queue s a) b).work = s.work ∧ (queue (queue s a) b).rxstp = s.rxstp ∧ (queue (queue s a) b).trcpt0 = s.trcpt0 ∧
      (queue (queue s a) b).trcpt1 = s.trcpt1 ∧ (queue (queue s a) b).coding = s.coding ∧ (queue (queue s a) b).dadd = s.dadd := by
    intro a b
    obtain ⟨a1, a2, a3, a4, a5, a6, a7, a8, a9⟩ := q s a
    obtain ⟨b1, b2, b3, b4, b5, b6, b7, b8, b9⟩ := q (queue s a) b
    exact ⟨b1.trans a1, b2.trans a2, b3.trans a3, b4.trans a4, b5.trans a5, b6.trans a6, b7.trans a7, b8.trans a8, b9.trans a9⟩
  unfold dispatch
  split
  · split
    · split
      · exact qq 0 0
      · exact ⟨rfl, rfl, rfl, rfl, rfl, rfl, rfl, rfl, rfl⟩
      · exact gd _ _
      · exact q _ _
      · exact ⟨rfl, rfl, rfl, rfl, rfl, rfl, rfl, rfl, rfl⟩
      · exact ⟨rfl, rfl, rfl, rfl, rfl, rfl, rfl, rfl, rfl⟩
    · split
      · exact qq 0 0
      · exact q _ _
      · exact ⟨rfl, rfl, rfl, rfl, rfl, rfl, rfl, rfl, rfl⟩
    · split
      · exact qq 0 0
      · exact ⟨rfl, rfl, rfl, rfl, rfl, rfl, rfl, rfl, rfl⟩
    · exact ⟨rfl, rfl, rfl, rfl, rfl, rfl, rfl, rfl, rfl⟩
  · split
    · exact ⟨rfl, rfl, rfl, rfl, rfl, rfl, rfl, rfl, rfl⟩
    · exact ⟨rfl, rfl, rfl, rfl, rfl, rfl, rfl, rfl, rfl⟩
    · exact ⟨rfl, rfl, rfl, rfl, rfl, rfl, rfl, rfl, rfl⟩
  · exact ⟨rfl, rfl, rfl, rfl, rfl, rfl, rfl, rfl, rfl⟩

/-- What the request leaves to be sent. -/
theorem dispatch_reply {blocks : Board} (hw : Wf blocks) (hist : List Req) (s : Dev) (r : Req) (hp : Polite r)
    (hc : s.coding = coding hist) (hc7 : s.coding.length = 7) (hl : Loose blocks r) :
    let s' := dispatch (memory blocks) (inReset s) r
    s'.inLen ≤ s'.inData.length ∧ Good blocks hist r ((s'.inData.take s'.inLen).take r.length) := by
  have fin : ∀ (s' : Dev) (D : List UInt8), s'.inData = D → s'.inLen = D.length → D.length < 32 →
      (getsConfiguration r = false → D.take r.length = answer blocks hist r) →
      s'.inLen ≤ s'.inData.length ∧ Good blocks hist r ((s'.inData.take s'.inLen).take r.length) := by
    intro s' D e1 e2 e3 e4
    subst e1
    rw [e2, List.take_length]
    refine ⟨Nat.le_refl _, by rw [List.length_take]; omega, ?_, e4⟩
    rw [List.length_take]
    omega
  unfold dispatch
  dsimp only
  split
  · rename_i t0
    split
    · rename_i r0
      split
      · rename_i q0
        refine fin _ [0, 0] rfl rfl (by decide) (fun _ => ?_)
        simp [answer, full, t0, r0, q0]
      · rename_i q5
        refine fin _ [] rfl rfl (by decide) (fun _ => ?_)
        simp [answer, full, t0, r0, q5, getsDescriptor, getsConfiguration, getsCoding]
      · rename_i q6
        have hg : getsDescriptor r = true := by simp [getsDescriptor, t0, r0, q6]
        obtain ⟨k1, k2, k3, k4⟩ := getDescriptor_reply hw (inReset s) rfl r.value r.length hp.value
        refine ⟨k4, by rw [List.length_take]; omega, ?_, fun _ => ?_⟩
        · rw [k1, List.length_take]
          rcases hl with h | h | h
          · omega
          · exact Or.inr (Or.inr h)
          · have := h hg; omega
        · rw [k1]
          simp [answer, full, t0, r0, q6, getsDescriptor]
      · rename_i q8
        refine fin _ [s.configuration] rfl rfl (by simp) (fun h => ?_)
        simp [getsConfiguration, t0, r0, q8] at h
      · rename_i q9
        refine fin _ [] rfl rfl (by decide) (fun _ => ?_)
        simp [answer, full, t0, r0, q9, getsDescriptor, getsConfiguration, getsCoding]
      · rename_i n1 n2 n3 n4 n5
        refine fin _ [] rfl rfl (by decide) (fun h => ?_)
        have m1 : r.request ≠ 0 := n1
        have m3 : r.request ≠ 6 := n3
        have m4 : r.request ≠ 8 := n4
        simp [answer, full, t0, r0, m1, m3, m4, getsDescriptor, getsConfiguration, getsCoding]
    · rename_i r1
      split
      · rename_i q0
        refine fin _ [0, 0] rfl rfl (by decide) (fun _ => ?_)
        simp [answer, full, t0, r1, q0]
      · rename_i q10
        refine fin _ [0] rfl rfl (by decide) (fun _ => ?_)
        simp [answer, full, t0, r1, q10, getsDescriptor, getsConfiguration]
      · rename_i n1 n2
        refine fin _ [] rfl rfl (by decide) (fun h => ?_)
        have m1 : r.request ≠ 0 := n1
        have m2 : r.request ≠ 10 := n2
        simp [answer, full, t0, r1, m1, m2, getsDescriptor, getsConfiguration, getsCoding]
    · rename_i r2
      split
      · rename_i q0
        refine fin _ [0, 0] rfl rfl (by decide) (fun _ => ?_)
        simp [answer, full, t0, r2, q0]
      · rename_i n1
        refine fin _ [] rfl rfl (by decide) (fun h => ?_)
        have m1 : r.request ≠ 0 := n1
        simp [answer, full, t0, r2, m1, getsDescriptor, getsConfiguration, getsCoding]
    · rename_i n0 n1 n2
      refine fin _ [] rfl rfl (by decide) (fun h => ?_)
      have m0 : r.recip ≠ 0 := n0
      have m1 : r.recip ≠ 1 := n1
      have m2 : r.recip ≠ 2 := n2
      have m3 : ¬ r.recip ≤ 2 := by omega
      simp [answer, full, t0, m0, m1, m3, getsDescriptor, getsConfiguration, getsCoding]
  · rename_i t1
    split
    · rename_i q
      refine fin _ [] rfl rfl (by decide) (fun _ => ?_)
      simp [answer, full, t1, q, getsDescriptor, getsConfiguration, getsCoding]
    · rename_i q
      refine fin _ s.coding rfl hc7.symm (by omega) (fun _ => ?_)
      simp [answer, full, t1, q, getsDescriptor, getsConfiguration, getsCoding, hc]
    · rename_i n1 n2
      refine fin _ [] rfl rfl (by decide) (fun _ => ?_)
      have m2 : r.request ≠ 0x21 := n2
      simp [answer, full, t1, m2, getsDescriptor, getsConfiguration, getsCoding]
  · rename_i n0 n1
    refine fin _ [] rfl rfl (by decide) (fun _ => ?_)
    have m0 : r.type ≠ 0 := n0
    have m1 : r.type ≠ 1 := n1
    simp [answer, full, m0, m1, getsDescriptor, getsConfiguration, getsCoding]

theorem coding_snoc (l : List Req) (r : Req) : coding (l ++ [r]) = if setsCoding r then r.data else coding l := by
  induction l with
  | nil => simp [coding]
  | cons a l ih =>
    rw [List.cons_append, coding, ih, coding]
    by_cases h : setsCoding r
    · simp [h]
    · simp [h, List.any_append]

/-! ## The invariant -/

/-- The work of the handler: at most one of the first two, then the third. -/
def WorkOk (l : List Work) : Prop := l = [] ∨ l = [.setup] ∨ l = [.rx] ∨ l = [.tx] ∨ l = [.setup, .tx] ∨ l = [.rx, .tx]

/-- A request that the device has not looked at. -/
structure Fresh (d : Dev) (r : Req) : Prop where
  state : d.state = .idle
  bk1 : d.bk1 = none
  bk0 : d.bk0 = true
  out : d.outBuf = .setup r
  when : (d.rxstp = true ∧ .setup ∉ d.work) ∨ (d.rxstp = false ∧ d.work.head? = some .setup ∧ d.trcpt0 = false)

/-- No request to look at. -/
structure Seen (d : Dev) : Prop where
  rxstp : d.rxstp = false
  work : .setup ∉ d.work

/-- The data `D` is being sent, the host has `got`. -/
structure Sending (d : Dev) (r : Req) (got D : List UInt8) : Prop where
  seen : Seen d
  bk0 : d.bk0 = false
  full : got.length % 32 = 0
  lt : got.length < r.length
  all : got ++ d.bk1.getD [] ++ d.inData.take d.inLen = D
  len : d.inLen ≤ d.inData.length
  wait : d.bk1 = none → d.state = .dataIn ∧ (d.trcpt1 = true ∨ .tx ∈ d.work)
  ready : ∀ p, d.bk1 = some p → (p.length = 32 ∧ d.state = .dataIn) ∨ (p.length < 32 ∧ d.state = .idle ∧ d.inLen = 0)

/-- Waiting for the data of the line coding. -/
structure Waiting (d : Dev) : Prop where
  seen : Seen d
  state : d.state = .dataOut
  bk1 : d.bk1 = none
  outLen : d.outLen = 7
  outOff : d.outOff = 0

/-- The empty packet that ends a request is there. -/
structure Acked (d : Dev) : Prop where
  seen : Seen d
  state : d.state = .idle
  bk1 : d.bk1 = some []

/-- What holds of device and host between requests and in each part of one. -/
def PhaseOk (blocks : Board) (hist : List Req) (d : Dev) : Phase → Prop
  | .idle => Seen d ∧ d.state = .idle ∧ d.bk1 = none ∧ d.coding = coding hist
  | .dataIn r got => (Polite r ∧ Loose blocks r ∧ r.dirIn = true ∧ r.length ≠ 0) ∧ d.coding = coding hist ∧
      ((got = [] ∧ Fresh d r) ∨ ∃ D, Good blocks hist r D ∧ Sending d r got D)
  | .statusOut r got => Seen d ∧ d.state = .idle ∧ d.bk1 = none ∧ d.coding = coding hist ∧ d.bk0 = false ∧ setsCoding r = false ∧ Good blocks hist r got ∧
      setsAddress r = false
  | .dataOut r => (Polite r ∧ setsCoding r = true) ∧ d.coding = coding hist ∧
      (Fresh d r ∨ (Waiting d ∧ d.bk0 = false ∧ d.trcpt0 = false ∧ .rx ∉ d.work))
  | .statusIn r => (Polite r ∧ Loose blocks r) ∧
      ((r.length = 0 ∧ d.coding = coding hist ∧ (Fresh d r ∨ Acked d)) ∨
       (setsCoding r = true ∧ ((Waiting d ∧ d.coding = coding hist ∧ d.bk0 = true ∧ d.outBuf = .data r.data ∧ (d.trcpt0 = true ∨ .rx ∈ d.work)) ∨
         (Acked d ∧ d.coding = r.data))))

/-- What was got for the requests that are done. -/
def LogOk (blocks : Board) (done : List (Req × List UInt8)) : Prop :=
  ∀ (i : Nat) (r : Req) (got : List UInt8), done[i]? = some (r, got) → getsConfiguration r = false →
    got = answer blocks ((done.take i).map Prod.fst) r

structure Inv (blocks : Board) (s : State) : Prop where
  work : WorkOk s.dev.work
  coding : (coding (s.done.map Prod.fst)).length = 7
  phase : PhaseOk blocks (s.done.map Prod.fst) s.dev s.phase
  log : LogOk blocks s.done

theorem log_snoc {blocks : Board} {done : List (Req × List UInt8)} {r : Req} {got : List UInt8} (h : LogOk blocks done)
    (hr : getsConfiguration r = false → got = answer blocks (done.map Prod.fst) r) : LogOk blocks (done ++ [(r, got)]) := by
  intro i r' got' hi hg
  by_cases hlt : i < done.length
  · rw [List.getElem?_append_left hlt] at hi
    rw [List.take_append_of_le_length (by omega)]
    exact h i r' got' hi hg
  · have hil : i < (done ++ [(r, got)]).length := (List.getElem?_eq_some_iff.mp hi).1
    rw [List.length_append, List.length_singleton] at hil
    have e : i = done.length := by omega
    subst e
    rw [List.getElem?_append_right (Nat.le_refl _), Nat.sub_self, List.getElem?_cons_zero, Option.some.injEq, Prod.mk.injEq] at hi
    obtain ⟨rfl, rfl⟩ := hi
    rw [List.take_append_of_le_length (Nat.le_refl _), List.take_length]
    exact hr hg

/-- Sending the next packet. -/
theorem flush_sending {d : Dev} {r : Req} {got D : List UInt8} (hs : Seen d) (h0 : d.bk0 = false) (hf : got.length % 32 = 0) (hlt : got.length < r.length)
    (hst : d.state = .dataIn) (hn : d.bk1 = none) (ha : got ++ d.inData.take d.inLen = D) (hl : d.inLen ≤ d.inData.length) : Sending (flush d) r got D := by
  have hfl : flush d = { d with
      state := (if (if d.inLen > 32 then 32 else d.inLen) < 32 then .idle else d.state)
      inLen := d.inLen - (if d.inLen > 32 then 32 else d.inLen)
      inData := d.inData.drop (if d.inLen > 32 then 32 else d.inLen)
      bk1 := some (d.inData.take (if d.inLen > 32 then 32 else d.inLen)) } := by
    unfold flush; rw [hn]; rfl
  rw [hfl]
  have hmin : (if d.inLen > 32 then 32 else d.inLen) = min 32 d.inLen := by split <;> omega
  rw [hmin]
  refine ⟨⟨hs.1, hs.2⟩, h0, hf, hlt, ?_, ?_, (by intro h; cases h), ?_⟩
  · rw [← ha]
    dsimp only [Option.getD_some]
    rw [List.append_assoc]
    congr 1
    rw [show d.inLen - min 32 d.inLen = d.inLen - (min 32 d.inLen) from rfl, ← List.drop_take]
    have := List.take_append_drop (min 32 d.inLen) (d.inData.take d.inLen)
    rw [List.take_take, Nat.min_eq_left (by omega)] at this
    exact this
  · dsimp only; rw [List.length_drop]; omega
  · intro p hp
    dsimp only at hp ⊢
    cases hp
    rw [List.length_take]
    by_cases c : min 32 d.inLen < 32
    · right; refine ⟨by omega, by rw [if_pos c], by omega⟩
    · left; refine ⟨by omega, by rw [if_neg c]; exact hst⟩

theorem flush_busy {d : Dev} {p : List UInt8} (h : d.bk1 = some p) : flush d = d := by
  unfold flush; rw [h]; rfl

/-- The address does not matter here. -/
def settle (s : Dev) : Dev := if s.pending then { s with dadd := s.address, pending := false } else s

theorem settle_phase {blocks : Board} {hist : List Req} {d : Dev} {ph : Phase} (h : PhaseOk blocks hist d ph) :
    PhaseOk blocks hist (settle d) ph := by
  unfold settle
  split
  · cases ph with
    | idle => exact ⟨⟨h.1.1, h.1.2⟩, h.2⟩
    | dataIn r got =>
      refine ⟨h.1, h.2.1, ?_⟩
      rcases h.2.2 with ⟨e, f⟩ | ⟨D, g, q⟩
      · exact Or.inl ⟨e, ⟨f.1, f.2, f.3, f.4, f.5⟩⟩
      · exact Or.inr ⟨D, g, ⟨⟨q.1.1, q.1.2⟩, q.2, q.3, q.4, q.5, q.6, q.7, q.8⟩⟩
    | statusOut r got => exact ⟨⟨h.1.1, h.1.2⟩, h.2⟩
    | dataOut r =>
      refine ⟨h.1, h.2.1, ?_⟩
      rcases h.2.2 with f | ⟨q, q'⟩
      · exact Or.inl ⟨f.1, f.2, f.3, f.4, f.5⟩
      · exact Or.inr ⟨⟨⟨q.1.1, q.1.2⟩, q.2, q.3, q.4, q.5⟩, q'⟩
    | statusIn r =>
      refine ⟨h.1, ?_⟩
      rcases h.2 with ⟨a, b, c⟩ | ⟨a, c⟩
      · refine Or.inl ⟨a, b, ?_⟩
        rcases c with f | q
        · exact Or.inl ⟨f.1, f.2, f.3, f.4, f.5⟩
        · exact Or.inr ⟨⟨q.1.1, q.1.2⟩, q.2, q.3⟩
      · refine Or.inr ⟨a, ?_⟩
        rcases c with ⟨q, q'⟩ | ⟨q, q'⟩
        · exact Or.inl ⟨⟨⟨q.1.1, q.1.2⟩, q.2, q.3, q.4, q.5⟩, q'⟩
        · exact Or.inr ⟨⟨⟨q.1.1, q.1.2⟩, q.2, q.3⟩, q'⟩
  · exact h

theorem settle_work (d : Dev) : (settle d).work = d.work := by unfold settle; split <;> rfl

theorem flush_work (d : Dev) : (flush d).work = d.work := by unfold flush; split <;> rfl

theorem inStart_work (d : Dev) (n : Nat) : (inStart d n).work = d.work := by unfold inStart; rw [flush_work]

theorem setup_work (mem : Mem) (d : Dev) : (setup mem d).work = d.work := by
  unfold setup
  split
  · rfl
  · rename_i r _
    dsimp only
    have := (dispatch_frame mem (inReset { d with outLen := 0, bk0 := false, state := if r.dirIn = true ∨ r.length = 0 then .dataIn else .dataOut }) r).2.2.2.1
    generalize dispatch mem (inReset { d with outLen := 0, bk0 := false, state := if r.dirIn = true ∨ r.length = 0 then .dataIn else .dataOut }) r = x at this ⊢
    by_cases c : x.state = .dataIn
    · rw [if_pos c, inStart_work]; exact this
    · rw [if_neg c]; exact this

theorem handle_work (mem : Mem) (d : Dev) (w : Work) : (handle mem d w).work = d.work := by
  cases w with
  | setup => exact setup_work mem d
  | rx =>
    have hf : (fill d).work = d.work := by unfold fill; split <;> rfl
    show (if d.state = .dataOut then if (fill d).outLen = 0 then inStart { fill d with state := .dataIn } 0 else fill d else d).work = d.work
    by_cases c : d.state = .dataOut
    · rw [if_pos c]
      by_cases c' : (fill d).outLen = 0
      · rw [if_pos c', inStart_work]; exact hf
      · rw [if_neg c']; exact hf
    · rw [if_neg c]
  | tx =>
    show (settle (if d.state = .dataIn then flush d else d)).work = d.work
    rw [settle_work]
    split
    · exact flush_work d
    · rfl

theorem flush_zero {d : Dev} (hs : Seen d) (hn : d.bk1 = none) (h0 : d.inLen = 0) : Acked (flush d) ∧ (flush d).coding = d.coding := by
  have hfl : flush d = { d with state := .idle, inLen := 0, inData := d.inData, bk1 := some [] } := by
    unfold flush; rw [hn, h0]; rfl
  rw [hfl]
  exact ⟨⟨⟨hs.1, hs.2⟩, rfl, rfl⟩, rfl⟩

theorem flush_coding (d : Dev) : (flush d).coding = d.coding := by unfold flush; split <;> rfl

/-- The device looks at a request. -/
theorem setup_fresh {blocks : Board} (hw : Wf blocks) {hist : List Req} {d : Dev} {r : Req} (hp : Polite r) (hl : Loose blocks r)
    (hc : d.coding = coding hist) (hc7 : (coding hist).length = 7) (hseen : Seen d) (hbk1 : d.bk1 = none) (hout : d.outBuf = .setup r)
    (ht0 : d.trcpt0 = false) (hrx : .rx ∉ d.work) :
    PhaseOk blocks hist (setup (memory blocks) d) (afterSetup r) := by
  obtain ⟨x, hx⟩ : ∃ x, x = dispatch (memory blocks)
    (inReset { d with outLen := 0, bk0 := false, state := if r.dirIn = true ∨ r.length = 0 then .dataIn else .dataOut }) r := ⟨_, rfl⟩
  obtain ⟨f1, f2, f3, f4, f5, f6, f7, f8, f9⟩ := dispatch_frame (memory blocks)
    (inReset { d with outLen := 0, bk0 := false, state := if r.dirIn = true ∨ r.length = 0 then .dataIn else .dataOut }) r
  obtain ⟨g1, g2⟩ := dispatch_reply hw hist { d with outLen := 0, bk0 := false, state := if r.dirIn = true ∨ r.length = 0 then .dataIn else .dataOut } r hp
    hc (by show d.coding.length = 7; rw [hc]; exact hc7) hl
  rw [← hx] at f1 f2 f3 f4 f5 f6 f7 f8 f9 g1 g2
  have hset : setup (memory blocks) d = if x.state = .dataIn then inStart x r.length else x := by
    rw [hx]
    unfold setup
    split
    · rename_i h; rw [hout] at h; cases h
    · rename_i h; rw [hout] at h; cases h; rfl
  have xs : Seen x := ⟨f5.trans hseen.1, by rw [f4]; exact hseen.2⟩
  have xb : x.bk1 = none := f2.trans hbk1
  have xc : x.coding = coding hist := f8.trans hc
  have xst : x.state = if r.dirIn = true ∨ r.length = 0 then .dataIn else .dataOut := f1
  have hmin : (if x.inLen > r.length then r.length else x.inLen) = min r.length x.inLen := by split <;> omega
  rw [hset]
  unfold afterSetup
  by_cases c0 : r.length = 0
  · rw [if_pos c0, if_pos (by rw [xst, if_pos (Or.inr c0)])]
    unfold inStart
    rw [hmin]
    obtain ⟨a, b⟩ := flush_zero (d := { x with inLen := min r.length x.inLen }) ⟨xs.1, xs.2⟩ xb (by dsimp only; omega)
    exact ⟨⟨hp, hl⟩, Or.inl ⟨c0, b.trans xc, Or.inr a⟩⟩
  · rw [if_neg c0]
    by_cases c1 : r.dirIn = true
    · rw [if_pos c1, if_pos (by rw [xst, if_pos (Or.inl c1)])]
      refine ⟨⟨hp, hl, c1, c0⟩, ?_, Or.inr ⟨_, g2, ?_⟩⟩
      · unfold inStart; rw [flush_coding]; exact xc
      · unfold inStart
        rw [hmin]
        refine flush_sending (d := { x with inLen := min r.length x.inLen }) ⟨xs.1, xs.2⟩ f3 rfl (by simp; omega) (xst.trans (if_pos (Or.inl c1))) xb ?_ ?_
        · rw [List.nil_append, List.take_take]
        · dsimp only; omega
    · have hst : x.state = .dataOut := by rw [xst, if_neg (fun h => h.elim c1 c0)]
      rw [if_neg c1, if_neg (by rw [hst]; decide)]
      have hsc : setsCoding r = true := (hp.data (by simpa using c1)).resolve_left c0
      have hx' : x.outOff = 0 ∧ x.outLen = 7 := by
        have ht : r.type = 1 := by unfold setsCoding at hsc; simp at hsc; omega
        have hq : r.request = 0x20 := by unfold setsCoding at hsc; simp at hsc; omega
        rw [hx]; unfold dispatch; rw [ht, hq]; exact ⟨rfl, rfl⟩
      refine ⟨⟨hp, hsc⟩, xc, Or.inr ⟨⟨xs, hst, xb, hx'.2, hx'.1⟩, f3, f6.trans ht0, by rw [f4]; exact hrx⟩⟩

/-- The handler does the next thing. -/
theorem handle_phase {blocks : Board} (hw : Wf blocks) {hist : List Req} {d : Dev} {ph : Phase} {w : Work} {l : List Work}
    (hc7 : (coding hist).length = 7) (hwork : WorkOk (w :: l)) (hd : d.work = w :: l) (h : PhaseOk blocks hist d ph) :
    PhaseOk blocks hist (handle (memory blocks) { d with work := l } w) ph := by
  have sub : ∀ v, v ∉ d.work → v ∉ l := fun v hv hm => hv (by rw [hd]; exact List.mem_cons_of_mem _ hm)
  cases w with
  | setup =>
    have hl : .rx ∉ l ∧ Work.setup ∉ l := by
      rcases hwork with e | e | e | e | e | e <;> cases e <;> decide
    have no : ¬ Seen d := fun hs => hs.2 (by rw [hd]; exact List.mem_cons_self)
    have fr : ∀ r, Fresh d r → Seen { d with work := l } ∧ d.trcpt0 = false := by
      intro r f
      rcases f.when with ⟨_, hn⟩ | ⟨a, _, c⟩
      · exact absurd (by rw [hd]; exact List.mem_cons_self) hn
      · exact ⟨⟨a, hl.2⟩, c⟩
    show PhaseOk blocks hist (setup (memory blocks) { d with work := l }) ph
    cases ph with
    | idle => exact absurd h.1 no
    | dataIn r got =>
      obtain ⟨⟨p1, p2, p3, p4⟩, hc, c⟩ := h
      rcases c with ⟨e, f⟩ | ⟨D, _, q⟩
      · obtain ⟨s1, s2⟩ := fr r f
        have := setup_fresh hw (d := { d with work := l }) p1 p2 hc hc7 s1 f.bk1 f.out s2 hl.1
        unfold afterSetup at this
        rw [if_neg p4, if_pos p3] at this
        rw [e]; exact this
      · exact absurd q.seen no
    | statusOut r got => exact absurd h.1 no
    | dataOut r =>
      obtain ⟨⟨p1, p2⟩, hc, c⟩ := h
      rcases c with f | ⟨q, _⟩
      · obtain ⟨s1, s2⟩ := fr r f
        have len7 := (p1.coding p2).1
        have := setup_fresh hw (d := { d with work := l }) p1 (Or.inl (by omega)) hc hc7 s1 f.bk1 f.out s2 hl.1
        unfold afterSetup at this
        rw [if_neg (by omega), if_neg (by unfold setsCoding at p2; simp at p2; simp [p2.1])] at this
        exact this
      · exact absurd q.seen no
    | statusIn r =>
      obtain ⟨⟨p1, p2⟩, c⟩ := h
      rcases c with ⟨c0, hc, f | q⟩ | ⟨_, ⟨q, _⟩ | ⟨q, _⟩⟩
      · obtain ⟨s1, s2⟩ := fr r f
        have := setup_fresh hw (d := { d with work := l }) p1 p2 hc hc7 s1 f.bk1 f.out s2 hl.1
        unfold afterSetup at this
        rw [if_pos c0] at this
        exact this
      · exact absurd q.seen no
      · exact absurd q.seen no
      · exact absurd q.seen no
  | rx =>
    show PhaseOk blocks hist (if d.state = .dataOut then if (fill { d with work := l }).outLen = 0 then inStart { fill { d with work := l } with state := .dataIn } 0
      else fill { d with work := l } else { d with work := l }) ph
    have wf : ∀ r, Fresh d r → Fresh { d with work := l } r := by
      intro r f
      refine ⟨f.1, f.2, f.3, f.4, ?_⟩
      rcases f.when with ⟨a, hn⟩ | ⟨_, b, _⟩
      · exact Or.inl ⟨a, sub _ hn⟩
      · rw [hd] at b; cases b
    have ws : Seen d → Seen { d with work := l } := fun hs => ⟨hs.1, sub _ hs.2⟩
    have htx : Work.tx ∈ d.work → Work.tx ∈ l := by
      intro hm; rw [hd] at hm
      rcases List.mem_cons.mp hm with e | e
      · cases e
      · exact e
    cases ph with
    | idle => rw [if_neg (by rw [h.2.1]; decide)]; exact ⟨ws h.1, h.2⟩
    | dataIn r got =>
      obtain ⟨p, hc, c⟩ := h
      rcases c with ⟨e, f⟩ | ⟨D, g, q⟩
      · rw [if_neg (by rw [f.state]; decide)]; exact ⟨p, hc, Or.inl ⟨e, wf r f⟩⟩
      · have : d.state ≠ .dataOut := by
          cases hb : d.bk1 with
          | none => rw [(q.wait hb).1]; decide
          | some pk => rcases q.ready pk hb with ⟨_, e⟩ | ⟨_, e, _⟩ <;> rw [e] <;> decide
        rw [if_neg this]
        refine ⟨p, hc, Or.inr ⟨D, g, ⟨ws q.1, q.2, q.3, q.4, q.5, q.6, fun hb => ⟨(q.7 hb).1, ?_⟩, q.8⟩⟩⟩
        exact (q.7 hb).2.imp id htx
    | statusOut r got => rw [if_neg (by rw [h.2.1]; decide)]; exact ⟨ws h.1, h.2⟩
    | dataOut r =>
      obtain ⟨p, hc, c⟩ := h
      rcases c with f | ⟨q, q2, q3, q4⟩
      · rw [if_neg (by rw [f.state]; decide)]; exact ⟨p, hc, Or.inl (wf r f)⟩
      · exact absurd (by rw [hd]; exact List.mem_cons_self) q4
    | statusIn r =>
      obtain ⟨p, c⟩ := h
      rcases c with ⟨c0, hc, f | q⟩ | ⟨sc, ⟨q, hc, q2, q3, q4⟩ | ⟨q, hc⟩⟩
      · rw [if_neg (by rw [f.state]; decide)]; exact ⟨p, Or.inl ⟨c0, hc, Or.inl (wf r f)⟩⟩
      · rw [if_neg (by rw [q.state]; decide)]; exact ⟨p, Or.inl ⟨c0, hc, Or.inr ⟨ws q.1, q.2, q.3⟩⟩⟩
      · rw [if_pos q.state]
        have hlen := (p.1.coding sc).2
        have hfill : fill { d with work := l } = { d with work := l, outLen := 0, coding := r.data, outOff := 7, bk0 := false } := by
          unfold fill
          simp only [q3, q.outLen, q.outOff, hlen, List.take_zero, List.nil_append]
          rw [if_neg (by omega), List.take_of_length_le (by omega), List.drop_of_length_le (by rw [hc, hc7]; omega), List.append_nil]
        rw [hfill, if_pos rfl]
        unfold inStart
        obtain ⟨a, b⟩ := flush_zero (d := { d with work := l, outLen := 0, coding := r.data, outOff := 7, bk0 := false, state := .dataIn, inLen := if d.inLen > 0 then 0 else d.inLen })
          ⟨q.seen.1, sub _ q.seen.2⟩ q.bk1 (by dsimp only; split <;> omega)
        exact ⟨p, Or.inr ⟨sc, Or.inr ⟨a, b⟩⟩⟩
      · rw [if_neg (by rw [q.state]; decide)]; exact ⟨p, Or.inr ⟨sc, Or.inr ⟨⟨ws q.1, q.2, q.3⟩, hc⟩⟩⟩
  | tx =>
    show PhaseOk blocks hist (settle (if d.state = .dataIn then flush { d with work := l } else { d with work := l })) ph
    refine settle_phase ?_
    have wf : ∀ r, Fresh d r → Fresh { d with work := l } r := by
      intro r f
      refine ⟨f.1, f.2, f.3, f.4, ?_⟩
      rcases f.when with ⟨a, hn⟩ | ⟨_, b, _⟩
      · exact Or.inl ⟨a, sub _ hn⟩
      · rw [hd] at b; cases b
    have ws : Seen d → Seen { d with work := l } := fun hs => ⟨hs.1, sub _ hs.2⟩
    have hrx : Work.rx ∈ d.work → Work.rx ∈ l := by
      intro hm; rw [hd] at hm
      rcases List.mem_cons.mp hm with e | e
      · cases e
      · exact e
    cases ph with
    | idle => rw [if_neg (by rw [h.2.1]; decide)]; exact ⟨ws h.1, h.2⟩
    | dataIn r got =>
      obtain ⟨p, hc, c⟩ := h
      rcases c with ⟨e, f⟩ | ⟨D, g, q⟩
      · rw [if_neg (by rw [f.state]; decide)]; exact ⟨p, hc, Or.inl ⟨e, wf r f⟩⟩
      · rcases Option.eq_none_or_eq_some d.bk1 with hb | ⟨pk, hb⟩
        ·
          rw [if_pos (q.wait hb).1]
          refine ⟨p, by rw [flush_coding]; exact hc, Or.inr ⟨D, g, ?_⟩⟩
          refine flush_sending (ws q.seen) q.bk0 q.full q.lt (q.wait hb).1 hb ?_ q.len
          have := q.all
          rw [hb, Option.getD_none, List.append_nil] at this
          exact this
        ·
          have e : (if d.state = .dataIn then flush { d with work := l } else { d with work := l }) = { d with work := l } := by
            rw [flush_busy (d := { d with work := l }) hb, ite_self]
          rw [e]
          exact ⟨p, hc, Or.inr ⟨D, g, ⟨ws q.1, q.2, q.3, q.4, q.5, q.6, (fun hn => by rw [show d.bk1 = none from hn] at hb; cases hb), q.8⟩⟩⟩
    | statusOut r got => rw [if_neg (by rw [h.2.1]; decide)]; exact ⟨ws h.1, h.2⟩
    | dataOut r =>
      obtain ⟨p, hc, c⟩ := h
      rcases c with f | ⟨q, q2, q3, q4⟩
      · rw [if_neg (by rw [f.state]; decide)]; exact ⟨p, hc, Or.inl (wf r f)⟩
      · rw [if_neg (by rw [q.state]; decide)]
        exact ⟨p, hc, Or.inr ⟨⟨ws q.1, q.2, q.3, q.4, q.5⟩, q2, q3, sub _ q4⟩⟩
    | statusIn r =>
      obtain ⟨p, c⟩ := h
      rcases c with ⟨c0, hc, f | q⟩ | ⟨sc, ⟨q, hc, q2, q3, q4⟩ | ⟨q, hc⟩⟩
      · rw [if_neg (by rw [f.state]; decide)]; exact ⟨p, Or.inl ⟨c0, hc, Or.inl (wf r f)⟩⟩
      · rw [if_neg (by rw [q.state]; decide)]; exact ⟨p, Or.inl ⟨c0, hc, Or.inr ⟨ws q.1, q.2, q.3⟩⟩⟩
      · rw [if_neg (by rw [q.state]; decide)]
        exact ⟨p, Or.inr ⟨sc, Or.inl ⟨⟨ws q.1, q.2, q.3, q.4, q.5⟩, hc, q2, q3, q4.imp id hrx⟩⟩⟩
      · rw [if_neg (by rw [q.state]; decide)]; exact ⟨p, Or.inr ⟨sc, Or.inr ⟨⟨ws q.1, q.2, q.3⟩, hc⟩⟩⟩

/-! ## Every step keeps it -/

theorem isr_seen {d : Dev} (h : Seen d) : Seen (isr d) := by
  refine ⟨rfl, ?_⟩
  unfold isr
  rw [h.rxstp]
  cases d.trcpt0 <;> cases d.trcpt1 <;> simp

theorem isr_fresh {d : Dev} {r : Req} (hw : d.work = []) (h : Fresh d r) : Fresh (isr d) r := by
  refine ⟨h.1, h.2, h.3, h.4, Or.inr ⟨rfl, ?_, rfl⟩⟩
  rcases h.when with ⟨a, _⟩ | ⟨_, b, _⟩
  · unfold isr; rw [a]; rfl
  · rw [hw] at b; cases b

theorem isr_tx {d : Dev} (h : d.trcpt1 = true) : Work.tx ∈ (isr d).work := by
  unfold isr; rw [h]; simp

theorem isr_rx {d : Dev} (hs : d.rxstp = false) (h : d.trcpt0 = true) : Work.rx ∈ (isr d).work := by
  unfold isr; rw [h, hs]; simp

theorem isr_norx {d : Dev} (h : d.trcpt0 = false) : Work.rx ∉ (isr d).work := by
  unfold isr; rw [h]; cases d.rxstp <;> cases d.trcpt1 <;> simp

theorem isr_workOk (d : Dev) : WorkOk (isr d).work := by
  unfold isr WorkOk
  cases d.rxstp <;> cases d.trcpt0 <;> cases d.trcpt1 <;> simp

theorem isr_phase {blocks : Board} {hist : List Req} {d : Dev} {ph : Phase} (hw : d.work = []) (h : PhaseOk blocks hist d ph) :
    PhaseOk blocks hist (isr d) ph := by
  have nw : ∀ w : Work, w ∉ d.work := by intro w hm; rw [hw] at hm; cases hm
  cases ph with
  | idle => exact ⟨isr_seen h.1, h.2⟩
  | dataIn r got =>
    refine ⟨h.1, h.2.1, ?_⟩
    rcases h.2.2 with ⟨e, f⟩ | ⟨D, g, q⟩
    · exact Or.inl ⟨e, isr_fresh hw f⟩
    · exact Or.inr ⟨D, g, ⟨isr_seen q.1, q.2, q.3, q.4, q.5, q.6, (fun hb => ⟨(q.7 hb).1, Or.inr (isr_tx ((q.7 hb).2.resolve_right (nw _)))⟩), q.8⟩⟩
  | statusOut r got => exact ⟨isr_seen h.1, h.2⟩
  | dataOut r =>
    refine ⟨h.1, h.2.1, ?_⟩
    rcases h.2.2 with f | ⟨q, q1, q2, q3⟩
    · exact Or.inl (isr_fresh hw f)
    · exact Or.inr ⟨⟨isr_seen q.1, q.2, q.3, q.4, q.5⟩, q1, rfl, isr_norx q2⟩
  | statusIn r =>
    refine ⟨h.1, ?_⟩
    rcases h.2 with ⟨a, b, c⟩ | ⟨a, c⟩
    · refine Or.inl ⟨a, b, ?_⟩
      rcases c with f | q
      · exact Or.inl (isr_fresh hw f)
      · exact Or.inr ⟨isr_seen q.1, q.2, q.3⟩
    · refine Or.inr ⟨a, ?_⟩
      rcases c with ⟨q, q1, q2, q3, q4⟩ | ⟨q, q'⟩
      · exact Or.inl ⟨⟨isr_seen q.1, q.2, q.3, q.4, q.5⟩, q1, q2, q3, Or.inr (isr_rx q.1.1 (q4.resolve_right (nw _)))⟩
      · exact Or.inr ⟨⟨isr_seen q.1, q.2, q.3⟩, q'⟩

theorem tail_workOk {w : Work} {l : List Work} (h : WorkOk (w :: l)) : WorkOk l := by
  rcases h with e | e | e | e | e | e <;> cases e <;> simp [WorkOk]

theorem setsCoding_answer {blocks : Board} {hist : List Req} {r : Req} (h : setsCoding r = true) : answer blocks hist r = [] := by
  unfold setsCoding at h
  simp at h
  simp [answer, full, h, getsDescriptor, getsConfiguration, getsCoding]

theorem step_inv {blocks : Board} (hw : Wf blocks) {may : Dev → Req → Prop} (hmay : ∀ d r, may d r → Polite r ∧ Loose blocks r)
    {s s' : State} (h : Inv blocks s) (hs : Step may (memory blocks) s s') : Inv blocks s' := by
  obtain ⟨h1, h2, h3, h4⟩ := h
  cases hs with
  | isr hwk hfl => exact ⟨isr_workOk _, h2, isr_phase hwk h3, h4⟩
  | work w l hwk =>
    rw [hwk] at h1
    refine ⟨?_, h2, handle_phase hw h2 h1 hwk h3, h4⟩
    show WorkOk (handle (memory blocks) { s.dev with work := l } w).work
    rw [handle_work]
    exact tail_workOk h1
  | setup r hph hadr hm =>
    obtain ⟨p1, p2⟩ := hmay _ _ hm
    rw [hph] at h3
    obtain ⟨a, b, c, e⟩ := h3
    refine ⟨h1, h2, ?_, h4⟩
    have f : Fresh { s.dev with bk0 := true, outBuf := .setup r, rxstp := true } r := ⟨b, c, rfl, rfl, Or.inl ⟨rfl, a.2⟩⟩
    show PhaseOk blocks _ _ (afterSetup r)
    unfold afterSetup
    by_cases c0 : r.length = 0
    · rw [if_pos c0]; exact ⟨⟨p1, p2⟩, Or.inl ⟨c0, e, Or.inl f⟩⟩
    · rw [if_neg c0]
      by_cases c1 : r.dirIn = true
      · rw [if_pos c1]; exact ⟨⟨p1, p2, c1, c0⟩, e, Or.inl ⟨rfl, f⟩⟩
      · rw [if_neg c1]; exact ⟨⟨p1, (p1.data (by simpa using c1)).resolve_left c0⟩, e, Or.inl f⟩
  | dataIn r got p hph hadr hb =>
    rw [hph] at h3
    obtain ⟨⟨p1, p2, p3, p4⟩, hc, c⟩ := h3
    refine ⟨h1, h2, ?_, h4⟩
    rcases c with ⟨_, f⟩ | ⟨D, g, q⟩
    · rw [f.bk1] at hb; cases hb
    · have hall := q.all
      rw [hb, Option.getD_some] at hall
      have hsc : setsCoding r = false := by unfold setsCoding; rw [p3]; rfl
      have hsa : setsAddress r = false := by
        cases hsa : setsAddress r with
        | false => rfl
        | true => have := (p1.address hsa).1; rw [p3] at this; cases this
      rcases q.ready p hb with ⟨e1, e2⟩ | ⟨e1, e2, e3⟩
      · have hDlen : (got ++ p).length ≤ D.length := by rw [← hall, List.length_append (as := got ++ p)]; omega
        have hgp : (got ++ p).length % 32 = 0 := by rw [List.length_append]; have := q.full; omega
        have hno : ¬ (p.length < 32 ∨ r.length ≤ (got ++ p).length) := by
          have := g.le
          rcases g.loose with x | x | x <;> omega
        show PhaseOk blocks _ _ (if _ then _ else _)
        rw [if_neg hno]
        refine ⟨⟨p1, p2, p3, p4⟩, hc, Or.inr ⟨D, g, ⟨⟨q.1.1, q.1.2⟩, q.bk0, hgp, by omega, ?_, q.len, (fun _ => ⟨e2, Or.inl rfl⟩), (fun _ hn => by cases hn)⟩⟩⟩
        rw [← hall]; simp
      · have hD : got ++ p = D := by rw [← hall, e3]; simp
        show PhaseOk blocks _ _ (if _ then _ else _)
        rw [if_pos (Or.inl e1), hD]
        exact ⟨⟨q.1.1, q.1.2⟩, e2, rfl, hc, q.bk0, hsc, g, hsa⟩
  | statusOut r got hph hadr hb =>
    rw [hph] at h3
    obtain ⟨a, b, c, hc, e, hsc, g, _⟩ := h3
    have hcs : coding ((s.done ++ [(r, got)]).map Prod.fst) = coding (s.done.map Prod.fst) := by
      rw [List.map_append, List.map_cons, List.map_nil, coding_snoc, hsc]; rfl
    exact ⟨h1, by rw [hcs]; exact h2, ⟨⟨a.1, a.2⟩, b, c, by rw [hcs]; exact hc⟩, log_snoc h4 g.right⟩
  | dataOut r hph hadr hb =>
    rw [hph] at h3
    obtain ⟨⟨p1, p2⟩, hc, c⟩ := h3
    rcases c with f | ⟨q, _, _, _⟩
    · rw [f.bk0] at hb; cases hb
    · have l7 := (p1.coding p2).1
      exact ⟨h1, h2, ⟨⟨p1, Or.inl (by omega)⟩, Or.inr ⟨p2, Or.inl ⟨⟨⟨q.1.1, q.1.2⟩, q.2, q.3, q.4, q.5⟩, hc, rfl, rfl, Or.inl rfl⟩⟩⟩, h4⟩
  | statusIn r p hph hadr hb =>
    rw [hph] at h3
    obtain ⟨⟨p1, p2⟩, c⟩ := h3
    have fin : ∀ (c' : List UInt8), Acked s.dev → s.dev.coding = c' → c'.length = 7 → c' = coding ((s.done ++ [(r, p)]).map Prod.fst) →
        (getsConfiguration r = false → [] = answer blocks (s.done.map Prod.fst) r) →
        Inv blocks { dev := { s.dev with bk1 := none, trcpt1 := true }, phase := .idle, addr := afterDone r s.addr, done := s.done ++ [(r, p)] } := by
      intro c' q e1 e2 e3 e4
      have hp : p = [] := by rw [q.bk1] at hb; cases hb; rfl
      exact ⟨h1, by rw [← e3]; exact e2, ⟨⟨q.1.1, q.1.2⟩, q.state, rfl, by rw [← e3]; exact e1⟩, log_snoc h4 (by rw [hp]; exact e4)⟩
    have hcs : coding ((s.done ++ [(r, p)]).map Prod.fst) = if setsCoding r then r.data else coding (s.done.map Prod.fst) := by
      rw [List.map_append, List.map_cons, List.map_nil, coding_snoc]
    rcases c with ⟨c0, hc, f | q⟩ | ⟨sc, ⟨q, _⟩ | ⟨q, hc⟩⟩
    · rw [f.bk1] at hb; cases hb
    · have hsc : setsCoding r = false := by
        cases hsc : setsCoding r with
        | false => rfl
        | true => have := (p1.coding hsc).1; omega
      rw [hsc] at hcs
      exact fin _ q hc h2 hcs.symm (fun _ => by simp [answer, c0])
    · rw [q.bk1] at hb; cases hb
    · rw [if_pos sc] at hcs
      exact fin _ q hc (p1.coding sc).2 hcs.symm (fun _ => (setsCoding_answer sc).symm)

theorem reach_inv {blocks : Board} (hw : Wf blocks) {may : Dev → Req → Prop} (hmay : ∀ d r, may d r → Polite r ∧ Loose blocks r)
    {s : State} (h : Reach may (memory blocks) s) : Inv blocks s := by
  induction h with
  | init => exact ⟨Or.inl rfl, by decide, ⟨⟨rfl, by decide⟩, rfl, rfl, rfl⟩, fun i r got hi => by simp [init] at hi⟩
  | step s s' _ hs ih => exact step_inv hw hmay ih hs

end Snek.UsbControl
