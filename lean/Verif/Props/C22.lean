import Verif.Model.Name
import Verif.Spec.Name
/-!
# C22 Names are interned one-to-one
-/
namespace Snek.Name
open Spec.Name (encode Ok Req)

private theorem cstr_drop {tbl : List UInt8} {i : Nat} {s r : List UInt8} (h : tbl.drop i = s ++ 0 :: r) (hs : (0:UInt8) ∉ s) :
    cstr tbl i = s := by
  unfold cstr
  rw [h]
  induction s generalizing tbl i with
  | nil => simp
  | cons a s ih =>
    have ha : a ≠ 0 := fun h => hs (by simp [h])
    simp only [List.cons_append, List.takeWhile_cons]
    simp only [ha, ne_eq, not_false_eq_true, decide_true, if_true]
    have := @ih (s ++ 0 :: r) 0 (by simp) (fun h => hs (by simp [h]))
    simp at this; simp [this]

private theorem lt_of_drop {tbl : List UInt8} {i : Nat} {a r} (h : tbl.drop i = a :: r) : i < tbl.length := by
  apply Nat.lt_of_not_le; intro hle
  rw [List.drop_of_length_le hle] at h; cases h

private theorem drop_add {tbl : List UInt8} {i : Nat} {s r : List UInt8} (h : tbl.drop i = s ++ r) :
    tbl.drop (i + s.length) = r := by
  rw [← List.drop_drop, h]; simp

private theorem get_of_drop {tbl : List UInt8} {i : Nat} {a r} (h : tbl.drop i = a :: r) : tbl[i]? = some a := by
  have : (tbl.drop i)[0]? = some a := by rw [h]; rfl
  rw [List.getElem?_drop] at this; simpa using this

private theorem loop_kw (tbl : List UInt8) (e : Nat) (name : Str) (kws : List (UInt8 × Str))
    (hz : ∀ p ∈ kws, (0:UInt8) ∉ p.2) : ∀ i id, tbl.drop i = kws.flatMap (fun k => k.1 :: k.2 ++ [0]) → e ≤ id →
    idBuiltinLoop tbl e name i 1 id = (kws.find? (fun p => name = p.2)).map (fun p => (p.1.toNat, true)) := by
  induction kws with
  | nil =>
    intro i id h _
    have hlen : tbl.length ≤ i := by simpa using h
    unfold idBuiltinLoop
    rw [if_neg (by omega)]; rfl
  | cons p kws ih =>
    intro i id h hid
    have h' : tbl.drop i = p.1 :: (p.2 ++ 0 :: kws.flatMap (fun k => k.1 :: k.2 ++ [0])) := by simpa using h
    have h1 : tbl.drop (i + 1) = p.2 ++ 0 :: kws.flatMap (fun k => k.1 :: k.2 ++ [0]) := by
      rw [← List.drop_drop, h']; rfl
    have hc := cstr_drop h1 (hz p (by simp))
    unfold idBuiltinLoop
    rw [if_pos (lt_of_drop h'), hc]
    by_cases hn : name = p.2
    · rw [if_pos hn, if_pos hid, get_of_drop h', List.find?_cons_of_pos (by simpa using hn)]; rfl
    · rw [if_neg hn, List.find?_cons_of_neg (by simpa using hn)]
      have hk : (if id + 1 = e then 1 else 1) = 1 := by split <;> rfl
      simp only [hk, hc]
      apply ih (fun q hq => hz q (by simp [hq]))
      · have e1 : i + (p.2.length + 1 + 1) = i + 1 + p.2.length + 1 := by omega
        rw [e1, ← List.drop_drop, drop_add h1]; rfl
      · omega

private theorem loop_names (tbl : List UInt8) (e : Nat) (name : Str) (kws : List (UInt8 × Str))
    (hz : ∀ p ∈ kws, (0:UInt8) ∉ p.2) (ns : List Str) : ∀ i id, (∀ s ∈ ns, s ≠ [] ∧ (0:UInt8) ∉ s) → ns ≠ [] →
    tbl.drop i = encode ns kws → id + ns.length = e →
    idBuiltinLoop tbl e name i 0 id = if name ∈ ns then some (id + ns.idxOf name, false)
      else (kws.find? (fun p => name = p.2)).map (fun p => (p.1.toNat, true)) := by
  induction ns with
  | nil => intro i id _ h; exact absurd rfl h
  | cons s ns ih =>
    intro i id hs _ h he
    have h' : tbl.drop i = s ++ 0 :: encode ns kws := by simpa [encode] using h
    obtain ⟨hne, h0⟩ := hs s (by simp)
    have hc := cstr_drop h' h0
    have hlt : i < tbl.length := by
      cases s with
      | nil => exact absurd rfl hne
      | cons a s => exact lt_of_drop h'
    unfold idBuiltinLoop
    rw [if_pos hlt, Nat.add_zero, hc]
    simp only [List.length_cons] at he
    by_cases hn : name = s
    · subst hn
      rw [if_pos rfl, if_neg (by omega), if_pos (by simp)]
      simp
    · rw [if_neg hn]
      have hstep : tbl.drop (i + (s.length + 1)) = encode ns kws := by
        rw [← Nat.add_assoc, ← List.drop_drop, drop_add h']; rfl
      by_cases hl : ns = []
      · subst hl
        have hid : id + 1 = e := by simpa using he
        simp only [hid, if_true]
        -- `k` is now 1: the string at `i + 1` is one shorter, the step one longer
        obtain ⟨a, t, rfl⟩ : ∃ a t, s = a :: t := by
          cases s with
          | nil => exact absurd rfl hne
          | cons a t => exact ⟨a, t, rfl⟩
        have h1 : tbl.drop (i + 1) = t ++ 0 :: encode [] kws := by
          rw [← List.drop_drop, h']; rfl
        rw [cstr_drop h1 (fun h => h0 (by simp [h]))]
        have e1 : i + (t.length + 1 + 1) = i + ((a :: t).length + 1) := by simp
        rw [e1, if_neg (by simpa using hn)]
        exact loop_kw tbl e name kws hz _ _ hstep (by omega)
      · have hlen : 0 < ns.length := List.length_pos_iff.2 hl
        have hid : ¬ id + 1 = e := by omega
        simp only [hid, if_false, Nat.add_zero, hc]
        rw [ih _ _ (fun x hx => hs x (by simp [hx])) hl hstep (by omega)]
        have hm : (name ∈ s :: ns) ↔ name ∈ ns := by simp [hn]
        by_cases hmem : name ∈ ns
        · rw [if_pos hmem, if_pos (hm.2 hmem), List.idxOf_cons]
          have : (s == name) = false := beq_false_of_ne (fun h => hn h.symm)
          rw [this]
          simp only [cond_false]
          congr 2; omega
        · rw [if_neg hmem, if_neg (fun h => hmem (hm.1 h))]

variable {names : List Str} {kws : List (UInt8 × Str)}

/-- The search in the builtin table, for every table of the documented layout: builtin names get their position, keywords
their token, everything else is not found. -/
theorem C22_builtin (hok : Ok names kws) (s : Str) :
    idBuiltin (encode names kws) (names.length + 1) s =
      if s ∈ names then some (1 + names.idxOf s, false)
      else (kws.find? (fun p => s = p.2)).map (fun p => (p.1.toNat, true)) := by
  apply loop_names
  · intro p hp; exact (hok.nonempty p.2 (by simp; exact Or.inr ⟨p.1, hp⟩)).2
  · intro x hx; exact hok.nonempty x (by simp [hx])
  · exact hok.names_ne
  · rfl
  · omega

private theorem string_names (tbl : List UInt8) (kws : List (UInt8 × Str)) (ns : List Str) : ∀ i n,
    (∀ s ∈ ns, (0:UInt8) ∉ s) → tbl.drop i = encode ns kws → (h : n < ns.length) →
    cstr tbl (stringBuiltinLoop tbl i n) = ns[n] := by
  induction ns with
  | nil => intro i n _ _ h; simp at h
  | cons s ns ih =>
    intro i n hs h hn
    have h' : tbl.drop i = s ++ 0 :: encode ns kws := by simpa [encode] using h
    have hc := cstr_drop h' (hs s (by simp))
    cases n with
    | zero => exact hc
    | succ n =>
      simp only [stringBuiltinLoop, List.getElem_cons_succ]
      apply ih _ _ (fun x hx => hs x (by simp [hx]))
      rw [hc, ← Nat.add_assoc, ← List.drop_drop, drop_add h']; rfl

/-- A session: requests answered one after the other. -/
def session (names : List Str) (kws : List (UInt8 × Str)) : List Req → St → St
  | [], s => s
  | r :: rs, s => session names kws rs (nameId (encode names kws) (names.length + 1) r.ok r.name s).2

/-- Invariant of sessions: ids run consecutively down the list, spellings are distinct and not in the builtin table. -/
private structure Inv (names : List Str) (kws : List (UInt8 × Str)) (s : St) : Prop where
  id : s.id = names.length + 1 + s.names.length
  nodup : s.names.Nodup
  fresh : ∀ x ∈ s.names, idBuiltin (encode names kws) (names.length + 1) x = none

private theorem find_some {name : Str} {l : List Str} : ∀ {id i}, findName name l id = some i → l.length ≤ id →
    ∃ n, ∃ h : n < l.length, l[n] = name ∧ i = id - n := by
  induction l with
  | nil => intro id i h; simp [findName] at h
  | cons a l ih =>
    intro id i h hl
    simp only [findName] at h
    split at h
    · rename_i he; cases h; exact ⟨0, by simp, he, by simp⟩
    · simp only [List.length_cons] at hl
      obtain ⟨n, hn, h1, h2⟩ := ih h (by omega)
      exact ⟨n + 1, by simp; exact hn, by simpa using h1, by omega⟩

private theorem find_none {name : Str} {l : List Str} : ∀ {id}, findName name l id = none → name ∉ l := by
  induction l with
  | nil => intro id _; simp
  | cons a l ih =>
    intro id h
    simp only [findName] at h
    split at h
    · cases h
    · rename_i he
      have := ih h
      simp only [List.mem_cons, not_or]
      exact ⟨fun h => he h.symm, this⟩

private theorem find_mem {name : Str} {l : List Str} (h : name ∈ l) : ∀ id, ∃ i, findName name l id = some i := by
  induction l with
  | nil => simp at h
  | cons a l ih =>
    intro id
    simp only [findName]
    split
    · exact ⟨_, rfl⟩
    · rename_i he
      rcases List.mem_cons.1 h with h | h
      · exact absurd h.symm he
      · exact ih h _

private theorem findId_get {l : List Str} : ∀ {id n}, (h : n < l.length) → l.length ≤ id → findId (id - n) l id = some l[n] := by
  induction l with
  | nil => intro id n h; simp at h
  | cons a l ih =>
    intro id n h hl
    simp only [findId]
    cases n with
    | zero => simp
    | succ n =>
      simp only [List.length_cons] at hl h
      rw [if_neg (by omega)]
      have := @ih (id - 1) n (by omega) (by omega)
      have e : id - (n + 1) = id - 1 - n := by omega
      rw [e, this]; rfl

private theorem inv_step (s : St) (hI : Inv names kws s) (r : Req) :
    Inv names kws (nameId (encode names kws) (names.length + 1) r.ok r.name s).2 := by
  unfold nameId
  split
  · exact hI
  · rename_i hb
    split
    · exact hI
    · rename_i hf
      split
      · refine ⟨by have := hI.id; simp; omega, ?_, ?_⟩
        · exact List.nodup_cons.2 ⟨find_none hf, hI.nodup⟩
        · intro x hx
          simp only [List.mem_cons] at hx
          rcases hx with h | h
          · rw [h]; exact hb
          · exact hI.fresh x h
      · exact hI

private theorem inv_session (rs : List Req) : ∀ s, Inv names kws s → Inv names kws (session names kws rs s) := by
  induction rs with
  | nil => intro s h; exact h
  | cons r rs ih => intro s h; exact ih _ (inv_step s h r)

private theorem inv_init : Inv names kws (St.init (names.length + 1)) := ⟨by simp [St.init], by simp [St.init], by simp [St.init]⟩

/-- Where a successful answer comes from. -/
private theorem answer {s : St} (hI : Inv names kws s) (hok : Ok names kws) {r : Req} {i : Nat}
    (h : (nameId (encode names kws) (names.length + 1) r.ok r.name s).1 = .id i false) :
    (∃ n, ∃ hn : n < names.length, names[n] = r.name ∧ i = n + 1 ∧ idBuiltin (encode names kws) (names.length + 1) r.name = some (i, false)) ∨
    (idBuiltin (encode names kws) (names.length + 1) r.name = none ∧
      ∃ n, ∃ hn : n < (nameId (encode names kws) (names.length + 1) r.ok r.name s).2.names.length,
        (nameId (encode names kws) (names.length + 1) r.ok r.name s).2.names[n] = r.name ∧
        i = (nameId (encode names kws) (names.length + 1) r.ok r.name s).2.id - n) := by
  have hB := C22_builtin hok r.name
  unfold nameId at h ⊢
  split at h
  · rename_i i' kw hb
    simp only [R.id.injEq] at h
    obtain ⟨rfl, rfl⟩ := h
    left
    rw [hb] at hB
    split at hB
    · rename_i hm
      simp only [Option.some.injEq, Prod.mk.injEq, and_true] at hB
      exact ⟨names.idxOf r.name, List.idxOf_lt_length_of_mem hm, List.getElem_idxOf _, by omega, hb⟩
    · cases hf : kws.find? (fun p => r.name = p.2) with
      | none => rw [hf] at hB; simp at hB
      | some p => rw [hf] at hB; simp at hB
  · rename_i hb
    right
    refine ⟨hb, ?_⟩
    split at h
    · rename_i i' hf
      simp only [R.id.injEq, and_true] at h
      subst h
      have := find_some hf (by have := hI.id; omega)
      exact this
    · rename_i hf
      split at h
      · rename_i ho
        simp only [R.id.injEq, and_true] at h
        rw [if_pos ho]
        exact ⟨0, by simp, by simp, by simpa using h.symm⟩
      · simp at h

/-- Later requests keep the list as a suffix. -/
private theorem suffix (rs : List Req) : ∀ s, Inv names kws s → ∃ pre, (session names kws rs s).names = pre ++ s.names ∧
    (session names kws rs s).id = pre.length + s.id := by
  induction rs with
  | nil => intro s _; exact ⟨[], rfl, by simp [session]⟩
  | cons r rs ih =>
    intro s hI
    obtain ⟨pre, h1, h2⟩ := ih _ (inv_step s hI r)
    simp only [session]
    rw [h1, h2]
    unfold nameId
    split
    · exact ⟨pre, rfl, rfl⟩
    · split
      · exact ⟨pre, rfl, rfl⟩
      · split
        · exact ⟨pre ++ [r.name], by simp, by simp; omega⟩
        · exact ⟨pre, rfl, rfl⟩

/-- After any earlier requests, once a spelling `a` has been given an id (not a keyword), then after any further requests:
asking again, with or without memory, gives the same id; the id gives back the spelling; and a request for any other
spelling never gives that id. -/
theorem C22_interned (hok : Ok names kws) (before after : List Req) (a : Req) (i : Nat)
    (h : (nameId (encode names kws) (names.length + 1) a.ok a.name
      (session names kws before (St.init (names.length + 1)))).1 = .id i false) :
    let s := session names kws after (nameId (encode names kws) (names.length + 1) a.ok a.name
      (session names kws before (St.init (names.length + 1)))).2
    (∀ m, (nameId (encode names kws) (names.length + 1) m a.name s).1 = .id i false) ∧
    nameString (encode names kws) (names.length + 1) s i = some a.name ∧
    (∀ b : Req, b.name ≠ a.name → (nameId (encode names kws) (names.length + 1) b.ok b.name s).1 ≠ .id i false) := by
  intro s
  have hI0 : Inv names kws (session names kws before (St.init (names.length + 1))) := inv_session _ _ inv_init
  have hI1 := inv_step _ hI0 a
  have hI : Inv names kws s := inv_session after _ hI1
  obtain ⟨pre, hpre, hid⟩ := suffix after _ hI1
  have hA := answer hI0 hok h
  -- in terms of the final state
  have hS : (∃ n, ∃ hn : n < names.length, names[n] = a.name ∧ i = n + 1 ∧ idBuiltin (encode names kws) (names.length + 1) a.name = some (i, false)) ∨
      (idBuiltin (encode names kws) (names.length + 1) a.name = none ∧ ∃ n, ∃ hn : n < s.names.length,
        s.names[n] = a.name ∧ i = s.id - n) := by
    rcases hA with hA | ⟨h1, n, hn, h2, h3⟩
    · exact Or.inl hA
    · right
      refine ⟨h1, pre.length + n, ?_, ?_, ?_⟩
      · show _ < (session names kws after _).names.length
        rw [hpre, List.length_append]; omega
      · show (session names kws after _).names[_]'_ = _
        simp only [hpre]
        rw [List.getElem_append_right (by omega)]
        simpa using h2
      · rw [h3]
        show _ = (session names kws after _).id - _
        rw [hid]
        have := hI1.id
        omega
  have lenid : s.names.length ≤ s.id := by have := hI.id; omega
  refine ⟨?_, ?_, ?_⟩
  · intro m
    unfold nameId
    rcases hS with ⟨n, hn, h1, h2, h3⟩ | ⟨h1, n, hn, h2, h3⟩
    · rw [h3]
    · rw [h1]
      have hmem : a.name ∈ s.names := by rw [← h2]; exact List.getElem_mem _
      obtain ⟨j, hj⟩ := find_mem hmem s.id
      obtain ⟨n', hn', h4, h5⟩ := find_some hj lenid
      have : n' = n := (List.getElem_inj hI.nodup).1 (by rw [h4, h2])
      subst this
      simp only [hj]
      rw [h5, ← h3]
  · unfold nameString stringBuiltin
    rcases hS with ⟨n, hn, h1, h2, h3⟩ | ⟨h1, n, hn, h2, h3⟩
    · rw [if_neg (by omega)]
      simp only [Option.some.injEq]
      have := string_names (encode names kws) kws names 0 n (fun s hs => (hok.nonempty s (by simp [hs])).2) rfl hn
      rw [h2, Nat.add_sub_cancel, this, h1]
    · have := hI.id
      rw [if_pos (by omega)]
      rw [h3]
      simp only []
      rw [findId_get hn lenid, h2]
  · intro b hb hbi
    have hB := answer hI hok hbi
    have hIb := inv_step s hI b
    obtain ⟨pre', hpre', hid'⟩ := suffix [b] s hI
    simp only [session] at hpre' hid'
    have hbid := hIb.id
    rcases hS with ⟨n, hn, h1, h2, h3⟩ | ⟨h1, n, hn, h2, h3⟩
    · rcases hB with ⟨n', hn', h1', h2', h3'⟩ | ⟨h1', n', hn', h2', h3'⟩
      · have : n = n' := by omega
        subst this
        exact hb (by rw [← h1', h1])
      · omega
    · rcases hB with ⟨n', hn', h1', h2', h3'⟩ | ⟨h1', n', hn', h2', h3'⟩
      · have := hI.id; omega
      · have hb2 := hI.id
        have e : n' = pre'.length + n := by omega
        subst e
        simp only [hpre'] at h2'
        rw [List.getElem_append_right (by omega)] at h2'
        simp only [Nat.add_sub_cancel_left] at h2'
        exact hb (by rw [← h2', h2])

/-- With memory available every spelling that is not a keyword gets an id. -/
theorem C22_total (hok : Ok names kws) (s : St) (x : Str) (hx : x ∉ kws.map (·.2)) :
    ∃ i, (nameId (encode names kws) (names.length + 1) true x s).1 = .id i false := by
  have hB := C22_builtin hok x
  unfold nameId
  rw [hB]
  by_cases hm : x ∈ names
  · rw [if_pos hm]; exact ⟨_, rfl⟩
  · rw [if_neg hm]
    have : kws.find? (fun p => x = p.2) = none := by
      rw [List.find?_eq_none]
      intro p hp he
      exact hx (List.mem_map.2 ⟨p, hp, (of_decide_eq_true he).symm⟩)
    rw [this]
    simp only [Option.map_none]
    split <;> exact ⟨_, rfl⟩

/-- A table with builtins `len`, `abs` and keyword `if` (token 7); `x` then `y` get different ids, `len` its position. -/
example :
    let names : List Str := [[108, 101, 110], [97, 98, 115]]
    let kws : List (UInt8 × Str) := [(7, [105, 102])]
    Ok names kws ∧
    (nameId (encode names kws) 3 true [120] (St.init 3)).1 = .id 4 false ∧
    (nameId (encode names kws) 3 true [121] (nameId (encode names kws) 3 true [120] (St.init 3)).2).1 = .id 5 false := by
  refine ⟨⟨by decide, by decide, by decide⟩, by decide +kernel, by decide +kernel⟩

end Snek.Name
