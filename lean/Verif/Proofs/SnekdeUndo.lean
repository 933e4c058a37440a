import Verif.Proofs.SnekdeKeys
/-!
The place of the cursor and what can be undone.
-/
namespace Snek.Snekde
open Spec

def app (t : Text) (r : Rec) : Text :=
  match r.op with
  | .inl x => t.take r.at_ ++ x ++ t.drop r.at_
  | .inr n => t.take r.at_ ++ t.drop (r.at_ + n)

def MarkOk (m : Option Nat) (t : Text) : Prop := ∀ x, m = some x → x ≤ t.length

def Chain : Text → List Rec → Prop
  | _, [] => True
  | t, r :: u => r.point ≤ (app t r).length ∧ MarkOk r.mark (app t r) ∧ Chain (app t r) u

structure Inv (e : Ed) : Prop where
  point : e.point ≤ e.text.length
  mark : MarkOk e.mark e.text
  chain : Chain e.text e.undo

def core (e : Ed) : Text × List Rec := (e.text, e.undo)

def undo1 : Text × List Rec → Text × List Rec
  | (t, []) => (t, [])
  | (t, r :: u) => (app t r, u)

theorem core_pop (e : Ed) : core (popUndo e) = undo1 (core e) := by
  cases hu : e.undo with
  | nil => simp [popUndo, core, undo1, hu]
  | cons r u => cases ho : r.op <;> simp [popUndo, core, undo1, app, hu, ho]

theorem core_again : ∀ (k : Nat) (e : Ed), core (again popUndo k e) = again undo1 k (core e)
  | 0, _ => rfl
  | k + 1, e => by simp only [again]; rw [core_again k, core_pop]

theorem again_add {α : Type} (f : α → α) (m : Nat) : ∀ (k : Nat) (x : α), again f (k + m) x = again f m (again f k x)
  | 0, x => by simp [again]
  | k + 1, x => by rw [Nat.succ_add]; simp only [again]; exact again_add f m k (f x)

/-- `e'` comes from `e` by something that can be undone. -/
structure Back (e e' : Ed) : Prop where
  inv : Inv e'
  undo : ∃ k, e'.undo.length = e.undo.length + k ∧ again undo1 k (core e') = core e

theorem Back.trans {a b c : Ed} (h1 : Back a b) (h2 : Back b c) : Back a c := by
  obtain ⟨k, hk, hk'⟩ := h1.undo
  obtain ⟨m, hm, hm'⟩ := h2.undo
  exact ⟨h2.inv, m + k, by omega, by rw [again_add, hm', hk']⟩

/-- Nothing but the cursor, the mark and the cut buffer is different. -/
theorem Back.same {e e' : Ed} (h : Inv e) (ht : e'.text = e.text) (hu : e'.undo = e.undo) (hp : e'.point ≤ e.text.length)
    (hm : MarkOk e'.mark e.text) : Back e e' :=
  ⟨⟨by rw [ht]; exact hp, by rw [ht]; exact hm, by rw [ht, hu]; exact h.chain⟩, 0, by rw [hu]; rfl, by simp [again, core, ht, hu]⟩

theorem app_insert {t x : Text} {p : Nat} (hp : p ≤ t.length) (a : Nat) (m : Option Nat) :
    app (t.take p ++ x ++ t.drop p) ⟨p, .inr x.length, a, m⟩ = t := by
  have h1 : (t.take p).length = p := by simp; omega
  simp only [app]
  rw [List.append_assoc, List.take_append_of_le_length (by omega), List.take_of_length_le (by omega), List.drop_append, h1,
    List.drop_of_length_le (by omega), List.nil_append, Nat.add_sub_cancel_left, List.drop_append_of_le_length (Nat.le_refl _),
    List.drop_length, List.nil_append, List.take_append_drop]

theorem app_delete {t : Text} {p n : Nat} (hp : p ≤ t.length) (a : Nat) (m : Option Nat) :
    app (t.take p ++ t.drop (p + n)) ⟨p, .inl ((t.drop p).take n), a, m⟩ = t := by
  have h1 : (t.take p).length = p := by simp; omega
  simp only [app]
  have h2 : (t.take p).drop p = [] := List.drop_of_length_le (by omega)
  rw [List.take_append_of_le_length (by omega), List.take_of_length_le (by omega : (t.take p).length ≤ p),
    List.drop_append_of_le_length (by omega), h2, List.nil_append, ← List.drop_drop, List.append_assoc, List.take_append_drop,
    List.take_append_drop]

theorem insert_back {e : Ed} (h : Inv e) {p : Nat} (hp : p ≤ e.text.length) (x : Text) : Back e (insert e p x) := by
  have happ := app_insert (x := x) hp e.point e.mark
  have hl : (e.text.take p ++ x ++ e.text.drop p).length = e.text.length + x.length := by simp; omega
  have hpt := h.point
  refine ⟨⟨?_, ?_, ?_⟩, 1, ?_, ?_⟩
  · by_cases hlt : p < e.point
    · simp [insert, pushUndo, hlt]; omega
    · simp [insert, pushUndo, hlt]; omega
  · intro y hy
    simp only [insert, pushUndo, Option.map_eq_some_iff, hl] at hy ⊢
    obtain ⟨z, hz, rfl⟩ := hy
    have := h.mark z hz
    split <;> omega
  · simp only [insert, pushUndo, Chain, happ]
    exact ⟨h.point, h.mark, h.chain⟩
  · simp [insert, pushUndo]
  · simp [again, core, undo1, insert, pushUndo]
    simpa using happ

theorem insertAt_back {e : Ed} (h : Inv e) (x : Text) : Back e (insertAtPoint e x) := by
  have hb := insert_back h h.point x
  have hl : (insert e e.point x).text.length = e.text.length + x.length := by
    have := h.point; simp [insert, pushUndo]; omega
  refine ⟨⟨?_, hb.inv.mark, hb.inv.chain⟩, hb.undo⟩
  have := h.point
  have hp : (insert e e.point x).point = e.point := by simp [insert, pushUndo]
  simp only [insertAtPoint, hl, hp]
  omega

theorem delete_back {e : Ed} (h : Inv e) {p : Nat} (hp : p ≤ e.text.length) (n : Nat) : Back e (delete e p n) := by
  have happ := app_delete (n := n) hp e.point e.mark
  have hl : (e.text.take p ++ e.text.drop (p + n)).length = p + (e.text.length - (p + n)) := by simp; omega
  have hpt := h.point
  refine ⟨⟨?_, ?_, ?_⟩, 1, ?_, ?_⟩
  · have : adjustPoint p n e.point ≤ p + (e.text.length - (p + n)) := by
      unfold adjustPoint
      split
      · omega
      · split <;> omega
    simpa only [delete, pushUndo, hl] using this
  · intro y hy
    simp only [delete, pushUndo, Option.bind_eq_some_iff, hl] at hy ⊢
    obtain ⟨z, hz, hy⟩ := hy
    have := h.mark z hz
    simp only [adjustMark] at hy
    split at hy
    · cases hy
    · split at hy <;> cases hy <;> omega
  · simp only [delete, pushUndo, Chain, happ]
    exact ⟨h.point, h.mark, h.chain⟩
  · simp [delete, pushUndo]
  · simp [again, core, undo1, delete, pushUndo, happ]

theorem mark_none (t : Text) : MarkOk none t := by intro x hx; cases hx

theorem Back.mark {e e' : Ed} (h : Back e e') {m : Option Nat} (hm : MarkOk m e'.text) : Back e { e' with mark := m } :=
  ⟨⟨h.inv.point, hm, h.inv.chain⟩, h.undo⟩

theorem move_back {e : Ed} (h : Inv e) {p : Nat} (hp : p ≤ e.text.length) : Back e { e with point := p } :=
  .same h rfl rfl hp h.mark

theorem refl_back {e : Ed} (h : Inv e) : Back e e := .same h rfl rfl h.point h.mark

theorem copy_back {e : Ed} (h : Inv e) (del : Bool) : Back e (copy e del) := by
  unfold copy
  split
  · next a b hs =>
    have hab : a ≤ e.text.length := by
      simp only [selection, Option.map_eq_some_iff] at hs
      obtain ⟨m, _, hs⟩ := hs
      cases hs
      have := h.point; omega
    let e1 : Ed := { e with cut := (e.text.drop a).take (b - a) }
    have h1 : Inv e1 := ⟨h.point, h.mark, h.chain⟩
    have h2 : Back e e1 := .same h rfl rfl h.point h.mark
    cases del with
    | false => exact h2.mark (mark_none _)
    | true => exact (h2.trans (delete_back h1 hab _)).mark (mark_none _)
  · exact refl_back h

theorem backspace_back {e : Ed} (h : Inv e) : Back e (backspace e) := by
  have hpt := h.point
  unfold backspace
  split
  · next a b hs =>
    have hab : a ≤ e.text.length := by
      simp only [selection, Option.map_eq_some_iff] at hs
      obtain ⟨m, _, hs⟩ := hs
      cases hs
      omega
    exact (delete_back h hab _).mark (mark_none _)
  · split
    · split
      · unfold backtab
        simp only []
        split
        · exact refl_back h
        · have h1 := move_back h (p := e.point - (if (pointToCursor e.text e.point).1 % 4 = 0 then 4 else (pointToCursor e.text e.point).1 % 4))
            (by omega)
          exact h1.trans (delete_back h1.inv h1.inv.point _)
      · next h0 _ =>
        have : left e = { e with point := e.point - 1 } := by simp [left, h0]
        rw [this]
        have h1 := move_back h (p := e.point - 1) (by omega)
        exact h1.trans (delete_back h1.inv h1.inv.point _)
    · exact refl_back h

theorem indent_back {e : Ed} (h : Inv e) (want : Nat) : Back e (indent e want) := by
  have h0 : Back e (bol e) := move_back h (c2p_le _ _ _)
  have h1 : Back e { bol e with point := (bol e).point + spaces ((bol e).text.drop (bol e).point) } := by
    refine h0.trans (move_back h0.inv ?_)
    have := spaces_le ((bol e).text.drop (bol e).point)
    have := h0.inv.point
    simp at *
    omega
  unfold indent
  simp only []
  split
  · exact h1.trans (insertAt_back h1.inv _)
  · split
    · exact h1.trans (delete_back h1.inv h1.inv.point _)
    · exact h1

theorem deleteToEol_back {e : Ed} (h : Inv e) : Back e (deleteToEol e) := by
  unfold deleteToEol
  simp only []
  split <;> exact delete_back h h.point _

theorem ite_back {c : Prop} [Decidable c] {e a b : Ed} (h1 : c → Back e a) (h2 : ¬ c → Back e b) : Back e (if c then a else b) := by
  by_cases h : c
  · rw [if_pos h]; exact h1 h
  · rw [if_neg h]; exact h2 h

theorem dispatch_back {e : Ed} (h : Inv e) {ch : Nat} (hc : ch ≠ 26) : Back e (dispatch e ch) := by
  have hpt := h.point
  unfold dispatch
  refine ite_back (fun _ => ?_) (fun _ => ?_)
  · refine .same h rfl rfl h.point ?_
    intro x hx
    simp only [toggleMark] at hx
    split at hx
    · cases hx
    · cases hx; exact h.point
  refine ite_back (fun _ => ?_) (fun _ => ?_)
  · exact copy_back h _
  refine ite_back (fun _ => ?_) (fun _ => ?_)
  · exact copy_back h _
  refine ite_back (fun _ => ?_) (fun _ => ?_)
  · unfold paste; split
    · exact refl_back h
    · exact insertAt_back h _
  refine ite_back (fun _ => ?_) (fun _ => ?_)
  · exact deleteToEol_back h
  rw [if_neg hc]
  refine ite_back (fun _ => ?_) (fun _ => ?_)
  · unfold left; split
    · exact move_back h (by omega)
    · exact refl_back h
  refine ite_back (fun _ => ?_) (fun _ => ?_)
  · unfold right; split
    · exact move_back h (by omega)
    · exact refl_back h
  refine ite_back (fun _ => ?_) (fun _ => ?_)
  · refine move_back h ?_
    split <;> exact c2p_le _ _ _
  refine ite_back (fun _ => ?_) (fun _ => ?_)
  · refine move_back h ?_
    split <;> exact c2p_le _ _ _
  refine ite_back (fun _ => ?_) (fun _ => ?_)
  · exact move_back h (c2p_le _ _ _)
  refine ite_back (fun _ => ?_) (fun _ => ?_)
  · exact move_back h (c2p_le _ _ _)
  refine ite_back (fun _ => ?_) (fun _ => ?_)
  · exact move_back h (c2p_le _ _ _)
  refine ite_back (fun _ => ?_) (fun _ => ?_)
  · exact move_back h (c2p_le _ _ _)
  refine ite_back (fun _ => ?_) (fun _ => ?_)
  · exact indent_back h _
  refine ite_back (fun _ => ?_) (fun _ => ?_)
  · exact backspace_back h
  refine ite_back (fun _ => ?_) (fun _ => ?_)
  · exact insertAt_back h _
  · exact refl_back h

theorem editKey_back {e : Ed} (h : Inv e) {ch : Nat} (hc : ch ≠ 26) : Back e (editKey e ch) := by
  unfold editKey
  split
  · exact refl_back h
  split
  · have h1 := dispatch_back h (ch := 10) (by decide)
    exact h1.trans (indent_back h1.inv _)
  · exact dispatch_back h hc

theorem pop_inv {e : Ed} (h : Inv e) : Inv (popUndo e) := by
  unfold popUndo
  split
  · exact h
  · next r u hu =>
    have hc := h.chain
    rw [hu] at hc
    exact ⟨hc.1, hc.2.1, hc.2.2⟩

theorem editKey_undo (e : Ed) : editKey e 26 = popUndo e := by simp [editKey, dispatch]

theorem key_inv {e : Ed} (h : Inv e) (ch : Nat) : Inv (editKey e ch) := by
  by_cases hc : ch = 26
  · subst hc; rw [editKey_undo]; exact pop_inv h
  · exact (editKey_back h hc).inv

theorem keys_inv : ∀ (ks : List Nat) {e : Ed}, Inv e → Inv (ks.foldl editKey e)
  | [], _, h => h
  | k :: ks, _, h => keys_inv ks (key_inv h k)

theorem again_nil (t : Text) : ∀ n, again undo1 n (t, []) = (t, [])
  | 0 => rfl
  | n + 1 => by simp only [again, undo1]; exact again_nil t n

/-- Undoing everything gives the same whatever key was pressed last. -/
theorem unwind_key {e : Ed} (h : Inv e) (ch : Nat) :
    again undo1 (editKey e ch).undo.length (core (editKey e ch)) = again undo1 e.undo.length (core e) := by
  by_cases hc : ch = 26
  · subst hc
    rw [editKey_undo, core_pop]
    unfold popUndo core
    cases hu : e.undo with
    | nil => simp [hu, undo1, again]
    | cons r u => simp [again, undo1]
  · obtain ⟨k, hk, hk'⟩ := (editKey_back h hc).undo
    rw [hk, Nat.add_comm, again_add, hk']

theorem unwind_keys : ∀ (ks : List Nat) {e : Ed}, Inv e →
    again undo1 (ks.foldl editKey e).undo.length (core (ks.foldl editKey e)) = again undo1 e.undo.length (core e)
  | [], _, _ => rfl
  | k :: ks, e, h => by
    simp only [List.foldl_cons]
    rw [unwind_keys ks (key_inv h k), unwind_key h k]

end Snek.Snekde
