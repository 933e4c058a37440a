import Verif.Proofs.Snekde
/-!
What each key does to the sheet.
-/
namespace Snek.Snekde
open Spec

/-- What one sees of a window: the text before and behind the cursor, the mark, what was cut. -/
def sheet (e : Ed) : Sheet := ⟨e.text.take e.point, e.text.drop e.point, e.mark, e.cut⟩

theorem sheet_all (e : Ed) : (sheet e).all = e.text := by simp [sheet, Sheet.all]
theorem sheet_len {e : Ed} (hp : e.point ≤ e.text.length) : (sheet e).before.length = e.point := by simp [sheet]; omega

theorem insertAt_sheet {e : Ed} (hp : e.point ≤ e.text.length) (t : Text) :
    sheet (insertAtPoint e t) = (sheet e).put t := by
  have h1 : (List.take e.point e.text).length = e.point := by simp; omega
  simp only [insertAtPoint, insert, pushUndo, sheet, Sheet.put, Nat.lt_irrefl, if_false, h1]
  have h2 : (List.take e.point e.text ++ t).length = e.point + t.length := by simp; omega
  congr 1
  · rw [List.take_append_of_le_length (by omega), List.take_of_length_le (by omega)]
  · rw [List.drop_append_of_le_length (by omega), List.drop_of_length_le (by omega)]; rfl

theorem adjustMark_gone (p n m : Nat) : adjustMark p n m = gone p n m := by
  unfold adjustMark gone
  by_cases h1 : m < p
  · rw [if_neg (by omega), if_neg (by omega), if_pos h1]
  · by_cases h2 : m < p + n
    · rw [if_pos ⟨by omega, h2⟩, if_neg h1, if_pos h2]
    · rw [if_neg (by omega), if_pos (by omega), if_neg h1, if_neg h2]

theorem adjustPoint_self (p n : Nat) : adjustPoint p n p = p := by
  unfold adjustPoint
  split
  · rfl
  · split <;> omega

theorem deleteAt_sheet {e : Ed} (hp : e.point ≤ e.text.length) (n : Nat) :
    sheet (deleteAtPoint e n) = (sheet e).rub n := by
  have h1 : (List.take e.point e.text).length = e.point := by simp; omega
  simp only [deleteAtPoint, delete, pushUndo, sheet, Sheet.rub, adjustPoint_self, h1]
  congr 1
  · rw [List.take_append_of_le_length (by omega), List.take_of_length_le (by omega)]
  · rw [List.drop_append_of_le_length (by omega), List.drop_of_length_le (by omega), List.drop_drop]; rfl
  · cases e.mark with
    | none => rfl
    | some m => simp [adjustMark_gone]

theorem go_sheet (e : Ed) (p : Nat) : sheet { e with point := p } = (sheet e).go p := by
  simp [sheet, Sheet.go, Sheet.all]

theorem go_over {s : Sheet} {p : Nat} (h : s.all.length ≤ p) : s.go p = s.go s.all.length := by
  simp [Sheet.go, List.take_of_length_le h, List.drop_of_length_le h]

theorem go_same {s : Sheet} : s.go s.before.length = s := by
  cases s; simp [Sheet.go, Sheet.all]

theorem left_sheet {e : Ed} (hp : e.point ≤ e.text.length) : sheet (left e) = act (sheet e) .left := by
  simp only [left, act, sheet_len hp]
  split
  · exact go_sheet e _
  · next h =>
    have : e.point - 1 = (sheet e).before.length := by rw [sheet_len hp]; omega
    rw [this, go_same]

theorem right_sheet {e : Ed} (hp : e.point ≤ e.text.length) : sheet (right e) = act (sheet e) .right := by
  simp only [right, act, sheet_len hp]
  split
  · exact go_sheet e _
  · next h =>
    rw [go_over (by rw [sheet_all]; omega), sheet_all]
    have : e.text.length = (sheet e).before.length := by rw [sheet_len hp]; omega
    rw [this, go_same]

theorem at_sheet {e : Ed} (hp : e.point ≤ e.text.length) {pre l post : Text} {col : Nat} (h : At e.text e.point pre l post col) :
    At (sheet e).all (sheet e).before.length pre l post col := by rw [sheet_all, sheet_len hp]; exact h

theorem bol_sheet {e : Ed} (hp : e.point ≤ e.text.length) : sheet (bol e) = act (sheet e) .home := by
  obtain ⟨ls, l, post, col, h1, h⟩ := at_ex e.text hp
  have hw := h.width
  simp only [bol, act]
  rw [go_sheet, p2c_at h h1 rfl, c2p_at h h1 rfl, head_at (at_sheet hp h), sheet_len hp, h.place]
  congr 1
  simp; omega

theorem eol_sheet {e : Ed} (hp : e.point ≤ e.text.length) (hl : ((sheet e).head ++ (sheet e).tail).length ≤ 65536) :
    sheet (eol e) = act (sheet e) .end_ := by
  obtain ⟨ls, l, post, col, h1, h⟩ := at_ex e.text hp
  have hw := h.width
  rw [head_at (at_sheet hp h), tail_at (at_sheet hp h), List.take_append_drop] at hl
  simp only [eol, act]
  rw [go_sheet, p2c_at h h1 rfl, c2p_at h h1 rfl, tail_at (at_sheet hp h), sheet_len hp, h.place]
  congr 1
  simp; omega

theorem kill_sheet {e : Ed} (hp : e.point ≤ e.text.length) (hl : ((sheet e).head ++ (sheet e).tail).length ≤ 65536) :
    sheet (deleteToEol e) = act (sheet e) .kill := by
  obtain ⟨ls, l, post, col, h1, h⟩ := at_ex e.text hp
  have hw := h.width
  have hpl := h.place
  rw [head_at (at_sheet hp h), tail_at (at_sheet hp h), List.take_append_drop] at hl
  simp only [deleteToEol, act]
  rw [p2c_at h h1 rfl, c2p_at h h1 rfl, tail_at (at_sheet hp h)]
  by_cases hc : col = l.length
  · rw [if_pos (by omega), if_pos (by rw [hc, List.drop_length]), deleteAt_sheet hp]
  · rw [if_neg (by omega), deleteAt_sheet hp, if_neg (by rw [List.drop_eq_nil_iff]; omega)]
    congr 1
    simp; omega

theorem mark_sheet {e : Ed} (hp : e.point ≤ e.text.length) : sheet (toggleMark e) = act (sheet e) .mark := by
  have h1 := sheet_len hp
  simp only [toggleMark, act, h1]
  cases hm : e.mark <;> simp [sheet, hm]

theorem paste_sheet {e : Ed} (hp : e.point ≤ e.text.length) : sheet (paste e) = act (sheet e) .paste := by
  simp only [paste, act]
  have : (sheet e).cut = e.cut := rfl
  rw [this]
  split
  · rfl
  · exact insertAt_sheet hp e.cut

theorem adjustPoint_sel {m p : Nat} : adjustPoint (min m p) (max m p - min m p) p = min m p := by
  unfold adjustPoint
  split
  · rfl
  · split <;> omega

theorem copy_sheet {e : Ed} (hp : e.point ≤ e.text.length) : sheet (copy e false) = act (sheet e) .copy := by
  have h1 := sheet_len hp
  cases hm : e.mark with
  | none => simp [copy, selection, act, sheet, hm]
  | some m =>
    simp only [copy, selection, act, hm, Option.map_some, Bool.false_eq_true, if_false]
    have hm' : (sheet e).mark = some m := hm
    rw [hm']
    simp only [h1]
    simp only [sheet]
    congr 1
    by_cases h : m ≤ e.point
    · rw [if_pos h, Nat.min_eq_left h, Nat.max_eq_right h, List.drop_take]
    · rw [if_neg h, Nat.min_eq_right (by omega), Nat.max_eq_left (by omega)]

theorem cut_text {t : Text} {m p : Nat} (hp : p ≤ t.length) :
    let u := t.take (min m p) ++ t.drop (min m p + (max m p - min m p))
    u.take (min m p) = (if m ≤ p then (t.take p).take m else t.take p) ∧
    u.drop (min m p) = (if m ≤ p then t.drop p else (t.drop p).drop (m - p)) := by
  by_cases h : m ≤ p
  · simp only [Nat.min_eq_left h, Nat.max_eq_right h, if_pos h]
    have h1 : (t.take m).length = m := by simp; omega
    constructor
    · rw [List.take_append_of_le_length (by omega), List.take_of_length_le (by omega), List.take_take, Nat.min_eq_left h]
    · rw [List.drop_append_of_le_length (by omega), List.drop_of_length_le (by omega), Nat.add_sub_cancel' h]; rfl
  · have h' : p ≤ m := by omega
    simp only [Nat.min_eq_right h', Nat.max_eq_left h', if_neg h]
    have h1 : (t.take p).length = p := by simp; omega
    constructor
    · rw [List.take_append_of_le_length (by omega), List.take_of_length_le (by omega)]
    · rw [List.drop_append_of_le_length (by omega), List.drop_of_length_le (by omega), List.drop_drop]; rfl

theorem cut_sheet {e : Ed} (hp : e.point ≤ e.text.length) : sheet (copy e true) = act (sheet e) .cut := by
  have h1 := sheet_len hp
  cases hm : e.mark with
  | none => simp [copy, selection, act, sheet, hm]
  | some m =>
    obtain ⟨ha, hb⟩ := cut_text (m := m) hp
    simp only [copy, selection, act, hm, Option.map_some, delete, pushUndo, if_true]
    have hm' : (sheet e).mark = some m := hm
    rw [hm']
    simp only [h1]
    simp only [sheet, adjustPoint_sel]
    rw [ha, hb]
    by_cases h : m ≤ e.point
    · simp only [if_pos h, Nat.min_eq_left h, Nat.max_eq_right h, List.drop_take]
    · have h' : e.point ≤ m := by omega
      simp only [if_neg h, Nat.min_eq_right h', Nat.max_eq_left h']

theorem inIndent_iff {e : Ed} {ls : List Text} {l post : Text} {col : Nat} (h1 : ∀ x ∈ ls, '\n' ∉ x)
    (h : At e.text e.point (joinNl ls) l post col) :
    inIndent e.text e.point = true ↔ l.take col ≠ [] ∧ (l.take col).all (fun x => decide (x = ' ')) = true := by
  have hw := h.width
  unfold inIndent indentAt
  simp only [p2c_at h h1 rfl, c2p_at h h1 rfl, Bool.and_eq_true, decide_eq_true_eq]
  have hd : e.text.drop ((joinNl ls).length + min 0 l.length) = l.take col ++ (l.drop col ++ post) := by
    rw [h.text, Nat.zero_min, Nat.add_zero, List.append_assoc, List.drop_append_of_le_length (Nat.le_refl _), List.drop_length,
      ← List.append_assoc (l.take col), List.take_append_drop]; rfl
  rw [hd]
  have := spaces_ge (l.take col) (l.drop col ++ post)
  have hl : (l.take col).length = col := by simp; omega
  rw [hl] at this
  rw [ge_iff_le, this]
  constructor
  · rintro ⟨a, b⟩
    exact ⟨by intro hn; rw [hn] at hl; simp at hl; omega, b⟩
  · rintro ⟨a, b⟩
    refine ⟨?_, b⟩
    rcases Nat.eq_zero_or_pos col with h0 | h0
    · subst h0; simp at a
    · exact h0

theorem back_sheet {e : Ed} (hp : e.point ≤ e.text.length) (hm : e.mark = none) {n : Nat} (hn : n ≤ e.point) :
    sheet (deleteAtPoint { e with point := e.point - n } n) =
      ⟨(sheet e).before.take ((sheet e).before.length - n), (sheet e).after, none, (sheet e).cut⟩ := by
  rw [deleteAt_sheet (by simp; omega), sheet_len hp]
  simp only [sheet, Sheet.rub, hm, Option.bind_none]
  congr 1
  · rw [List.take_take]; congr 1; omega
  · rw [List.drop_drop]; congr 1; omega

theorem erase_sheet {e : Ed} (hp : e.point ≤ e.text.length) : sheet (backspace e) = act (sheet e) .erase := by
  have h1 := sheet_len hp
  cases hm : e.mark with
  | some m =>
    obtain ⟨ha, hb⟩ := cut_text (m := m) hp
    have hm' : (sheet e).mark = some m := hm
    simp only [backspace, selection, act, hm, Option.map_some, delete, pushUndo, hm', h1]
    simp only [sheet, adjustPoint_sel]
    rw [ha, hb]
    by_cases h : m ≤ e.point
    · simp only [if_pos h]
    · simp only [if_neg h]
  | none =>
    obtain ⟨ls, l, post, col, hls, h⟩ := at_ex e.text hp
    have hw := h.width
    have hpl := h.place
    have hm' : (sheet e).mark = none := hm
    simp only [backspace, selection, act, hm, Option.map_none, hm']
    by_cases h0 : e.point > 0
    · rw [if_pos h0]
      have hi := inIndent_iff hls h
      rw [← head_at (at_sheet hp h)] at hi
      by_cases hin : inIndent e.text e.point = true
      · rw [if_pos hin, if_pos (hi.1 hin)]
        have hc : (sheet e).head.length = col := by rw [head_at (at_sheet hp h)]; simp; omega
        have hc0 : col ≠ 0 := by
          intro hz; rw [hz] at hc; exact (hi.1 hin).1 (List.length_eq_zero_iff.1 hc)
        simp only [backtab, p2c_at h hls rfl, if_neg hc0, hc]
        have : (if col % 4 = 0 then 4 else col % 4) ≤ e.point := by split <;> omega
        exact back_sheet hp hm this
      · rw [if_neg hin, if_neg (fun hh => hin (hi.2 hh))]
        have : left e = { e with point := e.point - 1 } := by simp [left, h0]
        rw [this]
        exact back_sheet hp hm h0
    · rw [if_neg h0]
      have hb : (sheet e).before = [] := by
        apply List.length_eq_zero_iff.1; omega
      have he : sheet e = ⟨[], (sheet e).after, none, (sheet e).cut⟩ := by rw [← hb, ← hm']
      rw [hb]; simpa using he

theorem key_sheet {e : Ed} (hp : e.point ≤ e.text.length) (hl : ((sheet e).head ++ (sheet e).tail).length ≤ 65536)
    (k : Key) {ch : Nat} (hk : ch ∈ codes k) : sheet (editKey e ch) = act (sheet e) k := by
  cases k
  case char c =>
    simp only [codes] at hk
    split at hk
    · next hc =>
      simp only [List.mem_singleton] at hk
      subst hk
      have : dispatch e c.toNat = insertAtPoint e [c] := by
        unfold dispatch
        repeat rw [if_neg (by omega)]
        rw [if_pos (.inl hc), Char.ofNat_toNat]
      unfold editKey
      rw [if_neg (by omega), if_neg (by omega), this]
      exact insertAt_sheet hp [c]
    · simp at hk
  all_goals simp only [codes, List.mem_cons, List.not_mem_nil, or_false] at hk
  case mark => rcases hk with rfl | rfl <;> exact mark_sheet hp
  case copy => subst hk; exact copy_sheet hp
  case cut => rcases hk with rfl | rfl <;> exact cut_sheet hp
  case paste => rcases hk with rfl | rfl <;> exact paste_sheet hp
  case kill => subst hk; exact kill_sheet hp hl
  case left => rcases hk with rfl | rfl <;> exact left_sheet hp
  case right => rcases hk with rfl | rfl <;> exact right_sheet hp
  case home => rcases hk with rfl | rfl <;> exact bol_sheet hp
  case end_ => rcases hk with rfl | rfl <;> exact eol_sheet hp hl
  case erase => rcases hk with rfl | rfl | rfl <;> exact erase_sheet hp

end Snek.Snekde
