import Verif.Proofs.SnekdeLines
/-!
# C92: the editor keeps the program it was given, but for what the keys say

The editor of snekde: each key does to the text, the cursor, the selection and the cut buffer what it says; the cursor and the selection are
always places of the text; undoing takes the text back through everything it was.

All of this is about one window with which nothing else happens (`_partial`). The two windows share one list of what can be undone, and a
program that is loaded does not empty it: an undo can then damage a program that was not edited. And a line that is indented
deeper than its predecessor asks for loses characters when it is indented.
-/
namespace Snek.Snekde
open Spec

/-- For every key that has nothing to do with indentation, up and down, or undoing, and every state of the window: what one sees afterwards is
what the key says. Missing: lines of more than 65536 characters, of which the end is not found. -/
theorem C92_keys_partial (e : Ed) (hp : e.point ≤ e.text.length) (hl : ((sheet e).head ++ (sheet e).tail).length ≤ 65536)
    (k : Key) (ch : Nat) (hk : ch ∈ codes k) : sheet (editKey e ch) = act (sheet e) k := key_sheet hp hl k hk

/-- A window with two lines, the cursor in the second. -/
def two : Ed := ⟨"if a:\n    b = 1\nc".toList, 10, some 12, "xy".toList, false, 20, []⟩

example : two.point ≤ two.text.length ∧ ((sheet two).head ++ (sheet two).tail).length ≤ 65536 ∧
    sheet (editKey two 246) = ⟨"if a:\n    xy".toList, "b = 1\nc".toList, some 14, "xy".toList⟩ ∧
    sheet (editKey { two with mark := none } 8) = ⟨"if a:\n".toList, "b = 1\nc".toList, none, "xy".toList⟩ ∧
    sheet (editKey two 24) = ⟨"if a:\n    ".toList, "= 1\nc".toList, none, "b ".toList⟩ := by decide +kernel

/-- Up: the same column of the line above, or its end if that is shorter; from the first line to the beginning of the text. -/
theorem C92_up (e : Ed) :
    (∀ pre' l' l post col, At e.text e.point (pre' ++ l' ++ ['\n']) l post col → (pre' = [] ∨ pre'.getLast? = some '\n') → '\n' ∉ l' →
      At e.text (editKey e 259).point pre' l' ('\n' :: (l ++ post)) (min col l'.length)) ∧
    (∀ l post col, At e.text e.point [] l post col → (editKey e 259).point = 0) ∧
    (editKey e 259).text = e.text :=
  ⟨fun _ _ _ _ _ h hf ho => up_above h hf ho, fun _ _ _ h => up_first h, rfl⟩

/-- Down: the same column of the line below, or its end if that is shorter; from the last line to the end of the text. Missing: a last line
of more than 65536 characters. -/
theorem C92_down_partial (e : Ed) :
    (∀ pre l l' post col, At e.text e.point pre l ('\n' :: (l' ++ post)) col → '\n' ∉ l' → (post = [] ∨ post.head? = some '\n') →
      At e.text (editKey e 258).point (pre ++ l ++ ['\n']) l' post (min col l'.length)) ∧
    (∀ pre l col, At e.text e.point pre l [] col → l.length ≤ 65536 → (editKey e 258).point = e.text.length) ∧
    (editKey e 258).text = e.text :=
  ⟨fun _ _ _ _ _ h ho hl => down_below h ho hl, fun _ _ _ h hb => down_last h hb, rfl⟩

example : At two.text two.point ("".toList ++ "if a:".toList ++ ['\n']) "    b = 1".toList "\nc".toList 4 ∧ (editKey two 259).point = 4 ∧
    At two.text two.point "if a:\n".toList "    b = 1".toList ('\n' :: ("c".toList ++ [])) 4 ∧ (editKey two 258).point = 17 :=
  ⟨⟨by decide, by decide, by decide, by decide, by decide, by decide⟩, by decide +kernel,
    ⟨by decide, by decide, by decide, by decide, by decide, by decide⟩, by decide +kernel⟩

/-- A window in which something was just loaded, with nothing to undo. -/
def fresh (t : Text) (lines : Nat) : Ed := ⟨t, 0, none, [], false, lines, []⟩

theorem fresh_inv (t : Text) (n : Nat) : Inv (fresh t n) := ⟨Nat.zero_le _, mark_none _, trivial⟩

/-- Whatever keys are pressed in a window, the cursor and the other end of the selection are places of its text. Missing: keys in the other
window and loading between them. -/
theorem C92_cursor_partial (t : Text) (lines : Nat) (ks : List Nat) :
    let e := ks.foldl editKey (fresh t lines)
    e.point ≤ e.text.length ∧ ∀ m, e.mark = some m → m ≤ e.text.length :=
  have h := keys_inv ks (fresh_inv t lines)
  ⟨h.point, h.mark⟩

/-- Whatever keys were pressed in a window: pressing undo as often as there is something to undo brings back the text that was loaded, with nothing
left to undo. Missing: as above. -/
theorem C92_unwind_partial (t : Text) (lines : Nat) (ks : List Nat) :
    let e := ks.foldl editKey (fresh t lines)
    (again (editKey · 26) e.undo.length e).text = t ∧ (again (editKey · 26) e.undo.length e).undo = [] := by
  have h := unwind_keys ks (fresh_inv t lines)
  have hf : (fun x => editKey x 26) = popUndo := funext editKey_undo
  simp only [hf]
  rw [← core_again] at h
  have h' : core (again popUndo (ks.foldl editKey (fresh t lines)).undo.length (ks.foldl editKey (fresh t lines))) = (t, []) := h
  exact ⟨congrArg Prod.fst h', congrArg Prod.snd h'⟩

/-- And each key by itself: whatever was done before, the text from before the key is back after as many undos as it added to the list, which is one
for a key that changes the text and two for the newline key at most, and so is the list. -/
theorem C92_undo_partial (t : Text) (lines : Nat) (ks : List Nat) (ch : Nat) (hc : ch ≠ 26) :
    let e := ks.foldl editKey (fresh t lines)
    let e' := editKey e ch
    ∃ k, e'.undo.length = e.undo.length + k ∧ (again (editKey · 26) k e').text = e.text ∧ (again (editKey · 26) k e').undo = e.undo := by
  intro e e'
  obtain ⟨k, h1, h2⟩ := (editKey_back (keys_inv ks (fresh_inv t lines)) hc).undo
  have hf : (fun x => editKey x 26) = popUndo := funext editKey_undo
  refine ⟨k, h1, ?_⟩
  simp only [hf]
  rw [← core_again] at h2
  exact ⟨congrArg Prod.fst h2, congrArg Prod.snd h2⟩

/-- Typing, erasing, cutting, a newline with its indentation, then undoing everything. -/
example : let e := [105, 102, 58, 10, 120, 8, 0, 259, 24, 22].foldl editKey (fresh "ab".toList 20)
    e.text = "if:\n    ab".toList ∧ e.undo.length = 9 ∧ (again (editKey · 26) 9 e).text = "ab".toList := by decide +kernel

/-- Indenting a line, with the key for it: nothing but the spaces that the line begins with is different, they are as many as the line above
asks for, and the cursor is behind them. Missing: a line that begins with more spaces than that (see below), a line that is the
first or has nothing but an empty line above, and a line above of more than 65536 characters. -/
theorem C92_indent_partial (e : Ed) (pre' l' l post : Text) (col : Nat) (h : At e.text e.point (pre' ++ l' ++ ['\n']) l post col)
    (hf : pre' = [] ∨ pre'.getLast? = some '\n') (ho : '\n' ∉ l') (hb : l'.length ≤ 65536) (hne : pre' ++ l' ≠ [])
    (hw : lead l ≤ wanted l') :
    Indented e.text (pre' ++ l' ++ ['\n']) (wanted l') (editKey e 9).text ∧
      (editKey e 9).point = (pre' ++ l' ++ ['\n']).length + wanted l' := by
  have he : editKey e 9 = indent e (wanted l') := autoIndent_at h hf ho hb hne
  rw [he]
  exact indent_at h hw

example : At "if a: \n b".toList 7 ("".toList ++ "if a: ".toList ++ ['\n']) " b".toList [] 0 ∧ lead " b".toList ≤ wanted "if a: ".toList ∧
    (editKey { two with text := "if a: \n b".toList, point := 7 } 9).text = "if a: \n    b".toList :=
  ⟨⟨by decide, by decide, by decide, by decide, by decide, by decide⟩, by decide, by decide +kernel⟩

/-- The newline key: the line is broken at the cursor, and the new line is indented as what is left of the old one asks for; nothing else is
different. Missing: more spaces behind the cursor than that (see below), a cursor at the beginning of the text, and more than 65536
characters before the cursor in its line. -/
theorem C92_newline_partial (e : Ed) (hp : e.point ≤ e.text.length) (h0 : 0 < e.point) (hb : (sheet e).head.length ≤ 65536)
    (hw : lead (sheet e).tail ≤ wanted (sheet e).head) :
    Indented ((sheet e).before ++ ['\n'] ++ (sheet e).after) ((sheet e).before ++ ['\n']) (wanted (sheet e).head) (editKey e 10).text ∧
      (editKey e 10).point = e.point + 1 + wanted (sheet e).head := by
  obtain ⟨ls, l, post, col, h1, h⟩ := at_ex e.text hp
  rw [head_at (at_sheet hp h)] at hb hw ⊢
  rw [tail_at (at_sheet hp h)] at hw
  have hk : editKey e 10 = autoIndent (insertAtPoint e ['\n']) := rfl
  have hs := insertAt_sheet hp ['\n']
  have ht : (insertAtPoint e ['\n']).text = (sheet e).before ++ ['\n'] ++ (sheet e).after := by
    rw [← sheet_all (insertAtPoint e ['\n']), hs]; rfl
  have hbef : (sheet e).before = joinNl ls ++ l.take col := take_at h
  have haft : (sheet e).after = l.drop col ++ post := drop_at h
  have hpt : (insertAtPoint e ['\n']).point = e.point + 1 := by simp [insertAtPoint, insert, pushUndo]
  have hlen : (sheet e).before.length = e.point := sheet_len hp
  have hA : At (insertAtPoint e ['\n']).text (insertAtPoint e ['\n']).point (joinNl ls ++ l.take col ++ ['\n']) (l.drop col) post 0 := by
    refine ⟨?_, .inr (by simp), not_mem_drop h.one col, h.last, Nat.zero_le _, ?_⟩
    · rw [ht, hbef, haft]; simp
    · rw [hpt, ← hlen, hbef]; simp; omega
  have hne : joinNl ls ++ l.take col ≠ [] := by
    rw [← hbef]; intro hh; rw [hh] at hlen; simp at hlen; omega
  rw [hk, autoIndent_at hA (joinNl_ends ls) (not_mem_take h.one col) hb hne]
  have := indent_at hA hw
  rw [ht, ← hbef] at this
  refine ⟨this.1, ?_⟩
  rw [this.2, List.length_append, hlen]; rfl

example : let e : Ed := { two with text := "  if a: b".toList, point := 7, mark := none }
    e.point ≤ e.text.length ∧ lead (sheet e).tail ≤ wanted (sheet e).head ∧ (editKey e 10).text = "  if a:\n      b".toList := by
  decide +kernel

theorem count_joinNl : ∀ (ls : List Text), (∀ x ∈ ls, '\n' ∉ x) → (joinNl ls).count '\n' = ls.length
  | [], _ => rfl
  | l :: ls, h => by
    have h1 : l.count '\n' = 0 := List.count_eq_zero.2 (h l (List.mem_cons_self ..))
    have h2 := count_joinNl ls fun x hx => h x (List.mem_cons_of_mem _ hx)
    unfold joinNl at h2 ⊢
    rw [List.flatMap_cons, List.count_append, List.count_append, h1, h2]
    simp; omega

/-- Going to the line with a number, or to the first or last if there is none. -/
theorem go_line {t : Text} {q : Nat} {pre l post : Text} {c : Nat} (h : At t q pre l post c) (col : Nat) (k : Int)
    (hk : k = pre.count '\n' ∨ (k < 0 ∧ pre = []) ∨ ((pre.count '\n' : Int) ≤ k ∧ post = [])) :
    At t (cursorToPoint t col k) pre l post (min col l.length) := by
  obtain ⟨ls, h1, h2⟩ := joined h.first
  have hc : pre.count '\n' = ls.length := by rw [h2]; exact count_joinNl ls h1
  refine ⟨h.text, h.first, h.one, h.last, Nat.min_le_right .., ?_⟩
  have base := c2p_at h h1 h2 col
  rw [hc] at hk
  by_cases e : k = ls.length
  · rw [e]; exact base
  · rcases hk with hk | ⟨hk, hp⟩ | ⟨hk, hp⟩
    · exact absurd hk e
    · have : ls.length = 0 := by rw [← hc, hp]; rfl
      rw [c2p_neg t col hk, ← base, this]; rfl
    · have hs : (split t).length = ls.length + 1 := by
        rw [h.text, hp, h2, List.append_nil, split_join _ _ h1, split_one _ h.one]; simp
      rw [c2p_big t col (by rw [hs]; omega), hs, ← base]
      congr 1
      omega

/-- The keys for a page: the same column, or the end of the line if that is shorter, of the line `lines - 1` below, and `lines + 1` above (see
`C92_violated_page`); of the last or first line if there are not so many. The text stays. -/
theorem C92_page_partial (e : Ed) (pre l post : Text) (col : Nat) (h : At e.text e.point pre l post col)
    (pre' l' post' : Text) (q c : Nat) (h' : At e.text q pre' l' post' c) :
    ((pre'.count '\n' : Int) = pre.count '\n' + e.lines - 1 ∨ (pre'.count '\n' : Int) ≤ pre.count '\n' + e.lines - 1 ∧ post' = [] →
      At e.text (editKey e 338).point pre' l' post' (min col l'.length)) ∧
    ((pre'.count '\n' : Int) = pre.count '\n' - e.lines - 1 ∨ (pre.count '\n' : Int) < e.lines + 1 ∧ pre' = [] →
      At e.text (editKey e 339).point pre' l' post' (min col l'.length)) ∧
    (editKey e 338).text = e.text ∧ (editKey e 339).text = e.text := by
  obtain ⟨ls, h1, h2⟩ := joined h.first
  have hc : pre.count '\n' = ls.length := by rw [h2]; exact count_joinNl ls h1
  have hpos := p2c_at h h1 h2
  refine ⟨fun hk => ?_, fun hk => ?_, rfl, rfl⟩
  · show At e.text (cursorToPoint e.text (pointToCursor e.text e.point).1 ((pointToCursor e.text e.point).2 + e.lines - 1)) _ _ _ _
    rw [hpos]
    rw [hc] at hk
    refine go_line h' col _ ?_
    rcases hk with hk | ⟨hk, hp⟩
    · exact .inl hk.symm
    · exact .inr (.inr ⟨hk, hp⟩)
  · show At e.text (cursorToPoint e.text (pointToCursor e.text e.point).1 ((pointToCursor e.text e.point).2 - e.lines - 1)) _ _ _ _
    rw [hpos]
    rw [hc] at hk
    refine go_line h' col _ ?_
    rcases hk with hk | ⟨hk, hp⟩
    · exact .inl hk.symm
    · exact .inr (.inl ⟨by simp only []; omega, hp⟩)

/-- Page down and then page up does not lead back: the comment says that both move by `lines - 1`, the code for up moves by `lines + 1`. Here a window of
two lines, at the fourth of six. -/
theorem C92_violated_page :
    let e : Ed := ⟨"a\nb\nc\nd\ne\nf".toList, 6, none, [], false, 2, []⟩
    (editKey e 338).point = 8 ∧ (editKey (editKey e 338) 339).point = 2 := by decide +kernel

/-- The hypotheses are met: up from the fourth line of six to the first, and down to the fifth. -/
example : At "a\nb\nc\nd\ne\nf".toList 6 "a\nb\nc\n".toList "d".toList "\ne\nf".toList 0 ∧ At "a\nb\nc\nd\ne\nf".toList 0 [] "a".toList "\nb\nc\nd\ne\nf".toList 0 ∧
    At "a\nb\nc\nd\ne\nf".toList 8 "a\nb\nc\nd\n".toList "e".toList "\nf".toList 0 := by
  refine ⟨⟨?_, ?_, ?_, ?_, ?_, ?_⟩, ⟨?_, ?_, ?_, ?_, ?_, ?_⟩, ⟨?_, ?_, ?_, ?_, ?_, ?_⟩⟩ <;> decide +kernel

/-- A line that is indented deeper than the line above asks for is not indented less: characters behind its spaces are deleted. Here with the key for
indenting, and with the newline key in front of spaces, where the deletion runs on into the next line. -/
theorem C92_violated_indent :
    (editKey { two with text := "a\n    bcdefg".toList, point := 2 } 9).text = "a\n    fg".toList ∧
    (editKey { two with text := "a    b\nc = 2".toList, point := 1, mark := none } 10).text = "a\n    = 2".toList := by
  decide +kernel

/-- The line below an empty first line is indented after the last character of the text. -/
theorem C92_violated_last :
    (editKey { two with text := "\nb\nwhile c:".toList, point := 1 } 9).text = "\n    b\nwhile c:".toList := by decide +kernel

/-- Control-C does not copy, although the manual says so: it is always taken as an interrupt for the device. -/
theorem C92_violated_copy : ∀ e : Ed, editKey e 3 = e := fun _ => rfl

/-- Two windows, the cursor in the one for the program, in which a program was loaded; the other one shows a prompt. -/
def desk : Desk := ⟨⟨"print(1)".toList, 0, none, [], false, 20⟩, ⟨"> ".toList, 2, none, [], false, 20⟩, [], false⟩

/-- The undo of one window takes back, in its own text, what was typed in the other: the program loses a character that was always there, and the
cursor can be left behind the end of the text. -/
theorem C92_violated_shared :
    ([.switch, .key 120, .switch, .key 26].foldl Desk.step desk).edit.text = "prnt(1)".toList ∧
    let d := [.toRepl "1234567890".toList, .switch, .key 120, .switch, .key 26].foldl Desk.step desk
    d.edit.text = "print(1)".toList ∧ d.edit.point > d.edit.text.length := by decide +kernel

/-- After another program was loaded, undo applies what was done to the program before. -/
theorem C92_violated_load :
    ([.key 97, .key 98, .load "x = 1".toList, .key 26].foldl Desk.step desk).edit.text = "x= 1".toList := by decide +kernel

end Snek.Snekde
