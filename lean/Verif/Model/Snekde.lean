/-!
# The editor of snekde

`class EditWin` of the development environment (snekde/snekde.py:400-851): the text of a window, the place the cursor is at, the other end of
the selection, the cut buffer, and the list of what can be undone. `undo = []` (line 415) is an attribute of the class, which nothing assigns
for a window: both windows append to and take from the same list. `Desk` is the two windows and that list; `Ed` is one window and the list.

Simplifications: what is drawn is not modelled, with it `top_line`, `set_cursor`, `scroll_to_point` and `repaint`; a mark of -1 is `none`; the
text is a list of code points. Places are never negative in the code, except the one that `last_ch` reads from and the lines that
`cursor_to_point` is asked for, which are integers here as well.
-/
namespace Snek.Snekde

abbrev Text := List Char

/-- One entry of the undo list, snekde/snekde.py:643-644: where, what (text that was removed, or how many characters were inserted), and the
point and mark of the time. -/
structure Rec where
  at_ : Nat
  op : Text ⊕ Nat
  point : Nat
  mark : Option Nat
  deriving DecidableEq, Repr

/-- A window and the undo list, snekde/snekde.py:400-415. The list has its newest entry first. `lines` is the height of the window. -/
structure Ed where
  text : Text
  point : Nat
  mark : Option Nat
  cut : Text
  changed : Bool
  lines : Nat
  undo : List Rec
  deriving DecidableEq, Repr

/-- `str.split("\n")` of Python. -/
def split : Text → List Text
  | [] => [[]]
  | c :: t => if c = '\n' then [] :: split t else
    match split t with
    | s :: ss => (c :: s) :: ss
    | [] => [[c]]

/-- `point_to_cursor`, snekde/snekde.py:436-442: column and line of a place. -/
def pointToCursor (text : Text) (point : Nat) : Nat × Int :=
  (split (text.take point)).foldl (fun (p : Nat × Int) s => (s.length, p.2 + 1)) (0, -1)

/-- The loop of `cursor_to_point`, snekde/snekde.py:452-461. -/
def walk (col : Nat) (curLine : Int) : List Text → Nat → Int → Nat → Nat
  | [], _, _, point => point
  | s :: ss, bol, line, _ =>
    let point := bol + min col s.length
    if line = curLine then point else walk col curLine ss (bol + s.length + 1) (line + 1) point

/-- `cursor_to_point`, snekde/snekde.py:446-461. -/
def cursorToPoint (text : Text) (col : Nat) (line : Int) : Nat :=
  let n : Int := (split text).length
  let curLine := if line < 0 then 0 else if line ≥ n then n - 1 else line
  walk col curLine (split text) 0 0 0

/-- The loops that step over spaces, snekde/snekde.py:545-546 and 773-775: how many spaces a text begins with. -/
def spaces : Text → Nat
  | [] => 0
  | c :: t => if c = ' ' then spaces t + 1 else 0

/-- `indent_at`, snekde/snekde.py:542-547. -/
def indentAt (text : Text) (line : Int) : Nat :=
  spaces (text.drop (cursorToPoint text 0 line))

/-- The loop of `last_ch`, snekde/snekde.py:554-555: back over spaces, but not beyond the first character. -/
def back (text : Text) : Nat → Nat
  | 0 => 0
  | p + 1 => if text[p + 1]? = some ' ' then back text p else p + 1

/-- `last_ch`, snekde/snekde.py:551-556. With a line end at 0 the index is -1, which is the last character of the text in Python. `none` is the
exception for an empty text. -/
def lastCh (text : Text) (line : Int) : Option Char :=
  let eol := cursorToPoint text 65536 line
  if eol = 0 then text.getLast? else text[back text (eol - 1)]?

/-- `in_indent`, snekde/snekde.py:560-564. -/
def inIndent (text : Text) (point : Nat) : Bool :=
  let c := pointToCursor text point
  decide (c.1 > 0) && decide (indentAt text c.2 ≥ c.1)

/-- `left`, snekde/snekde.py:568-570. -/
def left (e : Ed) : Ed := if e.point > 0 then { e with point := e.point - 1 } else e

/-- `right`, snekde/snekde.py:583-585. -/
def right (e : Ed) : Ed := if e.point < e.text.length then { e with point := e.point + 1 } else e

/-- `up`, snekde/snekde.py:574-579. -/
def up (e : Ed) : Ed :=
  let pos := pointToCursor e.text e.point
  let p := cursorToPoint e.text pos.1 (pos.2 - 1)
  { e with point := if p = e.point then cursorToPoint e.text 0 pos.2 else p }

/-- `down`, snekde/snekde.py:589-594. -/
def down (e : Ed) : Ed :=
  let pos := pointToCursor e.text e.point
  let p := cursorToPoint e.text pos.1 (pos.2 + 1)
  { e with point := if p = e.point then cursorToPoint e.text 65536 pos.2 else p }

/-- `bol`, snekde/snekde.py:598-600. -/
def bol (e : Ed) : Ed := { e with point := cursorToPoint e.text 0 (pointToCursor e.text e.point).2 }

/-- `eol`, snekde/snekde.py:604-606. -/
def eol (e : Ed) : Ed := { e with point := cursorToPoint e.text 65536 (pointToCursor e.text e.point).2 }

/-- `prev_page`, snekde/snekde.py:621-623. -/
def prevPage (e : Ed) : Ed :=
  let pos := pointToCursor e.text e.point
  { e with point := cursorToPoint e.text pos.1 (pos.2 - e.lines - 1) }

/-- `next_page`, snekde/snekde.py:632-634. -/
def nextPage (e : Ed) : Ed :=
  let pos := pointToCursor e.text e.point
  { e with point := cursorToPoint e.text pos.1 (pos.2 + e.lines - 1) }

/-- `push_undo`, snekde/snekde.py:643-644. -/
def pushUndo (e : Ed) (at_ : Nat) (op : Text ⊕ Nat) : Ed := { e with undo := ⟨at_, op, e.point, e.mark⟩ :: e.undo }

/-- `pop_undo`, snekde/snekde.py:646-661. -/
def popUndo (e : Ed) : Ed :=
  match e.undo with
  | [] => e
  | r :: u =>
    let text := match r.op with
      | .inl t => e.text.take r.at_ ++ t ++ e.text.drop r.at_
      | .inr n => e.text.take r.at_ ++ e.text.drop (r.at_ + n)
    { e with text := text, point := r.point, mark := r.mark, changed := true, undo := u }

/-- `insert`, snekde/snekde.py:666-673. -/
def insert (e : Ed) (p : Nat) (t : Text) : Ed :=
  let e := pushUndo e p (.inr t.length)
  { e with
    text := e.text.take p ++ t ++ e.text.drop p
    point := if p < e.point then e.point + t.length else e.point
    mark := e.mark.map fun m => if p < m then m + t.length else m
    changed := true }

/-- `insert_at_point`, snekde/snekde.py:675-677. -/
def insertAtPoint (e : Ed) (t : Text) : Ed :=
  let e := insert e e.point t
  { e with point := e.point + t.length }

/-- `_adjust_delete_position` for the point, snekde/snekde.py:682-691. -/
def adjustPoint (p count moving : Nat) : Nat :=
  if p ≤ moving ∧ moving < p + count then p else if p + count ≤ moving then moving - count else moving

/-- `_adjust_delete_position` for the mark, snekde/snekde.py:682-691. -/
def adjustMark (p count moving : Nat) : Option Nat :=
  if p ≤ moving ∧ moving < p + count then none else if p + count ≤ moving then some (moving - count) else some moving

/-- `delete`, snekde/snekde.py:693-699. -/
def delete (e : Ed) (p count : Nat) : Ed :=
  let e := pushUndo e p (.inl ((e.text.drop p).take count))
  { e with
    text := e.text.take p ++ e.text.drop (p + count)
    point := adjustPoint p count e.point
    mark := e.mark.bind (adjustMark p count)
    changed := true }

/-- `delete_at_point`, snekde/snekde.py:701-702. -/
def deleteAtPoint (e : Ed) (count : Nat) : Ed := delete e e.point count

/-- `backtab`, snekde/snekde.py:706-714, with `tab_width = 4` (line 409). -/
def backtab (e : Ed) : Ed :=
  let col := (pointToCursor e.text e.point).1
  if col = 0 then e else
    let n := if col % 4 = 0 then 4 else col % 4
    deleteAtPoint { e with point := e.point - n } n

/-- `get_selection`, snekde/snekde.py:742-746. -/
def selection (e : Ed) : Option (Nat × Nat) := e.mark.map fun m => (min m e.point, max m e.point)

/-- `backspace`, snekde/snekde.py:719-729. -/
def backspace (e : Ed) : Ed :=
  match selection e with
  | some (a, b) => { delete e a (b - a) with mark := none }
  | none =>
    if e.point > 0 then
      if inIndent e.text e.point then backtab e else deleteAtPoint (left e) 1
    else e

/-- `toggle_mark`, snekde/snekde.py:734-738. -/
def toggleMark (e : Ed) : Ed := { e with mark := if e.mark.isSome then none else some e.point }

/-- `copy`, snekde/snekde.py:751-759. -/
def copy (e : Ed) (del : Bool) : Ed :=
  match selection e with
  | some (a, b) =>
    let e := { e with cut := (e.text.drop a).take (b - a) }
    let e := if del then delete e a (b - a) else e
    { e with mark := none }
  | none => e

/-- `paste`, snekde/snekde.py:763-765. -/
def paste (e : Ed) : Ed := if e.cut = [] then e else insertAtPoint e e.cut

/-- `indent`, snekde/snekde.py:770-779. -/
def indent (e : Ed) (want : Nat) : Ed :=
  let e := bol e
  let have_ := spaces (e.text.drop e.point)
  let e := { e with point := e.point + have_ }
  if have_ < want then insertAtPoint e (List.replicate (want - have_) ' ')
  else if have_ > want then deleteAtPoint e (have_ - want)
  else e

/-- `auto_indent`, snekde/snekde.py:784-791. -/
def autoIndent (e : Ed) : Ed :=
  let line := (pointToCursor e.text e.point).2
  let want := if line > 0 then
      indentAt e.text (line - 1) + (if lastCh e.text (line - 1) = some ':' then 4 else 0)
    else 0
  indent e want

/-- `delete_to_eol`, snekde/snekde.py:795-801. -/
def deleteToEol (e : Ed) : Ed :=
  let line := (pointToCursor e.text e.point).2
  let end_ := cursorToPoint e.text 65536 line
  if e.point = end_ then deleteAtPoint e 1 else deleteAtPoint e (end_ - e.point)

/-- `set_text`, snekde/snekde.py:427-432. -/
def setText (e : Ed) (t : Text) : Ed := { e with text := t, point := 0, mark := none, changed := false }

/-- `dispatch`, snekde/snekde.py:817-851. The numbers are those of curses: 258-263 the arrows, home and backspace, 338, 339 and 360 the page
keys and end. -/
def dispatch (e : Ed) (ch : Nat) : Ed :=
  if ch = 0 ∨ ch = 32 + 128 then toggleMark e
  else if ch = 3 ∨ ch = 99 + 128 then copy e false
  else if ch = 24 ∨ ch = 120 + 128 then copy e true
  else if ch = 22 ∨ ch = 118 + 128 then paste e
  else if ch = 11 then deleteToEol e
  else if ch = 26 then popUndo e
  else if ch = 260 ∨ ch = 2 then left e
  else if ch = 261 ∨ ch = 6 then right e
  else if ch = 259 ∨ ch = 16 then up e
  else if ch = 258 ∨ ch = 14 then down e
  else if ch = 262 ∨ ch = 1 then bol e
  else if ch = 339 then prevPage e
  else if ch = 338 then nextPage e
  else if ch = 360 ∨ ch = 5 then eol e
  else if ch = 9 then autoIndent e
  else if ch = 8 ∨ ch = 263 ∨ ch = 127 then backspace e
  else if (32 ≤ ch ∧ ch ≤ 126) ∨ ch = 10 then insertAtPoint e [Char.ofNat ch]
  else e

/-- A key in the edit window, snekde/snekde.py:1363-1365, 1399-1402 and 1426-1427: `run` takes control-C for itself, and the newline key also
indents. The function keys and control-O, which `run` takes as well (lines 1366-1398), are no keys of the window. -/
def editKey (e : Ed) (ch : Nat) : Ed :=
  if ch = 3 then e
  else if ch = 10 then autoIndent (dispatch e 10)
  else dispatch e ch

/-- A window without the undo list, snekde/snekde.py:400-414. -/
structure Pane where
  text : Text
  point : Nat
  mark : Option Nat
  cut : Text
  changed : Bool
  lines : Nat
  deriving DecidableEq, Repr

/-- The two windows (snekde/snekde.py:1230-1233), the list of the class (line 415), and which window has the keys. -/
structure Desk where
  edit : Pane
  repl : Pane
  undo : List Rec
  inRepl : Bool
  deriving DecidableEq, Repr

def Pane.with (p : Pane) (u : List Rec) : Ed := ⟨p.text, p.point, p.mark, p.cut, p.changed, p.lines, u⟩
def Ed.pane (e : Ed) : Pane := ⟨e.text, e.point, e.mark, e.cut, e.changed, e.lines⟩

/-- What happens to the windows: a key, the other window (snekde/snekde.py:1392-1396), another program (lines 1277, 1298-1305), text that arrived
from the device (`add_to`, lines 1470-1475). -/
inductive Ev where
  | key (ch : Nat)
  | switch
  | load (t : Text)
  | toEdit (t : Text)
  | toRepl (t : Text)
  deriving DecidableEq, Repr

/-- One event. The newline key of the other window sends a line and is not modelled here. -/
def Desk.step (d : Desk) : Ev → Desk
  | .key ch =>
    if d.inRepl then
      if ch = 3 ∨ ch = 10 then d else
        let e := dispatch (d.repl.with d.undo) ch
        { d with repl := e.pane, undo := e.undo }
    else
      let e := editKey (d.edit.with d.undo) ch
      { d with edit := e.pane, undo := e.undo }
  | .switch => { d with inRepl := !d.inRepl }
  | .load t =>
    let e := setText (d.edit.with d.undo) t
    { d with edit := e.pane, undo := e.undo }
  | .toEdit t => { d with edit := { d.edit with text := d.edit.text ++ t } }
  | .toRepl t =>
    { d with repl := { d.repl with
        text := d.repl.text ++ t
        point := if d.repl.point = d.repl.text.length then d.repl.point + t.length else d.repl.point } }

end Snek.Snekde
