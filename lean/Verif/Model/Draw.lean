/-!
# Drawing on the SSD1315 display

Models snek-ssd1315.c. Coordinates are the integers `snek_poly_get_soffset` makes of the arguments (numbers in its range). `int8_t` and
`uint8_t` variables are integers reduced to their range at every assignment. An access outside of the frame buffer yields `none`.

Of the display: its memory of 8 pages of 128 columns of 8 pixels, and the write position, which a data write moves on to the next column
(page addressing mode, the default). The set-up sequence is not modelled.
-/
namespace Snek.Draw

/-- Assignment to an `int8_t`. -/
def i8 (x : Int) : Int := (x + 128) % 256 - 128

/-- Assignment to a `uint8_t`. -/
def u8 (x : Int) : Nat := (x % 256).toNat

/-- The display. -/
structure Disp where
  ram : Nat → Nat → UInt8
  page : Nat
  col : Nat

/-- `ssd_start_write`, snek-ssd1315.c:103-114. -/
def startWrite (d : Disp) (col page : Nat) : Disp := { d with page := page, col := col }

/-- `snek_i2c_write` of a data byte. -/
def dataWrite (d : Disp) (b : UInt8) : Disp :=
  { d with ram := fun p c => if p = d.page ∧ c = d.col then b else d.ram p c, col := (d.col + 1) % 128 }

/-- `n` equal data bytes. -/
def dataWrites (b : UInt8) : Nat → Disp → Disp
  | 0, d => d
  | n + 1, d => dataWrites b n (dataWrite d b)

/-- The static variables, and the display. -/
structure S where
  fb : List UInt8
  color : UInt8
  been : Bool
  lastX : Int
  lastY : Int
  disp : Disp

/-- At start: FB_STRIDE * FB_HEIGHT bytes. Whatever the display shows. -/
def boot (d : Disp) : S := ⟨List.replicate 256 0, 1, false, 0, 0, d⟩

/-- `bit_addr`, snek-ssd1315.c:90-94, as an index. -/
def bitAddr (x y : Nat) : Nat := y * 8 + x / 8

/-- The first loop of `paint_block`, snek-ssd1315.c:129-134: `c` rounds to go. -/
def blockByte (fb : List UInt8) (bit : UInt8) : Nat → Nat → UInt8 → UInt8 → Option UInt8
  | 0, _, _, b => some b
  | c + 1, p, bits, b =>
    match fb[p]? with
    | none => none
    | some v => blockByte fb bit c (p + 8) (bits <<< 2) (if v &&& bit ≠ 0 then b ||| bits else b)

/-- `paint_block`, snek-ssd1315.c:116-138. -/
def paintBlock (s : S) (x y : Nat) : Option S :=
  match blockByte s.fb (1 <<< UInt8.ofNat (x % 8)) 4 (bitAddr x (y / 4 * 4)) 3 0 with
  | none => none
  | some b => some { s with disp := dataWrites b 2 (startWrite s.disp (x * 2 % 256) (y / 4)) }

/-- `set_bit`, snek-ssd1315.c:142-150, called with `int8_t` values. -/
def setBit (s : S) (xi yi : Int) : Option S :=
  let x := u8 xi
  let y := u8 yi
  let ix := UInt8.ofNat (x % 8)
  match s.fb[bitAddr x y]? with
  | none => none
  | some b => paintBlock { s with fb := s.fb.set (bitAddr x y) ((b &&& ~~~((1 : UInt8) <<< ix)) ||| (s.color <<< ix)) } x y

/-- The page loop of `snek_builtin_draw_erase`, snek-ssd1315.c:161-166: the pages `8 - n` … 7. -/
def erasePages : Nat → Disp → Disp
  | 0, d => d
  | n + 1, d => erasePages n (dataWrites 0 1024 (startWrite d 0 (7 - n)))

/-- `snek_builtin_draw_erase`, snek-ssd1315.c:154-168. -/
def erase (s : S) : S := { s with fb := List.replicate 256 0, disp := erasePages 8 s.disp }

/-- `snek_oled_init`, snek-ssd1315.c:170-182. -/
def init (s : S) : S := if s.been then s else erase { s with been := true }

/-- `snek_get_coord`, snek-ssd1315.c:184-193. -/
def getCoord (v : Int) (max : Int) : Int :=
  let v := if v < 0 then 0 else v
  i8 (if v > max then max else v)

/-- `snek_builtin_draw_color`, snek-ssd1315.c:209-214. -/
def color (v : Int) (s : S) : S := { s with color := if v = 0 then 0 else 1 }

/-- `snek_builtin_draw_move`, snek-ssd1315.c:258-264. -/
def move (x y : Int) (s : S) : S := { s with lastX := getCoord x 63, lastY := getCoord y 31 }

/-- The loop of `snek_builtin_draw_line`, snek-ssd1315.c:242-254. The counter `len` is at least 0. -/
def lineLoop (dx dy stepX stepY : Int) : Nat → Int → S → Option S
  | len, err, s =>
    match setBit s s.lastX s.lastY with
    | none => none
    | some s =>
      let e2 := i8 (err * 2)
      match len with
      | 0 => some s
      | len + 1 =>
        let (err, s) := if e2 ≥ dy then (i8 (err + dy), { s with lastX := i8 (s.lastX + stepX) }) else (err, s)
        let (err, s) := if e2 ≤ dx then (i8 (err + dx), { s with lastY := i8 (s.lastY + stepY) }) else (err, s)
        lineLoop dx dy stepX stepY len err s

/-- `snek_builtin_draw_line`, snek-ssd1315.c:216-256. -/
def line (x y : Int) (s : S) : Option S :=
  let ix := getCoord x 63
  let iy := getCoord y 31
  let s := init s
  let dx := i8 (ix - s.lastX)
  let (dx, stepX) := if dx < 0 then (i8 (-dx), -1) else (dx, 1)
  let dy := i8 (iy - s.lastY)
  let (dy, stepY) := if dy > 0 then (i8 (-dy), 1) else (dy, -1)
  let len := if -dy > dx then i8 (-dy) else dx
  lineLoop dx dy stepX stepY len.toNat (i8 (dx + dy)) s

end Snek.Draw
