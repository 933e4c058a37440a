import Verif.Proofs.DrawLine
/-!
# C65: lines on the display

`draw.line` of snek-ssd1315.c draws a straight line from the position of the pen to the point given, moved into the picture, and the
display then shows what was drawn — for lines that are not both long and almost level. For those the error term leaves the range of
`int8_t`: the line goes astray, or the frame buffer is left.
-/
namespace Snek.Draw
open Spec.Draw

/-- Execution of an operation. -/
def step (s : S) : Op → Option S
  | .erase => some (erase s)
  | .color v => some (color v s)
  | .move x y => some (move x y s)
  | .line x y => line x y s

/-- Execution of a list of operations. -/
def run (s : S) : List Op → Option S
  | [] => some s
  | op :: ops => (step s op).bind (run · ops)

/-- The program's variables are those of a sheet. -/
structure Holds (s : S) (h : Sheet) : Prop where
  size : s.fb.length = 256
  pen : s.color = if h.pen then 1 else 0
  x : s.lastX = h.at_.1
  y : s.lastY = h.at_.2
  inX : 0 ≤ h.at_.1 ∧ h.at_.1 ≤ 63
  inY : 0 ≤ h.at_.2 ∧ h.at_.2 ≤ 31
  dots : ∀ a b : Nat, a < 64 → b < 32 → pixel s.fb a b = h.dot (a, b)
  blank : s.been = false → ∀ p, h.dot p = false

theorem clamp_range (v m : Int) (hm : 0 ≤ m) : 0 ≤ clamp v m ∧ clamp v m ≤ m := by unfold clamp; split <;> (try split) <;> omega

theorem getCoord_clamp (v m : Int) (hm : 0 ≤ m) (hm' : m ≤ 127) : getCoord v m = clamp v m := by
  have : (if (if v < 0 then 0 else v) > m then m else (if v < 0 then 0 else v)) = clamp v m := by unfold clamp; repeat' split <;> omega
  unfold getCoord
  simp only []
  rw [this]
  have := clamp_range v m hm
  exact i8_id (by omega) (by omega)

theorem holds_init {s : S} {h : Sheet} (H : Holds s h) : Holds (init s) h ∧ (Mirror s ∨ s.been = false → Mirror (init s)) ∧ (init s).been = true := by
  unfold init
  cases hb : s.been
  · simp only [Bool.false_eq_true, if_false]
    refine ⟨⟨List.length_replicate, H.pen, H.x, H.y, H.inX, H.inY, ?_, ?_⟩, fun _ => erase_mirror _, rfl⟩
    · intro a b ha hb'
      rw [H.blank hb]
      exact pixel_blank a b ha hb'
    · intro h'; cases h'
  · simp only [if_true]
    refine ⟨H, ?_, hb⟩
    intro h'
    rcases h' with h' | h'
    · exact h'
    · cases h'

theorem line_holds {s : S} {h : Sheet} (H : Holds s h) (x y : Int) (ht : Tame h.at_ (clamp x 63, clamp y 31)) :
    ∃ s' path, line x y s = some s' ∧ Straight h.at_ (clamp x 63, clamp y 31) path ∧
      Holds s' { h with at_ := (clamp x 63, clamp y 31), dot := fun p => if p ∈ path then h.pen else h.dot p } ∧
      (Mirror s ∨ s.been = false → Mirror s') ∧ s'.been = true := by
  obtain ⟨H1, hm1, hb1⟩ := holds_init H
  have hx := clamp_range x 63 (by omega)
  have hy := clamp_range y 31 (by omega)
  have hix := H.inX
  have hiy := H.inY
  unfold line
  simp only []
  rw [getCoord_clamp x 63 (by omega) (by omega), getCoord_clamp y 31 (by omega) (by omega)]
  generalize init s = s1 at *
  rw [H1.x, H1.y]
  generalize hX : clamp x 63 = X at *
  generalize hY : clamp y 31 = Y at *
  obtain ⟨dot, pen, x0, y0⟩ := h
  simp only [] at *
  rw [i8_id (x := X - x0) (by omega) (by omega), i8_id (x := Y - y0) (by omega) (by omega)]
  have hc : s1.color = 0 ∨ s1.color = 1 := by rw [H1.pen]; cases pen <;> simp
  have main : ∀ sx sy D E : Int, (sx = 1 ∨ sx = -1) → (sy = 1 ∨ sy = -1) → 0 ≤ D → 0 ≤ E → X = x0 + sx * D → Y = y0 + sy * E →
      ∃ s' path, lineLoop D (-E) sx sy (if E > D then E else D).toNat (D - E) s1 = some s' ∧ Straight (x0, y0) (X, Y) path ∧
      Holds s' { dot := fun p => if p ∈ path then pen else dot p, pen := pen, at_ := (X, Y) } ∧
      (Mirror s ∨ s.been = false → Mirror s') ∧ s'.been = true := by
    intro sx sy D E hsx hsy hD hE eX eY
    have hD63 : D ≤ 63 := by rcases hsx with rfl | rfl <;> omega
    have hE31 : E ≤ 31 := by rcases hsy with rfl | rfl <;> omega
    have hin : ∀ t : Int, 0 ≤ t → t ≤ D → 0 ≤ x0 + sx * t ∧ x0 + sx * t ≤ 63 := by
      intro t h1 h2; rcases hsx with rfl | rfl <;> omega
    have hin' : ∀ t : Int, 0 ≤ t → t ≤ E → 0 ≤ y0 + sy * t ∧ y0 + sy * t ≤ 31 := by
      intro t h1 h2; rcases hsy with rfl | rfl <;> omega
    have dX : (dist X x0 : Int) = D := by unfold dist; rcases hsx with rfl | rfl <;> omega
    have dY : (dist Y y0 : Int) = E := by unfold dist; rcases hsy with rfl | rfl <;> omega
    have hw : 3 * D ≤ 2 * E + 127 ∨ E = 0 := by
      unfold Tame at ht
      simp only [] at ht
      rcases ht with ht | ht
      · left; omega
      · right; rcases hsy with rfl | rfl <;> omega
    have hst : (steps (x0, y0) (X, Y) : Int) = max D E := by
      unfold steps; simp only []; omega
    obtain ⟨s', path, g1, g2, g3, g4, g5, g6, g7, g8, g9⟩ :=
      loop_spec (x0 := x0) (y0 := y0) hsx hsy hD hE hin hin' hD63 hE31 hw (if E > D then E else D).toNat 0 0 s1 H1.size hc
        (by rw [H1.x]; simp) (by rw [H1.y]; simp) (by simpa using hD) (by simpa using hE)
        (by split <;> split <;> omega) (by simp; omega) (by simp; omega)
    have e0 : D * (((0 : Nat) : Int) + 1) - E * (((0 : Nat) : Int) + 1) = D - E := by simp
    rw [e0] at g1
    refine ⟨s', path, g1, ⟨?_, ?_, ?_, g2.next, ?_⟩, ⟨g4, ?_, ?_, ?_, hx, hy, ?_, ?_⟩, fun hm => g9 (hm1 hm), g6.trans hb1⟩
    · rw [g2.length]; split <;> omega
    · rw [g2.first]; simp
    · rw [g2.last, ← eX, ← eY]
    · intro p hp
      obtain ⟨i, j, e, h1, h2⟩ := g2.near p hp
      rw [e]
      simp only []
      have e1 : X - x0 = sx * D := by omega
      have e2 : Y - y0 = sy * E := by omega
      have e3 : y0 + sy * (j : Int) - y0 = sy * j := by omega
      have e4 : x0 + sx * (i : Int) - x0 = sx * i := by omega
      rw [e1, e2, e3, e4]
      have e5 : sx * D * (sy * j) - sy * E * (sx * i) = sx * sy * (D * j - E * i) := by
        rw [Int.mul_sub]
        have a1 : sx * D * (sy * j) = sx * sy * (D * j) := by
          rw [Int.mul_assoc, Int.mul_assoc]; congr 1; exact Int.mul_left_comm ..
        have a2 : sy * E * (sx * i) = sx * sy * (E * i) := by
          rw [Int.mul_comm sx sy, Int.mul_assoc, Int.mul_assoc]; congr 1; exact Int.mul_left_comm ..
        rw [a1, a2]
      rw [e5]
      have e6 : (sx * sy * (D * j - E * i)).natAbs = (D * j - E * i).natAbs := by
        rcases hsx with rfl | rfl <;> rcases hsy with rfl | rfl <;> simp <;> omega
      rw [e6]
      omega
    · rw [g5, H1.pen]
    · rw [g7, eX]
    · rw [g8, eY]
    · intro a b ha hb
      rw [g3 a b ha hb, H1.dots a b ha hb, H1.pen]
      simp only []
      cases pen <;> rfl
    · intro h'; rw [g6, hb1] at h'; cases h'
  have hE' : ∀ E : Int, 0 ≤ E → E ≤ 31 → i8 (-E) = -E := fun E h1 h2 => i8_id (by omega) (by omega)
  by_cases h1 : X - x0 < 0
  · rw [if_pos h1]
    by_cases h2 : Y - y0 > 0
    · rw [if_pos h2]
      simp only []
      rw [i8_id (x := -(X - x0)) (by omega) (by omega), i8_id (x := -(Y - y0)) (by omega) (by omega), Int.neg_neg, i8_id (x := Y - y0) (by omega) (by omega),
        i8_id (x := -(X - x0) + -(Y - y0)) (by omega) (by omega)]
      exact main (-1) 1 (-(X - x0)) (Y - y0) (.inr rfl) (.inl rfl) (by omega) (by omega) (by omega) (by omega)
    · rw [if_neg h2]
      simp only []
      rw [i8_id (x := -(X - x0)) (by omega) (by omega), i8_id (x := -(Y - y0)) (by omega) (by omega),
        i8_id (x := -(X - x0) + (Y - y0)) (by omega) (by omega)]
      have := main (-1) (-1) (-(X - x0)) (-(Y - y0)) (.inr rfl) (.inr rfl) (by omega) (by omega) (by omega) (by omega)
      rw [Int.neg_neg, Int.sub_neg] at this
      exact this
  · rw [if_neg h1]
    by_cases h2 : Y - y0 > 0
    · rw [if_pos h2]
      simp only []
      rw [i8_id (x := -(Y - y0)) (by omega) (by omega), Int.neg_neg, i8_id (x := Y - y0) (by omega) (by omega),
        i8_id (x := X - x0 + -(Y - y0)) (by omega) (by omega)]
      exact main 1 1 (X - x0) (Y - y0) (.inl rfl) (.inl rfl) (by omega) (by omega) (by omega) (by omega)
    · rw [if_neg h2]
      simp only []
      rw [i8_id (x := -(Y - y0)) (by omega) (by omega), i8_id (x := X - x0 + (Y - y0)) (by omega) (by omega)]
      have := main 1 (-1) (X - x0) (-(Y - y0)) (.inl rfl) (.inr rfl) (by omega) (by omega) (by omega) (by omega)
      rw [Int.neg_neg, Int.sub_neg] at this
      exact this

theorem holds_boot (d : Disp) : Holds (boot d) Sheet.empty :=
  ⟨List.length_replicate, rfl, rfl, rfl, by simp [Sheet.empty], by simp [Sheet.empty], fun a b ha hb => pixel_blank a b ha hb, fun _ _ => rfl⟩

theorem run_spec : ∀ (ops : List Op) (s : S) (h : Sheet), Holds s h → AllTame h.at_ ops →
    ∃ s' k, run s ops = some s' ∧ Drawn h ops k ∧ Holds s' k ∧
      ((s.been = true ∧ Mirror s) ∨ s.been = false → (s'.been = true → Mirror s')) ∧
      (s.been = true ∨ (∃ x y, Op.line x y ∈ ops) → s'.been = true) := by
  intro ops
  induction ops with
  | nil =>
    intro s h H _
    refine ⟨s, h, rfl, .nil h, H, ?_, ?_⟩
    · intro a hb
      rcases a with a | a
      · exact a.2
      · rw [hb] at a; cases a
    · intro a
      rcases a with a | ⟨x, y, a⟩
      · exact a
      · cases a
  | cons op ops ih =>
    intro s h H ht
    have fin : ∀ (s1 : S) (k1 : Sheet), step s op = some s1 → Does h op k1 → Holds s1 k1 → AllTame k1.at_ ops →
        ((s.been = true ∧ Mirror s) ∨ s.been = false → (s1.been = true ∧ Mirror s1) ∨ s1.been = false) →
        (s.been = true ∨ (∃ x y, op = Op.line x y) → s1.been = true) →
        ∃ s' k, run s (op :: ops) = some s' ∧ Drawn h (op :: ops) k ∧ Holds s' k ∧
          ((s.been = true ∧ Mirror s) ∨ s.been = false → (s'.been = true → Mirror s')) ∧
          (s.been = true ∨ (∃ x y, Op.line x y ∈ op :: ops) → s'.been = true) := by
      intro s1 k1 e d H1 ht1 hm hb
      obtain ⟨s', k, a1, a2, a3, a4, a5⟩ := ih s1 k1 H1 ht1
      refine ⟨s', k, ?_, .cons d a2, a3, fun h' => a4 (hm h'), ?_⟩
      · unfold run; rw [e]; exact a1
      · intro h'
        apply a5
        rcases h' with h' | ⟨x, y, h'⟩
        · exact .inl (hb (.inl h'))
        · rcases List.mem_cons.1 h' with h' | h'
          · exact .inl (hb (.inr ⟨x, y, h'.symm⟩))
          · exact .inr ⟨x, y, h'⟩
    cases op with
    | erase =>
      refine fin (erase s) _ rfl (.erase h) ⟨List.length_replicate, H.pen, H.x, H.y, H.inX, H.inY, fun a b ha hb => pixel_blank a b ha hb, fun _ _ => rfl⟩ ht ?_ ?_
      · intro h'
        rcases h' with h' | h'
        · exact .inl ⟨h'.1, erase_mirror s⟩
        · exact .inr h'
      · intro h'
        rcases h' with h' | ⟨_, _, h'⟩
        · exact h'
        · cases h'
    | color v =>
      refine fin (color v s) _ rfl (.color h v) ⟨H.size, ?_, H.x, H.y, H.inX, H.inY, H.dots, H.blank⟩ ht (fun h' => h') ?_
      · show (if v = 0 then (0 : UInt8) else 1) = _
        by_cases hv : v = 0 <;> simp [hv]
      · intro h'
        rcases h' with h' | ⟨_, _, h'⟩
        · exact h'
        · cases h'
    | move x y =>
      refine fin (move x y s) _ rfl (.move h x y) ⟨H.size, H.pen, getCoord_clamp x 63 (by omega) (by omega), getCoord_clamp y 31 (by omega) (by omega),
        clamp_range x 63 (by omega), clamp_range y 31 (by omega), H.dots, H.blank⟩ ht (fun h' => h') ?_
      intro h'
      rcases h' with h' | ⟨_, _, h'⟩
      · exact h'
      · cases h'
    | line x y =>
      obtain ⟨s', path, e, hs, H', hm, hb⟩ := line_holds H x y ht.1
      exact fin s' _ e (.line h x y path hs) H' ht.2 (fun h' => .inl ⟨hb, hm (h'.imp (·.2) id)⟩) (fun _ => hb)

/-- Whatever the display showed before, whatever is drawn: if all lines are tame, every operation ends without leaving the frame buffer, the
lines are straight lines between the pen's position and the point given, and once a line has been drawn the display shows the picture.

Not proved, as it is false: that this holds for all lines. -/
theorem C65_picture_partial (d : Disp) (ops : List Op) (ht : AllTame (0, 0) ops) :
    ∃ s k, run (boot d) ops = some s ∧ Drawn Sheet.empty ops k ∧ (s.lastX, s.lastY) = k.at_ ∧
      ((∃ x y, Op.line x y ∈ ops) → Shows s.disp.ram k.dot) := by
  obtain ⟨s, k, h1, h2, h3, h4, h5⟩ := run_spec ops (boot d) Sheet.empty (holds_boot d) ht
  refine ⟨s, k, h1, h2, by rw [h3.x, h3.y], fun h' X Y hX hY => ?_⟩
  rw [h4 (.inr rfl) (h5 (.inr h')) X Y hX hY]
  exact h3.dots _ _ (by omega) (by omega)

/-- An example that meets the hypotheses: a triangle, and another in the background colour. -/
example : AllTame (0, 0) [.erase, .move 10 3, .line 40 30, .line 70 (-4), .line 20 3, .color 0, .line 50 20, .line 50 5, .line 0 5] := by
  simp only [AllTame, Tame, clamp, dist]; decide

/-- All lines of at most 43 pixels in x are tame. -/
theorem C65_short_tame (a b : Int × Int) (h : dist b.1 a.1 ≤ 42) : Tame a b := by unfold Tame; left; omega

/-- A blank display. -/
def blankDisp : Disp := ⟨fun _ _ => 0, 0, 0⟩

/-- The end of the line (0, 0) – (63, 1): not (63, 1). -/
theorem C65_violated_astray : (run (boot blankDisp) [.line 63 1]).map (fun s => (s.lastX, s.lastY)) = some (53, 21) := by decide +kernel

/-- The line (0, 0) – (63, 2) writes outside of the frame buffer. -/
theorem C65_violated_outside : run (boot blankDisp) [.line 63 2] = none := by
  have h : (run (boot blankDisp) [.line 63 2]).isNone = true := by decide +kernel
  revert h
  generalize run (boot blankDisp) [.line 63 2] = r
  cases r <;> simp

/-- The line (0, 0) – (63, 31) is straight: its pixel in the middle. -/
example : (run (boot blankDisp) [.line 63 31]).map (fun s => (s.lastX, s.lastY, lit s.disp.ram 64 32, lit s.disp.ram 64 34)) = some (63, 31, true, false) := by decide +kernel

end Snek.Draw
