import Verif.Model.Draw
import Verif.Spec.Draw
import Verif.Proofs.LexFwd
/-!
# Pixels
-/
namespace Snek.Draw
open Spec.Draw (lit)

/-- Pixel of the frame buffer. -/
def pixel (fb : List UInt8) (x y : Nat) : Bool := ((fb[y * 8 + x / 8]?).getD 0).toNat.testBit (x % 8)

/-- The display shows the frame buffer, each pixel four times. -/
def Mirror (s : S) : Prop := ∀ X Y, X < 128 → Y < 64 → lit s.disp.ram X Y = pixel s.fb (X / 2) (Y / 2)

theorem set_testBit (b : UInt8) : ∀ ix : Fin 8, ∀ k : Fin 8, ∀ c : Fin 2,
    ((b &&& ~~~((1 : UInt8) <<< UInt8.ofNat ix.val)) ||| (UInt8.ofNat c.val <<< UInt8.ofNat ix.val)).toNat.testBit k.val =
      if k = ix then decide (c.val = 1) else b.toNat.testBit k.val :=
  Snek.Lex.forall_byte (P := fun b => ∀ ix : Fin 8, ∀ k : Fin 8, ∀ c : Fin 2,
    ((b &&& ~~~((1 : UInt8) <<< UInt8.ofNat ix.val)) ||| (UInt8.ofNat c.val <<< UInt8.ofNat ix.val)).toNat.testBit k.val =
      if k = ix then decide (c.val = 1) else b.toNat.testBit k.val) (by decide +kernel) b

theorem and_testBit (b : UInt8) : ∀ ix : Fin 8, (b &&& ((1 : UInt8) <<< UInt8.ofNat ix.val) ≠ 0) ↔ b.toNat.testBit ix.val = true :=
  Snek.Lex.forall_byte (P := fun b => ∀ ix : Fin 8, (b &&& ((1 : UInt8) <<< UInt8.ofNat ix.val) ≠ 0) ↔ b.toNat.testBit ix.val = true) (by decide +kernel) b

/-- The byte of a block as a function of its four pixels. -/
def blockOf (p : Fin 4 → Bool) : UInt8 :=
  let b := if p 0 then (0 : UInt8) ||| 3 else 0
  let b := if p 1 then b ||| ((3 : UInt8) <<< 2) else b
  let b := if p 2 then b ||| ((3 : UInt8) <<< 2 <<< 2) else b
  if p 3 then b ||| ((3 : UInt8) <<< 2 <<< 2 <<< 2) else b

/-- Choose one of four. -/
def sel (p0 p1 p2 p3 : Bool) (i : Fin 4) : Bool := if i.val = 0 then p0 else if i.val = 1 then p1 else if i.val = 2 then p2 else p3

theorem blockOf_sel : ∀ (p0 p1 p2 p3 : Bool) (k : Fin 8), (blockOf (sel p0 p1 p2 p3)).toNat.testBit k.val =
    sel p0 p1 p2 p3 ⟨k.val / 2, by omega⟩ := by decide +kernel

theorem sel_eq (p : Fin 4 → Bool) : sel (p 0) (p 1) (p 2) (p 3) = p := by
  funext i
  match i with
  | 0 => rfl
  | 1 => rfl
  | 2 => rfl
  | 3 => rfl

theorem blockOf_testBit (p : Fin 4 → Bool) (k : Nat) (hk : k < 8) : (blockOf p).toNat.testBit k = p ⟨k / 2, by omega⟩ := by
  have := blockOf_sel (p 0) (p 1) (p 2) (p 3) ⟨k, hk⟩
  rw [sel_eq] at this
  exact this

theorem block_eq (fb : List UInt8) (hl : fb.length = 256) (x y : Nat) (hx : x < 64) (hy : y < 32) :
    blockByte fb (1 <<< UInt8.ofNat (x % 8)) 4 (bitAddr x (y / 4 * 4)) 3 0 = some (blockOf fun c => pixel fb x (y / 4 * 4 + c.val)) := by
  have hi : x % 8 < 8 := Nat.mod_lt _ (by omega)
  have get : ∀ c : Fin 4, fb[bitAddr x (y / 4 * 4) + 8 * c.val]? = some ((fb[(y / 4 * 4 + c.val) * 8 + x / 8]?).getD 0) := by
    intro c
    have h1 : bitAddr x (y / 4 * 4) + 8 * c.val = (y / 4 * 4 + c.val) * 8 + x / 8 := by unfold bitAddr; omega
    rw [h1]
    have h2 : (y / 4 * 4 + c.val) * 8 + x / 8 < fb.length := by have := c.isLt; omega
    rw [List.getElem?_eq_getElem h2]; rfl
  have g0 := get 0
  have g1 := get 1
  have g2 := get 2
  have g3 := get 3
  simp only [Fin.val_zero, Fin.val_one, Nat.mul_zero, Nat.add_zero, Nat.mul_one, show (2 : Fin 4).val = 2 from rfl, show (3 : Fin 4).val = 3 from rfl] at g0 g1 g2 g3
  simp only [blockByte, g0]
  rw [g1]
  simp only []
  rw [show bitAddr x (y / 4 * 4) + 8 + 8 = bitAddr x (y / 4 * 4) + 8 * 2 by omega, g2]
  simp only []
  rw [show bitAddr x (y / 4 * 4) + 8 * 2 + 8 = bitAddr x (y / 4 * 4) + 8 * 3 by omega, g3]
  simp only []
  have t : ∀ (c : Fin 4) (u v : UInt8), (if ((fb[(y / 4 * 4 + c.val) * 8 + x / 8]?).getD 0) &&& ((1 : UInt8) <<< UInt8.ofNat (x % 8)) ≠ 0 then u else v) =
      if pixel fb x (y / 4 * 4 + c.val) then u else v := by
    intro c u v
    have := and_testBit ((fb[(y / 4 * 4 + c.val) * 8 + x / 8]?).getD 0) ⟨x % 8, hi⟩
    unfold pixel
    by_cases h : ((fb[(y / 4 * 4 + c.val) * 8 + x / 8]?).getD 0).toNat.testBit (x % 8) = true
    · rw [if_pos (this.2 h), if_pos h]
    · rw [if_neg (fun h' => h (this.1 h')), if_neg h]
  have t0 := t 0
  have t1 := t 1
  have t2 := t 2
  have t3 := t 3
  simp only [Fin.val_zero, Fin.val_one, Nat.add_zero, show (2 : Fin 4).val = 2 from rfl, show (3 : Fin 4).val = 3 from rfl] at t0 t1 t2 t3
  rw [t3, t2, t1, t0]
  rfl

theorem setBit_spec (s : S) (hl : s.fb.length = 256) (hc : s.color = 0 ∨ s.color = 1) (x y : Nat) (hx : x < 64) (hy : y < 32) :
    ∃ s', setBit s x y = some s' ∧ s'.fb.length = 256 ∧ s'.color = s.color ∧ s'.been = s.been ∧ s'.lastX = s.lastX ∧ s'.lastY = s.lastY ∧
      (∀ a b, a < 64 → b < 32 → pixel s'.fb a b = if a = x ∧ b = y then decide (s.color = 1) else pixel s.fb a b) ∧ (Mirror s → Mirror s') := by
  have ux : u8 (x : Int) = x := by unfold u8; omega
  have uy : u8 (y : Int) = y := by unfold u8; omega
  have hin : bitAddr x y < s.fb.length := by unfold bitAddr; omega
  unfold setBit
  simp only [ux, uy]
  rw [List.getElem?_eq_getElem hin]
  simp only []
  generalize hfb : s.fb.set (bitAddr x y) ((s.fb[bitAddr x y] &&& ~~~((1 : UInt8) <<< UInt8.ofNat (x % 8))) ||| (s.color <<< UInt8.ofNat (x % 8))) = fb'
  have hl' : fb'.length = 256 := by rw [← hfb, List.length_set, hl]
  have hpix : ∀ a b, a < 64 → b < 32 → pixel fb' a b = if a = x ∧ b = y then decide (s.color = 1) else pixel s.fb a b := by
    intro a b ha hb
    have hab : b * 8 + a / 8 < s.fb.length := by omega
    unfold pixel
    rw [← hfb, List.getElem?_set]
    by_cases hsame : bitAddr x y = b * 8 + a / 8
    · rw [if_pos hsame, if_pos hin, Option.getD_some]
      have hby : b = y ∧ a / 8 = x / 8 := by unfold bitAddr at hsame; omega
      have hst : ∃ c : Fin 2, s.color = UInt8.ofNat c.val ∧ (decide (c.val = 1) = decide (s.color = 1)) := by
        rcases hc with h | h
        · exact ⟨0, h, by rw [h]; rfl⟩
        · exact ⟨1, h, by rw [h]; rfl⟩
      obtain ⟨c, hcc, hcd⟩ := hst
      have := set_testBit s.fb[bitAddr x y] ⟨x % 8, Nat.mod_lt _ (by omega)⟩ ⟨a % 8, Nat.mod_lt _ (by omega)⟩ c
      rw [← hcc] at this
      simp only [Fin.mk.injEq] at this
      rw [this, hcd]
      by_cases hax : a = x
      · rw [if_pos (by rw [hax]), if_pos ⟨hax, hby.1⟩]
      · rw [if_neg (by omega), if_neg (fun h => hax h.1)]
        simp only [← hsame, List.getElem?_eq_getElem hin, Option.getD_some]
    · rw [if_neg hsame, if_neg]
      rintro ⟨rfl, rfl⟩
      exact hsame rfl
  unfold paintBlock
  simp only []
  rw [block_eq fb' hl' x y hx hy]
  refine ⟨_, rfl, hl', rfl, rfl, rfl, rfl, hpix, fun hm X Y hX hY => ?_⟩
  have hcol : x * 2 % 256 = x * 2 := by omega
  have hnc : (x * 2 + 1) % 128 = x * 2 + 1 := by omega
  have hpx := hpix (X / 2) (Y / 2) (by omega) (by omega)
  simp only [dataWrites, dataWrite, startWrite, hcol, hnc, lit]
  by_cases hp : Y / 8 = y / 4 ∧ X / 2 = x
  · have hw : (if Y / 8 = y / 4 ∧ X = x * 2 + 1 then blockOf (fun c => pixel fb' x (y / 4 * 4 + c.val)) else
        if Y / 8 = y / 4 ∧ X = x * 2 then blockOf (fun c => pixel fb' x (y / 4 * 4 + c.val)) else s.disp.ram (Y / 8) X) =
        blockOf (fun c => pixel fb' x (y / 4 * 4 + c.val)) := by
      by_cases h1 : X = x * 2 + 1
      · rw [if_pos ⟨hp.1, h1⟩]
      · rw [if_neg (fun h => h1 h.2), if_pos ⟨hp.1, by omega⟩]
    rw [hw, blockOf_testBit _ _ (by omega)]
    have hy2 : y / 4 * 4 + Y % 8 / 2 = Y / 2 := by omega
    rw [hy2, ← hp.2]
  · rw [if_neg (by omega), if_neg (by omega), hpx, if_neg (by omega)]
    exact hm X Y hX hY

theorem dataWrites_zero (n : Nat) (d : Disp) (p c : Nat) (hd : d.col < 128) :
    (dataWrites 0 n d).page = d.page ∧ (p ≠ d.page → (dataWrites 0 n d).ram p c = d.ram p c) ∧
    (d.ram p c = 0 → (dataWrites 0 n d).ram p c = 0) ∧ (p = d.page → d.col ≤ c → c < 128 → c < d.col + n → (dataWrites 0 n d).ram p c = 0) := by
  induction n generalizing d with
  | zero => exact ⟨rfl, fun _ => rfl, id, fun _ _ _ h => by omega⟩
  | succ n ih =>
    obtain ⟨h1, h2, h3, h4⟩ := ih (dataWrite d 0) (Nat.mod_lt _ (by omega))
    refine ⟨h1, fun hp => ?_, fun h => ?_, fun hp ha hb hc => ?_⟩
    · show (dataWrites 0 n (dataWrite d 0)).ram p c = _
      rw [h2 hp]
      show (if p = d.page ∧ c = d.col then (0 : UInt8) else d.ram p c) = _
      rw [if_neg (fun h => hp h.1)]
    · apply h3
      show (if p = d.page ∧ c = d.col then (0 : UInt8) else d.ram p c) = _
      split
      · rfl
      · exact h
    · by_cases hcc : c = d.col
      · apply h3
        show (if p = d.page ∧ c = d.col then (0 : UInt8) else d.ram p c) = _
        rw [if_pos ⟨hp, hcc⟩]
      · have hm : (d.col + 1) % 128 = d.col + 1 := Nat.mod_eq_of_lt (by omega)
        apply h4 hp
        · show (d.col + 1) % 128 ≤ c; omega
        · exact hb
        · show c < (d.col + 1) % 128 + n; omega

theorem erasePages_zero (n : Nat) (hn : n ≤ 8) (d : Disp) (p c : Nat) (hc : c < 128) (hp : p < 8) (h : p < 8 - n → d.ram p c = 0) : (erasePages n d).ram p c = 0 := by
  induction n generalizing d with
  | zero => exact h (by omega)
  | succ n ih =>
    unfold erasePages
    apply ih (by omega)
    intro hp'
    obtain ⟨h1, h2, h3, h4⟩ := dataWrites_zero 1024 (startWrite d 0 (7 - n)) p c (by show 0 < 128; omega)
    by_cases hpn : p = 7 - n
    · exact h4 hpn (Nat.zero_le _) hc (by show c < 0 + 1024; omega)
    · rw [h2 hpn]; exact h (by omega)

theorem pixel_blank (x y : Nat) (hx : x < 64) (hy : y < 32) : pixel (List.replicate 256 0) x y = false := by
  unfold pixel
  rw [List.getElem?_replicate, if_pos (by omega)]
  exact Nat.zero_testBit _

theorem erase_mirror (s : S) : Mirror (erase s) := by
  intro X Y hX hY
  unfold lit erase
  simp only []
  rw [erasePages_zero 8 (by omega) _ _ _ hX (by omega) (fun h => by omega), pixel_blank _ _ (by omega) (by omega)]
  exact Nat.zero_testBit _

end Snek.Draw
