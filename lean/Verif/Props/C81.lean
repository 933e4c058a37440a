import Verif.Spec.Lamps
import Verif.Props.C70
/-!
# C81: coloured lamps show the colours given to `neopixel`
-/
namespace Snek.Neopixel
open Spec.Lamps

/-- The colour in memory. -/
def Pixel.rgb (x : Pixel) : RGB := (x.r, x.g, x.b)

/-! ## One wire -/

theorem pulses_bits {T : Nat} (h1 : 8 ≤ T) (h2 : T < 26) : ∀ (k : Nat) (p : BitVec 32) (h : Nat) (l : List Ev), k ≤ 32 →
    pulses T false h (bits k p ++ l) = ((List.range k).map fun i => p.getLsbD (31 - i)) ++ pulses T false 0 l
  | 0, _, h, l, _ => by
    suffices ∀ (l : List Ev) (h h' : Nat), pulses T false h l = pulses T false h' l by simpa [bits] using this l h 0
    intro l
    induction l with
    | nil => intros; rfl
    | cons e l ih =>
      intro h h'
      cases e with
      | toggle => rfl
      | wait n => exact ih h h'
  | k + 1, p, h, l, hk => by
    have ih := fun h => pulses_bits h1 h2 k (p <<< 1) h l (by omega)
    have e : ((List.range (k + 1)).map fun i => p.getLsbD (31 - i)) = p.msb :: ((List.range k).map fun i => (p <<< 1).getLsbD (31 - i)) := by
      rw [List.range_succ_eq_map, List.map_cons, List.map_map]
      congr 1
      apply List.map_congr_left
      intro i hi
      have := List.mem_range.1 hi
      rw [BitVec.getLsbD_shiftLeft]
      simp only [Function.comp, show 31 - i < 32 by omega, show ¬ 31 - i < 1 by omega, decide_true, decide_false, Bool.not_false, Bool.true_and]
      congr 1
    rw [e]
    unfold bits
    cases hm : p.msb
    · simp only [Bool.false_eq_true, if_false, List.cons_append, List.nil_append, pulses, ih]
      simp; omega
    · simp only [if_true, List.cons_append, List.nil_append, pulses, ih]
      simp; omega

theorem bits_rgb (x : Pixel) : ((List.range 24).map fun i => x.p.getLsbD (31 - i)) = byte x.g ++ byte x.r ++ byte x.b := by
  obtain ⟨e, b, r, g⟩ := x
  simp only [Pixel.p, byte, List.range_succ, List.range_zero, List.nil_append, List.cons_append, List.map_cons, List.map_nil,
    BitVec.getLsbD_append]
  simp

/-- The colours in memory are sent. `T` is the length of pulse the lamps tell ones from zeros by. -/
theorem C81_wire {T : Nat} (h1 : 8 ≤ T) (h2 : T < 26) (mem : Nat → Pixel) : ∀ (n i : Nat),
    pulses T false 0 (write mem n i) = ws ((List.range n).map fun k => (mem (i + k)).rgb)
  | 0, _ => rfl
  | n + 1, i => by
    rw [write, pulses_bits h1 h2 24 _ 0 _ (by omega), bits_rgb, C81_wire h1 h2 mem n (i + 1), List.range_succ_eq_map, List.map_cons,
      List.map_map, ws, ws, List.flatMap_cons]
    congr 2
    apply List.map_congr_left
    intro k _
    simp only [Function.comp]
    rw [show i + 1 + k = i + (k + 1) by omega]

/-! ## Two wires -/

theorem clocked_bit (v d : Bool) (l : List Ev2) : clocked true d (bit2 v ++ l) = v :: clocked true v l := rfl

theorem clocked_byte (v : BitVec 8) (d : Bool) (l : List Ev2) : clocked true d (byte2 v ++ l) = byte v ++ clocked true (v.getLsbD 0) l := rfl

theorem clocked_repeat (v d : Bool) (l : List Ev2) : ∀ n, clocked true d (repeat2 v (n + 1) ++ l) = List.replicate (n + 1) v ++ clocked true v l
  | 0 => rfl
  | n + 1 => by
    have ih := clocked_repeat v v l n
    show clocked true d (bit2 v ++ repeat2 v (n + 1) ++ l) = _
    rw [List.append_assoc, clocked_bit, ih]
    rfl

theorem clocked_frames (x : Pixel) (l : List Ev2) : ∀ (n : Nat) (d : Bool), ∃ d', clocked true d (frames2 x n ++ l) =
    ((List.replicate n x.rgb).flatMap fun (r, g, b) => List.replicate 8 true ++ byte b ++ byte g ++ byte r) ++ clocked true d' l
  | 0, d => ⟨d, rfl⟩
  | n + 1, d => by
    obtain ⟨d', h⟩ := clocked_frames x l n (x.r.getLsbD 0)
    refine ⟨d', ?_⟩
    rw [frames2]
    simp only [List.append_assoc, clocked_byte, h, List.replicate_succ, List.flatMap_cons]
    rfl

/-- On two wires, every lamp gets the colour of the first one, after at most one bit from setting the clock high. -/
theorem C81_wires_partial (c d : Bool) (mem : Nat → Pixel) (n : Nat) :
    ∃ pre, pre.length ≤ 1 ∧ clocked c d (write2 mem n) = pre ++ apa (List.replicate n (mem 0).rgb) := by
  have h : clocked true d (repeat2 false 32 ++ frames2 (mem 0) n ++ repeat2 true 32) = apa (List.replicate n (mem 0).rgb) := by
    rw [List.append_assoc, clocked_repeat]
    obtain ⟨d', h⟩ := clocked_frames (mem 0) (repeat2 true 32) n false
    have e := clocked_repeat true d' [] 31
    rw [List.append_nil] at e
    rw [h, e, apa]
    simp [clocked]
  have e : write2 mem n = .clockHigh :: (repeat2 false 32 ++ frames2 (mem 0) n ++ repeat2 true 32) := by simp [write2]
  rw [e]
  cases c
  · exact ⟨[d], Nat.le_refl _, by rw [clocked, h]; rfl⟩
  · exact ⟨[], Nat.zero_le _, by rw [clocked, h]; rfl⟩

/-! ## The function -/

/-- Colours as the program gives them, and as bytes. -/
structure Shade where
  r : BitVec 32
  g : BitVec 32
  b : BitVec 32
  rgb : RGB
  okr : inten r = some rgb.1
  okg : inten g = some rgb.2.1
  okb : inten b = some rgb.2.2

def Shade.elem (c : Shade) : Elem := .seq [.num c.r, .num c.g, .num c.b]

theorem setPixel_ok {s : St} {mem : Nat → Pixel} (hm : s.mem = some mem) {p : Nat} (hp : p < s.count) (c : Shade) :
    ∃ mem', setPixel s p c.elem = some { s with mem := some mem' } ∧ (mem' p).rgb = c.rgb ∧ ∀ i, i ≠ p → mem' i = mem i := by
  refine ⟨fun i => if i = p then { mem p with r := c.rgb.1, g := c.rgb.2.1, b := c.rgb.2.2 } else mem i, ?_, by simp [Pixel.rgb], ?_⟩
  · simp only [Shade.elem, setPixel, toInten, c.okr, c.okg, c.okb, Option.map_some, bind, Option.bind, hm, pure]
    simp [show ¬ s.count ≤ p by omega]
  · intro i hi; simp [hi]

theorem setPixels_ok : ∀ (cs : List Shade) {s : St} {mem : Nat → Pixel} (_ : s.mem = some mem) {p : Nat} (_ : p + cs.length ≤ s.count)
    (_ : s.abort = false), ∃ mem', setPixels s p (cs.map Shade.elem) = some (true, { s with mem := some mem' }) ∧
      ((List.range cs.length).map fun k => (mem' (p + k)).rgb) = cs.map Shade.rgb ∧ ∀ i, i < p → mem' i = mem i
  | [], s, mem, hm, p, _, _ => ⟨mem, by simp [setPixels, ← hm], rfl, fun _ _ => rfl⟩
  | c :: cs, s, mem, hm, p, hp, ha => by
    simp only [List.length_cons] at hp
    obtain ⟨m1, h1, h2, h3⟩ := setPixel_ok hm (p := p) (by omega) c
    obtain ⟨m2, k1, k2, k3⟩ := setPixels_ok cs (s := { s with mem := some m1 }) (mem := m1) rfl (p := p + 1) (by show _ ≤ s.count; omega) ha
    refine ⟨m2, ?_, ?_, ?_⟩
    · rw [List.map_cons, setPixels, h1]
      simp only [bind, Option.bind, ha, Bool.false_eq_true, if_false]
      simp only [ha] at k1
      exact k1
    · rw [List.length_cons, List.range_succ_eq_map, List.map_cons, List.map_map, List.map_cons, ← k2, Nat.add_zero, k3 p (by omega), h2]
      congr 1
      apply List.map_congr_left
      intro k _
      simp only [Function.comp]
      rw [show p + 1 + k = p + (k + 1) by omega]
    · intro i hi; rw [k3 i (by omega), h3 i (by omega)]

/-- The call up to the sending. -/
theorem neopixel_ok {s : St} (ha : s.abort = false) (m : Nat → Pixel) (two : Bool) (cs : List Shade) :
    ∃ mem s', neopixel (some m) two s (.seq (cs.map Shade.elem)) =
        some (if two then .two (write2 mem cs.length) else .one (write mem cs.length 0), s') ∧
      ((List.range cs.length).map fun k => (mem k).rgb) = cs.map Shade.rgb ∧ s'.abort = false ∧ s'.outside = s.outside := by
  have himm : immediate (cs.map Shade.elem) = false := by
    cases cs with
    | nil => rfl
    | cons c cs => rfl
  have hm : ∃ mem, (room (some m) cs.length s).mem = some mem ∧ cs.length ≤ (room (some m) cs.length s).count ∧
      (room (some m) cs.length s).abort = false ∧ (room (some m) cs.length s).outside = s.outside := by
    unfold room
    split
    · exact ⟨m, rfl, Nat.le_refl _, ha, rfl⟩
    · rename_i h
      simp only [Bool.or_eq_true, decide_eq_true_eq, not_or, Option.isNone_iff_eq_none] at h
      obtain ⟨mem, hmem⟩ := Option.ne_none_iff_exists'.1 h.1
      exact ⟨mem, hmem, by omega, ha, rfl⟩
  unfold neopixel fill
  simp only [himm, Bool.false_eq_true, if_false, List.length_map]
  generalize room (some m) cs.length s = s1 at *
  obtain ⟨mem, hmem, hc, ha1, ho⟩ := hm
  obtain ⟨m2, k1, k2, _⟩ := setPixels_ok cs hmem (p := 0) (by omega) ha1
  rw [hmem, k1]
  simp only [Option.isNone_some, Bool.false_eq_true, if_false, Option.bind, Bool.not_true, Option.map_some]
  refine ⟨m2, _, rfl, ?_, ha1, ?_⟩
  · simpa using k2
  · show (s1.outside || decide (s1.count < cs.length)) = _
    rw [ho]
    simp [show ¬ s1.count < cs.length by omega]

/-- Any list of colours, whatever has been shown before and whatever is in new memory: the lamps on one wire, which must be low before, get
them, and nothing else; no memory but that for the colours is touched. -/
theorem C81_shows {T : Nat} (h1 : 8 ≤ T) (h2 : T < 26) {s : St} (ha : s.abort = false) (m : Nat → Pixel) (cs : List Shade) :
    ∃ l s', neopixel (some m) false s (.seq (cs.map Shade.elem)) = some (.one l, s') ∧ pulses T false 0 l = ws (cs.map Shade.rgb) ∧
      s'.abort = false ∧ s'.outside = s.outside := by
  obtain ⟨mem, s', h, hr, ha', ho⟩ := neopixel_ok ha m false cs
  refine ⟨_, s', h, ?_, ha', ho⟩
  rw [C81_wire h1 h2, ← hr]
  simp

/-- On two wires this holds if all the colours are the same. -/
theorem C81_shows_two_partial {s : St} (ha : s.abort = false) (m : Nat → Pixel) (cs : List Shade) (c : Shade) (hc : ∀ x ∈ cs, x = c)
    (clk d : Bool) :
    ∃ l s' pre, neopixel (some m) true s (.seq (cs.map Shade.elem)) = some (.two l, s') ∧ pre.length ≤ 1 ∧
      clocked clk d l = pre ++ apa (cs.map Shade.rgb) ∧ s'.abort = false ∧ s'.outside = s.outside := by
  obtain ⟨mem, s', h, hr, ha', ho⟩ := neopixel_ok ha m true cs
  obtain ⟨pre, hp, he⟩ := C81_wires_partial clk d mem cs.length
  refine ⟨_, s', pre, h, hp, ?_, ha', ho⟩
  rw [he]
  congr 2
  cases cs with
  | nil => rfl
  | cons x cs =>
    have hx : cs.map Shade.rgb = List.replicate cs.length c.rgb := by
      rw [List.eq_replicate_iff]
      refine ⟨by simp, fun y hy => ?_⟩
      obtain ⟨z, hz, rfl⟩ := List.mem_map.1 hy
      rw [hc z (.tail _ hz)]
    have h0 : (mem 0).rgb = x.rgb := by
      have := congrArg List.head? hr
      rw [List.length_cons, List.range_succ_eq_map] at this
      simpa using this
    rw [h0, List.length_cons, List.replicate_succ, List.map_cons, hx, hc x (.head _)]

theorem setPixels_bad : ∀ (l : List Elem) (s : St) (p : Nat) (r : Bool × St), setPixels s p l = some r →
    (∃ e ∈ l, ∀ c : List Color, e = .seq c → c.length ≠ 3 ∨ .other ∈ c) → s.abort = false → r.1 = false ∧ r.2.abort = true
  | [], _, _, _, _, h, _ => by obtain ⟨e, he, _⟩ := h; cases he
  | x :: l, s, p, r, hr, h, ha => by
    rw [setPixels] at hr
    simp only [bind] at hr
    cases h1 : setPixel s p x with
    | none => rw [h1] at hr; cases hr
    | some s1 =>
      rw [h1] at hr
      simp only [Option.bind] at hr
      cases ha1 : s1.abort with
      | true =>
        rw [ha1] at hr
        simp only [if_true, pure] at hr
        cases hr
        exact ⟨rfl, ha1⟩
      | false =>
        rw [ha1] at hr
        simp only [Bool.false_eq_true, if_false] at hr
        refine setPixels_bad l s1 (p + 1) r hr ?_ ha1
        obtain ⟨e, he, hb⟩ := h
        rcases List.mem_cons.1 he with rfl | he
        · exfalso
          have key : ∀ {s s' : St} {c : Color} {b : BitVec 8}, toInten s c = some (b, s') →
              (s.abort = true → s'.abort = true) ∧ (c = .other → s'.abort = true) := by
            intro s s' c b h
            cases c with
            | num v =>
              simp only [toInten, Option.map_eq_some_iff] at h
              obtain ⟨_, _, h⟩ := h
              cases h
              exact ⟨id, nofun⟩
            | other => cases h; exact ⟨fun _ => rfl, fun _ => rfl⟩
          unfold setPixel at h1
          split at h1
          · rename_i r g b
            simp only [bind, Option.bind] at h1
            cases hr' : toInten s r with
            | none => rw [hr'] at h1; cases h1
            | some a1 =>
              obtain ⟨b1, t1⟩ := a1
              rw [hr'] at h1
              simp only at h1
              cases hg' : toInten t1 g with
              | none => rw [hg'] at h1; cases h1
              | some a2 =>
                obtain ⟨b2, t2⟩ := a2
                rw [hg'] at h1
                simp only at h1
                cases hb' : toInten t2 b with
                | none => rw [hb'] at h1; cases h1
                | some a3 =>
                  obtain ⟨b3, t3⟩ := a3
                  rw [hb'] at h1
                  simp only at h1
                  cases hmm : t3.mem with
                  | none => rw [hmm] at h1; cases h1
                  | some mem =>
                    rw [hmm] at h1
                    cases h1
                    have ha1 : t3.abort = false := ha1
                    rcases hb _ rfl with h | h
                    · exact h rfl
                    · simp only [List.mem_cons, List.not_mem_nil, or_false] at h
                      have k3 := key hb'
                      have k2 := key hg'
                      have k1 := key hr'
                      have : t3.abort = true := by
                        rcases h with h | h | h
                        · exact k3.1 (k2.1 (k1.2 h.symm))
                        · exact k3.1 (k2.2 h.symm)
                        · exact k3.2 h.symm
                      rw [ha1] at this; cases this
          · cases h1; cases ha1
        · exact ⟨e, he, hb⟩

/-- Anything but colours: an error, and nothing is sent - unless the argument itself is like a colour. -/
theorem C81_error_partial (fresh : Option (Nat → Pixel)) (two : Bool) {s : St} (ha : s.abort = false) (l : List Elem)
    (hi : ∀ v x y, l ≠ [.num v, x, y]) (hb : ∃ e ∈ l, ∀ c : List Color, e = .seq c → c.length ≠ 3 ∨ .other ∈ c) {r : Sent × St}
    (hr : neopixel fresh two s (.seq l) = some r) : r.1 = .nothing ∧ r.2.abort = true := by
  have himm : immediate l = false := by
    unfold immediate
    split
    · rename_i v x y; exact absurd rfl (hi v x y)
    · rfl
  unfold neopixel fill at hr
  simp only [himm, Bool.false_eq_true, if_false] at hr
  have ha1 : (room fresh l.length s).mem.isNone = false → (room fresh l.length s).abort = false := by
    unfold room
    split
    · cases fresh with
      | none => nofun
      | some m => exact fun _ => ha
    · exact fun _ => ha
  have ha2 : (room fresh l.length s).mem.isNone = true → (room fresh l.length s).abort = true := by
    unfold room
    split
    · cases fresh with
      | none => exact fun _ => rfl
      | some m => nofun
    · rename_i h
      intro hm
      rw [hm] at h
      exact absurd rfl h
  generalize room fresh l.length s = s1 at *
  split at hr
  · rename_i hm
    cases hr
    exact ⟨rfl, ha2 hm⟩
  · rename_i hm
    rw [Bool.not_eq_true] at hm
    cases hx : setPixels s1 0 l with
    | none => rw [hx] at hr; cases hr
    | some q =>
      obtain ⟨go, s2⟩ := q
      rw [hx] at hr
      obtain ⟨hg, hab⟩ := setPixels_bad l s1 0 _ hx hb (ha1 hm)
      simp only at hg hab
      subst hg
      cases hr
      exact ⟨rfl, hab⟩

/-! ## Brightness -/

theorem inten_eq (v : BitVec 32) : inten v = Gpio.powerByte v := rfl

/-- Numbers from 0 to 1 give the nearest of 256 brightnesses (of two that are within 1/32768 equally near, either); smaller ones 0, larger
ones 255; a larger number never gives a lower brightness. -/
theorem C81_brightness (v : BitVec 32) (hf : FinNum v) (h0 : 0 ≤ Spec.f32val v) (h1 : Spec.f32val v ≤ 2 ^ 149) :
    ∃ b, inten v = some b ∧ 32768 * (b.toNat * 2 ^ 149 : Int) ≤ 32768 * (255 * Spec.f32val v) + 16385 * 2 ^ 149 ∧
      32768 * (255 * Spec.f32val v) ≤ 32768 * (b.toNat * 2 ^ 149 : Int) + 16385 * 2 ^ 149 :=
  Gpio.C70_power v hf h0 h1

theorem C81_brightness_limits (v : BitVec 32) :
    (fltF v 0 = true → inten v = some 0) ∧ (fltF 0x3f800000 v = true → inten v = some 255) :=
  Gpio.C70_power_limits v

/-! ## Cases -/

/-- Red (1, 0, 0), dim green (0, 0.5, 0), and blue (0, 0, 2). -/
def red : Shade := ⟨0x3f800000, 0, 0, (255, 0, 0), by decide +kernel, by decide +kernel, by decide +kernel⟩
def green : Shade := ⟨0, 0x3f000000, 0, (0, 128, 0), by decide +kernel, by decide +kernel, by decide +kernel⟩
def blue : Shade := ⟨0, 0, 0x40000000, (0, 0, 255), by decide +kernel, by decide +kernel, by decide +kernel⟩

def start : St := ⟨none, 0, false, false⟩

/-- Memory with something in it. -/
def junk : Nat → Pixel := fun _ => ⟨1, 2, 3, 4⟩

def Sent.one? : Sent → List Ev
  | .one l => l
  | _ => []
def Sent.two? : Sent → List Ev2
  | .two l => l
  | _ => []

example : (neopixel (some junk) false start (.seq ([red, green].map Shade.elem))).map (fun r => pulses 15 false 0 r.1.one?) =
    some (ws [(255, 0, 0), (0, 128, 0)]) := by decide +kernel

/-- On two wires the second lamp gets the colour of the first. -/
theorem C81_violated_two :
    (neopixel (some junk) true start (.seq ([red, blue].map Shade.elem))).map (fun r => clocked true false r.1.two?) =
      some (apa [(255, 0, 0), (255, 0, 0)]) := by decide +kernel

/-- `neopixel((1, 0, 0))` allocates one pixel and sends three: two from the memory behind. -/
theorem C81_violated_single :
    (neopixel (some junk) false start (.seq [.num 0x3f800000, .num 0, .num 0])).map (fun r => (pulses 15 false 0 r.1.one?, r.2.outside)) =
      some (ws [(255, 0, 0), (3, 4, 2), (3, 4, 2)], true) := by decide +kernel

/-- `neopixel((1, 0, 'a'))` is an error, but lamps are set nevertheless. -/
theorem C81_violated_error :
    (neopixel (some junk) false start (.seq [.num 0x3f800000, .num 0, .other])).map (fun r => (pulses 15 false 0 r.1.one?, r.2.abort)) =
      some (ws [(255, 0, 0), (3, 4, 2), (3, 4, 2)], true) := by decide +kernel

/-- If the pin is high, because it is on, all bits come out as ones or zeros by the pauses between them. -/
theorem C81_violated_high :
    (neopixel (some junk) false start (.seq ([red].map Shade.elem))).map (fun r => pulses 15 true 100 r.1.one?) ≠
      some (ws [(255, 0, 0)]) := by decide +kernel

end Snek.Neopixel
