import Verif.Model.I2c
import Verif.Props.C70
/-!
# C95 Registers on the I2C bus are read and written

`i2c.put(addr, reg, val)` writes one register of the device at an address and nothing else, `i2c.get(addr, reg)` gives the value of a register, and
`accel()` the acceleration along three axes. `Spec.Rounded u n d` says that the number `u` is `n / d` correctly rounded (in units of 2^-149).

Partial: the address must be the even byte that the device answers to, and there must be such a device; the arguments must be bytes; for `accel`
the sensor must not take a new sample during the call. `C95_violated_*` show what happens otherwise, silently in every case.
-/
namespace Snek.I2c
open Spec
open Snek.Gpio (rounded_scale)

/-- The devices do not change the registers `R` by themselves. -/
def Keeps (env : Nat → Dev → UInt8 → UInt8) (R : UInt8 → Prop) : Prop := ∀ t d r, R r → env t d r = d.regs r

/-- A change of the devices that keeps addresses, and the registers `R` outside those that the put is for. -/
structure Fix (R : UInt8 → Prop) (F : Dev → Dev) : Prop where
  addr : ∀ d, (F d).addr = d.addr
  regs : ∀ d r, R r → (F d).regs r = d.regs r

section
variable {env : Nat → Dev → UInt8 → UInt8} {junk : UInt8} {R : UInt8 → Prop}

theorem tick_fix (h : Keeps env R) (b : Bus) :
    ∃ F, Fix R F ∧ (∀ d, (F d).ptr = d.ptr) ∧ (tick env b).devs = b.devs.map F ∧ (tick env b).phase = b.phase :=
  ⟨fun d => { d with regs := env b.time d }, ⟨fun _ => rfl, fun d r hr => h _ d r hr⟩, fun _ => rfl, rfl, rfl⟩

theorem Fix.comp {F G : Dev → Dev} (hf : Fix R F) (hg : Fix R G) : Fix R (G ∘ F) :=
  ⟨fun d => (hg.addr _).trans (hf.addr d), fun d r hr => (hg.regs _ r hr).trans (hf.regs d r hr)⟩

theorem any_map {F : Dev → Dev} (hf : ∀ d, (F d).addr = d.addr) (l : List Dev) (a : Nat) :
    (l.map F).any (fun d => d.addr = a) = l.any (fun d => d.addr = a) := by
  rw [List.any_map]; congr 1; funext d; simp only [Function.comp, hf]

theorem start_fix (h : Keeps env R) (b : Bus) (v : UInt8) (hd : ∃ d ∈ b.devs, d.addr = v.toNat / 2) :
    ∃ F, Fix R F ∧ (∀ d, (F d).ptr = d.ptr) ∧ (start env b v).devs = b.devs.map F ∧
      (start env b v).phase = if v.toNat % 2 = 0 then .reg (v.toNat / 2) else .send (v.toNat / 2) := by
  obtain ⟨F, f1, f2, f3, _⟩ := tick_fix h b
  obtain ⟨G, g1, g2, g3, g4⟩ := tick_fix h (cond env b)
  have hc : (cond env b).devs = b.devs.map F := f3
  have hp : (tick env (cond env b)).phase = .addr := g4
  have hdv : (tick env (cond env b)).devs = b.devs.map (G ∘ F) := by rw [g3, hc, List.map_map]
  have ha : (tick env (cond env b)).devs.any (fun d => d.addr = v.toNat / 2) = true := by
    rw [hdv, any_map (f1.comp g1).addr]
    obtain ⟨d, d1, d2⟩ := hd
    exact List.any_eq_true.mpr ⟨d, d1, by simpa using d2⟩
  refine ⟨G ∘ F, f1.comp g1, fun d => (g2 _).trans (f2 d), ?_, ?_⟩
  · unfold start write
    simp only [hp, ha, if_true]
    exact hdv
  · unfold start write
    simp only [hp, ha, if_true]

theorem reg_fix (h : Keeps env R) (b : Bus) (v : UInt8) (a : Nat) (hp : b.phase = .reg a) :
    ∃ F, Fix R F ∧ (∀ d, d.addr = a → (F d).ptr = v) ∧ (write env b v).devs = b.devs.map F ∧ (write env b v).phase = .data a := by
  obtain ⟨F, f1, f2, f3, f4⟩ := tick_fix h b
  rw [hp] at f4
  refine ⟨(fun d => if d.addr = a then { d with ptr := v } else d) ∘ F, f1.comp ⟨?_, ?_⟩, ?_, ?_, ?_⟩
  · intro d; split <;> rfl
  · intro d r _; split <;> rfl
  · intro d hd; simp only [Function.comp, f1.addr, hd, if_true]
  · unfold write; simp only [f4, on, f3, List.map_map]
  · unfold write; simp only [f4]

/-- What is written is in the register of the device that the bus is at, and nothing else. -/
theorem data_fix (h : Keeps env R) (b : Bus) (v : UInt8) (a : Nat) (hp : b.phase = .data a) :
    ∃ F : Dev → Dev, (∀ d, (F d).addr = d.addr) ∧
      (∀ d r, R r → (F d).regs r = if d.addr = a ∧ r = d.ptr then v else d.regs r) ∧ (write env b v).devs = b.devs.map F := by
  obtain ⟨F, f1, f2, f3, f4⟩ := tick_fix h b
  rw [hp] at f4
  refine ⟨(fun d => if d.addr = a then { d with regs := fun r => if r = d.ptr then v else d.regs r, ptr := d.next d.ptr } else d) ∘ F, ?_, ?_, ?_⟩
  · intro d; simp only [Function.comp]; split <;> exact f1.addr d
  · intro d r hr
    simp only [Function.comp, f1.addr]
    by_cases hd : d.addr = a
    · simp only [hd, if_true, f2, true_and]
      by_cases e : r = d.ptr
      · simp only [e, if_true]
      · simp only [e, if_false]; exact f1.regs d r hr
    · simp only [hd, if_false, false_and]; exact f1.regs d r hr
  · unfold write; simp only [f4, on, f3, List.map_map]

theorem stop_fix (h : Keeps env R) (b : Bus) : ∃ F, Fix R F ∧ (stop env b).devs = b.devs.map F ∧ (stop env b).phase = .idle := by
  obtain ⟨F, f1, _, f3, _⟩ := tick_fix h b
  exact ⟨F, f1, f3, rfl⟩

theorem or0 (v : UInt8) : v ||| 0 = v := by simp

theorem or1 (v : UInt8) : (v ||| 1).toNat = v.toNat / 2 * 2 + 1 := by
  have key : ∀ n, n < 256 → (UInt8.ofNat n ||| 1).toNat = n / 2 * 2 + 1 := by decide +kernel
  have := key v.toNat (UInt8.toNat_lt v)
  rwa [UInt8.ofNat_toNat] at this

theorem map_addr {F : Dev → Dev} (hf : ∀ d, (F d).addr = d.addr) (l : List Dev) : (l.map F).map Dev.addr = l.map Dev.addr := by
  rw [List.map_map]; congr 1; funext d; exact hf d

theorem find_addr {l : List Dev} (hn : (l.map Dev.addr).Nodup) {d : Dev} (hd : d ∈ l) : l.find? (fun e => e.addr = d.addr) = some d := by
  induction l with
  | nil => cases hd
  | cons e l ih =>
    rw [List.map_cons, List.nodup_cons] at hn
    rcases List.mem_cons.mp hd with rfl | hd'
    · simp
    · have hne : e.addr ≠ d.addr := fun he => hn.1 (he ▸ List.mem_map_of_mem hd')
      rw [List.find?_cons_of_neg (by simpa using hne)]
      exact ih hn.2 hd'

/-- What `put` does to the devices. -/
theorem put_fix (h : Keeps env R) (b : Bus) (addr reg val : UInt8) (he : addr.toNat % 2 = 0) (hd : ∃ d ∈ b.devs, d.addr = addr.toNat / 2) :
    ∃ F : Dev → Dev, (∀ d, (F d).addr = d.addr) ∧
      (∀ d r, R r → (F d).regs r = if d.addr = addr.toNat / 2 ∧ r = reg then val else d.regs r) ∧
      (put env b addr reg val).devs = b.devs.map F ∧ (put env b addr reg val).phase = .idle := by
  unfold put
  rw [or0]
  obtain ⟨F1, a1, b1, c1, p1⟩ := start_fix h b addr hd
  rw [if_pos he] at p1
  obtain ⟨F2, a2, b2, c2, p2⟩ := reg_fix h (start env b addr) reg _ p1
  obtain ⟨F3, a3, b3, c3⟩ := data_fix h (write env (start env b addr) reg) val _ p2
  obtain ⟨F4, a4, c4, p4⟩ := stop_fix h (write env (write env (start env b addr) reg) val)
  refine ⟨F4 ∘ F3 ∘ F2 ∘ F1, ?_, ?_, ?_, p4⟩
  · intro d; simp only [Function.comp, a4.addr, a3, a2.addr, a1.addr]
  · intro d r hr
    simp only [Function.comp, a4.regs _ r hr, b3 _ r hr, a2.addr, a1.addr, a2.regs _ r hr, a1.regs _ r hr]
    by_cases hda : d.addr = addr.toNat / 2
    · rw [b2 (F1 d) ((a1.addr d).trans hda)]
    · simp only [hda, false_and, if_false]
  · rw [c4, c3, c2, c1]; simp only [List.map_map]

/-- What `get` gives and what it does to the devices. -/
theorem get_fix (h : Keeps env R) (b : Bus) (addr reg : UInt8) (he : addr.toNat % 2 = 0) (hn : (b.devs.map Dev.addr).Nodup) {d : Dev}
    (hd : d ∈ b.devs) (hda : d.addr = addr.toNat / 2) (hr : R reg) :
    (get env junk b addr reg).1 = d.regs reg ∧
      ∃ F, Fix R F ∧ (get env junk b addr reg).2.devs = b.devs.map F ∧ (get env junk b addr reg).2.phase = .idle := by
  unfold get
  rw [or0]
  dsimp only
  obtain ⟨F1, a1, b1, c1, p1⟩ := start_fix h b addr ⟨d, hd, hda⟩
  rw [if_pos he] at p1
  obtain ⟨F2, a2, b2, c2, p2⟩ := reg_fix h (start env b addr) reg _ p1
  have ho := or1 addr
  have hd2 : F2 (F1 d) ∈ (write env (start env b addr) reg).devs := by
    rw [c2, c1]; exact List.mem_map_of_mem (List.mem_map_of_mem hd)
  have hod : (addr ||| 1).toNat / 2 = addr.toNat / 2 := by omega
  obtain ⟨F3, a3, b3, c3, p3⟩ := start_fix h (write env (start env b addr) reg) (addr ||| 1)
    ⟨_, hd2, by rw [a2.addr, a1.addr, hda, hod]⟩
  rw [if_neg (by omega), hod] at p3
  generalize start env (write env (start env b addr) reg) (addr ||| 1) = b3' at c3 p3 ⊢
  obtain ⟨F4, a4, b4, c4, p4⟩ := tick_fix h b3'
  have hdev : (tick env b3').devs = b.devs.map (F4 ∘ F3 ∘ F2 ∘ F1) := by rw [c4, c3, c2, c1]; simp only [List.map_map]
  have hF : Fix R (F4 ∘ F3 ∘ F2 ∘ F1) := ((a1.comp a2).comp a3).comp a4
  have hfind : (tick env b3').devs.find? (fun e => e.addr = addr.toNat / 2) = some (F4 (F3 (F2 (F1 d)))) := by
    have hm : (F4 ∘ F3 ∘ F2 ∘ F1) d ∈ (tick env b3').devs := by rw [hdev]; exact List.mem_map_of_mem hd
    have := find_addr (by rw [hdev, map_addr hF.addr]; exact hn) hm
    rw [hF.addr, hda] at this
    exact this
  rw [p3] at p4
  have hread : readNak env junk b3' = ((F4 (F3 (F2 (F1 d)))).regs (F4 (F3 (F2 (F1 d)))).ptr,
      { on (addr.toNat / 2) (fun d => { d with ptr := d.next d.ptr }) (tick env b3') with phase := .nobody }) := by
    unfold readNak
    simp only [p4, hfind]
  have hptr : (F4 (F3 (F2 (F1 d)))).ptr = reg := by
    rw [b4, b3, b2 _ ((a1.addr d).trans hda)]
  rw [hread]
  dsimp only
  refine ⟨by rw [hptr]; exact hF.regs d reg hr, ?_⟩
  obtain ⟨F5, a5, c5, p5⟩ := stop_fix h { on (addr.toNat / 2) (fun d => { d with ptr := d.next d.ptr }) (tick env b3') with phase := .nobody }
  refine ⟨F5 ∘ (fun d => if d.addr = addr.toNat / 2 then { d with ptr := d.next d.ptr } else d) ∘ (F4 ∘ F3 ∘ F2 ∘ F1), ?_, ?_, p5⟩
  · refine Fix.comp (Fix.comp hF ⟨?_, ?_⟩) a5
    · intro d; split <;> rfl
    · intro d r _; split <;> rfl
  · rw [c5]; simp only [on, hdev, List.map_map]

theorem byte_toNat {i : Int} (h0 : 0 ≤ i) (h1 : i < 256) : (byte i).toNat = i.toNat := by
  unfold byte
  rw [Int.emod_eq_of_lt h0 h1, UInt8.toNat_ofNat']
  exact Nat.mod_eq_of_lt (by omega)

/-- `i2c.put(addr, reg, val)` of bytes, with an even address at which there is a device: afterwards the devices are those there were, and of their
registers (those that no device changes by itself) the one with that number in the device at that address has the value, all the others have kept theirs. -/
theorem C95_put_partial (h : Keeps env R) (b : Bus) (addr reg val : Int) (ha : 0 ≤ addr ∧ addr < 256 ∧ addr % 2 = 0) (hr : 0 ≤ reg ∧ reg < 256)
    (hv : 0 ≤ val ∧ val < 256) (hd : ∃ d ∈ b.devs, (d.addr : Int) = addr / 2) :
    (builtinPut env b addr reg val).devs.length = b.devs.length ∧
    ∀ (i : Nat) (d d' : Dev), b.devs[i]? = some d → (builtinPut env b addr reg val).devs[i]? = some d' →
      d'.addr = d.addr ∧ ∀ r, R r →
        ((d'.regs r).toNat : Int) = if (d.addr : Int) = addr / 2 ∧ (r.toNat : Int) = reg then val else ((d.regs r).toNat : Int) := by
  have ea := byte_toNat ha.1 ha.2.1
  have er := byte_toNat hr.1 hr.2
  have ev := byte_toNat hv.1 hv.2
  obtain ⟨F, f1, f2, f3, _⟩ := put_fix h b (byte addr) (byte reg) (byte val) (by omega) (by obtain ⟨d, d1, d2⟩ := hd; exact ⟨d, d1, by omega⟩)
  unfold builtinPut
  rw [f3]
  refine ⟨List.length_map _, fun i d d' hi hi' => ?_⟩
  rw [List.getElem?_map, hi] at hi'
  cases hi'
  refine ⟨f1 d, fun r hR => ?_⟩
  rw [f2 d r hR]
  have e1 : (d.addr = (byte addr).toNat / 2) ↔ (d.addr : Int) = addr / 2 := by omega
  have e2 : (r = byte reg) ↔ (r.toNat : Int) = reg := by
    rw [← UInt8.toNat_inj]; omega
  by_cases c : d.addr = (byte addr).toNat / 2 ∧ r = byte reg
  · rw [if_pos c, if_pos ⟨e1.mp c.1, e2.mp c.2⟩, ev]; omega
  · rw [if_neg c, if_neg (fun c' => c ⟨e1.mpr c'.1, e2.mpr c'.2⟩)]

/-- `i2c.get(addr, reg)` of bytes, with an even address at which there is one device, gives the value of the register with that number in it, and no
register of any device is changed. -/
theorem C95_get_partial (h : Keeps env R) (b : Bus) (addr reg : Int) (ha : 0 ≤ addr ∧ addr < 256 ∧ addr % 2 = 0) (hr : 0 ≤ reg ∧ reg < 256)
    (hn : (b.devs.map Dev.addr).Nodup) (d : Dev) (hd : d ∈ b.devs) (hda : (d.addr : Int) = addr / 2) (hR : ∀ r : UInt8, (r.toNat : Int) = reg → R r) :
    (∀ r : UInt8, (r.toNat : Int) = reg → (builtinGet env junk b addr reg).1 = (d.regs r).toNat) ∧
    (builtinGet env junk b addr reg).2.devs.length = b.devs.length ∧
    ∀ (i : Nat) (e e' : Dev), b.devs[i]? = some e → (builtinGet env junk b addr reg).2.devs[i]? = some e' →
      e'.addr = e.addr ∧ ∀ r, R r → e'.regs r = e.regs r := by
  have ea := byte_toNat ha.1 ha.2.1
  have er := byte_toNat hr.1 hr.2
  obtain ⟨g, F, f1, f2, _⟩ := get_fix (junk := junk) h b (byte addr) (byte reg) (by omega) hn hd (by omega) (hR _ (by omega))
  unfold builtinGet
  dsimp only
  rw [f2]
  refine ⟨fun r hrr => ?_, List.length_map _, fun i e e' hi hi' => ?_⟩
  · rw [g, show byte reg = r from UInt8.toNat_inj.mp (by omega)]
  · rw [List.getElem?_map, hi] at hi'
    cases hi'
    exact ⟨f1.addr e, fun r hRr => f1.regs e r hRr⟩

/-- A count of the sensor, correctly rounded after the division. -/
theorem scale_rounded (i : Int) (h : -32768 ≤ i ∧ i < 32768) : Rounded (scale i) (i * 2 ^ 149) 16000 := by
  obtain ⟨a1, a2⟩ := intToF_denotes (z := i) ⟨by omega, by omega⟩
  obtain ⟨b1, b2⟩ := intToF_denotes (z := 16000) ⟨by decide, by decide⟩
  have hb0 : fval (intToF 16000) ≠ 0 := by decide +kernel
  have key := fdiv_rounded (intToF i) (intToF 16000) a1 b1 hb0
  rw [a2, b2] at key
  refine rounded_scale (k := 2 ^ 149) (by decide +kernel) ?_
  unfold scale
  have s : ((16000 : Int) * 2 ^ 149).sign = 1 := by decide +kernel
  have n : ((16000 : Int) * 2 ^ 149).natAbs = 16000 * 2 ^ 149 := by decide +kernel
  rw [s, n, Int.mul_one] at key
  exact key

theorem int16_range (l h : UInt8) : -32768 ≤ int16 l h ∧ int16 l h < 32768 := by
  have := UInt8.toNat_lt l
  have := UInt8.toNat_lt h
  unfold int16
  dsimp only
  split <;> omega

/-- The registers that hold the sample. -/
def Sample (r : UInt8) : Prop := 0x28 ≤ r.toNat ∧ r.toNat ≤ 0x2d

theorem axis_fix (h : Keeps env Sample) (b : Bus) (hn : (b.devs.map Dev.addr).Nodup) {d : Dev} (hd : d ∈ b.devs) (hda : d.addr = 0x19) (a : UInt8)
    (ha : a.toNat ≤ 4) :
    (axis env junk b a).1 = scale (int16 (d.regs (0x28 + a)) (d.regs (0x29 + a))) ∧
      ∃ F, Fix Sample F ∧ (axis env junk b a).2.devs = b.devs.map F := by
  have k : ∀ n, n ≤ 4 → (0x28 + UInt8.ofNat n + 0 = 0x28 + UInt8.ofNat n ∧ 0x28 + UInt8.ofNat n + 1 = 0x29 + UInt8.ofNat n ∧
      (0x28 + UInt8.ofNat n).toNat = 0x28 + n ∧ (0x29 + UInt8.ofNat n).toNat = 0x29 + n) := by decide +kernel
  obtain ⟨k1, k2, k3, k4⟩ := k _ ha
  rw [UInt8.ofNat_toNat] at k1 k2 k3 k4
  unfold axis
  dsimp only
  rw [k1, k2]
  obtain ⟨g, F, f1, f2, _⟩ := get_fix (junk := junk) h b 0x32 (0x28 + a) (by decide) hn hd (by rw [hda]; decide) (by unfold Sample; omega)
  have hd' : F d ∈ (get env junk b 0x32 (0x28 + a)).2.devs := by rw [f2]; exact List.mem_map_of_mem hd
  obtain ⟨g', G, g1, g2, _⟩ := get_fix (junk := junk) h (get env junk b 0x32 (0x28 + a)).2 0x32 (0x29 + a) (by decide)
    (by rw [f2, map_addr f1.addr]; exact hn) hd' (by rw [f1.addr, hda]; decide) (by unfold Sample; omega)
  refine ⟨by rw [g, g', f1.regs d _ (by unfold Sample; omega)], G ∘ F, f1.comp g1, ?_⟩
  rw [g2, f2, List.map_map]

/-- `accel()` with the sensor on the bus, first or later, when the sensor takes no new sample during the call: the three numbers are the counts of the
three axes (low byte first, in two's complement) divided by 16000, the count of one g, each correctly rounded. -/
theorem C95_accel_partial (h : Keeps env Sample) (been : Bool) (b : Bus) (hn : (b.devs.map Dev.addr).Nodup) (d : Dev) (hd : d ∈ b.devs)
    (hda : d.addr = 0x19) (x y z : BitVec 32) (hres : (accel env junk been b).1 = (x, y, z)) (i j k : Int)
    (hi : -32768 ≤ i ∧ i < 32768 ∧ ((d.regs 0x28).toNat + 256 * (d.regs 0x29).toNat : Int) = i % 65536)
    (hj : -32768 ≤ j ∧ j < 32768 ∧ ((d.regs 0x2a).toNat + 256 * (d.regs 0x2b).toNat : Int) = j % 65536)
    (hk : -32768 ≤ k ∧ k < 32768 ∧ ((d.regs 0x2c).toNat + 256 * (d.regs 0x2d).toNat : Int) = k % 65536) :
    Rounded x (i * 2 ^ 149) 16000 ∧ Rounded y (j * 2 ^ 149) 16000 ∧ Rounded z (k * 2 ^ 149) 16000 := by
  have e16 : ∀ (l u : UInt8) (i : Int), -32768 ≤ i ∧ i < 32768 ∧ (l.toNat + 256 * u.toNat : Int) = i % 65536 → int16 l u = i := by
    intro l u i ⟨h1, h2, h3⟩
    have := UInt8.toNat_lt l
    have := UInt8.toNat_lt u
    unfold int16
    dsimp only
    split <;> omega
  have start : ∃ F, Fix Sample F ∧ (if been then b else tick env (put env b 0x32 0x20 0x57)).devs = b.devs.map F := by
    cases been with
    | true => exact ⟨id, ⟨fun _ => rfl, fun _ _ _ => rfl⟩, by simp⟩
    | false =>
      obtain ⟨F, f1, f2, f3, _⟩ := put_fix h b 0x32 0x20 0x57 (by decide) ⟨d, hd, by rw [hda]; decide⟩
      obtain ⟨G, g1, _, g3, _⟩ := tick_fix h (put env b 0x32 0x20 0x57)
      refine ⟨G ∘ F, Fix.comp ⟨f1, fun d r hr => ?_⟩ g1, by rw [if_neg (by simp), g3, f3, List.map_map]⟩
      rw [f2 d r hr, if_neg (fun c => ?_)]
      have := c.2 ▸ hr
      unfold Sample at this
      exact absurd this.1 (by decide)
  obtain ⟨F0, a0, c0⟩ := start
  unfold accel at hres
  dsimp only at hres
  generalize (if been = true then b else tick env (put env b 0x32 0x20 0x57)) = b0 at c0 hres
  have m0 : F0 d ∈ b0.devs := by rw [c0]; exact List.mem_map_of_mem hd
  have n0 : (b0.devs.map Dev.addr).Nodup := by rw [c0, map_addr a0.addr]; exact hn
  obtain ⟨ex, F1, a1, c1⟩ := axis_fix (junk := junk) h b0 n0 m0 ((a0.addr d).trans hda) 0 (by decide)
  have m1 : F1 (F0 d) ∈ (axis env junk b0 0).2.devs := by rw [c1]; exact List.mem_map_of_mem m0
  have n1 : ((axis env junk b0 0).2.devs.map Dev.addr).Nodup := by rw [c1, map_addr a1.addr]; exact n0
  obtain ⟨ey, F2, a2, c2⟩ := axis_fix (junk := junk) h (axis env junk b0 0).2 n1 m1 ((a1.addr _).trans ((a0.addr d).trans hda)) 2 (by decide)
  have m2 : F2 (F1 (F0 d)) ∈ (axis env junk (axis env junk b0 0).2 2).2.devs := by rw [c2]; exact List.mem_map_of_mem m1
  have n2 : ((axis env junk (axis env junk b0 0).2 2).2.devs.map Dev.addr).Nodup := by rw [c2, map_addr a2.addr]; exact n1
  obtain ⟨ez, F3, a3, c3⟩ := axis_fix (junk := junk) h (axis env junk (axis env junk b0 0).2 2).2 n2 m2
    ((a2.addr _).trans ((a1.addr _).trans ((a0.addr d).trans hda))) 4 (by decide)
  have S : ∀ r : UInt8, 0x28 ≤ r.toNat ∧ r.toNat ≤ 0x2d → Sample r := fun _ h => h
  rw [Prod.mk.injEq, Prod.mk.injEq] at hres
  rw [a0.regs _ _ (S _ (by decide)), a0.regs _ _ (S _ (by decide))] at ex
  rw [a1.regs _ _ (S _ (by decide)), a1.regs _ _ (S _ (by decide)), a0.regs _ _ (S _ (by decide)), a0.regs _ _ (S _ (by decide))] at ey
  rw [a2.regs _ _ (S _ (by decide)), a2.regs _ _ (S _ (by decide)), a1.regs _ _ (S _ (by decide)), a1.regs _ _ (S _ (by decide)),
    a0.regs _ _ (S _ (by decide)), a0.regs _ _ (S _ (by decide))] at ez
  have e2 : int16 (d.regs (0x28 + 0)) (d.regs (0x29 + 0)) = i := e16 _ _ _ hi
  have e3 : int16 (d.regs (0x28 + 2)) (d.regs (0x29 + 2)) = j := e16 _ _ _ hj
  have e4 : int16 (d.regs (0x28 + 4)) (d.regs (0x29 + 4)) = k := e16 _ _ _ hk
  rw [← hres.1, ← hres.2.1, ← hres.2.2, ex, ey, ez, e2, e3, e4]
  exact ⟨scale_rounded i ⟨hi.1, hi.2.1⟩, scale_rounded j ⟨hj.1, hj.2.1⟩, scale_rounded k ⟨hk.1, hk.2.1⟩⟩

end

/-! ## Cases -/

/-- Devices that change nothing by themselves. -/
def still : Nat → Dev → UInt8 → UInt8 := fun _ d => d.regs

/-- Two devices. -/
def demo : Bus :=
  { devs := [{ addr := 0x19, regs := fun r => r + 1, ptr := 0, next := id }, { addr := 0x3c, regs := fun _ => 7, ptr := 3, next := (· + 1) }], phase := .idle,
    time := 0 }

example : Keeps still (fun _ => True) := fun _ _ _ _ => rfl

-- The hypotheses are met, and this is what they lead to.
example : ((builtinPut still demo 0x32 0x20 0x57).devs.map fun d => (d.addr, d.regs 0x20, d.regs 0x21)) = [(0x19, 0x57, 0x22), (0x3c, 7, 7)] ∧
    (builtinGet still 0xff demo 0x32 0x20).1 = 0x21 ∧ (builtinGet still 0xff demo 0x78 0x20).1 = 7 := by decide +kernel

example : (∃ d ∈ demo.devs, (d.addr : Int) = 0x32 / 2) ∧ (demo.devs.map Dev.addr).Nodup := by decide +kernel

/-- A sensor that lies still: 0 along two axes, one g down. -/
def sensor : Dev := { addr := 0x19, regs := fun r => if r = 0x2c then 0x80 else if r = 0x2d then 0xc1 else 0, ptr := 0, next := id }

example : (accel still 0xff false { devs := [sensor], phase := .idle, time := 0 }).1 = (0, 0, 0xbf800000#32) := by decide +kernel

/-- With an odd address `i2c.put` reads: nothing is written, and nothing is said. -/
theorem C95_violated_odd : ((builtinPut still demo 0x33 0x20 0x57).devs.map fun d => (d.addr, d.regs 0x20)) = [(0x19, 0x21), (0x3c, 7)] := by
  decide +kernel

/-- Where there is no device a `get` gives whatever the wires show, for every register. -/
theorem C95_violated_missing (junk : UInt8) : (builtinGet still junk demo 0x50 0x20).1 = junk.toNat := by
  rfl

/-- Arguments that are not bytes are reduced: writing 256 writes 0, and register 288 is register 32. -/
theorem C95_violated_range : ((builtinPut still demo 0x32 288 256).devs.map fun d => (d.addr, d.regs 0x20)) = [(0x19, 0), (0x3c, 7)] := by
  decide +kernel

/-- A sensor that goes from a count of 255 to one of 256 at time 9, between the two reads of the axis. -/
def moving : Nat → Dev → UInt8 → UInt8 := fun t _ r =>
  if t < 9 then (if r = 0x28 then 0xff else 0) else (if r = 0x29 then 1 else 0)

/-- `accel()` then reports a count of 511, which the sensor never had: 0.0319375 g where it went from 0.0159375 to 0.016. -/
theorem C95_violated_torn :
    (accel moving 0xff true { devs := [sensor], phase := .idle, time := 0 }).1.1 = scale 511 ∧ int16 0xff 0 = 255 ∧ int16 0 1 = 256 ∧
    scale 511 ≠ scale 255 ∧ scale 511 ≠ scale 256 := by decide +kernel

end Snek.I2c
