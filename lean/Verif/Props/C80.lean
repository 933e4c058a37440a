import Verif.Proofs.UsbSamd
/-!
# C80: the USB console of the SAMD21 boards

A run is any list of events: packets from the host, packets taken by the host, runs of the interrupt handler, steps of the program. What
the program reads is what the host sent, in order, nothing twice and nothing lost; what the host gets is what the program printed; nobody
waits for ever; ^C raises the abort flag. The last two hold with exceptions.
-/
namespace Snek.UsbSamd

/-! ## Input -/

/-- What the program has read is the beginning of what the device has accepted; the rest is still in the device, byte for byte. -/
theorem C80_input {N : Nat} (hN : 0 < N) (evs : List OutEv) :
    ∃ rest, (Out.run N evs).2 ++ rest = (Out.run N evs).1.got ∧
      rest.length = (Out.run N evs).1.fifo.count + (if (Out.run N evs).1.rdy false then ((Out.run N evs).1.buf false).length else 0) +
        (if (Out.run N evs).1.rdy true then ((Out.run N evs).1.buf true).length else 0) := by
  obtain ⟨_, h⟩ := run_inv hN evs
  refine ⟨_, h, ?_⟩
  rw [List.length_append, contents_length, Nat.add_assoc]
  congr 1
  unfold Out.banks
  rw [List.length_append]
  cases (Out.run N evs).1.which <;> simp only [Bool.not_true, Bool.not_false] <;> cases (Out.run N evs).1.rdy false <;>
    cases (Out.run N evs).1.rdy true <;> simp <;> omega

/-- A packet is accepted, whole, unless two are waiting. -/
theorem C80_accepts {N : Nat} (hN : 0 < N) (evs : List OutEv) {p : List Byte} (hp : p.length ≤ 64)
    (hr : ¬ ((Out.run N evs).1.rdy false = true ∧ (Out.run N evs).1.rdy true = true)) :
    (Out.run N (evs ++ [.packet p])).1.got = (Out.run N evs).1.got ++ p := by
  have h := (run_inv hN evs).1.free
  have e : Out.run N (evs ++ [.packet p]) = ((Out.run N evs).1.packet p, (Out.run N evs).2) := by
    unfold Out.run; rw [List.foldl_append]; rfl
  rw [e]
  unfold Out.packet
  rw [if_neg]
  rw [← h] at hr
  simp only [Bool.or_eq_true, decide_eq_true_eq, not_or]
  exact ⟨hr, by omega⟩

/-- If no packet is empty: when the interrupts have been served and the program waits for input, it has been given everything. -/
theorem C80_drains {N : Nat} (hN : 64 ≤ N) (evs : List OutEv) (he : ∀ e ∈ evs, e.full) (h0 : ∀ b, (Out.run N evs).1.trcpt b = false)
    {late : Option (List Byte)} (hg : ((Out.run N evs).1.getc N late).1 = none) : (Out.run N evs).2 = (Out.run N evs).1.got := by
  obtain ⟨hi, h⟩ := run_inv (show 0 < N by omega) evs
  have hf := run_full hN evs he
  generalize Out.run N evs = x at *
  have hc : x.1.fifo.count = 0 := by
    unfold Out.getc at hg
    by_cases hp : 0 < x.1.fifo.count
    · rw [hi.run (.inr hp)] at hg
      simp only [Bool.not_true, Bool.false_eq_true, if_false] at hg
      rw [if_neg (by simp only [Fifo.empty, beq_iff_eq]; omega)] at hg
      cases hg
    · omega
  have hr : ∀ b, x.1.rdy b = false := by
    intro b; rw [hi.flags, h0, hf hc b]; rfl
  rw [← h]
  simp [Out.banks, hr, Fifo.contents, hc]

/-- A long line in three packets, the program reading at its own pace. -/
def someInput : List OutEv :=
  [.packet [104, 105], .isr none, .getc none, .packet [32, 121], .packet [111], .isr (some [10]), .getc none, .getc none, .getc none,
    .getc none, .isr none, .getc none, .getc none]

example : (Out.run 256 someInput).2 = [104, 105, 32, 121, 111, 10] ∧ (∀ e ∈ someInput, e.full) ∧
    (∀ b, (Out.run 256 someInput).1.trcpt b = false) ∧ ((Out.run 256 someInput).1.getc 256 none).1 = none := by
  refine ⟨by decide +kernel, ?_, by decide +kernel, by decide +kernel⟩
  intro e he
  simp only [someInput, List.mem_cons, List.not_mem_nil, or_false] at he
  rcases he with rfl | rfl | rfl | rfl | rfl | rfl | rfl | rfl | rfl | rfl | rfl | rfl | rfl <;> simp [OutEv.full]

/-- With an empty packet in front, a byte stays in the device: all interrupts served, the program waits, and has been given nothing. -/
theorem C80_violated_stall :
    let evs : List OutEv := [.packet [], .packet [65], .isr none]
    (∀ b, (Out.run 256 evs).1.trcpt b = false) ∧ ((Out.run 256 evs).1.getc 256 none).1 = none ∧ (Out.run 256 evs).1.got = [65] ∧
    (Out.run 256 evs).2 = [] := by
  decide +kernel

/-! ## ^C -/

/-- If no packet arrives while the handler is at work on the one before: ^C never reaches the program without the abort flag having been
raised. -/
theorem C80_interrupt_partial {N : Nat} (hN : 0 < N) (evs : List OutEv) (he : ∀ e ∈ evs, e.calm) (h : 3 ∈ (Out.run N evs).2) :
    (Out.run N evs).1.abort = true :=
  run_abort hN evs he (.inl h)

/-- When no other packet is waiting, a packet with ^C in it raises the flag at once, no matter how much is queued. -/
theorem C80_interrupt_now_partial {N : Nat} (hN : 0 < N) (evs : List OutEv) (h0 : ∀ b, (Out.run N evs).1.rdy b = false) {p : List Byte}
    (hp : 3 ∈ p) (hl : p.length ≤ 64) : (Out.run N (evs ++ [.packet p, .isr none])).1.abort = true := by
  have e : Out.run N (evs ++ [.packet p, .isr none]) = (((Out.run N evs).1.packet p).isr N none, (Out.run N evs).2) := by
    unfold Out.run; rw [List.foldl_append]; rfl
  rw [e]
  exact abort_now (run_inv hN evs).1 h0 hp hl

example : (∀ b, (Out.run 256 [.packet [97], .isr none]).1.rdy b = false) ∧
    (Out.run 256 [.packet [97], .isr none, .packet [3], .isr none, .getc none, .getc none]).2 = [97, 3] := by decide +kernel

/-- Two packets served by one interrupt: ^C in the second is not noticed. -/
theorem C80_violated_second : (Out.run 256 [.packet [97], .packet [3], .isr none]).1.abort = false ∧
    ∀ b, (Out.run 256 [.packet [97], .packet [3], .isr none]).1.trcpt b = false := by decide +kernel

/-- The queue and one bank are full, because the program does not read: ^C is not noticed, and no further packet is accepted. -/
theorem C80_violated_full :
    let x := List.replicate 64 (97 : Byte)
    let evs : List OutEv :=
      [.packet x, .isr none, .packet x, .isr none, .packet x, .isr none, .packet x, .isr none, .packet x, .isr none, .packet [3], .isr none]
    (Out.run 256 evs).1.abort = false ∧ (∀ b, (Out.run 256 evs).1.trcpt b = false) ∧
    (Out.run 256 (evs ++ [.packet [3], .isr none])).1.abort = false ∧
    (Out.run 256 (evs ++ [.packet [3], .isr none])).1.got = (Out.run 256 evs).1.got := by
  decide +kernel

/-- The handler gives the bank back before it looks for ^C in it: a packet that arrives in between replaces the ^C. The program reads the
^C, the flag stays down. -/
theorem C80_violated_late : (Out.run 256 [.packet [3], .packet [65], .isr (some [66]), .getc none]).2 = [3] ∧
    (Out.run 256 [.packet [3], .packet [65], .isr (some [66]), .getc none]).1.abort = false := by decide +kernel

/-! ## Output -/

/-- What the host has got is the beginning of what the program has printed, in packets that fit. -/
theorem C80_output (evs : List InEv) :
    (In.run true evs).2.2.flatten <+: ((In.run true evs).2.1.map opBytes).flatten ∧ ∀ p ∈ (In.run true evs).2.2, p.length ≤ 64 := by
  obtain ⟨a, b, _⟩ := inRun_inv evs
  refine ⟨⟨(In.run true evs).1.queue.flatten ++ (In.run true evs).1.part, ?_⟩, fun p hp => a.size p (List.mem_append_left _ hp)⟩
  rw [← b]; simp

/-- After a flush, once the host finds nothing more to take, it has got everything; and the last packet was not a full one, which tells the
host that nothing follows. -/
theorem C80_flush (evs : List InEv) (hf : (In.run true evs).2.1.getLast? = some .flush) (ht : (In.run true evs).1.take.1 = none) :
    (In.run true evs).2.2.flatten = ((In.run true evs).2.1.map opBytes).flatten ∧
    ∀ p, (In.run true evs).2.2.getLast? = some p → p.length < 64 := by
  obtain ⟨a, b, c⟩ := inRun_inv evs
  have hq : (In.run true evs).1.queue = [] := by
    generalize (In.run true evs).1 = s at *
    have h1 := a.cur
    have h2 := a.older
    unfold In.take at ht
    split at ht
    · cases ht
    · rename_i hr
      clear a b c
      obtain ⟨buf, len, rdy, cur, trcpt, which, count, flushed, pending, running⟩ := s
      simp only [In.queue] at *
      cases which <;> cases cur <;> simp only [Bool.not_true, Bool.not_false] at * <;> revert h1 h2 hr <;>
        rcases Bool.eq_false_or_eq_true (rdy false) with e | e <;> rcases Bool.eq_false_or_eq_true (rdy true) with e' | e' <;>
        simp [e, e']
  obtain ⟨h0, hl⟩ := a.fl (c hf)
  rw [hq, List.append_nil] at hl b
  refine ⟨?_, hl⟩
  rw [← b]
  simp [In.part, h0]

/-- A second flush does nothing: no empty packets without need. -/
theorem C80_flush_again (evs : List InEv) (hf : (In.run true evs).2.1.getLast? = some .flush) :
    (In.run true evs).1.op .flush = some (In.run true evs).1 := by
  obtain ⟨a, _, c⟩ := inRun_inv evs
  simp [In.op, c hf, a.run]

/-- A program that waits can go on once the host has taken a packet and the interrupt has been served. -/
theorem C80_output_progress (evs : List InEv) (o : Op) :
    (In.run true (evs ++ [.take, .isr, .op o])).2.1 = (In.run true evs).2.1 ++ [o] := by
  have h := op_wakes (inRun_inv evs).1 o
  have e : In.run true (evs ++ [.take, .isr, .op o]) = In.step (In.step (In.step (In.run true evs) .take) .isr) (.op o) := by
    unfold In.run; rw [List.foldl_append]; rfl
  rw [e]
  show (match (In.run true evs).1.take.2.isr.op o with | none => _ | some s => _ : In × List Op × List (List Byte)).2.1 = _
  cases ho : (In.run true evs).1.take.2.isr.op o with
  | none => exact absurd ho h
  | some s => rfl

/-- Printed text arrives with each line end as carriage return and line feed. -/
theorem C80_text (evs : List InEv) (text : List Byte) (hops : (In.run true evs).2.1 = ((text ++ [10]).map putc).flatten)
    (ht : (In.run true evs).1.take.1 = none) :
    (In.run true evs).2.2.flatten = ((text ++ [10]).map fun c => if c = 10 then [13, 10] else [c]).flatten := by
  rw [(C80_flush evs (by rw [hops]; simp [putc]) ht).1, hops]
  generalize text ++ [10] = t
  induction t with
  | nil => rfl
  | cons c t ih =>
    rw [List.map_cons, List.flatten_cons, List.map_append, List.flatten_append, ih, List.map_cons, List.flatten_cons]
    congr 1
    unfold putc
    split
    · rename_i h; subst h; rfl
    · rfl

/-- 70 letters and a line end: a full packet and a short one, with a wait in between. -/
def someOutput : List InEv :=
  (List.replicate 70 (InEv.op (.byte 97))) ++ [.take, .isr, .op (.byte 13), .op (.byte 10), .op .flush, .take, .isr]

example : (In.run true someOutput).2.2 = [List.replicate 64 97, [97, 97, 97, 97, 97, 97, 13, 10]] ∧
    (In.run true someOutput).2.1 = ((List.replicate 70 (97 : Byte) ++ [10]).map putc).flatten ∧
    (In.run true someOutput).1.take.1 = none := by decide +kernel

/-- Until the host has sent something, everything printed is thrown away. -/
theorem C80_violated_quiet (evs : List InEv) : (In.run false evs).2.2 = [] := by
  unfold In.run
  suffices ∀ (s : In) (os : List Op), s.running = false → (∀ b, s.rdy b = false) → (evs.foldl In.step (s, os, [])).2.2 = [] from
    this _ _ rfl fun _ => rfl
  induction evs with
  | nil => exact fun _ _ _ _ => rfl
  | cons e evs ih =>
    intro s os hr h0
    rw [List.foldl_cons]
    cases e with
    | op o =>
      have ho : s.op o = some s := by cases o <;> simp [In.op, hr]
      have : In.step (s, os, []) (.op o) = (s, os ++ [o], []) := by simp only [In.step, ho]
      rw [this]
      exact ih s _ hr h0
    | take =>
      have : In.step (s, os, []) .take = (s, os, []) := by simp [In.step, In.take, h0]
      rw [this]
      exact ih s _ hr h0
    | isr => exact ih s.isr _ hr h0

end Snek.UsbSamd
