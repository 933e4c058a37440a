import Verif.Proofs.UsbAvr
/-!
# C86: the USB console of the ATmega32U4 boards

A run is any list of events: packets from the host, packets taken by the host, interrupts, calls of the program, and single register accesses of the code, in any
order, so that the host can act between any two of them. `N` is the size of the input queue, 64 on these boards.
-/
namespace Snek.UsbAvr
open UsbSamd

/-! ## Input -/

/-- What the program has read is the beginning of what the device has accepted; the rest is in the device, byte for byte: in the call that is
about to return it, in the queue, in the banks. -/
theorem C86_input {N : Nat} (hN : 0 < N) (evs : List OutEv) :
    ∃ rest, (Out.run N evs).2 ++ rest = (Out.run N evs).1.got ∧
      rest.length = (Out.run N evs).1.ret.toList.length + (Out.run N evs).1.fifo.count + (Out.run N evs).1.banks.flatten.length := by
  refine ⟨_, by simpa only [List.append_assoc] using (Out.run_inv hN evs).all, ?_⟩
  simp only [List.length_append, contents_length]
  omega

/-- A packet is accepted, whole, unless two are waiting. -/
theorem C86_accepts {N : Nat} (evs : List OutEv) {p : List Byte} (hp : p.length ≤ 64) (h2 : (Out.run N evs).1.banks.length < 2) :
    (Out.run N (evs ++ [.packet p])).1.got = (Out.run N evs).1.got ++ p := by
  have e : Out.run N (evs ++ [.packet p]) = ((Out.run N evs).1.packet p, (Out.run N evs).2) := by
    unfold Out.run; rw [List.foldl_append]; simp [Out.ev]
  rw [e]
  unfold Out.packet
  rw [if_pos ⟨h2, hp⟩]

/-- Nothing is stuck: when no interrupt is pending and the program waits for input in vain, it has been given everything the device has accepted. -/
theorem C86_drains {N : Nat} (hN : 0 < N) (evs : List OutEv) (hi : (Out.run N evs).1.pc = .idle)
    (h0 : ((Out.run N evs).1.rxouti && (Out.run N evs).1.rxoute) = false) (he : (Out.run N evs).1.fifo.empty = true) :
    (Out.run N evs).2 = (Out.run N evs).1.got := by
  have h := Out.run_inv hN evs
  generalize Out.run N evs = x at *
  have hc : x.1.fifo.count = 0 := by simpa [Fifo.empty] using he
  have ha := h.at_
  unfold Out.At at ha
  rw [hi] at ha
  obtain ⟨hr, hf | ⟨h1, h2⟩⟩ := ha
  · omega
  · have hb : x.1.banks = [] := by
      by_cases hb : x.1.banks = []
      · exact hb
      · have := h2 hb
        rw [this, h1] at h0; cases h0
    have := h.all
    rw [hr, hb] at this
    simpa [Fifo.contents, hc] using this

/-- The code that empties the banks ends, in any state that a run can reach, if the host does nothing. -/
theorem C86_returns {N : Nat} (hN : 0 < N) (evs : List OutEv) : ∃ n, (Out.run N (evs ++ List.replicate n .step)).1.pc = .idle := by
  suffices ∀ (k : Nat) (evs : List OutEv), (Out.run N evs).1.left ≤ k → ∃ n, (Out.run N (evs ++ List.replicate n .step)).1.pc = .idle from
    this _ evs (Nat.le_refl _)
  intro k
  induction k with
  | zero =>
    intro evs hk
    by_cases hi : (Out.run N evs).1.pc = .idle
    · exact ⟨0, by simpa using hi⟩
    · have := Out.step_left (Out.run_inv hN evs) hi; omega
  | succ k ih =>
    intro evs hk
    by_cases hi : (Out.run N evs).1.pc = .idle
    · exact ⟨0, by simpa using hi⟩
    · have hl := Out.step_left (Out.run_inv hN evs) hi
      have e : (Out.run N (evs ++ [.step])).1 = ((Out.run N evs).1.step N).1 := by
        unfold Out.run; rw [List.foldl_append]; rfl
      obtain ⟨n, hn⟩ := ih (evs ++ [.step]) (by rw [e]; omega)
      refine ⟨n + 1, ?_⟩
      rwa [List.replicate_succ, List.append_cons]

/-- A line in two packets and one more that comes between the register accesses. -/
def someInput : List OutEv :=
  [.packet [104, 105], .packet [10], .irq] ++ List.replicate 12 .step ++ [.packet [121]] ++ List.replicate 22 .step ++
    [.irq] ++ List.replicate 20 .step ++
    ((List.replicate 4 ([OutEv.getc] ++ List.replicate 20 .step)).flatten)

example : (Out.run 64 someInput).2 = [104, 105, 10, 121] ∧ (Out.run 64 someInput).1.pc = .idle ∧
    ((Out.run 64 someInput).1.rxouti && (Out.run 64 someInput).1.rxoute) = false ∧ (Out.run 64 someInput).1.fifo.empty = true ∧
    (Out.run 64 someInput).1.banks.length < 2 := by decide +kernel

/-! ## ^C -/

/-- Unless the queue is full: when no interrupt is pending, a ^C that has arrived has raised the abort flag (if nobody has lowered it). -/
theorem C86_interrupt_partial {N : Nat} (hN : 0 < N) (evs : List OutEv) (hc : ∀ e ∈ evs, e ≠ .clear) (hi : (Out.run N evs).1.pc = .idle)
    (h0 : ((Out.run N evs).1.rxouti && (Out.run N evs).1.rxoute) = false) (hf : (Out.run N evs).1.fifo.count ≠ N)
    (h3 : (3 : Byte) ∈ (Out.run N evs).1.got) : (Out.run N evs).1.abort = true := by
  have h := Out.run_inv hN evs
  refine Out.run_abort hN evs hc ?_
  generalize Out.run N evs = x at *
  have ha := h.at_
  unfold Out.At at ha
  rw [hi] at ha
  obtain ⟨hr, hf' | ⟨h1, h2⟩⟩ := ha
  · exact absurd hf' hf
  · have hb : x.1.banks = [] := by
      by_cases hb : x.1.banks = []
      · exact hb
      · have := h2 hb
        rw [this, h1] at h0; cases h0
    have := h.all
    rw [hb] at this
    rw [← this] at h3
    simpa using h3

/-- ^C never reaches the program without the flag having been raised. -/
theorem C86_interrupt_read {N : Nat} (hN : 0 < N) (evs : List OutEv) (hc : ∀ e ∈ evs, e ≠ .clear) (h3 : (3 : Byte) ∈ (Out.run N evs).2) :
    (Out.run N evs).1.abort = true :=
  Out.run_abort hN evs hc (by simp [h3])

/-- A ^C in the second of two packets is noticed. -/
def someAbort : List OutEv := [.packet [97], .packet [98, 3], .irq] ++ List.replicate 40 .step

example : (∀ e ∈ someAbort, e ≠ .clear) ∧ (Out.run 64 someAbort).1.pc = .idle ∧
    ((Out.run 64 someAbort).1.rxouti && (Out.run 64 someAbort).1.rxoute) = false ∧ (Out.run 64 someAbort).1.fifo.count ≠ 64 ∧
    (3 : Byte) ∈ (Out.run 64 someAbort).1.got := by
  refine ⟨?_, by decide +kernel, by decide +kernel, by decide +kernel, by decide +kernel⟩
  intro e he hc
  subst hc
  simp [someAbort] at he

/-- With 64 bytes that the program does not read, ^C is not noticed. -/
theorem C86_violated_full :
    let evs : List OutEv := [.packet (List.replicate 64 97), .irq] ++ List.replicate 400 .step ++ [.packet [3], .irq] ++ List.replicate 10 .step
    (Out.run 64 evs).1.pc = .idle ∧ (Out.run 64 evs).1.got.getLast? = some 3 ∧ (Out.run 64 evs).1.abort = false := by
  decide +kernel

/-! ## Output -/

/-- Printed text as the host is to get it: each line end as carriage return and line feed. -/
def wire (ops : List Op) : List Byte :=
  ops.flatMap fun o => match o with
    | .putc c => if c = 10 then [13, 10] else [c]
    | .flush => []

theorem opBytes_wire (ops : List Op) : ops.flatMap opBytes = wire ops := by
  unfold wire
  congr 1
  funext o
  cases o with
  | putc c => by_cases h : c = 10 <;> simp [opBytes, acts, Act.bytes, h]
  | flush => rfl

/-- What the host has got is the beginning of what the program has printed, in packets that fit. -/
theorem C86_output (evs : List InEv) :
    (In.run evs).taken.flatten <+: wire (In.run evs).ops ∧ ∀ p ∈ (In.run evs).taken, p.length ≤ 64 := by
  have h := In.run_inv evs
  refine ⟨⟨(In.run evs).queue.flatten ++ (In.run evs).cur ++ (In.run evs).pend, ?_⟩, fun p hp => h.le p (List.mem_append_left _ hp)⟩
  rw [← opBytes_wire, ← h.data]
  simp

/-- After a flush or a line end has returned: everything printed has been handed over, and once the host has taken it, it has got all of it; the last packet is not a full one, which
tells the host that nothing follows. -/
theorem C86_flush (evs : List InEv) (hi : (In.run evs).pc = .idle) {l : List Op} {o : Op} (hl : (In.run evs).ops = l ++ [o]) (ho : o = .flush ∨ o = .putc 10) :
    ((In.run evs).taken ++ (In.run evs).queue).flatten = wire (In.run evs).ops ∧
    ∃ ps p, (In.run evs).taken ++ (In.run evs).queue = ps ++ [p] ∧ p.length < 64 := by
  have h := In.run_inv evs
  have hf : (In.run evs).flushed = true := by
    rcases h.ends ⟨l, o, hl, ho⟩ with ⟨a, ha⟩ | ⟨_, ha⟩
    · rw [h.nil.1 hi] at ha; simp at ha
    · exact ha
  rcases h.fl hf with a | ⟨a, b⟩
  · rw [hi] at a; cases a
  · refine ⟨?_, b⟩
    have := h.data
    rw [a] at this
    rw [← opBytes_wire, ← this]
    simp [In.pend, hi, IPc.late, h.nil.1 hi]

/-- Whenever a call has returned, everything printed is in packets taken, in packets the host may take, or in the current bank. -/
theorem C86_returned (evs : List InEv) (hi : (In.run evs).pc = .idle) :
    ((In.run evs).taken ++ (In.run evs).queue).flatten ++ (In.run evs).cur = wire (In.run evs).ops := by
  have h := In.run_inv evs
  have := h.data
  rw [← opBytes_wire, ← this]
  simp [In.pend, hi, IPc.late, h.nil.1 hi]

/-- The program sleeps only while the host has two packets to take and an interrupt will follow when it takes one, or while this interrupt is pending. -/
theorem C86_waits (evs : List InEv) (hs : (In.run evs).pc = .sleep) :
    (In.run evs).txine = true ∧ ((In.run evs).queue.length = 2 ∨ (In.run evs).txini = true) ∧ (In.run (evs ++ [.take, .irq])).pc = .waitT := by
  have h := In.run_inv evs
  have ha := h.at_
  unfold In.At at ha
  rw [hs] at ha
  have two := h.two
  refine ⟨ha.1, ?_, ?_⟩
  · by_cases hq : (In.run evs).queue.length < 2
    · exact .inr (ha.2 (by simpa [In.free] using hq))
    · exact .inl (by omega)
  · have e : In.run (evs ++ [.take, .irq]) = (In.run evs).take.irq := by unfold In.run; rw [List.foldl_append]; rfl
    rw [e]
    have ht : (In.run evs).take.txini = true := by
      unfold In.take
      cases hq : (In.run evs).queue with
      | nil => exact ha.2 (by simp [In.free, hq])
      | cons p q =>
        show ((In.run evs).txini || !(In.run evs).free) = true
        cases hf : (In.run evs).free
        · simp
        · simp [ha.2 hf]
    have hp : (In.run evs).take.pc = .sleep := by unfold In.take; split <;> exact hs
    have he : (In.run evs).take.txine = true := by unfold In.take; split <;> exact ha.1
    unfold In.irq
    rw [if_pos ⟨.inr hp, he, ht⟩, if_pos hp]

/-- From any state a run can reach, the code comes to the end of the call, or to where it waits for the host. -/
theorem C86_progress (evs : List InEv) : ∃ n, (In.run (evs ++ List.replicate n .step)).pc = .idle ∨ (In.run (evs ++ List.replicate n .step)).pc = .sleep := by
  suffices ∀ (k : Nat) (evs : List InEv), (In.run evs).left ≤ k →
      ∃ n, (In.run (evs ++ List.replicate n .step)).pc = .idle ∨ (In.run (evs ++ List.replicate n .step)).pc = .sleep from this _ evs (Nat.le_refl _)
  intro k
  induction k with
  | zero =>
    intro evs hk
    by_cases hi : (In.run evs).pc = .idle
    · exact ⟨0, .inl (by simpa using hi)⟩
    · by_cases hs : (In.run evs).pc = .sleep
      · exact ⟨0, .inr (by simpa using hs)⟩
      · have := In.step_left (In.run_inv evs) hi hs; omega
  | succ k ih =>
    intro evs hk
    by_cases hi : (In.run evs).pc = .idle
    · exact ⟨0, .inl (by simpa using hi)⟩
    · by_cases hs : (In.run evs).pc = .sleep
      · exact ⟨0, .inr (by simpa using hs)⟩
      · have hl := In.step_left (In.run_inv evs) hi hs
        have e : In.run (evs ++ [.step]) = (In.run evs).step := by unfold In.run; rw [List.foldl_append]; rfl
        obtain ⟨n, hn⟩ := ih (evs ++ [.step]) (by rw [e]; omega)
        refine ⟨n + 1, ?_⟩
        rwa [List.replicate_succ, List.append_cons]

/-- Two empty lines fill the banks; the third line has to wait for the host. -/
def someOutput : List InEv := (List.replicate 2 ([InEv.call (.putc 10)] ++ List.replicate 20 .step)).flatten ++ [.call (.putc 97)] ++ List.replicate 10 .step

example : (In.run someOutput).pc = .sleep ∧ (In.run someOutput).queue = [[13, 10], [13, 10]] := by decide +kernel

def someLine : List InEv := someOutput ++ [.take, .irq] ++ List.replicate 10 .step ++ [.call (.putc 10)] ++ List.replicate 30 .step

example : (In.run someLine).pc = .idle ∧ (In.run someLine).taken = [[13, 10]] ∧ (In.run someLine).ops = [.putc 10, .putc 10, .putc 97, .putc 10] ∧
    (In.run someLine).queue = [[13, 10], [97, 13, 10]] := by decide +kernel

/-- An empty packet can come between: the host takes a packet between the read and the write of the acknowledgement. The text is not affected. -/
example : ∃ evs, [] ∈ (In.run evs).queue ∧ (In.run evs).ops = [.putc 10, .putc 10, .putc 97] :=
  ⟨(List.replicate 2 ([InEv.call (.putc 10)] ++ List.replicate 20 .step)).flatten ++ [.call (.putc 97)] ++ List.replicate 4 .step ++ [.take, .step],
    by decide +kernel⟩

end Snek.UsbAvr
