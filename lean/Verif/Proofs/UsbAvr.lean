import Verif.Model.UsbAvr
import Verif.Proofs.UsbSamd
/-! # The USB console of the ATmega32U4 boards: invariants -/
namespace Snek.UsbAvr
open UsbSamd

/-! ## Input -/

/-- Every packet of the hardware is one a processor will see: at rest the queue is full, or the interrupt is on and pending if there is a packet. -/
def Out.Armed (s : Out) : Prop := s.banks ≠ [] → s.rxouti = true

/-- What holds at each step of `_ao_usb_fifo_check`. -/
def Out.At (N : Nat) (s : Out) : Prop :=
  match s.pc with
  | .idle => s.ret = none ∧ (s.fifo.count = N ∨ (s.rxoute = true ∧ s.Armed))
  | .top => True
  | .sample => s.fifo.count < N
  | .rmw rx => s.fifo.count < N ∧ (rx = true → s.rxouti = true) ∧ ∃ b, s.banks = [] :: b
  | .write rx r => s.fifo.count < N ∧ (rx = true → r = true) ∧ (r = true → s.rxouti = true) ∧ ∃ b, s.banks = [] :: b
  | .enable => s.fifo.count < N ∧ s.Armed
  | .ack => s.fifo.count < N ∧ s.rxouti = true
  | .pull => s.fifo.count < N ∧ ∃ c p b, s.banks = (c :: p) :: b

structure Out.Inv (N : Nat) (s : Out) (read : List Byte) : Prop where
  room : s.fifo.count ≤ N
  rem : s.fifo.remove < N
  two : s.banks.length ≤ 2
  at_ : s.At N
  all : read ++ s.ret.toList ++ s.fifo.contents N ++ s.banks.flatten = s.got

theorem Out.Inv.init {N : Nat} (h : 0 < N) : Out.init.Inv N [] := by
  refine ⟨Nat.zero_le _, h, by decide, ?_, by simp [Out.init, Fifo.contents]⟩
  exact ⟨rfl, .inr ⟨rfl, fun h => absurd rfl h⟩⟩

theorem armed_packet {s : Out} {p : List Byte} (h : s.Armed) : Out.Armed { s with banks := s.banks ++ [p], rxouti := s.rxouti || s.banks.isEmpty, got := s.got ++ p } := by
  intro _
  cases hb : s.banks with
  | nil => simp
  | cons a b => have := h (by rw [hb]; simp); simp [this]

theorem Out.Inv.packet {N : Nat} {s : Out} {read : List Byte} (h : s.Inv N read) (p : List Byte) : (s.packet p).Inv N read := by
  unfold Out.packet
  split
  · rename_i hc
    refine ⟨h.room, h.rem, by simp; omega, ?_, ?_⟩
    · have ha := h.at_
      unfold Out.At at *
      revert ha
      cases hp : s.pc with
      | idle => rintro ⟨a, b | ⟨b, c⟩⟩
                · exact ⟨a, .inl b⟩
                · exact ⟨a, .inr ⟨b, armed_packet c⟩⟩
      | top => exact id
      | sample => exact id
      | rmw rx => rintro ⟨a, b, c, d⟩; exact ⟨a, fun x => by simp [b x], by simp [d]⟩
      | write rx r => rintro ⟨a, b, c, d, e⟩; exact ⟨a, b, fun x => by simp [c x], by simp [e]⟩
      | enable => rintro ⟨a, b⟩; exact ⟨a, armed_packet b⟩
      | ack => rintro ⟨a, b⟩; exact ⟨a, by simp [b]⟩
      | pull => rintro ⟨a, c, p, b, e⟩; exact ⟨a, by simp [e]⟩
    · have := h.all
      simp only [List.flatten_append, List.flatten_cons, List.flatten_nil, List.append_nil]
      rw [← this]; simp
  · exact h

theorem Out.Inv.irq {N : Nat} {s : Out} {read : List Byte} (h : s.Inv N read) : s.irq.Inv N read := by
  unfold Out.irq
  split
  · exact ⟨h.room, h.rem, h.two, trivial, h.all⟩
  · exact h

theorem Out.Inv.getc {N : Nat} {s : Out} {read : List Byte} (h : s.Inv N read) : (s.getc N).Inv N read := by
  unfold Out.getc
  split
  · rename_i hc
    have ha := h.at_
    unfold Out.At at ha
    rw [hc.1] at ha
    have h0 : 0 < s.fifo.count := by
      have := hc.2; unfold Fifo.empty at this; simp at this; omega
    have ht := take_contents (N := N) h0 h.rem
    have hN := h.rem
    refine ⟨?_, ?_, h.two, trivial, ?_⟩
    · have := h.room; simp only [Fifo.take]; omega
    · simp only [Fifo.take]; exact Nat.mod_lt _ (by omega)
    · have e := h.all
      rw [ha.1, ht] at e
      simpa using e
  · exact h

theorem Out.Inv.flag {N : Nat} {s : Out} {read : List Byte} (h : s.Inv N read) : Out.Inv N { s with rxouti := true } read := by
  refine ⟨h.room, h.rem, h.two, ?_, h.all⟩
  have ha := h.at_
  unfold Out.At Out.Armed at *
  revert ha
  cases s.pc with
  | idle => rintro ⟨a, b | ⟨b, c⟩⟩
            · exact ⟨a, .inl b⟩
            · exact ⟨a, .inr ⟨b, fun _ => rfl⟩⟩
  | _ => simp <;> intros <;> simp_all

theorem Out.Inv.step {N : Nat} {s : Out} {read : List Byte} (h : s.Inv N read) : (s.step N).1.Inv N (read ++ (s.step N).2.toList) := by
  have ha := h.at_
  have hroom := h.room
  have two := h.two
  have all := h.all
  unfold Out.step
  unfold Out.At at ha
  cases hp : s.pc with
  | idle => dsimp only; simpa using h
  | top =>
    dsimp only
    split
    · rename_i hf
      exact ⟨h.room, h.rem, h.two, ⟨rfl, .inl hf⟩, by simpa [Out.leave] using all⟩
    · refine ⟨h.room, h.rem, h.two, ?_, by simpa using all⟩
      show s.fifo.count < N
      omega
  | sample =>
    rw [hp] at ha
    dsimp only
    split
    · rename_i c p b hb
      exact ⟨h.room, h.rem, h.two, ⟨ha, _, _, _, hb⟩, by simpa using all⟩
    · rename_i b hb
      exact ⟨h.room, h.rem, h.two, ⟨ha, id, _, hb⟩, by simpa using all⟩
    · rename_i hb
      refine ⟨h.room, h.rem, h.two, ?_, by simpa using all⟩
      unfold Out.At
      by_cases hr : s.rxouti = true
      · rw [if_pos hr]; exact ⟨ha, hr⟩
      · rw [if_neg hr]; exact ⟨ha, fun x => absurd hb x⟩
  | rmw rx =>
    rw [hp] at ha
    dsimp only
    exact ⟨h.room, h.rem, h.two, ⟨ha.1, ha.2.1, id, ha.2.2⟩, by simpa using all⟩
  | write rx r =>
    rw [hp] at ha
    dsimp only
    obtain ⟨a, b, c, t, e⟩ := ha
    refine ⟨h.room, h.rem, ?_, ?_, ?_⟩
    · simp only [Out.release, e, List.tail_cons]; rw [e] at two; simp at two; omega
    · unfold Out.At
      cases hx : rx
      · refine ⟨a, ?_⟩
        simp only [Out.Armed, Out.release, e, List.tail_cons]
        intro hne
        cases t <;> simp_all
      · have := b hx
        refine ⟨a, ?_⟩
        simp [Out.release, c this, this]
    · rw [e] at all
      simpa [Out.release, e] using all
  | enable =>
    rw [hp] at ha
    dsimp only
    exact ⟨h.room, h.rem, h.two, ⟨rfl, .inr ⟨rfl, ha.2⟩⟩, by simpa [Out.leave] using all⟩
  | ack =>
    rw [hp] at ha
    dsimp only
    exact ⟨h.room, h.rem, h.two, ha.1, by simpa using all⟩
  | pull =>
    rw [hp] at ha
    dsimp only
    obtain ⟨a, c, p, b, e⟩ := ha
    rw [e]
    refine ⟨?_, h.rem, ?_, trivial, ?_⟩
    · simp only [Fifo.insert]; omega
    · rw [e] at two; simpa using two
    · rw [e] at all
      simp only [insert_contents c a]
      simpa using all

theorem Out.run_inv {N : Nat} (hN : 0 < N) (evs : List OutEv) : (Out.run N evs).1.Inv N (Out.run N evs).2 := by
  have key : ∀ (evs : List OutEv) (x : Out × List Byte), x.1.Inv N x.2 →
      (evs.foldl (fun x e => ((x.1.ev N e).1, x.2 ++ (x.1.ev N e).2.toList)) x).1.Inv N
        (evs.foldl (fun x e => ((x.1.ev N e).1, x.2 ++ (x.1.ev N e).2.toList)) x).2 := by
    intro evs
    induction evs with
    | nil => intro x h; exact h
    | cons e es ih =>
      intro x h
      apply ih
      cases e with
      | packet p => simpa [Out.ev] using h.packet p
      | flag => simpa [Out.ev] using h.flag
      | irq => simpa [Out.ev] using h.irq
      | getc => simpa [Out.ev] using h.getc
      | step => exact h.step
      | clear =>
        simp only [Out.ev, Option.toList_none, List.append_nil]
        exact ⟨h.room, h.rem, h.two, h.at_, h.all⟩
  exact key evs _ (Out.Inv.init hN)

/-- What is left to do for `_ao_usb_fifo_check` if nothing arrives. -/
def Out.left (s : Out) : Nat :=
  (match s.pc with
    | .idle => 0 | .top => 4 | .sample => 3 | .rmw _ => 2 | .write _ _ => 1 | .enable => 1 | .ack => 2 | .pull => 2) +
  3 * s.banks.flatten.length + 4 * s.banks.length + (if s.rxouti then 2 else 0)

theorem Out.step_left {N : Nat} {s : Out} {read : List Byte} (h : s.Inv N read) (hp : s.pc ≠ .idle) : (s.step N).1.left < s.left := by
  have ha := h.at_
  unfold Out.At at ha
  unfold Out.step
  cases hq : s.pc with
  | idle => exact absurd hq hp
  | top => dsimp only; cases hr : s.rxouti <;> split <;> simp [Out.left, Out.leave, hq, hr] <;> try omega
  | sample =>
    dsimp only
    split
    · simp [Out.left, hq] <;> try omega
    · simp [Out.left, hq] <;> try omega
    · cases hr : s.rxouti <;> simp [Out.left, hq, hr] <;> try omega
  | rmw rx => simp [Out.left, hq] <;> try omega
  | write rx r =>
    rw [hq] at ha
    obtain ⟨a, b, c, t, e⟩ := ha
    dsimp only
    cases hx : rx
    · cases hr : r <;> cases hi : s.rxouti <;> cases t <;> simp_all [Out.left, Out.release] <;> omega
    · have := b hx
      have := c this
      simp_all [Out.left, Out.release]
      omega
  | enable => cases hr : s.rxouti <;> simp [Out.left, Out.leave, hq, hr] <;> try omega
  | ack =>
    rw [hq] at ha
    simp [Out.left, hq, ha.2]
    omega
  | pull =>
    rw [hq] at ha
    obtain ⟨a, c, p, b, e⟩ := ha
    dsimp only
    rw [e]
    simp [Out.left, hq, e]
    omega

/-! ### ^C -/

/-- If the flag is never cleared, every ^C that has left the banks has set it. -/
theorem Out.run_abort {N : Nat} (hN : 0 < N) (evs : List OutEv) (hc : ∀ e ∈ evs, e ≠ .clear) :
    (3 : Byte) ∈ (Out.run N evs).2 ++ (Out.run N evs).1.ret.toList ++ (Out.run N evs).1.fifo.contents N → (Out.run N evs).1.abort = true := by
  have key : ∀ (evs : List OutEv) (x : Out × List Byte), (∀ e ∈ evs, e ≠ .clear) → x.1.Inv N x.2 →
      ((3 : Byte) ∈ x.2 ++ x.1.ret.toList ++ x.1.fifo.contents N → x.1.abort = true) →
      ((3 : Byte) ∈ (evs.foldl (fun x e => ((x.1.ev N e).1, x.2 ++ (x.1.ev N e).2.toList)) x).2 ++
        (evs.foldl (fun x e => ((x.1.ev N e).1, x.2 ++ (x.1.ev N e).2.toList)) x).1.ret.toList ++
        (evs.foldl (fun x e => ((x.1.ev N e).1, x.2 ++ (x.1.ev N e).2.toList)) x).1.fifo.contents N →
        (evs.foldl (fun x e => ((x.1.ev N e).1, x.2 ++ (x.1.ev N e).2.toList)) x).1.abort = true) := by
    intro evs
    induction evs with
    | nil => intro x _ _ h; exact h
    | cons e es ih =>
      intro x hc hi h
      rw [List.foldl_cons]
      refine ih _ (fun e he => hc e (List.mem_cons_of_mem _ he)) ?_ ?_
      · cases e with
        | packet p => simpa [Out.ev] using hi.packet p
        | flag => simpa [Out.ev] using hi.flag
        | irq => simpa [Out.ev] using hi.irq
        | getc => simpa [Out.ev] using hi.getc
        | step => exact hi.step
        | clear => exact absurd rfl (hc _ List.mem_cons_self)
      · cases e with
        | packet p =>
          simp only [Out.ev, Option.toList_none, List.append_nil]
          unfold Out.packet
          split <;> exact h
        | flag => simpa [Out.ev] using h
        | irq =>
          simp only [Out.ev, Option.toList_none, List.append_nil]
          unfold Out.irq
          split <;> exact h
        | getc =>
          simp only [Out.ev, Option.toList_none, List.append_nil]
          unfold Out.getc
          split
          · rename_i hg
            have ha := hi.at_
            unfold Out.At at ha
            rw [hg.1] at ha
            have h0 : 0 < x.1.fifo.count := by
              have := hg.2; unfold Fifo.empty at this; simp at this; omega
            have ht := take_contents (N := N) h0 hi.rem
            rw [ht, ha.1] at h
            simpa using h
          · exact h
        | step =>
          have ha := hi.at_
          unfold Out.At at ha
          simp only [Out.ev, Out.step]
          cases hp : x.1.pc with
          | idle => simpa [hp] using h
          | top => dsimp only; split <;> simpa [Out.leave] using h
          | sample => dsimp only; split <;> simpa using h
          | rmw rx => simpa [hp] using h
          | write rx r => simpa [hp, Out.release] using h
          | enable => simpa [hp, Out.leave] using h
          | ack => simpa [hp] using h
          | pull =>
            rw [hp] at ha
            obtain ⟨a, c, p, b, e⟩ := ha
            simp only [e]
            simp only [insert_contents c a]
            intro hm
            simp only [Option.toList_none, List.append_nil, ← List.append_assoc, List.mem_append, List.mem_singleton] at hm h
            rcases hm with hm | hm
            · rw [h hm]; rfl
            · rw [← hm]; simp
        | clear => exact absurd rfl (hc _ List.mem_cons_self)
  exact key evs _ hc (Out.Inv.init hN) (by simp [Out.init, Fifo.contents])

/-! ## Output -/

/-- The bytes an act writes. -/
def Act.bytes : Act → List Byte
  | .put c => [c]
  | .flush => []

/-- The bytes of all acts of a call. -/
def opBytes (o : Op) : List Byte := (acts o).flatMap Act.bytes

/-- The byte of the current act has been written. -/
def IPc.late : IPc → Bool
  | .full | .sendR | .sendW _ | .fin => true
  | _ => false

/-- The bytes of the call that are still to be written. -/
def In.pend (s : In) : List Byte := if s.pc.late then s.todo.tail.flatMap Act.bytes else s.todo.flatMap Act.bytes

/-- Everything is in packets and the last of them is short. -/
def In.Short (s : In) : Prop := s.cur = [] ∧ ∃ l p, s.taken ++ s.queue = l ++ [p] ∧ p.length < 64

def In.At (s : In) : Prop :=
  match s.pc with
  | .waitT | .waitE => s.free = true → s.txini = true
  | .sleep => s.txine = true ∧ (s.free = true → s.txini = true)
  | .ackR => s.txini = true
  | .ackW fc => s.txini = true ∧ (fc = false → s.cur = [])
  | .data => s.rwal = true ∧ ∃ c t, s.todo = .put c :: t
  | .full => s.free = true ∧ ∃ c t, s.todo = .put c :: t
  | .sendR | .sendW _ => s.free = true ∧ ∀ t, s.todo = .flush :: t → s.cur.length < 64 ∧ s.flushed = true
  | .fin => ∀ t, s.todo = .flush :: t → s.flushed = true ∧ s.Short
  | _ => True

/-- Ends in a call that flushes. -/
def Flushes (ops : List Op) : Prop := ∃ l o, ops = l ++ [o] ∧ (o = .flush ∨ o = .putc 10)

structure In.Inv (s : In) : Prop where
  two : s.queue.length ≤ 2
  busy : s.queue.length = 2 → s.cur = []
  c64 : s.cur.length ≤ 64
  small : s.pc.late = false ∨ s.pc = .fin → s.cur.length < 64
  le : ∀ p ∈ s.taken ++ s.queue, p.length ≤ 64
  data : (s.taken ++ s.queue).flatten ++ s.cur ++ s.pend = s.ops.flatMap opBytes
  nil : s.pc = .idle ↔ s.todo = []
  at_ : s.At
  fl : s.flushed = true → s.pc.late = true ∨ s.Short
  ends : Flushes s.ops → (∃ l, s.todo = l ++ [.flush]) ∨ (s.pc = .idle ∧ s.flushed = true)

theorem In.Inv.init : In.init.Inv :=
  ⟨by decide, by decide, by decide, by decide, by simp [In.init], by simp [In.init, In.pend, IPc.late], by simp [In.init], trivial, by simp [In.init],
    fun ⟨l, o, h, _⟩ => by cases l <;> simp [In.init] at h⟩

theorem In.Inv.flag {s : In} (h : s.Inv) : In.Inv { s with txini := true } := by
  refine ⟨h.two, h.busy, h.c64, h.small, h.le, h.data, h.nil, ?_, h.fl, h.ends⟩
  have ha := h.at_
  unfold In.At at *
  revert ha
  cases s.pc <;> simp <;> intros <;> simp_all [In.rwal, In.free, In.Short]

theorem In.Inv.take {s : In} (h : s.Inv) : s.take.Inv := by
  unfold In.take
  split
  · exact h
  · rename_i p q hq
    have e : s.taken ++ [p] ++ q = s.taken ++ s.queue := by rw [hq]; simp
    have two := h.two
    rw [hq] at two
    simp at two
    have fr : q.length < 2 := by omega
    have sh : s.Short → In.Short { s with queue := q, taken := s.taken ++ [p], txini := s.txini || !s.free } := by
      rintro ⟨a, b⟩
      exact ⟨a, by show ∃ l p_1, s.taken ++ [p] ++ q = _ ∧ _; rw [e]; exact b⟩
    refine ⟨by show q.length ≤ 2; omega, fun hh => ?_, h.c64, h.small, by show ∀ x ∈ s.taken ++ [p] ++ q, _; rw [e]; exact h.le, ?_, h.nil, ?_, ?_, h.ends⟩
    · change q.length = 2 at hh; omega
    · show (s.taken ++ [p] ++ q).flatten ++ s.cur ++ _ = _
      rw [e]; exact h.data
    · have ha := h.at_
      unfold In.At at *
      have fq : In.free { s with queue := q, taken := s.taken ++ [p], txini := s.txini || !s.free } = true := by simp [In.free]; omega
      have tx : (s.free = true → s.txini = true) → (s.txini || !s.free) = true := by cases s.free <;> simp
      have rw_ : s.rwal = true → In.rwal { s with queue := q, taken := s.taken ++ [p], txini := s.txini || !s.free } = true := by
        unfold In.rwal; rw [fq]; simp
      revert ha
      cases hp : s.pc <;> dsimp only
      case waitT => exact fun a _ => tx a
      case waitE => exact fun a _ => tx a
      case sleep => exact fun a => ⟨a.1, fun _ => tx a.2⟩
      case ackR => intro a; simp [a]
      case ackW => intro a; exact ⟨by simp [a.1], a.2⟩
      case data => exact fun a => ⟨rw_ a.1, a.2⟩
      case full => exact fun a => ⟨fq, a.2⟩
      case sendR => exact fun a => ⟨fq, a.2⟩
      case sendW => exact fun a => ⟨fq, a.2⟩
      case fin => exact fun a t ht => ⟨(a t ht).1, sh (a t ht).2⟩
      all_goals exact id
    · intro hf
      rcases h.fl hf with a | a
      · exact .inl a
      · exact .inr (sh a)

theorem In.Inv.irq {s : In} (h : s.Inv) : s.irq.Inv := by
  unfold In.irq
  split
  · rename_i hc
    obtain ⟨hp, -, ht⟩ := hc
    by_cases hs : s.pc = .sleep
    · rw [if_pos hs]
      refine ⟨h.two, h.busy, h.c64, fun _ => h.small (.inl (by rw [hs]; rfl)), h.le, ?_, ?_, fun _ => ht, ?_, ?_⟩
      · have := h.data
        simpa [In.pend, hs, IPc.late] using this
      · have := h.nil
        rw [hs] at this
        simpa using this
      · intro hf
        rcases h.fl hf with a | a
        · rw [hs] at a; cases a
        · exact .inr a
      · intro he
        rcases h.ends he with a | ⟨a, -⟩
        · exact .inl a
        · rw [hs] at a; cases a
    · have hi : s.pc = .idle := hp.resolve_right hs
      rw [if_neg hs]
      refine ⟨h.two, h.busy, h.c64, h.small, h.le, h.data, h.nil, ?_, h.fl, h.ends⟩
      unfold In.At
      simp only [hi]
  · exact h

theorem In.Inv.wake {s : In} (h : s.Inv) : s.wake.Inv := by
  unfold In.wake
  split
  · rename_i hs
    have ha := h.at_
    unfold In.At at ha
    rw [hs] at ha
    refine ⟨h.two, h.busy, h.c64, fun _ => h.small (.inl (by rw [hs]; rfl)), h.le, ?_, ?_, ha.2, ?_, ?_⟩
    · have := h.data
      simpa [In.pend, hs, IPc.late] using this
    · have := h.nil
      rw [hs] at this
      simpa using this
    · intro hf
      rcases h.fl hf with a | a
      · rw [hs] at a; cases a
      · exact .inr a
    · intro he
      rcases h.ends he with a | ⟨a, -⟩
      · exact .inl a
      · rw [hs] at a; cases a
  · exact h

theorem In.Inv.call {s : In} (h : s.Inv) (o : Op) : (s.call o).Inv := by
  unfold In.call
  split
  · rename_i hp
    have ht := h.nil.1 hp
    refine ⟨h.two, h.busy, h.c64, fun _ => h.small (.inl (by rw [hp]; rfl)), h.le, ?_, ?_, trivial, ?_, ?_⟩
    · have := h.data
      simp only [In.pend, hp, ht, IPc.late] at this
      simp only [In.pend, IPc.late, List.flatMap_append]
      rw [← this]
      simp [opBytes]
    · constructor
      · intro hh; cases hh
      · intro hh
        cases o with
        | flush => cases hh
        | putc c => simp only [acts] at hh; split at hh <;> cases hh
    · intro hf
      rcases h.fl hf with a | a
      · rw [hp] at a; cases a
      · exact .inr a
    · rintro ⟨l, o', e, ho⟩
      have : o = o' := by
        have := congrArg List.getLast? e
        simpa using this
      subst this
      left
      rcases ho with rfl | rfl
      · exact ⟨[], rfl⟩
      · exact ⟨[.put 13, .put 10], rfl⟩
  · exact h

/-- Back to the program or on to the next act. -/
theorem In.Inv.next {s : In} (two : s.queue.length ≤ 2) (busy : s.queue.length = 2 → s.cur = []) (small : s.cur.length < 64)
    (le : ∀ p ∈ s.taken ++ s.queue, p.length ≤ 64) {a : Act} {t : List Act} (ht : s.todo = a :: t)
    (data : (s.taken ++ s.queue).flatten ++ s.cur ++ t.flatMap Act.bytes = s.ops.flatMap opBytes)
    (fl : s.flushed = true → s.Short) (ends : Flushes s.ops → ∃ l, s.todo = l ++ [.flush]) (last : a = .flush → s.flushed = true) : s.next.Inv := by
  unfold In.next
  rw [ht]
  cases t with
  | nil =>
    refine ⟨two, busy, by show s.cur.length ≤ 64; omega, fun _ => small, le, ?_, by simp, trivial, fun hf => .inr (fl hf), ?_⟩
    · simpa [In.pend, IPc.late] using data
    · intro he
      obtain ⟨l, hl⟩ := ends he
      rw [ht] at hl
      have := congrArg List.getLast? hl
      simp at this
      exact .inr ⟨rfl, last this⟩
  | cons b t =>
    refine ⟨two, busy, by show s.cur.length ≤ 64; omega, fun _ => small, le, ?_, by simp, trivial, fun hf => .inr (fl hf), ?_⟩
    · simpa [In.pend, IPc.late] using data
    · intro he
      obtain ⟨l, hl⟩ := ends he
      rw [ht] at hl
      left
      cases l with
      | nil => simp at hl
      | cons x l => simp at hl; exact ⟨l, hl.2⟩

/-- The same state elsewhere, not late. -/
theorem In.Inv.goto {s : In} (h : s.Inv) (hl : s.pc.late = false) (hi : s.pc ≠ .idle) {pc : IPc} (hl' : pc.late = false) (hi' : pc ≠ .idle)
    (ha : In.At { s with pc := pc }) : In.Inv { s with pc := pc } := by
  refine ⟨h.two, h.busy, h.c64, fun _ => h.small (.inl hl), h.le, ?_, ?_, ha, ?_, ?_⟩
  · have := h.data
    simp only [In.pend, hl] at this
    simpa only [In.pend, hl'] using this
  · constructor
    · intro hh; exact absurd hh hi'
    · intro hh; exact absurd (h.nil.2 hh) hi
  · intro hf
    rcases h.fl hf with a | a
    · rw [hl] at a; cases a
    · exact .inr a
  · intro he
    rcases h.ends he with a | ⟨a, -⟩
    · exact .inl a
    · exact absurd a hi

theorem In.Inv.step {s : In} (h : s.Inv) : s.step.Inv := by
  have ha := h.at_
  unfold In.At at ha
  unfold In.step
  cases hp : s.pc with
  | idle => exact h
  | sleep => exact h
  | start =>
    dsimp only
    have hne : s.todo ≠ [] := fun hh => by have := h.nil.2 hh; rw [hp] at this; cases this
    have en : Flushes s.ops → ∃ l, s.todo = l ++ [.flush] := fun he => by
      rcases h.ends he with a | ⟨a, -⟩
      · exact a
      · rw [hp] at a; cases a
    split
    · rename_i t ht
      split
      · rename_i hf
        refine In.Inv.next h.two h.busy (h.small (.inl (by rw [hp]; rfl))) h.le ht ?_ ?_ en (fun _ => hf)
        · have := h.data
          simpa [In.pend, hp, IPc.late, ht, Act.bytes] using this
        · intro hf
          rcases h.fl hf with a | a
          · rw [hp] at a; cases a
          · exact a
      · exact h.goto (by rw [hp]; rfl) (by rw [hp]; decide) rfl (by decide) trivial
    · exact h.goto (by rw [hp]; rfl) (by rw [hp]; decide) rfl (by decide) trivial
    · exact absurd ‹_› hne
  | waitR =>
    dsimp only
    have hne : s.todo ≠ [] := fun hh => by have := h.nil.2 hh; rw [hp] at this; cases this
    have sm := h.small (.inl (by rw [hp]; rfl))
    have en : Flushes s.ops → ∃ l, s.todo = l ++ [.flush] := fun he => by
      rcases h.ends he with a | ⟨a, -⟩
      · exact a
      · rw [hp] at a; cases a
    split
    · rename_i hr
      have hfree : s.free = true := by unfold In.rwal at hr; simp at hr; exact hr.1
      split
      · rename_i t ht
        split
        · rename_i hf
          refine In.Inv.next h.two h.busy sm h.le ht ?_ ?_ en (fun _ => hf)
          · have := h.data
            simpa [In.pend, hp, IPc.late, ht, Act.bytes] using this
          · intro hf
            rcases h.fl hf with a | a
            · rw [hp] at a; cases a
            · exact a
        · refine ⟨h.two, h.busy, h.c64, fun _ => sm, h.le, ?_, ?_, ⟨hfree, fun _ _ => ⟨sm, rfl⟩⟩, fun _ => .inl rfl, fun he => .inl (en he)⟩
          · have := h.data
            simpa [In.pend, hp, IPc.late, ht, Act.bytes] using this
          · constructor
            · intro hh; cases hh
            · intro hh; exact absurd hh hne
      · rename_i hx
        refine h.goto (by rw [hp]; rfl) (by rw [hp]; decide) rfl (by decide) ⟨hr, ?_⟩
        cases ht : s.todo with
        | nil => exact absurd ht hne
        | cons a t =>
          cases a with
          | put c => exact ⟨c, t, rfl⟩
          | flush => exact absurd ht (hx t)
    · rename_i hr
      refine h.goto (by rw [hp]; rfl) (by rw [hp]; decide) rfl (by decide) ?_
      intro hf
      exfalso
      apply hr
      unfold In.rwal
      rw [show s.free = true from hf]
      simpa using sm
  | waitT =>
    rw [hp] at ha
    dsimp only
    by_cases ht : s.txini = true
    · rw [if_pos ht]; exact h.goto (pc := .ackR) (by rw [hp]; rfl) (by rw [hp]; decide) rfl (by decide) ht
    · rw [if_neg ht]; exact h.goto (pc := .waitE) (by rw [hp]; rfl) (by rw [hp]; decide) rfl (by decide) ha
  | waitE =>
    rw [hp] at ha
    dsimp only
    have g := h.goto (pc := .start) (by rw [hp]; rfl) (by rw [hp]; decide) rfl (by decide) trivial
    refine ⟨g.two, g.busy, g.c64, fun _ => g.small (.inl rfl), g.le, g.data, ?_, ⟨rfl, ha⟩, ?_, ?_⟩
    · have := g.nil; simpa using this
    · intro hf
      rcases g.fl hf with a | a
      · cases a
      · exact .inr a
    · intro he
      rcases g.ends he with a | ⟨a, -⟩
      · exact .inl a
      · cases a
  | ackR =>
    rw [hp] at ha
    dsimp only
    refine h.goto (by rw [hp]; rfl) (by rw [hp]; decide) rfl (by simp) ⟨ha, ?_⟩
    intro hf
    have two := h.two
    apply h.busy
    unfold In.free at hf
    simp at hf
    omega
  | ackW fc =>
    rw [hp] at ha
    dsimp only
    have g := h.goto (pc := .waitR) (by rw [hp]; rfl) (by rw [hp]; simp) rfl (by decide) trivial
    split
    · exact ⟨g.two, g.busy, g.c64, g.small, g.le, g.data, g.nil, trivial, g.fl, g.ends⟩
    · rename_i hf
      have hc := ha.2 (by simpa using hf)
      unfold In.release
      split
      · rename_i hfr
        have hfr : s.queue.length < 2 := by simpa [In.free] using hfr
        refine ⟨?_, fun _ => rfl, by simp, fun _ => by simp, ?_, ?_, g.nil, trivial, ?_, g.ends⟩
        · simp; omega
        · intro p hpm
          simp only [hc, ← List.append_assoc, List.mem_append, List.mem_singleton] at hpm
          rcases hpm with hpm | rfl
          · exact g.le p (by simpa using hpm)
          · simp
        · have := g.data
          simpa [hc, In.pend, IPc.late] using this
        · intro _
          refine .inr ⟨rfl, s.taken ++ s.queue, [], ?_, by simp⟩
          simp [hc]
      · exact ⟨g.two, g.busy, g.c64, g.small, g.le, g.data, g.nil, trivial, g.fl, g.ends⟩
  | data =>
    rw [hp] at ha
    obtain ⟨hr, c, t, ht⟩ := ha
    have hr' := hr
    unfold In.rwal at hr'
    simp at hr'
    dsimp only
    rw [ht]
    dsimp only
    rw [if_pos hr]
    refine ⟨h.two, ?_, ?_, ?_, h.le, ?_, ?_, ⟨hr'.1, c, t, rfl⟩, fun _ => .inl rfl, ?_⟩
    · intro hq
      have := hr'.1
      simp [In.free] at this
      dsimp only at hq
      omega
    · simp; omega
    · intro hh; rcases hh with hh | hh <;> cases hh
    · have := h.data
      simpa [In.pend, hp, IPc.late, ht, Act.bytes] using this
    · simp
    · intro he
      rcases h.ends he with a | ⟨a, -⟩
      · rw [ht] at a; exact .inl a
      · rw [hp] at a; cases a
  | full =>
    rw [hp] at ha
    obtain ⟨hf, c, t, ht⟩ := ha
    dsimp only
    have en : Flushes s.ops → ∃ l, s.todo = l ++ [.flush] := fun he => by
      rcases h.ends he with a | ⟨a, -⟩
      · exact a
      · rw [hp] at a; cases a
    have da : (s.taken ++ s.queue).flatten ++ s.cur ++ s.todo.tail.flatMap Act.bytes = s.ops.flatMap opBytes := by
      have := h.data
      simpa [In.pend, hp, IPc.late] using this
    split
    · rename_i hr
      have hr' := hr
      unfold In.rwal at hr'
      simp at hr'
      refine ⟨h.two, h.busy, h.c64, fun _ => hr'.2, h.le, da, by simp [ht], ?_, fun _ => .inl rfl, fun he => .inl (en he)⟩
      intro t' ht'
      change s.todo = _ at ht'
      rw [ht] at ht'
      cases ht'
    · refine ⟨h.two, h.busy, h.c64, ?_, h.le, da, by simp [ht], ⟨hf, ?_⟩, fun _ => .inl rfl, fun he => .inl (en he)⟩
      · intro hh; rcases hh with hh | hh <;> cases hh
      · intro t' ht'
        change s.todo = _ at ht'
        rw [ht] at ht'
        cases ht'
  | sendR =>
    rw [hp] at ha
    dsimp only
    have hne : s.todo ≠ [] := fun hh => by have := h.nil.2 hh; rw [hp] at this; cases this
    refine ⟨h.two, h.busy, h.c64, ?_, h.le, ?_, ?_, ha, fun _ => .inl rfl, ?_⟩
    · intro hh; rcases hh with hh | hh <;> cases hh
    · have := h.data
      simpa [In.pend, hp, IPc.late] using this
    · simpa using hne
    · intro he
      rcases h.ends he with a | ⟨a, -⟩
      · exact .inl a
      · rw [hp] at a; cases a
  | sendW r =>
    rw [hp] at ha
    obtain ⟨hf, hx⟩ := ha
    dsimp only
    have hne : s.todo ≠ [] := fun hh => by have := h.nil.2 hh; rw [hp] at this; cases this
    unfold In.release
    rw [if_pos (show In.free { s with txini := s.txini && r, pc := .sendW r } = true from hf)]
    have hq : s.queue.length < 2 := by simpa [In.free] using hf
    refine ⟨?_, fun _ => rfl, by simp, fun _ => by simp, ?_, ?_, by simpa using hne, ?_, fun _ => .inl rfl, ?_⟩
    · simp; omega
    · intro p hpm
      simp only [← List.append_assoc, List.mem_append, List.mem_singleton] at hpm
      rcases hpm with hpm | rfl
      · exact h.le p (by simpa using hpm)
      · exact h.c64
    · have := h.data
      simpa [In.pend, hp, IPc.late] using this
    · intro t ht
      obtain ⟨a, b⟩ := hx t ht
      exact ⟨b, rfl, s.taken ++ s.queue, s.cur, by simp, a⟩
    · intro he
      rcases h.ends he with a | ⟨a, -⟩
      · exact .inl a
      · rw [hp] at a; cases a
  | fin =>
    rw [hp] at ha
    dsimp only
    have hne : s.todo ≠ [] := fun hh => by have := h.nil.2 hh; rw [hp] at this; cases this
    have sm := h.small (.inr hp)
    have en : Flushes s.ops → ∃ l, s.todo = l ++ [.flush] := fun he => by
      rcases h.ends he with a | ⟨a, -⟩
      · exact a
      · rw [hp] at a; cases a
    have da := h.data
    simp only [In.pend, hp, IPc.late] at da
    cases ht : s.todo with
    | nil => exact absurd ht hne
    | cons a t =>
      rw [ht] at da
      cases a with
      | put c =>
        dsimp only
        rw [ht] at en
        refine In.Inv.next (s := { s with flushed := false, todo := .put c :: t, pc := .fin }) h.two h.busy sm h.le rfl da ?_ en ?_
        · intro hh; cases hh
        · intro hh; cases hh
      | flush =>
        dsimp only
        obtain ⟨x, y⟩ := ha t ht
        exact In.Inv.next h.two h.busy sm h.le ht da (fun _ => y) en (fun _ => x)

theorem In.run_inv (evs : List InEv) : (In.run evs).Inv := by
  have key : ∀ (evs : List InEv) (s : In), s.Inv → (evs.foldl In.ev s).Inv := by
    intro evs
    induction evs with
    | nil => intro s h; exact h
    | cons e es ih =>
      intro s h
      apply ih
      cases e with
      | take => exact h.take
      | flag => exact h.flag
      | irq => exact h.irq
      | wake => exact h.wake
      | call o => exact h.call o
      | step => exact h.step
  exact key evs _ In.Inv.init

/-- How far an act is from its end or from sleep. -/
def IPc.w : IPc → Nat
  | .idle => 0 | .sleep => 0 | .start => 12 | .waitR => 6 | .waitT => 4 | .waitE => 3 | .ackR => 3 | .ackW _ => 2 | .data => 5 | .full => 4
  | .sendR => 3 | .sendW _ => 2 | .fin => 1

/-- What is left of the call if the host does nothing. -/
def In.left (s : In) : Nat := 20 * s.todo.length + s.pc.w + (if s.txini then 5 else 0) + 5 * (2 - s.queue.length)

theorem In.next_left {s : In} (h : s.todo ≠ []) : s.next.left < s.left := by
  unfold In.next
  cases ht : s.todo with
  | nil => exact absurd ht h
  | cons a t =>
    cases t with
    | nil => simp [In.left, ht, IPc.w]; omega
    | cons b t => simp [In.left, ht, IPc.w]; omega

theorem release_left (s : In) : (if s.release.txini then 5 else 0) + 5 * (2 - s.release.queue.length) ≤ (if s.txini then 5 else 0) + 5 * (2 - s.queue.length) := by
  unfold In.release
  split
  · rename_i hf
    have hq : s.queue.length < 2 := by simpa [In.free] using hf
    cases s.txini
    · by_cases h : s.queue.length + 1 < 2
      · simp [h]; omega
      · simp [h]; omega
    · simp; omega
  · exact Nat.le_refl _

theorem release_todo (s : In) : s.release.todo = s.todo := by unfold In.release; split <;> rfl

theorem release_queue (s : In) (h : s.free = false) : s.release = s := by unfold In.release; rw [h]; rfl

theorem In.step_left {s : In} (h : s.Inv) (hi : s.pc ≠ .idle) (hs : s.pc ≠ .sleep) : s.step.left < s.left := by
  have ha := h.at_
  have hne : s.todo ≠ [] := fun hh => hi (h.nil.2 hh)
  unfold In.At at ha
  unfold In.step
  cases hp : s.pc with
  | idle => exact absurd hp hi
  | sleep => exact absurd hp hs
  | start =>
    dsimp only
    split
    · split
      · exact In.next_left hne
      · simp [In.left, hp, IPc.w]
    · simp [In.left, hp, IPc.w]
    · exact absurd ‹_› hne
  | waitR =>
    dsimp only
    split
    · split
      · split
        · exact In.next_left hne
        · simp [In.left, hp, IPc.w]
      · simp [In.left, hp, IPc.w]
    · simp [In.left, hp, IPc.w]
  | waitT => dsimp only; cases ht : s.txini <;> simp [In.left, hp, IPc.w, ht]
  | waitE => simp [In.left, hp, IPc.w]
  | ackR => simp [In.left, hp, IPc.w]
  | ackW fc =>
    rw [hp] at ha
    dsimp only
    split
    · simp [In.left, hp, IPc.w, ha.1]
    · have := release_left { s with txini := false, pc := .ackW fc }
      simp only [In.left, release_todo, IPc.w, hp, ha.1, if_true]
      simp only [Bool.false_eq_true, if_false] at this
      omega
  | data =>
    rw [hp] at ha
    obtain ⟨hr, c, t, ht⟩ := ha
    dsimp only
    rw [ht]
    dsimp only
    split <;> simp [In.left, hp, IPc.w, ht]
  | full => dsimp only; split <;> simp [In.left, hp, IPc.w]
  | sendR => simp [In.left, hp, IPc.w]
  | sendW r =>
    dsimp only
    have := release_left { s with txini := s.txini && r, pc := .sendW r }
    simp only [In.left, release_todo, IPc.w, hp]
    have e : (if (s.txini && r) = true then 5 else 0) ≤ (if s.txini = true then 5 else 0) := by cases s.txini <;> cases r <;> decide
    dsimp only at this
    omega
  | fin =>
    dsimp only
    split
    · have := In.next_left (s := { s with flushed := false, pc := .fin }) hne
      simpa [In.left, hp] using this
    · exact In.next_left hne

end Snek.UsbAvr
