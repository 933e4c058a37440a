import Verif.Model.Metal
import Verif.Proofs.Uart
import Verif.Spec.SerialFlow
/-!
# C102 The serial line of the HiFive1

Every sequence of received bytes, reads, writes, interrupts of the transmitter and bytes leaving on the line.
-/
namespace Snek.Metal
open Snek.Uart (Ring Sent ringGet ringPut get_none get_some put_full put_room contents_length alternating_succ)
open Spec.Serial Spec.SerialFlow

variable {N cap : Nat}

/-- An execution as seen from outside: the state, the bytes the program wrote and read, the bytes that came (XON and XOFF apart), and
how many of them came late. -/
structure Hist where
  st : St
  written : List UInt8
  read : List UInt8
  came : List UInt8
  late : Late

/-- Number of XONs given to the device. -/
def xons (s : St) : Nat := (s.sent.filter (· = .flow 17)).length

/-- Nothing is late any more when another XON was sent. -/
def resumed (s s' : St) (l : Late) : Late := if xons s < xons s' then none else l

def Hist.step (N cap : Nat) (e : Ev) (h : Hist) : Hist :=
  let s' := Metal.step N cap e h.st
  match e with
  | .recv c =>
    if c = 17 ∨ c = 19 then { h with st := s', late := resumed h.st s' h.late }
    else { h with st := s', came := h.came ++ [c], late := resumed h.st s' (come N (h.came.length + 1 - h.read.length) h.late) }
  | .get => { h with st := s', read := h.read ++ (getc N cap h.st).1.toList, late := resumed h.st s' h.late }
  | .put c => { h with st := s', written := if (putc N cap c h.st).1 then h.written ++ [c] else h.written, late := resumed h.st s' h.late }
  | _ => { h with st := s', late := resumed h.st s' h.late }

/-- At first the sender waits for XON. -/
def Hist.init (N : Nat) : Hist := ⟨St.init N, [], [], [], some 0⟩

def Hist.run (N cap : Nat) (es : List Ev) : Hist := es.foldl (fun h e => h.step N cap e) (Hist.init N)

/-- The sender obeys XON and XOFF: no byte but XON and XOFF comes when too many are late. -/
def Obeys (N cap : Nat) (es : List Ev) : Prop :=
  ∀ pre c, (pre ++ [.recv c]) <+: es → c ≠ 17 → c ≠ 19 → mayCome N (Hist.run N cap pre).late

/-! ## Invariant -/

structure Inv (N cap : Nat) (s : St) : Prop where
  rx : s.rx.Ok N
  tx : s.tx.Ok N
  flow : s.flow < 4
  room : s.queued ≤ cap
  have_ : s.queued ≤ s.sent.length
  alt : ∃ n, s.sent.filterMap Sent.flow? = alternating n ∧ (n % 2 = 0 ↔ s.flow = 3 ∨ s.flow = 0)

/-- The transmitter will ask for more if there is something for it. -/
structure Awake (cap : Nat) (s : St) : Prop where
  full : cap ≤ s.queued → s.ie = true
  data : s.tx.count ≠ 0 → s.ie = true
  flow : s.flow % 2 = 0 → s.ie = true ∨ s.sent = []
  stopped : s.flow = 3 → s.rx.count = 0 → s.ie = true

/-- Data given to the device and still to be given. -/
def output (N : Nat) (s : St) : List UInt8 := s.sent.filterMap Sent.data? ++ s.tx.contents N

theorem flow_cases {s : St} (h : Inv N cap s) : s.flow = 0 ∨ s.flow = 1 ∨ s.flow = 2 ∨ s.flow = 3 := by have := h.flow; omega

/-- What `txStart` does. -/
theorem txStart_cases {s : St} (h : Inv N cap s) :
    (cap ≤ s.queued ∧ txStart N cap s = s) ∨
    (s.queued < cap ∧ s.flow = 0 ∧ txStart N cap s = { s with flow := 1, sent := s.sent ++ [.flow 17], queued := s.queued + 1, ie := true }) ∨
    (s.queued < cap ∧ s.flow = 2 ∧ txStart N cap s = { s with flow := 3, sent := s.sent ++ [.flow 19], queued := s.queued + 1, ie := true }) ∨
    (s.queued < cap ∧ s.flow % 2 = 1 ∧ s.tx.count = 0 ∧ txStart N cap s = s) ∨
    (s.queued < cap ∧ s.flow % 2 = 1 ∧ s.tx.count ≠ 0 ∧ ∃ c tx, tx.Ok N ∧ s.tx.contents N = c :: tx.contents N ∧ tx.count = s.tx.count - 1 ∧
      txStart N cap s = { s with tx := tx, sent := s.sent ++ [.data c], queued := s.queued + 1, ie := true }) := by
  by_cases hq : s.queued < cap
  · right
    rcases flow_cases h with e | e | e | e
    · left; exact ⟨hq, e, by simp [txStart, hq, e, nextFlow, send]⟩
    · right; right
      by_cases hc : s.tx.count = 0
      · left; exact ⟨hq, by omega, hc, by simp [txStart, hq, e, (get_none (N := N) hc).1]⟩
      · right
        obtain ⟨c, tx, e1, e2, e3, e4⟩ := get_some h.tx hc
        exact ⟨hq, by omega, hc, c, tx, e2, e3, e4, by simp [txStart, hq, e, e1, send]⟩
    · right; left; exact ⟨hq, e, by simp [txStart, hq, e, nextFlow, send]⟩
    · right; right
      by_cases hc : s.tx.count = 0
      · left; exact ⟨hq, by omega, hc, by simp [txStart, hq, e, (get_none (N := N) hc).1]⟩
      · right
        obtain ⟨c, tx, e1, e2, e3, e4⟩ := get_some h.tx hc
        exact ⟨hq, by omega, hc, c, tx, e2, e3, e4, by simp [txStart, hq, e, e1, send]⟩
  · left; exact ⟨by omega, by simp [txStart, hq]⟩

theorem txStart_inv {s : St} (h : Inv N cap s) : Inv N cap (txStart N cap s) ∧ output N (txStart N cap s) = output N s ∧ (txStart N cap s).rx = s.rx := by
  rcases txStart_cases h with ⟨_, e⟩ | ⟨h1, h2, e⟩ | ⟨h1, h2, e⟩ | ⟨_, _, _, e⟩ | ⟨h1, h2, h3, c, tx, a, b, d, e⟩
  · rw [e]; exact ⟨h, rfl, rfl⟩
  · rw [e]
    obtain ⟨n, a, b⟩ := h.alt
    refine ⟨⟨h.rx, h.tx, by simp, h1, by simpa using h.have_, n + 1, ?_, ?_⟩, ?_, rfl⟩
    · have : n % 2 = 0 := b.2 (Or.inr h2)
      simp [List.filterMap_append, a, alternating_succ, Sent.flow?, this]
    · have : n % 2 = 0 := b.2 (Or.inr h2)
      simp; omega
    · simp [output, List.filterMap_append, Sent.data?]
  · rw [e]
    obtain ⟨n, a, b⟩ := h.alt
    have hn : ¬ n % 2 = 0 := fun hn => by rcases b.1 hn with h | h <;> omega
    refine ⟨⟨h.rx, h.tx, by simp, h1, by simpa using h.have_, n + 1, ?_, ?_⟩, ?_, rfl⟩
    · simp [List.filterMap_append, a, alternating_succ, Sent.flow?, hn]
    · simp; omega
    · simp [output, List.filterMap_append, Sent.data?]
  · rw [e]; exact ⟨h, rfl, rfl⟩
  · rw [e]
    refine ⟨⟨h.rx, a, h.flow, h1, by simpa using h.have_, ?_⟩, ?_, rfl⟩
    · obtain ⟨n, a, b⟩ := h.alt
      exact ⟨n, by simp [List.filterMap_append, Sent.flow?, a], b⟩
    · simp [output, List.filterMap_append, Sent.data?, b]

/-- After `txStart` the transmitter is awake if what it was not awake for is only what `txStart` looks at. -/
theorem txStart_awake {s : St} (h : Inv N cap s) (hf : cap ≤ s.queued → s.ie = true) (h4 : s.flow = 3 → s.rx.count = 0 → s.ie = true) :
    Awake cap (txStart N cap s) := by
  rcases txStart_cases h with ⟨h1, e⟩ | ⟨h1, h2, e⟩ | ⟨h1, h2, e⟩ | ⟨h1, h2, h3, e⟩ | ⟨h1, h2, h3, c, tx, a, b, d, e⟩
  · rw [e]; exact ⟨hf, fun _ => hf h1, fun _ => Or.inl (hf h1), h4⟩
  · rw [e]; exact ⟨fun _ => rfl, fun _ => rfl, fun _ => Or.inl rfl, fun _ _ => rfl⟩
  · rw [e]; exact ⟨fun _ => rfl, fun _ => rfl, fun _ => Or.inl rfl, fun _ _ => rfl⟩
  · rw [e]; exact ⟨hf, fun h => absurd h3 h, fun h => by omega, h4⟩
  · rw [e]; exact ⟨fun _ => rfl, fun _ => rfl, fun _ => Or.inl rfl, fun _ _ => rfl⟩

theorem next_inv {s : St} (h : Inv N cap s) (hf : s.flow % 2 = 1) : Inv N cap (nextFlow s) := by
  refine ⟨h.rx, h.tx, Nat.mod_lt _ (by decide), h.room, h.have_, ?_⟩
  obtain ⟨n, a, b⟩ := h.alt
  refine ⟨n, a, b.trans ?_⟩
  have := h.flow
  simp only [nextFlow]
  omega

theorem flowDo_inv {s : St} (h : Inv N cap s) (hf : s.flow % 2 = 1) :
    Inv N cap (flowDo N cap s) ∧ output N (flowDo N cap s) = output N s ∧ (flowDo N cap s).rx = s.rx := txStart_inv (next_inv h hf)

theorem flowDo_awake {s : St} (h : Inv N cap s) (hf : s.flow % 2 = 1) (hq : cap ≤ s.queued → s.ie = true) : Awake cap (flowDo N cap s) := by
  refine txStart_awake (next_inv h hf) hq fun e => ?_
  simp only [nextFlow] at e
  have := h.flow
  omega

theorem xon_inv {s : St} (h : Inv N cap s) : Inv N cap (xon N cap s) ∧ output N (xon N cap s) = output N s ∧ (xon N cap s).rx = s.rx := by
  unfold xon
  split
  · rename_i e; exact flowDo_inv h (by omega)
  · exact ⟨h, rfl, rfl⟩

theorem xoff_inv {s : St} (h : Inv N cap s) : Inv N cap (xoff N cap s) ∧ output N (xoff N cap s) = output N s ∧ (xoff N cap s).rx = s.rx := by
  unfold xoff
  split
  · rename_i e; exact flowDo_inv h (by omega)
  · exact ⟨h, rfl, rfl⟩

theorem isrTx_inv {s : St} (h : Inv N cap s) : Inv N cap (isrTx N cap s) ∧ output N (isrTx N cap s) = output N s ∧ (isrTx N cap s).rx = s.rx := by
  unfold isrTx
  split
  · have h0 : Inv N cap { s with ie := false } := ⟨h.rx, h.tx, h.flow, h.room, h.have_, h.alt⟩
    obtain ⟨a, b, c⟩ := xon_inv h0
    obtain ⟨a', b', c'⟩ := txStart_inv a
    exact ⟨a', b'.trans b, c'.trans c⟩
  · exact ⟨h, rfl, rfl⟩

theorem isrTx_awake {s : St} (h : Inv N cap s) (ha : Awake cap s) : Awake cap (isrTx N cap s) := by
  unfold isrTx
  split
  · rename_i hq
    have h0 : Inv N cap { s with ie := false } := ⟨h.rx, h.tx, h.flow, h.room, h.have_, h.alt⟩
    have hx := (xon_inv h0).1
    unfold xon at hx ⊢
    split
    · rename_i e
      rw [if_pos e] at hx
      have ha' := flowDo_awake h0 (by have := e.1; simp at this; simp [this]) (fun h => by simp at h; omega)
      exact txStart_awake hx ha'.full ha'.stopped
    · rename_i e
      exact txStart_awake h0 (fun h => by simp at h; omega) (fun h1 h2 => absurd ⟨h1, h2⟩ e)
  · exact ha

/-- A byte enters the receiver's ring. -/
theorem accept_inv {s : St} (h : Inv N cap s) (c : UInt8) :
    Inv N cap (accept N cap c s) ∧ output N (accept N cap c s) = output N s ∧ (accept N cap c s).rx = (ringPut N s.rx c).2 ∧
    (Awake cap s → 0 < N → Awake cap (accept N cap c s)) := by
  have h0 : Inv N cap { s with rx := (ringPut N s.rx c).2 } := by
    refine ⟨?_, h.tx, h.flow, h.room, h.have_, h.alt⟩
    by_cases hf : s.rx.count = N
    · rw [put_full hf]; exact h.rx
    · obtain ⟨r', e1, e2, _⟩ := put_room h.rx hf c
      rw [e1]; exact e2
  obtain ⟨a, b, d⟩ := xoff_inv h0
  refine ⟨a, b, d, fun ha hN => ?_⟩
  unfold accept xoff
  split
  · rename_i e
    exact flowDo_awake h0 (by have := e.1; simp at this; simp [this]) ha.full
  · refine ⟨ha.full, ha.data, ha.flow, fun h1 h2 => ?_⟩
    by_cases hf : s.rx.count = N
    · simp only [put_full hf] at h2; omega
    · obtain ⟨r', e1, e2, _, e4⟩ := put_room h.rx hf c
      simp only [e1] at h2; omega

theorem init_inv (hN : 0 < N) : Inv N cap (St.init N) ∧ (0 < cap → Awake cap (St.init N)) :=
  ⟨⟨⟨by simp [St.init], hN, Nat.zero_le _⟩, ⟨by simp [St.init], hN, Nat.zero_le _⟩, by simp [St.init], Nat.zero_le _, Nat.zero_le _, 0, rfl, by simp [St.init]⟩,
   fun hc => ⟨fun h => by simp [St.init] at h; omega, fun h => absurd rfl h, fun _ => Or.inr rfl, fun h => by simp [St.init] at h⟩⟩

/-- Abort and the flag of the other side matter to nothing. -/
theorem recv_cases (c : UInt8) (s : St) :
    (c = 19 ∧ isr N cap (some c) s = { s with txStop := true }) ∨
    (c = 17 ∧ isr N cap (some c) s = txStart N cap { s with txStop := false }) ∨
    (c ≠ 17 ∧ c ≠ 19 ∧ ∃ b, isr N cap (some c) s = isrTx N cap (accept N cap c { s with abort := b })) := by
  by_cases h3 : c = 3
  · right; right; subst h3; exact ⟨by decide, by decide, true, by simp [isr]⟩
  · by_cases h19 : c = 19
    · left; subst h19; exact ⟨rfl, by simp [isr]⟩
    · by_cases h17 : c = 17
      · right; left; subst h17; exact ⟨rfl, by simp [isr]⟩
      · right; right; exact ⟨h17, h19, s.abort, by simp [isr, h3, h19, h17]⟩

theorem step_inv (hN : 0 < N) (e : Ev) {s : St} (h : Inv N cap s) :
    Inv N cap (step N cap e s) ∧ (0 < cap → Awake cap s → Awake cap (step N cap e s)) := by
  cases e with
  | recv c =>
    show Inv N cap (isr N cap (some c) s) ∧ (_ → _ → Awake cap (isr N cap (some c) s))
    rcases recv_cases (N := N) (cap := cap) c s with ⟨_, e⟩ | ⟨_, e⟩ | ⟨_, _, b, e⟩
    · rw [e]; exact ⟨⟨h.rx, h.tx, h.flow, h.room, h.have_, h.alt⟩, fun _ ha => ⟨ha.full, ha.data, ha.flow, ha.stopped⟩⟩
    · rw [e]
      have h0 : Inv N cap { s with txStop := false } := ⟨h.rx, h.tx, h.flow, h.room, h.have_, h.alt⟩
      exact ⟨(txStart_inv h0).1, fun _ ha => txStart_awake h0 ha.full ha.stopped⟩
    · rw [e]
      have h0 : Inv N cap { s with abort := b } := ⟨h.rx, h.tx, h.flow, h.room, h.have_, h.alt⟩
      have a := accept_inv h0 c
      exact ⟨(isrTx_inv a.1).1, fun _ ha => isrTx_awake a.1 (a.2.2.2 ⟨ha.full, ha.data, ha.flow, ha.stopped⟩ hN)⟩
  | ready =>
    show Inv N cap (if s.ie = true ∧ s.queued < 1 then isr N cap none s else s) ∧ (_ → _ → Awake cap (if s.ie = true ∧ s.queued < 1 then isr N cap none s else s))
    split
    · exact ⟨(isrTx_inv h).1, fun _ ha => isrTx_awake h ha⟩
    · exact ⟨h, fun _ ha => ha⟩
  | get =>
    show Inv N cap (getc N cap s).2 ∧ (_ → _ → Awake cap (getc N cap s).2)
    unfold getc
    by_cases hc : s.rx.count = 0
    · rw [(get_none hc).1]; exact ⟨h, fun _ ha => ha⟩
    · obtain ⟨c, r', e1, e2, e3, e4⟩ := get_some h.rx hc
      rw [e1]
      have h0 : Inv N cap { s with rx := r' } := ⟨e2, h.tx, h.flow, h.room, h.have_, h.alt⟩
      refine ⟨(xon_inv h0).1, fun _ ha => ?_⟩
      show Awake cap (xon N cap { s with rx := r' })
      unfold xon
      split
      · rename_i e
        exact flowDo_awake h0 (by have := e.1; simp at this; simp [this]) ha.full
      · rename_i e
        exact ⟨ha.full, ha.data, ha.flow, fun h1 h2 => absurd ⟨h1, h2⟩ e⟩
  | put c =>
    show Inv N cap (putc N cap c s).2 ∧ (_ → _ → Awake cap (putc N cap c s).2)
    unfold putc
    by_cases hc : s.tx.count = N
    · rw [put_full hc]; exact ⟨h, fun _ ha => ha⟩
    · obtain ⟨r', e1, e2, e3, e4⟩ := put_room h.tx hc c
      rw [e1]
      have h0 : Inv N cap { s with tx := r' } := ⟨h.rx, e2, h.flow, h.room, h.have_, h.alt⟩
      exact ⟨(txStart_inv h0).1, fun _ ha => txStart_awake h0 ha.full ha.stopped⟩
  | shift =>
    refine ⟨⟨h.rx, h.tx, h.flow, Nat.le_trans (Nat.sub_le _ _) h.room, Nat.le_trans (Nat.sub_le _ _) h.have_, h.alt⟩, fun _ ha => ⟨fun hq => ha.full ?_, ha.data, ha.flow, ha.stopped⟩⟩
    simp only [step] at hq
    omega

/-! ## Output -/

theorem step_output (e : Ev) {h : Hist} (hi : Inv N cap h.st) (ho : output N h.st = h.written) :
    output N (h.step N cap e).st = (h.step N cap e).written := by
  cases e with
  | recv c =>
    have : output N (isr N cap (some c) h.st) = output N h.st := by
      rcases recv_cases (N := N) (cap := cap) c h.st with ⟨_, e⟩ | ⟨_, e⟩ | ⟨_, _, b, e⟩
      · rw [e]; rfl
      · rw [e]
        exact (txStart_inv (s := { h.st with txStop := false }) ⟨hi.rx, hi.tx, hi.flow, hi.room, hi.have_, hi.alt⟩).2.1
      · rw [e]
        have a := accept_inv (s := { h.st with abort := b }) ⟨hi.rx, hi.tx, hi.flow, hi.room, hi.have_, hi.alt⟩ c
        exact (isrTx_inv a.1).2.1.trans a.2.1
    unfold Hist.step
    dsimp only
    split
    · exact this.trans ho
    · exact this.trans ho
  | ready =>
    show output N (if h.st.ie = true ∧ h.st.queued < 1 then isr N cap none h.st else h.st) = h.written
    split
    · exact (isrTx_inv hi).2.1.trans ho
    · exact ho
  | get =>
    show output N (getc N cap h.st).2 = h.written
    unfold getc
    by_cases hc : h.st.rx.count = 0
    · rw [(get_none hc).1]; exact ho
    · obtain ⟨c, r', e1, e2, e3, e4⟩ := get_some hi.rx hc
      rw [e1]
      exact (xon_inv (s := { h.st with rx := r' }) ⟨e2, hi.tx, hi.flow, hi.room, hi.have_, hi.alt⟩).2.1.trans ho
  | put c =>
    show output N (putc N cap c h.st).2 = if (putc N cap c h.st).1 then h.written ++ [c] else h.written
    unfold putc
    by_cases hc : h.st.tx.count = N
    · rw [put_full hc]; simpa using ho
    · obtain ⟨r', e1, e2, e3, e4⟩ := put_room hi.tx hc c
      rw [e1]
      refine (txStart_inv (s := { h.st with tx := r' }) ⟨hi.rx, e2, hi.flow, hi.room, hi.have_, hi.alt⟩).2.1.trans ?_
      rw [← ho]
      simp [output, e3]
  | shift => exact ho

theorem step_st (e : Ev) (h : Hist) : (h.step N cap e).st = step N cap e h.st := by
  cases e <;> simp only [Hist.step]
  split <;> rfl

theorem run_snoc (es : List Ev) (e : Ev) : Hist.run N cap (es ++ [e]) = (Hist.run N cap es).step N cap e := by
  simp [Hist.run, List.foldl_append]

theorem snoc_ind {P : List Ev → Prop} (h0 : P []) (h1 : ∀ es e, P es → P (es ++ [e])) (es : List Ev) : P es := by
  have : ∀ rs : List Ev, P rs.reverse := by
    intro rs
    induction rs with
    | nil => exact h0
    | cons e rs ih => rw [List.reverse_cons]; exact h1 _ _ ih
  simpa using this es.reverse

theorem run_inv (hN : 0 < N) (es : List Ev) : Inv N cap (Hist.run N cap es).st ∧ (0 < cap → Awake cap (Hist.run N cap es).st) ∧
    output N (Hist.run N cap es).st = (Hist.run N cap es).written := by
  induction es using snoc_ind with
  | h0 => exact ⟨(init_inv hN).1, (init_inv (cap := cap) hN).2, rfl⟩
  | h1 es e ih =>
    rw [run_snoc]
    have := step_inv hN e ih.1
    refine ⟨?_, ?_, step_output e ih.1 ih.2.2⟩
    · rw [step_st]; exact this.1
    · rw [step_st]; exact fun hc => this.2 hc (ih.2.1 hc)

section
variable (N cap : Nat) (hN : 0 < N) (es : List Ev)
include hN

/-- C102: what the program wrote is what was given to the device, without XON and XOFF, followed by what waits: nothing is lost,
duplicated or out of order. -/
theorem C102_output : (Hist.run N cap es).st.sent.filterMap Sent.data? ++ (Hist.run N cap es).st.tx.contents N = (Hist.run N cap es).written :=
  (run_inv hN es).2.2

/-- The device's queue is never given more than it has room for. XON and XOFF are sent in turn, XON first. -/
theorem C102_device : (Hist.run N cap es).st.queued ≤ cap ∧ ∃ n, (Hist.run N cap es).st.sent.filterMap Sent.flow? = alternating n :=
  have h := (run_inv (cap := cap) hN es).1
  ⟨h.room, h.alt.elim fun n h => ⟨n, h.1⟩⟩

/-- A byte is refused only when `N` bytes are waiting. -/
theorem C102_accept (c : UInt8) : (putc N cap c (Hist.run N cap es).st).1 = false ↔ ((Hist.run N cap es).st.tx.contents N).length = N := by
  have h := (run_inv (cap := cap) hN es).1
  rw [contents_length]
  unfold putc
  by_cases hf : (Hist.run N cap es).st.tx.count = N
  · rw [put_full hf]; simp [hf]
  · obtain ⟨r', e1, _⟩ := put_room h.tx hf c
    rw [e1]; simp [hf]

end

/-! ## Progress -/

/-- The line takes a byte, then the transmitter's interrupt comes if it is due. -/
def round (N cap : Nat) (s : St) : St := step N cap .ready (step N cap .shift s)

def rounds (N cap : Nat) : Nat → St → St
  | 0, s => s
  | n + 1, s => rounds N cap n (round N cap s)

/-- XONs and XOFFs still to be sent. -/
def pot (s : St) : Nat :=
  if s.flow = 0 then 1 else if s.flow = 1 then 0 else if s.flow = 2 then (if s.rx.count = 0 then 2 else 1) else if s.rx.count = 0 then 1 else 0

/-- Bounds the rounds to go. -/
def due (s : St) : Nat := 2 * s.tx.count + 2 * pot s + s.queued + if s.ie = true then 1 else 0

def base (s : St) : Nat := 2 * s.tx.count + 2 * pot s + s.queued

theorem txStart_base {s : St} (h : Inv N cap s) :
    (base (txStart N cap s) = base s ∧ (txStart N cap s).ie = s.ie) ∨ (base (txStart N cap s) < base s) := by
  rcases txStart_cases h with ⟨_, e⟩ | ⟨h1, h2, e⟩ | ⟨h1, h2, e⟩ | ⟨_, _, _, e⟩ | ⟨h1, h2, h3, c, tx, a, b, d, e⟩
  · rw [e]; exact Or.inl ⟨rfl, rfl⟩
  · rw [e]; right; simp [base, pot, h2]; omega
  · rw [e]; right; simp [base, pot, h2]; split <;> omega
  · rw [e]; exact Or.inl ⟨rfl, rfl⟩
  · rw [e]; right; simp [base, pot, d]; omega

theorem due_lt {s s' : St} (h : (base s' = base s ∧ s'.ie = false) ∨ base s' < base s) (hi : s.ie = true) : due s' < due s := by
  have e1 : due s = base s + 1 := by simp [due, base, hi]
  rcases h with ⟨h1, h2⟩ | h
  · have : due s' = base s' := by simp [due, base, h2]
    omega
  · have : due s' ≤ base s' + 1 := by simp only [due, base]; split <;> omega
    omega

theorem isrTx_due {s : St} (h : Inv N cap s) (hq : s.queued < cap) (hi : s.ie = true) : due (isrTx N cap s) < due s := by
  apply due_lt _ hi
  have h0 : Inv N cap { s with ie := false } := ⟨h.rx, h.tx, h.flow, h.room, h.have_, h.alt⟩
  have b0 : base { s with ie := false } = base s := rfl
  have hx : (base (xon N cap { s with ie := false }) = base s ∧ (xon N cap { s with ie := false }).ie = false) ∨ base (xon N cap { s with ie := false }) < base s := by
    unfold xon
    split
    · rename_i e
      simp only at e
      have hn := next_inv h0 (by simp [e.1])
      have hb : base (nextFlow { s with ie := false }) = base s := by simp [base, pot, nextFlow, e.1, e.2]
      rcases txStart_base hn with ⟨a, b⟩ | a
      · exact Or.inl ⟨a.trans hb, b⟩
      · right; rw [hb] at a; exact a
    · exact Or.inl ⟨rfl, rfl⟩
  unfold isrTx
  rw [if_pos hq]
  rcases txStart_base (xon_inv h0).1 with ⟨a, b⟩ | a
  · rcases hx with ⟨c, d⟩ | c
    · exact Or.inl ⟨a.trans c, b.trans d⟩
    · right; omega
  · rcases hx with ⟨c, d⟩ | c <;> (right; omega)

/-- A round brings the end nearer, or there is nothing to do. -/
theorem round_due (hN : 0 < N) (hc : 0 < cap) {s : St} (h : Inv N cap s) (ha : Awake cap s) :
    Inv N cap (round N cap s) ∧ Awake cap (round N cap s) ∧
    (due (round N cap s) < due s ∨ (round N cap s = s ∧ s.queued = 0 ∧ s.ie = false)) := by
  have h1 := step_inv hN .shift h
  have h2 := step_inv hN .ready h1.1
  refine ⟨h2.1, h2.2 hc (h1.2 hc ha), ?_⟩
  have hs : step N cap .shift s = { s with queued := s.queued - 1 } := rfl
  have hd : due { s with queued := s.queued - 1 } ≤ due s ∧ (s.queued ≠ 0 → due { s with queued := s.queued - 1 } < due s) := by
    have : pot { s with queued := s.queued - 1 } = pot s := rfl
    simp only [due, this]
    constructor <;> intros <;> split <;> omega
  unfold round
  rw [hs] at h1 ⊢
  show due (if s.ie = true ∧ s.queued - 1 < 1 then isr N cap none { s with queued := s.queued - 1 } else { s with queued := s.queued - 1 }) < _ ∨
    ((if s.ie = true ∧ s.queued - 1 < 1 then isr N cap none { s with queued := s.queued - 1 } else { s with queued := s.queued - 1 }) = s ∧ _)
  split
  · rename_i e
    left
    exact Nat.lt_of_lt_of_le (isrTx_due h1.1 (by simp; omega) e.1) hd.1
  · rename_i e
    by_cases hq : s.queued = 0
    · right
      have hi : s.ie = false := by
        cases hi : s.ie with
        | false => rfl
        | true => exact absurd ⟨hi, by omega⟩ e
      refine ⟨?_, hq, hi⟩
      obtain ⟨_, _, _, _, _, _, _, q⟩ := s
      simp only at hq
      subst hq; rfl
    · left; exact hd.2 hq

theorem rounds_idle (hN : 0 < N) (hc : 0 < cap) : ∀ (n : Nat) {s : St}, Inv N cap s → Awake cap s → due s ≤ n →
    Inv N cap (rounds N cap n s) ∧ Awake cap (rounds N cap n s) ∧ (rounds N cap n s).queued = 0 ∧ (rounds N cap n s).ie = false := by
  intro n
  induction n with
  | zero =>
    intro s h ha hd
    refine ⟨h, ha, ?_, ?_⟩
    · simp only [due, rounds] at hd ⊢; omega
    · simp only [due, rounds] at hd ⊢
      cases hi : s.ie with
      | false => rfl
      | true => simp [hi] at hd
  | succ n ih =>
    intro s h ha hd
    obtain ⟨h1, h2, h3⟩ := round_due hN hc h ha
    rcases h3 with h3 | ⟨e, hq, hi⟩
    · exact ih h1 h2 (by omega)
    · have stay : ∀ m, rounds N cap m s = s := by
        intro m
        induction m with
        | zero => rfl
        | succ m ih => show rounds N cap m (round N cap s) = s; rw [e]; exact ih
      rw [stay]
      exact ⟨h, ha, hq, hi⟩

theorem round_same (hN : 0 < N) {s : St} (h : Inv N cap s) : output N (round N cap s) = output N s ∧ (round N cap s).rx = s.rx := by
  have h1 := (step_inv hN .shift h).1
  show output N (if _ ∧ _ then isr N cap none (step N cap .shift s) else step N cap .shift s) = _ ∧
    (if _ ∧ _ then isr N cap none (step N cap .shift s) else step N cap .shift s).rx = _
  split
  · exact (isrTx_inv h1).2
  · exact ⟨rfl, rfl⟩

theorem rounds_same (hN : 0 < N) (hc : 0 < cap) : ∀ (n : Nat) {s : St}, Inv N cap s → Awake cap s →
    output N (rounds N cap n s) = output N s ∧ (rounds N cap n s).rx = s.rx := by
  intro n
  induction n with
  | zero => intro s _ _; exact ⟨rfl, rfl⟩
  | succ n ih =>
    intro s h ha
    obtain ⟨h1, h2, _⟩ := round_due hN hc h ha
    have a := ih h1 h2
    have b := round_same hN h
    exact ⟨a.1.trans b.1, a.2.trans b.2⟩

section
variable (N cap : Nat) (hN : 0 < N) (hc : 0 < cap) (es : List Ev)
include hN hc

/-- Everything the program wrote leaves on the line after finitely many bytes and interrupts of the transmitter, whatever happened
before. -/
theorem C102_progress : ∃ n0, ∀ n, n0 ≤ n → (rounds N cap n (Hist.run N cap es).st).line.filterMap Sent.data? = (Hist.run N cap es).written := by
  obtain ⟨h, ha, ho⟩ := run_inv (cap := cap) hN es
  refine ⟨due (Hist.run N cap es).st, fun n hn => ?_⟩
  obtain ⟨h1, h2, h3, h4⟩ := rounds_idle hN hc n h (ha hc) hn
  have hz : (rounds N cap n (Hist.run N cap es).st).tx.count = 0 := by
    cases e : (rounds N cap n (Hist.run N cap es).st).tx.count with
    | zero => rfl
    | succ k => exact absurd (h2.data (by omega)) (by rw [h4]; decide)
  rw [← ho, ← (rounds_same hN hc n h (ha hc)).1]
  unfold output St.line
  rw [h3, (get_none hz).2, List.append_nil, Nat.sub_zero, List.take_length]

/-- The other side is not left stopped: if the program has read everything, the last of XON and XOFF that leave on the line is XON. -/
theorem C102_resume (hr : (Hist.run N cap es).st.rx.contents N = []) :
    ∃ n0, ∀ n, n0 ≤ n → ((rounds N cap n (Hist.run N cap es).st).line.filterMap Sent.flow?).getLast? ≠ some 19 := by
  obtain ⟨h, ha, ho⟩ := run_inv (cap := cap) hN es
  refine ⟨due (Hist.run N cap es).st, fun n hn => ?_⟩
  obtain ⟨h1, h2, h3, h4⟩ := rounds_idle hN hc n h (ha hc) hn
  have hx := (rounds_same hN hc n h (ha hc)).2
  have hz : (rounds N cap n (Hist.run N cap es).st).rx.count = 0 := by
    rw [hx, ← contents_length (N := N), hr]; rfl
  generalize rounds N cap n (Hist.run N cap es).st = s at *
  have hl : s.line = s.sent := by unfold St.line; rw [h3, Nat.sub_zero, List.take_length]
  rw [hl]
  obtain ⟨m, a, b⟩ := h1.alt
  rcases flow_cases h1 with e | e | e | e
  · rcases h2.flow (by omega) with h | h
    · rw [h4] at h; cases h
    · rw [h]; simp
  · have : ¬ m % 2 = 0 := fun hm => by rcases b.1 hm with h | h <;> omega
    rw [a]
    obtain ⟨k, rfl⟩ : ∃ k, m = k + 1 := ⟨m - 1, by omega⟩
    rw [alternating_succ, List.getLast?_append]
    have : k % 2 = 0 := by omega
    simp [this]
  · rcases h2.flow (by omega) with h | h
    · rw [h4] at h; cases h
    · rw [h]; simp
  · exact absurd (h2.stopped e hz) (by rw [h4]; decide)

end

/-! ## Input -/

/-- How the lateness of the sender goes with the state. -/
structure Fits (N : Nat) (s : St) (l : Late) : Prop where
  go : s.flow = 1 → l = none ∧ s.rx.count < N / 2
  again : s.flow = 0 → ∃ k, l = some k ∧ s.rx.count ≤ k ∧ k < N / 2
  stop : s.flow = 2 ∨ s.flow = 3 → ∃ k, l = some k ∧ k < N / 2 ∧ s.rx.count ≤ N / 2 + k

theorem Fits.room {s : St} {l : Late} (h : Fits N s l) (hi : Inv N cap s) (hm : mayCome N l) : s.rx.count < N := by
  rcases flow_cases hi with e | e | e | e
  · obtain ⟨k, _, a, b⟩ := h.again e; omega
  · have := (h.go e).2; omega
  · obtain ⟨k, rfl, a, b⟩ := h.stop (Or.inl e); simp only [mayCome] at hm; omega
  · obtain ⟨k, rfl, a, b⟩ := h.stop (Or.inr e); simp only [mayCome] at hm; omega

theorem resumed_same {s s' : St} (h : xons s' = xons s) (l : Late) : resumed s s' l = l := by
  unfold resumed; rw [if_neg (by omega)]

/-- A step of the transmitter: XON goes from 0 to 1. -/
theorem txStart_fits {s : St} {l : Late} (hi : Inv N cap s) (h : Fits N s l) :
    Fits N (txStart N cap s) (resumed s (txStart N cap s) l) ∧ xons s ≤ xons (txStart N cap s) := by
  rcases txStart_cases hi with ⟨_, e⟩ | ⟨h1, h2, e⟩ | ⟨h1, h2, e⟩ | ⟨_, _, _, e⟩ | ⟨h1, h2, h3, c, tx, a, b, d, e⟩
  · rw [e, resumed_same rfl]; exact ⟨h, Nat.le_refl _⟩
  · have hx : xons (txStart N cap s) = xons s + 1 := by rw [e]; simp [xons, List.filter_append]
    refine ⟨?_, by omega⟩
    have : resumed s (txStart N cap s) l = none := by unfold resumed; rw [if_pos (by omega)]
    rw [this, e]
    obtain ⟨k, _, a, b⟩ := h.again h2
    exact ⟨fun _ => ⟨rfl, by simp; omega⟩, fun h => by simp at h, fun h => by simp at h⟩
  · have hx : xons (txStart N cap s) = xons s := by rw [e]; simp [xons, List.filter_append]
    rw [resumed_same hx, e]
    exact ⟨⟨fun h => by simp at h, fun h => by simp at h, fun _ => h.stop (Or.inl h2)⟩, by simp [xons]⟩
  · rw [e, resumed_same rfl]; exact ⟨h, Nat.le_refl _⟩
  · have hx : xons (txStart N cap s) = xons s := by rw [e]; simp [xons, List.filter_append]
    rw [resumed_same hx, e]
    exact ⟨⟨h.go, h.again, h.stop⟩, by simp [xons]⟩

theorem xon_fits {s : St} {l : Late} (hi : Inv N cap s) (h : Fits N s l) :
    Fits N (xon N cap s) (resumed s (xon N cap s) l) ∧ xons s ≤ xons (xon N cap s) := by
  unfold xon
  split
  · rename_i e
    have hn := next_inv hi (by omega)
    have hf : Fits N (nextFlow s) l := by
      obtain ⟨k, a, b, c⟩ := h.stop (Or.inr e.1)
      refine ⟨fun h => ?_, fun _ => ⟨k, a, ?_, b⟩, fun h => ?_⟩
      · simp [nextFlow, e.1] at h
      · show s.rx.count ≤ k; omega
      · simp [nextFlow, e.1] at h
    exact txStart_fits hn hf
  · rw [resumed_same rfl]; exact ⟨h, Nat.le_refl _⟩

theorem resumed_trans {s s' s'' : St} (l : Late) (h1 : xons s ≤ xons s') (h2 : xons s' ≤ xons s'') :
    resumed s' s'' (resumed s s' l) = resumed s s'' l := by
  unfold resumed
  by_cases a : xons s' < xons s''
  · rw [if_pos a, if_pos (by omega)]
  · rw [if_neg a]
    by_cases b : xons s < xons s'
    · rw [if_pos b, if_pos (by omega)]
    · rw [if_neg b, if_neg (by omega)]

theorem isrTx_fits {s : St} {l : Late} (hi : Inv N cap s) (h : Fits N s l) :
    Fits N (isrTx N cap s) (resumed s (isrTx N cap s) l) ∧ xons s ≤ xons (isrTx N cap s) := by
  unfold isrTx
  split
  · have h0 : Inv N cap { s with ie := false } := ⟨hi.rx, hi.tx, hi.flow, hi.room, hi.have_, hi.alt⟩
    have a := xon_fits (s := { s with ie := false }) h0 ⟨h.go, h.again, h.stop⟩
    have b := txStart_fits (xon_inv h0).1 a.1
    rw [resumed_trans l a.2 b.2] at b
    exact ⟨b.1, Nat.le_trans a.2 b.2⟩
  · rw [resumed_same rfl]; exact ⟨h, Nat.le_refl _⟩

/-- A byte comes in time. -/
theorem accept_fits {s : St} {l : Late} (hi : Inv N cap s) (h : Fits N s l) (hm : mayCome N l) (c : UInt8) :
    Fits N (accept N cap c s) (come N (s.rx.count + 1) l) ∧ xons (accept N cap c s) = xons s := by
  have hr := h.room hi hm
  obtain ⟨r', e1, e2, e3, e4⟩ := put_room hi.rx (by omega : s.rx.count ≠ N) c
  have h0 : Inv N cap { s with rx := r' } := ⟨e2, hi.tx, hi.flow, hi.room, hi.have_, hi.alt⟩
  unfold accept
  rw [e1]
  show Fits N (xoff N cap { s with rx := r' }) _ ∧ xons (xoff N cap { s with rx := r' }) = _
  unfold xoff
  split
  · rename_i e
    simp only at e
    obtain ⟨rfl, hlt⟩ := h.go e.1
    have hcome : come N (s.rx.count + 1) none = some 0 := by simp only [come]; rw [if_pos (by omega)]
    rw [hcome]
    have hn := next_inv h0 (by simp [e.1])
    have hf : Fits N (nextFlow { s with rx := r' }) (some 0) := by
      refine ⟨fun h => ?_, fun h => ?_, fun _ => ⟨0, rfl, by omega, ?_⟩⟩
      · simp [nextFlow, e.1] at h
      · simp [nextFlow, e.1] at h
      · show r'.count ≤ _; omega
    have hx : xons (flowDo N cap { s with rx := r' }) = xons s := by
      unfold flowDo
      rcases txStart_cases hn with ⟨_, e'⟩ | ⟨_, h2, _⟩ | ⟨h1, h2, e'⟩ | ⟨_, _, _, e'⟩ | ⟨_, _, _, _, _, _, _, _, e'⟩
      · rw [e']; rfl
      · simp [nextFlow, e.1] at h2
      · rw [e']; simp [xons, List.filter_append, nextFlow]
      · rw [e']; rfl
      · rw [e']; simp [xons, List.filter_append, nextFlow]
    have := (txStart_fits hn hf).1
    rw [resumed_same (s := nextFlow { s with rx := r' }) (s' := txStart N cap (nextFlow { s with rx := r' })) hx] at this
    exact ⟨this, hx⟩
  · rename_i e
    simp only at e
    refine ⟨⟨fun hf => ?_, fun hf => ?_, fun hf => ?_⟩, rfl⟩
    · obtain ⟨rfl, hlt⟩ := h.go hf
      have : ¬ N / 2 ≤ r'.count := fun h => e ⟨hf, h⟩
      exact ⟨by simp only [come]; rw [if_neg (by omega)], by show r'.count < _; omega⟩
    · obtain ⟨k, rfl, a, b⟩ := h.again hf
      simp only [mayCome] at hm
      exact ⟨k + 1, rfl, by show r'.count ≤ _; omega, hm⟩
    · obtain ⟨k, rfl, a, b⟩ := h.stop hf
      simp only [mayCome] at hm
      exact ⟨k + 1, rfl, hm, by show r'.count ≤ _; omega⟩

theorem obeys_prefix {es : List Ev} {e : Ev} (h : Obeys N cap (es ++ [e])) : Obeys N cap es :=
  fun pre c hp => h pre c (hp.trans (List.prefix_append _ _))

theorem input_inv (hN : 2 ≤ N) (es : List Ev) : Obeys N cap es →
    Fits N (Hist.run N cap es).st (Hist.run N cap es).late ∧
    (Hist.run N cap es).came = (Hist.run N cap es).read ++ (Hist.run N cap es).st.rx.contents N := by
  induction es using snoc_ind with
  | h0 =>
    intro _
    refine ⟨⟨fun h => by simp [Hist.run, Hist.init, St.init] at h, fun _ => ⟨0, rfl, Nat.le_refl _, by omega⟩, fun h => by simp [Hist.run, Hist.init, St.init] at h⟩, rfl⟩
  | h1 es e ih =>
    intro hob
    obtain ⟨hf, hc⟩ := ih (obeys_prefix hob)
    have hi := (run_inv (cap := cap) (by omega : 0 < N) es).1
    have hm := fun c (he : e = .recv c) => hob es c (by rw [he]; exact List.prefix_refl _)
    rw [run_snoc]
    generalize Hist.run N cap es = h at *
    cases e with
    | recv c =>
      rcases recv_cases (N := N) (cap := cap) c h.st with ⟨hc', e⟩ | ⟨hc', e⟩ | ⟨h17, h19, b, e⟩
      · simp only [Hist.step, step]
        rw [if_pos (Or.inr hc'), e, resumed_same (s := h.st) (s' := { h.st with txStop := true }) rfl]
        exact ⟨⟨hf.go, hf.again, hf.stop⟩, hc⟩
      · simp only [Hist.step, step]
        rw [if_pos (Or.inl hc'), e]
        have h0 : Inv N cap { h.st with txStop := false } := ⟨hi.rx, hi.tx, hi.flow, hi.room, hi.have_, hi.alt⟩
        refine ⟨(txStart_fits (s := { h.st with txStop := false }) h0 ⟨hf.go, hf.again, hf.stop⟩).1, ?_⟩
        show h.came = h.read ++ (txStart N cap { h.st with txStop := false }).rx.contents N
        rw [(txStart_inv h0).2.2]; exact hc
      · have hm := hm c rfl h17 h19
        have h0 : Inv N cap { h.st with abort := b } := ⟨hi.rx, hi.tx, hi.flow, hi.room, hi.have_, hi.alt⟩
        have hf0 : Fits N { h.st with abort := b } h.late := ⟨hf.go, hf.again, hf.stop⟩
        have hr := hf.room hi hm
        obtain ⟨r', e1, e2, e3, e4⟩ := put_room hi.rx (by omega : h.st.rx.count ≠ N) c
        have ai := accept_inv h0 c
        have af := accept_fits h0 hf0 hm c
        have tf := isrTx_fits ai.1 af.1
        have hu : h.came.length + 1 - h.read.length = h.st.rx.count + 1 := by
          rw [hc, List.length_append, contents_length]; omega
        have hres : ∀ l, resumed h.st (isrTx N cap (accept N cap c { h.st with abort := b })) l =
            resumed (accept N cap c { h.st with abort := b }) (isrTx N cap (accept N cap c { h.st with abort := b })) l := by
          intro l; unfold resumed; rw [af.2]; rfl
        simp only [Hist.step, step]
        rw [if_neg (by simp [h17, h19]), e, hu, hres]
        refine ⟨tf.1, ?_⟩
        show h.came ++ [c] = h.read ++ (isrTx N cap (accept N cap c { h.st with abort := b })).rx.contents N
        rw [(isrTx_inv ai.1).2.2, ai.2.2.1]
        show _ = _ ++ (ringPut N h.st.rx c).2.contents N
        rw [e1, e3, hc, List.append_assoc]
    | ready =>
      show Fits N (if h.st.ie = true ∧ h.st.queued < 1 then isr N cap none h.st else h.st)
        (resumed h.st (if h.st.ie = true ∧ h.st.queued < 1 then isr N cap none h.st else h.st) h.late) ∧
        h.came = h.read ++ (if h.st.ie = true ∧ h.st.queued < 1 then isr N cap none h.st else h.st).rx.contents N
      split
      · refine ⟨(isrTx_fits hi hf).1, ?_⟩
        show _ = _ ++ (isrTx N cap h.st).rx.contents N
        rw [(isrTx_inv hi).2.2]; exact hc
      · rw [resumed_same rfl]; exact ⟨hf, hc⟩
    | get =>
      show Fits N (getc N cap h.st).2 (resumed h.st (getc N cap h.st).2 h.late) ∧
        h.came = (h.read ++ (getc N cap h.st).1.toList) ++ (getc N cap h.st).2.rx.contents N
      unfold getc
      by_cases h0 : h.st.rx.count = 0
      · rw [(get_none h0).1]
        dsimp only
        rw [resumed_same rfl]; exact ⟨hf, by simpa using hc⟩
      · obtain ⟨c, r', e1, e2, e3, e4⟩ := get_some hi.rx h0
        rw [e1]
        dsimp only
        have hi' : Inv N cap { h.st with rx := r' } := ⟨e2, hi.tx, hi.flow, hi.room, hi.have_, hi.alt⟩
        have hf' : Fits N { h.st with rx := r' } h.late := by
          refine ⟨fun e => ⟨(hf.go e).1, ?_⟩, fun e => ?_, fun e => ?_⟩
          · have := (hf.go e).2; show r'.count < _; omega
          · obtain ⟨k, a, b, d⟩ := hf.again e
            exact ⟨k, a, by show r'.count ≤ _; omega, d⟩
          · obtain ⟨k, a, b, d⟩ := hf.stop e
            exact ⟨k, a, b, by show r'.count ≤ _; omega⟩
        refine ⟨(xon_fits hi' hf').1, ?_⟩
        rw [(xon_inv hi').2.2, hc, e3]
        simp
    | put c =>
      show Fits N (putc N cap c h.st).2 (resumed h.st (putc N cap c h.st).2 h.late) ∧ h.came = h.read ++ (putc N cap c h.st).2.rx.contents N
      unfold putc
      by_cases h0 : h.st.tx.count = N
      · rw [put_full h0]
        dsimp only
        rw [resumed_same rfl]; exact ⟨hf, hc⟩
      · obtain ⟨r', e1, e2, e3, e4⟩ := put_room hi.tx h0 c
        rw [e1]
        have hi' : Inv N cap { h.st with tx := r' } := ⟨hi.rx, e2, hi.flow, hi.room, hi.have_, hi.alt⟩
        refine ⟨(txStart_fits (s := { h.st with tx := r' }) hi' ⟨hf.go, hf.again, hf.stop⟩).1, ?_⟩
        show _ = _ ++ (txStart N cap { h.st with tx := r' }).rx.contents N
        rw [(txStart_inv hi').2.2]; exact hc
    | shift =>
      show Fits N { h.st with queued := h.st.queued - 1 } (resumed h.st { h.st with queued := h.st.queued - 1 } h.late) ∧ _
      rw [resumed_same (s := h.st) (s' := { h.st with queued := h.st.queued - 1 }) rfl]
      exact ⟨⟨hf.go, hf.again, hf.stop⟩, hc⟩

/-- If the sender obeys XON and XOFF, with fewer than half a ring of bytes late, the program reads every byte that came, in order: what
came is what was read followed by what waits. -/
theorem C102_input_partial (N cap : Nat) (hN : 2 ≤ N) (es : List Ev) (h : Obeys N cap es) :
    (Hist.run N cap es).came = (Hist.run N cap es).read ++ (Hist.run N cap es).st.rx.contents N := (input_inv hN es h).2

/-- What the other side does not have to obey for: no byte is read twice, out of order or without having come. -/
theorem C102_order (N cap : Nat) (hN : 0 < N) (es : List Ev) :
    ((Hist.run N cap es).read ++ (Hist.run N cap es).st.rx.contents N).Sublist (Hist.run N cap es).came := by
  induction es using snoc_ind with
  | h0 => exact List.Sublist.refl _
  | h1 es e ih =>
    have hi := (run_inv (cap := cap) hN es).1
    rw [run_snoc]
    generalize Hist.run N cap es = h at *
    cases e with
    | recv c =>
      rcases recv_cases (N := N) (cap := cap) c h.st with ⟨hc', e⟩ | ⟨hc', e⟩ | ⟨h17, h19, b, e⟩
      · simp only [Hist.step, step]
        rw [if_pos (Or.inr hc'), e]
        exact ih
      · simp only [Hist.step, step]
        rw [if_pos (Or.inl hc'), e]
        have h0 : Inv N cap { h.st with txStop := false } := ⟨hi.rx, hi.tx, hi.flow, hi.room, hi.have_, hi.alt⟩
        show (h.read ++ (txStart N cap { h.st with txStop := false }).rx.contents N).Sublist h.came
        rw [(txStart_inv h0).2.2]; exact ih
      · have h0 : Inv N cap { h.st with abort := b } := ⟨hi.rx, hi.tx, hi.flow, hi.room, hi.have_, hi.alt⟩
        have ai := accept_inv h0 c
        simp only [Hist.step, step]
        rw [if_neg (by simp [h17, h19]), e]
        show (h.read ++ (isrTx N cap (accept N cap c { h.st with abort := b })).rx.contents N).Sublist (h.came ++ [c])
        rw [(isrTx_inv ai.1).2.2, ai.2.2.1]
        show (h.read ++ (ringPut N h.st.rx c).2.contents N).Sublist _
        by_cases hf : h.st.rx.count = N
        · rw [put_full hf]; exact ih.trans (List.sublist_append_left _ _)
        · obtain ⟨r', e1, e2, e3, e4⟩ := put_room hi.rx hf c
          rw [e1, e3, ← List.append_assoc]
          exact List.Sublist.append_right ih [c]
    | ready =>
      show (h.read ++ (if h.st.ie = true ∧ h.st.queued < 1 then isr N cap none h.st else h.st).rx.contents N).Sublist h.came
      split
      · show (_ ++ (isrTx N cap h.st).rx.contents N).Sublist _
        rw [(isrTx_inv hi).2.2]; exact ih
      · exact ih
    | get =>
      show ((h.read ++ (getc N cap h.st).1.toList) ++ (getc N cap h.st).2.rx.contents N).Sublist h.came
      unfold getc
      by_cases h0 : h.st.rx.count = 0
      · rw [(get_none h0).1]; simpa using ih
      · obtain ⟨c, r', e1, e2, e3, e4⟩ := get_some hi.rx h0
        rw [e1]
        dsimp only
        have hi' : Inv N cap { h.st with rx := r' } := ⟨e2, hi.tx, hi.flow, hi.room, hi.have_, hi.alt⟩
        rw [(xon_inv hi').2.2]
        rw [e3] at ih
        simpa using ih
    | put c =>
      show (h.read ++ (putc N cap c h.st).2.rx.contents N).Sublist h.came
      unfold putc
      by_cases h0 : h.st.tx.count = N
      · rw [put_full h0]; exact ih
      · obtain ⟨r', e1, e2, e3, e4⟩ := put_room hi.tx h0 c
        rw [e1]
        have hi' : Inv N cap { h.st with tx := r' } := ⟨hi.rx, e2, hi.flow, hi.room, hi.have_, hi.alt⟩
        show (_ ++ (txStart N cap { h.st with tx := r' }).rx.contents N).Sublist _
        rw [(txStart_inv hi').2.2]; exact ih
    | shift => exact ih

/-- The state is what the steps of the driver make of it. -/
theorem run_st (es : List Ev) : (Hist.run N cap es).st = es.foldl (fun s e => step N cap e s) (St.init N) := by
  induction es using snoc_ind with
  | h0 => rfl
  | h1 es e ih => rw [run_snoc, step_st, ih, List.foldl_append]; rfl

/-- XOFF from the other side does not stop the output: the flag is set and never looked at. -/
theorem C102_violated_xoff :
    (Hist.run 64 8 [.put 65, .recv 19, .put 66, .put 67]).st.txStop = true ∧
    (Hist.run 64 8 [.put 65, .recv 19, .put 66, .put 67]).st.sent = [.flow 17, .data 65, .data 66] := by decide +kernel

/-- The program found nothing to read and is about to wait for an interrupt. A byte that comes between enabling interrupts and waiting
is in the ring, and no interrupt is due: the program waits although there is something to read, until something else happens. -/
theorem C102_violated_wakeup :
    let s := [Ev.put 62, .shift, .ready, .shift, .ready].foldl (fun s e => step 64 8 e s) (St.init 64)
    (getc 64 8 s).1 = none ∧ (step 64 8 (.recv 97) s).rx.contents 64 = [97] ∧ (step 64 8 (.recv 97) s).ie = false := by decide +kernel

instance (l : Late) : Decidable (mayCome N l) := by unfold mayCome; split <;> infer_instance

theorem obeys_of {es : List Ev} (h : ∀ i : Fin es.length, ∀ c, es[i] = .recv c → mayCome N (Hist.run N cap (es.take i)).late) : Obeys N cap es := by
  intro pre c hp _ _
  obtain ⟨t, rfl⟩ := hp
  have := h ⟨pre.length, by simp⟩ c (by simp)
  simpa using this

/-- A sender that sends 40 bytes, 8 of them late, and one more after XON obeys. -/
example : Obeys 64 8 ([.put 62] ++ List.replicate 40 (.recv 97) ++ List.replicate 40 .get ++ [.recv 98]) := by
  refine obeys_of ?_
  have : ∀ i : Fin ([.put 62] ++ List.replicate 40 (.recv 97) ++ List.replicate 40 .get ++ [.recv 98] : List Ev).length,
      mayCome 64 (Hist.run 64 8 (([.put 62] ++ List.replicate 40 (.recv 97) ++ List.replicate 40 .get ++ [.recv 98] : List Ev).take i)).late ∨
        ([.put 62] ++ List.replicate 40 (.recv 97) ++ List.replicate 40 .get ++ [.recv 98] : List Ev)[i] = .get := by decide +kernel
  intro i c hc
  rcases this i with h | h
  · exact h
  · rw [hc] at h; cases h

/-- XON, then 40 bytes of which 8 late, all read: none is lost, XOFF and XON were sent. -/
example : let es := [.put 62] ++ List.replicate 40 (.recv 97) ++ List.replicate 40 .get ++ [.shift]
    (Hist.run 64 8 es).read = List.replicate 40 97 ∧ (Hist.run 64 8 es).st.sent = [.flow 17, .data 62, .flow 19, .flow 17] ∧
    (Hist.run 64 8 (([.put 62] : List Ev) ++ List.replicate 40 (.recv 97))).late = some 8 := by decide +kernel

end Snek.Metal
