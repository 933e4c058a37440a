import Verif.Model.Uart
import Verif.Spec.Serial
/-!
# Rings and flow control of the serial driver
-/
namespace Snek.Uart
open Spec.Serial

variable {N : Nat}

/-- What a ring holds, oldest first. -/
def Ring.contents (N : Nat) (r : Ring) : List UInt8 := (List.range r.count).map fun i => r.buf.getD ((r.read + i) % N) 0

/-- Indices are in range. -/
structure Ring.Ok (N : Nat) (r : Ring) : Prop where
  len : r.buf.length = N
  read : r.read < N
  count : r.count ≤ N

theorem contents_length (r : Ring) : (r.contents N).length = r.count := by simp [Ring.contents]

theorem get_none {r : Ring} (h : r.count = 0) : ringGet N r = (none, r) ∧ r.contents N = [] := by
  refine ⟨by rw [ringGet, if_pos h], ?_⟩
  simp [Ring.contents, h]

theorem get_some {r : Ring} (hr : r.Ok N) (h : r.count ≠ 0) :
    ∃ c r', ringGet N r = (some c, r') ∧ r'.Ok N ∧ r.contents N = c :: r'.contents N ∧ r'.count = r.count - 1 := by
  refine ⟨_, _, by rw [ringGet, if_neg h], ?_, ?_, rfl⟩
  · exact ⟨hr.len, Nat.mod_lt _ (Nat.lt_of_le_of_lt (Nat.zero_le _) hr.read), Nat.le_trans (Nat.sub_le _ _) hr.count⟩
  · obtain ⟨n, hn⟩ := Nat.exists_eq_succ_of_ne_zero h
    simp only [Ring.contents, hn, Nat.succ_sub_one]
    rw [Nat.succ_eq_add_one, List.range_succ_eq_map, List.map_cons, List.map_map]
    refine congr (congrArg _ ?_) ?_
    · rw [Nat.add_zero, Nat.mod_eq_of_lt hr.read]
    · apply List.map_congr_left
      intro i _
      simp only [Function.comp, Nat.succ_eq_add_one]
      rw [Nat.mod_add_mod]
      congr 2
      omega

theorem put_full {r : Ring} (h : r.count = N) (c : UInt8) : ringPut N r c = (false, r) := by rw [ringPut, if_pos h]

theorem mod_ne {a i j n : Nat} (hi : i < j) (hj : j < n) : (a + i) % n ≠ (a + j) % n := by
  intro h
  have h1 := Nat.div_add_mod (a + i) n
  have h2 := Nat.div_add_mod (a + j) n
  have h3 : n * ((a + j) / n - (a + i) / n) = j - i := by
    rw [Nat.mul_sub]; omega
  rcases Nat.eq_zero_or_pos ((a + j) / n - (a + i) / n) with h4 | h4
  · rw [h4] at h3; omega
  · have := Nat.le_mul_of_pos_right n h4; omega

theorem put_room {r : Ring} (hr : r.Ok N) (h : r.count ≠ N) (c : UInt8) :
    ∃ r', ringPut N r c = (true, r') ∧ r'.Ok N ∧ r'.contents N = r.contents N ++ [c] ∧ r'.count = r.count + 1 := by
  have hc := hr.count
  have hN : 0 < N := Nat.lt_of_le_of_lt (Nat.zero_le _) hr.read
  refine ⟨{ r with buf := r.buf.set ((r.read + r.count) % N) c, count := r.count + 1 }, by rw [ringPut, if_neg h], ⟨by simp [hr.len], hr.read, by simp; omega⟩, ?_, rfl⟩
  simp only [Ring.contents, List.range_succ, List.map_append, List.map_cons, List.map_nil]
  refine congr (congrArg _ ?_) ?_
  · apply List.map_congr_left
    intro i hi
    rw [List.mem_range] at hi
    rw [List.getD_eq_getElem?_getD, List.getD_eq_getElem?_getD, List.getElem?_set_ne]
    exact (mod_ne hi (by omega)).symm
  · rw [List.getD_eq_getElem?_getD, List.getElem?_set_self (by rw [hr.len]; exact Nat.mod_lt _ hN)]
    rfl

/-! ## The transmitter -/

def Sent.data? : Sent → Option UInt8
  | .data c => some c
  | _ => none

def Sent.flow? : Sent → Option UInt8
  | .flow c => some c
  | _ => none

/-- Data bytes sent and still to be sent. -/
def output (N : Nat) (s : St) : List UInt8 := s.sent.filterMap Sent.data? ++ s.tx.contents N

theorem alternating_succ (n : Nat) : alternating (n + 1) = alternating n ++ [if n % 2 = 0 then 17 else 19] := by
  simp [alternating, List.range_succ]

/-- What holds between steps. -/
structure Inv (N : Nat) (s : St) : Prop where
  rx : s.rx.Ok N
  tx : s.tx.Ok N
  lost : s.lost = false
  flow : s.flow < 4
  alt : ∃ n, s.sent.filterMap Sent.flow? = alternating n ∧ (n % 2 = 0 ↔ s.flow = 3 ∨ s.flow = 0)

theorem flow_cases {s : St} (h : Inv N s) : s.flow = 0 ∨ s.flow = 1 ∨ s.flow = 2 ∨ s.flow = 3 := by have := h.flow; omega

/-- Everything but the receiver is left to `txStart`. -/
theorem txStart_inv {s : St} (h : Inv N s) : Inv N (txStart N s) ∧ (txStart N s).rx = s.rx ∧ output N (txStart N s) = output N s ∧
    (txStart N s).txStop = s.txStop ∧ (txStart N s).abort = s.abort := by
  unfold txStart
  split
  · rename_i hg
    simp only [Bool.and_eq_true, Bool.not_eq_true'] at hg
    split
    · rename_i he
      refine ⟨?_, rfl, ?_, rfl, rfl⟩
      · obtain ⟨n, h1, h2⟩ := h.alt
        refine ⟨h.rx, h.tx, ?_, Nat.mod_lt _ (by decide), n + 1, ?_, ?_⟩
        · simp [write, nextFlow, h.lost, hg.1]
        · simp only [write, nextFlow, List.filterMap_append, h1, alternating_succ, List.filterMap_cons, Sent.flow?, List.filterMap_nil]
          congr 2
          rcases flow_cases h with e | e | e | e
          · rw [if_pos (h2.2 (.inr e))]; exact if_pos (by rw [e])
          · rw [e] at he; cases he
          · rw [if_neg (fun x => by have := h2.1 x; omega)]; exact if_neg (by rw [e]; decide)
          · rw [e] at he; cases he
        · show (n + 1) % 2 = 0 ↔ (s.flow + 1) % 4 = 3 ∨ (s.flow + 1) % 4 = 0
          rcases flow_cases h with e | e | e | e <;> rw [e] at h2 ⊢ <;> omega
      · simp [output, write, nextFlow, Sent.data?]
    · rename_i ho
      by_cases hc : s.tx.count = 0
      · rw [(get_none (N := N) hc).1]; exact ⟨h, rfl, rfl, rfl, rfl⟩
      · obtain ⟨c, r', e1, e2, e3, _⟩ := get_some h.tx hc
        rw [e1]
        refine ⟨⟨h.rx, e2, ?_, h.flow, ?_⟩, rfl, ?_, rfl, rfl⟩
        · simp [write, h.lost, hg.1]
        · obtain ⟨n, h1, h2⟩ := h.alt
          exact ⟨n, by simpa [write, Sent.flow?, List.filterMap_cons] using h1, h2⟩
        · simp [output, write, Sent.data?, e3]
  · exact ⟨h, rfl, rfl, rfl, rfl⟩

/-- Advance to a pending state. -/
theorem flowDo_inv {s : St} (h : Inv N s) (hf : s.flow = 1 ∨ s.flow = 3) : Inv N (flowDo N s) ∧ (flowDo N s).rx = s.rx ∧ output N (flowDo N s) = output N s ∧
    (flowDo N s).txStop = s.txStop ∧ (flowDo N s).abort = s.abort := by
  refine txStart_inv (s := nextFlow s) ⟨h.rx, h.tx, h.lost, Nat.mod_lt _ (by decide), ?_⟩
  obtain ⟨n, h1, h2⟩ := h.alt
  refine ⟨n, h1, ?_⟩
  show n % 2 = 0 ↔ (s.flow + 1) % 4 = 3 ∨ (s.flow + 1) % 4 = 0
  rcases hf with e | e <;> rw [e] at h2 ⊢ <;> omega

theorem xon_inv {s : St} (h : Inv N s) : Inv N (xon N s) ∧ (xon N s).rx = s.rx ∧ output N (xon N s) = output N s ∧
    (xon N s).txStop = s.txStop ∧ (xon N s).abort = s.abort := by
  unfold xon
  split
  · rename_i hc; exact flowDo_inv h (.inr hc.1)
  · exact ⟨h, rfl, rfl, rfl, rfl⟩

theorem xoff_inv {s : St} (h : Inv N s) : Inv N (xoff N s) ∧ (xoff N s).rx = s.rx ∧ output N (xoff N s) = output N s ∧
    (xoff N s).txStop = s.txStop ∧ (xoff N s).abort = s.abort := by
  unfold xoff
  split
  · rename_i hc; exact flowDo_inv h (.inl hc.1)
  · exact ⟨h, rfl, rfl, rfl, rfl⟩

theorem udre_inv {s : St} (h : Inv N s) : Inv N (udre N s) ∧ (udre N s).rx = s.rx ∧ output N (udre N s) = output N s := by
  have h0 : Inv N { s with dre := false } := ⟨h.rx, h.tx, h.lost, h.flow, h.alt⟩
  obtain ⟨h1, r1, o1, _⟩ := xon_inv h0
  obtain ⟨h2, r2, o2, _⟩ := txStart_inv h1
  exact ⟨h2, r2.trans r1, o2.trans o1⟩

/-! ## The receiver -/

theorem accept_inv {s : St} (h : Inv N s) (c : UInt8) : Inv N (accept N c s) ∧ output N (accept N c s) = output N s ∧
    (accept N c s).rx.contents N = (if (s.rx.contents N).length < N then s.rx.contents N ++ [c] else s.rx.contents N) := by
  unfold accept
  rw [contents_length]
  have hc := h.rx.count
  by_cases hf : s.rx.count = N
  · rw [put_full hf, if_neg (by omega)]
    have h0 : Inv N { s with rx := (false, s.rx).2 } := h
    obtain ⟨h1, r1, o1, _⟩ := xoff_inv h0
    exact ⟨h1, o1, by rw [r1]⟩
  · obtain ⟨r', e1, e2, e3, _⟩ := put_room h.rx hf c
    rw [e1, if_pos (by omega)]
    have h0 : Inv N { s with rx := (true, r').2 } := ⟨e2, h.tx, h.lost, h.flow, h.alt⟩
    obtain ⟨h1, r1, o1, _⟩ := xoff_inv h0
    exact ⟨h1, o1, by rw [r1]; exact e3⟩

theorem recv_inv {s : St} (hN : 0 < N) (h : Inv N s) (c : UInt8) : Inv N (rxIsr N c s) ∧ output N (rxIsr N c s) = output N s ∧
    (rxIsr N c s).rx.contents N = arrive N (s.rx.contents N) c := by
  unfold rxIsr arrive isControl
  split
  · have h0 : Inv N { s with abort := true, rx := { s.rx with count := 0 } } := ⟨⟨h.rx.len, h.rx.read, Nat.zero_le _⟩, h.tx, h.lost, h.flow, h.alt⟩
    obtain ⟨h1, o1, c1⟩ := accept_inv h0 c
    refine ⟨h1, o1, ?_⟩
    rename_i e
    rw [c1, (get_none (N := N) rfl).2, e]
    exact if_pos hN
  · split
    · rename_i e; subst e
      exact ⟨⟨h.rx, h.tx, h.lost, h.flow, h.alt⟩, rfl, rfl⟩
    · split
      · rename_i e; subst e
        have h0 : Inv N { s with txStop := false } := ⟨h.rx, h.tx, h.lost, h.flow, h.alt⟩
        obtain ⟨h1, r1, o1, _⟩ := txStart_inv h0
        exact ⟨h1, o1, by rw [r1]; rfl⟩
      · split
        · rename_i e; subst e
          refine ⟨⟨h.rx, h.tx, ?_, h.flow, ?_⟩, ?_, rfl⟩
          · simp [write, h.lost]
          · obtain ⟨n, h1, h2⟩ := h.alt
            exact ⟨n, by simpa [write, Sent.flow?, List.filterMap_cons] using h1, h2⟩
          · simp [output, write, Sent.data?]
        · rename_i h3 h19 h17 h20
          obtain ⟨h1, o1, c1⟩ := accept_inv h c
          refine ⟨h1, o1, ?_⟩
          rw [c1, if_neg (show ¬ (decide (c = 17) || decide (c = 19) || decide (c = 20)) = true by simp [h17, h19, h20])]

theorem getch_inv {s : St} (h : Inv N s) : Inv N (getch N s).2 ∧ output N (getch N s).2 = output N s ∧
    (getch N s).1 = (s.rx.contents N).head? ∧ (getch N s).2.rx.contents N = (s.rx.contents N).tail := by
  unfold getch
  by_cases hc : s.rx.count = 0
  · rw [(get_none (N := N) hc).1, (get_none (N := N) hc).2]
    exact ⟨h, rfl, rfl, rfl⟩
  · obtain ⟨c, r', e1, e2, e3, _⟩ := get_some h.rx hc
    rw [e1, e3]
    have h0 : Inv N { s with rx := r' } := ⟨e2, h.tx, h.lost, h.flow, h.alt⟩
    obtain ⟨h1, r1, o1, _⟩ := xon_inv h0
    exact ⟨h1, o1, rfl, by simp only [r1]; rfl⟩

theorem putch_inv {s : St} (h : Inv N s) (c : UInt8) : Inv N (putch N c s).2 ∧ (putch N c s).2.rx = s.rx ∧
    output N (putch N c s).2 = output N s ++ (if (putch N c s).1 then [c] else []) := by
  unfold putch
  by_cases hf : s.tx.count = N
  · rw [put_full hf]; exact ⟨h, rfl, by simp⟩
  · obtain ⟨r', e1, e2, e3, _⟩ := put_room h.tx hf c
    rw [e1]
    have h0 : Inv N { s with tx := r' } := ⟨h.rx, e2, h.lost, h.flow, h.alt⟩
    obtain ⟨h1, r1, o1, _⟩ := txStart_inv h0
    refine ⟨h1, r1, o1.trans ?_⟩
    simp [output, e3]

theorem step_inv {s : St} (hN : 0 < N) (h : Inv N s) (e : Ev) : Inv N (step N e s) := by
  cases e with
  | recv c => exact (recv_inv hN h c).1
  | ready =>
    show Inv N (if _ then _ else _)
    split
    · exact (udre_inv h).1
    · exact h
  | get => exact (getch_inv h).1
  | put c => exact (putch_inv h c).1
  | taken => exact ⟨h.rx, h.tx, h.lost, h.flow, h.alt⟩

theorem init_inv (hN : 0 < N) : Inv N (St.init N) :=
  ⟨⟨List.length_replicate, hN, Nat.zero_le _⟩, ⟨List.length_replicate, hN, Nat.zero_le _⟩, rfl, by show 0 < 4; decide, 0, rfl, ⟨fun _ => .inr rfl, fun _ => rfl⟩⟩

/-! ## Progress -/

/-- Whoever waits for the transmitter has its interrupt enabled. -/
structure Wait (s : St) : Prop where
  busy : s.txEmpty = false → s.dre = true
  drained : s.flow = 3 → s.rx.count = 0 → s.dre = true

/-- … and so has whatever is to be sent. -/
def Live (s : St) : Prop := s.txStop = false → s.flow % 2 = 0 ∨ s.tx.count ≠ 0 → s.dre = true

theorem txStart_dre {s : St} (h : Inv N s) : (txStart N s = s ∧ (s.txEmpty = true → s.txStop = false → s.flow % 2 ≠ 0 ∧ s.tx.count = 0)) ∨
    ((txStart N s).dre = true) := by
  unfold txStart
  by_cases hg : (s.txEmpty && !s.txStop) = true
  · rw [if_pos hg]
    by_cases he : s.flow % 2 = 0
    · rw [if_pos he]; exact .inr rfl
    · rw [if_neg he]
      by_cases hc : s.tx.count = 0
      · rw [(get_none (N := N) hc).1]; exact .inl ⟨rfl, fun _ _ => ⟨he, hc⟩⟩
      · obtain ⟨c, r', e1, _⟩ := get_some h.tx hc
        rw [e1]; exact .inr rfl
  · rw [if_neg hg]
    refine .inl ⟨rfl, fun h1 h2 => absurd ?_ hg⟩
    rw [h1, h2]; rfl

theorem txStart_wait {s : St} (h : Inv N s) (w : Wait s) : Wait (txStart N s) ∧ Live (txStart N s) := by
  rcases txStart_dre h with ⟨e, hh⟩ | e
  · rw [e]
    refine ⟨w, fun h1 h2 => ?_⟩
    cases hb : s.txEmpty with
    | false => exact w.busy hb
    | true =>
      obtain ⟨h3, h4⟩ := hh hb h1
      rcases h2 with h2 | h2
      · exact absurd h2 h3
      · exact absurd h4 h2
  · exact ⟨⟨fun _ => e, fun _ _ => e⟩, fun _ _ => e⟩

theorem next_inv {s : St} (h : Inv N s) (hf : s.flow = 1 ∨ s.flow = 3) : Inv N (nextFlow s) := by
  refine ⟨h.rx, h.tx, h.lost, Nat.mod_lt _ (by decide), ?_⟩
  obtain ⟨n, h1, h2⟩ := h.alt
  refine ⟨n, h1, ?_⟩
  show n % 2 = 0 ↔ (s.flow + 1) % 4 = 3 ∨ (s.flow + 1) % 4 = 0
  rcases hf with e | e <;> rw [e] at h2 ⊢ <;> omega

theorem flowDo_wait {s : St} (h : Inv N s) (hf : s.flow = 1 ∨ s.flow = 3) (w : s.txEmpty = false → s.dre = true) : Wait (flowDo N s) ∧ Live (flowDo N s) := by
  refine txStart_wait (next_inv h hf) ⟨w, fun h3 => ?_⟩
  have h3 : (s.flow + 1) % 4 = 3 := h3
  omega

/-- After `xon` nothing is drained without being announced. -/
theorem xon_wait {s : St} (h : Inv N s) (w : s.txEmpty = false → s.dre = true) (l : Live s) : Wait (xon N s) ∧ Live (xon N s) := by
  unfold xon
  split
  · rename_i hc; exact flowDo_wait h (.inr hc.1) w
  · rename_i hc; exact ⟨⟨w, fun h1 h2 => absurd ⟨h1, h2⟩ hc⟩, l⟩

theorem xon_wait' {s : St} (h : Inv N s) (w : s.txEmpty = false → s.dre = true) : Wait (xon N s) := by
  unfold xon
  split
  · rename_i hc; exact (flowDo_wait h (.inr hc.1) w).1
  · rename_i hc; exact ⟨w, fun h1 h2 => absurd ⟨h1, h2⟩ hc⟩

theorem xoff_wait {s : St} (h : Inv N s) (w : Wait s) : Wait (xoff N s) ∧ (Live s → Live (xoff N s)) := by
  unfold xoff
  split
  · rename_i hc
    have := flowDo_wait h (.inl hc.1) w.busy
    exact ⟨this.1, fun _ => this.2⟩
  · exact ⟨w, id⟩

/-- The steps keep it, except for the probe ^T. -/
theorem step_wait {s : St} (hN : 0 < N) (h : Inv N s) (w : Wait s) (e : Ev) (ht : e ≠ .recv 20) : Wait (step N e s) ∧ (Live s → Live (step N e s)) := by
  have acc : ∀ (c : UInt8) (s : St), Inv N s → (s.txEmpty = false → s.dre = true) → Wait (accept N c s) ∧ (Live s → Live (accept N c s)) := by
    intro c s h w
    unfold accept
    by_cases hf : s.rx.count = N
    · rw [put_full hf]
      have h0 : Inv N { s with rx := (false, s.rx).2 } := h
      exact xoff_wait h0 ⟨w, fun _ h2 => by have h2 : s.rx.count = 0 := h2; omega⟩
    · obtain ⟨r', e1, e2, e3, e4⟩ := put_room h.rx hf c
      rw [e1]
      have h0 : Inv N { s with rx := (true, r').2 } := ⟨e2, h.tx, h.lost, h.flow, h.alt⟩
      exact xoff_wait h0 ⟨w, fun _ h2 => by have h2 : r'.count = 0 := h2; omega⟩
  cases e with
  | recv c =>
    show Wait (rxIsr N c s) ∧ (Live s → Live (rxIsr N c s))
    unfold rxIsr
    split
    · have h0 : Inv N { s with abort := true, rx := { s.rx with count := 0 } } := ⟨⟨h.rx.len, h.rx.read, Nat.zero_le _⟩, h.tx, h.lost, h.flow, h.alt⟩
      exact acc c _ h0 w.busy
    · split
      · exact ⟨⟨w.busy, w.drained⟩, fun _ h1 => by cases h1⟩
      · split
        · have h0 : Inv N { s with txStop := false } := ⟨h.rx, h.tx, h.lost, h.flow, h.alt⟩
          have := txStart_wait h0 ⟨w.busy, w.drained⟩
          exact ⟨this.1, fun _ => this.2⟩
        · split
          · rename_i e; subst e; exact absurd rfl ht
          · exact acc c s h w.busy
  | ready =>
    show Wait (if _ then _ else _) ∧ (Live s → Live (if _ then _ else _))
    split
    · rename_i hg
      simp only [Bool.and_eq_true] at hg
      have h0 : Inv N { s with dre := false } := ⟨h.rx, h.tx, h.lost, h.flow, h.alt⟩
      have w1 := xon_wait' h0 (fun hb => by have hb : s.txEmpty = false := hb; rw [hg.2] at hb; cases hb)
      have := txStart_wait (xon_inv h0).1 w1
      exact ⟨this.1, fun _ => this.2⟩
    · exact ⟨w, id⟩
  | get =>
    show Wait (getch N s).2 ∧ (Live s → Live (getch N s).2)
    unfold getch
    by_cases hc : s.rx.count = 0
    · rw [(get_none (N := N) hc).1]; exact ⟨w, id⟩
    · obtain ⟨c, r', e1, e2, e3, _⟩ := get_some h.rx hc
      rw [e1]
      have h0 : Inv N { s with rx := r' } := ⟨e2, h.tx, h.lost, h.flow, h.alt⟩
      exact ⟨xon_wait' h0 w.busy, fun l => (xon_wait h0 w.busy l).2⟩
  | put c =>
    show Wait (putch N c s).2 ∧ (Live s → Live (putch N c s).2)
    unfold putch
    by_cases hf : s.tx.count = N
    · rw [put_full hf]; exact ⟨w, id⟩
    · obtain ⟨r', e1, e2, e3, _⟩ := put_room h.tx hf c
      rw [e1]
      have h0 : Inv N { s with tx := r' } := ⟨h.rx, e2, h.lost, h.flow, h.alt⟩
      have := txStart_wait h0 ⟨w.busy, w.drained⟩
      exact ⟨this.1, fun _ => this.2⟩
  | taken => exact ⟨⟨(fun h1 => by cases h1), w.drained⟩, id⟩

/-- How many bytes are to be sent. -/
def due (s : St) : Nat := s.tx.count + (if s.flow = 0 then 1 else if s.flow = 2 then (if s.rx.count = 0 then 2 else 1) else if s.flow = 3 then (if s.rx.count = 0 then 1 else 0) else 0)

/-- The hardware takes a byte and asks for the next. -/
def round (N : Nat) (s : St) : St := step N .ready (step N .taken s)

/-- One round. -/
theorem round_due {s : St} (hN : 0 < N) (h : Inv N s) (w : Wait s) (l : Live s) (ht : s.txStop = false) :
    Inv N (round N s) ∧ Wait (round N s) ∧ Live (round N s) ∧ (round N s).txStop = false ∧ (round N s).rx = s.rx ∧ due (round N s) = due s - 1 := by
  have h1 : Inv N (step N .taken s) := step_inv hN h .taken
  obtain ⟨w1, l1⟩ := step_wait hN h w .taken (by intro h; cases h)
  obtain ⟨w2, l2⟩ := step_wait hN h1 w1 .ready (by intro h; cases h)
  refine ⟨step_inv hN h1 .ready, w2, l2 (l1 l), ?_⟩
  show (if _ then _ else _ : St).txStop = false ∧ (if _ then _ else _ : St).rx = s.rx ∧ due (if _ then _ else _ : St) = due s - 1
  have e0 : step N .taken s = { s with txEmpty := true } := rfl
  rw [e0] at *
  cases hd : s.dre with
  | false =>
    rw [if_neg (by simp)]
    refine ⟨ht, rfl, ?_⟩
    have a1 : ¬ (s.flow % 2 = 0 ∨ s.tx.count ≠ 0) := fun x => by rw [l ht x] at hd; cases hd
    have a2 : ¬ (s.flow = 3 ∧ s.rx.count = 0) := fun x => by rw [w.drained x.1 x.2] at hd; cases hd
    have : due s = 0 := by
      unfold due
      rcases flow_cases h with e | e | e | e <;> rw [e] <;> simp <;> omega
    show due s = due s - 1
    omega
  | true =>
    rw [if_pos (by simp)]
    have h0 : Inv N { s with txEmpty := true, dre := false } := ⟨h.rx, h.tx, h.lost, h.flow, h.alt⟩
    obtain ⟨x1, x2, _, x4, _⟩ := xon_inv h0
    obtain ⟨_, y2, _, y4, _⟩ := txStart_inv x1
    refine ⟨(y4.trans x4).trans ht, y2.trans x2, ?_⟩
    show due (txStart N (xon N { s with txEmpty := true, dre := false })) = due s - 1
    have htx := h.tx
    have busy : ∀ s : St, s.txEmpty = false → txStart N s = s := fun s hs => by unfold txStart; rw [if_neg (by simp [hs])]
    have even : ∀ s : St, s.txEmpty = true → s.txStop = false → s.flow % 2 = 0 → (txStart N s).flow = (s.flow + 1) % 4 ∧ (txStart N s).tx = s.tx ∧ (txStart N s).rx = s.rx ∧ (txStart N s).txEmpty = false := by
      intro s a b c
      unfold txStart; rw [if_pos (by simp [a, b]), if_pos c]; exact ⟨rfl, rfl, rfl, rfl⟩
    have odd : ∀ s : St, Inv N s → s.txEmpty = true → s.txStop = false → s.flow % 2 = 1 → (txStart N s).flow = s.flow ∧ (txStart N s).tx.count = s.tx.count - 1 ∧ (txStart N s).rx = s.rx := by
      intro s hi a b c
      unfold txStart; rw [if_pos (by simp [a, b]), if_neg (by omega)]
      by_cases hc : s.tx.count = 0
      · rw [(get_none (N := N) hc).1]; exact ⟨rfl, by simp [hc], rfl⟩
      · obtain ⟨c, r', e1, e2, e3, e4⟩ := get_some hi.tx hc
        rw [e1]; exact ⟨rfl, e4, rfl⟩
    unfold xon
    split
    · rename_i hc
      have hc1 : s.flow = 3 := hc.1
      have hc2 : s.rx.count = 0 := hc.2
      unfold flowDo
      obtain ⟨a1, a2, a3, a4⟩ := even (nextFlow { s with txEmpty := true, dre := false }) rfl ht (by show (s.flow + 1) % 4 % 2 = 0; omega)
      rw [busy _ a4]
      unfold due
      rw [a1, a2, a3]
      show s.tx.count + (if ((s.flow + 1) % 4 + 1) % 4 = 0 then 1 else if ((s.flow + 1) % 4 + 1) % 4 = 2 then _ else if ((s.flow + 1) % 4 + 1) % 4 = 3 then _ else 0) = _
      rw [hc1]; simp [hc2]
    · rename_i hc
      have hc : ¬ (s.flow = 3 ∧ s.rx.count = 0) := hc
      rcases flow_cases h with e | e | e | e
      · obtain ⟨a1, a2, a3, a4⟩ := even { s with txEmpty := true, dre := false } rfl ht (by show s.flow % 2 = 0; rw [e])
        unfold due
        rw [a1, a2, a3]
        show s.tx.count + (if (s.flow + 1) % 4 = 0 then 1 else if (s.flow + 1) % 4 = 2 then _ else if (s.flow + 1) % 4 = 3 then _ else 0) = _
        rw [e]; simp
      · obtain ⟨a1, a2, a3⟩ := odd { s with txEmpty := true, dre := false } h0 rfl ht (by show s.flow % 2 = 1; rw [e])
        unfold due
        rw [a1, a2, a3]
        show s.tx.count - 1 + (if s.flow = 0 then 1 else if s.flow = 2 then _ else if s.flow = 3 then _ else 0) = _
        rw [e]; simp
      · obtain ⟨a1, a2, a3, a4⟩ := even { s with txEmpty := true, dre := false } rfl ht (by show s.flow % 2 = 0; rw [e])
        unfold due
        rw [a1, a2, a3]
        show s.tx.count + (if (s.flow + 1) % 4 = 0 then 1 else if (s.flow + 1) % 4 = 2 then _ else if (s.flow + 1) % 4 = 3 then (if s.rx.count = 0 then 1 else 0) else 0) = _
        rw [e]; simp; split <;> omega
      · obtain ⟨a1, a2, a3⟩ := odd { s with txEmpty := true, dre := false } h0 rfl ht (by show s.flow % 2 = 1; rw [e])
        have hr : s.rx.count ≠ 0 := fun x => hc ⟨e, x⟩
        unfold due
        rw [a1, a2, a3]
        show s.tx.count - 1 + (if s.flow = 0 then 1 else if s.flow = 2 then _ else if s.flow = 3 then (if s.rx.count = 0 then 1 else 0) else 0) = _
        rw [e]; simp [hr]

end Snek.Uart
