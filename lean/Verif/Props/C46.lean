import Verif.Props.C45
/-!
# C46: serial flow control

`lastFlow` is the last of XON (17) and XOFF (19) that was sent to the host. A `round` is the hardware sending the byte in its register and
asking for the next one; the theorems about what is eventually sent say that it is sent after finitely many rounds.
-/
namespace Snek.Uart
open Spec.Serial

/-- The last flow control character sent. -/
def lastFlow (s : St) : Option UInt8 := (s.sent.filterMap Sent.flow?).getLast?

/-- `n` rounds. -/
def rounds (N : Nat) : Nat → St → St
  | 0, s => s
  | n + 1, s => rounds N n (round N s)

theorem alternating_last (n : Nat) : (alternating n).getLast? = if n = 0 then none else if n % 2 = 1 then some 17 else some 19 := by
  cases n with
  | zero => rfl
  | succ n =>
    rw [alternating_succ, List.getLast?_concat, if_neg (show ¬ (n + 1 = 0) by omega)]
    rcases Nat.mod_two_eq_zero_or_one n with h | h
    · rw [if_pos h, if_pos (by omega)]
    · rw [if_neg (by omega), if_neg (by omega)]

theorem lastFlow_on {N : Nat} {s : St} (h : Inv N s) : lastFlow s = some 17 ↔ s.flow = 1 ∨ s.flow = 2 := by
  obtain ⟨n, h1, h2⟩ := h.alt
  unfold lastFlow
  rw [h1, alternating_last]
  have := flow_cases h
  constructor
  · intro e
    split at e
    · cases e
    · split at e
      · omega
      · cases e
  · intro e
    rw [if_neg (by rintro rfl; omega), if_pos (by omega)]

theorem lastFlow_off {N : Nat} {s : St} (h : Inv N s) (h3 : s.flow = 3) (h0 : lastFlow s ≠ none) : lastFlow s = some 19 := by
  obtain ⟨n, h1, h2⟩ := h.alt
  unfold lastFlow at h0 ⊢
  rw [h1, alternating_last] at h0 ⊢
  split
  · rename_i e; rw [if_pos e] at h0; exact absurd rfl h0
  · rw [if_neg (by omega)]

/-- What was sent stays sent. -/
theorem txStart_sent (N : Nat) (s : St) : s.sent <+: (txStart N s).sent := by
  unfold txStart
  split
  · split
    · exact List.prefix_append _ _
    · split
      · exact List.prefix_rfl
      · exact List.prefix_append _ _
  · exact List.prefix_rfl

theorem xon_sent (N : Nat) (s : St) : s.sent <+: (xon N s).sent := by
  unfold xon; split
  · exact txStart_sent N (nextFlow s)
  · exact List.prefix_rfl

theorem xoff_sent (N : Nat) (s : St) : s.sent <+: (xoff N s).sent := by
  unfold xoff; split
  · exact txStart_sent N (nextFlow s)
  · exact List.prefix_rfl

theorem lastFlow_some {s t : St} (h : s.sent <+: t.sent) (hs : lastFlow s ≠ none) : lastFlow t ≠ none := by
  obtain ⟨l, hl⟩ := h
  unfold lastFlow at *
  rw [← hl, List.filterMap_append]
  intro x
  rw [List.getLast?_eq_none_iff, List.append_eq_nil_iff] at x
  rw [x.1] at hs
  exact hs rfl

/-- XOFF is owed or sent. -/
def Off (s : St) : Prop := (s.flow = 2 ∨ s.flow = 3) ∧ s.rx.count ≠ 0 ∧ lastFlow s ≠ none

theorem round_off {N : Nat} {s : St} (h : Off s) : Off (round N s) := by
  have key : ∀ s : St, Off s → Off (txStart N s) := by
    intro s h
    refine ⟨?_, ?_, lastFlow_some (txStart_sent N s) h.2.2⟩
    · unfold txStart
      split
      · split
        · show (s.flow + 1) % 4 = 2 ∨ (s.flow + 1) % 4 = 3
          have := h.1; omega
        · split <;> exact h.1
      · exact h.1
    · unfold txStart
      split
      · split
        · exact h.2.1
        · split <;> exact h.2.1
      · exact h.2.1
  show Off (if _ then _ else _ : St)
  split
  · have e : xon N { (step N .taken s) with dre := false } = { (step N .taken s) with dre := false } := by
      unfold xon; exact if_neg (fun x => h.2.1 x.2)
    unfold udre
    rw [e]
    exact key _ h
  · exact h

theorem rounds_off {N : Nat} : ∀ (n : Nat) {s : St}, Off s → Off (rounds N n s)
  | 0, _, h => h
  | n + 1, _, h => rounds_off n (round_off h)

theorem rounds_due {N : Nat} (hN : 0 < N) : ∀ (n : Nat) {s : St}, Inv N s → Wait s → Live s → s.txStop = false →
    Inv N (rounds N n s) ∧ (rounds N n s).rx = s.rx ∧ due (rounds N n s) = due s - n := by
  intro n
  induction n with
  | zero => intro s h w l t; exact ⟨h, rfl, rfl⟩
  | succ n ih =>
    intro s h w l t
    obtain ⟨h1, w1, l1, t1, r1, d1⟩ := round_due hN h w l t
    obtain ⟨a, b, c⟩ := ih h1 w1 l1 t1
    exact ⟨a, b.trans r1, by rw [rounds, c, d1]; omega⟩

/-- An execution in which the program has written something and the host has not probed. -/
def Started (es : List Ev) : Prop := (∃ c, .put c ∈ es) ∧ .recv 20 ∉ es

theorem init_wait (N : Nat) : Wait (St.init N) := ⟨(fun h => by cases h), (fun h => by cases h)⟩

theorem put_live {N : Nat} {s : St} (h : Inv N s) (w : Wait s) (c : UInt8) (hc : s.tx.count ≠ N) : Live (step N (.put c) s) := by
  show Live (putch N c s).2
  unfold putch
  obtain ⟨r', e1, e2, e3, _⟩ := put_room h.tx hc c
  rw [e1]
  have h0 : Inv N { s with tx := r' } := ⟨h.rx, e2, h.lost, h.flow, h.alt⟩
  exact (txStart_wait h0 ⟨w.busy, w.drained⟩).2

theorem started_live {N : Nat} (hN : 0 < N) (es : List Ev) (hs : Started es) :
    Inv N (run N es (St.init N)) ∧ Wait (run N es (St.init N)) ∧ Live (run N es (St.init N)) := by
  have empty : ∀ s : St, s.tx.count = 0 → (txStart N s).tx.count = 0 := by
    intro s h
    unfold txStart
    split
    · split
      · exact h
      · rw [(get_none (N := N) h).1]; exact h
    · exact h
  have fdo : ∀ s : St, s.tx.count = 0 → (flowDo N s).tx.count = 0 := fun s h => empty _ h
  have hxon : ∀ s : St, s.tx.count = 0 → (xon N s).tx.count = 0 := fun s h => by unfold xon; split; exact fdo s h; exact h
  have hxoff : ∀ s : St, s.tx.count = 0 → (xoff N s).tx.count = 0 := fun s h => by unfold xoff; split; exact fdo s h; exact h
  have go : ∀ (es : List Ev) (s : St), .recv 20 ∉ es → Inv N s → Wait s → (Live s ∨ s.tx.count = 0 ∧ ∃ c, .put c ∈ es) →
      Inv N (run N es s) ∧ Wait (run N es s) ∧ Live (run N es s) := by
    intro es
    induction es with
    | nil =>
      intro s _ h w l
      rcases l with l | ⟨_, _, l⟩
      · exact ⟨h, w, l⟩
      · cases l
    | cons e es ih =>
      intro s h20 h w l
      have ht : e ≠ .recv 20 := fun x => h20 (x ▸ List.mem_cons_self)
      obtain ⟨w1, l1⟩ := step_wait hN h w e ht
      refine ih _ (fun x => h20 (List.mem_cons_of_mem _ x)) (step_inv hN h e) w1 ?_
      rcases l with l | ⟨l0, c, lc⟩
      · exact .inl (l1 l)
      · cases e with
        | put d => exact .inl (put_live h w d (by omega))
        | get =>
          refine .inr ⟨?_, c, by simpa using lc⟩
          show (getch N s).2.tx.count = 0
          unfold getch
          by_cases hc : s.rx.count = 0
          · rw [(get_none (N := N) hc).1]; exact l0
          · obtain ⟨c, r', e1, _⟩ := get_some h.rx hc
            rw [e1]; exact hxon _ l0
        | ready =>
          refine .inr ⟨?_, c, by simpa using lc⟩
          show (if _ then _ else _ : St).tx.count = 0
          split
          · exact empty _ (hxon _ l0)
          · exact l0
        | taken => exact .inr ⟨l0, c, by simpa using lc⟩
        | recv d =>
          refine .inr ⟨?_, c, by simpa using lc⟩
          show (rxIsr N d s).tx.count = 0
          unfold rxIsr
          split
          · exact hxoff _ l0
          · split
            · exact l0
            · split
              · exact empty _ l0
              · split
                · exact l0
                · exact hxoff _ l0
  exact go es _ hs.2 (init_inv hN) (init_wait N) (.inr ⟨rfl, hs.1⟩)

section
variable (N : Nat) (hN : 0 < N) (es : List Ev)
include hN

/-- XON and XOFF are sent alternately, XON first. -/
theorem C46_alternate : ∃ n, (run N es (St.init N)).sent.filterMap Sent.flow? = alternating n := by
  obtain ⟨n, h, _⟩ := (run_inv hN es (init_inv hN)).alt
  exact ⟨n, h⟩

/-- When the program has read everything and the host lets it send, XON is what the host sees last: it may send. -/
theorem C46_resume (hs : Started es) (ht : (run N es (St.init N)).txStop = false) (hr : (run N es (St.init N)).rx.contents N = []) :
    ∃ n0, ∀ n, n0 ≤ n → lastFlow (rounds N n (run N es (St.init N))) = some 17 := by
  obtain ⟨h, w, l⟩ := started_live hN es hs
  refine ⟨due (run N es (St.init N)), fun n hn => ?_⟩
  obtain ⟨h1, r1, d1⟩ := rounds_due hN n h w l ht
  rw [lastFlow_on h1]
  have hc : (run N es (St.init N)).rx.count = 0 := by rw [← contents_length (N := N), hr]; rfl
  have d0 : due (rounds N n (run N es (St.init N))) = 0 := by omega
  unfold due at d0
  rw [r1, hc] at d0
  have := flow_cases h1
  rcases flow_cases h1 with e | e | e | e <;> rw [e] at d0 ⊢ <;> simp at d0 ⊢

/-- XOFF: if the host was told that it may send, and a byte fills the buffer to half its size or more, then XOFF is what the host sees
last, as long as the program does not read. (Missing: the case that XON is still owed, see `C46_violated_stop`.) -/
theorem C46_stop_partial (c : UInt8) (hs : Started es) (hc : isControl c = false) (hon : lastFlow (run N es (St.init N)) = some 17)
    (ht : (run N es (St.init N)).txStop = false) (hr : N / 2 ≤ ((run N (es ++ [.recv c]) (St.init N)).rx.contents N).length) :
    ∃ n0, ∀ n, n0 ≤ n → lastFlow (rounds N n (run N (es ++ [.recv c]) (St.init N))) = some 19 := by
  have hc20 : c ≠ 20 := by rintro rfl; cases hc
  have hs' : Started (es ++ [.recv c]) := by
    refine ⟨?_, ?_⟩
    · obtain ⟨d, hd⟩ := hs.1; exact ⟨d, List.mem_append_left _ hd⟩
    · intro x
      rcases List.mem_append.1 x with x | x
      · exact hs.2 x
      · simp at x; exact hc20 x.symm
  obtain ⟨h0, _, _⟩ := started_live hN es hs
  obtain ⟨h, w, l⟩ := started_live hN _ hs'
  have hsome : lastFlow (run N es (St.init N)) ≠ none := by rw [hon]; exact Option.some_ne_none _
  rw [lastFlow_on h0] at hon
  have hstep : run N (es ++ [.recv c]) (St.init N) = rxIsr N c (run N es (St.init N)) := by simp [run, step]
  generalize run N es (St.init N) = s at *
  rw [hstep] at h w l hr ⊢
  -- the state after the byte: XOFF sent or pending
  have key : ∀ s : St, Inv N s → s.flow = 1 ∨ s.flow = 2 → s.txStop = false → N / 2 ≤ ((accept N c s).rx.contents N).length →
      ((accept N c s).flow = 2 ∨ (accept N c s).flow = 3) ∧ (accept N c s).txStop = false ∧ (accept N c s).rx.count ≠ 0 := by
    intro s h hf ht hr
    unfold accept at hr ⊢
    have h0 : Inv N { s with rx := (ringPut N s.rx c).2 } ∧ (ringPut N s.rx c).2.count ≠ 0 := by
      by_cases hfull : s.rx.count = N
      · rw [put_full hfull]; exact ⟨h, by show s.rx.count ≠ 0; omega⟩
      · obtain ⟨r', e1, e2, e3, e4⟩ := put_room h.rx hfull c
        rw [e1]; exact ⟨⟨e2, h.tx, h.lost, h.flow, h.alt⟩, by show r'.count ≠ 0; omega⟩
    obtain ⟨h0, hne⟩ := h0
    obtain ⟨x1, x2, _, x4, _⟩ := xoff_inv h0
    refine ⟨?_, x4.trans ht, by rw [x2]; exact hne⟩
    rw [x2, contents_length] at hr
    unfold xoff
    rcases hf with e | e
    · rw [if_pos ⟨e, hr⟩]
      unfold flowDo txStart
      split
      · rw [if_pos (by show (s.flow + 1) % 4 % 2 = 0; rw [e])]
        right
        show ((s.flow + 1) % 4 + 1) % 4 = 3
        rw [e]
      · left
        show (s.flow + 1) % 4 = 2
        rw [e]
    · rw [if_neg (by show ¬ (s.flow = 1 ∧ _); omega)]
      exact .inl e
  have hs3 : Off (rxIsr N c s) ∧ (rxIsr N c s).txStop = false := by
    have hk : ∀ s : St, Inv N s → s.flow = 1 ∨ s.flow = 2 → s.txStop = false → N / 2 ≤ ((accept N c s).rx.contents N).length → lastFlow s ≠ none →
        Off (accept N c s) ∧ (accept N c s).txStop = false := by
      intro s a1 a2 a3 a4 a5
      obtain ⟨k1, k2, k3⟩ := key s a1 a2 a3 a4
      exact ⟨⟨k1, k3, lastFlow_some (s := s) (xoff_sent N { s with rx := (ringPut N s.rx c).2 }) a5⟩, k2⟩
    unfold rxIsr at hr ⊢
    split
    · rename_i e
      rw [if_pos e] at hr
      exact hk { s with abort := true, rx := { s.rx with count := 0 } } ⟨⟨h0.rx.len, h0.rx.read, Nat.zero_le _⟩, h0.tx, h0.lost, h0.flow, h0.alt⟩ hon ht hr hsome
    · rename_i e3
      rw [if_neg e3] at hr
      have e19 : c ≠ 19 := by rintro rfl; cases hc
      have e17 : c ≠ 17 := by rintro rfl; cases hc
      rw [if_neg e19, if_neg e17, if_neg hc20] at hr
      rw [if_neg e19, if_neg e17]
      exact hk s h0 hon ht hr hsome
  refine ⟨due (rxIsr N c s), fun n hn => ?_⟩
  obtain ⟨h1, r1, d1⟩ := rounds_due hN n h w l hs3.2
  have ho := rounds_off (N := N) n hs3.1
  have d0 : due (rounds N n (rxIsr N c s)) = 0 := by omega
  refine lastFlow_off h1 (ho.1.resolve_left fun e => ?_) ho.2.2
  unfold due at d0
  rw [e] at d0
  simp at d0
  have := d0.2
  split at this <;> omega

end

/-- XON with a full buffer: the host stops the device before it has said anything and sends 16 bytes; when it lets the device go on, the
device invites it to send, although there is no room. The next byte is lost. -/
theorem C46_violated_stop :
    let es := [.recv 19, .put 65] ++ List.replicate 16 (.recv 66) ++ [.recv 17]
    Started es ∧ lastFlow (run 16 es (St.init 16)) = some 17 ∧ ((run 16 es (St.init 16)).rx.contents 16).length = 16 ∧
      (run 16 (es ++ [.recv 67]) (St.init 16)).rx.contents 16 = List.replicate 16 66 := by
  refine ⟨⟨⟨65, by decide⟩, by decide⟩, ?_, ?_, ?_⟩ <;> decide +kernel

/-- Non-vacuity: the prompt is written, eight bytes arrive, and XOFF goes out after at most the bytes that wait. -/
example : Started [.put 62, .taken, .ready] ∧ lastFlow (run 16 ([.put 62, .taken, .ready] ++ List.replicate 7 (.recv 66)) (St.init 16)) = some 17 ∧
    16 / 2 ≤ ((run 16 ([.put 62, .taken, .ready] ++ List.replicate 8 (.recv 66)) (St.init 16)).rx.contents 16).length ∧
    lastFlow (rounds 16 1 (run 16 ([.put 62, .taken, .ready] ++ List.replicate 8 (.recv 66)) (St.init 16))) = some 19 := by
  refine ⟨⟨⟨62, by decide⟩, by decide⟩, ?_, ?_, ?_⟩ <;> decide +kernel

/-- … and when they have been read, XON. -/
example : (run 16 ([.put 62, .taken, .ready] ++ List.replicate 8 (.recv 66) ++ [.taken, .ready] ++ List.replicate 8 .get) (St.init 16)).rx.contents 16 = [] ∧
    (run 16 ([.put 62, .taken, .ready] ++ List.replicate 8 (.recv 66) ++ [.taken, .ready, .taken, .ready] ++ List.replicate 8 .get) (St.init 16)).sent =
      [.flow 17, .data 62, .flow 19, .flow 17] := by
  refine ⟨?_, ?_⟩ <;> decide +kernel

end Snek.Uart
