import Verif.Props.C46
/-!
# C62: serial output is complete and in order under flow control

What was written to the transmit register is `sent`, in order, each byte marked as data of the program, flow control, or the answer to a
probe. `written` lists the bytes that the program was told are accepted.
-/
namespace Snek.Uart
open Spec.Serial

/-- The bytes accepted by `snek_uart_putch`. -/
def written (N : Nat) : List Ev → St → List UInt8
  | [], _ => []
  | .put c :: es, s => (if (putch N c s).1 then [c] else []) ++ written N es (step N (.put c) s)
  | e :: es, s => written N es (step N e s)

theorem output_run {N : Nat} (hN : 0 < N) : ∀ (es : List Ev) {s : St}, Inv N s → output N (run N es s) = output N s ++ written N es s := by
  intro es
  induction es with
  | nil => intro s h; simp [run, written]
  | cons e es ih =>
    intro s h
    have h1 := step_inv hN h e
    show output N (run N es (step N e s)) = _
    rw [ih h1]
    cases e with
    | put c =>
      have : output N (step N (.put c) s) = output N s ++ (if (putch N c s).1 then [c] else []) := (putch_inv h c).2.2
      rw [this, written, List.append_assoc]
    | recv c =>
      have : output N (step N (.recv c) s) = output N s := (recv_inv hN h c).2.1
      rw [this, written]; intro _ x; cases x
    | get =>
      have : output N (step N .get s) = output N s := (getch_inv h).2.1
      rw [this, written]; intro _ x; cases x
    | ready =>
      have : output N (step N .ready s) = output N s := by
        show output N (if _ then _ else _) = _
        split
        · exact (udre_inv h).2.2
        · rfl
      rw [this, written]; intro _ x; cases x
    | taken =>
      rw [written]
      · rfl
      · intro _ x; cases x

section
variable (N : Nat) (hN : 0 < N) (es : List Ev)
include hN

/-- The program's bytes that have been sent, followed by those still waiting, are exactly those the program wrote, in order. -/
theorem C62_output : ((run N es (St.init N)).sent.filterMap Sent.data?) ++ (run N es (St.init N)).tx.contents N = written N es (St.init N) := by
  have := output_run hN es (init_inv hN)
  have e : output N (St.init N) = [] := rfl
  rw [e, List.nil_append] at this
  exact this

/-- No byte is written to the transmit register while it holds one that was not sent. -/
theorem C62_no_overwrite : (run N es (St.init N)).lost = false := (run_inv hN es (init_inv hN)).lost

/-- A byte is refused only when `N` bytes are waiting. -/
theorem C62_accept (c : UInt8) : (putch N c (run N es (St.init N))).1 = false ↔ ((run N es (St.init N)).tx.contents N).length = N := by
  have h := run_inv hN es (init_inv hN)
  rw [contents_length]
  unfold putch
  by_cases hf : (run N es (St.init N)).tx.count = N
  · rw [put_full hf]; simp [hf]
  · obtain ⟨r', e1, _⟩ := put_room h.tx hf c
    rw [e1]; simp [hf]

omit hN in
/-- While the host has stopped the device, nothing is sent, whatever the program and the hardware do. -/
theorem C62_stopped (fs : List Ev) (ht : (run N es (St.init N)).txStop = true) (h17 : .recv 17 ∉ fs) (h20 : .recv 20 ∉ fs) :
    (run N (es ++ fs) (St.init N)).sent = (run N es (St.init N)).sent := by
  have e : run N (es ++ fs) (St.init N) = run N fs (run N es (St.init N)) := by simp [run, List.foldl_append]
  rw [e]
  clear e
  generalize run N es (St.init N) = s at *
  have tx : ∀ s : St, s.txStop = true → txStart N s = s := fun s h => by unfold txStart; rw [if_neg (by simp [h])]
  have fd : ∀ s : St, s.txStop = true → (flowDo N s).sent = s.sent ∧ (flowDo N s).txStop = true := fun s h => by
    unfold flowDo; rw [tx (nextFlow s) h]; exact ⟨rfl, h⟩
  have xn : ∀ s : St, s.txStop = true → (xon N s).sent = s.sent ∧ (xon N s).txStop = true := fun s h => by
    unfold xon; split
    · exact fd s h
    · exact ⟨rfl, h⟩
  have xf : ∀ s : St, s.txStop = true → (xoff N s).sent = s.sent ∧ (xoff N s).txStop = true := fun s h => by
    unfold xoff; split
    · exact fd s h
    · exact ⟨rfl, h⟩
  have st : ∀ (e : Ev) (s : St), s.txStop = true → e ≠ .recv 17 → e ≠ .recv 20 → (step N e s).sent = s.sent ∧ (step N e s).txStop = true := by
    intro e s h e17 e20
    cases e with
    | taken => exact ⟨rfl, h⟩
    | ready =>
      show (if _ then _ else _ : St).sent = _ ∧ (if _ then _ else _ : St).txStop = _
      split
      · unfold udre
        have := xn { s with dre := false } h
        rw [tx _ this.2]; exact this
      · exact ⟨rfl, h⟩
    | get =>
      show (getch N s).2.sent = _ ∧ (getch N s).2.txStop = _
      unfold getch
      split
      · exact ⟨rfl, h⟩
      · exact xn _ h
    | put c =>
      show (putch N c s).2.sent = _ ∧ (putch N c s).2.txStop = _
      unfold putch
      split
      · exact ⟨rfl, h⟩
      · rename_i r _; rw [tx { s with tx := r } h]; exact ⟨rfl, h⟩
    | recv c =>
      show (rxIsr N c s).sent = _ ∧ (rxIsr N c s).txStop = _
      have c17 : c ≠ 17 := fun x => e17 (x ▸ rfl)
      have c20 : c ≠ 20 := fun x => e20 (x ▸ rfl)
      unfold rxIsr
      split
      · exact xf _ h
      · split
        · exact ⟨rfl, rfl⟩
        · exact xf _ h
  induction fs generalizing s with
  | nil => rfl
  | cons f fs ih =>
    obtain ⟨a, b⟩ := st f s ht (fun x => h17 (x ▸ List.mem_cons_self)) (fun x => h20 (x ▸ List.mem_cons_self))
    have := ih (fun x => h17 (List.mem_cons_of_mem _ x)) (fun x => h20 (List.mem_cons_of_mem _ x)) (step N f s) b
    exact this.trans a

/-- Progress: if the host has not probed (^T) and has not stopped the device, then after finitely many rounds everything written has been
sent. (Missing: the host probes, see `C62_violated_probe`.) -/
theorem C62_progress_partial (hs : Started es) (ht : (run N es (St.init N)).txStop = false) :
    ∃ n0, ∀ n, n0 ≤ n → (rounds N n (run N es (St.init N))).sent.filterMap Sent.data? = written N es (St.init N) := by
  obtain ⟨h, w, l⟩ := started_live hN es hs
  refine ⟨due (run N es (St.init N)), fun n hn => ?_⟩
  obtain ⟨h1, r1, d1⟩ := rounds_due hN n h w l ht
  have out : ∀ (n : Nat) {s : St}, Inv N s → output N (rounds N n s) = output N s := by
    intro n
    induction n with
    | zero => intro s _; rfl
    | succ n ih =>
      intro s h
      have a : Inv N (step N .taken s) := step_inv hN h .taken
      rw [rounds, ih (s := round N s) (step_inv hN a .ready)]
      show output N (if _ then _ else _) = _
      split
      · exact (udre_inv a).2.2
      · rfl
  have hc : (rounds N n (run N es (St.init N))).tx.count = 0 := by
    have d0 : due (rounds N n (run N es (St.init N))) = 0 := by omega
    unfold due at d0
    omega
  have e1 := out n h
  rw [output, (get_none (N := N) hc).2, List.append_nil] at e1
  rw [e1]
  exact C62_output N hN es

end

/-- A probe may stall the device: the program has written nothing so far; the host probes, and while the answer is on its way the program
writes a byte. The hardware never asks for it, so it is not sent, however long one waits. -/
theorem C62_violated_probe (n : Nat) :
    let s := run 16 [.recv 20, .put 65] (St.init 16)
    s.txStop = false ∧ written 16 [.recv 20, .put 65] (St.init 16) = [65] ∧ (rounds 16 n s).sent = [.echo 20] := by
  refine ⟨by decide +kernel, by decide +kernel, ?_⟩
  have h0 : ∀ (n : Nat) (s : St), s.dre = false → (rounds 16 n s).sent = s.sent := by
    intro n
    induction n with
    | zero => intro s _; rfl
    | succ n ih =>
      intro s hs
      have e : round 16 s = { s with txEmpty := true } := by
        unfold round step
        exact if_neg (by show ¬ (s.dre && true) = true; rw [hs]; decide)
      rw [rounds, e]; exact ih { s with txEmpty := true } hs
  rw [h0 n _ (by decide +kernel)]
  decide +kernel

/-- Non-vacuity: a stopped device, released. -/
example : (run 16 [.put 65, .put 66, .recv 19, .put 67, .taken, .ready, .taken, .ready] (St.init 16)).sent = [.flow 17] ∧
    (rounds 16 3 (run 16 [.put 65, .put 66, .recv 19, .put 67, .taken, .ready, .taken, .ready, .recv 17] (St.init 16))).sent =
      [.flow 17, .data 65, .data 66, .data 67] := by
  refine ⟨?_, ?_⟩ <;> decide +kernel

end Snek.Uart
