import Verif.Proofs.Uart
/-!
# C45: serial input is a FIFO under interrupts

An execution is any sequence of events (Model/Uart): bytes received, transmitter interrupts, attempts of the program to read or write a
byte. `N` is the size of the ring (16).
-/
namespace Snek.Uart
open Spec.Serial

/-- The state after some events. -/
def run (N : Nat) (es : List Ev) (s : St) : St := es.foldl (fun s e => step N e s) s

/-- What `snek_uart_getch` returned during some events, in order. -/
def delivered (N : Nat) : List Ev → St → List UInt8
  | [], _ => []
  | .get :: es, s => (getch N s).1.toList ++ delivered N es (step N .get s)
  | e :: es, s => delivered N es (step N e s)

/-- What a queue of `N` places delivers during some events, and what it then holds. -/
def queue (N : Nat) : List Ev → List UInt8 → List UInt8 × List UInt8
  | [], q => ([], q)
  | .recv c :: es, q => queue N es (arrive N q c)
  | .get :: es, [] => queue N es []
  | .get :: es, c :: q => (c :: (queue N es q).1, (queue N es q).2)
  | _ :: es, q => queue N es q

/-- The data bytes received. -/
def received : List Ev → List UInt8
  | [] => []
  | .recv c :: es => if isControl c then received es else c :: received es
  | _ :: es => received es

theorem run_inv {N : Nat} (hN : 0 < N) (es : List Ev) : ∀ {s : St}, Inv N s → Inv N (run N es s) := by
  induction es with
  | nil => intro s h; exact h
  | cons e es ih => intro s h; exact ih (step_inv hN h e)

theorem fifo_from {N : Nat} (hN : 0 < N) (es : List Ev) : ∀ {s : St}, Inv N s →
    delivered N es s = (queue N es (s.rx.contents N)).1 ∧ (run N es s).rx.contents N = (queue N es (s.rx.contents N)).2 := by
  induction es with
  | nil => intro s h; exact ⟨rfl, rfl⟩
  | cons e es ih =>
    intro s h
    have ih := ih (step_inv hN h e)
    cases e with
    | recv c =>
      rw [(show (step N (.recv c) s).rx.contents N = _ from (recv_inv hN h c).2.2)] at ih
      exact ih
    | get =>
      have hg := getch_inv h
      rw [(show (step N .get s).rx.contents N = _ from hg.2.2.2)] at ih
      rw [delivered, hg.2.2.1]
      cases hq : s.rx.contents N with
      | nil => rw [hq] at ih; exact ih
      | cons c q =>
        rw [hq] at ih
        refine ⟨?_, ih.2⟩
        show [c] ++ _ = c :: _
        rw [ih.1]; rfl
    | put c =>
      have : (step N (.put c) s).rx = s.rx := (putch_inv h c).2.1
      rw [this] at ih; exact ih
    | ready =>
      have : (step N .ready s).rx = s.rx := by
        show (if _ then _ else _ : St).rx = _
        split
        · exact (udre_inv h).2.1
        · rfl
      rw [this] at ih; exact ih
    | taken => exact ih

section
variable (N : Nat) (hN : 0 < N) (es : List Ev)
include hN

/-- For every interleaving, the program gets what a queue of `N` places delivers: bytes in order of arrival; a byte is dropped only
when it finds the queue full; ^C discards what has not been read. -/
theorem C45_fifo : delivered N es (St.init N) = (queue N es []).1 := (fifo_from hN es (init_inv hN)).1

/-- Each received byte is delivered at most once and in order. -/
theorem C45_order : (delivered N es (St.init N)).Sublist (received es) := by
  rw [C45_fifo N hN es]
  have go : ∀ (es : List Ev) (q : List UInt8), (queue N es q).1.Sublist (q ++ received es) := by
    intro es
    induction es with
    | nil => intro q; exact List.nil_sublist _
    | cons e es ih =>
      intro q
      cases e with
      | recv c =>
        refine (ih (arrive N q c)).trans ?_
        unfold arrive
        rw [received]
        split
        · rename_i e; subst e
          rw [if_neg (by decide)]
          exact List.sublist_append_of_sublist_right (List.Sublist.refl _)
        · split
          · exact List.Sublist.refl _
          · split
            · rw [List.append_assoc]; exact List.Sublist.refl _
            · exact (List.Sublist.refl q).append (List.sublist_cons_self _ _)
      | get =>
        cases q with
        | nil => exact ih []
        | cons c q => exact (ih q).cons_cons c
      | put c => exact ih q
      | ready => exact ih q
      | taken => exact ih q
  exact go es []

/-- Nothing is lost if the sender never has more than `N` bytes outstanding (and does not interrupt): what was received is what was
delivered and what is still to be read. -/
theorem C45_lossless (h3 : .recv 3 ∉ es) (hroom : ∀ pre, pre <+: es → (received pre).length ≤ (delivered N pre (St.init N)).length + N) :
    received es = delivered N es (St.init N) ++ (run N es (St.init N)).rx.contents N := by
  have hq : ∀ es, delivered N es (St.init N) = (queue N es []).1 := fun es => C45_fifo N hN es
  rw [hq, (fifo_from hN es (init_inv hN)).2]
  have hroom' : ∀ pre, pre <+: es → (received pre).length ≤ (queue N pre []).1.length + N := fun pre hp => by rw [← hq]; exact hroom pre hp
  have go : ∀ (es : List Ev) (q : List UInt8), .recv 3 ∉ es → (∀ pre, pre <+: es → q.length + (received pre).length ≤ (queue N pre q).1.length + N) →
      q ++ received es = (queue N es q).1 ++ (queue N es q).2 := by
    intro es
    induction es with
    | nil => intro q _ _; simp [queue, received]
    | cons e es ih =>
      intro q h3 hr
      have h3' : .recv 3 ∉ es := fun x => h3 (List.mem_cons_of_mem _ x)
      have hr' : ∀ pre, pre <+: es → q.length + (received (e :: pre)).length ≤ (queue N (e :: pre) q).1.length + N :=
        fun pre hp => hr (e :: pre) (List.cons_prefix_cons.2 ⟨rfl, hp⟩)
      cases e with
      | recv c =>
        have hc3 : c ≠ 3 := fun x => h3 (x ▸ List.mem_cons_self)
        simp only [queue, received] at hr' ⊢
        unfold arrive at hr' ⊢
        rw [if_neg hc3] at hr' ⊢
        by_cases hc : isControl c = true
        · simp only [if_pos hc] at hr' ⊢
          exact ih q h3' hr'
        · simp only [if_neg hc] at hr' ⊢
          have h0 := hr' [] List.nil_prefix
          by_cases hl : q.length < N
          · simp only [if_pos hl] at hr' h0 ⊢
            rw [← ih (q ++ [c]) h3' (fun pre hp => by have := hr' pre hp; simp at this ⊢; omega)]
            simp
          · simp only [if_neg hl] at h0
            simp [queue, received] at h0
            omega
      | get =>
        cases q with
        | nil => exact ih [] h3' hr'
        | cons c q =>
          simp only [queue, received] at hr' ⊢
          rw [List.cons_append, List.cons_append, ← ih q h3' (fun pre hp => by have := hr' pre hp; simp at this; omega)]
      | put c => exact ih q h3' hr'
      | ready => exact ih q h3' hr'
      | taken => exact ih q h3' hr'
  exact go es [] h3 (fun pre hp => by have := hroom' pre hp; simpa using this)

/-- No interleaving makes an index leave its ring. -/
theorem C45_bounds : (run N es (St.init N)).rx.Ok N ∧ (run N es (St.init N)).tx.Ok N :=
  ⟨(run_inv hN es (init_inv hN)).rx, (run_inv hN es (init_inv hN)).tx⟩

end

/-- Two bytes, a read between them, XOFF and XON in between: `a`, `b` delivered, `c` left. -/
example : delivered 16 [.recv 97, .recv 19, .get, .recv 98, .get, .get, .recv 17, .recv 99] (St.init 16) = [97, 98] ∧
    (run 16 [.recv 97, .recv 19, .get, .recv 98, .get, .get, .recv 17, .recv 99] (St.init 16)).rx.contents 16 = [99] := by decide +kernel

/-- Seventeen bytes without a read: the last one is lost. -/
example : received ((List.range 17).map fun i => .recv (UInt8.ofNat (97 + i))) ≠
    (run 16 ((List.range 17).map fun i => .recv (UInt8.ofNat (97 + i))) (St.init 16)).rx.contents 16 := by decide +kernel

end Snek.Uart
