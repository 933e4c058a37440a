import Verif.Proofs.UsbProgress
/-!
# C96 The board answers the host's control requests

`Spec.UsbControl.answer` says what a host is to get for a request, given the requests before: descriptors, status, line coding. The model (`Model/UsbControl`) has
the device, the interrupt handler, the hardware and a host that keeps to the rules (`Polite`), in every interleaving; `done` is what the host has asked and got.

Partial: not for the number of the configuration (`C96_violated_configuration`), nor for requests that are answered with exactly as many bytes as wanted in
full packets (`Loose`, `C96_violated_exact`); addresses only when the interrupt of the last packet has been served (`Calm`, `C96_violated_address`).
-/
namespace Snek.UsbControl
open Spec.UsbControl

/-- In every execution, for every table of descriptors: what the host got for each request is what the specification says, given the requests before it. -/
theorem C96_answers_partial (board : Board) (hw : Wf board) (s : State)
    (h : Reach (fun _ r => Polite r ∧ Loose board r) (memory board) s) (i : Nat) (r : Req) (got : List UInt8) (hi : s.done[i]? = some (r, got))
    (hr : getsConfiguration r = false) : got = answer board ((s.done.take i).map Prod.fst) r :=
  (reach_inv hw (fun _ _ hm => hm) h).log i r got hi hr

/-- A descriptor, to spell it out: the host gets as much of it as it wants. -/
theorem C96_descriptor_partial (board : Board) (hw : Wf board) (s : State)
    (h : Reach (fun _ r => Polite r ∧ Loose board r) (memory board) s) (r : Req) (got : List UInt8) (hi : (r, got) ∈ s.done)
    (hr : r.type = 0 ∧ r.recip = 0 ∧ r.request = 6) : got = (descriptor board r.value).take r.length := by
  obtain ⟨i, hi⟩ := List.getElem?_of_mem hi
  rw [C96_answers_partial board hw s h i r got hi (by simp [getsConfiguration, hr])]
  simp [answer, full, hr, getsDescriptor]

/-- The board's own number, read as string 3, tells all boards apart (32 hexadecimal digits). -/
theorem C96_serial (a b : Nat) (ha : a < 2 ^ 128) (hb : b < 2 ^ 128) (h : serial a = serial b) : a = b := by
  have key : ∀ k, k < 32 → a / 16 ^ k % 16 = b / 16 ^ k % 16 := by
    intro k hk
    have hd : ∀ x : Nat, (serial x)[2 + 2 * (31 - k)]? = some (UInt8.ofNat ("0123456789abcdef".toList.getD (x / 16 ^ k % 16) '?').toNat) := by
      intro x
      unfold serial
      rw [show List.range 32 = [0, 1, 2, 3, 4, 5, 6, 7, 8, 9, 10, 11, 12, 13, 14, 15, 16, 17, 18, 19, 20, 21, 22, 23, 24, 25, 26, 27, 28, 29, 30, 31] from by decide]
      simp only [List.flatMap_cons, List.flatMap_nil, List.append_nil, List.cons_append, List.nil_append]
      match k, hk with
      | 0, _ | 1, _ | 2, _ | 3, _ | 4, _ | 5, _ | 6, _ | 7, _ | 8, _ | 9, _ | 10, _ | 11, _ | 12, _ | 13, _ | 14, _ | 15, _ => rfl
      | 16, _ | 17, _ | 18, _ | 19, _ | 20, _ | 21, _ | 22, _ | 23, _ | 24, _ | 25, _ | 26, _ | 27, _ | 28, _ | 29, _ | 30, _ | 31, _ => rfl
      | n + 32, h => exact absurd h (by omega)
    have e := (hd a).symm.trans ((congrArg (fun l => l[2 + 2 * (31 - k)]?) h).trans (hd b))
    have inj : ∀ x y : Fin 16, UInt8.ofNat ("0123456789abcdef".toList.getD x.val '?').toNat = UInt8.ofNat ("0123456789abcdef".toList.getD y.val '?').toNat → x = y := by
      decide +kernel
    have := inj ⟨a / 16 ^ k % 16, Nat.mod_lt _ (by omega)⟩ ⟨b / 16 ^ k % 16, Nat.mod_lt _ (by omega)⟩ (Option.some.inj e)
    exact congrArg Fin.val this
  have up : ∀ k, k ≤ 32 → a % 16 ^ k = b % 16 ^ k := by
    intro k
    induction k with
    | zero => intro _; simp [Nat.mod_one]
    | succ k ih =>
      intro hk
      rw [Nat.pow_succ, Nat.mod_mul, Nat.mod_mul, ih (by omega), key k (by omega)]
  have := up 32 (Nat.le_refl _)
  rwa [Nat.mod_eq_of_lt (by omega), Nat.mod_eq_of_lt (by omega)] at this

/-- The line coding that the host gets is the one that was set last. -/
theorem C96_coding_partial (board : Board) (hw : Wf board) (s : State)
    (h : Reach (fun _ r => Polite r ∧ Loose board r) (memory board) s) (i j : Nat) (hij : i < j) (r q : Req) (got got' : List UInt8)
    (hi : s.done[i]? = some (r, got)) (hj : s.done[j]? = some (q, got')) (hset : setsCoding r = true) (hget : getsCoding q = true) (hq : 7 ≤ q.length)
    (hlast : ∀ k x gx, i < k → k < j → s.done[k]? = some (x, gx) → setsCoding x = false) : got' = r.data := by
  have inv := reach_inv hw (fun _ _ hm => hm) h
  have hq' : q.type = 1 ∧ q.request = 0x21 := by unfold getsCoding at hget; simpa using hget
  have key := C96_answers_partial board hw s h j q got' hj (by simp [getsConfiguration, hq'])
  have hc : ∀ n, i < n → n ≤ j → coding ((s.done.take n).map Prod.fst) = r.data := by
    intro n
    induction n with
    | zero => intro h; omega
    | succ n ih =>
      intro h1 h2
      have hjl : j < s.done.length := (List.getElem?_eq_some_iff.mp hj).1
      have hn : n < s.done.length := by omega
      rw [List.take_add_one, List.getElem?_eq_getElem hn, Option.toList_some, List.map_append, List.map_cons, List.map_nil, coding_snoc]
      by_cases e : n = i
      · subst e
        rw [List.getElem?_eq_getElem hn, Option.some.injEq] at hi
        rw [hi, if_pos hset]
      · have := hlast n (s.done[n]).1 (s.done[n]).2 (by omega) (by omega) (by rw [List.getElem?_eq_getElem hn])
        rw [this]
        exact ih (by omega) (by omega)
  have hlen : r.data.length = 7 := by
    have hcs := hc j hij (Nat.le_refl _)
    -- the lengths are right in every prefix: they were when the request was made
    have : ∀ s', Reach (fun _ r => Polite r ∧ Loose board r) (memory board) s' → (∀ x ∈ s'.done, setsCoding x.1 = true → x.1.data.length = 7) ∧
        (∀ x, s'.phase = .statusIn x ∨ (∃ g, s'.phase = .statusOut x g) ∨ (∃ g, s'.phase = .dataIn x g) ∨ s'.phase = .dataOut x → Polite x) := by
      intro s' hs'
      induction hs' with
      | init => exact ⟨(fun x hx => by cases hx), (fun x hx => by rcases hx with e | ⟨g, e⟩ | ⟨g, e⟩ | e <;> cases e)⟩
      | step a b _ st ih =>
        obtain ⟨i1, i2⟩ := ih
        cases st with
        | isr => exact ⟨i1, i2⟩
        | work => exact ⟨i1, i2⟩
        | setup r hph hadr hm =>
          refine ⟨i1, fun x hx => ?_⟩
          have ha : ∀ ph, afterSetup r = ph → (ph = .statusIn x ∨ (∃ g, ph = .statusOut x g) ∨ (∃ g, ph = .dataIn x g) ∨ ph = .dataOut x) → Polite x := by
            intro ph e hx
            unfold afterSetup at e
            split at e
            · subst e; rcases hx with e | ⟨g, e⟩ | ⟨g, e⟩ | e <;> cases e; exact hm.1
            · split at e <;> subst e <;> rcases hx with e | ⟨g, e⟩ | ⟨g, e⟩ | e <;> cases e <;> exact hm.1
          exact ha _ rfl hx
        | dataIn r got p hph hadr hb =>
          have hpol := i2 r (Or.inr (Or.inr (Or.inl ⟨got, hph⟩)))
          refine ⟨i1, fun x hx => ?_⟩
          by_cases c : p.length < 32 ∨ r.length ≤ (got ++ p).length
          · simp only [if_pos c] at hx; rcases hx with e | ⟨g, e⟩ | ⟨g, e⟩ | e <;> cases e; exact hpol
          · simp only [if_neg c] at hx; rcases hx with e | ⟨g, e⟩ | ⟨g, e⟩ | e <;> cases e; exact hpol
        | statusOut r got hph hadr hb =>
          have hpol := i2 r (Or.inr (Or.inl ⟨got, hph⟩))
          refine ⟨fun x hx hs => ?_, fun x hx => by rcases hx with e | ⟨g, e⟩ | ⟨g, e⟩ | e <;> cases e⟩
          rcases List.mem_append.mp hx with hx | hx
          · exact i1 x hx hs
          · rw [List.mem_singleton] at hx; subst hx; exact (hpol.coding hs).2
        | dataOut r hph hadr hb =>
          have hpol := i2 r (Or.inr (Or.inr (Or.inr hph)))
          exact ⟨i1, fun x hx => by rcases hx with e | ⟨g, e⟩ | ⟨g, e⟩ | e <;> cases e; exact hpol⟩
        | statusIn r p hph hadr hb =>
          have hpol := i2 r (Or.inl hph)
          refine ⟨fun x hx hs => ?_, fun x hx => by rcases hx with e | ⟨g, e⟩ | ⟨g, e⟩ | e <;> cases e⟩
          rcases List.mem_append.mp hx with hx | hx
          · exact i1 x hx hs
          · rw [List.mem_singleton] at hx; subst hx; exact (hpol.coding hs).2
    exact (this s h).1 _ (List.mem_of_getElem? hi) hset
  rw [key]
  simp only [answer, full, hq', getsDescriptor, getsConfiguration, getsCoding]
  simp only [hc j hij (Nat.le_refl _)]
  simp
  exact List.take_of_length_le (by rw [hlen]; exact hq)

theorem reach_addr {board : Board} (hw : Wf board) {s : State}
    (h : Reach (fun d r => Polite r ∧ Loose board r ∧ Calm d r) (memory board) s) : Inv board s ∧ AddrOk s := by
  induction h with
  | init => exact ⟨reach_inv hw (may := fun d r => Polite r ∧ Loose board r ∧ Calm d r) (fun _ _ hm => ⟨hm.1, hm.2.1⟩) .init, Or.inl ⟨rfl, rfl, fun r hr => by cases hr⟩⟩
  | step s s' hs st ih => exact ⟨step_inv hw (fun _ _ hm => ⟨hm.1, hm.2.1⟩) ih.1 st, step_addr hw (fun _ _ hm => hm) ih.1 ih.2 st⟩

/-- No request is left hanging: while one is under way, the device or the hardware or the host can always do something. -/
theorem C96_progress_partial (board : Board) (hw : Wf board) (s : State)
    (h : Reach (fun d r => Polite r ∧ Loose board r ∧ Calm d r) (memory board) s) (hn : s.phase ≠ .idle) :
    ∃ s', Step (fun d r => Polite r ∧ Loose board r ∧ Calm d r) (memory board) s s' :=
  progress (reach_addr hw h).1 (reach_addr hw h).2 hn

/-- And it comes to an end, whatever happens in which order: in a run that goes on for ever the host has finished a request again and again. -/
theorem C96_ends (may : Dev → Req → Prop) (mem : Mem) (run : Nat → State) (hrun : ∀ n, Step may mem (run n) (run (n + 1))) (n : Nat) :
    ∃ m, n ≤ m ∧ (run m).phase = .idle := by
  suffices ∀ k n, measure (run n) = k → ∃ m, n ≤ m ∧ (run m).phase = .idle from this _ n rfl
  intro k
  induction k using Nat.strongRecOn with
  | _ k ih =>
    intro n hk
    by_cases c : (run n).phase = .idle
    · exact ⟨n, Nat.le_refl _, c⟩
    · obtain ⟨m, h1, h2⟩ := ih _ (by rw [← hk]; exact step_measure (hrun n) (fun h => c h.1)) (n + 1) rfl
      exact ⟨m, by omega, h2⟩

/-- The device has the address that the host has given it, as soon as its interrupts are served. -/
theorem C96_address_partial (board : Board) (hw : Wf board) (s : State)
    (h : Reach (fun d r => Polite r ∧ Loose board r ∧ Calm d r) (memory board) s) (h1 : s.dev.trcpt1 = false) (h2 : s.dev.work = []) :
    s.dev.dadd = s.addr := by
  rcases (reach_addr hw h).2 with ⟨_, b, _⟩ | ⟨_, b, _⟩ | ⟨_, _, c, _⟩
  · exact b
  · exact b
  · rcases c with c | c
    · rw [h1] at c; cases c
    · rw [h2] at c; cases c

/-! ## Cases -/

instance decWf : (l : List (List UInt8)) → Decidable (WfList l)
  | [] => isTrue trivial
  | b :: l => by unfold WfList; have := decWf l; infer_instance

/-- The table of ao/ao-product.c:60-188 with short strings. -/
def table : Board where
  id := 0x0123456789abcdef00000000deadbeef
  blocks :=
  [[0x12, 1, 0x10, 0x01, 2, 0, 0, 32, 0xfe, 0xff, 0x0a, 0x00, 0x00, 0x01, 1, 2, 3, 1],
   [9, 2, 67, 0, 2, 1, 0, 0xc0, 50],
   [9, 4, 0, 0, 1, 2, 2, 1, 0], [5, 0x24, 0, 0x10, 0x01], [5, 0x24, 1, 1, 1], [4, 0x24, 2, 2], [5, 0x24, 6, 0, 1], [7, 5, 0x81, 3, 8, 0, 0xff],
   [9, 4, 1, 0, 2, 0x0a, 0, 0, 0], [7, 5, 4, 2, 64, 0, 0], [7, 5, 0x85, 2, 64, 0, 0],
   [4, 3, 0x09, 0x04], [6, 3, 0x6b, 0, 0x70, 0], [6, 3, 0x53, 0, 0x6e, 0], [4, 3, 0x31, 0]]

theorem wfTable : Wf table := by unfold Wf; decide +kernel

example : (descriptor table 0x0100).length = 18 ∧ (descriptor table 0x0200).length = 67 ∧ descriptor table 0x0302 = [6, 3, 0x53, 0, 0x6e, 0] ∧
    descriptor table 0x0600 = [] ∧ (descriptor table 0x0303).take 10 = [66, 3, 48, 0, 49, 0, 50, 0, 51, 0] := by decide +kernel

/-- What happens, to write executions down. -/
inductive Ev
  | isr | work | setup (r : Req) | host
  deriving Repr

def exec (mem : Mem) (s : State) : Ev → Option State
  | .isr => if s.dev.work = [] ∧ (s.dev.rxstp || s.dev.trcpt0 || s.dev.trcpt1) = true then some { s with dev := isr s.dev } else none
  | .work => match s.dev.work with | [] => none | w :: l => some { s with dev := handle mem { s.dev with work := l } w }
  | .setup r =>
    if s.phase = .idle ∧ s.dev.dadd = s.addr then
      some { s with dev := { s.dev with bk0 := true, outBuf := .setup r, rxstp := true }, phase := afterSetup r }
    else none
  | .host =>
    if s.dev.dadd = s.addr then
      match s.phase, s.dev.bk1 with
      | .dataIn r got, some p => some { s with dev := { s.dev with bk1 := none, trcpt1 := true },
                                               phase := if p.length < 32 ∨ r.length ≤ (got ++ p).length then .statusOut r (got ++ p) else .dataIn r (got ++ p) }
      | .statusOut r got, _ =>
        if s.dev.bk0 = false then
          some { dev := { s.dev with bk0 := true, outBuf := .data [], trcpt0 := true }, phase := .idle, addr := afterDone r s.addr, done := s.done ++ [(r, got)] }
        else none
      | .dataOut r, _ => if s.dev.bk0 = false then some { s with dev := { s.dev with bk0 := true, outBuf := .data r.data, trcpt0 := true }, phase := .statusIn r } else none
      | .statusIn r, some p => some { dev := { s.dev with bk1 := none, trcpt1 := true }, phase := .idle, addr := afterDone r s.addr, done := s.done ++ [(r, p)] }
      | _, _ => none
    else none

def runEv (mem : Mem) : List Ev → State → Option State
  | [], s => some s
  | e :: l, s => (exec mem s e).bind (runEv mem l)

theorem exec_step {may : Dev → Req → Prop} {mem : Mem} {s s' : State} {e : Ev} (h : exec mem s e = some s')
    (hm : ∀ r, e = .setup r → may s.dev r) : Step may mem s s' := by
  cases e with
  | isr =>
    simp only [exec] at h
    split at h
    · rename_i c; cases h; exact .isr s c.1 c.2
    · cases h
  | work =>
    simp only [exec] at h
    split at h
    · cases h
    · rename_i w l e; cases h; exact .work s w l e
  | setup r =>
    simp only [exec] at h
    split at h
    · rename_i c; cases h; exact .setup s r c.1 c.2 (hm r rfl)
    · cases h
  | host =>
    simp only [exec] at h
    split at h
    · rename_i hadr
      split at h
      · rename_i r got p e1 e2; cases h; exact .dataIn s r got p e1 hadr e2
      · rename_i r got e1
        split at h
        · rename_i c; cases h; exact .statusOut s r got e1 hadr c
        · cases h
      · rename_i r e1
        split at h
        · rename_i c; cases h; exact .dataOut s r e1 hadr c
        · cases h
      · rename_i r p e1 e2; cases h; exact .statusIn s r p e1 hadr e2
      · cases h
    · cases h

theorem run_reach {may : Dev → Req → Prop} {mem : Mem} : ∀ {l : List Ev} {s s' : State}, Reach may mem s → runEv mem l s = some s' →
    (∀ r, Ev.setup r ∈ l → ∀ d, may d r) → Reach may mem s'
  | [], s, s', h, hr, _ => by cases hr; exact h
  | e :: l, s, s', h, hr, hm => by
    unfold runEv at hr
    obtain ⟨t, h1, h2⟩ := Option.bind_eq_some_iff.mp hr
    exact run_reach (.step _ _ h (exec_step h1 (fun r e => hm r (by rw [e]; exact List.mem_cons_self) _))) h2
      (fun r hm' => hm r (List.mem_cons_of_mem _ hm'))

/-- Requests for descriptors, an address, a configuration and its number, the line coding. -/
def ask (value length : Nat) : Req := { dirIn := true, type := 0, recip := 0, request := 6, value, length }
def give (a : Nat) : Req := { dirIn := false, type := 0, recip := 0, request := 5, value := a, length := 0 }
def choose : Req := { dirIn := false, type := 0, recip := 0, request := 9, value := 1, length := 0 }
def which : Req := { dirIn := true, type := 0, recip := 0, request := 8, value := 0, length := 1 }
def setLine : Req := { dirIn := false, type := 1, recip := 1, request := 0x20, value := 0, length := 7, data := [0x80, 0x25, 0, 0, 0, 0, 8] }
def getLine : Req := { dirIn := true, type := 1, recip := 1, request := 0x21, value := 0, length := 7 }

theorem politeAsk (v n : Nat) (h : v < 65536) : Polite (ask v n) := ⟨h, fun h => by simp [setsCoding, ask] at h, fun h => by simp [ask] at h, fun h => by simp [setsAddress, ask] at h⟩
theorem politeGive (a : Nat) (h : a < 128) : Polite (give a) :=
  ⟨Nat.lt_trans h (by decide), fun h => by simp [setsCoding, give] at h, fun _ => Or.inl rfl, fun _ => ⟨rfl, rfl, h⟩⟩
theorem politeChoose : Polite choose := ⟨by decide, by decide, fun _ => Or.inl rfl, by decide⟩
theorem politeWhich : Polite which := ⟨by decide, by decide, by decide, by decide⟩
theorem politeSet : Polite setLine := ⟨by decide, fun _ => ⟨rfl, rfl⟩, fun _ => Or.inr rfl, by decide⟩
theorem politeGet : Polite getLine := ⟨by decide, by decide, by decide, by decide⟩

/-- The hypotheses are met: the whole configuration, in three packets, then setting and getting the line coding. -/
example : ∃ s, Reach (fun d r => Polite r ∧ Loose table r ∧ Calm d r) (memory table) s ∧
    s.done = [(ask 0x0200 255, descriptor table 0x0200), (setLine, []), (getLine, setLine.data)] := by
  have hrun : (runEv (memory table) [.setup (ask 0x0200 255), .isr, .work, .host, .isr, .work, .host, .isr, .work, .host, .host, .isr, .work, .work,
      .setup setLine, .isr, .work, .host, .isr, .work, .host, .setup getLine, .isr, .work, .host, .work, .host] init).map State.done =
      some [(ask 0x0200 255, descriptor table 0x0200), (setLine, []), (getLine, setLine.data)] := by decide +kernel
  obtain ⟨s, h1, h2⟩ := Option.map_eq_some_iff.mp hrun
  refine ⟨s, run_reach .init h1 ?_, h2⟩
  intro r hr d
  simp only [List.mem_cons, Ev.setup.injEq, reduceCtorEq, false_or, or_false, List.not_mem_nil] at hr
  rcases hr with e | e | e <;> subst e
  · exact ⟨politeAsk _ _ (by decide), Or.inl (by decide), by intro h; exact absurd h (by decide)⟩
  · exact ⟨politeSet, Or.inl (by decide), by intro h; exact absurd h (by decide)⟩
  · exact ⟨politeGet, Or.inl (by decide), by intro h; exact absurd h (by decide)⟩

/-- The number of the configuration is always 0, "not configured", also after the host has chosen number 1. -/
theorem C96_violated_configuration : ∃ s, Reach (fun _ r => Polite r ∧ Loose table r) (memory table) s ∧ s.done = [(choose, []), (which, [0])] ∧
    answer table [choose] which = [1] := by
  have hrun : (runEv (memory table) [.setup choose, .isr, .work, .host, .isr, .work, .setup which, .isr, .work, .host, .host] init).map State.done =
      some [(choose, []), (which, [0])] := by decide +kernel
  obtain ⟨s, h1, h2⟩ := Option.map_eq_some_iff.mp hrun
  refine ⟨s, run_reach .init h1 ?_, h2, by decide⟩
  intro r hr d
  simp only [List.mem_cons, Ev.setup.injEq, reduceCtorEq, false_or, or_false, List.not_mem_nil] at hr
  rcases hr with e | e <;> subst e
  · exact ⟨politeChoose, Or.inr (Or.inl rfl)⟩
  · exact ⟨politeWhich, Or.inl (by decide)⟩

/-- A host that wants 64 bytes of the configuration gets them, but the device then has an empty packet ready (here because the interrupt is served a bit late); it
is taken for the answer to the next request, for the descriptor of the device. -/
theorem C96_violated_exact : ∃ s, Reach (fun _ r => Polite r) (memory table) s ∧
    s.done = [(ask 0x0200 64, (descriptor table 0x0200).take 64), (ask 0x0100 18, [])] ∧ (descriptor table 0x0100).length = 18 := by
  have hrun : (runEv (memory table) [.setup (ask 0x0200 64), .isr, .work, .host, .isr, .work, .host, .isr, .host, .setup (ask 0x0100 18), .work, .isr, .work, .host, .host]
      init).map State.done = some [(ask 0x0200 64, (descriptor table 0x0200).take 64), (ask 0x0100 18, [])] := by decide +kernel
  obtain ⟨s, h1, h2⟩ := Option.map_eq_some_iff.mp hrun
  refine ⟨s, run_reach .init h1 ?_, h2, by decide +kernel⟩
  intro r hr d
  simp only [List.mem_cons, Ev.setup.injEq, reduceCtorEq, false_or, or_false, List.not_mem_nil] at hr
  rcases hr with e | e <;> subst e
  · exact politeAsk _ _ (by decide)
  · exact politeAsk _ _ (by decide)

/-- The host gives an address while the interrupt of the last packet before is still to be served: the device takes the new address before it has
answered, and the host, which waits for the answer from the old one, never gets it. -/
theorem C96_violated_address : ∃ s, Reach (fun _ r => Polite r ∧ Loose table r) (memory table) s ∧ s.phase = .statusIn (give 5) ∧
    ∀ s', ¬ Step (fun _ r => Polite r ∧ Loose table r) (memory table) s s' := by
  have hrun : (runEv (memory table) [.setup (ask 0x0100 18), .isr, .work, .host, .host, .setup (give 5), .isr, .work, .work] init).map
      (fun s => (decide (s.phase = .statusIn (give 5)), decide (s.dev.dadd = s.addr), s.dev.work, s.dev.rxstp || s.dev.trcpt0 || s.dev.trcpt1)) =
      some (true, false, [], false) := by decide +kernel
  obtain ⟨s, h1, h2⟩ := Option.map_eq_some_iff.mp hrun
  rw [Prod.mk.injEq, Prod.mk.injEq, Prod.mk.injEq] at h2
  obtain ⟨a, b, c, d⟩ := h2
  have a := of_decide_eq_true a
  have b := of_decide_eq_false b
  refine ⟨s, run_reach .init h1 ?_, a, fun s' st => ?_⟩
  · intro r hr d
    simp only [List.mem_cons, Ev.setup.injEq, reduceCtorEq, false_or, or_false, List.not_mem_nil] at hr
    rcases hr with e | e <;> subst e
    · exact ⟨politeAsk _ _ (by decide), Or.inl (by decide)⟩
    · exact ⟨politeGive 5 (by decide), Or.inr (Or.inl rfl)⟩
  · cases st with
    | isr _ h => rw [d] at h; cases h
    | work w l h => rw [c] at h; cases h
    | setup r h => rw [a] at h; cases h
    | dataIn r got p _ h => exact b h
    | statusOut r got _ h => exact b h
    | dataOut r _ h => exact b h
    | statusIn r p _ h => exact b h

end Snek.UsbControl
