import Verif.Proofs.Ev3Sensors
/-!
# The sensors of the LEGO EV3 when nothing moves
-/
namespace Snek.Ev3

/-- Nothing happens and nothing fails. -/
def Still (s : Sys) : Prop := ∀ sl ∈ s.sched, sl.evs = [] ∧ sl.fail = none

/-- One system call has been made. -/
def tick (s : Sys) : Sys := { s with sched := s.sched.tail }

theorem Still.tick {s : Sys} (h : Still s) : Still (tick s) := fun sl hm => h sl (List.mem_of_mem_tail hm)

theorem call_still {s : Sys} (h : Still s) : s.call.1.fail = none ∧ s.call.2 = tick s := by
  unfold Sys.call tick
  match hs : s.sched with
  | [] => exact ⟨rfl, by cases s; cases hs; rfl⟩
  | sl :: r =>
    have := h sl (by rw [hs]; exact List.mem_cons_self ..)
    exact ⟨this.2, by dsimp only; rw [this.1]; rfl⟩

theorem openDev_still {s : Sys} (h : Still s) {n : Nat} {d : Dev} (hd : s.world[n]? = some d) :
    s.openDev n = if d.alive then (.ok (), { tick s with fds := .dev n :: s.fds }) else (.error .noent, tick s) := by
  obtain ⟨h1, h2⟩ := call_still h
  unfold Sys.openDev
  generalize s.call = x at *
  obtain ⟨sl, s1⟩ := x
  dsimp only at *
  rw [h1, h2]
  dsimp only
  have : (tick s).world[n]? = some d := hd
  rw [this]
  rfl

theorem openDev_still_none {s : Sys} (h : Still s) {n : Nat} (hd : s.world[n]? = none) : s.openDev n = (.error .noent, tick s) := by
  obtain ⟨h1, h2⟩ := call_still h
  unfold Sys.openDev
  generalize s.call = x at *
  obtain ⟨sl, s1⟩ := x
  dsimp only at *
  rw [h1, h2]
  dsimp only
  have : (tick s).world[n]? = none := hd
  rw [this]

theorem read_still {s : Sys} (h : Still s) {n : Nat} {name t : Text} (hn : Now s.world n name t) (size : Nat) :
    s.read n name size = (.ok (t.take size), tick (tick s)) := by
  obtain ⟨d, hd, ha, ht⟩ := hn
  obtain ⟨h1, h2⟩ := call_still h
  have ho : s.openFile n name = (.ok (), { tick s with fds := .file n name :: s.fds }) := by
    unfold Sys.openFile
    generalize s.call = x at *
    obtain ⟨sl, s1⟩ := x
    dsimp only at *
    rw [h1, h2]
    dsimp only
    have : (tick s).world[n]? = some d := hd
    rw [this]
    dsimp only
    rw [if_pos ⟨ha, by rw [ht]; rfl⟩]
    rfl
  unfold Sys.read
  rw [ho]
  dsimp only
  have hw : ∀ s' : Sys, s'.world = s.world → s'.readNow n name size = .ok (t.take size) := by
    intro s' e
    unfold Sys.readNow
    rw [e, hd]
    dsimp only
    rw [if_pos ha, ht]
  have hl : ∀ s' : Sys, s'.world = s.world → Still s' → readLoop n name size s'.sched s' = (.ok (t.take size), tick s') := by
    intro s' e hs
    unfold tick
    match hsc : s'.sched with
    | [] =>
      unfold readLoop
      exact Prod.ext (hw { s' with sched := [] } e) rfl
    | sl :: r =>
      have hq := hs sl (by rw [hsc]; exact List.mem_cons_self ..)
      unfold readLoop
      rw [hq.1, hq.2]
      exact Prod.ext (hw { s' with sched := r } e) rfl
  have hs' : Still { tick s with fds := .file n name :: s.fds } := h.tick
  have := hl { tick s with fds := .file n name :: s.fds } rfl hs'
  dsimp only at this
  rw [this]
  dsimp only
  unfold Sys.close tick
  simp

theorem readInt_still {s : Sys} (h : Still s) {n : Nat} {name t : Text} (hn : Now s.world n name t) {k : Int} (hk : Number t k) :
    s.readInt n name = (.ok k, tick (tick s)) := by
  unfold Sys.readInt
  rw [read_still h hn]
  dsimp only
  unfold Number at hk
  rw [hk]

theorem readRange_still {s : Sys} (h : Still s) {n : Nat} {name t : Text} (hn : Now s.world n name t) {k lo hi : Int} (hk : Number t k)
    (h1 : lo ≤ k) (h2 : k ≤ hi) : s.readRange n name lo hi = (.ok k, tick (tick s)) := by
  unfold Sys.readRange
  rw [readInt_still h hn hk]
  dsimp only
  rw [if_neg (by omega)]

/-- The sensors the port knows. -/
def known : List Text := ["lego-ev3-touch\n".toList, "lego-ev3-gyro\n".toList, "lego-ev3-us\n".toList, "lego-ev3-color\n".toList]

theorem getKind_still {s : Sys} (h : Still s) {n : Nat} {d : Dev} (hd : s.world[n]? = some d) (ha : d.alive = true) {k : Nat}
    (hm : (k, d.driver) ∈ drivers) : getKind s n = (some k, tick (tick s)) := by
  have hn : Now s.world n "driver_name".toList d.driver := ⟨d, hd, ha, by unfold Dev.attr; rw [if_neg (by decide), if_pos rfl]⟩
  unfold getKind
  rw [read_still h hn]
  simp only [drivers, List.mem_cons, List.not_mem_nil, or_false, Prod.mk.injEq] at hm
  rcases hm with ⟨hk, hdr⟩ | ⟨hk, hdr⟩ | ⟨hk, hdr⟩ | ⟨hk, hdr⟩ <;> subst hk <;> rw [hdr] <;> rfl

theorem decNat_step (n : Nat) : decNat n = if n < 10 then [Char.ofNat (48 + n)] else decNat (n / 10) ++ [Char.ofNat (48 + n % 10)] := by
  rw [decNat]; split <;> rfl

theorem inPort1 : inPort ((1 : Nat) : Int) = "ev3-ports:in1\n".toList := by
  unfold inPort dec
  rw [if_neg (by decide), show ((1 : Nat) : Int).natAbs = 1 from rfl, decNat_step, if_pos (by decide)]
  decide

theorem inPort2 : inPort ((2 : Nat) : Int) = "ev3-ports:in2\n".toList := by
  unfold inPort dec
  rw [if_neg (by decide), show ((2 : Nat) : Int).natAbs = 2 from rfl, decNat_step, if_pos (by decide)]
  decide

theorem inPort3 : inPort ((3 : Nat) : Int) = "ev3-ports:in3\n".toList := by
  unfold inPort dec
  rw [if_neg (by decide), show ((3 : Nat) : Int).natAbs = 3 from rfl, decNat_step, if_pos (by decide)]
  decide

theorem inPort4 : inPort ((4 : Nat) : Int) = "ev3-ports:in4\n".toList := by
  unfold inPort dec
  rw [if_neg (by decide), show ((4 : Nat) : Int).natAbs = 4 from rfl, decNat_step, if_pos (by decide)]
  decide

theorem getPort_still {s : Sys} (h : Still s) {n : Nat} {d : Dev} (hd : s.world[n]? = some d) (ha : d.alive = true) {p : Nat}
    (h1 : 1 ≤ p) (h4 : p ≤ 4) (hp : d.address = inPort p) : getPort s n = (some p, tick (tick s)) := by
  have hn : Now s.world n "address".toList d.address := ⟨d, hd, ha, by unfold Dev.attr; rw [if_pos rfl]⟩
  unfold getPort
  rw [read_still h hn, hp]
  have : p = 1 ∨ p = 2 ∨ p = 3 ∨ p = 4 := by omega
  have e1 := inPort1
  have e2 := inPort2
  have e3 := inPort3
  have e4 := inPort4
  rcases this with h | h | h | h <;> subst h
  · rw [e1]; rfl
  · rw [e2]; rfl
  · rw [e3]; rfl
  · rw [e4]; rfl

theorem inPort_inj {p q : Nat} (hp : 1 ≤ p ∧ p ≤ 4) (hq : 1 ≤ q ∧ q ≤ 4) (h : inPort p <+: inPort q) : p = q := by
  have e1 := inPort1
  have e2 := inPort2
  have e3 := inPort3
  have e4 := inPort4
  have hp : p = 1 ∨ p = 2 ∨ p = 3 ∨ p = 4 := by omega
  have hq : q = 1 ∨ q = 2 ∨ q = 3 ∨ q = 4 := by omega
  rcases hp with rfl | rfl | rfl | rfl <;> rcases hq with rfl | rfl | rfl | rfl <;> first | rfl | (exfalso; revert h; simp only [e1, e2, e3, e4]; decide)

/-- All the devices that are attached are sensors the port knows, on ports of the EV3; there is one at port `p`, number `n`. -/
structure Simple (w : World) (n : Nat) (p : Nat) : Prop where
  port : 1 ≤ p ∧ p ≤ 4
  all : ∀ (m : Nat) (d : Dev), w[m]? = some d → d.alive = true →
    (∃ k, (k, d.driver) ∈ drivers) ∧ ∃ q : Nat, 1 ≤ q ∧ q ≤ 4 ∧ d.address = inPort q ∧ (q = p → m = n)
  here : ∃ d, w[n]? = some d ∧ d.alive = true ∧ d.address = inPort p

/-- The state of a discovery in a still world. -/
structure During (w : World) (n p : Nat) (st0 st : Sensors) (seen : Bool) : Prop where
  still : Still st.sys
  world : st.sys.world = w
  fds : st.sys.fds = st0.sys.fds
  err : st.sys.err = st0.sys.err
  num : st.kind p ≠ 0 → st.num p = n
  seen : seen = true → st.kind p ≠ 0

theorem discover1_still {w : World} {n p : Nat} {st0 st : Sensors} {b : Bool} (hs : Simple w n p) (h : During w n p st0 st b) (m : Nat) :
    (discover1 st m).1 = true ∧ During w n p st0 (discover1 st m).2 (b || m == n) := by
  unfold discover1
  have hw := h.world
  match hd : st.sys.world[m]? with
  | none =>
    rw [openDev_still_none h.still hd]
    have hne : (m == n) = false := by
      obtain ⟨d, e, _⟩ := hs.here
      have : m ≠ n := by intro e'; subst e'; rw [hw] at hd; rw [e] at hd; cases hd
      simp [this]
    rw [hne, Bool.or_false]
    exact ⟨rfl, h.still.tick, hw, h.fds, h.err, h.num, h.seen⟩
  | some d =>
    rw [openDev_still h.still hd]
    by_cases ha : d.alive = true
    · rw [if_pos ha]
      dsimp only
      obtain ⟨⟨k, hk⟩, q, q1, q4, hq, hun⟩ := hs.all m d (by rw [← hw]; exact hd) ha
      have ht : Still { tick st.sys with fds := .dev m :: st.sys.fds } := h.still.tick
      unfold discover2
      dsimp only
      rw [getKind_still (d := d) ht hd ha hk]
      dsimp only
      rw [getPort_still (d := d) ht.tick.tick hd ha q1 q4 hq]
      refine ⟨rfl, ?_⟩
      have hk0 : k ≠ 0 := by
        simp only [drivers, List.mem_cons, List.not_mem_nil, or_false, Prod.mk.injEq] at hk
        omega
      refine ⟨ht.tick.tick.tick.tick, hw, ?_, h.err, ?_, ?_⟩
      · show (Fd.dev m :: st.sys.fds).erase (.dev m) = _
        rw [List.erase_cons_head]; exact h.fds
      · dsimp only
        intro hne
        by_cases hpq : p = q
        · rw [if_pos hpq]; exact hun hpq.symm
        · rw [if_neg hpq] at hne ⊢; exact h.num hne
      · dsimp only
        intro hb
        by_cases hpq : p = q
        · rw [if_pos hpq]; exact hk0
        · rw [if_neg hpq]
          apply h.seen
          cases b with
          | true => rfl
          | false =>
            have hmn : m = n := by simpa using hb
            subst hmn
            obtain ⟨d', e1, _, e3⟩ := hs.here
            rw [hw, e1] at hd; cases hd
            exact absurd (inPort_inj hs.port ⟨q1, q4⟩ (by rw [← hq, ← e3]; exact List.prefix_refl _)) hpq
    · rw [if_neg ha]
      have hne : (m == n) = false := by
        obtain ⟨d', e, e', _⟩ := hs.here
        have : m ≠ n := by intro e''; subst e''; rw [hw, e] at hd; cases hd; exact ha e'
        simp [this]
      rw [hne, Bool.or_false]
      exact ⟨rfl, h.still.tick, hw, h.fds, h.err, h.num, h.seen⟩

theorem discoverAll_still {w : World} {n p : Nat} {st0 : Sensors} (hs : Simple w n p) : ∀ (es : List Entry) (st : Sensors) (b : Bool),
    During w n p st0 st b → Entry.other ∉ es →
    (discoverAll st es).1 = true ∧ During w n p st0 (discoverAll st es).2 (b || es.contains (.dev n)) := by
  intro es
  induction es with
  | nil => intro st b h _; simpa using ⟨rfl, h⟩
  | cons e es ih =>
    intro st b h ho
    have ho' : Entry.other ∉ es := fun hm => ho (List.mem_cons_of_mem _ hm)
    cases e with
    | other => exact absurd (List.mem_cons_self ..) ho
    | dot =>
      unfold discoverAll
      have := ih st b h ho'
      simpa using this
    | dev m =>
      obtain ⟨h1, h2⟩ := discover1_still hs h m
      unfold discoverAll
      generalize discover1 st m = x at *
      obtain ⟨r, st1⟩ := x
      dsimp only at *
      subst h1
      dsimp only
      have := ih st1 _ h2 ho'
      rw [Bool.or_assoc] at this
      have e : (m == n || es.contains (Entry.dev n)) = (Entry.dev m :: es).contains (Entry.dev n) := by
        rw [List.contains_cons]
        congr 1
        by_cases hmn : m = n
        · subst hmn; simp
        · have h2 : ¬Entry.dev n = Entry.dev m := by intro e; injection e with e; exact hmn e.symm
          rw [beq_eq_false_iff_ne.2 hmn, beq_eq_false_iff_ne.2 h2]
      rw [e] at this
      exact this

/-- A schedule in which nothing happens, long enough for a directory to be listed, and listed whole. -/
structure Calm (w : World) (sched : List Slot) : Prop where
  len : 3 ≤ sched.length
  slots : ∀ sl ∈ sched, sl.evs = [] ∧ sl.fail = none ∧ Entry.other ∉ sl.names ∧
    ∀ (n : Nat) (d : Dev), w[n]? = some d → d.alive = true → Entry.dev n ∈ sl.names

theorem discover_still {w : World} {n p : Nat} {st : Sensors} (hs : Simple w n p) (hstill : Still st.sys) (hw : st.sys.world = w)
    (hlen : 2 ≤ st.sys.sched.length) (hsl : ∀ sl ∈ st.sys.sched, Entry.other ∉ sl.names ∧ Entry.dev n ∈ sl.names) :
    (discover st).1 = true ∧ During w n p st (discover st).2 true := by
  unfold discover
  dsimp only
  match hsc : st.sys.sched with
  | [] => rw [hsc] at hlen; simp at hlen
  | [_] => rw [hsc] at hlen; simp at hlen
  | sa :: sb :: r =>
    have ha := hstill sa (by rw [hsc]; simp)
    have hb := hstill sb (by rw [hsc]; simp)
    have hb' := hsl sb (by rw [hsc]; simp)
    have ec : st.sys.call = (sa, { st.sys with sched := sb :: r }) := by
      unfold Sys.call; rw [hsc]; dsimp only; rw [ha.1]; rfl
    rw [ec]
    dsimp only
    rw [ha.2]
    simp only [Option.isSome_none, Bool.false_eq_true, if_false]
    have ed : Sys.call { st.sys with sched := sb :: r, fds := .classDir :: st.sys.fds } =
        (sb, { st.sys with sched := r, fds := .classDir :: st.sys.fds }) := by
      unfold Sys.call; dsimp only; rw [hb.1]; rfl
    rw [ed]
    dsimp only
    rw [hb.2]
    simp only [Option.isSome_none, Bool.false_eq_true, if_false]
    have hd := discoverAll_still (st0 := { sys := { st.sys with sched := r, fds := .classDir :: st.sys.fds }, kind := fun _ => 0, num := fun _ => 0 }) hs sb.names
      { sys := { st.sys with sched := r, fds := .classDir :: st.sys.fds }, kind := fun _ => 0, num := fun _ => 0 } false
      ⟨fun sl hm => hstill sl (by rw [hsc]; exact List.mem_cons_of_mem _ (List.mem_cons_of_mem _ hm)), hw, rfl, rfl, fun h => absurd rfl h, fun h => by cases h⟩ hb'.1
    obtain ⟨d1, d2⟩ := hd
    have e : (false || sb.names.contains (Entry.dev n)) = true := by simpa using hb'.2
    rw [e] at d2
    refine ⟨d1, d2.still, d2.world, ?_, d2.err, d2.num, d2.seen⟩
    show List.erase _ _ = _
    rw [d2.fds]; simp

theorem readOpen_still {s : Sys} {n : Nat} {d : Dev} {v : Val} (h : Still s) (hd : s.world[n]? = some d) (ha : d.alive = true)
    (hv : Decodes (Now s.world n) d.driver v) : ∃ s', readOpen s n = (v, s') ∧ s'.err = s.err := by
  unfold readOpen
  have h2 := h.tick.tick
  cases hv with
  | touch e hn hk h01 =>
    rw [getKind_still (k := 1) h hd ha (by rw [e]; decide)]
    show ∃ s', button (tick (tick s)) n = _ ∧ _
    unfold button
    rw [readRange_still (s := tick (tick s)) h2 hn hk (by omega) (by omega)]
    try dsimp only
    rename_i t k
    have e : (if k ≠ 0 then (0x3f800000 : BitVec 32) else 0) = intToF k := by
      rcases h01 with h | h <;> subst h <;> decide
    rw [e]
    exact ⟨_, rfl, rfl⟩
  | near e hn hk hne =>
    rw [getKind_still (k := 3) h hd ha (by rw [e]; decide)]
    show ∃ s', distance (tick (tick s)) n = _ ∧ _
    unfold distance
    rw [readInt_still (s := tick (tick s)) h2 hn hk]
    try dsimp only
    rw [if_neg hne]
    exact ⟨_, rfl, rfl⟩
  | far e hn hk =>
    rw [getKind_still (k := 3) h hd ha (by rw [e]; decide)]
    show ∃ s', distance (tick (tick s)) n = _ ∧ _
    unfold distance
    rw [readInt_still (s := tick (tick s)) h2 hn hk]
    exact ⟨_, rfl, rfl⟩
  | light e hm hme hn hk h0 h1 =>
    rw [getKind_still (k := 4) h hd ha (by rw [e]; decide)]
    show ∃ s', light (tick (tick s)) n = _ ∧ _
    unfold light
    rw [read_still (s := tick (tick s)) h2 hm]
    try dsimp only
    rw [if_pos (by rcases hme with e | e <;> rw [e] <;> decide)]
    unfold intensity
    rw [readRange_still (s := tick (tick (tick (tick s)))) h2.tick.tick hn hk h0 h1]
    exact ⟨_, rfl, rfl⟩
  | color e hm hme hn hk h0 h1 =>
    rename_i m t k
    rw [getKind_still (k := 4) h hd ha (by rw [e]; decide)]
    show ∃ s', light (tick (tick s)) n = _ ∧ _
    unfold light
    rw [read_still (s := tick (tick s)) h2 hm]
    try dsimp only
    rw [hme, if_neg (by decide), if_pos (by decide)]
    unfold colorName
    rw [readRange_still (s := tick (tick (tick (tick s)))) h2.tick.tick hn hk (by omega) (by omega)]
    try dsimp only
    rw [if_neg (by omega), Int.toNat_natCast]
    exact ⟨_, rfl, rfl⟩
  | dark e hm hme hn hk =>
    rw [getKind_still (k := 4) h hd ha (by rw [e]; decide)]
    show ∃ s', light (tick (tick s)) n = _ ∧ _
    unfold light
    rw [read_still (s := tick (tick s)) h2 hm]
    try dsimp only
    rw [hme, if_neg (by decide), if_pos (by decide)]
    unfold colorName
    rw [readRange_still (s := tick (tick (tick (tick s)))) h2.tick.tick hn hk (by omega) (by omega)]
    exact ⟨_, rfl, rfl⟩
  | rgb e hm hme hr hg hb kr kg kb r0 r1 g0 g1 b0 b1 =>
    rw [getKind_still (k := 4) h hd ha (by rw [e]; decide)]
    show ∃ s', light (tick (tick s)) n = _ ∧ _
    unfold light
    rw [read_still (s := tick (tick s)) h2 hm]
    try dsimp only
    rw [hme, if_neg (by decide), if_neg (by decide), if_pos (by decide)]
    unfold readRgb
    rw [readRange_still (s := tick (tick (tick (tick s)))) h2.tick.tick hr kr r0 r1]
    try dsimp only
    rw [readRange_still (s := tick (tick (tick (tick (tick (tick s)))))) h2.tick.tick.tick.tick hg kg g0 g1]
    try dsimp only
    rw [readRange_still (s := tick (tick (tick (tick (tick (tick (tick (tick s)))))))) h2.tick.tick.tick.tick.tick.tick hb kb b0 b1]
    exact ⟨_, rfl, rfl⟩

theorem getSensor_still {w : World} {n p : Nat} {st : Sensors} (hs : Simple w n p) (ht : TableOk st) (hw : st.sys.world = w)
    (hc : Calm w st.sys.sched) : ∃ st', getSensor st (p : Int) = (some n, st') ∧ Still st'.sys ∧ st'.sys.world = w ∧ st'.sys.err = st.sys.err := by
  obtain ⟨d, hd, ha, hp⟩ := hs.here
  have hstill : Still st.sys := fun sl hm => ⟨(hc.slots sl hm).1, (hc.slots sl hm).2.1⟩
  have hsl : ∀ sl ∈ st.sys.sched, Entry.other ∉ sl.names ∧ Entry.dev n ∈ sl.names :=
    fun sl hm => ⟨(hc.slots sl hm).2.2.1, (hc.slots sl hm).2.2.2 n d hd ha⟩
  unfold getSensor
  rw [if_neg (by have := hs.port; omega)]
  rw [Int.toNat_natCast]
  -- opening after a discovery
  have second : ∀ st1 : Sensors, Still st1.sys → st1.sys.world = w → st1.sys.err = st.sys.err → 2 ≤ st1.sys.sched.length →
      (∀ sl ∈ st1.sys.sched, Entry.other ∉ sl.names ∧ Entry.dev n ∈ sl.names) →
      ∃ st', (match discover st1 with
        | (false, st) => (none, st)
        | (true, st) =>
          match openSensor st p with
          | (.ok n, st) => (some n, st)
          | (.error _, st) => (none, { st with sys := st.sys.error })) = (some n, st') ∧ Still st'.sys ∧ st'.sys.world = w ∧ st'.sys.err = st.sys.err := by
    intro st1 h1 h2 h3 h4 h5
    obtain ⟨d1, d2⟩ := discover_still hs h1 h2 h4 h5
    generalize discover st1 = x at *
    obtain ⟨r, st2⟩ := x
    dsimp only at *
    subst d1
    dsimp only
    have hk := d2.seen rfl
    have hn := d2.num hk
    unfold openSensor
    rw [if_neg hk, hn, openDev_still d2.still (by rw [d2.world]; exact hd), if_pos ha]
    exact ⟨_, rfl, d2.still.tick, d2.world, d2.err.trans h3⟩
  by_cases hk : st.kind p = 0
  · have e : openSensor st p = (.error .noent, st) := by unfold openSensor; rw [if_pos hk]
    rw [e]
    exact second st hstill hw rfl (by have := hc.len; omega) hsl
  · obtain ⟨d', hd', hp'⟩ := ht p hk
    unfold openSensor
    rw [if_neg hk, openDev_still hstill hd']
    by_cases ha' : d'.alive = true
    · rw [if_pos ha']
      obtain ⟨_, q, q1, q4, hq, hun⟩ := hs.all (st.num p) d' (by rw [← hw]; exact hd') ha'
      have : p = q := inPort_inj hs.port ⟨q1, q4⟩ (by rw [← hq]; exact hp')
      rw [hun this.symm]
      exact ⟨_, rfl, hstill.tick, hw, rfl⟩
    · rw [if_neg ha']
      refine second { st with sys := tick st.sys } hstill.tick hw rfl ?_ ?_
      · show 2 ≤ st.sys.sched.tail.length
        rw [List.length_tail]; have := hc.len; omega
      · intro sl hm; exact hsl sl (List.mem_of_mem_tail hm)

/-! ## Decimal numbers -/

theorem digit_char {k : Nat} (h : k < 10) : isDig (Char.ofNat (48 + k)) = true ∧ (Char.ofNat (48 + k)).toNat - 48 = k ∧ Char.ofNat (48 + k) ≠ '-' ∧
    Char.ofNat (48 + k) ≠ '+' ∧ Char.ofNat (48 + k) ≠ ' ' ∧ Char.ofNat (48 + k) ≠ '\n' ∧ Char.ofNat (48 + k) ≠ '\t' := by
  have : k = 0 ∨ k = 1 ∨ k = 2 ∨ k = 3 ∨ k = 4 ∨ k = 5 ∨ k = 6 ∨ k = 7 ∨ k = 8 ∨ k = 9 := by omega
  rcases this with h | h | h | h | h | h | h | h | h | h <;> subst h <;> decide

theorem decNat_dig (n : Nat) : ∀ c ∈ decNat n, isDig c = true := by
  induction n using Nat.strongRecOn with
  | _ n ih =>
    intro c hc
    rw [decNat_step] at hc
    split at hc
    · rename_i h
      rw [List.mem_singleton] at hc
      rw [hc]; exact (digit_char h).1
    · rename_i h
      rw [List.mem_append, List.mem_singleton] at hc
      rcases hc with hc | hc
      · exact ih (n / 10) (by omega) c hc
      · rw [hc]; exact (digit_char (by omega)).1

theorem digVal_decNat (n : Nat) : digVal (decNat n) = n := by
  induction n using Nat.strongRecOn with
  | _ n ih =>
    rw [decNat_step]
    split
    · rename_i h
      have := (digit_char h).2.1
      unfold digVal
      simp only [List.foldl_cons, List.foldl_nil]
      omega
    · rename_i h
      have h1 := ih (n / 10) (by omega)
      unfold digVal at h1 ⊢
      rw [List.foldl_append, h1]
      have := (digit_char (k := n % 10) (by omega)).2.1
      simp only [List.foldl_cons, List.foldl_nil]
      omega

theorem decNat_ne (n : Nat) : decNat n ≠ [] := by
  rw [decNat_step]; split <;> simp

theorem decNat_length {k : Nat} : ∀ n, n < 10 ^ (k + 1) → (decNat n).length ≤ k + 1 := by
  induction k with
  | zero => intro n hn; rw [decNat_step, if_pos (by omega)]; simp
  | succ k ih =>
    intro n hn
    rw [decNat_step]
    split
    · simp
    · rw [List.length_append]
      have : n / 10 < 10 ^ (k + 1) := by
        rw [Nat.div_lt_iff_lt_mul (by omega)]
        rw [Nat.pow_succ] at hn; exact hn
      have := ih _ this
      simp only [List.length_cons, List.length_nil]
      omega

theorem dec_length {i : Int} (h1 : -(2 ^ 31) ≤ i) (h2 : i < 2 ^ 31) : (dec i).length ≤ 11 := by
  have := decNat_length (k := 9) i.natAbs (by omega)
  unfold dec
  split
  · rw [List.length_cons]; omega
  · omega

theorem takeWhile_all {t : Text} (r : Text) (h : ∀ c ∈ t, isDig c = true) (hr : r.head?.all (fun c => !isDig c) = true) :
    (t ++ r).takeWhile isDig = t := by
  induction t with
  | nil =>
    cases r with
    | nil => rfl
    | cons c r => simp at hr; simp [hr]
  | cons c t ih =>
    simp only [List.cons_append]
    rw [List.takeWhile_cons, if_pos (h c (List.mem_cons_self ..)), ih fun c hc => h c (List.mem_cons_of_mem _ hc)]

theorem decNat_cons (n : Nat) : ∃ k r, k < 10 ∧ decNat n = Char.ofNat (48 + k) :: r := by
  induction n using Nat.strongRecOn with
  | _ n ih =>
    rw [decNat_step]
    split
    · rename_i h; exact ⟨n, [], h, rfl⟩
    · obtain ⟨k, r, hk, e⟩ := ih (n / 10) (by omega)
      exact ⟨k, r ++ [Char.ofNat (48 + n % 10)], hk, by rw [e]; rfl⟩

theorem intAt_dec (i : Int) (r : Text) (hr : r.head?.all (fun c => !isDig c) = true) : intAt (dec i ++ r) = some i := by
  obtain ⟨k, t, hk, e⟩ := decNat_cons i.natAbs
  have hc := digit_char hk
  have hd := decNat_dig i.natAbs
  have hv := digVal_decNat i.natAbs
  have hne := decNat_ne i.natAbs
  unfold dec
  by_cases hi : i < 0
  · rw [if_pos hi]
    unfold intAt
    have e1 : (('-' :: decNat i.natAbs) ++ r).dropWhile (fun c => c = ' ' ∨ c = '\n' ∨ c = '\t') = '-' :: (decNat i.natAbs ++ r) := by
      rw [List.cons_append, List.dropWhile_cons_of_neg (by decide)]
    rw [e1]
    simp only [List.head?_cons, true_or, if_true, List.drop_succ_cons, List.drop_zero]
    rw [takeWhile_all r hd hr, if_neg hne, hv]
    congr 1
    omega
  · rw [if_neg hi]
    unfold intAt
    have e1 : (decNat i.natAbs ++ r).dropWhile (fun c => c = ' ' ∨ c = '\n' ∨ c = '\t') = decNat i.natAbs ++ r := by
      rw [e, List.cons_append, List.dropWhile_cons_of_neg]
      simp [hc.2.2.2.2.1, hc.2.2.2.2.2.1, hc.2.2.2.2.2.2]
    rw [e1]
    have e2 : (decNat i.natAbs ++ r).head? = some (Char.ofNat (48 + k)) := by rw [e]; rfl
    dsimp only
    rw [e2]
    have n1 : ¬some (Char.ofNat (48 + k)) = some '-' := fun h => hc.2.2.1 (Option.some.inj h)
    have n2 : ¬some (Char.ofNat (48 + k)) = some '+' := fun h => hc.2.2.2.1 (Option.some.inj h)
    rw [if_neg (not_or.2 ⟨n1, n2⟩), takeWhile_all r hd hr, if_neg hne, if_neg n1, hv]
    congr 1
    omega

theorem number_dec {i : Int} (h1 : -(2 ^ 31) ≤ i) (h2 : i < 2 ^ 31) : Number (dec i ++ ['\n']) i := by
  unfold Number
  have hl := dec_length h1 h2
  rw [List.take_append, List.take_of_length_le hl]
  apply intAt_dec
  cases 11 - (dec i).length with
  | zero => rfl
  | succ k => rfl

end Snek.Ev3
