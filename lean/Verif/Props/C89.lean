import Verif.Proofs.Relay
/-!
# C89: the server of the LEGO EV3 joins one client after another to Snek

A run is any list of turns of the loop; in each anything can happen before `poll` returns and between `poll` and the system call that follows: clients
connect, send, finish, break off, take no more; Snek writes, takes no more, exits. `Verif/Spec/Relay.lean` says what a session amounts to.
-/
namespace Snek.Relay

theorem optList_len {α : Type} (o : Option α) : o.toList.length ≤ 1 := by cases o <;> simp

theorem Inv.isOpen {s : Srv} {past : List Session} {x : Session} (h : Inv s past x) : x.Open s.net := by
  have hc := h.cur
  unfold Cur at hc
  unfold Session.Open
  rw [h.who]
  cases hk : s.conn with
  | none => rw [hk] at hc; exact hc.2.2
  | some k =>
    rw [hk] at hc
    obtain ⟨c, c1, c2, c3⟩ := hc
    exact ⟨c, _, _, c1, c2, optList_len _, c3, optList_len _⟩

/-- **Nothing is lost, invented, repeated or moved while a client is connected**, and nobody gets what was meant for another: in every run, what Snek has read
and written falls into sessions, one at most for each client, the last of which is the client that is connected. -/
theorem C89_sessions (ts : List Turn) : ∃ past x, Account (turns ts).net (past ++ [x]) ∧ x.who = (turns ts).conn ∧
    (∀ y ∈ past, y.Fair (turns ts).net) ∧ x.Open (turns ts).net := by
  obtain ⟨past, x, h⟩ := inv_turns ts
  exact ⟨past, x, h.acc, h.who, fun y hy => (h.past y hy).1, h.isOpen⟩

theorem any_false {α : Type} {o : Option α} {p : α → Bool} (h : o.any p = false) {a : α} (ha : o = some a) : p a = false := by
  subst ha; simpa using h

/-- What a quiet `poll` says of the current session. -/
theorem Inv.quiet {s : Srv} {past : List Session} {x : Session} (h : Inv s past x)
    (hpin : s.pin = false) (hfeed : s.feed = false) {k : Nat} (hk : s.conn = some k) : s.net.inRoom = false ∨ x.AllIn s.net k := by
  have hc := h.cur
  unfold Cur at hc
  rw [hk] at hc
  obtain ⟨c, c1, c2, c3⟩ := hc
  have hpeer : s.peer = some c := by unfold Srv.peer; rw [hk]; exact c1
  unfold Srv.feed at hfeed
  unfold Srv.pin at hpin
  cases hb : s.inBuf with
  | some b => left; simpa [hb] using hfeed
  | none =>
    right
    have := hpin
    rw [hpeer, hb] at this
    have : c.queue = [] := by
      cases hq : c.queue with
      | nil => rfl
      | cons a l => simp [hq] at this
    exact ⟨c, c1, by rw [c2, hb, this]; simp⟩

theorem Inv.quietOut {s : Srv} {past : List Session} {x : Session} (h : Inv s past x)
    (hpout : s.pout = false) (herr : s.errIn = false) (hout : s.outIn = false) {k : Nat} (hk : s.conn = some k) :
    (∃ c, s.net.clients[k]? = some c ∧ c.room = false) ∨ x.AllOut s.net k := by
  have hc := h.cur
  unfold Cur at hc
  rw [hk] at hc
  obtain ⟨c, c1, c2, c3⟩ := hc
  have hpeer : s.peer = some c := by unfold Srv.peer; rw [hk]; exact c1
  unfold Srv.pout at hpout
  unfold Srv.errIn Srv.asks at herr
  unfold Srv.outIn Srv.asks at hout
  cases hb : s.outBuf with
  | some b =>
    left
    refine ⟨c, c1, ?_⟩
    rw [hpeer, hb] at hpout
    simpa using hpout
  | none =>
    right
    rw [hb] at herr hout c3
    refine ⟨by simpa using hout, by simpa using herr, c, c1, by simpa using c3⟩

/-- **The server sleeps only when nothing can move.** When `poll` does not return, nobody waits to be accepted, Snek runs, no urgent byte waits, and for the
connected client: all it has sent has been given to Snek, or Snek takes no more; and it has got all Snek has written, or it takes no more. So it is never the
server that holds things up. -/
theorem C89_sleep (ts : List Turn) (h : (turns ts).asleep = true) :
    (turns ts).net.backlog = [] ∧ (turns ts).net.alive = true ∧
    ((turns ts).conn = none → (turns ts).net.outq = [] ∧ (turns ts).net.errq = []) ∧
    ∃ past x, Account (turns ts).net (past ++ [x]) ∧ x.who = (turns ts).conn ∧ ∀ k, (turns ts).conn = some k →
      ((turns ts).net.inRoom = false ∨ x.AllIn (turns ts).net k) ∧
      ((∃ c, (turns ts).net.clients[k]? = some c ∧ c.room = false) ∨ x.AllOut (turns ts).net k) ∧
      ∃ c, (turns ts).net.clients[k]? = some c ∧ c.urgent = false ∧ c.reset = false := by
  obtain ⟨past, x, hi⟩ := inv_turns ts
  generalize turns ts = s at *
  unfold Srv.asleep at h
  simp only [Bool.not_eq_true', Bool.or_eq_false_iff] at h
  obtain ⟨⟨⟨⟨⟨⟨⟨⟨h1, h2⟩, h3⟩, h4⟩, h5⟩, h6⟩, h7⟩, h8⟩, h9⟩ := h
  refine ⟨?_, ?_, ?_, past, x, hi.acc, hi.who, fun k hk => ⟨hi.quiet h3 h5 hk, hi.quietOut h6 h7 h8 hk, ?_⟩⟩
  · unfold Srv.knock at h2; simpa using h2
  · unfold Srv.gone at h9; simpa using h9
  · intro hc
    unfold Srv.errIn Srv.asks at h7
    unfold Srv.outIn Srv.asks at h8
    rw [hc] at h7 h8
    simp at h7 h8
    exact ⟨h8, h7⟩
  · have hc := hi.cur
    unfold Cur at hc
    rw [hk] at hc
    obtain ⟨c, c1, _⟩ := hc
    have hpeer : s.peer = some c := by unfold Srv.peer; rw [hk]; exact c1
    exact ⟨c, c1, any_false h4 hpeer, any_false h1 hpeer⟩

theorem turns_snoc (ts : List Turn) (t : Turn) : turns (ts ++ [t]) = turn (turns ts) t := by
  unfold turns; rw [List.foldl_append]; rfl

/-- Which turn ends how. -/
theorem turn_status (s : Srv) (t : Turn) (hs : s.status = .running) :
    (turn s t).status = .running ∨
    ((turn s t).status = .exited ∧ ({ s with net := events s.net t.before } : Srv).pout = false ∧ ({ s with net := events s.net t.before } : Srv).errIn = false ∧
      ({ s with net := events s.net t.before } : Srv).outIn = false ∧ (events s.net t.before).alive = false) ∨
    ((turn s t).status = .killed ∧ ((turn s t).net.alive = false ∨
      ∃ k c, (turn s t).conn = some k ∧ (turn s t).net.clients[k]? = some c ∧ c.fin = true ∧ c.reset = true)) := by
  unfold turn
  rw [if_neg (by simp [hs])]
  dsimp only
  have hs1 : ({ s with net := events s.net t.before } : Srv).status = .running := hs
  have hs2 : ({ s with net := events (events s.net t.before) t.between } : Srv).status = .running := hs
  have ha : (events s.net t.before).alive = ({ s with net := events s.net t.before } : Srv).net.alive := rfl
  rw [ha]
  generalize ({ s with net := events s.net t.before } : Srv) = s1 at *
  generalize ({ s with net := events (events s.net t.before) t.between } : Srv) = s2 at *
  clear hs ha
  have hs := hs2
  split
  · left; exact hs1
  next hsl =>
  split
  · left; exact hs
  next h1 =>
  split
  · left
    unfold Srv.accept
    split
    · exact hs
    · split <;> exact hs
  next h2 =>
  split
  · left
    unfold Srv.recv
    split
    · split
      · split <;> exact hs
      · split
        · exact hs
        · split
          · exact hs
          · split <;> exact hs
    · exact hs
  next h3 =>
  split
  · unfold Srv.toSnek
    split
    · left; exact hs
    · split
      · left; exact hs
      · next ha => right; right; exact ⟨rfl, .inl (by simpa using ha)⟩
  next h5 =>
  split
  · unfold Srv.toClient
    split
    · next k c b hk hp hb =>
      split
      · next hr =>
        split
        · next hf =>
          obtain ⟨k', e1, e2⟩ := peer_some hp
          rw [hk] at e1; cases e1
          right; right; exact ⟨rfl, .inr ⟨k, c, hk, e2, hf, hr⟩⟩
        · left; exact hs
      · left; exact hs
    · left; exact hs
  next h6 =>
  split
  · left
    unfold Srv.fromErr
    split
    · exact hs
    · unfold Srv.keep; split <;> exact hs
  next h7 =>
  split
  · left
    unfold Srv.fromOut
    split
    · exact hs
    · unfold Srv.keep; split <;> exact hs
  next h8 =>
  split
  · next h9 =>
    right; left
    refine ⟨rfl, by simpa using h6, by simpa using h7, by simpa using h8, ?_⟩
    unfold Srv.gone at h9
    simpa using h9
  · next h9 =>
    exfalso
    apply hsl
    unfold Srv.asleep
    simp only [Bool.not_eq_true, Bool.or_eq_false_iff] at *
    simp [h1, h2, h3, h5, h6, h7, h8, h9]

/-- **The code that says it is not reached is not.** -/
theorem C89_unreachable (ts : List Turn) : (turns ts).status ≠ .exit255 := by
  have : ∀ (ts : List Turn) (s : Srv), s.status ≠ .exit255 → (ts.foldl turn s).status ≠ .exit255 := by
    intro ts
    induction ts with
    | nil => intro s h; exact h
    | cons t ts ih =>
      intro s h
      refine ih _ ?_
      by_cases hr : s.status = .running
      · rcases turn_status s t hr with e | ⟨e, _⟩ | ⟨e, _⟩ <;> rw [e] <;> decide
      · unfold turn; rw [if_pos hr]; exact h
  exact this ts srv0 (by decide)

/-- **The server gives up only when Snek has exited.** Partial: the last output of Snek has then been taken and given to the client, unless the client took no
more at that moment (`C89_violated_slow`) or a byte for Snek was held (`C89_violated_typeahead`). -/
theorem C89_exit_partial (ts : List Turn) (t : Turn) (h1 : (turns ts).status = .running) (h2 : (turns (ts ++ [t])).status = .exited) :
    (events (turns ts).net t.before).alive = false ∧
    ((turns ts).conn = none → (events (turns ts).net t.before).outq = [] ∧ (events (turns ts).net t.before).errq = []) ∧
    ∃ past x, Account (events (turns ts).net t.before) (past ++ [x]) ∧ x.who = (turns ts).conn ∧ ∀ k, (turns ts).conn = some k →
      (∃ c, (events (turns ts).net t.before).clients[k]? = some c ∧ c.room = false) ∨ x.AllOut (events (turns ts).net t.before) k := by
  obtain ⟨past, x, hi⟩ := inv_turns ts
  rw [turns_snoc] at h2
  generalize turns ts = s at *
  have hi' := hi.events t.before
  rcases turn_status s t h1 with e | ⟨_, e1, e2, e3, e4⟩ | ⟨e, _⟩
  · rw [e] at h2; cases h2
  · refine ⟨e4, ?_, past, x, hi'.acc, hi'.who, fun k hk => hi'.quietOut e1 e2 e3 hk⟩
    intro hc
    unfold Srv.errIn Srv.asks at e2
    unfold Srv.outIn Srv.asks at e3
    dsimp only at e2 e3
    rw [hc] at e2 e3
    simp at e2 e3
    exact ⟨e3, e2⟩
  · rw [e] at h2; cases h2

/-- **Only two things end the server otherwise**: a byte for Snek when it has exited, or a client that finishes and then breaks off. -/
theorem C89_killed_partial (ts : List Turn) (t : Turn) (h1 : (turns ts).status = .running) (h2 : (turns (ts ++ [t])).status = .killed) :
    (turns (ts ++ [t])).net.alive = false ∨
    ∃ k c, (turns (ts ++ [t])).conn = some k ∧ (turns (ts ++ [t])).net.clients[k]? = some c ∧ c.fin = true ∧ c.reset = true := by
  rw [turns_snoc] at h2 ⊢
  rcases turn_status (turns ts) t h1 with e | ⟨e, _⟩ | ⟨_, e⟩
  · rw [e] at h2; cases h2
  · rw [e] at h2; cases h2
  · exact e

/-! ## Ctrl-C -/

/-- The urgent bytes that wait. -/
def waiting (l : List Client) : Nat := l.countP (·.urgent)

theorem waiting_modify : ∀ (l : List Client) (k : Nat) (f : Client → Client) (c : Client), l[k]? = some c →
    waiting (l.modify k f) + (if c.urgent then 1 else 0) = waiting l + (if (f c).urgent then 1 else 0) := by
  intro l
  induction l with
  | nil => intro k f c h; cases h
  | cons a l ih =>
    intro k f c h
    cases k with
    | zero =>
      simp at h; subst h
      simp only [waiting, List.modify_zero_cons, List.countP_cons]
      omega
    | succ k =>
      have := ih k f c (by simpa using h)
      simp only [waiting, List.modify_succ_cons, List.countP_cons] at this ⊢
      omega

theorem waiting_same (l : List Client) (k : Nat) (f : Client → Client) (hf : ∀ c, (f c).urgent = c.urgent) : waiting (l.modify k f) = waiting l := by
  cases h : l[k]? with
  | none =>
    rw [List.modify_eq_self]
    rcases Nat.lt_or_ge k l.length with hl | hl
    · rw [List.getElem?_eq_getElem hl] at h; cases h
    · exact hl
  | some c =>
    have := waiting_modify l k f c h
    rw [hf c] at this
    omega

/-- Every urgent byte sent waits, or has become a signal. -/
def Counted (n : Net) : Prop := n.urgents = n.kills + waiting n.clients

theorem Counted.client {n : Net} (h : Counted n) (k : Nat) (f : Client → Client) (hf : ∀ c, (f c).urgent = c.urgent) : Counted (n.client k f) := by
  unfold Counted Net.client
  dsimp only
  rw [waiting_same n.clients k f hf]; exact h

theorem Counted.event {n : Net} (h : Counted n) (e : Ev) : Counted (event n e) := by
  cases e with
  | connect =>
    unfold Counted Relay.event waiting
    simpa [Counted, waiting] using h
  | send k bs => exact h.client k _ fun c => by split <;> rfl
  | urgent k =>
    unfold Relay.event
    dsimp only
    split
    · next c hc =>
      split
      · exact h
      · next hn =>
        have := waiting_modify n.clients k (fun c => { c with urgent := true }) c hc
        have hu : c.urgent = false := by
          simp only [Bool.or_eq_true, not_or, Bool.not_eq_true] at hn; exact hn.2
        rw [hu] at this
        unfold Counted Net.client at *
        simp at this ⊢
        omega
    · exact h
  | finish k => exact h.client k _ fun _ => rfl
  | reset k => exact h.client k _ fun _ => rfl
  | room k b => exact h.client k _ fun _ => rfl
  | out bs => unfold Relay.event; dsimp only; split <;> exact h
  | err bs => unfold Relay.event; dsimp only; split <;> exact h
  | inRoom b => exact h
  | exit => exact h

theorem Counted.events {n : Net} (h : Counted n) (es : List Ev) : Counted (events n es) := by
  unfold Relay.events
  induction es generalizing n with
  | nil => exact h
  | cons e es ih => exact ih (h.event e)

theorem Counted.turn {s : Srv} (h : Counted s.net) (t : Turn) : Counted (turn s t).net := by
  unfold Relay.turn
  split
  · exact h
  · dsimp only
    have h1' := h.events t.before
    have h1 := h1'
    have h2 : Counted ({ s with net := Relay.events (Relay.events s.net t.before) t.between } : Srv).net := h1.events t.between
    have h1 : Counted ({ s with net := Relay.events s.net t.before } : Srv).net := h1
    generalize ({ s with net := Relay.events s.net t.before } : Srv) = s1 at *
    generalize ({ s with net := Relay.events (Relay.events s.net t.before) t.between } : Srv) = s2 at *
    clear h
    split
    · exact h1
    split
    · exact h2
    split
    · unfold Srv.accept
      split
      · exact h2
      · split <;> exact h2
    split
    · unfold Srv.recv
      split
      · next k c hk hp =>
        obtain ⟨k', e1, e2⟩ := peer_some hp
        rw [hk] at e1; cases e1
        split
        · split
          · next hu =>
            have := waiting_modify s2.net.clients k (fun c => { c with urgent := false }) c e2
            rw [hu] at this
            unfold Counted Net.client at *
            simp at this ⊢
            omega
          · exact h2
        · split
          · exact h2.client k _ fun _ => rfl
          · split
            · exact h2
            · split <;> exact h2
      · exact h2
    split
    · unfold Srv.toSnek
      split
      · exact h2
      · split <;> exact h2
    split
    · unfold Srv.toClient
      split
      · split
        · split <;> exact h2
        · exact h2.client _ _ fun _ => rfl
      · exact h2
    split
    · unfold Srv.fromErr
      split
      · exact h2
      · unfold Srv.keep; split <;> exact h2
    split
    · unfold Srv.fromOut
      split
      · exact h2
      · unfold Srv.keep; split <;> exact h2
    have h3 := h1'.events t.between
    split <;> exact h3

/-- **Snek is interrupted no more often than the clients have asked**: each urgent byte waits or has become one signal. -/
theorem C89_interrupts (ts : List Turn) : (turns ts).net.urgents = (turns ts).net.kills + waiting (turns ts).net.clients := by
  unfold turns
  have : ∀ (ts : List Turn) (s : Srv), Counted s.net → Counted (ts.foldl turn s).net := by
    intro ts
    induction ts with
    | nil => intro s h; exact h
    | cons t ts ih => intro s h; exact ih _ (h.turn t)
  exact this ts srv0 rfl

/-- A turn in which nothing happens but what the server does. -/
abbrev quiet : Turn := {}

/-- **Ctrl-C is not held up by anything on its way**: neither by a byte held for Snek nor by Snek taking no more. In the turn in which the urgent byte is
seen, unless somebody else connects, Snek gets the signal. -/
theorem C89_interrupt (ts : List Turn) (k : Nat) (c : Client) (h1 : (turns ts).status = .running) (hk : (turns ts).conn = some k)
    (hc : (turns ts).net.clients[k]? = some c) (hu : c.urgent = true) (hr : c.reset = false) (hb : (turns ts).net.backlog = []) :
    (turns (ts ++ [quiet])).net.kills = (turns ts).net.kills + 1 ∧ (turns (ts ++ [quiet])).inBuf = (turns ts).inBuf ∧
      (turns (ts ++ [quiet])).status = .running := by
  rw [turns_snoc]
  generalize turns ts = s at *
  have hpeer : s.peer = some c := by unfold Srv.peer; rw [hk]; exact hc
  have e1 : s.hup = false := by unfold Srv.hup; rw [hpeer]; exact hr
  have e2 : s.knock = false := by unfold Srv.knock; rw [hb]; rfl
  have e3 : s.pri = true := by unfold Srv.pri; rw [hpeer]; exact hu
  have e4 : s.asleep = false := by unfold Srv.asleep; simp [e3]
  have e : turn s quiet = s.recv true := by
    unfold turn
    rw [if_neg (by simp [h1])]
    show (if s.asleep = true then s else if s.hup = true then s.drop else if s.knock = true then s.accept false
      else if (s.pin || s.pri) = true then s.recv s.pri else _) = _
    rw [if_neg (by simp [e4]), if_neg (by simp [e1]), if_neg (by simp [e2]), if_pos (by simp [e3]), e3]
  rw [e]
  unfold Srv.recv
  rw [hk, hpeer]
  dsimp only
  rw [if_pos rfl, if_pos hu]
  exact ⟨rfl, rfl, h1⟩

/-! ## Everything arrives -/

/-- Client `k` is connected, wants to talk and to listen, and Snek to listen. -/
structure Talking (s : Srv) (k : Nat) : Prop where
  run : s.status = .running
  conn : s.conn = some k
  backlog : s.net.backlog = []
  alive : s.net.alive = true
  inRoom : s.net.inRoom = true
  peer : ∃ c, s.net.clients[k]? = some c ∧ c.reset = false ∧ c.fin = false ∧ c.urgent = false ∧ c.room = true

/-- What is on its way. -/
def weight (s : Srv) : Nat :=
  2 * (s.peer.elim 0 (·.queue.length)) + s.inBuf.toList.length + 2 * (s.net.outq.length + s.net.errq.length) + s.outBuf.toList.length

theorem modify_at (l : List Client) (k : Nat) (c : Client) (f : Client → Client) (h : l[k]? = some c) : (l.modify k f)[k]? = some (f c) := by
  rw [getElem?_modify', if_pos rfl, h]; rfl

theorem Talking.step {s : Srv} {k : Nat} (h : Talking s k) (hs : s.asleep = false) : Talking (turn s quiet) k ∧ weight (turn s quiet) < weight s := by
  obtain ⟨c, hc, hr, hf, hu, ho⟩ := h.peer
  have hpeer : s.peer = some c := by unfold Srv.peer; rw [h.conn]; exact hc
  have e1 : s.hup = false := by unfold Srv.hup; rw [hpeer]; exact hr
  have e2 : s.knock = false := by unfold Srv.knock; rw [h.backlog]; rfl
  have e3 : s.pri = false := by unfold Srv.pri; rw [hpeer]; exact hu
  have e9 : s.gone = false := by unfold Srv.gone; rw [h.alive]; rfl
  have e : turn s quiet = if s.pin = true then s.recv false else if s.feed = true then s.toSnek else if s.pout = true then s.toClient
      else if s.errIn = true then s.fromErr else s.fromOut := by
    unfold turn
    rw [if_neg (by simp [h.run])]
    show (if s.asleep = true then s else if s.hup = true then s.drop else if s.knock = true then s.accept false
      else if (s.pin || s.pri) = true then s.recv s.pri else if s.feed = true then s.toSnek else if s.pout = true then s.toClient
      else if s.errIn = true then s.fromErr else if s.outIn = true then s.fromOut else if s.gone = true then _ else _) = _
    rw [if_neg (by simp [hs]), if_neg (by simp [e1]), if_neg (by simp [e2]), e3, Bool.or_false]
    by_cases h4 : s.pin = true
    · rw [if_pos h4, if_pos h4]
    rw [if_neg h4, if_neg h4]
    by_cases h5 : s.feed = true
    · rw [if_pos h5, if_pos h5]
    rw [if_neg h5, if_neg h5]
    by_cases h6 : s.pout = true
    · rw [if_pos h6, if_pos h6]
    rw [if_neg h6, if_neg h6]
    by_cases h7 : s.errIn = true
    · rw [if_pos h7, if_pos h7]
    rw [if_neg h7, if_neg h7]
    rw [if_pos]
    unfold Srv.asleep at hs
    simpa [e1, e2, e3, e9, h4, h5, h6, h7] using hs
  rw [e]
  split
  · next hp =>
    unfold Srv.pin at hp
    rw [Bool.and_eq_true, hpeer] at hp
    have hin : s.inBuf = none := Option.isNone_iff_eq_none.1 hp.1
    unfold Srv.recv
    rw [h.conn, hpeer]
    dsimp only
    rw [if_neg (by simp)]
    cases hq : c.queue with
    | nil => simp [hq, hf] at hp
    | cons b r =>
      have hc' := modify_at s.net.clients k c (fun c => { c with queue := r }) hc
      refine ⟨⟨h.run, rfl, h.backlog, h.alive, h.inRoom, _, hc', hr, hf, hu, ho⟩, ?_⟩
      unfold weight
      have hpeer' : ({ s with net := s.net.client k fun c => { c with queue := r }, inBuf := some b } : Srv).peer = some { c with queue := r } := by
        unfold Srv.peer; dsimp only [Net.client]; rw [h.conn]; exact hc'
      rw [h.conn] at hpeer'
      dsimp only
      rw [hpeer', hpeer, hin]
      simp [Net.client, hq]
      omega
  next hp =>
  split
  · next hfe =>
    unfold Srv.feed at hfe
    rw [Bool.and_eq_true] at hfe
    unfold Srv.toSnek
    cases hb : s.inBuf with
    | none => rw [hb] at hfe; simp at hfe
    | some b =>
      dsimp only
      rw [if_pos h.alive]
      refine ⟨⟨h.run, h.conn, h.backlog, h.alive, h.inRoom, c, hc, hr, hf, hu, ho⟩, ?_⟩
      unfold weight Srv.peer
      simp [hb]
  next hfe =>
  split
  · next hpo =>
    unfold Srv.pout at hpo
    rw [Bool.and_eq_true] at hpo
    unfold Srv.toClient
    cases hb : s.outBuf with
    | none => rw [hb] at hpo; simp at hpo
    | some b =>
      rw [h.conn, hpeer]
      dsimp only
      rw [if_neg (by simp [hr])]
      have hc' := modify_at s.net.clients k c (fun c => { c with got := c.got ++ [b] }) hc
      refine ⟨⟨h.run, rfl, h.backlog, h.alive, h.inRoom, _, hc', hr, hf, hu, ho⟩, ?_⟩
      unfold weight
      have hpeer' : ({ s with net := s.net.client k fun c => { c with got := c.got ++ [b] }, conn := some k, outBuf := none } : Srv).peer =
          some { c with got := c.got ++ [b] } := by
        unfold Srv.peer; exact hc'
      rw [hpeer', hpeer, hb]
      simp [Net.client]
  next hpo =>
  have hnone : s.outBuf = none := by
    unfold Srv.pout at hpo
    rw [hpeer] at hpo
    cases hb : s.outBuf with
    | none => rfl
    | some b => simp [hb, ho] at hpo
  split
  · next he =>
    unfold Srv.errIn at he
    rw [Bool.and_eq_true] at he
    unfold Srv.fromErr
    cases hq : s.net.errq with
    | nil => rw [hq] at he; simp at he
    | cons b r =>
      dsimp only
      unfold Srv.keep
      rw [if_pos (by rw [h.conn]; rfl)]
      refine ⟨⟨h.run, h.conn, h.backlog, h.alive, h.inRoom, c, hc, hr, hf, hu, ho⟩, ?_⟩
      unfold weight Srv.peer
      simp [hq, hnone]
      omega
  · next he =>
    have hq : s.net.outq ≠ [] := by
      intro hq
      unfold Srv.asleep at hs
      have e8 : s.outIn = false := by unfold Srv.outIn; rw [hq]; simp
      simp [e1, e2, e3, e8, e9, hp, hfe, hpo, he] at hs
    unfold Srv.fromOut
    cases hq' : s.net.outq with
    | nil => exact absurd hq' hq
    | cons b r =>
      dsimp only
      unfold Srv.keep
      rw [if_pos (by rw [h.conn]; rfl)]
      refine ⟨⟨h.run, h.conn, h.backlog, h.alive, h.inRoom, c, hc, hr, hf, hu, ho⟩, ?_⟩
      unfold weight Srv.peer
      simp [hq', hnone]
      omega

theorem Talking.drains : ∀ (m : Nat) (s : Srv) (k : Nat), weight s ≤ m → Talking s k →
    ∃ n, Talking ((List.replicate n quiet).foldl turn s) k ∧ ((List.replicate n quiet).foldl turn s).asleep = true := by
  intro m
  induction m with
  | zero =>
    intro s k hw h
    cases hs : s.asleep with
    | true => exact ⟨0, h, hs⟩
    | false => have := (h.step hs).2; omega
  | succ m ih =>
    intro s k hw h
    cases hs : s.asleep with
    | true => exact ⟨0, h, hs⟩
    | false =>
      obtain ⟨h1, h2⟩ := h.step hs
      obtain ⟨n, g⟩ := ih (turn s quiet) k (by omega) h1
      exact ⟨n + 1, g⟩

/-- **Everything arrives**: from any moment at which client `k` is connected and both it and Snek take bytes, if nobody sends more, the server gives Snek all
the client has sent and the client all Snek has written in that session, in finitely many turns, and then sleeps. -/
theorem C89_arrives (ts : List Turn) (k : Nat) (h : Talking (turns ts) k) :
    ∃ n, (turns (ts ++ List.replicate n quiet)).asleep = true ∧ (turns (ts ++ List.replicate n quiet)).conn = some k ∧
      ∃ past x, Account (turns (ts ++ List.replicate n quiet)).net (past ++ [x]) ∧ x.who = some k ∧
        x.AllIn (turns (ts ++ List.replicate n quiet)).net k ∧ x.AllOut (turns (ts ++ List.replicate n quiet)).net k := by
  obtain ⟨n, h1, h2⟩ := h.drains _ _ _ (Nat.le_refl _)
  have e : (List.replicate n quiet).foldl turn (turns ts) = turns (ts ++ List.replicate n quiet) := by
    unfold turns; rw [List.foldl_append]
  rw [e] at h1 h2
  refine ⟨n, h2, h1.conn, ?_⟩
  obtain ⟨_, _, _, past, x, a1, a2, a3⟩ := C89_sleep _ h2
  obtain ⟨b1, b2, _⟩ := a3 k h1.conn
  refine ⟨past, x, a1, by rw [a2]; exact h1.conn, ?_, ?_⟩
  · rcases b1 with b | b
    · rw [h1.inRoom] at b; cases b
    · exact b
  · rcases b2 with ⟨c, c1, c2⟩ | b
    · obtain ⟨c', d1, _, _, _, d5⟩ := h1.peer
      rw [d1] at c1; cases c1; rw [d5] at c2; cases c2
    · exact b

/-! ## Examples and violations -/

/-- A client connects, sends two bytes and gets three, of both outputs; then another takes its place and gets what follows. -/
example :
    let s := turns ([{ before := [.connect] }, { before := [.send 0 [1, 2], .out [7, 8], .err [9]] }] ++ List.replicate 9 quiet ++
      [{ before := [.connect] }, { before := [.out [5]] }, quiet])
    s.net.fed = [1, 2] ∧ (s.net.clients.map (·.got)) = [[9, 7, 8], [5]] ∧ s.conn = some 1 ∧ s.status = .running ∧ s.asleep = true := by
  decide +kernel

/-- The hypotheses of `C89_arrives` and `C89_interrupt` are met. -/
example : Talking (turns [{ before := [.connect] }, { before := [.send 0 [1, 2], .out [7, 8]] }]) 0 :=
  ⟨rfl, rfl, rfl, rfl, rfl, _, rfl, rfl, rfl, rfl, rfl⟩

example : (turns [{ before := [.connect] }, { before := [.send 0 [1], .inRoom false] }, { before := [.urgent 0] }]).net.kills = 1 := by
  decide +kernel

/-- **Violation.** Snek writes its last words and exits; a byte of the client is on its way. The server takes that byte, writes it to a pipe nobody
reads and is killed by the signal: the last words are lost. -/
theorem C89_violated_typeahead :
    let s := turns [{ before := [.connect] }, { before := [.out [7, 8], .exit, .send 0 [1]] }, quiet]
    s.status = .killed ∧ s.net.out = [7, 8] ∧ s.net.clients.map (·.got) = [[]] := by
  decide +kernel

/-- **Violation.** Snek exits while the client takes no more for a moment: the server exits at once and the rest of the output is lost. -/
theorem C89_violated_slow :
    let s := turns [{ before := [.connect] }, { before := [.room 0 false, .out [7, 8]] }, { before := [.exit] }, { before := [.room 0 true] }]
    s.status = .exited ∧ s.net.out = [7, 8] ∧ s.net.clients.map (·.got) = [[]] := by
  decide +kernel

/-- **Violation.** A client that sends a program and then says that it sends no more (`echo 'f()' | nc`) is cut off, and gets no answer. -/
theorem C89_violated_halfclose :
    let s := turns ([{ before := [.connect] }, { before := [.send 0 [1], .finish 0] }, quiet, { before := [.out [7]] }] ++ List.replicate 3 quiet)
    s.status = .running ∧ s.net.fed = [1] ∧ s.net.out = [7] ∧ s.net.outq = [] ∧ s.net.clients.map (·.got) = [[]] := by
  decide +kernel

/-- **Violation.** A client that finishes and breaks off between `poll` and a `write` kills the server, though Snek runs on. -/
theorem C89_violated_client :
    let s := turns [{ before := [.connect] }, { before := [.inRoom false, .send 0 [1]] }, { before := [.finish 0, .out [7]] },
      { between := [.reset 0] }]
    s.status = .killed ∧ s.net.alive = true := by
  decide +kernel

end Snek.Relay
