import Verif.Model.Relay
/-!
# The server of the LEGO EV3: the sessions account for everything
-/
namespace Snek.Relay

theorem shuffle_len {a b m : List Byte} (h : Shuffle a b m) : m.length = a.length + b.length := by
  induction h with
  | nil => rfl
  | left _ ih => simp [ih]; omega
  | right _ ih => simp [ih]; omega

/-- What an event can do to a client. -/
structure Grow (c c' : Client) : Prop where
  got : c'.got = c.got
  more : ∃ bs, c'.sent = c.sent ++ bs ∧ c'.queue = c.queue ++ bs ∧ (c.fin = true → bs = [])
  fin : c.fin = true → c'.fin = true

theorem Grow.refl (c : Client) : Grow c c := ⟨rfl, ⟨[], by simp, by simp, fun _ => rfl⟩, id⟩

theorem getElem?_modify' {α : Type} (l : List α) (k j : Nat) (f : α → α) : (l.modify k f)[j]? = if k = j then l[j]?.map f else l[j]? := by
  rw [List.getElem?_modify]
  split <;> simp

/-- The current session, with what is held. -/
def Cur (s : Srv) (x : Session) : Prop :=
  match s.conn with
  | none => s.inBuf = none ∧ s.outBuf = none ∧ x.inp = []
  | some k => ∃ c, s.net.clients[k]? = some c ∧ c.sent = x.inp ++ s.inBuf.toList ++ c.queue ∧ Shuffle x.out x.err (c.got ++ s.outBuf.toList)

/-- Everything that holds between two steps. -/
structure Inv (s : Srv) (past : List Session) (x : Session) : Prop where
  acc : Account s.net (past ++ [x])
  who : x.who = s.conn
  ids : (past.filterMap (·.who) ++ s.conn.toList ++ s.net.backlog).Nodup
  below : ∀ k ∈ past.filterMap (·.who) ++ s.conn.toList ++ s.net.backlog, k < s.net.clients.length
  past : ∀ y ∈ past, y.Fair s.net ∧ (y.finished = true → ∀ k c, y.who = some k → s.net.clients[k]? = some c → c.fin = true)
  cur : Cur s x
  wait : ∀ k ∈ s.net.backlog, ∃ c, s.net.clients[k]? = some c ∧ c.queue = c.sent ∧ c.got = []

/-- A change of the clients that only grows them keeps the invariant. -/
theorem Inv.grow {s : Srv} {past : List Session} {x : Session} (h : Inv s past x) {n' : Net}
    (hc : ∀ (k : Nat) (c : Client), s.net.clients[k]? = some c → ∃ c', n'.clients[k]? = some c' ∧ Grow c c')
    (hl : s.net.clients.length = n'.clients.length)
    (hb : n'.backlog = s.net.backlog) (hf : n'.fed = s.net.fed)
    (ho : ∃ bs, n'.out = s.net.out ++ bs ∧ n'.outq = s.net.outq ++ bs)
    (he : ∃ bs, n'.err = s.net.err ++ bs ∧ n'.errq = s.net.errq ++ bs) : Inv { s with net := n' } past x := by
  obtain ⟨bo, o1, o2⟩ := ho
  obtain ⟨be, e1, e2⟩ := he
  refine ⟨⟨?_, ?_, ?_, h.acc.once⟩, h.who, ?_, ?_, ?_, ?_, ?_⟩
  · show n'.fed = _
    rw [hf]; exact h.acc.fed
  · show n'.out = _ ++ n'.outq
    rw [o1, o2, h.acc.out, List.append_assoc]
  · show n'.err = _ ++ n'.errq
    rw [e1, e2, h.acc.err, List.append_assoc]
  · show (past.filterMap (·.who) ++ s.conn.toList ++ n'.backlog).Nodup
    rw [hb]; exact h.ids
  · show ∀ k ∈ past.filterMap (·.who) ++ s.conn.toList ++ n'.backlog, k < n'.clients.length
    rw [hb, ← hl]; exact h.below
  · intro y hy
    obtain ⟨f, g⟩ := h.past y hy
    unfold Session.Fair at f ⊢
    cases hw : y.who with
    | none =>
      rw [hw] at f
      exact ⟨f, fun _ k c e => by cases e⟩
    | some k =>
      rw [hw] at f
      obtain ⟨c, m, f1, f2, f3, f4, f5⟩ := f
      obtain ⟨c', h1, h2⟩ := hc k c f1
      obtain ⟨bs, b1, b2, b3⟩ := h2.more
      refine ⟨⟨c', m, h1, ?_, ?_, f4, by rw [h2.got]; exact f5⟩, ?_⟩
      · rw [b1]; exact f2.trans (List.prefix_append _ _)
      · intro hfin
        rw [b1, b3 (g hfin k c hw f1), List.append_nil]; exact f3 hfin
      · intro hfin k' c'' e1 e2
        cases e1
        have e2 : n'.clients[k]? = some c'' := e2
        rw [h1] at e2; cases e2
        exact h2.fin (g hfin k c hw f1)
  · have hcur := h.cur
    unfold Cur at hcur ⊢
    dsimp only
    cases hk : s.conn with
    | none => rw [hk] at hcur; exact hcur
    | some k =>
      rw [hk] at hcur
      obtain ⟨c, c1, c2, c3⟩ := hcur
      obtain ⟨c', h1, h2⟩ := hc k c c1
      obtain ⟨bs, b1, b2, b3⟩ := h2.more
      refine ⟨c', h1, ?_, by rw [h2.got]; exact c3⟩
      rw [b1, b2, c2]; simp [List.append_assoc]
  · show ∀ k ∈ n'.backlog, ∃ c, n'.clients[k]? = some c ∧ _
    rw [hb]
    intro k hk
    obtain ⟨c, c1, c2, c3⟩ := h.wait k hk
    obtain ⟨c', h1, h2⟩ := hc k c c1
    obtain ⟨bs, b1, b2, b3⟩ := h2.more
    exact ⟨c', h1, by rw [b1, b2, c2], by rw [h2.got]; exact c3⟩

theorem Inv.client {s : Srv} {past : List Session} {x : Session} (h : Inv s past x) (k : Nat) {f : Client → Client} (hf : ∀ c, Grow c (f c)) :
    Inv { s with net := s.net.client k f } past x := by
  refine h.grow ?_ (by simp [Net.client]) rfl rfl ⟨[], by simp [Net.client], by simp [Net.client]⟩ ⟨[], by simp [Net.client], by simp [Net.client]⟩
  intro j c hj
  show ∃ c', (s.net.clients.modify k f)[j]? = some c' ∧ Grow c c'
  rw [getElem?_modify', hj]
  split
  · exact ⟨f c, rfl, hf c⟩
  · exact ⟨c, rfl, Grow.refl c⟩

theorem Inv.event {s : Srv} {past : List Session} {x : Session} (h : Inv s past x) (e : Ev) : Inv { s with net := event s.net e } past x := by
  have same : ∀ n' : Net, n'.clients = s.net.clients → n'.backlog = s.net.backlog → n'.fed = s.net.fed →
      (∃ bs, n'.out = s.net.out ++ bs ∧ n'.outq = s.net.outq ++ bs) → (∃ bs, n'.err = s.net.err ++ bs ∧ n'.errq = s.net.errq ++ bs) →
      Inv { s with net := n' } past x :=
    fun n' e1 e2 e3 e4 e5 => h.grow (fun k c hk => ⟨c, by rw [e1]; exact hk, Grow.refl c⟩) (by rw [e1]) e2 e3 e4 e5
  cases e with
  | connect =>
    unfold Relay.event
    dsimp only
    have hnew : ∀ k ∈ past.filterMap (·.who) ++ s.conn.toList ++ s.net.backlog, k ≠ s.net.clients.length :=
      fun k hk e => by have := h.below k hk; omega
    have old : ∀ (k : Nat) (c : Client), s.net.clients[k]? = some c → (s.net.clients ++ [({} : Client)])[k]? = some c := by
      intro k c hk
      have : k < s.net.clients.length := by
        rcases Nat.lt_or_ge k s.net.clients.length with h | h
        · exact h
        · rw [List.getElem?_eq_none h] at hk; cases hk
      rw [List.getElem?_append_left this]; exact hk
    have back : ∀ (k : Nat) (c : Client), k < s.net.clients.length → (s.net.clients ++ [({} : Client)])[k]? = some c → s.net.clients[k]? = some c := by
      intro k c hk e
      rwa [List.getElem?_append_left hk] at e
    refine ⟨⟨h.acc.fed, h.acc.out, h.acc.err, h.acc.once⟩, h.who, ?_, ?_, ?_, ?_, ?_⟩
    · show (past.filterMap (·.who) ++ s.conn.toList ++ (s.net.backlog ++ [s.net.clients.length])).Nodup
      rw [← List.append_assoc, List.nodup_append]
      refine ⟨h.ids, by simp, ?_⟩
      intro a ha b hb
      simp only [List.mem_singleton] at hb
      subst hb
      exact hnew a ha
    · show ∀ k ∈ past.filterMap (·.who) ++ s.conn.toList ++ (s.net.backlog ++ [s.net.clients.length]), k < (s.net.clients ++ [({} : Client)]).length
      intro k hk
      rw [← List.append_assoc, List.mem_append] at hk
      rw [List.length_append, List.length_singleton]
      rcases hk with hk | hk
      · have := h.below k hk; omega
      · simp only [List.mem_singleton] at hk; omega
    · intro y hy
      obtain ⟨f, g⟩ := h.past y hy
      unfold Session.Fair at f ⊢
      cases hw : y.who with
      | none => rw [hw] at f; exact ⟨f, fun _ k c e => by cases e⟩
      | some k =>
        rw [hw] at f
        obtain ⟨c, m, f1, f2⟩ := f
        refine ⟨⟨c, m, old k c f1, f2⟩, ?_⟩
        intro hfin k' c' e1 e2
        cases e1
        have : some c = some c' := (old k c f1).symm.trans e2
        cases this
        exact g hfin k c hw f1
    · have hcur := h.cur
      unfold Cur at hcur ⊢
      dsimp only
      cases hk : s.conn with
      | none => rw [hk] at hcur; exact hcur
      | some k =>
        rw [hk] at hcur
        obtain ⟨c, c1, c2⟩ := hcur
        exact ⟨c, old k c c1, c2⟩
    · show ∀ k ∈ s.net.backlog ++ [s.net.clients.length], ∃ c, (s.net.clients ++ [({} : Client)])[k]? = some c ∧ _
      intro k hk
      rw [List.mem_append] at hk
      rcases hk with hk | hk
      · obtain ⟨c, c1, c2⟩ := h.wait k hk
        exact ⟨c, old k c c1, c2⟩
      · simp only [List.mem_singleton] at hk
        subst hk
        exact ⟨{}, by simp, rfl, rfl⟩
  | send k bs =>
    refine h.client k fun c => ?_
    split
    · exact Grow.refl c
    · next hn =>
      refine ⟨rfl, ⟨bs, rfl, rfl, ?_⟩, id⟩
      intro hf; rw [hf] at hn; simp at hn
  | urgent k =>
    unfold Relay.event
    dsimp only
    split
    · split
      · exact h
      · exact (h.client k fun c => (⟨rfl, ⟨[], by simp, by simp, fun _ => rfl⟩, id⟩ : Grow c { c with urgent := true })).grow
          (fun j c hj => ⟨c, hj, Grow.refl c⟩) rfl rfl rfl ⟨[], by simp, by simp⟩ ⟨[], by simp, by simp⟩
    · exact h
  | finish k => exact h.client k fun c => ⟨rfl, ⟨[], by simp, by simp, fun _ => rfl⟩, fun _ => rfl⟩
  | reset k => exact h.client k fun c => ⟨rfl, ⟨[], by simp, by simp, fun _ => rfl⟩, id⟩
  | room k b => exact h.client k fun c => ⟨rfl, ⟨[], by simp, by simp, fun _ => rfl⟩, id⟩
  | out bs =>
    unfold Relay.event
    dsimp only
    split
    · exact same _ rfl rfl rfl ⟨bs, rfl, rfl⟩ ⟨[], by simp, by simp⟩
    · exact h
  | err bs =>
    unfold Relay.event
    dsimp only
    split
    · exact same _ rfl rfl rfl ⟨[], by simp, by simp⟩ ⟨bs, rfl, rfl⟩
    · exact h
  | inRoom b => exact same _ rfl rfl rfl ⟨[], by simp [Relay.event], by simp [Relay.event]⟩ ⟨[], by simp [Relay.event], by simp [Relay.event]⟩
  | exit => exact same _ rfl rfl rfl ⟨[], by simp [Relay.event], by simp [Relay.event]⟩ ⟨[], by simp [Relay.event], by simp [Relay.event]⟩

theorem Inv.events {s : Srv} {past : List Session} {x : Session} (h : Inv s past x) (es : List Ev) : Inv { s with net := events s.net es } past x := by
  unfold Relay.events
  induction es generalizing s with
  | nil => exact h
  | cons e es ih =>
    rw [List.foldl_cons]
    exact ih (s := { s with net := Relay.event s.net e }) (h.event e)

/-! ## What the server does -/

/-- A step that stays in the session and changes at most the connected client. -/
theorem Inv.touch {s s' : Srv} {past : List Session} {x x' : Session} (h : Inv s past x) (hconn : s'.conn = s.conn)
    (hc : ∀ j, s.conn ≠ some j → s'.net.clients[j]? = s.net.clients[j]?) (hl : s'.net.clients.length = s.net.clients.length)
    (hb : s'.net.backlog = s.net.backlog) (hw : x'.who = x.who) (hf : s'.net.fed = (past ++ [x']).flatMap (·.inp))
    (ho : s'.net.out = (past ++ [x']).flatMap (·.out) ++ s'.net.outq) (he : s'.net.err = (past ++ [x']).flatMap (·.err) ++ s'.net.errq)
    (hcur : Cur s' x') : Inv s' past x' := by
  have notpast : ∀ y ∈ past, ∀ k, y.who = some k → s.conn ≠ some k := by
    intro y hy k hk e
    have h1 := h.ids
    rw [e, List.nodup_append, List.nodup_append] at h1
    exact h1.1.2.2 k (List.mem_filterMap.2 ⟨y, hy, hk⟩) k (by simp) rfl
  have notwait : ∀ k ∈ s.net.backlog, s.conn ≠ some k := by
    intro k hk e
    have h1 := h.ids
    rw [e, List.nodup_append] at h1
    exact h1.2.2 k (by simp) k hk rfl
  refine ⟨⟨hf, ho, he, ?_⟩, hw.trans (h.who.trans hconn.symm), ?_, ?_, ?_, hcur, ?_⟩
  · have := h.acc.once
    rw [List.filterMap_append] at this ⊢
    simpa [List.filterMap_cons, hw] using this
  · rw [hconn, hb]; exact h.ids
  · rw [hconn, hb, hl]; exact h.below
  · intro y hy
    obtain ⟨f, g⟩ := h.past y hy
    unfold Session.Fair at f ⊢
    cases hw : y.who with
    | none => rw [hw] at f; exact ⟨f, fun _ k c e => by cases e⟩
    | some k =>
      rw [hw] at f
      have e := hc k (notpast y hy k hw)
      obtain ⟨c, m, f1, f2⟩ := f
      refine ⟨⟨c, m, e.trans f1, f2⟩, ?_⟩
      intro hfin k' c' e1 e2
      cases e1
      rw [e] at e2
      exact g hfin k c' hw e2
  · intro k hk
    rw [hb] at hk
    rw [hc k (notwait k hk)]
    exact h.wait k hk

/-- The session ends. -/
theorem Inv.ended {s : Srv} {past : List Session} {x : Session} (h : Inv s past x) (b : Bool)
    (hb : b = true → ∃ k c, s.conn = some k ∧ s.net.clients[k]? = some c ∧ s.inBuf = none ∧ c.queue = [] ∧ c.fin = true) :
    ({ x with finished := b } : Session).Fair s.net ∧
      (b = true → ∀ k c, x.who = some k → s.net.clients[k]? = some c → c.fin = true) := by
  have hcur := h.cur
  have hw := h.who
  unfold Cur at hcur
  unfold Session.Fair
  dsimp only
  rw [hw]
  cases hk : s.conn with
  | none =>
    rw [hk] at hcur
    refine ⟨hcur.2.2, fun _ k c e => by cases e⟩
  | some k =>
    rw [hk] at hcur
    obtain ⟨c, c1, c2, c3⟩ := hcur
    refine ⟨⟨c, _, c1, ?_, ?_, c3, ?_⟩, ?_⟩
    · rw [c2, List.append_assoc]; exact List.prefix_append _ _
    · intro hx
      obtain ⟨k', c', e1, e2, e3, e4, e5⟩ := hb hx
      rw [hk] at e1; cases e1
      rw [c1] at e2; cases e2
      rw [c2, e3, e4]; simp
    · cases s.outBuf with
      | none => left; simp
      | some b => right; exact ⟨b, rfl⟩
    · intro hx k' c' e1 e2
      obtain ⟨k', c', e1', e2', e3, e4, e5⟩ := hb hx
      rw [hk] at e1'; cases e1'; cases e1
      rw [c1] at e2 e2'; cases e2; cases e2'
      exact e5

theorem Inv.next {s : Srv} {past : List Session} {x : Session} (h : Inv s past x) (b : Bool)
    (hb : b = true → ∃ k c, s.conn = some k ∧ s.net.clients[k]? = some c ∧ s.inBuf = none ∧ c.queue = [] ∧ c.fin = true)
    (s' : Srv) (hn : s'.net = { s.net with backlog := s'.net.backlog }) (hi : s'.inBuf = none) (ho : s'.outBuf = none)
    (hcb : s'.conn.toList ++ s'.net.backlog = s.net.backlog) : Inv s' (past ++ [{ x with finished := b }]) { who := s'.conn } := by
  have he := h.ended b hb
  have hcl : s'.net.clients = s.net.clients := by rw [hn]
  have hids : ((past ++ [({ x with finished := b } : Session)]).filterMap fun y : Session => y.who) = past.filterMap (·.who) ++ s.conn.toList := by
    rw [List.filterMap_append, ← h.who]
    cases hw : x.who <;> simp [List.filterMap_cons, hw]
  refine ⟨⟨?_, ?_, ?_, ?_⟩, rfl, ?_, ?_, ?_, ?_, ?_⟩
  · have := h.acc.fed
    rw [show s'.net.fed = s.net.fed by rw [hn], this]; simp
  · have := h.acc.out
    rw [show s'.net.out = s.net.out by rw [hn], show s'.net.outq = s.net.outq by rw [hn], this]; simp
  · have := h.acc.err
    rw [show s'.net.err = s.net.err by rw [hn], show s'.net.errq = s.net.errq by rw [hn], this]; simp
  · rw [List.filterMap_append, hids]
    have := h.ids
    rw [← hcb, ← List.append_assoc, List.nodup_append] at this
    refine (List.Sublist.nodup ?_ this.1)
    cases s'.conn <;> simp
  · rw [hids]
    have := h.ids
    rw [← hcb, ← List.append_assoc] at this
    exact this
  · rw [hids, hcl, List.append_assoc _ s'.conn.toList, hcb]
    exact h.below
  · intro y hy
    rw [List.mem_append] at hy
    have hfair : ∀ y : Session, y.Fair s'.net ↔ y.Fair s.net := by intro y; unfold Session.Fair; rw [hcl]
    rw [hfair, hcl]
    rcases hy with hy | hy
    · exact h.past y hy
    · simp only [List.mem_singleton] at hy
      subst hy
      exact he
  · unfold Cur
    cases hc : s'.conn with
    | none => exact ⟨hi, ho, rfl⟩
    | some k =>
      have hk : k ∈ s.net.backlog := by rw [← hcb, hc]; simp
      obtain ⟨c, c1, c2, c3⟩ := h.wait k hk
      refine ⟨c, by rw [hcl]; exact c1, by rw [hi, c2]; simp, ?_⟩
      rw [ho, c3]; exact .nil
  · intro k hk
    rw [hcl]
    exact h.wait k (by rw [← hcb]; exact List.mem_append.2 (.inr hk))

theorem Inv.dropped {s : Srv} {past : List Session} {x : Session} (h : Inv s past x) (b : Bool)
    (hb : b = true → ∃ k c, s.conn = some k ∧ s.net.clients[k]? = some c ∧ s.inBuf = none ∧ c.queue = [] ∧ c.fin = true) :
    Inv s.drop (past ++ [{ x with finished := b }]) {} := by
  have := h.next b hb s.drop rfl rfl rfl rfl
  exact this

theorem Inv.accepted {s : Srv} {past : List Session} {x : Session} (h : Inv s past x) (fails : Bool) :
    ∃ past' x', Inv (s.accept fails) past' x' := by
  unfold Srv.accept
  split
  · exact ⟨past, x, h⟩
  · match hb : s.net.backlog with
    | [] => exact ⟨past, x, h⟩
    | k :: r =>
      refine ⟨_, _, h.next false (fun e => by cases e) _ rfl rfl rfl ?_⟩
      rw [hb]; rfl

theorem peer_some {s : Srv} {c : Client} (h : s.peer = some c) : ∃ k, s.conn = some k ∧ s.net.clients[k]? = some c := by
  unfold Srv.peer at h
  cases hk : s.conn with
  | none => rw [hk] at h; cases h
  | some k => rw [hk] at h; exact ⟨k, rfl, h⟩

theorem flatMap_snoc {α β : Type} (l : List α) (a : α) (f : α → List β) : (l ++ [a]).flatMap f = l.flatMap f ++ f a := by simp

/-- Bytes are received only with none held. -/
theorem Inv.received {s : Srv} {past : List Session} {x : Session} (h : Inv s past x) (oob : Bool) (hi : oob = false → s.inBuf = none) :
    ∃ past' x', Inv (s.recv oob) past' x' := by
  unfold Srv.recv
  split
  · next k c hk hp =>
    obtain ⟨k', e1, e2⟩ := peer_some hp
    rw [hk] at e1; cases e1
    have hcur := h.cur
    unfold Cur at hcur
    rw [hk] at hcur
    obtain ⟨c', c1, c2, c3⟩ := hcur
    rw [e2] at c1; cases c1
    have others : ∀ (f : Client → Client) (j : Nat), s.conn ≠ some j → (s.net.clients.modify k f)[j]? = s.net.clients[j]? := by
      intro f j hj
      rw [getElem?_modify', if_neg]
      intro e; subst e; exact hj hk
    split
    · split
      · refine ⟨past, x, h.touch (x' := x) rfl (others _) (by simp [Net.client]) rfl rfl h.acc.fed h.acc.out h.acc.err ?_⟩
        unfold Cur
        dsimp only [Net.client]
        rw [hk]
        exact ⟨{ c with urgent := false }, by rw [getElem?_modify', if_pos rfl, e2]; rfl, c2, c3⟩
      · exact ⟨past, x, h⟩
    · next ho =>
      have hin := hi (by simpa using ho)
      split
      · next b r hq =>
        refine ⟨past, x, h.touch (x' := x) rfl (others _) (by simp [Net.client]) rfl rfl h.acc.fed h.acc.out h.acc.err ?_⟩
        unfold Cur
        dsimp only [Net.client]
        rw [hk]
        refine ⟨{ c with queue := r }, by rw [getElem?_modify', if_pos rfl, e2]; rfl, ?_, c3⟩
        show c.sent = _
        rw [c2, hin, hq]; simp
      · next hq =>
        split
        · exact ⟨past, x, h⟩
        · split
          · next hfin => exact ⟨_, _, h.dropped true fun _ => ⟨k, c, hk, e2, hin, hq, hfin⟩⟩
          · exact ⟨past, x, h⟩
  · exact ⟨past, x, h⟩

theorem Inv.status {s : Srv} {past : List Session} {x : Session} (h : Inv s past x) (st : Status) : Inv { s with status := st } past x :=
  ⟨h.acc, h.who, h.ids, h.below, h.past, h.cur, h.wait⟩

theorem Inv.fedSnek {s : Srv} {past : List Session} {x : Session} (h : Inv s past x) : ∃ past' x', Inv s.toSnek past' x' := by
  unfold Srv.toSnek
  split
  · exact ⟨past, x, h⟩
  · next b hb =>
    split
    · have hcur := h.cur
      unfold Cur at hcur
      cases hk : s.conn with
      | none => rw [hk] at hcur; rw [hcur.1] at hb; cases hb
      | some k =>
        rw [hk] at hcur
        obtain ⟨c, c1, c2, c3⟩ := hcur
        refine ⟨past, { x with inp := x.inp ++ [b] }, h.touch (x' := { x with inp := x.inp ++ [b] }) hk.symm (fun _ _ => rfl) rfl rfl rfl ?_ ?_ ?_ ?_⟩
        · show s.net.fed ++ [b] = _
          rw [h.acc.fed, flatMap_snoc, flatMap_snoc, List.append_assoc]
        · show s.net.out = _ ++ s.net.outq
          rw [h.acc.out, flatMap_snoc, flatMap_snoc]
        · show s.net.err = _ ++ s.net.errq
          rw [h.acc.err, flatMap_snoc, flatMap_snoc]
        · unfold Cur
          dsimp only
          refine ⟨c, c1, ?_, c3⟩
          rw [c2, hb]; simp
    · exact ⟨past, x, h.status _⟩

theorem Inv.gave {s : Srv} {past : List Session} {x : Session} (h : Inv s past x) : ∃ past' x', Inv s.toClient past' x' := by
  unfold Srv.toClient
  split
  · next k c b hk hp hb =>
    split
    · split
      · exact ⟨past, x, h.status _⟩
      · exact ⟨past, x, h⟩
    · obtain ⟨k', e1, e2⟩ := peer_some hp
      rw [hk] at e1; cases e1
      have hcur := h.cur
      unfold Cur at hcur
      rw [hk] at hcur
      obtain ⟨c', c1, c2, c3⟩ := hcur
      rw [e2] at c1; cases c1
      refine ⟨past, x, h.touch (x' := x) rfl ?_ (by simp [Net.client]) rfl rfl h.acc.fed h.acc.out h.acc.err ?_⟩
      · intro j hj
        show (s.net.clients.modify k _)[j]? = _
        rw [getElem?_modify', if_neg]
        intro e; subst e; exact hj hk
      · unfold Cur
        dsimp only [Net.client]
        rw [hk]
        refine ⟨{ c with got := c.got ++ [b] }, by rw [getElem?_modify', if_pos rfl, e2]; rfl, c2, ?_⟩
        show Shuffle _ _ ((c.got ++ [b]) ++ [])
        rw [List.append_nil]
        rw [hb] at c3; exact c3
  · exact ⟨past, x, h⟩

theorem Inv.took {s : Srv} {past : List Session} {x : Session} (h : Inv s past x) (hb : s.outBuf = none ∨ s.conn = none) (n : Net) (b : Byte) (out : Bool)
    (hcl : n.clients = s.net.clients) (hbl : n.backlog = s.net.backlog) (hf : n.fed = s.net.fed)
    (ho : n.out = s.net.out) (he : n.err = s.net.err) (hoq : s.net.outq = (if out then [b] else []) ++ n.outq)
    (heq : s.net.errq = (if out then [] else [b]) ++ n.errq) : ∃ past' x', Inv ({ s with net := n }.keep b) past' x' := by
  have key : ∀ s' : Srv, s'.net = n → s'.conn = s.conn →
      Cur s' { x with out := x.out ++ (if out then [b] else []), err := x.err ++ (if out then [] else [b]) } →
      ∃ past' x', Inv s' past' x' := by
    intro s' h1 h2 h3
    refine ⟨past, _, h.touch (x' := { x with out := x.out ++ (if out then [b] else []), err := x.err ++ (if out then [] else [b]) }) h2 ?_ ?_ ?_ rfl ?_ ?_ ?_ h3⟩
    · intro j _; rw [h1, hcl]
    · rw [h1, hcl]
    · rw [h1, hbl]
    · rw [h1, hf, h.acc.fed, flatMap_snoc, flatMap_snoc]
    · rw [h1, ho, h.acc.out, flatMap_snoc, flatMap_snoc, hoq]; simp [List.append_assoc]
    · rw [h1, he, h.acc.err, flatMap_snoc, flatMap_snoc, heq]; simp [List.append_assoc]
  have hcur := h.cur
  unfold Cur at hcur
  unfold Srv.keep
  cases hk : s.conn with
  | none =>
    rw [hk] at hcur
    refine key _ rfl hk.symm ?_
    unfold Cur
    exact hcur
  | some k =>
    rw [hk] at hcur hb
    obtain ⟨c, c1, c2, c3⟩ := hcur
    have hb : s.outBuf = none := by
      rcases hb with h | h
      · exact h
      · cases h
    refine key _ rfl hk.symm ?_
    unfold Cur
    refine ⟨c, by show n.clients[k]? = _; rw [hcl]; exact c1, c2, ?_⟩
    rw [hb] at c3
    simp only [Option.toList_none, List.append_nil] at c3
    show Shuffle _ _ (c.got ++ [b])
    cases out with
    | true => simpa using Shuffle.left c3
    | false => simpa using Shuffle.right c3

theorem asks_iff {s : Srv} (h : s.asks = true) : s.outBuf = none ∨ s.conn = none := by
  unfold Srv.asks at h
  cases ho : s.outBuf <;> cases hc : s.conn <;> simp [ho, hc] at h ⊢

theorem Inv.tookErr {s : Srv} {past : List Session} {x : Session} (h : Inv s past x) (hb : s.outBuf = none ∨ s.conn = none) :
    ∃ past' x', Inv s.fromErr past' x' := by
  unfold Srv.fromErr
  split
  · exact ⟨past, x, h⟩
  · next b r hq => exact h.took hb { s.net with errq := r } b false rfl rfl rfl rfl rfl rfl hq

theorem Inv.tookOut {s : Srv} {past : List Session} {x : Session} (h : Inv s past x) (hb : s.outBuf = none ∨ s.conn = none) :
    ∃ past' x', Inv s.fromOut past' x' := by
  unfold Srv.fromOut
  split
  · exact ⟨past, x, h⟩
  · next b r hq => exact h.took hb { s.net with outq := r } b true rfl rfl rfl rfl rfl hq rfl

theorem Inv.turn {s : Srv} {past : List Session} {x : Session} (h : Inv s past x) (t : Turn) : ∃ past' x', Inv (turn s t) past' x' := by
  unfold Relay.turn
  split
  · exact ⟨past, x, h⟩
  · have h1 := h.events t.before
    dsimp only
    split
    · exact ⟨past, x, h1⟩
    · have h2 := h1.events t.between
      dsimp only at h2
      split
      · exact ⟨_, _, h2.dropped false (fun e => by cases e)⟩
      split
      · exact h2.accepted _
      split
      · next hp =>
        refine h2.received _ fun e => ?_
        rw [e, Bool.or_false] at hp
        unfold Srv.pin at hp
        rw [Bool.and_eq_true] at hp
        exact Option.isNone_iff_eq_none.1 hp.1
      split
      · exact h2.fedSnek
      split
      · exact h2.gave
      split
      · next he =>
        unfold Srv.errIn at he
        rw [Bool.and_eq_true] at he
        exact h2.tookErr (asks_iff he.1)
      split
      · next he =>
        unfold Srv.outIn at he
        rw [Bool.and_eq_true] at he
        exact h2.tookOut (asks_iff he.1)
      split
      · exact ⟨past, x, h2.status _⟩
      · exact ⟨past, x, h2.status _⟩

theorem inv0 : Inv srv0 [] {} :=
  ⟨⟨rfl, rfl, rfl, by simp⟩, rfl, by simp [srv0], by simp [srv0], by simp, ⟨rfl, rfl, rfl⟩, by simp [srv0]⟩

theorem inv_turns (ts : List Turn) : ∃ past x, Inv (turns ts) past x := by
  unfold turns
  have : ∀ (ts : List Turn) (s : Srv), (∃ past x, Inv s past x) → ∃ past x, Inv (ts.foldl turn s) past x := by
    intro ts
    induction ts with
    | nil => intro s h; exact h
    | cons t ts ih => intro s ⟨p, x, h⟩; exact ih _ (h.turn t)
  exact this ts srv0 ⟨_, _, inv0⟩

end Snek.Relay
