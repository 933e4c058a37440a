import Verif.Model.Link
/-!
# C93: what snekde sends reaches the device, in order, without overrunning it

snekde sends 16 bytes and then asks whether they have been read. The ring of the device has 16 places: the question is the 17th byte. When the
device does not read for as long as it takes to send them, the question is dropped, and snekde waits for a second; then it goes on
sending into a ring that is still full.
-/
namespace Snek.Link

/-- Bytes that are not ENQ. -/
def strip (l : List UInt8) : List UInt8 := l.filter (· ≠ 5)

/-- Everything that was given to snekde to be sent. -/
def given : List Ev → List UInt8
  | [] => []
  | .more d :: evs => d ++ given evs
  | _ :: evs => given evs

/-- The events by which the transfer gets on. -/
def Works (e : Ev) : Prop := e = .send ∨ e = .arrive ∨ e = .read ∨ e = .ack

def whole (s : St) : List UInt8 := s.got ++ strip s.ring ++ strip s.wire ++ s.queue

def dataOf : Ev → List UInt8
  | .more d => d
  | _ => []

theorem given_cons (e : Ev) (evs : List Ev) : given (e :: evs) = dataOf e ++ given evs := by cases e <;> simp [given, dataOf]

theorem strip_app (a b : List UInt8) : strip (a ++ b) = strip a ++ strip b := by simp [strip]
theorem strip_five : strip [5] = [] := rfl
theorem strip_one {b : UInt8} (h : b ≠ 5) : strip [b] = [b] := by simp [strip, h]
theorem strip_cons (b : UInt8) (l : List UInt8) : strip (b :: l) = strip [b] ++ strip l := strip_app [b] l

section
variable (lim size : Nat)

/-- Nothing is changed by an event but by a byte that is dropped. -/
theorem whole_step (s : St) (e : Ev) (hq : (5 : UInt8) ∉ s.queue) :
    List.Sublist (whole (step lim size s e)) (whole s ++ dataOf e) ∧
      (((step lim size s e).lost = s.lost) → whole (step lim size s e) = whole s ++ dataOf e ∨ (s.lost = true)) := by
  cases e with
  | more d => simp [step, whole, dataOf]
  | send =>
    have : whole (step lim size s .send) = whole s := by
      simp only [step]
      split
      · rfl
      · split
        · simp [whole, strip_app, strip_five]
        · split
          · rfl
          · next b q hb =>
            have hb5 : b ≠ 5 := fun h => hq (by rw [hb, h]; simp)
            simp [whole, strip_app, strip_one hb5, hb]
    rw [this]; simp [dataOf]
  | arrive =>
    simp only [step]
    cases hw : s.wire with
    | nil => simp [dataOf]
    | cons b w =>
      simp only []
      split
      · constructor
        · simp only [whole, dataOf, List.append_nil, hw]
          rw [strip_cons b w]
          simp only [List.append_assoc]
          exact List.Sublist.append_left (List.Sublist.append_left (List.sublist_append_right _ _) _) _
        · intro h; right; simpa using h.symm
      · simp [whole, dataOf, hw, strip_app, strip_cons b w]
  | read =>
    simp only [step]
    cases hr : s.ring with
    | nil => simp [dataOf]
    | cons b r =>
      simp only []
      split
      · next h => subst h; simp [whole, dataOf, hr, strip_cons 5 r, strip_five]
      · next h => simp [whole, dataOf, hr, strip_cons b r, strip_one h]
  | ack => simp only [step]; split <;> simp [whole, dataOf]
  | timeout => simp [step, whole, dataOf]

theorem queue_step (s : St) (e : Ev) (hq : (5 : UInt8) ∉ s.queue) (hd : (5 : UInt8) ∉ dataOf e) : (5 : UInt8) ∉ (step lim size s e).queue := by
  cases e with
  | more d => simp only [step, dataOf] at *; simp [hq, hd]
  | send =>
    simp only [step]
    split
    · exact hq
    · split
      · exact hq
      · split
        · exact hq
        · next b q hb => rw [hb] at hq; simp at hq; exact hq.2
  | arrive => simp only [step]; split; · exact hq
              split <;> exact hq
  | read => simp only [step]; split; · exact hq
            split <;> exact hq
  | ack => simp only [step]; split <;> exact hq
  | timeout => exact hq

/-- An invariant that holds at the beginning and is kept by every event holds at the end. -/
theorem run_ind (P : St → List UInt8 → Prop) (ok : Ev → Prop) (h0 : P St.init [])
    (hs : ∀ s d e, P s d → ok e → (5 : UInt8) ∉ dataOf e → P (step lim size s e) (d ++ dataOf e)) :
    ∀ evs, (∀ e ∈ evs, ok e) → (5 : UInt8) ∉ given evs → P (run lim size evs) (given evs) := by
  have key : ∀ evs s d, (∀ e ∈ evs, ok e) → (5 : UInt8) ∉ given evs → P s d → P (evs.foldl (step lim size) s) (d ++ given evs) := by
    intro evs
    induction evs with
    | nil => intro s d _ _ h; simpa [given] using h
    | cons e evs ih =>
      intro s d hok hg h
      rw [given_cons, List.mem_append, not_or] at hg
      rw [given_cons, ← List.append_assoc]
      exact ih _ _ (fun x hx => hok x (by simp [hx])) hg.2 (hs s d e h (hok e (by simp)) hg.1)
  intro evs hok hg
  have := key evs St.init [] hok hg h0
  rw [List.nil_append] at this
  exact this

/-- What the device reads is, in order and without repetition, part of what was to be sent: whatever happens, also when bytes are dropped. -/
theorem C93_order (evs : List Ev) (h5 : (5 : UInt8) ∉ given evs) : List.Sublist (run lim size evs).got (given evs) := by
  have := run_ind lim size (fun s d => (5 : UInt8) ∉ s.queue ∧ List.Sublist (whole s) d) (fun _ => True) ⟨by simp [St.init], by simp [whole, St.init, strip]⟩
    (fun s d e h _ hd => ⟨queue_step lim size s e h.1 hd,
      (whole_step lim size s e h.1).1.trans (List.Sublist.append_right h.2 _)⟩) evs (fun _ _ => trivial) h5
  refine List.Sublist.trans ?_ this.2
  simp only [whole, List.append_assoc]
  exact List.sublist_append_left _ _

/-- The states without a timeout. -/
inductive Shape (s : St) : Prop
  | free (h : s.waiting = false) (ha : s.acks = 0) (h5 : (5 : UInt8) ∉ s.ring ++ s.wire) (hp : (s.ring ++ s.wire).length ≤ s.sent)
      (hl : s.sent ≤ lim) (hn : s.lost = false)
  | asked (h : s.waiting = true) (ha : s.acks = 0) (h0 : s.sent = 0) (u : List UInt8) (hu : s.ring ++ s.wire = u ++ [5]) (h5 : (5 : UInt8) ∉ u)
      (hl : u.length ≤ lim) (hn : s.lost = false)
  | told (h : s.waiting = true) (ha : s.acks = 1) (h0 : s.sent = 0) (hp : s.ring ++ s.wire = []) (hn : s.lost = false)
  | dropped (h : s.waiting = true) (ha : s.acks = 0) (h0 : s.sent = 0) (h5 : (5 : UInt8) ∉ s.ring ++ s.wire) (hl : (s.ring ++ s.wire).length ≤ lim)
      (hs : size = lim)

structure Safe (s : St) (d : List UInt8) : Prop where
  queue : (5 : UInt8) ∉ s.queue
  all : whole s = d
  shape : Shape lim size s

theorem safe_step (hls : lim ≤ size) (s : St) (d : List UInt8) (e : Ev) (h : Safe lim size s d) (he : e ≠ .timeout)
    (hd : (5 : UInt8) ∉ dataOf e) : Safe lim size (step lim size s e) (d ++ dataOf e) := by
  have hq := h.queue
  refine ⟨queue_step lim size s e hq hd, ?_, ?_⟩
  · -- no byte of the text is dropped
    cases e with
    | arrive =>
      cases hw : s.wire with
      | nil => simp [step, hw, dataOf, h.all]
      | cons b w =>
        by_cases hf : s.ring.length = size
        · have hb : b = 5 := by
            cases h.shape with
            | free _ _ _ hp hl _ => rw [hw] at hp; simp at hp; omega
            | asked _ _ _ u hu _ hl _ =>
              rw [hw] at hu
              have hlen := congrArg List.length hu
              simp at hlen
              have hwn : w = [] := List.length_eq_zero_iff.1 (by omega)
              subst hwn
              have := congrArg List.getLast? hu
              simpa using this
            | told _ _ _ hp _ => rw [hw] at hp; simp at hp
            | dropped _ _ _ _ hl _ => rw [hw] at hl; simp at hl; omega
          have : whole (step lim size s .arrive) = whole s := by
            simp only [step, hw, if_pos hf, whole, hb, strip_cons 5 w, strip_five, List.nil_append]
          rw [this, h.all]; simp [dataOf]
        · have : whole (step lim size s .arrive) = whole s := by
            simp [step, hw, if_neg hf, whole, strip_app, strip_cons b w]
          rw [this, h.all]; simp [dataOf]
    | more x => rw [← h.all]; simp [step, whole, dataOf]
    | send =>
      have : whole (step lim size s .send) = whole s := by
        simp only [step]
        split
        · rfl
        · split
          · simp [whole, strip_app, strip_five]
          · split
            · rfl
            · next b q hb =>
              have hb5 : b ≠ 5 := fun h => hq (by rw [hb, h]; simp)
              simp [whole, strip_app, strip_one hb5, hb]
      rw [this, h.all]; simp [dataOf]
    | read =>
      have : whole (step lim size s .read) = whole s := by
        simp only [step]
        cases hr : s.ring with
        | nil => simp
        | cons b r =>
          simp only []
          split
          · next h => subst h; simp [whole, hr, strip_cons 5 r, strip_five]
          · next h => simp [whole, hr, strip_cons b r, strip_one h]
      rw [this, h.all]; simp [dataOf]
    | ack =>
      have : whole (step lim size s .ack) = whole s := by simp only [step]; split <;> simp [whole]
      rw [this, h.all]; simp [dataOf]
    | timeout => exact absurd rfl he
  · have hsh := h.shape
    cases e with
    | timeout => exact absurd rfl he
    | more x =>
      cases hsh with
      | free a b c e f g => exact .free a b c e f g
      | asked a b c u e f g i => exact .asked a b c u e f g i
      | told a b c e f => exact .told a b c e f
      | dropped a b c e f g => exact .dropped a b c e f g
    | send =>
      cases hsh with
      | free a b c e f g =>
        simp only [step, a, Bool.false_eq_true, if_false]
        split
        · next hge => exact .asked rfl b rfl (s.ring ++ s.wire) (by simp) c (by omega) g
        · next hlt =>
          split
          · exact .free a b c e f g
          · next x q hx =>
            have hx5 : x ≠ 5 := fun hh => hq (by rw [hx, hh]; simp)
            refine .free rfl b ?_ ?_ ?_ g
            · simp only [List.mem_append, not_or] at c ⊢
              exact ⟨c.1, c.2, by simpa using Ne.symm hx5⟩
            · simp at e ⊢; omega
            · simp only []; omega
      | asked a b c u e f g i => simp only [step, a, if_true]; exact .asked a b c u e f g i
      | told a b c e f => simp only [step, a, if_true]; exact .told a b c e f
      | dropped a b c e f g => simp only [step, a, if_true]; exact .dropped a b c e f g
    | arrive =>
      simp only [step]
      cases hw : s.wire with
      | nil => exact hsh
      | cons x w =>
        simp only []
        by_cases hf : s.ring.length = size
        · rw [if_pos hf]
          cases hsh with
          | free a b c e f g => rw [hw] at e; simp at e; omega
          | asked a b c u e f g i =>
            rw [hw] at e
            have hlen := congrArg List.length e
            simp at hlen
            have hwn : w = [] := List.length_eq_zero_iff.1 (by omega)
            subst hwn
            have hx : s.ring = u := List.append_inj_left' e rfl
            refine .dropped a b c ?_ ?_ (by omega)
            · simp only [List.append_nil]; rw [hx]; exact f
            · simp only [List.append_nil]; rw [hx]; exact g
          | told a b c e f => rw [hw] at e; simp at e
          | dropped a b c e f g => rw [hw] at f; simp at f; omega
        · rw [if_neg hf]
          have hsame : (s.ring ++ [x]) ++ w = s.ring ++ s.wire := by rw [hw]; simp
          cases hsh with
          | free a b c e f g => exact .free a b (by simpa only [hsame] using c) (by simpa only [hsame] using e) f g
          | asked a b c u e f g i => exact .asked a b c u (by simpa only [hsame] using e) f g i
          | told a b c e f => exact .told a b c (by simpa only [hsame] using e) f
          | dropped a b c e f g => exact .dropped a b c (by simpa only [hsame] using e) (by simpa only [hsame] using f) g
    | read =>
      simp only [step]
      cases hr : s.ring with
      | nil => exact hsh
      | cons x r =>
        simp only []
        cases hsh with
        | free a b c e f g =>
          rw [hr] at c e
          simp only [List.cons_append, List.mem_cons, not_or] at c
          rw [if_neg (Ne.symm c.1)]
          exact .free a b c.2 (by simp at e ⊢; omega) f g
        | asked a b c u e f g i =>
          rw [hr] at e
          cases u with
          | nil =>
            simp at e
            rw [if_pos e.1]
            exact .told a (by simp [b]) c (by simp [e.2.1, e.2.2]) i
          | cons y u =>
            simp at e f
            have hx : x ≠ 5 := by rw [e.1]; exact Ne.symm f.1
            rw [if_neg hx]
            exact .asked a b c u e.2 f.2 (by simp at g; omega) i
        | told a b c e f => rw [hr] at e; simp at e
        | dropped a b c e f g =>
          rw [hr] at e f
          simp only [List.cons_append, List.mem_cons, not_or] at e
          rw [if_neg (Ne.symm e.1)]
          exact .dropped a b c e.2 (by simp at f ⊢; omega) g
    | ack =>
      simp only [step]
      split
      · exact hsh
      · next hne =>
        cases hsh with
        | free a b c e f g => exact absurd b hne
        | asked a b c u e f g i => exact absurd b hne
        | told a b c e f =>
          refine .free rfl (by simp [b]) ?_ ?_ ?_ f
          · simp only []; rw [e]; simp
          · simp only []; rw [e]; simp
          · simp only []; omega
        | dropped a b c e f g => exact absurd b hne

theorem safe_run (hls : lim ≤ size) (evs : List Ev) (h5 : (5 : UInt8) ∉ given evs) (ht : Ev.timeout ∉ evs) :
    Safe lim size (run lim size evs) (given evs) :=
  run_ind lim size (Safe lim size) (· ≠ .timeout)
    ⟨by simp [St.init], rfl, .free rfl rfl (by simp [St.init]) (by simp [St.init]) (by simp [St.init]) rfl⟩
    (fun s d e h he hd => safe_step lim size hls s d e h he hd) evs (fun e he hh => ht (hh ▸ he)) h5

/-- As long as no wait ends by itself: no byte of what is sent is dropped when the ring has at least as many places as bytes are sent without asking.
Everything is with the device, in the ring, under way or not yet sent, in order. Missing: waits that end, see below. -/
theorem C93_kept_partial (hls : lim ≤ size) (evs : List Ev) (h5 : (5 : UInt8) ∉ given evs) (ht : Ev.timeout ∉ evs) :
    let s := run lim size evs
    s.got ++ strip s.ring ++ strip s.wire ++ s.queue = given evs := (safe_run lim size hls evs h5 ht).all

/-- With a ring that has one place more, nothing at all is dropped, and when nothing is left to do the device has read everything. Missing: the
rings that there are have no such place. -/
theorem C93_delivered_partial (hls : lim < size) (evs : List Ev) (h5 : (5 : UInt8) ∉ given evs) (ht : Ev.timeout ∉ evs) :
    let s := run lim size evs
    s.lost = false ∧ ((∀ e, Works e → step lim size s e = s) → s.got = given evs) := by
  intro s
  have h : Safe lim size s (given evs) := safe_run lim size (by omega) evs h5 ht
  constructor
  · cases h.shape with
    | free _ _ _ _ _ g => exact g
    | asked _ _ _ _ _ _ _ g => exact g
    | told _ _ _ _ g => exact g
    | dropped _ _ _ _ _ g => omega
  · intro hstop
    have hw : s.wire = [] := by
      cases hw : s.wire with
      | nil => rfl
      | cons b w =>
        have := congrArg (fun x => x.wire.length) (hstop .arrive (.inr (.inl rfl)))
        simp only [step, hw] at this
        split at this <;> simp at this
    have hr : s.ring = [] := by
      cases hr : s.ring with
      | nil => rfl
      | cons b r =>
        have := congrArg (fun x => x.ring.length) (hstop .read (.inr (.inr (.inl rfl))))
        simp only [step, hr] at this
        split at this <;> simp at this
    have hq : s.queue = [] := by
      cases h.shape with
      | free a b c e f g =>
        have := hstop .send (.inl rfl)
        simp only [step, a, Bool.false_eq_true, if_false] at this
        split at this
        · have := congrArg (fun x => x.wire.length) this; simp at this
        · split at this
          · assumption
          · next hx => have := congrArg (fun x => x.wire.length) this; simp at this
      | asked a b c u e f g i => rw [hr, hw] at e; simp at e
      | told a b c e f =>
        have := congrArg (fun x => x.acks) (hstop .ack (.inr (.inr (.inr rfl))))
        simp [step, b] at this
      | dropped _ _ _ _ _ g => omega
    have := h.all
    simpa [whole, hr, hw, hq, strip] using this

/-- And there always is an end: every step of the transfer that changes anything brings it nearer. -/
theorem C93_ends (hl0 : 0 < lim) : ∃ f : St → Nat, ∀ s e, Works e → step lim size s e ≠ s → f (step lim size s e) < f s := by
  refine ⟨fun s => 8 * s.queue.length + 4 * s.sent + 3 * s.wire.length + 2 * s.ring.length + s.acks, ?_⟩
  intro s e he hne
  rcases he with rfl | rfl | rfl | rfl
  · simp only [step] at hne ⊢
    split at hne
    · exact absurd rfl hne
    · next hw =>
      rw [if_neg hw]
      split at hne
      · next hge => rw [if_pos hge]; simp; omega
      · next hge =>
        rw [if_neg hge]
        cases hq : s.queue with
        | nil => simp [hq] at hne
        | cons b q => simp; omega
  · simp only [step] at hne ⊢
    cases hw : s.wire with
    | nil => simp [hw] at hne
    | cons b w => simp only []; split <;> simp <;> omega
  · simp only [step] at hne ⊢
    cases hr : s.ring with
    | nil => simp [hr] at hne
    | cons b r => simp only []; split <;> simp <;> omega
  · simp only [step] at hne ⊢
    split at hne
    · exact absurd rfl hne
    · next ha => rw [if_neg ha]; simp; omega

end

/-- Sixteen bytes and one more. -/
def seventeen : List UInt8 := "x = [1, 2, 3, 4]\n".toList.map (·.toNat.toUInt8)

/-- A transfer of two blocks to a device that reads: everything arrives, with one question. -/
example :
    let evs := [.more seventeen] ++ (List.replicate 17 [Ev.send, .arrive, .read]).flatten ++ [.ack, .send, .arrive, .read]
    (5 : UInt8) ∉ given evs ∧ Ev.timeout ∉ evs ∧ (run 16 16 evs).got = seventeen ∧ (run 16 16 evs).lost = false := by decide +kernel

/-- With the numbers of the program, while the device does not read: the question is dropped. The device then reads the sixteen bytes, and nothing can
go on but by the end of the wait: the seventeenth byte is not sent. -/
theorem C93_violated_question :
    let evs := [.more seventeen] ++ List.replicate 17 .send ++ List.replicate 17 .arrive ++ List.replicate 16 .read
    let s := run 16 16 evs
    s.lost = true ∧ s.queue = [10] ∧ step 16 16 s .send = s ∧ step 16 16 s .arrive = s ∧ step 16 16 s .read = s ∧ step 16 16 s .ack = s := by
  decide +kernel

/-- And when the device does not read for more than a second, bytes of the text are dropped: of two lines, what is read is the first and the newline
of the second with nothing before it. -/
theorem C93_violated_busy :
    let evs := [.more (seventeen ++ seventeen)] ++ List.replicate 17 .send ++ List.replicate 17 .arrive ++ [.timeout] ++
      List.replicate 16 .send ++ List.replicate 16 .arrive ++ List.replicate 16 .read ++ [.send, .timeout] ++ List.replicate 2 .send ++
      List.replicate 4 .arrive ++ List.replicate 4 .read
    let s := run 16 16 evs
    s.queue = [] ∧ s.wire = [] ∧ s.ring = [] ∧ s.got = seventeen.take 16 ++ [93, 10] := by decide +kernel

end Snek.Link
