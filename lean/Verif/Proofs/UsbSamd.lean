import Verif.Model.UsbSamd
/-! The queues of the SAMD21 USB console. -/
namespace Snek.UsbSamd

@[simp] theorem set_same {α β : Type} [DecidableEq α] (f : α → β) (a : α) (v : β) : set f a v a = v := by simp [set]

theorem set_ne {α β : Type} [DecidableEq α] (f : α → β) {a b : α} (v : β) (h : b ≠ a) : set f a v b = f b := by simp [set, h]

@[simp] theorem set_not (f : Bank → β) (a : Bank) (v : β) : set f a v (!a) = f (!a) := set_ne f v (by cases a <;> decide)

@[simp] theorem set_not' (f : Bank → β) (a : Bank) (v : β) : set f (!a) v a = f a := set_ne f v (by cases a <;> decide)

/-! ## The ring -/

def Fifo.contents (N : Nat) (f : Fifo) : List Byte := (List.range f.count).map fun i => f.fifo ((f.remove + i) % N)

theorem mod_ne {N r i c : Nat} (h : i < c) (hc : c < N) : (r + i) % N ≠ (r + c) % N := by
  intro e
  have := Nat.sub_mod_eq_zero_of_mod_eq e.symm
  rw [show r + c - (r + i) = c - i by omega, Nat.mod_eq_of_lt (by omega)] at this
  omega

theorem insert_contents {N : Nat} {f : Fifo} (c : Byte) (h : f.count < N) : (f.insert N c).contents N = f.contents N ++ [c] := by
  unfold Fifo.contents Fifo.insert
  simp only [List.range_succ, List.map_append, List.map_cons, List.map_nil, set_same]
  congr 1
  apply List.map_congr_left
  intro i hi
  exact set_ne _ _ (mod_ne (List.mem_range.1 hi) h)

theorem inserts_contents {N : Nat} : ∀ (l : List Byte) {f : Fifo}, f.count + l.length ≤ N →
    (l.foldl (Fifo.insert N) f).contents N = f.contents N ++ l ∧ (l.foldl (Fifo.insert N) f).count = f.count + l.length ∧
    (l.foldl (Fifo.insert N) f).remove = f.remove
  | [], f, _ => by simp
  | c :: l, f, h => by
    simp only [List.length_cons] at h
    obtain ⟨a, b, d⟩ := inserts_contents l (f := f.insert N c) (by show f.count + 1 + _ ≤ N; omega)
    rw [List.foldl_cons]
    refine ⟨?_, ?_, d⟩
    · rw [a, insert_contents c (by omega), List.append_assoc]; rfl
    · rw [b]; show f.count + 1 + _ = _; simp only [List.length_cons]; omega

theorem take_contents {N : Nat} {f : Fifo} (h : 0 < f.count) (hr : f.remove < N) :
    f.contents N = (f.take N).1 :: (f.take N).2.contents N := by
  obtain ⟨r, c, a⟩ := f
  obtain ⟨c, rfl⟩ : ∃ k, c = k + 1 := ⟨c - 1, by simp only at h; omega⟩
  unfold Fifo.contents Fifo.take
  simp only [Nat.add_sub_cancel, List.range_succ_eq_map, List.map_cons, List.map_map, Nat.add_zero]
  rw [Nat.mod_eq_of_lt hr]
  congr 1
  apply List.map_congr_left
  intro i _
  simp only [Function.comp]
  rw [Nat.mod_add_mod]
  congr 2
  omega

theorem contents_length (N : Nat) (f : Fifo) : (f.contents N).length = f.count := by simp [Fifo.contents]

/-! ## From the host to the program -/

/-- What the banks hold, in order of arrival. -/
def Out.banks (s : Out) : List Byte :=
  (if s.rdy (!s.which) then s.buf (!s.which) else []) ++ (if s.rdy s.which then s.buf s.which else [])

structure Out.Inv (N : Nat) (s : Out) : Prop where
  rem : s.fifo.remove < N
  cnt : s.fifo.count ≤ N
  size : ∀ b, (s.buf b).length ≤ 64
  flags : ∀ b, s.rdy b = (s.trcpt b || s.avail b)
  excl : ∀ b, s.trcpt b = true → s.avail b = false
  older : s.rdy s.which = true → s.rdy (!s.which) = true
  first : s.avail s.which = true → s.avail (!s.which) = true
  cur : s.cur = if s.rdy (!s.which) = true ∧ s.rdy s.which = false then s.which else !s.which
  run : (s.avail false || s.avail true) = true ∨ 0 < s.fifo.count → s.running = true

theorem Out.Inv.init {N : Nat} (h : 0 < N) : Out.init.Inv N :=
  ⟨h, Nat.zero_le _, fun _ => Nat.zero_le _, fun _ => rfl, nofun, nofun, nofun, rfl, by rintro (h | h) <;> revert h <;> decide⟩

/-- A packet is accepted unless both banks are full. -/
theorem Out.Inv.free {N : Nat} {s : Out} (h : s.Inv N) : s.rdy s.cur = true ↔ s.rdy false = true ∧ s.rdy true = true := by
  have h1 := h.cur
  have h2 := h.older
  rw [h1]
  cases s.which <;> simp only [Bool.not_true, Bool.not_false] at * <;> cases e : s.rdy false <;> cases e' : s.rdy true <;>
    simp_all

theorem Out.packet_inv {N : Nat} {s : Out} (h : s.Inv N) (p : List Byte) :
    (s.packet p).Inv N ∧ (s.packet p).banks = s.banks ++ (s.packet p).got.drop s.got.length ∧ s.got <+: (s.packet p).got ∧
    (s.packet p).fifo = s.fifo ∧ (s.packet p).which = s.which ∧ (s.packet p).avail = s.avail ∧ (s.packet p).running = s.running := by
  unfold Out.packet
  split
  · exact ⟨h, by simp, List.prefix_refl _, rfl, rfl, rfl, rfl⟩
  · rename_i hc
    simp only [Bool.or_eq_true, decide_eq_true_eq, not_or, Bool.not_eq_true] at hc
    obtain ⟨hr, hp⟩ := hc
    have h1 := h.cur
    have h2 := h.older
    have hfr := h.free
    have hav : s.avail s.cur = false := by
      have := h.flags s.cur
      rw [hr] at this
      cases e : s.avail s.cur
      · rfl
      · rw [e, Bool.or_true] at this; cases this
    refine ⟨⟨h.rem, h.cnt, ?_, ?_, ?_, ?_, h.first, ?_, h.run⟩, ?_, List.prefix_append _ _, rfl, rfl, rfl, rfl⟩
    · intro b
      by_cases hb : b = s.cur
      · rw [hb]; simp only [set_same]; omega
      · simp only [set_ne _ _ hb]; exact h.size b
    · intro b
      by_cases hb : b = s.cur
      · rw [hb]; simp only [set_same, Bool.true_or]
      · simp only [set_ne _ _ hb]; exact h.flags b
    · intro b
      by_cases hb : b = s.cur
      · rw [hb]; exact fun _ => hav
      · simp only [set_ne _ _ hb]; exact h.excl b
    all_goals
      obtain ⟨buf, rdy, cur, trcpt, avail, which, fifo, running, abort, got⟩ := s
      clear h hfr hav
      simp only [Out.banks] at *
      cases which <;> cases cur <;> simp only [Bool.not_true, Bool.not_false] at * <;> revert h1 h2 hr <;>
        cases e : rdy false <;> cases e' : rdy true <;> simp [set, e, e']

theorem hook_eq (p : List Byte) (s : Out) : hook p s = { s with abort := s.abort || decide (3 ∈ p) } := by
  unfold hook
  split
  · rename_i h; simp [h]
  · rename_i h; simp [h]

theorem hook_inv {N : Nat} {s : Out} {p : List Byte} : (hook p s).Inv N ↔ s.Inv N := by
  rw [hook_eq]
  constructor
  · rintro ⟨a, b, c, d, e, f, g, h, i⟩; exact ⟨a, b, c, d, e, f, g, h, i⟩
  · rintro ⟨a, b, c, d, e, f, g, h, i⟩; exact ⟨a, b, c, d, e, f, g, h, i⟩

theorem fifoCheck_inv {N : Nat} (late : Option (List Byte)) {s : Out} (h : s.Inv N) :
    (fifoCheck N late s).Inv N ∧ s.got <+: (fifoCheck N late s).got ∧
    (fifoCheck N late s).fifo.contents N ++ (fifoCheck N late s).banks =
      s.fifo.contents N ++ s.banks ++ (fifoCheck N late s).got.drop s.got.length := by
  unfold fifoCheck
  simp only
  split
  · rename_i ha
    split
    · rename_i hsp
      have hsp : (s.buf (!s.which)).length ≤ N - s.fifo.count := of_decide_eq_true hsp
      obtain ⟨c1, c2, c3⟩ := inserts_contents (N := N) (s.buf (!s.which)) (f := s.fifo) (by have := h.cnt; omega)
      have hrdy : s.rdy (!s.which) = true := by rw [h.flags, ha, Bool.or_true]
      have h1 : ({ s with
          fifo := (s.buf (!s.which)).foldl (Fifo.insert N) s.fifo, rdy := set s.rdy (!s.which) false, avail := set s.avail (!s.which) false,
          which := !s.which } : Out).Inv N := by
        have htr : s.trcpt (!s.which) = false := by
          cases e : s.trcpt (!s.which) with
          | false => rfl
          | true => rw [h.excl _ e] at ha; cases ha
        refine ⟨by rw [c3]; exact h.rem, by rw [c2]; have := h.cnt; omega, h.size, ?_, ?_, by simp, by simp, ?_, ?_⟩
        · intro b
          by_cases hb : b = !s.which
          · rw [hb]; simp [htr]
          · simp only [set_ne _ _ hb]; exact h.flags b
        · intro b
          by_cases hb : b = !s.which
          · rw [hb]; simp
          · simp only [set_ne _ _ hb]; exact h.excl b
        · have := h.cur
          rw [hrdy] at this
          simp only [Bool.not_not, set_same, set_not']
          rw [this]
          cases s.rdy s.which <;> simp
        · intro _
          refine h.run (.inl ?_)
          revert ha
          cases s.which <;> simp <;> intro e <;> simp [e]
      generalize hs1 : ({ s with
        fifo := (s.buf (!s.which)).foldl (Fifo.insert N) s.fifo, rdy := set s.rdy (!s.which) false, avail := set s.avail (!s.which) false,
        which := !s.which } : Out) = s1 at *
      have hb1 : s.fifo.contents N ++ s.banks = s1.fifo.contents N ++ s1.banks := by
        subst hs1
        simp only [Out.banks, Bool.not_not, set_same, set_not', hrdy, if_true, Bool.false_eq_true, if_false, c1]
        simp
      have hg1 : s1.got = s.got := by subst hs1; rfl
      clear hs1
      refine ⟨hook_inv.2 ?_, ?_, ?_⟩
      · cases late with
        | none => exact h1
        | some p => exact (Out.packet_inv h1 p).1
      · rw [hook_eq]
        simp only
        rw [← hg1]
        cases late with
        | none => exact List.prefix_refl _
        | some p => exact (Out.packet_inv h1 p).2.2.1
      · rw [hook_eq, hb1, ← hg1]
        cases late with
        | none => simp [Out.banks]
        | some p =>
          obtain ⟨_, p2, _, p4, _⟩ := Out.packet_inv h1 p
          show (s1.packet p).fifo.contents N ++ (s1.packet p).banks = _ ++ (s1.packet p).got.drop _
          rw [p2, p4, List.append_assoc]
    · exact ⟨hook_inv.2 h, by rw [hook_eq]; exact List.prefix_refl _, by rw [hook_eq]; simp [Out.banks]⟩
  · exact ⟨h, List.prefix_refl _, by simp⟩

/-- The state in which the interrupt handler looks at the banks. -/
theorem isr_mid {N : Nat} {s : Out} (h : s.Inv N) (hf : (s.trcpt false || s.trcpt true) = true) :
    ({ s with trcpt := fun _ => false, avail := fun b => s.avail b || s.trcpt b, running := true } : Out).Inv N := by
  refine ⟨h.rem, h.cnt, h.size, ?_, nofun, h.older, ?_, h.cur, fun _ => rfl⟩
  · intro b
    simp only [Bool.false_or, h.flags b, Bool.or_comm]
  · intro hw
    have h1 := h.flags s.which
    have h2 := h.flags (!s.which)
    have h3 := h.older
    simp only at hw ⊢
    rw [Bool.or_comm, ← h2]
    exact h3 (by rw [h1, Bool.or_comm]; exact hw)

theorem isr_inv {N : Nat} (late : Option (List Byte)) {s : Out} (h : s.Inv N) :
    (s.isr N late).Inv N ∧ s.got <+: (s.isr N late).got ∧
    (s.isr N late).fifo.contents N ++ (s.isr N late).banks = s.fifo.contents N ++ s.banks ++ (s.isr N late).got.drop s.got.length := by
  unfold Out.isr
  simp only
  split
  · rename_i hf
    exact fifoCheck_inv late (isr_mid h hf)
  · rename_i hf
    have h0 : s.trcpt = fun _ => false := by
      funext b
      simp only [Bool.or_eq_true, not_or, Bool.not_eq_true] at hf
      cases b
      · exact hf.1
      · exact hf.2
    rw [← h0]
    exact ⟨h, List.prefix_refl _, by simp⟩

theorem getc_inv {N : Nat} (late : Option (List Byte)) {s : Out} (h : s.Inv N) :
    (s.getc N late).2.Inv N ∧ s.got <+: (s.getc N late).2.got ∧
    (s.getc N late).1.toList ++ ((s.getc N late).2.fifo.contents N ++ (s.getc N late).2.banks) =
      s.fifo.contents N ++ s.banks ++ (s.getc N late).2.got.drop s.got.length := by
  unfold Out.getc
  split
  · exact ⟨h, List.prefix_refl _, by simp⟩
  · split
    · exact ⟨h, List.prefix_refl _, by simp⟩
    · rename_i he
      have hc : 0 < s.fifo.count := by
        simp only [Fifo.empty, beq_iff_eq] at he; omega
      have h1 : ({ s with fifo := (s.fifo.take N).2 } : Out).Inv N :=
        ⟨Nat.mod_lt _ (by have := h.rem; omega), Nat.le_trans (Nat.sub_le _ _) h.cnt, h.size, h.flags, h.excl, h.older, h.first, h.cur,
          fun hr => h.run (hr.elim .inl fun _ => .inr hc)⟩
      obtain ⟨a, b, c⟩ := fifoCheck_inv late h1
      refine ⟨a, b, ?_⟩
      show [(s.fifo.take N).1] ++ _ = _
      rw [c, take_contents hc h.rem]
      rfl

/-- Order: what has been delivered, what is queued and what has been accepted. -/
theorem run_inv {N : Nat} (hN : 0 < N) (evs : List OutEv) :
    (Out.run N evs).1.Inv N ∧
    (Out.run N evs).2 ++ ((Out.run N evs).1.fifo.contents N ++ (Out.run N evs).1.banks) = (Out.run N evs).1.got := by
  unfold Out.run
  have base : Out.init.Inv N ∧ ([] : List Byte) ++ (Out.init.fifo.contents N ++ Out.init.banks) = Out.init.got := ⟨.init hN, rfl⟩
  generalize Out.init = s, ([] : List Byte) = o at base
  induction evs generalizing s o with
  | nil => exact base
  | cons e evs ih =>
    rw [List.foldl_cons]
    refine ih _ _ ?_
    obtain ⟨h, he⟩ := base
    cases e with
    | packet p =>
      obtain ⟨a, b, c, d, _⟩ := Out.packet_inv h p
      refine ⟨a, ?_⟩
      show o ++ ((s.packet p).fifo.contents N ++ (s.packet p).banks) = (s.packet p).got
      obtain ⟨t, ht⟩ := c
      rw [d, b, ← List.append_assoc, ← List.append_assoc, List.append_assoc o, he, ← ht]
      simp
    | isr late =>
      obtain ⟨a, b, c⟩ := isr_inv late h
      refine ⟨a, ?_⟩
      show o ++ ((s.isr N late).fifo.contents N ++ (s.isr N late).banks) = (s.isr N late).got
      obtain ⟨t, ht⟩ := b
      rw [c, ← List.append_assoc, he, ← ht]
      simp
    | getc late =>
      obtain ⟨a, b, c⟩ := getc_inv late h
      refine ⟨a, ?_⟩
      show (o ++ (s.getc N late).1.toList) ++ ((s.getc N late).2.fifo.contents N ++ (s.getc N late).2.banks) = (s.getc N late).2.got
      obtain ⟨t, ht⟩ := b
      rw [List.append_assoc, c, ← List.append_assoc, he, ← ht]
      simp

/-! ### No stall without empty packets -/

def Out.Full (s : Out) : Prop := ∀ b, s.rdy b = true → s.buf b ≠ []

theorem packet_full {s : Out} (h : s.Full) {p : List Byte} (hp : p ≠ []) : (s.packet p).Full := by
  unfold Out.packet
  split
  · exact h
  · intro b
    by_cases hb : b = s.cur
    · rw [hb]; simp only [set_same]; exact fun _ => hp
    · simp only [set_ne _ _ hb]; exact h b

theorem fifoCheck_full {N : Nat} (hN : 64 ≤ N) {late : Option (List Byte)} {s : Out} (hi : s.Inv N) (h : s.Full)
    (hl : ∀ p, late = some p → p ≠ []) :
    (fifoCheck N late s).Full ∧ ((fifoCheck N late s).fifo.count = 0 → ∀ b, (fifoCheck N late s).avail b = false) := by
  unfold fifoCheck
  simp only
  split
  · rename_i ha
    have hne : s.buf (!s.which) ≠ [] := h _ (by rw [hi.flags, ha, Bool.or_true])
    split
    · rename_i hsp
      have hsp : (s.buf (!s.which)).length ≤ N - s.fifo.count := of_decide_eq_true hsp
      obtain ⟨c1, c2, c3⟩ := inserts_contents (N := N) (s.buf (!s.which)) (f := s.fifo) (by have := hi.cnt; omega)
      have h1 : ({ s with
          fifo := (s.buf (!s.which)).foldl (Fifo.insert N) s.fifo, rdy := set s.rdy (!s.which) false, avail := set s.avail (!s.which) false,
          which := !s.which } : Out).Full := by
        intro b
        by_cases hb : b = !s.which
        · rw [hb]; simp
        · simp only [set_ne _ _ hb]; exact h b
      have hpos : 0 < (s.buf (!s.which)).length := List.length_pos_iff.2 hne
      rw [hook_eq]
      cases late with
      | none =>
        refine ⟨h1, ?_⟩
        show ((s.buf (!s.which)).foldl (Fifo.insert N) s.fifo).count = 0 → _
        intro hc; omega
      | some p =>
        refine ⟨packet_full h1 (hl p rfl), ?_⟩
        intro hc
        simp only at hc
        unfold Out.packet at hc
        split at hc <;> (simp only at hc; omega)
    · rename_i hsp
      rw [hook_eq]
      refine ⟨h, fun hc => absurd ?_ hsp⟩
      simp only at hc
      simp only [Fifo.hasSpace, hc, Nat.sub_zero, decide_eq_true_eq]
      have := hi.size (!s.which)
      omega
  · rename_i ha
    refine ⟨h, fun _ b => ?_⟩
    have hf := hi.first
    cases e : s.avail s.which with
    | true => exact absurd (hf e) ha
    | false =>
      rw [Bool.not_eq_true] at ha
      revert e ha
      cases b <;> cases s.which <;> intro e ha <;> assumption

theorem getc_mid {N : Nat} {s : Out} (h : s.Inv N) (he : ¬ s.fifo.empty = true) :
    0 < s.fifo.count ∧ ({ s with fifo := (s.fifo.take N).2 } : Out).Inv N := by
  have hc : 0 < s.fifo.count := by
    simp only [Fifo.empty, beq_iff_eq] at he; omega
  exact ⟨hc, Nat.mod_lt _ (by have := h.rem; omega), Nat.le_trans (Nat.sub_le _ _) h.cnt, h.size, h.flags, h.excl, h.older, h.first,
    h.cur, fun hr => h.run (hr.elim .inl fun _ => .inr hc)⟩

theorem isr_full {N : Nat} (hN : 64 ≤ N) {late : Option (List Byte)} {s : Out} (hi : s.Inv N) (h : s.Full)
    (hs : s.fifo.count = 0 → ∀ b, s.avail b = false) (hl : ∀ p, late = some p → p ≠ []) :
    (s.isr N late).Full ∧ ((s.isr N late).fifo.count = 0 → ∀ b, (s.isr N late).avail b = false) := by
  unfold Out.isr
  simp only
  split
  · rename_i hfl; exact fifoCheck_full hN (isr_mid hi hfl) h hl
  · exact ⟨h, hs⟩

theorem getc_full {N : Nat} (hN : 64 ≤ N) {late : Option (List Byte)} {s : Out} (hi : s.Inv N) (h : s.Full)
    (hs : s.fifo.count = 0 → ∀ b, s.avail b = false) (hl : ∀ p, late = some p → p ≠ []) :
    (s.getc N late).2.Full ∧ ((s.getc N late).2.fifo.count = 0 → ∀ b, (s.getc N late).2.avail b = false) := by
  unfold Out.getc
  split
  · exact ⟨h, hs⟩
  · split
    · exact ⟨h, hs⟩
    · rename_i he
      exact fifoCheck_full hN (getc_mid hi he).2 h hl

theorem run_full {N : Nat} (hN : 64 ≤ N) (evs : List OutEv) (he : ∀ e ∈ evs, e.full) :
    (Out.run N evs).1.fifo.count = 0 → ∀ b, (Out.run N evs).1.avail b = false := by
  unfold Out.run
  suffices ∀ (s : Out) (o : List Byte), s.Inv N → s.Full → (s.fifo.count = 0 → ∀ b, s.avail b = false) →
      ((evs.foldl (Out.step N) (s, o)).1.fifo.count = 0 → ∀ b, (evs.foldl (Out.step N) (s, o)).1.avail b = false) from
    this _ _ (.init (by omega)) nofun fun _ _ => rfl
  induction evs with
  | nil => exact fun s o _ _ h => h
  | cons e evs ih =>
    intro s o hi hf h
    rw [List.foldl_cons]
    have hee := he e (.head _)
    have ih := ih fun e h => he e (.tail _ h)
    cases e with
    | packet p =>
      obtain ⟨a, _, _, d, _, f, _⟩ := Out.packet_inv hi p
      exact ih (s.packet p) _ a (packet_full hf hee) (by rw [d, f]; exact h)
    | isr late =>
      obtain ⟨a, b⟩ := isr_full hN hi hf h hee
      exact ih (s.isr N late) _ (isr_inv late hi).1 a b
    | getc late =>
      obtain ⟨a, b⟩ := getc_full hN hi hf h hee
      exact ih (s.getc N late).2 _ (getc_inv late hi).1 a b

/-! ### Interrupt character -/

theorem packet_abort (p : List Byte) (s : Out) : (s.packet p).abort = s.abort := by
  unfold Out.packet; split <;> rfl

theorem fifoCheck_abort {N : Nat} {s : Out} (hi : s.Inv N) :
    (s.abort = true → (fifoCheck N none s).abort = true) ∧
    (3 ∈ (fifoCheck N none s).fifo.contents N → 3 ∈ s.fifo.contents N ∨ (fifoCheck N none s).abort = true) ∧
    (s.avail (!s.which) = true → 3 ∈ s.buf (!s.which) → (fifoCheck N none s).abort = true) := by
  unfold fifoCheck
  simp only
  split
  · rename_i ha
    split
    · rename_i hsp
      have hsp : (s.buf (!s.which)).length ≤ N - s.fifo.count := of_decide_eq_true hsp
      obtain ⟨c1, c2, c3⟩ := inserts_contents (N := N) (s.buf (!s.which)) (f := s.fifo) (by have := hi.cnt; omega)
      rw [hook_eq]
      simp only [List.drop_length, List.append_nil, List.take_length, c1, List.mem_append, Bool.or_eq_true, decide_eq_true_eq]
      exact ⟨.inl, fun h => h.imp id .inr, fun _ h => .inr h⟩
    · rw [hook_eq]
      simp only [Bool.or_eq_true, decide_eq_true_eq]
      exact ⟨.inl, .inl, fun _ h => .inr h⟩
  · rename_i ha
    exact ⟨id, .inl, fun h => absurd h ha⟩

theorem run_abort {N : Nat} (hN : 0 < N) (evs : List OutEv) (he : ∀ e ∈ evs, e.calm) :
    3 ∈ (Out.run N evs).2 ∨ 3 ∈ (Out.run N evs).1.fifo.contents N → (Out.run N evs).1.abort = true := by
  unfold Out.run
  suffices ∀ (s : Out) (o : List Byte), s.Inv N → (3 ∈ o ∨ 3 ∈ s.fifo.contents N → s.abort = true) →
      (3 ∈ (evs.foldl (Out.step N) (s, o)).2 ∨ 3 ∈ (evs.foldl (Out.step N) (s, o)).1.fifo.contents N →
        (evs.foldl (Out.step N) (s, o)).1.abort = true) from
    this _ _ (.init hN) (by rintro (h | h) <;> cases h)
  induction evs with
  | nil => exact fun s o _ h => h
  | cons e evs ih =>
    intro s o hi h
    rw [List.foldl_cons]
    have hee := he e (.head _)
    have ih := ih fun e h => he e (.tail _ h)
    cases e with
    | packet p =>
      obtain ⟨a, _, _, d, _⟩ := Out.packet_inv hi p
      exact ih (s.packet p) _ a (by rw [d, packet_abort]; exact h)
    | isr late =>
      cases hee
      refine ih (s.isr N none) _ (isr_inv none hi).1 ?_
      unfold Out.isr
      simp only
      split
      · rename_i hfl
        obtain ⟨a, b, _⟩ := fifoCheck_abort (isr_mid hi hfl)
        rintro (hc | hc)
        · exact a (h (.inl hc))
        · exact (b hc).elim (fun hc => a (h (.inr hc))) id
      · exact h
    | getc late =>
      cases hee
      refine ih (s.getc N none).2 (o ++ (s.getc N none).1.toList) (getc_inv none hi).1 ?_
      unfold Out.getc
      split
      · simpa using h
      · split
        · simpa using h
        · rename_i he
          obtain ⟨hc, hm⟩ := getc_mid hi he
          obtain ⟨a, b, _⟩ := fifoCheck_abort hm
          rw [take_contents hc hi.rem] at h
          rintro (hx | hx)
          · have hx : 3 ∈ o ++ [(s.fifo.take N).1] := hx
            rcases List.mem_append.1 hx with hx | hx
            · exact a (h (.inl hx))
            · rw [List.mem_singleton] at hx
              exact a (h (.inr (by rw [← hx]; exact .head _)))
          · exact (b hx).elim (fun hx => a (h (.inr (.tail _ hx)))) id

/-- With both banks empty, a packet with ^C in it is noticed by the interrupt it causes. -/
theorem abort_now {N : Nat} {s : Out} (hi : s.Inv N) (h0 : ∀ b, s.rdy b = false) {p : List Byte} (hp : 3 ∈ p) (hl : p.length ≤ 64) :
    ((s.packet p).isr N none).abort = true := by
  have hcur : s.cur = !s.which := by rw [hi.cur]; simp [h0]
  have hpk : s.packet p = { s with
      got := s.got ++ p, buf := set s.buf s.cur p, rdy := set s.rdy s.cur true, trcpt := set s.trcpt s.cur true, cur := !s.cur } := by
    unfold Out.packet
    rw [if_neg]
    simp [h0]; omega
  have hi' := (Out.packet_inv hi p).1
  have hf : ((s.packet p).trcpt false || (s.packet p).trcpt true) = true := by
    rw [hpk]
    simp only
    cases s.cur <;> simp
  unfold Out.isr
  simp only
  rw [if_pos hf]
  refine (fifoCheck_abort (isr_mid hi' hf)).2.2 ?_ ?_
  · rw [hpk]; simp [hcur]
  · rw [hpk]; simp [hcur, hp]

/-! ## From the program to the host -/

/-- The packet in a bank. -/
def In.pkt (s : In) (b : Bank) : List Byte := (List.range (s.len b)).map (s.buf b)

/-- Packets the host has not taken yet. -/
def In.queue (s : In) : List (List Byte) := (if s.rdy s.which then [s.pkt s.which] else []) ++ (if s.rdy (!s.which) then [s.pkt (!s.which)] else [])

/-- The packet being filled. -/
def In.part (s : In) : List Byte := (List.range s.count).map (s.buf s.which)

structure In.Inv (s : In) (sent : List (List Byte)) : Prop where
  run : s.running = true
  flags : ∀ b, s.pending b = (s.rdy b || s.trcpt b)
  excl : ∀ b, s.trcpt b = true → s.rdy b = false
  cnt : s.count < 64
  none : s.pending s.which = true → s.count = 0
  older : s.rdy s.which = true → s.rdy (!s.which) = true
  cur : s.cur = if s.rdy (!s.which) = true ∧ s.rdy s.which = false then !s.which else s.which
  size : ∀ p ∈ sent, p.length ≤ 64
  fl : s.flushed = true → s.count = 0 ∧ ∀ p, sent.getLast? = some p → p.length < 64
  nfl : s.flushed = false → s.count = 0 → ∃ p, sent.getLast? = some p ∧ p.length = 64

theorem In.Inv.init : (In.init true).Inv [] :=
  ⟨rfl, fun _ => rfl, nofun, by decide, fun _ => rfl, nofun, rfl, nofun, fun _ => ⟨rfl, nofun⟩, nofun⟩

theorem take_inv {s : In} {sent : List (List Byte)} (h : s.Inv sent) :
    s.take.2.Inv sent ∧ s.queue = s.take.1.toList ++ s.take.2.queue ∧ s.take.2.part = s.part := by
  unfold In.take
  split
  · rename_i hr
    have h1 := h.cur
    have h2 := h.older
    refine ⟨⟨h.run, ?_, ?_, h.cnt, h.none, ?_, ?_, h.size, h.fl, h.nfl⟩, ?_, rfl⟩
    · intro b
      have := h.flags b
      by_cases hb : b = s.cur
      · subst hb; simp only [set_same, this, hr]; rfl
      · simp only [set_ne _ _ hb, this]
    · intro b
      by_cases hb : b = s.cur
      · rw [hb]; simp
      · simp only [set_ne _ _ hb]; exact h.excl b
    all_goals
      obtain ⟨buf, len, rdy, cur, trcpt, which, count, flushed, pending, running⟩ := s
      clear h
      simp only [In.queue, In.pkt] at *
      cases which <;> cases cur <;> simp only [Bool.not_true, Bool.not_false] at * <;> revert h1 h2 hr <;>
        rcases Bool.eq_false_or_eq_true (rdy false) with e | e <;> rcases Bool.eq_false_or_eq_true (rdy true) with e' | e' <;>
        simp [set, e, e']
  · exact ⟨h, by simp, rfl⟩

theorem inIsr_inv {s : In} {sent : List (List Byte)} (h : s.Inv sent) : s.isr.Inv sent ∧ s.isr.queue = s.queue ∧ s.isr.part = s.part := by
  refine ⟨⟨h.run, ?_, nofun, h.cnt, ?_, h.older, h.cur, h.size, h.fl, h.nfl⟩, rfl, rfl⟩
  · intro b
    show (s.pending b && !s.trcpt b) = (s.rdy b || false)
    have h1 := h.flags b
    have h2 := h.excl b
    revert h1 h2
    cases s.trcpt b <;> cases s.rdy b <;> simp
  · intro hp
    refine h.none ?_
    have hp : (s.pending s.which && !s.trcpt s.which) = true := hp
    exact (Bool.and_eq_true _ _ ▸ hp).1

theorem send_inv {s : In} {sent : List (List Byte)} (run : s.running = true) (flags : ∀ b, s.pending b = (s.rdy b || s.trcpt b))
    (excl : ∀ b, s.trcpt b = true → s.rdy b = false) (cnt : s.count ≤ 64) (hp : s.pending s.which = false)
    (cur : s.cur = if s.rdy (!s.which) = true ∧ s.rdy s.which = false then !s.which else s.which) (size : ∀ p ∈ sent, p.length ≤ 64)
    (hf : s.count = 64 → s.flushed = false) :
    s.send.Inv (sent ++ [s.part]) ∧ s.send.queue = s.queue ++ [s.part] ∧ s.send.part = [] := by
  have hw := flags s.which
  rw [hp] at hw
  obtain ⟨hrw, htw⟩ := Bool.or_eq_false_iff.1 hw.symm
  have hpl : s.part.length = s.count := by simp [In.part]
  refine ⟨⟨run, ?_, ?_, by show 0 < 64; decide, fun _ => rfl, ?_, ?_, ?_, ?_, ?_⟩, ?_, rfl⟩
  · intro b
    simp only [In.send]
    by_cases hb : b = s.which
    · rw [hb]; simp
    · simp only [set_ne _ _ hb]; exact flags b
  · intro b
    simp only [In.send]
    by_cases hb : b = s.which
    · rw [hb, htw]; nofun
    · simp only [set_ne _ _ hb]; exact excl b
  · simp [In.send]
  · simp only [In.send, Bool.not_not, set_same, set_not, cur, hrw]
    cases s.rdy (!s.which) <;> simp
  · intro p hp
    rcases List.mem_append.1 hp with hp | hp
    · exact size p hp
    · rw [List.mem_singleton] at hp; subst hp; omega
  · intro hfl
    refine ⟨rfl, fun p hp => ?_⟩
    rw [List.getLast?_append, List.getLast?_singleton] at hp
    cases hp
    rw [hpl]
    by_cases h : s.count = 64
    · simp [In.send, h, hf h] at hfl
    · omega
  · intro hfl _
    refine ⟨s.part, by simp, ?_⟩
    rw [hpl]
    by_cases h : s.count = 64
    · exact h
    · simp [In.send, h] at hfl
  · simp only [In.send, In.queue, Bool.not_not, set_same, set_not, hrw, In.pkt, if_true]
    simp [In.part]

theorem op_inv {s s' : In} {sent : List (List Byte)} (h : s.Inv sent) {o : Op} (ho : s.op o = some s') :
    ∃ new, s'.Inv (sent ++ new) ∧ s'.queue = s.queue ++ new ∧
      new.flatten ++ s'.part = s.part ++ opBytes o ∧ (o = .flush → s'.flushed = true) := by
  cases o with
  | byte c =>
    simp only [In.op, h.run, Bool.not_true, Bool.false_eq_true, if_false] at ho
    split at ho
    · cases ho
    · rename_i hp
      rw [Bool.not_eq_true] at hp
      have hrw : s.rdy s.which = false := by
        have hw := h.flags s.which
        rw [hp] at hw
        exact (Bool.or_eq_false_iff.1 hw.symm).1
      obtain ⟨t, ht⟩ : ∃ t, ({ s with flushed := false, buf := set s.buf s.which (set (s.buf s.which) s.count c), count := s.count + 1, running := true } : In) = t :=
        ⟨_, rfl⟩
      have htp : t.part = s.part ++ [c] := by
        subst ht
        simp only [In.part, List.range_succ, List.map_append, List.map_cons, List.map_nil, set_same]
        congr 1
        apply List.map_congr_left
        intro i hi
        exact set_ne _ _ (Nat.ne_of_lt (List.mem_range.1 hi))
      have htq : t.queue = s.queue := by
        subst ht
        simp [In.queue, In.pkt, hrw]
      rw [ht] at ho
      split at ho
      · rename_i hc
        cases ho
        obtain ⟨a, b, d⟩ := send_inv (s := t) (sent := sent) (by subst ht; rfl) (by subst ht; exact h.flags) (by subst ht; exact h.excl)
          (by subst ht; exact Nat.le_of_eq hc) (by subst ht; exact hp) (by subst ht; exact h.cur) h.size (by subst ht; exact fun _ => rfl)
        exact ⟨[t.part], a, by rw [b, htq], by rw [d, htp]; simp [opBytes], nofun⟩
      · rename_i hc
        cases ho
        refine ⟨[], ?_, by rw [htq]; simp, by rw [htp]; simp [opBytes], nofun⟩
        rw [List.append_nil]
        have hcnt := h.cnt
        subst ht
        exact ⟨rfl, h.flags, h.excl, by simp only at hc ⊢; omega, fun h' => (by rw [show _ = false from hp] at h'; cases h'), h.older, h.cur, h.size, nofun,
          fun _ h' => (by cases h')⟩
  | flush =>
    simp only [In.op, h.run, Bool.not_true, Bool.false_eq_true, if_false] at ho
    split at ho
    · rename_i hf
      cases ho
      exact ⟨[], by rw [List.append_nil]; exact h, by simp, by simp [opBytes], fun _ => hf⟩
    · rename_i hf
      split at ho
      · cases ho
      · rename_i hp
        rw [Bool.not_eq_true] at hp hf
        cases ho
        have hcnt := h.cnt
        obtain ⟨a, b, d⟩ := send_inv h.run h.flags h.excl (by omega) hp h.cur h.size fun _ => hf
        refine ⟨[s.part], a, b, by rw [d]; simp [opBytes], fun _ => ?_⟩
        simp only [In.send]
        rw [if_pos (by omega)]

theorem inRun_inv (evs : List InEv) :
    (In.run true evs).1.Inv ((In.run true evs).2.2 ++ (In.run true evs).1.queue) ∧
    ((In.run true evs).2.2 ++ (In.run true evs).1.queue).flatten ++ (In.run true evs).1.part = ((In.run true evs).2.1.map opBytes).flatten ∧
    ((In.run true evs).2.1.getLast? = some .flush → (In.run true evs).1.flushed = true) := by
  unfold In.run
  suffices ∀ (s : In) (os : List Op) (host : List (List Byte)), s.Inv (host ++ s.queue) →
      (host ++ s.queue).flatten ++ s.part = (os.map opBytes).flatten → (os.getLast? = some .flush → s.flushed = true) →
      (evs.foldl In.step (s, os, host)).1.Inv ((evs.foldl In.step (s, os, host)).2.2 ++ (evs.foldl In.step (s, os, host)).1.queue) ∧
      ((evs.foldl In.step (s, os, host)).2.2 ++ (evs.foldl In.step (s, os, host)).1.queue).flatten ++
        (evs.foldl In.step (s, os, host)).1.part = ((evs.foldl In.step (s, os, host)).2.1.map opBytes).flatten ∧
      ((evs.foldl In.step (s, os, host)).2.1.getLast? = some .flush → (evs.foldl In.step (s, os, host)).1.flushed = true) from
    this _ _ _ .init rfl nofun
  induction evs with
  | nil => exact fun s os host h1 h2 h3 => ⟨h1, h2, h3⟩
  | cons e evs ih =>
    intro s os host h1 h2 h3
    rw [List.foldl_cons]
    cases e with
    | op o =>
      rw [show In.step (s, os, host) (.op o) = match s.op o with | none => (s, os, host) | some s => (s, os ++ [o], host) from rfl]
      cases ho : s.op o with
      | none => exact ih _ _ _ h1 h2 h3
      | some s' =>
        obtain ⟨new, a, b, c, d⟩ := op_inv h1 ho
        refine ih s' (os ++ [o]) host ?_ ?_ ?_
        · rw [b, ← List.append_assoc]; exact a
        · rw [b, ← List.append_assoc, List.flatten_append, List.append_assoc, c, ← List.append_assoc, h2]
          simp
        · rw [List.getLast?_concat]
          intro h
          exact d (Option.some.inj h)
    | take =>
      obtain ⟨a, b, c⟩ := take_inv h1
      refine ih s.take.2 os (host ++ s.take.1.toList) ?_ ?_ ?_
      · rw [List.append_assoc, ← b]; exact a
      · rw [List.append_assoc, ← b, c]; exact h2
      · intro h
        rw [← h3 h]
        unfold In.take
        split <;> rfl
    | isr =>
      obtain ⟨a, b, c⟩ := inIsr_inv h1
      exact ih s.isr os host (by rw [b]; exact a) (by rw [b, c]; exact h2) h3

/-- A program that waits is waiting for the host or for the interrupt handler. -/
theorem op_wakes {s : In} {sent : List (List Byte)} (h : s.Inv sent) (o : Op) : s.take.2.isr.op o ≠ none := by
  obtain ⟨h', _, _⟩ := take_inv h
  have hp : s.take.2.isr.pending s.take.2.isr.which = false := by
    show (s.take.2.pending s.take.2.which && !s.take.2.trcpt s.take.2.which) = false
    rw [h'.flags]
    have hr : s.take.2.rdy s.take.2.which = false := by
      have h1 := h.cur
      have h2 := h.older
      unfold In.take
      split
      · rename_i hr
        obtain ⟨buf, len, rdy, cur, trcpt, which, count, flushed, pending, running⟩ := s
        clear h h'
        simp only at *
        cases which <;> cases cur <;> simp only [Bool.not_true, Bool.not_false] at * <;> revert h1 h2 hr <;>
          cases e : rdy false <;> cases e' : rdy true <;> simp [set, e, e']
      · rename_i hr
        obtain ⟨buf, len, rdy, cur, trcpt, which, count, flushed, pending, running⟩ := s
        clear h h'
        simp only at *
        cases which <;> cases cur <;> simp only [Bool.not_true, Bool.not_false] at * <;> revert h1 h2 hr <;>
          cases e : rdy false <;> cases e' : rdy true <;> simp [e, e']
    rw [hr]
    cases s.take.2.trcpt s.take.2.which <;> rfl
  cases o with
  | byte c =>
    simp only [In.op, hp, Bool.false_eq_true, if_false]
    split <;> simp
  | flush =>
    simp only [In.op, hp, Bool.false_eq_true, if_false]
    split
    · simp
    · split <;> simp

end Snek.UsbSamd
