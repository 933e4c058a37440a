import Verif.Model.Ev3Store
/-!
# C90: the stored program of the LEGO EV3

`eeprom.write()` keeps what the console sends up to Ctrl-D; `eeprom.show()` prints it; the next start runs it.
-/
namespace Snek.Ev3Store

theorem steps_add : ∀ (m n : Nat) (s : State), steps (m + n) s = steps n (steps m s) := by
  intro m
  induction m with
  | zero => intro n s; simp [steps]
  | succ m ih => intro n s; rw [Nat.succ_add]; exact ih n (step s)

/-- A byte of a program: neither Ctrl-D nor 0xff. -/
def Plain (b : Byte) : Prop := b ≠ 4 ∧ b ≠ 0xff

theorem step_plain {b : Byte} (hb : Plain b) (f : List Byte) (r : List Byte) (e : Bool) :
    step ⟨some f, ⟨b :: r, e⟩, .copying⟩ = ⟨some (f ++ [b]), ⟨r, e⟩, .copying⟩ := by
  have h4 : ¬((b.toNat : Int) = 4 ∨ (b.toNat : Int) = 0xff) := by
    rintro (h | h)
    · exact hb.1 (BitVec.eq_of_toNat_eq (by have : b.toNat = 4 := by omega
                                            rw [this]; rfl))
    · exact hb.2 (BitVec.eq_of_toNat_eq (by have : b.toNat = 255 := by omega
                                            rw [this]; rfl))
  show (if (b.toNat : Int) = 4 ∨ (b.toNat : Int) = 0xff then _ else _) = _
  rw [if_neg h4]
  have : BitVec.ofInt 8 (b.toNat : Int) = b := by
    rw [BitVec.ofInt_natCast]; simp
  show State.mk (some (f ++ [BitVec.ofInt 8 (b.toNat : Int)])) _ _ = _
  rw [this]

theorem steps_plain : ∀ (text : List Byte) (f r : List Byte) (e : Bool), (∀ b ∈ text, Plain b) →
    steps text.length ⟨some f, ⟨text ++ r, e⟩, .copying⟩ = ⟨some (f ++ text), ⟨r, e⟩, .copying⟩ := by
  intro text
  induction text with
  | nil => intro f r e _; simp [steps]
  | cons b t ih =>
    intro f r e h
    show steps t.length (step _) = _
    rw [List.cons_append, step_plain (h b (List.mem_cons_self ..)), ih _ _ _ fun x hx => h x (List.mem_cons_of_mem _ hx)]
    simp

theorem step_end (f r : List Byte) (e : Bool) : step ⟨some f, ⟨4 :: r, e⟩, .copying⟩ = ⟨some f, ⟨r, e⟩, .done⟩ := rfl

theorem steps_done (n : Nat) (f : Option (List Byte)) (i : Input) : steps n ⟨f, i, .done⟩ = ⟨f, i, .done⟩ := by
  induction n with
  | zero => rfl
  | succ n ih => exact ih

/-- **What is sent up to Ctrl-D is stored**, whatever was stored before, and what follows is left for Snek. Partial: the text must not contain the byte 0xff
(`C90_violated_binary`). -/
theorem C90_write_partial (old : Option (List Byte)) (text rest : List Byte) (e : Bool) (h : ∀ b ∈ text, Plain b) :
    steps (1 + text.length + 1) ⟨old, ⟨text ++ 4 :: rest, e⟩, .opening⟩ = ⟨some text, ⟨rest, e⟩, .done⟩ := by
  rw [steps_add, steps_add]
  show step (steps text.length ⟨some [], ⟨text ++ 4 :: rest, e⟩, .copying⟩) = _
  rw [steps_plain text [] _ e h]
  exact step_end _ _ _

theorem steps_prefix : ∀ (text : List Byte) (m : Nat) (f r : List Byte) (e : Bool), (∀ b ∈ text, Plain b) →
    ∃ k, (steps m ⟨some f, ⟨text ++ 4 :: r, e⟩, .copying⟩).file = some (f ++ text.take k) := by
  intro text
  induction text with
  | nil =>
    intro m f r e _
    cases m with
    | zero => exact ⟨0, by simp [steps]⟩
    | succ m =>
      refine ⟨0, ?_⟩
      show (steps m (step _)).file = _
      rw [List.nil_append, step_end, steps_done]; simp
  | cons b t ih =>
    intro m f r e h
    cases m with
    | zero => exact ⟨0, by simp [steps]⟩
    | succ m =>
      obtain ⟨k, hk⟩ := ih m (f ++ [b]) r e fun x hx => h x (List.mem_cons_of_mem _ hx)
      refine ⟨k + 1, ?_⟩
      show (steps m (step _)).file = _
      rw [List.cons_append, step_plain (h b (List.mem_cons_self ..)), hk]; simp

/-- **A crash while the program is stored leaves the old one or a beginning of the new one**, at whatever system call it comes: the old one only
before the first, as the file is emptied at the start. -/
theorem C90_crash (old : Option (List Byte)) (text rest : List Byte) (e : Bool) (h : ∀ b ∈ text, Plain b) (n : Nat) :
    (n = 0 ∧ (steps n ⟨old, ⟨text ++ 4 :: rest, e⟩, .opening⟩).file = old) ∨
    ∃ k, (steps n ⟨old, ⟨text ++ 4 :: rest, e⟩, .opening⟩).file = some (text.take k) := by
  cases n with
  | zero => exact .inl ⟨rfl, rfl⟩
  | succ n =>
    right
    obtain ⟨k, hk⟩ := steps_prefix text n [] rest e h
    rw [List.nil_append] at hk
    exact ⟨k, hk⟩

theorem step_eof (f : List Byte) : step ⟨some f, ⟨[], true⟩, .copying⟩ = ⟨some (f ++ [0xff]), ⟨[], true⟩, .copying⟩ := rfl

/-- **Violation.** If the input ends (the client goes, a script is done), the end is not noticed, because `EOF` is not 0xff: the file grows by a byte 0xff
with every turn for ever, until the disk is full. -/
theorem C90_violated_eof (old : Option (List Byte)) (text : List Byte) (h : ∀ b ∈ text, Plain b) (n : Nat) :
    steps (1 + text.length + n) ⟨old, ⟨text, true⟩, .opening⟩ = ⟨some (text ++ List.replicate n 0xff), ⟨[], true⟩, .copying⟩ := by
  rw [steps_add, steps_add]
  show steps n (steps text.length ⟨some [], ⟨text, true⟩, .copying⟩) = _
  have := steps_plain text [] [] true h
  rw [List.append_nil] at this
  rw [this, List.nil_append]
  have : ∀ (n : Nat) (f : List Byte), steps n ⟨some f, ⟨[], true⟩, .copying⟩ = ⟨some (f ++ List.replicate n 0xff), ⟨[], true⟩, .copying⟩ := by
    intro n
    induction n with
    | zero => intro f; simp [steps]
    | succ n ih =>
      intro f
      show steps n (step _) = _
      rw [step_eof, ih, List.append_assoc, List.replicate_succ]; rfl
  exact this n text

/-- **Violation.** A byte 0xff, which the console can carry, ends the program; the rest of it is taken for commands. -/
theorem C90_violated_binary (old : Option (List Byte)) (text rest : List Byte) (e : Bool) (h : ∀ b ∈ text, Plain b) :
    steps (1 + text.length + 1) ⟨old, ⟨text ++ 0xff :: rest, e⟩, .opening⟩ = ⟨some text, ⟨rest, e⟩, .done⟩ := by
  rw [steps_add, steps_add]
  show step (steps text.length ⟨some [], ⟨text ++ 0xff :: rest, e⟩, .copying⟩) = _
  rw [steps_plain text [] _ e h]
  rfl

theorem takeWhile_all {l r : List Byte} (h : ∀ b ∈ l, b ≠ 0) : fputs (l ++ r) = l ++ fputs r := by
  unfold fputs
  induction l with
  | nil => rfl
  | cons a l ih =>
    rw [List.cons_append, List.takeWhile_cons_of_pos (by simpa using h a (List.mem_cons_self ..)), ih fun b hb => h b (List.mem_cons_of_mem _ hb)]
    rfl

/-- **What is stored is shown.** Partial: the program must be shorter than the buffer and the memory of the buffer must have been zero, for the text
is printed up to a NUL that nobody has put there (`C90_violated_long`, `C90_violated_stack`). -/
theorem C90_show_partial (framed : Bool) (beyond f : List Byte) (h : ∀ b ∈ f, b ≠ 0) (hl : f.length < 4096) :
    eepromShow framed (List.replicate 4096 0) beyond (some f) = (if framed then [2] else []) ++ f ++ (if framed then [3] else []) := by
  have key : showLoop beyond (f.length + 1) (List.replicate 4096 0) f = f := by
    unfold showLoop
    dsimp only
    rw [List.take_of_length_le (Nat.le_of_lt hl), List.drop_eq_nil_of_le (Nat.le_of_lt hl)]
    split
    · next e => exact e.symm
    · rw [List.append_assoc, takeWhile_all h]
      have h0 : fputs ((List.replicate 4096 (0 : Byte)).drop f.length ++ beyond) = [] := by
        rw [List.drop_replicate, show 4096 - f.length = (4095 - f.length) + 1 by omega, List.replicate_succ]
        rfl
      rw [h0, List.append_nil]
      have : ∀ n buf, showLoop beyond n buf [] = [] := by
        intro n buf
        cases n with
        | zero => rfl
        | succ n => rfl
      rw [this, List.append_nil]
  unfold eepromShow
  dsimp only
  rw [key]

/-- **Nothing is stored, nothing is shown.** -/
theorem C90_erased (framed : Bool) (buf beyond : List Byte) (f : Option (List Byte)) :
    eepromShow framed buf beyond (erase f) = (if framed then [2] else []) ++ (if framed then [3] else []) := by
  unfold eepromShow erase; simp

theorem fputs_len {l r : List Byte} (h : ∀ b ∈ l, b ≠ 0) : l.length ≤ (fputs (l ++ r)).length := by
  rw [takeWhile_all h, List.length_append]; omega

/-- Each turn prints the whole buffer, once it has been filled. -/
theorem showLoop_len (beyond : List Byte) : ∀ (n : Nat) (buf f : List Byte), buf.length = 4096 → (∀ b ∈ buf, b ≠ 0) → (∀ b ∈ f, b ≠ 0) → f.length ≤ n →
    f.length ≤ (showLoop beyond n buf f).length ∧ (f.length % 4096 ≠ 0 → f.length < (showLoop beyond n buf f).length) := by
  intro n
  induction n with
  | zero => intro buf f _ _ _ h; have : f.length = 0 := by omega
            rw [this]; exact ⟨Nat.zero_le _, fun h => absurd rfl h⟩
  | succ n ih =>
    intro buf f hb h1 h2 h3
    by_cases h0 : f = []
    · subst h0; exact ⟨Nat.zero_le _, fun h => absurd rfl h⟩
    have hpos : 0 < f.length := List.length_pos_iff.2 h0
    unfold showLoop
    dsimp only
    rw [if_neg (by intro e; rw [List.take_eq_nil_iff] at e; rcases e with e | e; · cases e
                   · exact h0 e), List.length_append]
    have hl : (f.take 4096 ++ buf.drop (f.take 4096).length).length = 4096 := by
      rw [List.length_append, List.length_drop, hb, List.length_take]; omega
    have hz : ∀ b ∈ f.take 4096 ++ buf.drop (f.take 4096).length, b ≠ 0 := by
      intro b hm
      rw [List.mem_append] at hm
      rcases hm with hm | hm
      · exact h2 b (List.mem_of_mem_take hm)
      · exact h1 b (List.mem_of_mem_drop hm)
    have h4 := fputs_len (r := beyond) hz
    have h5 := ih _ (f.drop 4096) hl hz (fun b hm => h2 b (List.mem_of_mem_drop hm)) (by rw [List.length_drop]; omega)
    rw [List.length_drop] at h5
    rw [hl] at h4
    omega

/-- **Violation.** A program longer than the buffer, unless it fills a whole number of buffers, is never shown right, whatever is in memory: the
last turn prints what is left of the turn before. -/
theorem C90_violated_long (buf beyond f : List Byte) (h : ∀ b ∈ f, b ≠ 0) (hb : buf.length = 4096) (hl : 4096 < f.length) (hm : f.length % 4096 ≠ 0) :
    eepromShow false buf beyond (some f) ≠ f := by
  intro e
  have e' : showLoop beyond (f.length + 1) buf f = f := by simpa [eepromShow] using e
  have hlen := congrArg List.length e'
  unfold showLoop at hlen
  dsimp only at hlen
  have ht : (f.take 4096).length = 4096 := by rw [List.length_take]; omega
  have hd : buf.drop (f.take 4096).length = [] := List.drop_eq_nil_of_le (by omega)
  rw [if_neg (by intro e; rw [e] at ht; cases ht), List.length_append, hd, List.append_nil] at hlen
  have hz : ∀ b ∈ f.take 4096, b ≠ 0 := fun b hm => h b (List.mem_of_mem_take hm)
  have h1 := fputs_len (r := beyond) hz
  have h2 := (showLoop_len beyond f.length (f.take 4096) (f.drop 4096) ht hz (fun b hm => h b (List.mem_of_mem_drop hm))
    (by rw [List.length_drop]; omega)).2 (by rw [List.length_drop]; omega)
  rw [List.length_drop] at h2
  omega

/-- **Violation.** A short program is shown with whatever follows it in memory: here the rest of something longer. -/
theorem C90_violated_stack : eepromShow false ([97, 98, 99, 100] ++ List.replicate 4092 0) [] (some [120, 10]) = [120, 10, 99, 100] := by
  decide +kernel

/-- A program is stored in place of another, and shown. -/
example : let s := steps 6 ⟨some [1, 2, 3], ⟨[120, 61, 49, 10, 4, 13], false⟩, .opening⟩
    s.file = some [120, 61, 49, 10] ∧ s.pc = .done ∧ s.input.bytes = [13] ∧
      eepromShow true (List.replicate 4096 0) [] s.file = [2, 120, 61, 49, 10, 3] := by
  decide +kernel

/-- The hypotheses of `C90_violated_long` are met. -/
example : 4096 < (List.replicate 5000 (7 : Byte)).length ∧ (List.replicate 5000 (7 : Byte)).length % 4096 ≠ 0 ∧ ∀ b ∈ List.replicate 5000 (7 : Byte), b ≠ 0 := by
  rw [List.length_replicate]
  refine ⟨by decide, by decide, fun b hb => ?_⟩
  rw [List.eq_of_mem_replicate hb]; decide

end Snek.Ev3Store
