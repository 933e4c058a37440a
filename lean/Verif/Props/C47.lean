import Verif.Model.Eeprom
import Verif.Spec.Eeprom
/-!
# C47: programs saved in EEPROM
-/
namespace Snek.Eeprom
open Spec.Eeprom

section
variable (N : Nat)

theorem load_eq (mem : List UInt8) (hm : mem.length = N) (addr : Nat) : load N mem addr = some (program (mem.drop addr)) := by
  rw [load]
  split
  · rename_i h
    have hl : addr < mem.length := by omega
    have ih := load_eq mem hm (addr + 1)
    unfold getchar
    rw [if_pos ⟨h, rfl⟩, List.getElem?_eq_getElem hl, List.drop_eq_getElem_cons hl]
    simp only [program, List.takeWhile_cons]
    split
    · rename_i hc
      split at hc
      · rename_i h255; cases hc; simp [ih, program, h255]
      · cases hc
    · rename_i hc
      split at hc
      · cases hc
      · rename_i h255; simp [Decidable.not_not.1 h255]
    · rename_i hc
      split at hc <;> cases hc
  · rw [List.drop_eq_nil_of_le (by omega)]; rfl
termination_by N - addr

theorem show_eq (mem : List UInt8) (hm : mem.length = N) (addr : Nat) : showLoop N mem addr = some (program (mem.drop addr)) := by
  rw [showLoop]
  split
  · rename_i h
    have hl : addr < mem.length := by omega
    have ih := show_eq mem hm (addr + 1)
    rw [List.getElem?_eq_getElem hl, List.drop_eq_getElem_cons hl]
    simp only [program, List.takeWhile_cons]
    split
    · rename_i hc; simp [hc]
    · rename_i hc; simp [hc, ih, program]
  · rw [List.drop_eq_nil_of_le (by omega)]; rfl
termination_by N - addr

/-- Reading never leaves the memory, whatever it holds, and yields the bytes before the first 255. -/
theorem C47_boot (mem : List UInt8) (hm : mem.length = N) : load N mem 0 = some (program mem) ∧ (program mem).length ≤ N := by
  refine ⟨load_eq N mem hm 0, ?_⟩
  rw [← hm]
  exact (List.takeWhile_prefix _).length_le

/-- Showing prints what is read at boot, between ^B and ^C if asked to. -/
theorem C47_show (mem : List UInt8) (hm : mem.length = N) :
    show_ N false mem = load N mem 0 ∧ show_ N true mem = (load N mem 0).map fun t => [2] ++ t ++ [3] := by
  unfold show_
  rw [show_eq N mem hm 0, load_eq N mem hm 0]
  simp

/-- Storing text that leaves room. -/
theorem write_text : ∀ (keys a b more out : List UInt8), Text (typed keys) → a.length + b.length = N → (typed keys).length < b.length →
    ∃ out', write N (keys ++ more) a.length (a ++ b) out =
      write N more (a ++ typed keys).length (a ++ typed keys ++ b.drop (typed keys).length) out' := by
  intro keys
  induction keys with
  | nil => intro a b more out _ _ _; exact ⟨out, by simp [typed]⟩
  | cons k keys ih =>
    intro a b more out ht hn hl
    rw [List.cons_append, write]
    by_cases h5 : k = 5
    · have e : typed (k :: keys) = typed keys := by simp [typed, h5]
      rw [if_pos h5, e]
      rw [e] at ht hl
      exact ih a b more _ ht hn hl
    · have e : typed (k :: keys) = (if k = 13 then 10 else k) :: typed keys := by simp [typed, h5]
      rw [e] at ht hl
      obtain ⟨h4, h255⟩ := ht _ (List.mem_cons_self)
      rw [if_neg h5, e]
      simp only
      generalize (if k = 13 then 10 else k) = c at *
      rw [if_neg h4]
      match b, hl, hn with
      | x :: b, hl, hn =>
        simp only [List.length_cons] at hl hn
        rw [if_neg (by simp), if_neg (by omega), if_neg h255]
        have e2 : (a ++ x :: b).set a.length c = (a ++ [c]) ++ b := by simp
        rw [e2, show a.length + 1 = (a ++ [c]).length by simp]
        obtain ⟨out', h⟩ := ih (a ++ [c]) b more out (fun d hd => ht d (List.mem_cons_of_mem _ hd)) (by simp; omega) (by omega)
        exact ⟨out', by rw [h]; simp⟩

theorem program_text (t r : List UInt8) (ht : Text t) : program (t ++ r) = t ++ program r := by
  unfold program
  rw [List.takeWhile_append_of_pos]
  intro c hc
  simpa using (ht c hc).2

variable (keys mem : List UInt8) (hm : mem.length = N)
include hm

/-- Writing text and ^D into a memory with room for both: it returns, has read exactly the text and ^D, and at boot the text is read. -/
theorem C47_roundtrip (more : List UInt8) (ht : Text (typed keys)) (hl : (typed keys).length < N) :
    ∃ w, write N (keys ++ 4 :: more) 0 mem [] = some w ∧ w.done = true ∧ w.rest = more ∧ w.mem.length = N ∧ load N w.mem 0 = some (typed keys) := by
  obtain ⟨out, h⟩ := write_text N keys [] mem (4 :: more) [] ht (by simpa using hm) (by omega)
  simp only [List.nil_append, List.length_nil] at h
  rw [h, write]
  obtain ⟨x, r, hr⟩ : ∃ x r, mem.drop (typed keys).length = x :: r := by
    cases hd : mem.drop (typed keys).length with
    | nil => have := List.drop_eq_nil_iff.1 hd; omega
    | cons x r => exact ⟨x, r, rfl⟩
  have hrl : (x :: r).length = N - (typed keys).length := by rw [← hr, List.length_drop, hm]
  rw [hr, if_neg (by decide)]
  simp only [List.length_cons] at hrl
  have hset : (typed keys ++ x :: r).set (typed keys).length 255 = typed keys ++ 255 :: r := by simp
  simp only [List.length_append, List.length_cons]
  rw [if_neg (show ¬ ((typed keys).length + (r.length + 1) ≤ (typed keys).length) by omega)]
  simp only [show (if (if (4 : UInt8) = 13 then 10 else 4) = (4 : UInt8) then 255 else (if (4 : UInt8) = 13 then 10 else 4)) = (255 : UInt8) by decide, hset, if_pos]
  have hlen : (typed keys ++ 255 :: r).length = N := by simp; omega
  have hload : load N (typed keys ++ 255 :: r) 0 = some (typed keys) := by
    rw [load_eq N _ hlen 0, List.drop_zero, program_text _ _ ht]
    simp [program]
  split
  · exact ⟨_, rfl, rfl, rfl, hlen, hload⟩
  · exact ⟨_, rfl, rfl, rfl, hlen, hload⟩

/-- Writing text that is longer than the memory, or exactly as long: its first `N` bytes are stored; the rest, with the ^D, is left to
whoever reads the keys next. -/
theorem C47_overlong (more : List UInt8) (k : UInt8) (h5 : k ≠ 5) (ht : Text (typed (keys ++ [k]))) (hl : (typed (keys ++ [k])).length = N) :
    ∃ w, write N (keys ++ k :: more) 0 mem [] = some w ∧ w.done = true ∧ w.rest = more ∧ load N w.mem 0 = some (typed (keys ++ [k])) := by
  have e : typed (keys ++ [k]) = typed keys ++ [if k = 13 then 10 else k] := by simp [typed, h5]
  rw [e] at ht hl ⊢
  have ht1 : Text (typed keys) := fun c hc => ht c (List.mem_append_left _ hc)
  obtain ⟨h4, h255⟩ := ht (if k = 13 then 10 else k) (by simp)
  simp only [List.length_append, List.length_cons, List.length_nil] at hl
  obtain ⟨out, h⟩ := write_text N keys [] mem (k :: more) [] ht1 (by simpa using hm) (by omega)
  simp only [List.nil_append, List.length_nil] at h
  rw [h, write, if_neg h5]
  obtain ⟨x, hx⟩ : ∃ x, mem.drop (typed keys).length = [x] := by
    have : (mem.drop (typed keys).length).length = 1 := by rw [List.length_drop]; omega
    exact List.length_eq_one_iff.1 this
  rw [hx]
  simp only
  generalize (if k = 13 then 10 else k) = c at *
  rw [if_neg h4, if_neg (by simp), if_pos (by omega)]
  refine ⟨_, rfl, rfl, rfl, ?_⟩
  have hset : (typed keys ++ [x]).set (typed keys).length c = typed keys ++ [c] := by simp
  simp only [hset]
  have hlen : (typed keys ++ [c]).length = N := by simp; omega
  rw [load_eq N _ hlen 0, List.drop_zero, ← List.append_nil (typed keys ++ [c]), program_text _ _ ht]
  rfl

/-- Crash: the writer is stopped after any prefix of the keys, possibly while storing a byte, whose cell then holds any value `v`. What is
read at boot is the text stored so far followed by what the memory held from there on; reading stays in the memory. -/
theorem C47_crash (v : Option UInt8) (ht : Text (typed keys)) (hl : (typed keys).length < N) :
    ∃ w, write N keys 0 mem [] = some w ∧ w.done = false ∧
      (let torn := match v with | none => w.mem | some v => w.mem.set (typed keys).length v
       load N torn 0 = some (typed keys ++ program (match v with | none => mem.drop (typed keys).length | some v => v :: mem.drop ((typed keys).length + 1)))) := by
  obtain ⟨out, h⟩ := write_text N keys [] mem [] [] ht (by simpa using hm) (by omega)
  simp only [List.nil_append, List.length_nil, List.append_nil, write] at h
  refine ⟨_, h, rfl, ?_⟩
  have hdl : (mem.drop (typed keys).length).length = N - (typed keys).length := by rw [List.length_drop, hm]
  cases v with
  | none =>
    have hlen : (typed keys ++ mem.drop (typed keys).length).length = N := by rw [List.length_append, hdl]; omega
    show load N (typed keys ++ mem.drop (typed keys).length) 0 = _
    rw [load_eq N _ hlen 0, List.drop_zero, program_text _ _ ht]
  | some v =>
    have hs : (typed keys ++ mem.drop (typed keys).length).set (typed keys).length v = typed keys ++ v :: mem.drop ((typed keys).length + 1) := by
      have hd : mem.drop (typed keys).length = mem[(typed keys).length] :: mem.drop ((typed keys).length + 1) := List.drop_eq_getElem_cons (by omega)
      rw [hd, List.set_append_right _ _ (Nat.le_refl _), Nat.sub_self]; rfl
    show load N ((typed keys ++ mem.drop (typed keys).length).set (typed keys).length v) 0 = _
    rw [hs]
    have hlen : (typed keys ++ v :: mem.drop ((typed keys).length + 1)).length = N := by simp; omega
    rw [load_eq N _ hlen 0, List.drop_zero, program_text _ _ ht]

/-- No sequence of keys makes the writer leave the memory or change its size. -/
theorem C47_write_bounds (hN : 0 < N) : ∃ w, write N keys 0 mem [] = some w ∧ w.mem.length = N := by
  have : ∀ (keys mem out : List UInt8) (addr : Nat), mem.length = N → addr < N → ∃ w, write N keys addr mem out = some w ∧ w.mem.length = N := by
    intro keys
    induction keys with
    | nil => intro mem out addr hm _; exact ⟨_, rfl, hm⟩
    | cons k keys ih =>
      intro mem out addr hm ha
      rw [write]
      split
      · exact ih _ _ _ hm ha
      · simp only
        rw [if_neg (by omega)]
        generalize (if (if k = 13 then 10 else k) = 4 then (255 : UInt8) else (if k = 13 then 10 else k)) = c
        split
        · exact ⟨_, rfl, by simpa using hm⟩
        · split
          · exact ⟨_, rfl, by simpa using hm⟩
          · exact ih _ _ _ (by simpa using hm) (by omega)
  exact this keys mem [] 0 hm hN

/-- Erasing makes the program empty; nothing else in the memory changes. -/
theorem C47_erase (hN : 0 < N) : ∃ m, erase mem = some m ∧ load N m 0 = some [] ∧ m.length = N ∧ m.drop 1 = mem.drop 1 := by
  match mem, hm with
  | [], hm => simp at hm; omega
  | x :: r, hm =>
    have h1 : ∀ r' : List UInt8, (255 :: r').length = N → load N (255 :: r') 0 = some [] := by
      intro r' h
      rw [load_eq N _ h 0]; simp [program]
    unfold erase
    by_cases hx : x = 255
    · subst hx
      exact ⟨_, rfl, by simpa using h1 r hm, by simpa using hm, by simp⟩
    · refine ⟨(x :: r).set 0 255, by simp [hx], h1 r (by simpa using hm), by simpa using hm, by simp⟩

end

/-- ^C during boot: the rest of the program is not read. -/
theorem C47_abort (N : Nat) (mem : List UInt8) (addr : Nat) : getchar N true mem addr = .eof := by
  unfold getchar; exact if_neg (fun h => by cases h.2)

/-- Non-vacuity: "a\r^Eb" then ^D, into a memory of 8 bytes that held "zzzzzzz". -/
example : Text (typed [97, 13, 5, 98]) ∧ write 8 [97, 13, 5, 98, 4, 62] 0 [122, 122, 122, 122, 122, 122, 122, 255] [] =
    some ⟨true, [62], [97, 10, 98, 255, 122, 122, 122, 255], [6]⟩ ∧ load 8 [97, 10, 98, 255, 122, 122, 122, 255] 0 = some [97, 10, 98] := by
  refine ⟨by unfold Text; decide, by decide +kernel, by decide +kernel⟩

/-- A text of 8 bytes and a crash after 2. -/
example : write 8 [97, 98, 99, 100, 101, 102, 103, 104, 4] 0 (List.replicate 8 255) [] = some ⟨true, [4], [97, 98, 99, 100, 101, 102, 103, 104], []⟩ ∧
    write 8 [97, 98] 0 [122, 122, 122, 255, 255, 255, 255, 255] [] = some ⟨false, [], [97, 98, 122, 255, 255, 255, 255, 255], []⟩ := by
  decide +kernel

end Snek.Eeprom
