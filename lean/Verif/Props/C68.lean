import Verif.Model.Builtin
import Verif.Props.C36
import Verif.Props.C44
/-!
# C68: what the builtin functions compute

`print`, `input`, `len`, `ord`, `chr`, `abs` and `int`.
-/
namespace Snek.Builtin
open Spec Spec.Editor Snek.Format

theorem printArgs_join (L : Lib) (args : List Tree) (texts : List (List UInt8)) (h : args.map (fmt L 115) = texts.map some) :
    printArgs L args = some ([32].intercalate texts) := by
  induction args generalizing texts with
  | nil =>
    cases texts with
    | nil => rfl
    | cons => cases h
  | cons t l ih =>
    cases texts with
    | nil => cases h
    | cons x xs =>
      simp only [List.map_cons, List.cons.injEq] at h
      rw [printArgs, h.1, ih xs h.2]
      have hl : l.length = xs.length := by have := congrArg List.length h.2; simpa using this
      cases xs with
      | nil => rw [List.length_eq_zero_iff.1 hl]; simp [List.intercalate]
      | cons y ys => simp [hl, List.intercalate]

/-- `print(a, b, ...)` writes the texts of its arguments with one blank between them, then a newline. -/
theorem C68_print (L : Lib) (endId : Nat) (args : List Tree) (texts : List (List UInt8)) (h : args.map (fmt L 115) = texts.map some) :
    print L endId args [] = some ([32].intercalate texts ++ [10]) := by
  rw [print, printArgs_join L args texts h]
  rfl

/-- With `end`: the last such argument is written instead of the newline (unless it is `None`); other names have no effect. -/
theorem C68_print_end (L : Lib) (endId : Nat) (args : List Tree) (texts : List (List UInt8)) (h : args.map (fmt L 115) = texts.map some)
    (before after : List (Nat × Tree)) (e : Tree) (et : List UInt8) (he : fmt L 115 e = some et) (hn : e ≠ .builtin 0x7ffffc)
    (ha : ∀ p ∈ after, p.1 ≠ endId) : print L endId args (before ++ (endId, e) :: after) = some ([32].intercalate texts ++ et) := by
  have hargs := printArgs_join L args texts h
  have hend : ∀ x, printEnd endId (before ++ (endId, e) :: after) x = e := by
    induction before with
    | nil =>
      intro x
      simp only [List.nil_append, printEnd, if_true]
      clear hargs h he hn
      induction after with
      | nil => rfl
      | cons p l ih =>
        rw [printEnd, if_neg (ha p (by simp))]
        exact ih fun q hq => ha q (by simp [hq])
    | cons p l ih => intro x; rw [List.cons_append, printEnd]; exact ih _
  have hnull : isNull e = false := by
    cases e with
    | builtin o => exact decide_eq_false fun h => hn (by rw [h])
    | _ => rfl
  rw [print, hargs, hend]
  simp [hnull, he]

/-- `len`: the number of bytes of a string, of elements of a list or tuple, of keys of a dictionary. -/
theorem C68_len (t : Tree) (n : Nat) (hn : n ≤ 2 ^ 24)
    (h : (∃ s, t = .str s ∧ n = s.length) ∨ (∃ l, t = .list .list l ∧ n = l.length) ∨ (∃ l, t = .list .tuple l ∧ n = l.length) ∨
      (∃ l, t = .list .dict l ∧ l.length = 2 * n)) : ∃ u, len t = .num u ∧ Denotes u n := by
  have hp : polyLen t = n := by
    rcases h with ⟨s, rfl, rfl⟩ | ⟨l, rfl, rfl⟩ | ⟨l, rfl, rfl⟩ | ⟨l, rfl, e⟩
    · rfl
    · rfl
    · rfl
    · show l.length / 2 = n
      omega
  have hd : Denotes (intToF n) n := intToF_denotes ⟨by omega, by omega⟩
  exact ⟨_, by rw [len, hp, hd.toPoly], hd⟩

/-- `chr(n)` for 1 … 255 is the string of that one byte, and `ord` of it is `n` again: for all of them where `char` is unsigned, up to 127
where it is signed. -/
theorem C68_ord_chr (W : Nat) (hW : 16 ≤ W) (signed : Bool) (n : Nat) (h0 : 0 < n) (h : n ≤ if signed then 127 else 255) (u : BitVec 32) (hu : Denotes u n) :
    chr W (.num u) = some (some (.str [.ofNat n])) ∧ ∃ v, ord signed (.str [.ofNat n]) = some (.num v) ∧ Denotes v n := by
  have hn : n ≤ 255 := by split at h <;> omega
  constructor
  · have e : ftrunc u = n := by unfold ftrunc; rw [hu.val]; exact Int.mul_tdiv_cancel _ (by decide)
    have hp : (2:Int) ^ 15 ≤ 2 ^ (W - 1) := by
      have := Nat.pow_le_pow_right (n := 2) (by decide) (show 15 ≤ W - 1 by omega)
      exact_mod_cast this
    have hi : fToInt W u = some (n : Int) := by
      unfold fToInt
      rw [e, if_pos ⟨hu.fin, by omega, by omega⟩]
    rw [chr, hi]
    have h2 : ((n : Int) % 256).toNat = n := by omega
    have h3 : ¬ (n : Int) % 256 = 0 := by omega
    simp only [Option.map_some, h2, h3, if_false]
  · have hd : Denotes (intToF n) n := intToF_denotes ⟨by omega, by omega⟩
    refine ⟨_, rfl, ?_⟩
    have e1 : (UInt8.ofNat n).toNat = n := by simp; omega
    have : (if signed then charInt ((([UInt8.ofNat n] : List UInt8)).headD 0) else ((([UInt8.ofNat n] : List UInt8)).headD 0).toNat : Int) = n := by
      cases signed with
      | false => simp [e1]
      | true =>
        simp only [if_true] at h
        have : UInt8.ofNat n < 128 := by rw [UInt8.lt_iff_toNat_lt, e1]; show n < 128; omega
        simp only [if_true, List.headD_cons, charInt, this, e1]
    rw [this, hd.toPoly]
    exact hd

/-- Violation: where `char` is signed, `ord(chr(n))` is `n - 256` from 128 on. -/
theorem C68_violated_ord (n : Nat) (h : 128 ≤ n) (h' : n ≤ 255) : ∃ v, ord true (.str [.ofNat n]) = some (.num v) ∧ Denotes v ((n : Int) - 256) := by
  have hd : Denotes (intToF ((n : Int) - 256)) ((n : Int) - 256) := intToF_denotes ⟨by omega, by omega⟩
  have e1 : (UInt8.ofNat n).toNat = n := by simp; omega
  refine ⟨_, rfl, ?_⟩
  have : ¬ UInt8.ofNat n < 128 := by rw [UInt8.lt_iff_toNat_lt, e1]; show ¬ n < 128; omega
  simp only [if_true, List.headD_cons, charInt, this, if_false, e1]
  rw [hd.toPoly]
  exact hd

/-- `abs` of a finite number is its magnitude. -/
theorem C68_abs (u : BitVec 32) (hf : u.toNat % 2 ^ 31 < 0x7f800000) :
    ∃ v, abs (.num u) = some (.num v) ∧ v.toNat < 0x7f800000 ∧ f32val v = (f32val u).natAbs := by
  have e : (fabs u).toNat = u.toNat % 2 ^ 31 := by unfold fabs; rw [BitVec.toNat_ofNat]; omega
  have hn : isNanF (fabs u) = false := by unfold isNanF; exact decide_eq_false (by rw [e]; omega)
  refine ⟨fabs u, by rw [abs, floatToPoly, hn]; rfl, by omega, ?_⟩
  unfold f32val
  rw [e, if_pos (by omega)]
  have := u.isLt
  split
  · rw [Nat.mod_eq_of_lt (by assumption)]; omega
  · have : u.toNat % 2 ^ 31 = u.toNat - 2 ^ 31 := by omega
    rw [this]; omega

theorem tdiv_bounds (a : Int) (U : Nat) (hU : 0 < U) : (Int.tdiv a U).natAbs * U ≤ a.natAbs ∧ a.natAbs < ((Int.tdiv a U).natAbs + 1) * U := by
  have e : (Int.tdiv a U).natAbs = a.natAbs / U := by rw [Int.natAbs_tdiv]; rfl
  rw [e]
  exact ⟨Nat.div_mul_le_self _ _, by rw [Nat.add_mul, Nat.one_mul, Nat.mul_comm]; have := Nat.div_add_mod a.natAbs U; have := Nat.mod_lt a.natAbs hU; omega⟩

/-- `int` of a finite number: the integer next to it toward zero. -/
theorem C68_int (u : BitVec 32) (hf : u.toNat % 2 ^ 31 < 0x7f800000) :
    ∃ i : Int, Denotes (int u) i ∧ i.natAbs * 2 ^ 149 ≤ (f32val u).natAbs ∧ (f32val u).natAbs < (i.natAbs + 1) * 2 ^ 149 ∧
      (0 ≤ f32val u → 0 ≤ i) ∧ (f32val u ≤ 0 → i ≤ 0) := by
  have hnan : isNanF u = false := by unfold isNanF; exact decide_eq_false (by omega)
  have hp : floatToPoly u = u := by rw [floatToPoly, hnan]; rfl
  have hfin : isFin u = true := by unfold isFin; exact decide_eq_true hf
  have hU : 0 < (2:Nat) ^ 149 := Nat.pow_pos (by decide)
  rw [int, hp, fval_eq_spec]
  have hb := tdiv_bounds (fval u) (2 ^ 149) hU
  have hb : (ftrunc u).natAbs * 2 ^ 149 ≤ (fval u).natAbs ∧ (fval u).natAbs < ((ftrunc u).natAbs + 1) * 2 ^ 149 := hb
  have hpos : 0 ≤ fval u → 0 ≤ ftrunc u := fun h => Int.tdiv_nonneg h (Int.le_of_lt pow149_pos)
  have hneg : fval u ≤ 0 → ftrunc u ≤ 0 := fun h => by
    have := Int.tdiv_nonneg (a := -fval u) (b := 2 ^ 149) (by omega) (Int.le_of_lt pow149_pos)
    rw [Int.neg_tdiv] at this
    unfold ftrunc; omega
  refine ⟨ftrunc u, ?_, hb.1, hb.2, hpos, hneg⟩
  unfold truncf
  rw [hfin]
  by_cases hi : fval u % 2 ^ 149 = 0
  · simp only [Bool.not_true, Bool.false_or, hi, decide_true, if_true]
    rw [hp]
    refine .mk hfin ?_
    unfold ftrunc
    exact (Int.tdiv_mul_cancel (Int.dvd_of_emod_eq_zero hi)).symm
  · simp only [Bool.not_true, Bool.false_or, hi, decide_false, Bool.false_eq_true, if_false]
    have hs := small_of_frac (a := u) (fun h => hi (Int.emod_eq_zero_of_dvd h))
    have hk : (ftrunc u).natAbs < 2 ^ 24 := Nat.lt_of_mul_lt_mul_right (Nat.lt_of_le_of_lt hb.1 hs)
    split
    · rename_i h0
      rw [h0, (denotes_zero _).toPoly]; exact denotes_zero _
    · have hd := denotes_fround (z := ftrunc u) ⟨by omega, by omega⟩
      rw [hd.toPoly]; exact hd

/-- What typed characters look like. -/
theorem edited_printable (room : Nat) (ks : List UInt8) : ∀ c ∈ edited room ks, 32 ≤ c := by
  have go : ∀ (ks line : List UInt8), (∀ c ∈ line, 32 ≤ c) → ∀ c ∈ ks.foldl (press room) line, 32 ≤ c := by
    intro ks
    induction ks with
    | nil => intro line h; exact h
    | cons k ks ih =>
      intro line h
      apply ih
      intro c hc
      unfold press at hc
      split at hc
      · exact h c ((List.dropLast_sublist _).subset hc)
      · split at hc
        · simp at hc
        · split at hc
          · split at hc
            · simp at hc
              rcases hc with hc | rfl
              · exact h c hc
              · decide
            · exact h c hc
          · split at hc
            · rename_i hk
              split at hc
              · simp at hc
                rcases hc with hc | rfl
                · exact h c hc
                · exact hk
              · exact h c hc
            · exact h c hc
  exact go ks [] (by simp)

theorem inputLoop_reads (size : Nat) (m : Bool) : ∀ (line : List UInt8) (acc : List UInt8) (s s' : Io.St) (n : Nat), (∀ c ∈ line, 32 ≤ c) →
    Io.reads size (List.replicate (line.length + 1) (m, true)) s = some ((line ++ [10]).map .char, s') → line.length < n →
    inputLoop size m n acc s = some (acc ++ line, s') := by
  intro line
  induction line with
  | nil =>
    intro acc s s' n _ h hn
    obtain ⟨n, rfl⟩ : ∃ k, n = k + 1 := ⟨n - 1, by simp at hn; omega⟩
    rw [show List.replicate ([].length + 1 : Nat) (m, true) = [(m, true)] from rfl, Io.reads] at h
    rw [inputLoop]
    split at h
    · cases h
    · rename_i r s1 e
      rw [e]
      simp only [Io.reads, List.nil_append, List.map_cons, List.map_nil, Option.some.injEq, Prod.mk.injEq, List.cons.injEq, and_true] at h
      obtain ⟨rfl, rfl⟩ := h
      simp
  | cons c line ih =>
    intro acc s s' n hp h hn
    obtain ⟨n, rfl⟩ : ∃ k, n = k + 1 := ⟨n - 1, by simp at hn; omega⟩
    rw [List.length_cons, List.replicate_succ, Io.reads] at h
    rw [inputLoop]
    split at h
    · cases h
    · rename_i r s1 e
      rw [e]
      split at h
      · cases h
      · rename_i rs s2 e2
        simp only [List.cons_append, List.map_cons, Option.some.injEq, Prod.mk.injEq, List.cons.injEq] at h
        obtain ⟨⟨rfl, hrs⟩, rfl⟩ := h
        have hc := hp c (by simp)
        have h10 : c ≠ 10 := by rintro rfl; exact absurd hc (by decide)
        have h00 : c ≠ 0 := by rintro rfl; exact absurd hc (by decide)
        simp only [h10, h00, if_false]
        rw [ih (acc ++ [c]) s1 s2 n (fun x hx => hp x (by simp [hx])) (by rw [e2, hrs]) (by simp at hn; omega)]
        simp

/-- `input(prompt)` returns the line as edited, whatever keys were typed before the one that ends it, and leaves the later keys. -/
theorem C68_input (L : Lib) (size : Nat) (hs : 0 < size) (hs' : size ≤ 255) (m : Bool) (prompt : Option Tree) (hprompt : ∀ t, prompt = some t → (fmt L 115 t).isSome = true)
    (ks rest : List UInt8) (nl : UInt8) (s : Io.St) (hi : Io.Idle size s) (hk : Plain ks) (hn : nl = 10 ∨ nl = 13) (hkeys : s.keys = ks ++ nl :: rest) (n : Nat)
    (hlen : size ≤ n) : ∃ s', input L size m n prompt s = some (edited (size - 1) ks, s') ∧ Io.Idle size s' ∧ s'.keys = rest := by
  have key : ∀ p, ∃ s', inputLoop size m n [] (Io.put p s) = some (edited (size - 1) ks, s') ∧ Io.Idle size s' ∧ s'.keys = rest := by
    intro p
    have hi' : Io.Idle size (Io.put p s) := ⟨hi.len, hi.done, hi.none, hi.ok⟩
    obtain ⟨s', h1, h2, h3⟩ := Io.C44_line_partial size hs hs' ks rest nl (Io.put p s) (List.replicate ((edited (size - 1) ks).length + 1) (m, true)) hi' hk hn hkeys (by simp)
    have hroom : (edited (size - 1) ks).length < n := by
      have : ∀ (ks line : List UInt8), line.length ≤ size - 1 → (ks.foldl (press (size - 1)) line).length ≤ size - 1 := by
        intro ks
        induction ks with
        | nil => intro line h; exact h
        | cons k ks ih =>
          intro line h
          apply ih
          unfold press
          repeat' split
          all_goals first | omega | (simp; done) | (simp; omega)
      have := this ks [] (by simp)
      unfold edited; omega
    exact ⟨s', by rw [inputLoop_reads size m _ [] _ s' n (edited_printable _ _) h1 hroom]; simp, h2, h3⟩
  cases prompt with
  | none =>
    obtain ⟨s', h⟩ := key []
    rw [show Io.put [] s = s by simp [Io.put]] at h
    exact ⟨s', h⟩
  | some t =>
    obtain ⟨p, hp⟩ := Option.isSome_iff_exists.1 (hprompt t rfl)
    obtain ⟨s', h⟩ := key p
    exact ⟨s', by rw [input, hp]; exact h⟩

/-! ## Examples -/

/-- A library for the examples: numbers print as `N`. -/
def lib : Lib := ⟨32, fun _ _ => [], fun _ => [78], fun _ => []⟩

/-- `print('a', 1, [])` -/
example : print lib 7 [.str [97], .num (intToF 1), .list .list []] [] = some [97, 32, 78, 32, 91, 93, 10] := by
  have := C68_print lib 7 [.str [97], .num (intToF 1), .list .list []] [[97], [78], [91, 93]] (by rfl)
  exact this

/-- `print('a', end='')` -/
example : print lib 7 [.str [97]] [(7, .str [])] = some [97] :=
  C68_print_end lib 7 [.str [97]] [[97]] rfl [] [] (.str []) [] rfl (by simp) (by simp)

example : ∃ u, len (.list .dict [.num 0, .num 0, .str [97], .num 0]) = .num u ∧ Denotes u 2 :=
  C68_len _ 2 (by decide) (.inr (.inr (.inr ⟨_, rfl, rfl⟩)))

/-- `int(-2.5)` is -2. -/
example : Denotes (int 0xc0200000) (-2) := by
  refine ⟨by decide +kernel, by decide +kernel⟩

/-- `input('? ')` with `x`, erase, `4`, `2`, return. -/
example : (input lib 80 false 80 (some (.str [63, 32])) (Io.St.init 80 [120, 127, 52, 50, 13, 49])).map (fun p => (p.1, p.2.keys)) = some ([52, 50], [49]) := by decide +kernel

end Snek.Builtin
