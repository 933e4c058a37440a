import Verif.Proofs.LexFwd
import Verif.Proofs.Round
import Verif.Model.Atof
/-!
# C41 Numbers in source mean what they say

`Numeral ip fp ep` (Spec/Lex) describes the number literals, `Continues` the characters that can go on with one. `atoff` is the
conversion the AVR builds use; the others call the C library.
-/
namespace Snek.Lex
open Spec

theorem cclass_digit {c : Ch} (h : Digit c) : cclass c = .digit := by unfold cclass; rw [if_pos (show 48 ≤ c ∧ c ≤ 57 from h)]

theorem nrun_append (n n' : NState) (l m : List Ch) (h : nrun n l = some n') : nrun n (l ++ m) = nrun n' m := by
  induction l generalizing n with
  | nil => simp only [nrun, Option.some.injEq] at h; rw [h]; rfl
  | cons c l ih =>
    simp only [nrun, List.cons_append] at h ⊢
    cases hn : nstep n (cclass c) with
    | none => rw [hn] at h; cases h
    | some n1 => rw [hn] at h; exact ih n1 h

theorem nrun_digits (n : NState) (hn : n = .int ∨ n = .frac ∨ n = .exp) (l : List Ch) (h : ∀ x ∈ l, Digit x ∨ (n = .int ∧ x = 95)) : nrun n l = some n := by
  induction l with
  | nil => rfl
  | cons c l ih =>
    have hc := h c (by simp)
    have hstep : nstep n (cclass c) = some n := by
      rcases hc with hc | ⟨rfl, rfl⟩
      · rw [cclass_digit hc]; rcases hn with rfl | rfl | rfl <;> rfl
      · rfl
    rw [nrun, hstep]
    exact ih fun x hx => h x (by simp [hx])

/-- A number literal followed by a character that does not continue it is read as one token, up to that character; the token's text is
the literal without the underscores. -/
theorem C41_token (C : Cfg) (s : St) (hs : Ready s) (ip fp ep : List Ch) (hn : Numeral ip fp ep) (c : Ch) (rest : List Ch)
    (hp : s.pend = ip ++ fp ++ ep ++ c :: rest) (hc : ¬ Continues fp ep c)
    (hlen : ((ip ++ fp ++ ep).filter (· ≠ 95)).length ≤ C.maxTok) :
    ∃ s', Lexes C s (.number ((ip ++ fp ++ ep).filter (· ≠ 95))) s' ∧ s'.pend = c :: rest ∧ Stays s s' s.ign := by
  obtain ⟨d, ds, rfl, hd, hds⟩ := hn.int
  have hd95 : d ≠ 95 := by rintro rfl; exact absurd hd.2 (by decide)
  have hrun : ∃ n', nrun .int (ds ++ fp ++ ep) = some n' ∧ nstep n' (cclass c) = none := by
    have h1 : nrun .int ds = some .int := nrun_digits _ (.inl rfl) ds fun x hx => (hds x hx).imp id fun h => ⟨rfl, h⟩
    have hnd : ∀ n : NState, ¬ Digit c → (n = .int ∨ n = .frac → c ≠ 101 ∧ c ≠ 69) → (n = .int → c ≠ 46 ∧ c ≠ 95) → n ≠ .expsign →
        nstep n (cclass c) = none := by
      intro n h2 h3 h4 h5
      have hcl : cclass c ≠ .digit := by
        unfold cclass; rw [if_neg (show ¬ (48 ≤ c ∧ c ≤ 57) from h2)]; repeat' split
        all_goals simp
      have hce : n = .int ∨ n = .frac → cclass c ≠ .e := by
        intro hn
        have hor : ∀ x : UInt8, x ||| 32 = 101 → x = 101 ∨ x = 69 := forall_byte (by decide +kernel)
        unfold cclass; rw [if_neg (show ¬ (48 ≤ c ∧ c ≤ 57) from h2)]
        split
        · simp
        · split
          · rename_i h6
            rcases hor c h6 with h | h
            · exact absurd h (h3 hn).1
            · exact absurd h (h3 hn).2
          · repeat' split
            all_goals simp
      have hdot : n = .int → cclass c ≠ .dot ∧ cclass c ≠ .underscore := by
        intro hn
        refine ⟨?_, fun h => (h4 hn).2 ((cclass_underscore c).1 h)⟩
        unfold cclass; rw [if_neg (show ¬ (48 ≤ c ∧ c ≤ 57) from h2), if_neg (h4 hn).1]
        repeat' split
        all_goals simp
      revert hcl hce hdot
      cases n <;> cases cclass c <;> simp [nstep] at h5 ⊢
    rw [List.append_assoc, nrun_append _ _ _ _ h1]
    have hcd : ¬ Digit c := fun h => hc (.inl h)
    have hE : ∀ n, (n = .int ∨ n = .frac) → ep ≠ [] → ∃ n', nrun n ep = some n' ∧ nstep n' (cclass c) = none := by
      intro n hn' hep
      rcases hn.exp with h | ⟨e, sg, d', ds', rfl, he, hsg, hd', hds'⟩
      · exact absurd h hep
      · refine ⟨.exp, ?_, hnd _ hcd (by simp) (by simp) (by simp)⟩
        have hde : nrun .exp ds' = some .exp := nrun_digits _ (by simp) _ fun x hx => .inl (hds' x hx)
        have hse : nrun .expsign (sg ++ d' :: ds') = some .exp := by
          rcases hsg with rfl | rfl | rfl
          · simp only [List.nil_append, nrun, cclass_digit hd', nstep]; exact hde
          · simp only [List.singleton_append, nrun, cclass_digit hd', nstep, show cclass 43 = .sign by decide]; exact hde
          · simp only [List.singleton_append, nrun, cclass_digit hd', nstep, show cclass 45 = .sign by decide]; exact hde
        have hce : cclass e = .e := by rcases he with rfl | rfl <;> decide
        rw [nrun, hce]
        rcases hn' with rfl | rfl <;> exact hse
    rcases hn.frac with rfl | ⟨fs, rfl, hfs⟩
    · by_cases hep : ep = []
      · subst hep
        refine ⟨.int, rfl, hnd _ hcd (fun _ => ?_) (fun _ => ?_) (by simp)⟩
        · exact ⟨fun h => hc (.inr (.inl ⟨rfl, .inl h⟩)), fun h => hc (.inr (.inl ⟨rfl, .inr h⟩))⟩
        · exact ⟨fun h => hc (.inr (.inr ⟨rfl, rfl, .inl h⟩)), fun h => hc (.inr (.inr ⟨rfl, rfl, .inr h⟩))⟩
      · exact hE _ (.inl rfl) hep
    · have hfr : nrun .int (46 :: fs) = some .frac := by
        rw [nrun, show cclass 46 = .dot by decide]
        exact nrun_digits _ (by simp) _ fun x hx => .inl (hfs x hx)
      rw [nrun_append _ _ _ _ hfr]
      by_cases hep : ep = []
      · subst hep
        refine ⟨.frac, rfl, hnd _ hcd (fun _ => ?_) (by simp) (by simp)⟩
        exact ⟨fun h => hc (.inr (.inl ⟨rfl, .inl h⟩)), fun h => hc (.inr (.inl ⟨rfl, .inr h⟩))⟩
      · exact hE _ (.inr rfl) hep
  obtain ⟨n', hr1, hr2⟩ := hrun
  have hne : ∀ x : UInt8, Digit x → x ≠ 0 ∧ x ≠ 10 ∧ x ≠ 35 ∧ x ≠ 32 := forall_byte (by decide +kernel)
  obtain ⟨h0, h10, h35, h32⟩ := hne d hd
  have hm : 0 < C.maxTok := by
    simp only [List.cons_append] at hlen
    rw [List.filter_cons_of_pos (by simpa using hd95), List.length_cons] at hlen
    omega
  refine lexes_start hm hs (c := d) (l := ds ++ fp ++ ep ++ c :: rest) (by rw [hp]; simp) h0 h10 h35 h32 ?_
  intro s1 hp1 ht1 hi1
  have htok : ∀ k, token C k d s1 = number C k d s1 := by
    have hdig : ∀ x : UInt8, Digit x → ¬ (x = 0) ∧ ¬ (x = 58) ∧ ¬ (x = 59) ∧ ¬ (x = 44) ∧ ¬ (x = 40) ∧ ¬ (x = 41) ∧ ¬ (x = 91) ∧ ¬ (x = 93) ∧
        ¬ (x = 123) ∧ ¬ (x = 125) ∧ ¬ (x = 43) ∧ ¬ (x = 45) ∧ ¬ (x = 42) ∧ ¬ (x = 47) ∧ ¬ (x = 37) ∧ ¬ (x = 38) ∧ ¬ (x = 124) ∧ ¬ (x = 126) ∧
        ¬ (x = 94) ∧ ¬ (x = 60) ∧ ¬ (x = 61) ∧ ¬ (x = 62) ∧ ¬ (x = 33) ∧ ¬ (x = 34 ∨ x = 39) := forall_byte (by decide +kernel)
    obtain ⟨a1, a2, a3, a4, a5, a6, a7, a8, a9, b1, b2, b3, b4, b5, b6, b7, b8, b9, c1, c2, c3, c4, c5, c6⟩ := hdig d hd
    intro k
    unfold token
    simp only [a1, a2, a3, a4, a5, a6, a7, a8, a9, b1, b2, b3, b4, b5, b6, b7, b8, b9, c1, c2, c3, c4, c5, c6, decide_false, Bool.and_false,
      Bool.false_eq_true, if_false, or_self]
    rw [if_pos (.inl hd)]
  obtain ⟨s', g1, g2, g3⟩ := numLoop_fwd C (ds ++ fp ++ ep) .int n' d c (startToken s1) rest hr1 hp1 hr2 (by simpa [startToken] using hlen)
  rw [cclass_digit hd] at g1
  refine ⟨(ds ++ fp ++ ep).length + 1, s', ?_, g2, ?_⟩
  · rw [htok, number, g1]; simp [startToken]
  · rw [← hi1]; exact ⟨g3.mid, g3.exd, g3.line, g3.cur, g3.ind, g3.ign⟩

/-- Value of a digit string with a running total. -/
def dec (a : Nat) (l : List Ch) : Nat := l.foldl (fun a c => 10 * a + (c.toNat - 48)) a

theorem dec_mono (l : List Ch) (a : Nat) : a ≤ dec a l := by
  induction l generalizing a with
  | nil => exact Nat.le_refl _
  | cons c l ih => exact Nat.le_trans (show a ≤ 10 * a + (c.toNat - 48) by omega) (ih _)

/-- The digit loop accumulates the value as long as it stays below 2^32 - 16. -/
theorem digits_dec (l : List Ch) (h : ∀ c ∈ l, Digit c) (x : Nat) (o : Bool) (ho : l ≠ [] → o = false) (hx : dec x l < 4294967280) :
    ∃ o', Atof.digits l ⟨x, 0, o, false⟩ = (⟨dec x l, 0, o', false⟩, []) := by
  induction l generalizing x o with
  | nil => exact ⟨o, rfl⟩
  | cons c l ih =>
    have ho := ho (by simp)
    subst ho
    have hsub : ∀ c : UInt8, Digit c → c - 48 ≤ 9 ∧ (c - 48).toNat = c.toNat - 48 := forall_byte (by decide +kernel)
    have hd := h c (by simp)
    obtain ⟨h1, h2⟩ := hsub c hd
    have hle : 10 * x + (c.toNat - 48) ≤ dec x (c :: l) := dec_mono l _
    have hmod : (x * 10 + (c - 48).toNat) % 2 ^ 32 = 10 * x + (c.toNat - 48) := by rw [h2]; omega
    rw [Atof.digits, if_pos h1]
    simp only [Bool.false_eq_true, if_false, hmod]
    refine ih (fun y hy => h y (by simp [hy])) _ _ (fun hl => ?_) hx
    apply decide_eq_false
    intro hge
    cases l with
    | nil => exact hl rfl
    | cons d l =>
      have h3 : 10 * (10 * x + (c.toNat - 48)) + (d.toNat - 48) ≤ dec x (c :: d :: l) := dec_mono l _
      omega

theorem atoff_int (l : List Ch) (h : ∀ c ∈ l, Digit c) (hv : dec 0 l < 4294967280) : Atof.atoff l = intToF (dec 0 l) := by
  obtain ⟨o, ho⟩ := digits_dec l h 0 false (fun _ => rfl) hv
  unfold Atof.atoff
  rw [ho]
  simp only [Atof.exponent, Int.add_zero]
  split
  · rfl
  · rw [if_neg (by decide)]
    simp [Atof.scale, Atof.pwrP10, Atof.mulN]

/-- On the AVR builds an integer literal below 2^32 - 16, with or without underscores, denotes its value correctly rounded, and exactly
its value up to 2^24. Missing: larger literals, for which the claim is false (`C41_violated_rounding`), and the C library's `strtof`
on the other builds. -/
theorem C41_value_partial (ds : List Ch) (hd : ∀ c ∈ ds, Digit c ∨ c = 95) (hv : decimal ds < 4294967280) :
    Rounded (Atof.atoff (ds.filter (· ≠ 95))) (decimal ds * 2 ^ 149) 1 ∧
    (decimal ds ≤ 2 ^ 24 → Denotes (Atof.atoff (ds.filter (· ≠ 95))) (decimal ds)) := by
  have e : Atof.atoff (ds.filter (· ≠ 95)) = intToF (decimal ds) := by
    refine atoff_int _ (fun c hc => ?_) hv
    have := List.mem_filter.1 hc
    exact (hd c this.1).resolve_right (by simpa using this.2)
  rw [e]
  refine ⟨?_, fun h => intToF_denotes ⟨by omega, by omega⟩⟩
  unfold intToF
  split
  · rename_i h
    rw [h, Int.zero_mul]
    exact rounded_zero false 1 (by decide)
  · rename_i h
    exact rounded_fround _ fun h' => h ((scale_zero _).1 h')

/-- Both together: reading an integer literal gives a number token, and its value is the integer written. -/
theorem C41_integer_partial (C : Cfg) (s : St) (hs : Ready s) (d : Ch) (ds : List Ch) (hd : Digit d) (hds : ∀ x ∈ ds, Digit x ∨ x = 95)
    (c : Ch) (rest : List Ch) (hp : s.pend = d :: ds ++ c :: rest) (hc : ¬ Digit c) (hc' : c ∉ [95, 46, 101, 69])
    (hlen : (d :: ds).length ≤ C.maxTok) (hv : decimal (d :: ds) < 4294967280) :
    ∃ s' text, Lexes C s (.number text) s' ∧ s'.pend = c :: rest ∧ Rounded (Atof.atoff text) (decimal (d :: ds) * 2 ^ 149) 1 ∧
      (decimal (d :: ds) ≤ 2 ^ 24 → Denotes (Atof.atoff text) (decimal (d :: ds))) := by
  have hn : Numeral (d :: ds) [] [] := ⟨⟨d, ds, rfl, hd, hds⟩, .inl rfl, .inl rfl⟩
  have hcc : ¬ Continues [] [] c := by
    rintro (h | ⟨-, h⟩ | ⟨-, -, h⟩)
    · exact hc h
    · rcases h with rfl | rfl <;> simp at hc'
    · rcases h with rfl | rfl <;> simp at hc'
  obtain ⟨s', h1, h2, -⟩ := C41_token C s hs (d :: ds) [] [] hn c rest (by simpa using hp) hcc
    (by simp only [List.append_nil]; exact Nat.le_trans (List.length_filter_le _ _) hlen)
  simp only [List.append_nil] at h1
  obtain ⟨g1, g2⟩ := C41_value_partial (d :: ds) (fun x hx => by
    rcases List.mem_cons.1 hx with rfl | hx
    · exact .inl hd
    · exact hds x hx) hv
  exact ⟨s', _, h1, h2, g1, g2⟩

/-- `4294967520` denotes 4294967808 on the AVR builds, although 4294967296 is closer. -/
theorem C41_violated_rounding :
    Atof.atoff [52, 50, 57, 52, 57, 54, 55, 53, 50, 48] = 0x4f800001#32 ∧ Denotes 0x4f800001#32 4294967808 ∧ Denotes 0x4f800000#32 4294967296 := by
  refine ⟨by decide +kernel, ?_, ?_⟩ <;> refine ⟨by decide, by decide +kernel⟩

/-! `1_000` and `2.5e-3` followed by a newline. -/

example : Numeral [49, 95, 48, 48, 48] [] [] ∧ decimal [49, 95, 48, 48, 48] = 1000 := by
  refine ⟨⟨⟨49, [95, 48, 48, 48], rfl, by decide, by decide⟩, .inl rfl, .inl rfl⟩, by decide +kernel⟩

example : Numeral [50] [46, 53] [101, 45, 51] ∧ ¬ Continues [46, 53] [101, 45, 51] 10 :=
  ⟨⟨⟨50, [], rfl, by decide, by simp⟩, .inr ⟨[53], rfl, by decide⟩, .inr ⟨101, [45], 51, [], rfl, by simp, by simp, by decide, by simp⟩⟩,
    by simp [Continues, Digit]⟩

example : Ready { St.init [49, 95, 48, 48, 48, 10] with mid := true } := ⟨rfl, by simp [St.init]⟩

end Snek.Lex
