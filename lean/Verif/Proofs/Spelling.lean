import Verif.Props.C39
import Verif.Props.C40
import Verif.Props.C41
import Verif.Spec.Spelling
namespace Snek.Lex
open Snek.Vm Spec.Spelling

/-! ## Tokens of fixed spelling -/

theorem checkEqual_no {C : Cfg} {s : St} {c : Ch} {l : List Ch} (h : s.pend = c :: l) (h0 : c ≠ 0) (hr : s.text.length < C.maxTok) (hc : c ≠ 61) (p : Tok) (o : BinOp) :
    ∃ s', checkEqual C p o s = (p, s') ∧ s'.pend = c :: l ∧ Same s s' := by
  obtain ⟨h1, h2, h3, h4⟩ := lextoken_peek (C := C) h h0 hr
  refine ⟨_, ?_, h2, h4⟩
  unfold checkEqual
  simp [h1, hc]

theorem checkEqual_yes {C : Cfg} {s : St} {l : List Ch} (h : s.pend = 61 :: l) (hr : s.text.length < C.maxTok) (p : Tok) (o : BinOp) :
    ∃ s', checkEqual C p o s = (.assign (.aug o), s') ∧ s'.pend = l ∧ Same s s' := by
  obtain ⟨h1, h2, h3, h4⟩ := lextoken_cons (C := C) h (by decide) (by decide) hr
  refine ⟨_, ?_, h2, h4⟩
  unfold checkEqual
  simp [h1]

theorem two_yes {C : Cfg} {s : St} {c : Ch} {l : List Ch} (h : s.pend = c :: l) (h0 : c ≠ 0) (h10 : c ≠ 10) (hr : s.text.length < C.maxTok) (y n : St → Tok × St) :
    ∃ s', two C c y n s = y s' ∧ s'.pend = l ∧ s'.text = s.text ++ [c] ∧ Same s s' := by
  obtain ⟨h1, h2, h3, h4⟩ := lextoken_cons (C := C) h h10 h0 hr
  refine ⟨_, ?_, h2, h3, h4⟩
  unfold two
  simp [h1]

theorem two_no {C : Cfg} {s : St} {c d : Ch} {l : List Ch} (h : s.pend = c :: l) (h0 : c ≠ 0) (hd : c ≠ d) (hr : s.text.length < C.maxTok) (y n : St → Tok × St) :
    ∃ s', two C d y n s = n s' ∧ s'.pend = c :: l ∧ s'.text = s.text ∧ Same s s' := by
  obtain ⟨h1, h2, h3, h4⟩ := lextoken_peek (C := C) h h0 hr
  refine ⟨_, ?_, h2, h3, h4⟩
  unfold two
  simp [h1, hd]

/-- What `token` does with the first character of a token of fixed spelling. -/
def Fwd (C : Cfg) (c : Ch) (rest : List Ch) (t : Tok) (l : List Ch) : Prop :=
  ∀ s, s.pend = rest → s.text = [c] → s.ign < 255 → ∃ s', token C 0 c s = some (t, s') ∧ s'.pend = l ∧ Same { s with ign := after s.ign t } s'

theorem lexes_fwd {C : Cfg} (hm : 0 < C.maxTok) {s : St} (hs : Ready s) (hg : s.ign < 255) {c : Ch} {r l : List Ch} {t : Tok} (h : s.pend = c :: r)
    (f : Fwd C c r t l) (hc : c ≠ 0 ∧ c ≠ 10 ∧ c ≠ 35 ∧ c ≠ 32) : ∃ s', Lexes C s t s' ∧ s'.pend = l ∧ Stays s s' (after s.ign t) :=
  lexes_start hm hs h hc.1 hc.2.1 hc.2.2.1 hc.2.2.2 fun s1 h1 h2 h3 => by
    obtain ⟨s', g1, g2, g3⟩ := f s1 h1 h2 (by omega)
    rw [h3] at g3
    exact ⟨0, s', g1, g2, g3⟩

section
variable {C : Cfg} (hm : 4 ≤ C.maxTok) {d c : Ch} {rest : List Ch} {p : Tok} {o : BinOp}
include hm

theorem fwd_eq_no (ht : ∀ s, token C 0 d s = some (checkEqual C p o s)) (hp : ∀ n, after n p = n) (h0 : c ≠ 0) (hc : c ≠ 61) : Fwd C d (c :: rest) p (c :: rest) := by
  intro s h1 h2 _
  obtain ⟨s', g1, g2, g3⟩ := checkEqual_no (C := C) h1 h0 (by rw [h2]; simp; omega) hc p o
  exact ⟨s', by rw [ht, g1], g2, by rw [hp]; exact g3⟩

theorem fwd_eq_yes (ht : ∀ s, token C 0 d s = some (checkEqual C p o s)) : Fwd C d (61 :: rest) (.assign (.aug o)) rest := by
  intro s h1 h2 _
  obtain ⟨s', g1, g2, g3⟩ := checkEqual_yes (C := C) h1 (by rw [h2]; simp; omega) p o
  exact ⟨s', by rw [ht, g1], g2, g3⟩

variable {e : Ch} {p' : Tok} {o' : BinOp}

theorem fwd_two_no (ht : ∀ s, token C 0 d s = some (two C e (checkEqual C p' o') (checkEqual C p o) s)) (hp : ∀ n, after n p = n) (h0 : c ≠ 0) (he : c ≠ e)
    (hc : c ≠ 61) : Fwd C d (c :: rest) p (c :: rest) := by
  intro s h1 h2 _
  obtain ⟨s1, f1, f2, f3, f4⟩ := two_no (C := C) h1 h0 he (by rw [h2]; simp; omega) (checkEqual C p' o') (checkEqual C p o)
  obtain ⟨s', g1, g2, g3⟩ := checkEqual_no (C := C) f2 h0 (by rw [f3, h2]; simp; omega) hc p o
  exact ⟨s', by rw [ht, f1, g1], g2, by rw [hp]; exact Same.trans (b := s1) f4 g3⟩

theorem fwd_two_eq (ht : ∀ s, token C 0 d s = some (two C e (checkEqual C p' o') (checkEqual C p o) s)) (he : (61 : Ch) ≠ e) :
    Fwd C d (61 :: rest) (.assign (.aug o)) rest := by
  intro s h1 h2 _
  obtain ⟨s1, f1, f2, f3, f4⟩ := two_no (C := C) h1 (by decide) he (by rw [h2]; simp; omega) (checkEqual C p' o') (checkEqual C p o)
  obtain ⟨s', g1, g2, g3⟩ := checkEqual_yes (C := C) f2 (by rw [f3, h2]; simp; omega) p o
  exact ⟨s', by rw [ht, f1, g1], g2, Same.trans (b := s1) f4 g3⟩

theorem fwd_two_two (ht : ∀ s, token C 0 d s = some (two C e (checkEqual C p' o') (checkEqual C p o) s)) (hp : ∀ n, after n p' = n) (he0 : e ≠ 0) (he10 : e ≠ 10)
    (h0 : c ≠ 0) (hc : c ≠ 61) : Fwd C d (e :: c :: rest) p' (c :: rest) := by
  intro s h1 h2 _
  obtain ⟨s1, f1, f2, f3, f4⟩ := two_yes (C := C) h1 he0 he10 (by rw [h2]; simp; omega) (checkEqual C p' o') (checkEqual C p o)
  obtain ⟨s', g1, g2, g3⟩ := checkEqual_no (C := C) f2 h0 (by rw [f3, h2]; simp; omega) hc p' o'
  exact ⟨s', by rw [ht, f1, g1], g2, by rw [hp]; exact Same.trans (b := s1) f4 g3⟩

theorem fwd_two_two_eq (ht : ∀ s, token C 0 d s = some (two C e (checkEqual C p' o') (checkEqual C p o) s)) (he0 : e ≠ 0) (he10 : e ≠ 10) :
    Fwd C d (e :: 61 :: rest) (.assign (.aug o')) rest := by
  intro s h1 h2 _
  obtain ⟨s1, f1, f2, f3, f4⟩ := two_yes (C := C) h1 he0 he10 (by rw [h2]; simp; omega) (checkEqual C p' o') (checkEqual C p o)
  obtain ⟨s', g1, g2, g3⟩ := checkEqual_yes (C := C) f2 (by rw [f3, h2]; simp; omega) p' o'
  exact ⟨s', by rw [ht, f1, g1], g2, Same.trans (b := s1) f4 g3⟩

variable {q q' : Vm.CmpOp}

theorem fwd_angle_no (ht : ∀ s, token C 0 d s = some (angle C d o q' q s)) (h0 : c ≠ 0) (hc : c ≠ 61) (hd : c ≠ d) :
    Fwd C d (c :: rest) (.cmpop (.cmp q)) (c :: rest) := by
  intro s h1 h2 _
  obtain ⟨f1, f2, f3, f4⟩ := lextoken_peek (C := C) h1 h0 (by rw [h2]; simp; omega)
  exact ⟨_, by rw [ht]; unfold angle; simp [f1, hc, hd], f2, f4⟩

theorem fwd_angle_eq (ht : ∀ s, token C 0 d s = some (angle C d o q' q s)) (hd : (61 : Ch) ≠ d) :
    Fwd C d (61 :: rest) (.cmpop (.cmp q')) rest := by
  intro s h1 h2 _
  obtain ⟨f1, f2, f3, f4⟩ := lextoken_cons (C := C) h1 (by decide) (by decide) (by rw [h2]; simp; omega)
  exact ⟨_, by rw [ht]; unfold angle; simp [f1, hd], f2, f4⟩

theorem fwd_angle_two (ht : ∀ s, token C 0 d s = some (angle C d o q' q s)) (hd0 : d ≠ 0) (hd10 : d ≠ 10) (h0 : c ≠ 0) (hc : c ≠ 61) :
    Fwd C d (d :: c :: rest) (.shift o) (c :: rest) := by
  intro s h1 h2 _
  obtain ⟨f1, f2, f3, f4⟩ := lextoken_cons (C := C) h1 hd10 hd0 (by rw [h2]; simp; omega)
  obtain ⟨s', g1, g2, g3⟩ := checkEqual_no (C := C) f2 h0 (by rw [f3, h2]; simp; omega) hc (.shift o) o
  exact ⟨s', by rw [ht]; unfold angle; simp [f1, g1], g2, Same.trans (b := (lextoken C s).2) f4 g3⟩

theorem fwd_angle_two_eq (ht : ∀ s, token C 0 d s = some (angle C d o q' q s)) (hd0 : d ≠ 0) (hd10 : d ≠ 10) :
    Fwd C d (d :: 61 :: rest) (.assign (.aug o)) rest := by
  intro s h1 h2 _
  obtain ⟨f1, f2, f3, f4⟩ := lextoken_cons (C := C) h1 hd10 hd0 (by rw [h2]; simp; omega)
  obtain ⟨s', g1, g2, g3⟩ := checkEqual_yes (C := C) f2 (by rw [f3, h2]; simp; omega) (.shift o) o
  exact ⟨s', by rw [ht]; unfold angle; simp [f1, g1], g2, Same.trans (b := (lextoken C s).2) f4 g3⟩

end

theorem fixed_fwd {C : Cfg} (hm : 4 ≤ C.maxTok) {w : List Ch} {t : Tok} {c : Ch} {rest : List Ch} (h : (w, t) ∈ fixed C.dict)
    (H : ∀ p ∈ fixed C.dict, ¬ w ++ [c] <+: p.1) (h0 : c ≠ 0) :
    ∃ d l, w = d :: l ∧ (d ≠ 0 ∧ d ≠ 10 ∧ d ≠ 35 ∧ d ≠ 32) ∧ Fwd C d (l ++ c :: rest) t (c :: rest) := by
  have h' := h
  unfold fixed at h'
  rw [List.mem_append] at h'
  rcases h' with h' | h'
  · simp only [List.mem_cons, Prod.mk.injEq, List.not_mem_nil, or_false] at h'
    rcases h' with ⟨rfl, rfl⟩ | ⟨rfl, rfl⟩ | ⟨rfl, rfl⟩ | ⟨rfl, rfl⟩ | ⟨rfl, rfl⟩ | ⟨rfl, rfl⟩ | ⟨rfl, rfl⟩ | ⟨rfl, rfl⟩ | ⟨rfl, rfl⟩ | ⟨rfl, rfl⟩ | ⟨rfl, rfl⟩ | ⟨rfl, rfl⟩ | ⟨rfl, rfl⟩ | ⟨rfl, rfl⟩ | ⟨rfl, rfl⟩ | ⟨rfl, rfl⟩ | ⟨rfl, rfl⟩ | ⟨rfl, rfl⟩ | ⟨rfl, rfl⟩ | ⟨rfl, rfl⟩ | ⟨rfl, rfl⟩ | ⟨rfl, rfl⟩ | ⟨rfl, rfl⟩ | ⟨rfl, rfl⟩ | ⟨rfl, rfl⟩ | ⟨rfl, rfl⟩ | ⟨rfl, rfl⟩ | ⟨rfl, rfl⟩ | ⟨rfl, rfl⟩ | ⟨rfl, rfl⟩ | ⟨rfl, rfl⟩ | ⟨rfl, rfl⟩ | ⟨rfl, rfl⟩ | ⟨rfl, rfl⟩ | ⟨rfl, rfl⟩ | ⟨rfl, rfl⟩ | ⟨rfl, rfl⟩ | ⟨rfl, rfl⟩ | ⟨rfl, rfl⟩
    · exact ⟨58, [], rfl, by decide, fun s h1 h2 h3 => ⟨s, by simp [token], h1, .refl _⟩⟩
    · exact ⟨59, [], rfl, by decide, fun s h1 h2 h3 => ⟨s, by simp [token], h1, .refl _⟩⟩
    · exact ⟨44, [], rfl, by decide, fun s h1 h2 h3 => ⟨s, by simp [token], h1, .refl _⟩⟩
    · exact ⟨40, [], rfl, by decide, fun s h1 h2 h3 => ⟨lexOpen s, by simp [token], h1, by rw [lexOpen, Nat.mod_eq_of_lt (by omega)]; exact .refl _⟩⟩
    · exact ⟨41, [], rfl, by decide, fun s h1 h2 h3 => ⟨lexClose s, by simp [token], by unfold lexClose; split <;> exact h1, by unfold lexClose; split; exact .refl _; (have : s.ign = 0 := by omega); exact ⟨rfl, rfl, rfl, rfl, rfl, by simp [after, this]⟩⟩⟩
    · exact ⟨91, [], rfl, by decide, fun s h1 h2 h3 => ⟨lexOpen s, by simp [token], h1, by rw [lexOpen, Nat.mod_eq_of_lt (by omega)]; exact .refl _⟩⟩
    · exact ⟨93, [], rfl, by decide, fun s h1 h2 h3 => ⟨lexClose s, by simp [token], by unfold lexClose; split <;> exact h1, by unfold lexClose; split; exact .refl _; (have : s.ign = 0 := by omega); exact ⟨rfl, rfl, rfl, rfl, rfl, by simp [after, this]⟩⟩⟩
    · exact ⟨126, [], rfl, by decide, fun s h1 h2 h3 => ⟨s, by simp [token], h1, .refl _⟩⟩
    · have h61 : c ≠ 61 := by rintro rfl; exact H (ascii "+=", .assign (.aug .plus)) (by unfold fixed; simp) (by simp [ascii, List.IsPrefix])
      exact ⟨43, [], rfl, by decide, fwd_eq_no hm (p := .plus) (o := .plus) (fun s => by simp [token]) (fun _ => rfl) h0 h61⟩
    · exact ⟨43, [61], rfl, by decide, fwd_eq_yes hm (p := .plus) (o := .plus) (fun s => by simp [token])⟩
    · have h61 : c ≠ 61 := by rintro rfl; exact H (ascii "-=", .assign (.aug .minus)) (by unfold fixed; simp) (by simp [ascii, List.IsPrefix])
      exact ⟨45, [], rfl, by decide, fwd_eq_no hm (p := .minus) (o := .minus) (fun s => by simp [token]) (fun _ => rfl) h0 h61⟩
    · exact ⟨45, [61], rfl, by decide, fwd_eq_yes hm (p := .minus) (o := .minus) (fun s => by simp [token])⟩
    · have h61 : c ≠ 61 := by rintro rfl; exact H (ascii "*=", .assign (.aug .times)) (by unfold fixed; simp) (by simp [ascii, List.IsPrefix])
      have hD : c ≠ 42 := by rintro rfl; exact H (ascii "**", .pow) (by unfold fixed; simp) (by simp [ascii, List.IsPrefix])
      exact ⟨42, [], rfl, by decide, fwd_two_no hm (e := 42) (p := .mulop .times) (o := .times) (p' := .pow) (o' := .pow) (fun s => by simp [token]) (fun _ => rfl) h0 hD h61⟩
    · exact ⟨42, [61], rfl, by decide, fwd_two_eq hm (e := 42) (p := .mulop .times) (o := .times) (p' := .pow) (o' := .pow) (fun s => by simp [token]) (by decide)⟩
    · have h61 : c ≠ 61 := by rintro rfl; exact H (ascii "**=", .assign (.aug .pow)) (by unfold fixed; simp) (by simp [ascii, List.IsPrefix])
      exact ⟨42, [42], rfl, by decide, fwd_two_two hm (e := 42) (p := .mulop .times) (o := .times) (p' := .pow) (o' := .pow) (fun s => by simp [token]) (fun _ => rfl) (by decide) (by decide) h0 h61⟩
    · exact ⟨42, [42, 61], rfl, by decide, fwd_two_two_eq hm (e := 42) (p := .mulop .times) (o := .times) (p' := .pow) (o' := .pow) (fun s => by simp [token]) (by decide) (by decide)⟩
    · have h61 : c ≠ 61 := by rintro rfl; exact H (ascii "/=", .assign (.aug .divide)) (by unfold fixed; simp) (by simp [ascii, List.IsPrefix])
      have hD : c ≠ 47 := by rintro rfl; exact H (ascii "//", .mulop .div) (by unfold fixed; simp) (by simp [ascii, List.IsPrefix])
      exact ⟨47, [], rfl, by decide, fwd_two_no hm (e := 47) (p := .mulop .divide) (o := .divide) (p' := .mulop .div) (o' := .div) (fun s => by simp [token]) (fun _ => rfl) h0 hD h61⟩
    · exact ⟨47, [61], rfl, by decide, fwd_two_eq hm (e := 47) (p := .mulop .divide) (o := .divide) (p' := .mulop .div) (o' := .div) (fun s => by simp [token]) (by decide)⟩
    · have h61 : c ≠ 61 := by rintro rfl; exact H (ascii "//=", .assign (.aug .div)) (by unfold fixed; simp) (by simp [ascii, List.IsPrefix])
      exact ⟨47, [47], rfl, by decide, fwd_two_two hm (e := 47) (p := .mulop .divide) (o := .divide) (p' := .mulop .div) (o' := .div) (fun s => by simp [token]) (fun _ => rfl) (by decide) (by decide) h0 h61⟩
    · exact ⟨47, [47, 61], rfl, by decide, fwd_two_two_eq hm (e := 47) (p := .mulop .divide) (o := .divide) (p' := .mulop .div) (o' := .div) (fun s => by simp [token]) (by decide) (by decide)⟩
    · have h61 : c ≠ 61 := by rintro rfl; exact H (ascii "%=", .assign (.aug .mod)) (by unfold fixed; simp) (by simp [ascii, List.IsPrefix])
      exact ⟨37, [], rfl, by decide, fwd_eq_no hm (p := .mulop .mod) (o := .mod) (fun s => by simp [token]) (fun _ => rfl) h0 h61⟩
    · exact ⟨37, [61], rfl, by decide, fwd_eq_yes hm (p := .mulop .mod) (o := .mod) (fun s => by simp [token])⟩
    · have h61 : c ≠ 61 := by rintro rfl; exact H (ascii "&=", .assign (.aug .land)) (by unfold fixed; simp) (by simp [ascii, List.IsPrefix])
      exact ⟨38, [], rfl, by decide, fwd_eq_no hm (p := .land) (o := .land) (fun s => by simp [token]) (fun _ => rfl) h0 h61⟩
    · exact ⟨38, [61], rfl, by decide, fwd_eq_yes hm (p := .land) (o := .land) (fun s => by simp [token])⟩
    · have h61 : c ≠ 61 := by rintro rfl; exact H (ascii "|=", .assign (.aug .lor)) (by unfold fixed; simp) (by simp [ascii, List.IsPrefix])
      exact ⟨124, [], rfl, by decide, fwd_eq_no hm (p := .lor) (o := .lor) (fun s => by simp [token]) (fun _ => rfl) h0 h61⟩
    · exact ⟨124, [61], rfl, by decide, fwd_eq_yes hm (p := .lor) (o := .lor) (fun s => by simp [token])⟩
    · have h61 : c ≠ 61 := by rintro rfl; exact H (ascii "^=", .assign (.aug .lxor)) (by unfold fixed; simp) (by simp [ascii, List.IsPrefix])
      exact ⟨94, [], rfl, by decide, fwd_eq_no hm (p := .lxor) (o := .lxor) (fun s => by simp [token]) (fun _ => rfl) h0 h61⟩
    · exact ⟨94, [61], rfl, by decide, fwd_eq_yes hm (p := .lxor) (o := .lxor) (fun s => by simp [token])⟩
    · have h61 : c ≠ 61 := by rintro rfl; exact H (ascii "<=", .cmpop (.cmp .le)) (by unfold fixed; simp) (by simp [ascii, List.IsPrefix])
      have hD : c ≠ 60 := by rintro rfl; exact H (ascii "<<", .shift .lshift) (by unfold fixed; simp) (by simp [ascii, List.IsPrefix])
      exact ⟨60, [], rfl, by decide, fwd_angle_no hm (o := .lshift) (q := .lt) (q' := .le) (fun s => by simp [token]) h0 h61 hD⟩
    · exact ⟨60, [61], rfl, by decide, fwd_angle_eq hm (o := .lshift) (q := .lt) (q' := .le) (fun s => by simp [token]) (by decide)⟩
    · have h61 : c ≠ 61 := by rintro rfl; exact H (ascii "<<=", .assign (.aug .lshift)) (by unfold fixed; simp) (by simp [ascii, List.IsPrefix])
      exact ⟨60, [60], rfl, by decide, fwd_angle_two hm (o := .lshift) (q := .lt) (q' := .le) (fun s => by simp [token]) (by decide) (by decide) h0 h61⟩
    · exact ⟨60, [60, 61], rfl, by decide, fwd_angle_two_eq hm (o := .lshift) (q := .lt) (q' := .le) (fun s => by simp [token]) (by decide) (by decide)⟩
    · have h61 : c ≠ 61 := by rintro rfl; exact H (ascii ">=", .cmpop (.cmp .ge)) (by unfold fixed; simp) (by simp [ascii, List.IsPrefix])
      have hD : c ≠ 62 := by rintro rfl; exact H (ascii ">>", .shift .rshift) (by unfold fixed; simp) (by simp [ascii, List.IsPrefix])
      exact ⟨62, [], rfl, by decide, fwd_angle_no hm (o := .rshift) (q := .gt) (q' := .ge) (fun s => by simp [token]) h0 h61 hD⟩
    · exact ⟨62, [61], rfl, by decide, fwd_angle_eq hm (o := .rshift) (q := .gt) (q' := .ge) (fun s => by simp [token]) (by decide)⟩
    · have h61 : c ≠ 61 := by rintro rfl; exact H (ascii ">>=", .assign (.aug .rshift)) (by unfold fixed; simp) (by simp [ascii, List.IsPrefix])
      exact ⟨62, [62], rfl, by decide, fwd_angle_two hm (o := .rshift) (q := .gt) (q' := .ge) (fun s => by simp [token]) (by decide) (by decide) h0 h61⟩
    · exact ⟨62, [62, 61], rfl, by decide, fwd_angle_two_eq hm (o := .rshift) (q := .gt) (q' := .ge) (fun s => by simp [token]) (by decide) (by decide)⟩
    · have h61 : c ≠ 61 := by rintro rfl; exact H (ascii "==", .cmpop (.cmp .eq)) (by unfold fixed; simp) (by simp [ascii, List.IsPrefix])
      refine ⟨61, [], rfl, by decide, fun s h1 h2 _ => ?_⟩
      obtain ⟨s1, f1, f2, f3, f4⟩ := two_no (C := C) h1 h0 h61 (by rw [h2]; simp; omega) (fun s => (.cmpop (.cmp .eq), s)) (fun s => (.assign .plain, s))
      exact ⟨s1, by simp only [token]; simp [f1], f2, f4⟩
    · refine ⟨61, [61], rfl, by decide, fun s h1 h2 _ => ?_⟩
      obtain ⟨s1, f1, f2, f3, f4⟩ := two_yes (C := C) h1 (by decide) (by decide) (by rw [h2]; simp; omega) (fun s => (.cmpop (.cmp .eq), s)) (fun s => (.assign .plain, s))
      exact ⟨s1, by simp only [token]; simp [f1], f2, f4⟩
    · refine ⟨33, [61], rfl, by decide, fun s h1 h2 _ => ?_⟩
      obtain ⟨s1, f1, f2, f3, f4⟩ := two_yes (C := C) h1 (by decide) (by decide) (by rw [h2]; simp; omega) (fun s => (.cmpop (.cmp .ne), s)) (fun s => (.invalid, s))
      exact ⟨s1, by simp only [token]; simp [f1], f2, f4⟩
  · cases hd : C.dict with
    | false => rw [hd] at h'; simp at h'
    | true =>
    rw [hd] at h'
    simp only [if_true, List.mem_cons, Prod.mk.injEq, List.not_mem_nil, or_false] at h'
    rcases h' with ⟨rfl, rfl⟩ | ⟨rfl, rfl⟩
    · exact ⟨123, [], rfl, by decide, fun s h1 h2 h3 => ⟨lexOpen s, by simp [token, hd], h1, by rw [lexOpen, Nat.mod_eq_of_lt (by omega)]; exact .refl _⟩⟩
    · exact ⟨125, [], rfl, by decide, fun s h1 h2 h3 => ⟨lexClose s, by simp [token, hd], by unfold lexClose; split <;> exact h1, by unfold lexClose; split; exact .refl _; (have : s.ign = 0 := by omega); exact ⟨rfl, rfl, rfl, rfl, rfl, by simp [after, this]⟩⟩⟩

/-! ## Words -/

theorem kwOf_keywords {w : List Ch} {k : Kw} (h : (w, k) ∈ keywords) : kwOf w = some k ∧ Word w ∧ w.length < 12 ∧ k ≠ .is ∧ k ≠ .not := by
  unfold keywords at h
  simp only [List.mem_cons, Prod.mk.injEq, List.not_mem_nil, or_false] at h
  have hw : ∀ l : List Ch, (∃ c r, l = c :: r ∧ isName c true = true ∧ ∀ x ∈ r, isName x false = true) → Word l := by
    rintro l ⟨c, r, h1, h2, h3⟩
    exact ⟨c, r, h1, (isName_first c).1 h2, fun x hx => (isName_rest x).1 (h3 x hx)⟩
  rcases h with ⟨rfl, rfl⟩ | ⟨rfl, rfl⟩ | ⟨rfl, rfl⟩ | ⟨rfl, rfl⟩ | ⟨rfl, rfl⟩ | ⟨rfl, rfl⟩ | ⟨rfl, rfl⟩ | ⟨rfl, rfl⟩ | ⟨rfl, rfl⟩ | ⟨rfl, rfl⟩ | ⟨rfl, rfl⟩ |
    ⟨rfl, rfl⟩ | ⟨rfl, rfl⟩ | ⟨rfl, rfl⟩ | ⟨rfl, rfl⟩ | ⟨rfl, rfl⟩ | ⟨rfl, rfl⟩ | ⟨rfl, rfl⟩ | ⟨rfl, rfl⟩ <;>
  exact ⟨by decide +kernel, hw _ ⟨_, _, rfl, by decide +kernel, by decide +kernel⟩, by decide +kernel, by decide, by decide⟩

theorem kwOf_none {w : List Ch} (h : ∀ p ∈ keywords, w ≠ p.1) (h1 : w ≠ ascii "is") (h2 : w ≠ ascii "not") : kwOf w = none := by
  have e1 : ascii "is" = [105, 115] := by decide +kernel
  have e2 : ascii "not" = [110, 111, 116] := by decide +kernel
  rw [e1] at h1
  rw [e2] at h2
  have hk : keywords = [([100, 101, 102], .def_), ([100, 101, 108], .del), ([103, 108, 111, 98, 97, 108], .global), ([97, 115, 115, 101, 114, 116], .assert),
    ([105, 102], .if_), ([101, 108, 115, 101], .else_), ([101, 108, 105, 102], .elif), ([102, 111, 114], .for_), ([102, 114, 111, 109], .from_),
    ([119, 104, 105, 108, 101], .while_), ([99, 111, 110, 116, 105, 110, 117, 101], .continue_), ([112, 97, 115, 115], .pass),
    ([98, 114, 101, 97, 107], .break_), ([114, 101, 116, 117, 114, 110], .return_), ([105, 109, 112, 111, 114, 116], .import_),
    ([114, 97, 110, 103, 101], .range), ([111, 114], .or), ([97, 110, 100], .and), ([105, 110], .in_)] := by decide +kernel
  rw [hk] at h
  simp only [List.mem_cons, List.not_mem_nil, or_false, forall_eq_or_imp, forall_eq] at h
  simp [kwOf, h, h1, h2]

/-- The next token of a text. -/
theorem spells_lexes {C : Cfg} (hC : 12 ≤ C.maxTok) {w l rest : List Ch} {t : Tok} (h : Spells C w t l) {s : St} (hs : Ready s) (hg : s.ign < 255)
    (hp : s.pend = w ++ (l ++ rest)) (hnl : 10 ∈ l) (hz : 0 ∉ l ++ rest) :
    ∃ s' a b x, Lexes C s t s' ∧ Stays s s' (after s.ign t) ∧ l = List.replicate b 32 ++ x ∧ a ≤ b ∧ s'.pend = List.replicate a 32 ++ x ++ rest := by
  have same : ∀ {s' : St}, Lexes C s t s' → s'.pend = l ++ rest → Stays s s' (after s.ign t) →
      ∃ s' a b x, Lexes C s t s' ∧ Stays s s' (after s.ign t) ∧ l = List.replicate b 32 ++ x ∧ a ≤ b ∧ s'.pend = List.replicate a 32 ++ x ++ rest :=
    fun {s'} h1 h2 h3 => ⟨s', 0, 0, l, h1, h3, rfl, Nat.le_refl _, h2⟩
  have pre : ∀ {next y : List Ch}, 10 ∈ y → 10 ∉ next → (next <+: y ++ rest ↔ next <+: y) := by
    intro next y h1 h2
    refine ⟨fun h => ?_, fun h => h.trans (List.prefix_append _ _)⟩
    rcases List.prefix_or_prefix_of_prefix h (List.prefix_append y rest) with h' | h'
    · exact h'
    · exact absurd (h'.subset h1) h2
  have e1 : ascii "is" = [105, 115] := by decide +kernel
  have e2 : ascii "not" = [110, 111, 116] := by decide +kernel
  have e3 : ascii "in" = [105, 110] := by decide +kernel
  cases h
  case fixed c x H h =>
    obtain ⟨d, l, rfl, hd, f⟩ := fixed_fwd (C := C) (rest := x ++ rest) (by omega) h H (fun e => hz (by simp [e]))
    obtain ⟨s', g1, g2, g3⟩ := lexes_fwd (C := C) (by omega) hs hg (by simpa using hp) f hd
    exact same g1 (by simpa using g2) g3
  case keyword k c x hc h =>
    obtain ⟨h1, h2, h3, h4, h5⟩ := kwOf_keywords h
    obtain ⟨s', g1, g2, g3⟩ := C39_word C s hs w h2 c hc (x ++ rest) (by simpa using hp) (by omega) (by rw [h1]; simp [h4, h5])
    rw [wordTok, h1] at g1
    exact same g1 (by simpa using g2) g3
  case name c x hc h1 h2 h3 h4 h5 =>
    have hk := kwOf_none h2 h3 h4
    obtain ⟨s', g1, g2, g3⟩ := C39_word C s hs w h1 c hc (x ++ rest) (by simpa using hp) h5 (by rw [hk]; simp)
    rw [wordTok, hk] at g1
    exact same g1 (by simpa using g2) g3
  case number ip fp ep c x h1 h2 h3 =>
    obtain ⟨s', g1, g2, g3⟩ := C41_token C s hs ip fp ep h1 c (x ++ rest) (by simpa using hp) h2 h3
    exact same g1 (by simpa using g2) g3
  case string q w v hq hw hlen =>
    obtain ⟨s', g1, g2, g3⟩ := C40_literal C s hs q hq w v (l ++ rest) hw (by simpa using hp) (by omega) hlen
    exact same g1 g2 g3
  case is_ n c x hc hb hn =>
    rw [e2] at hn
    have hx : 10 ∈ c :: x := by
      rcases List.mem_append.1 hnl with h | h
      · exact absurd (List.eq_of_mem_replicate h) (by decide)
      · exact h
    have hnn : ¬ [110, 111, 116] <+: c :: (x ++ rest) := by
      rw [← List.cons_append, pre hx (by decide)]; exact hn
    obtain ⟨s', g1, g2, -, g4⟩ := lexes_trailing C hC s hs [105, 115] [110, 111, 116] (.cmpop .is) (.cmpop .isNot) (.inl ⟨rfl, rfl, rfl, rfl⟩) n (c :: (x ++ rest))
      (by simpa using hc) (by intro h d hd; simp at hd; subst hd; exact hb h) (by rw [← List.cons_append]; exact List.mem_append_left _ hx)
      (fun h => hz (by rw [List.append_assoc]; exact List.mem_append_right _ (by simpa using h))) (by rw [hp, e1]; simp)
    rw [if_neg hnn] at g1
    exact ⟨s', min n 1, n, c :: x, g1, g2, rfl, Nat.min_le_left _ _, by rw [g4 hnn]; simp⟩
  case not n c x hc hb hn =>
    rw [e3] at hn
    have hx : 10 ∈ c :: x := by
      rcases List.mem_append.1 hnl with h | h
      · exact absurd (List.eq_of_mem_replicate h) (by decide)
      · exact h
    have hnn : ¬ [105, 110] <+: c :: (x ++ rest) := by
      rw [← List.cons_append, pre hx (by decide)]; exact hn
    obtain ⟨s', g1, g2, -, g4⟩ := lexes_trailing C hC s hs [110, 111, 116] [105, 110] (.kw .not) (.cmpop .notIn) (.inr ⟨rfl, rfl, rfl, rfl⟩) n (c :: (x ++ rest))
      (by simpa using hc) (by intro h d hd; simp at hd; subst hd; exact hb h) (by rw [← List.cons_append]; exact List.mem_append_left _ hx)
      (fun h => hz (by rw [List.append_assoc]; exact List.mem_append_right _ (by simpa using h))) (by rw [hp, e2]; simp)
    rw [if_neg hnn] at g1
    exact ⟨s', min n 1, n, c :: x, g1, g2, rfl, Nat.min_le_left _ _, by rw [g4 hnn]; simp⟩
  case isNot n c x hc =>
    obtain ⟨s', g1, g2, g3, -⟩ := lexes_trailing C hC s hs [105, 115] [110, 111, 116] (.cmpop .is) (.cmpop .isNot) (.inl ⟨rfl, rfl, rfl, rfl⟩) (n + 1)
      ([110, 111, 116] ++ (c :: (x ++ rest))) (by simp) (by simp) (by simp at hnl ⊢; rcases hnl with h | h <;> simp [h]) (by simp at hz ⊢; exact hz)
      (by rw [hp, e1, e2]; simp)
    rw [if_pos (List.prefix_append _ _)] at g1
    exact same g1 (List.append_cancel_left (g3 (List.prefix_append _ _))) g2
  case notIn n c x hc =>
    obtain ⟨s', g1, g2, g3, -⟩ := lexes_trailing C hC s hs [110, 111, 116] [105, 110] (.kw .not) (.cmpop .notIn) (.inr ⟨rfl, rfl, rfl, rfl⟩) (n + 1)
      ([105, 110] ++ (c :: (x ++ rest))) (by simp) (by simp) (by simp at hnl ⊢; rcases hnl with h | h <;> simp [h]) (by simp at hz ⊢; exact hz)
      (by rw [hp, e2, e3]; simp)
    rw [if_pos (List.prefix_append _ _)] at g1
    exact same g1 (List.append_cancel_left (g3 (List.prefix_append _ _))) g2

/-! ## First characters -/

theorem spells_first {C : Cfg} {w l : List Ch} {t : Tok} (h : Spells C w t l) : ∃ c r, w = c :: r ∧ c ≠ 32 ∧ c ≠ 10 ∧ c ≠ 35 ∧ c ≠ 0 := by
  have good : ∀ {w : List Ch}, (match w with | c :: _ => decide (c ≠ 32 ∧ c ≠ 10 ∧ c ≠ 35 ∧ c ≠ 0) | [] => false) = true →
      ∃ c r, w = c :: r ∧ c ≠ 32 ∧ c ≠ 10 ∧ c ≠ 35 ∧ c ≠ 0 := by
    intro w h
    cases w with
    | nil => cases h
    | cons c r => exact ⟨c, r, rfl, of_decide_eq_true h⟩
  have word : ∀ {w : List Ch}, Word w → ∃ c r, w = c :: r ∧ c ≠ 32 ∧ c ≠ 10 ∧ c ≠ 35 ∧ c ≠ 0 := by
    intro w h
    obtain ⟨c, l, h1, h2, h3⟩ := word_text h
    obtain ⟨a, b, c', d⟩ := name_start h2
    exact ⟨c, l, h1, d, b, c', a⟩
  cases h
  case fixed H h =>
    have : ∀ b, (Spec.Spelling.fixed b).all (fun p => match p.1 with | c :: _ => decide (c ≠ 32 ∧ c ≠ 10 ∧ c ≠ 35 ∧ c ≠ 0) | [] => false) = true := by
      intro b; cases b <;> decide +kernel
    exact good (List.all_eq_true.1 (this _) _ h)
  case keyword h => exact word (kwOf_keywords h).2.1
  case name h _ _ _ _ => exact word h
  case number h _ _ =>
    obtain ⟨d, ds, rfl, hd, -⟩ := h.int
    have : ∀ x : UInt8, Digit x → x ≠ 32 ∧ x ≠ 10 ∧ x ≠ 35 ∧ x ≠ 0 := forall_byte (by decide +kernel)
    exact ⟨d, _, by simp; rfl, this d hd⟩
  case string q w v hq _ _ => exact ⟨q, w ++ [q], rfl, by rcases hq with rfl | rfl <;> decide⟩
  all_goals exact ⟨_, _, by rw [ascii]; rfl, by decide +kernel⟩

theorem text_strip {C : Cfg} {d n n' b : Nat} {x : List Ch} {ts : List (Tok × Nat)} (h : Text C d n (List.replicate b 32 ++ x) ts n') : Text C d n x ts n' := by
  induction b with
  | zero => exact h
  | succ b ih =>
    rw [List.replicate_succ, List.cons_append] at h
    generalize e : (32 :: (List.replicate b 32 ++ x) : List Ch) = l at h
    cases h
    case newline => cases e
    case comment => cases e
    case space h => cases e; exact ih h
    case joined => cases e
    case joinedComment => cases e
    case token h _ _ =>
      obtain ⟨c, r, rfl, hc, -⟩ := spells_first h
      simp only [List.cons_append, List.cons.injEq] at e
      exact absurd e.1.symm hc

theorem text_spaces {C : Cfg} {d n n' : Nat} (a : Nat) {x : List Ch} {ts : List (Tok × Nat)} (h : Text C d n x ts n') : Text C d n (List.replicate a 32 ++ x) ts n' := by
  induction a with
  | zero => exact h
  | succ b ih => exact .space ih

theorem text_newline {C : Cfg} {d n n' : Nat} {x : List Ch} {ts : List (Tok × Nat)} (h : Text C d n x ts n') : 10 ∈ x := by
  induction h <;> simp_all

end Snek.Lex
