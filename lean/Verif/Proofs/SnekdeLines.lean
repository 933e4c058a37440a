import Verif.Proofs.SnekdeUndo
/-!
Up and down, and the indentation of a line.
-/
namespace Snek.Snekde
open Spec

/-- The line above, as a line of the text. -/
theorem above {t : Text} {p : Nat} {pre' l' l post : Text} {col c : Nat} (h : At t p (pre' ++ l' ++ ['\n']) l post col)
    (hf : pre' = [] ∨ pre'.getLast? = some '\n') (ho : '\n' ∉ l') (hc : c ≤ l'.length) :
    At t (pre'.length + c) pre' l' ('\n' :: (l ++ post)) c :=
  ⟨by rw [h.text]; simp, hf, ho, .inr rfl, hc, rfl⟩

theorem below {t : Text} {p : Nat} {pre l l' post : Text} {col c : Nat} (h : At t p pre l ('\n' :: (l' ++ post)) col)
    (ho : '\n' ∉ l') (hl : post = [] ∨ post.head? = some '\n') (hc : c ≤ l'.length) :
    At t (pre.length + l.length + 1 + c) (pre ++ l ++ ['\n']) l' post c :=
  ⟨by rw [h.text]; simp, .inr (by simp), ho, hl, hc, by simp; omega⟩

theorem join_snoc (ls : List Text) (l : Text) : joinNl (ls ++ [l]) = joinNl ls ++ l ++ ['\n'] := by simp [joinNl]

theorem up_above {e : Ed} {pre' l' l post : Text} {col : Nat} (h : At e.text e.point (pre' ++ l' ++ ['\n']) l post col)
    (hf : pre' = [] ∨ pre'.getLast? = some '\n') (ho : '\n' ∉ l') :
    At e.text (up e).point pre' l' ('\n' :: (l ++ post)) (min col l'.length) := by
  obtain ⟨ls, h1, rfl⟩ := joined hf
  have h1' : ∀ x ∈ ls ++ [l'], '\n' ∉ x := by
    intro x hx
    rcases List.mem_append.1 hx with hx | hx
    · exact h1 x hx
    · simp at hx; exact hx ▸ ho
  have hA := above h hf ho (Nat.min_le_right col l'.length)
  have hpl := h.place
  simp at hpl
  unfold up
  simp only [p2c_at h h1' (join_snoc ls l').symm]
  have hi : (((ls ++ [l']).length : Nat) : Int) - 1 = (ls.length : Int) := by simp
  rw [hi, c2p_at hA h1 rfl, if_neg (by omega)]
  exact hA

theorem up_first {e : Ed} {l post : Text} {col : Nat} (h : At e.text e.point [] l post col) : (up e).point = 0 := by
  have hpl := h.place
  have hw := h.width
  simp at hpl
  unfold up
  have hj : ([] : Text) = joinNl [] := rfl
  have h1 : ∀ x ∈ ([] : List Text), '\n' ∉ x := by simp
  simp only [p2c_at h h1 hj]
  rw [c2p_neg _ _ (by simp)]
  have := c2p_at h h1 hj col
  simp at this
  rw [this, if_pos (by omega)]
  have := c2p_at h h1 hj 0
  simpa using this

theorem down_below {e : Ed} {pre l l' post : Text} {col : Nat} (h : At e.text e.point pre l ('\n' :: (l' ++ post)) col)
    (ho : '\n' ∉ l') (hl : post = [] ∨ post.head? = some '\n') :
    At e.text (down e).point (pre ++ l ++ ['\n']) l' post (min col l'.length) := by
  obtain ⟨ls, h1, rfl⟩ := joined h.first
  have h1' : ∀ x ∈ ls ++ [l], '\n' ∉ x := by
    intro x hx
    rcases List.mem_append.1 hx with hx | hx
    · exact h1 x hx
    · simp at hx; exact hx ▸ h.one
  have hA := below h ho hl (Nat.min_le_right col l'.length)
  have hpl := h.place
  have hw := h.width
  unfold down
  simp only [p2c_at h h1 rfl]
  have hi : (ls.length : Int) + 1 = (((ls ++ [l]).length : Nat) : Int) := by simp
  rw [hi, c2p_at hA h1' (join_snoc ls l).symm]
  have hlen : (joinNl ls ++ l ++ ['\n']).length = (joinNl ls).length + l.length + 1 := by simp; omega
  rw [hlen, if_neg (by omega)]
  exact hA

theorem down_last {e : Ed} {pre l : Text} {col : Nat} (h : At e.text e.point pre l [] col) (hb : l.length ≤ 65536) :
    (down e).point = e.text.length := by
  obtain ⟨ls, h1, rfl⟩ := joined h.first
  have hpl := h.place
  have hw := h.width
  have hs : split e.text = ls ++ [l] := by
    rw [h.text, List.append_nil, split_join _ _ h1, split_one _ h.one]
  unfold down
  simp only [p2c_at h h1 rfl]
  rw [c2p_big _ _ (by rw [hs]; simp)]
  have hi : ((split e.text).length : Int) - 1 = (ls.length : Int) := by rw [hs]; simp
  rw [hi, c2p_at h h1 rfl, if_pos (by omega), c2p_at h h1 rfl]
  have := congrArg List.length h.text
  simp at this
  omega

theorem lead_spaces : ∀ (l post : Text), '\n' ∉ l → (post = [] ∨ post.head? = some '\n') → spaces (l ++ post) = lead l
  | [], post, _, h => by
    rcases h with rfl | h
    · rfl
    · cases post with
      | nil => rfl
      | cons c q => simp at h; subst h; simp [spaces, lead]
  | c :: l, post, hl, h => by
    simp only [List.mem_cons, not_or] at hl
    have := lead_spaces l post hl.2 h
    simp only [List.cons_append, spaces]
    by_cases hc : c = ' '
    · simp [hc, this, lead]
    · simp [hc, lead]

theorem indentAt_at {t : Text} {p : Nat} {pre l post : Text} {col : Nat} (h : At t p pre l post col) {ls : List Text}
    (hls : ∀ x ∈ ls, '\n' ∉ x) (hp : pre = joinNl ls) : indentAt t (ls.length : Int) = lead l := by
  unfold indentAt
  rw [c2p_at h hls hp, Nat.zero_min, Nat.add_zero, h.text, List.append_assoc, List.drop_append_of_le_length (Nat.le_refl _),
    List.drop_length, List.nil_append, lead_spaces l post h.one h.last]

/-- Going back over the spaces at the end of a line. -/
theorem back_line {t : Text} : ∀ (n : Nat) (pre l post : Text), l.length = n + 1 → t = pre ++ l ++ post →
    (pre = [] ∨ pre.getLast? = some '\n') → '\n' ∉ l →
    (t[back t (pre.length + n)]? = some ':' ↔ (l.reverse.dropWhile (fun x => decide (x = ' '))).head? = some ':')
  | n, pre, l, post, hn, ht, hf, ho => by
    obtain ⟨m, c, rfl⟩ : ∃ m c, l = m ++ [c] := by
      rcases List.eq_nil_or_concat l with rfl | ⟨m, c, h⟩
      · simp at hn
      · exact ⟨m, c, by simpa using h⟩
    simp at hn
    have hget : t[pre.length + n]? = some c := by
      rw [ht, ← hn]; simp
    by_cases hc : c = ' '
    · subst hc
      have hrev : ((m ++ [' ']).reverse.dropWhile (fun x => decide (x = ' '))) = m.reverse.dropWhile (fun x => decide (x = ' ')) := by simp
      rw [hrev]
      cases hk : pre.length + n with
      | zero =>
        have : m = [] := List.length_eq_zero_iff.1 (by omega)
        subst this
        rw [hk] at hget
        simp [back, hget]
      | succ k =>
        rw [hk] at hget
        have hstep : back t (k + 1) = back t k := by simp [back, hget]
        rw [hstep]
        cases n with
        | succ n' =>
          have e : k = pre.length + n' := by omega
          rw [e]
          exact back_line n' pre m (' ' :: post) (by omega) (by rw [ht]; simp) hf (by intro h; exact ho (by simp [h]))
        | zero =>
          have hm : m = [] := List.length_eq_zero_iff.1 (by omega)
          subst hm
          have hlast : t[k]? = some '\n' := by
            rcases hf with rfl | hf
            · simp at hk
            · rw [List.getLast?_eq_getElem?] at hf
              rw [ht, List.append_assoc, List.getElem?_append_left (by omega)]
              have : k = pre.length - 1 := by omega
              rw [this]; exact hf
          have hb : back t k = k := by
            cases k with
            | zero => rfl
            | succ k => simp [back, hlast]
          rw [hb, hlast]
          simp
    · have hrev : ((m ++ [c]).reverse.dropWhile (fun x => decide (x = ' '))) = c :: m.reverse := by simp [hc]
      rw [hrev]
      have hb : back t (pre.length + n) = pre.length + n := by
        cases hk : pre.length + n with
        | zero => rfl
        | succ k => rw [hk] at hget; simp [back, hget, hc]
      rw [hb, hget]
      simp

theorem lastCh_at {t : Text} {p : Nat} {pre l post : Text} {col : Nat} (h : At t p pre l post col) {ls : List Text}
    (hls : ∀ x ∈ ls, '\n' ∉ x) (hp : pre = joinNl ls) (hb : l.length ≤ 65536) (hne : pre ++ l ≠ []) :
    lastCh t (ls.length : Int) = some ':' ↔ (l.reverse.dropWhile (fun x => decide (x = ' '))).head? = some ':' := by
  unfold lastCh
  rw [c2p_at h hls hp, Nat.min_eq_right hb]
  have hpos : pre.length + l.length ≠ 0 := by
    intro h0
    apply hne
    apply List.length_eq_zero_iff.1
    rw [List.length_append]; exact h0
  simp only [if_neg hpos]
  cases hl : l with
  | nil =>
    subst hl
    have hf := h.first
    cases hpre : pre with
    | nil => simp [hpre] at hne
    | cons a q =>
      rw [hpre] at hf
      have hlast : t[pre.length - 1]? = some '\n' := by
        rcases hf with hf | hf
        · simp at hf
        · rw [List.getLast?_eq_getElem?] at hf
          rw [h.text, List.append_nil, List.getElem?_append_left (by rw [hpre]; simp), hpre]; exact hf
      have hbk : back t (pre.length - 1) = pre.length - 1 := by
        cases hk : pre.length - 1 with
        | zero => rfl
        | succ k => rw [hk] at hlast; simp [back, hlast]
      rw [← hpre]
      simp only [List.length_nil, Nat.add_zero]
      rw [hbk, hlast]
      simp
  | cons a q =>
    have := back_line (t := t) (l.length - 1) pre l post (by rw [hl]; simp) h.text h.first h.one
    have e : pre.length + (a :: q).length - 1 = pre.length + (l.length - 1) := by rw [hl]; simp
    rw [e, this, hl]

theorem bol_at {e : Ed} {pre l post : Text} {col : Nat} (h : At e.text e.point pre l post col) : bol e = { e with point := pre.length } := by
  obtain ⟨ls, h1, hp⟩ := joined h.first
  unfold bol
  rw [p2c_at h h1 hp, c2p_at h h1 hp]
  simp

/-- Indenting a line that is not indented more than is wanted. -/
theorem indent_at {e : Ed} {pre l post : Text} {col : Nat} (h : At e.text e.point pre l post col) {want : Nat} (hw : lead l ≤ want) :
    Indented e.text pre want (indent e want).text ∧ (indent e want).point = pre.length + want := by
  obtain ⟨rest, hr, hr'⟩ := spaces_eq (l ++ post)
  rw [lead_spaces l post h.one h.last] at hr
  have hdrop : e.text.drop pre.length = l ++ post := by
    rw [h.text, List.append_assoc, List.drop_append_of_le_length (Nat.le_refl _), List.drop_length, List.nil_append]
  have htext : e.text = pre ++ List.replicate (lead l) ' ' ++ rest := by
    rw [h.text, List.append_assoc, hr, List.append_assoc]
  unfold indent
  rw [bol_at h]
  simp only [hdrop, lead_spaces l post h.one h.last]
  by_cases hlt : lead l < want
  · rw [if_pos hlt]
    refine ⟨⟨lead l, rest, htext, hr', ?_⟩, ?_⟩
    · simp only [insertAtPoint, insert, pushUndo]
      have hlen : (pre ++ List.replicate (lead l) ' ').length = pre.length + lead l := by simp
      rw [htext, ← hlen, List.take_left, List.drop_left, List.append_assoc pre, List.replicate_append_replicate]
      congr 3; omega
    · simp [insertAtPoint, insert, pushUndo]; omega
  · rw [if_neg hlt, if_neg (by omega)]
    have : want = lead l := by omega
    exact ⟨⟨lead l, rest, htext, hr', by rw [this]; exact htext⟩, by simp [this]⟩

theorem autoIndent_at {e : Ed} {pre' l' l post : Text} {col : Nat} (h : At e.text e.point (pre' ++ l' ++ ['\n']) l post col)
    (hf : pre' = [] ∨ pre'.getLast? = some '\n') (ho : '\n' ∉ l') (hb : l'.length ≤ 65536) (hne : pre' ++ l' ≠ []) :
    autoIndent e = indent e (wanted l') := by
  obtain ⟨ls, h1, rfl⟩ := joined hf
  have h1' : ∀ x ∈ ls ++ [l'], '\n' ∉ x := by
    intro x hx
    rcases List.mem_append.1 hx with hx | hx
    · exact h1 x hx
    · simp at hx; exact hx ▸ ho
  have hA := above h hf ho (Nat.zero_le l'.length)
  unfold autoIndent
  simp only [p2c_at h h1' (join_snoc ls l').symm]
  have hi : (((ls ++ [l']).length : Nat) : Int) - 1 = (ls.length : Int) := by simp
  have hpos : (((ls ++ [l']).length : Nat) : Int) > 0 := by simp
  rw [if_pos hpos, hi, indentAt_at hA h1 rfl]
  have hlc := lastCh_at hA h1 rfl hb hne
  unfold wanted
  by_cases hcol : lastCh e.text (ls.length : Int) = some ':'
  · rw [if_pos hcol, if_pos (hlc.1 hcol)]
  · rw [if_neg hcol, if_neg (fun hh => hcol (hlc.2 hh))]

end Snek.Snekde
