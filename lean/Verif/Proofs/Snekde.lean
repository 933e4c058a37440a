import Verif.Model.Snekde
import Verif.Spec.Snekde
/-!
Lines and places of a text: what `point_to_cursor` and `cursor_to_point` compute.
-/
namespace Snek.Snekde
open Spec

def joinNl (ls : List Text) : Text := ls.flatMap (· ++ ['\n'])

theorem split_ne (t : Text) : split t ≠ [] := by
  cases t with
  | nil => simp [split]
  | cons c t => simp only [split]; split; · simp
                split <;> simp

theorem split_cons_ne {c : Char} (h : c ≠ '\n') {t s : Text} {ss : List Text} (ht : split t = s :: ss) :
    split (c :: t) = (c :: s) :: ss := by simp [split, h, ht]

theorem split_one : ∀ (l : Text), '\n' ∉ l → split l = [l]
  | [], _ => rfl
  | c :: l, h => by
    simp only [List.mem_cons, not_or] at h
    exact split_cons_ne (fun hc => h.1 hc.symm) (split_one l h.2)

theorem split_line (t : Text) : ∀ (l : Text), '\n' ∉ l → split (l ++ '\n' :: t) = l :: split t
  | [], _ => by simp [split]
  | c :: l, h => by
    simp only [List.mem_cons, not_or] at h
    exact split_cons_ne (fun hc => h.1 hc.symm) (split_line t l h.2)

theorem split_join (t : Text) : ∀ (ls : List Text), (∀ l ∈ ls, '\n' ∉ l) → split (joinNl ls ++ t) = ls ++ split t
  | [], _ => rfl
  | l :: ls, h => by
    have := split_line (joinNl ls ++ t) l (h l (by simp))
    simp only [joinNl, List.flatMap_cons, List.append_assoc, List.cons_append, List.nil_append] at this ⊢
    rw [this]
    have h2 := split_join t ls (fun x hx => h x (by simp [hx]))
    simp only [joinNl] at h2
    rw [h2]

theorem decomp : ∀ (t : Text), ∃ ls l, (∀ x ∈ ls, '\n' ∉ x) ∧ '\n' ∉ l ∧ t = joinNl ls ++ l
  | [] => ⟨[], [], by simp, by simp, rfl⟩
  | c :: t => by
    obtain ⟨ls, l, h1, h2, h3⟩ := decomp t
    by_cases hc : c = '\n'
    · refine ⟨[] :: ls, l, ?_, h2, by simp [joinNl, hc, h3]⟩
      intro x hx
      rcases List.mem_cons.1 hx with rfl | hx
      · simp
      · exact h1 x hx
    · cases ls with
      | nil => exact ⟨[], c :: l, by simp, by simp [h2, Ne.symm hc], by simp [joinNl, h3]⟩
      | cons x ls =>
        refine ⟨(c :: x) :: ls, l, ?_, h2, by simp [joinNl, h3]⟩
        intro y hy
        rcases List.mem_cons.1 hy with rfl | hy
        · simp [Ne.symm hc, h1 x (by simp)]
        · exact h1 y (by simp [hy])

theorem joined {pre : Text} (h : pre = [] ∨ pre.getLast? = some '\n') :
    ∃ ls, (∀ x ∈ ls, '\n' ∉ x) ∧ pre = joinNl ls := by
  obtain ⟨ls, l, h1, h2, h3⟩ := decomp pre
  rcases h with h | h
  · exact ⟨[], by simp, h⟩
  · cases hl : l.getLast? with
    | none => rw [List.getLast?_eq_none_iff] at hl; subst hl; exact ⟨ls, h1, by simpa using h3⟩
    | some c =>
      rw [h3, List.getLast?_append, hl] at h
      simp at h
      subst h
      exact absurd (List.mem_of_getLast? hl) h2

theorem joinNl_ends (ls : List Text) : joinNl ls = [] ∨ (joinNl ls).getLast? = some '\n' := by
  rcases List.eq_nil_or_concat ls with rfl | ⟨xs, x, rfl⟩
  · exact .inl rfl
  · right; simp [joinNl]

theorem fold_lines (l : Text) : ∀ (ls : List Text) (c : Nat) (k : Int),
    (ls ++ [l]).foldl (fun (p : Nat × Int) s => (s.length, p.2 + 1)) (c, k) = (l.length, k + ls.length + 1)
  | [], c, k => by simp
  | x :: ls, c, k => by
    simp only [List.cons_append, List.foldl_cons]
    rw [fold_lines l ls]
    simp; omega

theorem walk_lines (col : Nat) (l : Text) (rest : List Text) : ∀ (ls : List Text) (bol : Nat) (line : Int) (pt : Nat),
    walk col (line + ls.length) (ls ++ l :: rest) bol line pt = bol + (joinNl ls).length + min col l.length
  | [], bol, line, pt => by simp [walk, joinNl]
  | x :: ls, bol, line, pt => by
    have h : ¬ line = line + ((x :: ls).length : Nat) := by simp; omega
    simp only [List.cons_append, walk, if_neg h]
    have e : line + (((x :: ls).length : Nat) : Int) = (line + 1) + ((ls.length : Nat) : Int) := by simp; omega
    rw [e, walk_lines col l rest ls]
    simp [joinNl]; omega

theorem take_at {t : Text} {p : Nat} {pre l post : Text} {col : Nat} (h : At t p pre l post col) :
    t.take p = pre ++ l.take col := by
  rw [h.text, h.place, List.append_assoc, List.take_append, List.take_of_length_le (by omega), Nat.add_sub_cancel_left,
    List.take_append_of_le_length h.width]

theorem drop_at {t : Text} {p : Nat} {pre l post : Text} {col : Nat} (h : At t p pre l post col) :
    t.drop p = l.drop col ++ post := by
  rw [h.text, h.place, List.append_assoc, List.drop_append, List.drop_of_length_le (by omega), Nat.add_sub_cancel_left,
    List.drop_append_of_le_length h.width]; rfl

theorem le_at {t : Text} {p : Nat} {pre l post : Text} {col : Nat} (h : At t p pre l post col) : p ≤ t.length := by
  have := h.width; rw [h.text, h.place]; simp; omega

theorem not_mem_take {l : Text} (h : '\n' ∉ l) (n : Nat) : '\n' ∉ l.take n := fun hm => h (List.mem_of_mem_take hm)
theorem not_mem_drop {l : Text} (h : '\n' ∉ l) (n : Nat) : '\n' ∉ l.drop n := fun hm => h (List.mem_of_mem_drop hm)

theorem p2c_at {t : Text} {p : Nat} {pre l post : Text} {col : Nat} (h : At t p pre l post col) {ls : List Text}
    (hls : ∀ x ∈ ls, '\n' ∉ x) (hp : pre = joinNl ls) : pointToCursor t p = (col, (ls.length : Int)) := by
  have hw := h.width
  unfold pointToCursor
  rw [take_at h, hp, split_join _ _ hls, split_one _ (not_mem_take h.one col), fold_lines]
  ext1
  · simp; omega
  · simp only []; omega

theorem split_tail {l post : Text} (h : '\n' ∉ l) (hp : post = [] ∨ post.head? = some '\n') :
    ∃ rest, split (l ++ post) = l :: rest := by
  cases post with
  | nil => exact ⟨[], by simpa using split_one l h⟩
  | cons c post =>
    simp at hp
    subst hp
    exact ⟨_, split_line post l h⟩

theorem c2p_at {t : Text} {p : Nat} {pre l post : Text} {col : Nat} (h : At t p pre l post col) {ls : List Text}
    (hls : ∀ x ∈ ls, '\n' ∉ x) (hp : pre = joinNl ls) (c : Nat) :
    cursorToPoint t c (ls.length : Int) = pre.length + min c l.length := by
  obtain ⟨rest, hr⟩ := split_tail h.one h.last
  have hs : split t = ls ++ l :: rest := by rw [h.text, hp, List.append_assoc, split_join _ _ hls, hr]
  unfold cursorToPoint
  have h1 : ¬ ((ls.length : Int) < 0) := by omega
  have h2 : ¬ ((ls.length : Int) ≥ ((split t).length : Int)) := by rw [hs]; simp; omega
  simp only [if_neg h1, if_neg h2]
  have := walk_lines c l rest ls 0 0 0
  rw [Int.zero_add] at this
  rw [hs, this, hp]; omega

theorem c2p_neg (t : Text) (c : Nat) {k : Int} (hk : k < 0) : cursorToPoint t c k = cursorToPoint t c 0 := by
  have : (0 : Int) < ((split t).length : Int) := by
    have := List.length_pos_iff.2 (split_ne t); omega
  unfold cursorToPoint
  simp only [if_pos hk]
  rw [if_neg (by omega : ¬ (0 : Int) < 0), if_neg (by omega)]

theorem c2p_big (t : Text) (c : Nat) {k : Int} (hk : ((split t).length : Int) ≤ k) :
    cursorToPoint t c k = cursorToPoint t c (((split t).length : Int) - 1) := by
  have : (0 : Int) < ((split t).length : Int) := by
    have := List.length_pos_iff.2 (split_ne t); omega
  unfold cursorToPoint
  simp only []
  rw [if_neg (by omega : ¬ k < 0), if_pos (by omega), if_neg (by omega), if_neg (by omega)]

def total (ss : List Text) : Nat := (ss.map (·.length + 1)).sum

theorem total_split : ∀ t : Text, total (split t) = t.length + 1
  | [] => rfl
  | c :: t => by
    have ih := total_split t
    simp only [split]
    split
    · simp [total] at ih ⊢; omega
    · split
      · next s ss h => rw [h] at ih; simp [total] at ih ⊢; omega
      · next h => exact absurd h (split_ne t)

theorem walk_le (col : Nat) (cur : Int) : ∀ (ss : List Text) (bol : Nat) (line : Int) (pt : Nat), ss ≠ [] →
    walk col cur ss bol line pt + 1 ≤ bol + total ss
  | [], _, _, _, h => absurd rfl h
  | s :: ss, bol, line, pt, _ => by
    simp only [walk]
    split
    · simp [total]; omega
    · cases ss with
      | nil => simp [walk, total]; omega
      | cons x ss =>
        have := walk_le col cur (x :: ss) (bol + s.length + 1) (line + 1) (bol + min col s.length) (by simp)
        simp [total] at this ⊢; omega

theorem c2p_le (t : Text) (c : Nat) (k : Int) : cursorToPoint t c k ≤ t.length := by
  unfold cursorToPoint
  have := walk_le c (if k < 0 then 0 else if k ≥ ((split t).length : Int) then ((split t).length : Int) - 1 else k) (split t) 0 0 0 (split_ne t)
  rw [total_split] at this
  simp only [] at this ⊢
  omega

theorem takeWhile_all {l : Text} (h : '\n' ∉ l) : l.takeWhile (fun x => decide (x ≠ '\n')) = l := by
  induction l with
  | nil => rfl
  | cons c l ih =>
    simp only [List.mem_cons, not_or] at h
    rw [List.takeWhile_cons_of_pos (by simpa using Ne.symm h.1), ih h.2]

theorem cutAt : ∀ t : Text, ∃ b post, '\n' ∉ b ∧ (post = [] ∨ post.head? = some '\n') ∧ t = b ++ post
  | [] => ⟨[], [], by simp, by simp, rfl⟩
  | c :: t => by
    obtain ⟨b, post, h1, h2, h3⟩ := cutAt t
    by_cases hc : c = '\n'
    · exact ⟨[], c :: t, by simp, by simp [hc], rfl⟩
    · exact ⟨c :: b, post, by simp [h1, Ne.symm hc], h2, by simp [h3]⟩

/-- Every place of a text is a column of a line. -/
theorem at_ex (t : Text) {p : Nat} (hp : p ≤ t.length) :
    ∃ ls l post col, (∀ x ∈ ls, '\n' ∉ x) ∧ At t p (joinNl ls) l post col := by
  obtain ⟨ls, a, h1, h2, h3⟩ := decomp (t.take p)
  obtain ⟨b, post, hb, hq, hd⟩ := cutAt (t.drop p)
  refine ⟨ls, a ++ b, post, a.length, h1, ?_⟩
  have ht : t = joinNl ls ++ (a ++ b) ++ post := by
    rw [← List.take_append_drop p t, h3, hd]; simp
  refine ⟨ht, joinNl_ends ls, by simp [h2, hb], hq, by simp, ?_⟩
  · have := congrArg List.length h3
    simp at this
    omega

theorem head_at {s : Sheet} {pre l post : Text} {col : Nat} (h : At s.all s.before.length pre l post col) :
    s.head = l.take col := by
  have hb : s.before = pre ++ l.take col := by
    have := take_at h
    simpa [Sheet.all] using this
  unfold Sheet.head
  rw [hb]
  have hr : ((l.take col).reverse).takeWhile (fun x => decide (x ≠ '\n')) = (l.take col).reverse :=
    takeWhile_all (by simpa using not_mem_take h.one col)
  rw [List.reverse_append, List.takeWhile_append, hr]
  simp
  rcases h.first with rfl | hf
  · simp
  · have : pre.reverse.head? = some '\n' := by simpa using hf
    cases hq : pre.reverse with
    | nil => simp
    | cons c q => rw [hq] at this; simp at this; subst this; simp

theorem tail_at {s : Sheet} {pre l post : Text} {col : Nat} (h : At s.all s.before.length pre l post col) :
    s.tail = l.drop col := by
  have hb : s.after = l.drop col ++ post := by
    have := drop_at h
    simpa [Sheet.all] using this
  unfold Sheet.tail
  rw [hb, List.takeWhile_append, takeWhile_all (not_mem_drop h.one col)]
  simp
  rcases h.last with rfl | hf
  · simp
  · cases hq : post with
    | nil => simp
    | cons c q => rw [hq] at hf; simp at hf; subst hf; simp

theorem spaces_ge : ∀ (u v : Text), u.length ≤ spaces (u ++ v) ↔ u.all (fun x => decide (x = ' ')) = true
  | [], v => by simp
  | c :: u, v => by
    simp only [List.cons_append, spaces, List.length_cons, List.all_cons]
    by_cases hc : c = ' '
    · simp [hc, spaces_ge u v]
    · simp [hc]

theorem spaces_le : ∀ t : Text, spaces t ≤ t.length
  | [] => by simp [spaces]
  | c :: t => by simp only [spaces]; have := spaces_le t; split <;> simp <;> omega

theorem spaces_eq : ∀ t : Text, ∃ rest, t = List.replicate (spaces t) ' ' ++ rest ∧ rest.head? ≠ some ' '
  | [] => ⟨[], rfl, by simp⟩
  | c :: t => by
    obtain ⟨r, h1, h2⟩ := spaces_eq t
    by_cases hc : c = ' '
    · exact ⟨r, by simp [spaces, hc, List.replicate_succ]; exact h1, h2⟩
    · exact ⟨c :: t, by simp [spaces, hc], by simpa using hc⟩

end Snek.Snekde
