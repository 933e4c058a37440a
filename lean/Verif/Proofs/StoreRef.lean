import Verif.Proofs.Store
/-! Lemmas about element references in memory. -/
namespace Snek.Store

variable {E : Env}

theorem search_take {α : Type} (cmp : α → α → Int) (data : List α) (p : α) (m : Nat) :
    ∀ n l r, r - l ≤ n → r ≤ m → Dict.search cmp (data.take m) p l r = Dict.search cmp data p l r := by
  intro n
  induction n with
  | zero =>
    intro l r h _
    rw [Dict.search, Dict.search, dif_neg (by omega), dif_neg (by omega)]
  | succ n ih =>
    intro l r h hm
    rw [Dict.search, Dict.search]
    by_cases hlr : l < r
    · rw [dif_pos hlr, dif_pos hlr]
      simp only []
      have : (data.take m)[(l + r) / 2 / 2 * 2]? = data[(l + r) / 2 / 2 * 2]? := List.getElem?_take_of_lt (by omega)
      rw [this]
      cases data[(l + r) / 2 / 2 * 2]? with
      | none => rfl
      | some x =>
        simp only []
        split
        · exact ih _ _ (by omega) hm
        · exact ih _ _ (by omega) (by omega)
    · rw [dif_neg hlr, dif_neg hlr]

theorem search_even {α : Type} (cmp : α → α → Int) (data : List α) (p : α) :
    ∀ n l r, r - l ≤ n → l % 2 = 0 → r % 2 = 0 → l ≤ r → r ≤ data.length →
      ∃ k, Dict.search cmp data p l r = some k ∧ l ≤ k ∧ k ≤ r ∧ k % 2 = 0 := by
  intro n
  induction n with
  | zero =>
    intro l r h h1 h2 h3 h4
    rw [Dict.search, dif_neg (by omega)]
    exact ⟨l, rfl, Nat.le_refl _, h3, h1⟩
  | succ n ih =>
    intro l r h h1 h2 h3 h4
    rw [Dict.search]
    by_cases hlr : l < r
    · rw [dif_pos hlr]
      simp only []
      rw [List.getElem?_eq_getElem (show (l + r) / 2 / 2 * 2 < data.length by omega)]
      simp only []
      split
      · obtain ⟨k, hk, k1, k2, k3⟩ := ih ((l + r) / 2 / 2 * 2 + 2) r (by omega) (by omega) h2 (by omega) h4
        exact ⟨k, hk, by omega, k2, k3⟩
      · obtain ⟨k, hk, k1, k2, k3⟩ := ih l ((l + r) / 2 / 2 * 2) (by omega) h1 (by omega) (by omega) (by omega)
        exact ⟨k, hk, k1, by omega, k3⟩
    · rw [dif_neg hlr]
      exact ⟨l, rfl, Nat.le_refl _, h3, h1⟩

/-- How a reference into a dictionary in memory relates to the one into its array of elements. -/
theorem ref_dict {s : S} (hs : Ok s) {i : Nat} {o : LObj} (h : s.lst i = some o) (ht : o.type = .dict) (hf : Fits E (o.size + 2))
    (p : Val) (add : Bool) :
    ∃ junk r s', ref E s i p add = some (r, s') ∧ s'.mem = s.mem ∧ s'.empty = s.empty ∧
      match Dict.ref (E.cmp s.objs) (E.isMut s.objs) junk (o.data.take o.size) p add with
      | .fault => False
      | .fail => r = none ∧ s' = s.fail
      | .slot d k =>
        (r = none ∧ s'.abort = true ∧ s'.objs = s.objs) ∨
        (r = some k ∧ k < d.length ∧ 0 < k ∧ s'.abort = s.abort ∧
          ∃ o', s'.objs = s.objs.set i (.list o') ∧ o'.type = .dict ∧ LOk o' ∧ o'.data.take o'.size = d) := by
  obtain ⟨o1, o2, o3⟩ := hs.1 i o h
  have hev := o3 ht
  have hlen : (o.data.take o.size).length = o.size := by rw [List.length_take]; omega
  obtain ⟨k, k1, -, k2, k3⟩ := search_even (E.cmp s.objs) o.data p o.size 0 o.size (by omega) rfl hev (by omega) (by omega)
  have hk' : Dict.search (E.cmp s.objs) (o.data.take o.size) p 0 (o.data.take o.size).length = some k := by
    rw [hlen, search_take _ _ _ o.size o.size 0 o.size (by omega) (Nat.le_refl _)]; exact k1
  simp only [ref, h, Option.bind_eq_bind, Option.bind_some, if_pos ht, k1, Option.pure_def, Dict.ref, hk']
  have hadd : ∃ junk r s', (resize E s i (E.off (o.size + 2))).bind (fun x =>
        if (!x.1) = true then some (none, x.2)
        else (x.2.lst i).bind fun o =>
          if o.size < k + 2 then none
          else (mmove o.data (k + 2) k (o.size - k - 2)).bind fun d => (mset d k p).bind fun d =>
            some (some (k + 1), x.2.setl i { o with data := d })) = some (r, s') ∧ s'.mem = s.mem ∧ s'.empty = s.empty ∧
      ((r = none ∧ s'.abort = true ∧ s'.objs = s.objs) ∨
        (r = some (k + 1) ∧ k + 1 < (Dict.insert junk (o.data.take o.size) k p).length ∧ 0 < k + 1 ∧ s'.abort = s.abort ∧
          ∃ o', s'.objs = s.objs.set i (.list o') ∧ o'.type = .dict ∧ LOk o' ∧
            o'.data.take o'.size = Dict.insert junk (o.data.take o.size) k p)) := by
    rw [hf.off]
    obtain ⟨b, s1, r1, r2, r3, ⟨rfl, r4, q, q1, q2, q3, q4, q5, q6, -⟩ | ⟨rfl, r4, r5⟩⟩ := resize_ok h (hs.1 i o h) hf
    · have hq : s1.lst i = some q := by rw [lst_congr (s := s.setl i q) q1]; exact lst_setl_self h
      rw [Nat.min_eq_right (by omega)] at q6
      have hm : mmove q.data (k + 2) k (q.size - k - 2) =
          some (q.data.take (k + 2) ++ (q.data.drop k).take (q.size - k - 2) ++ q.data.drop (k + 2 + (q.size - k - 2))) :=
        if_pos (by omega)
      have hml := mmove_len hm
      refine ⟨(q.data[o.size + 1]?).getD Val.zero, some (k + 1), s1.setl i { q with
        data := (q.data.take (k + 2) ++ (q.data.drop k).take (q.size - k - 2) ++ q.data.drop (k + 2 + (q.size - k - 2))).set k p }, ?_, r3, r2,
        .inr ⟨rfl, ?_, by omega, r4, { q with
        data := (q.data.take (k + 2) ++ (q.data.drop k).take (q.size - k - 2) ++ q.data.drop (k + 2 + (q.size - k - 2))).set k p },
        ?_, by rw [← ht, ← q2], ⟨?_, ?_, ?_⟩, ?_⟩⟩
      · rw [r1, Option.bind_some]
        simp only [Bool.not_true, Bool.false_eq_true, if_false, hq, Option.bind_some]
        rw [if_neg (by omega), hm, Option.bind_some, mset, if_pos (by omega), Option.bind_some]
      · simp only [Dict.insert, List.length_append, List.length_take, List.length_cons, List.length_nil, List.length_drop]; omega
      · rw [objs_setl, q1, List.set_set]
      · simp only []; omega
      · simp only [List.length_set]; rw [hml]; exact q5
      · intro _; simp only []; omega
      · apply List.ext_getElem?
        intro n
        have hq6 : ∀ n, n < o.size → q.data[n]? = o.data[n]? := fun n hn => by
          rw [← List.getElem?_take_of_lt hn, q6, List.getElem?_take_of_lt hn]
        have hin : (Dict.insert ((q.data[o.size + 1]?).getD Val.zero) (o.data.take o.size) k p)[n]? =
            if n < k then o.data[n]? else if n = k then some p else if n = k + 1 then q.data[k + 1]? else if n < o.size + 2 then o.data[n - 2]? else none := by
          unfold Dict.insert
          have e1 : ((o.data.take o.size).take k).length = k := by rw [List.length_take, hlen]; omega
          rw [List.append_assoc, List.getElem?_append, e1]
          split
          · rename_i hn; rw [List.getElem?_take_of_lt hn, List.getElem?_take_of_lt (by omega)]
          · rename_i hn
            split
            · rename_i hnk; subst hnk; simp
            · rename_i hnk
              split
              · rename_i hn1; subst hn1
                have : k + 1 - k = 1 := by omega
                rw [this]
                simp only [List.cons_append, List.getElem?_cons_succ, List.nil_append, List.getElem?_cons_zero]
                by_cases hks : k = o.size
                · subst hks
                  rw [List.getElem?_eq_none (l := List.take _ _) (by rw [hlen]; omega), Option.getD_none,
                    List.getElem?_eq_getElem (show o.size + 1 < q.data.length by omega), Option.getD_some]
                · rw [List.getElem?_take_of_lt (by omega), ← hq6 _ (by omega),
                    List.getElem?_eq_getElem (show k + 1 < q.data.length by omega), Option.getD_some]
              · rename_i hn1
                obtain ⟨m, rfl⟩ : ∃ m, n = k + 2 + m := ⟨n - (k + 2), by omega⟩
                have : k + 2 + m - k = m + 2 := by omega
                rw [this]
                simp only [List.cons_append, List.nil_append, List.getElem?_cons_succ, List.getElem?_drop]
                split
                · rename_i hm2
                  rw [List.getElem?_take_of_lt (by omega)]
                  congr 1; omega
                · exact List.getElem?_eq_none (by rw [hlen]; omega)
        rw [hin]
        by_cases hnn : n < q.size
        · rw [List.getElem?_take_of_lt hnn]
          simp only [List.getElem?_set]
          split
          · rename_i hkn; subst hkn
            simp only [Nat.lt_irrefl, if_false, if_true]
            rw [if_pos (by rw [hml]; omega)]
          · rename_i hkn
            rw [List.append_assoc, List.getElem?_append]
            have e2 : (q.data.take (k + 2)).length = k + 2 := by rw [List.length_take]; omega
            rw [e2]
            split
            · rename_i h2
              rw [List.getElem?_take_of_lt h2]
              split
              · exact hq6 _ (by omega)
              · rw [if_neg (by omega), if_pos (by omega)]; congr 1; omega
            · rename_i h2
              rw [if_neg (by omega), if_neg (by omega), if_neg (by omega), if_pos (by omega)]
              rw [List.getElem?_append_left (by rw [List.length_take, List.length_drop]; omega), List.getElem?_take_of_lt (by omega),
                List.getElem?_drop, ← hq6 _ (by omega)]
              congr 1; omega
        · rw [List.getElem?_eq_none (by simp only [List.length_take]; omega)]
          rw [if_neg (by omega), if_neg (by omega), if_neg (by omega), if_neg (by omega)]
    · exact ⟨Val.zero, none, s1, by rw [r1]; simp, r3, r2, .inl ⟨rfl, r4, r5⟩⟩
  by_cases hks : k < o.size
  · have hk2 : (o.data.take o.size)[k]? = some (o.data[k]'(by omega)) := by
      rw [List.getElem?_take_of_lt hks]; exact List.getElem?_eq_getElem (by omega)
    rw [if_pos hks, List.getElem?_eq_getElem (show k < o.data.length by omega), Option.map_some, Option.bind_some, hk2]
    simp only []
    by_cases hc : E.cmp s.objs p (o.data[k]'(by omega)) = 0
    · rw [if_pos (by simpa using hc)]
      refine ⟨Val.zero, _, _, rfl, rfl, rfl, ?_⟩
      rw [if_neg (by simpa using hc)]
      refine .inr ⟨rfl, by rw [hlen]; omega, by omega, rfl, o, ?_, ht, hs.1 i o h, rfl⟩
      have := setl_same h; rw [← objs_setl, this]
    · rw [if_neg (by simpa using hc)]
      simp only [ne_eq, hc, not_false_eq_true, if_true]
      cases add with
      | false => exact ⟨Val.zero, _, _, rfl, rfl, rfl, rfl, rfl⟩
      | true =>
        simp only [Bool.not_true, Bool.false_eq_true, if_false]
        split
        · rename_i hm; simp only [hm, if_true]; exact ⟨Val.zero, _, _, rfl, rfl, rfl, rfl, rfl⟩
        · rename_i hm; simp only [hm, Bool.false_eq_true, if_false]; exact hadd
  · have hk2 : (o.data.take o.size)[k]? = none := List.getElem?_eq_none (by omega)
    rw [if_neg hks, hk2]
    simp only [Bool.false_eq_true, if_false]
    cases add with
    | false => exact ⟨Val.zero, _, _, rfl, rfl, rfl, rfl, rfl⟩
    | true =>
      simp only [Bool.not_true, Bool.false_eq_true, if_false]
      split
      · rename_i hm; simp only [hm, if_true]; exact ⟨Val.zero, _, _, rfl, rfl, rfl, rfl, rfl⟩
      · rename_i hm; simp only [hm, Bool.false_eq_true, if_false]; exact hadd

end Snek.Store
