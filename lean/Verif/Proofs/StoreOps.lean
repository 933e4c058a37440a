import Verif.Proofs.StoreFrame
/-! Every container operation leaves immutable objects alone and memory well formed. -/
namespace Snek.Store

variable {E : Env} {Q : Nat → Prop} {c : Prop}

/-- Result of an operation begun in `s0`. -/
def Post (Q : Nat → Prop) (c : Prop) (s0 s : S) (r : Val) (s' : S) : Prop := RelQ Q c s0 s' ∧ Ty s s' ∧ (c → POk Q s' r)

theorem append_rel {s0 s s' : S} (h : RelQ Q c s0 s) {i j : Nat} {o : LObj} {r : Option Nat} (hi : s.lst i = some o) (ht : o.type ≠ .tuple)
    (hr : append E s i j = some (r, s')) : Post Q c s0 s (optList r) s' := by
  simp only [append, hi, Option.bind_eq_bind, Option.bind_some, Option.pure_def] at hr
  obtain ⟨b, h1, hr⟩ := Option.bind_eq_some_iff.1 hr
  obtain ⟨⟨ok, s1⟩, h2, hr⟩ := Option.bind_eq_some_iff.1 hr
  have hne : s.empty ≠ some i := fun he => by
    obtain ⟨q, hq, hq2, -⟩ := h.emp i he
    rw [hi] at hq; cases hq; exact ht hq2
  obtain ⟨k1, k2, k3⟩ := resize_rel h hi (.inr ht) hne h2
  obtain ⟨o1, m1, m2⟩ := k2.lst i o hi
  simp only at hr
  split at hr
  · cases hr; exact ⟨k1, k2, fun _ => vok_none _⟩
  · obtain ⟨src, h3, hr⟩ := Option.bind_eq_some_iff.1 hr
    obtain ⟨s2, h4, hr⟩ := Option.bind_eq_some_iff.1 hr
    cases hr
    obtain ⟨n1, n2, n3, o2, n4, -, -⟩ := poke_rel k1 m1 (.inr (by rw [m2]; exact ht)) (peek_words k1 h3) h4
    exact ⟨n1, k2.trans n2, fun _ => ⟨o2, n4⟩⟩

theorem plus_rel {s0 s s' : S} (h : RelQ Q c s0 s) {i j : Nat} {r : Option Nat}
    (hr : plus E s i j = some (r, s')) : Post Q c s0 s (optList r) s' := by
  simp only [plus, Option.bind_eq_bind, Option.pure_def] at hr
  obtain ⟨a, h1, hr⟩ := Option.bind_eq_some_iff.1 hr
  obtain ⟨b, h2, hr⟩ := Option.bind_eq_some_iff.1 hr
  obtain ⟨⟨r1, s1⟩, h3, hr⟩ := Option.bind_eq_some_iff.1 hr
  obtain ⟨k1, k2, k3⟩ := make_rel h h3
  cases r1 with
  | none => cases hr; exact ⟨k1, k2, fun _ => vok_none _⟩
  | some n =>
    obtain ⟨o, m1, m2, m3, m4⟩ := k3 n rfl
    simp only at hr
    obtain ⟨src, h4, hr⟩ := Option.bind_eq_some_iff.1 hr
    obtain ⟨s2, h5, hr⟩ := Option.bind_eq_some_iff.1 hr
    obtain ⟨src2, h6, hr⟩ := Option.bind_eq_some_iff.1 hr
    obtain ⟨s3, h7, hr⟩ := Option.bind_eq_some_iff.1 hr
    cases hr
    obtain ⟨n1, n2, n3, o2, n4, n5, n6⟩ := poke_rel k1 m1 (.inl m3) (peek_words k1 h4) h5
    have m3' : Fresh s0 n o2 := m3.imp id (fun h => List.length_eq_zero_iff.1 (by rw [n6, h]; rfl))
    obtain ⟨p1, p2, p3, o3, p4, -, -⟩ := poke_rel n1 n4 (.inl m3') (peek_words n1 h6) h7
    exact ⟨p1, k2.trans (n2.trans p2), fun _ => ⟨o3, p4⟩⟩

theorem timesLoop_rel {s0 s s' : S} (h : RelQ Q c s0 s) {n p : Nat} {src : List Val} {o : LObj} (hn : s.lst n = some o) (hf : Fresh s0 n o)
    (hsrc : c → ∀ v ∈ src, POk Q s v) (k : Nat) (hr : timesLoop s n p src k = some s') :
    RelQ Q c s0 s' ∧ Ty s s' ∧ ∃ o', s'.lst n = some o' := by
  induction k generalizing s p o with
  | zero => cases hr; exact ⟨h, .refl _, o, hn⟩
  | succ k ih =>
    simp only [timesLoop, Option.bind_eq_bind] at hr
    obtain ⟨s1, h1, hr⟩ := Option.bind_eq_some_iff.1 hr
    obtain ⟨n1, n2, n3, o2, n4, n5, n6⟩ := poke_rel h hn (.inl hf) hsrc h1
    obtain ⟨q1, q2, q3⟩ := ih n1 n4 (hf.imp id (fun h => List.length_eq_zero_iff.1 (by rw [n6, h]; rfl)))
      (fun hc v hv => n2.pok (hsrc hc v hv)) hr
    exact ⟨q1, n2.trans q2, q3⟩

theorem times_rel {s0 s s' : S} (h : RelQ Q c s0 s) {i : Nat} {n : Int} {r : Option Nat}
    (hr : times E s i n = some (r, s')) : Post Q c s0 s (optList r) s' := by
  simp only [times, Option.bind_eq_bind, Option.pure_def] at hr
  generalize (if n < 0 then 0 else n.toNat) = m at hr
  obtain ⟨a, h1, hr⟩ := Option.bind_eq_some_iff.1 hr
  obtain ⟨⟨r1, s1⟩, h3, hr⟩ := Option.bind_eq_some_iff.1 hr
  obtain ⟨k1, k2, k3⟩ := make_rel h h3
  cases r1 with
  | none => cases hr; exact ⟨k1, k2, fun _ => vok_none _⟩
  | some n =>
    obtain ⟨o, m1, m2, m3, m4⟩ := k3 n rfl
    simp only at hr
    split at hr
    · cases hr; exact ⟨k1, k2, fun _ => ⟨o, m1⟩⟩
    · obtain ⟨src, h4, hr⟩ := Option.bind_eq_some_iff.1 hr
      obtain ⟨s2, h5, hr⟩ := Option.bind_eq_some_iff.1 hr
      cases hr
      obtain ⟨p1, p2, p3⟩ := timesLoop_rel k1 m1 m3 (peek_words k1 h4) m h5
      exact ⟨p1, k2.trans p2, fun _ => p3⟩

/-- References: only a dictionary can change, and the state keeps its shape. -/
theorem ref_rel {s0 s s' : S} (h : RelQ Q c s0 s) {i : Nat} {p : Val} {add : Bool} {r : Option Nat} (hp : c → POk Q s p)
    (hr : ref E s i p add = some (r, s')) : RelQ Q c s0 s' ∧ Ty s s' := by
  simp only [ref, Option.bind_eq_bind, Option.pure_def] at hr
  obtain ⟨o, h1, hr⟩ := Option.bind_eq_some_iff.1 hr
  split at hr
  · rename_i ht
    obtain ⟨k, h2, hr⟩ := Option.bind_eq_some_iff.1 hr
    have hcont : ∀ found : Bool, (if found = true then some (some (k + 1), s)
        else if (!add) = true then some (none, s.fail)
        else if E.isMut s.objs p = true then some (none, s.fail)
        else (resize E s i (E.off (o.size + 2))).bind fun x =>
          if (!x.1) = true then some (none, x.2)
          else (x.2.lst i).bind fun o =>
            if o.size < k + 2 then none
            else (mmove o.data (k + 2) k (o.size - k - 2)).bind fun d => (mset d k p).bind fun d =>
              some (some (k + 1), x.2.setl i { o with data := d })) = some (r, s') → RelQ Q c s0 s' ∧ Ty s s' := by
      intro found hr
      split at hr
      · cases hr; exact ⟨h, .refl _⟩
      · split at hr
        · cases hr; exact ⟨h.fail, .fail s⟩
        · split at hr
          · cases hr; exact ⟨h.fail, .fail s⟩
          · obtain ⟨⟨ok, s1⟩, h3, hr⟩ := Option.bind_eq_some_iff.1 hr
            have htu : o.type ≠ .tuple := by rw [ht]; decide
            have hne : s.empty ≠ some i := fun he => by
              obtain ⟨q, hq, hq2, -⟩ := h.emp i he
              rw [h1] at hq; cases hq; exact htu hq2
            obtain ⟨k1, k2, k3⟩ := resize_rel h h1 (.inr htu) hne h3
            simp only at hr
            split at hr
            · cases hr; exact ⟨k1, k2⟩
            · obtain ⟨o1, h4, hr⟩ := Option.bind_eq_some_iff.1 hr
              split at hr
              · cases hr
              · obtain ⟨d, h5, hr⟩ := Option.bind_eq_some_iff.1 hr
                obtain ⟨d2, h6, hr⟩ := Option.bind_eq_some_iff.1 hr
                cases hr
                obtain ⟨o2, h7, h8⟩ := k2.lst i o h1
                rw [h4] at h7; cases h7
                refine ⟨k1.setl h4 rfl (.inr (by rw [h8]; exact htu)) (fun hc v hv => ?_) (fun he => absurd (k3 ▸ he) hne), k2.trans (.setl h4 rfl)⟩
                rcases mem_mset h6 hv with hv | hv
                · exact k1.words hc i o1 h4 v (mem_mmove h5 hv)
                · rw [hv]; exact k2.pok (hp hc)
    split at hr
    · obtain ⟨found, -, hr⟩ := Option.bind_eq_some_iff.1 hr
      exact hcont found hr
    · exact hcont false hr
  · have hs : ∀ b : Bool, RelQ Q c s0 (if b = true then s.fail else s) ∧ Ty s (if b = true then s.fail else s) := by
      intro b; cases b
      · exact ⟨h, .refl _⟩
      · exact ⟨h.fail, .fail s⟩
    obtain ⟨k1, k2⟩ := hs (soff E p).2
    generalize (if (soff E p).1 < 0 then E.off (o.size + (2 ^ E.A.offBits - E.off (-(soff E p).1).toNat)) else (soff E p).1.toNat) = k at hr
    split at hr
    · cases hr; exact ⟨k1.fail, k2.trans (.fail _)⟩
    · cases hr; exact ⟨k1, k2⟩

theorem get_rel {s0 s s' : S} (h : RelQ Q c s0 s) {i : Nat} {p r : Val} (hp : c → POk Q s p)
    (hr : get E s i p = some (r, s')) : Post Q c s0 s r s' := by
  simp only [get, Option.bind_eq_bind, Option.pure_def] at hr
  obtain ⟨⟨r1, s1⟩, h1, hr⟩ := Option.bind_eq_some_iff.1 hr
  obtain ⟨k1, k2⟩ := ref_rel h hp h1
  cases r1 with
  | none => cases hr; exact ⟨k1, k2, fun _ => vok_none _⟩
  | some k =>
    obtain ⟨o, h2, hr⟩ := Option.bind_eq_some_iff.1 hr
    obtain ⟨x, h3, hr⟩ := Option.bind_eq_some_iff.1 hr
    cases hr
    exact ⟨k1, k2, fun hc => k1.words hc i o h2 _ (List.mem_of_getElem? h3)⟩

theorem not_empty {s0 s : S} (h : RelQ Q c s0 s) {i : Nat} {o : LObj} (hi : s.lst i = some o) (ht : o.type ≠ .tuple) : s.empty ≠ some i :=
  fun he => by
    obtain ⟨q, hq, hq2, -⟩ := h.emp i he
    rw [hi] at hq; cases hq; exact ht hq2

theorem del_rel {s0 s s' : S} (h : RelQ Q c s0 s) {i : Nat} {p : Val} (hp : c → POk Q s p)
    (hr : del E s i p = some s') : RelQ Q c s0 s' ∧ Ty s s' := by
  simp only [del, Option.bind_eq_bind, Option.pure_def] at hr
  obtain ⟨⟨r1, s1⟩, h1, hr⟩ := Option.bind_eq_some_iff.1 hr
  obtain ⟨k1, k2⟩ := ref_rel h hp h1
  cases r1 with
  | none => cases hr; exact ⟨k1, k2⟩
  | some k =>
    obtain ⟨o, h2, hr⟩ := Option.bind_eq_some_iff.1 hr
    split at hr
    · cases hr; exact ⟨k1.fail, k2.trans (.fail _)⟩
    · rename_i ht
      obtain ⟨d, h3, hr⟩ := Option.bind_eq_some_iff.1 hr
      cases hr
      have htu : o.type ≠ .tuple := by rw [ht]; decide
      exact ⟨k1.setl h2 rfl (.inr htu) (fun hc v hv => k1.words hc i o h2 v (mem_mmove h3 hv)) (fun he => absurd he (not_empty k1 h2 htu)),
        k2.trans (.setl h2 rfl)⟩
    · rename_i ht
      obtain ⟨d, h3, hr⟩ := Option.bind_eq_some_iff.1 hr
      cases hr
      have htu : o.type ≠ .tuple := by rw [ht]; decide
      exact ⟨k1.setl h2 rfl (.inr htu) (fun hc v hv => k1.words hc i o h2 v (mem_mmove h3 hv)) (fun he => absurd he (not_empty k1 h2 htu)),
        k2.trans (.setl h2 rfl)⟩

theorem setSlot_rel {s0 s s' : S} (h : RelQ Q c s0 s) {i k : Nat} {v : Val} {o : LObj} (hi : s.lst i = some o) (hw : Wr s0 i o)
    (he : s.empty ≠ some i) (hv : c → POk Q s v)
    (hr : setSlot s i k v = some s') : RelQ Q c s0 s' ∧ Ty s s' ∧ s'.empty = s.empty := by
  simp only [setSlot, hi, Option.bind_eq_bind, Option.bind_some, Option.pure_def] at hr
  obtain ⟨d, h3, hr⟩ := Option.bind_eq_some_iff.1 hr
  cases hr
  refine ⟨h.setl hi rfl hw (fun hc x hx => ?_) (fun h => absurd h he), .setl hi rfl, rfl⟩
  rcases mem_mset h3 hx with hx | hx
  · exact h.words hc i o hi x hx
  · rw [hx]; exact hv hc

theorem immLoop_rel {s0 s s' : S} (h : RelQ Q c s0 s) {i : Nat} {l : List (Val × Val)} {o : LObj} (hi : s.lst i = some o) (ht : o.type ≠ .tuple)
    (hl : c → ∀ q ∈ l, POk Q s q.1 ∧ POk Q s q.2) (hr : immLoop E s i l = some s') : RelQ Q c s0 s' ∧ Ty s s' := by
  induction l generalizing s o with
  | nil => cases hr; exact ⟨h, .refl _⟩
  | cons q l ih =>
    obtain ⟨k, v⟩ := q
    simp only [immLoop, Option.bind_eq_bind] at hr
    obtain ⟨⟨r1, s1⟩, h1, hr⟩ := Option.bind_eq_some_iff.1 hr
    obtain ⟨k1, k2⟩ := ref_rel h (fun hc => (hl hc _ (List.mem_cons_self ..)).1) h1
    obtain ⟨o1, h2, h3⟩ := k2.lst i o hi
    have hl' : ∀ {s2}, Ty s s2 → c → ∀ q ∈ l, POk Q s2 q.1 ∧ POk Q s2 q.2 := fun ty hc q hq =>
      ⟨ty.pok (hl hc q (List.mem_cons_of_mem _ hq)).1, ty.pok (hl hc q (List.mem_cons_of_mem _ hq)).2⟩
    have ht1 : o1.type ≠ .tuple := by rw [h3]; exact ht
    cases r1 with
    | none =>
      obtain ⟨q1, q2⟩ := ih k1 h2 ht1 (hl' k2) hr
      exact ⟨q1, k2.trans q2⟩
    | some p =>
      obtain ⟨s2, h4, hr⟩ := Option.bind_eq_some_iff.1 hr
      obtain ⟨m1, m2, m3⟩ := setSlot_rel k1 h2 (.inr ht1) (not_empty k1 h2 ht1)
        (fun hc => k2.pok (hl hc _ (List.mem_cons_self ..)).2) h4
      obtain ⟨o2, h5, h6⟩ := m2.lst i o1 h2
      obtain ⟨q1, q2⟩ := ih m1 h5 (by rw [h6]; exact ht1) (hl' (k2.trans m2)) hr
      exact ⟨q1, k2.trans (m2.trans q2)⟩

theorem mem_pairs {l : List Val} {q : Val × Val} (h : q ∈ pairs l) : q.1 ∈ l ∧ q.2 ∈ l := by
  induction l using pairs.induct with
  | case1 k v l ih =>
    rw [pairs] at h
    rcases List.mem_cons.1 h with rfl | h
    · simp
    · have := ih h; simp [this.1, this.2]
  | case2 l hl =>
    rw [pairs] at h
    · cases h
    · exact hl

theorem imm_rel {s0 s s' : S} (h : RelQ Q c s0 s) {t : LType} {l : List Val} {r : Val} (hl : c → ∀ v ∈ l, POk Q s v)
    (hr : imm E s t l = some (r, s')) : Post Q c s0 s r s' := by
  simp only [imm, Option.bind_eq_bind, Option.pure_def] at hr
  obtain ⟨⟨r1, s1⟩, h3, hr⟩ := Option.bind_eq_some_iff.1 hr
  obtain ⟨k1, k2, k3⟩ := make_rel h h3
  cases r1 with
  | none => cases hr; exact ⟨k1, k2, fun _ => vok_none _⟩
  | some n =>
    obtain ⟨o, m1, m2, m3, m4⟩ := k3 n rfl
    simp only at hr
    split at hr
    · rename_i ht
      obtain ⟨o1, h4, hr⟩ := Option.bind_eq_some_iff.1 hr
      obtain ⟨s2, h5, hr⟩ := Option.bind_eq_some_iff.1 hr
      cases hr
      rw [m1] at h4; cases h4
      have htu : o.type ≠ .tuple := by rw [m2, ht]; decide
      have k4 : RelQ Q c s0 (s1.setl n { o with size := 0 }) := k1.setl m1 rfl (.inr htu) (fun hc v hv => k1.words hc n o m1 v hv) m4
      have ty1 : Ty s1 (s1.setl n { o with size := 0 }) := .setl m1 rfl
      obtain ⟨q1, q2⟩ := immLoop_rel k4 (lst_setl_self m1) htu
        (fun hc q hq => ⟨(k2.trans ty1).pok (hl hc _ (mem_pairs hq).1), (k2.trans ty1).pok (hl hc _ (mem_pairs hq).2)⟩) h5
      obtain ⟨o3, q3, -⟩ := q2.lst n _ (lst_setl_self m1)
      exact ⟨q1, k2.trans (ty1.trans q2), fun _ => ⟨o3, q3⟩⟩
    · split at hr
      · cases hr; exact ⟨k1, k2, fun _ => ⟨o, m1⟩⟩
      · obtain ⟨s2, h5, hr⟩ := Option.bind_eq_some_iff.1 hr
        cases hr
        obtain ⟨n1, n2, -, o2, n4, -, -⟩ := poke_rel k1 m1 (.inl m3) (fun hc v hv => k2.pok (hl hc v hv)) h5
        exact ⟨n1, k2.trans n2, fun _ => ⟨o2, n4⟩⟩

theorem mem_sliceLoop {A : Arch} {α : Type} {data l : List α} {n p : Nat} {t : Int} (h : sliceLoop A data n p t = some l) {v : α} (hv : v ∈ l) :
    v ∈ data := by
  induction n generalizing p l with
  | zero => cases h; cases hv
  | succ n ih =>
    simp only [sliceLoop, Option.bind_eq_bind, Option.pure_def] at h
    obtain ⟨x, h1, h⟩ := Option.bind_eq_some_iff.1 h
    obtain ⟨rest, h2, h⟩ := Option.bind_eq_some_iff.1 h
    cases h
    rcases List.mem_cons.1 hv with rfl | hv
    · exact List.mem_of_getElem? h1
    · exact ih h2 hv

theorem listSlice_rel {s0 s s' : S} (h : RelQ Q c s0 s) {i : Nat} {t : SliceT} {r : Val}
    (hr : listSlice E s i t = some (r, s')) : Post Q c s0 s r s' := by
  simp only [listSlice, Option.bind_eq_bind, Option.pure_def] at hr
  obtain ⟨o, h1, hr⟩ := Option.bind_eq_some_iff.1 hr
  split at hr
  · cases hr; exact ⟨h, .refl _, fun _ => ⟨o, h1⟩⟩
  · obtain ⟨⟨r1, s1⟩, h3, hr⟩ := Option.bind_eq_some_iff.1 hr
    obtain ⟨k1, k2, k3⟩ := make_rel h h3
    cases r1 with
    | none => cases hr; exact ⟨k1, k2, fun _ => vok_none _⟩
    | some n =>
      obtain ⟨q, m1, m2, m3, m4⟩ := k3 n rfl
      simp only at hr
      obtain ⟨l, h4, hr⟩ := Option.bind_eq_some_iff.1 hr
      split at hr
      · cases hr; exact ⟨k1, k2, fun _ => ⟨q, m1⟩⟩
      · obtain ⟨s2, h5, hr⟩ := Option.bind_eq_some_iff.1 hr
        cases hr
        obtain ⟨n1, n2, -, o2, n4, -, -⟩ := poke_rel k1 m1 (.inl m3)
          (fun hc v hv => k2.pok (h.words hc i o h1 v (mem_sliceLoop h4 hv))) h5
        exact ⟨n1, k2.trans n2, fun _ => ⟨o2, n4⟩⟩

theorem newStr_rel {s0 s s' : S} (h : RelQ Q c s0 s) {b : List UInt8} {r : Val} (hr : newStr E s b = some (r, s')) : Post Q c s0 s r s' := by
  simp only [newStr] at hr
  split at hr
  · cases hr; exact ⟨h.ask _, .ask s _, fun _ => vok_none _⟩
  · split at hr
    · cases hr
    · cases hr
      refine ⟨(h.ask _).push (by rintro o ⟨⟩), (Ty.ask s _).trans (.push _ _), fun _ => ⟨b, ?_⟩⟩
      rw [bytes_iff]; simp [S.push]

theorem typeErr_rel {s0 s s' : S} (h : RelQ Q c s0 s) {r : Val} (hr : typeErr s = some (r, s')) : Post Q c s0 s r s' := by
  cases hr; exact ⟨h.fail, .fail s, fun _ => vok_none _⟩

theorem strGet_rel {s0 s s' : S} (h : RelQ Q c s0 s) {i : Nat} {p r : Val} (hr : strGet E s i p = some (r, s')) : Post Q c s0 s r s' := by
  simp only [strGet, Option.bind_eq_bind, Option.pure_def] at hr
  obtain ⟨b, h1, hr⟩ := Option.bind_eq_some_iff.1 hr
  have hs : ∀ b : Bool, RelQ Q c s0 (if b = true then s.fail else s) ∧ Ty s (if b = true then s.fail else s) := by
    intro b; cases b
    · exact ⟨h, .refl _⟩
    · exact ⟨h.fail, .fail s⟩
  obtain ⟨k1, k2⟩ := hs (soff E p).2
  generalize (if (soff E p).1 < 0 then E.off (b.length + (2 ^ E.A.offBits - E.off (-(soff E p).1).toNat)) else (soff E p).1.toNat) = k at hr
  split at hr
  · cases hr; exact ⟨k1.fail, k2.trans (.fail _), fun _ => vok_none _⟩
  · obtain ⟨x, h2, hr⟩ := Option.bind_eq_some_iff.1 hr
    obtain ⟨q1, q2, q3⟩ := newStr_rel k1 hr
    exact ⟨q1, k2.trans q2, q3⟩

theorem strSlice_rel {s0 s s' : S} (h : RelQ Q c s0 s) {i : Nat} {t : SliceT} {r : Val} (hr : strSlice E s i t = some (r, s')) : Post Q c s0 s r s' := by
  simp only [strSlice, Option.bind_eq_bind, Option.pure_def] at hr
  obtain ⟨b, h1, hr⟩ := Option.bind_eq_some_iff.1 hr
  split at hr
  · cases hr; exact ⟨h, .refl _, fun _ => ⟨b, h1⟩⟩
  · obtain ⟨x, h2, hr⟩ := Option.bind_eq_some_iff.1 hr
    exact newStr_rel h hr

theorem index_rel {s0 s s' : S} (h : RelQ Q c s0 s) {a b r : Val} (hb : c → POk Q s b) (hr : index E s a b = some (r, s')) : Post Q c s0 s r s' := by
  unfold index at hr
  split at hr
  · exact get_rel h hb hr
  · exact strGet_rel h hr
  · exact typeErr_rel h hr

theorem arithTimes_rel {s0 s s' : S} (h : RelQ Q c s0 s) {a b r : Val} (hr : arithTimes E s a b = some (r, s')) : Post Q c s0 s r s' := by
  unfold arithTimes at hr
  split at hr
  · simp only at hr
    split at hr
    · cases hr; exact ⟨h, .refl _, fun _ => vok_none _⟩
    · split at hr
      · simp only [Option.bind_eq_bind, Option.pure_def] at hr
        obtain ⟨o, h1, hr⟩ := Option.bind_eq_some_iff.1 hr
        split at hr
        · exact typeErr_rel h hr
        · obtain ⟨⟨q, s1⟩, h2, hr⟩ := Option.bind_eq_some_iff.1 hr
          cases hr
          exact times_rel h h2
      · simp only [strTimes, Option.bind_eq_bind] at hr
        obtain ⟨o, h1, hr⟩ := Option.bind_eq_some_iff.1 hr
        exact newStr_rel h hr
      · exact typeErr_rel h hr
  · exact typeErr_rel h hr

theorem arith_rel {s0 s s' : S} (h : RelQ Q c s0 s) {op : BinOp} {ip : Bool} {a b r : Val} (hr : arith E op ip a b s = some (r, s')) :
    Post Q c s0 s r s' := by
  unfold arith at hr
  split at hr
  · split at hr
    · cases hr; exact ⟨h, .refl _, fun _ => trivial⟩
    · cases hr; exact ⟨h.fail, .fail s, fun _ => trivial⟩
    · cases hr; exact ⟨h, .refl _, fun _ => trivial⟩
  · split at hr
    · split at hr
      · simp only [strCat, Option.bind_eq_bind] at hr
        obtain ⟨x, h1, hr⟩ := Option.bind_eq_some_iff.1 hr
        obtain ⟨y, h2, hr⟩ := Option.bind_eq_some_iff.1 hr
        exact newStr_rel h hr
      · simp only [Option.bind_eq_bind, Option.pure_def] at hr
        obtain ⟨x, h1, hr⟩ := Option.bind_eq_some_iff.1 hr
        obtain ⟨y, h2, hr⟩ := Option.bind_eq_some_iff.1 hr
        split at hr
        · split at hr
          · rename_i hro
            obtain ⟨⟨q, s1⟩, h3, hr⟩ := Option.bind_eq_some_iff.1 hr
            cases hr
            refine append_rel h h1 (fun ht => ?_) h3
            rw [ht] at hro; simp [LType.readonly] at hro
          · obtain ⟨⟨q, s1⟩, h3, hr⟩ := Option.bind_eq_some_iff.1 hr
            cases hr
            exact plus_rel h h3
        · exact typeErr_rel h hr
      · exact typeErr_rel h hr
    · split at hr <;> exact arithTimes_rel h hr
    · split at hr
      · simp only [Option.bind_eq_bind] at hr
        obtain ⟨x, h1, hr⟩ := Option.bind_eq_some_iff.1 hr
        split at hr
        · exact newStr_rel h hr
        · cases hr; exact ⟨h, Ty.refl _, fun _ => vok_none _⟩
        · exact typeErr_rel h hr
      · exact typeErr_rel h hr
    · exact typeErr_rel h hr

theorem isIn_rel {s0 s s' : S} (h : RelQ Q c s0 s) {pos : Bool} {a b r : Val} (hr : isIn E pos a b s = some (r, s')) :
    Post Q c s0 s r s' := by
  unfold isIn at hr
  split at hr
  · cases hr; exact ⟨h, .refl _, fun _ => trivial⟩
  · simp only [Option.bind_eq_bind, Option.pure_def] at hr
    obtain ⟨o, h1, hr⟩ := Option.bind_eq_some_iff.1 hr
    obtain ⟨x, h2, hr⟩ := Option.bind_eq_some_iff.1 hr
    cases hr; exact ⟨h, .refl _, fun _ => trivial⟩
  · simp only [Option.bind_eq_bind, Option.pure_def] at hr
    obtain ⟨o, h1, hr⟩ := Option.bind_eq_some_iff.1 hr
    obtain ⟨x, h2, hr⟩ := Option.bind_eq_some_iff.1 hr
    cases hr; exact ⟨h, .refl _, fun _ => trivial⟩
  · exact typeErr_rel h hr

theorem slice_rel {s0 s s' : S} (h : RelQ Q c s0 s) {v r : Val} {p q t : Option Val} (hv : c → POk Q s v) (hr : slice E v p q t s = some (r, s')) :
    Post Q c s0 s r s' := by
  simp only [slice, Option.bind_eq_bind, Option.pure_def] at hr
  have hs : ∀ b : Bool, RelQ Q c s0 (if b = true then s.fail else s) ∧ Ty s (if b = true then s.fail else s) := by
    intro b; cases b
    · exact ⟨h, .refl _⟩
    · exact ⟨h.fail, .fail s⟩
  obtain ⟨k1, k2⟩ := hs ((sliceArg E 1 t).2 || (sliceArg E E.A.soffNone q).2 || (sliceArg E E.A.soffNone p).2)
  obtain ⟨n, h1, hr⟩ := Option.bind_eq_some_iff.1 hr
  have lift : ∀ {r s'}, Post Q c s0 _ r s' → Post Q c s0 s r s' := fun hp => ⟨hp.1, k2.trans hp.2.1, hp.2.2⟩
  split at hr
  · cases hr; exact lift ⟨k1.fail, .fail _, fun hc => (k2.trans (.fail _)).pok (hv hc)⟩
  · obtain ⟨d, h2, hr⟩ := Option.bind_eq_some_iff.1 hr
    split at hr
    · exact lift (strSlice_rel k1 hr)
    · exact lift (listSlice_rel k1 hr)
    · cases hr; exact lift ⟨k1, .refl _, fun hc => k2.pok (hv hc)⟩

theorem elemRef_rel {s0 s s' : S} (h : RelQ Q c s0 s) {lp ip : Val} {r : Option (Nat × Nat)} (hp : c → POk Q s ip)
    (hr : elemRef E s lp ip = some (r, s')) :
    RelQ Q c s0 s' ∧ Ty s s' ∧ ∀ i k, r = some (i, k) → ∃ o, s'.lst i = some o ∧ o.type ≠ .tuple := by
  unfold elemRef at hr
  split at hr
  · simp only [Option.bind_eq_bind, Option.pure_def] at hr
    obtain ⟨o, h1, hr⟩ := Option.bind_eq_some_iff.1 hr
    split at hr
    · cases hr; exact ⟨h.fail, .fail s, by rintro i k ⟨⟩⟩
    · rename_i hro
      obtain ⟨⟨q, s1⟩, h3, hr⟩ := Option.bind_eq_some_iff.1 hr
      obtain ⟨k1, k2⟩ := ref_rel h hp h3
      cases q with
      | none => cases hr; exact ⟨k1, k2, by rintro i k ⟨⟩⟩
      | some k =>
        cases hr
        refine ⟨k1, k2, ?_⟩
        rintro i k ⟨⟩
        obtain ⟨o', h4, h5⟩ := k2.lst _ o h1
        refine ⟨o', h4, fun ht => hro ?_⟩
        rw [← h5, ht]; rfl
  · cases hr; exact ⟨h.fail, .fail s, by rintro i k ⟨⟩⟩

theorem storeElem_rel {s0 s s' : S} (h : RelQ Q c s0 s) {lp ip v : Val} (hp : c → POk Q s ip) (hv : c → POk Q s v)
    (hr : storeElem E lp ip v s = some s') : RelQ Q c s0 s' ∧ Ty s s' := by
  simp only [storeElem, Option.bind_eq_bind, Option.pure_def] at hr
  obtain ⟨⟨q, s1⟩, h3, hr⟩ := Option.bind_eq_some_iff.1 hr
  obtain ⟨k1, k2, k3⟩ := elemRef_rel h hp h3
  cases q with
  | none => cases hr; exact ⟨k1, k2⟩
  | some ik =>
    obtain ⟨i, k⟩ := ik
    obtain ⟨o, h4, h5⟩ := k3 i k rfl
    obtain ⟨m1, m2, -⟩ := setSlot_rel k1 h4 (.inr h5) (not_empty k1 h4 h5) (fun hc => k2.pok (hv hc)) hr
    exact ⟨m1, k2.trans m2⟩

theorem augElem_rel {s0 s s' : S} (h : RelQ Q c s0 s) {op : BinOp} {lp ip v : Val} (hp : c → POk Q s ip)
    (hr : augElem E op lp ip v s = some s') : RelQ Q c s0 s' ∧ Ty s s' := by
  simp only [augElem, Option.bind_eq_bind, Option.pure_def] at hr
  obtain ⟨⟨q, s1⟩, h3, hr⟩ := Option.bind_eq_some_iff.1 hr
  obtain ⟨k1, k2, k3⟩ := elemRef_rel h hp h3
  cases q with
  | none => cases hr; exact ⟨k1, k2⟩
  | some ik =>
    obtain ⟨i, k⟩ := ik
    simp only at hr
    obtain ⟨o, h4, hr⟩ := Option.bind_eq_some_iff.1 hr
    obtain ⟨old, h5, hr⟩ := Option.bind_eq_some_iff.1 hr
    obtain ⟨⟨x, s2⟩, h6, hr⟩ := Option.bind_eq_some_iff.1 hr
    obtain ⟨m1, m2, m3⟩ := arith_rel k1 h6
    split at hr
    · cases hr; exact ⟨m1.fail, k2.trans (m2.trans (.fail _))⟩
    obtain ⟨n1, n2⟩ := storeElem_rel m1 (fun hc => (k2.trans m2).pok (hp hc)) m3 hr
    exact ⟨n1, k2.trans (m2.trans n2)⟩

theorem step_rel {s0 s s' : S} (h : Rel c s0 s) {op : Op} (hv : c → op.vok s) (hr : step E op s = some s') : Rel c s0 s' ∧ Ty s s' := by
  cases op with
  | arith op ip a b =>
    obtain ⟨⟨x, s1⟩, h1, rfl⟩ := Option.map_eq_some_iff.1 hr
    exact ⟨(arith_rel h h1).1, (arith_rel h h1).2.1⟩
  | index a b =>
    obtain ⟨⟨x, s1⟩, h1, rfl⟩ := Option.map_eq_some_iff.1 hr
    have := index_rel h (fun hc => (hv hc).2.pok) h1
    exact ⟨this.1, this.2.1⟩
  | isIn p a b =>
    obtain ⟨⟨x, s1⟩, h1, rfl⟩ := Option.map_eq_some_iff.1 hr
    exact ⟨(isIn_rel h h1).1, (isIn_rel h h1).2.1⟩
  | slice v p q t =>
    obtain ⟨⟨x, s1⟩, h1, rfl⟩ := Option.map_eq_some_iff.1 hr
    have := slice_rel h (fun hc => (hv hc).pok) h1
    exact ⟨this.1, this.2.1⟩
  | build t l =>
    obtain ⟨⟨x, s1⟩, h1, rfl⟩ := Option.map_eq_some_iff.1 hr
    have := imm_rel h (fun hc v hm => (hv hc v hm).pok) h1
    exact ⟨this.1, this.2.1⟩
  | store l i v => exact storeElem_rel h (fun hc => (hv hc).2.1.pok) (fun hc => (hv hc).2.2.pok) hr
  | aug op l i v => exact augElem_rel h (fun hc => (hv hc).2.1.pok) hr
  | del l i =>
    simp only [step, delElem] at hr
    split at hr
    · exact del_rel h (fun hc => (hv hc).2.pok) hr
    · cases hr; exact ⟨h.fail, .fail s⟩

theorem runOps_rel {s0 s s' : S} (h : Rel False s0 s) (ops : List Op) (hr : runOps E ops s = some s') : Rel False s0 s' := by
  induction ops generalizing s with
  | nil => cases hr; exact h
  | cons op ops ih =>
    simp only [runOps] at hr
    obtain ⟨s1, h1, hr⟩ := Option.bind_eq_some_iff.1 hr
    exact ih (step_rel h (fun h => h.elim) h1).1 hr

end Snek.Store
