import Verif.Proofs.Uf2
/-!
# C100: the file for the boot loader puts the firmware on the board
-/
namespace Snek.Uf2

/-- A board of the right family that gets the sectors of the file in any order, each once or more often, holds the image from the chosen address
on, zeros up to the end of its last page, and what it held before elsewhere. -/
theorem C100_image {family app dev : Nat} {content file : List UInt8} (h : toUf2 family app content = some file) (hd : family = 0 ∨ family = dev)
    (order : List (List UInt8)) (ho : ∀ b, b ∈ order ↔ b ∈ sectors file) (mem : Mem) (a : Nat) :
    order.foldl (burn dev) mem a =
      if app ≤ a ∧ a < app + content.length then content.getD (a - app) 0
      else if app ≤ a ∧ a < app + whole content.length then 0
      else mem a := by
  obtain ⟨l, rfl, hl, hb⟩ := toUf2_some h
  have hs := sectors_flatten (toUf2_length hl hb)
  rw [hs] at ho
  have hm : ∀ b ∈ order, ∃ i, i < (content.length + 255) / 256 ∧ b = blk family (256 * i + app) i ((content.length + 255) / 256) (page content i) := by
    intro b hbo
    obtain ⟨i, hi, rfl⟩ := List.getElem_of_mem ((ho b).1 hbo)
    refine ⟨i, by omega, ?_⟩
    have e := (hb i (by omega)).1
    rwa [List.getElem?_eq_getElem hi, Option.some.injEq] at e
  have hall := burn_all dev (fun a => content.getD (a - app) 0) (fun b a => at4 b 12 ≤ a ∧ a < at4 b 12 + 256) order (by
    intro b hbo mem a
    obtain ⟨i, hi, rfl⟩ := hm b hbo
    obtain ⟨-, h1, h2, h3, h4⟩ := hb i hi
    rw [blk_burn dev hd h1 h2 h3 h4 (page_length _ _), (blk_fields h1 h2 h3 h4 (page_length _ _)).2.2.2.1]
    refine ⟨fun hr => ?_, fun hr => by rw [if_neg hr]⟩
    rw [if_pos hr, page_getD _ _ _ (by omega)]
    congr 1
    omega) mem a
  by_cases hin : app ≤ a ∧ a < app + whole content.length
  · have hcov : ∃ b ∈ order, at4 b 12 ≤ a ∧ a < at4 b 12 + 256 := by
      unfold whole at hin
      have hi : (a - app) / 256 < (content.length + 255) / 256 := by omega
      obtain ⟨e, h1, h2, h3, h4⟩ := hb _ hi
      refine ⟨_, (ho _).2 (List.mem_of_getElem? e), ?_⟩
      rw [(blk_fields h1 h2 h3 h4 (page_length _ _)).2.2.2.1]
      omega
    rw [hall.1 hcov]
    by_cases hc : app ≤ a ∧ a < app + content.length
    · rw [if_pos hc]
    · rw [if_neg hc, if_pos hin, List.getD_eq_getElem?_getD, List.getElem?_eq_none (by omega)]
      rfl
  · have hno : ∀ b ∈ order, ¬ (at4 b 12 ≤ a ∧ a < at4 b 12 + 256) := by
      intro b hbo
      obtain ⟨i, hi, rfl⟩ := hm b hbo
      obtain ⟨-, h1, h2, h3, h4⟩ := hb i hi
      rw [(blk_fields h1 h2 h3 h4 (page_length _ _)).2.2.2.1]
      unfold whole at hin
      omega
    rw [hall.2 hno, if_neg hin, if_neg ?_]
    unfold whole at hin
    omega

/-- Every sector of the file is taken for a block, and they are numbered from 0 on, each with their number. -/
theorem C100_numbered {family app dev : Nat} {content file : List UInt8} (h : toUf2 family app content = some file) (hd : family = 0 ∨ family = dev) :
    file.length = 512 * (whole content.length / 256) ∧
    ∀ (i : Nat) (b : List UInt8), (sectors file)[i]? = some b → Accepted dev b ∧ at4 b 20 = i ∧ at4 b 24 = whole content.length / 256 := by
  obtain ⟨l, rfl, hl, hb⟩ := toUf2_some h
  have hs := sectors_flatten (toUf2_length hl hb)
  have hw : whole content.length / 256 = (content.length + 255) / 256 := by unfold whole; omega
  rw [flatten_length (toUf2_length hl hb), hs, hl, hw]
  refine ⟨rfl, fun i b hi => ?_⟩
  obtain ⟨hlt, -⟩ := List.getElem?_eq_some_iff.1 hi
  obtain ⟨e, h1, h2, h3, h4⟩ := hb i (by omega)
  rw [e, Option.some.injEq] at hi
  subst hi
  have hf := blk_fields h1 h2 h3 h4 (page_length content i)
  exact ⟨blk_accepted dev hd h1 h2 h3 h4 (page_length _ _), hf.2.2.2.2.2.1, hf.2.2.2.2.2.2.1⟩

/-- There is a file exactly if the addresses of all pages, and the family, are numbers of 32 bits. -/
theorem C100_defined (family app : Nat) (content : List UInt8) (hc : content ≠ []) :
    (toUf2 family app content).isSome ↔ family < 2 ^ 32 ∧ app + (whole content.length - 256) < 2 ^ 32 := by
  have hpos : 0 < content.length := List.length_pos_iff.2 hc
  constructor
  · intro h
    obtain ⟨file, h⟩ := Option.isSome_iff_exists.1 h
    obtain ⟨l, -, hl, hb⟩ := toUf2_some h
    obtain ⟨-, h1, -, -, h4⟩ := hb ((content.length + 255) / 256 - 1) (by omega)
    refine ⟨h4, ?_⟩
    unfold whole
    omega
  · rintro ⟨h1, h2⟩
    unfold whole at h2
    unfold toUf2
    simp only []
    rw [mapM_def (g := fun i => blk family (256 * i + app) i ((content.length + 255) / 256) (page content i))]
    · rfl
    · intro i hi
      have := List.mem_range.1 hi
      exact block_defined content (by omega) (by omega) (by omega) h1

theorem field_at4 (b : List UInt8) (k : Nat) (h : 4 * k + 4 ≤ b.length) : field b k = at4 b (4 * k) := by
  unfold field at4
  have e : ∀ j, b.getD (4 * k + j) 0 = (b.drop (4 * k)).getD j 0 := by
    intro j
    rw [List.getD_eq_getElem?_getD, List.getD_eq_getElem?_getD, List.getElem?_drop]
  have e0 := e 0
  simp only [Nat.add_zero] at e0
  rw [e0, e, e, e]
  have hl : 4 ≤ (b.drop (4 * k)).length := by rw [List.length_drop]; omega
  match b.drop (4 * k), hl with
  | x :: y :: z :: w :: t, _ => simp only [unpack1, List.getD_cons_zero, List.getD_cons_succ]

theorem pages_flatten (content : List UInt8) : ((List.range ((content.length + 255) / 256)).map (page content)).flatten =
    content ++ List.replicate (whole content.length - content.length) 0 := by
  obtain ⟨n, hn⟩ : ∃ n, n = (content.length + 255) / 256 := ⟨_, rfl⟩
  unfold whole
  rw [← hn]
  induction n generalizing content with
  | zero =>
    have : content = [] := List.eq_nil_of_length_eq_zero (by omega)
    subst this
    rfl
  | succ n ih =>
    rw [List.range_succ_eq_map, List.map_cons, List.map_map, List.flatten_cons]
    have e : (page content) ∘ Nat.succ = page (content.drop 256) := by
      funext i
      unfold page
      apply List.map_congr_left
      intro j _
      rw [List.getD_eq_getElem?_getD, List.getD_eq_getElem?_getD, List.getElem?_drop]
      congr 2
      omega
    rw [e, ih (content.drop 256) (by rw [List.length_drop]; omega), ← page_eq, List.length_drop, Nat.mul_zero, List.drop_zero, List.length_take]
    have hrep : ∀ x y : Nat, x = y → content ++ List.replicate x (0 : UInt8) = content ++ List.replicate y 0 := fun x y h => by rw [h]
    by_cases h : 256 ≤ content.length
    · rw [show 256 - min 256 content.length = 0 by omega, List.replicate_zero, List.append_nil, ← List.append_assoc, List.take_append_drop]
      exact hrep _ _ (by omega)
    · rw [List.take_of_length_le (by omega), List.drop_eq_nil_of_le (by omega), List.nil_append, List.append_assoc, List.replicate_append_replicate]
      exact hrep _ _ (by omega)

/-- Converting back gives the address and the image in whole pages. -/
theorem C100_back {family app app' : Nat} {content file : List UInt8} (h : toUf2 family app content = some file) (hc : content ≠ []) :
    fromUf2 app' file = some (app, content ++ List.replicate (whole content.length - content.length) 0) := by
  have hpos : 0 < content.length := List.length_pos_iff.2 hc
  obtain ⟨l, rfl, hl, hb⟩ := toUf2_some h
  unfold fromUf2
  rw [cut_eq, sectors_flatten (toUf2_length hl hb), ← pages_flatten]
  have hlist : l = (List.range' 0 ((content.length + 255) / 256)).map
      (fun i => blk family (256 * i + app) i ((content.length + 255) / 256) (page content i)) := by
    apply List.ext_getElem?
    intro i
    by_cases hi : i < (content.length + 255) / 256
    · rw [(hb i hi).1, List.getElem?_map, List.getElem?_range' hi]
      simp
    · rw [List.getElem?_eq_none (by omega), List.getElem?_eq_none (by simp; omega)]
  have hfld : ∀ i, i < (content.length + 255) / 256 → ∀ b, b = blk family (256 * i + app) i ((content.length + 255) / 256) (page content i) →
      field b 0 = magic0 ∧ field b 1 = magic1 ∧ field b 2 % 2 = 0 ∧ field b 3 = 256 * i + app ∧ field b 4 = 256 ∧ (b.drop 32).take 256 = page content i := by
    rintro i hi b rfl
    obtain ⟨-, h1, h2, h3, h4⟩ := hb i hi
    obtain ⟨f0, f1, f2, f3, f4, -⟩ := blk_fields h1 h2 h3 h4 (page_length content i)
    have hlen := blk_length family (256 * i + app) i ((content.length + 255) / 256) (page content i) (page_length _ _)
    refine ⟨?_, ?_, ?_, ?_, ?_, ?_⟩
    · rw [field_at4 _ _ (by omega)]; exact f0
    · rw [field_at4 _ _ (by omega)]; exact f1
    · rw [field_at4 _ _ (by omega)]; rw [f2]; unfold flags; split <;> rfl
    · rw [field_at4 _ _ (by omega)]; exact f3
    · rw [field_at4 _ _ (by omega)]; exact f4
    · rw [blk_drop, List.take_append_of_le_length (by rw [page_length]; exact Nat.le_refl _), List.take_of_length_le (by rw [page_length]; exact Nat.le_refl _)]
  rw [hlist]
  clear hlist hb hl h
  have go : ∀ m k out app' cur, k + m = (content.length + 255) / 256 → (k = 0 → cur = none) → (k ≠ 0 → cur = some (256 * k + app) ∧ app' = app) →
      fromLoop app' cur out ((List.range' k m).map (fun i => blk family (256 * i + app) i ((content.length + 255) / 256) (page content i))) =
        some (if m = 0 then app' else app, out ++ ((List.range' k m).map (page content)).flatten) := by
    intro m
    induction m with
    | zero => intro k out app' cur _ _ _; simp [fromLoop]
    | succ m ih =>
      intro k out app' cur hk h0 h1
      rw [List.range'_succ, List.map_cons, List.map_cons, List.flatten_cons]
      obtain ⟨f0, f1, f2, f3, f4, f5⟩ := hfld k (by omega) _ rfl
      have hcur : cur.getD (256 * k + app) = 256 * k + app := by
        by_cases hz : k = 0
        · rw [h0 hz]; rfl
        · rw [(h1 hz).1]; rfl
      simp only [fromLoop, f0, f1, f2, f3, f4, f5, ne_eq, not_true_eq_false, or_self, if_false, hcur, Nat.lt_irrefl, Nat.sub_self, Nat.zero_mod,
        List.replicate_zero, List.append_nil, Nat.zero_ne_one, Nat.add_eq_zero_iff, and_false]
      simp only [gt_iff_lt, Nat.not_lt_zero, if_false, show ¬ (476 < 256) by omega]
      rw [ih (k + 1) _ _ _ (by omega) (by omega) (fun _ => ⟨by congr 1; omega, ?_⟩)]
      · rw [List.append_assoc]
        by_cases hm : m = 0
        · simp only [hm, if_true]
          by_cases hz : k = 0
          · rw [h0 hz, hz]; simp
          · rw [(h1 hz).1, (h1 hz).2]; simp
        · simp [hm]
      · by_cases hz : k = 0
        · rw [h0 hz, hz]; simp
        · rw [(h1 hz).1, (h1 hz).2]
  rw [go _ 0 [] app' none (by omega) (fun _ => rfl) (fun h => absurd rfl h), if_neg (by omega), List.nil_append, List.range_eq_range']

/-- A HEX file whose lines fill pages one after another, with either kind of line end: the board holds the last byte given for each address, zeros
in the rest of the pages concerned, and what it held before elsewhere; again for sectors in any order. -/
theorem C100_hex {family dev : Nat} {recs : List Rec} (hr : ∀ r ∈ recs, r.Fits) (ha : Ascending (writes 0 recs)) (nl : List UInt8)
    (hnl : nl = [10] ∨ nl = [13, 10]) (rest : List UInt8) {file : List UInt8} (h : fromHex family (hexText nl recs ++ rest) = some file)
    (hd : family = 0 ∨ family = dev) (order : List (List UInt8)) (ho : ∀ b, b ∈ order ↔ b ∈ sectors file) (mem : Mem) (a : Nat) :
    order.foldl (burn dev) mem a =
      match lastAt (writes 0 recs) a with
      | some v => v
      | none => if ∃ x ∈ writes 0 recs, x.1 / 256 = a / 256 then 0 else mem a := by
  obtain ⟨cr, hcr, h1, h2⟩ : ∃ cr : List UInt8, nl = cr ++ [10] ∧ 10 ∉ cr ∧ cr.length ≤ 1 := by
    rcases hnl with rfl | rfl
    · exact ⟨[], rfl, by simp, by simp⟩
    · exact ⟨[13], rfl, by decide, by simp⟩
  subst hcr
  unfold fromHex at h
  rw [split_hexText cr h1, hexLoop_text cr h2 recs hr] at h
  have hF : Filled (writes 0 recs) (fill [] (writes 0 recs)) := Filled.nil.fill (by simpa using ha)
  obtain ⟨rev, hrev⟩ : ∃ rev, rev = fill [] (writes 0 recs) := ⟨_, rfl⟩
  rw [← hrev] at h hF
  generalize writes 0 recs = w at *
  simp only [Option.bind_eq_bind, Option.bind_some, Option.bind_eq_some_iff, Option.pure_def, Option.some.injEq] at h
  obtain ⟨l, hl, rfl⟩ := h
  obtain ⟨hlen, hel⟩ := mapM_some hl
  rw [List.length_range] at hlen
  have hb : ∀ i (hi : i < rev.reverse.length), l[i]? = some (blk family rev.reverse[i].addr i rev.reverse.length rev.reverse[i].bytes) ∧
      rev.reverse[i].addr < 2 ^ 32 ∧ i < 2 ^ 32 ∧ rev.reverse.length < 2 ^ 32 ∧ family < 2 ^ 32 ∧ rev.reverse[i] ∈ rev := by
    intro i hi
    obtain ⟨b, e, e'⟩ := hel i i (List.getElem?_range hi)
    rw [List.getElem?_eq_getElem hi, Option.bind_some] at e
    have hmem : rev.reverse[i] ∈ rev := List.mem_reverse.1 (List.getElem_mem hi)
    obtain ⟨rfl, r1, r2, r3, r4⟩ := encode_some (hF.shape _ hmem).2 e
    exact ⟨e', r1, r2, r3, r4, hmem⟩
  have h512 : ∀ b ∈ l, b.length = 512 := by
    intro b hbl
    obtain ⟨i, hi, rfl⟩ := List.getElem_of_mem hbl
    obtain ⟨e, -, -, -, -, hm⟩ := hb i (by omega)
    rw [List.getElem?_eq_getElem hi, Option.some.injEq] at e
    rw [e]
    exact blk_length _ _ _ _ _ (hF.shape _ hm).2
  rw [sectors_flatten h512] at ho
  have hm : ∀ b ∈ order, ∃ c ∈ rev, ∃ i n, b = blk family c.addr i n c.bytes ∧ c.addr < 2 ^ 32 ∧ i < 2 ^ 32 ∧ n < 2 ^ 32 ∧ family < 2 ^ 32 := by
    intro b hbo
    obtain ⟨i, hi, rfl⟩ := List.getElem_of_mem ((ho b).1 hbo)
    obtain ⟨e, r1, r2, r3, r4, hm⟩ := hb i (by omega)
    rw [List.getElem?_eq_getElem hi, Option.some.injEq] at e
    exact ⟨_, hm, i, _, e, r1, r2, r3, r4⟩
  have hall := burn_all dev (fun a => (lastAt w a).getD 0) (fun b a => at4 b 12 ≤ a ∧ a < at4 b 12 + 256) order (by
    intro b hbo mem a
    obtain ⟨c, hc, i, n, rfl, r1, r2, r3, r4⟩ := hm b hbo
    have hp := (hF.shape c hc).2
    rw [blk_burn dev hd r1 r2 r3 r4 hp, (blk_fields r1 r2 r3 r4 hp).2.2.2.1]
    refine ⟨fun hr => ?_, fun hr => by rw [if_neg hr]⟩
    rw [if_pos hr, hF.bytes c hc _ (by omega)]
    congr 2
    omega) mem a
  by_cases hx : ∃ x ∈ w, x.1 / 256 = a / 256
  · obtain ⟨x, hxw, hxe⟩ := hx
    obtain ⟨c, hc, hca⟩ := hF.to x hxw
    obtain ⟨i, hi, rfl⟩ := List.getElem_of_mem (List.mem_reverse.2 hc)
    obtain ⟨e, r1, r2, r3, r4, hmem⟩ := hb i hi
    rw [hall.1 ⟨_, (ho _).2 (List.mem_of_getElem? e), by rw [(blk_fields r1 r2 r3 r4 (hF.shape _ hmem).2).2.2.2.1]; omega⟩]
    rcases Option.eq_none_or_eq_some (lastAt w a) with hn | ⟨v, hv⟩
    · simp only [hn]; rw [if_pos ⟨x, hxw, hxe⟩]; rfl
    · simp only [hv]; rfl
  · rw [lastAt_page (fun x hxw he => hx ⟨x, hxw, he⟩)]
    simp only []
    rw [if_neg hx, hall.2]
    intro b hbo
    obtain ⟨c, hc, i, n, rfl, r1, r2, r3, r4⟩ := hm b hbo
    rw [(blk_fields r1 r2 r3 r4 (hF.shape c hc).2).2.2.2.1]
    obtain ⟨y, hy, hye⟩ := hF.from_ c hc
    intro hcon
    exact hx ⟨y, hy, by omega⟩

/-- The program takes an image for an image unless it starts like a UF2 file or is a text of HEX characters. -/
theorem C100_convert (family app : Nat) (content : List UInt8) (hl : 8 ≤ content.length)
    (hu : ¬ (at4 content 0 = 0x0A324655 ∧ at4 content 4 = 0x9E5D5157)) (hh : content.head? ≠ some 58 ∨ ∃ c ∈ content, hexChar c = false) :
    convert family app content = toUf2 family app content := by
  unfold convert isUf2
  rw [if_neg (by omega), field_at4 _ _ (by omega), field_at4 _ _ (by omega)]
  have e1 : (decide (at4 content (4 * 0) = magic0) && decide (at4 content (4 * 1) = magic1)) = false := by
    rw [Bool.and_eq_false_iff]
    by_cases h0 : at4 content 0 = 0x0A324655
    · right; exact decide_eq_false (fun h1 => hu ⟨h0, h1⟩)
    · left; exact decide_eq_false h0
  have e2 : isHex content = false := by
    unfold isHex
    rw [Bool.and_eq_false_iff]
    rcases hh with hh | ⟨c, hc, hf⟩
    · left; exact decide_eq_false hh
    · right
      rw [List.all_eq_false]
      exact ⟨c, hc, by simp [hf]⟩
  simp only [e1, e2, Option.bind_eq_bind, Option.bind_some, Bool.false_eq_true, if_false]

/-! ## Violations -/

/-- A HEX file that comes back to a page: the byte given first (at address 0) is lost. -/
theorem C100_violated_order : ∃ (recs : List Rec) (file : List UInt8), (∀ r ∈ recs, r.Fits) ∧ fromHex 0 (hexText [10] recs) = some file ∧
    lastAt (writes 0 recs) 0 = some 7 ∧ (sectors file).foldl (burn 0) (fun _ => 255) 0 = 0 := by
  refine ⟨[.data 0 [7], .data 256 [8], .data 1 [9]], ((fromHex 0 (hexText [10] [.data 0 [7], .data 256 [8], .data 1 [9]])).getD []), ?_, ?_, ?_, ?_⟩
  · simp [Rec.Fits]
  all_goals decide +kernel

/-- A sector that is not a block is to be skipped, but it ends the conversion. -/
theorem C100_violated_skip (app : Nat) : fromUf2 app (List.replicate 512 0) = none := by
  have : cut (List.replicate 512 0) = [List.replicate 512 0] := by decide +kernel
  unfold fromUf2
  rw [this]
  unfold fromLoop
  rw [if_pos (.inl (by decide +kernel))]

/-! ## Concrete cases -/

/-- Three hundred bytes at 0x2000: two blocks. -/
example : (toUf2 0x68ED2B88 0x2000 (List.replicate 300 9)).map List.length = some 1024 := by decide +kernel
example : (sectors ((toUf2 0x68ED2B88 0x2000 (List.replicate 300 9)).getD [])).reverse.foldl (burn 0x68ED2B88) (fun _ => 1) 0x2100 = 9 := by decide +kernel
example : ((toUf2 0x68ED2B88 0x2000 (List.replicate 300 9)).bind (fromUf2 0)).map (·.1) = some 0x2000 := by decide +kernel
example : Ascending (writes 0 [.base 1, .data 255 [1, 2], .data 300 [3]]) := by unfold Ascending; decide +kernel
example : lastAt (writes 0 [.base 1, .data 255 [1, 2], .data 300 [3]]) 0x100ff = some 1 := by decide +kernel
example : hexText [13, 10] [.data 0x100 [0x21]] = ":0101000021DD\r\n:00000001FF\r\n".toUTF8.toList := by decide +kernel
example : (fromHex 0 (hexText [13, 10] [.base 1, .data 255 [1, 2], .data 300 [3]])).map List.length = some 1024 := by decide +kernel

end Snek.Uf2
