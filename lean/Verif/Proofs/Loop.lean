import Verif.Proofs.HiddenSim
import Verif.Proofs.Fuel
import Verif.Model.Iter
/-!
# Loops
-/
namespace Snek.Lang
open Store (Val)
open Snek.Vm Spec

variable {σ : Type}

/-! ## Reading and writing variables -/

theorem read_abs (s : St σ) (x : Nat) : s.read x = s.fr.abs.read x := loadId_abs _ _

theorem read_assign (sc : Scope Val) (x : Nat) (v : Val) :
    (sc.step (.assign x v)).read x = some v ∧ ∀ y, y ≠ x → (sc.step (.assign x v)).read y = sc.read y := by
  obtain ⟨g, locs⟩ := sc
  cases locs with
  | nil => exact ⟨by simp [Scope.step, Scope.read, upd], fun y hy => by simp [Scope.step, Scope.read, upd, hy]⟩
  | cons f fs =>
    cases hf : f x with
    | declaredGlobal => exact ⟨by simp [Scope.step, Scope.read, upd, hf], fun y hy => by simp [Scope.step, Scope.read, upd, hf, hy]⟩
    | absent => exact ⟨by simp [Scope.step, Scope.read, upd, hf], fun y hy => by simp [Scope.step, Scope.read, upd, hf, hy]⟩
    | value u => exact ⟨by simp [Scope.step, Scope.read, upd, hf], fun y hy => by simp [Scope.step, Scope.read, upd, hf, hy]⟩

theorem read_set {γ : Type} (fr : Frames Val γ) (x : Nat) (v : Val) (hv : Val.isGlobal v = false) (l : VLoc)
    (h : (frameLookup fr x false false false).1 = some l) :
    (fr.set l v).abs.read x = some v ∧ ∀ y, y ≠ x → (fr.set l v).abs.read y = fr.abs.read y := by
  rcases set_abs fr x v hv l h with ⟨f, fs, u, _, _, he⟩ | ⟨hno, he⟩
  · rw [he]; exact read_assign _ _ _
  · rw [he]
    cases hl : fr.abs.locs with
    | nil => exact ⟨by simp [Scope.read, hl, upd], fun y hy => by simp [Scope.read, hl, upd, hy]⟩
    | cons f fs =>
      have := hno f fs hl
      refine ⟨?_, fun y hy => by simp [Scope.read, hl, upd, hy]⟩
      simp only [Scope.read, hl, upd, if_true]

theorem lookup_of_read {s : St σ} {x : Nat} {v : Val} (h : s.read x = some v) :
    ∃ l, (frameLookup s.fr x false false false).1 = some l ∧ s.fr.get l = v := by
  unfold St.read loadId at h
  have h2 := frameLookup_state s.fr x
  rcases hf : frameLookup s.fr x false false false with ⟨_ | l, fr'⟩
  · rw [hf] at h; simp at h
  · rw [hf] at h h2
    simp only [] at h2
    subst h2
    simp only [Option.some.injEq] at h
    exact ⟨l, rfl, h⟩

/-- The name stored at a location. -/
def idAt {γ : Type} (fr : Frames Val γ) : VLoc → Option Nat
  | .glob i => fr.globals[i]?.map (·.id)
  | .local i => ((fr.frames.head?.map (·.vars)).getD [])[i]?.map (·.id)

theorem lookup_idAt {γ : Type} (fr : Frames Val γ) (x : Nat) {l : VLoc} (h : (frameLookup fr x false false false).1 = some l) :
    idAt fr l = some x := by
  obtain ⟨g, frs⟩ := fr
  have glob : (variableLookup (⟨g, frs⟩ : Frames Val γ) true x false false).1 = some l → idAt ⟨g, frs⟩ l = some x := by
    intro h
    unfold variableLookup pickFrame at h
    simp only [if_true] at h
    cases hg : varIndex g x with
    | none => rw [hg] at h; simp at h
    | some i =>
      rw [hg] at h
      simp only [mkLoc, if_true, Option.some.injEq] at h
      subst h
      obtain ⟨w, hw, hid, -⟩ := look_some hg
      simp [idAt, hw, hid]
  unfold frameLookup at h
  cases frs with
  | nil =>
    have e : variableLookup (⟨g, []⟩ : Frames Val γ) false x false false = (none, ⟨g, []⟩) := by
      simp [variableLookup, pickFrame]
    rw [e] at h
    exact glob h
  | cons f fs =>
    cases hl : varIndex f.vars x with
    | none =>
      have e : variableLookup (⟨g, f :: fs⟩ : Frames Val γ) false x false false = (none, ⟨g, f :: fs⟩) := by
        simp [variableLookup, pickFrame, hl]
      rw [e] at h
      exact glob h
    | some i =>
      obtain ⟨w, hw, hid, -⟩ := look_some hl
      have e : variableLookup (⟨g, f :: fs⟩ : Frames Val γ) false x false false = (some (.local i), ⟨g, f :: fs⟩) := by
        simp [variableLookup, pickFrame, hl, mkLoc]
      rw [e] at h
      simp only [] at h
      split at h
      · exact glob h
      · simp only [Option.some.injEq] at h
        subst h
        simp [idAt, hw, hid]

theorem get_set_ne {γ : Type} (fr : Frames Val γ) {l l' : VLoc} (v : Val) (h : l ≠ l') : (fr.set l v).get l' = fr.get l' := by
  cases l with
  | glob i =>
    cases l' with
    | glob j =>
      have : i ≠ j := fun e => h (by rw [e])
      simp [Frames.set, Frames.get, setVar, List.getElem?_modify, this]
    | «local» j => rfl
  | «local» i =>
    obtain ⟨g, frs⟩ := fr
    cases frs with
    | nil => rfl
    | cons f fs =>
      cases l' with
      | glob j => rfl
      | «local» j =>
        have : i ≠ j := fun e => h (by rw [e])
        simp [Frames.set, Frames.get, setVar, List.getElem?_modify, this]

theorem read_same {W : Nat} {K : Nat → Prop} {a b : Scope Val} (h : Same W K a b) {y : Nat} (hy : Hidden W y) (hk : K y) :
    b.read y = a.read y := by
  have hg := h.glob y hy (.inr hk)
  cases ha : a.locs with
  | nil =>
    have hb : b.locs = [] := List.length_eq_zero_iff.1 (by rw [h.len, ha]; rfl)
    simp [Scope.read, ha, hb, hg]
  | cons f fs =>
    cases hb : b.locs with
    | nil => have := h.len; rw [ha, hb] at this; simp at this
    | cons f' fs' => simp only [Scope.read, ha, hb, h.loc _ _ _ _ ha hb y hk, hg]

theorem cleanReads {W : Nat} {s : St σ} (h : Inv W s.fr.abs) : CleanReads s := by
  intro y v hr
  rw [read_abs] at hr
  unfold Scope.read at hr
  split at hr
  · exact h.1 _ _ hr
  · rename_i f fs hl
    split at hr
    · rename_i u hu
      simp only [Option.some.injEq] at hr
      subst hr
      cases hfr : s.fr.frames with
      | nil => simp [Frames.abs, hfr] at hl
      | cons f0 fs0 =>
        simp only [Frames.abs, hfr, List.map_cons, List.cons.injEq] at hl
        rw [← hl.1] at hu
        unfold absLocal at hu
        split at hu
        · simp at hu
        · split at hu
          · simp at hu
          · rename_i hg
            simp only [LocalName.value.injEq] at hu
            subst hu
            simpa [FrameVal.isGlobal] using hg
    · exact h.1 _ _ hr

/-! ## Numbers -/

theorem getFloat_num (u : BitVec 32) : getFloat (.num u) = (u, false) := rfl

theorem _root_.Spec.Denotes.ofF {u : BitVec 32} {i : Int} (h : Denotes u i) : Val.ofF u = .num u := congrArg Val.num h.toPoly

theorem lt_denotes {u v : BitVec 32} {i j : Int} (hu : Denotes u i) (hv : Denotes v j) : (fltF u v = true ↔ i < j) := by
  unfold fltF
  rw [hu.nan, hv.nan]
  simp only [Bool.not_false, Bool.true_and, decide_eq_true_eq]
  rw [fkey_val, hu.2, hv.2]
  constructor
  · intro h; exact Int.lt_of_mul_lt_mul_right h (by decide)
  · intro h; exact Int.mul_lt_mul_of_pos_right h (by decide)

theorem le_denotes {u v : BitVec 32} {i j : Int} (hu : Denotes u i) (hv : Denotes v j) : (fleF u v = true ↔ i ≤ j) := by
  unfold fleF
  rw [hu.nan, hv.nan]
  simp only [Bool.not_false, Bool.true_and, decide_eq_true_eq]
  rw [← Int.not_lt, fkey_val, hu.2, hv.2, Int.not_lt]
  constructor
  · intro h; exact Int.le_of_mul_le_mul_right h (by decide)
  · intro h; exact Int.mul_le_mul_of_nonneg_right h (by decide)

theorem rangeElems_step (c b t : Int) (ht : t ≠ 0) :
    rangeElems c b t = if (0 < t ∧ c < b) ∨ (t < 0 ∧ b < c) then c :: rangeElems (c + t) b t else [] := by
  have shift : ∀ k : Nat, (List.range (k + 1)).map (fun i : Nat => c + i * t) = c :: (List.range k).map (fun i : Nat => c + t + i * t) := by
    intro k
    rw [List.range_succ_eq_map, List.map_cons, List.map_map]
    congr 1
    · simp
    · apply List.map_congr_left
      intro i _
      simp only [Function.comp, Int.natCast_succ, Int.add_mul]
      omega
  unfold rangeElems
  simp only []
  rcases Int.lt_or_lt_of_ne ht with h | h
  · have h0 : ¬ 0 < t := by omega
    simp only [h0, if_false, false_and, false_or, h, true_and]
    by_cases hc : b < c
    · simp only [hc, if_true]
      have e : (c - b - t - 1) / -t = (c + t - b - t - 1) / -t + 1 := by
        have : c - b - t - 1 = (c + t - b - t - 1) + -t := by omega
        rw [this, Int.add_ediv_of_dvd_right (Int.dvd_refl _), Int.ediv_self (by omega)]
      have e2 : 0 ≤ (c + t - b - t - 1) / -t := Int.ediv_nonneg (by omega) (by omega)
      rw [e, show ((c + t - b - t - 1) / -t + 1).toNat = ((c + t - b - t - 1) / -t).toNat + 1 by omega, shift]
    · simp only [hc, if_false]
      have : (c - b - t - 1) / -t < 1 := Int.ediv_lt_of_lt_mul (by omega) (by omega)
      rw [show ((c - b - t - 1) / -t).toNat = 0 by omega]
      rfl
  · have h0 : ¬ t < 0 := by omega
    simp only [h, if_true, true_and, h0, false_and, or_false]
    by_cases hc : c < b
    · simp only [hc, if_true]
      have e : (b - c + t - 1) / t = (b - (c + t) + t - 1) / t + 1 := by
        have : b - c + t - 1 = (b - (c + t) + t - 1) + t := by omega
        rw [this, Int.add_ediv_of_dvd_right (Int.dvd_refl _), Int.ediv_self (by omega)]
      have e2 : 0 ≤ (b - (c + t) + t - 1) / t := Int.ediv_nonneg (by omega) (by omega)
      rw [e, show ((b - (c + t) + t - 1) / t + 1).toNat = ((b - (c + t) + t - 1) / t).toNat + 1 by omega, shift]
    · simp only [hc, if_false]
      have : (b - c + t - 1) / t < 1 := Int.ediv_lt_of_lt_mul (by omega) (by omega)
      rw [show ((b - c + t - 1) / t).toNat = 0 by omega]
      rfl

/-! ## Range loops -/

section
variable {P : Prim σ} {defs : Nat → FunDef}

/-- One step, when `c` is due. -/
theorem rangeStep_eq {x : Nat} (hx : ¬ Hidden P.W x) {fd : Nat} (hW : 2 ≤ P.W) (hfd : fd < 256) {s : St σ}
    {u l t : BitVec 32} {c b st : Int} (h24 : Int24 c) (hu : s.read x = some (.num u)) (hl : s.read (forTmp P.W (UInt8.ofNat fd) 0) = some (.num l))
    (hst : s.read (forTmp P.W (UInt8.ofNat fd) 1) = some (.num t)) (du : Denotes u (c - st)) (dl : Denotes l b) (dt : Denotes t st) :
    ∃ fr v, Denotes v c ∧
      rangeStep P x (UInt8.ofNat fd) s.fr = (if 0 < st ∧ b ≤ c ∨ ¬ 0 < st ∧ c ≤ b then .stop else .go, fr) ∧
      (St.mk fr s.w).read x = some (.num v) ∧ ∀ y, y ≠ x → (St.mk fr s.w).read y = s.read y := by
  obtain ⟨lx, h1, h1'⟩ := lookup_of_read hu
  obtain ⟨ll, h2, h2'⟩ := lookup_of_read hl
  obtain ⟨ls, h3, h3'⟩ := lookup_of_read hst
  have e : c - st + st = c := by omega
  have hv : Denotes (fadd u t) c := by
    have := fadd_int du dt (by rw [e]; exact h24)
    rwa [e] at this
  have hne : lx ≠ ll := by
    rintro rfl
    have a := lookup_idAt _ _ h1
    have b := lookup_idAt _ _ h2
    rw [a] at b
    simp only [Option.some.injEq] at b
    exact hx (b ▸ tmp_hidden hW hfd (by decide))
  have hs := read_set s.fr x (Val.ofF (fadd u t)) (clean_float _) lx h1
  refine ⟨s.fr.set lx (Val.ofF (fadd u t)), fadd u t, hv, ?_, ?_, ?_⟩
  · unfold rangeStep
    simp only [h1, h2, h3, h1', h3', getFloat_num, getFloat_num, get_set_ne s.fr _ hne, h2', getFloat_num,
      Bool.or_self, Bool.false_eq_true, if_false]
    have hz : Denotes (0 : BitVec 32) 0 := denotes_zero false
    have k0 := lt_denotes hz dt
    have k1 := le_denotes dl hv
    have k2 := le_denotes hv dl
    by_cases p : 0 < st
    · simp only [k0.2 p, p, if_true, true_and, not_true_eq_false, false_and, or_false]
      by_cases q : b ≤ c
      · simp [k1.2 q, q]
      · have : fleF l (fadd u t) = false := by simpa using mt k1.1 q
        simp [this, q]
    · have : fltF 0 t = false := by simpa using mt k0.1 p
      simp only [this, p, false_and, not_false_eq_true, true_and, false_or, Bool.false_eq_true, if_false]
      by_cases q : c ≤ b
      · simp [k2.2 q, q]
      · have : fleF (fadd u t) l = false := by simpa using mt k2.1 q
        simp [this, q]
  · rw [read_abs]; simp only []; rw [hs.1, hv.ofF]
  · intro y hy; rw [read_abs, read_abs]; exact hs.2 y hy

theorem range_loop (hP : TamePrim P) (hD : TameDefs P.W defs) {d fd x : Nat} {body els : Stmt} (hx : ¬ Hidden P.W x) (hfd : fd < 256)
    (hb : TameS P.W (fd + 1) body) (hleave : Leaves P defs d (fd + 1) body x) {b st : Int} (sb : Small b) (sst : Small st) (h0 : st ≠ 0)
    {l t : BitVec 32} (dl : Denotes l b) (dt : Denotes t st) (n : Nat) : ∀ (s : St σ) (c : Int) (u : BitVec 32) (r : R σ Flow),
    Inv P.W s.fr.abs → Int24 c → s.read x = some (.num u) → s.read (forTmp P.W (UInt8.ofNat fd) 0) = some (.num l) →
    s.read (forTmp P.W (UInt8.ofNat fd) 1) = some (.num t) → Denotes u (c - st) →
    execRange P defs n d fd x body els s = r → r.cut = false →
    ForEach (BindInt P.W x) (fun s r => ∃ m, execS P defs m d (fd + 1) body s = r) (RangeEnd P defs d fd x els) (rangeElems c b st) s r := by
  induction n with
  | zero => intro s c u r _ _ _ _ _ _ hr hn; rw [← hr, execRange] at hn; simp [R.cut] at hn
  | succ n ih =>
    intro s c u r hi h24 hu hl hst du hr hn
    obtain ⟨fr, v, dv, hstep, hrx, hry⟩ := rangeStep_eq hx hP.width hfd h24 hu hl hst du dl dt
    have hg : Good P.W (Outer P.W fd) s ⟨fr, s.w⟩ := rangeStep_good outer_hidden hi hx hstep
    rw [execRange, hstep] at hr
    rw [rangeElems_step c b st h0]
    have ho : OnlyVar P.W x s ⟨fr, s.w⟩ := fun y hy _ => hry y hy
    by_cases hstop : 0 < st ∧ b ≤ c ∨ ¬ 0 < st ∧ c ≤ b
    · rw [if_neg (by omega)]
      simp only [if_pos hstop] at hr
      exact .done ⟨n, _, ho, rfl, hr⟩
    · rw [if_pos (by omega)]
      simp only [if_neg hstop] at hr
      have hbind : BindInt P.W x c s ⟨fr, s.w⟩ := ⟨v, dv, hrx, ho, rfl⟩
      cases hB : execS P defs n d (fd + 1) body ⟨fr, s.w⟩ with
      | ok f z =>
        rw [hB] at hr
        simp only [R.bind] at hr
        have hz := ((keeps P defs hP hD n).s d (fd + 1) body ⟨fr, s.w⟩ hb hg.1 f z hB).2
        have hzx := hleave n _ f z (cleanReads hg.1) hB
        have hzt : ∀ i, i < 2 → z.read (forTmp P.W (UInt8.ofNat fd) i) = s.read (forTmp P.W (UInt8.ofNat fd) i) := by
          intro i hi2
          have hne : forTmp P.W (UInt8.ofNat fd) i ≠ x := fun e => hx (e ▸ tmp_hidden hP.width hfd hi2)
          rw [read_abs, read_same hz.2 (tmp_hidden hP.width hfd hi2) (tmp_outer hP.width hfd hi2)]
          exact (read_abs (St.mk fr s.w) _).symm.trans (hry _ hne)
        have hnext : ∀ r, execRange P defs n d fd x body els z = r → r.cut = false →
            ForEach (BindInt P.W x) (fun s r => ∃ m, execS P defs m d (fd + 1) body s = r) (RangeEnd P defs d fd x els)
              (rangeElems (c + st) b st) z r := by
          intro r hr hn
          refine ih z (c + st) v r hz.1 ?_ (by rw [hzx, hrx]) (by rw [hzt 0 (by decide), hl]) (by rw [hzt 1 (by decide), hst])
            (by rw [Int.add_sub_cancel]; exact dv) hr hn
          obtain ⟨b1, b2⟩ := sb
          obtain ⟨c1, c2⟩ := sst
          obtain ⟨d1, d2⟩ := h24
          constructor <;> omega
        cases f with
        | normal => exact .next hbind ⟨n, hB⟩ (.inl rfl) (hnext r hr hn)
        | cont => exact .next hbind ⟨n, hB⟩ (.inr rfl) (hnext r hr hn)
        | brk => rw [← hr]; exact .brk hbind ⟨n, hB⟩
        | ret w => rw [← hr]; exact .ret hbind ⟨n, hB⟩
      | err g w => rw [hB] at hr; rw [← hr]; exact .err hbind ⟨n, hB⟩
      | over => rw [hB] at hr; rw [← hr]; exact .over hbind ⟨n, hB⟩
      | time => rw [hB] at hr; rw [← hr] at hn; simp [R.bind, R.cut] at hn

theorem rangeStart_eq (hP : TamePrim P) {fd x : Nat} (hx : ¬ Hidden P.W x) (hfd : fd < 256) {s : St σ} (hi : Inv P.W s.fr.abs)
    {vs : List Val} {a b st : Int} (hvs : RangeArgs a b st vs) (sa : Small a) (sst : Small st) (h0 : st ≠ 0) :
    ∃ fr w u l t, rangeStart P x (UInt8.ofNat fd) vs s.fr s.w = (true, fr, w) ∧ Denotes u (a - st) ∧ Denotes l b ∧ Denotes t st ∧
      (St.mk fr w).read x = some (.num u) ∧ (St.mk fr w).read (forTmp P.W (UInt8.ofNat fd) 0) = some (.num l) ∧
      (St.mk fr w).read (forTmp P.W (UInt8.ofNat fd) 1) = some (.num t) ∧ OnlyVar P.W x s ⟨fr, w⟩ := by
  have d1 : Denotes (intToF 1) 1 := intToF_denotes (by constructor <;> decide)
  have dz : Denotes (0 : BitVec 32) 0 := denotes_zero false
  have go : ∀ c l t : BitVec 32, Denotes c a → Denotes l b → Denotes t st →
      ∃ fr1 fr2 fr3, storeId P s.fr s.w x (Val.ofF (fsub c t)) = (true, fr1, (P.varAlloc s.w).2.2) ∧
      storeId P fr1 (P.varAlloc s.w).2.2 (forTmp P.W (UInt8.ofNat fd) 0) (Val.ofF l) = (true, fr2, (P.varAlloc (P.varAlloc s.w).2.2).2.2) ∧
      storeId P fr2 (P.varAlloc (P.varAlloc s.w).2.2).2.2 (forTmp P.W (UInt8.ofNat fd) 1) (Val.ofF t) =
        (true, fr3, (P.varAlloc (P.varAlloc (P.varAlloc s.w).2.2).2.2).2.2) ∧
      ∀ w, ∃ u l t, Denotes u (a - st) ∧ Denotes l b ∧ Denotes t st ∧
      (St.mk fr3 w).read x = some (.num u) ∧ (St.mk fr3 w).read (forTmp P.W (UInt8.ofNat fd) 0) = some (.num l) ∧
      (St.mk fr3 w).read (forTmp P.W (UInt8.ofNat fd) 1) = some (.num t) ∧ OnlyVar P.W x s ⟨fr3, w⟩ := by
    intro c l t dc dl dt
    have du : Denotes (fsub c t) (a - st) := fsub_int dc dt (by
      obtain ⟨a1, a2⟩ := sa
      obtain ⟨b1, b2⟩ := sst
      constructor <;> omega)
    obtain ⟨fr1, a1, a2⟩ := storeId_ok hP s.fr s.w x (Val.ofF (fsub c t)) (clean_float _)
    obtain ⟨fr2, b1, b2⟩ := storeId_ok hP fr1 (P.varAlloc s.w).2.2 (forTmp P.W (UInt8.ofNat fd) 0) (Val.ofF l) (clean_float _)
    obtain ⟨fr3, c1, c2⟩ := storeId_ok hP fr2 (P.varAlloc (P.varAlloc s.w).2.2).2.2 (forTmp P.W (UInt8.ofNat fd) 1) (Val.ofF t) (clean_float _)
    refine ⟨fr1, fr2, fr3, a1, b1, c1, fun w => ⟨_, _, _, du, dl, dt, ?_⟩⟩
    have t0 := tmp_hidden hP.width hfd (i := 0) (by decide)
    have t1 := tmp_hidden hP.width hfd (i := 1) (by decide)
    have x0 : x ≠ forTmp P.W (UInt8.ofNat fd) 0 := fun e => hx (e ▸ t0)
    have x1 : x ≠ forTmp P.W (UInt8.ofNat fd) 1 := fun e => hx (e ▸ t1)
    have x2 : forTmp P.W (UInt8.ofNat fd) 0 ≠ forTmp P.W (UInt8.ofNat fd) 1 := by
      have e0 := forTmp_eq hP.width hfd (i := 0) (by decide)
      have e1 := forTmp_eq hP.width hfd (i := 1) (by decide)
      omega
    have r1 := read_assign s.fr.abs x (Val.ofF (fsub c t))
    have r2 := read_assign fr1.abs (forTmp P.W (UInt8.ofNat fd) 0) (Val.ofF l)
    have r3 := read_assign fr2.abs (forTmp P.W (UInt8.ofNat fd) 1) (Val.ofF t)
    rw [← a2] at r1
    rw [← b2] at r2
    rw [← c2] at r3
    refine ⟨?_, ?_, ?_, ?_⟩
    · rw [read_abs, r3.2 _ x1, r2.2 _ x0, r1.1, du.ofF]
    · rw [read_abs, r3.2 _ x2, r2.1, dl.ofF]
    · rw [read_abs, r3.1, dt.ofF]
    · intro y hy hh
      have y0 : y ≠ forTmp P.W (UInt8.ofNat fd) 0 := fun e => hh (e ▸ t0)
      have y1 : y ≠ forTmp P.W (UInt8.ofNat fd) 1 := fun e => hh (e ▸ t1)
      rw [read_abs, read_abs, r3.2 _ y1, r2.2 _ y0, r1.2 _ hy]
  unfold rangeStart
  simp only []
  match vs, hvs with
  | [.num p], hvs =>
    obtain ⟨hp, rfl, rfl⟩ := hvs
    obtain ⟨fr1, fr2, fr3, h1, h2, h3, hg⟩ := go 0 p (intToF 1) dz hp d1
    obtain ⟨u, l, t, hg⟩ := hg (P.varAlloc (P.varAlloc (P.varAlloc s.w).2.2).2.2).2.2
    exact ⟨fr3, _, u, l, t, by simp only [getFloat_num, h1, h2, h3, Bool.not_false, Bool.and_self], hg⟩
  | [.num p, .num q], hvs =>
    obtain ⟨hp, hq, rfl⟩ := hvs
    obtain ⟨fr1, fr2, fr3, h1, h2, h3, hg⟩ := go p q (intToF 1) hp hq d1
    obtain ⟨u, l, t, hg⟩ := hg (P.varAlloc (P.varAlloc (P.varAlloc s.w).2.2).2.2).2.2
    exact ⟨fr3, _, u, l, t, by simp only [getFloat_num, getFloat_num, h1, h2, h3, Bool.or_self, Bool.not_false, Bool.and_self], hg⟩
  | [.num p, .num q, .num z], hvs =>
    obtain ⟨hp, hq, hz⟩ := hvs
    obtain ⟨fr1, fr2, fr3, h1, h2, h3, hg⟩ := go p q z hp hq hz
    obtain ⟨u, l, t, hg⟩ := hg (P.varAlloc (P.varAlloc (P.varAlloc s.w).2.2).2.2).2.2
    have : feq z 0 = false := by
      unfold feq
      rw [hz.nan, dz.nan]
      simp only [Bool.not_false, Bool.true_and]
      apply beq_false_of_ne
      intro e
      have k1 : ¬ fkey z < fkey 0 := by omega
      have k2 : ¬ fkey 0 < fkey z := by omega
      rw [fkey_val, hz.2, dz.2, Int.zero_mul] at k1 k2
      exact h0 ((scale_zero st).1 (by omega))
    exact ⟨fr3, _, u, l, t, by
      simp only [getFloat_num, getFloat_num, getFloat_num, this, h1, h2, h3, Bool.or_self, Bool.not_false, Bool.and_self,
        Bool.false_eq_true, if_false], hg⟩

/-! ## Loops over containers -/

theorem toSoff_denotes {W : Nat} {u : BitVec 32} {i : Int} (h : Denotes u i) (h1 : 0 ≤ i) (h2 : i < 2 ^ (8 * W - 1)) : toSoff W u = i := by
  have ht : ftrunc u = i := by unfold ftrunc; rw [h.val]; exact Int.mul_tdiv_cancel _ (by decide)
  have hp : (0 : Int) < 2 ^ (8 * W - 1) := by exact Int.pow_pos (by decide)
  unfold toSoff fToInt
  rw [ht, if_pos ⟨h.fin, by omega, h2⟩]
  rfl

theorem in_loop {ε : Type} {Is : ε → Val → σ → Prop} {C : σ → Prop} (hP : TamePrim P) (hD : TameDefs P.W defs) {d fd x : Nat} {body els : Stmt}
    (hx : ¬ Hidden P.W x) (hfd : fd < 256) (hb : TameS P.W (fd + 1) body) {arr : Val} {es : List ε} (hy : Elements P C Is arr es)
    (hlen : es.length < 2 ^ 24) (hlen2 : (es.length : Int) < 2 ^ (8 * P.W - 1))
    (hC : ∀ m s f t, C s.w → execS P defs m d (fd + 1) body s = .ok f t → C t.w) (n : Nat) :
    ∀ (s : St σ) (k : Nat) (u : BitVec 32) (r : R σ Flow), k ≤ es.length →
    Inv P.W s.fr.abs → LocalVal s.fr.abs (forTmp P.W (UInt8.ofNat fd) 1) → C s.w → s.read (forTmp P.W (UInt8.ofNat fd) 0) = some arr →
    s.read (forTmp P.W (UInt8.ofNat fd) 1) = some (.num u) → Denotes u k →
    execIn P defs n d fd x body els s = r → r.cut = false →
    ForEach (BindElem Is C P.W x) (fun s r => ∃ m, execS P defs m d (fd + 1) body s = r) (InEnd P defs C d fd els) (es.drop k) s r := by
  induction n with
  | zero => intro s k u r _ _ _ _ _ _ _ hr hn; rw [← hr, execIn] at hn; simp [R.cut] at hn
  | succ n ih =>
    intro s k u r hk hi hloc hc harr hu du hr hn
    have t0 := tmp_hidden hP.width hfd (i := 0) (by decide)
    have t1 := tmp_hidden hP.width hfd (i := 1) (by decide)
    have x0 : x ≠ forTmp P.W (UInt8.ofNat fd) 0 := fun e => hx (e ▸ t0)
    have x1 : x ≠ forTmp P.W (UInt8.ofNat fd) 1 := fun e => hx (e ▸ t1)
    have x2 : forTmp P.W (UInt8.ofNat fd) 0 ≠ forTmp P.W (UInt8.ofNat fd) 1 := by
      have e0 := forTmp_eq hP.width hfd (i := 0) (by decide)
      have e1 := forTmp_eq hP.width hfd (i := 1) (by decide)
      omega
    have hsoff : toSoff P.W u = k := toSoff_denotes du (by omega) (by omega)
    have dk : Denotes (intToF (k + 1)) (k + 1) := intToF_denotes (by constructor <;> omega)
    obtain ⟨li, h1, h1'⟩ := lookup_of_read hu
    obtain ⟨la, h2, h2'⟩ := lookup_of_read harr
    have hne : li ≠ la := by
      rintro rfl
      have a := lookup_idAt _ _ h1
      have b := lookup_idAt _ _ h2
      rw [a] at b
      simp only [Option.some.injEq] at b
      exact x2 b.symm
    have hs := read_set s.fr _ (Val.ofF (intToF (k + 1))) (clean_float _) li h1
    have hstep : inStep P x (UInt8.ofNat fd) s.fr s.w =
        match P.iter arr k s.w with
        | (none, w) => (.error, s.fr.set li (Val.ofF (intToF (k + 1))), w)
        | (some v, w) =>
          if Val.isNull v then (.stop, s.fr.set li (Val.ofF (intToF (k + 1))), w)
          else match storeId P (s.fr.set li (Val.ofF (intToF (k + 1)))) w x v with
            | (true, fr, w) => (.go, fr, w)
            | (false, fr, w) => (.error, fr, w) := by
      unfold inStep
      simp only [h1, h2, h1', getFloat_num, hsoff, get_set_ne s.fr _ hne, h2', Bool.false_eq_true, if_false]
      rcases P.iter arr k s.w with ⟨_ | v, w⟩
      · rfl
      · simp only []
        split
        · rfl
        · rcases storeId P (s.fr.set li (Val.ofF (intToF (k + 1)))) w x v with ⟨_ | _, fr, w⟩ <;> rfl
    rw [execIn] at hr
    have hgood := fun l fr w => inStep_good (K := Outer P.W fd) (l := l) (fr := fr) (w := w) hP outer_hidden hi hx
      (tmp_not_outer hP.width hfd (i := 1) (by decide)) hloc
    by_cases hend : k = es.length
    · obtain ⟨w', he, hcw⟩ := hy.stop s.w hc
      rw [← hend] at he
      rw [he] at hstep
      simp only [Val.isNull, beq_self_eq_true, if_true] at hstep
      rw [hstep] at hr
      rw [hend, List.drop_length]
      refine .done ⟨n, _, ?_, hcw, hr⟩
      intro y hh
      have y1 : y ≠ forTmp P.W (UInt8.ofNat fd) 1 := fun e => hh (e ▸ t1)
      rw [read_abs, read_abs]; exact hs.2 y y1
    · have hlt : k < es.length := by omega
      rw [List.drop_eq_getElem_cons hlt]
      obtain ⟨v, w', he, hnn, hcw, hv⟩ := hy.elem s.w k _ hc (List.getElem?_eq_getElem hlt)
      have hgv : Val.isGlobal v = false := hP.iter arr k s.w v (by rw [he])
      have hnv : Val.isNull v = false := by unfold Val.isNull; exact beq_false_of_ne hnn
      obtain ⟨fr', e1, e2⟩ := storeId_ok hP (s.fr.set li (Val.ofF (intToF (k + 1)))) w' x v hgv
      rw [he] at hstep
      simp only [hnv, Bool.false_eq_true, if_false, e1] at hstep
      obtain ⟨hg, hloc'⟩ := hgood _ _ _ hstep (by simp)
      have ra := read_assign (s.fr.set li (Val.ofF (intToF (k + 1)))).abs x v
      rw [← e2] at ra
      have hbind : BindElem Is C P.W x es[k] s ⟨fr', (P.varAlloc w').2.2⟩ := by
        refine ⟨v, hv, ?_, ?_, hy.alloc _ hcw⟩
        · rw [read_abs]; exact ra.1
        · intro y hyx hh
          have y1 : y ≠ forTmp P.W (UInt8.ofNat fd) 1 := fun e => hh (e ▸ t1)
          rw [read_abs, read_abs]
          exact (ra.2 y hyx).trans (hs.2 y y1)
      rw [hstep] at hr
      simp only [] at hr
      cases hB : execS P defs n d (fd + 1) body ⟨fr', (P.varAlloc w').2.2⟩ with
      | ok f z =>
        rw [hB] at hr
        simp only [R.bind] at hr
        have hz := ((keeps P defs hP hD n).s d (fd + 1) body _ hb hg.1 f z hB).2
        have rt : ∀ i, i < 2 → z.read (forTmp P.W (UInt8.ofNat fd) i) = fr'.abs.read (forTmp P.W (UInt8.ofNat fd) i) := by
          intro i hi2
          rw [read_abs]
          exact read_same hz.2 (tmp_hidden hP.width hfd hi2) (tmp_outer hP.width hfd hi2)
        have hnext : ∀ r, execIn P defs n d fd x body els z = r → r.cut = false →
            ForEach (BindElem Is C P.W x) (fun s r => ∃ m, execS P defs m d (fd + 1) body s = r) (InEnd P defs C d fd els)
              (es.drop (k + 1)) z r := by
          intro r hr hn
          refine ih z (k + 1) (intToF (k + 1)) r hlt hz.1 (hloc'.same hz.2 (tmp_outer hP.width hfd (by decide))) ?_ ?_ ?_ ?_ hr hn
          · exact hC n _ f z (hy.alloc _ hcw) hB
          · rw [rt 0 (by decide), ra.2 _ x0.symm, hs.2 _ x2, ← read_abs, harr]
          · rw [rt 1 (by decide), ra.2 _ x1.symm, hs.1, dk.ofF]
          · rw [Int.natCast_add]; exact dk
        cases f with
        | normal => exact .next hbind ⟨n, hB⟩ (.inl rfl) (hnext r hr hn)
        | cont => exact .next hbind ⟨n, hB⟩ (.inr rfl) (hnext r hr hn)
        | brk => rw [← hr]; exact .brk hbind ⟨n, hB⟩
        | ret w => rw [← hr]; exact .ret hbind ⟨n, hB⟩
      | err g w => rw [hB] at hr; rw [← hr]; exact .err hbind ⟨n, hB⟩
      | over => rw [hB] at hr; rw [← hr]; exact .over hbind ⟨n, hB⟩
      | time => rw [hB] at hr; rw [← hr] at hn; simp [R.bind, R.cut] at hn

end

end Snek.Lang
