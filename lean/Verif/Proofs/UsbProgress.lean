import Verif.Proofs.UsbControl
/-! # Endpoint 0: addresses, and that requests come to an end -/
namespace Snek.UsbControl
open Spec.UsbControl

/-- The host gives an address only when the interrupt of the last packet before has been served. -/
def Calm (d : Dev) (r : Req) : Prop := setsAddress r = true → d.trcpt1 = false ∧ .tx ∉ d.work

/-- Device and host agree about the address, or will. -/
def AddrOk (s : State) : Prop :=
  (s.dev.pending = false ∧ s.dev.dadd = s.addr ∧
    ∀ r, s.phase = .statusIn r → setsAddress r = true → Fresh s.dev r ∧ s.dev.trcpt1 = false ∧ .tx ∉ s.dev.work) ∨
  (s.dev.pending = true ∧ s.dev.dadd = s.addr ∧ ∃ r, s.phase = .statusIn r ∧ setsAddress r = true ∧ s.dev.address = r.value ∧
    s.dev.trcpt1 = false ∧ .tx ∉ s.dev.work ∧ Acked s.dev) ∨
  (s.dev.pending = true ∧ s.dev.address = s.addr ∧ (s.dev.trcpt1 = true ∨ .tx ∈ s.dev.work) ∧ (s.dev.dadd = s.addr ∨ s.phase = .idle) ∧
    ∀ r, s.phase = .statusIn r → setsAddress r = false)

theorem flush_frame (d : Dev) : (flush d).pending = d.pending ∧ (flush d).address = d.address ∧ (flush d).dadd = d.dadd ∧ (flush d).trcpt1 = d.trcpt1 := by
  unfold flush; split <;> exact ⟨rfl, rfl, rfl, rfl⟩

theorem inStart_frame (d : Dev) (n : Nat) : (inStart d n).pending = d.pending ∧ (inStart d n).address = d.address ∧ (inStart d n).dadd = d.dadd ∧
    (inStart d n).trcpt1 = d.trcpt1 := flush_frame _

theorem dispatch_address (mem : Mem) (s : Dev) (r : Req) :
    (dispatch mem s r).pending = (setsAddress r || s.pending) ∧ (dispatch mem s r).address = (if setsAddress r = true then r.value else s.address) := by
  have gd : ∀ v l, (getDescriptor mem s v l).pending = s.pending ∧ (getDescriptor mem s v l).address = s.address := by
    intro v l; unfold getDescriptor; split <;> exact ⟨rfl, rfl⟩
  have q : ∀ (s : Dev) (a : UInt8), (queue s a).pending = s.pending ∧ (queue s a).address = s.address := by
    intro s a; unfold queue; split <;> exact ⟨rfl, rfl⟩
  have qq : ∀ (a b : UInt8), (queue (queue s a) b).pending = s.pending ∧ (queue (queue s a) b).address = s.address :=
    fun a b => ⟨(q _ b).1.trans (q s a).1, (q _ b).2.trans (q s a).2⟩
  have neg : setsAddress r = false → ∀ x : Dev, x.pending = s.pending ∧ x.address = s.address →
      x.pending = (setsAddress r || s.pending) ∧ x.address = (if setsAddress r = true then r.value else s.address) := by
    intro e x hx; rw [e]; exact hx
  unfold dispatch
  split
  · rename_i t0
    split
    · rename_i r0
      split
      · rename_i q0; exact neg (by simp [setsAddress, q0]) _ (qq 0 0)
      · rename_i q5
        have : setsAddress r = true := by simp [setsAddress, t0, r0, q5]
        rw [this]; exact ⟨rfl, rfl⟩
      · rename_i q6; exact neg (by simp [setsAddress, q6]) _ (gd _ _)
      · rename_i q8; exact neg (by simp [setsAddress, q8]) _ (q _ _)
      · rename_i q9; exact neg (by simp [setsAddress, q9]) _ ⟨rfl, rfl⟩
      · rename_i n1 n2 n3 n4 n5
        have : r.request ≠ 5 := n2
        exact neg (by simp [setsAddress, this]) _ ⟨rfl, rfl⟩
    · rename_i r1
      have e : setsAddress r = false := by simp [setsAddress, r1]
      split
      · exact neg e _ (qq 0 0)
      · exact neg e _ (q _ _)
      · exact neg e _ ⟨rfl, rfl⟩
    · rename_i r2
      have e : setsAddress r = false := by simp [setsAddress, r2]
      split
      · exact neg e _ (qq 0 0)
      · exact neg e _ ⟨rfl, rfl⟩
    · rename_i n0 _ _
      have : r.recip ≠ 0 := n0
      exact neg (by simp [setsAddress, this]) _ ⟨rfl, rfl⟩
  · rename_i t1
    have e : setsAddress r = false := by simp [setsAddress, t1]
    split <;> exact neg e _ ⟨rfl, rfl⟩
  · rename_i n0 _
    have : r.type ≠ 0 := n0
    exact neg (by simp [setsAddress, this]) _ ⟨rfl, rfl⟩

/-- What looking at a request does to the address. -/
theorem setup_address (mem : Mem) (d : Dev) (r : Req) (h : d.outBuf = .setup r) :
    (setup mem d).pending = (setsAddress r || d.pending) ∧ (setup mem d).address = (if setsAddress r = true then r.value else d.address) ∧
    (setup mem d).dadd = d.dadd ∧ (setup mem d).trcpt1 = d.trcpt1 := by
  unfold setup
  split
  · rename_i h'; rw [h] at h'; cases h'
  · rename_i r' h'
    rw [h] at h'; cases h'
    dsimp only
    obtain ⟨_, _, _, _, _, _, f7, _, f9⟩ := dispatch_frame mem
      (inReset { d with outLen := 0, bk0 := false, state := if r.dirIn = true ∨ r.length = 0 then .dataIn else .dataOut }) r
    obtain ⟨g1, g2⟩ := dispatch_address mem
      (inReset { d with outLen := 0, bk0 := false, state := if r.dirIn = true ∨ r.length = 0 then .dataIn else .dataOut }) r
    generalize dispatch mem (inReset { d with outLen := 0, bk0 := false, state := if r.dirIn = true ∨ r.length = 0 then .dataIn else .dataOut }) r = x at *
    by_cases c : x.state = .dataIn
    · rw [if_pos c]
      obtain ⟨k1, k2, k3, k4⟩ := inStart_frame x r.length
      exact ⟨k1.trans g1, k2.trans g2, k3.trans f9, k4.trans f7⟩
    · rw [if_neg c]; exact ⟨g1, g2, f9, f7⟩

theorem rx_frame (mem : Mem) (d : Dev) : (handle mem d .rx).pending = d.pending ∧ (handle mem d .rx).address = d.address ∧
    (handle mem d .rx).dadd = d.dadd ∧ (handle mem d .rx).trcpt1 = d.trcpt1 := by
  have hf : (fill d).pending = d.pending ∧ (fill d).address = d.address ∧ (fill d).dadd = d.dadd ∧ (fill d).trcpt1 = d.trcpt1 := by
    unfold fill; split <;> exact ⟨rfl, rfl, rfl, rfl⟩
  have e : handle mem d .rx = (if d.state = .dataOut then if (fill d).outLen = 0 then inStart { fill d with state := .dataIn } 0 else fill d else d) := rfl
  rw [e]
  by_cases c : d.state = .dataOut
  · rw [if_pos c]
    by_cases c' : (fill d).outLen = 0
    · rw [if_pos c']
      obtain ⟨k1, k2, k3, k4⟩ := inStart_frame { fill d with state := .dataIn } 0
      exact ⟨k1.trans hf.1, k2.trans hf.2.1, k3.trans hf.2.2.1, k4.trans hf.2.2.2⟩
    · rw [if_neg c']; exact hf
  · rw [if_neg c]; exact ⟨rfl, rfl, rfl, rfl⟩

theorem tx_frame (mem : Mem) (d : Dev) : (handle mem d .tx).pending = false ∧ (handle mem d .tx).dadd = (if d.pending then d.address else d.dadd) ∧
    (handle mem d .tx).trcpt1 = d.trcpt1 := by
  have e : handle mem d .tx = settle (if d.state = .dataIn then flush d else d) := rfl
  rw [e]
  have hx : ∀ x : Dev, x.pending = d.pending ∧ x.address = d.address ∧ x.dadd = d.dadd ∧ x.trcpt1 = d.trcpt1 →
      (settle x).pending = false ∧ (settle x).dadd = (if d.pending then d.address else d.dadd) ∧ (settle x).trcpt1 = d.trcpt1 := by
    intro x ⟨h1, h2, h3, h4⟩
    unfold settle
    rw [h1]
    cases hp : d.pending with
    | true => exact ⟨rfl, h2, h4⟩
    | false => exact ⟨h1.trans hp, h3, h4⟩
  by_cases c : d.state = .dataIn
  · rw [if_pos c]; exact hx _ (flush_frame d)
  · rw [if_neg c]; exact hx _ ⟨rfl, rfl, rfl, rfl⟩

theorem step_addr {blocks : Board} (hw : Wf blocks) {may : Dev → Req → Prop}
    (hmay : ∀ d r, may d r → Polite r ∧ Loose blocks r ∧ Calm d r)
    {s s' : State} (hi : Inv blocks s) (h : AddrOk s) (hs : Step may (memory blocks) s s') : AddrOk s' := by
  have hi' := step_inv hw (fun d r hm => ⟨(hmay d r hm).1, (hmay d r hm).2.1⟩) hi hs
  cases hs with
  | isr hwk hfl =>
    have ntx : ∀ d : Dev, d.trcpt1 = false → Work.tx ∉ (isr d).work := by
      intro d h; unfold isr; rw [h]; cases d.rxstp <;> cases d.trcpt0 <;> simp
    rcases h with ⟨a, b, c⟩ | ⟨a, b, r, c, e, f, g, _, k⟩ | ⟨a, b, c, e, f⟩
    · refine Or.inl ⟨a, b, fun r hr ha => ?_⟩
      obtain ⟨x, y, _⟩ := c r hr ha
      exact ⟨isr_fresh hwk x, rfl, ntx _ y⟩
    · exact Or.inr (Or.inl ⟨a, b, r, c, e, f, rfl, ntx _ g, ⟨isr_seen k.1, k.2, k.3⟩⟩)
    · refine Or.inr (Or.inr ⟨a, b, Or.inr (isr_tx (c.resolve_right ?_)), e, f⟩)
      rw [hwk]; intro h; cases h
  | work w l hwk =>
    have hwo := hi.work
    rw [hwk] at hwo
    have sub : ∀ v, v ∉ s.dev.work → v ∉ l := fun v hv hm => hv (by rw [hwk]; exact List.mem_cons_of_mem _ hm)
    cases w with
    | setup =>
      -- which request is looked at
      have hfresh : ∃ r, Fresh s.dev r ∧ (setsAddress r = true → s.phase = .statusIn r ∧ Polite r) := by
        have no : ¬ Seen s.dev := fun hs => hs.2 (by rw [hwk]; exact List.mem_cons_self)
        have hph := hi.phase
        cases hp : s.phase with
        | idle => rw [hp] at hph; exact absurd hph.1 no
        | dataIn r got =>
          rw [hp] at hph
          rcases hph.2.2 with ⟨_, f⟩ | ⟨D, _, q⟩
          · exact ⟨r, f, fun ha => by have := (hph.1.1.address ha).1; rw [hph.1.2.2.1] at this; cases this⟩
          · exact absurd q.seen no
        | statusOut r got => rw [hp] at hph; exact absurd hph.1 no
        | dataOut r =>
          rw [hp] at hph
          rcases hph.2.2 with f | ⟨q, _⟩
          · exact ⟨r, f, fun ha => by have := hph.1.2; unfold setsAddress at ha; unfold setsCoding at this; simp at ha this; omega⟩
          · exact absurd q.seen no
        | statusIn r =>
          rw [hp] at hph
          rcases hph.2 with ⟨_, _, f | q⟩ | ⟨_, ⟨q, _⟩ | ⟨q, _⟩⟩
          · exact ⟨r, f, fun _ => ⟨rfl, hph.1.1⟩⟩
          · exact absurd q.seen no
          · exact absurd q.seen no
          · exact absurd q.seen no
      obtain ⟨r, f, hra⟩ := hfresh
      obtain ⟨k1, k2, k3, k4⟩ := setup_address (memory blocks) { s.dev with work := l } r f.out
      have kw : (setup (memory blocks) { s.dev with work := l }).work = l := setup_work _ _
      have htx : Work.tx ∈ s.dev.work → Work.tx ∈ l := by
        intro hm; rw [hwk] at hm
        rcases List.mem_cons.mp hm with e | e
        · cases e
        · exact e
      cases ha : setsAddress r with
      | true =>
        obtain ⟨hph, pol⟩ := hra ha
        rw [ha] at k1 k2
        rcases h with ⟨a, b, c⟩ | ⟨_, _, r', _, _, _, _, _, k⟩ | ⟨_, _, _, _, x⟩
        · obtain ⟨_, y, z⟩ := c r hph ha
          have hack : Acked (setup (memory blocks) { s.dev with work := l }) := by
            have hphi := hi'.phase
            have e : (setup (memory blocks) { s.dev with work := l }).rxstp = false ∧ True := by
              have hp2 := hi.phase
              rcases f.when with ⟨_, hn⟩ | ⟨q, _, _⟩
              · exact absurd (by rw [hwk]; exact List.mem_cons_self) hn
              · refine ⟨?_, trivial⟩
                have hx : PhaseOk blocks (s.done.map Prod.fst) (setup (memory blocks) { s.dev with work := l }) s.phase := hphi
                rw [hph] at hx
                rcases hx.2 with ⟨_, _, f' | q'⟩ | ⟨sc, _⟩
                · have hb := f'.bk0
                  have : (setup (memory blocks) { s.dev with work := l }).bk0 = false := by
                    unfold setup
                    split
                    · rename_i h'; rw [show s.dev.outBuf = .setup r from f.out] at h'; cases h'
                    · rename_i r' h'
                      dsimp only
                      have hd3 := (dispatch_frame (memory blocks)
                        (inReset { { s.dev with work := l } with outLen := 0, bk0 := false, state := if r'.dirIn = true ∨ r'.length = 0 then .dataIn else .dataOut }) r').2.2.1
                      have hf0 : ∀ x : Dev, (flush x).bk0 = x.bk0 := by intro x; unfold flush; split <;> rfl
                      generalize dispatch (memory blocks)
                        (inReset { { s.dev with work := l } with outLen := 0, bk0 := false, state := if r'.dirIn = true ∨ r'.length = 0 then .dataIn else .dataOut }) r' = x at hd3 ⊢
                      by_cases c : x.state = .dataIn
                      · rw [if_pos c]; unfold inStart; rw [hf0]; exact hd3
                      · rw [if_neg c]; exact hd3
                  rw [this] at hb; cases hb
                · exact q'.seen.1
                · have := sc; unfold setsCoding at this; unfold setsAddress at ha; simp at this ha; omega
            have hx : PhaseOk blocks (s.done.map Prod.fst) (setup (memory blocks) { s.dev with work := l }) s.phase := hphi
            rw [hph] at hx
            rcases hx.2 with ⟨_, _, f' | q'⟩ | ⟨sc, _⟩
            · rcases f'.when with ⟨hn, _⟩ | ⟨_, hn, _⟩
              · rw [e.1] at hn; cases hn
              · rw [kw] at hn
                rcases hwo with e | e | e | e | e | e <;> cases e <;> cases hn
            · exact q'
            · have := sc; unfold setsCoding at this; unfold setsAddress at ha; simp at this ha; omega
          exact Or.inr (Or.inl ⟨k1, k3.trans b, r, hph, ha, k2, k4.trans y, by rw [show (handle (memory blocks) { s.dev with work := l } .setup).work = l from kw]; exact sub _ z, hack⟩)
        · have := k.bk1; rw [f.bk1] at this; cases this
        · have := x r hph; rw [ha] at this; cases this
      | false =>
        rw [ha] at k1 k2
        rcases h with ⟨a, b, c⟩ | ⟨_, _, r', _, _, _, _, _, k⟩ | ⟨a, b, c, e, x⟩
        · refine Or.inl ⟨k1.trans a, k3.trans b, fun r' hr' ha' => ?_⟩
          obtain ⟨f', _⟩ := c r' hr' ha'
          have : r' = r := by have := f'.out; rw [f.out] at this; cases this; rfl
          rw [this, ha] at ha'; cases ha'
        · have := k.bk1; rw [f.bk1] at this; cases this
        · refine Or.inr (Or.inr ⟨k1.trans a, k2.trans b, ?_, e.imp k3.trans id, x⟩)
          rcases c with c | c
          · exact Or.inl (k4.trans c)
          · exact Or.inr (by rw [show (handle (memory blocks) { s.dev with work := l } .setup).work = l from kw]; exact htx c)
    | rx =>
      obtain ⟨k1, k2, k3, k4⟩ := rx_frame (memory blocks) { s.dev with work := l }
      have kw : (handle (memory blocks) { s.dev with work := l } .rx).work = l := handle_work _ _ _
      have htx : Work.tx ∈ s.dev.work → Work.tx ∈ l := by
        intro hm; rw [hwk] at hm
        rcases List.mem_cons.mp hm with e | e
        · cases e
        · exact e
      have same : s.dev.state = .idle → handle (memory blocks) { s.dev with work := l } .rx = { s.dev with work := l } := by
        intro e
        show (if s.dev.state = .dataOut then _ else { s.dev with work := l }) = _
        rw [if_neg (by rw [e]; decide)]
      rcases h with ⟨a, b, c⟩ | ⟨a, b, r, c, e, f, g, g', k⟩ | ⟨a, b, c, e, x⟩
      · refine Or.inl ⟨k1.trans a, k3.trans b, fun r hr ha => ?_⟩
        obtain ⟨f, y, z⟩ := c r hr ha
        rw [show (State.dev { s with dev := handle (memory blocks) { s.dev with work := l } .rx }) = { s.dev with work := l } from same f.state]
        refine ⟨⟨f.1, f.2, f.3, f.4, ?_⟩, y, sub _ z⟩
        rcases f.when with ⟨p, q⟩ | ⟨_, q, _⟩
        · exact Or.inl ⟨p, sub _ q⟩
        · rw [hwk] at q; cases q
      · refine Or.inr (Or.inl ⟨k1.trans a, k3.trans b, r, c, e, k2.trans f, k4.trans g, by rw [kw]; exact sub _ g', ?_⟩)
        rw [show (State.dev { s with dev := handle (memory blocks) { s.dev with work := l } .rx }) = { s.dev with work := l } from same k.state]
        exact ⟨⟨k.1.1, sub _ k.1.2⟩, k.2, k.3⟩
      · refine Or.inr (Or.inr ⟨k1.trans a, k2.trans b, ?_, e.imp k3.trans id, x⟩)
        rcases c with c | c
        · exact Or.inl (k4.trans c)
        · exact Or.inr (by rw [kw]; exact htx c)
    | tx =>
      obtain ⟨k1, k3, k4⟩ := tx_frame (memory blocks) { s.dev with work := l }
      have mem : Work.tx ∈ s.dev.work := by rw [hwk]; exact List.mem_cons_self
      rcases h with ⟨a, b, c⟩ | ⟨_, _, _, _, _, _, _, g', _⟩ | ⟨a, b, c, e, x⟩
      · refine Or.inl ⟨k1, by rw [k3]; dsimp only; rw [a]; exact b, fun r hr ha => ?_⟩
        exact absurd mem (c r hr ha).2.2
      · exact absurd mem g'
      · refine Or.inl ⟨k1, by rw [k3]; dsimp only; rw [a]; exact b, fun r hr ha => ?_⟩
        have := x r hr; rw [ha] at this; cases this
  | setup r hph hadr hm =>
    obtain ⟨p1, p2, p3⟩ := hmay _ _ hm
    have hidle := hi.phase
    rw [hph] at hidle
    obtain ⟨i1, i2, i3, _⟩ := hidle
    rcases h with ⟨a, b, c⟩ | ⟨_, _, r', c, _⟩ | ⟨a, b, c, e, x⟩
    · refine Or.inl ⟨a, b, fun r' hr' ha' => ?_⟩
      have hr : r' = r := by
        have hr' : afterSetup r = .statusIn r' := hr'
        unfold afterSetup at hr'
        by_cases c0 : r.length = 0
        · rw [if_pos c0] at hr'; cases hr'; rfl
        · rw [if_neg c0] at hr'; split at hr' <;> cases hr'
      subst hr
      exact ⟨⟨i2, i3, rfl, rfl, Or.inl ⟨rfl, i1.2⟩⟩, p3 ha'⟩
    · rw [hph] at c; cases c
    · refine Or.inr (Or.inr ⟨a, b, c, Or.inl hadr, fun r' hr' => ?_⟩)
      have hr : r' = r := by
        have hr' : afterSetup r = .statusIn r' := hr'
        unfold afterSetup at hr'
        by_cases c0 : r.length = 0
        · rw [if_pos c0] at hr'; cases hr'; rfl
        · rw [if_neg c0] at hr'; split at hr' <;> cases hr'
      subst hr
      cases ha : setsAddress r' with
      | false => rfl
      | true =>
        obtain ⟨y, z⟩ := p3 ha
        rcases c with c | c
        · rw [y] at c; cases c
        · exact absurd c z
  | dataIn r got p hph hadr hb =>
    have np : ∀ r', (if p.length < 32 ∨ r.length ≤ (got ++ p).length then Phase.statusOut r (got ++ p) else .dataIn r (got ++ p)) ≠ .statusIn r' := by
      intro r' e; split at e <;> cases e
    rcases h with ⟨a, b, c⟩ | ⟨_, _, r', c, _⟩ | ⟨a, b, c, e, x⟩
    · exact Or.inl ⟨a, b, fun r' hr' => absurd hr' (np r')⟩
    · rw [hph] at c; cases c
    · exact Or.inr (Or.inr ⟨a, b, Or.inl rfl, Or.inl hadr, fun r' hr' => absurd hr' (np r')⟩)
  | statusOut r got hph hadr hb =>
    have hph' := hi.phase
    rw [hph] at hph'
    have hsa := hph'.2.2.2.2.2.2.2
    have e : afterDone r s.addr = s.addr := by unfold afterDone; rw [hsa]; rfl
    rcases h with ⟨a, b, c⟩ | ⟨_, _, r', c, _⟩ | ⟨a, b, c, _, x⟩
    · exact Or.inl ⟨a, b.trans e.symm, fun r' hr' => by cases hr'⟩
    · rw [hph] at c; cases c
    · exact Or.inr (Or.inr ⟨a, b.trans e.symm, c, Or.inl (hadr.trans e.symm), fun r' hr' => by cases hr'⟩)
  | dataOut r hph hadr hb =>
    have hph' := hi.phase
    rw [hph] at hph'
    have hsc := hph'.1.2
    have hsa : setsAddress r = false := by
      cases ha : setsAddress r with
      | false => rfl
      | true => unfold setsCoding at hsc; unfold setsAddress at ha; simp at hsc ha; omega
    rcases h with ⟨a, b, c⟩ | ⟨_, _, r', c, _⟩ | ⟨a, b, c, _, x⟩
    · exact Or.inl ⟨a, b, fun r' hr' ha => by cases hr'; rw [hsa] at ha; cases ha⟩
    · rw [hph] at c; cases c
    · exact Or.inr (Or.inr ⟨a, b, c, Or.inl hadr, fun r' hr' => by cases hr'; exact hsa⟩)
  | statusIn r p hph hadr hb =>
    rcases h with ⟨a, b, c⟩ | ⟨a, b, r', c, e, f, _⟩ | ⟨a, b, c, e, x⟩
    · have hsa : setsAddress r = false := by
        cases ha : setsAddress r with
        | false => rfl
        | true => have := (c r hph ha).1.bk1; rw [this] at hb; cases hb
      have e : afterDone r s.addr = s.addr := by unfold afterDone; rw [hsa]; rfl
      exact Or.inl ⟨a, b.trans e.symm, fun r' hr' => by cases hr'⟩
    · rw [hph] at c; cases c
      have e' : afterDone r s.addr = r.value := by unfold afterDone; rw [e]; rfl
      exact Or.inr (Or.inr ⟨a, f.trans e'.symm, Or.inl rfl, Or.inr rfl, fun r' hr' => by cases hr'⟩)
    · have e' : afterDone r s.addr = s.addr := by unfold afterDone; rw [x r hph]; rfl
      exact Or.inr (Or.inr ⟨a, b.trans e'.symm, Or.inl rfl, Or.inr rfl, fun r' hr' => by cases hr'⟩)

/-- In a request something can always happen. -/
theorem progress {blocks : Board} {may : Dev → Req → Prop} {s : State} (hi : Inv blocks s) (h : AddrOk s) (hn : s.phase ≠ .idle) :
    ∃ s', Step may (memory blocks) s s' := by
  -- something for the handler to do
  by_cases hwk : s.dev.work = []
  · by_cases hfl : (s.dev.rxstp || s.dev.trcpt0 || s.dev.trcpt1) = true
    · exact ⟨_, .isr s hwk hfl⟩
    · have h0 : s.dev.rxstp = false ∧ s.dev.trcpt0 = false ∧ s.dev.trcpt1 = false := by
        cases h1 : s.dev.rxstp <;> cases h2 : s.dev.trcpt0 <;> cases h3 : s.dev.trcpt1 <;> simp [h1, h2, h3] at hfl ⊢
      have nw : ∀ w : Work, w ∉ s.dev.work := by intro w hm; rw [hwk] at hm; cases hm
      have hadr : s.dev.dadd = s.addr := by
        rcases h with ⟨_, b, _⟩ | ⟨_, b, _⟩ | ⟨_, _, c, _⟩
        · exact b
        · exact b
        · rcases c with c | c
          · rw [h0.2.2] at c; cases c
          · exact absurd c (nw _)
      have nf : ∀ r, ¬ Fresh s.dev r := by
        intro r f
        rcases f.when with ⟨a, _⟩ | ⟨_, b, _⟩
        · rw [h0.1] at a; cases a
        · rw [hwk] at b; cases b
      have hph := hi.phase
      cases hp : s.phase with
      | idle => exact absurd hp hn
      | dataIn r got =>
        rw [hp] at hph
        rcases hph.2.2 with ⟨_, f⟩ | ⟨D, _, q⟩
        · exact absurd f (nf r)
        · rcases Option.eq_none_or_eq_some s.dev.bk1 with hb | ⟨p, hb⟩
          · rcases (q.wait hb).2 with c | c
            · rw [h0.2.2] at c; cases c
            · exact absurd c (nw _)
          · exact ⟨_, .dataIn s r got p hp hadr hb⟩
      | statusOut r got =>
        rw [hp] at hph
        exact ⟨_, .statusOut s r got hp hadr hph.2.2.2.2.1⟩
      | dataOut r =>
        rw [hp] at hph
        rcases hph.2.2 with f | ⟨_, q, _⟩
        · exact absurd f (nf r)
        · exact ⟨_, .dataOut s r hp hadr q⟩
      | statusIn r =>
        rw [hp] at hph
        rcases hph.2 with ⟨_, _, f | q⟩ | ⟨_, ⟨_, _, _, _, c⟩ | ⟨q, _⟩⟩
        · exact absurd f (nf r)
        · exact ⟨_, .statusIn s r [] hp hadr q.bk1⟩
        · rcases c with c | c
          · rw [h0.2.1] at c; cases c
          · exact absurd c (nw _)
        · exact ⟨_, .statusIn s r [] hp hadr q.bk1⟩
  · obtain ⟨w, l, e⟩ := List.exists_cons_of_ne_nil hwk
    exact ⟨_, .work s w l e⟩

/-! ## Requests end -/

def count (b : Bool) : Nat := if b then 1 else 0

/-- What the host can still do in a request. -/
def left : Phase → Nat
  | .idle => 0
  | .dataIn r got => 3 + (r.length - got.length)
  | .statusOut _ _ => 1
  | .dataOut _ => 2
  | .statusIn _ => 1

def measure (s : State) : Nat :=
  10 * left s.phase + 3 * (count s.dev.rxstp + count s.dev.trcpt0 + count s.dev.trcpt1) + s.dev.work.length

theorem handle_flags (mem : Mem) (d : Dev) (w : Work) : (handle mem d w).rxstp = d.rxstp ∧ (handle mem d w).trcpt0 = d.trcpt0 ∧
    (handle mem d w).trcpt1 = d.trcpt1 := by
  have fl : ∀ d : Dev, (flush d).rxstp = d.rxstp ∧ (flush d).trcpt0 = d.trcpt0 ∧ (flush d).trcpt1 = d.trcpt1 := by
    intro d; unfold flush; split <;> exact ⟨rfl, rfl, rfl⟩
  cases w with
  | setup =>
    show (setup mem d).rxstp = d.rxstp ∧ (setup mem d).trcpt0 = d.trcpt0 ∧ (setup mem d).trcpt1 = d.trcpt1
    unfold setup
    split
    · exact ⟨rfl, rfl, rfl⟩
    · rename_i r _
      dsimp only
      obtain ⟨_, _, _, _, f5, f6, f7, _, _⟩ := dispatch_frame mem
        (inReset { d with outLen := 0, bk0 := false, state := if r.dirIn = true ∨ r.length = 0 then .dataIn else .dataOut }) r
      generalize dispatch mem (inReset { d with outLen := 0, bk0 := false, state := if r.dirIn = true ∨ r.length = 0 then .dataIn else .dataOut }) r = x at *
      by_cases c : x.state = .dataIn
      · rw [if_pos c]
        obtain ⟨k1, k2, k3⟩ := fl { x with inLen := if x.inLen > r.length then r.length else x.inLen }
        exact ⟨k1.trans f5, k2.trans f6, k3.trans f7⟩
      · rw [if_neg c]; exact ⟨f5, f6, f7⟩
  | rx =>
    have hf : (fill d).rxstp = d.rxstp ∧ (fill d).trcpt0 = d.trcpt0 ∧ (fill d).trcpt1 = d.trcpt1 := by
      unfold fill; split <;> exact ⟨rfl, rfl, rfl⟩
    have e : handle mem d .rx = (if d.state = .dataOut then if (fill d).outLen = 0 then inStart { fill d with state := .dataIn } 0 else fill d else d) := rfl
    rw [e]
    by_cases c : d.state = .dataOut
    · rw [if_pos c]
      by_cases c' : (fill d).outLen = 0
      · rw [if_pos c']
        obtain ⟨k1, k2, k3⟩ := fl { fill d with state := .dataIn, inLen := if (fill d).inLen > 0 then 0 else (fill d).inLen }
        exact ⟨k1.trans hf.1, k2.trans hf.2.1, k3.trans hf.2.2⟩
      · rw [if_neg c']; exact hf
    · rw [if_neg c]; exact ⟨rfl, rfl, rfl⟩
  | tx =>
    have e : handle mem d .tx = settle (if d.state = .dataIn then flush d else d) := rfl
    rw [e]
    have st : ∀ x : Dev, (settle x).rxstp = x.rxstp ∧ (settle x).trcpt0 = x.trcpt0 ∧ (settle x).trcpt1 = x.trcpt1 := by
      intro x; unfold settle; split <;> exact ⟨rfl, rfl, rfl⟩
    by_cases c : d.state = .dataIn
    · rw [if_pos c]
      exact ⟨(st _).1.trans (fl d).1, (st _).2.1.trans (fl d).2.1, (st _).2.2.trans (fl d).2.2⟩
    · rw [if_neg c]; exact st d

/-- Every step but the beginning of a request comes nearer to its end. -/
theorem step_measure {may : Dev → Req → Prop} {mem : Mem} {s s' : State} (hs : Step may mem s s') (h : ¬ (s.phase = .idle ∧ s'.phase ≠ .idle)) :
    measure s' < measure s := by
  cases hs with
  | isr hwk hfl =>
    unfold measure
    dsimp only
    unfold isr
    rw [hwk]
    cases h1 : s.dev.rxstp <;> cases h2 : s.dev.trcpt0 <;> cases h3 : s.dev.trcpt1 <;> simp [h1, h2, h3, count] at hfl ⊢ <;> omega
  | work w l hwk =>
    obtain ⟨k1, k2, k3⟩ := handle_flags mem { s.dev with work := l } w
    have k4 := handle_work mem { s.dev with work := l } w
    unfold measure
    dsimp only
    rw [k1, k2, k3, k4, hwk, List.length_cons]
    dsimp only
    omega
  | setup r hph hadr hm =>
    refine absurd ⟨hph, ?_⟩ h
    show afterSetup r ≠ .idle
    unfold afterSetup
    split
    · intro e; cases e
    · split <;> (intro e; cases e)
  | dataIn r got p hph hadr hb =>
    unfold measure
    dsimp only
    rw [hph]
    have : count s.dev.trcpt1 ≤ 1 := by unfold count; split <;> omega
    by_cases c : p.length < 32 ∨ r.length ≤ (got ++ p).length
    · rw [if_pos c]; simp only [left, count, if_true]; omega
    · rw [if_neg c]
      rw [List.length_append] at c
      simp only [left, count, if_true, List.length_append]
      omega
  | statusOut r got hph hadr hb =>
    unfold measure
    dsimp only
    rw [hph]
    simp only [left, count, if_true]; omega
  | dataOut r hph hadr hb =>
    unfold measure
    dsimp only
    rw [hph]
    simp only [left, count, if_true]; omega
  | statusIn r p hph hadr hb =>
    unfold measure
    dsimp only
    rw [hph]
    simp only [left, count, if_true]; omega

end Snek.UsbControl
