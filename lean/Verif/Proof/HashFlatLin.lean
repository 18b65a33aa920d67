import Verif.Proof.HashFlatDyn
/-! The functions of tommy_hashlin on the bytes. -/
set_option linter.unusedSimpArgs false
set_option linter.unusedVariables false
namespace Tommy

variable [Arch]
namespace HashFlat
open Lean.Order

variable {α β : Type} {G : Gh}

/-- The number of a state. -/
def stCode : LinState → Nat
  | .stable => linStable
  | .grow => linGrow
  | .shrink => linShrink

omit [Arch] in
theorem stCode_inj {a b : LinState} : stCode a = stCode b ↔ a = b := by cases a <;> cases b <;> decide

omit [Arch] in
theorem stCode_lt (a : LinState) : stCode a < 2 ^ (8 * 4) := by cases a <;> decide

/-- The struct at the address `b`. -/
structure LinAt (F : Fld) (φ : Nat → Nat) (b : Nat) (t : Hashlin) : Prop where
  seg : ∀ i r, i < sizeBit → t.bucket i = some r → F (b + ptrSize * i) ptrSize = some (some (aR φ r))
  segd : ∀ i, i < sizeBit → F (b + ptrSize * i) ptrSize ≠ none
  max : F (b + linMax) ptrSize = some (some t.bucketMax)
  mask : F (b + linMask) ptrSize = some (some t.bucketMask)
  lowMax : F (b + linLowMax) ptrSize = some (some t.lowMax)
  lowMask : F (b + linLowMask) ptrSize = some (some t.lowMask)
  split : F (b + linSplit) ptrSize = some (some t.split)
  count : F (b + linCount) ptrSize = some (some t.count)
  bit : F (b + linBit) 4 = some (some t.bucketBit)
  state : F (b + linState) 4 = some (some (stCode t.state))

/-- The bytes of the struct. -/
structure LinDom (F : Fld) (b : Nat) : Prop where
  segd : ∀ i, i < sizeBit → F (b + ptrSize * i) ptrSize ≠ none
  max : F (b + linMax) ptrSize ≠ none
  mask : F (b + linMask) ptrSize ≠ none
  lowMax : F (b + linLowMax) ptrSize ≠ none
  lowMask : F (b + linLowMask) ptrSize ≠ none
  split : F (b + linSplit) ptrSize ≠ none
  count : F (b + linCount) ptrSize ≠ none
  bit : F (b + linBit) 4 ≠ none
  state : F (b + linState) 4 ≠ none

theorem LinAt.dom {F : Fld} {φ : Nat → Nat} {b : Nat} {t : Hashlin} (h : LinAt F φ b t) : LinDom F b :=
  ⟨h.segd, by rw [h.max]; simp, by rw [h.mask]; simp, by rw [h.lowMax]; simp, by rw [h.lowMask]; simp, by rw [h.split]; simp,
   by rw [h.count]; simp, by rw [h.bit]; simp, by rw [h.state]; simp⟩

macro "lat " h:term : tactic => `(tactic| exact ⟨fun i r hi hr => by flds (($h).seg i r hi hr), fun i hi => by fldd (($h).segd i hi),
  by flds ($h).max, by flds ($h).mask, by flds ($h).lowMax, by flds ($h).lowMask, by flds ($h).split, by flds ($h).count, by flds ($h).bit,
  by flds ($h).state⟩)

section
variable {F : Fld} {φ : Nat → Nat} {b : Nat} {t : Hashlin}
theorem LinAt.setMax (h : LinAt F φ b t) (c : Nat) : LinAt (F.set (b + linMax) ptrSize c) φ b { t with bucketMax := c } := by lat h
theorem LinAt.setMask (h : LinAt F φ b t) (c : Nat) : LinAt (F.set (b + linMask) ptrSize c) φ b { t with bucketMask := c } := by lat h
theorem LinAt.setLowMax (h : LinAt F φ b t) (c : Nat) : LinAt (F.set (b + linLowMax) ptrSize c) φ b { t with lowMax := c } := by lat h
theorem LinAt.setLowMask (h : LinAt F φ b t) (c : Nat) : LinAt (F.set (b + linLowMask) ptrSize c) φ b { t with lowMask := c } := by lat h
theorem LinAt.setSplit (h : LinAt F φ b t) (c : Nat) : LinAt (F.set (b + linSplit) ptrSize c) φ b { t with split := c } := by lat h
theorem LinAt.setCount (h : LinAt F φ b t) (c : Nat) : LinAt (F.set (b + linCount) ptrSize c) φ b { t with count := c } := by lat h
theorem LinAt.setBit (h : LinAt F φ b t) (c : Nat) : LinAt (F.set (b + linBit) 4 c) φ b { t with bucketBit := c } := by lat h
theorem LinAt.setState (h : LinAt F φ b t) (c : LinState) : LinAt (F.set (b + linState) 4 (stCode c)) φ b { t with state := c } := by lat h

theorem LinAt.setSeg (h : LinAt F φ b t) {j : Nat} (hj : j < sizeBit) (r : Ref) :
    LinAt (F.set (b + ptrSize * j) ptrSize (aR φ r)) φ b { t with bucket := upd t.bucket j (some r) } := by
  refine ⟨fun i r' hi hr => ?_, fun i hi => ?_, by flds h.max, by flds h.mask, by flds h.lowMax, by flds h.lowMask, by flds h.split, by flds h.count,
    by flds h.bit, by flds h.state⟩
  · by_cases e : i = j
    · subst e
      simp only [upd_same, Option.some.injEq] at hr
      subst hr
      exact Fld.set_same ..
    · simp only [upd_ne e] at hr
      rw [Fld.set_ne (.inl (by arch))]
      exact h.seg i r' hi hr
  · rw [ne_eq, Fld.set_dom (h.segd j hj)]; exact h.segd i hi
end

/-- From `G0` to `G`: now the struct is `t`. -/
structure LinS (G0 G : Gh) (b : Nat) (t : Hashlin) (evs : List BEvent) : Prop where
  at_ : LinAt G.F G.φ b t
  lt : ∀ i r, t.bucket i = some r → r.vec < G.N
  step : Step G0 G b linStruct evs

section
variable {G0 : Gh} {b : Nat} {t : Hashlin} {evs : List BEvent}
theorem LinS.setMax (h : LinS G0 G b t evs) (c : Nat) : LinS G0 (G.set (b + linMax) ptrSize c) b { t with bucketMax := c } evs :=
  ⟨h.at_.setMax c, h.lt, h.step.set h.at_.dom.max (by omega) (by offs)⟩
theorem LinS.setMask (h : LinS G0 G b t evs) (c : Nat) : LinS G0 (G.set (b + linMask) ptrSize c) b { t with bucketMask := c } evs :=
  ⟨h.at_.setMask c, h.lt, h.step.set h.at_.dom.mask (by omega) (by offs)⟩
theorem LinS.setLowMax (h : LinS G0 G b t evs) (c : Nat) : LinS G0 (G.set (b + linLowMax) ptrSize c) b { t with lowMax := c } evs :=
  ⟨h.at_.setLowMax c, h.lt, h.step.set h.at_.dom.lowMax (by omega) (by offs)⟩
theorem LinS.setLowMask (h : LinS G0 G b t evs) (c : Nat) : LinS G0 (G.set (b + linLowMask) ptrSize c) b { t with lowMask := c } evs :=
  ⟨h.at_.setLowMask c, h.lt, h.step.set h.at_.dom.lowMask (by omega) (by offs)⟩
theorem LinS.setSplit (h : LinS G0 G b t evs) (c : Nat) : LinS G0 (G.set (b + linSplit) ptrSize c) b { t with split := c } evs :=
  ⟨h.at_.setSplit c, h.lt, h.step.set h.at_.dom.split (by omega) (by offs)⟩
theorem LinS.setCount (h : LinS G0 G b t evs) (c : Nat) : LinS G0 (G.set (b + linCount) ptrSize c) b { t with count := c } evs :=
  ⟨h.at_.setCount c, h.lt, h.step.set h.at_.dom.count (by omega) (by offs)⟩
theorem LinS.setBit (h : LinS G0 G b t evs) (c : Nat) : LinS G0 (G.set (b + linBit) 4 c) b { t with bucketBit := c } evs :=
  ⟨h.at_.setBit c, h.lt, h.step.set h.at_.dom.bit (by omega) (by offs)⟩
theorem LinS.setState (h : LinS G0 G b t evs) (c : LinState) : LinS G0 (G.set (b + linState) 4 (stCode c)) b { t with state := c } evs :=
  ⟨h.at_.setState c, h.lt, h.step.set h.at_.dom.state (by omega) (by offs)⟩

theorem LinS.setSeg (h : LinS G0 G b t evs) {j : Nat} (hj : j < sizeBit) {r : Ref} (hr : r.vec < G.N) :
    LinS G0 (G.set (b + ptrSize * j) ptrSize (aR G.φ r)) b { t with bucket := upd t.bucket j (some r) } evs :=
  ⟨h.at_.setSeg hj r, fun i r' hi => by
    by_cases e : i = j
    · subst e; simp only [upd_same, Option.some.injEq] at hi; subst hi; exact hr
    · simp only [upd_ne e] at hi; exact h.lt i r' hi,
   h.step.set (h.at_.segd j hj) (by omega) (by offs)⟩

/-- The fields which are not in the memory. -/
theorem LinS.ghost (h : LinS G0 G b t evs) {t' : Hashlin} (e : t' = { t with work := t'.work, moved := t'.moved }) : LinS G0 G b t' evs := by
  rw [e]
  exact ⟨⟨h.at_.seg, h.at_.segd, h.at_.max, h.at_.mask, h.at_.lowMax, h.at_.lowMask, h.at_.split, h.at_.count, h.at_.bit, h.at_.state⟩, h.lt, h.step⟩

theorem LinS.got (h : LinS G0 G b t evs) {v p n : Nat} (hv : G.N ≤ v) : LinS G0 (G.got v p n) b t (evs ++ [.got p n]) := by
  refine ⟨{ h.at_ with seg := fun i r hi hr => ?_ }, fun i r hr => ?_, h.step.got hv⟩
  · have := h.lt i r hr
    rw [Gh.got_φ, aR_congr (φ := G.φ) (upd_ne (by omega))]
    exact h.at_.seg i r hi hr
  · have := h.lt i r hr
    simp only [Gh.got]; omega

theorem LinS.gave (h : LinS G0 G b t evs) {p : Nat} : LinS G0 (G.gave p) b t (evs ++ [.gave p]) :=
  ⟨⟨h.at_.seg, h.at_.segd, h.at_.max, h.at_.mask, h.at_.lowMax, h.at_.lowMask, h.at_.split, h.at_.count, h.at_.bit, h.at_.state⟩, h.lt, h.step.gave⟩

theorem LinS.start (h : LinAt G.F G.φ b t) (hl : ∀ i r, t.bucket i = some r → r.vec < G.N) : LinS G G b t [] := ⟨h, hl, Step.refl ..⟩

theorem sim_seg (h : LinS G0 G b t evs) (i : Nat) :
    SimE G (hashlinSeg t i) (bseg b i) fun r p => p = aR G.φ r ∧ t.bucket i = some r ∧ i < sizeBit := by
  intro m W hr a m' e
  unfold hashlinSeg at e
  split at e
  swap
  · cases e
  next hi =>
  simp only [Option.map_eq_some_iff, Prod.mk.injEq] at e
  obtain ⟨r, e1, rfl, rfl⟩ := e
  obtain ⟨p, W', G', h1, h2, h3⟩ := sim_fget_last (a := ()) (Q := fun _ p G' => p = aR G.φ r ∧ G' = G) (h.at_.seg i r hi e1) (fun _ => ⟨rfl, rfl⟩) m W hr () m rfl
  obtain ⟨rfl, rfl⟩ := h3
  refine ⟨_, W', G', ?_, h2, rfl, rfl, e1, hi⟩
  simp only [bseg, if_pos hi, bget]; exact h1

theorem sim_setSeg (h : LinS G0 G b t evs) (i : Nat) {r : Ref} (hr : r.vec < G.N) :
    Sim G (hashlinSetSeg t i r) (bsetSeg b i (aR G.φ r)) fun t' _ G' => t' = { t with bucket := upd t.bucket i (some r) } ∧
      i < sizeBit ∧ G' = G.set (b + ptrSize * i) ptrSize (aR G.φ r) ∧ LinS G0 G' b t' evs := by
  intro m W hg a m' e
  unfold hashlinSetSeg at e
  split at e
  swap
  · cases e
  next hi =>
  cases e
  obtain ⟨p, W', G', h1, h2, h3⟩ := sim_fset_last (a := ()) (v := aR G.φ r) (Q := fun _ _ G' => G' = G.set (b + ptrSize * i) ptrSize (aR G.φ r)) (h.at_.segd i hi)
    (pow4 (aR_lt _ _)) rfl m W hg () m rfl
  subst h3
  refine ⟨(), W', _, ?_, h2, rfl, hi, rfl, h.setSeg hi hr⟩
  simp only [bsetSeg, if_pos hi, bset]; exact h1

theorem sim_linStable (h : LinS G0 G b t evs) :
    Sim G (Pure.pure (hashlinStable t)) (bhashlinStable b) fun t' _ G' => LinS G0 G' b t' evs ∧ t' = hashlinStable t ∧ G'.φ = G.φ := by
  unfold bhashlinStable
  refine sim_fset (v := stCode .stable) h.at_.dom.state (stCode_lt _) ?_
  have h1 := h.setState .stable
  refine sim_fget h1.at_.max fun hm => ?_
  refine sim_fset h1.at_.dom.lowMax hm ?_
  have h2 := h1.setLowMax t.bucketMax
  refine sim_fget h2.at_.mask fun hm => ?_
  refine sim_fset h2.at_.dom.lowMask hm ?_
  have h3 := h2.setLowMask t.bucketMask
  exact sim_fset_last h3.at_.dom.split (pow4 (by positivity)) ⟨h3.setSplit 0, rfl, rfl⟩

theorem LinDom.set {F : Fld} {b p n v : Nat} (h : LinDom F b) (hp : F p n ≠ none) : LinDom (F.set p n v) b := by
  refine ⟨fun i hi => ?_, ?_, ?_, ?_, ?_, ?_, ?_, ?_, ?_⟩ <;> rw [ne_eq, Fld.set_dom hp]
  exacts [h.segd i hi, h.max, h.mask, h.lowMax, h.lowMask, h.split, h.count, h.bit, h.state]

/-- The struct during init. -/
structure LinPre (G0 G : Gh) (b : Nat) (t : Hashlin) (evs : List BEvent) : Prop where
  seg : ∀ i r, i < sizeBit → t.bucket i = some r → G.F (b + ptrSize * i) ptrSize = some (some (aR G.φ r))
  max : G.F (b + linMax) ptrSize = some (some t.bucketMax)
  mask : G.F (b + linMask) ptrSize = some (some t.bucketMask)
  bit : G.F (b + linBit) 4 = some (some t.bucketBit)
  dom : LinDom G.F b
  lt : ∀ i r, t.bucket i = some r → r.vec < G.N
  step : Step G0 G b linStruct evs

theorem sim_preSet (h : LinPre G0 G b t evs) (i : Nat) {r : Ref} (hr : r.vec < G.N) :
    Sim G (hashlinSetSeg t i r) (bsetSeg b i (aR G.φ r)) fun t' _ G' => t' = { t with bucket := upd t.bucket i (some r) } ∧
      i < sizeBit ∧ G' = G.set (b + ptrSize * i) ptrSize (aR G.φ r) ∧ LinPre G0 G' b t' evs := by
  intro m W hg a m' e
  unfold hashlinSetSeg at e
  split at e
  swap
  · cases e
  next hi =>
  cases e
  obtain ⟨p, W', G', h1, h2, h3⟩ := sim_fset_last (a := ()) (v := aR G.φ r) (Q := fun _ _ G' => G' = G.set (b + ptrSize * i) ptrSize (aR G.φ r)) (h.dom.segd i hi)
    (pow4 (aR_lt _ _)) rfl m W hg () m rfl
  subst h3
  refine ⟨(), W', _, ?_, h2, rfl, hi, rfl, ?_⟩
  · simp only [bsetSeg, if_pos hi, bset]; exact h1
  refine ⟨fun j r' hj hr' => ?_, by flds h.max, by flds h.mask, by flds h.bit, h.dom.set (h.dom.segd i hi), fun j r' hr' => ?_,
    h.step.set (h.dom.segd i hi) (by omega) (by offs)⟩
  · by_cases e : j = i
    · subst e
      simp only [upd_same, Option.some.injEq] at hr'
      subst hr'
      exact Fld.set_same ..
    · simp only [upd_ne e] at hr'
      rw [Gh.set_F, Fld.set_ne (.inl (by arch))]
      exact h.seg j r' hj hr'
  · by_cases e : j = i
    · subst e; simp only [upd_same, Option.some.injEq] at hr'; subst hr'; exact hr
    · simp only [upd_ne e] at hr'; exact h.lt j r' hr'

theorem sim_preSeg (h : LinPre G0 G b t evs) (i : Nat) :
    SimE G (hashlinSeg t i) (bseg b i) fun r p => p = aR G.φ r ∧ t.bucket i = some r ∧ i < sizeBit := by
  intro m W hr a m' e
  unfold hashlinSeg at e
  split at e
  swap
  · cases e
  next hi =>
  simp only [Option.map_eq_some_iff, Prod.mk.injEq] at e
  obtain ⟨r, e1, rfl, rfl⟩ := e
  obtain ⟨p, W', G', h1, h2, h3⟩ := sim_fget_last (a := ()) (Q := fun _ p G' => p = aR G.φ r ∧ G' = G) (h.seg i r hi e1) (fun _ => ⟨rfl, rfl⟩) m W hr () m rfl
  obtain ⟨rfl, rfl⟩ := h3
  refine ⟨_, W', G', ?_, h2, rfl, rfl, e1, hi⟩
  simp only [bseg, if_pos hi, bget]; exact h1

theorem sim_linInitLoop (k : Nat) : ∀ (G : Gh) (t : Hashlin) (i : Nat), 0 < i → LinPre G0 G b t evs →
    Sim G (hashlinInitLoop t i k) (bhashlinInitLoop b i k) fun t' _ G' => LinPre G0 G' b t' evs ∧ G'.φ = G.φ ∧ t'.bucket 0 = t.bucket 0 ∧
      t'.bucketBit = t.bucketBit ∧ t'.bucketMax = t.bucketMax := by
  induction k with
  | zero => intro G t i _ h; exact Sim.pure ⟨h, rfl, rfl, rfl, rfl⟩
  | succ k ih =>
    intro G t i hi0 h
    simp only [hashlinInitLoop, bhashlinInitLoop]
    refine SimE.bind (sim_preSeg h 0) ?_
    rintro r _ ⟨rfl, hr, _⟩
    refine Sim.bind (sim_preSet h i (h.lt 0 r hr)) ?_
    rintro t' _ G' ⟨rfl, hi, rfl, hs⟩
    refine (ih _ _ (i + 1) (by omega) hs).mono ?_
    rintro t'' _ G'' ⟨h1, h2, h3, h4, h5⟩
    exact ⟨h1, h2, h3.trans (upd_ne (by omega)), h4, h5⟩

theorem sim_linInit {b : Nat} (hd : LinDom G.F b) {nb : Nat} {c : Nat → Nat}
    {ms : List (Nat × (Nat → Nat))} (hms : G.ms = (nb, c) :: ms) (hf : Fresh G.live nb (64 * ptrSize)) :
    Sim G hashlinInit (bhashlinInit b) fun t' _ G' => LinS G G' b t' [.got nb (64 * ptrSize)] ∧ t'.bucketBit = 6 ∧ t'.bucketMax = 64 ∧
      ∃ r, t'.bucket 0 = some r ∧ r.off = 0 ∧ aR G'.φ r = nb := by
  unfold hashlinInit bhashlinInit
  refine sim_fset hd.bit (by decide) ?_
  have d1 : LinDom (G.set (b + linBit) 4 linBIT).F b := hd.set hd.bit
  have s1 := (Step.refl G b linStruct).set (x := b + linBit) (k := 4) (v := linBIT) hd.bit (by omega) (by offs)
  refine sim_fget (c := linBIT) (by flds hd.bit) fun _ => ?_
  refine SimE.bind (sim_shl _) ?_
  rintro max _ ⟨rfl, _, hmax⟩
  have hm : max = 64 := hmax
  subst hm
  have h16 : 64 < 2 ^ sizeBit := by archd
  refine sim_fset d1.max (pow4 h16) ?_
  have d2 := LinDom.set (v := 64) d1 d1.max
  have s2 := s1.set (x := b + linMax) (k := ptrSize) (v := 64) d1.max (by omega) (by offs)
  refine sim_fget (c := 64) (by flds hd.max) fun _ => ?_
  refine sim_fset d2.mask (pow4 (decT_lt (by omega))) ?_
  have d3 := LinDom.set (v := decT 64) d2 d2.mask
  have s3 := s2.set (x := b + linMask) (k := ptrSize) (v := decT 64) d2.mask (by omega) (by offs)
  refine sim_fget (c := 64) (by flds hd.max) fun _ => ?_
  refine Sim.bind (sim_calloc hms hf) ?_
  rintro r p G' ⟨rfl, v, hv, rfl, rfl⟩
  have hp : p < 2 ^ sizeBit := by have := hf.lt; omega
  have ha : aR (upd G.φ v p) ⟨v, 0⟩ = p := aR_base (upd_same ..) hp
  have s4 := s3.got (p := p) (n := 64 * ptrSize) hv
  have p4 : LinPre G (((G.set (b + linBit) 4 linBIT).set (b + linMax) ptrSize 64).set (b + linMask) ptrSize (decT 64) |>.got v p (64 * ptrSize)) b
      { bucket := fun _ => none, bucketMax := 64, bucketMask := decT 64, lowMax := 0, lowMask := 0,
        split := 0, count := 0, bucketBit := hashlinBIT, state := .stable, work := 0, moved := 0 } [.got p (64 * ptrSize)] :=
    ⟨fun i r _ h => (by simp at h), by flds hd.max, by flds hd.mask, by flds hd.bit, d3, fun i r h => (by simp at h), s4⟩
  have hs := sim_preSet p4 0 (r := ⟨v, 0⟩) (by simp only [Gh.got]; omega)
  simp only [Gh.set_φ, Gh.got_φ, ha] at hs
  refine Sim.bind hs ?_
  rintro t5 _ G5 ⟨e5, _, eG5, p5⟩
  refine Sim.bind (sim_linInitLoop (hashlinBIT - 1) _ _ 1 (by omega) p5) ?_
  rintro t6 _ G6 ⟨p6, e6, f6, g6, k6⟩
  have e : (Pure.pure { hashlinStable t6 with count := 0 } : MM Hashlin) = (Pure.pure () >>= fun _ => Pure.pure { hashlinStable t6 with count := 0 }) := rfl
  rw [e]
  have hst : Sim G6 (Pure.pure ()) (bhashlinStable b) fun (_ : Unit) _ G7 => G7.φ = G6.φ ∧ LinDom G7.F b ∧ ∀ c, LinS G (G7.set (b + linCount) ptrSize c) b
      { hashlinStable t6 with count := c } [.got p (64 * ptrSize)] := by
    unfold bhashlinStable
    refine sim_fset (v := stCode .stable) p6.dom.state (stCode_lt _) ?_
    have d1 := p6.dom.set (v := stCode .stable) p6.dom.state
    have s1 := p6.step.set (x := b + linState) (k := 4) (v := stCode .stable) p6.dom.state (by omega) (by offs)
    refine sim_fget (c := t6.bucketMax) (by flds p6.max) fun hm => ?_
    refine sim_fset d1.lowMax hm ?_
    have d2 := d1.set (v := t6.bucketMax) d1.lowMax
    have s2 := s1.set (x := b + linLowMax) (k := ptrSize) (v := t6.bucketMax) d1.lowMax (by omega) (by offs)
    refine sim_fget (c := t6.bucketMask) (by flds p6.mask) fun hm => ?_
    refine sim_fset d2.lowMask hm ?_
    have d3 := d2.set (v := t6.bucketMask) d2.lowMask
    have s3 := s2.set (x := b + linLowMask) (k := ptrSize) (v := t6.bucketMask) d2.lowMask (by omega) (by offs)
    refine sim_fset_last d3.split (pow4 (by positivity)) ?_
    have d4 := d3.set (v := 0) d3.split
    have s4 := s3.set (x := b + linSplit) (k := ptrSize) (v := 0) d3.split (by omega) (by offs)
    refine ⟨rfl, d4, fun c => ?_⟩
    have s5 := s4.set (x := b + linCount) (k := ptrSize) (v := c) d4.count (by omega) (by offs)
    refine ⟨⟨fun i r hi hr => by flds (p6.seg i r hi hr), fun i hi => (d4.set d4.count).segd i hi, by flds p6.max, by flds p6.mask,
      by flds p6.max, by flds p6.mask, by flds p6.max, by flds p6.max, by flds p6.bit, by flds p6.bit⟩, fun i r hr => p6.lt i r hr, s5⟩
  refine Sim.bind hst ?_
  rintro _ _ G7 ⟨e7, d7, h7⟩
  refine sim_fset_last d7.count (pow4 (by positivity)) ⟨h7 0, ?_, ?_, ⟨v, 0⟩, ?_, rfl, ?_⟩
  · show t6.bucketBit = 6
    rw [g6, e5]; rfl
  · show t6.bucketMax = 64
    rw [k6, e5]
  · show t6.bucket 0 = _
    rw [f6, e5]; exact upd_same (fun _ => none) 0 _
  · rw [Gh.set_φ, e7, e6, eG5]; exact ha

theorem sim_linDoneLoop (h : LinS G0 G b t evs) (k : Nat) : ∀ (i : Nat), t.bucketBit = i + k →
    Sim G (hashlinDoneLoop t i k) (bhashlinDoneLoop b i) fun _ _ G' => ∃ f : Nat → Ref, (∀ j, i ≤ j → j < t.bucketBit → t.bucket j = some (f j)) ∧
      LinS G0 G' b t (evs ++ (List.range' i k).map fun j => .gave (aR G.φ ((f j).add (2 ^ j : Nat)))) := by
  induction k generalizing G evs with
  | zero =>
    intro i hi
    rw [bhashlinDoneLoop]
    simp only [hashlinDoneLoop]
    refine sim_fget h.at_.bit fun _ => ?_
    rw [if_neg (by omega)]
    exact Sim.pure ⟨fun _ => ⟨0, 0⟩, fun j _ _ => by omega, by simpa using h⟩
  | succ k ih =>
    intro i hi
    rw [bhashlinDoneLoop]
    simp only [hashlinDoneLoop]
    refine sim_fget h.at_.bit fun _ => ?_
    rw [if_pos (by omega)]
    refine SimE.bind (sim_seg h i) ?_
    rintro r _ ⟨rfl, hr, _⟩
    refine SimE.bind (sim_shlS i) ?_
    rintro off _ ⟨rfl, _, ho⟩
    rw [padd_aR]
    refine Sim.bind (sim_free _) ?_
    rintro _ _ _ ⟨_, _, rfl⟩
    refine (ih h.gave (i + 1) (by omega)).mono ?_
    rintro _ _ G' ⟨f, hf, h2⟩
    refine ⟨upd f i r, fun j h1 h2 => ?_, ?_⟩
    · by_cases e : j = i
      · rw [e, upd_same]; exact hr
      · rw [upd_ne e]; exact hf j (by omega) h2
    · have e : (List.range' i (k + 1)).map (fun j => BEvent.gave (aR G.φ ((upd f i r j).add (2 ^ j : Nat)))) =
          .gave (aR G.φ (r.add off)) :: (List.range' (i + 1) k).map fun j => BEvent.gave (aR G.φ ((f j).add (2 ^ j : Nat))) := by
        rw [List.range'_succ, List.map_cons, upd_same, ho]
        congr 1
        refine List.map_congr_left fun j hj => ?_
        rw [upd_ne (by have := List.mem_range'_1.1 hj; omega)]
      rw [e]
      rw [List.append_assoc] at h2
      exact h2

theorem sim_linDone (h : LinS G G b t []) (hb : 6 ≤ t.bucketBit) :
    Sim G (hashlinDone t) (bhashlinDone b) fun _ _ G' => ∃ f : Nat → Ref, t.bucket 0 = some (f 0) ∧ (∀ j, 6 ≤ j → j < t.bucketBit → t.bucket j = some (f j)) ∧
      LinS G G' b t (.gave (aR G.φ (f 0)) :: (List.range' 6 (t.bucketBit - 6)).map fun j => .gave (aR G.φ ((f j).add (2 ^ j : Nat)))) := by
  unfold hashlinDone bhashlinDone
  refine SimE.bind (sim_seg h 0) ?_
  rintro r _ ⟨rfl, hr, _⟩
  refine Sim.bind (sim_free _) ?_
  rintro _ _ _ ⟨_, _, rfl⟩
  refine (sim_linDoneLoop h.gave (t.bucketBit - hashlinBIT) hashlinBIT (by show t.bucketBit = 6 + (t.bucketBit - 6); omega)).mono ?_
  rintro _ _ G' ⟨f, hf, h2⟩
  refine ⟨upd f 0 r, by rw [upd_same]; exact hr, fun j h1 h2 => ?_, ?_⟩
  · rw [upd_ne (by omega)]; exact hf j h1 h2
  · have e : (List.range' 6 (t.bucketBit - 6)).map (fun j => BEvent.gave (aR G.φ ((upd f 0 r j).add (2 ^ j : Nat)))) =
        (List.range' 6 (t.bucketBit - 6)).map fun j => BEvent.gave (aR G.φ ((f j).add (2 ^ j : Nat))) := by
      refine List.map_congr_left fun j hj => ?_
      rw [upd_ne (by have := List.mem_range'_1.1 hj; omega)]
    rw [e, upd_same]
    exact h2

theorem sim_linPos (h : LinS G0 G b t evs) (pos : Nat) : SimE G (hashlinPos t pos) (bhashlinPos b pos) fun r p => p = aR G.φ r := by
  unfold hashlinPos bhashlinPos
  have e : (ilog2M (pos ||| 1) : MM Nat) = Pure.pure (Nat.log2 (pos ||| 1)) := by
    funext m
    have h0 : pos ||| 1 ≠ 0 := by
      have := Nat.right_le_or (n := pos) (m := 1)
      omega
    simp only [ilog2M, if_neg h0, ilog2]
    rfl
  rw [e, pure_bind]
  refine SimE.bind (sim_seg h _) ?_
  rintro r _ ⟨rfl, hr, _⟩
  exact Sim.pure ⟨rfl, padd_aR ..⟩

theorem sim_linBucketRef (h : LinS G0 G b t evs) (hash : Nat) :
    SimE G (hashlinBucketRef t hash) (bhashlinBucketRef b hash) fun r p => p = aR G.φ r := by
  unfold hashlinBucketRef bhashlinBucketRef
  refine sim_fget h.at_.lowMask fun _ => sim_fget h.at_.mask fun _ => sim_fget h.at_.split fun _ => ?_
  exact sim_linPos h _

/-- The vectors stay as they are. -/
structure LinSame (t t' : Hashlin) : Prop where
  bit : t'.bucketBit = t.bucketBit
  bucket : t'.bucket = t.bucket

/-- A segment was added. -/
structure LinGrew (G G' : Gh) (t t' : Hashlin) (evs : List BEvent) : Prop where
  bit : t'.bucketBit = t.bucketBit + 1
  evs : ∃ nb c ms v, G.ms = (nb, c) :: ms ∧ evs = [.got nb (sizeT (t.bucketMax * ptrSize))] ∧ G.N ≤ v ∧
    t'.bucket = upd t.bucket t.bucketBit (some ((⟨v, 0⟩ : Ref).add (-(t.bucketMax : Int)))) ∧ G'.φ v = nb ∧ G'.φ = upd G.φ v nb

/-- A segment was freed. -/
structure LinShrank (G G' : Gh) (t t' : Hashlin) (evs : List BEvent) : Prop where
  bit : t'.bucketBit + 1 = t.bucketBit
  bucket : t'.bucket = t.bucket
  evs : ∃ r, t.bucket t'.bucketBit = some r ∧ evs = [.gave (aR G.φ (r.add (2 ^ t'.bucketBit : Nat)))]

theorem sim_linGrowStart (h : LinS G G b t []) (hm : t.state = .stable ∧ t.count > t.bucketMax / 2 → MallocOk G (sizeT (t.bucketMax * ptrSize))) :
    Sim G (hashlinGrowStart t) (bhashlinGrowStart b) fun t' _ G' => ∃ evs, LinS G G' b t' evs ∧
      (LinSame t t' ∧ G'.φ = G.φ ∧ evs = [] ∨ LinGrew G G' t t' evs) := by
  simp only [hashlinGrowStart, bhashlinGrowStart]
  refine sim_fget h.at_.state fun _ => sim_fget h.at_.count fun _ => sim_fget h.at_.max fun _ => ?_
  refine Sim.ite (by rw [show (linGrow) = stCode .grow from rfl, ne_eq, ne_eq, stCode_inj]) (fun hc => ?_) fun _ => Sim.pure ⟨[], h, .inl ⟨⟨rfl, rfl⟩, rfl, rfl⟩⟩
  refine sim_fget h.at_.state fun _ => ?_
  refine Sim.ite (by rw [show (linStable) = stCode .stable from rfl, stCode_inj]) (fun hst => ?_) fun _ => ?_
  swap
  · exact sim_fset_last (v := stCode .grow) h.at_.dom.state (stCode_lt _) ⟨[], h.setState .grow, .inl ⟨⟨rfl, rfl⟩, rfl, rfl⟩⟩
  refine sim_fget h.at_.max fun h0 => sim_fset h.at_.dom.lowMax h0 ?_
  have h1 := h.setLowMax t.bucketMax
  refine sim_fget h1.at_.mask fun h0 => sim_fset h1.at_.dom.lowMask h0 ?_
  have h2 := h1.setLowMask t.bucketMask
  refine sim_fget h2.at_.lowMax fun _ => ?_
  obtain ⟨nb, c, ms, hms, hc, hf⟩ := hm ⟨hst, hc.2⟩
  refine Sim.bind (sim_malloc (bytes_mul _) hms hc hf) ?_
  rintro r p G' ⟨rfl, v, hv, rfl, rfl⟩
  have hp : p < 2 ^ sizeBit := by have := hf.lt; omega
  have ha : aR (upd G.φ v p) ⟨v, 0⟩ = p := aR_base (upd_same ..) hp
  have h3 := h2.got (p := p) (n := sizeT (t.bucketMax * ptrSize)) hv
  refine sim_fget h3.at_.lowMax fun _ => ?_
  refine SimE.bind (sim_psub _ _) ?_
  rintro _ _ ⟨rfl, rfl⟩
  refine sim_fget h3.at_.bit fun _ => ?_
  have hs := sim_setSeg h3 t.bucketBit (r := (⟨v, 0⟩ : Ref).add (-(t.bucketMax : Int))) (by simp only [Ref.add, Gh.got]; omega)
  rw [← psub_aR] at hs
  simp only [Gh.set_φ, Gh.got_φ, ha] at hs
  refine Sim.bind hs ?_
  rintro t' _ G' ⟨rfl, hi, rfl, h4⟩
  refine sim_fget h4.at_.bit fun _ => ?_
  have e : (t.bucketBit + 1) % 2 ^ 32 = t.bucketBit + 1 := Nat.mod_eq_of_lt (by clear * - hi; arch)
  simp only [e]
  have hb4 : t.bucketBit + 1 < 2 ^ (8 * 4) := by clear * - hi; arch
  refine sim_fset h4.at_.dom.bit hb4 ?_
  have h5 := h4.setBit (t.bucketBit + 1)
  refine sim_fget h5.at_.bit fun _ => ?_
  refine SimE.bind (sim_shl _) ?_
  rintro max _ ⟨rfl, hb, hmax⟩
  have hmlt : max < 2 ^ sizeBit := by rw [hmax]; exact Nat.pow_lt_pow_right (by omega) hb
  refine sim_fset h5.at_.dom.max (pow4 hmlt) ?_
  have h6 := h5.setMax max
  refine sim_fget h6.at_.max fun _ => ?_
  refine sim_fset h6.at_.dom.mask (pow4 (decT_lt hmlt.le)) ?_
  have h7 := h6.setMask (decT max)
  refine sim_fset h7.at_.dom.split (pow4 (by positivity)) ?_
  have h8 := h7.setSplit 0
  refine sim_fset_last (v := stCode .grow) h8.at_.dom.state (stCode_lt _) ⟨_, h8.setState .grow, .inr ⟨rfl, ?_⟩⟩
  exact ⟨p, c, ms, v, hms, rfl, hv, rfl, upd_same .., rfl⟩

omit [Arch] in
theorem adm_imp {γ : Type} [Lean.Order.CCPO γ] {p : Prop} {P : γ → Prop} (h : Lean.Order.admissible P) :
    Lean.Order.admissible (fun x => p → P x) := by
  by_cases hp : p
  · simp only [hp, forall_const]; exact h
  · intro c hc h e; exact absurd e hp

omit [Arch] in
theorem adm_all {γ ι : Type} [Lean.Order.CCPO γ] {P : ι → γ → Prop} (h : ∀ i, Lean.Order.admissible (P i)) :
    Lean.Order.admissible (fun x => ∀ i, P i x) := by
  intro c hc hx i
  exact h i c hc fun y hy => hx y hy i

theorem sim_linGrowLoop (target : Nat) : ∀ (t : Hashlin) (G : Gh), LinS G0 G b t evs →
    Sim G (hashlinGrowLoop t target) (bhashlinGrowLoop b target) fun t' _ G' => LinS G0 G' b t' evs ∧ LinSame t t' ∧ G'.φ = G.φ := by
  refine hashlinGrowLoop.fixpoint_induct target
    (fun f => ∀ (t : Hashlin) (G : Gh), LinS G0 G b t evs →
      Sim G (f t) (bhashlinGrowLoop b target) fun t' _ G' => LinS G0 G' b t' evs ∧ LinSame t t' ∧ G'.φ = G.φ) ?_ ?_
  · refine adm_fun (P := fun t (x : MM Hashlin) => ∀ (G : Gh), LinS G0 G b t evs →
      Sim G x (bhashlinGrowLoop b target) fun t' _ G' => LinS G0 G' b t' evs ∧ LinSame t t' ∧ G'.φ = G.φ) fun t => ?_
    exact adm_all fun G => adm_imp (Sim.adm _ _ _)
  · intro f ih t G h
    rw [bhashlinGrowLoop]
    refine sim_fget h.at_.split fun _ => sim_fget h.at_.lowMax fun _ => ?_
    refine Sim.ite Iff.rfl (fun _ => ?_) fun _ => Sim.pure ⟨h, ⟨rfl, rfl⟩, rfl⟩
    refine sim_fget h.at_.split fun _ => ?_
    refine SimE.bind (sim_linPos h _) ?_
    rintro s0 _ rfl
    refine sim_fget h.at_.split fun _ => sim_fget h.at_.lowMax fun _ => ?_
    refine SimE.bind (sim_linPos h _) ?_
    rintro s1 _ rfl
    refine SimE.bind (sim_readRef s0) ?_
    rintro j _ ⟨rfl, hj⟩
    refine SimE.bind (sim_writeRef s0 (by positivity)) fun _ _ _ => ?_
    refine SimE.bind (sim_writeRef s1 (by positivity)) fun _ _ _ => ?_
    refine sim_fget h.at_.lowMax fun _ => ?_
    refine SimE.bind (sim_flushLoop (fun x => by split <;> rfl) hj) fun moved _ _ => ?_
    refine sim_fget h.at_.split fun _ => ?_
    refine sim_fset h.at_.dom.split (pow4 (sizeT_lt _)) ?_
    have h1 := h.setSplit (sizeT (t.split + 1))
    have h2 : LinS G0 (G.set (b + linSplit) ptrSize (sizeT (t.split + 1))) b
      { t with split := sizeT (t.split + 1), work := t.work + 1, moved := t.moved + moved } evs := h1.ghost rfl
    refine sim_fget h2.at_.split fun _ => sim_fget h2.at_.lowMax fun _ => ?_
    refine Sim.ite Iff.rfl (fun _ => ?_) fun _ => ?_
    · refine (sim_linStable h2).mono ?_
      rintro t' _ G' ⟨h3, rfl, h4⟩
      exact ⟨h3, ⟨rfl, rfl⟩, h4⟩
    · refine (ih _ _ h2).mono ?_
      rintro t' _ G' ⟨h3, ⟨h4, h5⟩, h6⟩
      exact ⟨h3, ⟨h4, h5⟩, h6⟩

/-- What an insertion does to the vectors. -/
theorem sim_linGrowStep (h : LinS G G b t []) (hm : t.state = .stable ∧ t.count > t.bucketMax / 2 → MallocOk G (sizeT (t.bucketMax * ptrSize))) :
    Sim G (hashlinGrowStep t) (bhashlinGrowStep b) fun t' _ G' => ∃ evs, LinS G G' b t' evs ∧
      (LinSame t t' ∧ G'.φ = G.φ ∧ evs = [] ∨ LinGrew G G' t t' evs) := by
  simp only [hashlinGrowStep, bhashlinGrowStep]
  refine Sim.bind (sim_linGrowStart h hm) ?_
  rintro t1 _ G1 ⟨evs, h1, hx⟩
  refine sim_fget h1.at_.state fun _ => ?_
  refine Sim.ite (by rw [show (linGrow) = stCode .grow from rfl, stCode_inj]) (fun hc => ?_) fun _ => Sim.pure ⟨evs, h1, hx⟩
  refine sim_fget h1.at_.count fun _ => ?_
  refine (sim_linGrowLoop _ t1 G1 h1).mono ?_
  rintro t2 _ G2 ⟨h2, ⟨e1, e2⟩, e3⟩
  refine ⟨evs, h2, ?_⟩
  rcases hx with ⟨⟨a, b⟩, c, d⟩ | ⟨a, nb, c, ms, v, d1, d2, d3, d4, d5, d6⟩
  · exact .inl ⟨⟨e1.trans a, e2.trans b⟩, e3.trans c, d⟩
  · exact .inr ⟨e1.trans a, nb, c, ms, v, d1, d2, d3, e2.trans d4, by rw [e3]; exact d5, by rw [e3]; exact d6⟩

theorem sim_linShrinkStart (h : LinS G0 G b t evs) :
    Sim G (Pure.pure (hashlinShrinkStart t)) (bhashlinShrinkStart b) fun t' _ G' => LinS G0 G' b t' evs ∧ t' = hashlinShrinkStart t ∧ LinSame t t' ∧ G'.φ = G.φ := by
  unfold hashlinShrinkStart bhashlinShrinkStart
  refine sim_fget h.at_.state fun _ => sim_fget h.at_.count fun _ => sim_fget h.at_.max fun hmax => ?_
  have e1 : (stCode t.state ≠ linShrink ∧ t.count < t.bucketMax / 8) ↔ (t.state ≠ .shrink ∧ t.count < t.bucketMax / 8) := by
    rw [show (linShrink) = stCode .shrink from rfl, ne_eq, ne_eq, stCode_inj]
  by_cases c1 : t.state ≠ .shrink ∧ t.count < t.bucketMax / 8
  swap
  · rw [if_neg c1, if_neg (e1.not.2 c1)]; exact Sim.pure ⟨h, rfl, ⟨rfl, rfl⟩, rfl⟩
  rw [if_pos c1, if_pos (e1.2 c1)]
  refine sim_fget h.at_.bit fun _ => ?_
  by_cases c2 : t.bucketBit > hashlinBIT
  swap
  · rw [if_neg c2, if_neg (show ¬ t.bucketBit > linBIT from c2)]; exact Sim.pure ⟨h, rfl, ⟨rfl, rfl⟩, rfl⟩
  rw [if_pos c2, if_pos (show t.bucketBit > linBIT from c2)]
  refine sim_fget h.at_.state fun _ => ?_
  have e3 : stCode t.state = linStable ↔ t.state = .stable := by rw [show (linStable) = stCode .stable from rfl, stCode_inj]
  by_cases c3 : t.state = .stable
  swap
  · simp only [if_neg c3]
    rw [if_neg (e3.not.2 c3)]
    exact sim_fset_last (v := stCode .shrink) h.at_.dom.state (stCode_lt _) ⟨h.setState .shrink, rfl, ⟨rfl, rfl⟩, rfl⟩
  simp only [if_pos c3]
  rw [if_pos (e3.2 c3)]
  refine sim_fget h.at_.max fun h0 => sim_fset h.at_.dom.lowMax (by omega) ?_
  have h1 := h.setLowMax (t.bucketMax / 2)
  refine sim_fget h1.at_.mask fun h0 => sim_fset h1.at_.dom.lowMask (by have : t.bucketMask < _ := h0; show t.bucketMask / 2 < _; omega) ?_
  have h2 := h1.setLowMask (t.bucketMask / 2)
  refine sim_fget h2.at_.lowMax fun h0 => sim_fset h2.at_.dom.split h0 ?_
  have h3 := h2.setSplit (t.bucketMax / 2)
  exact sim_fset_last (v := stCode .shrink) h3.at_.dom.state (stCode_lt _) ⟨h3.setState .shrink, rfl, ⟨rfl, rfl⟩, rfl⟩

/-- What a removal does to the vectors. -/
def LinLess (G G' : Gh) (t t' : Hashlin) (evs : List BEvent) : Prop :=
  G'.φ = G.φ ∧ (LinSame t t' ∧ evs = [] ∨ LinShrank G G' t t' evs)

theorem sim_linShrinkLoop (target : Nat) : ∀ (t : Hashlin) (G : Gh), 0 < t.bucketBit → LinS G0 G b t [] →
    Sim G (hashlinShrinkLoop t target) (bhashlinShrinkLoop b target) fun t' _ G' => ∃ evs, LinS G0 G' b t' evs ∧ LinLess G G' t t' evs := by
  refine hashlinShrinkLoop.fixpoint_induct target
    (fun f => ∀ (t : Hashlin) (G : Gh), 0 < t.bucketBit → LinS G0 G b t [] →
      Sim G (f t) (bhashlinShrinkLoop b target) fun t' _ G' => ∃ evs, LinS G0 G' b t' evs ∧ LinLess G G' t t' evs) ?_ ?_
  · refine adm_fun (P := fun t (x : MM Hashlin) => ∀ (G : Gh), 0 < t.bucketBit → LinS G0 G b t [] →
      Sim G x (bhashlinShrinkLoop b target) fun t' _ G' => ∃ evs, LinS G0 G' b t' evs ∧ LinLess G G' t t' evs) fun t => ?_
    exact adm_all fun G => adm_imp (adm_imp (Sim.adm _ _ _))
  · intro f ih t G hb0 h
    rw [bhashlinShrinkLoop]
    refine sim_fget h.at_.split fun hsp => sim_fget h.at_.lowMax fun _ => ?_
    refine Sim.ite Iff.rfl (fun _ => ?_) fun _ => Sim.pure ⟨[], h, rfl, .inl ⟨⟨rfl, rfl⟩, rfl⟩⟩
    refine sim_fget h.at_.split fun _ => ?_
    refine sim_fset h.at_.dom.split (pow4 (decT_lt (Nat.le_of_lt (lt4 hsp)))) ?_
    have h0 := h.setSplit (decT t.split)
    have h1 : LinS G0 (G.set (b + linSplit) ptrSize (decT t.split)) b { t with split := decT t.split, work := t.work + 1 } [] := h0.ghost rfl
    refine sim_fget h1.at_.split fun _ => ?_
    refine SimE.bind (sim_linPos h1 _) ?_
    rintro s0 _ rfl
    refine sim_fget h1.at_.split fun _ => sim_fget h1.at_.lowMax fun _ => ?_
    refine SimE.bind (sim_linPos h1 _) ?_
    rintro s1 _ rfl
    refine SimE.bind (sim_concat s0 s1) fun _ _ _ => ?_
    refine sim_fget h1.at_.split fun _ => ?_
    refine Sim.ite Iff.rfl (fun _ => ?_) fun _ => ?_
    · refine sim_fget h1.at_.bit fun hlt => ?_
      have hlt' : t.bucketBit < 2 ^ (8 * 4) := hlt
      have e : (t.bucketBit + 2 ^ 32 - 1) % 2 ^ 32 = t.bucketBit - 1 := by
        rw [show t.bucketBit + 2 ^ 32 - 1 = t.bucketBit - 1 + 2 ^ 32 by omega, Nat.add_mod_right]
        exact Nat.mod_eq_of_lt (by omega)
      simp only [e]
      refine sim_fset h1.at_.dom.bit (by omega) ?_
      have h2 := h1.setBit (t.bucketBit - 1)
      refine sim_fget h2.at_.bit fun _ => ?_
      refine SimE.bind (sim_shl _) ?_
      rintro max _ ⟨rfl, hb, hmax⟩
      have hmlt : max < 2 ^ sizeBit := by rw [hmax]; exact Nat.pow_lt_pow_right (by omega) hb
      refine sim_fset h2.at_.dom.max (pow4 hmlt) ?_
      have h3 := h2.setMax max
      refine sim_fget h3.at_.max fun _ => ?_
      refine sim_fset h3.at_.dom.mask (pow4 (decT_lt hmlt.le)) ?_
      have h4 := h3.setMask (decT max)
      refine sim_fget h4.at_.bit fun _ => ?_
      refine SimE.bind (sim_seg h4 _) ?_
      rintro r _ ⟨rfl, hr, _⟩
      refine sim_fget h4.at_.bit fun _ => ?_
      refine SimE.bind (sim_shlS _) ?_
      rintro off _ ⟨rfl, _, ho⟩
      rw [padd_aR]
      refine Sim.bind (sim_free _) ?_
      rintro _ _ _ ⟨_, _, rfl⟩
      refine (sim_linStable (h4.gave)).mono ?_
      rintro t' _ G' ⟨h5, rfl, h6⟩
      refine ⟨_, h5, h6, .inr ⟨by show t.bucketBit - 1 + 1 = _; omega, rfl, r, hr, ?_⟩⟩
      rw [ho]
      rfl
    · refine (ih { t with split := decT t.split, work := t.work + 1 } _ hb0 h1).mono ?_
      rintro t' _ G' ⟨evs, h2, h3, ⟨⟨h4, h5⟩, h6⟩ | ⟨h4, h5, h6⟩⟩
      · exact ⟨evs, h2, h3, .inl ⟨⟨h4, h5⟩, h6⟩⟩
      · exact ⟨evs, h2, h3, .inr ⟨h4, h5, h6⟩⟩

theorem sim_linShrinkStep (h : LinS G0 G b t []) (hb : 0 < t.bucketBit) :
    Sim G (hashlinShrinkStep t) (bhashlinShrinkStep b) fun t' _ G' => ∃ evs, LinS G0 G' b t' evs ∧ LinLess G G' t t' evs := by
  have e : hashlinShrinkStep t = (Pure.pure (hashlinShrinkStart t) >>= fun t => if t.state = .shrink then hashlinShrinkLoop t (sizeT (8 * t.count))
    else Pure.pure t : MM Hashlin) := rfl
  rw [e]
  unfold bhashlinShrinkStep
  refine Sim.bind (sim_linShrinkStart h) ?_
  rintro t1 _ G1 ⟨h1, -, ⟨e1, e2⟩, e3⟩
  refine sim_fget h1.at_.state fun _ => ?_
  refine Sim.ite (by rw [show (linShrink) = stCode .shrink from rfl, stCode_inj]) (fun hc => ?_) fun _ => Sim.pure ⟨[], h1, e3, .inl ⟨⟨e1, e2⟩, rfl⟩⟩
  refine sim_fget h1.at_.count fun _ => ?_
  refine (sim_linShrinkLoop _ t1 G1 (by omega) h1).mono ?_
  rintro t' _ G' ⟨evs, h2, h3, ⟨⟨h4, h5⟩, h6⟩ | ⟨h4, h5, h6⟩⟩
  · exact ⟨evs, h2, h3.trans e3, .inl ⟨⟨h4.trans e1, h5.trans e2⟩, h6⟩⟩
  · exact ⟨evs, h2, h3.trans e3, .inr ⟨h4.trans e1, h5.trans e2, by rw [← e2, ← e3]; exact h6⟩⟩

theorem sim_linInsert (h : LinS G G b t []) {node data hash : Nat} (hn : node < 2 ^ sizeBit)
    (hd : data < 2 ^ sizeBit) (hh : hash < 2 ^ sizeBit)
    (hm : t.state = .stable ∧ sizeT (t.count + 1) > t.bucketMax / 2 → MallocOk G (sizeT (t.bucketMax * ptrSize))) :
    Sim G (hashlinInsert t node data hash) (bhashlinInsert b node data hash) fun t' _ G' => ∃ evs, LinS G G' b t' evs ∧
      (LinSame t t' ∧ G'.φ = G.φ ∧ evs = [] ∨ LinGrew G G' t t' evs) := by
  unfold hashlinInsert bhashlinInsert
  refine SimE.bind (sim_linBucketRef h hash) ?_
  rintro r _ rfl
  refine SimE.bind (sim_insertTail _ hn hd) fun _ _ _ => ?_
  refine SimE.bind (sim_setIndex node hh) fun _ _ _ => ?_
  refine sim_fget h.at_.count fun _ => ?_
  refine sim_fset h.at_.dom.count (pow4 (sizeT_lt _)) ?_
  have h1 := h.setCount (sizeT (t.count + 1))
  refine (sim_linGrowStep (LinS.start h1.at_ h1.lt) hm).mono ?_
  rintro t' _ G' ⟨evs, h2, h3⟩
  refine ⟨evs, ⟨h2.at_, h2.lt, h1.step.trans h2.step⟩, ?_⟩
  rcases h3 with ⟨⟨a, b⟩, c, d⟩ | ⟨a, d⟩
  · exact .inl ⟨⟨a, b⟩, c, d⟩
  · exact .inr ⟨a, d⟩

/-- The last part of a remove. -/
theorem sim_linRemoved (h : LinS G G b t []) (hb : 0 < t.bucketBit) (r : Ref) (node : Nat) :
    Sim G (do
        cellRemoveExisting r node
        let t' ← hashlinShrinkStep { t with count := decT t.count }
        let d ← onNodes (getData node)
        return (t', d) : MM (Hashlin × Nat)) (do
        let _ ← blistRemoveExisting (aR G.φ r) node
        let count ← bget (b + linCount)
        bset (b + linCount) (decT count)
        bhashlinShrinkStep b
        bget (node + nodData) : BM Nat) fun x d G' =>
      ∃ evs, LinS G G' b x.1 evs ∧ LinLess G G' t x.1 evs ∧ d = x.2 := by
  refine SimE.bind (sim_removeExisting _ node) fun _ _ _ => ?_
  refine sim_fget h.at_.count fun hc => ?_
  refine sim_fset h.at_.dom.count (pow4 (decT_lt (Nat.le_of_lt (lt4 hc)))) ?_
  refine Sim.bind (sim_linShrinkStep (h.setCount (decT t.count)) hb) ?_
  rintro t' _ G' ⟨evs, h1, h2, h3⟩
  refine (SimE.bind (g := fun d => Pure.pure d) (sim_getData node) ?_).mono' ?_
  · rintro d _ ⟨rfl, _⟩
    refine Sim.pure ⟨evs, h1, ⟨h2, ?_⟩, rfl⟩
    rcases h3 with ⟨⟨a, b⟩, c⟩ | ⟨a, b, c⟩
    · exact .inl ⟨⟨a, b⟩, c⟩
    · exact .inr ⟨a, b, c⟩
  · rw [bind_pure]

theorem sim_linRemoveExisting (h : LinS G G b t []) (hb : 0 < t.bucketBit) (node : Nat) :
    Sim G (hashlinRemoveExisting t node) (bhashlinRemoveExisting b node) fun x d G' =>
      ∃ evs, LinS G G' b x.1 evs ∧ LinLess G G' t x.1 evs ∧ d = x.2 := by
  unfold hashlinRemoveExisting bhashlinRemoveExisting
  refine SimE.bind (sim_getIndex node) ?_
  rintro idx _ ⟨rfl, _⟩
  refine SimE.bind (sim_linBucketRef h idx) ?_
  rintro r _ rfl
  exact sim_linRemoved h hb r node

theorem sim_linRemove (h : LinS G G b t []) (hb : 0 < t.bucketBit) (cmp : Nat → Int) (hash : Nat) :
    Sim G (hashlinRemove t cmp hash) (bhashlinRemove b cmp hash) fun x d G' =>
      ∃ evs, LinS G G' b x.1 evs ∧ LinLess G G' t x.1 evs ∧ d = x.2 := by
  unfold hashlinRemove bhashlinRemove
  refine SimE.bind (sim_linBucketRef h hash) ?_
  rintro r _ rfl
  refine SimE.bind (sim_readRef _) ?_
  rintro head _ ⟨rfl, _⟩
  refine SimE.bind (sim_findLoop cmp hash head) ?_
  rintro node _ rfl
  refine Sim.ite Iff.rfl (fun _ => ?_) fun _ => Sim.pure ⟨[], h, ⟨rfl, .inl ⟨⟨rfl, rfl⟩, rfl⟩⟩, rfl⟩
  exact sim_linRemoved h hb r node

theorem sim_linBucket (h : LinS G0 G b t evs) (hash : Nat) : SimE G (hashlinBucket t hash) (bhashlinBucket b hash) Eqn := by
  unfold hashlinBucket bhashlinBucket
  refine SimE.bind (sim_linBucketRef h hash) ?_
  rintro r _ rfl
  exact sim_readRef _

theorem sim_linSearch (h : LinS G0 G b t evs) (cmp : Nat → Int) (hash : Nat) :
    SimE G (hashlinSearch t cmp hash) (bhashlinSearch b cmp hash) fun a c => a = c := by
  unfold hashlinSearch bhashlinSearch
  refine SimE.bind (sim_linBucket h hash) ?_
  rintro i _ ⟨rfl, _⟩
  exact sim_searchLoop cmp hash i

theorem sim_linCount (h : LinS G0 G b t evs) :
    SimE G (Pure.pure (hashlinCount t)) (bhashlinCount b) fun a c => a = c := sim_fget_last h.at_.count fun _ => ⟨rfl, rfl⟩

theorem sim_linUsage (h : LinS G0 G b t evs) :
    SimE G (Pure.pure (hashlinMemoryUsage t)) (bhashlinMemoryUsage b) fun a c => a = c := by
  unfold bhashlinMemoryUsage
  exact sim_fget h.at_.max fun _ => sim_fget h.at_.count fun _ => Sim.pure ⟨rfl, rfl⟩

end
end HashFlat
end Tommy
