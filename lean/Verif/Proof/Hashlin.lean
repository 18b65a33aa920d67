import Verif.Proof.LinSegs
import Verif.Proof.LinNum
import Mathlib.Data.Nat.Bitwise
/-! tommy_hashlin. -/
set_option linter.unusedSimpArgs false
namespace Tommy

variable [Arch]
namespace HashSpec

variable {m0 m : Mem} {es : List Elem}

/-- The low positions already split. -/
def below (n : Nat) : Nat → Bool := fun x => decide (x < n)

omit [Arch] in
theorem below_upd_true (n : Nat) : upd (below n) n true = below (n + 1) := by
  funext x
  simp only [upd_apply, below]
  split
  · simp; omega
  · simp; omega

omit [Arch] in
theorem below_upd_false (n : Nat) : upd (below (n + 1)) n false = below n := by
  funext x
  simp only [upd_apply, below]
  split
  · simp; omega
  · simp; omega

omit [Arch] in
theorem lact_below {M s b : Nat} (h : s ≤ M) : lact M (below s) b ↔ b < M + s := by
  simp only [lact, below, decide_eq_true_eq]; omega

/-- The parts of the invariant of tommy_hashlin which hold also in the middle of a call. -/
structure LinBase (m0 : Mem) (t : Hashlin) (m : Mem) (es : List Elem) : Prop where
  bit : 6 ≤ t.bucketBit
  bit_le : t.bucketBit ≤ bktBit
  max : t.bucketMax = 2 ^ t.bucketBit
  mask : t.bucketMask = t.bucketMax - 1
  low : t.lowMax = (Hashlin.num t).low
  lowMask : t.lowMask = t.lowMax - 1
  big : t.state ≠ .stable → 6 < t.bucketBit
  split : t.split ≤ t.lowMax
  split0 : t.state = .stable → t.split = 0
  count : t.count = es.length
  segs : ∃ vs, Segs m0 m t.bucket t.bucketBit vs
  binv : ∃ B, BInv m (lref t.bucket) (lact t.lowMax (below t.split)) (lplace t.lowMax (below t.split)) B es

variable {t : Hashlin}

theorem LinBase.low_pow (i : LinBase m0 t m es) : ∃ k, t.lowMax = 2 ^ k := by
  rw [i.low]; unfold Num.low; split
  · exact ⟨_, rfl⟩
  · exact ⟨_, rfl⟩

theorem LinBase.low_pos (i : LinBase m0 t m es) : 0 < t.lowMax := by
  obtain ⟨k, hk⟩ := i.low_pow
  rw [hk]; exact Nat.two_pow_pos _

theorem LinBase.low_stable (i : LinBase m0 t m es) (h : t.state = .stable) : t.lowMax = t.bucketMax := by
  rw [i.low, i.max]; simp [Num.low, Hashlin.num, h]

theorem LinBase.low_half (i : LinBase m0 t m es) (h : t.state ≠ .stable) : t.bucketMax = 2 * t.lowMax := by
  rw [i.low, i.max]; simp only [Num.low, Hashlin.num, h, if_false]
  exact pow_half (by have := i.bit; omega)

theorem LinBase.size_le (i : LinBase m0 t m es) : t.lowMax + t.split ≤ 2 ^ t.bucketBit := by
  rw [← i.max]
  by_cases h : t.state = .stable
  · rw [i.low_stable h, i.split0 h]; omega
  · rw [i.low_half h]; have := i.split; omega

theorem LinBase.max_le (i : LinBase m0 t m es) : t.bucketMax ≤ 2 ^ bktBit := by
  rw [i.max]; exact pow_le60 i.bit_le

theorem LinBase.bucketRef (i : LinBase m0 t m es) (h : Nat) (m' : Mem) :
    hashlinBucketRef t h m' = some (lref t.bucket (lplace t.lowMax (below t.split) h), m') := by
  obtain ⟨vs, s⟩ := i.segs
  obtain ⟨k, hk⟩ := i.low_pow
  have hpos : h &&& t.lowMask = h % t.lowMax := by rw [i.lowMask, hk, Nat.and_two_pow_sub_one_eq_mod]
  have hhigh : h &&& t.bucketMask = h % t.bucketMax := by rw [i.mask, i.max, Nat.and_two_pow_sub_one_eq_mod]
  have e : (if h &&& t.lowMask < t.split then h &&& t.bucketMask else h &&& t.lowMask) =
      lplace t.lowMax (below t.split) h := by
    simp only [lplace, below, hpos, hhigh, decide_eq_true_eq]
    by_cases hs : h % t.lowMax < t.split
    · have : t.state ≠ .stable := fun hh => by have := i.split0 hh; omega
      rw [if_pos hs, if_pos hs, i.low_half this]
    · rw [if_neg hs, if_neg hs]
  have hlt : lplace t.lowMax (below t.split) h < 2 ^ t.bucketBit := by
    obtain ⟨B, b⟩ := i.binv
    have := (lact_below i.split).1 (b.place_act h)
    exact Nat.lt_of_lt_of_le this i.size_le
  unfold hashlinBucketRef
  simp only [e]
  exact s.pos_run i.bit (by have := i.bit_le; arch) hlt m'

/-- The nodes which a growth has still to move. For a shrink, all of them. -/
def pend (t : Hashlin) (es : List Elem) : Nat :=
  match t.state with
  | .stable => 0
  | .grow => (es.filter (fun e => t.split ≤ e.hash % t.lowMax)).length
  | .shrink => es.length

omit [Arch] in
theorem pend_le (t : Hashlin) (es : List Elem) : pend t es ≤ es.length := by
  unfold pend
  split
  · exact Nat.zero_le _
  · exact List.length_filter_le _ _
  · exact Nat.le_refl _

/-- One step of the grow loop. -/
theorem LinBase.growOne (i : LinBase m0 t m es) (hg : t.state = .grow) (hs : t.split < t.lowMax) :
    ∃ m' p, (∀ mm, hashlinPos t t.split mm = some (lref t.bucket t.split, mm)) ∧
      (∀ mm, hashlinPos t (sizeT (t.split + t.lowMax)) mm = some (lref t.bucket (t.split + t.lowMax), mm)) ∧
      readRef (lref t.bucket t.split) m = some (p, m) ∧
      (do writeRef (lref t.bucket t.split) 0
          writeRef (lref t.bucket (t.split + t.lowMax)) 0
          flushLoop (fun index => if index &&& t.lowMax ≠ 0 then lref t.bucket (t.split + t.lowMax)
            else lref t.bucket t.split) p : MM Nat) m = some ((es.filter (fun e => e.hash % t.lowMax = t.split)).length, m') ∧
      (∀ mv, LinBase m0 { t with split := t.split + 1, work := t.work + 1, moved := mv } m' es) ∧
      m'.heap.valid = m.heap.valid ∧ ∀ q, q ∉ es.map Elem.node → SameNode m.heap m'.heap q := by
  obtain ⟨vs, s⟩ := i.segs
  obtain ⟨B, b⟩ := i.binv
  have hns : t.state ≠ .stable := by rw [hg]; simp
  have hmax := i.low_half hns
  have hmle := i.max_le
  have h1 : t.split < 2 ^ t.bucketBit := by rw [← i.max]; omega
  have h2 : t.split + t.lowMax < 2 ^ t.bucketBit := by rw [← i.max]; omega
  have hb64 : t.bucketBit ≤ sizeBit := by have := i.bit_le; arch
  have hsz : sizeT (t.split + t.lowMax) = t.split + t.lowMax := by unfold sizeT; arch
  obtain ⟨p, hp, _⟩ := b.cells t.split (Or.inl hs)
  obtain ⟨ma, ea, ha, ca, Ta⟩ := writeRef_run (m := m) 0 (s.lref_inside i.bit h1)
  obtain ⟨mb, eb, hb, cb, Tb⟩ := writeRef_run (m := ma) (r := lref t.bucket (t.split + t.lowMax)) 0
    (by rw [Ta.inside]; exact s.lref_inside i.bit h2)
  have h01 : lref t.bucket t.split ≠ lref t.bucket (t.split + t.lowMax) := fun e => by
    have := s.lref_inj i.bit h1 h2 e
    have := i.low_pos; omega
  have Tab : Touch m mb (fun r => r = lref t.bucket t.split ∨ r = lref t.bucket (t.split + t.lowMax)) :=
    (Ta.mono fun _ h => Or.inl h).trans (Tb.mono fun _ h => Or.inr h)
  have blt : ∀ b, lact t.lowMax (below t.split) b → b < t.lowMax + t.split := fun b hb => (lact_below i.split).1 hb
  have hle := i.size_le
  obtain ⟨k, hk⟩ := i.low_pow
  have hand : ∀ h, h % t.lowMax = t.split → ((h &&& t.lowMax ≠ 0) ↔ t.lowMax ≤ h % (2 * t.lowMax)) := by
    intro h hh
    have e1 : h &&& t.lowMax = t.lowMax * ((h / t.lowMax) % 2) := by
      rw [hk, Nat.and_two_pow, Nat.testBit_eq_decide_div_mod_eq]
      have := Nat.mod_two_eq_zero_or_one (h / 2 ^ k)
      rcases this with h' | h' <;> simp [h']
    have hl0 := i.low_pos
    rcases mod_two_mul h hl0 with ⟨a, c⟩ | a
    · have : h / t.lowMax % 2 = 0 := by
        rw [Nat.mul_comm 2, Nat.mod_mul] at c
        rcases Nat.mod_two_eq_zero_or_one (h / t.lowMax) with h' | h'
        · exact h'
        · rw [h'] at c; omega
      rw [e1, this]; simp; omega
    · have : h / t.lowMax % 2 = 1 := by
        rw [Nat.mul_comm 2, Nat.mod_mul] at a
        rcases Nat.mod_two_eq_zero_or_one (h / t.lowMax) with h' | h'
        · rw [h'] at a; omega
        · exact h'
      rw [e1, this]
      constructor
      · intro _; omega
      · intro _; omega
  obtain ⟨mc, B', ec, bc, Tc, Sc⟩ := b.split i.low_pos hs (by simp [below]) h01
    (fun b hb hbi e => hbi (s.lref_inj i.bit (by have := blt b hb; omega) h1 e))
    (fun b hb hbi e => by
      have h3 := blt b hb
      have := s.lref_inj i.bit (by omega) h2 e
      omega)
    (p := p) hp Tab (hb.trans ha) ((Tb.cell _ h01).trans ca) cb
    (dest := fun index => if index &&& t.lowMax ≠ 0 then lref t.bucket (t.split + t.lowMax)
            else lref t.bucket t.split) (by
      intro h hh
      have := hand h hh
      by_cases hc : h &&& t.lowMax ≠ 0
      · rw [if_pos hc, if_pos (this.1 hc)]
      · rw [if_neg hc, if_neg (fun x => hc (this.2 x))])
  refine ⟨mc, p, s.pos_run i.bit hb64 h1, by rw [hsz]; exact s.pos_run i.bit hb64 h2, readRef_run hp, ?_, ?_, Tc.valid, Sc⟩
  · simp only [run_bind, ea, eb, Option.bind_some]; exact ec
  · intro mv
    refine ⟨i.bit, i.bit_le, i.max, i.mask, i.low, i.lowMask, i.big, ?_, ?_, i.count, ⟨vs, s.touch Tc ?_⟩, ⟨B', ?_⟩⟩
    · simp only; omega
    · intro h; exact absurd h hns
    · rintro q (rfl | rfl)
      · exact s.lref_vec i.bit h1
      · exact s.lref_vec i.bit h2
    · simp only
      rw [below_upd_true] at bc
      refine bc.rename (fun _ => rfl) (fun _ => Iff.rfl) ?_
      intro b hb
      by_cases hb1 : b = t.split + t.lowMax
      · subst hb1; rw [upd_same]
      · rw [upd_ne hb1]
        by_cases hb2 : b = t.split
        · subst hb2; rw [upd_same]
        · rw [upd_ne hb2]

/-- The end of the grow loop. -/
theorem LinBase.toStable (i : LinBase m0 t m es) (hg : t.state = .grow) (hs : t.split = t.lowMax) :
    LinBase m0 (hashlinStable t) m es := by
  have hns : t.state ≠ .stable := by rw [hg]; simp
  have hmax := i.low_half hns
  refine ⟨i.bit, i.bit_le, i.max, i.mask, ?_, i.mask, ?_, ?_, fun _ => rfl, i.count, i.segs, ?_⟩
  · simp only [hashlinStable, Hashlin.num, Num.low, if_true, i.max]
  · intro h; exact absurd rfl h
  · simp [hashlinStable]
  · obtain ⟨B, b⟩ := i.binv
    refine ⟨B, b.rename ?_ ?_ (fun _ _ => rfl)⟩
    · intro h
      have := Nat.mod_lt h i.low_pos
      simp [lplace, hashlinStable, below, hs, this, hmax]
    · intro b
      rw [lact_below i.split, lact_below (by simp [hashlinStable])]
      simp only [hashlinStable, hmax]; omega

theorem linGrowLoop_spec {target : Nat} (ht : target ≤ 2 ^ (bktBit + 2)) : ∀ n t m, n = t.lowMax - t.split →
    LinBase m0 t m es → t.state = .grow → t.split < t.lowMax →
    ∃ t' m', hashlinGrowLoop t target m = some (t', m') ∧ LinBase m0 t' m' es ∧
      Hashlin.num t' = (Hashlin.num t).growTo target ∧ t'.moved + pend t' es = t.moved + pend t es ∧
      m'.heap.valid = m.heap.valid ∧ ∀ q, q ∉ es.map Elem.node → SameNode m.heap m'.heap q := by
  intro n
  induction n with
  | zero => intro t m hn i hg hs; omega
  | succ n ih =>
    intro t m hn i hg hs
    have hns : t.state ≠ .stable := by rw [hg]; simp
    have hmax := i.low_half hns
    have hmle := i.max_le
    have hsz : sizeT (t.split + t.lowMax) = t.split + t.lowMax := by unfold sizeT; arch
    have hlow : (Hashlin.num t).low = t.lowMax := i.low.symm
    have hpend := length_filter_le_mod es t.lowMax t.split
    rw [hashlinGrowLoop]
    by_cases hc : sizeT (t.split + t.lowMax) < target
    · obtain ⟨m1, p, e0, e1, e2, e3, i1, v1, S1⟩ := i.growOne hg hs
      have hs1 : sizeT (t.split + 1) = t.split + 1 := by unfold sizeT; arch
      simp only [run_bind] at e3
      by_cases hend : t.split + 1 = t.lowMax
      · refine ⟨hashlinStable { t with split := t.split + 1, work := t.work + 1, moved := t.moved + (es.filter (fun e => e.hash % t.lowMax = t.split)).length }, m1,
          ?_, (i1 _).toStable hg hend, ?_, ?_, v1, S1⟩
        · rw [if_pos hc]
          simp only [run_bind, e0, e1, e2, Option.bind_some]
          generalize hx : writeRef (lref t.bucket t.split) 0 m = x at *
          cases x with
          | none => simp at e3
          | some x =>
            simp only [Option.bind_some] at e3 ⊢
            generalize hy : writeRef (lref t.bucket (t.split + t.lowMax)) 0 x.2 = y at *
            cases y with
            | none => simp at e3
            | some y =>
              simp only [Option.bind_some] at e3 ⊢
              rw [e3]
              simp only [Option.bind_some, hs1, if_pos hend, run_pure]
        · have hcond : t.lowMax - t.split ≤ target - (t.lowMax + t.split) := by omega
          rw [Num.growTo_end (by rw [hlow]; exact hcond), hlow]
          simp only [Hashlin.num, hashlinStable]
          congr 1; omega
        · have h0 : es.filter (fun e => t.split + 1 ≤ e.hash % t.lowMax) = [] := List.filter_eq_nil_iff.2 fun e _ => by
            have := Nat.mod_lt e.hash i.low_pos
            simp only [decide_eq_true_eq]; omega
          rw [h0, List.length_nil, Nat.add_zero] at hpend
          simp only [pend, hashlinStable, hg, hpend, Nat.add_zero]
      · obtain ⟨t', m', e', i', n', p', v', S'⟩ := ih { t with split := t.split + 1, work := t.work + 1, moved := t.moved + (es.filter (fun e => e.hash % t.lowMax = t.split)).length } m1
          (by simp only; omega) (i1 _) hg (by simp only; omega)
        refine ⟨t', m', ?_, i', ?_, ?_, v'.trans v1, fun q hq => (S1 q hq).trans (S' q hq)⟩
        · rw [if_pos hc]
          simp only [run_bind, e0, e1, e2, Option.bind_some]
          generalize hx : writeRef (lref t.bucket t.split) 0 m = x at *
          cases x with
          | none => simp at e3
          | some x =>
            simp only [Option.bind_some] at e3 ⊢
            generalize hy : writeRef (lref t.bucket (t.split + t.lowMax)) 0 x.2 = y at *
            cases y with
            | none => simp at e3
            | some y =>
              simp only [Option.bind_some] at e3 ⊢
              rw [e3]
              simp only [Option.bind_some, hs1, hend, if_false, run_ite]
              exact e'
        · rw [n']
          have hlow1 : (Hashlin.num { t with split := t.split + 1, work := t.work + 1, moved := t.moved + (es.filter (fun e => e.hash % t.lowMax = t.split)).length }).low = t.lowMax := hlow
          by_cases hcond : t.lowMax - t.split ≤ target - (t.lowMax + t.split)
          · rw [Num.growTo_end (n := Hashlin.num t) (by rw [hlow]; exact hcond), Num.growTo_end (by
              rw [hlow1]; simp only [Hashlin.num]; omega), hlow, hlow1]
            simp only [Hashlin.num]
            congr 1; omega
          · rw [Num.growTo_part (n := Hashlin.num t) (by rw [hlow]; exact hcond), Num.growTo_part (by
              rw [hlow1]; simp only [Hashlin.num]; omega), hlow, hlow1]
            simp only [Hashlin.num]
            congr 1 <;> omega
        · rw [p']
          simp only [pend, hg, hpend]; omega
    · refine ⟨t, m, by rw [if_neg hc]; rfl, i, ?_, rfl, rfl, fun q _ => SameNode.refl _ _⟩
      have h0 : target - (t.lowMax + t.split) = 0 := by omega
      rw [Num.growTo_part (by rw [hlow]; simp only [Hashlin.num]; omega), hlow]
      simp only [Hashlin.num, h0, Nat.add_zero]

theorem LinBase.growStart (i : LinBase m0 t m es) (hlen : es.length < 2 ^ (bktBit - 1)) (hsp : t.state = .shrink → t.split < t.lowMax)
    (hsg : t.state = .grow → t.split < t.lowMax) :
    ∃ t' m', hashlinGrowStart t m = some (t', m') ∧ LinBase m0 t' m' es ∧
      Hashlin.num t' = (Hashlin.num t).growStart ∧ (t'.state = .grow → t'.split < t'.lowMax) ∧ (t'.moved = t.moved ∧
        if t.state = .stable ∧ t.count > t.bucketMax / 2 then pend t' es = es.length else pend t' es ≤ pend t es) ∧
      m'.heap = m.heap := by
  by_cases hc : t.state ≠ .grow ∧ t.count > t.bucketMax / 2
  · by_cases hst : t.state = .stable
    · obtain ⟨vs, s⟩ := i.segs
      obtain ⟨B, b⟩ := i.binv
      have hcnt := i.count
      have hbit : t.bucketBit < bktBit := by
        rcases Nat.lt_or_ge t.bucketBit bktBit with h | h
        · exact h
        · have hb : t.bucketBit = bktBit := by have := i.bit_le; omega
          have hm := i.max
          rw [hb] at hm
          arch
      have hmle := i.max_le
      have hmax := i.max
      have hb64 : t.bucketBit < sizeBit := by arch
      have hb64' : t.bucketBit + 1 < sizeBit := by arch
      have hp0 : 0 < 2 ^ (t.bucketBit + 1) := Nat.two_pow_pos _
      let t' : Hashlin := { t with
        lowMax := t.bucketMax, lowMask := t.bucketMask
        bucket := upd t.bucket t.bucketBit (some ⟨m.vnext, -((2 ^ t.bucketBit : Nat) : Int)⟩)
        bucketBit := t.bucketBit + 1, bucketMax := 2 ^ (t.bucketBit + 1), bucketMask := 2 ^ (t.bucketBit + 1) - 1
        split := 0, state := .grow }
      refine ⟨t', Mem.alloc m (2 ^ t.bucketBit), ?_, ⟨?_, ?_, rfl, rfl, ?_, i.mask, ?_, Nat.zero_le _, ?_, i.count, ⟨_, s.grow i.bit⟩, B, ?_⟩, ?_, ?_,
        ⟨rfl, by rw [if_pos ⟨hst, hc.2⟩]; simp [pend, t']⟩, rfl⟩
      · simp only [hashlinGrowStart, if_pos hc, if_pos hst, run_bind]
        rw [vmalloc_run (by omega)]
        simp only [Option.bind_some, negS, if_pos (show 2 ^ t.bucketBit < 2 ^ (sizeBit - 1) from Nat.pow_lt_pow_right (by omega) (by omega)), hashlinSetSeg, if_pos hb64, shlT, if_pos hb64', decT_pos hp0, run_pure,
          Ref.add, Int.zero_add, t', hmax]
      · simp only [t']; have := i.bit; omega
      · simp only [t']; omega
      · simp only [t', Hashlin.num, Num.low, reduceCtorEq, if_false, Nat.add_sub_cancel, hmax]
      · intro _; simp only [t']; have := i.bit; omega
      · intro h; simp [t'] at h
      · have hlow := i.low_stable hst
        have hsplit := i.split0 hst
        have b1 : BInv (Mem.alloc m (2 ^ t.bucketBit)) (lref t.bucket) (lact t.lowMax (below t.split))
            (lplace t.lowMax (below t.split)) B es := by
          refine b.congr (fun c hc => alloc_cell ?_) (fun e _ => SameNode.refl _ _)
          have hcl := (lact_below i.split).1 hc
          obtain ⟨j, h1, h2, e⟩ := s.lref_vec i.bit (pos := c) (by have := i.size_le; omega)
          rw [e]; have := s.used j h1 h2; omega
        simp only [t']
        rw [hlow, hsplit] at b1
        refine b1.rename (fun _ => rfl) (fun _ => Iff.rfl) ?_
        intro c hc
        have hcl := (lact_below (Nat.zero_le _)).1 hc
        have hlt : ilog2 (c ||| 1) < t.bucketBit := ilog2_lt_or_one (by have := i.bit; omega) (by omega)
        simp only [lref]
        rw [upd_ne (by omega)]
      · rw [hmax] at hc
        rw [Num.growStart_stable (n := Hashlin.num t) hc hst]
        rfl
      · intro _
        simp only [t']; rw [hmax]; exact Nat.two_pow_pos _
    · have hsh : t.state = .shrink := by
        cases h : t.state <;> simp_all
      refine ⟨{ t with state := .grow }, m, ?_, ⟨i.bit, i.bit_le, i.max, i.mask, ?_, i.lowMask, ?_, i.split, ?_, i.count,
        i.segs, i.binv⟩, ?_, ?_, ⟨rfl, ?_⟩, rfl⟩
      · simp only [hashlinGrowStart, if_pos hc, if_neg hst, run_pure]
      · rw [i.low]; simp [Hashlin.num, Num.low, hsh]
      · intro _; exact i.big hst
      · intro h; simp at h
      · have := i.max
        rw [this] at hc
        rw [Num.growStart_shrink (n := Hashlin.num t) hc hst]
        rfl
      · intro _; exact hsp hsh
      · rw [if_neg (fun h => hst h.1)]
        refine (pend_le _ _).trans ?_
        simp only [pend, hsh]; exact Nat.le_refl _
  · refine ⟨t, m, by simp only [hashlinGrowStart, if_neg hc, run_pure], i, ?_, hsg, ⟨rfl, ?_⟩, rfl⟩
    rotate_left
    · rw [if_neg (fun h => hc ⟨by rw [h.1]; simp, h.2⟩)]
    have := i.max
    rw [this] at hc
    rw [Num.growStart_none (n := Hashlin.num t) hc]

theorem LinBase.growStep (i : LinBase m0 t m es) (hlen : es.length < 2 ^ (bktBit - 1)) (hsp : t.state = .shrink → t.split < t.lowMax)
    (hsg : t.state = .grow → t.split < t.lowMax) :
    ∃ t' m', hashlinGrowStep t m = some (t', m') ∧ LinBase m0 t' m' es ∧
      Hashlin.num t' = (Hashlin.num t).growStep ∧
      (if t.state = .stable ∧ t.count > t.bucketMax / 2 then t'.moved + pend t' es = t.moved + es.length
        else t'.moved + pend t' es ≤ t.moved + pend t es) ∧
      m'.heap.valid = m.heap.valid ∧ ∀ q, q ∉ es.map Elem.node → SameNode m.heap m'.heap q := by
  obtain ⟨t1, m1, e1, i1, n1, g1, ⟨pm, pp⟩, h1⟩ := i.growStart hlen hsp hsg
  have hst : (Hashlin.num t1).state = t1.state := rfl
  have hct : (Hashlin.num t1).count = t1.count := rfl
  have hc2 : sizeT (2 * t1.count) = 2 * t1.count := by rw [i1.count]; unfold sizeT; arch
  by_cases hg : t1.state = .grow
  · obtain ⟨t2, m2, e2, i2, n2, p2, v2, S2⟩ := linGrowLoop_spec (target := 2 * t1.count) (by rw [i1.count]; arch) _ t1 m1 rfl
      i1 hg (g1 hg)
    refine ⟨t2, m2, ?_, i2, ?_, by rw [p2, pm]; split_ifs at pp ⊢ <;> omega, by rw [v2, h1], fun q hq => by rw [← h1]; exact S2 q hq⟩
    · simp only [hashlinGrowStep, run_bind, e1, Option.bind_some, if_pos hg, run_ite, hc2, e2]
    · simp only [Num.growStep, ← n1, hst, hct, if_pos hg, n2]
  · refine ⟨t1, m1, ?_, i1, ?_, by rw [pm]; split_ifs at pp ⊢ <;> omega, by rw [h1], fun q hq => by rw [h1]; exact SameNode.refl _ _⟩
    · simp only [hashlinGrowStep, run_bind, e1, Option.bind_some, if_neg hg, run_ite, run_pure]
    · simp only [Num.growStep, ← n1, hst, if_neg hg]

/-! ### Shrink -/

theorem LinBase.shrinkStart (i : LinBase m0 t m es) (hsp : t.state ≠ .stable → 0 < t.split) :
    LinBase m0 (hashlinShrinkStart t) m es ∧
      Hashlin.num (hashlinShrinkStart t) = (Hashlin.num t).shrinkStart ∧
      ((hashlinShrinkStart t).state = .shrink → 0 < (hashlinShrinkStart t).split) ∧ (hashlinShrinkStart t).moved = t.moved := by
  have hmax := i.max
  unfold hashlinShrinkStart
  have hnum : (Hashlin.num t).shrinkStart = if t.state ≠ .shrink ∧ t.count < t.bucketMax / 8 then
    if t.bucketBit > hashlinBIT then
      if t.state = .stable then { Hashlin.num t with split := t.bucketMax / 2, state := .shrink }
      else { Hashlin.num t with state := .shrink }
    else Hashlin.num t
  else Hashlin.num t := by rw [hmax]; rfl
  rw [hnum]
  by_cases hc : t.state ≠ .shrink ∧ t.count < t.bucketMax / 8
  · rw [if_pos hc, if_pos hc]
    by_cases hb : t.bucketBit > hashlinBIT
    · have hb' : 6 < t.bucketBit := hb
      have hhalf := pow_half (k := t.bucketBit) (by omega)
      rw [if_pos hb, if_pos hb]
      by_cases hst : t.state = .stable
      · simp only [if_pos hst]
        have hlow := i.low_stable hst
        have hsplit := i.split0 hst
        have hhalf' : t.bucketMax / 2 = 2 ^ (t.bucketBit - 1) := by rw [hmax]; omega
        refine ⟨⟨i.bit, i.bit_le, i.max, i.mask, ?_, ?_, fun _ => hb', Nat.le_refl _, by simp, i.count, i.segs, ?_⟩, rfl, fun _ => ?_, trivial⟩
        · simp only [Hashlin.num, Num.low, reduceCtorEq, if_false, hhalf']
        · simp only [i.mask]; omega
        · obtain ⟨B, b⟩ := i.binv
          rw [hlow, hsplit] at b
          have h2 : 2 * (t.bucketMax / 2) = t.bucketMax := by rw [hmax]; omega
          refine ⟨B, b.rename ?_ ?_ (fun _ _ => rfl)⟩
          · intro h
            have := Nat.mod_lt h (show 0 < t.bucketMax / 2 by rw [hhalf']; exact Nat.two_pow_pos _)
            simp [lplace, below, this, h2]
          · intro b
            rw [lact_below (Nat.le_refl _), lact_below (Nat.zero_le _)]
            simp only; omega
        · simp only [hhalf']; exact Nat.two_pow_pos _
      · simp only [if_neg hst]
        refine ⟨⟨i.bit, i.bit_le, i.max, i.mask, ?_, i.lowMask, fun _ => hb', i.split, by simp, i.count, i.segs, i.binv⟩, rfl,
          fun _ => hsp hst, trivial⟩
        rw [i.low]; simp [Hashlin.num, Num.low, hst]
    · rw [if_neg hb, if_neg hb]
      exact ⟨i, rfl, fun h => hsp (by rw [h]; simp), rfl⟩
  · rw [if_neg hc, if_neg hc]
    exact ⟨i, rfl, fun h => hsp (by rw [h]; simp), rfl⟩

/-- One step of the shrink loop. -/
theorem LinBase.shrinkOne {s : Nat} (i : LinBase m0 t m es) (hg : t.state = .shrink) (hs : t.split = s + 1) :
    ∃ m', (∀ mm, hashlinPos t s mm = some (lref t.bucket s, mm)) ∧
      (∀ mm, hashlinPos t (sizeT (s + t.lowMax)) mm = some (lref t.bucket (s + t.lowMax), mm)) ∧
      cellConcat (lref t.bucket s) (lref t.bucket (s + t.lowMax)) m = some ((), m') ∧
      LinBase m0 { t with split := s, work := t.work + 1 } m' es ∧
      m'.heap.valid = m.heap.valid ∧ ∀ q, q ∉ es.map Elem.node → SameNode m.heap m'.heap q := by
  obtain ⟨vs, sgs⟩ := i.segs
  obtain ⟨B, b⟩ := i.binv
  have hns : t.state ≠ .stable := by rw [hg]; simp
  have hmax := i.low_half hns
  have hmle := i.max_le
  have hle := i.size_le
  have hsl := i.split
  have hb64 : t.bucketBit ≤ sizeBit := by have := i.bit_le; arch
  have hsz : sizeT (s + t.lowMax) = s + t.lowMax := by unfold sizeT; arch
  obtain ⟨p, hp, _⟩ := b.cells s (Or.inl (by omega))
  have hS : below t.split s = true := by simp [below, hs]
  obtain ⟨mc, B', ec, bc, Tc, _, Sc⟩ := b.merge i.low_pos (by omega) hS (r0 := lref t.bucket s)
    (fun b hb hbi e => hbi (sgs.lref_inj i.bit (by have := (lact_below i.split).1 hb; omega) (by omega) e))
    hp (Touch.refl _ _) rfl hp
  refine ⟨mc, sgs.pos_run i.bit hb64 (by omega), by rw [hsz]; exact sgs.pos_run i.bit hb64 (by omega), ec, ?_, Tc.valid, Sc⟩
  refine ⟨i.bit, i.bit_le, i.max, i.mask, i.low, i.lowMask, i.big, ?_, ?_, i.count, ⟨vs, sgs.touch Tc ?_⟩, ⟨B', ?_⟩⟩
  · simp only; omega
  · intro h; exact absurd h hns
  · rintro q rfl
    exact sgs.lref_vec i.bit (by omega)
  · simp only
    rw [hs, below_upd_false] at bc
    refine bc.rename (fun _ => rfl) (fun _ => Iff.rfl) ?_
    intro b hb
    by_cases hb2 : b = s
    · subst hb2; rw [upd_same]
    · rw [upd_ne hb2]

/-- The end of the shrink loop. -/
theorem LinBase.dropSeg (i : LinBase m0 t m es) (hg : t.state = .shrink) (hs : t.split = 0) :
    ∃ r m', (∀ mm, hashlinSeg t (t.bucketBit - 1) mm = some (r, mm)) ∧
      vfree (r.add ((2 ^ (t.bucketBit - 1) : Nat) : Int)) m = some ((), m') ∧
      LinBase m0 (hashlinStable { t with
        bucketBit := t.bucketBit - 1
        bucketMax := 2 ^ (t.bucketBit - 1)
        bucketMask := 2 ^ (t.bucketBit - 1) - 1 }) m' es ∧ m'.heap = m.heap := by
  obtain ⟨vs, sgs⟩ := i.segs
  obtain ⟨B, b⟩ := i.binv
  have hns : t.state ≠ .stable := by rw [hg]; simp
  have hbig := i.big hns
  have hmax := i.low_half hns
  have hhalf := pow_half (k := t.bucketBit) (by omega)
  have hlow : t.lowMax = 2 ^ (t.bucketBit - 1) := by rw [i.max] at hmax; omega
  have hk : t.bucketBit - 1 + 1 = t.bucketBit := by omega
  have sgs1 := sgs
  rw [← hk] at sgs1
  obtain ⟨e, s2⟩ := sgs1.shrink (by omega)
  refine ⟨_, _, ?_, e, ?_, rfl⟩
  · intro mm
    have := i.bit_le
    simp only [hashlinSeg, if_pos (show t.bucketBit - 1 < sizeBit by arch)]
    rw [sgs.high _ (by omega) (by omega)]
    rfl
  · refine ⟨?_, ?_, rfl, rfl, ?_, rfl, ?_, Nat.zero_le _, fun _ => rfl, i.count, ⟨vs, s2⟩, B, ?_⟩
    · simp only [hashlinStable]; omega
    · simp only [hashlinStable]; have := i.bit_le; omega
    · simp only [hashlinStable, Hashlin.num, Num.low, if_true]
    · intro h; simp [hashlinStable] at h
    · simp only [hashlinStable]
      rw [hlow, hs] at b
      refine b.congr (fun c hc => Segs.other_cell ?_) (fun e _ => SameNode.refl _ _)
      have hcl := (lact_below (Nat.zero_le _)).1 hc
      have hlt := sg_lt (pos := c) (k := t.bucketBit - 1) (by omega) (by omega)
      rw [sgs.lref i.bit (by omega)]
      intro h
      have := sgs.inj _ _ (sg_bounds c).1 (by omega) (by omega) (by omega) h
      omega

theorem linShrinkLoop_spec {target : Nat} : ∀ s t m, t.split = s + 1 →
    LinBase m0 t m es → t.state = .shrink →
    ∃ t' m', hashlinShrinkLoop t target m = some (t', m') ∧ LinBase m0 t' m' es ∧
      Hashlin.num t' = (Hashlin.num t).shrinkTo target ∧ t'.moved = t.moved ∧
      m'.heap.valid = m.heap.valid ∧ ∀ q, q ∉ es.map Elem.node → SameNode m.heap m'.heap q := by
  intro s
  induction s with
  | zero =>
    intro t m hs i hg
    have hns : t.state ≠ .stable := by rw [hg]; simp
    have hmax := i.low_half hns
    have hmle := i.max_le
    have hsl := i.split
    have hsz : sizeT (t.split + t.lowMax) = t.split + t.lowMax := by unfold sizeT; arch
    have hlow : (Hashlin.num t).low = t.lowMax := i.low.symm
    rw [hashlinShrinkLoop]
    by_cases hc : sizeT (t.split + t.lowMax) > target
    · obtain ⟨m1, e0, e1, e2, i1, v1, S1⟩ := i.shrinkOne hg hs
      obtain ⟨r, m2, e3, e4, i2, h2⟩ := i1.dropSeg hg rfl
      have hd : decT t.split = 0 := by rw [decT_pos (by omega)]; omega
      have hb : t.bucketBit - 1 < sizeBit := by have := i.bit_le; arch
      have hb' : t.bucketBit - 1 + 1 < sizeBit := by have := i.bit_le; arch
      refine ⟨_, m2, ?_, i2, ?_, rfl, by rw [h2]; exact v1, fun q hq => by rw [h2]; exact S1 q hq⟩
      · rw [if_pos hc]
        simp only [run_bind, hd]
        have e0' : ∀ mm, hashlinPos { t with split := 0, work := t.work + 1 } 0 mm = some (lref t.bucket 0, mm) := e0
        have e1' : ∀ mm, hashlinPos { t with split := 0, work := t.work + 1 } (sizeT (0 + t.lowMax)) mm =
          some (lref t.bucket (0 + t.lowMax), mm) := e1
        have hp0 : 0 < 2 ^ (t.bucketBit - 1) := Nat.two_pow_pos _
        simp only [e0', e1', Option.bind_some, e2, if_true, run_bind, shlT, shlS, if_pos hb, if_pos hb', decT_pos hp0]
        have e3' : ∀ mm, hashlinSeg { t with split := 0, work := t.work + 1, bucketBit := t.bucketBit - 1, bucketMax := 2 ^ (t.bucketBit - 1), bucketMask := 2 ^ (t.bucketBit - 1) - 1 } (t.bucketBit - 1) mm = some (r, mm) := e3
        simp only [e3', Option.bind_some]
        simp only at e4
        rw [e4]
        simp only [Option.bind_some, run_pure]
      · have hcond : t.split ≤ t.lowMax + t.split - target := by omega
        rw [Num.shrinkTo_end (by rw [hlow]; exact hcond)]
        simp only [Hashlin.num, hashlinStable]
        congr 1; omega
    · refine ⟨t, m, by rw [if_neg hc]; rfl, i, ?_, rfl, rfl, fun q _ => SameNode.refl _ _⟩
      have h0 : t.lowMax + t.split - target = 0 := by omega
      rw [Num.shrinkTo_part (by rw [hlow]; simp only [Hashlin.num]; omega), hlow]
      simp only [Hashlin.num, h0, Nat.add_zero, Nat.sub_zero]
  | succ s ih =>
    intro t m hs i hg
    have hns : t.state ≠ .stable := by rw [hg]; simp
    have hmax := i.low_half hns
    have hmle := i.max_le
    have hsl := i.split
    have hsz : sizeT (t.split + t.lowMax) = t.split + t.lowMax := by unfold sizeT; arch
    have hlow : (Hashlin.num t).low = t.lowMax := i.low.symm
    rw [hashlinShrinkLoop]
    by_cases hc : sizeT (t.split + t.lowMax) > target
    · obtain ⟨m1, e0, e1, e2, i1, v1, S1⟩ := i.shrinkOne hg hs
      have hd : decT t.split = s + 1 := by rw [decT_pos (by omega)]; omega
      obtain ⟨t', m', e', i', n', mv', v', S'⟩ := ih { t with split := s + 1, work := t.work + 1 } m1 rfl i1 hg
      refine ⟨t', m', ?_, i', ?_, mv', v'.trans v1, fun q hq => (S1 q hq).trans (S' q hq)⟩
      · rw [if_pos hc]
        simp only [run_bind, hd]
        have e0' : ∀ mm, hashlinPos { t with split := s + 1, work := t.work + 1 } (s + 1) mm = some (lref t.bucket (s + 1), mm) := e0
        have e1' : ∀ mm, hashlinPos { t with split := s + 1, work := t.work + 1 } (sizeT (s + 1 + t.lowMax)) mm =
          some (lref t.bucket (s + 1 + t.lowMax), mm) := e1
        simp only [e0', e1', Option.bind_some, e2, if_neg (show ¬ s + 1 = 0 by omega)]
        exact e'
      · rw [n']
        have hlow1 : (Hashlin.num { t with split := s + 1, work := t.work + 1 }).low = t.lowMax := hlow
        by_cases hcond : t.split ≤ t.lowMax + t.split - target
        · rw [Num.shrinkTo_end (n := Hashlin.num t) (by rw [hlow]; exact hcond), Num.shrinkTo_end (by
            rw [hlow1]; simp only [Hashlin.num]; omega)]
          simp only [Hashlin.num]
          congr 1; omega
        · rw [Num.shrinkTo_part (n := Hashlin.num t) (by rw [hlow]; exact hcond), Num.shrinkTo_part (by
            rw [hlow1]; simp only [Hashlin.num]; omega), hlow, hlow1]
          simp only [Hashlin.num]
          congr 1 <;> omega
    · refine ⟨t, m, by rw [if_neg hc]; rfl, i, ?_, rfl, rfl, fun q _ => SameNode.refl _ _⟩
      have h0 : t.lowMax + t.split - target = 0 := by omega
      rw [Num.shrinkTo_part (by rw [hlow]; simp only [Hashlin.num]; omega), hlow]
      simp only [Hashlin.num, h0, Nat.add_zero, Nat.sub_zero]

theorem LinBase.shrinkStep (i : LinBase m0 t m es) (hlen : es.length < 2 ^ (bktBit - 1)) (hsp : t.state ≠ .stable → 0 < t.split) :
    ∃ t' m', hashlinShrinkStep t m = some (t', m') ∧ LinBase m0 t' m' es ∧
      Hashlin.num t' = (Hashlin.num t).shrinkStep ∧ t'.moved = t.moved ∧
      m'.heap.valid = m.heap.valid ∧ ∀ q, q ∉ es.map Elem.node → SameNode m.heap m'.heap q := by
  obtain ⟨i1, n1, g1, mv1⟩ := i.shrinkStart hsp
  unfold hashlinShrinkStep
  generalize hashlinShrinkStart t = t1 at *
  have hst : (Hashlin.num t1).state = t1.state := rfl
  have hct : (Hashlin.num t1).count = t1.count := rfl
  have hc8 : sizeT (8 * t1.count) = 8 * t1.count := by rw [i1.count]; unfold sizeT; arch
  by_cases hg : t1.state = .shrink
  · have h0 := g1 hg
    obtain ⟨t2, m2, e2, i2, n2, mv2, v2, S2⟩ := linShrinkLoop_spec (target := 8 * t1.count) (t1.split - 1) t1 m (by omega) i1 hg
    refine ⟨t2, m2, ?_, i2, ?_, mv2.trans mv1, v2, S2⟩
    · simp only [if_pos hg, hc8, e2]
    · simp only [Num.shrinkStep, ← n1, hst, hct, if_pos hg, n2]
  · refine ⟨t1, m, ?_, i1, ?_, mv1, rfl, fun q hq => SameNode.refl _ _⟩
    · simp only [if_neg hg, run_pure]
    · simp only [Num.shrinkStep, ← n1, hst, if_neg hg]

/-! ### The calls -/

/-- The invariant of tommy_hashlin. -/
structure LinInv (m0 : Mem) (t : Hashlin) (m : Mem) (es : List Elem) : Prop extends LinBase m0 t m es where
  num : (Hashlin.num t).Inv

theorem LinInv.insert (i : LinInv m0 t m es) {n : Ptr} (hn : m.heap.ok n) (hne : n ∉ es.map Elem.node) (d h : Nat)
    (hlen : es.length + 1 < 2 ^ (bktBit - 1)) :
    ∃ t' m', hashlinInsert t n d h m = some (t', m') ∧ LinInv m0 t' m' (es ++ [⟨n, d, h⟩]) ∧
      Hashlin.num t' = (Hashlin.num t).insert ∧
      (if t.state = .stable ∧ t.count + 1 > t.bucketMax / 2 then
          t'.moved + pend t' (es ++ [⟨n, d, h⟩]) = t.moved + (es.length + 1)
        else t'.moved + pend t' (es ++ [⟨n, d, h⟩]) ≤ t.moved + (pend t es + 1)) ∧
      m'.heap.valid = m.heap.valid ∧
      ∀ q, q ≠ n → q ∉ es.map Elem.node → SameNode m.heap m'.heap q := by
  obtain ⟨vs, s⟩ := i.segs
  obtain ⟨B, b⟩ := i.binv
  obtain ⟨m1, e1, b1, T1, S1⟩ := b.insert hn hne d h
  have hcount : sizeT (t.count + 1) = t.count + 1 := by rw [i.count]; unfold sizeT; arch
  have i1 : LinBase m0 { t with count := sizeT (t.count + 1) } m1 (es ++ [⟨n, d, h⟩]) := by
    refine ⟨i.bit, i.bit_le, i.max, i.mask, i.low, i.lowMask, i.big, i.split, i.split0, ?_, ⟨vs, s.touch T1 ?_⟩, ⟨_, b1⟩⟩
    · simp only [hcount, List.length_append, List.length_singleton]; rw [i.count]
    · rintro q rfl
      have := (lact_below i.split).1 (b.place_act h)
      exact s.lref_vec i.bit (Nat.lt_of_lt_of_le this i.size_le)
  have hlow : (Hashlin.num t).low = t.lowMax := i.low.symm
  obtain ⟨t2, m2, e2, i2, n2, p2, v2, S2⟩ := i1.growStep (by simpa using hlen)
    (fun hs => by have := i.num.shrink hs; rw [hlow] at this; exact this.2.2.1)
    (fun hs => by have := i.num.grow hs; rw [hlow] at this; exact this.2.2.1)
  have hn2 : Hashlin.num t2 = (Hashlin.num t).insert := by
    rw [n2]; simp only [Hashlin.num, Num.insert, hcount]
  have p2' : if t.state = .stable ∧ t.count + 1 > t.bucketMax / 2 then
      t2.moved + pend t2 (es ++ [⟨n, d, h⟩]) = t.moved + (es.length + 1)
      else t2.moved + pend t2 (es ++ [⟨n, d, h⟩]) ≤ t.moved + (pend t es + 1) := by
    simp only [hcount] at p2
    have hp : pend { t with count := t.count + 1 } (es ++ [⟨n, d, h⟩]) ≤ pend t es + 1 := by
      unfold pend
      cases t.state with
      | stable => exact Nat.zero_le _
      | grow =>
        simp only [List.filter_append, List.length_append]
        have := List.length_filter_le (fun e : Elem => decide (t.split ≤ e.hash % t.lowMax)) [⟨n, d, h⟩]
        simp only [List.length_cons, List.length_nil] at this
        omega
      | shrink => simp
    simp only [List.length_append, List.length_singleton] at p2
    split_ifs at p2 ⊢
    · exact p2
    · exact p2.trans (Nat.add_le_add_left hp _)
  refine ⟨t2, m2, ?_, ⟨i2, by rw [hn2]; exact (Num.insert_spec i.num).1⟩, hn2, p2', v2.trans T1.valid, ?_⟩
  · simp only [run_bind] at e1
    simp only [hashlinInsert, run_bind, i.bucketRef, Option.bind_some]
    generalize hx : cellInsertTail (lref t.bucket (lplace t.lowMax (below t.split) h)) n d m = x at *
    cases x with
    | none => simp at e1
    | some y => simp only [Option.bind_some] at e1; simp only [Option.bind_some, e1, e2]
  · intro q hqn hq
    refine (S1 q hqn hq).trans (S2 q ?_)
    simp only [List.map_append, List.mem_append, List.map_cons, List.map_nil, List.mem_singleton]
    exact fun h' => h'.elim hq hqn

theorem LinInv.removeNode (i : LinInv m0 t m es) {e : Elem} (he : e ∈ es) (hlen : es.length < 2 ^ (bktBit - 1)) :
    ∃ t' m', (do let r ← hashlinBucketRef t e.hash
                 cellRemoveExisting r e.node
                 let t' ← hashlinShrinkStep { t with count := decT t.count }
                 let d ← onNodes (getData e.node)
                 pure (t', d) : MM _) m = some ((t', e.data), m') ∧
      LinInv m0 t' m' (es.filter (fun x => x.node ≠ e.node)) ∧
      Hashlin.num t' = (Hashlin.num t).remove ∧ t'.moved = t.moved ∧
      m'.heap.valid = m.heap.valid ∧ ∀ q, q ∉ es.map Elem.node → SameNode m.heap m'.heap q := by
  obtain ⟨vs, s⟩ := i.segs
  obtain ⟨B, b⟩ := i.binv
  obtain ⟨m1, B1, e1, b1, T1, hd, S1⟩ := b.remove he
  obtain ⟨hl, hl0⟩ := length_filter_node b.nodup he
  have hcount : decT t.count = t.count - 1 := by rw [i.count, decT_pos hl0]
  have i1 : LinBase m0 { t with count := decT t.count } m1 (es.filter (fun x => x.node ≠ e.node)) := by
    refine ⟨i.bit, i.bit_le, i.max, i.mask, i.low, i.lowMask, i.big, i.split, i.split0, ?_, ⟨vs, s.touch T1 ?_⟩, ⟨_, b1⟩⟩
    · simp only [hcount, hl]; rw [i.count]
    · rintro q rfl
      have := (lact_below i.split).1 (b.place_act e.hash)
      exact s.lref_vec i.bit (Nat.lt_of_lt_of_le this i.size_le)
  obtain ⟨t2, m2, e2, i2, n2, mv2, v2, S2⟩ := i1.shrinkStep (by rw [hl]; omega) (fun hs => by
    simp only at hs ⊢
    cases hst : t.state with
    | stable => exact absurd hst hs
    | grow => exact (i.num.grow hst).2.1
    | shrink => exact (i.num.shrink hst).2.1)
  have hn2 : Hashlin.num t2 = (Hashlin.num t).remove := by
    rw [n2]; simp only [Hashlin.num, Num.remove, hcount]
  have hnot : e.node ∉ (es.filter (fun x => x.node ≠ e.node)).map Elem.node := by simp
  refine ⟨t2, m2, ?_, ⟨i2, by
    rw [hn2]; exact (Num.remove_spec i.num (by simp only [Hashlin.num, i.count]; exact hl0)).1⟩, hn2, mv2, v2.trans T1.valid, ?_⟩
  · have ok2 : m2.heap.ok e.node := (ok_of_valid_eq (v2.trans T1.valid) _).2 (b.ok he)
    have hd2 : m2.heap.data e.node = e.data := by rw [(S2 _ hnot).data, hd]; exact b.data he
    simp only [run_bind, i.bucketRef, e1, Option.bind_some, e2, onNodes_run (getData_run ok2), hd2, run_pure]
  · intro q hq
    refine (S1 q hq).trans (S2 q fun h => ?_)
    obtain ⟨x, hx, rfl⟩ := List.mem_map.1 h
    exact hq (List.mem_map_of_mem (List.mem_filter.1 hx).1)

theorem hashlin_ok (m0 : Mem) : ImplOk hashlinImpl m0 (LinInv m0) where
  nodup i := by obtain ⟨B, b⟩ := i.binv; exact b.nodup
  ok i := by obtain ⟨B, b⟩ := i.binv; exact fun e he => b.ok he
  congr i hs := by
    obtain ⟨B, b⟩ := i.binv
    obtain ⟨vs, s⟩ := i.segs
    exact ⟨⟨i.bit, i.bit_le, i.max, i.mask, i.low, i.lowMask, i.big, i.split, i.split0, i.count, ⟨vs, s.heap _⟩,
      ⟨B, b.congr (fun _ _ => rfl) hs⟩⟩, i.num⟩
  insert {t m es n} d h i hn hne hlen := by
    obtain ⟨t', m', e, i', _, _, v, S⟩ := i.insert hn hne d h hlen
    exact ⟨t', m', e, i', v, S⟩
  removeExisting {t m es e} i he hlen := by
    obtain ⟨t', m', e1, i', _, _, v, S⟩ := i.removeNode he hlen
    obtain ⟨B, b⟩ := i.binv
    refine ⟨t', m', ?_, i', v, S⟩
    simp only [hashlinImpl, hashlinRemoveExisting]
    rw [run_bind, onNodes_run (getIndex_run (b.ok he)), b.index he]
    simp only [Option.bind_some]
    exact e1
  remove_some {t m es e cmp h} i hf hlen := by
    obtain ⟨he, hh⟩ := hit_of_find hf
    obtain ⟨t', m', e1, i', _, _, v, S⟩ := i.removeNode he hlen
    obtain ⟨B, b⟩ := i.binv
    obtain ⟨p, hp, ef⟩ := b.findNode cmp h
    rw [hf] at ef
    have h0 : e.node ≠ 0 := (b.ok he).1
    refine ⟨t', m', ?_, i', v, S⟩
    rw [run_bind, hh, i.bucketRef, Option.bind_some] at e1
    simp only [hashlinImpl, hashlinRemove]
    rw [run_bind, i.bucketRef, Option.bind_some, run_bind, readRef_run hp, Option.bind_some, run_bind, ef, Option.bind_some]
    simp only [Option.map_some, Option.getD_some, ne_eq, h0, not_false_eq_true, if_true]
    exact e1
  remove_none {t m es cmp h} i hf := by
    obtain ⟨B, b⟩ := i.binv
    obtain ⟨p, hp, ef⟩ := b.findNode cmp h
    rw [hf] at ef
    simp only [hashlinImpl, hashlinRemove]
    rw [run_bind, i.bucketRef, Option.bind_some, run_bind, readRef_run hp, Option.bind_some, run_bind, ef, Option.bind_some]
    simp
  search {t m es} cmp h i := by
    obtain ⟨B, b⟩ := i.binv
    obtain ⟨p, hp, ef⟩ := b.search cmp h
    simp only [hashlinImpl, hashlinSearch, hashlinBucket, run_bind, i.bucketRef, Option.bind_some, readRef_run hp, ef]
  bucket {t m es} h i := by
    obtain ⟨B, b⟩ := i.binv
    obtain ⟨p, hp, L, e, x⟩ := b.walk h
    refine ⟨L, ?_, x⟩
    simp only [walkBucket, hashlinImpl, hashlinBucket, run_bind, i.bucketRef, Option.bind_some, readRef_run hp, e]
  count i _ := i.count
  foreach {t m es} i := by
    obtain ⟨vs, s⟩ := i.segs
    obtain ⟨B, b⟩ := i.binv
    have hmle := i.max_le
    have hle := i.size_le
    rw [← i.max] at hle
    have hsz : sizeT (t.lowMax + t.split) = t.lowMax + t.split := by unfold sizeT; arch
    have b' := b.rename (act' := (· < t.lowMax + t.split)) (fun _ => rfl) (fun c => (lact_below i.split).symm) (fun _ _ => rfl)
    obtain ⟨L, hp, h⟩ := b'.foreach (rf := hashlinPos t)
      (fun c hc m => s.pos_run i.bit (by have := i.bit_le; arch) (Nat.lt_of_lt_of_le hc i.size_le) m)
    refine ⟨L, hp, fun func gc => ?_⟩
    simp only [hashlinImpl, hashlinForeach, hsz]
    exact h func gc
  keep {t m es} i := by
    obtain ⟨vs, s⟩ := i.segs
    exact s.keep
  done {t m es} i := by
    obtain ⟨vs, s⟩ := i.segs
    exact s.done i.bit (by have := i.bit_le; arch)

theorem hashlinInit_spec {m0 : Mem} (h0 : StartOk m0) :
    ∃ t m, hashlinInit m0 = some (t, m) ∧ LinInv m0 t m [] ∧ m.heap = m0.heap ∧ Hashlin.num t = ⟨6, 0, 0, 0, .stable⟩ ∧
      t.moved = 0 := by
  let m : Mem := { m0 with
    vlen := upd m0.vlen m0.vnext (some 64)
    vcell := upd m0.vcell m0.vnext (fun _ => some 0)
    vnext := m0.vnext + 1 }
  let bk : Nat → Option Ref := fun i => if i < 6 then some ⟨m0.vnext, 0⟩ else none
  have hbk : bk = upd (upd (upd (upd (upd (upd (fun _ => none) 0 (some ⟨m0.vnext, 0⟩)) 1 (some ⟨m0.vnext, 0⟩)) 2
      (some ⟨m0.vnext, 0⟩)) 3 (some ⟨m0.vnext, 0⟩)) 4 (some ⟨m0.vnext, 0⟩)) 5 (some ⟨m0.vnext, 0⟩) := by
    funext i
    simp only [bk, upd_apply]
    split
    · rename_i h
      have : i = 0 ∨ i = 1 ∨ i = 2 ∨ i = 3 ∨ i = 4 ∨ i = 5 := by omega
      rcases this with rfl | rfl | rfl | rfl | rfl | rfl <;> rfl
    · rename_i h
      rw [if_neg (by omega), if_neg (by omega), if_neg (by omega), if_neg (by omega), if_neg (by omega), if_neg (by omega)]
  have hi : hashlinInit m0 = some (⟨bk, 64, 63, 64, 63, 0, 0, 6, .stable, 0, 0⟩, m) := by
    rw [hbk]
    have hs : ∀ i : Nat, i < 7 → i < sizeBit := by intro i hi; arch
    simp [hashlinInit, shlT, hashlinBIT, vcalloc, decT, m, hashlinSetSeg, hashlinInitLoop, hashlinSeg, hashlinStable,
      upd_apply, hs]
  have hfresh := h0.2
  refine ⟨_, m, hi, ⟨⟨?_, ?_, rfl, rfl, rfl, rfl, ?_, Nat.zero_le _, fun _ => rfl, rfl, ⟨fun _ => m0.vnext, ?_⟩, ⟨fun _ => [], ?_⟩⟩, ?_⟩, rfl, rfl, rfl⟩
  · exact Nat.le_refl 6
  · simp only; arch
  · intro h; exact absurd rfl h
  · simp only
    refine ⟨fun i hi => by simp [bk, hi], fun i h1 h2 => by omega, ?_, fun i j h1 h2 h3 h4 _ => by omega, ?_, ?_, ?_, ?_, ?_⟩
    · intro i h1 h2
      obtain rfl : i = 5 := by omega
      simp [m, slen]
    · intro i _ _; exact hfresh _ (Nat.le_refl _)
    · intro i _ _; simp [m]
    · intro v hv
      have := hv 5 (by omega) (by omega)
      simp only [m]; rw [upd_ne (Ne.symm this)]
    · intro v hv
      simp only [m] at hv ⊢
      rw [upd_ne (by omega)]; exact hfresh v (by omega)
    · intro q p h
      have h2 : q.vec ≠ m0.vnext := by
        intro e; simp [Mem.cell?, e, hfresh m0.vnext (Nat.le_refl _)] at h
      rw [← h]
      refine cell_congr ?_ ?_
      · simp only [m]; rw [upd_ne h2]
      · simp only [m]; rw [upd_ne h2]
  · simp only
    have hlr : ∀ b, b < 64 → lref bk b = ⟨m0.vnext, b⟩ := by
      intro b hb
      have : ilog2 (b ||| 1) < 6 := ilog2_lt_or_one (by omega) (by omega)
      simp [lref, bk, this, Ref.add]
    refine ⟨?_, ?_, ?_, ?_, ?_, ?_⟩
    · intro h
      have := Nat.mod_lt h (show 0 < 64 by omega)
      left; simp [lplace, below, this]
    · intro b hb
      have hb := (lact_below (Nat.zero_le _)).1 hb
      refine ⟨0, ?_, ERep.nil _⟩
      rw [hlr b (by omega)]
      refine cell_eq (n := 64) (by simp [m]) ?_ ?_
      · simp only; omega
      · simp [m]
    · intro b c hb hc h
      have hb := (lact_below (Nat.zero_le _)).1 hb
      have hc := (lact_below (Nat.zero_le _)).1 hc
      rw [hlr b (by omega), hlr c (by omega)] at h
      simp at h; exact h
    · intro b _ e he; simp at he
    · intro h; simp
    · simp
  · refine ⟨Nat.le_refl _, fun _ => ⟨rfl, by simp [Hashlin.num], Or.inl rfl⟩, ?_, ?_⟩
    · intro h; simp [Hashlin.num] at h
    · intro h; simp [Hashlin.num] at h

end HashSpec
end Tommy
