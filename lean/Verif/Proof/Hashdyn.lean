import Verif.Model.Hashdyn
import Verif.Proof.Hashtable
/-! tommy_hashdyn. -/
set_option linter.unusedSimpArgs false
namespace Tommy

variable [Arch]
namespace HashSpec

variable {m0 m : Mem} {es : List Elem}

omit [Arch] in
theorem SameNode.refl (h : Heap) (x : Ptr) : SameNode h h x := ⟨id, rfl, rfl, rfl, rfl⟩

omit [Arch] in
theorem SameNode.trans {h h' h'' : Heap} {x : Ptr} (a : SameNode h h' x) (b : SameNode h' h'' x) :
    SameNode h h'' x :=
  ⟨fun o => b.ok (a.ok o), b.next.trans a.next, b.prev.trans a.prev, b.data.trans a.data,
    b.index.trans a.index⟩

omit [Arch] in
theorem inside_add {m : Mem} {r : Ref} {n b : Nat} (h0 : r.off = 0) (hl : m.vlen r.vec = some n) (hb : b < n) :
    m.inside (r.add b) = true := by
  refine inside_eq (n := n) (by simpa [Ref.add] using hl) ?_
  simp only [Ref.add, h0]; omega

omit [Arch] in
theorem add_inj {r : Ref} {a b : Nat} (h : r.add a = r.add b) : a = b := by
  simp only [Ref.add, Ref.mk.injEq, true_and] at h; omega

omit [Arch] in
theorem add_ne {r s : Ref} {a b : Nat} (h : r.vec ≠ s.vec) : r.add a ≠ s.add b := by
  intro e; simp only [Ref.add, Ref.mk.injEq] at e; exact h e.1

omit [Arch] in
theorem length_filter_le_mod (es : List Elem) (M i : Nat) : (es.filter (fun e => i ≤ e.hash % M)).length =
    (es.filter (fun e => e.hash % M = i)).length + (es.filter (fun e => i + 1 ≤ e.hash % M)).length := by
  induction es with
  | nil => rfl
  | cons e es ih =>
    simp only [List.filter_cons, decide_eq_true_eq]
    rcases Nat.lt_trichotomy i (e.hash % M) with h | h | h
    · rw [if_pos (by omega), if_neg (by omega), if_pos (by omega)]; simp only [List.length_cons]; omega
    · rw [if_pos (by omega), if_pos (by omega), if_neg (by omega)]; simp only [List.length_cons]; omega
    · rw [if_neg (by omega), if_neg (by omega), if_neg (by omega)]; omega

omit [Arch] in
/-- The grow loop. -/
theorem growLoop_spec {t : Hashdyn} {r' : Ref} {M : Nat} (hM : t.bucketMax = M) (hM0 : 0 < M)
    (hpow : ∃ k, M = 2 ^ k) (hvec : t.bucket.vec ≠ r'.vec) (h0 : r'.off = 0) :
    ∀ k i m B, i + k = M → m.vlen r'.vec = some (2 * M) →
    BInv m (fun b => if b < i ∨ M ≤ b then r'.add b else t.bucket.add b) (lact M (fun x => decide (x < i)))
      (lplace M (fun x => decide (x < i))) B es →
    ∃ m' B', hashdynGrowLoop t r' (2 * M - 1) i k m = some (k + (es.filter (fun e => i ≤ e.hash % M)).length, m') ∧
      BInv m' (fun b => r'.add b) (· < 2 * M) (· % (2 * M)) B' es ∧
      Touch m m' (fun q => q.vec = r'.vec) ∧
      ∀ q, q ∉ es.map Elem.node → SameNode m.heap m'.heap q := by
  intro k
  induction k with
  | zero =>
    intro i m B hi _ b
    obtain rfl : i = M := by omega
    have h0 : es.filter (fun e => i ≤ e.hash % i) = [] := List.filter_eq_nil_iff.2 fun e _ => by
      have := Nat.mod_lt e.hash hM0
      simp only [decide_eq_true_eq]; omega
    refine ⟨m, B, by rw [h0]; rfl, b.rename ?_ ?_ ?_, Touch.refl _ _, fun q _ => SameNode.refl _ _⟩
    · intro h; simp [lplace, Nat.mod_lt h hM0]
    · intro b
      simp only [lact, decide_eq_true_eq]; omega
    · intro b hb
      simp only [lact, decide_eq_true_eq] at hb
      rw [if_pos (by omega)]
  | succ k ih =>
    intro i m B hi hvl b
    have hiM : i < M := by omega
    obtain ⟨p, hp, _⟩ := b.cells i (Or.inl hiM)
    have hri : (if i < i ∨ M ≤ i then r'.add (i : Int) else t.bucket.add (i : Int)) = t.bucket.add (i : Int) := by
      rw [if_neg (by omega)]
    obtain ⟨ma, ea, ha, ca, Ta⟩ := writeRef_run (m := m) (r := r'.add i) 0 (inside_add h0 hvl (by omega))
    obtain ⟨mb, eb, hb, cb, Tb⟩ := writeRef_run (m := ma) (r := r'.add (i + M : Nat)) 0
      (inside_add h0 (by rw [Ta.vlen]; exact hvl) (by omega))
    have h01 : r'.add i ≠ r'.add (i + M : Nat) := fun e => by have := add_inj e; omega
    have Tab : Touch m mb (fun r => r = r'.add i ∨ r = r'.add (i + M : Nat)) :=
      (Ta.mono fun _ h => Or.inl h).trans (Tb.mono fun _ h => Or.inr h)
    have refne : ∀ b, lact M (fun x => decide (x < i)) b → b ≠ i → ∀ c, (c = i ∨ c = i + M) →
        (if b < i ∨ M ≤ b then r'.add (b : Int) else t.bucket.add (b : Int)) ≠ r'.add (c : Int) := by
      intro b hb hbi c hc
      simp only [lact, decide_eq_true_eq] at hb
      split
      · intro e
        have := add_inj e
        omega
      · exact add_ne hvec
    obtain ⟨k2, hk2⟩ := hpow
    have hand : ∀ x, x &&& (2 * M - 1) = x % (2 * M) := by
      intro x
      have : 2 * M = 2 ^ (k2 + 1) := by rw [hk2, Nat.pow_succ]; omega
      rw [this, Nat.and_two_pow_sub_one_eq_mod]
    obtain ⟨mc, B', ec, bc, Tc, Sc⟩ := b.split hM0 hiM (by simp) h01
      (fun b hb hbi => refne b hb hbi i (Or.inl rfl)) (fun b hb hbi => refne b hb hbi (i + M) (Or.inr rfl))
      (p := p) hp Tab (hb.trans ha) ((Tb.cell _ h01).trans ca) cb
      (dest := fun index => r'.add (index &&& (2 * M - 1) : Nat)) (by
        intro h hh
        simp only [hand]
        rcases mod_two_mul h hM0 with ⟨a, c⟩ | a
        · rw [if_neg (by omega), a, hh]
        · rw [if_pos (by omega), a, hh])
    have bc' := bc.rename (ref' := fun b => if b < i + 1 ∨ M ≤ b then r'.add (b : Int) else t.bucket.add (b : Int))
      (act' := lact M (fun x => decide (x < i + 1))) (place' := lplace M (fun x => decide (x < i + 1)))
      (by
        intro h
        have : (upd (fun x => decide (x < i)) i true) (h % M) = decide (h % M < i + 1) := by
          simp only [upd_apply]
          split
          · simp; omega
          · simp; omega
        simp only [lplace, this])
      (by
        intro b
        have : (upd (fun x => decide (x < i)) i true) (b - M) = decide (b - M < i + 1) := by
          simp only [upd_apply]
          split
          · simp; omega
          · simp; omega
        simp only [lact, this])
      (by
        intro b hb
        by_cases h1 : b = i + M
        · subst h1; rw [upd_same, if_pos (by omega)]
        · rw [upd_ne h1]
          by_cases h2 : b = i
          · subst h2; rw [upd_same, if_pos (by omega)]
          · rw [upd_ne h2]
            by_cases hc : b < i ∨ M ≤ b
            · rw [if_pos hc, if_pos (by omega)]
            · rw [if_neg hc, if_neg (by omega)])
    obtain ⟨m', B'', e', b', T', S'⟩ := ih (i + 1) mc B' (by omega) (by rw [Tc.vlen]; exact hvl) bc'
    refine ⟨m', B'', ?_, b', ?_, fun q hq => (Sc q hq).trans (S' q hq)⟩
    · have hpb : mb.cell? (t.bucket.add i) = some p := by
        rw [Tab.cell _ (by rintro (h | h) <;> exact add_ne hvec h), ← hri]; exact hp
      simp only [hashdynGrowLoop, run_bind, ea, Option.bind_some, hM, eb, readRef_run hpb, ec, e', run_pure]
      rw [length_filter_le_mod es M i]
      congr 2; omega
    · refine Touch.trans (Tc.mono ?_) T'
      rintro q (rfl | rfl) <;> rfl

omit [Arch] in
/-- The shrink loop. -/
theorem shrinkLoop_spec {t : Hashdyn} {r' : Ref} {M : Nat} (hM0 : 0 < M)
    (hvec : t.bucket.vec ≠ r'.vec) (h0 : r'.off = 0) :
    ∀ k i m B, i + k = M → m.vlen r'.vec = some M →
    BInv m (fun b => if b < i then r'.add b else t.bucket.add b) (lact M (fun x => decide (i ≤ x)))
      (lplace M (fun x => decide (i ≤ x))) B es →
    ∃ m' B', hashdynShrinkLoop t r' M i k m = some (k, m') ∧
      BInv m' (fun b => r'.add b) (· < M) (· % M) B' es ∧
      Touch m m' (fun q => q.vec = r'.vec) ∧
      ∀ q, q ∉ es.map Elem.node → SameNode m.heap m'.heap q := by
  intro k
  induction k with
  | zero =>
    intro i m B hi _ b
    obtain rfl : i = M := by omega
    refine ⟨m, B, rfl, b.rename ?_ ?_ ?_, Touch.refl _ _, fun q _ => SameNode.refl _ _⟩
    · intro h
      have : ¬ (i ≤ h % i) := by have := Nat.mod_lt h hM0; omega
      simp [lplace, this]
    · intro b
      simp only [lact, decide_eq_true_eq]; omega
    · intro b hb
      simp only [lact, decide_eq_true_eq] at hb
      rw [if_pos (by omega)]
  | succ k ih =>
    intro i m B hi hvl b
    have hiM : i < M := by omega
    obtain ⟨p, hp, _⟩ := b.cells i (Or.inl hiM)
    have hri : (if i < i then r'.add (i : Int) else t.bucket.add (i : Int)) = t.bucket.add (i : Int) := by
      rw [if_neg (by omega)]
    obtain ⟨ma, ea, ha, ca, Ta⟩ := writeRef_run (m := m) (r := r'.add i) p (inside_add h0 hvl (by omega))
    have refne : ∀ b, lact M (fun x => decide (i ≤ x)) b → b ≠ i →
        (if b < i then r'.add (b : Int) else t.bucket.add (b : Int)) ≠ r'.add (i : Int) := by
      intro b hb hbi
      split
      · intro e
        have := add_inj e
        omega
      · exact add_ne hvec
    obtain ⟨mc, B', ec, bc, Tc, _, Sc⟩ := b.merge hM0 hiM (by simp) refne (p := p) hp Ta ha ca
    have hrh : (if i + M < i then r'.add ((i + M : Nat) : Int) else t.bucket.add ((i + M : Nat) : Int)) =
        t.bucket.add ((i + M : Nat) : Int) := by rw [if_neg (by omega)]
    rw [hrh] at ec
    have bc' := bc.rename (ref' := fun b => if b < i + 1 then r'.add (b : Int) else t.bucket.add (b : Int))
      (act' := lact M (fun x => decide (i + 1 ≤ x))) (place' := lplace M (fun x => decide (i + 1 ≤ x)))
      (by
        intro h
        have : (upd (fun x => decide (i ≤ x)) i false) (h % M) = decide (i + 1 ≤ h % M) := by
          simp only [upd_apply]
          split
          · simp; omega
          · simp; omega
        simp only [lplace, this])
      (by
        intro b
        have : (upd (fun x => decide (i ≤ x)) i false) (b - M) = decide (i + 1 ≤ b - M) := by
          simp only [upd_apply]
          split
          · simp; omega
          · simp; omega
        simp only [lact, this])
      (by
        intro b hb
        by_cases h2 : b = i
        · subst h2; rw [upd_same, if_pos (by omega)]
        · rw [upd_ne h2]
          by_cases hc : b < i
          · rw [if_pos hc, if_pos (by omega)]
          · rw [if_neg hc, if_neg (by omega)])
    obtain ⟨m', B'', e', b', T', S'⟩ := ih (i + 1) mc B' (by omega) (by rw [Tc.vlen]; exact hvl) bc'
    refine ⟨m', B'', ?_, b', ?_, fun q hq => (Sc q hq).trans (S' q hq)⟩
    · have hpm : m.cell? (t.bucket.add i) = some p := by rw [← hri]; exact hp
      simp only [hashdynShrinkLoop, run_bind, readRef_run hpm, ea, Option.bind_some, ec, e', run_pure]
    · refine Touch.trans (Tc.mono ?_) T'
      rintro q rfl; rfl

/-- The memory after the allocation of a vector. -/
def Mem.alloc (m : Mem) (n : Nat) : Mem :=
  { m with
    vlen := upd m.vlen m.vnext (some n)
    vcell := upd m.vcell m.vnext (fun _ => none)
    vnext := m.vnext + 1 }

theorem vmalloc_run {m : Mem} {n : Nat} (h : n < 2 ^ (bktBit + 1)) :
    vmalloc (sizeT (n * ptrSize)) m = some (⟨m.vnext, 0⟩, Mem.alloc m n) := by
  have : sizeT (n * ptrSize) / ptrSize = n := by unfold sizeT; rw [Nat.mod_eq_of_lt (by arch)]; arch
  simp only [vmalloc, this, Mem.alloc]

omit [Arch] in
theorem alloc_cell {m : Mem} {n : Nat} {q : Ref} (h : q.vec ≠ m.vnext) : (Mem.alloc m n).cell? q = m.cell? q :=
  cell_congr (by simp [Mem.alloc, upd_ne h]) (by simp [Mem.alloc, upd_ne h])

omit [Arch] in
/-- From the old vector `r` of `n` buckets to a new one of `n'`. -/
theorem Flat.realloc {r : Ref} {n n' : Nat} (f : Flat m0 m r n es) {m2 : Mem}
    (T : Touch (Mem.alloc m n') m2 (fun q => q.vec = m.vnext))
    (b : ∃ B, BInv m2 (fun b => (⟨m.vnext, 0⟩ : Ref).add b) (· < n') (· % n') B es) :
    ∃ m3, vfree r m2 = some ((), m3) ∧ Flat m0 m3 ⟨m.vnext, 0⟩ n' es ∧ m3.heap = m2.heap := by
  have hne : r.vec ≠ m.vnext := by have := f.used; omega
  have hnew : m0.vlen m.vnext = none := by
    have := f.fresh m.vnext (Nat.le_refl _)
    rw [f.vlen, upd_ne hne.symm] at this; exact this
  have hvl : m2.vlen r.vec = some n := by
    rw [T.vlen]; simp only [Mem.alloc]; rw [upd_ne hne, f.vlen, upd_same]
  refine ⟨{ m2 with vlen := upd m2.vlen r.vec none }, by simp [vfree, f.off, hvl], ?_, rfl⟩
  refine ⟨rfl, ?_, hnew, ?_, ?_, ?_, ?_⟩
  · funext q
    rw [T.vlen]
    simp only [Mem.alloc, f.vlen, upd_apply]
    by_cases h1 : q = r.vec
    · subst h1; simp [hne, f.new]
    · by_cases h2 : q = m.vnext
      · subst h2; simp [h1]
      · simp [h1, h2]
  · simp only [T.vnext, Mem.alloc]; omega
  · intro v hv
    simp only [T.vnext, Mem.alloc] at hv
    simp only [T.vlen, Mem.alloc, upd_apply]
    split
    · rfl
    · rw [if_neg (by omega)]; exact f.fresh v (by omega)
  · intro q p h
    have h1 : q.vec ≠ r.vec := vec_ne_of_cell f.new h
    have h2 : q.vec ≠ m.vnext := vec_ne_of_cell (r := ⟨m.vnext, 0⟩) hnew h
    have e1 : ({ m2 with vlen := upd m2.vlen r.vec none } : Mem).cell? q = m2.cell? q :=
      cell_congr (upd_ne h1) rfl
    rw [e1, T.cell q h2, alloc_cell h2]
    exact f.keep q p h
  · obtain ⟨B, i⟩ := b
    refine ⟨B, i.congr (fun b _ => cell_congr ?_ rfl) (fun e _ => SameNode.refl _ _)⟩
    simp only [Ref.add]
    rw [upd_ne hne.symm]

/-- The parts of the invariant of tommy_hashdyn which hold also in the middle of a call. -/
structure DynBase (m0 : Mem) (t : Hashdyn) (m : Mem) (es : List Elem) : Prop where
  max : t.bucketMax = 2 ^ t.bucketBit
  mask : t.bucketMask = t.bucketMax - 1
  bit : 4 ≤ t.bucketBit
  bit_lt : t.bucketBit ≤ bktBit
  count : t.count = es.length
  flat : Flat m0 m t.bucket t.bucketMax es

/-- The invariant of tommy_hashdyn. -/
structure DynInv (m0 : Mem) (t : Hashdyn) (m : Mem) (es : List Elem) : Prop extends DynBase m0 t m es where
  load : 2 * es.length < t.bucketMax
  low : t.bucketBit = 4 ∨ t.bucketMax < 8 * es.length

theorem DynBase.and_mask {t : Hashdyn} (i : DynBase m0 t m es) (h : Nat) :
    h &&& t.bucketMask = h % t.bucketMax := by
  rw [i.mask, i.max, Nat.and_two_pow_sub_one_eq_mod]

theorem pow_le60 {k : Nat} (h : k ≤ bktBit) : 2 ^ k ≤ 2 ^ bktBit := Nat.pow_le_pow_right (by omega) h

omit [Arch] in
theorem lact_none {M b : Nat} {S : Nat → Bool} (hS : ∀ x, x < M → S x = false) : lact M S b ↔ b < M := by
  constructor
  · rintro (h | ⟨h1, h2, h3⟩)
    · exact h
    · rw [hS _ (by omega)] at h3; simp at h3
  · exact Or.inl

theorem DynBase.grow {t : Hashdyn} (i : DynBase m0 t m es) (hb : t.bucketBit < bktBit) :
    ∃ r m', hashdynResize t (t.bucketBit + 1) m =
        some ({ t with bucketBit := t.bucketBit + 1, bucketMax := 2 ^ (t.bucketBit + 1),
                       bucketMask := 2 ^ (t.bucketBit + 1) - 1, bucket := r,
                       work := t.work + (t.bucketMax + es.length) }, m') ∧
      DynBase m0 { t with bucketBit := t.bucketBit + 1, bucketMax := 2 ^ (t.bucketBit + 1),
                          bucketMask := 2 ^ (t.bucketBit + 1) - 1, bucket := r,
                          work := t.work + (t.bucketMax + es.length) } m' es ∧
      m'.heap.valid = m.heap.valid ∧ ∀ q, q ∉ es.map Elem.node → SameNode m.heap m'.heap q := by
  have f := i.flat
  have hne : t.bucket.vec ≠ m.vnext := by have := f.used; omega
  have h2 : 2 ^ (t.bucketBit + 1) = 2 * t.bucketMax := by rw [i.max, Nat.pow_succ]; omega
  have hM0 : 0 < t.bucketMax := by rw [i.max]; exact Nat.two_pow_pos _
  have hle : 2 * t.bucketMax ≤ 2 ^ bktBit := by rw [← h2]; exact pow_le60 (by omega)
  obtain ⟨B, b⟩ := f.binv
  have b1 : BInv (Mem.alloc m (2 * t.bucketMax))
      (fun b => if b < 0 ∨ t.bucketMax ≤ b then (⟨m.vnext, 0⟩ : Ref).add b else t.bucket.add b)
      (lact t.bucketMax (fun x => decide (x < 0))) (lplace t.bucketMax (fun x => decide (x < 0))) B es := by
    have b0 : BInv (Mem.alloc m (2 * t.bucketMax)) (fun b => t.bucket.add b) (· < t.bucketMax)
        (· % t.bucketMax) B es :=
      b.congr (fun b _ => alloc_cell (by simpa [Ref.add] using hne)) (fun e _ => SameNode.refl _ _)
    refine b0.rename (by intro h; simp [lplace]) (fun b => lact_none (by simp)) ?_
    intro b hb
    rw [if_neg (by omega)]
  obtain ⟨m2, B2, e2, b2, T2, S2⟩ := growLoop_spec (t := t) (r' := ⟨m.vnext, 0⟩) rfl hM0 ⟨_, i.max⟩ hne rfl
    t.bucketMax 0 _ B (by omega) (by simp [Mem.alloc]) b1
  obtain ⟨m3, e3, f3, h3⟩ := f.realloc T2 ⟨B2, b2⟩
  refine ⟨⟨m.vnext, 0⟩, m3, ?_, ⟨rfl, rfl, ?_, ?_, i.count, by rw [h2]; exact f3⟩, ?_, ?_⟩
  · have hpos : 0 < 2 ^ (t.bucketBit + 1) := Nat.two_pow_pos _
    have hgt : t.bucketBit + 1 > t.bucketBit := Nat.lt_succ_self _
    have hs : t.bucketBit + 1 < sizeBit := by arch
    simp only [hashdynResize, run_bind, shlT, if_pos hs, Option.bind_some, decT_pos hpos]
    rw [h2, vmalloc_run (by omega)]
    have hall : es.filter (fun e => 0 ≤ e.hash % t.bucketMax) = es := List.filter_eq_self.2 (by simp)
    simp only [Option.bind_some, run_ite, run_bind, if_pos hgt, e2, e3, run_pure, hall]
  · simp only; have := i.bit; omega
  · simp only; omega
  · rw [h3, T2.valid]; rfl
  · intro q hq
    rw [h3]; exact S2 q hq

theorem DynBase.shrink {t : Hashdyn} (i : DynBase m0 t m es) (hb : 4 < t.bucketBit) :
    ∃ r m', hashdynResize t (t.bucketBit - 1) m =
        some ({ t with bucketBit := t.bucketBit - 1, bucketMax := 2 ^ (t.bucketBit - 1),
                       bucketMask := 2 ^ (t.bucketBit - 1) - 1, bucket := r,
                       work := t.work + 2 ^ (t.bucketBit - 1) }, m') ∧
      DynBase m0 { t with bucketBit := t.bucketBit - 1, bucketMax := 2 ^ (t.bucketBit - 1),
                          bucketMask := 2 ^ (t.bucketBit - 1) - 1, bucket := r,
                          work := t.work + 2 ^ (t.bucketBit - 1) } m' es ∧
      m'.heap.valid = m.heap.valid ∧ ∀ q, q ∉ es.map Elem.node → SameNode m.heap m'.heap q := by
  have f := i.flat
  have hne : t.bucket.vec ≠ m.vnext := by have := f.used; omega
  have h2 : t.bucketMax = 2 * 2 ^ (t.bucketBit - 1) := by
    rw [i.max]
    have : t.bucketBit = (t.bucketBit - 1) + 1 := by omega
    rw [this, Nat.pow_succ]; simp; omega
  have hM0 : 0 < 2 ^ (t.bucketBit - 1) := Nat.two_pow_pos _
  have hle : 2 ^ (t.bucketBit - 1) ≤ 2 ^ bktBit := pow_le60 (by have := i.bit_lt; omega)
  obtain ⟨B, b⟩ := f.binv
  generalize hMM : 2 ^ (t.bucketBit - 1) = M at *
  have b1 : BInv (Mem.alloc m M)
      (fun b => if b < 0 then (⟨m.vnext, 0⟩ : Ref).add b else t.bucket.add b)
      (lact M (fun x => decide (0 ≤ x))) (lplace M (fun x => decide (0 ≤ x))) B es := by
    have b0 : BInv (Mem.alloc m M) (fun b => t.bucket.add b) (· < t.bucketMax)
        (· % t.bucketMax) B es :=
      b.congr (fun b _ => alloc_cell (by simpa [Ref.add] using hne)) (fun e _ => SameNode.refl _ _)
    refine b0.rename (by intro h; simp [lplace, h2]) (fun b => ?_) ?_
    · simp only [lact, Nat.zero_le, decide_true, and_true]; omega
    · intro b hb
      rw [if_neg (by omega)]
  obtain ⟨m2, B2, e2, b2, T2, S2⟩ := shrinkLoop_spec (t := t) (r' := ⟨m.vnext, 0⟩) hM0 hne rfl
    M 0 _ B (by omega) (by simp [Mem.alloc]) b1
  obtain ⟨m3, e3, f3, h3⟩ := f.realloc T2 ⟨B2, b2⟩
  refine ⟨⟨m.vnext, 0⟩, m3, ?_, ⟨hMM.symm, rfl, ?_, ?_, i.count, f3⟩, ?_, ?_⟩
  · have hgt : ¬ (t.bucketBit - 1 > t.bucketBit) := by omega
    have hs : t.bucketBit - 1 < sizeBit := by have := i.bit_lt; arch
    simp only [hashdynResize, run_bind, shlT, if_pos hs, Option.bind_some, hMM, decT_pos hM0]
    rw [vmalloc_run (by omega)]
    simp only [Option.bind_some, run_ite, run_bind, if_neg hgt, e2, e3, run_pure]
  · simp only; omega
  · simp only; have := i.bit_lt; omega
  · rw [h3, T2.valid]; rfl
  · intro q hq
    rw [h3]; exact S2 q hq

omit [Arch] in
theorem bit_of_lt {k n : Nat} (h : 2 ^ k < 2 ^ n) : k < n := (Nat.pow_lt_pow_iff_right (by omega)).1 h

theorem DynInv.removeNode {t : Hashdyn} (i : DynInv m0 t m es) {e : Elem} (he : e ∈ es) :
    ∃ t' m', (do cellRemoveExisting (t.bucket.add (e.hash % t.bucketMax : Nat)) e.node
                 let t' ← hashdynShrinkStep { t with count := decT t.count }
                 let d ← onNodes (getData e.node)
                 pure (t', d) : MM _) m = some ((t', e.data), m') ∧
      DynInv m0 t' m' (es.filter (fun x => x.node ≠ e.node)) ∧
      (t'.bucketMax = t.bucketMax ∧ t'.work = t.work ∨
        t.bucketMax = 2 * t'.bucketMax ∧ 16 < t.bucketMax ∧ 8 * (es.length - 1) ≤ t.bucketMax ∧ t'.work = t.work + t'.bucketMax) ∧
      m'.heap.valid = m.heap.valid ∧ ∀ q, q ∉ es.map Elem.node → SameNode m.heap m'.heap q := by
  obtain ⟨m1, e1, f, v, hd, S⟩ := i.flat.remove he
  obtain ⟨hl, hl0⟩ := length_filter_node i.flat.nodup he
  have hcount : decT t.count = es.length - 1 := by rw [i.count, decT_pos hl0]
  have b1 : DynBase m0 { t with count := decT t.count } m1 (es.filter (fun x => x.node ≠ e.node)) :=
    ⟨i.max, i.mask, i.bit, i.bit_lt, by rw [hl]; exact hcount, f⟩
  have hnot : e.node ∉ (es.filter (fun x => x.node ≠ e.node)).map Elem.node := by simp
  have hsub : ∀ q, q ∉ es.map Elem.node → q ∉ (es.filter (fun x => x.node ≠ e.node)).map Elem.node := by
    intro q hq h
    obtain ⟨x, hx, rfl⟩ := List.mem_map.1 h
    exact hq (List.mem_map_of_mem (List.mem_filter.1 hx).1)
  have h8 : ∃ c, t.bucketMax = 16 * c := by
    refine ⟨2 ^ (t.bucketBit - 4), ?_⟩
    rw [i.max]
    have : t.bucketBit = 4 + (t.bucketBit - 4) := by have := i.bit; omega
    conv => lhs; rw [this, Nat.pow_add]
  obtain ⟨c, hc⟩ := h8
  have hload := i.load
  have hlow := i.low
  by_cases hs : decT t.count ≤ t.bucketMax / 8 ∧ t.bucketBit > hashdynBIT
  · obtain ⟨r, m2, e2, b2, v2, S2⟩ := b1.shrink hs.2
    refine ⟨_, m2, ?_, ⟨b2, ?_, ?_⟩, Or.inr ?_, v2.trans v, fun q hq => (S q hq).trans (S2 q (hsub q hq))⟩
    · have ok2 : m2.heap.ok e.node := (ok_of_valid_eq (v2.trans v) _).2 (i.flat.ok e he)
      have hd2 : m2.heap.data e.node = e.data := by rw [(S2 _ hnot).data, hd]
      simp only at e2
      simp only [run_bind, e1, Option.bind_some, hashdynShrinkStep, if_pos hs, e2,
        onNodes_run (getData_run ok2), hd2, run_pure]
    · simp only [hl]
      have h2 : t.bucketMax = 2 * 2 ^ (t.bucketBit - 1) := by
        rw [i.max]
        have : t.bucketBit = (t.bucketBit - 1) + 1 := by have := i.bit; omega
        rw [this, Nat.pow_succ]; simp; omega
      omega
    · simp only [hl]
      rw [hcount] at hs
      have h2 : t.bucketMax = 2 * 2 ^ (t.bucketBit - 1) := by
        rw [i.max]
        have : t.bucketBit = (t.bucketBit - 1) + 1 := by have := i.bit; omega
        rw [this, Nat.pow_succ]; simp; omega
      have : hashdynBIT = 4 := rfl
      rcases hlow with h | h
      · omega
      · right; omega
    · have h2 : t.bucketMax = 2 * 2 ^ (t.bucketBit - 1) := by
        rw [i.max]
        have : t.bucketBit = (t.bucketBit - 1) + 1 := by have := i.bit; omega
        rw [this, Nat.pow_succ]; simp; omega
      have h32 : 2 ^ 4 ≤ 2 ^ (t.bucketBit - 1) :=
        Nat.pow_le_pow_right (by omega) (by have : hashdynBIT = 4 := rfl; omega)
      rw [hcount] at hs
      exact ⟨h2, by omega, by omega, rfl⟩
  · refine ⟨{ t with count := decT t.count }, m1, ?_, ⟨b1, ?_, ?_⟩, Or.inl ⟨rfl, rfl⟩, v, S⟩
    · have ok1 : m1.heap.ok e.node := (ok_of_valid_eq v _).2 (i.flat.ok e he)
      simp only [run_bind, e1, Option.bind_some, hashdynShrinkStep, if_neg hs, run_pure,
        onNodes_run (getData_run ok1), hd]
    · simp only [hl]; omega
    · simp only [hl]
      rw [hcount] at hs
      have : hashdynBIT = 4 := rfl
      have hb := i.bit
      by_cases hb4 : t.bucketBit = 4
      · exact Or.inl hb4
      · right
        have : ¬ (es.length - 1 ≤ t.bucketMax / 8) := fun h => hs ⟨h, by omega⟩
        omega

theorem DynInv.insert {t : Hashdyn} {n : Ptr} (d h : Nat) (i : DynInv m0 t m es) (hn : m.heap.ok n)
    (hne : n ∉ es.map Elem.node) (hlen : es.length + 1 < 2 ^ (bktBit - 1)) :
    ∃ t' m', hashdynInsert t n d h m = some (t', m') ∧ DynInv m0 t' m' (es ++ [⟨n, d, h⟩]) ∧
      (t'.bucketMax = t.bucketMax ∧ t'.work = t.work ∨
        t'.bucketMax = 2 * t.bucketMax ∧ t.bucketMax = 2 * (es.length + 1) ∧
          t'.work = t.work + (t.bucketMax + (es.length + 1))) ∧
      m'.heap.valid = m.heap.valid ∧ ∀ q, q ≠ n → q ∉ es.map Elem.node → SameNode m.heap m'.heap q := by
  obtain ⟨m1, e1, f, v, S⟩ := i.flat.insert hn hne d h
  have hcount : sizeT (t.count + 1) = es.length + 1 := by
    rw [i.count]; unfold sizeT; arch
  have hl : (es ++ [(⟨n, d, h⟩ : Elem)]).length = es.length + 1 := by simp
  have b1 : DynBase m0 { t with count := sizeT (t.count + 1) } m1 (es ++ [⟨n, d, h⟩]) :=
    ⟨i.max, i.mask, i.bit, i.bit_lt, by rw [hl]; exact hcount, f⟩
  have e1' : hashdynInsert t n d h m = hashdynGrowStep { t with count := sizeT (t.count + 1) } m1 := by
    simp only [run_bind] at e1
    simp only [hashdynInsert, run_bind, i.and_mask]
    generalize hx : cellInsertTail (t.bucket.add ↑(h % t.bucketMax)) n d m = x at *
    cases x with
    | none => simp at e1
    | some y => simp only [Option.bind_some] at e1; simp [e1]
  have hsub : ∀ q, q ≠ n → q ∉ es.map Elem.node → q ∉ (es ++ [(⟨n, d, h⟩ : Elem)]).map Elem.node := by
    intro q hqn hq h'
    simp only [List.map_append, List.mem_append, List.map_cons, List.map_nil, List.mem_singleton] at h'
    exact h'.elim hq hqn
  have hload := i.load
  have hlow := i.low
  have hbit := i.bit
  have h16 : ∃ c, t.bucketMax = 16 * c ∧ 0 < c := by
    refine ⟨2 ^ (t.bucketBit - 4), ?_, Nat.two_pow_pos _⟩
    rw [i.max]
    have : t.bucketBit = 4 + (t.bucketBit - 4) := by omega
    conv => lhs; rw [this, Nat.pow_add]
  obtain ⟨c, hc, hc0⟩ := h16
  rw [e1']
  by_cases hs : sizeT (t.count + 1) ≥ t.bucketMax / 2
  · have hb59 : t.bucketBit < bktBit := by
      rcases Nat.lt_or_ge t.bucketBit bktBit with h' | h'
      · exact h'
      · have hb : t.bucketBit = bktBit := by have := i.bit_lt; omega
        have hm := i.max
        rw [hb] at hm
        rw [hcount] at hs
        arch
    obtain ⟨r, m2, e2, b2, v2, S2⟩ := b1.grow hb59
    have h2 : 2 ^ (t.bucketBit + 1) = 2 * t.bucketMax := by rw [i.max, Nat.pow_succ]; omega
    refine ⟨_, m2, ?_, ⟨b2, ?_, ?_⟩, Or.inr ?_, v2.trans v, fun q hqn hq => (S q hqn hq).trans (S2 q (hsub q hqn hq))⟩
    · simp only at e2
      simp only [hashdynGrowStep, if_pos hs, e2]
    · simp only [hl]; omega
    · simp only [hl]; right; rw [hcount] at hs; omega
    · simp only [hl]; rw [hcount] at hs; exact ⟨h2, by omega, trivial⟩
  · refine ⟨_, m1, by simp only [hashdynGrowStep, if_neg hs, run_pure], ⟨b1, ?_, ?_⟩, Or.inl ⟨rfl, rfl⟩, v, S⟩
    · simp only [hl]; rw [hcount] at hs; omega
    · simp only [hl]
      rcases hlow with h' | h'
      · exact Or.inl h'
      · right; omega

theorem hashdyn_ok (m0 : Mem) : ImplOk hashdynImpl m0 (DynInv m0) where
  nodup i := i.flat.nodup
  ok i := i.flat.ok
  congr i hs := ⟨⟨i.max, i.mask, i.bit, i.bit_lt, i.count, i.flat.congr hs⟩, i.load, i.low⟩
  insert {t m es n} d h i hn hne hlen := by
    obtain ⟨t', m', e, i', _, r⟩ := i.insert d h hn hne hlen
    exact ⟨t', m', e, i', r⟩
  removeExisting {t m es e} i he _ := by
    obtain ⟨t', m', e1, i', _, v, S⟩ := i.removeNode he
    obtain ⟨B, bi⟩ := i.flat.binv
    refine ⟨t', m', ?_, i', v, S⟩
    simp only [hashdynImpl, hashdynRemoveExisting]
    rw [run_bind, onNodes_run (getIndex_run (i.flat.ok e he)), bi.index he]
    simp only [Option.bind_some, i.and_mask]
    exact e1
  remove_some {t m es e cmp h} i hf _ := by
    obtain ⟨he, hh⟩ := hit_of_find hf
    obtain ⟨t', m', e1, i', _, v, S⟩ := i.removeNode he
    obtain ⟨p, hp, ef⟩ := i.flat.findNode cmp h
    rw [hf] at ef
    have h0 : e.node ≠ 0 := (i.flat.ok e he).1
    refine ⟨t', m', ?_, i', v, S⟩
    simp only [hashdynImpl, hashdynRemove, i.and_mask]
    rw [run_bind, readRef_run hp, Option.bind_some, run_bind, ef, Option.bind_some]
    simp only [Option.map_some, Option.getD_some, ne_eq, h0, not_false_eq_true, if_true]
    rw [← hh]
    exact e1
  remove_none {t m es cmp h} i hf := by
    obtain ⟨p, hp, ef⟩ := i.flat.findNode cmp h
    rw [hf] at ef
    simp only [hashdynImpl, hashdynRemove, i.and_mask]
    rw [run_bind, readRef_run hp, Option.bind_some, run_bind, ef, Option.bind_some]
    simp
  search {t m es} cmp h i := by
    have := i.flat.search cmp h
    simp only [hashdynImpl, hashdynSearch, hashdynBucket, i.and_mask]
    exact this
  bucket {t m es} h i := by
    have := i.flat.bucket h
    simp only [walkBucket, hashdynImpl, hashdynBucket, i.and_mask]
    exact this
  count i _ := i.count
  foreach i := i.flat.foreach
  keep i := i.flat.keep
  done i := i.flat.done

theorem hashdynInit_spec {m0 : Mem} (h0 : StartOk m0) :
    ∃ t m, hashdynInit m0 = some (t, m) ∧ DynInv m0 t m [] ∧ m.heap = m0.heap := by
  let m : Mem := { m0 with
    vlen := upd m0.vlen m0.vnext (some 16)
    vcell := upd m0.vcell m0.vnext (fun _ => some 0)
    vnext := m0.vnext + 1 }
  have hi : hashdynInit m0 = some (⟨⟨m0.vnext, 0⟩, 4, 16, 15, 0, 0⟩, m) := by
    simp [hashdynInit, shlT, hashdynBIT, vcalloc, decT, m, show 4 < sizeBit by arch]
  refine ⟨_, m, hi, ⟨⟨rfl, rfl, Nat.le_refl _, ?_, rfl, ?_⟩, ?_, Or.inl rfl⟩, rfl⟩
  · simp only; arch
  · refine Flat.init (by simp) h0.2 rfl rfl (fun v hv => ?_) (fun i hi => ?_)
    · simp only [m, upd_ne hv]
    · simp [m]
  · simp

end HashSpec
end Tommy
