import Verif.Model.Hashlin
import Verif.Proof.Hashdyn
/-! The segments of the buckets of tommy_hashlin. -/
set_option linter.unusedSimpArgs false
namespace Tommy

variable [Arch]
namespace HashSpec

variable {m0 m : Mem} {es : List Elem}

omit [Arch] in
theorem or_one (n : Nat) : n ||| 1 = 2 * (n / 2) + 1 := by
  have h1 : (n ||| 1) / 2 = n / 2 := by rw [Nat.or_div_two]; simp
  have h2 : (n ||| 1) % 2 = 1 := by rw [Nat.or_mod_two_eq_one]; simp
  omega

omit [Arch] in
theorem ilog2_or_one {n i : Nat} (h1 : 2 ^ i ≤ n) (h2 : n < 2 ^ (i + 1)) : ilog2 (n ||| 1) = i := by
  unfold ilog2
  have hp : 0 < 2 ^ i := Nat.two_pow_pos _
  have he : 2 ^ (i + 1) = 2 * 2 ^ i := by rw [Nat.pow_succ]; omega
  rw [Nat.log2_eq_iff (by rw [or_one]; omega), or_one]
  omega

omit [Arch] in
theorem ilog2_lt_or_one {n k : Nat} (hk : 0 < k) (h : n < 2 ^ k) : ilog2 (n ||| 1) < k := by
  unfold ilog2
  have he : 2 ^ k = 2 * 2 ^ (k - 1) := by rw [← Nat.pow_succ']; congr 1; omega
  rw [Nat.log2_lt (by rw [or_one]; omega), or_one]
  omega

/-- The segment of a position: the first 64 are in the segment "5". -/
def sg (pos : Nat) : Nat := if pos < 64 then 5 else ilog2 pos

/-- The first position of a segment. -/
def sbase (i : Nat) : Nat := if i = 5 then 0 else 2 ^ i

/-- The length of a segment. -/
def slen (i : Nat) : Nat := if i = 5 then 64 else 2 ^ i

omit [Arch] in
theorem sg_bounds (pos : Nat) : 5 ≤ sg pos ∧ sbase (sg pos) ≤ pos ∧ pos < sbase (sg pos) + slen (sg pos) := by
  unfold sg
  split
  · simp [sbase, slen]; omega
  · rename_i h
    have h0 : pos ≠ 0 := by omega
    have h1 : 6 ≤ ilog2 pos := by
      unfold ilog2; rw [Nat.le_log2 h0]; omega
    have h2 : 2 ^ ilog2 pos ≤ pos := Nat.log2_self_le h0
    have h3 : pos < 2 ^ (ilog2 pos + 1) := Nat.lt_log2_self
    rw [Nat.pow_succ] at h3
    simp only [sbase, slen, if_neg (show ¬ ilog2 pos = 5 by omega)]
    omega

omit [Arch] in
theorem sg_lt {pos k : Nat} (hk : 6 ≤ k) (h : pos < 2 ^ k) : sg pos < k := by
  unfold sg
  split
  · omega
  · unfold ilog2; rw [Nat.log2_lt (by omega)]; exact h

omit [Arch] in
theorem sg_of_ge {pos i : Nat} (hi : 6 ≤ i) (h1 : 2 ^ i ≤ pos) (h2 : pos < 2 ^ (i + 1)) : sg pos = i := by
  have : 2 ^ 6 ≤ 2 ^ i := Nat.pow_le_pow_right (by omega) hi
  unfold sg
  rw [if_neg (by omega)]
  unfold ilog2
  rw [Nat.log2_eq_iff (by omega)]
  exact ⟨h1, h2⟩

omit [Arch] in
theorem slen_pos (i : Nat) : 0 < slen i := by
  unfold slen; split
  · omega
  · exact Nat.two_pow_pos _

structure Segs (m0 m : Mem) (bk : Nat → Option Ref) (k : Nat) (vs : Nat → Nat) : Prop where
  low : ∀ i, i < 6 → bk i = some ⟨vs 5, 0⟩
  high : ∀ i, 6 ≤ i → i < k → bk i = some ⟨vs i, -((2 ^ i : Nat) : Int)⟩
  len : ∀ i, 5 ≤ i → i < k → m.vlen (vs i) = some (slen i)
  inj : ∀ i j, 5 ≤ i → i < k → 5 ≤ j → j < k → vs i = vs j → i = j
  new : ∀ i, 5 ≤ i → i < k → m0.vlen (vs i) = none
  used : ∀ i, 5 ≤ i → i < k → vs i < m.vnext
  other : ∀ v, (∀ i, 5 ≤ i → i < k → vs i ≠ v) → m.vlen v = m0.vlen v
  fresh : m.FreshOk
  keep : ∀ q p, m0.cell? q = some p → m.cell? q = some p

/-- The cell of a position. -/
def lref (bk : Nat → Option Ref) (pos : Nat) : Ref := ((bk (ilog2 (pos ||| 1))).getD ⟨0, 0⟩).add pos

omit [Arch] in
theorem Segs.get {bk : Nat → Option Ref} {k : Nat} {vs : Nat → Nat} (s : Segs m0 m bk k vs) (_hk : 6 ≤ k) {pos : Nat}
    (h : pos < 2 ^ k) : bk (ilog2 (pos ||| 1)) = some ⟨vs (sg pos), -((sbase (sg pos) : Nat) : Int)⟩ := by
  by_cases h64 : pos < 64
  · have : ilog2 (pos ||| 1) < 6 := ilog2_lt_or_one (by omega) (by omega)
    rw [s.low _ this]
    simp [sg, h64, sbase]
  · have h0 : pos ≠ 0 := by omega
    have h1 : 6 ≤ ilog2 pos := by unfold ilog2; rw [Nat.le_log2 h0]; omega
    have h2 : 2 ^ ilog2 pos ≤ pos := Nat.log2_self_le h0
    have h3 : pos < 2 ^ (ilog2 pos + 1) := Nat.lt_log2_self
    have hlt : ilog2 pos < k := by unfold ilog2; rw [Nat.log2_lt h0]; exact h
    rw [ilog2_or_one h2 h3, s.high _ h1 hlt]
    simp only [sg, h64, if_false, sbase, if_neg (show ¬ ilog2 pos = 5 by omega)]

omit [Arch] in
theorem Segs.lref {bk : Nat → Option Ref} {k : Nat} {vs : Nat → Nat} (s : Segs m0 m bk k vs) (hk : 6 ≤ k) {pos : Nat}
    (h : pos < 2 ^ k) : lref bk pos = ⟨vs (sg pos), ((pos - sbase (sg pos) : Nat) : Int)⟩ := by
  have := sg_bounds pos
  simp only [HashSpec.lref, s.get hk h, Option.getD_some, Ref.add, Ref.mk.injEq, true_and]
  omega

omit [Arch] in
theorem Segs.lref_inside {bk : Nat → Option Ref} {k : Nat} {vs : Nat → Nat} (s : Segs m0 m bk k vs) (hk : 6 ≤ k)
    {pos : Nat} (h : pos < 2 ^ k) : m.inside (HashSpec.lref bk pos) = true := by
  have := sg_bounds pos
  rw [s.lref hk h]
  refine inside_eq (n := slen (sg pos)) (s.len _ this.1 (sg_lt hk h)) ?_
  simp only; omega

omit [Arch] in
theorem Segs.lref_inj {bk : Nat → Option Ref} {k : Nat} {vs : Nat → Nat} (s : Segs m0 m bk k vs) (hk : 6 ≤ k)
    {a b : Nat} (ha : a < 2 ^ k) (hb : b < 2 ^ k) (h : HashSpec.lref bk a = HashSpec.lref bk b) : a = b := by
  have h1 := sg_bounds a
  have h2 := sg_bounds b
  rw [s.lref hk ha, s.lref hk hb] at h
  simp only [Ref.mk.injEq] at h
  have := s.inj _ _ h1.1 (sg_lt hk ha) h2.1 (sg_lt hk hb) h.1
  rw [this] at h h1
  omega

omit [Arch] in
theorem Segs.lref_vec {bk : Nat → Option Ref} {k : Nat} {vs : Nat → Nat} (s : Segs m0 m bk k vs) (hk : 6 ≤ k) {pos : Nat}
    (h : pos < 2 ^ k) : ∃ i, 5 ≤ i ∧ i < k ∧ (HashSpec.lref bk pos).vec = vs i := by
  rw [s.lref hk h]
  exact ⟨_, (sg_bounds pos).1, sg_lt hk h, rfl⟩

theorem Segs.pos_run {t : Hashlin} {k : Nat} {vs : Nat → Nat} (s : Segs m0 m t.bucket k vs) (hk : 6 ≤ k) (hk' : k ≤ sizeBit)
    {pos : Nat} (h : pos < 2 ^ k) (m' : Mem) : hashlinPos t pos m' = some (HashSpec.lref t.bucket pos, m') := by
  have hl : ilog2 (pos ||| 1) < sizeBit := by
    have := ilog2_lt_or_one (by omega) h; omega
  have h1 : pos ||| 1 ≠ 0 := by
    have := Nat.right_le_or (n := pos) (m := 1); omega
  simp [hashlinPos, ilog2M, h1, hashlinSeg, hl, s.get hk h, HashSpec.lref]

omit [Arch] in
theorem Segs.touch {bk : Nat → Option Ref} {k : Nat} {vs : Nat → Nat} (s : Segs m0 m bk k vs) {m' : Mem}
    {R : Ref → Prop} (T : Touch m m' R) (hR : ∀ q, R q → ∃ i, 5 ≤ i ∧ i < k ∧ q.vec = vs i) :
    Segs m0 m' bk k vs where
  low := s.low
  high := s.high
  len i h1 h2 := by rw [T.vlen]; exact s.len i h1 h2
  inj := s.inj
  new := s.new
  used i h1 h2 := by rw [T.vnext]; exact s.used i h1 h2
  other v hv := by rw [T.vlen]; exact s.other v hv
  fresh := s.fresh.touch T
  keep q p h := by
    rw [T.cell q (fun hq => by
      obtain ⟨i, h1, h2, e⟩ := hR q hq
      simp [Mem.cell?, e, s.new i h1 h2] at h)]
    exact s.keep q p h

omit [Arch] in
theorem Segs.heap {bk : Nat → Option Ref} {k : Nat} {vs : Nat → Nat} (s : Segs m0 m bk k vs) (h' : Heap) :
    Segs m0 { m with heap := h' } bk k vs :=
  ⟨s.low, s.high, s.len, s.inj, s.new, s.used, s.other, s.fresh, s.keep⟩

omit [Arch] in
/-- A new segment. -/
theorem Segs.grow {bk : Nat → Option Ref} {k : Nat} {vs : Nat → Nat} (s : Segs m0 m bk k vs) (hk : 6 ≤ k) :
    Segs m0 (Mem.alloc m (2 ^ k)) (upd bk k (some ⟨m.vnext, -((2 ^ k : Nat) : Int)⟩)) (k + 1) (upd vs k m.vnext) where
  low i hi := by rw [upd_ne (by omega), upd_ne (by omega)]; exact s.low i hi
  high i h1 h2 := by
    by_cases h : i = k
    · subst h; rw [upd_same, upd_same]
    · rw [upd_ne h, upd_ne h]; exact s.high i h1 (by omega)
  len i h1 h2 := by
    simp only [Mem.alloc]
    by_cases h : i = k
    · subst h; rw [upd_same, upd_same, slen, if_neg (by omega)]
    · have := s.used i h1 (by omega)
      rw [upd_ne h, upd_ne (by omega)]; exact s.len i h1 (by omega)
  inj i j h1 h2 h3 h4 h := by
    by_cases hi : i = k
    · by_cases hj : j = k
      · omega
      · rw [hi, upd_same, upd_ne hj] at h
        have := s.used j h3 (by omega); omega
    · by_cases hj : j = k
      · rw [hj, upd_same, upd_ne hi] at h
        have := s.used i h1 (by omega); omega
      · rw [upd_ne hi, upd_ne hj] at h
        exact s.inj i j h1 (by omega) h3 (by omega) h
  new i h1 h2 := by
    by_cases h : i = k
    · subst h
      rw [upd_same]
      have := s.fresh m.vnext (Nat.le_refl _)
      rw [s.other _ (fun i h1 h2 => by have := s.used i h1 h2; omega)] at this
      exact this
    · rw [upd_ne h]; exact s.new i h1 (by omega)
  used i h1 h2 := by
    simp only [Mem.alloc]
    by_cases h : i = k
    · subst h; rw [upd_same]; omega
    · rw [upd_ne h]; have := s.used i h1 (by omega); omega
  other v hv := by
    have h1 : v ≠ m.vnext := by
      intro h; have := hv k (by omega) (by omega); rw [upd_same] at this; exact this h.symm
    simp only [Mem.alloc]
    rw [upd_ne h1]
    refine s.other v fun i h1 h2 => ?_
    have := hv i h1 (by omega)
    rwa [upd_ne (by omega)] at this
  fresh v hv := by
    simp only [Mem.alloc] at hv ⊢
    rw [upd_ne (by omega)]; exact s.fresh v (by omega)
  keep q p h := by
    have h2 : q.vec ≠ m.vnext := by
      intro e
      have h1 := s.keep q p h
      simp [Mem.cell?, e, s.fresh m.vnext (Nat.le_refl _)] at h1
    rw [alloc_cell h2]; exact s.keep q p h

omit [Arch] in
/-- The last segment is freed. -/
theorem Segs.shrink {bk : Nat → Option Ref} {k : Nat} {vs : Nat → Nat} (s : Segs m0 m bk (k + 1) vs) (hk : 6 ≤ k) :
    vfree ((⟨vs k, -((2 ^ k : Nat) : Int)⟩ : Ref).add ((2 ^ k : Nat) : Int)) m =
      some ((), { m with vlen := upd m.vlen (vs k) none }) ∧
    Segs m0 { m with vlen := upd m.vlen (vs k) none } bk k vs := by
  have hne : ∀ i, 5 ≤ i → i < k → vs i ≠ vs k := by
    intro i h1 h2 e
    have := s.inj i k h1 (by omega) (by omega) (by omega) e; omega
  refine ⟨?_, ?_⟩
  · have : (-((2 ^ k : Nat) : Int)) + ((2 ^ k : Nat) : Int) = 0 := by omega
    simp only [vfree, Ref.add, this, s.len k (by omega) (by omega), Option.isSome_some, and_self, if_true]
  · refine ⟨s.low, fun i h1 h2 => s.high i h1 (by omega), ?_, fun i j h1 h2 h3 h4 => s.inj i j h1 (by omega) h3 (by omega),
      fun i h1 h2 => s.new i h1 (by omega), fun i h1 h2 => s.used i h1 (by omega), ?_, ?_, ?_⟩
    · intro i h1 h2
      simp only [upd_ne (hne i h1 h2)]
      exact s.len i h1 (by omega)
    · intro v hv
      by_cases h : v = vs k
      · subst h; simp only [upd_same]; exact (s.new k (by omega) (by omega)).symm
      · simp only [upd_ne h]
        refine s.other v fun i h1 h2 => ?_
        by_cases hi : i = k
        · subst hi; exact fun e => h e.symm
        · exact hv i h1 (by omega)
    · intro v hv
      simp only [upd_apply]
      split
      · rfl
      · exact s.fresh v hv
    · intro q p h
      rw [← s.keep q p h]
      refine cell_congr (upd_ne ?_) rfl
      intro e
      simp [Mem.cell?, e, s.new k (by omega) (by omega)] at h

omit [Arch] in
theorem Segs.other_cell {k : Nat} {vs : Nat → Nat} {q : Ref} (h : q.vec ≠ vs k) :
    ({ m with vlen := upd m.vlen (vs k) none } : Mem).cell? q = m.cell? q := cell_congr (upd_ne h) rfl

/-- done() frees all the segments. -/
theorem Segs.doneLoop {t : Hashlin} {k : Nat} {vs : Nat → Nat} : ∀ n i (m : Mem), i + n = k → 6 ≤ i → k < sizeBit →
    (∀ j, i ≤ j → j < k → t.bucket j = some ⟨vs j, -((2 ^ j : Nat) : Int)⟩) →
    (∀ j, i ≤ j → j < k → (m.vlen (vs j)).isSome) →
    (∀ j l, i ≤ j → j < k → i ≤ l → l < k → vs j = vs l → j = l) →
    (∀ j, i ≤ j → j < k → m0.vlen (vs j) = none) →
    (∀ v, (∀ j, i ≤ j → j < k → vs j ≠ v) → m.vlen v = m0.vlen v) →
    (∀ q p, m0.cell? q = some p → m.cell? q = some p) →
    ∃ m', hashlinDoneLoop t i n m = some ((), m') ∧ m'.heap = m.heap ∧ m'.vlen = m0.vlen ∧
      ∀ q p, m0.cell? q = some p → m'.cell? q = some p := by
  intro n
  induction n with
  | zero =>
    intro i m hi _ _ _ _ _ _ hoth hkeep
    refine ⟨m, rfl, rfl, ?_, hkeep⟩
    funext v
    exact hoth v (fun j h1 h2 => by omega)
  | succ n ih =>
    intro i m hi h6 h64 hbk hlen hinj hnew hoth hkeep
    have h0 : (-((2 ^ i : Nat) : Int)) + ((2 ^ i : Nat) : Int) = 0 := by omega
    obtain ⟨m', e, hh, hv, hk⟩ := ih (i + 1) { m with vlen := upd m.vlen (vs i) none } (by omega) (by omega) h64
      (fun j h1 h2 => hbk j (by omega) h2)
      (fun j h1 h2 => by
        have : vs j ≠ vs i := fun e => by have := hinj j i (by omega) h2 (by omega) (by omega) e; omega
        simp only [upd_ne this]; exact hlen j (by omega) h2)
      (fun j l h1 h2 h3 h4 => hinj j l (by omega) h2 (by omega) h4)
      (fun j h1 h2 => hnew j (by omega) h2)
      (fun v hv => by
        by_cases h : v = vs i
        · subst h; simp only [upd_same]; exact (hnew i (by omega) (by omega)).symm
        · simp only [upd_ne h]
          refine hoth v fun j h1 h2 => ?_
          by_cases hj : j = i
          · subst hj; exact fun e => h e.symm
          · exact hv j (by omega) h2)
      (fun q p h => by
        rw [← hkeep q p h]
        refine cell_congr (upd_ne ?_) rfl
        intro e
        simp [Mem.cell?, e, hnew i (by omega) (by omega)] at h)
    refine ⟨m', ?_, hh, hv, hk⟩
    have hl := hlen i (by omega) (by omega)
    simp only [hashlinDoneLoop, run_bind, hashlinSeg, if_pos (show i < sizeBit by omega), hbk i (by omega) (by omega),
      Option.map_some, Option.bind_some, shlS, if_pos (show i + 1 < sizeBit by omega), vfree, Ref.add, h0, hl, and_self, if_true]
    exact e

theorem Segs.done {t : Hashlin} {vs : Nat → Nat} (s : Segs m0 m t.bucket t.bucketBit vs) (hk : 6 ≤ t.bucketBit)
    (hk' : t.bucketBit < sizeBit) : ∃ m', hashlinDone t m = some ((), m') ∧ m'.heap = m.heap ∧ m'.vlen = m0.vlen ∧
      ∀ q p, m0.cell? q = some p → m'.cell? q = some p := by
  have hne : ∀ i, 6 ≤ i → i < t.bucketBit → vs i ≠ vs 5 := by
    intro i h1 h2 e
    have := s.inj i 5 (by omega) (by omega) (by omega) (by omega) e; omega
  obtain ⟨m', e, hh, hv, hkp⟩ := Segs.doneLoop (m0 := m0) (t := t) (k := t.bucketBit) (vs := vs) (t.bucketBit - 6) 6
    { m with vlen := upd m.vlen (vs 5) none } (by omega) (Nat.le_refl _) hk'
    (fun j h1 h2 => s.high j h1 h2)
    (fun j h1 h2 => by simp only [upd_ne (hne j h1 h2), s.len j (by omega) h2, Option.isSome_some])
    (fun j l h1 h2 h3 h4 => s.inj j l (by omega) h2 (by omega) h4)
    (fun j h1 h2 => s.new j (by omega) h2)
    (fun v hv => by
        by_cases h : v = vs 5
        · subst h; simp only [upd_same]; exact (s.new 5 (by omega) (by omega)).symm
        · simp only [upd_ne h]
          refine s.other v fun j h1 h2 => ?_
          by_cases hj : j = 5
          · subst hj; exact fun e => h e.symm
          · exact hv j (by omega) h2)
    (fun q p h => by
        rw [← s.keep q p h]
        refine cell_congr (upd_ne ?_) rfl
        intro e
        simp [Mem.cell?, e, s.new 5 (by omega) (by omega)] at h)
  refine ⟨m', ?_, hh, hv, hkp⟩
  have hl : (m.vlen (vs 5)).isSome := by rw [s.len 5 (by omega) (by omega)]; rfl
  simp only [hashlinDone, run_bind, hashlinSeg, if_pos (show 0 < sizeBit by arch), s.low 0 (by omega), Option.map_some,
    Option.bind_some, vfree, hl, and_self, if_true, hashlinBIT]
  exact e

end HashSpec
end Tommy
