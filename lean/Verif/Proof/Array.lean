import Verif.Proof.ArraySeg
/-! tommy_array and tommy_arrayof. -/
set_option linter.unusedSimpArgs false
set_option linter.unusedVariables false
set_option linter.unusedTactic false
set_option linter.unreachableTactic false
namespace Tommy

variable [Arch]
namespace ArraySpec
open HashSpec (sg sbase slen sg_bounds sg_lt sg_of_ge slen_pos ilog2_or_one ilog2_lt_or_one)

omit [Arch] in
theorem slen_sum (m : Mem) (vs : Nat → Nat) (es : Nat) : ∀ k, 6 ≤ k →
    (∀ i, 5 ≤ i → i < k → m.vlen (vs i) = some (slen i * es)) →
    cellCount m ((List.range' 5 (k - 5)).map vs) = 2 ^ k * es := by
  intro k
  induction k with
  | zero => intro h; omega
  | succ k ih =>
    intro h hl
    by_cases h5 : k = 5
    · subst h5
      simp [cellCount, hl 5 (by omega) (by omega), slen]
    · have := ih (by omega) (fun i a b => hl i a (by omega))
      have e : k + 1 - 5 = (k - 5) + 1 := by omega
      rw [e, List.range'_concat]
      unfold cellCount at this ⊢
      rw [List.map_append, List.map_append, List.sum_append, this]
      have e2 : 5 + 1 * (k - 5) = k := by omega
      simp only [e2, List.map_cons, List.map_nil, hl k (by omega) (by omega), Option.getD_some, List.sum_cons, List.sum_nil,
        slen, if_neg h5]
      rw [Nat.pow_succ, Nat.mul_two, Nat.add_mul]; omega

theorem segs_own {es bytes : Nat} {bk : Nat → Option Ref} {bit : Nat} {m : Mem} {a : Ab} {vs : Nat → Nat}
    (s : SegInv es bytes bk bit m a vs) : OwnVecs a.other m ((List.range' 5 (bit - 5)).map vs) ∧
      cellCount m ((List.range' 5 (bit - 5)).map vs) = 2 ^ bit * es := by
  refine ⟨⟨?_, fun v => ?_⟩, slen_sum m vs es bit s.k6 s.len⟩
  · rw [List.nodup_iff_pairwise_ne, List.pairwise_map]
    refine (List.pairwise_lt_range' (s := 5) (n := bit - 5)).imp_of_mem ?_
    intro x y hx hy hxy e
    rw [List.mem_range'_1] at hx hy
    have := s.inj x y (by omega) (by omega) (by omega) (by omega) e
    omega
  · rw [List.mem_map]
    constructor
    · rintro ⟨i, hi, rfl⟩
      rw [List.mem_range'_1] at hi
      exact own_notOther s.core _ ⟨i, by omega, by omega, rfl⟩
    · rintro ⟨h1, h2⟩
      rcases (s.core.live v).1 h2 with ⟨i, a1, a2, a3⟩ | h
      · exact ⟨i, by rw [List.mem_range'_1]; omega, a3.symm⟩
      · rw [h] at h1; cases h1

/-! ## tommy_array -/

structure ArrInv (t : Arr) (m : Mem) (a : Ab) (vs : Nat → Nat) : Prop where
  seg : SegInv 1 ptrSize t.bucket t.bucketBit m a vs
  max : t.bucketMax = 2 ^ t.bucketBit
  count : t.count = a.size
  le : a.size ≤ 2 ^ t.bucketBit
  tight : t.bucketBit = 6 ∨ 2 ^ (t.bucketBit - 1) < a.size

theorem arrayInitLoop_run (m : Mem) (b0 : Ref) : ∀ n i (bk : Nat → Option Ref), i + n ≤ sizeBit → 0 < i →
    (∀ j, j < i → bk j = some b0) →
    ∃ bk', arrayInitLoop bk i n m = some (bk', m) ∧ ∀ j, j < i + n → bk' j = some b0 := by
  intro n
  induction n with
  | zero => intro i bk h h0 hb; exact ⟨bk, rfl, fun j hj => hb j hj⟩
  | succ n ih =>
    intro i bk h h0 hb
    obtain ⟨bk', e, hb'⟩ := ih (i + 1) (upd bk i (some b0)) (by omega) (by omega) (fun j hj => by
      by_cases hji : j = i
      · subst hji; rw [upd_same]
      · rw [upd_ne hji]; exact hb j (by omega))
    refine ⟨bk', ?_, fun j hj => hb' j (by omega)⟩
    simp only [arrayInitLoop, segGet, segSet, StateT.bind, bind, if_pos (show 0 < sizeBit by arch), hb 0 h0, Option.map_some,
      Option.bind_some, if_pos (show i < sizeBit by omega), e]

theorem arrayInit_run {m0 : Mem} (h0 : StartOk m0) (a : Ab) (hs : a.size = 0) (hv : a.val = fun _ _ => 0)
    (ho : a.other = fun v => (m0.vlen v).isSome) :
    ∃ t m vs, arrayInit m0 = some (t, m) ∧ ArrInv t m a vs := by
  obtain ⟨bk, eb, hb⟩ := arrayInitLoop_run { m0 with
    vlen := upd m0.vlen m0.vnext (some (64)), vcell := upd m0.vcell m0.vnext (fun _ => some 0), vnext := m0.vnext + 1 }
    ⟨m0.vnext, 0⟩ 5 1 (upd (fun _ => none) 0 (some ⟨m0.vnext, 0⟩)) (by arch) (by omega) (fun j hj => by
      have : j = 0 := by omega
      subst this; rw [upd_same])
  obtain ⟨m, e, s⟩ := SegInv.start (es := 1) (bytes := ptrSize) (bk := bk) h0 (by arch) (fun i hi => hb i (by omega)) a hs hv ho
  have hm : m = { m0 with
    vlen := upd m0.vlen m0.vnext (some (64)), vcell := upd m0.vcell m0.vnext (fun _ => some 0), vnext := m0.vnext + 1 } := by
    simp only [vcalloc, Option.some.injEq, Prod.mk.injEq, true_and] at e
    exact e.symm
  subst hm
  refine ⟨⟨bk, 2 ^ 6, 0, 6⟩, _, _, ?_, ⟨s, rfl, hs.symm, by rw [hs]; exact Nat.zero_le _, .inl rfl⟩⟩
  have hc : pcalloc (2 ^ 6) m0 = some (⟨m0.vnext, 0⟩, { m0 with
    vlen := upd m0.vlen m0.vnext (some (64)), vcell := upd m0.vcell m0.vnext (fun _ => some 0), vnext := m0.vnext + 1 }) := by
    simp only [pcalloc, vcalloc, show (2 : Nat) ^ 6 = 64 from rfl, if_pos (show 64 * ptrSize < 2 ^ sizeBit by arch)]
  have ha : ashl 6 m0 = some (2 ^ 6, m0) := if_pos (by arch)
  simp only [arrayInit, arrayBIT, StateT.bind, bind, ha, Option.bind_some, hc, segSet, if_pos (show 0 < sizeBit by arch),
    Nat.add_one_sub_one, eb, pure, StateT.pure]

theorem arrayGrowLoop_run (n K : Nat) (hn : n ≤ 2 ^ K) (hK : 2 ^ K * ptrSize < 2 ^ sizeBit) : ∀ d (t : Arr) (m : Mem) (a : Ab) (vs : Nat → Nat),
    t.bucketBit + d = K ∨ n ≤ 2 ^ t.bucketBit → SegInv 1 ptrSize t.bucket t.bucketBit m a vs → t.bucketMax = 2 ^ t.bucketBit →
    a.size ≤ 2 ^ t.bucketBit →
    ∃ t' m' vs', arrayGrowLoop t n m = some (t', m') ∧ SegInv 1 ptrSize t'.bucket t'.bucketBit m' a vs' ∧
      t'.bucketMax = 2 ^ t'.bucketBit ∧ t'.count = t.count ∧ t.bucketBit ≤ t'.bucketBit ∧ n ≤ 2 ^ t'.bucketBit ∧
      (t'.bucketBit = t.bucketBit ∨ 2 ^ (t'.bucketBit - 1) < n) ∧ Untouched a.other m m' ∧
      ∀ pos, pos < 2 ^ t.bucketBit → saddr 1 vs' pos = saddr 1 vs pos := by
  intro d
  induction d with
  | zero =>
    intro t m a vs hd s hmax hsz
    have hle : n ≤ 2 ^ t.bucketBit := by
      rcases hd with hd | hd
      · rw [Nat.add_zero] at hd; rw [hd]; exact hn
      · exact hd
    refine ⟨t, m, vs, ?_, s, hmax, rfl, Nat.le_refl _, hle, .inl rfl, ⟨rfl, fun _ _ => ⟨rfl, rfl⟩⟩, fun _ _ => rfl⟩
    rw [arrayGrowLoop, if_neg (by rw [hmax]; omega)]; rfl
  | succ d ih =>
    intro t m a vs hd s hmax hsz
    by_cases hle : n ≤ 2 ^ t.bucketBit
    · refine ⟨t, m, vs, ?_, s, hmax, rfl, Nat.le_refl _, hle, .inl rfl, ⟨rfl, fun _ _ => ⟨rfl, rfl⟩⟩, fun _ _ => rfl⟩
      rw [arrayGrowLoop, if_neg (by rw [hmax]; omega)]; rfl
    · have hdK : t.bucketBit + d + 1 = K := by
        rcases hd with hd | hd
        · omega
        · exact absurd hd hle
      have hp : 2 ^ (t.bucketBit + 1) ≤ 2 ^ K := Nat.pow_le_pow_right (by omega) (by omega)
      have hf : 2 ^ (t.bucketBit + 1) * ptrSize < 2 ^ sizeBit := Nat.lt_of_le_of_lt (Nat.mul_le_mul_right _ hp) hK
      have hb1 := bit_lt (by arch) hf
      have hp2 : 2 ^ t.bucketBit ≤ 2 ^ (t.bucketBit + 1) := Nat.pow_le_pow_right (by omega) (by omega)
      have hf0 : 2 ^ t.bucketBit * ptrSize < 2 ^ sizeBit := Nat.lt_of_le_of_lt (Nat.mul_le_mul_right _ hp2) hf
      obtain ⟨m1, e1, s1, u1, a1⟩ := s.grow hf hb1 hsz
      obtain ⟨t', m', vs', e', s', hm', hc', hb', hn', ht', u', a'⟩ := ih
        { t with bucket := upd t.bucket t.bucketBit (some ⟨m.vnext, -((2 ^ t.bucketBit * 1 : Nat) : Int)⟩),
                 bucketBit := t.bucketBit + 1, bucketMax := 2 ^ (t.bucketBit + 1) } m1 a _ (.inl (by simp only; omega)) s1 rfl
        (by simp only; omega)
      refine ⟨t', m', vs', ?_, s', hm', hc', by simp only at hb'; omega, hn', ?_, ?_, fun pos hpos => ?_⟩
      · rw [arrayGrowLoop, if_pos (by rw [hmax]; omega)]
        have hseg : (Ref.mk m.vnext 0).add (-(((2 ^ t.bucketBit : Nat) : Int))) = ⟨m.vnext, -((2 ^ t.bucketBit * 1 : Nat) : Int)⟩ := by
          simp [Ref.add]
        have hc : pcalloc (2 ^ t.bucketBit) m = some (⟨m.vnext, 0⟩, m1) := by
          rw [← e1]; unfold pcalloc; rw [if_pos hf0]; rw [Nat.mul_one]
        simp only [hmax, StateT.bind, bind, hc, Option.bind_some, segSet, if_pos (show t.bucketBit < sizeBit by omega), hseg, ashl,
          if_pos (show t.bucketBit + 1 < sizeBit by omega)]
        rw [← e']; try rw [hes]
      · right
        rcases ht' with h | h
        · rw [h]; simp only [Nat.add_one_sub_one]; omega
        · exact h
      · exact ⟨u'.1.trans u1.1, fun v hv => ⟨((u'.2 v hv).1).trans (u1.2 v hv).1, ((u'.2 v hv).2).trans (u1.2 v hv).2⟩⟩
      · rw [a' pos (by simp only; omega), a1 pos hpos]

theorem arrayGrow_run {t : Arr} {m : Mem} {a : Ab} {vs : Nat → Nat} {n : Nat} (h : ArrInv t m a vs) (hf : fitsSeg ptrSize n) :
    ∃ t' m' vs', arrayGrow t n m = some (t', m') ∧ ArrInv t' m' { a with size := max a.size n } vs' ∧
      Untouched a.other m m' ∧ ∀ pos, pos < a.size → saddr 1 vs' pos = saddr 1 vs pos := by
  by_cases hc : t.count ≥ n
  · refine ⟨t, m, vs, ?_, ?_, ⟨rfl, fun _ _ => ⟨rfl, rfl⟩⟩, fun _ _ => rfl⟩
    · rw [arrayGrow, if_pos hc]; rfl
    · rw [Nat.max_eq_left (by rw [← h.count]; exact hc)]; exact h
  · obtain ⟨K, hK6, hK64, hn, hK⟩ := hf
    have hor : ∃ d, t.bucketBit + d = K ∨ n ≤ 2 ^ t.bucketBit := by
      by_cases hb : t.bucketBit ≤ K
      · exact ⟨K - t.bucketBit, .inl (by omega)⟩
      · exact ⟨0, .inr (Nat.le_trans hn (Nat.pow_le_pow_right (by omega) (by omega)))⟩
    obtain ⟨d, hd⟩ := hor
    obtain ⟨t', m', vs', e, s', hm', hc', hb', hn', ht', u', a'⟩ := arrayGrowLoop_run n K hn hK d { t with count := n } m a vs hd h.seg
      h.max h.le
    have hcs := h.count
    have hmx : max a.size n = n := Nat.max_eq_right (by omega)
    refine ⟨t', m', vs', ?_, ⟨?_, hm', ?_, ?_, ?_⟩, u', fun pos hp => a' pos (Nat.lt_of_lt_of_le hp h.le)⟩
    · rw [arrayGrow, if_neg hc]; exact e
    · rw [hmx]
      exact ⟨s'.k6, s'.fit, s'.b64, s'.low, s'.high, s'.len, s'.inj, s'.core.mono_size (by omega)⟩
    · rw [hmx]; exact hc'
    · rw [hmx]; exact hn'
    · rw [hmx]
      rcases ht' with h1 | h1
      · rw [h1]
        rcases h.tight with h2 | h2
        · exact .inl h2
        · exact .inr (Nat.lt_trans h2 (show a.size < n by omega))
      · exact .inr h1

theorem arrayRef_run {t : Arr} {m : Mem} {a : Ab} {vs : Nat → Nat} (h : ArrInv t m a vs) {pos : Nat} (hp : pos < a.size) (m' : Mem) :
    arrayRef t pos m' = some (segAddr 1 t.bucket pos, m') := by
  have hle := h.le
  obtain ⟨r, e1, e2, e3⟩ := h.seg.getSeg (show pos < 2 ^ t.bucketBit by omega) m'
  have hx : sizeT (pos * 1) = pos * 1 := by
    apply Nat.mod_eq_of_lt
    have h1 := h.seg.fit
    have h2 : pos * ptrSize ≤ 2 ^ t.bucketBit * ptrSize := Nat.mul_le_mul_right _ (by omega)
    arch
  have ha : assertM (pos < t.count) m' = some ((), m') := by
    unfold assertM; rw [if_pos (by rw [h.count]; exact hp)]
  rw [← e3]
  simp only [arrayRef, StateT.bind, bind, ha, Option.bind_some, e1, e2, pure, StateT.pure, Nat.mul_one]

theorem arrayDoneLoop_eq {t : Arr} {m : Mem} {a : Ab} {vs : Nat → Nat} (h : ArrInv t m a vs) : ∀ n i, i + n ≤ t.bucketBit →
    arrayDoneLoop t i n = segDoneLoop t.bucket 1 i n := by
  intro n
  induction n with
  | zero => intro i _; rfl
  | succ n ih =>
    intro i hi
    have hb := h.seg.b64
    have hx : sizeT (2 ^ i * 1) = 2 ^ i * 1 := by
      apply Nat.mod_eq_of_lt
      have h1 := h.seg.fit
      have h3 : 2 ^ i ≤ 2 ^ t.bucketBit := Nat.pow_le_pow_right (by omega) (by omega)
      have h2 : 2 ^ i * ptrSize ≤ 2 ^ t.bucketBit * ptrSize := Nat.mul_le_mul_right _ h3
      arch
    funext m1
    simp only [arrayDoneLoop, segDoneLoop, StateT.bind, bind, ashl, if_pos (show i < sizeBit by omega), Option.bind_some,
      ih (i + 1) (by omega), Nat.mul_one]

/-- The state after done(): all the vectors of the array are freed. -/
theorem arrayDone_run {t : Arr} {m : Mem} {a : Ab} {vs : Nat → Nat} (h : ArrInv t m a vs) :
    ∃ m', arrayDone t m = some ((), m') ∧ m'.heap = m.heap ∧ m'.vcell = m.vcell ∧
      (∀ v, sown t.bucketBit vs v → m'.vlen v = none) ∧ (∀ v, ¬ sown t.bucketBit vs v → m'.vlen v = m.vlen v) := by
  have s := h.seg
  have hk := s.k6
  have hb := s.b64
  have hinj : ∀ j, 6 ≤ j → j < t.bucketBit → vs j ≠ vs 5 := fun j h1 h2 e => by
    have := s.inj j 5 (by omega) h2 (by omega) (by omega) e; omega
  obtain ⟨m', e, h1, h2, _, h4, h5⟩ := segDoneLoop_run s (by omega) (t.bucketBit - 6) 6
    { m with vlen := upd m.vlen (vs 5) none } (by omega) (by omega) (fun j h1 h2 => by
      simp only; rw [upd_ne (hinj j h1 h2), s.len j (by omega) h2]; simp)
  refine ⟨m', ?_, h1, h2, ?_, ?_⟩
  · have hs : (m.vlen (vs 5)).isSome := by rw [s.len 5 (by omega) (by omega)]; rfl
    have hg : segGet t.bucket 0 m = some (⟨vs 5, 0⟩, m) := by
      rw [segGet, if_pos (by omega), s.low 0 (by omega)]; rfl
    simp only [arrayDone, arrayBIT, StateT.bind, bind, hg, Option.bind_some, vfree_run hs]
    rw [arrayDoneLoop_eq h _ _ (by omega)]; exact e
  · rintro v ⟨i, h5', hi, rfl⟩
    by_cases hi5 : i = 5
    · subst hi5
      rw [h5 _ (fun j a b e => hinj j a b e.symm)]; simp
    · exact h4 i (by omega) hi
  · intro v hv
    rw [h5 v (fun j a b e => hv ⟨j, by omega, b, e⟩)]
    simp only
    rw [upd_ne (fun e => hv ⟨5, by omega, by omega, e⟩)]

def ArrP (t : Arr) (m : Mem) (a : Ab) : Prop := ∃ vs, ArrInv t m a vs

theorem array_ok : ImplOk arrayImpl (ArrP) (fun t _ => segAddr 1 t.bucket) where
  size := fun ⟨_, h⟩ => h.count
  core := by
    rintro t m a ⟨vs, h⟩
    refine ⟨2 ^ t.bucketBit, sown t.bucketBit vs, h.le, ?_⟩
    have c := h.seg.core
    refine ⟨fun pos off hp ho => ?_, fun p o p' o' hp ho hp' ho' he => ?_, fun pos hp => ?_, c.zero, c.live, c.sep, c.fresh⟩
    · rw [h.seg.segAddr_eq hp]; exact c.cell pos off hp ho
    · rw [h.seg.segAddr_eq hp, h.seg.segAddr_eq hp'] at he; exact c.inj p o p' o' hp ho hp' ho' he
    · rw [h.seg.segAddr_eq hp]; exact c.vec pos hp
  ref := fun ⟨_, h⟩ hp => arrayRef_run h hp _
  write := by
    rintro t m m' a pos off x ⟨vs, h⟩ hp ho e
    have hlt : pos < 2 ^ t.bucketBit := by have := h.le; omega
    have s := h.seg
    obtain ⟨m1, e1, c, _, hl, _, _⟩ := s.core.write hlt hp ho x
    rw [← s.segAddr_eq hlt, e] at e1
    simp only [Option.some.injEq, Prod.mk.injEq, true_and] at e1
    subst e1
    exact ⟨⟨vs, ⟨s.k6, s.fit, s.b64, s.low, s.high, fun i h1 h2 => by rw [hl]; exact s.len i h1 h2, s.inj, c⟩, h.max, h.count, h.le, h.tight⟩, fun _ _ => rfl⟩
  env := by
    rintro t m m' a other' ⟨vs, h⟩ h1 h2 h3
    exact ⟨⟨vs, h.seg.env h1 h2 h3, h.max, h.count, h.le, h.tight⟩, fun _ _ => rfl⟩
  grow := by
    rintro t m a n ⟨vs, h⟩ hf
    obtain ⟨t', m', vs', e, h', u, ha⟩ := arrayGrow_run h hf
    refine ⟨t', m', e, ⟨vs', h'⟩, u, fun pos hp => ?_⟩
    have h1 := h.le
    have h2 := h'.le
    simp only at h2
    rw [h.seg.segAddr_eq (by omega), h'.seg.segAddr_eq (by omega), ha pos hp]
  ptr := by
    intro f hf
    simp only [arrayImpl, Option.some.injEq] at hf
    subst hf
    refine ⟨Nat.one_pos, fun t pos x => ?_, fun t pos => ?_, fun t x => rfl⟩
    · show arraySet t pos x = _
      unfold arraySet; simp only [Ref.add_zero]; rfl
    · show arrayGet t pos = _
      unfold arrayGet; simp only [Ref.add_zero]; rfl
  fits := by
    rintro n ⟨K, hK6, hK64, hn, hK⟩
    have : 2 ^ K * 1 ≤ 2 ^ K * ptrSize := Nat.mul_le_mul_left _ (by arch)
    omega

theorem array_own {t : Arr} {m : Mem} {a : Ab} {vs : Nat → Nat} (h : ArrInv t m a vs) :
    OwnVecs a.other m ((List.range' 5 (t.bucketBit - 5)).map vs) ∧
      cellCount m ((List.range' 5 (t.bucketBit - 5)).map vs) = 2 ^ t.bucketBit * 1 := segs_own h.seg


/-! ## tommy_arrayof -/

structure ArrOfInv (es : Nat) (t : ArrOf) (m : Mem) (a : Ab) (vs : Nat → Nat) : Prop where
  seg : SegInv es es t.bucket t.bucketBit m a vs
  max : t.bucketMax = 2 ^ t.bucketBit
  count : t.count = a.size
  le : a.size ≤ 2 ^ t.bucketBit
  tight : t.bucketBit = 6 ∨ 2 ^ (t.bucketBit - 1) < a.size
  esz : t.elementSize = es

theorem arrayofInitLoop_run (m : Mem) (b0 : Ref) : ∀ n i (bk : Nat → Option Ref), i + n ≤ sizeBit → 0 < i →
    (∀ j, j < i → bk j = some b0) →
    ∃ bk', arrayofInitLoop bk i n m = some (bk', m) ∧ ∀ j, j < i + n → bk' j = some b0 := by
  intro n
  induction n with
  | zero => intro i bk h h0 hb; exact ⟨bk, rfl, fun j hj => hb j hj⟩
  | succ n ih =>
    intro i bk h h0 hb
    obtain ⟨bk', e, hb'⟩ := ih (i + 1) (upd bk i (some b0)) (by omega) (by omega) (fun j hj => by
      by_cases hji : j = i
      · subst hji; rw [upd_same]
      · rw [upd_ne hji]; exact hb j (by omega))
    refine ⟨bk', ?_, fun j hj => hb' j (by omega)⟩
    simp only [arrayofInitLoop, segGet, segSet, StateT.bind, bind, if_pos (show 0 < sizeBit by arch), hb 0 h0, Option.map_some,
      Option.bind_some, if_pos (show i < sizeBit by omega), e]

theorem arrayofInit_run {m0 : Mem} {es : Nat} (hes : 64 * es < 2 ^ sizeBit) (h0 : StartOk m0) (a : Ab) (hs : a.size = 0) (hv : a.val = fun _ _ => 0)
    (ho : a.other = fun v => (m0.vlen v).isSome) :
    ∃ t m vs, arrayofInit es m0 = some (t, m) ∧ ArrOfInv es t m a vs := by
  obtain ⟨bk, eb, hb⟩ := arrayofInitLoop_run { m0 with
    vlen := upd m0.vlen m0.vnext (some (64 * es)), vcell := upd m0.vcell m0.vnext (fun _ => some 0), vnext := m0.vnext + 1 }
    ⟨m0.vnext, 0⟩ 5 1 (upd (fun _ => none) 0 (some ⟨m0.vnext, 0⟩)) (by arch) (by omega) (fun j hj => by
      have : j = 0 := by omega
      subst this; rw [upd_same])
  obtain ⟨m, e, s⟩ := SegInv.start (es := es) (bytes := es) (bk := bk) h0 (by exact hes) (fun i hi => hb i (by omega)) a hs hv ho
  have hm : m = { m0 with
    vlen := upd m0.vlen m0.vnext (some (64 * es)), vcell := upd m0.vcell m0.vnext (fun _ => some 0), vnext := m0.vnext + 1 } := by
    simp only [vcalloc, Option.some.injEq, Prod.mk.injEq, true_and] at e
    exact e.symm
  subst hm
  refine ⟨⟨bk, es, 2 ^ 6, 0, 6⟩, _, _, ?_, ⟨s, rfl, hs.symm, by rw [hs]; exact Nat.zero_le _, .inl rfl, rfl⟩⟩
  have hc : bcalloc (2 ^ 6) es m0 = some (⟨m0.vnext, 0⟩, { m0 with
    vlen := upd m0.vlen m0.vnext (some (64 * es)), vcell := upd m0.vcell m0.vnext (fun _ => some 0), vnext := m0.vnext + 1 }) := by
    simp only [bcalloc, vcalloc, show (2 : Nat) ^ 6 = 64 from rfl, if_pos (show 64 * es < 2 ^ sizeBit by omega)]
  have ha : ashl 6 m0 = some (2 ^ 6, m0) := if_pos (by arch)
  simp only [arrayofInit, arrayofBIT, StateT.bind, bind, ha, Option.bind_some, hc, segSet, if_pos (show 0 < sizeBit by arch),
    Nat.add_one_sub_one, eb, pure, StateT.pure]

theorem arrayofGrowLoop_run {es : Nat} (n K : Nat) (hK64 : K < sizeBit) (hn : n ≤ 2 ^ K) (hK : 2 ^ K * es < 2 ^ sizeBit) : ∀ d (t : ArrOf) (m : Mem) (a : Ab) (vs : Nat → Nat),
    t.bucketBit + d = K ∨ n ≤ 2 ^ t.bucketBit → SegInv es es t.bucket t.bucketBit m a vs → t.bucketMax = 2 ^ t.bucketBit →
    a.size ≤ 2 ^ t.bucketBit → t.elementSize = es →
    ∃ t' m' vs', arrayofGrowLoop t n m = some (t', m') ∧ SegInv es es t'.bucket t'.bucketBit m' a vs' ∧
      t'.bucketMax = 2 ^ t'.bucketBit ∧ t'.count = t.count ∧ t.bucketBit ≤ t'.bucketBit ∧ n ≤ 2 ^ t'.bucketBit ∧
      (t'.bucketBit = t.bucketBit ∨ 2 ^ (t'.bucketBit - 1) < n) ∧ Untouched a.other m m' ∧ t'.elementSize = es ∧
      ∀ pos, pos < 2 ^ t.bucketBit → saddr es vs' pos = saddr es vs pos := by
  intro d
  induction d with
  | zero =>
    intro t m a vs hd s hmax hsz hes
    have hle : n ≤ 2 ^ t.bucketBit := by
      rcases hd with hd | hd
      · rw [Nat.add_zero] at hd; rw [hd]; exact hn
      · exact hd
    refine ⟨t, m, vs, ?_, s, hmax, rfl, Nat.le_refl _, hle, .inl rfl, ⟨rfl, fun _ _ => ⟨rfl, rfl⟩⟩, hes, fun _ _ => rfl⟩
    rw [arrayofGrowLoop, if_neg (by rw [hmax]; omega)]; rfl
  | succ d ih =>
    intro t m a vs hd s hmax hsz hes
    by_cases hle : n ≤ 2 ^ t.bucketBit
    · refine ⟨t, m, vs, ?_, s, hmax, rfl, Nat.le_refl _, hle, .inl rfl, ⟨rfl, fun _ _ => ⟨rfl, rfl⟩⟩, hes, fun _ _ => rfl⟩
      rw [arrayofGrowLoop, if_neg (by rw [hmax]; omega)]; rfl
    · have hdK : t.bucketBit + d + 1 = K := by
        rcases hd with hd | hd
        · omega
        · exact absurd hd hle
      have hp : 2 ^ (t.bucketBit + 1) ≤ 2 ^ K := Nat.pow_le_pow_right (by omega) (by omega)
      have hf : 2 ^ (t.bucketBit + 1) * es < 2 ^ sizeBit := Nat.lt_of_le_of_lt (Nat.mul_le_mul_right _ hp) hK
      have hb1 : t.bucketBit + 1 < sizeBit := by omega
      have hp2 : 2 ^ t.bucketBit ≤ 2 ^ (t.bucketBit + 1) := Nat.pow_le_pow_right (by omega) (by omega)
      have hf0 : 2 ^ t.bucketBit * es < 2 ^ sizeBit := Nat.lt_of_le_of_lt (Nat.mul_le_mul_right _ hp2) hf
      obtain ⟨m1, e1, s1, u1, a1⟩ := s.grow hf hb1 hsz
      obtain ⟨t', m', vs', e', s', hm', hc', hb', hn', ht', u', hes', a'⟩ := ih
        { t with bucket := upd t.bucket t.bucketBit (some ⟨m.vnext, -((2 ^ t.bucketBit * es : Nat) : Int)⟩),
                 bucketBit := t.bucketBit + 1, bucketMax := 2 ^ (t.bucketBit + 1) } m1 a _ (.inl (by simp only; omega)) s1 rfl
        (by simp only; omega) hes
      refine ⟨t', m', vs', ?_, s', hm', hc', by simp only at hb'; omega, hn', ?_, ?_, hes', fun pos hpos => ?_⟩
      · rw [arrayofGrowLoop, if_pos (by rw [hmax]; omega)]
        have hseg : (Ref.mk m.vnext 0).add (-((sizeT (2 ^ t.bucketBit * es) : Int))) = ⟨m.vnext, -((2 ^ t.bucketBit * es : Nat) : Int)⟩ := by
          simp only [Ref.add, sizeT, Nat.mod_eq_of_lt hf0, Int.zero_add]
        have hc : bcalloc (2 ^ t.bucketBit) es m = some (⟨m.vnext, 0⟩, m1) := by
          rw [← e1]; unfold bcalloc; rw [if_pos hf0]
        simp only [hmax, hes, StateT.bind, bind, hc, Option.bind_some, segSet, if_pos (show t.bucketBit < sizeBit by omega), hseg, ashl,
          if_pos (show t.bucketBit + 1 < sizeBit by omega)]
        rw [← e']; try rw [hes]
      · right
        rcases ht' with h | h
        · rw [h]; simp only [Nat.add_one_sub_one]; omega
        · exact h
      · exact ⟨u'.1.trans u1.1, fun v hv => ⟨((u'.2 v hv).1).trans (u1.2 v hv).1, ((u'.2 v hv).2).trans (u1.2 v hv).2⟩⟩
      · rw [a' pos (by simp only; omega), a1 pos hpos]

theorem arrayofGrow_run {es : Nat} {t : ArrOf} {m : Mem} {a : Ab} {vs : Nat → Nat} {n : Nat} (h : ArrOfInv es t m a vs) (hf : fitsSeg es n) :
    ∃ t' m' vs', arrayofGrow t n m = some (t', m') ∧ ArrOfInv es t' m' { a with size := max a.size n } vs' ∧
      Untouched a.other m m' ∧ ∀ pos, pos < a.size → saddr es vs' pos = saddr es vs pos := by
  by_cases hc : t.count ≥ n
  · refine ⟨t, m, vs, ?_, ?_, ⟨rfl, fun _ _ => ⟨rfl, rfl⟩⟩, fun _ _ => rfl⟩
    · rw [arrayofGrow, if_pos hc]; rfl
    · rw [Nat.max_eq_left (by rw [← h.count]; exact hc)]; exact h
  · obtain ⟨K, hK6, hK64, hn, hK⟩ := hf
    have hor : ∃ d, t.bucketBit + d = K ∨ n ≤ 2 ^ t.bucketBit := by
      by_cases hb : t.bucketBit ≤ K
      · exact ⟨K - t.bucketBit, .inl (by omega)⟩
      · exact ⟨0, .inr (Nat.le_trans hn (Nat.pow_le_pow_right (by omega) (by omega)))⟩
    obtain ⟨d, hd⟩ := hor
    obtain ⟨t', m', vs', e, s', hm', hc', hb', hn', ht', u', hes', a'⟩ := arrayofGrowLoop_run n K hK64 hn hK d { t with count := n } m a vs hd h.seg
      h.max h.le h.esz
    have hcs := h.count
    have hmx : max a.size n = n := Nat.max_eq_right (by omega)
    refine ⟨t', m', vs', ?_, ⟨?_, hm', ?_, ?_, ?_, hes'⟩, u', fun pos hp => a' pos (Nat.lt_of_lt_of_le hp h.le)⟩
    · rw [arrayofGrow, if_neg hc]; exact e
    · rw [hmx]
      exact ⟨s'.k6, s'.fit, s'.b64, s'.low, s'.high, s'.len, s'.inj, s'.core.mono_size (by omega)⟩
    · rw [hmx]; exact hc'
    · rw [hmx]; exact hn'
    · rw [hmx]
      rcases ht' with h1 | h1
      · rw [h1]
        rcases h.tight with h2 | h2
        · exact .inl h2
        · exact .inr (Nat.lt_trans h2 (show a.size < n by omega))
      · exact .inr h1

theorem arrayofRef_run {es : Nat} {t : ArrOf} {m : Mem} {a : Ab} {vs : Nat → Nat} (h : ArrOfInv es t m a vs) {pos : Nat} (hp : pos < a.size) (m' : Mem) :
    arrayofRef t pos m' = some (segAddr es t.bucket pos, m') := by
  have hle := h.le
  obtain ⟨r, e1, e2, e3⟩ := h.seg.getSeg (show pos < 2 ^ t.bucketBit by omega) m'
  have hx : sizeT (pos * es) = pos * es := by
    apply Nat.mod_eq_of_lt
    have h1 := h.seg.fit
    have h2 : pos * es ≤ 2 ^ t.bucketBit * es := Nat.mul_le_mul_right _ (by omega)
    omega
  have ha : assertM (pos < t.count) m' = some ((), m') := by
    unfold assertM; rw [if_pos (by rw [h.count]; exact hp)]
  rw [← e3]
  simp only [arrayofRef, StateT.bind, bind, ha, Option.bind_some, e1, e2, pure, StateT.pure, h.esz, hx]

theorem arrayofDoneLoop_eq {es : Nat} {t : ArrOf} {m : Mem} {a : Ab} {vs : Nat → Nat} (h : ArrOfInv es t m a vs) : ∀ n i, i + n ≤ t.bucketBit →
    arrayofDoneLoop t i n = segDoneLoop t.bucket es i n := by
  intro n
  induction n with
  | zero => intro i _; rfl
  | succ n ih =>
    intro i hi
    have hb := h.seg.b64
    have hx : sizeT (2 ^ i * es) = 2 ^ i * es := by
      apply Nat.mod_eq_of_lt
      have h1 := h.seg.fit
      have h3 : 2 ^ i ≤ 2 ^ t.bucketBit := Nat.pow_le_pow_right (by omega) (by omega)
      have h2 : 2 ^ i * es ≤ 2 ^ t.bucketBit * es := Nat.mul_le_mul_right _ h3
      omega
    funext m1
    simp only [arrayofDoneLoop, segDoneLoop, StateT.bind, bind, ashl, if_pos (show i < sizeBit by omega), Option.bind_some,
      ih (i + 1) (by omega), h.esz, hx]

/-- The state after done(): all the vectors of the array are freed. -/
theorem arrayofDone_run {es : Nat} {t : ArrOf} {m : Mem} {a : Ab} {vs : Nat → Nat} (h : ArrOfInv es t m a vs) :
    ∃ m', arrayofDone t m = some ((), m') ∧ m'.heap = m.heap ∧ m'.vcell = m.vcell ∧
      (∀ v, sown t.bucketBit vs v → m'.vlen v = none) ∧ (∀ v, ¬ sown t.bucketBit vs v → m'.vlen v = m.vlen v) := by
  have s := h.seg
  have hk := s.k6
  have hb := s.b64
  have hinj : ∀ j, 6 ≤ j → j < t.bucketBit → vs j ≠ vs 5 := fun j h1 h2 e => by
    have := s.inj j 5 (by omega) h2 (by omega) (by omega) e; omega
  obtain ⟨m', e, h1, h2, _, h4, h5⟩ := segDoneLoop_run s (by omega) (t.bucketBit - 6) 6
    { m with vlen := upd m.vlen (vs 5) none } (by omega) (by omega) (fun j h1 h2 => by
      simp only; rw [upd_ne (hinj j h1 h2), s.len j (by omega) h2]; simp)
  refine ⟨m', ?_, h1, h2, ?_, ?_⟩
  · have hs : (m.vlen (vs 5)).isSome := by rw [s.len 5 (by omega) (by omega)]; rfl
    have hg : segGet t.bucket 0 m = some (⟨vs 5, 0⟩, m) := by
      rw [segGet, if_pos (by omega), s.low 0 (by omega)]; rfl
    simp only [arrayofDone, arrayofBIT, StateT.bind, bind, hg, Option.bind_some, vfree_run hs]
    rw [arrayofDoneLoop_eq h _ _ (by omega)]; exact e
  · rintro v ⟨i, h5', hi, rfl⟩
    by_cases hi5 : i = 5
    · subst hi5
      rw [h5 _ (fun j a b e => hinj j a b e.symm)]; simp
    · exact h4 i (by omega) hi
  · intro v hv
    rw [h5 v (fun j a b e => hv ⟨j, by omega, b, e⟩)]
    simp only
    rw [upd_ne (fun e => hv ⟨5, by omega, by omega, e⟩)]

def ArrOfP (es : Nat) (t : ArrOf) (m : Mem) (a : Ab) : Prop := ∃ vs, ArrOfInv es t m a vs

theorem arrayof_ok (es : Nat) : ImplOk (arrayofImpl es) (ArrOfP es) (fun t _ => segAddr es t.bucket) where
  size := fun ⟨_, h⟩ => h.count
  core := by
    rintro t m a ⟨vs, h⟩
    refine ⟨2 ^ t.bucketBit, sown t.bucketBit vs, h.le, ?_⟩
    have c := h.seg.core
    refine ⟨fun pos off hp ho => ?_, fun p o p' o' hp ho hp' ho' he => ?_, fun pos hp => ?_, c.zero, c.live, c.sep, c.fresh⟩
    · rw [h.seg.segAddr_eq hp]; exact c.cell pos off hp ho
    · rw [h.seg.segAddr_eq hp, h.seg.segAddr_eq hp'] at he; exact c.inj p o p' o' hp ho hp' ho' he
    · rw [h.seg.segAddr_eq hp]; exact c.vec pos hp
  ref := fun ⟨_, h⟩ hp => arrayofRef_run h hp _
  write := by
    rintro t m m' a pos off x ⟨vs, h⟩ hp ho e
    have hlt : pos < 2 ^ t.bucketBit := by have := h.le; omega
    have s := h.seg
    obtain ⟨m1, e1, c, _, hl, _, _⟩ := s.core.write hlt hp ho x
    rw [← s.segAddr_eq hlt, e] at e1
    simp only [Option.some.injEq, Prod.mk.injEq, true_and] at e1
    subst e1
    exact ⟨⟨vs, ⟨s.k6, s.fit, s.b64, s.low, s.high, fun i h1 h2 => by rw [hl]; exact s.len i h1 h2, s.inj, c⟩, h.max, h.count, h.le, h.tight, h.esz⟩, fun _ _ => rfl⟩
  env := by
    rintro t m m' a other' ⟨vs, h⟩ h1 h2 h3
    exact ⟨⟨vs, h.seg.env h1 h2 h3, h.max, h.count, h.le, h.tight, h.esz⟩, fun _ _ => rfl⟩
  grow := by
    rintro t m a n ⟨vs, h⟩ hf
    obtain ⟨t', m', vs', e, h', u, ha⟩ := arrayofGrow_run h hf
    refine ⟨t', m', e, ⟨vs', h'⟩, u, fun pos hp => ?_⟩
    have h1 := h.le
    have h2 := h'.le
    simp only at h2
    rw [h.seg.segAddr_eq (by omega), h'.seg.segAddr_eq (by omega), ha pos hp]
  ptr := by
    intro f hf
    simp [arrayofImpl] at hf
  fits := by
    rintro n ⟨K, hK6, hK64, hn, hK⟩
    have : 2 ^ K ≤ 2 ^ (sizeBit - 1) := Nat.pow_le_pow_right (by omega) (by omega)
    arch

theorem arrayof_own {es : Nat} {t : ArrOf} {m : Mem} {a : Ab} {vs : Nat → Nat} (h : ArrOfInv es t m a vs) :
    OwnVecs a.other m ((List.range' 5 (t.bucketBit - 5)).map vs) ∧
      cellCount m ((List.range' 5 (t.bucketBit - 5)).map vs) = 2 ^ t.bucketBit * es := segs_own h.seg

end ArraySpec
end Tommy
