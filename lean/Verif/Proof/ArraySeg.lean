import Verif.Proof.ArrayCore
import Verif.Proof.LinSegs
/-! The segments of tommy_array and tommy_arrayof. -/
set_option linter.unusedSimpArgs false
namespace Tommy

variable [Arch]
namespace ArraySpec
open HashSpec (sg sbase slen sg_bounds sg_lt sg_of_ge slen_pos ilog2_or_one ilog2_lt_or_one)

omit [Arch] in
theorem mul_add_lt {p n o es : Nat} (hp : p < n) (ho : o < es) : p * es + o < n * es := by
  have : (p + 1) * es ≤ n * es := Nat.mul_le_mul_right _ hp
  rw [Nat.add_mul] at this; omega

omit [Arch] in
theorem mul_add_inj {p p' o o' es : Nat} (ho : o < es) (ho' : o' < es) (h : p * es + o = p' * es + o') :
    p = p' ∧ o = o' := by
  have h1 : (p * es + o) / es = p := by
    rw [Nat.add_comm, Nat.add_mul_div_right _ _ (by omega), Nat.div_eq_of_lt ho, Nat.zero_add]
  have h2 : (p' * es + o') / es = p' := by
    rw [Nat.add_comm, Nat.add_mul_div_right _ _ (by omega), Nat.div_eq_of_lt ho', Nat.zero_add]
  have : p = p' := by rw [← h1, ← h2, h]
  subst this
  omega

/-- The address of an element. -/
def saddr (es : Nat) (vs : Nat → Nat) (pos : Nat) : Ref := ⟨vs (sg pos), (((pos - sbase (sg pos)) * es : Nat) : Int)⟩

/-- The vectors of the segments. -/
def sown (bit : Nat) (vs : Nat → Nat) (v : Nat) : Prop := ∃ i, 5 ≤ i ∧ i < bit ∧ v = vs i

structure SegInv (es bytes : Nat) (bk : Nat → Option Ref) (bit : Nat) (m : Mem) (a : Ab) (vs : Nat → Nat) : Prop where
  k6 : 6 ≤ bit
  fit : 2 ^ bit * bytes < 2 ^ sizeBit
  b64 : bit < sizeBit
  low : ∀ i, i < 6 → bk i = some ⟨vs 5, 0⟩
  high : ∀ i, 6 ≤ i → i < bit → bk i = some ⟨vs i, -((2 ^ i * es : Nat) : Int)⟩
  len : ∀ i, 5 ≤ i → i < bit → m.vlen (vs i) = some (slen i * es)
  inj : ∀ i j, 5 ≤ i → i < bit → 5 ≤ j → j < bit → vs i = vs j → i = j
  core : Core es a m (2 ^ bit) (saddr es vs) (sown bit vs)

variable {es bytes : Nat} {bk : Nat → Option Ref} {bit : Nat} {m : Mem} {a : Ab} {vs : Nat → Nat}

theorem bit_lt {bit bytes : Nat} (hb : 0 < bytes) (h : 2 ^ bit * bytes < 2 ^ sizeBit) : bit < sizeBit := by
  have h1 : 2 ^ bit * 1 ≤ 2 ^ bit * bytes := Nat.mul_le_mul_left _ hb
  rw [Nat.mul_one] at h1
  have h2 : 2 ^ bit < 2 ^ sizeBit := by omega
  exact (Nat.pow_lt_pow_iff_right (by omega)).1 h2

theorem SegInv.env (s : SegInv es bytes bk bit m a vs) {m' : Mem} {other' : Nat → Bool}
    (h1 : ∀ v, a.other v = false → m.vlen v ≠ none → m'.vlen v = m.vlen v ∧ m'.vcell v = m.vcell v ∧ other' v = false)
    (h2 : ∀ v, (a.other v = true ∨ m.vlen v = none) → (m'.vlen v ≠ none ↔ other' v = true)) (h4 : m'.FreshOk) :
    SegInv es bytes bk bit m' { a with other := other' } vs := by
  have key : ∀ v, sown bit vs v → m'.vlen v = m.vlen v ∧ m'.vcell v = m.vcell v ∧ other' v = false := fun v hv =>
    have := own_notOther s.core v hv
    h1 v this.1 this.2
  refine ⟨s.k6, s.fit, s.b64, s.low, s.high, ?_, s.inj, s.core.env (fun v hv => ⟨(key v hv).1, (key v hv).2.1⟩) ?_
    (fun v hv => (key v hv).2.2) h4⟩
  · intro i h5 hi
    rw [(key _ ⟨i, h5, hi, rfl⟩).1]; exact s.len i h5 hi
  · intro v hv
    apply h2
    by_cases hl : m.vlen v = none
    · exact .inr hl
    · exact .inl (((s.core.live v).1 hl).resolve_left hv)

/-- The first segment. -/
theorem SegInv.start {m0 : Mem} (h0 : StartOk m0) (hf : 64 * bytes < 2 ^ sizeBit) (hlow : ∀ i, i < 6 → bk i = some ⟨m0.vnext, 0⟩)
    (a : Ab) (_hs : a.size = 0) (hv : a.val = fun _ _ => 0) (ho : a.other = fun v => (m0.vlen v).isSome) :
    ∃ m, vcalloc (64 * es) m0 = some (⟨m0.vnext, 0⟩, m) ∧ SegInv es bytes bk 6 m a (fun _ => m0.vnext) := by
  refine ⟨_, rfl, by omega, by simpa using hf, by arch, hlow, fun i h1 h2 => by omega, fun i h5 hi => ?_,
    fun i j _ _ _ _ _ => by omega, ?_, ?_, ?_, ?_, ?_, ?_, ?_⟩
  · have : i = 5 := by omega
    subst this
    simp [slen]
  · intro pos off hp hof
    have h64 : pos < 64 := by simpa using hp
    have : saddr es (fun _ => m0.vnext) pos = ⟨m0.vnext, ((pos * es : Nat) : Int)⟩ := by
      simp [saddr, sg, h64, sbase]
    rw [this, hv]
    have := mul_add_lt h64 hof
    refine cell_eq (n := 64 * es) (by simp [Ref.add]) (by simp only [Ref.add]; omega) (by simp [Ref.add])
  · intro p o p' o' hp hof hp' hof' h
    have h64 : p < 64 := by simpa using hp
    have h64' : p' < 64 := by simpa using hp'
    simp only [saddr, sg, h64, h64', sbase, if_true, Nat.sub_zero, Ref.add, Ref.mk.injEq, true_and] at h
    exact mul_add_inj hof hof' (by omega)
  · intro pos hp
    have h64 : pos < 64 := by simpa using hp
    exact ⟨5, by omega, by omega, rfl⟩
  · intro pos off _; rw [hv]
  · intro v
    simp only
    by_cases hvn : v = m0.vnext
    · subst hvn; simp [sown]; exact .inl ⟨5, by omega, by omega⟩
    · rw [upd_ne hvn, ho]
      have : ¬ sown 6 (fun _ => m0.vnext) v := by rintro ⟨_, _, _, h⟩; exact hvn h
      simp [this, Option.isSome_iff_ne_none]
  · rintro v ⟨_, _, _, h⟩
    simp only at h
    subst h; rw [ho]; simp only; rw [h0 _ (Nat.le_refl _)]; rfl
  · intro v hv'
    simp only at hv' ⊢
    rw [upd_ne (by omega)]; exact h0 v (by omega)

theorem SegInv.addr (s : SegInv es bytes bk bit m a vs) {pos : Nat} (h : pos < 2 ^ bit) :
    ∃ r, bk (ilog2 (pos ||| 1)) = some r ∧ r.add ((pos * es : Nat) : Int) = saddr es vs pos := by
  by_cases h64 : pos < 64
  · have : ilog2 (pos ||| 1) < 6 := ilog2_lt_or_one (by omega) (by omega)
    refine ⟨_, s.low _ this, ?_⟩
    simp [saddr, sg, h64, sbase, Ref.add]
  · have h0 : pos ≠ 0 := by omega
    have h1 : 6 ≤ ilog2 pos := by unfold ilog2; rw [Nat.le_log2 h0]; omega
    have h2 : 2 ^ ilog2 pos ≤ pos := Nat.log2_self_le h0
    have h3 : pos < 2 ^ (ilog2 pos + 1) := Nat.lt_log2_self
    have hlt : ilog2 pos < bit := by unfold ilog2; rw [Nat.log2_lt h0]; exact h
    rw [ilog2_or_one h2 h3]
    refine ⟨_, s.high _ h1 hlt, ?_⟩
    simp only [saddr, sg, h64, if_false, sbase, if_neg (show ¬ ilog2 pos = 5 by omega), Ref.add, Ref.mk.injEq, true_and]
    rw [Nat.sub_mul]
    have := Nat.mul_le_mul_right es h2
    omega

/-- The address computed by ref(). -/
def segAddr (es : Nat) (bk : Nat → Option Ref) (pos : Nat) : Ref :=
  ((bk (ilog2 (pos ||| 1))).getD ⟨0, 0⟩).add ((pos * es : Nat) : Int)

theorem SegInv.segAddr_eq (s : SegInv es bytes bk bit m a vs) {pos : Nat} (h : pos < 2 ^ bit) :
    segAddr es bk pos = saddr es vs pos := by
  obtain ⟨r, h1, h2⟩ := s.addr h
  simp only [segAddr, h1, Option.getD_some, h2]

theorem SegInv.getSeg (s : SegInv es bytes bk bit m a vs) {pos : Nat} (h : pos < 2 ^ bit) (m' : Mem) :
    ∃ r, (ilog2M (pos ||| 1) m' = some (ilog2 (pos ||| 1), m')) ∧ segGet bk (ilog2 (pos ||| 1)) m' = some (r, m') ∧
      r.add ((pos * es : Nat) : Int) = segAddr es bk pos := by
  have hl : ilog2 (pos ||| 1) < sizeBit := by
    have := ilog2_lt_or_one (by have := s.k6; omega) h; have := s.b64; omega
  have h1 : pos ||| 1 ≠ 0 := by
    have := Nat.right_le_or (n := pos) (m := 1); omega
  obtain ⟨r, e1, e2⟩ := s.addr h
  exact ⟨r, by simp [ilog2M, h1], by simp [segGet, hl, e1], by rw [e2, s.segAddr_eq h]⟩

omit [Arch] in
theorem sg_pow {pos : Nat} (hb : 6 ≤ bit) (h1 : 2 ^ bit ≤ pos) (h2 : pos < 2 ^ (bit + 1)) : sg pos = bit :=
  sg_of_ge hb h1 h2

/-- One more segment. -/
theorem SegInv.grow (s : SegInv es bytes bk bit m a vs) (hf : 2 ^ (bit + 1) * bytes < 2 ^ sizeBit) (h64 : bit + 1 < sizeBit)
    (hsz : a.size ≤ 2 ^ bit) : ∃ m', vcalloc (2 ^ bit * es) m = some (⟨m.vnext, 0⟩, m') ∧
      SegInv es bytes (upd bk bit (some ⟨m.vnext, -((2 ^ bit * es : Nat) : Int)⟩)) (bit + 1) m' a
        (upd vs bit m.vnext) ∧
      Untouched a.other m m' ∧ (∀ pos, pos < 2 ^ bit → saddr es (upd vs bit m.vnext) pos = saddr es vs pos) := by
  have hk := s.k6
  have hnew := s.core.notNew
  have hsg : ∀ pos, pos < 2 ^ bit → sg pos ≠ bit := fun pos h => by have := sg_lt hk h; omega
  have hsa : ∀ pos, pos < 2 ^ bit → saddr es (upd vs bit m.vnext) pos = saddr es vs pos := fun pos h => by
    simp only [saddr]; rw [upd_ne (hsg pos h)]
  have hsa2 : ∀ pos, 2 ^ bit ≤ pos → pos < 2 ^ (bit + 1) →
      saddr es (upd vs bit m.vnext) pos = ⟨m.vnext, (((pos - 2 ^ bit) * es : Nat) : Int)⟩ := fun pos h1 h2 => by
    simp only [saddr, sg_pow hk h1 h2, upd_same, sbase, if_neg (show ¬ bit = 5 by omega)]
  have hp2 : 2 ^ (bit + 1) = 2 ^ bit + 2 ^ bit := by rw [Nat.pow_succ]; omega
  have hvec : ∀ pos, pos < 2 ^ bit → (saddr es vs pos).vec ≠ m.vnext := fun pos h e => by
    have := s.core.vec pos h; rw [e] at this; exact hnew.1 this
  refine ⟨_, rfl, ⟨by omega, hf, h64, fun i hi => ?_, fun i h6 hi => ?_, fun i h5 hi => ?_, ?_, ⟨?_, ?_, ?_, ?_, ?_, ?_, ?_⟩⟩,
    ⟨rfl, fun v hv => ?_⟩, hsa⟩
  · rw [upd_ne (by omega), upd_ne (by omega)]; exact s.low i hi
  · by_cases hb : i = bit
    · subst hb; rw [upd_same, upd_same]
    · rw [upd_ne hb, upd_ne hb]; exact s.high i h6 (by omega)
  · by_cases hb : i = bit
    · subst hb; simp only; rw [upd_same, upd_same]; simp [slen, show ¬ i = 5 by omega]
    · have hlt : i < bit := by omega
      simp only
      rw [upd_ne hb, upd_ne, s.len i h5 hlt]
      intro e; exact hnew.1 ⟨i, h5, hlt, e.symm⟩
  · intro i j h5 hi h5' hj h
    by_cases hb : i = bit
    · by_cases hb' : j = bit
      · omega
      · subst hb
        rw [upd_same, upd_ne hb'] at h
        exact absurd ⟨j, h5', by omega, h⟩ hnew.1
    · by_cases hb' : j = bit
      · subst hb'
        rw [upd_same, upd_ne hb] at h
        exact absurd ⟨i, h5, by omega, h.symm⟩ hnew.1
      · rw [upd_ne hb, upd_ne hb'] at h
        exact s.inj i j h5 (by omega) h5' (by omega) h
  · intro pos off hp hof
    by_cases hlt : pos < 2 ^ bit
    · rw [hsa pos hlt]
      have hne := hvec pos hlt
      rw [cell_congr (m := m) (r := (saddr es vs pos).add off) (by simp only [Ref.add_vec]; rw [upd_ne hne])
        (by simp only [Ref.add_vec]; rw [upd_ne hne])]
      exact s.core.cell pos off hlt hof
    · rw [hsa2 pos (by omega) hp]
      have := mul_add_lt (show pos - 2 ^ bit < 2 ^ bit by omega) hof
      refine cell_eq (n := 2 ^ bit * es) (by simp [Ref.add]) (by simp only [Ref.add]; omega) ?_
      simp [Ref.add, s.core.zero pos off (show a.size ≤ pos by omega)]
  · intro p o p' o' hp hof hp' hof' h
    have hv := congrArg Ref.vec h
    simp only [Ref.add_vec] at hv
    by_cases h1 : p < 2 ^ bit
    · by_cases h2 : p' < 2 ^ bit
      · rw [hsa p h1, hsa p' h2] at h
        exact s.core.inj p o p' o' h1 hof h2 hof' h
      · rw [hsa p h1, hsa2 p' (by omega) hp'] at hv
        exact absurd hv (hvec p h1)
    · by_cases h2 : p' < 2 ^ bit
      · rw [hsa p' h2, hsa2 p (by omega) hp] at hv
        exact absurd hv.symm (hvec p' h2)
      · rw [hsa2 p (by omega) hp, hsa2 p' (by omega) hp'] at h
        simp only [Ref.add, Ref.mk.injEq, true_and] at h
        have := mul_add_inj hof hof' (show (p - 2 ^ bit) * es + o = (p' - 2 ^ bit) * es + o' by omega)
        omega
  · intro pos hp
    exact ⟨sg pos, (sg_bounds pos).1, sg_lt (by omega) hp, rfl⟩
  · intro pos off h
    exact s.core.zero pos off h
  · intro v
    simp only
    have hown : sown (bit + 1) (upd vs bit m.vnext) v ↔ sown bit vs v ∨ v = m.vnext := by
      constructor
      · rintro ⟨i, h5, hi, e⟩
        by_cases hb : i = bit
        · subst hb; rw [upd_same] at e; exact .inr e
        · rw [upd_ne hb] at e; exact .inl ⟨i, h5, by omega, e⟩
      · rintro (⟨i, h5, hi, e⟩ | e)
        · exact ⟨i, h5, by omega, by rw [upd_ne (by omega)]; exact e⟩
        · exact ⟨bit, by omega, by omega, by rw [upd_same]; exact e⟩
    rw [hown]
    by_cases hvn : v = m.vnext
    · subst hvn; simp
    · rw [upd_ne hvn, s.core.live]; simp [hvn]
  · rintro v ⟨i, h5, hi, e⟩
    by_cases hb : i = bit
    · subst hb; rw [upd_same] at e; rw [e]; exact hnew.2
    · rw [upd_ne hb] at e; exact s.core.sep v ⟨i, h5, by omega, e⟩
  · intro v hv'
    simp only at hv' ⊢
    rw [upd_ne (by omega)]; exact s.core.fresh v (by omega)
  · simp only
    have hne : v ≠ m.vnext := by rintro rfl; rw [hnew.2] at hv; cases hv
    rw [upd_ne hne, upd_ne hne]; exact ⟨rfl, rfl⟩

/-- Freeing the segments from `i` on. -/
def segDoneLoop (bk : Nat → Option Ref) (es : Nat) (i : Nat) : Nat → MM Unit
  | 0 => pure ()
  | k + 1 => do
    let segment ← segGet bk i
    vfree (segment.add (2 ^ i * es : Nat))
    segDoneLoop bk es (i + 1) k

omit [Arch] in
theorem vfree_run {m : Mem} {v : Nat} (h : (m.vlen v).isSome) :
    vfree ⟨v, 0⟩ m = some ((), { m with vlen := upd m.vlen v none }) := by simp [vfree, h]

theorem segDoneLoop_run (s : SegInv es bytes bk bit m a vs) (hb : bit ≤ sizeBit) : ∀ n i (m1 : Mem), i + n = bit → 6 ≤ i →
    (∀ j, i ≤ j → j < bit → m1.vlen (vs j) ≠ none) →
    ∃ m', segDoneLoop bk es i n m1 = some ((), m') ∧ m'.heap = m1.heap ∧ m'.vcell = m1.vcell ∧ m'.vnext = m1.vnext ∧
      (∀ j, i ≤ j → j < bit → m'.vlen (vs j) = none) ∧
      (∀ v, (∀ j, i ≤ j → j < bit → v ≠ vs j) → m'.vlen v = m1.vlen v) := by
  intro n
  induction n with
  | zero =>
    intro i m1 hi h6 hl
    exact ⟨m1, rfl, rfl, rfl, rfl, fun j h1 h2 => by omega, fun _ _ => rfl⟩
  | succ n ih =>
    intro i m1 hi h6 hl
    have hlt : i < bit := by omega
    have hinj : ∀ j, i + 1 ≤ j → j < bit → vs j ≠ vs i := fun j h1 h2 e => by
      have := s.inj j i (by omega) h2 (by omega) hlt e; omega
    obtain ⟨m', e, h1, h2, h3, h4, h5⟩ := ih (i + 1) { m1 with vlen := upd m1.vlen (vs i) none } (by omega) (by omega)
      (fun j h1 h2 => by simp only; rw [upd_ne (hinj j h1 h2)]; exact hl j (by omega) h2)
    refine ⟨m', ?_, h1, h2, h3, fun j hj1 hj2 => ?_, fun v hv => ?_⟩
    · have hs : (m1.vlen (vs i)).isSome := by
        have := hl i (Nat.le_refl _) hlt
        exact Option.isSome_iff_ne_none.2 this
      have he : (Ref.mk (vs i) (-((2 ^ i * es : Nat) : Int))).add ((2 ^ i * es : Nat) : Int) = ⟨vs i, 0⟩ := by
        simp only [Ref.add, Ref.mk.injEq, true_and]; omega
      simp only [segDoneLoop, segGet, StateT.bind, bind, if_pos (show i < sizeBit by omega), s.high i h6 hlt, Option.map_some,
        Option.bind_some, he, vfree_run hs, e]
    · by_cases hji : j = i
      · subst hji
        rw [h5 (vs j) (fun j' a b e => hinj j' a b e.symm)]; simp
      · exact h4 j (by omega) hj2
    · rw [h5 v (fun j a b => hv j (by omega) b)]
      simp only
      rw [upd_ne (hv i (Nat.le_refl _) hlt)]

end ArraySpec
end Tommy
