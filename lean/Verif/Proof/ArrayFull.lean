import Verif.Spec.ArrayFull
import Verif.Proof.Arrayblk
import Mathlib.Algebra.Order.BigOperators.Group.List
/-! The arrays with any argument of grow, in a memory of 2^64 bytes. -/
set_option linter.unusedSimpArgs false
set_option autoImplicit false
namespace Tommy

variable [Arch]
namespace ArraySpec

section
variable {T : Type} {c : Nat} {S : Sys (St T) Ab Op Out}

theorem machine_step {op : Op} {s : St T} {out : Out} {s' : St T} (e : (machine c S).step op s = some (out, s')) :
    S.step op s = some (out, s') ∧ Bounded c s'.mem := by
  simp only [machine] at e
  obtain ⟨r, h1, h2⟩ := Option.bind_eq_some_iff.1 e
  split at h2
  · rename_i hb
    cases h2
    exact ⟨h1, hb⟩
  · cases h2

theorem machine_step_of {op : Op} {s : St T} {out : Out} {s' : St T} (e : S.step op s = some (out, s')) (hb : Bounded c s'.mem) :
    (machine c S).step op s = some (out, s') := by
  simp only [machine, e, Option.bind_some, if_pos hb]

theorem machine_reach {s : St T} {a : Ab} (hr : (machine c S).Reach s a) : S.Reach s a ∧ Bounded c s.mem := by
  induction hr with
  | init h => exact ⟨.init h.1, h.2⟩
  | step _ hl e ih => exact ⟨.step ih.1 hl (machine_step e).1, (machine_step e).2⟩

theorem machine_from {s s' : St T} {a a' : Ab} (hf : (machine c S).From s a s' a') : S.From s a s' a' := by
  induction hf with
  | refl => exact .refl
  | step _ hl e ih => exact .step ih hl (machine_step e).1
end

omit [Arch] in
theorem cellCount_append (m : Mem) (l1 l2 : List Nat) : cellCount m (l1 ++ l2) = cellCount m l1 + cellCount m l2 := by
  simp [cellCount]

/-- The segments are of more than 2^64 bytes, after the one `bit` is added. -/
theorem not_bounded {es c k : Nat} {bk : Nat → Option Ref} {m m1 : Mem} {a : Ab} {vs : Nat → Nat}
    (s : SegInv es (c * es) bk k m a vs) (hk : 2 ^ sizeBit ≤ 2 ^ (k + 1) * (c * es))
    (e : vcalloc (2 ^ k * es) m = some (⟨m.vnext, 0⟩, m1)) : ¬ Bounded c m1 := by
  intro hb
  obtain ⟨o, hc⟩ := segs_own s
  have hnew : m.vnext ∉ (List.range' 5 (k - 5)).map vs := by
    intro h
    exact ((o.mem _).1 h).2 (s.core.fresh _ (Nat.le_refl _))
  have h1 : m1 = { m with vlen := upd m.vlen m.vnext (some (2 ^ k * es)), vcell := upd m.vcell m.vnext (fun _ => some 0)
                          vnext := m.vnext + 1 } := by
    simp only [vcalloc, Option.some.injEq, Prod.mk.injEq, true_and] at e
    exact e.symm
  have h2 := hb ((List.range' 5 (k - 5)).map vs ++ [m.vnext]) (by
    rw [List.nodup_append]
    refine ⟨o.nodup, by simp, fun v hv w hw e => ?_⟩
    rw [List.mem_singleton] at hw
    rw [e, hw] at hv
    exact hnew hv)
  have h3 : cellCount m1 ((List.range' 5 (k - 5)).map vs) = 2 ^ k * es := by
    rw [← hc]
    unfold cellCount
    congr 1
    apply List.map_congr_left
    intro v hv
    rw [h1]
    simp only
    rw [upd_ne (show v ≠ m.vnext from fun e => hnew (by rw [← e]; exact hv))]
  have h4 : cellCount m1 [m.vnext] = 2 ^ k * es := by simp [cellCount, h1]
  rw [cellCount_append, h3, h4] at h2
  have : c * (2 ^ k * es + 2 ^ k * es) = 2 ^ (k + 1) * (c * es) := by
    rw [Nat.pow_succ, ← Nat.mul_two, Nat.mul_left_comm (2 ^ k * 2), Nat.mul_right_comm, Nat.mul_comm (2 ^ k * 2)]
  rw [this] at h2
  omega

/-! ## tommy_array -/

theorem arrayGrowLoop_big {n K : Nat} (hn : 2 ^ K < n) (hK : 2 ^ K * ptrSize < 2 ^ sizeBit) (hK1 : 2 ^ sizeBit ≤ 2 ^ (K + 1) * ptrSize) :
    ∀ d (t : Arr) (m : Mem) (a : Ab) (vs : Nat → Nat),
    t.bucketBit + d = K → SegInv 1 ptrSize t.bucket t.bucketBit m a vs → t.bucketMax = 2 ^ t.bucketBit →
    a.size ≤ 2 ^ t.bucketBit → ∀ t' m', arrayGrowLoop t n m = some (t', m') → ¬ Bounded ptrSize m' := by
  have hK' : K < bktBit + 1 := by
    by_contra h
    have : 2 ^ (bktBit + 1) ≤ 2 ^ K := Nat.pow_le_pow_right (by omega) (by omega)
    arch
  intro d
  induction d with
  | zero =>
    intro t m a vs hd s hmax hsz t' m' e
    rw [Nat.add_zero] at hd
    rw [arrayGrowLoop, if_pos (by rw [hmax, hd]; exact hn)] at e
    obtain ⟨m1, e1⟩ : ∃ m1, vcalloc (2 ^ t.bucketBit * 1) m = some (⟨m.vnext, 0⟩, m1) := ⟨_, rfl⟩
    have hnb := not_bounded (c := ptrSize) (es := 1) (by simpa using s) (by rw [hd]; arch) e1
    have hc : pcalloc (2 ^ t.bucketBit) m = some (⟨m.vnext, 0⟩, m1) := by
      rw [← e1]; unfold pcalloc; rw [hd, if_pos hK, Nat.mul_one]
    simp only [hmax, StateT.bind, bind, hc, Option.bind_some, segSet, if_pos (show t.bucketBit < sizeBit by arch), ashl,
      if_pos (show t.bucketBit + 1 < sizeBit by arch)] at e
    rw [arrayGrowLoop] at e
    by_cases hn2 : n > 2 ^ (t.bucketBit + 1)
    · rw [if_pos hn2] at e
      have hz : pcalloc (2 ^ (t.bucketBit + 1)) m1 = none := by
        unfold pcalloc; rw [if_neg (by rw [hd]; omega)]
      simp only [StateT.bind, bind, hz, Option.bind_none] at e
      cases e
    · rw [if_neg hn2] at e
      cases e
      exact hnb
  | succ d ih =>
    intro t m a vs hd s hmax hsz t' m' e
    have hlt : 2 ^ t.bucketBit < n := Nat.lt_of_le_of_lt (Nat.pow_le_pow_right (by omega) (by omega)) hn
    have hp : 2 ^ (t.bucketBit + 1) ≤ 2 ^ K := Nat.pow_le_pow_right (by omega) (by omega)
    have hf : 2 ^ (t.bucketBit + 1) * ptrSize < 2 ^ sizeBit := Nat.lt_of_le_of_lt (Nat.mul_le_mul_right _ hp) hK
    have hp2 : 2 ^ t.bucketBit ≤ 2 ^ (t.bucketBit + 1) := Nat.pow_le_pow_right (by omega) (by omega)
    have hf0 : 2 ^ t.bucketBit * ptrSize < 2 ^ sizeBit := Nat.lt_of_le_of_lt (Nat.mul_le_mul_right _ hp2) hf
    obtain ⟨m1, e1, s1, u1, a1⟩ := s.grow hf (by arch) hsz
    refine ih { t with bucket := upd t.bucket t.bucketBit (some ⟨m.vnext, -((2 ^ t.bucketBit * 1 : Nat) : Int)⟩),
                       bucketBit := t.bucketBit + 1, bucketMax := 2 ^ (t.bucketBit + 1) } m1 a _ (by simp only; omega) s1 rfl
      (by simp only; omega) t' m' ?_
    rw [arrayGrowLoop, if_pos (by rw [hmax]; omega)] at e
    have hseg : (Ref.mk m.vnext 0).add (-(((2 ^ t.bucketBit : Nat) : Int))) = ⟨m.vnext, -((2 ^ t.bucketBit * 1 : Nat) : Int)⟩ := by
      simp [Ref.add]
    have hc : pcalloc (2 ^ t.bucketBit) m = some (⟨m.vnext, 0⟩, m1) := by
      rw [← e1]; unfold pcalloc; rw [if_pos hf0]; rw [Nat.mul_one]
    simp only [hmax, StateT.bind, bind, hc, Option.bind_some, segSet, if_pos (show t.bucketBit < sizeBit by arch), hseg, ashl,
      if_pos (show t.bucketBit + 1 < sizeBit by arch)] at e
    exact e

/-- A grow that returns, in a memory of 2^64 bytes, is of a size that fits. -/
theorem arrayGrow_fits {t t' : Arr} {m m' : Mem} {a : Ab} {n : Nat} (h : ArrP t m a) (e : arrayGrow t n m = some (t', m'))
    (hb : Bounded ptrSize m') : fitsSeg ptrSize n := by
  obtain ⟨vs, h⟩ := h
  by_cases h60 : n ≤ 2 ^ bktBit
  · exact ⟨bktBit, by arch, by arch, h60, by arch⟩
  · exfalso
    have hle : t.bucketBit ≤ bktBit := by
      by_contra h1
      have h2 : 2 ^ (bktBit + 1) ≤ 2 ^ t.bucketBit := Nat.pow_le_pow_right (by omega) (by omega)
      have := h.seg.fit
      arch
    have hp : 2 ^ t.bucketBit ≤ 2 ^ bktBit := Nat.pow_le_pow_right (by omega) hle
    have h1 := h.le
    rw [arrayGrow, if_neg (by rw [h.count]; omega)] at e
    exact arrayGrowLoop_big (n := n) (K := bktBit) (by omega) (by arch) (by arch) (bktBit - t.bucketBit) { t with count := n } m a vs
      (by simp only; omega) h.seg h.max h.le t' m' e hb

/-! ## tommy_arrayof -/

theorem arrayofGrowLoop_big {es n K : Nat} (hn : 2 ^ K < n) (hK : 2 ^ K * es < 2 ^ sizeBit) (hK' : K < sizeBit)
    (hK1 : K + 1 < sizeBit → 2 ^ sizeBit ≤ 2 ^ (K + 1) * es) :
    ∀ d (t : ArrOf) (m : Mem) (a : Ab) (vs : Nat → Nat),
    t.bucketBit + d = K → SegInv es es t.bucket t.bucketBit m a vs → t.bucketMax = 2 ^ t.bucketBit →
    a.size ≤ 2 ^ t.bucketBit → t.elementSize = es → ∀ t' m', arrayofGrowLoop t n m = some (t', m') → ¬ Bounded 1 m' := by
  intro d
  induction d with
  | zero =>
    intro t m a vs hd s hmax hsz hes t' m' e
    rw [Nat.add_zero] at hd
    rw [arrayofGrowLoop, if_pos (by rw [hmax, hd]; exact hn)] at e
    obtain ⟨m1, e1⟩ : ∃ m1, vcalloc (2 ^ t.bucketBit * es) m = some (⟨m.vnext, 0⟩, m1) := ⟨_, rfl⟩
    have hc : bcalloc (2 ^ t.bucketBit) es m = some (⟨m.vnext, 0⟩, m1) := by
      rw [← e1]; unfold bcalloc; rw [hd, if_pos hK]
    by_cases h64 : t.bucketBit + 1 < sizeBit
    · have hK1 := hK1 (by omega)
      have hnb := not_bounded (c := 1) (es := es) (by simpa using s) (by rw [hd, Nat.one_mul]; exact hK1) e1
      simp only [hmax, hes, StateT.bind, bind, hc, Option.bind_some, segSet, if_pos (show t.bucketBit < sizeBit by omega), ashl,
        if_pos h64] at e
      rw [arrayofGrowLoop] at e
      by_cases hn2 : n > 2 ^ (t.bucketBit + 1)
      · rw [if_pos hn2] at e
        have hz : bcalloc (2 ^ (t.bucketBit + 1)) es m1 = none := by
          unfold bcalloc; rw [if_neg (by rw [hd]; omega)]
        simp only [hes, StateT.bind, bind, hz, Option.bind_none] at e
        cases e
      · rw [if_neg hn2] at e
        cases e
        exact hnb
    · simp only [hmax, hes, StateT.bind, bind, hc, Option.bind_some, segSet, if_pos (show t.bucketBit < sizeBit by omega), ashl,
        if_neg h64, Option.bind_none] at e
      cases e
  | succ d ih =>
    intro t m a vs hd s hmax hsz hes t' m' e
    have hlt : 2 ^ t.bucketBit < n := Nat.lt_of_le_of_lt (Nat.pow_le_pow_right (by omega) (by omega)) hn
    have hp : 2 ^ (t.bucketBit + 1) ≤ 2 ^ K := Nat.pow_le_pow_right (by omega) (by omega)
    have hf : 2 ^ (t.bucketBit + 1) * es < 2 ^ sizeBit := Nat.lt_of_le_of_lt (Nat.mul_le_mul_right _ hp) hK
    have hp2 : 2 ^ t.bucketBit ≤ 2 ^ (t.bucketBit + 1) := Nat.pow_le_pow_right (by omega) (by omega)
    have hf0 : 2 ^ t.bucketBit * es < 2 ^ sizeBit := Nat.lt_of_le_of_lt (Nat.mul_le_mul_right _ hp2) hf
    obtain ⟨m1, e1, s1, u1, a1⟩ := s.grow hf (by omega) hsz
    refine ih { t with bucket := upd t.bucket t.bucketBit (some ⟨m.vnext, -((2 ^ t.bucketBit * es : Nat) : Int)⟩),
                       bucketBit := t.bucketBit + 1, bucketMax := 2 ^ (t.bucketBit + 1) } m1 a _ (by simp only; omega) s1 rfl
      (by simp only; omega) hes t' m' ?_
    rw [arrayofGrowLoop, if_pos (by rw [hmax]; omega)] at e
    have hseg : (Ref.mk m.vnext 0).add (-((sizeT (2 ^ t.bucketBit * es) : Int))) = ⟨m.vnext, -((2 ^ t.bucketBit * es : Nat) : Int)⟩ := by
      simp only [Ref.add, sizeT, Nat.mod_eq_of_lt hf0, Int.zero_add]
    have hc : bcalloc (2 ^ t.bucketBit) es m = some (⟨m.vnext, 0⟩, m1) := by
      rw [← e1]; unfold bcalloc; rw [if_pos hf0]
    simp only [hmax, hes, StateT.bind, bind, hc, Option.bind_some, segSet, if_pos (show t.bucketBit < sizeBit by omega), hseg, ashl,
      if_pos (show t.bucketBit + 1 < sizeBit by omega)] at e
    rw [← e, hes]

/-- The biggest number of segments. -/
theorem max_bit {es : Nat} (hes : 64 * es < 2 ^ sizeBit) :
    ∃ K, 6 ≤ K ∧ K < sizeBit ∧ 2 ^ K * es < 2 ^ sizeBit ∧ (K + 1 < sizeBit → 2 ^ sizeBit ≤ 2 ^ (K + 1) * es) := by
  have key : ∀ d k, k + d = sizeBit - 1 → 2 ^ k * es < 2 ^ sizeBit →
      ∃ K, k ≤ K ∧ K < sizeBit ∧ 2 ^ K * es < 2 ^ sizeBit ∧ (K + 1 < sizeBit → 2 ^ sizeBit ≤ 2 ^ (K + 1) * es) := by
    intro d
    induction d with
    | zero => exact fun k hk h => ⟨k, Nat.le_refl _, by arch, h, fun h' => by omega⟩
    | succ d ih =>
      intro k hk h
      by_cases h1 : 2 ^ (k + 1) * es < 2 ^ sizeBit
      · obtain ⟨K, a1, a2, a3⟩ := ih (k + 1) (by omega) h1
        exact ⟨K, by omega, a2, a3⟩
      · exact ⟨k, Nat.le_refl _, by omega, h, fun _ => by omega⟩
  exact key (sizeBit - 7) 6 (by arch) hes

theorem arrayofGrow_fits {es : Nat} {t t' : ArrOf} {m m' : Mem} {a : Ab} {n : Nat} (hes : 64 * es < 2 ^ sizeBit) (h : ArrOfP es t m a)
    (e : arrayofGrow t n m = some (t', m')) (hb : Bounded 1 m') : fitsSeg es n := by
  obtain ⟨vs, h⟩ := h
  obtain ⟨K, h6, hK', hK, hK1⟩ := max_bit hes
  by_cases hn : n ≤ 2 ^ K
  · exact ⟨K, h6, hK', hn, hK⟩
  · exfalso
    have hle : t.bucketBit ≤ K := by
      by_contra h1
      have h2 : 2 ^ (K + 1) ≤ 2 ^ t.bucketBit := Nat.pow_le_pow_right (by omega) (by omega)
      have h3 := Nat.mul_le_mul_right es h2
      have h4 := h.seg.b64
      have h5 := hK1 (by omega)
      have := h.seg.fit
      omega
    have hp : 2 ^ t.bucketBit ≤ 2 ^ K := Nat.pow_le_pow_right (by omega) hle
    have h1 := h.le
    rw [arrayofGrow, if_neg (by rw [h.count]; omega)] at e
    exact arrayofGrowLoop_big (by omega) hK hK' hK1 (K - t.bucketBit) { t with count := n } m a vs
      (by simp only; omega) h.seg h.max h.le h.esz t' m' e hb

/-! ## The reachable states of the two arrays of segments -/

omit [Arch] in
theorem assertM_mem {p : Prop} [Decidable p] {m m' : Mem} {u : Unit} (e : assertM p m = some (u, m')) : p ∧ m' = m := by
  unfold assertM at e
  split at e
  · rename_i h
    cases e; exact ⟨h, rfl⟩
  · cases e

theorem segGet_mem {bk : Nat → Option Ref} {i : Nat} {m m' : Mem} {r : Ref} (e : segGet bk i m = some (r, m')) : m' = m := by
  unfold segGet at e
  split at e
  · cases h : bk i with
    | none => rw [h] at e; cases e
    | some x => rw [h] at e; cases e; rfl
  · cases e

omit [Arch] in
theorem ilog2M_mem {x y : Nat} {m m' : Mem} (e : (ilog2M x : MM Nat) m = some (y, m')) : m' = m := by
  unfold ilog2M at e
  split at e
  · cases e
  · cases e; rfl

theorem arrayRef_mem {t : Arr} {pos : Nat} {m m' : Mem} {r : Ref} (e : arrayRef t pos m = some (r, m')) : pos < t.count ∧ m' = m := by
  simp only [arrayRef, StateT.bind, bind] at e
  obtain ⟨⟨_, m1⟩, e1, e⟩ := Option.bind_eq_some_iff.1 e
  obtain ⟨⟨_, m2⟩, e2, e⟩ := Option.bind_eq_some_iff.1 e
  obtain ⟨⟨_, m3⟩, e3, e⟩ := Option.bind_eq_some_iff.1 e
  cases e
  obtain ⟨hp, rfl⟩ := assertM_mem e1
  have h2 := ilog2M_mem e2
  have h3 := segGet_mem e3
  simp only at h2 h3
  exact ⟨hp, h3.trans h2⟩

omit [Arch] in
theorem writeRef_vlen {r : Ref} {x : Nat} {m m' : Mem} {u : Unit} (e : writeRef r x m = some (u, m')) : m'.vlen = m.vlen := by
  unfold writeRef at e
  split at e
  · cases e; rfl
  · cases e

theorem arrayInsert_split {t t' : Arr} {x : Nat} {m m' : Mem} (e : arrayInsert t x m = some (t', m')) :
    ∃ m1, arrayGrow t (sizeT (t.count + 1)) m = some (t', m1) ∧ m'.vlen = m1.vlen := by
  simp only [arrayInsert, StateT.bind, bind] at e
  obtain ⟨⟨t1, m1⟩, e1, e⟩ := Option.bind_eq_some_iff.1 e
  obtain ⟨⟨_, m2⟩, e2, e⟩ := Option.bind_eq_some_iff.1 e
  cases e
  refine ⟨m1, e1, ?_⟩
  simp only [arraySet, StateT.bind, bind] at e2
  obtain ⟨⟨_, m3⟩, e3, e4⟩ := Option.bind_eq_some_iff.1 e2
  obtain ⟨_, rfl⟩ := arrayRef_mem e3
  exact writeRef_vlen e4

theorem Bounded.congr {c : Nat} {m m' : Mem} (h : m'.vlen = m.vlen) (hb : Bounded c m') : Bounded c m := by
  intro vs hv
  have := hb vs hv
  unfold cellCount at this ⊢
  rwa [h] at this

variable {m0 : Mem}

/-- In a memory of 2^64 bytes the calls that return are the ones with the sizes of `fits`. -/
theorem array_legal {s s' : St Arr} {a : Ab} {op : Op} {out : Out} (h : ArrP s.arr s.mem a) (hl : legal (full arrayImpl) a op)
    (e : step (full arrayImpl) op s = some (out, s')) (hb : Bounded ptrSize s'.mem) : legal arrayImpl a op := by
  cases op with
  | grow n =>
    have e : (arrayGrow s.arr n s.mem).map (fun r => ((Out.unit : Out), (⟨r.2, r.1⟩ : St Arr))) = some (out, s') := e
    obtain ⟨⟨t', m'⟩, e1, e2⟩ := Option.map_eq_some_iff.1 e
    cases e2
    exact arrayGrow_fits h e1 hb
  | insert x =>
    refine ⟨rfl, ?_⟩
    have e : (do let r ← arrayInsert s.arr x s.mem; return ((Out.unit : Out), (⟨r.2, r.1⟩ : St Arr)) : Option (Out × St Arr)) = some (out, s') := e
    obtain ⟨⟨t', m'⟩, e1, e2⟩ := Option.bind_eq_some_iff.1 e
    cases e2
    obtain ⟨m1, e3, hv⟩ := arrayInsert_split e1
    have hn : a.size + 1 < 2 ^ sizeBit := hl.2
    have hc : s.arr.count = a.size := by obtain ⟨_, h⟩ := h; exact h.count
    rw [sizeT, Nat.mod_eq_of_lt (by rw [hc]; exact hn), hc] at e3
    exact arrayGrow_fits h e3 (hb.congr hv)
  | _ => exact hl

theorem arrayof_legal {es : Nat} {s s' : St ArrOf} {a : Ab} {op : Op} {out : Out} (hes : 64 * es < 2 ^ sizeBit) (h : ArrOfP es s.arr s.mem a)
    (hl : legal (full (arrayofImpl es)) a op)
    (e : step (full (arrayofImpl es)) op s = some (out, s')) (hb : Bounded 1 s'.mem) : legal (arrayofImpl es) a op := by
  cases op with
  | grow n =>
    have e : (arrayofGrow s.arr n s.mem).map (fun r => ((Out.unit : Out), (⟨r.2, r.1⟩ : St ArrOf))) = some (out, s') := e
    obtain ⟨⟨t', m'⟩, e1, e2⟩ := Option.map_eq_some_iff.1 e
    cases e2
    exact arrayofGrow_fits hes h e1 hb
  | insert x => exact absurd hl.1 (by simp [full, arrayofImpl])
  | _ => exact hl

/-! ## The arrays of blocks

  When the size is over 2^64 - 4096 the number of blocks wraps to 0, and grow() changes only the size: the elements
  are still the ones of an array of `n` elements, with `n` the number of blocks times 4096, and the access to the
  others does not return. -/

/-- What is needed of the two arrays of blocks. `wc t n` is `t` with another size. -/
structure WrapOk {T : Type} (I : Impl T) (P : T → Mem → Ab → Prop) (wc : T → Nat → T) : Prop where
  size : ∀ t n, I.size (wc t n) = n
  twice : ∀ t n k, wc (wc t n) k = wc t k
  self : ∀ t, wc t (I.size t) = t
  ref : ∀ t n pos m, pos < n → pos < I.size t → I.ref (wc t n) pos m = I.ref t pos m
  out : ∀ {t n} {a : Ab} {pos m}, P (wc t n) m { a with size := n } → n % 4096 = 0 → n ≤ pos → I.ref t pos m = none
  same : ∀ t k m, k ≤ I.size t → I.grow t k m = some (t, m)
  grow : ∀ t k m, I.size t < k → 2 ^ sizeBit - 4096 < k → k < 2 ^ sizeBit → I.grow t k m = some (wc t k, m)
  round : ∀ {t m} {a : Ab}, P t m a → ∃ n, n % 4096 = 0 ∧ a.size ≤ n ∧ n + 4096 ≤ 2 ^ sizeBit ∧ P (wc t n) m { a with size := n }
  fits : ∀ n, I.fits n ↔ n + 4096 ≤ 2 ^ sizeBit

/-- The states after the size has passed 2^64 - 4096. -/
structure Wrapped {T : Type} (I : Impl T) (P : T → Mem → Ab → Prop) (wc : T → Nat → T) (t : T) (m : Mem) (a : Ab) (n : Nat) : Prop where
  mod : n % 4096 = 0
  le : n + 4096 ≤ 2 ^ sizeBit
  big : 2 ^ sizeBit - 4096 < a.size
  size : I.size t = a.size
  inv : P (wc t n) m { a with size := n }

section
variable {T : Type} {I : Impl T} {P : T → Mem → Ab → Prop} {adr : T → Mem → Nat → Ref} {wc : T → Nat → T}

omit [Arch] in
theorem readRef_mem {r : Ref} {x : Nat} {m m' : Mem} (e : readRef r m = some (x, m')) : m' = m := by
  unfold readRef at e
  obtain ⟨_, _, h⟩ := Option.map_eq_some_iff.1 e
  cases h; rfl

/-- Below `n` the refs are the ones of the array of `n` elements. -/
theorem Wrapped.ref (ho : ImplOk I P adr) (hw : WrapOk I P wc) {t : T} {m : Mem} {a : Ab} {n pos : Nat} (h : Wrapped I P wc t m a n)
    (hp : pos < n) : I.ref t pos m = I.ref (wc t n) pos m ∧ I.ref t pos m = some (adr (wc t n) m pos, m) := by
  have h1 := hw.ref t n pos m hp (by rw [h.size]; have := h.le; have := h.big; omega)
  have h2 := ho.ref h.inv (pos := pos) hp
  exact ⟨h1.symm, by rw [← h1]; exact h2⟩

theorem Wrapped.inside (hw : WrapOk I P wc) {t : T} {m : Mem} {a : Ab} {n pos : Nat} (h : Wrapped I P wc t m a n)
    {α : Type} {g : Ref → MM α} {r : α × Mem} (e : (do let x ← I.ref t pos; g x : MM α) m = some r) : pos < n := by
  by_contra hp
  have := hw.out h.inv h.mod (Nat.le_of_not_lt hp)
  simp only [StateT.bind, bind, this, Option.bind_none] at e
  cases e

theorem Wrapped.write (ho : ImplOk I P adr) (hw : WrapOk I P wc) {t : T} {m m' : Mem} {a : Ab} {n pos off x : Nat} (h : Wrapped I P wc t m a n)
    (hof : off < I.es) {u : Unit}
    (e : (do let r ← I.ref t pos; writeRef (r.add off) x : MM Unit) m = some (u, m')) :
    Wrapped I P wc t m' { a with val := upd a.val pos (upd (a.val pos) off x) } n := by
  have hp := h.inside hw e
  obtain ⟨m1, e1, h1, _⟩ := step_write ho h.inv (pos := pos) hp hof x
  have hr := (h.ref ho hw hp).1
  simp only [StateT.bind, bind, hr] at e
  simp only [StateT.bind, bind] at e1
  rw [e] at e1
  cases e1
  exact ⟨h.mod, h.le, h.big, h.size, h1⟩

theorem Wrapped.step (ho : ImplOk I P adr) (hw : WrapOk I P wc) {s s' : St T} {a : Ab} {n : Nat} {op : Op} {out : Out}
    (h : Wrapped I P wc s.arr s.mem a n) (hl : legal (full I) a op) (e : step I op s = some (out, s')) :
    Wrapped I P wc s'.arr s'.mem (next a op out) n := by
  have hbig := h.big
  cases op with
  | grow k =>
    have hk : k < 2 ^ sizeBit := hl
    simp only [ArraySpec.step] at e
    by_cases hc : k ≤ a.size
    · rw [hw.same _ _ _ (by rw [h.size]; exact hc)] at e
      cases e
      have : next a (.grow k) .unit = a := by simp only [next, Nat.max_eq_left hc]
      rw [this]; exact h
    · rw [hw.grow _ _ _ (by rw [h.size]; omega) (by omega) hk] at e
      cases e
      have : next a (.grow k) .unit = { a with size := k } := by simp only [next, Nat.max_eq_right (show a.size ≤ k by omega)]
      rw [this]
      exact ⟨h.mod, h.le, by simp only; omega, hw.size _ _, by rw [hw.twice]; exact h.inv⟩
  | size => cases e; exact h
  | refRead pos off =>
    simp only [ArraySpec.step] at e
    obtain ⟨⟨x, m1⟩, e1, e2⟩ := Option.map_eq_some_iff.1 e
    cases e2
    have hp := h.inside hw e1
    simp only [StateT.bind, bind, (h.ref ho hw hp).2, Option.bind_some] at e1
    have := readRef_mem e1
    rw [this]; exact h
  | refWrite pos off x =>
    simp only [ArraySpec.step] at e
    obtain ⟨⟨_, m1⟩, e1, e2⟩ := Option.map_eq_some_iff.1 e
    cases e2
    exact h.write ho hw hl.2 e1
  | set pos x =>
    simp only [ArraySpec.step] at e
    obtain ⟨f, hf, e⟩ := Option.bind_eq_some_iff.1 e
    obtain ⟨⟨_, m1⟩, e1, e2⟩ := Option.bind_eq_some_iff.1 e
    cases e2
    obtain ⟨hes, f1, _, _⟩ := ho.ptr f hf
    rw [f1] at e1
    exact h.write ho hw hes e1
  | get pos =>
    simp only [ArraySpec.step] at e
    obtain ⟨f, hf, e⟩ := Option.bind_eq_some_iff.1 e
    obtain ⟨⟨x, m1⟩, e1, e2⟩ := Option.bind_eq_some_iff.1 e
    cases e2
    obtain ⟨hes, _, f2, _⟩ := ho.ptr f hf
    rw [f2] at e1
    have hp := h.inside hw e1
    simp only [StateT.bind, bind, (h.ref ho hw hp).2, Option.bind_some] at e1
    have := readRef_mem e1
    rw [this]; exact h
  | insert x =>
    exfalso
    simp only [ArraySpec.step] at e
    obtain ⟨f, hf, e⟩ := Option.bind_eq_some_iff.1 e
    obtain ⟨⟨t1, m1⟩, e1, e2⟩ := Option.bind_eq_some_iff.1 e
    obtain ⟨hes, f1, _, f3⟩ := ho.ptr f hf
    have hk : a.size + 1 < 2 ^ sizeBit := hl.2
    rw [f3] at e1
    simp only [StateT.bind, bind, h.size, sizeT, Nat.mod_eq_of_lt hk] at e1
    rw [hw.grow _ _ _ (by rw [h.size]; omega) (by omega) hk] at e1
    simp only [Option.bind_some] at e1
    obtain ⟨r, e3, _⟩ := Option.bind_eq_some_iff.1 e1
    rw [f1] at e3
    have h' : Wrapped I P wc (wc s.arr (a.size + 1)) s.mem { a with size := a.size + 1 } n :=
      ⟨h.mod, h.le, by simp only; omega, hw.size _ _, by rw [hw.twice]; exact h.inv⟩
    have := h'.inside hw e3
    have := h.le
    omega
  | alloc len content =>
    obtain ⟨out', s1, e1, _, h1, _⟩ := step_ok ho ⟨s.mem, wc s.arr n⟩ { a with size := n } (.alloc len content) h.inv trivial
    cases e; cases e1
    exact ⟨h.mod, h.le, h.big, h.size, h1⟩
  | free v =>
    obtain ⟨out', s1, e1, _, h1, _⟩ := step_ok ho ⟨s.mem, wc s.arr n⟩ { a with size := n } (.free v) h.inv hl
    cases e; cases e1
    exact ⟨h.mod, h.le, h.big, h.size, h1⟩
  | write v i x =>
    obtain ⟨out', s1, e1, _, h1, _⟩ := step_ok ho ⟨s.mem, wc s.arr n⟩ { a with size := n } (.write v i x) h.inv hl
    cases e; cases e1
    exact ⟨h.mod, h.le, h.big, h.size, h1⟩

/-- A call in a state where the size has not passed 2^64 - 4096. -/
theorem wrap_step (ho : ImplOk I P adr) (hw : WrapOk I P wc) {s s' : St T} {a : Ab} {op : Op} {out : Out}
    (h : P s.arr s.mem a) (hl : legal (full I) a op) (e : step I op s = some (out, s')) :
    P s'.arr s'.mem (next a op out) ∨ ∃ n, Wrapped I P wc s'.arr s'.mem (next a op out) n := by
  by_cases hf : legal I a op
  · obtain ⟨out', s1, e1, _, h1, _⟩ := step_ok ho s a op h hf
    rw [e] at e1
    cases e1
    exact .inl h1
  · right
    have hsz := ho.size h
    obtain ⟨n, n1, n2, n3, h1⟩ := hw.round h
    cases op with
    | grow k =>
      have hk : k < 2 ^ sizeBit := hl
      have hk2 : ¬ k + 4096 ≤ 2 ^ sizeBit := fun h => hf ((hw.fits k).2 h)
      simp only [step] at e
      rw [hw.grow _ _ _ (by rw [hsz]; omega) (by omega) hk] at e
      cases e
      have : next a (.grow k) .unit = { a with size := k } := by simp only [next, Nat.max_eq_right (show a.size ≤ k by omega)]
      rw [this]
      exact ⟨n, n1, n3, by simp only; omega, hw.size _ _, by rw [hw.twice]; exact h1⟩
    | insert x =>
      exfalso
      have hk : a.size + 1 < 2 ^ sizeBit := hl.2
      have hk2 : ¬ a.size + 1 + 4096 ≤ 2 ^ sizeBit := fun h => hf ⟨hl.1, (hw.fits _).2 h⟩
      simp only [ArraySpec.step] at e
      obtain ⟨f, hf, e⟩ := Option.bind_eq_some_iff.1 e
      obtain ⟨⟨t1, m1⟩, e1, e2⟩ := Option.bind_eq_some_iff.1 e
      obtain ⟨hes, f1, _, f3⟩ := ho.ptr f hf
      rw [f3] at e1
      simp only [StateT.bind, bind, hsz, sizeT, Nat.mod_eq_of_lt hk] at e1
      rw [hw.grow _ _ _ (by rw [hsz]; omega) (by omega) hk] at e1
      simp only [Option.bind_some] at e1
      obtain ⟨r, e3, _⟩ := Option.bind_eq_some_iff.1 e1
      rw [f1] at e3
      have h' : Wrapped I P wc (wc s.arr (a.size + 1)) s.mem { a with size := a.size + 1 } n :=
        ⟨n1, n3, by simp only; omega, hw.size _ _, by rw [hw.twice]; exact h1⟩
      have := h'.inside hw e3
      omega
    | _ => exact absurd hl hf

theorem wrap_reach (ho : ImplOk I P adr) (hw : WrapOk I P wc) {start : MM T} {m0 : Mem}
    (hi : ∀ s a, (sys I start m0).init s a → P s.arr s.mem a) {s : St T} {a : Ab} (hr : (sys (full I) start m0).Reach s a) :
    P s.arr s.mem a ∨ ∃ n, Wrapped I P wc s.arr s.mem a n := by
  induction hr with
  | init h => exact .inl (hi _ _ h)
  | step _ hl e ih =>
    rcases ih with h | ⟨n, h⟩
    · exact wrap_step ho hw h hl e
    · exact .inr ⟨n, h.step ho hw hl e⟩
end

theorem arrayGet_out {t : Arr} {pos : Nat} {m : Mem} (h : t.count ≤ pos) : arrayGet t pos m = none := by
  have : ¬ pos < t.count := by omega
  simp only [arrayGet, arrayRef, assertM, StateT.bind, bind, if_neg this, Option.bind_none]

theorem arrayblk_wrap : WrapOk arrayblkImpl ArrBlkP (fun t n => { t with count := n }) where
  size _ _ := rfl
  twice _ _ _ := rfl
  self _ := rfl
  ref t n pos m h1 h2 := by
    have h2 : pos < t.count := h2
    simp only [arrayblkImpl, arrayblkRef, assertM, StateT.bind, bind, if_pos h1, if_pos h2]
  out := by
    intro t n a pos m h h1 h2
    have hb : t.block.count = (n + 4095) / 4096 := h.blocks
    have hg : arrayGet t.block (pos / arrayblkSIZE) m = none := arrayGet_out (by
      show t.block.count ≤ pos / 4096
      omega)
    by_cases hp : pos < t.count
    · simp only [arrayblkImpl, arrayblkRef, assertM, StateT.bind, bind, if_pos hp, Option.bind_some, hg, Option.bind_none]
    · simp only [arrayblkImpl, arrayblkRef, assertM, StateT.bind, bind, if_neg hp, Option.bind_none]
  same t k m h := by
    have h : k ≤ t.count := h
    simp only [arrayblkImpl, arrayblkGrow, ge_iff_le, h, if_true]; rfl
  grow t k m h1 h2 h3 := by
    have h1 : ¬ k ≤ t.count := Nat.not_le.2 h1
    have hw : decT (sizeT (k + arrayblkSIZE)) / arrayblkSIZE = 0 := by
      unfold sizeT decT arrayblkSIZE
      have : (k + 4 * 1024) % 2 ^ sizeBit = k + 4096 - 2 ^ sizeBit := by arch
      rw [this, if_neg (by omega)]
      omega
    simp only [arrayblkImpl, arrayblkGrow, ge_iff_le, h1, if_false, hw, Nat.not_lt_zero]
    rfl
  round := by
    intro t m a h
    have hb := h.blocks
    have hs := h.small
    refine ⟨t.block.count * 4096, by omega, by omega, by arch, ?_⟩
    obtain ⟨bv, b⟩ := h.inv
    exact ⟨⟨bv, b.inner, b.le, b.len, b.inj, b.cell, fun p o hp => b.zero p o (by simp only at hp; omega), b.sep⟩, rfl,
      by simp only; omega, by simp only; arch⟩
  fits _ := Iff.rfl

theorem arrayblkof_wrap (es : Nat) : WrapOk (arrayblkofImpl es) (ArrBlkOfP es) (fun t n => { t with count := n }) where
  size _ _ := rfl
  twice _ _ _ := rfl
  self _ := rfl
  ref t n pos m h1 h2 := by
    have h2 : pos < t.count := h2
    simp only [arrayblkofImpl, arrayblkofRef, assertM, StateT.bind, bind, if_pos h1, if_pos h2]
  out := by
    intro t n a pos m h h1 h2
    have hb : t.block.count = (n + 4095) / 4096 := h.blocks
    have hg : arrayGet t.block (pos / arrayblkofSIZE) m = none := arrayGet_out (by
      show t.block.count ≤ pos / 4096
      omega)
    by_cases hp : pos < t.count
    · simp only [arrayblkofImpl, arrayblkofRef, assertM, StateT.bind, bind, if_pos hp, Option.bind_some, hg, Option.bind_none]
    · simp only [arrayblkofImpl, arrayblkofRef, assertM, StateT.bind, bind, if_neg hp, Option.bind_none]
  same t k m h := by
    have h : k ≤ t.count := h
    simp only [arrayblkofImpl, arrayblkofGrow, ge_iff_le, h, if_true]; rfl
  grow t k m h1 h2 h3 := by
    have h1 : ¬ k ≤ t.count := Nat.not_le.2 h1
    have hw : decT (sizeT (k + arrayblkofSIZE)) / arrayblkofSIZE = 0 := by
      unfold sizeT decT arrayblkofSIZE
      have : (k + 4 * 1024) % 2 ^ sizeBit = k + 4096 - 2 ^ sizeBit := by arch
      rw [this, if_neg (by omega)]
      omega
    simp only [arrayblkofImpl, arrayblkofGrow, ge_iff_le, h1, if_false, hw, Nat.not_lt_zero]
    rfl
  round := by
    intro t m a h
    have hb := h.blocks
    have hs := h.small
    refine ⟨t.block.count * 4096, by omega, by omega, by arch, ?_⟩
    obtain ⟨bv, b⟩ := h.inv
    exact ⟨⟨bv, b.inner, b.le, b.len, b.inj, b.cell, fun p o hp => b.zero p o (by simp only at hp; omega), b.sep⟩, rfl,
      by simp only; omega, by simp only; arch, h.esz, h.fit⟩
  fits _ := Iff.rfl

/-! ### tommy_arrayblkof with blocks of 2^64 bytes or more: no block is ever allocated -/

structure NoBlocks (es : Nat) (t : ArrBlkOf) (m : Mem) (a : Ab) : Prop where
  inv : ∃ vs, ArrInv t.block m ⟨0, fun _ _ => 0, a.other⟩ vs
  count : t.count = a.size
  esz : t.elementSize = es

theorem NoBlocks.empty {es : Nat} {t : ArrBlkOf} {m : Mem} {a : Ab} (h : NoBlocks es t m a) : t.block.count = 0 := by
  obtain ⟨vs, h⟩ := h.inv
  exact h.count

theorem NoBlocks.ref {es : Nat} {t : ArrBlkOf} {m : Mem} {a : Ab} (h : NoBlocks es t m a) (pos : Nat) : arrayblkofRef t pos m = none := by
  have hg : arrayGet t.block (pos / arrayblkofSIZE) m = none := arrayGet_out (by rw [h.empty]; exact Nat.zero_le _)
  by_cases hp : pos < t.count
  · simp only [arrayblkofRef, assertM, StateT.bind, bind, if_pos hp, Option.bind_some, hg, Option.bind_none]
  · simp only [arrayblkofRef, assertM, StateT.bind, bind, if_neg hp, Option.bind_none]

theorem NoBlocks.step {es : Nat} (hes : 2 ^ sizeBit ≤ 4096 * es) {s s' : St ArrBlkOf} {a : Ab} {op : Op} {out : Out}
    (h : NoBlocks es s.arr s.mem a) (hl : legal (full (arrayblkofImpl es)) a op) (e : step (arrayblkofImpl es) op s = some (out, s')) :
    NoBlocks es s'.arr s'.mem (next a op out) := by
  cases op with
  | grow k =>
    have hk : k < 2 ^ sizeBit := hl
    have e : (arrayblkofGrow s.arr k s.mem).map (fun r => ((Out.unit : Out), (⟨r.2, r.1⟩ : St ArrBlkOf))) = some (out, s') := e
    obtain ⟨⟨t', m'⟩, e1, e2⟩ := Option.map_eq_some_iff.1 e
    cases e2
    by_cases hc : k ≤ a.size
    · rw [arrayblkofGrow, if_pos (by rw [h.count]; exact hc)] at e1
      cases e1
      have : next a (.grow k) .unit = a := by simp only [next, Nat.max_eq_left hc]
      rw [this]; exact h
    · have hnx : next a (.grow k) .unit = { a with size := k } := by simp only [next, Nat.max_eq_right (show a.size ≤ k by omega)]
      rw [hnx]
      by_cases hw : 2 ^ sizeBit - 4096 < k
      · have := (arrayblkof_wrap es).grow s.arr k s.mem (by
          show s.arr.count < k
          rw [h.count]; omega) hw hk
        have e1 : (arrayblkofImpl es).grow s.arr k s.mem = some (t', m') := e1
        rw [this] at e1
        cases e1
        exact ⟨h.inv, rfl, h.esz⟩
      · exfalso
        rw [arrayblkofGrow, if_neg (by rw [h.count]; exact hc)] at e1
        have hB := arrayblkof_blockMax (show k + 4096 ≤ 2 ^ sizeBit by omega)
        have h0 := h.empty
        simp only [hB, arraySize, h0] at e1
        rw [if_pos (by omega)] at e1
        simp only [StateT.bind, bind] at e1
        obtain ⟨⟨b, m1⟩, _, e2⟩ := Option.bind_eq_some_iff.1 e1
        obtain ⟨⟨_, m2⟩, e3, _⟩ := Option.bind_eq_some_iff.1 e2
        rw [arrayblkofGrowLoop, if_pos (by omega)] at e3
        have hz : bcalloc arrayblkofSIZE s.arr.elementSize m1 = none := by
          unfold bcalloc
          rw [h.esz, if_neg (by show ¬ 4096 * es < 2 ^ sizeBit; omega)]
        simp only [StateT.bind, bind, hz, Option.bind_none] at e3
        cases e3
  | size => cases e; exact h
  | refRead pos off =>
    simp only [ArraySpec.step] at e
    obtain ⟨_, e1, _⟩ := Option.map_eq_some_iff.1 e
    have : (arrayblkofImpl es).ref s.arr pos s.mem = none := h.ref pos
    simp only [StateT.bind, bind, this, Option.bind_none] at e1
    cases e1
  | refWrite pos off x =>
    simp only [ArraySpec.step] at e
    obtain ⟨_, e1, _⟩ := Option.map_eq_some_iff.1 e
    have : (arrayblkofImpl es).ref s.arr pos s.mem = none := h.ref pos
    simp only [StateT.bind, bind, this, Option.bind_none] at e1
    cases e1
  | set pos x => exact absurd hl.1 (by simp [full, arrayblkofImpl])
  | get pos => exact absurd hl.1 (by simp [full, arrayblkofImpl])
  | insert x => exact absurd hl.1 (by simp [full, arrayblkofImpl])
  | alloc len content =>
    obtain ⟨out', s1, e1, _, h1, _⟩ := step_ok array_ok ⟨s.mem, s.arr.block⟩ ⟨0, fun _ _ => 0, a.other⟩ (.alloc len content) h.inv trivial
    cases e; cases e1
    exact ⟨h1, h.count, h.esz⟩
  | free v =>
    obtain ⟨out', s1, e1, _, h1, _⟩ := step_ok array_ok ⟨s.mem, s.arr.block⟩ ⟨0, fun _ _ => 0, a.other⟩ (.free v) h.inv hl
    cases e; cases e1
    exact ⟨h1, h.count, h.esz⟩
  | write v i x =>
    obtain ⟨out', s1, e1, _, h1, _⟩ := step_ok array_ok ⟨s.mem, s.arr.block⟩ ⟨0, fun _ _ => 0, a.other⟩ (.write v i x) h.inv hl
    cases e; cases e1
    exact ⟨h1, h.count, h.esz⟩

theorem noBlocks_reach {es : Nat} (hes : 2 ^ sizeBit ≤ 4096 * es) {m0 : Mem} {s : St ArrBlkOf} {a : Ab}
    (hr : (sys (full (arrayblkofImpl es)) (arrayblkofInit es) m0).Reach s a) : NoBlocks es s.arr s.mem a := by
  induction hr with
  | init h =>
    obtain ⟨h0, e, h1, h2, h3⟩ := h
    rename_i s a
    obtain ⟨t, m, vs, e', h'⟩ := arrayInit_run h0 a h1 h2 h3
    simp only [arrayblkofInit, StateT.bind, bind, e', Option.bind_some, pure, StateT.pure, Option.some.injEq, Prod.mk.injEq] at e
    obtain ⟨e1, e2⟩ := e
    refine ⟨⟨vs, ?_⟩, by rw [← e1, h1], by rw [← e1]⟩
    have ha : (⟨0, fun _ _ => 0, a.other⟩ : Ab) = a := by
      cases a; simp only at h1 h2; rw [h1, h2]
    rw [← e1, ← e2, ha]
    exact h'
  | step _ hl e ih => exact ih.step hes hl e

/-- The array of the blocks is empty: done() frees only its first segment. -/
theorem NoBlocks.done {es : Nat} {t : ArrBlkOf} {m : Mem} {a : Ab} (h : NoBlocks es t m a) :
    ∃ m', arrayblkofDone t m = some ((), m') ∧ Untouched a.other m m' ∧ ∀ v, m'.vlen v ≠ none ↔ a.other v = true := by
  obtain ⟨vs, hi⟩ := h.inv
  obtain ⟨m', e, b1, b2, b3, b4⟩ := arrayDone_run hi
  have c := hi.seg.core
  refine ⟨m', ?_, ⟨b1, fun v hv => ⟨?_, by rw [b2]⟩⟩, fun v => ?_⟩
  · have hl : arrayblkofDoneLoop t 0 m = some ((), m) := by
      rw [arrayblkofDoneLoop, if_neg (by rw [arraySize, h.empty]; exact Nat.lt_irrefl 0)]; rfl
    simp only [arrayblkofDone, StateT.bind, bind, hl, Option.bind_some, e]
  · rw [b4 v (fun ho => by have := c.sep v ho; simp only at this; rw [hv] at this; cases this)]
  · by_cases ho : sown t.block.bucketBit vs v
    · have := c.sep v ho
      simp only at this
      rw [b3 v ho]; simp [this]
    · rw [b4 v ho, c.live]; simp [ho]

omit [Arch] in
/-- The bytes of the live vectors, if they are all below `k`. -/
theorem cellCount_le (m : Mem) (k : Nat) (h : ∀ v, k ≤ v → m.vlen v = none) (vs : List Nat) (hn : vs.Nodup) :
    cellCount m vs ≤ cellCount m (List.range k) := by
  have h1 : cellCount m vs = cellCount m (vs.filter (fun v => decide (v < k))) := by
    clear hn
    induction vs with
    | nil => rfl
    | cons v l ih =>
      unfold cellCount at ih ⊢
      by_cases hv : v < k
      · simp only [List.filter_cons, hv, decide_true, if_true, List.map_cons, List.sum_cons, ih]
      · simp only [List.filter_cons, hv, decide_false, Bool.false_eq_true, if_false, List.map_cons, List.sum_cons, ih,
          h v (by omega), Option.getD_none, Nat.zero_add]
  rw [h1]
  have hs : (vs.filter (fun v => decide (v < k))).Subperm (List.range k) := by
    apply List.subperm_of_subset (hn.filter _)
    intro v hv
    rw [List.mem_filter] at hv
    rw [List.mem_range]
    exact of_decide_eq_true hv.2
  obtain ⟨l, hp, hl⟩ := hs
  unfold cellCount
  rw [← (hp.map _).sum_eq]
  exact (hl.map _).sum_le_sum (fun _ _ => Nat.zero_le _)

end ArraySpec
end Tommy
