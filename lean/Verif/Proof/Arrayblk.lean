import Verif.Proof.BlkInv
/-! tommy_arrayblk and tommy_arrayblkof. -/
set_option linter.unusedSimpArgs false
set_option maxRecDepth 4000
namespace Tommy

variable [Arch]
namespace ArraySpec

omit [Arch] in
theorem lt_blocks {p n : Nat} (h : p < n) : p < (n + 4095) / 4096 * 4096 := by omega

theorem blocks_own {es : Nat} {blk : Arr} {mac : Nat} {m : Mem} {a : Ab} {bv : Nat → Nat} {vs1 : List Nat}
    (b : BlkInv es blk mac m a bv) (o : OwnVecs (bother mac bv a.other) m vs1) :
    OwnVecs a.other m (vs1 ++ (List.range mac).map bv) := by
  refine ⟨?_, fun v => ?_⟩
  · rw [List.nodup_append]
    refine ⟨o.nodup, ?_, ?_⟩
    · rw [List.nodup_iff_pairwise_ne, List.pairwise_map]
      refine (List.pairwise_lt_range (n := mac)).imp_of_mem ?_
      intro x y hx hy hxy e
      rw [List.mem_range] at hx hy
      have := b.inj x y hx hy e
      omega
    · intro v hv w hw e
      subst e
      rw [List.mem_map] at hw
      obtain ⟨i, hi, rfl⟩ := hw
      rw [List.mem_range] at hi
      have := ((o.mem _).1 hv).1
      rw [bother_block hi] at this; cases this
  · rw [List.mem_append, o.mem, bother_false, List.mem_map]
    simp only [List.mem_range]
    constructor
    · rintro (h | ⟨i, hi, rfl⟩)
      · exact ⟨h.1.1, h.2⟩
      · exact ⟨b.sep i hi, by rw [b.len i hi]; simp⟩
    · rintro ⟨h1, h2⟩
      by_cases h : ∃ i, i < mac ∧ bv i = v
      · exact .inr h
      · exact .inl ⟨⟨h1, h⟩, h2⟩

theorem blocks_cells {es : Nat} {blk : Arr} {mac : Nat} {m : Mem} {a : Ab} {bv : Nat → Nat}
    (b : BlkInv es blk mac m a bv) : cellCount m ((List.range mac).map bv) = mac * 4096 * es := by
  unfold cellCount
  have : ((List.range mac).map bv).map (fun v => (m.vlen v).getD 0) = (List.range mac).map (fun _ => 4096 * es) := by
    rw [List.map_map]
    apply List.map_congr_left
    intro i hi
    rw [List.mem_range] at hi
    simp [b.len i hi]
  rw [this, List.map_const', List.sum_replicate_nat, List.length_range, Nat.mul_assoc]

/-! ## tommy_arrayblk -/

structure ArrBlkP (t : ArrBlk) (m : Mem) (a : Ab) : Prop where
  inv : ∃ bv, BlkInv 1 t.block t.block.count m a bv
  count : t.count = a.size
  blocks : t.block.count = (a.size + 4095) / 4096
  small : a.size + 4096 ≤ 2 ^ sizeBit

theorem arrayblkInit_run {m0 : Mem} (h0 : StartOk m0) (a : Ab) (hs : a.size = 0) (hv : a.val = fun _ _ => 0)
    (ho : a.other = fun v => (m0.vlen v).isSome) :
    ∃ t m, arrayblkInit m0 = some (t, m) ∧ ArrBlkP t m a := by
  obtain ⟨t, m, vs, e, h⟩ := arrayInit_run h0 a hs hv ho
  have hc : t.count = 0 := by rw [h.count, hs]
  refine ⟨⟨t, 0⟩, m, by simp only [arrayblkInit, StateT.bind, bind, e, Option.bind_some, pure, StateT.pure],
    ⟨⟨fun _ => 0, ⟨vs, ?_⟩, Nat.le_refl _, ?_, ?_, ?_, ?_, ?_⟩, by rw [hs], by rw [hc, hs], by rw [hs]; arch⟩⟩
  · have : (⟨t.count, bval t.count (fun _ => 0), bother t.count (fun _ => 0) a.other⟩ : Ab) = a := by
      cases a
      simp only at hs hv
      subst hs; subst hv
      rw [hc]
      congr
      · funext v; simp [bother]
    rw [this]; exact h
  · intro i hi; simp only [hc] at hi; omega
  · intro i j hi; simp only [hc] at hi; omega
  · intro pos off hp; simp only [hc] at hp; omega
  · intro pos off _; rw [hv]
  · intro i hi; simp only [hc] at hi; omega

theorem arrayblkGrowLoop_run (n : Nat) : ∀ d (t : ArrBlk) (mac : Nat) (m : Mem) (a : Ab) (bv : Nat → Nat), mac + d = n →
    BlkInv 1 t.block mac m a bv → t.block.count = n → a.size ≤ mac * 4096 →
    ∃ m' bv', arrayblkGrowLoop t mac n m = some ((), m') ∧ BlkInv 1 t.block n m' a bv' ∧ Untouched a.other m m' ∧
      ∀ i, i < mac → bv' i = bv i := by
  intro d
  induction d with
  | zero =>
    intro t mac m a bv hd b hn hs
    have : mac = n := by omega
    subst this
    refine ⟨m, bv, ?_, b, ⟨rfl, fun _ _ => ⟨rfl, rfl⟩⟩, fun _ _ => rfl⟩
    rw [arrayblkGrowLoop, if_neg (by omega)]; rfl
  | succ d ih =>
    intro t mac m a bv hd b hn hs
    obtain ⟨m1, m2, e1, e2, b2, u2⟩ := b.push (by omega) hs
    have hs2 : a.size ≤ (mac + 1) * 4096 := Nat.le_trans hs (Nat.mul_le_mul_right 4096 (Nat.le_succ mac))
    obtain ⟨m', bv', e', b', u', hb'⟩ := ih t (mac + 1) m2 a _ (by omega) b2 hn hs2
    refine ⟨m', bv', ?_, b', ?_, fun i hi => ?_⟩
    · rw [arrayblkGrowLoop, if_pos (by omega)]
      have hc : pcalloc arrayblkSIZE m = some (⟨m.vnext, 0⟩, m1) := by
        rw [← e1]; exact if_pos (by simp only [arrayblkSIZE]; arch)
      simp only [StateT.bind, bind, hc, Option.bind_some, refToPtr, if_true, e2]
      exact e'
    · exact ⟨u'.1.trans u2.1, fun v hv => ⟨((u'.2 v hv).1).trans (u2.2 v hv).1, ((u'.2 v hv).2).trans (u2.2 v hv).2⟩⟩
    · rw [hb' i (by omega), upd_ne (by omega)]

theorem arrayblk_blockMax {n : Nat} (h : n + 4096 ≤ 2 ^ sizeBit) :
    decT (sizeT (n + arrayblkSIZE)) / arrayblkSIZE = (n + 4095) / 4096 := by
  have e : decT (sizeT (n + arrayblkSIZE)) = n + 4095 := by
    unfold decT sizeT arrayblkSIZE
    by_cases h1 : n + 4 * 1024 = 2 ^ sizeBit
    · rw [h1]; rw [if_pos (Nat.mod_self _)]; omega
    · rw [Nat.mod_eq_of_lt (by omega), if_neg (by omega)]; omega
  rw [e]; rfl

theorem arrayblkGrow_run {t : ArrBlk} {m : Mem} {a : Ab} {n : Nat} (h : ArrBlkP t m a) (hf : fitsBlk n) :
    ∃ t' m', arrayblkGrow t n m = some (t', m') ∧ ArrBlkP t' m' { a with size := max a.size n } ∧
      Untouched a.other m m' ∧ ∀ pos, pos < a.size → blkAddr 1 t'.block m' pos = blkAddr 1 t.block m pos := by
  by_cases hc : t.count ≥ n
  · refine ⟨t, m, ?_, ?_, ⟨rfl, fun _ _ => ⟨rfl, rfl⟩⟩, fun _ _ => rfl⟩
    · rw [arrayblkGrow, if_pos hc]; rfl
    · rw [Nat.max_eq_left (by rw [← h.count]; exact hc)]; exact h
  · have hcs := h.count
    have hbl := h.blocks
    have hmx : max a.size n = n := Nat.max_eq_right (by omega)
    have hB := arrayblk_blockMax hf
    unfold fitsBlk at hf
    obtain ⟨bv, b⟩ := h.inv
    by_cases hg : t.block.count < (n + 4095) / 4096
    · obtain ⟨blk', m1, e1, hc1, b1, u1⟩ := b.growInner (Nat.le_of_lt hg) (fitsSeg_blocks (by arch))
      obtain ⟨m2, bv', e2, b2, u2, hb2⟩ := arrayblkGrowLoop_run ((n + 4095) / 4096) _ { t with block := blk', count := n }
        t.block.count m1 a bv (Nat.add_sub_of_le (Nat.le_of_lt hg)) b1 hc1 (by omega)
      refine ⟨{ t with block := blk', count := n }, m2, ?_, ⟨⟨bv', ?_⟩, ?_, ?_, ?_⟩, ?_, fun pos hp => ?_⟩
      · rw [arrayblkGrow, if_neg hc]
        have hg' : arraySize ({ t with count := n } : ArrBlk).block < decT (sizeT (n + arrayblkSIZE)) / arrayblkSIZE := by rw [hB]; exact hg
        dsimp only
        rw [if_pos hg', hB]
        simp only [arraySize, StateT.bind, bind, e1, e2, Option.bind_some, pure, StateT.pure]
      · simp only; rw [hc1]
        exact ⟨b2.inner, b2.le, b2.len, b2.inj, b2.cell, fun p o hp => b2.zero p o (by simp only at hp; omega), b2.sep⟩
      · simp only; rw [hmx]
      · simp only; rw [hc1, hmx]
      · simp only; rw [hmx]; exact hf
      · exact ⟨u2.1.trans u1.1, fun v hv => ⟨((u2.2 v hv).1).trans (u1.2 v hv).1, ((u2.2 v hv).2).trans (u1.2 v hv).2⟩⟩
      · have hp1 : pos < t.block.count * 4096 := by rw [hbl]; exact lt_blocks hp
        have hp2 : pos < (n + 4095) / 4096 * 4096 := lt_blocks (Nat.lt_trans hp (show a.size < n by omega))
        simp only
        rw [b.addr_eq hp1, b2.addr_eq hp2]
        simp only [baddr, hb2 (pos / 4096) (by omega)]
    · refine ⟨{ t with count := n }, m, ?_, ⟨⟨bv, ?_⟩, ?_, ?_, ?_⟩, ⟨rfl, fun _ _ => ⟨rfl, rfl⟩⟩, fun pos hp => rfl⟩
      · rw [arrayblkGrow, if_neg hc]
        have hg' : ¬ arraySize ({ t with count := n } : ArrBlk).block < decT (sizeT (n + arrayblkSIZE)) / arrayblkSIZE := by rw [hB]; exact hg
        dsimp only
        rw [if_neg hg']; rfl
      · exact ⟨b.inner, b.le, b.len, b.inj, b.cell, fun p o hp => b.zero p o (by simp only at hp; omega), b.sep⟩
      · simp only; rw [hmx]
      · simp only; rw [hmx, hbl]; omega
      · simp only; rw [hmx]; exact hf

theorem arrayblkRef_run {t : ArrBlk} {m : Mem} {a : Ab} (h : ArrBlkP t m a) {pos : Nat} (hp : pos < a.size) :
    arrayblkRef t pos m = some (blkAddr 1 t.block m pos, m) := by
  obtain ⟨bv, b⟩ := h.inv
  have hbl := h.blocks
  have hi : pos / 4096 < t.block.count := by omega
  have ha : assertM (pos < t.count) m = some ((), m) := by
    unfold assertM; rw [if_pos (by rw [h.count]; exact hp)]
  have hs : arrayblkSIZE = 4096 := rfl
  rw [b.addr_eq (by omega)]
  simp only [arrayblkRef, hs, StateT.bind, bind, ha, Option.bind_some, (b.blockCell hi).2, ptrToRef, if_neg (Nat.succ_ne_zero _),
    Nat.add_sub_cancel, pure, StateT.pure, Ref.add, baddr, Int.zero_add, Nat.mul_one]

def arrayblkAddr (t : ArrBlk) (m : Mem) : Nat → Ref := blkAddr 1 t.block m

theorem arrayblk_ok : ImplOk arrayblkImpl (ArrBlkP) (arrayblkAddr) where
  size := fun h => h.count
  core := by
    intro t m a h
    obtain ⟨bv, b⟩ := h.inv
    have hbl := h.blocks
    have c := b.core
    refine ⟨t.block.count * 4096, (fun v => m.vlen v ≠ none ∧ a.other v = false), by omega, ?_⟩
    refine ⟨fun pos off hp ho => ?_, fun p o p' o' hp ho hp' ho' he => ?_, fun pos hp => ?_, c.zero, c.live, c.sep, c.fresh⟩
    · simp only [arrayblkAddr]; rw [b.addr_eq hp]; exact c.cell pos off hp ho
    · simp only [arrayblkAddr] at he; rw [b.addr_eq hp, b.addr_eq hp'] at he; exact c.inj p o p' o' hp ho hp' ho' he
    · simp only [arrayblkAddr]; rw [b.addr_eq hp]; exact c.vec pos hp
  ref := fun h hp => arrayblkRef_run h hp
  write := by
    intro t m m' a pos off x h hp ho e
    obtain ⟨bv, b⟩ := h.inv
    have hbl := h.blocks
    simp only [arrayblkAddr] at e ⊢
    rw [b.addr_eq (by omega)] at e
    have b' := b.write (by omega) hp ho e
    exact ⟨⟨⟨bv, b'⟩, h.count, h.blocks, h.small⟩, fun p hp => by rw [b.addr_eq (by omega), b'.addr_eq (by omega)]⟩
  env := by
    intro t m m' a other' h h1 h2 h3
    obtain ⟨bv, b⟩ := h.inv
    have hbl := h.blocks
    have b' := b.env h1 h2 h3
    exact ⟨⟨⟨bv, b'⟩, h.count, h.blocks, h.small⟩, fun p hp => by
      simp only [arrayblkAddr]; rw [b.addr_eq (by omega), b'.addr_eq (by omega)]⟩
  grow := fun h hf => arrayblkGrow_run h hf
  ptr := by
    intro f hf
    simp only [arrayblkImpl, Option.some.injEq] at hf
    subst hf
    refine ⟨Nat.one_pos, fun t pos x => ?_, fun t pos => ?_, fun t x => rfl⟩
    · show arrayblkSet t pos x = _
      unfold arrayblkSet; simp only [Ref.add_zero]; rfl
    · show arrayblkGet t pos = _
      unfold arrayblkGet; simp only [Ref.add_zero]; rfl
  fits := by
    intro n h
    have h : n + 4096 ≤ 2 ^ sizeBit := h
    omega

theorem arrayblkDoneLoop_run (t : ArrBlk) (val : Nat → Nat → Nat) (other : Nat → Bool) (bv vs : Nat → Nat)
    (hval : ∀ i, i < t.block.count → val i 0 = bv i + 1)
    (hinj : ∀ i j, i < t.block.count → j < t.block.count → bv i = bv j → i = j)
    (hsep : ∀ i, i < t.block.count → other (bv i) = false) : ∀ d i m, i + d = t.block.count →
    ArrInv t.block m ⟨t.block.count, val, dother i t.block.count bv other⟩ vs →
    ∃ m', arrayblkDoneLoop t i m = some ((), m') ∧ ArrInv t.block m' ⟨t.block.count, val, other⟩ vs ∧ m'.heap = m.heap ∧
      m'.vcell = m.vcell ∧ ∀ v, other v = true → m'.vlen v = m.vlen v := by
  intro d
  induction d with
  | zero =>
    intro i m hi h
    refine ⟨m, ?_, ?_, rfl, rfl, fun _ _ => rfl⟩
    · rw [arrayblkDoneLoop, if_neg (by simp only [arraySize]; omega)]; rfl
    · have : dother i t.block.count bv other = other := by
        funext v
        simp only [dother, Bool.or_eq_left_iff_imp, decide_eq_true_eq]
        rintro ⟨j, h1, h2, _⟩; omega
      rw [this] at h; exact h
  | succ d ih =>
    intro i m hi h
    have hlt : i < t.block.count := by omega
    have hv : dother i t.block.count bv other (bv i) = true := by
      simp only [dother, Bool.or_eq_true, decide_eq_true_eq]; exact .inr ⟨i, hlt, Nat.le_refl _, rfl⟩
    obtain ⟨e1, h1⟩ := free_block h hv
    have hd : upd (dother i t.block.count bv other) (bv i) false = dother (i + 1) t.block.count bv other := by
      funext v
      by_cases hve : v = bv i
      · subst hve
        rw [upd_same]; symm
        simp only [dother, Bool.or_eq_false_iff, decide_eq_false_iff_not]
        refine ⟨hsep i hlt, ?_⟩
        rintro ⟨j, a1, a2, a3⟩
        have := hinj j i a1 hlt a3; omega
      · rw [upd_ne hve]
        simp only [dother]
        congr 1
        rw [decide_eq_decide]
        constructor
        · rintro ⟨j, a1, a2, a3⟩
          refine ⟨j, a1, ?_, a3⟩
          by_cases hji : j = i
          · subst hji; exact absurd a3.symm hve
          · omega
        · rintro ⟨j, a1, a2, a3⟩; exact ⟨j, a1, by omega, a3⟩
    rw [hd] at h1
    obtain ⟨m', e', h', hh, hc, hl⟩ := ih (i + 1) _ (by omega) h1
    refine ⟨m', ?_, h', by rw [hh], by rw [hc], fun v hv => ?_⟩
    · rw [arrayblkDoneLoop, if_pos (show i < arraySize t.block from hlt)]
      have hget := arrayGet_run ⟨vs, h⟩ hlt
      simp only [hval i hlt] at hget
      simp only [StateT.bind, bind, hget, Option.bind_some, ptrToRef, if_neg (Nat.succ_ne_zero _), Nat.add_sub_cancel, e1]
      exact e'
    · rw [hl v hv]; simp only
      rw [upd_ne]
      rintro rfl; rw [hsep i hlt] at hv; cases hv

theorem arrayblkDone_run {t : ArrBlk} {m : Mem} {a : Ab} (h : ArrBlkP t m a) :
    ∃ m', arrayblkDone t m = some ((), m') ∧ Untouched a.other m m' ∧ ∀ v, m'.vlen v ≠ none ↔ a.other v = true := by
  obtain ⟨bv, b⟩ := h.inv
  obtain ⟨vs, hi⟩ := b.inner
  obtain ⟨m1, e1, h1, a1, a2, a3⟩ := arrayblkDoneLoop_run t (bval t.block.count bv) a.other bv vs
    (fun i h => by simp [bval, h]) b.inj b.sep _ 0 m (Nat.zero_add _) (by
      have : dother 0 t.block.count bv a.other = bother t.block.count bv a.other := by
        funext v; simp [dother, bother]
      rw [this]; exact hi)
  obtain ⟨m', e2, b1, b2, b3, b4⟩ := arrayDone_run h1
  have c := h1.seg.core
  refine ⟨m', by simp only [arrayblkDone, StateT.bind, bind, e1, Option.bind_some, e2], ⟨by rw [b1, a1], fun v hv => ⟨?_, by rw [b2, a2]⟩⟩,
    fun v => ?_⟩
  · rw [b4 v (fun ho => by have := c.sep v ho; simp only at this; rw [hv] at this; cases this), a3 v hv]
  · by_cases ho : sown t.block.bucketBit vs v
    · rw [b3 v ho]; have := c.sep v ho; simp only at this; simp [this]
    · rw [b4 v ho, c.live]; simp [ho]

theorem arrayblk_own {t : ArrBlk} {m : Mem} {a : Ab} (h : ArrBlkP t m a) : ∃ vs1 vs2, OwnVecs a.other m (vs1 ++ vs2) ∧
    cellCount m vs1 = 2 ^ t.block.bucketBit ∧ cellCount m vs2 = t.block.count * 4096 * 1 ∧
    t.block.bucketMax = 2 ^ t.block.bucketBit ∧ (t.block.bucketBit = 6 ∨ 2 ^ (t.block.bucketBit - 1) < t.block.count) := by
  obtain ⟨bv, b⟩ := h.inv
  obtain ⟨vs, hi⟩ := b.inner
  obtain ⟨o, hc⟩ := array_own hi
  refine ⟨_, _, blocks_own b o, by rw [hc, Nat.mul_one], blocks_cells b, hi.max, hi.tight⟩


/-! ## tommy_arrayblkof -/

structure ArrBlkOfP (es : Nat) (t : ArrBlkOf) (m : Mem) (a : Ab) : Prop where
  inv : ∃ bv, BlkInv es t.block t.block.count m a bv
  count : t.count = a.size
  blocks : t.block.count = (a.size + 4095) / 4096
  small : a.size + 4096 ≤ 2 ^ sizeBit
  esz : t.elementSize = es
  fit : 4096 * es < 2 ^ sizeBit

theorem arrayblkofInit_run {m0 : Mem} {es : Nat} (hes : 4096 * es < 2 ^ sizeBit) (h0 : StartOk m0) (a : Ab) (hs : a.size = 0) (hv : a.val = fun _ _ => 0)
    (ho : a.other = fun v => (m0.vlen v).isSome) :
    ∃ t m, arrayblkofInit es m0 = some (t, m) ∧ ArrBlkOfP es t m a := by
  obtain ⟨t, m, vs, e, h⟩ := arrayInit_run h0 a hs hv ho
  have hc : t.count = 0 := by rw [h.count, hs]
  refine ⟨⟨t, es, 0⟩, m, by simp only [arrayblkofInit, StateT.bind, bind, e, Option.bind_some, pure, StateT.pure],
    ⟨⟨fun _ => 0, ⟨vs, ?_⟩, Nat.le_refl _, ?_, ?_, ?_, ?_, ?_⟩, by rw [hs], by rw [hc, hs], by rw [hs]; arch, rfl, hes⟩⟩
  · have : (⟨t.count, bval t.count (fun _ => 0), bother t.count (fun _ => 0) a.other⟩ : Ab) = a := by
      cases a
      simp only at hs hv
      subst hs; subst hv
      rw [hc]
      congr
      · funext v; simp [bother]
    rw [this]; exact h
  · intro i hi; simp only [hc] at hi; omega
  · intro i j hi; simp only [hc] at hi; omega
  · intro pos off hp; simp only [hc] at hp; omega
  · intro pos off _; rw [hv]
  · intro i hi; simp only [hc] at hi; omega

theorem arrayblkofGrowLoop_run {es : Nat} (n : Nat) : ∀ d (t : ArrBlkOf) (mac : Nat) (m : Mem) (a : Ab) (bv : Nat → Nat), mac + d = n →
    BlkInv es t.block mac m a bv → t.block.count = n → a.size ≤ mac * 4096 → t.elementSize = es → 4096 * es < 2 ^ sizeBit →
    ∃ m' bv', arrayblkofGrowLoop t mac n m = some ((), m') ∧ BlkInv es t.block n m' a bv' ∧ Untouched a.other m m' ∧
      ∀ i, i < mac → bv' i = bv i := by
  intro d
  induction d with
  | zero =>
    intro t mac m a bv hd b hn hs hes hfit
    have : mac = n := by omega
    subst this
    refine ⟨m, bv, ?_, b, ⟨rfl, fun _ _ => ⟨rfl, rfl⟩⟩, fun _ _ => rfl⟩
    rw [arrayblkofGrowLoop, if_neg (by omega)]; rfl
  | succ d ih =>
    intro t mac m a bv hd b hn hs hes hfit
    obtain ⟨m1, m2, e1, e2, b2, u2⟩ := b.push (by omega) hs
    have hs2 : a.size ≤ (mac + 1) * 4096 := Nat.le_trans hs (Nat.mul_le_mul_right 4096 (Nat.le_succ mac))
    obtain ⟨m', bv', e', b', u', hb'⟩ := ih t (mac + 1) m2 a _ (by omega) b2 hn hs2 hes hfit
    refine ⟨m', bv', ?_, b', ?_, fun i hi => ?_⟩
    · rw [arrayblkofGrowLoop, if_pos (by omega)]
      have hc : bcalloc arrayblkofSIZE t.elementSize m = some (⟨m.vnext, 0⟩, m1) := by
        rw [hes]; unfold bcalloc; rw [if_pos (by exact hfit), ← e1]; rfl
      simp only [StateT.bind, bind, hc, Option.bind_some, refToPtr, if_true, e2]
      exact e'
    · exact ⟨u'.1.trans u2.1, fun v hv => ⟨((u'.2 v hv).1).trans (u2.2 v hv).1, ((u'.2 v hv).2).trans (u2.2 v hv).2⟩⟩
    · rw [hb' i (by omega), upd_ne (by omega)]

theorem arrayblkof_blockMax {n : Nat} (h : n + 4096 ≤ 2 ^ sizeBit) :
    decT (sizeT (n + arrayblkofSIZE)) / arrayblkofSIZE = (n + 4095) / 4096 := by
  have e : decT (sizeT (n + arrayblkofSIZE)) = n + 4095 := by
    unfold decT sizeT arrayblkofSIZE
    by_cases h1 : n + 4 * 1024 = 2 ^ sizeBit
    · rw [h1]; rw [if_pos (Nat.mod_self _)]; omega
    · rw [Nat.mod_eq_of_lt (by omega), if_neg (by omega)]; omega
  rw [e]; rfl

theorem arrayblkofGrow_run {es : Nat} {t : ArrBlkOf} {m : Mem} {a : Ab} {n : Nat} (h : ArrBlkOfP es t m a) (hf : fitsBlk n) :
    ∃ t' m', arrayblkofGrow t n m = some (t', m') ∧ ArrBlkOfP es t' m' { a with size := max a.size n } ∧
      Untouched a.other m m' ∧ ∀ pos, pos < a.size → blkAddr es t'.block m' pos = blkAddr es t.block m pos := by
  by_cases hc : t.count ≥ n
  · refine ⟨t, m, ?_, ?_, ⟨rfl, fun _ _ => ⟨rfl, rfl⟩⟩, fun _ _ => rfl⟩
    · rw [arrayblkofGrow, if_pos hc]; rfl
    · rw [Nat.max_eq_left (by rw [← h.count]; exact hc)]; exact h
  · have hcs := h.count
    have hbl := h.blocks
    have hmx : max a.size n = n := Nat.max_eq_right (by omega)
    have hB := arrayblkof_blockMax hf
    unfold fitsBlk at hf
    obtain ⟨bv, b⟩ := h.inv
    by_cases hg : t.block.count < (n + 4095) / 4096
    · obtain ⟨blk', m1, e1, hc1, b1, u1⟩ := b.growInner (Nat.le_of_lt hg) (fitsSeg_blocks (by arch))
      obtain ⟨m2, bv', e2, b2, u2, hb2⟩ := arrayblkofGrowLoop_run ((n + 4095) / 4096) _ { t with block := blk', count := n }
        t.block.count m1 a bv (Nat.add_sub_of_le (Nat.le_of_lt hg)) b1 hc1 (by omega) h.esz h.fit
      refine ⟨{ t with block := blk', count := n }, m2, ?_, ⟨⟨bv', ?_⟩, ?_, ?_, ?_, h.esz, h.fit⟩, ?_, fun pos hp => ?_⟩
      · rw [arrayblkofGrow, if_neg hc]
        have hg' : arraySize ({ t with count := n } : ArrBlkOf).block < decT (sizeT (n + arrayblkofSIZE)) / arrayblkofSIZE := by rw [hB]; exact hg
        dsimp only
        rw [if_pos hg', hB]
        simp only [arraySize, StateT.bind, bind, e1, e2, Option.bind_some, pure, StateT.pure]
      · simp only; rw [hc1]
        exact ⟨b2.inner, b2.le, b2.len, b2.inj, b2.cell, fun p o hp => b2.zero p o (by simp only at hp; omega), b2.sep⟩
      · simp only; rw [hmx]
      · simp only; rw [hc1, hmx]
      · simp only; rw [hmx]; exact hf
      · exact ⟨u2.1.trans u1.1, fun v hv => ⟨((u2.2 v hv).1).trans (u1.2 v hv).1, ((u2.2 v hv).2).trans (u1.2 v hv).2⟩⟩
      · have hp1 : pos < t.block.count * 4096 := by rw [hbl]; exact lt_blocks hp
        have hp2 : pos < (n + 4095) / 4096 * 4096 := lt_blocks (Nat.lt_trans hp (show a.size < n by omega))
        simp only
        rw [b.addr_eq hp1, b2.addr_eq hp2]
        simp only [baddr, hb2 (pos / 4096) (by omega)]
    · refine ⟨{ t with count := n }, m, ?_, ⟨⟨bv, ?_⟩, ?_, ?_, ?_, h.esz, h.fit⟩, ⟨rfl, fun _ _ => ⟨rfl, rfl⟩⟩, fun pos hp => rfl⟩
      · rw [arrayblkofGrow, if_neg hc]
        have hg' : ¬ arraySize ({ t with count := n } : ArrBlkOf).block < decT (sizeT (n + arrayblkofSIZE)) / arrayblkofSIZE := by rw [hB]; exact hg
        dsimp only
        rw [if_neg hg']; rfl
      · exact ⟨b.inner, b.le, b.len, b.inj, b.cell, fun p o hp => b.zero p o (by simp only at hp; omega), b.sep⟩
      · simp only; rw [hmx]
      · simp only; rw [hmx, hbl]; omega
      · simp only; rw [hmx]; exact hf

theorem arrayblkofRef_run {es : Nat} {t : ArrBlkOf} {m : Mem} {a : Ab} (h : ArrBlkOfP es t m a) {pos : Nat} (hp : pos < a.size) :
    arrayblkofRef t pos m = some (blkAddr es t.block m pos, m) := by
  obtain ⟨bv, b⟩ := h.inv
  have hbl := h.blocks
  have hi : pos / 4096 < t.block.count := by omega
  have ha : assertM (pos < t.count) m = some ((), m) := by
    unfold assertM; rw [if_pos (by rw [h.count]; exact hp)]
  have hs : arrayblkofSIZE = 4096 := rfl
  rw [b.addr_eq (by omega)]
  have hx : sizeT (pos % 4096 * es) = pos % 4096 * es := by
    apply Nat.mod_eq_of_lt
    have h1 := h.fit
    have h2 : pos % 4096 * es ≤ 4096 * es := Nat.mul_le_mul_right _ (by omega)
    omega
  simp only [arrayblkofRef, hs, StateT.bind, bind, ha, Option.bind_some, (b.blockCell hi).2, ptrToRef, if_neg (Nat.succ_ne_zero _),
    Nat.add_sub_cancel, pure, StateT.pure, Ref.add, baddr, Int.zero_add, Nat.mul_one, h.esz, hx]

def arrayblkofAddr (es : Nat) (t : ArrBlkOf) (m : Mem) : Nat → Ref := blkAddr es t.block m

theorem arrayblkof_ok (es : Nat) : ImplOk (arrayblkofImpl es) (ArrBlkOfP es) (arrayblkofAddr es) where
  size := fun h => h.count
  core := by
    intro t m a h
    obtain ⟨bv, b⟩ := h.inv
    have hbl := h.blocks
    have c := b.core
    refine ⟨t.block.count * 4096, (fun v => m.vlen v ≠ none ∧ a.other v = false), by omega, ?_⟩
    refine ⟨fun pos off hp ho => ?_, fun p o p' o' hp ho hp' ho' he => ?_, fun pos hp => ?_, c.zero, c.live, c.sep, c.fresh⟩
    · simp only [arrayblkofAddr]; rw [b.addr_eq hp]; exact c.cell pos off hp ho
    · simp only [arrayblkofAddr] at he; rw [b.addr_eq hp, b.addr_eq hp'] at he; exact c.inj p o p' o' hp ho hp' ho' he
    · simp only [arrayblkofAddr]; rw [b.addr_eq hp]; exact c.vec pos hp
  ref := fun h hp => arrayblkofRef_run h hp
  write := by
    intro t m m' a pos off x h hp ho e
    obtain ⟨bv, b⟩ := h.inv
    have hbl := h.blocks
    simp only [arrayblkofAddr] at e ⊢
    rw [b.addr_eq (by omega)] at e
    have b' := b.write (by omega) hp ho e
    exact ⟨⟨⟨bv, b'⟩, h.count, h.blocks, h.small, h.esz, h.fit⟩, fun p hp => by rw [b.addr_eq (by omega), b'.addr_eq (by omega)]⟩
  env := by
    intro t m m' a other' h h1 h2 h3
    obtain ⟨bv, b⟩ := h.inv
    have hbl := h.blocks
    have b' := b.env h1 h2 h3
    exact ⟨⟨⟨bv, b'⟩, h.count, h.blocks, h.small, h.esz, h.fit⟩, fun p hp => by
      simp only [arrayblkofAddr]; rw [b.addr_eq (by omega), b'.addr_eq (by omega)]⟩
  grow := fun h hf => arrayblkofGrow_run h hf
  ptr := by
    intro f hf
    simp [arrayblkofImpl] at hf
  fits := by
    intro n h
    have h : n + 4096 ≤ 2 ^ sizeBit := h
    omega

theorem arrayblkofDoneLoop_run (t : ArrBlkOf) (val : Nat → Nat → Nat) (other : Nat → Bool) (bv vs : Nat → Nat)
    (hval : ∀ i, i < t.block.count → val i 0 = bv i + 1)
    (hinj : ∀ i j, i < t.block.count → j < t.block.count → bv i = bv j → i = j)
    (hsep : ∀ i, i < t.block.count → other (bv i) = false) : ∀ d i m, i + d = t.block.count →
    ArrInv t.block m ⟨t.block.count, val, dother i t.block.count bv other⟩ vs →
    ∃ m', arrayblkofDoneLoop t i m = some ((), m') ∧ ArrInv t.block m' ⟨t.block.count, val, other⟩ vs ∧ m'.heap = m.heap ∧
      m'.vcell = m.vcell ∧ ∀ v, other v = true → m'.vlen v = m.vlen v := by
  intro d
  induction d with
  | zero =>
    intro i m hi h
    refine ⟨m, ?_, ?_, rfl, rfl, fun _ _ => rfl⟩
    · rw [arrayblkofDoneLoop, if_neg (by simp only [arraySize]; omega)]; rfl
    · have : dother i t.block.count bv other = other := by
        funext v
        simp only [dother, Bool.or_eq_left_iff_imp, decide_eq_true_eq]
        rintro ⟨j, h1, h2, _⟩; omega
      rw [this] at h; exact h
  | succ d ih =>
    intro i m hi h
    have hlt : i < t.block.count := by omega
    have hv : dother i t.block.count bv other (bv i) = true := by
      simp only [dother, Bool.or_eq_true, decide_eq_true_eq]; exact .inr ⟨i, hlt, Nat.le_refl _, rfl⟩
    obtain ⟨e1, h1⟩ := free_block h hv
    have hd : upd (dother i t.block.count bv other) (bv i) false = dother (i + 1) t.block.count bv other := by
      funext v
      by_cases hve : v = bv i
      · subst hve
        rw [upd_same]; symm
        simp only [dother, Bool.or_eq_false_iff, decide_eq_false_iff_not]
        refine ⟨hsep i hlt, ?_⟩
        rintro ⟨j, a1, a2, a3⟩
        have := hinj j i a1 hlt a3; omega
      · rw [upd_ne hve]
        simp only [dother]
        congr 1
        rw [decide_eq_decide]
        constructor
        · rintro ⟨j, a1, a2, a3⟩
          refine ⟨j, a1, ?_, a3⟩
          by_cases hji : j = i
          · subst hji; exact absurd a3.symm hve
          · omega
        · rintro ⟨j, a1, a2, a3⟩; exact ⟨j, a1, by omega, a3⟩
    rw [hd] at h1
    obtain ⟨m', e', h', hh, hc, hl⟩ := ih (i + 1) _ (by omega) h1
    refine ⟨m', ?_, h', by rw [hh], by rw [hc], fun v hv => ?_⟩
    · rw [arrayblkofDoneLoop, if_pos (show i < arraySize t.block from hlt)]
      have hget := arrayGet_run ⟨vs, h⟩ hlt
      simp only [hval i hlt] at hget
      simp only [StateT.bind, bind, hget, Option.bind_some, ptrToRef, if_neg (Nat.succ_ne_zero _), Nat.add_sub_cancel, e1]
      exact e'
    · rw [hl v hv]; simp only
      rw [upd_ne]
      rintro rfl; rw [hsep i hlt] at hv; cases hv

theorem arrayblkofDone_run {es : Nat} {t : ArrBlkOf} {m : Mem} {a : Ab} (h : ArrBlkOfP es t m a) :
    ∃ m', arrayblkofDone t m = some ((), m') ∧ Untouched a.other m m' ∧ ∀ v, m'.vlen v ≠ none ↔ a.other v = true := by
  obtain ⟨bv, b⟩ := h.inv
  obtain ⟨vs, hi⟩ := b.inner
  obtain ⟨m1, e1, h1, a1, a2, a3⟩ := arrayblkofDoneLoop_run t (bval t.block.count bv) a.other bv vs
    (fun i h => by simp [bval, h]) b.inj b.sep _ 0 m (Nat.zero_add _) (by
      have : dother 0 t.block.count bv a.other = bother t.block.count bv a.other := by
        funext v; simp [dother, bother]
      rw [this]; exact hi)
  obtain ⟨m', e2, b1, b2, b3, b4⟩ := arrayDone_run h1
  have c := h1.seg.core
  refine ⟨m', by simp only [arrayblkofDone, StateT.bind, bind, e1, Option.bind_some, e2], ⟨by rw [b1, a1], fun v hv => ⟨?_, by rw [b2, a2]⟩⟩,
    fun v => ?_⟩
  · rw [b4 v (fun ho => by have := c.sep v ho; simp only at this; rw [hv] at this; cases this), a3 v hv]
  · by_cases ho : sown t.block.bucketBit vs v
    · rw [b3 v ho]; have := c.sep v ho; simp only at this; simp [this]
    · rw [b4 v ho, c.live]; simp [ho]

theorem arrayblkof_own {es : Nat} {t : ArrBlkOf} {m : Mem} {a : Ab} (h : ArrBlkOfP es t m a) : ∃ vs1 vs2, OwnVecs a.other m (vs1 ++ vs2) ∧
    cellCount m vs1 = 2 ^ t.block.bucketBit ∧ cellCount m vs2 = t.block.count * 4096 * es ∧
    t.block.bucketMax = 2 ^ t.block.bucketBit ∧ (t.block.bucketBit = 6 ∨ 2 ^ (t.block.bucketBit - 1) < t.block.count) := by
  obtain ⟨bv, b⟩ := h.inv
  obtain ⟨vs, hi⟩ := b.inner
  obtain ⟨o, hc⟩ := array_own hi
  refine ⟨_, _, blocks_own b o, by rw [hc, Nat.mul_one], blocks_cells b, hi.max, hi.tight⟩

end ArraySpec
end Tommy
