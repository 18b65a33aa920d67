import Verif.Proof.Array
/-! The blocks of tommy_arrayblk and tommy_arrayblkof. -/
set_option linter.unusedSimpArgs false
namespace Tommy

variable [Arch]
namespace ArraySpec

/-- The content of the array of the blocks: the first `mac` blocks are set. -/
def bval (mac : Nat) (bv : Nat → Nat) (i o : Nat) : Nat := if i < mac ∧ o = 0 then bv i + 1 else 0

/-- The rest of the program, as seen by the array of the blocks. -/
def bother (mac : Nat) (bv : Nat → Nat) (other : Nat → Bool) (v : Nat) : Bool :=
  other v || decide (∃ i, i < mac ∧ bv i = v)

def baddr (es : Nat) (bv : Nat → Nat) (pos : Nat) : Ref := ⟨bv (pos / 4096), ((pos % 4096 * es : Nat) : Int)⟩

structure BlkInv (es : Nat) (blk : Arr) (mac : Nat) (m : Mem) (a : Ab) (bv : Nat → Nat) : Prop where
  inner : ArrP blk m ⟨blk.count, bval mac bv, bother mac bv a.other⟩
  le : mac ≤ blk.count
  len : ∀ i, i < mac → m.vlen (bv i) = some (4096 * es)
  inj : ∀ i j, i < mac → j < mac → bv i = bv j → i = j
  cell : ∀ pos off, pos < mac * 4096 → off < es → m.cell? ((baddr es bv pos).add off) = some (a.val pos off)
  zero : ∀ pos off, a.size ≤ pos → a.val pos off = 0
  sep : ∀ i, i < mac → a.other (bv i) = false

variable {es : Nat} {blk : Arr} {mac : Nat} {m : Mem} {a : Ab} {bv : Nat → Nat}

omit [Arch] in
theorem bother_block {other : Nat → Bool} {i : Nat} (h : i < mac) : bother mac bv other (bv i) = true := by
  simp only [bother, Bool.or_eq_true, decide_eq_true_eq]; exact .inr ⟨i, h, rfl⟩

omit [Arch] in
theorem bother_other {other : Nat → Bool} {v : Nat} (h : other v = true) : bother mac bv other v = true := by
  simp [bother, h]

omit [Arch] in
theorem bother_false {other : Nat → Bool} {v : Nat} :
    bother mac bv other v = false ↔ other v = false ∧ ¬ ∃ i, i < mac ∧ bv i = v := by
  simp only [bother, Bool.or_eq_false_iff, decide_eq_false_iff_not]

omit [Arch] in
theorem bother_eq {other : Nat → Bool} {v : Nat} (h : ¬ ∃ i, i < mac ∧ bv i = v) : bother mac bv other v = other v := by
  simp [bother, h]

theorem BlkInv.fresh (b : BlkInv es blk mac m a bv) : m.FreshOk := by
  obtain ⟨vs, h⟩ := b.inner
  exact h.seg.core.fresh

theorem BlkInv.otherLive (b : BlkInv es blk mac m a bv) {v : Nat} (h : bother mac bv a.other v = true) : m.vlen v ≠ none := by
  obtain ⟨vs, hi⟩ := b.inner
  exact (hi.seg.core.live v).2 (.inr h)

theorem BlkInv.core (b : BlkInv es blk mac m a bv) :
    Core es a m (mac * 4096) (baddr es bv) (fun v => m.vlen v ≠ none ∧ a.other v = false) := by
  refine ⟨b.cell, ?_, ?_, b.zero, ?_, fun v h => h.2, b.fresh⟩
  · intro p o p' o' hp ho hp' ho' h
    simp only [baddr, Ref.add, Ref.mk.injEq] at h
    have h1 := b.inj _ _ (show p / 4096 < mac by omega) (show p' / 4096 < mac by omega) h.1
    have h2 := mul_add_inj ho ho' (show p % 4096 * es + o = p' % 4096 * es + o' by omega)
    omega
  · intro pos hp
    have hm : pos / 4096 < mac := by omega
    refine ⟨?_, b.sep _ hm⟩
    simp only [baddr]; rw [b.len _ hm]; simp
  · intro v
    constructor
    · intro h
      cases ho : a.other v with
      | true => exact .inr rfl
      | false => exact .inl ⟨h, rfl⟩
    · rintro (h | h)
      · exact h.1
      · exact b.otherLive (bother_other h)

/-- Reading the pointer of a block. -/
theorem BlkInv.blockCell (b : BlkInv es blk mac m a bv) {i : Nat} (h : i < mac) :
    m.cell? (segAddr 1 blk.bucket i) = some (bv i + 1) ∧ arrayGet blk i m = some (bv i + 1, m) := by
  obtain ⟨cap, own, hcap, c⟩ := array_ok.core b.inner
  have hle := b.le
  simp only at hcap
  have h1 := c.cell i 0 (by omega) (Nat.one_pos)
  rw [Ref.add_zero] at h1
  simp only [bval, h, and_self, if_true] at h1
  refine ⟨h1, ?_⟩
  have h2 := array_ok.ref b.inner (show i < blk.count by omega)
  change arrayRef blk i m = _ at h2
  simp only [arrayGet, StateT.bind, bind, h2, Option.bind_some, readRef_run h1]

theorem BlkInv.env (b : BlkInv es blk mac m a bv) {m' : Mem} {other' : Nat → Bool}
    (h1 : ∀ v, a.other v = false → m.vlen v ≠ none → m'.vlen v = m.vlen v ∧ m'.vcell v = m.vcell v ∧ other' v = false)
    (h2 : ∀ v, (a.other v = true ∨ m.vlen v = none) → (m'.vlen v ≠ none ↔ other' v = true)) (h3 : m'.FreshOk) :
    BlkInv es blk mac m' { a with other := other' } bv := by
  have hb : ∀ i, i < mac → m'.vlen (bv i) = m.vlen (bv i) ∧ m'.vcell (bv i) = m.vcell (bv i) ∧ other' (bv i) = false :=
    fun i hi => h1 _ (b.sep i hi) (by rw [b.len i hi]; simp)
  refine ⟨?_, b.le, fun i hi => by rw [(hb i hi).1]; exact b.len i hi, b.inj, ?_, b.zero, fun i hi => (hb i hi).2.2⟩
  · refine (array_ok.env (other' := bother mac bv other') b.inner ?_ ?_ h3).1
    · intro v hv hl
      simp only [bother_false] at hv ⊢
      have := h1 v hv.1 hl
      exact ⟨this.1, this.2.1, this.2.2, hv.2⟩
    · intro v hv
      by_cases hex : ∃ i, i < mac ∧ bv i = v
      · obtain ⟨i, hi, rfl⟩ := hex
        rw [bother_block hi, (hb i hi).1, b.len i hi]; simp
      · simp only [bother_eq hex] at hv ⊢
        exact h2 v hv
  · intro pos off hp ho
    have := hb (pos / 4096) (by omega)
    rw [cell_congr (m := m) (r := (baddr es bv pos).add off) this.1 this.2.1]
    exact b.cell pos off hp ho

theorem BlkInv.write (b : BlkInv es blk mac m a bv) {m' : Mem} {pos off x : Nat} (hp : pos < mac * 4096) (hs : pos < a.size)
    (ho : off < es) (e : writeRef ((baddr es bv pos).add off) x m = some ((), m')) :
    BlkInv es blk mac m' { a with val := upd a.val pos (upd (a.val pos) off x) } bv := by
  obtain ⟨m1, e1, c, hh, hl, hn, hc⟩ := b.core.write hp hs ho x
  rw [e] at e1
  simp only [Option.some.injEq, Prod.mk.injEq, true_and] at e1
  subst e1
  refine ⟨?_, b.le, fun i hi => by rw [hl]; exact b.len i hi, b.inj, c.cell, c.zero, b.sep⟩
  refine (array_ok.env (other' := bother mac bv a.other) b.inner ?_ ?_ c.fresh).1
  · intro v hv hlv
    refine ⟨by rw [hl], hc v ?_, hv⟩
    rintro rfl
    simp only [baddr] at hv
    rw [bother_block (by omega)] at hv; cases hv
  · intro v hv
    rw [hl]
    rcases hv with hv | hv
    · simp only at hv; rw [hv]; simpa using b.otherLive hv
    · constructor
      · intro h; exact absurd hv h
      · intro h; exact b.otherLive h

/-- The array of the blocks grows. -/
theorem BlkInv.growInner (b : BlkInv es blk mac m a bv) {n : Nat} (hn : blk.count ≤ n) (hf : fitsSeg ptrSize n) :
    ∃ blk' m', arrayGrow blk n m = some (blk', m') ∧ blk'.count = n ∧ BlkInv es blk' mac m' a bv ∧ Untouched a.other m m' := by
  obtain ⟨blk', m', e, h', u, _⟩ := array_ok.grow b.inner hf
  have hc : blk'.count = n := by
    have := array_ok.size h'
    change blk'.count = _ at this
    rw [this]; exact Nat.max_eq_right hn
  have hle := b.le
  refine ⟨blk', m', e, hc, ⟨?_, by omega, ?_, b.inj, ?_, b.zero, b.sep⟩, u.1, fun v hv => u.2 v (bother_other hv)⟩
  · rw [hc]; simp only [Nat.max_eq_right hn] at h'; exact h'
  · intro i hi; rw [(u.2 _ (bother_block hi)).1]; exact b.len i hi
  · intro pos off hp ho
    have := u.2 (bv (pos / 4096)) (bother_block (by omega))
    rw [cell_congr (m := m) (r := (baddr es bv pos).add off) this.1 this.2]
    exact b.cell pos off hp ho

/-- A new block. -/
theorem BlkInv.push (b : BlkInv es blk mac m a bv) (hm : mac < blk.count) (hs : a.size ≤ mac * 4096) :
    ∃ m1 m', vcalloc (4096 * es) m = some (⟨m.vnext, 0⟩, m1) ∧ arraySet blk mac (m.vnext + 1) m1 = some ((), m') ∧
      BlkInv es blk (mac + 1) m' a (upd bv mac m.vnext) ∧ Untouched a.other m m' := by
  have hnew := b.core.notNew
  have hf := b.fresh
  have hnone := hf m.vnext (Nat.le_refl _)
  have hne : ∀ i, i < mac → bv i ≠ m.vnext := fun i hi e => by
    have := b.len i hi
    rw [e, hnone] at this; cases this
  have hup : ∀ i, i < mac → upd bv mac m.vnext i = bv i := fun i hi => upd_ne (by omega)
  have hbo : ∀ v, v ≠ m.vnext → bother (mac + 1) (upd bv mac m.vnext) a.other v = bother mac bv a.other v := by
    intro v hv
    unfold bother
    congr 1
    rw [decide_eq_decide]
    constructor
    · rintro ⟨i, hi, e⟩
      by_cases h : i = mac
      · subst h; rw [upd_same] at e; exact absurd e.symm hv
      · exact ⟨i, by omega, by rw [← e, hup i (by omega)]⟩
    · rintro ⟨i, hi, e⟩
      exact ⟨i, by omega, by rw [hup i hi, e]⟩
  have hbn : bother (mac + 1) (upd bv mac m.vnext) a.other m.vnext = true := by
    have := bother_block (bv := upd bv mac m.vnext) (other := a.other) (show mac < mac + 1 by omega)
    rwa [upd_same] at this
  generalize hm1 : ({ m with vlen := upd m.vlen m.vnext (some (4096 * es)), vcell := upd m.vcell m.vnext (fun _ => some 0)
                             vnext := m.vnext + 1 } : Mem) = m1
  have hl1 : ∀ v, v ≠ m.vnext → m1.vlen v = m.vlen v ∧ m1.vcell v = m.vcell v := fun v hv => by
    subst hm1; simp only; rw [upd_ne hv, upd_ne hv]; exact ⟨rfl, rfl⟩
  have hl2 : m1.vlen m.vnext = some (4096 * es) ∧ m1.vcell m.vnext = fun _ => some 0 := by
    subst hm1; simp only; rw [upd_same, upd_same]; exact ⟨rfl, rfl⟩
  have env := (array_ok.env (m' := m1) (other' := bother (mac + 1) (upd bv mac m.vnext) a.other) b.inner (by
    intro v hv hlv
    have hvn : v ≠ m.vnext := by rintro rfl; exact hlv hnone
    refine ⟨(hl1 v hvn).1, (hl1 v hvn).2, ?_⟩
    rw [hbo v hvn]; exact hv) (by
    intro v hv
    by_cases hvn : v = m.vnext
    · subst hvn; rw [hbn, hl2.1]; simp
    · rw [hbo v hvn, (hl1 v hvn).1]
      rcases hv with hv | hv
      · simp only at hv; rw [hv]; simpa using b.otherLive hv
      · constructor
        · intro h; exact absurd hv h
        · intro h; exact b.otherLive h) (by
    intro v hv
    subst hm1
    simp only at hv ⊢
    rw [upd_ne (by omega)]; exact hf v (by omega))).1
  obtain ⟨m', e, hP, u, _⟩ := step_write array_ok env (pos := mac) (off := 0) hm (Nat.one_pos) (m.vnext + 1)
  obtain ⟨-, hset, -, -⟩ := array_ok.ptr _ rfl
  have hset := hset blk mac (m.vnext + 1)
  simp only at hset
  rw [← hset] at e
  simp only at u
  have hu : ∀ v, bother mac bv a.other v = true → m'.vlen v = m.vlen v ∧ m'.vcell v = m.vcell v := by
    intro v hv
    have hvn : v ≠ m.vnext := by rintro rfl; exact absurd hnone (b.otherLive hv)
    have h1 := u.2 v (by rw [hbo v hvn]; exact hv)
    exact ⟨h1.1.trans (hl1 v hvn).1, h1.2.trans (hl1 v hvn).2⟩
  have hun := u.2 m.vnext hbn
  refine ⟨m1, m', by rw [← hm1]; rfl, e, ⟨?_, hm, ?_, ?_, ?_, b.zero, ?_⟩, ?_, ?_⟩
  · have hval : upd (bval mac bv) mac (upd (bval mac bv mac) 0 (m.vnext + 1)) = bval (mac + 1) (upd bv mac m.vnext) := by
      funext i o
      by_cases hi : i = mac
      · subst hi
        rw [upd_same]
        by_cases ho : o = 0
        · subst ho; rw [upd_same]; simp [bval]
        · rw [upd_ne ho]; simp [bval, ho]
      · rw [upd_ne hi]
        unfold bval
        rw [upd_ne hi]
        have : i < mac + 1 ↔ i < mac := by omega
        simp only [this]
    simp only at hP
    rw [hval] at hP
    exact hP
  · intro i hi
    by_cases h : i = mac
    · subst h; rw [upd_same, hun.1]; exact hl2.1
    · rw [hup i (by omega), (hu _ (bother_block (show i < mac by omega))).1]; exact b.len i (by omega)
  · intro i j hi hj e
    by_cases h : i = mac
    · subst h
      by_cases h' : j = i
      · exact h'.symm
      · rw [upd_same, hup j (by omega)] at e; exact absurd e.symm (hne j (by omega))
    · by_cases h' : j = mac
      · subst h'
        rw [upd_same, hup i (by omega)] at e; exact absurd e (hne i (by omega))
      · rw [hup i (by omega), hup j (by omega)] at e; exact b.inj i j (by omega) (by omega) e
  · intro pos off hp ho
    by_cases h : pos / 4096 = mac
    · have hv : (baddr es (upd bv mac m.vnext) pos) = ⟨m.vnext, ((pos % 4096 * es : Nat) : Int)⟩ := by
        simp only [baddr, h, upd_same]
      rw [hv, b.zero pos off (by omega)]
      have := mul_add_lt (show pos % 4096 < 4096 by omega) ho
      refine cell_eq (n := 4096 * es) (by simp only [Ref.add]; rw [hun.1]; exact hl2.1) (by simp only [Ref.add]; omega) ?_
      simp only [Ref.add]; rw [hun.2, hl2.2]
    · have h1 : pos / 4096 < mac := by omega
      have hp' : pos < mac * 4096 := by clear * - h1; omega
      have hv : (baddr es (upd bv mac m.vnext) pos) = baddr es bv pos := by
        simp only [baddr, hup _ h1]
      have := hu (bv (pos / 4096)) (bother_block h1)
      rw [hv, cell_congr (m := m) (r := (baddr es bv pos).add off) this.1 this.2]
      exact b.cell pos off hp' ho
  · intro i hi
    by_cases h : i = mac
    · subst h; rw [upd_same]; exact hnew.2
    · rw [hup i (by omega)]; exact b.sep i (by omega)
  · rw [u.1, ← hm1]
  · intro v hv; exact hu v (bother_other hv)

/-- The address computed by ref, from the memory. -/
def blkAddr (es : Nat) (blk : Arr) (m : Mem) (pos : Nat) : Ref :=
  ⟨(m.cell? (segAddr 1 blk.bucket (pos / 4096))).getD 0 - 1, ((pos % 4096 * es : Nat) : Int)⟩

theorem BlkInv.addr_eq (b : BlkInv es blk mac m a bv) {pos : Nat} (h : pos < mac * 4096) :
    blkAddr es blk m pos = baddr es bv pos := by
  unfold blkAddr
  rw [(b.blockCell (show pos / 4096 < mac by omega)).1]
  simp [baddr]

theorem fitsSeg_blocks {n : Nat} (h : n ≤ 2 ^ (sizeBit - 12)) : fitsSeg ptrSize n := ⟨sizeBit - 12, by arch, by arch, h, by arch⟩

/-- Freeing a block: the array of the blocks does not change. -/
theorem free_block {blk : Arr} {m : Mem} {size : Nat} {val : Nat → Nat → Nat} {o : Nat → Bool} {v : Nat} {vs : Nat → Nat}
    (h : ArrInv blk m ⟨size, val, o⟩ vs) (hv : o v = true) :
    vfree ⟨v, 0⟩ m = some ((), { m with vlen := upd m.vlen v none }) ∧
      ArrInv blk { m with vlen := upd m.vlen v none } ⟨size, val, upd o v false⟩ vs := by
  have hl : (m.vlen v).isSome := by
    have := (h.seg.core.live v).2 (.inr hv)
    cases hc : m.vlen v with
    | none => exact absurd hc this
    | some n => rfl
  refine ⟨vfree_run hl, h.seg.env (other' := upd o v false) ?_ ?_ ?_, h.max, h.count, h.le, h.tight⟩
  · intro w ho hw
    have hne : w ≠ v := by rintro rfl; simp only at ho; rw [hv] at ho; cases ho
    simp only; rw [upd_ne hne, upd_ne hne]; exact ⟨rfl, trivial, ho⟩
  · intro w hw
    simp only
    by_cases hne : w = v
    · subst hne; simp
    · rw [upd_ne hne, upd_ne hne, h.seg.core.live]
      rcases hw with hw | hw
      · simp only at hw; simp [hw]
      · constructor
        · rintro (h1 | h1)
          · exact absurd hw (own_notOther h.seg.core w h1).2
          · exact h1
        · exact .inr
  · intro w hw
    simp only at hw ⊢
    by_cases hne : w = v
    · subst hne; simp
    · rw [upd_ne hne]; exact h.seg.core.fresh w hw

/-- After freeing the first `i` blocks. -/
def dother (i n : Nat) (bv : Nat → Nat) (other : Nat → Bool) (v : Nat) : Bool :=
  other v || decide (∃ j, j < n ∧ i ≤ j ∧ bv j = v)

theorem arrayGet_run {blk : Arr} {m : Mem} {a : Ab} (h : ArrP blk m a) {i : Nat} (hi : i < a.size) :
    arrayGet blk i m = some (a.val i 0, m) := by
  obtain ⟨cap, own, hcap, c⟩ := array_ok.core h
  have h1 := c.cell i 0 (by omega) (Nat.one_pos)
  rw [Ref.add_zero] at h1
  have h2 := array_ok.ref h hi
  change arrayRef blk i m = _ at h2
  simp only [arrayGet, StateT.bind, bind, h2, Option.bind_some, readRef_run h1]

end ArraySpec
end Tommy
