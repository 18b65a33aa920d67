import Verif.Proof.CArrOf
/-! The blocks of the arrays in the memory of bytes. -/
set_option autoImplicit false
set_option linter.unusedSectionVars false
set_option linter.unusedSimpArgs false
namespace Tommy.CArr
open CArraySpec AllocSpec C C.Src
open HashFlat hiding Fresh
variable [Arch]

/-- The address of an element in the blocks. -/
def baddr (Bl : List (Nat × Nat)) (es pos : Nat) : Nat := base Bl (pos / 4096) + es * (pos % 4096)

/-- The index `R` and the blocks `Bl` of the array at `t`, with the count at `t + o`: the first blocks of the `nb` in the index are allocated; the
    elements from the position `m` are zero. -/
structure BlkR (w : AMem) (t o es n nb m : Nat) (R Bl : List (Nat × Nat)) : Prop where
  seg : SegR w t arrMax ptrSize nb (bits nb) nb R
  le : Bl.length ≤ nb
  off : strB arrMax ≤ o
  ess : 0 < es
  str : InReg w t (o + ptrSize)
  cnt : rdN w.byte (t + o) ptrSize = n
  ix : ∀ j, j < Bl.length → rdN w.byte (eaddr R ptrSize j) ptrSize = base Bl j
  sz : ∀ r ∈ Bl, r.2 = 4096 * es
  live : ∀ r ∈ Bl, w.live r.1 = some r.2
  nodup : ((R ++ Bl).map Prod.fst).Nodup
  sep : ∀ r ∈ R ++ Bl, t + (o + ptrSize) ≤ r.1 ∨ r.1 + r.2 ≤ t
  zero : ∀ pos, m ≤ pos → pos / 4096 < Bl.length → ∀ x, baddr Bl es pos ≤ x → x < baddr Bl es pos + es → w.byte x = 0

variable {w : AMem} {t o es n nb m : Nat} {R Bl : List (Nat × Nat)}

theorem BlkR.all (h : BlkR w t o es n nb m R Bl) : ∀ r ∈ R ++ Bl, w.live r.1 = some r.2 := by
  intro r hr
  rw [List.mem_append] at hr
  rcases hr with hr | hr
  · exact h.seg.live r hr
  · exact h.live r hr

/-- A region of the index and a block are disjoint. -/
theorem BlkR.ixBl (h : BlkR w t o es n nb m R Bl) (hw : Ok w) {r q : Nat × Nat} (hr : r ∈ R) (hq : q ∈ Bl) : r.1 + r.2 ≤ q.1 ∨ q.1 + q.2 ≤ r.1 := by
  refine hw.reg _ _ _ _ (h.seg.live r hr) (h.live q hq) fun e => ?_
  have := h.nodup
  rw [List.map_append, List.nodup_append] at this
  exact this.2.2 _ (List.mem_map_of_mem hr) _ (List.mem_map_of_mem hq) e

theorem BlkR.elem (h : BlkR w t o es n nb m R Bl) {pos : Nat} (hp : pos / 4096 < Bl.length) :
    ∃ r ∈ Bl, r = Bl.getD (pos / 4096) (0, 0) ∧ r.1 ≤ baddr Bl es pos ∧ baddr Bl es pos + es ≤ r.1 + r.2 := by
  have hm := getD_mem hp
  refine ⟨_, hm, rfl, Nat.le_add_right _ _, ?_⟩
  rw [h.sz _ hm]
  have : es * (pos % 4096) + es ≤ 4096 * es := by
    rw [← Nat.mul_succ, Nat.mul_comm]
    exact Nat.mul_le_mul_right _ (Nat.mod_lt _ (by decide))
  unfold baddr base
  omega

theorem BlkR.apart (h : BlkR w t o es n nb m R Bl) (hw : Ok w) {p q : Nat} (hp : p / 4096 < Bl.length) (hq : q / 4096 < Bl.length) (hne : p ≠ q) :
    baddr Bl es p + es ≤ baddr Bl es q ∨ baddr Bl es q + es ≤ baddr Bl es p := by
  obtain ⟨r, hr, e, h1, h2⟩ := h.elem hp
  obtain ⟨r', hr', e', h1', h2'⟩ := h.elem hq
  by_cases hj : p / 4096 = q / 4096
  · unfold baddr
    rw [hj]
    have key : ∀ a c : Nat, a < c → es * a + es ≤ es * c := fun a c hac => by
      rw [← Nat.mul_succ]; exact Nat.mul_le_mul_left _ hac
    rcases Nat.lt_or_gt_of_ne hne with hlt | hlt
    · left; have := key (p % 4096) (q % 4096) (by omega); omega
    · right; have := key (q % 4096) (p % 4096) (by omega); omega
  · have hn := h.nodup
    rw [List.map_append, List.nodup_append] at hn
    have : r.1 ≠ r'.1 := by
      intro e1
      rw [e, e'] at e1
      exact hj (getD_inj hn.2.1 hp hq e1)
    have := hw.reg _ _ _ _ (h.live r hr) (h.live r' hr') this
    omega

theorem BlkR.inElem (h : BlkR w t o es n nb m R Bl) {pos : Nat} (hp : pos / 4096 < Bl.length) : InReg w (baddr Bl es pos) es := by
  obtain ⟨r, hr, _, h1, h2⟩ := h.elem hp
  exact ⟨r.1, r.2, h.live r hr, h1, h2⟩

/-- The bytes that the representation reads. -/
def BlkUses (t o es m : Nat) (R Bl : List (Nat × Nat)) (x : Nat) : Prop :=
  (t ≤ x ∧ x < t + (o + ptrSize)) ∨ (∃ r ∈ R, r.1 ≤ x ∧ x < r.1 + r.2) ∨
  ∃ pos, m ≤ pos ∧ pos / 4096 < Bl.length ∧ baddr Bl es pos ≤ x ∧ x < baddr Bl es pos + es

theorem BlkR.congr (h : BlkR w t o es n nb m R Bl) {w' : AMem} (hs : InReg w' t (o + ptrSize)) (hl : ∀ r ∈ R ++ Bl, w'.live r.1 = some r.2)
    (hb : ∀ x, BlkUses t o es m R Bl x → w'.byte x = w.byte x) : BlkR w' t o es n nb m R Bl := by
  have hB : strB arrMax = arrMax + 2 * ptrSize + 4 := rfl
  have ho := h.off
  refine { h with seg := ?_, str := hs, cnt := ?_, ix := ?_, live := ?_, zero := ?_ }
  · refine h.seg.congr (hs.sub (Nat.le_refl _) (by omega)) (fun r hr => hl r (List.mem_append_left _ hr)) ?_
    rintro x (hx | ⟨pos, _, h2, h3, h4⟩)
    · exact hb x (.inl (by omega))
    · obtain ⟨r, hr, _, h5, h6⟩ := h.seg.elem h2
      exact hb x (.inr (.inl ⟨r, hr, by omega, by omega⟩))
  · rw [← h.cnt]
    exact rdN_congr fun x h1 h2 => hb x (.inl (by omega))
  · intro j hj
    rw [← h.ix j hj]
    have hle := h.le
    obtain ⟨r, hr, _, h5, h6⟩ := h.seg.elem (pos := j) (by have := le_bits nb; omega)
    exact rdN_congr fun x h1 h2 => hb x (.inr (.inl ⟨r, hr, by omega, by omega⟩))
  · exact fun r hr => hl r (List.mem_append_right _ hr)
  · intro pos h1 h2 x h3 h4
    rw [hb x (.inr (.inr ⟨pos, h1, h2, h3, h4⟩))]
    exact h.zero pos h1 h2 x h3 h4

theorem BlkR.mono (h : BlkR w t o es n nb m R Bl) {m' : Nat} (hm : m ≤ m') : BlkR w t o es n nb m' R Bl :=
  { h with zero := fun pos h1 => h.zero pos (Nat.le_trans hm h1) }

/-- Writes an element in use. -/
theorem BlkR.write (h : BlkR w t o es n nb m R Bl) (hw : Ok w) {pos d : Nat} (hp : pos < m) (hb : pos / 4096 < Bl.length) :
    BlkR (setW w (baddr Bl es pos) es d) t o es n nb m R Bl := by
  obtain ⟨r, hr, _, h1, h2⟩ := h.elem hb
  have h3 := h.sep r (List.mem_append_right _ hr)
  refine h.congr (h.str.setL rfl) h.all fun x hx => set_out ?_
  rcases hx with hx | ⟨q, hq, h6, h7⟩ | ⟨q, h4, h5, h6, h7⟩
  · omega
  · have := h.ixBl hw hq hr
    omega
  · have := h.apart hw hb h5 (by omega)
    omega

/-- Writes the count. -/
theorem BlkR.count (h : BlkR w t o es n nb m R Bl) {c : Nat} (hc : c < 2 ^ sizeBit) : BlkR (setW w (t + o) ptrSize c) t o es c nb m R Bl := by
  have ho := h.off
  have hB : strB arrMax = arrMax + 2 * ptrSize + 4 := rfl
  have hp4 := p4
  have key : ∀ x, (∃ r ∈ R ++ Bl, r.1 ≤ x ∧ x < r.1 + r.2) → (setW w (t + o) ptrSize c).byte x = w.byte x := by
    rintro x ⟨r, hr, h1, h2⟩
    have := h.sep r hr
    exact set_out (by omega)
  refine { h with seg := ?_, str := h.str.setL rfl, cnt := rd_set (by rw [C.eight_ptr]; exact hc), ix := ?_, zero := ?_ }
  · refine h.seg.congr (h.seg.str.setL rfl) h.seg.live ?_
    rintro x (hx | ⟨pos, _, h2, h3, h4⟩)
    · exact set_out (by omega)
    · obtain ⟨r, hr, _, h5, h6⟩ := h.seg.elem h2
      exact key x ⟨r, List.mem_append_left _ hr, by omega, by omega⟩
  · intro j hj
    rw [← h.ix j hj]
    have hle := h.le
    obtain ⟨r, hr, _, h5, h6⟩ := h.seg.elem (pos := j) (by have := le_bits nb; omega)
    exact rdN_congr fun x h1 h2 => key x ⟨r, List.mem_append_left _ hr, by omega, by omega⟩
  · intro pos h1 h2 x h3 h4
    obtain ⟨r, hr, _, h5, h6⟩ := h.elem h2
    rw [key x ⟨r, List.mem_append_right _ hr, by omega, by omega⟩]
    exact h.zero pos h1 h2 x h3 h4

/-! ### grow -/

/-- The byte `x` is not written by a grow: `L` are the regions allocated. -/
def OutB (t o : Nat) (R L : List (Nat × Nat)) (x : Nat) : Prop :=
  (x < t ∨ (t + strB arrMax ≤ x ∧ x < t + o) ∨ t + (o + ptrSize) ≤ x) ∧ ∀ r ∈ R ++ L, x < r.1 ∨ r.1 + r.2 ≤ x

/-- The array after a grow, with `L` added to the index and `N` to the blocks. -/
structure BGrown (w : AMem) (t o es n nb m : Nat) (R Bl L N : List (Nat × Nat)) (w' : AMem) : Prop where
  blk : BlkR w' t o es n nb m (R ++ L) (Bl ++ N)
  ok : Ok w'
  live : w'.live = addRegs w.live (L ++ N)
  out : ∀ x, OutB t o R (L ++ N) x → w'.byte x = w.byte x

/-- The index grows. -/
theorem BlkR.index (h : BlkR w t o es n nb m R Bl) (hw : Ok w) {nb' : Nat} {ms : List (Nat × (Nat → Nat))} {w' : AMem} (hle : nb ≤ nb')
    (hg : Given w.live (segAsks ptrSize nb nb') ms) (g : Grown w t arrMax ptrSize nb' (bits nb') nb R (regs (segAsks ptrSize nb nb') ms) w') :
    BGrown w t o es n nb' m R Bl (regs (segAsks ptrSize nb nb') ms) [] w' := by
  have hB : strB arrMax = arrMax + 2 * ptrSize + 4 := rfl
  have ho := h.off
  obtain ⟨_, k2, k3, k4, k5⟩ := given_add ⟨hw.pos, hw.reg⟩ hg
  generalize regs (segAsks ptrSize nb nb') ms = L at *
  have hout : ∀ x, InReg w x 1 → (x < t ∨ t + strB arrMax ≤ x) → w'.byte x = w.byte x := by
    intro x hx h1
    refine g.out x ⟨by omega, fun r hr => ?_⟩
    obtain ⟨c, k, h2, h3, h4⟩ := hx
    have := (k3 r hr).2 _ _ h2
    omega
  have hkeep : ∀ c k, w.live c = some k → w'.live c = some k := fun c k e => by rw [g.live]; exact k2 c k e
  have hstr : ∀ r ∈ L, t + (o + ptrSize) ≤ r.1 ∨ r.1 + r.2 ≤ t := by
    intro r hr
    obtain ⟨c, k, h2, h3, h4⟩ := h.str
    have := (k3 r hr).2 _ _ h2
    omega
  refine ⟨?_, g.ok, by rw [List.append_nil]; exact g.live, ?_⟩
  · rw [List.append_nil]
    have h2le := le_bits nb
    have hle' := h.le
    refine ⟨g.seg.mono hle, by omega, ho, h.ess, ?_, ?_, ?_, h.sz, fun r hr => hkeep _ _ (h.live r hr), ?_, ?_, ?_⟩
    · obtain ⟨c, k, h2, h3, h4⟩ := h.str
      exact ⟨c, k, hkeep _ _ h2, h3, h4⟩
    · rw [← h.cnt]
      exact rdN_congr fun x h1 h2 => hout x (h.str.sub (by omega) (by omega)) (by omega)
    · intro j hj
      rw [eaddr_app h.seg.len h.seg.b6 (by omega), ← h.ix j hj]
      obtain ⟨r, hr, _, h5, h6⟩ := h.seg.elem (pos := j) (by omega)
      have := h.sep r (List.mem_append_left _ hr)
      exact rdN_congr fun x h1 h2 => hout x ⟨r.1, r.2, h.seg.live r hr, by omega, by omega⟩ (by omega)
    · have hn := h.nodup
      rw [List.map_append, List.nodup_append] at hn
      have hg' := g.seg.nodup
      rw [List.map_append, List.nodup_append]
      refine ⟨hg', hn.2.1, ?_⟩
      intro x hx y hy e
      rw [List.map_append, List.mem_append] at hx
      rcases hx with hx | hx
      · exact hn.2.2 x hx y hy e
      · rw [List.mem_map] at hx hy
        obtain ⟨r, hr, rfl⟩ := hx
        obtain ⟨q, hq, rfl⟩ := hy
        have := k4 r hr
        rw [e, h.live q hq] at this
        cases this
    · intro r hr
      rw [List.mem_append, List.mem_append] at hr
      rcases hr with (hr | hr) | hr
      · exact h.sep r (List.mem_append_left _ hr)
      · exact hstr r hr
      · exact h.sep r (List.mem_append_right _ hr)
    · intro pos h1 h2 x h3 h4
      obtain ⟨r, hr, _, h5, h6⟩ := h.elem h2
      have := h.sep r (List.mem_append_right _ hr)
      rw [hout x ⟨r.1, r.2, h.live r hr, by omega, by omega⟩ (by omega)]
      exact h.zero pos h1 h2 x h3 h4
  · intro x hx
    rw [List.append_nil] at hx
    exact g.out x ⟨by have := hx.1; omega, fun r hr => hx.2 r (List.mem_append_right _ hr)⟩

/-- The memory after a block is added. -/
def blkW (w : AMem) (R : List (Nat × Nat)) (k es p : Nat) : AMem := setW (calW w p (4096 * es)) (eaddr R ptrSize k) ptrSize p

omit [Arch] in
theorem baddr_app {N : List (Nat × Nat)} {pos : Nat} (h : pos / 4096 < Bl.length) : baddr (Bl ++ N) es pos = baddr Bl es pos := by
  unfold baddr base
  rw [base_app h]

theorem BlkR.turn (h : BlkR w t o es n nb m R Bl) (hw : Ok w) {p : Nat} (hlt : Bl.length < nb) (hf : Fresh w.live p (4096 * es)) :
    BGrown w t o es n nb m R Bl [] [(p, 4096 * es)] (blkW w R Bl.length es p) := by
  have h2le := le_bits nb
  obtain ⟨q, hq, _, q1, q2⟩ := h.seg.elem (pos := Bl.length) (by omega)
  have hpq := hf.sep _ _ (h.seg.live q hq)
  have hps := h.str.fresh hf
  have hqs := h.sep q (List.mem_append_left _ hq)
  have hplt : p < 2 ^ sizeBit := by have := hf.lt; omega
  have ho := h.off
  have hB : strB arrMax = arrMax + 2 * ptrSize + 4 := rfl
  have hout : ∀ x, (x < eaddr R ptrSize Bl.length ∨ eaddr R ptrSize Bl.length + ptrSize ≤ x) → (x < p ∨ p + 4096 * es ≤ x) →
      (blkW w R Bl.length es p).byte x = w.byte x := fun x h1 h2 => by
    unfold blkW
    rw [set_out h1, cal_out h2]
  have hkeep : ∀ c k, w.live c = some k → (blkW w R Bl.length es p).live c = some k := by
    intro c k e
    show upd w.live p _ c = _
    rw [upd_ne]
    · exact e
    · rintro rfl; rw [hf.none] at e; cases e
  refine ⟨?_, ok_set (ok_cal hw hf) _ _ _, rfl, ?_⟩
  · rw [List.append_nil]
    refine ⟨?_, by simp; omega, ho, h.ess, ?_, ?_, ?_, ?_, ?_, ?_, ?_, ?_⟩
    · refine h.seg.congr ?_ (fun r hr => hkeep _ _ (h.seg.live r hr)) ?_
      · obtain ⟨c, k, h2, h3, h4⟩ := h.seg.str
        exact ⟨c, k, hkeep _ _ h2, h3, h4⟩
      · rintro x (hx | ⟨pos, h1, h2, h3, h4⟩)
        · exact hout x (by omega) (by omega)
        · obtain ⟨r, hr, _, h5, h6⟩ := h.seg.elem h2
          have h7 := h.seg.apart hw h2 (q := Bl.length) (by omega) (by omega)
          have h8 := hf.sep _ _ (h.seg.live r hr)
          exact hout x (by omega) (by omega)
    · obtain ⟨c, k, h2, h3, h4⟩ := h.str
      exact ⟨c, k, hkeep _ _ h2, h3, h4⟩
    · rw [← h.cnt]
      exact rdN_congr fun x h1 h2 => hout x (by omega) (by omega)
    · intro j hj
      rw [List.length_append, List.length_singleton] at hj
      by_cases hjl : j = Bl.length
      · subst hjl
        unfold base
        rw [base_new]
        exact rd_set (by rw [C.eight_ptr]; exact hplt)
      · unfold base
        rw [base_app (by omega)]
        refine Eq.trans ?_ (h.ix j (by omega))
        obtain ⟨r, hr, _, h5, h6⟩ := h.seg.elem (pos := j) (by omega)
        have h7 := h.seg.apart hw (p := j) (q := Bl.length) (by omega) (by omega) hjl
        have h8 := hf.sep _ _ (h.seg.live r hr)
        exact rdN_congr fun x h1 h2 => hout x (by omega) (by omega)
    · intro r hr
      rw [List.mem_append, List.mem_singleton] at hr
      rcases hr with hr | rfl
      · exact h.sz r hr
      · rfl
    · intro r hr
      rw [List.mem_append, List.mem_singleton] at hr
      rcases hr with hr | rfl
      · exact hkeep _ _ (h.live r hr)
      · exact upd_same _ _ _
    · rw [← List.append_assoc, List.map_append, List.nodup_append]
      refine ⟨h.nodup, by simp, ?_⟩
      intro x hx y hy e
      rw [List.map_cons, List.map_nil, List.mem_singleton] at hy
      rw [List.mem_map] at hx
      obtain ⟨r, hr, rfl⟩ := hx
      have := h.all r hr
      rw [e, hy] at this
      change w.live p = _ at this
      rw [hf.none] at this
      cases this
    · intro r hr
      rw [← List.append_assoc, List.mem_append, List.mem_singleton] at hr
      rcases hr with hr | rfl
      · exact h.sep r hr
      · exact hps
    · intro pos h1 h2 x h3 h4
      rw [List.length_append, List.length_singleton] at h2
      by_cases hpl : pos / 4096 < Bl.length
      · rw [baddr_app hpl] at h3 h4
        obtain ⟨r, hr, _, h5, h6⟩ := h.elem hpl
        have h7 := h.ixBl hw hq hr
        have h8 := hf.sep _ _ (h.live r hr)
        rw [hout x (by omega) (by omega)]
        exact h.zero pos h1 hpl x h3 h4
      · have e : baddr (Bl ++ [(p, 4096 * es)]) es pos = p + es * (pos % 4096) := by
          unfold baddr base
          rw [show pos / 4096 = Bl.length by omega, base_new]
        rw [e] at h3 h4
        have : es * (pos % 4096) + es ≤ 4096 * es := by
          rw [← Nat.mul_succ, Nat.mul_comm]
          exact Nat.mul_le_mul_right _ (Nat.mod_lt _ (by decide))
        unfold blkW
        rw [set_out (by omega), cal_in (by omega) (by omega)]
  · intro x hx
    have h1 := hx.2 (p, 4096 * es) (by simp)
    have h2 := hx.2 q (by simp [hq])
    exact hout x (by omega) h1

/-- The part of the struct between the index and the count. -/
def MidB (t o : Nat) (P : AMem → Prop) : Prop :=
  ∀ w w' : AMem, (∀ x, t + strB arrMax ≤ x → x < t + o → w'.byte x = w.byte x) → P w → P w'

theorem blk_loop {γ : Type} (X : Nat → BM γ) (r : γ) {P : AMem → Prop} (hP : MidB t o P) (rest : List (Nat × (Nat → Nat)))
    (stop : ∀ {w ms log}, X nb ⟨w, ms, log⟩ = some (r, ⟨w, ms, log⟩))
    (turn : ∀ {w Bl mm ms log}, BlkR w t o es n nb m R Bl → Ok w → P w → Bl.length < nb → Fresh w.live mm.1 (4096 * es) →
      X Bl.length ⟨w, mm :: ms, log⟩ = X (Bl.length + 1) ⟨blkW w R Bl.length es mm.1, ms, log ++ [.got mm.1 (4096 * es)]⟩) (k : Nat) :
    ∀ {w Bl ms log}, BlkR w t o es n nb m R Bl → Ok w → P w → Bl.length + k = nb → Given w.live (List.replicate k (4096 * es)) ms →
    ∃ w', X Bl.length ⟨w, ms ++ rest, log⟩ = some (r, ⟨w', rest, log ++ (regs (List.replicate k (4096 * es)) ms).map fun x => BEvent.got x.1 x.2⟩) ∧
      BGrown w t o es n nb m R Bl [] (regs (List.replicate k (4096 * es)) ms) w' := by
  induction k with
  | zero =>
    intro w Bl ms log h hw hp hk hg
    cases ms with
    | cons => exact hg.elim
    | nil =>
    refine ⟨w, ?_, ⟨by simpa [regs] using h, hw, rfl, fun _ _ => rfl⟩⟩
    have : Bl.length = nb := hk
    rw [this, List.nil_append, stop]
    simp [regs]
  | succ k ih =>
    intro w Bl ms log h hw hp hk hg
    cases ms with
    | nil => exact hg.elim
    | cons mm ms =>
    obtain ⟨hf, _, hg⟩ := hg
    have hlt : Bl.length < nb := by omega
    have hs := h.str.fresh hf
    have hT := h.turn hw hlt hf
    have hp' : P (blkW w R Bl.length es mm.1) := hP w _ (fun x hx1 hx2 => hT.out x ⟨.inr (.inl ⟨hx1, hx2⟩), by
      intro r hr
      rw [List.nil_append, List.mem_append, List.mem_singleton] at hr
      rcases hr with hr | rfl
      · have := h.sep r (List.mem_append_left _ hr)
        omega
      · dsimp only
        omega⟩) hp
    have hb := hT.blk
    rw [List.append_nil] at hb
    obtain ⟨w', e, g⟩ := ih (log := log ++ [.got mm.1 (4096 * es)]) hb hT.ok hp' (by simp; omega) (by
      have := hT.live
      rw [this]; exact hg)
    have e1 : regs (List.replicate (k + 1) (4096 * es)) (mm :: ms) = (mm.1, 4096 * es) :: regs (List.replicate k (4096 * es)) ms := rfl
    rw [e1]
    refine ⟨w', ?_, ?_⟩
    · rw [List.cons_append, turn h hw hp hlt hf]
      rw [List.length_append, List.length_singleton] at e
      rw [e]
      simp
    · have gb := g.blk
      refine ⟨?_, g.ok, ?_, ?_⟩
      · rwa [List.append_assoc, List.singleton_append] at gb
      · rw [g.live, hT.live]; rfl
      · intro x hx
        rw [g.out x ⟨hx.1, fun r hr => hx.2 r (by
          rw [List.nil_append, List.mem_append] at hr ⊢
          rcases hr with hr | hr
          · exact .inl hr
          · exact .inr (List.mem_cons_of_mem _ hr))⟩, hT.out x ⟨hx.1, fun r hr => hx.2 r (by
          rw [List.nil_append, List.mem_append] at hr ⊢
          rcases hr with hr | hr
          · exact .inl hr
          · rw [List.mem_singleton] at hr; subst hr
            exact .inr (List.mem_cons_self ..))⟩]

/-- A grow of the index, then of the blocks. -/
theorem BGrown.trans {nb' : Nat} {L N : List (Nat × Nat)} {w' w'' : AMem} (g : BGrown w t o es n nb' m R Bl L [] w') (g' : BGrown w' t o es n nb' m (R ++ L) Bl [] N w'') :
    BGrown w t o es n nb' m R Bl L N w'' := by
  have gb := g'.blk
  refine ⟨by rwa [List.append_nil] at gb, g'.ok, ?_, ?_⟩
  · rw [g'.live, g.live, List.append_nil, addRegs_app L N]; rfl
  · intro x hx
    rw [g'.out x ⟨hx.1, fun r hr => hx.2 r (by simpa using hr)⟩, g.out x ⟨hx.1, fun r hr => hx.2 r (by
      rw [List.append_nil, List.mem_append] at hr
      rw [List.mem_append, List.mem_append]
      rcases hr with hr | hr
      · exact .inl hr
      · exact .inr (.inl hr))⟩]

theorem BGrown.count {c : Nat} {L N : List (Nat × Nat)} {w' : AMem} {nb' : Nat} (h : BGrown (setW w (t + o) ptrSize c) t o es n nb' m R Bl L N w')
    (ho : strB arrMax ≤ o) : BGrown w t o es n nb' m R Bl L N w' := by
  refine ⟨h.blk, h.ok, h.live, fun x hx => ?_⟩
  rw [h.out x hx, set_out]
  have := hx.1
  omega

end Tommy.CArr
