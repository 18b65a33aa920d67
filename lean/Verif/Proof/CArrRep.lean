import Verif.Proof.CArrBlkOf
/-! The memory of the arrays of a program. -/
set_option autoImplicit false
set_option linter.unusedSectionVars false
namespace Tommy.CArr
open CArraySpec C C.Src
open AllocSpec hiding blocks
open HashFlat hiding Fresh
variable [Arch]

/-- The struct, and the memory allocated is not in it. -/
structure Common (w : AMem) (t : Nat) (v : Vec) : Prop where
  str : InReg w t v.ty.strSize
  sep : ∀ r ∈ v.own, t + v.ty.strSize ≤ r.1 ∨ r.1 + r.2 ≤ t

/-- An array of segments. -/
structure RepS (o : Nat) (w : AMem) (t : Nat) (v : Vec) (R : List (Nat × Nat)) : Prop where
  com : Common w t v
  off : strB o ≤ v.ty.strSize
  seg : SegR w t o v.es v.size (bits v.size) v.size R
  own : v.own = R
  addr : ∀ pos, pos < v.size → v.addr pos = eaddr R v.es pos

/-- An array of blocks. -/
structure RepB (o : Nat) (w : AMem) (t : Nat) (v : Vec) (R Bl : List (Nat × Nat)) : Prop where
  com : Common w t v
  off : o + ptrSize ≤ v.ty.strSize
  blk : BlkR w t o v.es v.size (blocks v.size) v.size R Bl
  len : Bl.length = blocks v.size
  own : v.own.Perm (R ++ Bl)
  addr : ∀ pos, pos < v.size → v.addr pos = baddr Bl v.es pos

/-- The representation of an array. -/
inductive Rep (w : AMem) (t : Nat) (v : Vec) : Prop
  | array (R : List (Nat × Nat)) (ty : v.ty = .array) (h : RepS arrMax w t v R) (e : v.es = ptrSize)
  | arrayof (R : List (Nat × Nat)) (ty : v.ty = .arrayof) (h : RepS ofMax w t v R) (e : HasEs t v.es w)
  | arrayblk (R Bl : List (Nat × Nat)) (ty : v.ty = .arrayblk) (h : RepB blkCnt w t v R Bl) (e : v.es = ptrSize)
  | arrayblkof (R Bl : List (Nat × Nat)) (ty : v.ty = .arrayblkof) (h : RepB bkfCnt w t v R Bl) (e : HasEsB t v.es w)

theorem sz_array : strB arrMax ≤ Ty.array.strSize := by
  have := p4
  show _ ≤ (sizeBit + 3) * ptrSize
  rw [Nat.add_mul, Nat.mul_comm]
  unfold strB arrMax; omega
theorem sz_arrayof : strB ofMax ≤ Ty.arrayof.strSize := by
  have := p4
  show _ ≤ (sizeBit + 4) * ptrSize
  rw [Nat.add_mul, Nat.mul_comm]
  unfold strB ofMax ofEs; omega
theorem sz_arrayblk : blkCnt + ptrSize ≤ Ty.arrayblk.strSize := by
  show _ ≤ (sizeBit + 4) * ptrSize
  rw [Nat.add_mul, Nat.mul_comm]
  unfold blkCnt; omega
theorem sz_arrayblkof : bkfCnt + ptrSize ≤ Ty.arrayblkof.strSize := by
  show _ ≤ (sizeBit + 5) * ptrSize
  rw [Nat.add_mul, Nat.mul_comm]
  unfold bkfCnt; omega

variable {w : AMem} {t o : Nat} {v : Vec} {R Bl : List (Nat × Nat)}

theorem Rep.com (h : Rep w t v) : Common w t v := by
  cases h with
  | array _ _ h => exact h.com
  | arrayof _ _ h => exact h.com
  | arrayblk _ _ _ h => exact h.com
  | arrayblkof _ _ _ h => exact h.com

/-! ### The elements -/

/-- The memory allocated is live, and each element is in it, apart from the other ones. -/
def Places (w : AMem) (v : Vec) : Prop := (∀ r ∈ v.own, w.live r.1 = some r.2) ∧ ∀ pos, pos < v.size →
  (∃ r ∈ v.own, r.1 ≤ v.addr pos ∧ v.addr pos + v.es ≤ r.1 + r.2) ∧
  ∀ pos', pos' < v.size → pos ≠ pos' → v.addr pos + v.es ≤ v.addr pos' ∨ v.addr pos' + v.es ≤ v.addr pos

theorem blk_ix {n pos : Nat} (h : pos < n) : pos / 4096 < blocks n := by unfold blocks; omega

theorem RepS.places (h : RepS o w t v R) (hw : Ok w) : Places w v := by
  have hb := le_bits v.size
  refine ⟨fun r hr => h.seg.live r (h.own ▸ hr), fun pos hp => ⟨?_, fun pos' hp' hne => ?_⟩⟩
  · obtain ⟨r, hr, _, h1, h2⟩ := h.seg.elem (pos := pos) (by omega)
    rw [h.addr pos hp]
    exact ⟨r, h.own ▸ hr, h1, h2⟩
  · rw [h.addr pos hp, h.addr pos' hp']
    exact h.seg.apart hw (by omega) (by omega) hne

theorem RepB.places (h : RepB o w t v R Bl) (hw : Ok w) : Places w v := by
  refine ⟨fun r hr => h.blk.all r (h.own.mem_iff.1 hr), fun pos hp => ⟨?_, fun pos' hp' hne => ?_⟩⟩
  · obtain ⟨r, hr, _, h1, h2⟩ := h.blk.elem (pos := pos) (by rw [h.len]; exact blk_ix hp)
    rw [h.addr pos hp]
    exact ⟨r, h.own.mem_iff.2 (List.mem_append_right _ hr), h1, h2⟩
  · rw [h.addr pos hp, h.addr pos' hp']
    exact h.blk.apart hw (by rw [h.len]; exact blk_ix hp) (by rw [h.len]; exact blk_ix hp') hne

theorem Rep.places (h : Rep w t v) (hw : Ok w) : Places w v := by
  cases h with
  | array _ _ h => exact h.places hw
  | arrayof _ _ h => exact h.places hw
  | arrayblk _ _ _ h => exact h.places hw
  | arrayblkof _ _ _ h => exact h.places hw

/-! ### What is read -/

theorem RepS.uses (h : RepS o w t v R) (hw : Ok w) {x : Nat} (hx : SegUses t o v.es (bits v.size) v.size R x) : v.internal t x := by
  have ho := h.off
  rcases hx with hx | ⟨pos, h1, h2, h3, h4⟩
  · exact .inl (by omega)
  · obtain ⟨r, hr, _, h5, h6⟩ := h.seg.elem h2
    refine .inr ⟨⟨r, h.own ▸ hr, by omega, by omega⟩, ?_⟩
    rintro ⟨q, q1, q2, q3⟩
    rw [h.addr q q1] at q2 q3
    have hb := le_bits v.size
    have := h.seg.apart hw (p := q) (q := pos) (by omega) h2 (by omega)
    omega

theorem RepB.index (h : RepB o w t v R Bl) (hw : Ok w) {x : Nat} {r : Nat × Nat} (hr : r ∈ R) (h1 : r.1 ≤ x) (h2 : x < r.1 + r.2) : v.internal t x := by
  refine .inr ⟨⟨r, h.own.mem_iff.2 (List.mem_append_left _ hr), h1, h2⟩, ?_⟩
  rintro ⟨q, q1, q2, q3⟩
  rw [h.addr q q1] at q2 q3
  obtain ⟨r', hr', _, h5, h6⟩ := h.blk.elem (pos := q) (by rw [h.len]; exact blk_ix q1)
  have := h.blk.ixBl hw hr hr'
  omega

theorem RepB.uses (h : RepB o w t v R Bl) (hw : Ok w) {x : Nat} (hx : BlkUses t o v.es v.size R Bl x) : v.internal t x := by
  have ho := h.off
  rcases hx with hx | ⟨r, hr, h1, h2⟩ | ⟨pos, h1, h2, h3, h4⟩
  · exact .inl (by omega)
  · exact h.index hw hr h1 h2
  · obtain ⟨r, hr, _, h5, h6⟩ := h.blk.elem h2
    refine .inr ⟨⟨r, h.own.mem_iff.2 (List.mem_append_right _ hr), by omega, by omega⟩, ?_⟩
    rintro ⟨q, q1, q2, q3⟩
    rw [h.addr q q1] at q2 q3
    have := h.blk.apart hw (p := q) (q := pos) (by rw [h.len]; exact blk_ix q1) h2 (by omega)
    omega

theorem RepS.congr (h : RepS o w t v R) (hw : Ok w) {w' : AMem} (hs : InReg w' t v.ty.strSize) (hl : ∀ r ∈ v.own, w'.live r.1 = some r.2)
    (hb : ∀ x, v.internal t x → w'.byte x = w.byte x) : RepS o w' t v R :=
  ⟨⟨hs, h.com.sep⟩, h.off, h.seg.congr (hs.sub (Nat.le_refl _) (by have := h.off; omega)) (fun r hr => hl r (h.own ▸ hr)) fun x hx => hb x (h.uses hw hx),
    h.own, h.addr⟩

theorem RepB.congr (h : RepB o w t v R Bl) (hw : Ok w) {w' : AMem} (hs : InReg w' t v.ty.strSize) (hl : ∀ r ∈ v.own, w'.live r.1 = some r.2)
    (hb : ∀ x, v.internal t x → w'.byte x = w.byte x) : RepB o w' t v R Bl :=
  ⟨⟨hs, h.com.sep⟩, h.off, h.blk.congr (hs.sub (Nat.le_refl _) (by have := h.off; omega)) (fun r hr => hl r (h.own.mem_iff.2 hr)) fun x hx => hb x (h.uses hw hx),
    h.len, h.own, h.addr⟩

/-- Only the internal bytes are read. -/
theorem Rep.congr (h : Rep w t v) (hw : Ok w) {w' : AMem} (hs : InReg w' t v.ty.strSize) (hl : ∀ r ∈ v.own, w'.live r.1 = some r.2)
    (hb : ∀ x, v.internal t x → w'.byte x = w.byte x) : Rep w' t v := by
  have h4 := p4
  cases h with
  | array R ty h e => exact .array R ty (h.congr hw hs hl hb) e
  | arrayof R ty h e =>
    refine .arrayof R ty (h.congr hw hs hl hb) ?_
    rw [← show _ = v.es from e]
    have ho := h.off
    exact rdN_congr fun x h1 h2 => hb x (.inl (by unfold strB ofMax ofEs at ho; unfold ofEs at h1 h2; omega))
  | arrayblk R Bl ty h e => exact .arrayblk R Bl ty (h.congr hw hs hl hb) e
  | arrayblkof R Bl ty h e =>
    refine .arrayblkof R Bl ty (h.congr hw hs hl hb) ?_
    rw [← show _ = v.es from e]
    have ho := h.off
    exact rdN_congr fun x h1 h2 => hb x (.inl (by unfold bkfCnt at ho; unfold bkfEs at h1 h2; omega))

/-- Only the addresses of the elements in use matter. -/
theorem Rep.addr (h : Rep w t v) {A : Nat → Nat} (hA : ∀ pos, pos < v.size → A pos = v.addr pos) : Rep w t { v with addr := A } := by
  cases h with
  | array R ty h e => exact .array R ty ⟨⟨h.com.str, h.com.sep⟩, h.off, h.seg, h.own, fun pos hp => (hA pos hp).trans (h.addr pos hp)⟩ e
  | arrayof R ty h e => exact .arrayof R ty ⟨⟨h.com.str, h.com.sep⟩, h.off, h.seg, h.own, fun pos hp => (hA pos hp).trans (h.addr pos hp)⟩ e
  | arrayblk R Bl ty h e =>
    exact .arrayblk R Bl ty ⟨⟨h.com.str, h.com.sep⟩, h.off, h.blk, h.len, h.own, fun pos hp => (hA pos hp).trans (h.addr pos hp)⟩ e
  | arrayblkof R Bl ty h e =>
    exact .arrayblkof R Bl ty ⟨⟨h.com.str, h.com.sep⟩, h.off, h.blk, h.len, h.own, fun pos hp => (hA pos hp).trans (h.addr pos hp)⟩ e

/-! ### The calls which only read -/

theorem call_of {f : String} {vs : List Val} {ms rest : List (Nat × (Nat → Nat))} {w w' : AMem} {log : List BEvent} {r : Val}
    (h : C.run CArraySpec.ext f vs ⟨w, ms, []⟩ = some (r, ⟨w', rest, log⟩)) : call f vs ms w = some (⟨r.v, log, w'⟩, w') := by
  show (C.run _ _ _ _).map _ = _
  rw [h]; rfl

theorem RepB.lt (h : RepB o w t v R Bl) (hw : Ok w) : v.size < 2 ^ sizeBit := by
  rw [← h.blk.cnt, ← C.eight_ptr]
  exact rdN_bound hw.byte _ _

theorem Rep.ref (h : Rep w t v) (hw : Ok w) {pos : Nat} (hp : pos < v.size) : step (.ref t v.ty pos) w = some (⟨v.addr pos, [], w⟩, w) := by
  cases h with
  | array R ty h e =>
    rw [h.addr pos hp, ty, e]
    have h1 := h.seg
    rw [e] at h1
    exact call_of (run_array_ref _ _ h1 hw (le_bits _) hp)
  | arrayof R ty h e =>
    rw [h.addr pos hp, ty]
    exact call_of (run_arrayof_ref _ _ h.seg e hw (le_bits _) hp)
  | arrayblk R Bl ty h e =>
    rw [h.addr pos hp, ty, e]
    have h1 := h.blk
    rw [e] at h1
    exact call_of (run_arrayblk_ref _ _ h1 hw (h.lt hw) (by rw [h.len]; exact blk_ix hp) hp)
  | arrayblkof R Bl ty h e =>
    rw [h.addr pos hp, ty]
    exact call_of (run_arrayblkof_ref _ _ h.blk e hw (h.lt hw) (by rw [h.len]; exact blk_ix hp) hp)

theorem Rep.size (h : Rep w t v) : step (.size t v.ty) w = some (⟨v.size, [], w⟩, w) := by
  cases h with
  | array R ty h e =>
    have h1 := h.seg
    rw [e] at h1
    rw [ty]
    exact call_of (run_array_size _ _ h1)
  | arrayof R ty h e =>
    rw [ty]
    exact call_of (run_arrayof_size _ _ h.seg)
  | arrayblk R Bl ty h e =>
    have h1 := h.blk
    rw [e] at h1
    rw [ty]
    exact call_of (run_arrayblk_size _ _ h1)
  | arrayblkof R Bl ty h e =>
    rw [ty]
    exact call_of (run_arrayblkof_size _ _ h.blk)

theorem Rep.usage (h : Rep w t v) (hw : Ok w) : step (.usage t v.ty) w = some (⟨(v.own.map Prod.snd).sum, [], w⟩, w) := by
  cases h with
  | array R ty h e =>
    have h1 := h.seg
    rw [e] at h1
    rw [ty, h.own]
    exact call_of (run_array_usage _ _ h1 hw)
  | arrayof R ty h e =>
    rw [ty, h.own]
    exact call_of (run_arrayof_usage _ _ h.seg e hw)
  | arrayblk R Bl ty h e =>
    have h1 := h.blk
    rw [e] at h1
    rw [ty, (h.own.map _).sum_nat]
    exact call_of (run_arrayblk_usage _ _ h1 h.len hw)
  | arrayblkof R Bl ty h e =>
    rw [ty, (h.own.map _).sum_nat]
    exact call_of (run_arrayblkof_usage _ _ h.blk h.len e hw)

theorem Rep.get (h : Rep w t v) (hw : Ok w) (ht : v.ty.ptrs = true) {pos : Nat} (hp : pos < v.size) :
    step (.get t v.ty pos) w = some (⟨rdN w.byte (v.addr pos) ptrSize, [], w⟩, w) := by
  cases h with
  | array R ty h e =>
    rw [h.addr pos hp, ty, e]
    have h1 := h.seg
    rw [e] at h1
    exact call_of (run_array_get _ _ h1 hw (le_bits _) hp)
  | arrayof R ty h e => rw [ty] at ht; cases ht
  | arrayblk R Bl ty h e =>
    rw [h.addr pos hp, ty, e]
    have h1 := h.blk
    rw [e] at h1
    exact call_of (run_arrayblk_get _ _ h1 hw (h.lt hw) (by rw [h.len]; exact blk_ix hp) hp)
  | arrayblkof R Bl ty h e => rw [ty] at ht; cases ht

theorem Rep.set (h : Rep w t v) (hw : Ok w) (ht : v.ty.ptrs = true) {pos d : Nat} (hp : pos < v.size) :
    step (.set t v.ty pos d) w = some (⟨0, [], setW w (v.addr pos) ptrSize d⟩, setW w (v.addr pos) ptrSize d) := by
  cases h with
  | array R ty h e =>
    rw [h.addr pos hp, ty, e]
    have h1 := h.seg
    rw [e] at h1
    exact call_of (run_array_set _ _ _ h1 hw (le_bits _) hp)
  | arrayof R ty h e => rw [ty] at ht; cases ht
  | arrayblk R Bl ty h e =>
    rw [h.addr pos hp, ty, e]
    have h1 := h.blk
    rw [e] at h1
    exact call_of (run_arrayblk_set _ _ _ h1 hw (h.lt hw) (by rw [h.len]; exact blk_ix hp) hp)
  | arrayblkof R Bl ty h e => rw [ty] at ht; cases ht

theorem Rep.es (h : Rep w t v) (ht : v.ty.ptrs = true) : v.es = ptrSize := by
  cases h with
  | array R ty h e => exact e
  | arrayof R ty h e => rw [ty] at ht; cases ht
  | arrayblk R Bl ty h e => exact e
  | arrayblkof R Bl ty h e => rw [ty] at ht; cases ht

/-- done deallocates all the memory of the array. -/
theorem Rep.done (h : Rep w t v) (hw : Ok w) :
    ∃ L, L.Perm v.own ∧ step (.done t v.ty) w = some (⟨0, L.map fun x => BEvent.gave x.1, freeW w L⟩, freeW w L) := by
  cases h with
  | array R ty h e =>
    have h1 := h.seg
    rw [e] at h1
    refine ⟨R, h.own ▸ .refl _, ?_⟩
    rw [ty]
    exact call_of (run_array_done _ _ h1 hw)
  | arrayof R ty h e =>
    refine ⟨R, h.own ▸ .refl _, ?_⟩
    rw [ty]
    exact call_of (run_arrayof_done _ _ h.seg e hw)
  | arrayblk R Bl ty h e =>
    have h1 := h.blk
    rw [e] at h1
    refine ⟨Bl ++ R, List.perm_append_comm.trans h.own.symm, ?_⟩
    rw [ty]
    exact call_of (run_arrayblk_done _ _ h1 h.len hw)
  | arrayblkof R Bl ty h e =>
    refine ⟨Bl ++ R, List.perm_append_comm.trans h.own.symm, ?_⟩
    rw [ty]
    exact call_of (run_arrayblkof_done _ _ h.blk h.len hw)

end Tommy.CArr
