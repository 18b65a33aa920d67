import Verif.Proof.CArrRep
/-! The calls of a program which allocate: init, grow and insert. -/
set_option autoImplicit false
set_option linter.unusedSectionVars false
namespace Tommy.CArr
open CArraySpec C C.Src
open AllocSpec hiding blocks
open HashFlat hiding Fresh
variable [Arch]

variable {w : AMem} {t o : Nat} {v : Vec} {R Bl : List (Nat × Nat)}

/-- What a grow to `n` elements does: the regions `L` are allocated. -/
structure GOk (w : AMem) (t : Nat) (v : Vec) (n : Nat) (L : List (Nat × Nat)) (A : Nat → Nat) (w' : AMem) : Prop where
  ok : Ok w'
  live : w'.live = addRegs w.live L
  out : ∀ x, ¬ v.internal t x → (∀ r ∈ L, x < r.1 ∨ r.1 + r.2 ≤ x) → w'.byte x = w.byte x
  rep : Rep w' t { v with size := max v.size n, own := v.own ++ L, addr := A }
  old : ∀ pos, pos < v.size → A pos = v.addr pos
  zero : ∀ pos, v.size ≤ pos → pos < max v.size n → ∀ x, A pos ≤ x → x < A pos + v.es → w'.byte x = 0

theorem _root_.Tommy.CArraySpec.InReg.add {p k : Nat} {ns : List Nat} {ms : List (Nat × (Nat → Nat))} (h : InReg w p k) (hw : Ok w) (hg : Given w.live ns ms)
    {w' : AMem} (hl : w'.live = addRegs w.live (regs ns ms)) : InReg w' p k := by
  obtain ⟨b, q, h1, h2, h3⟩ := h
  exact ⟨b, q, by rw [hl]; exact (given_add ⟨hw.pos, hw.reg⟩ hg).2.1 _ _ h1, h2, h3⟩

theorem _root_.Tommy.CArraySpec.InReg.apart {p k : Nat} {ns : List Nat} {ms : List (Nat × (Nat → Nat))} (h : InReg w p k) (hw : Ok w) (hg : Given w.live ns ms) :
    ∀ r ∈ regs ns ms, p + k ≤ r.1 ∨ r.1 + r.2 ≤ p := by
  intro r hr
  obtain ⟨b, q, h1, h2, h3⟩ := h
  have := ((given_add ⟨hw.pos, hw.reg⟩ hg).2.2.1 r hr).2 _ _ h1
  omega

theorem Common.grow {ns : List Nat} {ms : List (Nat × (Nat → Nat))} (h : Common w t v) (hw : Ok w) (hg : Given w.live ns ms)
    {w' : AMem} (hl : w'.live = addRegs w.live (regs ns ms)) (n : Nat) (A : Nat → Nat) :
    Common w' t { v with size := n, own := v.own ++ regs ns ms, addr := A } := by
  refine ⟨h.str.add hw hg hl, ?_⟩
  intro r hr
  rw [List.mem_append] at hr
  rcases hr with hr | hr
  · exact h.sep r hr
  · exact h.str.apart hw hg r hr

/-- Segments. -/
theorem RepS.grow {n : Nat} {ms : List (Nat × (Nat → Nat))} {w' : AMem} (h : RepS o w t v R) (hw : Ok w) (hg : Given w.live (segAsks v.es v.size n) ms)
    (g : Grown w t o v.es (max v.size n) (bits (max v.size n)) v.size R (regs (segAsks v.es v.size n) ms) w')
    (k : RepS o w' t { v with size := max v.size n, own := v.own ++ regs (segAsks v.es v.size n) ms, addr := eaddr (R ++ regs (segAsks v.es v.size n) ms) v.es }
      (R ++ regs (segAsks v.es v.size n) ms) → Rep w' t
      { v with size := max v.size n, own := v.own ++ regs (segAsks v.es v.size n) ms, addr := eaddr (R ++ regs (segAsks v.es v.size n) ms) v.es }) :
    GOk w t v n (regs (segAsks v.es v.size n) ms) (eaddr (R ++ regs (segAsks v.es v.size n) ms) v.es) w' := by
  have ho := h.off
  have hb := le_bits v.size
  have hb' := le_bits (max v.size n)
  refine ⟨g.ok, g.live, ?_, k ⟨h.com.grow hw hg g.live _ _, h.off, g.seg.mono (Nat.le_max_left _ _), by rw [h.own], fun _ _ => rfl⟩, ?_, ?_⟩
  · intro x hx hL
    refine g.out x ⟨?_, hL⟩
    by_contra hc
    exact hx (.inl (by omega))
  · intro pos hp
    rw [h.addr pos hp, eaddr_app h.seg.len h.seg.b6 (by omega)]
  · intro pos h1 h2 x h3 h4
    exact g.seg.zero pos h1 (by omega) x h3 h4

/-- Blocks. -/
theorem RepB.grow {n : Nat} {ms : List (Nat × (Nat → Nat))} {w' : AMem} (h : RepB o w t v R Bl) (hw : Ok w)
    (hg : Given w.live (segAsks ptrSize (blocks v.size) (blocks n) ++ List.replicate (blocks n - blocks v.size) (4096 * v.es)) ms) {L N L' : List (Nat × Nat)}
    (hL' : L' = regs (segAsks ptrSize (blocks v.size) (blocks n) ++ List.replicate (blocks n - blocks v.size) (4096 * v.es)) ms)
    (hL : L' = L ++ N) (hN : N.length = blocks n - blocks v.size)
    (g : BGrown w t o v.es (max v.size n) (blocks (max v.size n)) v.size R Bl L N w')
    (k : RepB o w' t { v with size := max v.size n, own := v.own ++ L', addr := baddr (Bl ++ N) v.es }
      (R ++ L) (Bl ++ N) → Rep w' t { v with size := max v.size n, own := v.own ++ L', addr := baddr (Bl ++ N) v.es }) :
    GOk w t v n L' (baddr (Bl ++ N) v.es) w' := by
  have ho := h.off
  have hlen : (Bl ++ N).length = blocks (max v.size n) := by
    rw [List.length_append, h.len, hN]
    unfold blocks
    omega
  have hlive : w'.live = addRegs w.live L' := by rw [hL]; exact g.live
  refine ⟨g.ok, hlive, ?_, k ⟨?_, h.off, g.blk.mono (Nat.le_max_left _ _), hlen, ?_, fun _ _ => rfl⟩, ?_, ?_⟩
  · intro x hx hLx
    refine g.out x ⟨?_, ?_⟩
    · by_contra hc
      exact hx (.inl (by have := h.blk.off; omega))
    · intro r hr
      rw [← hL, List.mem_append] at hr
      rcases hr with hr | hr
      · by_contra hc
        exact hx (h.index hw hr (by omega) (by omega))
      · exact hLx r hr
  · rw [hL'] at hlive ⊢
    exact h.com.grow hw hg hlive _ _
  · show (v.own ++ L').Perm _
    rw [hL, List.append_assoc, ← List.append_assoc L]
    refine (h.own.append_right _).trans ?_
    rw [List.append_assoc]
    refine List.Perm.append_left R ?_
    rw [← List.append_assoc]
    exact List.Perm.append_right N List.perm_append_comm
  · intro pos hp
    rw [h.addr pos hp, baddr_app (by rw [h.len]; exact blk_ix hp)]
  · intro pos h1 h2 x h3 h4
    exact g.blk.zero pos h1 (by rw [hlen]; exact blk_ix h2) x h3 h4

theorem regs_len {ns : List Nat} {live : Nat → Option Nat} {ms : List (Nat × (Nat → Nat))} (hg : Given live ns ms) : (regs ns ms).length = ns.length := by
  have := congrArg List.length (regs_snd hg)
  rwa [List.length_map] at this

theorem Rep.grow (h : Rep w t v) (hw : Ok w) {n : Nat} (hn : n < 2 ^ sizeBit) {ms : List (Nat × (Nat → Nat))} (hg : Given w.live (v.asks n) ms) :
    ∃ w' A, step (.grow t v.ty n ms) w = some (⟨0, (regs (v.asks n) ms).map fun x => BEvent.got x.1 x.2, w'⟩, w') ∧ GOk w t v n (regs (v.asks n) ms) A w' := by
  cases h with
  | array R ty h e =>
    have ha : v.asks n = segAsks v.es v.size n := by unfold Vec.asks; rw [ty]; rfl
    rw [ha] at hg ⊢
    have h1 := h.seg
    rw [e] at h1
    obtain ⟨w', e1, g⟩ := run_array_grow CArraySpec.ext (.struct "tommy_array_struct") (c := n) (ms := ms) (rest := []) (log := []) h1 hw hn (by rw [← e]; exact hg)
    rw [← e] at g e1
    refine ⟨w', _, ?_, h.grow hw hg g fun h' => .array _ ty h' e⟩
    rw [ty, ← List.append_nil ms]
    rw [List.append_nil] at e1 ⊢
    exact call_of e1
  | arrayof R ty h e =>
    have ha : v.asks n = segAsks v.es v.size n := by unfold Vec.asks; rw [ty]; rfl
    rw [ha] at hg ⊢
    obtain ⟨w', e1, g⟩ := run_arrayof_grow CArraySpec.ext (.struct "tommy_arrayof_struct") (c := n) (ms := ms) (rest := []) (log := []) h.seg e hw hn hg
    refine ⟨w', _, ?_, h.grow hw hg g fun h' => .arrayof _ ty h' ?_⟩
    · rw [ty]
      rw [List.append_nil] at e1
      exact call_of e1
    · exact mid_es t v.es w w' (fun x hx1 hx2 => g.out x ⟨.inr (.inl ⟨hx1, hx2⟩), fun r hr => by
        have := h.seg.str.apart hw hg r hr
        unfold strB at this
        omega⟩) e
  | arrayblk R Bl ty h e =>
    have ha : v.asks n = segAsks ptrSize (blocks v.size) (blocks n) ++ List.replicate (blocks n - blocks v.size) (4096 * v.es) := by unfold Vec.asks; rw [ty]; rfl
    rw [ha] at hg ⊢
    obtain ⟨m1, m2, hms, g1, g2⟩ := given_app hg
    have h1 := h.blk
    rw [e] at h1
    obtain ⟨w', e1, g⟩ := run_arrayblk_grow CArraySpec.ext (.struct "tommy_arrayblk_struct") (c := n) (rest := []) (log := []) h1 h.len hw hn g1 (by rw [e] at g2; exact g2)
    have hr := regs_app (ns' := List.replicate (blocks n - blocks v.size) (4096 * v.es)) (m2 := m2) (given_len g1)
    rw [List.append_nil, ← hms] at e1
    refine ⟨w', _, ?_, h.grow hw hg rfl (by rw [hms]; exact hr) (by rw [regs_len g2, List.length_replicate]) (by rw [e]; exact g) fun h' => .arrayblk _ _ ty h' e⟩
    rw [ty, hms, hr, e]
    rw [hms] at e1
    exact call_of e1
  | arrayblkof R Bl ty h e =>
    have ha : v.asks n = segAsks ptrSize (blocks v.size) (blocks n) ++ List.replicate (blocks n - blocks v.size) (4096 * v.es) := by unfold Vec.asks; rw [ty]; rfl
    rw [ha] at hg ⊢
    obtain ⟨m1, m2, hms, g1, g2⟩ := given_app hg
    obtain ⟨w', e1, g⟩ := run_arrayblkof_grow CArraySpec.ext (.struct "tommy_arrayblkof_struct") (c := n) (rest := []) (log := []) h.blk h.len e hw hn g1 g2
    have hr := regs_app (ns' := List.replicate (blocks n - blocks v.size) (4096 * v.es)) (m2 := m2) (given_len g1)
    rw [← hr, List.append_nil, ← hms] at e1
    refine ⟨w', _, ?_, h.grow hw hg rfl (by rw [hms]; exact hr) (by rw [regs_len g2, List.length_replicate]) g fun h' => .arrayblkof _ _ ty h' ?_⟩
    · rw [ty]
      exact call_of e1
    · have ho := h.off
      exact mid_esB t v.es w w' (fun x hx1 hx2 => g.out x ⟨.inr (.inl ⟨hx1, hx2⟩), fun r hr' => by
        rw [List.mem_append] at hr'
        rcases hr' with hr' | hr'
        · have := h.blk.sep r (List.mem_append_left _ hr')
          omega
        · have := h.blk.str.apart hw hg r (by rw [hms, hr]; exact hr')
          omega⟩) e

theorem Rep.insert (h : Rep w t v) (hw : Ok w) (ht : v.ty.ptrs = true) {d : Nat} {ms : List (Nat × (Nat → Nat))} (hg : Given w.live (v.asks (v.size + 1)) ms) :
    ∃ w' A, step (.insert t v.ty d ms) w = some (⟨0, (regs (v.asks (v.size + 1)) ms).map fun x => BEvent.got x.1 x.2, setW w' (A v.size) ptrSize d⟩,
      setW w' (A v.size) ptrSize d) ∧ GOk w t v (v.size + 1) (regs (v.asks (v.size + 1)) ms) A w' := by
  have hmx : max v.size (v.size + 1) = v.size + 1 := Nat.max_eq_right (by omega)
  cases h with
  | array R ty h e =>
    have ha : v.asks (v.size + 1) = segAsks v.es v.size (v.size + 1) := by unfold Vec.asks; rw [ty]; rfl
    rw [ha] at hg ⊢
    have h1 := h.seg
    rw [e] at h1
    have hlt : v.size + 1 < 2 ^ sizeBit := by
      have := bits_lt h.seg hw hg
      rw [bits_add (by omega)] at this
      exact Nat.lt_of_le_of_lt (le_bits _) (pow_lt_pow' this)
    obtain ⟨w', e1, g⟩ := run_array_insert CArraySpec.ext (.struct "tommy_array_struct") .void (ms := ms) (rest := []) (log := []) (d := d) h1 hw hlt (by rw [← e]; exact hg)
    rw [← e, ← hmx] at g
    rw [List.append_nil, ← e] at e1
    refine ⟨w', _, ?_, h.grow hw hg (by rw [hmx] at g ⊢; exact g) fun h' => .array _ ty h' e⟩
    rw [ty]
    rw [e] at e1 ⊢
    exact call_of e1
  | arrayof R ty h e => rw [ty] at ht; cases ht
  | arrayblk R Bl ty h e =>
    have ha : v.asks (v.size + 1) = segAsks ptrSize (blocks v.size) (blocks (v.size + 1)) ++ List.replicate (blocks (v.size + 1) - blocks v.size) (4096 * v.es) := by
      unfold Vec.asks; rw [ty]; rfl
    rw [ha] at hg ⊢
    obtain ⟨m1, m2, hms, g1, g2⟩ := given_app hg
    have hlt : v.size + 1 < 2 ^ sizeBit := by
      exact Nat.lt_of_lt_of_le (Nat.lt_add_of_pos_right (by decide)) (blk_bound (c := v.size + 1) h.blk hw g1 (by rw [h.len]; exact g2))
    have h1 := h.blk
    rw [e] at h1
    obtain ⟨w', e1, g⟩ := run_arrayblk_insert CArraySpec.ext (.struct "tommy_arrayblk_struct") .void (rest := []) (log := []) (d := d) h1 h.len hw hlt g1 (by rw [e] at g2; exact g2)
    have hr := regs_app (ns' := List.replicate (blocks (v.size + 1) - blocks v.size) (4096 * v.es)) (m2 := m2) (given_len g1)
    rw [List.append_nil, ← hms] at e1
    refine ⟨w', _, ?_, h.grow hw hg rfl (by rw [hms]; exact hr) (by rw [regs_len g2, List.length_replicate]) (by rw [hmx, e]; exact g) fun h' => .arrayblk _ _ ty h' e⟩
    rw [ty, hms, hr]
    rw [e]
    rw [hms, List.nil_append] at e1
    generalize blocks (v.size + 1) = B at e1 ⊢
    exact call_of e1
  | arrayblkof R Bl ty h e => rw [ty] at ht; cases ht

/-! ### init -/

theorem Rep.init {ty : Ty} {es : Nat} {ms : List (Nat × (Nat → Nat))} (hw : Ok w) (hs : InReg w t ty.strSize) (he : 0 < es) (hes : es < 2 ^ sizeBit)
    (hp : ty.ptrs = true → es = ptrSize) (hg : Given w.live [ty.first es] ms) :
    ∃ w', step (.init t ty es ms) w = some (⟨0, (regs [ty.first es] ms).map fun x => BEvent.got x.1 x.2, w'⟩, w') ∧ Ok w' ∧
      w'.live = addRegs w.live (regs [ty.first es] ms) ∧
      (∀ x, x < t ∨ t + ty.strSize ≤ x → (∀ r ∈ regs [ty.first es] ms, x < r.1 ∨ r.1 + r.2 ≤ x) → w'.byte x = w.byte x) ∧
      Rep w' t ⟨ty, es, 0, fun _ => 0, regs [ty.first es] ms⟩ := by
  match ms, hg with
  | [m], hg' =>
  have hf := hg'.1
  have hcom : ∀ w' : AMem, w'.live = addRegs w.live (regs [ty.first es] [m]) → Common w' t ⟨ty, es, 0, fun _ => 0, regs [ty.first es] [m]⟩ := fun w' hl =>
    ⟨hs.add hw hg' hl, hs.apart hw hg'⟩
  have h6 : bits 0 = 6 := by decide
  have h0 : blocks 0 = 0 := rfl
  cases ty with
  | array =>
    have e := hp rfl
    subst e
    have hs' : InReg w t (strB arrMax) := hs.sub (Nat.le_refl _) (by have := sz_array; omega)
    obtain ⟨k1, k2, k3, k4⟩ := init_spec hs' hw (Nat.le_refl _) he hf
    refine ⟨_, call_of (run_array_init CArraySpec.ext _ (rest := []) (log := []) hs' hf), k2, k3, ?_, ?_⟩
    · intro x hx hL
      exact k4 x ⟨by have := sz_array; omega, hL⟩
    · exact .array _ rfl ⟨hcom _ k3, sz_array, by rw [h6]; exact k1, rfl, fun pos hp => absurd hp (Nat.not_lt_zero _)⟩ rfl
  | arrayof =>
    have hs' : InReg w t (strB ofMax) := hs.sub (Nat.le_refl _) (by have := sz_arrayof; omega)
    have ho : ofMax = ptrSize * sizeBit + ptrSize := rfl
    have hE : ofEs = ptrSize * sizeBit := rfl
    have hB : strB ofMax = ofMax + 2 * ptrSize + 4 := rfl
    have hsz := sz_arrayof
    obtain ⟨k1, k2, k3, k4⟩ := init_spec (w := setW w (t + ofEs) ptrSize es) (InReg.setL rfl hs') (ok_set hw _ _ _) (o := ofMax) (by omega) he hf
    refine ⟨_, call_of (run_arrayof_init CArraySpec.ext _ (rest := []) (log := []) hs' hes hf), k2, k3, ?_, ?_⟩
    · intro x hx hL
      rw [k4 x ⟨by omega, hL⟩, set_out (by omega)]
    · refine .arrayof _ rfl ⟨hcom _ k3, sz_arrayof, by rw [h6]; exact k1, rfl, fun pos hp => absurd hp (Nat.not_lt_zero _)⟩ ?_
      have hfr := hs'.fresh hf
      refine (mid_es t es) (setW w (t + ofEs) ptrSize es) _ (fun x h1 h2 => k4 x ⟨.inr (.inl ⟨h1, h2⟩), ?_⟩) (rd_set (by rw [C.eight_ptr]; exact hes))
      intro r hr
      rw [List.mem_singleton] at hr
      subst hr
      show x < m.1 ∨ m.1 + 64 * es ≤ x
      have : Ty.first .arrayof es = 64 * es := rfl
      omega
  | arrayblk =>
    have e := hp rfl
    subst e
    have hs' : InReg w t (blkCnt + ptrSize) := hs.sub (Nat.le_refl _) (by have := sz_arrayblk; omega)
    have hsz := sz_arrayblk
    obtain ⟨k1, k2, k3, k4⟩ := blkInit_spec hs' hw hf rfl
    refine ⟨_, call_of (run_arrayblk_init CArraySpec.ext _ (rest := []) (log := []) hs' hf), k2, k3, ?_, ?_⟩
    · intro x hx hL
      exact k4 x (by omega) (hL (m.1, _) (List.mem_singleton_self _))
    · exact .arrayblk _ _ rfl ⟨hcom _ k3, sz_arrayblk, by rw [h0]; exact k1, (List.length_nil (α := Nat × Nat)).trans h0.symm, .refl _, fun pos hp => absurd hp (Nat.not_lt_zero _)⟩ rfl
  | arrayblkof =>
    have hs' : InReg w t (bkfCnt + ptrSize) := hs.sub (Nat.le_refl _) (by have := sz_arrayblkof; omega)
    have hsz := sz_arrayblkof
    obtain ⟨k1, k2, k3, k5, k4⟩ := bkfInit_spec (es := es) hs' hw hf he hes rfl
    refine ⟨_, call_of (run_arrayblkof_init CArraySpec.ext _ (rest := []) (log := []) hs' hf), k2, k3, ?_, ?_⟩
    · intro x hx hL
      exact k4 x (by omega) (hL (m.1, _) (List.mem_singleton_self _))
    · exact .arrayblkof _ _ rfl ⟨hcom _ k3, sz_arrayblkof, by rw [h0]; exact k1, (List.length_nil (α := Nat × Nat)).trans h0.symm, .refl _, fun pos hp => absurd hp (Nat.not_lt_zero _)⟩ k5

end Tommy.CArr
