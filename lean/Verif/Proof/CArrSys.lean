import Verif.Proof.CArrGrow
/-! A program which uses any number of arrays. -/
set_option autoImplicit false
set_option linter.unusedSectionVars false
namespace Tommy.CArr
open CArraySpec C C.Src
open HashFlat hiding Fresh
variable [Arch]

variable {w s s' : AMem} {a : Ab} {t : Nat} {v : Vec}

/-- The invariant: each array is right in the memory, and no byte is for two arrays. -/
structure Inv (s : AMem) (a : Ab) : Prop where
  mem : a.mem = s
  ok : Ok s
  rep : ∀ t v, a.tab t = some v → Rep s t v
  int : ∀ t v t' v', a.tab t = some v → a.tab t' = some v' → t ≠ t' → ∀ x, v.internal t x → ¬ v'.internal t' x
  own : ∀ t v t' v', a.tab t = some v → a.tab t' = some v' → t ≠ t' → ∀ r ∈ v.own, ∀ r' ∈ v'.own, r.1 ≠ r'.1

theorem Inv.places (h : Inv s a) : a.places := fun t v hv => by
  rw [h.mem]
  exact (h.rep t v hv).places h.ok

theorem Rep.inReg (h : Rep w t v) (hw : Ok w) {x : Nat} (hx : v.internal t x) : InReg w x 1 := by
  rcases hx with hx | ⟨⟨r, hr, h1, h2⟩, _⟩
  · exact h.com.str.sub hx.1 (by omega)
  · exact ⟨r.1, r.2, (h.places hw).1 r hr, h1, by omega⟩

/-- An array which is not changed. -/
theorem Rep.frame {ns : List Nat} {ms : List (Nat × (Nat → Nat))} {w' : AMem} (h : Rep w t v) (hw : Ok w) (hg : Given w.live ns ms)
    (hl : w'.live = addRegs w.live (regs ns ms))
    (hb : ∀ x, v.internal t x → (∀ r ∈ regs ns ms, x < r.1 ∨ r.1 + r.2 ≤ x) → w'.byte x = w.byte x) : Rep w' t v := by
  refine h.congr hw (h.com.str.add hw hg hl) ?_ fun x hx => hb x hx ?_
  · intro r hr
    rw [hl]
    exact (given_add ⟨hw.pos, hw.reg⟩ hg).2.1 _ _ ((h.places hw).1 r hr)
  · intro r hr
    have := (h.inReg hw hx).apart hw hg r hr
    omega

/-- The same arrays in another memory. -/
theorem Inv.mem_change (h : Inv s a) (hw : Ok s') (hr : ∀ t v, a.tab t = some v → Rep s' t v) : Inv s' ⟨s', a.tab⟩ :=
  ⟨rfl, hw, hr, h.int, h.own⟩

/-! ### grow and insert -/

/-- A grow, also with the new element written. -/
structure GOk0 (w : AMem) (t : Nat) (v : Vec) (n : Nat) (L : List (Nat × Nat)) (A : Nat → Nat) (w' : AMem) : Prop where
  ok : Ok w'
  live : w'.live = addRegs w.live L
  out : ∀ x, ¬ v.internal t x → (∀ r ∈ L, x < r.1 ∨ r.1 + r.2 ≤ x) → w'.byte x = w.byte x
  rep : Rep w' t { v with size := max v.size n, own := v.own ++ L, addr := A }
  old : ∀ pos, pos < v.size → A pos = v.addr pos

theorem GOk.to {n : Nat} {L : List (Nat × Nat)} {A : Nat → Nat} {w' : AMem} (h : GOk w t v n L A w') : GOk0 w t v n L A w' :=
  ⟨h.ok, h.live, h.out, h.rep, h.old⟩

theorem GOk.write {L : List (Nat × Nat)} {A : Nat → Nat} {w' : AMem} (h : GOk w t v (v.size + 1) L A w') (he : v.es = ptrSize) (d : Nat) :
    GOk0 w t v (v.size + 1) L A (setW w' (A v.size) ptrSize d) := by
  have hmx : max v.size (v.size + 1) = v.size + 1 := Nat.max_eq_right (by omega)
  obtain ⟨p1, p2⟩ := h.rep.places h.ok
  obtain ⟨⟨r, hr, r1, r2⟩, p3⟩ := p2 v.size (show _ < max _ _ by omega)
  have hsep := h.rep.com.sep r hr
  dsimp only at r1 r2 p3 hr hsep
  rw [he] at r2
  refine ⟨ok_set h.ok _ _ _, h.live, ?_, ?_, h.old⟩
  · intro x hx hL
    rw [set_out, h.out x hx hL]
    by_contra hc
    rw [List.mem_append] at hr
    rcases hr with hr | hr
    · refine hx (.inr ⟨⟨r, hr, by omega, by omega⟩, ?_⟩)
      rintro ⟨q, q1, q2, q3⟩
      rw [← h.old q q1] at q2 q3
      have := p3 q (by omega) (by omega)
      rw [he] at this q3
      omega
    · have := hL r hr
      omega
  · refine h.rep.congr h.ok (h.rep.com.str.setL rfl) p1 ?_
    intro x hx
    refine set_out ?_
    rcases hx with hx | ⟨_, hx⟩
    · dsimp only at hx
      omega
    · by_contra hc
      exact hx ⟨v.size, show _ < max _ _ by omega, show A v.size ≤ x by omega, show x < A v.size + v.es by rw [he]; omega⟩

theorem GOk0.addr {n : Nat} {ms : List (Nat × (Nat → Nat))} {A : Nat → Nat} (g : GOk0 s t v n (regs (v.asks n) ms) A s') :
    ∀ pos, pos < max v.size n → (v.grown t n ms s').addr pos = A pos := by
  intro pos hp
  show ((step (.ref t v.ty pos) s').map fun r => r.1.res).getD 0 = _
  have := g.rep.ref g.ok (pos := pos) hp
  dsimp only at this
  rw [this]
  rfl

theorem GOk0.internal {n : Nat} {ms : List (Nat × (Nat → Nat))} {A : Nat → Nat} (g : GOk0 s t v n (regs (v.asks n) ms) A s') {x : Nat}
    (hx : (v.grown t n ms s').internal t x) : v.internal t x ∨ ∃ r ∈ regs (v.asks n) ms, r.1 ≤ x ∧ x < r.1 + r.2 := by
  rcases hx with hx | ⟨⟨r, hr, h1, h2⟩, hx⟩
  · exact .inl (.inl hx)
  · rcases List.mem_append.1 hr with hr | hr
    · refine .inl (.inr ⟨⟨r, hr, h1, h2⟩, ?_⟩)
      rintro ⟨q, q1, q2, q3⟩
      rw [← g.old q q1, ← g.addr q (by omega)] at q2 q3
      exact hx ⟨q, show _ < max _ _ by omega, q2, q3⟩
    · exact .inr ⟨r, hr, h1, h2⟩

theorem Inv.grow (h : Inv s a) (hv : a.tab t = some v) {n : Nat} {ms : List (Nat × (Nat → Nat))} (hg : Given s.live (v.asks n) ms) {A : Nat → Nat}
    (g : GOk0 s t v n (regs (v.asks n) ms) A s') : Inv s' ⟨s', upd a.tab t (some (v.grown t n ms s'))⟩ := by
  have hR := h.rep t v hv
  have hadd := given_add ⟨h.ok.pos, h.ok.reg⟩ hg
  -- the internal bytes of the other arrays
  have key : ∀ t' v', a.tab t' = some v' → t ≠ t' → ∀ x, (v.grown t n ms s').internal t x → ¬ v'.internal t' x := by
    intro t' v' hv' hne x hx hx'
    rcases g.internal hx with h1 | ⟨r, hr, h1, h2⟩
    · exact h.int t v t' v' hv hv' hne x h1 hx'
    · have := ((h.rep t' v' hv').inReg h.ok hx').apart h.ok hg r hr
      omega
  have keyo : ∀ t' v', a.tab t' = some v' → t ≠ t' → ∀ r ∈ (v.grown t n ms s').own, ∀ r' ∈ v'.own, r.1 ≠ r'.1 := by
    intro t' v' hv' hne r hr r' hr' e
    rcases List.mem_append.1 hr with hr | hr
    · exact h.own t v t' v' hv hv' hne r hr r' hr' e
    · have h1 := hadd.2.2.2.1 r hr
      rw [e, ((h.rep t' v' hv').places h.ok).1 r' hr'] at h1
      cases h1
  refine ⟨rfl, g.ok, ?_, ?_, ?_⟩
  · intro t' v' hv'
    dsimp only at hv'
    by_cases e : t' = t
    · subst e
      rw [upd_same] at hv'
      cases hv'
      exact g.rep.addr (A := (v.grown t' n ms s').addr) fun pos hp => g.addr pos hp
    · rw [upd_ne e] at hv'
      exact (h.rep t' v' hv').frame h.ok hg g.live fun x hx hL => g.out x (fun hx' => h.int t v t' v' hv hv' (Ne.symm e) x hx' hx) hL
  · intro t1 v1 t2 v2 h1 h2 hne
    dsimp only at h1 h2
    by_cases e1 : t1 = t
    · subst e1
      rw [upd_same] at h1
      cases h1
      rw [upd_ne (Ne.symm hne)] at h2
      exact key t2 v2 h2 hne
    · rw [upd_ne e1] at h1
      by_cases e2 : t2 = t
      · subst e2
        rw [upd_same] at h2
        cases h2
        exact fun x hx hx' => key t1 v1 h1 (Ne.symm hne) x hx' hx
      · rw [upd_ne e2] at h2
        exact h.int t1 v1 t2 v2 h1 h2 hne
  · intro t1 v1 t2 v2 h1 h2 hne
    dsimp only at h1 h2
    by_cases e1 : t1 = t
    · subst e1
      rw [upd_same] at h1
      cases h1
      rw [upd_ne (Ne.symm hne)] at h2
      exact keyo t2 v2 h2 hne
    · rw [upd_ne e1] at h1
      by_cases e2 : t2 = t
      · subst e2
        rw [upd_same] at h2
        cases h2
        exact fun r hr r' hr' e => keyo t1 v1 h1 (Ne.symm hne) r' hr' r hr e.symm
      · rw [upd_ne e2] at h2
        exact h.own t1 v1 t2 v2 h1 h2 hne

theorem GOk0.stable {n : Nat} {ms : List (Nat × (Nat → Nat))} {A : Nat → Nat} (g : GOk0 s t v n (regs (v.asks n) ms) A s') (hv : a.tab t = some v) :
    stable a ⟨s', upd a.tab t (some (v.grown t n ms s'))⟩ := by
  intro t' v1 v2 h1 h2 pos hp
  dsimp only at h2
  by_cases e : t' = t
  · subst e
    rw [hv] at h1
    cases h1
    rw [upd_same] at h2
    cases h2
    rw [g.addr pos (by omega), g.old pos hp]
  · rw [upd_ne e, h1] at h2
    cases h2
    rfl

/-! ### init -/

theorem strSize_pos (ty : Ty) : 0 < ty.strSize := by
  have := p4
  cases ty <;> exact Nat.mul_pos (by omega) (by omega)

theorem Inv.init (h : Inv s a) {ty : Ty} {es : Nat} {ms : List (Nat × (Nat → Nat))} (hf : a.Free t ty.strSize) (hg : Given s.live [ty.first es] ms)
    (hw : Ok s') (hl : s'.live = addRegs s.live (regs [ty.first es] ms))
    (hb : ∀ x, x < t ∨ t + ty.strSize ≤ x → (∀ r ∈ regs [ty.first es] ms, x < r.1 ∨ r.1 + r.2 ≤ x) → s'.byte x = s.byte x)
    (hr : Rep s' t ⟨ty, es, 0, fun _ => 0, regs [ty.first es] ms⟩) : Inv s' ⟨s', upd a.tab t (some ⟨ty, es, 0, fun _ => 0, regs [ty.first es] ms⟩)⟩ := by
  have hadd := given_add ⟨h.ok.pos, h.ok.reg⟩ hg
  have key : ∀ t' v', a.tab t' = some v' → ∀ x, Vec.internal t ⟨ty, es, 0, fun _ => 0, regs [ty.first es] ms⟩ x → ¬ v'.internal t' x := by
    intro t' v' hv' x hx hx'
    rcases hx with hx | ⟨⟨r, hr, h1, h2⟩, _⟩
    · exact hf x hx.1 hx.2 t' v' hv' hx'
    · have := ((h.rep t' v' hv').inReg h.ok hx').apart h.ok hg r hr
      omega
  have keyo : ∀ t' v', a.tab t' = some v' → ∀ r ∈ regs [ty.first es] ms, ∀ r' ∈ v'.own, r.1 ≠ r'.1 := by
    intro t' v' hv' r hr r' hr' e
    have h1 := hadd.2.2.2.1 r hr
    rw [e, ((h.rep t' v' hv').places h.ok).1 r' hr'] at h1
    cases h1
  refine ⟨rfl, hw, ?_, ?_, ?_⟩
  · intro t' v' hv'
    dsimp only at hv'
    by_cases e : t' = t
    · subst e
      rw [upd_same] at hv'
      cases hv'
      exact hr
    · rw [upd_ne e] at hv'
      refine (h.rep t' v' hv').frame h.ok hg hl fun x hx hL => hb x ?_ hL
      by_contra hc
      exact hf x (by omega) (by omega) t' v' hv' hx
  · intro t1 v1 t2 v2 h1 h2 hne
    dsimp only at h1 h2
    by_cases e1 : t1 = t
    · subst e1
      rw [upd_same] at h1
      cases h1
      rw [upd_ne (Ne.symm hne)] at h2
      exact key t2 v2 h2
    · rw [upd_ne e1] at h1
      by_cases e2 : t2 = t
      · subst e2
        rw [upd_same] at h2
        cases h2
        exact fun x hx hx' => key t1 v1 h1 x hx' hx
      · rw [upd_ne e2] at h2
        exact h.int t1 v1 t2 v2 h1 h2 hne
  · intro t1 v1 t2 v2 h1 h2 hne
    dsimp only at h1 h2
    by_cases e1 : t1 = t
    · subst e1
      rw [upd_same] at h1
      cases h1
      rw [upd_ne (Ne.symm hne)] at h2
      exact keyo t2 v2 h2
    · rw [upd_ne e1] at h1
      by_cases e2 : t2 = t
      · subst e2
        rw [upd_same] at h2
        cases h2
        exact fun r hr r' hr' e => keyo t1 v1 h1 r' hr' r hr e.symm
      · rw [upd_ne e2] at h2
        exact h.own t1 v1 t2 v2 h1 h2 hne

/-! ### done and drop -/

theorem upd_noneE {α : Type} {f : Nat → Option α} {t t' : Nat} {x : α} (h : upd f t none t' = some x) : t' ≠ t ∧ f t' = some x := by
  by_cases e : t' = t
  · subst e
    rw [upd_same] at h
    cases h
  · rw [upd_ne e] at h
    exact ⟨e, h⟩

theorem Inv.remove (h : Inv s a) (hw : Ok s') (hr : ∀ t' v', a.tab t' = some v' → t' ≠ t → Rep s' t' v') : Inv s' ⟨s', upd a.tab t none⟩ :=
  ⟨rfl, hw, fun t' v' hv => hr t' v' (upd_noneE hv).2 (upd_noneE hv).1,
    fun t1 v1 t2 v2 h1 h2 => h.int t1 v1 t2 v2 (upd_noneE h1).2 (upd_noneE h2).2,
    fun t1 v1 t2 v2 h1 h2 => h.own t1 v1 t2 v2 (upd_noneE h1).2 (upd_noneE h2).2⟩

theorem stable_remove : stable a ⟨s', upd a.tab t none⟩ := by
  intro t' v1 v2 h1 h2 pos hp
  have := (upd_noneE h2).2
  rw [h1] at this
  cases this
  rfl

theorem stable_same : stable a ⟨s', a.tab⟩ := by
  intro t' v1 v2 h1 h2 pos hp
  have h2 : a.tab t' = _ := h2
  rw [h1] at h2
  cases h2
  rfl

/-! ### Each call -/

theorem nil_log {L : List (Nat × Nat)} : ∃ gave : List (Nat × Nat), gave.Perm [] ∧ L.map (fun x => BEvent.got x.1 x.2) =
    L.map (fun x => BEvent.got x.1 x.2) ++ gave.map (fun x => BEvent.gave x.1) := ⟨[], .refl _, by simp⟩

theorem not_in {ns : List Nat} {ms : List (Nat × (Nat → Nat))} {x : Nat} (h : InReg w x 1) (hw : Ok w) (hg : Given w.live ns ms) :
    ∀ r ∈ regs ns ms, x < r.1 ∨ r.1 + r.2 ≤ x := by
  intro r hr
  have := h.apart hw hg r hr
  omega

/-- A call which only reads. -/
theorem read_step {op : Op} {r : Nat} (h : Inv s a) (e : step op s = some (⟨r, [], s⟩, s)) (hr : result a op r) (hw : written a op ⟨r, [], s⟩)
    (ho : olds a op = []) (hn : news a op = []) (ht : (next a op ⟨r, [], s⟩).tab = a.tab) :
    ∃ out s', step op s = some (out, s') ∧ allowed a op out ∧ Inv s' (next a op out) := by
  have hi : Inv s (next a op ⟨r, [], s⟩) := by
    have : next a op ⟨r, [], s⟩ = ⟨s, a.tab⟩ := by rw [← ht]; rfl
    rw [this]
    exact h.mem_change h.ok h.rep
  refine ⟨_, _, e, ⟨hr, hw, hi.places, ?_, ?_, ?_⟩, hi⟩
  · intro t' v1 v2 h1 h2 pos hp
    rw [ht, h1] at h2
    cases h2
    rfl
  · rw [ho, hn]
    exact nil_log (L := [])
  · intro _
    rw [ho, hn, h.mem]
    exact ⟨fun b => (if_neg (by simp)).symm, fun x _ _ => rfl⟩

theorem inv_step (s : AMem) (a : Ab) (op : Op) (h : Inv s a) (hl : legal a op) :
    ∃ out s', step op s = some (out, s') ∧ allowed a op out ∧ Inv s' (next a op out) := by
  have hw := h.ok
  cases op with
  | init t ty es ms =>
    obtain ⟨h1, h2, h3, h4, h5, h6⟩ := hl
    rw [h.mem] at h1 h6
    obtain ⟨w', e, k1, k2, k3, k4⟩ := Rep.init hw h1 h3 h4 h5 h6
    have hi := h.init h2 h6 k1 k2 k3 k4
    refine ⟨_, _, e, ⟨trivial, trivial, hi.places, ?_, nil_log, ?_⟩, hi⟩
    · intro t' v1 v2 g1 g2 pos hp
      change upd a.tab t _ t' = _ at g2
      by_cases e : t' = t
      · subst e
        have h7 := h.rep _ _ g1
        exact absurd (.inl ⟨Nat.le_refl _, Nat.lt_add_of_pos_right (strSize_pos _)⟩)
          (h2 t' (Nat.le_refl _) (Nat.lt_add_of_pos_right (strSize_pos _)) t' v1 g1)
      · rw [upd_ne e, g1] at g2
        cases g2
        rfl
    · intro _
      rw [h.mem]
      refine ⟨fun b => ?_, fun x hx ht => k3 x ?_ (not_in hx hw h6)⟩
      · show w'.live b = _
        rw [k2]
        exact (if_neg (by simp [olds])).symm
      · by_contra hc
        exact ht ⟨by omega, by omega⟩
  | grow t ty n ms =>
    obtain ⟨hn, v, hv, rfl, hg⟩ := hl
    rw [h.mem] at hg
    obtain ⟨w', A, e, g⟩ := (h.rep t v hv).grow hw hn hg
    have hi := h.grow hv hg g.to
    have hs := g.to.stable (a := a) hv
    have hN : next a (.grow t v.ty n ms) ⟨0, (regs (v.asks n) ms).map fun x => BEvent.got x.1 x.2, w'⟩ = ⟨w', upd a.tab t (some (v.grown t n ms w'))⟩ := by
      show Ab.mk _ (upd _ _ ((a.tab t).map _)) = _
      rw [hv]; rfl
    have hnews : news a (.grow t v.ty n ms) = regs (v.asks n) ms := by
      show ((a.tab t).map _).getD [] = _
      rw [hv]; rfl
    refine ⟨_, _, e, ⟨trivial, ?_, ?_, ?_, ?_, ?_⟩, ?_⟩
    · intro v1 v2 g1 g2 pos p1 p2 x x1 x2
      rw [hN] at g2
      rw [hv] at g1
      cases g1
      dsimp only at g2
      rw [upd_same] at g2
      cases g2
      rw [g.to.addr pos p2] at x1 x2
      exact g.zero pos p1 p2 x x1 x2
    · rw [hN]; exact hi.places
    · rw [hN]; exact hs
    · rw [hnews]; exact nil_log
    · intro _
      rw [h.mem, hnews]
      refine ⟨fun b => ?_, fun x hx ht => g.out x (fun hx' => ht ⟨v, hv, hx'⟩) (not_in hx hw hg)⟩
      show w'.live b = _
      rw [g.live]
      exact (if_neg (by simp [olds])).symm
    · rw [hN]; exact hi
  | insert t ty d ms =>
    obtain ⟨ht, hd, v, hv, rfl, hg⟩ := hl
    rw [h.mem] at hg
    have hes := (h.rep t v hv).es ht
    obtain ⟨w', A, e, g0⟩ := (h.rep t v hv).insert hw ht (d := d) hg
    have g := g0.write hes d
    have hi := h.grow hv hg g
    have hs := g.stable (a := a) hv
    have hN : next a (.insert t v.ty d ms) ⟨0, (regs (v.asks (v.size + 1)) ms).map fun x => BEvent.got x.1 x.2, setW w' (A v.size) ptrSize d⟩ =
        ⟨setW w' (A v.size) ptrSize d, upd a.tab t (some (v.grown t (v.size + 1) ms (setW w' (A v.size) ptrSize d)))⟩ := by
      show Ab.mk _ (upd _ _ ((a.tab t).map _)) = _
      rw [hv]; rfl
    have hnews : news a (.insert t v.ty d ms) = regs (v.asks (v.size + 1)) ms := by
      show ((a.tab t).map _).getD [] = _
      rw [hv]; rfl
    refine ⟨_, _, e, ⟨trivial, ?_, ?_, ?_, ?_, ?_⟩, ?_⟩
    · intro v1 v2 g1 g2
      rw [hN] at g2
      rw [hv] at g1
      cases g1
      dsimp only at g2
      rw [upd_same] at g2
      cases g2
      rw [g.addr v.size (by omega)]
      exact rd_set (by rw [C.eight_ptr]; exact hd)
    · rw [hN]; exact hi.places
    · rw [hN]; exact hs
    · rw [hnews]; exact nil_log
    · intro _
      rw [h.mem, hnews]
      refine ⟨fun b => ?_, fun x hx ht => g.out x (fun hx' => ht ⟨v, hv, hx'⟩) (not_in hx hw hg)⟩
      show (setW w' (A v.size) ptrSize d).live b = _
      rw [g.live]
      exact (if_neg (by simp [olds])).symm
    · rw [hN]; exact hi
  | ref t ty pos =>
    obtain ⟨v, hv, rfl, hp⟩ := hl
    refine read_step h ((h.rep t v hv).ref hw hp) ?_ trivial rfl rfl rfl
    intro v' hv'
    rw [hv] at hv'
    cases hv'
    rfl
  | get t ty pos =>
    obtain ⟨ht, v, hv, rfl, hp⟩ := hl
    refine read_step h ((h.rep t v hv).get hw ht hp) ?_ trivial rfl rfl rfl
    intro v' hv'
    rw [hv] at hv'
    cases hv'
    rw [h.mem]
  | set t ty pos d =>
    obtain ⟨ht, hd, v, hv, rfl, hp, hf⟩ := hl
    have hes := (h.rep t v hv).es ht
    rw [hes] at hf
    have e := (h.rep t v hv).set hw ht (d := d) hp
    have hi : Inv (setW s (v.addr pos) ptrSize d) ⟨setW s (v.addr pos) ptrSize d, a.tab⟩ := h.mem_change (ok_set hw _ _ _) fun t' v' hv' => by
      refine (h.rep t' v' hv').congr hw ((h.rep t' v' hv').com.str.setL rfl) ((h.rep t' v' hv').places hw).1 fun x hx => set_out ?_
      by_contra hc
      exact hf x (by omega) (by omega) t' v' hv' hx
    refine ⟨_, _, e, ⟨trivial, ?_, hi.places, stable_same, nil_log (L := []), ?_⟩, hi⟩
    · intro v' hv'
      rw [hv] at hv'
      cases hv'
      exact rd_set (by rw [C.eight_ptr]; exact hd)
    · intro _
      rw [h.mem]
      refine ⟨fun b => (if_neg (by simp [olds])).symm, fun x hx hn => set_out ?_⟩
      by_contra hc
      exact hn ⟨v, hv, by omega, by rw [hes]; omega⟩
  | size t ty =>
    obtain ⟨v, hv, rfl, _⟩ := hl
    refine read_step h (h.rep t v hv).size ?_ trivial rfl rfl rfl
    intro v' hv'
    rw [hv] at hv'
    cases hv'
    rfl
  | usage t ty =>
    obtain ⟨v, hv, rfl, _⟩ := hl
    refine read_step h ((h.rep t v hv).usage hw) ?_ trivial rfl rfl rfl
    intro v' hv'
    rw [hv] at hv'
    cases hv'
    rfl
  | done t ty =>
    obtain ⟨v, hv, rfl, hd⟩ := hl
    obtain ⟨L, hL, e⟩ := (h.rep t v hv).done hw
    have hlive := ((h.rep t v hv).places hw).1
    have hi : Inv (freeW s L) ⟨freeW s L, upd a.tab t none⟩ := h.remove (freeW_ok hw) fun t' v' hv' hne => by
      refine (h.rep t' v' hv').congr hw ((h.rep t' v' hv').com.str.free (strSize_pos _) (fun r hr => hlive r (hL.mem_iff.1 hr))
        fun r hr => hd t' v' hv' hne r (hL.mem_iff.1 hr)) (fun r hr => freeW_live (((h.rep t' v' hv').places hw).1 r hr) ?_) fun x hx => rfl
      rw [List.mem_map]
      rintro ⟨q, hq, eq⟩
      exact h.own t v t' v' hv hv' (Ne.symm hne) q (hL.mem_iff.1 hq) r hr eq
    have ho : olds a (.done t v.ty) = v.own := by
      show ((a.tab t).map _).getD [] = _
      rw [hv]; rfl
    refine ⟨_, _, e, ⟨trivial, trivial, hi.places, stable_remove, ⟨L, by rw [ho]; exact hL, rfl⟩, ?_⟩, hi⟩
    intro _
    rw [h.mem, ho]
    refine ⟨fun b => ?_, fun x _ _ => rfl⟩
    show (if _ then _ else _) = _
    have : b ∈ L.map Prod.fst ↔ b ∈ v.own.map Prod.fst := (hL.map _).mem_iff
    by_cases hb : b ∈ v.own.map Prod.fst
    · rw [if_pos hb, if_pos (this.2 hb)]
    · rw [if_neg hb, if_neg (fun hc => hb (this.1 hc))]; rfl
  | drop t =>
    have hi : Inv s ⟨s, upd a.tab t none⟩ := h.remove hw fun t' v' hv' _ => h.rep t' v' hv'
    refine ⟨_, _, rfl, ⟨trivial, trivial, hi.places, stable_remove, nil_log (L := []), ?_⟩, hi⟩
    intro _
    rw [h.mem]
    exact ⟨fun b => (if_neg (by simp [olds])).symm, fun x _ _ => rfl⟩
  | foreign w =>
    obtain ⟨h1, h2⟩ := hl
    have hi : Inv w ⟨w, a.tab⟩ := h.mem_change h1 fun t' v' hv' => by
      obtain ⟨k1, k2, k3⟩ := h2 t' v' hv'
      rw [h.mem] at k3
      exact (h.rep t' v' hv').congr hw k1 k2 k3
    exact ⟨_, _, rfl, ⟨trivial, trivial, hi.places, stable_same, nil_log (L := []), fun hf => absurd trivial hf⟩, hi⟩

theorem inv_init (s : AMem) (a : Ab) (h : sys.init s a) : Inv s a := by
  have key : ∀ {t v}, a.tab t ≠ some v := fun {t v} e => by
    rw [h.2.2 t] at e
    cases e
  exact ⟨h.1, h.2.1, fun t v hv => absurd hv key, fun t v _ _ hv => absurd hv key, fun t v _ _ hv => absurd hv key⟩

theorem sys_correct : sys.Correct := Sys.correct_of_inv (Inv := Inv) inv_init inv_step

end Tommy.CArr
