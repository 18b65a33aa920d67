import Verif.Proof.CAllocRun
/-! The allocators in the memory of bytes: the invariant. -/
set_option autoImplicit false
set_option linter.unusedSectionVars false
namespace Tommy.CAl
open CAllocSpec CArr C
open CArraySpec (Ok InReg Fresh)
open AllocSpec (PoolInv Pool Room realSize realAlign minBlocks)
variable [Arch]

/-- The allocator at `t` is in the memory. -/
structure Rep (s : AMem) (t : Nat) (P : Pool) : Prop where
  pool : ∃ al F, Str s t al ∧ PoolInv 0 s al P F
  sep : ∀ b ∈ P.segs, t + strSize ≤ b ∨ b + AllocSpec.segSize P.bs P.al ≤ t

variable {s s' : AMem} {a : Ab} {t : Nat} {P P' : Pool} {al : Alloc} {F : List Nat}

theorem Str.sim (h : Str s t al) (hw : Ok s) : Sim t s al s := ⟨h, hw, rfl, fun _ _ => rfl⟩

theorem Rep.reg (h : Rep s t P) : InReg s t strSize := by
  obtain ⟨al, F, h, _⟩ := h.pool
  exact h.reg

section
variable (hp : PoolInv 0 s al P F) (hw : Ok s)
include hp hw

/-- The blocks are not in the headers of the segments. -/
theorem blk_header {b p : Nat} (hb : b ∈ P.segs) (hq : p ∈ P.used ++ F) : b + ptrSize ≤ p ∨ p + P.bs ≤ b := by
  obtain ⟨_, c, hc, h1, h2⟩ := hp.blk p hq
  by_cases e : b = c
  · subst e; exact .inl h1
  · have := hw.reg b _ c _ (hp.live b hb).1 (hp.live c hc).1 e
    have hge := AllocSpec.segSize_ge P.bs P.al
    omega

theorem internal_header {b x : Nat} (hb : b ∈ P.segs) (h1 : b ≤ x) (h2 : x < b + ptrSize) : internal t P x := by
  have hge := AllocSpec.segSize_ge P.bs P.al
  refine .inr ⟨⟨b, hb, h1, by omega⟩, fun p hu => ?_⟩
  have := blk_header hp hw hb (p := p) (by simp [hu])
  omega

omit hw in
theorem internal_free {q x : Nat} (hq : q ∈ F) (h1 : q ≤ x) (h2 : x < q + P.bs) : internal t P x := by
  obtain ⟨_, c, hc, h3, h4⟩ := hp.blk q (by simp [hq])
  refine .inr ⟨⟨c, hc, by omega, by omega⟩, fun p hu => ?_⟩
  have := (List.pairwise_append.1 hp.apart).2.2 p hu q hq
  unfold AllocSpec.Off at this
  omega

end

theorem Rep.congr (h : Rep s t P) (hw : Ok s) (hr : InReg s' t strSize) (hb : ∀ x, internal t P x → s'.byte x = s.byte x)
    (hl : ∀ b ∈ P.segs, s'.live b = s.live b) : Rep s' t P := by
  obtain ⟨al, F, hs, hp⟩ := h.pool
  have hf : ∀ o, o + ptrSize ≤ 5 * ptrSize → rdN s'.byte (t + o) ptrSize = rdN s.byte (t + o) ptrSize := fun o ho =>
    AllocSpec.rdN_congr fun x h1 h2 => hb x (.inl ⟨by omega, by unfold strSize; omega⟩)
  refine ⟨⟨al, F, ⟨hr, (hf 0 (by omega)).trans hs.fb, (hf _ (by omega)).trans hs.seg, (hf _ (by omega)).trans hs.bs, (hf _ (by omega)).trans hs.al,
    (hf _ (by omega)).trans hs.cnt⟩, hp.congr (fun b hb' => ?_) (fun q hq => ?_) hl⟩, h.sep⟩
  · exact AllocSpec.rdN_congr fun x h1 h2 => hb x (internal_header hp hw hb' h1 h2)
  · have := hp.bs8
    exact AllocSpec.rdN_congr fun x h1 h2 => hb x (internal_free hp hq h1 (by omega))

theorem Rep.inReg (h : Rep s t P) {x : Nat} (hx : internal t P x) : InReg s x 1 := by
  rcases hx with ⟨h1, h2⟩ | ⟨⟨b, hb, h1, h2⟩, _⟩
  · exact h.reg.sub h1 (by omega)
  · obtain ⟨al, F, hs, hp⟩ := h.pool
    exact ⟨b, _, (hp.live b hb).1, h1, by omega⟩

omit [Arch] in
theorem off_of {n p q : Nat} : ∀ {l : List Nat}, l.Pairwise (AllocSpec.Off n) → p ∈ l → q ∈ l → p ≠ q → AllocSpec.Off n p q
  | [], _, hp, _, _ => by cases hp
  | x :: l, h, hp, hq, hne => by
    obtain ⟨h1, h2⟩ := List.pairwise_cons.1 h
    rcases List.mem_cons.1 hp with e | hp <;> rcases List.mem_cons.1 hq with e' | hq
    · exact (hne (e.trans e'.symm)).elim
    · rw [e]; exact h1 q hq
    · rw [e']; exact AllocSpec.off_symm (h1 p hp)
    · exact off_of h2 hp hq hne

/-- From the model to the bytes. -/
theorem Sim.rep {m : AMem} (h : Sim t m al s) (hp : PoolInv 0 m al P F) (hsep : ∀ b ∈ P.segs, t + strSize ≤ b ∨ b + AllocSpec.segSize P.bs P.al ≤ t) :
    Rep s t P := by
  have hge := AllocSpec.segSize_ge P.bs P.al
  have h8 := hp.bs8
  unfold strSize at hsep
  refine ⟨⟨al, F, h.str, hp.congr (fun b hb => ?_) (fun q hq => ?_) fun b _ => by rw [h.live]⟩, hsep⟩
  · have := hsep b hb
    exact h.rd (by omega)
  · obtain ⟨_, b, hb, h1, h2⟩ := hp.blk q (by simp [hq])
    have := hsep b hb
    exact h.rd (by omega)

/-- The invariant. -/
structure Inv (s : AMem) (a : Ab) : Prop where
  mem : a.mem = s
  ok : Ok s
  rep : ∀ t P, a.pool t = some P → Rep s t P
  int : ∀ t P t' P', a.pool t = some P → a.pool t' = some P' → t ≠ t' → ∀ x, internal t P x → ¬ internal t' P' x

/-- A call on the allocator at `t`. -/
theorem Inv.change (h : Inv s a) (hw : Ok s') (hr : Rep s' t P')
    (hi : ∀ x, internal t P' x → (∃ P, a.pool t = some P ∧ internal t P x) ∨ ∀ t' Q, a.pool t' = some Q → t' ≠ t → ¬ internal t' Q x)
    (hb : ∀ t' Q, a.pool t' = some Q → t' ≠ t → (∀ x, internal t' Q x → s'.byte x = s.byte x) ∧ (∀ b ∈ Q.segs, s'.live b = s.live b) ∧ InReg s' t' strSize) :
    Inv s' ⟨s', upd a.pool t (some P')⟩ := by
  have key : ∀ t' Q, a.pool t' = some Q → t' ≠ t → ∀ x, internal t P' x → ¬ internal t' Q x := by
    intro t' Q hQ hne x hx hx'
    rcases hi x hx with ⟨P, hP, hx⟩ | h'
    · exact h.int t P t' Q hP hQ (Ne.symm hne) x hx hx'
    · exact h' t' Q hQ hne hx'
  refine ⟨rfl, hw, fun t' Q hQ => ?_, fun t1 P1 t2 P2 h1 h2 hne x hx hx' => ?_⟩
  · change upd a.pool t (some P') t' = some Q at hQ
    by_cases e : t' = t
    · subst e; rw [upd_same] at hQ; cases hQ; exact hr
    · rw [upd_ne e] at hQ
      obtain ⟨h1, h2, h3⟩ := hb t' Q hQ e
      exact (h.rep t' Q hQ).congr h.ok h3 h1 h2
  · change upd a.pool t (some P') t1 = some P1 at h1
    change upd a.pool t (some P') t2 = some P2 at h2
    by_cases e : t1 = t
    · subst e; rw [upd_same] at h1; cases h1
      rw [upd_ne (Ne.symm hne)] at h2
      exact key t2 P2 h2 (Ne.symm hne) x hx hx'
    · rw [upd_ne e] at h1
      by_cases e2 : t2 = t
      · subst e2; rw [upd_same] at h2; cases h2
        exact key t1 P1 h1 e x hx' hx
      · rw [upd_ne e2] at h2
        exact h.int t1 P1 t2 P2 h1 h2 hne x hx hx'

theorem Inv.same (h : Inv s a) : Inv s ⟨s, a.pool⟩ := ⟨rfl, h.ok, h.rep, h.int⟩

theorem call_eq {f : String} {vs : List Val} {ms ms' : List (Nat × (Nat → Nat))} {v : Val} {log : List BEvent}
    (e : run ext f vs ⟨s, ms, []⟩ = some (v, ⟨s', ms', log⟩)) : call f vs ms s = some (⟨v.v, log, s'⟩, s') := by
  unfold call; rw [e]; rfl

/-! ### The calls -/

theorem step_init (h : Inv s a) {bs al : Nat} (hl : legal a (.init t bs al)) :
    ∃ out s', step (.init t bs al) s = some (out, s') ∧ allowed a (.init t bs al) out ∧ Inv s' (next a (.init t bs al) out) := by
  obtain ⟨hr, hf, h0, hb, ha, hfit⟩ := hl
  rw [h.mem] at hr
  obtain ⟨s', e, hs⟩ := run_init (ms := []) (log := []) ext hb ha hr h.ok
  obtain ⟨ei, h1, h2, h3, _⟩ := AllocSpec.init_real h0 hfit
  rw [ei] at hs
  have hout : ∀ x, ¬ (t ≤ x ∧ x < t + strSize) → s'.byte x = s.byte x := fun x hx => hs.out x (by unfold strSize at hx; omega)
  refine ⟨_, s', call_eq e, ⟨trivial, rfl, fun _ => ⟨?_, fun x _ hx => ?_⟩⟩, h.change hs.ok ?_ ?_ ?_⟩
  · show s'.live = a.mem.live
    rw [hs.live, h.mem]
  · rw [h.mem]; exact hout x hx
  · refine hs.rep (F := []) ?_ (fun b hb => by simp at hb)
    exact { bs := rfl, al := rfl, al8 := h1, bs8 := h2, mul := h3, fit := hfit, count := by simp, free := rfl, seg := rfl, nodup := List.nodup_nil,
            live := fun b hb => by simp at hb, apart := List.Pairwise.nil, blk := fun b hb => by simp at hb, ever := fun b hb => by simp at hb,
            cap := by simp }
  · rintro x (⟨h1, h2⟩ | ⟨⟨b, hb, _⟩, _⟩)
    · exact .inr fun t' Q hQ _ => hf x h1 h2 t' Q hQ
    · simp at hb
  · intro t' Q hQ _
    refine ⟨fun x hx => hout x fun hx' => hf x hx'.1 hx'.2 t' Q hQ hx, fun b _ => by rw [hs.live], (h.rep t' Q hQ).reg.setL hs.live⟩

theorem step_usage (h : Inv s a) (hl : legal a (.usage t)) :
    ∃ out s', step (.usage t) s = some (out, s') ∧ allowed a (.usage t) out ∧ Inv s' (next a (.usage t) out) := by
  obtain ⟨P, hP⟩ := hl
  obtain ⟨al, F, hs, hp⟩ := (h.rep t P hP).pool
  refine ⟨_, s, call_eq (run_usage (ms := []) (log := []) ext (hs.sim h.ok)), ⟨fun Q hQ => ?_, rfl, fun _ => ⟨by rw [h.mem]; rfl, fun x _ _ => by rw [h.mem]⟩⟩, h.same⟩
  rw [hP] at hQ; cases hQ
  show al.count * al.blockSize % 2 ^ sizeBit = _
  rw [hp.count, hp.bs, Nat.mul_mod, Nat.mod_mod, ← Nat.mul_mod]

theorem step_free (h : Inv s a) {p : Nat} (hl : legal a (.free t p)) :
    ∃ out s', step (.free t p) s = some (out, s') ∧ allowed a (.free t p) out ∧ Inv s' (next a (.free t p) out) := by
  obtain ⟨P, hP, hu, hf⟩ := hl
  have hr := h.rep t P hP
  obtain ⟨al, F, hs, hp⟩ := hr.pool
  have h8 := hp.bs8
  obtain ⟨_, c, hc, h1, h2⟩ := hp.blk p (by simp [hu])
  have hlc := hp.live c hc
  have hsep := hr.sep c hc
  have hge := AllocSpec.segSize_ge P.bs P.al
  obtain ⟨_, hp'⟩ := hp.push hu fun b hb b' hb' hne => h.ok.reg b _ b' _ (hp.live b hb).1 (hp.live b' hb').1 hne
  obtain ⟨s', e, hs'⟩ := run_free (ms := []) (log := []) ext (hs.sim h.ok) (p := p) ⟨c, _, hlc.1, by omega, by omega⟩ (by unfold strSize at hsep; omega) (by omega)
  have hn : next a (.free t p) ⟨0, [], s'⟩ = ⟨s', upd a.pool t (some { P with used := P.used.erase p })⟩ := by
    simp only [next, hP, Option.map_some]
  have hout : ∀ x, ¬ (t ≤ x ∧ x < t + strSize) → ¬ (p ≤ x ∧ x < p + P.bs) → s'.byte x = s.byte x := fun x hx hx' => by
    rw [hs'.out x (by unfold strSize at hx; omega)]
    exact AllocSpec.wrP_out (by omega)
  refine ⟨_, s', call_eq e, ⟨trivial, rfl, fun _ => ⟨?_, fun x _ hx => ?_⟩⟩, ?_⟩
  · show s'.live = a.mem.live
    rw [hs'.live, h.mem]
  · rw [h.mem]
    exact hout x (fun h' => hx (.inl h')) (fun h' => hx (.inr ⟨P, hP, h'⟩))
  · show Inv s' (next a (.free t p) ⟨0, [], s'⟩)
    rw [hn]
    refine h.change hs'.ok (hs'.rep hp' hr.sep) ?_ ?_
    · rintro x (hx | ⟨hx, hx'⟩)
      · exact .inl ⟨P, hP, .inl hx⟩
      · by_cases hb : p ≤ x ∧ x < p + P.bs
        · exact .inr fun t' Q hQ _ => hf x hb.1 hb.2 t' Q hQ
        · refine .inl ⟨P, hP, .inr ⟨hx, fun q hq => ?_⟩⟩
          by_cases e : q = p
          · subst e; omega
          · exact hx' q ((List.mem_erase_of_ne e).2 hq)
    · intro t' Q hQ hne
      refine ⟨fun x hx => hout x (fun h' => h.int t P t' Q hP hQ (Ne.symm hne) x (.inl h') hx) fun h' => hf x h'.1 h'.2 t' Q hQ hx,
        fun b _ => by rw [hs'.live], (h.rep t' Q hQ).reg.setL hs'.live⟩

theorem liveAfter_gave : ∀ (l : List Nat) (w : AMem), liveAfter w.live (l.map BEvent.gave) = (freeW w l).live := by
  intro l
  induction l with
  | nil => intro w; rfl
  | cons b l ih => intro w; exact ih { w with live := upd w.live b none }

theorem InReg.freeW {w : AMem} {l : List Nat} {S p n : Nat} (h : InReg w p n) (hl : ∀ b ∈ l, w.live b = some S) (hd : ∀ b ∈ l, p + n ≤ b ∨ b + S ≤ p)
    (hn : 0 < n) : InReg (freeW w l) p n := by
  obtain ⟨b, k, h1, h2, h3⟩ := h
  refine ⟨b, k, ?_, h2, h3⟩
  rw [freeW_live, if_neg]
  · exact h1
  · intro hb
    have := hl b hb
    rw [h1] at this
    cases this
    have := hd b hb
    omega

theorem str_pos : 0 < strSize := by unfold strSize; have := ptr_pos; omega

theorem step_done (h : Inv s a) (hl : legal a (.done t)) :
    ∃ out s', step (.done t) s = some (out, s') ∧ allowed a (.done t) out ∧ Inv s' (next a (.done t) out) := by
  obtain ⟨P, hP, hoth⟩ := hl
  have hr := h.rep t P hP
  obtain ⟨al, F, hs, hp⟩ := hr.pool
  have hge := AllocSpec.segSize_ge P.bs P.al
  have hp8 := ptr_pos
  have hlv : ∀ b ∈ P.segs, s.live b = some (AllocSpec.segSize P.bs P.al) := fun b hb => (hp.live b hb).1
  obtain ⟨s', e, hs'⟩ := run_done (ms := []) (log := []) ext (hs.sim h.ok) hp.seg hp.nodup (fun b hb => ⟨_, hlv b hb, by omega⟩)
    (fun b hb => by have := hr.sep b hb; unfold strSize at this; omega) (InReg.freeW hr.reg hlv hr.sep str_pos)
  rw [List.nil_append] at e
  have hn : ∀ v log, next a (.done t) ⟨v, log, s'⟩ = ⟨s', upd a.pool t (some { P with used := [], ever := [], segs := [] })⟩ := by
    intro v log; simp only [next, hP, Option.map_some]
  have hout : ∀ x, ¬ (t ≤ x ∧ x < t + strSize) → s'.byte x = s.byte x := fun x hx => by
    rw [hs'.out x (by unfold strSize at hx; omega), freeW_byte]
  refine ⟨_, s', call_eq e, ⟨trivial, fun Q hQ => ⟨P.segs, ?_, rfl⟩, fun _ => ⟨?_, fun x _ hx => ?_⟩⟩, ?_⟩
  · rw [hP] at hQ; cases hQ; exact List.Perm.refl _
  · show s'.live = liveAfter a.mem.live _
    rw [hs'.live, h.mem, liveAfter_gave]
  · rw [h.mem]; exact hout x hx
  · show Inv s' (next a (.done t) ⟨_, _, s'⟩)
    rw [hn]
    refine h.change hs'.ok (hs'.rep (F := []) ?_ (fun b hb => by simp at hb)) ?_ ?_
    · exact { bs := hp.bs, al := hp.al, al8 := hp.al8, bs8 := hp.bs8, mul := hp.mul, fit := hp.fit, count := by simp, free := rfl, seg := rfl,
              nodup := List.nodup_nil, live := fun b hb => by simp at hb, apart := List.Pairwise.nil, blk := fun b hb => by simp at hb,
              ever := fun b hb => by simp at hb, cap := by simp }
    · rintro x (hx | ⟨⟨b, hb, _⟩, _⟩)
      · exact .inl ⟨P, hP, .inl hx⟩
      · simp at hb
    · intro t' Q hQ hne
      have hrQ := h.rep t' Q hQ
      obtain ⟨al', F', hs2, hp2⟩ := hrQ.pool
      refine ⟨fun x hx => hout x (fun h' => h.int t P t' Q hP hQ (Ne.symm hne) x (.inl h') hx), fun b hb => ?_, ?_⟩
      · rw [hs'.live, freeW_live, if_neg]
        intro hb'
        exact h.int t P t' Q hP hQ (Ne.symm hne) b (internal_header hp h.ok hb' (Nat.le_refl _) (by omega)) (internal_header hp2 h.ok hb (Nat.le_refl _) (by omega))
      · exact (InReg.freeW hrQ.reg hlv (hoth t' Q hQ hne) str_pos).setL hs'.live

theorem step_alloc (h : Inv s a) {base : Nat} {c : Nat → Nat} (hl : legal a (.alloc t base c)) :
    ∃ out s', step (.alloc t base c) s = some (out, s') ∧ allowed a (.alloc t base c) out ∧ Inv s' (next a (.alloc t base c) out) := by
  obtain ⟨P, hP, hf, hc, hroom⟩ := hl
  rw [h.mem] at hf
  have hr := h.rep t P hP
  obtain ⟨al, F, hs, hp⟩ := hr.pool
  have hge := AllocSpec.segSize_ge P.bs P.al
  have hp8 := ptr_pos
  have h8 := hp.bs8
  cases F with
  | cons p F =>
    obtain ⟨efb, _, hp'⟩ := hp.pop
    obtain ⟨hal, b, hb, h1, h2⟩ := hp.blk p (by simp)
    have hlb := hp.live b hb
    have hsep := hr.sep b hb
    have hp0 : p ≠ 0 := by omega
    subst efb
    obtain ⟨s', e, hs'⟩ := run_alloc_old (ms := [(base, c)]) (log := []) ext (hs.sim h.ok) hp0 ⟨b, _, hlb.1, by omega, by omega⟩
      (by unfold strSize at hsep; omega)
    have hn : next a (.alloc t base c) ⟨al.freeBlock, [], s'⟩ =
        ⟨s', upd a.pool t (some { P with used := al.freeBlock :: P.used, ever := al.freeBlock :: P.ever })⟩ := by
      simp only [next, hP, Option.map_some, List.isEmpty_nil, if_true]
    have hout : ∀ x, ¬ (t ≤ x ∧ x < t + strSize) → s'.byte x = s.byte x := fun x hx => hs'.out x (by unfold strSize at hx; omega)
    refine ⟨_, s', call_eq e, ⟨fun Q Q' hQ hQ' => ?_, fun _ _ => .inl rfl, fun _ => ⟨?_, fun x _ hx => ?_⟩⟩, ?_⟩
    · rw [hP] at hQ; cases hQ
      change (next a (.alloc t base c) ⟨al.freeBlock, [], s'⟩).pool t = some Q' at hQ'
      rw [hn] at hQ'
      change upd _ t _ t = _ at hQ'
      rw [upd_same] at hQ'; cases hQ'
      refine ⟨hp0, hal, ⟨b, hb, by dsimp only; omega, h2⟩, fun q hq => ?_⟩
      have := (List.pairwise_append.1 hp.apart).2.2 q hq al.freeBlock (by simp)
      unfold AllocSpec.Off at this
      dsimp only
      omega
    · show s'.live = a.mem.live
      rw [hs'.live, h.mem]
    · rw [h.mem]; exact hout x hx
    · show Inv s' (next a (.alloc t base c) ⟨al.freeBlock, [], s'⟩)
      rw [hn]
      refine h.change hs'.ok (hs'.rep hp' hr.sep) ?_ ?_
      · rintro x (hx | ⟨hx, hx'⟩)
        · exact .inl ⟨P, hP, .inl hx⟩
        · exact .inl ⟨P, hP, .inr ⟨hx, fun q hq => hx' q (by simp [hq])⟩⟩
      · intro t' Q hQ hne
        exact ⟨fun x hx => hout x fun h' => h.int t P t' Q hP hQ (Ne.symm hne) x (.inl h') hx,
          fun b _ => by rw [hs'.live], (h.rep t' Q hQ).reg.setL hs'.live⟩
  | nil =>
    have hfd : ∀ b ∈ P.segs, base + AllocSpec.segSize P.bs P.al ≤ b ∨ b + AllocSpec.segSize P.bs P.al ≤ base := fun b hb => hf.sep b _ (hp.live b hb).1
    obtain ⟨m', al', F', ea, ⟨hF, _⟩, hp1, hl1, ho1⟩ := hp.segment c hf.pos hf.lt hfd hroom
    obtain ⟨p, F'', rfl⟩ := List.exists_cons_of_ne_nil hF
    obtain ⟨efb, _, hp'⟩ := hp1.pop
    obtain ⟨hal, b, hb, h1, h2⟩ := hp1.blk p (by simp)
    have hlb := hp1.live b hb
    dsimp only at hal hb h1 h2 hlb hp'
    have hds := hr.reg.fresh hf
    have hsep : ∀ b ∈ base :: P.segs, t + strSize ≤ b ∨ b + AllocSpec.segSize P.bs P.al ≤ t := by
      intro b hb
      rcases List.mem_cons.1 hb with rfl | hb
      · omega
      · exact hr.sep b hb
    have hsb := hsep b hb
    have hp0 : p ≠ 0 := by omega
    have hfree := hp.free
    have hapart := hp1.apart
    have hever := hp.ever
    have hcap := hp.cap
    rw [List.append_nil] at hever hcap
    subst efb
    obtain ⟨s', e, hs'⟩ := run_alloc_new (rest := []) (log := []) ext (hs.sim h.ok) hfree (by rw [hp.bs]; exact hp.bs8) (by rw [hp.al]; exact hp.al8)
      (by rw [hp.bs, hp.al]; exact hp.fit) (by rw [hp.bs, hp.al]) hf hc (by rw [hp.bs, hp.al]; exact hroom) ea
      ⟨b, _, hlb.1, by omega, by omega⟩ (by unfold strSize at hsb; omega)
    rw [List.nil_append] at e
    have hn : next a (.alloc t base c) ⟨al'.freeBlock, [.got base (AllocSpec.segSize P.bs P.al)], s'⟩ =
        ⟨s', upd a.pool t (some { P with used := al'.freeBlock :: P.used, ever := al'.freeBlock :: P.ever, segs := base :: P.segs })⟩ := by
      simp only [next, hP, Option.map_some, List.isEmpty_cons, Bool.false_eq_true, if_false]
    have hlive : s'.live = upd s.live base (some (AllocSpec.segSize P.bs P.al)) := by rw [hs'.live, hl1]; rfl
    have hout : ∀ x, ¬ (t ≤ x ∧ x < t + strSize) → InReg s x 1 → s'.byte x = s.byte x := fun x hx hx' => by
      have := hx'.fresh hf
      rw [hs'.out x (by unfold strSize at hx; omega), ho1 x (by omega)]
    refine ⟨_, s', call_eq e, ⟨fun Q Q' hQ hQ' => ?_, fun Q hQ => .inr ?_, fun _ => ⟨?_, fun x hx hx' => ?_⟩⟩, ?_⟩
    · rw [hP] at hQ; cases hQ
      change (next a (.alloc t base c) ⟨al'.freeBlock, [.got base (AllocSpec.segSize P.bs P.al)], s'⟩).pool t = some Q' at hQ'
      rw [hn] at hQ'
      change upd _ t _ t = _ at hQ'
      rw [upd_same] at hQ'; cases hQ'
      refine ⟨hp0, hal, ⟨b, hb, by dsimp only; omega, h2⟩, fun q hq => ?_⟩
      have := (List.pairwise_append.1 hapart).2.2 q hq al'.freeBlock (by simp)
      unfold AllocSpec.Off at this
      dsimp only at this ⊢
      omega
    · rw [hP] at hQ; cases hQ
      exact ⟨rfl, hever, hcap⟩
    · show s'.live = upd a.mem.live base (some (AllocSpec.segSize P.bs P.al))
      rw [hlive, h.mem]
    · rw [h.mem] at hx ⊢; exact hout x hx' hx
    · show Inv s' (next a (.alloc t base c) ⟨al'.freeBlock, [.got base (AllocSpec.segSize P.bs P.al)], s'⟩)
      rw [hn]
      refine h.change hs'.ok (hs'.rep hp' hsep) ?_ ?_
      · rintro x (hx | ⟨⟨b, hb, h3, h4⟩, hx'⟩)
        · exact .inl ⟨P, hP, .inl hx⟩
        · rcases List.mem_cons.1 hb with rfl | hb
          · refine .inr fun t' Q hQ _ hi => ?_
            have := ((h.rep t' Q hQ).inReg hi).fresh hf
            dsimp only at h4
            omega
          · exact .inl ⟨P, hP, .inr ⟨⟨b, hb, h3, h4⟩, fun q hq => hx' q (by simp [hq])⟩⟩
      · intro t' Q hQ hne
        have hrQ := h.rep t' Q hQ
        obtain ⟨_, _, _, hpQ⟩ := hrQ.pool
        refine ⟨fun x hx => hout x (fun h' => h.int t P t' Q hP hQ (Ne.symm hne) x (.inl h') hx) (hrQ.inReg hx), fun b hb => ?_, ?_⟩
        · rw [hlive, upd_ne]
          intro e
          have := (hpQ.live b hb).1
          rw [e, hf.none] at this
          cases this
        · exact (hrQ.reg.cal hf).setL hlive

theorem step_drop (h : Inv s a) : Inv s (next a (.drop t) ⟨0, [], s⟩) := by
  refine ⟨rfl, h.ok, fun t' Q hQ => ?_, fun t1 P1 t2 P2 h1 h2 hne => ?_⟩
  · change upd a.pool t none t' = some Q at hQ
    by_cases e : t' = t
    · subst e; rw [upd_same] at hQ; cases hQ
    · rw [upd_ne e] at hQ; exact h.rep t' Q hQ
  · change upd a.pool t none t1 = some P1 at h1
    change upd a.pool t none t2 = some P2 at h2
    by_cases e : t1 = t
    · subst e; rw [upd_same] at h1; cases h1
    · by_cases e' : t2 = t
      · subst e'; rw [upd_same] at h2; cases h2
      · rw [upd_ne e] at h1; rw [upd_ne e'] at h2
        exact h.int t1 P1 t2 P2 h1 h2 hne

theorem step_foreign (h : Inv s a) {w : AMem} (hl : legal a (.foreign w)) : Inv w (next a (.foreign w) ⟨0, [], w⟩) := by
  obtain ⟨hw, hl⟩ := hl
  refine ⟨rfl, hw, fun t Q hQ => ?_, h.int⟩
  change a.pool t = some Q at hQ
  obtain ⟨h1, h2, h3⟩ := hl t Q hQ
  have hr := h.rep t Q hQ
  obtain ⟨_, _, _, hp⟩ := hr.pool
  refine hr.congr h.ok h1 (fun x hx => by rw [h3 x hx, h.mem]) fun b hb => ?_
  rw [h2 b hb, (hp.live b hb).1]; rfl

theorem inv_init (h : sys.init s a) : Inv s a :=
  ⟨h.1, h.2.1, fun t P hP => by simp [h.2.2 t] at hP, fun t P _ _ hP => by simp [h.2.2 t] at hP⟩

theorem inv_step (s : AMem) (a : Ab) (op : Op) (h : Inv s a) (hl : sys.legal a op) :
    ∃ out s', sys.step op s = some (out, s') ∧ sys.allowed a op out ∧ Inv s' (sys.next a op out) := by
  cases op with
  | init t bs al => exact step_init h hl
  | alloc t base c => exact step_alloc h hl
  | free t p => exact step_free h hl
  | usage t => exact step_usage h hl
  | done t => exact step_done h hl
  | drop t => exact ⟨_, s, rfl, ⟨trivial, rfl, fun _ => ⟨by rw [h.mem]; rfl, fun x _ _ => by rw [h.mem]⟩⟩, step_drop h⟩
  | foreign w => exact ⟨_, w, rfl, ⟨trivial, rfl, fun hf => (hf trivial).elim⟩, step_foreign h hl⟩

theorem sys_correct : sys.Correct := Sys.correct_of_inv (fun _ _ h => inv_init h) inv_step

end Tommy.CAl
