import Verif.Proof.CArrSys
/-!
  Property C79: the text of the four arrays in C.
-/
set_option autoImplicit false
set_option linter.unusedSectionVars false
namespace Tommy

open CArraySpec

section
variable [Arch]

/-- **C79** The text of `tommyarray`, `tommyarrayof`, `tommyarrayblk` and `tommyarrayblkof` (.h and .c), with the meaning that the C language
    gives to it, executed by a program with any number of arrays in a memory of bytes: all the calls are without undefined behaviour and
    terminate; the elements never move, do not overlap and are in the memory of the array; the new ones are zero; the results are right; and
    nothing else changes in the memory. -/
theorem C79_source : CArraySpec.sys.Correct := CArr.sys_correct

/-- C79, said on a sequence of calls. -/
theorem C79_history (s : AMem) (a : CArraySpec.Ab) (h : CArraySpec.sys.init s a) (ops : List CArraySpec.Op) : CArraySpec.sys.Runs s a ops :=
  C79_source.runs ops s a (.init h)

variable {s : AMem} {a : CArraySpec.Ab}

theorem C79_inv (h : CArraySpec.sys.Reach s a) : CArr.Inv s a := Sys.reach_inv (Inv := CArr.Inv) CArr.inv_init CArr.inv_step s a h

/-- The bytes that the library uses for an array are in the memory of the program, and are not used for another one. -/
theorem C79_apart (h : CArraySpec.sys.Reach s a) {t t' : Nat} {v v' : Vec} (ht : a.tab t = some v) (ht' : a.tab t' = some v') (hne : t ≠ t') {x : Nat}
    (hx : v.internal t x) : CArraySpec.InReg s x 1 ∧ ¬ v'.internal t' x :=
  ⟨((C79_inv h).rep t v ht).inReg (C79_inv h).ok hx, (C79_inv h).int t v t' v' ht ht' hne x hx⟩

/-- The function `ref` finds each element where the abstract array has it, and two different elements do not overlap. -/
theorem C79_elements (h : CArraySpec.sys.Reach s a) {t : Nat} {v : Vec} (ht : a.tab t = some v) {pos : Nat} (hp : pos < v.size) :
    CArraySpec.step (.ref t v.ty pos) s = some (⟨v.addr pos, [], s⟩, s) ∧ CArraySpec.InReg s (v.addr pos) v.es ∧
    ∀ pos', pos' < v.size → pos ≠ pos' → v.addr pos + v.es ≤ v.addr pos' ∨ v.addr pos' + v.es ≤ v.addr pos := by
  have i := C79_inv h
  have r := i.rep t v ht
  obtain ⟨⟨q, hq, h1, h2⟩, h3⟩ := (r.places i.ok).2 pos hp
  exact ⟨r.ref i.ok hp, ⟨q.1, q.2, (r.places i.ok).1 q hq, h1, h2⟩, h3⟩

/-- What `set` writes, `get` reads. -/
theorem C79_set_get (h : CArraySpec.sys.Reach s a) {t : Nat} {v : Vec} (ht : a.tab t = some v) {pos d : Nat}
    (hl : CArraySpec.sys.legal a (.set t v.ty pos d)) :
    ∃ s' a', CArraySpec.sys.Reach s' a' ∧ CArraySpec.step (.set t v.ty pos d) s = some (⟨0, [], s'⟩, s') ∧
      CArraySpec.step (.get t v.ty pos) s' = some (⟨d, [], s'⟩, s') := by
  have i := C79_inv h
  have r := i.rep t v ht
  obtain ⟨h1, h2, v', hv', _, hp, _⟩ := id hl
  rw [ht] at hv'
  cases hv'
  have e := r.set i.ok h1 (d := d) hp
  have h' := Sys.Reach.step h hl e
  have i' := C79_inv h'
  have r' := i'.rep t v ht
  refine ⟨_, _, h', e, ?_⟩
  rw [r'.get i'.ok h1 hp, CArr.rd_set (by rw [C.eight_ptr]; exact h2)]

end

/-! ### Example: an array of blocks and an array of elements of 3 bytes, in a 64 bit build -/

namespace CArrayEx
attribute [local instance] Arch.w64

/-- 4096 bytes at 2^20. -/
def s0 : AMem := ⟨fun _ => 3, fun p => if p = 2 ^ 20 then some 4096 else none⟩

def a0 : CArraySpec.Ab := ⟨s0, fun _ => none⟩

theorem live0 {p n : Nat} : s0.live p = some n ↔ p = 2 ^ 20 ∧ n = 4096 := by
  show (if _ then _ else _) = _ ↔ _
  split
  · simp only [Option.some.injEq]; constructor <;> omega
  · simp only [reduceCtorEq, false_iff]; omega

theorem init0 : CArraySpec.sys.init s0 a0 := by
  refine ⟨rfl, ⟨fun _ => by show 3 < 256; decide, ?_, ?_⟩, fun _ => rfl⟩
  · intro b n h
    rw [live0] at h
    rw [show sizeBit = 64 from rfl]
    omega
  · intro b n b' n' h h' hne
    rw [live0] at h h'
    omega

/-- The calls: init of an array of blocks at 2^20, insert of 77, init of an array of elements of 3 bytes at 2^20 + 1024. -/
def op1 : CArraySpec.Op := .init (2 ^ 20) .arrayblk 8 [(2 ^ 30, fun _ => 7)]
def op2 : CArraySpec.Op := .insert (2 ^ 20) .arrayblk 77 [(2 ^ 31, fun _ => 9)]
def op3 : CArraySpec.Op := .init (2 ^ 20 + 1024) .arrayof 3 [(2 ^ 32, fun _ => 11)]

def v1 : Vec := ⟨.arrayblk, 8, 0, fun _ => 0, [(2 ^ 30, 512)]⟩

theorem legal1 : CArraySpec.sys.legal a0 op1 := by
  refine ⟨⟨2 ^ 20, 4096, live0.2 ⟨rfl, rfl⟩, Nat.le_refl _, by decide⟩, fun _ _ _ t v h => (nomatch h), by decide, by rw [show sizeBit = 64 from rfl]; decide,
    fun _ => rfl, ⟨by decide, by rw [show sizeBit = 64 from rfl]; decide, rfl, ?_⟩, fun _ => by show 7 < 256; decide, trivial⟩
  intro b n h
  rw [show a0.mem = s0 from rfl, live0] at h
  show 2 ^ 30 + 512 ≤ b ∨ _
  omega

theorem asks2 : v1.asks 1 = [32768] := by decide

theorem t1 (o1 : CArraySpec.Out) : (CArraySpec.next a0 op1 o1).tab (2 ^ 20) = some v1 := by
  show upd a0.tab (2 ^ 20) (some v1) (2 ^ 20) = some v1
  exact upd_same _ _ _

/-- After the calls: 77 is the first element of the array of blocks, for which 512 + 32768 bytes are allocated, and the other array is empty. -/
theorem reach3 : ∃ s a v v', CArraySpec.sys.Reach s a ∧ (∀ t, a.tab t = if t = 2 ^ 20 + 1024 then some v' else if t = 2 ^ 20 then some v else none) ∧
    v.ty = .arrayblk ∧ v.size = 1 ∧ v.own = [(2 ^ 30, 512), (2 ^ 31, 32768)] ∧ v'.ty = .arrayof ∧ v'.es = 3 ∧ v'.size = 0 ∧ v'.own = [(2 ^ 32, 192)] ∧
    rdN s.byte (v.addr 0) 8 = 77 := by
  obtain ⟨o1, s1, e1, al1⟩ := C79_source s0 a0 (.init init0) op1 legal1
  have r1 := Sys.Reach.step (.init init0) legal1 e1
  have l1 : ∀ b, o1.mem.live b = upd s0.live (2 ^ 30) (some 512) b := fun b => by
    rw [((al1.2.2.2.2.2) (fun h => h)).1 b]
    exact if_neg (by simp [olds, op1])
  have h2 : CArraySpec.sys.legal (CArraySpec.sys.next a0 op1 o1) op2 := by
    refine ⟨rfl, by rw [show sizeBit = 64 from rfl]; decide, v1, t1 o1, rfl, ?_⟩
    show Given _ (v1.asks 1) _
    rw [asks2]
    refine ⟨⟨by decide, by rw [show sizeBit = 64 from rfl]; decide, ?_, ?_⟩, fun _ => by show 9 < 256; decide, trivial⟩
    · show o1.mem.live _ = none
      rw [l1]; decide
    · intro b n hb
      change o1.mem.live b = _ at hb
      rw [l1] at hb
      show 2 ^ 31 + 32768 ≤ b ∨ b + n ≤ 2 ^ 31
      by_cases e : b = 2 ^ 30
      · subst e
        rw [upd_same] at hb
        cases hb
        omega
      · rw [upd_ne e, live0] at hb
        omega
  obtain ⟨o2, s2, e2, al2⟩ := C79_source s1 _ r1 op2 h2
  have r2 := Sys.Reach.step r1 h2 e2
  have i2 := C79_inv r2
  obtain ⟨a2, ha2⟩ : ∃ a2, a2 = CArraySpec.sys.next (CArraySpec.sys.next a0 op1 o1) op2 o2 := ⟨_, rfl⟩
  obtain ⟨v, hv⟩ : ∃ v, v = v1.grown (2 ^ 20) 1 [(2 ^ 31, fun _ => 9)] o2.mem := ⟨_, rfl⟩
  have ht : a2.tab = upd (CArraySpec.next a0 op1 o1).tab (2 ^ 20) (some v) := by
    have : a2.tab = upd (CArraySpec.next a0 op1 o1).tab (2 ^ 20) (((CArraySpec.next a0 op1 o1).tab (2 ^ 20)).map fun v =>
        v.grown (2 ^ 20) (v.size + 1) [(2 ^ 31, fun _ => 9)] o2.mem) := by
      rw [ha2]; rfl
    rw [this, t1, hv]
    rfl
  have hown : v.own = [(2 ^ 30, 512), (2 ^ 31, 32768)] := by
    rw [hv]
    show v1.own ++ regs (v1.asks 1) _ = _
    rw [asks2]; rfl
  have ht0 : a2.tab (2 ^ 20) = some v := by rw [ht, upd_same]
  have hd : rdN o2.mem.byte (v.addr 0) 8 = 77 := by
    have := al2.2.1 v1 v (t1 o1) (by rw [← ht0, ha2]; rfl)
    exact this
  have htn : ∀ t, t ≠ 2 ^ 20 → a2.tab t = none := fun t e => by
    rw [ht, upd_ne e]
    show upd a0.tab _ _ t = _
    rw [upd_ne e]; rfl
  rw [← ha2] at r2 i2
  have m2 : a2.mem = o2.mem := by rw [ha2]; rfl
  have l2 : ∀ b, o2.mem.live b = upd (upd s0.live (2 ^ 30) (some 512)) (2 ^ 31) (some 32768) b := fun b => by
    have hn : news (CArraySpec.next a0 op1 o1) op2 = [(2 ^ 31, 32768)] := by
      show (((CArraySpec.next a0 op1 o1).tab (2 ^ 20)).map fun v => regs (v.asks (v.size + 1)) [(2 ^ 31, fun _ => 9)]).getD [] = _
      rw [t1]
      show regs (v1.asks 1) _ = _
      rw [asks2]; rfl
    have hm : (CArraySpec.next a0 op1 o1).mem.live = upd s0.live (2 ^ 30) (some 512) := funext l1
    have := (al2.2.2.2.2.2 (fun h => h)).1 b
    change _ = if _ then none else addRegs (CArraySpec.next a0 op1 o1).mem.live (news (CArraySpec.next a0 op1 o1) op2) b at this
    rw [hn] at this
    refine this.trans ((if_neg (by simp [olds, op2])).trans ?_)
    show upd (CArraySpec.next a0 op1 o1).mem.live _ _ b = _
    rw [hm]
  have hlv : ∀ b n, o2.mem.live b = some n → (b = 2 ^ 20 ∧ n = 4096) ∨ (b = 2 ^ 30 ∧ n = 512) ∨ (b = 2 ^ 31 ∧ n = 32768) := by
    intro b n hb
    rw [l2] at hb
    by_cases e : b = 2 ^ 31
    · subst e
      rw [upd_same] at hb
      cases hb
      simp
    · rw [upd_ne e] at hb
      by_cases e : b = 2 ^ 30
      · subst e
        rw [upd_same] at hb
        cases hb
        simp
      · rw [upd_ne e, live0] at hb
        exact .inl hb
  have hstr : InReg a2.mem (2 ^ 20 + 1024) (Ty.arrayof).strSize := ⟨2 ^ 20, 4096, by
    rw [m2, l2]
    rfl, by decide, by decide⟩
  have h3 : CArraySpec.sys.legal a2 op3 := by
    refine ⟨hstr, ?_, by decide, by rw [show sizeBit = 64 from rfl]; decide, (fun h => nomatch h), ⟨by decide, by rw [show sizeBit = 64 from rfl]; decide, ?_, ?_⟩,
      fun _ => by show 11 < 256; decide, trivial⟩
    · intro x h1 h2 t u hu
      have h2 : x < 2 ^ 20 + 1024 + 544 := h2
      have : t = 2 ^ 20 := by
        by_contra e
        rw [htn t e] at hu
        cases hu
      subst this
      rw [ht0] at hu
      cases hu
      rintro (⟨_, g⟩ | ⟨⟨r, hr, g1, g2⟩, _⟩)
      · rw [hv] at g
        have g : x < 2 ^ 20 + 544 := g
        omega
      · rw [hown] at hr
        simp only [List.mem_cons, List.not_mem_nil, or_false] at hr
        rcases hr with rfl | rfl <;> dsimp only at g1 g2 <;> omega
    · rw [m2, l2]; rfl
    · intro b n hb
      rw [m2] at hb
      show 2 ^ 32 + 192 ≤ b ∨ b + n ≤ 2 ^ 32
      have := hlv b n hb
      omega
  obtain ⟨o3, s3, e3, al3⟩ := C79_source s2 a2 r2 op3 h3
  have r3 := Sys.Reach.step r2 h3 e3
  have i3 := C79_inv r3
  refine ⟨s3, _, v, ⟨.arrayof, 3, 0, fun _ => 0, [(2 ^ 32, 192)]⟩, r3, ?_, by rw [hv]; rfl, by rw [hv]; rfl, hown, rfl, rfl, rfl, rfl, ?_⟩
  · intro t
    show upd a2.tab (2 ^ 20 + 1024) _ t = _
    by_cases e : t = 2 ^ 20 + 1024
    · rw [if_pos e, e, upd_same]; rfl
    · rw [if_neg e, upd_ne e]
      by_cases e' : t = 2 ^ 20
      · rw [if_pos e', e', ht0]
      · rw [if_neg e', htn t e']
  · rw [← hd, ← show o3.mem = s3 from i3.mem]
    have hp := ((i2.rep _ v ht0).places i2.ok).2 0 (by rw [hv]; show 0 < 1; decide)
    obtain ⟨⟨r, hr, g1, g2⟩, _⟩ := hp
    have hes : v.es = 8 := by rw [hv]; rfl
    rw [hown] at hr
    simp only [List.mem_cons, List.not_mem_nil, or_false] at hr
    rw [hes] at g2
    refine AllocSpec.rdN_congr fun x x1 x2 => ?_
    rw [((al3.2.2.2.2.2) (fun h => h)).2 x, m2]
    · rw [m2]
      rcases hr with rfl | rfl <;> dsimp only at g1 g2
      · exact ⟨2 ^ 30, 512, by rw [l2]; rfl, by omega, by omega⟩
      · exact ⟨2 ^ 31, 32768, by rw [l2]; rfl, by omega, by omega⟩
    · rintro ⟨g3, g4⟩
      have g4 : x < 2 ^ 20 + 1024 + 544 := g4
      rcases hr with rfl | rfl <;> dsimp only at g1 g2 <;> omega

/-- What the functions return then: the element, the size and the memory used; and the array can be destroyed. -/
example : ∃ s a, CArraySpec.sys.Reach s a ∧
    CArraySpec.step (.get (2 ^ 20) .arrayblk 0) s = some (⟨77, [], s⟩, s) ∧
    CArraySpec.step (.size (2 ^ 20) .arrayblk) s = some (⟨1, [], s⟩, s) ∧
    CArraySpec.step (.usage (2 ^ 20) .arrayblk) s = some (⟨33280, [], s⟩, s) ∧
    CArraySpec.step (.usage (2 ^ 20 + 1024) .arrayof) s = some (⟨192, [], s⟩, s) ∧
    CArraySpec.sys.legal a (.done (2 ^ 20) .arrayblk) := by
  obtain ⟨s, a, v, v', r, hv, ht, hs, ho, ht', he', hs', ho', hd⟩ := reach3
  have i := C79_inv r
  have hv1 : a.tab (2 ^ 20) = some v := hv _
  have hv2 : a.tab (2 ^ 20 + 1024) = some v' := hv _
  have R := i.rep _ v hv1
  have R' := i.rep _ v' hv2
  refine ⟨s, a, r, ?_, ?_, ?_, ?_, v, hv1, ht, ?_⟩
  · rw [← ht, R.get i.ok (by rw [ht]; rfl) (by rw [hs]; decide), show ptrSize = 8 from rfl, hd]
  · rw [← ht, R.size, hs]
  · rw [← ht, R.usage i.ok, ho]; rfl
  · rw [← ht', R'.usage i.ok, ho']; rfl
  · intro t u hu hne q hq
    rw [hv, if_neg hne] at hu
    split at hu
    · cases hu
      rw [ht']
      rename_i e
      rw [ho] at hq
      simp only [List.mem_cons, List.not_mem_nil, or_false] at hq
      show t + 544 ≤ q.1 ∨ _
      rcases hq with rfl | rfl <;> dsimp only <;> omega
    · cases hu

end CArrayEx
end Tommy
