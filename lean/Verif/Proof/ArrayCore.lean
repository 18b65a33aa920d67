import Verif.Spec.ArrayImpl
import Verif.Proof.Mem
/-! Facts common to the four arrays: the relation of the elements with the memory. -/
set_option linter.unusedSimpArgs false
namespace Tommy

variable [Arch]
namespace ArraySpec

/-- The elements up to `cap` are at `addr`, in the vectors `own`. -/
structure Core (es : Nat) (a : Ab) (m : Mem) (cap : Nat) (addr : Nat → Ref) (own : Nat → Prop) : Prop where
  cell : ∀ pos off, pos < cap → off < es → m.cell? ((addr pos).add off) = some (a.val pos off)
  inj : ∀ p o p' o', p < cap → o < es → p' < cap → o' < es → (addr p).add o = (addr p').add o' → p = p' ∧ o = o'
  vec : ∀ pos, pos < cap → own (addr pos).vec
  zero : ∀ pos off, a.size ≤ pos → a.val pos off = 0
  live : ∀ v, m.vlen v ≠ none ↔ own v ∨ a.other v = true
  sep : ∀ v, own v → a.other v = false
  fresh : m.FreshOk

variable {es : Nat} {a : Ab} {m : Mem} {cap : Nat} {addr : Nat → Ref} {own : Nat → Prop}

omit [Arch] in
theorem Ref.add_vec (r : Ref) (i : Int) : (r.add i).vec = r.vec := rfl

omit [Arch] in
/-- The rest of the program changes its vectors. -/
theorem Core.env (c : Core es a m cap addr own) {m' : Mem} {other' : Nat → Bool}
    (h1 : ∀ v, own v → m'.vlen v = m.vlen v ∧ m'.vcell v = m.vcell v)
    (h2 : ∀ v, ¬ own v → (m'.vlen v ≠ none ↔ other' v = true))
    (h3 : ∀ v, own v → other' v = false) (h4 : m'.FreshOk) :
    Core es { a with other := other' } m' cap addr own := by
  refine ⟨fun pos off hp ho => ?_, c.inj, c.vec, c.zero, fun v => ?_, h3, h4⟩
  · have hv := c.vec pos hp
    have := h1 _ hv
    rw [cell_congr (m := m) (r := (addr pos).add off) this.1 this.2]
    exact c.cell pos off hp ho
  · by_cases ho : own v
    · rw [(h1 v ho).1, c.live]
      simp [ho]
    · rw [h2 v ho]; simp [ho]

omit [Arch] in
theorem Core.used (c : Core es a m cap addr own) {v : Nat} (h : own v ∨ a.other v = true) : v < m.vnext := by
  have := (c.live v).2 h
  by_cases hv : m.vnext ≤ v
  · exact absurd (c.fresh v hv) this
  · omega

omit [Arch] in
theorem Core.notNew (c : Core es a m cap addr own) : ¬ own m.vnext ∧ a.other m.vnext = false := by
  constructor
  · intro h; exact absurd (c.used (.inl h)) (by omega)
  · cases h : a.other m.vnext with
    | false => rfl
    | true => exact absurd (c.used (.inr h)) (by omega)

omit [Arch] in
/-- A write to a cell of an element. -/
theorem Core.write (c : Core es a m cap addr own) {pos off : Nat} (hp : pos < cap) (hs : pos < a.size) (ho : off < es)
    (x : Nat) : ∃ m', writeRef ((addr pos).add off) x m = some ((), m') ∧
      Core es { a with val := upd a.val pos (upd (a.val pos) off x) } m' cap addr own ∧
      m'.heap = m.heap ∧ m'.vlen = m.vlen ∧ m'.vnext = m.vnext ∧ ∀ v, v ≠ (addr pos).vec → m'.vcell v = m.vcell v := by
  have hin : m.inside ((addr pos).add off) = true := Mem.cell_inside (c.cell pos off hp ho)
  obtain ⟨m', e, hh, hc, t⟩ := writeRef_run x hin
  refine ⟨m', e, ⟨?_, c.inj, c.vec, ?_, ?_, c.sep, c.fresh.touch t⟩, hh, t.vlen, t.vnext, ?_⟩
  · intro p o hp' ho'
    simp only
    by_cases hpp : p = pos
    · subst hpp
      by_cases hoo : o = off
      · subst hoo; rw [hc, upd_same, upd_same]
      · rw [upd_same, upd_ne hoo, t.cell, c.cell _ _ hp' ho']
        intro he; exact hoo (c.inj _ _ _ _ hp' ho' hp ho he).2
    · rw [upd_ne hpp, t.cell, c.cell _ _ hp' ho']
      intro he; exact hpp (c.inj _ _ _ _ hp' ho' hp ho he).1
  · intro p o h
    simp only at h ⊢
    rw [upd_ne (by omega)]; exact c.zero p o h
  · intro v; rw [t.vlen]; exact c.live v
  · intro v hv
    have : m' = { m with vcell := upd m.vcell (addr pos).vec (upd (m.vcell (addr pos).vec) ((addr pos).add off).off.toNat (some x)) } := by
      unfold writeRef at e
      rw [if_pos hin] at e
      simp only [Option.some.injEq, Prod.mk.injEq, true_and] at e
      exact e.symm
    rw [this]; simp only; rw [upd_ne hv]

omit [Arch] in
theorem Core.mono_size (c : Core es a m cap addr own) {n : Nat} (h : a.size ≤ n) :
    Core es { a with size := n } m cap addr own :=
  ⟨c.cell, c.inj, c.vec, fun pos off hp => c.zero pos off (by simp only at hp; omega), c.live, c.sep, c.fresh⟩

/-- What is proved of each array. `P` is the invariant, `addr` the address of the elements. -/
structure ImplOk {T : Type} (I : Impl T) (P : T → Mem → Ab → Prop) (addr : T → Mem → Nat → Ref) : Prop where
  size : ∀ {t m a}, P t m a → I.size t = a.size
  core : ∀ {t m a}, P t m a → ∃ cap own, a.size ≤ cap ∧ Core I.es a m cap (addr t m) own
  ref : ∀ {t m a pos}, P t m a → pos < a.size → I.ref t pos m = some (addr t m pos, m)
  write : ∀ {t m m' a pos off x}, P t m a → pos < a.size → off < I.es →
    writeRef ((addr t m pos).add off) x m = some ((), m') →
    P t m' { a with val := upd a.val pos (upd (a.val pos) off x) } ∧ ∀ p, p < a.size → addr t m' p = addr t m p
  env : ∀ {t m m' a other'}, P t m a →
    (∀ v, a.other v = false → m.vlen v ≠ none → m'.vlen v = m.vlen v ∧ m'.vcell v = m.vcell v ∧ other' v = false) →
    (∀ v, (a.other v = true ∨ m.vlen v = none) → (m'.vlen v ≠ none ↔ other' v = true)) → m'.FreshOk →
    P t m' { a with other := other' } ∧ ∀ p, p < a.size → addr t m' p = addr t m p
  grow : ∀ {t m a n}, P t m a → I.fits n → ∃ t' m', I.grow t n m = some (t', m') ∧
    P t' m' { a with size := max a.size n } ∧ Untouched a.other m m' ∧
    ∀ pos, pos < a.size → addr t' m' pos = addr t m pos
  ptr : ∀ f, I.ptr = some f → 0 < I.es ∧
    (∀ t pos x, f.1 t pos x = (do let r ← I.ref t pos; writeRef (r.add (0 : Nat)) x)) ∧
    (∀ t pos, f.2.1 t pos = (do let r ← I.ref t pos; readRef (r.add (0 : Nat)))) ∧
    (∀ t x, f.2.2 t x = (do let t' ← I.grow t (sizeT (I.size t + 1)); f.1 t' (I.size t) x; pure t'))
  fits : ∀ n, I.fits n → n < 2 ^ sizeBit

variable {T : Type} {I : Impl T} {P : T → Mem → Ab → Prop} {adr : T → Mem → Nat → Ref}

/-- The refs of the elements are the same in the two states. -/
def SameRefs (I : Impl T) (s s' : St T) (n : Nat) : Prop :=
  ∀ pos, pos < n → ∃ r, I.ref s.arr pos s.mem = some (r, s.mem) ∧ I.ref s'.arr pos s'.mem = some (r, s'.mem)

omit [Arch] in
theorem Ref.add_zero (r : Ref) : r.add ((0 : Nat) : Int) = r := by cases r; simp [Ref.add]

omit [Arch] in
theorem own_notOther (c : Core es a m cap addr own) (v : Nat) (h : own v) : a.other v = false ∧ m.vlen v ≠ none :=
  ⟨c.sep v h, (c.live v).2 (.inl h)⟩

theorem step_write (ho : ImplOk I P adr) {t : T} {m : Mem} {a : Ab} (h : P t m a) {pos off : Nat} (hp : pos < a.size)
    (hof : off < I.es) (x : Nat) :
    ∃ m', (do let r ← I.ref t pos; writeRef (r.add off) x : MM Unit) m = some ((), m') ∧
      P t m' { a with val := upd a.val pos (upd (a.val pos) off x) } ∧ Untouched a.other m m' ∧ ∀ p, p < a.size → adr t m' p = adr t m p := by
  obtain ⟨cap, own, hcap, c⟩ := ho.core h
  obtain ⟨m', e, _, h1, h2, h3, h4⟩ := c.write (show pos < cap by omega) hp hof x
  have hw := ho.write h hp hof e
  refine ⟨m', ?_, hw.1, ⟨h1, fun v hv => ⟨by rw [h2], h4 v ?_⟩⟩, hw.2⟩
  · simp only [StateT.bind, bind, ho.ref h hp, Option.bind_some]; exact e
  · rintro rfl
    have := c.sep _ (c.vec pos (by omega))
    rw [hv] at this; cases this

theorem step_ok (ho : ImplOk I P adr) (s : St T) (a : Ab) (op : Op) (h : P s.arr s.mem a) (hl : legal I a op) :
    ∃ out s', step I op s = some (out, s') ∧ allowed a op out ∧ P s'.arr s'.mem (next a op out) ∧
      (isCall op → Untouched a.other s.mem s'.mem) ∧
      ∀ pos, pos < a.size → adr s'.arr s'.mem pos = adr s.arr s.mem pos := by
  obtain ⟨m, t⟩ := s
  change P t m a at h
  cases op with
  | grow n =>
    obtain ⟨t', m', e, h', u, ha⟩ := ho.grow h hl
    exact ⟨.unit, ⟨m', t'⟩, by simp [step, e], rfl, h', fun _ => u, ha⟩
  | size => exact ⟨_, ⟨m, t⟩, rfl, by simp [allowed, ho.size h], h, fun _ => ⟨rfl, fun _ _ => ⟨rfl, rfl⟩⟩, fun _ _ => rfl⟩
  | refRead pos off =>
    obtain ⟨cap, own, hcap, c⟩ := ho.core h
    refine ⟨.val (a.val pos off), ⟨m, t⟩, ?_, rfl, h, fun _ => ⟨rfl, fun _ _ => ⟨rfl, rfl⟩⟩, fun _ _ => rfl⟩
    have := readRef_run (c.cell pos off (by have := hl.1; omega) hl.2)
    simp only [step, StateT.bind, bind, ho.ref h hl.1, Option.bind_some, this, Option.map_some]
  | refWrite pos off x =>
    obtain ⟨m', e, h', u, ha⟩ := step_write ho h hl.1 hl.2 x
    exact ⟨.unit, ⟨m', t⟩, by simp only [step, e, Option.map_some], rfl, h', fun _ => u, ha⟩
  | set pos x =>
    obtain ⟨f, hf⟩ := Option.isSome_iff_exists.1 hl.1
    obtain ⟨hes, f1, f2, f3⟩ := ho.ptr f hf
    obtain ⟨m', e, h', u, ha⟩ := step_write ho h hl.2 hes x
    rw [← f1] at e
    exact ⟨.unit, ⟨m', t⟩, by simp [step, hf, e], rfl, h', fun _ => u, ha⟩
  | get pos =>
    obtain ⟨f, hf⟩ := Option.isSome_iff_exists.1 hl.1
    obtain ⟨hes, f1, f2, f3⟩ := ho.ptr f hf
    obtain ⟨cap, own, hcap, c⟩ := ho.core h
    refine ⟨.val (a.val pos 0), ⟨m, t⟩, ?_, rfl, h, fun _ => ⟨rfl, fun _ _ => ⟨rfl, rfl⟩⟩, fun _ _ => rfl⟩
    have := readRef_run (c.cell pos 0 (by have := hl.2; omega) hes)
    simp only [step, hf, f2, StateT.bind, bind, ho.ref h hl.2, Option.bind_some, this, pure]
  | insert x =>
    obtain ⟨f, hf⟩ := Option.isSome_iff_exists.1 hl.1
    obtain ⟨hes, f1, f2, f3⟩ := ho.ptr f hf
    have hn := ho.fits _ hl.2
    obtain ⟨t', m1, e, h1, u, ha⟩ := ho.grow h hl.2
    rw [Nat.max_eq_right (by omega)] at h1
    obtain ⟨m', e', h', u', ha'⟩ := step_write ho h1 (pos := a.size) (by simp) hes x
    rw [← f1] at e'
    refine ⟨.unit, ⟨m', t'⟩, ?_, rfl, h', fun _ => ?_, fun pos hp => by
      simp only; rw [ha' pos (by simp only; omega)]; exact ha pos hp⟩
    · simp only [step, hf, f3, ho.size h, sizeT, Nat.mod_eq_of_lt hn, StateT.bind, bind, e, e', Option.bind_some, pure,
        StateT.pure]
    · exact ⟨u'.1.trans u.1, fun v hv => ⟨((u'.2 v hv).1).trans (u.2 v hv).1, ((u'.2 v hv).2).trans (u.2 v hv).2⟩⟩
  | alloc len content =>
    obtain ⟨cap, own, hcap, c⟩ := ho.core h
    have hnew := c.notNew
    have := ho.env (m' := { m with vlen := upd m.vlen m.vnext (some len), vcell := upd m.vcell m.vnext content
                                   vnext := m.vnext + 1 }) (other' := upd a.other m.vnext true) h ?_ ?_ ?_
    · refine ⟨.val m.vnext, _, rfl, ⟨_, rfl, hnew.2⟩, this.1, fun h => h.elim, this.2⟩
    · intro v ho' hv
      have hne : v ≠ m.vnext := by rintro rfl; exact hv (c.fresh _ (Nat.le_refl _))
      simp only; rw [upd_ne hne, upd_ne hne, upd_ne hne]; exact ⟨rfl, rfl, ho'⟩
    · intro v hv
      simp only
      by_cases hne : v = m.vnext
      · subst hne; simp
      · rw [upd_ne hne, upd_ne hne, c.live]
        rcases hv with hv | hv
        · simp [hv]
        · constructor
          · rintro (h | h)
            · exact absurd hv (own_notOther c v h).2
            · exact h
          · exact .inr
    · intro v hv
      simp only at hv ⊢
      rw [upd_ne (by omega)]; exact c.fresh v (by omega)
  | free v =>
    obtain ⟨cap, own, hcap, c⟩ := ho.core h
    have := ho.env (m' := { m with vlen := upd m.vlen v none }) (other' := upd a.other v false) h ?_ ?_ ?_
    · refine ⟨.unit, _, rfl, rfl, this.1, fun h => h.elim, this.2⟩
    · intro w ho' hw
      have hne : w ≠ v := by
        rintro rfl; simp only [legal] at hl; rw [hl] at ho'; cases ho'
      simp only; rw [upd_ne hne, upd_ne hne]; exact ⟨rfl, trivial, ho'⟩
    · intro w hw
      simp only
      by_cases hne : w = v
      · subst hne; simp
      · rw [upd_ne hne, upd_ne hne, c.live]
        rcases hw with hv | hv
        · simp [hv]
        · constructor
          · rintro (h | h)
            · exact absurd hv (own_notOther c w h).2
            · exact h
          · exact .inr
    · intro w hv
      simp only at hv ⊢
      by_cases hne : w = v
      · subst hne; simp
      · rw [upd_ne hne]; exact c.fresh w hv
  | write v i x =>
    obtain ⟨cap, own, hcap, c⟩ := ho.core h
    have := ho.env (m' := { m with vcell := upd m.vcell v (upd (m.vcell v) i x) }) (other' := a.other) h ?_ ?_ ?_
    · refine ⟨.unit, _, rfl, rfl, this.1, fun h => h.elim, this.2⟩
    · intro w ho' hw
      have hne : w ≠ v := by
        rintro rfl; simp only [legal] at hl; rw [hl] at ho'; cases ho'
      simp only; rw [upd_ne hne]; exact ⟨trivial, rfl, ho'⟩
    · intro w hw
      simp only
      rw [c.live]
      rcases hw with hv | hv
      · simp [hv]
      · constructor
        · rintro (h | h)
          · exact absurd hv (own_notOther c w h).2
          · exact h
        · exact .inr
    · exact c.fresh

end ArraySpec
end Tommy
