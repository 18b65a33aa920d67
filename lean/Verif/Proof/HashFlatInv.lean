import Verif.Proof.HashFlatView
/-! The hashtables of a program in one memory of bytes. -/
set_option linter.unusedSimpArgs false
set_option linter.unusedVariables false
namespace Tommy

variable [Arch]
namespace HashFlatSpec
open HashSpec (Elem LiveOk SameNode)
open TablesSpec (Tbl tblImpl Good given without tbl_ok)
open HashFlat
open AllocSpec (rdN_congr acc_of)

def view (a : Ab) : View := ⟨a.env, fun b => (a.tab b).map fun T => (T.sz.ty, T.es.map Elem.node), a.byte⟩

def tabsOf (a : Ab) : Nat → Option (List Elem) := fun b => (a.tab b).map Tab.es

/-- The typed memory without vectors. -/
def noMem : Mem := ⟨⟨fun _ => false, fun _ => 0, fun _ => 0, fun _ => 0, fun _ => 0⟩, fun _ => none, fun _ _ => none, 0⟩

/-- The bytes `w` are the ones of the program in the state `a`. -/
structure FI (w : AMem) (a : Ab) (ts : TablesSpec.St) (owner : Nat → Option Nat) (φ : Nat → Nat) (Fs : Fld) : Prop where
  inv : TablesSpec.Inv noMem ts ⟨tabsOf a, ts.mem.heap.valid⟩ owner
  rel : Rel (view a).env ((view a).mkF Fs) φ ts.mem w
  lay : (view a).Lay
  nodes : ∀ p, ts.mem.heap.valid p = true ↔ (view a).Node p
  forget : ∀ x, (view a).InStruct x ∨ (view a).InNode x → a.byte x = none
  tabs : ∀ b T, a.tab b = some T → ∃ t, ts.tbl b = some t ∧ szOf t = T.sz ∧ TAt ((view a).mkF Fs) φ ts.mem.vnext b t ∧ T.own = ownOf φ t

def FInv (w : AMem) (a : Ab) : Prop := ∃ ts owner φ Fs, FI w a ts owner φ Fs

section
variable {a : Ab}

theorem view_sh {b : Nat} {ty : Ty} {l : List Nat} : (view a).sh b = some (ty, l) ↔ ∃ T, a.tab b = some T ∧ T.sz.ty = ty ∧ T.es.map Elem.node = l := by
  simp only [view, Option.map_eq_some_iff, Prod.mk.injEq]

theorem view_struct {x : Nat} : (view a).InStruct x ↔ a.InStruct x := by
  constructor
  · rintro ⟨b, ty, l, h1, h2⟩
    obtain ⟨T, h3, rfl, rfl⟩ := view_sh.1 h1
    exact ⟨b, T, h3, h2⟩
  · rintro ⟨b, T, h1, h2⟩
    exact ⟨b, _, _, view_sh.2 ⟨T, h1, rfl, rfl⟩, h2⟩

theorem view_node {p : Nat} : (view a).Node p ↔ ∃ b T, a.tab b = some T ∧ p ∈ T.es.map Elem.node := by
  constructor
  · rintro ⟨b, ty, l, h1, h2⟩
    obtain ⟨T, h3, rfl, rfl⟩ := view_sh.1 h1
    exact ⟨b, T, h3, h2⟩
  · rintro ⟨b, T, h1, h2⟩
    exact ⟨b, _, _, view_sh.2 ⟨T, h1, rfl, rfl⟩, h2⟩

theorem view_inNode {x : Nat} : (view a).InNode x ↔ a.InNode x := by
  constructor
  · rintro ⟨p, hp, h2⟩
    obtain ⟨b, T, h1, h3⟩ := view_node.1 hp
    obtain ⟨e, he, rfl⟩ := List.mem_map.1 h3
    exact ⟨b, T, e, h1, he, h2⟩
  · rintro ⟨b, T, e, h1, h2, h3⟩
    exact ⟨e.node, view_node.2 ⟨b, T, h1, List.mem_map_of_mem h2⟩, h3⟩

theorem stored_iff {live : Ptr → Bool} {p : Nat} : (⟨tabsOf a, live⟩ : TablesSpec.Ab).stored p ↔ (view a).Node p := by
  rw [view_node]
  simp only [TablesSpec.Ab.stored, TablesSpec.Ab.within, tabsOf, Option.map_eq_some_iff]
  constructor
  · rintro ⟨b, es, ⟨T, h1, rfl⟩, h2⟩; exact ⟨b, T, h1, h2⟩
  · rintro ⟨b, T, h1, h2⟩; exact ⟨b, T.es, ⟨T, h1, rfl⟩, h2⟩

/-- What is available is not used. -/
theorem avail_iff {p n : Nat} : a.Avail p n ↔ InE (view a).env p n ∧ ∀ x, p ≤ x → x < p + n → ¬ (view a).InStruct x ∧ ¬ (view a).InNode x := by
  simp only [view_struct, view_inNode]; rfl

theorem avail_free {x : Nat} : a.Avail x 1 ↔ (view a).Free x := by
  rw [avail_iff]
  constructor
  · rintro ⟨h1, h2⟩; exact ⟨h1, h2 x (Nat.le_refl _) (by omega)⟩
  · rintro ⟨h1, h2⟩
    refine ⟨h1, fun y h3 h4 => ?_⟩
    have : y = x := by omega
    subst this; exact h2

/-- An available place is apart from the nodes. -/
theorem avail_node {p n q : Nat} (hn : 0 < n) (h : a.Avail p n) (hq : (view a).Node q) : p + n ≤ q ∨ q + nodeSize ≤ p := by
  have h2 := (avail_iff.1 h).2
  by_contra hc
  by_cases hpq : p ≤ q
  · exact (h2 q hpq (by omega)).2 ⟨q, hq, Nat.le_refl _, by arch⟩
  · exact (h2 p (by omega) (by omega)).2 ⟨q, hq, by omega, by omega⟩

theorem avail_str {p n b : Nat} {ty : Ty} {l : List Nat} (hn : 0 < n) (h : a.Avail p n) (hb : (view a).sh b = some (ty, l)) :
    p + n ≤ b ∨ b + structSize ty ≤ p := by
  have h2 := (avail_iff.1 h).2
  have := structSize_pos ty
  by_contra hc
  by_cases hpq : p ≤ b
  · exact (h2 b hpq (by omega)).1 ⟨b, ty, l, hb, Nat.le_refl _, by omega⟩
  · exact (h2 p (by omega) (by omega)).1 ⟨b, ty, l, hb, by omega, by omega⟩

end

section
variable {w : AMem} {a : Ab} {ts : TablesSpec.St} {owner : Nat → Option Nat} {φ : Nat → Nat} {Fs : Fld}

theorem FI.ok (h : FI w a ts owner φ Fs) {p : Nat} (hp : (view a).Node p) : ts.mem.heap.ok p :=
  ⟨Nat.pos_iff_ne_zero.1 (h.rel.vecs.inE (h.lay.node p hp)).1, (h.nodes p).2 hp⟩

/-- The table and its invariant. -/
theorem FI.good (h : FI w a ts owner φ Fs) {b : Nat} {T : Tab} (hT : a.tab b = some T) : ∃ t, ts.tbl b = some t ∧ szOf t = T.sz ∧
    TAt ((view a).mkF Fs) φ ts.mem.vnext b t ∧ T.own = ownOf φ t ∧ Good (without ts.mem owner b) t ts.mem T.es := by
  obtain ⟨t, h1, h2, h3, h4⟩ := h.tabs b T hT
  exact ⟨t, h1, h2, h3, h4, h.inv.good b t T.es h1 (by simp [tabsOf, hT])⟩

theorem FI.region (h : FI w a ts owner φ Fs) (b n : Nat) : a.Region b n ↔ w.live b = some n := by
  rw [h.rel.live]
  refine or_congr Iff.rfl ⟨?_, ?_⟩
  · rintro ⟨i, T, hT, hm⟩
    obtain ⟨t, _, _, _, h4, g⟩ := h.good hT
    rw [h4, own_mem h.rel g] at hm
    obtain ⟨v, k, _, h6, h7, h8⟩ := hm
    exact ⟨v, k, h6, h7, h8⟩
  · rintro ⟨v, k, h1, h2, h3⟩
    cases ho : owner v with
    | none =>
      have := h.inv.rest v ho
      rw [h1] at this; cases this
    | some i =>
      have hne := (h.inv.own v i ho).2.2
      have hT : a.tab i ≠ none := by
        intro e
        exact hne ((h.inv.dom i).2 (by simp [tabsOf, e]))
      obtain ⟨T, hT⟩ := Option.ne_none_iff_exists'.1 hT
      obtain ⟨t, _, _, _, h4, g⟩ := h.good hT
      refine ⟨i, T, hT, ?_⟩
      rw [h4, own_mem h.rel g]
      exact ⟨v, k, by simp [without, ho], h1, h2, h3⟩

theorem FI.fresh (h : FI w a ts owner φ Fs) {b n : Nat} (hf : a.Fresh b n) : Fresh w.live b n := by
  obtain ⟨h1, h2, h3, h4⟩ := hf
  refine ⟨?_, h1, h2, fun b' n' hl => h4 b' n' ((h.region b' n').2 hl)⟩
  cases e : w.live b with
  | none => rfl
  | some k => exact absurd ((h.region b k).2 e) (h3 k)

end

/-- The memory after a call, seen by the program. -/
theorem FI.mk' {a' : Ab} {ts : TablesSpec.St} {A : TablesSpec.Ab} {owner : Nat → Option Nat} (I : TablesSpec.Inv noMem ts A owner)
    {V : View} {φ : Nat → Nat} {Fs : Fld} {w w' : AMem} (R : Rel V.env (V.mkF Fs) φ ts.mem w) (hA : A.val = tabsOf a')
    (Vc : Vecs (view a').env φ ts.mem w') (lay : (view a').Lay) (hst : ∀ p, (view a').Node p → ts.mem.heap.ok p)
    (hb : ∀ p, (view a').Node p → ∀ x, p ≤ x → x < p + nodeSize → w'.byte x = w.byte x)
    (hfields : ∀ x n c, (view a').Field x n → Fs x n = some (some c) → rdN w'.byte x n = c)
    (hfree : ∀ x c, (view a').Free x → a'.byte x = some c → rdN w'.byte x 1 = c)
    (hforget : ∀ x, (view a').InStruct x ∨ (view a').InNode x → a'.byte x = none)
    (htabs : ∀ b T, a'.tab b = some T → ∃ t, ts.tbl b = some t ∧ szOf t = T.sz ∧ TAt (V.mkF Fs) φ ts.mem.vnext b t ∧
      (∀ o n, IsField T.sz.ty o n → V.Field (b + o) n) ∧ T.own = ownOf φ t) : FInv w' a' := by
  obtain ⟨val, live⟩ := A
  have hA : val = tabsOf a' := hA
  subst hA
  obtain ⟨I', R'⟩ := review (V' := view a') (Fs' := Fs) I R Vc lay (fun p hp => ⟨hst p (stored_iff.1 hp), stored_iff.1 hp⟩)
    (fun p hp => hb p (stored_iff.1 hp)) hfields hfree
  refine ⟨_, owner, φ, Fs, I', R', lay, fun p => View.heapOf_valid p, hforget, fun b T hT => ?_⟩
  obtain ⟨t, h1, h2, h3, h4, h5⟩ := htabs b T hT
  refine ⟨t, h1, h2, ?_, h5⟩
  refine h3.congr (fun o n ho => ?_) (fun _ _ => rfl) (Nat.le_refl _)
  rw [← szOf_ty, h2] at ho
  rw [View.mkF_field (h4 o n ho), View.mkF_field ⟨b, _, _, o, view_sh.2 ⟨T, hT, rfl, rfl⟩, ho, rfl⟩]

section
variable {w : AMem} {a : Ab}

theorem step_emalloc (h : FInv w a) {b n : Nat} {c : Nat → Nat} (hl : legal a (.emalloc b n c)) :
    ∃ out w', step (.emalloc b n c) w = some (out, w') ∧ allowed a (.emalloc b n c) out ∧ FInv w' (next a (.emalloc b n c) out) := by
  obtain ⟨ts, owner, φ, Fs, h⟩ := h
  obtain ⟨hf, hc⟩ := hl
  have hf := h.fresh hf
  refine ⟨_, _, rfl, ⟨rfl, rfl⟩, ?_⟩
  have henv : a.env b = none := by
    cases e : a.env b with
    | none => rfl
    | some k =>
      have := (h.rel.live b k).2 (.inl e)
      rw [hf.none] at this; cases this
  have sub : ∀ {p k}, InE a.env p k → InE (upd a.env b (some n)) p k := by
    rintro p k ⟨b', k', h1, h2, h3⟩
    exact ⟨b', k', by rw [upd_ne (by rintro rfl; rw [henv] at h1; cases h1)]; exact h1, h2, h3⟩
  have far : ∀ {p k}, InE a.env p k → p + k ≤ b ∨ b + n ≤ p := by
    rintro p k ⟨b', k', h1, h2, h3⟩
    have := hf.sep b' k' ((h.rel.live b' k').2 (.inl h1))
    omega
  have hφ : ∀ v, ts.mem.vlen v ≠ none → φ v ≠ b := by
    intro v hv e
    obtain ⟨k, hk⟩ := Option.ne_none_iff_exists'.1 hv
    have := h.rel.vec hk
    rw [e, hf.none] at this; cases this
  have lay : (view (next a (.emalloc b n c) ⟨.unit, [.got b n]⟩)).Lay :=
    ⟨fun b' ty l h1 => sub (h.lay.str b' ty l h1), h.lay.ssep, fun p hp => sub (h.lay.node p hp), h.lay.nsep, h.lay.nssep⟩
  have eqb : ∀ x, (x < b ∨ b + n ≤ x) → (if b ≤ x ∧ x < b + n then c x else w.byte x) = w.byte x := fun x hx => if_neg (by omega)
  refine FI.mk' h.inv h.rel rfl (a' := next a (.emalloc b n c) _) (w' := ⟨_, _⟩) ⟨?_, ?_, ?_, ?_, h.rel.vinj, ?_, h.rel.fresh, ?_⟩ lay
    (fun p hp => h.ok hp) ?_ ?_ ?_ ?_ ?_
  · intro x
    show (if _ then _ else _) < 256
    split
    · exact hc x
    · exact h.rel.byte x
  · intro b' n'
    show upd w.live b (some n) b' = some n' ↔ upd a.env b (some n) b' = some n' ∨ _
    by_cases hb : b' = b
    · subst hb
      rw [upd_same, upd_same]
      refine ⟨.inl, ?_⟩
      rintro (h1 | ⟨v, k, h1, h2, h3⟩)
      · exact h1
      · exact absurd h2 (hφ v (by rw [h1]; simp))
    · rw [upd_ne hb, upd_ne hb]; exact h.rel.live b' n'
  · intro b' n' hl
    have hl : upd w.live b (some n) b' = some n' := hl
    by_cases hb : b' = b
    · subst hb
      rw [upd_same] at hl
      injection hl with hl
      subst hl
      exact ⟨hf.pos, hf.lt⟩
    · rw [upd_ne hb] at hl; exact h.rel.pos b' n' hl
  · intro b1 n1 b2 n2 h1 h2 hne
    have h1 : upd w.live b (some n) b1 = some n1 := h1
    have h2 : upd w.live b (some n) b2 = some n2 := h2
    by_cases e1 : b1 = b
    · subst e1
      rw [upd_same] at h1
      injection h1 with h1
      subst h1
      rw [upd_ne hne.symm] at h2
      exact hf.sep b2 n2 h2
    · by_cases e2 : b2 = b
      · subst e2
        rw [upd_same] at h2
        injection h2 with h2
        subst h2
        have h1 : upd w.live b2 (some n) b1 = some n1 := h1
        rw [upd_ne e1] at h1
        exact (hf.sep b1 n1 h1).symm
      · rw [upd_ne e1] at h1
        rw [upd_ne e2] at h2
        exact h.rel.reg b1 n1 b2 n2 h1 h2 hne
  · intro v hv
    show upd a.env b (some n) (φ v) = none
    rw [upd_ne (hφ v hv)]
    exact h.rel.venv v hv
  · intro v i k x h1 h2 h3
    rw [← h.rel.vecs.cells v i k x h1 h2 h3]
    refine rdN_congr fun y h4 h5 => eqb y ?_
    have h6 := hf.sep _ _ (h.rel.vec h1)
    have h7 : ptrSize * (i + 1) ≤ ptrSize * k := Nat.mul_le_mul_left _ h2
    rw [Nat.mul_add, Nat.mul_one] at h7
    omega
  · intro p hp x h1 h2
    refine eqb x ?_
    have := far (h.lay.node p hp)
    omega
  · intro x k v hx hv
    have hx : (view a).Field x k := hx
    rw [← h.rel.val (.fld x k) v (View.mkF_ne.2 (.inl hx)) (by simp only [HashFlat.val]; rw [View.mkF_field hx, hv]; rfl)]
    refine rdN_congr fun y h1 h2 => eqb y ?_
    have h1 : x ≤ y := h1
    have h2 : y < x + k := h2
    have := far (h.rel.fin x k (View.mkF_ne.2 (.inl hx)))
    omega
  · intro x v hx hv
    have hv : (if b ≤ x ∧ x < b + n then some (c x) else a.byte x) = some v := hv
    show (if b ≤ x ∧ x < b + n then c x else w.byte x) + 256 * 0 = v
    by_cases hr : b ≤ x ∧ x < b + n
    · rw [if_pos hr] at hv ⊢
      injection hv
    · rw [if_neg hr] at hv ⊢
      have hfr : (view a).Free x := by
        refine ⟨?_, hx.2⟩
        obtain ⟨b', k', h1, h2, h3⟩ := hx.1
        have h1 : upd a.env b (some n) b' = some k' := h1
        by_cases hb : b' = b
        · subst hb
          rw [upd_same] at h1
          injection h1 with h1
          omega
        · rw [upd_ne hb] at h1
          exact ⟨b', k', h1, h2, h3⟩
      have := h.rel.val (.fld x 1) v (View.mkF_ne.2 (.inr ⟨rfl, hfr⟩)) (by simp only [HashFlat.val]; rw [View.mkF_free hfr]; exact hv)
      simpa [rdN, adr, siz] using this
  · intro x hx
    show (if b ≤ x ∧ x < b + n then some (c x) else a.byte x) = none
    rw [if_neg, h.forget x hx]
    have : InE a.env x 1 := by
      rcases hx with ⟨b', ty, l, h1, h2, h3⟩ | ⟨p, hp, h2, h3⟩
      · exact (h.lay.str b' ty l h1).sub h2 (by omega)
      · exact (h.lay.node p hp).sub h2 (by omega)
    have := far this
    omega
  · intro b' T hT
    obtain ⟨t, h1, h2, h3, h4⟩ := h.tabs b' T hT
    exact ⟨t, h1, h2, h3, fun o k ho => ⟨b', _, _, o, view_sh.2 ⟨T, hT, rfl, rfl⟩, ho, rfl⟩, h4⟩

theorem step_efree (h : FInv w a) {b : Nat} (hl : legal a (.efree b)) :
    ∃ out w', step (.efree b) w = some (out, w') ∧ allowed a (.efree b) out ∧ FInv w' (next a (.efree b) out) := by
  obtain ⟨ts, owner, φ, Fs, h⟩ := h
  obtain ⟨n, hb, hav⟩ := hl
  have hlive := (h.rel.live b n).2 (.inl hb)
  refine ⟨⟨.unit, [.gave b]⟩, ⟨w.byte, upd w.live b none⟩, by simp [step, run, bfree, hlive], ⟨rfl, rfl⟩, ?_⟩
  have hφ : ∀ v, ts.mem.vlen v ≠ none → φ v ≠ b := by
    intro v hv e
    have h1 : a.env (φ v) = none := h.rel.venv v hv
    rw [e, hb] at h1; cases h1
  have sub : ∀ {p k}, 0 < k → InE a.env p k → (∀ x, p ≤ x → x < p + k → (view a).InStruct x ∨ (view a).InNode x) → InE (upd a.env b none) p k := by
    rintro p k hk ⟨b', k', h1, h2, h3⟩ hin
    refine ⟨b', k', ?_, h2, h3⟩
    rw [upd_ne]; exact h1
    rintro rfl
    rw [hb] at h1
    injection h1 with h1
    subst h1
    have := (avail_iff.1 hav).2 p h2 (by omega)
    rcases hin p (Nat.le_refl _) (by omega) with h | h
    · exact this.1 h
    · exact this.2 h
  have lay : (view (next a (.efree b) ⟨.unit, [.gave b]⟩)).Lay :=
    ⟨fun b' ty l h1 => sub (structSize_pos ty) (h.lay.str b' ty l h1) (fun x h2 h3 => .inl ⟨b', ty, l, h1, h2, h3⟩), h.lay.ssep,
      fun p hp => sub (by arch) (h.lay.node p hp) (fun x h2 h3 => .inr ⟨p, hp, h2, h3⟩), h.lay.nsep, h.lay.nssep⟩
  refine FI.mk' h.inv h.rel rfl (a' := next a (.efree b) _) (w' := ⟨_, _⟩) ⟨h.rel.byte, ?_, ?_, ?_, h.rel.vinj, ?_, h.rel.fresh, h.rel.vecs.cells⟩ lay
    (fun p hp => h.ok hp) (fun _ _ _ _ _ => rfl) ?_ ?_ h.forget ?_
  · intro b' n'
    show upd w.live b none b' = some n' ↔ upd a.env b none b' = some n' ∨ _
    by_cases hb : b' = b
    · subst hb
      rw [upd_same, upd_same]
      refine ⟨.inl, ?_⟩
      rintro (h1 | ⟨v, k, h1, h2, h3⟩)
      · exact h1
      · exact absurd h2 (hφ v (by rw [h1]; simp))
    · rw [upd_ne hb, upd_ne hb]; exact h.rel.live b' n'
  · intro b' n' hl
    have hl : upd w.live b none b' = some n' := hl
    by_cases hb : b' = b
    · subst hb; rw [upd_same] at hl; cases hl
    · rw [upd_ne hb] at hl; exact h.rel.pos b' n' hl
  · intro b1 n1 b2 n2 h1 h2 hne
    have h1 : upd w.live b none b1 = some n1 := h1
    have h2 : upd w.live b none b2 = some n2 := h2
    by_cases e1 : b1 = b
    · subst e1; rw [upd_same] at h1; cases h1
    · by_cases e2 : b2 = b
      · subst e2; rw [upd_same] at h2; cases h2
      · rw [upd_ne e1] at h1
        rw [upd_ne e2] at h2
        exact h.rel.reg b1 n1 b2 n2 h1 h2 hne
  · intro v hv
    show upd a.env b none (φ v) = none
    rw [upd_ne (hφ v hv)]
    exact h.rel.venv v hv
  · intro x k v hx hv
    have hx : (view a).Field x k := hx
    exact h.rel.val (.fld x k) v (View.mkF_ne.2 (.inl hx)) (by simp only [HashFlat.val]; rw [View.mkF_field hx, hv]; rfl)
  · intro x v hx hv
    have hfr : (view a).Free x := by
      refine ⟨?_, hx.2⟩
      obtain ⟨b', k', h1, h2, h3⟩ := hx.1
      have h1 : upd a.env b none b' = some k' := h1
      by_cases hb : b' = b
      · subst hb; rw [upd_same] at h1; cases h1
      · rw [upd_ne hb] at h1
        exact ⟨b', k', h1, h2, h3⟩
    exact h.rel.val (.fld x 1) v (View.mkF_ne.2 (.inr ⟨rfl, hfr⟩)) (by simp only [HashFlat.val]; rw [View.mkF_free hfr]; exact hv)
  · intro b' T hT
    obtain ⟨t, h1, h2, h3, h4⟩ := h.tabs b' T hT
    exact ⟨t, h1, h2, h3, fun o k ho => ⟨b', _, _, o, view_sh.2 ⟨T, hT, rfl, rfl⟩, ho, rfl⟩, h4⟩

theorem step_eread (h : FInv w a) {x : Nat} (hl : legal a (.eread x)) :
    ∃ out w', step (.eread x) w = some (out, w') ∧ allowed a (.eread x) out ∧ FInv w' (next a (.eread x) out) := by
  have hI := h
  obtain ⟨ts, owner, φ, Fs, h⟩ := h
  have hfr := avail_free.1 hl
  have hd : dom ((view a).mkF Fs) ts.mem (.fld x 1) := View.mkF_ne.2 (.inr ⟨rfl, hfr⟩)
  have hacc : w.acc x 1 = true := h.rel.acc hd
  refine ⟨⟨.val (rdN w.byte x 1), []⟩, w, by simp [step, run, bgetN, hacc], ⟨rfl, _, rfl, fun c hc => ?_⟩, hI⟩
  exact h.rel.val (.fld x 1) c hd (by simp only [HashFlat.val]; rw [View.mkF_free hfr]; exact hc)

theorem step_ewrite (h : FInv w a) {x v : Nat} (hl : legal a (.ewrite x v)) :
    ∃ out w', step (.ewrite x v) w = some (out, w') ∧ allowed a (.ewrite x v) out ∧ FInv w' (next a (.ewrite x v) out) := by
  obtain ⟨ts, owner, φ, Fs, h⟩ := h
  obtain ⟨hav, hv⟩ := hl
  have hfr := avail_free.1 hav
  have hd : dom ((view a).mkF Fs) ts.mem (.fld x 1) := View.mkF_ne.2 (.inr ⟨rfl, hfr⟩)
  have hacc : w.acc x 1 = true := h.rel.acc hd
  refine ⟨⟨.unit, []⟩, _, by simp only [step, run, bsetN, hacc, if_true, Option.map_some]; rfl, ⟨rfl, rfl⟩, ?_⟩
  have hR := h.rel.set (o := .fld x 1) (c := v) hd (by simpa [siz] using hv) (F' := (view (next a (.ewrite x v) ⟨.unit, []⟩)).mkF Fs) (m' := ts.mem) rfl rfl rfl
    (fun y n => by
      have h1 : (view (next a (.ewrite x v) ⟨.unit, []⟩)).mkF Fs y n ≠ none ↔ (view a).mkF Fs y n ≠ none := by
        rw [View.mkF_ne, View.mkF_ne]; exact Iff.rfl
      exact not_iff_not.1 h1) (fun o' c' ho' hc' => by
      by_cases e : o' = .fld x 1
      · subst e
        refine .inl ⟨rfl, ?_⟩
        have hc' : ((view (next a (.ewrite x v) ⟨.unit, []⟩)).mkF Fs x 1).join = some c' := hc'
        rw [View.mkF_free (V := view (next a (.ewrite x v) ⟨.unit, []⟩)) hfr] at hc'
        have hc' : upd a.byte x (some v) x = some c' := hc'
        rw [upd_same] at hc'
        injection hc' with hc'
        exact hc'.symm
      · refine .inr ⟨e, ?_⟩
        cases o' with
        | fld y n =>
          have hc' : ((view (next a (.ewrite x v) ⟨.unit, []⟩)).mkF Fs y n).join = some c' := hc'
          show ((view a).mkF Fs y n).join = some c'
          rcases View.mkF_ne.1 ho' with h1 | ⟨rfl, h1⟩
          · rw [View.mkF_field (V := view (next a (.ewrite x v) ⟨.unit, []⟩)) h1] at hc'
            rw [View.mkF_field h1]; exact hc'
          · rw [View.mkF_free (V := view (next a (.ewrite x v) ⟨.unit, []⟩)) h1] at hc'
            rw [View.mkF_free h1]
            have hc' : upd a.byte x (some v) y = some c' := hc'
            rw [upd_ne (by rintro rfl; exact e rfl)] at hc'
            exact hc'
        | _ => exact hc')
  refine ⟨ts, owner, φ, Fs, h.inv, hR, ⟨h.lay.str, h.lay.ssep, h.lay.node, h.lay.nsep, h.lay.nssep⟩, h.nodes, fun y hy => ?_, fun b T hT => ?_⟩
  · show upd a.byte x (some v) y = none
    rw [upd_ne, h.forget y hy]
    rintro rfl
    rcases hy with hy | hy
    · exact hfr.2.1 hy
    · exact hfr.2.2 hy
  · obtain ⟨t, h1, h2, h3, h4⟩ := h.tabs b T hT
    refine ⟨t, h1, h2, h3.congr (fun o n ho => ?_) (fun _ _ => rfl) (Nat.le_refl _), h4⟩
    rw [← szOf_ty, h2] at ho
    have hf : (view a).Field (b + o) n := ⟨b, _, _, o, view_sh.2 ⟨T, hT, rfl, rfl⟩, ho, rfl⟩
    rw [View.mkF_field (V := view (next a (.ewrite x v) ⟨.unit, []⟩)) hf, View.mkF_field hf]

end

/-- Less nodes and structs. -/
theorem View.Lay.sub {V V' : View} (h : V.Lay) (he : V'.env = V.env)
    (hs : ∀ b ty l', V'.sh b = some (ty, l') → ∃ l, V.sh b = some (ty, l) ∧ ∀ p ∈ l', p ∈ l) :
    V'.Lay ∧ (∀ p, V'.Node p → V.Node p) ∧ (∀ x n, V'.Field x n → V.Field x n) ∧ (∀ x, V'.InStruct x → V.InStruct x) ∧
      ∀ x, V'.InNode x → V.InNode x := by
  have hn : ∀ p, V'.Node p → V.Node p := by
    rintro p ⟨b, ty, l', h1, h2⟩
    obtain ⟨l, h3, h4⟩ := hs b ty l' h1
    exact ⟨b, ty, l, h3, h4 p h2⟩
  refine ⟨⟨fun b ty l' h1 => ?_, fun b ty l b' ty' l' h1 h2 hne => ?_, fun p hp => ?_, fun p q hp hq => h.nsep p q (hn p hp) (hn q hq),
    fun p b ty l hp h1 => ?_⟩, hn, ?_, ?_, ?_⟩
  · obtain ⟨l, h3, _⟩ := hs b ty l' h1
    rw [he]; exact h.str b ty l h3
  · obtain ⟨k, h3, _⟩ := hs b ty l h1
    obtain ⟨k', h4, _⟩ := hs b' ty' l' h2
    exact h.ssep b ty k b' ty' k' h3 h4 hne
  · rw [he]; exact h.node p (hn p hp)
  · obtain ⟨k, h3, _⟩ := hs b ty l h1
    exact h.nssep p b ty k (hn p hp) h3
  · rintro x n ⟨b, ty, l', o, h1, h2, h3⟩
    obtain ⟨l, h4, _⟩ := hs b ty l' h1
    exact ⟨b, ty, l, o, h4, h2, h3⟩
  · rintro x ⟨b, ty, l', h1, h2⟩
    obtain ⟨l, h4, _⟩ := hs b ty l' h1
    exact ⟨b, ty, l, h4, h2⟩
  · rintro x ⟨p, hp, h2⟩
    exact ⟨p, hn p hp, h2⟩

/-- The memory before a call, with what is passed to it. -/
theorem FI.before {w : AMem} {a : Ab} {ts : TablesSpec.St} {owner : Nat → Option Nat} {φ : Nat → Nat} {Fs : Fld} (h : FI w a ts owner φ Fs)
    {V : View} {Fs' : Fld} (he : V.env = a.env) (lay : V.Lay) (hn : ∀ p, (view a).Node p → V.Node p)
    (hfld : ∀ x n c, V.Field x n → Fs' x n = some (some c) → (view a).Field x n ∧ Fs x n = some (some c))
    (hfr : ∀ x c, V.Free x → V.byte x = some c → (view a).Free x ∧ a.byte x = some c) :
    TablesSpec.Inv noMem { ts with mem := { ts.mem with heap := V.heapOf w } } ⟨tabsOf a, (V.heapOf w).valid⟩ owner ∧
      Rel V.env (V.mkF Fs') φ { ts.mem with heap := V.heapOf w } w := by
  refine review h.inv h.rel (by rw [he]; exact h.rel.vecs) lay (fun p hp => ⟨h.ok (stored_iff.1 hp), hn p (stored_iff.1 hp)⟩)
    (fun _ _ _ _ _ => rfl) (fun x n c hx hc => ?_) (fun x c hx hc => ?_)
  · obtain ⟨h1, h2⟩ := hfld x n c hx hc
    exact h.rel.val (.fld x n) c (View.mkF_ne.2 (.inl h1)) (by simp only [HashFlat.val]; rw [View.mkF_field h1, h2]; rfl)
  · obtain ⟨h1, h2⟩ := hfr x c hx hc
    exact h.rel.val (.fld x 1) c (View.mkF_ne.2 (.inr ⟨rfl, h1⟩)) (by simp only [HashFlat.val]; rw [View.mkF_free h1]; exact h2)

/-- The memory after a call. -/
theorem FI.after {a' : Ab} {ts : TablesSpec.St} {A : TablesSpec.Ab} {owner : Nat → Option Nat} (I : TablesSpec.Inv noMem ts A owner)
    {V : View} {φ : Nat → Nat} {Fs : Fld} {w : AMem} (R : Rel V.env (V.mkF Fs) φ ts.mem w) (lay : V.Lay) (hA : A.val = tabsOf a')
    (he : a'.env = V.env) (hby : a'.byte = V.byte) (hfg : ∀ x, V.InStruct x ∨ V.InNode x → a'.byte x = none)
    (hs : ∀ b ty l', (view a').sh b = some (ty, l') → ∃ l, V.sh b = some (ty, l) ∧ ∀ p ∈ l', p ∈ l)
    (hok : ∀ p, V.Node p → ts.mem.heap.ok p)
    (htabs : ∀ b T, a'.tab b = some T → ∃ t, ts.tbl b = some t ∧ szOf t = T.sz ∧ TAt (V.mkF Fs) φ ts.mem.vnext b t ∧ T.own = ownOf φ t) :
    FInv w a' := by
  obtain ⟨l1, l2, l3, l4, l5⟩ := View.Lay.sub (V' := view a') lay he hs
  refine FI.mk' I R hA (by rw [show (view a').env = V.env from he]; exact R.vecs) l1 (fun p hp => hok p (l2 p hp)) (fun _ _ _ _ _ => rfl)
    (fun x n c hx hc => ?_) (fun x c hx hc => ?_) (fun x hx => hfg x (hx.imp (l4 x) (l5 x))) (fun b T hT => ?_)
  · have hx := l3 x n hx
    exact R.val (.fld x n) c (View.mkF_ne.2 (.inl hx)) (by simp only [HashFlat.val]; rw [View.mkF_field hx, hc]; rfl)
  · have hfr : V.Free x := by
      refine ⟨?_, fun h => ?_, fun h => ?_⟩
      · rw [← he]; exact hx.1
      · rw [hfg x (.inl h)] at hc; cases hc
      · rw [hfg x (.inr h)] at hc; cases hc
    exact R.val (.fld x 1) c (View.mkF_ne.2 (.inr ⟨rfl, hfr⟩)) (by simp only [HashFlat.val]; rw [View.mkF_free hfr, ← hby]; exact hc)
  · obtain ⟨t, h1, h2, h3, h4⟩ := htabs b T hT
    refine ⟨t, h1, h2, h3, fun o n ho => l3 _ _ ⟨b, _, _, o, view_sh.2 ⟨T, hT, rfl, rfl⟩, ho, rfl⟩, h4⟩

/-- The other tables are not written. -/
theorem TAt.other {V : View} {Fs : Fld} {G G' : Gh} {b n b' N' : Nat} {evs : List BEvent} {t : Tbl}
    (h : TAt (V.mkF Fs) G.φ G.N b' t) (hF : G.F = V.mkF Fs) (st : Step G G' b n evs) (hN : G'.N ≤ N')
    (hsep : b + n ≤ b' ∨ b' + structSize (tyOf t) ≤ b) : TAt G'.F G'.φ N' b' t := by
  refine h.congr (fun o k ho => ?_) st.φ (Nat.le_trans st.N hN)
  rw [← hF]
  have := isField_in ho
  exact st.chg.out _ _ (by omega)

theorem asks_next {m0 m m' : Mem} {t t' : Tbl} {es : List Elem} {live : Ptr → Bool} {op : HashSpec.Op} {out : HashSpec.Out}
    (i : HashSpec.Inv (Good m0) ⟨m, t⟩ ⟨es, live⟩) (hl : HashSpec.legal ⟨es, live⟩ op)
    (e : HashSpec.step tblImpl op ⟨m, t⟩ = some (out, ⟨m', t'⟩)) (hc : HashSpec.isCall op)
    (i' : HashSpec.Inv (Good m0) ⟨m', t'⟩ (HashSpec.next ⟨es, live⟩ op out)) :
    (szOf t).asks (szOf t') = (szOf t).asks ((szOf t).next es.length (HashSpec.next ⟨es, live⟩ op out).elems.length) := by
  rcases step_kind hc e with ⟨x, x', rfl, rfl, e1⟩ | ⟨x, x', rfl, rfl, e1⟩ | ⟨x, x', rfl, rfl, e1⟩
  · rfl
  · have := HashSpec.dyn_size_inv (m0 := m0) (s := ⟨m, x⟩) (a := ⟨es, live⟩) (s' := ⟨m', x'⟩) ⟨i.p, i.live, i.liveOk⟩ hl e1 ⟨i'.p, i'.live, i'.liveOk⟩
    simp only [szOf, Sz.next]
    rw [← this]
  · have := HashSpec.lin_size_inv (m0 := m0) (s := ⟨m, x⟩) (a := ⟨es, live⟩) (s' := ⟨m', x'⟩) ⟨i.p, i.live, i.liveOk⟩ hl e1 ⟨i'.p, i'.live, i'.liveOk⟩
    simp only [szOf, Sz.next]
    rw [← this]

theorem after_eq {es : List Elem} {live : Ptr → Bool} {op : HashSpec.Op} {out : HashSpec.Out} :
    (HashSpec.next ⟨es, live⟩ op out).elems = after es op := by cases op <;> rfl

theorem allowed_live {es : List Elem} {live live' : Ptr → Bool} {op : HashSpec.Op} {out : HashSpec.Out}
    (h : HashSpec.allowed ⟨es, live⟩ op out) : HashSpec.allowed ⟨es, live'⟩ op out := by cases op <;> exact h

theorem next_ty (z : Sz) (n n' : Nat) : (z.next n n').ty = z.ty := by cases z <;> rfl

theorem step_call {w : AMem} {a : Ab} (h : FInv w a) {b : Nat} {ty : Ty} {op : HashSpec.Op} {nb : Nat} {c : Nat → Nat} (hl : legal a (.call b ty op nb c)) :
    ∃ out w', step (.call b ty op nb c) w = some (out, w') ∧ allowed a (.call b ty op nb c) out ∧ FInv w' (next a (.call b ty op nb c) out) := by
  obtain ⟨ts, owner, φ, Fs, h⟩ := h
  obtain ⟨T, hT, rfl, hop, hask⟩ := hl
  obtain ⟨t, ht, hsz, hat, hown, hgood⟩ := h.good hT
  have hc : HashSpec.isCall op := by cases op <;> first | trivial | exact hop
  have hgv : ∀ p : Nat, given op = some p → a.Avail p nodeSize := by
    intro p hp
    cases op <;> first | cases hp | skip
    exact hop.1
  have hnew : ∀ p, given op = some p → ¬ (view a).Node p := by
    intro p hp hn
    have := avail_node (by arch) (hgv p hp) hn
    have : 0 < nodeSize := by arch
    omega
  let by' : Nat → Option Nat := (next a (.call b T.sz.ty op nb c) ⟨.unit, []⟩).byte
  have hby : ∀ x c, by' x = some c → a.byte x = some c ∧ ∀ p : Nat, given op = some p → x < p ∨ p + nodeSize ≤ x := by
    intro x c hx
    cases op with
    | insert p d k =>
      have hx : (if p ≤ x ∧ x < p + nodeSize then none else a.byte x) = some c := hx
      split at hx
      · cases hx
      · rename_i hh
        refine ⟨hx, fun q hq => ?_⟩
        have hq : p = q := Option.some.inj hq
        subst hq
        exact (Nat.lt_or_ge x p).imp id fun h1 => Nat.le_of_not_lt fun h2 => hh ⟨h1, h2⟩
    | _ => exact ⟨hx, fun q hq => by cases hq⟩
  let V : View := ⟨a.env, upd (view a).sh b (some (T.sz.ty, T.es.map Elem.node ++ (given op).toList)), by'⟩
  have hVb : V.sh b = some (T.sz.ty, T.es.map Elem.node ++ (given op).toList) := upd_same _ _ _
  have hVo : ∀ b', b' ≠ b → V.sh b' = (view a).sh b' := fun b' hb => upd_ne hb
  have hvb : (view a).sh b = some (T.sz.ty, T.es.map Elem.node) := view_sh.2 ⟨T, hT, rfl, rfl⟩
  have hsh : ∀ b' ty l, V.sh b' = some (ty, l) → ∃ l', (view a).sh b' = some (ty, l') ∧ ∀ p ∈ l, p ∈ l' ∨ given op = some p := by
    intro b' ty l h1
    by_cases hb : b' = b
    · subst hb
      rw [hVb] at h1
      injection h1 with h1
      injection h1 with h1 h2
      subst h1 h2
      refine ⟨_, hvb, fun p hp => ?_⟩
      rcases List.mem_append.1 hp with hp | hp
      · exact .inl hp
      · exact .inr (by simpa using hp)
    · exact ⟨l, by rw [← hVo b' hb]; exact h1, fun p hp => .inl hp⟩
  have hsh' : ∀ b' ty l, (view a).sh b' = some (ty, l) → ∃ l', V.sh b' = some (ty, l') ∧ ∀ p ∈ l, p ∈ l' := by
    intro b' ty l h1
    by_cases hb : b' = b
    · subst hb
      rw [hvb] at h1
      injection h1 with h1
      injection h1 with h1 h2
      subst h1 h2
      exact ⟨_, hVb, fun p hp => List.mem_append_left _ hp⟩
    · exact ⟨l, by rw [hVo b' hb]; exact h1, fun p hp => hp⟩
  have hnode : ∀ p, V.Node p → (view a).Node p ∨ given op = some p := by
    rintro p ⟨b', ty, l, h1, h2⟩
    obtain ⟨l', h3, h4⟩ := hsh b' ty l h1
    exact (h4 p h2).imp (fun h => ⟨b', ty, l', h3, h⟩) id
  have hnode' : ∀ p, (view a).Node p → V.Node p := by
    rintro p ⟨b', ty, l, h1, h2⟩
    obtain ⟨l', h3, h4⟩ := hsh' b' ty l h1
    exact ⟨b', ty, l', h3, h4 p h2⟩
  have hnodeg : ∀ p, given op = some p → V.Node p := fun p hp => ⟨b, _, _, hVb, List.mem_append_right _ (by simp [hp])⟩
  have hfieldV : ∀ x n, V.Field x n → (view a).Field x n := by
    rintro x n ⟨b', ty, l, o, h1, h2⟩
    obtain ⟨l', h3, _⟩ := hsh b' ty l h1
    exact ⟨b', ty, l', o, h3, h2⟩
  have hfieldA : ∀ x n, (view a).Field x n → V.Field x n := by
    rintro x n ⟨b', ty, l, o, h1, h2⟩
    obtain ⟨l', h3, _⟩ := hsh' b' ty l h1
    exact ⟨b', ty, l', o, h3, h2⟩
  have hstrV : ∀ x, V.InStruct x → (view a).InStruct x := by
    rintro x ⟨b', ty, l, h1, h2⟩
    obtain ⟨l', h3, _⟩ := hsh b' ty l h1
    exact ⟨b', ty, l', h3, h2⟩
  have hstrA : ∀ x, (view a).InStruct x → V.InStruct x := by
    rintro x ⟨b', ty, l, h1, h2⟩
    obtain ⟨l', h3, _⟩ := hsh' b' ty l h1
    exact ⟨b', ty, l', h3, h2⟩
  have lay : V.Lay := by
    refine ⟨fun b' ty l h1 => ?_, fun b1 ty1 l1 b2 ty2 l2 h1 h2 hne => ?_, fun p hp => ?_, fun p q hp hq hne => ?_, fun p b' ty l hp h1 => ?_⟩
    · obtain ⟨l', h3, _⟩ := hsh b' ty l h1
      exact h.lay.str b' ty l' h3
    · obtain ⟨l1', h3, _⟩ := hsh b1 ty1 l1 h1
      obtain ⟨l2', h4, _⟩ := hsh b2 ty2 l2 h2
      exact h.lay.ssep _ _ _ _ _ _ h3 h4 hne
    · rcases hnode p hp with hp | hp
      · exact h.lay.node p hp
      · exact (hgv p hp).1
    · rcases hnode p hp with hp | hp <;> rcases hnode q hq with hq | hq
      · exact h.lay.nsep p q hp hq hne
      · exact (avail_node (by arch) (hgv q hq) hp).symm
      · exact avail_node (by arch) (hgv p hp) hq
      · rw [hp] at hq; injection hq with hq; exact absurd hq hne
    · obtain ⟨l', h3, _⟩ := hsh b' ty l h1
      rcases hnode p hp with hp | hp
      · exact h.lay.nssep p b' ty l' hp h3
      · exact avail_str (by arch) (hgv p hp) h3
  have hfg : ∀ x, V.InStruct x ∨ V.InNode x → by' x = none := by
    intro x hx
    cases hbx : by' x with
    | none => rfl
    | some c =>
      obtain ⟨h1, h2⟩ := hby x c hbx
      exfalso
      have hno : ¬ ((view a).InStruct x ∨ (view a).InNode x) := fun hh => by rw [h.forget x hh] at h1; cases h1
      rcases hx with hx | ⟨p, hp, h3⟩
      · exact hno (.inl (hstrV x hx))
      · rcases hnode p hp with hp | hp
        · exact hno (.inr ⟨p, hp, h3⟩)
        · have := h2 p hp
          clear * - this h3; omega
  obtain ⟨I1, R1⟩ := h.before (V := V) (Fs' := Fs) rfl lay hnode' (fun x n c hx hc => ⟨hfieldV x n hx, hc⟩) (fun x c hx hc =>
    ⟨⟨hx.1, fun hh => hx.2.1 (hstrA x hh), fun ⟨p, hp, hh⟩ => hx.2.2 ⟨p, hnode' p hp, hh⟩⟩, (hby x c hc).1⟩)
  set m1 : Mem := { ts.mem with heap := V.heapOf w } with hm1
  have hv1 : ∀ p, m1.heap.valid p = true ↔ V.Node p := fun p => View.heapOf_valid p
  have hleg : HashSpec.legal ⟨T.es, m1.heap.valid⟩ op := by
    cases op with
    | insert p d k =>
      refine ⟨(hv1 p).2 (hnodeg p rfl), fun hs => hnew p rfl (view_node.2 ⟨b, T, hT, ?_⟩)⟩
      exact hs
    | removeExisting p => exact hop
    | _ => first | trivial | exact hop.elim
  have he : tabsOf a b = some T.es := by simp [tabsOf, hT]
  have hi := I1.hash (i := b) (t := t) (es := T.es) ht he
  obtain ⟨out, ⟨m', t'⟩, e, al, i'⟩ := HashSpec.step_inv (tbl_ok _) hi hleg
  obtain ⟨out2, ts2, e2, _, owner', I2⟩ := TablesSpec.step_inv I1 (op := .call b op) ⟨hc, ⟨T.es, he, hleg⟩, fun p hp hs => hnew p hp (stored_iff.1 hs)⟩
  have e2' : TablesSpec.step (.call b op) { ts with mem := m1 } = some (out, ⟨m', upd ts.tbl b (some t')⟩) := by
    simp only [TablesSpec.step, ht, Option.bind_some, e, Option.map_some]
  rw [e2'] at e2
  simp only [Option.some.injEq, Prod.mk.injEq] at e2
  obtain ⟨rfl, rfl⟩ := e2
  have hat1 : TAt (V.mkF Fs) φ m1.vnext b t := by
    refine hat.congr (fun o n ho => ?_) (fun _ _ => rfl) (Nat.le_refl _)
    rw [← szOf_ty, hsz] at ho
    have hf : (view a).Field (b + o) n := ⟨b, _, _, o, hvb, ho, rfl⟩
    rw [View.mkF_field hf, View.mkF_field (hfieldA _ _ hf)]
  have hty : tyOf t = T.sz.ty := by rw [← szOf_ty, hsz]
  have hasks := asks_next hi hleg e hc i'
  rw [after_eq, hsz] at hasks
  have hr : GRel ⟨a.env, V.mkF Fs, φ, [(nb, c)], [], w.live, m1.vnext⟩ m1 ⟨w, [(nb, c)], []⟩ := ⟨R1, rfl, rfl, rfl, Nat.le_refl _⟩
  obtain ⟨W', G', evs, s1, s2, s3, s4, s5⟩ := call_sim hi hleg e hc i' hr rfl hat1 (fun p d k hp => by
      subst hp
      have := (h.rel.vecs.inE (hgv p rfl).1).2
      exact ⟨Nat.lt_of_le_of_lt (Nat.le_add_right _ _) this, hop.2⟩) rfl (fun k hk => by
      rw [hsz, hasks] at hk
      exact ⟨h.fresh (hask k hk).1, (hask k hk).2⟩)
  rw [after_eq, hsz] at s5
  have s5 : szOf t' = T.szAfter op := s5
  have hlog : W'.log = evs := by rw [s2.log, s3.step.log]; rfl
  have howns : owns T.own evs = some (ownOf G'.φ t') := by rw [hown]; exact s3.owns
  have hstep : step (.call b T.sz.ty op nb c) w = some (⟨out, evs⟩, W'.mem) := by
    simp only [step, run]
    rw [← hty, s1, ← hlog]; rfl
  have henv : G'.env = a.env := s3.step.env
  have hF : V.mkF G'.F = G'.F := View.mkF_eq hVb (by rw [← hty]; exact s3.step.chg)
  have R2 : Rel V.env (V.mkF G'.F) G'.φ m' W'.mem := by
    rw [hF, show V.env = G'.env from henv.symm]; exact s2.rel
  refine ⟨_, _, hstep, ⟨T, hT, allowed_live al, ?_, ?_⟩, ?_⟩
  · rw [show T.sz.asks (T.szAfter op) = _ from hasks.symm, ← hsz]
    exact s3.asked
  · exact ⟨_, howns, by rw [own_total i'.p, s5]⟩
  refine FI.after I2 R2 lay ?_ rfl rfl hfg ?_ ?_ ?_
  · simp only [TablesSpec.next, he, Option.map_some, after_eq]
    funext b'
    simp only [tabsOf, next, hT, Option.map_some]
    by_cases hb : b' = b
    · subst hb; simp
    · rw [upd_ne hb, upd_ne hb]; rfl
  · intro b' ty l' h1
    obtain ⟨T', h2, rfl, rfl⟩ := view_sh.1 h1
    by_cases hb : b' = b
    · subst hb
      simp only [next, hT, Option.map_some, upd_same, Option.some.injEq] at h2
      subst h2
      refine ⟨T.es.map Elem.node ++ (given op).toList, by rw [hVb]; simp only [Tab.szAfter, next_ty], fun p hp => ?_⟩
      have := TablesSpec.next_nodes (live := m1.heap.valid) (out := out) (by rw [after_eq]; exact hp)
      rcases this with h | h
      · exact List.mem_append_left _ h
      · exact List.mem_append_right _ (by simp [h])
    · simp only [next, upd_ne hb] at h2
      refine ⟨_, by rw [hVo b' hb]; exact view_sh.2 ⟨T', h2, rfl, rfl⟩, fun p hp => hp⟩
  · intro p hp
    refine ⟨Nat.pos_iff_ne_zero.1 (R2.vecs.inE (lay.node p hp)).1, ?_⟩
    have hlv := i'.live
    rw [TablesSpec.next_live hc] at hlv
    rw [← show _ = m'.heap.valid from hlv]
    exact (hv1 p).2 hp
  · intro b' T' h2
    by_cases hb : b' = b
    · subst hb
      simp only [next, hT, Option.map_some, upd_same, Option.some.injEq] at h2
      subst h2
      refine ⟨t', upd_same _ _ _, s5, by rw [hF]; exact s3.at_, ?_⟩
      simp [howns]
    · simp only [next, upd_ne hb] at h2
      obtain ⟨t2, k1, k2, k3, k4, k5⟩ := h.good h2
      refine ⟨t2, by simp only [upd_ne hb]; exact k1, k2, ?_, ?_⟩
      · rw [hF]
        refine TAt.other (V := V) (Fs := Fs) (G := ⟨a.env, V.mkF Fs, φ, [(nb, c)], [], w.live, m1.vnext⟩) (n := structSize (tyOf t))
          ?_ rfl s3.step s2.new ?_
        · refine k3.congr (fun o n ho => ?_) (fun _ _ => rfl) (Nat.le_refl _)
          rw [← szOf_ty, k2] at ho
          have hf : (view a).Field (b' + o) n := ⟨b', _, _, o, view_sh.2 ⟨T', h2, rfl, rfl⟩, ho, rfl⟩
          rw [View.mkF_field hf, View.mkF_field (hfieldA _ _ hf)]
        · have := h.lay.ssep _ _ _ _ _ _ hvb (view_sh.2 ⟨T', h2, rfl, rfl⟩) (Ne.symm hb)
          rw [hty, ← szOf_ty, k2]
          exact this
      · rw [k4]
        exact (ownOf_congr k5 s3.step.φ).symm

theorem step_init {w : AMem} {a : Ab} (h : FInv w a) {b : Nat} {ty : Ty} {n nb : Nat} {c : Nat → Nat} (hl : legal a (.init b ty n nb c)) :
    ∃ out w', step (.init b ty n nb c) w = some (out, w') ∧ allowed a (.init b ty n nb c) out ∧ FInv w' (next a (.init b ty n nb c) out) := by
  obtain ⟨ts, owner, φ, Fs, h⟩ := h
  obtain ⟨hav, hn, hf, hc⟩ := hl
  have hpos := structSize_pos ty
  have hb : a.tab b = none := by
    cases e : a.tab b with
    | none => rfl
    | some T =>
      have := avail_str hpos hav (view_sh.2 ⟨T, e, rfl, rfl⟩)
      have := structSize_pos T.sz.ty
      omega
  have hvb : (view a).sh b = none := by simp [view, hb]
  let by' : Nat → Option Nat := forget a.byte b (structSize ty)
  have hby : ∀ x c, by' x = some c → a.byte x = some c ∧ (x < b ∨ b + structSize ty ≤ x) := by
    intro x c hx
    have hx : (if b ≤ x ∧ x < b + structSize ty then none else a.byte x) = some c := hx
    split at hx
    · cases hx
    · exact ⟨hx, by omega⟩
  let V : View := ⟨a.env, upd (view a).sh b (some (ty, [])), by'⟩
  let Fs1 : Fld := fun x n => if b ≤ x ∧ x < b + structSize ty then none else Fs x n
  have hVb : V.sh b = some (ty, []) := upd_same _ _ _
  have hsh : ∀ b' ty' l, V.sh b' = some (ty', l) → b' = b ∧ ty' = ty ∧ l = [] ∨ b' ≠ b ∧ (view a).sh b' = some (ty', l) := by
    intro b' ty' l h1
    by_cases hb : b' = b
    · subst hb
      rw [hVb] at h1
      injection h1 with h1
      injection h1 with h1 h2
      exact .inl ⟨rfl, h1.symm, h2.symm⟩
    · exact .inr ⟨hb, by rw [← show V.sh b' = _ from upd_ne hb]; exact h1⟩
  have hsh' : ∀ b' ty' l, (view a).sh b' = some (ty', l) → V.sh b' = some (ty', l) := by
    intro b' ty' l h1
    have hb : b' ≠ b := by rintro rfl; rw [hvb] at h1; cases h1
    rw [show V.sh b' = _ from upd_ne hb]; exact h1
  have hnode : ∀ p, V.Node p ↔ (view a).Node p := by
    intro p
    constructor
    · rintro ⟨b', ty', l, h1, h2⟩
      rcases hsh b' ty' l h1 with ⟨_, _, rfl⟩ | ⟨_, h3⟩
      · cases h2
      · exact ⟨b', ty', l, h3, h2⟩
    · rintro ⟨b', ty', l, h1, h2⟩
      exact ⟨b', ty', l, hsh' _ _ _ h1, h2⟩
  have hfieldA : ∀ x n, (view a).Field x n → V.Field x n := by
    rintro x n ⟨b', ty', l, o, h1, h2⟩
    exact ⟨b', ty', l, o, hsh' _ _ _ h1, h2⟩
  have hstrA : ∀ x, (view a).InStruct x → V.InStruct x := by
    rintro x ⟨b', ty', l, h1, h2⟩
    exact ⟨b', ty', l, hsh' _ _ _ h1, h2⟩
  have lay : V.Lay := by
    refine ⟨fun b' ty' l h1 => ?_, fun b1 ty1 l1 b2 ty2 l2 h1 h2 hne => ?_, fun p hp => h.lay.node p ((hnode p).1 hp),
      fun p q hp hq => h.lay.nsep p q ((hnode p).1 hp) ((hnode q).1 hq), fun p b' ty' l hp h1 => ?_⟩
    · rcases hsh b' ty' l h1 with ⟨rfl, rfl, rfl⟩ | ⟨_, h3⟩
      · exact hav.1
      · exact h.lay.str _ _ _ h3
    · rcases hsh _ _ _ h1 with ⟨rfl, rfl, rfl⟩ | ⟨_, h3⟩ <;> rcases hsh _ _ _ h2 with ⟨rfl, rfl, rfl⟩ | ⟨_, h4⟩
      · exact absurd rfl hne
      · exact avail_str hpos hav h4
      · exact (avail_str hpos hav h3).symm
      · exact h.lay.ssep _ _ _ _ _ _ h3 h4 hne
    · rcases hsh _ _ _ h1 with ⟨rfl, rfl, rfl⟩ | ⟨_, h3⟩
      · exact (avail_node hpos hav ((hnode p).1 hp)).symm
      · exact h.lay.nssep _ _ _ _ ((hnode p).1 hp) h3
  have hfg : ∀ x, V.InStruct x ∨ V.InNode x → by' x = none := by
    intro x hx
    cases hbx : by' x with
    | none => rfl
    | some c =>
      obtain ⟨h1, h2⟩ := hby x c hbx
      exfalso
      have hno : ¬ ((view a).InStruct x ∨ (view a).InNode x) := fun hh => by rw [h.forget x hh] at h1; cases h1
      rcases hx with ⟨b', ty', l, h3, h4⟩ | ⟨p, hp, h3⟩
      · rcases hsh _ _ _ h3 with ⟨rfl, rfl, rfl⟩ | ⟨_, h5⟩
        · omega
        · exact hno (.inl ⟨b', ty', l, h5, h4⟩)
      · exact hno (.inr ⟨p, (hnode p).1 hp, h3⟩)
  obtain ⟨I1, R1⟩ := h.before (V := V) (Fs' := Fs1) rfl lay (fun p hp => (hnode p).2 hp) (fun x n c hx hc => by
      have hc : (if b ≤ x ∧ x < b + structSize ty then none else Fs x n) = some (some c) := hc
      split at hc
      · cases hc
      · rename_i hout
        refine ⟨?_, hc⟩
        obtain ⟨b', ty', l, o, h1, h2, h3⟩ := hx
        rcases hsh _ _ _ h1 with ⟨rfl, rfl, rfl⟩ | ⟨_, h5⟩
        · have := isField_in h2
          omega
        · exact ⟨b', ty', l, o, h5, h2, h3⟩) (fun x c hx hc =>
    ⟨⟨hx.1, fun hh => hx.2.1 (hstrA x hh), fun ⟨p, hp, hh⟩ => hx.2.2 ⟨p, (hnode p).2 hp, hh⟩⟩, (hby x c hc).1⟩)
  set m1 : Mem := { ts.mem with heap := V.heapOf w } with hm1
  have hv1 : ∀ p, m1.heap.valid p = true ↔ V.Node p := fun p => View.heapOf_valid p
  have h0 : HashSpec.StartOk m1 := ⟨by have := I1.liveOk; rw [I1.live] at this; exact this, I1.fresh⟩
  obtain ⟨t, m', e, g, hh⟩ := TablesSpec.start_ok (k := kindOf n ty) (m0 := m1) (fun k hk => by
    cases ty <;> simp only [kindOf] at hk <;> cases hk
    exact hn rfl) h0
  obtain ⟨out2, ts2, e2, _, owner', I2⟩ := TablesSpec.step_inv I1 (op := .init b (kindOf n ty)) ⟨by simp [tabsOf, hb], by
    cases ty <;> simp only [kindOf]
    exact hn rfl⟩
  have e2' : TablesSpec.step (.init b (kindOf n ty)) { ts with mem := m1 } = some (.unit, ⟨m', upd ts.tbl b (some t)⟩) := by
    simp only [TablesSpec.step, e, Option.map_some]
  rw [e2'] at e2
  simp only [Option.some.injEq, Prod.mk.injEq] at e2
  obtain ⟨rfl, rfl⟩ := e2
  have hr : GRel ⟨a.env, V.mkF Fs1, φ, [(nb, c)], [], w.live, m1.vnext⟩ m1 ⟨w, [(nb, c)], []⟩ := ⟨R1, rfl, rfl, rfl, Nat.le_refl _⟩
  obtain ⟨W', G', s1, s2, s3, s4, s5, s6⟩ := init_sim hn e h0 g hr (tdom_of fun o k ho => View.mkF_ne.2 (.inl ⟨b, ty, [], o, hVb, ho, rfl⟩)) rfl
    (h.fresh hf) hc
  have hlog : W'.log = [.got nb (ptrSize * (Sz.start n ty).buckets)] := by rw [s2.log, s3.log]; rfl
  have hstep : step (.init b ty n nb c) w = some (⟨.unit, [.got nb (ptrSize * (Sz.start n ty).buckets)]⟩, W'.mem) := by
    simp only [step, run]
    rw [s1, ← hlog]; rfl
  have hF : V.mkF G'.F = G'.F := View.mkF_eq hVb s3.chg
  have R2 : Rel V.env (V.mkF G'.F) G'.φ m' W'.mem := by
    rw [hF, show V.env = G'.env from s3.env.symm]; exact s2.rel
  refine ⟨_, _, hstep, ⟨rfl, rfl⟩, ?_⟩
  have hsty : (Sz.start n ty).ty = ty := by cases ty <;> rfl
  refine FI.after I2 R2 lay ?_ rfl rfl hfg ?_ ?_ ?_
  · simp only [TablesSpec.next]
    funext b'
    simp only [tabsOf, next]
    by_cases hb : b' = b
    · subst hb; simp
    · rw [upd_ne hb, upd_ne hb]; rfl
  · intro b' ty' l' h1
    obtain ⟨T', h2, rfl, rfl⟩ := view_sh.1 h1
    by_cases hb : b' = b
    · subst hb
      simp only [next, upd_same, Option.some.injEq] at h2
      subst h2
      exact ⟨[], by rw [hVb]; simp only [hsty], fun p hp => hp⟩
    · simp only [next, upd_ne hb] at h2
      exact ⟨_, hsh' _ _ _ (view_sh.2 ⟨T', h2, rfl, rfl⟩), fun p hp => hp⟩
  · intro p hp
    refine ⟨Nat.pos_iff_ne_zero.1 (R2.vecs.inE (lay.node p hp)).1, ?_⟩
    show m'.heap.valid p = true
    rw [hh]
    exact (hv1 p).2 hp
  · intro b' T' h2
    by_cases hb : b' = b
    · subst hb
      simp only [next, upd_same, Option.some.injEq] at h2
      subst h2
      exact ⟨t, upd_same _ _ _, s5, by rw [hF]; exact s4, s6.symm⟩
    · simp only [next, upd_ne hb] at h2
      obtain ⟨t2, k1, k2, k3, k4, k5⟩ := h.good h2
      have hsep := avail_str hpos hav (view_sh.2 ⟨T', h2, rfl, rfl⟩)
      have hst : tyOf t2 = T'.sz.ty := by rw [← szOf_ty, k2]
      refine ⟨t2, by simp only [upd_ne hb]; exact k1, k2, ?_, ?_⟩
      · rw [hF]
        refine TAt.other (V := V) (Fs := Fs1) (G := ⟨a.env, V.mkF Fs1, φ, [(nb, c)], [], w.live, m1.vnext⟩) (n := structSize ty)
          ?_ rfl s3 s2.new ?_
        · refine k3.congr (fun o k ho => ?_) (fun _ _ => rfl) (Nat.le_refl _)
          rw [hst] at ho
          have hf : (view a).Field (b' + o) k := ⟨b', _, _, o, view_sh.2 ⟨T', h2, rfl, rfl⟩, ho, rfl⟩
          rw [View.mkF_field hf, View.mkF_field (hfieldA _ _ hf)]
          have := isField_in ho
          rw [show Fs1 (b' + o) k = Fs (b' + o) k from if_neg (by omega)]
        · rw [hst]; exact hsep
      · rw [k4]
        exact (ownOf_congr k5 s3.φ).symm

theorem step_done {w : AMem} {a : Ab} (h : FInv w a) {b : Nat} {ty : Ty} (hl : legal a (.done b ty)) :
    ∃ out w', step (.done b ty) w = some (out, w') ∧ allowed a (.done b ty) out ∧ FInv w' (next a (.done b ty) out) := by
  obtain ⟨ts, owner, φ, Fs, h⟩ := h
  obtain ⟨T, hT, rfl⟩ := hl
  obtain ⟨t, ht, hsz, hat, hown, g⟩ := h.good hT
  have hvb : (view a).sh b = some (T.sz.ty, T.es.map Elem.node) := view_sh.2 ⟨T, hT, rfl, rfl⟩
  obtain ⟨m', e, hh, hv, hcl⟩ := (tbl_ok _).done g
  obtain ⟨out2, ts2, e2, _, owner', I2⟩ := TablesSpec.step_inv h.inv (op := .done b) (by simp [TablesSpec.legal, tabsOf, hT])
  have e2' : TablesSpec.step (.done b) ts = some (.unit, ⟨m', upd ts.tbl b none⟩) := by
    simp only [TablesSpec.step, ht, Option.bind_some, e, Option.map_some]
  rw [e2'] at e2
  simp only [Option.some.injEq, Prod.mk.injEq] at e2
  obtain ⟨rfl, rfl⟩ := e2
  have hr : GRel ⟨a.env, (view a).mkF Fs, φ, [(0, fun _ => 0)], [], w.live, ts.mem.vnext⟩ ts.mem ⟨w, [(0, fun _ => 0)], []⟩ :=
    ⟨h.rel, rfl, rfl, rfl, Nat.le_refl _⟩
  obtain ⟨W', G', evs, s1, s2, s3, s4⟩ := done_sim (h0 := ts.mem.heap) g e hr rfl hat
  have hty : tyOf t = T.sz.ty := by rw [← szOf_ty, hsz]
  have hlog : W'.log = evs := by rw [s2.log, s3.log]; rfl
  have hstep : step (.done b T.sz.ty) w = some (⟨.unit, evs⟩, W'.mem) := by
    simp only [step, run]
    rw [← hty, s1, ← hlog]; rfl
  have hF : (view a).mkF G'.F = G'.F := View.mkF_eq hvb (by rw [← hty]; exact s3.chg)
  have R2 : Rel (view a).env ((view a).mkF G'.F) G'.φ m' W'.mem := by
    rw [hF, show (view a).env = G'.env from s3.env.symm]; exact s2.rel
  refine ⟨_, _, hstep, ⟨rfl, T, hT, by rw [hown]; exact s4⟩, ?_⟩
  have hsub : ∀ b' T', (next a (.done b T.sz.ty) ⟨.unit, evs⟩).tab b' = some T' → b' ≠ b ∧ a.tab b' = some T' := by
    intro b' T' h2
    by_cases hb : b' = b
    · subst hb
      simp only [next, upd_same] at h2; cases h2
    · exact ⟨hb, by simpa only [next, upd_ne hb] using h2⟩
  refine FI.after I2 R2 h.lay ?_ rfl rfl h.forget ?_ ?_ ?_
  · simp only [TablesSpec.next]
    funext b'
    simp only [tabsOf, next]
    by_cases hb : b' = b
    · subst hb; simp
    · rw [upd_ne hb, upd_ne hb]; rfl
  · intro b' ty' l' h1
    obtain ⟨T', h2, rfl, rfl⟩ := view_sh.1 h1
    exact ⟨_, view_sh.2 ⟨T', (hsub b' T' h2).2, rfl, rfl⟩, fun p hp => hp⟩
  · intro p hp
    show m'.heap.ok p
    rw [hh]
    exact h.ok hp
  · intro b' T' h2
    obtain ⟨hb, h2⟩ := hsub b' T' h2
    obtain ⟨t2, k1, k2, k3, k4, k5⟩ := h.good h2
    refine ⟨t2, by simp only [upd_ne hb]; exact k1, k2, ?_, ?_⟩
    · rw [hF]
      refine TAt.other (V := view a) (Fs := Fs) (G := ⟨a.env, (view a).mkF Fs, φ, [(0, fun _ => 0)], [], w.live, ts.mem.vnext⟩) (n := structSize (tyOf t))
        k3 rfl s3 s2.new ?_
      have := h.lay.ssep _ _ _ _ _ _ hvb (view_sh.2 ⟨T', h2, rfl, rfl⟩) (Ne.symm hb)
      rw [hty, ← szOf_ty, k2]
      exact this
    · rw [k4]
      exact (ownOf_congr k5 s3.φ).symm

/-- Disjoint regions in the address space. -/
theorem pack {N : Nat} (hN : 0 < N) (L : List (Nat × Nat)) (hp : L.Pairwise fun r s => r.1 + r.2 ≤ s.1 ∨ s.1 + s.2 ≤ r.1)
    (hb : ∀ r ∈ L, 0 < r.1 ∧ r.1 + r.2 ≤ N) : (L.map Prod.snd).sum < N := by
  have nd : (L.flatMap fun r => List.range' r.1 r.2).Nodup := by
    rw [List.nodup_flatMap]
    refine ⟨fun r _ => List.nodup_range', hp.imp fun {r s} h => ?_⟩
    intro x h1 h2
    rw [List.mem_range'_1] at h1 h2
    omega
  have hl : (L.flatMap fun r => List.range' r.1 r.2).length = (L.map Prod.snd).sum := by
    rw [List.length_flatMap]; simp
  have mem : ∀ x ∈ L.flatMap fun r => List.range' r.1 r.2, 0 < x ∧ x < N := by
    intro x hx
    obtain ⟨r, hr, hx⟩ := List.mem_flatMap.1 hx
    rw [List.mem_range'_1] at hx
    have := hb r hr
    omega
  have := HashSpec.nodup_length_le (xs := 0 :: L.flatMap fun r => List.range' r.1 r.2) (n := N)
    (List.nodup_cons.2 ⟨fun h => absurd (mem 0 h).1 (by omega), nd⟩) (fun x hx => by
      rcases List.mem_cons.1 hx with rfl | hx
      · exact hN
      · exact (mem x hx).2)
  rw [List.length_cons, hl] at this
  omega

/-- The memory used is less than the address space. -/
theorem Rel.bounded {env : Nat → Option Nat} {F : Fld} {φ : Nat → Nat} {m : Mem} {w : AMem} (R : Rel env F φ m w) : HashSpec.Bounded m := by
  intro vs ns hv hn hok
  have key := pack (N := 2 ^ sizeBit) (Nat.two_pow_pos _)
    (vs.map (fun v => (if m.vlen v = none then 1 else φ v, ptrSize * (m.vlen v).getD 0)) ++ ns.map (fun p => (p, nodeSize))) ?_ ?_
  · have e1 : (vs.map fun v => ptrSize * (m.vlen v).getD 0).sum = ptrSize * HashSpec.cellCount m vs := by
      unfold HashSpec.cellCount
      clear * -
      induction vs with
      | nil => simp
      | cons v vs ih => simp only [List.map_cons, List.sum_cons, Nat.mul_add, ih]
    have e2 : (ns.map fun _ => nodeSize).sum = nodeSize * ns.length := by
      rw [List.map_const', List.sum_replicate, smul_eq_mul, Nat.mul_comm]
    simpa only [List.map_append, List.map_map, Function.comp_def, List.sum_append, e1, e2] using key
  · have vreg : ∀ v, m.vlen v ≠ none → ∃ k, m.vlen v = some k ∧ w.live (φ v) = some (ptrSize * k) := by
      intro v h
      obtain ⟨k, hk⟩ := Option.ne_none_iff_exists'.1 h
      exact ⟨k, hk, R.vec hk⟩
    rw [List.pairwise_append]
    refine ⟨?_, ?_, ?_⟩
    · rw [List.pairwise_map]
      refine hv.imp fun {u v} hne => ?_
      by_cases h1 : m.vlen u = none
      · by_cases h2 : m.vlen v = none
        · simp [h1, h2]
        · obtain ⟨k, hk, hl⟩ := vreg v h2
          have := R.pos _ _ hl
          simp only [h1, hk, if_true, reduceCtorEq, if_false, Option.getD_none, Option.getD_some]
          omega
      · obtain ⟨j, hj, hu⟩ := vreg u h1
        by_cases h2 : m.vlen v = none
        · have := R.pos _ _ hu
          simp only [h2, hj, if_true, reduceCtorEq, if_false, Option.getD_none, Option.getD_some]
          omega
        · obtain ⟨k, hk, hl⟩ := vreg v h2
          simp only [hj, hk, reduceCtorEq, if_false, Option.getD_some]
          exact R.reg _ _ _ _ hu hl fun e => hne (R.vinj u v h1 h2 e)
    · rw [List.pairwise_map]
      exact hn.pairwise_of_forall_ne fun p hp q hq hne => R.nsep p q (hok p hp) (hok q hq) hne
    · intro r hr q hq
      obtain ⟨v, _, rfl⟩ := List.mem_map.1 hr
      obtain ⟨p, hp, rfl⟩ := List.mem_map.1 hq
      obtain ⟨b, k, h1, h2, h3, h4⟩ := R.inE (R.node p (hok p hp))
      have hb := R.pos _ _ h1
      by_cases hv : m.vlen v = none
      · simp only [hv, if_true, Option.getD_none]
        omega
      · obtain ⟨j, hj, hl⟩ := vreg v hv
        have hne : φ v ≠ b := fun e => by
          have := R.venv v hv
          rw [e, h2] at this; cases this
        have := R.reg _ _ _ _ hl h1 hne
        simp only [hj, reduceCtorEq, if_false, Option.getD_some]
        omega
  · intro r hr
    rcases List.mem_append.1 hr with hr | hr
    · obtain ⟨v, _, rfl⟩ := List.mem_map.1 hr
      by_cases hv : m.vlen v = none
      · simp only [hv, if_true, Option.getD_none]
        have := Nat.two_pow_pos sizeBit
        omega
      · obtain ⟨k, hk⟩ := Option.ne_none_iff_exists'.1 hv
        have := R.pos _ _ (R.vec hk)
        simp only [hk, reduceCtorEq, if_false, Option.getD_some]
        omega
    · obtain ⟨p, hp, rfl⟩ := List.mem_map.1 hr
      obtain ⟨b, k, h1, h2, h3, h4⟩ := R.inE (R.node p (hok p hp))
      have hb := R.pos _ _ h1
      simp only
      omega

/-- The number of buckets is the one of the cells of the vectors. -/
theorem good_vecs {m0 m : Mem} {t : Tbl} {es : List Elem} (g : Good m0 t m es) :
    ∃ vs, HashSpec.NewVecs m0 m vs ∧ HashSpec.cellCount m vs = (szOf t).buckets := by
  cases t with
  | hashtable t =>
    have g : HashSpec.TblInv _ t _ _ := g
    exact ⟨_, g.flat.vecs⟩
  | hashdyn t =>
    have g : HashSpec.DynInv _ t _ _ := g
    exact ⟨_, g.flat.vecs⟩
  | hashlin t =>
    have g : HashSpec.LinInv _ t _ _ := g
    obtain ⟨vs, sg⟩ := g.segs
    refine ⟨_, (sg.vecs g.bit).1, ?_⟩
    rw [(sg.vecs g.bit).2]
    simp only [szOf, Sz.buckets, HashSpec.linSize, g.max]

theorem good_usage {m0 m : Mem} {t : Tbl} {es : List Elem} (g : Good m0 t m es) :
    TablesSpec.usage t = sizeT (ptrSize * (szOf t).buckets + nodeSize * es.length) := by
  cases t with
  | hashtable t =>
    have g : HashSpec.TblInv _ t _ _ := g
    rw [TablesSpec.usage, hashtableMemoryUsage, hashtableCount, g.count, Nat.mul_comm ptrSize, Nat.mul_comm nodeSize]; rfl
  | hashdyn t =>
    have g : HashSpec.DynInv _ t _ _ := g
    rw [TablesSpec.usage, hashdynMemoryUsage, hashdynCount, g.count, Nat.mul_comm ptrSize, Nat.mul_comm nodeSize]; rfl
  | hashlin t =>
    have g : HashSpec.LinInv _ t _ _ := g
    rw [TablesSpec.usage, hashlinMemoryUsage, g.count, Nat.mul_comm ptrSize, Nat.mul_comm nodeSize]; rfl

theorem usage_sim {t : Tbl} {G : Gh} {m : Mem} {W : BMem} {b : Nat} (hr : GRel G m W) (hN : G.N = m.vnext) (ht : TAt G.F G.φ m.vnext b t) :
    ∃ W', busage (tyOf t) b W = some (TablesSpec.usage t, W') ∧ GRel G m W' := by
  cases t with
  | hashtable x =>
    obtain ⟨_, W', G', g1, g2, rfl, rfl⟩ := sim_tblUsage ht.1 m W hr _ _ rfl
    exact ⟨W', g1, g2⟩
  | hashdyn x =>
    obtain ⟨_, W', G', g1, g2, rfl, rfl⟩ := sim_dynUsage ht.1 m W hr _ _ rfl
    exact ⟨W', g1, g2⟩
  | hashlin x =>
    obtain ⟨_, W', G', g1, g2, rfl, rfl⟩ := sim_linUsage (LinS.start ht.1 (by rw [hN]; exact ht.2)) m W hr _ _ rfl
    exact ⟨W', g1, g2⟩

theorem step_usage {w : AMem} {a : Ab} (h : FInv w a) {b : Nat} {ty : Ty} (hl : legal a (.usage b ty)) :
    ∃ out w', step (.usage b ty) w = some (out, w') ∧ allowed a (.usage b ty) out ∧ FInv w' (next a (.usage b ty) out) := by
  obtain ⟨ts, owner, φ, Fs, h⟩ := h
  obtain ⟨T, hT, rfl⟩ := hl
  obtain ⟨t, ht, hsz, hat, hown, g⟩ := h.good hT
  have hr : GRel ⟨a.env, (view a).mkF Fs, φ, [(0, fun _ => 0)], [], w.live, ts.mem.vnext⟩ ts.mem ⟨w, [(0, fun _ => 0)], []⟩ :=
    ⟨h.rel, rfl, rfl, rfl, Nat.le_refl _⟩
  obtain ⟨W', e, hr'⟩ := usage_sim hr rfl hat
  have hty : tyOf t = T.sz.ty := by rw [← szOf_ty, hsz]
  rw [hty] at e
  refine ⟨⟨.val (TablesSpec.usage t), []⟩, W'.mem, by simp only [step, run, e, Option.map_some]; rw [hr'.log], ⟨rfl, T, hT, ?_⟩,
    ts, owner, φ, Fs, h.inv, hr'.rel, h.lay, h.nodes, h.forget, h.tabs⟩
  obtain ⟨vs, hv, hc⟩ := good_vecs g
  have hb := (Rel.bounded h.rel) vs (T.es.map Elem.node) hv.nodup ((tbl_ok _).nodup g) (fun p hp => h.ok (view_node.2 ⟨b, T, hT, hp⟩))
  rw [hc, List.length_map] at hb
  rw [good_usage g, sizeT, Nat.mod_eq_of_lt hb, hown, own_total g]

theorem init_inv {w : AMem} {a : Ab} (h : sys.init w a) : FInv w a := by
  obtain ⟨h1, h2, h3, h4, h5, h6⟩ := h
  have hsh : ∀ b, (view a).sh b = none := fun b => by simp [view, h5]
  have hnn : ∀ p, ¬ (view a).Node p := fun p ⟨b, ty, l, h, _⟩ => by rw [hsh b] at h; cases h
  have hns : ∀ x, ¬ (view a).InStruct x := fun x ⟨b, ty, l, h, _⟩ => by rw [hsh b] at h; cases h
  have hno : ∀ p, ¬ noMem.heap.ok p := fun p h => by cases h.2
  have hnf : ∀ x n, ¬ (view a).Field x n := fun x n ⟨b, ty, l, o, h, _⟩ => by rw [hsh b] at h; cases h
  have lay : (view a).Lay := ⟨fun b ty l h => by (rw [hsh b] at h; cases h), fun b ty l b' ty' l' h => by (rw [hsh b] at h; cases h),
    fun p hp => absurd hp (hnn p), fun p q hp => absurd hp (hnn p), fun p b ty l hp => absurd hp (hnn p)⟩
  have vc : Vecs (view a).env (fun _ => 0) noMem w := by
    refine ⟨h1, fun b n => ?_, h2, h3, fun v v' h => absurd rfl h, fun v h => absurd rfl h, fun v _ => rfl, fun v i k c h => by cases h⟩
    show _ ↔ a.env b = some n ∨ _
    rw [h4]
    refine ⟨.inl, ?_⟩
    rintro (h | ⟨v, k, h, _⟩)
    · exact h
    · cases h
  have R := mkRel (V := view a) (Fs := fun _ _ => none) vc lay (fun x n c hx => absurd hx (hnf x n)) (fun x c hx hc => by
    have hc : a.byte x = some c := hc
    rw [h6] at hc
    simpa [rdN] using hc)
  obtain ⟨owner, I⟩ := TablesSpec.init_inv (m0 := noMem) (s := ⟨noMem, fun _ => none⟩) (a := ⟨tabsOf a, fun _ => false⟩)
    ⟨⟨⟨rfl, fun p h => (by cases h), fun p q h => (by cases h)⟩, fun v _ => rfl⟩, rfl, fun _ => rfl, fun i => by simp [tabsOf, h5], rfl⟩
  refine FI.mk' I (V := view a) (φ := fun _ => 0) (Fs := fun _ _ => none) (w := w) ?_ rfl vc lay (fun p hp => absurd hp (hnn p)) (fun p hp => absurd hp (hnn p))
    (fun x n c hx => absurd hx (hnf x n)) (fun x c hx hc => R.val (.fld x 1) c (View.mkF_ne.2 (.inr ⟨rfl, hx⟩)) (by
      simp only [HashFlat.val]; rw [View.mkF_free hx]; exact hc)) (fun x hx => ?_) (fun b T h => by (rw [h5] at h; cases h))
  · refine ⟨R.byte, R.live, R.pos, R.reg, R.vinj, R.venv, R.fresh, fun p hp => absurd hp (hno p), fun p q hp => absurd hp (hno p), R.fin, R.fsep,
      fun p x n hp => absurd hp (hno p), fun o c ho hc => ?_⟩
    cases o with
    | fld x n => exact R.val (.fld x n) c ho hc
    | cell v i => obtain ⟨n, h, _⟩ := ho; cases h
    | _ p => exact absurd ho (hno p)
  · rcases hx with hx | ⟨p, hp, _⟩
    · exact absurd hx (hns x)
    · exact absurd hp (hnn p)

end HashFlatSpec
end Tommy
