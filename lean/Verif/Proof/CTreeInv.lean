import Verif.Proof.CTreeCall
import Verif.Proof.Tree
import Verif.Spec.CTree
/-! The trees of a program in the memory of bytes. -/
set_option autoImplicit false
set_option linter.unusedSectionVars false
set_option linter.unusedSimpArgs false
set_option linter.unusedVariables false
namespace Tommy.CTreeSpec

open C HashFlat
open AllocSpec (rdN_congr)
open TreeSpec (OSet TreeOk)
open HashSpec (LiveOk)
open TreeP (T)
variable [Arch]

/-- A number of the memory. -/
abbrev rd (w : AMem) (x : Nat) : Nat := rdN w.byte x ptrSize

/-- The nodes `S` of the memory. -/
def heapAt (w : AMem) (S : Nat → Bool) : Heap where
  valid := S
  next p := rd w (p + nodNext)
  prev p := rd w (p + nodPrev)
  data p := rd w (p + nodData)
  index p := rd w (p + nodIndex)

/-- The nodes of a set. -/
def nodes (o : OSet) : Nat → Bool := fun p => decide (p ∈ o.elems.map Prod.fst)

/-- The struct at `t`. -/
def treeAt (w : AMem) (t : Nat) (cmp : Nat → Nat → Int) : Tree := ⟨rd w t, cmp, rd w (t + 2 * ptrSize)⟩

/-- Two blocks are disjoint. -/
def Apart (b b' : Nat × Nat) : Prop := b.1 + b.2 ≤ b'.1 ∨ b'.1 + b'.2 ≤ b.1

theorem Apart.symm {b b' : Nat × Nat} (h : Apart b b') : Apart b' b := Or.symm h

/-- The struct `t` and the nodes `S` can be used together with the other trees. -/
structure Lay (w : AMem) (tab : Nat → Option OSet) (t : Nat) (S : Nat → Bool) : Prop where
  sreg : InReg w t treeSize
  soth : ∀ t' o', t' ≠ t → tab t' = some o' → ∀ b ∈ blocks t' o', Apart (t, treeSize) b
  reg : ∀ q, S q = true → InReg w q nodeSize
  node : ∀ q q', S q = true → S q' = true → q ≠ q' → Apart (q, nodeSize) (q', nodeSize)
  str : ∀ q, S q = true → Apart (q, nodeSize) (t, treeSize)
  oth : ∀ q, S q = true → ∀ t' o', t' ≠ t → tab t' = some o' → ∀ b ∈ blocks t' o', Apart (q, nodeSize) b

structure Iv (K : Cmps) (w : AMem) (a : Ab) : Prop where
  mem : a.mem = w
  ok : Ok w
  tree : ∀ t o, a.tab t = some o → ∃ T, TreeOk (heapAt w (nodes o)) (treeAt w t o.cmp) o T
  cmp : ∀ t o, a.tab t = some o → K (rd w (t + ptrSize)) = o.cmp ∧ IsInt o.cmp
  lay : ∀ t o, a.tab t = some o → Lay w a.tab t (nodes o)

variable {K : Cmps} {w : AMem} {a : Ab} {t : Nat} {S : Nat → Bool} {o : OSet}

theorem node_pos : 0 < nodeSize := by archd
theorem tree_pos : 0 < treeSize := by unfold treeSize; archd

theorem nodes_iff {p : Nat} : nodes o p = true ↔ p ∈ o.elems.map Prod.fst := by simp [nodes]

theorem mem_blocks {b : Nat × Nat} : b ∈ blocks t o ↔ b = (t, treeSize) ∨ ∃ p, nodes o p = true ∧ b = (p, nodeSize) := by
  simp only [blocks, List.mem_cons, List.mem_map, nodes_iff]
  constructor
  · rintro (h | ⟨e, he, rfl⟩)
    · exact .inl h
    · exact .inr ⟨e.1, ⟨e, he, rfl⟩, rfl⟩
  · rintro (h | ⟨_, ⟨e, he, rfl⟩, rfl⟩)
    · exact .inl h
    · exact .inr ⟨e, he, rfl⟩

theorem block_pos {b : Nat × Nat} (h : b ∈ blocks t o) : 0 < b.2 := by
  rcases mem_blocks.1 h with rfl | ⟨p, _, rfl⟩
  · exact tree_pos
  · exact node_pos

/-- The bytes that the program gives are not used. -/
theorem Ab.Avail.apart {p n : Nat} (h : a.Avail p n) (hn : 0 < n) {t' : Nat} {o' : OSet} (ht : a.tab t' = some o') {b : Nat × Nat}
    (hb : b ∈ blocks t' o') : Apart (p, n) b := by
  have := block_pos hb
  by_contra hc
  unfold Apart at hc
  simp only [not_or, not_le] at hc
  refine h.2 (max p b.1) (le_max_left _ _) (by omega) t' ⟨o', ht, b, hb, le_max_right _ _, by omega⟩

theorem blocks_reg (i : Iv K w a) (h : a.tab t = some o) {b : Nat × Nat} (hb : b ∈ blocks t o) : InReg w b.1 b.2 := by
  rcases mem_blocks.1 hb with rfl | ⟨p, hp, rfl⟩
  · exact (i.lay t o h).sreg
  · exact (i.lay t o h).reg p hp

/-! ### The call -/

/-- A byte which is not of the call. -/
def Free (w : AMem) (t : Nat) (S : Nat → Bool) (x : Nat) : Prop :=
  InReg w x 1 ∧ Apart (x, 1) (t, treeSize) ∧ ∀ q, S q = true → Apart (x, 1) (q, nodeSize)

open Classical in
/-- The numbers in memory. -/
noncomputable def flds (w : AMem) (t : Nat) (S : Nat → Bool) : Fld := fun x n =>
  if n = ptrSize ∧ (x = t ∨ x = t + ptrSize ∨ x = t + 2 * ptrSize) then some (some (rd w x))
  else if n = 1 ∧ Free w t S x then some (some (w.byte x)) else none

noncomputable def gh (w : AMem) (t : Nat) (S : Nat → Bool) (ms : List (Nat × (Nat → Nat))) : Gh :=
  ⟨w.live, flds w t S, fun _ => 0, ms, [], w.live, 0⟩

def memAt (w : AMem) (S : Nat → Bool) : Mem := ⟨heapAt w S, fun _ => none, fun _ _ => none, 0⟩

theorem ptr_ne_one : ptrSize ≠ 1 := by archd

theorem flds_str {x : Nat} (h : x = t ∨ x = t + ptrSize ∨ x = t + 2 * ptrSize) : flds w t S x ptrSize = some (some (rd w x)) := if_pos ⟨rfl, h⟩

theorem flds_free {x : Nat} (h : Free w t S x) : flds w t S x 1 = some (some (w.byte x)) := by
  unfold flds
  rw [if_neg (fun e => ptr_ne_one e.1.symm), if_pos ⟨rfl, h⟩]

theorem flds_ne {x n : Nat} (h : flds w t S x n ≠ none) :
    (n = ptrSize ∧ (x = t ∨ x = t + ptrSize ∨ x = t + 2 * ptrSize) ∧ flds w t S x n = some (some (rd w x))) ∨
    (n = 1 ∧ Free w t S x ∧ flds w t S x n = some (some (w.byte x))) := by
  unfold flds at h ⊢
  split at h <;> rename_i e
  · rw [if_pos e]; exact .inl ⟨e.1, e.2, rfl⟩
  · split at h <;> rename_i e'
    · rw [if_neg e, if_pos e']; exact .inr ⟨e'.1, e'.2, rfl⟩
    · exact absurd rfl h

theorem grel_start (hk : Ok w) (l : Lay w a.tab t S) (hz : S 0 = false) (ms : List (Nat × (Nat → Nat))) :
    GRel (gh w t S ms) (memAt w S) ⟨w, ms, []⟩ := by
  refine ⟨?_, rfl, rfl, rfl, Nat.le_refl _⟩
  have h0 := ptr_pos
  have str : ∀ {x}, (x = t ∨ x = t + ptrSize ∨ x = t + 2 * ptrSize) → t ≤ x ∧ x + ptrSize ≤ t + treeSize := by
    intro x hx; unfold treeSize; omega
  exact
    { byte := hk.byte
      live := fun b n => by simp [gh, memAt]
      pos := hk.pos
      reg := hk.reg
      vinj := fun v v' h => absurd rfl h
      venv := fun v h => absurd rfl h
      fresh := fun _ _ => rfl
      node := fun p hp => l.reg p hp.2
      nsep := fun p q hp hq h => l.node p q hp.2 hq.2 h
      fin := fun x n h => by
        rcases flds_ne h with ⟨rfl, h1, _⟩ | ⟨rfl, h1, _⟩
        · have := str h1
          exact InE.sub l.sreg this.1 this.2
        · exact h1.1
      fsep := fun x n x' n' h h' hne => by
        rcases flds_ne h with ⟨rfl, h1, _⟩ | ⟨rfl, h1, _⟩ <;> rcases flds_ne h' with ⟨rfl, h2, _⟩ | ⟨rfl, h2, _⟩
        · omega
        · have := str h1
          have := h2.2.1
          unfold Apart at this; simp only at this; omega
        · have := str h2
          have := h1.2.1
          unfold Apart at this; simp only at this; omega
        · omega
      nfsep := fun p x n hp h => by
        rcases flds_ne h with ⟨rfl, h1, _⟩ | ⟨rfl, h1, _⟩
        · have := str h1
          have := l.str p hp.2
          unfold Apart at this; simp only at this; omega
        · have := h1.2.2 p hp.2
          unfold Apart at this; simp only at this; omega
      val := fun o c ho hv => by
        cases o with
        | cell v i => obtain ⟨n, h, _⟩ := ho; cases h
        | fld x n =>
          simp only [HashFlat.val, gh] at hv
          rcases flds_ne ho with ⟨rfl, h1, h2⟩ | ⟨rfl, h1, h2⟩
          · rw [h2] at hv; cases hv; rfl
          · rw [h2] at hv; cases hv
            simp [rdN, adr, siz]
        | _ => cases hv; rfl }

/-- What is known after a call. -/
structure After (w : AMem) (t c : Nat) (S : Nat → Bool) (tr' : Tree) (G' : Gh) : Prop where
  live : G'.live = w.live
  log : G'.log = []
  str : TreeF G'.F t c tr'
  free : ∀ x, Free w t S x → G'.F x 1 = some (some (w.byte x))

theorem setTree_free {F : Fld} {t : Nat} {tr : Tree} {x : Nat} : setTree F t tr x 1 = F x 1 := by
  unfold setTree
  rw [Fld.set_ne (.inr ptr_ne_one.symm), Fld.set_ne (.inr ptr_ne_one.symm)]

/-- The memory after a call on the tree `t`. -/
theorem post (i : Iv K w a) (l : Lay w a.tab t S) {G' : Gh} {m' : Mem} {W' : BMem} {c : Nat} {tr' : Tree} (hr : GRel G' m' W')
    (h : After w t c S tr' G') {o' : OSet} {T : T} (k : TreeOk m'.heap tr' o' T) (hc : K c = o'.cmp) (hi : IsInt o'.cmp)
    (hS : ∀ p, nodes o' p = true → S p = true) :
    Iv K W'.mem ⟨W'.mem, upd a.tab t (some o')⟩ ∧ W'.log = [] ∧ W'.mem.live = w.live ∧ (∀ x, Free w t S x → W'.mem.byte x = w.byte x) := by
  have hl : W'.mem.live = w.live := hr.live.trans h.live
  have hb : ∀ x, Free w t S x → W'.mem.byte x = w.byte x := by
    intro x hx
    have e := h.free x hx
    have := hr.rel.val (.fld x 1) (w.byte x) (by simp only [dom]; rw [e]; nofun) (by simp [HashFlat.val, e])
    simpa [rdN, adr, siz] using this
  have hreg : ∀ {p n}, InReg w p n → InReg W'.mem p n := by
    rintro p n ⟨b, k, h1, h2⟩; exact ⟨b, k, by rw [hl]; exact h1, h2⟩
  refine ⟨?_, hr.log.trans h.log, hl, hb⟩
  have fld : ∀ {x v}, G'.F x ptrSize = some (some v) → rd W'.mem x = v := by
    intro x v e
    exact hr.rel.val (.fld x ptrSize) v (by simp only [dom]; rw [e]; nofun) (by simp [HashFlat.val, e])
  /- the blocks of the other trees do not change -/
  have same : ∀ {t' o''}, t' ≠ t → a.tab t' = some o'' → ∀ b ∈ blocks t' o'', ∀ x, b.1 ≤ x → x < b.1 + b.2 → W'.mem.byte x = w.byte x := by
    intro t' o'' hne ht b hbl x h1 h2
    refine hb x ⟨?_, ?_, ?_⟩
    · exact InE.sub (blocks_reg i ht hbl) h1 (by omega)
    · have := l.soth t' o'' hne ht b hbl
      unfold Apart at this ⊢; simp only at this ⊢; omega
    · intro q hq
      have := l.oth q hq t' o'' hne ht b hbl
      unfold Apart at this ⊢; simp only at this ⊢; omega
  have same' : ∀ {t' o''}, t' ≠ t → a.tab t' = some o'' → ∀ b ∈ blocks t' o'', ∀ x, b.1 ≤ x → x + ptrSize ≤ b.1 + b.2 → rd W'.mem x = rd w x := by
    intro t' o'' hne ht b hbl x h1 h2
    exact rdN_congr fun y h3 h4 => same hne ht b hbl y (by omega) (by omega)
  have hns : nodNext + ptrSize ≤ nodeSize ∧ nodPrev + ptrSize ≤ nodeSize ∧ nodData + ptrSize ≤ nodeSize ∧ nodIndex + ptrSize ≤ nodeSize := by
    refine ⟨?_, ?_, ?_, ?_⟩ <;> archd
  have hts : treeSize = 3 * ptrSize := rfl
  have h0 := ptr_pos
  exact
    { mem := rfl
      ok := ⟨hr.rel.byte, hr.rel.pos, hr.rel.reg⟩
      tree := fun t' o'' ht => by
        simp only at ht
        by_cases e : t' = t
        · subst e
          rw [upd_same] at ht
          cases ht
          refine ⟨T, ?_⟩
          have : treeAt W'.mem t' o'.cmp = tr' := by
            unfold treeAt
            rw [fld h.str.root, fld h.str.count, ← k.cmp]
          rw [this]
          refine k.congr fun x hx => ?_
          have hx' := k.ok hx
          refine ⟨?_, ?_, ?_, ?_, ?_⟩
          · rw [hx'.2]; exact nodes_iff.2 hx
          · exact hr.rel.val (.next x) _ hx' rfl
          · exact hr.rel.val (.prev x) _ hx' rfl
          · exact hr.rel.val (.index x) _ hx' rfl
          · exact hr.rel.val (.data x) _ hx' rfl
        · rw [upd_ne e] at ht
          obtain ⟨T', k'⟩ := i.tree t' o'' ht
          refine ⟨T', ?_⟩
          have b0 : (t', treeSize) ∈ blocks t' o'' := mem_blocks.2 (.inl rfl)
          have : treeAt W'.mem t' o''.cmp = treeAt w t' o''.cmp := by
            unfold treeAt
            rw [same' e ht _ b0 t' (by simp only; omega) (by simp only; omega),
              same' e ht _ b0 (t' + 2 * ptrSize) (by simp only; omega) (by simp only; omega)]
          rw [this]
          refine k'.congr fun x hx => ?_
          have bx : (x, nodeSize) ∈ blocks t' o'' := mem_blocks.2 (.inr ⟨x, nodes_iff.2 hx, rfl⟩)
          refine ⟨rfl, ?_, ?_, ?_, ?_⟩ <;> exact same' e ht _ bx _ (by simp only; omega) (by simp only; omega)
      cmp := fun t' o'' ht => by
        simp only at ht
        by_cases e : t' = t
        · subst e
          rw [upd_same] at ht
          cases ht
          rw [fld h.str.cmp]
          exact ⟨hc, hi⟩
        · rw [upd_ne e] at ht
          have b0 : (t', treeSize) ∈ blocks t' o'' := mem_blocks.2 (.inl rfl)
          rw [same' e ht _ b0 (t' + ptrSize) (by simp only; omega) (by simp only; omega)]
          exact i.cmp t' o'' ht
      lay := fun t' o'' ht => by
        simp only at ht ⊢
        by_cases e : t' = t
        · subst e
          rw [upd_same] at ht
          cases ht
          exact
            { sreg := hreg l.sreg
              soth := fun t2 o2 hne h2 => by rw [upd_ne hne] at h2; exact l.soth t2 o2 hne h2
              reg := fun q hq => hreg (l.reg q (hS q hq))
              node := fun q q' hq hq' => l.node q q' (hS q hq) (hS q' hq')
              str := fun q hq => l.str q (hS q hq)
              oth := fun q hq t2 o2 hne h2 => by rw [upd_ne hne] at h2; exact l.oth q (hS q hq) t2 o2 hne h2 }
        · rw [upd_ne e] at ht
          have l' := i.lay t' o'' ht
          have key : ∀ b ∈ blocks t' o'', ∀ b' ∈ blocks t o', Apart b b' := by
            intro b hb b' hb'
            rcases mem_blocks.1 hb' with rfl | ⟨p, hp, rfl⟩
            · exact (l.soth t' o'' e ht b hb).symm
            · exact (l.oth p (hS p hp) t' o'' e ht b hb).symm
          exact
            { sreg := hreg l'.sreg
              soth := fun t2 o2 hne h2 b hb => by
                by_cases e2 : t2 = t
                · subst e2; rw [upd_same] at h2; cases h2
                  exact key _ (mem_blocks.2 (.inl rfl)) b hb
                · rw [upd_ne e2] at h2; exact l'.soth t2 o2 hne h2 b hb
              reg := fun q hq => hreg (l'.reg q hq)
              node := l'.node
              str := l'.str
              oth := fun q hq t2 o2 hne h2 b hb => by
                by_cases e2 : t2 = t
                · subst e2; rw [upd_same] at h2; cases h2
                  exact key _ (mem_blocks.2 (.inr ⟨q, hq, rfl⟩)) b hb
                · rw [upd_ne e2] at h2; exact l'.oth q hq t2 o2 hne h2 b hb } }

/-! ### The typed state -/

def tst (w : AMem) (t : Nat) (S : Nat → Bool) (o : OSet) : TreeSpec.St := ⟨heapAt w S, fun _ => treeAt w t o.cmp⟩
def tab1 (S : Nat → Bool) (o : OSet) : TreeSpec.Ab := ⟨fun v => if v = 0 then some o else none, S⟩

theorem S_zero (hk : Ok w) (l : Lay w a.tab t S) : S 0 = false := by
  by_contra h
  obtain ⟨b, n, h1, h2, h3⟩ := l.reg 0 (by simpa using h)
  have := hk.pos b n h1
  omega

theorem typed (i : Iv K w a) (h : a.tab t = some o) (l : Lay w a.tab t S) (hS : ∀ p, nodes o p = true → S p = true) :
    TreeSpec.Inv (tst w t S o) (tab1 S o) where
  live := rfl
  liveOk := ⟨S_zero i.ok l, fun p hp => by
      obtain ⟨b, n, h1, h2, h3⟩ := l.reg p hp
      have := i.ok.pos b n h1
      exact Nat.le_of_lt (Nat.lt_of_le_of_lt h3 this.2), fun p q hp hq h => l.node p q hp hq h⟩
  tree v o' hv := by
    simp only [tab1] at hv
    split at hv <;> cases hv
    obtain ⟨T, k⟩ := i.tree t o h
    refine ⟨T, k.congr fun x hx => ⟨?_, rfl, rfl, rfl, rfl⟩⟩
    exact (hS x (nodes_iff.2 hx)).trans (nodes_iff.2 hx).symm
  sep v v' o1 o2 hne h1 h2 := by
    simp only [tab1] at h1 h2
    split at h1 <;> split at h2 <;> simp_all

theorem isCmp (K : Cmps) {c : Nat} {cmp : Nat → Nat → Int} (h : K c = cmp) (hi : IsInt cmp) : IsCmp2 (ext K) c cmp where
  call x y := by
    subst h
    simp only [ext, and_self, if_true, ibits]
  lo x y := (hi x y).1
  hi x y := (hi x y).2

theorem treeF (o : OSet) : TreeF (flds w t S) t (rd w (t + ptrSize)) (treeAt w t o.cmp) :=
  ⟨flds_str (.inl rfl), flds_str (.inr (.inl rfl)), flds_str (.inr (.inr rfl))⟩

/-- The frame of a call. -/
theorem frame_of (l : Lay w a.tab t S) (h : a.tab t = some o) (hw : a.mem = w) {w' : AMem} (hf : ∀ x, Free w t S x → w'.byte x = w.byte x)
    {P : Nat → Prop} (hS : ∀ p, S p = true → nodes o p = true ∨ ∀ x, p ≤ x → x < p + nodeSize → P x) :
    ∀ x, InReg a.mem x 1 → ¬ a.uses t x → ¬ P x → w'.byte x = a.mem.byte x := by
  subst hw
  intro x h1 h2 h3
  have key : ∀ b ∈ blocks t o, Apart (x, 1) b := by
    intro b hb
    by_contra hc
    unfold Apart at hc
    simp only [not_or, not_le] at hc
    exact h2 ⟨o, h, b, hb, by omega, by omega⟩
  refine hf x ⟨h1, key _ (mem_blocks.2 (.inl rfl)), fun q hq => ?_⟩
  rcases hS q hq with hq | hq
  · exact key _ (mem_blocks.2 (.inr ⟨q, hq, rfl⟩))
  · by_contra hc
    unfold Apart at hc
    simp only [not_or, not_le] at hc
    exact h3 (hq x (by omega) (by omega))

theorem payloads_of (i : Iv K w a) : a.payloads := by
  intro t o h e he
  obtain ⟨T, k⟩ := i.tree t o h
  have := k.data e he
  rw [i.mem]
  exact this

end Tommy.CTreeSpec
