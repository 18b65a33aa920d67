import Verif.Spec.TrieFlat
import Verif.Proof.Alloc
import Verif.Proof.TrieOps
/-! The typed memory of the tries represented by the bytes of the memory. -/
set_option linter.unusedSimpArgs false
set_option linter.unusedVariables false
namespace Tommy

variable [Arch]
namespace FlatSpec
open HashSpec (Elem)
open AllocSpec (AInv PoolInv acc_of rdP_congr wrP_out rdP_wrP rdP_wrP_out segSize segBlocks)

variable {slack : Nat} {a : AllocSpec.Ab}

omit [Arch] in
theorem Inside.sub {p n q k : Nat} (h : Inside a p n) (h1 : p ≤ q) (h2 : q + k ≤ p + n) : Inside a q k := by
  rcases h with ⟨b, m, h3, h4, h5⟩ | ⟨id, P, r, h3, h4, h5, h6⟩
  · exact Or.inl ⟨b, m, h3, by omega, by omega⟩
  · exact Or.inr ⟨id, P, r, h3, h4, by omega, by omega⟩

omit [Arch] in
theorem Inside.user {p n x : Nat} (h : Inside a p n) (h1 : p ≤ x) (h2 : x < p + n) : a.UserByte x := by
  rcases h with ⟨b, m, h3, h4, h5⟩ | ⟨id, P, r, h3, h4, h5, h6⟩
  · exact Or.inl ⟨b, m, h3, by omega, by omega⟩
  · exact Or.inr ⟨id, P, r, h3, h4, by omega, by omega⟩

theorem Inside.region {s : AllocSpec.St} {p n : Nat} (h : Inside a p n) (hi : AInv slack s a) :
    ∃ b k, s.mem.live b = some (k + slack) ∧ 0 < b ∧ b + k + slack < 2 ^ sizeBit ∧ b ≤ p ∧ p + n ≤ b + k + slack := by
  rcases h with ⟨b, m, h3, h4, h5⟩ | ⟨id, P, r, h3, h4, h5, h6⟩
  · have hr : AllocSpec.RegionO a b m none := h3
    exact ⟨b, m, (hi.reg.live _ _).2 ⟨m, none, rfl, hr⟩, (hi.reg.lt hr).1, (hi.reg.lt hr).2, h4, by omega⟩
  · obtain ⟨t, F, _, hp⟩ := hi.get h3
    obtain ⟨b, hr, h7, h8⟩ := hp.in_region h3 (p := r) (by simp [h4])
    exact ⟨b, _, (hi.reg.live _ _).2 ⟨_, _, rfl, hr⟩, (hi.reg.lt hr).1, (hi.reg.lt hr).2, by omega, by omega⟩

theorem Inside.acc {s : AllocSpec.St} {p n q k : Nat} (h : Inside a p n) (hi : AInv slack s a) (h1 : p ≤ q)
    (h2 : q + k ≤ p + n) : s.mem.acc q k = true := by
  obtain ⟨b, m, h3, _, _, h4, h5⟩ := h.region hi
  exact acc_of h3 (by omega) (by omega)

theorem Inside.lt {s : AllocSpec.St} {p n : Nat} (h : Inside a p n) (hi : AInv slack s a) : 0 < p ∧ p + n < 2 ^ sizeBit := by
  obtain ⟨b, m, h3, h4, h5, h6, h7⟩ := h.region hi
  omega

/-- The user writes in its memory. -/
theorem pool_write {s : AllocSpec.St} (hi : AInv slack s a) {f : Nat → Nat} (hf : ∀ x, f x ≠ s.mem.byte x → a.UserByte x)
    {id : Nat} {P : AllocSpec.Pool} {t : Alloc} {F : List Nat} (hP : a.pool id = some P) (h : PoolInv slack s.mem t P F) :
    PoolInv slack { s.mem with byte := f } t P F := by
  have h8 := h.bs8
  refine h.congr (fun b hb => rdP_congr fun x h1 h2 => ?_) (fun b hb => rdP_congr fun x h1 h2 => ?_) (fun _ _ => rfl)
  · by_contra hne
    have := (hi.user_sep (hf x hne) hP h).1 b hb
    omega
  · by_contra hne
    have := (hi.user_sep (hf x hne) hP h).2 b hb
    omega

theorem ainv_write {s : AllocSpec.St} (hi : AInv slack s a) {f : Nat → Nat} (hf : ∀ x, f x ≠ s.mem.byte x → a.UserByte x) :
    AInv slack ⟨{ s.mem with byte := f }, s.al⟩ a :=
  hi.change_mem (env := a.env) (fun id Q t F hQ h => pool_write hi hf hQ h) hi.reg

theorem wrP_lt {f : Nat → Nat} {p v : Nat} (h : ∀ x, f x < 256) (x : Nat) : wrP f p v x < 256 := by
  unfold wrP
  split
  · omega
  · exact h x

omit [Arch] in
theorem rdN_lt {f : Nat → Nat} (h : ∀ x, f x < 256) : ∀ n p, rdN f p n < 2 ^ (8 * n) := by
  intro n
  induction n with
  | zero => intro p; simp [rdN]
  | succ n ih =>
    intro p
    have h0 := h p
    have h1 := ih (p + 1)
    simp only [rdN]
    rw [show 8 * (n + 1) = 8 + 8 * n by omega, Nat.pow_add]
    omega

theorem rdP_lt {f : Nat → Nat} {p : Nat} (h : ∀ x, f x < 256) : rdP f p < 2 ^ sizeBit := by
  have e : 8 * ptrSize = sizeBit := by arch
  rw [← e]
  exact rdN_lt h ptrSize p

omit [Arch] in
theorem rdN_inj {f g : Nat → Nat} (hf : ∀ x, f x < 256) (hg : ∀ x, g x < 256) : ∀ {n p}, rdN f p n = rdN g p n → ∀ {x : Nat},
    p ≤ x → x < p + n → f x = g x := by
  intro n
  induction n with
  | zero => intro p _ x h1 h2; omega
  | succ n ih =>
    intro p h x h1 h2
    simp only [rdN] at h
    have f0 := hf p
    have g0 := hg p
    by_cases e : x = p
    · subst e; omega
    · exact ih (p := p + 1) (by omega) (by omega) (by omega)

/-- The bytes of two equal numbers are equal. -/
theorem rdP_inj {f g : Nat → Nat} {p : Nat} (hf : ∀ x, f x < 256) (hg : ∀ x, g x < 256) (h : rdP f p = rdP g p) {x : Nat}
    (h1 : p ≤ x) (h2 : x < p + ptrSize) : f x = g x := rdN_inj hf hg h h1 h2


/-- The cells of the new block are not initialised from the index on. -/
def Un : Option (Nat × Nat) → Nat → Nat → Prop
  | none, _, _ => False
  | some (b, i), b', j => b' = b ∧ i ≤ j

/-- The bytes `mem` represent the nodes and the objects with cells of `tm`, except the cells `un`. An object may have
    `ext` other bytes after the cells. -/
structure MRel (a : AllocSpec.Ab) (ext : Nat → Nat) (un : Option (Nat × Nat)) (mem : AMem) (tm : TMem) : Prop where
  byte : ∀ x, mem.byte x < 256
  obj : ∀ b : Nat, tm.csize b ≠ 0 → Inside a b (ptrSize * tm.csize b + ext b)
  osep : ∀ b b' : Nat, tm.csize b ≠ 0 → tm.csize b' ≠ 0 → b ≠ b' →
    b + (ptrSize * tm.csize b + ext b) ≤ b' ∨ b' + (ptrSize * tm.csize b' + ext b') ≤ b
  node : ∀ p : Nat, tm.heap.valid p = true → Inside a p nodeSize
  nsep : ∀ p q : Nat, tm.heap.valid p = true → tm.heap.valid q = true → p ≠ q → p + nodeSize ≤ q ∨ q + nodeSize ≤ p
  onsep : ∀ b p : Nat, tm.csize b ≠ 0 → tm.heap.valid p = true → b + (ptrSize * tm.csize b + ext b) ≤ p ∨ p + nodeSize ≤ b
  cell : ∀ b i : Nat, i < tm.csize b → ¬ Un un b i → rdP mem.byte (b + ptrSize * i) = tm.cell b i
  next : ∀ p : Nat, tm.heap.valid p = true → rdP mem.byte (p + offNext) = tm.heap.next p
  prev : ∀ p : Nat, tm.heap.valid p = true → rdP mem.byte (p + offPrev) = tm.heap.prev p
  data : ∀ p : Nat, tm.heap.valid p = true → rdP mem.byte (p + offData) = tm.heap.data p
  index : ∀ p : Nat, tm.heap.valid p = true → rdP mem.byte (p + offIndex) = tm.heap.index p

variable {ext : Nat → Nat} {un : Option (Nat × Nat)} {mem : AMem} {tm : TMem}

/-- Writes out of the objects. -/
theorem MRel.congr (h : MRel a ext un mem tm) {a' : AllocSpec.Ab} {mem' : AMem}
    (hb : ∀ x, mem'.byte x < 256)
    (ho : ∀ b : Nat, tm.csize b ≠ 0 → Inside a' b (ptrSize * tm.csize b + ext b) ∧
      ∀ x, b ≤ x → x < b + ptrSize * tm.csize b → mem'.byte x = mem.byte x)
    (hn : ∀ p : Nat, tm.heap.valid p = true → Inside a' p nodeSize ∧ ∀ x, p ≤ x → x < p + nodeSize → mem'.byte x = mem.byte x) :
    MRel a' ext un mem' tm := by
  have hf : ∀ p k : Nat, tm.heap.valid p = true → k + ptrSize ≤ nodeSize → rdP mem'.byte (p + k) = rdP mem.byte (p + k) := fun p k hp hk =>
    rdP_congr fun x h1 h2 => (hn p hp).2 x (by omega) (by omega)
  exact { h with
    byte := hb
    obj := fun b hb => (ho b hb).1
    node := fun p hp => (hn p hp).1
    cell := fun b i hi hu => by
      rw [← h.cell b i hi hu]
      exact rdP_congr fun x h1 h2 => (ho b (by omega)).2 x (by omega) (by arch)
    next := fun p hp => by rw [hf p _ hp (by archd)]; exact h.next p hp
    prev := fun p hp => by rw [hf p _ hp (by archd)]; exact h.prev p hp
    data := fun p hp => by rw [hf p _ hp (by archd)]; exact h.data p hp
    index := fun p hp => by rw [hf p _ hp (by archd)]; exact h.index p hp }

/-- Write of a cell. -/
theorem MRel.setCell (h : MRel a ext un mem tm) {b i v : Nat} (hi : i < tm.csize b) (hv : v < 2 ^ sizeBit) {un' : Option (Nat × Nat)}
    (hu : ∀ b' j : Nat, j < tm.csize b' → Un un b' j → Un un' b' j ∨ (b' = b ∧ j = i)) :
    MRel a ext un' { mem with byte := wrP mem.byte (b + ptrSize * i) v }
      { tm with cell := upd tm.cell b (upd (tm.cell b) i v) } := by
  have hn : ∀ p k : Nat, tm.heap.valid p = true → k + ptrSize ≤ nodeSize →
      rdP (wrP mem.byte (b + ptrSize * i) v) (p + k) = rdP mem.byte (p + k) := fun p k hp hk => by
    refine rdP_wrP_out ?_
    have := h.onsep b p (by omega) hp
    arch
  exact { h with
    byte := wrP_lt h.byte
    cell := fun b' j hj hun => by
      simp only at hj ⊢
      simp only [upd_apply]
      by_cases eb : b' = b
      · subst eb
        simp only [if_true, upd_apply]
        by_cases ej : j = i
        · subst ej; rw [if_pos rfl]; exact rdP_wrP hv
        · rw [if_neg ej, rdP_wrP_out (by arch)]
          refine h.cell b' j hj fun hx => ?_
          rcases hu b' j hj hx with hx | hx
          · exact hun hx
          · exact ej hx.2
      · rw [if_neg eb, rdP_wrP_out]
        · refine h.cell b' j hj fun hx => ?_
          rcases hu b' j hj hx with hx | hx
          · exact hun hx
          · exact eb hx.1
        · have := h.osep b b' (by omega) (by omega) (Ne.symm eb)
          arch
    next := fun p hp => by simp only at hp ⊢; rw [hn p _ hp (by archd)]; exact h.next p hp
    prev := fun p hp => by simp only at hp ⊢; rw [hn p _ hp (by archd)]; exact h.prev p hp
    data := fun p hp => by simp only at hp ⊢; rw [hn p _ hp (by archd)]; exact h.data p hp
    index := fun p hp => by simp only at hp ⊢; rw [hn p _ hp (by archd)]; exact h.index p hp }

/-- Write of a field of a node. -/
theorem MRel.setField (h : MRel a ext un mem tm) {p k v : Nat} (hp : tm.heap.valid p = true) (hk : k + ptrSize ≤ nodeSize) :
    (∀ b i : Nat, i < tm.csize b → rdP (wrP mem.byte (p + k) v) (b + ptrSize * i) = rdP mem.byte (b + ptrSize * i)) ∧
    (∀ q j : Nat, tm.heap.valid q = true → j + ptrSize ≤ nodeSize → (q ≠ p ∨ k + ptrSize ≤ j ∨ j + ptrSize ≤ k) →
      rdP (wrP mem.byte (p + k) v) (q + j) = rdP mem.byte (q + j)) := by
  refine ⟨fun b i hi => rdP_wrP_out ?_, fun q j hq hj ho => rdP_wrP_out ?_⟩
  · have := h.onsep b p (by omega) hp
    arch
  · by_cases e : q = p
    · subst e; omega
    · have := h.nsep q p hq hp e
      omega

theorem MRel.setNext (h : MRel a ext un mem tm) {p v : Nat} (hp : tm.heap.valid p = true) (hv : v < 2 ^ sizeBit) :
    MRel a ext un { mem with byte := wrP mem.byte (p + offNext) v }
      { tm with heap := { tm.heap with next := upd tm.heap.next p v } } := by
  obtain ⟨h1, h2⟩ := h.setField (v := v) (k := offNext) hp (by archd)
  exact { h with
    byte := wrP_lt h.byte
    cell := fun b i hi hu => by simp only at hi ⊢; rw [h1 b i hi]; exact h.cell b i hi hu
    next := fun q hq => by
      simp only at hq ⊢
      by_cases e : q = p
      · subst e; rw [upd_same]; exact rdP_wrP hv
      · rw [upd_ne e, h2 q _ hq (by archd) (Or.inl e)]; exact h.next q hq
    prev := fun q hq => by simp only at hq ⊢; rw [h2 q _ hq (by archd) (Or.inr (by archd))]; exact h.prev q hq
    data := fun q hq => by simp only at hq ⊢; rw [h2 q _ hq (by archd) (Or.inr (by archd))]; exact h.data q hq
    index := fun q hq => by simp only at hq ⊢; rw [h2 q _ hq (by archd) (Or.inr (by archd))]; exact h.index q hq }

theorem MRel.setPrev (h : MRel a ext un mem tm) {p v : Nat} (hp : tm.heap.valid p = true) (hv : v < 2 ^ sizeBit) :
    MRel a ext un { mem with byte := wrP mem.byte (p + offPrev) v }
      { tm with heap := { tm.heap with prev := upd tm.heap.prev p v } } := by
  obtain ⟨h1, h2⟩ := h.setField (v := v) (k := offPrev) hp (by archd)
  exact { h with
    byte := wrP_lt h.byte
    cell := fun b i hi hu => by simp only at hi ⊢; rw [h1 b i hi]; exact h.cell b i hi hu
    prev := fun q hq => by
      simp only at hq ⊢
      by_cases e : q = p
      · subst e; rw [upd_same]; exact rdP_wrP hv
      · rw [upd_ne e, h2 q _ hq (by archd) (Or.inl e)]; exact h.prev q hq
    next := fun q hq => by simp only at hq ⊢; rw [h2 q _ hq (by archd) (Or.inr (by archd))]; exact h.next q hq
    data := fun q hq => by simp only at hq ⊢; rw [h2 q _ hq (by archd) (Or.inr (by archd))]; exact h.data q hq
    index := fun q hq => by simp only at hq ⊢; rw [h2 q _ hq (by archd) (Or.inr (by archd))]; exact h.index q hq }

theorem MRel.setData (h : MRel a ext un mem tm) {p v : Nat} (hp : tm.heap.valid p = true) (hv : v < 2 ^ sizeBit) :
    MRel a ext un { mem with byte := wrP mem.byte (p + offData) v }
      { tm with heap := { tm.heap with data := upd tm.heap.data p v } } := by
  obtain ⟨h1, h2⟩ := h.setField (v := v) (k := offData) hp (by archd)
  exact { h with
    byte := wrP_lt h.byte
    cell := fun b i hi hu => by simp only at hi ⊢; rw [h1 b i hi]; exact h.cell b i hi hu
    data := fun q hq => by
      simp only at hq ⊢
      by_cases e : q = p
      · subst e; rw [upd_same]; exact rdP_wrP hv
      · rw [upd_ne e, h2 q _ hq (by archd) (Or.inl e)]; exact h.data q hq
    next := fun q hq => by simp only at hq ⊢; rw [h2 q _ hq (by archd) (Or.inr (by archd))]; exact h.next q hq
    prev := fun q hq => by simp only at hq ⊢; rw [h2 q _ hq (by archd) (Or.inr (by archd))]; exact h.prev q hq
    index := fun q hq => by simp only at hq ⊢; rw [h2 q _ hq (by archd) (Or.inr (by archd))]; exact h.index q hq }

theorem MRel.setIndex (h : MRel a ext un mem tm) {p v : Nat} (hp : tm.heap.valid p = true) (hv : v < 2 ^ sizeBit) :
    MRel a ext un { mem with byte := wrP mem.byte (p + offIndex) v }
      { tm with heap := { tm.heap with index := upd tm.heap.index p v } } := by
  obtain ⟨h1, h2⟩ := h.setField (v := v) (k := offIndex) hp (by archd)
  exact { h with
    byte := wrP_lt h.byte
    cell := fun b i hi hu => by simp only at hi ⊢; rw [h1 b i hi]; exact h.cell b i hi hu
    index := fun q hq => by
      simp only at hq ⊢
      by_cases e : q = p
      · subst e; rw [upd_same]; exact rdP_wrP hv
      · rw [upd_ne e, h2 q _ hq (by archd) (Or.inl e)]; exact h.index q hq
    next := fun q hq => by simp only at hq ⊢; rw [h2 q _ hq (by archd) (Or.inr (by archd))]; exact h.next q hq
    prev := fun q hq => by simp only at hq ⊢; rw [h2 q _ hq (by archd) (Or.inr (by archd))]; exact h.prev q hq
    data := fun q hq => by simp only at hq ⊢; rw [h2 q _ hq (by archd) (Or.inr (by archd))]; exact h.data q hq }

end FlatSpec
end Tommy
