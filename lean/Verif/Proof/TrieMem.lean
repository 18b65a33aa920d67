import Verif.Proof.Arch
import Verif.Spec.Trie
import Verif.Proof.HashCommon
import Mathlib.Data.List.Nodup
import Mathlib.Data.List.Count
import Mathlib.Data.List.Perm.Basic
/-! Lemmas on the memory of the tries, and on lists. -/
set_option linter.unusedSimpArgs false
set_option linter.unusedVariables false
namespace Tommy

variable [Arch]
open HashSpec (Elem ERep SameNode)

omit [Arch] in
theorem cellGet_run {m : TMem} {l : Loc} (h : l.idx < m.csize l.base) :
    cellGet l m = some (m.cell l.base l.idx, m) := by simp [cellGet, h]

omit [Arch] in
theorem cellSet_run {m : TMem} {l : Loc} (p : Ptr) (h : l.idx < m.csize l.base) :
    cellSet l p m = some ((), { m with cell := upd m.cell l.base (upd (m.cell l.base) l.idx p) }) := by
  simp [cellSet, h]

omit [Arch] in
theorem onN_run {α : Type} {f : HM α} {m : TMem} {a : α} {h : Heap} (e : f m.heap = some (a, h)) :
    onN f m = some (a, { m with heap := h }) := by
  unfold onN; exact zoom_run e

omit [Arch] in
theorem blockAlloc_run {m : TMem} {b : Ptr} {r : List Ptr} (n : Nat) (h : m.supply = b :: r) :
    blockAlloc n m = some (b, { m with csize := upd m.csize b n, supply := r }) := by simp [blockAlloc, h]

omit [Arch] in
theorem blockFree_run {m : TMem} {b : Ptr} (h : m.csize b ≠ 0) :
    blockFree b m = some ((), { m with csize := upd m.csize b 0, freed := m.freed ++ [b] }) := by
  simp [blockFree, h]

omit [Arch] in
theorem assertT_run {c : Prop} [Decidable c] (h : c) (m : TMem) : assertT c m = some ((), m) := by
  simp [assertT, h]

theorem shrKey_run {s : Nat} (a : Nat) (h : s < sizeBit) (m : TMem) : shrKey a s m = some (a >>> s, m) := by
  simp [shrKey, h]

omit [Arch] in
theorem cells_ext {m : TMem} {f : Ptr → Nat → Ptr} (h : f = m.cell) : { m with cell := f } = m := by
  subst h; rfl

omit [Arch] in
theorem clearCells_run {b : Ptr} : ∀ (k i : Nat) (m : TMem), i + k ≤ m.csize b →
    clearCells b i k m = some ((), { m with
      cell := upd m.cell b (fun j => if i ≤ j ∧ j < i + k then 0 else m.cell b j) }) := by
  intro k
  induction k with
  | zero =>
    intro i m _
    have : upd m.cell b (fun j => if i ≤ j ∧ j < i + 0 then 0 else m.cell b j) = m.cell := by
      funext q j
      rw [upd_apply]
      by_cases hq : q = b
      · subst hq; rw [if_pos rfl, if_neg (by omega)]
      · rw [if_neg hq]
    simp only [clearCells, run_pure, this]
  | succ k ih =>
    intro i m h
    simp only [clearCells, run_bind]
    rw [cellSet_run 0 (by show i < m.csize b; omega)]
    simp only [Option.bind_some]
    rw [ih (i + 1) _ (by simpa using (by omega : i + 1 + k ≤ m.csize b))]
    congr 2
    have : ∀ A B : Ptr → Nat → Ptr, A = B → ({ m with cell := A } : TMem) = { m with cell := B } := by
      intro A B h; rw [h]
    refine this _ _ ?_
    funext q j
    simp only [upd_apply]
    by_cases hq : q = b
    · subst hq
      simp only [if_true]
      grind [upd]
    · simp only [hq, if_false]

/-- `m'` differs from `m` only in the nodes `N`, in the objects `B` and in the cell `l`. -/
structure TFr (m m' : TMem) (N B : Ptr → Prop) (l : Loc) : Prop where
  node : ∀ q, ¬ N q → SameNode m.heap m'.heap q
  valid : m'.heap.valid = m.heap.valid
  data : ∀ q, m'.heap.data q = m.heap.data q
  index : ∀ q, m'.heap.index q = m.heap.index q
  cell : ∀ b i, ¬ B b → ¬ (b = l.base ∧ i = l.idx) → m'.cell b i = m.cell b i
  size : ∀ b, ¬ B b → m'.csize b = m.csize b

omit [Arch] in
theorem HashSpec.SameNode.refl (h : Heap) (q : Ptr) : SameNode h h q := ⟨id, rfl, rfl, rfl, rfl⟩

omit [Arch] in
theorem HashSpec.SameNode.trans {h h' h'' : Heap} {q : Ptr} (a : SameNode h h' q) (b : SameNode h' h'' q) :
    SameNode h h'' q :=
  ⟨fun x => b.ok (a.ok x), b.next.trans a.next, b.prev.trans a.prev, b.data.trans a.data,
    b.index.trans a.index⟩

omit [Arch] in
theorem TFr.refl (m : TMem) (N B l) : TFr m m N B l :=
  ⟨fun q _ => HashSpec.SameNode.refl _ q, rfl, fun _ => rfl, fun _ => rfl, fun _ _ _ _ => rfl, fun _ _ => rfl⟩

omit [Arch] in
theorem TFr.mono {m m' : TMem} {N N' B B' : Ptr → Prop} {l : Loc} (f : TFr m m' N B l)
    (hN : ∀ q, N q → N' q) (hB : ∀ q, B q → B' q) : TFr m m' N' B' l :=
  ⟨fun q h => f.node q fun x => h (hN q x), f.valid, f.data, f.index,
    fun b i h => f.cell b i fun x => h (hB b x), fun b h => f.size b fun x => h (hB b x)⟩

omit [Arch] in
theorem TFr.trans {m m' m'' : TMem} {N B : Ptr → Prop} {l : Loc} (f : TFr m m' N B l) (g : TFr m' m'' N B l) :
    TFr m m'' N B l :=
  ⟨fun q h => (f.node q h).trans (g.node q h), g.valid.trans f.valid, fun q => (g.data q).trans (f.data q),
    fun q => (g.index q).trans (f.index q),
    fun b i h h' => (g.cell b i h h').trans (f.cell b i h h'), fun b h => (g.size b h).trans (f.size b h)⟩

omit [Arch] in
/-- A change in a cell of a block of `B` is inside `B`. -/
theorem TFr.inner {m m' : TMem} {N B : Ptr → Prop} {l l' : Loc} (f : TFr m m' N B l') (h : B l'.base) :
    TFr m m' N B l :=
  ⟨f.node, f.valid, f.data, f.index, fun b i hb _ => f.cell b i hb fun x => hb (x.1 ▸ h), f.size⟩

/-! ### Lists -/

omit [Arch] in
theorem filter_flatMap_upd {α β : Type} (f : α → List β) (ch : Nat → α) {i n : Nat} (h : i < n) :
    ∃ A B, ∀ x, (List.range n).flatMap (fun j => f (upd ch i x j)) = A ++ f x ++ B := by
  induction n with
  | zero => omega
  | succ n ih =>
    by_cases hin : i < n
    · obtain ⟨A, B, e⟩ := ih hin
      refine ⟨A, B ++ f (ch n), fun x => ?_⟩
      rw [List.range_succ, List.flatMap_append, e x]
      simp [upd_ne (show n ≠ i by omega)]
    · obtain rfl : i = n := by omega
      refine ⟨(List.range i).flatMap (fun j => f (ch j)), [], fun x => ?_⟩
      rw [List.range_succ, List.flatMap_append]
      have : (List.range i).flatMap (fun j => f (upd ch i x j)) = (List.range i).flatMap (fun j => f (ch j)) := by
        rw [List.flatMap_congr]
        intro j hj
        rw [upd_ne (by have := List.mem_range.1 hj; omega)]
      simp [this]

omit [Arch] in
theorem upd_self {α : Type} (ch : Nat → α) (i : Nat) : upd ch i (ch i) = ch := by
  funext j; rw [upd_apply]; split
  · next h => rw [h]
  · rfl

omit [Arch] in
/-- Different children have different elements. -/
theorem flatMap_disj {β : Type} {f : Nat → List β} {n i j : Nat} (h : ((List.range n).flatMap f).Nodup)
    (hi : i < n) (hj : j < n) (hij : i ≠ j) {x : β} (hx : x ∈ f i) : x ∉ f j := by
  have h2 := (List.nodup_flatMap.1 h).2
  have h3 := List.pairwise_iff_getElem.1 h2
  intro hx'
  rcases Nat.lt_or_gt_of_ne hij with h | h
  · have := h3 i j (by simpa using hi) (by simpa using hj) h
    simp only [List.getElem_range, Function.onFun] at this
    exact this hx hx'
  · have := h3 j i (by simpa using hj) (by simpa using hi) h
    simp only [List.getElem_range, Function.onFun] at this
    exact this hx' hx

omit [Arch] in
theorem flatMap_nodup {β : Type} {f : Nat → List β} {n i : Nat} (h : ((List.range n).flatMap f).Nodup)
    (hi : i < n) : (f i).Nodup := (List.nodup_flatMap.1 h).1 i (List.mem_range.2 hi)

omit [Arch] in
theorem filter_flatMap_one {β : Type} (p : β → Bool) (f : Nat → List β) {n i : Nat} (hi : i < n)
    (h : ∀ j, j < n → j ≠ i → (f j).filter p = []) :
    ((List.range n).flatMap f).filter p = (f i).filter p := by
  obtain ⟨A, B, e⟩ := filter_flatMap_upd (fun x => x) f hi
  have e1 := e (f i)
  rw [upd_self] at e1
  have e2 := e []
  have z : (A ++ [] ++ B).filter p = [] := by
    rw [← e2, List.filter_eq_nil_iff]
    intro x hx
    obtain ⟨j, hj, hx⟩ := List.mem_flatMap.1 hx
    have hj := List.mem_range.1 hj
    by_cases hji : j = i
    · subst hji; simp at hx
    · rw [upd_ne hji] at hx
      have := h j hj hji
      rw [List.filter_eq_nil_iff] at this
      exact this x hx
  rw [List.append_nil, List.filter_append, List.append_eq_nil_iff] at z
  rw [e1, List.filter_append, List.filter_append, z.1, z.2]; simp

omit [Arch] in
/-- Lists with the same elements for each key are permutations. -/
theorem perm_of_filter {A B : List Elem}
    (h : ∀ k, A.filter (fun e => e.hash = k) = B.filter (fun e => e.hash = k)) : A.Perm B := by
  rw [List.perm_iff_count]
  intro e
  have key : ∀ L : List Elem, (L.filter (fun x => x.hash = e.hash)).count e = L.count e := by
    intro L; rw [List.count_filter]; simp
  rw [← key A, ← key B, h]

end Tommy
