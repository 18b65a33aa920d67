import Verif.Proof.TreeBal
import Verif.Proof.Heap
/-! The pointer code of balance does what `Bal` says. -/
set_option linter.unusedSimpArgs false
set_option linter.unusedVariables false
namespace Tommy

variable [Arch]
namespace TreeP
open T

/-- In the memory `h` the tree `t` is at the address `p`. -/
def Rep (h : Heap) : T → Nat → Prop
  | nil, p => p = 0
  | node q i l r, p => p = q ∧ h.ok q ∧ h.index q = i ∧ Rep h l (h.prev q) ∧ Rep h r (h.next q)

omit [Arch] in
theorem Rep.ptr {h : Heap} {t : T} {p : Nat} (hr : Rep h t p) : p = t.ptr := by
  cases t with
  | nil => exact hr
  | node => exact hr.1

omit [Arch] in
theorem Rep.congr {h h' : Heap} {t : T} {p : Nat} (hr : Rep h t p)
    (he : ∀ x ∈ t.nodes, h'.valid x = h.valid x ∧ h'.next x = h.next x ∧ h'.prev x = h.prev x ∧ h'.index x = h.index x) :
    Rep h' t p := by
  induction t generalizing p with
  | nil => exact hr
  | node q i l r ihl ihr =>
    obtain ⟨h1, h2, h3, h4, h5⟩ := hr
    obtain ⟨e1, e2, e3, e4⟩ := he q (by simp [T.nodes])
    refine ⟨h1, ⟨h2.1, by rw [e1]; exact h2.2⟩, by rw [e4]; exact h3, ?_, ?_⟩
    · rw [e3]; exact ihl h4 fun x hx => he x (by simp [T.nodes, hx])
    · rw [e2]; exact ihr h5 fun x hx => he x (by simp [T.nodes, hx])

omit [Arch] in
theorem Rep.ok {h : Heap} {t : T} {p : Nat} (hr : Rep h t p) : ∀ x ∈ t.nodes, h.ok x := by
  induction t generalizing p with
  | nil => intro x hx; cases hx
  | node q i l r ihl ihr =>
    obtain ⟨h1, h2, h3, h4, h5⟩ := hr
    intro x hx
    simp only [T.nodes, List.mem_append, List.mem_cons] at hx
    rcases hx with hx | rfl | hx
    · exact ihl h4 x hx
    · exact h2
    · exact ihr h5 x hx

/-- The indexes are not more than the number of nodes. -/
def Sz : T → Prop
  | nil => True
  | node _ i l r => Sz l ∧ Sz r ∧ i ≤ l.nodes.length + r.nodes.length + 1

omit [Arch] in
theorem Sz.idx_le {t : T} (h : Sz t) : t.idx ≤ t.nodes.length := by
  cases t with
  | nil => simp [T.idx]
  | node p i l r => simp only [T.idx, T.nodes, List.length_append, List.length_cons]; have := h.2.2; omega

/-- Changes only the links and the index of the nodes `S`. -/
structure Fr (h h' : Heap) (S : List Nat) : Prop where
  valid : h'.valid = h.valid
  data : h'.data = h.data
  out : ∀ x, x ∉ S → h'.next x = h.next x ∧ h'.prev x = h.prev x ∧ h'.index x = h.index x

omit [Arch] in
theorem Fr.refl (h : Heap) (S : List Nat) : Fr h h S := ⟨rfl, rfl, fun _ _ => ⟨rfl, rfl, rfl⟩⟩

omit [Arch] in
theorem Fr.mono {h h' : Heap} {S S' : List Nat} (f : Fr h h' S) (hs : ∀ x ∈ S, x ∈ S') : Fr h h' S' :=
  ⟨f.valid, f.data, fun x hx => f.out x fun h => hx (hs x h)⟩

omit [Arch] in
theorem Fr.trans {h h' h'' : Heap} {S : List Nat} (f : Fr h h' S) (g : Fr h' h'' S) : Fr h h'' S :=
  ⟨g.valid.trans f.valid, g.data.trans f.data, fun x hx => by
    obtain ⟨a1, a2, a3⟩ := f.out x hx
    obtain ⟨b1, b2, b3⟩ := g.out x hx
    exact ⟨b1.trans a1, b2.trans a2, b3.trans a3⟩⟩

omit [Arch] in
theorem Fr.setNext {h : Heap} {S : List Nat} {p v : Nat} (hp : p ∈ S) : Fr h { h with next := upd h.next p v } S :=
  ⟨rfl, rfl, fun x hx => ⟨upd_ne fun e => hx (e ▸ hp), rfl, rfl⟩⟩

omit [Arch] in
theorem Fr.setPrev {h : Heap} {S : List Nat} {p v : Nat} (hp : p ∈ S) : Fr h { h with prev := upd h.prev p v } S :=
  ⟨rfl, rfl, fun x hx => ⟨rfl, upd_ne fun e => hx (e ▸ hp), rfl⟩⟩

omit [Arch] in
theorem Fr.setIndex {h : Heap} {S : List Nat} {p v : Nat} (hp : p ∈ S) : Fr h { h with index := upd h.index p v } S :=
  ⟨rfl, rfl, fun x hx => ⟨rfl, rfl, upd_ne fun e => hx (e ▸ hp)⟩⟩

omit [Arch] in
theorem Fr.ok {h h' : Heap} {S : List Nat} (f : Fr h h' S) {p : Nat} (hp : h.ok p) : h'.ok p :=
  (ok_of_valid_eq f.valid p).2 hp

omit [Arch] in
theorem Rep.frame {h h' : Heap} {S : List Nat} {t : T} {p : Nat} (hr : Rep h t p) (f : Fr h h' S)
    (hd : ∀ x ∈ t.nodes, x ∉ S) : Rep h' t p :=
  hr.congr fun x hx => ⟨by rw [f.valid], f.out x (hd x hx)⟩

omit [Arch] in
theorem Rep.setNext {h : Heap} {t : T} {p q v : Nat} (hr : Rep h t p) (hd : q ∉ t.nodes) :
    Rep { h with next := upd h.next q v } t p :=
  hr.congr fun x hx => ⟨rfl, upd_ne fun e => hd (e ▸ hx), rfl, rfl⟩

omit [Arch] in
theorem Rep.setPrev {h : Heap} {t : T} {p q v : Nat} (hr : Rep h t p) (hd : q ∉ t.nodes) :
    Rep { h with prev := upd h.prev q v } t p :=
  hr.congr fun x hx => ⟨rfl, rfl, upd_ne fun e => hd (e ▸ hx), rfl⟩

omit [Arch] in
theorem idx_run {h : Heap} {t : T} {p : Nat} {α : Type} {k : Nat → HM α} (hr : Rep h t p) :
    (if p ≠ 0 then (do let i ← getIndex p; k i) else (do let i ← pure 0; k i) : HM α) h = k t.idx h := by
  cases t with
  | nil =>
    have h0 : p = 0 := hr
    rw [if_neg (by simp [h0])]; rfl
  | node q i l r =>
    obtain ⟨rfl, h2, h3, _⟩ := hr
    rw [if_pos h2.1, run_bind, getIndex_run h2, h3]; rfl

theorem delta_run {h : Heap} {x : Nat} {l r : T} (hx : h.ok x) (hl : Rep h l (h.prev x)) (hr : Rep h r (h.next x))
    (bl : l.idx < 2 ^ (sizeBit - 1)) (br : r.idx < 2 ^ (sizeBit - 1)) : treeDelta x h = some ((l.idx : Int) - r.idx, h) := by
  unfold treeDelta
  rw [run_bind, getPrev_run hx, Option.bind_some, idx_run hl, run_bind, getNext_run hx, Option.bind_some, idx_run hr]
  unfold ssizeSub ssize
  rw [if_pos bl, if_pos br, if_pos (by arch)]

/-- What the code does for `Bal l x r t`. -/
def Sim (l : T) (x : Nat) (r t : T) : Prop :=
  ∀ h : Heap, h.ok x → Rep h l (h.prev x) → Rep h r (h.next x) → (l.nodes ++ x :: r.nodes).Nodup → Sz l → Sz r →
    (l.nodes ++ x :: r.nodes).length < 2 ^ (sizeBit - 1) →
    ∃ h', treeBalance x h = some (t.ptr, h') ∧ Rep h' t t.ptr ∧ Fr h h' (l.nodes ++ x :: r.nodes) ∧ Sz t

theorem rotL {l : T} {x : Nat} {rl t1 : T} {y j : Nat} {rr t : T} (s1 : Sim l x rl t1) (s2 : Sim t1 y rr t)
    (n1 : t1.nodes = l.nodes ++ x :: rl.nodes) (h : Heap) (hx : h.ok x) (hl : Rep h l (h.prev x))
    (hr : Rep h (node y j rl rr) (h.next x)) (hn : (l.nodes ++ x :: (node y j rl rr).nodes).Nodup) (zl : Sz l)
    (zrl : Sz rl) (zrr : Sz rr) (hlen : (l.nodes ++ x :: (node y j rl rr).nodes).length < 2 ^ (sizeBit - 1)) :
    ∃ h', treeRotateLeft x h = some (t.ptr, h') ∧ Rep h' t t.ptr ∧ Fr h h' (l.nodes ++ x :: (node y j rl rr).nodes) ∧ Sz t := by
  obtain ⟨hy, oy, iy, hrl, hrr⟩ := hr
  simp only [T.nodes, List.length_append, List.length_cons] at hlen
  simp only [T.nodes, List.nodup_append, List.nodup_cons, List.mem_append, List.mem_cons] at hn
  have hxy : x ≠ y := by grind
  have hxl : x ∉ l.nodes := by grind
  have hxrl : x ∉ rl.nodes := by grind
  have hxrr : x ∉ rr.nodes := by grind
  have hyl : y ∉ l.nodes := by grind
  have hyrl : y ∉ rl.nodes := by grind
  have hyrr : y ∉ rr.nodes := by grind
  have hlr : ∀ a ∈ rr.nodes, a ∉ l.nodes ++ x :: rl.nodes := by
    intro a ha hc; simp only [List.mem_append, List.mem_cons] at hc; grind
  have hyS : y ∉ l.nodes ++ x :: rl.nodes := by simp [hyl, hyrl, hxy.symm]
  have nd1 : (l.nodes ++ x :: rl.nodes).Nodup := by
    simp only [List.nodup_append, List.nodup_cons, List.mem_cons]; grind
  obtain ⟨h2, e2, r2, f2, z2⟩ := s1 { h with next := upd h.next x (h.prev y) } hx (hl.setNext hxl)
    (by simp only [upd_same]; exact hrl.setNext hxrl) nd1 zl zrl (by simp only [List.length_append, List.length_cons]; omega)
  have py : h2.next y = h.next y := by rw [(f2.out y hyS).1]; exact upd_ne hxy.symm
  have oy2 : h2.ok y := f2.ok oy
  have nd2 : (t1.nodes ++ y :: rr.nodes).Nodup := by
    rw [n1]
    simp only [List.nodup_append, List.nodup_cons, List.mem_append, List.mem_cons]
    grind
  obtain ⟨h4, e4, r4, f4, z4⟩ := s2 { h2 with prev := upd h2.prev y t1.ptr } oy2
    (by simp only [upd_same]; exact r2.setPrev (by rw [n1]; exact hyS))
    (by simp only [py]; exact ((hrr.setNext hxrr).frame f2 hlr).setPrev hyrr) nd2 z2 zrr
    (by rw [n1]; simp only [List.length_append, List.length_cons]; omega)
  refine ⟨h4, ?_, r4, ?_, z4⟩
  · rw [treeRotateLeft]
    simp only [run_bind, getNext_run hx, Option.bind_some, hy, getPrev_run oy, setNext_run hx, e2, setPrev_run oy2, e4]
  · have g1 : Fr h { h with next := upd h.next x (h.prev y) } (l.nodes ++ x :: (node y j rl rr).nodes) := Fr.setNext (by simp)
    have g2 := f2.mono (S' := l.nodes ++ x :: (node y j rl rr).nodes) (by simp [T.nodes]; grind)
    have g3 : Fr h2 { h2 with prev := upd h2.prev y t1.ptr } (l.nodes ++ x :: (node y j rl rr).nodes) :=
      Fr.setPrev (by simp [T.nodes])
    have g4 := f4.mono (S' := l.nodes ++ x :: (node y j rl rr).nodes) (by rw [n1]; simp [T.nodes])
    exact ((g1.trans g2).trans g3).trans g4

theorem rotR {r : T} {x : Nat} {lr t1 : T} {y j : Nat} {ll t : T} (s1 : Sim lr x r t1) (s2 : Sim ll y t1 t)
    (n1 : t1.nodes = lr.nodes ++ x :: r.nodes) (h : Heap) (hx : h.ok x) (hr : Rep h r (h.next x))
    (hl : Rep h (node y j ll lr) (h.prev x)) (hn : ((node y j ll lr).nodes ++ x :: r.nodes).Nodup) (zr : Sz r)
    (zll : Sz ll) (zlr : Sz lr) (hlen : ((node y j ll lr).nodes ++ x :: r.nodes).length < 2 ^ (sizeBit - 1)) :
    ∃ h', treeRotateRight x h = some (t.ptr, h') ∧ Rep h' t t.ptr ∧ Fr h h' ((node y j ll lr).nodes ++ x :: r.nodes) ∧ Sz t := by
  obtain ⟨hy, oy, iy, hll, hlr⟩ := hl
  simp only [T.nodes, List.length_append, List.length_cons] at hlen
  simp only [T.nodes, List.nodup_append, List.nodup_cons, List.mem_append, List.mem_cons] at hn
  have hxy : x ≠ y := by grind
  have hxr : x ∉ r.nodes := by grind
  have hxlr : x ∉ lr.nodes := by grind
  have hxll : x ∉ ll.nodes := by grind
  have hyr : y ∉ r.nodes := by grind
  have hylr : y ∉ lr.nodes := by grind
  have hyll : y ∉ ll.nodes := by grind
  have hd : ∀ a ∈ ll.nodes, a ∉ lr.nodes ++ x :: r.nodes := by
    intro a ha hc; simp only [List.mem_append, List.mem_cons] at hc; grind
  have hyS : y ∉ lr.nodes ++ x :: r.nodes := by simp [hyr, hylr, hxy.symm]
  have nd1 : (lr.nodes ++ x :: r.nodes).Nodup := by
    simp only [List.nodup_append, List.nodup_cons, List.mem_cons]; grind
  obtain ⟨h2, e2, r2, f2, z2⟩ := s1 { h with prev := upd h.prev x (h.next y) } hx
    (by simp only [upd_same]; exact hlr.setPrev hxlr) (hr.setPrev hxr) nd1 zlr zr
    (by simp only [List.length_append, List.length_cons]; omega)
  have py : h2.prev y = h.prev y := by rw [(f2.out y hyS).2.1]; exact upd_ne hxy.symm
  have oy2 : h2.ok y := f2.ok oy
  have nd2 : (ll.nodes ++ y :: t1.nodes).Nodup := by
    rw [n1]
    simp only [List.nodup_append, List.nodup_cons, List.mem_append, List.mem_cons]
    grind
  obtain ⟨h4, e4, r4, f4, z4⟩ := s2 { h2 with next := upd h2.next y t1.ptr } oy2
    (by simp only [py]; exact ((hll.setPrev hxll).frame f2 hd).setNext hyll)
    (by simp only [upd_same]; exact r2.setNext (by rw [n1]; exact hyS)) nd2 zll z2
    (by rw [n1]; simp only [List.length_append, List.length_cons]; omega)
  refine ⟨h4, ?_, r4, ?_, z4⟩
  · rw [treeRotateRight]
    simp only [run_bind, getPrev_run hx, Option.bind_some, hy, getNext_run oy, setPrev_run hx, e2, setNext_run oy2, e4]
  · have g1 : Fr h { h with prev := upd h.prev x (h.next y) } ((node y j ll lr).nodes ++ x :: r.nodes) := Fr.setPrev (by simp)
    have g2 := f2.mono (S' := (node y j ll lr).nodes ++ x :: r.nodes) (by simp [T.nodes]; grind)
    have g3 : Fr h2 { h2 with next := upd h2.next y t1.ptr } ((node y j ll lr).nodes ++ x :: r.nodes) :=
      Fr.setNext (by simp [T.nodes])
    have g4 := f4.mono (S' := (node y j ll lr).nodes ++ x :: r.nodes) (by rw [n1]; simp [T.nodes])
    exact ((g1.trans g2).trans g3).trans g4

omit [Arch] in
theorem upd_twice {α : Type} (f : Nat → α) (p : Nat) (v w : α) : upd (upd f p v) p w = upd f p w := by
  funext q; simp only [upd]; split <;> rfl

theorem sim_plain {l : T} {x : Nat} {r : T} (h1 : l.idx ≤ r.idx + 1) (h2 : r.idx ≤ l.idx + 1) :
    Sim l x r (node x (max l.idx r.idx + 1) l r) := by
  intro h hx hl hr hn zl zr hlen
  have bl := zl.idx_le
  have br := zr.idx_le
  simp only [List.length_append, List.length_cons] at hlen
  have hd := delta_run hx hl hr (by omega) (by omega)
  simp only [List.nodup_append, List.nodup_cons, List.mem_cons] at hn
  have hxl : x ∉ l.nodes := by grind
  have hxr : x ∉ r.nodes := by grind
  refine ⟨{ h with index := upd h.index x (max l.idx r.idx + 1) }, ?_, ?_, Fr.setIndex (by simp), ?_⟩
  · rw [treeBalance]
    simp only [run_bind, hd, Option.bind_some]
    rw [if_neg (by omega), if_neg (by omega)]
    simp only [run_bind, setIndex_run hx, Option.bind_some]
    have ox : ∀ v : Nat, Heap.ok { h with index := upd h.index x v } x := fun v => hx
    have hsz : ∀ n : Nat, n < 2 ^ sizeBit → sizeT n = n := fun n hn => Nat.mod_eq_of_lt hn
    have hpl : ∀ f : Nat → Nat, h.prev x ≠ 0 → ∀ v : Nat, upd h.index x v (h.prev x) = l.idx ∧ h.ok (h.prev x) := by
      intro _ h0 v
      cases l with
      | nil => exact absurd hl h0
      | node q i l1 l2 =>
        have e : h.prev x = q := hl.1
        have hqx : q ≠ x := fun e => hxl (by simp [T.nodes, e])
        rw [e, upd_ne hqx]
        exact ⟨hl.2.2.1, hl.2.1⟩
    have hpr : ∀ f : Nat → Nat, h.next x ≠ 0 → ∀ v : Nat, upd h.index x v (h.next x) = r.idx ∧ h.ok (h.next x) := by
      intro _ h0 v
      cases r with
      | nil => exact absurd hr h0
      | node q i l1 l2 =>
        have e : h.next x = q := hr.1
        have hqx : q ≠ x := fun e => hxr (by simp [T.nodes, e])
        rw [e, upd_ne hqx]
        exact ⟨hr.2.2.1, hr.2.1⟩
    have hl0 : h.prev x = 0 → l.idx = 0 := by
      intro e
      cases l with
      | nil => rfl
      | node q i l1 l2 => exact absurd (hl.1 ▸ e) hl.2.1.1
    have hr0 : h.next x = 0 → r.idx = 0 := by
      intro e
      cases r with
      | nil => rfl
      | node q i l1 l2 => exact absurd (hr.1 ▸ e) hr.2.1.1
    have gi : ∀ (p v : Nat), h.ok p → getIndex p { h with index := upd h.index x v } = some (upd h.index x v p, { h with index := upd h.index x v }) :=
      fun p v hp => getIndex_run (h := { h with index := upd h.index x v }) hp
    have gp : ∀ v : Nat, getPrev x { h with index := upd h.index x v } = some (h.prev x, { h with index := upd h.index x v }) :=
      fun v => getPrev_run (h := { h with index := upd h.index x v }) hx
    have gn : ∀ v : Nat, getNext x { h with index := upd h.index x v } = some (h.next x, { h with index := upd h.index x v }) :=
      fun v => getNext_run (h := { h with index := upd h.index x v }) hx
    have si : ∀ v w : Nat, setIndex x w { h with index := upd h.index x v } = some ((), { h with index := upd h.index x w }) := by
      intro v w
      rw [setIndex_run (h := { h with index := upd h.index x v }) hx]
      simp only [upd_twice]
    simp only [gp, Option.bind_some]
    by_cases hp0 : h.prev x = 0 <;> by_cases hn0 : h.next x = 0
    · have a1 := hl0 hp0; have a2 := hr0 hn0
      rw [if_neg (by simp [hp0])]
      simp only [run_bind, gn, Option.bind_some]
      rw [if_neg (by simp [hn0])]
      simp only [run_bind, gi x _ hx, Option.bind_some, upd_same, si, hsz (0 + 1) (by arch), a1, a2]
      rfl
    · have a1 := hl0 hp0
      rw [if_neg (by simp [hp0])]
      simp only [run_bind, gn, Option.bind_some]
      rw [if_pos hn0]
      simp only [run_bind, gi _ _ (hpr h.next hn0 0).2, (hpr h.next hn0 0).1, gi x _ hx, Option.bind_some, upd_same]
      by_cases hc : r.idx > 0
      · rw [if_pos hc]
        simp only [run_bind, si, Option.bind_some, gi x _ hx, upd_same, hsz (r.idx + 1) (by arch)]
        rw [show max l.idx r.idx = r.idx by omega]; rfl
      · rw [if_neg hc]
        simp only [run_bind, si, Option.bind_some, gi x _ hx, upd_same, hsz (0 + 1) (by arch)]
        rw [show max l.idx r.idx = 0 by omega]; rfl
    · have a1 := hr0 hn0
      rw [if_pos hp0]
      simp only [run_bind, gi _ _ (hpl h.next hp0 0).2, (hpl h.next hp0 0).1, gi x _ hx, Option.bind_some, upd_same]
      by_cases hc : l.idx > 0
      · rw [if_pos hc]
        simp only [run_bind, si, Option.bind_some, gn]
        rw [if_neg (by simp [hn0])]
        simp only [run_bind, si, Option.bind_some, gi x _ hx, upd_same, hsz (l.idx + 1) (by arch)]
        rw [show max l.idx r.idx = l.idx by omega]; rfl
      · rw [if_neg hc]
        simp only [run_bind, si, Option.bind_some, gn]
        rw [if_neg (by simp [hn0])]
        simp only [run_bind, si, Option.bind_some, gi x _ hx, upd_same, hsz (0 + 1) (by arch)]
        rw [show max l.idx r.idx = 0 by omega]; rfl
    · rw [if_pos hp0]
      simp only [run_bind, gi _ _ (hpl h.next hp0 0).2, (hpl h.next hp0 0).1, gi x _ hx, Option.bind_some, upd_same]
      have fin : ∀ v : Nat, v ≤ max l.idx r.idx → (v = l.idx ∨ v = 0 ∧ l.idx = 0) →
          (do
            let i ← getIndex (h.next x)
            let j ← getIndex x
            if i > j then do
                setIndex x i
                let j ← getIndex x
                setIndex x (sizeT (j + 1))
                pure x
              else do
                let j ← getIndex x
                setIndex x (sizeT (j + 1))
                pure x : HM Ptr) { h with index := upd h.index x v } =
            some (x, { h with index := upd h.index x (max l.idx r.idx + 1) }) := by
        intro v hv hv'
        simp only [run_bind, gi _ _ (hpr h.next hn0 v).2, (hpr h.next hn0 v).1, gi x _ hx, Option.bind_some, upd_same]
        by_cases hd : r.idx > v
        · rw [if_pos hd]
          simp only [run_bind, si, Option.bind_some, gi x _ hx, upd_same, hsz (r.idx + 1) (by arch)]
          rw [show max l.idx r.idx = r.idx by omega]; rfl
        · rw [if_neg hd]
          simp only [run_bind, si, Option.bind_some, gi x _ hx, upd_same, hsz (v + 1) (by arch)]
          rw [show max l.idx r.idx = v by omega]; rfl
      by_cases hc : l.idx > 0
      · rw [if_pos hc]
        simp only [run_bind, si, Option.bind_some, gn]
        rw [if_pos hn0]
        exact fin _ (by omega) (by omega)
      · rw [if_neg hc]
        simp only [run_bind, si, Option.bind_some, gn]
        rw [if_pos hn0]
        exact fin _ (by omega) (by omega)
  · refine ⟨rfl, hx, upd_same _ _ _, ?_, ?_⟩
    · exact hl.congr fun a ha => ⟨rfl, rfl, rfl, upd_ne fun e => hxl (e ▸ ha)⟩
    · exact hr.congr fun a ha => ⟨rfl, rfl, rfl, upd_ne fun e => hxr (e ▸ ha)⟩
  · exact ⟨zl, zr, by omega⟩

theorem bal_sim {l : T} {x : Nat} {r t : T} (hb : Bal l x r t) : Sim l x r t := by
  induction hb with
  | plain h1 h2 => exact sim_plain h1 h2
  | @left1 l x y j rl rr t1 t h1 h2 b1 b2 ih1 ih2 =>
    intro h hx hl hr hn zl zr hlen
    have hr' := hr
    obtain ⟨hy, oy, iy, hrl, hrr⟩ := hr'
    have bl := zl.idx_le
    have br := zr.idx_le
    have brl := zr.1.idx_le
    have brr := zr.2.1.idx_le
    have hlen' := hlen
    simp only [T.nodes, List.length_append, List.length_cons, idx_node] at hlen' br
    obtain ⟨h', e, r', f, z⟩ := rotL ih1 ih2 b1.nodes h hx hl hr hn zl zr.1 zr.2.1 hlen
    refine ⟨h', ?_, r', f, z⟩
    rw [treeBalance]
    simp only [run_bind, delta_run hx hl hr (by omega) (by rw [idx_node]; omega), Option.bind_some, idx_node]
    rw [if_pos (by omega)]
    simp only [run_bind, getNext_run hx, Option.bind_some, hy, delta_run oy hrl hrr (by omega) (by omega)]
    rw [if_neg (by omega)]
    exact e
  | @left2 l x y j z k u v rr w y2 j2 l2 r2 t1 t h1 h2 b1 b2 b3 b4 ih1 ih2 ih3 ih4 =>
    intro h hx hl hr hn zl zr hlen
    have hr' := hr
    obtain ⟨hy, oy, iy, hrl, hrr⟩ := hr'
    have bl := zl.idx_le
    have br := zr.idx_le
    have brl := zr.1.idx_le
    have brr := zr.2.1.idx_le
    have hlen' := hlen
    have hn' := hn
    simp only [T.nodes, List.length_append, List.length_cons, idx_node] at hlen' br brl
    simp only [T.nodes, List.nodup_append, List.nodup_cons, List.mem_append, List.mem_cons] at hn'
    have nr : (node y2 j2 l2 r2).nodes = (node y j (node z k u v) rr).nodes := by
      rw [b2.nodes, b1.nodes]; simp [T.nodes]
    obtain ⟨h1', e1, r1, f1, z1⟩ := rotR (j := k) ih1 ih2 b1.nodes h oy hrr hrl
      (by simp only [T.nodes, List.nodup_append, List.nodup_cons, List.mem_append, List.mem_cons]; grind) zr.2.1 zr.1.1 zr.1.2.1
      (by simp only [T.nodes, List.length_append, List.length_cons]; omega)
    have f1 : Fr h h1' (node y j (node z k u v) rr).nodes := f1
    have hxS : x ∉ (node y j (node z k u v) rr).nodes := by
      simp only [T.nodes, List.mem_append, List.mem_cons]; grind
    have hxl : x ∉ l.nodes := by grind
    have ox : h1'.ok x := f1.ok hx
    have px : h1'.prev x = h.prev x := (f1.out x hxS).2.1
    have hl1 : Rep h1' l (h.prev x) := hl.frame f1 (by
      intro a ha hc; simp only [T.nodes, List.mem_append, List.mem_cons] at hc; grind)
    obtain ⟨h', e, r', f, zz⟩ := rotL (j := j2) ih3 ih4 b3.nodes { h1' with next := upd h1'.next x (node y2 j2 l2 r2).ptr } ox
      (by simp only [px]; exact hl1.setNext hxl)
      (by simp only [upd_same]; exact r1.setNext (by rw [nr]; exact hxS)) (by rw [nr]; exact hn) zl z1.1 z1.2.1
      (by rw [nr]; exact hlen)
    rw [nr] at f
    refine ⟨h', ?_, r', ?_, zz⟩
    · rw [treeBalance]
      simp only [run_bind, delta_run hx hl hr (by omega) (by rw [idx_node]; omega), Option.bind_some, idx_node]
      rw [if_pos (by omega)]
      simp only [run_bind, getNext_run hx, Option.bind_some, hy, delta_run oy hrl hrr (by rw [idx_node]; omega) (by omega), idx_node]
      rw [if_pos (by omega)]
      simp only [run_bind, e1, Option.bind_some, setNext_run ox, e]
    · have g1 := f1.mono (S' := l.nodes ++ x :: (node y j (node z k u v) rr).nodes) (by simp; grind)
      have g2 : Fr h1' { h1' with next := upd h1'.next x (node y2 j2 l2 r2).ptr } (l.nodes ++ x :: (node y j (node z k u v) rr).nodes) :=
        Fr.setNext (by simp)
      exact (g1.trans g2).trans f
  | @right1 r x y j ll lr t1 t h1 h2 b1 b2 ih1 ih2 =>
    intro h hx hl hr hn zl zr hlen
    have hl' := hl
    obtain ⟨hy, oy, iy, hll, hlr⟩ := hl'
    have bl := zl.idx_le
    have br := zr.idx_le
    have bll := zl.1.idx_le
    have blr := zl.2.1.idx_le
    have hlen' := hlen
    simp only [T.nodes, List.length_append, List.length_cons, idx_node] at hlen' bl
    obtain ⟨h', e, r', f, z⟩ := rotR ih1 ih2 b1.nodes h hx hr hl hn zr zl.1 zl.2.1 hlen
    refine ⟨h', ?_, r', f, z⟩
    rw [treeBalance]
    simp only [run_bind, delta_run hx hl hr (by rw [idx_node]; omega) (by omega), Option.bind_some, idx_node]
    rw [if_neg (by omega), if_pos (by omega)]
    simp only [run_bind, getPrev_run hx, Option.bind_some, hy, delta_run oy hll hlr (by omega) (by omega)]
    rw [if_neg (by omega)]
    exact e
  | @right2 r x y j z k u v ll w y2 j2 l2 r2 t1 t h1 h2 b1 b2 b3 b4 ih1 ih2 ih3 ih4 =>
    intro h hx hl hr hn zl zr hlen
    have hl' := hl
    obtain ⟨hy, oy, iy, hll, hlr⟩ := hl'
    have bl := zl.idx_le
    have br := zr.idx_le
    have bll := zl.1.idx_le
    have blr := zl.2.1.idx_le
    have hlen' := hlen
    have hn' := hn
    simp only [T.nodes, List.length_append, List.length_cons, idx_node] at hlen' bl blr
    simp only [T.nodes, List.nodup_append, List.nodup_cons, List.mem_append, List.mem_cons] at hn'
    have nr : (node y2 j2 l2 r2).nodes = (node y j ll (node z k u v)).nodes := by
      rw [b2.nodes, b1.nodes]; simp [T.nodes]
    obtain ⟨h1', e1, r1, f1, z1⟩ := rotL (j := k) ih1 ih2 b1.nodes h oy hll hlr
      (by simp only [T.nodes, List.nodup_append, List.nodup_cons, List.mem_append, List.mem_cons]; grind) zl.1 zl.2.1.1 zl.2.1.2.1
      (by simp only [T.nodes, List.length_append, List.length_cons]; omega)
    have f1 : Fr h h1' (node y j ll (node z k u v)).nodes := f1
    have hxS : x ∉ (node y j ll (node z k u v)).nodes := by
      simp only [T.nodes, List.mem_append, List.mem_cons]; grind
    have hxr : x ∉ r.nodes := by grind
    have ox : h1'.ok x := f1.ok hx
    have px : h1'.next x = h.next x := (f1.out x hxS).1
    have hr1 : Rep h1' r (h.next x) := hr.frame f1 (by
      intro a ha hc; simp only [T.nodes, List.mem_append, List.mem_cons] at hc; grind)
    obtain ⟨h', e, r', f, zz⟩ := rotR (j := j2) ih3 ih4 b3.nodes { h1' with prev := upd h1'.prev x (node y2 j2 l2 r2).ptr } ox
      (by simp only [px]; exact hr1.setPrev hxr)
      (by simp only [upd_same]; exact r1.setPrev (by rw [nr]; exact hxS)) (by rw [nr]; exact hn) zr z1.1 z1.2.1
      (by rw [nr]; exact hlen)
    rw [nr] at f
    refine ⟨h', ?_, r', ?_, zz⟩
    · rw [treeBalance]
      simp only [run_bind, delta_run hx hl hr (by rw [idx_node]; omega) (by omega), Option.bind_some, idx_node]
      rw [if_neg (by omega), if_pos (by omega)]
      simp only [run_bind, getPrev_run hx, Option.bind_some, hy, delta_run oy hll hlr (by omega) (by rw [idx_node]; omega), idx_node]
      rw [if_pos (by omega)]
      simp only [run_bind, e1, Option.bind_some, setPrev_run ox, e]
    · have g1 := f1.mono (S' := (node y j ll (node z k u v)).nodes ++ x :: r.nodes) (by simp; grind)
      have g2 : Fr h1' { h1' with prev := upd h1'.prev x (node y2 j2 l2 r2).ptr } ((node y j ll (node z k u v)).nodes ++ x :: r.nodes) :=
        Fr.setPrev (by simp)
      exact (g1.trans g2).trans f

end TreeP
end Tommy
