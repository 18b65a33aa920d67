import Verif.Model.Heap
/-! Helper lemmas about the memory monad and the node heap. -/
namespace Tommy

variable {σ α β : Type}

@[simp] theorem run_pure (a : α) (s : σ) : (pure a : StateT σ Option α) s = some (a, s) := rfl

@[simp] theorem run_bind (m : StateT σ Option α) (f : α → StateT σ Option β) (s : σ) :
    (m >>= f) s = (m s).bind (fun x => f x.1 x.2) := rfl

@[simp] theorem run_map (m : StateT σ Option α) (f : α → β) (s : σ) :
    (f <$> m) s = (m s).map (fun x => (f x.1, x.2)) := by
  show (m s).bind _ = _
  cases m s <;> rfl

@[simp] theorem run_ite (c : Prop) [Decidable c] (a b : StateT σ Option α) (s : σ) :
    (if c then a else b) s = if c then a s else b s := by split <;> rfl

@[simp] theorem upd_same {α : Type} (f : Nat → α) (p : Nat) (v : α) : upd f p v p = v := by simp [upd]
theorem upd_apply {α : Type} (f : Nat → α) (p : Nat) (v : α) (q : Nat) :
    upd f p v q = if q = p then v else f q := rfl
theorem upd_ne {α : Type} {f : Nat → α} {p : Nat} {v : α} {q : Nat} (h : q ≠ p) :
    upd f p v q = f q := by simp [upd, h]

theorem getNext_run {h : Heap} {p : Ptr} (hp : h.ok p) : getNext p h = some (h.next p, h) := by
  simp [getNext, hp]
theorem getPrev_run {h : Heap} {p : Ptr} (hp : h.ok p) : getPrev p h = some (h.prev p, h) := by
  simp [getPrev, hp]
theorem getData_run {h : Heap} {p : Ptr} (hp : h.ok p) : getData p h = some (h.data p, h) := by
  simp [getData, hp]
theorem getIndex_run {h : Heap} {p : Ptr} (hp : h.ok p) : getIndex p h = some (h.index p, h) := by
  simp [getIndex, hp]
theorem setNext_run {h : Heap} {p v : Ptr} (hp : h.ok p) :
    setNext p v h = some ((), { h with next := upd h.next p v }) := by simp [setNext, hp]
theorem setPrev_run {h : Heap} {p v : Ptr} (hp : h.ok p) :
    setPrev p v h = some ((), { h with prev := upd h.prev p v }) := by simp [setPrev, hp]
theorem setData_run {h : Heap} {p v : Ptr} (hp : h.ok p) :
    setData p v h = some ((), { h with data := upd h.data p v }) := by simp [setData, hp]
theorem setIndex_run {h : Heap} {p v : Ptr} (hp : h.ok p) :
    setIndex p v h = some ((), { h with index := upd h.index p v }) := by simp [setIndex, hp]

@[simp] theorem ok_setNext (h : Heap) (f : Ptr → Ptr) (p : Ptr) :
    ({ h with next := f } : Heap).ok p ↔ h.ok p := Iff.rfl
@[simp] theorem ok_setPrev (h : Heap) (f : Ptr → Ptr) (p : Ptr) :
    ({ h with prev := f } : Heap).ok p ↔ h.ok p := Iff.rfl
@[simp] theorem ok_setData (h : Heap) (f : Ptr → Nat) (p : Ptr) :
    ({ h with data := f } : Heap).ok p ↔ h.ok p := Iff.rfl
@[simp] theorem ok_setIndex (h : Heap) (f : Ptr → Nat) (p : Ptr) :
    ({ h with index := f } : Heap).ok p ↔ h.ok p := Iff.rfl

@[simp] theorem ok_mk (h : Heap) (n p : Ptr → Ptr) (d i : Ptr → Nat) (q : Ptr) :
    (Heap.mk h.valid n p d i).ok q ↔ h.ok q := Iff.rfl

theorem Heap.ok.ne_zero {h : Heap} {p : Ptr} (hp : h.ok p) : p ≠ 0 := hp.1

theorem ok_of_valid_eq {h h' : Heap} (hv : h'.valid = h.valid) (p : Ptr) : h'.ok p ↔ h.ok p := by
  simp [Heap.ok, hv]

theorem zoom_run {get : σ → Heap} {set : σ → Heap → σ} {m : HM α} {s : σ} {a : α} {h : Heap}
    (hm : m (get s) = some (a, h)) : zoom get set m s = some (a, set s h) := by
  simp [zoom, hm]

end Tommy
