import Verif.Model.Mem
import Verif.Proof.ListOps
/-! Lemmas on the memory with vectors. -/
namespace Tommy

variable [Arch]

omit [Arch] in
theorem Mem.cell_inside {m : Mem} {r : Ref} {p : Ptr} (h : m.cell? r = some p) : m.inside r = true := by
  unfold Mem.cell? at h
  unfold Mem.inside
  split at h
  · simp at h
  · split at h
    · simpa
    · simp at h

omit [Arch] in
theorem readRef_run {m : Mem} {r : Ref} {p : Ptr} (h : m.cell? r = some p) :
    readRef r m = some (p, m) := by simp [readRef, h]

/-- `m'` has the same vectors (liveness, length) and allocation counter of `m`, the same validity of the
    nodes, and the same cells outside `R`. -/
structure Touch (m m' : Mem) (R : Ref → Prop) : Prop where
  vlen : m'.vlen = m.vlen
  vnext : m'.vnext = m.vnext
  valid : m'.heap.valid = m.heap.valid
  cell : ∀ r, ¬ R r → m'.cell? r = m.cell? r

omit [Arch] in
theorem Touch.refl (m : Mem) (R) : Touch m m R := ⟨rfl, rfl, rfl, fun _ _ => rfl⟩

omit [Arch] in
theorem Touch.trans {m m' m'' : Mem} {R} (a : Touch m m' R) (b : Touch m' m'' R) : Touch m m'' R :=
  ⟨b.vlen.trans a.vlen, b.vnext.trans a.vnext, b.valid.trans a.valid,
   fun r hr => (b.cell r hr).trans (a.cell r hr)⟩

omit [Arch] in
theorem Touch.mono {m m' : Mem} {R S : Ref → Prop} (a : Touch m m' R) (h : ∀ r, R r → S r) :
    Touch m m' S :=
  ⟨a.vlen, a.vnext, a.valid, fun r hr => a.cell r (fun x => hr (h r x))⟩

omit [Arch] in
theorem Touch.ok {m m' : Mem} {R} (a : Touch m m' R) (p : Ptr) : m'.heap.ok p ↔ m.heap.ok p :=
  ok_of_valid_eq a.valid p

omit [Arch] in
theorem inside_of_vlen {m m' : Mem} (h : m'.vlen = m.vlen) (r : Ref) : m'.inside r = m.inside r := by
  simp [Mem.inside, h]

omit [Arch] in
theorem Touch.inside {m m' : Mem} {R} (a : Touch m m' R) (r : Ref) : m'.inside r = m.inside r :=
  inside_of_vlen a.vlen r

omit [Arch] in
/-- Only the nodes changed. -/
theorem Touch.heap (m : Mem) {h : Heap} (hv : h.valid = m.heap.valid) (R) :
    Touch m { m with heap := h } R := ⟨rfl, rfl, hv, fun _ _ => rfl⟩

omit [Arch] in
theorem writeRef_run {m : Mem} {r : Ref} (p : Ptr) (h : m.inside r = true) :
    ∃ m', writeRef r p m = some ((), m') ∧ m'.heap = m.heap ∧ m'.cell? r = some p ∧
      Touch m m' (· = r) := by
  refine ⟨{ m with vcell := upd m.vcell r.vec (upd (m.vcell r.vec) r.off.toNat (some p)) },
    by simp [writeRef, h], rfl, ?_, rfl, rfl, rfl, ?_⟩
  · unfold Mem.inside at h
    unfold Mem.cell?
    split at h
    · simp at h
    · rename_i n hn
      simp only [hn]
      simp only [decide_eq_true_eq] at h
      rw [if_pos h]
      simp
  · intro q hq
    unfold Mem.cell?
    simp only
    cases hl : m.vlen q.vec with
    | none => rfl
    | some n =>
      simp only
      split
      · rename_i hb
        unfold Mem.inside at h
        by_cases hv : q.vec = r.vec
        · have hro : 0 ≤ r.off := by
            split at h
            · simp at h
            · simp only [decide_eq_true_eq] at h; exact h.1
          have hoff : q.off ≠ r.off := by
            intro e; apply hq; cases q; cases r; simp_all
          have : q.off.toNat ≠ r.off.toNat := by omega
          rw [hv, upd_same, upd_ne this]
        · rw [upd_ne hv]
      · rfl

omit [Arch] in
theorem onNodes_run {α : Type} {f : HM α} {m : Mem} {a : α} {h : Heap} (e : f m.heap = some (a, h)) :
    onNodes f m = some (a, { m with heap := h }) := by
  unfold onNodes; exact zoom_run e

/-- A vector never used before. -/
def Mem.FreshOk (m : Mem) : Prop := ∀ v, m.vnext ≤ v → m.vlen v = none

omit [Arch] in
theorem Mem.FreshOk.touch {m m' : Mem} {R} (h : m.FreshOk) (t : Touch m m' R) : m'.FreshOk := by
  intro v hv; rw [t.vlen]; exact h v (by rw [← t.vnext]; exact hv)

omit [Arch] in
theorem cell_eq {m : Mem} {r : Ref} {n : Nat} {c : Option Ptr} (hl : m.vlen r.vec = some n)
    (hb : 0 ≤ r.off ∧ r.off < n) (hc : m.vcell r.vec r.off.toNat = c) : m.cell? r = c := by
  simp [Mem.cell?, hl, hb, hc]

omit [Arch] in
theorem inside_eq {m : Mem} {r : Ref} {n : Nat} (hl : m.vlen r.vec = some n)
    (hb : 0 ≤ r.off ∧ r.off < n) : m.inside r = true := by
  simp [Mem.inside, hl, hb]

omit [Arch] in
theorem cell_congr {m m' : Mem} {r : Ref} (hl : m'.vlen r.vec = m.vlen r.vec)
    (hc : m'.vcell r.vec = m.vcell r.vec) : m'.cell? r = m.cell? r := by
  simp [Mem.cell?, hl, hc]

end Tommy
