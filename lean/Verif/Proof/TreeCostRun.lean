import Verif.Proof.TreeCostOps
import Verif.Proof.TreeErase
/-! Cost of insert and remove in the reachable states. -/
set_option linter.unusedSimpArgs false
set_option linter.unusedVariables false
namespace Tommy

variable [Arch]
namespace TreeSpec
open TreeP T

omit [Arch] in
theorem good_length {t : T} : t.nodes.length + 1 ≤ 2 ^ t.height := by
  induction t with
  | nil => simp [T.nodes, T.height]
  | node p i l r ihl ihr =>
    simp only [T.nodes, T.height, List.length_append, List.length_cons, Nat.pow_succ]
    have h1 : 2 ^ l.height ≤ 2 ^ max l.height r.height := Nat.pow_le_pow_right (by omega) (by omega)
    have h2 : 2 ^ r.height ≤ 2 ^ max l.height r.height := Nat.pow_le_pow_right (by omega) (by omega)
    omega

omit [Arch] in
theorem good_height_log {t : T} (g : t.Good) : t.height ≤ 2 * Nat.log2 (t.nodes.length + 1) + 1 := by
  have h2 := good_height g
  have h3 : Nat.fib (t.height + 1) ≤ t.nodes.length + 1 := (Nat.fib_mono (by omega)).trans (good_fib g)
  have h4 := (fib_pow t.height).1.trans h3
  have h5 := (Nat.le_log2 (by omega)).2 h4
  omega

theorem insertC_run {s : St} {a : Ab} (i : Inv s a) {v : Nat} {o : OSet} (ho : a.val v = some o) {p d : Nat}
    (hl : a.live p = true) (hs : ¬ a.stored p) :
    ∃ r n h', treeInsertC (s.var v) p d s.heap = some ((r, n), h') ∧
      n ≤ 12 * (2 * Nat.log2 (o.elems.length + 1) + 1) := by
  obtain ⟨t, k⟩ := i.tree v o ho
  have hlen := i.length_lt k
  have hcl := k.length
  have op := i.ok hl
  have hps : p ∉ o.elems.map Prod.fst := fun hm => hs ⟨v, o, ho, hm⟩
  have hpt : p ∉ t.nodes := fun hm => hps ((k.mem p).1 hm)
  have k0 : TreeOk (initNode s.heap p d) (s.var v) o t := k.congr fun x hx => by
    have hne : x ≠ p := fun e => hps (e ▸ hx)
    exact ⟨rfl, upd_ne hne, upd_ne hne, upd_ne hne, upd_ne hne⟩
  obtain ⟨t', m, h', fd, e, rp, f, g, n, _, c⟩ := insertNode_runC k0.tp k0.good (initNode s.heap p d) 0 k0.rep (x := p) op
    (upd_same _ _ _) (upd_same _ _ _) (upd_same _ _ _) hpt k0.nodup (by arch) k0.inc
  have okf : h'.ok fd := by
    rcases n with ⟨rfl, _⟩ | ⟨n1, _⟩
    · exact f.ok op
    · exact f.ok (k0.rep.ok fd n1)
  have run : ∃ r, treeInsertC (s.var v) p d s.heap = some ((r, m), h') := by
    unfold treeInsertC
    rw [← k.cmp] at e
    have e' := e
    unfold initNode at e'
    simp only [run_bind, setData_run op, Option.bind_some, setPrev_run (h := { s.heap with data := upd s.heap.data p d }) op,
      setNext_run (h := { s.heap with data := upd s.heap.data p d, prev := upd s.heap.prev p 0 }) op,
      setIndex_run (h := { s.heap with data := upd s.heap.data p d, prev := upd s.heap.prev p 0, next := upd s.heap.next p 0 }) op,
      e', getData_run okf, f.data, Nat.zero_add]
    exact ⟨_, rfl⟩
  obtain ⟨r, run⟩ := run
  refine ⟨r, m, h', run, ?_⟩
  have := good_height_log k.good
  rw [hcl] at this
  omega

theorem removeC_run {s : St} {a : Ab} (i : Inv s a) {v : Nat} {o : OSet} (ho : a.val v = some o) (d : Nat) :
    ∃ r n h', treeRemoveC (s.var v) d s.heap = some ((r, n), h') ∧
      n ≤ (2 * Nat.log2 (o.elems.length + 1) + 1) * (32 * Nat.log2 (o.elems.length + 1) + 2) ∧
      ∀ e ∈ o.elems, e.1 = (s.var v).root → o.cmp d e.2 = 0 →
        (Nat.log2 (o.elems.length + 1) - 3) ^ 2 ≤ 4 * n + 1 := by
  obtain ⟨t, k⟩ := i.tree v o ho
  have hlen := i.length_lt k
  have hcl := k.length
  obtain ⟨t', m, h', fd, e, rp, f, g, n, c1, c2⟩ := removeNode_runC (M := 2 * Nat.log2 (o.elems.length + 1)) k.tp k.good s.heap 0 d 0
    k.rep k.nodup (by arch) k.inc (by
      intro m hm
      rw [hcl] at hm
      have h4 := (fib_pow m).2.trans hm
      have h5 := (Nat.le_log2 (by omega)).2 h4
      omega)
  have okf : fd ≠ 0 → h'.ok fd := by
    intro h0
    rcases n with ⟨n1, _⟩ | ⟨n1, l, r, n2, n3⟩
    · exact absurd n1 h0
    · exact f.ok (k.rep.ok fd (by rw [n2]; simp))
  have run : ∃ r, treeRemoveC (s.var v) d s.heap = some ((r, m), h') := by
    unfold treeRemoveC
    rw [← k.cmp] at e
    simp only [run_bind, e, Option.bind_some, Nat.zero_add]
    by_cases h0 : fd = 0
    · exact ⟨_, by rw [if_pos h0]; rfl⟩
    · exact ⟨_, by rw [if_neg h0]; simp only [run_bind, getData_run (okf h0), Option.bind_some]; rfl⟩
  obtain ⟨r, run⟩ := run
  refine ⟨r, m, h', run, ?_, ?_⟩
  · have h1 := good_height_log k.good
    rw [hcl] at h1
    refine c1.trans ((Nat.mul_le_mul_right _ h1).trans (Nat.le_of_eq ?_))
    rw [← Nat.mul_assoc]
  · intro x hx hxr hc
    have hm := (k.mem x.1).2 (List.mem_map_of_mem hx)
    have hpt := k.rep.ptr
    cases t with
    | nil => cases hm
    | node q j l r =>
      have hq : x.1 = q := hxr.trans hpt
      have c := c2 q j l r rfl (by rw [← hq, k.data x hx]; exact hc)
      obtain ⟨g1, g2, g3, g4, g5⟩ := k.good
      have hh := good_height k.good
      have hL : Nat.log2 (o.elems.length + 1) ≤ (node q j l r).height := by
        have := good_length (t := node q j l r)
        rw [hcl] at this
        have h2 := Nat.log2_self_le (n := o.elems.length + 1) (by omega)
        exact (Nat.pow_le_pow_iff_right (by omega)).1 (h2.trans this)
      simp only [idx_node] at hh
      generalize Nat.log2 (o.elems.length + 1) = L at *
      generalize l.idx = a at *
      generalize r.idx = b at *
      have hab : L - 3 ≤ b ∧ b * b ≤ a * (2 * b - a) + 1 := by
        refine ⟨by rcases g5 with g5 | ⟨g5, _⟩ <;> omega, ?_⟩
        have : a = b ∨ a = b + 1 ∨ b = a + 1 := by omega
        rcases this with rfl | rfl | rfl
        · rw [show 2 * a - a = a by omega]; omega
        · rcases Nat.eq_zero_or_pos b with rfl | hb
          · omega
          · obtain ⟨w, rfl⟩ : ∃ w, b = w + 1 := ⟨b - 1, by omega⟩
            rw [show 2 * (w + 1) - (w + 1 + 1) = w by omega]
            simp only [Nat.add_mul, Nat.mul_add]; omega
        · rw [show 2 * (a + 1) - a = a + 2 by omega]
          simp only [Nat.add_mul, Nat.mul_add]; omega
      have := Nat.mul_le_mul hab.1 hab.1
      rw [Nat.pow_two]
      omega

end TreeSpec
end Tommy
