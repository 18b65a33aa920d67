import Verif.Proof.CTreeOps
/-! tommytree.c: the calls. -/
set_option autoImplicit false
set_option linter.unusedSectionVars false
set_option linter.unusedSimpArgs false
namespace Tommy.C

open HashFlat Src
open AllocSpec (rdN_congr)
variable [Arch] {G : Gh} {α β : Type}

/-! ### Variables in memory -/

/-- A variable of `n` bytes at `s`. -/
def pushF (F : Fld) (s n : Nat) : Fld := fun x k => if x = s ∧ k = n then some none else F x k

/-- The variable ends. -/
def popF (F : Fld) (s n : Nat) : Fld := fun x k => if s ≤ x ∧ x + k ≤ s + n then none else F x k

theorem rel_push {env : Nat → Option Nat} {F : Fld} {φ : Nat → Nat} {m : Mem} {w : AMem} (h : Rel env F φ m w) {s n : Nat}
    (hf : Fresh w.live s n) {c : Nat → Nat} (hc : ∀ x, c x < 256) :
    Rel (upd env s (some n)) (pushF F s n) φ m
      { live := upd w.live s (some n), byte := fun x => if s ≤ x ∧ x < s + n then c x else w.byte x } := by
  have hes : env s = none := by
    cases he : env s with
    | none => rfl
    | some k => have := (h.live s k).2 (.inl he); rw [hf.none] at this; cases this
  have hin : ∀ {p k}, InE env p k → InE (upd env s (some n)) p k := by
    rintro p k ⟨b, j, h1, h2, h3⟩
    refine ⟨b, j, ?_, h2, h3⟩
    rw [upd_ne]
    · exact h1
    · rintro rfl; rw [hes] at h1; cases h1
  have hap : ∀ {p k}, InE env p k → s + n ≤ p ∨ p + k ≤ s := by
    intro p k hi
    obtain ⟨b, j, h1, _, h2, h3⟩ := h.inE hi
    have := hf.sep _ _ h1
    omega
  exact
    { byte := fun x => by
        simp only
        split
        · exact hc x
        · exact h.byte x
      live := fun b k => by
        simp only
        by_cases e : b = s
        · subst e
          rw [upd_same, upd_same]
          constructor
          · exact fun e => .inl e
          · rintro (e | ⟨v, j, h1, h2, rfl⟩)
            · exact e
            · have := h.vec h1; rw [h2, hf.none] at this; cases this
        · rw [upd_ne e, upd_ne e, h.live]
      pos := fun b k => by
        simp only
        by_cases e : b = s
        · subst e; rw [upd_same]; intro e; cases e; exact ⟨hf.pos, hf.lt⟩
        · rw [upd_ne e]; exact h.pos b k
      reg := fun b1 n1 b2 n2 => by
        simp only
        by_cases e1 : b1 = s
        · subst e1
          rw [upd_same]
          intro e; cases e
          by_cases e2 : b2 = b1
          · subst e2; intro _ h; exact absurd rfl h
          · rw [upd_ne e2]; intro h2 _; exact hf.sep _ _ h2
        · rw [upd_ne e1]
          by_cases e2 : b2 = s
          · subst e2
            rw [upd_same]
            intro h1 e; cases e
            intro _; exact (hf.sep _ _ h1).symm
          · rw [upd_ne e2]; exact h.reg b1 n1 b2 n2
      vinj := h.vinj
      venv := fun v hv => by
        rw [upd_ne]
        · exact h.venv v hv
        · intro e
          obtain ⟨k, hk⟩ := Option.ne_none_iff_exists'.1 hv
          have := h.vec hk
          rw [e, hf.none] at this
          cases this
      fresh := h.fresh
      node := fun p hp => hin (h.node p hp)
      nsep := h.nsep
      fin := fun x k hx => by
        unfold pushF at hx
        split at hx
        · rename_i e; obtain ⟨rfl, rfl⟩ := e; exact ⟨x, k, upd_same .., Nat.le_refl _, Nat.le_refl _⟩
        · exact hin (h.fin x k hx)
      fsep := fun x k x' k' hx hx' hne => by
        unfold pushF at hx hx'
        split at hx <;> rename_i e
        · obtain ⟨rfl, rfl⟩ := e
          split at hx' <;> rename_i e'
          · omega
          · exact hap (h.fin _ _ hx')
        · split at hx' <;> rename_i e'
          · obtain ⟨rfl, rfl⟩ := e'
            have := hap (h.fin _ _ hx)
            omega
          · exact h.fsep x k x' k' hx hx' hne
      nfsep := fun p x k hp hx => by
        unfold pushF at hx
        split at hx <;> rename_i e
        · obtain ⟨rfl, rfl⟩ := e
          have := hap (h.node p hp)
          omega
        · exact h.nfsep p x k hp hx
      val := fun o v ho hv => by
        have key : dom F m o → HashFlat.val F m o = some v →
            rdN (fun x => if s ≤ x ∧ x < s + n then c x else w.byte x) (adr φ o) (siz o) = v := by
          intro h1 h2
          rw [← h.val o v h1 h2]
          obtain ⟨b', n', _, g1, g2, g3⟩ := h.home h1
          have := hf.sep _ _ g1
          exact rdN_congr fun x h4 h5 => if_neg (by omega)
        cases o with
        | fld x k =>
          simp only [dom, HashFlat.val, pushF] at ho hv
          by_cases e : x = s ∧ k = n
          · rw [if_pos e] at hv; cases hv
          · rw [if_neg e] at ho hv
            exact key ho hv
        | _ => exact key ho hv }

theorem rel_pop {env : Nat → Option Nat} {F : Fld} {φ : Nat → Nat} {m : Mem} {w : AMem} (h : Rel env F φ m w) {s n : Nat}
    (he : env s = some n) (hn : n < nodeSize) :
    Rel (upd env s none) (popF F s n) φ m { w with live := upd w.live s none } := by
  have hF : ∀ {x k}, popF F s n x k ≠ none → ¬ (s ≤ x ∧ x + k ≤ s + n) ∧ F x k ≠ none := by
    intro x k hx
    unfold popF at hx
    split at hx <;> rename_i e
    · exact absurd rfl hx
    · exact ⟨e, hx⟩
  have hsub : ∀ {b k}, upd w.live s none b = some k → b ≠ s ∧ w.live b = some k := by
    intro b k hb
    by_cases e : b = s
    · subst e; rw [upd_same] at hb; cases hb
    · rw [upd_ne e] at hb; exact ⟨e, hb⟩
  exact
    { byte := h.byte
      live := fun b k => by
        simp only
        by_cases e : b = s
        · subst e
          rw [upd_same, upd_same]
          constructor
          · intro e; cases e
          · rintro (e | ⟨v, j, h1, h2, rfl⟩)
            · cases e
            · have := h.venv v (by rw [h1]; nofun)
              rw [h2, he] at this; cases this
        · rw [upd_ne e, upd_ne e, h.live]
      pos := fun b k hb => h.pos b k (hsub hb).2
      reg := fun b1 n1 b2 n2 h1 h2 => h.reg b1 n1 b2 n2 (hsub h1).2 (hsub h2).2
      vinj := h.vinj
      venv := fun v hv => by
        by_cases e : φ v = s
        · rw [e, upd_same]
        · rw [upd_ne e]; exact h.venv v hv
      fresh := h.fresh
      node := fun p hp => by
        obtain ⟨b, k, h1, h2, h3⟩ := h.node p hp
        refine ⟨b, k, ?_, h2, h3⟩
        rw [upd_ne]
        · exact h1
        · rintro rfl; rw [he] at h1; cases h1; omega
      nsep := h.nsep
      fin := fun x k hx => by
        obtain ⟨b, j, h1, h2, h3⟩ := h.fin x k (hF hx).2
        refine ⟨b, j, ?_, h2, h3⟩
        rw [upd_ne]
        · exact h1
        · rintro rfl; rw [he] at h1; cases h1; exact (hF hx).1 ⟨h2, h3⟩
      fsep := fun x k x' k' hx hx' => h.fsep x k x' k' (hF hx).2 (hF hx').2
      nfsep := fun p x k hp hx => h.nfsep p x k hp (hF hx).2
      val := fun o v ho hv => by
        refine h.val o v ?_ ?_
        · cases o with
          | fld x k => exact (hF ho).2
          | _ => exact ho
        · cases o with
          | fld x k =>
            have := hF ho
            simp only [HashFlat.val, popF, if_neg this.1] at hv
            exact hv
          | _ => exact hv }

def push (G : Gh) (s n : Nat) : Gh := { G with env := upd G.env s (some n), F := pushF G.F s n, ms := G.ms.drop 1, live := upd G.live s (some n) }
def pop (G : Gh) (s n : Nat) : Gh := { G with env := upd G.env s none, F := popF G.F s n, live := upd G.live s none }

theorem sim_push {x : MM α} {k : Nat → BM β} {Q : α → β → Gh → Prop} {s n : Nat} {c : Nat → Nat} {ms : List (Nat × (Nat → Nat))}
    (hms : G.ms = (s, c) :: ms) (hc : ∀ x, c x < 256) (hf : Fresh G.live s n) (h : Sim (push G s n) x (k s) Q) : Sim G x (bstack n >>= k) Q := by
  intro m W hr a m' e
  obtain ⟨b, W', G', h1, h2, h3⟩ := h m ⟨⟨fun x => if s ≤ x ∧ x < s + n then c x else W.mem.byte x, upd W.mem.live s (some n)⟩, ms, W.log⟩
    ⟨rel_push hr.rel (by rw [hr.live]; exact hf) hc, by simp only [push, hms, List.drop_succ_cons, List.drop_zero], hr.log, by simp only [push, hr.live], hr.new⟩ a m' e
  refine ⟨b, W', G', ?_, h2, h3⟩
  simp only [run_bind, bstack, hr.ms, hms, Option.bind_some]
  exact h1

theorem sim_pop {x : MM α} {k : Unit → BM β} {Q : α → β → Gh → Prop} {s n : Nat} (he : G.env s = some n) (hn : n < nodeSize)
    (h : Sim (pop G s n) x (k ()) Q) : Sim G x (bunstack s >>= k) Q := by
  intro m W hr a m' e
  obtain ⟨b, W', G', h1, h2, h3⟩ := h m { W with mem := { W.mem with live := upd W.mem.live s none } }
    ⟨rel_pop hr.rel he hn, hr.ms, hr.log, by simp only [pop, hr.live], hr.new⟩ a m' e
  refine ⟨b, W', G', ?_, h2, h3⟩
  simp only [run_bind, bunstack, Option.bind_some]
  exact h1

/-! ### The struct -/

theorem decT_lt' {n : Nat} (h : n < 2 ^ sizeBit) : decT n < 2 ^ sizeBit := by
  unfold decT
  split <;> omega

theorem run_assert (ext : Ext) (v : Val) : run ext "assert" [v] = if v.v = 0 then fail else pure ⟨.void, 0⟩ := by
  rw [run.eq_1]
  simp only [builtin]
  split <;> rfl

theorem ne_ptr_lit (t : CTy) (a : Nat) : binop .ne ⟨.ptr t, a⟩ ⟨.s32, 0⟩ = some (bool (a ≠ 0)) := by bin [conv_ptr_lit t 0 (by decide)]

/-- The struct of the tree `tr` at `t`, with the comparison function at `c`. -/
structure TreeF (F : Fld) (t c : Nat) (tr : Tree) : Prop where
  root : F t ptrSize = some (some tr.root)
  cmp : F (t + ptrSize) ptrSize = some (some c)
  count : F (t + 2 * ptrSize) ptrSize = some (some tr.count)

/-- The struct after a change. -/
def setTree (F : Fld) (t : Nat) (tr : Tree) : Fld := (F.set t ptrSize tr.root).set (t + 2 * ptrSize) ptrSize tr.count

abbrev tTree : CTy := .ptr (.struct "tommy_tree_struct")

/-- The result of a call with a variable at `s`. -/
def PCall (G : Gh) (t s : Nat) (a : Tree × Nat) (v : Val) (G' : Gh) : Prop :=
  v = ⟨.ptr .void, a.2⟩ ∧ G' = { G with F := popF (setTree G.F t a.1) s ptrSize, ms := G.ms.drop 1 }

theorem ptr_lt_node : ptrSize < nodeSize := by archd
theorem ptr_pos : 0 < ptrSize := by archd

theorem popF_congr {F F' : Fld} {s n : Nat} (h : ∀ x k, ¬ (s ≤ x ∧ x + k ≤ s + n) → F x k = F' x k) : popF F s n = popF F' s n := by
  funext x k
  unfold popF
  split
  · rfl
  · rename_i e; exact h x k e

theorem pushF_ne {F : Fld} {s n x k : Nat} (h : x ≠ s) : pushF F s n x k = F x k := if_neg fun e => h e.1
theorem pushF_some {F : Fld} {s n : Nat} : pushF F s n s n = some none := if_pos ⟨rfl, rfl⟩

variable (ext : Ext) {t c s : Nat} {tr : Tree} {ct : Nat → Nat} {ms : List (Nat × (Nat → Nat))}

theorem pop_done (he : G.env s = none) (hl : G.live s = none) {G' : Gh} (h : G' = { push G s ptrSize with F := G'.F }) {tr' : Tree}
    (hF : ∀ x k, x ≠ s ∨ k ≠ ptrSize → G'.F x k = setTree G.F t tr' x k) :
    pop G' s ptrSize = { G with F := popF (setTree G.F t tr') s ptrSize, ms := G.ms.drop 1 } := by
  rw [h]
  unfold pop push
  have e1 : ∀ f : Nat → Option Nat, f s = none → upd (upd f s (some ptrSize)) s none = f := by
    intro f hf
    funext x
    by_cases e : x = s
    · subst e; rw [upd_same, hf]
    · rw [upd_ne e, upd_ne e]
  rw [e1 _ he, e1 _ hl]
  congr 1
  refine popF_congr fun x k hx => hF x k ?_
  by_contra h
  apply hx
  omega

theorem fset_ite (F : Fld) (x n v y k : Nat) : F.set x n v y k = if y = x ∧ k = n then some (some v) else F y k := rfl

theorem sim_insert (hc : IsCmp2 ext c tr.cmp) (hF : TreeF G.F t c tr) {p d : Nat} (hp : p < 2 ^ sizeBit) (hd : d < 2 ^ sizeBit) (hms : G.ms = (s, ct) :: ms)
    (hct : ∀ x, ct x < 256) (hf : Fresh G.live s ptrSize) (he : G.env s = none) (ha : t + 3 * ptrSize ≤ s ∨ s + ptrSize ≤ t) :
    Sim G (onNodes (treeInsert tr p d)) (run ext "tommy_tree_insert" [⟨tTree, t⟩, ⟨tNode, p⟩, ⟨.ptr .void, d⟩]) (PCall G t s) := by
  rw [run_fun rfl (show funs _ = some f_tommy_tree_insert from rfl)]
  unfold f_tommy_tree_insert treeInsert
  simp only [Stmt.list]
  csimp [field_root, field_cmp, field_count]
  simp only [onNodes_bind, onNodes_pure, Nat.add_zero]
  have h0 := ptr_pos
  have n1 : t ≠ s := by omega
  have n2 : t + ptrSize ≠ s := by omega
  have n3 : t + 2 * ptrSize ≠ s := by omega
  refine sim_push hms hct hf (sim_fset (by simp only [push, pushF_some]; nofun) (by rwa [pow_size]) ?_)
  have hs : ((push G s ptrSize).set s ptrSize p).F s ptrSize = some (some p) := Fld.set_same ..
  refine sim_fget hs fun _ => (sim_setData p hd).bind fun _ _ _ => ?_
  refine sim_fget hs fun _ => (sim_setPrev p zero_lt_size).bind fun _ _ _ => ?_
  refine sim_fget hs fun _ => (sim_setNext p zero_lt_size).bind fun _ _ _ => ?_
  refine sim_fget hs fun _ => (sim_setIndex p zero_lt_size).bind fun _ _ _ => ?_
  refine sim_fget (c := c) ?_ fun _ => sim_fget (c := tr.root) ?_ fun hroot => ?_
  · simp only [Gh.set, push]
    rw [Fld.set_ne (.inl n2), pushF_ne n2, hF.cmp]
  · simp only [Gh.set, push]
    rw [Fld.set_ne (.inl n1), pushF_ne n1, hF.root]
  refine Sim.bind (sim_insertNode ext hc (lt_of_size hroot) hs) ?_
  rintro ⟨r, l⟩ _ _ ⟨rfl, hr, hl, rfl⟩
  rw [conv_same]
  refine sim_fset ?_ (by rwa [pow_size]) ?_
  · simp only [Gh.set, push]
    rw [Fld.set_ne (.inl n1), Fld.set_ne (.inl n1), pushF_ne n1, hF.root]
    nofun
  have hs : (((((push G s ptrSize).set s ptrSize p).set s ptrSize l).set t ptrSize r)).F s ptrSize = some (some l) := by
    simp only [Gh.set]
    rw [Fld.set_ne (.inl n1.symm), Fld.set_same]
  have hcnt : (((((push G s ptrSize).set s ptrSize p).set s ptrSize l).set t ptrSize r)).F (t + 2 * ptrSize) ptrSize = some (some tr.count) := by
    simp only [Gh.set, push]
    rw [Fld.set_ne (.inl (by omega)), Fld.set_ne (.inl n3), Fld.set_ne (.inl n3), pushF_ne n3, hF.count]
  refine sim_fget hs fun _ => ?_
  by_cases e : l = p
  · simp only [if_pos e]
    refine sim_fget hcnt fun _ => sim_fset (by rw [hcnt]; nofun) (by rw [pow_size]; exact t_sizeT_lt' _) ?_
    refine sim_fget (by rw [Gh.set_F, Fld.set_ne (.inl n3.symm), hs]) fun _ => (sim_getData l).bind fun x _ ⟨e, hx⟩ => e ▸ ?_
    refine sim_pop (n := ptrSize) (upd_same ..) ptr_lt_node (Sim.pure ⟨rfl, pop_done he hf.none rfl fun x k hx => ?_⟩)
    simp only [Gh.set, setTree, push, pushF, fset_ite]
    split
    · rfl
    split
    · rfl
    rw [if_neg (by omega), if_neg (by omega), if_neg (by omega)]
  · simp only [if_neg e]
    refine sim_fget hs fun _ => (sim_getData l).bind fun x _ ⟨e, hx⟩ => e ▸ ?_
    refine sim_pop (n := ptrSize) (upd_same ..) ptr_lt_node (Sim.pure ⟨rfl, pop_done he hf.none rfl fun x k hx => ?_⟩)
    simp only [Gh.set, setTree, push, pushF, fset_ite]
    by_cases e1 : x = t + 2 * ptrSize ∧ k = ptrSize
    · rw [if_pos e1, if_neg (by omega), if_neg (by omega), if_neg (by omega), if_neg (by omega), e1.1, e1.2, hF.count]
    rw [if_neg e1]
    split
    · rfl
    rw [if_neg (by omega), if_neg (by omega), if_neg (by omega)]

theorem sim_remove (hc : IsCmp2 ext c tr.cmp) (hF : TreeF G.F t c tr) {d : Nat} (hms : G.ms = (s, ct) :: ms)
    (hct : ∀ x, ct x < 256) (hf : Fresh G.live s ptrSize) (he : G.env s = none) (ha : t + 3 * ptrSize ≤ s ∨ s + ptrSize ≤ t) :
    Sim G (onNodes (treeRemove tr d)) (run ext "tommy_tree_remove" [⟨tTree, t⟩, ⟨.ptr .void, d⟩]) (PCall G t s) := by
  rw [run_fun rfl (show funs _ = some f_tommy_tree_remove from rfl)]
  unfold f_tommy_tree_remove treeRemove
  simp only [Stmt.list]
  csimp [field_root, field_cmp, field_count]
  simp only [onNodes_bind, onNodes_pure, onNodes_ite, Nat.add_zero]
  have h0 := ptr_pos
  have n1 : t ≠ s := by omega
  have n2 : t + ptrSize ≠ s := by omega
  have n3 : t + 2 * ptrSize ≠ s := by omega
  refine sim_push hms hct hf (sim_fset (by simp only [push, pushF_some]; nofun) (by rw [pow_size]; exact zero_lt_size) ?_)
  have hs : ((push G s ptrSize).set s ptrSize 0).F s ptrSize = some (some 0) := Fld.set_same ..
  refine sim_fget (c := c) ?_ fun _ => sim_fget (c := tr.root) ?_ fun hroot => ?_
  · simp only [Gh.set, push]
    rw [Fld.set_ne (.inl n2), pushF_ne n2, hF.cmp]
  · simp only [Gh.set, push]
    rw [Fld.set_ne (.inl n1), pushF_ne n1, hF.root]
  refine Sim.bind (sim_removeNode ext hc d (lt_of_size hroot) hs zero_lt_size) ?_
  rintro ⟨r, l⟩ _ _ ⟨rfl, hr, hl, rfl⟩
  rw [conv_same]
  refine sim_fset ?_ (by rwa [pow_size]) ?_
  · simp only [Gh.set, push]
    rw [Fld.set_ne (.inl n1), Fld.set_ne (.inl n1), pushF_ne n1, hF.root]
    nofun
  have hs : (((((push G s ptrSize).set s ptrSize 0).set s ptrSize l).set t ptrSize r)).F s ptrSize = some (some l) := by
    simp only [Gh.set]
    rw [Fld.set_ne (.inl n1.symm), Fld.set_same]
  have hcnt : (((((push G s ptrSize).set s ptrSize 0).set s ptrSize l).set t ptrSize r)).F (t + 2 * ptrSize) ptrSize = some (some tr.count) := by
    simp only [Gh.set, push]
    rw [Fld.set_ne (.inl (by omega)), Fld.set_ne (.inl n3), Fld.set_ne (.inl n3), pushF_ne n3, hF.count]
  refine sim_fget hs fun _ => Sim.ite Iff.rfl (fun _ => ?_) fun _ => ?_
  · refine sim_pop (n := ptrSize) (upd_same ..) ptr_lt_node (Sim.pure ⟨rfl, pop_done he hf.none rfl fun x k hx => ?_⟩)
    simp only [Gh.set, setTree, push, pushF, fset_ite]
    by_cases e1 : x = t + 2 * ptrSize ∧ k = ptrSize
    · rw [if_pos e1, if_neg (by omega), if_neg (by omega), if_neg (by omega), if_neg (by omega), e1.1, e1.2, hF.count]
    rw [if_neg e1]
    split
    · rfl
    rw [if_neg (by omega), if_neg (by omega), if_neg (by omega)]
  · refine sim_fget hcnt fun h => ?_
    rw [dec_usize _ (lt_of_size h), lift_some, pure_bind]
    refine sim_fset (by rw [hcnt]; nofun) (by rw [pow_size]; exact decT_lt' (lt_of_size h)) ?_
    refine sim_fget (by rw [Gh.set_F, Fld.set_ne (.inl n3.symm), hs]) fun _ => (sim_getData l).bind fun x _ ⟨e, hx⟩ => e ▸ ?_
    refine sim_pop (n := ptrSize) (upd_same ..) ptr_lt_node (Sim.pure ⟨rfl, pop_done he hf.none rfl fun x k hx => ?_⟩)
    simp only [Gh.set, setTree, push, pushF, fset_ite]
    split
    · rfl
    split
    · rfl
    rw [if_neg (by omega), if_neg (by omega), if_neg (by omega)]

theorem sim_removeExisting (hc : IsCmp2 ext c tr.cmp) (hF : TreeF G.F t c tr) {p : Nat} (hms : G.ms = (s, ct) :: ms)
    (hct : ∀ x, ct x < 256) (hf : Fresh G.live s ptrSize) (he : G.env s = none) (ha : t + 3 * ptrSize ≤ s ∨ s + ptrSize ≤ t) :
    Sim G (onNodes (treeRemoveExisting tr p)) (run ext "tommy_tree_remove_existing" [⟨tTree, t⟩, ⟨tNode, p⟩]) (PCall G t s) := by
  rw [run_fun rfl (show funs _ = some f_tommy_tree_remove_existing from rfl)]
  unfold f_tommy_tree_remove_existing treeRemoveExisting
  simp only [Stmt.list]
  csimp [ne_ptr_lit, run_assert]
  simp only [onNodes_bind, onNodes_pure, onNodes_ite, not_not]
  refine (sim_getData p).bind fun d _ ⟨e, hd⟩ => e ▸ Sim.bind (sim_remove ext hc hF hms hct hf he ha) ?_
  rintro ⟨tr', r⟩ _ _ ⟨rfl, rfl⟩
  simp only [conv_same]
  by_cases h : r = 0
  · intro m W hr a m' e
    rw [if_pos h] at e
    cases e
  · rw [if_neg h]
    simp only [if_neg h, pure_bind]
    exact Sim.pure ⟨rfl, rfl⟩

/-- The result of a search. -/
def PSearch (a : Nat) (v : Val) : Prop := v = ⟨.ptr .void, a⟩

theorem sim_search (hc : IsCmp2 ext c tr.cmp) (hF : TreeF G.F t c tr) {d : Nat} :
    SimE G (onNodes (treeSearch tr d)) (run ext "tommy_tree_search" [⟨tTree, t⟩, ⟨.ptr .void, d⟩]) PSearch := by
  rw [run_fun rfl (show funs _ = some f_tommy_tree_search from rfl)]
  unfold f_tommy_tree_search treeSearch
  simp only [Stmt.list]
  csimp [field_root, field_cmp, field_count]
  simp only [onNodes_bind, onNodes_pure, onNodes_ite, Nat.add_zero]
  refine sim_fget hF.cmp fun _ => sim_fget hF.root fun hroot => ?_
  refine (sim_searchNode ext hc d (lt_of_size hroot)).bind fun r _ ⟨e, hr⟩ => ?_
  rw [e, conv_same]
  refine Sim.ite Iff.rfl (fun _ => Sim.pure ⟨rfl, rfl⟩) fun _ => ?_
  rw [← bind_pure (onNodes _)]
  exact (sim_getData r).bind fun x _ ⟨e, hx⟩ => e ▸ Sim.pure ⟨rfl, rfl⟩

theorem sim_searchCompare {cmp : Nat → Nat → Int} {k : Nat} (hc : IsCmp2 ext k cmp) (hF : TreeF G.F t c tr) {d : Nat} :
    SimE G (onNodes (treeSearchCompare tr cmp d)) (run ext "tommy_tree_search_compare" [⟨tTree, t⟩, ⟨.ptr .fn, k⟩, ⟨.ptr .void, d⟩]) PSearch := by
  rw [run_fun rfl (show funs _ = some f_tommy_tree_search_compare from rfl)]
  unfold f_tommy_tree_search_compare treeSearchCompare
  simp only [Stmt.list]
  csimp [field_root, field_cmp, field_count]
  simp only [onNodes_bind, onNodes_pure, onNodes_ite, Nat.add_zero]
  refine sim_fget hF.root fun hroot => ?_
  refine (sim_searchNode ext hc d (lt_of_size hroot)).bind fun r _ ⟨e, hr⟩ => ?_
  rw [e, conv_same]
  refine Sim.ite Iff.rfl (fun _ => Sim.pure ⟨rfl, rfl⟩) fun _ => ?_
  rw [← bind_pure (onNodes _)]
  exact (sim_getData r).bind fun x _ ⟨e, hx⟩ => e ▸ Sim.pure ⟨rfl, rfl⟩

theorem run_count : run ext "tommy_tree_count" [⟨tTree, t⟩] = (do let v ← bget (t + 2 * ptrSize); return ⟨.usize, v⟩) := by
  rw [run_fun rfl (show funs _ = some f_tommy_tree_count from rfl)]
  unfold f_tommy_tree_count
  simp only [Stmt.list]
  csimp [field_count]

theorem sim_count (hF : TreeF G.F t c tr) :
    SimE G (pure (treeCount tr) : MM Nat) (run ext "tommy_tree_count" [⟨tTree, t⟩]) fun a v => v = ⟨.usize, a⟩ := by
  rw [run_count]
  exact sim_fget hF.count fun _ => Sim.pure ⟨rfl, rfl⟩

theorem sim_usage (hF : TreeF G.F t c tr) :
    SimE G (pure (treeMemoryUsage tr) : MM Nat) (run ext "tommy_tree_memory_usage" [⟨tTree, t⟩]) fun a v => v = ⟨.usize, a⟩ := by
  rw [run_fun rfl (show funs _ = some f_tommy_tree_memory_usage from rfl)]
  unfold f_tommy_tree_memory_usage
  simp only [Stmt.list]
  csimp [run_count, size_node]
  exact sim_fget hF.count fun _ => Sim.pure ⟨rfl, rfl⟩

theorem sim_init {cmp : Nat → Nat → Int} (h1 : G.F t ptrSize ≠ none) (h2 : G.F (t + ptrSize) ptrSize ≠ none) (h3 : G.F (t + 2 * ptrSize) ptrSize ≠ none)
    (hc : c < 2 ^ sizeBit) :
    Sim G (pure (treeInit cmp) : MM Tree) (run ext "tommy_tree_init" [⟨tTree, t⟩, ⟨.ptr .fn, c⟩])
      fun a _ G' => G' = { G with F := setTree (G.F.set (t + ptrSize) ptrSize c) t a } := by
  rw [run_fun rfl (show funs _ = some f_tommy_tree_init from rfl)]
  unfold f_tommy_tree_init
  simp only [Stmt.list]
  csimp [field_root, field_cmp, field_count]
  have h0 := ptr_pos
  rw [Nat.add_zero]
  refine sim_fset h1 (by rw [pow_size]; exact zero_lt_size) (sim_fset ?_ (by rw [pow_size]; exact zero_lt_size) (sim_fset ?_ (by rwa [pow_size]) (Sim.pure ?_)))
  · simpa only [Gh.set, ne_eq, Fld.set_dom h1] using h3
  · simp only [Gh.set, fset_ite]
    rw [if_neg (by omega), if_neg (by omega)]
    exact h2
  · simp only [Gh.set]
    congr 1
    funext x k
    simp only [setTree, treeInit, fset_ite]
    by_cases e1 : x = t + ptrSize ∧ k = ptrSize
    · rw [if_pos e1, if_neg (by omega), if_neg (by omega), if_pos e1]
    · rw [if_neg e1, if_neg e1]

end Tommy.C
