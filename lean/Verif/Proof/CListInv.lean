import Verif.Proof.CListRun
import Mathlib.Data.List.Nodup
/-! The lists in the memory of bytes: the invariant. -/
set_option autoImplicit false
set_option linter.unusedSectionVars false
namespace Tommy.CLs
open CListSpec CArr C
open CArraySpec (Ok InReg)
variable [Arch]

theorem pos_ptr : 0 < ptrSize := by arch

section
variable {w : AMem} {p q v : Nat}

theorem R_set (h : v < 2 ^ sizeBit) : R (setW w p ptrSize v) p = v := rd_set (by rw [eight_ptr]; exact h)
theorem R_out (h : q + ptrSize ≤ p ∨ p + ptrSize ≤ q) : R (setW w p ptrSize v) q = R w q := rd_set_out h

theorem reg_pos (hw : Ok w) {n : Nat} (h : InReg w p n) (_ : 0 < n) : p ≠ 0 ∧ p + n ≤ 2 ^ sizeBit := by
  obtain ⟨b, k, h1, h2, h3⟩ := h
  have := hw.pos b k h1
  exact ⟨by omega, by omega⟩

theorem R_lt (hw : Ok w) : R w p < 2 ^ sizeBit := by
  rw [← eight_ptr]; exact HashFlat.rdN_bound hw.byte _ _

end

/-- Reads after writes. -/
macro "wr" : tactic => `(tactic| simp (discharger := first | assumption | omega) only [R_out, R_set])

/-- The nodes `p` and `q` are apart. -/
def Off (p q : Nat) : Prop := p + 3 * ptrSize ≤ q ∨ q + 3 * ptrSize ≤ p

/-- The list at `t` is in the memory. -/
structure Rep (s : AMem) (t : Nat) (l : List Nat) : Prop where
  reg : InReg s t ptrSize
  node : ∀ p ∈ l, InReg s p nodeSize
  sep : ∀ p ∈ l, p + 3 * ptrSize ≤ t ∨ t + ptrSize ≤ p
  apart : l.Pairwise Off
  hd : R s t = l.head?.getD 0
  nx : Nx s 0 l
  pv : Pv s (l.getLast?.getD 0) l

variable {s s' : AMem} {a : Ab} {t : Nat} {l l' : List Nat}

theorem Rep.ne0 (h : Rep s t l) (hw : Ok s) {p : Nat} (hp : p ∈ l) : p ≠ 0 ∧ p < 2 ^ sizeBit := by
  have h1 := pos_ptr
  have := reg_pos hw (h.node p hp) (by unfold nodeSize; omega)
  unfold nodeSize at this
  exact ⟨this.1, by omega⟩

theorem off_nodup (h : l.Pairwise Off) : l.Nodup := by
  have h1 := pos_ptr
  refine List.Pairwise.imp ?_ h
  intro p q ho e
  unfold Off at ho
  omega

theorem Rep.len (h : Rep s t l) (hw : Ok s) : l.length < 2 ^ sizeBit := by
  have : (0 :: l).Nodup := List.nodup_cons.2 ⟨fun h0 => (h.ne0 hw h0).1 rfl, off_nodup h.apart⟩
  have hs : (0 :: l) ⊆ List.range (2 ^ sizeBit) := by
    intro p hp
    rw [List.mem_range]
    rcases List.mem_cons.1 hp with rfl | hp
    · exact Nat.two_pow_pos _
    · exact (h.ne0 hw hp).2
  have := (List.subperm_of_subset this hs).length_le
  simp only [List.length_cons, List.length_range] at this
  omega

theorem Rep.congr (h : Rep s t l) (hr : InReg s' t ptrSize) (hn : ∀ p ∈ l, InReg s' p nodeSize) (hb : ∀ x, links t l x → s'.byte x = s.byte x) :
    Rep s' t l where
  reg := hr
  node := hn
  sep := h.sep
  apart := h.apart
  hd := (AllocSpec.rdN_congr fun x h1 h2 => hb x (.inl ⟨h1, h2⟩)).trans h.hd
  nx := h.nx.congr fun p hp => AllocSpec.rdN_congr fun x h1 h2 => hb x (.inr ⟨p, hp, h1, by omega⟩)
  pv := h.pv.congr fun p hp => AllocSpec.rdN_congr fun x h1 h2 => hb x (.inr ⟨p, hp, by omega, by omega⟩)

theorem internal_of_links {x : Nat} (h : links t l x) : internal t l x := by
  rcases h with h | ⟨p, hp, h1, h2⟩
  · exact .inl h
  · exact .inr ⟨p, hp, h1, by omega⟩

/-- What a call does. -/
structure Did (s : AMem) (t : Nat) (l : List Nat) (T : Nat → Prop) (s' : AMem) : Prop where
  ok : Ok s'
  live : s'.live = s.live
  out : ∀ x, ¬ T x → s'.byte x = s.byte x
  rep : Rep s' t l

theorem setL {w w' : AMem} {p n : Nat} (h : InReg w p n) (e : w'.live = w.live) : InReg w' p n := h.setL e

section
variable {n d : Nat} {ms : List (Nat × (Nat → Nat))} {log : List BEvent} (ext : Ext)

theorem run_init (hw : Ok s) (ht : InReg s t ptrSize) : ∃ s', run ext "tommy_list_init" [pList t] ⟨s, ms, log⟩ = some (⟨.void, 0⟩, ⟨s', ms, log⟩) ∧
    Did s t [] (fun x => t ≤ x ∧ x < t + ptrSize) s' := by
  refine ⟨setW s t ptrSize 0, ?_, ok_set hw _ _ _, rfl, fun x hx => set_out (by omega), ?_⟩
  · unfold pList
    rw [run_list_init, set_step ht]; rfl
  · exact ⟨setL ht rfl, by simp, by simp, List.Pairwise.nil, R_set (Nat.two_pow_pos _), trivial, trivial⟩

theorem run_first (hw : Ok s) (h : Rep s t []) (hn : InReg s n nodeSize) (hs : n + 3 * ptrSize ≤ t ∨ t + ptrSize ≤ n) (hd : d < 2 ^ sizeBit) :
    ∃ s', (∀ (α : Type) (f : Unit → BM α), (do blistInsertFirst t n; let x ← bset (n + nodData) d; f x : BM α) ⟨s, ms, log⟩ = f () ⟨s', ms, log⟩) ∧
      Did s t [n] (fun x => links t [] x ∨ (n ≤ x ∧ x < n + 3 * ptrSize)) s' ∧ R s' (n + datOff) = d := by
  have hp := pos_ptr
  have hn1 := reg_pos hw hn (by unfold nodeSize; omega)
  unfold nodeSize at hn1
  have hlt : n < 2 ^ sizeBit := by omega
  have h0 : 0 < 2 ^ sizeBit := Nat.two_pow_pos _
  refine ⟨setW (setW (setW (setW s (n + ptrSize) ptrSize n) n ptrSize 0) t ptrSize n) (n + 2 * ptrSize) ptrSize d, fun α f => ?_,
    ⟨ok_set (ok_set (ok_set (ok_set hw _ _ _) _ _ _) _ _ _) _ _ _, rfl, fun x hx => ?_, ?_⟩, ?_⟩
  · unfold blistInsertFirst
    simp only [nodPrev, nodNext, nodData, Nat.add_zero, bind_assoc]
    unfold nodeSize at hn
    rw [set_step, set_step, set_step, set_step]
    all_goals first | exact setL h.reg rfl | exact setL (hn.sub (by omega) (by omega)) rfl
  · have h1 : ¬ (t ≤ x ∧ x < t + ptrSize) := fun h => hx (.inl (.inl h))
    have h2 : ¬ (n ≤ x ∧ x < n + 3 * ptrSize) := fun h => hx (.inr h)
    rw [set_out (by omega), set_out (by omega), set_out (by omega), set_out (by omega)]
  · refine ⟨setL h.reg rfl, ?_, ?_, List.pairwise_singleton _ _, ?_, ⟨?_, trivial⟩, ?_, trivial⟩
    · intro p hp; rw [List.mem_singleton.1 hp]; exact setL hn rfl
    · intro p hp; rw [List.mem_singleton.1 hp]; exact hs
    · show _ = n
      wr
    · show _ = 0
      wr
    · show _ = n
      wr
  · unfold datOff; exact R_set hd

theorem run_insert_head (hw : Ok s) (h : Rep s t l) (hn : InReg s n nodeSize) (hs : n + 3 * ptrSize ≤ t ∨ t + ptrSize ≤ n)
    (ho : ∀ p ∈ l, Off n p) (hd : d < 2 ^ sizeBit) :
    ∃ s', run ext "tommy_list_insert_head" [pList t, pNode n, pVoid d] ⟨s, ms, log⟩ = some (⟨.void, 0⟩, ⟨s', ms, log⟩) ∧
      Did s t (n :: l) (fun x => links t l x ∨ (n ≤ x ∧ x < n + 3 * ptrSize)) s' ∧ R s' (n + datOff) = d := by
  have hp := pos_ptr
  have hn1 := reg_pos hw hn (by unfold nodeSize; omega)
  unfold nodeSize at hn1
  have hlt : n < 2 ^ sizeBit := by omega
  have h0 : 0 < 2 ^ sizeBit := Nat.two_pow_pos _
  have hhd := h.hd
  cases l with
  | nil =>
    obtain ⟨s', e, h'⟩ := run_first (ms := ms) (log := log) hw h hn hs hd
    refine ⟨s', ?_, h'⟩
    unfold pList pNode pVoid
    rw [run_list_insert_head, get_step h.reg hhd, if_pos (by rfl)]
    exact e _ _
  | cons x l =>
    have hhd : R s t = x := hhd
    obtain ⟨hx0, hxlt⟩ := h.ne0 hw (p := x) (by simp)
    have hxr := h.node x (by simp)
    have hxs := h.sep x (by simp)
    have hxo := ho x (by simp)
    unfold Off at hxo
    have hla : R s (x + ptrSize) = (x :: l).getLast?.getD 0 := h.pv.1
    have hpv := h.pv.2
    have hll : (x :: l).getLast?.getD 0 < 2 ^ sizeBit := by rw [← hla]; exact R_lt hw
    have hap := List.pairwise_cons.1 h.apart
    generalize hL : (x :: l).getLast?.getD 0 = L at hla hll
    refine ⟨setW (setW (setW (setW (setW s (n + ptrSize) ptrSize L) (x + ptrSize) ptrSize n) n ptrSize x) t ptrSize n) (n + 2 * ptrSize) ptrSize d, ?_,
      ⟨ok_set (ok_set (ok_set (ok_set (ok_set hw _ _ _) _ _ _) _ _ _) _ _ _) _ _ _, rfl, fun y hy => ?_, ?_⟩, ?_⟩
    · unfold pList pNode pVoid
      rw [run_list_insert_head, get_step h.reg hhd, if_neg (by exact hx0)]
      simp only [nodPrev, nodNext, nodData, Nat.add_zero]
      unfold nodeSize at hn hxr
      rw [get_step h.reg hhd, get_step (p := x + ptrSize) (hxr.sub (by omega) (by omega)) hla, set_step, set_step, set_step, set_step, set_step]
      all_goals first | rfl | exact setL h.reg rfl | exact setL (hn.sub (by omega) (by omega)) rfl | exact setL (hxr.sub (by omega) (by omega)) rfl
    · have h1 : ¬ (t ≤ y ∧ y < t + ptrSize) := fun h => hy (.inl (.inl h))
      have h2 : ¬ (n ≤ y ∧ y < n + 3 * ptrSize) := fun h => hy (.inr h)
      have h3 : ¬ (x ≤ y ∧ y < x + 2 * ptrSize) := fun h => hy (.inl (.inr ⟨x, by simp, h⟩))
      rw [set_out (by omega), set_out (by omega), set_out (by omega), set_out (by omega), set_out (by omega)]
    · refine ⟨setL h.reg rfl, ?_, ?_, List.pairwise_cons.2 ⟨ho, h.apart⟩, ?_, ⟨?_, ?_, ?_⟩, ?_, ?_, ?_⟩
      · intro p hp
        rcases List.mem_cons.1 hp with rfl | hp
        · exact setL hn rfl
        · exact setL (h.node p hp) rfl
      · intro p hp
        rcases List.mem_cons.1 hp with rfl | hp
        · exact hs
        · exact h.sep p hp
      · show _ = n
        wr
      · show _ = x
        wr
      · rw [← h.nx.1]
        wr
      · refine h.nx.2.congr fun p hp => ?_
        have h1 := h.sep p (by simp [hp])
        have h2 := hap.1 p hp
        have h3 := ho p (by simp [hp])
        unfold Off at h2 h3
        wr
      · rw [List.getLast?_cons_cons, hL]
        wr
      · wr
      · refine hpv.congr fun p hp => ?_
        have h1 := h.sep p (by simp [hp])
        have h2 := hap.1 p hp
        have h3 := ho p (by simp [hp])
        unfold Off at h2 h3
        wr
    · unfold datOff; exact R_set hd

theorem Rep.off (h : Rep s t l) {p q : Nat} (hp : p ∈ l) (hq : q ∈ l) : p = q ∨ Off p q := by
  have := h.apart
  clear h
  induction l with
  | nil => cases hp
  | cons x l ih =>
    obtain ⟨h1, h2⟩ := List.pairwise_cons.1 this
    rcases List.mem_cons.1 hp with e | hp <;> rcases List.mem_cons.1 hq with e' | hq
    · exact .inl (e.trans e'.symm)
    · rw [e]; exact .inr (h1 q hq)
    · rw [e']; exact .inr (h1 p hp).symm
    · exact ih hp hq h2

theorem run_insert_tail (hw : Ok s) (h : Rep s t l) (hn : InReg s n nodeSize) (hs : n + 3 * ptrSize ≤ t ∨ t + ptrSize ≤ n)
    (ho : ∀ p ∈ l, Off n p) (hd : d < 2 ^ sizeBit) :
    ∃ s', run ext "tommy_list_insert_tail" [pList t, pNode n, pVoid d] ⟨s, ms, log⟩ = some (⟨.void, 0⟩, ⟨s', ms, log⟩) ∧
      Did s t (l ++ [n]) (fun x => links t l x ∨ (n ≤ x ∧ x < n + 3 * ptrSize)) s' ∧ R s' (n + datOff) = d := by
  have hp := pos_ptr
  have hn1 := reg_pos hw hn (by unfold nodeSize; omega)
  unfold nodeSize at hn1
  have hlt : n < 2 ^ sizeBit := by omega
  have h0 : 0 < 2 ^ sizeBit := Nat.two_pow_pos _
  have hhd := h.hd
  rcases List.eq_nil_or_concat l with rfl | ⟨l0, L, hl0⟩
  · obtain ⟨s', e, h'⟩ := run_first (ms := ms) (log := log) hw h hn hs hd
    refine ⟨s', ?_, h'⟩
    unfold pList pNode pVoid
    rw [run_list_insert_tail]
    unfold blistInsertTail
    simp only [bind_assoc]
    rw [get_step h.reg hhd, if_neg (by simp), bind_assoc]
    exact e _ _
  · rw [List.concat_eq_append] at hl0
    have hlast : ∀ e, l.getLast?.getD e = L := by intro e; rw [hl0]; simp
    have hLl : L ∈ l := by rw [hl0]; simp
    obtain ⟨x, l', hxl⟩ : ∃ x l', l = x :: l' := by cases l with | nil => cases hLl | cons x l' => exact ⟨x, l', rfl⟩
    have hxm : x ∈ l := by rw [hxl]; simp
    have hhd : R s t = x := by rw [hhd, hxl]; rfl
    obtain ⟨hx0, hxlt⟩ := h.ne0 hw hxm
    obtain ⟨hL0, hLlt⟩ := h.ne0 hw hLl
    have hxr := h.node x hxm
    have hLr := h.node L hLl
    have hxs := h.sep x hxm
    have hLs := h.sep L hLl
    have hxo := ho x hxm
    have hLo := ho L hLl
    have hxL := h.off hxm hLl
    unfold Off at hxo hLo hxL
    have hpv := h.pv
    rw [hlast, hxl] at hpv
    obtain ⟨hla, hpv⟩ := hpv
    have hnx := h.nx
    rw [hl0, nx_append] at hnx
    obtain ⟨hnx, hnL, _⟩ := hnx
    have hap := h.apart
    rw [hl0] at hap
    have hap := (List.pairwise_append.1 hap).2.2
    have hap2 := h.apart
    rw [hxl] at hap2
    have hap2 := (List.pairwise_cons.1 hap2).1
    refine ⟨setW (setW (setW (setW (setW s (n + ptrSize) ptrSize L) (x + ptrSize) ptrSize n) n ptrSize 0) L ptrSize n) (n + 2 * ptrSize) ptrSize d, ?_,
      ⟨ok_set (ok_set (ok_set (ok_set (ok_set hw _ _ _) _ _ _) _ _ _) _ _ _) _ _ _, rfl, fun y hy => ?_, ?_⟩, ?_⟩
    · unfold pList pNode pVoid
      rw [run_list_insert_tail]
      unfold blistInsertTail
      simp only [bind_assoc]
      rw [get_step h.reg hhd, if_pos hx0]
      unfold blistInsertTailNotEmpty
      simp only [nodPrev, nodNext, nodData, Nat.add_zero, bind_assoc]
      unfold nodeSize at hn hxr hLr
      rw [get_step (p := x + ptrSize) (hxr.sub (by omega) (by omega)) hla, set_step, set_step, set_step, get_step (v := L), set_step, set_step]
      all_goals first | rfl | exact setL (hn.sub (by omega) (by omega)) rfl | exact setL (hxr.sub (by omega) (by omega)) rfl |
        exact setL (hLr.sub (by omega) (by omega)) rfl | wr
    · have h1 : ¬ (t ≤ y ∧ y < t + ptrSize) := fun h => hy (.inl (.inl h))
      have h2 : ¬ (n ≤ y ∧ y < n + 3 * ptrSize) := fun h => hy (.inr h)
      have h3 : ¬ (x ≤ y ∧ y < x + 2 * ptrSize) := fun h => hy (.inl (.inr ⟨x, hxm, h⟩))
      have h4 : ¬ (L ≤ y ∧ y < L + 2 * ptrSize) := fun h => hy (.inl (.inr ⟨L, hLl, h⟩))
      rw [set_out (by omega), set_out (by omega), set_out (by omega), set_out (by omega), set_out (by omega)]
    · refine ⟨setL h.reg rfl, ?_, ?_, List.pairwise_append.2 ⟨h.apart, List.pairwise_singleton _ _, ?_⟩, ?_, nx_append.2 ⟨?_, ?_, trivial⟩,
        pv_append.2 ⟨?_, ?_, trivial⟩⟩
      · intro p hp
        rcases List.mem_append.1 hp with hp | hp
        · exact setL (h.node p hp) rfl
        · rw [List.mem_singleton.1 hp]; exact setL hn rfl
      · intro p hp
        rcases List.mem_append.1 hp with hp | hp
        · exact h.sep p hp
        · rw [List.mem_singleton.1 hp]; exact hs
      · intro p hp q hq
        rw [List.mem_singleton.1 hq]; exact (ho p hp).symm
      · rw [hxl]
        show _ = x
        rw [← hhd]
        wr
      · rw [hl0, nx_append]
        refine ⟨hnx.congr fun p hp => ?_, ?_, trivial⟩
        · have hpm : p ∈ l := by rw [hl0]; simp [hp]
          have h1 := h.off hpm hxm
          have h2 := hap p hp L (by simp)
          have h3 := ho p hpm
          unfold Off at h1 h2 h3
          wr
        · show _ = n
          wr
      · show _ = 0
        wr
      · rw [List.getLast?_concat, hxl]
        refine ⟨?_, hpv.congr fun p hp => ?_⟩
        · show _ = n
          wr
        · have hpm : p ∈ l := by rw [hxl]; simp [hp]
          have h1 := h.off hpm hLl
          have h2 := hap2 p hp
          have h3 := ho p hpm
          unfold Off at h1 h2 h3
          wr
      · rw [hlast]
        wr
    · unfold datOff; exact R_set hd

theorem run_remove (hw : Ok s) (h : Rep s t l) {p : Nat} (hpl : p ∈ l) :
    ∃ s', run ext "tommy_list_remove_existing" [pList t, pNode p] ⟨s, ms, log⟩ = some (⟨.ptr .void, R s (p + datOff)⟩, ⟨s', ms, log⟩) ∧
      Did s t (l.erase p) (links t l) s' := by
  have hp := pos_ptr
  have h0 : 0 < 2 ^ sizeBit := Nat.two_pow_pos _
  have hnd := off_nodup h.apart
  have hps := h.sep p hpl
  have hpr := h.node p hpl
  obtain ⟨hp0, hplt⟩ := h.ne0 hw hpl
  obtain ⟨a, b, hl⟩ := List.append_of_mem hpl
  have hpa : p ∉ a := by
    intro hm
    rw [hl] at hnd
    exact (List.nodup_append.1 hnd).2.2 p hm p (by simp) rfl
  have hpb : p ∉ b := by
    intro hm
    rw [hl] at hnd
    exact (List.nodup_cons.1 (List.nodup_append.1 hnd).2.1).1 hm
  have her : l.erase p = a ++ b := by rw [hl, List.erase_append_right _ hpa, List.erase_cons_head]
  rw [her]
  have ham : ∀ q ∈ a, q ∈ l := fun q hq => by rw [hl]; simp [hq]
  have hbm : ∀ q ∈ b, q ∈ l := fun q hq => by rw [hl]; simp [hq]
  have habm : ∀ q ∈ a ++ b, q ∈ l := fun q hq => by
    rcases List.mem_append.1 hq with hq | hq
    · exact ham q hq
    · exact hbm q hq
  have hap := h.apart
  rw [hl] at hap
  have hab := List.pairwise_append.1 hap
  have hap' : (a ++ b).Pairwise Off := List.pairwise_append.2 ⟨hab.1, (List.pairwise_cons.1 hab.2.1).2, fun x hx y hy => hab.2.2 x hx y (by simp [hy])⟩
  have hpo : ∀ q ∈ a ++ b, Off p q := by
    intro q hq
    rcases List.mem_append.1 hq with hq | hq
    · exact (hab.2.2 q hq p (by simp)).symm
    · exact (List.pairwise_cons.1 hab.2.1).1 q hq
  have hnx := h.nx
  rw [hl, nx_append] at hnx
  obtain ⟨hna, hnp, hnb⟩ := hnx
  change Nx s p a at hna
  have hpv := h.pv
  generalize hlast : l.getLast?.getD 0 = L at hpv
  rw [hl, pv_append] at hpv
  obtain ⟨hva, hvp, hvb⟩ := hpv
  have hhd := h.hd
  have hdat : p + nodData = p + datOff := rfl
  unfold nodeSize at hpr
  have fin : ∀ {A u B v : Nat}, (A + ptrSize ≤ p ∨ p + ptrSize ≤ A ∧ (A + ptrSize ≤ p + 2 * ptrSize ∨ p + 3 * ptrSize ≤ A)) →
      (B + ptrSize ≤ p ∨ p + 3 * ptrSize ≤ B) → R (setW (setW s A ptrSize u) B ptrSize v) (p + datOff) = R s (p + datOff) := by
    intro A u B v h1 h2
    unfold datOff
    wr
  have regs : ∀ {A u B v : Nat}, (∀ q ∈ a ++ b, InReg (setW (setW s A ptrSize u) B ptrSize v) q nodeSize) := fun q hq => setL (h.node q (habm q hq)) rfl
  cases b with
  | cons y b =>
    have hyl := hbm y (by simp)
    obtain ⟨hy0, hylt⟩ := h.ne0 hw hyl
    have hyr := h.node y hyl
    have hys := h.sep y hyl
    have hyp := hpo y (by simp)
    change R s p = y at hnp
    obtain ⟨hvy, hvb⟩ := hvb
    have hby := (List.pairwise_cons.1 (List.pairwise_cons.1 hab.2.1).2).1
    have hL : (a ++ y :: b).getLast?.getD 0 = L := by rw [← hlast, hl]; simp [List.getLast?_append, List.getLast?_cons]
    have hLlt : L < 2 ^ sizeBit := by
      rw [← hlast]
      cases hg : l.getLast? with
      | none => exact h0
      | some z => exact (h.ne0 hw (List.mem_of_getLast? hg)).2
    unfold Off at hyp
    unfold nodeSize at hyr
    rcases List.eq_nil_or_concat a with rfl | ⟨a0, z, ha⟩
    · change R s (p + ptrSize) = L at hvp
      have hhd : R s t = p := by rw [hhd, hl]; rfl
      refine ⟨setW (setW s (y + ptrSize) ptrSize L) t ptrSize y, ?_, ok_set (ok_set hw _ _ _) _ _ _, rfl, fun x hx => ?_, ?_⟩
      · unfold pList pNode
        rw [run_list_remove_existing]
        unfold blistRemoveExisting
        simp only [nodPrev, nodNext, Nat.add_zero, bind_assoc]
        rw [get_step h.reg hhd, get_step (p := p) (hpr.sub (by omega) (by omega)) hnp, if_pos hy0, bind_assoc,
          get_step (p := p + ptrSize) (hpr.sub (by omega) (by omega)) hvp, bind_assoc, set_step, if_pos rfl]
        simp only [bind_assoc]
        rw [get_step (p := p) (v := y), set_step, get_step (p := p + nodData) (v := R s (p + datOff))]
        all_goals first | rfl | exact setL h.reg rfl | exact setL (hpr.sub (by omega) (by omega)) rfl | exact setL (hyr.sub (by omega) (by omega)) rfl |
          exact setL (hpr.sub (by unfold nodData; omega) (by unfold nodData; omega)) rfl | (rw [← hnp]; wr) | exact fin (by omega) (by omega)
      · have h1 : ¬ (t ≤ x ∧ x < t + ptrSize) := fun h => hx (.inl h)
        have h2 : ¬ (y ≤ x ∧ x < y + 2 * ptrSize) := fun h => hx (.inr ⟨y, hyl, h⟩)
        rw [set_out (by omega), set_out (by omega)]
      · refine ⟨setL h.reg rfl, regs, fun q hq => h.sep q (habm q hq), hap', ?_, ?_, ?_, ?_⟩
        · show _ = y
          wr
        · refine hnb.congr fun q hq => ?_
          have h1 := h.sep q (hbm q hq)
          have h2 := h.off (hbm q hq) hyl
          unfold Off at h2
          wr
        · rw [hL]
          wr
        · refine hvb.congr fun q hq => ?_
          have h1 := h.sep q (hbm q (by simp [hq]))
          have h2 := hby q hq
          unfold Off at h2
          wr
    · rw [List.concat_eq_append] at ha
      have hza : z ∈ a := by rw [ha]; simp
      have hzl := ham z hza
      obtain ⟨hz0, hzlt⟩ := h.ne0 hw hzl
      have hzr := h.node z hzl
      have hzs := h.sep z hzl
      have hzp := hpo z (by simp [hza])
      have hzy := hab.2.2 z hza y (by simp)
      unfold Off at hzp hzy
      unfold nodeSize at hzr
      have hgl : ∀ e, a.getLast?.getD e = z := by intro e; rw [ha]; simp
      rw [hgl] at hvp
      have hza0 : ∀ q ∈ a0, Off q z := by
        have := hab.1
        rw [ha] at this
        exact fun q hq => (List.pairwise_append.1 this).2.2 q hq z (by simp)
      rw [ha, nx_append] at hna
      obtain ⟨hna, hnz, _⟩ := hna
      obtain ⟨x, hx⟩ : ∃ x, R s t = x := ⟨_, rfl⟩
      have hxp : x ≠ p := by
        rw [← hx, hhd, hl]
        cases a with
        | nil => cases hza
        | cons x' a => intro e; exact hpa (by simp at e; simp [e])
      refine ⟨setW (setW s (y + ptrSize) ptrSize z) z ptrSize y, ?_, ok_set (ok_set hw _ _ _) _ _ _, rfl, fun x hx => ?_, ?_⟩
      · unfold pList pNode
        rw [run_list_remove_existing]
        unfold blistRemoveExisting
        simp only [nodPrev, nodNext, Nat.add_zero, bind_assoc]
        rw [get_step h.reg hx, get_step (p := p) (hpr.sub (by omega) (by omega)) hnp, if_pos hy0, bind_assoc,
          get_step (p := p + ptrSize) (hpr.sub (by omega) (by omega)) hvp, bind_assoc, set_step, if_neg hxp]
        simp only [bind_assoc]
        rw [get_step (p := p + ptrSize) (v := z), get_step (p := p) (v := y), set_step, get_step (p := p + nodData) (v := R s (p + datOff))]
        all_goals first | rfl | exact setL (hpr.sub (by omega) (by omega)) rfl | exact setL (hyr.sub (by omega) (by omega)) rfl |
          exact setL (hzr.sub (by omega) (by omega)) rfl |
          exact setL (hpr.sub (by unfold nodData; omega) (by unfold nodData; omega)) rfl | (rw [← hnp]; wr; done) | (rw [← hvp]; wr) | exact fin (by omega) (by omega)
      · have h1 : ¬ (z ≤ x ∧ x < z + 2 * ptrSize) := fun h => hx (.inr ⟨z, hzl, h⟩)
        have h2 : ¬ (y ≤ x ∧ x < y + 2 * ptrSize) := fun h => hx (.inr ⟨y, hyl, h⟩)
        rw [set_out (by omega), set_out (by omega)]
      · refine ⟨setL h.reg rfl, regs, fun q hq => h.sep q (habm q hq), hap', ?_, nx_append.2 ⟨?_, ?_⟩, pv_append.2 ⟨?_, ?_, ?_⟩⟩
        · have : (a ++ y :: b).head?.getD 0 = R s t := by
            rw [hhd, hl]
            cases a with
            | nil => cases hza
            | cons x' a => rfl
          rw [this]
          wr
        · rw [ha, nx_append]
          refine ⟨hna.congr fun q hq => ?_, ?_, trivial⟩
          · have hqa : q ∈ a := by rw [ha]; simp [hq]
            have h2 := hza0 q hq
            have h3 := hab.2.2 q hqa y (by simp)
            unfold Off at h2 h3
            wr
          · show _ = y
            wr
        · refine hnb.congr fun q hq => ?_
          have h1 := hab.2.2 z hza q (List.mem_cons_of_mem _ hq)
          have h2 := h.off (hbm q hq) hyl
          unfold Off at h1 h2
          wr
        · rw [hL]
          refine hva.congr fun q hq => ?_
          have h1 := h.off (ham q hq) hzl
          have h2 := hab.2.2 q hq y (by simp)
          unfold Off at h1 h2
          wr
        · rw [hgl]
          wr
        · refine hvb.congr fun q hq => ?_
          have h1 := hab.2.2 z hza q (by simp [hq])
          have h2 := hby q hq
          unfold Off at h1 h2
          wr
  | nil =>
    change R s p = 0 at hnp
    have hLp : L = p := by rw [← hlast, hl]; simp
    subst hLp
    rcases List.eq_nil_or_concat a with rfl | ⟨a0, z, ha⟩
    · change R s (L + ptrSize) = L at hvp
      have hhd : R s t = L := by rw [hhd, hl]; rfl
      refine ⟨setW (setW s (L + ptrSize) ptrSize L) t ptrSize 0, ?_, ok_set (ok_set hw _ _ _) _ _ _, rfl, fun x hx => ?_, ?_⟩
      · unfold pList pNode
        rw [run_list_remove_existing]
        unfold blistRemoveExisting
        simp only [nodPrev, nodNext, Nat.add_zero, bind_assoc]
        rw [get_step h.reg hhd, get_step (p := L) (hpr.sub (by omega) (by omega)) hnp, if_neg (by simp), bind_assoc,
          get_step (p := L + ptrSize) (hpr.sub (by omega) (by omega)) hvp, bind_assoc, set_step, if_pos rfl]
        simp only [bind_assoc]
        rw [get_step (p := L) (v := 0), set_step, get_step (p := L + nodData) (v := R s (L + datOff))]
        all_goals first | rfl | exact setL h.reg rfl | exact setL (hpr.sub (by omega) (by omega)) rfl |
          exact setL (hpr.sub (by unfold nodData; omega) (by unfold nodData; omega)) rfl | (rw [← hnp]; wr) | exact fin (by omega) (by omega)
      · have h1 : ¬ (t ≤ x ∧ x < t + ptrSize) := fun h => hx (.inl h)
        have h2 : ¬ (L ≤ x ∧ x < L + 2 * ptrSize) := fun h => hx (.inr ⟨L, hpl, h⟩)
        rw [set_out (by omega), set_out (by omega)]
      · refine ⟨setL h.reg rfl, regs, fun q hq => h.sep q (habm q hq), hap', ?_, trivial, trivial⟩
        show _ = 0
        wr
    · rw [List.concat_eq_append] at ha
      have hza : z ∈ a := by rw [ha]; simp
      have hzl := ham z hza
      obtain ⟨hz0, hzlt⟩ := h.ne0 hw hzl
      have hzr := h.node z hzl
      have hzs := h.sep z hzl
      have hzp := hpo z (by simp [hza])
      unfold Off at hzp
      unfold nodeSize at hzr
      have hgl : ∀ e, a.getLast?.getD e = z := by intro e; rw [ha]; simp
      rw [hgl] at hvp
      have hza0 : ∀ q ∈ a0, Off q z := by
        have := hab.1
        rw [ha] at this
        exact fun q hq => (List.pairwise_append.1 this).2.2 q hq z (by simp)
      rw [ha, nx_append] at hna
      obtain ⟨hna, hnz, _⟩ := hna
      obtain ⟨x, a', hxa⟩ : ∃ x a', a = x :: a' := by cases a with | nil => cases hza | cons x a' => exact ⟨x, a', rfl⟩
      have hx : R s t = x := by rw [hhd, hl, hxa]; rfl
      have hxm : x ∈ a := by rw [hxa]; simp
      have hxp : x ≠ L := by rintro rfl; exact hpa hxm
      have hxs := h.sep x (ham x hxm)
      have hxr := h.node x (ham x hxm)
      have hxo := hpo x (by simp [hxm])
      have hxz := h.off (ham x hxm) hzl
      have hap2 := hab.1
      rw [hxa] at hap2
      have hap2 := (List.pairwise_cons.1 hap2).1
      have hva' := hva
      rw [hxa] at hva'
      obtain ⟨_, hva'⟩ := hva'
      unfold Off at hxo hxz
      unfold nodeSize at hxr
      refine ⟨setW (setW s (x + ptrSize) ptrSize z) z ptrSize 0, ?_, ok_set (ok_set hw _ _ _) _ _ _, rfl, fun y hy => ?_, ?_⟩
      · unfold pList pNode
        rw [run_list_remove_existing]
        unfold blistRemoveExisting
        simp only [nodPrev, nodNext, Nat.add_zero, bind_assoc]
        rw [get_step h.reg hx, get_step (p := L) (hpr.sub (by omega) (by omega)) hnp, if_neg (by simp), bind_assoc,
          get_step (p := L + ptrSize) (hpr.sub (by omega) (by omega)) hvp, bind_assoc, set_step, if_neg hxp]
        simp only [bind_assoc]
        rw [get_step (p := L + ptrSize) (v := z), get_step (p := L) (v := 0), set_step, get_step (p := L + nodData) (v := R s (L + datOff))]
        all_goals first | rfl | exact setL (hpr.sub (by omega) (by omega)) rfl | exact setL (hxr.sub (by omega) (by omega)) rfl |
          exact setL (hzr.sub (by omega) (by omega)) rfl |
          exact setL (hpr.sub (by unfold nodData; omega) (by unfold nodData; omega)) rfl | (rw [← hnp]; wr) | (rw [← hvp]; wr) | exact fin (by omega) (by omega)
      · have h1 : ¬ (z ≤ y ∧ y < z + 2 * ptrSize) := fun h => hy (.inr ⟨z, hzl, h⟩)
        have h2 : ¬ (x ≤ y ∧ y < x + 2 * ptrSize) := fun h => hy (.inr ⟨x, ham x hxm, h⟩)
        rw [set_out (by omega), set_out (by omega)]
      · refine ⟨setL h.reg rfl, regs, fun q hq => h.sep q (habm q hq), hap', ?_, ?_, ?_⟩
        · have : (a ++ []).head?.getD 0 = R s t := by rw [hx, hxa]; rfl
          rw [this]
          wr
        · rw [List.append_nil, ha, nx_append]
          refine ⟨hna.congr fun q hq => ?_, ?_, trivial⟩
          · have hqa : q ∈ a := by rw [ha]; simp [hq]
            have h2 := hza0 q hq
            have h3 := h.off (ham q hqa) (ham x hxm)
            unfold Off at h2 h3
            wr
          · show _ = 0
            wr
        · rw [List.append_nil, hgl, hxa]
          refine ⟨by wr, hva'.congr fun q hq => ?_⟩
          have hqa : q ∈ a := by rw [hxa]; simp [hq]
          have h1 := h.off (ham q hqa) hzl
          have h2 := hap2 q hq
          unfold Off at h1 h2
          wr

theorem run_concat (hw : Ok s) {u : Nat} {m : List Nat} (h : Rep s t l) (hu : Rep s u m)
    (htm : ∀ p ∈ m, p + 3 * ptrSize ≤ t ∨ t + ptrSize ≤ p) (hlm : ∀ p ∈ l, ∀ q ∈ m, Off p q) :
    ∃ s', run ext "tommy_list_concat" [pList t, pList u] ⟨s, ms, log⟩ = some (⟨.void, 0⟩, ⟨s', ms, log⟩) ∧
      Did s t (l ++ m) (fun x => links t l x ∨ links u m x) s' := by
  have hp := pos_ptr
  have hhd := h.hd
  have hhu := hu.hd
  cases m with
  | nil =>
    have hhu : R s u = 0 := hhu
    refine ⟨s, ?_, hw, rfl, fun _ _ => rfl, by rw [List.append_nil]; exact h⟩
    unfold pList
    rw [run_list_concat]
    unfold blistConcat
    rw [bind_assoc, get_step hu.reg hhu, if_pos rfl]
    rfl
  | cons y m =>
    have hhu : R s u = y := hhu
    obtain ⟨hy0, hylt⟩ := hu.ne0 hw (p := y) (by simp)
    have hyr := hu.node y (by simp)
    have hyt := htm y (by simp)
    cases l with
    | nil =>
      have hhd : R s t = 0 := hhd
      refine ⟨setW s t ptrSize y, ?_, ok_set hw _ _ _, rfl, fun x hx => ?_, ?_⟩
      · unfold pList
        rw [run_list_concat]
        unfold blistConcat
        rw [bind_assoc, get_step hu.reg hhu, if_neg hy0, bind_assoc, get_step h.reg hhd, if_pos rfl, bind_assoc, set_step h.reg]
        rfl
      · have h1 : ¬ (t ≤ x ∧ x < t + ptrSize) := fun h => hx (.inl (.inl h))
        exact set_out (by omega)
      · refine ⟨setL h.reg rfl, fun p hp => setL (hu.node p hp) rfl, htm, hu.apart, R_set hylt, hu.nx.congr fun p hp => ?_, hu.pv.congr fun p hp => ?_⟩
        · have := htm p hp
          wr
        · have := htm p hp
          wr
    | cons x l =>
      have hhd : R s t = x := hhd
      obtain ⟨hx0, hxlt⟩ := h.ne0 hw (p := x) (by simp)
      have hxr := h.node x (by simp)
      have hxs := h.sep x (by simp)
      have hxy := hlm x (by simp) y (by simp)
      obtain ⟨l0, L, hl0⟩ : ∃ l0 L, x :: l = l0 ++ [L] := by
        rcases List.eq_nil_or_concat (x :: l) with e | ⟨l0, L, e⟩
        · cases e
        · exact ⟨l0, L, by rw [e, List.concat_eq_append]⟩
      have hlast : ∀ e, (x :: l).getLast?.getD e = L := by intro e; rw [hl0]; simp
      have hLl : L ∈ x :: l := by rw [hl0]; simp
      obtain ⟨hL0, hLlt⟩ := h.ne0 hw hLl
      have hLr := h.node L hLl
      have hLs := h.sep L hLl
      have hLy := hlm L hLl y (by simp)
      have hxL := h.off (p := x) (by simp) hLl
      unfold Off at hxy hLy hxL
      have hpv := h.pv
      rw [hlast] at hpv
      obtain ⟨hla, hpv⟩ := hpv
      have hnx := h.nx
      rw [hl0, nx_append] at hnx
      obtain ⟨hnx, hnL, _⟩ := hnx
      have hap := h.apart
      rw [hl0] at hap
      have hap := (List.pairwise_append.1 hap).2.2
      have hap2 := (List.pairwise_cons.1 h.apart).1
      have hap3 := (List.pairwise_cons.1 hu.apart).1
      have hpm := hu.pv
      obtain ⟨hma, hpm⟩ := hpm
      have hMl : (x :: l ++ y :: m).getLast?.getD 0 = (y :: m).getLast?.getD 0 := by simp [List.getLast?_append, List.getLast?_cons]
      have hMlt : (y :: m).getLast?.getD 0 < 2 ^ sizeBit := by rw [← hma]; exact R_lt hw
      generalize (y :: m).getLast?.getD 0 = M at hma hMl hMlt
      refine ⟨setW (setW (setW s (x + ptrSize) ptrSize M) (y + ptrSize) ptrSize L) L ptrSize y, ?_, ok_set (ok_set (ok_set hw _ _ _) _ _ _) _ _ _, rfl,
        fun z hz => ?_, ?_⟩
      · unfold pList
        rw [run_list_concat]
        unfold blistConcat
        rw [bind_assoc, get_step hu.reg hhu, if_neg hy0, bind_assoc, get_step h.reg hhd, if_neg hx0]
        simp only [nodPrev, nodNext, Nat.add_zero, bind_assoc]
        unfold nodeSize at hxr hyr hLr
        rw [get_step (p := x + ptrSize) (hxr.sub (by omega) (by omega)) hla, get_step (p := y + ptrSize) (hyr.sub (by omega) (by omega)) hma,
          set_step, set_step, set_step]
        all_goals first | rfl | exact setL (hxr.sub (by omega) (by omega)) rfl | exact setL (hyr.sub (by omega) (by omega)) rfl |
          exact setL (hLr.sub (by omega) (by omega)) rfl
      · have h1 : ¬ (x ≤ z ∧ z < x + 2 * ptrSize) := fun h => hz (.inl (.inr ⟨x, by simp, h⟩))
        have h2 : ¬ (L ≤ z ∧ z < L + 2 * ptrSize) := fun h => hz (.inl (.inr ⟨L, hLl, h⟩))
        have h3 : ¬ (y ≤ z ∧ z < y + 2 * ptrSize) := fun h => hz (.inr (.inr ⟨y, by simp, h⟩))
        rw [set_out (by omega), set_out (by omega), set_out (by omega)]
      · refine ⟨setL h.reg rfl, ?_, ?_, List.pairwise_append.2 ⟨h.apart, hu.apart, hlm⟩, ?_, nx_append.2 ⟨?_, ?_⟩, ?_⟩
        · intro p hp
          rcases List.mem_append.1 hp with hp | hp
          · exact setL (h.node p hp) rfl
          · exact setL (hu.node p hp) rfl
        · intro p hp
          rcases List.mem_append.1 hp with hp | hp
          · exact h.sep p hp
          · exact htm p hp
        · show _ = x
          rw [← hhd]
          wr
        · rw [hl0, nx_append]
          refine ⟨hnx.congr fun p hp => ?_, ?_, trivial⟩
          · have hpl : p ∈ x :: l := by rw [hl0]; simp [hp]
            have h1 := h.off (q := x) hpl (by simp)
            have h2 := hap p hp L (by simp)
            have h3 := hlm p hpl y (by simp)
            unfold Off at h1 h2 h3
            wr
          · show _ = y
            wr
        · refine hu.nx.congr fun p hp => ?_
          have h1 := hlm x (by simp) p hp
          have h2 := hlm L hLl p hp
          have h3 := hu.off (q := y) hp (by simp)
          unfold Off at h1 h2 h3
          wr
        · rw [hMl, pv_append, hlast]
          refine ⟨⟨by wr, hpv.congr fun p hp => ?_⟩, by wr, hpm.congr fun p hp => ?_⟩
          · have hpl : p ∈ x :: l := by simp [hp]
            have h1 := h.off hpl hLl
            have h2 := hap2 p hp
            have h3 := hlm p hpl y (by simp)
            unfold Off at h1 h2 h3
            wr
          · have h1 := hlm x (by simp) p (by simp [hp])
            have h2 := hlm L hLl p (by simp [hp])
            have h3 := hap3 p hp
            unfold Off at h1 h2 h3
            wr

end

end Tommy.CLs
