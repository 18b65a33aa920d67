import Verif.Spec.CArray
import Verif.Proof.CLin
import Mathlib.Data.Finset.Card
import Mathlib.Order.Interval.Finset.Nat
import Mathlib.Algebra.BigOperators.Group.Finset.Basic
import Mathlib.Algebra.Order.BigOperators.Group.Finset
/-! The arrays in the memory of bytes: the memory, the allocations, and the segments. -/
set_option autoImplicit false
set_option linter.unusedSectionVars false
namespace Tommy.CArr
open CArraySpec AllocSpec
open HashFlat hiding Fresh
variable [Arch]

/-! ### Steps -/

/-- `v` written at `p`. -/
def setW (w : AMem) (p n v : Nat) : AMem := { w with byte := wrN w.byte p n v }

/-- `n` bytes allocated at `b` with calloc(). -/
def calW (w : AMem) (b n : Nat) : AMem :=
  { live := upd w.live b (some n), byte := fun x => if b ≤ x ∧ x < b + n then 0 else w.byte x }

theorem _root_.Tommy.CArraySpec.InReg.acc {w : AMem} {p n : Nat} (h : InReg w p n) : w.acc p n = true := by
  obtain ⟨b, k, h1, h2, h3⟩ := h
  exact acc_of h1 h2 h3

theorem _root_.Tommy.CArraySpec.InReg.sub {w : AMem} {p n q k : Nat} (h : InReg w p n) (h1 : p ≤ q) (h2 : q + k ≤ p + n) : InReg w q k := by
  obtain ⟨b, m, h3, h4, h5⟩ := h
  exact ⟨b, m, h3, by omega, by omega⟩

section
variable {α : Type} {w : AMem} {ms : List (Nat × (Nat → Nat))} {log : List BEvent}

theorem get_step {p v : Nat} {f : Nat → BM α} (ha : InReg w p ptrSize) (hv : rdN w.byte p ptrSize = v) :
    (bget p >>= f) ⟨w, ms, log⟩ = f v ⟨w, ms, log⟩ := by
  refine C.get_known ?_
  unfold bget bgetN
  rw [if_pos (by exact ha.acc), ← hv]

theorem get32_step {p v : Nat} {f : Nat → BM α} (ha : InReg w p 4) (hv : rdN w.byte p 4 = v) :
    (bget32 p >>= f) ⟨w, ms, log⟩ = f v ⟨w, ms, log⟩ := by
  have : bget32 p ⟨w, ms, log⟩ = some (v, ⟨w, ms, log⟩) := by
    unfold bget32 bgetN
    rw [if_pos (by exact ha.acc), ← hv]
  show (bget32 p _).bind _ = _
  rw [this]; rfl

theorem set_step {p v : Nat} {f : Unit → BM α} (ha : InReg w p ptrSize) :
    (bset p v >>= f) ⟨w, ms, log⟩ = f () ⟨setW w p ptrSize v, ms, log⟩ := by
  have : bset p v ⟨w, ms, log⟩ = some ((), ⟨setW w p ptrSize v, ms, log⟩) := by
    unfold bset bsetN
    rw [if_pos (by exact ha.acc)]; rfl
  show (bset p v _).bind _ = _
  rw [this]; rfl

theorem set32_step {p v : Nat} {f : Unit → BM α} (ha : InReg w p 4) :
    (bset32 p v >>= f) ⟨w, ms, log⟩ = f () ⟨setW w p 4 v, ms, log⟩ := by
  have : bset32 p v ⟨w, ms, log⟩ = some ((), ⟨setW w p 4 v, ms, log⟩) := by
    unfold bset32 bsetN
    rw [if_pos (by exact ha.acc)]; rfl
  show (bset32 p v _).bind _ = _
  rw [this]; rfl

theorem calloc_step {n k : Nat} {m : Nat × (Nat → Nat)} {f : Nat → BM α} :
    (hbcalloc n k >>= f) ⟨w, m :: ms, log⟩ = f m.1 ⟨calW w m.1 (n * k), ms, log ++ [.got m.1 (n * k)]⟩ := by
  have : hbcalloc n k ⟨w, m :: ms, log⟩ = some (m.1, ⟨calW w m.1 (n * k), ms, log ++ [.got m.1 (n * k)]⟩) := by
    unfold hbcalloc
    show (bzero m.1 (n * k) ⟨⟨_, _⟩, ms, _⟩).bind _ = _
    unfold bzero
    rw [if_pos (acc_of (upd_same _ _ _) (Nat.le_refl _) (Nat.le_refl _))]
    show some (m.1, BMem.mk ⟨_, _⟩ _ _) = _
    unfold calW
    congr 4
    funext x
    dsimp only
    split
    · rfl
    · rfl
  show (hbcalloc n k _).bind _ = _
  rw [this]; rfl

theorem free_step {p : Nat} {n : Nat} {f : Unit → BM α} (h : w.live p = some n) :
    (bfree p >>= f) ⟨w, ms, log⟩ = f () ⟨{ w with live := upd w.live p none }, ms, log ++ [.gave p]⟩ := by
  have : bfree p ⟨w, ms, log⟩ = some ((), ⟨{ w with live := upd w.live p none }, ms, log ++ [.gave p]⟩) := by
    unfold bfree
    rw [if_pos (by simp [h])]
  show (bfree p _).bind _ = _
  rw [this]; rfl

theorem shl_step {n : Nat} {f : Nat → BM α} (h : n < sizeBit) : (bshl n >>= f) ⟨w, ms, log⟩ = f (2 ^ n) ⟨w, ms, log⟩ := by
  have : bshl n ⟨w, ms, log⟩ = some (2 ^ n, ⟨w, ms, log⟩) := by
    unfold bshl; rw [if_pos h]
  show (bshl n _).bind _ = _
  rw [this]; rfl

theorem shlS_step {n : Nat} {f : Nat → BM α} (h : n + 1 < sizeBit) : (bshlS n >>= f) ⟨w, ms, log⟩ = f (2 ^ n) ⟨w, ms, log⟩ := by
  have : bshlS n ⟨w, ms, log⟩ = some (2 ^ n, ⟨w, ms, log⟩) := by
    unfold bshlS; rw [if_pos h]
  show (bshlS n _).bind _ = _
  rw [this]; rfl

end

/-! ### The memory -/

theorem rd_set {w : AMem} {p n v : Nat} (h : v < 2 ^ (8 * n)) : rdN (setW w p n v).byte p n = v := rdN_wrN h
theorem rd_set_out {w : AMem} {p n v q k : Nat} (h : q + k ≤ p ∨ p + n ≤ q) : rdN (setW w p n v).byte q k = rdN w.byte q k := rdN_wrN_out h
theorem set_out {w : AMem} {p n v x : Nat} (h : x < p ∨ p + n ≤ x) : (setW w p n v).byte x = w.byte x := wrN_out h
theorem set_live (w : AMem) (p n v : Nat) : (setW w p n v).live = w.live := rfl
theorem cal_out {w : AMem} {b n x : Nat} (h : x < b ∨ b + n ≤ x) : (calW w b n).byte x = w.byte x := if_neg (by omega)
theorem cal_in {w : AMem} {b n x : Nat} (h1 : b ≤ x) (h2 : x < b + n) : (calW w b n).byte x = 0 := if_pos ⟨h1, h2⟩
theorem rd_cal_out {w : AMem} {b n q k : Nat} (h : q + k ≤ b ∨ b + n ≤ q) : rdN (calW w b n).byte q k = rdN w.byte q k :=
  rdN_congr fun x h1 h2 => cal_out (by omega)

theorem ok_set {w : AMem} (h : Ok w) (p n v : Nat) : Ok (setW w p n v) := ⟨wrN_lt h.byte, h.pos, h.reg⟩

theorem ok_cal {w : AMem} (h : Ok w) {b n : Nat} (hf : Fresh w.live b n) : Ok (calW w b n) where
  byte x := by
    unfold calW
    dsimp only
    split
    · decide
    · exact h.byte x
  pos b' n' e := by
    change upd w.live b (some n) b' = some n' at e
    by_cases hb : b' = b
    · subst hb; rw [upd_same] at e; cases e; exact ⟨hf.pos, hf.lt⟩
    · rw [upd_ne hb] at e; exact h.pos b' n' e
  reg b1 n1 b2 n2 e1 e2 hne := by
    change upd w.live b (some n) b1 = some n1 at e1
    change upd w.live b (some n) b2 = some n2 at e2
    by_cases hb : b1 = b
    · subst hb; rw [upd_same] at e1; cases e1
      rw [upd_ne (Ne.symm hne)] at e2
      exact hf.sep b2 n2 e2
    · rw [upd_ne hb] at e1
      by_cases hb2 : b2 = b
      · subst hb2; rw [upd_same] at e2; cases e2
        exact (hf.sep b1 n1 e1).symm
      · rw [upd_ne hb2] at e2
        exact h.reg b1 n1 b2 n2 e1 e2 hne

theorem _root_.Tommy.CArraySpec.InReg.cal {w : AMem} {p k b n : Nat} (hf : Fresh w.live b n) (h : InReg w p k) : InReg (calW w b n) p k := by
  obtain ⟨c, m, h1, h2, h3⟩ := h
  refine ⟨c, m, ?_, h2, h3⟩
  show upd w.live b (some n) c = some m
  rw [upd_ne]
  · exact h1
  · rintro rfl; rw [hf.none] at h1; cases h1

theorem _root_.Tommy.CArraySpec.InReg.fresh {w : AMem} {p k b n : Nat} (hf : Fresh w.live b n) (h : InReg w p k) : p + k ≤ b ∨ b + n ≤ p := by
  obtain ⟨c, m, h1, h2, h3⟩ := h
  have := hf.sep c m h1
  omega

theorem _root_.Tommy.CArraySpec.InReg.setL {w w' : AMem} {p k : Nat} (e : w'.live = w.live) (h : InReg w p k) : InReg w' p k := by
  obtain ⟨c, m, h1, h2, h3⟩ := h
  exact ⟨c, m, e ▸ h1, h2, h3⟩

/-! ### The sum of the regions -/

/-- Different regions are less than the address space. -/
theorem sum_lt {w : AMem} (h : Ok w) : ∀ (L : List (Nat × Nat)), (L.map Prod.fst).Nodup → (∀ r ∈ L, w.live r.1 = some r.2) →
    (L.map Prod.snd).sum < 2 ^ sizeBit := by
  intro L hn hl
  have key : ∃ s : Finset Nat, s.card = (L.map Prod.snd).sum ∧ ∀ x ∈ s, ∃ r ∈ L, r.1 ≤ x ∧ x < r.1 + r.2 := by
    induction L with
    | nil => exact ⟨∅, rfl, by simp⟩
    | cons r L ih =>
      rw [List.map_cons, List.nodup_cons] at hn
      obtain ⟨s, h1, h2⟩ := ih hn.2 fun x hx => hl x (List.mem_cons_of_mem _ hx)
      refine ⟨Finset.Ico r.1 (r.1 + r.2) ∪ s, ?_, ?_⟩
      · rw [Finset.card_union_of_disjoint, h1, Nat.card_Ico]
        · simp
        · rw [Finset.disjoint_left]
          intro x hx hx'
          rw [Finset.mem_Ico] at hx
          obtain ⟨q, hq, h3, h4⟩ := h2 x hx'
          have := h.reg _ _ _ _ (hl r (List.mem_cons_self ..)) (hl q (List.mem_cons_of_mem _ hq))
            (fun e => hn.1 (e ▸ List.mem_map_of_mem hq))
          omega
      · intro x hx
        rw [Finset.mem_union, Finset.mem_Ico] at hx
        rcases hx with hx | hx
        · exact ⟨r, List.mem_cons_self .., hx⟩
        · obtain ⟨q, hq, h3⟩ := h2 x hx
          exact ⟨q, List.mem_cons_of_mem _ hq, h3⟩
  obtain ⟨s, h1, h2⟩ := key
  rw [← h1]
  have hs : s ⊆ Finset.Ico 1 (2 ^ sizeBit) := by
    intro x hx
    obtain ⟨r, hr, h3, h4⟩ := h2 x hx
    have := h.pos _ _ (hl r hr)
    rw [Finset.mem_Ico]; omega
  have := Finset.card_le_card hs
  rw [Nat.card_Ico] at this
  have := C.pow_pos'
  omega

/-! ### Allocations -/

theorem given_len : ∀ {ns : List Nat} {live : Nat → Option Nat} {ms : List (Nat × (Nat → Nat))}, Given live ns ms → ms.length = ns.length := by
  intro ns
  induction ns with
  | nil => intro live ms h; cases ms with
    | nil => rfl
    | cons m ms => exact h.elim
  | cons n ns ih => intro live ms h; cases ms with
    | nil => exact h.elim
    | cons m ms => rw [List.length_cons, List.length_cons, ih h.2.2]

theorem given_app : ∀ {ns ns' : List Nat} {live : Nat → Option Nat} {ms : List (Nat × (Nat → Nat))}, Given live (ns ++ ns') ms →
    ∃ m1 m2, ms = m1 ++ m2 ∧ Given live ns m1 ∧ Given (addRegs live (regs ns m1)) ns' m2 := by
  intro ns
  induction ns with
  | nil => intro ns' live ms h; exact ⟨[], ms, rfl, trivial, h⟩
  | cons n ns ih => intro ns' live ms h; cases ms with
    | nil => exact h.elim
    | cons m ms =>
      obtain ⟨m1, m2, rfl, h1, h2⟩ := ih h.2.2
      exact ⟨m :: m1, m2, rfl, ⟨h.1, h.2.1, h1⟩, h2⟩

theorem addRegs_app (L L' : List (Nat × Nat)) : ∀ live, addRegs live (L ++ L') = addRegs (addRegs live L) L' := by
  induction L with
  | nil => intro live; rfl
  | cons r L ih => intro live; exact ih _

theorem regs_app {ns ns' : List Nat} {m1 m2 : List (Nat × (Nat → Nat))} (h : m1.length = ns.length) :
    regs (ns ++ ns') (m1 ++ m2) = regs ns m1 ++ regs ns' m2 := by
  unfold regs
  exact List.zipWith_append h.symm

/-- The live regions, disjoint and in the address space. -/
structure LOk (live : Nat → Option Nat) : Prop where
  pos : ∀ b n, live b = some n → 0 < b ∧ b + n < 2 ^ sizeBit
  reg : ∀ b n b' n', live b = some n → live b' = some n' → b ≠ b' → b + n ≤ b' ∨ b' + n' ≤ b

/-- What was live is still, the regions are live, different, and not the ones that were live. -/
theorem given_add : ∀ {ns : List Nat} {live : Nat → Option Nat} {ms : List (Nat × (Nat → Nat))}, LOk live → Given live ns ms →
    LOk (addRegs live (regs ns ms)) ∧ (∀ b n, live b = some n → addRegs live (regs ns ms) b = some n) ∧
    (∀ r ∈ regs ns ms, addRegs live (regs ns ms) r.1 = some r.2 ∧ ∀ b n, live b = some n → r.1 + r.2 ≤ b ∨ b + n ≤ r.1) ∧
    (∀ r ∈ regs ns ms, live r.1 = none) ∧ ((regs ns ms).map Prod.fst).Nodup := by
  intro ns
  induction ns with
  | nil => intro live ms hl h; exact ⟨hl, fun _ _ h => h, by simp [regs], by simp [regs], by simp [regs]⟩
  | cons n ns ih => intro live ms hl h; cases ms with
    | nil => exact h.elim
    | cons m ms =>
      obtain ⟨hf, -, h⟩ := h
      have hl' : LOk (upd live m.1 (some n)) := by
        have := ok_cal (w := ⟨fun _ => 0, live⟩) ⟨fun _ => show 0 < 256 by decide, hl.pos, hl.reg⟩ hf
        exact ⟨this.pos, this.reg⟩
      obtain ⟨h1, h2, h3, h4, h5⟩ := ih hl' h
      have up : ∀ b k, live b = some k → upd live m.1 (some n) b = some k := by
        intro b k e
        rw [upd_ne]
        · exact e
        · rintro rfl; rw [hf.none] at e; cases e
      refine ⟨h1, fun b k e => h2 b k (up b k e), ?_, ?_, ?_⟩
      · intro r hr
        change r ∈ (m.1, n) :: regs ns ms at hr
        rw [List.mem_cons] at hr
        rcases hr with rfl | hr
        · exact ⟨h2 _ _ (upd_same _ _ _), fun b k e => hf.sep b k e⟩
        · exact ⟨(h3 r hr).1, fun b k e => (h3 r hr).2 b k (up b k e)⟩
      · intro r hr
        change r ∈ (m.1, n) :: regs ns ms at hr
        rw [List.mem_cons] at hr
        rcases hr with rfl | hr
        · exact hf.none
        · have := h4 r hr
          unfold upd at this
          split at this
          · cases this
          · exact this
      · show (m.1 :: (regs ns ms).map Prod.fst).Nodup
        rw [List.nodup_cons]
        refine ⟨?_, h5⟩
        rw [List.mem_map]
        rintro ⟨r, hr, e⟩
        have := h4 r hr
        rw [e, upd_same] at this
        cases this

end Tommy.CArr
