import Verif.Model.HashFlat
import Verif.Model.Hashlin
import Verif.Model.Hashtable
import Verif.Proof.AllocMem
import Verif.Proof.Mem
import Verif.Proof.SortErase
import Mathlib.Tactic.Positivity
import Mathlib.Tactic.Ring
/-! The typed memory of the hashtables represented by the bytes of the memory. -/
set_option linter.unusedSimpArgs false
set_option linter.unusedVariables false
namespace Tommy

variable [Arch]
namespace HashFlat
open AllocSpec (acc_of acc_iff rdN_congr rdN_bytes)

/-! ### Numbers in memory -/

omit [Arch] in
theorem wrN_out {f : Nat → Nat} {p n v x : Nat} (h : x < p ∨ p + n ≤ x) : wrN f p n v x = f x := by
  unfold wrN; rw [if_neg (by omega)]

omit [Arch] in
theorem wrN_lt {f : Nat → Nat} {p n v : Nat} (h : ∀ x, f x < 256) (x : Nat) : wrN f p n v x < 256 := by
  unfold wrN
  split
  · omega
  · exact h x

omit [Arch] in
theorem rdN_wrN {f : Nat → Nat} {p n v : Nat} (h : v < 2 ^ (8 * n)) : rdN (wrN f p n v) p n = v := by
  have key : ∀ i, i < n → wrN f p n v (p + i) = v / 2 ^ (8 * i) % 256 := fun i hi => by
    unfold wrN; rw [if_pos (by omega), show p + i - p = i by omega]
  rw [rdN_bytes key, Nat.mod_eq_of_lt h]

omit [Arch] in
theorem rdN_wrN_out {f : Nat → Nat} {p n v q k : Nat} (h : q + k ≤ p ∨ p + n ≤ q) : rdN (wrN f p n v) q k = rdN f q k :=
  rdN_congr fun x h1 h2 => wrN_out (by omega)

omit [Arch] in
theorem rdN_bound {f : Nat → Nat} (h : ∀ x, f x < 256) : ∀ n p, rdN f p n < 2 ^ (8 * n) := by
  intro n
  induction n with
  | zero => intro p; simp [rdN]
  | succ n ih =>
    intro p
    have h0 := h p
    have h1 := ih (p + 1)
    simp only [rdN]
    rw [show 8 * (n + 1) = 8 + 8 * n by omega, Nat.pow_add]
    omega

omit [Arch] in
theorem rdN_zero {f : Nat → Nat} : ∀ n p, (∀ x, p ≤ x → x < p + n → f x = 0) → rdN f p n = 0 := by
  intro n
  induction n with
  | zero => intro p _; rfl
  | succ n ih =>
    intro p h
    simp only [rdN]
    rw [h p (by omega) (by omega), ih (p + 1) fun x h1 h2 => h x (by omega) (by omega)]

theorem pow_size : 2 ^ (8 * ptrSize) = 2 ^ sizeBit := by
  congr 1; arch

/-! ### The objects -/

/-- The numbers in the memory: the fields of the nodes, the cells of the vectors, and the rest: the fields of the structs and the
    bytes of the program. -/
inductive Obj
  | next (p : Nat)
  | prev (p : Nat)
  | data (p : Nat)
  | index (p : Nat)
  | cell (v i : Nat)
  | fld (x n : Nat)
deriving DecidableEq

/-- `F x n` is `some c` if there is a number of `n` bytes at the address `x`, with value `c` if `c` is not `none`. -/
abbrev Fld := Nat → Nat → Option (Option Nat)

def Fld.set (F : Fld) (x n v : Nat) : Fld := fun x' n' => if x' = x ∧ n' = n then some (some v) else F x' n'

omit [Arch] in
theorem Fld.set_same (F : Fld) (x n v : Nat) : F.set x n v x n = some (some v) := by simp [Fld.set]

omit [Arch] in
theorem Fld.set_ne {F : Fld} {x n v x' n' : Nat} (h : x' ≠ x ∨ n' ≠ n) : F.set x n v x' n' = F x' n' := by
  unfold Fld.set; rw [if_neg]; rintro ⟨rfl, rfl⟩; rcases h with h | h <;> exact h rfl

omit [Arch] in
theorem Fld.set_dom {F : Fld} {x n v : Nat} (h : F x n ≠ none) (x' n' : Nat) : F.set x n v x' n' = none ↔ F x' n' = none := by
  unfold Fld.set
  split
  next e => obtain ⟨rfl, rfl⟩ := e; simp [h]
  · rfl

/-- The object exists. -/
def dom (F : Fld) (m : Mem) : Obj → Prop
  | .next p | .prev p | .data p | .index p => m.heap.ok p
  | .cell v i => ∃ n, m.vlen v = some n ∧ i < n
  | .fld x n => F x n ≠ none

/-- Its address; `φ v` is the address of the vector `v`. -/
def adr (φ : Nat → Nat) : Obj → Nat
  | .next p => p + nodNext
  | .prev p => p + nodPrev
  | .data p => p + nodData
  | .index p => p + nodIndex
  | .cell v i => φ v + ptrSize * i
  | .fld x _ => x

def siz : Obj → Nat
  | .fld _ n => n
  | _ => ptrSize

/-- Its value, if it is defined. -/
def val (F : Fld) (m : Mem) : Obj → Option Nat
  | .next p => some (m.heap.next p)
  | .prev p => some (m.heap.prev p)
  | .data p => some (m.heap.data p)
  | .index p => some (m.heap.index p)
  | .cell v i => m.vcell v i
  | .fld x n => (F x n).join

/-- The `n` bytes from `p` are in one region of the program. -/
def InE (env : Nat → Option Nat) (p n : Nat) : Prop := ∃ b k, env b = some k ∧ b ≤ p ∧ p + n ≤ b + k

omit [Arch] in
theorem InE.sub {env : Nat → Option Nat} {p n q k : Nat} (h : InE env p n) (h1 : p ≤ q) (h2 : q + k ≤ p + n) : InE env q k := by
  obtain ⟨b, m, h3, h4, h5⟩ := h
  exact ⟨b, m, h3, by omega, by omega⟩

/-- The bytes `w` represent the typed memory `m` and the numbers `F`. The regions of `w` are the ones of the program, `env`, and the
    vectors. -/
structure Rel (env : Nat → Option Nat) (F : Fld) (φ : Nat → Nat) (m : Mem) (w : AMem) : Prop where
  byte : ∀ x, w.byte x < 256
  live : ∀ b n, w.live b = some n ↔ env b = some n ∨ ∃ v k, m.vlen v = some k ∧ φ v = b ∧ n = ptrSize * k
  pos : ∀ b n, w.live b = some n → 0 < b ∧ b + n < 2 ^ sizeBit
  reg : ∀ b n b' n', w.live b = some n → w.live b' = some n' → b ≠ b' → b + n ≤ b' ∨ b' + n' ≤ b
  vinj : ∀ v v', m.vlen v ≠ none → m.vlen v' ≠ none → φ v = φ v' → v = v'
  venv : ∀ v, m.vlen v ≠ none → env (φ v) = none
  fresh : ∀ v, m.vnext ≤ v → m.vlen v = none
  node : ∀ p : Nat, m.heap.ok p → InE env p nodeSize
  nsep : ∀ p q : Nat, m.heap.ok p → m.heap.ok q → p ≠ q → p + nodeSize ≤ q ∨ q + nodeSize ≤ p
  fin : ∀ x n, F x n ≠ none → InE env x n
  fsep : ∀ x n x' n', F x n ≠ none → F x' n' ≠ none → (x ≠ x' ∨ n ≠ n') → x + n ≤ x' ∨ x' + n' ≤ x
  nfsep : ∀ p x n : Nat, m.heap.ok p → F x n ≠ none → p + nodeSize ≤ x ∨ x + n ≤ p
  val : ∀ o c, dom F m o → val F m o = some c → rdN w.byte (adr φ o) (siz o) = c

variable {env : Nat → Option Nat} {F : Fld} {φ : Nat → Nat} {m : Mem} {w : AMem}

theorem Rel.inE (h : Rel env F φ m w) {p n : Nat} (hi : InE env p n) : ∃ b k, w.live b = some k ∧ env b = some k ∧ b ≤ p ∧ p + n ≤ b + k := by
  obtain ⟨b, k, h1, h2, h3⟩ := hi
  exact ⟨b, k, (h.live b k).2 (.inl h1), h1, h2, h3⟩

theorem Rel.vec (h : Rel env F φ m w) {v n : Nat} (hv : m.vlen v = some n) : w.live (φ v) = some (ptrSize * n) :=
  (h.live _ _).2 (.inr ⟨v, n, hv, rfl, rfl⟩)

/-- The region of an object. -/
def home (env : Nat → Option Nat) (F : Fld) (φ : Nat → Nat) (m : Mem) : Obj → Nat → Nat → Prop
  | .cell v _, b, n => ∃ k, m.vlen v = some k ∧ φ v = b ∧ n = ptrSize * k
  | _, b, n => env b = some n

theorem Rel.home (h : Rel env F φ m w) {o : Obj} (ho : dom F m o) :
    ∃ b n, HashFlat.home env F φ m o b n ∧ w.live b = some n ∧ b ≤ adr φ o ∧ adr φ o + siz o ≤ b + n := by
  have nd : ∀ p k : Nat, m.heap.ok p → k + ptrSize ≤ nodeSize → ∃ b n, env b = some n ∧ w.live b = some n ∧ b ≤ p + k ∧ p + k + ptrSize ≤ b + n := by
    intro p k hp hk
    obtain ⟨b, n, h1, h2, h3, h4⟩ := h.inE (h.node p hp)
    exact ⟨b, n, h2, h1, by omega, by omega⟩
  cases o with
  | next p => exact nd p _ ho (by archd)
  | prev p => exact nd p _ ho (by archd)
  | data p => exact nd p _ ho (by archd)
  | index p => exact nd p _ ho (by archd)
  | cell v i =>
    obtain ⟨n, h1, h2⟩ := ho
    refine ⟨φ v, ptrSize * n, ⟨n, h1, rfl, rfl⟩, h.vec h1, ?_, ?_⟩
    · simp only [adr]; omega
    · simp only [adr, siz]; arch
  | fld x n =>
    obtain ⟨b, k, h1, h2, h3, h4⟩ := h.inE (h.fin x n ho)
    exact ⟨b, k, h2, h1, h3, h4⟩

theorem Rel.acc (h : Rel env F φ m w) {o : Obj} (ho : dom F m o) : w.acc (adr φ o) (siz o) = true := by
  obtain ⟨b, n, _, h1, h2, h3⟩ := h.home ho
  exact acc_of h1 h2 h3

/-- The field of a node: the node and the offset. -/
def nodeOf : Obj → Option (Nat × Nat)
  | .next p => some (p, nodNext)
  | .prev p => some (p, nodPrev)
  | .data p => some (p, nodData)
  | .index p => some (p, nodIndex)
  | _ => none

theorem nodeOf_spec {o : Obj} {p k : Nat} (e : nodeOf o = some (p, k)) : adr φ o = p + k ∧ siz o = ptrSize ∧ k + ptrSize ≤ nodeSize ∧
    (dom F m o ↔ m.heap.ok p) ∧ (k = nodNext ∨ k = nodPrev ∨ k = nodData ∨ k = nodIndex) := by
  cases o <;> simp only [nodeOf, Option.some.injEq, Prod.mk.injEq, reduceCtorEq] at e <;> obtain ⟨rfl, rfl⟩ := e <;>
    refine ⟨rfl, rfl, by archd, Iff.rfl, by simp⟩

theorem offs_apart {k k' : Nat} (h : k = nodNext ∨ k = nodPrev ∨ k = nodData ∨ k = nodIndex)
    (h' : k' = nodNext ∨ k' = nodPrev ∨ k' = nodData ∨ k' = nodIndex) (hn : k ≠ k') : k + ptrSize ≤ k' ∨ k' + ptrSize ≤ k := by
  unfold nodNext nodPrev nodData nodIndex at *
  arch

theorem nodeOf_inj {o o' : Obj} {x : Nat × Nat} (h : nodeOf o = some x) (h' : nodeOf o' = some x) : o = o' := by
  have d1 : nodNext ≠ nodPrev := by archd
  have d2 : nodNext ≠ nodData := by archd
  have d3 : nodNext ≠ nodIndex := by archd
  have d4 : nodPrev ≠ nodData := by archd
  have d5 : nodPrev ≠ nodIndex := by archd
  have d6 : nodData ≠ nodIndex := by archd
  cases o <;> cases o' <;> simp only [nodeOf, Option.some.injEq, reduceCtorEq] at h h' <;> subst h <;>
    simp_all [eq_comm]

/-- Different objects do not overlap. -/
theorem Rel.sep (h : Rel env F φ m w) {o o' : Obj} (ho : dom F m o) (ho' : dom F m o') (hne : o ≠ o') :
    adr φ o + siz o ≤ adr φ o' ∨ adr φ o' + siz o' ≤ adr φ o := by
  obtain ⟨b, n, g1, g2, g3, g4⟩ := h.home ho
  obtain ⟨b', n', g1', g2', g3', g4'⟩ := h.home ho'
  by_cases hb : b = b'
  swap
  · have := h.reg b n b' n' g2 g2' hb
    omega
  subst hb
  have cc : ∀ v i o', dom F m (.cell v i) → dom F m o' → HashFlat.home env F φ m (.cell v i) b n → HashFlat.home env F φ m o' b n' →
      Obj.cell v i ≠ o' → adr φ (.cell v i) + siz (.cell v i) ≤ adr φ o' ∨ adr φ o' + siz o' ≤ adr φ (.cell v i) := by
    intro v i o' h1 h2 h3 h4 h5
    obtain ⟨k, h6, h7, _⟩ := h3
    have hv := h.venv v (by simp [h6])
    rw [h7] at hv
    cases o' with
    | cell v' i' =>
      obtain ⟨k', h6', h7', _⟩ := h4
      have := h.vinj v v' (by simp [h6]) (by simp [h6']) (h7.trans h7'.symm)
      subst this
      simp only [adr, siz]
      have : i ≠ i' := fun e => h5 (by rw [e])
      arch
    | _ => simp only [HashFlat.home] at h4; rw [hv] at h4; cases h4
  have nn : ∀ o o' p k, nodeOf o = some (p, k) → dom F m o → dom F m o' → o ≠ o' → (∀ v i, o' ≠ .cell v i) →
      adr φ o + siz o ≤ adr φ o' ∨ adr φ o' + siz o' ≤ adr φ o := by
    intro o o' p k e h1 h2 h3 h4
    obtain ⟨e1, e2, e3, e4, e5⟩ := nodeOf_spec (F := F) (φ := φ) (m := m) e
    rw [e4] at h1
    rw [e1, e2]
    cases e' : nodeOf o' with
    | some x =>
      obtain ⟨p', k'⟩ := x
      obtain ⟨e1', e2', e3', e4', e5'⟩ := nodeOf_spec (F := F) (φ := φ) (m := m) e'
      rw [e4'] at h2
      rw [e1', e2']
      by_cases hp : p = p'
      · subst hp
        have : k ≠ k' := by rintro rfl; exact h3 (nodeOf_inj e e')
        have := offs_apart e5 e5' this
        omega
      · have := h.nsep p p' h1 h2 hp
        omega
    | none =>
      cases o' with
      | fld x n =>
        have := h.nfsep p x n h1 h2
        simp only [adr, siz]
        omega
      | cell v i => exact absurd rfl (h4 v i)
      | _ => simp [nodeOf] at e'
  by_cases hc : ∃ v i, o = .cell v i
  · obtain ⟨v, i, rfl⟩ := hc
    exact cc v i o' ho ho' g1 g1' hne
  by_cases hc' : ∃ v i, o' = .cell v i
  · obtain ⟨v, i, rfl⟩ := hc'
    have := h.reg
    have hx : HashFlat.home env F φ m (.cell v i) b n' := g1'
    obtain ⟨k, h6, h7, _⟩ := hx
    have hv := h.venv v (by simp [h6])
    rw [h7] at hv
    cases o with
    | cell v i => exact absurd ⟨v, i, rfl⟩ hc
    | _ => simp only [HashFlat.home] at g1; rw [hv] at g1; cases g1
  cases e : nodeOf o with
  | some x => exact nn o o' x.1 x.2 e ho ho' hne (fun v i e => hc' ⟨v, i, e⟩)
  | none =>
    cases e' : nodeOf o' with
    | some x => exact (nn o' o x.1 x.2 e' ho' ho hne.symm (fun v i e => hc ⟨v, i, e⟩)).symm
    | none =>
      cases o with
      | cell v i => exact absurd ⟨v, i, rfl⟩ hc
      | fld x n =>
        cases o' with
        | cell v i => exact absurd ⟨v, i, rfl⟩ hc'
        | fld x' n' =>
          refine h.fsep x n x' n' ho ho' ?_
          by_contra hx
          apply hne
          have : x = x' ∧ n = n' := by omega
          rw [this.1, this.2]
        | _ => simp [nodeOf] at e'
      | _ => simp [nodeOf] at e

/-- Read. -/
theorem Rel.get (h : Rel env F φ m w) {o : Obj} {c : Nat} (ho : dom F m o) (hc : HashFlat.val F m o = some c) :
    rdN w.byte (adr φ o) (siz o) = c ∧ c < 2 ^ (8 * siz o) := by
  have := h.val o c ho hc
  exact ⟨this, this ▸ rdN_bound h.byte _ _⟩

/-- Write. -/
theorem Rel.set (h : Rel env F φ m w) {o : Obj} {c : Nat} (ho : dom F m o) (hc : c < 2 ^ (8 * siz o)) {F' : Fld} {m' : Mem}
    (hl : m'.vlen = m.vlen) (hn : m'.vnext = m.vnext) (hv : m'.heap.valid = m.heap.valid) (hF : ∀ x n, F' x n = none ↔ F x n = none)
    (hval : ∀ o' c', dom F m o' → HashFlat.val F' m' o' = some c' → (o' = o ∧ c' = c) ∨ (o' ≠ o ∧ HashFlat.val F m o' = some c')) :
    Rel env F' φ m' { w with byte := wrN w.byte (adr φ o) (siz o) c } := by
  have hok : ∀ p : Nat, m'.heap.ok p ↔ m.heap.ok p := fun p => by unfold Heap.ok; rw [hv]
  have hF' : ∀ x n, F' x n ≠ none ↔ F x n ≠ none := fun x n => not_congr (hF x n)
  have hd : ∀ o', dom F' m' o' ↔ dom F m o' := fun o' => by
    cases o' <;> simp only [dom, hok, hl, hF']
  exact
    { byte := wrN_lt h.byte
      live := by rw [hl]; exact h.live
      pos := h.pos
      reg := h.reg
      vinj := by rw [hl]; exact h.vinj
      venv := by rw [hl]; exact h.venv
      fresh := by rw [hl, hn]; exact h.fresh
      node := fun p hp => h.node p ((hok p).1 hp)
      nsep := fun p q hp hq => h.nsep p q ((hok p).1 hp) ((hok q).1 hq)
      fin := fun x n hx => h.fin x n ((hF' x n).1 hx)
      fsep := fun x n x' n' hx hx' => h.fsep x n x' n' ((hF' x n).1 hx) ((hF' x' n').1 hx')
      nfsep := fun p x n hp hx => h.nfsep p x n ((hok p).1 hp) ((hF' x n).1 hx)
      val := fun o' c' ho' hc' => by
        rcases hval o' c' ((hd o').1 ho') hc' with ⟨rfl, rfl⟩ | ⟨h1, h2⟩
        · exact rdN_wrN hc
        · simp only
          rw [rdN_wrN_out (h.sep ((hd o').1 ho') ho h1)]
          exact h.val o' c' ((hd o').1 ho') h2 }

/-! ### Addresses -/

/-- The address of a cell. -/
def aR (φ : Nat → Nat) (r : Ref) : Nat := (((φ r.vec : Int) + ptrSize * r.off) % 2 ^ sizeBit).toNat

theorem padd_aR (φ : Nat → Nat) (r : Ref) (i : Nat) : padd (aR φ r) i = aR φ (r.add i) := by
  unfold padd aR Ref.add
  have hp : (0 : Int) < 2 ^ sizeBit := by positivity
  have h0 := Int.emod_nonneg ((φ r.vec : Int) + ptrSize * r.off) (ne_of_gt hp)
  have h1 := Int.emod_nonneg ((φ r.vec : Int) + ptrSize * (r.off + i)) (ne_of_gt hp)
  apply Int.ofNat.inj
  simp only [Int.ofNat_eq_natCast]
  push_cast
  rw [Int.toNat_of_nonneg h0, Int.toNat_of_nonneg h1, Int.emod_add_emod]
  congr 1
  ring

theorem psub_aR (φ : Nat → Nat) (r : Ref) (i : Nat) : psub (aR φ r) i = aR φ (r.add (-(i : Int))) := by
  unfold psub aR Ref.add subT
  have hp : (0 : Int) < 2 ^ sizeBit := by positivity
  have h0 := Int.emod_nonneg ((φ r.vec : Int) + ptrSize * r.off) (ne_of_gt hp)
  have h1 := Int.emod_nonneg ((φ r.vec : Int) + ptrSize * (r.off + -(i : Int))) (ne_of_gt hp)
  have hlt : ptrSize * i % 2 ^ sizeBit ≤ 2 ^ sizeBit := Nat.le_of_lt (Nat.mod_lt _ (by positivity))
  apply Int.ofNat.inj
  simp only [Int.ofNat_eq_natCast]
  rw [Int.toNat_of_nonneg h1, Nat.add_sub_assoc hlt]
  push_cast [Nat.cast_sub hlt]
  rw [Int.toNat_of_nonneg h0]
  have e : ((φ r.vec : Int) + ptrSize * r.off) % 2 ^ sizeBit + (2 ^ sizeBit - (ptrSize * i : Int) % 2 ^ sizeBit) =
    ((φ r.vec : Int) + ptrSize * r.off) % 2 ^ sizeBit - (ptrSize * i : Int) % 2 ^ sizeBit + 2 ^ sizeBit := by ring
  rw [e, Int.add_emod_right, ← Int.sub_emod]
  congr 1
  ring

/-- The address of a cell inside of its vector. -/
theorem Rel.aR_eq (h : Rel env F φ m w) {r : Ref} {n : Nat} (hv : m.vlen r.vec = some n) (h0 : 0 ≤ r.off) (h1 : r.off ≤ n) :
    aR φ r = φ r.vec + ptrSize * r.off.toNat := by
  have hl := (h.pos _ _ (h.vec hv)).2
  obtain ⟨v, off⟩ := r
  obtain ⟨k, rfl⟩ := Int.eq_ofNat_of_zero_le h0
  unfold aR
  simp only [Int.toNat_natCast] at *
  have hk : k ≤ n := by omega
  have : ptrSize * k ≤ ptrSize * n := Nat.mul_le_mul_left _ hk
  have e : ((φ v : Int) + ptrSize * (k : Int)) = ((φ v + ptrSize * k : Nat) : Int) := by push_cast; ring
  rw [e, show ((2 : Int) ^ sizeBit) = ((2 ^ sizeBit : Nat) : Int) by push_cast; rfl, ← Int.natCast_emod, Int.toNat_natCast,
    Nat.mod_eq_of_lt (by omega)]

end HashFlat
end Tommy
