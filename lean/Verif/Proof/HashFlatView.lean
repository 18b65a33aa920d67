import Verif.Proof.HashFlatCall
/-! The memory of a program with hashtables: structs, nodes, vectors and bytes. -/
set_option linter.unusedSimpArgs false
set_option linter.unusedVariables false
namespace Tommy

variable [Arch]
namespace HashFlat
open HashSpec (Elem LiveOk SameNode)
open TablesSpec (Tbl tblImpl Good)
open HashFlatSpec (Ty Sz structSize)
open AllocSpec (rdN_congr acc_of)

/-! ### The fields of the structs -/

def ptrs : Ty → Nat
  | .hashtable => 4
  | .hashdyn => 4
  | .hashlin => sizeBit + 6

def ints : Ty → Nat
  | .hashtable => 0
  | .hashdyn => 1
  | .hashlin => 2

/-- The struct has a field of `n` bytes at the offset `o`. -/
def IsField (ty : Ty) (o n : Nat) : Prop :=
  (n = ptrSize ∧ ∃ i, i < ptrs ty ∧ o = ptrSize * i) ∨ (n = 4 ∧ ∃ i, i < ints ty ∧ o = ptrSize * ptrs ty + 4 * i)

theorem isField_in {ty : Ty} {o n : Nat} (h : IsField ty o n) : 1 < n ∧ o + n ≤ structSize ty := by
  rcases h with ⟨rfl, i, h1, rfl⟩ | ⟨rfl, i, h1, rfl⟩ <;> cases ty <;>
    simp only [ptrs, ints, structSize, tblSize, dynStruct, linStruct] at h1 ⊢ <;> arch

theorem isField_sep {ty : Ty} {o n o' n' : Nat} (h : IsField ty o n) (h' : IsField ty o' n') (hne : o ≠ o' ∨ n ≠ n') :
    o + n ≤ o' ∨ o' + n' ≤ o := by
  rcases h with ⟨rfl, i, h1, rfl⟩ | ⟨rfl, i, h1, rfl⟩ <;> rcases h' with ⟨rfl, j, h2, rfl⟩ | ⟨rfl, j, h2, rfl⟩
  · have : i ≠ j := by rintro rfl; simp at hne
    clear * - this; arch
  · generalize ptrs ty = k at *; clear * - h1; arch
  · generalize ptrs ty = k at *; clear * - h2; arch
  · have : i ≠ j := by rintro rfl; simp at hne
    omega

theorem structSize_pos (ty : Ty) : 0 < structSize ty := by
  cases ty <;> simp only [structSize, tblSize, dynStruct, linStruct] <;> arch

theorem field_ptr {ty : Ty} {i : Nat} (h : i < ptrs ty) : IsField ty (ptrSize * i) ptrSize := .inl ⟨rfl, i, h, rfl⟩

theorem field_int {ty : Ty} {i : Nat} (h : i < ints ty) : IsField ty (ptrSize * ptrs ty + 4 * i) 4 := .inr ⟨rfl, i, h, rfl⟩

macro "fldp" i:term : tactic => `(tactic| exact .inl ⟨rfl, $i, by simp only [tyOf, ptrs]; omega, by
  clear * -
  simp only [tblBucket, tblMax, tblMask, tblCount, dynBucket, dynMax, dynMask, dynCount, linMax, linMask, linLowMax, linLowMask, linSplit, linCount] <;>
  arch⟩)
macro "fldi" i:term : tactic => `(tactic| exact .inr ⟨rfl, $i, by simp only [tyOf, ints]; omega, by
  clear * -
  simp only [dynBit, linBit, linState, tyOf, ptrs] <;> arch⟩)

theorem TAt.congr {F F' : Fld} {φ φ' : Nat → Nat} {N N' b : Nat} {t : Tbl} (h : TAt F φ N b t)
    (hF : ∀ o n, IsField (tyOf t) o n → F' (b + o) n = F (b + o) n) (hφ : ∀ v, v < N → φ' v = φ v) (hN : N ≤ N') : TAt F' φ' N' b t := by
  cases t with
  | hashtable t =>
    obtain ⟨h, hl⟩ := h
    refine ⟨⟨?_, ?_, ?_, ?_⟩, by omega⟩
    · rw [hF tblBucket ptrSize (by fldp 0), h.bucket, aR_congr (hφ _ hl)]
    · rw [hF tblMax ptrSize (by fldp 1), h.max]
    · rw [hF tblMask ptrSize (by fldp 2), h.mask]
    · rw [hF tblCount ptrSize (by fldp 3), h.count]
  | hashdyn t =>
    obtain ⟨h, hl⟩ := h
    refine ⟨⟨?_, ?_, ?_, ?_, ?_⟩, by omega⟩
    · rw [hF dynBucket ptrSize (by fldp 0), h.bucket, aR_congr (hφ _ hl)]
    · rw [hF dynMax ptrSize (by fldp 1), h.max]
    · rw [hF dynMask ptrSize (by fldp 2), h.mask]
    · rw [hF dynCount ptrSize (by fldp 3), h.count]
    · rw [hF dynBit 4 (by fldi 0), h.bit]
  | hashlin t =>
    obtain ⟨h, hl⟩ := h
    refine ⟨⟨?_, ?_, ?_, ?_, ?_, ?_, ?_, ?_, ?_, ?_⟩, fun i r hr => Nat.lt_of_lt_of_le (hl i r hr) hN⟩
    · intro i r hi hr
      rw [hF (ptrSize * i) ptrSize (field_ptr (by simp only [tyOf, ptrs]; omega)), h.seg i r hi hr, aR_congr (hφ _ (hl i r hr))]
    · intro i hi
      rw [hF (ptrSize * i) ptrSize (field_ptr (by simp only [tyOf, ptrs]; omega))]
      exact h.segd i hi
    · rw [hF linMax ptrSize (by fldp sizeBit), h.max]
    · rw [hF linMask ptrSize (by fldp (sizeBit + 1)), h.mask]
    · rw [hF linLowMax ptrSize (by fldp (sizeBit + 2)), h.lowMax]
    · rw [hF linLowMask ptrSize (by fldp (sizeBit + 3)), h.lowMask]
    · rw [hF linSplit ptrSize (by fldp (sizeBit + 4)), h.split]
    · rw [hF linCount ptrSize (by fldp (sizeBit + 5)), h.count]
    · rw [hF linBit 4 (by fldi 0), h.bit]
    · rw [hF linState 4 (by fldi 1), h.state]

theorem tdom_of {F : Fld} {b : Nat} {ty : Ty} (h : ∀ o n, IsField ty o n → F (b + o) n ≠ none) : TDom F b ty := by
  cases ty with
  | hashtable => exact ⟨h _ _ (by fldp 0), h _ _ (by fldp 1), h _ _ (by fldp 2), h _ _ (by fldp 3)⟩
  | hashdyn => exact ⟨h _ _ (by fldp 0), h _ _ (by fldp 1), h _ _ (by fldp 2), h _ _ (by fldp 3), h _ _ (by fldi 0)⟩
  | hashlin =>
    exact ⟨fun i hi => h _ _ (field_ptr (by simp only [ptrs]; omega)), h _ _ (by fldp sizeBit), h _ _ (by fldp (sizeBit + 1)),
      h _ _ (by fldp (sizeBit + 2)), h _ _ (by fldp (sizeBit + 3)), h _ _ (by fldp (sizeBit + 4)), h _ _ (by fldp (sizeBit + 5)),
      h _ _ (by fldi 0), h _ _ (by fldi 1)⟩

theorem ownOf_congr {m0 m : Mem} {t : Tbl} {es : List Elem} (g : Good m0 t m es) {φ φ' : Nat → Nat} (hφ : ∀ v, v < m.vnext → φ' v = φ v) :
    ownOf φ' t = ownOf φ t := by
  cases t with
  | hashtable t => simp only [ownOf]; rw [aR_congr (hφ _ (HashSpec.Flat.used (HashSpec.TblInv.flat g)))]
  | hashdyn t => simp only [ownOf]; rw [aR_congr (hφ _ (HashSpec.Flat.used (HashSpec.DynBase.flat (HashSpec.DynInv.toDynBase g))))]
  | hashlin t =>
    have g : HashSpec.LinInv m0 t m es := g
    obtain ⟨vs, s⟩ := g.segs
    have h6 := g.bit
    refine linOwn_congr rfl (fun _ _ _ => rfl) fun i hi => hφ _ ?_
    by_cases h : i < 6
    · rw [s.low i h]; exact s.used 5 (by omega) (by omega)
    · rw [s.high i (by omega) (by omega)]; exact s.used i (by omega) (by omega)

/-! ### What is in the memory of the program -/

/-- The regions of the program, the structs with their nodes, the bytes. -/
structure View where
  env : Nat → Option Nat
  sh : Nat → Option (Ty × List Nat)
  byte : Nat → Option Nat

namespace View
variable (V : View)

def Field (x n : Nat) : Prop := ∃ b ty l o, V.sh b = some (ty, l) ∧ IsField ty o n ∧ x = b + o
def InStruct (x : Nat) : Prop := ∃ b ty l, V.sh b = some (ty, l) ∧ b ≤ x ∧ x < b + structSize ty
def Node (p : Nat) : Prop := ∃ b ty l, V.sh b = some (ty, l) ∧ p ∈ l
def InNode (x : Nat) : Prop := ∃ p, V.Node p ∧ p ≤ x ∧ x < p + nodeSize
def Free (x : Nat) : Prop := InE V.env x 1 ∧ ¬ V.InStruct x ∧ ¬ V.InNode x

/-- The places are in the regions and do not overlap. -/
structure Lay : Prop where
  str : ∀ b ty l, V.sh b = some (ty, l) → InE V.env b (structSize ty)
  ssep : ∀ b ty l b' ty' l', V.sh b = some (ty, l) → V.sh b' = some (ty', l') → b ≠ b' → b + structSize ty ≤ b' ∨ b' + structSize ty' ≤ b
  node : ∀ p, V.Node p → InE V.env p nodeSize
  nsep : ∀ p q, V.Node p → V.Node q → p ≠ q → p + nodeSize ≤ q ∨ q + nodeSize ≤ p
  nssep : ∀ p b ty l, V.Node p → V.sh b = some (ty, l) → p + nodeSize ≤ b ∨ b + structSize ty ≤ p

open Classical in
/-- The numbers of the structs, and the bytes of the program. -/
noncomputable def mkF (V : View) (Fs : Fld) : Fld := fun x n =>
  if V.Field x n then some (Fs x n).join else if n = 1 ∧ V.Free x then some (V.byte x) else none

open Classical in
/-- The nodes. -/
noncomputable def heapOf (V : View) (w : AMem) : Heap where
  valid p := decide (V.Node p)
  next p := rdN w.byte (p + nodNext) ptrSize
  prev p := rdN w.byte (p + nodPrev) ptrSize
  data p := rdN w.byte (p + nodData) ptrSize
  index p := rdN w.byte (p + nodIndex) ptrSize

variable {V}
theorem mkF_field {Fs : Fld} {x n : Nat} (h : V.Field x n) : V.mkF Fs x n = some (Fs x n).join := by simp [mkF, h]

theorem Field.lt {x n : Nat} (h : V.Field x n) : 1 < n := by
  obtain ⟨b, ty, l, o, _, h2, _⟩ := h
  exact (isField_in h2).1

theorem mkF_free {Fs : Fld} {x : Nat} (h : V.Free x) : V.mkF Fs x 1 = some (V.byte x) := by
  have : ¬ V.Field x 1 := fun hf => absurd hf.lt (by omega)
  simp [mkF, h, this]

theorem mkF_ne {Fs : Fld} {x n : Nat} : V.mkF Fs x n ≠ none ↔ V.Field x n ∨ (n = 1 ∧ V.Free x) := by
  unfold mkF
  by_cases h1 : V.Field x n
  · simp [h1]
  · by_cases h2 : n = 1 ∧ V.Free x
    · rw [if_neg h1, if_pos h2]; simp [h2]
    · simp [h1, h2]

/-- The table at `b` writes only in its struct. -/
theorem mkF_eq {Fs F' : Fld} {b : Nat} {ty : Ty} {l : List Nat} (hb : V.sh b = some (ty, l)) (h : Chg (V.mkF Fs) F' b (structSize ty)) :
    V.mkF F' = F' := by
  funext x n
  by_cases h1 : V.Field x n
  · rw [mkF_field h1]
    have : F' x n ≠ none := fun e => by
      have := (h.dom x n).1 e
      rw [mkF_field h1] at this; cases this
    obtain ⟨c, hc⟩ := Option.ne_none_iff_exists'.1 this
    rw [hc]; rfl
  · by_cases h2 : n = 1 ∧ V.Free x
    · obtain ⟨rfl, h2⟩ := h2
      rw [mkF_free h2, h.out x 1, mkF_free h2]
      by_contra hc
      exact h2.2.1 ⟨b, ty, l, hb, by omega, by omega⟩
    · have e : ∀ F, V.mkF F x n = none := fun F => by simp [mkF, h1, h2]
      rw [e, (h.dom x n).2 (e Fs)]

end View

/-- The regions and the vectors. -/
structure Vecs (env : Nat → Option Nat) (φ : Nat → Nat) (m : Mem) (w : AMem) : Prop where
  byte : ∀ x, w.byte x < 256
  live : ∀ b n, w.live b = some n ↔ env b = some n ∨ ∃ v k, m.vlen v = some k ∧ φ v = b ∧ n = ptrSize * k
  pos : ∀ b n, w.live b = some n → 0 < b ∧ b + n < 2 ^ sizeBit
  reg : ∀ b n b' n', w.live b = some n → w.live b' = some n' → b ≠ b' → b + n ≤ b' ∨ b' + n' ≤ b
  vinj : ∀ v v', m.vlen v ≠ none → m.vlen v' ≠ none → φ v = φ v' → v = v'
  venv : ∀ v, m.vlen v ≠ none → env (φ v) = none
  fresh : ∀ v, m.vnext ≤ v → m.vlen v = none
  cells : ∀ v i n c, m.vlen v = some n → i < n → m.vcell v i = some c → rdN w.byte (φ v + ptrSize * i) ptrSize = c

theorem Rel.vecs {env : Nat → Option Nat} {F : Fld} {φ : Nat → Nat} {m : Mem} {w : AMem} (h : Rel env F φ m w) : Vecs env φ m w :=
  ⟨h.byte, h.live, h.pos, h.reg, h.vinj, h.venv, h.fresh, fun v i n c h1 h2 h3 => h.val (.cell v i) c ⟨n, h1, h2⟩ h3⟩

section
variable {V : View} {φ : Nat → Nat} {m : Mem} {w : AMem}

theorem Vecs.inE (h : Vecs V.env φ m w) {p n : Nat} (hi : InE V.env p n) : 0 < p ∧ p + n < 2 ^ sizeBit := by
  obtain ⟨b, k, h1, h2, h3⟩ := hi
  have := h.pos b k ((h.live b k).2 (.inl h1))
  omega

theorem View.heapOf_valid (p : Nat) : (V.heapOf w).valid p = true ↔ V.Node p := by simp [View.heapOf]

theorem View.Lay.liveOk (lay : V.Lay) (h : Vecs V.env φ m w) : LiveOk (V.heapOf w).valid where
  zero := by
    rw [← Bool.not_eq_true, View.heapOf_valid]
    intro hn
    have := h.inE (lay.node 0 hn)
    omega
  bound p hp := by
    have := h.inE (lay.node p ((View.heapOf_valid p).1 hp))
    exact this.2.le
  apart p q hp hq hne := lay.nsep p q ((View.heapOf_valid p).1 hp) ((View.heapOf_valid q).1 hq) hne

/-- The typed memory read from the bytes. -/
theorem mkRel (h : Vecs V.env φ m w) (lay : V.Lay) {Fs : Fld}
    (hfields : ∀ x n c, V.Field x n → Fs x n = some (some c) → rdN w.byte x n = c)
    (hfree : ∀ x c, V.Free x → V.byte x = some c → rdN w.byte x 1 = c) :
    Rel V.env (V.mkF Fs) φ { m with heap := V.heapOf w } w where
  byte := h.byte
  live := h.live
  pos := h.pos
  reg := h.reg
  vinj := h.vinj
  venv := h.venv
  fresh := h.fresh
  node p hp := lay.node p ((View.heapOf_valid p).1 hp.2)
  nsep p q hp hq := lay.nsep p q ((View.heapOf_valid p).1 hp.2) ((View.heapOf_valid q).1 hq.2)
  fin x n hx := by
    rcases View.mkF_ne.1 hx with ⟨b, ty, l, o, h1, h2, rfl⟩ | ⟨rfl, h1⟩
    · exact (lay.str b ty l h1).sub (by omega) (by have := (isField_in h2).2; omega)
    · exact h1.1
  fsep x n x' n' hx hx' hne := by
    rcases View.mkF_ne.1 hx with ⟨b, ty, l, o, h1, h2, rfl⟩ | ⟨rfl, h1⟩ <;>
      rcases View.mkF_ne.1 hx' with ⟨b', ty', l', o', h1', h2', rfl⟩ | ⟨rfl, h1'⟩
    · by_cases hb : b = b'
      · subst hb
        rw [h1] at h1'
        simp only [Option.some.injEq, Prod.mk.injEq] at h1'
        obtain ⟨rfl, rfl⟩ := h1'
        have := isField_sep h2 h2' (hne.imp (fun h e => h (by rw [e])) id)
        omega
      · have := lay.ssep _ _ _ _ _ _ h1 h1' hb
        have := (isField_in h2).2
        have := (isField_in h2').2
        omega
    · have := (isField_in h2).2
      have : ¬ (b ≤ x' ∧ x' < b + structSize ty) := fun hc => h1'.2.1 ⟨b, ty, l, h1, hc⟩
      omega
    · have := (isField_in h2').2
      have : ¬ (b' ≤ x ∧ x < b' + structSize ty') := fun hc => h1.2.1 ⟨b', ty', l', h1', hc⟩
      omega
    · have : x ≠ x' := by rcases hne with h | h <;> [exact h; exact absurd rfl h]
      omega
  nfsep p x n hp hx := by
    have hp := (View.heapOf_valid p).1 hp.2
    rcases View.mkF_ne.1 hx with ⟨b, ty, l, o, h1, h2, rfl⟩ | ⟨rfl, h1⟩
    · have := (isField_in h2).2
      have := lay.nssep p b ty l hp h1
      omega
    · have : ¬ (p ≤ x ∧ x < p + nodeSize) := fun hc => h1.2.2 ⟨p, hp, hc⟩
      omega
  val o c ho hc := by
    cases o with
    | next p => injection hc
    | prev p => injection hc
    | data p => injection hc
    | index p => injection hc
    | cell v i =>
      obtain ⟨n, h1, h2⟩ := ho
      exact h.cells v i n c h1 h2 hc
    | fld x n =>
      have hc : (V.mkF Fs x n).join = some c := hc
      rcases View.mkF_ne.1 ho with h1 | ⟨rfl, h1⟩
      · rw [View.mkF_field h1] at hc
        refine hfields x n c h1 ?_
        cases e : Fs x n with
        | none => rw [e] at hc; cases hc
        | some y =>
          rw [e] at hc
          have hc : y = some c := hc
          rw [hc]
      · rw [View.mkF_free h1] at hc
        exact hfree x c h1 hc

/-- The node read from the bytes is the one of the typed memory. -/
theorem Rel.sameNode {env : Nat → Option Nat} {F : Fld} {w' : AMem} (R : Rel env F φ m w) {V : View} {p : Nat} (hp : m.heap.ok p) (hn : V.Node p)
    (hb : ∀ x, p ≤ x → x < p + nodeSize → w'.byte x = w.byte x) : SameNode m.heap (V.heapOf w') p := by
  have rd : ∀ k, k + ptrSize ≤ nodeSize → rdN w'.byte (p + k) ptrSize = rdN w.byte (p + k) ptrSize := fun k hk =>
    rdN_congr fun x h1 h2 => hb x (by omega) (by omega)
  refine ⟨fun h => ⟨h.1, (View.heapOf_valid p).2 hn⟩, ?_, ?_, ?_, ?_⟩
  · exact (rd nodNext (by archd)).trans (R.val (.next p) _ hp rfl)
  · exact (rd nodPrev (by archd)).trans (R.val (.prev p) _ hp rfl)
  · exact (rd nodData (by archd)).trans (R.val (.data p) _ hp rfl)
  · exact (rd nodIndex (by archd)).trans (R.val (.index p) _ hp rfl)

end

/-- The memory is seen in another way, or changed by the program: other nodes, structs and bytes. -/
theorem review {m0 : Mem} {ts : TablesSpec.St} {A : TablesSpec.Ab} {owner : Nat → Option Nat} (I : TablesSpec.Inv m0 ts A owner)
    {V V' : View} {φ : Nat → Nat} {Fs Fs' : Fld} {w w' : AMem} (R : Rel V.env (V.mkF Fs) φ ts.mem w)
    (Vc : Vecs V'.env φ ts.mem w') (lay : V'.Lay) (hst : ∀ p, A.stored p → ts.mem.heap.ok p ∧ V'.Node p)
    (hb : ∀ p, A.stored p → ∀ x, p ≤ x → x < p + nodeSize → w'.byte x = w.byte x)
    (hfields : ∀ x n c, V'.Field x n → Fs' x n = some (some c) → rdN w'.byte x n = c)
    (hfree : ∀ x c, V'.Free x → V'.byte x = some c → rdN w'.byte x 1 = c) :
    TablesSpec.Inv m0 { ts with mem := { ts.mem with heap := V'.heapOf w' } } { A with live := (V'.heapOf w').valid } owner ∧
      Rel V'.env (V'.mkF Fs') φ { ts.mem with heap := V'.heapOf w' } w' :=
  ⟨I.nodes (fun p hp => R.sameNode (hst p hp).1 (hst p hp).2 (hb p hp)) rfl (lay.liveOk Vc), mkRel Vc lay hfields hfree⟩

end HashFlat
end Tommy
