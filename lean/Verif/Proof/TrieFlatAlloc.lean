import Verif.Proof.TrieFlatMem
import Verif.Proof.SortErase
/-! The calls of the allocator done by a trie. -/
set_option linter.unusedSimpArgs false
set_option linter.unusedVariables false
namespace Tommy

variable [Arch]
namespace FlatSpec
open HashSpec (Elem)
open AllocSpec (AInv PoolInv acc_of rdP_congr wrP_out rdP_wrP rdP_wrP_out segSize segBlocks)

variable {slack : Nat} {a : AllocSpec.Ab} {s : AllocSpec.St} {id : Nat} {P : AllocSpec.Pool} {t : Alloc} {F : List Nat}

theorem event_got (hP : a.pool id = some P) (p : Nat) (seg : Option Nat) :
    event id a (.got p seg) = { a with pool := upd a.pool id (some { P with
      used := p :: P.used
      ever := p :: P.ever
      segs := if seg.isSome then seg.getD 0 :: P.segs else P.segs }) } := by
  simp only [event, AllocSpec.next, hP]

theorem event_gave (hP : a.pool id = some P) (p : Nat) :
    event id a (.gave p) = { a with pool := upd a.pool id (some { P with used := P.used.erase p }) } := by
  simp only [event, AllocSpec.next, hP]

theorem alloc_old (hi : AInv slack s a) (hP : a.pool id = some P) (ht : s.al id = some t) {p : Nat}
    (hp : PoolInv slack s.mem t P (p :: F)) :
    t.freeBlock ≠ 0 ∧ ∃ t', allocatorAlloc slack 0 (fun _ => 0) t s.mem = some ((t', p), s.mem) ∧
      PoolInv slack s.mem t' { P with used := p :: P.used, ever := p :: P.ever } F ∧
      AInv slack ⟨s.mem, upd s.al id (some t')⟩ (event id a (.got p none)) ∧ eventOk id a (.got p none) := by
  obtain ⟨h1, h2, h3⟩ := hp.pop
  have h0 : t.freeBlock ≠ 0 := by rw [h1]; exact hp.free.2.1
  have e : allocatorAlloc slack 0 (fun _ => 0) t s.mem = some (({ t with freeBlock := rdP s.mem.byte p, count := addT t.count 1 }, p), s.mem) := by
    unfold allocatorAlloc
    rw [if_neg h0]
    simp only [pure, StateT.pure, StateT.bind, bind, Option.bind_some, h1, h2]
  refine ⟨h0, _, e, h3, ?_⟩
  obtain ⟨r, s', e', h4, h5, _⟩ := AllocSpec.step_alloc_old (base := 0) (content := fun _ => 0) hi hP ht hp
  simp only [AllocSpec.step, ht, Option.bind_eq_bind, Option.bind_some, e, bind] at e'
  have hf : ((s.mem.live 0).isNone && (s.mem.live 0).isSome) = false := by cases s.mem.live 0 <;> rfl
  rw [hf] at e'
  cases e'
  exact ⟨h5, h4⟩

theorem alloc_new (hi : AInv slack s a) (hP : a.pool id = some P) (ht : s.al id = some t)
    (hp : PoolInv slack s.mem t P []) {base : Nat} {content : Nat → Nat} (hf : a.Fresh slack base (segSize P.bs P.al))
    (hroom : AllocSpec.Room slack P.bs P.al base) :
    t.freeBlock = 0 ∧ ∃ t' m' p F', segBlocks P.bs P.al base = p :: F' ∧
      allocatorAlloc slack base content t s.mem = some ((t', p), m') ∧
      PoolInv slack m' t' { P with used := p :: P.used, ever := p :: P.ever, segs := base :: P.segs } F' ∧
      AInv slack ⟨m', upd s.al id (some t')⟩ (event id a (.got p (some base))) ∧ eventOk id a (.got p (some base)) ∧
      ∀ x, a.UserByte x → m'.byte x = s.mem.byte x := by
  have hfr : ∀ id' Q, a.pool id' = some Q → ∀ b ∈ Q.segs,
      base ≠ b ∧ (base + segSize P.bs P.al + slack ≤ b ∨ b + segSize Q.bs Q.al + slack ≤ base) :=
    fun id' Q hQ b hb => ⟨fun e => hf.2.2.1 _ (Or.inr ⟨id', Q, hQ, e ▸ hb, rfl⟩), hf.2.2.2 b _ (Or.inr ⟨id', Q, hQ, hb, rfl⟩)⟩
  obtain ⟨m', t', F', e1, ⟨hne, hF'⟩, hi', hl', hb'⟩ := hp.segment content hf.1 hf.2.1 (fun b hb => (hfr id P hP b hb).2) hroom
  obtain ⟨p, F, rfl⟩ := List.exists_cons_of_ne_nil hne
  obtain ⟨h1, h2, h3⟩ := hi'.pop
  have hfb : t.freeBlock = 0 := hp.free
  have hln : s.mem.live base = none := by
    cases hl : s.mem.live base with
    | none => rfl
    | some n =>
      obtain ⟨k, o, _, hr⟩ := (hi.reg.live base n).1 hl
      exact absurd (AllocSpec.region_iff.2 ⟨o, hr⟩) (hf.2.2.1 k)
  have e : allocatorAlloc slack base content t s.mem = some (({ t' with freeBlock := rdP m'.byte p, count := addT t'.count 1 }, p), m') := by
    unfold allocatorAlloc
    rw [if_pos hfb]
    simp only [e1, Option.bind_some, h1, h2, pure, StateT.pure, StateT.bind, bind]
  refine ⟨hfb, _, m', p, F, hF'.symm, e, h3, ?_⟩
  obtain ⟨r, s', e', h4, h5, h6⟩ := AllocSpec.step_alloc_new (content := content) hi hP ht hp hf hroom
  simp only [AllocSpec.step, ht, Option.bind_eq_bind, Option.bind_some, e, bind] at e'
  have hn : ((s.mem.live base).isNone && (m'.live base).isSome) = true := by rw [hln, hl', upd_same]; rfl
  rw [hn] at e'
  cases e'
  refine ⟨h5, h4, fun x hx => hb' x ?_⟩
  obtain ⟨b, n, hr, h7, h8⟩ := hi.user_region hx
  have := hf.2.2.2 b n hr
  omega

theorem free_run (hi : AInv slack s a) (hP : a.pool id = some P) (ht : s.al id = some t)
    (hp : PoolInv slack s.mem t P F) {p : Nat} (hu : p ∈ P.used) :
    ∃ t', allocatorFree t p s.mem = some (t', { s.mem with byte := wrP s.mem.byte p t.freeBlock }) ∧
      PoolInv slack { s.mem with byte := wrP s.mem.byte p t.freeBlock } t' { P with used := P.used.erase p } (p :: F) ∧
      AInv slack ⟨{ s.mem with byte := wrP s.mem.byte p t.freeBlock }, upd s.al id (some t')⟩ (event id a (.gave p)) ∧
      eventOk id a (.gave p) := by
  have hsep : ∀ b ∈ P.segs, ∀ b' ∈ P.segs, b ≠ b' → b + segSize P.bs P.al + slack ≤ b' ∨ b' + segSize P.bs P.al + slack ≤ b := by
    intro b hb b' hb' hne
    have h1 : AllocSpec.RegionO a b (segSize P.bs P.al) (some id) := ⟨P, hP, hb, rfl⟩
    have h2 : AllocSpec.RegionO a b' (segSize P.bs P.al) (some id) := ⟨P, hP, hb', rfl⟩
    rcases hi.reg.sep h1 h2 with ⟨e, _⟩ | h
    · exact absurd e hne
    · exact h.2
  obtain ⟨hw, hi'⟩ := hp.push hu hsep
  have e : allocatorFree t p s.mem = some ({ t with freeBlock := p, count := subT t.count 1 }, { s.mem with byte := wrP s.mem.byte p t.freeBlock }) := by
    simp only [allocatorFree, StateT.bind, bind, hw, Option.bind_some]
    rfl
  refine ⟨_, e, hi', ?_, P, hP, hu⟩
  obtain ⟨r, s', e', h4, h5, h6⟩ := AllocSpec.step_free hi hP hu
  simp only [AllocSpec.step, ht, Option.bind_eq_bind, Option.bind_some, e, bind] at e'
  cases e'
  exact h5

/-! ### The bytes are bytes -/

def Bytes {α : Type} (x : AM α) : Prop :=
  ∀ m, (∀ y, m.byte y < 256) → ∀ r m', x m = some (r, m') → ∀ y, m'.byte y < 256

omit [Arch] in
theorem Bytes.bind {α β : Type} {x : AM α} {f : α → AM β} (hx : Bytes x) (hf : ∀ r, Bytes (f r)) : Bytes (x >>= f) := by
  intro m hm r m' e
  simp only [run_bind, Option.bind_eq_some_iff] at e
  obtain ⟨⟨r1, m1⟩, e1, e2⟩ := e
  exact hf r1 m1 (hx m hm r1 m1 e1) r m' e2

omit [Arch] in
theorem Bytes.pure {α : Type} (r : α) : Bytes (Pure.pure r : AM α) := by
  intro m hm r m' e
  cases e; exact hm

omit [Arch] in
theorem Bytes.ite {α : Type} {c : Prop} [Decidable c] {x y : AM α} (hx : Bytes x) (hy : Bytes y) :
    Bytes (if c then x else y) := by split <;> assumption

theorem Bytes.writeP (p v : Nat) : Bytes (Tommy.writeP p v) := by
  intro m hm r m' e
  unfold Tommy.writeP at e
  split at e
  · cases e; exact wrP_lt hm
  · cases e

theorem Bytes.readP (p : Nat) : Bytes (Tommy.readP p) := by
  intro m hm r m' e
  unfold Tommy.readP at e
  split at e
  · cases e; exact hm
  · cases e

omit [Arch] in
theorem Bytes.amalloc (slack base : Nat) {content : Nat → Nat} (h : ∀ x, content x < 256) (size : Nat) :
    Bytes (Tommy.amalloc slack base content size) := by
  intro m hm r m' e
  unfold Tommy.amalloc at e
  cases e
  intro y
  simp only
  split
  · exact h y
  · exact hm y

open Lean.Order in
omit [Arch] in
/-- Properties of the successful runs are admissible. -/
theorem ST.adm {σ α : Type} (P : σ → α → σ → Prop) :
    admissible (fun m : StateT σ Option α => ∀ h a h', m h = some (a, h') → P h a h') := by
  refine admissible_pi_apply (β := fun _ : σ => Option (α × σ))
    (fun h (x : Option (α × σ)) => ∀ a h', x = some (a, h') → P h a h') fun h => ?_
  exact admissible_pi _ fun a => admissible_pi _ fun h' => Option.admissible_eq_some _ _

theorem Bytes.push : ∀ (t : Alloc) (data size : Nat), Bytes (allocatorPushLoop t data size) := by
  have key : ∀ (t : Alloc) (data size : Nat) (m : AMem) (r : Alloc) (m' : AMem), allocatorPushLoop t data size m = some (r, m') →
      (∀ y, m.byte y < 256) → ∀ y, m'.byte y < 256 := by
    refine allocatorPushLoop.fixpoint_induct
      (fun f => ∀ (t : Alloc) (data size : Nat) (m : AMem) (r : Alloc) (m' : AMem), f t data size m = some (r, m') →
        (∀ y, m.byte y < 256) → ∀ y, m'.byte y < 256) ?_ ?_
    · exact adm_fun fun (t : Alloc) => adm_fun fun (data : Nat) => adm_fun fun (size : Nat) =>
        ST.adm fun (m : AMem) (r : Alloc) (m' : AMem) => (∀ y, m.byte y < 256) → ∀ y, m'.byte y < 256
    · intro f ih t data size m r m' e hm
      have hb : Bytes (do
        Tommy.writeP data t.freeBlock
        let t := { t with freeBlock := data }
        let data := addT data t.blockSize
        let size := subT size t.blockSize
        if size ≥ t.blockSize then f t data size else return t) :=
        Bytes.bind (Bytes.writeP _ _) fun _ => Bytes.ite (fun m hm r m' e => ih _ _ _ m r m' e hm) (Bytes.pure _)
      exact hb m hm r m' e
  exact fun t data size m hm r m' e => key t data size m r m' e hm

theorem Bytes.segment (slack base : Nat) {content : Nat → Nat} (h : ∀ x, content x < 256) (t : Alloc) :
    Bytes (allocatorSegment slack base content t) := by
  unfold allocatorSegment
  exact Bytes.bind (Bytes.amalloc _ _ h _) fun _ => Bytes.bind (Bytes.writeP _ _) fun _ =>
    Bytes.ite (Bytes.push _ _ _) (Bytes.push _ _ _)

theorem Bytes.alloc (slack base : Nat) {content : Nat → Nat} (h : ∀ x, content x < 256) (t : Alloc) :
    Bytes (allocatorAlloc slack base content t) := by
  unfold allocatorAlloc
  dsimp only
  split
  · exact Bytes.bind (Bytes.segment _ _ h _) fun _ => Bytes.bind (Bytes.readP _) fun _ => Bytes.pure _
  · exact Bytes.bind (Bytes.pure _) fun _ => Bytes.bind (Bytes.readP _) fun _ => Bytes.pure _

end FlatSpec
end Tommy
