import Verif.Proof.CListSys
/-!
  Property C81: the text of the lists in C.
-/
set_option autoImplicit false
set_option linter.unusedSectionVars false
namespace Tommy

open CArraySpec (InReg)

section
variable [Arch]

/-- **C81** The text of `tommylist.h`, with the meaning that the C language gives to it, executed by a program with any number of lists in a memory
    of bytes: all the calls are without undefined behaviour and terminate; the results are the ones of the sequences of nodes; and nothing else
    changes in the memory. -/
theorem C81_source : CListSpec.sys.Correct := CLs.sys_correct

/-- C81, said on a sequence of calls. -/
theorem C81_history (s : AMem) (a : CListSpec.Ab) (h : CListSpec.sys.init s a) (ops : List CListSpec.Op) : CListSpec.sys.Runs s a ops :=
  C81_source.runs ops s a (.init h)

variable {s : AMem} {a : CListSpec.Ab}

theorem C81_inv (h : CListSpec.sys.Reach s a) : CLs.Inv s a := Sys.reach_inv (Inv := CLs.Inv) (fun _ _ h => CLs.inv_init h) CLs.inv_step s a h

/-- The pointers in the memory are the documented ones: by `next` from the first node to the last, ended by 0, and by `prev` backward, the first
    node having the address of the last. -/
theorem C81_walk (h : CListSpec.sys.Reach s a) {t : Nat} {l : List Nat} (ht : a.tab t = some l) : CListSpec.Walk s t l :=
  ((C81_inv h).rep t l ht).walk

/-- The nodes are different, and the lists use different bytes. -/
theorem C81_apart (h : CListSpec.sys.Reach s a) {t : Nat} {l : List Nat} (ht : a.tab t = some l) :
    l.Nodup ∧ (∀ p ∈ l, p ≠ 0 ∧ InReg s p CListSpec.nodeSize) ∧
    ∀ t' l', a.tab t' = some l' → t ≠ t' → ∀ x, CListSpec.internal t l x → ¬ CListSpec.internal t' l' x :=
  have i := C81_inv h
  have r := i.rep t l ht
  ⟨CLs.off_nodup r.apart, fun p hp => ⟨(r.ne0 i.ok hp).1, r.node p hp⟩, fun t' l' ht' hne => i.int t l t' l' ht ht' hne⟩

/-- **C81** foreach and foreach_arg: the same as calling the function of the client on the field `data` of each node once, in order, for any function
    (which may write anywhere, allocate and deallocate, the node of the element included) that leaves alone the nodes not yet visited. -/
theorem C81_foreach (h : CListSpec.sys.Reach s a) {t : Nat} {l : List Nat} (ht : a.tab t = some l)
    (ext : C.Ext) (func : Nat → BM Unit) (ms : List (Nat × (Nat → Nat))) (log : List BEvent)
    (hf : ∀ as x bs, l = as ++ x :: bs → ∀ b,
      CListSpec.callAll func (as.map fun x => rdN s.byte (x + CListSpec.datOff) ptrSize) ⟨s, ms, log⟩ = some ((), b) → CListSpec.Same s b.mem (x :: bs)) :
    (∀ f, (∀ d, ext f [CListSpec.pVoid d] = (do func d; return ⟨.void, 0⟩)) →
      C.run ext "tommy_list_foreach" [CListSpec.pList t, CListSpec.pFunc f] ⟨s, ms, log⟩ =
        (CListSpec.callAll func (l.map fun x => rdN s.byte (x + CListSpec.datOff) ptrSize) ⟨s, ms, log⟩).map fun r => (⟨.void, 0⟩, r.2)) ∧
    (∀ f arg, (∀ d, ext f [CListSpec.pVoid arg, CListSpec.pVoid d] = (do func d; return ⟨.void, 0⟩)) →
      C.run ext "tommy_list_foreach_arg" [CListSpec.pList t, CListSpec.pFunc f, CListSpec.pVoid arg] ⟨s, ms, log⟩ =
        (CListSpec.callAll func (l.map fun x => rdN s.byte (x + CListSpec.datOff) ptrSize) ⟨s, ms, log⟩).map fun r => (⟨.void, 0⟩, r.2)) := by
  have i := C81_inv h
  have r := i.rep t l ht
  have hl : ∀ p ∈ l, p ≠ 0 ∧ InReg s p CListSpec.nodeSize := fun p hp => ⟨(r.ne0 i.ok hp).1, r.node p hp⟩
  exact ⟨fun f hx => CLs.run_list_foreach ext hx r.reg r.hd r.nx hl hf, fun f arg hx => CLs.run_list_foreach_arg ext hx r.reg r.hd r.nx hl hf⟩

/-- **C81** The documented deallocation (tommylist.h:328-353), `tommy_list_foreach(&list, free)`: if the data of each node is the address of the
    object of the node, allocated with malloc(), the objects are freed once each, in order, and nothing else changes. -/
theorem C81_free (h : CListSpec.sys.Reach s a) {t : Nat} {l : List Nat} (ht : a.tab t = some l) {ext : C.Ext} {f : Nat}
    (hx : ∀ d, ext f [CListSpec.pVoid d] = (do bfree d; return ⟨.void, 0⟩)) (ms : List (Nat × (Nat → Nat))) (log : List BEvent) {obj : Nat → Nat}
    (hd : ∀ p ∈ l, rdN s.byte (p + CListSpec.datOff) ptrSize = obj p)
    (hr : ∀ p ∈ l, ∃ n, s.live (obj p) = some n ∧ obj p ≤ p ∧ p + CListSpec.nodeSize ≤ obj p + n) (hn : (l.map obj).Nodup) :
    C.run ext "tommy_list_foreach" [CListSpec.pList t, CListSpec.pFunc f] ⟨s, ms, log⟩ =
      some (⟨.void, 0⟩, ⟨⟨s.byte, fun b => if b ∈ l.map obj then none else s.live b⟩, ms, log ++ (l.map obj).map .gave⟩) := by
  have hm : ∀ as : List Nat, (∀ p ∈ as, p ∈ l) → (as.map fun x => rdN s.byte (x + CListSpec.datOff) ptrSize) = as.map obj := fun as ha =>
    List.map_congr_left fun p hp => hd p (ha p hp)
  have live : ∀ d ∈ l.map obj, (s.live d).isSome := by
    intro d hm
    obtain ⟨p, hp, rfl⟩ := List.mem_map.1 hm
    obtain ⟨n, e, _⟩ := hr p hp
    rw [e]; rfl
  have := (C81_foreach h ht ext bfree ms log ?_).1 f hx
  · rw [this, hm l fun _ hp => hp, CLs.callAll_free _ _ _ hn live]; rfl
  intro as x bs e b hb p hp
  have sub : ∀ q ∈ as, q ∈ l := fun q hq => by rw [e]; simp [hq]
  have hpl : p ∈ l := by rw [e]; exact List.mem_append_right _ hp
  rw [e, List.map_append, List.nodup_append] at hn
  rw [hm as sub, CLs.callAll_free _ _ _ hn.1 fun d hd => by
    obtain ⟨q, hq, rfl⟩ := List.mem_map.1 hd
    exact live _ (List.mem_map_of_mem (sub q hq))] at hb
  cases hb
  obtain ⟨n, h1, h2, h3⟩ := hr p hpl
  refine ⟨⟨obj p, n, ?_, h2, h3⟩, rfl, rfl⟩
  have : obj p ∉ as.map obj := fun hm => hn.2.2 _ hm _ (List.mem_map_of_mem hp) rfl
  simp only [if_neg this, h1]

end

/-! ### Example: two lists, concatenated, in a 64 bit build -/

namespace CListEx
open CListSpec
attribute [local instance] Arch.w64

/-- 4096 bytes at 2^20, and two objects of 48 bytes. -/
def s0 : AMem := ⟨fun _ => 3, fun p => if p = 2 ^ 20 then some 4096 else if p = 2 ^ 21 ∨ p = 2 ^ 22 then some 48 else none⟩

def a0 : CListSpec.Ab := ⟨s0, fun _ => none⟩

theorem live0 {p n : Nat} : s0.live p = some n ↔ p = 2 ^ 20 ∧ n = 4096 ∨ (p = 2 ^ 21 ∨ p = 2 ^ 22) ∧ n = 48 := by
  show (if _ then _ else if _ then _ else _) = _ ↔ _
  split
  · simp only [Option.some.injEq]; constructor <;> omega
  split
  · simp only [Option.some.injEq]; constructor <;> omega
  · simp only [reduceCtorEq, false_iff]; omega

theorem init0 : CListSpec.sys.init s0 a0 := by
  refine ⟨rfl, ⟨fun _ => by show 3 < 256; decide, ?_, ?_⟩, fun _ => rfl⟩
  · intro b n h
    rw [live0] at h
    rw [show sizeBit = 64 from rfl]
    omega
  · intro b n b' n' h h' hne
    rw [live0] at h h'
    omega

/-- The lists at 2^20 and 2^20 + 8. -/
def tab (l m : Option (List Nat)) : Nat → Option (List Nat) := fun t => if t = 1048576 then l else if t = 1048584 then m else none

theorem tab_fst (l m n : Option (List Nat)) : upd (tab l m) 1048576 n = tab n m := by
  funext t
  by_cases h : t = 1048576
  · subst h; rw [upd_same]; rfl
  · rw [upd_ne h]; simp [tab, h]

theorem tab_snd (l m n : Option (List Nat)) : upd (tab l m) 1048584 n = tab l n := by
  funext t
  by_cases h : t = 1048584
  · subst h; rw [upd_same]; rfl
  · rw [upd_ne h]; simp [tab, h]

/-- A state of the program. -/
structure At (l m : Option (List Nat)) (s : AMem) (a : Ab) : Prop where
  reach : sys.Reach s a
  live : a.mem.live = s0.live
  tab : a.tab = tab l m

theorem At.reg {l m : Option (List Nat)} {s : AMem} {a : Ab} (h : At l m s a) {p n : Nat} (h1 : 2 ^ 20 ≤ p) (h2 : p + n ≤ 2 ^ 20 + 4096) :
    InReg a.mem p n := ⟨2 ^ 20, 4096, by rw [h.live]; rfl, h1, h2⟩

theorem At.free {l m : Option (List Nat)} {s : AMem} {a : Ab} (h : At l m s a) {p n : Nat}
    (h1 : ∀ l', l = some l' → ∀ x, p ≤ x → x < p + n → ¬ internal 1048576 l' x)
    (h2 : ∀ l', m = some l' → ∀ x, p ≤ x → x < p + n → ¬ internal 1048584 l' x) : a.Free p n := by
  intro x hx hx' t l' ht
  rw [h.tab] at ht
  by_cases e : t = 1048576
  · subst e; exact h1 l' ht x hx hx'
  · by_cases e' : t = 1048584
    · subst e'; exact h2 l' ht x hx hx'
    · simp [CListEx.tab, e, e'] at ht

theorem At.go {l m l' m' : Option (List Nat)} {s : AMem} {a : Ab} (h : At l m s a) (op : Op) (hl : legal a op) (hn : ¬ op.isForeign)
    (ht : ∀ o, (next a op o).tab = CListEx.tab l' m') :
    ∃ o s' a', step op s = some (o, s') ∧ At l' m' s' a' ∧ result a op o ∧ a'.mem = o.mem ∧ ∀ x, ¬ touched a op x → a'.mem.byte x = a.mem.byte x := by
  obtain ⟨o, s', e, h1, _, h3⟩ := C81_source s a h.reach op hl
  exact ⟨o, s', _, e, ⟨.step h.reach hl e, (h3 hn).1.trans h.live, ht o⟩, h1, rfl, (h3 hn).2⟩

/-- Three nodes; 11, 22 and 33 are the data. -/
theorem reach6 : ∃ s a, At (some [1048704, 1048640, 1048768]) none s a ∧ rdN a.mem.byte (1048640 + 16) 8 = 11 := by
  have A0 : At none none s0 a0 := ⟨.init init0, rfl, by funext t; simp [a0, tab]⟩
  obtain ⟨_, s1, a1, _, A1, _⟩ := A0.go (l' := some []) (m' := none) (.init 1048576) ⟨A0.reg (by decide) (by decide), A0.free nofun nofun⟩ (fun h => h) fun o => by
    simp only [next, A0.tab, tab_fst]
  obtain ⟨_, s2, a2, _, A2, _⟩ := A1.go (l' := some []) (m' := some []) (.init 1048584) ⟨A1.reg (by decide) (by decide), A1.free (by
    rintro _ ⟨⟩ x h1 h2
    simp only [internal, show ptrSize = 8 from rfl, List.not_mem_nil, false_and, exists_false, or_false] at *
    omega) nofun⟩ (fun h => h) fun o => by simp only [next, A1.tab, tab_snd]
  obtain ⟨o3, s3, a3, _, A3, d3, m3, _⟩ := A2.go (l' := some [1048640]) (m' := some []) (.insertTail 1048576 1048640 11)
    ⟨⟨[], by rw [A2.tab]; rfl⟩, A2.reg (by decide) (by decide), A2.free (by
      rintro _ ⟨⟩ x h1 h2
      simp only [internal, show ptrSize = 8 from rfl, List.not_mem_nil, false_and, exists_false, or_false] at *
      omega) (by
      rintro _ ⟨⟩ x h1 h2
      simp only [internal, show ptrSize = 8 from rfl, List.not_mem_nil, false_and, exists_false, or_false] at *
      omega), by rw [show sizeBit = 64 from rfl]; decide⟩ (fun h => h) fun o => by
    simp only [next, A2.tab, tab_fst]; rfl
  obtain ⟨_, s4, a4, _, A4, _, _, f4⟩ := A3.go (l' := some [1048704, 1048640]) (m' := some []) (.insertHead 1048576 1048704 22)
    ⟨⟨[1048640], by rw [A3.tab]; rfl⟩, A3.reg (by decide) (by decide), A3.free (by
      rintro _ ⟨⟩ x h1 h2
      simp only [internal, show ptrSize = 8 from rfl, List.mem_singleton, exists_eq_left] at *
      omega) (by
      rintro _ ⟨⟩ x h1 h2
      simp only [internal, show ptrSize = 8 from rfl, List.not_mem_nil, false_and, exists_false, or_false] at *
      omega), by rw [show sizeBit = 64 from rfl]; decide⟩ (fun h => h) fun o => by
    simp only [next, A3.tab, tab_fst]; rfl
  obtain ⟨_, s5, a5, _, A5, _, _, f5⟩ := A4.go (l' := some [1048704, 1048640]) (m' := some [1048768]) (.insertTail 1048584 1048768 33)
    ⟨⟨[], by rw [A4.tab]; rfl⟩, A4.reg (by decide) (by decide), A4.free (by
      rintro _ ⟨⟩ x h1 h2
      simp only [internal, show ptrSize = 8 from rfl, List.mem_cons, List.not_mem_nil, or_false, exists_eq_or_imp, exists_eq_left] at *
      omega) (by
      rintro _ ⟨⟩ x h1 h2
      simp only [internal, show ptrSize = 8 from rfl, List.not_mem_nil, false_and, exists_false, or_false] at *
      omega), by rw [show sizeBit = 64 from rfl]; decide⟩ (fun h => h) fun o => by
    simp only [next, A4.tab, tab_snd]; rfl
  obtain ⟨_, s6, a6, _, A6, _, _, f6⟩ := A5.go (l' := some [1048704, 1048640, 1048768]) (m' := none) (.concat 1048576 1048584)
    ⟨by decide, ⟨_, by rw [A5.tab]; rfl⟩, ⟨_, by rw [A5.tab]; rfl⟩⟩ (fun h => h) fun o => by
    simp only [next, A5.tab, tab_snd, tab_fst]; rfl
  refine ⟨s6, _, A6, ?_⟩
  have d3 : rdN a3.mem.byte (1048640 + 16) 8 = 11 := by rw [m3]; exact d3
  rw [← d3]
  refine AllocSpec.rdN_congr fun x h1 h2 => ?_
  rw [f6 x ?_, f5 x ?_, f4 x ?_]
  · rintro (⟨l, hl, h⟩ | h)
    · rw [A3.tab] at hl; cases hl
      simp only [links, show ptrSize = 8 from rfl, List.mem_singleton, exists_eq_left] at h
      omega
    · simp only [show ptrSize = 8 from rfl] at h; omega
  · rintro (⟨l, hl, h⟩ | h)
    · rw [A4.tab] at hl; cases hl
      simp only [links, show ptrSize = 8 from rfl, List.not_mem_nil, false_and, exists_false, or_false] at h
      omega
    · simp only [show ptrSize = 8 from rfl] at h; omega
  · rintro (⟨l, hl, h⟩ | ⟨l, hl, h⟩)
    · rw [A5.tab] at hl; cases hl
      simp only [links, show ptrSize = 8 from rfl, List.mem_cons, List.not_mem_nil, or_false, exists_eq_or_imp, exists_eq_left] at h
      omega
    · rw [A5.tab] at hl; cases hl
      simp only [links, show ptrSize = 8 from rfl, List.mem_singleton, exists_eq_left] at h
      omega

/-- Then count() is 3, tail() is the node of the second list, and remove_existing() of the second node returns its 11, and leaves the other two. -/
example : ∃ s a, sys.Reach s a ∧ (∃ o s', step (.count 1048576) s = some (o, s') ∧ o.res = 3) ∧
    (∃ o s', step (.tail 1048576) s = some (o, s') ∧ o.res = 1048768) ∧
    ∃ o s', step (.remove 1048576 1048640) s = some (o, s') ∧ o.res = 11 ∧ Walk s' 1048576 [1048704, 1048768] := by
  obtain ⟨s, a, A, d⟩ := reach6
  have ht : a.tab 1048576 = some [1048704, 1048640, 1048768] := by rw [A.tab]; rfl
  refine ⟨s, a, A.reach, ?_, ?_, ?_⟩
  · obtain ⟨o, s', e, h, _⟩ := C81_source s a A.reach (.count 1048576) ⟨_, ht⟩
    exact ⟨o, s', e, h _ ht⟩
  · obtain ⟨o, s', e, h, _⟩ := C81_source s a A.reach (.tail 1048576) ⟨_, ht⟩
    exact ⟨o, s', e, h _ ht⟩
  · have hl : sys.legal a (.remove 1048576 1048640) := ⟨_, ht, by simp⟩
    obtain ⟨o, s', e, h, _⟩ := C81_source s a A.reach _ hl
    refine ⟨o, s', e, Eq.trans h d, C81_walk (.step A.reach hl e) ?_⟩
    show (next a (.remove 1048576 1048640) o).tab _ = _
    simp only [next, ht, upd_same, Option.map_some]
    rfl

/-- A function of the client that only notes that it was called. -/
def note (d : Nat) : BM Unit := fun b => some ((), { b with log := b.log ++ [.gave d] })

/-- foreach() calls it three times, the second with 11. -/
example : ∃ s a d1 d3, sys.Reach s a ∧ C.run (fun _ vs => do note ((vs.getLast?.map C.Val.v).getD 0); return ⟨.void, 0⟩) "tommy_list_foreach"
    [pList 1048576, pFunc 5] ⟨s, [], []⟩ = some (⟨.void, 0⟩, ⟨s, [], [.gave d1, .gave 11, .gave d3]⟩) := by
  obtain ⟨s, a, A, d⟩ := reach6
  have ht : a.tab 1048576 = some [1048704, 1048640, 1048768] := by rw [A.tab]; rfl
  rw [(C81_inv A.reach).mem] at d
  refine ⟨s, a, rdN s.byte (1048704 + 16) 8, rdN s.byte (1048768 + 16) 8, A.reach, ((C81_foreach A.reach ht _ note [] [] ?_).1 5 fun _ => rfl).trans ?_⟩
  · intro as x bs e b hb p hp
    have hm : b.mem = s := by
      have : ∀ (ds : List Nat) (b1 b2 : BMem), callAll note ds b1 = some ((), b2) → b2.mem = b1.mem := by
        intro ds
        induction ds with
        | nil => intro b1 b2 e; cases e; rfl
        | cons d ds ih => intro b1 b2 e; exact ih ⟨b1.mem, b1.mallocs, b1.log ++ [BEvent.gave d]⟩ b2 e
      exact this _ _ _ hb
    rw [hm]
    exact ⟨((C81_apart A.reach ht).2.1 p (by rw [e]; exact List.mem_append_right _ hp)).2, rfl, rfl⟩
  · rw [← d]; rfl

/-- The program puts the two objects in a list, with the node at the offset 16, and then `tommy_list_foreach(&list, free)` frees them. -/
example : ∃ s a, sys.Reach s a ∧ C.run (fun _ vs => do bfree ((vs.getLast?.map C.Val.v).getD 0); return ⟨.void, 0⟩) "tommy_list_foreach"
    [pList 1048576, pFunc 5] ⟨s, [], []⟩ =
      some (⟨.void, 0⟩, ⟨⟨s.byte, fun p => if p = 1048576 then some 4096 else none⟩, [], [.gave 4194304, .gave 2097152]⟩) := by
  have A0 : At none none s0 a0 := ⟨.init init0, rfl, by funext t; simp [a0, tab]⟩
  obtain ⟨_, s1, a1, _, A1, _⟩ := A0.go (l' := some []) (m' := none) (.init 1048576) ⟨A0.reg (by decide) (by decide), A0.free nofun nofun⟩ (fun h => h) fun o => by
    simp only [next, A0.tab, tab_fst]
  obtain ⟨o2, s2, a2, _, A2, d2, m2, _⟩ := A1.go (l' := some [2097168]) (m' := none) (.insertTail 1048576 2097168 2097152)
    ⟨⟨[], by rw [A1.tab]; rfl⟩, ⟨2097152, 48, by rw [A1.live]; rfl, by decide, by decide⟩, A1.free (by
      rintro _ ⟨⟩ x h1 h2
      simp only [internal, show ptrSize = 8 from rfl, List.not_mem_nil, false_and, exists_false, or_false] at *
      omega) nofun, by rw [show sizeBit = 64 from rfl]; decide⟩ (fun h => h) fun o => by
    simp only [next, A1.tab, tab_fst]; rfl
  obtain ⟨o3, s3, a3, _, A3, d3, m3, f3⟩ := A2.go (l' := some [4194320, 2097168]) (m' := none) (.insertHead 1048576 4194320 4194304)
    ⟨⟨[2097168], by rw [A2.tab]; rfl⟩, ⟨4194304, 48, by rw [A2.live]; rfl, by decide, by decide⟩, A2.free (by
      rintro _ ⟨⟩ x h1 h2
      simp only [internal, show ptrSize = 8 from rfl, List.mem_singleton, exists_eq_left] at *
      omega) nofun, by rw [show sizeBit = 64 from rfl]; decide⟩ (fun h => h) fun o => by
    simp only [next, A2.tab, tab_fst]; rfl
  have ht : a3.tab 1048576 = some [4194320, 2097168] := by rw [A3.tab]; rfl
  have em := (C81_inv A3.reach).mem
  have e3 : rdN s3.byte (4194320 + 16) 8 = 4194304 := by rw [← em, m3]; exact d3
  have e2 : rdN s3.byte (2097168 + 16) 8 = 2097152 := by
    have d2 : rdN a2.mem.byte (2097168 + 16) 8 = 2097152 := by rw [m2]; exact d2
    rw [← em, ← d2]
    refine AllocSpec.rdN_congr fun x h1 h2 => f3 x ?_
    rintro (⟨l, hl, h⟩ | h)
    · rw [A2.tab] at hl; cases hl
      simp only [links, show ptrSize = 8 from rfl, List.mem_singleton, exists_eq_left] at h
      omega
    · simp only [show ptrSize = 8 from rfl] at h; omega
  have lv : s3.live = s0.live := by rw [← em]; exact A3.live
  refine ⟨s3, a3, A3.reach, (C81_free A3.reach ht (fun d => rfl) [] [] (obj := fun p => p - 16) ?_ ?_ (by decide)).trans ?_⟩
  · intro p hp
    simp only [List.mem_cons, List.not_mem_nil, or_false] at hp
    rcases hp with rfl | rfl
    · exact e3
    · exact e2
  · intro p hp
    simp only [List.mem_cons, List.not_mem_nil, or_false] at hp
    rcases hp with rfl | rfl
    · exact ⟨48, by rw [lv]; rfl, by decide, by decide⟩
    · exact ⟨48, by rw [lv]; rfl, by decide, by decide⟩
  · have : (fun b => if b ∈ [4194320, 2097168].map (fun p => p - 16) then none else s3.live b) = fun p => if p = 1048576 then some 4096 else none := by
      funext b
      rw [lv]
      show (if b ∈ [4194304, 2097152] then none else if b = 1048576 then some 4096 else if b = 2097152 ∨ b = 4194304 then some 48 else none) = _
      simp only [List.mem_cons, List.not_mem_nil, or_false]
      split
      · rw [if_neg (by omega)]
      · split
        · rfl
        · rw [if_neg (by omega)]
    rw [this]
    rfl

end CListEx

end Tommy
