import Verif.Proof.CFlat
import Verif.Props.HashFlat
/-!
  Property C76: the text of the hashtables in C.
-/
set_option autoImplicit false
set_option linter.unusedSectionVars false
set_option linter.unusedSimpArgs false
namespace Tommy

open HashSpec (Elem)
open HashFlatSpec

section
variable [Arch]

/-- **C76** The text of `tommylist.h`, `tommyhashtbl.h/c`, `tommyhashdyn.h/c` and `tommyhashlin.h/c`, with the meaning that the C language gives to
    it, executed by a program with any number of hashtables in a memory of bytes: all the calls are without undefined behaviour and terminate,
    return what the multimap contains, ask to malloc() for the memory of the new buckets only, and free only what the table got. `f` and
    `arg` are the address of the function of the client, and its argument. -/
theorem C76_source (f arg : Nat) : (CFlatSpec.sys f arg).Correct := CFlatSpec.sys_correct f arg

/-- C76, said on a sequence of calls. -/
theorem C76_history (f arg : Nat) (s : AMem) (a : Ab) (h : (CFlatSpec.sys f arg).init s a) (ops : List HashFlatSpec.Op) :
    (CFlatSpec.sys f arg).Runs s a ops :=
  (C76_source f arg).runs ops s a (.init h)

variable {f arg : Nat} {s s' : AMem} {a : Ab} {op : HashFlatSpec.Op} {out : HashFlatSpec.Out}

/-- The states reached by the text in C are states of C75: all what C75 says of the memory in use, of its owners, and of the regions, holds for
    the text in C. -/
theorem C76_reach (hr : (CFlatSpec.sys f arg).Reach s a) : HashFlatSpec.sys.Reach s a := CFlatSpec.reach hr

/-- The text in C has the same effect, on all the bytes, of the model written by hand that is used in C75. -/
theorem C76_same (hr : (CFlatSpec.sys f arg).Reach s a) (hl : CFlatSpec.legal a op) : CFlatSpec.step f arg op s = HashFlatSpec.step op s :=
  CFlatSpec.step_same hr hl

/-- A call of a function in C on the table `b` does not change the bytes in use before and after it, but for the struct and the nodes stored
    by the table, the memory that the table owns, and the node to insert. -/
theorem C76_frame (hr : (CFlatSpec.sys f arg).Reach s a) {b : Nat} (ho : op.on = some b) (hl : CFlatSpec.legal a op)
    (e : CFlatSpec.step f arg op s = some (out, s')) {x c k : Nat} (h1 : s.live c = some k) (h2 : s'.live c = some k) (h3 : c ≤ x) (h4 : x < c + k)
    (h5 : ¬ a.owned b c) (h6 : ¬ a.uses b x) (h7 : ¬ op.inNew x) : s'.byte x = s.byte x :=
  C75_frame (C76_reach hr) ho hl.1 ((C76_same hr hl).symm.trans e) h1 h2 h3 h4 h5 h6 h7

/-- The text in C releases all the memory. -/
theorem C76_release (hr : (CFlatSpec.sys f arg).Reach s a) (h : ∀ b, a.tab b = none) : s.live = a.env := C75_release (C76_reach hr) h

/-- foreach with any function of the client, as `tommy_hashtable_foreach` is written in C: it does what the model does, when the model has no
    errors. -/
theorem C76_foreach (ty : Ty) (t : Nat) {ext : C.Ext} {func : Nat → BM Unit} (hf : C.IsFunc ext f func) (hk : ∀ d, C.Keeps (fun _ => True) (func d))
    {w w' : BMem} (hw : C.BOk w) (e : bforeach ty t func w = some ((), w')) :
    ∃ v, CFlatSpec.fn ext ty "tommy_hashtable_foreach" "tommy_hashdyn_foreach" "tommy_hashlin_foreach" [CFlatSpec.pTab ty t, CFlatSpec.pFunc f] w =
      some (v, w') := by
  cases ty
  · exact (C.impl_hashtable_foreach ext _ hf hk w hw _ _ e).2.imp fun _ h => h.1
  · exact (C.impl_hashdyn_foreach ext _ hf hk w hw _ _ e).2.imp fun _ h => h.1
  · exact (C.impl_hashlin_foreach ext _ hf hk w hw _ _ e).2.imp fun _ h => h.1

/-- The same for foreach_arg. -/
theorem C76_foreach_arg (ty : Ty) (t : Nat) {ext : C.Ext} {func : Nat → BM Unit} (hf : C.IsFuncArg ext f arg func)
    (hk : ∀ d, C.Keeps (fun _ => True) (func d)) {w w' : BMem} (hw : C.BOk w) (e : bforeach ty t func w = some ((), w')) :
    ∃ v, CFlatSpec.fn ext ty "tommy_hashtable_foreach_arg" "tommy_hashdyn_foreach_arg" "tommy_hashlin_foreach_arg"
      [CFlatSpec.pTab ty t, CFlatSpec.pFunc f, CFlatSpec.pVoid arg] w = some (v, w') := by
  cases ty
  · exact (C.impl_hashtable_foreach_arg ext _ hf hk w hw _ _ e).2.imp fun _ h => h.1
  · exact (C.impl_hashdyn_foreach_arg ext _ hf hk w hw _ _ e).2.imp fun _ h => h.1
  · exact (C.impl_hashlin_foreach_arg ext _ hf hk w hw _ _ e).2.imp fun _ h => h.1

end

/-! ### Example: a `tommy_hashlin` with an element, in a 64 bit build -/

namespace CFlatEx
attribute [local instance] Arch.w64

/-- 4096 bytes at 2^20. -/
def env0 (p : Nat) : Option Nat := if p = 2 ^ 20 then some 4096 else none

theorem env0_iff {p n : Nat} : env0 p = some n ↔ p = 2 ^ 20 ∧ n = 4096 := by
  unfold env0; split
  · simp only [Option.some.injEq]; constructor <;> omega
  · simp only [reduceCtorEq, false_iff]; omega

/-- The comparison function: equal if the payload is 7. -/
def cmp (d : Nat) : Int := if d = 7 then 0 else -1

/-- The functions in C: init, the insertion of a node with payload 7 and hash 100, the search of the element, and done. The comparison function
    is at the address 5, its argument is 6. -/
example : ∃ s a s1 o1 s2 o2 s3 o3 s4 o4, (CFlatSpec.sys 5 6).Reach s a ∧
    CFlatSpec.step 5 6 (.init (2 ^ 20) .hashlin 0 (2 ^ 21) fun _ => 170) s = some (o1, s1) ∧ s1.live (2 ^ 21) = some 512 ∧
    CFlatSpec.step 5 6 (.call (2 ^ 20) .hashlin (.insert (2 ^ 20 + 1024) 7 100) 0 fun _ => 0) s1 = some (o2, s2) ∧
    CFlatSpec.step 5 6 (.call (2 ^ 20) .hashlin (.search cmp 100) 0 fun _ => 0) s2 = some (o3, s3) ∧ o3.res = .val 7 ∧
    CFlatSpec.step 5 6 (.done (2 ^ 20) .hashlin) s3 = some (o4, s4) ∧ s4.live (2 ^ 21) = none := by
  have r0 := Sys.Reach.init (sys := CFlatSpec.sys 5 6) (s := ⟨fun _ => 85, env0⟩) (a := ⟨env0, fun _ => none, fun _ => some 85⟩)
    ⟨fun _ => (by decide : 85 < 256), fun b n h => by
      obtain ⟨rfl, rfl⟩ := env0_iff.1 h; decide, fun b n b' n' h h' hne => by
      obtain ⟨rfl, rfl⟩ := env0_iff.1 h; obtain ⟨rfl, rfl⟩ := env0_iff.1 h'; exact absurd rfl hne, rfl, rfl, fun _ => rfl⟩
  generalize hs0 : (⟨fun _ => 85, env0⟩ : AMem) = s0 at r0
  have hl1 : (CFlatSpec.sys 5 6).legal ⟨env0, fun _ => none, fun _ => some 85⟩ (.init (2 ^ 20) .hashlin 0 (2 ^ 21) fun _ => 170) := by
    refine ⟨⟨⟨⟨2 ^ 20, 4096, rfl, by decide, by decide⟩, fun x _ _ => ⟨?_, ?_⟩⟩, (fun h => nomatch h), ⟨by decide, by decide, ?_, ?_⟩, fun _ => (by decide : 170 < 256)⟩, trivial⟩
    · rintro ⟨t, T, hT, _⟩; cases hT
    · rintro ⟨t, T, e, hT, _⟩; cases hT
    · rintro k (h | ⟨t, T, hT, _⟩)
      · have h : env0 (2 ^ 21) = some k := h
        have := env0_iff.1 h
        omega
      · cases hT
    · rintro c k (h | ⟨t, T, hT, _⟩)
      · obtain ⟨rfl, rfl⟩ := env0_iff.1 h
        exact .inr (by decide)
      · cases hT
  obtain ⟨o1, s1, e1, _⟩ := C76_source 5 6 _ _ r0 _ hl1
  have r1 := Sys.Reach.step r0 hl1 e1
  generalize ha1 : (CFlatSpec.sys 5 6).next ⟨env0, fun _ => none, fun _ => some 85⟩ (.init (2 ^ 20) .hashlin 0 (2 ^ 21) fun _ => 170) o1 = a1 at r1
  have v1 : a1.env = env0 := by rw [← ha1]; rfl
  have t1 : a1.tab = upd (fun _ => none) (2 ^ 20) (some ⟨.hashlin ⟨64, 64, .stable⟩, [], [(2 ^ 21, 512)]⟩) := by rw [← ha1]; rfl
  have tt1 : ∀ t T, a1.tab t = some T → t = 2 ^ 20 ∧ T = ⟨.hashlin ⟨64, 64, .stable⟩, [], [(2 ^ 21, 512)]⟩ := by
    intro t T h
    rw [t1, upd_apply] at h
    split at h
    · next e => cases h; exact ⟨e, rfl⟩
    · cases h
  have hl2 : (CFlatSpec.sys 5 6).legal a1 (.call (2 ^ 20) .hashlin (.insert (2 ^ 20 + 1024) 7 100) 0 fun _ => 0) := by
    refine ⟨⟨_, by rw [t1, upd_same], rfl, ⟨⟨⟨2 ^ 20, 4096, by rw [v1]; rfl, by decide, by decide⟩, fun x h1 h2 => ⟨?_, ?_⟩⟩, by decide, by decide⟩, fun k hk => ?_⟩, fun _ => (by decide : 0 < 256), trivial⟩
    · rintro ⟨t, T, hT, h3, h4⟩
      obtain ⟨rfl, rfl⟩ := tt1 t T hT
      have h4 : x < 2 ^ 20 + structSize .hashlin := h4
      have : structSize .hashlin ≤ 1024 := by decide
      omega
    · rintro ⟨t, T, e, hT, he, _⟩
      obtain ⟨rfl, rfl⟩ := tt1 t T hT
      cases he
    · have : (⟨.hashlin ⟨64, 64, .stable⟩, [], [(2 ^ 21, 512)]⟩ : Tab).sz.asks (Tab.szAfter ⟨.hashlin ⟨64, 64, .stable⟩, [], [(2 ^ 21, 512)]⟩ (.insert (2 ^ 20 + 1024) 7 100)) = [] := by
        decide
      rw [this] at hk; cases hk
  obtain ⟨o2, s2, e2, A2⟩ := C76_source 5 6 _ _ r1 _ hl2
  have r2 := Sys.Reach.step r1 hl2 e2
  obtain ⟨T, hT, _, hask, own, hown, _⟩ := A2
  rw [t1, upd_same, Option.some.injEq] at hT
  subst hT
  generalize ha2 : (CFlatSpec.sys 5 6).next a1 (.call (2 ^ 20) .hashlin (.insert (2 ^ 20 + 1024) 7 100) 0 fun _ => 0) o2 = a2 at r2
  have t2 : a2.tab = upd a1.tab (2 ^ 20) (some ⟨.hashlin ⟨64, 64, .stable⟩, [⟨2 ^ 20 + 1024, 7, 100⟩], own⟩) := by
    rw [← ha2]
    simp only [CFlatSpec.sys, HashFlatSpec.next, t1, upd_same, Option.map_some, hown, Option.getD_some]
    rfl
  have hl3 : (CFlatSpec.sys 5 6).legal a2 (.call (2 ^ 20) .hashlin (.search cmp 100) 0 fun _ => 0) := by
    refine ⟨⟨_, by rw [t2, upd_same], rfl, trivial, fun k hk => ?_⟩, fun _ => (by decide : 0 < 256), fun d => ?_⟩
    · have : (⟨.hashlin ⟨64, 64, .stable⟩, [⟨2 ^ 20 + 1024, 7, 100⟩], own⟩ : Tab).sz.asks (Tab.szAfter ⟨.hashlin ⟨64, 64, .stable⟩, [⟨2 ^ 20 + 1024, 7, 100⟩], own⟩ (.search cmp 100)) = [] := rfl
      rw [this] at hk; cases hk
    · unfold cmp; split <;> omega
  obtain ⟨o3, s3, e3, A3⟩ := C76_source 5 6 _ _ r2 _ hl3
  have r3 := Sys.Reach.step r2 hl3 e3
  generalize ha3 : (CFlatSpec.sys 5 6).next a2 (.call (2 ^ 20) .hashlin (.search cmp 100) 0 fun _ => 0) o3 = a3 at r3
  have t3 : ∃ T, a3.tab = upd a2.tab (2 ^ 20) (some T) ∧ T.sz.ty = .hashlin := by
    rw [← ha3]
    simp only [CFlatSpec.sys, HashFlatSpec.next, t2, upd_same, Option.map_some]
    exact ⟨_, rfl, rfl⟩
  obtain ⟨T3, t3, hT3⟩ := t3
  have v3 : a3.env = env0 := by rw [← ha3, ← v1]; show a2.env = _; rw [← ha2]; rfl
  have hl4 : (CFlatSpec.sys 5 6).legal a3 (.done (2 ^ 20) .hashlin) := ⟨⟨T3, by rw [t3, upd_same], hT3⟩, trivial⟩
  obtain ⟨o4, s4, e4, A4⟩ := C76_source 5 6 _ _ r3 _ hl4
  have r4 := Sys.Reach.step r3 hl4 e4
  refine ⟨s0, _, s1, o1, s2, o2, s3, o3, s4, o4, r0, e1, ?_, e2, e3, ?_, e4, ?_⟩
  · exact (C75_regions (C76_reach r1) _ _).2 (.inr ⟨2 ^ 20, _, by rw [t1, upd_same], List.mem_singleton_self _⟩)
  · obtain ⟨T, hT, A, _⟩ := A3
    rw [t2, upd_same, Option.some.injEq] at hT
    subst hT
    rw [show o3.res = _ from A]
    simp [HashSpec.hit, cmp]
  · have := C76_release r4 fun b => by
      simp only [CFlatSpec.sys, HashFlatSpec.next, t3, t2, t1, upd_apply]
      split <;> rfl
    rw [this]
    show a3.env _ = _
    rw [v3]; rfl

/-- foreach and foreach_arg of the text in C, with a function that frees, on a `tommy_hashlin` without elements. -/
example : ∃ s : AMem, ∃ w' : BMem, ∃ v, ∃ v', let w : BMem := ⟨s, [(0, fun _ => 0)], []⟩
    CFlatSpec.fn (CFlatSpec.freeExt 5) .hashlin "tommy_hashtable_foreach" "tommy_hashdyn_foreach" "tommy_hashlin_foreach"
      [CFlatSpec.pTab .hashlin (2 ^ 20 + 64), CFlatSpec.pFunc 5] w = some (v, w') ∧
    CFlatSpec.fn (fun _ vs => do bfree (vs.getLast?.elim 0 C.Val.v); return ⟨.void, 0⟩) .hashlin "tommy_hashtable_foreach_arg"
      "tommy_hashdyn_foreach_arg" "tommy_hashlin_foreach_arg"
      [CFlatSpec.pTab .hashlin (2 ^ 20 + 64), CFlatSpec.pFunc 5, CFlatSpec.pVoid 6] w = some (v', w') := by
  obtain ⟨s, a, h⟩ := HashFlatEx.start
  have hT : a.tab (2 ^ 20 + 64) = some ⟨.hashlin ⟨64, 64, .stable⟩, [], [(2 ^ 23, 512)]⟩ := by
    rw [h.tab, HashFlatEx.tab_iff]; exact .inr ⟨rfl, rfl⟩
  have hl : HashFlatSpec.sys.legal a (.destroy (2 ^ 20 + 64) .hashlin) := by
    refine ⟨_, hT, rfl, fun e he => ?_⟩
    exact absurd he List.not_mem_nil
  obtain ⟨o, s', e, _⟩ := C75_flat s a h.reach _ hl
  simp only [HashFlatEx.sys_step, HashFlatSpec.step, HashFlatSpec.run] at e
  obtain ⟨⟨u, w2⟩, e1, _⟩ := Option.map_eq_some_iff.1 e
  obtain ⟨_, w1, e2, _⟩ := C.bind_inv e1
  have hw : C.BOk ⟨s, [(0, fun _ => 0)], []⟩ := ⟨reach_byte h.reach, fun q hq x => by rw [List.mem_singleton.1 hq]; exact (by decide : 0 < 256)⟩
  obtain ⟨v, h1⟩ := C76_foreach .hashlin _ (CFlatSpec.isFree 5) C.keeps_free hw e2
  obtain ⟨v', h2⟩ := C76_foreach_arg (f := 5) (arg := 6) (ext := fun _ vs => do bfree (vs.getLast?.elim 0 C.Val.v); return ⟨.void, 0⟩) .hashlin _
    (fun _ => rfl) C.keeps_free hw e2
  exact ⟨s, w1, v, v', h1, h2⟩

end CFlatEx

end Tommy
