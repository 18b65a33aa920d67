import Verif.Proof.CTreeForeach
/-!
  Property C78: the text of tommytree in C.
-/
set_option autoImplicit false
set_option linter.unusedSectionVars false
set_option linter.unusedSimpArgs false
namespace Tommy

open CTreeSpec
open TreeSpec (OSet)

section
variable [Arch]

/-- **C78** The text of `tommytree.h` and `tommytree.c`, with the meaning that the C language gives to it, executed by a program with any
    number of trees in a memory of bytes: all the calls are without undefined behaviour and terminate, return what the set contains, and
    change only the bytes of the tree and the node inserted. `K` are the comparison functions, by address. -/
theorem C78_source (K : Cmps) : (CTreeSpec.sys K).Correct :=
  Sys.correct_of_inv (Inv := Iv K) (fun s a h => init_iv s a h) fun s a op i h => step_iv s a op i h

/-- C78, said on a sequence of calls. -/
theorem C78_history (K : Cmps) (s : AMem) (a : Ab) (h : (CTreeSpec.sys K).init s a) (ops : List CTreeSpec.Op) : (CTreeSpec.sys K).Runs s a ops :=
  (C78_source K).runs ops s a (.init h)

variable {K : Cmps} {s : AMem} {a : Ab}

theorem C78_iv (h : (CTreeSpec.sys K).Reach s a) : Iv K s a :=
  Sys.reach_inv (Inv := Iv K) (fun s a h => init_iv s a h) (fun s a op i h => step_iv s a op i h) s a h

/-- The trees never share a byte, and neither do the blocks of a tree; all of them are in the memory of the program. -/
theorem C78_apart (h : (CTreeSpec.sys K).Reach s a) {t t' : Nat} {o o' : OSet} (ht : a.tab t = some o) (ht' : a.tab t' = some o')
    {b b' : Nat × Nat} (hb : b ∈ blocks t o) (hb' : b' ∈ blocks t' o') (hne : (t, b) ≠ (t', b')) :
    InReg s b.1 b.2 ∧ (b.1 + b.2 ≤ b'.1 ∨ b'.1 + b'.2 ≤ b.1) := by
  have i := C78_iv h
  refine ⟨blocks_reg i ht hb, ?_⟩
  show Apart b b'
  have l := i.lay t o ht
  by_cases e : t' = t
  · subst e
    rw [ht] at ht'
    cases ht'
    rcases mem_blocks.1 hb with rfl | ⟨p, hp, rfl⟩ <;> rcases mem_blocks.1 hb' with rfl | ⟨q, hq, rfl⟩
    · exact absurd rfl hne
    · exact (l.str q hq).symm
    · exact l.str p hp
    · exact l.node p q hp hq fun e => hne (by rw [e])
  · rcases mem_blocks.1 hb with rfl | ⟨p, hp, rfl⟩
    · exact l.soth t' o' e ht' b' hb'
    · exact l.oth p hp t' o' e ht' b' hb'

/-- No two elements of a tree are equal. -/
theorem C78_unique (h : (CTreeSpec.sys K).Reach s a) {t : Nat} {o : OSet} (ht : a.tab t = some o) {e e' : Ptr × Nat} (he : e ∈ o.elems)
    (he' : e' ∈ o.elems) (hc : o.cmp e.2 e'.2 = 0) : e = e' := by
  obtain ⟨T, k⟩ := (C78_iv h).tree t o ht
  have hx := (k.mem e.1).2 (List.mem_map_of_mem he)
  have hx' := (k.mem e'.1).2 (List.mem_map_of_mem he')
  have d := k.data e he
  have d' := k.data e' he'
  have : e.1 = e'.1 := by
    by_contra hne
    have inc : T.nodes.Pairwise fun x y => o.cmp ((heapAt s (nodes o)).data x) ((heapAt s (nodes o)).data y) ≠ 0 ∧
        o.cmp ((heapAt s (nodes o)).data y) ((heapAt s (nodes o)).data x) ≠ 0 := by
      refine List.Pairwise.imp ?_ k.inc
      intro x y hxy
      have := (k.tp.sign _ _).1 hxy
      exact ⟨by omega, by omega⟩
    have : Std.Symm fun x y => o.cmp ((heapAt s (nodes o)).data x) ((heapAt s (nodes o)).data y) ≠ 0 ∧
        o.cmp ((heapAt s (nodes o)).data y) ((heapAt s (nodes o)).data x) ≠ 0 := ⟨fun _ _ h => ⟨h.2, h.1⟩⟩
    have := inc.forall hx hx' hne
    rw [d, d'] at this
    exact this.1 hc
  exact Prod.ext this (by rw [← d, ← d', this])

/-- **C78** foreach and foreach_arg: the same as calling the function of the client on each payload once, in strictly increasing order, for any
    function (which may write anywhere, allocate and deallocate) that leaves alone the elements not yet visited. -/
theorem C78_foreach (h : (CTreeSpec.sys K).Reach s a) {t : Nat} {o : OSet} (ht : a.tab t = some o) :
    ∃ l, l.Perm o.elems ∧ (l.Pairwise fun x y => o.cmp x.2 y.2 < 0) ∧
      ∀ (ext : C.Ext) (func : Nat → BM Unit) (ms : List (Nat × (Nat → Nat))) (log : List BEvent),
        (∀ as x bs, l = as ++ x :: bs → ∀ W, callAll func (as.map Prod.snd) ⟨s, ms, log⟩ = some ((), W) →
          CTreeSpec.Same s W.mem ((x :: bs).map Prod.fst)) →
        (∀ f, (∀ d, ext f [pVoid d] = (do func d; return ⟨.void, 0⟩)) →
          C.run ext "tommy_tree_foreach" [pTree t, pFunc f] ⟨s, ms, log⟩ = (callAll func (l.map Prod.snd) ⟨s, ms, log⟩).map fun r => (⟨.void, 0⟩, r.2)) ∧
        (∀ f arg, (∀ d, ext f [pVoid arg, pVoid d] = (do func d; return ⟨.void, 0⟩)) →
          C.run ext "tommy_tree_foreach_arg" [pTree t, pFunc f, pVoid arg] ⟨s, ms, log⟩ =
            (callAll func (l.map Prod.snd) ⟨s, ms, log⟩).map fun r => (⟨.void, 0⟩, r.2)) := by
  have i := C78_iv h
  obtain ⟨T, k⟩ := i.tree t o ht
  have hm : (T.nodes.map (fun x => (x, rd s (x + nodData)))).Perm o.elems := by
    have := k.perm.map (fun x => (x, rd s (x + nodData)))
    rw [List.map_map] at this
    refine this.trans (List.Perm.of_eq ?_)
    conv => rhs; rw [← List.map_id o.elems]
    apply List.map_congr_left
    intro e he
    have := k.data e he
    simp only [heapAt] at this
    simp only [Function.comp, this, id]
  refine ⟨_, hm, ?_, ?_⟩
  · rw [List.pairwise_map]; exact k.inc
  intro ext func ms log hf
  have hf' : ∀ as x bs, T.nodes = as ++ x :: bs → ∀ W : BMem, callAll func (as.map fun x => rd s (x + nodData)) ⟨s, ms, log⟩ = some ((), W) →
      CTreeSpec.Same s W.mem (x :: bs) := by
    intro as x bs e W g
    have := hf (as.map fun x => (x, rd s (x + nodData))) (x, rd s (x + nodData)) (bs.map fun x => (x, rd s (x + nodData))) (by rw [e]; simp) W
    simp only [List.map_cons, List.map_map, Function.comp_def, List.map_id'] at this
    exact this g
  have root : bget t ⟨s, ms, log⟩ = some (rd s t, ⟨s, ms, log⟩) := by
    obtain ⟨b, n, h1, h2, h3⟩ := (i.lay t o ht).sreg
    have : ptrSize ≤ treeSize := by unfold treeSize; omega
    unfold bget bgetN
    rw [if_pos (AllocSpec.acc_of h1 h2 (by omega))]
  rw [List.map_map]
  constructor
  · intro f hfn
    have e := foreach_spec (S := nodes o) (foreach_text ext hfn) T (rd s t) ⟨s, ms, log⟩ k.rep hf'
    show C.run ext "tommy_tree_foreach" [⟨C.tTree, t⟩, ⟨.ptr .fn, f⟩] _ = _
    rw [run_foreach]
    simp only [run_bind, root, Option.bind_some]
    rw [e]
    show ((callAll func (T.nodes.map fun x => rd s (x + nodData)) _).map _).bind _ = (callAll func (T.nodes.map fun x => rd s (x + nodData)) _).map _
    cases callAll func (T.nodes.map fun x => rd s (x + nodData)) ⟨s, ms, log⟩ <;> rfl
  · intro f arg hfn
    have e := foreach_spec (S := nodes o) (foreach_arg_text ext hfn) T (rd s t) ⟨s, ms, log⟩ k.rep hf'
    show C.run ext "tommy_tree_foreach_arg" [⟨C.tTree, t⟩, ⟨.ptr .fn, f⟩, ⟨.ptr .void, arg⟩] _ = _
    rw [run_foreach_arg]
    simp only [run_bind, root, Option.bind_some]
    rw [e]
    show ((callAll func (T.nodes.map fun x => rd s (x + nodData)) _).map _).bind _ = (callAll func (T.nodes.map fun x => rd s (x + nodData)) _).map _
    cases callAll func (T.nodes.map fun x => rd s (x + nodData)) ⟨s, ms, log⟩ <;> rfl

/-- **C78** The documented deallocation (tommytree.h:176-205), `tommy_tree_foreach(&tree, free)`: if the payload of each node is the address of the
    object of the node, allocated with malloc(), the objects are freed once each, in increasing order, and nothing else changes. -/
theorem C78_free (h : (CTreeSpec.sys K).Reach s a) {t : Nat} {o : OSet} (ht : a.tab t = some o) {ext : C.Ext} {f : Nat}
    (hx : ∀ d, ext f [pVoid d] = (do bfree d; return ⟨.void, 0⟩)) (ms : List (Nat × (Nat → Nat))) (log : List BEvent)
    (hr : ∀ e ∈ o.elems, ∃ n, s.live e.2 = some n ∧ e.2 ≤ e.1 ∧ e.1 + nodeSize ≤ e.2 + n) (hn : (o.elems.map Prod.snd).Nodup) :
    ∃ l : List (Nat × Nat), l.Perm o.elems ∧ (l.Pairwise fun x y => o.cmp x.2 y.2 < 0) ∧
      C.run ext "tommy_tree_foreach" [pTree t, pFunc f] ⟨s, ms, log⟩ =
        some (⟨.void, 0⟩, ⟨⟨s.byte, fun b => if b ∈ o.elems.map Prod.snd then none else s.live b⟩, ms, log ++ (l.map Prod.snd).map .gave⟩) := by
  obtain ⟨l, pm, pw, hl⟩ := C78_foreach h ht
  refine ⟨l, pm, pw, ?_⟩
  have pm' := pm.map Prod.snd
  have hr : ∀ e ∈ l, ∃ n, s.live e.2 = some n ∧ e.2 ≤ e.1 ∧ e.1 + nodeSize ≤ e.2 + n := fun e he => hr e (pm.mem_iff.1 he)
  rw [← pm'.nodup_iff] at hn
  have live : ∀ d ∈ l.map Prod.snd, (s.live d).isSome := by
    intro d hm
    obtain ⟨p, hp, rfl⟩ := List.mem_map.1 hm
    obtain ⟨n, e, _⟩ := hr p hp
    rw [e]; rfl
  have := (hl ext bfree ms log ?_).1 f hx
  · rw [this, callAll_free _ _ _ hn live]
    simp only [pm'.mem_iff]
    rfl
  intro as x bs e b hb p hq
  obtain ⟨p, hp, rfl⟩ := List.mem_map.1 hq
  rw [e, List.map_append, List.nodup_append] at hn
  rw [callAll_free _ _ _ hn.1 fun d hd => live d (by rw [e, List.map_append]; exact List.mem_append_left _ hd)] at hb
  cases hb
  obtain ⟨n, h1, h2, h3⟩ := hr p (by rw [e]; exact List.mem_append_right _ hp)
  refine ⟨⟨p.2, n, ?_, h2, h3⟩, fun _ _ _ => rfl⟩
  have : p.2 ∉ as.map Prod.snd := fun hm => hn.2.2 _ hm _ (List.mem_map_of_mem hp) rfl
  simp only [if_neg this, h1]

end

/-! ### Example: a tree of integers, in a 64 bit build -/

namespace CTreeEx
attribute [local instance] Arch.w64

/-- 4096 bytes at 2^20. -/
def env0 (p : Nat) : Option Nat := if p = 2 ^ 20 then some 4096 else none

theorem env0_iff {p n : Nat} : env0 p = some n ↔ p = 2 ^ 20 ∧ n = 4096 := by
  unfold env0; split
  · simp only [Option.some.injEq]; constructor <;> omega
  · simp only [reduceCtorEq, false_iff]; omega

/-- All the comparison functions compare the payloads as numbers. -/
def K : Cmps := fun _ x y => if x < y then -1 else if y < x then 1 else 0

theorem K_pre (c : Nat) : ListSpec.TotalPreorder (K c) := by
  constructor
  · intro a b; unfold K; split <;> split <;> omega
  · intro a b c; unfold K; split <;> split <;> (try split) <;> (try split) <;> (try split) <;> omega

theorem K_int (c : Nat) : IsInt (K c) := by
  intro x y; unfold K; split
  · decide
  split <;> decide

/-- The tree is at 2^20, the local variables of the calls at 2^21. -/
def stack : Nat → Nat := fun _ => 204

/-- A function of the client, at the address 9: it writes the payload at 2^20 + 3072. -/
def func (d : Nat) : BM Unit := bset (2 ^ 20 + 3072) d
def fext : C.Ext := fun f vs =>
  match vs with
  | [x] => if f = 9 then (do func x.v; return ⟨.void, 0⟩) else C.fail
  | _ => C.fail

theorem func_same {s : AMem} {W1 W2 : BMem} {d : Nat} {xs : List Nat} (hx : ∀ x ∈ xs, x + nodeSize ≤ 2 ^ 20 + 3072) (h : CTreeSpec.Same s W1.mem xs)
    (e : func d W1 = some ((), W2)) : CTreeSpec.Same s W2.mem xs := by
  unfold func bset bsetN at e
  split at e
  · cases e
    intro x hxs
    refine ⟨(h x hxs).1, fun y h1 h2 => ?_⟩
    have := hx x hxs
    simp only
    rw [HashFlat.wrN_out (.inl (by omega))]
    exact (h x hxs).2 y h1 h2
  · cases e

theorem funcs_same {s : AMem} {xs : List Nat} (hx : ∀ x ∈ xs, x + nodeSize ≤ 2 ^ 20 + 3072) (ds : List Nat) : ∀ {W1 W2 : BMem},
    CTreeSpec.Same s W1.mem xs → callAll func ds W1 = some ((), W2) → CTreeSpec.Same s W2.mem xs := by
  induction ds with
  | nil => intro W1 W2 h e; cases e; exact h
  | cons d ds ih =>
    intro W1 W2 h e
    simp only [callAll, run_bind] at e
    cases hc : func d W1 with
    | none => rw [hc] at e; cases e
    | some r => rw [hc] at e; exact ih (func_same hx h hc) e

/-- In a tree with 5 and 7 the function is called first with 5 and then with 7. -/
theorem foreach_ex {s : AMem} {a : Ab} (h : (CTreeSpec.sys K).Reach s a) (hl : a.mem.live = env0)
    (ht : a.tab (2 ^ 20) = some ⟨K 5, [(2 ^ 20 + 1024, 7), (2 ^ 20 + 2048, 5)]⟩) :
    ∃ v W, C.run fext "tommy_tree_foreach" [pTree (2 ^ 20), pFunc 9] ⟨s, [], []⟩ = some (v, W) ∧ rdN W.mem.byte (2 ^ 20 + 3072) 8 = 7 := by
  obtain ⟨l, pm, pw, hl'⟩ := C78_foreach h ht
  have e : l = [(2 ^ 20 + 2048, 5), (2 ^ 20 + 1024, 7)] := by
    have hlen := pm.length_eq
    match l, hlen with
    | [x, y], _ =>
      have hx := pm.mem_iff (a := x)
      have hy := pm.mem_iff (a := y)
      simp only [List.mem_cons, List.not_mem_nil, or_false, true_or, or_true, true_iff] at hx hy
      simp only [List.pairwise_cons, List.mem_cons, List.not_mem_nil, or_false, forall_eq] at pw
      have := pw.1
      rcases hx with rfl | rfl <;> rcases hy with rfl | rfl
      · exact absurd this (by decide)
      · exact absurd this (by decide)
      · rfl
      · exact absurd this (by decide)
  subst e
  have hw : s.live = env0 := by rw [← (C78_iv h).mem]; exact hl
  obtain ⟨h1, _⟩ := hl' fext func [] [] (by
    intro as x bs e W g
    have hb : ∀ y ∈ (x :: bs).map Prod.fst, y = 2 ^ 20 + 2048 ∨ y = 2 ^ 20 + 1024 := by
      intro y hy
      obtain ⟨z, hz, rfl⟩ := List.mem_map.1 hy
      have : z ∈ [(2 ^ 20 + 2048, 5), (2 ^ 20 + 1024, 7)] := by rw [e]; exact List.mem_append_right _ hz
      simp only [List.mem_cons, List.not_mem_nil, or_false] at this
      exact this.imp (congrArg Prod.fst) (congrArg Prod.fst)
    refine funcs_same (fun y hy => ?_) _ (fun y hy => ⟨⟨2 ^ 20, 4096, by rw [hw]; rfl, ?_, ?_⟩, fun _ _ _ => rfl⟩) g <;>
      rcases hb y hy with rfl | rfl <;> decide)
  have acc : ∀ f, (⟨f, s.live⟩ : AMem).acc (2 ^ 20 + 3072) ptrSize = true := fun f =>
    AllocSpec.acc_of (b := 2 ^ 20) (n := 4096) (by simp only [hw]; rfl) (by decide) (by decide)
  rw [h1 9 (fun d => rfl)]
  refine ⟨⟨.void, 0⟩, ⟨⟨wrN (wrN s.byte (2 ^ 20 + 3072) 8 5) (2 ^ 20 + 3072) 8 7, s.live⟩, [], []⟩, ?_, HashFlat.rdN_wrN (by decide)⟩
  simp only [List.map_cons, List.map_nil, callAll, func, bset, bsetN, run_bind]
  rw [if_pos (acc s.byte)]
  simp only [Option.bind_some]
  rw [if_pos (acc _)]
  rfl

/-- The functions in C: init, the insertion of 7 and of 5, the search of 5, foreach, and the removal of 5. -/
example : ∃ s a s1 o1 s2 o2 s3 o3 s4 o4 s5 o5 s6 o6, (CTreeSpec.sys K).Reach s a ∧
    CTreeSpec.step K (.init (2 ^ 20) 5) s = some (o1, s1) ∧
    CTreeSpec.step K (.insert (2 ^ 20) (2 ^ 20 + 1024) 7 (2 ^ 21) stack) s1 = some (o2, s2) ∧ o2.res = 7 ∧
    CTreeSpec.step K (.insert (2 ^ 20) (2 ^ 20 + 2048) 5 (2 ^ 21) stack) s2 = some (o3, s3) ∧ o3.res = 5 ∧
    CTreeSpec.step K (.search (2 ^ 20) 5) s3 = some (o4, s4) ∧ o4.res = 5 ∧
    (∃ v W, C.run fext "tommy_tree_foreach" [pTree (2 ^ 20), pFunc 9] ⟨s4, [], []⟩ = some (v, W) ∧ rdN W.mem.byte (2 ^ 20 + 3072) 8 = 7) ∧
    CTreeSpec.step K (.remove (2 ^ 20) 5 (2 ^ 21) stack) s4 = some (o5, s5) ∧ o5.res = 5 ∧
    CTreeSpec.step K (.search (2 ^ 20) 5) s5 = some (o6, s6) ∧ o6.res = 0 := by
  have r0 := Sys.Reach.init (sys := CTreeSpec.sys K) (s := ⟨fun _ => 85, env0⟩) (a := ⟨⟨fun _ => 85, env0⟩, fun _ => none⟩)
    ⟨rfl, ⟨fun _ => (by decide : 85 < 256), fun b n h => by
      obtain ⟨rfl, rfl⟩ := env0_iff.1 h; decide, fun b n b' n' h h' hne => by
      obtain ⟨rfl, rfl⟩ := env0_iff.1 h; obtain ⟨rfl, rfl⟩ := env0_iff.1 h'; exact absurd rfl hne⟩, fun _ => rfl⟩
  /- the state is known by the regions and the sets -/
  have av : ∀ {a : Ab}, a.mem.live = env0 → ∀ {o : OSet}, (∀ t o', a.tab t = some o' → t = 2 ^ 20 ∧ o' = o) → ∀ {p n : Nat}, 2 ^ 20 ≤ p → p + n ≤ 2 ^ 20 + 4096 →
      (∀ t o', a.tab t = some o' → ∀ b ∈ blocks t o', p + n ≤ b.1 ∨ b.1 + b.2 ≤ p) → a.Avail p n := by
    intro a hl o ht p n h1 h2 h3
    refine ⟨⟨2 ^ 20, 4096, by rw [hl]; rfl, h1, h2⟩, ?_⟩
    rintro x g1 g2 t ⟨o', ho, b, hb, g3, g4⟩
    have := h3 t o' ho b hb
    omega
  have stk : ∀ {a : Ab}, a.mem.live = env0 → a.Stack (2 ^ 21) stack := by
    intro a hl
    refine ⟨by decide, by decide, by rw [hl]; rfl, fun b n h => ?_, fun _ => (by decide : 204 < 256)⟩
    rw [hl] at h
    obtain ⟨rfl, rfl⟩ := env0_iff.1 h
    exact .inr (by decide)
  generalize hs0 : (⟨fun _ => 85, env0⟩ : AMem) = s0 at r0
  have hl0 : s0.live = env0 := by rw [← hs0]
  have l1 : (CTreeSpec.sys K).legal ⟨s0, fun _ => none⟩ (.init (2 ^ 20) 5) :=
    ⟨av hl0 (o := ⟨K 5, []⟩) (fun _ _ h => by cases h) (by decide) (by decide) (fun _ _ h => by cases h), K_pre 5, K_int 5, by decide⟩
  obtain ⟨o1, s1, e1, A1⟩ := C78_source K _ _ r0 _ l1
  have r1 := Sys.Reach.step r0 l1 e1
  obtain ⟨_, _, _, _, f1⟩ := A1
  have hl1 : o1.mem.live = env0 := (f1 fun h => h).1.trans hl0
  have tab : ∀ {tb : Nat → Option OSet} {o : OSet}, tb = upd (fun _ => none) (2 ^ 20) (some o) → ∀ t o', tb t = some o' → t = 2 ^ 20 ∧ o' = o := by
    intro tb o h t o' h'
    rw [h, upd_apply] at h'
    split at h'
    · next e => cases h'; exact ⟨e, rfl⟩
    · cases h'
  have updd : ∀ (o o' : OSet), upd (upd (fun _ => none) (2 ^ 20) (some o)) (2 ^ 20) (some o') = upd (fun _ => none) (2 ^ 20) (some o') := by
    intro o o'; funext x; simp only [upd_apply]; split <;> rfl
  generalize ha1 : (CTreeSpec.sys K).next ⟨s0, fun _ => none⟩ (.init (2 ^ 20) 5) o1 = a1 at r1
  have m1 : a1.mem.live = env0 := by rw [← ha1]; exact hl1
  have t1 : a1.tab = upd (fun _ => none) (2 ^ 20) (some ⟨K 5, []⟩) := by rw [← ha1]; rfl
  have l2 : (CTreeSpec.sys K).legal a1 (.insert (2 ^ 20) (2 ^ 20 + 1024) 7 (2 ^ 21) stack) := by
    refine ⟨by rw [t1, upd_same]; rfl, av m1 (tab t1) (by decide) (by decide) ?_, by decide, stk m1⟩
    intro t o ho b hb
    obtain ⟨rfl, rfl⟩ := tab t1 t o ho
    simp only [blocks, List.map_nil, List.mem_cons, List.not_mem_nil, or_false] at hb
    subst hb; exact .inr (by decide)
  obtain ⟨o2, s2, e2, A2⟩ := C78_source K _ _ r1 _ l2
  have r2 := Sys.Reach.step r1 l2 e2
  obtain ⟨v2, _, _, _, f2⟩ := A2
  have v2 : o2.res = 7 := (v2 _ (by rw [t1, upd_same])).trans (by decide)
  generalize ha2 : (CTreeSpec.sys K).next a1 (.insert (2 ^ 20) (2 ^ 20 + 1024) 7 (2 ^ 21) stack) o2 = a2 at r2
  have m2 : a2.mem.live = env0 := by rw [← ha2]; exact (f2 fun h => h).1.trans m1
  have t2 : a2.tab = upd (fun _ => none) (2 ^ 20) (some ⟨K 5, [(2 ^ 20 + 1024, 7)]⟩) := by
    rw [← ha2]
    simp only [CTreeSpec.sys, CTreeSpec.next, t1, upd_same, Option.map_some, updd]
    rfl
  have l3 : (CTreeSpec.sys K).legal a2 (.insert (2 ^ 20) (2 ^ 20 + 2048) 5 (2 ^ 21) stack) := by
    refine ⟨by rw [t2, upd_same]; rfl, av m2 (tab t2) (by decide) (by decide) ?_, by decide, stk m2⟩
    intro t o ho b hb
    obtain ⟨rfl, rfl⟩ := tab t2 t o ho
    simp only [blocks, List.map_nil, List.map_cons, List.mem_cons, List.not_mem_nil, or_false] at hb
    rcases hb with rfl | rfl <;> exact .inr (by decide)
  obtain ⟨o3, s3, e3, A3⟩ := C78_source K _ _ r2 _ l3
  have r3 := Sys.Reach.step r2 l3 e3
  obtain ⟨v3, _, _, _, f3⟩ := A3
  have v3 : o3.res = 5 := (v3 _ (by rw [t2, upd_same])).trans (by decide)
  generalize ha3 : (CTreeSpec.sys K).next a2 (.insert (2 ^ 20) (2 ^ 20 + 2048) 5 (2 ^ 21) stack) o3 = a3 at r3
  have m3 : a3.mem.live = env0 := by rw [← ha3]; exact (f3 fun h => h).1.trans m2
  have t3 : a3.tab = upd (fun _ => none) (2 ^ 20) (some ⟨K 5, [(2 ^ 20 + 1024, 7), (2 ^ 20 + 2048, 5)]⟩) := by
    rw [← ha3]
    simp only [CTreeSpec.sys, CTreeSpec.next, t2, upd_same, Option.map_some, updd]
    rfl
  have l4 : (CTreeSpec.sys K).legal a3 (.search (2 ^ 20) 5) := by
    show (a3.tab _).isSome
    rw [t3, upd_same]; rfl
  obtain ⟨o4, s4, e4, A4⟩ := C78_source K _ _ r3 _ l4
  have r4 := Sys.Reach.step r3 l4 e4
  obtain ⟨v4, _, _, _, f4⟩ := A4
  have v4 : o4.res = 5 := (v4 _ (by rw [t3, upd_same])).trans (by decide)
  generalize ha4 : (CTreeSpec.sys K).next a3 (.search (2 ^ 20) 5) o4 = a4 at r4
  have m4 : a4.mem.live = env0 := by rw [← ha4]; exact (f4 fun h => h).1.trans m3
  have t4 : a4.tab = a3.tab := by rw [← ha4]; rfl
  have l5 : (CTreeSpec.sys K).legal a4 (.remove (2 ^ 20) 5 (2 ^ 21) stack) := ⟨by rw [t4, t3, upd_same]; rfl, stk m4⟩
  obtain ⟨o5, s5, e5, A5⟩ := C78_source K _ _ r4 _ l5
  have r5 := Sys.Reach.step r4 l5 e5
  obtain ⟨v5, _, _, _, f5⟩ := A5
  have v5 : o5.res = 5 := (v5 _ (by rw [t4, t3, upd_same])).trans (by decide)
  generalize ha5 : (CTreeSpec.sys K).next a4 (.remove (2 ^ 20) 5 (2 ^ 21) stack) o5 = a5 at r5
  have t5 : a5.tab = upd (fun _ => none) (2 ^ 20) (some ⟨K 5, [(2 ^ 20 + 1024, 7)]⟩) := by
    rw [← ha5]
    simp only [CTreeSpec.sys, CTreeSpec.next, t4, t3, upd_same, Option.map_some, updd]
    rfl
  have l6 : (CTreeSpec.sys K).legal a5 (.search (2 ^ 20) 5) := by
    show (a5.tab _).isSome
    rw [t5, upd_same]; rfl
  obtain ⟨o6, s6, e6, A6⟩ := C78_source K _ _ r5 _ l6
  have v6 : o6.res = 0 := (A6.1 _ (by rw [t5, upd_same])).trans (by decide)
  exact ⟨_, _, _, _, _, _, _, _, _, _, _, _, _, _, r0, e1, e2, v2, e3, v3, e4, v4, foreach_ex r4 m4 (by rw [t4, t3, upd_same]), e5, v5, e6, v6⟩

/-! ### Example: two objects in a tree, and their deallocation -/

/-- 64 bytes at 2^20, and two objects of 48 bytes. -/
def env1 (p : Nat) : Option Nat := if p = 2 ^ 20 then some 64 else if p = 2 ^ 22 ∨ p = 2 ^ 23 then some 48 else none

theorem env1_iff {p n : Nat} : env1 p = some n ↔ p = 2 ^ 20 ∧ n = 64 ∨ (p = 2 ^ 22 ∨ p = 2 ^ 23) ∧ n = 48 := by
  unfold env1
  split
  · simp only [Option.some.injEq]; constructor <;> omega
  split
  · simp only [Option.some.injEq]; constructor <;> omega
  · simp only [reduceCtorEq, false_iff]; omega

/-- A state of the program, with the tree at 2^20. -/
structure At (l : List (Nat × Nat)) (s : AMem) (a : Ab) : Prop where
  reach : (CTreeSpec.sys K).Reach s a
  live : a.mem.live = env1
  tab : ∀ t, a.tab t = if t = 2 ^ 20 then some ⟨K 5, l⟩ else none

/-- The objects are the payloads, and the nodes are at the offset 16. -/
theorem At.insert {l : List (Nat × Nat)} {s : AMem} {a : Ab} (h : At l s a) {d : Nat} (hd : d = 2 ^ 22 ∨ d = 2 ^ 23)
    (hl : ∀ e ∈ l, e.1 = e.2 + 16 ∧ (e.2 = 2 ^ 22 ∨ e.2 = 2 ^ 23) ∧ e.2 ≠ d) : ∃ s' a', At (l ++ [(d + 16, d)]) s' a' := by
  have t0 : a.tab (2 ^ 20) = some ⟨K 5, l⟩ := by rw [h.tab, if_pos rfl]
  have leg : (CTreeSpec.sys K).legal a (.insert (2 ^ 20) (d + 16) d (2 ^ 21) stack) := by
    have hns : nodeSize = 32 := by decide
    have hts : treeSize = 24 := by decide
    refine ⟨by rw [t0]; rfl, ⟨⟨d, 48, by rw [h.live]; exact env1_iff.2 (.inr ⟨hd, rfl⟩), by omega, by omega⟩, ?_⟩, ?_, ⟨by decide, by decide, by rw [h.live]; rfl, ?_,
      fun _ => (by decide : 204 < 256)⟩⟩
    · rintro x g1 g2 t ⟨o', ho, b, hb, g3, g4⟩
      rw [h.tab] at ho
      split at ho
      · cases ho
        simp only [blocks, List.mem_cons, List.mem_map] at hb
        rcases hb with rfl | ⟨e, he, rfl⟩
        · simp only at g3 g4; omega
        · have := hl e he; simp only at g3 g4; omega
      · cases ho
    · rw [show sizeBit = 64 from rfl]; omega
    · intro b n hb
      rw [h.live, env1_iff] at hb
      rw [show ptrSize = 8 from rfl]; omega
  obtain ⟨o, s', e, A⟩ := C78_source K _ _ h.reach _ leg
  refine ⟨s', _, .step h.reach leg e, (A.2.2.2.2 fun h => h).1.trans h.live, fun t => ?_⟩
  show upd a.tab (2 ^ 20) ((a.tab (2 ^ 20)).map _) t = _
  rw [t0, upd_apply]
  split
  · have : (⟨K 5, l⟩ : OSet).find d = none := by
      refine List.find?_eq_none.2 fun e he hc => ?_
      have := (hl e he).2.2
      simp only [decide_eq_true_eq] at hc
      unfold K at hc
      split at hc
      · omega
      split at hc <;> omega
    simp only [Option.map_some, CTreeSpec.after, this]
    rfl
  · rw [h.tab, if_neg (by assumption)]

/-- `tommy_tree_foreach(&tree, free)` frees the two objects, in increasing order. -/
example : ∃ s a, (CTreeSpec.sys K).Reach s a ∧
    C.run (fun _ vs => do bfree ((vs.getLast?.map C.Val.v).getD 0); return ⟨.void, 0⟩) "tommy_tree_foreach" [pTree (2 ^ 20), pFunc 9] ⟨s, [], []⟩ =
      some (⟨.void, 0⟩, ⟨⟨s.byte, fun p => if p = 2 ^ 20 then some 64 else none⟩, [], [.gave (2 ^ 22), .gave (2 ^ 23)]⟩) := by
  have r0 := Sys.Reach.init (sys := CTreeSpec.sys K) (s := ⟨fun _ => 85, env1⟩) (a := ⟨⟨fun _ => 85, env1⟩, fun _ => none⟩)
    ⟨rfl, ⟨fun _ => (by decide : 85 < 256), fun b n h => by
      rw [env1_iff] at h; rw [show sizeBit = 64 from rfl]; omega, fun b n b' n' h h' hne => by
      rw [env1_iff] at h h'; omega⟩, fun _ => rfl⟩
  have l1 : (CTreeSpec.sys K).legal ⟨⟨fun _ => 85, env1⟩, fun _ => none⟩ (.init (2 ^ 20) 5) :=
    ⟨⟨⟨2 ^ 20, 64, rfl, by decide, by decide⟩, by rintro x _ _ t ⟨o', ho, _⟩; cases ho⟩, K_pre 5, K_int 5, by decide⟩
  obtain ⟨o1, s1, e1, A1⟩ := C78_source K _ _ r0 _ l1
  have B1 : At [] s1 _ := ⟨.step r0 l1 e1, (A1.2.2.2.2 fun h => h).1, fun t => by
    show upd _ _ _ t = _
    rw [upd_apply]⟩
  obtain ⟨s2, a2, B2⟩ := B1.insert (d := 2 ^ 23) (.inr rfl) nofun
  obtain ⟨s3, a3, B3⟩ := B2.insert (d := 2 ^ 22) (.inl rfl) (by
    intro e he
    simp only [List.nil_append, List.mem_singleton] at he
    subst he; decide)
  have t3 : a3.tab (2 ^ 20) = some ⟨K 5, [(2 ^ 23 + 16, 2 ^ 23), (2 ^ 22 + 16, 2 ^ 22)]⟩ := by rw [B3.tab, if_pos rfl]; rfl
  have lv : s3.live = env1 := by rw [← (C78_iv B3.reach).mem]; exact B3.live
  obtain ⟨l, pm, pw, e⟩ := C78_free B3.reach t3 (f := 9) (ext := fun _ vs => do bfree ((vs.getLast?.map C.Val.v).getD 0); return ⟨.void, 0⟩) (fun d => rfl) [] [] (by
    intro e he
    simp only [List.mem_cons, List.not_mem_nil, or_false] at he
    rcases he with rfl | rfl
    · exact ⟨48, by rw [lv]; rfl, by decide, by decide⟩
    · exact ⟨48, by rw [lv]; rfl, by decide, by decide⟩) (by decide)
  refine ⟨s3, a3, B3.reach, e.trans ?_⟩
  have el : l = [(2 ^ 22 + 16, 2 ^ 22), (2 ^ 23 + 16, 2 ^ 23)] := by
    have hlen := pm.length_eq
    match l, hlen with
    | [x, y], _ =>
      have hx := pm.mem_iff (a := x)
      have hy := pm.mem_iff (a := y)
      simp only [List.mem_cons, List.not_mem_nil, or_false, true_or, or_true, true_iff] at hx hy
      simp only [List.pairwise_cons, List.mem_cons, List.not_mem_nil, or_false, forall_eq] at pw
      have := pw.1
      rcases hx with rfl | rfl <;> rcases hy with rfl | rfl
      · exact absurd this (by decide)
      · exact absurd this (by decide)
      · rfl
      · exact absurd this (by decide)
  subst el
  have : (fun b => if b ∈ [(2 ^ 23 + 16, 2 ^ 23), (2 ^ 22 + 16, 2 ^ 22)].map Prod.snd then none else s3.live b) = fun p => if p = 2 ^ 20 then some 64 else none := by
    funext b
    rw [lv]
    show (if b ∈ [2 ^ 23, 2 ^ 22] then none else if b = 2 ^ 20 then some 64 else if b = 2 ^ 22 ∨ b = 2 ^ 23 then some 48 else none) = _
    simp only [List.mem_cons, List.not_mem_nil, or_false]
    split
    · rw [if_neg (by omega)]
    · split
      · rfl
      · rw [if_neg (by omega)]
  rw [this]
  rfl

end CTreeEx
end Tommy
