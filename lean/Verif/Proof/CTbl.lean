import Verif.Proof.CLoop
import Verif.Proof.CBits
/-! The functions of tommyhashtbl.c and tommyhashtbl.h. -/
set_option autoImplicit false
namespace Tommy.C
open Src
variable [Arch] (ext : Ext)

abbrev tTbl : CTy := .ptr (.struct "tommy_hashtable_struct")

@[csem] theorem field_tblBucket : field structs "tommy_hashtable_struct" "bucket" = some (.ptr tNode, tblBucket) := by cases ‹Arch› <;> rfl
@[csem] theorem field_tblMax : field structs "tommy_hashtable_struct" "bucket_max" = some (.usize, tblMax) := by cases ‹Arch› <;> rfl
@[csem] theorem field_tblMask : field structs "tommy_hashtable_struct" "bucket_mask" = some (.usize, tblMask) := by cases ‹Arch› <;> rfl
@[csem] theorem field_tblCount : field structs "tommy_hashtable_struct" "count" = some (.usize, tblCount) := by cases ‹Arch› <;> rfl

@[csem] theorem run_hashtable_bucket (t : CTy) (p h : Nat) :
    run ext "tommy_hashtable_bucket" [⟨.ptr t, p⟩, ⟨.usize, h⟩] = (do let v ← bhashtableBucket p h; return ⟨tNode, v⟩) := by
  rw [run_fun rfl (show funs _ = some f_tommy_hashtable_bucket from rfl)]
  unfold bhashtableBucket f_tommy_hashtable_bucket
  simp only [Stmt.list]
  csimp

@[csem] theorem run_hashtable_count (t : CTy) (p : Nat) :
    run ext "tommy_hashtable_count" [⟨.ptr t, p⟩] = (do let v ← bhashtableCount p; return ⟨.usize, v⟩) := by
  rw [run_fun rfl (show funs _ = some f_tommy_hashtable_count from rfl)]
  unfold bhashtableCount f_tommy_hashtable_count
  simp only [Stmt.list]
  csimp

@[csem] theorem run_hashtable_insert (s t u : CTy) (p node data h : Nat) :
    run ext "tommy_hashtable_insert" [⟨.ptr s, p⟩, ⟨.ptr t, node⟩, ⟨.ptr u, data⟩, ⟨.usize, h⟩] =
    (do bhashtableInsert p node data h; return ⟨.void, 0⟩) := by
  rw [run_fun rfl (show funs _ = some f_tommy_hashtable_insert from rfl)]
  unfold bhashtableInsert f_tommy_hashtable_insert
  simp only [Stmt.list]
  csimp

@[csem] theorem run_hashtable_done (s : CTy) (p : Nat) :
    run ext "tommy_hashtable_done" [⟨.ptr s, p⟩] = (do bhashtableDone p; return ⟨.void, 0⟩) := by
  rw [run_fun rfl (show funs _ = some f_tommy_hashtable_done from rfl)]
  unfold bhashtableDone f_tommy_hashtable_done
  simp only [Stmt.list]
  csimp

theorem sizeT_sum (a b : Nat) : Tommy.sizeT (Tommy.sizeT a + Tommy.sizeT b) = Tommy.sizeT (a + b) := (Nat.add_mod a b _).symm

@[csem] theorem run_hashtable_usage (s : CTy) (p : Nat) :
    run ext "tommy_hashtable_memory_usage" [⟨.ptr s, p⟩] = (do let v ← bhashtableMemoryUsage p; return ⟨.usize, v⟩) := by
  rw [run_fun rfl (show funs _ = some f_tommy_hashtable_memory_usage from rfl)]
  unfold bhashtableMemoryUsage f_tommy_hashtable_memory_usage
  simp only [Stmt.list]
  csimp [sizeT_sum]

theorem impl_hashtable_remove_existing (s t : CTy) (p node : Nat) : Impl (fun a b => b = ⟨.ptr .void, a⟩) (bhashtableRemoveExisting p node)
    (run ext "tommy_hashtable_remove_existing" [⟨.ptr s, p⟩, ⟨.ptr t, node⟩]) := by
  rw [run_fun rfl (show funs _ = some f_tommy_hashtable_remove_existing from rfl)]
  unfold bhashtableRemoveExisting f_tommy_hashtable_remove_existing
  simp only [Stmt.list]
  csimp
  refine Impl.same (keeps_get _) fun x h1 => Impl.same (keeps_get _) fun y h2 => Impl.same (keeps_get _) fun z h3 => Impl.same (keeps_listRemoveExisting _ _) fun _ _ => ?_
  refine Impl.same (keeps_get _) fun n h4 => ?_
  csimp [h4]
  exact Impl.same (keeps_set _ _) fun _ _ => Impl.last (keeps_get _) fun _ _ => rfl

theorem impl_hashtable_init (s : CTy) (p n : Nat) (hn : n < 2 ^ sizeBit) : Impl (fun _ b => b = ⟨.void, 0⟩) (bhashtableInit p n)
    (run ext "tommy_hashtable_init" [⟨.ptr s, p⟩, ⟨.usize, n⟩]) := by
  rw [run_fun rfl (show funs _ = some f_tommy_hashtable_init from rfl)]
  unfold bhashtableInit f_tommy_hashtable_init
  simp only [Stmt.list]
  csimp [name_round "hashtable" rfl, name_round "bucket_max" rfl, run_roundup ext hn, conv_usize_bitTy _ (roundup_lt n)]
  have key : ∀ m, Impl (fun _ (b : Val) => b = ⟨.void, 0⟩) (do
      bset (p + tblMax) m
      let max ← bget (p + tblMax)
      bset (p + tblMask) (decT max)
      let max ← bget (p + tblMax)
      let bucket ← bmalloc (Tommy.sizeT (max * ptrSize))
      bset (p + tblBucket) bucket
      let bucket ← bget (p + tblBucket)
      let max ← bget (p + tblMax)
      bzero bucket (Tommy.sizeT (max * ptrSize))
      bset (p + tblCount) 0) (do
      bset (p + tblMax) m
      let x ← bget (p + tblMax)
      let x ← lift (binop Bin.sub { ty := CTy.usize, v := x } { ty := CTy.s32, v := 1 })
      bset (p + tblMask) (conv CTy.usize x).v
      let x ← bget (p + tblMax)
      let x ← bmalloc (Tommy.sizeT (x * ptrSize))
      bset (p + tblBucket) x
      let x ← bget (p + tblBucket)
      let x_1 ← bget (p + tblMax)
      bzero x (Tommy.sizeT (x_1 * ptrSize))
      bset (p + tblCount) 0
      Pure.pure { ty := CTy.void, v := 0 }) := by
    intro m
    refine Impl.same (keeps_set _ _) fun _ _ => Impl.same (keeps_get _) fun x hx => ?_
    csimp [hx]
    refine Impl.same (keeps_set _ _) fun _ _ => Impl.same (keeps_get _) fun x hx => Impl.same (keeps_malloc _) fun x hx => Impl.same (keeps_set _ _) fun _ _ => ?_
    refine Impl.same (keeps_get _) fun x hx => Impl.same (keeps_get _) fun x hx => Impl.same (keeps_zero _ _) fun _ _ => Impl.last (keeps_set _ _) fun _ _ => rfl
  split
  · exact key _
  · exact key _
theorem impl_hashtable_search (s : CTy) {t f arg hash : Nat} {cmp : Nat → Int} (hc : IsCmp ext f arg cmp) :
    Impl (fun a b => b = ⟨.ptr .void, a⟩) (bhashtableSearch t cmp hash)
    (run ext "tommy_hashtable_search" [⟨.ptr s, t⟩, ⟨.ptr .fn, f⟩, ⟨.ptr .void, arg⟩, ⟨.usize, hash⟩]) := by
  rw [run_fun rfl (show funs _ = some f_tommy_hashtable_search from rfl)]
  have hl := impl_search ext "hashtable" rfl rfl rfl tTbl hc t hash
  unfold bhashtableSearch f_tommy_hashtable_search
  unfold searchWhile at hl
  generalize hW : Stmt.while _ _ = W at hl ⊢
  simp only [Stmt.list]
  csimp
  refine Impl.same (p := fun _ => True) (by unfold bhashtableBucket; keeps) fun i _ => ?_
  rw [← bind_pure (bhashSearchLoop cmp hash i)]
  refine Impl.bind (hl i) ?_
  rintro a ⟨c, e⟩ (h | ⟨h, h'⟩)
  · cases h; csimp; exact Impl.pure rfl
  · cases h; csimp; rw [h']; exact Impl.pure rfl

theorem impl_hashtable_remove (s : CTy) {t f arg hash : Nat} {cmp : Nat → Int} (hc : IsCmp ext f arg cmp) :
    Impl (fun a b => b = ⟨.ptr .void, a⟩) (bhashtableRemove t cmp hash)
    (run ext "tommy_hashtable_remove" [⟨.ptr s, t⟩, ⟨.ptr .fn, f⟩, ⟨.ptr .void, arg⟩, ⟨.usize, hash⟩]) := by
  rw [run_fun rfl (show funs _ = some f_tommy_hashtable_remove from rfl)]
  unfold bhashtableRemove f_tommy_hashtable_remove
  generalize hW : Stmt.while _ _ = W
  simp only [Stmt.list]
  csimp
  refine Impl.same (keeps_get _) fun mask _ => Impl.same (keeps_get _) fun bucket _ => Impl.same (keeps_get _) fun head _ => ?_
  have hl := impl_find (P := fun a r => r.1 = .ret (some ⟨.ptr .void, a⟩) ∨ r.1 = .normal ∧ a = 0)
    (k := fun node => if node = 0 then Pure.pure 0 else do
          let bucket ← bget (t + tblBucket)
          let _ ← blistRemoveExisting (padd bucket (hash &&& mask)) node
          let count ← bget (t + tblCount)
          bset (t + tblCount) (decT count)
          bget (node + nodData)) (R := (.block (.list [
              .expr (.call "tommy_list_remove_existing" (.cons (.addr (.index (.arrow (.var "hashtable") "bucket") (.var "pos"))) (.cons (.var "node") .nil))),
              .expr (.assignOp .sub (.arrow (.var "hashtable") "count") (.num 1)),
              .retE (.arrow (.var "node") "data")]))) ext "pos" .usize (hash &&& mask) rfl rfl rfl rfl
    "hashtable" rfl rfl rfl rfl tTbl hc t hash head (Impl.pure (.inr ⟨rfl, rfl⟩)) ?_
  · unfold findWhile at hl
    rw [hW] at hl
    rw [← bind_pure (bhashFindLoop cmp hash head >>= _)]
    refine Impl.bind hl ?_
    rintro a ⟨c, e⟩ (h | ⟨h, h'⟩)
    · cases h; csimp; exact Impl.pure rfl
    · cases h; csimp; rw [h']; exact Impl.pure rfl
  · intro i hi
    simp only [Stmt.list]
    unfold findEnv
    rw [if_neg hi]
    csimp
    refine Impl.same (keeps_get _) fun bucket _ => Impl.same (keeps_listRemoveExisting _ _) fun _ _ => Impl.same (keeps_get _) fun count hn => ?_
    csimp [hn]
    exact Impl.same (keeps_set _ _) fun _ _ => Impl.last (keeps_get _) fun _ _ => ⟨_, rfl, fun _ => .inl rfl⟩

theorem impl_hashtable_foreach (s : CTy) {t f : Nat} {func : Nat → BM Unit} (hf : IsFunc ext f func) (hk : ∀ d, Keeps (fun _ => True) (func d)) :
    Impl (fun _ b => b = ⟨.void, 0⟩) (bhashtableForeach t func) (run ext "tommy_hashtable_foreach" [⟨.ptr s, t⟩, ⟨.ptr .fn, f⟩]) := by
  rw [run_fun rfl (show funs _ = some f_tommy_hashtable_foreach from rfl)]
  unfold bhashtableForeach f_tommy_hashtable_foreach
  generalize hW : Stmt.for _ _ _ _ = W
  simp only [Stmt.list]
  csimp
  refine Impl.same (keeps_get _) fun max hm => Impl.same (keeps_get _) fun bucket _ => ?_
  subst hW
  rw [exec_for]
  have hl := impl_posWhile (C := .call "func" (.cons (.var "data") .nil)) (E := [("hashtable", tTbl, [some t]), ("func", .ptr .fn, [some f])]) ext hk hm (bucket := bucket) (by
    intro d n pos
    unfold posEnv
    csimp [hf d]) max 0 (Nat.zero_add _)
  unfold posWhile nodeWhile at hl
  generalize Stmt.while _ _ = W at hl ⊢
  csimp
  rw [← bind_pure (bposForeachLoop _ _ _ _)]
  refine Impl.bind hl ?_
  rintro _ _ rfl
  exact Impl.pure rfl

theorem impl_hashtable_foreach_arg (s : CTy) {t f arg : Nat} {func : Nat → BM Unit} (hf : IsFuncArg ext f arg func) (hk : ∀ d, Keeps (fun _ => True) (func d)) :
    Impl (fun _ b => b = ⟨.void, 0⟩) (bhashtableForeach t func)
    (run ext "tommy_hashtable_foreach_arg" [⟨.ptr s, t⟩, ⟨.ptr .fn, f⟩, ⟨.ptr .void, arg⟩]) := by
  rw [run_fun rfl (show funs _ = some f_tommy_hashtable_foreach_arg from rfl)]
  unfold bhashtableForeach f_tommy_hashtable_foreach_arg
  generalize hW : Stmt.for _ _ _ _ = W
  simp only [Stmt.list]
  csimp
  refine Impl.same (keeps_get _) fun max hm => Impl.same (keeps_get _) fun bucket _ => ?_
  subst hW
  rw [exec_for]
  have hl := impl_posWhile (C := .call "func" (.cons (.var "arg") (.cons (.var "data") .nil)))
    (E := [("hashtable", tTbl, [some t]), ("func", .ptr .fn, [some f]), ("arg", .ptr .void, [some arg])]) ext hk hm (bucket := bucket) (by
    intro d n pos
    unfold posEnv
    csimp [hf d]) max 0 (Nat.zero_add _)
  unfold posWhile nodeWhile at hl
  generalize Stmt.while _ _ = W at hl ⊢
  csimp
  rw [← bind_pure (bposForeachLoop _ _ _ _)]
  refine Impl.bind hl ?_
  rintro _ _ rfl
  exact Impl.pure rfl

end Tommy.C
