import Verif.Proof.CLoop
import Verif.Proof.CBits
import Verif.Proof.CTbl
/-! The functions of tommyhashdyn.c and tommyhashdyn.h. -/
set_option autoImplicit false
set_option linter.unusedSimpArgs false
namespace Tommy.C
open Src
variable [Arch] (ext : Ext)

abbrev tDyn : CTy := .ptr (.struct "tommy_hashdyn_struct")

@[csem] theorem field_dynBucket : field structs "tommy_hashdyn_struct" "bucket" = some (.ptr tNode, dynBucket) := by cases ‹Arch› <;> rfl
@[csem] theorem field_dynMax : field structs "tommy_hashdyn_struct" "bucket_max" = some (.usize, dynMax) := by cases ‹Arch› <;> rfl
@[csem] theorem field_dynMask : field structs "tommy_hashdyn_struct" "bucket_mask" = some (.usize, dynMask) := by cases ‹Arch› <;> rfl
@[csem] theorem field_dynCount : field structs "tommy_hashdyn_struct" "count" = some (.usize, dynCount) := by cases ‹Arch› <;> rfl
@[csem] theorem field_dynBit : field structs "tommy_hashdyn_struct" "bucket_bit" = some (.u32, dynBit) := by cases ‹Arch› <;> rfl

@[csem] theorem run_hashdyn_bucket (t : CTy) (p h : Nat) :
    run ext "tommy_hashdyn_bucket" [⟨.ptr t, p⟩, ⟨.usize, h⟩] = (do let v ← bhashdynBucket p h; return ⟨tNode, v⟩) := by
  rw [run_fun rfl (show funs _ = some f_tommy_hashdyn_bucket from rfl)]
  unfold bhashdynBucket f_tommy_hashdyn_bucket
  simp only [Stmt.list]
  csimp

@[csem] theorem run_hashdyn_count (t : CTy) (p : Nat) :
    run ext "tommy_hashdyn_count" [⟨.ptr t, p⟩] = (do let v ← bhashdynCount p; return ⟨.usize, v⟩) := by
  rw [run_fun rfl (show funs _ = some f_tommy_hashdyn_count from rfl)]
  unfold bhashdynCount f_tommy_hashdyn_count
  simp only [Stmt.list]
  csimp

@[csem] theorem run_hashdyn_done (s : CTy) (p : Nat) :
    run ext "tommy_hashdyn_done" [⟨.ptr s, p⟩] = (do bhashdynDone p; return ⟨.void, 0⟩) := by
  rw [run_fun rfl (show funs _ = some f_tommy_hashdyn_done from rfl)]
  unfold bhashdynDone f_tommy_hashdyn_done
  simp only [Stmt.list]
  csimp

@[csem] theorem run_hashdyn_usage (s : CTy) (p : Nat) :
    run ext "tommy_hashdyn_memory_usage" [⟨.ptr s, p⟩] = (do let v ← bhashdynMemoryUsage p; return ⟨.usize, v⟩) := by
  rw [run_fun rfl (show funs _ = some f_tommy_hashdyn_memory_usage from rfl)]
  unfold bhashdynMemoryUsage f_tommy_hashdyn_memory_usage
  simp only [Stmt.list]
  csimp [sizeT_sum]

theorem impl_hashdyn_init (s : CTy) (p : Nat) : Impl (fun _ b => b = ⟨.void, 0⟩) (bhashdynInit p)
    (run ext "tommy_hashdyn_init" [⟨.ptr s, p⟩]) := by
  rw [run_fun rfl (show funs _ = some f_tommy_hashdyn_init from rfl)]
  unfold bhashdynInit f_tommy_hashdyn_init dynBIT
  simp only [Stmt.list]
  csimp
  refine Impl.same (keeps_set32 _ _) fun _ _ => Impl.same (keeps_get32 _) fun x _ => Impl.same (keeps_shl _) fun x hx => ?_
  refine Impl.same (keeps_set _ _) fun _ _ => Impl.same (keeps_get _) fun x hx => ?_
  csimp [hx]
  refine Impl.same (keeps_set _ _) fun _ _ => Impl.same (keeps_get _) fun x hx => Impl.same (keeps_calloc _ _) fun x hx => ?_
  exact Impl.same (keeps_set _ _) fun _ _ => Impl.last (keeps_set _ _) fun _ _ => rfl

/-! ### Resize -/

/-- The variables of resize. -/
def dynEnv (t nbit bit max nmax nmask nb : Nat) : Env :=
  [("new_bucket", .ptr tNode, [some nb]), ("new_bucket_mask", .usize, [some nmask]), ("new_bucket_max", .usize, [some nmax]),
    ("bucket_max", .usize, [some max]), ("bucket_bit", .usize, [some bit]), ("hashdyn", tDyn, [some t]), ("new_bucket_bit", .usize, [some nbit])]

/-- tommyhashdyn.c:85-93 -/
def dynFlush : Stmt := .while (.var "j")
  (.block (.list [
    .declInit (.ptr (.struct "tommy_node_struct")) "j_next" (.arrow (.var "j") "next"),
    .declInit .usize "pos" (.bin .and (.arrow (.var "j") "index") (.var "new_bucket_mask")),
    .ite (.index (.var "new_bucket") (.var "pos"))
      (.expr (.call "tommy_list_insert_tail_not_empty" (.cons (.index (.var "new_bucket") (.var "pos")) (.cons (.var "j") .nil))))
      (.expr (.call "tommy_list_insert_first" (.cons (.addr (.index (.var "new_bucket") (.var "pos"))) (.cons (.var "j") .nil)))),
    .expr (.assign (.var "j") (.var "j_next"))]))

theorem impl_dynFlush (t nbit bit max nmax nmask nb i j : Nat) :
    Impl (fun _ r => r = (.normal, ("j", tNode, [some 0]) :: ("i", .usize, [some i]) :: dynEnv t nbit bit max nmax nmask nb))
      (bflushLoop (fun index => padd nb (index &&& nmask)) j)
      (exec structs ext (run ext) dynFlush (("j", tNode, [some j]) :: ("i", .usize, [some i]) :: dynEnv t nbit bit max nmax nmask nb)) := by
  obtain ⟨W, hW⟩ : ∃ W, W = dynFlush := ⟨_, rfl⟩
  rw [← hW]
  unfold dynFlush at hW
  simp only [Stmt.list] at hW
  revert j
  refine bflushLoop.fixpoint_induct _ (fun h => ∀ j, Impl _ (h j) (exec structs ext (run ext) W (("j", tNode, [some j]) :: ("i", .usize, [some i]) ::
    dynEnv t nbit bit max nmax nmask nb))) ?_ ?_
  · exact Lean.Order.admissible_pi_apply _ fun i => Impl.adm _ _
  · intro g ih j
    rw [exec_while ext _ hW]
    unfold dynEnv
    csimp
    simp only [get_again_ite']
    refine Impl.ite Iff.rfl (fun h => Impl.pure (by rw [h])) fun h => ?_
    refine Impl.same (keeps_get _) fun n _ => Impl.same (keeps_get _) fun x _ => Impl.same (keeps_get _) fun l _ => ?_
    refine Impl.ite Iff.rfl (fun h => ?_) fun h => ?_
    · exact Impl.same (keeps_listInsertFirst _ _) fun _ _ => ih n
    · exact Impl.same (keeps_listInsertTailNotEmpty _ _) fun _ _ => ih n

/-- tommyhashdyn.c:76-94 -/
def dynGrow : Stmt := .while (.bin .lt (.var "i") (.var "bucket_max"))
  (.seq (.block (.list [
    .decl (.ptr (.struct "tommy_node_struct")) "j",
    .expr (.assign (.index (.var "new_bucket") (.var "i")) (.num 0)),
    .expr (.assign (.index (.var "new_bucket") (.bin .add (.var "i") (.var "bucket_max"))) (.num 0)),
    .expr (.assign (.var "j") (.index (.arrow (.var "hashdyn") "bucket") (.var "i"))),
    dynFlush])) (.expr (.assignOp .add (.var "i") (.num 1))))

theorem impl_dynGrow (t nbit bit nmax nmask nb : Nat) {max : Nat} (hm : max < 2 ^ sizeBit) (k i : Nat) (hp : i + k = max) :
    Impl (fun _ r => r = (.normal, ("i", .usize, [some max]) :: dynEnv t nbit bit max nmax nmask nb))
      (bhashdynGrowLoop t max nb nmask i k)
      (exec structs ext (run ext) dynGrow (("i", .usize, [some i]) :: dynEnv t nbit bit max nmax nmask nb)) := by
  obtain ⟨W, hW⟩ : ∃ W, W = dynGrow := ⟨_, rfl⟩
  rw [← hW]
  have hn := impl_dynFlush ext t nbit bit max nmax nmask nb
  unfold dynGrow at hW
  generalize dynFlush = N at hW hn
  simp only [Stmt.list] at hW
  induction k generalizing i with
  | zero =>
    have h1 : ¬ i < max := by omega
    rw [exec_while ext _ hW]
    unfold dynEnv bhashdynGrowLoop
    csimp [h1]
    exact Impl.pure (by rw [show i = max by omega])
  | succ k ih =>
    have h1 : i < max := by omega
    have h2 : Tommy.sizeT (i + 1) = i + 1 := Nat.mod_eq_of_lt (by omega)
    rw [exec_while ext _ hW]
    unfold dynEnv bhashdynGrowLoop
    csimp [h1]
    refine Impl.same (keeps_set _ _) fun _ _ => Impl.same (keeps_set _ _) fun _ _ => Impl.same (keeps_get _) fun b _ => Impl.same (keeps_get _) fun j _ => ?_
    refine Impl.bind (hn i j) ?_
    rintro _ _ rfl
    unfold dynEnv
    csimp [h2]
    exact ih (i + 1) (by omega)

/-- tommyhashdyn.c:99-105 -/
def dynShrink : Stmt := .while (.bin .lt (.var "i") (.var "new_bucket_max"))
  (.seq (.block (.list [
    .expr (.assign (.index (.var "new_bucket") (.var "i")) (.index (.arrow (.var "hashdyn") "bucket") (.var "i"))),
    .expr (.call "tommy_list_concat" (.cons (.addr (.index (.var "new_bucket") (.var "i"))) (.cons (.addr (.index (.arrow (.var "hashdyn") "bucket") (.bin .add (.var "i") (.var "new_bucket_max")))) .nil)))]))
    (.expr (.assignOp .add (.var "i") (.num 1))))

theorem impl_dynShrink (t nbit bit nmask nb max : Nat) {nmax : Nat} (hm : nmax < 2 ^ sizeBit) (k i : Nat) (hp : i + k = nmax) :
    Impl (fun _ r => r = (.normal, ("i", .usize, [some nmax]) :: dynEnv t nbit bit max nmax nmask nb))
      (bhashdynShrinkLoop t nb nmax i k)
      (exec structs ext (run ext) dynShrink (("i", .usize, [some i]) :: dynEnv t nbit bit max nmax nmask nb)) := by
  obtain ⟨W, hW⟩ : ∃ W, W = dynShrink := ⟨_, rfl⟩
  rw [← hW]
  unfold dynShrink at hW
  simp only [Stmt.list] at hW
  induction k generalizing i with
  | zero =>
    have h1 : ¬ i < nmax := by omega
    rw [exec_while ext _ hW]
    unfold dynEnv bhashdynShrinkLoop
    csimp [h1]
    exact Impl.pure (by rw [show i = nmax by omega])
  | succ k ih =>
    have h1 : i < nmax := by omega
    have h2 : Tommy.sizeT (i + 1) = i + 1 := Nat.mod_eq_of_lt (by omega)
    rw [exec_while ext _ hW]
    unfold dynEnv bhashdynShrinkLoop
    csimp [h1, h2]
    refine Impl.same (keeps_get _) fun b _ => Impl.same (keeps_get _) fun j _ => Impl.same (keeps_set _ _) fun _ _ => Impl.same (keeps_get _) fun b _ => ?_
    exact Impl.same (keeps_listConcat _ _) fun _ _ => ih (i + 1) (by omega)

theorem impl_hashdyn_resize (s : CTy) (t nbit : Nat) {x : Val} (hx : conv .usize x = ⟨.usize, nbit⟩) : Impl (fun _ b => b = ⟨.void, 0⟩) (bhashdynResize t nbit)
    (run ext "tommy_hashdyn_resize" [⟨.ptr s, t⟩, x]) := by
  rw [run_fun rfl (show funs _ = some f_tommy_hashdyn_resize from rfl)]
  unfold bhashdynResize f_tommy_hashdyn_resize
  generalize hG : Stmt.for _ _ _ _ = G
  generalize hS : Stmt.for _ _ _ _ = S
  have hg : ∀ bit nmax nmask nb max, max < 2 ^ sizeBit → Impl (fun _ r => r = (.normal, ("i", .usize, [some max]) :: dynEnv t nbit bit max nmax nmask nb))
      (bhashdynGrowLoop t max nb nmask 0 max) (exec structs ext (run ext) G (("i", .usize, [none]) :: dynEnv t nbit bit max nmax nmask nb)) := by
    intro bit nmax nmask nb max hm
    rw [← hG, exec_for]
    have hl := impl_dynGrow ext t nbit bit nmax nmask nb hm max 0 (Nat.zero_add _)
    unfold dynGrow dynFlush at hl
    generalize Stmt.while _ _ = W at hl ⊢
    unfold dynEnv at hl ⊢
    csimp
    exact hl
  have hs : ∀ bit nmax nmask nb max, nmax < 2 ^ sizeBit → Impl (fun _ r => r = (.normal, ("i", .usize, [some nmax]) :: dynEnv t nbit bit max nmax nmask nb))
      (bhashdynShrinkLoop t nb nmax 0 nmax) (exec structs ext (run ext) S (("i", .usize, [none]) :: dynEnv t nbit bit max nmax nmask nb)) := by
    intro bit nmax nmask nb max hm
    rw [← hS, exec_for]
    have hl := impl_dynShrink ext t nbit bit nmask nb max hm nmax 0 (Nat.zero_add _)
    unfold dynShrink at hl
    generalize Stmt.while _ _ = W at hl ⊢
    unfold dynEnv at hl ⊢
    csimp
    exact hl
  simp only [Stmt.list]
  csimp [hx]
  refine Impl.same (keeps_get32 _) fun bit hb => Impl.same (keeps_get _) fun max hm => Impl.same (keeps_shl _) fun nmax hn => ?_
  have hn' : nmax < 2 ^ sizeBit := by rw [hn.1]; exact Nat.pow_lt_pow_right (by decide) hn.2
  have h32 : nbit < 4294967296 := Nat.lt_trans hn.2 (by unfold sizeBit; cases ‹Arch› <;> decide)
  csimp [hb, hn']
  refine Impl.same (keeps_malloc _) fun nb _ => Impl.ite Iff.rfl (fun h => ?_) fun h => ?_
  · refine Impl.bind (hg _ _ _ _ _ hm) ?_
    rintro _ _ rfl
    unfold dynEnv
    csimp [h32]
    refine Impl.same (keeps_get _) fun b _ => Impl.same (keeps_free _) fun _ _ => Impl.same (keeps_set32 _ _) fun _ _ => ?_
    exact Impl.same (keeps_set _ _) fun _ _ => Impl.same (keeps_set _ _) fun _ _ => Impl.last (keeps_set _ _) fun _ _ => rfl
  · refine Impl.bind (hs _ _ _ _ _ hn') ?_
    rintro _ _ rfl
    unfold dynEnv
    csimp [h32]
    refine Impl.same (keeps_get _) fun b _ => Impl.same (keeps_free _) fun _ _ => Impl.same (keeps_set32 _ _) fun _ _ => ?_
    exact Impl.same (keeps_set _ _) fun _ _ => Impl.same (keeps_set _ _) fun _ _ => Impl.last (keeps_set _ _) fun _ _ => rfl

theorem impl_hashdyn_grow_step (s : CTy) (t : Nat) : Impl (fun _ b => b = ⟨.void, 0⟩) (bhashdynGrowStep t)
    (run ext "hashdyn_grow_step" [⟨.ptr s, t⟩]) := by
  rw [run_fun rfl (show funs _ = some f_hashdyn_grow_step from rfl)]
  unfold bhashdynGrowStep f_hashdyn_grow_step
  simp only [Stmt.list]
  csimp
  refine Impl.same (keeps_get _) fun n _ => Impl.same (keeps_get _) fun max hm => ?_
  csimp [hm]
  refine Impl.ite Iff.rfl (fun h => ?_) fun h => Impl.pure rfl
  refine Impl.same (keeps_get32 _) fun bit hb => ?_
  exact Impl.tail (impl_hashdyn_resize ext _ _ _ (conv_usize_u32 _ (Nat.mod_lt _ (by decide)))) fun _ => rfl

theorem impl_hashdyn_shrink_step (s : CTy) (t : Nat) : Impl (fun _ b => b = ⟨.void, 0⟩) (bhashdynShrinkStep t)
    (run ext "hashdyn_shrink_step" [⟨.ptr s, t⟩]) := by
  rw [run_fun rfl (show funs _ = some f_hashdyn_shrink_step from rfl)]
  unfold bhashdynShrinkStep f_hashdyn_shrink_step
  simp only [Stmt.list]
  csimp
  refine Impl.same (keeps_get _) fun n _ => Impl.same (keeps_get _) fun max hm => ?_
  csimp [hm]
  refine Impl.ite Iff.rfl (fun h => ?_) fun h => Impl.pure rfl
  refine Impl.same (keeps_get32 _) fun bit hb => ?_
  refine Impl.ite Iff.rfl (fun h => ?_) fun h => Impl.pure rfl
  refine Impl.same (keeps_get32 _) fun bit hb => ?_
  csimp [hb]
  exact Impl.tail (impl_hashdyn_resize ext _ _ _ (conv_usize_u32 _ (Nat.mod_lt _ (by decide)))) fun _ => rfl

theorem impl_hashdyn_insert (s u v : CTy) (t node data h : Nat) : Impl (fun _ b => b = ⟨.void, 0⟩) (bhashdynInsert t node data h)
    (run ext "tommy_hashdyn_insert" [⟨.ptr s, t⟩, ⟨.ptr u, node⟩, ⟨.ptr v, data⟩, ⟨.usize, h⟩]) := by
  rw [run_fun rfl (show funs _ = some f_tommy_hashdyn_insert from rfl)]
  unfold bhashdynInsert f_tommy_hashdyn_insert
  simp only [Stmt.list]
  csimp
  refine Impl.same (keeps_get _) fun mask _ => Impl.same (keeps_get _) fun b _ => Impl.same (keeps_listInsertTail _ _ _) fun _ _ => ?_
  refine Impl.same (keeps_set _ _) fun _ _ => Impl.same (keeps_get _) fun n _ => Impl.same (keeps_set _ _) fun _ _ => ?_
  exact Impl.tail (impl_hashdyn_grow_step ext _ _) fun _ => rfl

theorem impl_hashdyn_remove_existing (s t : CTy) (p node : Nat) : Impl (fun a b => b = ⟨.ptr .void, a⟩) (bhashdynRemoveExisting p node)
    (run ext "tommy_hashdyn_remove_existing" [⟨.ptr s, p⟩, ⟨.ptr t, node⟩]) := by
  rw [run_fun rfl (show funs _ = some f_tommy_hashdyn_remove_existing from rfl)]
  unfold bhashdynRemoveExisting f_tommy_hashdyn_remove_existing
  simp only [Stmt.list]
  csimp
  refine Impl.same (keeps_get _) fun x h1 => Impl.same (keeps_get _) fun y h2 => Impl.same (keeps_get _) fun z h3 => Impl.same (keeps_listRemoveExisting _ _) fun _ _ => ?_
  refine Impl.same (keeps_get _) fun n h4 => ?_
  csimp [h4]
  refine Impl.same (keeps_set _ _) fun _ _ => Impl.bind (impl_hashdyn_shrink_step ext _ _) ?_
  rintro _ _ rfl
  exact Impl.last (keeps_get _) fun _ _ => rfl

theorem impl_hashdyn_search (s : CTy) {t f arg hash : Nat} {cmp : Nat → Int} (hc : IsCmp ext f arg cmp) :
    Impl (fun a b => b = ⟨.ptr .void, a⟩) (bhashdynSearch t cmp hash)
    (run ext "tommy_hashdyn_search" [⟨.ptr s, t⟩, ⟨.ptr .fn, f⟩, ⟨.ptr .void, arg⟩, ⟨.usize, hash⟩]) := by
  rw [run_fun rfl (show funs _ = some f_tommy_hashdyn_search from rfl)]
  have hl := impl_search ext "hashdyn" rfl rfl rfl tDyn hc t hash
  unfold bhashdynSearch f_tommy_hashdyn_search
  unfold searchWhile at hl
  generalize hW : Stmt.while _ _ = W at hl ⊢
  simp only [Stmt.list]
  csimp
  refine Impl.same (p := fun _ => True) (by unfold bhashdynBucket; keeps) fun i _ => ?_
  rw [← bind_pure (bhashSearchLoop cmp hash i)]
  refine Impl.bind (hl i) ?_
  rintro a ⟨c, e⟩ (h | ⟨h, h'⟩)
  · cases h; csimp; exact Impl.pure rfl
  · cases h; csimp; rw [h']; exact Impl.pure rfl

theorem impl_hashdyn_remove (s : CTy) {t f arg hash : Nat} {cmp : Nat → Int} (hc : IsCmp ext f arg cmp) :
    Impl (fun a b => b = ⟨.ptr .void, a⟩) (bhashdynRemove t cmp hash)
    (run ext "tommy_hashdyn_remove" [⟨.ptr s, t⟩, ⟨.ptr .fn, f⟩, ⟨.ptr .void, arg⟩, ⟨.usize, hash⟩]) := by
  rw [run_fun rfl (show funs _ = some f_tommy_hashdyn_remove from rfl)]
  unfold bhashdynRemove f_tommy_hashdyn_remove
  generalize hW : Stmt.while _ _ = W
  simp only [Stmt.list]
  csimp
  refine Impl.same (keeps_get _) fun mask _ => Impl.same (keeps_get _) fun bucket _ => Impl.same (keeps_get _) fun head _ => ?_
  have hl := impl_find (P := fun a r => r.1 = .ret (some ⟨.ptr .void, a⟩) ∨ r.1 = .normal ∧ a = 0)
    (k := fun node => if node = 0 then Pure.pure 0 else do
          let bucket ← bget (t + dynBucket)
          let _ ← blistRemoveExisting (padd bucket (hash &&& mask)) node
          let count ← bget (t + dynCount)
          bset (t + dynCount) (decT count)
          bhashdynShrinkStep t
          bget (node + nodData)) (R := (.block (.list [
              .expr (.call "tommy_list_remove_existing" (.cons (.addr (.index (.arrow (.var "hashdyn") "bucket") (.var "pos"))) (.cons (.var "node") .nil))),
              .expr (.assignOp .sub (.arrow (.var "hashdyn") "count") (.num 1)),
              .expr (.call "hashdyn_shrink_step" (.cons (.var "hashdyn") .nil)),
              .retE (.arrow (.var "node") "data")]))) ext "pos" .usize (hash &&& mask) rfl rfl rfl rfl
    "hashdyn" rfl rfl rfl rfl tDyn hc t hash head (Impl.pure (.inr ⟨rfl, rfl⟩)) ?_
  · unfold findWhile at hl
    rw [hW] at hl
    rw [← bind_pure (bhashFindLoop cmp hash head >>= _)]
    refine Impl.bind hl ?_
    rintro a ⟨c, e⟩ (h | ⟨h, h'⟩)
    · cases h; csimp; exact Impl.pure rfl
    · cases h; csimp; rw [h']; exact Impl.pure rfl
  · intro i hi
    simp only [Stmt.list]
    unfold findEnv
    rw [if_neg hi]
    csimp
    refine Impl.same (keeps_get _) fun bucket _ => Impl.same (keeps_listRemoveExisting _ _) fun _ _ => Impl.same (keeps_get _) fun count hn => ?_
    csimp [hn]
    refine Impl.same (keeps_set _ _) fun _ _ => Impl.bind (impl_hashdyn_shrink_step ext _ _) ?_
    rintro _ _ rfl
    exact Impl.last (keeps_get _) fun _ _ => ⟨_, rfl, fun _ => .inl rfl⟩

theorem impl_hashdyn_foreach (s : CTy) {t f : Nat} {func : Nat → BM Unit} (hf : IsFunc ext f func) (hk : ∀ d, Keeps (fun _ => True) (func d)) :
    Impl (fun _ b => b = ⟨.void, 0⟩) (bhashdynForeach t func) (run ext "tommy_hashdyn_foreach" [⟨.ptr s, t⟩, ⟨.ptr .fn, f⟩]) := by
  rw [run_fun rfl (show funs _ = some f_tommy_hashdyn_foreach from rfl)]
  unfold bhashdynForeach f_tommy_hashdyn_foreach
  generalize hW : Stmt.for _ _ _ _ = W
  simp only [Stmt.list]
  csimp
  refine Impl.same (keeps_get _) fun max hm => Impl.same (keeps_get _) fun bucket _ => ?_
  subst hW
  rw [exec_for]
  have hl := impl_posWhile (C := .call "func" (.cons (.var "data") .nil)) (E := [("hashdyn", tDyn, [some t]), ("func", .ptr .fn, [some f])]) ext hk hm (bucket := bucket) (by
    intro d n pos
    unfold posEnv
    csimp [hf d]) max 0 (Nat.zero_add _)
  unfold posWhile nodeWhile at hl
  generalize Stmt.while _ _ = W at hl ⊢
  csimp
  rw [← bind_pure (bposForeachLoop _ _ _ _)]
  refine Impl.bind hl ?_
  rintro _ _ rfl
  exact Impl.pure rfl

theorem impl_hashdyn_foreach_arg (s : CTy) {t f arg : Nat} {func : Nat → BM Unit} (hf : IsFuncArg ext f arg func) (hk : ∀ d, Keeps (fun _ => True) (func d)) :
    Impl (fun _ b => b = ⟨.void, 0⟩) (bhashdynForeach t func)
    (run ext "tommy_hashdyn_foreach_arg" [⟨.ptr s, t⟩, ⟨.ptr .fn, f⟩, ⟨.ptr .void, arg⟩]) := by
  rw [run_fun rfl (show funs _ = some f_tommy_hashdyn_foreach_arg from rfl)]
  unfold bhashdynForeach f_tommy_hashdyn_foreach_arg
  generalize hW : Stmt.for _ _ _ _ = W
  simp only [Stmt.list]
  csimp
  refine Impl.same (keeps_get _) fun max hm => Impl.same (keeps_get _) fun bucket _ => ?_
  subst hW
  rw [exec_for]
  have hl := impl_posWhile (C := .call "func" (.cons (.var "arg") (.cons (.var "data") .nil)))
    (E := [("hashdyn", tDyn, [some t]), ("func", .ptr .fn, [some f]), ("arg", .ptr .void, [some arg])]) ext hk hm (bucket := bucket) (by
    intro d n pos
    unfold posEnv
    csimp [hf d]) max 0 (Nat.zero_add _)
  unfold posWhile nodeWhile at hl
  generalize Stmt.while _ _ = W at hl ⊢
  csimp
  rw [← bind_pure (bposForeachLoop _ _ _ _)]
  refine Impl.bind hl ?_
  rintro _ _ rfl
  exact Impl.pure rfl

end Tommy.C
