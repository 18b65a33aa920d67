import Verif.Proof.CList
/-! The loops, and the functions called by a pointer. -/
set_option autoImplicit false
set_option linter.unusedSectionVars false
namespace Tommy.C
open Src
variable [Arch] (ext : Ext)

section
variable (call : String → List Val → BM Val)

/-- A turn of a while. -/
theorem exec_while {W : Stmt} {c : Expr} {a : Stmt} (h : W = .while c a) (e : Env) : exec structs ext call W e = (do
    let (x, e) ← eval structs ext call c e
    if x.v ≠ 0 then do
      let (r, e) ← exec structs ext call a e
      match r with
      | .normal => exec structs ext call W e
      | .brk => return (.normal, e)
      | .ret v => return (.ret v, e)
    else return (.normal, e)) := by
  subst h
  simp only [exec]
  conv => lhs; rw [loop.eq_1]
  simp only [bind_assoc]
  congr; funext x
  split <;> rfl

/-- A for is a while. -/
theorem exec_for (i c s : Expr) (a : Stmt) (e : Env) : exec structs ext call (.for i c s a) e =
    exec structs ext call (.seq (.expr i) (.while c (.seq a (.expr s)))) e := by
  simp only [exec, bind_assoc, pure_bind]

end

variable {α β γ : Type}

theorem Impl.adm_bind (P : α → β → Prop) (k : γ → BM α) (y : BM β) : Lean.Order.admissible (fun x : BM γ => Impl P (x >>= k) y) := by
  have : (fun x : BM γ => Impl P (x >>= k) y) = fun x : BM γ => ∀ w c w1, x w = some (c, w1) → BOk w → ∀ a w', k c w1 = some (a, w') →
      BOk w' ∧ ∃ b, y w = some (b, w') ∧ P a b := by
    funext x
    apply propext
    constructor
    · intro h w c w1 e hw a w' e'
      refine h w hw a w' ?_
      show (x w).bind _ = _
      rw [e]; exact e'
    · intro h w hw a w' e
      obtain ⟨c, w1, e1, e2⟩ := bind_inv e
      exact h w c w1 e1 hw a w' e2
  rw [this]
  exact FlatSpec.ST.adm fun w c w1 => BOk w → ∀ a w', k c w1 = some (a, w') → BOk w' ∧ ∃ b, y w = some (b, w') ∧ P a b

/-- What the comparison function does, called with the first argument `arg`: it does not change the memory, and returns zero when `cmp` is. -/
def IsCmp (f arg : Nat) (cmp : Nat → Int) : Prop :=
  ∀ d, ∃ r, ext f [⟨.ptr .void, arg⟩, ⟨.ptr .void, d⟩] = Pure.pure ⟨.s32, r⟩ ∧ (r = 0 ↔ cmp d = 0)

/-- What the callback of a foreach does. -/
def IsFunc (f : Nat) (func : Nat → BM Unit) : Prop := ∀ d, ext f [⟨.ptr .void, d⟩] = (do func d; return ⟨.void, 0⟩)

/-- What the callback of a foreach_arg does, with the first argument `arg`. -/
def IsFuncArg (f arg : Nat) (func : Nat → BM Unit) : Prop := ∀ d, ext f [⟨.ptr .void, arg⟩, ⟨.ptr .void, d⟩] = (do func d; return ⟨.void, 0⟩)

@[csem] theorem eq_s32 (a b : Nat) : binop .eq ⟨.s32, a⟩ ⟨.s32, b⟩ = some (bool (a = b)) := by bin []

/-! ### Search -/

/-- tommyhashtbl.h:211-215, tommyhashdyn.h:227-231, tommyhashlin.h:276-280. -/
def searchWhile : Stmt := .while (.var "i")
  (.block (.list [
    .ite (.land (.bin .eq (.arrow (.var "i") "index") (.var "hash")) (.bin .eq (.call "cmp" (.cons (.var "cmp_arg") (.cons (.arrow (.var "i") "data") .nil))) (.num 0)))
      (.retE (.arrow (.var "i") "data"))
      .skip,
    .expr (.assign (.var "i") (.arrow (.var "i") "next"))]))

/-- The variables. -/
def searchEnv (nm : String) (ty : CTy) (t f arg hash i : Nat) : Env :=
  [("i", tNode, [some i]), (nm, ty, [some t]), ("cmp", .ptr .fn, [some f]), ("cmp_arg", .ptr .void, [some arg]), ("hash", .usize, [some hash])]

theorem impl_search (nm : String) (h1 : (nm == "cmp") = false) (h2 : (nm == "cmp_arg") = false) (h3 : (nm == "hash") = false) (ty : CTy) {f arg : Nat}
    {cmp : Nat → Int} (hc : IsCmp ext f arg cmp) (t hash i : Nat) :
    Impl (fun a r => r.1 = .ret (some ⟨.ptr .void, a⟩) ∨ r = (.normal, searchEnv nm ty t f arg hash 0) ∧ a = 0) (bhashSearchLoop cmp hash i)
      (exec structs ext (run ext) searchWhile (searchEnv nm ty t f arg hash i)) := by
  choose r hr hz using hc
  obtain ⟨W, hW⟩ : ∃ W, W = searchWhile := ⟨_, rfl⟩
  rw [← hW]
  unfold searchWhile at hW
  simp only [Stmt.list] at hW
  revert i
  refine bhashSearchLoop.fixpoint_induct cmp hash (fun h => ∀ i, Impl _ (h i) (exec structs ext (run ext) W (searchEnv nm ty t f arg hash i))) ?_ ?_
  · exact Lean.Order.admissible_pi_apply _ fun i => Impl.adm _ _
  · intro g ih i
    rw [exec_while ext _ hW]
    unfold searchEnv
    csimp [h1, h2, h3, hr]
    simp only [get_again_ite]
    refine Impl.ite Iff.rfl (fun h => Impl.pure (.inr ?_)) fun h => ?_
    · exact ⟨by rw [h], rfl⟩
    refine Impl.same (keeps_get _) fun idx _ => ?_
    refine Impl.ite Iff.rfl (fun h => ?_) fun h => ?_
    · refine Impl.same (keeps_get _) fun d _ => ?_
      refine Impl.ite (hz d).symm (fun h => Impl.pure (.inl rfl)) fun h => ?_
      exact Impl.same (keeps_get _) fun n _ => ih n
    · exact Impl.same (keeps_get _) fun n _ => ih n

/-! ### Remove -/

/-- tommyhashtbl.c:88-99, tommyhashdyn.c:168-181, tommyhashlin.c:274-287, with `R` what is done with the node found. -/
def findWhile (R : Stmt) : Stmt := .while (.var "node")
  (.block (.list [
    .ite (.land (.bin .eq (.arrow (.var "node") "index") (.var "hash")) (.bin .eq (.call "cmp" (.cons (.var "cmp_arg") (.cons (.arrow (.var "node") "data") .nil))) (.num 0)))
      R
      .skip,
    .expr (.assign (.var "node") (.arrow (.var "node") "next"))]))

/-- The variables. -/
def findEnv (px : String) (pt : CTy) (pv : Nat) (nm : String) (ty : CTy) (t f arg hash i : Nat) : Env :=
  [("node", tNode, [some i]), (px, pt, [some pv]), (nm, ty, [some t]), ("cmp", .ptr .fn, [some f]), ("cmp_arg", .ptr .void, [some arg]), ("hash", .usize, [some hash])]

theorem impl_find {P : α → Ctl × Env → Prop} {k : Nat → BM α} {R : Stmt} (px : String) (pt : CTy) (pv : Nat) (p1 : (px == "cmp") = false) (p2 : (px == "cmp_arg") = false)
    (p3 : (px == "hash") = false) (p4 : (px == "node") = false)
    (nm : String) (h1 : (nm == "cmp") = false) (h2 : (nm == "cmp_arg") = false) (h3 : (nm == "hash") = false) (h4 : (nm == "node") = false) (ty : CTy) {f arg : Nat}
    {cmp : Nat → Int} (hc : IsCmp ext f arg cmp) (t hash i : Nat) (h0 : Impl P (k 0) (Pure.pure (.normal, findEnv px pt pv nm ty t f arg hash 0)))
    (hR : ∀ i, i ≠ 0 → Impl (fun a r => ∃ v, r.1 = .ret v ∧ ∀ e, P a (.ret v, e)) (k i)
      (exec structs ext (run ext) R (findEnv px pt pv nm ty t f arg hash i))) :
    Impl P (bhashFindLoop cmp hash i >>= k) (exec structs ext (run ext) (findWhile R) (findEnv px pt pv nm ty t f arg hash i)) := by
  choose r hr hz using hc
  obtain ⟨W, hW⟩ : ∃ W, W = findWhile R := ⟨_, rfl⟩
  rw [← hW]
  unfold findWhile at hW
  simp only [Stmt.list] at hW
  revert i
  refine bhashFindLoop.fixpoint_induct cmp hash (fun h => ∀ i, Impl _ (h i >>= k) (exec structs ext (run ext) W (findEnv px pt pv nm ty t f arg hash i))) ?_ ?_
  · exact Lean.Order.admissible_pi_apply _ fun i => Impl.adm_bind _ _ _
  · intro g ih i
    rw [exec_while ext _ hW]
    unfold findEnv
    csimp [h1, h2, h3, h4, p1, p2, p3, p4, hr]
    refine Impl.ite Iff.rfl (fun h => ?_) fun h => ?_
    · subst h; exact h0
    refine Impl.same (keeps_get _) fun idx _ => ?_
    refine Impl.ite Iff.rfl (fun h => ?_) fun h => ?_
    · refine Impl.same (keeps_get _) fun d _ => ?_
      refine Impl.ite (hz d).symm (fun h => ?_) fun h => ?_
      · rw [← bind_pure (k i)]
        refine Impl.bind (hR i ‹_›) ?_
        rintro a ⟨c, e⟩ ⟨v, hv, ha⟩
        cases hv
        exact Impl.pure (ha _)
      exact Impl.same (keeps_get _) fun n _ => ih n
    · exact Impl.same (keeps_get _) fun n _ => ih n

/-! ### Foreach -/

/-- tommyhashtbl.c:112-116, 129-133, tommyhashdyn.c:194-198, 211-215, tommyhashlin.c:302-306, 321-325, with `C` the call. -/
def nodeWhile (C : Expr) : Stmt := .while (.var "node")
  (.block (.list [
    .declInit (.ptr .void) "data" (.arrow (.var "node") "data"),
    .expr (.assign (.var "node") (.arrow (.var "node") "next")),
    .expr C]))

theorem impl_nodeWhile {C : Expr} {E : Env} {func : Nat → BM Unit} (hk : ∀ d, Keeps (fun _ => True) (func d))
    (hC : ∀ d n, ev structs ext (run ext) C (("data", .ptr .void, [some d]) :: ("node", tNode, [some n]) :: E) =
      (do func d; return (.val ⟨.void, 0⟩, ("data", .ptr .void, [some d]) :: ("node", tNode, [some n]) :: E))) (i : Nat) :
    Impl (fun _ r => r = (.normal, ("node", tNode, [some 0]) :: E)) (bbucketForeachLoop func i)
      (exec structs ext (run ext) (nodeWhile C) (("node", tNode, [some i]) :: E)) := by
  obtain ⟨W, hW⟩ : ∃ W, W = nodeWhile C := ⟨_, rfl⟩
  rw [← hW]
  unfold nodeWhile at hW
  simp only [Stmt.list] at hW
  have hd : ∀ n, n + 1 + 1 - (n + 1) = 1 := by omega
  revert i
  refine bbucketForeachLoop.fixpoint_induct func (fun h => ∀ i, Impl _ (h i) (exec structs ext (run ext) W (("node", tNode, [some i]) :: E))) ?_ ?_
  · exact Lean.Order.admissible_pi_apply _ fun i => Impl.adm _ _
  · intro g ih i
    rw [exec_while ext _ hW]
    csimp [hC, hd]
    refine Impl.ite Iff.rfl (fun h => Impl.pure (by rw [h])) fun h => ?_
    refine Impl.same (keeps_get _) fun d _ => Impl.same (keeps_get _) fun n _ => Impl.same (hk d) fun _ _ => ?_
    exact ih n

/-- tommyhashtbl.c:109-117, 126-134, tommyhashdyn.c:191-199, 208-216: the loop on the positions. -/
def posWhile (C : Expr) : Stmt := .while (.bin .lt (.var "pos") (.var "bucket_max"))
  (.seq (.block (.list [
    .declInit (.ptr (.struct "tommy_node_struct")) "node" (.index (.var "bucket") (.var "pos")),
    nodeWhile C])) (.expr (.assignOp .add (.var "pos") (.num 1))))

/-- The variables. -/
def posEnv (E : Env) (max bucket pos : Nat) : Env :=
  ("pos", .usize, [some pos]) :: ("bucket", .ptr (.ptr (.struct "tommy_node_struct")), [some bucket]) :: ("bucket_max", .usize, [some max]) :: E

theorem impl_posWhile {C : Expr} {E : Env} {func : Nat → BM Unit} (hk : ∀ d, Keeps (fun _ => True) (func d)) {max bucket : Nat} (hm : max < 2 ^ sizeBit)
    (hC : ∀ d n pos, ev structs ext (run ext) C (("data", .ptr .void, [some d]) :: ("node", tNode, [some n]) :: posEnv E max bucket pos) =
      (do func d; return (.val ⟨.void, 0⟩, ("data", .ptr .void, [some d]) :: ("node", tNode, [some n]) :: posEnv E max bucket pos)))
    (k pos : Nat) (hp : pos + k = max) :
    Impl (fun _ r => r = (.normal, posEnv E max bucket max)) (bposForeachLoop func (fun pos => Pure.pure (padd bucket pos)) pos k)
      (exec structs ext (run ext) (posWhile C) (posEnv E max bucket pos)) := by
  obtain ⟨W, hW⟩ : ∃ W, W = posWhile C := ⟨_, rfl⟩
  rw [← hW]
  have hn := fun pos => impl_nodeWhile ext hk (hC · · pos)
  unfold posWhile at hW
  generalize nodeWhile C = N at hW hn
  simp only [Stmt.list] at hW
  have hd : ∀ n, n + 1 + 1 + 1 + 1 - (n + 1 + 1 + 1) = 1 := by omega
  clear hC
  induction k generalizing pos with
  | zero =>
    have h1 : ¬ pos < max := by omega
    rw [exec_while ext _ hW]
    unfold posEnv bposForeachLoop
    csimp [h1]
    exact Impl.pure (by rw [show pos = max by omega])
  | succ k ih =>
    have h1 : pos < max := by omega
    have h2 : Tommy.sizeT (pos + 1) = pos + 1 := Nat.mod_eq_of_lt (by omega)
    rw [exec_while ext _ hW]
    unfold posEnv bposForeachLoop
    csimp [h1]
    refine Impl.same (keeps_get _) fun node _ => ?_
    refine Impl.bind (hn pos node) ?_
    rintro _ _ rfl
    unfold posEnv
    csimp [hd, h2]
    exact ih (pos + 1) (by omega)

end Tommy.C
