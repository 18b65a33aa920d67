import Verif.C.Prog
import Verif.C.Attr
import Verif.Proof.HashFlatSim
/-! The rules to show that the C code does what a function of the model does. -/
set_option autoImplicit false
set_option linter.unusedSectionVars false
set_option linter.unusedSimpArgs false
namespace Tommy.C

variable [Arch]

/-- The bytes are bytes. -/
structure BOk (w : BMem) : Prop where
  byte : ∀ x, w.mem.byte x < 256
  mal : ∀ m ∈ w.mallocs, ∀ x, m.2 x < 256

/-- When `x` succeeds, also `y` does, with the same effect on the memory and a result in the relation `P`. -/
def Impl {α β : Type} (P : α → β → Prop) (x : BM α) (y : BM β) : Prop :=
  ∀ w, BOk w → ∀ a w', x w = some (a, w') → BOk w' ∧ ∃ b, y w = some (b, w') ∧ P a b

variable {α β γ δ : Type} {P : α → β → Prop} {Q : γ → δ → Prop}

omit [Arch] in
theorem bind_inv {x : BM γ} {f : γ → BM α} {w : BMem} {r : α × BMem} (e : (x >>= f) w = some r) : ∃ a w1, x w = some (a, w1) ∧ f a w1 = some r := by
  change (x w).bind _ = _ at e
  cases hx : x w with
  | none => rw [hx] at e; cases e
  | some p => rw [hx] at e; exact ⟨p.1, p.2, rfl, e⟩

theorem Impl.pure {a : α} {b : β} (h : P a b) : Impl P (pure a) (pure b) := by
  intro w hw a' w' e
  cases e
  exact ⟨hw, b, rfl, h⟩

theorem Impl.fail {y : BM β} : Impl P (fail : BM α) y := by
  intro w hw a w' e; cases e

theorem Impl.bind {x : BM γ} {y : BM δ} {f : γ → BM α} {g : δ → BM β} (h : Impl Q x y) (h' : ∀ a b, Q a b → Impl P (f a) (g b)) :
    Impl P (x >>= f) (y >>= g) := by
  intro w hw a w' e
  obtain ⟨c, w1, e1, e2⟩ := bind_inv e
  obtain ⟨hw1, d, e3, hq⟩ := h w hw c w1 e1
  obtain ⟨hw', b, e4, hp⟩ := h' c d hq w1 hw1 a w' e2
  refine ⟨hw', b, ?_, hp⟩
  show (y w).bind _ = _
  rw [e3]; exact e4

theorem Impl.mono {P' : α → β → Prop} {x : BM α} {y : BM β} (h : Impl P x y) (hp : ∀ a b, P a b → P' a b) : Impl P' x y := by
  intro w hw a w' e
  obtain ⟨h1, b, h2, h3⟩ := h w hw a w' e
  exact ⟨h1, b, h2, hp _ _ h3⟩

theorem Impl.ite {c d : Prop} [Decidable c] [Decidable d] {x x' : BM α} {y y' : BM β} (hc : c ↔ d) (h1 : c → Impl P x y) (h2 : ¬ c → Impl P x' y') :
    Impl P (if c then x else x') (if d then y else y') := by
  by_cases h : c
  · rw [if_pos h, if_pos (hc.1 h)]; exact h1 h
  · rw [if_neg h, if_neg (fun hd => h (hc.2 hd))]; exact h2 h

/-- Loops. -/
theorem Impl.adm (P : α → β → Prop) (y : BM β) : Lean.Order.admissible (fun x : BM α => Impl P x y) := by
  have : (fun x : BM α => Impl P x y) = fun x : BM α => ∀ w a w', x w = some (a, w') → BOk w → BOk w' ∧ ∃ b, y w = some (b, w') ∧ P a b := by
    funext x
    apply propext
    exact ⟨fun h w a w' e hw => h w hw a w' e, fun h w hw a w' e => h w a w' e hw⟩
  rw [this]
  exact FlatSpec.ST.adm fun w a w' => BOk w → BOk w' ∧ ∃ b, y w = some (b, w') ∧ P a b

/-- An operation of the memory, with a property of its result. -/
def Keeps (P : α → Prop) (x : BM α) : Prop := ∀ w, BOk w → ∀ a w', x w = some (a, w') → BOk w' ∧ P a

theorem Impl.same {p : γ → Prop} {x : BM γ} {f : γ → BM α} {g : γ → BM β} (h : Keeps p x) (h' : ∀ a, p a → Impl P (f a) (g a)) :
    Impl P (x >>= f) (x >>= g) :=
  Impl.bind (Q := fun a b => a = b ∧ p a) (fun w hw a w' e => ⟨(h w hw a w' e).1, a, e, rfl, (h w hw a w' e).2⟩)
    (by rintro a _ ⟨rfl, ha⟩; exact h' a ha)

/-- A read of the model that the C code does not do. -/
theorem Impl.skip {x : BM γ} {f : γ → BM α} {y : BM β} (hx : ∀ w a w', x w = some (a, w') → w' = w) (h : ∀ a, Impl P (f a) y) : Impl P (x >>= f) y := by
  intro w hw a w' e
  obtain ⟨c, w1, e1, e2⟩ := bind_inv e
  cases hx w c w1 e1
  exact h c w hw a w' e2

theorem keeps_getN (n p : Nat) : Keeps (fun v => v < 2 ^ (8 * n)) (bgetN n p) := by
  intro w hw a w' e
  unfold bgetN at e
  split at e
  · cases e; exact ⟨hw, HashFlat.rdN_bound hw.byte n p⟩
  · cases e

theorem eight_ptr : 8 * ptrSize = sizeBit := by unfold ptrSize sizeBit; cases ‹Arch› <;> rfl

theorem keeps_get (p : Nat) : Keeps (fun v => v < 2 ^ sizeBit) (bget p) := by
  have := keeps_getN ptrSize p
  rwa [eight_ptr] at this

theorem keeps_get32 (p : Nat) : Keeps (fun v => v < 4294967296) (bget32 p) := keeps_getN 4 p

theorem keeps_setN (n p v : Nat) : Keeps (fun _ => True) (bsetN n p v) := by
  intro w hw a w' e
  unfold bsetN at e
  split at e
  · cases e
    refine ⟨⟨fun x => ?_, hw.mal⟩, trivial⟩
    show wrN _ _ _ _ x < 256
    unfold wrN
    split
    · exact Nat.mod_lt _ (by decide)
    · exact hw.byte x
  · cases e

theorem keeps_set (p v : Nat) : Keeps (fun _ => True) (bset p v) := keeps_setN _ _ _
theorem keeps_set32 (p v : Nat) : Keeps (fun _ => True) (bset32 p v) := keeps_setN _ _ _

theorem keeps_malloc (n : Nat) : Keeps (fun _ => True) (bmalloc n) := by
  intro w hw a w' e
  unfold bmalloc at e
  split at e
  · cases e
  · rename_i b c ms hm
    rw [Option.some.injEq, Prod.mk.injEq] at e
    obtain ⟨rfl, rfl⟩ := e
    refine ⟨⟨fun x => ?_, fun m h => hw.mal m (by rw [hm]; exact List.mem_cons_of_mem _ h)⟩, trivial⟩
    show (if _ then _ else _) < _
    split
    · exact hw.mal _ (by rw [hm]; exact List.mem_cons_self) x
    · exact hw.byte x

theorem keeps_zero (p n : Nat) : Keeps (fun _ => True) (bzero p n) := by
  intro w hw a w' e
  unfold bzero at e
  split at e
  · cases e
    refine ⟨⟨fun x => ?_, hw.mal⟩, trivial⟩
    show (if _ then _ else _) < _
    split
    · decide
    · exact hw.byte x
  · cases e

theorem keeps_free (p : Nat) : Keeps (fun _ => True) (bfree p) := by
  intro w hw a w' e
  unfold bfree at e
  split at e
  · cases e; exact ⟨⟨hw.byte, hw.mal⟩, trivial⟩
  · cases e

theorem Keeps.bind {p : α → Prop} {q : γ → Prop} {x : BM γ} {f : γ → BM α} (h : Keeps q x) (h' : ∀ a, q a → Keeps p (f a)) : Keeps p (x >>= f) := by
  intro w hw a w' e
  obtain ⟨c, w1, e1, e2⟩ := bind_inv e
  exact h' c (h w hw c w1 e1).2 w1 (h w hw c w1 e1).1 a w' e2

theorem Keeps.pure {p : α → Prop} {a : α} (h : p a) : Keeps p (pure a) := by
  intro w hw a' w' e
  cases e; exact ⟨hw, h⟩

theorem keeps_calloc (n m : Nat) : Keeps (fun _ => True) (hbcalloc n m) :=
  (keeps_malloc _).bind fun _ _ => (keeps_zero _ _).bind fun _ _ => Keeps.pure trivial

theorem keeps_shl (n : Nat) : Keeps (fun v => v = 2 ^ n ∧ n < sizeBit) (bshl n) := by
  intro w hw a w' e
  unfold bshl at e
  split at e
  · cases e; exact ⟨hw, rfl, by assumption⟩
  · cases e

theorem Keeps.ite {p : α → Prop} {c : Prop} [Decidable c] {x y : BM α} (hx : Keeps p x) (hy : Keeps p y) : Keeps p (if c then x else y) := by
  split <;> assumption

theorem Keeps.mono {p q : α → Prop} {x : BM α} (h : Keeps p x) (hpq : ∀ a, p a → q a) : Keeps q x :=
  fun w hw a w' e => ⟨(h w hw a w' e).1, hpq _ (h w hw a w' e).2⟩

/-- The last action. -/
theorem Impl.last {p : α → Prop} {x : BM α} {f : α → β} (h : Keeps p x) (h' : ∀ a, p a → P a (f a)) : Impl P x (x >>= fun a => Pure.pure (f a)) := by
  have := Impl.same (P := P) (f := fun a => Pure.pure a) (g := fun a => Pure.pure (f a)) h fun a ha => Impl.pure (h' a ha)
  rwa [bind_pure] at this

/-- The last call. -/
theorem Impl.tail {P' : α → γ → Prop} {x : BM α} {y : BM β} {c : γ} (h : Impl P x y) (h' : ∀ a, P' a c) : Impl P' x (y >>= fun _ => Pure.pure c) := by
  have := Impl.bind (P := P') (f := fun a => Pure.pure a) (g := fun _ => Pure.pure c) h fun a _ _ => Impl.pure (h' a)
  rwa [bind_pure] at this

/-- The memory operations. -/
macro "keeps" : tactic => `(tactic| (repeat' (first
  | exact Keeps.pure trivial
  | exact keeps_get _
  | exact (keeps_get _).mono fun _ _ => trivial
  | refine Keeps.bind (keeps_get _) fun _ _ => ?_
  | exact keeps_get32 _
  | exact (keeps_get32 _).mono fun _ _ => trivial
  | refine Keeps.bind (keeps_get32 _) fun _ _ => ?_
  | exact keeps_set _ _
  | refine Keeps.bind (keeps_set _ _) fun _ _ => ?_
  | exact keeps_set32 _ _
  | refine Keeps.bind (keeps_set32 _ _) fun _ _ => ?_
  | exact keeps_malloc _
  | refine Keeps.bind (keeps_malloc _) fun _ _ => ?_
  | exact keeps_calloc _ _
  | refine Keeps.bind (keeps_calloc _ _) fun _ _ => ?_
  | exact keeps_zero _ _
  | refine Keeps.bind (keeps_zero _ _) fun _ _ => ?_
  | exact keeps_free _
  | refine Keeps.bind (keeps_free _) fun _ _ => ?_
  | exact keeps_shl _
  | exact (keeps_shl _).mono fun _ _ => trivial
  | refine Keeps.bind (keeps_shl _) fun _ _ => ?_
  | refine Keeps.ite ?_ ?_)))

/-! ### Steps of the semantics -/

/-- Only the first action is simplified. -/
theorem bind_left {x x' : BM γ} {f : γ → BM α} (h : x = x') : (x >>= f) = (x' >>= f) := by rw [h]

omit [Arch] in
theorem ite_left {c c' : Prop} [Decidable c] [Decidable c'] {x y : α} (h : c = c') : (if c then x else y) = (if c' then x else y) := by subst h; congr

theorem run_fun {ext : Ext} {f : String} {vs : List Val} {d : Fun} (hb : builtin f vs = none) (hf : funs f = some d) :
    run ext f vs = execFun structs ext (run ext) d vs := by
  rw [run.eq_1, hb, hf]

theorem bits_ne : ¬ sizeBit = 0 := by unfold sizeBit; cases ‹Arch› <;> decide

theorem pow_pos' : 0 < 2 ^ sizeBit := Nat.two_pow_pos _

theorem two32_le : 2 ^ 32 ≤ 2 ^ sizeBit := Nat.pow_le_pow_right (by decide) (by unfold sizeBit; cases ‹Arch› <;> decide)

@[csem] theorem load_ptr (t : CTy) (p : Nat) (e : Env) : load (.ptr t) (.mem p) e = (do let v ← bget p; return ⟨.ptr t, v⟩) := if_neg bits_ne
@[csem] theorem load_usize (p : Nat) (e : Env) : load .usize (.mem p) e = (do let v ← bget p; return ⟨.usize, v⟩) := if_neg bits_ne
@[csem] theorem load_u32 (p : Nat) (e : Env) : load .u32 (.mem p) e = (do let v ← bget32 p; return ⟨.u32, v⟩) := by simp [load, CTy.bits, bget32]
@[csem] theorem load_arr (t : CTy) (n p : Nat) (e : Env) : load (.arr t n) (.mem p) e = Pure.pure ⟨.ptr t, p⟩ := rfl
@[csem] theorem load_reg (t : CTy) (x : String) (i : Nat) (e : Env) : load t (.reg x i) e = (do
    let (_, l) ← lift (e.get x)
    let o ← lift l[i]?
    let v ← lift o
    return ⟨t, v⟩) := by unfold load; cases t <;> rfl
@[csem] theorem store_ptr (t : CTy) (p : Nat) (v : Val) (e : Env) : store (.ptr t) (.mem p) v e = (do bset p v.v; return e) := if_neg bits_ne
@[csem] theorem store_usize (p : Nat) (v : Val) (e : Env) : store .usize (.mem p) v e = (do bset p v.v; return e) := if_neg bits_ne
@[csem] theorem store_u32 (p : Nat) (v : Val) (e : Env) : store .u32 (.mem p) v e = (do bset32 p v.v; return e) := by simp [store, CTy.bits, bset32]
@[csem] theorem store_reg (t : CTy) (x : String) (i : Nat) (v : Val) (e : Env) : store t (.reg x i) v e = (do
    let (_, l) ← lift (e.get x)
    if i < l.length then return e.set x i v.v else fail) := rfl

@[csem] theorem lift_some (a : α) : lift (some a) = Pure.pure a := rfl

/-! ### Conversions -/

@[csem] theorem conv_same (t : CTy) (v : Nat) : conv t ⟨t, v⟩ = ⟨t, v⟩ := if_pos rfl
@[csem] theorem conv_ptr (s t : CTy) (v : Nat) : conv (.ptr s) ⟨.ptr t, v⟩ = ⟨.ptr s, v⟩ := by
  unfold conv
  split
  · rename_i h; injection h with h; subst h; rfl
  · exact if_pos ⟨rfl, rfl⟩

@[csem] theorem int_usize (v : Nat) : (Val.mk .usize v).int = v := if_neg (fun h => nomatch h.1)
@[csem] theorem int_u32 (v : Nat) : (Val.mk .u32 v).int = v := if_neg (fun h => nomatch h.1)
@[csem] theorem int_u64 (v : Nat) : (Val.mk .u64 v).int = v := if_neg (fun h => nomatch h.1)
@[csem] theorem int_ptr (t : CTy) (v : Nat) : (Val.mk (.ptr t) v).int = v := if_neg (fun h => nomatch h.1)

/-- A constant, not negative. -/
theorem int_s32 {v : Nat} (h : v < 2 ^ 31) : (Val.mk .s32 v).int = v := if_neg (fun h' => absurd h'.2 (Nat.not_le.2 h))

omit [Arch] in
theorem toNat_mod (a m : Nat) : ((a : Int) % (m : Nat)).toNat = a % m := by omega

theorem conv_lit {t : CTy} {v : Nat} (h : v < 2 ^ 31) (ht : t.bits = sizeBit ∨ t.bits = 32) (hs : t ≠ .s32) :
    conv t ⟨.s32, v⟩ = ⟨t, v⟩ := by
  unfold conv
  rw [if_neg hs, if_neg (fun h => nomatch h.2), int_s32 h, toNat_mod]
  congr
  apply Nat.mod_eq_of_lt
  have := two32_le
  rcases ht with ht | ht <;> rw [ht] <;> omega

@[csem] theorem conv_usize_lit (n : Nat) (h : n < 2 ^ 31) : conv .usize ⟨.s32, n⟩ = ⟨.usize, n⟩ := conv_lit h (.inl rfl) nofun
@[csem] theorem conv_ssize_lit (n : Nat) (h : n < 2 ^ 31) : conv .ssize ⟨.s32, n⟩ = ⟨.ssize, n⟩ := conv_lit h (.inl rfl) nofun
@[csem] theorem conv_ptr_lit (t : CTy) (n : Nat) (h : n < 2 ^ 31) : conv (.ptr t) ⟨.s32, n⟩ = ⟨.ptr t, n⟩ := conv_lit h (.inl rfl) nofun
@[csem] theorem conv_u32_lit (n : Nat) (h : n < 2 ^ 31) : conv .u32 ⟨.s32, n⟩ = ⟨.u32, n⟩ := conv_lit h (.inr rfl) nofun


@[csem] theorem conv_u64_lit (n : Nat) (h : n < 2 ^ 31) : conv .u64 ⟨.s32, n⟩ = ⟨.u64, n⟩ := by
  unfold conv
  rw [if_neg nofun, if_neg (fun h => nomatch h.2), int_s32 h, toNat_mod]
  exact congrArg _ (Nat.mod_eq_of_lt (Nat.lt_trans h (show 2 ^ 31 < 2 ^ 64 by decide)))

theorem usize_bits : CTy.usize.bits = sizeBit := rfl

@[csem] theorem conv_usize_u32 (n : Nat) (h : n < 2 ^ 32) : conv .usize ⟨.u32, n⟩ = ⟨.usize, n⟩ := by
  unfold conv
  rw [if_neg nofun, if_neg (fun h => nomatch h.2), int_u32, toNat_mod]
  exact congrArg _ (Nat.mod_eq_of_lt (Nat.lt_of_lt_of_le h two32_le))

@[csem] theorem conv_u32_usize (n : Nat) (h : n < 2 ^ 32) : conv .u32 ⟨.usize, n⟩ = ⟨.u32, n⟩ := by
  unfold conv
  rw [if_neg nofun, if_neg (fun h => nomatch h.2), int_usize, toNat_mod]
  exact congrArg _ (Nat.mod_eq_of_lt h)

@[csem] theorem conv_u64_usize (n : Nat) (h : n < 2 ^ sizeBit) : conv .u64 ⟨.usize, n⟩ = ⟨.u64, n⟩ := by
  unfold conv
  rw [if_neg nofun, if_neg (fun h => nomatch h.2), int_usize, toNat_mod]
  refine congrArg _ (Nat.mod_eq_of_lt (Nat.lt_of_lt_of_le h (Nat.pow_le_pow_right (by decide) ?_)))
  unfold sizeBit; cases ‹Arch› <;> decide

/-! ### Operators -/

section
variable (a b n : Nat) (s t : CTy)

@[csem] theorem bool_v (c : Bool) : (bool c).v = if c then 1 else 0 := rfl
omit [Arch] in
@[csem] theorem bool_zero (c : Prop) [Decidable c] : ((if decide c = true then 1 else 0) = 0) = ¬ c := by by_cases h : c <;> simp [h]

theorem res_usize (x : Int) : result .usize x = some ⟨.usize, (x % (2 ^ sizeBit : Nat)).toNat⟩ := rfl
theorem res_u32 (x : Int) : result .u32 x = some ⟨.u32, (x % (2 ^ 32 : Nat)).toNat⟩ := rfl
theorem res_u64 (x : Int) : result .u64 x = some ⟨.u64, (x % (2 ^ 64 : Nat)).toNat⟩ := rfl

macro "bin" "[" h:Lean.Parser.Tactic.simpLemma,* "]" : tactic => `(tactic| (
  simp only [binop, promote, common, Option.bind_eq_bind, Option.bind_some, conv_same, conv_ptr, arith, CTy.isPtr, int_usize, int_u32, int_u64, res_usize,
    res_u32, res_u64, Bool.false_eq_true, if_false, $h,*]))

@[csem] theorem and_usize : binop .and ⟨.usize, a⟩ ⟨.usize, b⟩ = some ⟨.usize, a &&& b⟩ := by bin []
@[csem] theorem or_usize (h : n < 2 ^ 31) : binop .or ⟨.usize, a⟩ ⟨.s32, n⟩ = some ⟨.usize, a ||| n⟩ := by bin [conv_usize_lit n h]

omit [Arch] in
theorem toNat_add_mod (a b m : Nat) : (((a : Int) + b) % (m : Nat)).toNat = (a + b) % m := toNat_mod (a + b) m
omit [Arch] in
theorem toNat_mul_mod (a b m : Nat) : (((a : Int) * b) % (m : Nat)).toNat = (a * b) % m := by rw [← Int.natCast_mul, toNat_mod]
omit [Arch] in
theorem toNat_dec_mod {a m : Nat} (h : a < m) : (((a : Int) - (1 : Nat)) % (m : Nat)).toNat = (a + m - 1) % m := by
  have : ((a : Int) - (1 : Nat)) % (m : Nat) = ((a + m - 1 : Nat) : Int) % (m : Nat) := by
    rw [← Int.add_emod_right (a - _)]
    congr 1
    omega
  rw [this, toNat_mod]

@[csem] theorem add_usize : binop .add ⟨.usize, a⟩ ⟨.usize, b⟩ = some ⟨.usize, Tommy.sizeT (a + b)⟩ := by bin [toNat_add_mod]; rfl
@[csem] theorem add_usize_lit (h : n < 2 ^ 31) : binop .add ⟨.usize, a⟩ ⟨.s32, n⟩ = some ⟨.usize, Tommy.sizeT (a + n)⟩ := by
  bin [conv_usize_lit n h, toNat_add_mod]; rfl
@[csem] theorem mul_usize : binop .mul ⟨.usize, a⟩ ⟨.usize, b⟩ = some ⟨.usize, Tommy.sizeT (a * b)⟩ := by bin [toNat_mul_mod]; rfl
@[csem] theorem mul_lit_usize (h : n < 2 ^ 31) : binop .mul ⟨.s32, n⟩ ⟨.usize, a⟩ = some ⟨.usize, Tommy.sizeT (n * a)⟩ := by
  bin [conv_usize_lit n h, toNat_mul_mod]; rfl

theorem decT_mod (h : a < 2 ^ sizeBit) : (a + 2 ^ sizeBit - 1) % 2 ^ sizeBit = decT a := by
  have := pow_pos'
  unfold decT
  split
  · subst a; rw [Nat.zero_add, Nat.mod_eq_of_lt (by omega)]
  · rw [show a + 2 ^ sizeBit - 1 = (a - 1) + 2 ^ sizeBit by omega, Nat.add_mod_right, Nat.mod_eq_of_lt (by omega)]

@[csem] theorem dec_usize (h : a < 2 ^ sizeBit) : binop .sub ⟨.usize, a⟩ ⟨.s32, 1⟩ = some ⟨.usize, decT a⟩ := by
  bin [conv_usize_lit 1 (by decide), toNat_dec_mod h, decT_mod a h]
@[csem] theorem div_usize (h : a < 2 ^ sizeBit) (h' : n < 2 ^ 31) (h0 : 0 < n) : binop .div ⟨.usize, a⟩ ⟨.s32, n⟩ = some ⟨.usize, a / n⟩ := by
  bin [conv_usize_lit n h', Nat.pos_iff_ne_zero.1 h0]
  rw [Int.tdiv_eq_ediv_of_nonneg (by omega), ← Int.natCast_ediv, toNat_mod, Nat.mod_eq_of_lt (Nat.lt_of_le_of_lt (Nat.div_le_self _ _) h)]

@[csem] theorem eq_usize : binop .eq ⟨.usize, a⟩ ⟨.usize, b⟩ = some (bool (a = b)) := by bin []
@[csem] theorem eq_usize_lit (h : n < 2 ^ 31) : binop .eq ⟨.usize, a⟩ ⟨.s32, n⟩ = some (bool (a = n)) := by bin [conv_usize_lit n h]
@[csem] theorem lt_usize : binop .lt ⟨.usize, a⟩ ⟨.usize, b⟩ = some (bool (a < b)) := by bin [Int.ofNat_lt]
@[csem] theorem lt_usize_lit (h : n < 2 ^ 31) : binop .lt ⟨.usize, a⟩ ⟨.s32, n⟩ = some (bool (a < n)) := by bin [conv_usize_lit n h, Int.ofNat_lt]
@[csem] theorem gt_usize : binop .gt ⟨.usize, a⟩ ⟨.usize, b⟩ = some (bool (a > b)) := by bin [Int.ofNat_lt, gt_iff_lt]
@[csem] theorem ge_usize : binop .ge ⟨.usize, a⟩ ⟨.usize, b⟩ = some (bool (a ≥ b)) := by bin [Int.ofNat_le, ge_iff_le]
@[csem] theorem le_usize : binop .le ⟨.usize, a⟩ ⟨.usize, b⟩ = some (bool (a ≤ b)) := by bin [Int.ofNat_le]

@[csem] theorem eq_ptr : binop .eq ⟨.ptr s, a⟩ ⟨.ptr t, b⟩ = some (bool (a = b)) := by bin []
@[csem] theorem eq_ptr_lit (h : n < 2 ^ 31) : binop .eq ⟨.ptr s, a⟩ ⟨.s32, n⟩ = some (bool (a = n)) := by bin [conv_ptr_lit s n h]
@[csem] theorem ne_ptr : binop .ne ⟨.ptr s, a⟩ ⟨.ptr t, b⟩ = some (bool (a ≠ b)) := by bin []

@[csem] theorem add_u32_lit (h : n < 2 ^ 31) : binop .add ⟨.u32, a⟩ ⟨.s32, n⟩ = some ⟨.u32, (a + n) % 2 ^ 32⟩ := by
  bin [conv_u32_lit n h, toNat_add_mod]
@[csem] theorem dec_u32 (h : a < 2 ^ 32) : binop .sub ⟨.u32, a⟩ ⟨.s32, 1⟩ = some ⟨.u32, (a + 2 ^ 32 - 1) % 2 ^ 32⟩ := by
  bin [conv_u32_lit 1 (by decide), toNat_dec_mod h]
@[csem] theorem dec_u64 (h : a < 2 ^ 64) : binop .sub ⟨.u64, a⟩ ⟨.s32, 1⟩ = some ⟨.u64, (a + 2 ^ 64 - 1) % 2 ^ 64⟩ := by
  bin [conv_u64_lit 1 (by decide), toNat_dec_mod h]
@[csem] theorem add_u64_lit (h : n < 2 ^ 31) : binop .add ⟨.u64, a⟩ ⟨.s32, n⟩ = some ⟨.u64, (a + n) % 2 ^ 64⟩ := by
  bin [conv_u64_lit n h, toNat_add_mod]
@[csem] theorem eq_u32_lit (h : n < 2 ^ 31) : binop .eq ⟨.u32, a⟩ ⟨.s32, n⟩ = some (bool (a = n)) := by bin [conv_u32_lit n h]
@[csem] theorem ne_u32_lit (h : n < 2 ^ 31) : binop .ne ⟨.u32, a⟩ ⟨.s32, n⟩ = some (bool (a ≠ n)) := by bin [conv_u32_lit n h]
@[csem] theorem lt_u32 : binop .lt ⟨.u32, a⟩ ⟨.u32, b⟩ = some (bool (a < b)) := by bin [Int.ofNat_lt]
@[csem] theorem lt_u32_lit (h : n < 2 ^ 31) : binop .lt ⟨.u32, a⟩ ⟨.s32, n⟩ = some (bool (a < n)) := by bin [conv_u32_lit n h, Int.ofNat_lt]
@[csem] theorem gt_u32_lit (h : n < 2 ^ 31) : binop .gt ⟨.u32, a⟩ ⟨.s32, n⟩ = some (bool (a > n)) := by
  bin [conv_u32_lit n h, Int.ofNat_lt, gt_iff_lt]
@[csem] theorem or_u32 : binop .or ⟨.u32, a⟩ ⟨.u32, b⟩ = some ⟨.u32, a ||| b⟩ := by bin []
@[csem] theorem or_u64 : binop .or ⟨.u64, a⟩ ⟨.u64, b⟩ = some ⟨.u64, a ||| b⟩ := by bin []

theorem shr_gen (t : CTy) (h : promote t = t) (hs : t.signed = false) (ha : a < 2 ^ t.bits) (hn : n < t.bits) (hb : n < 2 ^ 31) :
    binop .shr ⟨t, a⟩ ⟨.s32, n⟩ = some ⟨t, a >>> n⟩ := by
  have e : (Val.mk t a).int = a := if_neg (fun h => by rw [hs] at h; exact nomatch h.1)
  have h1 : ¬ ((n : Int) < 0 ∨ (t.bits : Int) ≤ n ∨ (a : Int) < 0) := by omega
  simp only [binop, h, conv_same, e, int_s32 hb, if_neg h1, result, hs, Bool.false_eq_true, if_false, Int.toNat_natCast]
  rw [← Int.natCast_ediv, toNat_mod, Nat.mod_eq_of_lt (Nat.lt_of_le_of_lt (Nat.div_le_self _ _) ha), Nat.shiftRight_eq_div_pow]
  rfl

@[csem] theorem shr_u32 (ha : a < 2 ^ 32) (hn : n < 32) : binop .shr ⟨.u32, a⟩ ⟨.s32, n⟩ = some ⟨.u32, a >>> n⟩ :=
  shr_gen a n .u32 rfl rfl ha hn (by omega)
@[csem] theorem shr_u64 (ha : a < 2 ^ 64) (hn : n < 64) : binop .shr ⟨.u64, a⟩ ⟨.s32, n⟩ = some ⟨.u64, a >>> n⟩ :=
  shr_gen a n .u64 rfl rfl ha hn (by omega)

theorem shl_usize (v : Val) (hv : v.int = n) : lift (binop .shl ⟨.usize, 1⟩ v) = (do let x ← bshl n; Pure.pure ⟨.usize, x⟩ : BM Val) := by
  simp only [binop, promote, conv_same, int_usize, hv, usize_bits]
  by_cases h : n < sizeBit
  · rw [if_neg (by omega)]
    simp only [res_usize, Int.toNat_natCast]
    funext w
    have e : ((1 : Nat) : Int) * ((2 ^ n : Nat) : Int) = ((2 ^ n : Nat) : Int) := by rw [Int.natCast_one, Int.one_mul]
    rw [e, toNat_mod, Nat.mod_eq_of_lt (Nat.pow_lt_pow_right (by decide) h)]
    simp only [bshl, bind, StateT.bind, h, if_true]
    rfl
  · rw [if_pos (by omega)]
    funext w
    simp only [bshl, bind, StateT.bind, h, if_false]
    rfl

@[csem] theorem shl_usize_u32 : lift (binop .shl ⟨.usize, 1⟩ ⟨.u32, n⟩) = (do let x ← bshl n; Pure.pure ⟨.usize, x⟩ : BM Val) := shl_usize n _ (int_u32 n)
@[csem] theorem shl_usize_usize : lift (binop .shl ⟨.usize, 1⟩ ⟨.usize, n⟩) = (do let x ← bshl n; Pure.pure ⟨.usize, x⟩ : BM Val) :=
  shl_usize n _ (int_usize n)

@[csem] theorem padd_sizeT : padd a (Tommy.sizeT n) = padd a n := by
  unfold padd Tommy.sizeT
  rw [Nat.add_mod, Nat.mul_mod, Nat.mod_mod, ← Nat.mul_mod, ← Nat.add_mod]

@[csem] theorem elem_usize : elemAddr a ptrSize ⟨.usize, n⟩ = padd a n := by
  unfold elemAddr padd
  rw [int_usize, ← Int.natCast_mul, toNat_add_mod]

end

/-! ### Statements -/

omit [Arch] in
@[csem] theorem ite_bind {c : Prop} [Decidable c] {x y : BM γ} {f : γ → BM α} : ((if c then x else y) >>= f) = if c then x >>= f else y >>= f := by
  split <;> rfl

omit [Arch] in
@[csem] theorem fail_bind {f : γ → BM α} : ((fail : BM γ) >>= f) = fail := rfl

section
variable (ext : Ext) (call : String → List Val → BM Val)

@[csem ↓] theorem exec_seq_ite (c : Expr) (a b s : Stmt) (e : Env) : exec structs ext call (.seq (.ite c a b) s) e =
    (do let (x, e) ← eval structs ext call c e
        if x.v ≠ 0 then exec structs ext call (.seq a s) e else exec structs ext call (.seq b s) e) := by
  simp only [exec, bind_assoc]
  congr; funext x
  split <;> simp only [exec]

@[csem ↓] theorem exec_seq_block (a s : Stmt) (e : Env) : exec structs ext call (.seq (.block a) s) e =
    (do let (c, e') ← exec structs ext call a e
        match c with
        | .normal => exec structs ext call s (e'.drop (e'.length - e.length))
        | c => return (c, e'.drop (e'.length - e.length))) := by
  simp only [exec, bind_assoc, pure_bind]
  rfl

end

attribute [csem] execFun bindParams exec ev evArgs eval Res.get Env.get Env.set Env.decl Option.map_some
    pure_bind bind_assoc reduceIte List.getElem?_cons_zero List.length List.drop List.set ne_eq not_not not_true_eq_false not_false_eq_true ite_not sameName cond_true cond_false

/-- Symbolic execution. -/
syntax "csimp" (" [" Lean.Parser.Tactic.simpLemma,* "]")? : tactic
macro_rules
  | `(tactic| csimp) => `(tactic| simp (maxSteps := 1000000) only [csem, String.reduceBEq, reduceCtorEq, Nat.reduceAdd, Nat.reduceSub, Nat.reducePow, Nat.reduceLT])
  | `(tactic| csimp [$h,*]) => `(tactic| simp (maxSteps := 1000000) only [csem, String.reduceBEq, reduceCtorEq, Nat.reduceAdd, Nat.reduceSub, Nat.reducePow, Nat.reduceLT, $h,*])

/-! ### Reads -/

theorem get_at {p : Nat} {w : BMem} {f g : Nat → BM α} (h : ∀ v, bget p w = some (v, w) → f v w = g v w) : (bget p >>= f) w = (bget p >>= g) w := by
  by_cases hp : w.mem.acc p ptrSize
  · have e : bget p w = some (rdN w.mem.byte p ptrSize, w) := if_pos hp
    show (bget p w).bind _ = (bget p w).bind _
    rw [e]
    exact h _ e
  · have e : bget p w = none := if_neg hp
    show (bget p w).bind _ = (bget p w).bind _
    rw [e]; rfl

/-- Reads the same again. -/
theorem get_known {p v : Nat} {w : BMem} {f : Nat → BM α} (h : bget p w = some (v, w)) : (bget p >>= f) w = f v w := by
  show (bget p w).bind _ = _
  rw [h]; rfl

theorem bind_at {x : BM γ} {w : BMem} {f g : γ → BM α} (h : ∀ a, f a = g a) : (x >>= f) w = (x >>= g) w := by rw [funext h]

/-- Reads the same again after a test. -/
theorem get_again_ite (p : Nat) (c : Nat → Prop) [∀ x, Decidable (c x)] (k : Nat → Nat → BM α) (m : Nat → BM α) :
    (do let x ← bget p; if c x then (do let y ← bget p; k x y) else m x) = (do let x ← bget p; if c x then k x x else m x) := by
  funext w
  refine get_at fun v e => ?_
  split
  · exact get_known e
  · rfl

theorem get_again_ite' (p : Nat) (c : Nat → Prop) [∀ x, Decidable (c x)] (k : Nat → Nat → BM α) (m : Nat → BM α) :
    (do let x ← bget p; if c x then m x else (do let y ← bget p; k x y)) = (do let x ← bget p; if c x then m x else k x x) := by
  funext w
  refine get_at fun v e => ?_
  split
  · rfl
  · exact get_known e

/-- The order of two reads. -/
theorem get_comm (p q : Nat) (f : Nat → Nat → BM α) : (do let a ← bget p; let b ← bget q; f a b) = (do let b ← bget q; let a ← bget p; f a b) := by
  funext w
  simp only [bget, bgetN, bind, StateT.bind]
  by_cases h : w.mem.acc p ptrSize <;> by_cases h' : w.mem.acc q ptrSize <;> simp [h, h', Option.bind]

/-! ### Functions of the C library -/

theorem run_builtin {ext : Ext} {f : String} {vs : List Val} {x : BM Val} (h : builtin f vs = some x) : run ext f vs = x := by
  rw [run.eq_1, h]

section
variable (ext : Ext)

@[csem] theorem run_free (t : CTy) (p : Nat) : run ext "free" [⟨.ptr t, p⟩] = (do bfree p; return ⟨.void, 0⟩) := run_builtin rfl
@[csem] theorem run_malloc (n : Nat) : run ext "malloc" [⟨.usize, n⟩] = (do let p ← bmalloc n; return ⟨.ptr .void, p⟩) := by
  rw [run_builtin rfl, conv_same]
@[csem] theorem run_calloc (n m : Nat) : run ext "calloc" [⟨.usize, n⟩, ⟨.usize, m⟩] = (do let p ← hbcalloc n m; return ⟨.ptr .void, p⟩) := by
  rw [run_builtin rfl, conv_same, conv_same]
@[csem] theorem run_memset (t : CTy) (p n : Nat) : run ext "memset" [⟨.ptr t, p⟩, ⟨.s32, 0⟩, ⟨.usize, n⟩] = (do bzero p n; return ⟨.ptr t, p⟩) := by
  rw [run_builtin rfl, conv_same]
  rfl

end

attribute [csem] typeOf

theorem name_round (x : String) (h : (x == "tommy_roundup_pow2_u32" || x == "tommy_roundup_pow2_u64") = false) : (x == Src.m_tommy_roundup_pow2) = false := by
  rw [Bool.or_eq_false_iff] at h
  unfold Src.m_tommy_roundup_pow2
  cases ‹Arch›
  · exact h.1
  · exact h.2

theorem name_ilog2 (x : String) (h : (x == "tommy_ilog2_u32" || x == "tommy_ilog2_u64") = false) : (x == Src.m_tommy_ilog2) = false := by
  rw [Bool.or_eq_false_iff] at h
  unfold Src.m_tommy_ilog2
  cases ‹Arch›
  · exact h.1
  · exact h.2

/-! ### Fields -/

abbrev tNode : CTy := .ptr (.struct "tommy_node_struct")

@[csem] theorem field_next : field structs "tommy_node_struct" "next" = some (tNode, nodNext) := by cases ‹Arch› <;> rfl
@[csem] theorem field_prev : field structs "tommy_node_struct" "prev" = some (tNode, nodPrev) := by cases ‹Arch› <;> rfl
@[csem] theorem field_data : field structs "tommy_node_struct" "data" = some (.ptr .void, nodData) := by cases ‹Arch› <;> rfl
@[csem] theorem field_index : field structs "tommy_node_struct" "index" = some (.usize, nodIndex) := by cases ‹Arch› <;> rfl
@[csem] theorem size_ptr (t : CTy) : size structs (.ptr t) = some ptrSize := rfl
@[csem] theorem size_node : size structs (.struct "tommy_node_struct") = some nodeSize := by cases ‹Arch› <;> rfl

end Tommy.C
