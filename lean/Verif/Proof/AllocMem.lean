import Verif.Spec.Alloc
import Verif.Proof.Arch
/-! Memory of the allocator: pointers in bytes, chains of pointers, the loop that creates the free list. -/
set_option linter.unusedSimpArgs false
namespace Tommy
namespace AllocSpec
variable [Arch]

omit [Arch] in
theorem acc_of {m : AMem} {b n p k : Nat} (h : m.live b = some n) (h1 : b ≤ p) (h2 : p + k ≤ b + n) : m.acc p k = true := by
  unfold AMem.acc
  rw [List.any_eq_true]
  refine ⟨b, by rw [List.mem_range]; omega, ?_⟩
  simp [h, h2]

omit [Arch] in
theorem acc_iff {m : AMem} {p k : Nat} : m.acc p k = true ↔ ∃ b n, m.live b = some n ∧ b ≤ p ∧ p + k ≤ b + n := by
  constructor
  · unfold AMem.acc
    rw [List.any_eq_true]
    rintro ⟨b, h1, h2⟩
    rw [List.mem_range] at h1
    cases hl : m.live b with
    | none => simp [hl] at h2
    | some n =>
      simp only [hl, decide_eq_true_eq] at h2
      exact ⟨b, n, hl, by omega, h2⟩
  · rintro ⟨b, n, h, h1, h2⟩; exact acc_of h h1 h2

omit [Arch] in
theorem rdN_congr {f g : Nat → Nat} : ∀ {n p : Nat}, (∀ x, p ≤ x → x < p + n → f x = g x) → rdN f p n = rdN g p n := by
  intro n
  induction n with
  | zero => intro p _; rfl
  | succ n ih =>
    intro p h
    simp only [rdN]
    rw [h p (by omega) (by omega), ih fun x h1 h2 => h x (by omega) (by omega)]

theorem rdP_congr {f g : Nat → Nat} {p : Nat} (h : ∀ x, p ≤ x → x < p + ptrSize → f x = g x) : rdP f p = rdP g p :=
  rdN_congr h

theorem wrP_out {f : Nat → Nat} {p v x : Nat} (h : x < p ∨ p + ptrSize ≤ x) : wrP f p v x = f x := by
  unfold wrP; rw [if_neg (by omega)]

omit [Arch] in
theorem rdN_bytes {f : Nat → Nat} : ∀ {n p v : Nat}, (∀ i, i < n → f (p + i) = v / 2 ^ (8 * i) % 256) →
    rdN f p n = v % 2 ^ (8 * n) := by
  intro n
  induction n with
  | zero => intro p v _; simp [rdN, Nat.mod_one]
  | succ n ih =>
    intro p v h
    have h0 := h 0 (by omega)
    simp only [Nat.add_zero, Nat.mul_zero, Nat.pow_zero, Nat.div_one] at h0
    have h1 := ih (p := p + 1) (v := v / 256) fun i hi => by
      have := h (i + 1) (by omega)
      rw [show p + 1 + i = p + (i + 1) by omega, this, Nat.div_div_eq_div_mul]
      congr 2
      rw [show 8 * (i + 1) = 8 + 8 * i by omega, Nat.pow_add]
    simp only [rdN]
    rw [h0, h1, show 8 * (n + 1) = 8 + 8 * n by omega, Nat.pow_add, Nat.mod_mul]

theorem rdP_wrP {f : Nat → Nat} {p v : Nat} (h : v < 2 ^ sizeBit) : rdP (wrP f p v) p = v := by
  have key : ∀ i, i < ptrSize → wrP f p v (p + i) = v / 2 ^ (8 * i) % 256 := fun i hi => by
    unfold wrP; rw [if_pos (by omega), show p + i - p = i by omega]
  have e : 8 * ptrSize = sizeBit := by arch
  unfold rdP
  rw [rdN_bytes key, e, Nat.mod_eq_of_lt h]

theorem rdP_wrP_out {f : Nat → Nat} {p q v : Nat} (h : q + ptrSize ≤ p ∨ p + ptrSize ≤ q) : rdP (wrP f p v) q = rdP f q :=
  rdP_congr fun x h1 h2 => wrP_out (by omega)

theorem writeP_run {m : AMem} {p v : Nat} (h : m.acc p ptrSize = true) :
    writeP p v m = some ((), { m with byte := wrP m.byte p v }) := by
  unfold writeP; rw [if_pos h]

theorem readP_run {m : AMem} {p : Nat} (h : m.acc p ptrSize = true) : readP p m = some (rdP m.byte p, m) := by
  unfold readP; rw [if_pos h]

/-- A list linked by the pointers in the first 8 bytes of each element. -/
def Chain (f : Nat → Nat) : Nat → List Nat → Prop
  | p, [] => p = 0
  | p, x :: xs => p = x ∧ x ≠ 0 ∧ Chain f (rdP f x) xs

theorem Chain.congr {f g : Nat → Nat} : ∀ {l p}, (∀ q ∈ l, rdP g q = rdP f q) → Chain f p l → Chain g p l := by
  intro l
  induction l with
  | nil => intro p _ h; exact h
  | cons x xs ih =>
    intro p hq h
    refine ⟨h.1, h.2.1, ?_⟩
    rw [hq x (by simp)]
    exact ih (fun q hm => hq q (by simp [hm])) h.2.2

theorem Chain.head_eq {f : Nat → Nat} {p : Nat} {l : List Nat} (h : Chain f p l) : p = l.headD 0 := by
  cases l with
  | nil => exact h
  | cons x xs => exact h.1

/-- The blocks of a segment, the last one first. -/
def blocks (data bs : Nat) : Nat → List Nat
  | 0 => []
  | n + 1 => (data + n * bs) :: blocks data bs n

omit [Arch] in
theorem blocks_shift (data bs : Nat) : ∀ n, blocks (data + bs) bs n ++ [data] = blocks data bs (n + 1) := by
  intro n
  induction n with
  | zero => simp [blocks]
  | succ n ih =>
    have e : blocks (data + bs) bs (n + 1) ++ [data] = (data + bs + n * bs) :: (blocks (data + bs) bs n ++ [data]) := rfl
    rw [e, ih]
    show _ = (data + (n + 1) * bs) :: blocks data bs (n + 1)
    congr 1
    rw [Nat.add_mul]; omega

omit [Arch] in
theorem mem_blocks {data bs n p : Nat} : p ∈ blocks data bs n ↔ ∃ i, i < n ∧ p = data + i * bs := by
  induction n with
  | zero => simp [blocks]
  | succ n ih =>
    simp only [blocks, List.mem_cons, ih]
    constructor
    · rintro (h | ⟨i, hi, h⟩)
      · exact ⟨n, by omega, h⟩
      · exact ⟨i, by omega, h⟩
    · rintro ⟨i, hi, h⟩
      by_cases e : i = n
      · subst e; exact .inl h
      · exact .inr ⟨i, by omega, h⟩

omit [Arch] in
theorem blocks_length (data bs : Nat) : ∀ n, (blocks data bs n).length = n := by
  intro n
  induction n with
  | zero => rfl
  | succ n ih => simp [blocks, ih]

omit [Arch] in
theorem mul_le_mul_lt {i n bs : Nat} (h : i < n) : i * bs + bs ≤ n * bs := by
  have : (i + 1) * bs ≤ n * bs := Nat.mul_le_mul_right _ h
  rw [Nat.add_mul] at this; omega

omit [Arch] in
theorem blocks_apart (data bs : Nat) : ∀ n, (blocks data bs n).Pairwise fun p q => p + bs ≤ q ∨ q + bs ≤ p := by
  intro n
  induction n with
  | zero => exact List.Pairwise.nil
  | succ n ih =>
    refine List.pairwise_cons.2 ⟨fun q hq => ?_, ih⟩
    obtain ⟨i, hi, rfl⟩ := mem_blocks.1 hq
    have := mul_le_mul_lt (bs := bs) hi
    omega

theorem pushLoop_run {bs : Nat} (hbs : ptrSize ≤ bs) : ∀ n (t : Alloc) (data size : Nat) (m : AMem) (F : List Nat), t.blockSize = bs →
    (n + 1) * bs ≤ size → size < (n + 1) * bs + bs → size < 2 ^ sizeBit → 0 < data → data + (n + 1) * bs < 2 ^ sizeBit →
    (∀ i, i ≤ n → m.acc (data + i * bs) ptrSize = true) → Chain m.byte t.freeBlock F →
    (∀ q ∈ F, q + ptrSize ≤ data ∨ data + (n + 1) * bs ≤ q) → t.freeBlock < 2 ^ sizeBit →
    ∃ m', allocatorPushLoop t data size m = some ({ t with freeBlock := data + n * bs }, m') ∧ m'.live = m.live ∧
      (∀ x, x < data ∨ data + (n + 1) * bs ≤ x → m'.byte x = m.byte x) ∧
      Chain m'.byte (data + n * bs) (blocks data bs (n + 1) ++ F) := by
  intro n
  induction n with
  | zero =>
    intro t data size m F hb h1 h2 h64 hd hend hacc hF hsep hfb
    have ha := hacc 0 (by omega)
    simp only [Nat.zero_mul, Nat.add_zero, Nat.zero_add, Nat.one_mul] at *
    refine ⟨{ m with byte := wrP m.byte data t.freeBlock }, ?_, rfl, fun x hx => wrP_out (by omega), ?_⟩
    · have hs : subT size t.blockSize = size - bs := by unfold subT; arch
      rw [allocatorPushLoop]
      simp only [StateT.bind, bind, writeP_run ha, Option.bind_some, hs]
      rw [if_neg (by omega)]; rfl
    · simp only [blocks, Nat.zero_mul, Nat.add_zero, List.cons_append, List.nil_append]
      refine ⟨rfl, by omega, ?_⟩
      rw [rdP_wrP hfb]
      exact hF.congr fun q hq => rdP_wrP_out (by have := hsep q hq; omega)
  | succ n ih =>
    intro t data size m F hb h1 h2 h64 hd hend hacc hF hsep hfb
    have ha := hacc 0 (by omega)
    rw [Nat.zero_mul, Nat.add_zero] at ha
    have e1 : (n + 1 + 1) * bs = (n + 1) * bs + bs := by rw [Nat.add_mul (n + 1)]; omega
    rw [e1] at h1 h2 hend hsep
    have hs : subT size t.blockSize = size - bs := by unfold subT; arch
    have hdat : addT data t.blockSize = data + bs := by unfold addT; arch
    have hpos : 0 ≤ (n + 1) * bs := Nat.zero_le _
    obtain ⟨m', e, hl, hx, hC⟩ := ih { t with freeBlock := data } (data + bs) (size - bs) { m with byte := wrP m.byte data t.freeBlock }
      (data :: F) hb (by omega) (by omega) (by omega) (by omega) (by omega) (fun i hi => by
        have := hacc (i + 1) (by omega)
        rw [Nat.add_mul, Nat.one_mul] at this
        have e2 : data + bs + i * bs = data + (i * bs + bs) := by omega
        rw [e2]; exact this) (by
        refine ⟨rfl, by omega, ?_⟩
        simp only
        rw [rdP_wrP hfb]
        exact hF.congr fun q hq => rdP_wrP_out (by have := hsep q hq; omega)) (fun q hq => by
        rcases List.mem_cons.1 hq with rfl | hq
        · left; omega
        · have := hsep q hq; omega) (by simp only; omega)
    have e3 : data + (n + 1) * bs = data + bs + n * bs := by rw [Nat.add_mul]; omega
    refine ⟨m', ?_, by rw [hl], fun x hx' => ?_, ?_⟩
    · rw [allocatorPushLoop]
      simp only [StateT.bind, bind, writeP_run ha, Option.bind_some, hs, hdat]
      rw [if_pos (by omega), e3]
      exact e
    · rw [hx x (by omega)]; exact wrP_out (by omega)
    · rw [e3, ← blocks_shift, List.append_assoc]; exact hC

end AllocSpec
end Tommy
