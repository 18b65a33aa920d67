import Verif.Model.Hashlin
import Mathlib.Tactic.NormNum
/-! The numeric part of the resizes of tommy_hashlin: how the counters evolve at each call. -/
set_option linter.unusedSimpArgs false
namespace Tommy

variable [Arch]
namespace HashSpec

/-- The counters of a tommy_hashlin. -/
structure Num where
  bit : Nat
  split : Nat
  count : Nat
  work : Nat
  state : LinState

def Hashlin.num (t : Hashlin) : Num := ⟨t.bucketBit, t.split, t.count, t.work, t.state⟩

/-- low_max -/
def Num.low (n : Num) : Nat := if n.state = .stable then 2 ^ n.bit else 2 ^ (n.bit - 1)

/-- The grow loop with a target, when `split < low`. -/
def Num.growTo (n : Num) (target : Nat) : Num :=
  if n.low - n.split ≤ target - (n.low + n.split) then
    { n with split := 0, work := n.work + (n.low - n.split), state := .stable }
  else
    { n with split := n.split + (target - (n.low + n.split)), work := n.work + (target - (n.low + n.split)) }

def Num.growStart (n : Num) : Num :=
  if n.state ≠ .grow ∧ n.count > 2 ^ n.bit / 2 then
    if n.state = .stable then { n with bit := n.bit + 1, split := 0, state := .grow }
    else { n with state := .grow }
  else n

def Num.growStep (n : Num) : Num :=
  if n.growStart.state = .grow then n.growStart.growTo (2 * n.growStart.count) else n.growStart

def Num.insert (n : Num) : Num := Num.growStep { n with count := n.count + 1 }

/-- The shrink loop with a target, when `0 < split`. -/
def Num.shrinkTo (n : Num) (target : Nat) : Num :=
  if n.split ≤ (n.low + n.split) - target then
    { n with bit := n.bit - 1, split := 0, work := n.work + n.split, state := .stable }
  else
    { n with split := n.split - ((n.low + n.split) - target), work := n.work + ((n.low + n.split) - target) }

def Num.shrinkStart (n : Num) : Num :=
  if n.state ≠ .shrink ∧ n.count < 2 ^ n.bit / 8 then
    if n.bit > hashlinBIT then
      if n.state = .stable then { n with split := 2 ^ n.bit / 2, state := .shrink }
      else { n with state := .shrink }
    else n
  else n

def Num.shrinkStep (n : Num) : Num :=
  if n.shrinkStart.state = .shrink then n.shrinkStart.shrinkTo (8 * n.shrinkStart.count) else n.shrinkStart

def Num.remove (n : Num) : Num := Num.shrinkStep { n with count := n.count - 1 }

omit [Arch] in
theorem Num.growTo_end {n : Num} {g : Nat} (h : n.low - n.split ≤ g - (n.low + n.split)) :
    n.growTo g = { n with split := 0, work := n.work + (n.low - n.split), state := .stable } := if_pos h

omit [Arch] in
theorem Num.growTo_part {n : Num} {g : Nat} (h : ¬ n.low - n.split ≤ g - (n.low + n.split)) :
    n.growTo g = { n with split := n.split + (g - (n.low + n.split)), work := n.work + (g - (n.low + n.split)) } :=
  if_neg h

omit [Arch] in
theorem Num.growStart_stable {n : Num} (h : n.state ≠ .grow ∧ n.count > 2 ^ n.bit / 2) (hs : n.state = .stable) :
    n.growStart = { n with bit := n.bit + 1, split := 0, state := .grow } := (if_pos h).trans (if_pos hs)

omit [Arch] in
theorem Num.growStart_shrink {n : Num} (h : n.state ≠ .grow ∧ n.count > 2 ^ n.bit / 2) (hs : ¬ n.state = .stable) :
    n.growStart = { n with state := .grow } := (if_pos h).trans (if_neg hs)

omit [Arch] in
theorem Num.growStart_none {n : Num} (h : ¬ (n.state ≠ .grow ∧ n.count > 2 ^ n.bit / 2)) :
    n.growStart = n := if_neg h

omit [Arch] in
theorem Num.shrinkTo_end {n : Num} {g : Nat} (h : n.split ≤ (n.low + n.split) - g) :
    n.shrinkTo g = { n with bit := n.bit - 1, split := 0, work := n.work + n.split, state := .stable } := if_pos h

omit [Arch] in
theorem Num.shrinkTo_part {n : Num} {g : Nat} (h : ¬ n.split ≤ (n.low + n.split) - g) :
    n.shrinkTo g = { n with split := n.split - ((n.low + n.split) - g), work := n.work + ((n.low + n.split) - g) } :=
  if_neg h

/-- What holds between the calls. -/
structure Num.Inv (n : Num) : Prop where
  bit : 6 ≤ n.bit
  stable : n.state = .stable → n.split = 0 ∧ 2 * n.count ≤ 2 ^ n.bit + 2 ∧ (n.bit = 6 ∨ 2 ^ n.bit ≤ 8 * n.count)
  grow : n.state = .grow → 6 < n.bit ∧ 0 < n.split ∧ n.split < n.low ∧ 2 * n.count ≤ n.low + n.split ∧
    2 ^ n.bit ≤ 8 * n.count
  shrink : n.state = .shrink → 6 < n.bit ∧ 0 < n.split ∧ n.split < n.low ∧ n.count ≤ n.low ∧
    n.low + n.split ≤ 8 * n.count

/-- The potential of the amortized analysis. -/
def Num.pot (n : Num) : Nat := if n.state = .shrink then 4 * n.count - n.low else 0

omit [Arch] in
theorem pow_half {k : Nat} (h : 0 < k) : 2 ^ k = 2 * 2 ^ (k - 1) := by
  rw [← Nat.pow_succ']; congr 1; omega

omit [Arch] in
theorem pow_64 {k : Nat} (h : 6 ≤ k) : ∃ c, 2 ^ k = 64 * c ∧ 0 < c := by
  refine ⟨2 ^ (k - 6), ?_, Nat.two_pow_pos _⟩
  rw [show (64 : Nat) = 2 ^ 6 by norm_num, ← Nat.pow_add]; congr 1; omega

omit [Arch] in
theorem Num.insert_spec {n : Num} (i : n.Inv) :
    n.insert.Inv ∧ n.insert.work + n.insert.pot ≤ n.work + n.pot + 4 ∧
    (n.state ≠ .shrink → n.insert.work ≤ n.work + 4) := by
  obtain ⟨bit, split, count, work, state⟩ := n
  obtain ⟨i1, i2, i3, i4⟩ := i
  cases state with
  | stable =>
    obtain ⟨a, b, c⟩ := i2 rfl
    simp only at a b c i1
    obtain ⟨d, hd, hd0⟩ := pow_64 i1
    by_cases h : count + 1 > 2 ^ bit / 2
    · have hlt : ¬ (2 ^ bit ≤ 2 * (count + 1) - 2 ^ bit) := by omega
      simp only [Num.insert, Num.growStep, Num.growStart, Num.growTo, Num.low, ne_eq, reduceCtorEq, not_false_eq_true,
        h, and_self, if_true, if_false, Nat.add_sub_cancel, Nat.sub_zero, Nat.add_zero, hlt, Num.pot]
      refine ⟨⟨by simp only; omega, by simp, fun _ => ?_, by simp⟩, by omega, fun _ => by omega⟩
      simp only [Num.low, reduceCtorEq, if_false, Nat.add_sub_cancel]
      rw [Nat.pow_succ]; omega
    · simp only [Num.insert, Num.growStep, Num.growStart, ne_eq, reduceCtorEq, not_false_eq_true,
        h, and_false, if_false, Num.pot]
      refine ⟨⟨i1, fun _ => ?_, by simp, by simp⟩, by omega, fun _ => by omega⟩
      simp only; omega
  | grow =>
    obtain ⟨a, b, c, d, e⟩ := i3 rfl
    simp only [Num.low, reduceCtorEq, if_false] at a b c d e i1
    obtain ⟨f, hf, hf0⟩ := pow_64 (k := bit - 1) (by omega)
    have hb := pow_half (k := bit) (by omega)
    simp only [Num.insert, Num.growStep, Num.growStart, Num.growTo, Num.low, ne_eq, reduceCtorEq, not_true_eq_false,
      false_and, if_true, if_false, Num.pot]
    split
    · refine ⟨⟨i1, fun _ => ?_, by simp, by simp⟩, ?_, fun _ => ?_⟩
      · simp only [true_and]; omega
      · simp only [reduceCtorEq, if_false]; omega
      · simp only [true_and]; omega
    · refine ⟨⟨i1, by simp, fun _ => ?_, by simp⟩, ?_, fun _ => ?_⟩
      · simp only [Num.low, reduceCtorEq, if_false]; omega
      · simp only [reduceCtorEq, if_false]; omega
      · simp only [true_and]; omega
  | shrink =>
    obtain ⟨a, b, c, d, e⟩ := i4 rfl
    simp only [Num.low, reduceCtorEq, if_false] at a b c d e i1
    obtain ⟨f, hf, hf0⟩ := pow_64 (k := bit - 1) (by omega)
    have hb := pow_half (k := bit) (by omega)
    by_cases h : count + 1 > 2 ^ bit / 2
    · have hlt : 2 ^ (bit - 1) - split ≤ 2 * (count + 1) - (2 ^ (bit - 1) + split) := by omega
      simp only [Num.insert, Num.growStep, Num.growStart, Num.growTo, Num.low, ne_eq, reduceCtorEq, not_false_eq_true,
        h, and_self, if_true, if_false, hlt, Num.pot]
      refine ⟨⟨i1, fun _ => ?_, by simp, by simp⟩, ?_, by simp⟩
      · simp only [true_and]; omega
      · omega
    · simp only [Num.insert, Num.growStep, Num.growStart, ne_eq, reduceCtorEq, not_false_eq_true,
        h, and_false, if_false, if_true, Num.pot, Num.low]
      refine ⟨⟨i1, by simp, by simp, fun _ => ?_⟩, by omega, by simp⟩
      simp only [Num.low, reduceCtorEq, if_false]; omega

omit [Arch] in
theorem Num.remove_spec {n : Num} (i : n.Inv) (h0 : 0 < n.count) :
    n.remove.Inv ∧ n.remove.work + n.remove.pot ≤ n.work + n.pot + 8 ∧ n.remove.work ≤ n.work + 8 := by
  obtain ⟨bit, split, count, work, state⟩ := n
  obtain ⟨i1, i2, i3, i4⟩ := i
  simp only at h0
  cases state with
  | stable =>
    obtain ⟨a, b, c⟩ := i2 rfl
    simp only at a b c i1
    obtain ⟨d, hd, hd0⟩ := pow_64 i1
    by_cases h : count - 1 < 2 ^ bit / 8
    · by_cases h6 : bit > hashlinBIT
      · have h6' : 6 < bit := h6
        have hb := pow_half (k := bit) (by omega)
        obtain ⟨f, hf, hf0⟩ := pow_64 (k := bit - 1) (by omega)
        have hlt : ¬ (2 ^ bit / 2 ≤ 2 ^ (bit - 1) + 2 ^ bit / 2 - 8 * (count - 1)) := by omega
        simp only [Num.remove, Num.shrinkStep, Num.shrinkStart, Num.shrinkTo, Num.low, ne_eq, reduceCtorEq,
          not_false_eq_true, h, h6, and_self, if_true, if_false, hlt, Num.pot]
        refine ⟨⟨i1, by simp, by simp, fun _ => ?_⟩, by omega, by omega⟩
        simp only [Num.low, reduceCtorEq, if_false]
        omega
      · simp only [Num.remove, Num.shrinkStep, Num.shrinkStart, ne_eq, reduceCtorEq, not_false_eq_true,
          h, h6, and_self, if_true, if_false, Num.pot]
        have h6' : ¬ (6 < bit) := h6
        refine ⟨⟨i1, fun _ => ?_, by simp, by simp⟩, by omega, by omega⟩
        simp only; omega
    · simp only [Num.remove, Num.shrinkStep, Num.shrinkStart, ne_eq, reduceCtorEq, not_false_eq_true,
        h, and_false, if_false, Num.pot]
      refine ⟨⟨i1, fun _ => ?_, by simp, by simp⟩, by omega, by omega⟩
      simp only; omega
  | grow =>
    obtain ⟨a, b, c, d, e⟩ := i3 rfl
    simp only [Num.low, reduceCtorEq, if_false] at a b c d e i1
    obtain ⟨f, hf, hf0⟩ := pow_64 (k := bit - 1) (by omega)
    have hb := pow_half (k := bit) (by omega)
    have h6 : bit > hashlinBIT := a
    by_cases h : count - 1 < 2 ^ bit / 8
    · simp only [Num.remove, Num.shrinkStep, Num.shrinkStart, Num.shrinkTo, Num.low, ne_eq, reduceCtorEq,
        not_false_eq_true, h, h6, and_self, if_true, if_false, Num.pot]
      split
      · have hx : 2 ^ (bit - 1) ≤ 8 * (count - 1) + 8 := by omega
        refine ⟨⟨by simp only; omega, fun _ => ?_, by simp, by simp⟩, ?_, ?_⟩
        · simp only [true_and]; omega
        · simp only [reduceCtorEq, if_false]; omega
        · simp only [true_and]; omega
      · refine ⟨⟨i1, by simp, by simp, fun _ => ?_⟩, ?_, ?_⟩
        · simp only [Num.low, reduceCtorEq, if_false]; omega
        · simp only [if_true, reduceCtorEq, if_false]; omega
        · simp only [true_and]; omega
    · simp only [Num.remove, Num.shrinkStep, Num.shrinkStart, ne_eq, reduceCtorEq, not_false_eq_true,
        h, and_false, if_false, Num.pot]
      refine ⟨⟨i1, by simp, fun _ => ?_, by simp⟩, by omega, by omega⟩
      simp only [Num.low, reduceCtorEq, if_false]; omega
  | shrink =>
    obtain ⟨a, b, c, d, e⟩ := i4 rfl
    simp only [Num.low, reduceCtorEq, if_false] at a b c d e i1
    obtain ⟨f, hf, hf0⟩ := pow_64 (k := bit - 1) (by omega)
    have hb := pow_half (k := bit) (by omega)
    simp only [Num.remove, Num.shrinkStep, Num.shrinkStart, Num.shrinkTo, Num.low, ne_eq, reduceCtorEq,
      not_true_eq_false, false_and, if_true, if_false, Num.pot]
    split
    · refine ⟨⟨by simp only; omega, fun _ => ?_, by simp, by simp⟩, ?_, ?_⟩
      · simp only [true_and]; omega
      · simp only [reduceCtorEq, if_false]; omega
      · simp only [true_and]; omega
    · refine ⟨⟨i1, by simp, by simp, fun _ => ?_⟩, ?_, ?_⟩
      · simp only [Num.low, reduceCtorEq, if_false]; omega
      · simp only [if_true, reduceCtorEq, if_false]; omega
      · simp only [true_and]; omega

end HashSpec
end Tommy
