import Verif.Proof.HashFlatRegion
/-!
  Property C75: any number of hashtables of the three kinds in one memory of bytes.
-/
set_option autoImplicit false
set_option linter.unusedSectionVars false
set_option linter.unusedSimpArgs false
namespace Tommy

open HashSpec (Elem)
open HashFlatSpec

section
variable [Arch]

/-- **C75** A program with any number of hashtables of the three kinds, in a memory of bytes where the structs of the tables and the nodes
    are at any place of the memory of the program, which can write what it likes in its other bytes, and where malloc() may return
    any memory not in use, also what was just freed: all the calls are without errors and terminate, return what the multimap
    contains, ask to malloc() for the memory of the new buckets only, and free only what the table got. -/
theorem C75_flat : HashFlatSpec.sys.Correct := sys_correct

/-- C75, said on a sequence of calls. -/
theorem C75_history (s : AMem) (a : Ab) (h : HashFlatSpec.sys.init s a) (ops : List HashFlatSpec.Op) : HashFlatSpec.sys.Runs s a ops :=
  C75_flat.runs ops s a (.init h)

variable {s s' : AMem} {a : Ab} {op : HashFlatSpec.Op} {out : HashFlatSpec.Out}

/-- The memory in use is the one of the program and the one of the tables. -/
theorem C75_regions (hr : HashFlatSpec.sys.Reach s a) (b n : Nat) : s.live b = some n ↔ a.Region b n := ((reach_inv hr).region b n).symm

/-- The memory owned by a table: one vector for `tommy_hashtable` and `tommy_hashdyn`; 64, 64, 128, 256 … buckets for `tommy_hashlin`.
    There is a pointer for each bucket, and the vectors are different, not of the program, and of one table only. -/
theorem C75_own (hr : HashFlatSpec.sys.Reach s a) {b : Nat} {T : Tab} (hT : a.tab b = some T) :
    total T.own = ptrSize * T.sz.buckets ∧ (T.own.map Prod.fst).Nodup ∧ (match T.sz with
      | .hashtable n | .hashdyn n => T.own.map Prod.snd = [ptrSize * n]
      | .hashlin z => ∃ k, z.size = 2 ^ (6 + k) ∧
          T.own.map Prod.snd = (((List.range k).map fun i => ptrSize * 2 ^ (6 + i)).reverse ++ [ptrSize * 64])) ∧
    ∀ p, a.owned b p → a.env p = none ∧ ∀ b', a.owned b' p → b' = b :=
  ⟨(reach_inv hr).own_total hT, (reach_inv hr).own_nodup hT, (reach_inv hr).own_sizes hT,
    fun _ h => ⟨(reach_inv hr).own_env h, fun _ h' => (reach_inv hr).own_one h' h⟩⟩

/-- Two tables have no byte in common. -/
theorem C75_apart (hr : HashFlatSpec.sys.Reach s a) {b b' x : Nat} (h : a.mine b x) (h' : a.mine b' x) : b = b' :=
  (reach_inv hr).mine_one h h'

/-- The regions of the memory do not overlap. -/
theorem C75_disjoint (hr : HashFlatSpec.sys.Reach s a) {b n b' n' : Nat} (h : a.Region b n) (h' : a.Region b' n') (hne : b ≠ b') :
    b + n ≤ b' ∨ b' + n' ≤ b := by
  obtain ⟨ts, owner, φ, Fs, hi⟩ := reach_inv hr
  exact hi.rel.reg b n b' n' ((hi.region b n).1 h) ((hi.region b' n').1 h') hne

/-- Without tables only the memory of the program is in use: the tables release all. -/
theorem C75_release (hr : HashFlatSpec.sys.Reach s a) (h : ∀ b, a.tab b = none) : s.live = a.env := by
  funext b
  have hb : ∀ n, s.live b = some n ↔ a.env b = some n := fun n => by
    rw [C75_regions hr]
    refine ⟨fun hh => hh.elim id fun ⟨t, T, hT, _⟩ => ?_, .inl⟩
    rw [h] at hT; cases hT
  cases h1 : s.live b with
  | some n => exact ((hb n).1 h1).symm
  | none =>
    cases h2 : a.env b with
    | none => rfl
    | some n => rw [(hb n).2 h2] at h1; cases h1

/-- A call on the table `b` does not change the bytes in use before and after it, but for the struct and the nodes stored by the table, the
    memory that the table owns, and the node to insert. -/
theorem C75_frame (hr : HashFlatSpec.sys.Reach s a) {b : Nat} (ho : op.on = some b) (hl : HashFlatSpec.legal a op)
    (e : HashFlatSpec.step op s = some (out, s')) {x c k : Nat} (h1 : s.live c = some k) (h2 : s'.live c = some k) (h3 : c ≤ x) (h4 : x < c + k)
    (h5 : ¬ a.owned b c) (h6 : ¬ a.uses b x) (h7 : ¬ op.inNew x) : s'.byte x = s.byte x :=
  frame (reach_inv hr) ho hl e h1 h2 h3 h4 h5 h6 h7

/-- A call on the table `b` does not change the structs, the nodes and the vectors of the other tables. -/
theorem C75_other (hr : HashFlatSpec.sys.Reach s a) {b : Nat} (ho : op.on = some b) (hl : HashFlatSpec.legal a op)
    (e : HashFlatSpec.step op s = some (out, s')) {i x : Nat} (hib : i ≠ b) (hx : a.mine i x) : s'.byte x = s.byte x :=
  frame_other (reach_inv hr) ho hl e hib hx

/-- The init of a table writes only in the struct and in the memory that it gets. -/
theorem C75_frame_init (hr : HashFlatSpec.sys.Reach s a) {t n m : Nat} {ty : Ty} {cc : Nat → Nat} (hl : HashFlatSpec.legal a (.init t ty n m cc))
    (e : HashFlatSpec.step (.init t ty n m cc) s = some (out, s')) {x c k : Nat} (h1 : s.live c = some k) (h3 : c ≤ x) (h4 : x < c + k)
    (h6 : ¬ (t ≤ x ∧ x < t + structSize ty)) : s'.byte x = s.byte x :=
  frame_init (reach_inv hr) hl e h1 h3 h4 h6

end

/-! ### Example: a `tommy_hashdyn` which grows, and a `tommy_hashlin`, in a 64 bit build -/

namespace HashFlatEx
attribute [local instance] Arch.w64

/-- 4096 bytes at 2^20 for the structs, and 8 objects of 100 bytes. -/
def env0 (p : Nat) : Option Nat :=
  if p = 2 ^ 20 then some 4096 else if 2 ^ 24 ≤ p ∧ p < 2 ^ 24 + 1024 ∧ p % 128 = 0 then some 100 else none

/-- The object `i`: the node is at the offset 16, the payload is the address of the object, the hash is `5 * i`. -/
def obj (i : Nat) : Elem := ⟨2 ^ 24 + 128 * i + 16, 2 ^ 24 + 128 * i, 5 * i⟩

def objs (k : Nat) : List Elem := (List.range k).map obj

/-- The tables with `k` elements in the first one. -/
def tab0 (k p : Nat) (t : Nat) : Option Tab :=
  if t = 2 ^ 20 then some ⟨.hashdyn (if k < 8 then 16 else 32), objs k, [(p, 8 * if k < 8 then 16 else 32)]⟩
  else if t = 2 ^ 20 + 64 then some ⟨.hashlin ⟨64, 64, .stable⟩, [], [(2 ^ 23, 512)]⟩ else none

structure Ex (s : AMem) (a : Ab) (k p : Nat) : Prop where
  reach : HashFlatSpec.sys.Reach s a
  env : a.env = env0
  tab : a.tab = tab0 k p

theorem env0_iff {p n : Nat} : env0 p = some n ↔ (p = 2 ^ 20 ∧ n = 4096) ∨ ∃ i, i < 8 ∧ p = 2 ^ 24 + 128 * i ∧ n = 100 := by
  unfold env0
  split
  · simp only [Option.some.injEq]
    constructor
    · rintro rfl; exact .inl ⟨by assumption, rfl⟩
    · rintro (h | ⟨i, h1, h2, h3⟩) <;> omega
  · split
    · simp only [Option.some.injEq]
      constructor
      · rintro rfl; exact .inr ⟨(p - 2 ^ 24) / 128, by omega, by omega, rfl⟩
      · rintro (h | ⟨i, h1, h2, h3⟩) <;> omega
    · simp only [reduceCtorEq, false_iff]
      rintro (h | ⟨i, h1, h2, h3⟩) <;> omega

theorem tab_iff {k p t : Nat} {T : Tab} : tab0 k p t = some T ↔
    (t = 2 ^ 20 ∧ T = ⟨.hashdyn (if k < 8 then 16 else 32), objs k, [(p, 8 * if k < 8 then 16 else 32)]⟩) ∨
    (t = 2 ^ 20 + 64 ∧ T = ⟨.hashlin ⟨64, 64, .stable⟩, [], [(2 ^ 23, 512)]⟩) := by
  unfold tab0
  split
  · simp only [Option.some.injEq]
    constructor
    · rintro rfl; exact .inl ⟨by assumption, rfl⟩
    · rintro (⟨_, h⟩ | ⟨h, _⟩)
      · exact h.symm
      · omega
  · split
    · simp only [Option.some.injEq]
      constructor
      · rintro rfl; exact .inr ⟨by assumption, rfl⟩
      · rintro (⟨h, _⟩ | ⟨_, h⟩)
        · omega
        · exact h.symm
    · simp only [reduceCtorEq, false_iff]
      rintro (⟨h, _⟩ | ⟨h, _⟩) <;> contradiction

theorem Ex.region {s : AMem} {a : Ab} {k p : Nat} (h : Ex s a k p) {b n : Nat} (hb : a.Region b n) :
    (b = 2 ^ 20 ∧ n = 4096) ∨ (∃ i, i < 8 ∧ b = 2 ^ 24 + 128 * i ∧ n = 100) ∨ (b = p ∧ n = 8 * if k < 8 then 16 else 32) ∨ (b = 2 ^ 23 ∧ n = 512) := by
  rcases hb with hb | ⟨t, T, hT, hb⟩
  · rw [h.env, env0_iff] at hb
    rcases hb with hb | hb
    · exact .inl hb
    · exact .inr (.inl hb)
  · rw [h.tab, tab_iff] at hT
    rcases hT with ⟨_, rfl⟩ | ⟨_, rfl⟩
    · simp only [List.mem_singleton, Prod.mk.injEq] at hb
      exact .inr (.inr (.inl hb))
    · simp only [List.mem_singleton, Prod.mk.injEq] at hb
      exact .inr (.inr (.inr hb))

theorem start : ∃ s a, Ex s a 0 (2 ^ 21) := by
  have r0 := Sys.Reach.init (sys := HashFlatSpec.sys) (s := ⟨fun _ => 85, env0⟩) (a := ⟨env0, fun _ => none, fun _ => some 85⟩)
    ⟨fun _ => (by decide : 85 < 256), fun b n h => by
      rcases env0_iff.1 h with ⟨rfl, rfl⟩ | ⟨i, h1, rfl, rfl⟩
      · decide
      · exact ⟨by omega, show 2 ^ 24 + 128 * i + 100 < 2 ^ 64 by omega⟩, fun b n b' n' h h' hne => by
      rcases env0_iff.1 h with ⟨rfl, rfl⟩ | ⟨i, h1, rfl, rfl⟩ <;> rcases env0_iff.1 h' with ⟨rfl, rfl⟩ | ⟨j, h2, rfl, rfl⟩ <;> omega, rfl, rfl, fun _ => rfl⟩
  obtain ⟨o1, s1, r1, a1⟩ := C75_flat.extend r0 (.init (2 ^ 20) .hashdyn 0 (2 ^ 21) fun _ => 170) (by
    refine ⟨⟨⟨2 ^ 20, 4096, rfl, by decide, by decide⟩, fun x _ _ => ⟨?_, ?_⟩⟩, (fun h => nomatch h), ⟨by decide, by decide, ?_, ?_⟩, fun _ => (by decide : 170 < 256)⟩
    · rintro ⟨t, T, hT, _⟩; cases hT
    · rintro ⟨t, T, e, hT, _⟩; cases hT
    · rintro k (h | ⟨t, T, hT, _⟩)
      · have h : env0 (2 ^ 21) = some k := h
        rcases env0_iff.1 h with ⟨h, _⟩ | ⟨i, h1, h, _⟩ <;> omega
      · cases hT
    · rintro c k (h | ⟨t, T, hT, _⟩)
      · show 2 ^ 21 + 8 * 16 ≤ c ∨ _
        rcases env0_iff.1 h with ⟨rfl, rfl⟩ | ⟨i, h1, rfl, rfl⟩ <;> omega
      · cases hT)
  obtain ⟨o2, s2, r2, a2⟩ := C75_flat.extend r1 (.init (2 ^ 20 + 64) .hashlin 0 (2 ^ 23) fun _ => 170) (by
    have ht : ∀ t T, (HashFlatSpec.sys.next ⟨env0, fun _ => none, fun _ => some 85⟩ (.init (2 ^ 20) .hashdyn 0 (2 ^ 21) fun _ => 170) o1).tab t = some T →
        t = 2 ^ 20 ∧ T = ⟨.hashdyn 16, [], [(2 ^ 21, 128)]⟩ := by
      intro t T h
      simp only [HashFlatSpec.sys, HashFlatSpec.next, upd_apply] at h
      split at h
      · next e => cases h; exact ⟨e, rfl⟩
      · cases h
    refine ⟨⟨⟨2 ^ 20, 4096, rfl, by decide, by decide⟩, fun x h1 h2 => ⟨?_, ?_⟩⟩, (fun h => nomatch h), ⟨by decide, by decide, ?_, ?_⟩, fun _ => (by decide : 170 < 256)⟩
    · rintro ⟨t, T, hT, h3, h4⟩
      obtain ⟨rfl, rfl⟩ := ht t T hT
      have h4 : x < 2 ^ 20 + 40 := h4
      omega
    · rintro ⟨t, T, e, hT, he, _⟩
      obtain ⟨rfl, rfl⟩ := ht t T hT
      cases he
    · rintro k (h | ⟨t, T, hT, hb⟩)
      · have h : env0 (2 ^ 23) = some k := h
        rcases env0_iff.1 h with ⟨h, _⟩ | ⟨i, h1, h, _⟩ <;> omega
      · obtain ⟨rfl, rfl⟩ := ht t T hT
        simp at hb
    · rintro c k (h | ⟨t, T, hT, hb⟩)
      · show 2 ^ 23 + 8 * 64 ≤ c ∨ _
        rcases env0_iff.1 h with ⟨rfl, rfl⟩ | ⟨i, h1, rfl, rfl⟩ <;> omega
      · obtain ⟨rfl, rfl⟩ := ht t T hT
        simp only [List.mem_singleton, Prod.mk.injEq] at hb
        obtain ⟨rfl, rfl⟩ := hb
        show 2 ^ 23 + 8 * 64 ≤ _ ∨ _
        omega)
  refine ⟨_, _, r2, rfl, ?_⟩
  funext t
  simp only [HashFlatSpec.sys, HashFlatSpec.next, upd_apply, tab0]
  by_cases h1 : t = 2 ^ 20
  · subst h1; rfl
  · by_cases h2 : t = 2 ^ 20 + 64
    · subst h2; rfl
    · rw [if_neg h1, if_neg h1, if_neg h2, if_neg h2]

theorem objs_succ (k : Nat) : objs (k + 1) = objs k ++ [obj k] := by simp [objs, List.range_succ]

theorem objs_len (k : Nat) : (objs k).length = k := by simp [objs]

theorem mem_objs {k : Nat} {e : Elem} (h : e ∈ objs k) : ∃ i, i < k ∧ e = obj i := by
  simp only [objs, List.mem_map, List.mem_range] at h
  obtain ⟨i, h1, rfl⟩ := h
  exact ⟨i, h1, rfl⟩

theorem sys_step : HashFlatSpec.sys.step = HashFlatSpec.step := rfl

theorem sys_legal : HashFlatSpec.sys.legal = HashFlatSpec.legal := rfl

theorem owns_mem {o o' : List (Nat × Nat)} {l : List BEvent} (h : owns o l = some o') {r : Nat × Nat} (hr : r ∈ o') : r ∈ o ∨ r ∈ asked l := by
  induction l generalizing o with
  | nil => cases h; exact .inl hr
  | cons ev l ih =>
    cases ev with
    | got p n =>
      rcases ih h with h1 | h1
      · rcases List.mem_cons.1 h1 with rfl | h1
        · exact .inr (List.mem_cons_self ..)
        · exact .inl h1
      · exact .inr (List.mem_cons_of_mem _ h1)
    | gave p =>
      simp only [owns] at h
      split at h
      · rcases ih h with h1 | h1
        · exact .inl (List.mem_of_mem_eraseP h1)
        · exact .inr h1
      · cases h

theorem Ex.avail {s : AMem} {a : Ab} {k p : Nat} (h : Ex s a k p) (hk : k < 8) : a.Avail (2 ^ 24 + 128 * k + 16) 32 := by
  refine ⟨⟨2 ^ 24 + 128 * k, 100, by rw [h.env, env0_iff]; exact .inr ⟨k, hk, rfl, rfl⟩, by omega, by omega⟩, fun x h1 h2 => ⟨?_, ?_⟩⟩
  · rintro ⟨t, T, hT, h3, h4⟩
    rw [h.tab, tab_iff] at hT
    rcases hT with ⟨rfl, rfl⟩ | ⟨rfl, rfl⟩
    · have h4 : x < 2 ^ 20 + 40 := h4
      omega
    · have h4 : x < 2 ^ 20 + 64 + structSize .hashlin := h4
      have : structSize .hashlin ≤ 1024 := by decide
      omega
  · rintro ⟨t, T, e, hT, he, h3, h4⟩
    rw [h.tab, tab_iff] at hT
    rcases hT with ⟨rfl, rfl⟩ | ⟨rfl, rfl⟩
    · obtain ⟨i, hi, rfl⟩ := mem_objs he
      have h4 : x < 2 ^ 24 + 128 * i + 16 + 32 := h4
      omega
    · cases he

theorem Ex.size {k : Nat} (own : List (Nat × Nat)) : (⟨.hashdyn 16, objs k, own⟩ : Tab).szAfter (.insert (obj k).node (obj k).data (obj k).hash) =
      .hashdyn (if k + 1 < 8 then 16 else 32) := by
  have haf : after (objs k) (.insert (obj k).node (obj k).data (obj k).hash) = objs (k + 1) := (objs_succ k).symm
  simp only [Tab.szAfter, haf, objs_len, Sz.next, HashSpec.dynSize]
  by_cases h8 : k + 1 < 8
  · rw [if_neg (by omega), if_neg (by omega), if_pos h8]
  · rw [if_pos (by omega), if_neg h8]

theorem Ex.legal {s : AMem} {a : Ab} {k : Nat} (h : Ex s a k (2 ^ 21)) (hk : k < 8) :
    HashFlatSpec.legal a (.call (2 ^ 20) .hashdyn (.insert (obj k).node (obj k).data (obj k).hash) (2 ^ 22) fun _ => 170) := by
  have hT : a.tab (2 ^ 20) = some ⟨.hashdyn 16, objs k, [(2 ^ 21, 128)]⟩ := by
    rw [h.tab, tab_iff]; exact .inl ⟨rfl, by simp [hk]⟩
  refine ⟨_, hT, rfl, ⟨h.avail hk, show 2 ^ 24 + 128 * k < 2 ^ 64 by omega, show 5 * k < 2 ^ 64 by omega⟩, fun n hn => ⟨?_, fun _ => (by decide : 170 < 256)⟩⟩
  rw [Ex.size] at hn
  have hn : n = 256 := by
    simp only [Sz.asks, Sz.buckets] at hn
    by_cases h8 : k + 1 < 8
    · simp only [h8, if_true] at hn; cases hn
    · simp only [h8, if_false] at hn
      exact List.mem_singleton.1 hn
  subst hn
  refine ⟨by decide, by decide, fun n hb => ?_, fun c n hb => ?_⟩
  · rcases h.region hb with ⟨h1, _⟩ | ⟨i, _, h1, _⟩ | ⟨h1, _⟩ | ⟨h1, _⟩ <;> omega
  · have := h.region hb
    rw [if_pos hk] at this
    rcases this with ⟨h1, _⟩ | ⟨i, _, h1, _⟩ | ⟨h1, _⟩ | ⟨h1, _⟩ <;> omega

/-- The insertion of an object: with the eighth the table grows, in the memory at 2^22. -/
theorem Ex.insert {s : AMem} {a : Ab} {k : Nat} (h : Ex s a k (2 ^ 21)) (hk : k < 8) :
    ∃ s' a', Ex s' a' (k + 1) (if k = 7 then 2 ^ 22 else 2 ^ 21) := by
  have hT : a.tab (2 ^ 20) = some ⟨.hashdyn 16, objs k, [(2 ^ 21, 128)]⟩ := by
    rw [h.tab, tab_iff]; exact .inl ⟨rfl, by simp [hk]⟩
  have haf : after (objs k) (.insert (obj k).node (obj k).data (obj k).hash) = objs (k + 1) := (objs_succ k).symm
  have hsz := Ex.size (k := k) [(2 ^ 21, 128)]
  obtain ⟨o, s', r, ha⟩ := C75_flat.extend h.reach (.call (2 ^ 20) .hashdyn (.insert (obj k).node (obj k).data (obj k).hash) (2 ^ 22) fun _ => 170)
    (h.legal hk)
  obtain ⟨T, hT', _, hask, own, hown, htot⟩ := ha
  rw [hT] at hT'
  injection hT' with hT'
  subst hT'
  rw [hsz] at hask htot
  have hres : ∃ p, own = [(p, 8 * if k + 1 < 8 then 16 else 32)] := by
    have := (C75_own r (b := 2 ^ 20) (T := ⟨_, _, own⟩) (by
      simp only [HashFlatSpec.sys, HashFlatSpec.next, upd_apply, if_true, hT, Option.map_some, hown, Option.getD_some]; rfl)).2.2.1
    rw [hsz] at this
    match own, this with
    | [(p, n)], this => simp only [List.map_cons, List.map_nil, List.cons.injEq, and_true] at this; exact ⟨p, by rw [this]; rfl⟩
  obtain ⟨p, rfl⟩ := hres
  have hp : p = if k = 7 then 2 ^ 22 else 2 ^ 21 := by
    have := owns_mem hown (List.mem_singleton.2 rfl)
    rw [hask] at this
    simp only [List.mem_singleton, Sz.asks, Sz.buckets, List.mem_map, Prod.mk.injEq] at this
    by_cases h7 : k = 7
    · subst h7
      rcases this with ⟨_, h1⟩ | ⟨n, _, h1, _⟩
      · exact absurd h1 (by decide)
      · exact h1.symm
    · rw [if_neg h7]
      have h8 : k + 1 < 8 := by omega
      simp only [h8, if_true] at this
      rcases this with ⟨h1, _⟩ | ⟨n, h1, _⟩
      · exact h1
      · cases h1
  subst hp
  refine ⟨s', _, r, h.env, ?_⟩
  funext t
  simp only [HashFlatSpec.sys, HashFlatSpec.next, upd_apply, hT, Option.map_some, hown, Option.getD_some, hsz, haf]
  by_cases h1 : t = 2 ^ 20
  · subst h1; simp [tab0]
  · rw [if_neg h1, h.tab, tab0, tab0, if_neg h1, if_neg h1]

theorem Ex.insertN {s : AMem} {a : Ab} (h : Ex s a 0 (2 ^ 21)) (k : Nat) (hk : k < 8) : ∃ s' a', Ex s' a' k (2 ^ 21) := by
  induction k with
  | zero => exact ⟨s, a, h⟩
  | succ k ih =>
    obtain ⟨s1, a1, h1⟩ := ih (by omega)
    obtain ⟨s2, a2, h2⟩ := h1.insert (by omega)
    rw [if_neg (by omega)] at h2
    exact ⟨s2, a2, h2⟩

/-- Eight objects, with the buckets in the second vector. -/
theorem filled : ∃ s a, Ex s a 8 (2 ^ 22) := by
  obtain ⟨s, a, h⟩ := start
  obtain ⟨s1, a1, h1⟩ := h.insertN 7 (by omega)
  exact h1.insert (by omega)

/-- C75 on the example: the memory of the first vector was freed and the program gets it again; the search of the hash 15 finds the
    fourth object; all the objects can be freed. -/
example : ∃ s a, HashFlatSpec.sys.Reach s a ∧ s.live (2 ^ 21) = none ∧ s.live (2 ^ 22) = some 256 ∧
    ∃ o1 s1 o2 s2 o3 s3, HashFlatSpec.step (.emalloc (2 ^ 21) 64 fun _ => 7) s = some (o1, s1) ∧
      HashFlatSpec.step (.call (2 ^ 20) .hashdyn (.search (fun _ => 0) 15) 0 fun _ => 0) s1 = some (o2, s2) ∧ o2.res = .val (2 ^ 24 + 384) ∧
      HashFlatSpec.step (.destroy (2 ^ 20) .hashdyn) s2 = some (o3, s3) ∧ s3.live (2 ^ 21) = some 64 ∧ s3.live (2 ^ 22) = none ∧
      s3.live (2 ^ 24) = none := by
  obtain ⟨s, a, h⟩ := filled
  have hno : ∀ n, ¬ a.Region (2 ^ 21) n := fun n hb => by
    rcases h.region hb with ⟨h1, _⟩ | ⟨i, _, h1, _⟩ | ⟨h1, _⟩ | ⟨h1, _⟩ <;> omega
  have hT : a.tab (2 ^ 20) = some ⟨.hashdyn 32, objs 8, [(2 ^ 22, 256)]⟩ := by rw [h.tab]; rfl
  have hl1 : HashFlatSpec.sys.legal a (.emalloc (2 ^ 21) 64 fun _ => 7) := by
    refine ⟨⟨by decide, by decide, hno, fun c n hb => ?_⟩, fun _ => (by decide : 7 < 256)⟩
    have := h.region hb
    rcases this with ⟨h1, h2⟩ | ⟨i, _, h1, _⟩ | ⟨h1, h2⟩ | ⟨h1, h2⟩ <;> omega
  obtain ⟨o1, s1, e1, _⟩ := C75_flat s a h.reach _ hl1
  have r1 := Sys.Reach.step h.reach hl1 e1
  generalize ha1 : HashFlatSpec.sys.next a (.emalloc (2 ^ 21) 64 fun _ => 7) o1 = a1 at r1
  have t1 : a1.tab = a.tab := by rw [← ha1]; rfl
  have v1 : a1.env = upd env0 (2 ^ 21) (some 64) := by rw [← ha1, ← h.env]; rfl
  have hl2 : HashFlatSpec.sys.legal a1 (.call (2 ^ 20) .hashdyn (.search (fun _ => 0) 15) 0 fun _ => 0) := by
    refine ⟨_, by rw [t1, hT], rfl, trivial, fun k hk => ?_⟩
    have : (⟨.hashdyn 32, objs 8, [(2 ^ 22, 256)]⟩ : Tab).sz.asks (Tab.szAfter ⟨.hashdyn 32, objs 8, [(2 ^ 22, 256)]⟩ (.search (fun _ => 0) 15)) = [] := by
      decide
    rw [this] at hk; cases hk
  obtain ⟨o2, s2, e2, A2⟩ := C75_flat s1 a1 r1 _ hl2
  have r2 := Sys.Reach.step r1 hl2 e2
  generalize ha2 : HashFlatSpec.sys.next a1 (.call (2 ^ 20) .hashdyn (.search (fun _ => 0) 15) 0 fun _ => 0) o2 = a2 at r2
  have v2 : a2.env = upd env0 (2 ^ 21) (some 64) := by rw [← ha2, ← v1]; rfl
  have t2 : ∃ own, a2.tab = upd a.tab (2 ^ 20) (some ⟨.hashdyn 32, objs 8, own⟩) := by
    refine ⟨(owns [(2 ^ 22, 256)] o2.log).getD [], ?_⟩
    rw [← ha2]
    simp only [HashFlatSpec.sys, HashFlatSpec.next, t1, hT, Option.map_some]
    rfl
  obtain ⟨own, t2⟩ := t2
  have tt : ∀ t T, a2.tab t = some T → (t = 2 ^ 20 ∧ T = ⟨.hashdyn 32, objs 8, own⟩) ∨
      (t = 2 ^ 20 + 64 ∧ T = ⟨.hashlin ⟨64, 64, .stable⟩, [], [(2 ^ 23, 512)]⟩) := by
    intro t T hT
    rw [t2, h.tab] at hT
    simp only [upd_apply] at hT
    split at hT
    · next e => cases hT; exact .inl ⟨e, rfl⟩
    · next e =>
      rcases tab_iff.1 hT with ⟨rfl, _⟩ | h1
      · exact absurd rfl e
      · exact .inr h1
  have hl3 : HashFlatSpec.sys.legal a2 (.destroy (2 ^ 20) .hashdyn) := by
    refine ⟨_, by rw [t2, upd_same], rfl, fun e he => ?_⟩
    obtain ⟨i, hi, rfl⟩ := mem_objs he
    refine ⟨100, ?_, Nat.le_add_right _ 16, Nat.add_le_add_left (by decide : 16 + 32 ≤ 100) (2 ^ 24 + 128 * i), fun x h1 h2 => ?_⟩
    · show a2.env (2 ^ 24 + 128 * i) = _
      rw [v2, upd_ne (show 2 ^ 24 + 128 * i ≠ 2 ^ 21 by omega), env0_iff]
      exact .inr ⟨i, hi, rfl, rfl⟩
    · have h1 : 2 ^ 24 + 128 * i ≤ x := h1
      have h2 : x < 2 ^ 24 + 128 * i + 100 := h2
      refine ⟨?_, fun t T f hT hf h3 h4 => ?_⟩
      · rintro ⟨t, T, hT, h3, h4⟩
        rcases tt t T hT with ⟨rfl, rfl⟩ | ⟨rfl, rfl⟩
        · have h4 : x < 2 ^ 20 + 40 := h4
          omega
        · have h4 : x < 2 ^ 20 + 64 + structSize .hashlin := h4
          have : structSize .hashlin ≤ 1024 := by decide
          omega
      · rcases tt t T hT with ⟨rfl, rfl⟩ | ⟨rfl, rfl⟩
        · obtain ⟨j, hj, rfl⟩ := mem_objs hf
          have h3 : 2 ^ 24 + 128 * j + 16 ≤ x := h3
          have h4 : x < 2 ^ 24 + 128 * j + 16 + 32 := h4
          have : i = j := by omega
          rw [this]
        · cases hf
  obtain ⟨o3, s3, e3, A3⟩ := C75_flat s2 a2 r2 _ hl3
  have r3 := Sys.Reach.step r2 hl3 e3
  have hdel : ∀ b, (HashFlatSpec.sys.next a2 (.destroy (2 ^ 20) .hashdyn) o3).env b =
      if (objs 8).any (fun e => e.data = b) then none else upd env0 (2 ^ 21) (some 64) b := by
    intro b
    simp only [HashFlatSpec.sys, HashFlatSpec.next, t2, upd_same, v2, Option.map_some, Option.any_some]
  have hend : ∀ b, b ≠ 2 ^ 23 → (∀ n, (HashFlatSpec.sys.next a2 (.destroy (2 ^ 20) .hashdyn) o3).env b ≠ some n) → s3.live b = none := by
    intro b hb hn
    cases hc : s3.live b with
    | none => rfl
    | some n =>
      rcases (C75_regions r3 b n).1 hc with h1 | ⟨t, T, h1, h2⟩
      · exact absurd h1 (hn n)
      · simp only [HashFlatSpec.sys, HashFlatSpec.next, upd_apply] at h1
        split at h1
        · cases h1
        · next e =>
          rcases tt t T h1 with ⟨rfl, _⟩ | ⟨_, rfl⟩
          · exact absurd rfl e
          · simp only [List.mem_singleton, Prod.mk.injEq] at h2
            exact absurd h2.1 hb
  rw [sys_step] at e1 e2 e3
  refine ⟨s, a, h.reach, ?_, ?_, o1, s1, o2, s2, o3, s3, e1, e2, ?_, e3, ?_, hend _ (by decide) ?_, hend _ (by decide) ?_⟩
  · cases hc : s.live (2 ^ 21) with
    | none => rfl
    | some n => exact absurd ((C75_regions h.reach _ _).1 hc) (hno n)
  · exact (C75_regions h.reach (2 ^ 22) 256).2 (Or.inr ⟨2 ^ 20, ⟨.hashdyn 32, objs 8, [(2 ^ 22, 256)]⟩, hT, List.mem_singleton_self _⟩)
  · obtain ⟨T, hT2, A, _⟩ := A2
    rw [t1, hT] at hT2
    rw [Option.some.injEq] at hT2
    subst hT2
    rw [show o2.res = _ from A]
    exact congrArg _ (by decide)
  · refine (C75_regions r3 _ _).2 (.inl ?_)
    rw [hdel]; decide
  · intro n; rw [hdel]; simp [objs, obj, List.range_succ, upd_apply, env0]
  · intro n; rw [hdel]; simp [objs, obj, List.range_succ, upd_apply, env0]

/-- The frame of C75 on the example: the eighth insertion, which moves all the elements in a new vector, does not touch the struct and the
    vector of the other table, nor the bytes of the object that are out of the node. -/
example : ∃ s a out s', HashFlatSpec.sys.Reach s a ∧
    HashFlatSpec.step (.call (2 ^ 20) .hashdyn (.insert (obj 7).node (obj 7).data (obj 7).hash) (2 ^ 22) fun _ => 170) s = some (out, s') ∧
    (∀ x, 2 ^ 23 ≤ x → x < 2 ^ 23 + 512 → s'.byte x = s.byte x) ∧ (∀ x, 2 ^ 20 + 64 ≤ x → x < 2 ^ 20 + 96 → s'.byte x = s.byte x) ∧
    ∀ x, 2 ^ 24 + 128 * 7 ≤ x → x < 2 ^ 24 + 128 * 7 + 16 → s'.byte x = s.byte x := by
  obtain ⟨_, _, h⟩ := start
  obtain ⟨s, a, h⟩ := h.insertN 7 (by omega)
  have hl : HashFlatSpec.sys.legal a (.call (2 ^ 20) .hashdyn (.insert (obj 7).node (obj 7).data (obj 7).hash) (2 ^ 22) fun _ => 170) := h.legal (by omega)
  obtain ⟨out, s', e, _⟩ := C75_flat s a h.reach _ hl
  have r := Sys.Reach.step h.reach hl e
  rw [sys_step] at e
  rw [sys_legal] at hl
  have hT : a.tab (2 ^ 20) = some ⟨.hashdyn 16, objs 7, [(2 ^ 21, 128)]⟩ := by rw [h.tab]; rfl
  have hT2 : a.tab (2 ^ 20 + 64) = some ⟨.hashlin ⟨64, 64, .stable⟩, [], [(2 ^ 23, 512)]⟩ := by rw [h.tab]; rfl
  refine ⟨s, a, out, s', h.reach, e, fun x h1 h2 => C75_other h.reach rfl hl e (i := 2 ^ 20 + 64) (by decide) (.inr ⟨_, _, _, hT2, List.mem_singleton.2 rfl, h1, h2⟩),
    fun x h1 h2 => C75_other h.reach rfl hl e (i := 2 ^ 20 + 64) (by decide) (.inl ⟨_, hT2, .inl ⟨h1, ?_⟩⟩), fun x h1 h2 => ?_⟩
  · have : 64 ≤ structSize .hashlin := by decide
    show x < 2 ^ 20 + 64 + structSize .hashlin
    omega
  · have he : a.env (2 ^ 24 + 128 * 7) = some 100 := by rw [h.env, env0_iff]; exact .inr ⟨7, by omega, rfl, rfl⟩
    refine C75_frame h.reach rfl hl e ((C75_regions h.reach _ _).2 (.inl he)) ((C75_regions r _ _).2 (.inl he)) h1 (by omega) ?_ ?_ ?_
    · rintro ⟨T, n, hT', hm⟩
      rw [hT] at hT'
      injection hT' with hT'
      subst hT'
      simp at hm
    · rintro ⟨T, hT', hm⟩
      rw [hT] at hT'
      injection hT' with hT'
      subst hT'
      rcases hm with ⟨_, hm⟩ | ⟨f, hf, h3, h4⟩
      · have hm : x < 2 ^ 20 + 40 := hm
        omega
      · obtain ⟨j, hj, rfl⟩ := mem_objs hf
        have h4 : x < 2 ^ 24 + 128 * j + 16 + 32 := h4
        omega
    · rintro ⟨h3, _⟩
      have h3 : 2 ^ 24 + 128 * 7 + 16 ≤ x := h3
      omega

/-- The 32 bit build. -/
example : (@HashFlatSpec.sys .w32).Correct := @C75_flat .w32

end HashFlatEx
end Tommy
