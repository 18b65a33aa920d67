import Verif.Proof.HashBucket
/-
  C62: the buckets of the hashtables hold only the elements that collide, and the searches and the removes read only
  their nodes.
-/
set_option autoImplicit false
namespace Tommy

variable [Arch]
open HashSpec

/-- **C62** for `tommy_hashtable`: the buckets are the power of two of init() in every state. -/
theorem C62_collide_hashtable (n : Nat) (hn : n ≤ maxBuckets) : ∃ k, max n 16 ≤ 2 ^ k ∧ (∀ j, max n 16 ≤ 2 ^ j → k ≤ j) ∧
    ∀ m0 s a, (sys hashtableImpl (hashtableInit n) m0).Reach s a → ∀ h,
      OnlyCollide hashtableImpl hashtableRemoveIn s a h (2 ^ k) := by
  have hex : ∃ k, max n 16 ≤ 2 ^ k := ⟨bktBit, by rw [maxBuckets_eq] at hn; arch⟩
  classical
  refine ⟨Nat.find hex, Nat.find_spec hex, fun j hj => Nat.find_min' hex hj, fun m0 s a hr h => ?_⟩
  have i := ((tblSys_correct hn m0).2 s a hr).p
  obtain ⟨h1, h2⟩ := tbl_max hn hr
  obtain ⟨k, hk⟩ := i.pow
  have hle := h2 _ (Nat.find_spec hex)
  have hge : Nat.find hex ≤ k := Nat.find_min' hex (by rw [← hk]; exact h1)
  have : 2 ^ Nat.find hex ≤ 2 ^ k := Nat.pow_le_pow_right (by omega) hge
  have e : 2 ^ Nat.find hex = s.tbl.bucketMax := by omega
  rw [e]
  exact tbl_collide i h

/-- **C62** for `tommy_hashdyn`: more than two buckets for each element. -/
theorem C62_collide_hashdyn (m0 : Mem) (s a) (hr : (sys hashdynImpl hashdynInit m0).Reach s a) :
    ∃ k, 4 ≤ k ∧ 2 * a.elems.length < 2 ^ k ∧ (k = 4 ∨ 2 ^ k < 8 * a.elems.length) ∧
      ∀ h, OnlyCollide hashdynImpl hashdynRemoveIn s a h (2 ^ k) := by
  have i := ((dynSys_correct m0).2 s a hr).p
  refine ⟨s.tbl.bucketBit, i.bit, i.max ▸ i.load, i.max ▸ i.low, fun h => ?_⟩
  rw [← i.max]
  exact dyn_collide i.toDynBase h

/-- **C62** for `tommy_hashlin`: at least one bucket for each element, also in the middle of a resize. -/
theorem C62_collide_hashlin (m0 : Mem) (s a) (hr : (sys hashlinImpl hashlinInit m0).Reach s a) (h : Nat) :
    ∃ k, 6 ≤ k ∧ a.elems.length ≤ 2 ^ k ∧ OnlyCollide hashlinImpl hashlinRemoveIn s a h (2 ^ k) := by
  have i := ((linSys_correct m0).2 s a hr).p
  obtain ⟨⟨k, hk⟩, h1, h2⟩ := linMod_pow i h
  refine ⟨k, ?_, hk ▸ h2, hk ▸ lin_collide i.toLinBase h⟩
  rw [hk] at h1
  exact (Nat.pow_le_pow_iff_right (a := 2) (by omega)).1 h1

/-- In the state `s` the bucket of `h` has at most `c` elements, and the searches and the removes with the hash `h`
    read at most `c` nodes. -/
structure ReadsAtMost {T : Type} (I : Impl T) (removeIn : Nat → T → (Nat → Int) → Nat → MM (T × Nat)) (s : St T)
    (h c : Nat) : Prop where
  bucket : ∃ l, walkBucket I s.tbl h s.mem = some (l, s.mem) ∧ l.length ≤ c
  search : ∀ cmp, searchIn I c s.tbl cmp h s.mem = I.search s.tbl cmp h s.mem
  remove : ∀ cmp, removeIn c s.tbl cmp h s.mem = I.remove s.tbl cmp h s.mem

omit [Arch] in
theorem HashSpec.OnlyCollide.reads {T : Type} {I : Impl T} {rm} {s : St T} {a : Ab} {h M c : Nat}
    (o : OnlyCollide I rm s a h M) (hc : (collide a.elems M h).length ≤ c) : ReadsAtMost I rm s h c :=
  ⟨o.le hc, fun cmp => o.search cmp c hc, fun cmp => o.remove cmp c hc⟩

/-- The hashes of the elements are spread: at most `c` are the same as `h` modulo any power of two that is not less than
    the number of the elements. -/
def Spread (a : Ab) (h c : Nat) : Prop := ∀ k, a.elems.length ≤ 2 ^ k → (collide a.elems (2 ^ k) h).length ≤ c

/-- **C62** Spread hashes, `tommy_hashdyn`. -/
theorem C62_spread_hashdyn (m0 : Mem) (s a) (hr : (sys hashdynImpl hashdynInit m0).Reach s a) (h c : Nat)
    (hs : Spread a h c) : ReadsAtMost hashdynImpl hashdynRemoveIn s h c := by
  obtain ⟨k, _, h1, _, o⟩ := C62_collide_hashdyn m0 s a hr
  exact (o h).reads (hs k (by omega))

/-- **C62** Spread hashes, `tommy_hashlin`. -/
theorem C62_spread_hashlin (m0 : Mem) (s a) (hr : (sys hashlinImpl hashlinInit m0).Reach s a) (h c : Nat)
    (hs : Spread a h c) : ReadsAtMost hashlinImpl hashlinRemoveIn s h c := by
  obtain ⟨k, _, h1, o⟩ := C62_collide_hashlin m0 s a hr h
  exact o.reads (hs k h1)

/-- **C62** Spread hashes, `tommy_hashtable` initialised with at least as many buckets as the elements. -/
theorem C62_spread_hashtable (n : Nat) (hn : n ≤ maxBuckets) (m0 : Mem) (s a)
    (hr : (sys hashtableImpl (hashtableInit n) m0).Reach s a) (hl : a.elems.length ≤ max n 16) (h c : Nat)
    (hs : Spread a h c) : ReadsAtMost hashtableImpl hashtableRemoveIn s h c := by
  obtain ⟨k, h1, _, o⟩ := C62_collide_hashtable n hn
  exact (o m0 s a hr h).reads (hs k (by omega))

omit [Arch] in
/-- **C62** The hashes that are different and less than the number of the elements are spread, with one for each
    bucket. -/
theorem C62_spread_dense (a : Ab) (nd : (a.elems.map Elem.hash).Nodup)
    (hlt : ∀ e ∈ a.elems, e.hash < a.elems.length) (h : Nat) : Spread a h 1 :=
  fun _ hk => collide_le_one nd (fun e he => Nat.lt_of_lt_of_le (hlt e he) hk) h

/-! ### Non vacuity -/

namespace BucketEx

/-- `c` nodes with the hashes from 0 to `c - 1`. -/
def elems (c : Nat) : List Elem := (List.range c).map (fun j => ⟨nodeSize * (j + 1), 0, j⟩)

theorem not_mem (c : Nat) : (nodeSize * (c + 1) : Nat) ∉ (elems c).map Elem.node := by
  intro h
  simp only [elems, List.map_map, List.mem_map, List.mem_range, Function.comp] at h
  obtain ⟨j, hj, e⟩ := h
  exact (by arch : ∀ a b : Nat, a < b → nodeSize * (a + 1) ≠ nodeSize * (b + 1)) j c hj e

theorem reach {T : Type} {I : Impl T} {init : MM T} {N : Nat} (hi : ∃ s a, (sys I init (pathMem N)).init s a)
    (hc : (sys I init (pathMem N)).Correct) : ∀ c, c ≤ N →
      ∃ s, (sys I init (pathMem N)).Reach s ⟨elems c, (pathMem N).heap.valid⟩ := by
  intro c
  induction c with
  | zero =>
    intro _
    obtain ⟨s0, ⟨el, li⟩, h⟩ := hi
    obtain ⟨_, _, he, hl⟩ := id h
    simp only at he hl
    subst he hl
    exact ⟨s0, .init h⟩
  | succ c ih =>
    intro hcN
    obtain ⟨s, r⟩ := ih (by omega)
    obtain ⟨_, s', r', _⟩ := hc.extend r (.insert (nodeSize * (c + 1) : Nat) 0 c) ⟨by
      simp only [pathMem, decide_eq_true_eq]
      exact (by arch : (nodeSize * (c + 1) : Nat) % nodeSize = 0 ∧ 0 < nodeSize * (c + 1) ∧ nodeSize * (c + 1) ≤ nodeSize * N), not_mem c⟩
    refine ⟨s', ?_⟩
    simp only [sys, next] at r'
    have e : elems (c + 1) = elems c ++ [⟨nodeSize * (c + 1), 0, c⟩] := by simp [elems, List.range_succ]
    rw [e]; exact r'

theorem dense (c : Nat) (l) : ((⟨elems c, l⟩ : Ab).elems.map Elem.hash).Nodup ∧
    ∀ e ∈ (⟨elems c, l⟩ : Ab).elems, e.hash < (⟨elems c, l⟩ : Ab).elems.length := by
  have e : (elems c).map Elem.hash = List.range c := by simp [elems, Function.comp_def]
  constructor
  · simp only [e]; exact List.nodup_range
  · intro x hx
    simp only [elems, List.mem_map, List.mem_range] at hx
    obtain ⟨j, hj, rfl⟩ := hx
    simpa [elems] using hj

/-- Tables with a million of elements, where each search reads one node. -/
example : ∃ m0 s a, (sys hashdynImpl hashdynInit m0).Reach s a ∧ a.elems.length = 10 ^ 6 ∧
    ∀ h, ReadsAtMost hashdynImpl hashdynRemoveIn s h 1 := by
  have h0 := pathMem_ok (N := 10 ^ 6) (by arch)
  obtain ⟨t, m, e, _, _⟩ := hashdynInit_spec h0
  obtain ⟨s, r⟩ := reach (I := hashdynImpl) (init := hashdynInit) (N := 10 ^ 6) ⟨⟨m, t⟩, ⟨[], _⟩, h0, e, rfl, rfl⟩
    (dynSys_correct _).1 (10 ^ 6) (Nat.le_refl _)
  exact ⟨_, s, _, r, by simp [elems], fun h => C62_spread_hashdyn _ s _ r h 1
    (C62_spread_dense _ (dense _ _).1 (dense _ _).2 h)⟩

example : ∃ m0 s a, (sys hashlinImpl hashlinInit m0).Reach s a ∧ a.elems.length = 10 ^ 6 ∧
    ∀ h, ReadsAtMost hashlinImpl hashlinRemoveIn s h 1 := by
  have h0 := pathMem_ok (N := 10 ^ 6) (by arch)
  obtain ⟨t, m, e, _, _⟩ := hashlinInit_spec h0
  obtain ⟨s, r⟩ := reach (I := hashlinImpl) (init := hashlinInit) (N := 10 ^ 6) ⟨⟨m, t⟩, ⟨[], _⟩, h0, e, rfl, rfl⟩
    (linSys_correct _).1 (10 ^ 6) (Nat.le_refl _)
  exact ⟨_, s, _, r, by simp [elems], fun h => C62_spread_hashlin _ s _ r h 1
    (C62_spread_dense _ (dense _ _).1 (dense _ _).2 h)⟩

example : ∃ m0 s a, (sys hashtableImpl (hashtableInit 1000) m0).Reach s a ∧ a.elems.length = 1000 ∧
    ∀ h, ReadsAtMost hashtableImpl hashtableRemoveIn s h 1 := by
  have h0 := pathMem_ok (N := 1000) (by arch)
  obtain ⟨t, m, e, _, _⟩ := hashtableInit_spec (n := 1000) (by rw [maxBuckets_eq]; arch) h0
  obtain ⟨s, r⟩ := reach (I := hashtableImpl) (init := hashtableInit 1000) (N := 1000)
    ⟨⟨m, t⟩, ⟨[], _⟩, h0, e, rfl, rfl⟩ (tblSys_correct (by rw [maxBuckets_eq]; arch) _).1 1000 (Nat.le_refl _)
  exact ⟨_, s, _, r, by simp [elems], fun h => C62_spread_hashtable 1000 (by rw [maxBuckets_eq]; arch) _ s _ r (by simp [elems]) h 1
    (C62_spread_dense _ (dense _ _).1 (dense _ _).2 h)⟩

omit [Arch] in
theorem perm_one {l l' : List Elem} {x : Nat} (p : l.Perm l') (h : l'.map Elem.hash = [x]) : l.map Elem.hash = [x] :=
  List.perm_singleton.1 (h ▸ p.map Elem.hash)

theorem one : (collide (elems 20) (2 ^ 5) (32 + 7)).map Elem.hash = [7] := by
  cases ‹Arch› <;> decide +kernel

/-- A table with 20 elements in 32 buckets: each bucket has the one element with the hash, if it is there. -/
example : ∃ m0 s a l, (sys hashtableImpl (hashtableInit 20) m0).Reach s a ∧
    walkBucket hashtableImpl s.tbl (32 + 7) s.mem = some (l, s.mem) ∧ l.map Elem.hash = [7] := by
  have h0 := pathMem_ok (N := 20) (by arch)
  obtain ⟨t, m, e, _, _⟩ := hashtableInit_spec (n := 20) (by rw [maxBuckets_eq]; arch) h0
  obtain ⟨s, r⟩ := reach (I := hashtableImpl) (init := hashtableInit 20) (N := 20)
    ⟨⟨m, t⟩, ⟨[], _⟩, h0, e, rfl, rfl⟩ (tblSys_correct (by rw [maxBuckets_eq]; arch) _).1 20 (Nat.le_refl _)
  obtain ⟨k, h1, h2, o⟩ := C62_collide_hashtable 20 (by rw [maxBuckets_eq]; arch)
  have hk : k = 5 := by
    have := h2 5 (by decide)
    have : ¬ k ≤ 4 := fun h => by
      have := Nat.pow_le_pow_right (n := 2) (by omega) h
      omega
    omega
  subst hk
  obtain ⟨l, e, p⟩ := (o _ s _ r (32 + 7)).bucket
  refine ⟨_, s, _, l, r, e, ?_⟩
  exact perm_one p one

/-- The limited search fails if it needs to read more nodes: two nodes of the same bucket, and the second one wanted. -/
example : searchWithin (fun d => (d : Int) - 8) 5 1 32
      { valid := fun _ => true, next := fun p => if p = 32 then 64 else 0, prev := fun _ => 64,
        data := fun p => if p = 32 then 7 else 8, index := fun _ => 5 } = none ∧
    (searchWithin (fun d => (d : Int) - 8) 5 2 32
      { valid := fun _ => true, next := fun p => if p = 32 then 64 else 0, prev := fun _ => 64,
        data := fun p => if p = 32 then 7 else 8, index := fun _ => 5 }).map Prod.fst = some 8 := by
  exact ⟨rfl, rfl⟩

end BucketEx

end Tommy
