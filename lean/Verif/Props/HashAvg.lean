import Verif.Proof.HashAvg
import Verif.Props.HashBucket
/-
  C74: the average number of nodes read by a search in the hashtables.
-/
set_option autoImplicit false
namespace Tommy

variable [Arch]
open HashSpec

/-! ### Searches of what is not there, the average on all the hash values -/

/-- **C74** `tommy_hashtable`: the searches without result read in the average as many nodes as the elements for each
    bucket. -/
theorem C74_miss_hashtable (n : Nat) (hn : n ≤ maxBuckets) : ∃ k, max n 16 ≤ 2 ^ k ∧ (∀ j, max n 16 ≤ 2 ^ j → k ≤ j) ∧
    ∀ m0 s a, (sys hashtableImpl (hashtableInit n) m0).Reach s a → ∀ cmp : Nat → Nat → Int, (∀ q, Misses a (cmp q) q) →
      ∃ reads : Nat → Nat, (∀ q, Reads hashtableImpl s (cmp q) q (reads q)) ∧
        2 ^ k * ∑ q ∈ Finset.range (2 ^ sizeBit), reads q = a.elems.length * 2 ^ sizeBit := by
  have hex : ∃ k, max n 16 ≤ 2 ^ k := ⟨bktBit, by rw [maxBuckets_eq] at hn; arch⟩
  classical
  refine ⟨Nat.find hex, Nat.find_spec hex, fun j hj => Nat.find_min' hex hj, fun m0 s a hr cmp hm => ?_⟩
  have i := ((tblSys_correct hn m0).2 s a hr).p
  obtain ⟨h1, h2⟩ := tbl_max hn hr
  obtain ⟨k, hk⟩ := i.pow
  have hle := h2 _ (Nat.find_spec hex)
  have hge : Nat.find hex ≤ k := Nat.find_min' hex (by rw [← hk]; exact h1)
  have : 2 ^ Nat.find hex ≤ 2 ^ k := Nat.pow_le_pow_right (by omega) hge
  have e : 2 ^ Nat.find hex = s.tbl.bucketMax := by omega
  have hb : Nat.find hex ≤ sizeBit :=
    Nat.le_trans (Nat.find_min' hex (by rw [maxBuckets_eq] at hn; arch : max n 16 ≤ 2 ^ bktBit)) (by arch)
  obtain ⟨B, sh⟩ := tbl_shelves i
  refine ⟨_, fun q => sh.miss (hm q), ?_⟩
  rw [← e]
  exact miss_mod hb a

/-- **C74** `tommy_hashdyn`: the searches without result read in the average less than half a node. -/
theorem C74_miss_hashdyn (m0 : Mem) (s a) (hr : (sys hashdynImpl hashdynInit m0).Reach s a) (cmp : Nat → Nat → Int)
    (hm : ∀ q, Misses a (cmp q) q) : ∃ reads : Nat → Nat, (∀ q, Reads hashdynImpl s (cmp q) q (reads q)) ∧
      2 * ∑ q ∈ Finset.range (2 ^ sizeBit), reads q < 2 ^ sizeBit := by
  have i := ((dynSys_correct m0).2 s a hr).p
  obtain ⟨B, sh⟩ := dyn_shelves i
  refine ⟨_, fun q => sh.miss (hm q), ?_⟩
  have hb : s.tbl.bucketBit ≤ sizeBit := Nat.le_trans i.bit_lt (by arch)
  have h1 := miss_mod hb a
  have h2 := i.load
  have h3 : 0 < 2 ^ sizeBit := Nat.two_pow_pos _
  rw [i.max] at h2 ⊢
  refine Nat.lt_of_mul_lt_mul_left (a := 2 ^ s.tbl.bucketBit) ?_
  rw [Nat.mul_left_comm, h1, ← Nat.mul_assoc]
  exact Nat.mul_lt_mul_of_pos_right h2 h3

/-- **C74** `tommy_hashlin`: the searches without result read in the average at most one node, also in the middle of a
    resize. -/
theorem C74_miss_hashlin (m0 : Mem) (s a) (hr : (sys hashlinImpl hashlinInit m0).Reach s a) (cmp : Nat → Nat → Int)
    (hm : ∀ q, Misses a (cmp q) q) : ∃ reads : Nat → Nat, (∀ q, Reads hashlinImpl s (cmp q) q (reads q)) ∧
      ∑ q ∈ Finset.range (2 ^ sizeBit), reads q ≤ 2 ^ sizeBit := by
  have i := ((linSys_correct m0).2 s a hr).p
  obtain ⟨B, sh⟩ := lin_shelves i
  refine ⟨_, fun q => sh.miss (hm q), ?_⟩
  obtain ⟨k, hk, _, hkb, hl⟩ := lin_low i
  have h1 := miss_mod hkb a
  refine Nat.le_trans (Finset.sum_le_sum (g := fun q => a.elems.countP fun e => e.hash % 2 ^ k = q % 2 ^ k)
    fun q _ => List.countP_mono_left fun e _ h => ?_) ?_
  · simp only [decide_eq_true_eq] at h ⊢
    rw [← hk]
    exact lplace_mod i.low_pos h
  · refine Nat.le_of_mul_le_mul_left (c := 2 ^ k) ?_ (Nat.two_pow_pos _)
    rw [h1]
    exact Nat.mul_le_mul_right _ hl

/-! ### Searches of the elements, the average on all the assignments of hashes -/

/-- **C74** `tommy_hashtable` with at most as many elements as the buckets asked: the searches of the elements read in the
    average less than one node and a half. -/
theorem C74_hit_hashtable (N : Nat) (hN : N ≤ maxBuckets) {n : Nat} (h0 : 0 < n) (hn : n ≤ max N 16)
    (m0 : Assign n → Mem) (s : Assign n → St Hashtable) (a : Assign n → Ab)
    (hr : ∀ H, (sys hashtableImpl (hashtableInit N) (m0 H)).Reach (s H) (a H)) (node : Fin n → Ptr) (data : Fin n → Nat)
    (ho : ∀ H, Holds (a H) node data H) (cmp : Fin n → Nat → Int) (hc : Selects data cmp) :
    ∃ reads : Assign n → Fin n → Nat, (∀ H i, Reads hashtableImpl (s H) (cmp i) (H i) (reads H i)) ∧
      2 * ∑ H, ∑ i, reads H i < 3 * n * Fintype.card (Assign n) := by
  have hex : ∃ k, max N 16 ≤ 2 ^ k := ⟨bktBit, by rw [maxBuckets_eq] at hN; arch⟩
  classical
  have hb : Nat.find hex ≤ sizeBit :=
    Nat.le_trans (Nat.find_min' hex (by rw [maxBuckets_eq] at hN; arch : max N 16 ≤ 2 ^ bktBit)) (by arch)
  have key := avg (I := hashtableImpl) (b := 2 ^ Nat.find hex) (Nat.pow_dvd_pow 2 hb) (s := s) (a := a) (fun H => by
    have i := ((tblSys_correct hN (m0 H)).2 _ _ (hr H)).p
    obtain ⟨h1, h2⟩ := tbl_max hN (hr H)
    obtain ⟨k, hk⟩ := i.pow
    have hge : Nat.find hex ≤ k := Nat.find_min' hex (by rw [← hk]; exact h1)
    obtain ⟨B, sh⟩ := tbl_shelves i
    refine ⟨_, B, sh, fun x y h => ?_⟩
    simp only [hk] at h
    exact mod_pow_le hge h) ho hc
  obtain ⟨reads, h1, h2⟩ := key
  exact ⟨reads, h1, avg_three h0 (Nat.le_trans hn (Nat.find_spec hex)) h2⟩

/-- **C74** `tommy_hashdyn`: the searches of the elements read in the average less than one node and a quarter. -/
theorem C74_hit_hashdyn {n : Nat} (h0 : 0 < n) (m0 : Assign n → Mem) (s : Assign n → St Hashdyn) (a : Assign n → Ab)
    (hr : ∀ H, (sys hashdynImpl hashdynInit (m0 H)).Reach (s H) (a H)) (node : Fin n → Ptr) (data : Fin n → Nat)
    (ho : ∀ H, Holds (a H) node data H) (cmp : Fin n → Nat → Int) (hc : Selects data cmp) :
    ∃ reads : Assign n → Fin n → Nat, (∀ H i, Reads hashdynImpl (s H) (cmp i) (H i) (reads H i)) ∧
      4 * ∑ H, ∑ i, reads H i < 5 * n * Fintype.card (Assign n) := by
  have hex : ∃ k, 2 * n < 2 ^ k := ⟨2 * n, Nat.lt_two_pow_self⟩
  classical
  have hmin : ∀ H, Nat.find hex ≤ (s H).tbl.bucketBit := fun H => by
    have i := ((dynSys_correct (m0 H)).2 _ _ (hr H)).p
    refine Nat.find_min' hex ?_
    have := i.load
    rw [(ho H).length, i.max] at this
    exact this
  have hb : Nat.find hex ≤ sizeBit := by
    have H0 : Assign n := fun _ => ⟨0, Nat.two_pow_pos _⟩
    have i := ((dynSys_correct (m0 H0)).2 _ _ (hr H0)).p
    exact Nat.le_trans (hmin H0) (Nat.le_trans i.bit_lt (by arch))
  have key := avg (I := hashdynImpl) (b := 2 ^ Nat.find hex) (Nat.pow_dvd_pow 2 hb) (s := s) (a := a) (fun H => by
    have i := ((dynSys_correct (m0 H)).2 _ _ (hr H)).p
    obtain ⟨B, sh⟩ := dyn_shelves i
    refine ⟨_, B, sh, fun x y h => ?_⟩
    simp only [i.max] at h
    exact mod_pow_le (hmin H) h) ho hc
  obtain ⟨reads, h1, h2⟩ := key
  exact ⟨reads, h1, avg_five h0 (Nat.find_spec hex) h2⟩

/-- **C74** `tommy_hashlin`: the searches of the elements read in the average less than one node and a half, also in the
    middle of a resize. -/
theorem C74_hit_hashlin {n : Nat} (h0 : 0 < n) (m0 : Assign n → Mem) (s : Assign n → St Hashlin) (a : Assign n → Ab)
    (hr : ∀ H, (sys hashlinImpl hashlinInit (m0 H)).Reach (s H) (a H)) (node : Fin n → Ptr) (data : Fin n → Nat)
    (ho : ∀ H, Holds (a H) node data H) (cmp : Fin n → Nat → Int) (hc : Selects data cmp) :
    ∃ reads : Assign n → Fin n → Nat, (∀ H i, Reads hashlinImpl (s H) (cmp i) (H i) (reads H i)) ∧
      2 * ∑ H, ∑ i, reads H i < 3 * n * Fintype.card (Assign n) := by
  have hex : ∃ k, n ≤ 2 ^ k := ⟨n, Nat.le_of_lt Nat.lt_two_pow_self⟩
  classical
  have hmin : ∀ H, ∃ k, (s H).tbl.lowMax = 2 ^ k ∧ Nat.find hex ≤ k ∧ k ≤ sizeBit := fun H => by
    have i := ((linSys_correct (m0 H)).2 _ _ (hr H)).p
    obtain ⟨k, hk, _, hkb, hl⟩ := lin_low i
    exact ⟨k, hk, Nat.find_min' hex (by rw [(ho H).length] at hl; exact hl), hkb⟩
  have hb : Nat.find hex ≤ sizeBit := by
    obtain ⟨k, _, h1, h2⟩ := hmin fun _ => ⟨0, Nat.two_pow_pos _⟩
    omega
  have key := avg (I := hashlinImpl) (b := 2 ^ Nat.find hex) (Nat.pow_dvd_pow 2 hb) (s := s) (a := a) (fun H => by
    have i := ((linSys_correct (m0 H)).2 _ _ (hr H)).p
    obtain ⟨B, sh⟩ := lin_shelves i
    refine ⟨_, B, sh, fun x y h => ?_⟩
    obtain ⟨k, hk, hle, _⟩ := hmin H
    have := lplace_mod i.low_pos h
    rw [hk] at this
    exact mod_pow_le hle this) ho hc
  obtain ⟨reads, h1, h2⟩ := key
  exact ⟨reads, h1, avg_three h0 (Nat.find_spec hex) h2⟩

/-! ### Non vacuity -/

namespace AvgEx

/-- `c` nodes with the payloads from 0 to `c - 1`, and the hashes of a function. -/
def elems (g : Nat → Nat) (c : Nat) : List Elem := (List.range c).map (fun j => ⟨nodeSize * (j + 1), j, g j⟩)

theorem not_mem (g : Nat → Nat) (c : Nat) : (nodeSize * (c + 1) : Nat) ∉ (elems g c).map Elem.node := by
  intro h
  simp only [elems, List.map_map, List.mem_map, List.mem_range, Function.comp] at h
  obtain ⟨j, hj, e⟩ := h
  exact (by arch : ∀ a b : Nat, a < b → nodeSize * (a + 1) ≠ nodeSize * (b + 1)) j c hj e

theorem reach {T : Type} {I : Impl T} {init : MM T} {N : Nat} (hi : ∃ s a, (sys I init (pathMem N)).init s a)
    (hc : (sys I init (pathMem N)).Correct) (g : Nat → Nat) : ∀ c, c ≤ N →
      ∃ s, (sys I init (pathMem N)).Reach s ⟨elems g c, (pathMem N).heap.valid⟩ := by
  intro c
  induction c with
  | zero =>
    intro _
    obtain ⟨s0, ⟨el, li⟩, h⟩ := hi
    obtain ⟨_, _, he, hl⟩ := id h
    simp only at he hl
    subst he hl
    exact ⟨s0, .init h⟩
  | succ c ih =>
    intro hcN
    obtain ⟨s, r⟩ := ih (by omega)
    obtain ⟨_, s', r', _⟩ := hc.extend r (.insert (nodeSize * (c + 1) : Nat) c (g c)) ⟨by
      simp only [pathMem, decide_eq_true_eq]
      exact (by arch : (nodeSize * (c + 1) : Nat) % nodeSize = 0 ∧ 0 < nodeSize * (c + 1) ∧ nodeSize * (c + 1) ≤ nodeSize * N), not_mem g c⟩
    refine ⟨s', ?_⟩
    simp only [sys, next] at r'
    have e : elems g (c + 1) = elems g c ++ [⟨nodeSize * (c + 1), c, g c⟩] := by simp [elems, List.range_succ]
    rw [e]; exact r'

/-- The hashes of an assignment. -/
def hashes {n : Nat} (H : Assign n) (j : Nat) : Nat := if h : j < n then (H ⟨j, h⟩).val else 0

theorem holds {n : Nat} (H : Assign n) (l) :
    Holds ⟨elems (hashes H) n, l⟩ (fun i => nodeSize * (i.val + 1)) (fun i => i.val) H := by
  refine List.Perm.of_eq (List.ext_getElem (by simp [elems]) fun i h1 h2 => ?_)
  have hi : i < n := by simpa [elems] using h1
  simp [elems, hashes, hi]

omit [Arch] in
theorem selects (n : Nat) : Selects (fun i : Fin n => i.val) (fun i d => (d : Int) - i.val) := by
  intro i j
  simp only [Fin.ext_iff]
  omega

/-- For each assignment of hashes to a thousand of objects there is a table, and the searches in these tables read in the
    average less than one node and a quarter. -/
example : ∃ (m0 : Mem) (s : Assign 1000 → St Hashdyn) (a : Assign 1000 → Ab) (reads : Assign 1000 → Fin 1000 → Nat),
    (∀ H, (sys hashdynImpl hashdynInit m0).Reach (s H) (a H)) ∧
    (∀ H i, Reads hashdynImpl (s H) (fun d => (d : Int) - i.val) (H i) (reads H i)) ∧
    4 * ∑ H, ∑ i, reads H i < 5 * 1000 * Fintype.card (Assign 1000) := by
  have h0 := pathMem_ok (N := 1000) (by arch)
  obtain ⟨t, m, e, _, _⟩ := hashdynInit_spec h0
  have key := fun H : Assign 1000 => reach (I := hashdynImpl) (init := hashdynInit) (N := 1000)
    ⟨⟨m, t⟩, ⟨[], _⟩, h0, e, rfl, rfl⟩ (dynSys_correct _).1 (hashes H) 1000 (Nat.le_refl _)
  choose s hs using key
  obtain ⟨reads, h1, h2⟩ := C74_hit_hashdyn (by omega) (fun _ => pathMem 1000) s _ hs _ _ (fun H => holds H _) _ (selects 1000)
  exact ⟨_, s, _, reads, hs, h1, h2⟩

example : ∃ (m0 : Mem) (s : Assign 1000 → St Hashlin) (a : Assign 1000 → Ab) (reads : Assign 1000 → Fin 1000 → Nat),
    (∀ H, (sys hashlinImpl hashlinInit m0).Reach (s H) (a H)) ∧
    (∀ H i, Reads hashlinImpl (s H) (fun d => (d : Int) - i.val) (H i) (reads H i)) ∧
    2 * ∑ H, ∑ i, reads H i < 3 * 1000 * Fintype.card (Assign 1000) := by
  have h0 := pathMem_ok (N := 1000) (by arch)
  obtain ⟨t, m, e, _, _⟩ := hashlinInit_spec h0
  have key := fun H : Assign 1000 => reach (I := hashlinImpl) (init := hashlinInit) (N := 1000)
    ⟨⟨m, t⟩, ⟨[], _⟩, h0, e, rfl, rfl⟩ (linSys_correct _).1 (hashes H) 1000 (Nat.le_refl _)
  choose s hs using key
  obtain ⟨reads, h1, h2⟩ := C74_hit_hashlin (by omega) (fun _ => pathMem 1000) s _ hs _ _ (fun H => holds H _) _ (selects 1000)
  exact ⟨_, s, _, reads, hs, h1, h2⟩

example : ∃ (m0 : Mem) (s : Assign 1000 → St Hashtable) (a : Assign 1000 → Ab) (reads : Assign 1000 → Fin 1000 → Nat),
    (∀ H, (sys hashtableImpl (hashtableInit 1000) m0).Reach (s H) (a H)) ∧
    (∀ H i, Reads hashtableImpl (s H) (fun d => (d : Int) - i.val) (H i) (reads H i)) ∧
    2 * ∑ H, ∑ i, reads H i < 3 * 1000 * Fintype.card (Assign 1000) := by
  have h0 := pathMem_ok (N := 1000) (by arch)
  have hn : 1000 ≤ maxBuckets := by rw [maxBuckets_eq]; arch
  obtain ⟨t, m, e, _, _⟩ := hashtableInit_spec (n := 1000) hn h0
  have key := fun H : Assign 1000 => reach (I := hashtableImpl) (init := hashtableInit 1000) (N := 1000)
    ⟨⟨m, t⟩, ⟨[], _⟩, h0, e, rfl, rfl⟩ (tblSys_correct hn _).1 (hashes H) 1000 (Nat.le_refl _)
  choose s hs using key
  obtain ⟨reads, h1, h2⟩ := C74_hit_hashtable 1000 hn (by omega) (by omega) (fun _ => pathMem 1000) s _ hs _ _
    (fun H => holds H _) _ (selects 1000)
  exact ⟨_, s, _, reads, hs, h1, h2⟩

/-- A table with 12 elements in 16 buckets: a search of what is not there reads three quarters of node in the average, for
    any hashes of the elements. -/
example (g : Nat → Nat) : ∃ m0 s a, ∃ reads : Nat → Nat, (sys hashtableImpl (hashtableInit 10) m0).Reach s a ∧
    a.elems.map Elem.hash = (List.range 12).map g ∧ (∀ q, Reads hashtableImpl s (fun _ => 1) q (reads q)) ∧
    4 * ∑ q ∈ Finset.range (2 ^ sizeBit), reads q = 3 * 2 ^ sizeBit := by
  have h0 := pathMem_ok (N := 12) (by arch)
  have hn : 10 ≤ maxBuckets := by rw [maxBuckets_eq]; arch
  obtain ⟨t, m, e, _, _⟩ := hashtableInit_spec (n := 10) hn h0
  obtain ⟨s, r⟩ := reach (I := hashtableImpl) (init := hashtableInit 10) (N := 12)
    ⟨⟨m, t⟩, ⟨[], _⟩, h0, e, rfl, rfl⟩ (tblSys_correct hn _).1 g 12 (Nat.le_refl _)
  obtain ⟨k, h1, h2, h3⟩ := C74_miss_hashtable 10 hn
  have hk : k = 4 := by
    have := h2 4 (by decide)
    have : ¬ k ≤ 3 := fun h => by
      have := Nat.pow_le_pow_right (n := 2) (by omega) h
      omega
    omega
  subst hk
  obtain ⟨reads, h4, h5⟩ := h3 _ s _ r (fun _ _ => 1) fun q e _ => by simp [hit]
  refine ⟨_, s, _, reads, r, by simp [elems, Function.comp_def], h4, ?_⟩
  simp only [elems, List.length_map, List.length_range] at h5
  omega

/-- The hypothesis of the searches without result for the other two tables, with a million of elements. -/
example (g : Nat → Nat) : ∃ m0 s a, ∃ reads : Nat → Nat, (sys hashdynImpl hashdynInit m0).Reach s a ∧
    a.elems.length = 10 ^ 6 ∧ (∀ q, Reads hashdynImpl s (fun _ => 1) q (reads q)) ∧
    2 * ∑ q ∈ Finset.range (2 ^ sizeBit), reads q < 2 ^ sizeBit := by
  have h0 := pathMem_ok (N := 10 ^ 6) (by arch)
  obtain ⟨t, m, e, _, _⟩ := hashdynInit_spec h0
  obtain ⟨s, r⟩ := reach (I := hashdynImpl) (init := hashdynInit) (N := 10 ^ 6)
    ⟨⟨m, t⟩, ⟨[], _⟩, h0, e, rfl, rfl⟩ (dynSys_correct _).1 g (10 ^ 6) (Nat.le_refl _)
  obtain ⟨reads, h1, h2⟩ := C74_miss_hashdyn _ s _ r (fun _ _ => 1) fun q e _ => by simp [hit]
  exact ⟨_, s, _, reads, r, by simp [elems], h1, h2⟩

example (g : Nat → Nat) : ∃ m0 s a, ∃ reads : Nat → Nat, (sys hashlinImpl hashlinInit m0).Reach s a ∧
    a.elems.length = 10 ^ 6 ∧ (∀ q, Reads hashlinImpl s (fun _ => 1) q (reads q)) ∧
    ∑ q ∈ Finset.range (2 ^ sizeBit), reads q ≤ 2 ^ sizeBit := by
  have h0 := pathMem_ok (N := 10 ^ 6) (by arch)
  obtain ⟨t, m, e, _, _⟩ := hashlinInit_spec h0
  obtain ⟨s, r⟩ := reach (I := hashlinImpl) (init := hashlinInit) (N := 10 ^ 6)
    ⟨⟨m, t⟩, ⟨[], _⟩, h0, e, rfl, rfl⟩ (linSys_correct _).1 g (10 ^ 6) (Nat.le_refl _)
  obtain ⟨reads, h1, h2⟩ := C74_miss_hashlin _ s _ r (fun _ _ => 1) fun q e _ => by simp [hit]
  exact ⟨_, s, _, reads, r, by simp [elems], h1, h2⟩

end AvgEx

end Tommy
