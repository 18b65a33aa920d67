import Verif.Props.Limits
/-!
  Property C49 without the modulo, in a memory of 2^32 or 2^64 bytes.
-/
set_option autoImplicit false
namespace Tommy

variable [Arch]
open HashSpec

/-- What C49 says of a state. -/
def UsageExact {T : Type} (usage : T → Nat) (m0 : Mem) (s : St T) (a : Ab) : Prop :=
  ∃ vs, NewVecs m0 s.mem vs ∧ usage s.tbl = ptrSize * cellCount s.mem vs + nodeSize * a.elems.length

theorem usageExact {T : Type} {I : Impl T} {m0 : Mem} {P : T → Mem → List Elem → Prop} (ho : ImplOk I m0 P) {s : St T} {a : Ab}
    (i : P s.tbl s.mem a.elems) {usage : T → Nat} (hu : UsageOk usage m0 s a) (hb : Bounded s.mem) : UsageExact usage m0 s a := by
  obtain ⟨vs, hv, e⟩ := hu
  refine ⟨vs, hv, ?_⟩
  have := hb vs (a.elems.map Elem.node) hv.nodup (ho.nodup i) (fun p hp => by
    obtain ⟨x, hx, rfl⟩ := List.mem_map.1 hp
    exact ho.ok i x hx)
  rw [List.length_map] at this
  rw [e, Nat.mod_eq_of_lt this]

/-- **C49** for `tommy_hashtable`, with any initial size: memory_usage() is a pointer for each cell of the vectors
    allocated by the table and a node for each element. -/
theorem C49_usage_hashtable (n : Nat) (hn : n < 2 ^ sizeBit) (m0 : Mem) (s a)
    (hr : (sys hashtableImpl (hashtableInit n) m0).Reach s a) (hb : Bounded s.mem) : UsageExact hashtableMemoryUsage m0 s a := by
  have hu := C49_usage_hashtable_all_partial n hn m0 s a hr
  rcases Nat.lt_or_ge maxBuckets n with h | h
  · obtain ⟨vs, hv, e⟩ := hu
    refine ⟨vs, hv, ?_⟩
    have := hb vs [] hv.nodup List.nodup_nil (fun p hp => by cases hp)
    have d := dead_reach h hn hr
    simp only [d.elems, List.length_nil] at e this ⊢
    rw [e, Nat.mod_eq_of_lt this]
  · exact usageExact (hashtable_ok m0) ((tblSys_correct h m0).2 s a hr).p hu hb

/-- **C49** for `tommy_hashdyn`. -/
theorem C49_usage_hashdyn (m0 : Mem) (s a) (hr : (sys hashdynImpl hashdynInit m0).Reach s a) (hb : Bounded s.mem) :
    UsageExact hashdynMemoryUsage m0 s a :=
  usageExact (hashdyn_ok m0) ((dynSys_correct m0).2 s a hr).p (C49_usage_hashdyn_partial m0 s a hr) hb

/-- **C49** for `tommy_hashlin`. -/
theorem C49_usage_hashlin (m0 : Mem) (s a) (hr : (sys hashlinImpl hashlinInit m0).Reach s a) (hb : Bounded s.mem) :
    UsageExact hashlinMemoryUsage m0 s a :=
  usageExact (hashlin_ok m0) ((linSys_correct m0).2 s a hr).p (C49_usage_hashlin_partial m0 s a hr) hb

/-! ### Non vacuity -/

namespace HashEx

omit [Arch] in
/-- Two live vectors. -/
theorem sum_two {m : Mem} {r k n : Nat} (h : m.vlen = upd (fun v => if v = 0 then some k else none) r (some n)) :
    ∀ vs : List Nat, vs.Nodup → cellCount m vs ≤ (if r ∈ vs then n else 0) + (if 0 ∈ vs then k else 0) := by
  intro vs
  induction vs with
  | nil => intro _; simp [cellCount]
  | cons v l ih =>
    intro hn
    obtain ⟨h1, h2⟩ := List.nodup_cons.1 hn
    have := ih h2
    have hv : (m.vlen v).getD 0 = if v = r then n else if v = 0 then k else 0 := by
      rw [h, upd_apply]
      split
      · rfl
      · split <;> rfl
    simp only [cellCount, List.map_cons, List.sum_cons, hv, List.mem_cons] at this ⊢
    by_cases hr : v = r
    · subst hr
      by_cases h0 : v = 0
      · subst h0; simp [h1] at this ⊢; omega
      · simp [h1, Ne.symm h0] at this ⊢; omega
    · by_cases h0 : v = 0
      · subst h0; simp [h1, Ne.symm hr, hr] at this ⊢; omega
      · simp [Ne.symm hr, hr, h0, Ne.symm h0] at this ⊢; omega

/-- The usage of the dynamic table of the examples, with 16 buckets and 3 elements. -/
example : ∃ s a, (sys hashdynImpl hashdynInit m0).Reach s a ∧ Bounded s.mem ∧ hashdynMemoryUsage s.tbl = ptrSize * 16 + nodeSize * 3 := by
  obtain ⟨s, a, hr, ha, hlive⟩ := reachDyn
  have hl : a.elems.length = 3 := by rw [ha]; rfl
  have hmax : s.tbl.bucketMax = 16 := by
    have h := C13_hashdyn_load m0 s a hr
    rw [hl] at h
    obtain ⟨⟨k, hk, e⟩, h1, h2⟩ := h
    rcases h2 with h | h
    · exact h
    · have : k < 5 := by
        by_contra hc
        have : 2 ^ 5 ≤ 2 ^ k := Nat.pow_le_pow_right (by omega) (by omega)
        omega
      have : k = 4 := by omega
      rw [e, this]; decide
  have i := (dynSys_correct m0).2 s a hr
  have f := i.p.flat
  rw [hmax] at f
  have hb : Bounded s.mem := by
    intro vs ns h1 h2 h3
    have c := sum_two (k := 2) f.vlen vs h1
    have hc : cellCount s.mem vs ≤ 18 := by
      refine Nat.le_trans c ?_
      split <;> split <;> omega
    have hn : ns.length ≤ 3200 := nodup_length_le h2 (fun x hx => by
      have := (h3 x hx).2
      rw [← i.live, hlive] at this
      simp only [m0, decide_eq_true_eq] at this
      exact this.2.2)
    arch
  refine ⟨s, a, hr, hb, ?_⟩
  obtain ⟨vs, hv, e⟩ := C49_usage_hashdyn m0 s a hr hb
  rw [e, hl]
  have hvs : vs.Perm [s.tbl.bucket.vec] := (List.perm_ext_iff_of_nodup hv.nodup f.vecs.1.nodup).2 (fun v => by
    rw [hv.mem, f.vecs.1.mem])
  have hc : cellCount s.mem vs = 16 := by rw [List.perm_singleton.1 hvs]; exact f.vecs.2
  rw [hc]

end HashEx
end Tommy
