import Verif.Proof.HashFlatTbl
/-! The functions of tommy_hashdyn on the bytes. -/
set_option linter.unusedSimpArgs false
set_option linter.unusedVariables false
namespace Tommy

variable [Arch]
namespace HashFlat

variable {α β : Type} {G : Gh}

/-- The struct at the address `b`. -/
structure DynAt (F : Fld) (φ : Nat → Nat) (b : Nat) (t : Hashdyn) : Prop where
  bucket : F (b + dynBucket) ptrSize = some (some (aR φ t.bucket))
  max : F (b + dynMax) ptrSize = some (some t.bucketMax)
  mask : F (b + dynMask) ptrSize = some (some t.bucketMask)
  count : F (b + dynCount) ptrSize = some (some t.count)
  bit : F (b + dynBit) 4 = some (some t.bucketBit)

/-- The bytes of the struct. -/
structure DynDom (F : Fld) (b : Nat) : Prop where
  bucket : F (b + dynBucket) ptrSize ≠ none
  max : F (b + dynMax) ptrSize ≠ none
  mask : F (b + dynMask) ptrSize ≠ none
  count : F (b + dynCount) ptrSize ≠ none
  bit : F (b + dynBit) 4 ≠ none

theorem DynAt.dom {F : Fld} {φ : Nat → Nat} {b : Nat} {t : Hashdyn} (h : DynAt F φ b t) : DynDom F b :=
  ⟨by rw [h.bucket]; simp, by rw [h.max]; simp, by rw [h.mask]; simp, by rw [h.count]; simp, by rw [h.bit]; simp⟩

theorem DynAt.setCount {F : Fld} {φ : Nat → Nat} {b : Nat} {t : Hashdyn} (h : DynAt F φ b t) (c : Nat) :
    DynAt (F.set (b + dynCount) ptrSize c) φ b { t with count := c } where
  bucket := by flds h.bucket
  max := by flds h.max
  mask := by flds h.mask
  count := by flds h.count
  bit := by flds h.bit

theorem sim_dynInit {b : Nat} (hd : DynDom G.F b) {nb : Nat} {c : Nat → Nat}
    {ms : List (Nat × (Nat → Nat))} (hms : G.ms = (nb, c) :: ms) (hf : Fresh G.live nb (16 * ptrSize)) :
    Sim G hashdynInit (bhashdynInit b) fun t' _ G' =>
      Step G G' b dynStruct [.got nb (16 * ptrSize)] ∧ DynAt G'.F G'.φ b t' ∧ t'.bucketMax = 16 ∧ G'.φ t'.bucket.vec = nb := by
  unfold hashdynInit bhashdynInit
  refine sim_fset hd.bit (by decide) ?_
  refine sim_fget (c := dynBIT) (by flds hd.bit) fun _ => ?_
  refine SimE.bind (sim_shl _) ?_
  rintro max _ ⟨rfl, _, hmax⟩
  have hm : max = 16 := hmax
  subst hm
  have h16 : 16 < 2 ^ sizeBit := by archd
  refine sim_fset (by fldd hd.max) (pow4 h16) ?_
  refine sim_fget (c := 16) (by flds hd.max) fun _ => ?_
  refine sim_fset (by fldd hd.mask) (pow4 (decT_lt (by omega))) ?_
  refine sim_fget (c := 16) (by flds hd.max) fun _ => ?_
  refine Sim.bind (sim_calloc hms hf) ?_
  rintro r p G' ⟨rfl, v, hv, rfl, rfl⟩
  have hp : p < 2 ^ sizeBit := by have := hf.lt; omega
  have ha : aR (upd G.φ v p) ⟨v, 0⟩ = p := aR_base (upd_same ..) hp
  refine sim_fset (by fldd hd.bucket) (pow4 hp) ?_
  refine sim_fset_last (by fldd hd.count) (pow4 (by positivity)) ⟨?_, ?_, rfl, upd_same ..⟩
  · have s1 := (Step.refl G b dynStruct).set (x := b + dynBit) (k := 4) (v := dynBIT) hd.bit (by omega) (by offs)
    have s2 := s1.set (x := b + dynMax) (k := ptrSize) (v := 16) (by fldd hd.max) (by omega) (by offs)
    have s3 := s2.set (x := b + dynMask) (k := ptrSize) (v := decT 16) (by fldd hd.mask) (by omega) (by offs)
    have s4 := (s3.got (p := p) (n := 16 * ptrSize) hv).set (x := b + dynBucket) (k := ptrSize) (v := p) (by fldd hd.bucket) (by omega) (by offs)
    exact s4.set (x := b + dynCount) (k := ptrSize) (v := 0) (by fldd hd.count) (by omega) (by offs)
  · exact ⟨by simp only [Gh.set_φ, Gh.got_φ, ha]; flds hd.bucket, by flds hd.max, by flds hd.mask, by flds hd.count, by flds hd.bit⟩

theorem sim_dynDone {b : Nat} {t : Hashdyn} (ht : DynAt G.F G.φ b t) :
    Sim G (hashdynDone t) (bhashdynDone b) fun _ _ G' => Step G G' b dynStruct [.gave (aR G.φ t.bucket)] := by
  unfold hashdynDone bhashdynDone
  refine sim_fget ht.bucket fun _ => (sim_free _).mono ?_
  rintro _ _ _ ⟨_, _, rfl⟩
  exact (Step.refl ..).gave

theorem sim_dynGrowLoop {b : Nat} {t : Hashdyn} (ht : G.F (b + dynBucket) ptrSize = some (some (aR G.φ t.bucket))) (nb : Ref) (mask k : Nat) :
    ∀ i, SimE G (hashdynGrowLoop t nb mask i k) (bhashdynGrowLoop b t.bucketMax (aR G.φ nb) mask i k) fun _ _ => True := by
  induction k with
  | zero => intro i; exact Sim.pure ⟨rfl, trivial⟩
  | succ k ih =>
    intro i
    simp only [hashdynGrowLoop, bhashdynGrowLoop, padd_aR]
    refine SimE.bind (sim_writeRef _ (by positivity)) fun _ _ _ => ?_
    refine SimE.bind (sim_writeRef _ (by positivity)) fun _ _ _ => ?_
    refine sim_fget ht fun _ => ?_
    rw [padd_aR]
    refine SimE.bind (sim_readRef _) ?_
    rintro j _ ⟨rfl, hj⟩
    refine SimE.bind (sim_flushLoop (fun x => rfl) hj) fun _ _ _ => ?_
    refine (SimE.bind (g := fun d => Pure.pure d) (ih (i + 1)) fun _ _ _ => Sim.pure ⟨rfl, trivial⟩).mono' ?_
    rw [bind_pure]

theorem sim_dynShrinkLoop {b : Nat} {t : Hashdyn} (ht : G.F (b + dynBucket) ptrSize = some (some (aR G.φ t.bucket))) (nb : Ref) (max k : Nat) :
    ∀ i, SimE G (hashdynShrinkLoop t nb max i k) (bhashdynShrinkLoop b (aR G.φ nb) max i k) fun _ _ => True := by
  induction k with
  | zero => intro i; exact Sim.pure ⟨rfl, trivial⟩
  | succ k ih =>
    intro i
    simp only [hashdynShrinkLoop, bhashdynShrinkLoop, padd_aR]
    refine sim_fget ht fun _ => ?_
    rw [padd_aR]
    refine SimE.bind (sim_readRef _) ?_
    rintro j _ ⟨rfl, hj⟩
    refine SimE.bind (sim_writeRef _ hj) fun _ _ _ => ?_
    refine sim_fget ht fun _ => ?_
    rw [padd_aR]
    refine SimE.bind (sim_concat _ _) fun _ _ _ => ?_
    refine (SimE.bind (g := fun d => Pure.pure d) (ih (i + 1)) fun _ _ _ => Sim.pure ⟨rfl, trivial⟩).mono' ?_
    rw [bind_pure]

/-- A call with a resize: a vector for the new buckets is allocated, and the old one is freed. -/
structure DynResized (G G' : Gh) (t t' : Hashdyn) (evs : List BEvent) : Prop where
  max : t'.bucketMax = 2 ^ t'.bucketBit
  bit : t'.bucketBit ≠ t.bucketBit
  evs : ∃ nb c ms, G.ms = (nb, c) :: ms ∧ evs = [.got nb (sizeT (t'.bucketMax * ptrSize)), .gave (aR G.φ t.bucket)] ∧
    G'.φ t'.bucket.vec = nb

theorem sim_dynResize {b : Nat} {t : Hashdyn} (ht : DynAt G.F G.φ b t) (hN : t.bucket.vec < G.N) {nbit : Nat} (hne : nbit ≠ t.bucketBit)
    (hm : MallocOk G (sizeT (2 ^ nbit * ptrSize))) :
    Sim G (hashdynResize t nbit) (bhashdynResize b nbit) fun t' _ G' =>
      ∃ evs, Step G G' b dynStruct evs ∧ DynAt G'.F G'.φ b t' ∧ DynResized G G' t t' evs := by
  obtain ⟨nb, c, ms, hms, hc, hf⟩ := hm
  simp only [hashdynResize, bhashdynResize]
  refine sim_fget ht.bit fun _ => sim_fget ht.max fun _ => ?_
  refine SimE.bind (sim_shl _) ?_
  rintro max _ ⟨rfl, hbit, hmax⟩
  rw [← hmax] at hf
  have hmlt : max < 2 ^ sizeBit := by rw [hmax]; exact Nat.pow_lt_pow_right (by omega) hbit
  refine Sim.bind (sim_malloc (bytes_mul _) hms hc hf) ?_
  rintro r p G' ⟨rfl, v, hv, rfl, rfl⟩
  have hp : p < 2 ^ sizeBit := by have := hf.lt; omega
  have ha : aR (upd G.φ v p) ⟨v, 0⟩ = p := aR_base (upd_same ..) hp
  have ho : aR (upd G.φ v p) t.bucket = aR G.φ t.bucket := aR_congr (upd_ne (by omega))
  have hb : (G.got v p (sizeT (max * ptrSize))).F (b + dynBucket) ptrSize =
    some (some (aR (G.got v p (sizeT (max * ptrSize))).φ t.bucket)) := by simp only [Gh.got_F, Gh.got_φ, ho]; exact ht.bucket
  have hgl := sim_dynGrowLoop (t := t) hb ⟨v, 0⟩ (decT max) t.bucketMax 0
  have hsl := sim_dynShrinkLoop (t := t) hb ⟨v, 0⟩ max max 0
  simp only [Gh.got_φ, ha] at hgl hsl
  have hend : ∀ work : Nat, Sim (G.got v p (sizeT (max * ptrSize))) (do
      vfree t.bucket
      pure { t with bucketBit := nbit, bucketMax := max, bucketMask := decT max, bucket := ⟨v, 0⟩, work := t.work + work } : MM Hashdyn) (do
      let bucket ← bget (b + dynBucket)
      bfree bucket
      bset32 (b + dynBit) nbit
      bset (b + dynMax) max
      bset (b + dynMask) (decT max)
      bset (b + dynBucket) p : BM Unit) fun t' _ G' =>
        ∃ evs, Step G G' b dynStruct evs ∧ DynAt G'.F G'.φ b t' ∧ DynResized G G' t t' evs := by
    intro work
    refine sim_fget ht.bucket fun _ => ?_
    have hfr := sim_free (G := G.got v p (sizeT (max * ptrSize))) t.bucket
    simp only [Gh.got_φ, ho] at hfr
    refine Sim.bind hfr ?_
    rintro _ _ _ ⟨_, _, rfl⟩
    have hb4 : nbit < 2 ^ (8 * 4) := by arch
    refine sim_fset ht.dom.bit hb4 ?_
    refine sim_fset (by fldd ht.dom.max) (pow4 hmlt) ?_
    refine sim_fset (by fldd ht.dom.mask) (pow4 (decT_lt (by omega))) ?_
    refine sim_fset_last (by fldd ht.dom.bucket) (pow4 hp) ⟨_, ?_, ?_, ⟨hmax, hne, ⟨_, _, _, hms, rfl, upd_same ..⟩⟩⟩
    · have s0 := ((Step.refl G b dynStruct).got (p := p) (n := sizeT (max * ptrSize)) hv).gave (p := aR G.φ t.bucket)
      have s1 := s0.set (x := b + dynBit) (k := 4) (v := nbit) ht.dom.bit (by omega) (by offs)
      have s2 := s1.set (x := b + dynMax) (k := ptrSize) (v := max) (by fldd ht.dom.max) (by omega) (by offs)
      have s3 := s2.set (x := b + dynMask) (k := ptrSize) (v := decT max) (by fldd ht.dom.mask) (by omega) (by offs)
      exact s3.set (x := b + dynBucket) (k := ptrSize) (v := p) (by fldd ht.dom.bucket) (by omega) (by offs)
    · exact ⟨by simp only [Gh.set_φ, Gh.got_φ, Gh.gave_φ, ha]; flds ht.bucket, by flds ht.max, by flds ht.mask, by flds ht.count, by flds ht.bit⟩
  refine Sim.ite Iff.rfl (fun _ => ?_) fun _ => ?_
  · exact SimE.bind hgl fun work _ _ => hend work
  · exact SimE.bind hsl fun work _ _ => hend work

/-- What a call does to the vector. -/
def DynEvs (G G' : Gh) (t t' : Hashdyn) (evs : List BEvent) : Prop :=
  (t'.bucketMax = t.bucketMax ∧ t'.bucket = t.bucket ∧ evs = []) ∨ DynResized G G' t t' evs

/-- The result of a function which does not fail. -/
theorem Sim.none {x : MM α} {y : BM β} {Q : α → β → Gh → Prop} (h : ∀ m, x m = none) : Sim G x y Q := by
  intro m W _ a m' e; rw [h] at e; cases e

theorem resize_none {t : Hashdyn} {nbit : Nat} (h : ¬ nbit < sizeBit) (m : Mem) : hashdynResize t nbit m = none := by
  simp only [hashdynResize, run_bind, shlT, if_neg h, Option.bind_none]

theorem sim_dynGrowStep {b : Nat} {t : Hashdyn} (ht : DynAt G.F G.φ b t) (hN : t.bucket.vec < G.N)
    (hm : t.count ≥ t.bucketMax / 2 → MallocOk G (sizeT (2 ^ (t.bucketBit + 1) * ptrSize))) :
    Sim G (hashdynGrowStep t) (bhashdynGrowStep b) fun t' _ G' => ∃ evs, Step G G' b dynStruct evs ∧ DynAt G'.F G'.φ b t' ∧ DynEvs G G' t t' evs := by
  unfold hashdynGrowStep bhashdynGrowStep
  refine sim_fget ht.count fun _ => sim_fget ht.max fun _ => ?_
  refine Sim.ite Iff.rfl (fun h => sim_fget ht.bit fun _ => ?_) fun _ => Sim.pure ⟨[], Step.refl .., ht, .inl ⟨rfl, rfl, rfl⟩⟩
  by_cases hb : t.bucketBit + 1 < sizeBit
  · rw [Nat.mod_eq_of_lt (by arch)]
    refine (sim_dynResize ht hN (by omega) (hm h)).mono ?_
    rintro t' _ G' ⟨evs, h1, h2, h3⟩
    exact ⟨evs, h1, h2, .inr h3⟩
  · exact Sim.none fun m => resize_none hb m

theorem sim_dynShrinkStep {b : Nat} {t : Hashdyn} (ht : DynAt G.F G.φ b t) (hN : t.bucket.vec < G.N)
    (hm : t.count ≤ t.bucketMax / 8 ∧ t.bucketBit > hashdynBIT → MallocOk G (sizeT (2 ^ (t.bucketBit - 1) * ptrSize))) :
    Sim G (hashdynShrinkStep t) (bhashdynShrinkStep b) fun t' _ G' => ∃ evs, Step G G' b dynStruct evs ∧ DynAt G'.F G'.φ b t' ∧ DynEvs G G' t t' evs := by
  unfold hashdynShrinkStep bhashdynShrinkStep
  refine sim_fget ht.count fun _ => sim_fget ht.max fun _ => ?_
  have hno : Sim G (Pure.pure t : MM Hashdyn) (Pure.pure () : BM Unit) fun t' _ G' =>
    ∃ evs, Step G G' b dynStruct evs ∧ DynAt G'.F G'.φ b t' ∧ DynEvs G G' t t' evs := Sim.pure ⟨[], Step.refl .., ht, .inl ⟨rfl, rfl, rfl⟩⟩
  by_cases h1 : t.count ≤ t.bucketMax / 8
  · rw [if_pos h1]
    refine sim_fget ht.bit fun _ => ?_
    by_cases h2 : t.bucketBit > hashdynBIT
    · rw [if_pos ⟨h1, h2⟩, if_pos (show t.bucketBit > dynBIT from h2)]
      refine sim_fget ht.bit fun hlt => ?_
      have : 4 < t.bucketBit := h2
      have e : (t.bucketBit + 2 ^ 32 - 1) % 2 ^ 32 = t.bucketBit - 1 := by
        rw [show t.bucketBit + 2 ^ 32 - 1 = t.bucketBit - 1 + 2 ^ 32 by omega, Nat.add_mod_right]
        exact Nat.mod_eq_of_lt (by omega)
      rw [e]
      refine (sim_dynResize ht hN (by omega) (hm ⟨h1, h2⟩)).mono ?_
      rintro t' _ G' ⟨evs, h1, h2, h3⟩
      exact ⟨evs, h1, h2, .inr h3⟩
    · rw [if_neg fun h => h2 h.2, if_neg (show ¬ t.bucketBit > dynBIT from h2)]
      exact hno
  · rw [if_neg fun h => h1 h.1, if_neg h1]
    exact hno

/-- Changes to the numbers before a step. -/
theorem DynEvs.set {G' : Gh} {t t1 t' : Hashdyn} {x n v : Nat} {evs : List BEvent} (h : DynEvs (G.set x n v) G' t1 t' evs) (h1 : t1.bucketMax = t.bucketMax)
    (h2 : t1.bucketBit = t.bucketBit) (h3 : t1.bucket = t.bucket) : DynEvs G G' t t' evs := by
  rcases h with ⟨a, b, c⟩ | ⟨a, b, c⟩
  · exact .inl ⟨a.trans h1, b.trans h3, c⟩
  · exact .inr ⟨a, by rw [← h2]; exact b, by rw [← h3]; exact c⟩

theorem sim_dynInsert {b : Nat} {t : Hashdyn} (ht : DynAt G.F G.φ b t) (hN : t.bucket.vec < G.N) {node data hash : Nat} (hn : node < 2 ^ sizeBit)
    (hd : data < 2 ^ sizeBit) (hh : hash < 2 ^ sizeBit)
    (hm : sizeT (t.count + 1) ≥ t.bucketMax / 2 → MallocOk G (sizeT (2 ^ (t.bucketBit + 1) * ptrSize))) :
    Sim G (hashdynInsert t node data hash) (bhashdynInsert b node data hash) fun t' _ G' =>
      ∃ evs, Step G G' b dynStruct evs ∧ DynAt G'.F G'.φ b t' ∧ DynEvs G G' t t' evs := by
  unfold hashdynInsert bhashdynInsert
  refine sim_fget ht.mask fun _ => sim_fget ht.bucket fun _ => ?_
  rw [padd_aR]
  refine SimE.bind (sim_insertTail _ hn hd) fun _ _ _ => ?_
  refine SimE.bind (sim_setIndex node hh) fun _ _ _ => ?_
  refine sim_fget ht.count fun _ => ?_
  refine sim_fset ht.dom.count (pow4 (sizeT_lt _)) ?_
  refine (sim_dynGrowStep (G := G.set (b + dynCount) ptrSize (sizeT (t.count + 1))) (t := { t with count := sizeT (t.count + 1) }) (ht.setCount _) hN hm).mono ?_
  rintro t' _ G' ⟨evs, h1, h2, h3⟩
  refine ⟨evs, ?_, h2, h3.set rfl rfl rfl⟩
  have s1 := (Step.refl G b dynStruct).set (x := b + dynCount) (k := ptrSize) (v := sizeT (t.count + 1)) ht.dom.count (by omega) (by offs)
  exact s1.trans h1

/-- The last part of a remove. -/
theorem sim_dynRemoved {b : Nat} {t : Hashdyn} (ht : DynAt G.F G.φ b t) (hN : t.bucket.vec < G.N) (r : Ref) (node : Nat)
    (hm : decT t.count ≤ t.bucketMax / 8 ∧ t.bucketBit > hashdynBIT → MallocOk G (sizeT (2 ^ (t.bucketBit - 1) * ptrSize))) :
    Sim G (do
        cellRemoveExisting r node
        let t' ← hashdynShrinkStep { t with count := decT t.count }
        let d ← onNodes (getData node)
        return (t', d) : MM (Hashdyn × Nat)) (do
        let _ ← blistRemoveExisting (aR G.φ r) node
        let count ← bget (b + dynCount)
        bset (b + dynCount) (decT count)
        bhashdynShrinkStep b
        bget (node + nodData) : BM Nat) fun x d G' =>
      ∃ evs, Step G G' b dynStruct evs ∧ DynAt G'.F G'.φ b x.1 ∧ DynEvs G G' t x.1 evs ∧ d = x.2 := by
  refine SimE.bind (sim_removeExisting _ node) fun _ _ _ => ?_
  refine sim_fget ht.count fun hc => ?_
  refine sim_fset ht.dom.count (pow4 (decT_lt (Nat.le_of_lt (lt4 hc)))) ?_
  refine Sim.bind (sim_dynShrinkStep (t := { t with count := decT t.count }) (ht.setCount _) hN hm) ?_
  rintro t' _ G' ⟨evs, h1, h2, h3⟩
  have s1 := (Step.refl G b dynStruct).set (x := b + dynCount) (k := ptrSize) (v := decT t.count) ht.dom.count (by omega) (by offs)
  refine (SimE.bind (g := fun d => Pure.pure d) (sim_getData node) ?_).mono' ?_
  · rintro d _ ⟨rfl, _⟩
    exact Sim.pure ⟨evs, s1.trans h1, h2, h3.set rfl rfl rfl, rfl⟩
  · rw [bind_pure]

theorem sim_dynRemoveExisting {b : Nat} {t : Hashdyn} (ht : DynAt G.F G.φ b t) (hN : t.bucket.vec < G.N) (node : Nat)
    (hm : decT t.count ≤ t.bucketMax / 8 ∧ t.bucketBit > hashdynBIT → MallocOk G (sizeT (2 ^ (t.bucketBit - 1) * ptrSize))) :
    Sim G (hashdynRemoveExisting t node) (bhashdynRemoveExisting b node) fun x d G' =>
      ∃ evs, Step G G' b dynStruct evs ∧ DynAt G'.F G'.φ b x.1 ∧ DynEvs G G' t x.1 evs ∧ d = x.2 := by
  unfold hashdynRemoveExisting bhashdynRemoveExisting
  refine SimE.bind (sim_getIndex node) ?_
  rintro idx _ ⟨rfl, _⟩
  refine sim_fget ht.mask fun _ => sim_fget ht.bucket fun _ => ?_
  rw [padd_aR]
  exact sim_dynRemoved ht hN _ node hm

theorem sim_dynRemove {b : Nat} {t : Hashdyn} (ht : DynAt G.F G.φ b t) (hN : t.bucket.vec < G.N) (cmp : Nat → Int) (hash : Nat)
    (hm : decT t.count ≤ t.bucketMax / 8 ∧ t.bucketBit > hashdynBIT → MallocOk G (sizeT (2 ^ (t.bucketBit - 1) * ptrSize))) :
    Sim G (hashdynRemove t cmp hash) (bhashdynRemove b cmp hash) fun x d G' =>
      ∃ evs, Step G G' b dynStruct evs ∧ DynAt G'.F G'.φ b x.1 ∧ DynEvs G G' t x.1 evs ∧ d = x.2 := by
  unfold hashdynRemove bhashdynRemove
  refine sim_fget ht.mask fun _ => sim_fget ht.bucket fun _ => ?_
  rw [padd_aR]
  refine SimE.bind (sim_readRef _) ?_
  rintro head _ ⟨rfl, _⟩
  refine SimE.bind (sim_findLoop cmp hash head) ?_
  rintro node _ rfl
  refine Sim.ite Iff.rfl (fun _ => ?_) fun _ => Sim.pure ⟨[], Step.refl .., ht, .inl ⟨rfl, rfl, rfl⟩, rfl⟩
  refine sim_fget ht.bucket fun _ => ?_
  rw [padd_aR]
  exact sim_dynRemoved ht hN _ node hm

/-- A remove which does not find the element. -/
theorem sim_dynRemoveMiss {b : Nat} {t : Hashdyn} (ht : DynAt G.F G.φ b t) (cmp : Nat → Int) (hash : Nat) :
    Sim G (do
        let head ← readRef (t.bucket.add (hash &&& t.bucketMask : Nat))
        let node ← onNodes (hashFindLoop cmp hash head)
        if node ≠ 0 then (fun _ => none) else return (t, 0) : MM (Hashdyn × Nat)) (bhashdynRemove b cmp hash) fun x d G' =>
      ∃ evs, Step G G' b dynStruct evs ∧ DynAt G'.F G'.φ b x.1 ∧ DynEvs G G' t x.1 evs ∧ d = x.2 := by
  unfold bhashdynRemove
  refine sim_fget ht.mask fun _ => sim_fget ht.bucket fun _ => ?_
  rw [padd_aR]
  refine SimE.bind (sim_readRef _) ?_
  rintro head _ ⟨rfl, _⟩
  refine SimE.bind (sim_findLoop cmp hash head) ?_
  rintro node _ rfl
  exact Sim.ite Iff.rfl (fun _ => Sim.none fun _ => rfl) fun _ => Sim.pure ⟨[], Step.refl .., ht, .inl ⟨rfl, rfl, rfl⟩, rfl⟩

theorem sim_dynBucket {b : Nat} {t : Hashdyn} (ht : DynAt G.F G.φ b t) (hash : Nat) :
    SimE G (hashdynBucket t hash) (bhashdynBucket b hash) Eqn := by
  unfold hashdynBucket bhashdynBucket
  refine sim_fget ht.bucket fun _ => sim_fget ht.mask fun _ => ?_
  rw [padd_aR]
  exact sim_readRef _

theorem sim_dynSearch {b : Nat} {t : Hashdyn} (ht : DynAt G.F G.φ b t) (cmp : Nat → Int) (hash : Nat) :
    SimE G (hashdynSearch t cmp hash) (bhashdynSearch b cmp hash) fun a c => a = c := by
  unfold hashdynSearch bhashdynSearch
  refine SimE.bind (sim_dynBucket ht hash) ?_
  rintro i _ ⟨rfl, _⟩
  exact sim_searchLoop cmp hash i

theorem sim_dynCount {b : Nat} {t : Hashdyn} (ht : DynAt G.F G.φ b t) :
    SimE G (Pure.pure (hashdynCount t)) (bhashdynCount b) fun a c => a = c := sim_fget_last ht.count fun _ => ⟨rfl, rfl⟩

theorem sim_dynUsage {b : Nat} {t : Hashdyn} (ht : DynAt G.F G.φ b t) :
    SimE G (Pure.pure (hashdynMemoryUsage t)) (bhashdynMemoryUsage b) fun a c => a = c := by
  unfold bhashdynMemoryUsage bhashdynCount
  exact sim_fget ht.max fun _ => sim_fget ht.count fun _ => Sim.pure ⟨rfl, rfl⟩

end HashFlat
end Tommy
