import Verif.Proof.HashFlatList
import Verif.Model.Hashtable
/-! The functions of tommy_hashtable and tommy_hashdyn on the bytes. -/
set_option linter.unusedSimpArgs false
set_option linter.unusedVariables false
namespace Tommy

variable [Arch]
namespace HashFlat

variable {α β : Type} {G : Gh}

/-- The numbers change only in the `n` bytes from `b`. -/
structure Chg (F F' : Fld) (b n : Nat) : Prop where
  dom : ∀ x k, F' x k = none ↔ F x k = none
  out : ∀ x k, (x < b ∨ b + n ≤ x) → F' x k = F x k

omit [Arch] in
theorem Chg.refl (F : Fld) (b n : Nat) : Chg F F b n := ⟨fun _ _ => Iff.rfl, fun _ _ _ => rfl⟩

omit [Arch] in
theorem Chg.trans {F F' F'' : Fld} {b n : Nat} (h : Chg F F' b n) (h' : Chg F' F'' b n) : Chg F F'' b n :=
  ⟨fun x k => (h'.dom x k).trans (h.dom x k), fun x k hx => (h'.out x k hx).trans (h.out x k hx)⟩

omit [Arch] in
theorem Chg.set {F F' : Fld} {b n x k v : Nat} (h : Chg F F' b n) (hF : F' x k ≠ none) (h1 : b ≤ x) (h2 : x < b + n) :
    Chg F (F'.set x k v) b n :=
  ⟨fun x' k' => (Fld.set_dom hF x' k').trans (h.dom x' k'), fun x' k' hx => by
    rw [Fld.set_ne (.inl (by omega))]; exact h.out x' k' hx⟩

/-- The regions after some calls of malloc() and free(). -/
def runEvs (live : Nat → Option Nat) : List BEvent → Nat → Option Nat
  | [] => live
  | .got p n :: es => runEvs (upd live p (some n)) es
  | .gave p :: es => runEvs (upd live p none) es

/-- The answers of malloc() used. -/
def gots : List BEvent → Nat
  | [] => 0
  | .got _ _ :: es => gots es + 1
  | .gave _ :: es => gots es

omit [Arch] in
theorem runEvs_append (live : Nat → Option Nat) (es es' : List BEvent) : runEvs live (es ++ es') = runEvs (runEvs live es) es' := by
  induction es generalizing live with
  | nil => rfl
  | cons e es ih => cases e <;> exact ih _

omit [Arch] in
theorem gots_append (es es' : List BEvent) : gots (es ++ es') = gots es + gots es' := by
  induction es with
  | nil => simp [gots]
  | cons e es ih => cases e <;> simp [gots, ih]; omega

/-- What a function does to the memory: the struct is in the `n` bytes from `b`. -/
structure Step (G G' : Gh) (b n : Nat) (evs : List BEvent) : Prop where
  env : G'.env = G.env
  N : G.N ≤ G'.N
  chg : Chg G.F G'.F b n
  φ : ∀ v, v < G.N → G'.φ v = G.φ v
  log : G'.log = G.log ++ evs
  live : G'.live = runEvs G.live evs
  ms : G'.ms = G.ms.drop (gots evs)

omit [Arch] in
theorem Step.refl (G : Gh) (b n : Nat) : Step G G b n [] := ⟨rfl, Nat.le_refl _, .refl .., fun _ _ => rfl, by simp, rfl, rfl⟩

omit [Arch] in
theorem Step.trans {G G' G'' : Gh} {b n : Nat} {evs evs' : List BEvent} (h : Step G G' b n evs) (h' : Step G' G'' b n evs') :
    Step G G'' b n (evs ++ evs') where
  env := h'.env.trans h.env
  N := h.N.trans h'.N
  chg := h.chg.trans h'.chg
  φ v hv := (h'.φ v (Nat.lt_of_lt_of_le hv h.N)).trans (h.φ v hv)
  log := by rw [h'.log, h.log, List.append_assoc]
  live := by rw [h'.live, h.live, runEvs_append]
  ms := by rw [h'.ms, h.ms, List.drop_drop, gots_append]

omit [Arch] in
theorem Step.set {G G' : Gh} {b n x k v : Nat} {evs : List BEvent} (h : Step G G' b n evs) (hF : G'.F x k ≠ none) (h1 : b ≤ x) (h2 : x < b + n) :
    Step G (G'.set x k v) b n evs :=
  { h with chg := h.chg.set hF h1 h2 }

omit [Arch] in
theorem Step.got {G G' : Gh} {b k v p n : Nat} {evs : List BEvent} (h : Step G G' b k evs) (hv : G'.N ≤ v) :
    Step G (G'.got v p n) b k (evs ++ [.got p n]) :=
  h.trans ⟨rfl, by simp only [Gh.got]; omega, .refl .., fun x hx => upd_ne (by omega), rfl, rfl, rfl⟩

omit [Arch] in
theorem Step.gave {G G' : Gh} {b k p : Nat} {evs : List BEvent} (h : Step G G' b k evs) :
    Step G (G'.gave p) b k (evs ++ [.gave p]) :=
  h.trans ⟨rfl, Nat.le_refl _, .refl .., fun x hx => rfl, rfl, rfl, rfl⟩

theorem aR_congr {φ φ' : Nat → Nat} {r : Ref} (h : φ' r.vec = φ r.vec) : aR φ' r = aR φ r := by unfold aR; rw [h]

theorem aR_lt (φ : Nat → Nat) (r : Ref) : aR φ r < 2 ^ sizeBit := by
  unfold aR
  have hp : (0 : Int) < 2 ^ sizeBit := by positivity
  have h0 := Int.emod_nonneg ((φ r.vec : Int) + ptrSize * r.off) (ne_of_gt hp)
  have h1 := Int.emod_lt_of_pos ((φ r.vec : Int) + ptrSize * r.off) hp
  have : (((((φ r.vec : Int) + ptrSize * r.off) % 2 ^ sizeBit).toNat : Nat) : Int) < ((2 ^ sizeBit : Nat) : Int) := by
    rw [Int.toNat_of_nonneg h0]; push_cast; exact h1
  exact_mod_cast this

/-- malloc() is going to return `n` usable bytes. -/
def MallocOk (G : Gh) (n : Nat) : Prop := ∃ b c ms, G.ms = (b, c) :: ms ∧ (∀ x, c x < 256) ∧ Fresh G.live b n

theorem pow4 {v : Nat} (h : v < 2 ^ sizeBit) : v < 2 ^ (8 * ptrSize) := by rw [pow_size]; exact h

theorem sizeT_lt (n : Nat) : sizeT n < 2 ^ sizeBit := Nat.mod_lt _ (by positivity)

theorem decT_lt {n : Nat} (h : n ≤ 2 ^ sizeBit) : decT n < 2 ^ sizeBit := by
  have : 0 < 2 ^ sizeBit := by positivity
  unfold decT; split <;> omega

theorem lt4 {v : Nat} (h : v < 2 ^ (8 * ptrSize)) : v < 2 ^ sizeBit := by rw [← pow_size]; exact h

theorem bytes_mul (n : Nat) : sizeT (n * ptrSize) = ptrSize * (sizeT (n * ptrSize) / ptrSize) := by
  unfold sizeT; arch

/-- The offsets of the fields. -/
macro "offs" : tactic => `(tactic| (simp only [tblBucket, tblMax, tblMask, tblCount, tblSize, dynBucket, dynMax, dynMask, dynCount, dynBit,
  dynStruct, linMax, linMask, linLowMax, linLowMask, linSplit, linCount, linBit, linState, linStruct]; arch))

/-- The value of a field after some writes to the fields. -/
syntax "flds " term : tactic
syntax "flds' " term : tactic
macro_rules
  | `(tactic| flds $h) => `(tactic| ((try simp only [Gh.set_F, Gh.got_F, Gh.gave_F]); flds' $h))
  | `(tactic| flds' $h) => `(tactic| first | exact Fld.set_same .. | exact $h | (rw [Fld.set_ne (.inl (by offs))]; flds' $h))

/-- The same, when it is only known that the field exists. -/
syntax "fldd " term : tactic
syntax "fldd' " term : tactic
macro_rules
  | `(tactic| fldd $h) => `(tactic| ((try simp only [Gh.set_F, Gh.got_F, Gh.gave_F]); fldd' $h))
  | `(tactic| fldd' $h) => `(tactic| first | (rw [Fld.set_same]; simp; done) | exact $h | (rw [Fld.set_ne (.inl (by offs))]; fldd' $h))

/-! ### tommy_hashtable -/

/-- The struct at the address `b`. -/
structure TblAt (F : Fld) (φ : Nat → Nat) (b : Nat) (t : Hashtable) : Prop where
  bucket : F (b + tblBucket) ptrSize = some (some (aR φ t.bucket))
  max : F (b + tblMax) ptrSize = some (some t.bucketMax)
  mask : F (b + tblMask) ptrSize = some (some t.bucketMask)
  count : F (b + tblCount) ptrSize = some (some t.count)

theorem TblAt.setCount {F : Fld} {φ : Nat → Nat} {b : Nat} {t : Hashtable} (h : TblAt F φ b t) (c : Nat) :
    TblAt (F.set (b + tblCount) ptrSize c) φ b { t with count := c } where
  bucket := by flds h.bucket
  max := by flds h.max
  mask := by flds h.mask
  count := by flds h.count

/-- The bytes of the struct. -/
structure TblDom (F : Fld) (b : Nat) : Prop where
  bucket : F (b + tblBucket) ptrSize ≠ none
  max : F (b + tblMax) ptrSize ≠ none
  mask : F (b + tblMask) ptrSize ≠ none
  count : F (b + tblCount) ptrSize ≠ none

theorem TblAt.dom {F : Fld} {φ : Nat → Nat} {b : Nat} {t : Hashtable} (h : TblAt F φ b t) : TblDom F b :=
  ⟨by rw [h.bucket]; simp, by rw [h.max]; simp, by rw [h.mask]; simp, by rw [h.count]; simp⟩

theorem sim_tblInit {b n : Nat} (hd : TblDom G.F b) (hn : (if n < 16 then 16 else roundupPow2 n) < 2 ^ sizeBit) {nb : Nat} {c : Nat → Nat}
    {ms : List (Nat × (Nat → Nat))} (hms : G.ms = (nb, c) :: ms) (hc : ∀ x, c x < 256)
    (hf : Fresh G.live nb (sizeT ((if n < 16 then 16 else roundupPow2 n) * ptrSize))) :
    Sim G (hashtableInit n) (bhashtableInit b n) fun t' _ G' =>
      Step G G' b tblSize [.got nb (sizeT (t'.bucketMax * ptrSize))] ∧ TblAt G'.F G'.φ b t' ∧ t'.bucketMax = (if n < 16 then 16 else roundupPow2 n) ∧
      G'.φ t'.bucket.vec = nb := by
  unfold hashtableInit bhashtableInit
  simp only []
  generalize (if n < 16 then 16 else roundupPow2 n) = max at *
  refine sim_fset hd.max (pow4 hn) ?_
  refine sim_fget (c := max) (by flds hd.max) fun _ => ?_
  refine sim_fset (by fldd hd.mask) (pow4 (decT_lt (by omega))) ?_
  refine sim_fget (c := max) (by flds hd.max) fun _ => ?_
  refine Sim.bind (sim_malloc (bytes_mul _) hms hc hf) ?_
  rintro r p G' ⟨rfl, v, hv, rfl, rfl⟩
  have hp : p < 2 ^ sizeBit := by have := hf.lt; omega
  have ha : aR (upd G.φ v p) ⟨v, 0⟩ = p := aR_base (upd_same ..) hp
  refine sim_fset (by fldd hd.bucket) (pow4 hp) ?_
  refine sim_fget (c := p) (by flds hd.bucket) fun _ => ?_
  refine sim_fget (c := max) (by flds hd.max) fun _ => ?_
  have hz := sim_vzero (G := ((G.set (b + tblMax) ptrSize max).set (b + tblMask) ptrSize (decT max)).got v p (sizeT (max * ptrSize)) |>.set
    (b + tblBucket) ptrSize p) (r := ⟨v, 0⟩) (bytes_mul max)
  simp only [Gh.set_φ, Gh.got_φ, ha] at hz
  refine SimE.bind hz fun _ _ _ => ?_
  refine sim_fset_last (by fldd hd.count) (pow4 (by positivity)) ⟨?_, ?_, rfl, upd_same ..⟩
  · have s1 := (Step.refl G b tblSize).set (x := b + tblMax) (k := ptrSize) (v := max) hd.max (by omega) (by offs)
    have s2 := s1.set (x := b + tblMask) (k := ptrSize) (v := decT max) (by fldd hd.mask) (by omega) (by offs)
    have s3 := (s2.got (p := p) (n := sizeT (max * ptrSize)) hv).set (x := b + tblBucket) (k := ptrSize) (v := p) (by fldd hd.bucket) (by omega) (by offs)
    exact s3.set (x := b + tblCount) (k := ptrSize) (v := 0) (by fldd hd.count) (by omega) (by offs)
  · exact ⟨by simp only [Gh.set_φ, Gh.got_φ, ha]; flds hd.bucket, by flds hd.max, by flds hd.mask, by flds hd.count⟩

theorem sim_tblDone {b : Nat} {t : Hashtable} (ht : TblAt G.F G.φ b t) :
    Sim G (hashtableDone t) (bhashtableDone b) fun _ _ G' => Step G G' b tblSize [.gave (aR G.φ t.bucket)] := by
  unfold hashtableDone bhashtableDone
  refine sim_fget ht.bucket fun _ => (sim_free _).mono ?_
  rintro _ _ _ ⟨_, _, rfl⟩
  exact (Step.refl ..).gave

theorem sim_tblInsert {b : Nat} {t : Hashtable} (ht : TblAt G.F G.φ b t) {node data hash : Nat} (hn : node < 2 ^ sizeBit)
    (hd : data < 2 ^ sizeBit) (hh : hash < 2 ^ sizeBit) :
    Sim G (hashtableInsert t node data hash) (bhashtableInsert b node data hash) fun t' _ G' =>
      Step G G' b tblSize [] ∧ TblAt G'.F G'.φ b t' ∧ t'.bucket = t.bucket ∧ t'.bucketMax = t.bucketMax := by
  unfold hashtableInsert bhashtableInsert
  refine sim_fget ht.mask fun _ => sim_fget ht.bucket fun _ => ?_
  rw [padd_aR]
  refine SimE.bind (sim_insertTail _ hn hd) fun _ _ _ => ?_
  refine SimE.bind (sim_setIndex node hh) fun _ _ _ => ?_
  refine sim_fget ht.count fun _ => ?_
  exact sim_fset_last ht.dom.count (pow4 (sizeT_lt _)) ⟨(Step.refl ..).set ht.dom.count (by omega) (by offs), ht.setCount _, rfl, rfl⟩

theorem sim_tblRemoveExisting {b : Nat} {t : Hashtable} (ht : TblAt G.F G.φ b t) (node : Nat) :
    Sim G (hashtableRemoveExisting t node) (bhashtableRemoveExisting b node) fun r d G' =>
      Step G G' b tblSize [] ∧ TblAt G'.F G'.φ b r.1 ∧ d = r.2 ∧ r.1.bucket = t.bucket ∧ r.1.bucketMax = t.bucketMax := by
  unfold hashtableRemoveExisting bhashtableRemoveExisting
  refine SimE.bind (sim_getIndex node) ?_
  rintro idx _ ⟨rfl, _⟩
  refine sim_fget ht.mask fun _ => sim_fget ht.bucket fun _ => ?_
  rw [padd_aR]
  refine SimE.bind (sim_removeExisting _ node) fun _ _ _ => ?_
  refine sim_fget ht.count fun hc => ?_
  refine sim_fset ht.dom.count (pow4 (decT_lt (Nat.le_of_lt (lt4 hc)))) ?_
  refine (SimE.bind (g := fun d => Pure.pure d) (sim_getData node) ?_).mono' ?_
  · rintro d _ ⟨rfl, _⟩
    exact Sim.pure ⟨(Step.refl ..).set ht.dom.count (by omega) (by offs), ht.setCount _, rfl, rfl, rfl⟩
  · rw [bind_pure]

theorem sim_tblRemove {b : Nat} {t : Hashtable} (ht : TblAt G.F G.φ b t) (cmp : Nat → Int) (hash : Nat) :
    Sim G (hashtableRemove t cmp hash) (bhashtableRemove b cmp hash) fun r d G' =>
      Step G G' b tblSize [] ∧ TblAt G'.F G'.φ b r.1 ∧ d = r.2 ∧ r.1.bucket = t.bucket ∧ r.1.bucketMax = t.bucketMax := by
  unfold hashtableRemove bhashtableRemove
  refine sim_fget ht.mask fun _ => sim_fget ht.bucket fun _ => ?_
  rw [padd_aR]
  refine SimE.bind (sim_readRef _) ?_
  rintro head _ ⟨rfl, _⟩
  refine SimE.bind (sim_findLoop cmp hash head) ?_
  rintro node _ rfl
  refine Sim.ite Iff.rfl (fun _ => ?_) fun _ => Sim.pure ⟨Step.refl .., ht, rfl, rfl, rfl⟩
  refine sim_fget ht.bucket fun _ => ?_
  rw [padd_aR]
  refine SimE.bind (sim_removeExisting _ node) fun _ _ _ => ?_
  refine sim_fget ht.count fun hc => ?_
  refine sim_fset ht.dom.count (pow4 (decT_lt (Nat.le_of_lt (lt4 hc)))) ?_
  refine (SimE.bind (g := fun d => Pure.pure d) (sim_getData node) ?_).mono' ?_
  · rintro d _ ⟨rfl, _⟩
    exact Sim.pure ⟨(Step.refl ..).set ht.dom.count (by omega) (by offs), ht.setCount _, rfl, rfl, rfl⟩
  · rw [bind_pure]

theorem sim_tblBucket {b : Nat} {t : Hashtable} (ht : TblAt G.F G.φ b t) (hash : Nat) :
    SimE G (hashtableBucket t hash) (bhashtableBucket b hash) Eqn := by
  unfold hashtableBucket bhashtableBucket
  refine sim_fget ht.bucket fun _ => sim_fget ht.mask fun _ => ?_
  rw [padd_aR]
  exact sim_readRef _

theorem sim_tblSearch {b : Nat} {t : Hashtable} (ht : TblAt G.F G.φ b t) (cmp : Nat → Int) (hash : Nat) :
    SimE G (hashtableSearch t cmp hash) (bhashtableSearch b cmp hash) fun a c => a = c := by
  unfold hashtableSearch bhashtableSearch
  refine SimE.bind (sim_tblBucket ht hash) ?_
  rintro i _ ⟨rfl, _⟩
  exact sim_searchLoop cmp hash i

theorem sim_tblCount {b : Nat} {t : Hashtable} (ht : TblAt G.F G.φ b t) :
    SimE G (Pure.pure (hashtableCount t)) (bhashtableCount b) fun a c => a = c := sim_fget_last ht.count fun _ => ⟨rfl, rfl⟩

theorem sim_tblUsage {b : Nat} {t : Hashtable} (ht : TblAt G.F G.φ b t) :
    SimE G (Pure.pure (hashtableMemoryUsage t)) (bhashtableMemoryUsage b) fun a c => a = c := by
  unfold bhashtableMemoryUsage bhashtableCount
  exact sim_fget ht.max fun _ => sim_fget ht.count fun _ => Sim.pure ⟨rfl, rfl⟩

end HashFlat
end Tommy
