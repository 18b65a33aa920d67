import Verif.Proof.HashFlatLin
import Verif.Proof.HashSize
import Verif.Proof.Tables
import Verif.Spec.HashFlat
/-! A call of a hashtable of any kind, on the bytes. -/
set_option linter.unusedSimpArgs false
set_option linter.unusedVariables false
namespace Tommy

variable [Arch]
namespace HashFlat
open HashSpec (Elem Impl hashtableImpl hashdynImpl hashlinImpl walkLoop walkBucket LinSize linSize dynSize)
open TablesSpec (Tbl tblImpl Good)
open HashFlatSpec (Ty Sz structSize bcall bwalkLoop owns asked total binsert bremove bremoveExisting bsearch bbucket bcount bdone binit)

variable {G : Gh}

theorem sim_walkLoop (i : Nat) (acc : List Elem) : SimE G (onNodes (walkLoop i acc)) (bwalkLoop i acc) fun a b => a = b := by
  revert i acc
  refine HashSpec.walkLoop.fixpoint_induct
    (fun f => ∀ i acc, SimE G (onNodes (f i acc)) (bwalkLoop i acc) fun a b => a = b) ?_ ?_
  · exact adm_fun (P := fun i (f : List Elem → HM (List Elem)) => ∀ acc, SimE G (onNodes (f acc)) (bwalkLoop i acc) fun a b => a = b)
      fun i => adm_fun fun acc => Sim.admN _ _ _
  · intro f ih i acc
    rw [bwalkLoop]
    simp only [onNodes_bind, onNodes_ite, onNodes_pure]
    refine Sim.ite Iff.rfl (fun _ => Sim.pure ⟨rfl, rfl⟩) fun _ => ?_
    refine SimE.bind (sim_getData i) ?_
    rintro d _ ⟨rfl, _⟩
    refine SimE.bind (sim_getIndex i) ?_
    rintro x _ ⟨rfl, _⟩
    refine SimE.bind (sim_getNext i) ?_
    rintro n _ ⟨rfl, _⟩
    exact ih n _

/-! ### The tables of all the kinds -/

def tyOf : Tbl → Ty
  | .hashtable _ => .hashtable
  | .hashdyn _ => .hashdyn
  | .hashlin _ => .hashlin

def szOf : Tbl → Sz
  | .hashtable t => .hashtable t.bucketMax
  | .hashdyn t => .hashdyn t.bucketMax
  | .hashlin t => .hashlin (linSize t)

omit [Arch] in
theorem szOf_ty (t : Tbl) : (szOf t).ty = tyOf t := by cases t <;> rfl

/-- The struct at the address `b`. -/
def TAt (F : Fld) (φ : Nat → Nat) (N b : Nat) : Tbl → Prop
  | .hashtable t => TblAt F φ b t ∧ t.bucket.vec < N
  | .hashdyn t => DynAt F φ b t ∧ t.bucket.vec < N
  | .hashlin t => LinAt F φ b t ∧ ∀ i r, t.bucket i = some r → r.vec < N

/-- A segment, and its bytes. -/
def linSeg (φ : Nat → Nat) (bk : Nat → Option Ref) (i : Nat) : Nat × Nat := (aR φ (((bk i).getD ⟨0, 0⟩).add (2 ^ i : Nat)), ptrSize * 2 ^ i)

/-- The first `k + 1` segments. -/
def linOwn (φ : Nat → Nat) (bk : Nat → Option Ref) : Nat → List (Nat × Nat)
  | 0 => [(aR φ ((bk 0).getD ⟨0, 0⟩), ptrSize * 64)]
  | k + 1 => linSeg φ bk (6 + k) :: linOwn φ bk k

/-- The memory owned by a table. -/
def ownOf (φ : Nat → Nat) : Tbl → List (Nat × Nat)
  | .hashtable t => [(aR φ t.bucket, ptrSize * t.bucketMax)]
  | .hashdyn t => [(aR φ t.bucket, ptrSize * t.bucketMax)]
  | .hashlin t => linOwn φ t.bucket (t.bucketBit - 6)

theorem linOwn_total (φ : Nat → Nat) (bk : Nat → Option Ref) (k : Nat) : total (linOwn φ bk k) = ptrSize * 2 ^ (6 + k) := by
  induction k with
  | zero => simp [linOwn, total]
  | succ k ih =>
    simp only [total, linOwn, linSeg, List.map_cons, List.sum_cons] at ih ⊢
    rw [ih, show 6 + (k + 1) = 6 + k + 1 by omega, Nat.pow_succ]
    ring

theorem linOwn_congr {φ φ' : Nat → Nat} {bk bk' : Nat → Option Ref} {k : Nat} (h0 : bk' 0 = bk 0) (h : ∀ i, 6 ≤ i → i < 6 + k → bk' i = bk i)
    (hφ : ∀ i, i < 6 + k → φ' ((bk i).getD ⟨0, 0⟩).vec = φ ((bk i).getD ⟨0, 0⟩).vec) : linOwn φ' bk' k = linOwn φ bk k := by
  induction k with
  | zero =>
    simp only [linOwn, h0]
    rw [aR_congr (hφ 0 (by omega))]
  | succ k ih =>
    simp only [linOwn]
    rw [ih (fun i h1 h2 => h i h1 (by omega)) (fun i h1 => hφ i (by omega))]
    simp only [linSeg, h (6 + k) (by omega) (by omega)]
    rw [aR_congr (show φ' (((bk (6 + k)).getD ⟨0, 0⟩).add (2 ^ (6 + k) : Nat)).vec = _ from hφ (6 + k) (by omega))]

variable {m0 m m' : Mem} {es : List Elem} {live : Ptr → Bool} {op : HashSpec.Op} {out : HashSpec.Out} {b : Nat} {W : BMem}

/-- tommy_hashtable -/
theorem tbl_call {t t' : Hashtable} (e : HashSpec.step hashtableImpl op ⟨m, t⟩ = some (out, ⟨m', t'⟩)) (hc : HashSpec.isCall op)
    (hr : GRel G m W) (ht : TblAt G.F G.φ b t)
    (hin : ∀ p d h, op = .insert p d h → p < 2 ^ sizeBit ∧ d < 2 ^ sizeBit ∧ h < 2 ^ sizeBit) :
    ∃ W' G', bcall .hashtable b op W = some (out, W') ∧ GRel G' m' W' ∧ Step G G' b tblSize [] ∧ TblAt G'.F G'.φ b t' ∧
      t'.bucket = t.bucket ∧ t'.bucketMax = t.bucketMax := by
  cases op with
  | insert p d h =>
    obtain ⟨h1, h2, h3⟩ := hin p d h rfl
    simp only [HashSpec.step, hashtableImpl, Option.map_eq_some_iff, Prod.mk.injEq, HashSpec.St.mk.injEq] at e
    obtain ⟨⟨t1, m1⟩, e1, rfl, rfl, rfl⟩ := e
    obtain ⟨_, W', G', g1, g2, g3, g4, g5, g6⟩ := sim_tblInsert ht h1 h2 h3 m W hr _ _ e1
    exact ⟨W', G', by simp only [bcall, binsert, run_bind, g1, Option.bind_some, run_pure], g2, g3, g4, g5, g6⟩
  | remove cmp h =>
    simp only [HashSpec.step, hashtableImpl, Option.map_eq_some_iff, Prod.mk.injEq, HashSpec.St.mk.injEq] at e
    obtain ⟨⟨⟨t1, d1⟩, m1⟩, e1, rfl, rfl, rfl⟩ := e
    obtain ⟨_, W', G', g1, g2, g3, g4, rfl, g5, g6⟩ := sim_tblRemove ht cmp h m W hr _ _ e1
    exact ⟨W', G', by simp only [bcall, bremove, run_bind, g1, Option.bind_some, run_pure], g2, g3, g4, g5, g6⟩
  | removeExisting p =>
    simp only [HashSpec.step, hashtableImpl, Option.map_eq_some_iff, Prod.mk.injEq, HashSpec.St.mk.injEq] at e
    obtain ⟨⟨⟨t1, d1⟩, m1⟩, e1, rfl, rfl, rfl⟩ := e
    obtain ⟨_, W', G', g1, g2, g3, g4, rfl, g5, g6⟩ := sim_tblRemoveExisting ht p m W hr _ _ e1
    exact ⟨W', G', by simp only [bcall, bremoveExisting, run_bind, g1, Option.bind_some, run_pure], g2, g3, g4, g5, g6⟩
  | search cmp h =>
    simp only [HashSpec.step, hashtableImpl, Option.map_eq_some_iff, Prod.mk.injEq, HashSpec.St.mk.injEq] at e
    obtain ⟨⟨d1, m1⟩, e1, rfl, rfl, rfl⟩ := e
    obtain ⟨_, W', G', g1, g2, rfl, rfl⟩ := sim_tblSearch ht cmp h m W hr _ _ e1
    exact ⟨W', G', by simp only [bcall, bsearch, run_bind, g1, Option.bind_some, run_pure], g2, Step.refl .., ht, rfl, rfl⟩
  | bucket h =>
    simp only [HashSpec.step, walkBucket, hashtableImpl, Option.map_eq_some_iff, Prod.mk.injEq, HashSpec.St.mk.injEq] at e
    obtain ⟨⟨d1, m1⟩, e1, rfl, rfl, rfl⟩ := e
    obtain ⟨_, W', G', g1, g2, rfl, rfl⟩ := SimE.bind (g := fun i => bwalkLoop i []) (Q' := fun (a : List Elem) c G' => G' = G ∧ a = c)
      (sim_tblBucket ht h) (fun i _ hi => by obtain ⟨rfl, _⟩ := hi; exact sim_walkLoop i []) m W hr _ _ e1
    refine ⟨W', G', ?_, g2, Step.refl .., ht, rfl, rfl⟩
    have : bcall .hashtable b (.bucket h) = ((bhashtableBucket b h >>= fun i => bwalkLoop i []) >>= fun l => Pure.pure (HashSpec.Out.elems l)) := by
      rw [bind_assoc]; rfl
    rw [this, run_bind, g1]; rfl
  | count =>
    simp only [HashSpec.step, hashtableImpl, Option.some.injEq, Prod.mk.injEq, HashSpec.St.mk.injEq] at e
    obtain ⟨rfl, rfl, rfl⟩ := e
    obtain ⟨_, W', G', g1, g2, rfl, rfl⟩ := sim_tblCount ht m W hr _ _ rfl
    exact ⟨W', G', by simp only [bcall, bcount, run_bind, g1, Option.bind_some, run_pure], g2, Step.refl .., ht, rfl, rfl⟩
  | alloc | free | scribble => exact hc.elim

/-- tommy_hashdyn -/
theorem dyn_call {t t' : Hashdyn} (i : HashSpec.Inv (HashSpec.DynInv m0) ⟨m, t⟩ ⟨es, live⟩) (hl : HashSpec.legal ⟨es, live⟩ op)
    (e : HashSpec.step hashdynImpl op ⟨m, t⟩ = some (out, ⟨m', t'⟩)) (hc : HashSpec.isCall op)
    (i' : HashSpec.Inv (HashSpec.DynInv m0) ⟨m', t'⟩ (HashSpec.next ⟨es, live⟩ op out))
    (hr : GRel G m W) (ht : DynAt G.F G.φ b t) (hN : t.bucket.vec < G.N)
    (hin : ∀ p d h, op = .insert p d h → p < 2 ^ sizeBit ∧ d < 2 ^ sizeBit ∧ h < 2 ^ sizeBit)
    (hm : t'.bucketMax ≠ t.bucketMax → MallocOk G (ptrSize * t'.bucketMax)) :
    ∃ W' G' evs, bcall .hashdyn b op W = some (out, W') ∧ GRel G' m' W' ∧ Step G G' b dynStruct evs ∧ DynAt G'.F G'.φ b t' ∧
      DynEvs G G' t t' evs := by
  have law : t'.bucketMax = dynSize t.bucketMax es.length (HashSpec.next ⟨es, live⟩ op out).elems.length := HashSpec.dyn_size_inv i hl e i'
  have len := HashSpec.length_next i hl out
  have hcount : t.count = es.length := i.p.count
  have hload : 2 * es.length < t.bucketMax := i.p.load
  have hmax : t.bucketMax = 2 ^ t.bucketBit := i.p.max
  have hmax' : t'.bucketMax = 2 ^ t'.bucketBit := i'.p.max
  have hbl : t.bucketBit ≤ bktBit := i.p.bit_lt
  have hbl' : t'.bucketBit ≤ bktBit := i'.p.bit_lt
  have hb4 : 4 ≤ t.bucketBit := i.p.bit
  have hlt : t.bucketMax ≤ 2 ^ bktBit := by rw [hmax]; exact HashSpec.pow_le60 hbl
  have hlt' : t'.bucketMax ≤ 2 ^ bktBit := by rw [hmax']; exact HashSpec.pow_le60 hbl'
  have hsz : ∀ k, k = t'.bucketMax → sizeT (k * ptrSize) = ptrSize * t'.bucketMax := by
    rintro k rfl
    unfold sizeT
    clear * - hlt'
    arch
  have hrem : (HashSpec.next ⟨es, live⟩ op out).elems.length = es.length - 1 → 0 < es.length →
      decT t.count ≤ t.bucketMax / 8 ∧ t.bucketBit > hashdynBIT → MallocOk G (sizeT (2 ^ (t.bucketBit - 1) * ptrSize)) := by
    rintro h1 h2 ⟨h3, h4⟩
    rw [h1] at law
    have h5 : 4 < t.bucketBit := h4
    have h6 : decT t.count = es.length - 1 := by unfold decT; rw [if_neg (by omega)]; omega
    have h7 : 2 ^ t.bucketBit = 2 ^ (t.bucketBit - 1) * 2 := by rw [← Nat.pow_succ]; congr 1; omega
    have h8 : 2 ^ 4 ≤ 2 ^ (t.bucketBit - 1) := Nat.pow_le_pow_right (by omega) (by omega)
    have h9 : t'.bucketMax = 2 ^ (t.bucketBit - 1) := by
      rw [law, dynSize, if_neg (by omega), if_pos (by omega)]; omega
    rw [hsz _ h9.symm]
    exact hm (by omega)
  cases op with
  | insert p d h =>
    obtain ⟨h1, h2, h3⟩ := hin p d h rfl
    simp only [HashSpec.step, hashdynImpl, Option.map_eq_some_iff, Prod.mk.injEq, HashSpec.St.mk.injEq] at e
    obtain ⟨⟨t1, m1⟩, e1, rfl, rfl, rfl⟩ := e
    obtain ⟨_, W', G', g1, g2, evs, g3, g4, g5⟩ := sim_dynInsert ht hN h1 h2 h3 (fun hge => by
      simp only at len
      rw [len] at law
      have h6 : sizeT (t.count + 1) = es.length + 1 := by
        rw [hcount]; unfold sizeT; clear * - hload hlt; arch
      have h7 : 2 ^ (t.bucketBit + 1) = 2 ^ t.bucketBit * 2 := Nat.pow_succ ..
      have h8 : 2 ^ 4 ≤ 2 ^ t.bucketBit := Nat.pow_le_pow_right (by omega) hb4
      obtain ⟨c, hc2⟩ : ∃ c, t.bucketMax = 2 * c := ⟨2 ^ (t.bucketBit - 1), by rw [hmax, ← Nat.pow_succ']; congr 1; omega⟩
      have h9 : t1.bucketMax = 2 ^ (t.bucketBit + 1) := by
        rw [h6] at hge
        rw [law, dynSize, if_pos (by clear * - hge hc2 h8 hmax; omega)]; clear * - h7 hmax; omega
      rw [hsz _ h9.symm]
      exact hm (by clear * - h9 h7 h8 hmax; simp only; omega)) m W hr _ _ e1
    exact ⟨W', G', evs, by simp only [bcall, binsert, run_bind, g1, Option.bind_some, run_pure], g2, g3, g4, g5⟩
  | remove cmp h =>
    simp only at len
    have e0 := e
    simp only [HashSpec.step, hashdynImpl, Option.map_eq_some_iff, Prod.mk.injEq, HashSpec.St.mk.injEq] at e
    obtain ⟨⟨⟨t1, d1⟩, m1⟩, e1, rfl, rfl, rfl⟩ := e
    cases hf : es.find? (HashSpec.hit cmp h) with
    | some x =>
      obtain ⟨_, W', G', g1, g2, evs, g3, g4, g5, rfl⟩ := sim_dynRemove ht hN cmp h (hrem (by rw [len, hf]; simp)
        (List.length_pos_of_mem (List.mem_of_find?_eq_some hf))) m W hr _ _ e1
      exact ⟨W', G', evs, by simp only [bcall, bremove, run_bind, g1, Option.bind_some, run_pure], g2, g3, g4, g5⟩
    | none =>
      obtain ⟨p, hp, ef⟩ := i.p.flat.findNode cmp h
      have hno : hashdynRemove t cmp h m = some ((t, 0), m) := (HashSpec.hashdyn_ok m0).remove_none (cmp := cmp) (h := h) i.p hf
      rw [hf] at ef
      have e2 : (do
          let head ← readRef (t.bucket.add (h &&& t.bucketMask : Nat))
          let node ← onNodes (hashFindLoop cmp h head)
          if node ≠ 0 then (fun _ => none) else return (t, 0) : MM (Hashdyn × Nat)) m = some ((t, 0), m) := by
        simp only [i.p.and_mask]
        rw [run_bind, readRef_run hp, Option.bind_some, run_bind, ef, Option.bind_some]
        simp
      obtain ⟨_, W', G', g1, g2, evs, g3, g4, g5, rfl⟩ := sim_dynRemoveMiss ht cmp h m W hr _ _ e2
      rw [hno] at e1
      simp only [Option.some.injEq, Prod.mk.injEq] at e1
      obtain ⟨⟨rfl, rfl⟩, rfl⟩ := e1
      exact ⟨W', G', evs, by simp only [bcall, bremove, run_bind, g1, Option.bind_some, run_pure], g2, g3, g4, g5⟩
  | removeExisting p =>
    simp only [HashSpec.step, hashdynImpl, Option.map_eq_some_iff, Prod.mk.injEq, HashSpec.St.mk.injEq] at e
    obtain ⟨⟨⟨t1, d1⟩, m1⟩, e1, rfl, rfl, rfl⟩ := e
    obtain ⟨_, W', G', g1, g2, evs, g3, g4, g5, rfl⟩ := sim_dynRemoveExisting ht hN p (hrem len (by
      obtain ⟨x, hx, _⟩ := List.mem_map.1 hl
      exact List.length_pos_of_mem hx)) m W hr _ _ e1
    exact ⟨W', G', evs, by simp only [bcall, bremoveExisting, run_bind, g1, Option.bind_some, run_pure], g2, g3, g4, g5⟩
  | search cmp h =>
    simp only [HashSpec.step, hashdynImpl, Option.map_eq_some_iff, Prod.mk.injEq, HashSpec.St.mk.injEq] at e
    obtain ⟨⟨d1, m1⟩, e1, rfl, rfl, rfl⟩ := e
    obtain ⟨_, W', G', g1, g2, rfl, rfl⟩ := sim_dynSearch ht cmp h m W hr _ _ e1
    exact ⟨W', G', [], by simp only [bcall, bsearch, run_bind, g1, Option.bind_some, run_pure], g2, Step.refl .., ht, .inl ⟨rfl, rfl, rfl⟩⟩
  | bucket h =>
    simp only [HashSpec.step, walkBucket, hashdynImpl, Option.map_eq_some_iff, Prod.mk.injEq, HashSpec.St.mk.injEq] at e
    obtain ⟨⟨d1, m1⟩, e1, rfl, rfl, rfl⟩ := e
    obtain ⟨_, W', G', g1, g2, rfl, rfl⟩ := SimE.bind (g := fun i => bwalkLoop i []) (Q' := fun (a : List Elem) c G' => G' = G ∧ a = c)
      (sim_dynBucket ht h) (fun i _ hi => by obtain ⟨rfl, _⟩ := hi; exact sim_walkLoop i []) m W hr _ _ e1
    refine ⟨W', G', [], ?_, g2, Step.refl .., ht, .inl ⟨rfl, rfl, rfl⟩⟩
    have : bcall .hashdyn b (.bucket h) = ((bhashdynBucket b h >>= fun i => bwalkLoop i []) >>= fun l => Pure.pure (HashSpec.Out.elems l)) := by
      rw [bind_assoc]; rfl
    rw [this, run_bind, g1]; rfl
  | count =>
    simp only [HashSpec.step, hashdynImpl, Option.some.injEq, Prod.mk.injEq, HashSpec.St.mk.injEq] at e
    obtain ⟨rfl, rfl, rfl⟩ := e
    obtain ⟨_, W', G', g1, g2, rfl, rfl⟩ := sim_dynCount ht m W hr _ _ rfl
    exact ⟨W', G', [], by simp only [bcall, bcount, run_bind, g1, Option.bind_some, run_pure], g2, Step.refl .., ht, .inl ⟨rfl, rfl, rfl⟩⟩
  | alloc | free | scribble => exact hc.elim

/-- The vectors after a call. -/
def LinEvs (G G' : Gh) (t t' : Hashlin) (evs : List BEvent) : Prop :=
  (G'.φ = G.φ ∧ LinSame t t' ∧ evs = []) ∨ LinGrew G G' t t' evs ∨ (G'.φ = G.φ ∧ LinShrank G G' t t' evs)

/-- tommy_hashlin -/
theorem lin_call {t t' : Hashlin} (i : HashSpec.Inv (HashSpec.LinInv m0) ⟨m, t⟩ ⟨es, live⟩) (hl : HashSpec.legal ⟨es, live⟩ op)
    (e : HashSpec.step hashlinImpl op ⟨m, t⟩ = some (out, ⟨m', t'⟩)) (hc : HashSpec.isCall op)
    (i' : HashSpec.Inv (HashSpec.LinInv m0) ⟨m', t'⟩ (HashSpec.next ⟨es, live⟩ op out))
    (hr : GRel G m W) (ht : LinAt G.F G.φ b t) (hN : ∀ i r, t.bucket i = some r → r.vec < G.N)
    (hin : ∀ p d h, op = .insert p d h → p < 2 ^ sizeBit ∧ d < 2 ^ sizeBit ∧ h < 2 ^ sizeBit)
    (hm : t.bucketMax < t'.bucketMax → MallocOk G (ptrSize * (t'.bucketMax - t.bucketMax))) :
    ∃ W' G' evs, bcall .hashlin b op W = some (out, W') ∧ GRel G' m' W' ∧ LinS G G' b t' evs ∧ LinEvs G G' t t' evs := by
  have law : linSize t' = (linSize t).next es.length (HashSpec.next ⟨es, live⟩ op out).elems.length := HashSpec.lin_size_inv i hl e i'
  have len := HashSpec.length_next_lin i hl out
  have hcount : t.count = es.length := i.p.count
  have hmax : t.bucketMax = 2 ^ t.bucketBit := i.p.max
  have hbl : t.bucketBit ≤ bktBit := i.p.bit_le
  have hb6 : 6 ≤ t.bucketBit := i.p.bit
  have hlt : t.bucketMax ≤ 2 ^ bktBit := by rw [hmax]; exact HashSpec.pow_le60 hbl
  have hlen : es.length < 2 ^ (bktBit - 1) := by have := i.length_le (HashSpec.hashlin_ok m0); simpa using this
  have s0 : LinS G G b t [] := LinS.start ht hN
  cases op with
  | insert p d h =>
    obtain ⟨h1, h2, h3⟩ := hin p d h rfl
    simp only [HashSpec.step, hashlinImpl, Option.map_eq_some_iff, Prod.mk.injEq, HashSpec.St.mk.injEq] at e
    obtain ⟨⟨t1, m1⟩, e1, rfl, rfl, rfl⟩ := e
    obtain ⟨_, W', G', g1, g2, evs, g3, g4⟩ := sim_linInsert s0 h1 h2 h3 (fun ⟨hst, hgt⟩ => by
      simp only at len
      rw [len] at law
      have h6 : sizeT (t.count + 1) = es.length + 1 := by
        rw [hcount]; unfold sizeT; clear * - hlen; arch
      have h8 : 2 ^ 6 ≤ 2 ^ t.bucketBit := Nat.pow_le_pow_right (by omega) hb6
      obtain ⟨c, hc2⟩ : ∃ c, t.bucketMax = 2 * c := ⟨2 ^ (t.bucketBit - 1), by rw [hmax, ← Nat.pow_succ']; congr 1; omega⟩
      have h9 : t1.bucketMax = 2 * t.bucketMax := by
        have : (linSize t1).size = 2 * t.bucketMax := by
          have hz : linSize t = ⟨t.bucketMax, t.lowMax + t.split, .stable⟩ := by rw [← hst]; rfl
          have hg2 : t.bucketMax < 2 * (es.length + 1) := by rw [h6] at hgt; clear * - hgt hc2; omega
          rw [law, hz]
          simp [LinSize.next, LinSize.grow, hg2]
          split_ifs <;> rfl
        exact this
      have h10 : sizeT (t.bucketMax * ptrSize) = ptrSize * (t1.bucketMax - t.bucketMax) := by
        rw [h9, show 2 * t.bucketMax - t.bucketMax = t.bucketMax by omega]
        unfold sizeT; clear * - hlt; arch
      rw [h10]
      exact hm (by clear * - h9 h8 hmax; simp only; omega)) m W hr _ _ e1
    refine ⟨W', G', evs, by simp only [bcall, binsert, run_bind, g1, Option.bind_some, run_pure], g2, g3, ?_⟩
    rcases g4 with ⟨a, b, c⟩ | h
    · exact .inl ⟨b, a, c⟩
    · exact .inr (.inl h)
  | remove cmp h =>
    simp only [HashSpec.step, hashlinImpl, Option.map_eq_some_iff, Prod.mk.injEq, HashSpec.St.mk.injEq] at e
    obtain ⟨⟨⟨t1, d1⟩, m1⟩, e1, rfl, rfl, rfl⟩ := e
    obtain ⟨_, W', G', g1, g2, evs, g3, g4, rfl⟩ := sim_linRemove s0 (by omega) cmp h m W hr _ _ e1
    refine ⟨W', G', evs, by simp only [bcall, bremove, run_bind, g1, Option.bind_some, run_pure], g2, g3, ?_⟩
    rcases g4 with ⟨a, ⟨b, c⟩ | b⟩
    · exact .inl ⟨a, b, c⟩
    · exact .inr (.inr ⟨a, b⟩)
  | removeExisting p =>
    simp only [HashSpec.step, hashlinImpl, Option.map_eq_some_iff, Prod.mk.injEq, HashSpec.St.mk.injEq] at e
    obtain ⟨⟨⟨t1, d1⟩, m1⟩, e1, rfl, rfl, rfl⟩ := e
    obtain ⟨_, W', G', g1, g2, evs, g3, g4, rfl⟩ := sim_linRemoveExisting s0 (by omega) p m W hr _ _ e1
    refine ⟨W', G', evs, by simp only [bcall, bremoveExisting, run_bind, g1, Option.bind_some, run_pure], g2, g3, ?_⟩
    rcases g4 with ⟨a, ⟨b, c⟩ | b⟩
    · exact .inl ⟨a, b, c⟩
    · exact .inr (.inr ⟨a, b⟩)
  | search cmp h =>
    simp only [HashSpec.step, hashlinImpl, Option.map_eq_some_iff, Prod.mk.injEq, HashSpec.St.mk.injEq] at e
    obtain ⟨⟨d1, m1⟩, e1, rfl, rfl, rfl⟩ := e
    obtain ⟨_, W', G', g1, g2, rfl, rfl⟩ := sim_linSearch s0 cmp h m W hr _ _ e1
    exact ⟨W', G', [], by simp only [bcall, bsearch, run_bind, g1, Option.bind_some, run_pure], g2, s0, .inl ⟨rfl, ⟨rfl, rfl⟩, rfl⟩⟩
  | bucket h =>
    simp only [HashSpec.step, walkBucket, hashlinImpl, Option.map_eq_some_iff, Prod.mk.injEq, HashSpec.St.mk.injEq] at e
    obtain ⟨⟨d1, m1⟩, e1, rfl, rfl, rfl⟩ := e
    obtain ⟨_, W', G', g1, g2, rfl, rfl⟩ := SimE.bind (g := fun i => bwalkLoop i []) (Q' := fun (a : List Elem) c G' => G' = G ∧ a = c)
      (sim_linBucket s0 h) (fun i _ hi => by obtain ⟨rfl, _⟩ := hi; exact sim_walkLoop i []) m W hr _ _ e1
    refine ⟨W', G', [], ?_, g2, s0, .inl ⟨rfl, ⟨rfl, rfl⟩, rfl⟩⟩
    have : bcall .hashlin b (.bucket h) = ((bhashlinBucket b h >>= fun i => bwalkLoop i []) >>= fun l => Pure.pure (HashSpec.Out.elems l)) := by
      rw [bind_assoc]; rfl
    rw [this, run_bind, g1]; rfl
  | count =>
    simp only [HashSpec.step, hashlinImpl, Option.some.injEq, Prod.mk.injEq, HashSpec.St.mk.injEq] at e
    obtain ⟨rfl, rfl, rfl⟩ := e
    obtain ⟨_, W', G', g1, g2, rfl, rfl⟩ := sim_linCount s0 m W hr _ _ rfl
    exact ⟨W', G', [], by simp only [bcall, bcount, run_bind, g1, Option.bind_some, run_pure], g2, s0, .inl ⟨rfl, ⟨rfl, rfl⟩, rfl⟩⟩
  | alloc | free | scribble => exact hc.elim

/-! ### The memory owned -/

section
variable {env : Nat → Option Nat} {F : Fld} {φ : Nat → Nat} {w : AMem} {t : Tbl}

theorem aR_off0 (R : Rel env F φ m w) {r : Ref} {n : Nat} (hv : m.vlen r.vec = some n) (h0 : r.off = 0) : aR φ r = φ r.vec := by
  rw [R.aR_eq hv (by omega) (by omega), h0]; simp

/-- The address of a segment. -/
theorem linSeg_eq (R : Rel env F φ m w) {bk : Nat → Option Ref} {n : Nat} {vs : Nat → Nat} (s : HashSpec.Segs m0 m bk n vs) {i : Nat}
    (h6 : 6 ≤ i) (hi : i < n) : linSeg φ bk i = (φ (vs i), ptrSize * HashSpec.slen i) := by
  have hl := s.len i (by omega) hi
  have e : (((bk i).getD ⟨0, 0⟩).add (2 ^ i : Nat)) = ⟨vs i, 0⟩ := by
    rw [s.high i h6 hi]; simp [Ref.add]
  rw [linSeg, e, aR_off0 R (r := ⟨vs i, 0⟩) hl rfl]
  simp only [HashSpec.slen, if_neg (show ¬ i = 5 by omega)]

theorem linOwn_eq (R : Rel env F φ m w) {bk : Nat → Option Ref} {n : Nat} {vs : Nat → Nat} (s : HashSpec.Segs m0 m bk n vs) {k : Nat}
    (hk : 6 + k ≤ n) : linOwn φ bk k = ((List.range' 5 (k + 1)).reverse).map fun i => (φ (vs i), ptrSize * HashSpec.slen i) := by
  induction k with
  | zero =>
    have hl := s.len 5 (by omega) (by omega)
    have e : ((bk 0).getD ⟨0, 0⟩) = ⟨vs 5, 0⟩ := by rw [s.low 0 (by omega)]; rfl
    simp only [linOwn, e]
    rw [aR_off0 R (r := ⟨vs 5, 0⟩) hl rfl]
    simp [HashSpec.slen]
  | succ k ih =>
    rw [List.range'_1_concat, List.reverse_append, List.map_append, linOwn, ih (by omega), linSeg_eq R s (by omega) (by omega)]
    simp [show 5 + (k + 1) = 6 + k by omega]

/-- The memory owned is the one of the vectors of the table. -/
theorem own_mem (R : Rel env F φ m w) (g : Good m0 t m es) (p n : Nat) :
    (p, n) ∈ ownOf φ t ↔ ∃ v k, m0.vlen v = none ∧ m.vlen v = some k ∧ φ v = p ∧ n = ptrSize * k := by
  have flat : ∀ (r : Ref) (max : Nat), HashSpec.Flat m0 m r max es →
      ((p, n) ∈ [(aR φ r, ptrSize * max)] ↔ ∃ v k, m0.vlen v = none ∧ m.vlen v = some k ∧ φ v = p ∧ n = ptrSize * k) := by
    intro r max f
    have hv : m.vlen r.vec = some max := by rw [f.vlen]; simp
    rw [aR_off0 R hv f.off, List.mem_singleton, Prod.mk.injEq]
    constructor
    · rintro ⟨rfl, rfl⟩
      exact ⟨r.vec, max, f.new, hv, rfl, rfl⟩
    · rintro ⟨v, k, h1, h2, rfl, rfl⟩
      by_cases hvr : v = r.vec
      · subst hvr
        rw [hv] at h2
        injection h2 with h2
        exact ⟨rfl, by rw [h2]⟩
      · rw [f.vlen, upd_ne hvr, h1] at h2; cases h2
  cases t with
  | hashtable t => exact flat _ _ (HashSpec.TblInv.flat g)
  | hashdyn t => exact flat _ _ (HashSpec.DynBase.flat (HashSpec.DynInv.toDynBase g))
  | hashlin t =>
    have g : HashSpec.LinInv m0 t m es := g
    obtain ⟨vs, s⟩ := g.segs
    have h6 := g.bit
    simp only [ownOf]
    rw [linOwn_eq R s (by omega)]
    simp only [List.mem_map, List.mem_reverse, List.mem_range'_1, Prod.mk.injEq]
    constructor
    · rintro ⟨i, ⟨h1, h2⟩, rfl, rfl⟩
      exact ⟨vs i, HashSpec.slen i, s.new i h1 (by omega), s.len i h1 (by omega), rfl, rfl⟩
    · rintro ⟨v, k, h1, h2, rfl, rfl⟩
      by_cases h : ∃ i, 5 ≤ i ∧ i < t.bucketBit ∧ vs i = v
      · obtain ⟨i, h3, h4, rfl⟩ := h
        rw [s.len i h3 h4] at h2
        injection h2 with h2
        exact ⟨i, ⟨h3, by omega⟩, rfl, by rw [h2]⟩
      · rw [s.other v (fun i h3 h4 h5 => h ⟨i, h3, h4, h5⟩), h1] at h2; cases h2

theorem own_total (g : Good m0 t m es) : total (ownOf φ t) = ptrSize * (szOf t).buckets := by
  cases t with
  | hashtable t => simp [ownOf, total, szOf, Sz.buckets]
  | hashdyn t => simp [ownOf, total, szOf, Sz.buckets]
  | hashlin t =>
    have g : HashSpec.LinInv m0 t m es := g
    have h6 := g.bit
    simp only [ownOf, szOf, Sz.buckets, linSize]
    rw [linOwn_total, g.max, show 6 + (t.bucketBit - 6) = t.bucketBit by omega]

omit [Arch] in
/-- All is freed. -/
theorem owns_gave (l : List Nat) (o : List (Nat × Nat)) (h : l.Perm (o.map Prod.fst)) : owns o (l.map .gave) = some [] := by
  induction l generalizing o with
  | nil =>
    have : o = [] := by simpa using h.symm.eq_nil
    subst this; rfl
  | cons p l ih =>
    have hp : p ∈ o.map Prod.fst := h.subset List.mem_cons_self
    obtain ⟨x, hx, rfl⟩ := List.mem_map.1 hp
    simp only [List.map_cons, owns]
    rw [if_pos (by simp only [List.any_eq_true, decide_eq_true_eq]; exact ⟨x, hx, rfl⟩)]
    apply ih
    have h1 := h.erase x.1
    rw [List.erase_cons_head] at h1
    have h2 : ∀ o : List (Nat × Nat), (o.eraseP fun r => r.1 = x.1).map Prod.fst = (o.map Prod.fst).erase x.1 := by
      intro o
      induction o with
      | nil => rfl
      | cons y o ih =>
        by_cases hy : y.1 = x.1
        · simp [List.eraseP_cons, hy]
        · simp [List.eraseP_cons, hy, ih, List.erase_cons]
    rw [h2]
    exact h1

end

/-- The call on the kind of the table. -/
theorem step_kind {t t' : Tbl} (hc : HashSpec.isCall op) (e : HashSpec.step tblImpl op ⟨m, t⟩ = some (out, ⟨m', t'⟩)) :
    (∃ x x', t = .hashtable x ∧ t' = .hashtable x' ∧ HashSpec.step hashtableImpl op ⟨m, x⟩ = some (out, ⟨m', x'⟩)) ∨
    (∃ x x', t = .hashdyn x ∧ t' = .hashdyn x' ∧ HashSpec.step hashdynImpl op ⟨m, x⟩ = some (out, ⟨m', x'⟩)) ∨
    (∃ x x', t = .hashlin x ∧ t' = .hashlin x' ∧ HashSpec.step hashlinImpl op ⟨m, x⟩ = some (out, ⟨m', x'⟩)) := by
  cases t with
  | hashtable x =>
    refine .inl ⟨x, ?_⟩
    cases op <;> first | exact hc.elim | skip
    all_goals
      simp only [HashSpec.step, walkBucket, tblImpl, hashtableImpl, run_map, Option.map_map, Option.map_eq_some_iff, Function.comp_apply, Prod.mk.injEq,
        HashSpec.St.mk.injEq, Option.some.injEq] at e ⊢
    case insert => obtain ⟨r, e1, h1, h2, rfl⟩ := e; exact ⟨r.1, trivial, rfl, r, e1, h1, h2, rfl⟩
    case remove => obtain ⟨r, e1, h1, h2, rfl⟩ := e; exact ⟨r.1.1, trivial, rfl, r, e1, h1, h2, rfl⟩
    case removeExisting => obtain ⟨r, e1, h1, h2, rfl⟩ := e; exact ⟨r.1.1, trivial, rfl, r, e1, h1, h2, rfl⟩
    case search => obtain ⟨r, e1, h1, h2, rfl⟩ := e; exact ⟨x, trivial, rfl, r, e1, h1, h2, rfl⟩
    case bucket => obtain ⟨r, e1, h1, h2, rfl⟩ := e; exact ⟨x, trivial, rfl, r, e1, h1, h2, rfl⟩
    case count => obtain ⟨h1, h2, rfl⟩ := e; exact ⟨x, trivial, rfl, h1, h2, rfl⟩
  | hashdyn x =>
    refine .inr (.inl ⟨x, ?_⟩)
    cases op <;> first | exact hc.elim | skip
    all_goals
      simp only [HashSpec.step, walkBucket, tblImpl, hashdynImpl, run_map, Option.map_map, Option.map_eq_some_iff, Function.comp_apply, Prod.mk.injEq,
        HashSpec.St.mk.injEq, Option.some.injEq] at e ⊢
    case insert => obtain ⟨r, e1, h1, h2, rfl⟩ := e; exact ⟨r.1, trivial, rfl, r, e1, h1, h2, rfl⟩
    case remove => obtain ⟨r, e1, h1, h2, rfl⟩ := e; exact ⟨r.1.1, trivial, rfl, r, e1, h1, h2, rfl⟩
    case removeExisting => obtain ⟨r, e1, h1, h2, rfl⟩ := e; exact ⟨r.1.1, trivial, rfl, r, e1, h1, h2, rfl⟩
    case search => obtain ⟨r, e1, h1, h2, rfl⟩ := e; exact ⟨x, trivial, rfl, r, e1, h1, h2, rfl⟩
    case bucket => obtain ⟨r, e1, h1, h2, rfl⟩ := e; exact ⟨x, trivial, rfl, r, e1, h1, h2, rfl⟩
    case count => obtain ⟨h1, h2, rfl⟩ := e; exact ⟨x, trivial, rfl, h1, h2, rfl⟩
  | hashlin x =>
    refine .inr (.inr ⟨x, ?_⟩)
    cases op <;> first | exact hc.elim | skip
    all_goals
      simp only [HashSpec.step, walkBucket, tblImpl, hashlinImpl, run_map, Option.map_map, Option.map_eq_some_iff, Function.comp_apply, Prod.mk.injEq,
        HashSpec.St.mk.injEq, Option.some.injEq] at e ⊢
    case insert => obtain ⟨r, e1, h1, h2, rfl⟩ := e; exact ⟨r.1, trivial, rfl, r, e1, h1, h2, rfl⟩
    case remove => obtain ⟨r, e1, h1, h2, rfl⟩ := e; exact ⟨r.1.1, trivial, rfl, r, e1, h1, h2, rfl⟩
    case removeExisting => obtain ⟨r, e1, h1, h2, rfl⟩ := e; exact ⟨r.1.1, trivial, rfl, r, e1, h1, h2, rfl⟩
    case search => obtain ⟨r, e1, h1, h2, rfl⟩ := e; exact ⟨x, trivial, rfl, r, e1, h1, h2, rfl⟩
    case bucket => obtain ⟨r, e1, h1, h2, rfl⟩ := e; exact ⟨x, trivial, rfl, r, e1, h1, h2, rfl⟩
    case count => obtain ⟨h1, h2, rfl⟩ := e; exact ⟨x, trivial, rfl, h1, h2, rfl⟩

/-- What is known after a call. -/
structure Called (G G' : Gh) (b nb : Nat) (t t' : Tbl) (m' : Mem) (evs : List BEvent) : Prop where
  step : Step G G' b (structSize (tyOf t)) evs
  at_ : TAt G'.F G'.φ m'.vnext b t'
  asked : asked evs = ((szOf t).asks (szOf t')).map fun k => (nb, k)
  owns : owns (ownOf G.φ t) evs = some (ownOf G'.φ t')

theorem call_sim {t t' : Tbl} (i : HashSpec.Inv (Good m0) ⟨m, t⟩ ⟨es, live⟩) (hl : HashSpec.legal ⟨es, live⟩ op)
    (e : HashSpec.step tblImpl op ⟨m, t⟩ = some (out, ⟨m', t'⟩)) (hc : HashSpec.isCall op)
    (i' : HashSpec.Inv (Good m0) ⟨m', t'⟩ (HashSpec.next ⟨es, live⟩ op out))
    (hr : GRel G m W) (hN : G.N = m.vnext) (ht : TAt G.F G.φ m.vnext b t)
    (hin : ∀ p d h, op = .insert p d h → p < 2 ^ sizeBit ∧ d < 2 ^ sizeBit ∧ h < 2 ^ sizeBit)
    {nb : Nat} {c : Nat → Nat} (hms : G.ms = [(nb, c)])
    (hm : ∀ k ∈ (szOf t).asks (szOf t'), Fresh G.live nb k ∧ ∀ x, c x < 256) :
    ∃ W' G' evs, bcall (tyOf t) b op W = some (out, W') ∧ GRel G' m' W' ∧ Called G G' b nb t t' m' evs ∧
      tyOf t' = tyOf t ∧ szOf t' = (szOf t).next es.length (HashSpec.next ⟨es, live⟩ op out).elems.length := by
  rcases step_kind hc e with ⟨x, x', rfl, rfl, e1⟩ | ⟨x, x', rfl, rfl, e1⟩ | ⟨x, x', rfl, rfl, e1⟩
  · obtain ⟨W', G', g1, g2, g3, g4, g5, g6⟩ := tbl_call e1 hc hr ht.1 hin
    have f : HashSpec.Flat m0 m x.bucket x.bucketMax es := HashSpec.TblInv.flat i.p
    have f' : HashSpec.Flat m0 m' x'.bucket x'.bucketMax _ := HashSpec.TblInv.flat i'.p
    refine ⟨W', G', [], g1, g2, ⟨g3, ⟨g4, f'.used⟩, rfl, ?_⟩, rfl, ?_⟩
    · simp only [ownOf, owns, g5, g6]
      rw [aR_congr (g3.φ _ (by rw [hN]; exact f.used))]
    · simp only [szOf, Sz.next, g6]
  · have j : HashSpec.Inv (HashSpec.DynInv m0) ⟨m, x⟩ ⟨es, live⟩ := ⟨i.p, i.live, i.liveOk⟩
    have j' : HashSpec.Inv (HashSpec.DynInv m0) ⟨m', x'⟩ (HashSpec.next ⟨es, live⟩ op out) := ⟨i'.p, i'.live, i'.liveOk⟩
    have f : HashSpec.Flat m0 m x.bucket x.bucketMax es := j.p.flat
    have f' : HashSpec.Flat m0 m' x'.bucket x'.bucketMax _ := j'.p.flat
    have law : x'.bucketMax = dynSize x.bucketMax es.length (HashSpec.next ⟨es, live⟩ op out).elems.length := HashSpec.dyn_size_inv j hl e1 j'
    have hv : m.vlen x.bucket.vec = some x.bucketMax := by rw [f.vlen]; simp
    have hv' : m'.vlen x'.bucket.vec = some x'.bucketMax := by rw [f'.vlen]; simp
    have hmok : x'.bucketMax ≠ x.bucketMax → Fresh G.live nb (ptrSize * x'.bucketMax) ∧ ∀ x, c x < 256 := fun hne =>
      hm _ (by simp [szOf, Sz.asks, Sz.buckets, hne])
    obtain ⟨W', G', evs, g1, g2, g3, g4, g5⟩ := dyn_call j hl e1 hc j' hr ht.1 (by rw [hN]; exact ht.2) hin
      (fun hne => ⟨nb, c, [], hms, (hmok hne).2, (hmok hne).1⟩)
    refine ⟨W', G', evs, g1, g2, ⟨g3, ⟨g4, f'.used⟩, ?_, ?_⟩, rfl, by simp only [szOf, Sz.next]; rw [← law]⟩
    · rcases g5 with ⟨h1, h2, rfl⟩ | h
      · simp [szOf, Sz.asks, Sz.buckets, h1, HashFlatSpec.asked]
      · obtain ⟨nb', c', ms', e1, rfl, e2⟩ := h.evs
        rw [hms] at e1
        simp only [List.cons.injEq, Prod.mk.injEq] at e1
        obtain ⟨⟨rfl, rfl⟩, rfl⟩ := e1
        have hmax : x.bucketMax = 2 ^ x.bucketBit := j.p.max
        have hne : x'.bucketMax ≠ x.bucketMax := by
          rw [h.max, hmax]
          intro he
          exact h.bit (Nat.pow_right_injective (by omega) he)
        have hb : x'.bucketMax ≤ 2 ^ bktBit := by rw [h.max]; exact HashSpec.pow_le60 j'.p.bit_lt
        have hs : sizeT (x'.bucketMax * ptrSize) = ptrSize * x'.bucketMax := by unfold sizeT; clear * - hb; arch
        simp [szOf, Sz.asks, Sz.buckets, hne, HashFlatSpec.asked, hs]
    · rcases g5 with ⟨h1, h2, rfl⟩ | h
      · simp only [ownOf, HashFlatSpec.owns, h1, h2]
        rw [aR_congr (g3.φ _ (by rw [hN]; exact f.used))]
      · obtain ⟨nb', c', ms', e1, rfl, e2⟩ := h.evs
        rw [hms] at e1
        simp only [List.cons.injEq, Prod.mk.injEq] at e1
        obtain ⟨⟨rfl, rfl⟩, rfl⟩ := e1
        have hmax : x.bucketMax = 2 ^ x.bucketBit := j.p.max
        have hne : x'.bucketMax ≠ x.bucketMax := by
          rw [h.max, hmax]
          intro he
          exact h.bit (Nat.pow_right_injective (by omega) he)
        have hb : x'.bucketMax ≤ 2 ^ bktBit := by rw [h.max]; exact HashSpec.pow_le60 j'.p.bit_lt
        have hs : sizeT (x'.bucketMax * ptrSize) = ptrSize * x'.bucketMax := by unfold sizeT; clear * - hb; arch
        have ha : aR G'.φ x'.bucket = nb := by rw [aR_off0 g2.rel hv' f'.off, e2]
        have hb2 : nb ≠ aR G.φ x.bucket := by
          rw [aR_off0 hr.rel hv f.off]
          intro he
          have := hr.rel.vec hv
          rw [hr.live, ← he, (hmok hne).1.none] at this
          cases this
        simp only [ownOf, HashFlatSpec.owns, List.any_cons, List.eraseP_cons, hb2, ha, hs]
        simp
  · have j : HashSpec.Inv (HashSpec.LinInv m0) ⟨m, x⟩ ⟨es, live⟩ := ⟨i.p, i.live, i.liveOk⟩
    have j' : HashSpec.Inv (HashSpec.LinInv m0) ⟨m', x'⟩ (HashSpec.next ⟨es, live⟩ op out) := ⟨i'.p, i'.live, i'.liveOk⟩
    have law : linSize x' = (linSize x).next es.length (HashSpec.next ⟨es, live⟩ op out).elems.length := HashSpec.lin_size_inv j hl e1 j'
    have hmok : x.bucketMax < x'.bucketMax → Fresh G.live nb (ptrSize * (x'.bucketMax - x.bucketMax)) ∧ ∀ x, c x < 256 := fun hlt =>
      hm _ (by simp [szOf, Sz.asks, Sz.buckets, linSize, hlt])
    obtain ⟨W', G', evs, g1, g2, g3, g4⟩ := lin_call j hl e1 hc j' hr ht.1 (by rw [hN]; exact ht.2) hin
      (fun hlt => ⟨nb, c, [], hms, (hmok hlt).2, (hmok hlt).1⟩)
    have hmax : x.bucketMax = 2 ^ x.bucketBit := j.p.max
    have hmax' : x'.bucketMax = 2 ^ x'.bucketBit := j'.p.max
    have h6 : 6 ≤ x.bucketBit := j.p.bit
    have h6' : 6 ≤ x'.bucketBit := j'.p.bit
    have hb : x.bucketMax ≤ 2 ^ bktBit := by rw [hmax]; exact HashSpec.pow_le60 j.p.bit_le
    have hs : sizeT (x.bucketMax * ptrSize) = ptrSize * x.bucketMax := by unfold sizeT; clear * - hb; arch
    have hsome : ∀ i, i < x.bucketBit → (((x.bucket i).getD ⟨0, 0⟩).vec < G.N) := by
      intro i hi
      obtain ⟨vs, s⟩ := j.p.segs
      by_cases h : i < 6
      · rw [s.low i h]; rw [hN]; exact ht.2 i _ (s.low i h)
      · rw [s.high i (by omega) hi, hN]; exact ht.2 i _ (s.high i (by omega) hi)
    refine ⟨W', G', evs, g1, g2, ⟨g3.step, ⟨g3.at_, fun i r hr => Nat.lt_of_lt_of_le (g3.lt i r hr) g2.new⟩, ?_, ?_⟩, rfl, by
      simp only [szOf, Sz.next]; rw [← law]⟩
    · rcases g4 with ⟨h1, h2, rfl⟩ | h | ⟨h1, h⟩
      · have : x'.bucketMax = x.bucketMax := by rw [hmax, hmax', h2.bit]
        simp [szOf, Sz.asks, Sz.buckets, linSize, this, HashFlatSpec.asked]
      · obtain ⟨nb', c', ms', v, e1, rfl, e2, e3, e4, e5⟩ := h.evs
        rw [hms] at e1
        simp only [List.cons.injEq, Prod.mk.injEq] at e1
        obtain ⟨⟨rfl, rfl⟩, rfl⟩ := e1
        have h7 : x'.bucketMax = 2 * x.bucketMax := by rw [hmax, hmax', h.bit, Nat.pow_succ, Nat.mul_comm]
        have h8 : 0 < x.bucketMax := by rw [hmax]; exact Nat.two_pow_pos _
        simp [szOf, Sz.asks, Sz.buckets, linSize, HashFlatSpec.asked, hs, h7, show x.bucketMax < 2 * x.bucketMax by omega,
          show 2 * x.bucketMax - x.bucketMax = x.bucketMax by omega]
      · obtain ⟨r, h2, rfl⟩ := h.evs
        have h7 : 2 * x'.bucketMax = x.bucketMax := by rw [hmax, hmax', ← h.bit, Nat.pow_succ, Nat.mul_comm]
        simp [szOf, Sz.asks, Sz.buckets, linSize, HashFlatSpec.asked, show ¬ x.bucketMax < x'.bucketMax by omega]
    · rcases g4 with ⟨h1, h2, rfl⟩ | h | ⟨h1, h⟩
      · simp only [ownOf, HashFlatSpec.owns, h1, h2.bucket, h2.bit]
      · obtain ⟨nb', c', ms', v, e1, rfl, e2, e3, e4, e5⟩ := h.evs
        rw [hms] at e1
        simp only [List.cons.injEq, Prod.mk.injEq] at e1
        obtain ⟨⟨rfl, rfl⟩, rfl⟩ := e1
        obtain ⟨vs', s'⟩ := j'.p.segs
        have hbt : x.bucketBit < x'.bucketBit := by rw [h.bit]; omega
        have hsg := linSeg_eq g2.rel s' h6 hbt
        have hvs : vs' x.bucketBit = v := by
          have := s'.high _ h6 hbt
          rw [e3, upd_same] at this
          simp only [Ref.add, Option.some.injEq, Ref.mk.injEq] at this
          exact this.1.symm
        simp only [ownOf, HashFlatSpec.owns]
        rw [h.bit, show x.bucketBit + 1 - 6 = x.bucketBit - 6 + 1 by omega, linOwn, show 6 + (x.bucketBit - 6) = x.bucketBit by omega, hsg, hvs, e4, hs]
        rw [show HashSpec.slen x.bucketBit = x.bucketMax by rw [HashSpec.slen, if_neg (by omega), hmax]]
        rw [show linOwn G'.φ x'.bucket (x.bucketBit - 6) = linOwn G.φ x.bucket (x.bucketBit - 6) from linOwn_congr
          (by rw [e3, upd_ne (by omega)]) (fun i h1 h2 => by rw [e3, upd_ne (by omega)]) (fun i h1 => by
            have := hsome i (by omega)
            rw [e5, upd_ne (by omega)])]
      · obtain ⟨r, h2, rfl⟩ := h.evs
        have e3 : ownOf G.φ (.hashlin x) = (aR G.φ (r.add (2 ^ x'.bucketBit : Nat)), ptrSize * 2 ^ x'.bucketBit) :: ownOf G'.φ (.hashlin x') := by
          simp only [ownOf]
          rw [← h.bit, show x'.bucketBit + 1 - 6 = x'.bucketBit - 6 + 1 by omega, linOwn, show 6 + (x'.bucketBit - 6) = x'.bucketBit by omega,
            linSeg, h2, h1, h.bucket]
          rfl
        rw [e3]
        simp [HashFlatSpec.owns]

/-- What is needed to initialise a struct. -/
def TDom (F : Fld) (b : Nat) : Ty → Prop
  | .hashtable => TblDom F b
  | .hashdyn => DynDom F b
  | .hashlin => LinDom F b

def kindOf (n : Nat) : Ty → TablesSpec.Kind
  | .hashtable => .hashtable n
  | .hashdyn => .hashdyn
  | .hashlin => .hashlin

theorem buckets_start {n : Nat} (hn : n ≤ HashSpec.maxBuckets) : (if n < 16 then 16 else roundupPow2 n) = 2 ^ max 4 (Nat.clog 2 n) ∧
    2 ^ max 4 (Nat.clog 2 n) ≤ 2 ^ bktBit := by
  by_cases h : n < 16
  · have : Nat.clog 2 n ≤ 4 := Nat.clog_le_of_le_pow (by omega)
    rw [if_pos h, Nat.max_eq_left this]
    exact ⟨rfl, by arch⟩
  · rw [if_neg h]
    obtain ⟨k, h1, h2, h3, h4⟩ := HashSpec.roundup_small (by omega) (HashSpec.maxBuckets_eq ▸ hn)
    have h5 : Nat.clog 2 n = k := by
      apply Nat.le_antisymm
      · exact Nat.clog_le_of_le_pow h2
      · exact (Nat.pow_le_pow_iff_right (by omega)).1 (h3 _ (Nat.le_pow_clog (by omega) n))
    have h6 : 4 ≤ Nat.clog 2 n := by
      by_contra hlt
      have h7 := Nat.le_pow_clog (b := 2) (by omega) n
      have h8 : 2 ^ Nat.clog 2 n ≤ 2 ^ 3 := Nat.pow_le_pow_right (by omega) (by omega)
      omega
    rw [Nat.max_eq_right h6, h5]
    exact ⟨h1, h4⟩

theorem init_sim {ty : Ty} {n : Nat} {t : Tbl} (hn : ty = .hashtable → n ≤ HashSpec.maxBuckets)
    (e : TablesSpec.start (kindOf n ty) m = some (t, m')) (h0 : HashSpec.StartOk m) (g : Good m t m' [])
    (hr : GRel G m W) (hd : TDom G.F b ty) {nb : Nat} {c : Nat → Nat} (hms : G.ms = [(nb, c)])
    (hf : Fresh G.live nb (ptrSize * (Sz.start n ty).buckets)) (hcb : ∀ x, c x < 256) :
    ∃ W' G', binit ty b n W = some ((), W') ∧ GRel G' m' W' ∧
      Step G G' b (structSize ty) [.got nb (ptrSize * (Sz.start n ty).buckets)] ∧ TAt G'.F G'.φ m'.vnext b t ∧ szOf t = Sz.start n ty ∧
      ownOf G'.φ t = [(nb, ptrSize * (Sz.start n ty).buckets)] := by
  cases ty with
  | hashtable =>
    obtain ⟨h1, h2⟩ := buckets_start (hn rfl)
    have hs : sizeT (2 ^ max 4 (Nat.clog 2 n) * ptrSize) = ptrSize * 2 ^ max 4 (Nat.clog 2 n) := by
      generalize 2 ^ max 4 (Nat.clog 2 n) = k at h2
      unfold sizeT; clear * - h2; arch
    simp only [kindOf, TablesSpec.start, run_map, Option.map_eq_some_iff, Prod.mk.injEq] at e
    obtain ⟨⟨x, m1⟩, e1, rfl, rfl⟩ := e
    have f : HashSpec.Flat m m1 x.bucket x.bucketMax [] := HashSpec.TblInv.flat g
    obtain ⟨_, W', G', g1, g2, g3, g4, g5, g6⟩ := sim_tblInit (n := n) hd (by rw [h1]; generalize 2 ^ max 4 (Nat.clog 2 n) = k at h2; clear * - h2; arch)
      hms hcb (by rw [h1, hs]; exact hf) m W hr _ _ e1
    rw [h1] at g5
    rw [g5, hs] at g3
    refine ⟨W', G', g1, g2, g3, ⟨g4, f.used⟩, by simp only [szOf, Sz.start, g5], ?_⟩
    simp only [ownOf, Sz.start, Sz.buckets, g5]
    rw [aR_off0 g2.rel (n := x.bucketMax) (by rw [f.vlen]; simp) f.off, g6]
  | hashdyn =>
    simp only [kindOf, TablesSpec.start, run_map, Option.map_eq_some_iff, Prod.mk.injEq] at e
    obtain ⟨⟨x, m1⟩, e1, rfl, rfl⟩ := e
    have f : HashSpec.Flat m m1 x.bucket x.bucketMax [] := HashSpec.DynBase.flat (HashSpec.DynInv.toDynBase g)
    obtain ⟨_, W', G', g1, g2, g3, g4, g5, g6⟩ := sim_dynInit hd hms (by rw [Nat.mul_comm]; exact hf) m W hr _ _ e1
    rw [Nat.mul_comm] at g3
    refine ⟨W', G', g1, g2, g3, ⟨g4, f.used⟩, by simp only [szOf, Sz.start, g5], ?_⟩
    simp only [ownOf, Sz.start, Sz.buckets, g5]
    rw [aR_off0 g2.rel (n := x.bucketMax) (by rw [f.vlen]; simp) f.off, g6]
  | hashlin =>
    simp only [kindOf, TablesSpec.start, run_map, Option.map_eq_some_iff, Prod.mk.injEq] at e
    obtain ⟨⟨x, m1⟩, e1, rfl, rfl⟩ := e
    have gl : HashSpec.LinInv m x m1 [] := g
    obtain ⟨_, W', G', g1, g2, g3, g4, g5, r, g6, g7, g8⟩ := sim_linInit hd hms (by rw [Nat.mul_comm]; exact hf) m W hr _ _ e1
    rw [Nat.mul_comm] at g3
    refine ⟨W', G', g1, g2, g3.step, ⟨g3.at_, fun i r hr => Nat.lt_of_lt_of_le (g3.lt i r hr) g2.new⟩, ?_, ?_⟩
    · simp only [szOf, Sz.start, Sz.hashlin.injEq]
      obtain ⟨x', m2, q1, q2, q3, q4, q5⟩ := HashSpec.hashlinInit_spec h0
      rw [q1] at e1
      simp only [Option.some.injEq, Prod.mk.injEq] at e1
      obtain ⟨rfl, rfl⟩ := e1
      rw [HashSpec.linSize_num q2, q4]
      rfl
    · simp only [ownOf, Sz.start, Sz.buckets, g4]
      rw [show 6 - 6 = 0 from rfl, linOwn, g6]
      simp only [Option.getD_some, g8]

/-- The nodes are not read. -/
theorem done_sim {t : Tbl} {h0 : Heap} (g : Good m0 t { m with heap := h0 } es) (e : tblImpl.done t m = some ((), m')) (hr : GRel G m W) (hN : G.N = m.vnext)
    (ht : TAt G.F G.φ m.vnext b t) :
    ∃ W' G' evs, bdone (tyOf t) b W = some ((), W') ∧ GRel G' m' W' ∧ Step G G' b (structSize (tyOf t)) evs ∧
      owns (ownOf G.φ t) evs = some [] := by
  cases t with
  | hashtable x =>
    obtain ⟨_, W', G', g1, g2, g3⟩ := sim_tblDone ht.1 m W hr _ _ e
    exact ⟨W', G', _, g1, g2, g3, by simp [ownOf, owns]⟩
  | hashdyn x =>
    obtain ⟨_, W', G', g1, g2, g3⟩ := sim_dynDone ht.1 m W hr _ _ e
    exact ⟨W', G', _, g1, g2, g3, by simp [ownOf, owns]⟩
  | hashlin x =>
    have g : HashSpec.LinInv m0 x { m with heap := h0 } es := g
    have h6 := g.bit
    obtain ⟨vs, s⟩ := g.segs
    have s : HashSpec.Segs m0 m x.bucket x.bucketBit vs := ⟨s.low, s.high, s.len, s.inj, s.new, s.used, s.other, s.fresh, s.keep⟩
    obtain ⟨_, W', G', g1, g2, f, g3, g4, g5⟩ := sim_linDone (LinS.start ht.1 (by rw [hN]; exact ht.2)) h6 m W hr _ _ e
    refine ⟨W', G', _, g1, g2, g5.step, ?_⟩
    have e0 : aR G.φ (f 0) = G.φ (vs 5) := by
      rw [s.low 0 (by omega)] at g3
      injection g3 with g3
      rw [← g3]
      exact aR_off0 hr.rel (r := ⟨vs 5, 0⟩) (s.len 5 (by omega) (by omega)) rfl
    have e1 : ∀ j ∈ List.range' 6 (x.bucketBit - 6), BEvent.gave (aR G.φ ((f j).add (2 ^ j : Nat))) = BEvent.gave (G.φ (vs j)) := by
      intro j hj
      simp only [List.mem_range'_1] at hj
      have h := g4 j hj.1 (by omega)
      rw [s.high j hj.1 (by omega)] at h
      injection h with h
      rw [← h]
      rw [show (Ref.add ⟨vs j, -((2 ^ j : Nat) : Int)⟩ (2 ^ j : Nat)) = ⟨vs j, 0⟩ by simp [Ref.add]]
      rw [aR_off0 hr.rel (r := ⟨vs j, 0⟩) (s.len j (by omega) (by omega)) rfl]
    rw [e0, List.map_congr_left e1]
    have e2 : (BEvent.gave (G.φ (vs 5)) :: (List.range' 6 (x.bucketBit - 6)).map fun j => BEvent.gave (G.φ (vs j))) =
        ((List.range' 5 (x.bucketBit - 6 + 1)).map fun j => G.φ (vs j)).map .gave := by
      rw [List.range'_succ]
      simp
    rw [e2]
    refine owns_gave _ _ ?_
    simp only [ownOf]
    rw [linOwn_eq hr.rel s (by omega), List.map_map]
    exact ((List.reverse_perm _).map _).symm

end HashFlat
end Tommy
