import Verif.Proof.TrieFlatCall
import Verif.Proof.TrieCount
import Verif.Props.Alloc
import Verif.Props.Trie
/-!
  Property C59 (tommytrie.c and tommyalloc.c together, in a memory of bytes).
-/
set_option linter.unusedSimpArgs false
set_option autoImplicit false
namespace Tommy

open HashSpec (Elem)
open TrieSpec (CfgOk levels first blocksFor keySet)

section
variable [Arch]

/-- **C59** A program with any number of tries and of allocators initialised as tommytrie.h says (blocks of 64 bytes
    aligned at 64), in a memory where nothing more than what is requested to malloc() is usable, with the structs and the
    nodes anywhere in the memory of the program: all the calls are without errors and terminate, the results are the ones of
    the multimaps, and the blocks returned by the allocators never overlap with the memory in use. -/
theorem C59_trie_alloc : (FlatSpec.sys 0 trieUse trieCfg).Correct := FlatSpec.correct_flat trieCfg_ok C28_trie_partial

/-- C59, with any configuration of the trie, and any sizes and addresses for which the blocks are inside the segments. -/
theorem C59_general (c : TrieCfg) (hc : CfgOk c) (slack : Nat) (u : AllocSpec.Use) (hu : AllocSpec.RoomFor slack u) :
    (FlatSpec.sys slack u c).Correct := FlatSpec.correct_flat hc hu

/-- C59, with any configuration, size and address, when the size of a pointer more than requested are usable. -/
theorem C59_slack (c : TrieCfg) (hc : CfgOk c) (slack : Nat) (hs : ptrSize ≤ slack) (u : AllocSpec.Use) :
    (FlatSpec.sys slack u c).Correct :=
  FlatSpec.correct_flat hc fun _ _ _ h _ _ _ _ => AllocSpec.room_slack hs h

/-- C59, said on a sequence of calls. -/
theorem C59_history (s : FlatSpec.St) (a : FlatSpec.Ab) (h : (FlatSpec.sys 0 trieUse trieCfg).init s a)
    (ops : List FlatSpec.Op) : (FlatSpec.sys 0 trieUse trieCfg).Runs s a ops :=
  C59_trie_alloc.runs ops s a (.init h)

/-- C59, frame: of the memory of the program, a call writes only in the struct and the blocks of its own trie, in the nodes
    of its own trie with the same key, and in the node inserted. -/
theorem C59_frame (c : TrieCfg) (hc : CfgOk c) (slack : Nat) (u : AllocSpec.Use) (hu : AllocSpec.RoomFor slack u)
    (s : FlatSpec.St) (a : FlatSpec.Ab) (hr : (FlatSpec.sys slack u c).Reach s a) (op : FlatSpec.Op)
    (hl : FlatSpec.legal slack u c a op) (hcall : FlatSpec.isCall op) (r : FlatSpec.Out) (s' : FlatSpec.St)
    (e : FlatSpec.step slack c op s = some (r, s')) (x : Nat) (h1 : a.al.UserByte x)
    (h2 : (FlatSpec.next a op r).al.UserByte x) (hm : ¬ FlatSpec.mayByte c a op x) : s'.mem.byte x = s.mem.byte x := by
  obtain ⟨r', s'', e', _, _, hf⟩ := FlatSpec.step_ok hc hu (FlatSpec.reach_flat hc hu s a hr) hl
  rw [e] at e'; cases e'
  exact hf hcall x h1 h2 hm

/-- C59, in each moment: the blocks of a trie are different, are in use in its allocator, belong to no other trie, do not
    overlap with the nodes and the structs of any trie, and their number is a function of the set of the keys. -/
theorem C59_blocks (c : TrieCfg) (hc : CfgOk c) (slack : Nat) (u : AllocSpec.Use) (hu : AllocSpec.RoomFor slack u)
    (s : FlatSpec.St) (a : FlatSpec.Ab) (hr : (FlatSpec.sys slack u c).Reach s a) (v : Nat) (T : FlatSpec.TrieAb)
    (hv : a.val v = some T) :
    T.owned.Nodup ∧ (∃ P, a.al.pool T.id = some P ∧ ∀ b ∈ T.owned, b ∈ P.used) ∧
    T.owned.length = blocksFor c (keySet T.es) ∧
    (∀ w U, w ≠ v → a.val w = some U → ∀ b ∈ T.owned, b ∉ U.owned) ∧
    ∀ w U, a.val w = some U → ∀ b ∈ T.owned,
      (b + ptrSize * c.treeMax ≤ U.base ∨ U.base + FlatSpec.structSize c ≤ b) ∧
      ∀ e ∈ U.es, b + ptrSize * c.treeMax ≤ e.node ∨ e.node + nodeSize ≤ b := by
  obtain ⟨hI, tm, h⟩ := FlatSpec.reach_flat hc hu s a hr
  have Tr := h.trie v T hv
  obtain ⟨ch, Top⟩ := Tr.top
  obtain ⟨P, hP, _, hu'⟩ := h.pool v T hv
  refine ⟨Top.bnodup, ⟨P, hP, hu'⟩, Top.count hc, fun w U hw hU b hb hb' => ?_, fun w U hU b hb => ⟨?_, fun e he => ?_⟩⟩
  · exact h.osep w v U T hw hU hv b (Or.inr hb') (Or.inr hb)
  · have ho : tm.csize b ≠ 0 := (h.obj b).2 ⟨v, T, hv, Or.inr hb⟩
    have ho' : tm.csize U.base ≠ 0 := (h.obj _).2 ⟨w, U, hU, Or.inl rfl⟩
    have := h.mrel.osep b U.base ho ho' (fun e => h.not_base hv hU hb e.symm)
    rw [Tr.bsize hb, h.size_base hU, FlatSpec.extOf_base hU, h.ext_owned hv hb] at this
    unfold FlatSpec.structSize
    omega
  · have ho : tm.csize b ≠ 0 := (h.obj b).2 ⟨v, T, hv, Or.inr hb⟩
    have := h.mrel.onsep b e.node ho ((h.node _).2 ⟨w, U, hU, e, he, rfl⟩)
    rw [Tr.bsize hb, h.ext_owned hv hb] at this
    omega

/-- C59, an empty trie has no blocks: all were given back to the allocator. -/
theorem C59_empty (c : TrieCfg) (hc : CfgOk c) (slack : Nat) (u : AllocSpec.Use) (hu : AllocSpec.RoomFor slack u)
    (s : FlatSpec.St) (a : FlatSpec.Ab) (hr : (FlatSpec.sys slack u c).Reach s a) (v : Nat) (T : FlatSpec.TrieAb)
    (hv : a.val v = some T) (he : T.es = []) : T.owned = [] := by
  have h := (C59_blocks c hc slack u hu s a hr v T hv).2.2.1
  rw [he, TrieSpec.blocksFor_eq_zero hc (by simp [keySet])] at h
  exact List.eq_nil_of_length_eq_zero h

/-- C59, no leak: the regions of malloc() which are not freed are the ones of the program and the segments of the
    allocators. -/
theorem C59_live (c : TrieCfg) (hc : CfgOk c) (slack : Nat) (u : AllocSpec.Use) (hu : AllocSpec.RoomFor slack u)
    (s : FlatSpec.St) (a : FlatSpec.Ab) (hr : (FlatSpec.sys slack u c).Reach s a) (b n : Nat) :
    s.mem.live b = some n ↔ ∃ k, n = k + slack ∧ a.al.Region b k := by
  obtain ⟨hI, _⟩ := FlatSpec.reach_flat hc hu s a hr
  rw [hI.1.reg.live]
  constructor
  · rintro ⟨k, o, h1, h2⟩; exact ⟨k, h1, AllocSpec.region_iff.2 ⟨o, h2⟩⟩
  · rintro ⟨k, h1, h2⟩
    obtain ⟨o, h2⟩ := AllocSpec.region_iff.1 h2
    exact ⟨k, o, h1, h2⟩

/-- C59, `done` of an allocator frees its segments, whatever tries used it. -/
theorem C59_done (c : TrieCfg) (hc : CfgOk c) (slack : Nat) (u : AllocSpec.Use) (hu : AllocSpec.RoomFor slack u)
    (s : FlatSpec.St) (a : FlatSpec.Ab) (hr : (FlatSpec.sys slack u c).Reach s a) (id : Nat) (P : AllocSpec.Pool)
    (hP : a.al.pool id = some P) (hl : ∀ p ∈ P.used, a.Clear c p P.bs) :
    ∃ s', FlatSpec.step slack c (.al (.done id)) s = some (.al .unit, s') ∧ ∀ b ∈ P.segs, s'.mem.live b = none := by
  have hleg : FlatSpec.legal slack u c a (.al (.done id)) :=
    ⟨⟨P, hP⟩, fun P' hP' => by rw [hP] at hP'; cases hP'; exact hl⟩
  obtain ⟨r, s', e, h1, h2, _⟩ := FlatSpec.step_ok hc hu (FlatSpec.reach_flat hc hu s a hr) hleg
  obtain ⟨o, rfl, ho⟩ := h1
  have ho : o = .unit := ho
  subst ho
  refine ⟨s', e, fun b hb => ?_⟩
  cases hx : s'.mem.live b with
  | none => rfl
  | some n =>
    obtain ⟨k, _, hreg⟩ := (C59_live c hc slack u hu s' _ (Sys.Reach.step (sys := FlatSpec.sys slack u c) (op := .al (.done id)) hr hleg e) b n).1 hx
    exfalso
    have hI := (FlatSpec.reach_flat hc hu s a hr).1.1
    have hb' : AllocSpec.RegionO a.al b (AllocSpec.segSize P.bs P.al) (some id) := ⟨P, hP, hb, rfl⟩
    simp only [FlatSpec.sys, FlatSpec.next, AllocSpec.next, hP] at hreg
    rcases hreg with hreg | ⟨id', Q, hQ, hb2, hk⟩
    · rcases hI.reg.sep hb' (show AllocSpec.RegionO a.al b k none from hreg) with ⟨_, _, e⟩ | ⟨e, _⟩
      · cases e
      · exact e rfl
    · by_cases e : id' = id
      · subst e
        simp only [upd_same] at hQ; cases hQ; cases hb2
      · simp only [upd_ne e] at hQ
        rcases hI.reg.sep hb' (show AllocSpec.RegionO a.al b k (some id') from ⟨Q, hQ, hb2, hk⟩) with ⟨_, _, h⟩ | ⟨h, _⟩
        · cases h; exact e rfl
        · exact h rfl

/-! ### Non vacuity -/

theorem flat_segs (id : Nat) : ∀ (l : List AEvent) (al : AllocSpec.Ab) (P : AllocSpec.Pool), al.pool id = some P →
    ∃ P', (FlatSpec.replay id al l).pool id = some P' ∧ P'.bs = P.bs ∧ P'.al = P.al ∧ (FlatSpec.replay id al l).env = al.env ∧
      (∀ j, j ≠ id → (FlatSpec.replay id al l).pool j = al.pool j) ∧
      ∀ b ∈ P'.segs, b ∈ P.segs ∨ ∃ p, AEvent.got p (some b) ∈ l := by
  intro l
  induction l with
  | nil => exact fun al P h => ⟨P, h, rfl, rfl, rfl, fun _ _ => rfl, fun b hb => Or.inl hb⟩
  | cons e l ih =>
    intro al P h
    have key : ∃ P1, (FlatSpec.event id al e).pool id = some P1 ∧ P1.bs = P.bs ∧ P1.al = P.al ∧ (FlatSpec.event id al e).env = al.env ∧
        (∀ j, j ≠ id → (FlatSpec.event id al e).pool j = al.pool j) ∧ ∀ b ∈ P1.segs, b ∈ P.segs ∨ ∃ p, e = AEvent.got p (some b) := by
      cases e with
      | got p seg =>
        simp only [FlatSpec.event, AllocSpec.next, h, upd_same]
        refine ⟨_, rfl, rfl, rfl, trivial, fun j hj => upd_ne hj, fun b hb => ?_⟩
        cases seg with
        | none => exact Or.inl (by simpa using hb)
        | some q =>
          simp only [Option.isSome_some, if_true, Option.getD_some, List.mem_cons] at hb
          rcases hb with rfl | hb
          · exact Or.inr ⟨p, rfl⟩
          · exact Or.inl hb
      | gave p =>
        simp only [FlatSpec.event, AllocSpec.next, h, upd_same]
        exact ⟨_, rfl, rfl, rfl, trivial, fun j hj => upd_ne hj, fun b hb => Or.inl hb⟩
    obtain ⟨P1, h1, h2, h3, h4, h5, h6⟩ := key
    obtain ⟨P', g1, g2, g3, g4, g5, g6⟩ := ih _ P1 h1
    refine ⟨P', g1, g2.trans h2, g3.trans h3, g4.trans h4, fun j hj => (g5 j hj).trans (h5 j hj), fun b hb => ?_⟩
    rcases g6 b hb with hb | ⟨p, hp⟩
    · rcases h6 b hb with hb | ⟨p, rfl⟩
      · exact Or.inl hb
      · exact Or.inr ⟨p, by simp⟩
    · exact Or.inr ⟨p, by simp [hp]⟩

end

/-! Concrete cases, for the 64 bit build. -/
attribute [local instance] Arch.w64

theorem flat64 : (FlatSpec.sys 0 trieUse trieCfg64).Correct := C59_trie_alloc

/-- The state of an example: 4096 bytes of the program at 2^20, with the struct of the trie at the start and the nodes from
    the offset 1024; the allocator 0; the segments are below `lo`. -/
structure FlatEx (s : FlatSpec.St) (a : FlatSpec.Ab) (lo : Nat) (es : List Elem) (owned : List Nat) : Prop where
  reach : (FlatSpec.sys 0 trieUse trieCfg64).Reach s a
  val : a.val = upd (fun _ => none) 0 (some ⟨2 ^ 20, 0, es, owned⟩)
  env : a.al.env = upd (fun _ => none) (2 ^ 20) (some 4096)
  pool : ∃ P, a.al.pool 0 = some P ∧ P.bs = 64 ∧ P.al = 64 ∧ ∀ b ∈ P.segs, 2 ^ 21 ≤ b ∧ b + 8192 ≤ lo
  pools : ∀ id, id ≠ 0 → a.al.pool id = none

theorem FlatEx.val0 {s : FlatSpec.St} {a : FlatSpec.Ab} {lo : Nat} {es : List Elem} {owned : List Nat} (h : FlatEx s a lo es owned) :
    a.val 0 = some ⟨2 ^ 20, 0, es, owned⟩ := by rw [h.val]; rfl

/-- What malloc() returns in the example. -/
def flatMallocs (lo : Nat) : List (Nat × (Nat → Nat)) := (List.range 10).map fun i => (lo + 8192 * i, fun _ => 170)

theorem FlatEx.region {s : FlatSpec.St} {a : FlatSpec.Ab} {lo : Nat} {es : List Elem} {owned : List Nat} (h : FlatEx s a lo es owned)
    {b n : Nat} (hb : a.al.Region b n) : (b = 2 ^ 20 ∧ n = 4096) ∨ (2 ^ 21 ≤ b ∧ b + 8192 ≤ lo ∧ n = 4032) := by
  rcases hb with hb | ⟨id, P, hP, hb, hn⟩
  · rw [h.env] at hb
    simp only [upd_apply] at hb
    split at hb
    · next e => cases hb; exact Or.inl ⟨e, rfl⟩
    · cases hb
  · obtain ⟨Q, hQ, h1, h2, h3⟩ := h.pool
    have : id = 0 := by
      by_contra e
      rw [h.pools id e] at hP; cases hP
    subst this
    rw [hQ] at hP; cases hP
    refine Or.inr ⟨(h3 b hb).1, (h3 b hb).2, ?_⟩
    rw [hn, h1, h2]; decide

theorem FlatEx.start : ∃ s a, FlatEx s a (2 ^ 21) [] [] := by
  have hc := flat64
  have r0 := Sys.Reach.init (sys := FlatSpec.sys 0 trieUse trieCfg64)
    (s := ⟨⟨fun _ => 85, fun _ => none⟩, fun _ => none, fun _ => (⟨0, 7, 9⟩, 0)⟩)
    (a := ⟨⟨fun _ => none, fun _ => none⟩, fun _ => none⟩)
    ⟨fun _ => rfl, fun _ => (by decide : 85 < 256), fun _ => rfl, fun _ => rfl, fun _ => rfl, fun _ => rfl⟩
  obtain ⟨o1, s1, r1, a1⟩ := hc.extend r0 (.al (.init 0 64 64)) ⟨⟨rfl, by decide, by decide, by decide, by decide⟩, trivial⟩
  obtain ⟨o1, rfl, a1⟩ := a1
  obtain ⟨o2, s2, r2, a2⟩ := hc.extend r1 (.al (.emalloc (2 ^ 20) 4096 fun _ => 0)) (by
    have hno : ∀ b n, ¬ AllocSpec.Ab.Region ((FlatSpec.sys 0 trieUse trieCfg64).next
        ⟨⟨fun _ => none, fun _ => none⟩, fun _ => none⟩ (.al (.init 0 64 64)) (.al o1)).al b n := by
      rintro b n (hx | ⟨id, P, hP, hx, _⟩)
      · cases hx
      · simp only [FlatSpec.sys, FlatSpec.next, AllocSpec.next, upd_apply] at hP
        split at hP
        · cases hP; cases hx
        · cases hP
    exact ⟨⟨show 2 ^ 20 % 16 = 0 by decide, by decide, by decide, fun n hx => hno _ _ hx, fun b n hx => (hno _ _ hx).elim⟩,
      fun _ => (by decide : 0 < 256)⟩)
  obtain ⟨o2, rfl, a2⟩ := a2
  obtain ⟨o3, s3, r3, a3⟩ := hc.extend r2 (.init 0 (2 ^ 20) 0) (by
    refine ⟨⟨_, rfl, by decide⟩, Or.inl ⟨2 ^ 20, 4096, rfl, by decide, by decide⟩, ?_⟩
    rintro x _ _ ⟨v, T, hv, _⟩
    simp only [FlatSpec.sys, FlatSpec.next, FlatSpec.Ab.forget, upd_apply] at hv
    split at hv <;> cases hv)
  exact ⟨_, _, r3, rfl, rfl, ⟨_, rfl, rfl, rfl, by simp⟩, fun id h => upd_ne h⟩

theorem FlatEx.clear {s : FlatSpec.St} {a : FlatSpec.Ab} {lo : Nat} {es : List Elem} {owned : List Nat} (h : FlatEx s a lo es owned)
    {p : Nat} (hp : 2 ^ 20 + 1024 ≤ p) (hp' : p + 32 ≤ 2 ^ 20 + 4096) (hn : ∀ e ∈ es, p + 32 ≤ e.node ∨ e.node + 32 ≤ p) :
    a.Clear trieCfg64 p 32 := by
  rintro x h1 h2 ⟨v, T, hv, hx⟩
  have hv0 : v = 0 ∧ T = ⟨2 ^ 20, 0, es, owned⟩ := by
    rw [h.val] at hv
    simp only [upd_apply] at hv
    split at hv
    · next e => cases hv; exact ⟨e, rfl⟩
    · cases hv
  obtain ⟨rfl, rfl⟩ := hv0
  rcases hx with hx | ⟨b, hb, hx⟩ | ⟨e, he, hx⟩
  · have : FlatSpec.structSize trieCfg64 = 280 := by decide
    simp only [this] at hx
    omega
  · obtain ⟨_, ⟨P, hP, hu⟩, _⟩ := C59_blocks trieCfg64 trieCfg64_ok 0 trieUse C28_trie_partial s a h.reach 0 _ hv
    obtain ⟨Q, hQ, hbs, hal, hs⟩ := h.pool
    have hP : a.al.pool 0 = some P := hP
    rw [hQ] at hP; cases hP
    obtain ⟨hI, _⟩ := FlatSpec.reach_flat trieCfg64_ok C28_trie_partial s a h.reach
    obtain ⟨t, F, _, hi⟩ := hI.1.get hQ
    obtain ⟨_, b', hb', h3, _⟩ := hi.blk b (by simp [hu b hb])
    have := (hs b' hb').1
    omega
  · rcases hn e he with hq | hq
    · exact Nat.lt_irrefl _ (Nat.lt_of_lt_of_le h2 (Nat.le_trans hq hx.1))
    · exact Nat.lt_irrefl _ (Nat.lt_of_lt_of_le hx.2 (Nat.le_trans hq h1))

theorem FlatEx.insert {s : FlatSpec.St} {a : FlatSpec.Ab} {lo : Nat} {es : List Elem} {owned : List Nat} (h : FlatEx s a lo es owned)
    (p d k : Nat) (hlo : lo < 2 ^ 40) (h16 : lo % 16 = 0) (hlo' : 2 ^ 21 ≤ lo) (hp : 2 ^ 20 + 1024 ≤ p) (hp' : p + 32 ≤ 2 ^ 20 + 4096) (ev : p % 2 = 0)
    (hd : d < 2 ^ sizeBit) (hk : k < 2 ^ 32) (hn : ∀ e ∈ es, p + 32 ≤ e.node ∨ e.node + 32 ≤ p) :
    ∃ s' a' owned', FlatEx s' a' (lo + 90112) (es ++ [⟨p, d, k⟩]) owned' := by
  obtain ⟨P, hP, hbs, hal, hseg⟩ := h.pool
  have hv : a.val 0 = some ⟨2 ^ 20, 0, es, owned⟩ := by rw [h.val]; rfl
  have hss : AllocSpec.segSize P.bs P.al = 4032 := by rw [hbs, hal]; decide
  obtain ⟨o, s', r, ha⟩ := flat64.extend h.reach (.insert 0 p d k (flatMallocs lo)) (by
    refine ⟨_, P, hv, hP, Or.inl ⟨2 ^ 20, 4096, by rw [h.env]; rfl, by omega, by arch⟩, h.clear hp hp' hn, ev, hd, hk, ?_, ?_, ?_⟩
    · simp only [flatMallocs, List.length_map, List.length_range]; decide
    · intro m hm
      simp only [flatMallocs, List.mem_map, List.mem_range] at hm
      obtain ⟨i, hi, rfl⟩ := hm
      rw [hss]
      refine ⟨show (lo + 8192 * i) % 16 = 0 by omega, ⟨?_, ?_, ?_, ?_⟩, fun _ => (by decide : 170 < 256)⟩
      · show 0 < lo + 8192 * i; omega
      · show lo + 8192 * i + 4032 + 0 < 2 ^ 64; omega
      · intro n hx
        have := h.region hx
        omega
      · intro b n hx
        show lo + 8192 * i + 4032 + 0 ≤ b ∨ b + n + 0 ≤ lo + 8192 * i
        have := h.region hx
        omega
    · rw [hss]
      unfold flatMallocs
      rw [List.pairwise_map]
      refine List.pairwise_lt_range.imp fun {i j} hij => ?_
      show lo + 8192 * i + 4032 + 0 ≤ lo + 8192 * j ∨ _
      omega)
  obtain ⟨log, rfl, _, _, _, hm⟩ := ha _ hv
  obtain ⟨P', g1, g2, g3, g4, g5, g6⟩ := flat_segs 0 log a.al P hP
  refine ⟨s', _, (owned ++ FlatSpec.gots log).filter fun b => b ∉ FlatSpec.gaves log, r, ?_, ?_, ⟨P', ?_, g2.trans hbs, g3.trans hal, fun b hb => ?_⟩, fun id hid => ?_⟩
  · simp only [FlatSpec.sys, FlatSpec.next, FlatSpec.Ab.onTrie, hv]
    rw [h.val, FlatSpec.upd_upd]
  · simp only [FlatSpec.sys, FlatSpec.next, FlatSpec.Ab.onTrie, hv]
    exact g4.trans h.env
  · simp only [FlatSpec.sys, FlatSpec.next, FlatSpec.Ab.onTrie, hv]
    exact g1
  · rcases g6 b hb with hb | ⟨q, hq⟩
    · have := hseg b hb
      omega
    · have := hm q b hq
      simp only [flatMallocs, List.map_map, List.mem_map, List.mem_range] at this
      obtain ⟨i, hi, hb⟩ := this
      have hb : lo + 8192 * i = b := hb
      omega
  · simp only [FlatSpec.sys, FlatSpec.next, FlatSpec.Ab.onTrie, hv]
    rw [g5 id hid]; exact h.pools id hid

/-- Four elements, two with the same key, two keys which differ in the last bit. -/
theorem flatReach : ∃ s a lo owned, FlatEx s a lo [⟨2 ^ 20 + 1024, 10, 6⟩, ⟨2 ^ 20 + 1056, 20, 7⟩, ⟨2 ^ 20 + 1088, 30, 6⟩,
    ⟨2 ^ 20 + 1120, 40, 2 ^ 32 - 1⟩] owned := by
  obtain ⟨_, _, h⟩ := FlatEx.start
  obtain ⟨_, _, _, h⟩ := h.insert (2 ^ 20 + 1024) 10 6 (by decide) (by decide) (by decide) (by decide) (by decide) (by decide) (by decide) (by decide)
    (by simp)
  obtain ⟨_, _, _, h⟩ := h.insert (2 ^ 20 + 1056) 20 7 (by decide) (by decide) (by decide) (by decide) (by decide) (by decide) (by decide) (by decide)
    (by simp)
  obtain ⟨_, _, _, h⟩ := h.insert (2 ^ 20 + 1088) 30 6 (by decide) (by decide) (by decide) (by decide) (by decide) (by decide) (by decide) (by decide)
    (by simp)
  obtain ⟨s, a, owned, h⟩ := h.insert (2 ^ 20 + 1120) 40 (2 ^ 32 - 1) (by decide) (by decide) (by decide) (by decide) (by decide) (by decide) (by decide)
    (by decide) (by simp)
  exact ⟨s, a, _, owned, h⟩

theorem flatBlocks : blocksFor trieCfg64 (keySet [⟨2 ^ 20 + 1024, 10, 6⟩, ⟨2 ^ 20 + 1056, 20, 7⟩, ⟨2 ^ 20 + 1088, 30, 6⟩,
    ⟨2 ^ 20 + 1120, 40, 2 ^ 32 - 1⟩]) = 10 := by decide +kernel

/-- C59 on the example: the results, and the ten blocks of the two keys which differ in the last bit. -/
example : ∃ s a, (FlatSpec.sys 0 trieUse trieCfg64).Reach s a ∧
    (∃ s', FlatSpec.step 0 trieCfg64 (.search 0 6) s = some (.trie (.val 10) [], s')) ∧
    (∃ s', FlatSpec.step 0 trieCfg64 (.search 0 8) s = some (.trie (.val 0) [], s')) ∧
    (∃ s', FlatSpec.step 0 trieCfg64 (.bucket 0 6) s =
      some (.trie (.elems [⟨2 ^ 20 + 1024, 10, 6⟩, ⟨2 ^ 20 + 1088, 30, 6⟩]) [], s')) ∧
    (∃ log s', FlatSpec.step 0 trieCfg64 (.remove 0 7) s = some (.trie (.val 20) log, s')) ∧
    (∃ s', FlatSpec.step 0 trieCfg64 (.count 0) s = some (.trie (.val 4) [], s')) ∧
    ∃ T, a.val 0 = some T ∧ T.owned.length = 10 ∧ ∃ P, a.al.pool 0 = some P ∧ ∀ b ∈ T.owned, b ∈ P.used := by
  obtain ⟨s, a, lo, owned, h⟩ := flatReach
  have hv := h.val0
  have so : (a.val 0).isSome := by rw [hv]; rfl
  refine ⟨s, a, h.reach, ?_, ?_, ?_, ?_, ?_, _, hv, ?_, ?_⟩
  · obtain ⟨out, s', e, al⟩ := flat64 s a h.reach (.search 0 6) ⟨so, by decide⟩
    exact ⟨s', (show out = _ from al _ hv) ▸ e⟩
  · obtain ⟨out, s', e, al⟩ := flat64 s a h.reach (.search 0 8) ⟨so, by decide⟩
    exact ⟨s', (show out = _ from al _ hv) ▸ e⟩
  · obtain ⟨out, s', e, al⟩ := flat64 s a h.reach (.bucket 0 6) ⟨so, by decide⟩
    exact ⟨s', (show out = _ from al _ hv) ▸ e⟩
  · obtain ⟨out, s', e, al⟩ := flat64 s a h.reach (.remove 0 7) ⟨so, by decide⟩
    obtain ⟨log, rfl, _⟩ := al _ hv
    exact ⟨log, s', e⟩
  · obtain ⟨out, s', e, al⟩ := flat64 s a h.reach (.count 0) so
    exact ⟨s', (show out = _ from al _ hv) ▸ e⟩
  · rw [(C59_blocks _ trieCfg64_ok _ _ C28_trie_partial s a h.reach 0 _ hv).2.2.1]
    exact flatBlocks
  · exact (C59_blocks _ trieCfg64_ok _ _ C28_trie_partial s a h.reach 0 _ hv).2.1

/-- The frame of C59 on the example: removing the key 7 does not touch the nodes with the key 6. -/
example : ∃ s a s' out, (FlatSpec.sys 0 trieUse trieCfg64).Reach s a ∧
    FlatSpec.step 0 trieCfg64 (.remove 0 7) s = some (out, s') ∧
    ∀ x, 2 ^ 20 + 1024 ≤ x → x < 2 ^ 20 + 1056 → s'.mem.byte x = s.mem.byte x := by
  obtain ⟨s, a, lo, owned, h⟩ := flatReach
  have hv := h.val0
  have hl : FlatSpec.legal 0 trieUse trieCfg64 a (.remove 0 7) := ⟨by rw [hv]; rfl, by decide⟩
  obtain ⟨out, s', e, al⟩ := flat64 s a h.reach (.remove 0 7) hl
  obtain ⟨log, rfl, _⟩ := al _ hv
  have henv : a.al.env (2 ^ 20) = some 4096 := by rw [h.env]; rfl
  obtain ⟨P, hP, _⟩ := h.pool
  refine ⟨s, a, s', _, h.reach, e, fun x h1 h2 => C59_frame _ trieCfg64_ok _ _ C28_trie_partial s a h.reach _ hl trivial _ s' e x
    (Or.inl ⟨_, _, henv, by omega, by omega⟩) (Or.inl ⟨2 ^ 20, 4096, ?_, by omega, by omega⟩) ?_⟩
  · simp only [FlatSpec.next, FlatSpec.Ab.onTrie, hv]
    rw [(flat_segs 0 log a.al P hP).choose_spec.2.2.2.1]; exact henv
  · rintro ⟨T, hT, hx⟩
    rw [hv] at hT; cases hT
    rcases hx with hx | ⟨b, hb, hx⟩ | ⟨f, hf, hx⟩
    · have : FlatSpec.structSize trieCfg64 = 280 := by decide
      simp only [this] at hx
      omega
    · have := ((C59_blocks _ trieCfg64_ok _ _ C28_trie_partial s a h.reach 0 _ hv).2.2.2.2 0 _ hv b hb).2
        ⟨2 ^ 20 + 1024, 10, 6⟩ (by simp)
      have t : ptrSize * trieCfg64.treeMax = 64 := by decide
      rw [t] at this hx
      change b + 64 ≤ 2 ^ 20 + 1024 ∨ 2 ^ 20 + 1024 + 32 ≤ b at this
      omega
    · simp at hf
      obtain ⟨rfl⟩ := hf
      change 2 ^ 20 + 1056 ≤ x ∧ _ at hx
      omega

/-- The end of the example: without the trie the allocator can be closed, and only the 4096 bytes of the program remain. -/
example : ∃ s a s', (FlatSpec.sys 0 trieUse trieCfg64).Reach s a ∧
    FlatSpec.step 0 trieCfg64 (.al (.done 0)) s = some (.al .unit, s') ∧
    ∃ P, a.al.pool 0 = some P ∧ P.segs ≠ [] ∧ ∀ b ∈ P.segs, s.mem.live b ≠ none ∧ s'.mem.live b = none := by
  obtain ⟨s, a, lo, owned, h⟩ := flatReach
  have hv := h.val0
  obtain ⟨P, hP, hbs, _⟩ := h.pool
  have hb := C59_blocks _ trieCfg64_ok _ _ C28_trie_partial s a h.reach 0 _ hv
  obtain ⟨o, s1, r1, a1⟩ := flat64.extend h.reach (.forget 0) trivial
  have hcl : ∀ x n, (a.forget 0).Clear trieCfg64 x n := by
    rintro x n y _ _ ⟨v, T, hT, _⟩
    simp only [FlatSpec.Ab.forget, h.val, upd_apply] at hT
    split at hT <;> cases hT
  obtain ⟨s', e, hs⟩ := C59_done _ trieCfg64_ok _ _ C28_trie_partial s1 _ r1 0 P hP fun p _ => hcl p P.bs
  refine ⟨s1, _, s', r1, e, P, hP, ?_, fun b hb => ⟨?_, hs b hb⟩⟩
  · have hlen : owned.length = 10 := hb.2.2.1.trans flatBlocks
    obtain ⟨b, hb'⟩ := List.exists_mem_of_length_pos (show 0 < owned.length by omega)
    obtain ⟨Q, hQ, hu⟩ := hb.2.1
    have hQ : a.al.pool 0 = some Q := hQ
    rw [hP] at hQ; cases hQ
    obtain ⟨t, F, _, hi⟩ := (FlatSpec.reach_flat trieCfg64_ok C28_trie_partial s a h.reach).1.1.get hP
    obtain ⟨_, b', hb2, _⟩ := hi.blk b (by simp [hu b hb'])
    exact List.ne_nil_of_mem hb2
  · have := (C59_live _ trieCfg64_ok _ _ C28_trie_partial s1 _ r1 b (AllocSpec.segSize P.bs P.al)).2
      ⟨_, rfl, Or.inr ⟨0, P, hP, hb, rfl⟩⟩
    rw [this]; simp

/-- Another configuration: 64 bit keys, 16 children, with malloc() that gives 8 bytes more. -/
example : (FlatSpec.sys 8 anyUse ⟨64, 16⟩).Correct :=
  C59_slack _ ⟨⟨4, by decide, by decide, by decide⟩, by decide, by decide⟩ 8 (by decide) anyUse
/-- The 32 bit build: 16 children in the same 64 bytes. -/
example : (@FlatSpec.sys .w32 0 (@trieUse .w32) ⟨32, 16⟩).Correct := @C59_trie_alloc .w32

end Tommy
