import Verif.Proof.TrieFlatStep
import Mathlib.Data.Nat.Prime.Basic
/-! The calls of the tries keep the invariant. -/
set_option linter.unusedSimpArgs false
set_option linter.unusedVariables false
namespace Tommy

variable [Arch]
namespace FlatSpec
open HashSpec (Elem SameNode)
open TrieSpec (CfgOk TrieOk levels first Fr Res)
open AllocSpec (AInv PoolInv acc_of rdP_congr wrP_out rdP_wrP rdP_wrP_out segSize segBlocks pad pad_lt pad_mod Off)

variable {slack : Nat} {u : AllocSpec.Use} {c : TrieCfg} {s : St} {a : Ab} {tm : TMem}

/-! ### The blocks the allocator is going to return -/

theorem mem_segBlocks {bs al base p : Nat} (h8 : ptrSize ≤ al) (hm : bs % al = 0) (hr : AllocSpec.Room slack bs al base)
    (hp : p ∈ segBlocks bs al base) : p % al = 0 ∧ base + ptrSize ≤ p ∧ p + bs ≤ base + segSize bs al + slack := by
  obtain ⟨i, hi, rfl⟩ := AllocSpec.mem_blocks.1 hp
  refine ⟨?_, by omega, ?_⟩
  · rw [Nat.add_mod, pad_mod h8, Nat.mul_mod, hm]; simp
  · unfold AllocSpec.Room at hr
    have := AllocSpec.mul_le_mul_lt (bs := bs) hi
    omega

theorem segBlocks_pos {bs al base : Nat} (h8 : ptrSize ≤ al) (hb : 0 < bs) : 0 < (segBlocks bs al base).length := by
  unfold segBlocks
  rw [AllocSpec.blocks_length]
  have := AllocSpec.segSize_ge bs al
  have := pad_lt (base := base) h8
  exact Nat.div_pos (by omega) hb

theorem even_of_align (hc : CfgOk c) {bs al p : Nat} (hbs : bs = c.blockSize) (hm : bs % al = 0) (h8 : ptrSize ≤ al) (hp : p % al = 0) :
    p % 2 = 0 := by
  obtain ⟨t, _, _, ht⟩ := hc.pow
  have h1 : al ∣ 2 ^ (t + sizeBit / 32 + 1) := by
    have := Nat.dvd_of_mod_eq_zero hm
    rw [hbs, TrieCfg.blockSize, ht] at this
    have e : ptrSize = 2 ^ (sizeBit / 32 + 1) := by archd
    rw [Nat.add_assoc, Nat.pow_add, ← e]; exact this
  obtain ⟨k, _, rfl⟩ := (Nat.dvd_prime_pow Nat.prime_two).1 h1
  have hk : k ≠ 0 := by rintro rfl; arch
  have : 2 ∣ 2 ^ k := dvd_pow_self 2 hk
  exact Nat.mod_eq_zero_of_dvd (this.trans (Nat.dvd_of_mod_eq_zero hp))

theorem supply_ok (hc : CfgOk c) {als : Nat → Option Alloc} {mem : AMem} {al : AllocSpec.Ab} {id : Nat} {P : AllocSpec.Pool} {t : Alloc} {F : List Nat}
    (hI : AInv slack ⟨mem, als⟩ al) (hP : al.pool id = some P) (hpi : PoolInv slack mem t P F) (hbs : P.bs = c.blockSize)
    {ms : List (Nat × (Nat → Nat))} (hf : MallocsOk slack u al (segSize P.bs P.al) ms)
    (hroom : ∀ b, u.base b → AllocSpec.Room slack P.bs P.al b) :
    let sup := F ++ ms.flatMap fun m => segBlocks P.bs P.al m.1
    ms.length ≤ sup.length ∧ sup.Nodup ∧ ∀ b ∈ sup, b % 2 = 0 ∧ b ≠ 0 ∧ b < 2 ^ sizeBit ∧ ¬ al.UserByte b := by
  intro sup
  have h8 := hpi.al8
  have hb8 := hpi.bs8
  have hge := AllocSpec.segSize_ge P.bs P.al
  have hseg : ∀ m ∈ ms, ∀ p ∈ segBlocks P.bs P.al m.1, p % P.al = 0 ∧ m.1 + ptrSize ≤ p ∧ p + P.bs ≤ m.1 + segSize P.bs P.al + slack :=
    fun m hm p hp => mem_segBlocks h8 hpi.mul (hroom m.1 (hf.1 m hm).1) hp
  refine ⟨?_, ?_, ?_⟩
  · have : ms.length ≤ (ms.flatMap fun m => segBlocks P.bs P.al m.1).length := by
      clear hf hseg sup
      induction ms with
      | nil => simp
      | cons m ms ih =>
        have := segBlocks_pos (base := m.1) h8 (show 0 < P.bs by arch)
        simp only [List.flatMap_cons, List.length_append, List.length_cons]
        omega
    simp only [sup, List.length_append]; omega
  · have hpw : sup.Pairwise (Off P.bs) := by
      refine List.pairwise_append.2 ⟨(List.pairwise_append.1 hpi.apart).2.1, ?_, ?_⟩
      · rw [List.pairwise_flatMap]
        refine ⟨fun m hm => AllocSpec.blocks_apart _ _ _, ?_⟩
        refine (List.pairwise_iff_forall_sublist.2 ?_)
        intro m m' hsub p hp q hq
        have hmm := List.pairwise_iff_forall_sublist.1 hf.2 hsub
        have hmem : m ∈ ms := hsub.subset (by simp)
        have hmem' : m' ∈ ms := hsub.subset (by simp)
        have h1 := hseg m hmem p hp
        have h2 := hseg m' hmem' q hq
        unfold Off; omega
      · intro p hp q hq
        obtain ⟨m, hm, hq⟩ := List.mem_flatMap.1 hq
        obtain ⟨b, hb, h1, h2⟩ := hpi.in_region hP (p := p) (by simp [hp])
        have := (hf.1 m hm).2.1.2.2.2 b _ (AllocSpec.region_iff.2 ⟨_, hb⟩)
        have := hseg m hm q hq
        unfold Off; omega
    refine hpw.imp fun {x y} h e => ?_
    unfold Off at h; arch
  · intro b hb
    rcases List.mem_append.1 hb with hb | hb
    · obtain ⟨h1, b', hb', h2, h3⟩ := hpi.blk b (by simp [hb])
      have hl := (hpi.live b' hb').2
      refine ⟨even_of_align hc hbs hpi.mul h8 h1, by omega, by omega, fun hu => ?_⟩
      have := (hI.user_sep hu hP hpi).2 b hb
      arch
    · obtain ⟨m, hm, hq⟩ := List.mem_flatMap.1 hb
      have h1 := hseg m hm b hq
      have h2 := (hf.1 m hm).2.1
      refine ⟨even_of_align hc hbs hpi.mul h8 h1.1, by arch, by have := h2.2.1; omega, fun hu => ?_⟩
      obtain ⟨b', n, hr, h3, h4⟩ := hI.user_region hu
      have := h2.2.2.2 b' n hr
      arch

/-! ### The calls -/

/-- The invariant and the frame after a call. -/
def CallOk (slack : Nat) (u : AllocSpec.Use) (c : TrieCfg) (s : St) (a : Ab) (op : Op) : Prop :=
  ∃ r s', step slack c op s = some (r, s') ∧ allowed c a op r ∧ CInv slack u c s' (next a op r) ∧
    (isCall op → ∀ x, a.al.UserByte x → (next a op r).al.UserByte x → ¬ mayByte c a op x → s'.mem.byte x = s.mem.byte x)

theorem CTm.get (h : CTm c s a tm) (hI : AllocSpec.Inv slack u ⟨s.mem, s.al⟩ a.al) {v : Nat} {T : TrieAb} (hv : a.val v = some T) :
    ∃ P t F, a.al.pool T.id = some P ∧ P.bs = c.blockSize ∧ (∀ b ∈ T.owned, b ∈ P.used) ∧ s.al T.id = some t ∧
      PoolInv slack s.mem t P F ∧ u.sizes P.bs P.al := by
  obtain ⟨P, hP, h1, h2⟩ := h.pool v T hv
  obtain ⟨t, F, h3, h4⟩ := hI.1.get hP
  exact ⟨P, t, F, hP, h1, h2, h3, h4, hI.2 _ P hP⟩

theorem ctx_ok (hc : CfgOk c) (hu : AllocSpec.RoomFor slack u) {al : AllocSpec.Ab} {id : Nat} {P : AllocSpec.Pool} {t : Alloc} {F : List Nat}
    {mem : AMem} (hpi : PoolInv slack mem t P F) (hbs : P.bs = c.blockSize) (hsz : u.sizes P.bs P.al) {own : Nat → Prop} {ext : Nat → Nat}
    {mallocs : List (Nat × (Nat → Nat))} {sup : List Nat} {ins : Prop} (he : ∀ b, own b → ext b = 0) (hi : ins → ∀ b, ¬ own b) :
    CtxOk (ctx c slack u s al id P own ext tm mallocs sup ins) where
  cfg := hc
  bs := by simp only [ctx, hbs, TrieCfg.blockSize]; arch
  room b hb := hu _ _ _ hpi.al8 hpi.bs8 hpi.mul hsz hb
  ext := he
  ins := hi

omit [Arch] in
theorem call_run {α : Type} {id : Nat} {t : Alloc} {mallocs : List (Nat × (Nat → Nat))} {x : FM α} {res : α → Res}
    {var : α → Nat → Trie × Nat} {r : α} {fm : FMem} (ht : s.al id = some t) (h : x ⟨s.mem, t, mallocs, []⟩ = some (r, fm)) :
    call s id mallocs x res var = some (.trie (res r) fm.log, ⟨fm.mem, upd s.al id (some fm.al), var r⟩) := by
  simp only [call, ht, h, Option.bind_eq_bind, Option.bind_some]; rfl

theorem start_ok (hc : CfgOk c) {t : Trie} {es : List Elem} {bl : List Nat} (h : TrieOk c tm t es bl) (sup : List Nat) :
    TrieOk c { tm with supply := sup, freed := [] } t es bl :=
  h.same hc (fun _ _ => ⟨fun h => h, rfl, rfl, rfl, rfl⟩) fun _ _ => ⟨rfl, fun _ _ => rfl⟩

omit [Arch] in
theorem fr_start {N B : Ptr → Prop} (tm : TMem) (sup : List Nat) : Fr tm { tm with supply := sup, freed := [] } N B :=
  ⟨fun q _ => ⟨fun h => h, rfl, rfl, rfl, rfl⟩, rfl, fun _ _ => ⟨rfl, fun _ => rfl⟩⟩

/-- The functions which do not write. -/
theorem step_read (hc : CfgOk c) (hu : AllocSpec.RoomFor slack u) (h : CInv slack u c s a) {v : Nat} {T : TrieAb} (hv : a.val v = some T)
    {α : Type} {xf : FM α} {xt : TM α} {r : α} (res : α → Res)
    (hsim : ∀ X : Ctx, X.c = c → Sim0 X (fun _ => True) xf xt)
    (hrun : ∀ tm, TrieOk c tm (s.var v).1 T.es T.owned → xt tm = some (r, tm)) :
    ∃ s', call s (s.var v).2 [] xf res (fun _ => s.var) = some (.trie (res r) [], s') ∧ CInv slack u c s' a ∧
      ∀ x, a.al.UserByte x → s'.mem.byte x = s.mem.byte x := by
  obtain ⟨hI, tm, hT⟩ := h
  obtain ⟨P, t, F, hP, hbs, hown, ht, hpi, hsz⟩ := hT.get hI hv
  have hid := (hT.var v T hv).2
  have hR := Rel.start (c := c) (u := u) (own := fun _ => False) (sup := []) (mallocs := []) (ins := False) hI.1 hP ht hpi hT.mrel
    ⟨by simp, by simp⟩ (fun b hb => hb.elim) (fun b hb => hT.ext_obj hb) (fun h => h.elim)
  have run := hrun _ (start_ok hc (hT.trie v T hv) [])
  obtain ⟨fm', e, hR', _⟩ := hsim _ rfl _ _ _ run _ hR (by simp)
  have hlog : fm'.log = [] := by
    have h1 := hR'.sup
    have h2 := hR'.frd
    simp only [ctx, List.append_nil] at h1 h2
    exact log_nil h1.symm h2.symm
  have hab : (ctx c slack u s a.al T.id P (fun _ => False) (extOf a) tm [] [] False).ab fm' = a.al := by
    simp only [Ctx.ab, hlog]; rfl
  have hm' := hR'.mrel
  rw [hab] at hm'
  refine ⟨_, by rw [hid, call_run ht e, hlog], ⟨⟨?_, hI.2⟩, { tm with supply := [], freed := [] }, ?_⟩, fun x hx => ?_⟩
  · have := hR'.inv
    rw [hab] at this; exact this
  · refine ⟨hm', hT.obj, hT.node, hT.var, fun w U hw => ?_, hT.pool, hT.osep, hT.nsep⟩
    exact start_ok hc (hT.trie w U hw) []
  · exact frame_bytes (N := fun _ => False) (B := fun _ => False) hT.mrel hm' (fr_start tm [])
      (fun hp => (hR'.prot x hp).2.1) hx (fun _ _ _ _ h => h) (fun _ _ _ _ h => h)

/-- The functions which remove: `F` are the blocks given back. -/
theorem step_write (hc : CfgOk c) (hu : AllocSpec.RoomFor slack u) (h : CInv slack u c s a) {v : Nat} {T : TrieAb} (hv : a.val v = some T)
    {xf : FM (Trie × Nat)} {xt : TM (Trie × Nat)} {val : Nat} {es' : List Elem} {K : Elem → Prop}
    (hsim : ∀ X : Ctx, CtxOk X → X.c = c → Sim0 X (fun _ => True) xf xt)
    (hrun : ∀ tm, TrieOk c tm (s.var v).1 T.es T.owned → tm.freed = [] → ∃ t' tm' F, xt tm = some ((t', val), tm') ∧
      t'.base = (s.var v).1.base ∧ TrieOk c tm' t' es' (T.owned.filter fun b => b ∉ F) ∧ tm'.supply = tm.supply ∧
      tm'.freed = tm.freed ++ F ∧ F.Nodup ∧ (∀ b ∈ F, b ∈ T.owned) ∧
      Fr tm tm' (fun q => ∃ f ∈ T.es, K f ∧ f.node = q) (fun b => b ∈ T.owned ∨ b = (s.var v).1.base))
    (hes : ∀ e ∈ es', e ∈ T.es) :
    ∃ s' log, call s (s.var v).2 [] xf (fun r => .val r.2) (fun r => upd s.var v (r.1, (s.var v).2)) = some (.trie (.val val) log, s') ∧
      Trace T.id a.al log ∧ gots log = [] ∧ (gaves log).Nodup ∧ (∀ b ∈ gaves log, b ∈ T.owned) ∧
      CInv slack u c s' (a.onTrie v log fun _ => es') ∧
      ∀ x, a.al.UserByte x → (∀ f ∈ T.es, K f → ¬ (f.node ≤ x ∧ x < f.node + nodeSize)) → ¬ (T.base ≤ x ∧ x < T.base + structSize c) →
        (∀ b ∈ T.owned, ¬ (b ≤ x ∧ x < b + ptrSize * c.treeMax)) → s'.mem.byte x = s.mem.byte x := by
  obtain ⟨hI, tm, hT⟩ := h
  obtain ⟨P, t, Fr0, hP, hbs, hown, ht, hpi, hsz⟩ := hT.get hI hv
  obtain ⟨hbase, hid⟩ := hT.var v T hv
  have hR := Rel.start (c := c) (u := u) (own := fun b => b ∈ T.owned) (sup := []) (mallocs := []) (ins := False) hI.1 hP ht hpi hT.mrel
    ⟨by simp, by simp⟩ (fun b hb _ => ⟨hown b hb, (hT.trie v T hv).bsize hb⟩) (fun b hb => hT.ext_obj hb) (fun h => h.elim)
  obtain ⟨t', tm', F, run, htb, hT', hsup, hfrd, hnd, hF, fr⟩ := hrun _ (start_ok hc (hT.trie v T hv) []) rfl
  have hX := ctx_ok (s := s) (al := a.al) (id := T.id) (tm := tm) (mallocs := []) (sup := []) (ins := False) (own := fun b => b ∈ T.owned)
    (ext := extOf a) hc hu hpi hbs hsz (fun b hb => hT.ext_owned hv hb) (fun h => h.elim)
  have hfrd' : tm'.freed = F := by rw [hfrd]; rfl
  obtain ⟨fm', e, hR', _⟩ := hsim _ hX rfl _ _ _ run _ hR (by rw [hfrd']; exact hF)
  have hgot : gots fm'.log = [] := by
    have h1 := hR'.sup
    simp only [ctx, hsup, List.append_nil] at h1
    exact h1.symm
  have hgave : gaves fm'.log = F := by rw [← hR'.frd, hfrd']
  have fr' := (fr_start (N := fun q => ∃ f ∈ T.es, K f ∧ f.node = q) (B := fun b => b ∈ T.owned ∨ b = (s.var v).1.base) tm []).trans fr
  obtain ⟨⟨P', hP', hbs', hal', hused⟩, hother⟩ := replay_pool T.id fm'.log a.al P hP
  have hnB : ∀ w U, w ≠ v → a.val w = some U → ∀ b, U.Obj b → ¬ (b ∈ T.owned ∨ b = (s.var v).1.base) := by
    rintro w U hw hU b hb (h1 | h1)
    · exact hT.osep w v U T hw hU hv b hb (Or.inr h1)
    · exact hT.osep w v U T hw hU hv b hb (Or.inl (h1.trans hbase))
  have hnN : ∀ w U, w ≠ v → a.val w = some U → ∀ p, U.Has p → ¬ ∃ f ∈ T.es, K f ∧ f.node = p := by
    rintro w U hw hU p hp ⟨f, hf, _, rfl⟩
    exact hT.nsep w v U T hw hU hv _ hp ⟨f, hf, rfl⟩
  have hps : ∀ w U, w ≠ v → a.val w = some U → ∃ Q, (replay T.id a.al fm'.log).pool U.id = some Q ∧ Q.bs = c.blockSize ∧ ∀ b ∈ U.owned, b ∈ Q.used := by
    intro w U hw hU
    obtain ⟨Q, hQ, h1, h2⟩ := hT.pool w U hU
    by_cases e : U.id = T.id
    · rw [e, hP] at hQ; cases hQ
      refine ⟨P', by rw [e]; exact hP', hbs'.trans h1, fun b hb => hused b (Or.inl (h2 b hb)) fun hg => ?_⟩
      rw [hgave] at hg
      exact hT.osep w v U T hw hU hv b (Or.inr hb) (Or.inr (hF b hg))
    · exact ⟨Q, by rw [hother _ e]; exact hQ, h1, h2⟩
  obtain ⟨tm'', hfin⟩ := hT.finish (als' := upd s.al T.id (some fm'.al)) hc hv (fun p _ => HashSpec.SameNode.refl _ p) rfl rfl (fun _ h => h) fr' hnN hnB
    hR'.mrel hT' (htb.trans hbase) (fun b hb => Or.inl (List.mem_filter.1 hb).1) (fun e he => Or.inl ⟨e, hes e he, rfl⟩)
    ⟨P', hP', hbs'.trans hbs, fun b hb => by
      obtain ⟨h1, h2⟩ := List.mem_filter.1 hb
      exact hused b (Or.inl (hown b h1)) (by rw [hgave]; simpa using h2)⟩ hps
  refine ⟨_, fm'.log, by rw [hid, call_run ht e], hR'.trace, hgot, by rw [hgave]; exact hnd, by rw [hgave]; exact hF, ⟨⟨?_, ?_⟩, tm'', ?_⟩, ?_⟩
  · have := hR'.inv
    simp only [Ab.onTrie, hv]
    exact this
  · simp only [Ab.onTrie, hv]
    exact replay_sizes hP hI.2
  · simp only [Ab.onTrie, hv, hgot, hgave, List.append_nil]
    exact hfin
  · intro x hx h1 h2 h3
    refine frame_bytes hT.mrel hR'.mrel fr' (fun hp => (hR'.prot x hp).2.1) hx ?_ ?_
    · rintro b hb g1 g2 (hb' | hb')
      · rw [(hT.trie v T hv).bsize hb'] at g2
        exact h3 b hb' ⟨g1, g2⟩
      · rw [hbase] at hb'
        subst hb'
        rw [hT.size_base hv] at g2
        exact h2 ⟨g1, by unfold structSize; omega⟩
    · rintro p hp g1 g2 ⟨f, hf, hk, rfl⟩
      exact h1 f hf hk ⟨g1, g2⟩

theorem step_insert (hc : CfgOk c) (hu : AllocSpec.RoomFor slack u) (h : CInv slack u c s a) {v p d k : Nat} {mallocs : List (Nat × (Nat → Nat))}
    (hl : legal slack u c a (.insert v p d k mallocs)) : CallOk slack u c s a (.insert v p d k mallocs) := by
  obtain ⟨T, P, hv, hP, hin, hcl, hev, hd, hk, hlen, hfr⟩ := hl
  obtain ⟨hI, tm, hT⟩ := h
  obtain ⟨P1, t, F, hP1, hbs, hown, ht, hpi, hsz⟩ := hT.get hI hv
  rw [hP] at hP1; cases hP1
  obtain ⟨hbase, hid⟩ := hT.var v T hv
  have hroom : ∀ b, u.base b → AllocSpec.Room slack P.bs P.al b := fun b hb => hu _ _ _ hpi.al8 hpi.bs8 hpi.mul hsz hb
  obtain ⟨hsl, hsn, hsb⟩ := supply_ok hc hI.1 hP hpi hbs hfr hroom
  generalize hsup : (F ++ mallocs.flatMap fun m => segBlocks P.bs P.al m.1) = sup at hsl hsn hsb
  have hplt := hin.lt hI.1
  have hm0 := hT.mrel.addNode hin (fun b hb => hT.clear_obj hcl (by archd) hb) (fun q hq => hT.clear_node hcl (by archd) hq)
  have hnv : tm.heap.valid p = false := by
    rw [Bool.eq_false_iff]
    intro hx
    have := hT.clear_node hcl (by archd) hx
    arch
  have hR := Rel.start (c := c) (u := u) (own := fun _ => False) (sup := sup) (mallocs := mallocs) (ins := True) hI.1 hP ht hpi hm0
    hfr (fun b hb => hb.elim) (fun b hb => hT.ext_obj hb) (fun _ => hsup.symm)
  have hs0 : ∀ q, tm.heap.valid q = true → SameNode tm.heap (addNode s.mem tm p).heap q := fun q hq => by
    have hne : q ≠ p := fun e => by rw [e, hnv] at hq; cases hq
    exact ⟨fun ho => ⟨ho.1, by simp only [addNode, upd_ne hne]; exact ho.2⟩, by simp only [addNode, upd_ne hne],
      by simp only [addNode, upd_ne hne], by simp only [addNode, upd_ne hne], by simp only [addNode, upd_ne hne]⟩
  have hT0 : TrieOk c (addNode s.mem tm p) (s.var v).1 T.es T.owned :=
    (hT.trie v T hv).same hc (fun e he => hs0 _ ((hT.node _).2 ⟨v, T, hv, e, he, rfl⟩)) fun b _ => ⟨rfl, fun _ _ => rfl⟩
  have hfresh : p ∉ T.es.map Elem.node := fun hx => by
    obtain ⟨e, he, rfl⟩ := List.mem_map.1 hx
    rw [(hT.node _).2 ⟨v, T, hv, e, he, rfl⟩] at hnv; cases hnv
  have hcs : ∀ b ∈ sup, tm.csize b = 0 := fun b hb => by
    by_contra hx
    exact (hsb b hb).2.2.2 ((hT.mrel.obj b hx).user (Nat.le_refl _) (by arch))
  have hlen' : T.es.length + 1 < 2 ^ sizeBit := by
    obtain ⟨ch, Top⟩ := (hT.trie v T hv).top
    have hnd : (p :: T.es.map Elem.node).Nodup := List.nodup_cons.2 ⟨hfresh, Top.nodup⟩
    have := TrieSpec.length_lt_of_nodup hnd fun q hq => by
      have hq' : Inside a.al q nodeSize := by
        rcases List.mem_cons.1 hq with rfl | hq
        · exact hin
        · obtain ⟨e, he, rfl⟩ := List.mem_map.1 hq
          exact hT.mrel.node _ ((hT.node _).2 ⟨v, T, hv, e, he, rfl⟩)
      have := hq'.lt hI.1
      omega
    simpa using this
  obtain ⟨t', tm', new, run, htb, hT', hsup', hfrd, hnl, fr⟩ := TrieSpec.trieInsert_spec hc (start_ok hc hT0 sup) (x := ⟨p, d, k⟩)
    ⟨by show p ≠ 0; omega, by simp [addNode]⟩ hev hfresh hk hlen' (Nat.le_trans hlen hsl) hsn (fun b hb =>
      ⟨fun hx => (hT.obj b).2 ⟨v, T, hv, Or.inr hx⟩ (hcs b hb), fun hx => (hT.obj b).2 ⟨v, T, hv, Or.inl (hx.trans hbase)⟩ (hcs b hb),
        (hsb b hb).1, (hsb b hb).2.1, (hsb b hb).2.2.1⟩)
  have hX := ctx_ok (s := s) (al := a.al) (id := T.id) (tm := addNode s.mem tm p) (mallocs := mallocs) (sup := sup) (ins := True) (own := fun _ => False)
    (ext := extOf a) hc hu hpi hbs hsz (fun b hb => hb.elim) (fun _ _ h => h)
  have hk64 : k < 2 ^ sizeBit := Nat.lt_of_lt_of_le hk (Nat.pow_le_pow_right (by decide) hc.high)
  obtain ⟨fm', e, hR', _⟩ := sim_insert hX trivial (s.var v).1 (node := p) (data := d) (key := k) (by omega) hd hk64 _ _ _ run _ hR
    (by rw [hfrd]; simp)
  have hgave : gaves fm'.log = [] := by rw [← hR'.frd, hfrd]
  have hgot : gots fm'.log = new := by
    have h1 : sup = gots fm'.log ++ tm'.supply := hR'.sup
    have h2 : sup = new ++ tm'.supply := hsup'
    exact List.append_cancel_right (h1.symm.trans h2)
  have hnew : ∀ b ∈ new, b ∈ sup := fun b hb => by
    have h2 : sup = new ++ tm'.supply := hsup'
    rw [h2]; simp [hb]
  have fr' := (fr_start (N := fun q => q = p ∨ ∃ e ∈ T.es, e.hash = k ∧ e.node = q)
    (B := fun b => b ∈ T.owned ∨ b ∈ new ∨ b = (s.var v).1.base) (addNode s.mem tm p) sup).trans fr
  obtain ⟨⟨P', hP', hbs', hal', hused⟩, hother⟩ := replay_pool T.id fm'.log a.al P hP
  have hnB : ∀ w U, w ≠ v → a.val w = some U → ∀ b, U.Obj b → ¬ (b ∈ T.owned ∨ b ∈ new ∨ b = (s.var v).1.base) := by
    rintro w U hw hU b hb (h1 | h1 | h1)
    · exact hT.osep w v U T hw hU hv b hb (Or.inr h1)
    · exact (hT.obj b).2 ⟨w, U, hU, hb⟩ (hcs b (hnew b h1))
    · exact hT.osep w v U T hw hU hv b hb (Or.inl (h1.trans hbase))
  have hnN : ∀ w U, w ≠ v → a.val w = some U → ∀ q, U.Has q → ¬ (q = p ∨ ∃ e ∈ T.es, e.hash = k ∧ e.node = q) := by
    rintro w U hw hU q hq (rfl | ⟨f, hf, _, rfl⟩)
    · rw [(hT.node _).2 ⟨w, U, hU, hq⟩] at hnv; cases hnv
    · exact hT.nsep w v U T hw hU hv _ hq ⟨f, hf, rfl⟩
  have hps : ∀ w U, w ≠ v → a.val w = some U → ∃ Q, (replay T.id a.al fm'.log).pool U.id = some Q ∧ Q.bs = c.blockSize ∧ ∀ b ∈ U.owned, b ∈ Q.used := by
    intro w U hw hU
    obtain ⟨Q, hQ, h1, h2⟩ := hT.pool w U hU
    by_cases e : U.id = T.id
    · rw [e, hP] at hQ; cases hQ
      exact ⟨P', by rw [e]; exact hP', hbs'.trans h1, fun b hb => hused b (Or.inl (h2 b hb)) (by rw [hgave]; simp)⟩
    · exact ⟨Q, by rw [hother _ e]; exact hQ, h1, h2⟩
  obtain ⟨tm'', hfin⟩ := hT.finish (als' := upd s.al T.id (some fm'.al)) (tm0 := addNode s.mem tm p) hc hv hs0 rfl rfl (fun q hq => by
      simp only [addNode, upd_apply]; split
      · rfl
      · exact hq) fr' hnN hnB
    hR'.mrel hT' (htb.trans hbase) (fun b hb => (List.mem_append.1 hb).imp id fun hb => hcs b (hnew b hb))
    (fun e he => by
      rcases List.mem_append.1 he with he | he
      · exact Or.inl ⟨e, he, rfl⟩
      · rw [List.mem_singleton] at he
        subst he
        exact Or.inr hnv)
    ⟨P', hP', hbs'.trans hbs, fun b hb => by
      refine hused b ((List.mem_append.1 hb).imp (hown b) fun hb => by rw [hgot]; exact hb) (by rw [hgave]; simp)⟩ hps
  have hstep : step slack c (.insert v p d k mallocs) s = some (.trie .unit fm'.log, ⟨fm'.mem, upd s.al T.id (some fm'.al), upd s.var v (t', T.id)⟩) := by
    simp only [step]
    rw [hid]
    exact call_run (res := fun _ => Res.unit) (var := fun t => upd s.var v (t, T.id)) ht e
  refine ⟨_, _, hstep, ?_, ⟨⟨?_, ?_⟩, tm'', ?_⟩, fun _ x hx hx' hmay => ?_⟩
  · intro T1 hT1
    rw [hv] at hT1; cases hT1
    refine ⟨fm'.log, rfl, hR'.trace, hgave, ?_, hR'.mal.2⟩
    rw [log_length, hgave, hgot]; simpa using hnl
  · have := hR'.inv
    simp only [next, Ab.onTrie, hv]
    exact this
  · simp only [next, Ab.onTrie, hv]
    exact replay_sizes hP hI.2
  · have e1 : (T.owned ++ new).filter (fun b => b ∉ ([] : List Nat)) = T.owned ++ new := by simp
    simp only [next, Ab.onTrie, hv, hgot, hgave, e1]
    exact hfin
  · refine frame_bytes hm0 hR'.mrel fr' (fun hp => (hR'.prot x hp).2.1) hx ?_ ?_
    · rintro b hb g1 g2 (hb' | hb' | hb')
      · have g2 : x < b + ptrSize * tm.csize b := g2
        rw [(hT.trie v T hv).bsize hb'] at g2
        exact hmay (Or.inr ⟨T, hv, Or.inr (Or.inl ⟨b, hb', g1, g2⟩)⟩)
      · exact hb (hcs b (hnew b hb'))
      · rw [hbase] at hb'
        subst hb'
        have g2 : x < T.base + ptrSize * tm.csize T.base := g2
        rw [hT.size_base hv] at g2
        exact hmay (Or.inr ⟨T, hv, Or.inl ⟨g1, by simp only [structSize]; omega⟩⟩)
    · rintro q hq g1 g2 (rfl | ⟨f, hf, hk, rfl⟩)
      · exact hmay (Or.inl ⟨g1, g2⟩)
      · exact hmay (Or.inr ⟨T, hv, Or.inr (Or.inr ⟨f, List.mem_filter.2 ⟨hf, by simpa using hk⟩, g1, g2⟩)⟩)

theorem step_init (hc : CfgOk c) (hu : AllocSpec.RoomFor slack u) (h : CInv slack u c s a) {v base id : Nat}
    (hl : legal slack u c a (.init v base id)) : CallOk slack u c s a (.init v base id) := by
  obtain ⟨⟨P, hP, hbs⟩, hin, hcl⟩ := hl
  obtain ⟨hI, tm0, hT0⟩ := h
  obtain ⟨tm, hT⟩ := hT0.forget hc v
  obtain ⟨t, F, ht, hpi⟩ := hI.1.get hP
  have hbpos := CfgOk.bucket_pos c
  let T' : TrieAb := ⟨base, id, [], []⟩
  let a' : Ab := ⟨a.al, upd (a.forget v).val v (some T')⟩
  have ha' : a' = next a (.init v base id) (.trie .unit []) := by
    simp only [a', next, Ab.forget, upd_upd]; rfl
  have hval : ∀ w U, (a.forget v).val w = some U → w ≠ v := fun w U hw e => by
    subst e; simp [Ab.forget] at hw
  have hext' : ∀ b : Nat, b ≠ base → extOf a' b = extOf (a.forget v) b := by
    intro b hb
    unfold extOf
    have : (∃ w U, a'.val w = some U ∧ U.base = b) ↔ ∃ w U, (a.forget v).val w = some U ∧ U.base = b := by
      constructor
      · rintro ⟨w, U, hw, e⟩
        by_cases hwv : w = v
        · subst hwv
          simp only [a', upd_same] at hw; cases hw
          exact absurd e.symm hb
        · simp only [a', upd_ne hwv] at hw; exact ⟨w, U, hw, e⟩
      · rintro ⟨w, U, hw, e⟩
        exact ⟨w, U, by simp only [a', upd_ne (hval w U hw)]; exact hw, e⟩
    by_cases hx : ∃ w U, (a.forget v).val w = some U ∧ U.base = b
    · rw [if_pos hx]; exact if_pos (this.2 hx)
    · rw [if_neg hx]; exact if_neg fun h => hx (this.1 h)
  have hextb : extOf a' base = 3 * ptrSize := extOf_base (T := T') (v := v) (upd_same ..)
  have hstr : structSize c = ptrSize * c.bucketMax + extOf a' base := by rw [hextb]; rfl
  have hpos : 0 < structSize c := by unfold structSize; arch
  have hcso : ∀ b : Nat, tm.csize b ≠ 0 → b ≠ base := fun b hb e => by
    have := hT.clear_obj hcl hpos hb
    arch
  have hm0 : MRel a.al (extOf a') none s.mem (addObj s.mem tm base c.bucketMax) :=
    hT.mrel.addObj hbpos (by rw [← hstr]; exact hin) (fun b hb _ => hext' b hb)
      (fun b hb => by rw [← hstr]; exact hT.clear_obj hcl hpos hb) (fun q hq => by rw [← hstr]; exact hT.clear_node hcl hpos hq)
  have hR := Rel.start (c := c) (u := u) (own := fun _ => False) (sup := []) (mallocs := []) (ins := False) hI.1 hP ht hpi hm0
    ⟨by simp, by simp⟩ (fun b hb => hb.elim) (fun b hb => by
      by_cases e : b = base
      · subst e; simp only [addObj, upd_same]; omega
      · simp only [addObj, upd_ne e]
        rw [hext' b e] at hb
        exact hT.ext_obj hb) (fun h => h.elim)
  obtain ⟨t', tm', run, htb, hT', hsup, hfrd, fr⟩ := TrieSpec.trieInit_spec c (m := { addObj s.mem tm base c.bucketMax with supply := [], freed := [] })
    (t := ⟨base, (s.var v).1.count, (s.var v).1.nodeCount⟩) (by simp [addObj])
  obtain ⟨fm', e, hR', _⟩ := sim_init _ _ _ _ run _ hR (by rw [hfrd]; simp)
  have hlog : fm'.log = [] := by
    have h1 : [] = gots fm'.log ++ tm'.supply := hR'.sup
    have h2 : tm'.freed = gaves fm'.log := hR'.frd
    rw [hsup] at h1
    rw [hfrd] at h2
    simp only [List.append_nil] at h1
    exact log_nil h1.symm h2.symm
  have hab : (ctx c slack u s a.al id P (fun _ => False) (extOf a') (addObj s.mem tm base c.bucketMax) [] [] False).ab fm' = a.al := by
    simp only [Ctx.ab, hlog]; rfl
  have hm' := hR'.mrel
  rw [hab] at hm'
  have hstep : step slack c (.init v base id) s = some (.trie .unit [], ⟨fm'.mem, upd s.al id (some fm'.al), upd s.var v (t', id)⟩) := by
    simp only [step]
    have := call_run (res := fun _ => Res.unit) (var := fun t => upd s.var v (t, id)) ht e
    rw [hlog] at this
    exact this
  have fr' := (fr_start (N := fun _ => False) (B := fun b => b = base) (addObj s.mem tm base c.bucketMax) []).trans fr
  refine ⟨_, _, hstep, rfl, ?_, fun _ x hx hx' hmay => ?_⟩
  · rw [← ha']
    refine ⟨⟨?_, hI.2⟩, tm', ?_⟩
    · have := hR'.inv
      rw [hab] at this; exact this
    · have hcs' : ∀ b : Nat, b ≠ base → tm'.csize b = tm.csize b ∧ ∀ i, tm'.cell b i = tm.cell b i := fun b hb => by
        obtain ⟨h1, h2⟩ := fr'.obj b hb
        exact ⟨by rw [h1]; simp only [addObj, upd_ne hb], fun i => by rw [h2]; simp only [addObj, upd_ne hb]⟩
      have hcb : tm'.csize base = c.bucketMax := by
        obtain ⟨ch, Top⟩ := hT'.top
        have := Top.size
        rw [htb] at this; exact this
      have hvd : tm'.heap.valid = tm.heap.valid := fr'.valid
      have hoth : ∀ w U, (a.forget v).val w = some U → ∀ b, U.Obj b → b ≠ base := fun w U hw b hb =>
        hcso b ((hT.obj b).2 ⟨w, U, hw, hb⟩)
      refine hT.change (T' := T') hc hT' htb hm' (fun b => ?_) (fun p => ?_) (fun w U hw hU => ?_) ⟨P, hP, hbs, by simp [T']⟩
        (fun w U hw hU => hT.pool w U hU) (fun w U hw hU => ⟨?_, ?_⟩)
      · by_cases eb : b = base
        · subst eb
          rw [hcb]
          exact ⟨fun _ => Or.inl (Or.inl rfl), fun _ => by omega⟩
        · rw [(hcs' b eb).1, hT.obj]
          constructor
          · rintro ⟨w, U, hU, hb⟩; exact Or.inr ⟨w, U, hval w U hU, hU, hb⟩
          · rintro ((hb | hb) | ⟨w, U, _, hU, hb⟩)
            · exact absurd hb eb
            · simp [T'] at hb
            · exact ⟨w, U, hU, hb⟩
      · rw [hvd, hT.node]
        constructor
        · rintro ⟨w, U, hU, hb⟩; exact Or.inr ⟨w, U, hval w U hU, hU, hb⟩
        · rintro (⟨e, he, _⟩ | ⟨w, U, _, hU, hb⟩)
          · simp [T'] at he
          · exact ⟨w, U, hU, hb⟩
      · refine ⟨fun e he => fr'.node _ (fun h => h), fun b hb => ?_⟩
        obtain ⟨h1, h2⟩ := hcs' b (hoth w U hU b hb)
        exact ⟨h1, fun i _ => h2 i⟩
      · rintro b (rfl | hb) hb'
        · exact hoth w U hU _ hb' rfl
        · simp [T'] at hb
      · rintro p ⟨e, he, _⟩
        simp [T'] at he
  · refine frame_bytes hm0 hm' fr' (fun hp => (hR'.prot x hp).2.1) hx ?_ (fun _ _ _ _ h => h)
    rintro b hb g1 g2 rfl
    have g2 : x < b + ptrSize * upd tm.csize b c.bucketMax b := g2
    rw [upd_same] at g2
    exact hmay ⟨g1, by unfold structSize; omega⟩

/-- Every legal operation. -/
theorem step_ok (hc : CfgOk c) (hu : AllocSpec.RoomFor slack u) (h : CInv slack u c s a) {op : Op} (hl : legal slack u c a op) :
    CallOk slack u c s a op := by
  cases op with
  | al op =>
    obtain ⟨r, s', h1, h2, h3, h4⟩ := step_al hc hu h hl
    exact ⟨r, s', h1, h2, h3, fun hcl x hx hx' _ => h4 hcl x hx hx'⟩
  | init v base id => exact step_init hc hu h hl
  | insert v p d k mallocs => exact step_insert hc hu h hl
  | remove v k =>
    obtain ⟨hv, hk⟩ := hl
    obtain ⟨T, hv⟩ := Option.isSome_iff_exists.1 hv
    obtain ⟨s', log, h1, h2, h3, h4, h5, h6, h7⟩ := step_write hc hu h hv (xf := ftrieRemove c (s.var v).1 k) (xt := trieRemove c (s.var v).1 k)
      (val := ((first T.es k).map Elem.data).getD 0) (es' := T.es.eraseP fun e => e.hash = k) (K := fun f => f.hash = k)
      (fun X hX e => by subst e; exact sim_remove hX _ _) (fun tm hT _ => TrieSpec.trieRemove_spec hc hT hk) (fun e he => List.mem_of_mem_eraseP he)
    refine ⟨_, s', h1, ?_, ?_, fun _ x hx _ hmay => h7 x hx ?_ ?_ ?_⟩
    · intro T1 hT1
      rw [hv] at hT1; cases hT1
      exact ⟨log, rfl, h2, h3, h4, h5⟩
    · simp only [next, Ab.onTrie, hv] at h6 ⊢
      exact h6
    · exact fun f hf hk hx => hmay ⟨T, hv, Or.inr (Or.inr ⟨f, List.mem_filter.2 ⟨hf, by simpa using hk⟩, hx⟩)⟩
    · exact fun hx => hmay ⟨T, hv, Or.inl hx⟩
    · exact fun b hb hx => hmay ⟨T, hv, Or.inr (Or.inl ⟨b, hb, hx⟩)⟩
  | removeExisting v p =>
    obtain ⟨T, hv, hp⟩ := hl
    obtain ⟨e, he, rfl⟩ := List.mem_map.1 hp
    have hlt : e.node < 2 ^ sizeBit := by
      obtain ⟨hI, tm, hT⟩ := h
      exact Nat.lt_of_le_of_lt (Nat.le_add_right _ _) ((hT.mrel.node _ ((hT.node _).2 ⟨v, T, hv, e, he, rfl⟩)).lt hI.1).2
    obtain ⟨s', log, h1, h2, h3, h4, h5, h6, h7⟩ := step_write hc hu h hv (xf := ftrieRemoveExisting c (s.var v).1 e.node)
      (xt := trieRemoveExisting c (s.var v).1 e.node)
      (val := e.data) (es' := T.es.filter fun f => f.node ≠ e.node) (K := fun f => f.hash = e.hash)
      (fun X hX e => by subst e; exact sim_removeExistingT hX _ hlt) (fun tm hT _ => TrieSpec.trieRemoveExisting_spec hc hT he)
      (fun e he => (List.mem_filter.1 he).1)
    refine ⟨_, s', h1, ?_, ?_, fun _ x hx _ hmay => h7 x hx ?_ ?_ ?_⟩
    · intro T1 hT1
      rw [hv] at hT1; cases hT1
      exact ⟨log, e, he, rfl, rfl, h2, h3, h4, h5⟩
    · simp only [next, Ab.onTrie, hv] at h6 ⊢
      exact h6
    · exact fun f hf hk hx => hmay ⟨T, hv, e, he, rfl, Or.inr (Or.inr ⟨f, List.mem_filter.2 ⟨hf, by simpa using hk⟩, hx⟩)⟩
    · exact fun hx => hmay ⟨T, hv, e, he, rfl, Or.inl hx⟩
    · exact fun b hb hx => hmay ⟨T, hv, e, he, rfl, Or.inr (Or.inl ⟨b, hb, hx⟩)⟩
  | search v k =>
    obtain ⟨hv, hk⟩ := hl
    obtain ⟨T, hv⟩ := Option.isSome_iff_exists.1 hv
    obtain ⟨s', h1, h2, h3⟩ := step_read hc hu h hv Res.val (xf := ftrieSearch c (s.var v).1 k) (xt := trieSearch c (s.var v).1 k)
      (fun X e => by subst e; exact sim_search _ _) (fun tm hT => TrieSpec.trieSearch_spec hc hT hk)
    refine ⟨_, s', h1, ?_, h2, fun _ x hx _ _ => h3 x hx⟩
    intro T1 hT1
    rw [hv] at hT1; cases hT1; rfl
  | bucket v k =>
    obtain ⟨hv, hk⟩ := hl
    obtain ⟨T, hv⟩ := Option.isSome_iff_exists.1 hv
    obtain ⟨s', h1, h2, h3⟩ := step_read hc hu h hv Res.elems (xf := fwalkBucket c (s.var v).1 k) (xt := TrieSpec.walkBucket c (s.var v).1 k)
      (fun X e => by subst e; exact sim_walkBucket _ _) (fun tm hT => TrieSpec.walkBucket_spec hc hT hk)
    refine ⟨_, s', h1, ?_, h2, fun _ x hx _ _ => h3 x hx⟩
    intro T1 hT1
    rw [hv] at hT1; cases hT1; rfl
  | count v =>
    refine ⟨_, _, rfl, ?_, h, fun _ x _ _ _ => rfl⟩
    intro T hv
    obtain ⟨_, tm, hT⟩ := h
    rw [trieCount, (hT.trie v T hv).count]
  | memoryUsage v =>
    refine ⟨_, _, rfl, ?_, h, fun _ x _ _ _ => rfl⟩
    intro T hv
    obtain ⟨_, tm, hT⟩ := h
    have Tr := hT.trie v T hv
    simp only [trieMemoryUsage, trieCount, Tr.count, Tr.ncount, sizeT, TrieCfg.blockSize]
  | forget v =>
    obtain ⟨hI, tm, hT⟩ := h
    exact ⟨_, _, rfl, rfl, ⟨hI, hT.forget hc v⟩, fun _ x _ _ _ => rfl⟩

theorem cinv_init (h : (sys slack u c).init s a) : CInv slack u c s a := by
  obtain ⟨h1, hb, h2, h3, h4, h5⟩ := h
  refine ⟨AllocSpec.inv_init (s := ⟨s.mem, s.al⟩) ⟨h1, h2, h3, h4⟩,
    { heap := { valid := fun _ => false, next := fun _ => 0, prev := fun _ => 0, data := fun _ => 0, index := fun _ => 0 }
      cell := fun _ _ => 0, csize := fun _ => 0, supply := [], freed := [] }, ?_, ?_, ?_, ?_, ?_, ?_, ?_, ?_⟩
  · exact ⟨hb, by simp, by simp, by simp, by simp, by simp, by simp, by simp, by simp, by simp, by simp⟩
  all_goals simp [h5]

theorem reach_flat (hc : CfgOk c) (hu : AllocSpec.RoomFor slack u) : ∀ s a, (sys slack u c).Reach s a → CInv slack u c s a :=
  Sys.reach_inv (fun _ _ h => cinv_init h) fun s a op h hl => by
    obtain ⟨r, s', e, h1, h2, _⟩ := step_ok hc hu h hl
    exact ⟨r, s', e, h1, h2⟩

theorem correct_flat (hc : CfgOk c) (hu : AllocSpec.RoomFor slack u) : (sys slack u c).Correct :=
  Sys.correct_of_inv (fun _ _ h => cinv_init h) fun s a op h hl => by
    obtain ⟨r, s', e, h1, h2, _⟩ := step_ok hc hu h hl
    exact ⟨r, s', e, h1, h2⟩

end FlatSpec
end Tommy
