import Verif.Proof.TrieOps
import Verif.Proof.HashSys
/-! The invariant of any number of tries sharing a memory and an allocator. -/
set_option linter.unusedSimpArgs false
set_option linter.unusedVariables false
namespace Tommy

variable [Arch]

theorem HashSpec.LiveOk.alloc {live : Ptr → Bool} {p : Ptr} (h : HashSpec.LiveOk live) (hp : HashSpec.Fits live p) :
    HashSpec.LiveOk (upd live p true) := by
  refine ⟨?_, ?_, ?_⟩
  · rw [upd_ne hp.1.symm]; exact h.zero
  · intro q hq
    by_cases e : q = p
    · rw [e]; exact hp.2.1
    · rw [upd_ne e] at hq; exact h.bound q hq
  · intro q r hq hr hne
    by_cases e : q = p
    · have e' : r ≠ p := fun e' => hne (e.trans e'.symm)
      rw [upd_ne e'] at hr
      rw [e]; exact hp.2.2 r hr
    · rw [upd_ne e] at hq
      by_cases e' : r = p
      · rw [e']; exact (hp.2.2 q hq).symm
      · rw [upd_ne e'] at hr; exact h.apart q r hq hr hne

theorem HashSpec.LiveOk.free {live : Ptr → Bool} (p : Ptr) (h : HashSpec.LiveOk live) :
    HashSpec.LiveOk (upd live p false) := by
  have sub : ∀ q, upd live p false q = true → live q = true := by
    intro q hq
    rw [upd_apply] at hq
    split at hq
    · cases hq
    · exact hq
  refine ⟨?_, fun q hq => h.bound q (sub q hq), fun q r hq hr => h.apart q r (sub q hq) (sub r hr)⟩
  rw [upd_apply]; split
  · rfl
  · exact h.zero

namespace TrieSpec
open HashSpec (Elem ERep SameNode walkLoop LiveOk Fits)

variable {c : TrieCfg}

structure Inv (c : TrieCfg) (s : St) (a : Ab) : Prop where
  live : a.live = s.mem.heap.valid
  liveOk : LiveOk a.live
  trie : ∀ v es, a.val v = some es → TrieOk c s.mem (s.var v) es (a.owned v)
  none : ∀ v, a.val v = none → a.owned v = []
  sep : ∀ v w es es', v ≠ w → a.val v = some es → a.val w = some es' → ∀ x ∈ es.map Elem.node, x ∉ es'.map Elem.node
  bsep : ∀ v w, v ≠ w → ∀ b ∈ a.owned v, b ∉ a.owned w
  bfree : ∀ v, ∀ b ∈ a.owned v, a.busy b = false
  bbase : ∀ v, a.busy (s.var v).base = true
  inj : ∀ v w, (s.var v).base = (s.var w).base → v = w
  size : ∀ v, s.mem.csize (s.var v).base = c.bucketMax

variable {s : St} {a : Ab}

theorem Inv.ok (i : Inv c s a) {p : Ptr} (hp : a.live p = true) : s.mem.heap.ok p := by
  refine ⟨?_, by rw [← i.live]; exact hp⟩
  rintro rfl
  rw [i.liveOk.zero] at hp; exact absurd hp (by simp)

theorem Inv.base_owned (i : Inv c s a) (v w : Nat) : (s.var v).base ∉ a.owned w := fun h => by
  have := i.bfree w _ h
  rw [i.bbase] at this
  cases this

theorem Inv.length_lt (i : Inv c s a) (hc : CfgOk c) {v : Nat} {es : List Elem} (hv : a.val v = some es) :
    es.length < 2 ^ (bktBit - 1) := by
  obtain ⟨ch, T⟩ := (i.trie v es hv).top
  have := HashSpec.length_le_of_live i.liveOk T.nodup fun x hx => by
    obtain ⟨e, he, rfl⟩ := List.mem_map.1 hx
    rw [i.live]; exact (T.ok hc he).1.2
  simpa using this

/-- A call which changes only the trie `v`, nodes in no trie and unused blocks. -/
theorem Inv.change (hc : CfgOk c) (i : Inv c s a) {v : Nat} {m' : TMem} {t' : Trie} {es' : List Elem} {bl' : List Ptr}
    {N B : Ptr → Prop} {busy' : Ptr → Bool} (T' : TrieOk c m' t' es' bl') (hb : t'.base = (s.var v).base)
    (fr : Fr s.mem m' N B)
    (hN : ∀ q, N q → (∃ es, a.val v = some es ∧ q ∈ es.map Elem.node) ∨ ¬ a.stored q)
    (hB : ∀ b, B b → b ∈ a.owned v ∨ a.unused b ∨ b = (s.var v).base)
    (hes : ∀ q ∈ es'.map Elem.node, (∃ es, a.val v = some es ∧ q ∈ es.map Elem.node) ∨ ¬ a.stored q)
    (hbl : ∀ b ∈ bl', b ∈ a.owned v ∨ a.unused b)
    (hbu : ∀ b, a.busy b = true → busy' b = true)
    (hbu' : ∀ b, busy' b = true → a.busy b = true ∨ (b ∈ a.owned v ∧ b ∉ bl')) :
    Inv c ⟨m', upd s.var v t'⟩
      { val := upd a.val v (some es'), owned := upd a.owned v bl', live := a.live, busy := busy' } := by
  have nB : ∀ w, w ≠ v → ∀ b, (b = (s.var w).base ∨ b ∈ a.owned w) → ¬ B b := by
    intro w hw b hbw hBb
    rcases hB b hBb with h1 | h1 | h1
    · rcases hbw with rfl | h2
      · exact i.base_owned _ _ h1
      · exact i.bsep w v hw b h2 h1
    · rcases hbw with rfl | h2
      · have := h1.1; rw [i.bbase] at this; cases this
      · exact h1.2 w h2
    · rcases hbw with h2 | h2
      · exact hw (i.inj w v (h2.symm.trans h1))
      · exact i.base_owned v w (h1 ▸ h2)
  have bas : ∀ w, (upd s.var v t' w).base = (s.var w).base := by
    intro w
    by_cases e : w = v
    · rw [e, upd_same, hb]
    · rw [upd_ne e]
  refine ⟨by rw [fr.valid]; exact i.live, i.liveOk, ?_, ?_, ?_, ?_, ?_, ?_, ?_, ?_⟩
  · intro w es hw
    by_cases e : w = v
    · subst e
      simp only [upd_same, Option.some.injEq] at hw ⊢
      subst hw; exact T'
    · simp only [upd_ne e] at hw ⊢
      refine (i.trie w es hw).congr hc fr ?_ (nB w e)
      intro x hx hNx
      rcases hN _ hNx with ⟨es1, h1, h2⟩ | h1
      · exact i.sep v w es1 es (Ne.symm e) h1 hw _ h2 (List.mem_map_of_mem hx)
      · exact h1 ⟨w, es, hw, List.mem_map_of_mem hx⟩
  · intro w hw
    by_cases e : w = v
    · subst e; simp only [upd_same] at hw; cases hw
    · simp only [upd_ne e] at hw ⊢; exact i.none w hw
  · intro w u es1 es2 hne hw hu x hx hx'
    by_cases e : w = v
    · subst e
      have e' : u ≠ w := Ne.symm hne
      simp only [upd_same, upd_ne e', Option.some.injEq] at hw hu
      subst hw
      rcases hes x hx with ⟨es3, h1, h2⟩ | h1
      · exact i.sep w u es3 es2 hne h1 hu x h2 hx'
      · exact h1 ⟨u, es2, hu, hx'⟩
    · simp only [upd_ne e] at hw
      by_cases e' : u = v
      · subst e'
        simp only [upd_same, Option.some.injEq] at hu
        subst hu
        rcases hes x hx' with ⟨es3, h1, h2⟩ | h1
        · exact i.sep w u es1 es3 hne hw h1 x hx h2
        · exact h1 ⟨w, es1, hw, hx⟩
      · simp only [upd_ne e'] at hu
        exact i.sep w u es1 es2 hne hw hu x hx hx'
  · intro w u hne b hw hu
    by_cases e : w = v
    · subst e
      have e' : u ≠ w := Ne.symm hne
      simp only [upd_same, upd_ne e'] at hw hu
      rcases hbl b hw with h1 | h1
      · exact i.bsep w u hne b h1 hu
      · exact h1.2 u hu
    · simp only [upd_ne e] at hw
      by_cases e' : u = v
      · subst e'
        simp only [upd_same] at hu
        rcases hbl b hu with h1 | h1
        · exact i.bsep w u hne b hw h1
        · exact h1.2 w hw
      · simp only [upd_ne e'] at hu
        exact i.bsep w u hne b hw hu
  · intro w b hw
    show busy' b = false
    rw [Bool.eq_false_iff]
    intro hbb
    by_cases e : w = v
    · subst e
      simp only [upd_same] at hw
      rcases hbu' b hbb with h2 | h2
      · rcases hbl b hw with h1 | h1
        · rw [i.bfree w b h1] at h2; cases h2
        · rw [h1.1] at h2; cases h2
      · exact h2.2 hw
    · simp only [upd_ne e] at hw
      rcases hbu' b hbb with h2 | h2
      · rw [i.bfree w b hw] at h2; cases h2
      · exact i.bsep w v e b hw h2.1
  · intro w
    show busy' (upd s.var v t' w).base = true
    rw [bas]; exact hbu _ (i.bbase w)
  · intro w u h
    simp only [bas] at h
    exact i.inj w u h
  · intro w
    simp only [bas]
    by_cases e : w = v
    · subst e
      obtain ⟨ch, T⟩ := T'.top
      rw [← hb]; exact T.size
    · rw [(fr.obj _ (nB w e _ (Or.inl rfl))).1]; exact i.size w

/-- A client action on nodes in no trie and on unused blocks. -/
theorem Inv.outside (hc : CfgOk c) (i : Inv c s a) {m' : TMem} {live' : Ptr → Bool} (hl : live' = m'.heap.valid)
    (hk : LiveOk live') {N B : Ptr → Prop}
    (hn : ∀ q, ¬ N q → SameNode s.mem.heap m'.heap q)
    (ho : ∀ b, m'.csize b = s.mem.csize b ∧ (¬ B b → ∀ j, m'.cell b j = s.mem.cell b j))
    (hN : ∀ q, N q → ¬ a.stored q) (hB : ∀ b, B b → a.unused b) :
    Inv c { s with mem := m' } { a with live := live' } := by
  refine ⟨hl, hk, ?_, i.none, i.sep, i.bsep, i.bfree, i.bbase, i.inj, fun v => (ho _).1.trans (i.size v)⟩
  intro v es hv
  have T := i.trie v es hv
  obtain ⟨ch, T1⟩ := T.top
  have nB : ∀ b, (b = (s.var v).base ∨ b ∈ a.owned v) → ¬ B b := by
    intro b hb hBb
    rcases hb with rfl | hb
    · have := (hB _ hBb).1; rw [i.bbase] at this; cases this
    · exact (hB _ hBb).2 v hb
  refine ⟨⟨ch, { T1 with size := ?_, kids := ?_ }⟩, T.count, T.ncount, T.bpos⟩
  · exact (ho _).1.trans T1.size
  · intro j hj
    rw [(ho _).2 (nB _ (Or.inl rfl))]
    refine (T1.kids j hj).congr (fun e he => hn _ fun h => hN _ h ⟨v, es, hv, ?_⟩) fun b hb => ?_
    · exact List.mem_map_of_mem (T1.mem hc hj he)
    · exact ⟨(ho b).1, fun k _ => (ho b).2 (nB b (Or.inr (T1.bmem hj hb))) k⟩

theorem init_inv (s : St) (a : Ab) (h : (sys c).init s a) : CfgOk c → Inv c s a := fun hc => by
  obtain ⟨h1, h2, h3, h4, h5, h6⟩ := h
  have pos : 0 < c.bucketMax := by
    unfold TrieCfg.bucketMax; rw [Nat.one_shiftLeft]; exact Nat.two_pow_pos _
  refine ⟨h2, h3, ?_, fun v _ => (h1 v).2, ?_, ?_, ?_, ?_, h6, h5⟩
  · intro v es hv; rw [(h1 v).1] at hv; cases hv
  · intro v w es es' _ hv; rw [(h1 v).1] at hv; cases hv
  · intro v w _ b hb; rw [(h1 v).2] at hb; simp at hb
  · intro v b hb; rw [(h1 v).2] at hb; simp at hb
  · intro v; rw [h4, h5]; omega

/-- The memory at the beginning of a call. -/
def start (s : St) (supply : List Ptr) : TMem := { s.mem with supply := supply, freed := [] }

omit [Arch] in
theorem start_fr (s : St) (supply : List Ptr) (N B) : Fr s.mem (start s supply) N B :=
  ⟨fun q _ => ⟨id, rfl, rfl, rfl, rfl⟩, rfl, fun _ _ => ⟨rfl, fun _ => rfl⟩⟩

theorem Inv.start (hc : CfgOk c) (i : Inv c s a) (supply : List Ptr) {v : Nat} {es : List Elem} (hv : a.val v = some es) :
    TrieOk c (start s supply) (s.var v) es (a.owned v) :=
  (i.trie v es hv).congr hc (start_fr s supply (fun _ => False) (fun _ => False)) (fun _ _ h => h) (fun _ _ h => h)

omit [Arch] in
theorem call_eq {α : Type} {supply : List Ptr} {x : TM α} {res : α → Res} {var : α → Nat → Trie} {r : α} {m' : TMem}
    (h : x (TrieSpec.start s supply) = some (r, m')) :
    call supply s x res var =
      some (⟨res r, supply.take (supply.length - m'.supply.length), m'.freed⟩, ⟨m', var r⟩) := by
  unfold call
  rw [show ({ s.mem with supply := supply, freed := [] } : TMem) = TrieSpec.start s supply from rfl, h]
  rfl

/-- The invariant and the frame of every legal call. -/
theorem step_inv (hc : CfgOk c) (s : St) (a : Ab) (op : Op) (i : Inv c s a) (hleg : legal c a op) :
    ∃ out s', step c op s = some (out, s') ∧ allowed c a op out ∧ Inv c s' (next a op out) ∧
      (isCall op → Fr s.mem s'.mem (mayNode a op) (mayObj s a op out) ∧ ∀ w, ¬ mayVar op w → s'.var w = s.var w) := by
  cases op with
  | init v =>
    obtain ⟨t', m', run, hb, T', su, fd, fr⟩ := trieInit_spec c (m := start s []) (t := s.var v) (i.size v)
    have fr' := (start_fr s [] _ _).trans fr
    have ec := call_eq (res := fun _ => Res.unit) (var := fun t => upd s.var v t) run
    refine ⟨_, _, ec, ?_, ?_, fun _ => ⟨fr'.mono (fun _ h => h) (fun _ h => h), fun w hw => upd_ne hw⟩⟩
    · show _ = _
      rw [fd]; simp [TrieSpec.start]
    · refine i.change hc T' hb fr' (fun _ h => h.elim) (fun b h => Or.inr (Or.inr h)) (by simp) (by simp) ?_ ?_
      · intro b h; simp [h]
      · intro b h; simpa using h
  | insert v p d k supply =>
    obtain ⟨hv, hl, hs, ev, hk, sl, snd, sf⟩ := hleg
    obtain ⟨es, hv⟩ := Option.isSome_iff_exists.1 hv
    have fresh : p ∉ es.map Elem.node := fun h => hs ⟨v, es, hv, h⟩
    have len := i.length_lt hc hv
    have nbase : ∀ b, a.unused b → b ≠ (s.var v).base := by
      intro b hb e
      have := hb.1
      rw [e, i.bbase] at this
      cases this
    obtain ⟨t', m', new, run, hb, T', su, fd, nl, fr⟩ := trieInsert_spec hc (i.start hc supply hv) (x := ⟨p, d, k⟩)
      (i.ok hl) ev fresh hk (by arch) sl snd (fun b h =>
        ⟨(sf b h).1.2 v, nbase b (sf b h).1, (sf b h).2⟩)
    have su : supply = new ++ m'.supply := su
    have fd : m'.freed = [] := fd
    have got : supply.take (supply.length - m'.supply.length) = new := by
      have : supply.length - m'.supply.length = new.length := by
        have := congrArg List.length su; rw [List.length_append] at this; omega
      rw [this, su]; simp
    have newf : ∀ b ∈ new, a.unused b := fun b h => (sf b (by rw [su]; simp [h])).1
    have fr' := (start_fr s supply _ _).trans fr
    have ec := call_eq (res := fun _ => Res.unit) (var := fun t => upd s.var v t) run
    refine ⟨_, _, ec, ⟨new.length, nl, ?_⟩, ?_, fun _ => ⟨fr'.mono ?_ ?_, fun w hw => upd_ne hw⟩⟩
    · rw [got, fd, su]; simp
    · rw [got, fd]
      have := i.change hc (busy' := a.busy) T' hb fr' ?_ ?_ ?_ ?_ (fun _ h => h) (fun _ h => Or.inl h)
      · have e : (a.owned v ++ new).filter (fun b => b ∉ ([] : List Ptr)) = a.owned v ++ new := by simp
        simp only [next, Ab.onTrie, hv, Option.map_some, e]
        exact this
      · rintro q (rfl | ⟨e, he, _, rfl⟩)
        · exact Or.inr hs
        · exact Or.inl ⟨es, hv, List.mem_map_of_mem he⟩
      · rintro b (h | h | h)
        · exact Or.inl h
        · exact Or.inr (Or.inl (newf b h))
        · exact Or.inr (Or.inr h)
      · intro q hq
        rw [List.map_append, List.mem_append] at hq
        rcases hq with hq | hq
        · exact Or.inl ⟨es, hv, hq⟩
        · simp at hq; exact Or.inr (hq ▸ hs)
      · intro b hb
        rcases List.mem_append.1 hb with hb | hb
        · exact Or.inl hb
        · exact Or.inr (newf b hb)
    · rintro q (hq | ⟨e, he, hh, hq⟩)
      · exact Or.inl hq
      · exact Or.inr ⟨es, hv, e, he, hh, hq⟩
    · rintro b (h | h | h)
      · exact Or.inr (Or.inl h)
      · exact Or.inr (Or.inr (by rw [got]; exact h))
      · exact Or.inl h
  | remove v k =>
    obtain ⟨hv, hk⟩ := hleg
    obtain ⟨es, hv⟩ := Option.isSome_iff_exists.1 hv
    obtain ⟨t', m', F, run, hb, T', su, fd, nd, hF, fr⟩ := trieRemove_spec hc (i.start hc [] hv) hk
    have fd : m'.freed = F := fd
    have fr' := (start_fr s [] _ _).trans fr
    have ec := call_eq (res := fun r => Res.val r.2) (var := fun r => upd s.var v r.1) run
    refine ⟨_, _, ec, ?_, ?_, fun _ => ⟨fr'.mono ?_ ?_, fun w hw => upd_ne hw⟩⟩
    · intro es1 h1
      rw [hv] at h1; cases h1
      exact ⟨F, nd, hF, by rw [fd]; simp⟩
    · rw [fd]
      have := i.change hc (busy' := a.busy) T' hb fr' ?_ ?_ ?_ ?_ (fun _ h => h) (fun _ h => Or.inl h)
      · simp only [next, Ab.onTrie, hv, Option.map_some, List.take_nil, List.append_nil]
        exact this
      · rintro q ⟨e, he, _, rfl⟩; exact Or.inl ⟨es, hv, List.mem_map_of_mem he⟩
      · rintro b (h | h)
        · exact Or.inl h
        · exact Or.inr (Or.inr h)
      · intro q hq
        obtain ⟨e, he, rfl⟩ := List.mem_map.1 hq
        exact Or.inl ⟨es, hv, List.mem_map_of_mem (List.mem_of_mem_eraseP he)⟩
      · intro b hb; exact Or.inl (List.mem_filter.1 hb).1
    · rintro q ⟨e, he, hh, hq⟩
      exact ⟨es, hv, e, he, hh, hq⟩
    · rintro b (h | h)
      · exact Or.inr (Or.inl h)
      · exact Or.inl h
  | removeExisting v p =>
    obtain ⟨es, hv, hp⟩ := hleg
    obtain ⟨e, he, rfl⟩ := List.mem_map.1 hp
    obtain ⟨t', m', F, run, hb, T', su, fd, nd, hF, fr⟩ := trieRemoveExisting_spec hc (i.start hc [] hv) he
    have fd : m'.freed = F := fd
    have fr' := (start_fr s [] _ _).trans fr
    have ec := call_eq (res := fun r => Res.val r.2) (var := fun r => upd s.var v r.1) run
    refine ⟨_, _, ec, ?_, ?_, fun _ => ⟨fr'.mono ?_ ?_, fun w hw => upd_ne hw⟩⟩
    · intro es1 h1
      rw [hv] at h1; cases h1
      exact ⟨F, nd, hF, e, he, rfl, by rw [fd]; simp⟩
    · rw [fd]
      have := i.change hc (busy' := a.busy) T' hb fr' ?_ ?_ ?_ ?_ (fun _ h => h) (fun _ h => Or.inl h)
      · simp only [next, Ab.onTrie, hv, Option.map_some, List.take_nil, List.append_nil]
        exact this
      · rintro q ⟨e, he, _, rfl⟩; exact Or.inl ⟨es, hv, List.mem_map_of_mem he⟩
      · rintro b (h | h)
        · exact Or.inl h
        · exact Or.inr (Or.inr h)
      · intro q hq
        obtain ⟨e, he, rfl⟩ := List.mem_map.1 hq
        exact Or.inl ⟨es, hv, List.mem_map_of_mem (List.mem_filter.1 he).1⟩
      · intro b hb; exact Or.inl (List.mem_filter.1 hb).1
    · rintro q ⟨f, hf, hh, hq⟩
      exact ⟨es, hv, f, hf, e, he, rfl, hh, hq⟩
    · rintro b (h | h)
      · exact Or.inr (Or.inl h)
      · exact Or.inl h
  | search v k =>
    obtain ⟨hv, hk⟩ := hleg
    obtain ⟨es, hv⟩ := Option.isSome_iff_exists.1 hv
    have run := trieSearch_spec hc (i.start hc [] hv) hk
    have ec := call_eq (res := Res.val) (var := fun _ => s.var) run
    refine ⟨_, _, ec, ?_, ?_, fun _ => ⟨start_fr s [] _ _, fun _ _ => rfl⟩⟩
    · intro es1 h1; rw [hv] at h1; cases h1; rfl
    · exact i.outside hc (m' := start s []) i.live i.liveOk (N := fun _ => False) (B := fun _ => False)
        (fun q _ => ⟨id, rfl, rfl, rfl, rfl⟩) (fun _ => ⟨rfl, fun _ _ => rfl⟩) (fun _ h => h.elim) (fun _ h => h.elim)
  | bucket v k =>
    obtain ⟨hv, hk⟩ := hleg
    obtain ⟨es, hv⟩ := Option.isSome_iff_exists.1 hv
    have run := walkBucket_spec hc (i.start hc [] hv) hk
    have ec := call_eq (res := Res.elems) (var := fun _ => s.var) run
    refine ⟨_, _, ec, ?_, ?_, fun _ => ⟨start_fr s [] _ _, fun _ _ => rfl⟩⟩
    · intro es1 h1; rw [hv] at h1; cases h1; rfl
    · exact i.outside hc (m' := start s []) i.live i.liveOk (N := fun _ => False) (B := fun _ => False)
        (fun q _ => ⟨id, rfl, rfl, rfl, rfl⟩) (fun _ => ⟨rfl, fun _ _ => rfl⟩) (fun _ h => h.elim) (fun _ h => h.elim)
  | count v =>
    refine ⟨_, _, rfl, ?_, i, fun _ => ⟨Fr.refl _ _ _, fun _ _ => rfl⟩⟩
    intro es hv
    rw [trieCount, (i.trie v es hv).count]
  | memoryUsage v =>
    refine ⟨_, _, rfl, ?_, i, fun _ => ⟨Fr.refl _ _ _, fun _ _ => rfl⟩⟩
    intro es hv
    have T := i.trie v es hv
    simp only [trieMemoryUsage, trieCount, T.count, T.ncount, sizeT, TrieCfg.blockSize]
  | alloc p =>
    have hleg : Fits a.live p := hleg
    refine ⟨_, _, rfl, rfl, ?_, fun h => h.elim⟩
    refine i.outside hc (m' := { s.mem with heap := { s.mem.heap with valid := upd s.mem.heap.valid p true } })
      (by rw [i.live]) ?_ (N := fun _ => False) (B := fun _ => False) ?_ (fun _ => ⟨rfl, fun _ _ => rfl⟩)
      (fun _ h => h.elim) (fun _ h => h.elim)
    · exact i.liveOk.alloc hleg
    · intro q _
      refine ⟨fun h => ⟨h.1, ?_⟩, rfl, rfl, rfl, rfl⟩
      show upd s.mem.heap.valid p true q = true
      rw [upd_apply]; split
      · rfl
      · exact h.2
  | free p =>
    obtain ⟨hl, hs⟩ := hleg
    refine ⟨_, _, rfl, rfl, ?_, fun h => h.elim⟩
    refine i.outside hc (m' := { s.mem with heap := { s.mem.heap with valid := upd s.mem.heap.valid p false } })
      (by rw [i.live]) ?_ (N := fun q => q = p) (B := fun _ => False) ?_ (fun _ => ⟨rfl, fun _ _ => rfl⟩)
      (fun q h => h ▸ hs) (fun _ h => h.elim)
    · exact i.liveOk.free p
    · intro q hq
      refine ⟨fun h => ⟨h.1, ?_⟩, rfl, rfl, rfl, rfl⟩
      show upd s.mem.heap.valid p false q = true
      rw [upd_ne hq]; exact h.2
  | scribble p n pr d k =>
    obtain ⟨hl, hs⟩ := hleg
    refine ⟨_, _, rfl, rfl, ?_, fun h => h.elim⟩
    exact i.outside hc (N := fun q => q = p) (B := fun _ => False) i.live i.liveOk
      (fun q hq => ⟨id, upd_ne hq, upd_ne hq, upd_ne hq, upd_ne hq⟩) (fun _ => ⟨rfl, fun _ _ => rfl⟩)
      (fun q h => h ▸ hs) (fun _ h => h.elim)
  | junk b f =>
    have hleg : a.unused b := hleg
    refine ⟨_, _, rfl, rfl, ?_, fun h => h.elim⟩
    refine i.outside hc (N := fun _ => False) (B := fun q => q = b) i.live i.liveOk
      (fun q _ => ⟨id, rfl, rfl, rfl, rfl⟩) (fun q => ⟨rfl, fun hq j => ?_⟩) (fun _ h => h.elim) (fun q h => h ▸ hleg)
    show upd s.mem.cell b f q j = _
    rw [upd_ne hq]

theorem reach_inv (hc : CfgOk c) : ∀ s a, (sys c).Reach s a → Inv c s a :=
  Sys.reach_inv (fun s a h => init_inv s a h hc) fun s a op i hl =>
    let ⟨out, s', e, al, i', _⟩ := step_inv hc s a op i hl
    ⟨out, s', e, al, i'⟩

theorem correct (hc : CfgOk c) : (sys c).Correct :=
  Sys.correct_of_inv (fun s a h => init_inv s a h hc) fun s a op i hl =>
    let ⟨out, s', e, al, i', _⟩ := step_inv hc s a op i hl
    ⟨out, s', e, al, i'⟩

end TrieSpec
end Tommy
