import Verif.Proof.World
import Verif.Props.List
import Verif.Props.Tree
import Verif.Props.Hash
import Verif.Props.Trie
/-! The containers are parts as Proof/World.lean needs. -/
set_option autoImplicit false
namespace Tommy

variable [Arch]
namespace World
open HashSpec (Elem Fits LiveOk)

/-! ### Lists -/

theorem list_given {op : ListSpec.Op} {p : Ptr} (h : listPart.given op = some p) :
    (∃ v d, op = .insertHead v p d) ∨ ∃ v d, op = .insertTail v p d := by
  cases op <;> simp [listPart] at h <;> subst h <;> simp

theorem lt_add (p : Nat) : p < p + nodeSize := by arch

omit [Arch] in
theorem upd_some {β : Type} {b : Nat → Option β} {v : Nat} {f : Option β} {w : Nat} {x : β} (h : upd b v f w = some x) :
    (w = v ∧ f = some x) ∨ b w = some x := by
  by_cases e : w = v
  · subst e
    rw [upd_same] at h
    exact .inl ⟨rfl, h⟩
  · rw [upd_ne e] at h
    exact .inr h

omit [Arch] in
theorem append_node {es : List Elem} {q : Ptr} {d k : Nat} {p : Ptr} (h : p ∈ (es ++ [(⟨q, d, k⟩ : Elem)]).map Elem.node) :
    p ∈ es.map Elem.node ∨ p = q := by
  simpa using h

theorem fits_dead {l : Ptr → Bool} {p : Ptr} (h : Fits l p) : l p = false := by
  cases e : l p with
  | false => rfl
  | true => rcases h.2.2 p e with h | h <;> exact absurd h (Nat.not_le.2 (lt_add p))

theorem listOk : PartOk listPart where
  heap_mk _ _ := rfl
  eta _ := rfl
  correct := C01_list_sequence
  act c h x l b hc := by
    cases c with
    | alloc p => exact ⟨.alloc p, .unit, ⟨hc.1, Nat.lt_of_lt_of_le (lt_add p) hc.2.1, fits_dead hc⟩, rfl, rfl⟩
    | free p => exact ⟨.free p, .unit, hc, rfl, rfl⟩
    | scribble p n q d i => exact ⟨.scribble p n q d i, .unit, hc, rfl, rfl⟩
  next_own l b op out ho := by
    cases op with
    | sort v cmp => cases out <;> rfl
    | alloc p => cases ho
    | free p => cases ho
    | scribble p n q d i => cases ho
    | setIndex p i => cases ho
    | _ => rfl
  frame h x l b op out s' hr hl ho e := by
    obtain ⟨f1, f2, f3, f4, _⟩ := C07_list_frame _ _ hr op hl ho out s' e
    refine ⟨f4, ?_⟩
    have key : ∀ xs : List Ptr, (∀ q, ListSpec.mayLink ⟨b, l⟩ op q ∨ ListSpec.mayData op q → q ∈ xs) →
        ∀ q, q ∉ xs → Same h s'.heap q := fun xs hx q hq =>
      ⟨(f1 q fun hm => hq (hx q (.inl hm))).1, (f1 q fun hm => hq (hx q (.inl hm))).2,
        f2 q fun hm => hq (hx q (.inr hm)), congrFun f3 q⟩
    have sto : ∀ v q, q ∈ ((⟨b, l⟩ : ListSpec.Ab).get v).map Prod.fst → listPart.stored b q := by
      intro v q hq
      simp only [ListSpec.Ab.get] at hq
      cases hv : b v with
      | none => simp [hv] at hq
      | some es => exact ⟨v, es, hv, by simpa [hv] using hq⟩
    cases op with
    | insertHead v p d =>
      refine ⟨p :: ((⟨b, l⟩ : ListSpec.Ab).get v).map Prod.fst, ?_, key _ ?_⟩
      · intro q hq
        rcases List.mem_cons.1 hq with rfl | hq
        · exact .inr rfl
        · exact .inl (sto v q hq)
      · rintro q ((h | h) | h) <;> simp_all [ListSpec.mayData]
    | insertTail v p d =>
      refine ⟨p :: ((⟨b, l⟩ : ListSpec.Ab).get v).map Prod.fst, ?_, key _ ?_⟩
      · intro q hq
        rcases List.mem_cons.1 hq with rfl | hq
        · exact .inr rfl
        · exact .inl (sto v q hq)
      · rintro q ((h | h) | h) <;> simp_all [ListSpec.mayData]
    | removeExisting v p =>
      exact ⟨((⟨b, l⟩ : ListSpec.Ab).get v).map Prod.fst, fun q hq => .inl (sto v q hq), key _ fun q h => h.elim id False.elim⟩
    | sort v cmp =>
      exact ⟨((⟨b, l⟩ : ListSpec.Ab).get v).map Prod.fst, fun q hq => .inl (sto v q hq), key _ fun q h => h.elim id False.elim⟩
    | concat v w =>
      refine ⟨((⟨b, l⟩ : ListSpec.Ab).get v).map Prod.fst ++ ((⟨b, l⟩ : ListSpec.Ab).get w).map Prod.fst, ?_,
        key _ fun q h => h.elim (fun h => List.mem_append.2 h) False.elim⟩
      intro q hq
      rcases List.mem_append.1 hq with hq | hq
      · exact .inl (sto v q hq)
      · exact .inl (sto w q hq)
    | _ => exact ⟨[], fun _ h => (List.not_mem_nil h).elim, key _ fun q h => by rcases h with h | h <;> exact h.elim⟩
  stored_next l b op out p ho al hs := by
    obtain ⟨w, es, hw, hp⟩ := hs
    have sto : ∀ v q, q ∈ ((⟨b, l⟩ : ListSpec.Ab).get v).map Prod.fst → listPart.stored b q := by
      intro v q hq
      simp only [ListSpec.Ab.get] at hq
      cases hv : b v with
      | none => simp [hv] at hq
      | some es => exact ⟨v, es, hv, by simpa [hv] using hq⟩
    have other : ∀ v (f : Option (List (Ptr × Nat))), upd b v f w = some es → (w = v → f = some es → listPart.stored b p ∨
        listPart.given op = some p) → listPart.stored b p ∨ listPart.given op = some p := by
      intro v f h1 h2
      rcases upd_some h1 with ⟨e, h1⟩ | h1
      · exact h2 e h1
      · exact .inl ⟨w, es, h1, hp⟩
    cases op with
    | init v =>
      refine other v _ hw fun _ h => ?_
      cases h; simp at hp
    | insertHead v q d =>
      refine other v _ hw fun _ h => ?_
      cases h
      rcases List.mem_cons.1 hp with rfl | hp
      · exact .inr rfl
      · exact .inl (sto v _ hp)
    | insertTail v q d =>
      refine other v _ hw fun _ h => ?_
      cases h
      rw [List.map_append] at hp
      rcases List.mem_append.1 hp with hp | hp
      · exact .inl (sto v _ hp)
      · simp only [List.map_cons, List.map_nil, List.mem_singleton] at hp
        subst hp
        exact .inr rfl
    | removeExisting v q =>
      refine other v _ hw fun _ h => ?_
      cases h
      obtain ⟨x, hx, rfl⟩ := List.mem_map.1 hp
      exact .inl (sto v _ (List.mem_map_of_mem (List.mem_filter.1 hx).1))
    | concat v v' =>
      change upd (upd b v _) v' none w = some es at hw
      by_cases e : w = v'
      · subst e; simp at hw
      · rw [upd_ne e] at hw
        refine other v _ hw fun _ h => ?_
        cases h
        rw [List.map_append] at hp
        rcases List.mem_append.1 hp with hp | hp
        · exact .inl (sto v _ hp)
        · exact .inl (sto v' _ hp)
    | sort v cmp =>
      obtain ⟨l', rfl, pm, _⟩ := al
      refine other v _ hw fun _ h => ?_
      cases h
      exact .inl (sto v _ ((pm.map _).mem_iff.1 hp))
    | alloc q => cases ho
    | free q => cases ho
    | scribble q _ _ _ _ => cases ho
    | setIndex q _ => cases ho
    | _ => exact .inl ⟨w, es, hw, hp⟩
  given_live l b op p hl hg := by
    rcases list_given hg with ⟨v, d, rfl⟩ | ⟨v, d, rfl⟩ <;> exact hl.2.1
  init_stored h x l b p hi := by
    rintro ⟨v, es, hv, _⟩
    have := hi.1 v
    change b v = none at this
    rw [this] at hv; cases hv

/-! ### Trees -/

theorem treeOk : PartOk treePart where
  heap_mk _ _ := rfl
  eta _ := rfl
  correct := C31_tree_set
  act c h x l b hc := by
    cases c with
    | alloc p => exact ⟨.alloc p, .unit, hc, rfl, rfl⟩
    | free p => exact ⟨.free p, .unit, hc, rfl, rfl⟩
    | scribble p n q d i => exact ⟨.scribble p n q d i, .unit, hc, rfl, rfl⟩
  next_own l b op out ho := by
    cases op with
    | alloc p => cases ho
    | free p => cases ho
    | scribble p n q d i => cases ho
    | _ => rfl
  frame h x l b op out s' hr hl ho e := by
    obtain ⟨f1, f2, f4, _⟩ := C31_tree_frame _ _ hr op hl ho out s' e
    refine ⟨f4, ?_⟩
    have key : ∀ xs : List Ptr, (∀ q, TreeSpec.mayLink ⟨b, l⟩ op q ∨ TreeSpec.mayData op q → q ∈ xs) →
        ∀ q, q ∉ xs → Same h s'.heap q := fun xs hx q hq =>
      ⟨(f1 q fun hm => hq (hx q (.inl hm))).1, (f1 q fun hm => hq (hx q (.inl hm))).2.1,
        f2 q fun hm => hq (hx q (.inr hm)), (f1 q fun hm => hq (hx q (.inl hm))).2.2⟩
    have sto : ∀ v q, q ∈ ((b v).map fun o => o.elems.map Prod.fst).getD [] → treePart.stored b q := by
      intro v q hq
      cases hv : b v with
      | none => simp [hv] at hq
      | some o => exact ⟨v, o, hv, by simpa [hv] using hq⟩
    have get : ∀ v q, (∃ o, b v = some o ∧ q ∈ o.elems.map Prod.fst) →
        q ∈ ((b v).map fun o => o.elems.map Prod.fst).getD [] := by
      rintro v q ⟨o, ho, h⟩
      simpa [ho] using h
    cases op with
    | insert v p d =>
      refine ⟨p :: ((b v).map fun o => o.elems.map Prod.fst).getD [], ?_, key _ ?_⟩
      · intro q hq
        rcases List.mem_cons.1 hq with rfl | hq
        · exact .inr rfl
        · exact .inl (sto v q hq)
      · rintro q ((h | h) | h)
        · exact h ▸ List.mem_cons_self
        · exact List.mem_cons_of_mem _ (get v q h)
        · exact (show q = p from h) ▸ List.mem_cons_self
    | remove v d =>
      exact ⟨_, fun q hq => .inl (sto v q hq), key _ fun q h => h.elim (get v q) False.elim⟩
    | removeExisting v p =>
      exact ⟨_, fun q hq => .inl (sto v q hq), key _ fun q h => h.elim (get v q) False.elim⟩
    | _ => exact ⟨[], fun _ h => (List.not_mem_nil h).elim, key _ fun q h => by rcases h with h | h <;> exact h.elim⟩
  stored_next l b op out p ho al hs := by
    obtain ⟨w, o, hw, hp⟩ := hs
    have other : ∀ v (f : Option TreeSpec.OSet), upd b v f w = some o → (w = v → f = some o → treePart.stored b p ∨
        treePart.given op = some p) → treePart.stored b p ∨ treePart.given op = some p := by
      intro v f h1 h2
      rcases upd_some h1 with ⟨e, h1⟩ | h1
      · exact h2 e h1
      · exact .inl ⟨w, o, h1, hp⟩
    cases op with
    | init v cmp =>
      refine other v _ hw fun _ h => ?_
      cases h; simp at hp
    | insert v q d =>
      refine other v _ hw fun _ h => ?_
      obtain ⟨o', ho', rfl⟩ := Option.map_eq_some_iff.1 h
      dsimp only at hp
      split at hp
      · exact .inl ⟨v, o', ho', hp⟩
      · rw [List.map_append] at hp
        rcases List.mem_append.1 hp with hp | hp
        · exact .inl ⟨v, o', ho', hp⟩
        · simp only [List.map_cons, List.map_nil, List.mem_singleton] at hp
          subst hp
          exact .inr rfl
    | remove v d =>
      refine other v _ hw fun _ h => ?_
      obtain ⟨o', ho', rfl⟩ := Option.map_eq_some_iff.1 h
      obtain ⟨x, hx, rfl⟩ := List.mem_map.1 hp
      exact .inl ⟨v, o', ho', List.mem_map_of_mem (List.mem_filter.1 hx).1⟩
    | removeExisting v d =>
      refine other v _ hw fun _ h => ?_
      obtain ⟨o', ho', rfl⟩ := Option.map_eq_some_iff.1 h
      obtain ⟨x, hx, rfl⟩ := List.mem_map.1 hp
      exact .inl ⟨v, o', ho', List.mem_map_of_mem (List.mem_filter.1 hx).1⟩
    | alloc q => cases ho
    | free q => cases ho
    | scribble q _ _ _ _ => cases ho
    | _ => exact .inl ⟨w, o, hw, hp⟩
  given_live l b op p hl hg := by
    cases op <;> simp [treePart] at hg
    subst hg
    exact hl.2.1
  init_stored h x l b p hi := by
    rintro ⟨v, es, hv, _⟩
    have := hi.1 v
    change b v = none at this
    rw [this] at hv; cases hv

/-! ### Hashtables -/

section
variable {T : Type} {I : HashSpec.Impl T} {start : MM T}

theorem hash_reach {s a} (hr : (hashSys I start).Reach s a) : ∃ m0, (HashSpec.sys I start m0).Reach s a := by
  induction hr with
  | init h => exact ⟨h.choose, .init h.choose_spec⟩
  | step _ hl e ih =>
    obtain ⟨m0, ih⟩ := ih
    exact ⟨m0, Sys.Reach.step (sys := HashSpec.sys I start m0) ih hl e⟩

theorem hashOk (hc : ∀ m0, (HashSpec.sys I start m0).Correct)
    (hf : ∀ m0 s a, (HashSpec.sys I start m0).Reach s a → ∀ op, HashSpec.legal a op → HashSpec.isCall op → ∀ out s',
      HashSpec.step I op s = some (out, s') → FrameOk m0 s s' a op) : PartOk (hashPart I start) where
  heap_mk _ _ := rfl
  eta _ := rfl
  correct s a hr op hl := by
    obtain ⟨m0, hr⟩ := hash_reach hr
    exact hc m0 s a hr op hl
  act c h x l b hc := by
    cases c with
    | alloc p => exact ⟨.alloc p, .unit, hc, rfl, rfl⟩
    | free p => exact ⟨.free p, .unit, hc, rfl, rfl⟩
    | scribble p n q d i => exact ⟨.scribble p n q d i, .unit, hc, rfl, rfl⟩
  next_own l b op out ho := by
    cases op with
    | alloc p => cases ho
    | free p => cases ho
    | scribble p n q d i => cases ho
    | _ => rfl
  frame h x l b op out s' hr hl ho e := by
    obtain ⟨m0, hr⟩ := hash_reach hr
    obtain ⟨f1, f2, _⟩ := hf m0 _ _ hr op hl ho out s' e
    refine ⟨f1, b.map Elem.node ++ ((hashPart I start).given op).toList, ?_, ?_⟩
    · intro p hp
      rcases List.mem_append.1 hp with hp | hp
      · exact .inl hp
      · exact .inr (by simpa using hp)
    · intro p hp
      have := f2 p (by
        rintro (h | h)
        · exact hp (List.mem_append_left _ h)
        · refine hp (List.mem_append_right _ ?_)
          cases op <;> simp [hashPart] at h ⊢
          exact h)
      exact ⟨this.1, this.2.1, this.2.2.1, this.2.2.2⟩
  stored_next l b op out p ho al hs := by
    cases op with
    | insert q d k =>
      rcases append_node (es := b) hs with hs | rfl
      · exact .inl hs
      · exact .inr rfl
    | remove cmp k =>
      obtain ⟨x, hx, rfl⟩ := List.mem_map.1 hs
      exact .inl (List.mem_map_of_mem (List.mem_of_mem_eraseP hx))
    | removeExisting q =>
      obtain ⟨x, hx, rfl⟩ := List.mem_map.1 hs
      exact .inl (List.mem_map_of_mem (List.mem_filter.1 hx).1)
    | alloc q => cases ho
    | free q => cases ho
    | scribble q _ _ _ _ => cases ho
    | _ => exact .inl hs
  given_live l b op p hl hg := by
    cases op <;> simp [hashPart] at hg
    subst hg
    exact hl.1
  init_stored h x l b p hi := by
    obtain ⟨m0, hi⟩ := hi
    have : b = [] := hi.2.2.1
    simp [hashPart, this]

end

/-! ### Tries -/

theorem trieOk {c : TrieCfg} (hc : TrieSpec.CfgOk c) : PartOk (triePart c) where
  heap_mk _ _ := rfl
  eta _ := rfl
  correct := C36_trie_multimap c hc
  act c h x l b hc := by
    cases c with
    | alloc p => exact ⟨.alloc p, ⟨.unit, [], []⟩, hc, rfl, rfl⟩
    | free p => exact ⟨.free p, ⟨.unit, [], []⟩, hc, rfl, rfl⟩
    | scribble p n q d i => exact ⟨.scribble p n q d i, ⟨.unit, [], []⟩, hc, rfl, rfl⟩
  next_own l b op out ho := by
    cases op with
    | alloc p => rcases ho with h | ⟨_, _, h⟩ <;> cases h
    | free p => rcases ho with h | ⟨_, _, h⟩ <;> cases h
    | scribble p n q d i => rcases ho with h | ⟨_, _, h⟩ <;> cases h
    | _ => rfl
  frame h x l b op out s' hr hl ho e := by
    rcases ho with ho | ⟨b', f, rfl⟩
    · obtain ⟨f1, f2, _⟩ := C36_trie_frame c hc _ _ hr op hl ho out s' e
      refine ⟨f2, ?_⟩
      have key : ∀ xs : List Ptr, (∀ q, TrieSpec.mayNode ⟨b.val, b.owned, l, b.busy⟩ op q → q ∈ xs) →
          ∀ q, q ∉ xs → Same h s'.mem.heap q := fun xs hx q hq =>
        have := f1 q fun hm => hq (hx q hm)
        ⟨this.1, this.2.1, this.2.2.1, this.2.2.2⟩
      have sto : ∀ v q, q ∈ ((b.val v).map fun o => o.map Elem.node).getD [] → (triePart c).stored b q := by
        intro v q hq
        cases hv : b.val v with
        | none => simp [hv] at hq
        | some o => exact ⟨v, o, hv, by simpa [hv] using hq⟩
      have get : ∀ v q es, b.val v = some es → (∃ e ∈ es, Elem.node e = q) →
          q ∈ ((b.val v).map fun o => o.map Elem.node).getD [] := by
        rintro v q es h ⟨e, he, rfl⟩
        rw [h]
        exact List.mem_map_of_mem he
      cases op with
      | insert v p d k sp =>
        refine ⟨p :: ((b.val v).map fun o => o.map Elem.node).getD [], ?_, key _ ?_⟩
        · intro q hq
          rcases List.mem_cons.1 hq with rfl | hq
          · exact .inr rfl
          · exact .inl (sto v q hq)
        · rintro q (h | ⟨es, h, e, he, _, hn⟩)
          · exact h ▸ List.mem_cons_self
          · exact List.mem_cons_of_mem _ (get v q es h ⟨e, he, hn⟩)
      | remove v d =>
        refine ⟨_, fun q hq => .inl (sto v q hq), key _ ?_⟩
        rintro q ⟨es, h, e, he, _, hn⟩
        exact get v q es h ⟨e, he, hn⟩
      | removeExisting v p =>
        refine ⟨_, fun q hq => .inl (sto v q hq), key _ ?_⟩
        rintro q ⟨es, h, e, he, _, _, _, _, hn⟩
        exact get v q es h ⟨e, he, hn⟩
      | _ => exact ⟨[], fun _ h => (List.not_mem_nil h).elim, key _ fun q h => h.elim⟩
    · change some _ = _ at e
      injection e with e
      injection e with _ e
      subst e
      exact ⟨rfl, [], fun _ h => (List.not_mem_nil h).elim, fun p _ => ⟨rfl, rfl, rfl, rfl⟩⟩
  stored_next l b op out p ho al hs := by
    obtain ⟨w, o, hw, hp⟩ := hs
    have other : ∀ v (f : Option (List Elem)), upd b.val v f w = some o → (w = v → f = some o → (triePart c).stored b p ∨
        (triePart c).given op = some p) → (triePart c).stored b p ∨ (triePart c).given op = some p := by
      intro v f h1 h2
      rcases upd_some h1 with ⟨e, h1⟩ | h1
      · exact h2 e h1
      · exact .inl ⟨w, o, h1, hp⟩
    cases op with
    | init v =>
      refine other v _ hw fun _ h => ?_
      cases h; simp at hp
    | insert v q d k sp =>
      refine other v _ hw fun _ h => ?_
      obtain ⟨o', ho', rfl⟩ := Option.map_eq_some_iff.1 h
      rw [List.map_append] at hp
      rcases List.mem_append.1 hp with hp | hp
      · exact .inl ⟨v, o', ho', hp⟩
      · simp only [List.map_cons, List.map_nil, List.mem_singleton] at hp
        subst hp
        exact .inr rfl
    | remove v d =>
      refine other v _ hw fun _ h => ?_
      obtain ⟨o', ho', rfl⟩ := Option.map_eq_some_iff.1 h
      obtain ⟨x, hx, rfl⟩ := List.mem_map.1 hp
      exact .inl ⟨v, o', ho', List.mem_map_of_mem (List.mem_of_mem_eraseP hx)⟩
    | removeExisting v d =>
      refine other v _ hw fun _ h => ?_
      obtain ⟨o', ho', rfl⟩ := Option.map_eq_some_iff.1 h
      obtain ⟨x, hx, rfl⟩ := List.mem_map.1 hp
      exact .inl ⟨v, o', ho', List.mem_map_of_mem (List.mem_filter.1 hx).1⟩
    | alloc p => rcases ho with h | ⟨_, _, h⟩ <;> cases h
    | free p => rcases ho with h | ⟨_, _, h⟩ <;> cases h
    | scribble p n q d i => rcases ho with h | ⟨_, _, h⟩ <;> cases h
    | _ => exact .inl ⟨w, o, hw, hp⟩
  given_live l b op p hl hg := by
    cases op <;> simp [triePart] at hg
    subst hg
    exact hl.2.1
  init_stored h x l b p hi := by
    rintro ⟨v, es, hv, _⟩
    have := (hi.1 v).1
    change b.val v = none at this
    rw [this] at hv; cases hv

/-- All the kinds. -/
theorem kindOk : ∀ k : Kind, PartOk k.part
  | .list => listOk
  | .tree => treeOk
  | .hashtable n hn => hashOk (fun m0 => (HashSpec.tblSys_correct hn m0).1) (C48_frame_hashtable_partial n hn)
  | .hashdyn => hashOk (fun m0 => (HashSpec.dynSys_correct m0).1) C48_frame_hashdyn
  | .hashlin => hashOk (fun m0 => (HashSpec.linSys_correct m0).1) C48_frame_hashlin
  | .trie _ hc => trieOk hc

end World
end Tommy
