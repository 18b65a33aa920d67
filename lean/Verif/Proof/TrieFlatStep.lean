import Verif.Proof.TrieFlatInv
/-! The invariant of the allocators and of the tries is kept by all the operations. -/
set_option linter.unusedSimpArgs false
set_option linter.unusedVariables false
namespace Tommy

variable [Arch]
namespace FlatSpec
open HashSpec (Elem SameNode)
open TrieSpec (CfgOk TrieOk levels first Fr Res)
open AllocSpec (AInv PoolInv acc_of rdP_congr wrP_out rdP_wrP rdP_wrP_out segSize segBlocks)

variable {slack : Nat} {u : AllocSpec.Use} {c : TrieCfg} {s : St} {a : Ab} {tm : TMem}

omit [Arch] in
theorem upd_self {β : Type} (f : Nat → β) (i : Nat) {x : β} (h : f i = x) : upd f i x = f := by
  funext j
  by_cases e : j = i
  · subst e; simp [h]
  · simp [upd_ne e]

theorem treeMax_pos (hc : CfgOk c) : 0 < c.treeMax := by
  obtain ⟨t, _, _, h⟩ := hc.pow
  rw [h]; exact Nat.two_pow_pos _

/-- The memory of the tries after something that does not concern them. -/
theorem CTm.keep (h : CTm c s a tm) {mem' : AMem} {als' : Nat → Option Alloc} {al' : AllocSpec.Ab}
    (hb : ∀ x, mem'.byte x < 256)
    (hk : ∀ p n, 0 < n → Inside a.al p n → (∀ x, p ≤ x → x < p + n → a.Busy c x) →
      Inside al' p n ∧ ∀ x, p ≤ x → x < p + n → mem'.byte x = s.mem.byte x)
    (hp : ∀ v T, a.val v = some T → ∃ P, al'.pool T.id = some P ∧ P.bs = c.blockSize ∧ ∀ b ∈ T.owned, b ∈ P.used) :
    CTm c ⟨mem', als', s.var⟩ ⟨al', a.val⟩ tm := by
  refine ⟨?_, h.obj, h.node, h.var, h.trie, hp, h.osep, h.nsep⟩
  refine h.mrel.congr hb (fun b hb => ?_) (fun p hp => ?_)
  · obtain ⟨h1, h2⟩ := hk b _ (by arch) (h.mrel.obj b hb) (fun x h1 h2 => h.busy_obj hb h1 h2)
    exact ⟨h1, fun x h3 h4 => h2 x h3 (by omega)⟩
  · exact hk p nodeSize (by archd) (h.mrel.node p hp) (fun x h1 h2 => h.busy_node hp h1 h2)

theorem busy_owned (hc : CfgOk c) {v : Nat} {T : TrieAb} (hv : a.val v = some T) {b : Nat} (hb : b ∈ T.owned) : a.Busy c b :=
  ⟨v, T, hv, Or.inr (Or.inl ⟨b, hb, Nat.le_refl _, by have := treeMax_pos hc; arch⟩)⟩

/-- The calls of the allocators and the rest of the program. -/
theorem step_al (hc : CfgOk c) (hu : AllocSpec.RoomFor slack u) (h : CInv slack u c s a) {op : AllocSpec.Op}
    (hl : legal slack u c a (.al op)) :
    ∃ r s', step slack c (.al op) s = some (r, s') ∧ allowed c a (.al op) r ∧ CInv slack u c s' (next a (.al op) r) ∧
      (isCall (.al op) → ∀ x, a.al.UserByte x → (next a (.al op) r).al.UserByte x → s'.mem.byte x = s.mem.byte x) := by
  obtain ⟨hI, tm, hT⟩ := h
  obtain ⟨hl, hl'⟩ := hl
  obtain ⟨r, s', e, h1, h2, h3⟩ := AllocSpec.step_ok hu hI hl
  have hbusy : ∀ {p n q k : Nat}, 0 < n → (∀ x, p ≤ x → x < p + n → a.Busy c x) → a.Clear c q k → 0 < k →
      p + n ≤ q ∨ q + k ≤ p := fun {p n q k} hn hp hq hk => by
    by_contra hx
    exact hq (max p q) (by omega) (by omega) (hp _ (by omega) (by omega))
  have hbyte : ∀ x, s'.mem.byte x < 256 := by
    have hb0 := hT.mrel.byte
    cases op with
    | init id bs al => cases e; exact hb0
    | alloc id base content =>
      simp only [AllocSpec.step, Option.bind_eq_bind, Option.bind_eq_some_iff] at e
      obtain ⟨t, _, ⟨r1, m1⟩, e2, e3⟩ := e
      cases e3
      exact Bytes.alloc slack base hl' t _ hb0 _ _ e2
    | free id p =>
      simp only [AllocSpec.step, Option.bind_eq_bind, Option.bind_eq_some_iff] at e
      obtain ⟨t, _, ⟨r1, m1⟩, e2, e3⟩ := e
      cases e3
      have hB : Bytes (allocatorFree t p) := by
        unfold allocatorFree
        exact Bytes.bind (Bytes.writeP _ _) fun _ => Bytes.pure _
      exact hB _ hb0 _ _ e2
    | usage id =>
      simp only [AllocSpec.step, Option.bind_eq_bind, Option.bind_eq_some_iff] at e
      obtain ⟨t, _, e3⟩ := e
      cases e3; exact hb0
    | done id =>
      obtain ⟨P, hP⟩ := hl
      obtain ⟨s1, e1, _, hb, _⟩ := AllocSpec.step_done hI.1 hP
      rw [e1] at e; cases e
      rw [hb]; exact hb0
    | emalloc base size content =>
      simp only [AllocSpec.step, Option.map_eq_some_iff] at e
      obtain ⟨⟨r1, m1⟩, e2, e3⟩ := e
      cases e3
      exact Bytes.amalloc slack base hl' size _ hb0 _ _ e2
    | efree b =>
      simp only [AllocSpec.step, Option.map_eq_some_iff] at e
      obtain ⟨⟨r1, m1⟩, e2, e3⟩ := e
      cases e3
      unfold afree at e2
      split at e2
      · cases e2; exact hb0
      · cases e2
    | ewrite x v =>
      cases e
      intro y
      simp only [upd_apply]
      split
      · exact hl'.1
      · exact hb0 y
  have hins : ∀ p n, 0 < n → Inside a.al p n → (∀ x, p ≤ x → x < p + n → a.Busy c x) → Inside (AllocSpec.next a.al op r) p n := by
    intro p n hn hin hbz
    cases op with
    | init id bs al =>
      rcases hin with ⟨b, k, g1, g2, g3⟩ | ⟨i, Q, q, g1, g2, g3, g4⟩
      · exact Or.inl ⟨b, k, g1, g2, g3⟩
      · refine Or.inr ⟨i, Q, q, ?_, g2, g3, g4⟩
        have hne : i ≠ id := fun e => by rw [e, hl.1] at g1; cases g1
        simp only [AllocSpec.next, upd_ne hne]; exact g1
    | alloc id base content =>
      obtain ⟨P, p', new, hP, rfl, _⟩ := h1
      simp only [AllocSpec.next, hP]
      rcases hin with ⟨b, k, g1, g2, g3⟩ | ⟨i, Q, q, g1, g2, g3, g4⟩
      · exact Or.inl ⟨b, k, g1, g2, g3⟩
      · by_cases e : i = id
        · subst e
          rw [hP] at g1; cases g1
          exact Or.inr ⟨i, _, q, upd_same .., List.mem_cons_of_mem _ g2, g3, g4⟩
        · exact Or.inr ⟨i, Q, q, by simp only [upd_ne e]; exact g1, g2, g3, g4⟩
    | free id q =>
      obtain ⟨P, hP, hq⟩ := hl
      obtain ⟨t, F, _, hpi⟩ := hI.1.get hP
      have := hpi.bs8
      exact hin.gave hP hn (hbusy hn hbz (hl' P hP) (by arch))
    | usage id => exact hin
    | done id =>
      obtain ⟨P, hP⟩ := hl
      simp only [AllocSpec.next, hP]
      rcases hin with ⟨b, k, g1, g2, g3⟩ | ⟨i, Q, q, g1, g2, g3, g4⟩
      · exact Or.inl ⟨b, k, g1, g2, g3⟩
      · by_cases e : i = id
        · subst e
          rw [hP] at g1; cases g1
          exact absurd (hbz p (Nat.le_refl _) (by omega)) (hl' P hP q g2 p (by omega) (by omega))
        · exact Or.inr ⟨i, Q, q, by simp only [upd_ne e]; exact g1, g2, g3, g4⟩
    | emalloc base size content =>
      rcases hin with ⟨b, k, g1, g2, g3⟩ | ⟨i, Q, q, g1, g2, g3, g4⟩
      · have hne : b ≠ base := fun e => hl.2.2.2.1 k (Or.inl (e ▸ g1))
        exact Or.inl ⟨b, k, by simp only [AllocSpec.next, upd_ne hne]; exact g1, g2, g3⟩
      · exact Or.inr ⟨i, Q, q, g1, g2, g3, g4⟩
    | efree base =>
      rcases hin with ⟨b, k, g1, g2, g3⟩ | ⟨i, Q, q, g1, g2, g3, g4⟩
      · by_cases e : b = base
        · subst e
          exact absurd (hbz p (Nat.le_refl _) (by omega)) (hl' k g1 p (by omega) (by omega))
        · exact Or.inl ⟨b, k, by simp only [AllocSpec.next, upd_ne e]; exact g1, g2, g3⟩
      · exact Or.inr ⟨i, Q, q, g1, g2, g3, g4⟩
    | ewrite x v => exact hin
  have hcont : ∀ p n, 0 < n → Inside a.al p n → (∀ x, p ≤ x → x < p + n → a.Busy c x) →
      ∀ x, p ≤ x → x < p + n → s'.mem.byte x = s.mem.byte x := by
    intro p n hn hin hbz x hx1 hx2
    have hcall : AllocSpec.isCall op → s'.mem.byte x = s.mem.byte x := fun hcl =>
      h3 hcl x (hin.user hx1 hx2) ((hins p n hn hin hbz).user hx1 hx2)
    cases op with
    | emalloc base size content =>
      simp only [AllocSpec.step, Option.map_eq_some_iff] at e
      obtain ⟨⟨r1, m1⟩, e2, e3⟩ := e
      cases e3
      unfold amalloc at e2
      cases e2
      obtain ⟨b, k, hr, g1, g2⟩ := hI.1.user_region (hin.user hx1 hx2)
      have := hl.2.2.2.2 b k hr
      simp only
      rw [if_neg (by omega)]
    | efree b =>
      simp only [AllocSpec.step, Option.map_eq_some_iff] at e
      obtain ⟨⟨r1, m1⟩, e2, e3⟩ := e
      cases e3
      unfold afree at e2
      split at e2
      · cases e2; rfl
      · cases e2
    | ewrite y v =>
      cases e
      have hne : x ≠ y := fun e => hl'.2 (e ▸ hbz x hx1 hx2)
      simp only [upd_ne hne]
    | _ => exact hcall trivial
  have hpool : ∀ v T, a.val v = some T → ∃ P, (AllocSpec.next a.al op r).pool T.id = some P ∧ P.bs = c.blockSize ∧
      ∀ b ∈ T.owned, b ∈ P.used := by
    intro v T hv
    obtain ⟨P, hP, hbs, hown⟩ := hT.pool v T hv
    cases op with
    | init id bs al =>
      have hne : T.id ≠ id := fun e => by rw [e, hl.1] at hP; cases hP
      exact ⟨P, by simp only [AllocSpec.next, upd_ne hne]; exact hP, hbs, hown⟩
    | alloc id base content =>
      obtain ⟨P', p', new, hP', rfl, _⟩ := h1
      simp only [AllocSpec.next, hP']
      by_cases e : T.id = id
      · rw [e, hP'] at hP; cases hP
        exact ⟨{ P with used := p' :: P.used, ever := p' :: P.ever, segs := if new then base :: P.segs else P.segs },
          by rw [e, upd_same], hbs, fun b hb => List.mem_cons_of_mem _ (hown b hb)⟩
      · exact ⟨P, by rw [upd_ne e]; exact hP, hbs, hown⟩
    | free id q =>
      obtain ⟨P', hP', hq⟩ := hl
      obtain ⟨t, F, _, hpi⟩ := hI.1.get hP'
      have := hpi.bs8
      simp only [AllocSpec.next, hP']
      by_cases e : T.id = id
      · rw [e, hP'] at hP; cases hP
        refine ⟨{ P with used := P.used.erase q }, by rw [e, upd_same], hbs, fun b hb => ?_⟩
        have hne : b ≠ q := fun e => by
          subst e
          exact hl' _ hP' b (Nat.le_refl _) (by arch) (busy_owned hc hv hb)
        exact (List.mem_erase_of_ne hne).2 (hown b hb)
      · exact ⟨P, by rw [upd_ne e]; exact hP, hbs, hown⟩
    | usage id => exact ⟨P, hP, hbs, hown⟩
    | done id =>
      obtain ⟨P', hP'⟩ := hl
      obtain ⟨t, F, _, hpi⟩ := hI.1.get hP'
      have := hpi.bs8
      simp only [AllocSpec.next, hP']
      by_cases e : T.id = id
      · rw [e, hP'] at hP; cases hP
        exact ⟨{ P with used := [], ever := [], segs := [] }, by rw [e, upd_same], hbs, fun b hb =>
          absurd (busy_owned hc hv hb) (hl' _ hP' b (hown b hb) b (Nat.le_refl _) (by arch))⟩
      · exact ⟨P, by rw [upd_ne e]; exact hP, hbs, hown⟩
    | emalloc base size content => exact ⟨P, hP, hbs, hown⟩
    | efree base => exact ⟨P, hP, hbs, hown⟩
    | ewrite x v => exact ⟨P, hP, hbs, hown⟩
  refine ⟨.al r, { s with mem := s'.mem, al := s'.al }, ?_, ⟨r, rfl, h1⟩, ⟨⟨h2, AllocSpec.sizes_next hI.2 hl⟩, tm, ?_⟩, h3⟩
  · simp only [step, e, Option.map_some]
  · exact hT.keep hbyte (fun p n hn hin hbz => ⟨hins p n hn hin hbz, hcont p n hn hin hbz⟩) hpool

/-! ### The calls of a trie -/

omit [Arch] in
theorem log_nil {l : List AEvent} (h1 : gots l = []) (h2 : gaves l = []) : l = [] := by
  cases l with
  | nil => rfl
  | cons e l => cases e <;> simp [gots, gaves] at h1 h2

omit [Arch] in
theorem log_length : ∀ l : List AEvent, l.length = (gots l).length + (gaves l).length := by
  intro l
  induction l with
  | nil => rfl
  | cons e l ih => cases e <;> simp [gots, gaves, ih] <;> omega

/-- The allocators after the exchange of some blocks. -/
theorem replay_pool (id : Nat) : ∀ (l : List AEvent) (al : AllocSpec.Ab) (P : AllocSpec.Pool), al.pool id = some P →
    (∃ P', (replay id al l).pool id = some P' ∧ P'.bs = P.bs ∧ P'.al = P.al ∧
      ∀ b, (b ∈ P.used ∨ b ∈ gots l) → b ∉ gaves l → b ∈ P'.used) ∧
    ∀ i, i ≠ id → (replay id al l).pool i = al.pool i := by
  intro l
  induction l with
  | nil => intro al P hP; exact ⟨⟨P, hP, rfl, rfl, fun b hb _ => by simpa [gots] using hb⟩, fun _ _ => rfl⟩
  | cons e l ih =>
    intro al P hP
    cases e with
    | got p seg =>
      have he := event_got hP p seg
      obtain ⟨⟨P', h1, h2, h3, h4⟩, h5⟩ := ih (event id al (.got p seg)) _ (by rw [he]; exact upd_same ..)
      refine ⟨⟨P', h1, h2, h3, fun b hb hn => h4 b ?_ (by simpa [gaves] using hn)⟩, fun i hi => ?_⟩
      · simp only [gots, List.mem_cons] at hb ⊢
        tauto
      · rw [show replay id al (.got p seg :: l) = replay id (event id al (.got p seg)) l from rfl, h5 i hi, he]
        simp only [upd_ne hi]
    | gave p =>
      have he := event_gave hP p
      obtain ⟨⟨P', h1, h2, h3, h4⟩, h5⟩ := ih (event id al (.gave p)) _ (by rw [he]; exact upd_same ..)
      refine ⟨⟨P', h1, h2, h3, fun b hb hn => h4 b ?_ ?_⟩, fun i hi => ?_⟩
      · simp only [gots, gaves, List.mem_cons, not_or] at hb hn ⊢
        rcases hb with hb | hb
        · exact Or.inl ((List.mem_erase_of_ne hn.1).2 hb)
        · exact Or.inr hb
      · simp only [gaves, List.mem_cons, not_or] at hn; exact hn.2
      · rw [show replay id al (.gave p :: l) = replay id (event id al (.gave p)) l from rfl, h5 i hi, he]
        simp only [upd_ne hi]

theorem replay_sizes {id : Nat} {l : List AEvent} {al : AllocSpec.Ab} {P : AllocSpec.Pool} (hP : al.pool id = some P)
    (h : ∀ i Q, al.pool i = some Q → u.sizes Q.bs Q.al) : ∀ i Q, (replay id al l).pool i = some Q → u.sizes Q.bs Q.al := by
  intro i Q hQ
  obtain ⟨⟨P', h1, h2, h3, _⟩, h5⟩ := replay_pool id l al P hP
  by_cases e : i = id
  · subst e
    rw [h1] at hQ; cases hQ
    rw [h2, h3]; exact h _ P hP
  · rw [h5 i e] at hQ; exact h i Q hQ

/-- The bytes of the user out of the cells and of the nodes. -/
def Plain (al : AllocSpec.Ab) (tm : TMem) (x : Nat) : Prop :=
  al.UserByte x ∧ (∀ b : Nat, tm.csize b ≠ 0 → x < b ∨ b + ptrSize * tm.csize b ≤ x) ∧
    ∀ p : Nat, tm.heap.valid p = true → x < p ∨ p + nodeSize ≤ x

/-- The context of a call. -/
def ctx (c : TrieCfg) (slack : Nat) (u : AllocSpec.Use) (s : St) (al : AllocSpec.Ab) (id : Nat) (P : AllocSpec.Pool)
    (own : Nat → Prop) (ext : Nat → Nat) (tm : TMem) (mallocs : List (Nat × (Nat → Nat))) (sup : List Nat) (ins : Prop) : Ctx where
  c := c
  slack := slack
  u := u
  id := id
  als := s.al
  a0 := al
  bs := P.bs
  al := P.al
  own := own
  ext := ext
  prot := Plain al tm
  byte0 := s.mem.byte
  sup := sup
  mal := mallocs.map Prod.fst
  ins := ins

theorem Rel.start {al : AllocSpec.Ab} {id : Nat} {P : AllocSpec.Pool} {t : Alloc} {F : List Nat} {own : Nat → Prop} {ext : Nat → Nat}
    {mallocs : List (Nat × (Nat → Nat))} {sup : List Nat} {ins : Prop} (hI : AInv slack ⟨s.mem, s.al⟩ al) (hP : al.pool id = some P)
    (ht : s.al id = some t) (hpi : PoolInv slack s.mem t P F) (hm : MRel al ext none s.mem tm)
    (hf : MallocsOk slack u al (segSize P.bs P.al) mallocs)
    (hown : ∀ b, own b → tm.csize b ≠ 0 → b ∈ P.used ∧ tm.csize b = c.treeMax)
    (hext : ∀ b, ext b ≠ 0 → tm.csize b ≠ 0)
    (hins : ins → sup = F ++ mallocs.flatMap fun m => segBlocks P.bs P.al m.1) :
    Rel (ctx c slack u s al id P own ext tm mallocs sup ins) none ⟨s.mem, t, mallocs, []⟩ { tm with supply := sup, freed := [] } where
  inv := by
    have : (ctx c slack u s al id P own ext tm mallocs sup ins).st ⟨s.mem, t, mallocs, []⟩ = ⟨s.mem, s.al⟩ := by
      simp only [Ctx.st, ctx, upd_self _ _ ht]
    rw [this]; exact hI
  pool := ⟨P, F, hP, rfl, rfl, hpi, hins, hown⟩
  fresh := hf
  mrel := { hm with }
  prot x hx := ⟨hx.1, rfl, hx.2.1, hx.2.2⟩
  unr b i e := by cases e
  extb := hext
  trace := trivial
  sup := rfl
  frd := rfl
  mal := ⟨fun m hm => List.mem_map_of_mem hm, fun p b hb => by simp at hb⟩

/-- The bytes which do not change. -/
theorem frame_bytes {al al' : AllocSpec.Ab} {ext ext' : Nat → Nat} {mem mem' : AMem} {tm' : TMem} {N B : Ptr → Prop}
    (hm : MRel al ext none mem tm) (hm' : MRel al' ext' none mem' tm') (fr : Fr tm tm' N B) {x : Nat}
    (hp : Plain al tm x → mem'.byte x = mem.byte x) (hx : al.UserByte x)
    (hB : ∀ b : Nat, tm.csize b ≠ 0 → b ≤ x → x < b + ptrSize * tm.csize b → ¬ B b)
    (hN : ∀ p : Nat, tm.heap.valid p = true → p ≤ x → x < p + nodeSize → ¬ N p) : mem'.byte x = mem.byte x := by
  by_cases h1 : ∃ b : Nat, tm.csize b ≠ 0 ∧ b ≤ x ∧ x < b + ptrSize * tm.csize b
  · obtain ⟨b, h1, h2, h3⟩ := h1
    obtain ⟨h4, h5⟩ := fr.obj b (hB b h1 h2 h3)
    have hi : (x - b) / ptrSize < tm.csize b := by arch
    refine rdP_inj (p := b + ptrSize * ((x - b) / ptrSize)) hm'.byte hm.byte ?_ (by arch) (by arch)
    rw [hm'.cell b _ (by rw [h4]; exact hi) id, hm.cell b _ hi id, h5]
  · by_cases h2 : ∃ p : Nat, tm.heap.valid p = true ∧ p ≤ x ∧ x < p + nodeSize
    · obtain ⟨p, h2, h3, h4⟩ := h2
      have hs := fr.node p (hN p h2 h3 h4)
      have hv : tm'.heap.valid p = true := by rw [fr.valid]; exact h2
      have hx4 : (p + offNext ≤ x ∧ x < p + offNext + ptrSize) ∨ (p + offPrev ≤ x ∧ x < p + offPrev + ptrSize) ∨
          (p + offData ≤ x ∧ x < p + offData + ptrSize) ∨ (p + offIndex ≤ x ∧ x < p + offIndex + ptrSize) := by
        unfold offNext offPrev offData offIndex; arch
      rcases hx4 with ⟨g1, g2⟩ | ⟨g1, g2⟩ | ⟨g1, g2⟩ | ⟨g1, g2⟩
      · exact rdP_inj hm'.byte hm.byte (by rw [hm'.next p hv, hm.next p h2, hs.next]) g1 g2
      · exact rdP_inj hm'.byte hm.byte (by rw [hm'.prev p hv, hm.prev p h2, hs.prev]) g1 g2
      · exact rdP_inj hm'.byte hm.byte (by rw [hm'.data p hv, hm.data p h2, hs.data]) g1 g2
      · exact rdP_inj hm'.byte hm.byte (by rw [hm'.index p hv, hm.index p h2, hs.index]) g1 g2
    · refine hp ⟨hx, fun b hb => ?_, fun p hv => ?_⟩
      · by_contra hc
        exact h1 ⟨b, hb, by omega, by omega⟩
      · by_contra hc
        exact h2 ⟨p, hv, by omega, by omega⟩

theorem extOf_upd {al' : AllocSpec.Ab} {v : Nat} {T T' : TrieAb} (hv : a.val v = some T) (hb : T'.base = T.base) :
    extOf ⟨al', upd a.val v (some T')⟩ = extOf a := by
  funext b
  unfold extOf
  have : (∃ w U, upd a.val v (some T') w = some U ∧ U.base = b) ↔ ∃ w U, a.val w = some U ∧ U.base = b := by
    constructor
    · rintro ⟨w, U, hw, e⟩
      by_cases hwv : w = v
      · subst hwv; rw [upd_same] at hw; cases hw
        exact ⟨w, T, hv, hb ▸ e⟩
      · rw [upd_ne hwv] at hw; exact ⟨w, U, hw, e⟩
    · rintro ⟨w, U, hw, e⟩
      by_cases hwv : w = v
      · subst hwv
        rw [hv] at hw; cases hw
        exact ⟨w, T', upd_same .., hb.trans e⟩
      · exact ⟨w, U, by rw [upd_ne hwv]; exact hw, e⟩
  by_cases hx : ∃ w U, a.val w = some U ∧ U.base = b
  · rw [if_pos hx]; exact if_pos (this.2 hx)
  · rw [if_neg hx]; exact if_neg (fun h => hx (this.1 h))

/-- The memory of the tries after a call which changes the trie `v`. -/
theorem CTm.finish (hc : CfgOk c) (h : CTm c s a tm) {v : Nat} {T : TrieAb} (hv : a.val v = some T) {tm0 tm' : TMem} {N B : Ptr → Prop}
    {t' : Trie} {es' : List Elem} {bl' : List Nat} {mem' : AMem} {als' : Nat → Option Alloc} {al' : AllocSpec.Ab}
    (hs0 : ∀ p, tm.heap.valid p = true → SameNode tm.heap tm0.heap p)
    (hc0 : tm0.csize = tm.csize) (hce : tm0.cell = tm.cell)
    (hv0 : ∀ p, tm.heap.valid p = true → tm0.heap.valid p = true)
    (fr : Fr tm0 tm' N B)
    (hN : ∀ w U, w ≠ v → a.val w = some U → ∀ p, U.Has p → ¬ N p)
    (hB : ∀ w U, w ≠ v → a.val w = some U → ∀ b, U.Obj b → ¬ B b)
    (hm : MRel al' (extOf a) none mem' tm') (hT : TrieOk c tm' t' es' bl') (ht : t'.base = T.base)
    (hbl : ∀ b ∈ bl', b ∈ T.owned ∨ tm.csize b = 0)
    (hes : ∀ e ∈ es', T.Has e.node ∨ tm.heap.valid e.node = false)
    (hp : ∃ P, al'.pool T.id = some P ∧ P.bs = c.blockSize ∧ ∀ b ∈ bl', b ∈ P.used)
    (hps : ∀ w U, w ≠ v → a.val w = some U → ∃ P, al'.pool U.id = some P ∧ P.bs = c.blockSize ∧ ∀ b ∈ U.owned, b ∈ P.used) :
    ∃ tm'', CTm c ⟨mem', als', upd s.var v (t', T.id)⟩
      ⟨al', upd a.val v (some { T with es := es', owned := bl' })⟩ tm'' := by
  classical
  have hpos := treeMax_pos hc
  have hbpos := CfgOk.bucket_pos c
  let T' : TrieAb := { T with es := es', owned := bl' }
  let keepB : Nat → Prop := fun b => T'.Obj b ∨ ∃ w U, w ≠ v ∧ a.val w = some U ∧ U.Obj b
  let keepN : Nat → Prop := fun p => T'.Has p ∨ ∃ w U, w ≠ v ∧ a.val w = some U ∧ U.Has p
  let tm'' : TMem := { tm' with
    csize := fun b => if keepB b then tm'.csize b else 0
    heap := { tm'.heap with valid := fun p => decide (keepN p) } }
  obtain ⟨ch, Top⟩ := hT.top
  have hobj0 : ∀ w U, w ≠ v → a.val w = some U → ∀ b, U.Obj b → tm'.csize b = tm.csize b ∧ (∀ i, tm'.cell b i = tm.cell b i) ∧ tm.csize b ≠ 0 := by
    intro w U hw hU b hb
    obtain ⟨h1, h2⟩ := fr.obj b (hB w U hw hU b hb)
    exact ⟨by rw [h1, hc0], fun i => by rw [h2, hce], (h.obj b).2 ⟨w, U, hU, hb⟩⟩
  have hcs : ∀ b, keepB b → tm''.csize b = tm'.csize b := fun b hb => if_pos hb
  have hcs0 : ∀ b, tm''.csize b ≠ 0 → keepB b ∧ tm'.csize b ≠ 0 := fun b hb => by
    by_cases hk : keepB b
    · rw [hcs b hk] at hb; exact ⟨hk, hb⟩
    · exact absurd (if_neg hk) hb
  have hnode0 : ∀ w U, w ≠ v → a.val w = some U → ∀ p, U.Has p → SameNode tm.heap tm'.heap p ∧ tm'.heap.valid p = true := by
    intro w U hw hU p hp
    have hvp := (h.node p).2 ⟨w, U, hU, hp⟩
    exact ⟨(hs0 p hvp).trans (fr.node p (hN w U hw hU p hp)), by rw [fr.valid]; exact hv0 p hvp⟩
  have hok : ∀ e ∈ es', tm'.heap.ok e.node := fun e he => (Top.ok hc he).1
  have hkv : ∀ p, keepN p → tm'.heap.valid p = true := by
    rintro p (⟨e, he, rfl⟩ | ⟨w, U, hw, hU, hp⟩)
    · exact (hok e he).2
    · exact (hnode0 w U hw hU p hp).2
  have hkc : ∀ b, keepB b → tm'.csize b ≠ 0 := by
    rintro b ((rfl | hb) | ⟨w, U, hw, hU, hb⟩)
    · have := Top.size
      rw [ht] at this
      show tm'.csize T.base ≠ 0
      rw [this]; omega
    · rw [hT.bsize hb]; omega
    · obtain ⟨h1, _, h2⟩ := hobj0 w U hw hU b hb
      rw [h1]; exact h2
  refine ⟨tm'', h.change (T' := T') hc ?_ ht ?_ ?_ ?_ ?_ hp hps ?_⟩
  · refine hT.same hc (fun e he => ⟨fun ho => ⟨ho.1, ?_⟩, rfl, rfl, rfl, rfl⟩) fun b hb => ⟨hcs b (Or.inl ?_), fun _ _ => rfl⟩
    · simp only [tm'', decide_eq_true_eq]
      exact Or.inl ⟨e, he, rfl⟩
    · rw [ht] at hb; exact hb
  · rw [extOf_upd (T' := T') hv rfl]
    exact hm.restrict (fun b hb => ⟨hcs b (hcs0 b hb).1, rfl⟩) rfl (fun p hp => hkv p (by simpa [tm''] using hp)) ⟨rfl, rfl, rfl, rfl⟩
  · intro b
    constructor
    · exact fun hb => (hcs0 b hb).1
    · intro hb
      rw [hcs b hb]; exact hkc b hb
  · intro p
    simp only [tm'', decide_eq_true_eq, keepN]
  · intro w U hw hU
    refine ⟨fun e he => ?_, fun b hb => ?_⟩
    · have := hnode0 w U hw hU e.node ⟨e, he, rfl⟩
      refine ⟨fun ho => ⟨ho.1, ?_⟩, this.1.next, this.1.prev, this.1.data, this.1.index⟩
      simp only [tm'', decide_eq_true_eq]
      exact Or.inr ⟨w, U, hw, hU, e, he, rfl⟩
    · obtain ⟨h1, h2, _⟩ := hobj0 w U hw hU b hb
      exact ⟨(hcs b (Or.inr ⟨w, U, hw, hU, hb⟩)).trans h1, fun i _ => h2 i⟩
  · intro w U hw hU
    refine ⟨?_, ?_⟩
    · rintro b (rfl | hb) hb'
      · exact h.osep v w T U (Ne.symm hw) hv hU _ (Or.inl rfl) hb'
      · rcases hbl b hb with hb | hb
        · exact h.osep v w T U (Ne.symm hw) hv hU _ (Or.inr hb) hb'
        · exact (h.obj b).2 ⟨w, U, hU, hb'⟩ hb
    · rintro p ⟨e, he, rfl⟩ hp'
      rcases hes e he with hh | hh
      · exact h.nsep v w T U (Ne.symm hw) hv hU _ hh hp'
      · rw [(h.node e.node).2 ⟨w, U, hU, hp'⟩] at hh; cases hh

end FlatSpec
end Tommy
