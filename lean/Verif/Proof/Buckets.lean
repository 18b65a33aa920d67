import Verif.Proof.HashCommon
import Mathlib.Data.List.Perm.Basic
/-! The invariant of a table of buckets and its preservation. -/
set_option linter.unusedSimpArgs false
namespace Tommy

variable [Arch]
namespace HashSpec

/-- The elements `es` are stored in the buckets `B b` of the active positions `b`, whose heads are in the
    cells `ref b`; an element is at the position `place` of its hash. -/
structure BInv (m : Mem) (ref : Nat → Ref) (act : Nat → Prop) (place : Nat → Nat)
    (B : Nat → List Elem) (es : List Elem) : Prop where
  place_act : ∀ h, act (place h)
  cells : ∀ b, act b → ∃ p, m.cell? (ref b) = some p ∧ ERep m.heap p (B b)
  inj : ∀ b c, act b → act c → ref b = ref c → b = c
  mem_place : ∀ b, act b → ∀ e ∈ B b, place e.hash = b
  order : ∀ h, (B (place h)).filter (fun e => e.hash = h) = es.filter (fun e => e.hash = h)
  nodup : (es.map Elem.node).Nodup

variable {m m' : Mem} {ref : Nat → Ref} {act : Nat → Prop} {place : Nat → Nat}
  {B : Nat → List Elem} {es : List Elem}

omit [Arch] in
theorem mem_of_node_eq (hn : (es.map Elem.node).Nodup) {e f : Elem} (he : e ∈ es) (hf : f ∈ es)
    (h : e.node = f.node) : e = f :=
  List.inj_on_of_nodup_map hn he hf h

omit [Arch] in
theorem BInv.mem_iff (i : BInv m ref act place B es) {b : Nat} (hb : act b) {e : Elem} :
    e ∈ B b ↔ e ∈ es ∧ place e.hash = b := by
  constructor
  · intro he
    have hp := i.mem_place b hb e he
    refine ⟨?_, hp⟩
    have : e ∈ (B (place e.hash)).filter (fun x => x.hash = e.hash) := by
      rw [List.mem_filter]; exact ⟨by rw [hp]; exact he, by simp⟩
    rw [i.order] at this
    exact (List.mem_filter.1 this).1
  · rintro ⟨he, hp⟩
    have : e ∈ es.filter (fun x => x.hash = e.hash) := by
      rw [List.mem_filter]; exact ⟨he, by simp⟩
    rw [← i.order] at this
    rw [← hp]; exact (List.mem_filter.1 this).1

omit [Arch] in
theorem BInv.mem_es (i : BInv m ref act place B es) {b : Nat} (hb : act b) {e : Elem} (he : e ∈ B b) :
    e ∈ es := ((i.mem_iff hb).1 he).1

omit [Arch] in
theorem BInv.disj (i : BInv m ref act place B es) {b c : Nat} (hb : act b) (hc : act c) (hbc : b ≠ c) :
    ∀ x ∈ (B b).map Elem.node, x ∉ (B c).map Elem.node := by
  intro x hx hx'
  obtain ⟨e, he, rfl⟩ := List.mem_map.1 hx
  obtain ⟨f, hf, hfe⟩ := List.mem_map.1 hx'
  have h1 := (i.mem_iff hb).1 he
  have h2 := (i.mem_iff hc).1 hf
  have := mem_of_node_eq i.nodup h2.1 h1.1 hfe
  subst this
  exact hbc (h1.2.symm.trans h2.2)

omit [Arch] in
theorem BInv.ok (i : BInv m ref act place B es) {e : Elem} (he : e ∈ es) : m.heap.ok e.node := by
  obtain ⟨p, _, r⟩ := i.cells _ (i.place_act e.hash)
  exact r.ok ((i.mem_iff (i.place_act _)).2 ⟨he, rfl⟩)

omit [Arch] in
theorem BInv.data (i : BInv m ref act place B es) {e : Elem} (he : e ∈ es) :
    m.heap.data e.node = e.data := by
  obtain ⟨p, _, r⟩ := i.cells _ (i.place_act e.hash)
  exact r.data e ((i.mem_iff (i.place_act _)).2 ⟨he, rfl⟩)

omit [Arch] in
theorem BInv.index (i : BInv m ref act place B es) {e : Elem} (he : e ∈ es) :
    m.heap.index e.node = e.hash := by
  obtain ⟨p, _, r⟩ := i.cells _ (i.place_act e.hash)
  exact r.index e ((i.mem_iff (i.place_act _)).2 ⟨he, rfl⟩)

omit [Arch] in
/-- Changes outside the cells and the nodes of the table. -/
theorem BInv.congr (i : BInv m ref act place B es) (hc : ∀ b, act b → m'.cell? (ref b) = m.cell? (ref b))
    (hs : ∀ e ∈ es, SameNode m.heap m'.heap e.node) : BInv m' ref act place B es where
  place_act := i.place_act
  cells b hb := by
    obtain ⟨p, hp, r⟩ := i.cells b hb
    exact ⟨p, (hc b hb).trans hp, r.same fun e he => hs e (i.mem_es hb he)⟩
  inj := i.inj
  mem_place := i.mem_place
  order := i.order
  nodup := i.nodup

omit [Arch] in
/-- The same buckets seen with other names. -/
theorem BInv.rename (i : BInv m ref act place B es) {ref' : Nat → Ref} {act' : Nat → Prop}
    {place' : Nat → Nat} (hp : ∀ h, place' h = place h) (ha : ∀ b, act' b ↔ act b)
    (hr : ∀ b, act b → ref' b = ref b) : BInv m ref' act' place' B es := by
  have hp : place' = place := funext hp
  subst hp
  have ha : act' = act := funext fun b => propext (ha b)
  subst ha
  refine ⟨i.place_act, fun b hb => ?_, fun b c hb hc h => ?_, i.mem_place, i.order, i.nodup⟩
  · rw [hr b hb]; exact i.cells b hb
  · rw [hr b hb, hr c hc] at h; exact i.inj b c hb hc h

omit [Arch] in
theorem find_filter {α : Type} (p q : α → Bool) (h : ∀ x, p x = true → q x = true) (l : List α) :
    (l.filter q).find? p = l.find? p := by
  induction l with
  | nil => rfl
  | cons x l ih =>
    simp only [List.filter_cons, List.find?_cons]
    cases hq : q x with
    | true => simp only [if_true, List.find?_cons, ih]
    | false =>
      have : p x = false := by
        cases hp : p x with
        | false => rfl
        | true => have := h x hp; simp_all
      simp [this, ih]

omit [Arch] in
theorem hit_hash {cmp : Nat → Int} {hash : Nat} {e : Elem} (h : hit cmp hash e = true) : e.hash = hash := by
  simp [hit] at h; exact h.1

omit [Arch] in
theorem BInv.find (i : BInv m ref act place B es) (cmp : Nat → Int) (hash : Nat) :
    (B (place hash)).find? (hit cmp hash) = es.find? (hit cmp hash) := by
  rw [← find_filter (hit cmp hash) (fun e => e.hash = hash) (fun x hx => by simpa using hit_hash hx) (B _),
    i.order, find_filter _ _ (fun x hx => by simpa using hit_hash hx)]

omit [Arch] in
theorem BInv.search (i : BInv m ref act place B es) (cmp : Nat → Int) (hash : Nat) :
    ∃ p, m.cell? (ref (place hash)) = some p ∧
      onNodes (hashSearchLoop cmp hash p) m =
        some (((es.find? (hit cmp hash)).map Elem.data).getD 0, m) := by
  obtain ⟨p, hp, r⟩ := i.cells _ (i.place_act hash)
  refine ⟨p, hp, ?_⟩
  rw [onNodes_run (r.search cmp hash), i.find]

omit [Arch] in
theorem BInv.findNode (i : BInv m ref act place B es) (cmp : Nat → Int) (hash : Nat) :
    ∃ p, m.cell? (ref (place hash)) = some p ∧
      onNodes (hashFindLoop cmp hash p) m =
        some (((es.find? (hit cmp hash)).map Elem.node).getD 0, m) := by
  obtain ⟨p, hp, r⟩ := i.cells _ (i.place_act hash)
  refine ⟨p, hp, ?_⟩
  rw [onNodes_run (r.find cmp hash), i.find]

omit [Arch] in
theorem BInv.walk (i : BInv m ref act place B es) (hash : Nat) :
    ∃ p, m.cell? (ref (place hash)) = some p ∧ ∃ L, onNodes (walkLoop p []) m = some (L, m) ∧
      L.Nodup ∧ (∀ e ∈ L, e ∈ es) ∧
      L.filter (fun e => e.hash = hash) = es.filter (fun e => e.hash = hash) := by
  obtain ⟨p, hp, r⟩ := i.cells _ (i.place_act hash)
  exact ⟨p, hp, B (place hash), onNodes_run r.walk, r.nodup, fun e he => i.mem_es (i.place_act _) he,
    i.order hash⟩

omit [Arch] in
theorem BInv.insert (i : BInv m ref act place B es) {n : Ptr} (hn : m.heap.ok n)
    (hne : n ∉ es.map Elem.node) (d h : Nat) :
    ∃ m', (do cellInsertTail (ref (place h)) n d; onNodes (setIndex n h)) m = some ((), m') ∧
      BInv m' ref act place (upd B (place h) (B (place h) ++ [⟨n, d, h⟩])) (es ++ [⟨n, d, h⟩]) ∧
      Touch m m' (· = ref (place h)) ∧
      ∀ q, q ≠ n → q ∉ es.map Elem.node → SameNode m.heap m'.heap q := by
  have ha := i.place_act h
  obtain ⟨p, hp, r⟩ := i.cells _ ha
  have hnl : n ∉ (B (place h)).map Elem.node := by
    intro hx
    obtain ⟨e, he, rfl⟩ := List.mem_map.1 hx
    exact hne (List.mem_map_of_mem (i.mem_es ha he))
  obtain ⟨m', p', e, c', R', T, S⟩ := cellInsertTail_spec hp r hn hnl d h
  refine ⟨m', e, ?_, T, ?_⟩
  · refine ⟨i.place_act, fun b hb => ?_, i.inj, fun b hb x hx => ?_, fun x => ?_, ?_⟩
    · by_cases hbe : b = place h
      · subst hbe; rw [upd_same]; exact ⟨p', c', R'⟩
      · rw [upd_ne hbe]
        obtain ⟨q, hq, rq⟩ := i.cells b hb
        refine ⟨q, (T.cell _ (fun hh => hbe (i.inj _ _ hb ha hh))).trans hq, rq.same fun x hx => S _ ?_ ?_⟩
        · intro hh; exact hne (hh ▸ List.mem_map_of_mem (i.mem_es hb hx))
        · exact i.disj hb ha hbe _ (List.mem_map_of_mem hx)
    · by_cases hbe : b = place h
      · subst hbe
        rw [upd_same] at hx
        rcases List.mem_append.1 hx with hx | hx
        · exact i.mem_place _ hb x hx
        · simp at hx; subst hx; rfl
      · rw [upd_ne hbe] at hx; exact i.mem_place b hb x hx
    · by_cases hxe : place x = place h
      · rw [hxe, upd_same, List.filter_append, List.filter_append, ← hxe, i.order]
      · have hxh : h ≠ x := fun hh => hxe (by rw [hh])
        rw [upd_ne hxe, List.filter_append, i.order]
        simp [hxh]
    · rw [List.map_append, List.nodup_append]
      refine ⟨i.nodup, by simp, ?_⟩
      intro a ha b hb; simp at hb; subst hb; rintro rfl; exact hne ha
  · intro q hq hqe
    refine S q hq fun hx => ?_
    obtain ⟨x, hx', rfl⟩ := List.mem_map.1 hx
    exact hqe (List.mem_map_of_mem (i.mem_es ha hx'))

omit [Arch] in
theorem filter_node_append {as bs : List Elem} {x : Elem} (hn : ((as ++ x :: bs).map Elem.node).Nodup) :
    (as ++ x :: bs).filter (fun e => e.node ≠ x.node) = as ++ bs := by
  simp only [List.map_append, List.map_cons, List.nodup_append, List.nodup_cons] at hn
  rw [List.filter_append, List.filter_cons]
  have h1 : as.filter (fun e => e.node ≠ x.node) = as := by
    rw [List.filter_eq_self]; intro e he
    have := hn.2.2 e.node (List.mem_map_of_mem he) x.node (by simp)
    simpa using this
  have h2 : bs.filter (fun e => e.node ≠ x.node) = bs := by
    rw [List.filter_eq_self]; intro e he
    have : e.node ≠ x.node := fun h => hn.2.1.1 (h ▸ List.mem_map_of_mem he)
    simpa using this
  rw [h1, h2]; simp

omit [Arch] in
theorem BInv.remove (i : BInv m ref act place B es) {e : Elem} (he : e ∈ es) :
    ∃ m' B', cellRemoveExisting (ref (place e.hash)) e.node m = some ((), m') ∧
      BInv m' ref act place B' (es.filter (fun x => x.node ≠ e.node)) ∧
      Touch m m' (· = ref (place e.hash)) ∧ m'.heap.data = m.heap.data ∧
      ∀ q, q ∉ es.map Elem.node → SameNode m.heap m'.heap q := by
  have ha := i.place_act e.hash
  obtain ⟨p, hp, r⟩ := i.cells _ ha
  obtain ⟨as, bs, hab⟩ := List.append_of_mem ((i.mem_iff ha).2 ⟨he, rfl⟩)
  rw [hab] at r
  obtain ⟨m', p', e1, c', R', T, hd, S⟩ := cellRemoveExisting_spec hp r
  have hfil : (B (place e.hash)).filter (fun x => x.node ≠ e.node) = as ++ bs := by
    rw [hab]; exact filter_node_append r.list.nodup
  refine ⟨m', upd B (place e.hash) (as ++ bs), e1, ?_, T, hd, ?_⟩
  · refine ⟨i.place_act, fun b hb => ?_, i.inj, fun b hb x hx => ?_, fun x => ?_, ?_⟩
    · by_cases hbe : b = place e.hash
      · subst hbe; rw [upd_same]; exact ⟨p', c', R'⟩
      · rw [upd_ne hbe]
        obtain ⟨q, hq, rq⟩ := i.cells b hb
        refine ⟨q, (T.cell _ (fun hh => hbe (i.inj _ _ hb ha hh))).trans hq, rq.same fun x hx => S _ ?_⟩
        rw [← hab]
        exact i.disj hb ha hbe _ (List.mem_map_of_mem hx)
    · by_cases hbe : b = place e.hash
      · subst hbe
        rw [upd_same] at hx
        exact i.mem_place _ hb x (by rw [hab]; simp at hx ⊢; tauto)
      · rw [upd_ne hbe] at hx; exact i.mem_place b hb x hx
    · have key : (es.filter (fun y => y.node ≠ e.node)).filter (fun y => y.hash = x)
          = (es.filter (fun y => y.hash = x)).filter (fun y => y.node ≠ e.node) := by
        rw [List.filter_filter, List.filter_filter]
        congr 1; funext y; exact Bool.and_comm _ _
      rw [key, ← i.order x]
      by_cases hxe : place x = place e.hash
      · rw [hxe, upd_same, ← hfil, List.filter_filter, List.filter_filter]
        congr 1; funext y; exact Bool.and_comm _ _
      · rw [upd_ne hxe, eq_comm, List.filter_eq_self]
        intro y hy
        have hy := (List.mem_filter.1 hy).1
        have hyy := (i.mem_iff (i.place_act x)).1 hy
        have : y.node ≠ e.node := by
          intro hh
          have := mem_of_node_eq i.nodup hyy.1 he hh
          subst this
          exact hxe hyy.2.symm
        simpa using this
    · exact i.nodup.sublist (List.filter_sublist.map _)
  · intro q hq
    refine S q fun hx => ?_
    rw [← hab] at hx
    obtain ⟨x, hx', rfl⟩ := List.mem_map.1 hx
    exact hq (List.mem_map_of_mem (i.mem_es ha hx'))

/-! ### Linear hashing: some of the `M` low positions are split in two -/

/-- The position of a hash when the low positions in `S` are split. -/
def lplace (M : Nat) (S : Nat → Bool) (h : Nat) : Nat := if S (h % M) then h % (2 * M) else h % M

/-- The active positions when the low positions in `S` are split. -/
def lact (M : Nat) (S : Nat → Bool) (b : Nat) : Prop := b < M ∨ (M ≤ b ∧ b < 2 * M ∧ S (b - M) = true)

omit [Arch] in
theorem mod_two_mul (h : Nat) {M : Nat} (hM : 0 < M) :
    (h % (2 * M) = h % M ∧ h % (2 * M) < M) ∨ h % (2 * M) = h % M + M := by
  have h1 : h % (2 * M) % M = h % M := Nat.mod_mod_of_dvd h ⟨2, Nat.mul_comm 2 M⟩
  have h2 : h % (2 * M) < 2 * M := Nat.mod_lt _ (by omega)
  generalize h % (2 * M) = r at *
  by_cases hr : r < M
  · left; rw [Nat.mod_eq_of_lt hr] at h1; exact ⟨h1, hr⟩
  · right
    have : r % M = r - M := by
      rw [Nat.mod_eq_sub_mod (by omega), Nat.mod_eq_of_lt (by omega)]
    omega

omit [Arch] in
/-- Split of the low position `s`. -/
theorem BInv.split {M : Nat} {S : Nat → Bool} (hM : 0 < M)
    (i : BInv m ref (lact M S) (lplace M S) B es) {s : Nat} (hs : s < M) (hS : S s = false)
    {r0 r1 : Ref} (h01 : r0 ≠ r1)
    (h0 : ∀ b, lact M S b → b ≠ s → ref b ≠ r0) (h1 : ∀ b, lact M S b → b ≠ s → ref b ≠ r1)
    {p : Ptr} (hp : m.cell? (ref s) = some p) {m1 : Mem}
    (T1 : Touch m m1 (fun r => r = r0 ∨ r = r1)) (hh : m1.heap = m.heap)
    (z0 : m1.cell? r0 = some 0) (z1 : m1.cell? r1 = some 0)
    {dest : Nat → Ref} (hdest : ∀ h, h % M = s → dest h = if M ≤ h % (2 * M) then r1 else r0) :
    ∃ m2 B', flushLoop dest p m1 = some ((es.filter (fun e => e.hash % M = s)).length, m2) ∧
      BInv m2 (upd (upd ref s r0) (s + M) r1) (lact M (upd S s true)) (lplace M (upd S s true)) B' es ∧
      Touch m m2 (fun r => r = r0 ∨ r = r1) ∧
      ∀ q, q ∉ es.map Elem.node → SameNode m.heap m2.heap q := by
  have hla : lact M S s := Or.inl hs
  have hlp : ∀ h, h % M = s → lplace M S h = s := fun h e => by simp [lplace, e, hS]
  obtain ⟨p', hp', R⟩ := i.cells s hla
  obtain rfl : p = p' := by rw [hp] at hp'; exact Option.some.inj hp'
  have hmod : ∀ e ∈ B s, e.hash % M = s := by
    intro e he
    have := i.mem_place s hla e he
    unfold lplace at this
    by_cases hc : S (e.hash % M) = true
    · rw [if_pos hc] at this
      rcases mod_two_mul e.hash hM with ⟨a, _⟩ | a
      · omega
      · omega
    · rw [if_neg hc] at this; exact this
  let hi : Elem → Bool := fun e => decide (M ≤ e.hash % (2 * M))
  obtain ⟨m2, q0, q1, e2, c0, R0, c1, R1, T2, S2⟩ := flushLoop_spec dest r0 r1 h01 hi (B s) m1 0 0 [] []
    (fun e he => by rw [hdest _ (hmod e he)]; simp [hi])
    (fun e he => by rw [hh]; exact R.ok he) (by rw [hh]; exact R.list.seg.fwd) R.list.nodup
    (by rw [hh]; exact R.data) (by rw [hh]; exact R.index) z0 (ERep.nil _) z1 (ERep.nil _) (by simp) (by simp)
  have hlen : (B s).length = (es.filter (fun e => e.hash % M = s)).length := by
    refine List.Perm.length_eq ((List.perm_ext_iff_of_nodup R.list.nodup.of_map (i.nodup.of_map.filter _)).2 fun e => ?_)
    rw [i.mem_iff hla, List.mem_filter, decide_eq_true_eq]
    exact and_congr_right fun he => ⟨fun hpl => hmod e ((i.mem_iff hla).2 ⟨he, hpl⟩), hlp e.hash⟩
  rw [← R.list.head, hlen] at e2
  simp only [List.nil_append] at R0 R1
  have T : Touch m m2 (fun r => r = r0 ∨ r = r1) := T1.trans T2
  have hsM : s ≠ s + M := by omega
  have actIff : ∀ b, lact M (upd S s true) b ↔ lact M S b ∨ b = s + M := by
    intro b
    unfold lact
    by_cases hb : b - M = s
    · rw [hb, upd_same]; simp only [hS, and_true, and_false, or_false, Bool.false_eq_true]; omega
    · rw [upd_ne hb]
      constructor
      · rintro (h | h)
        · exact Or.inl (Or.inl h)
        · exact Or.inl (Or.inr h)
      · rintro (h | h)
        · exact h
        · omega
  have notAct : ¬ lact M S (s + M) := by
    rintro (h | ⟨_, _, h⟩)
    · omega
    · rw [Nat.add_sub_cancel, hS] at h; exact absurd h (by simp)
  have placeNe : ∀ h, h % M ≠ s → lplace M (upd S s true) h = lplace M S h ∧ lplace M S h ≠ s ∧
      lplace M S h ≠ s + M := by
    intro h hne
    refine ⟨by simp only [lplace, upd_ne hne], fun e => hne ?_, fun e => notAct (e ▸ i.place_act h)⟩
    unfold lplace at e
    split at e
    · rcases mod_two_mul h hM with ⟨a, _⟩ | a
      · omega
      · have := Nat.mod_lt h hM; omega
    · exact e
  have placeEq : ∀ h, h % M = s → lplace M (upd S s true) h = h % (2 * M) := by
    intro h e; simp [lplace, e]
  refine ⟨m2, upd (upd B s ((B s).filter (fun e => !hi e))) (s + M) ((B s).filter hi), e2, ?_, T, ?_⟩
  · refine ⟨fun h => ?_, fun b hb => ?_, fun b c hb hc h => ?_, fun b hb x hx => ?_, fun x => ?_, i.nodup⟩
    · by_cases hms : h % M = s
      · rw [placeEq h hms, actIff]
        rcases mod_two_mul h hM with ⟨a, _⟩ | a
        · left; rw [a, hms]; exact hla
        · right; omega
      · rw [(placeNe h hms).1, actIff]; exact Or.inl (i.place_act h)
    · by_cases hb1 : b = s + M
      · subst hb1; rw [upd_same, upd_same]; exact ⟨q1, c1, R1⟩
      · rw [upd_ne hb1, upd_ne hb1]
        by_cases hb0 : b = s
        · subst hb0; rw [upd_same, upd_same]; exact ⟨q0, c0, R0⟩
        · rw [upd_ne hb0, upd_ne hb0]
          have hab : lact M S b := by
            rcases (actIff b).1 hb with h | h
            · exact h
            · exact absurd h hb1
          obtain ⟨q, hq, rq⟩ := i.cells b hab
          refine ⟨q, (T.cell _ (by have := h0 b hab hb0; have := h1 b hab hb0; tauto)).trans hq, ?_⟩
          refine rq.same fun x hx => ?_
          rw [← hh]
          exact S2 _ (i.disj hab hla hb0 _ (List.mem_map_of_mem hx)) (by simp) (by simp)
    · have ab : ∀ b, lact M (upd S s true) b → b ≠ s + M → lact M S b := fun b hb hne => by
        rcases (actIff b).1 hb with h | h
        · exact h
        · exact absurd h hne
      by_cases hb1 : b = s + M
      · by_cases hc1 : c = s + M
        · rw [hb1, hc1]
        · subst hb1
          rw [upd_same, upd_ne hc1] at h
          by_cases hc0 : c = s
          · rw [hc0, upd_same] at h; exact absurd h.symm h01
          · rw [upd_ne hc0] at h; exact absurd h.symm (h1 c (ab c hc hc1) hc0)
      · by_cases hc1 : c = s + M
        · subst hc1
          rw [upd_same, upd_ne hb1] at h
          by_cases hb0 : b = s
          · rw [hb0, upd_same] at h; exact absurd h h01
          · rw [upd_ne hb0] at h; exact absurd h (h1 b (ab b hb hb1) hb0)
        · rw [upd_ne hb1, upd_ne hc1] at h
          by_cases hb0 : b = s
          · by_cases hc0 : c = s
            · rw [hb0, hc0]
            · rw [hb0, upd_same, upd_ne hc0] at h
              exact absurd h.symm (h0 c (ab c hc hc1) hc0)
          · by_cases hc0 : c = s
            · rw [hc0, upd_same, upd_ne hb0] at h
              exact absurd h (h0 b (ab b hb hb1) hb0)
            · rw [upd_ne hb0, upd_ne hc0] at h
              exact i.inj b c (ab b hb hb1) (ab c hc hc1) h
    · by_cases hb1 : b = s + M
      · subst hb1
        rw [upd_same] at hx
        obtain ⟨hx, hhi⟩ := List.mem_filter.1 hx
        have hms := hmod x hx
        rw [placeEq _ hms]
        simp only [hi, decide_eq_true_eq] at hhi
        rcases mod_two_mul x.hash hM with ⟨_, a⟩ | a <;> omega
      · rw [upd_ne hb1] at hx
        by_cases hb0 : b = s
        · subst hb0
          rw [upd_same] at hx
          obtain ⟨hx, hhi⟩ := List.mem_filter.1 hx
          have hms := hmod x hx
          rw [placeEq _ hms]
          simp only [hi, Bool.not_eq_true', decide_eq_false_iff_not] at hhi
          rcases mod_two_mul x.hash hM with ⟨a, _⟩ | a <;> omega
        · rw [upd_ne hb0] at hx
          have hab : lact M S b := by
            rcases (actIff b).1 hb with h | h
            · exact h
            · exact absurd h hb1
          have hpx := i.mem_place b hab x hx
          have hms : x.hash % M ≠ s := fun e => hb0 (by rw [← hpx, hlp _ e])
          rw [(placeNe _ hms).1]; exact hpx
    · by_cases hms : x % M = s
      · rw [placeEq x hms, ← i.order x, hlp x hms]
        rcases mod_two_mul x hM with ⟨a, b⟩ | a
        · have e1 : x % (2 * M) = s := by omega
          rw [e1, upd_ne hsM, upd_same, List.filter_filter]
          apply List.filter_congr
          intro y _
          by_cases hyx : y.hash = x
          · simp [hyx, hi]; omega
          · simp [hyx]
        · have e1 : x % (2 * M) = s + M := by omega
          rw [e1, upd_same, List.filter_filter]
          apply List.filter_congr
          intro y _
          by_cases hyx : y.hash = x
          · simp [hyx, hi]; omega
          · simp [hyx]
      · obtain ⟨a, b, c⟩ := placeNe x hms
        rw [a, upd_ne c, upd_ne b, i.order]
  · intro q hq
    rw [← hh]
    refine S2 q (fun hx => hq ?_) (by simp) (by simp)
    obtain ⟨x, hx', rfl⟩ := List.mem_map.1 hx
    exact List.mem_map_of_mem (i.mem_es hla hx')

omit [Arch] in
/-- Merge of the high position of `s` into the low one. -/
theorem BInv.merge {M : Nat} {S : Nat → Bool} (hM : 0 < M)
    (i : BInv m ref (lact M S) (lplace M S) B es) {s : Nat} (hs : s < M) (hS : S s = true)
    {r0 : Ref} (h0 : ∀ b, lact M S b → b ≠ s → ref b ≠ r0)
    {p : Ptr} (hp : m.cell? (ref s) = some p) {m1 : Mem}
    (T1 : Touch m m1 (· = r0)) (hh : m1.heap = m.heap) (z0 : m1.cell? r0 = some p) :
    ∃ m2 B', cellConcat r0 (ref (s + M)) m1 = some ((), m2) ∧
      BInv m2 (upd ref s r0) (lact M (upd S s false)) (lplace M (upd S s false)) B' es ∧
      Touch m m2 (· = r0) ∧ m2.heap.data = m.heap.data ∧
      ∀ q, q ∉ es.map Elem.node → SameNode m.heap m2.heap q := by
  have hla : lact M S s := Or.inl hs
  have hlh : lact M S (s + M) := Or.inr ⟨by omega, by omega, by rw [Nat.add_sub_cancel]; exact hS⟩
  have hsM : s ≠ s + M := by omega
  obtain ⟨p', hp', R⟩ := i.cells s hla
  obtain rfl : p = p' := by rw [hp] at hp'; exact Option.some.inj hp'
  obtain ⟨p1, hp1, R1⟩ := i.cells _ hlh
  have hp1' : m1.cell? (ref (s + M)) = some p1 := (T1.cell _ (h0 _ hlh hsM.symm)).trans hp1
  obtain ⟨m2, q0, e2, c0, R0, T2, hd, S2⟩ := cellConcat_spec z0 hp1' (by rw [hh]; exact R)
    (by rw [hh]; exact R1) (i.disj hla hlh hsM)
  have T : Touch m m2 (· = r0) := T1.trans T2
  have actIff : ∀ b, lact M (upd S s false) b ↔ lact M S b ∧ b ≠ s + M := by
    intro b
    unfold lact
    by_cases hb : b - M = s
    · rw [hb, upd_same]; simp only [Bool.false_eq_true, and_false, or_false]
      constructor
      · intro h; exact ⟨Or.inl h, by omega⟩
      · rintro ⟨h | h, h2⟩
        · exact h
        · omega
    · rw [upd_ne hb]
      constructor
      · intro h; exact ⟨h, by omega⟩
      · exact fun h => h.1
  have modOf : ∀ h, (lplace M S h = s ∨ lplace M S h = s + M) → h % M = s := by
    intro h e
    unfold lplace at e
    have := Nat.mod_lt h hM
    split at e
    · rcases mod_two_mul h hM with ⟨a, _⟩ | a <;> omega
    · omega
  have placeEq : ∀ h, h % M = s → lplace M (upd S s false) h = s ∧
      (lplace M S h = s ∨ lplace M S h = s + M) := by
    intro h e
    refine ⟨by simp [lplace, e], ?_⟩
    simp only [lplace, e, hS, if_true]
    rcases mod_two_mul h hM with ⟨a, _⟩ | a <;> omega
  have placeNe : ∀ h, h % M ≠ s → lplace M (upd S s false) h = lplace M S h ∧ lplace M S h ≠ s := by
    intro h hne
    exact ⟨by simp only [lplace, upd_ne hne], fun e => hne (modOf h (Or.inl e))⟩
  refine ⟨m2, upd B s (B s ++ B (s + M)), e2, ?_, T, by rw [hd, hh], ?_⟩
  · refine ⟨fun h => ?_, fun b hb => ?_, fun b c hb hc h => ?_, fun b hb x hx => ?_, fun x => ?_, i.nodup⟩
    · by_cases hms : h % M = s
      · rw [(placeEq h hms).1, actIff]; exact ⟨hla, hsM⟩
      · rw [(placeNe h hms).1, actIff]
        exact ⟨i.place_act h, fun e => hms (modOf h (Or.inr e))⟩
    · have hab := (actIff b).1 hb
      by_cases hb0 : b = s
      · subst hb0; rw [upd_same, upd_same]; exact ⟨q0, c0, R0⟩
      · rw [upd_ne hb0, upd_ne hb0]
        obtain ⟨q, hq, rq⟩ := i.cells b hab.1
        refine ⟨q, (T.cell _ (h0 b hab.1 hb0)).trans hq, ?_⟩
        refine rq.same fun x hx => ?_
        rw [← hh]
        exact S2 _ (i.disj hab.1 hla hb0 _ (List.mem_map_of_mem hx))
          (i.disj hab.1 hlh hab.2 _ (List.mem_map_of_mem hx))
    · have hb := ((actIff b).1 hb).1
      have hc := ((actIff c).1 hc).1
      by_cases hb0 : b = s
      · by_cases hc0 : c = s
        · rw [hb0, hc0]
        · rw [hb0, upd_same, upd_ne hc0] at h
          exact absurd h.symm (h0 c hc hc0)
      · by_cases hc0 : c = s
        · rw [hc0, upd_same, upd_ne hb0] at h
          exact absurd h (h0 b hb hb0)
        · rw [upd_ne hb0, upd_ne hc0] at h
          exact i.inj b c hb hc h
    · have hab := (actIff b).1 hb
      by_cases hb0 : b = s
      · subst hb0
        rw [upd_same] at hx
        refine (placeEq _ (modOf _ ?_)).1
        rcases List.mem_append.1 hx with hx | hx
        · exact Or.inl (i.mem_place _ hla x hx)
        · exact Or.inr (i.mem_place _ hlh x hx)
      · rw [upd_ne hb0] at hx
        have hpx := i.mem_place b hab.1 x hx
        have hms : x.hash % M ≠ s := by
          intro e
          rcases (placeEq _ e).2 with h | h
          · exact hb0 (hpx.symm.trans h)
          · exact hab.2 (hpx.symm.trans h)
        rw [(placeNe _ hms).1]; exact hpx
    · by_cases hms : x % M = s
      · rw [(placeEq x hms).1, upd_same, List.filter_append, ← i.order x]
        have none : ∀ b, lact M S b → lplace M S x ≠ b → (B b).filter (fun e => e.hash = x) = [] := by
          intro b hb hne
          rw [List.filter_eq_nil_iff]
          intro e he
          have := i.mem_place b hb e he
          simp only [decide_eq_true_eq]
          rintro rfl; exact hne this
        rcases (placeEq x hms).2 with h | h
        · rw [none (s + M) hlh (by rw [h]; exact hsM), h]; simp
        · rw [none s hla (by rw [h]; exact hsM.symm), h]; simp
      · obtain ⟨a, b⟩ := placeNe x hms
        rw [a, upd_ne b, i.order]
  · intro q hq
    rw [← hh]
    refine S2 q (fun hx => hq ?_) (fun hx => hq ?_)
    · obtain ⟨x, hx', rfl⟩ := List.mem_map.1 hx
      exact List.mem_map_of_mem (i.mem_es hla hx')
    · obtain ⟨x, hx', rfl⟩ := List.mem_map.1 hx
      exact List.mem_map_of_mem (i.mem_es hlh hx')

end HashSpec
end Tommy
