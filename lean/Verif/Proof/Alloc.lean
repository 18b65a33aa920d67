import Verif.Proof.AllocPool
/-! All the allocators of a program: the invariant is kept by all the operations. -/
set_option linter.unusedSimpArgs false
namespace Tommy
namespace AllocSpec
variable [Arch]

/-- The regions with their owner: an allocator, or the rest of the program. -/
def RegionO (a : Ab) (b n : Nat) : Option Nat → Prop
  | none => a.env b = some n
  | some id => ∃ P, a.pool id = some P ∧ b ∈ P.segs ∧ n = segSize P.bs P.al

theorem region_iff {a : Ab} {b n : Nat} : a.Region b n ↔ ∃ o, RegionO a b n o := by
  constructor
  · rintro (h | ⟨id, P, h⟩)
    · exact ⟨none, h⟩
    · exact ⟨some id, P, h⟩
  · rintro ⟨_ | id, h⟩
    · exact Or.inl h
    · obtain ⟨P, h⟩ := h; exact Or.inr ⟨id, P, h⟩

structure RegInv (slack : Nat) (live : Nat → Option Nat) (a : Ab) : Prop where
  live : ∀ b n, live b = some n ↔ ∃ k o, n = k + slack ∧ RegionO a b k o
  sep : ∀ {b n o b' n' o'}, RegionO a b n o → RegionO a b' n' o' →
    (b = b' ∧ n = n' ∧ o = o') ∨ (b ≠ b' ∧ (b + n + slack ≤ b' ∨ b' + n' + slack ≤ b))
  lt : ∀ {b n o}, RegionO a b n o → 0 < b ∧ b + n + slack < 2 ^ sizeBit

theorem RegInv.add {slack : Nat} {live : Nat → Option Nat} {a a' : Ab} (h : RegInv slack live a) {base size : Nat}
    {o0 : Option Nat} (hf : a.Fresh slack base size)
    (hr : ∀ b n o, RegionO a' b n o ↔ RegionO a b n o ∨ (b = base ∧ n = size ∧ o = o0)) :
    RegInv slack (upd live base (some (size + slack))) a' := by
  obtain ⟨h0, hlt, hn, hd⟩ := hf
  have hd' : ∀ {b n o}, RegionO a b n o → b ≠ base ∧ (base + size + slack ≤ b ∨ b + n + slack ≤ base) := fun {b n o} hb =>
    ⟨fun e => hn n (region_iff.2 ⟨o, e ▸ hb⟩), hd b n (region_iff.2 ⟨o, hb⟩)⟩
  refine ⟨fun b n => ?_, ?_, ?_⟩
  · by_cases e : b = base
    · subst e
      rw [upd_same]
      constructor
      · intro e; cases e; exact ⟨size, o0, rfl, (hr _ _ _).2 (Or.inr ⟨rfl, rfl, rfl⟩)⟩
      · rintro ⟨k, o, rfl, hk⟩
        rcases (hr _ _ _).1 hk with hk | ⟨_, rfl, _⟩
        · exact absurd rfl (hd' hk).1
        · rfl
    · rw [upd_ne e, h.live]
      constructor
      · rintro ⟨k, o, h1, h2⟩; exact ⟨k, o, h1, (hr _ _ _).2 (Or.inl h2)⟩
      · rintro ⟨k, o, h1, h2⟩
        rcases (hr _ _ _).1 h2 with h2 | ⟨h2, _⟩
        · exact ⟨k, o, h1, h2⟩
        · exact absurd h2 e
  · intro b n o b' n' o' h1 h2
    rcases (hr _ _ _).1 h1 with h1 | ⟨rfl, rfl, rfl⟩ <;> rcases (hr _ _ _).1 h2 with h2 | ⟨rfl, rfl, rfl⟩
    · exact h.sep h1 h2
    · have := hd' h1
      exact Or.inr ⟨this.1, this.2.symm⟩
    · have := hd' h2
      exact Or.inr ⟨this.1.symm, this.2⟩
    · exact Or.inl ⟨rfl, rfl, rfl⟩
  · intro b n o h1
    rcases (hr _ _ _).1 h1 with h1 | ⟨rfl, rfl, rfl⟩
    · exact h.lt h1
    · exact ⟨h0, hlt⟩

theorem RegInv.sub {slack : Nat} {live live' : Nat → Option Nat} {a a' : Ab} (h : RegInv slack live a) {l : List Nat}
    (hr : ∀ b n o, RegionO a' b n o ↔ RegionO a b n o ∧ b ∉ l)
    (hl : ∀ b, live' b = if b ∈ l then none else live b) : RegInv slack live' a' := by
  refine ⟨fun b n => ?_, fun h1 h2 => h.sep ((hr _ _ _).1 h1).1 ((hr _ _ _).1 h2).1, fun h1 => h.lt ((hr _ _ _).1 h1).1⟩
  rw [hl]
  by_cases e : b ∈ l
  · rw [if_pos e]
    constructor
    · intro h; cases h
    · rintro ⟨k, o, _, h2⟩; exact absurd e ((hr _ _ _).1 h2).2
  · rw [if_neg e, h.live]
    constructor
    · rintro ⟨k, o, h1, h2⟩; exact ⟨k, o, h1, (hr _ _ _).2 ⟨h2, e⟩⟩
    · rintro ⟨k, o, h1, h2⟩; exact ⟨k, o, h1, ((hr _ _ _).1 h2).1⟩

theorem RegInv.same {slack : Nat} {live : Nat → Option Nat} {a a' : Ab} (h : RegInv slack live a)
    (hr : ∀ b n o, RegionO a' b n o ↔ RegionO a b n o) : RegInv slack live a' :=
  h.sub (l := []) (fun b n o => by simp [hr]) (fun b => by simp)

/-- The regions after a change of an allocator. -/
theorem regionO_upd {a : Ab} {id : Nat} {P P' : Pool} (hP : a.pool id = some P) (hbs : P'.bs = P.bs) (hal : P'.al = P.al)
    (b n : Nat) (o : Option Nat) :
    RegionO { a with pool := upd a.pool id (some P') } b n o ↔
      (o ≠ some id ∧ RegionO a b n o) ∨ (o = some id ∧ b ∈ P'.segs ∧ n = segSize P.bs P.al) := by
  cases o with
  | none => simp [RegionO]
  | some i =>
    by_cases e : i = id
    · subst e; simp [RegionO, upd_same, hbs, hal]
    · simp [RegionO, upd_ne e, e]

structure AInv (slack : Nat) (s : St) (a : Ab) : Prop where
  pools : ∀ id, (a.pool id = none ∧ s.al id = none) ∨
    ∃ P t F, a.pool id = some P ∧ s.al id = some t ∧ PoolInv slack s.mem t P F
  reg : RegInv slack s.mem.live a

variable {slack : Nat} {s : St} {a : Ab}

theorem AInv.get (h : AInv slack s a) {id : Nat} {P : Pool} (hP : a.pool id = some P) :
    ∃ t F, s.al id = some t ∧ PoolInv slack s.mem t P F := by
  rcases h.pools id with ⟨h1, _⟩ | ⟨P', t, F, h1, h2, h3⟩
  · rw [hP] at h1; cases h1
  · rw [hP] at h1; cases h1; exact ⟨t, F, h2, h3⟩

theorem PoolInv.in_region {m : AMem} {t : Alloc} {P : Pool} {F : List Nat} {id : Nat} (h : PoolInv slack m t P F)
    (hP : a.pool id = some P) {p : Nat} (hp : p ∈ P.used ++ F) :
    ∃ b, RegionO a b (segSize P.bs P.al) (some id) ∧ b + ptrSize ≤ p ∧ p + P.bs ≤ b + segSize P.bs P.al + slack := by
  obtain ⟨_, b, hb, h1⟩ := h.blk p hp
  exact ⟨b, ⟨P, hP, hb, rfl⟩, h1⟩

/-- The memory of the user is in a region. -/
theorem AInv.user_region (h : AInv slack s a) {x : Nat} (hx : a.UserByte x) :
    ∃ b n, a.Region b n ∧ b ≤ x ∧ x < b + n + slack := by
  rcases hx with ⟨b, n, h1, h2, h3⟩ | ⟨id, P, p, hP, hp, h2, h3⟩
  · exact ⟨b, n, Or.inl h1, h2, by omega⟩
  · obtain ⟨t, F, _, hi⟩ := h.get hP
    obtain ⟨b, hb, h4, h5⟩ := hi.in_region hP (p := p) (by simp [hp])
    exact ⟨b, _, region_iff.2 ⟨_, hb⟩, by omega, by omega⟩

/-- The memory of the user does not contain data of the allocators. -/
theorem AInv.user_sep (h : AInv slack s a) {x : Nat} (hx : a.UserByte x) {id : Nat} {P : Pool} {t : Alloc} {F : List Nat}
    (hP : a.pool id = some P) (hi : PoolInv slack s.mem t P F) :
    (∀ b ∈ P.segs, x < b ∨ b + ptrSize ≤ x) ∧ ∀ p ∈ F, x < p ∨ p + P.bs ≤ x := by
  have hge := segSize_ge P.bs P.al
  rcases hx with ⟨b, n, h1, h2, h3⟩ | ⟨id', P', q, hP', hq, h2, h3⟩
  · have hsep : ∀ b', RegionO a b' (segSize P.bs P.al) (some id) → x < b' ∨ b' + segSize P.bs P.al + slack ≤ x := by
      intro b' hb'
      have h1' : RegionO a b n none := h1
      rcases h.reg.sep h1' hb' with ⟨_, _, h⟩ | h
      · cases h
      · omega
    refine ⟨fun b' hb' => ?_, fun p hp => ?_⟩
    · have := hsep b' ⟨P, hP, hb', rfl⟩; omega
    · obtain ⟨b', hb', h4, h5⟩ := hi.in_region hP (p := p) (by simp [hp])
      have := hsep b' hb'; omega
  · by_cases e : id' = id
    · subst e
      rw [hP] at hP'; cases hP'
      obtain ⟨b, hb, h4, h5⟩ := hi.in_region hP (p := q) (by simp [hq])
      refine ⟨fun b' hb' => ?_, fun p hp => ?_⟩
      · have hb'' : RegionO a b' (segSize P.bs P.al) (some id') := ⟨P, hP, hb', rfl⟩
        rcases h.reg.sep hb hb'' with ⟨rfl, _⟩ | h <;> omega
      · have := (List.pairwise_append.1 hi.apart).2.2 q hq p hp
        unfold Off at this
        omega
    · obtain ⟨t', F', _, hi'⟩ := h.get hP'
      obtain ⟨b, hb, h4, h5⟩ := hi'.in_region hP' (p := q) (by simp [hq])
      have hsep : ∀ b', RegionO a b' (segSize P.bs P.al) (some id) → x < b' ∨ b' + segSize P.bs P.al + slack ≤ x := by
        intro b' hb'
        rcases h.reg.sep hb hb' with ⟨_, _, h⟩ | h
        · cases h; exact absurd rfl e
        · omega
      refine ⟨fun b' hb' => ?_, fun p hp => ?_⟩
      · have := hsep b' ⟨P, hP, hb', rfl⟩; omega
      · obtain ⟨b', hb', h4, h5⟩ := hi.in_region hP (p := p) (by simp [hp])
        have := hsep b' hb'; omega

/-- The other allocators are not affected by changes out of their regions. -/
theorem others {m' : AMem} {Q : Pool} {t : Alloc} {F : List Nat}
    (hi : PoolInv slack s.mem t Q F)
    (hb : ∀ b ∈ Q.segs, ∀ x, b ≤ x → x < b + segSize Q.bs Q.al + slack → m'.byte x = s.mem.byte x)
    (hl : ∀ b ∈ Q.segs, m'.live b = s.mem.live b) : PoolInv slack m' t Q F := by
  have hge := segSize_ge Q.bs Q.al
  have := hi.bs8
  refine hi.congr (fun b hb' => rdP_congr fun x h1 h2 => hb b hb' x h1 (by omega)) (fun p hp => ?_) hl
  obtain ⟨_, b, hb', h1, h2⟩ := hi.blk p (by simp [hp])
  exact rdP_congr fun x h3 h4 => hb b hb' x (by omega) (by omega)

/-- The change of an allocator. -/
theorem AInv.change (h : AInv slack s a) {id : Nat} {P' : Pool} {t' : Alloc} {F' : List Nat} {m' : AMem}
    (hi : PoolInv slack m' t' P' F')
    (hb : ∀ id' Q, id' ≠ id → a.pool id' = some Q → ∀ b ∈ Q.segs, ∀ x, b ≤ x → x < b + segSize Q.bs Q.al + slack →
      m'.byte x = s.mem.byte x)
    (hl : ∀ id' Q, id' ≠ id → a.pool id' = some Q → ∀ b ∈ Q.segs, m'.live b = s.mem.live b)
    (hr : RegInv slack m'.live { a with pool := upd a.pool id (some P') }) :
    AInv slack ⟨m', upd s.al id (some t')⟩ { a with pool := upd a.pool id (some P') } := by
  refine ⟨fun id' => ?_, hr⟩
  by_cases e : id' = id
  · subst e
    exact Or.inr ⟨P', t', F', upd_same _ _ _, upd_same _ _ _, hi⟩
  · simp only
    rw [upd_ne e, upd_ne e]
    rcases h.pools id' with h1 | ⟨Q, t, F, h1, h2, h3⟩
    · exact Or.inl h1
    · exact Or.inr ⟨Q, t, F, h1, h2, others h3 (hb id' Q e h1) (hl id' Q e h1)⟩

/-- What a step does. -/
def StepOk (slack : Nat) (s : St) (a : Ab) (op : Op) : Prop :=
  ∃ r s', step slack op s = some (r, s') ∧ allowed a op r ∧ AInv slack s' (next a op r) ∧
    (isCall op → ∀ x, a.UserByte x → (next a op r).UserByte x → s'.mem.byte x = s.mem.byte x)

theorem step_init (h : AInv slack s a) {id bs al : Nat} (hn : a.pool id = none) (h0 : 0 < bs)
    (hf : ptrSize + realAlign al + realSize bs al < 2 ^ sizeBit) : StepOk slack s a (.init id bs al) := by
  obtain ⟨e, h1, h2, h3, _⟩ := init_real h0 hf
  refine ⟨.unit, _, rfl, rfl, ?_, fun _ x _ _ => rfl⟩
  have hi : PoolInv slack s.mem (allocatorInit bs al) ⟨realSize bs al, realAlign al, [], [], []⟩ [] := by
    rw [e]
    exact ⟨rfl, rfl, h1, h2, h3, hf, rfl, rfl, rfl, by simp, by simp, by simp, by simp, by simp, by simp⟩
  refine h.change hi (fun _ _ _ _ _ _ _ _ _ => rfl) (fun _ _ _ _ _ _ => rfl) ?_
  refine h.reg.same fun b n o => ?_
  cases o with
  | none => rfl
  | some i =>
    by_cases e : i = id
    · subst e; simp [RegionO, upd_same, hn]
    · simp [RegionO, upd_ne e]

/-- alloc() when there is a free block. -/
theorem step_alloc_old (h : AInv slack s a) {id base : Nat} {content : Nat → Nat} {P : Pool} {t : Alloc} {p : Nat} {F : List Nat}
    (hP : a.pool id = some P) (ht : s.al id = some t) (hi : PoolInv slack s.mem t P (p :: F)) :
    StepOk slack s a (.alloc id base content) := by
  obtain ⟨h1, h2, h3⟩ := hi.pop
  obtain ⟨hal, b, hb, h4, h5⟩ := hi.blk p (by simp)
  have e : step slack (.alloc id base content) s = some (.block p false,
      ⟨s.mem, upd s.al id (some { t with freeBlock := rdP s.mem.byte p, count := addT t.count 1 })⟩) := by
    simp only [step, ht, Option.bind_eq_bind, Option.bind_some, allocatorAlloc, StateT.bind, bind]
    rw [if_neg (by arch)]
    simp only [pure, StateT.pure, StateT.bind, bind, Option.bind_some, h1, h2]
    cases s.mem.live base <;> rfl
  refine ⟨_, _, e, ⟨P, p, false, hP, rfl, by arch, hal, ?_, fun h => by cases h⟩, ?_, fun _ x _ _ => rfl⟩
  · intro x h1 h2 hx
    have := (h.user_sep hx hP hi).2 p (by simp)
    omega
  · simp only [next, hP, Bool.false_eq_true, if_false]
    refine h.change h3 (fun _ _ _ _ _ _ _ _ _ => rfl) (fun _ _ _ _ _ _ => rfl) ?_
    refine h.reg.same fun b n o => ?_
    rw [regionO_upd hP (by rfl) (by rfl)]
    by_cases eo : o = some id
    · subst eo; simp [RegionO, hP]
    · simp [eo]

/-- alloc() when there is not. -/
theorem step_alloc_new (h : AInv slack s a) {id base : Nat} {content : Nat → Nat} {P : Pool} {t : Alloc}
    (hP : a.pool id = some P) (ht : s.al id = some t) (hi : PoolInv slack s.mem t P [])
    (hf : a.Fresh slack base (segSize P.bs P.al)) (hroom : Room slack P.bs P.al base) :
    StepOk slack s a (.alloc id base content) := by
  have hfr : ∀ id' Q, a.pool id' = some Q → ∀ b ∈ Q.segs,
      base ≠ b ∧ (base + segSize P.bs P.al + slack ≤ b ∨ b + segSize Q.bs Q.al + slack ≤ base) :=
    fun id' Q hQ b hb => ⟨fun e => hf.2.2.1 _ (Or.inr ⟨id', Q, hQ, e ▸ hb, rfl⟩), hf.2.2.2 b _ (Or.inr ⟨id', Q, hQ, hb, rfl⟩)⟩
  obtain ⟨m', t', F', e1, ⟨hne, _⟩, hi', hl', hb'⟩ := hi.segment content hf.1 hf.2.1 (fun b hb => (hfr id P hP b hb).2) hroom
  obtain ⟨p, F, rfl⟩ := List.exists_cons_of_ne_nil hne
  obtain ⟨h1, h2, h3⟩ := hi'.pop
  obtain ⟨hal, b, hb, h4, h5⟩ := hi'.blk p (by simp)
  have hfb : t.freeBlock = 0 := hi.free
  have hln : s.mem.live base = none := by
    cases hl : s.mem.live base with
    | none => rfl
    | some n =>
      obtain ⟨k, o, _, hr⟩ := (h.reg.live base n).1 hl
      exact absurd (region_iff.2 ⟨o, hr⟩) (hf.2.2.1 k)
  have e : step slack (.alloc id base content) s = some (.block p true,
      ⟨m', upd s.al id (some { t' with freeBlock := rdP m'.byte p, count := addT t'.count 1 })⟩) := by
    simp only [step, ht, Option.bind_eq_bind, Option.bind_some, allocatorAlloc, StateT.bind, bind]
    rw [if_pos hfb]
    simp only [e1, Option.bind_some, h1, h2, pure, StateT.pure, StateT.bind, bind]
    simp only [hln, hl', upd_same]; rfl
  have hreg : ∀ u e, RegInv slack m'.live { a with pool := upd a.pool id (some { P with used := u, ever := e, segs := base :: P.segs }) } := by
    intro u e
    rw [hl']
    refine h.reg.add (o0 := some id) hf fun b n o => ?_
    rw [regionO_upd hP (by rfl) (by rfl)]
    by_cases eo : o = some id
    · subst eo
      simp only [RegionO, hP, ne_eq, not_true_eq_false, false_and, false_or, true_and, List.mem_cons, Option.some.injEq,
        and_true, exists_eq_left']
      constructor
      · rintro ⟨rfl | h, rfl⟩
        · exact Or.inr ⟨rfl, rfl⟩
        · exact Or.inl ⟨h, rfl⟩
      · rintro (⟨h, rfl⟩ | ⟨rfl, rfl⟩)
        · exact ⟨Or.inr h, rfl⟩
        · exact ⟨Or.inl rfl, rfl⟩
    · simp [eo]
  have hcb : ∀ id' Q, id' ≠ id → a.pool id' = some Q → ∀ b ∈ Q.segs, ∀ x, b ≤ x → x < b + segSize Q.bs Q.al + slack →
      m'.byte x = s.mem.byte x := fun id' Q _ hQ b hb x hx1 hx2 => hb' x (by have := (hfr id' Q hQ b hb).2; omega)
  have hcl : ∀ id' Q, id' ≠ id → a.pool id' = some Q → ∀ b ∈ Q.segs, m'.live b = s.mem.live b := fun id' Q _ hQ b hb => by
    rw [hl', upd_ne (hfr id' Q hQ b hb).1.symm]
  have hinv1 := h.change hi' hcb hcl (hreg _ _)
  have hout : ∀ x, a.UserByte x → x < base ∨ base + segSize P.bs P.al + slack ≤ x := fun x hx => by
    obtain ⟨b, n, hr, h1, h2⟩ := h.user_region hx
    have := hf.2.2.2 b n hr
    omega
  refine ⟨_, _, e, ⟨P, p, true, hP, rfl, by arch, hal, ?_, fun _ => ⟨?_, ?_⟩⟩, ?_, fun _ x hx _ => hb' x (hout x hx)⟩
  · intro x h6 h7 hx
    have hx' : ({ a with pool := upd a.pool id (some { P with segs := base :: P.segs }) } : Ab).UserByte x := by
      rcases hx with hx | ⟨i, Q, q, hQ, hq, hx⟩
      · exact Or.inl hx
      · by_cases e : i = id
        · subst e
          rw [hP] at hQ; cases hQ
          exact Or.inr ⟨i, _, q, upd_same _ _ _, hq, hx⟩
        · exact Or.inr ⟨i, Q, q, by simp only; rw [upd_ne e]; exact hQ, hq, hx⟩
    have := (hinv1.user_sep hx' (upd_same _ _ _) hi').2 p (by simp)
    simp only at this
    omega
  · intro q hq
    have := hi.ever q hq
    rwa [List.append_nil] at this
  · have := hi.cap
    rwa [List.append_nil] at this
  · simp only [next, hP, if_true]
    exact h.change h3 hcb hcl (hreg _ _)

theorem step_free (h : AInv slack s a) {id p : Nat} {P : Pool} (hP : a.pool id = some P) (hp : p ∈ P.used) :
    StepOk slack s a (.free id p) := by
  obtain ⟨t, F, ht, hi⟩ := h.get hP
  have hsep : ∀ b ∈ P.segs, ∀ b' ∈ P.segs, b ≠ b' → b + segSize P.bs P.al + slack ≤ b' ∨ b' + segSize P.bs P.al + slack ≤ b := by
    intro b hb b' hb' hne
    have h1 : RegionO a b (segSize P.bs P.al) (some id) := ⟨P, hP, hb, rfl⟩
    have h2 : RegionO a b' (segSize P.bs P.al) (some id) := ⟨P, hP, hb', rfl⟩
    rcases h.reg.sep h1 h2 with ⟨e, _⟩ | h
    · exact absurd e hne
    · exact h.2
  obtain ⟨hw, hi'⟩ := hi.push hp hsep
  have h8 := hi.bs8
  obtain ⟨bp, hbp, h4, h5⟩ := hi.in_region hP (p := p) (by simp [hp])
  have e : step slack (.free id p) s = some (.unit, ⟨{ s.mem with byte := wrP s.mem.byte p t.freeBlock },
      upd s.al id (some { t with freeBlock := p, count := subT t.count 1 })⟩) := by
    simp only [step, ht, Option.bind_eq_bind, Option.bind_some, allocatorFree, StateT.bind, bind, hw]
    rfl
  have hinv : AInv slack ⟨{ s.mem with byte := wrP s.mem.byte p t.freeBlock },
      upd s.al id (some { t with freeBlock := p, count := subT t.count 1 })⟩ (next a (.free id p) .unit) := by
    simp only [next, hP]
    refine h.change hi' (fun id' Q hne hQ b hb x hx1 hx2 => ?_) (fun _ _ _ _ _ _ => rfl) ?_
    · have hq : RegionO a b (segSize Q.bs Q.al) (some id') := ⟨Q, hQ, hb, rfl⟩
      refine wrP_out ?_
      rcases h.reg.sep hbp hq with ⟨_, _, e⟩ | h
      · cases e; exact absurd rfl hne
      · omega
    · refine h.reg.same fun b n o => ?_
      rw [regionO_upd hP (by rfl) (by rfl)]
      by_cases eo : o = some id
      · subst eo; simp [RegionO, hP]
      · simp [eo]
  refine ⟨_, _, e, rfl, hinv, fun _ x _ hx => wrP_out ?_⟩
  have hP' : (next a (.free id p) .unit).pool id = some { P with used := P.used.erase p } := by
    simp only [next, hP]; rw [upd_same]
  have := (hinv.user_sep hx hP' hi').2 p (by simp)
  simp only at this
  omega

theorem step_usage (h : AInv slack s a) {id : Nat} {P : Pool} (hP : a.pool id = some P) : StepOk slack s a (.usage id) := by
  obtain ⟨t, F, ht, hi⟩ := h.get hP
  refine ⟨.num (allocatorMemoryUsage t), s, ?_, ⟨P, hP, ?_⟩, h, fun _ x _ _ => rfl⟩
  · simp only [step, ht, Option.bind_eq_bind, Option.bind_some]; rfl
  · unfold allocatorMemoryUsage
    rw [hi.count, hi.bs, Nat.mod_mul_mod]

theorem step_done (h : AInv slack s a) {id : Nat} {P : Pool} (hP : a.pool id = some P) :
    ∃ s', step slack (.done id) s = some (.unit, s') ∧ AInv slack s' (next a (.done id) .unit) ∧ s'.mem.byte = s.mem.byte ∧
      ∀ b, s'.mem.live b = if b ∈ P.segs then none else s.mem.live b := by
  obtain ⟨t, F, ht, hi⟩ := h.get hP
  have hge := segSize_ge P.bs P.al
  obtain ⟨m', e, hb, hl⟩ := resetLoop_run P.segs t.usedSegment s.mem hi.seg hi.nodup
    (fun b hb => ⟨_, (hi.live b hb).1, by omega⟩)
  have hown : ∀ b n o, RegionO a b n o → b ∈ P.segs → o = some id := fun b n o h1 h2 => by
    have h3 : RegionO a b (segSize P.bs P.al) (some id) := ⟨P, hP, h2, rfl⟩
    rcases h.reg.sep h1 h3 with ⟨_, _, e⟩ | h
    · exact e
    · exact absurd rfl h.1
  refine ⟨⟨m', upd s.al id (some { t with count := 0, freeBlock := 0, usedSegment := 0 })⟩, ?_, ?_, hb, hl⟩
  · simp only [step, ht, Option.bind_eq_bind, Option.bind_some, allocatorDone, allocatorReset, StateT.bind, bind, e]
    rfl
  · simp only [next, hP]
    refine h.change (F' := [])
      ⟨hi.bs, hi.al, hi.al8, hi.bs8, hi.mul, hi.fit, rfl, rfl, rfl, by simp, by simp, by simp, by simp, by simp, by simp⟩
      (fun id' Q hne hQ b hb' x hx1 hx2 => by rw [hb]) (fun id' Q hne hQ b hb' => ?_) ?_
    · rw [hl, if_neg]
      intro hbs
      have := hown b (segSize Q.bs Q.al) (some id') ⟨Q, hQ, hb', rfl⟩ hbs
      cases this
      exact hne rfl
    · refine h.reg.sub (l := P.segs) (fun b n o => ?_) hl
      rw [regionO_upd hP (by rfl) (by rfl)]
      simp only [List.not_mem_nil, false_and, and_false, or_false]
      constructor
      · rintro ⟨h1, h2⟩; exact ⟨h2, fun h3 => h1 (hown b n o h2 h3)⟩
      · rintro ⟨h1, h2⟩
        refine ⟨fun e => ?_, h1⟩
        subst e
        obtain ⟨Q, hQ, h3, _⟩ := h1
        rw [hP] at hQ; cases hQ
        exact h2 h3

theorem AInv.change_mem (h : AInv slack s a) {m' : AMem} {env : Nat → Option Nat}
    (hb : ∀ id Q t F, a.pool id = some Q → PoolInv slack s.mem t Q F → PoolInv slack m' t Q F)
    (hr : RegInv slack m'.live { a with env := env }) : AInv slack ⟨m', s.al⟩ { a with env := env } := by
  refine ⟨fun id => ?_, hr⟩
  rcases h.pools id with h1 | ⟨Q, t, F, h1, h2, h3⟩
  · exact Or.inl h1
  · exact Or.inr ⟨Q, t, F, h1, h2, hb id Q t F h1 h3⟩

theorem step_emalloc (h : AInv slack s a) {base size : Nat} {content : Nat → Nat} (hf : a.Fresh slack base size) :
    StepOk slack s a (.emalloc base size content) := by
  refine ⟨.unit, _, rfl, rfl, ?_, fun hc => hc.elim⟩
  simp only [next]
  refine h.change_mem (fun id Q t F hQ hi => ?_) ?_
  · have hfr : ∀ b ∈ Q.segs, base ≠ b ∧ (base + size + slack ≤ b ∨ b + segSize Q.bs Q.al + slack ≤ base) := fun b hb =>
      ⟨fun e => hf.2.2.1 _ (Or.inr ⟨id, Q, hQ, e ▸ hb, rfl⟩), hf.2.2.2 b _ (Or.inr ⟨id, Q, hQ, hb, rfl⟩)⟩
    refine others hi (fun b hb x h1 h2 => ?_) (fun b hb => upd_ne (hfr b hb).1.symm)
    have := (hfr b hb).2
    simp only
    rw [if_neg (by omega)]
  · refine h.reg.add (o0 := none) hf fun b n o => ?_
    cases o with
    | some i => simp [RegionO]
    | none =>
      simp only [RegionO, and_true]
      by_cases e : b = base
      · subst e
        rw [upd_same]
        constructor
        · intro h; cases h; exact Or.inr ⟨rfl, rfl⟩
        · rintro (h | ⟨_, rfl⟩)
          · exact absurd (Or.inl h) (hf.2.2.1 n)
          · rfl
      · rw [upd_ne e]; simp [e]

theorem step_efree (h : AInv slack s a) {base : Nat} (hs : (a.env base).isSome) : StepOk slack s a (.efree base) := by
  obtain ⟨n, hn⟩ := Option.isSome_iff_exists.1 hs
  have hn' : RegionO a base n none := hn
  have hl : s.mem.live base = some (n + slack) := (h.reg.live _ _).2 ⟨n, none, rfl, hn'⟩
  have e : step slack (.efree base) s = some (.unit, ⟨{ s.mem with live := upd s.mem.live base none }, s.al⟩) := by
    simp [step, afree, hl]
  refine ⟨_, _, e, rfl, ?_, fun hc => hc.elim⟩
  simp only [next]
  refine h.change_mem (fun id Q t F hQ hi => ?_) ?_
  · refine others hi (fun _ _ _ _ _ => rfl) (fun b hb => upd_ne fun e => ?_)
    have h1 : RegionO a b (segSize Q.bs Q.al) (some id) := ⟨Q, hQ, hb, rfl⟩
    rcases h.reg.sep h1 hn' with ⟨_, _, e⟩ | h
    · cases e
    · exact h.1 e
  · refine h.reg.sub (l := [base]) (fun b k o => ?_) (fun b => ?_)
    · cases o with
      | none =>
        simp only [RegionO, List.mem_singleton]
        by_cases e : b = base
        · subst e; simp [upd_same]
        · simp [upd_ne e, e]
      | some i =>
        simp only [RegionO, List.mem_singleton]
        refine ⟨fun h' => ⟨h', fun e => ?_⟩, fun h' => h'.1⟩
        have h1 : RegionO a b k (some i) := h'
        rcases h.reg.sep h1 hn' with ⟨_, _, e⟩ | h
        · cases e
        · exact h.1 e
    · simp only [List.mem_singleton]
      unfold upd
      split <;> simp_all

theorem step_ewrite (h : AInv slack s a) {x v : Nat} (hx : a.UserByte x) : StepOk slack s a (.ewrite x v) := by
  refine ⟨.unit, _, rfl, rfl, ?_, fun hc => hc.elim⟩
  simp only [next]
  refine h.change_mem (env := a.env) (fun id Q t F hQ hi => ?_) h.reg
  obtain ⟨h1, h2⟩ := h.user_sep hx hQ hi
  have := hi.bs8
  refine hi.congr (fun b hb => rdP_congr fun y h3 h4 => upd_ne ?_) (fun p hp => rdP_congr fun y h3 h4 => upd_ne ?_) (fun _ _ => rfl)
  · have := h1 b hb; omega
  · have := h2 p hp; omega

/-- The sizes and the addresses are such that the blocks fit in the segments. -/
def RoomFor (slack : Nat) (u : Use) : Prop :=
  ∀ bs al base, ptrSize ≤ al → ptrSize ≤ bs → bs % al = 0 → u.sizes bs al → u.base base → Room slack bs al base

def Inv (slack : Nat) (u : Use) (s : St) (a : Ab) : Prop :=
  AInv slack s a ∧ ∀ id P, a.pool id = some P → u.sizes P.bs P.al

theorem inv_init {u : Use} (h : (sys slack u).init s a) : Inv slack u s a := by
  obtain ⟨h1, h2, h3, h4⟩ := h
  refine ⟨⟨fun id => Or.inl ⟨h3 id, h2 id⟩, ⟨fun b n => ?_, fun {b n o b' n' o'} h => ?_, fun {b n o} h => ?_⟩⟩, fun id P h => ?_⟩
  · rw [h1]
    constructor
    · intro h; cases h
    · rintro ⟨k, o, _, h⟩
      cases o <;> simp [RegionO, h3, h4] at h
  · cases o <;> simp [RegionO, h3, h4] at h
  · cases o <;> simp [RegionO, h3, h4] at h
  · rw [h3] at h; cases h

/-- `next` keeps the sizes. -/
theorem sizes_next {u : Use} (h : ∀ id P, a.pool id = some P → u.sizes P.bs P.al) {op : Op} {r : Out}
    (hl : legal slack u a op) : ∀ id P, (next a op r).pool id = some P → u.sizes P.bs P.al := by
  have key : ∀ (i : Nat) (Q : Pool), u.sizes Q.bs Q.al → ∀ id P, upd a.pool i (some Q) id = some P → u.sizes P.bs P.al := by
    intro i Q hQ id P hP
    unfold upd at hP
    split at hP
    · cases hP; exact hQ
    · exact h id P hP
  intro id P hP
  cases op with
  | init i bs al => exact key i _ (by exact hl.2.2.2) id P hP
  | alloc i base content =>
    obtain ⟨_, Q, hQ, _⟩ := hl
    cases r with
    | block p new => simp only [next, hQ] at hP; exact key i _ (by exact h i Q hQ) id P hP
    | unit => exact h id P hP
    | num n => exact h id P hP
  | free i p =>
    obtain ⟨Q, hQ, _⟩ := hl
    simp only [next, hQ] at hP; exact key i _ (by exact h i Q hQ) id P hP
  | done i =>
    obtain ⟨Q, hQ⟩ := hl
    simp only [next, hQ] at hP; exact key i _ (by exact h i Q hQ) id P hP
  | usage i => exact h id P hP
  | emalloc b n c => exact h id P hP
  | efree b => exact h id P hP
  | ewrite x v => exact h id P hP

theorem step_ok {u : Use} (hu : RoomFor slack u) (h : Inv slack u s a) {op : Op} (hl : legal slack u a op) :
    StepOk slack s a op := by
  obtain ⟨h, hsz⟩ := h
  cases op with
  | init id bs al => exact step_init h hl.1 hl.2.1 hl.2.2.1
  | alloc id base content =>
    obtain ⟨hb, P, hP, hf⟩ := hl
    obtain ⟨t, F, ht, hi⟩ := h.get hP
    cases F with
    | nil => exact step_alloc_new h hP ht hi hf (hu _ _ _ hi.al8 hi.bs8 hi.mul (hsz id P hP) hb)
    | cons p F => exact step_alloc_old h hP ht hi
  | free id p => obtain ⟨P, hP, hp⟩ := hl; exact step_free h hP hp
  | usage id => obtain ⟨P, hP⟩ := hl; exact step_usage h hP
  | done id =>
    obtain ⟨P, hP⟩ := hl
    obtain ⟨s', e, h1, h2, _⟩ := step_done h hP
    exact ⟨_, s', e, rfl, h1, fun _ x _ _ => by rw [h2]⟩
  | emalloc b n c => exact step_emalloc h hl.2
  | efree b => exact step_efree h hl
  | ewrite x v => exact step_ewrite h hl

theorem reach_alloc {u : Use} (hu : RoomFor slack u) : ∀ s a, (sys slack u).Reach s a → Inv slack u s a :=
  Sys.reach_inv (fun _ _ h => inv_init h) fun s a op h hl => by
    obtain ⟨r, s', e, h1, h2, _⟩ := step_ok hu h hl
    exact ⟨r, s', e, h1, h2, sizes_next h.2 hl⟩

theorem correct_alloc {u : Use} (hu : RoomFor slack u) : (sys slack u).Correct :=
  Sys.correct_of_inv (fun _ _ h => inv_init h) fun s a op h hl => by
    obtain ⟨r, s', e, h1, h2, _⟩ := step_ok hu h hl
    exact ⟨r, s', e, h1, h2, sizes_next h.2 hl⟩

/-- The blocks always fit if at least 8 bytes more are usable. -/
theorem room_slack {bs al base : Nat} (hs : ptrSize ≤ slack) (h : ptrSize ≤ al) : Room slack bs al base := by
  unfold Room
  have := Nat.div_mul_le_self (segSize bs al - pad al base) bs
  have := pad_lt (base := base) h
  have := segSize_ge bs al
  omega

/-- Without them, they fit if the space left by the division in blocks is of at least 8 bytes. -/
theorem room_iff {bs al base : Nat} (h : ptrSize ≤ al) :
    Room 0 bs al base ↔ ptrSize ≤ (segSize bs al - pad al base) % bs := by
  unfold Room
  have := Nat.div_add_mod (segSize bs al - pad al base) bs
  rw [Nat.mul_comm] at this
  have := pad_lt (base := base) h
  have := segSize_ge bs al
  omega

/-- The first block taken from a new segment is its last one, whatever is accessible. -/
theorem pushLoop_head {bs : Nat} : ∀ (n : Nat) (t : Alloc) (data size : Nat) (m : AMem), t.blockSize = bs → ptrSize ≤ bs →
    (n + 1) * bs ≤ size → size < (n + 1) * bs + bs → size < 2 ^ sizeBit → data + (n + 1) * bs < 2 ^ sizeBit →
    ∀ r, allocatorPushLoop t data size m = some r → r.1.freeBlock = data + n * bs := by
  intro n
  induction n with
  | zero =>
    intro t data size m hbs h8 h1 h2 h3 h4 r e
    rw [allocatorPushLoop] at e
    cases hw : writeP data t.freeBlock m with
    | none => simp [bind, StateT.bind, hw] at e
    | some w =>
      simp only [bind, StateT.bind, hw, Option.bind_some, hbs] at e
      have hs : subT size bs = size - bs := by unfold subT; arch
      rw [hs, if_neg (by omega)] at e
      cases e
      simp
  | succ n ih =>
    intro t data size m hbs h8 h1 h2 h3 h4 r e
    rw [allocatorPushLoop] at e
    rw [Nat.add_mul] at h1 h2 h4
    cases hw : writeP data t.freeBlock m with
    | none => simp [bind, StateT.bind, hw] at e
    | some w =>
      simp only [bind, StateT.bind, hw, Option.bind_some, hbs] at e
      have hs : subT size bs = size - bs := by unfold subT; arch
      have hd : addT data bs = data + bs := by unfold addT; arch
      have : (n + 1) * bs = n * bs + bs := by rw [Nat.add_mul, Nat.one_mul]
      rw [hs, hd, if_pos (by omega)] at e
      have := ih { t with freeBlock := data, blockSize := bs } (data + bs) (size - bs) w.2 rfl h8 (by omega) (by omega) (by omega) (by omega) r e
      rw [this]
      omega

end AllocSpec
end Tommy
