import Mathlib.Tactic.Ring
import Verif.Proof.ListOps
/-! Chains: merge and mergesort (tommychain.h). -/
set_option linter.unusedSimpArgs false
namespace Tommy

variable [Arch]

/-- `IsChain h c xs`: the chain `c` holds the nodes `xs`. The `prev` of the head and the
    `next` of the tail are arbitrary. -/
structure IsChain (h : Heap) (c : Chain) (xs : List Ptr) : Prop where
  ne : xs ≠ []
  head : c.head = xs.headD 0
  tail : c.tail = xs.getLastD 0
  ok : ∀ x ∈ xs, h.ok x
  nodup : xs.Nodup
  seg : ∃ p n, Seg h p xs n

omit [Arch] in
theorem IsChain.frame {h h' : Heap} {S : Ptr → Prop} {c : Chain} {xs : List Ptr}
    (hl : IsChain h c xs) (fr : Frame h h' S) (hd : ∀ x ∈ xs, ¬ S x) : IsChain h' c xs := by
  obtain ⟨p, n, s⟩ := hl.seg
  exact ⟨hl.ne, hl.head, hl.tail, fun x hx => (fr.ok x).2 (hl.ok x hx), hl.nodup, p, n,
    seg_congr (fun x hx => fr.next x (hd x hx)) (fun x hx => fr.prev x (hd x hx)) s⟩

omit [Arch] in
theorem IsChain.singleton {h : Heap} {x : Ptr} (hx : h.ok x) : IsChain h ⟨x, x⟩ [x] :=
  ⟨by simp, rfl, rfl, by simpa using hx, by simp, h.prev x, h.next x, by simp⟩

omit [Arch] in
/-- Linking two segments. -/
theorem seg_link {h h' : Heap} {p n q m a b : Ptr} {xs ys : List Ptr}
    (sx : Seg h p xs n) (sy : Seg h q ys m) (hx : xs ≠ []) (hy : ys ≠ [])
    (ha : xs.getLastD 0 = a) (hb : ys.headD 0 = b)
    (nd : (xs ++ ys).Nodup)
    (hn : ∀ z, z ≠ a → h'.next z = h.next z) (hp : ∀ z, z ≠ b → h'.prev z = h.prev z)
    (han : h'.next a = b) (hbp : h'.prev b = a) : Seg h' p (xs ++ ys) m := by
  obtain ⟨t, a', rfl⟩ := exists_concat hx
  obtain ⟨b', u, rfl⟩ := List.exists_cons_of_ne_nil hy
  simp only [List.headD_cons] at hb
  have ha : a' = a := by simpa using ha
  subst ha hb
  rw [List.nodup_append] at nd
  rw [seg_append]
  constructor
  · refine seg_change_next (h := h) ?_ ?_ (by simpa using han) sx
    · intro z hz
      refine hn z ?_
      rintro rfl
      exact (List.nodup_append.1 nd.1).2.2 z hz z (by simp) rfl
    · intro z hz
      exact hp z (fun e => nd.2.2 z hz b' (by simp) e)
  · refine seg_change_prev (h := h) ?_ ?_ (by simpa using hbp) sy
    · intro z hz
      exact hn z (fun e => nd.2.2 a' (by simp) z hz e.symm)
    · intro z hz
      refine hp z ?_
      rintro rfl
      exact (List.nodup_cons.1 nd.2.1).1 hz

omit [Arch] in
theorem chainConcat_run {h : Heap} {a b : Ptr} (ha : h.ok a) (hb : h.ok b) :
    chainConcat a b h = some ((), { h with prev := upd h.prev b a, next := upd h.next a b }) := by
  simp [chainConcat, setPrev_run, setNext_run, ha, hb]

omit [Arch] in
theorem chainConcat_spec {h : Heap} {p n q m : Ptr} {xs ys : List Ptr}
    (sx : Seg h p xs n) (sy : Seg h q ys m) (hx : xs ≠ []) (hy : ys ≠ [])
    (okx : ∀ x ∈ xs, h.ok x) (oky : ∀ y ∈ ys, h.ok y) (nd : (xs ++ ys).Nodup) :
    ∃ h', chainConcat (xs.getLastD 0) (ys.headD 0) h = some ((), h') ∧
      Seg h' p (xs ++ ys) m ∧ h'.data = h.data ∧
      Frame h h' (fun z => z = xs.getLastD 0 ∨ z = ys.headD 0) := by
  have ha : h.ok (xs.getLastD 0) := by
    obtain ⟨t, a', rfl⟩ := exists_concat hx
    exact okx _ (by simp)
  have hb : h.ok (ys.headD 0) := by
    obtain ⟨b', u, rfl⟩ := List.exists_cons_of_ne_nil hy
    exact oky _ (by simp)
  refine ⟨_, chainConcat_run ha hb, ?_, rfl, ?_⟩
  · exact seg_link (h := h) sx sy hx hy rfl rfl nd (fun z hz => upd_ne hz) (fun z hz => upd_ne hz)
      (by simp) (by simp)
  · exact ⟨rfl, rfl, fun z hz => upd_ne (fun e => hz (Or.inl e)),
      fun z hz => upd_ne (fun e => hz (Or.inr e))⟩

omit [Arch] in
theorem chainSplice_run {h : Heap} {a b s : Ptr} (ha : h.ok a) (hb : h.ok b) (hs : h.ok s) :
    chainSplice a b s s h = some ((), { h with
      prev := upd (upd h.prev b s) s a, next := upd (upd h.next a s) s b }) := by
  simp [chainSplice, setPrev_run, setNext_run, ha, hb, hs]

/-- The order used by merge: `a` goes first unless `cmp a b > 0`. -/
def leB (cmp : Nat → Nat → Int) (d : Ptr → Nat) (a b : Ptr) : Bool := decide (cmp (d a) (d b) ≤ 0)

/-- The sequence computed by `chainMergeDegenerated`. -/
def mergeD (cmp : Nat → Nat → Int) (d : Ptr → Nat) (xs ys : List Ptr) : List Ptr :=
  if cmp (d (xs.getLastD 0)) (d (ys.headD 0)) ≤ 0 then xs ++ ys
  else if cmp (d (ys.getLastD 0)) (d (xs.headD 0)) < 0 then ys ++ xs
  else List.merge xs ys (leB cmp d)

omit [Arch] in
theorem mergeD_perm (cmp d xs ys) : (mergeD cmp d xs ys).Perm (xs ++ ys) := by
  unfold mergeD
  split
  · exact List.Perm.refl _
  · split
    · exact List.perm_append_comm
    · exact List.merge_perm_append _

omit [Arch] in
/-- The insertion of the first node `s` of the second chain before `f`. -/
theorem merge_insert {α : Type} {h : Heap} {p n q m f s : Ptr} {D A B : List Ptr} {first : Chain}
    (sf : Seg h p (D ++ f :: A) n) (ss : Seg h q (s :: B) m)
    (ok1 : ∀ x ∈ D ++ f :: A, h.ok x) (oks : h.ok s)
    (nd : (D ++ (f :: A) ++ s :: B).Nodup)
    (hh : first.head = (D ++ f :: A).headD 0) :
    ∃ h' p', (∀ k : Chain → HM α, (if f = first.head then
          (chainConcat s f h).bind fun x => k { first with head := s } x.2
        else (getPrev f h).bind fun x => (chainSplice x.1 f s s x.2).bind fun x => k first x.2)
        = k ⟨(D ++ s :: f :: A).headD 0, first.tail⟩ h') ∧
      Seg h' p' (D ++ s :: f :: A) n ∧ Seg h' s B m ∧ h'.data = h.data ∧
      Frame h h' (fun z => z ∈ D ++ s :: f :: A) := by
  have okf : h.ok f := ok1 f (by simp)
  have nd1 := List.nodup_append.1 nd
  have nd2 := List.nodup_append.1 nd1.1
  have hsB : s ∉ B := (List.nodup_cons.1 nd1.2.1).1
  have hsf : f ≠ s := nd1.2.2 f (by simp) s (by simp)
  rcases nil_or_snoc D with rfl | ⟨D', e, rfl⟩
  · have hfh : f = first.head := by rw [hh]; rfl
    refine ⟨{ h with prev := upd h.prev f s, next := upd h.next s f }, q, ?_, ?_, ?_, rfl, ?_⟩
    · intro k; simp [← hfh, chainConcat_run oks okf]
    · have s1 : Seg h q [s] (B.headD m) := ⟨ss.1, ss.2.1, trivial⟩
      have := seg_link (h := h) (h' := { h with prev := upd h.prev f s, next := upd h.next s f }) (a := s) (b := f)
        s1 sf (by simp) (by simp) rfl rfl ?_ (fun z hz => upd_ne hz)
        (fun z hz => upd_ne hz) (by simp) (by simp)
      · simpa using this
      · simp only [List.nil_append, List.cons_append, List.nodup_cons]
        refine ⟨fun hm => nd1.2.2 s (by simpa using hm) s (by simp) rfl, ?_⟩
        simpa using nd1.1
    · refine seg_congr (h := h) ?_ ?_ ss.2.2
      · intro z hz; exact upd_ne (fun e => hsB (e ▸ hz))
      · intro z hz; exact upd_ne (fun e => nd1.2.2 f (by simp) z (by simp [hz]) e.symm)
    · refine ⟨rfl, rfl, fun z hz => upd_ne ?_, fun z hz => upd_ne ?_⟩
      · rintro rfl; exact hz (by simp)
      · rintro rfl; exact hz (by simp)
  · have hfh : f ≠ first.head := by
      rw [hh]
      intro he
      cases D' with
      | nil => exact nd2.2.2 e (by simp) f (by simp) (by simpa using he.symm)
      | cons x D' => exact nd2.2.2 x (by simp) f (by simp) (by simpa using he.symm)
    have oke : h.ok e := ok1 e (by simp)
    have sf' := sf
    rw [seg_append] at sf'
    have hpf : h.prev f = e := by have := sf'.2.1; simpa using this
    have hes : e ≠ s := nd1.2.2 e (by simp) s (by simp)
    have hef : e ≠ f := nd2.2.2 e (by simp) f (by simp)
    refine ⟨{ h with prev := upd (upd h.prev f s) s e, next := upd (upd h.next e s) s f }, p, ?_, ?_, ?_,
      rfl, ?_⟩
    · intro k
      rw [if_neg hfh]
      simp only [getPrev_run okf, Option.bind_some, hpf, chainSplice_run oke okf oks]
      have : first = ⟨(D' ++ [e] ++ s :: f :: A).headD 0, first.tail⟩ := by
        have : first.head = (D' ++ [e] ++ s :: f :: A).headD 0 := by
          rw [hh]; cases D' <;> simp
        rw [← this]
      rw [← this]
    · -- link e to s, then s to f
      have s1 : Seg h q [s] (B.headD m) := ⟨ss.1, ss.2.1, trivial⟩
      have l1 := seg_link (h := h) (h' := { h with prev := upd h.prev s e, next := upd h.next e s })
        (a := e) (b := s) sf'.1 s1 (by simp) (by simp) (by simp) rfl
        (by
          rw [List.nodup_append]
          refine ⟨nd2.1, by simp, ?_⟩
          intro a ha b hb
          simp only [List.mem_singleton] at hb
          subst hb
          exact nd1.2.2 a (by simp at ha ⊢; tauto) b (by simp))
        (fun z hz => upd_ne hz) (fun z hz => upd_ne hz) (by simp) (by simp)
      have sA : Seg { h with prev := upd h.prev s e, next := upd h.next e s } e (f :: A) n := by
        have h2 := sf'.2
        simp only [List.getLastD_concat] at h2
        refine seg_congr (h := h) ?_ ?_ h2
        · intro z hz; exact upd_ne (fun e' => nd2.2.2 e (by simp) z hz e'.symm)
        · intro z hz; exact upd_ne (fun e' => nd1.2.2 z (by simp at hz ⊢; tauto) s (by simp) e')
      have l2 := seg_link (h := { h with prev := upd h.prev s e, next := upd h.next e s })
        (h' := { h with prev := upd (upd h.prev f s) s e, next := upd (upd h.next e s) s f })
        (a := s) (b := f) l1 sA (by simp) (by simp) (by simp) rfl
        (by
          have hpm : (D' ++ [e] ++ (f :: A) ++ s :: B).Perm ((D' ++ [e] ++ [s] ++ f :: A) ++ B) := by
            have : (D' ++ [e] ++ (f :: A) ++ s :: B) = (D' ++ [e]) ++ ((f :: A) ++ ([s] ++ B)) := by simp
            rw [this]
            have : (D' ++ [e] ++ [s] ++ f :: A) ++ B = (D' ++ [e]) ++ ([s] ++ ((f :: A) ++ B)) := by simp
            rw [this]
            refine List.Perm.append_left _ ?_
            rw [← List.append_assoc, ← List.append_assoc [s]]
            exact List.Perm.append_right _ List.perm_append_comm
          exact (List.nodup_append.1 (hpm.nodup_iff.1 nd)).1)
        (by intro z hz; simp [upd_apply, hz]) (by intro z hz; simp [upd_apply, hz])
        (by simp) (by simp [upd_apply, hsf])
      simpa using l2
    · refine seg_congr (h := h) ?_ ?_ ss.2.2
      · intro z hz
        have h1 : z ≠ s := fun e => hsB (e ▸ hz)
        have h2 : z ≠ e := fun e' => nd1.2.2 e (by simp) z (by simp [hz]) e'.symm
        simp [upd_apply, h1, h2]
      · intro z hz
        have h1 : z ≠ s := fun e => hsB (e ▸ hz)
        have h2 : z ≠ f := fun e' => nd1.2.2 f (by simp) z (by simp [hz]) e'.symm
        simp [upd_apply, h1, h2]
    · refine ⟨rfl, rfl, fun z hz => ?_, fun z hz => ?_⟩
      · have h1 : z ≠ s := by rintro rfl; exact hz (by simp)
        have h2 : z ≠ e := by rintro rfl; exact hz (by simp)
        simp [upd_apply, h1, h2]
      · have h1 : z ≠ s := by rintro rfl; exact hz (by simp)
        have h2 : z ≠ f := by rintro rfl; exact hz (by simp)
        simp [upd_apply, h1, h2]

omit [Arch] in
theorem chainMergeLoop_spec (cmp : Nat → Nat → Int) :
    ∀ (k : Nat) (h : Heap) (p n q m f s : Ptr) (D A B : List Ptr) (first second : Chain),
    A.length + B.length = k →
    Seg h p (D ++ f :: A) n → Seg h q (s :: B) m →
    (∀ x ∈ D ++ (f :: A) ++ s :: B, h.ok x) →
    (D ++ (f :: A) ++ s :: B).Nodup →
    first.head = (D ++ f :: A).headD 0 → first.tail = A.getLastD f → second.tail = B.getLastD s →
    ∃ c' h', chainMergeLoop cmp first second f s h = some (c', h') ∧
      IsChain h' c' (D ++ List.merge (f :: A) (s :: B) (leB cmp h.data)) ∧
      h'.data = h.data ∧ Frame h h' (fun z => z ∈ D ++ (f :: A) ++ s :: B) := by
  intro k
  induction k with
  | zero | succ k ih =>
    intro h p n q m f s D A B first second hk sf ss okall nd hh ht hst
    have okf : h.ok f := okall f (by simp)
    have oks : h.ok s := okall s (by simp)
    have nd1 := List.nodup_append.1 nd
    have nd2 := List.nodup_append.1 nd1.1
    rw [chainMergeLoop]
    simp only [run_bind, getData_run okf, getData_run oks, Option.bind_some, run_ite]
    by_cases hc : cmp (h.data f) (h.data s) > 0
    · rw [if_pos hc]
      have hm : List.merge (f :: A) (s :: B) (leB cmp h.data)
          = s :: List.merge (f :: A) B (leB cmp h.data) := by
        rw [List.cons_merge_cons_neg]; simp [leB]; omega
      simp only [run_bind, getNext_run oks, Option.bind_some, ss.2.1]
      obtain ⟨h', p', e', s1, s2, hd', fr⟩ := merge_insert (first := first) sf ss
        (fun x hx => okall x (List.mem_append_left _ hx)) oks nd hh
      have e' := e' (fun c => if s = second.tail then pure c else
        chainMergeLoop cmp c second f (B.headD m))
      simp only [run_ite, run_bind, run_pure, Option.bind_some] at e' ⊢
      rw [e']
      cases B with
      | nil =>
        have hts : s = second.tail := by rw [hst]; rfl
        rw [if_pos hts]
        refine ⟨_, _, rfl, ?_, hd', fr.mono ?_⟩
        · rw [hm]
          simp only [List.merge_right]
          refine ⟨by simp, rfl, ?_, ?_, ?_, ?_⟩
          · simp only [ht, getLastD_append, List.getLastD_cons]
          · intro x hx
            refine (fr.ok x).2 (okall x ?_)
            simp at hx ⊢; tauto
          · refine List.Perm.nodup ?_ nd
            have : D ++ (f :: A) ++ [s] = D ++ ((f :: A) ++ [s]) := by simp
            rw [this]
            refine List.Perm.append_left _ ?_
            exact List.perm_append_comm
          · exact ⟨_, _, s1⟩
        · intro z hz; simp at hz ⊢; tauto
      | cons b B =>
        have hts : s ≠ second.tail := by
          rw [hst]
          simp only [List.getLastD_cons]
          intro he
          have hnd := (List.nodup_cons.1 nd1.2.1).1
          have : B.getLastD b ∈ b :: B := by
            rcases getLastD_mem_or (xs := B) (d := b) with h | h
            · rw [h.2]; simp
            · exact List.mem_cons_of_mem _ h
          exact hnd (he ▸ this)
        rw [if_neg hts]
        first
        | (simp at hk; done)
        | (have hperm : (D ++ (f :: A) ++ s :: b :: B).Perm (D ++ [s] ++ (f :: A) ++ b :: B) := by
            have e1 : D ++ (f :: A) ++ s :: b :: B = D ++ (((f :: A) ++ [s]) ++ b :: B) := by simp
            have e2 : D ++ [s] ++ (f :: A) ++ b :: B = D ++ (([s] ++ (f :: A)) ++ b :: B) := by simp
            rw [e1, e2]
            exact List.Perm.append_left _ (List.Perm.append_right _ List.perm_append_comm)
           obtain ⟨c', h'', e'', ic, hd'', fr'⟩ := ih h' p' n s m f b (D ++ [s]) A B
             ⟨(D ++ s :: f :: A).headD 0, first.tail⟩ second (by simp at hk ⊢; omega)
             (by simpa using s1) s2
             (by intro x hx; refine (fr.ok x).2 (okall x (hperm.mem_iff.2 hx)))
             (hperm.nodup nd)
             (by simp) ht (by rw [hst, List.getLastD_cons])
           refine ⟨c', h'', e'', ?_, hd''.trans hd', ?_⟩
           · rw [hm]
             rw [hd'] at ic
             simpa using ic
           · refine Frame.trans (fr.mono ?_) (fr'.mono ?_)
             · intro z hz; simp at hz ⊢; tauto
             · intro z hz; exact hperm.mem_iff.2 hz)
    · rw [if_neg hc]
      have hm : List.merge (f :: A) (s :: B) (leB cmp h.data)
          = f :: List.merge A (s :: B) (leB cmp h.data) := by
        rw [List.cons_merge_cons_pos]; simp [leB]; omega
      cases A with
      | nil =>
        have hft : f = first.tail := by rw [ht]; rfl
        simp only [run_ite, if_pos hft]
        have := chainConcat_spec sf ss (by simp) (by simp)
          (fun x hx => okall x (List.mem_append_left _ hx))
          (fun x hx => okall x (List.mem_append_right _ hx)) nd
        obtain ⟨h', e', s', hd', fr⟩ := this
        simp only [List.getLastD_concat, List.headD_cons] at e'
        simp only [run_bind, e', Option.bind_some, run_pure]
        refine ⟨_, _, rfl, ?_, hd', fr.mono ?_⟩
        · rw [hm]
          simp only [List.nil_merge]
          refine ⟨by simp, ?_, ?_, ?_, ?_, ?_⟩
          · simp only [hh]; cases D <;> simp
          · simp only [hst, getLastD_append, List.getLastD_cons]
          · intro x hx
            refine (fr.ok x).2 (okall x ?_)
            simp at hx ⊢; tauto
          · simpa using nd
          · exact ⟨_, _, by simpa using s'⟩
        · intro z hz; simp at hz ⊢; tauto
      | cons a A =>
        have hft : f ≠ first.tail := by
          rw [ht]
          simp only [List.getLastD_cons]
          intro he
          have hnd := (List.nodup_cons.1 nd2.2.1).1
          have : A.getLastD a ∈ a :: A := by
            rcases getLastD_mem_or (xs := A) (d := a) with h | h
            · rw [h.2]; simp
            · exact List.mem_cons_of_mem _ h
          exact hnd (he ▸ this)
        have hnf : h.next f = a := by
          rw [seg_append] at sf; exact sf.2.2.1
        simp only [run_ite, if_neg hft, run_bind, getNext_run okf, Option.bind_some, hnf]
        first
        | (simp at hk; done)
        | (obtain ⟨c', h'', e'', ic, hd'', fr'⟩ := ih h p n q m a s (D ++ [f]) A B
             first second (by simp at hk ⊢; omega)
             (by simpa using sf) ss
             (by intro x hx; refine okall x ?_; simp at hx ⊢; tauto)
             (by simpa using nd)
             (by rw [hh]; simp) (by rw [ht, List.getLastD_cons]) hst
           refine ⟨c', h'', e'', ?_, hd'', ?_⟩
           · rw [hm]; simpa using ic
           · refine fr'.mono ?_
             intro z hz; simp at hz ⊢; tauto)

omit [Arch] in
theorem chainMerge_spec (cmp : Nat → Nat → Int) {h : Heap} {c1 c2 : Chain} {xs ys : List Ptr}
    (h1 : IsChain h c1 xs) (h2 : IsChain h c2 ys) (nd : (xs ++ ys).Nodup) :
    ∃ c' h', chainMerge cmp c1 c2 h = some (c', h') ∧
      IsChain h' c' (List.merge xs ys (leB cmp h.data)) ∧
      h'.data = h.data ∧ Frame h h' (fun z => z ∈ xs ++ ys) := by
  obtain ⟨f, A, rfl⟩ := List.exists_cons_of_ne_nil h1.ne
  obtain ⟨s, B, rfl⟩ := List.exists_cons_of_ne_nil h2.ne
  obtain ⟨p, n, sf⟩ := h1.seg
  obtain ⟨q, m, ss⟩ := h2.seg
  have := chainMergeLoop_spec cmp _ h p n q m f s [] A B c1 c2 rfl sf ss
    (by intro x hx
        rcases List.mem_append.1 hx with hx | hx
        · exact h1.ok x hx
        · exact h2.ok x hx) nd h1.head
    (by rw [h1.tail, List.getLastD_cons]) (by rw [h2.tail, List.getLastD_cons])
  unfold chainMerge
  have e1 : c1.head = f := h1.head
  have e2 : c2.head = s := h2.head
  rw [e1, e2]
  exact this

omit [Arch] in
theorem chainMergeDegenerated_spec (cmp : Nat → Nat → Int) {h : Heap} {c1 c2 : Chain}
    {xs ys : List Ptr} (h1 : IsChain h c1 xs) (h2 : IsChain h c2 ys) (nd : (xs ++ ys).Nodup) :
    ∃ c' h', chainMergeDegenerated cmp c1 c2 h = some (c', h') ∧
      IsChain h' c' (mergeD cmp h.data xs ys) ∧
      h'.data = h.data ∧ Frame h h' (fun z => z ∈ xs ++ ys) := by
  have headok : ∀ {c : Chain} {zs : List Ptr}, IsChain h c zs → h.ok c.head ∧ h.ok c.tail ∧ zs.headD 0 ∈ zs ∧ zs.getLastD 0 ∈ zs := by
    intro c zs hz
    refine ⟨?_, ?_, ?_, ?_⟩
    · obtain ⟨b', u, rfl⟩ := List.exists_cons_of_ne_nil hz.ne
      rw [hz.head]; exact hz.ok _ (by simp)
    · obtain ⟨t, a', rfl⟩ := exists_concat hz.ne
      rw [hz.tail]; exact hz.ok _ (by simp)
    · obtain ⟨b', u, rfl⟩ := List.exists_cons_of_ne_nil hz.ne
      simp
    · obtain ⟨t, a', rfl⟩ := exists_concat hz.ne
      simp
  obtain ⟨o1h, o1t, m1h, m1t⟩ := headok h1
  obtain ⟨o2h, o2t, m2h, m2t⟩ := headok h2
  obtain ⟨p, n, s1⟩ := h1.seg
  obtain ⟨q, m, s2⟩ := h2.seg
  have key : ∀ {c1 c2 : Chain} {xs ys : List Ptr} {p n q m : Ptr}, IsChain h c1 xs → IsChain h c2 ys →
      Seg h p xs n → Seg h q ys m →
      (xs ++ ys).Nodup → xs.getLastD 0 ∈ xs → ys.headD 0 ∈ ys →
      ∃ h', chainConcat c1.tail c2.head h = some ((), h') ∧ IsChain h' ⟨c1.head, c2.tail⟩ (xs ++ ys) ∧
        h'.data = h.data ∧ Frame h h' (fun z => z ∈ xs ++ ys) := by
    intro c1 c2 xs ys p n q m h1 h2 s1 s2 nd ml mh
    obtain ⟨h', e', s', hd', fr⟩ := chainConcat_spec s1 s2 h1.ne h2.ne h1.ok h2.ok nd
    rw [← h1.tail, ← h2.head] at e'
    refine ⟨h', e', ⟨?_, ?_, ?_, ?_, nd, _, _, s'⟩, hd', fr.mono ?_⟩
    · simp [h1.ne]
    · simp only [h1.head]
      obtain ⟨b', u, rfl⟩ := List.exists_cons_of_ne_nil h1.ne
      rfl
    · simp only [h2.tail, getLastD_append]
      obtain ⟨t, a', rfl⟩ := exists_concat h2.ne
      simp
    · intro x hx
      rcases List.mem_append.1 hx with hx | hx
      · exact (fr.ok x).2 (h1.ok x hx)
      · exact (fr.ok x).2 (h2.ok x hx)
    · rintro z (rfl | rfl)
      · exact List.mem_append_left _ ml
      · exact List.mem_append_right _ mh
  unfold chainMergeDegenerated mergeD
  simp only [run_bind, getData_run o1t, getData_run o2h, Option.bind_some, run_ite]
  rw [h1.tail, h2.head]
  by_cases hc1 : cmp (h.data (xs.getLastD 0)) (h.data (ys.headD 0)) ≤ 0
  · rw [if_pos hc1, if_pos hc1, ← h1.tail, ← h2.head]
    obtain ⟨h', e', ic, hd', fr⟩ := key h1 h2 s1 s2 nd m1t m2h
    exact ⟨⟨c1.head, c2.tail⟩, h', by simp [e'], ic, hd', fr⟩
  · rw [if_neg hc1, if_neg hc1]
    simp only [run_bind, getData_run o2t, getData_run o1h, Option.bind_some, run_ite]
    rw [h2.tail, h1.head]
    by_cases hc2 : cmp (h.data (ys.getLastD 0)) (h.data (xs.headD 0)) < 0
    · rw [if_pos hc2, if_pos hc2, ← h2.tail, ← h1.head]
      obtain ⟨h', e', ic, hd', fr⟩ := key h2 h1 s2 s1 (List.perm_append_comm.nodup nd) m2t m1h
      exact ⟨⟨c2.head, c1.tail⟩, h', by simp [e', h1.tail, h2.head], ic, hd', fr.mono (by intro z hz; simp at hz ⊢; tauto)⟩
    · rw [if_neg hc2, if_neg hc2]
      exact chainMerge_spec cmp h1 h2 nd

/-- What the buckets `i, i+1, ...` hold when the remaining bits of the counter are `mask`:
    `P` are the input nodes already processed by these buckets in input order, `N` the nodes
    they hold. Bucket chains are related by `R` to a contiguous part of the input. -/
inductive Buckets (R : List Ptr → List Ptr → Prop) (h : Heap) (bit : Bits) :
    Nat → Nat → List Ptr → List Ptr → Prop
  | zero (i) : Buckets R h bit i 0 [] []
  | even {i m P N} : Buckets R h bit (i + 1) m P N → Buckets R h bit i (2 * m) P N
  | odd {i m P N c xs ys} : Buckets R h bit (i + 1) m P N → bit i = some c → IsChain h c ys →
      R xs ys → Buckets R h bit i (2 * m + 1) (P ++ xs) (N ++ ys)

variable {R : List Ptr → List Ptr → Prop}

omit [Arch] in
theorem Buckets.frame {h h' : Heap} {bit bit' : Bits} {S : Ptr → Prop} {i mask : Nat} {P N : List Ptr}
    (b : Buckets R h bit i mask P N) (fr : Frame h h' S) (hd : ∀ x ∈ N, ¬ S x) (j : Nat)
    (hb : ∀ k, i ≤ k → k < j → bit' k = bit k) (hm : mask * 2 ^ i < 2 ^ j) :
    Buckets R h' bit' i mask P N := by
  induction b with
  | zero i => exact .zero i
  | @even i m P N b ih =>
    refine .even (ih hd (fun k hk => hb k (by omega)) ?_)
    rw [Nat.pow_succ]; have : m * (2 ^ i * 2) = 2 * m * 2 ^ i := by ring
    omega
  | @odd i m P N c xs ys b hc ic r ih =>
    have hij : i < j := by
      have h1 : 1 * 2 ^ i ≤ (2 * m + 1) * 2 ^ i := Nat.mul_le_mul_right _ (by omega)
      exact (Nat.pow_lt_pow_iff_right (by omega : 1 < 2)).1 (by omega)
    refine .odd (ih (fun x hx => hd x (by simp [hx])) (fun k hk => hb k (by omega)) ?_)
      ((hb i (by omega) hij).trans hc) (ic.frame fr (fun x hx => hd x (by simp [hx]))) r
    rw [Nat.pow_succ]; have : m * (2 ^ i * 2) = 2 * m * 2 ^ i := by ring
    have : 2 * m * 2 ^ i ≤ (2 * m + 1) * 2 ^ i := Nat.mul_le_mul_right _ (by omega)
    omega

theorem bitGet_run {bit : Bits} {i : Nat} {c : Chain} {h : Heap} (hi : i < sizeBit + 1) (hb : bit i = some c) :
    bitGet bit i h = some (c, h) := by simp [bitGet, hi, hb]

theorem bitSet_run {bit : Bits} {i : Nat} {c : Chain} {h : Heap} (hi : i < sizeBit + 1) :
    bitSet bit i c h = some (upd bit i (some c), h) := by simp [bitSet, hi]

theorem chainCarryLoop_spec (cmp : Nat → Nat → Int) (d : Ptr → Nat)
    (hR : ∀ xs ys xs' ys', R xs ys → R xs' ys' → R (xs ++ xs') (mergeD cmp d ys ys')) (mask : Nat) :
    ∀ {h : Heap} {bit : Bits} {i : Nat} {P N : List Ptr} {last : Chain} {xs ys : List Ptr},
    Buckets R h bit i mask P N → IsChain h last ys → R xs ys → (N ++ ys).Nodup → h.data = d →
    (mask + 1) * 2 ^ i < 2 ^ sizeBit →
    ∃ bit' i' last' h' N', chainCarryLoop cmp bit mask i last h = some ((bit', i', last'), h') ∧
      i' < sizeBit ∧
      Buckets R h' (upd bit' i' (some last')) i (mask + 1) (P ++ xs) N' ∧
      N'.Perm (N ++ ys) ∧ h'.data = h.data ∧ Frame h h' (fun z => z ∈ N ++ ys) := by
  induction mask using Nat.strong_induction_on with
  | _ mask ih =>
  intro h bit i P N last xs ys b il r nd hd hm
  have hi : i < sizeBit := by
    have h1 : 1 * 2 ^ i ≤ (mask + 1) * 2 ^ i := Nat.mul_le_mul_right _ (by omega)
    exact (Nat.pow_lt_pow_iff_right (by omega : 1 < 2)).1 (by omega)
  have heven : ∀ m, mask = 2 * m → Buckets R h bit (i + 1) m P N → 
      ∃ bit' i' last' h' N', chainCarryLoop cmp bit mask i last h = some ((bit', i', last'), h') ∧
      i' < sizeBit ∧
      Buckets R h' (upd bit' i' (some last')) i (mask + 1) (P ++ xs) N' ∧
      N'.Perm (N ++ ys) ∧ h'.data = h.data ∧ Frame h h' (fun z => z ∈ N ++ ys) := by
    intro m em b0
    refine ⟨bit, i, last, h, N ++ ys, ?_, hi, ?_, List.Perm.refl _, rfl, Frame.refl _ _⟩
    · rw [chainCarryLoop]
      have : mask &&& 1 = 0 := by rw [Nat.and_one_is_mod]; omega
      simp [this]
    · subst em
      refine .odd (b0.frame (S := fun _ => False) (Frame.refl _ _) (by simp) sizeBit ?_ ?_) (by simp) il r
      · intro k hk hk2; exact upd_ne (by omega)
      · rw [Nat.pow_succ]; have : m * (2 ^ i * 2) = 2 * m * 2 ^ i := by ring
        have : 2 * m * 2 ^ i ≤ (2 * m + 1) * 2 ^ i := Nat.mul_le_mul_right _ (by omega)
        omega
  cases b with
  | zero => exact heven 0 rfl (.zero _)
  | @even _ m _ _ b => exact heven m rfl b
  | @odd _ m P N c xs0 ys0 b hc ic r0 =>
    have nd' : (N ++ (ys0 ++ ys)).Nodup := by simpa using nd
    have nd2 := List.nodup_append.1 nd'
    obtain ⟨c', h1, e1, ic1, hd1, fr1⟩ := chainMergeDegenerated_spec cmp ic il nd2.2.1
    have hpm := mergeD_perm cmp h.data ys0 ys
    have b1 : Buckets R h1 (upd bit i (some c')) (i + 1) m P N := by
      refine b.frame fr1 ?_ sizeBit ?_ ?_
      · intro x hx hx2; exact nd2.2.2 x hx x hx2 rfl
      · intro k hk hk2; exact upd_ne (by omega)
      · rw [Nat.pow_succ]; have : m * (2 ^ i * 2) = 2 * m * 2 ^ i := by ring
        have : 2 * m * 2 ^ i ≤ (2 * m + 1 + 1) * 2 ^ i := Nat.mul_le_mul_right _ (by omega)
        omega
    have hmm : (m + 1) * 2 ^ (i + 1) = (2 * m + 1 + 1) * 2 ^ i := by rw [Nat.pow_succ]; ring
    obtain ⟨bit', i', last', h', N', e', hi', b', hp', hd', fr'⟩ := ih m (by omega) b1 ic1
      (by rw [hd]; exact hR _ _ _ _ r0 r)
      ((List.Perm.append_left N hpm).symm.nodup nd') (hd1.trans hd) (by omega)
    refine ⟨bit', i', last', h', N', ?_, hi', ?_, ?_, hd'.trans hd1, ?_⟩
    · rw [chainCarryLoop]
      have h1 : (2 * m + 1) &&& 1 = 1 := by rw [Nat.and_one_is_mod]; omega
      have h2 : (2 * m + 1) >>> 1 = m := by rw [Nat.shiftRight_eq_div_pow]; omega
      simp only [h1, h2, ne_eq, Nat.one_ne_zero, not_false_eq_true, if_true, run_bind,
        bitGet_run (by omega : i < sizeBit + 1) hc, Option.bind_some, e1, bitSet_run (by omega : i < sizeBit + 1), e']
    · have : 2 * m + 1 + 1 = 2 * (m + 1) := by omega
      rw [this, List.append_assoc]
      exact .even b'
    · rw [List.append_assoc]
      exact hp'.trans (List.Perm.append_left N hpm)
    · rw [List.append_assoc]
      refine Frame.trans (fr1.mono ?_) (fr'.mono ?_)
      · intro z hz; exact List.mem_append_right _ hz
      · intro z hz; exact (List.Perm.append_left N hpm).mem_iff.1 hz

theorem chainSortLoop_spec (cmp : Nat → Nat → Int) (d : Ptr → Nat)
    (hR1 : ∀ x, R [x] [x])
    (hR : ∀ xs ys xs' ys', R xs ys → R xs' ys' → R (xs ++ xs') (mergeD cmp d ys ys')) :
    ∀ (rest : List Ptr) (h : Heap) (bit : Bits) (counter : Nat) (P N : List Ptr) (x p n : Ptr)
      (tail : Ptr),
    Buckets R h bit 0 counter P N → Seg h p (x :: rest) n → (∀ y ∈ x :: rest, h.ok y) →
    (N ++ x :: rest).Nodup → h.data = d → tail = rest.getLastD x →
    counter + (x :: rest).length < 2 ^ sizeBit →
    ∃ bit' h' N', chainSortLoop cmp tail bit counter x h
        = some ((bit', counter + (x :: rest).length), h') ∧
      Buckets R h' bit' 0 (counter + (x :: rest).length) (P ++ x :: rest) N' ∧
      N'.Perm (N ++ x :: rest) ∧ h'.data = h.data ∧ Frame h h' (fun z => z ∈ N ++ x :: rest) := by
  intro rest
  induction rest with
  | nil | cons y rest ih =>
    intro h bit counter P N x p n tail b s ok nd hd ht hlen
    have okx : h.ok x := ok x (by simp)
    have nd1 := List.nodup_append.1 nd
    have b1 : Buckets R h (upd bit sizeBit (some ⟨x, x⟩)) 0 counter P N := by
      refine b.frame (S := fun _ => False) (Frame.refl _ _) (by simp) sizeBit ?_ ?_
      · intro k _ hk; exact upd_ne (by omega)
      · simp at hlen ⊢; omega
    obtain ⟨bit', i', last', h', N', e', hi', b', hp', hd', fr'⟩ :=
      chainCarryLoop_spec cmp d hR counter b1 (IsChain.singleton okx) (hR1 x)
        (by
          rw [List.nodup_append]
          refine ⟨nd1.1, by simp, ?_⟩
          intro a ha c hc
          simp only [List.mem_singleton] at hc; subst hc
          exact nd1.2.2 a ha c (by simp)) hd (by simp at hlen ⊢; omega)
    rw [chainSortLoop]
    simp only [run_bind, bitSet_run (by omega : sizeBit < sizeBit + 1), Option.bind_some, getNext_run okx, e',
      bitSet_run (by omega : i' < sizeBit + 1), run_ite, run_pure]
    first
    | (have hxt : x = tail := by rw [ht]; rfl
       rw [if_pos hxt]
       exact ⟨_, h', N', rfl, b', hp', hd', fr'⟩)
    | (have hxt : x ≠ tail := by
        rw [ht]
        simp only [List.getLastD_cons]
        intro he
        have : rest.getLastD y ∈ y :: rest := by
          rcases getLastD_mem_or (xs := rest) (d := y) with h | h
          · rw [h.2]; simp
          · exact List.mem_cons_of_mem _ h
        exact (List.nodup_cons.1 nd1.2.1).1 (he ▸ this)
       rw [if_neg hxt]
       have hnx : h.next x = y := s.2.1
       rw [hnx]
       have hdis : ∀ z ∈ y :: rest, ¬ z ∈ N ++ [x] := by
         intro z hz hm
         rcases List.mem_append.1 hm with hm | hm
         · exact nd1.2.2 z hm z (List.mem_cons_of_mem _ hz) rfl
         · simp only [List.mem_singleton] at hm
           subst hm
           exact (List.nodup_cons.1 nd1.2.1).1 hz
       have hpN : (N' ++ y :: rest).Perm (N ++ x :: y :: rest) := by
         have := List.Perm.append_right (y :: rest) hp'
         simpa using this
       obtain ⟨bit2, h2, N2, e2, b2, hp2, hd2, fr2⟩ := ih h' (upd bit' i' (some last')) (counter + 1)
         (P ++ [x]) N' y x n tail b'
         (seg_congr (fun z hz => fr'.next z (hdis z hz)) (fun z hz => fr'.prev z (hdis z hz)) s.2.2)
         (fun z hz => (fr'.ok z).2 (ok z (List.mem_cons_of_mem _ hz)))
         (hpN.symm.nodup nd) (hd'.trans hd) (by rw [ht, List.getLastD_cons])
         (by simp at hlen ⊢; omega)
       have hl : counter + 1 + (y :: rest).length = counter + (x :: y :: rest).length := by
         simp; omega
       rw [hl] at e2 b2
       refine ⟨bit2, h2, N2, e2, by simpa using b2, hp2.trans hpN, hd2.trans hd', ?_⟩
       refine Frame.trans (fr'.mono ?_) (fr2.mono ?_)
       · intro z hz; simp at hz ⊢; tauto
       · intro z hz; exact hpN.mem_iff.1 hz)

theorem chainFinalLoop_spec (cmp : Nat → Nat → Int) (d : Ptr → Nat)
    (hR : ∀ xs ys xs' ys', R xs ys → R xs' ys' → R (xs ++ xs') (mergeD cmp d ys ys')) (mask : Nat) :
    ∀ {h : Heap} {bit : Bits} {i : Nat} {P N : List Ptr} {c : Chain} {xs ys : List Ptr},
    0 < mask → Buckets R h bit (i + 1) (mask / 2) P N → bit i = some c → IsChain h c ys → R xs ys →
    (N ++ ys).Nodup → h.data = d → mask * 2 ^ i < 2 ^ sizeBit →
    ∃ c' h' ys', chainFinalLoop cmp bit mask i h = some (c', h') ∧ IsChain h' c' ys' ∧
      R (P ++ xs) ys' ∧ ys'.Perm (N ++ ys) ∧ h'.data = h.data ∧
      Frame h h' (fun z => z ∈ N ++ ys) := by
  induction mask using Nat.strong_induction_on with
  | _ mask ih =>
  intro h bit i P N c xs ys hpos b hc ic r nd hd hm
  have hi : i < sizeBit := by
    have h1 : 1 * 2 ^ i ≤ mask * 2 ^ i := Nat.mul_le_mul_right _ (by omega)
    exact (Nat.pow_lt_pow_iff_right (by omega : 1 < 2)).1 (by omega)
  rw [chainFinalLoop]
  by_cases h1 : mask = 1
  · subst h1
    have : P = [] ∧ N = [] := by
      have hb : ∀ {m i P N}, Buckets R h bit i m P N → m = 0 → P = [] ∧ N = [] := by
        intro m i P N b
        induction b with
        | zero => simp
        | even b ih => intro h; exact ih (by omega)
        | odd => intro h; omega
      exact hb b rfl
    obtain ⟨rfl, rfl⟩ := this
    exact ⟨c, h, ys, by simp [bitGet_run (by omega : i < sizeBit + 1) hc], ic, by simpa using r,
      by simp, rfl, Frame.refl _ _⟩
  · have hsh : mask >>> 1 = mask / 2 := by rw [Nat.shiftRight_eq_div_pow]
    simp only [ne_eq, h1, not_false_eq_true, if_true, run_bind, bitGet_run (by omega : i < sizeBit + 1) hc,
      Option.bind_some, hsh, run_ite, Nat.and_one_is_mod]
    have hm2 : (mask / 2) * 2 ^ (i + 1) < 2 ^ sizeBit := by
      have e : (mask / 2) * 2 ^ (i + 1) = (2 * (mask / 2)) * 2 ^ i := by rw [Nat.pow_succ]; ring
      have : (2 * (mask / 2)) * 2 ^ i ≤ mask * 2 ^ i := Nat.mul_le_mul_right _ (by omega)
      omega
    have hm0 : 0 < mask / 2 := by omega
    generalize hmk : mask / 2 = mk at *
    have heven : ∀ m, mk = 2 * m → Buckets R h bit (i + 1 + 1) m P N →
        ∃ c' h' ys', chainFinalLoop cmp (upd bit (i + 1) (some c)) mk (i + 1) h = some (c', h') ∧
          IsChain h' c' ys' ∧ R (P ++ xs) ys' ∧ ys'.Perm (N ++ ys) ∧ h'.data = h.data ∧
          Frame h h' (fun z => z ∈ N ++ ys) := by
      intro m hmk' b
      refine ih mk (by omega) hm0 ?_ (by simp) ic r nd hd hm2
      have e : mk / 2 = m := by omega
      rw [e]
      refine b.frame (S := fun _ => False) (Frame.refl _ _) (by simp) sizeBit ?_ ?_
      · intro k hk _; exact upd_ne (by omega)
      · have : m * 2 ^ (i + 1 + 1) = 2 * m * 2 ^ (i + 1) := by rw [Nat.pow_succ _ (i + 1)]; ring
        rw [this, ← hmk']; exact hm2
    have hi1 : i + 1 < sizeBit := by
      have h1 : 1 * 2 ^ (i + 1) ≤ mk * 2 ^ (i + 1) := Nat.mul_le_mul_right _ (by omega)
      exact (Nat.pow_lt_pow_iff_right (by omega : 1 < 2)).1 (by omega)
    cases b with
    | zero => omega
    | @even _ m _ _ b =>
      have : 2 * m % 2 = 0 := by omega
      simp only [this, not_true_eq_false, if_false, bitSet_run (by omega : i + 1 < sizeBit + 1), Option.bind_some]
      exact heven m rfl b
    | @odd _ m P N c1 xs1 ys1 b hc1 ic1 r1 =>
      have e2 : (2 * m + 1) % 2 = 1 := by omega
      have nd' : (N ++ (ys1 ++ ys)).Nodup := by simpa using nd
      have nd2 := List.nodup_append.1 nd'
      obtain ⟨c', h1, e1, icm, hd1, fr1⟩ := chainMergeDegenerated_spec cmp ic1 ic nd2.2.1
      have hpm := mergeD_perm cmp h.data ys1 ys
      simp only [e2, Nat.one_ne_zero, not_false_eq_true, if_true,
        bitGet_run (by omega : i + 1 < sizeBit + 1) hc1, Option.bind_some, e1,
        bitSet_run (by omega : i + 1 < sizeBit + 1)]
      have b1 : Buckets R h1 (upd bit (i + 1) (some c')) (i + 1 + 1) ((2 * m + 1) / 2) P N := by
        have e : (2 * m + 1) / 2 = m := by omega
        rw [e]
        refine b.frame fr1 ?_ sizeBit ?_ ?_
        · intro x hx hx2; exact nd2.2.2 x hx x hx2 rfl
        · intro k hk _; exact upd_ne (by omega)
        · have e3 : m * 2 ^ (i + 1 + 1) = 2 * m * 2 ^ (i + 1) := by rw [Nat.pow_succ _ (i + 1)]; ring
          have : 2 * m * 2 ^ (i + 1) ≤ (2 * m + 1) * 2 ^ (i + 1) := Nat.mul_le_mul_right _ (by omega)
          omega
      obtain ⟨c2, h2, ys2, ee, icc, rr, pp, hd2, fr2⟩ := ih (2 * m + 1) (by omega) hm0 b1 (by simp) icm
        (by rw [hd]; exact hR _ _ _ _ r1 r)
        ((List.Perm.append_left N hpm).symm.nodup nd') (hd1.trans hd) hm2
      refine ⟨c2, h2, ys2, ee, icc, by simpa using rr, ?_, hd2.trans hd1, ?_⟩
      · rw [List.append_assoc]
        exact pp.trans (List.Perm.append_left N hpm)
      · rw [List.append_assoc]
        refine Frame.trans (fr1.mono ?_) (fr2.mono ?_)
        · intro z hz; exact List.mem_append_right _ hz
        · intro z hz; exact (List.Perm.append_left N hpm).mem_iff.1 hz

omit [Arch] in
/-- The lowest used bucket. -/
theorem Buckets.ctz {h : Heap} {bit : Bits} (m : Nat) : ∀ {i : Nat} {P N : List Ptr},
    0 < m → Buckets R h bit i m P N →
    ∃ P' N' c xs ys, Buckets R h bit (i + ctz m + 1) ((m >>> Tommy.ctz m) / 2) P' N' ∧
      bit (i + Tommy.ctz m) = some c ∧ IsChain h c ys ∧ R xs ys ∧ P = P' ++ xs ∧ N = N' ++ ys ∧
      0 < m >>> Tommy.ctz m ∧ (m >>> Tommy.ctz m) * 2 ^ (i + Tommy.ctz m) = m * 2 ^ i := by
  induction m using Nat.strong_induction_on with
  | _ m ih =>
  intro i P N hpos b
  cases b with
  | zero => omega
  | @even _ m _ _ b =>
    obtain ⟨P', N', c, xs, ys, h1, h2, h3, h4, h5, h6, h7, h8⟩ := ih m (by omega) (by omega) b
    have e : Tommy.ctz (2 * m) = Tommy.ctz m + 1 := by
      conv_lhs => unfold Tommy.ctz
      have h0 : ¬ (2 * m = 0) := by omega
      have h1 : ¬ (2 * m % 2 = 1) := by omega
      have h2 : 2 * m / 2 = m := by omega
      rw [dif_neg h0, if_neg h1, h2]; omega
    have e2 : (2 * m) >>> (Tommy.ctz m + 1) = m >>> Tommy.ctz m := by
      rw [Nat.add_comm, Nat.shiftRight_add]
      congr 1
      rw [Nat.shiftRight_eq_div_pow]; omega
    rw [e, e2]
    have e3 : i + (Tommy.ctz m + 1) = i + 1 + Tommy.ctz m := by omega
    rw [e3]
    refine ⟨P', N', c, xs, ys, h1, h2, h3, h4, h5, h6, h7, ?_⟩
    rw [h8, Nat.pow_succ]; ring
  | @odd _ m P N c xs ys b hc ic r =>
    have e : Tommy.ctz (2 * m + 1) = 0 := by
      unfold Tommy.ctz
      have h0 : ¬ (2 * m + 1 = 0) := by omega
      have h1 : (2 * m + 1) % 2 = 1 := by omega
      rw [dif_neg h0, if_pos h1]
    rw [e]
    refine ⟨P, N, c, xs, ys, ?_, hc, ic, r, rfl, rfl, by simp, by simp⟩
    have : (2 * m + 1) >>> 0 / 2 = m := by simp; omega
    rw [this]; exact b

theorem chainMergesort_spec (cmp : Nat → Nat → Int) {h : Heap} {c : Chain} {xs : List Ptr}
    (hR1 : ∀ x, R [x] [x])
    (hR : ∀ xs ys xs' ys', R xs ys → R xs' ys' → R (xs ++ xs') (mergeD cmp h.data ys ys'))
    (hc : IsChain h c xs) (hlen : xs.length < 2 ^ sizeBit) :
    ∃ c' h' ys, chainMergesort cmp c h = some (c', h') ∧ IsChain h' c' ys ∧ R xs ys ∧ ys.Perm xs ∧
      h'.data = h.data ∧ Frame h h' (fun z => z ∈ xs) := by
  obtain ⟨x, rest, rfl⟩ := List.exists_cons_of_ne_nil hc.ne
  obtain ⟨p, n, s⟩ := hc.seg
  have hh : c.head = x := hc.head
  obtain ⟨bit', h1, N', e1, b1, hp1, hd1, fr1⟩ := chainSortLoop_spec cmp h.data hR1 hR rest h
    (fun _ => none) 0 [] [] x p n c.tail (.zero 0) s hc.ok (by simpa using hc.nodup) rfl
    (by rw [hc.tail, List.getLastD_cons]) (by simpa using hlen)
  simp only [Nat.zero_add] at e1 b1
  simp only [List.nil_append] at b1 hp1 fr1
  unfold chainMergesort
  simp only [run_bind, hh, e1, Option.bind_some]
  obtain ⟨P2, N2, c2, xs2, ys2, g1, g2, g3, g4, g5, g6, g7, g8⟩ := b1.ctz _ (by simp)
  rw [Nat.zero_add] at g1 g2 g8
  obtain ⟨c', h', ys', e', ic, rr, pp, hd', fr'⟩ := chainFinalLoop_spec cmp h.data hR _ g7 g1 g2 g3 g4
    (by rw [← g6]; exact hp1.symm.nodup hc.nodup) hd1 (by rw [g8]; simpa using hlen)
  refine ⟨c', h', ys', e', ic, by rw [g5]; exact rr, pp.trans (g6 ▸ hp1), hd'.trans hd1, ?_⟩
  refine Frame.trans fr1 (fr'.mono ?_)
  intro z hz
  rw [← g6] at hz
  exact hp1.mem_iff.1 hz

theorem listSort_spec (cmp : Nat → Nat → Int) {h : Heap} {l : Ptr} {xs : List Ptr}
    (hR0 : R [] []) (hR1 : ∀ x, R [x] [x])
    (hR : ∀ xs ys xs' ys', R xs ys → R xs' ys' → R (xs ++ xs') (mergeD cmp h.data ys ys'))
    (hl : IsList h l xs) (hlen : xs.length < 2 ^ sizeBit) :
    ∃ l' h' ys, listSort l cmp h = some (l', h') ∧ IsList h' l' ys ∧ R xs ys ∧ ys.Perm xs ∧
      h'.data = h.data ∧ Frame h h' (fun z => z ∈ xs) := by
  unfold listSort listEmpty listHead
  by_cases hne : xs = []
  · subst hne
    have h0 : l = 0 := hl.head
    subst h0
    exact ⟨0, h, [], by simp, IsList.nil h, hR0, by simp, rfl, Frame.refl _ _⟩
  · have h0 : l ≠ 0 := fun e => hne (hl.eq_zero_iff.1 e)
    have ic : IsChain h ⟨l, xs.getLastD 0⟩ xs :=
      ⟨hne, hl.head, rfl, hl.ok, hl.nodup, _, _, hl.seg⟩
    obtain ⟨c', h', ys, e', ic', r, pm, hd', fr⟩ := chainMergesort_spec cmp hR1 hR ic hlen
    have hne' := ic'.ne
    have hho : h'.ok c'.head := by
      obtain ⟨b', u, rfl⟩ := List.exists_cons_of_ne_nil hne'
      rw [ic'.head]; exact ic'.ok _ (by simp)
    have hto : h'.ok c'.tail := by
      obtain ⟨t, a', rfl⟩ := exists_concat hne'
      rw [ic'.tail]; exact ic'.ok _ (by simp)
    refine ⟨c'.head, { h' with prev := upd h'.prev c'.head c'.tail, next := upd h'.next c'.tail 0 }, ys,
      ?_, ?_, r, pm, hd', ?_⟩
    · have hb : (l == 0) = false := by simpa using h0
      simp [hb, getPrev_run (hl.headD_ok hne), hl.prev_head hne]
      simp at e'
      simp [e', listSet, setPrev_run, setNext_run, hho, hto]
    · refine ⟨ic'.head, ic'.ok, ic'.nodup, ?_⟩
      obtain ⟨p, n, s⟩ := ic'.seg
      have s1 : Seg { h' with prev := upd h'.prev c'.head c'.tail } c'.tail ys n := by
        have hhd := ic'.head
        have hnd := ic'.nodup
        obtain ⟨b', u, rfl⟩ := List.exists_cons_of_ne_nil hne'
        simp only [List.headD_cons] at hhd
        rw [hhd]
        refine seg_change_prev (h := h') (fun _ _ => rfl) ?_ (by simp) s
        intro z hz
        exact upd_ne (fun e => (List.nodup_cons.1 hnd).1 (e ▸ hz))
      rw [← ic'.tail]
      have htl := ic'.tail
      have hnd := ic'.nodup
      obtain ⟨t, a', rfl⟩ := exists_concat hne'
      have hta : c'.tail = a' := by rw [htl]; simp
      rw [hta] at s1 ⊢
      refine seg_change_next (h := { h' with prev := upd h'.prev c'.head a' }) ?_ (fun _ _ => rfl) (by simp) s1
      intro z hz
      refine upd_ne ?_
      rintro rfl
      exact (List.nodup_append.1 hnd).2.2 z hz z (by simp) rfl
    · have mh : c'.head ∈ xs := by
        refine pm.mem_iff.1 ?_
        obtain ⟨b', u, rfl⟩ := List.exists_cons_of_ne_nil hne'
        rw [ic'.head]; simp
      have mt : c'.tail ∈ xs := by
        refine pm.mem_iff.1 ?_
        obtain ⟨t, a', rfl⟩ := exists_concat hne'
        rw [ic'.tail]; simp
      refine fr.trans ⟨rfl, rfl, fun q hq => upd_ne ?_, fun q hq => upd_ne ?_⟩
      · rintro rfl; exact hq mt
      · rintro rfl; exact hq mh

end Tommy
