import Verif.Model.SortCost
import Verif.Proof.ListSort
/-! The number of comparisons of the sort (tommychain.h). The proofs follow `Verif.Proof.ListSort`. -/
set_option linter.unusedSimpArgs false
namespace Tommy

variable [Arch]

/-- The number of calls of `cmp` of the loop of `tommy_chain_merge` on two sequences. -/
def mergeN (cmp : Nat → Nat → Int) (d : Ptr → Nat) : List Ptr → List Ptr → Nat
  | [], _ => 0
  | _ :: _, [] => 0
  | f :: A, s :: B =>
    if cmp (d f) (d s) > 0 then mergeN cmp d (f :: A) B + 1 else mergeN cmp d A (s :: B) + 1
termination_by xs ys => xs.length + ys.length

/-- The number of calls of `cmp` of `tommy_chain_merge_degenerated`. -/
def mergeDN (cmp : Nat → Nat → Int) (d : Ptr → Nat) (xs ys : List Ptr) : Nat :=
  if cmp (d (xs.getLastD 0)) (d (ys.headD 0)) ≤ 0 then 1
  else if cmp (d (ys.getLastD 0)) (d (xs.headD 0)) < 0 then 2
  else 2 + mergeN cmp d xs ys

omit [Arch] in
theorem mergeN_le (cmp : Nat → Nat → Int) (d : Ptr → Nat) : ∀ xs ys : List Ptr,
    mergeN cmp d xs ys ≤ xs.length + ys.length - 1
  | [], ys => by simp [mergeN]
  | f :: A, [] => by simp [mergeN]
  | f :: A, s :: B => by
    rw [mergeN]
    split
    · have := mergeN_le cmp d (f :: A) B
      simp at this ⊢; omega
    · have := mergeN_le cmp d A (s :: B)
      simp at this ⊢; omega
termination_by xs ys => xs.length + ys.length

omit [Arch] in
theorem chainMergeLoopC_spec (cmp : Nat → Nat → Int) :
    ∀ (k : Nat) (h : Heap) (p n q m f s : Ptr) (D A B : List Ptr) (first second : Chain) (t : Nat),
    A.length + B.length = k →
    Seg h p (D ++ f :: A) n → Seg h q (s :: B) m →
    (∀ x ∈ D ++ (f :: A) ++ s :: B, h.ok x) →
    (D ++ (f :: A) ++ s :: B).Nodup →
    first.head = (D ++ f :: A).headD 0 → first.tail = A.getLastD f → second.tail = B.getLastD s →
    ∃ c' h', chainMergeLoopC cmp first second f s t h
        = some ((c', t + mergeN cmp h.data (f :: A) (s :: B)), h') ∧
      IsChain h' c' (D ++ List.merge (f :: A) (s :: B) (leB cmp h.data)) ∧
      h'.data = h.data ∧ Frame h h' (fun z => z ∈ D ++ (f :: A) ++ s :: B) := by
  intro k
  induction k with
  | zero | succ k ih =>
    intro h p n q m f s D A B first second t hk sf ss okall nd hh ht hst
    have okf : h.ok f := okall f (by simp)
    have oks : h.ok s := okall s (by simp)
    have nd1 := List.nodup_append.1 nd
    have nd2 := List.nodup_append.1 nd1.1
    rw [chainMergeLoopC]
    simp only [run_bind, getData_run okf, getData_run oks, Option.bind_some, run_ite]
    by_cases hc : cmp (h.data f) (h.data s) > 0
    · rw [if_pos hc]
      have hm : List.merge (f :: A) (s :: B) (leB cmp h.data)
          = s :: List.merge (f :: A) B (leB cmp h.data) := by
        rw [List.cons_merge_cons_neg]; simp [leB]; omega
      have hN : mergeN cmp h.data (f :: A) (s :: B) = mergeN cmp h.data (f :: A) B + 1 := by
        rw [mergeN, if_pos hc]
      simp only [run_bind, getNext_run oks, Option.bind_some, ss.2.1]
      obtain ⟨h', p', e', s1, s2, hd', fr⟩ := merge_insert (first := first) sf ss
        (fun x hx => okall x (List.mem_append_left _ hx)) oks nd hh
      have e' := e' (fun c => if s = second.tail then pure (c, t + 1) else
        chainMergeLoopC cmp c second f (B.headD m) (t + 1))
      simp only [run_ite, run_bind, run_pure, Option.bind_some] at e' ⊢
      rw [e']
      cases B with
      | nil =>
        have hts : s = second.tail := by rw [hst]; rfl
        rw [if_pos hts]
        refine ⟨_, _, by rw [hN]; simp only [mergeN, Nat.zero_add]; rfl, ?_, hd', fr.mono ?_⟩
        · rw [hm]
          simp only [List.merge_right]
          refine ⟨by simp, rfl, ?_, ?_, ?_, ?_⟩
          · simp only [ht, getLastD_append, List.getLastD_cons]
          · intro x hx
            refine (fr.ok x).2 (okall x ?_)
            simp at hx ⊢; tauto
          · refine List.Perm.nodup ?_ nd
            have : D ++ (f :: A) ++ [s] = D ++ ((f :: A) ++ [s]) := by simp
            rw [this]
            refine List.Perm.append_left _ ?_
            exact List.perm_append_comm
          · exact ⟨_, _, s1⟩
        · intro z hz; simp at hz ⊢; tauto
      | cons b B =>
        have hts : s ≠ second.tail := by
          rw [hst]
          simp only [List.getLastD_cons]
          intro he
          have hnd := (List.nodup_cons.1 nd1.2.1).1
          have : B.getLastD b ∈ b :: B := by
            rcases getLastD_mem_or (xs := B) (d := b) with h | h
            · rw [h.2]; simp
            · exact List.mem_cons_of_mem _ h
          exact hnd (he ▸ this)
        rw [if_neg hts]
        first
        | (simp at hk; done)
        | (have hperm : (D ++ (f :: A) ++ s :: b :: B).Perm (D ++ [s] ++ (f :: A) ++ b :: B) := by
            have e1 : D ++ (f :: A) ++ s :: b :: B = D ++ (((f :: A) ++ [s]) ++ b :: B) := by simp
            have e2 : D ++ [s] ++ (f :: A) ++ b :: B = D ++ (([s] ++ (f :: A)) ++ b :: B) := by simp
            rw [e1, e2]
            exact List.Perm.append_left _ (List.Perm.append_right _ List.perm_append_comm)
           obtain ⟨c', h'', e'', ic, hd'', fr'⟩ := ih h' p' n s m f b (D ++ [s]) A B
             ⟨(D ++ s :: f :: A).headD 0, first.tail⟩ second (t + 1) (by simp at hk ⊢; omega)
             (by simpa using s1) s2
             (by intro x hx; refine (fr.ok x).2 (okall x (hperm.mem_iff.2 hx)))
             (hperm.nodup nd)
             (by simp) ht (by rw [hst, List.getLastD_cons])
           refine ⟨c', h'', by rw [List.headD_cons, e'', hN, hd']; simp; omega, ?_, hd''.trans hd', ?_⟩
           · rw [hm]
             rw [hd'] at ic
             simpa using ic
           · refine Frame.trans (fr.mono ?_) (fr'.mono ?_)
             · intro z hz; simp at hz ⊢; tauto
             · intro z hz; exact hperm.mem_iff.2 hz)
    · rw [if_neg hc]
      have hm : List.merge (f :: A) (s :: B) (leB cmp h.data)
          = f :: List.merge A (s :: B) (leB cmp h.data) := by
        rw [List.cons_merge_cons_pos]; simp [leB]; omega
      have hN : mergeN cmp h.data (f :: A) (s :: B) = mergeN cmp h.data A (s :: B) + 1 := by
        rw [mergeN, if_neg hc]
      cases A with
      | nil =>
        have hft : f = first.tail := by rw [ht]; rfl
        simp only [run_ite, if_pos hft]
        have := chainConcat_spec sf ss (by simp) (by simp)
          (fun x hx => okall x (List.mem_append_left _ hx))
          (fun x hx => okall x (List.mem_append_right _ hx)) nd
        obtain ⟨h', e', s', hd', fr⟩ := this
        simp only [List.getLastD_concat, List.headD_cons] at e'
        simp only [run_bind, e', Option.bind_some, run_pure]
        refine ⟨_, _, by rw [hN]; simp only [mergeN, Nat.zero_add]; rfl, ?_, hd', fr.mono ?_⟩
        · rw [hm]
          simp only [List.nil_merge]
          refine ⟨by simp, ?_, ?_, ?_, ?_, ?_⟩
          · simp only [hh]; cases D <;> simp
          · simp only [hst, getLastD_append, List.getLastD_cons]
          · intro x hx
            refine (fr.ok x).2 (okall x ?_)
            simp at hx ⊢; tauto
          · simpa using nd
          · exact ⟨_, _, by simpa using s'⟩
        · intro z hz; simp at hz ⊢; tauto
      | cons a A =>
        have hft : f ≠ first.tail := by
          rw [ht]
          simp only [List.getLastD_cons]
          intro he
          have hnd := (List.nodup_cons.1 nd2.2.1).1
          have : A.getLastD a ∈ a :: A := by
            rcases getLastD_mem_or (xs := A) (d := a) with h | h
            · rw [h.2]; simp
            · exact List.mem_cons_of_mem _ h
          exact hnd (he ▸ this)
        have hnf : h.next f = a := by
          rw [seg_append] at sf; exact sf.2.2.1
        simp only [run_ite, if_neg hft, run_bind, getNext_run okf, Option.bind_some, hnf]
        first
        | (simp at hk; done)
        | (obtain ⟨c', h'', e'', ic, hd'', fr'⟩ := ih h p n q m a s (D ++ [f]) A B
             first second (t + 1) (by simp at hk ⊢; omega)
             (by simpa using sf) ss
             (by intro x hx; refine okall x ?_; simp at hx ⊢; tauto)
             (by simpa using nd)
             (by rw [hh]; simp) (by rw [ht, List.getLastD_cons]) hst
           refine ⟨c', h'', by rw [e'', hN]; simp; omega, ?_, hd'', ?_⟩
           · rw [hm]; simpa using ic
           · refine fr'.mono ?_
             intro z hz; simp at hz ⊢; tauto)

omit [Arch] in
theorem chainMergeC_spec (cmp : Nat → Nat → Int) {h : Heap} {c1 c2 : Chain} {xs ys : List Ptr}
    (h1 : IsChain h c1 xs) (h2 : IsChain h c2 ys) (nd : (xs ++ ys).Nodup) (t : Nat) :
    ∃ c' h', chainMergeC cmp c1 c2 t h = some ((c', t + mergeN cmp h.data xs ys), h') ∧
      IsChain h' c' (List.merge xs ys (leB cmp h.data)) ∧
      h'.data = h.data ∧ Frame h h' (fun z => z ∈ xs ++ ys) := by
  obtain ⟨f, A, rfl⟩ := List.exists_cons_of_ne_nil h1.ne
  obtain ⟨s, B, rfl⟩ := List.exists_cons_of_ne_nil h2.ne
  obtain ⟨p, n, sf⟩ := h1.seg
  obtain ⟨q, m, ss⟩ := h2.seg
  have := chainMergeLoopC_spec cmp _ h p n q m f s [] A B c1 c2 t rfl sf ss
    (by intro x hx
        rcases List.mem_append.1 hx with hx | hx
        · exact h1.ok x hx
        · exact h2.ok x hx) nd h1.head
    (by rw [h1.tail, List.getLastD_cons]) (by rw [h2.tail, List.getLastD_cons])
  unfold chainMergeC
  have e1 : c1.head = f := h1.head
  have e2 : c2.head = s := h2.head
  rw [e1, e2]
  exact this

omit [Arch] in
theorem chainMergeDegeneratedC_spec (cmp : Nat → Nat → Int) {h : Heap} {c1 c2 : Chain}
    {xs ys : List Ptr} (h1 : IsChain h c1 xs) (h2 : IsChain h c2 ys) (nd : (xs ++ ys).Nodup) (t : Nat) :
    ∃ c' h', chainMergeDegeneratedC cmp c1 c2 t h = some ((c', t + mergeDN cmp h.data xs ys), h') ∧
      IsChain h' c' (mergeD cmp h.data xs ys) ∧
      h'.data = h.data ∧ Frame h h' (fun z => z ∈ xs ++ ys) := by
  have headok : ∀ {c : Chain} {zs : List Ptr}, IsChain h c zs → h.ok c.head ∧ h.ok c.tail ∧ zs.headD 0 ∈ zs ∧ zs.getLastD 0 ∈ zs := by
    intro c zs hz
    refine ⟨?_, ?_, ?_, ?_⟩
    · obtain ⟨b', u, rfl⟩ := List.exists_cons_of_ne_nil hz.ne
      rw [hz.head]; exact hz.ok _ (by simp)
    · obtain ⟨t, a', rfl⟩ := exists_concat hz.ne
      rw [hz.tail]; exact hz.ok _ (by simp)
    · obtain ⟨b', u, rfl⟩ := List.exists_cons_of_ne_nil hz.ne
      simp
    · obtain ⟨t, a', rfl⟩ := exists_concat hz.ne
      simp
  obtain ⟨o1h, o1t, m1h, m1t⟩ := headok h1
  obtain ⟨o2h, o2t, m2h, m2t⟩ := headok h2
  obtain ⟨p, n, s1⟩ := h1.seg
  obtain ⟨q, m, s2⟩ := h2.seg
  have key : ∀ {c1 c2 : Chain} {xs ys : List Ptr} {p n q m : Ptr}, IsChain h c1 xs → IsChain h c2 ys →
      Seg h p xs n → Seg h q ys m →
      (xs ++ ys).Nodup → xs.getLastD 0 ∈ xs → ys.headD 0 ∈ ys →
      ∃ h', chainConcat c1.tail c2.head h = some ((), h') ∧ IsChain h' ⟨c1.head, c2.tail⟩ (xs ++ ys) ∧
        h'.data = h.data ∧ Frame h h' (fun z => z ∈ xs ++ ys) := by
    intro c1 c2 xs ys p n q m h1 h2 s1 s2 nd ml mh
    obtain ⟨h', e', s', hd', fr⟩ := chainConcat_spec s1 s2 h1.ne h2.ne h1.ok h2.ok nd
    rw [← h1.tail, ← h2.head] at e'
    refine ⟨h', e', ⟨?_, ?_, ?_, ?_, nd, _, _, s'⟩, hd', fr.mono ?_⟩
    · simp [h1.ne]
    · simp only [h1.head]
      obtain ⟨b', u, rfl⟩ := List.exists_cons_of_ne_nil h1.ne
      rfl
    · simp only [h2.tail, getLastD_append]
      obtain ⟨t, a', rfl⟩ := exists_concat h2.ne
      simp
    · intro x hx
      rcases List.mem_append.1 hx with hx | hx
      · exact (fr.ok x).2 (h1.ok x hx)
      · exact (fr.ok x).2 (h2.ok x hx)
    · rintro z (rfl | rfl)
      · exact List.mem_append_left _ ml
      · exact List.mem_append_right _ mh
  unfold chainMergeDegeneratedC mergeD mergeDN
  simp only [run_bind, getData_run o1t, getData_run o2h, Option.bind_some, run_ite]
  rw [h1.tail, h2.head]
  by_cases hc1 : cmp (h.data (xs.getLastD 0)) (h.data (ys.headD 0)) ≤ 0
  · rw [if_pos hc1, if_pos hc1, if_pos hc1, ← h1.tail, ← h2.head]
    obtain ⟨h', e', ic, hd', fr⟩ := key h1 h2 s1 s2 nd m1t m2h
    exact ⟨⟨c1.head, c2.tail⟩, h', by simp [e'], ic, hd', fr⟩
  · rw [if_neg hc1, if_neg hc1, if_neg hc1]
    simp only [run_bind, getData_run o2t, getData_run o1h, Option.bind_some, run_ite]
    rw [h2.tail, h1.head]
    by_cases hc2 : cmp (h.data (ys.getLastD 0)) (h.data (xs.headD 0)) < 0
    · rw [if_pos hc2, if_pos hc2, if_pos hc2, ← h2.tail, ← h1.head]
      obtain ⟨h', e', ic, hd', fr⟩ := key h2 h1 s2 s1 (List.perm_append_comm.nodup nd) m2t m1h
      exact ⟨⟨c2.head, c1.tail⟩, h', by simp [e', h1.tail, h2.head], ic, hd', fr.mono (by intro z hz; simp at hz ⊢; tauto)⟩
    · rw [if_neg hc2, if_neg hc2, if_neg hc2]
      obtain ⟨c', h', e', r⟩ := chainMergeC_spec cmp h1 h2 nd (t + 2)
      exact ⟨c', h', by rw [e', Nat.add_assoc], r⟩

/-- What the buckets `i, i+1, ...` hold when the remaining bits of the counter are `mask`:
    `P` are the input nodes already processed by these buckets in input order, `N` the nodes
    they hold, `K` the comparisons done to build them. Bucket chains are related by `R` to a contiguous part
    of the input. -/
inductive BucketsC (R : Nat → List Ptr → List Ptr → Nat → Prop) (h : Heap) (bit : Bits) :
    Nat → Nat → List Ptr → List Ptr → Nat → Prop
  | zero (i) : BucketsC R h bit i 0 [] [] 0
  | even {i m P N K} : BucketsC R h bit (i + 1) m P N K → BucketsC R h bit i (2 * m) P N K
  | odd {i m P N K c xs ys a} : BucketsC R h bit (i + 1) m P N K → bit i = some c → IsChain h c ys →
      R i xs ys a → BucketsC R h bit i (2 * m + 1) (P ++ xs) (N ++ ys) (K + a)

variable {R : Nat → List Ptr → List Ptr → Nat → Prop}

omit [Arch] in
theorem BucketsC.frame {h h' : Heap} {bit bit' : Bits} {S : Ptr → Prop} {i mask : Nat} {P N : List Ptr} {K : Nat}
    (b : BucketsC R h bit i mask P N K) (fr : Frame h h' S) (hd : ∀ x ∈ N, ¬ S x) (j : Nat)
    (hb : ∀ k, i ≤ k → k < j → bit' k = bit k) (hm : mask * 2 ^ i < 2 ^ j) :
    BucketsC R h' bit' i mask P N K := by
  induction b with
  | zero i => exact .zero i
  | @even i m P N K b ih =>
    refine .even (ih hd (fun k hk => hb k (by omega)) ?_)
    rw [Nat.pow_succ]; have : m * (2 ^ i * 2) = 2 * m * 2 ^ i := by ring
    omega
  | @odd i m P N K c xs ys a b hc ic r ih =>
    have hij : i < j := by
      have h1 : 1 * 2 ^ i ≤ (2 * m + 1) * 2 ^ i := Nat.mul_le_mul_right _ (by omega)
      exact (Nat.pow_lt_pow_iff_right (by omega : 1 < 2)).1 (by omega)
    refine .odd (ih (fun x hx => hd x (by simp [hx])) (fun k hk => hb k (by omega)) ?_)
      ((hb i (by omega) hij).trans hc) (ic.frame fr (fun x hx => hd x (by simp [hx]))) r
    rw [Nat.pow_succ]; have : m * (2 ^ i * 2) = 2 * m * 2 ^ i := by ring
    have : 2 * m * 2 ^ i ≤ (2 * m + 1) * 2 ^ i := Nat.mul_le_mul_right _ (by omega)
    omega

theorem chainCarryLoopC_spec (cmp : Nat → Nat → Int) (d : Ptr → Nat)
    (hR : ∀ i xs ys xs' ys' a b, R i xs ys a → R i xs' ys' b →
      R (i + 1) (xs ++ xs') (mergeD cmp d ys ys') (a + b + mergeDN cmp d ys ys')) (mask : Nat) :
    ∀ {h : Heap} {bit : Bits} {i : Nat} {P N : List Ptr} {K a : Nat} {last : Chain} {xs ys : List Ptr},
    BucketsC R h bit i mask P N K → IsChain h last ys → R i xs ys a → (N ++ ys).Nodup → h.data = d →
    (mask + 1) * 2 ^ i < 2 ^ sizeBit →
    ∃ bit' i' last' h' N' K', chainCarryLoopC cmp bit mask i last (K + a) h = some (((bit', i', last'), K'), h') ∧
      i' < sizeBit ∧
      BucketsC R h' (upd bit' i' (some last')) i (mask + 1) (P ++ xs) N' K' ∧
      N'.Perm (N ++ ys) ∧ h'.data = h.data ∧ Frame h h' (fun z => z ∈ N ++ ys) := by
  induction mask using Nat.strong_induction_on with
  | _ mask ih =>
  intro h bit i P N K a last xs ys b il r nd hd hm
  have hi : i < sizeBit := by
    have h1 : 1 * 2 ^ i ≤ (mask + 1) * 2 ^ i := Nat.mul_le_mul_right _ (by omega)
    exact (Nat.pow_lt_pow_iff_right (by omega : 1 < 2)).1 (by omega)
  have heven : ∀ m, mask = 2 * m → BucketsC R h bit (i + 1) m P N K → 
      ∃ bit' i' last' h' N' K', chainCarryLoopC cmp bit mask i last (K + a) h = some (((bit', i', last'), K'), h') ∧
      i' < sizeBit ∧
      BucketsC R h' (upd bit' i' (some last')) i (mask + 1) (P ++ xs) N' K' ∧
      N'.Perm (N ++ ys) ∧ h'.data = h.data ∧ Frame h h' (fun z => z ∈ N ++ ys) := by
    intro m em b0
    refine ⟨bit, i, last, h, N ++ ys, K + a, ?_, hi, ?_, List.Perm.refl _, rfl, Frame.refl _ _⟩
    · rw [chainCarryLoopC]
      have : mask &&& 1 = 0 := by rw [Nat.and_one_is_mod]; omega
      simp [this]
    · subst em
      refine .odd (b0.frame (S := fun _ => False) (Frame.refl _ _) (by simp) sizeBit ?_ ?_) (by simp) il r
      · intro k hk hk2; exact upd_ne (by omega)
      · rw [Nat.pow_succ]; have : m * (2 ^ i * 2) = 2 * m * 2 ^ i := by ring
        have : 2 * m * 2 ^ i ≤ (2 * m + 1) * 2 ^ i := Nat.mul_le_mul_right _ (by omega)
        omega
  cases b with
  | zero => exact heven 0 rfl (.zero _)
  | @even _ m _ _ _ b => exact heven m rfl b
  | @odd _ m P N K c xs0 ys0 a0 b hc ic r0 =>
    have nd' : (N ++ (ys0 ++ ys)).Nodup := by simpa using nd
    have nd2 := List.nodup_append.1 nd'
    obtain ⟨c', h1, e1, ic1, hd1, fr1⟩ := chainMergeDegeneratedC_spec cmp ic il nd2.2.1 (K + a0 + a)
    have hpm := mergeD_perm cmp h.data ys0 ys
    have b1 : BucketsC R h1 (upd bit i (some c')) (i + 1) m P N K := by
      refine b.frame fr1 ?_ sizeBit ?_ ?_
      · intro x hx hx2; exact nd2.2.2 x hx x hx2 rfl
      · intro k hk hk2; exact upd_ne (by omega)
      · rw [Nat.pow_succ]; have : m * (2 ^ i * 2) = 2 * m * 2 ^ i := by ring
        have : 2 * m * 2 ^ i ≤ (2 * m + 1 + 1) * 2 ^ i := Nat.mul_le_mul_right _ (by omega)
        omega
    have hmm : (m + 1) * 2 ^ (i + 1) = (2 * m + 1 + 1) * 2 ^ i := by rw [Nat.pow_succ]; ring
    obtain ⟨bit', i', last', h', N', K', e', hi', b', hp', hd', fr'⟩ := ih m (by omega) b1 ic1
      (by rw [hd]; exact hR _ _ _ _ _ _ _ r0 r)
      ((List.Perm.append_left N hpm).symm.nodup nd') (hd1.trans hd) (by omega)
    refine ⟨bit', i', last', h', N', K', ?_, hi', ?_, ?_, hd'.trans hd1, ?_⟩
    · rw [← hd, ← Nat.add_assoc, ← Nat.add_assoc] at e'
      rw [chainCarryLoopC]
      have h1 : (2 * m + 1) &&& 1 = 1 := by rw [Nat.and_one_is_mod]; omega
      have h2 : (2 * m + 1) >>> 1 = m := by rw [Nat.shiftRight_eq_div_pow]; omega
      simp only [h1, h2, ne_eq, Nat.one_ne_zero, not_false_eq_true, if_true, run_bind,
        bitGet_run (by omega : i < sizeBit + 1) hc, Option.bind_some, e1, bitSet_run (by omega : i < sizeBit + 1), e']
    · have : 2 * m + 1 + 1 = 2 * (m + 1) := by omega
      rw [this, List.append_assoc]
      exact .even b'
    · rw [List.append_assoc]
      exact hp'.trans (List.Perm.append_left N hpm)
    · rw [List.append_assoc]
      refine Frame.trans (fr1.mono ?_) (fr'.mono ?_)
      · intro z hz; exact List.mem_append_right _ hz
      · intro z hz; exact (List.Perm.append_left N hpm).mem_iff.1 hz

theorem chainSortLoopC_spec (cmp : Nat → Nat → Int) (d : Ptr → Nat)
    (hR1 : ∀ x, R 0 [x] [x] 0)
    (hR : ∀ i xs ys xs' ys' a b, R i xs ys a → R i xs' ys' b →
      R (i + 1) (xs ++ xs') (mergeD cmp d ys ys') (a + b + mergeDN cmp d ys ys')) :
    ∀ (rest : List Ptr) (h : Heap) (bit : Bits) (counter K : Nat) (P N : List Ptr) (x p n : Ptr)
      (tail : Ptr),
    BucketsC R h bit 0 counter P N K → Seg h p (x :: rest) n → (∀ y ∈ x :: rest, h.ok y) →
    (N ++ x :: rest).Nodup → h.data = d → tail = rest.getLastD x →
    counter + (x :: rest).length < 2 ^ sizeBit →
    ∃ bit' h' N' K', chainSortLoopC cmp tail bit counter x K h
        = some (((bit', counter + (x :: rest).length), K'), h') ∧
      BucketsC R h' bit' 0 (counter + (x :: rest).length) (P ++ x :: rest) N' K' ∧
      N'.Perm (N ++ x :: rest) ∧ h'.data = h.data ∧ Frame h h' (fun z => z ∈ N ++ x :: rest) := by
  intro rest
  induction rest with
  | nil | cons y rest ih =>
    intro h bit counter K P N x p n tail b s ok nd hd ht hlen
    have okx : h.ok x := ok x (by simp)
    have nd1 := List.nodup_append.1 nd
    have b1 : BucketsC R h (upd bit sizeBit (some ⟨x, x⟩)) 0 counter P N K := by
      refine b.frame (S := fun _ => False) (Frame.refl _ _) (by simp) sizeBit ?_ ?_
      · intro k _ hk; exact upd_ne (by omega)
      · simp at hlen ⊢; omega
    obtain ⟨bit', i', last', h', N', K', e', hi', b', hp', hd', fr'⟩ :=
      chainCarryLoopC_spec cmp d hR counter b1 (IsChain.singleton okx) (hR1 x)
        (by
          rw [List.nodup_append]
          refine ⟨nd1.1, by simp, ?_⟩
          intro a ha c hc
          simp only [List.mem_singleton] at hc; subst hc
          exact nd1.2.2 a ha c (by simp)) hd (by simp at hlen ⊢; omega)
    rw [Nat.add_zero] at e'
    rw [chainSortLoopC]
    simp only [run_bind, bitSet_run (by omega : sizeBit < sizeBit + 1), Option.bind_some, getNext_run okx, e',
      bitSet_run (by omega : i' < sizeBit + 1), run_ite, run_pure]
    first
    | (have hxt : x = tail := by rw [ht]; rfl
       rw [if_pos hxt]
       exact ⟨_, h', N', K', rfl, b', hp', hd', fr'⟩)
    | (have hxt : x ≠ tail := by
        rw [ht]
        simp only [List.getLastD_cons]
        intro he
        have : rest.getLastD y ∈ y :: rest := by
          rcases getLastD_mem_or (xs := rest) (d := y) with h | h
          · rw [h.2]; simp
          · exact List.mem_cons_of_mem _ h
        exact (List.nodup_cons.1 nd1.2.1).1 (he ▸ this)
       rw [if_neg hxt]
       have hnx : h.next x = y := s.2.1
       rw [hnx]
       have hdis : ∀ z ∈ y :: rest, ¬ z ∈ N ++ [x] := by
         intro z hz hm
         rcases List.mem_append.1 hm with hm | hm
         · exact nd1.2.2 z hm z (List.mem_cons_of_mem _ hz) rfl
         · simp only [List.mem_singleton] at hm
           subst hm
           exact (List.nodup_cons.1 nd1.2.1).1 hz
       have hpN : (N' ++ y :: rest).Perm (N ++ x :: y :: rest) := by
         have := List.Perm.append_right (y :: rest) hp'
         simpa using this
       obtain ⟨bit2, h2, N2, K2, e2, b2, hp2, hd2, fr2⟩ := ih h' (upd bit' i' (some last')) (counter + 1) K'
         (P ++ [x]) N' y x n tail b'
         (seg_congr (fun z hz => fr'.next z (hdis z hz)) (fun z hz => fr'.prev z (hdis z hz)) s.2.2)
         (fun z hz => (fr'.ok z).2 (ok z (List.mem_cons_of_mem _ hz)))
         (hpN.symm.nodup nd) (hd'.trans hd) (by rw [ht, List.getLastD_cons])
         (by simp at hlen ⊢; omega)
       have hl : counter + 1 + (y :: rest).length = counter + (x :: y :: rest).length := by
         simp; omega
       rw [hl] at e2 b2
       refine ⟨bit2, h2, N2, K2, e2, by simpa using b2, hp2.trans hpN, hd2.trans hd', ?_⟩
       refine Frame.trans (fr'.mono ?_) (fr2.mono ?_)
       · intro z hz; simp at hz ⊢; tauto
       · intro z hz; exact hpN.mem_iff.1 hz)

variable {F : Nat → List Ptr → List Ptr → Nat → Prop}

theorem chainFinalLoopC_spec (cmp : Nat → Nat → Int) (d : Ptr → Nat)
    (hF1 : ∀ i xs ys a, F i xs ys a → F (i + 1) xs ys a)
    (hF : ∀ i xs ys xs' ys' a b, R (i + 1) xs ys a → F i xs' ys' b →
      F (i + 1) (xs ++ xs') (mergeD cmp d ys ys') (a + b + mergeDN cmp d ys ys')) (mask : Nat) :
    ∀ {h : Heap} {bit : Bits} {i : Nat} {P N : List Ptr} {K a : Nat} {c : Chain} {xs ys : List Ptr},
    0 < mask → BucketsC R h bit (i + 1) (mask / 2) P N K → bit i = some c → IsChain h c ys → F i xs ys a →
    (N ++ ys).Nodup → h.data = d → mask * 2 ^ i < 2 ^ sizeBit →
    ∃ c' h' ys' K' j, chainFinalLoopC cmp bit mask i (K + a) h = some ((c', K'), h') ∧ 2 ^ j ≤ mask * 2 ^ i ∧ IsChain h' c' ys' ∧
      F j (P ++ xs) ys' K' ∧ ys'.Perm (N ++ ys) ∧ h'.data = h.data ∧
      Frame h h' (fun z => z ∈ N ++ ys) := by
  induction mask using Nat.strong_induction_on with
  | _ mask ih =>
  intro h bit i P N K a c xs ys hpos b hc ic r nd hd hm
  have hi : i < sizeBit := by
    have h1 : 1 * 2 ^ i ≤ mask * 2 ^ i := Nat.mul_le_mul_right _ (by omega)
    exact (Nat.pow_lt_pow_iff_right (by omega : 1 < 2)).1 (by omega)
  rw [chainFinalLoopC]
  by_cases h1 : mask = 1
  · subst h1
    have : P = [] ∧ N = [] ∧ K = 0 := by
      have hb : ∀ {m i P N K}, BucketsC R h bit i m P N K → m = 0 → P = [] ∧ N = [] ∧ K = 0 := by
        intro m i P N K b
        induction b with
        | zero => simp
        | even b ih => intro h; exact ih (by omega)
        | odd => intro h; omega
      exact hb b rfl
    obtain ⟨rfl, rfl, rfl⟩ := this
    exact ⟨c, h, ys, a, i, by simp [bitGet_run (by omega : i < sizeBit + 1) hc], by simp, ic, by simpa using r,
      by simp, rfl, Frame.refl _ _⟩
  · have hsh : mask >>> 1 = mask / 2 := by rw [Nat.shiftRight_eq_div_pow]
    simp only [ne_eq, h1, not_false_eq_true, if_true, run_bind, bitGet_run (by omega : i < sizeBit + 1) hc,
      Option.bind_some, hsh, run_ite, Nat.and_one_is_mod]
    have hm2 : (mask / 2) * 2 ^ (i + 1) < 2 ^ sizeBit := by
      have e : (mask / 2) * 2 ^ (i + 1) = (2 * (mask / 2)) * 2 ^ i := by rw [Nat.pow_succ]; ring
      have : (2 * (mask / 2)) * 2 ^ i ≤ mask * 2 ^ i := Nat.mul_le_mul_right _ (by omega)
      omega
    have hle : (mask / 2) * 2 ^ (i + 1) ≤ mask * 2 ^ i := by
      have e : (mask / 2) * 2 ^ (i + 1) = (2 * (mask / 2)) * 2 ^ i := by rw [Nat.pow_succ]; ring
      rw [e]; exact Nat.mul_le_mul_right _ (by omega)
    have hm0 : 0 < mask / 2 := by omega
    generalize hmk : mask / 2 = mk at *
    have heven : ∀ m, mk = 2 * m → BucketsC R h bit (i + 1 + 1) m P N K →
        ∃ c' h' ys' K' j, chainFinalLoopC cmp (upd bit (i + 1) (some c)) mk (i + 1) (K + a) h = some ((c', K'), h') ∧
          2 ^ j ≤ mk * 2 ^ (i + 1) ∧
          IsChain h' c' ys' ∧ F j (P ++ xs) ys' K' ∧ ys'.Perm (N ++ ys) ∧ h'.data = h.data ∧
          Frame h h' (fun z => z ∈ N ++ ys) := by
      intro m hmk' b
      refine ih mk (by omega) hm0 ?_ (by simp) ic (hF1 _ _ _ _ r) nd hd hm2
      have e : mk / 2 = m := by omega
      rw [e]
      refine b.frame (S := fun _ => False) (Frame.refl _ _) (by simp) sizeBit ?_ ?_
      · intro k hk _; exact upd_ne (by omega)
      · have : m * 2 ^ (i + 1 + 1) = 2 * m * 2 ^ (i + 1) := by rw [Nat.pow_succ _ (i + 1)]; ring
        rw [this, ← hmk']; exact hm2
    have hi1 : i + 1 < sizeBit := by
      have h1 : 1 * 2 ^ (i + 1) ≤ mk * 2 ^ (i + 1) := Nat.mul_le_mul_right _ (by omega)
      exact (Nat.pow_lt_pow_iff_right (by omega : 1 < 2)).1 (by omega)
    cases b with
    | zero => omega
    | @even _ m _ _ _ b =>
      have : 2 * m % 2 = 0 := by omega
      simp only [this, not_true_eq_false, if_false, bitSet_run (by omega : i + 1 < sizeBit + 1), Option.bind_some]
      obtain ⟨c', h', ys', K', j, e', hj, rest⟩ := heven m rfl b
      exact ⟨c', h', ys', K', j, e', hj.trans hle, rest⟩
    | @odd _ m P N K c1 xs1 ys1 a1 b hc1 ic1 r1 =>
      have e2 : (2 * m + 1) % 2 = 1 := by omega
      have nd' : (N ++ (ys1 ++ ys)).Nodup := by simpa using nd
      have nd2 := List.nodup_append.1 nd'
      obtain ⟨c', h1, e1, icm, hd1, fr1⟩ := chainMergeDegeneratedC_spec cmp ic1 ic nd2.2.1 (K + a1 + a)
      have hpm := mergeD_perm cmp h.data ys1 ys
      simp only [e2, Nat.one_ne_zero, not_false_eq_true, if_true,
        bitGet_run (by omega : i + 1 < sizeBit + 1) hc1, Option.bind_some, e1,
        bitSet_run (by omega : i + 1 < sizeBit + 1)]
      have b1 : BucketsC R h1 (upd bit (i + 1) (some c')) (i + 1 + 1) ((2 * m + 1) / 2) P N K := by
        have e : (2 * m + 1) / 2 = m := by omega
        rw [e]
        refine b.frame fr1 ?_ sizeBit ?_ ?_
        · intro x hx hx2; exact nd2.2.2 x hx x hx2 rfl
        · intro k hk _; exact upd_ne (by omega)
        · have e3 : m * 2 ^ (i + 1 + 1) = 2 * m * 2 ^ (i + 1) := by rw [Nat.pow_succ _ (i + 1)]; ring
          have : 2 * m * 2 ^ (i + 1) ≤ (2 * m + 1) * 2 ^ (i + 1) := Nat.mul_le_mul_right _ (by omega)
          omega
      obtain ⟨c2, h2, ys2, K2, j, ee, hj, icc, rr, pp, hd2, fr2⟩ := ih (2 * m + 1) (by omega) hm0 b1 (by simp) icm
        (by rw [hd]; exact hF _ _ _ _ _ _ _ r1 r)
        ((List.Perm.append_left N hpm).symm.nodup nd') (hd1.trans hd) hm2
      rw [← hd, ← Nat.add_assoc, ← Nat.add_assoc] at ee
      refine ⟨c2, h2, ys2, K2, j, ee, hj.trans hle, icc, by simpa using rr, ?_, hd2.trans hd1, ?_⟩
      · rw [List.append_assoc]
        exact pp.trans (List.Perm.append_left N hpm)
      · rw [List.append_assoc]
        refine Frame.trans (fr1.mono ?_) (fr2.mono ?_)
        · intro z hz; exact List.mem_append_right _ hz
        · intro z hz; exact (List.Perm.append_left N hpm).mem_iff.1 hz

omit [Arch] in
/-- The lowest used bucket. -/
theorem BucketsC.ctz {h : Heap} {bit : Bits} (m : Nat) : ∀ {i : Nat} {P N : List Ptr} {K : Nat},
    0 < m → BucketsC R h bit i m P N K →
    ∃ P' N' K' a c xs ys, BucketsC R h bit (i + ctz m + 1) ((m >>> Tommy.ctz m) / 2) P' N' K' ∧
      bit (i + Tommy.ctz m) = some c ∧ IsChain h c ys ∧ R (i + Tommy.ctz m) xs ys a ∧ P = P' ++ xs ∧ N = N' ++ ys ∧ K = K' + a ∧
      0 < m >>> Tommy.ctz m ∧ (m >>> Tommy.ctz m) * 2 ^ (i + Tommy.ctz m) = m * 2 ^ i := by
  induction m using Nat.strong_induction_on with
  | _ m ih =>
  intro i P N K hpos b
  cases b with
  | zero => omega
  | @even _ m _ _ _ b =>
    obtain ⟨P', N', K', a, c, xs, ys, h1, h2, h3, h4, h5, h6, h9, h7, h8⟩ := ih m (by omega) (by omega) b
    have e : Tommy.ctz (2 * m) = Tommy.ctz m + 1 := by
      conv_lhs => unfold Tommy.ctz
      have h0 : ¬ (2 * m = 0) := by omega
      have h1 : ¬ (2 * m % 2 = 1) := by omega
      have h2 : 2 * m / 2 = m := by omega
      rw [dif_neg h0, if_neg h1, h2]; omega
    have e2 : (2 * m) >>> (Tommy.ctz m + 1) = m >>> Tommy.ctz m := by
      rw [Nat.add_comm, Nat.shiftRight_add]
      congr 1
      rw [Nat.shiftRight_eq_div_pow]; omega
    rw [e, e2]
    have e3 : i + (Tommy.ctz m + 1) = i + 1 + Tommy.ctz m := by omega
    rw [e3]
    refine ⟨P', N', K', a, c, xs, ys, h1, h2, h3, h4, h5, h6, h9, h7, ?_⟩
    rw [h8, Nat.pow_succ]; ring
  | @odd _ m P N K c xs ys a b hc ic r =>
    have e : Tommy.ctz (2 * m + 1) = 0 := by
      unfold Tommy.ctz
      have h0 : ¬ (2 * m + 1 = 0) := by omega
      have h1 : (2 * m + 1) % 2 = 1 := by omega
      rw [dif_neg h0, if_pos h1]
    rw [e]
    refine ⟨P, N, K, a, c, xs, ys, ?_, hc, ic, r, rfl, rfl, rfl, by simp, by simp⟩
    have : (2 * m + 1) >>> 0 / 2 = m := by simp; omega
    rw [this]; exact b

theorem chainMergesortC_spec (cmp : Nat → Nat → Int) {h : Heap} {c : Chain} {xs : List Ptr}
    (hR1 : ∀ x, R 0 [x] [x] 0)
    (hR : ∀ i xs ys xs' ys' a b, R i xs ys a → R i xs' ys' b →
      R (i + 1) (xs ++ xs') (mergeD cmp h.data ys ys') (a + b + mergeDN cmp h.data ys ys'))
    (hF0 : ∀ i xs ys a, R i xs ys a → F i xs ys a)
    (hF1 : ∀ i xs ys a, F i xs ys a → F (i + 1) xs ys a)
    (hF : ∀ i xs ys xs' ys' a b, R (i + 1) xs ys a → F i xs' ys' b →
      F (i + 1) (xs ++ xs') (mergeD cmp h.data ys ys') (a + b + mergeDN cmp h.data ys ys'))
    (hc : IsChain h c xs) (hlen : xs.length < 2 ^ sizeBit) :
    ∃ c' h' ys k j, chainMergesortC cmp c 0 h = some ((c', k), h') ∧ 2 ^ j ≤ xs.length ∧ IsChain h' c' ys ∧
      F j xs ys k ∧ ys.Perm xs ∧
      h'.data = h.data ∧ Frame h h' (fun z => z ∈ xs) := by
  obtain ⟨x, rest, rfl⟩ := List.exists_cons_of_ne_nil hc.ne
  obtain ⟨p, n, s⟩ := hc.seg
  have hh : c.head = x := hc.head
  obtain ⟨bit', h1, N', K1, e1, b1, hp1, hd1, fr1⟩ := chainSortLoopC_spec cmp h.data hR1 hR rest h
    (fun _ => none) 0 0 [] [] x p n c.tail (.zero 0) s hc.ok (by simpa using hc.nodup) rfl
    (by rw [hc.tail, List.getLastD_cons]) (by simpa using hlen)
  simp only [Nat.zero_add] at e1 b1
  simp only [List.nil_append] at b1 hp1 fr1
  unfold chainMergesortC
  simp only [run_bind, hh, e1, Option.bind_some]
  obtain ⟨P2, N2, K2, a2, c2, xs2, ys2, g1, g2, g3, g4, g5, g6, g9, g7, g8⟩ := b1.ctz _ (by simp)
  rw [Nat.zero_add] at g1 g2 g4 g8
  obtain ⟨c', h', ys', k, j, e', hj, ic, rr, pp, hd', fr'⟩ := chainFinalLoopC_spec cmp h.data hF1 hF _ g7 g1 g2 g3
    (hF0 _ _ _ _ g4)
    (by rw [← g6]; exact hp1.symm.nodup hc.nodup) hd1 (by rw [g8]; simpa using hlen)
  rw [← g9] at e'
  refine ⟨c', h', ys', k, j, e', by rw [g8] at hj; simpa using hj, ic, by rw [g5]; exact rr, pp.trans (g6 ▸ hp1), hd'.trans hd1, ?_⟩
  refine Frame.trans fr1 (fr'.mono ?_)
  intro z hz
  rw [← g6] at hz
  exact hp1.mem_iff.1 hz

theorem listSortC_spec (cmp : Nat → Nat → Int) {h : Heap} {l : Ptr} {xs : List Ptr}
    (hR1 : ∀ x, R 0 [x] [x] 0)
    (hR : ∀ i xs ys xs' ys' a b, R i xs ys a → R i xs' ys' b →
      R (i + 1) (xs ++ xs') (mergeD cmp h.data ys ys') (a + b + mergeDN cmp h.data ys ys'))
    (hF0 : ∀ i xs ys a, R i xs ys a → F i xs ys a)
    (hF1 : ∀ i xs ys a, F i xs ys a → F (i + 1) xs ys a)
    (hF : ∀ i xs ys xs' ys' a b, R (i + 1) xs ys a → F i xs' ys' b →
      F (i + 1) (xs ++ xs') (mergeD cmp h.data ys ys') (a + b + mergeDN cmp h.data ys ys'))
    (hl : IsList h l xs) (hlen : xs.length < 2 ^ sizeBit) :
    ∃ l' h' ys k, listSortC l cmp h = some ((l', k), h') ∧ IsList h' l' ys ∧
      (xs = [] ∧ k = 0 ∨ ∃ j, 2 ^ j ≤ xs.length ∧ F j xs ys k) ∧ ys.Perm xs ∧
      h'.data = h.data ∧ Frame h h' (fun z => z ∈ xs) := by
  unfold listSortC listEmpty listHead
  by_cases hne : xs = []
  · subst hne
    have h0 : l = 0 := hl.head
    subst h0
    exact ⟨0, h, [], 0, by simp, IsList.nil h, .inl ⟨rfl, rfl⟩, by simp, rfl, Frame.refl _ _⟩
  · have h0 : l ≠ 0 := fun e => hne (hl.eq_zero_iff.1 e)
    have ic : IsChain h ⟨l, xs.getLastD 0⟩ xs :=
      ⟨hne, hl.head, rfl, hl.ok, hl.nodup, _, _, hl.seg⟩
    obtain ⟨c', h', ys, k, j, e', hj, ic', r, pm, hd', fr⟩ := chainMergesortC_spec cmp hR1 hR hF0 hF1 hF ic hlen
    have hne' := ic'.ne
    have hho : h'.ok c'.head := by
      obtain ⟨b', u, rfl⟩ := List.exists_cons_of_ne_nil hne'
      rw [ic'.head]; exact ic'.ok _ (by simp)
    have hto : h'.ok c'.tail := by
      obtain ⟨t, a', rfl⟩ := exists_concat hne'
      rw [ic'.tail]; exact ic'.ok _ (by simp)
    refine ⟨c'.head, { h' with prev := upd h'.prev c'.head c'.tail, next := upd h'.next c'.tail 0 }, ys, k,
      ?_, ?_, .inr ⟨j, hj, r⟩, pm, hd', ?_⟩
    · have hb : (l == 0) = false := by simpa using h0
      simp [hb, getPrev_run (hl.headD_ok hne), hl.prev_head hne]
      simp at e'
      simp [e', listSet, setPrev_run, setNext_run, hho, hto]
    · refine ⟨ic'.head, ic'.ok, ic'.nodup, ?_⟩
      obtain ⟨p, n, s⟩ := ic'.seg
      have s1 : Seg { h' with prev := upd h'.prev c'.head c'.tail } c'.tail ys n := by
        have hhd := ic'.head
        have hnd := ic'.nodup
        obtain ⟨b', u, rfl⟩ := List.exists_cons_of_ne_nil hne'
        simp only [List.headD_cons] at hhd
        rw [hhd]
        refine seg_change_prev (h := h') (fun _ _ => rfl) ?_ (by simp) s
        intro z hz
        exact upd_ne (fun e => (List.nodup_cons.1 hnd).1 (e ▸ hz))
      rw [← ic'.tail]
      have htl := ic'.tail
      have hnd := ic'.nodup
      obtain ⟨t, a', rfl⟩ := exists_concat hne'
      have hta : c'.tail = a' := by rw [htl]; simp
      rw [hta] at s1 ⊢
      refine seg_change_next (h := { h' with prev := upd h'.prev c'.head a' }) ?_ (fun _ _ => rfl) (by simp) s1
      intro z hz
      refine upd_ne ?_
      rintro rfl
      exact (List.nodup_append.1 hnd).2.2 z hz z (by simp) rfl
    · have mh : c'.head ∈ xs := by
        refine pm.mem_iff.1 ?_
        obtain ⟨b', u, rfl⟩ := List.exists_cons_of_ne_nil hne'
        rw [ic'.head]; simp
      have mt : c'.tail ∈ xs := by
        refine pm.mem_iff.1 ?_
        obtain ⟨t, a', rfl⟩ := exists_concat hne'
        rw [ic'.tail]; simp
      refine fr.trans ⟨rfl, rfl, fun q hq => upd_ne ?_, fun q hq => upd_ne ?_⟩
      · rintro rfl; exact hq mt
      · rintro rfl; exact hq mh

/-- The number of comparisons never exceeds `n * (log2 n + 3)`. -/
theorem listSortC_bound (cmp : Nat → Nat → Int) {h : Heap} {l : Ptr} {xs : List Ptr}
    (hl : IsList h l xs) (hlen : xs.length < 2 ^ sizeBit) :
    ∃ l' h' ys k, listSortC l cmp h = some ((l', k), h') ∧ IsList h' l' ys ∧ ys.Perm xs ∧
      k ≤ xs.length * (Nat.log2 xs.length + 3) ∧ h'.data = h.data ∧ Frame h h' (fun z => z ∈ xs) := by
  have hmd : ∀ ys ys', 0 < ys.length → mergeDN cmp h.data ys ys' ≤ ys.length + ys'.length + 1 := by
    intro ys ys' hp
    have := mergeN_le cmp h.data ys ys'
    unfold mergeDN
    split
    · omega
    · split <;> omega
  obtain ⟨l', h', ys, k, e, il, hk, pm, hd, fr⟩ := listSortC_spec cmp
    (R := fun i xs ys a => xs.length = 2 ^ i ∧ ys.length = 2 ^ i ∧ a + 1 ≤ (i + 1) * 2 ^ i)
    (F := fun i xs ys a => ys.length = xs.length ∧ a ≤ xs.length * (i + 3))
    (by simp)
    (by
      rintro i xs ys xs' ys' a b ⟨h1, h2, h3⟩ ⟨h4, h5, h6⟩
      have := hmd ys ys' (by rw [h2]; exact Nat.two_pow_pos _)
      have hp := (mergeD_perm cmp h.data ys ys').length_eq
      rw [List.length_append] at hp ⊢
      have e : (i + 1 + 1) * 2 ^ (i + 1) = 2 * ((i + 1) * 2 ^ i) + 2 * 2 ^ i := by rw [Nat.pow_succ]; ring
      rw [Nat.pow_succ] at e ⊢
      omega)
    (by
      rintro i xs ys a ⟨h1, h2, h3⟩
      refine ⟨by omega, ?_⟩
      rw [h1, Nat.mul_comm]
      have : (i + 1) * 2 ^ i ≤ (i + 3) * 2 ^ i := Nat.mul_le_mul_right _ (by omega)
      omega)
    (by
      rintro i xs ys a ⟨h1, h2⟩
      exact ⟨h1, h2.trans (Nat.mul_le_mul_left _ (by omega))⟩)
    (by
      rintro i xs ys xs' ys' a b ⟨h1, h2, h3⟩ ⟨h4, h5⟩
      have := hmd ys ys' (by rw [h2]; exact Nat.two_pow_pos _)
      have hp := (mergeD_perm cmp h.data ys ys').length_eq
      rw [List.length_append] at hp
      refine ⟨by rw [List.length_append]; omega, ?_⟩
      rw [List.length_append, h1, Nat.add_mul]
      have e1 : 2 ^ (i + 1) * (i + 1 + 3) = (i + 1 + 1) * 2 ^ (i + 1) + 2 * 2 ^ (i + 1) := by ring
      have e2 : xs'.length * (i + 1 + 3) = xs'.length * (i + 3) + xs'.length := by ring
      omega)
    hl hlen
  refine ⟨l', h', ys, k, e, il, pm, ?_, hd, fr⟩
  rcases hk with ⟨rfl, rfl⟩ | ⟨j, hj, -, hk⟩
  · simp
  · refine hk.trans (Nat.mul_le_mul_left _ (Nat.add_le_add_right ((Nat.le_log2 ?_).2 hj) 3))
    rintro h0; rw [h0] at hj; simp at hj

omit [Arch] in
theorem getLastD_mem' {xs : List Ptr} (h : xs ≠ []) : xs.getLastD 0 ∈ xs := by
  obtain ⟨t, a, rfl⟩ := exists_concat h; simp

omit [Arch] in
theorem headD_mem' {xs : List Ptr} (h : xs ≠ []) : xs.headD 0 ∈ xs := by
  obtain ⟨a, t, rfl⟩ := List.exists_cons_of_ne_nil h; simp

/-- On an ordered list the number of comparisons is `n - 1`, and the list stays as it is. -/
theorem listSortC_ordered (cmp : Nat → Nat → Int) {h : Heap} {l : Ptr} {xs : List Ptr}
    (hl : IsList h l xs) (hlen : xs.length < 2 ^ sizeBit)
    (hs : xs.Pairwise (fun a b => cmp (h.data a) (h.data b) ≤ 0)) :
    ∃ l' h', listSortC l cmp h = some ((l', xs.length - 1), h') ∧ IsList h' l' xs ∧
      h'.data = h.data ∧ Frame h h' (fun z => z ∈ xs) := by
  have key : ∀ xs ys xs' ys' a b,
      (xs ≠ [] ∧ (xs.Pairwise (fun a b => cmp (h.data a) (h.data b) ≤ 0) → ys = xs ∧ a + 1 = xs.length)) →
      (xs' ≠ [] ∧ (xs'.Pairwise (fun a b => cmp (h.data a) (h.data b) ≤ 0) → ys' = xs' ∧ b + 1 = xs'.length)) →
      (xs ++ xs' ≠ [] ∧ ((xs ++ xs').Pairwise (fun a b => cmp (h.data a) (h.data b) ≤ 0) →
        mergeD cmp h.data ys ys' = xs ++ xs' ∧ a + b + mergeDN cmp h.data ys ys' + 1 = (xs ++ xs').length)) := by
    rintro xs ys xs' ys' a b ⟨n1, h1⟩ ⟨n2, h2⟩
    refine ⟨by simp [n1], fun hp => ?_⟩
    obtain ⟨p1, p2, p3⟩ := List.pairwise_append.1 hp
    obtain ⟨rfl, e1⟩ := h1 p1
    obtain ⟨rfl, e2⟩ := h2 p2
    have hc := p3 _ (getLastD_mem' n1) _ (headD_mem' n2)
    rw [mergeD, mergeDN, if_pos hc, if_pos hc, List.length_append]
    exact ⟨rfl, by omega⟩
  obtain ⟨l', h', ys, k, e, il, hk, pm, hd, fr⟩ := listSortC_spec cmp
    (R := fun _ xs ys a => xs ≠ [] ∧
      (xs.Pairwise (fun a b => cmp (h.data a) (h.data b) ≤ 0) → ys = xs ∧ a + 1 = xs.length))
    (F := fun _ xs ys a => xs ≠ [] ∧
      (xs.Pairwise (fun a b => cmp (h.data a) (h.data b) ≤ 0) → ys = xs ∧ a + 1 = xs.length))
    (by simp) (fun _ => key) (fun _ _ _ _ h => h) (fun _ _ _ _ h => h) (fun _ => key) hl hlen
  rcases hk with ⟨rfl, rfl⟩ | ⟨j, hj, -, hk⟩
  · have := pm.eq_nil
    subst this
    exact ⟨l', h', e, il, hd, fr⟩
  · obtain ⟨rfl, e1⟩ := hk hs
    have : ys.length - 1 = k := by omega
    rw [this]
    exact ⟨l', h', e, il, hd, fr⟩

/-- On a list in strictly decreasing order the number of comparisons is `2 * (n - 1)`, and the list is reversed. -/
theorem listSortC_decreasing (cmp : Nat → Nat → Int) {h : Heap} {l : Ptr} {xs : List Ptr}
    (hl : IsList h l xs) (hlen : xs.length < 2 ^ sizeBit)
    (hs : xs.Pairwise (fun a b => cmp (h.data a) (h.data b) > 0 ∧ cmp (h.data b) (h.data a) < 0)) :
    ∃ l' h', listSortC l cmp h = some ((l', 2 * (xs.length - 1)), h') ∧ IsList h' l' xs.reverse ∧
      h'.data = h.data ∧ Frame h h' (fun z => z ∈ xs) := by
  let Q : List Ptr → Prop := fun xs =>
    xs.Pairwise (fun a b => cmp (h.data a) (h.data b) > 0 ∧ cmp (h.data b) (h.data a) < 0)
  have key : ∀ xs ys xs' ys' a b,
      (xs ≠ [] ∧ (Q xs → ys = xs.reverse ∧ a + 2 = 2 * xs.length)) →
      (xs' ≠ [] ∧ (Q xs' → ys' = xs'.reverse ∧ b + 2 = 2 * xs'.length)) →
      (xs ++ xs' ≠ [] ∧ (Q (xs ++ xs') →
        mergeD cmp h.data ys ys' = (xs ++ xs').reverse ∧
        a + b + mergeDN cmp h.data ys ys' + 2 = 2 * (xs ++ xs').length)) := by
    rintro xs ys xs' ys' a b ⟨n1, h1⟩ ⟨n2, h2⟩
    refine ⟨by simp [n1], fun hp => ?_⟩
    obtain ⟨p1, p2, p3⟩ := List.pairwise_append.1 hp
    obtain ⟨rfl, e1⟩ := h1 p1
    obtain ⟨rfl, e2⟩ := h2 p2
    have m1 : xs.reverse ≠ [] := by simpa using n1
    have m2 : xs'.reverse ≠ [] := by simpa using n2
    have hc := (p3 _ (List.mem_reverse.1 (getLastD_mem' m1)) _ (List.mem_reverse.1 (headD_mem' m2))).1
    have hc2 := (p3 _ (List.mem_reverse.1 (headD_mem' m1)) _ (List.mem_reverse.1 (getLastD_mem' m2))).2
    rw [mergeD, mergeDN, if_neg (by omega), if_pos hc2, if_neg (by omega), if_pos hc2, List.length_append,
      List.reverse_append]
    exact ⟨rfl, by omega⟩
  obtain ⟨l', h', ys, k, e, il, hk, pm, hd, fr⟩ := listSortC_spec cmp
    (R := fun _ xs ys a => xs ≠ [] ∧ (Q xs → ys = xs.reverse ∧ a + 2 = 2 * xs.length))
    (F := fun _ xs ys a => xs ≠ [] ∧ (Q xs → ys = xs.reverse ∧ a + 2 = 2 * xs.length))
    (by simp) (fun _ => key) (fun _ _ _ _ h => h) (fun _ _ _ _ h => h) (fun _ => key) hl hlen
  rcases hk with ⟨rfl, rfl⟩ | ⟨j, hj, -, hk⟩
  · have := pm.eq_nil
    subst this
    exact ⟨l', h', e, il, hd, fr⟩
  · obtain ⟨rfl, e1⟩ := hk hs
    have : 2 * (xs.length - 1) = k := by omega
    rw [this]
    exact ⟨l', h', e, il, hd, fr⟩

end Tommy
