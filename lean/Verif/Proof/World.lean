import Verif.Spec.World
import Verif.Proof.Heap
/-! The parts of a program do not disturb each other. What a part does to the nodes looks to the others as a sequence
    of writes of the program to nodes which are not theirs. -/
set_option autoImplicit false
namespace Tommy

variable [Arch]
namespace World
open HashSpec (Elem Fits LiveOk)

/-- The node is the same. -/
structure Same (h h' : Heap) (p : Ptr) : Prop where
  next : h'.next p = h.next p
  prev : h'.prev p = h.prev p
  data : h'.data p = h.data p
  index : h'.index p = h.index p

/-- What is needed of a part. -/
structure PartOk (k : Part) : Prop where
  heap_mk : ∀ h x, k.heap (k.mkS h x) = h
  eta : ∀ s, k.mkS (k.heap s) (k.priv s) = s
  correct : k.sys.Correct
  act : ∀ (c : Action) h x l b, c.legal l (k.stored b) → ∃ op out, k.sys.legal (k.mkA l b) op ∧
    k.sys.step op (k.mkS h x) = some (out, k.mkS (c.run h) x) ∧
    k.sys.next (k.mkA l b) op out = k.mkA (c.live l) b
  next_own : ∀ l b op out, k.own op →
    k.mkA l (k.privA (k.sys.next (k.mkA l b) op out)) = k.sys.next (k.mkA l b) op out
  frame : ∀ h x l b op out s', k.sys.Reach (k.mkS h x) (k.mkA l b) → k.sys.legal (k.mkA l b) op → k.own op →
    k.sys.step op (k.mkS h x) = some (out, s') → (k.heap s').valid = h.valid ∧
    ∃ xs : List Ptr, (∀ p ∈ xs, k.stored b p ∨ k.given op = some p) ∧ ∀ p, p ∉ xs → Same h (k.heap s') p
  stored_next : ∀ l b op out p, k.own op → k.sys.allowed (k.mkA l b) op out →
    k.stored (k.privA (k.sys.next (k.mkA l b) op out)) p → k.stored b p ∨ k.given op = some p
  given_live : ∀ l b op p, k.sys.legal (k.mkA l b) op → k.given op = some p → l p = true
  init_stored : ∀ h x l b p, k.sys.init (k.mkS h x) (k.mkA l b) → ¬ k.stored b p

omit [Arch] in
theorem heap_ext {h h' : Heap} (hv : h'.valid = h.valid) (hs : ∀ p, Same h h' p) : h' = h := by
  obtain ⟨v, n, q, d, i⟩ := h
  obtain ⟨v', n', q', d', i'⟩ := h'
  cases hv
  obtain rfl : n' = n := funext fun p => (hs p).next
  obtain rfl : q' = q := funext fun p => (hs p).prev
  obtain rfl : d' = d := funext fun p => (hs p).data
  obtain rfl : i' = i := funext fun p => (hs p).index
  rfl

/-- A part stands any change of a finite number of nodes which are live and not its own. -/
theorem PartOk.stable {k : Part} (ok : PartOk k) {x : k.P} {l : Ptr → Bool} {b : k.B} {h' : Heap} :
    ∀ (xs : List Ptr) (h : Heap), k.sys.Reach (k.mkS h x) (k.mkA l b) → h'.valid = h.valid →
      (∀ p ∈ xs, l p = true ∧ ¬ k.stored b p) → (∀ p, p ∉ xs → Same h h' p) → k.sys.Reach (k.mkS h' x) (k.mkA l b)
  | [], h, hr, hv, _, hs => by rw [heap_ext hv fun p => hs p (List.not_mem_nil)]; exact hr
  | y :: xs, h, hr, hv, hx, hs => by
    obtain ⟨op, out, h1, h2, h3⟩ := ok.act (.scribble y (h'.next y) (h'.prev y) (h'.data y) (h'.index y)) h x l b
      (hx y List.mem_cons_self)
    have hr' := Sys.Reach.step hr h1 h2
    rw [h3] at hr'
    refine ok.stable xs _ hr' hv (fun p hp => hx p (List.mem_cons_of_mem _ hp)) fun p hp => ?_
    by_cases e : p = y
    · subst e
      constructor <;> simp [Action.run]
    · have := hs p (by simp [e, hp])
      constructor <;> simp only [Action.run, upd_ne e, this.next, this.prev, this.data, this.index]

variable {ks : Nat → Part}

/-- The invariant: each part is in a state that it can reach alone. -/
structure Inv (s : St ks) (a : Ab ks) : Prop where
  reach : ∀ i, (ks i).sys.Reach (s.at i) (a.at i)
  disj : ∀ i j p, i ≠ j → a.stored i p → ¬ a.stored j p
  live : ∀ i p, a.stored i p → a.live p = true

theorem init_inv (ok : ∀ i, PartOk (ks i)) {s : St ks} {a : Ab ks} (hi : (sys ks).init s a) : Inv s a where
  reach i := .init (hi.2.2 i)
  disj i _ p _ h := absurd h ((ok i).init_stored _ _ _ _ p (hi.2.2 i))
  live i p h := absurd h ((ok i).init_stored _ _ _ _ p (hi.2.2 i))

theorem step_inv (ok : ∀ i, PartOk (ks i)) {s : St ks} {a : Ab ks} (i : Inv s a) {op : Op ks} (hl : legal ks a op) :
    ∃ out s', step ks op s = some (out, s') ∧ allowed ks a op out ∧ Inv s' (next ks a op out) := by
  cases op with
  | act c =>
    refine ⟨_, _, rfl, rfl, ⟨fun j => ?_, i.disj, fun j p hp => ?_⟩⟩
    · obtain ⟨op, out, h1, h2, h3⟩ := (ok j).act c s.heap (s.priv j) a.live (a.val j) (by
        cases c with
        | alloc p => exact hl
        | free p => exact ⟨hl.1, fun h => hl.2 ⟨j, h⟩⟩
        | scribble p n q d x => exact ⟨hl.1, fun h => hl.2 ⟨j, h⟩⟩)
      have := Sys.Reach.step (i.reach j) h1 h2
      change (ks j).sys.Reach _ ((ks j).sys.next ((ks j).mkA a.live (a.val j)) op out) at this
      rw [h3] at this
      exact this
    · have h0 : a.stored j p := hp
      have h := i.live j p h0
      cases c with
      | alloc q =>
        show upd a.live q true p = true
        rw [upd_apply]; split <;> [rfl; exact h]
      | free q =>
        show upd a.live q false p = true
        rw [upd_ne]; exact h
        rintro rfl
        exact hl.2 ⟨j, h0⟩
      | scribble q _ _ _ _ => exact h
  | call j op =>
    obtain ⟨ho, hleg, hg⟩ := hl
    obtain ⟨out, s', e, al⟩ := (ok j).correct _ _ (i.reach j) op hleg
    refine ⟨.call j out, ⟨(ks j).heap s', Function.update s.priv j ((ks j).priv s')⟩, ?_, ⟨out, rfl, al⟩, ?_⟩
    · show ((ks j).sys.step op (s.at j)).map _ = _
      rw [e]; rfl
    have hn : next ks a (.call j op) (.call j out) =
        { a with val := Function.update a.val j ((ks j).privA ((ks j).sys.next (a.at j) op out)) } := by
      simp only [next, dif_pos]
    rw [hn]
    obtain ⟨fv, xs, hxs, fr⟩ := (ok j).frame _ _ _ _ op out s' (i.reach j) hleg ho e
    have old : ∀ p, a.stored j p ∨ (ks j).given op = some p → a.live p = true ∧ ∀ m, m ≠ j → ¬ a.stored m p := by
      rintro p (h | h)
      · exact ⟨i.live j p h, fun m hm => i.disj j m p (Ne.symm hm) h⟩
      · exact ⟨(ok j).given_live _ _ op p hleg h, hg p h⟩
    have new : ∀ p, (ks j).stored ((ks j).privA ((ks j).sys.next (a.at j) op out)) p →
        a.stored j p ∨ (ks j).given op = some p := fun p => (ok j).stored_next _ _ op out p ho al
    refine ⟨fun m => ?_, fun m m' p hm hp hp' => ?_, fun m p hp => ?_⟩
    · by_cases hm : m = j
      · subst hm
        have := Sys.Reach.step (i.reach m) hleg e
        simp only [St.at, Ab.at, Function.update_self, (ok m).eta]
        rw [(ok m).next_own _ _ _ _ ho]
        exact this
      · simp only [St.at, Ab.at, Function.update_of_ne hm]
        exact (ok m).stable xs _ (i.reach m) fv (fun p hp => ⟨(old p (hxs p hp)).1, (old p (hxs p hp)).2 m hm⟩) fr
    · by_cases h1 : m = j
      · subst h1
        simp only [Ab.stored, Function.update_self] at hp
        simp only [Ab.stored, Function.update_of_ne (Ne.symm hm)] at hp'
        exact (old p (new p hp)).2 m' (Ne.symm hm) hp'
      · simp only [Ab.stored, Function.update_of_ne h1] at hp
        by_cases h2 : m' = j
        · subst h2
          simp only [Ab.stored, Function.update_self] at hp'
          exact (old p (new p hp')).2 m h1 hp
        · simp only [Ab.stored, Function.update_of_ne h2] at hp'
          exact i.disj m m' p hm hp hp'
    · by_cases h1 : m = j
      · subst h1
        simp only [Ab.stored, Function.update_self] at hp
        exact (old p (new p hp)).1
      · simp only [Ab.stored, Function.update_of_ne h1] at hp
        exact i.live m p hp

theorem correct (ok : ∀ i, PartOk (ks i)) : (sys ks).Correct ∧ ∀ s a, (sys ks).Reach s a → Inv s a :=
  ⟨Sys.correct_of_inv (Inv := Inv) (fun _ _ h => init_inv ok h) fun _ _ _ i hl => step_inv ok i hl,
    Sys.reach_inv (Inv := Inv) (fun _ _ h => init_inv ok h) fun _ _ _ i hl => step_inv ok i hl⟩

end World
end Tommy
