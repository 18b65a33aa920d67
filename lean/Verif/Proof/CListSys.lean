import Verif.Proof.CListInv
/-! The lists in the memory of bytes: the calls. -/
set_option autoImplicit false
set_option linter.unusedSectionVars false
namespace Tommy.CLs
open CListSpec CArr C
open CArraySpec (Ok InReg)
variable [Arch]

variable {s s' : AMem} {a : Ab} {t : Nat} {l l' : List Nat}

/-- The invariant. -/
structure Inv (s : AMem) (a : Ab) : Prop where
  mem : a.mem = s
  ok : Ok s
  rep : ∀ t l, a.tab t = some l → Rep s t l
  int : ∀ t l t' l', a.tab t = some l → a.tab t' = some l' → t ≠ t' → ∀ x, internal t l x → ¬ internal t' l' x

omit [Arch] in
theorem apart_of {p n q m : Nat} (hn : 0 < n) (hm : 0 < m) (h : ∀ x, p ≤ x → x < p + n → ¬ (q ≤ x ∧ x < q + m)) : p + n ≤ q ∨ q + m ≤ p := by
  by_cases h1 : p ≤ q
  · have := h q h1; omega
  · have := h p (Nat.le_refl _); omega

/-- A call on the list at `t`. -/
theorem Inv.change (h : Inv s a) (hw : Ok s') (hl : s'.live = s.live) (hr : Rep s' t l')
    (hi : ∀ x, internal t l' x → (∃ l, a.tab t = some l ∧ internal t l x) ∨ ∀ t' m, a.tab t' = some m → t' ≠ t → ¬ internal t' m x)
    (hb : ∀ t' m, a.tab t' = some m → t' ≠ t → ∀ x, internal t' m x → s'.byte x = s.byte x) :
    Inv s' ⟨s', upd a.tab t (some l')⟩ := by
  have key : ∀ t' m, a.tab t' = some m → t' ≠ t → ∀ x, internal t l' x → ¬ internal t' m x := by
    intro t' m hm hne x hx hx'
    rcases hi x hx with ⟨l, hl, hx⟩ | h'
    · exact h.int t l t' m hl hm (Ne.symm hne) x hx hx'
    · exact h' t' m hm hne hx'
  refine ⟨rfl, hw, fun t' m hm => ?_, fun t1 l1 t2 l2 h1 h2 hne x hx hx' => ?_⟩
  · change upd a.tab t (some l') t' = some m at hm
    by_cases e : t' = t
    · subst e; rw [upd_same] at hm; cases hm; exact hr
    · rw [upd_ne e] at hm
      have hR := h.rep t' m hm
      exact hR.congr (setL hR.reg hl) (fun p hp => setL (hR.node p hp) hl) fun x hx => hb t' m hm e x (internal_of_links hx)
  · change upd a.tab t (some l') t1 = some l1 at h1
    change upd a.tab t (some l') t2 = some l2 at h2
    by_cases e : t1 = t
    · subst e; rw [upd_same] at h1; cases h1
      rw [upd_ne (Ne.symm hne)] at h2
      exact key t2 l2 h2 (Ne.symm hne) x hx hx'
    · rw [upd_ne e] at h1
      by_cases e2 : t2 = t
      · subst e2; rw [upd_same] at h2; cases h2
        exact key t1 l1 h1 e x hx' hx
      · rw [upd_ne e2] at h2
        exact h.int t1 l1 t2 l2 h1 h2 hne x hx hx'

theorem Inv.same (h : Inv s a) : Inv s ⟨s, a.tab⟩ := ⟨rfl, h.ok, h.rep, h.int⟩

theorem Inv.drop (h : Inv s a) : Inv s ⟨s, upd a.tab t none⟩ := by
  refine ⟨rfl, h.ok, fun t' Q hQ => ?_, fun t1 P1 t2 P2 h1 h2 hne => ?_⟩
  · change upd a.tab t none t' = some Q at hQ
    by_cases e : t' = t
    · subst e; rw [upd_same] at hQ; cases hQ
    · rw [upd_ne e] at hQ; exact h.rep t' Q hQ
  · change upd a.tab t none t1 = some P1 at h1
    change upd a.tab t none t2 = some P2 at h2
    by_cases e : t1 = t
    · subst e; rw [upd_same] at h1; cases h1
    · by_cases e' : t2 = t
      · subst e'; rw [upd_same] at h2; cases h2
      · rw [upd_ne e] at h1; rw [upd_ne e'] at h2
        exact h.int t1 P1 t2 P2 h1 h2 hne

theorem call_eq {f : String} {vs : List Val} {v : Val} {log : List BEvent}
    (e : run ext f vs ⟨s, [], []⟩ = some (v, ⟨s', [], log⟩)) : call f vs s = some (⟨v.v, log, s'⟩, s') := by
  unfold call; rw [e]; rfl

/-! ### The calls -/

theorem step_init (h : Inv s a) (hl : legal a (.init t)) :
    ∃ out s', step (.init t) s = some (out, s') ∧ allowed a (.init t) out ∧ Inv s' (next a (.init t) out) := by
  obtain ⟨hr, hf⟩ := hl
  rw [h.mem] at hr
  obtain ⟨s', e, hs⟩ := run_init (ms := []) (log := []) ext h.ok hr
  refine ⟨_, s', call_eq e, ⟨trivial, rfl, fun _ => ⟨?_, fun x hx => ?_⟩⟩, h.change hs.ok hs.live hs.rep ?_ ?_⟩
  · rw [h.mem]; exact hs.live
  · rw [h.mem]; exact hs.out x hx
  · rintro x (⟨h1, h2⟩ | ⟨p, hp, _⟩)
    · exact .inr fun t' m hm _ => hf x h1 h2 t' m hm
    · simp at hp
  · intro t' m hm _ x hx
    exact hs.out x fun hx' => hf x hx'.1 hx'.2 t' m hm hx

/-- A call which only reads. -/
theorem step_read (h : Inv s a) {op : Op} {v : Nat} (e : step op s = some (⟨v, [], s⟩, s)) (hr : result a op ⟨v, [], s⟩)
    (hn : next a op ⟨v, [], s⟩ = ⟨s, a.tab⟩) :
    ∃ out s', step op s = some (out, s') ∧ allowed a op out ∧ Inv s' (next a op out) :=
  ⟨_, s, e, ⟨hr, rfl, fun _ => ⟨by rw [h.mem], fun x _ => by rw [h.mem]⟩⟩, by rw [hn]; exact h.same⟩

theorem step_head (h : Inv s a) (hl : legal a (.head t)) :
    ∃ out s', step (.head t) s = some (out, s') ∧ allowed a (.head t) out ∧ Inv s' (next a (.head t) out) := by
  obtain ⟨l, hl⟩ := hl
  have hR := h.rep t l hl
  refine step_read h (v := l.head?.getD 0) (call_eq (v := ⟨tNode, l.head?.getD 0⟩) ?_) (fun m hm => ?_) rfl
  · unfold pList
    rw [run_list_head, get_step hR.reg hR.hd]
    rfl
  · rw [hl] at hm; cases hm; rfl

theorem step_empty (h : Inv s a) (hl : legal a (.empty t)) :
    ∃ out s', step (.empty t) s = some (out, s') ∧ allowed a (.empty t) out ∧ Inv s' (next a (.empty t) out) := by
  obtain ⟨l, hl⟩ := hl
  have hR := h.rep t l hl
  refine step_read h (v := if l.head?.getD 0 = 0 then 1 else 0) (call_eq (v := ⟨.s32, if l.head?.getD 0 = 0 then 1 else 0⟩) ?_) (fun m hm => ?_) rfl
  · unfold pList
    rw [run_list_empty, get_step hR.reg hR.hd]
    rfl
  · rw [hl] at hm; cases hm
    cases l with
    | nil => rfl
    | cons x l =>
      show (if x = 0 then 1 else 0) = _
      rw [if_neg (hR.ne0 h.ok (by simp)).1, if_neg (by simp)]

theorem step_tail (h : Inv s a) (hl : legal a (.tail t)) :
    ∃ out s', step (.tail t) s = some (out, s') ∧ allowed a (.tail t) out ∧ Inv s' (next a (.tail t) out) := by
  obtain ⟨l, hl⟩ := hl
  have hR := h.rep t l hl
  refine step_read h (v := l.getLast?.getD 0) (call_eq (v := ⟨tNode, l.getLast?.getD 0⟩) ?_) (fun m hm => ?_) rfl
  · unfold pList
    rw [run_list_tail, get_step hR.reg hR.hd]
    cases l with
    | nil => rw [if_pos (by rfl)]; rfl
    | cons x l =>
      rw [if_neg (by exact (hR.ne0 h.ok (by simp)).1)]
      have hr := hR.node x (by simp)
      unfold nodeSize at hr
      have hp := pos_ptr
      refine (get_step (p := x + ptrSize) (hr.sub (by omega) (by omega)) hR.pv.1).trans ?_
      rfl
  · rw [hl] at hm; cases hm; rfl

theorem step_count (h : Inv s a) (hl : legal a (.count t)) :
    ∃ out s', step (.count t) s = some (out, s') ∧ allowed a (.count t) out ∧ Inv s' (next a (.count t) out) := by
  obtain ⟨l, hl⟩ := hl
  have hR := h.rep t l hl
  have hp := pos_ptr
  refine step_read h (v := l.length) (call_eq (v := ⟨.usize, l.length⟩) ?_) (fun m hm => ?_) rfl
  · refine run_list_count ext hR.reg hR.hd hR.nx (fun p hp => ⟨(hR.ne0 h.ok hp).1, ?_⟩) (hR.len h.ok)
    have := hR.node p hp
    unfold nodeSize at this
    exact this.sub (by omega) (by omega)
  · rw [hl] at hm; cases hm; rfl

section
variable {n d : Nat}

/-- A node to insert is apart from the list. -/
theorem free_apart (hl : a.tab t = some l) (hf : a.Free n (3 * ptrSize)) :
    (n + 3 * ptrSize ≤ t ∨ t + ptrSize ≤ n) ∧ ∀ p ∈ l, Off n p := by
  have hp := pos_ptr
  refine ⟨apart_of (by omega) hp fun x h1 h2 h3 => hf x h1 h2 t l hl (.inl h3), fun p hpl => ?_⟩
  exact apart_of (by omega) (by omega) fun x h1 h2 h3 => hf x h1 h2 t l hl (.inr ⟨p, hpl, h3⟩)

theorem insert_inv (h : Inv s a) (hl : a.tab t = some l) (hf : a.Free n (3 * ptrSize)) (hm : ∀ p ∈ l', p = n ∨ p ∈ l)
    (hs : Did s t l' (fun x => links t l x ∨ (n ≤ x ∧ x < n + 3 * ptrSize)) s') : Inv s' ⟨s', upd a.tab t (some l')⟩ := by
  refine h.change hs.ok hs.live hs.rep ?_ ?_
  · rintro x (hx | ⟨p, hp, hx⟩)
    · exact .inl ⟨l, hl, .inl hx⟩
    · rcases hm p hp with rfl | hp
      · exact .inr fun t' m hm _ => hf x hx.1 hx.2 t' m hm
      · exact .inl ⟨l, hl, .inr ⟨p, hp, hx⟩⟩
  · intro t' m hm hne x hx
    refine hs.out x ?_
    rintro (hx' | hx')
    · exact h.int t l t' m hl hm (Ne.symm hne) x (internal_of_links hx') hx
    · exact hf x hx'.1 hx'.2 t' m hm hx

theorem step_insertHead (h : Inv s a) (hl : legal a (.insertHead t n d)) :
    ∃ out s', step (.insertHead t n d) s = some (out, s') ∧ allowed a (.insertHead t n d) out ∧ Inv s' (next a (.insertHead t n d) out) := by
  obtain ⟨⟨l, hl⟩, hr, hf, hd⟩ := hl
  rw [h.mem] at hr
  obtain ⟨h1, h2⟩ := free_apart hl hf
  obtain ⟨s', e, hs, hv⟩ := run_insert_head (ms := []) (log := []) ext h.ok (h.rep t l hl) hr h1 h2 hd
  refine ⟨_, s', call_eq e, ⟨hv, rfl, fun _ => ⟨by rw [h.mem]; exact hs.live, fun x hx => ?_⟩⟩, ?_⟩
  · rw [h.mem]
    refine hs.out x fun h' => hx ?_
    rcases h' with h' | h'
    · exact .inl ⟨l, hl, h'⟩
    · exact .inr h'
  · simp only [next, hl, Option.map_some]
    exact insert_inv h hl hf (fun p hp => by simpa using hp) hs

theorem step_insertTail (h : Inv s a) (hl : legal a (.insertTail t n d)) :
    ∃ out s', step (.insertTail t n d) s = some (out, s') ∧ allowed a (.insertTail t n d) out ∧ Inv s' (next a (.insertTail t n d) out) := by
  obtain ⟨⟨l, hl⟩, hr, hf, hd⟩ := hl
  rw [h.mem] at hr
  obtain ⟨h1, h2⟩ := free_apart hl hf
  obtain ⟨s', e, hs, hv⟩ := run_insert_tail (ms := []) (log := []) ext h.ok (h.rep t l hl) hr h1 h2 hd
  refine ⟨_, s', call_eq e, ⟨hv, rfl, fun _ => ⟨by rw [h.mem]; exact hs.live, fun x hx => ?_⟩⟩, ?_⟩
  · rw [h.mem]
    refine hs.out x fun h' => hx ?_
    rcases h' with h' | h'
    · exact .inl ⟨l, hl, h'⟩
    · exact .inr h'
  · simp only [next, hl, Option.map_some]
    exact insert_inv h hl hf (fun p hp => by simpa [or_comm] using hp) hs

theorem step_remove (h : Inv s a) (hl : legal a (.remove t n)) :
    ∃ out s', step (.remove t n) s = some (out, s') ∧ allowed a (.remove t n) out ∧ Inv s' (next a (.remove t n) out) := by
  obtain ⟨l, hl, hn⟩ := hl
  obtain ⟨s', e, hs⟩ := run_remove (ms := []) (log := []) ext h.ok (h.rep t l hl) hn
  refine ⟨_, s', call_eq e, ⟨by show _ = rdN a.mem.byte _ _; rw [h.mem], rfl, fun _ => ⟨by rw [h.mem]; exact hs.live, fun x hx => ?_⟩⟩, ?_⟩
  · rw [h.mem]
    exact hs.out x fun h' => hx ⟨l, hl, h'⟩
  · simp only [next, hl, Option.map_some]
    refine h.change hs.ok hs.live hs.rep ?_ ?_
    · rintro x (hx | ⟨p, hp, hx⟩)
      · exact .inl ⟨l, hl, .inl hx⟩
      · exact .inl ⟨l, hl, .inr ⟨p, List.mem_of_mem_erase hp, hx⟩⟩
    · intro t' m hm hne x hx
      exact hs.out x fun hx' => h.int t l t' m hl hm (Ne.symm hne) x (internal_of_links hx') hx

theorem step_concat (h : Inv s a) {u : Nat} (hl : legal a (.concat t u)) :
    ∃ out s', step (.concat t u) s = some (out, s') ∧ allowed a (.concat t u) out ∧ Inv s' (next a (.concat t u) out) := by
  obtain ⟨hne, ⟨l, hl⟩, m, hm⟩ := hl
  have hp := pos_ptr
  have hi := h.int t l u m hl hm hne
  obtain ⟨s', e, hs⟩ := run_concat (ms := []) (log := []) ext h.ok (h.rep t l hl) (h.rep u m hm)
    (fun p hpm => (apart_of hp (by omega) fun x h1 h2 h3 => hi x (.inl ⟨h1, h2⟩) (.inr ⟨p, hpm, h3⟩)).symm)
    (fun p hpl q hqm => apart_of (by omega) (by omega) fun x h1 h2 h3 => hi x (.inr ⟨p, hpl, h1, h2⟩) (.inr ⟨q, hqm, h3⟩))
  refine ⟨_, s', call_eq e, ⟨trivial, rfl, fun _ => ⟨by rw [h.mem]; exact hs.live, fun x hx => ?_⟩⟩, ?_⟩
  · rw [h.mem]
    refine hs.out x fun h' => hx ?_
    rcases h' with h' | h'
    · exact .inl ⟨l, hl, h'⟩
    · exact .inr ⟨m, hm, h'⟩
  · simp only [next, hl, hm, Option.map_some, Option.getD_some]
    have hD := h.drop (t := u)
    have hut : upd a.tab u none t = some l := by rw [upd_ne hne]; exact hl
    refine hD.change hs.ok hs.live hs.rep ?_ ?_
    · rintro x (hx | ⟨p, hp, hx⟩)
      · exact .inl ⟨l, hut, .inl hx⟩
      · rcases List.mem_append.1 hp with hp | hp
        · exact .inl ⟨l, hut, .inr ⟨p, hp, hx⟩⟩
        · refine .inr fun t' k hk hne' hx' => ?_
          change upd a.tab u none t' = some k at hk
          by_cases e : t' = u
          · subst e; rw [upd_same] at hk; cases hk
          · rw [upd_ne e] at hk
            exact h.int u m t' k hm hk (Ne.symm e) x (.inr ⟨p, hp, hx⟩) hx'
    · intro t' k hk hne' x hx
      change upd a.tab u none t' = some k at hk
      by_cases e : t' = u
      · subst e; rw [upd_same] at hk; cases hk
      · rw [upd_ne e] at hk
        refine hs.out x ?_
        rintro (hx' | hx')
        · exact h.int t l t' k hl hk (Ne.symm hne') x (internal_of_links hx') hx
        · exact h.int u m t' k hm hk (Ne.symm e) x (internal_of_links hx') hx

end

theorem step_foreign (h : Inv s a) {w : AMem} (hl : legal a (.foreign w)) : Inv w (next a (.foreign w) ⟨0, [], w⟩) := by
  obtain ⟨hw, hl⟩ := hl
  refine ⟨rfl, hw, fun t l hQ => ?_, h.int⟩
  change a.tab t = some l at hQ
  obtain ⟨h1, h2, h3⟩ := hl t l hQ
  exact (h.rep t l hQ).congr h1 h2 fun x hx => by rw [h3 x hx, h.mem]

theorem inv_init (h : sys.init s a) : Inv s a :=
  ⟨h.1, h.2.1, fun t P hP => by simp [h.2.2 t] at hP, fun t P _ _ hP => by simp [h.2.2 t] at hP⟩

theorem inv_step (s : AMem) (a : Ab) (op : Op) (h : Inv s a) (hl : sys.legal a op) :
    ∃ out s', sys.step op s = some (out, s') ∧ sys.allowed a op out ∧ Inv s' (sys.next a op out) := by
  cases op with
  | init t => exact step_init h hl
  | head t => exact step_head h hl
  | tail t => exact step_tail h hl
  | insertHead t n d => exact step_insertHead h hl
  | insertTail t n d => exact step_insertTail h hl
  | remove t n => exact step_remove h hl
  | concat t u => exact step_concat h hl
  | empty t => exact step_empty h hl
  | count t => exact step_count h hl
  | drop t => exact ⟨_, s, rfl, ⟨trivial, rfl, fun _ => ⟨by rw [h.mem], fun x _ => by rw [h.mem]⟩⟩, h.drop⟩
  | foreign w => exact ⟨_, w, rfl, ⟨trivial, rfl, fun hf => (hf trivial).elim⟩, step_foreign h hl⟩

theorem sys_correct : sys.Correct := Sys.correct_of_inv (fun _ _ h => inv_init h) inv_step

/-- The list can be walked in both directions. -/
theorem Rep.walk (h : Rep s t l) : Walk s t l := by
  refine ⟨h.hd, nx_get h.nx, pv_get h.pv, fun p hp => ?_⟩
  have := h.pv
  cases l with
  | nil => cases hp
  | cons x l =>
    cases hp
    exact this.1

end Tommy.CLs
