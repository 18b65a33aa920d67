import Verif.Proof.HashFlatFree
/-! A call on a table in one memory of bytes, for which the other tables are only bytes of the program. -/
set_option linter.unusedSimpArgs false
set_option linter.unusedVariables false
namespace Tommy

variable [Arch]
namespace HashFlatSpec
open HashSpec (Elem LiveOk SameNode)
open TablesSpec (Tbl tblImpl Good given without tbl_ok)
open HashFlat

open Classical in
/-- The program sees only the table `b`. -/
noncomputable def Ab.only (a : Ab) (w : AMem) (b : Nat) : Ab where
  env p := if a.owned b p then none else w.live p
  tab i := if i = b then a.tab b else none
  byte x := if a.uses b x then none else some (w.byte x)

section
variable {w : AMem} {a : Ab} {b : Nat}

theorem only_tab {i : Nat} {T : Tab} (h : (a.only w b).tab i = some T) : i = b ∧ a.tab b = some T := by
  simp only [Ab.only] at h
  split at h
  · exact ⟨by assumption, h⟩
  · cases h

theorem only_self : (a.only w b).tab b = a.tab b := by simp [Ab.only]

theorem only_struct {x : Nat} (h : (a.only w b).InStruct x) : a.InStruct x ∧ a.uses b x := by
  obtain ⟨i, T, h1, h2⟩ := h
  obtain ⟨rfl, h1⟩ := only_tab h1
  exact ⟨⟨i, T, h1, h2⟩, T, h1, .inl h2⟩

theorem only_node {x : Nat} (h : (a.only w b).InNode x) : a.InNode x ∧ a.uses b x := by
  obtain ⟨i, T, e, h1, h2, h3⟩ := h
  obtain ⟨rfl, h1⟩ := only_tab h1
  exact ⟨⟨i, T, e, h1, h2, h3⟩, T, h1, .inr ⟨e, h2, h3⟩⟩

theorem uses_iff {x : Nat} : a.uses b x ↔ (view (a.only w b)).InStruct x ∨ (view (a.only w b)).InNode x := by
  rw [view_struct, view_inNode]
  constructor
  · rintro ⟨T, h1, h2 | ⟨e, h2, h3⟩⟩
    · exact .inl ⟨b, T, by rw [only_self, h1], h2⟩
    · exact .inr ⟨b, T, e, by rw [only_self, h1], h2, h3⟩
  · rintro (h | h)
    · exact (only_struct h).2
    · exact (only_node h).2

variable {ts : TablesSpec.St} {owner : Nat → Option Nat} {φ : Nat → Nat} {Fs : Fld}

/-- The regions owned are the vectors. -/
theorem FI.owned (h : FI w a ts owner φ Fs) {p : Nat} : a.owned b p ↔ ∃ v, owner v = some b ∧ φ v = p := by
  constructor
  · rintro ⟨T, n, hT, hm⟩
    obtain ⟨t, _, _, _, h4, g⟩ := h.good hT
    rw [h4, own_mem h.rel g] at hm
    obtain ⟨v, k, h5, h6, h7, h8⟩ := hm
    refine ⟨v, ?_, h7⟩
    by_contra hc
    simp only [without, hc, if_false] at h5
    rw [h5] at h6; cases h6
  · rintro ⟨v, ho, rfl⟩
    obtain ⟨h1, _, h2⟩ := h.inv.own v b ho
    have hT : a.tab b ≠ none := by
      intro e
      exact h2 ((h.inv.dom b).2 (by simp [tabsOf, e]))
    obtain ⟨T, hT⟩ := Option.ne_none_iff_exists'.1 hT
    obtain ⟨t, _, _, _, h4, g⟩ := h.good hT
    obtain ⟨k, hk⟩ := Option.ne_none_iff_exists'.1 h1
    exact ⟨T, ptrSize * k, hT, by rw [h4, own_mem h.rel g]; exact ⟨v, k, by simp [without, ho], hk, rfl, rfl⟩⟩

theorem FI.env_not_owned (h : FI w a ts owner φ Fs) {p n : Nat} (he : a.env p = some n) : ¬ a.owned b p := by
  rintro ho
  obtain ⟨v, h1, rfl⟩ := h.owned.1 ho
  have := h.rel.venv v (h.inv.own v b h1).1
  rw [show (view a).env = a.env from rfl, he] at this; cases this

theorem FI.only_inE (h : FI w a ts owner φ Fs) {p n : Nat} (hi : InE a.env p n) : InE (a.only w b).env p n := by
  obtain ⟨c, k, h1, h2⟩ := hi
  exact ⟨c, k, by simp only [Ab.only, h.env_not_owned h1, if_false]; exact (h.rel.live c k).2 (.inl h1), h2⟩

open Classical in
theorem FI.only (h : FI w a ts owner φ Fs) {T : Tab} (hT : a.tab b = some T) : FInv w (a.only w b) := by
  obtain ⟨t, ht, hsz, hat, hown, g⟩ := h.good hT
  have hvb : (view a).sh b = some (T.sz.ty, T.es.map Elem.node) := view_sh.2 ⟨T, hT, rfl, rfl⟩
  have hsh : ∀ b' ty l, (view (a.only w b)).sh b' = some (ty, l) → b' = b ∧ (view a).sh b' = some (ty, l) := by
    intro b' ty l h1
    obtain ⟨T', h2, rfl, rfl⟩ := view_sh.1 h1
    obtain ⟨rfl, h3⟩ := only_tab h2
    exact ⟨rfl, view_sh.2 ⟨T', h3, rfl, rfl⟩⟩
  have hnode : ∀ p, (view (a.only w b)).Node p → (view a).Node p := by
    rintro p ⟨b', ty, l, h1, h2⟩
    exact ⟨b', ty, l, (hsh _ _ _ h1).2, h2⟩
  have lay : (view (a.only w b)).Lay :=
    ⟨fun b' ty l h1 => h.only_inE (h.lay.str b' ty l (hsh _ _ _ h1).2),
     fun b1 ty1 l1 b2 ty2 l2 h1 h2 => h.lay.ssep _ _ _ _ _ _ (hsh _ _ _ h1).2 (hsh _ _ _ h2).2,
     fun p hp => h.only_inE (h.lay.node p (hnode p hp)), fun p q hp hq => h.lay.nsep p q (hnode p hp) (hnode q hq),
     fun p b' ty l hp h1 => h.lay.nssep p b' ty l (hnode p hp) (hsh _ _ _ h1).2⟩
  let m2 : Mem := { ts.mem with vlen := fun v => if owner v = some b then ts.mem.vlen v else none }
  have hv2 : ∀ v k, m2.vlen v = some k ↔ owner v = some b ∧ ts.mem.vlen v = some k := by
    intro v k
    by_cases ho : owner v = some b <;> simp [m2, ho]
  have hv3 : ∀ v, m2.vlen v ≠ none → owner v = some b ∧ ts.mem.vlen v ≠ none := by
    intro v hv
    obtain ⟨k, hk⟩ := Option.ne_none_iff_exists'.1 hv
    obtain ⟨h1, h2⟩ := (hv2 v k).1 hk
    exact ⟨h1, by rw [h2]; simp⟩
  have Vc : Vecs (view (a.only w b)).env φ m2 w := by
    refine ⟨h.rel.byte, fun p n => ?_, h.rel.pos, h.rel.reg, fun v v' h1 h2 => h.rel.vinj v v' (hv3 v h1).2 (hv3 v' h2).2, fun v hv => ?_, fun v hv => ?_,
      fun v i n c h1 h2 h3 => h.rel.vecs.cells v i n c ((hv2 v n).1 h1).2 h2 h3⟩
    · show _ ↔ (if a.owned b p then none else w.live p) = some n ∨ _
      by_cases ho : a.owned b p
      · rw [if_pos ho]
        simp only [reduceCtorEq, false_or]
        obtain ⟨v, h1, rfl⟩ := h.owned.1 ho
        obtain ⟨k, hk⟩ := Option.ne_none_iff_exists'.1 (h.inv.own v b h1).1
        constructor
        · intro hl
          rw [h.rel.vec hk] at hl
          injection hl with hl
          exact ⟨v, k, (hv2 v k).2 ⟨h1, hk⟩, rfl, hl.symm⟩
        · rintro ⟨v', k', h2, h3, rfl⟩
          rw [← h3]
          exact h.rel.vec ((hv2 v' k').1 h2).2
      · rw [if_neg ho]
        refine ⟨.inl, ?_⟩
        rintro (h1 | ⟨v, k, h2, rfl, h4⟩)
        · exact h1
        · exact absurd (h.owned.2 ⟨v, ((hv2 v k).1 h2).1, rfl⟩) ho
    · show (if a.owned b (φ v) then none else w.live (φ v)) = none
      rw [if_pos (h.owned.2 ⟨v, (hv3 v hv).1, rfl⟩)]
    · show (if _ then _ else _) = none
      rw [h.rel.fresh v hv]; simp
  have Rf := mkRel (V := view (a.only w b)) (Fs := Fs) Vc lay (fun x n c hx hc => by
      have hx : (view a).Field x n := by
        obtain ⟨b', ty, l, o, h1, h2⟩ := hx
        exact ⟨b', ty, l, o, (hsh _ _ _ h1).2, h2⟩
      exact h.rel.val (.fld x n) c (View.mkF_ne.2 (.inl hx)) (by simp only [HashFlat.val]; rw [View.mkF_field hx, hc]; rfl))
    (fun x c hx hc => by
      have hc : (if a.uses b x then none else some (w.byte x)) = some c := hc
      rw [if_neg (fun hu => (uses_iff.1 hu).elim hx.2.1 hx.2.2)] at hc
      injection hc with hc)
  refine ⟨⟨{ m2 with heap := (view (a.only w b)).heapOf w }, fun i => if i = b then ts.tbl b else none⟩,
    fun v => if owner v = some b then some b else none, φ, Fs, ?_, Rf, lay, fun p => View.heapOf_valid p, fun x hx => ?_, fun b' T' h1 => ?_⟩
  · refine ⟨rfl, lay.liveOk Vc, fun i => ?_, fun i t' es hi he => ?_, fun i j p hij h1 h2 => ?_, Vc.fresh, fun v i ho => ?_, fun v ho => ?_, fun q p hq => by cases hq⟩
    · show (if i = b then ts.tbl b else none) = none ↔ (Option.map Tab.es (if i = b then a.tab b else none)) = none
      by_cases hi : i = b
      · simp only [hi, if_true]; exact h.inv.dom b
      · simp [hi]
    · have hi : (if i = b then ts.tbl b else none) = some t' := hi
      by_cases hib : i = b
      · subst hib
        rw [if_pos rfl, ht] at hi
        injection hi with hi
        subst hi
        have he : (if i = i then a.tab i else none).map Tab.es = some es := he
        rw [if_pos rfl, hT] at he
        injection he with he
        subst he
        have how : ∀ v, (if owner v = some i then some i else none) = some i ↔ owner v = some i := by
          intro v; by_cases ho : owner v = some i <;> simp [ho]
        refine g.move ⟨fun v h1 h2 => ?_, fun v h1 => ?_, Vc.fresh, fun q p h1 h2 => ?_, fun q p h1 => ?_⟩ (fun e he => ?_)
        · have ho : owner v = some i := by
            by_contra hc
            simp only [without, hc, if_false] at h1
            exact h2 h1
          exact ⟨by simp [m2, ho], by simp [without, ho]⟩
        · show m2.vlen v = if (if owner v = some i then some i else none) = some i then none else m2.vlen v
          by_cases ho : owner v = some i
          · rw [if_pos ((how v).2 ho)]
            simp only [m2, ho, if_true]
            rcases h1 with h1 | h1
            · simp [without, ho] at h1
            · exact h1
          · rw [if_neg fun hh => ho ((how v).1 hh)]
        · have ho : owner q.vec = some i := by
            by_contra hc
            simp only [without, hc, if_false] at h1
            simp [Mem.cell?, h1] at h2
          simpa only [Mem.cell?, m2, ho, if_true] using h2
        · obtain ⟨h2, h3⟩ := TablesSpec.without_cell.1 h1
          have ho : owner q.vec ≠ some i := fun hh => h2 ((how _).2 hh)
          simp [Mem.cell?, m2, ho] at h3
        · have hn : (view (a.only w i)).Node e.node := view_node.2 ⟨i, T, by rw [only_self, hT], List.mem_map_of_mem he⟩
          exact h.rel.sameNode (h.ok (hnode _ hn)) hn (fun _ _ _ => rfl)
      · rw [if_neg hib] at hi; cases hi
    · obtain ⟨es1, h3, _⟩ := h1
      obtain ⟨es2, h4, _⟩ := h2
      have h3 : (if i = b then a.tab b else none).map Tab.es = some es1 := h3
      have h4 : (if j = b then a.tab b else none).map Tab.es = some es2 := h4
      by_cases hi : i = b
      · rw [if_neg (fun hj => hij (hi.trans hj.symm))] at h4; cases h4
      · rw [if_neg hi] at h3; cases h3
    · by_cases hv : owner v = some b
      · have ho : (if owner v = some b then some b else none) = some i := ho
        rw [if_pos hv] at ho
        injection ho with ho
        subst ho
        obtain ⟨h1, _, h3⟩ := h.inv.own v b hv
        exact ⟨by simp only [m2, hv, if_true]; exact h1, rfl, by simpa using h3⟩
      · have ho : (if owner v = some b then some b else none) = some i := ho
        rw [if_neg hv] at ho; cases ho
    · have ho : (if owner v = some b then some b else none) = none := ho
      by_cases hv : owner v = some b
      · rw [if_pos hv] at ho; cases ho
      · simp [m2, hv, noMem]
  · simp only [Ab.only]
    rw [if_pos (uses_iff.2 hx)]
  · obtain ⟨rfl, h2⟩ := only_tab h1
    rw [hT] at h2
    injection h2 with h2
    subst h2
    refine ⟨t, by simpa using ht, hsz, hat.congr (fun o n ho => ?_) (fun _ _ => rfl) (Nat.le_refl _), hown⟩
    rw [← szOf_ty, hsz] at ho
    rw [View.mkF_field ⟨b', _, _, o, view_sh.2 ⟨T, by rw [only_self, hT], rfl, rfl⟩, ho, rfl⟩, View.mkF_field ⟨b', _, _, o, hvb, ho, rfl⟩]

end

/-! ### The other bytes -/

section
variable {w w' : AMem} {a : Ab} {b : Nat} {op : Op} {out : Out}

theorem FInv.region (h : FInv w a) (b n : Nat) : a.Region b n ↔ w.live b = some n := by
  obtain ⟨ts, owner, φ, Fs, h⟩ := h
  exact h.region b n

theorem FInv.only (h : FInv w a) {T : Tab} (hT : a.tab b = some T) : FInv w (a.only w b) := by
  obtain ⟨ts, owner, φ, Fs, h⟩ := h
  exact h.only hT

theorem fresh_only (h : FInv w a) {T : Tab} (hT : a.tab b = some T) {m k : Nat} (hf : a.Fresh m k) : (a.only w b).Fresh m k := by
  have e : ∀ c k, (a.only w b).Region c k ↔ a.Region c k := fun c k => by rw [h.region, (h.only hT).region]
  simpa only [Ab.Fresh, e] using hf

theorem legal_only (h : FInv w a) (ho : op.on = some b) (hl : legal a op) : legal (a.only w b) op := by
  have hin : ∀ {p n}, InE a.env p n → InE (a.only w b).env p n := by
    obtain ⟨ts, owner, φ, Fs, h⟩ := h
    exact h.only_inE
  cases op with
  | call t ty op m c =>
    obtain rfl : t = b := Option.some.inj ho
    obtain ⟨T, hT, h1, h2, h3⟩ := hl
    refine ⟨T, by rw [only_self, hT], h1, ?_, fun k hk => ⟨fresh_only h hT (h3 k hk).1, (h3 k hk).2⟩⟩
    cases op with
    | insert p d k =>
      obtain ⟨⟨h4, h5⟩, h6⟩ := h2
      refine ⟨⟨hin h4, fun x h7 h8 => ⟨fun hh => (h5 x h7 h8).1 (only_struct hh).1, fun hh => (h5 x h7 h8).2 (only_node hh).1⟩⟩, h6⟩
    | _ => exact h2
  | usage t ty =>
    obtain rfl : t = b := Option.some.inj ho
    obtain ⟨T, hT, h1⟩ := hl
    exact ⟨T, by rw [only_self, hT], h1⟩
  | done t ty =>
    obtain rfl : t = b := Option.some.inj ho
    obtain ⟨T, hT, h1⟩ := hl
    exact ⟨T, by rw [only_self, hT], h1⟩
  | destroy t ty =>
    obtain rfl : t = b := Option.some.inj ho
    obtain ⟨T, hT, h1, h2⟩ := hl
    refine ⟨T, by rw [only_self, hT], h1, fun e he => ?_⟩
    obtain ⟨n, h3, h4, h5, h6⟩ := h2 e he
    refine ⟨n, ?_, h4, h5, fun x h7 h8 => ⟨fun hh => (h6 x h7 h8).1 (only_struct hh).1, fun t' T' f h9 h10 => ?_⟩⟩
    · obtain ⟨ts, owner, φ, Fs, h⟩ := h
      simp only [Ab.only, h.env_not_owned h3, if_false]
      exact (h.rel.live _ _).2 (.inl h3)
    · obtain ⟨rfl, h9⟩ := only_tab h9
      exact (h6 x h7 h8).2 t' T' f h9 h10
  | _ => cases ho

theorem after_nodes {es : List Elem} {op : HashSpec.Op} {e : Elem} (he : e ∈ after es op) : e ∈ es ∨ ∃ p d h, op = .insert p d h ∧ e.node = p := by
  cases op with
  | insert p d h =>
    rcases List.mem_append.1 (show e ∈ es ++ [⟨p, d, h⟩] from he) with h1 | h1
    · exact .inl h1
    · exact .inr ⟨p, d, h, rfl, by rw [List.mem_singleton.1 h1]⟩
  | remove cmp h => exact .inl (List.mem_of_mem_eraseP he)
  | removeExisting p => exact .inl (List.mem_filter.1 he).1
  | _ => exact .inl he

/-- A call writes only what its table uses and owns, and the node to insert. -/
theorem frame (h : FInv w a) (ho : op.on = some b) (hl : legal a op) (e : step op w = some (out, w')) {x c k : Nat}
    (h1 : w.live c = some k) (h2 : w'.live c = some k) (h3 : c ≤ x) (h4 : x < c + k) (h5 : ¬ a.owned b c) (h6 : ¬ a.uses b x)
    (h7 : ¬ op.inNew x) : w'.byte x = w.byte x := by
  have hT : ∃ T, a.tab b = some T := by
    cases op <;> first | (obtain rfl := Option.some.inj ho; exact ⟨hl.choose, hl.choose_spec.1⟩) | cases ho
  obtain ⟨T, hT⟩ := hT
  obtain ⟨out', w'', e', _, hi⟩ := step_inv (h.only hT) (legal_only h ho hl)
  rw [e] at e'
  simp only [Option.some.injEq, Prod.mk.injEq] at e'
  obtain ⟨rfl, rfl⟩ := e'
  have henv : (a.only w b).env c = some k := by simp only [Ab.only, h5, if_false, h1]
  have hby : (a.only w b).byte x = some (w.byte x) := by simp only [Ab.only, h6, if_false]
  have key : (next (a.only w b) op out).env c = some k → (next (a.only w b) op out).byte x = some (w.byte x) →
      (∀ i T', (next (a.only w b) op out).tab i = some T' → i = b ∧ T'.sz.ty = T.sz.ty ∧
        ∀ e ∈ T'.es, e ∈ T.es ∨ ¬ (e.node ≤ x ∧ x < e.node + nodeSize)) → w'.byte x = w.byte x := by
    intro k1 k2 k3
    obtain ⟨ts, owner, φ, Fs, hi⟩ := hi
    have hfr : (view (next (a.only w b) op out)).Free x := by
      refine ⟨⟨c, k, k1, h3, h4⟩, fun hs => ?_, fun hs => ?_⟩
      · obtain ⟨i, T', h8, h9⟩ := view_struct.1 hs
        obtain ⟨rfl, h10, _⟩ := k3 i T' h8
        exact h6 ⟨T, hT, .inl (by rw [← h10]; exact h9)⟩
      · obtain ⟨i, T', f, h8, h9, h10⟩ := view_inNode.1 hs
        obtain ⟨rfl, _, h11⟩ := k3 i T' h8
        rcases h11 f h9 with h11 | h11
        · exact h6 ⟨T, hT, .inr ⟨f, h11, h10⟩⟩
        · exact h11 h10
    have := hi.rel.val (.fld x 1) (w.byte x) (View.mkF_ne.2 (.inr ⟨rfl, hfr⟩)) (by simp only [HashFlat.val]; rw [View.mkF_free hfr]; exact k2)
    simpa [rdN, adr, siz] using this
  cases op with
  | call t ty op m cc =>
    obtain rfl : t = b := Option.some.inj ho
    refine key henv ?_ ?_
    · cases op with
      | insert p d hh =>
        show forget _ p nodeSize x = _
        rw [forget, if_neg (by exact h7)]; exact hby
      | _ => exact hby
    · intro i T' hi'
      simp only [next, only_self, hT, Option.map_some] at hi'
      by_cases hib : i = t
      · subst hib
        rw [upd_same] at hi'
        injection hi' with hi'
        subst hi'
        refine ⟨rfl, next_ty _ _ _, fun f hf => ?_⟩
        rcases after_nodes hf with h8 | ⟨p, d, hh, rfl, h8⟩
        · exact .inl h8
        · exact .inr (by rw [h8]; exact h7)
      · rw [upd_ne hib] at hi'
        exact absurd (only_tab hi').1 hib
  | usage t ty =>
    obtain rfl : t = b := Option.some.inj ho
    refine key henv hby fun i T' hi' => ?_
    obtain ⟨rfl, h8⟩ := only_tab hi'
    rw [hT] at h8
    injection h8 with h8
    subst h8
    exact ⟨rfl, rfl, fun f hf => .inl hf⟩
  | done t ty =>
    obtain rfl : t = b := Option.some.inj ho
    refine key henv hby fun i T' hi' => ?_
    simp only [next] at hi'
    by_cases hib : i = t
    · subst hib; rw [upd_same] at hi'; cases hi'
    · rw [upd_ne hib] at hi'
      exact absurd (only_tab hi').1 hib
  | destroy t ty =>
    obtain rfl : t = b := Option.some.inj ho
    have ht : ∀ i T', (next (a.only w t) (.destroy t ty) out).tab i ≠ some T' := by
      intro i T' hi'
      simp only [next] at hi'
      by_cases hib : i = t
      · subst hib; rw [upd_same] at hi'; cases hi'
      · rw [upd_ne hib] at hi'
        exact absurd (only_tab hi').1 hib
    refine key ?_ hby fun i T' hi' => absurd hi' (ht i T')
    rcases (hi.region c k).2 h2 with h8 | ⟨i, T', h8, _⟩
    · exact h8
    · exact absurd h8 (ht i T')
  | _ => cases ho

/-- init writes only in the struct and in the memory that it gets. -/
theorem frame_init (h : FInv w a) {t n m : Nat} {ty : Ty} {cc : Nat → Nat} (hl : legal a (.init t ty n m cc))
    (e : step (.init t ty n m cc) w = some (out, w')) {x c k : Nat} (h1 : w.live c = some k) (h3 : c ≤ x) (h4 : x < c + k)
    (h6 : ¬ (t ≤ x ∧ x < t + structSize ty)) : w'.byte x = w.byte x := by
  have hn : ∀ i, (⟨w.live, fun _ => none, fun x => some (w.byte x)⟩ : Ab).tab i = none := fun i => rfl
  have hi : FInv w ⟨w.live, fun _ => none, fun x => some (w.byte x)⟩ := by
    obtain ⟨ts, owner, φ, Fs, h⟩ := h
    exact init_inv ⟨h.rel.byte, h.rel.pos, h.rel.reg, rfl, rfl, fun _ => rfl⟩
  obtain ⟨⟨⟨c', k', l1, l2⟩, l3⟩, l4, l5, l6⟩ := hl
  have hl' : legal ⟨w.live, fun _ => none, fun x => some (w.byte x)⟩ (.init t ty n m cc) := by
    refine ⟨⟨⟨c', k', (h.region c' k').1 (.inl l1), l2⟩, fun x _ _ => ⟨?_, ?_⟩⟩, l4, ?_, l6⟩
    · rintro ⟨i, T, hT, _⟩; cases hT
    · rintro ⟨i, T, f, hT, _⟩; cases hT
    · have e : ∀ c k, (⟨w.live, fun _ => none, fun x => some (w.byte x)⟩ : Ab).Region c k ↔ a.Region c k := fun c k => by rw [h.region, hi.region]
      simpa only [Ab.Fresh, e] using l5
  obtain ⟨out', w'', e', _, ts, owner, φ, Fs, hi'⟩ := step_inv hi hl'
  rw [e] at e'
  simp only [Option.some.injEq, Prod.mk.injEq] at e'
  obtain ⟨rfl, rfl⟩ := e'
  generalize ha : next ⟨w.live, fun _ => none, fun x => some (w.byte x)⟩ (.init t ty n m cc) out = a' at hi'
  have htab : ∀ i T, a'.tab i = some T → i = t ∧ T.sz = Sz.start n ty ∧ T.es = [] := by
    intro i T hT
    rw [← ha] at hT
    simp only [next] at hT
    by_cases hib : i = t
    · subst hib
      rw [upd_same] at hT
      injection hT with hT
      subst hT
      exact ⟨rfl, rfl, rfl⟩
    · rw [upd_ne hib] at hT; cases hT
  have hfr : (view a').Free x := by
    refine ⟨⟨c, k, by rw [← ha]; exact h1, h3, h4⟩, fun hs => ?_, fun hs => ?_⟩
    · obtain ⟨i, T', h8, h9⟩ := view_struct.1 hs
      obtain ⟨rfl, h10, _⟩ := htab i T' h8
      rw [h10, show (Sz.start n ty).ty = ty by cases ty <;> rfl] at h9
      exact h6 h9
    · obtain ⟨i, T', f, h8, h9, h10⟩ := view_inNode.1 hs
      obtain ⟨rfl, _, h11⟩ := htab i T' h8
      rw [h11] at h9; cases h9
  have := hi'.rel.val (.fld x 1) (w.byte x) (View.mkF_ne.2 (.inr ⟨rfl, hfr⟩)) (by
    simp only [HashFlat.val]
    rw [View.mkF_free hfr, ← ha]
    show forget _ t (structSize ty) x = _
    rw [forget, if_neg h6])
  simpa [rdN, adr, siz] using this

end

end HashFlatSpec
end Tommy
