import Verif.Proof.HashFlatFrame
/-! Where the tables are in the memory, and the other tables during a call. -/
set_option linter.unusedSimpArgs false
set_option linter.unusedVariables false
set_option linter.unusedSectionVars false
namespace Tommy

variable [Arch]
namespace HashFlatSpec
open HashSpec (Elem LiveOk SameNode)
open TablesSpec (Tbl tblImpl Good given without tbl_ok)
open HashFlat

section
variable {w w' : AMem} {a : Ab} {b : Nat} {T : Tab} {op : Op} {out : Out}

theorem apart_byte {p n q m x : Nat} (h : p + n ≤ q ∨ q + m ≤ p) (h1 : p ≤ x) (h2 : x < p + n) (h3 : q ≤ x) (h4 : x < q + m) : False := by
  omega

theorem FInv.own_total (h : FInv w a) (hT : a.tab b = some T) : total T.own = ptrSize * T.sz.buckets := by
  obtain ⟨ts, owner, φ, Fs, h⟩ := h
  obtain ⟨t, _, h2, _, h4, g⟩ := h.good hT
  rw [h4, HashFlat.own_total g, h2]

theorem FInv.own_nodup (h : FInv w a) (hT : a.tab b = some T) : (T.own.map Prod.fst).Nodup := by
  obtain ⟨ts, owner, φ, Fs, h⟩ := h
  obtain ⟨t, _, _, _, h4, g⟩ := h.good hT
  rw [h4]
  cases t with
  | hashtable t => simp [ownOf]
  | hashdyn t => simp [ownOf]
  | hashlin t =>
    have g : HashSpec.LinInv _ t _ _ := g
    obtain ⟨vs, s⟩ := g.segs
    have h6 := g.bit
    rw [ownOf, linOwn_eq h.rel s (by omega), List.map_map, List.nodup_map_iff_inj_on (List.nodup_reverse.2 List.nodup_range')]
    intro i hi j hj e
    simp only [List.mem_reverse, List.mem_range'_1] at hi hj
    have h1 := s.len i (by omega) (by omega)
    have h2 := s.len j (by omega) (by omega)
    exact s.inj i j (by omega) (by omega) (by omega) (by omega) (h.rel.vinj _ _ (by rw [h1]; simp) (by rw [h2]; simp) e)

/-- The sizes of the vectors. -/
theorem FInv.own_sizes (h : FInv w a) (hT : a.tab b = some T) : match T.sz with
    | .hashtable n | .hashdyn n => T.own.map Prod.snd = [ptrSize * n]
    | .hashlin z => ∃ k, z.size = 2 ^ (6 + k) ∧
        T.own.map Prod.snd = (((List.range k).map fun i => ptrSize * 2 ^ (6 + i)).reverse ++ [ptrSize * 64]) := by
  obtain ⟨ts, owner, φ, Fs, h⟩ := h
  obtain ⟨t, _, h2, _, h4, g⟩ := h.good hT
  rw [h4, ← h2]
  cases t with
  | hashtable t => simp [ownOf, szOf]
  | hashdyn t => simp [ownOf, szOf]
  | hashlin t =>
    have g : HashSpec.LinInv _ t _ _ := g
    have h6 := g.bit
    refine ⟨t.bucketBit - 6, by simp only [HashSpec.linSize, g.max]; congr 1; omega, ?_⟩
    simp only [ownOf]
    generalize t.bucketBit - 6 = k
    induction k with
    | zero => simp [linOwn]
    | succ k ih => simp only [linOwn, linSeg, List.map_cons, ih, List.range_succ, List.map_append, List.reverse_append]; rfl

theorem FInv.own_env (h : FInv w a) {p : Nat} (ho : a.owned b p) : a.env p = none := by
  obtain ⟨ts, owner, φ, Fs, h⟩ := h
  cases he : a.env p with
  | none => rfl
  | some n => exact absurd ho (h.env_not_owned he)

theorem FInv.own_one (h : FInv w a) {b' p : Nat} (h1 : a.owned b p) (h2 : a.owned b' p) : b = b' := by
  obtain ⟨ts, owner, φ, Fs, h⟩ := h
  obtain ⟨v, h3, h4⟩ := h.owned.1 h1
  obtain ⟨v', h5, h6⟩ := h.owned.1 h2
  have := h.rel.vinj v v' (h.inv.own v b h3).1 (h.inv.own v' b' h5).1 (by rw [h4, h6])
  subst this
  rw [h3] at h5
  exact Option.some.inj h5

/-- A byte used by a table is in a region of the program. -/
theorem FInv.uses_env (h : FInv w a) {x : Nat} (hu : a.uses b x) : ∃ c k, a.env c = some k ∧ c ≤ x ∧ x < c + k := by
  obtain ⟨ts, owner, φ, Fs, h⟩ := h
  obtain ⟨T, hT, h1 | ⟨e, h1, h2⟩⟩ := hu
  · obtain ⟨c, k, h2, h3, h4⟩ := h.lay.str b _ _ (view_sh.2 ⟨T, hT, rfl, rfl⟩)
    exact ⟨c, k, h2, by omega, by omega⟩
  · obtain ⟨c, k, h3, h4, h5⟩ := h.lay.node e.node (view_node.2 ⟨b, T, hT, List.mem_map_of_mem h1⟩)
    exact ⟨c, k, h3, Nat.le_trans h4 h2.1, Nat.lt_of_lt_of_le h2.2 h5⟩

/-- A node is in one table. -/
theorem FInv.node_one (h : FInv w a) {b' : Nat} {T' : Tab} (hT : a.tab b = some T) (hT' : a.tab b' = some T') {e e' : Elem} (he : e ∈ T.es)
    (he' : e' ∈ T'.es) (hn : e.node = e'.node) : b = b' := by
  obtain ⟨ts, owner, φ, Fs, h⟩ := h
  by_contra hne
  refine h.inv.apart b b' e.node hne ⟨T.es, by simp [tabsOf, hT], List.mem_map_of_mem he⟩ ⟨T'.es, by simp [tabsOf, hT'], ?_⟩
  rw [hn]; exact List.mem_map_of_mem he'

/-- Two tables do not use the same byte. -/
theorem FInv.uses_one (h : FInv w a) {b' x : Nat} (h1 : a.uses b x) (h2 : a.uses b' x) : b = b' := by
  have h' := h
  obtain ⟨ts, owner, φ, Fs, h⟩ := h
  obtain ⟨T, hT, h1⟩ := h1
  obtain ⟨T', hT', h2⟩ := h2
  have s1 := view_sh.2 ⟨T, hT, rfl, rfl⟩
  have s2 := view_sh.2 ⟨T', hT', rfl, rfl⟩
  by_contra hne
  rcases h1 with h1 | ⟨e, h1, h3⟩
  · rcases h2 with h2 | ⟨f, h2, h4⟩
    · have := h.lay.ssep _ _ _ _ _ _ s1 s2 hne
      omega
    · have := h.lay.nssep f.node _ _ _ (view_node.2 ⟨b', T', hT', List.mem_map_of_mem h2⟩) s1
      exact apart_byte this h4.1 h4.2 h1.1 h1.2
  · have n1 := view_node.2 ⟨b, T, hT, List.mem_map_of_mem h1⟩
    rcases h2 with h2 | ⟨f, h2, h4⟩
    · have := h.lay.nssep e.node _ _ _ n1 s2
      exact apart_byte this h3.1 h3.2 h2.1 h2.2
    · by_cases hef : e.node = f.node
      · exact hne (h'.node_one hT hT' h1 h2 hef)
      · have := h.lay.nsep e.node f.node n1 (view_node.2 ⟨b', T', hT', List.mem_map_of_mem h2⟩) hef
        have l1 : (e.node : Nat) < (f.node : Nat) + nodeSize := Nat.lt_of_le_of_lt h3.1 h4.2
        have l2 : (f.node : Nat) < (e.node : Nat) + nodeSize := Nat.lt_of_le_of_lt h4.1 h3.2
        rcases this with g | g
        · exact absurd l2 (Nat.not_lt.2 g)
        · exact absurd l1 (Nat.not_lt.2 g)

/-- No table uses the memory that another one owns. -/
theorem FInv.own_uses (h : FInv w a) {b' c k x : Nat} (hT : a.tab b = some T) (hc : (c, k) ∈ T.own) (h1 : c ≤ x) (h2 : x < c + k) : ¬ a.uses b' x := by
  intro hu
  obtain ⟨d, m, h3, h4, h5⟩ := h.uses_env hu
  have l1 := (h.region c k).1 (.inr ⟨b, T, hT, hc⟩)
  have l2 := (h.region d m).1 (.inl h3)
  have hne : c ≠ d := by
    rintro rfl
    rw [h.own_env ⟨T, k, hT, hc⟩] at h3; cases h3
  obtain ⟨ts, owner, φ, Fs, h⟩ := h
  have := h.rel.reg _ _ _ _ l1 l2 hne
  omega

theorem FInv.mine_one (h : FInv w a) {b' x : Nat} (h1 : a.mine b x) (h2 : a.mine b' x) : b = b' := by
  rcases h1 with h1 | ⟨T, c, k, h1, h3, h4, h5⟩
  · rcases h2 with h2 | ⟨T', c', k', h6, h7, h8, h9⟩
    · exact h.uses_one h1 h2
    · exact absurd h1 (h.own_uses h6 h7 h8 h9)
  · rcases h2 with h2 | ⟨T', c', k', h6, h7, h8, h9⟩
    · exact absurd h2 (h.own_uses h1 h3 h4 h5)
    · have l1 := (h.region c k).1 (.inr ⟨b, T, h1, h3⟩)
      have l2 := (h.region c' k').1 (.inr ⟨b', T', h6, h7⟩)
      by_cases hc : c = c'
      · subst hc; exact h.own_one ⟨T, k, h1, h3⟩ ⟨T', k', h6, h7⟩
      · obtain ⟨ts, owner, φ, Fs, h⟩ := h
        have := h.rel.reg _ _ _ _ l1 l2 hc
        omega

/-- A call does not change the memory of the other tables. -/
theorem frame_other (h : FInv w a) (ho : op.on = some b) (hl : legal a op) (e : step op w = some (out, w')) {i x : Nat} (hib : i ≠ b)
    (hx : a.mine i x) : w'.byte x = w.byte x := by
  obtain ⟨out', w'', e', _, hi⟩ := step_inv h hl
  rw [e] at e'
  simp only [Option.some.injEq, Prod.mk.injEq] at e'
  obtain ⟨rfl, rfl⟩ := e'
  rcases hx with hx | ⟨T, c, k, h1, h3, h4, h5⟩
  · obtain ⟨c, k, h1, h3, h4⟩ := h.uses_env hx
    have l1 := (h.region c k).1 (.inl h1)
    have l2 : w'.live c = some k := by
      refine (hi.region c k).1 (.inl ?_)
      cases op with
      | call t ty op m cc => exact h1
      | usage t ty => exact h1
      | done t ty => exact h1
      | destroy t ty =>
        obtain rfl : t = b := Option.some.inj ho
        obtain ⟨T, hT, _, ho⟩ := hl
        simp only [next, hT, Option.map_some]
        rw [if_neg]
        · exact h1
        · simp only [Option.any_some, List.any_eq_true, decide_eq_true_eq, not_exists, not_and]
          intro f hf hd
          obtain ⟨n, h5, h6, h7, h8⟩ := ho f hf
          rw [hd, h1] at h5
          injection h5 with h5
          subst h5
          rw [hd] at h8
          obtain ⟨h9, h10⟩ := h8 x h3 h4
          obtain ⟨T', hT', h11 | ⟨g, h11, h12⟩⟩ := hx
          · exact h9 ⟨i, T', hT', h11⟩
          · have := h10 i T' g hT' h11 h12.1 h12.2
            subst this
            exact hib (h.node_one hT' hT h11 hf rfl)
      | _ => cases ho
    refine frame h ho hl e l1 l2 h3 h4 (fun ho => ?_) (fun hu => hib (h.uses_one hx hu)) ?_
    · rw [h.own_env ho] at h1; cases h1
    · cases op with
      | call t ty op m cc =>
        cases op with
        | insert p d hh =>
          obtain ⟨T, _, _, ⟨⟨_, h5⟩, _⟩, _⟩ := hl
          intro hn
          obtain ⟨h6, h7⟩ := h5 x hn.1 hn.2
          obtain ⟨T', hT', h11 | ⟨g, h11, h12⟩⟩ := hx
          · exact h6 ⟨i, T', hT', h11⟩
          · exact h7 ⟨i, T', g, hT', h11, h12⟩
        | _ => exact id
      | _ => exact id
  · have l1 := (h.region c k).1 (.inr ⟨i, T, h1, h3⟩)
    have l2 : w'.live c = some k := by
      refine (hi.region c k).1 (.inr ⟨i, T, ?_, h3⟩)
      cases op with
      | call t ty op m cc => obtain rfl : t = b := Option.some.inj ho; simp only [next]; rw [upd_ne hib]; exact h1
      | usage t ty => exact h1
      | done t ty => obtain rfl : t = b := Option.some.inj ho; simp only [next]; rw [upd_ne hib]; exact h1
      | destroy t ty => obtain rfl : t = b := Option.some.inj ho; simp only [next]; rw [upd_ne hib]; exact h1
      | _ => cases ho
    refine frame h ho hl e l1 l2 h4 h5 (fun ho => hib (h.own_one ⟨T, k, h1, h3⟩ ho)) (h.own_uses h1 h3 h4 h5) ?_
    cases op with
    | call t ty op m cc =>
      cases op with
      | insert p d hh =>
        obtain ⟨T', _, _, ⟨⟨⟨d', m', h6, h7⟩, _⟩, _⟩, _⟩ := hl
        intro hn
        have l3 := (h.region d' m').1 (.inl h6)
        have hne : c ≠ d' := by
          rintro rfl
          rw [h.own_env ⟨T, k, h1, h3⟩] at h6; cases h6
        obtain ⟨ts, owner, φ, Fs, h⟩ := h
        have := h.rel.reg _ _ _ _ l1 l3 hne
        exact apart_byte this h4 h5 (Nat.le_trans h7.1 hn.1) (Nat.lt_of_lt_of_le hn.2 h7.2)
      | _ => exact id
    | _ => exact id

end

end HashFlatSpec
end Tommy
