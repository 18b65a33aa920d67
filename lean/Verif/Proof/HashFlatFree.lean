import Verif.Proof.HashFlatInv
/-! The deallocation of the objects of a hashtable, and the program. -/
set_option linter.unusedSimpArgs false
set_option linter.unusedVariables false
namespace Tommy

variable [Arch]
namespace HashFlatSpec
open HashSpec (Elem LiveOk SameNode BInv ERep)
open TablesSpec (Tbl tblImpl Good given without tbl_ok)
open HashFlat

/-! ### The memory after free() of an object of `k` bytes at the address `d` -/

def cutF (F : Fld) (d k : Nat) : Fld := fun x n => if d ≤ x ∧ x < d + k then none else F x n

def cutH (h : Heap) (d k : Nat) : Heap := { h with valid := fun p => h.valid p && !decide (d ≤ p ∧ p < d + k) }

def cutM (m : Mem) (d k : Nat) : Mem := { m with heap := cutH m.heap d k }

def cutG (G : Gh) (d k : Nat) : Gh :=
  { G with env := upd G.env d none, F := cutF G.F d k, log := G.log ++ [.gave d], live := upd G.live d none }

theorem cutM_ok {m : Mem} {d k p : Nat} : (cutM m d k).heap.ok p ↔ m.heap.ok p ∧ ¬ (d ≤ p ∧ p < d + k) := by
  simp only [Heap.ok, cutM, cutH, Bool.and_eq_true, Bool.not_eq_true', decide_eq_false_iff_not]
  exact ⟨fun h => ⟨⟨h.1, h.2.1⟩, h.2.2⟩, fun h => ⟨h.1.1, h.1.2, h.2⟩⟩

theorem cut_rel {env : Nat → Option Nat} {F : Fld} {φ : Nat → Nat} {m : Mem} {w : AMem} (R : Rel env F φ m w) {d k : Nat} (hd : env d = some k)
    (hp : ∀ x n, F x n ≠ none → 0 < n) : Rel (upd env d none) (cutF F d k) φ (cutM m d k) ⟨w.byte, upd w.live d none⟩ := by
  have hl := (R.live d k).2 (.inl hd)
  have hφ : ∀ v, m.vlen v ≠ none → φ v ≠ d := by
    intro v hv e
    have := R.venv v hv
    rw [e, hd] at this; cases this
  have hF : ∀ x n, cutF F d k x n ≠ none → ¬ (d ≤ x ∧ x < d + k) ∧ F x n ≠ none := by
    intro x n h
    by_cases hx : d ≤ x ∧ x < d + k
    · simp [cutF, hx] at h
    · exact ⟨hx, by simpa [cutF, hx] using h⟩
  have sub : ∀ x n, 0 < n → ¬ (d ≤ x ∧ x < d + k) → InE env x n → InE (upd env d none) x n := by
    rintro x n hn hx ⟨b, j, h1, h2, h3⟩
    refine ⟨b, j, ?_, h2, h3⟩
    rw [upd_ne]; exact h1
    rintro rfl
    rw [hd] at h1
    injection h1 with h1
    omega
  refine ⟨R.byte, fun b n => ?_, fun b n h => ?_, fun b n b' n' h h' hne => ?_, R.vinj, fun v hv => ?_, R.fresh, fun p hok => ?_, fun p q h h' =>
    R.nsep p q (cutM_ok.1 h).1 (cutM_ok.1 h').1, fun x n h => ?_, fun x n x' n' h h' => R.fsep x n x' n' (hF x n h).2 (hF x' n' h').2,
    fun p x n h h' => R.nfsep p x n (cutM_ok.1 h).1 (hF x n h').2, fun o c ho hc => ?_⟩
  · by_cases hb : b = d
    · subst hb
      simp only [upd_same]
      refine ⟨.inl, ?_⟩
      rintro (h1 | ⟨v, j, h1, h2, h3⟩)
      · exact h1
      · have h1 : m.vlen v = some j := h1
        exact absurd h2 (hφ v (by rw [h1]; simp))
    · simp only [upd_ne hb]; exact R.live b n
  · by_cases hb : b = d
    · subst hb; simp only [upd_same] at h; cases h
    · simp only [upd_ne hb] at h; exact R.pos b n h
  · by_cases e1 : b = d
    · subst e1; simp only [upd_same] at h; cases h
    · by_cases e2 : b' = d
      · subst e2; simp only [upd_same] at h'; cases h'
      · simp only [upd_ne e1] at h
        simp only [upd_ne e2] at h'
        exact R.reg b n b' n' h h' hne
  · rw [upd_ne (hφ v hv)]; exact R.venv v hv
  · obtain ⟨h1, h2⟩ := cutM_ok.1 hok
    exact sub p nodeSize (by arch) h2 (R.node p h1)
  · obtain ⟨h1, h2⟩ := hF x n h
    exact sub x n (hp x n h2) h1 (R.fin x n h2)
  · cases o with
    | fld x n =>
      obtain ⟨h1, h2⟩ := hF x n ho
      exact R.val (.fld x n) c h2 (by simpa [HashFlat.val, cutF, h1] using hc)
    | cell v i => exact R.val (.cell v i) c ho hc
    | next p => exact R.val (.next p) c (cutM_ok.1 ho).1 hc
    | prev p => exact R.val (.prev p) c (cutM_ok.1 ho).1 hc
    | data p => exact R.val (.data p) c (cutM_ok.1 ho).1 hc
    | index p => exact R.val (.index p) c (cutM_ok.1 ho).1 hc

theorem cut_free {G : Gh} {m : Mem} {W : BMem} (h : GRel G m W) {d k : Nat} (hd : G.env d = some k) (hp : ∀ x n, G.F x n ≠ none → 0 < n) :
    ∃ W', bfree d W = some ((), W') ∧ GRel (cutG G d k) (cutM m d k) W' := by
  have hl := (h.rel.live d k).2 (.inl hd)
  refine ⟨_, by simp only [bfree, hl, Option.isSome_some, if_true]; rfl, ?_⟩
  refine ⟨?_, h.ms, ?_, ?_, h.new⟩
  · exact cut_rel h.rel hd hp
  · simp only [cutG, h.log]
  · simp only [cutG, h.live]

/-- The objects of some elements are freed. -/
def cutGs (env : Nat → Option Nat) (G : Gh) (L : List Elem) : Gh := L.foldl (fun G e => cutG G e.data ((env e.data).getD 0)) G
def cutMs (env : Nat → Option Nat) (m : Mem) (L : List Elem) : Mem := L.foldl (fun m e => cutM m e.data ((env e.data).getD 0)) m

/-- In the object of an element. -/
def InObj (env : Nat → Option Nat) (L : List Elem) (x : Nat) : Prop := ∃ e ∈ L, e.data ≤ x ∧ x < e.data + (env e.data).getD 0

section
variable {env : Nat → Option Nat}

theorem cutMs_same (L : List Elem) : ∀ m, (cutMs env m L).vlen = m.vlen ∧ (cutMs env m L).vcell = m.vcell ∧ (cutMs env m L).vnext = m.vnext ∧
    (cutMs env m L).heap.next = m.heap.next ∧ (cutMs env m L).heap.data = m.heap.data ∧ (cutMs env m L).heap.prev = m.heap.prev ∧
    (cutMs env m L).heap.index = m.heap.index := by
  induction L with
  | nil => intro m; exact ⟨rfl, rfl, rfl, rfl, rfl, rfl, rfl⟩
  | cons e L ih => intro m; exact ih _

theorem cutMs_ok (L : List Elem) {p : Nat} : ∀ m, (cutMs env m L).heap.ok p ↔ m.heap.ok p ∧ ¬ InObj env L p := by
  induction L with
  | nil => intro m; simp [cutMs, InObj]
  | cons e L ih =>
    intro m
    rw [show cutMs env m (e :: L) = cutMs env (cutM m e.data ((env e.data).getD 0)) L from rfl, ih, cutM_ok]
    simp only [InObj, List.mem_cons, exists_eq_or_imp, not_or, and_assoc]

theorem cutGs_same (L : List Elem) : ∀ G, (cutGs env G L).φ = G.φ ∧ (cutGs env G L).ms = G.ms ∧ (cutGs env G L).N = G.N ∧
    (cutGs env G L).log = G.log ++ L.map fun e => .gave e.data := by
  induction L with
  | nil => intro G; exact ⟨rfl, rfl, rfl, by simp [cutGs]⟩
  | cons e L ih =>
    intro G
    obtain ⟨h1, h2, h3, h4⟩ := ih (cutG G e.data ((env e.data).getD 0))
    refine ⟨h1, h2, h3, ?_⟩
    rw [show cutGs env G (e :: L) = cutGs env (cutG G e.data ((env e.data).getD 0)) L from rfl, h4]
    simp [cutG]

theorem cutGs_env (L : List Elem) {d : Nat} : ∀ G, (cutGs env G L).env d = if d ∈ L.map Elem.data then none else G.env d := by
  induction L with
  | nil => intro G; simp [cutGs]
  | cons e L ih =>
    intro G
    rw [show cutGs env G (e :: L) = cutGs env (cutG G e.data ((env e.data).getD 0)) L from rfl, ih]
    by_cases h : d ∈ L.map Elem.data
    · simp [h]
    · by_cases h1 : d = e.data
      · subst h1; simp [cutG]
      · simp only [h, if_false, List.map_cons, List.mem_cons, h1, or_self, cutG, upd_ne h1]

open Classical in
theorem cutGs_F (L : List Elem) {x n : Nat} : ∀ G, (cutGs env G L).F x n = if InObj env L x then none else G.F x n := by
  induction L with
  | nil => intro G; simp [cutGs, InObj]
  | cons e L ih =>
    intro G
    rw [show cutGs env G (e :: L) = cutGs env (cutG G e.data ((env e.data).getD 0)) L from rfl, ih]
    by_cases h : InObj env L x
    · have : InObj env (e :: L) x := by obtain ⟨f, hf, h⟩ := h; exact ⟨f, List.mem_cons_of_mem _ hf, h⟩
      simp [h, this]
    · by_cases h1 : e.data ≤ x ∧ x < e.data + (env e.data).getD 0
      · have : InObj env (e :: L) x := ⟨e, by simp, h1⟩
        simp [h, this, cutG, cutF, h1]
      · have : ¬ InObj env (e :: L) x := by
          rintro ⟨f, hf, h2⟩
          rcases List.mem_cons.1 hf with rfl | hf
          · exact h1 h2
          · exact h ⟨f, hf, h2⟩
        simp [h, this, cutG, cutF, h1]

end

/-! ### foreach -/

section
variable {Gf : List Elem → Gh} {Mf : List Elem → Mem} {func : Nat → BM Unit} {L : List Elem}

theorem bbucket_run (hok : ∀ vis e rest, L = vis ++ e :: rest → (Mf vis).heap.ok e.node ∧ (Mf vis).heap.data e.node = e.data)
    {h : Heap} (hnx : ∀ vis p, (Mf vis).heap.next p = h.next p)
    (hcall : ∀ vis e rest, L = vis ++ e :: rest → ∀ W, GRel (Gf vis) (Mf vis) W → ∃ W', func e.data W = some ((), W') ∧
      GRel (Gf (vis ++ [e])) (Mf (vis ++ [e])) W') :
    ∀ K vis rest, L = vis ++ K ++ rest → Fwd h (K.map Elem.node) 0 → ∀ W, GRel (Gf vis) (Mf vis) W →
      ∃ W', bbucketForeachLoop func ((K.map Elem.node).headD 0) W = some ((), W') ∧ GRel (Gf (vis ++ K)) (Mf (vis ++ K)) W' := by
  intro K
  induction K with
  | nil =>
    intro vis rest hL hf W hr
    refine ⟨W, ?_, by simpa using hr⟩
    rw [bbucketForeachLoop]; simp
  | cons e K ih =>
    intro vis rest hL hf W hr
    have hL' : L = vis ++ e :: (K ++ rest) := by rw [hL]; simp
    obtain ⟨o1, o2⟩ := hok vis e _ hL'
    obtain ⟨x1, W1, G1, e1, r1, rfl, rfl, _⟩ := sim_getData (G := Gf vis) e.node (Mf vis) W hr _ _ (onNodes_run (getData_run o1))
    obtain ⟨x2, W2, G2, e2, r2, rfl, rfl, _⟩ := sim_getNext (G := Gf vis) e.node (Mf vis) W1 r1 _ _ (onNodes_run (getNext_run o1))
    obtain ⟨W3, e3, r3⟩ := hcall vis e _ hL' W2 r2
    obtain ⟨W4, e4, r4⟩ := ih (vis ++ [e]) rest (by rw [hL]; simp) hf.2 W3 r3
    refine ⟨W4, ?_, by simpa using r4⟩
    have hne : e.node ≠ 0 := o1.1
    have hfx : (Mf vis).heap.next e.node = (K.map Elem.node).headD 0 := by rw [hnx]; exact hf.1
    rw [List.map_cons, List.headD_cons, bbucketForeachLoop]
    simp only [hne, if_false, run_ite, run_bind, e1, Option.bind_some, e2, o2, e3, hfx, e4]

theorem bforeach_run {n : Nat} {B : Nat → List Elem} {rf : Nat → BM Nat} (hL : L = (List.range' 0 n).flatMap B)
    (hok : ∀ vis e rest, L = vis ++ e :: rest → (Mf vis).heap.ok e.node ∧ (Mf vis).heap.data e.node = e.data)
    {h : Heap} (hnx : ∀ vis p, (Mf vis).heap.next p = h.next p)
    (hfw : ∀ b, b < n → Fwd h ((B b).map Elem.node) 0)
    (hcell : ∀ vis rest b, L = vis ++ rest → b < n → ∀ W, GRel (Gf vis) (Mf vis) W → ∃ r W1 W2, rf b W = some (r, W1) ∧ bget r W1 = some (((B b).map Elem.node).headD 0, W2) ∧
      GRel (Gf vis) (Mf vis) W2)
    (hcall : ∀ vis e rest, L = vis ++ e :: rest → ∀ W, GRel (Gf vis) (Mf vis) W → ∃ W', func e.data W = some ((), W') ∧
      GRel (Gf (vis ++ [e])) (Mf (vis ++ [e])) W') {W : BMem} (hr : GRel (Gf []) (Mf []) W) :
    ∃ W', bposForeachLoop func rf 0 n W = some ((), W') ∧ GRel (Gf L) (Mf L) W' := by
  have key : ∀ k pos, pos + k = n → ∀ W, GRel (Gf ((List.range' 0 pos).flatMap B)) (Mf ((List.range' 0 pos).flatMap B)) W →
      ∃ W', bposForeachLoop func rf pos k W = some ((), W') ∧ GRel (Gf L) (Mf L) W' := by
    intro k
    induction k with
    | zero =>
      intro pos hp W hr
      have : pos = n := by omega
      subst this
      exact ⟨W, rfl, by rw [hL]; exact hr⟩
    | succ k ih =>
      intro pos hp W hr
      have hspl : L = (List.range' 0 pos).flatMap B ++ B pos ++ (List.range' (pos + 1) k).flatMap B := by
        rw [hL, ← hp, ← List.range'_append_1, List.flatMap_append, List.range'_succ, List.flatMap_cons]
        simp
      obtain ⟨r, W1, W2, e1, e2, r2⟩ := hcell _ _ pos (by rw [hspl, List.append_assoc]) (by omega) W hr
      obtain ⟨W3, e3, r3⟩ := bbucket_run hok hnx hcall (B pos) _ _ hspl (hfw pos (by omega)) W2 r2
      have hs : (List.range' 0 pos).flatMap B ++ B pos = (List.range' 0 (pos + 1)).flatMap B := by
        rw [← List.range'_append_1 (s := 0) (m := pos) (n := 1), List.flatMap_append]
        simp
      rw [hs] at r3
      obtain ⟨W4, e4, r4⟩ := ih (pos + 1) (by omega) W3 r3
      refine ⟨W4, ?_, r4⟩
      simp only [bposForeachLoop, run_bind, e1, Option.bind_some, e2, e3, e4]
  exact key n 0 (by omega) W (by simpa using hr)

end

/-! ### foreach with free() -/

/-- The objects of the elements: each is a region of the program, with the node, and it has no field of the structs and no other node. -/
structure Objs (G : Gh) (m : Mem) (es : List Elem) (b : Nat) (ty : Ty) : Prop where
  reg : ∀ e ∈ es, ∃ k, G.env e.data = some k ∧ e.data ≤ e.node ∧ e.node < e.data + k
  str : ∀ o n, IsField ty o n → ¬ InObj G.env es (b + o)
  node : ∀ e ∈ es, ∀ f ∈ es, f.data ≤ e.node → e.node < f.data + (G.env f.data).getD 0 → f = e
  pos : ∀ x n, G.F x n ≠ none → 0 < n

theorem InObj.sub {env : Nat → Option Nat} {L L' : List Elem} {x : Nat} (h : InObj env L x) (hs : ∀ e ∈ L, e ∈ L') : InObj env L' x := by
  obtain ⟨e, he, h⟩ := h
  exact ⟨e, hs e he, h⟩

section
variable {G : Gh} {m : Mem} {W : BMem} {b : Nat} {es : List Elem} {ty : Ty}

theorem Objs.cell (r : Ref) {p : Nat} (hc : m.cell? r = some p) {L : List Elem} (hr : GRel (cutGs G.env G L) (cutMs G.env m L) W) :
    ∃ W', bget (aR G.φ r) W = some (p, W') ∧ GRel (cutGs G.env G L) (cutMs G.env m L) W' := by
  have hc' : (cutMs G.env m L).cell? r = some p := by
    obtain ⟨h1, h2, _⟩ := cutMs_same (env := G.env) L m
    simpa only [Mem.cell?, h1, h2] using hc
  obtain ⟨_, W', G', h1, h2, h3, h4⟩ := sim_readRef (G := cutGs G.env G L) r _ W hr _ _ (readRef_of hc')
  rw [(cutGs_same (env := G.env) L G).1] at h1
  subst h3
  obtain ⟨rfl, h5⟩ := h4
  exact ⟨W', h1, h2⟩

theorem Objs.run {n : Nat} {ref : Nat → Ref} {place : Nat → Nat} {B : Nat → List Elem} (O : Objs G m es b ty) (i : BInv m ref (· < n) place B es)
    {rf : Nat → BM Nat} (hrf : ∀ L, (∀ e ∈ L, e ∈ es) → ∀ pos, pos < n → ∀ W, GRel (cutGs G.env G L) (cutMs G.env m L) W →
      ∃ W', rf pos W = some (aR G.φ (ref pos), W') ∧ GRel (cutGs G.env G L) (cutMs G.env m L) W') (hr : GRel G m W) :
    ∃ W' L, bposForeachLoop bfree rf 0 n W = some ((), W') ∧ L.Perm es ∧ GRel (cutGs G.env G L) (cutMs G.env m L) W' := by
  have hperm := i.perm
  have hnd : ((List.range' 0 n).flatMap B).Nodup := hperm.nodup_iff.2 (List.Nodup.of_map _ i.nodup)
  have hmem : ∀ vis e rest, (List.range' 0 n).flatMap B = vis ++ e :: rest → e ∈ es ∧ (∀ f ∈ vis, f ∈ es) ∧ e ∉ vis := by
    intro vis e rest h
    have h1 : ∀ f ∈ vis ++ e :: rest, f ∈ es := fun f hf => hperm.mem_iff.1 (h ▸ hf)
    rw [h] at hnd
    refine ⟨h1 e (by simp), fun f hf => h1 f (by simp [hf]), fun hv => ?_⟩
    have := (List.nodup_append.1 hnd).2.2 e hv e (by simp)
    exact this rfl
  obtain ⟨W', h1, h2⟩ := bforeach_run (Gf := cutGs G.env G) (Mf := cutMs G.env m) (func := bfree) (B := B) (rf := rf) rfl (h := m.heap)
    (fun vis e rest h => by
      obtain ⟨h1, h2, h3⟩ := hmem vis e rest h
      refine ⟨(cutMs_ok vis m).2 ⟨i.ok h1, ?_⟩, ?_⟩
      · rintro ⟨f, hf, h4, h5⟩
        have := O.node e h1 f (h2 f hf) h4 h5
        subst this
        exact h3 hf
      · rw [(cutMs_same vis m).2.2.2.2.1]
        obtain ⟨p, _, r⟩ := i.cells _ (i.place_act e.hash)
        exact r.data e ((i.mem_iff (i.place_act _)).2 ⟨h1, rfl⟩))
    (fun vis p => by rw [(cutMs_same vis m).2.2.2.1])
    (fun c hc => by
      obtain ⟨p, _, r⟩ := i.cells c hc
      exact r.list.seg.fwd)
    (fun vis rest c hv hc W hr => by
      obtain ⟨W1, h1, h2⟩ := hrf vis (fun e he => hperm.mem_iff.1 (by rw [hv]; simp [he])) c hc W hr
      obtain ⟨p, hp, r⟩ := i.cells c hc
      obtain ⟨W2, h3, h4⟩ := Objs.cell (ref c) hp h2
      exact ⟨_, W1, W2, h1, by rw [← r.list.head]; exact h3, h4⟩)
    (fun vis e rest h W hr => by
      obtain ⟨h1, h2, h3⟩ := hmem vis e rest h
      obtain ⟨k, h4, h5, h6⟩ := O.reg e h1
      have hG : cutGs G.env G (vis ++ [e]) = cutG (cutGs G.env G vis) e.data k := by
        simp only [cutGs, List.foldl_append, List.foldl_cons, List.foldl_nil, h4, Option.getD_some]
      have hM : cutMs G.env m (vis ++ [e]) = cutM (cutMs G.env m vis) e.data k := by
        simp only [cutMs, List.foldl_append, List.foldl_cons, List.foldl_nil, h4, Option.getD_some]
      rw [hG, hM]
      refine cut_free hr ?_ ?_
      · rw [cutGs_env, if_neg, h4]
        intro hd
        obtain ⟨f, hf, hd⟩ := List.mem_map.1 hd
        have := O.node e h1 f (h2 f hf) (by rw [hd]; exact h5) (by rw [hd, h4]; exact h6)
        subst this
        exact h3 hf
      · intro x n hx
        refine O.pos x n fun h0 => hx ?_
        rw [cutGs_F, h0]; simp)
    (by simpa [cutGs, cutMs] using hr)
  exact ⟨W', _, h1, hperm, h2⟩
/-- The struct is not in the objects. -/
theorem Objs.at {t : Tbl} {N : Nat} (O : Objs G m es b (tyOf t)) (ht : TAt G.F G.φ N b t) {L : List Elem} (hL : ∀ e ∈ L, e ∈ es) :
    TAt (cutGs G.env G L).F (cutGs G.env G L).φ N b t := by
  refine ht.congr (fun o n ho => ?_) (fun v _ => by rw [(cutGs_same (env := G.env) L G).1]) (Nat.le_refl _)
  rw [cutGs_F, if_neg]
  exact fun h => O.str o n ho (h.sub hL)

theorem foreach_free {m0 : Mem} {t : Tbl} (O : Objs G m es b (tyOf t)) (g : Good m0 t m es) (hr : GRel G m W) (hN : G.N = m.vnext)
    (ht : TAt G.F G.φ m.vnext b t) :
    ∃ W' L, bforeach (tyOf t) b bfree W = some ((), W') ∧ L.Perm es ∧ GRel (cutGs G.env G L) (cutMs G.env m L) W' := by
  cases t with
  | hashtable x =>
    have g : HashSpec.TblInv m0 x m es := g
    obtain ⟨B, i⟩ := g.flat.binv
    have hA : TblAt G.F G.φ b x := ht.1
    obtain ⟨_, W1, G1, e1, r1, rfl, rfl⟩ := sim_fget_last (a := ()) (Q := fun _ p G' => p = x.bucketMax ∧ G' = G) hA.max (fun _ => ⟨rfl, rfl⟩) m W hr () m rfl
    obtain ⟨_, W2, G2, e2, r2, rfl, rfl⟩ := sim_fget_last (a := ()) (Q := fun _ p G' => p = aR G1.φ x.bucket ∧ G' = G1) hA.bucket (fun _ => ⟨rfl, rfl⟩) m W1 r1 () m rfl
    obtain ⟨W', L, h1, h2, h3⟩ := O.run i (rf := fun pos => pure (padd (aR G2.φ x.bucket) pos))
      (fun L hL pos hp W hr => ⟨W, by rw [padd_aR]; rfl, hr⟩) r2
    refine ⟨W', L, ?_, h2, h3⟩
    simp only [bforeach, tyOf, bhashtableForeach, run_bind, bget, e1, e2, Option.bind_some]
    exact h1
  | hashdyn x =>
    have g : HashSpec.DynInv m0 x m es := g
    obtain ⟨B, i⟩ := g.flat.binv
    have hA : DynAt G.F G.φ b x := ht.1
    obtain ⟨_, W1, G1, e1, r1, rfl, rfl⟩ := sim_fget_last (a := ()) (Q := fun _ p G' => p = x.bucketMax ∧ G' = G) hA.max (fun _ => ⟨rfl, rfl⟩) m W hr () m rfl
    obtain ⟨_, W2, G2, e2, r2, rfl, rfl⟩ := sim_fget_last (a := ()) (Q := fun _ p G' => p = aR G1.φ x.bucket ∧ G' = G1) hA.bucket (fun _ => ⟨rfl, rfl⟩) m W1 r1 () m rfl
    obtain ⟨W', L, h1, h2, h3⟩ := O.run i (rf := fun pos => pure (padd (aR G2.φ x.bucket) pos))
      (fun L hL pos hp W hr => ⟨W, by rw [padd_aR]; rfl, hr⟩) r2
    refine ⟨W', L, ?_, h2, h3⟩
    simp only [bforeach, tyOf, bhashdynForeach, run_bind, bget, e1, e2, Option.bind_some]
    exact h1
  | hashlin x =>
    have g : HashSpec.LinInv m0 x m es := g
    obtain ⟨vs, s⟩ := g.segs
    obtain ⟨B, i⟩ := g.binv
    have hmle := g.max_le
    have hle := g.size_le
    rw [← g.max] at hle
    have hsz : sizeT (x.lowMax + x.split) = x.lowMax + x.split := by clear * - hmle hle; unfold sizeT; arch
    have i' := i.rename (act' := (· < x.lowMax + x.split)) (fun _ => rfl) (fun c => (HashSpec.lact_below g.split).symm) (fun _ _ => rfl)
    have hA : LinAt G.F G.φ b x := ht.1
    obtain ⟨_, W1, G1, e1, r1, rfl, rfl⟩ := sim_fget_last (a := ()) (Q := fun _ p G' => p = x.lowMax ∧ G' = G) hA.lowMax (fun _ => ⟨rfl, rfl⟩) m W hr () m rfl
    obtain ⟨_, W2, G2, e2, r2, rfl, rfl⟩ := sim_fget_last (a := ()) (Q := fun _ p G' => p = x.split ∧ G' = G1) hA.split (fun _ => ⟨rfl, rfl⟩) m W1 r1 () m rfl
    obtain ⟨W', L, h1, h2, h3⟩ := O.run i' (rf := bhashlinPos b)
      (fun L hL pos hp W hr => by
        have hAt := O.at ht hL
        have hpos := s.pos_run g.bit (by have := g.bit_le; arch) (Nat.lt_of_lt_of_le hp g.size_le) (cutMs G2.env m L)
        obtain ⟨_, W', G', h1, h2, h3, h4⟩ := sim_linPos (LinS.start (G := cutGs G2.env G2 L) hAt.1 (by
          rw [(cutGs_same (env := G2.env) L G2).2.2.1, hN]; exact hAt.2)) pos _ W hr _ _ hpos
        subst h3
        rw [(cutGs_same (env := G2.env) L G2).1] at h4
        subst h4
        exact ⟨W', h1, h2⟩) r2
    refine ⟨W', L, ?_, h2, h3⟩
    simp only [bforeach, tyOf, bhashlinForeach, run_bind, bget, e1, e2, Option.bind_some, hsz]
    exact h1
end

theorem step_destroy {w : AMem} {a : Ab} (h : FInv w a) {b : Nat} {ty : Ty} (hl : legal a (.destroy b ty)) :
    ∃ out w', step (.destroy b ty) w = some (out, w') ∧ allowed a (.destroy b ty) out ∧ FInv w' (next a (.destroy b ty) out) := by
  obtain ⟨ts, owner, φ, Fs, h⟩ := h
  obtain ⟨T, hT, rfl, hobj⟩ := hl
  obtain ⟨t, ht, hsz, hat, hown, g⟩ := h.good hT
  have hty : tyOf t = T.sz.ty := by rw [← szOf_ty, hsz]
  have hvb : (view a).sh b = some (T.sz.ty, T.es.map Elem.node) := view_sh.2 ⟨T, hT, rfl, rfl⟩
  -- the objects have only their node
  have hin : ∀ x, InObj a.env T.es x → ¬ a.InStruct x ∧ ∀ b' T' f, a.tab b' = some T' → f ∈ T'.es → f.node ≤ x → x < f.node + nodeSize → f ∈ T.es := by
    rintro x ⟨e, he, h1, h2⟩
    obtain ⟨n, h3, _, _, h4⟩ := hobj e he
    rw [h3, Option.getD_some] at h2
    obtain ⟨h5, h6⟩ := h4 x h1 h2
    exact ⟨h5, fun b' T' f hb hf h7 h8 => by rw [h6 b' T' f hb hf h7 h8]; exact he⟩
  let G : Gh := ⟨a.env, (view a).mkF Fs, φ, [(0, fun _ => 0)], [], w.live, ts.mem.vnext⟩
  have hr : GRel G ts.mem ⟨w, [(0, fun _ => 0)], []⟩ := ⟨h.rel, rfl, rfl, rfl, Nat.le_refl _⟩
  have hns : 0 < nodeSize := by arch
  have O : Objs G ts.mem T.es b (tyOf t) := by
    refine ⟨fun e he => ?_, fun o n ho hi => ?_, fun e he f hf h1 h2 => ?_, fun x n hx => ?_⟩
    · obtain ⟨n, h1, h2, h3, _⟩ := hobj e he
      exact ⟨n, h1, h2, Nat.lt_of_lt_of_le (Nat.lt_add_of_pos_right hns) h3⟩
    · rw [hty] at ho
      have := isField_in ho
      exact (hin _ hi).1 ⟨b, T, hT, by omega, by omega⟩
    · obtain ⟨n, h3, _, _, h4⟩ := hobj f hf
      have h2 : e.node < f.data + (a.env f.data).getD 0 := h2
      rw [h3, Option.getD_some] at h2
      exact ((h4 e.node h1 h2).2 b T e hT he (Nat.le_refl _) (by omega)).symm
    · rcases View.mkF_ne.1 hx with ⟨b', ty', l, o, h1, h2, rfl⟩ | ⟨rfl, _⟩
      · have := isField_in h2; omega
      · omega
  obtain ⟨W1, L, f1, f2, f3⟩ := foreach_free O g hr rfl hat
  have hL : ∀ e, e ∈ L ↔ e ∈ T.es := fun e => f2.mem_iff
  obtain ⟨c1, c2, c3, c4⟩ := cutGs_same (env := G.env) L G
  obtain ⟨d1, d2, d3, _⟩ := cutMs_same (env := G.env) L ts.mem
  -- done
  obtain ⟨m', e, hh, hv, hcl⟩ := (tbl_ok _).done g
  obtain ⟨out2, ts2, e2, _, owner', I2⟩ := TablesSpec.step_inv h.inv (op := .done b) (by simp [TablesSpec.legal, tabsOf, hT])
  have e2' : TablesSpec.step (.done b) ts = some (.unit, ⟨m', upd ts.tbl b none⟩) := by
    simp only [TablesSpec.step, ht, Option.bind_some, e, Option.map_some]
  rw [e2'] at e2
  simp only [Option.some.injEq, Prod.mk.injEq] at e2
  obtain ⟨rfl, rfl⟩ := e2
  set M1 := cutMs G.env ts.mem L with hM1
  have hM : M1 = { ts.mem with heap := M1.heap } := by
    cases hx : M1 with
    | mk a1 a2 a3 a4 => rw [hx] at d1 d2 d3; simp only at d1 d2 d3; subst d1 d2 d3; rfl
  have e3 : tblImpl.done t M1 = some ((), { m' with heap := M1.heap }) := by
    rw [hM]; exact TablesSpec.done_heap t M1.heap _ _ e
  have g1 : Good (without ts.mem owner b) t { M1 with heap := ts.mem.heap } T.es := by
    rw [hM]; exact g
  have hat1 : TAt (cutGs G.env G L).F (cutGs G.env G L).φ M1.vnext b t := by
    rw [d3]; exact O.at hat fun e he => (hL e).1 he
  obtain ⟨W', G', evs, s1, s2, s3, s4⟩ := done_sim (h0 := ts.mem.heap) g1 e3 f3 (by rw [c3, d3]) hat1
  have hlog : W'.log = (L.map Elem.data).map BEvent.gave ++ evs := by rw [s2.log, s3.log, c4]; simp [G]
  have hstep : step (.destroy b T.sz.ty) w = some (⟨.unit, (L.map Elem.data).map BEvent.gave ++ evs⟩, W'.mem) := by
    simp only [step, run, bfreeAll, run_bind]
    rw [← hty, f1, Option.bind_some, s1, ← hlog]; rfl
  refine ⟨_, _, hstep, ⟨rfl, T, L.map Elem.data, evs, hT, rfl, f2.map _, by rw [hown]; rw [c1] at s4; exact s4⟩, ?_⟩
  generalize hout : (⟨.unit, (L.map Elem.data).map BEvent.gave ++ evs⟩ : Out) = out
  generalize ha' : next a (.destroy b T.sz.ty) out = a'
  have hby : a'.byte = a.byte := by rw [← ha']; rfl
  have htab : ∀ b' T', a'.tab b' = some T' → b' ≠ b ∧ a.tab b' = some T' := by
    intro b' T' h2
    rw [← ha'] at h2
    by_cases hb : b' = b
    · subst hb
      simp only [next, upd_same] at h2; cases h2
    · exact ⟨hb, by simpa only [next, upd_ne hb] using h2⟩
  have henv : ∀ d, a'.env d = if d ∈ T.es.map Elem.data then none else a.env d := by
    intro d
    rw [← ha']
    simp only [next, hT, Option.map_some, Option.any_some, List.any_eq_true, decide_eq_true_eq, List.mem_map]
  have henvG : G'.env = a'.env := by
    funext d
    rw [s3.env, cutGs_env, henv]
    simp only [(f2.map Elem.data).mem_iff]
    rfl
  -- what is not in the objects
  have hreg : ∀ x n, 0 < n → InE a.env x n → ¬ InObj a.env T.es x → InE a'.env x n := by
    rintro x n hn ⟨c, k, h1, h2, h3⟩ hno
    refine ⟨c, k, ?_, h2, h3⟩
    rw [henv, if_neg, h1]
    intro hc
    obtain ⟨e, he, rfl⟩ := List.mem_map.1 hc
    exact hno ⟨e, he, h2, by rw [h1, Option.getD_some]; clear * - h3 hn; omega⟩
  have hreg' : ∀ x, InE a'.env x 1 → InE a.env x 1 ∧ ¬ InObj a.env T.es x := by
    rintro x ⟨c, k, h1, h2, h3⟩
    rw [henv] at h1
    split at h1
    · cases h1
    · rename_i hc
      refine ⟨⟨c, k, h1, h2, h3⟩, ?_⟩
      rintro ⟨e, he, h4, h5⟩
      obtain ⟨n, h6, _⟩ := hobj e he
      rw [h6, Option.getD_some] at h5
      have := h.rel.reg e.data n c k ((h.rel.live _ _).2 (.inl h6)) ((h.rel.live _ _).2 (.inl h1))
        (fun hh => hc (by rw [← hh]; exact List.mem_map_of_mem he))
      clear * - this h2 h3 h4 h5; omega
  have hstr : ∀ b' ty l, (view a').sh b' = some (ty, l) → b' ≠ b ∧ (view a).sh b' = some (ty, l) := by
    intro b' ty l h1
    obtain ⟨T', h2, rfl, rfl⟩ := view_sh.1 h1
    obtain ⟨h3, h4⟩ := htab b' T' h2
    exact ⟨h3, view_sh.2 ⟨T', h4, rfl, rfl⟩⟩
  have hnode : ∀ p, (view a').Node p → (view a).Node p ∧ ¬ InObj a.env T.es p := by
    intro p hp
    obtain ⟨b', T', h1, h2⟩ := view_node.1 hp
    obtain ⟨h3, h4⟩ := htab b' T' h1
    refine ⟨view_node.2 ⟨b', T', h4, h2⟩, fun hi => ?_⟩
    obtain ⟨f, hf, rfl⟩ := List.mem_map.1 h2
    have h5 := (hin _ hi).2 b' T' f h4 hf (Nat.le_refl _) (Nat.lt_add_of_pos_right hns)
    exact h.inv.apart b' b f.node h3 ⟨T'.es, by simp [tabsOf, h4], List.mem_map_of_mem hf⟩
      ⟨T.es, by simp [tabsOf, hT], List.mem_map_of_mem h5⟩
  have hins : ∀ b' ty l, (view a').sh b' = some (ty, l) → ∀ x, b' ≤ x → x < b' + structSize ty → ¬ InObj a.env T.es x := by
    intro b' ty l h1 x h2 h3 hi
    exact (hin x hi).1 (view_struct.1 ⟨b', ty, l, (hstr b' ty l h1).2, h2, h3⟩)
  have lay : (view a').Lay := by
    refine ⟨fun b' ty l h1 => ?_, fun b1 ty1 l1 b2 ty2 l2 h1 h2 => h.lay.ssep _ _ _ _ _ _ (hstr _ _ _ h1).2 (hstr _ _ _ h2).2,
      fun p hp => hreg p nodeSize hns (h.lay.node p (hnode p hp).1) (hnode p hp).2,
      fun p q hp hq => h.lay.nsep p q (hnode p hp).1 (hnode q hq).1, fun p b' ty l hp h1 => h.lay.nssep p b' ty l (hnode p hp).1 (hstr _ _ _ h1).2⟩
    have hpos := structSize_pos ty
    exact hreg b' _ hpos (h.lay.str b' ty l (hstr _ _ _ h1).2) (hins b' ty l h1 b' (Nat.le_refl _) (by omega))
  have hin0 : ∀ x, (view a').InStruct x ∨ (view a').InNode x → (view a).InStruct x ∨ (view a).InNode x := by
    rintro x (⟨b', ty, l, h1, h2⟩ | ⟨p, hp, h2⟩)
    · exact .inl ⟨b', ty, l, (hstr _ _ _ h1).2, h2⟩
    · exact .inr ⟨p, (hnode p hp).1, h2⟩
  have hLo : ∀ x, InObj a.env L x → InObj a.env T.es x := fun x hx => hx.sub fun e he => (hL e).1 he
  have R := s2.rel
  rw [henvG] at R
  have Vc : Vecs (view a').env G'.φ m' W'.mem := by
    have v := R.vecs
    exact ⟨v.byte, v.live, v.pos, v.reg, v.vinj, v.venv, v.fresh, v.cells⟩
  have hFo : ∀ x n, ¬ InObj a.env T.es x → (x < b ∨ b + structSize (tyOf t) ≤ x) → G'.F x n = (view a).mkF Fs x n := by
    intro x n h1 h2
    rw [s3.chg.out x n h2, cutGs_F, if_neg fun hh => h1 (hLo x hh)]
  have Rf : Rel (view a').env ((view a').mkF G'.F) G'.φ { m' with heap := (view a').heapOf W'.mem } W'.mem := by
    refine mkRel Vc lay (fun x n c hx hc => ?_) (fun x c hx hc => ?_)
    · exact R.val (.fld x n) c (show G'.F x n ≠ none by rw [hc]; simp) (by simp only [HashFlat.val]; rw [hc]; rfl)
    · have hc : a.byte x = some c := by rw [← hby]; exact hc
      obtain ⟨h1, h2⟩ := hreg' x hx.1
      have hno : ¬ ((view a).InStruct x ∨ (view a).InNode x) := fun hh => by rw [h.forget x hh] at hc; cases hc
      have hfr : (view a).Free x := ⟨h1, fun hh => hno (.inl hh), fun hh => hno (.inr hh)⟩
      have hF : G'.F x 1 = some (some c) := by
        rw [hFo x 1 h2, View.mkF_free hfr, ← hc]; rfl
        by_contra hb
        exact hno (.inl ⟨b, _, _, hvb, by omega, by rw [hty] at hb; omega⟩)
      exact R.val (.fld x 1) c (show G'.F x 1 ≠ none by rw [hF]; simp) (by simp only [HashFlat.val]; rw [hF]; rfl)
  have hval : (TablesSpec.next ⟨tabsOf a, ts.mem.heap.valid⟩ (.done b) .unit).val = tabsOf a' := by
    simp only [TablesSpec.next]
    funext b'
    rw [← ha']
    simp only [tabsOf, next]
    by_cases hb : b' = b
    · subst hb; simp
    · rw [upd_ne hb, upd_ne hb]; rfl
  generalize hA : TablesSpec.next ⟨tabsOf a, ts.mem.heap.valid⟩ (.done b) .unit = A at I2 hval
  obtain ⟨val, live⟩ := A
  have hval : val = tabsOf a' := hval
  subst hval
  have I3 := I2.nodes (h' := (view a').heapOf W'.mem) (live' := ((view a').heapOf W'.mem).valid) (fun p hp => by
    have hp := stored_iff.1 hp
    obtain ⟨h1, h2⟩ := hnode p hp
    have hok : M1.heap.ok p := (cutMs_ok L ts.mem).2 ⟨h.ok h1, fun hh => h2 (hLo p hh)⟩
    have h3 := R.sameNode (V := view a') (w' := W'.mem) (p := p) hok hp (fun _ _ _ => rfl)
    show SameNode m'.heap _ p
    rw [hh]
    obtain ⟨_, _, _, d4, d5, d6, d7⟩ := cutMs_same (env := G.env) L ts.mem
    refine ⟨fun _ => h3.ok hok, ?_, ?_, ?_, ?_⟩
    · rw [h3.next]; exact congrFun d4 p
    · rw [h3.prev]; exact congrFun d6 p
    · rw [h3.data]; exact congrFun d5 p
    · rw [h3.index]; exact congrFun d7 p) rfl (lay.liveOk Vc)
  refine ⟨_, owner', G'.φ, G'.F, I3, Rf, lay, fun p => View.heapOf_valid p, fun x hx => by rw [hby]; exact h.forget x (hin0 x hx), fun b' T' h2 => ?_⟩
  obtain ⟨hb, h3⟩ := htab b' T' h2
  obtain ⟨t2, k1, k2, k3, k4, k5⟩ := h.good h3
  have hφ : ∀ v, v < ts.mem.vnext → G'.φ v = φ v := by
    intro v hv
    rw [s3.φ v (by rw [c3]; exact hv), c1]
  have hNle : ts.mem.vnext ≤ m'.vnext := by
    have := Nat.le_trans s3.N s2.new
    rw [c3] at this
    exact this
  have hsh' : (view a').sh b' = some (T'.sz.ty, T'.es.map Elem.node) := view_sh.2 ⟨T', h2, rfl, rfl⟩
  refine ⟨t2, by simp only [upd_ne hb]; exact k1, k2, k3.congr (fun o n ho => ?_) hφ hNle, by rw [k4]; exact (ownOf_congr k5 hφ).symm⟩
  rw [← szOf_ty, k2] at ho
  have hi := isField_in ho
  have hsep := h.lay.ssep _ _ _ _ _ _ hvb (hstr _ _ _ hsh').2 (Ne.symm hb)
  rw [View.mkF_field ⟨b', _, _, o, hsh', ho, rfl⟩, hFo _ _ (hins b' _ _ hsh' _ (by omega) (by omega)) (by rw [hty]; omega),
    View.mkF_field ⟨b', _, _, o, (hstr _ _ _ hsh').2, ho, rfl⟩]
  simp

theorem step_inv {w : AMem} {a : Ab} {op : Op} (h : FInv w a) (hl : legal a op) :
    ∃ out w', step op w = some (out, w') ∧ allowed a op out ∧ FInv w' (next a op out) := by
  cases op with
  | init => exact step_init h hl
  | call => exact step_call h hl
  | usage => exact step_usage h hl
  | done => exact step_done h hl
  | destroy => exact step_destroy h hl
  | emalloc => exact step_emalloc h hl
  | efree => exact step_efree h hl
  | ewrite => exact step_ewrite h hl
  | eread => exact step_eread h hl

theorem sys_correct : sys.Correct := Sys.correct_of_inv (Inv := FInv) (fun _ _ => init_inv) (fun _ _ _ h hl => step_inv h hl)

theorem reach_inv {w : AMem} {a : Ab} (h : sys.Reach w a) : FInv w a :=
  Sys.reach_inv (Inv := FInv) (fun _ _ => init_inv) (fun _ _ _ h hl => step_inv h hl) _ _ h

theorem reach_byte {w : AMem} {a : Ab} (h : sys.Reach w a) (x : Nat) : w.byte x < 256 := by
  obtain ⟨_, _, _, _, hi⟩ := reach_inv h
  exact hi.rel.byte x

end HashFlatSpec
end Tommy
