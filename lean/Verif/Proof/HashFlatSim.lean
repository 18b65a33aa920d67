import Verif.Proof.HashFlatMem
import Verif.Proof.TrieFlatAlloc
/-! The rules to show that the code on the bytes does what the code on the typed memory does. -/
set_option linter.unusedSimpArgs false
set_option linter.unusedVariables false
namespace Tommy

variable [Arch]
namespace HashFlat
open AllocSpec (acc_of acc_iff rdN_congr rdN_bytes)

/-- What is known of the bytes besides the typed memory. `env`: the regions of the program; `F`: the structs and the other numbers;
    `φ`: the addresses of the vectors; `live`: all the regions; the vectors from `N` on are new. -/
structure Gh where
  env : Nat → Option Nat
  F : Fld
  φ : Nat → Nat
  ms : List (Nat × (Nat → Nat))
  log : List BEvent
  live : Nat → Option Nat
  N : Nat

/-- A number is written. -/
def Gh.set (G : Gh) (p n v : Nat) : Gh := { G with F := G.F.set p n v }

/-- malloc() returned `b` for the vector `v`. -/
def Gh.got (G : Gh) (v b n : Nat) : Gh :=
  { G with φ := upd G.φ v b, ms := G.ms.drop 1, log := G.log ++ [.got b n], live := upd G.live b (some n), N := v + 1 }

/-- free(b) -/
def Gh.gave (G : Gh) (b : Nat) : Gh := { G with log := G.log ++ [.gave b], live := upd G.live b none }

omit [Arch] in
theorem Gh.set_F (G : Gh) (p n v : Nat) : (G.set p n v).F = G.F.set p n v := rfl
omit [Arch] in
theorem Gh.set_φ (G : Gh) (p n v : Nat) : (G.set p n v).φ = G.φ := rfl
omit [Arch] in
theorem Gh.set_ms (G : Gh) (p n v : Nat) : (G.set p n v).ms = G.ms := rfl
omit [Arch] in
theorem Gh.set_live (G : Gh) (p n v : Nat) : (G.set p n v).live = G.live := rfl
omit [Arch] in
theorem Gh.set_N (G : Gh) (p n v : Nat) : (G.set p n v).N = G.N := rfl
omit [Arch] in
theorem Gh.got_F (G : Gh) (v b n : Nat) : (G.got v b n).F = G.F := rfl
omit [Arch] in
theorem Gh.got_φ (G : Gh) (v b n : Nat) : (G.got v b n).φ = upd G.φ v b := rfl
omit [Arch] in
theorem Gh.gave_F (G : Gh) (b : Nat) : (G.gave b).F = G.F := rfl
omit [Arch] in
theorem Gh.gave_φ (G : Gh) (b : Nat) : (G.gave b).φ = G.φ := rfl

structure GRel (G : Gh) (m : Mem) (W : BMem) : Prop where
  rel : Rel G.env G.F G.φ m W.mem
  ms : W.mallocs = G.ms
  log : W.log = G.log
  live : W.mem.live = G.live
  new : G.N ≤ m.vnext

/-- When `x` succeeds, `y` does the same on the bytes. -/
def Sim {α β : Type} (G : Gh) (x : MM α) (y : BM β) (Q : α → β → Gh → Prop) : Prop :=
  ∀ m W, GRel G m W → ∀ a m', x m = some (a, m') → ∃ b W' G', y W = some (b, W') ∧ GRel G' m' W' ∧ Q a b G'

variable {α β α' β' : Type} {G : Gh} {m : Mem} {W : BMem}

theorem Sim.mono {x : MM α} {y : BM β} {Q Q' : α → β → Gh → Prop} (h : Sim G x y Q) (hq : ∀ a b G', Q a b G' → Q' a b G') : Sim G x y Q' := by
  intro m W hr a m' e
  obtain ⟨b, W', G', h1, h2, h3⟩ := h m W hr a m' e
  exact ⟨b, W', G', h1, h2, hq _ _ _ h3⟩

theorem Sim.mono' {x : MM α} {y y' : BM β} {Q : α → β → Gh → Prop} (h : Sim G x y Q) (e : y = y') : Sim G x y' Q := e ▸ h

theorem Sim.pure {a : α} {b : β} {Q : α → β → Gh → Prop} (h : Q a b G) : Sim G (Pure.pure a) (Pure.pure b) Q := by
  intro m W hr a' m' e
  cases e
  exact ⟨b, W, G, rfl, hr, h⟩

theorem Sim.bind {x : MM α} {y : BM β} {f : α → MM α'} {g : β → BM β'} {Q : α → β → Gh → Prop} {Q' : α' → β' → Gh → Prop}
    (h : Sim G x y Q) (hf : ∀ a b G', Q a b G' → Sim G' (f a) (g b) Q') : Sim G (x >>= f) (y >>= g) Q' := by
  intro m W hr a m' e
  simp only [run_bind, Option.bind_eq_some_iff] at e
  obtain ⟨⟨a1, m1⟩, e1, e2⟩ := e
  obtain ⟨b1, W1, G1, h1, h2, h3⟩ := h m W hr a1 m1 e1
  obtain ⟨b2, W2, G2, h4, h5, h6⟩ := hf a1 b1 G1 h3 m1 W1 h2 a m' e2
  exact ⟨b2, W2, G2, by simp only [run_bind, h1, Option.bind_some]; exact h4, h5, h6⟩

theorem Sim.ite {c c' : Prop} [Decidable c] [Decidable c'] {x x' : MM α} {y y' : BM β} {Q : α → β → Gh → Prop} (hc : c ↔ c')
    (h1 : c → Sim G x y Q) (h2 : ¬ c → Sim G x' y' Q) : Sim G (if c then x else x') (if c' then y else y') Q := by
  by_cases h : c
  · rw [if_pos h, if_pos (hc.1 h)]; exact h1 h
  · rw [if_neg h, if_neg (fun x => h (hc.2 x))]; exact h2 h

/-- Nothing about the bytes besides the typed memory changes. -/
abbrev SimE (G : Gh) (x : MM α) (y : BM β) (R : α → β → Prop) : Prop := Sim G x y fun a b G' => G' = G ∧ R a b

theorem SimE.bind {x : MM α} {y : BM β} {f : α → MM α'} {g : β → BM β'} {R : α → β → Prop} {Q' : α' → β' → Gh → Prop}
    (h : SimE G x y R) (hf : ∀ a b, R a b → Sim G (f a) (g b) Q') : Sim G (x >>= f) (y >>= g) Q' :=
  Sim.bind h fun a b G' hq => by obtain ⟨rfl, hq⟩ := hq; exact hf a b hq

/-- The same number. -/
def Eqn (a b : Nat) : Prop := a = b ∧ a < 2 ^ sizeBit

/-- Reads by the code on the bytes only. -/
theorem sim_fget {x : MM α} {p n c : Nat} {k : Nat → BM β} {Q : α → β → Gh → Prop} (hF : G.F p n = some (some c))
    (h : c < 2 ^ (8 * n) → Sim G x (k c) Q) : Sim G x (bgetN n p >>= k) Q := by
  intro m W hr a m' e
  have hd : dom G.F m (.fld p n) := by simp [dom, hF]
  obtain ⟨h1, h2⟩ := hr.rel.get (o := .fld p n) (c := c) hd (by simp [val, hF])
  have ha := hr.rel.acc hd
  simp only [adr, siz] at h1 h2 ha
  obtain ⟨b, W', G', h3, h4, h5⟩ := h h2 m W hr a m' e
  refine ⟨b, W', G', ?_, h4, h5⟩
  simp only [run_bind, bgetN, ha, if_true, Option.bind_some, h1]
  exact h3

/-- Writes by the code on the bytes only. -/
theorem sim_fset {x : MM α} {p n v : Nat} {k : Unit → BM β} {Q : α → β → Gh → Prop} (hF : G.F p n ≠ none) (hv : v < 2 ^ (8 * n))
    (h : Sim (G.set p n v) x (k ()) Q) : Sim G x (bsetN n p v >>= k) Q := by
  intro m W hr a m' e
  have hd : dom G.F m (.fld p n) := hF
  have ha := hr.rel.acc hd
  have hs := hr.rel.set (o := .fld p n) (c := v) hd hv (F' := G.F.set p n v) (m' := m) rfl rfl rfl (fun x' n' => Fld.set_dom hF x' n') (by
    intro o' c' ho' hc'
    cases o' with
    | fld x' n' =>
      by_cases hx : x' = p ∧ n' = n
      · obtain ⟨rfl, rfl⟩ := hx
        simp only [val, Fld.set_same, Option.join_some, Option.some.injEq] at hc'
        exact .inl ⟨rfl, hc'.symm⟩
      · have : x' ≠ p ∨ n' ≠ n := by omega
        simp only [val, Fld.set_ne this] at hc'
        exact .inr ⟨by simpa using hx, hc'⟩
    | _ => exact .inr ⟨by simp, hc'⟩)
  simp only [adr, siz] at ha hs
  obtain ⟨b, W', G', h3, h4, h5⟩ := h m { W with mem := { W.mem with byte := wrN W.mem.byte p n v } } ⟨hs, hr.ms, hr.log, hr.live, hr.new⟩ a m' e
  refine ⟨b, W', G', ?_, h4, h5⟩
  simp only [run_bind, bsetN, ha, if_true, Option.bind_some]
  exact h3

theorem sim_fset_last {a : α} {p n v : Nat} {Q : α → Unit → Gh → Prop} (hF : G.F p n ≠ none) (hv : v < 2 ^ (8 * n))
    (h : Q a () (G.set p n v)) : Sim G (Pure.pure a) (bsetN n p v) Q := by
  have := sim_fset (x := (Pure.pure a : MM α)) (k := fun _ => (Pure.pure () : BM Unit)) (Q := Q) hF hv (Sim.pure h)
  rwa [show (bsetN n p v >>= fun _ => (Pure.pure () : BM Unit)) = bsetN n p v from bind_pure _] at this

theorem sim_fget_last {a : α} {p n c : Nat} {Q : α → Nat → Gh → Prop} (hF : G.F p n = some (some c))
    (h : c < 2 ^ (8 * n) → Q a c G) : Sim G (Pure.pure a) (bgetN n p) Q := by
  have := sim_fget (x := (Pure.pure a : MM α)) (k := fun c => (Pure.pure c : BM Nat)) (Q := Q) hF (fun hc => Sim.pure (h hc))
  rwa [show (bgetN n p >>= fun c => (Pure.pure c : BM Nat)) = bgetN n p from bind_pure _] at this

/-! ### Nodes -/

omit [Arch] in
theorem onNodes_bind (x : HM α) (f : α → HM β) : onNodes (x >>= f) = onNodes x >>= fun a => onNodes (f a) := by
  funext m
  simp only [onNodes, zoom, run_bind]
  cases h : x m.heap <;> simp

omit [Arch] in
theorem onNodes_pure (a : α) : onNodes (Pure.pure a : HM α) = Pure.pure a := rfl

omit [Arch] in
theorem onNodes_ite (c : Prop) [Decidable c] (x y : HM α) : onNodes (if c then x else y) = if c then onNodes x else onNodes y := by
  split <;> rfl

/-- Read of an object which the typed code reads too. -/
theorem sim_read {x : MM Nat} {p : Nat} (o : Mem → Obj) (h : ∀ m a m', x m = some (a, m') → m' = m ∧ ∀ W, GRel G m W →
    dom G.F m (o m) ∧ val G.F m (o m) = some a ∧ adr G.φ (o m) = p ∧ siz (o m) = ptrSize) :
    SimE G x (bget p) Eqn := by
  intro m W hr a m' e
  obtain ⟨rfl, h1⟩ := h m a m' e
  obtain ⟨h1, h2, h3, h4⟩ := h1 W hr
  obtain ⟨h5, h6⟩ := hr.rel.get h1 h2
  have ha := hr.rel.acc h1
  rw [h3, h4] at h5 ha
  rw [h4, pow_size] at h6
  refine ⟨a, W, G, ?_, hr, rfl, rfl, h6⟩
  simp only [bget, bgetN, ha, if_true, h5]

/-- Write of an object which the typed code writes too. -/
theorem sim_write {x : MM Unit} {p v : Nat} (hv : v < 2 ^ sizeBit) (o : Mem → Obj) (h : ∀ m a m', x m = some (a, m') →
    m'.vlen = m.vlen ∧ m'.vnext = m.vnext ∧ m'.heap.valid = m.heap.valid ∧
    (∀ o' c', val G.F m' o' = some c' → (o' = o m ∧ c' = v) ∨ (o' ≠ o m ∧ val G.F m o' = some c')) ∧ ∀ W, GRel G m W →
    dom G.F m (o m) ∧ adr G.φ (o m) = p ∧ siz (o m) = ptrSize) :
    SimE G x (bset p v) fun _ _ => True := by
  intro m W hr a m' e
  obtain ⟨h1, h2, h3, h4, h5⟩ := h m a m' e
  obtain ⟨h5, h6, h7⟩ := h5 W hr
  have ha := hr.rel.acc h5
  have hs := hr.rel.set h5 (c := v) (by rw [h7, pow_size]; exact hv) (F' := G.F) h1 h2 h3 (fun _ _ => Iff.rfl) (fun o' c' _ hc' => h4 o' c' hc')
  rw [h6, h7] at ha hs
  refine ⟨(), { W with mem := { W.mem with byte := wrN W.mem.byte p ptrSize v } }, G, ?_, ⟨hs, hr.ms, hr.log, hr.live, by rw [h2]; exact hr.new⟩, rfl, trivial⟩
  simp only [bset, bsetN, ha, if_true]

omit [Arch] in
theorem run_get {p : Ptr} {g : Heap → Nat} {m m' : Mem} {a : Nat}
    (e : onNodes (fun h => if h.ok p then some (g h, h) else none) m = some (a, m')) : m.heap.ok p ∧ a = g m.heap ∧ m' = m := by
  simp only [onNodes, zoom] at e
  split at e
  · cases e
  next x h e' =>
  split at e'
  next hok => cases e'; cases e; exact ⟨hok, rfl, rfl⟩
  · cases e'

omit [Arch] in
theorem run_set {p : Ptr} {g : Heap → Heap} {m m' : Mem} {a : Unit}
    (e : onNodes (fun h => if h.ok p then some ((), g h) else none) m = some (a, m')) : m.heap.ok p ∧ m' = { m with heap := g m.heap } := by
  simp only [onNodes, zoom] at e
  split at e
  · cases e
  next x h e' =>
  split at e'
  next hok => cases e'; cases e; exact ⟨hok, rfl⟩
  · cases e'

theorem sim_getNext (p : Nat) : SimE G (onNodes (getNext p)) (bget (p + nodNext)) Eqn :=
  sim_read (fun _ => .next p) fun m a m' e => by
    obtain ⟨h1, rfl, rfl⟩ := run_get e
    exact ⟨rfl, fun W hr => ⟨h1, rfl, rfl, rfl⟩⟩

theorem sim_getPrev (p : Nat) : SimE G (onNodes (getPrev p)) (bget (p + nodPrev)) Eqn :=
  sim_read (fun _ => .prev p) fun m a m' e => by
    obtain ⟨h1, rfl, rfl⟩ := run_get e
    exact ⟨rfl, fun W hr => ⟨h1, rfl, rfl, rfl⟩⟩

theorem sim_getData (p : Nat) : SimE G (onNodes (getData p)) (bget (p + nodData)) Eqn :=
  sim_read (fun _ => .data p) fun m a m' e => by
    obtain ⟨h1, rfl, rfl⟩ := run_get e
    exact ⟨rfl, fun W hr => ⟨h1, rfl, rfl, rfl⟩⟩

theorem sim_getIndex (p : Nat) : SimE G (onNodes (getIndex p)) (bget (p + nodIndex)) Eqn :=
  sim_read (fun _ => .index p) fun m a m' e => by
    obtain ⟨h1, rfl, rfl⟩ := run_get e
    exact ⟨rfl, fun W hr => ⟨h1, rfl, rfl, rfl⟩⟩

omit [Arch] in
theorem upd_some {f : Nat → Nat} {p v q c : Nat} (h : some (upd f p v q) = some c) : (q = p ∧ c = v) ∨ (q ≠ p ∧ some (f q) = some c) := by
  by_cases e : q = p
  · subst e; rw [upd_same] at h; cases h; exact .inl ⟨rfl, rfl⟩
  · rw [upd_ne e] at h; exact .inr ⟨e, h⟩

theorem sim_setNext (p : Nat) {v : Nat} (hv : v < 2 ^ sizeBit) : SimE G (onNodes (setNext p v)) (bset (p + nodNext) v) fun _ _ => True :=
  sim_write hv (fun _ => .next p) fun m a m' e => by
    obtain ⟨h1, rfl⟩ := run_set e
    refine ⟨rfl, rfl, rfl, fun o' c' hc => ?_, fun W hr => ⟨h1, rfl, rfl⟩⟩
    cases o' with
    | next q => rcases upd_some hc with ⟨rfl, h⟩ | ⟨h, h'⟩; exacts [.inl ⟨rfl, h⟩, .inr ⟨by simpa using h, h'⟩]
    | _ => exact .inr ⟨by simp, hc⟩

theorem sim_setPrev (p : Nat) {v : Nat} (hv : v < 2 ^ sizeBit) : SimE G (onNodes (setPrev p v)) (bset (p + nodPrev) v) fun _ _ => True :=
  sim_write hv (fun _ => .prev p) fun m a m' e => by
    obtain ⟨h1, rfl⟩ := run_set e
    refine ⟨rfl, rfl, rfl, fun o' c' hc => ?_, fun W hr => ⟨h1, rfl, rfl⟩⟩
    cases o' with
    | prev q => rcases upd_some hc with ⟨rfl, h⟩ | ⟨h, h'⟩; exacts [.inl ⟨rfl, h⟩, .inr ⟨by simpa using h, h'⟩]
    | _ => exact .inr ⟨by simp, hc⟩

theorem sim_setData (p : Nat) {v : Nat} (hv : v < 2 ^ sizeBit) : SimE G (onNodes (setData p v)) (bset (p + nodData) v) fun _ _ => True :=
  sim_write hv (fun _ => .data p) fun m a m' e => by
    obtain ⟨h1, rfl⟩ := run_set e
    refine ⟨rfl, rfl, rfl, fun o' c' hc => ?_, fun W hr => ⟨h1, rfl, rfl⟩⟩
    cases o' with
    | data q => rcases upd_some hc with ⟨rfl, h⟩ | ⟨h, h'⟩; exacts [.inl ⟨rfl, h⟩, .inr ⟨by simpa using h, h'⟩]
    | _ => exact .inr ⟨by simp, hc⟩

theorem sim_setIndex (p : Nat) {v : Nat} (hv : v < 2 ^ sizeBit) : SimE G (onNodes (setIndex p v)) (bset (p + nodIndex) v) fun _ _ => True :=
  sim_write hv (fun _ => .index p) fun m a m' e => by
    obtain ⟨h1, rfl⟩ := run_set e
    refine ⟨rfl, rfl, rfl, fun o' c' hc => ?_, fun W hr => ⟨h1, rfl, rfl⟩⟩
    cases o' with
    | index q => rcases upd_some hc with ⟨rfl, h⟩ | ⟨h, h'⟩; exacts [.inl ⟨rfl, h⟩, .inr ⟨by simpa using h, h'⟩]
    | _ => exact .inr ⟨by simp, hc⟩

/-! ### Cells -/

omit [Arch] in
theorem cell_spec {m : Mem} {r : Ref} {p : Nat} (h : m.cell? r = some p) :
    ∃ n, m.vlen r.vec = some n ∧ 0 ≤ r.off ∧ r.off < n ∧ m.vcell r.vec r.off.toNat = some p := by
  unfold Mem.cell? at h
  split at h
  · cases h
  next n hn =>
  split at h
  next h1 => exact ⟨n, hn, h1.1, h1.2, h⟩
  · cases h

omit [Arch] in
theorem inside_spec {m : Mem} {r : Ref} (h : m.inside r = true) : ∃ n, m.vlen r.vec = some n ∧ 0 ≤ r.off ∧ r.off < n := by
  unfold Mem.inside at h
  split at h
  · cases h
  next n hn => exact ⟨n, hn, by simpa using h⟩

theorem sim_readRef (r : Ref) : SimE G (readRef r) (bget (aR G.φ r)) Eqn :=
  sim_read (fun _ => .cell r.vec r.off.toNat) fun m a m' e => by
    unfold readRef at e
    cases hc : m.cell? r with
    | none => rw [hc] at e; cases e
    | some p =>
      rw [hc] at e
      cases e
      obtain ⟨n, h1, h2, h3, h4⟩ := cell_spec hc
      exact ⟨rfl, fun W hr => ⟨⟨n, h1, by omega⟩, h4, (hr.rel.aR_eq h1 h2 (by omega)).symm, rfl⟩⟩

theorem sim_writeRef (r : Ref) {v : Nat} (hv : v < 2 ^ sizeBit) : SimE G (writeRef r v) (bset (aR G.φ r) v) fun _ _ => True :=
  sim_write hv (fun _ => .cell r.vec r.off.toNat) fun m a m' e => by
    unfold writeRef at e
    split at e
    swap
    · cases e
    next hi =>
    cases e
    obtain ⟨n, h1, h2, h3⟩ := inside_spec hi
    refine ⟨rfl, rfl, rfl, fun o' c' hc => ?_, fun W hr => ⟨⟨n, h1, by omega⟩, (hr.rel.aR_eq h1 h2 (by omega)).symm, rfl⟩⟩
    cases o' with
    | cell v' i' =>
      simp only [val] at hc
      by_cases e1 : v' = r.vec
      · subst e1
        rw [upd_same] at hc
        by_cases e2 : i' = r.off.toNat
        · subst e2
          rw [upd_same] at hc
          cases hc
          exact .inl ⟨rfl, rfl⟩
        · rw [upd_ne e2] at hc
          exact .inr ⟨by simpa using e2, hc⟩
      · rw [upd_ne e1] at hc
        exact .inr ⟨by simp [e1], hc⟩
    | _ => exact .inr ⟨by simp, hc⟩

theorem sim_shl (b : Nat) : SimE G (shlT b) (bshl b) fun a c => a = c ∧ b < sizeBit ∧ a = 2 ^ b := by
  intro m W hr a m' e
  unfold shlT at e
  split at e
  next h =>
    cases e
    exact ⟨2 ^ b, W, G, by simp [bshl, h], hr, rfl, rfl, h, rfl⟩
  · cases e

theorem sim_shlS (b : Nat) : SimE G (shlS b) (bshlS b) fun a c => a = c ∧ b < sizeBit ∧ a = 2 ^ b := by
  intro m W hr a m' e
  unfold shlS at e
  split at e
  next h =>
    cases e
    exact ⟨2 ^ b, W, G, by simp [bshlS, h], hr, rfl, rfl, by omega, rfl⟩
  · cases e

theorem sim_psub (p x : Nat) : SimE G (negS x) (bpsub p x) fun a c => a = -(x : Int) ∧ c = psub p x := by
  intro m W hr a m' e
  unfold negS at e
  split at e
  next h =>
    cases e
    exact ⟨psub p x, W, G, by simp [bpsub, h], hr, rfl, rfl, rfl⟩
  · cases e

/-! ### Vectors -/

/-- malloc() may return the address `b` for `n` bytes. -/
structure Fresh (live : Nat → Option Nat) (b n : Nat) : Prop where
  none : live b = none
  pos : 0 < b
  lt : b + n < 2 ^ sizeBit
  sep : ∀ b' n', live b' = some n' → b + n ≤ b' ∨ b' + n' ≤ b

theorem aR_base {φ : Nat → Nat} {v b : Nat} (h : φ v = b) (hb : b < 2 ^ sizeBit) : aR φ ⟨v, 0⟩ = b := by
  unfold aR
  simp only [h, mul_zero, add_zero]
  rw [show ((2 : Int) ^ sizeBit) = ((2 ^ sizeBit : Nat) : Int) by push_cast; rfl, ← Int.natCast_emod, Int.toNat_natCast, Nat.mod_eq_of_lt hb]

/-- A new vector in the relation. -/
theorem Rel.alloc {env : Nat → Option Nat} {F : Fld} {φ : Nat → Nat} {m : Mem} {w : AMem} (h : Rel env F φ m w) {b k : Nat}
    (hf : Fresh w.live b (ptrSize * k)) {f : Nat → Nat} (hb : ∀ x, f x < 256) (ho : ∀ x, (x < b ∨ b + ptrSize * k ≤ x) → f x = w.byte x)
    {cells : Nat → Option Nat} (hc : ∀ i c, i < k → cells i = some c → rdN f (b + ptrSize * i) ptrSize = c) :
    Rel env F (upd φ m.vnext b) { m with vlen := upd m.vlen m.vnext (some k), vcell := upd m.vcell m.vnext cells, vnext := m.vnext + 1 }
      { byte := f, live := upd w.live b (some (ptrSize * k)) } := by
  have hnew := h.fresh m.vnext (Nat.le_refl _)
  have hne : ∀ v, m.vlen v ≠ none → v ≠ m.vnext := fun v hv e => hv (e ▸ hnew)
  have hφ : ∀ v, m.vlen v ≠ none → upd φ m.vnext b v = φ v := fun v hv => upd_ne (hne v hv)
  have hl : ∀ v, m.vlen v ≠ none → φ v ≠ b := fun v hv e => by
    obtain ⟨n, hn⟩ := Option.ne_none_iff_exists'.1 hv
    have := h.vec hn
    rw [e, hf.none] at this
    cases this
  have hold : ∀ o, dom F { m with vlen := upd m.vlen m.vnext (some k), vcell := upd m.vcell m.vnext cells, vnext := m.vnext + 1 } o →
      (∃ i, o = .cell m.vnext i ∧ i < k) ∨ (dom F m o ∧ adr (upd φ m.vnext b) o = adr φ o ∧
        HashFlat.val F { m with vlen := upd m.vlen m.vnext (some k), vcell := upd m.vcell m.vnext cells, vnext := m.vnext + 1 } o = HashFlat.val F m o) := by
    intro o ho
    cases o with
    | cell v i =>
      obtain ⟨n, h1, h2⟩ := ho
      simp only at h1
      by_cases e : v = m.vnext
      · subst e; rw [upd_same] at h1; cases h1; exact .inl ⟨i, rfl, h2⟩
      · rw [upd_ne e] at h1
        refine .inr ⟨⟨n, h1, h2⟩, ?_, ?_⟩
        · simp only [adr, upd_ne e]
        · simp only [HashFlat.val, upd_ne e]
    | _ => exact .inr ⟨ho, rfl, rfl⟩
  exact
    { byte := hb
      live := fun b' n' => by
        simp only
        by_cases e : b' = b
        · subst e
          rw [upd_same]
          constructor
          · intro h'; cases h'; exact .inr ⟨m.vnext, k, upd_same .., upd_same .., rfl⟩
          · rintro (h' | ⟨v, k', h1, h2, rfl⟩)
            · have := (h.live b' n').2 (.inl h'); rw [hf.none] at this; cases this
            · by_cases e : v = m.vnext
              · subst e; rw [upd_same] at h1; cases h1; rfl
              · rw [upd_ne e] at h1 h2
                exact absurd h2 (hl v (by simp [h1]))
        · rw [upd_ne e, h.live]
          constructor
          · rintro (h' | ⟨v, k', h1, h2, rfl⟩)
            · exact .inl h'
            · have hv := hne v (by simp [h1])
              exact .inr ⟨v, k', by rw [upd_ne hv]; exact h1, by rw [upd_ne hv]; exact h2, rfl⟩
          · rintro (h' | ⟨v, k', h1, h2, rfl⟩)
            · exact .inl h'
            · by_cases e' : v = m.vnext
              · subst e'; rw [upd_same] at h2; exact absurd h2.symm e
              · rw [upd_ne e'] at h1 h2; exact .inr ⟨v, k', h1, h2, rfl⟩
      pos := fun b' n' => by
        simp only
        by_cases e : b' = b
        · subst e; rw [upd_same]; intro h'; cases h'; exact ⟨hf.pos, hf.lt⟩
        · rw [upd_ne e]; exact h.pos b' n'
      reg := fun b1 n1 b2 n2 => by
        simp only
        by_cases e1 : b1 = b
        · subst e1
          rw [upd_same]
          intro h'; cases h'
          by_cases e2 : b2 = b1
          · subst e2; intro _ h; exact absurd rfl h
          · rw [upd_ne e2]; intro h2 _; exact hf.sep _ _ h2
        · rw [upd_ne e1]
          by_cases e2 : b2 = b
          · subst e2
            rw [upd_same]
            intro h1 h'; cases h'
            intro _; exact (hf.sep _ _ h1).symm
          · rw [upd_ne e2]; exact h.reg b1 n1 b2 n2
      vinj := fun v v' => by
        simp only
        by_cases e : v = m.vnext
        · by_cases e' : v' = m.vnext
          · intros; rw [e, e']
          · rw [upd_ne e', upd_ne e', e, upd_same, upd_same]
            intro _ h2 h3; exact absurd h3.symm (hl v' h2)
        · rw [upd_ne e, upd_ne e]
          by_cases e' : v' = m.vnext
          · rw [e', upd_same, upd_same]
            intro h1 _ h3; exact absurd h3 (hl v h1)
          · rw [upd_ne e', upd_ne e']; exact h.vinj v v'
      venv := fun v => by
        simp only
        by_cases e : v = m.vnext
        · rw [e, upd_same, upd_same]
          intro _
          cases he : env b with
          | none => rfl
          | some n => have := (h.live b n).2 (.inl he); rw [hf.none] at this; cases this
        · rw [upd_ne e, upd_ne e]; exact h.venv v
      fresh := fun v hv => by
        simp only at hv ⊢
        rw [upd_ne (by omega)]; exact h.fresh v (by omega)
      node := h.node
      nsep := h.nsep
      fin := h.fin
      fsep := h.fsep
      nfsep := h.nfsep
      val := fun o c ho' hc' => by
        rcases hold o ho' with ⟨i, rfl, hi⟩ | ⟨h1, h2, h3⟩
        · simp only [HashFlat.val, upd_same] at hc'
          simp only [adr, siz, upd_same]
          exact hc i c hi hc'
        · rw [h3] at hc'
          rw [h2, ← h.val o c h1 hc']
          obtain ⟨b', n', _, g1, g2, g3⟩ := h.home h1
          have := hf.sep _ _ g1
          exact rdN_congr fun x h4 h5 => ho x (by omega) }

theorem sim_malloc {bytes b : Nat} {c : Nat → Nat} {ms : List (Nat × (Nat → Nat))} (hb : bytes = ptrSize * (bytes / ptrSize))
    (hms : G.ms = (b, c) :: ms) (hc : ∀ x, c x < 256) (hf : Fresh G.live b bytes) :
    Sim G (vmalloc bytes) (bmalloc bytes) fun r p G' => p = b ∧ ∃ v, G.N ≤ v ∧ r = ⟨v, 0⟩ ∧ G' = G.got v b bytes := by
  intro m W hr a m' e
  cases e
  refine ⟨b, _, G.got m.vnext b bytes,
    by simp only [bmalloc, hr.ms, hms]; rfl, ?_, rfl, m.vnext, hr.new, rfl, rfl⟩
  have hf' : Fresh W.mem.live b (ptrSize * (bytes / ptrSize)) := by rw [hr.live, ← hb]; exact hf
  have := hr.rel.alloc hf' (f := fun x => if b ≤ x ∧ x < b + bytes then c x else W.mem.byte x) (cells := fun _ => none) (fun x => by
    split
    · exact hc x
    · exact hr.rel.byte x) (fun x hx => by rw [if_neg]; omega) (fun i c _ h => by cases h)
  rw [← hb] at this
  exact ⟨this, by simp only [Gh.got, hms, List.drop_succ_cons, List.drop_zero], by simp only [Gh.got, hr.log], by simp only [Gh.got, hr.live], by simp only [Gh.got]; omega⟩

theorem sim_calloc {n b : Nat} {c : Nat → Nat} {ms : List (Nat × (Nat → Nat))}
    (hms : G.ms = (b, c) :: ms) (hf : Fresh G.live b (n * ptrSize)) :
    Sim G (vcalloc n) (hbcalloc n ptrSize) fun r p G' => p = b ∧ ∃ v, G.N ≤ v ∧ r = ⟨v, 0⟩ ∧ G' = G.got v b (n * ptrSize) := by
  intro m W hr a m' e
  cases e
  have hacc : ({ live := upd W.mem.live b (some (n * ptrSize)), byte := fun x => if b ≤ x ∧ x < b + n * ptrSize then c x else W.mem.byte x } : AMem).acc
      b (n * ptrSize) = true := acc_of (b := b) (n := n * ptrSize) (upd_same ..) (Nat.le_refl _) (Nat.le_refl _)
  refine ⟨b, _, G.got m.vnext b (n * ptrSize),
    by simp only [hbcalloc, run_bind, bmalloc, hr.ms, hms, Option.bind_some, bzero, hacc, if_true, run_pure]; rfl, ?_, rfl, m.vnext, hr.new, rfl, rfl⟩
  have hf' : Fresh W.mem.live b (ptrSize * n) := by rw [hr.live, Nat.mul_comm]; exact hf
  have := hr.rel.alloc hf' (f := fun x => if b ≤ x ∧ x < b + n * ptrSize then 0 else if b ≤ x ∧ x < b + n * ptrSize then c x else W.mem.byte x)
    (cells := fun _ => some 0) (fun x => by
      split
      · omega
      · exact hr.rel.byte x) (fun x hx => by rw [Nat.mul_comm] at hx; rw [if_neg (by omega), if_neg (by omega)]) (fun i c hi h => by
        cases h
        refine rdN_zero _ _ fun x h1 h2 => if_pos ⟨by omega, ?_⟩
        arch)
  rw [Nat.mul_comm ptrSize n] at this
  exact ⟨this, by simp only [Gh.got, hms, List.drop_succ_cons, List.drop_zero], by simp only [Gh.got, hr.log], by simp only [Gh.got, hr.live], by simp only [Gh.got]; omega⟩

theorem sim_vzero {r : Ref} {bytes : Nat} (hb : bytes = ptrSize * (bytes / ptrSize)) :
    SimE G (vzero r bytes) (bzero (aR G.φ r) bytes) fun _ _ => True := by
  intro m W hr a m' e
  unfold vzero at e
  split at e
  · cases e
  next n hn =>
  split at e
  swap
  · cases e
  next hc =>
  obtain ⟨h0, hle⟩ := hc
  simp only [Option.some.injEq, Prod.mk.injEq] at e
  obtain ⟨-, rfl⟩ := e
  have hv := hr.rel.vec hn
  have ha : aR G.φ r = G.φ r.vec := by rw [hr.rel.aR_eq hn (by omega) (by omega), h0]; simp
  have hle2 : bytes ≤ ptrSize * n := by rw [hb]; exact Nat.mul_le_mul_left _ hle
  have hacc : W.mem.acc (G.φ r.vec) bytes = true := acc_of hv (Nat.le_refl _) (by omega)
  refine ⟨(), { W with mem := { W.mem with byte := fun x => if G.φ r.vec ≤ x ∧ x < G.φ r.vec + bytes then 0 else W.mem.byte x } }, G,
    by simp only [ha, bzero, hacc, if_true], ⟨?_, hr.ms, hr.log, hr.live, hr.new⟩, rfl, trivial⟩
  have hout : ∀ o, dom G.F m o → (∀ i, o = .cell r.vec i → ¬ i < bytes / ptrSize) →
      rdN (fun x => if G.φ r.vec ≤ x ∧ x < G.φ r.vec + bytes then 0 else W.mem.byte x) (adr G.φ o) (siz o) =
        rdN W.mem.byte (adr G.φ o) (siz o) := by
    intro o ho hno
    refine rdN_congr fun x h1 h2 => if_neg fun h3 => ?_
    by_cases hc : ∃ i, o = .cell r.vec i
    · obtain ⟨i, rfl⟩ := hc
      have := hno i rfl
      simp only [adr, siz] at h1 h2
      have : ptrSize * (bytes / ptrSize) ≤ ptrSize * i := Nat.mul_le_mul_left _ (by omega)
      omega
    · obtain ⟨b, k, g0, g1, g2, g3⟩ := hr.rel.home ho
      by_cases hb' : b = G.φ r.vec
      · subst hb'
        cases o with
        | cell v i =>
          obtain ⟨k', h4, h5, _⟩ := g0
          exact hc ⟨i, by rw [hr.rel.vinj v r.vec (by simp [h4]) (by simp [hn]) h5]⟩
        | _ =>
          have := hr.rel.venv r.vec (by simp [hn])
          simp only [HashFlat.home] at g0
          rw [this] at g0; cases g0
      · have := hr.rel.reg _ _ _ _ g1 hv hb'
        omega
  exact { hr.rel with
    byte := fun x => by
      simp only
      split
      · omega
      · exact hr.rel.byte x
    val := fun o c ho hc => by
      have ho' : dom G.F m o := ho
      by_cases hx : ∃ i, o = .cell r.vec i ∧ i < bytes / ptrSize
      · obtain ⟨i, rfl, hi⟩ := hx
        simp only [HashFlat.val, upd_same, if_pos hi] at hc
        cases hc
        simp only [adr, siz]
        have h8 : ptrSize * (i + 1) ≤ ptrSize * (bytes / ptrSize) := Nat.mul_le_mul_left _ hi
        rw [Nat.mul_add] at h8
        exact rdN_zero _ _ fun x h1 h2 => if_pos ⟨by omega, by omega⟩
      · simp only
        rw [hout o ho' fun i e hi => hx ⟨i, e, hi⟩]
        refine hr.rel.val o c ho' ?_
        cases o with
        | cell v i =>
          simp only [HashFlat.val] at hc ⊢
          by_cases e : v = r.vec
          · subst e
            rw [upd_same] at hc
            rwa [if_neg fun hi => hx ⟨i, rfl, hi⟩] at hc
          · rwa [upd_ne e] at hc
        | _ => exact hc }

theorem sim_free (r : Ref) : Sim G (vfree r) (bfree (aR G.φ r)) fun _ _ G' => G.live (aR G.φ r) ≠ none ∧ aR G.φ r = G.φ r.vec ∧ G' = G.gave (aR G.φ r) := by
  intro m W hr a m' e
  unfold vfree at e
  split at e
  swap
  · cases e
  next hc =>
  obtain ⟨h0, h1⟩ := hc
  cases e
  obtain ⟨n, hn⟩ := Option.isSome_iff_exists.1 h1
  have hv := hr.rel.vec hn
  have ha : aR G.φ r = G.φ r.vec := by rw [hr.rel.aR_eq hn (by omega) (by omega), h0]; simp
  refine ⟨(), _, _, by simp only [bfree, ha, hv, Option.isSome_some, if_true]; rfl, ?_, ?_, ha, rfl⟩
  swap
  · rw [ha, ← hr.live, hv]; simp
  refine ⟨?_, hr.ms, by simp only [Gh.gave, hr.log, ha], by simp only [Gh.gave, hr.live, ha], hr.new⟩
  have hsub : ∀ v k, upd m.vlen r.vec none v = some k → v ≠ r.vec ∧ m.vlen v = some k := fun v k h => by
    by_cases e : v = r.vec
    · subst e; rw [upd_same] at h; cases h
    · rw [upd_ne e] at h; exact ⟨e, h⟩
  have hsub' : ∀ v, upd m.vlen r.vec none v ≠ none → m.vlen v ≠ none := fun v h => by
    obtain ⟨k, hk⟩ := Option.ne_none_iff_exists'.1 h
    rw [(hsub v k hk).2]; simp
  have hl : ∀ b k, upd W.mem.live (G.φ r.vec) none b = some k → b ≠ G.φ r.vec ∧ W.mem.live b = some k := fun b k h => by
    by_cases e : b = G.φ r.vec
    · subst e; rw [upd_same] at h; cases h
    · rw [upd_ne e] at h; exact ⟨e, h⟩
  have hR := hr.rel
  exact
    { byte := hR.byte
      live := fun b k => by
        simp only
        constructor
        · intro h
          obtain ⟨h2, h3⟩ := hl b k h
          rcases (hR.live b k).1 h3 with h4 | ⟨v, k', h4, h5, h6⟩
          · exact .inl h4
          · refine .inr ⟨v, k', ?_, h5, h6⟩
            rw [upd_ne]; exact h4
            rintro rfl; exact h2 h5.symm
        · rintro (h | ⟨v, k', h4, h5, h6⟩)
          · have hx := (hR.live b k).2 (.inl h)
            rw [upd_ne]; exact hx
            rintro rfl
            exact absurd (h.symm.trans (hR.venv r.vec (by simp [hn]))) (by simp)
          · obtain ⟨h7, h8⟩ := hsub v k' h4
            rw [upd_ne]; exact (hR.live b k).2 (.inr ⟨v, k', h8, h5, h6⟩)
            rintro rfl
            exact h7 (hR.vinj v r.vec (by simp [h8]) (by simp [hn]) h5)
      pos := fun b k h => hR.pos b k (hl b k h).2
      reg := fun b k b' k' h h' => hR.reg b k b' k' (hl b k h).2 (hl b' k' h').2
      vinj := fun v v' h h' => hR.vinj v v' (hsub' v h) (hsub' v' h')
      venv := fun v h => hR.venv v (hsub' v h)
      fresh := fun v h => by
        simp only
        by_cases e : v = r.vec
        · rw [e, upd_same]
        · rw [upd_ne e]; exact hR.fresh v h
      node := hR.node
      nsep := hR.nsep
      fin := hR.fin
      fsep := hR.fsep
      nfsep := hR.nfsep
      val := fun o c ho hc => by
        refine hR.val o c ?_ hc
        cases o with
        | cell v i => obtain ⟨k, h1, h2⟩ := ho; exact ⟨k, (hsub v k h1).2, h2⟩
        | _ => exact ho }

/-- Loops. -/
theorem Sim.adm (G : Gh) (y : BM β) (Q : α → β → Gh → Prop) : Lean.Order.admissible (fun x : MM α => Sim G x y Q) := by
  have : (fun x : MM α => Sim G x y Q) = fun x : MM α => ∀ m a m', x m = some (a, m') →
      ∀ W, GRel G m W → ∃ b W' G', y W = some (b, W') ∧ GRel G' m' W' ∧ Q a b G' := by
    funext x
    apply propext
    exact ⟨fun h m a m' e W hr => h m W hr a m' e, fun h m W hr a m' e => h m a m' e W hr⟩
  rw [this]
  exact FlatSpec.ST.adm fun m a m' => ∀ W, GRel G m W → ∃ b W' G', y W = some (b, W') ∧ GRel G' m' W' ∧ Q a b G'

theorem Sim.admN (G : Gh) (y : BM β) (Q : α → β → Gh → Prop) : Lean.Order.admissible (fun x : HM α => Sim G (onNodes x) y Q) := by
  have : (fun x : HM α => Sim G (onNodes x) y Q) = fun x : HM α => ∀ h a h', x h = some (a, h') →
      ∀ m W, m.heap = h → GRel G m W → ∃ b W' G', y W = some (b, W') ∧ GRel G' { m with heap := h' } W' ∧ Q a b G' := by
    funext x
    apply propext
    constructor
    · intro hs h a h' e m W hm hr
      subst hm
      exact hs m W hr a { m with heap := h' } (by simp only [onNodes, zoom, e])
    · intro hs m W hr a m' e
      simp only [onNodes, zoom] at e
      split at e
      · cases e
      next r' h' e' =>
      cases e
      exact hs _ _ _ e' m W rfl hr
  rw [this]
  exact FlatSpec.ST.adm fun h a h' => ∀ m W, m.heap = h → GRel G m W → ∃ b W' G', y W = some (b, W') ∧ GRel G' { m with heap := h' } W' ∧ Q a b G'

end HashFlat
end Tommy
