import Verif.Proof.CImpl
/-! The functions of tommylist.h. -/
set_option autoImplicit false
namespace Tommy.C
open Src
variable [Arch] (ext : Ext)

@[csem] theorem run_list_head (t : CTy) (list : Nat) : run ext "tommy_list_head" [⟨.ptr t, list⟩] = (do let v ← bget list; return ⟨tNode, v⟩) := by
  rw [run_fun rfl (show funs _ = some f_tommy_list_head from rfl)]
  unfold f_tommy_list_head
  simp only [Stmt.list]
  csimp

@[csem] theorem run_list_insert_first (s t : CTy) (list node : Nat) :
    run ext "tommy_list_insert_first" [⟨.ptr s, list⟩, ⟨.ptr t, node⟩] = (do blistInsertFirst list node; return ⟨.void, 0⟩) := by
  rw [run_fun rfl (show funs _ = some f_tommy_list_insert_first from rfl)]
  unfold blistInsertFirst f_tommy_list_insert_first
  simp only [Stmt.list]
  csimp

@[csem] theorem run_list_insert_tail_not_empty (s t : CTy) (list node : Nat) :
    run ext "tommy_list_insert_tail_not_empty" [⟨.ptr s, list⟩, ⟨.ptr t, node⟩] = (do blistInsertTailNotEmpty list node; return ⟨.void, 0⟩) := by
  rw [run_fun rfl (show funs _ = some f_tommy_list_insert_tail_not_empty from rfl)]
  unfold blistInsertTailNotEmpty f_tommy_list_insert_tail_not_empty
  simp only [Stmt.list]
  csimp

@[csem] theorem run_list_insert_tail (s t u : CTy) (list node data : Nat) :
    run ext "tommy_list_insert_tail" [⟨.ptr s, list⟩, ⟨.ptr t, node⟩, ⟨.ptr u, data⟩] = (do blistInsertTail list node data; return ⟨.void, 0⟩) := by
  rw [run_fun rfl (show funs _ = some f_tommy_list_insert_tail from rfl)]
  unfold blistInsertTail f_tommy_list_insert_tail
  simp only [Stmt.list]
  csimp

@[csem] theorem run_list_remove_existing (s t : CTy) (list node : Nat) :
    run ext "tommy_list_remove_existing" [⟨.ptr s, list⟩, ⟨.ptr t, node⟩] = (do let v ← blistRemoveExisting list node; return ⟨.ptr .void, v⟩) := by
  rw [run_fun rfl (show funs _ = some f_tommy_list_remove_existing from rfl)]
  unfold blistRemoveExisting f_tommy_list_remove_existing
  simp only [Stmt.list]
  csimp
  funext w
  refine get_at fun x h1 => get_at fun y h2 => ?_
  split
  · refine get_at fun z h3 => bind_at fun _ => ?_
    split
    · rfl
    · rw [get_comm]
  · refine get_at fun z h3 => ?_
    rw [get_known h2]
    refine bind_at fun _ => ?_
    split
    · rfl
    · rw [get_comm]

@[csem] theorem run_list_concat (s t : CTy) (first second : Nat) :
    run ext "tommy_list_concat" [⟨.ptr s, first⟩, ⟨.ptr t, second⟩] = (do blistConcat first second; return ⟨.void, 0⟩) := by
  rw [run_fun rfl (show funs _ = some f_tommy_list_concat from rfl)]
  unfold blistConcat f_tommy_list_concat
  simp only [Stmt.list]
  csimp
  funext w
  refine get_at fun x h1 => ?_
  split
  · rfl
  · refine get_at fun y h2 => ?_
    split
    · rw [get_known h1]
    · rfl

theorem keeps_listInsertFirst (list node : Nat) : Keeps (fun _ => True) (blistInsertFirst list node) :=
  (keeps_set _ _).bind fun _ _ => (keeps_set _ _).bind fun _ _ => keeps_set _ _

theorem keeps_listInsertTailNotEmpty (list node : Nat) : Keeps (fun _ => True) (blistInsertTailNotEmpty list node) :=
  (keeps_get _).bind fun _ _ => (keeps_set _ _).bind fun _ _ => (keeps_set _ _).bind fun _ _ => (keeps_set _ _).bind fun _ _ =>
    (keeps_get _).bind fun _ _ => keeps_set _ _

theorem keeps_listInsertTail (list node data : Nat) : Keeps (fun _ => True) (blistInsertTail list node data) := by
  refine (keeps_get _).bind fun _ _ => ?_
  split
  · exact (keeps_listInsertTailNotEmpty _ _).bind fun _ _ => keeps_set _ _
  · exact (keeps_listInsertFirst _ _).bind fun _ _ => keeps_set _ _

theorem keeps_listRemoveExisting (list node : Nat) : Keeps (fun v => v < 2 ^ sizeBit) (blistRemoveExisting list node) := by
  unfold blistRemoveExisting
  keeps

theorem keeps_listConcat (first second : Nat) : Keeps (fun _ => True) (blistConcat first second) := by
  unfold blistConcat
  keeps

end Tommy.C
