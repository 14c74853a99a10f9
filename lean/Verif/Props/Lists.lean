import Verif.Spec.Lists
import Verif.Lemmas.Lists

/-!
# Property C100: lists and objects of libmrc
-/

namespace Psc.Props

open Psc Psc.Lists

variable {P : Type} [DecidableEq P] {O C : Type} [DecidableEq O] [DecidableEq C]

/-- **C100 (lists).** Whatever lists there are, each function succeeds, does to its lists what it is to do, and leaves all other lists
alone. -/
theorem C100_step (h : Heap P) (L : World P) (hR : Rep h L) (c : Cmd P) (hc : L.Allowed c) :
    ∃ h', exec h c = some h' ∧ Rep h' (L.after c) := hR.step hc

/-- **C100 (histories).** So it is after every history of allowed calls. -/
theorem C100_history (h : Heap P) (cs : List (Cmd P)) (hc : World.AllowedAll World.empty cs) :
    ∃ h', cs.foldlM exec h = some h' ∧ Rep h' (cs.foldl World.after World.empty) := by
  have h0 : Rep h World.empty := ⟨fun p l hp => by simp [World.empty] at hp, fun p l q m hp => by simp [World.empty] at hp⟩
  generalize World.empty = L at h0 hc
  induction cs generalizing h L with
  | nil => exact ⟨h, rfl, h0⟩
  | cons c cs ih =>
    obtain ⟨h1, e1, R1⟩ := h0.step hc.1
    obtain ⟨h2, e2, R2⟩ := ih h1 _ R1 hc.2
    exact ⟨h2, by rw [List.foldlM_cons, e1]; exact e2, R2⟩

/-- two lists; an entry goes to the other, and then the one list into the other -/
private def someCmds100 : List (Cmd ℕ) :=
  [.init 0, .init 1, .addTail 10 0, .addTail 11 0, .add 12 0, .addTail 13 1, .move 11 1, .del 10, .spliceInit 1 0, .delInit 13]

private theorem upd100 {L : World ℕ} {p : ℕ} {X : Option (List ℕ)} : Function.update L p X = fun q => if q = p then X else L q := by
  funext q; rw [Function.update_apply]

example : World.AllowedAll World.empty someCmds100 ∧
    (someCmds100.foldl World.after World.empty) 0 = some [11, 12] ∧ (someCmds100.foldl World.after World.empty) 1 = some [] := by
  refine ⟨?_, by decide +kernel, by decide +kernel⟩
  simp only [someCmds100, World.AllowedAll, World.Allowed, World.after, upd100, World.without, World.Entry, World.Free, World.empty]
  refine ⟨?_, ?_, ⟨?_, by decide⟩, ⟨?_, by decide⟩, ⟨?_, by decide⟩, ⟨?_, by decide⟩, ⟨⟨0, _, rfl, by decide⟩, by decide⟩, ⟨0, _, rfl, by decide⟩,
    ⟨by decide, by decide, by decide⟩, ⟨0, _, rfl, by decide⟩, trivial⟩ <;>
  · intro p l hp
    repeat' split_ifs at hp
    all_goals simp_all
    all_goals aesop

/-- **C100 (walking).** Walking along a list meets its entries in order and ends; walking back meets them in the opposite order; a list is
found empty if and only if it is. -/
theorem C100_walk (h : Heap P) (p : P) (l : List P) (hl : IsList h p l) (n : ℕ) (hn : l.length < n) :
    forEach h p n (h.next p) = some l ∧ forEachPrev h p n (h.prev p) = some l.reverse ∧ (list_empty h p = true ↔ l = []) := by
  refine ⟨?_, ?_, hl.empty_iff⟩
  · rw [hl.next_head]
    exact forEach_from l [] n hl hn
  · rw [hl.prev_head]
    exact forEachPrev_from l [] n (by rwa [List.append_nil]) hn

/-- **C100 (deleting while walking).** The safe walk meets all entries although entries are deleted on the way, and those that were not are
left, in order. -/
theorem C100_walk_safe (f : P → Bool) (h : Heap P) (p : P) (l : List P) (hl : IsList h p l) (n : ℕ) (hn : l.length < n) :
    ∃ h', forEachSafe f p n h (h.next p) ((h.next p).bind h.next) = some (l, h') ∧ IsList h' p (l.filter fun x => !f x) := by
  rw [hl.next_head]
  exact forEachSafe_from f l [] n h hl hn

/-- **C100 (taking all out).** Taking out the first entry until the list is empty takes out all entries, in order. -/
theorem C100_drain (h : Heap P) (p : P) (l : List P) (hl : IsList h p l) (n : ℕ) (hn : l.length < n) :
    ∃ h', drain p n h = some (l, h') ∧ IsList h' p [] := drain_spec l n h hl hn

/-- there are such lists -/
example : ∃ h : Heap ℕ, IsList h 0 [10, 11, 12] := by
  refine ⟨⟨fun p => if p = 0 then some 10 else if p = 10 then some 11 else if p = 11 then some 12 else some 0,
    fun p => if p = 0 then some 12 else if p = 12 then some 11 else if p = 11 then some 10 else some 0⟩, by decide, by decide⟩

/-- deleting while walking without that is undefined: the entry deleted has no successor -/
example (h : Heap P) (p x : P) (l : List P) (hl : IsList h p (x :: l)) :
    ∃ h', list_del h x = some h' ∧ ∀ n, forEach h' p n (h'.next x) = none := by
  obtain ⟨h', e1, -, e2, -⟩ := list_del_spec (l1 := []) hl
  refine ⟨h', e1, fun n => ?_⟩
  rw [e2.1]
  cases n <;> rfl

/-- **C100 (objects).** After every history in which objects are created and references are taken and given up, an object is there as long
as there are references to it; each class lists the objects of the class that are there in the order of their creation and knows their
number; and every class of which an object was ever created is listed once. -/
theorem C100_objects (as : List (Act O C)) (ha : Abs.AllowedAll ⟨[], []⟩ as) :
    ∃ s A, as.foldlM step start = some s ∧ A = as.foldl Abs.after ⟨[], []⟩ ∧
      (∀ c ∈ A.classes, IsList s.heap (.instances c) ((A.instances c).map .instance_entry)) ∧
      (A.classes ≠ [] → IsList s.heap .active_head (A.classes.map .active)) ∧
      (∀ x ∈ A.objs, s.refcount x.1 = x.2.2 ∧ s.cls x.1 = some x.2.1 ∧ x.2.1 ∈ A.classes) ∧
      (∀ o, o ∉ A.objs.map Prod.fst → s.refcount o = 0) ∧
      ∀ c, s.nr_instances c = (A.instances c).length ∧ s.nr_instances c = s.nr_creates c - s.nr_frees c := by
  obtain ⟨s, e, h⟩ := (Inv.start (O := O) (C := C)).run as ha
  refine ⟨s, _, e, rfl, fun c hc => h.rep.lists _ _ ?_, fun h0 => h.rep.lists _ _ ?_, h.ref, h.ref0, fun c => ⟨h.cnt c, h.bal c⟩⟩
  · show (if c ∈ _ then _ else _) = _
    rw [if_pos hc]
  · show (if _ = [] then _ else _) = _
    rw [if_neg h0]

/-- **C100 (class information), partial.** The number of objects reported is the number of objects there are.  Missing: the report before
any object is created (`C100_class_info_violation`). -/
theorem C100_class_info_partial (as : List (Act O C)) (ha : Abs.AllowedAll ⟨[], []⟩ as) (h0 : as ≠ []) :
    ∃ s, as.foldlM step start = some s ∧ ∀ n, (as.foldl Abs.after ⟨[], []⟩).classes.length < n →
      total_instances s n = some ((as.foldl Abs.after ⟨[], []⟩).objs.length : ℤ) := by
  obtain ⟨s, e, h⟩ := (Inv.start (O := O) (C := C)).run as ha
  generalize hA : as.foldl Abs.after ⟨[], []⟩ = A at h ⊢
  have hne : A.classes ≠ [] := by
    have mono : ∀ (as : List (Act O C)) (B : Abs O C), B.classes ≠ [] → (as.foldl Abs.after B).classes ≠ [] := by
      intro as
      induction as with
      | nil => exact fun B hB => hB
      | cons a as ih =>
        intro B hB
        refine ih _ ?_
        cases a with
        | create o c =>
          simp only [Abs.after]
          split_ifs
          · exact hB
          · simp
        | get o => exact hB
        | put o => exact hB
    cases as with
    | nil => exact absurd rfl h0
    | cons a as =>
      rw [← hA]
      refine mono as _ ?_
      cases a with
      | create o c => simp [Abs.after]
      | get o => exact absurd ha.1 (by simp [Abs.Allowed])
      | put o => exact absurd ha.1 (by simp [Abs.Allowed])
  have hl : IsList s.heap .active_head (A.classes.map .active) := h.rep.lists _ _ (by
    show (if _ = [] then _ else _) = _
    rw [if_neg hne])
  have hn : A.classes.Nodup := (List.nodup_cons.1 hl.nodup).2.of_map _
  refine ⟨s, e, fun n hk => ?_⟩
  unfold total_instances
  rw [(C100_walk s.heap _ _ hl n (by rwa [List.length_map])).1, Option.map_some, List.map_map]
  congr 1
  rw [← sum_classes hn fun x hx => (h.ref x hx).2.2]
  congr 1
  refine List.map_congr_left fun c _ => ?_
  exact h.cnt c

/-- an object of one class, two of another, one gone, and one with a second reference -/
private def someActs100 : List (Act ℕ Bool) :=
  [.create 1 true, .create 2 false, .get 1, .create 3 true, .put 2, .put 1, .get 3]

example : Abs.AllowedAll ⟨[], []⟩ someActs100 ∧ (someActs100.foldl Abs.after ⟨[], []⟩).objs = [(1, true, 1), (3, true, 2)] ∧
    (someActs100.foldl Abs.after ⟨[], []⟩).classes = [false, true] := by
  refine ⟨?_, by decide, by decide⟩
  simp [someActs100, Abs.AllowedAll, Abs.Allowed, Abs.after]

/-- **C100, violated.** Before any object is created, reporting class information follows a null pointer. -/
theorem C100_class_info_violation (n : ℕ) : total_instances (start : Objs O C) n = none := by
  cases n <;> rfl

end Psc.Props
