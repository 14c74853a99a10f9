import Mathlib.Logic.Function.Basic
import Mathlib.Data.List.Basic
import Mathlib.Data.Int.Notation
import Mathlib.Algebra.Group.Int.Defs

/-!
# The lists of libmrc (src/libmrc/include/mrc_list.h)

Circular doubly linked lists: children, dictionaries, instances and subclasses of objects, the options of the command line, the objects
of a file.  `P` are the addresses of `struct list_head`; `none` is NULL, and following it is undefined (`none` as a result).  That memory
may be freed, and how an entry lies in a larger structure (`list_entry`), is not modelled.
-/

namespace Psc.Lists

variable {P : Type} [DecidableEq P]

/-- all `struct list_head`, mrc_list.h:32-34 -/
structure Heap (P : Type) where
  next : P → Option P
  prev : P → Option P

/-- `p->next = v` -/
def Heap.setNext (h : Heap P) (p v : Option P) : Option (Heap P) :=
  p.map fun p => { h with next := Function.update h.next p v }

/-- `p->prev = v` -/
def Heap.setPrev (h : Heap P) (p v : Option P) : Option (Heap P) :=
  p.map fun p => { h with prev := Function.update h.prev p v }

/-- `INIT_LIST_HEAD`, mrc_list.h:43-45 -/
def initHead (h : Heap P) (p : P) : Heap P :=
  { next := Function.update h.next p (some p)
    prev := Function.update h.prev p (some p) }

/-- `__list_add`, mrc_list.h:53-59 -/
def listAdd' (h : Heap P) (new : P) (prev next : Option P) : Option (Heap P) := do
  let h ← h.setPrev next (some new)
  let h ← h.setNext (some new) next
  let h ← h.setPrev (some new) prev
  h.setNext prev (some new)

/-- `list_add`, mrc_list.h:69-72 -/
def list_add (h : Heap P) (new head : P) : Option (Heap P) := listAdd' h new (some head) (h.next head)

/-- `list_add_tail`, mrc_list.h:82-85 -/
def list_add_tail (h : Heap P) (new head : P) : Option (Heap P) := listAdd' h new (h.prev head) (some head)

/-- `__list_del`, mrc_list.h:94-98 -/
def listDel' (h : Heap P) (prev next : Option P) : Option (Heap P) := do
  let h ← h.setPrev next prev
  h.setNext prev next

/-- `list_del`, mrc_list.h:105-110 -/
def list_del (h : Heap P) (entry : P) : Option (Heap P) := do
  let h ← listDel' h (h.prev entry) (h.next entry)
  let h ← h.setNext (some entry) none
  h.setPrev (some entry) none

/-- `list_del_init`, mrc_list.h:116-120 -/
def list_del_init (h : Heap P) (entry : P) : Option (Heap P) := do
  let h ← listDel' h (h.prev entry) (h.next entry)
  return initHead h entry

/-- `list_move`, mrc_list.h:127-131 -/
def list_move (h : Heap P) (entry head : P) : Option (Heap P) := do
  let h ← listDel' h (h.prev entry) (h.next entry)
  list_add h entry head

/-- `list_move_tail`, mrc_list.h:138-142 -/
def list_move_tail (h : Heap P) (entry head : P) : Option (Heap P) := do
  let h ← listDel' h (h.prev entry) (h.next entry)
  list_add_tail h entry head

/-- `list_empty`, mrc_list.h:148-151 -/
def list_empty (h : Heap P) (head : P) : Bool := h.next head = some head

/-- `__list_splice`, mrc_list.h:153-164 -/
def listSplice' (h : Heap P) (list head : P) : Option (Heap P) := do
  let first := h.next list
  let last := h.prev list
  let pos := h.next head
  let h ← h.setPrev first (some head)
  let h ← h.setNext (some head) first
  let h ← h.setNext last pos
  h.setPrev pos last

/-- `list_splice`, mrc_list.h:171-175 -/
def list_splice (h : Heap P) (list head : P) : Option (Heap P) :=
  if list_empty h list then some h else listSplice' h list head

/-- `list_splice_init`, mrc_list.h:184-190 -/
def list_splice_init (h : Heap P) (list head : P) : Option (Heap P) :=
  if list_empty h list then some h else (listSplice' h list head).map fun h => initHead h list

/-- the loop of `list_for_each` and `list_for_each_entry`, mrc_list.h:206-208, 234-242, from `pos` on: the entries visited; at most
`n` rounds -/
def forEach (h : Heap P) (head : P) : ℕ → Option P → Option (List P)
  | 0, _ => none
  | _ + 1, none => none
  | n + 1, some pos => if pos = head then some [] else (forEach h head n (h.next pos)).map (pos :: ·)

/-- the loop of `list_for_each_prev`, mrc_list.h:214-216 -/
def forEachPrev (h : Heap P) (head : P) : ℕ → Option P → Option (List P)
  | 0, _ => none
  | _ + 1, none => none
  | n + 1, some pos => if pos = head then some [] else (forEachPrev h head n (h.prev pos)).map (pos :: ·)

/-- the loop of `list_for_each_safe`, mrc_list.h:224-226, with a body that deletes the entries for which `f` holds: the entries visited and
the heap afterwards; `nx` is `n` -/
def forEachSafe (f : P → Bool) (head : P) : ℕ → Heap P → Option P → Option P → Option (List P × Heap P)
  | 0, _, _, _ => none
  | _ + 1, _, none, _ => none
  | k + 1, h, some pos, nx =>
    if pos = head then some ([], h)
    else do
      let h ← if f pos then list_del h pos else some h
      let nx' := nx.bind h.next
      let r ← forEachSafe f head k h nx nx'
      return (pos :: r.1, r.2)

/-- `while (!list_empty(head)) { e = head->next; list_del(e); .. }`, mrc_obj.c:282-307, mrc_io.c:105-112, mrc_params.c:137-145: the
entries in the order in which they are taken out -/
def drain (head : P) : ℕ → Heap P → Option (List P × Heap P)
  | 0, _ => none
  | k + 1, h =>
    if list_empty h head then some ([], h)
    else do
      let e ← h.next head
      let h ← list_del h e
      let r ← drain head k h
      return (e :: r.1, r.2)

/-- what can be done with lists -/
inductive Cmd (P : Type)
  | init (p : P)
  | add (new head : P)
  | addTail (new head : P)
  | del (e : P)
  | delInit (e : P)
  | move (e head : P)
  | moveTail (e head : P)
  | splice (list head : P)
  | spliceInit (list head : P)

/-- the functions above -/
def exec (h : Heap P) : Cmd P → Option (Heap P)
  | .init p => some (initHead h p)
  | .add x p => list_add h x p
  | .addTail x p => list_add_tail h x p
  | .del e => list_del h e
  | .delInit e => list_del_init h e
  | .move e p => list_move h e p
  | .moveTail e p => list_move_tail h e p
  | .splice q p => list_splice h q p
  | .spliceInit q p => list_splice_init h q p

/-! ## Classes and their instances -/

/-- Addresses of lists and entries: of an object its `instance_entry`, of a class `instances` and `active_classes`, and
`active_classes_head`. -/
inductive Addr (O C : Type)
  | instance_entry (o : O)
  | instances (c : C)
  | active (c : C)
  | active_head
  deriving DecidableEq

/-- Objects and classes of `mrc_obj`: the heap, the reference count of an object (`0`: there is no such object), its class, and
`initialized`, `nr_instances`, `nr_creates`, `nr_frees` of the classes.  Not modelled: the children and members of objects, whose own
reference counts go down with them. -/
structure Objs (O C : Type) where
  heap : Heap (Addr O C)
  initialized : C → Bool
  refcount : O → ℕ
  cls : O → Option C
  nr_instances : C → ℤ
  nr_creates : C → ℤ
  nr_frees : C → ℤ

variable {O C : Type} [DecidableEq O] [DecidableEq C]

/-- `init_class`, mrc_obj.c:213-226, the part about `instances` -/
def init_class (s : Objs O C) (c : C) : Objs O C :=
  if s.initialized c then s
  else
    { s with
      initialized := Function.update s.initialized c true
      heap := initHead s.heap (.instances c) }

/-- `__mrc_obj_create`, mrc_obj.c:228-233, and `obj_create`, mrc_obj.c:121-151, at the address `o` that `calloc` returns -/
def create (s : Objs O C) (o : O) (c : C) : Option (Objs O C) := do
  let s := init_class s c
  let h ← list_add_tail s.heap (.instance_entry o) (.instances c)
  let h := if h.next .active_head = none then initHead h .active_head else h
  let h ← if h.next (.active c) = none then list_add h (.active c) .active_head else some h
  return { heap := h
           initialized := s.initialized
           refcount := Function.update s.refcount o 1
           cls := Function.update s.cls o (some c)
           nr_instances := Function.update s.nr_instances c (s.nr_instances c + 1)
           nr_creates := Function.update s.nr_creates c (s.nr_creates c + 1)
           nr_frees := s.nr_frees }

/-- `mrc_obj_get`, mrc_obj.c:246-252; `none`: the assertion fails -/
def get (s : Objs O C) (o : O) : Option (Objs O C) :=
  if s.refcount o > 0 then some { s with refcount := Function.update s.refcount o (s.refcount o + 1) } else none

/-- `mrc_obj_put`, mrc_obj.c:254-330 -/
def put (s : Objs O C) (o : O) : Option (Objs O C) :=
  if s.refcount o > 1 then some { s with refcount := Function.update s.refcount o (s.refcount o - 1) }
  else do
    let c ← s.cls o
    let h ← list_del s.heap (.instance_entry o)
    return { heap := h
             initialized := s.initialized
             refcount := Function.update s.refcount o 0
             cls := s.cls
             nr_instances := Function.update s.nr_instances c (s.nr_instances c - 1)
             nr_creates := s.nr_creates
             nr_frees := Function.update s.nr_frees c (s.nr_frees c + 1) }

/-- what a program does with objects -/
inductive Act (O C : Type)
  | create (o : O) (c : C)
  | get (o : O)
  | put (o : O)

/-- the functions above -/
def step (s : Objs O C) : Act O C → Option (Objs O C)
  | .create o c => create s o c
  | .get o => get s o
  | .put o => put s o

/-- before anything is created: static memory is zero -/
def start : Objs O C :=
  ⟨⟨fun _ => none, fun _ => none⟩, fun _ => false, fun _ => 0, fun _ => none, fun _ => 0, fun _ => 0, fun _ => 0⟩

/-- `mrc_obj_print_class_info`, mrc_obj.c:1430-1464: the number returned; at most `n` classes -/
def total_instances (s : Objs O C) (n : ℕ) : Option ℤ :=
  (forEach s.heap .active_head n (s.heap.next .active_head)).map fun l =>
    (l.map fun a => match a with
      | .active c => s.nr_instances c
      | _ => 0).sum

end Psc.Lists
