import Verif.Model.Basic

/-!
# The lookup tree of the domain: src/libmrc/src/bintree.c, src/libmrc/src/mrc_domain_multi.c

Simplification: a node and the nodes it points to are a tree; the array `nodes`, of which every element is used once, and the
counter `numelements` are left out.  `none` is a failed assertion, a null pointer or an index out of bounds.
-/

namespace Psc.Bintree

/-- `struct bintree_node`, src/libmrc/include/bintree.h:15-20; `nil` is `NULL` -/
inductive Tree
  | nil
  | node (key value : ℤ) (left right : Tree)
deriving DecidableEq

/-- `addelement`, bintree.c:10-59: the tree at `*root` afterwards -/
def addelement : Tree → ℤ → ℤ → Option Tree
  | .nil, key, value => some (.node key value .nil .nil)
  | .node k v l r, key, value =>
    if key < k then do
      let l ← addelement l key value
      some (.node k v l r)
    else if key > k then do
      let r ← addelement r key value
      some (.node k v l r)
    else none

/-- element `i` of a C array -/
def at? (l : List ℤ) (i : ℤ) : Option ℤ := if i < 0 then none else l[i.toNat]?

/-- `addfromarray`, bintree.c:61-74: the tree at `*root` afterwards -/
def addfromarray (keys values : List ℤ) (root : Tree) (lower higher : ℤ) : Option Tree :=
  if higher < lower then some root
  else do
    let median := lower + (higher - lower) / 2
    let key ← at? keys median
    let value ← at? values median
    match ← addelement root key value with
    | .nil => none
    | .node k v l r => do
      let l ← addfromarray keys values l lower (median - 1)
      let r ← addfromarray keys values r (median + 1) higher
      some (.node k v l r)
termination_by (higher + 1 - lower).toNat
decreasing_by all_goals omega

/-- `bintree_create_from_ordered_list`, bintree.c:76-84 -/
def create (keys values : List ℤ) (num_entries : ℤ) : Option Tree :=
  addfromarray keys values .nil 0 (num_entries - 1)

/-- `bintree_get`, bintree.c:92-112: the value if the result is 1, `none` if it is 0 -/
def get : Tree → ℤ → Option ℤ
  | .nil, _ => none
  | .node k v l r, key => if k = key then some v else if key < k then get l key else get r key

/-- `multi->gp` and `multi->g_patches` -/
structure Map where
  gp : List ℤ
  g_patches : Tree

/-- the loop of `mrc_domain_multi_setup_map`, mrc_domain_multi.c:204-216: the indices along the curve of the active patches -/
def sfc_indices (active : ℤ → Bool) (npt : ℕ) : List ℤ :=
  ((List.range npt).map (fun (i : ℕ) => (i : ℤ))).filter active

/-- `map_create` with a list, mrc_domain_multi.c:28-47; the list has `nr_gpatches` elements -/
def map_create (sfc_indices : List ℤ) : Option Map := do
  let vals := (List.range sfc_indices.length).map (fun (i : ℕ) => (i : ℤ))
  let t ← create sfc_indices vals sfc_indices.length
  some ⟨sfc_indices, t⟩

/-- `map_sfc_idx_to_gpatch` of a map with a list, mrc_domain_multi.c:61-75 -/
def Map.sfc_idx_to_gpatch (m : Map) (sfc_idx : ℤ) : ℤ := (get m.g_patches sfc_idx).getD (-1)

/-- `map_gpatch_to_sfc_idx` of a map with a list, mrc_domain_multi.c:77-86 -/
def Map.gpatch_to_sfc_idx (m : Map) (gpatch : ℤ) : Option ℤ := at? m.gp gpatch

end Psc.Bintree
