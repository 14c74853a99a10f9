import Verif.Model.Basic

/-!
# Field storage, grid loops and the field push
(src/include/grid.hxx, src/include/fields.hxx, src/include/psc_push_fields_impl.hxx)
-/

namespace Psc.Fields

/-- one component of a patch's field storage, by logical index -/
abbrev Comp (K : Type*) := ℤ → ℤ → ℤ → K

/-- State fields of one patch: components JXI.., EX.., HX.. (src/include/psc.h:26-38) as three vectors.
Simplification: storage is total in the index; which indices the code reads and writes is what the
loops below say. -/
structure Flds (K : Type*) where
  /-- current density -/
  J : Fin 3 → Comp K
  /-- electric field -/
  E : Fin 3 → Comp K
  /-- magnetic field -/
  H : Fin 3 → Comp K

/-- indices `lo, lo+1, .., hi-1` of a C loop `for (i = lo; i < hi; i++)` -/
def rng (lo hi : ℤ) : List ℤ := (List.range (hi - lo).toNat).map fun n : ℕ => lo + (n : ℤ)

/-- `Grid_::Foreach_3d`, src/include/grid.hxx:124-139: the sequence of indices visited. -/
def foreach3d (ldims : I3) (inv : Fin 3 → Bool) (l r : ℤ) : List (ℤ × ℤ × ℤ) :=
  let ilo : Fin 3 → ℤ := fun d => if inv d then 0 else -l
  let ihi : Fin 3 → ℤ := fun d => ldims d + if inv d then 0 else r
  (rng (ilo 2) (ihi 2)).flatMap fun k =>
    (rng (ilo 1) (ihi 1)).flatMap fun j =>
      (rng (ilo 0) (ihi 0)).map fun i => (i, j, k)

/-- index mapping of `Fields3d<F, dim>` (src/include/fields.hxx:50-66): invariant directions have index 0.
`inv d` stands for `dim::InvarX/Y/Z`. -/
def ix (inv : Fin 3 → Bool) (d : Fin 3) (i : ℤ) : ℤ := if inv d then 0 else i

/-- read accessor `F(m, i, j, k)` of `Fields3d` (src/include/fields.hxx:50-57) -/
def acc {K : Type*} (inv : Fin 3 → Bool) (F : Comp K) (i j k : ℤ) : K :=
  F (ix inv 0 i) (ix inv 1 j) (ix inv 2 k)

/-- `F(m, i, j, k) = v` (src/include/fields.hxx:59-66) -/
def setAt {K : Type*} (inv : Fin 3 → Bool) (F : Comp K) (i j k : ℤ) (v : K) : Comp K :=
  fun a b c => if a = ix inv 0 i ∧ b = ix inv 1 j ∧ c = ix inv 2 k then v else F a b c

/-- replace one component of a vector field -/
def setComp {K : Type*} (V : Fin 3 → Comp K) (d : Fin 3) (c : Comp K) : Fin 3 → Comp K :=
  fun e => if e = d then c else V e

section
variable {K : Type*} [Field K]

/-- `PushBase` constructor, psc_push_fields_impl.hxx:33-43 (`cnx`, `cny`, `cnz`). -/
def cn (inv : Fin 3 → Bool) (dx : R3 K) (dth : K) (d : Fin 3) : K :=
  if inv d then 0 else dth / dx d

/-- `PushE::x`, psc_push_fields_impl.hxx:63-68. -/
def pushE_x (inv : Fin 3 → Bool) (dx : R3 K) (dth : K) (F : Flds K) (i j k : ℤ) : Flds K :=
  let A := acc inv
  { F with E := setComp F.E 0 (setAt inv (F.E 0) i j k (A (F.E 0) i j k +
      (cn inv dx dth 1 * (A (F.H 2) i j k - A (F.H 2) i (j - 1) k) -
       cn inv dx dth 2 * (A (F.H 1) i j k - A (F.H 1) i j (k - 1)) - dth * A (F.J 0) i j k))) }

/-- `PushE::y`, psc_push_fields_impl.hxx:70-75. -/
def pushE_y (inv : Fin 3 → Bool) (dx : R3 K) (dth : K) (F : Flds K) (i j k : ℤ) : Flds K :=
  let A := acc inv
  { F with E := setComp F.E 1 (setAt inv (F.E 1) i j k (A (F.E 1) i j k +
      (cn inv dx dth 2 * (A (F.H 0) i j k - A (F.H 0) i j (k - 1)) -
       cn inv dx dth 0 * (A (F.H 2) i j k - A (F.H 2) (i - 1) j k) - dth * A (F.J 1) i j k))) }

/-- `PushE::z`, psc_push_fields_impl.hxx:77-82. -/
def pushE_z (inv : Fin 3 → Bool) (dx : R3 K) (dth : K) (F : Flds K) (i j k : ℤ) : Flds K :=
  let A := acc inv
  { F with E := setComp F.E 2 (setAt inv (F.E 2) i j k (A (F.E 2) i j k +
      (cn inv dx dth 0 * (A (F.H 1) i j k - A (F.H 1) (i - 1) j k) -
       cn inv dx dth 1 * (A (F.H 0) i j k - A (F.H 0) i (j - 1) k) - dth * A (F.J 2) i j k))) }

/-- `PushH::x`, psc_push_fields_impl.hxx:105-109. -/
def pushH_x (inv : Fin 3 → Bool) (dx : R3 K) (dth : K) (F : Flds K) (i j k : ℤ) : Flds K :=
  let A := acc inv
  { F with H := setComp F.H 0 (setAt inv (F.H 0) i j k (A (F.H 0) i j k -
      (cn inv dx dth 1 * (A (F.E 2) i (j + 1) k - A (F.E 2) i j k) -
       cn inv dx dth 2 * (A (F.E 1) i j (k + 1) - A (F.E 1) i j k)))) }

/-- `PushH::y`, psc_push_fields_impl.hxx:111-115. -/
def pushH_y (inv : Fin 3 → Bool) (dx : R3 K) (dth : K) (F : Flds K) (i j k : ℤ) : Flds K :=
  let A := acc inv
  { F with H := setComp F.H 1 (setAt inv (F.H 1) i j k (A (F.H 1) i j k -
      (cn inv dx dth 2 * (A (F.E 0) i j (k + 1) - A (F.E 0) i j k) -
       cn inv dx dth 0 * (A (F.E 2) (i + 1) j k - A (F.E 2) i j k)))) }

/-- `PushH::z`, psc_push_fields_impl.hxx:117-121. -/
def pushH_z (inv : Fin 3 → Bool) (dx : R3 K) (dth : K) (F : Flds K) (i j k : ℤ) : Flds K :=
  let A := acc inv
  { F with H := setComp F.H 2 (setAt inv (F.H 2) i j k (A (F.H 2) i j k -
      (cn inv dx dth 0 * (A (F.E 1) (i + 1) j k - A (F.E 1) i j k) -
       cn inv dx dth 1 * (A (F.E 0) i (j + 1) k - A (F.E 0) i j k)))) }

/-- What the field pushes need to know about the grid. -/
structure GridP (K : Type*) where
  /-- cells per patch -/
  ldims : I3
  /-- invariant directions: `dim` tag and `isInvar` agree -/
  inv : Fin 3 → Bool
  /-- cell sizes -/
  dx : R3 K
  /-- time step -/
  dt : K

/-- `PushFields::push_E` on one patch, psc_push_fields_impl.hxx:149-158, with the local `Foreach_3d`
(lines 13-21: `f.x; f.y; f.z` at every index). -/
def push_E (g : GridP K) (dt_fac : K) (F : Flds K) : Flds K :=
  let dth := dt_fac * g.dt
  (foreach3d g.ldims g.inv 1 2).foldl (fun F n =>
    pushE_z g.inv g.dx dth (pushE_y g.inv g.dx dth (pushE_x g.inv g.dx dth F n.1 n.2.1 n.2.2)
      n.1 n.2.1 n.2.2) n.1 n.2.1 n.2.2) F

/-- `PushFields::push_H` on one patch, psc_push_fields_impl.hxx:168-177. -/
def push_H (g : GridP K) (dt_fac : K) (F : Flds K) : Flds K :=
  let dth := dt_fac * g.dt
  (foreach3d g.ldims g.inv 2 1).foldl (fun F n =>
    pushH_z g.inv g.dx dth (pushH_y g.inv g.dx dth (pushH_x g.inv g.dx dth F n.1 n.2.1 n.2.2)
      n.1 n.2.1 n.2.2) n.1 n.2.1 n.2.2) F

end

end Psc.Fields
