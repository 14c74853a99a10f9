import Verif.Model.Pic
import Mathlib.Algebra.Order.Archimedean.Basic

/-!
# A periodic wave field carried into the box through the lower y boundary
(`AdvectedPeriodicFields`, src/psc_shock.cxx:600-741; called from `fill_ghosts_H` and `radiative_H_lo`,
src/libpsc/psc_bnd_fields/psc_bnd_fields_impl.hxx:81-135, 535-583)

All ranks together: `update_cache_lower` communicates.
-/

namespace Psc.Advect

open Domain Ddc FieldStep Interp

noncomputable section

/-- the grid, the speed the wave field is carried with, and the interpolation -/
structure Setup where
  c : Ddc.Cfg
  /-- `grid.domain.dx` -/
  dx : R3 ℝ
  /-- `grid.domain.corner` -/
  corner : R3 ℝ
  /-- `v_advect` -/
  v : ℝ
  /-- `ip`, psc_shock.cxx:737-740: `opt_ip_1st_ec` of the dimension of the run -/
  interp : R3 ℝ → Fld ℝ → Fin 6 → ℝ

/-- `patch_size`, psc_shock.cxx:629; `domain.length = gdims * dx` -/
def patch_size (S : Setup) : ℝ := (((S.c.D.np 1 * S.c.ldims 1 : ℤ) : ℝ) * S.dx 1) / (S.c.D.np 1 : ℝ)

/-- the members that change: `cycled_fields` and `n_patch_cycles` on every rank.  `cycled_fields` is copied with the currents,
which are never used; only the components the interpolation sees are kept. -/
structure Cache where
  fields : ℕ → Fld ℝ
  cycles : ℕ → ℕ

/-- the constructor, psc_shock.cxx:604-620: the fields at the start without the background.  One patch per rank, as the assert
in `update_cache_lower` demands. -/
def init (bg_e bg_h : R3 ℝ) (flds : Glob ℝ) : Cache where
  fields r m i j k := Pic.emOf (flds r 0) m i j k - (![bg_e 0, bg_e 1, bg_e 2, bg_h 0, bg_h 1, bg_h 2] : Fin 6 → ℝ) m
  cycles _ := 0

/-- `advect_x3`, psc_shock.cxx:622-625 -/
def advect_x3 (S : Setup) (t : ℝ) (x : R3 ℝ) : R3 ℝ := fun d => x d - if d = 1 then t * S.v else 0

open Classical in
/-- `shift_to_patch_local`, psc_shock.cxx:627-636: the loop runs until the position is no longer below the corner; `none` if it
does not end. -/
def shift_to_patch_local (S : Setup) (x : R3 ℝ) : Option (R3 ℝ × ℕ) :=
  if h : ∃ n : ℕ, ¬ x 1 + (n : ℝ) * patch_size S < S.corner 1 then
    some (fun d => if d = 1 then x 1 + (Nat.find h : ℝ) * patch_size S else x d, Nat.find h)
  else none

/-- `calc_e_h`, psc_shock.cxx:638-663, on rank `r`; the patch is 0 (the caller's variable `p` is hidden by the pulse of the same
name, which is 0 at that point, psc_bnd_fields_impl.hxx:558-567).  `none`: `LOG_ERROR` ends the run. -/
def calc_e_h (S : Setup) (t : ℝ) (s : Cache) (r : ℕ) (x : R3 ℝ) : Option (Fin 6 → ℝ) := do
  let (x', n) ← shift_to_patch_local S (advect_x3 S t x)
  if n ≠ s.cycles r then none
  else some (S.interp (fun d => x' d * (1 / S.dx d)) (s.fields r))

/-- component of the electric field -/
def eComp (d : Fin 3) : Fin 6 := ![0, 1, 2] d
/-- component of the magnetic field -/
def hComp (d : Fin 3) : Fin 6 := ![3, 4, 5] d

/-- `pulse_s_lower`, psc_shock.cxx:665-675 -/
def pulse_s_lower (S : Setup) (t : ℝ) (s : Cache) (d : Fin 3) (r : ℕ) (x : R3 ℝ) : Option ℝ := do
  let f ← calc_e_h S t s r x
  some ((f (eComp (d + 1)) + f (hComp (d + 2))) / 2)

/-- `pulse_p_lower`, psc_shock.cxx:677-687 -/
def pulse_p_lower (S : Setup) (t : ℝ) (s : Cache) (d : Fin 3) (r : ℕ) (x : R3 ℝ) : Option ℝ := do
  let f ← calc_e_h S t s r x
  some ((f (eComp (d + 2)) - f (hComp (d + 1))) / 2)

/-- `flatten_index`, src/kg/include/kg/Vec3.h:480-488, for three dimensions -/
def flatten_index (idx dims : P3) : ℕ := (idx 0 * dims 1 + idx 1) * dims 2 + idx 2

/-- `reverse`, src/kg/include/kg/Vec3.h -/
def reverse (a : P3) : P3 := ![a 2, a 1, a 0]

/-- `dest_rank`, psc_shock.cxx:719-721 -/
def dest_rank (D : Decomp) (r : ℕ) : ℕ :=
  flatten_index (reverse fun d => (D.idx3 r 0 d + if d = 1 then 1 else 0) % D.np d) (reverse D.np)

/-- `source_rank`, psc_shock.cxx:722-723 -/
def source_rank (D : Decomp) (r : ℕ) : ℕ :=
  flatten_index (reverse fun d => (D.idx3 r 0 d + D.np d - if d = 1 then 1 else 0) % D.np d) (reverse D.np)

/-- rank `r` takes part in the exchange: no cache hit, psc_shock.cxx:706-709 -/
def parts (n : ℕ) (s : Cache) (r : ℕ) : Prop := n ≠ s.cycles r

/-- the exchange of all ranks completes: every rank that calls `MPI_Sendrecv_replace` names partners that exist, that call it
too, and that name it -/
def Matched (D : Decomp) (n : ℕ) (s : Cache) : Prop :=
  ∀ r < D.counts.length, parts n s r →
    (source_rank D r < D.counts.length ∧ parts n s (source_rank D r) ∧ dest_rank D (source_rank D r) = r) ∧
    (dest_rank D r < D.counts.length ∧ parts n s (dest_rank D r) ∧ source_rank D (dest_rank D r) = r)

open Classical in
/-- `update_cache_lower`, psc_shock.cxx:696-733, for `d = DIM_Y`, on all ranks.  `none`: the assert fails, the loop does not end,
or a rank waits for ever. -/
def update_cache_lower (S : Setup) (t : ℝ) (s : Cache) : Option Cache :=
  if ¬ ∀ n ∈ S.c.D.counts, n = 1 then none
  else do
    let (_, n) ← shift_to_patch_local S (advect_x3 S t fun _ => 0)
    if Matched S.c.D n s then
      some { fields := fun r => if parts n s r then s.fields (source_rank S.c.D r) else s.fields r
             cycles := fun r => if parts n s r then s.cycles r + 1 else s.cycles r }
    else none

/-- the calls of `update_cache_lower` at the times `ts`, in this order -/
def updates (S : Setup) : List ℝ → Cache → Option Cache
  | [], s => some s
  | t :: ts, s => do
    let s ← update_cache_lower S t s
    updates S ts s

end

end Psc.Advect
