import Verif.Lemmas.DepositInterp

/-!
# C34: field interpolation
-/

namespace Psc.Props

open Spec Interp

variable {K : Type*} [Field K] [LinearOrder K] [IsStrictOrderedRing K] [FloorRing K]

/-- Half-cell offset of component `m` (0..2 = E, 3..5 = H) in direction `d` on the Yee grid: `E_d` sits
on the edge along `d`, `H_d` on the face normal to `d`. -/
def yee (m : Fin 6) (d : Fin 3) : K :=
  if m.val < 3 then (if m.val = d.val then 1/2 else 0) else (if m.val = d.val + 3 then 0 else 1/2)

/-- `n` is a node whose Yee position is within `reach` of `u` in the active directions and which has
index 0 in the invariant directions. -/
def Near (act : Fin 3 → Bool) (reach : K) (m : Fin 6) (u : R3 K) (n : I3) : Prop :=
  ∀ d, if act d then |u d - yee m d - n d| ≤ reach else n d = 0

/-- `I` interpolates component `m` between neighbouring values: whenever all values of component `m` at
neighbouring nodes lie in `[lo, hi]`, so does the interpolated value. -/
def Between (I : R3 K → Fld K → Fin 6 → K) (near : Fin 6 → R3 K → I3 → Prop) : Prop :=
  ∀ (u : R3 K) (EM : Fld K) (m : Fin 6) (lo hi : K),
    (∀ n : I3, near m u n → lo ≤ EM m (n 0) (n 1) (n 2) ∧ EM m (n 0) (n 1) (n 2) ≤ hi) →
    lo ≤ I u EM m ∧ I u EM m ≤ hi

/-- Constant fields are reproduced. -/
def Constants (I : R3 K → Fld K → Fin 6 → K) : Prop :=
  ∀ (u : R3 K) (EM : Fld K) (m : Fin 6) (c : K), (∀ i j k, EM m i j k = c) → I u EM m = c

/-- Fields that are linear functions of the (Yee) position in the directions `act` are reproduced at the
particle position. -/
def Linears (act : Fin 3 → Bool) (I : R3 K → Fld K → Fin 6 → K) : Prop :=
  ∀ (u : R3 K) (EM : Fld K) (m : Fin 6) (a : K) (b : R3 K), (∀ d, act d = false → b d = 0) →
    (∀ n : I3, EM m (n 0) (n 1) (n 2) = a + b 0 * (n 0 + yee m 0) + b 1 * (n 1 + yee m 1)
      + b 2 * (n 2 + yee m 2)) →
    I u EM m = a + b 0 * u 0 + b 1 * u 1 + b 2 * u 2

omit [IsStrictOrderedRing K] [FloorRing K] in
theorem constants_of_between {I : R3 K → Fld K → Fin 6 → K} {near : Fin 6 → R3 K → I3 → Prop}
    (h : Between I near) : Constants I := by
  intro u EM m c hc
  have := h u EM m c c (fun n _ => by simp [hc])
  exact le_antisymm this.2 this.1

omit [IsStrictOrderedRing K] [FloorRing K] [LinearOrder K] in
theorem yee_stag (m : Fin 6) (d : Fin 3) : (yee m d : K) = if stag m d then 1/2 else 0 := by
  have t : ∀ m d, stag m d = (if m.val < 3 then decide (m.val = d.val) else !decide (m.val = d.val + 3)) := by
    decide
  rw [t, yee]
  by_cases h1 : m.val < 3 <;> by_cases h2 : m.val = d.val <;> by_cases h3 : m.val = d.val + 3 <;>
    simp [h1, h2, h3]

omit [IsStrictOrderedRing K] in
theorem cf1_eq (m : Fin 6) (d : Fin 3) (u : K) : cf1 m d u = C1.set (u - yee m d) := by
  rw [yee_stag, cf1]; split_ifs <;> simp

omit [IsStrictOrderedRing K] in
theorem cf2_eq (m : Fin 6) (d : Fin 3) (u : K) : cf2 m d u = C2.set (u - yee m d) := by
  rw [yee_stag, cf2]; split_ifs <;> simp

/-! ### 2nd order -/

/-- close a leaf of the convex combination -/
macro "leaf2" h:ident acts:ident : tactic => `(tactic|
  (refine $h ![_, _, _] ?_
   intro d; fin_cases d <;>
     simp only [$acts:ident, Fin.zero_eta, Fin.isValue, Fin.mk_one, Fin.reduceFinMk, Matrix.cons_val, if_true,
       Bool.false_eq_true, if_false] <;>
     first | rfl | exact C2_l _ | exact C2_l1 _ | exact C2_lm _ | exact C1_l _ | exact C1_l1 _))

/-- one level of a convex combination -/
macro "conv_step" : tactic => `(tactic|
  first
    | refine conv3 (C2_vm _) (C2_v0 _) (C2_vp _) (C2_sum _) ?_ ?_ ?_
    | refine conv2 (C1_v0 _) (C1_v1 _) (C1_sum _) ?_ ?_)

/-- a 2nd-order average of values in `[lo, hi]` -/
theorem conv2nd {lo hi : K} (u : K) (F : ℤ → K) (h : ∀ n : ℤ, |u - n| ≤ 3/2 → Btw lo hi (F n)) :
    Btw lo hi ((C2.set u).vm * F ((C2.set u).l - 1) + (C2.set u).v0 * F (C2.set u).l
      + (C2.set u).vp * F ((C2.set u).l + 1)) :=
  conv3 (C2_vm _) (C2_v0 _) (C2_vp _) (C2_sum _) (h _ (C2_lm _)) (h _ (C2_l _)) (h _ (C2_l1 _))

/-- **C34.** 2nd order, 3-d: values between those of the 27 nearest nodes. -/
theorem C34_2nd_xyz_between : Between (K := K) interp_2nd_xyz (Near xyz (3/2)) := by
  intro u EM m lo hi h
  simp only [interp_2nd_xyz, cc2_xyz, cf2_eq]
  refine conv2nd (u 2 - yee m 2) (fun k => _ * (_ * EM m _ _ k + _ * EM m _ _ k + _ * EM m _ _ k)
    + _ * (_ * EM m _ _ k + _ * EM m _ _ k + _ * EM m _ _ k)
    + _ * (_ * EM m _ _ k + _ * EM m _ _ k + _ * EM m _ _ k)) (fun k hk => ?_)
  refine conv2nd (u 1 - yee m 1) (fun j => _ * EM m _ j k + _ * EM m _ j k + _ * EM m _ j k)
    (fun j hj => ?_)
  refine conv2nd (u 0 - yee m 0) (fun i => EM m i j k) (fun i hi' => ?_)
  refine h ![i, j, k] ?_
  intro d
  fin_cases d <;> simpa [xyz] using by assumption

/-- **C34.** 2nd order, yz. -/
theorem C34_2nd_yz_between : Between (K := K) interp_2nd_yz (Near yz (3/2)) := by
  intro u EM m lo hi h
  simp only [interp_2nd_yz, cc2_yz, cf2_eq]
  change Btw lo hi _
  repeat' conv_step
  all_goals leaf2 h yz

/-- **C34.** 2nd order, xz. -/
theorem C34_2nd_xz_between : Between (K := K) interp_2nd_xz (Near xz (3/2)) := by
  intro u EM m lo hi h
  simp only [interp_2nd_xz, cc2_xz, cf2_eq]
  change Btw lo hi _
  repeat' conv_step
  all_goals leaf2 h xz

/-- **C34.** 2nd order, xy. -/
theorem C34_2nd_xy_between : Between (K := K) interp_2nd_xy (Near xy (3/2)) := by
  intro u EM m lo hi h
  simp only [interp_2nd_xy, cc2_xy, cf2_eq]
  change Btw lo hi _
  repeat' conv_step
  all_goals leaf2 h xy

/-- **C34.** 2nd order, y. -/
theorem C34_2nd_y_between : Between (K := K) interp_2nd_y (Near yOnly (3/2)) := by
  intro u EM m lo hi h
  simp only [interp_2nd_y, cc2_y, cf2_eq]
  change Btw lo hi _
  repeat' conv_step
  all_goals leaf2 h yOnly

/-- **C34.** 2nd order, z. -/
theorem C34_2nd_z_between : Between (K := K) interp_2nd_z (Near zOnly (3/2)) := by
  intro u EM m lo hi h
  simp only [interp_2nd_z, cc2_z, cf2_eq]
  change Btw lo hi _
  repeat' conv_step
  all_goals leaf2 h zOnly

/-- **C34.** 1st order, yz. -/
theorem C34_1st_yz_between : Between (K := K) interp_1st_yz (Near yz 1) := by
  intro u EM m lo hi h
  simp only [interp_1st_yz, cc1_yz, cf1_eq]
  change Btw lo hi _
  repeat' conv_step
  all_goals leaf2 h yz

/-- **C34.** 1st order, xz. -/
theorem C34_1st_xz_between : Between (K := K) interp_1st_xz (Near xz 1) := by
  intro u EM m lo hi h
  simp only [interp_1st_xz, cc1_xz, cf1_eq]
  change Btw lo hi _
  repeat' conv_step
  all_goals leaf2 h xz

/-! ### energy conserving 1st order: piecewise constant in the staggered directions, whose value is that
of the cell the particle is in -/

/-- `n` is a node of the cell `u` is in; in staggered directions the cell's own node. -/
def NearEc (idx : Fin 3 → Bool) (m : Fin 6) (u : R3 K) (n : I3) : Prop :=
  ∀ d, if idx d then (if (yee m d : K) = 0 then |u d - n d| ≤ 1 else n d = ⌊u d⌋) else n d = 0

/-- **C34.** energy conserving, 3-d. -/
theorem C34_ec_xyz_between : Between (K := K) interp_ec_xyz (NearEc xyz) := by
  intro u EM m lo hi h
  have p : ∀ t : K, |t - (((C1.set t).l : K) + 1)| ≤ 1 := by
    intro t; have := C1_l1 t; push_cast at this; exact this
  change Btw lo hi _
  fin_cases m <;> simp only [interp_ec_xyz, ec_xyz, Fin.zero_eta, Fin.isValue, Fin.mk_one,
      Fin.reduceFinMk, Matrix.cons_val] <;> repeat' conv_step
  all_goals
    refine h ![_, _, _] ?_
    intro d; fin_cases d <;> simp [xyz, yee] <;> first | rfl | exact C1_l _ | exact p _

/-- **C34.** energy conserving, yz. -/
theorem C34_ec_yz_between : Between (K := K) interp_ec_yz (NearEc yz) := by
  intro u EM m lo hi h
  have p : ∀ t : K, |t - (((C1.set t).l : K) + 1)| ≤ 1 := by
    intro t; have := C1_l1 t; push_cast at this; exact this
  change Btw lo hi _
  fin_cases m <;> simp only [interp_ec_yz, ec_yz, Fin.zero_eta, Fin.isValue, Fin.mk_one,
      Fin.reduceFinMk, Matrix.cons_val] <;> repeat' conv_step
  all_goals
    refine h ![_, _, _] ?_
    intro d; fin_cases d <;> simp [yz, yee] <;> first | rfl | exact C1_l _ | exact p _

/-- **C34.** energy conserving, xz (the invariant y index is the particle's own cell index). -/
theorem C34_ec_xz_between : Between (K := K) interp_ec_xz
    (fun m u n => NearEc xyz m u n ∧ n 1 = ⌊u 1⌋) := by
  intro u EM m lo hi h
  have p : ∀ t : K, |t - (((C1.set t).l : K) + 1)| ≤ 1 := by
    intro t; have := C1_l1 t; push_cast at this; exact this
  change Btw lo hi _
  fin_cases m <;> simp only [interp_ec_xz, ec_xz, Fin.zero_eta, Fin.isValue, Fin.mk_one,
      Fin.reduceFinMk, Matrix.cons_val] <;> repeat' conv_step
  all_goals
    refine h ![_, _, _] ⟨?_, rfl⟩
    intro d; fin_cases d <;> simp [xyz, yee] <;> first | rfl | exact C1_l _ | exact p _

/-! ### constants -/

/-- **C34.** Every interpolation reproduces constant fields. -/
theorem C34_constants :
    Constants (K := K) interp_2nd_xyz ∧ Constants (K := K) interp_2nd_yz ∧
    Constants (K := K) interp_2nd_xz ∧ Constants (K := K) interp_2nd_xy ∧
    Constants (K := K) interp_2nd_y ∧ Constants (K := K) interp_2nd_z ∧
    Constants (K := K) interp_1st_yz ∧ Constants (K := K) interp_1st_xz ∧
    Constants (K := K) interp_ec_xyz ∧ Constants (K := K) interp_ec_yz ∧
    Constants (K := K) interp_ec_xz :=
  ⟨constants_of_between C34_2nd_xyz_between, constants_of_between C34_2nd_yz_between,
   constants_of_between C34_2nd_xz_between, constants_of_between C34_2nd_xy_between,
   constants_of_between C34_2nd_y_between, constants_of_between C34_2nd_z_between,
   constants_of_between C34_1st_yz_between, constants_of_between C34_1st_xz_between,
   constants_of_between C34_ec_xyz_between, constants_of_between C34_ec_yz_between,
   constants_of_between C34_ec_xz_between⟩

/-! ### linear functions -/

/-- normal form of a linear field -/
theorem lin_field {EM : Fld K} {m : Fin 6} {a : K} {b : R3 K}
    (h : ∀ n : I3, EM m (n 0) (n 1) (n 2) = a + b 0 * (n 0 + yee m 0) + b 1 * (n 1 + yee m 1)
      + b 2 * (n 2 + yee m 2)) (i j k : ℤ) :
    EM m i j k = a + b 0 * (i + yee m 0) + b 1 * (j + yee m 1) + b 2 * (k + yee m 2) := h ![i, j, k]

/-- **C34.** 2nd order, 3-d: linear fields are reproduced. -/
theorem C34_2nd_xyz_linear : Linears (K := K) xyz interp_2nd_xyz := by
  intro u EM m a b _ h
  simp only [interp_2nd_xyz, cc2_xyz, cf2_eq, lin_field h, C2.set]
  push_cast; ring

/-- **C34.** 2nd order, yz. -/
theorem C34_2nd_yz_linear : Linears (K := K) yz interp_2nd_yz := by
  intro u EM m a b hb h
  simp only [interp_2nd_yz, cc2_yz, cf2_eq, lin_field h, C2.set, hb 0 rfl]
  push_cast; ring

/-- **C34.** 2nd order, xz. -/
theorem C34_2nd_xz_linear : Linears (K := K) xz interp_2nd_xz := by
  intro u EM m a b hb h
  simp only [interp_2nd_xz, cc2_xz, cf2_eq, lin_field h, C2.set, hb 1 rfl]
  push_cast; ring

/-- **C34.** 2nd order, xy. -/
theorem C34_2nd_xy_linear : Linears (K := K) xy interp_2nd_xy := by
  intro u EM m a b hb h
  simp only [interp_2nd_xy, cc2_xy, cf2_eq, lin_field h, C2.set, hb 2 rfl]
  push_cast; ring

/-- **C34.** 2nd order, y. -/
theorem C34_2nd_y_linear : Linears (K := K) yOnly interp_2nd_y := by
  intro u EM m a b hb h
  simp only [interp_2nd_y, cc2_y, cf2_eq, lin_field h, C2.set, hb 0 rfl, hb 2 rfl]
  push_cast; ring

/-- **C34.** 2nd order, z. -/
theorem C34_2nd_z_linear : Linears (K := K) zOnly interp_2nd_z := by
  intro u EM m a b hb h
  simp only [interp_2nd_z, cc2_z, cf2_eq, lin_field h, C2.set, hb 0 rfl, hb 1 rfl]
  push_cast; ring

/-- **C34.** 1st order, yz. -/
theorem C34_1st_yz_linear : Linears (K := K) yz interp_1st_yz := by
  intro u EM m a b hb h
  simp only [interp_1st_yz, cc1_yz, cf1_eq, lin_field h, C1.set, hb 0 rfl]
  push_cast; ring

/-- **C34.** 1st order, xz. -/
theorem C34_1st_xz_linear : Linears (K := K) xz interp_1st_xz := by
  intro u EM m a b hb h
  simp only [interp_1st_xz, cc1_xz, cf1_eq, lin_field h, C1.set, hb 1 rfl]
  push_cast; ring

/-- **C34.** energy conserving, 3-d: each component reproduces fields that are linear in the directions
the component is node-centred in (and constant in the others). -/
theorem C34_ec_xyz_linear (u : R3 K) (EM : Fld K) (m : Fin 6) (a : K) (b : R3 K)
    (hb : ∀ d, (yee m d : K) ≠ 0 → b d = 0)
    (h : ∀ n : I3, EM m (n 0) (n 1) (n 2) = a + b 0 * n 0 + b 1 * n 1 + b 2 * n 2) :
    interp_ec_xyz u EM m = a + b 0 * u 0 + b 1 * u 1 + b 2 * u 2 := by
  have h' : ∀ i j k, EM m i j k = a + b 0 * i + b 1 * j + b 2 * k := fun i j k => h ![i, j, k]
  have h0 := hb 0; have h1 := hb 1; have h2 := hb 2
  fin_cases m <;> simp [yee] at h0 h1 h2 h' <;>
    simp only [interp_ec_xyz, ec_xyz, Fin.zero_eta, Fin.isValue, Fin.mk_one,
      Fin.reduceFinMk, Matrix.cons_val, h', C1.set, h0, h1, h2] <;> push_cast <;> ring

/-- a concrete case: the interpolated `E_x` of a field linear in x and y at `(3/4, 1/3, 0)` (2nd order) -/
example : interp_2nd_xyz (![3/4, 1/3, 0] : R3 ℚ) (fun _ i j _ => 2 * (i + 1/2) + 3 * j) 0 = 5/2 := by
  decide +kernel

end Psc.Props
