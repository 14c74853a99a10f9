import Verif.Lemmas.Push
import Verif.Props.Current1st
import Verif.Props.Esirkepov
import Verif.Spec.Vec

/-!
# C08, C14, C15: the particle push
-/

namespace Psc.Props

open Spec Push

noncomputable section

/-! ## C14: Boris rotation -/

/-- **C14.** In a purely magnetic field the push preserves `|u|` exactly. -/
theorem C14_push_p_norm (u H : R3 ℝ) (dq : ℝ) :
    normSq (push_p u (fun _ => 0) H dq) = normSq u := by
  have h := rot_norm (u 0) (u 1) (u 2)
    (H 0 * (dq * rsqrt (1 + u 0 * u 0 + u 1 * u 1 + u 2 * u 2)))
    (H 1 * (dq * rsqrt (1 + u 0 * u 0 + u 1 * u 1 + u 2 * u 2)))
    (H 2 * (dq * rsqrt (1 + u 0 * u 0 + u 1 * u 1 + u 2 * u 2)))
  simp only [normSq, dot, push_p, mul_zero, add_zero, Matrix.cons_val]
  simp only at h
  linear_combination h

/-- **C14.** Any number of pushes in any magnetic fields with any time steps preserve `|u|`. -/
theorem C14_pushes_norm (u : R3 ℝ) (hs : List (R3 ℝ × ℝ)) :
    normSq (hs.foldl (fun u h => push_p u (fun _ => 0) h.1 h.2) u) = normSq u := by
  induction hs generalizing u with
  | nil => rfl
  | cons h hs ih => rw [List.foldl_cons, ih, C14_push_p_norm]

/-- **C14.** With an electric field the push is: half kick, magnetic push, half kick. -/
theorem C14_push_p_kick_rotate_kick (u E H : R3 ℝ) (dq : ℝ) (d : Fin 3) :
    push_p u E H dq d =
      push_p (fun d => u d + dq * E d) (fun _ => 0) H dq d + dq * E d := by
  fin_cases d <;> simp [push_p]

/-- **C14.** The magnetic push is the Boris (implicit midpoint) rotation about `H`:
`u⁺ - u⁻ = (u⁺ + u⁻) × t` with `t = H dq / γ⁻`. -/
theorem C14_push_p_boris (u H : R3 ℝ) (dq : ℝ) (d : Fin 3) :
    push_p u (fun _ => 0) H dq d - u d =
      Spec.cross (fun d => push_p u (fun _ => 0) H dq d + u d)
        (fun d => H d * (dq / Real.sqrt (1 + normSq u))) d := by
  have hroot : dq * rsqrt (1 + u 0 * u 0 + u 1 * u 1 + u 2 * u 2) =
      dq / Real.sqrt (1 + normSq u) := by
    unfold rsqrt normSq dot
    rw [show 1 + u 0 * u 0 + u 1 * u 1 + u 2 * u 2 = 1 + (u 0 * u 0 + u 1 * u 1 + u 2 * u 2) by ring]
    ring
  simp only [push_p, mul_zero, add_zero, Spec.cross]
  rw [hroot]
  generalize dq / Real.sqrt (1 + normSq u) = r
  generalize hx : H 0 * r = x
  generalize hy : H 1 * r = y
  generalize hz : H 2 * r = z
  have hs : (1 + x*x + y*y + z*z) ≠ 0 := by
    have := mul_self_nonneg x; have := mul_self_nonneg y; have := mul_self_nonneg z
    exact ne_of_gt (by linarith)
  fin_cases d <;> simp only [Fin.zero_eta, Fin.isValue, Fin.mk_one, Fin.reduceFinMk, Matrix.cons_val]
    <;> field_simp <;> ring

/-- **C14.** The momentum component along `H` is unchanged by the magnetic push. -/
theorem C14_push_p_parallel (u H : R3 ℝ) (dq : ℝ) :
    dot (push_p u (fun _ => 0) H dq) H = dot u H := by
  have h0 := C14_push_p_boris u H dq 0
  have h1 := C14_push_p_boris u H dq 1
  have h2 := C14_push_p_boris u H dq 2
  simp only [Spec.cross, Matrix.cons_val] at h0 h1 h2
  unfold dot
  linear_combination H 0 * h0 + H 1 * h1 + H 2 * h2

/-- a case where the push really rotates: `u = (3/4, 0, 0)`, `H = (0, 0, 5/4)`, `dq = 1`
(`γ = 5/4`, `t = 1`: a quarter turn) -/
example : push_p ![3/4, 0, 0] (fun _ => 0) ![0, 0, 5/4] 1 1 = -3/4 := by
  have : Real.sqrt (1 + 3/4 * (3/4) + 0 * 0 + 0 * 0) = 5/4 := by
    rw [show (1 + 3/4 * (3/4) + 0 * 0 + 0 * 0 : ℝ) = (5/4)^2 by norm_num]
    exact Real.sqrt_sq (by norm_num)
  simp only [push_p, rsqrt, Matrix.cons_val, mul_zero, add_zero] at *
  rw [show (1 + 3/4 * (3/4) : ℝ) = (5/4)^2 by norm_num, Real.sqrt_sq (by norm_num)]
  norm_num

/-! ## C15: speed below light speed -/

/-- **C15.** The velocity computed from any momentum is below light speed. -/
theorem C15_speed_lt_one (u : R3 ℝ) : normSq (calc_v u) < 1 := by
  have := calc_v_sq u
  unfold normSq dot
  nlinarith

/-- **C15.** A push moves a particle by less than `dt` in every direction. -/
theorem C15_move_lt_dt (inv : Fin 3 → Bool) (dt : ℝ) (hdt : 0 < dt) (x u : R3 ℝ) (d : Fin 3) :
    |push_x inv dt x (calc_v u) d - x d| < dt := by
  unfold push_x
  split_ifs
  · simpa using hdt
  · have h := calc_v_lt u d
    have e : x d + 1 * dt * calc_v u d - x d = dt * calc_v u d := by ring
    rw [e, abs_mul, abs_of_pos hdt]
    calc dt * |calc_v u d| < dt * 1 := mul_lt_mul_of_pos_left h hdt
      _ = dt := by ring

/-- **C15.** If `dt` does not exceed the cell size, the cell index changes by at most one. -/
theorem C15_cell_change (inv : Fin 3 → Bool) (dt : ℝ) (dx : R3 ℝ) (hdt : 0 < dt) (x u : R3 ℝ)
    (d : Fin 3) (hdx : dt ≤ dx d) :
    |⌊x d * (1 / dx d)⌋ - ⌊push_x inv dt x (calc_v u) d * (1 / dx d)⌋| ≤ 1 := by
  unfold push_x
  split_ifs
  · simp
  · exact floor_short (move_short (calc_v_lt u d) hdt hdx)

/-- **C15.** The Courant length used by the code never exceeds an active cell size, so
`dt = cfl * courant_length` with `cfl ≤ 1` satisfies the hypothesis of `C15_cell_change`. -/
theorem C15_courant_le_dx (inv : Fin 3 → Bool) (dx : R3 ℝ) (hdx : ∀ d, 0 < dx d) (d : Fin 3)
    (hd : inv d = false) : courant_length inv dx ≤ dx d := by
  unfold courant_length
  simp only
  set s := (if inv 0 then 0 else 1 / (dx 0 * dx 0)) + (if inv 1 then 0 else 1 / (dx 1 * dx 1))
    + (if inv 2 then 0 else 1 / (dx 2 * dx 2)) with hs
  have nn : ∀ e : Fin 3, (0:ℝ) ≤ (if inv e then 0 else 1 / (dx e * dx e)) := by
    intro e; split_ifs
    · exact le_refl _
    · have := hdx e; positivity
  have hge : 1 / (dx d * dx d) ≤ s := by
    have h : (if inv d then 0 else 1 / (dx d * dx d)) = 1 / (dx d * dx d) := by simp [hd]
    rw [← h, hs]
    have h0 := nn 0; have h1 := nn 1; have h2 := nn 2
    fin_cases d <;> simp only [Fin.zero_eta, Fin.isValue, Fin.mk_one, Fin.reduceFinMk] <;> linarith
  have hpos : 0 < 1 / (dx d * dx d) := by have := hdx d; positivity
  have hs0 : s ≠ 0 := by linarith
  rw [if_neg hs0]
  rw [show dx d = Real.sqrt (dx d * dx d) from (Real.sqrt_mul_self (hdx d).le).symm]
  apply Real.sqrt_le_sqrt
  calc 1 / s ≤ 1 / (1 / (dx d * dx d)) := one_div_le_one_div_of_le hpos hge
    _ = dx d * dx d := by rw [one_div_one_div]

/-- **C15.** With `dt = cfl * courant_length`, `0 < cfl ≤ 1`: every push of every particle changes the
cell index by at most one in each active direction. -/
theorem C15_cfl_cell_change (inv : Fin 3 → Bool) (dx : R3 ℝ) (hdx : ∀ d, 0 < dx d) (cfl : ℝ)
    (h0 : 0 < cfl) (h1 : cfl ≤ 1) (x u : R3 ℝ) (d : Fin 3) (hd : inv d = false) :
    |⌊x d * (1 / dx d)⌋ -
      ⌊push_x inv (cfl * courant_length inv dx) x (calc_v u) d * (1 / dx d)⌋| ≤ 1 := by
  have hc := C15_courant_le_dx inv dx hdx d hd
  have hcpos : 0 < courant_length inv dx := by
    unfold courant_length
    simp only
    apply Real.sqrt_pos.mpr
    have nn : ∀ e : Fin 3, (0:ℝ) ≤ (if inv e then 0 else 1 / (dx e * dx e)) := by
      intro e; split_ifs
      · exact le_refl _
      · have := hdx e; positivity
    have n0 := nn 0; have n1 := nn 1; have n2 := nn 2
    generalize (if inv 0 then 0 else 1 / (dx 0 * dx 0)) = a at n0 ⊢
    generalize (if inv 1 then 0 else 1 / (dx 1 * dx 1)) = b at n1 ⊢
    generalize (if inv 2 then 0 else 1 / (dx 2 * dx 2)) = c at n2 ⊢
    split_ifs with h
    · norm_num
    · exact one_div_pos.mpr (lt_of_le_of_ne (by linarith) (Ne.symm h))
  apply C15_cell_change _ _ _ (mul_pos h0 hcpos)
  calc cfl * courant_length inv dx ≤ 1 * courant_length inv dx :=
        mul_le_mul_of_nonneg_right h1 hcpos.le
    _ ≤ dx d := by linarith

/-- the bound is not vacuous: a fast particle does change its cell -/
example : ⌊((1:ℝ)/2) * (1/1)⌋ ≠ ⌊((1:ℝ)/2 + 1 * 1 * (3/5)) * (1/1)⌋ := by
  have h1 : ⌊((1:ℝ)/2) * (1/1)⌋ = 0 := by rw [Int.floor_eq_iff]; norm_num
  have h2 : ⌊((1:ℝ)/2 + 1 * 1 * (3/5)) * (1/1)⌋ = 1 := by rw [Int.floor_eq_iff]; norm_num
  rw [h1, h2]; decide

/-! ## C08: continuity of a whole particle push -/

/-- Grid parameters a push needs: positive time step, not larger than the active cell sizes. -/
structure GoodStep (act : Fin 3 → Bool) (P : Params) : Prop where
  /-- time moves forward -/
  dt_pos : 0 < P.dt
  /-- positive cell sizes -/
  dx_pos : ∀ d, 0 < P.dx d
  /-- Courant condition in the active directions -/
  courant : ∀ d, act d = true → P.dt ≤ P.dx d

/-- `ShortMove` of the normalised positions implies `OneCellMove`. -/
theorem oneCell_of_short {act : Fin 3 → Bool} {xm xp : R3 ℝ}
    (h : ∀ d, act d = true → |xp d - xm d| < 1) : OneCellMove act xm xp :=
  fun d hd => floor_short (h d hd)

/-- **C08 (1vb split, 3-d).** Push of any list of particles in any fields: exact continuity between
the charge densities the code computes before and after. -/
theorem C08_push_split_xyz (P : Params) (h : GoodStep xyz P) (EM : Interp.Fld ℝ) (ps : List Prt)
    (hq : ∀ p ∈ ps, P.q p.kind ≠ 0) :
    Continuity xyz P.dx P.dt (fieldOf (rho Deposit.nc1_xyz P ps) 0)
      (fieldOf (rho Deposit.nc1_xyz P (pushAll cfgSplit_xyz P EM ps).1) 0)
      (fieldOf (pushAll cfgSplit_xyz P EM ps).2) := by
  rw [rho_eq_sum, rho_eq_sum]
  exact pushAll_continuity _ P EM xyz _ h.dt_pos (by intro d; fin_cases d <;> rfl) h.courant
    (fun qw v xm xp _ hs => C01_split_xyz_continuity P.fnqs P.dt P.dx h.dt_pos.ne'
      (fun d => (h.dx_pos d).ne') qw v xm xp (oneCell_of_short hs)) ps hq

/-- **C08 (1vb split, yz).** Partial: additionally needs `2 dt ≤ dx` in the invariant direction
(see `C02_split_yz_violation`). -/
theorem C08_push_split_yz_partial (P : Params) (h : GoodStep yz P) (hx : 2 * P.dt ≤ P.dx 0)
    (EM : Interp.Fld ℝ) (ps : List Prt) (hq : ∀ p ∈ ps, P.q p.kind ≠ 0) :
    Continuity yz P.dx P.dt (fieldOf (rho Deposit.nc1_yz P ps) 0)
      (fieldOf (rho Deposit.nc1_yz P (pushAll cfgSplit_yz P EM ps).1) 0)
      (fieldOf (pushAll cfgSplit_yz P EM ps).2) := by
  rw [rho_eq_sum, rho_eq_sum]
  refine pushAll_continuity _ P EM yz _ h.dt_pos (by intro d; fin_cases d <;> rfl) h.courant
    (fun qw v xm xp hv hs => C02_split_yz_continuity_partial P.fnqs P.dt P.dx h.dt_pos.ne'
      (fun d => (h.dx_pos d).ne') qw v xm xp (oneCell_of_short hs) ?_) ps hq
  have hv0 := abs_lt.mp (hv 0)
  have hd := h.dt_pos
  have hpos := h.dx_pos 0
  constructor
  · rw [le_div_iff₀ hpos]; nlinarith [hv0.1, hv0.2]
  · rw [div_lt_iff₀ hpos]; nlinarith [hv0.1, hv0.2]

/-- **C08 (1vb split, xz).** Partial for the same reason. -/
theorem C08_push_split_xz_partial (P : Params) (h : GoodStep xz P) (hy : 2 * P.dt ≤ P.dx 1)
    (EM : Interp.Fld ℝ) (ps : List Prt) (hq : ∀ p ∈ ps, P.q p.kind ≠ 0) :
    Continuity xz P.dx P.dt (sumRho (tentRho xz) P ps)
      (sumRho (tentRho xz) P (pushAll cfgSplit_xz P EM ps).1)
      (fieldOf (pushAll cfgSplit_xz P EM ps).2) := by
  refine pushAll_continuity cfgSplit_xz P EM xz (tentRho xz) h.dt_pos
    (by intro d; fin_cases d <;> rfl) h.courant
    (fun qw v xm xp hv hs => C02_split_xz_continuity_partial P.fnqs P.dt P.dx h.dt_pos.ne'
      (fun d => (h.dx_pos d).ne') qw v xm xp (oneCell_of_short hs) ?_) ps hq
  have hv0 := abs_lt.mp (hv 1)
  have hd := h.dt_pos
  have hpos := h.dx_pos 1
  constructor
  · rw [le_div_iff₀ hpos]; nlinarith [hv0.1, hv0.2]
  · rw [div_lt_iff₀ hpos]; nlinarith [hv0.1, hv0.2]

/-- **C08 (1vb var1, yz).** -/
theorem C08_push_var1_yz (P : Params) (h : GoodStep yz P) (EM : Interp.Fld ℝ) (ps : List Prt)
    (hq : ∀ p ∈ ps, P.q p.kind ≠ 0) :
    Continuity yz P.dx P.dt (fieldOf (rho Deposit.nc1_yz P ps) 0)
      (fieldOf (rho Deposit.nc1_yz P (pushAll cfgVar1_yz P EM ps).1) 0)
      (fieldOf (pushAll cfgVar1_yz P EM ps).2) := by
  rw [rho_eq_sum, rho_eq_sum]
  exact pushAll_continuity _ P EM yz _ h.dt_pos (by intro d; fin_cases d <;> rfl) h.courant
    (fun qw v xm xp _ hs => C03_var1_continuity P.fnqs P.dt P.dx h.dt_pos.ne'
      (fun d => (h.dx_pos d).ne') qw v xm xp (oneCell_of_short hs)) ps hq

/-- **C08 (1st-order Esirkepov, yz).** -/
theorem C08_push_esirkepov1_yz (P : Params) (h : GoodStep yz P) (EM : Interp.Fld ℝ) (ps : List Prt)
    (hq : ∀ p ∈ ps, P.q p.kind ≠ 0) :
    Continuity yz P.dx P.dt (fieldOf (rho Deposit.nc1_yz P ps) 0)
      (fieldOf (rho Deposit.nc1_yz P (pushAll cfgEsirkepov1_yz P EM ps).1) 0)
      (fieldOf (pushAll cfgEsirkepov1_yz P EM ps).2) := by
  rw [rho_eq_sum, rho_eq_sum]
  exact pushAll_continuity _ P EM yz _ h.dt_pos (by intro d; fin_cases d <;> rfl) h.courant
    (fun qw v xm xp _ hs => C06_esirkepov1_yz_continuity P.fnqs P.dt P.dx h.dt_pos.ne'
      (fun d => (h.dx_pos d).ne') qw v xm xp (oneCell_of_short hs)) ps hq

/-- **C08 (2nd-order Esirkepov, 3-d).** -/
theorem C08_push_esirkepov2_xyz (P : Params) (h : GoodStep xyz P) (EM : Interp.Fld ℝ) (ps : List Prt)
    (hq : ∀ p ∈ ps, P.q p.kind ≠ 0) :
    Continuity xyz P.dx P.dt (fieldOf (rho Deposit.nc2_xyz P ps) 0)
      (fieldOf (rho Deposit.nc2_xyz P (pushAll cfgEsirkepov2_xyz P EM ps).1) 0)
      (fieldOf (pushAll cfgEsirkepov2_xyz P EM ps).2) := by
  rw [rho_eq_sum, rho_eq_sum]
  exact pushAll_continuity _ P EM xyz _ h.dt_pos (by intro d; fin_cases d <;> rfl) h.courant
    (fun qw v xm xp _ hs => C07_esirkepov2_xyz_continuity P.fnqs P.dt P.dx h.dt_pos.ne'
      (fun d => (h.dx_pos d).ne') qw xm xp hs) ps hq

/-- **C08 (2nd-order Esirkepov, yz).** -/
theorem C08_push_esirkepov2_yz (P : Params) (h : GoodStep yz P) (EM : Interp.Fld ℝ) (ps : List Prt)
    (hq : ∀ p ∈ ps, P.q p.kind ≠ 0) :
    Continuity yz P.dx P.dt (fieldOf (rho Deposit.nc2_yz P ps) 0)
      (fieldOf (rho Deposit.nc2_yz P (pushAll cfgEsirkepov2_yz P EM ps).1) 0)
      (fieldOf (pushAll cfgEsirkepov2_yz P EM ps).2) := by
  rw [rho_eq_sum, rho_eq_sum]
  exact pushAll_continuity _ P EM yz _ h.dt_pos (by intro d; fin_cases d <;> rfl) h.courant
    (fun qw v xm xp _ hs => C07_esirkepov2_yz_continuity P.fnqs P.dt P.dx h.dt_pos.ne'
      (fun d => (h.dx_pos d).ne') qw v xm xp hs) ps hq

/-- **C08 (2nd-order Esirkepov, xz).** The code has no xz charge deposition; the density is the sum of
the specification's spline densities. -/
theorem C08_push_esirkepov2_xz (P : Params) (h : GoodStep xz P) (EM : Interp.Fld ℝ) (ps : List Prt)
    (hq : ∀ p ∈ ps, P.q p.kind ≠ 0) :
    Continuity xz P.dx P.dt (sumRho (splineRho xz) P ps)
      (sumRho (splineRho xz) P (pushAll cfgEsirkepov2_xz P EM ps).1)
      (fieldOf (pushAll cfgEsirkepov2_xz P EM ps).2) := by
  exact pushAll_continuity cfgEsirkepov2_xz P EM xz (splineRho xz) h.dt_pos (by intro d; fin_cases d <;> rfl) h.courant
    (fun qw v xm xp _ hs => C07_esirkepov2_xz_continuity P.fnqs P.dt P.dx h.dt_pos.ne'
      (fun d => (h.dx_pos d).ne') qw v xm xp hs) ps hq

/-- **C08 (2nd-order Esirkepov, xy).** -/
theorem C08_push_esirkepov2_xy (P : Params) (h : GoodStep xy P) (EM : Interp.Fld ℝ) (ps : List Prt)
    (hq : ∀ p ∈ ps, P.q p.kind ≠ 0) :
    Continuity xy P.dx P.dt (sumRho (splineRho xy) P ps)
      (sumRho (splineRho xy) P (pushAll cfgEsirkepov2_xy P EM ps).1)
      (fieldOf (pushAll cfgEsirkepov2_xy P EM ps).2) := by
  exact pushAll_continuity cfgEsirkepov2_xy P EM xy (splineRho xy) h.dt_pos (by intro d; fin_cases d <;> rfl) h.courant
    (fun qw v xm xp _ hs => C07_esirkepov2_xy_continuity P.fnqs P.dt P.dx h.dt_pos.ne'
      (fun d => (h.dx_pos d).ne') qw v xm xp hs) ps hq

/-- **C08 (1st-order Esirkepov, xz).** -/
theorem C08_push_esirkepov1_xz (P : Params) (h : GoodStep xz P) (EM : Interp.Fld ℝ) (ps : List Prt)
    (hq : ∀ p ∈ ps, P.q p.kind ≠ 0) :
    Continuity xz P.dx P.dt (sumRho (tentRho xz) P ps)
      (sumRho (tentRho xz) P (pushAll cfgEsirkepov1_xz P EM ps).1)
      (fieldOf (pushAll cfgEsirkepov1_xz P EM ps).2) := by
  exact pushAll_continuity cfgEsirkepov1_xz P EM xz (tentRho xz) h.dt_pos (by intro d; fin_cases d <;> rfl) h.courant
    (fun qw v xm xp _ hs => C06_esirkepov1_xz_continuity P.fnqs P.dt P.dx h.dt_pos.ne'
      (fun d => (h.dx_pos d).ne') qw v xm xp (oneCell_of_short hs)) ps hq

/-- **C08.** The order of the particles does not matter: any permutation of the particle list gives the
same current at every node (shown for every configuration). -/
theorem C08_push_order_irrelevant (c : Config) (P : Params) (EM : Interp.Fld ℝ) (ps ps' : List Prt)
    (hp : ps.Perm ps') (m : Fin 3) (i j k : ℤ) :
    fieldOf (pushAll c P EM ps).2 m i j k = fieldOf (pushAll c P EM ps').2 m i j k := by
  have key : ∀ ps, fieldOf (pushAll c P EM ps).2 m i j k =
      (ps.map fun p => fieldOf (pushOne c P EM p).2 m i j k).sum := by
    intro ps
    induction ps with
    | nil => simp [pushAll, fieldOf_nil]
    | cons p ps ih => simp only [pushAll, fieldOf_append, ih, List.map_cons, List.sum_cons]
  rw [key, key]
  exact (hp.map _).sum_eq

/-- the hypotheses of the C08 theorems are satisfiable with a charged particle -/
example : GoodStep xyz ⟨![1, 1, 1], 1/2, 1, 1, fun _ => -1, fun _ => 1⟩ ∧
    ∀ p ∈ [(⟨![1/2, 1/2, 1/2], ![3, 0, 0], -2, 0⟩ : Prt)], (fun _ : ℕ => (-1 : ℝ)) p.kind ≠ 0 := by
  refine ⟨⟨by norm_num, ?_, ?_⟩, by simp⟩
  · intro d; fin_cases d <;> simp
  · intro d _; fin_cases d <;> norm_num

end

end Psc.Props
