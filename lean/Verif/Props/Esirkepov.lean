import Verif.Lemmas.Esirkepov
import Verif.Lemmas.Split
import Verif.Props.Current1st

/-!
# C06, C07: charge conservation of the Esirkepov depositions

Same shape as C01–C05: exact discrete continuity at every node.
-/

namespace Psc.Props

open Spec Esirkepov

variable {K : Type*} [Field K] [LinearOrder K] [IsStrictOrderedRing K] [FloorRing K]

theorem nint_move {a b : K} (h : |b - a| < 1) : |nint a - nint b| ≤ 1 := by
  obtain ⟨a0, a1⟩ := nint_spec a
  obtain ⟨b0, b1⟩ := nint_spec b
  obtain ⟨h0, h1⟩ := abs_lt.mp h
  have l : ((nint a - nint b : ℤ) : K) < 2 := by push_cast; linarith
  have u : ((-2 : ℤ) : K) < ((nint a - nint b : ℤ) : K) := by push_cast; linarith
  have l' : nint a - nint b < 2 := by exact_mod_cast l
  have u' : -2 < nint a - nint b := by exact_mod_cast u
  rw [abs_le]; constructor <;> omega

/-- The deposited node-centred 2nd-order density is the spline-weighted density (3-d). -/
theorem nc2_xyz_eq_spline (x : R3 K) (q : K) (i j k : ℤ) :
    fieldOf (Deposit.nc2_xyz x q) 0 i j k = splineRho xyz q x i j k := by
  have s : ∀ d (n : ℤ), spline2 (x d - n) = qw3 (nint (x d)) n (nint (x d) - x d) := fun d n =>
    spline_qw3 _ _ _ (nint_spec _).1 (nint_spec _).2
  simp only [splineRho, xyz, Matrix.cons_val, if_true, s]
  generalize hx : nint (x 0) = lx
  generalize hy : nint (x 1) = ly
  generalize hz : nint (x 2) = lz
  simp only [Deposit.nc2_xyz, Deposit.second_xyz, fieldOf_cons', fieldOf_nil, ind_true, one_mul, hx, hy,
    hz, qw3]
  ring

/-- The deposited node-centred 2nd-order density is the spline-weighted density (yz). -/
theorem nc2_yz_eq_spline (x : R3 K) (q : K) (i j k : ℤ) :
    fieldOf (Deposit.nc2_yz x q) 0 i j k = splineRho yz q x i j k := by
  have s : ∀ d (n : ℤ), spline2 (x d - n) = qw3 (nint (x d)) n (nint (x d) - x d) := fun d n =>
    spline_qw3 _ _ _ (nint_spec _).1 (nint_spec _).2
  simp only [splineRho, yz, Matrix.cons_val, if_true, s, Bool.false_eq_true, if_false]
  generalize hy : nint (x 1) = ly
  generalize hz : nint (x 2) = lz
  have e : (if i = 0 then (1 : K) else 0) = ind (i = 0) := rfl
  rw [e]
  simp only [Deposit.nc2_yz, Deposit.second_yz, fieldOf_cons', fieldOf_nil, ind_true, one_mul, hy,
    hz, qw3]
  ring

/-- **C06 (yz).** 1st-order Esirkepov, x invariant. -/
theorem C06_esirkepov1_yz_continuity (fnqs dt : K) (dx : R3 K) (hdt : dt ≠ 0) (hdx : ∀ d, dx d ≠ 0)
    (qw : K) (v xm xp : R3 K) (hmove : OneCellMove yz xm xp) :
    Continuity yz dx dt
      (fieldOf (Deposit.nc1_yz xm (fnqs * qw)) 0)
      (fieldOf (Deposit.nc1_yz xp (fnqs * qw)) 0)
      (fieldOf (calc_yz_1st (dir1 (xm 1) (xp 1) (fq fnqs dt dx qw 1))
        (dir1 (xm 2) (xp 2) (fq fnqs dt dx qw 2)) (v 0 * qw * fnqs))) := by
  have h := calc_yz1_continuity (dir1_ok (xm 1) (xp 1) (fq fnqs dt dx qw 1) (hmove 1 rfl))
    (dir1_ok (xm 2) (xp 2) (fq fnqs dt dx qw 2) (hmove 2 rfl)) hdt hdx (v 0 * qw * fnqs)
    (dx := dx) (fnqs := fnqs) (qw := qw) rfl rfl
  intro i j k
  rw [nc1_yz_eq_tent, nc1_yz_eq_tent]
  have := h i j k
  simpa [tentRho, yz, ind] using this

/-- **C06 (xz).** 1st-order Esirkepov, y invariant. -/
theorem C06_esirkepov1_xz_continuity (fnqs dt : K) (dx : R3 K) (hdt : dt ≠ 0) (hdx : ∀ d, dx d ≠ 0)
    (qw : K) (v xm xp : R3 K) (hmove : OneCellMove xz xm xp) :
    Continuity xz dx dt (tentRho xz (fnqs * qw) xm) (tentRho xz (fnqs * qw) xp)
      (fieldOf (calc_xz (dir1 (xm 0) (xp 0) (fq fnqs dt dx qw 0))
        (dir1 (xm 2) (xp 2) (fq fnqs dt dx qw 2)) (v 1 * qw * fnqs))) := by
  have h := calc_xz_continuity (dir1_ok (xm 0) (xp 0) (fq fnqs dt dx qw 0) (hmove 0 rfl))
    (dir1_ok (xm 2) (xp 2) (fq fnqs dt dx qw 2) (hmove 2 rfl)) hdt hdx (v 1 * qw * fnqs)
    (dx := dx) (fnqs := fnqs) (qw := qw) rfl rfl
  intro i j k
  have := h i j k
  simpa [tentRho, xz, ind] using this

example : fieldOf (calc_yz_1st (dir1 (1/2) (11/10) (fq 1 1 ![1,1,1] 1 1))
    (dir1 (9/10) (3/2) (fq (1:ℚ) 1 ![1,1,1] 1 2)) 0) 1 0 0 1 ≠ 0 := by decide +kernel

/-- **C06, finding.** `PushParticlesEsirkepov` always declares the 2nd-order density for the run-time
continuity check (push_particles_esirkepov.hxx:54-55, "FIXME, sometimes 1st even with Esirkepov"):
with the 1st-order current and the 2nd-order density the checked equation is false. -/
theorem C06_check_order_violation :
    ∃ (xm xp : R3 ℚ), OneCellMove yz xm xp ∧ ShortMove yz xm xp ∧
      ¬ Continuity yz ![1, 1, 1] 1
        (fieldOf (Deposit.nc2_yz xm (1 * 1)) 0) (fieldOf (Deposit.nc2_yz xp (1 * 1)) 0)
        (fieldOf (calc_yz_1st (dir1 (xm 1) (xp 1) (fq 1 1 ![1, 1, 1] 1 1))
          (dir1 (xm 2) (xp 2) (fq 1 1 ![1, 1, 1] 1 2)) 0)) := by
  refine ⟨![0, 1/4, 1/4], ![0, 1/2, 1/4], ?_, ?_, ?_⟩
  · intro d _; fin_cases d <;> decide +kernel
  · intro d _; fin_cases d <;> decide +kernel
  · intro h
    exact absurd (h 0 0 0) (by decide +kernel)

/-- **C07 (3-d).** 2nd-order Esirkepov: exact continuity for every move shorter than a cell. -/
theorem C07_esirkepov2_xyz_continuity (fnqs dt : K) (dx : R3 K) (hdt : dt ≠ 0) (hdx : ∀ d, dx d ≠ 0)
    (qw : K) (xm xp : R3 K) (hmove : ShortMove xyz xm xp) :
    Continuity xyz dx dt
      (fieldOf (Deposit.nc2_xyz xm (fnqs * qw)) 0)
      (fieldOf (Deposit.nc2_xyz xp (fnqs * qw)) 0)
      (fieldOf (calc_xyz (dir2 (xm 0) (xp 0) (fq fnqs dt dx qw 0))
        (dir2 (xm 1) (xp 1) (fq fnqs dt dx qw 1)) (dir2 (xm 2) (xp 2) (fq fnqs dt dx qw 2)))) := by
  have h := calc_xyz_continuity (dir2_ok (xm 0) (xp 0) (fq fnqs dt dx qw 0) (nint_move (hmove 0 rfl)))
    (dir2_ok (xm 1) (xp 1) (fq fnqs dt dx qw 1) (nint_move (hmove 1 rfl)))
    (dir2_ok (xm 2) (xp 2) (fq fnqs dt dx qw 2) (nint_move (hmove 2 rfl))) hdt hdx
    (dx := dx) (fnqs := fnqs) (qw := qw) rfl rfl rfl
  intro i j k
  rw [nc2_xyz_eq_spline, nc2_xyz_eq_spline]
  have := h i j k
  simpa [splineRho, xyz, ind] using this

example : ShortMove (K := ℚ) xyz ![1/4, 1/4, 1/4] ![3/4, 1, -1/4] := by
  intro d _; fin_cases d <;> decide +kernel

example : fieldOf (calc_xyz (dir2 (1/4) (3/4) (fq 1 1 ![1,1,1] 1 0))
    (dir2 (1/4) 1 (fq (1:ℚ) 1 ![1,1,1] 1 1)) (dir2 (1/4) (-1/4) (fq 1 1 ![1,1,1] 1 2))) 0 0 0 0 ≠ 0 := by
  decide +kernel

/-- **C07 (yz).** 2nd-order Esirkepov, x invariant (the variant with the interleaved `JZH` array). -/
theorem C07_esirkepov2_yz_continuity (fnqs dt : K) (dx : R3 K) (hdt : dt ≠ 0) (hdx : ∀ d, dx d ≠ 0)
    (qw : K) (v xm xp : R3 K) (hmove : ShortMove yz xm xp) :
    Continuity yz dx dt
      (fieldOf (Deposit.nc2_yz xm (fnqs * qw)) 0)
      (fieldOf (Deposit.nc2_yz xp (fnqs * qw)) 0)
      (fieldOf (calc_yz_2nd (dir2 (xm 1) (xp 1) (fq fnqs dt dx qw 1))
        (dir2 (xm 2) (xp 2) (fq fnqs dt dx qw 2)) (v 0 * qw * fnqs))) := by
  have h := calc_yz2_continuity (dir2_ok (xm 1) (xp 1) (fq fnqs dt dx qw 1) (nint_move (hmove 1 rfl)))
    (dir2_ok (xm 2) (xp 2) (fq fnqs dt dx qw 2) (nint_move (hmove 2 rfl))) hdt hdx (v 0 * qw * fnqs)
    (dx := dx) (fnqs := fnqs) (qw := qw) rfl rfl
  intro i j k
  rw [nc2_yz_eq_spline, nc2_yz_eq_spline]
  have := h i j k
  simpa [splineRho, yz, ind] using this

example : fieldOf (calc_yz_2nd (dir2 (1/4) (3/4) (fq 1 1 ![1,1,1] 1 1))
    (dir2 (1/4) 1 (fq (1:ℚ) 1 ![1,1,1] 1 2)) 0) 2 0 0 0 ≠ 0 := by
  decide +kernel

/-- **C07 (xz).** 2nd-order Esirkepov, y invariant. -/
theorem C07_esirkepov2_xz_continuity (fnqs dt : K) (dx : R3 K) (hdt : dt ≠ 0) (hdx : ∀ d, dx d ≠ 0)
    (qw : K) (v xm xp : R3 K) (hmove : ShortMove xz xm xp) :
    Continuity xz dx dt (splineRho xz (fnqs * qw) xm) (splineRho xz (fnqs * qw) xp)
      (fieldOf (calc_xz (dir2 (xm 0) (xp 0) (fq fnqs dt dx qw 0))
        (dir2 (xm 2) (xp 2) (fq fnqs dt dx qw 2)) (v 1 * qw * fnqs))) := by
  have h := calc_xz_continuity (dir2_ok (xm 0) (xp 0) (fq fnqs dt dx qw 0) (nint_move (hmove 0 rfl)))
    (dir2_ok (xm 2) (xp 2) (fq fnqs dt dx qw 2) (nint_move (hmove 2 rfl))) hdt hdx (v 1 * qw * fnqs)
    (dx := dx) (fnqs := fnqs) (qw := qw) rfl rfl
  intro i j k
  have := h i j k
  simpa [splineRho, xz, ind] using this

/-- **C07 (xy).** 2nd-order Esirkepov, z invariant. -/
theorem C07_esirkepov2_xy_continuity (fnqs dt : K) (dx : R3 K) (hdt : dt ≠ 0) (hdx : ∀ d, dx d ≠ 0)
    (qw : K) (v xm xp : R3 K) (hmove : ShortMove xy xm xp) :
    Continuity xy dx dt (splineRho xy (fnqs * qw) xm) (splineRho xy (fnqs * qw) xp)
      (fieldOf (calc_xy (dir2 (xm 0) (xp 0) (fq fnqs dt dx qw 0))
        (dir2 (xm 1) (xp 1) (fq fnqs dt dx qw 1)) (v 2 * qw * fnqs))) := by
  have h := calc_xy_continuity (dir2_ok (xm 0) (xp 0) (fq fnqs dt dx qw 0) (nint_move (hmove 0 rfl)))
    (dir2_ok (xm 1) (xp 1) (fq fnqs dt dx qw 1) (nint_move (hmove 1 rfl))) hdt hdx (v 2 * qw * fnqs)
    (dx := dx) (fnqs := fnqs) (qw := qw) rfl rfl
  intro i j k
  have := h i j k
  simpa [splineRho, xy, ind] using this

/-- **C07 (y).** 2nd-order Esirkepov, only y active. -/
theorem C07_esirkepov2_y_continuity (fnqs dt : K) (dx : R3 K) (hdt : dt ≠ 0) (hdx : ∀ d, dx d ≠ 0)
    (qw : K) (v xm xp : R3 K) (hmove : ShortMove yOnly xm xp) :
    Continuity yOnly dx dt (splineRho yOnly (fnqs * qw) xm) (splineRho yOnly (fnqs * qw) xp)
      (fieldOf (calc_y (dir2 (xm 1) (xp 1) (fq fnqs dt dx qw 1)) (v 0 * qw * fnqs)
        (v 2 * qw * fnqs))) := by
  have h := calc_y_continuity (dir2_ok (xm 1) (xp 1) (fq fnqs dt dx qw 1) (nint_move (hmove 1 rfl)))
    hdt hdx (v 0 * qw * fnqs) (v 2 * qw * fnqs) (dx := dx) (fnqs := fnqs) (qw := qw) rfl
  intro i j k
  have := h i j k
  simpa [splineRho, yOnly, ind] using this

/-- **C07 (z).** 2nd-order Esirkepov, only z active. -/
theorem C07_esirkepov2_z_continuity (fnqs dt : K) (dx : R3 K) (hdt : dt ≠ 0) (hdx : ∀ d, dx d ≠ 0)
    (qw : K) (v xm xp : R3 K) (hmove : ShortMove zOnly xm xp) :
    Continuity zOnly dx dt (splineRho zOnly (fnqs * qw) xm) (splineRho zOnly (fnqs * qw) xp)
      (fieldOf (calc_z (dir2 (xm 2) (xp 2) (fq fnqs dt dx qw 2)) (v 0 * qw * fnqs)
        (v 1 * qw * fnqs))) := by
  have h := calc_z_continuity (dir2_ok (xm 2) (xp 2) (fq fnqs dt dx qw 2) (nint_move (hmove 2 rfl)))
    hdt hdx (v 0 * qw * fnqs) (v 1 * qw * fnqs) (dx := dx) (fnqs := fnqs) (qw := qw) rfl
  intro i j k
  have := h i j k
  simpa [splineRho, zOnly, ind] using this

/-- **C07.** Every array index used by the 2nd-order deposition lies inside `s_[5]` (offset 2):
the two `set` calls, the `prep` loop and the `calc` loops (also the index range of `JZH`). -/
theorem C07_rho1d_in_bounds (um up fq : K) (hmove : |up - um| < 1) :
    let d := dir2 um up fq
    (∀ l, l ∈ [nint up - nint um - 1, nint up - nint um, nint up - nint um + 1] →
      0 ≤ l + 2 ∧ l + 2 < 5) ∧
    (∀ l, l ∈ loopLe d.lmin d.lmax → 0 ≤ l + 2 ∧ l + 2 < 5) := by
  have h := nint_move hmove
  rw [abs_le] at h
  refine ⟨?_, ?_⟩
  · intro l hl
    simp only [List.mem_cons, List.not_mem_nil, or_false] at hl
    omega
  · intro l hl
    rw [mem_loopLe] at hl
    simp only [dir2, minmax2] at hl
    split_ifs at hl <;> simp only at hl <;> omega

/-- **C06.** Same for the 1st-order arrays `s_[4]` (offset 1). -/
theorem C06_rho1d_in_bounds (um up fq : K) (hmove : |⌊um⌋ - ⌊up⌋| ≤ 1) :
    let d := dir1 um up fq
    (∀ l, l ∈ [⌊up⌋ - ⌊um⌋, ⌊up⌋ - ⌊um⌋ + 1] → 0 ≤ l + 1 ∧ l + 1 < 4) ∧
    (∀ l, l ∈ loopLe d.lmin d.lmax → 0 ≤ l + 1 ∧ l + 1 < 4) := by
  rw [abs_le] at hmove
  refine ⟨?_, ?_⟩
  · intro l hl
    simp only [List.mem_cons, List.not_mem_nil, or_false] at hl
    omega
  · intro l hl
    rw [mem_loopLe] at hl
    simp only [dir1, minmax1] at hl
    split_ifs at hl <;> simp only at hl <;> omega

/-- without the one-cell bound the array would be overrun -/
example : ¬ (0 ≤ (nint (5/2 : ℚ) - nint (0 : ℚ) + 1) + 2 ∧
    (nint (5/2 : ℚ) - nint (0 : ℚ) + 1) + 2 < 5) := by decide +kernel

end Psc.Props
