import Verif.Lemmas.TotalCurrent
import Verif.Props.Push

/-!
# C55: the deposited current totals charge times velocity

Summed over all nodes, each component of the current a particle deposits is its charge density
factor times its velocity, in the directions along which it moves (where the deposition sees only the
displacement) as well as in the invariant ones (where it sees only the velocity).
-/

namespace Psc.Props

open Spec Push TotalCurrent

section one
variable {K : Type*} [Field K] [LinearOrder K] [IsStrictOrderedRing K] [FloorRing K]

/-- The displacement in cells, in the active directions, is the one of a particle moving with velocity
`v` during `dt`. -/
def MovesWith (act : Fin 3 → Bool) (dt : K) (dx v xm xp : R3 K) : Prop :=
  ∀ d, act d = true → xp d - xm d = v d * dt / dx d

/-- **C55.** 1vb split, xyz. Any displacement. -/
theorem C55_split_xyz (fnqs dt : K) (dx : R3 K) (hdt : dt ≠ 0) (hdx : ∀ d, dx d ≠ 0)
    (qw : K) (v xm xp : R3 K) (hv : MovesWith xyz dt dx v xm xp) (d : Fin 3) :
    Total (fieldOf (Current1vb.split_xyz fnqs dt dx qw v xm xp) d) (fnqs * qw * v d) := by
  have key : tot (Current1vb.split_xyz fnqs dt dx qw v xm xp) d = fnqs * qw * v d := by
    unfold Current1vb.split_xyz Current1vb.split
    simp only
    rw [tot_splitZ _ _ (Current1vb.fnqsVec fnqs dt dx) qw d (fun i dx' xa => tot_dep_xyz _ i qw dx' xa d)]
    have hd := hdx d
    have hm := hv d
    unfold Current1vb.fixInvar Current1vb.fnqsVec
    revert hm hd
    fin_cases d <;> intro hd hm <;> simp [xyz] at hm hd ⊢ <;> (try rw [hm]) <;> field_simp
  rw [← key]
  exact total_tot _ d

/-- **C55.** 1vb split, yz. Any displacement. -/
theorem C55_split_yz (fnqs dt : K) (dx : R3 K) (hdt : dt ≠ 0) (hdx : ∀ d, dx d ≠ 0)
    (qw : K) (v xm xp : R3 K) (hv : MovesWith yz dt dx v xm xp) (d : Fin 3) :
    Total (fieldOf (Current1vb.split_yz fnqs dt dx qw v xm xp) d) (fnqs * qw * v d) := by
  have key : tot (Current1vb.split_yz fnqs dt dx qw v xm xp) d = fnqs * qw * v d := by
    unfold Current1vb.split_yz Current1vb.split
    simp only
    rw [tot_splitZ _ _ (Current1vb.fnqsVec fnqs dt dx) qw d (fun i dx' xa => tot_dep_yz _ i qw dx' xa d)]
    have hd := hdx d
    have hm := hv d
    unfold Current1vb.fixInvar Current1vb.fnqsVec
    revert hm hd
    fin_cases d <;> intro hd hm <;> simp [yz] at hm hd ⊢ <;> (try rw [hm]) <;> field_simp
  rw [← key]
  exact total_tot _ d

/-- **C55.** 1vb split, xz. Any displacement. -/
theorem C55_split_xz (fnqs dt : K) (dx : R3 K) (hdt : dt ≠ 0) (hdx : ∀ d, dx d ≠ 0)
    (qw : K) (v xm xp : R3 K) (hv : MovesWith xz dt dx v xm xp) (d : Fin 3) :
    Total (fieldOf (Current1vb.split_xz fnqs dt dx qw v xm xp) d) (fnqs * qw * v d) := by
  have key : tot (Current1vb.split_xz fnqs dt dx qw v xm xp) d = fnqs * qw * v d := by
    unfold Current1vb.split_xz Current1vb.split
    simp only
    rw [tot_splitZ _ _ (Current1vb.fnqsVec fnqs dt dx) qw d (fun i dx' xa => tot_dep_xz _ i qw dx' xa d)]
    have hd := hdx d
    have hm := hv d
    unfold Current1vb.fixInvar Current1vb.fnqsVec
    revert hm hd
    fin_cases d <;> intro hd hm <;> simp [xz] at hm hd ⊢ <;> (try rw [hm]) <;> field_simp
  rw [← key]
  exact total_tot _ d

/-- **C55.** Zigzag, 3-d. -/
theorem C55_zigzag_xyz (fnqs dt : K) (dx : R3 K) (hdt : dt ≠ 0) (hdx : ∀ d, dx d ≠ 0)
    (qw : K) (v xm xp : R3 K) (hv : MovesWith xyz dt dx v xm xp) (d : Fin 3) :
    Total (fieldOf (Current1vb.zigzag_xyz fnqs dt dx qw xm xp) d) (fnqs * qw * v d) := by
  rw [← show tot (Current1vb.zigzag_xyz fnqs dt dx qw xm xp) d = fnqs * qw * v d from ?_]
  · exact total_tot _ d
  · have hd := hdx d
    rw [tot_zigzag, hv d (by clear hd; revert d; decide)]
    field_simp

/-- **C55.** 1vb var1, yz. -/
theorem C55_var1_yz (fnqs dt : K) (dx : R3 K) (hdt : dt ≠ 0) (hdx : ∀ d, dx d ≠ 0)
    (qw : K) (v xm xp : R3 K) (hv : MovesWith yz dt dx v xm xp) (d : Fin 3) :
    Total (fieldOf (CurrentVar1.var1_yz fnqs dt dx qw v xm xp) d) (fnqs * qw * v d) := by
  rw [← show tot (CurrentVar1.var1_yz fnqs dt dx qw v xm xp) d = fnqs * qw * v d from ?_]
  · exact total_tot _ d
  · unfold CurrentVar1.var1_yz
    simp only
    rw [tot_run _ (qw * (dx d * fnqs / dt)) d (fun i x dx' => tot_vbCell _ qw i x dx' d)]
    have hd := hdx d
    have hm := hv d
    unfold CurrentVar1.init
    revert hm hd
    fin_cases d <;> intro hd hm <;> simp [yz] at hm hd ⊢ <;> (try rw [hm]) <;> field_simp

/-- **C55.** 1vb 2d: the two in-plane components. -/
theorem C55_vb2d_yz (fnqs dt : K) (dx : R3 K) (hdt : dt ≠ 0) (hdx : ∀ d, dx d ≠ 0)
    (qw : K) (v xm xp : R3 K) (hv : MovesWith yz dt dx v xm xp) (d : Fin 3) (h0 : d ≠ 0) :
    Total (fieldOf (CurrentVar1.vb2d_yz fnqs dt dx qw xm xp) d) (fnqs * qw * v d) := by
  rw [← show tot (CurrentVar1.vb2d_yz fnqs dt dx qw xm xp) d = fnqs * qw * v d from ?_]
  · exact total_tot _ d
  · unfold CurrentVar1.vb2d_yz
    simp only
    rw [tot_run _ (qw * (dx d * fnqs / dt)) d (fun i x dx' => tot_cell2d _ i x dx' d h0)]
    have hd := hdx d
    have hm := hv d
    unfold CurrentVar1.init
    revert hm hd h0
    fin_cases d <;> intro hd hm h0 <;> simp [yz] at hm hd h0 ⊢ <;> (try rw [h0]) <;> field_simp

/-- **C55.** Esirkepov, order 1, yz. -/
theorem C55_esirkepov1_yz (fnqs dt : K) (dx : R3 K) (hdt : dt ≠ 0) (hdx : ∀ d, dx d ≠ 0)
    (qw : K) (v xm xp : R3 K) (hmove : OneCellMove yz xm xp) (hv : MovesWith yz dt dx v xm xp) (d : Fin 3) :
    Total (fieldOf (Esirkepov.calc_yz_1st (Esirkepov.dir1 (xm 1) (xp 1) (Esirkepov.fq fnqs dt dx qw 1))
      (Esirkepov.dir1 (xm 2) (xp 2) (Esirkepov.fq fnqs dt dx qw 2)) (v 0 * qw * fnqs)) d)
      (fnqs * qw * v d) := by
  have h := tot_calc_yz_1st (dir1_tot (xm 1) (xp 1) (Esirkepov.fq fnqs dt dx qw 1) (hmove 1 rfl)) (dir1_tot (xm 2) (xp 2) (Esirkepov.fq fnqs dt dx qw 2) (hmove 2 rfl))
    (v 0 * qw * fnqs) d
  rw [← show tot (Esirkepov.calc_yz_1st (Esirkepov.dir1 (xm 1) (xp 1) (Esirkepov.fq fnqs dt dx qw 1))
      (Esirkepov.dir1 (xm 2) (xp 2) (Esirkepov.fq fnqs dt dx qw 2)) (v 0 * qw * fnqs)) d = fnqs * qw * v d from ?_]
  · exact total_tot _ d
  · rw [h]
    have hd := hdx d
    have hm := hv d
    revert hm hd
    fin_cases d <;> intro hd hm <;> simp [yz, Esirkepov.dir1, Esirkepov.fq] at hm hd ⊢ <;>
      (try rw [hm]) <;> field_simp

/-- **C55.** Esirkepov, order 1, xz. -/
theorem C55_esirkepov1_xz (fnqs dt : K) (dx : R3 K) (hdt : dt ≠ 0) (hdx : ∀ d, dx d ≠ 0)
    (qw : K) (v xm xp : R3 K) (hmove : OneCellMove xz xm xp) (hv : MovesWith xz dt dx v xm xp) (d : Fin 3) :
    Total (fieldOf (Esirkepov.calc_xz (Esirkepov.dir1 (xm 0) (xp 0) (Esirkepov.fq fnqs dt dx qw 0))
      (Esirkepov.dir1 (xm 2) (xp 2) (Esirkepov.fq fnqs dt dx qw 2)) (v 1 * qw * fnqs)) d)
      (fnqs * qw * v d) := by
  have h := tot_calc_xz (dir1_tot (xm 0) (xp 0) (Esirkepov.fq fnqs dt dx qw 0) (hmove 0 rfl)) (dir1_tot (xm 2) (xp 2) (Esirkepov.fq fnqs dt dx qw 2) (hmove 2 rfl))
    (v 1 * qw * fnqs) d
  rw [← show tot (Esirkepov.calc_xz (Esirkepov.dir1 (xm 0) (xp 0) (Esirkepov.fq fnqs dt dx qw 0))
      (Esirkepov.dir1 (xm 2) (xp 2) (Esirkepov.fq fnqs dt dx qw 2)) (v 1 * qw * fnqs)) d = fnqs * qw * v d from ?_]
  · exact total_tot _ d
  · rw [h]
    have hd := hdx d
    have hm := hv d
    revert hm hd
    fin_cases d <;> intro hd hm <;> simp [xz, Esirkepov.dir1, Esirkepov.fq] at hm hd ⊢ <;>
      (try rw [hm]) <;> field_simp

/-- **C55.** Esirkepov, order 2, xyz. -/
theorem C55_esirkepov2_xyz (fnqs dt : K) (dx : R3 K) (hdt : dt ≠ 0) (hdx : ∀ d, dx d ≠ 0)
    (qw : K) (v xm xp : R3 K) (hmove : ShortMove xyz xm xp) (hv : MovesWith xyz dt dx v xm xp) (d : Fin 3) :
    Total (fieldOf (Esirkepov.calc_xyz (Esirkepov.dir2 (xm 0) (xp 0) (Esirkepov.fq fnqs dt dx qw 0))
      (Esirkepov.dir2 (xm 1) (xp 1) (Esirkepov.fq fnqs dt dx qw 1))
      (Esirkepov.dir2 (xm 2) (xp 2) (Esirkepov.fq fnqs dt dx qw 2))) d)
      (fnqs * qw * v d) := by
  have h := tot_calc_xyz (dir2_tot (xm 0) (xp 0) (Esirkepov.fq fnqs dt dx qw 0) (nint_move (hmove 0 rfl))) (dir2_tot (xm 1) (xp 1) (Esirkepov.fq fnqs dt dx qw 1) (nint_move (hmove 1 rfl))) (dir2_tot (xm 2) (xp 2) (Esirkepov.fq fnqs dt dx qw 2) (nint_move (hmove 2 rfl)))
    d
  rw [← show tot (Esirkepov.calc_xyz (Esirkepov.dir2 (xm 0) (xp 0) (Esirkepov.fq fnqs dt dx qw 0))
      (Esirkepov.dir2 (xm 1) (xp 1) (Esirkepov.fq fnqs dt dx qw 1))
      (Esirkepov.dir2 (xm 2) (xp 2) (Esirkepov.fq fnqs dt dx qw 2))) d = fnqs * qw * v d from ?_]
  · exact total_tot _ d
  · rw [h]
    have hd := hdx d
    have hm := hv d
    revert hm hd
    fin_cases d <;> intro hd hm <;> simp [xyz, Esirkepov.dir2, Esirkepov.fq] at hm hd ⊢ <;>
      (try rw [hm]) <;> field_simp

/-- **C55.** Esirkepov, order 2, yz. -/
theorem C55_esirkepov2_yz (fnqs dt : K) (dx : R3 K) (hdt : dt ≠ 0) (hdx : ∀ d, dx d ≠ 0)
    (qw : K) (v xm xp : R3 K) (hmove : ShortMove yz xm xp) (hv : MovesWith yz dt dx v xm xp) (d : Fin 3) :
    Total (fieldOf (Esirkepov.calc_yz_2nd (Esirkepov.dir2 (xm 1) (xp 1) (Esirkepov.fq fnqs dt dx qw 1))
      (Esirkepov.dir2 (xm 2) (xp 2) (Esirkepov.fq fnqs dt dx qw 2)) (v 0 * qw * fnqs)) d)
      (fnqs * qw * v d) := by
  have h := tot_calc_yz_2nd (dir2_tot (xm 1) (xp 1) (Esirkepov.fq fnqs dt dx qw 1) (nint_move (hmove 1 rfl))) (dir2_tot (xm 2) (xp 2) (Esirkepov.fq fnqs dt dx qw 2) (nint_move (hmove 2 rfl)))
    (v 0 * qw * fnqs) d
  rw [← show tot (Esirkepov.calc_yz_2nd (Esirkepov.dir2 (xm 1) (xp 1) (Esirkepov.fq fnqs dt dx qw 1))
      (Esirkepov.dir2 (xm 2) (xp 2) (Esirkepov.fq fnqs dt dx qw 2)) (v 0 * qw * fnqs)) d = fnqs * qw * v d from ?_]
  · exact total_tot _ d
  · rw [h]
    have hd := hdx d
    have hm := hv d
    revert hm hd
    fin_cases d <;> intro hd hm <;> simp [yz, Esirkepov.dir2, Esirkepov.fq] at hm hd ⊢ <;>
      (try rw [hm]) <;> field_simp

/-- **C55.** Esirkepov, order 2, xz. -/
theorem C55_esirkepov2_xz (fnqs dt : K) (dx : R3 K) (hdt : dt ≠ 0) (hdx : ∀ d, dx d ≠ 0)
    (qw : K) (v xm xp : R3 K) (hmove : ShortMove xz xm xp) (hv : MovesWith xz dt dx v xm xp) (d : Fin 3) :
    Total (fieldOf (Esirkepov.calc_xz (Esirkepov.dir2 (xm 0) (xp 0) (Esirkepov.fq fnqs dt dx qw 0))
      (Esirkepov.dir2 (xm 2) (xp 2) (Esirkepov.fq fnqs dt dx qw 2)) (v 1 * qw * fnqs)) d)
      (fnqs * qw * v d) := by
  have h := tot_calc_xz (dir2_tot (xm 0) (xp 0) (Esirkepov.fq fnqs dt dx qw 0) (nint_move (hmove 0 rfl))) (dir2_tot (xm 2) (xp 2) (Esirkepov.fq fnqs dt dx qw 2) (nint_move (hmove 2 rfl)))
    (v 1 * qw * fnqs) d
  rw [← show tot (Esirkepov.calc_xz (Esirkepov.dir2 (xm 0) (xp 0) (Esirkepov.fq fnqs dt dx qw 0))
      (Esirkepov.dir2 (xm 2) (xp 2) (Esirkepov.fq fnqs dt dx qw 2)) (v 1 * qw * fnqs)) d = fnqs * qw * v d from ?_]
  · exact total_tot _ d
  · rw [h]
    have hd := hdx d
    have hm := hv d
    revert hm hd
    fin_cases d <;> intro hd hm <;> simp [xz, Esirkepov.dir2, Esirkepov.fq] at hm hd ⊢ <;>
      (try rw [hm]) <;> field_simp

/-- **C55.** Esirkepov, order 2, xy. -/
theorem C55_esirkepov2_xy (fnqs dt : K) (dx : R3 K) (hdt : dt ≠ 0) (hdx : ∀ d, dx d ≠ 0)
    (qw : K) (v xm xp : R3 K) (hmove : ShortMove xy xm xp) (hv : MovesWith xy dt dx v xm xp) (d : Fin 3) :
    Total (fieldOf (Esirkepov.calc_xy (Esirkepov.dir2 (xm 0) (xp 0) (Esirkepov.fq fnqs dt dx qw 0))
      (Esirkepov.dir2 (xm 1) (xp 1) (Esirkepov.fq fnqs dt dx qw 1)) (v 2 * qw * fnqs)) d)
      (fnqs * qw * v d) := by
  have h := tot_calc_xy (dir2_tot (xm 0) (xp 0) (Esirkepov.fq fnqs dt dx qw 0) (nint_move (hmove 0 rfl))) (dir2_tot (xm 1) (xp 1) (Esirkepov.fq fnqs dt dx qw 1) (nint_move (hmove 1 rfl)))
    (v 2 * qw * fnqs) d
  rw [← show tot (Esirkepov.calc_xy (Esirkepov.dir2 (xm 0) (xp 0) (Esirkepov.fq fnqs dt dx qw 0))
      (Esirkepov.dir2 (xm 1) (xp 1) (Esirkepov.fq fnqs dt dx qw 1)) (v 2 * qw * fnqs)) d = fnqs * qw * v d from ?_]
  · exact total_tot _ d
  · rw [h]
    have hd := hdx d
    have hm := hv d
    revert hm hd
    fin_cases d <;> intro hd hm <;> simp [xy, Esirkepov.dir2, Esirkepov.fq] at hm hd ⊢ <;>
      (try rw [hm]) <;> field_simp

/-- **C55.** Esirkepov, order 2, yOnly. -/
theorem C55_esirkepov2_y (fnqs dt : K) (dx : R3 K) (hdt : dt ≠ 0) (hdx : ∀ d, dx d ≠ 0)
    (qw : K) (v xm xp : R3 K) (hmove : ShortMove yOnly xm xp) (hv : MovesWith yOnly dt dx v xm xp) (d : Fin 3) :
    Total (fieldOf (Esirkepov.calc_y (Esirkepov.dir2 (xm 1) (xp 1) (Esirkepov.fq fnqs dt dx qw 1)) (v 0 * qw * fnqs) (v 2 * qw * fnqs)) d)
      (fnqs * qw * v d) := by
  have h := tot_calc_y (dir2_tot (xm 1) (xp 1) (Esirkepov.fq fnqs dt dx qw 1) (nint_move (hmove 1 rfl)))
    (v 0 * qw * fnqs) (v 2 * qw * fnqs) d
  rw [← show tot (Esirkepov.calc_y (Esirkepov.dir2 (xm 1) (xp 1) (Esirkepov.fq fnqs dt dx qw 1)) (v 0 * qw * fnqs) (v 2 * qw * fnqs)) d = fnqs * qw * v d from ?_]
  · exact total_tot _ d
  · rw [h]
    have hd := hdx d
    have hm := hv d
    revert hm hd
    fin_cases d <;> intro hd hm <;> simp [yOnly, Esirkepov.dir2, Esirkepov.fq] at hm hd ⊢ <;>
      (try rw [hm]) <;> field_simp

/-- **C55.** Esirkepov, order 2, zOnly. -/
theorem C55_esirkepov2_z (fnqs dt : K) (dx : R3 K) (hdt : dt ≠ 0) (hdx : ∀ d, dx d ≠ 0)
    (qw : K) (v xm xp : R3 K) (hmove : ShortMove zOnly xm xp) (hv : MovesWith zOnly dt dx v xm xp) (d : Fin 3) :
    Total (fieldOf (Esirkepov.calc_z (Esirkepov.dir2 (xm 2) (xp 2) (Esirkepov.fq fnqs dt dx qw 2)) (v 0 * qw * fnqs) (v 1 * qw * fnqs)) d)
      (fnqs * qw * v d) := by
  have h := tot_calc_z (dir2_tot (xm 2) (xp 2) (Esirkepov.fq fnqs dt dx qw 2) (nint_move (hmove 2 rfl)))
    (v 0 * qw * fnqs) (v 1 * qw * fnqs) d
  rw [← show tot (Esirkepov.calc_z (Esirkepov.dir2 (xm 2) (xp 2) (Esirkepov.fq fnqs dt dx qw 2)) (v 0 * qw * fnqs) (v 1 * qw * fnqs)) d = fnqs * qw * v d from ?_]
  · exact total_tot _ d
  · rw [h]
    have hd := hdx d
    have hm := hv d
    revert hm hd
    fin_cases d <;> intro hd hm <;> simp [zOnly, Esirkepov.dir2, Esirkepov.fq] at hm hd ⊢ <;>
      (try rw [hm]) <;> field_simp

/-- the hypotheses are satisfiable with a particle that changes its cell -/
example : MovesWith yz 1 ![1, 1, 1] ![(1:ℚ)/5, 3/5, -2/5] ![0, 1/2, 1/2] ![0, 11/10, 1/10] ∧
    OneCellMove yz ![(0:ℚ), 1/2, 1/2] ![0, 11/10, 1/10] ∧
    ShortMove yz ![(0:ℚ), 1/2, 1/2] ![0, 11/10, 1/10] := by
  refine ⟨?_, ?_, ?_⟩
  · unfold MovesWith; decide +kernel
  · unfold OneCellMove; decide +kernel
  · unfold ShortMove; decide +kernel

end one

/-! ## Whole pushes -/

noncomputable section

/-- What each particle carries, summed over the particles after the push: `qw` times the velocity
`u / sqrt(1 + u²)` belonging to its new momentum. -/
def chargeFlux (ps : List Prt) (d : Fin 3) : ℝ :=
  (ps.map fun p => p.qw * (p.u d / Real.sqrt (1 + normSq p.u))).sum

theorem total_pushAll (c : Config) (act : Fin 3 → Bool) (P : Params) (h : GoodStep act P)
    (hact : ∀ d, act d = !(c.inv d))
    (hone : ∀ (qw : ℝ) (v xm xp : R3 ℝ), (∀ d, act d = true → |xp d - xm d| < 1) →
      MovesWith act P.dt P.dx v xm xp → ∀ d,
      Total (fieldOf (c.current P qw v xm xp) d) (P.fnqs * qw * v d))
    (EM : Interp.Fld ℝ) (ps : List Prt) (d : Fin 3) :
    Total (fieldOf (pushAll c P EM ps).2 d) (P.fnqs * chargeFlux (pushAll c P EM ps).1 d) := by
  have uniq : ∀ {J : ℤ → ℤ → ℤ → ℝ} {a b : ℝ}, Total J a → Total J b → a = b := by
    classical
    rintro J a b ⟨S, hS, rfl⟩ ⟨T, hT, rfl⟩
    have e1 : ∑ n ∈ S, J n.1 n.2.1 n.2.2 = ∑ n ∈ S ∪ T, J n.1 n.2.1 n.2.2 :=
      Finset.sum_subset Finset.subset_union_left (fun n _ hn => hS _ _ _ hn)
    have e2 : ∑ n ∈ T, J n.1 n.2.1 n.2.2 = ∑ n ∈ S ∪ T, J n.1 n.2.1 n.2.2 :=
      Finset.sum_subset Finset.subset_union_right (fun n _ hn => hT _ _ _ hn)
    rw [e1, e2]
  have key : tot (pushAll c P EM ps).2 d = P.fnqs * chargeFlux (pushAll c P EM ps).1 d := by
    induction ps with
    | nil => simp [pushAll, tot_nil, chargeFlux]
    | cons p ps ih =>
      have one : tot (pushOne c P EM p).2 d =
          P.fnqs * (p.qw * ((pushOne c P EM p).1.u d /
            Real.sqrt (1 + normSq (pushOne c P EM p).1.u))) := by
        apply uniq (total_tot _ d)
        unfold pushOne
        simp only
        set u' := push_p p.u _ _ _ with hu
        have hm : MovesWith act P.dt P.dx (calc_v u') (fun d => p.x d * (1 / P.dx d))
            (fun d => push_x c.inv P.dt p.x (calc_v u') d * (1 / P.dx d)) := by
          intro e he
          have : c.inv e = false := by rw [hact e] at he; simpa using he
          simp only [push_x, this, Bool.false_eq_true, if_false]
          have := (h.dx_pos e).ne'
          field_simp
          ring
        have hs : ∀ e, act e = true → |(fun d => push_x c.inv P.dt p.x (calc_v u') d * (1 / P.dx d)) e
            - (fun d => p.x d * (1 / P.dx d)) e| < 1 := by
          intro e he
          have : c.inv e = false := by rw [hact e] at he; simpa using he
          simp only [push_x, this, Bool.false_eq_true, if_false]
          exact move_short (calc_v_lt u' e) h.dt_pos (h.courant e he)
        have t := hone p.qw (calc_v u') _ _ hs hm d
        have e : P.fnqs * (p.qw * (u' d / Real.sqrt (1 + normSq u'))) =
            P.fnqs * p.qw * calc_v u' d := by
          unfold calc_v rsqrt normSq dot
          rw [show 1 + u' 0 * u' 0 + u' 1 * u' 1 + u' 2 * u' 2 =
            1 + (u' 0 * u' 0 + u' 1 * u' 1 + u' 2 * u' 2) by ring]
          ring
        rw [e]
        exact t
      have hq : (pushOne c P EM p).1.qw = p.qw := rfl
      simp only [pushAll, tot_append, one, ih, chargeFlux, List.map_cons, List.sum_cons, hq]
      ring
  rw [← key]
  exact total_tot _ d

/-- **C55 (whole push, split_xyz).** For any particles in any fields, each component of the current summed over
all nodes is `fnqs` times the sum of charge times velocity of the pushed particles. -/
theorem C55_push_split_xyz (P : Params) (h : GoodStep xyz P) (EM : Interp.Fld ℝ) (ps : List Prt)
    (d : Fin 3) :
    Total (fieldOf (pushAll cfgSplit_xyz P EM ps).2 d) (P.fnqs * chargeFlux (pushAll cfgSplit_xyz P EM ps).1 d) :=
  total_pushAll cfgSplit_xyz xyz P h (by intro d; fin_cases d <;> rfl)
    (fun qw v xm xp hs hm d => C55_split_xyz P.fnqs P.dt P.dx h.dt_pos.ne' (fun d => (h.dx_pos d).ne') qw v xm xp hm d) EM ps d

/-- **C55 (whole push, split_yz).** For any particles in any fields, each component of the current summed over
all nodes is `fnqs` times the sum of charge times velocity of the pushed particles. -/
theorem C55_push_split_yz (P : Params) (h : GoodStep yz P) (EM : Interp.Fld ℝ) (ps : List Prt)
    (d : Fin 3) :
    Total (fieldOf (pushAll cfgSplit_yz P EM ps).2 d) (P.fnqs * chargeFlux (pushAll cfgSplit_yz P EM ps).1 d) :=
  total_pushAll cfgSplit_yz yz P h (by intro d; fin_cases d <;> rfl)
    (fun qw v xm xp hs hm d => C55_split_yz P.fnqs P.dt P.dx h.dt_pos.ne' (fun d => (h.dx_pos d).ne') qw v xm xp hm d) EM ps d

/-- **C55 (whole push, split_xz).** For any particles in any fields, each component of the current summed over
all nodes is `fnqs` times the sum of charge times velocity of the pushed particles. -/
theorem C55_push_split_xz (P : Params) (h : GoodStep xz P) (EM : Interp.Fld ℝ) (ps : List Prt)
    (d : Fin 3) :
    Total (fieldOf (pushAll cfgSplit_xz P EM ps).2 d) (P.fnqs * chargeFlux (pushAll cfgSplit_xz P EM ps).1 d) :=
  total_pushAll cfgSplit_xz xz P h (by intro d; fin_cases d <;> rfl)
    (fun qw v xm xp hs hm d => C55_split_xz P.fnqs P.dt P.dx h.dt_pos.ne' (fun d => (h.dx_pos d).ne') qw v xm xp hm d) EM ps d

/-- **C55 (whole push, var1_yz).** For any particles in any fields, each component of the current summed over
all nodes is `fnqs` times the sum of charge times velocity of the pushed particles. -/
theorem C55_push_var1_yz (P : Params) (h : GoodStep yz P) (EM : Interp.Fld ℝ) (ps : List Prt)
    (d : Fin 3) :
    Total (fieldOf (pushAll cfgVar1_yz P EM ps).2 d) (P.fnqs * chargeFlux (pushAll cfgVar1_yz P EM ps).1 d) :=
  total_pushAll cfgVar1_yz yz P h (by intro d; fin_cases d <;> rfl)
    (fun qw v xm xp hs hm d => C55_var1_yz P.fnqs P.dt P.dx h.dt_pos.ne' (fun d => (h.dx_pos d).ne') qw v xm xp hm d) EM ps d

/-- **C55 (whole push, esirkepov1_yz).** For any particles in any fields, each component of the current summed over
all nodes is `fnqs` times the sum of charge times velocity of the pushed particles. -/
theorem C55_push_esirkepov1_yz (P : Params) (h : GoodStep yz P) (EM : Interp.Fld ℝ) (ps : List Prt)
    (d : Fin 3) :
    Total (fieldOf (pushAll cfgEsirkepov1_yz P EM ps).2 d) (P.fnqs * chargeFlux (pushAll cfgEsirkepov1_yz P EM ps).1 d) :=
  total_pushAll cfgEsirkepov1_yz yz P h (by intro d; fin_cases d <;> rfl)
    (fun qw v xm xp hs hm d => C55_esirkepov1_yz P.fnqs P.dt P.dx h.dt_pos.ne' (fun d => (h.dx_pos d).ne') qw v xm xp (oneCell_of_short hs) hm d) EM ps d

/-- **C55 (whole push, esirkepov1_xz).** For any particles in any fields, each component of the current summed over
all nodes is `fnqs` times the sum of charge times velocity of the pushed particles. -/
theorem C55_push_esirkepov1_xz (P : Params) (h : GoodStep xz P) (EM : Interp.Fld ℝ) (ps : List Prt)
    (d : Fin 3) :
    Total (fieldOf (pushAll cfgEsirkepov1_xz P EM ps).2 d) (P.fnqs * chargeFlux (pushAll cfgEsirkepov1_xz P EM ps).1 d) :=
  total_pushAll cfgEsirkepov1_xz xz P h (by intro d; fin_cases d <;> rfl)
    (fun qw v xm xp hs hm d => C55_esirkepov1_xz P.fnqs P.dt P.dx h.dt_pos.ne' (fun d => (h.dx_pos d).ne') qw v xm xp (oneCell_of_short hs) hm d) EM ps d

/-- **C55 (whole push, esirkepov2_xyz).** For any particles in any fields, each component of the current summed over
all nodes is `fnqs` times the sum of charge times velocity of the pushed particles. -/
theorem C55_push_esirkepov2_xyz (P : Params) (h : GoodStep xyz P) (EM : Interp.Fld ℝ) (ps : List Prt)
    (d : Fin 3) :
    Total (fieldOf (pushAll cfgEsirkepov2_xyz P EM ps).2 d) (P.fnqs * chargeFlux (pushAll cfgEsirkepov2_xyz P EM ps).1 d) :=
  total_pushAll cfgEsirkepov2_xyz xyz P h (by intro d; fin_cases d <;> rfl)
    (fun qw v xm xp hs hm d => C55_esirkepov2_xyz P.fnqs P.dt P.dx h.dt_pos.ne' (fun d => (h.dx_pos d).ne') qw v xm xp hs hm d) EM ps d

/-- **C55 (whole push, esirkepov2_yz).** For any particles in any fields, each component of the current summed over
all nodes is `fnqs` times the sum of charge times velocity of the pushed particles. -/
theorem C55_push_esirkepov2_yz (P : Params) (h : GoodStep yz P) (EM : Interp.Fld ℝ) (ps : List Prt)
    (d : Fin 3) :
    Total (fieldOf (pushAll cfgEsirkepov2_yz P EM ps).2 d) (P.fnqs * chargeFlux (pushAll cfgEsirkepov2_yz P EM ps).1 d) :=
  total_pushAll cfgEsirkepov2_yz yz P h (by intro d; fin_cases d <;> rfl)
    (fun qw v xm xp hs hm d => C55_esirkepov2_yz P.fnqs P.dt P.dx h.dt_pos.ne' (fun d => (h.dx_pos d).ne') qw v xm xp hs hm d) EM ps d

/-- **C55 (whole push, esirkepov2_xz).** For any particles in any fields, each component of the current summed over
all nodes is `fnqs` times the sum of charge times velocity of the pushed particles. -/
theorem C55_push_esirkepov2_xz (P : Params) (h : GoodStep xz P) (EM : Interp.Fld ℝ) (ps : List Prt)
    (d : Fin 3) :
    Total (fieldOf (pushAll cfgEsirkepov2_xz P EM ps).2 d) (P.fnqs * chargeFlux (pushAll cfgEsirkepov2_xz P EM ps).1 d) :=
  total_pushAll cfgEsirkepov2_xz xz P h (by intro d; fin_cases d <;> rfl)
    (fun qw v xm xp hs hm d => C55_esirkepov2_xz P.fnqs P.dt P.dx h.dt_pos.ne' (fun d => (h.dx_pos d).ne') qw v xm xp hs hm d) EM ps d

/-- **C55 (whole push, esirkepov2_xy).** For any particles in any fields, each component of the current summed over
all nodes is `fnqs` times the sum of charge times velocity of the pushed particles. -/
theorem C55_push_esirkepov2_xy (P : Params) (h : GoodStep xy P) (EM : Interp.Fld ℝ) (ps : List Prt)
    (d : Fin 3) :
    Total (fieldOf (pushAll cfgEsirkepov2_xy P EM ps).2 d) (P.fnqs * chargeFlux (pushAll cfgEsirkepov2_xy P EM ps).1 d) :=
  total_pushAll cfgEsirkepov2_xy xy P h (by intro d; fin_cases d <;> rfl)
    (fun qw v xm xp hs hm d => C55_esirkepov2_xy P.fnqs P.dt P.dx h.dt_pos.ne' (fun d => (h.dx_pos d).ne') qw v xm xp hs hm d) EM ps d

/-- the total is not always zero: one moving charge -/
example : chargeFlux [(⟨![1/2, 1/2, 1/2], ![3/4, 0, 0], -2, 0⟩ : Prt)] 0 = -6/5 := by
  have : Real.sqrt (1 + normSq ![3/4, 0, 0]) = 5/4 := by
    rw [show (1 + normSq ![3/4, 0, 0] : ℝ) = (5/4)^2 by simp [normSq, dot]; norm_num]
    exact Real.sqrt_sq (by norm_num)
  simp only [chargeFlux, List.map_cons, List.map_nil, List.sum_cons, List.sum_nil, this, Matrix.cons_val_zero]
  norm_num

end

end Psc.Props
