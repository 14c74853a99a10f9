import Verif.Lemmas.Split
import Verif.Lemmas.Var1

/-!
# C01–C05: charge conservation of the 1st-order current depositions

Every theorem says: the discrete continuity equation (`Spec.Continuity`) holds at *every* node,
between the node-centred density the code deposits at the old position, the one it deposits at the
new position, and the current accumulated by the code's deposition.
-/

namespace Psc.Props

open Spec Current1vb CurrentVar1

variable {K : Type*} [Field K] [LinearOrder K] [IsStrictOrderedRing K] [FloorRing K]

/-- The deposited node-centred density is the tent-weighted density (3-d). -/
theorem nc1_xyz_eq_tent (x : R3 K) (q : K) (i j k : ℤ) :
    fieldOf (Deposit.nc1_xyz x q) 0 i j k = tentRho xyz q x i j k := by
  rw [nc1_xyz_rho]; simp [rho3, tentRho, xyz]

/-- The deposited node-centred density is the tent-weighted density (yz). -/
theorem nc1_yz_eq_tent (x : R3 K) (q : K) (i j k : ℤ) :
    fieldOf (Deposit.nc1_yz x q) 0 i j k = tentRho yz q x i j k := by
  rw [nc1_yz_rho]; simp [rho_yz, tentRho, yz, ind]

/-- **C01.** 1vb split deposition, 3-d: exact discrete continuity for every move crossing at most
one cell boundary per direction. -/
theorem C01_split_xyz_continuity (fnqs dt : K) (dx : R3 K) (hdt : dt ≠ 0) (hdx : ∀ d, dx d ≠ 0)
    (qw : K) (v xm xp : R3 K) (hmove : OneCellMove xyz xm xp) :
    Continuity xyz dx dt
      (fieldOf (Deposit.nc1_xyz xm (fnqs * qw)) 0)
      (fieldOf (Deposit.nc1_xyz xp (fnqs * qw)) 0)
      (fieldOf (split_xyz fnqs dt dx qw v xm xp)) := by
  have h := splitZ_continuity (act := xyz) (dx := dx) (dt := dt) (rho := rho3 (fnqs * qw))
    (inv := ![false, false, false]) (by intro d; fin_cases d <;> rfl)
    (dep := dep_xyz (fnqsVec fnqs dt dx)) (qw := qw) (Q := fun _ _ => True)
    (fun _ _ _ _ _ _ _ _ => ⟨trivial, trivial⟩)
    (fun xm xp _ h => oneCell_xyz fnqs dt dx hdt hdx qw xm xp
      (fun d => h d (by fin_cases d <;> rfl)))
    xm xp trivial (fun d hd => hmove d hd)
  have e1 : (fun d => if (![false, false, false] : Fin 3 → Bool) d then (1/2 : K) else xm d) = xm := by
    funext d; fin_cases d <;> rfl
  have e2 : (fun d => if (![false, false, false] : Fin 3 → Bool) d
      then (1/2 : K) + v d * dt * (1 / dx d) else xp d) = xp := by
    funext d; fin_cases d <;> rfl
  intro i j k
  rw [nc1_xyz_rho, nc1_xyz_rho]
  have := h i j k
  unfold split_xyz split fixInvar
  simp only
  rw [e1, e2]
  exact this

/-- the hypotheses of C01 are met by a move crossing all three boundaries through a corner -/
example : OneCellMove (K := ℚ) xyz ![1/2, 1/2, 1/2] ![3/2, 3/2, 3/2] := by
  intro d _; fin_cases d <;> decide +kernel

/-- and the deposited current is not trivially zero -/
example : fieldOf (split_xyz (1 : ℚ) 1 ![1, 1, 1] 1 ![1, 1, 1] ![1/2, 1/2, 1/2] ![3/2, 3/2, 3/2])
    0 0 0 0 ≠ 0 := by decide +kernel

/-- **C02 (yz).** With `x` invariant: continuity holds in the yz plane for every move, provided the
displacement in the invariant direction is less than half its cell.
Partial: without the bound `hbound` the property fails, see `C02_split_yz_violation`. -/
theorem C02_split_yz_continuity_partial (fnqs dt : K) (dx : R3 K) (hdt : dt ≠ 0)
    (hdx : ∀ d, dx d ≠ 0) (qw : K) (v xm xp : R3 K) (hmove : OneCellMove yz xm xp)
    (hbound : -(1/2) ≤ v 0 * dt / dx 0 ∧ v 0 * dt / dx 0 < 1/2) :
    Continuity yz dx dt
      (fieldOf (Deposit.nc1_yz xm (fnqs * qw)) 0)
      (fieldOf (Deposit.nc1_yz xp (fnqs * qw)) 0)
      (fieldOf (split_yz fnqs dt dx qw v xm xp)) := by
  have hb : v 0 * dt * (1 / dx 0) = v 0 * dt / dx 0 := by ring
  have h := splitZ_continuity (act := yz) (dx := dx) (dt := dt) (rho := rho_yz (fnqs * qw))
    (inv := ![true, false, false]) (by intro d; fin_cases d <;> rfl)
    (dep := dep_yz (fnqsVec fnqs dt dx)) (qw := qw)
    (Q := fun a b => (0 ≤ a 0 ∧ a 0 < 1) ∧ (0 ≤ b 0 ∧ b 0 < 1))
    (by
      rintro dim a b t hact ⟨⟨a0, a1⟩, b0, b1⟩ t0 t1
      have hne : (0 : Fin 3) ≠ dim := by rintro rfl; simp [yz] at hact
      simp only [hne, if_false]
      have e : a 0 + t * (b 0 - a 0) = (1 - t) * a 0 + t * b 0 := by ring
      have l : 0 ≤ a 0 + t * (b 0 - a 0) := by
        rw [e]; have := mul_nonneg (sub_nonneg.mpr t1) a0; have := mul_nonneg t0 b0; linarith
      have u : a 0 + t * (b 0 - a 0) < 1 := by
        rcases le_total (a 0) (b 0) with hab | hab
        · have : t * (b 0 - a 0) ≤ 1 * (b 0 - a 0) := mul_le_mul_of_nonneg_right t1 (by linarith)
          linarith
        · have : t * (b 0 - a 0) ≤ 0 := mul_nonpos_of_nonneg_of_nonpos t0 (by linarith)
          linarith
      exact ⟨⟨⟨a0, a1⟩, l, u⟩, ⟨l, u⟩, b0, b1⟩)
    (fun a b hq h => oneCell_yz fnqs dt dx hdt hdx qw a b hq h)
    (fun d => if (![true, false, false] : Fin 3 → Bool) d then (1/2 : K) else xm d)
    (fun d => if (![true, false, false] : Fin 3 → Bool) d
      then (1/2 : K) + v d * dt * (1 / dx d) else xp d)
    (by
      simp only [Matrix.cons_val, if_true, hb]
      refine ⟨⟨by norm_num, by norm_num⟩, by linarith [hbound.1], by linarith [hbound.2]⟩)
    (by
      intro d hd
      have := hmove d hd
      fin_cases d
      · simp [yz] at hd
      · simpa [Adj] using this
      · simpa [Adj] using this)
  intro i j k
  rw [nc1_yz_rho, nc1_yz_rho]
  have := h i j k
  unfold split_yz split fixInvar
  simpa [rho_yz] using this

example : OneCellMove (K := ℚ) yz ![0, 9/10, 1/2] ![0, 13/10, 1/2] ∧
    (-(1/2 : ℚ) ≤ (2/5) * 1 / 1 ∧ ((2/5 : ℚ)) * 1 / 1 < 1/2) := by
  refine ⟨?_, by norm_num, by norm_num⟩
  intro d _; fin_cases d <;> decide +kernel

/-- **C02 (xz).** With `y` invariant, same statement; the density is the tent density of the
specification (the code has no xz charge deposition). -/
theorem C02_split_xz_continuity_partial (fnqs dt : K) (dx : R3 K) (hdt : dt ≠ 0)
    (hdx : ∀ d, dx d ≠ 0) (qw : K) (v xm xp : R3 K) (hmove : OneCellMove xz xm xp)
    (hbound : -(1/2) ≤ v 1 * dt / dx 1 ∧ v 1 * dt / dx 1 < 1/2) :
    Continuity xz dx dt (tentRho xz (fnqs * qw) xm) (tentRho xz (fnqs * qw) xp)
      (fieldOf (split_xz fnqs dt dx qw v xm xp)) := by
  have hb : v 1 * dt * (1 / dx 1) = v 1 * dt / dx 1 := by ring
  have h := splitZ_continuity (act := xz) (dx := dx) (dt := dt) (rho := rho_xz (fnqs * qw))
    (inv := ![false, true, false]) (by intro d; fin_cases d <;> rfl)
    (dep := dep_xz (fnqsVec fnqs dt dx)) (qw := qw)
    (Q := fun a b => (0 ≤ a 1 ∧ a 1 < 1) ∧ (0 ≤ b 1 ∧ b 1 < 1))
    (by
      rintro dim a b t hact ⟨⟨a0, a1⟩, b0, b1⟩ t0 t1
      have hne : (1 : Fin 3) ≠ dim := by rintro rfl; simp [xz] at hact
      simp only [hne, if_false]
      have e : a 1 + t * (b 1 - a 1) = (1 - t) * a 1 + t * b 1 := by ring
      have l : 0 ≤ a 1 + t * (b 1 - a 1) := by
        rw [e]; have := mul_nonneg (sub_nonneg.mpr t1) a0; have := mul_nonneg t0 b0; linarith
      have u : a 1 + t * (b 1 - a 1) < 1 := by
        rcases le_total (a 1) (b 1) with hab | hab
        · have : t * (b 1 - a 1) ≤ 1 * (b 1 - a 1) := mul_le_mul_of_nonneg_right t1 (by linarith)
          linarith
        · have : t * (b 1 - a 1) ≤ 0 := mul_nonpos_of_nonneg_of_nonpos t0 (by linarith)
          linarith
      exact ⟨⟨⟨a0, a1⟩, l, u⟩, ⟨l, u⟩, b0, b1⟩)
    (fun a b hq h => oneCell_xz fnqs dt dx hdt hdx qw a b hq h)
    (fun d => if (![false, true, false] : Fin 3 → Bool) d then (1/2 : K) else xm d)
    (fun d => if (![false, true, false] : Fin 3 → Bool) d
      then (1/2 : K) + v d * dt * (1 / dx d) else xp d)
    (by
      simp only [Matrix.cons_val, if_true, hb]
      refine ⟨⟨by norm_num, by norm_num⟩, by linarith [hbound.1], by linarith [hbound.2]⟩)
    (by
      intro d hd
      have := hmove d hd
      fin_cases d
      · simpa [Adj] using this
      · simp [xz] at hd
      · simpa [Adj] using this)
  intro i j k
  have := h i j k
  unfold split_xz split fixInvar
  simpa [rho_xz, tentRho, xz, ind] using this

/-- **C02, violation.** A particle with speed below light speed whose displacement in the invariant
direction is 9/10 of that direction's cell, crossing one y boundary: the deposited current violates
continuity in the plane (part of it goes to x index 1, outside the single x cell). -/
theorem C02_split_yz_violation :
    ∃ (v xm xp : R3 ℚ), v 0 ^ 2 + v 1 ^ 2 + v 2 ^ 2 < 1 ∧ OneCellMove yz xm xp ∧
      (∀ d, yz d = true → xp d = xm d + v d * 1 / 1) ∧
      (∃ e ∈ split_yz (1 : ℚ) 1 ![1, 1, 1] 1 v xm xp, e.i ≠ 0 ∧ e.v ≠ 0) ∧
      ¬ Continuity yz ![1, 1, 1] 1
        (fieldOf (Deposit.nc1_yz xm 1) 0) (fieldOf (Deposit.nc1_yz xp 1) 0)
        (fun m i j k => fieldOf (split_yz (1 : ℚ) 1 ![1, 1, 1] 1 v xm xp) m i j k) := by
  refine ⟨![9/10, 2/5, 0], ![0, 9/10, 1/2], ![0, 13/10, 1/2], by decide +kernel, ?_, ?_, ?_, ?_⟩
  · intro d _; fin_cases d <;> decide +kernel
  · intro d hd; fin_cases d
    · simp [yz] at hd
    · decide +kernel
    · decide +kernel
  · decide +kernel
  · intro h
    exact absurd (h 0 1 0) (by decide +kernel)

/-- **C03.** 1vb `var1` deposition (yz): exact continuity for every move, any velocity in the
invariant direction. -/
theorem C03_var1_continuity (fnqs dt : K) (dx : R3 K) (hdt : dt ≠ 0) (hdx : ∀ d, dx d ≠ 0)
    (qw : K) (v xm xp : R3 K) (hmove : OneCellMove yz xm xp) :
    Continuity yz dx dt
      (fieldOf (Deposit.nc1_yz xm (fnqs * qw)) 0)
      (fieldOf (Deposit.nc1_yz xp (fnqs * qw)) 0)
      (fieldOf (var1_yz fnqs dt dx qw v xm xp)) := by
  have hc : CellOk dx dt (fnqs * qw) (vbCell (fun d => dx d * fnqs / dt) qw) :=
    cellOk_of_fields fnqs dt dx hdt hdx qw
      (fun c x d i j k => vbCell_field1 _ _ _ _ _ _ _ _)
      (fun c x d i j k => vbCell_field2 _ _ _ _ _ _ _ _)
  intro i j k
  rw [nc1_yz_rho, nc1_yz_rho]
  exact init_continuity hc _ v xm xp hmove i j k

/-- a move crossing both boundaries, z first -/
example : OneCellMove (K := ℚ) yz ![0, 1/2, 9/10] ![0, 11/10, 3/2] := by
  intro d _; fin_cases d <;> decide +kernel

/-- **C03.** All current is deposited at x index 0, whatever the invariant velocity. -/
theorem C03_var1_in_plane (fnqs dt : K) (dx : R3 K) (qw : K) (v xm xp : R3 K) :
    ∀ e ∈ var1_yz fnqs dt dx qw v xm xp, e.i = 0 := by
  have hcell : ∀ f i x d, ∀ e ∈ vbCell f qw i x d, (e : Add K).i = 0 := by
    intro f i x d e he
    simp only [vbCell, List.mem_cons, List.not_mem_nil, or_false] at he
    rcases he with rfl | rfl | rfl | rfl | rfl | rfl | rfl | rfl <;> rfl
  have hseg : ∀ f idiff s o, ∀ e ∈ (segment (vbCell f qw) idiff s o).1, (e : Add K).i = 0 := by
    intro f idiff s o e he
    cases o with
    | none => simp [segment] at he
    | some g => exact hcell _ _ _ _ e he
  intro e he
  simp only [var1_yz, run, List.mem_append] at he
  rcases he with (he | he) | he
  · exact hseg _ _ _ _ e he
  · exact hseg _ _ _ _ e he
  · exact hcell _ _ _ _ e he

/-- **C04.** 1vb `2d` deposition: exact continuity for every move. -/
theorem C04_vb2d_continuity (fnqs dt : K) (dx : R3 K) (hdt : dt ≠ 0) (hdx : ∀ d, dx d ≠ 0)
    (qw : K) (xm xp : R3 K) (hmove : OneCellMove yz xm xp) :
    Continuity yz dx dt
      (fieldOf (Deposit.nc1_yz xm (fnqs * qw)) 0)
      (fieldOf (Deposit.nc1_yz xp (fnqs * qw)) 0)
      (fieldOf (vb2d_yz fnqs dt dx qw xm xp)) := by
  have hc : CellOk dx dt (fnqs * qw) (cell2d (fun d => qw * (dx d * fnqs / dt))) :=
    cellOk_of_fields fnqs dt dx hdt hdx qw
      (fun c x d i j k => cell2d_field1 _ _ _ _ _ _ _)
      (fun c x d i j k => cell2d_field2 _ _ _ _ _ _ _)
  intro i j k
  rw [nc1_yz_rho, nc1_yz_rho]
  exact init_continuity hc _ _ xm xp hmove i j k

example : fieldOf (vb2d_yz (1 : ℚ) 1 ![1, 1, 1] 1 ![0, 1/2, 9/10] ![0, 11/10, 3/2]) 1 0 0 1 ≠ 0 := by
  decide +kernel

/-- **C05.** Zigzag deposition, 3-d: exact continuity for every move. -/
theorem C05_zigzag_xyz_continuity (fnqs dt : K) (dx : R3 K) (hdt : dt ≠ 0) (hdx : ∀ d, dx d ≠ 0)
    (qw : K) (xm xp : R3 K) (hmove : OneCellMove xyz xm xp) :
    Continuity xyz dx dt
      (fieldOf (Deposit.nc1_xyz xm (fnqs * qw)) 0)
      (fieldOf (Deposit.nc1_xyz xp (fnqs * qw)) 0)
      (fieldOf (zigzag_xyz fnqs dt dx qw xm xp)) := by
  have key : Continuity xyz dx dt (rho3 (fnqs * qw) xm) (rho3 (fnqs * qw) xp)
      (fieldOf (zigzag_xyz fnqs dt dx qw xm xp)) := by
    unfold zigzag_xyz
    simp only
    have hr : ∀ d, SameCell (xm d) (relay xm xp d) ∧ SameCell (relay xm xp d) (xp d) := by
      intro d
      unfold relay
      split_ifs with h
      · have := SameCell.convex (SameCell.of_floor_eq (a := xm d) (b := xp d) h.symm)
          (t := 1/2) (by norm_num) (by norm_num)
        have e : xm d + 1/2 * (xp d - xm d) = 1/2 * (xm d + xp d) := by ring
        rwa [e] at this
      · have hd : xyz d = true := by fin_cases d <;> rfl
        obtain ⟨-, -, h1, h2⟩ := cross (hmove d hd) (fun h' => h h'.symm)
        exact ⟨h1, h2⟩
    split_ifs with h
    · exact Continuity.append (oneCell_xyz fnqs dt dx hdt hdx qw _ _ (fun d => (hr d).1))
        (oneCell_xyz fnqs dt dx hdt hdx qw _ _ (fun d => (hr d).2))
    · push Not at h
      apply oneCell_xyz fnqs dt dx hdt hdx qw
      intro d
      apply SameCell.of_floor_eq
      fin_cases d
      · exact h.1.symm
      · exact h.2.1.symm
      · exact h.2.2.symm
  intro i j k
  rw [nc1_xyz_rho, nc1_xyz_rho]
  exact key i j k

example : fieldOf (zigzag_xyz (1 : ℚ) 1 ![1, 1, 1] 1 ![1/2, 1/2, 1/2] ![3/2, 1/4, 3/2]) 2 0 0 0 ≠ 0 := by
  decide +kernel

end Psc.Props
