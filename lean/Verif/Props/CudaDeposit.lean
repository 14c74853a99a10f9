import Verif.Lemmas.CudaDeposit
import Verif.Props.Current1st

/-!
# C69: the currents of the GPU

A particle moves from `xm` to `xp` (in units of cells, relative to the patch).  The GPU follows the move from face to
face, the CPU cuts it direction by direction; `ci0` is the first cell of the block of the particle.
-/

namespace Psc.Props

open Spec CudaDep

variable {K : Type*} [Field K] [LinearOrder K] [IsStrictOrderedRing K] [FloorRing K]

/-- **C69.** 3-d, a move of any length: the loop ends after at most as many rounds as faces are crossed, plus one, and what
it deposits fulfils the continuity equation at every node, with the densities the code itself deposits. -/
theorem C69_xyz_continuity (fnqs dt : K) (dx : R3 K) (hdt : dt ≠ 0) (hdx : ∀ d, dx d ≠ 0) (qw : K) (xm xp : R3 K)
    (ci0 : I3) (fuel : ℕ) (hf : (⌊xp 0⌋ - ⌊xm 0⌋).natAbs + (⌊xp 1⌋ - ⌊xm 1⌋).natAbs + (⌊xp 2⌋ - ⌊xm 2⌋).natAbs < fuel) :
    ∃ l, calcJXyz fuel fnqs dt dx qw xm xp ci0 = some l ∧
      Continuity xyz dx dt (fieldOf (Deposit.nc1_xyz xm (fnqs * qw)) 0) (fieldOf (Deposit.nc1_xyz xp (fnqs * qw)) 0)
        (fieldOf l) := by
  obtain ⟨l, n, h, p, -⟩ := calcJXyz_path fnqs dt dx qw xm xp ci0 (fuel := fuel) hf
  refine ⟨l, h, ?_⟩
  have := path_continuity (act := xyz) (dx := dx) (dt := dt) (rho := fun s => rho3 (fnqs * qw) (at' xm xp s))
    (fun s t hst => vb_continuity fnqs dt dx hdt hdx qw _ _ hst) p
  intro i j k
  have h3 := this i j k
  have e0 : at' xm xp 0 = xm := by funext d; simp [at']
  simp only [e0, at_one] at h3
  rw [nc1_xyz_rho, nc1_xyz_rho]
  exact h3

/-- **C69.** 3-d, a move that crosses at most one face per direction: at every edge of the grid the GPU deposits the same
current as the CPU, and it does so in at most four rounds. -/
theorem C69_xyz_same (fnqs dt : K) (dx : R3 K) (qw : K) (v xm xp : R3 K) (ci0 : I3) (hm : OneCellMove xyz xm xp)
    (fuel : ℕ) (hf : 4 ≤ fuel) :
    ∃ l, calcJXyz fuel fnqs dt dx qw xm xp ci0 = some l ∧
      fieldOf l = fieldOf (Current1vb.split_xyz fnqs dt dx qw v xm xp) := by
  have hff : faces xp (fun d => ⌊xm d⌋) < fuel := by
    have h0 := hm 0 rfl
    have h1 := hm 1 rfl
    have h2 := hm 2 rfl
    rw [abs_le] at h0 h1 h2
    unfold faces
    beta_reduce
    omega
  obtain ⟨l, n, h, p, -⟩ := calcJXyz_path fnqs dt dx qw xm xp ci0 hff
  obtain ⟨n', p'⟩ := split_path fnqs dt dx qw v xm xp hm
  exact ⟨l, h, Path.unique (cut_xyz _ _ _ _) (n + n') n n' le_rfl p p'⟩

/-- **C69.** 3-d: a particle of the patch adds to nodes of the patch and of its ghost cells only. -/
theorem C69_xyz_inside (fnqs dt : K) (dx : R3 K) (qw : K) (xm xp : R3 K) (ci0 ldims : I3) (hm : OneCellMove xyz xm xp)
    (hin : ∀ d, 0 ≤ xm d ∧ xm d < (ldims d : K)) (fuel : ℕ) (l : List (Add K))
    (hf : 4 ≤ fuel) (hl : calcJXyz fuel fnqs dt dx qw xm xp ci0 = some l) :
    ∀ e ∈ l, (-1 ≤ e.i ∧ e.i ≤ ldims 0 + 1) ∧ (-1 ≤ e.j ∧ e.j ≤ ldims 1 + 1) ∧ (-1 ≤ e.k ∧ e.k ≤ ldims 2 + 1) := by
  have h0 := hm 0 rfl
  have h1 := hm 1 rfl
  have h2 := hm 2 rfl
  rw [abs_le] at h0 h1 h2
  obtain ⟨l', n, h, -, hb⟩ := calcJXyz_path fnqs dt dx qw xm xp ci0 (fuel := fuel) (by unfold faces; beta_reduce; omega)
  rw [hl, Option.some.injEq] at h
  subst h
  have hc : ∀ d, 0 ≤ ⌊xm d⌋ ∧ ⌊xm d⌋ < ldims d := fun d => ⟨Int.floor_nonneg.2 (hin d).1, Int.floor_lt.2 (hin d).2⟩
  have c0 := hc 0
  have c1 := hc 1
  have c2 := hc 2
  intro e he
  have := hb e he
  omega

/-- a move that crosses faces of y and of x, with the two results -/
example : OneCellMove (K := ℚ) xyz ![3/4, 9/10, 1/2] ![5/4, 11/10, 3/4] ∧
    (calcJXyz 4 (1 : ℚ) 1 ![1, 1, 1] 1 ![3/4, 9/10, 1/2] ![5/4, 11/10, 3/4] ![0, 0, 0]).any
      (fun l => decide (fieldOf l 0 0 0 0 ≠ 0)) = true := by
  refine ⟨?_, by decide +kernel⟩
  intro d _; fin_cases d <;> decide +kernel

/-- **C69.** yz plane: for every move that crosses at most one face per direction the GPU deposits, at every edge in the
plane, the same current as the CPU, wherever the block of the particle begins. -/
theorem C69_yz_same_partial (fnqs dt : K) (dx : R3 K) (qw : K) (v xm xp : R3 K) (ci0 : I3) (hm : OneCellMove yz xm xp)
    (m : Fin 3) (h0 : m ≠ 0) :
    fieldOf ((calcJYz fnqs dt dx qw v xm xp ci0).map (place ci0)) m =
      fieldOf (CurrentVar1.var1_yz fnqs dt dx qw v xm xp) m := by
  have hd : ∀ d : Fin 3, d ≠ 0 → |⌊xp d⌋ - ⌊xm d⌋| ≤ 1 := by
    intro d hd
    rw [abs_sub_comm]
    refine hm d ?_
    fin_cases d
    · exact absurd rfl hd
    · rfl
    · rfl
  have g := start (dt := dt) (dxi := fun d => 1 / dx d) (v := v) (ci0 := ci0) hd
    (st := initYz dt (fun d => 1 / dx d) v xm xp ci0) (idiff := ![0, ⌊xp 1⌋ - ⌊xm 1⌋, ⌊xp 2⌋ - ⌊xm 2⌋])
    (by intro d h; fin_cases d <;> first | exact absurd rfl h | rfl)
    (by intro d h; fin_cases d <;> first | exact absurd rfl h | rfl)
    (by intro d h; fin_cases d <;> first | exact absurd rfl h | rfl)
    (by intro d h; fin_cases d <;> first | exact absurd rfl h | rfl)
  have c := start (dt := dt) (dxi := fun d => 1 / dx d) (v := v) (ci0 := fun _ => 0) hd
    (st := CurrentVar1.init dt (fun d => 1 / dx d) v xm xp) (idiff := fun d => if d = 0 then 0 else ⌊xp d⌋ - ⌊xm d⌋)
    (by intro d h; fin_cases d <;> first | exact absurd rfl h | exact (sub_zero _).symm)
    (by intro d h; fin_cases d <;> first | exact absurd rfl h | exact (sub_sub _ _ _).symm)
    (by intro d h; fin_cases d <;> first | exact absurd rfl h | rfl)
    (by intro d h; rw [if_neg h])
  obtain ⟨n, p⟩ := runYz_path (vbCellYz_is (fun d => dx d * fnqs / dt) qw ci0) g.1 g.2.1 g.2.2.1 g.2.2.2
  obtain ⟨n', p'⟩ := run_path (vbCell_is (fun d => dx d * fnqs / dt) qw) c.1 c.2.1 c.2.2.1 c.2.2.2
  rw [← runYz_map] at p
  have e := Path.unique (cut_yz _ _ _ _) (n + n') n n' le_rfl p p'
  funext i j k
  have := congrFun (congrFun (congrFun (congrFun e m) i) j) k
  simp only [plane, if_neg h0] at this
  exact this

/-- **C69.** yz plane: the currents of the GPU fulfil the continuity equation at every node. -/
theorem C69_yz_continuity (fnqs dt : K) (dx : R3 K) (hdt : dt ≠ 0) (hdx : ∀ d, dx d ≠ 0) (qw : K) (v xm xp : R3 K)
    (ci0 : I3) (hm : OneCellMove yz xm xp) :
    Continuity yz dx dt (fieldOf (Deposit.nc1_yz xm (fnqs * qw)) 0) (fieldOf (Deposit.nc1_yz xp (fnqs * qw)) 0)
      (fieldOf ((calcJYz fnqs dt dx qw v xm xp ci0).map (place ci0))) := by
  intro i j k
  have := C03_var1_continuity fnqs dt dx hdt hdx qw v xm xp hm i j k
  simp only [Spec.div, yz, Matrix.cons_val, if_true] at this ⊢
  rw [C69_yz_same_partial fnqs dt dx qw v xm xp ci0 hm 1 (by decide),
    C69_yz_same_partial fnqs dt dx qw v xm xp ci0 hm 2 (by decide)]
  exact this

/-- **C69.** yz plane: a particle of a block of `bs` cells adds to nodes of the block and of one cell around it only, the
part of the currents the block has in shared memory. -/
theorem C69_yz_inside (fnqs dt : K) (dx : R3 K) (qw : K) (v xm xp : R3 K) (ci0 bs : I3) (hm : OneCellMove yz xm xp)
    (hin : ∀ d, d ≠ 0 → (ci0 d : K) ≤ xm d ∧ xm d < ((ci0 d + bs d : ℤ) : K)) :
    ∀ e ∈ calcJYz fnqs dt dx qw v xm xp ci0,
      e.i = 0 ∧ (-1 ≤ e.j ∧ e.j ≤ bs 1 + 1) ∧ (-1 ≤ e.k ∧ e.k ≤ bs 2 + 1) := by
  have hc : ∀ d, d ≠ 0 → ci0 d ≤ ⌊xm d⌋ ∧ ⌊xm d⌋ < ci0 d + bs d :=
    fun d h => ⟨Int.le_floor.2 (hin d h).1, Int.floor_lt.2 (hin d h).2⟩
  have c1 := hc 1 (by decide)
  have c2 := hc 2 (by decide)
  have h1 := hm 1 rfl
  have h2 := hm 2 rfl
  rw [abs_le] at h1 h2
  have cell : ∀ (f : R3 K) (i : I3) (x d : R3 K), (-1 ≤ i 1 ∧ i 1 ≤ bs 1) → (-1 ≤ i 2 ∧ i 2 ≤ bs 2) →
      ∀ e ∈ vbCellYz f qw i x d, e.i = 0 ∧ (-1 ≤ e.j ∧ e.j ≤ bs 1 + 1) ∧ (-1 ≤ e.k ∧ e.k ≤ bs 2 + 1) := by
    intro f i x d b1 b2 e he
    unfold vbCellYz at he
    simp only [List.mem_append] at he
    rcases he with (he | he) | he <;> split_ifs at he <;>
      simp only [List.mem_cons, List.not_mem_nil, or_false] at he
    · rcases he with rfl | rfl | rfl | rfl <;> refine ⟨rfl, ?_⟩ <;> beta_reduce <;> dsimp only <;> omega
    · rcases he with rfl | rfl <;> refine ⟨rfl, ?_⟩ <;> dsimp only <;> omega
    · rcases he with rfl | rfl <;> refine ⟨rfl, ?_⟩ <;> dsimp only <;> omega
  intro e he
  have off : ∀ (idiff : I3) (x d : R3 K), offFirst idiff x d = ![0, 0, idiff 2] ∨ offFirst idiff x d = ![0, idiff 1, 0] := by
    intro idiff x d
    unfold offFirst
    split_ifs
    · exact .inl rfl
    · exact .inr rfl
  simp only [calcJYz, runYz, segYz, List.mem_append] at he
  generalize ho : offFirst (K := K) _ _ _ = o at he
  have hoff : o = ![0, 0, ⌊xp 2⌋ - ⌊xm 2⌋] ∨ o = ![0, ⌊xp 1⌋ - ⌊xm 1⌋, 0] := by
    rw [← ho]
    exact off _ _ _
  rcases he with (he | he) | he
  · refine cell _ _ _ _ ?_ ?_ e he <;> simp only [initYz, Matrix.cons_val] <;> omega
  · refine cell _ _ _ _ ?_ ?_ e he <;> rcases hoff with rfl | rfl <;>
      simp only [initYz, updYz, Matrix.cons_val] <;> omega
  · refine cell _ _ _ _ ?_ ?_ e he <;> rcases hoff with rfl | rfl <;>
      simp only [initYz, updYz, Matrix.cons_val] <;> omega

/-- **C69.** yz plane: the sum of the currents in the invariant direction is that of the particle, `q v`. -/
theorem C69_yz_Jx_total_partial (fnqs dt : K) (dx : R3 K) (hdt : dt ≠ 0) (hdx : ∀ d, dx d ≠ 0) (qw : K)
    (v xm xp : R3 K) (ci0 : I3) :
    ((calcJYz fnqs dt dx qw v xm xp ci0).map fun e => if e.m = 0 then e.v else 0).sum = fnqs * qw * v 0 := by
  show total 0 (calcJYz fnqs dt dx qw v xm xp ci0) = _
  simp only [calcJYz, runYz, segYz, total_append, total_cell]
  have h1 := hdx 0
  simp only [initYz, updYz, Matrix.cons_val]
  generalize CudaDep.calcDx1 (K := K) _ _ (offFirst (K := K) _ _ _) 0 = a
  generalize CudaDep.calcDx1 (K := K) _ _ _ 0 = b
  field_simp
  ring

/-- a move through the corner of a block, first z then y -/
example : OneCellMove (K := ℚ) yz ![0, 15/4, 39/10] ![0, 17/4, 49/10] ∧
    (∀ d : Fin 3, d ≠ 0 → (((![0, 0, 0] : I3) d : ℤ) : ℚ) ≤ (![0, 15/4, 39/10] : R3 ℚ) d ∧
      (![0, 15/4, 39/10] : R3 ℚ) d < (((![0, 0, 0] : I3) d + (![1, 4, 4] : I3) d : ℤ) : ℚ)) ∧
    fieldOf ((calcJYz (1 : ℚ) 1 ![1, 1, 1] 1 ![1/2, 1/2, 1] ![0, 15/4, 39/10] ![0, 17/4, 49/10] ![0, 0, 0]).map
      (place ![0, 0, 0])) 1 0 3 4 ≠ 0 := by
  refine ⟨?_, ?_, by decide +kernel⟩
  · intro d _; fin_cases d <;> decide +kernel
  · intro d h
    fin_cases d
    · exact absurd rfl h
    · decide +kernel
    · decide +kernel

/-- **C69.** yz plane, current in the invariant direction: the GPU subtracts where the CPU adds, so its currents are not
those of the CPU.  For a particle around the middle of a cell that moves by a half in every direction the CPU deposits at
the node `(1, 1)` the velocity times the mean, along the move, of the product of the two linear weights, 13/96; the GPU
deposits 11/96. -/
theorem C69_yz_Jx_violation :
    ∃ (xm xp v : R3 ℚ), OneCellMove yz xm xp ∧
      fieldOf (CurrentVar1.var1_yz (1 : ℚ) 1 ![1, 1, 1] 1 v xm xp) 0 0 1 1 = 13/96 ∧
      fieldOf ((calcJYz (1 : ℚ) 1 ![1, 1, 1] 1 v xm xp ![0, 0, 0]).map (place ![0, 0, 0])) 0 0 1 1 = 11/96 := by
  refine ⟨![0, 1/4, 1/4], ![0, 3/4, 3/4], ![1/2, 1/2, 1/2], ?_, by decide +kernel, by decide +kernel⟩
  intro d _; fin_cases d <;> decide +kernel

end Psc.Props
