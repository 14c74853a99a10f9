import Mathlib.Tactic.LinearCombination
import Mathlib.Algebra.BigOperators.Ring.List
import Verif.Lemmas.CudaSchedRun
import Verif.Props.CudaDeposit
import Verif.Props.CudaGrid

/-!
# C70: the currents of the GPU do not depend on the order in which its threads run
-/

namespace Psc.Props

open Cuda CudaSched

section

variable {K : Type*} [AddCommMonoid K]

/-- **C70.** yz plane, blocks of at least 3 × 3 cells: no two threads of a launch of the push kernel access the same value
of shared or of global memory, one of them writing, without a barrier between them, unless with atomic operations. -/
theorem C70_yz_race_free (g : Ix) (h1 : 3 ≤ g.bs 1) (h2 : 3 ≤ g.bs 2) (d_off : List ℕ) (T : ℕ)
    (F : ℕ → ℕ → ℤ → ℤ → ℤ → K) (dep : Block → ℕ → List (Add K)) (l : Launch) (hl : l ∈ qYz g) :
    RaceFree (launchProg (opsYz g.bs d_off T F dep) T l) :=
  raceYz (qYz_single hl) (qYz_apart h1 h2 hl)

/-- **C70.** 3-d: likewise, with blocks of any size. -/
theorem C70_xyz_race_free (bs : N3) (d_off : List ℕ) (T : ℕ) (F : ℕ → ℕ → ℤ → ℤ → ℤ → K) (dep : Block → ℕ → List (Add K))
    (l : Launch) : RaceFree (launchProg (opsXyz bs d_off T F dep) T l) := raceXyz

/-- **C70.** Two executions of a launch leave the same values in all of memory, whatever the order of the threads. -/
theorem C70_order (g : Ix) (h1 : 3 ≤ g.bs 1) (h2 : 3 ≤ g.bs 2) (d_off : List ℕ) (T : ℕ) (F : ℕ → ℕ → ℤ → ℤ → ℤ → K)
    (dep : Block → ℕ → List (Add K)) (l : Launch) (ops : Block → ℕ → List (ℕ × Op K))
    (hl : (l ∈ qYz g ∧ ops = opsYz g.bs d_off T F dep) ∨ (l ∈ simple g ∧ ops = opsXyz g.bs d_off T F dep))
    (tr tr' : List (Ev K)) (ht : Schedule (launchProg ops T l) tr) (ht' : Schedule (launchProg ops T l) tr') (s : State K) :
    execAll tr s = execAll tr' s := by
  rcases hl with ⟨hl, rfl⟩ | ⟨hl, rfl⟩
  · exact Schedule.unique (C70_yz_race_free g h1 h2 d_off T F dep l hl) ht ht' s
  · exact Schedule.unique (C70_xyz_race_free g.bs d_off T F dep l) ht ht' s

/-- **C70.** yz plane: whatever the order in which the threads run and whatever was in shared memory before, the four
launches of the push add the currents of every particle exactly once, at the place in the patch they belong to.  Needed are
as many threads as there are values in the tile of a block, and that particles deposit to the tile of their block only
(`C70_yz_continuity` has this for the particles of the code). -/
theorem C70_yz (g : Ix) (hx : g.gdimX = 1) (h1 : 3 ≤ g.bs 1) (h2 : 3 ≤ g.bs 2) (off : ℕ → ℕ) (d_off : List ℕ)
    (ho : Offsets g d_off off) (T : ℕ) (hT : (g.bs 1 + 3) * (g.bs 2 + 3) ≤ T) (F : ℕ → ℕ → ℤ → ℤ → ℤ → K)
    (dep : Block → ℕ → List (Add K)) (hin : ∀ x ∈ allParticles g off, ∀ e ∈ dep x.1 x.2, InTile g.bs e) (G G' : Loc → K)
    (hr : Runs (opsYz g.bs d_off T F dep) T (qYz g) G G') (loc : Loc) :
    G' loc = G loc + ((allParticles g off).map (current (fun b n => (dep b n).map (atBlock b)) loc)).sum := by
  have hT' : stride g.bs 1 * stride g.bs 2 ≤ T := hT
  have hT0 : 0 < T := by
    have : 0 < stride g.bs 1 * stride g.bs 2 := Nat.mul_pos (by simp [stride]) (by simp [stride])
    omega
  have hp := qYz_perm g (by simp [Ix.bMx, hx])
  rw [runs_gl (c := blockCurrent d_off T dep) ?_ hr]
  · simp only [blockCurrent_eq]
    rw [allParticles_sum ho hT0 hp]
  · intro l hl tr s hs
    refine launch_gl (opsYz_parts g.bs d_off T F dep) (qYz_single hl) (C70_yz_race_free g h1 h2 d_off T F dep l hl) ?_ hs s
    intro x hxl b hb i s loc
    refine execYz_block hT' F ?_ i s loc
    intro t ht e he
    have hb' : b ∈ allBlocks g :=
      (hp.trans (allBlocks_perm g).symm).mem_iff.1 (List.mem_flatten.2 ⟨x, List.mem_flatten.2 ⟨l, hl, hxl⟩, hb⟩)
    obtain ⟨y, hy, he⟩ := threadAdds_mem ho hT0 hb' ht he
    exact hin y hy e he

/-- **C70.** 3-d: the same, with any number of threads. -/
theorem C70_xyz (g : Ix) (off : ℕ → ℕ) (d_off : List ℕ) (ho : Offsets g d_off off) (T : ℕ) (hT : 0 < T)
    (F : ℕ → ℕ → ℤ → ℤ → ℤ → K) (dep : Block → ℕ → List (Add K)) (G G' : Loc → K)
    (hr : Runs (opsXyz g.bs d_off T F dep) T (simple g) G G') (loc : Loc) :
    G' loc = G loc + ((allParticles g off).map (current dep loc)).sum := by
  rw [runs_gl (c := blockCur d_off T dep) ?_ hr, allParticles_sum ho hT (simple_perm g)]
  intro l hl tr s hs
  exact launch_gl (opsXyz_parts g.bs d_off T F dep) (simple_single hl) raceXyz
    (fun x _ b _ i s loc => execXyz_block g.bs d_off T F dep b i s loc) hs s

/-- the launches can be executed: `Runs` is not empty -/
theorem C70_runs (g : Ix) (d_off : List ℕ) (T : ℕ) (F : ℕ → ℕ → ℤ → ℤ → ℤ → K) (dep : Block → ℕ → List (Add K)) (G : Loc → K) :
    (∃ G', Runs (opsYz g.bs d_off T F dep) T (qYz g) G G') ∧ ∃ G', Runs (opsXyz g.bs d_off T F dep) T (simple g) G G' :=
  ⟨runs_exists (opsYz_parts g.bs d_off T F dep) (fun _ hl => qYz_single hl) G,
    runs_exists (opsXyz_parts g.bs d_off T F dep) (fun _ hl => simple_single hl) G⟩

/-- **C70.** yz plane: at any time after a thread has passed the first barrier, the cache of its thread block has the fields
of the patch, for all cells of its block and two cells around it, and nothing else was written to these places; the places
are inside the cache. -/
theorem C70_cache_yz (g : Ix) (d_off : List ℕ) (T : ℕ) (hT : 0 < T) (F : ℕ → ℕ → ℤ → ℤ → ℤ → K) (dep : Block → ℕ → List (Add K))
    (l : Launch) (hl : l ∈ qYz g) (tr pre post : List (Ev K)) (e : Ev K) (htr : tr = pre ++ e :: post)
    (hs : Schedule (launchProg (opsYz g.bs d_off T F dep) T l) tr) (hph : 1 ≤ e.phase) (b : Block)
    (hb : b ∈ (l[e.blk]?).getD []) (s : State K) (m : ℕ) (hm : m < 6) (j k : ℤ)
    (hj : (b.ci0 1 : ℤ) - 2 ≤ j ∧ j < b.ci0 1 + g.bs 1 + 2) (hk : (b.ci0 2 : ℤ) - 2 ≤ k ∧ k < b.ci0 2 + g.bs 2 + 2) :
    (execAll pre s).fc (e.blk, fcIndexYz g.bs b.ci0 m 0 j k) = F b.p m 0 j k ∧
      0 ≤ fcIndexYz g.bs b.ci0 m 0 j k ∧ fcIndexYz g.bs b.ci0 m 0 j k < 6 * (g.bs 1 + 4) * (g.bs 2 + 4) := by
  obtain ⟨y, hy⟩ := Int.eq_ofNat_of_zero_le (show 0 ≤ j - b.ci0 1 + 2 by omega)
  obtain ⟨z, hz⟩ := Int.eq_ofNat_of_zero_le (show 0 ≤ k - b.ci0 2 + 2 by omega)
  have hy' : y < g.bs 1 + 4 := by omega
  have hz' : z < g.bs 2 + 4 := by omega
  set A := g.bs 1 + 4 with hA
  set B := g.bs 2 + 4 with hB
  have d1 : (z * A + y) / A = z := by
    rw [Nat.add_comm, Nat.add_mul_div_right _ _ (by omega), Nat.div_eq_of_lt hy', Nat.zero_add]
  have d2 : (z * A + y) % A = y := by rw [Nat.add_comm, Nat.add_mul_mod_self_right, Nat.mod_eq_of_lt hy']
  have hlt : z * A + y < A * B := by
    have := Nat.mul_le_mul_right A (show z + 1 ≤ B from hz')
    rw [Nat.add_mul, Nat.one_mul, Nat.mul_comm B] at this
    omega
  have hidx := fcIndexYz_eq g.bs b.ci0 m (z * A + y) hlt
  rw [← hA, ← hB, d1, d2, Nat.mod_eq_of_lt hz', show ((y : ℕ) - 2 : ℤ) + b.ci0 1 = j by omega,
    show ((z : ℕ) - 2 : ℤ) + b.ci0 2 = k by omega] at hidx
  refine ⟨?_, ?_, ?_⟩
  · refine cache_final hs htr hph (t := (z * A + y) % T) ?_ ?_ s
    · refine mem_launchProg.2 ⟨Nat.mod_lt _ hT, rfl, rfl, b, hb, ?_⟩
      simp only [opsYz, List.mem_append, List.mem_map]
      refine .inl (.inl ⟨_, .inl ?_, rfl⟩)
      simp only [fcLoadYz, List.mem_flatMap, List.mem_map, List.mem_range]
      refine ⟨z * A + y, (strided_mem hT _ _ _).2 ⟨Nat.mod_le _ _, hlt, Nat.sub_mod_eq_zero_of_mod_eq (Nat.mod_mod _ _).symm⟩,
        m, hm, ?_⟩
      rw [← hA, ← hB, d1, d2, Nat.mod_eq_of_lt hz', show ((y : ℕ) - 2 : ℤ) + b.ci0 1 = j by omega,
        show ((z : ℕ) - 2 : ℤ) + b.ci0 2 = k by omega]
    · intro t' x hx v' hv
      obtain ⟨ht, -, -, b', hb', hop⟩ := mem_launchProg.1 hx
      have : b' = b := by
        have h1 : ((l[e.blk]?).getD []).length ≤ 1 := by
          cases h : l[e.blk]? with
          | none => simp
          | some x => exact qYz_single hl x (List.mem_of_getElem? h)
        generalize (l[e.blk]?).getD [] = w at hb hb' h1
        match w, h1 with
        | [], _ => simp at hb
        | [y], _ =>
          rw [List.mem_singleton] at hb hb'
          rw [hb, hb']
      subst this
      rw [hv] at hop
      simp only [opsYz, List.mem_append, List.mem_map, Prod.mk.injEq, exists_eq_right_right] at hop
      rcases hop with (⟨hop, -⟩ | ⟨hop, -⟩) | ⟨hop, -⟩
      · rcases hop with hop | hop
        · simp only [fcLoadYz, List.mem_flatMap, List.mem_map, List.mem_range, Op.put.injEq] at hop
          obtain ⟨ti, hti, m', hm', h3, rfl⟩ := hop
          have h4 := (strided_mem hT _ _ _).1 hti
          rw [fcIndexYz_eq g.bs b'.ci0 m' ti h4.2.1, hidx] at h3
          have h5 := cell_unique h4.2.1 hlt (by exact_mod_cast h3)
          obtain ⟨rfl, rfl⟩ := h5
          rw [← hA, ← hB, d1, d2, Nat.mod_eq_of_lt hz', show ((y : ℕ) - 2 : ℤ) + b'.ci0 1 = j by omega,
            show ((z : ℕ) - 2 : ℤ) + b'.ci0 2 = k by omega]
        · simp [shZero] at hop
      · simp [shAdd] at hop
      · simp [shFlush] at hop
  · rw [hidx]; omega
  · rw [hidx]
    have h3 : m * (A * B) + (z * A + y) < 6 * (A * B) := by
      have := Nat.mul_le_mul_right (A * B) (show m + 1 ≤ 6 by omega)
      rw [Nat.add_mul, Nat.one_mul] at this
      omega
    rw [show ((6 : ℤ) * (g.bs 1 + 4) * (g.bs 2 + 4)) = ((6 * (A * B) : ℕ) : ℤ) by rw [hA, hB]; push_cast; ring]
    exact_mod_cast h3

/-- **C70.** 3-d: the same for the cache. -/
theorem C70_cache_xyz (g : Ix) (d_off : List ℕ) (T : ℕ) (hT : 0 < T) (F : ℕ → ℕ → ℤ → ℤ → ℤ → K) (dep : Block → ℕ → List (Add K))
    (l : Launch) (hl : l ∈ simple g) (tr pre post : List (Ev K)) (e : Ev K) (htr : tr = pre ++ e :: post)
    (hs : Schedule (launchProg (opsXyz g.bs d_off T F dep) T l) tr) (hph : 1 ≤ e.phase) (b : Block)
    (hb : b ∈ (l[e.blk]?).getD []) (s : State K) (m : ℕ) (hm : m < 6) (i j k : ℤ)
    (hi : (b.ci0 0 : ℤ) - 2 ≤ i ∧ i < b.ci0 0 + g.bs 0 + 2)
    (hj : (b.ci0 1 : ℤ) - 2 ≤ j ∧ j < b.ci0 1 + g.bs 1 + 2) (hk : (b.ci0 2 : ℤ) - 2 ≤ k ∧ k < b.ci0 2 + g.bs 2 + 2) :
    (execAll pre s).fc (e.blk, fcIndex g.bs b.ci0 m i j k) = F b.p m i j k ∧
      0 ≤ fcIndex g.bs b.ci0 m i j k ∧
      fcIndex g.bs b.ci0 m i j k < 6 * (g.bs 0 + 4) * (g.bs 1 + 4) * (g.bs 2 + 4) := by
  obtain ⟨x, hx⟩ := Int.eq_ofNat_of_zero_le (show 0 ≤ i - b.ci0 0 + 2 by omega)
  obtain ⟨y, hy⟩ := Int.eq_ofNat_of_zero_le (show 0 ≤ j - b.ci0 1 + 2 by omega)
  obtain ⟨z, hz⟩ := Int.eq_ofNat_of_zero_le (show 0 ≤ k - b.ci0 2 + 2 by omega)
  have hx' : x < g.bs 0 + 4 := by omega
  have hy' : y < g.bs 1 + 4 := by omega
  have hz' : z < g.bs 2 + 4 := by omega
  set C := g.bs 0 + 4 with hC
  set A := g.bs 1 + 4 with hA
  set B := g.bs 2 + 4 with hB
  set ti := (z * A + y) * C + x with hti
  have c1 : ti / C = z * A + y := by
    rw [hti, Nat.add_comm, Nat.add_mul_div_right _ _ (by omega), Nat.div_eq_of_lt hx', Nat.zero_add]
  have c2 : ti % C = x := by rw [hti, Nat.add_comm, Nat.add_mul_mod_self_right, Nat.mod_eq_of_lt hx']
  have d1 : (z * A + y) / A = z := by
    rw [Nat.add_comm, Nat.add_mul_div_right _ _ (by omega), Nat.div_eq_of_lt hy', Nat.zero_add]
  have d2 : (z * A + y) % A = y := by rw [Nat.add_comm, Nat.add_mul_mod_self_right, Nat.mod_eq_of_lt hy']
  have hlt' : z * A + y + 1 ≤ A * B := by
    have := Nat.mul_le_mul_right A (show z + 1 ≤ B from hz')
    rw [Nat.add_mul, Nat.one_mul, Nat.mul_comm B] at this
    omega
  have hlt : ti < C * A * B := by
    have := Nat.mul_le_mul_right C hlt'
    rw [Nat.add_mul, Nat.one_mul, Nat.mul_comm (A * B), ← Nat.mul_assoc] at this
    omega
  have e1 : ((x : ℕ) - 2 : ℤ) + b.ci0 0 = i := by omega
  have e2 : ((y : ℕ) - 2 : ℤ) + b.ci0 1 = j := by omega
  have e3 : ((z : ℕ) - 2 : ℤ) + b.ci0 2 = k := by omega
  have hidx := fcIndex_eq g.bs b.ci0 m ti hlt
  rw [← hA, ← hB, ← hC, c1, c2, d1, d2, Nat.mod_eq_of_lt hz', e1, e2, e3] at hidx
  refine ⟨?_, ?_, ?_⟩
  · refine cache_final hs htr hph (t := ti % T) ?_ ?_ s
    · refine mem_launchProg.2 ⟨Nat.mod_lt _ hT, rfl, rfl, b, hb, ?_⟩
      simp only [opsXyz, List.mem_append, List.mem_map]
      refine .inl ⟨_, ?_, rfl⟩
      simp only [fcLoad, List.mem_flatMap, List.mem_map, List.mem_range]
      refine ⟨ti, (strided_mem hT _ _ _).2 ⟨Nat.mod_le _ _, hlt, Nat.sub_mod_eq_zero_of_mod_eq (Nat.mod_mod _ _).symm⟩,
        m, hm, ?_⟩
      rw [← hA, ← hB, ← hC, c1, c2, d1, d2, Nat.mod_eq_of_lt hz', e1, e2, e3]
    · intro t' w hw v' hv
      obtain ⟨ht, -, -, b', hb', hop⟩ := mem_launchProg.1 hw
      have : b' = b := by
        have h1 : ((l[e.blk]?).getD []).length ≤ 1 := by
          cases h : l[e.blk]? with
          | none => simp
          | some x => exact simple_single hl x (List.mem_of_getElem? h)
        generalize (l[e.blk]?).getD [] = w at hb hb' h1
        match w, h1 with
        | [], _ => simp at hb
        | [y], _ =>
          rw [List.mem_singleton] at hb hb'
          rw [hb, hb']
      subst this
      rw [hv] at hop
      simp only [opsXyz, List.mem_append, List.mem_map, Prod.mk.injEq, exists_eq_right_right] at hop
      rcases hop with ⟨hop, -⟩ | ⟨_, _, _, hop⟩
      · simp only [fcLoad, List.mem_flatMap, List.mem_map, List.mem_range, Op.put.injEq] at hop
        obtain ⟨tj, htj, m', hm', h3, rfl⟩ := hop
        have h4 := (strided_mem hT _ _ _).1 htj
        rw [fcIndex_eq g.bs b'.ci0 m' tj h4.2.1, hidx] at h3
        have h5 := cell_unique h4.2.1 hlt (by exact_mod_cast h3)
        obtain ⟨rfl, rfl⟩ := h5
        rw [← hA, ← hB, ← hC, c1, c2, d1, d2, Nat.mod_eq_of_lt hz', e1, e2, e3]
      · simp at hop
  · rw [hidx]; omega
  · rw [hidx]
    have h3 : m * (C * A * B) + ti < 6 * (C * A * B) := by
      have := Nat.mul_le_mul_right (C * A * B) (show m + 1 ≤ 6 by omega)
      rw [Nat.add_mul, Nat.one_mul] at this
      omega
    rw [show ((6 : ℤ) * (g.bs 0 + 4) * (g.bs 1 + 4) * (g.bs 2 + 4)) = ((6 * (C * A * B) : ℕ) : ℤ) by
      rw [hA, hB, hC]; push_cast; ring]
    exact_mod_cast h3

end

/-! ## the particles of the code -/

section

open Spec CudaDep

variable {K : Type*} [Field K] [LinearOrder K] [IsStrictOrderedRing K] [FloorRing K]

/-- charge at the nodes of patch `p` of the particles, at the positions `x` -/
def gpuRho (rho : R3 K → K → List (Add K)) (ps : List (Block × ℕ)) (q : ℕ → K) (x : ℕ → R3 K) (p : ℕ) (i j k : ℤ) : K :=
  (ps.map fun y => if y.1.p = p then fieldOf (rho (x y.2) (q y.2)) 0 i j k else 0).sum

theorem continuity_sum (act : Fin 3 → Bool) (dx : R3 K) (dt : K) (rho : R3 K → K → List (Add K)) (ps : List (Block × ℕ))
    (q : ℕ → K) (xm xp : ℕ → R3 K) (dep : Block → ℕ → List (Add K)) (p : ℕ)
    (h : ∀ y ∈ ps, Continuity act dx dt (fieldOf (rho (xm y.2) (q y.2)) 0) (fieldOf (rho (xp y.2) (q y.2)) 0)
      (fieldOf (dep y.1 y.2))) :
    Continuity act dx dt (gpuRho rho ps q xm p) (gpuRho rho ps q xp p)
      (fun m i j k => (ps.map (current dep ⟨p, m, i, j, k⟩)).sum) := by
  induction ps with
  | nil =>
    intro i j k
    simp [gpuRho, Spec.div]
  | cons y ps ih =>
    have h1 := h y List.mem_cons_self
    have h2 := ih fun z hz => h z (List.mem_cons_of_mem _ hz)
    intro i j k
    have h1 := h1 i j k
    have h2 := h2 i j k
    simp only [Spec.div, gpuRho, List.map_cons, List.sum_cons, current] at h1 h2 ⊢
    by_cases hp : y.1.p = p
    · simp only [if_pos hp]
      split_ifs at h1 h2 ⊢ <;> linear_combination h1 + h2
    · simp only [if_neg hp, zero_add]
      exact h2

/-- **C70.** yz plane: in a push on the GPU whose particles are in their blocks before and cross at most one face per
direction, the currents left in memory fulfil, in every patch, the continuity equation with the charge densities of the
particles before and after, whatever the order of the threads. -/
theorem C70_yz_continuity (g : Ix) (hx : g.gdimX = 1) (h1 : 3 ≤ g.bs 1) (h2 : 3 ≤ g.bs 2) (off : ℕ → ℕ) (d_off : List ℕ)
    (ho : Offsets g d_off off) (T : ℕ) (hT : (g.bs 1 + 3) * (g.bs 2 + 3) ≤ T) (F : ℕ → ℕ → ℤ → ℤ → ℤ → K)
    (fnqs dt : K) (dx : R3 K) (hdt : dt ≠ 0) (hdx : ∀ d, dx d ≠ 0) (qw : ℕ → K) (v xm xp : ℕ → R3 K)
    (hb : ∀ y ∈ allParticles g off, ∀ d, d ≠ 0 → (y.1.ci0 d : K) ≤ xm y.2 d ∧ xm y.2 d < (y.1.ci0 d : K) + g.bs d)
    (hm : ∀ y ∈ allParticles g off, OneCellMove yz (xm y.2) (xp y.2)) (G' : Loc → K)
    (hr : Runs (opsYz g.bs d_off T F fun b n => calcJYz fnqs dt dx (qw n) (v n) (xm n) (xp n) fun d => (b.ci0 d : ℤ)) T (qYz g)
      (fun _ => 0) G') (p : ℕ) :
    Continuity yz dx dt (gpuRho Deposit.nc1_yz (allParticles g off) (fun n => fnqs * qw n) xm p)
      (gpuRho Deposit.nc1_yz (allParticles g off) (fun n => fnqs * qw n) xp p) (fun m i j k => G' ⟨p, m, i, j, k⟩) := by
  have key := C70_yz g hx h1 h2 off d_off ho T hT F _ ?_ _ G' hr
  · simp only [key, zero_add]
    refine continuity_sum yz dx dt Deposit.nc1_yz _ (fun n => fnqs * qw n) xm xp _ p ?_
    intro y hy
    exact C69_yz_continuity fnqs dt dx hdt hdx (qw y.2) (v y.2) (xm y.2) (xp y.2) (fun d => (y.1.ci0 d : ℤ)) (hm y hy)
  · intro y hy
    refine C69_yz_inside fnqs dt dx (qw y.2) (v y.2) (xm y.2) (xp y.2) (fun d => (y.1.ci0 d : ℤ)) (fun d => (g.bs d : ℤ)) (hm y hy) ?_
    intro d hd
    have := hb y hy d hd
    push_cast
    exact this

/-- **C70.** 3-d: in a push on the GPU whose particles cross at most one face per direction, the current left at every edge
is the sum of those the CPU deposits for the particles of the patch, whatever the order of the threads. -/
theorem C70_xyz_same (g : Ix) (off : ℕ → ℕ) (d_off : List ℕ) (ho : Offsets g d_off off) (T : ℕ) (hT : 0 < T)
    (F : ℕ → ℕ → ℤ → ℤ → ℤ → K) (fnqs dt : K) (dx : R3 K) (qw : ℕ → K) (v xm xp : ℕ → R3 K)
    (hm : ∀ y ∈ allParticles g off, OneCellMove xyz (xm y.2) (xp y.2)) (fuel : ℕ) (hf : 4 ≤ fuel) (G' : Loc → K)
    (hr : Runs (opsXyz g.bs d_off T F fun b n =>
      (calcJXyz fuel fnqs dt dx (qw n) (xm n) (xp n) fun d => (b.ci0 d : ℤ)).getD []) T (simple g) (fun _ => 0) G') (loc : Loc) :
    G' loc = ((allParticles g off).map (current (fun _ n => Current1vb.split_xyz fnqs dt dx (qw n) (v n) (xm n) (xp n)) loc)).sum := by
  rw [C70_xyz g off d_off ho T hT F _ _ G' hr, zero_add]
  congr 1
  refine List.map_congr_left fun y hy => ?_
  obtain ⟨l, e1, e2⟩ := C69_xyz_same fnqs dt dx (qw y.2) (v y.2) (xm y.2) (xp y.2) (fun d => (y.1.ci0 d : ℤ)) (hm y hy) fuel hf
  unfold current
  beta_reduce
  rw [e1, Option.getD_some, e2]

end

/-! ## examples -/

/-- two particles, in the first and in the third block of a run in yz with two patches of 8 × 4 cells -/
def gpuSchedOff : ℕ → ℕ := fun b => [0, 1, 1, 2, 2].getD b 0

example : gpuYzEx.gdimX = 1 ∧ 3 ≤ gpuYzEx.bs 1 ∧ 3 ≤ gpuYzEx.bs 2 ∧ (gpuYzEx.bs 1 + 3) * (gpuYzEx.bs 2 + 3) ≤ 512 ∧
    Offsets gpuYzEx [0, 1, 1, 2, 2] gpuSchedOff := by
  refine ⟨rfl, ?_, ?_, ?_, rfl⟩ <;> decide

/-- a particle of the first block moves through the corner of its block, one of the second patch stays -/
example : (allParticles gpuYzEx gpuSchedOff).map (fun y => (y.1.p, y.1.bid, y.2)) = [(0, 0, 0), (1, 2, 1)] ∧
    ∀ y ∈ allParticles gpuYzEx gpuSchedOff,
      (∀ d : Fin 3, d ≠ 0 → (y.1.ci0 d : ℚ) ≤ ([![0, 15/4, 39/10], ![0, 1, 1]].getD y.2 0 : R3 ℚ) d ∧
        ([![0, 15/4, 39/10], ![0, 1, 1]].getD y.2 0 : R3 ℚ) d < (y.1.ci0 d : ℚ) + gpuYzEx.bs d) ∧
      Spec.OneCellMove Spec.yz ([![0, 15/4, 39/10], ![0, 1, 1]].getD y.2 0 : R3 ℚ) ([![0, 17/4, 49/10], ![0, 1, 1]].getD y.2 0) := by
  refine ⟨by decide +kernel, ?_⟩
  unfold Spec.OneCellMove
  decide +kernel

/-- the launches have executions -/
example : ∃ G' : Loc → ℚ, Runs (opsYz gpuYzEx.bs [0, 1, 1, 2, 2] 512 (fun _ _ _ _ _ => 0) fun b n =>
    CudaDep.calcJYz 1 1 ![1, 1, 1] 1 ![1/2, 1/2, 1] ([![0, 15/4, 39/10], ![0, 1, 1]].getD n 0)
      ([![0, 17/4, 49/10], ![0, 1, 1]].getD n 0) fun d => (b.ci0 d : ℤ)) 512 (qYz gpuYzEx) (fun _ => 0) G' :=
  (C70_runs gpuYzEx [0, 1, 1, 2, 2] 512 _ _ _).1

end Psc.Props
