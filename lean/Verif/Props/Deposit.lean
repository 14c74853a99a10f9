import Verif.Lemmas.DepositInterp
import Verif.Props.Current1st
import Verif.Props.Esirkepov
import Verif.Model.Push

/-!
# C09: charge deposition conserves the particle's charge
-/

namespace Psc.Props

open Spec Deposit

variable {K : Type*} [Field K] [LinearOrder K] [IsStrictOrderedRing K] [FloorRing K]

/-- What it means for a deposition of charge `q` at normalised position `x` to be conservative, in
terms of the resulting field only: the weights are nonnegative, vanish at nodes that are `reach` or
further away in an active direction (off index 0 in an invariant one), and any finite set of nodes
that contains all nodes closer than `reach` receives exactly `q`. -/
structure Conserves (act : Fin 3 → Bool) (reach : K) (x : R3 K) (q : K) (f : ℤ → ℤ → ℤ → K) : Prop where
  /-- nonnegative weights -/
  nonneg : ∀ i j k, ∃ w, 0 ≤ w ∧ f i j k = w * q
  /-- support -/
  support : ∀ n : I3, (∃ d, if act d then reach ≤ |x d - n d| else n d ≠ 0) → f (n 0) (n 1) (n 2) = 0
  /-- total charge -/
  total : ∀ S : Finset (ℤ × ℤ × ℤ),
    (∀ n : I3, (∀ d, if act d then |x d - n d| < reach else n d = 0) → (n 0, n 1, n 2) ∈ S) →
    ∑ n ∈ S, f n.1 n.2.1 n.2.2 = q

omit [FloorRing K] in
theorem tentRho_support (act : Fin 3 → Bool) (q : K) (x : R3 K) (n : I3)
    (h : ∃ d, if act d then 1 ≤ |x d - n d| else n d ≠ 0) : tentRho act q x (n 0) (n 1) (n 2) = 0 := by
  obtain ⟨d, hd⟩ := h
  unfold tentRho
  have z : (if act d then tent (x d - n d) else if n d = 0 then 1 else 0) = 0 := by
    cases ha : act d <;> simp only [ha, if_true, Bool.false_eq_true, if_false] at hd ⊢
    · exact if_neg hd
    · exact tent_zero hd
  fin_cases d <;> simp only [Fin.zero_eta, Fin.isValue, Fin.mk_one, Fin.reduceFinMk] at z <;> rw [z] <;>
    ring

omit [FloorRing K] in
theorem splineRho_support (act : Fin 3 → Bool) (q : K) (x : R3 K) (n : I3)
    (h : ∃ d, if act d then 3/2 ≤ |x d - n d| else n d ≠ 0) :
    splineRho act q x (n 0) (n 1) (n 2) = 0 := by
  obtain ⟨d, hd⟩ := h
  unfold splineRho
  have z : (if act d then spline2 (x d - n d) else if n d = 0 then 1 else 0) = 0 := by
    cases ha : act d <;> simp only [ha, if_true, Bool.false_eq_true, if_false] at hd ⊢
    · exact if_neg hd
    · exact spline2_zero hd
  fin_cases d <;> simp only [Fin.zero_eta, Fin.isValue, Fin.mk_one, Fin.reduceFinMk] at z <;> rw [z] <;>
    ring

omit [FloorRing K] in
theorem tentRho_nonneg (act : Fin 3 → Bool) (q : K) (x : R3 K) (i j k : ℤ) :
    ∃ w, 0 ≤ w ∧ tentRho act q x i j k = w * q := by
  refine ⟨_, ?_, by rw [tentRho, mul_comm]⟩
  have n01 : ∀ n : ℤ, (0:K) ≤ if n = 0 then 1 else 0 := by intro n; split_ifs <;> norm_num
  have nn : ∀ (b : Bool) (t : K) (n : ℤ), 0 ≤ (if b then tent t else if n = 0 then (1:K) else 0) := by
    intro b t n; cases b
    · simpa using n01 n
    · simpa using tent_nonneg t
  exact mul_nonneg (mul_nonneg (nn _ _ _) (nn _ _ _)) (nn _ _ _)

omit [FloorRing K] in
theorem splineRho_nonneg (act : Fin 3 → Bool) (q : K) (x : R3 K) (i j k : ℤ) :
    ∃ w, 0 ≤ w ∧ splineRho act q x i j k = w * q := by
  refine ⟨_, ?_, by rw [splineRho, mul_comm]⟩
  have n01 : ∀ n : ℤ, (0:K) ≤ if n = 0 then 1 else 0 := by intro n; split_ifs <;> norm_num
  have nn : ∀ (b : Bool) (t : K) (n : ℤ), 0 ≤ (if b then spline2 t else if n = 0 then (1:K) else 0) := by
    intro b t n; cases b
    · simpa using n01 n
    · simpa using spline2_nonneg t
  exact mul_nonneg (mul_nonneg (nn _ _ _) (nn _ _ _)) (nn _ _ _)

omit [FloorRing K] in
/-- from an exact density to the three facts -/
theorem conserves_of (act : Fin 3 → Bool) (reach : K) (x : R3 K) (q : K) (evs : List (Add K))
    (den : ℤ → ℤ → ℤ → K) (hden : ∀ i j k, fieldOf evs 0 i j k = den i j k)
    (hnn : ∀ i j k, ∃ w, 0 ≤ w ∧ den i j k = w * q)
    (hsup : ∀ n : I3, (∃ d, if act d then reach ≤ |x d - n d| else n d ≠ 0) →
      den (n 0) (n 1) (n 2) = 0)
    (hm : ∀ e ∈ evs, e.m = 0) (htot : (evs.map (·.v)).sum = q) :
    Conserves act reach x q (fieldOf evs 0) where
  nonneg i j k := by rw [hden]; exact hnn i j k
  support n h := by rw [hden]; exact hsup n h
  total S hS := by
    rw [total_of_support evs hm S, htot]
    intro i j k hn
    by_contra hne
    apply hn
    have := hS ![i, j, k] (by
      intro d
      by_contra hd
      apply hne
      rw [hden]
      refine hsup ![i, j, k] ⟨d, ?_⟩
      cases ha : act d <;> simp only [ha, if_true, Bool.false_eq_true, if_false] at hd ⊢
      · exact hd
      · exact not_lt.mp hd)
    simpa using this

/-- **C09.** 1st order, node-centred, 3-d. -/
theorem C09_nc1_xyz (x : R3 K) (q : K) : Conserves xyz 1 x q (fieldOf (nc1_xyz x q) 0) :=
  conserves_of xyz 1 x q _ _ (nc1_xyz_eq_tent x q) (tentRho_nonneg _ _ _) (tentRho_support _ _ _)
    (by simp [nc1_xyz, first_xyz])
    (by simp only [nc1_xyz, first_xyz, List.map_cons, List.map_nil, List.sum_cons, List.sum_nil]; ring)

/-- **C09.** 1st order, node-centred, yz. -/
theorem C09_nc1_yz (x : R3 K) (q : K) : Conserves yz 1 x q (fieldOf (nc1_yz x q) 0) :=
  conserves_of yz 1 x q _ _ (nc1_yz_eq_tent x q) (tentRho_nonneg _ _ _) (tentRho_support _ _ _)
    (by simp [nc1_yz, first_yz])
    (by simp only [nc1_yz, first_yz, List.map_cons, List.map_nil, List.sum_cons, List.sum_nil]; ring)

/-- **C09.** 1st order, cell-centred, 3-d: the same weights measured from the cell centres. -/
theorem C09_cc1_xyz (x : R3 K) (q : K) :
    Conserves xyz 1 (fun d => x d - 1/2) q (fieldOf (cc1_xyz x q) 0) :=
  C09_nc1_xyz (fun d => x d - 1/2) q

/-- **C09.** 1st order, cell-centred, yz. -/
theorem C09_cc1_yz (x : R3 K) (q : K) :
    Conserves yz 1 (fun d => x d - 1/2) q (fieldOf (cc1_yz x q) 0) :=
  C09_nc1_yz (fun d => x d - 1/2) q

/-- **C09.** 2nd order, node-centred, 3-d. -/
theorem C09_nc2_xyz (x : R3 K) (q : K) : Conserves xyz (3/2) x q (fieldOf (nc2_xyz x q) 0) :=
  conserves_of xyz _ x q _ _ (nc2_xyz_eq_spline x q) (splineRho_nonneg _ _ _) (splineRho_support _ _ _)
    (by simp [nc2_xyz, second_xyz])
    (by
      simp only [nc2_xyz, second_xyz, List.map_cons, List.map_nil, List.sum_cons, List.sum_nil, gm, g0, g1]
      ring)

/-- **C09.** 2nd order, node-centred, yz. -/
theorem C09_nc2_yz (x : R3 K) (q : K) : Conserves yz (3/2) x q (fieldOf (nc2_yz x q) 0) :=
  conserves_of yz _ x q _ _ (nc2_yz_eq_spline x q) (splineRho_nonneg _ _ _) (splineRho_support _ _ _)
    (by simp [nc2_yz, second_yz])
    (by
      simp only [nc2_yz, second_yz, List.map_cons, List.map_nil, List.sum_cons, List.sum_nil, gm, g0, g1]
      ring)

/-- **C09.** Charge density moment of a whole list of particles: over any set of nodes that contains
every node a particle of the list can reach, the total is the sum of the particles' charges (times the
normalisation `fnqs`). -/
theorem C09_rho_total (act : Fin 3 → Bool) (reach : ℝ) (dep : R3 ℝ → ℝ → List (Add ℝ))
    (hdep : ∀ x q, Conserves act reach x q (fieldOf (dep x q) 0))
    (P : Push.Params) (ps : List Push.Prt) (hq : ∀ p ∈ ps, P.q p.kind ≠ 0)
    (S : Finset (ℤ × ℤ × ℤ))
    (hS : ∀ p ∈ ps, ∀ n : I3, (∀ d, if act d then |p.x d / P.dx d - n d| < reach else n d = 0) →
      (n 0, n 1, n 2) ∈ S) :
    ∑ n ∈ S, fieldOf (Push.rho dep P ps) 0 n.1 n.2.1 n.2.2 = (ps.map fun p => P.fnqs * p.qw).sum := by
  induction ps with
  | nil => simp [Push.rho, fieldOf_nil]
  | cons p ps ih =>
    have h1 := (hdep (fun d => p.x d * (1 / P.dx d)) (P.fnqs * p.qw)).total S
      (fun n hn => hS p List.mem_cons_self n (by
        intro d; have := hn d; simpa [div_eq_mul_inv] using this))
    have h2 := ih (fun p hp => hq p (List.mem_cons_of_mem _ hp))
      (fun p hp => hS p (List.mem_cons_of_mem _ hp))
    have hqp := hq p List.mem_cons_self
    have hc : Push.charge P p = p.qw := by unfold Push.charge; field_simp
    simp only [Push.rho, List.flatMap_cons, fieldOf_append, Finset.sum_add_distrib, List.map_cons,
      List.sum_cons] at h2 ⊢
    rw [h2]
    congr 1
    rw [← h1]
    simp only [code, hc]

/-- a concrete 3-d deposition: charge 2 at `(1/4, 1/2, 3/4)`; node `(1,0,1)` receives `3/16` and a
far-away node nothing -/
example : fieldOf (nc1_xyz (![1/4, 1/2, 3/4] : R3 ℚ) 2) 0 1 0 1 = 3/16 ∧
    fieldOf (nc1_xyz (![1/4, 1/2, 3/4] : R3 ℚ) 2) 0 2 0 1 = 0 := by decide +kernel

end Psc.Props
