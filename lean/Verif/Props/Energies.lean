import Verif.Lemmas.Energies
import Verif.Spec.Energies
import Mathlib.Tactic.FinCases
import Mathlib.Data.Fintype.Basic

/-!
# Properties of the energy diagnostics (C49)
-/

namespace Psc.Props

open Psc.Energies Psc.Spec Psc.Fields

variable {K : Type} [Field K]

/-- **C49, fields (partial).** Without ghost cells, for all sizes, numbers of patches and fields, the diagnostic is the sum over the
interior cells of all patches.  With ghost cells it is not: `C49_field_violation`, `C49_ghost_violation`. -/
theorem C49_field_partial (g : Grid) (dx : R3 K) (mem : List K) (F : ℕ → ℤ → ℤ → ℤ → ℤ → K) (hb : ∀ d, g.ibn d = 0)
    (hl : ∀ d, 0 < g.ldims d) (hF : Holds g mem F) :
    fieldEnergies g dx mem = some (fun n : Fin 6 => interiorEnergy g dx F (3 + ((n : ℕ) : ℤ))) := by
  have hcell : ∀ p < g.n_patches, ∀ m : ℤ, 0 ≤ m → m < 9 → ∀ c ∈ foreach3d g.ldims g.inv 0 0,
      readView g mem p m c.1 c.2.1 c.2.2 = some (F p m c.1 c.2.1 c.2.2) := by
    intro p hp m hm1 hm2 c hc
    rw [mem_foreach] at hc
    have h := hF.2 p hp m c.1 c.2.1 c.2.2 hm1 hm2 (by rw [hb]; omega) (by rw [hb]; omega) (by rw [hb]; omega) (by rw [hb]; omega)
      (by rw [hb]; omega) (by rw [hb]; omega)
    unfold readView sliceStart
    simp only [hb, neg_zero, lt_irrefl, if_false, zero_add, add_zero] at h ⊢
    have hs : ∀ d, 0 ≤ g.shape d := fun d => by unfold Grid.shape; rw [hb]; have := hl d; omega
    rw [if_pos, h]
    unfold Grid.pos
    have := hs 0; have := hs 1; have := hs 2
    obtain ⟨⟨_, _⟩, ⟨_, _⟩, ⟨_, _⟩⟩ := hc
    positivity
  have hpatch : ∀ (EH2 : Fin 6 → K), ∀ p ∈ List.range g.n_patches, patchStep g (dx 0 * dx 1 * dx 2) mem EH2 p =
      some (fun n => EH2 n + ∑ k ∈ Finset.range (g.ldims 2).toNat, ∑ j ∈ Finset.range (g.ldims 1).toNat,
        ∑ i ∈ Finset.range (g.ldims 0).toNat, (F p (3 + (n : ℕ)) i j k) ^ 2 * (dx 0 * dx 1 * dx 2)) := by
    intro EH2 p hp
    have hp' := List.mem_range.1 hp
    unfold patchStep
    rw [foldlM_some _ (fun (b : Fin 6 → K) c n => b n + (F p (3 + (n : ℕ)) c.1 c.2.1 c.2.2) ^ 2 * (dx 0 * dx 1 * dx 2))]
    · rw [foldl_add (fun (c : ℤ × ℤ × ℤ) (n : Fin 6) => (F p (3 + (n : ℕ)) c.1 c.2.1 c.2.2) ^ 2 * (dx 0 * dx 1 * dx 2))]
      congr 1
      funext n
      rw [sum_foreach]
    · intro b c hc
      unfold cellStep
      rw [hcell p hp' 3 (by omega) (by omega) c hc, hcell p hp' 4 (by omega) (by omega) c hc, hcell p hp' 5 (by omega) (by omega) c hc,
        hcell p hp' 6 (by omega) (by omega) c hc, hcell p hp' 7 (by omega) (by omega) c hc, hcell p hp' 8 (by omega) (by omega) c hc]
      simp only [Option.bind_eq_bind, Option.bind_some, Option.some.injEq]
      funext n
      fin_cases n <;> rfl
  unfold fieldEnergies interiorEnergy
  rw [foldlM_some _ _ _ _ hpatch]
  rw [foldl_add (fun (p : ℕ) (n : Fin 6) => ∑ k ∈ Finset.range (g.ldims 2).toNat, ∑ j ∈ Finset.range (g.ldims 1).toNat,
        ∑ i ∈ Finset.range (g.ldims 0).toNat, (F p (3 + (n : ℕ)) i j k) ^ 2 * (dx 0 * dx 1 * dx 2))]
  congr 1
  funext n
  rw [sum_range_map, zero_add]

/-- two patches of 2 x 1 x 1 cells without ghost cells, filled with 0, 1, 2, ... -/
example : Holds (K := ℚ) ⟨![2, 1, 1], fun _ => false, fun _ => 0, 2⟩ ((List.range 36).map (fun n : ℕ => (n : ℚ)))
    (fun p m i _ _ => i + 2 * m + 18 * p) := by
  refine ⟨by decide, ?_⟩
  intro p hp m i j k hm1 hm2 hi1 hi2 hj1 hj2 hk1 hk2
  simp only [Matrix.cons_val_zero, Matrix.cons_val_one, Matrix.cons_val, neg_zero, add_zero] at hi1 hi2 hj1 hj2 hk1 hk2 hp
  have hj : j = 0 := by omega
  have hk : k = 0 := by omega
  subst hj hk
  have e : (Grid.pos ⟨![2, 1, 1], fun _ => false, fun _ => 0, 2⟩ p m (i + 0) (0 + 0) (0 + 0)) = i + 2 * m + 18 * p := by
    simp [Grid.pos, Grid.shape]; ring
  simp only [e]
  have hlt : (i + 2 * m + 18 * (p : ℤ)).toNat < 36 := by omega
  rw [List.getElem?_map, List.getElem?_range hlt]
  simp only [Option.map_some, Option.some.injEq]
  have : ((i + 2 * m + 18 * (p : ℤ)).toNat : ℤ) = i + 2 * m + 18 * p := Int.toNat_of_nonneg (by omega)
  have h2 : (((i + 2 * m + 18 * (p : ℤ)).toNat : ℤ) : ℚ) = ((i + 2 * m + 18 * p : ℤ) : ℚ) := by rw [this]
  rw [Int.cast_natCast] at h2
  rw [h2]; push_cast; ring

/-- **C49, violation.** With ghost cells in z and more cells than ghost cells in z, as in every actual run, the diagnostic reads beyond the end of the
field's memory. -/
theorem C49_field_violation (g : Grid) (dx : R3 K) (mem : List K) (hb : ∀ d, 0 ≤ g.ibn d) (hl : ∀ d, 0 < g.ldims d)
    (hz : 0 < g.ibn 2) (hlz : g.ibn 2 < g.ldims 2) (hn : 0 < g.n_patches) (hmem : (mem.length : ℤ) = g.size) :
    fieldEnergies g dx mem = none := by
  unfold fieldEnergies
  refine foldlM_none _ _ _ (g.n_patches - 1) (List.mem_range.2 (by omega)) (fun EH2 => ?_)
  unfold patchStep
  refine foldlM_none _ _ _ (0, 0, g.ldims 2 - 1) ?_ (fun EH2 => ?_)
  · rw [mem_foreach]
    have := hl 0; have := hl 1; have := hl 2
    refine ⟨⟨by simp, by simpa⟩, ⟨by simp, by simpa⟩, by simp only; omega, by simp only; omega⟩
  · have hr : readView g mem (g.n_patches - 1) 8 0 0 (g.ldims 2 - 1) = none := by
      unfold readView
      simp only
      split_ifs with hp
      · rw [List.getElem?_eq_none]
        have hs : ∀ d, 0 < g.shape d := fun d => by unfold Grid.shape; have := hl d; have := hb d; omega
        have hst : ∀ d, 0 ≤ sliceStart (-g.ibn d) (g.shape d) := fun d => by
          unfold sliceStart Grid.shape; have := hl d; have := hb d; split_ifs <;> omega
        have h2 : sliceStart (-g.ibn 2) (g.shape 2) = g.ldims 2 + g.ibn 2 := by
          unfold sliceStart Grid.shape; rw [if_pos (by omega)]; ring
        have hle : g.size ≤ g.pos (g.n_patches - 1) 8 (sliceStart (-g.ibn 0) (g.shape 0) + 0) (sliceStart (-g.ibn 1) (g.shape 1) + 0)
            (sliceStart (-g.ibn 2) (g.shape 2) + (g.ldims 2 - 1)) := by
          unfold Grid.size Grid.pos
          rw [h2]
          have h0 := hs 0; have h1 := hs 1; have s0 := hst 0; have s1 := hst 1
          have hnp : ((g.n_patches - 1 : ℕ) : ℤ) = (g.n_patches : ℤ) - 1 := by omega
          rw [hnp]
          have e2 : g.shape 2 = g.ldims 2 + 2 * g.ibn 2 := rfl
          have k1 : g.shape 2 * (9 * (g.n_patches : ℤ)) ≤ g.ldims 2 + g.ibn 2 + (g.ldims 2 - 1) + g.shape 2 * (8 + 9 * ((g.n_patches : ℤ) - 1)) := by
            have : g.shape 2 * (8 + 9 * ((g.n_patches : ℤ) - 1)) = g.shape 2 * (9 * (g.n_patches : ℤ)) - g.shape 2 := by ring
            rw [this]; omega
          have k2 := mul_le_mul_of_nonneg_left k1 h1.le
          have k3 := mul_le_mul_of_nonneg_left (show g.shape 1 * (g.shape 2 * (9 * (g.n_patches : ℤ))) ≤
            sliceStart (-g.ibn 1) (g.shape 1) + 0 + g.shape 1 * (g.ldims 2 + g.ibn 2 + (g.ldims 2 - 1) + g.shape 2 * (8 + 9 * ((g.n_patches : ℤ) - 1))) by
              linarith) h0.le
          linarith
        omega
      · rfl
    unfold cellStep
    rw [hr]
    simp only [Option.bind_eq_bind]
    cases readView g mem (g.n_patches - 1) 3 0 0 (g.ldims 2 - 1) <;> cases readView g mem (g.n_patches - 1) 4 0 0 (g.ldims 2 - 1) <;>
    cases readView g mem (g.n_patches - 1) 5 0 0 (g.ldims 2 - 1) <;> cases readView g mem (g.n_patches - 1) 6 0 0 (g.ldims 2 - 1) <;>
    cases readView g mem (g.n_patches - 1) 7 0 0 (g.ldims 2 - 1) <;> rfl

/-- one patch of 8 x 8 x 8 cells with two ghost cells -/
example : let g : Grid := ⟨fun _ => 8, fun _ => false, fun _ => 2, 1⟩
    (∀ d, 0 ≤ g.ibn d) ∧ (∀ d, 0 < g.ldims d) ∧ 0 < g.ibn 2 ∧ g.ibn 2 < g.ldims 2 ∧ 0 < g.n_patches ∧
    ((List.replicate 15552 (1 : ℚ)).length : ℤ) = g.size := by
  refine ⟨by decide, by decide, by decide, by decide, by decide, ?_⟩
  rw [List.length_replicate]; decide

/-- **C49, violation.** Where it stays inside the memory it reads ghost cells instead of interior cells: with a field that is one in the only interior cell and zero
elsewhere, the reported energy is zero. -/
theorem C49_ghost_violation :
    (fieldEnergies (K := ℚ) ⟨fun _ => 1, fun _ => false, fun _ => 1, 1⟩ (fun _ => 1)
      ((List.range 243).map (fun n => if n % 27 = 13 then 1 else 0))).map (fun e => e 0) = some 0 ∧
    interiorEnergy (K := ℚ) ⟨fun _ => 1, fun _ => false, fun _ => 1, 1⟩ (fun _ => 1)
      (fun _ _ i j k => if i = 0 ∧ j = 0 ∧ k = 0 then 1 else 0) 3 = 1 := by
  constructor
  · decide +kernel
  · simp only [interiorEnergy, Int.toNat_one, Finset.sum_range_one]
    norm_num

/-- **C49, particles.** For all ranks, patches and particles, with charged kinds: the two numbers written are the total kinetic energies of all negatively
and of all positively charged particles. -/
theorem C49_particles (q m : ℕ → ℝ) (fnqs : ℝ) (dx : R3 ℝ) (ranks : List (List (List Prt)))
    (hq : ∀ r ∈ ranks, ∀ P ∈ r, ∀ p ∈ P, q p.kind ≠ 0) :
    writePrts q m fnqs dx ranks =
      some (((ranks.flatten.flatten.filter (fun p => q p.kind < 0)).map
              (fun p => kinetic (m p.kind) (p.qni_wni / q p.kind) p.u * fnqs * (dx 0 * dx 1 * dx 2))).sum,
            ((ranks.flatten.flatten.filter (fun p => 0 < q p.kind)).map
              (fun p => kinetic (m p.kind) (p.qni_wni / q p.kind) p.u * fnqs * (dx 0 * dx 1 * dx 2))).sum) := by
  let e : Prt → ℝ := fun p => kinetic (m p.kind) (p.qni_wni / q p.kind) p.u * fnqs * (dx 0 * dx 1 * dx 2)
  have he : ∀ p : Prt, ekin q m fnqs p * (dx 0 * dx 1 * dx 2) = e p := by
    intro p
    simp only [e, kinetic, ekin, Prt.w]
    rw [show 1 + p.u 0 ^ 2 + p.u 1 ^ 2 + p.u 2 ^ 2 = 1 + (p.u 0 ^ 2 + p.u 1 ^ 2 + p.u 2 ^ 2) by ring]
  let N : List Prt → ℝ := fun l => ((l.filter (fun p => q p.kind < 0)).map e).sum
  let Pz : List Prt → ℝ := fun l => ((l.filter (fun p => 0 < q p.kind)).map e).sum
  have hprts : ∀ (prts : List Prt) (vals : ℝ × ℝ), (∀ p ∈ prts, q p.kind ≠ 0) →
      prts.foldlM (prtStep q m fnqs (dx 0 * dx 1 * dx 2)) vals = some (vals.1 + N prts, vals.2 + Pz prts) := by
    intro prts
    induction prts with
    | nil => intro vals _; simp [N, Pz]
    | cons p prts ih =>
      intro vals h
      rw [List.foldlM_cons]
      have hp := h p (by simp)
      have hr : ∀ p ∈ prts, q p.kind ≠ 0 := fun p hp => h p (by simp [hp])
      rcases lt_or_gt_of_ne hp with hn | hn
      · rw [prtStep, if_pos hn]
        simp only [Option.bind_eq_bind, Option.bind_some]
        rw [ih _ hr]
        simp only [N, Pz, List.filter_cons, hn, not_lt.2 hn.le, decide_true, decide_false, if_true, Bool.false_eq_true, if_false,
          List.map_cons, List.sum_cons, he, add_assoc]
      · rw [prtStep, if_neg (not_lt.2 hn.le), if_pos hn]
        simp only [Option.bind_eq_bind, Option.bind_some]
        rw [ih _ hr]
        simp only [N, Pz, List.filter_cons, hn, not_lt.2 hn.le, decide_true, decide_false, if_true, Bool.false_eq_true, if_false,
          List.map_cons, List.sum_cons, he, add_assoc]
  have happ : ∀ a b, N (a ++ b) = N a + N b ∧ Pz (a ++ b) = Pz a + Pz b := by
    intro a b; simp only [N, Pz, List.filter_append, List.map_append, List.sum_append, and_self]
  have hpatches : ∀ (P : List (List Prt)) (vals : ℝ × ℝ), (∀ l ∈ P, ∀ p ∈ l, q p.kind ≠ 0) →
      P.foldlM (fun vals prts => prts.foldlM (prtStep q m fnqs (dx 0 * dx 1 * dx 2)) vals) vals =
        some (vals.1 + N P.flatten, vals.2 + Pz P.flatten) := by
    intro P
    induction P with
    | nil => intro vals _; simp [N, Pz]
    | cons l P ih =>
      intro vals h
      rw [List.foldlM_cons, hprts l vals (h l (by simp))]
      simp only [Option.bind_eq_bind, Option.bind_some]
      rw [ih _ (fun l hl => h l (by simp [hl])), List.flatten_cons, (happ _ _).1, (happ _ _).2, add_assoc, add_assoc]
  have hranks : ∀ R : List (List (List Prt)), (∀ r ∈ R, ∀ P ∈ r, ∀ p ∈ P, q p.kind ≠ 0) →
      R.mapM (prtEnergies q m fnqs dx) = some (R.map (fun r => (N r.flatten, Pz r.flatten))) := by
    intro R
    induction R with
    | nil => intro _; rfl
    | cons r R ih =>
      intro h
      rw [List.mapM_cons, ih (fun r hr => h r (by simp [hr]))]
      unfold prtEnergies
      rw [hpatches r (0, 0) (h r (by simp))]
      simp
  unfold writePrts
  rw [hranks ranks hq]
  simp only [Option.bind_eq_bind, Option.bind_some, List.map_map]
  have hs : ∀ R : List (List (List Prt)), (R.map (fun r => N r.flatten)).sum = N R.flatten.flatten ∧
      (R.map (fun r => Pz r.flatten)).sum = Pz R.flatten.flatten := by
    intro R
    induction R with
    | nil => simp [N, Pz]
    | cons r R ih =>
      simp only [List.map_cons, List.sum_cons, List.flatten_cons, List.flatten_append, (happ _ _).1, (happ _ _).2, ih.1, ih.2, and_self]
  have h1 := (hs ranks).1
  have h2 := (hs ranks).2
  simp only [Function.comp_def]
  rw [h1, h2]

/-- an electron and an ion on two ranks -/
example : ∃ ranks : List (List (List Prt)), ranks.length = 2 ∧
    ∀ r ∈ ranks, ∀ P ∈ r, ∀ p ∈ P, (fun k => if k = 0 then (-1 : ℝ) else 1) p.kind ≠ 0 := by
  refine ⟨[[[⟨fun _ => 1, -2, 0⟩]], [[⟨fun _ => 0, 3, 1⟩], []]], rfl, ?_⟩
  intro r _ P _ p _
  dsimp only; split_ifs <;> norm_num

/-- **C49, schedule.** A line is written at exactly the multiples of a positive interval. -/
theorem C49_interval (interval timestep : ℤ) : writes interval timestep = true ↔ 0 < interval ∧ interval ∣ timestep := by
  unfold writes
  rw [Int.dvd_iff_tmod_eq_zero]
  simp

example : writes 5 10 = true ∧ writes 5 11 = false ∧ writes (-100) 100 = false ∧ writes 0 3 = false := by decide

end Psc.Props
