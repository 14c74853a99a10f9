import Verif.Lemmas.SetupParticles
import Mathlib.Tactic.IntervalCases
import Mathlib.Tactic.NormNum

/-! C37 (density and counts), C51 (kinds), C52 (neutralising population) -/

namespace Psc.Props

open Psc.Setup

variable {K : Type} [Field K] [LinearOrder K] [IsStrictOrderedRing K] [FloorRing K]

/-- **C37 (variable weights, no neutralising population).** However many random numbers were drawn before (`pos`, `pos2`),
setting up creates, for every cell and population, a group of particles whose weights sum to the requested density times
the number of particles per unit density; the group is empty exactly if the density is zero; every particle of the group has
the requested kind and tag; and `partition` announces exactly the number of particles that `setupParticles` creates.
Missing: constant-weight mode, where the announced and created counts differ (`C37_fractional_violation`). -/
theorem C37_setup_partial {C : Type} (P : Params K) (hf : P.fractional = false)
    (hneu : ∀ pop : ℕ, pop < P.n_populations → (pop : ℤ) ≠ P.neutralizing_population)
    (rnd : ℕ → K) (init_np : C → ℕ → Np K → Np K) (cells : List C) (pos pos2 : ℕ)
    (hk : ∀ c ∈ cells, ∀ pop, pop < P.n_populations → (requested P init_np c pop).kind < P.q.length) :
    ∃ groups : List (List (List (Prt K))),
      (∃ p, setupParticles P rnd init_np cells pos = some (groups.flatten.flatten, p)) ∧
      (∃ p, partition P rnd init_np cells pos2 = some ((groups.flatten.flatten.length : ℤ), p)) ∧
      List.Forall₂ (fun c g => g.length = P.n_populations ∧ ∀ pop (h : pop < g.length),
        ((g[pop]).map (·.weight)).sum = (requested P init_np c pop).n * P.prts_per_unit_density ∧
        (g[pop] = [] ↔ (requested P init_np c pop).n = 0) ∧
        ∀ prt ∈ g[pop], prt.kind = (requested P init_np c pop).kind ∧ prt.tag = (requested P init_np c pop).tag)
        cells groups := by
  let ops : C → List (ℤ × Np K) := fun c => (List.range P.n_populations).map fun i =>
    (get_n_in_cell (requested P init_np c i).n P.prts_per_unit_density false 0, requested P init_np c i)
  have key : ∀ pos, ∃ p, op_cellwise P rnd init_np cells pos = some ((cells.map ops).flatten, p) := by
    intro pos
    obtain ⟨ll, p, h1, h2⟩ := op_cellwise_spec P rnd init_np cells pos hk (fun i h1 h2 => absurd h2 (hneu i h1))
    refine ⟨p, ?_⟩
    rw [h1]
    have : ll = cells.map ops := by
      clear h1 hk
      induction h2 with
      | nil => rfl
      | @cons c l cs ll h1 h2 ih =>
        rw [List.map_cons, ← ih]
        congr 1
        apply List.ext_getElem
        · simp [ops, h1.1]
        · intro i hi hi'
          obtain ⟨h3, h4⟩ := h1.2 i hi
          obtain ⟨j, hj⟩ := h4 (hneu i (h1.1 ▸ hi))
          simp only [ops, List.getElem_map, List.getElem_range]
          apply Prod.ext
          · rw [hj, h3, hf]; simp [get_n_in_cell, requested]
          · exact h3
    rw [this]
  let grp : C → List (List (Prt K)) := fun c => (ops c).map fun o => createPrts P o.1 o.2
  have hnn : ∀ c, ∀ o ∈ ops c, 0 ≤ o.1 := by
    intro c o ho
    simp only [ops, List.mem_map] at ho
    obtain ⟨i, -, rfl⟩ := ho
    simp only [get_n_in_cell, Bool.false_eq_true, if_false]
    split_ifs
    · exact le_refl _
    · exact le_trans (by norm_num) (le_max_left _ _)
  have hlen : ∀ l : List (ℤ × Np K), (∀ o ∈ l, 0 ≤ o.1) →
      (l.map (·.1)).sum = (((l.map fun o => createPrts P o.1 o.2).flatten.length : ℕ) : ℤ) := by
    intro l
    induction l with
    | nil => simp
    | cons o l ih =>
      intro h
      simp only [List.map_cons, List.sum_cons, List.flatten_cons, List.length_append, Nat.cast_add]
      rw [ih (fun o ho => h o (by simp [ho]))]
      simp [createPrts, Int.toNat_of_nonneg (h o (by simp))]
  have hfl : (cells.map grp).flatten = ((cells.map ops).flatten).map fun o => createPrts P o.1 o.2 := by
    rw [List.map_flatten, List.map_map]; rfl
  refine ⟨cells.map grp, ?_, ?_, ?_⟩
  · obtain ⟨p, hp⟩ := key pos
    refine ⟨p, ?_⟩
    rw [setupParticles, hp, hfl]
    simp [List.flatMap]
  · obtain ⟨p, hp⟩ := key pos2
    refine ⟨p, ?_⟩
    rw [partition, hp, hfl]
    simp only [Option.bind_eq_bind, Option.bind_some, Option.pure_def]
    rw [hlen]
    intro o ho
    rw [List.mem_flatten] at ho
    obtain ⟨l, hl, ho⟩ := ho
    rw [List.mem_map] at hl
    obtain ⟨c, -, rfl⟩ := hl
    exact hnn c o ho
  · clear hk key hfl
    induction cells with
    | nil => exact List.Forall₂.nil
    | cons c cs ih =>
      refine List.Forall₂.cons ⟨by simp [grp, ops], ?_⟩ ih
      intro pop h
      simp only [grp, ops, List.getElem_map, List.getElem_range]
      by_cases hd : (requested P init_np c pop).n = 0
      · simp [get_n_in_cell, hd, createPrts]
      · have h1 := get_n_pos _ P.prts_per_unit_density 0 hd
        refine ⟨weights_sum P hf _ h1 _, ?_, ?_⟩
        · simp only [hd, iff_false]
          simp only [createPrts, List.replicate_eq_nil_iff]
          omega
        · intro prt hprt
          simp only [createPrts, List.mem_replicate] at hprt
          rw [hprt.2]; simp

/-- hypotheses of `C37_setup_partial` met: two kinds, density 1/3 and 0, three particles per unit density -/
example : ∃ (P : Params ℚ) (init : ℕ → ℕ → Np ℚ → Np ℚ), P.fractional = false ∧ P.n_populations = 2 ∧
    (∀ pop : ℕ, pop < P.n_populations → (pop : ℤ) ≠ P.neutralizing_population) ∧
    (∀ c ∈ [0, 1], ∀ pop, pop < P.n_populations → (requested P init c pop).kind < P.q.length) ∧
    (requested P init 0 0).n = 7 / 3 ∧ (requested P init 1 1).n = 0 :=
  ⟨{ q := [-1, 1], prts_per_unit_density := 3, n_populations := 2 },
    fun c pop np => { np with n := if c = 0 ∧ pop = 0 then 7 / 3 else 0 },
    rfl, rfl, by intro pop _; simp,
    by intro c _ pop h; simp [requested, np0] at h ⊢; split_ifs <;> omega, by simp [requested], by simp [requested]⟩

/-- **C37 (constant weights).** In constant-weight mode every particle of a group has weight one, and the number of particles
differs by less than one from density times particles per unit density, for every draw in [0, 1). -/
theorem C37_fractional_partial (P : Params K) (hf : P.fractional = true) (np : Np K) (u : K)
    (hd : 0 ≤ np.n) (hp : 0 ≤ P.prts_per_unit_density) (hu : 0 ≤ u) (hu1 : u < 1) :
    let n := get_n_in_cell np.n P.prts_per_unit_density P.fractional u
    (∀ prt ∈ createPrts P n np, prt.weight = 1) ∧
    (((createPrts P n np).length : K) < np.n * P.prts_per_unit_density + 1) ∧
    (np.n * P.prts_per_unit_density - 1 < ((createPrts P n np).length : K)) := by
  intro n
  have hx : 0 ≤ np.n * P.prts_per_unit_density := mul_nonneg hd hp
  have hn : 0 ≤ n := get_n_nonneg _ _ _ _ hd hp hu
  have hlen : ((createPrts P n np).length : K) = (n : K) := by
    simp only [createPrts, List.length_replicate]
    rw [← Int.cast_natCast, Int.toNat_of_nonneg hn]
  refine ⟨?_, ?_, ?_⟩
  · intro prt h
    simp only [createPrts, List.mem_replicate] at h
    rw [h.2]; simp [getWeight, hf]
  all_goals
    rw [hlen]
    by_cases h0 : np.n = 0
    · have : n = 0 := by simp [n, get_n_in_cell, h0]
      rw [this, h0]; simp
    · have h1 : n = ⌊np.n * P.prts_per_unit_density + u⌋ := by
        simp only [n, get_n_in_cell, h0, hf, if_false, if_true, toInt]
        rw [if_pos (by linarith)]
      have h2 := Int.floor_le (np.n * P.prts_per_unit_density + u)
      have h3 := Int.lt_floor_add_one (np.n * P.prts_per_unit_density + u)
      rw [h1]; linarith

example : (0 : ℚ) ≤ 1 / 2 ∧ (0 : ℚ) ≤ 7 / 10 ∧ (7 / 10 : ℚ) < 1 := by norm_num

/-- **C37 is violated in constant-weight mode**: `partition` and `setupParticles` each draw their own random numbers, so the
announced number of particles can differ from the number created.  Half a particle expected in the one cell; the first draw
(used by `partition`) is .2, the second .7: none announced, one created. -/
theorem C37_fractional_violation : ∃ (P : Params ℚ) (init_np : Unit → ℕ → Np ℚ → Np ℚ) (rnd : ℕ → ℚ),
    (∀ i, 0 ≤ rnd i ∧ rnd i < 1) ∧ P.fractional = true ∧
    ∃ n pos l pos', partition P rnd init_np [()] 0 = some (n, pos) ∧
      setupParticles P rnd init_np [()] pos = some (l, pos') ∧ n ≠ l.length := by
  refine ⟨{ q := [-1], prts_per_unit_density := 1 / 2, n_populations := 1, fractional := true },
    fun _ _ np => { np with n := 1 }, fun i => if i = 0 then 1 / 5 else 7 / 10, ?_, rfl, 0, 1,
    [{ weight := 1, kind := 0, pkind := 0, tag := 0 }], 2, ?_, ?_, ?_⟩
  · intro i; dsimp only; split_ifs <;> norm_num
  · norm_num [partition, op_cellwise, cellLoop, popStep, get_n_in_cell, draws, toInt]
  · norm_num [setupParticles, op_cellwise, cellLoop, popStep, get_n_in_cell, draws, toInt, createPrts, getWeight]
  · simp

/-- **C51 (kind).** Every particle is created with the kind the per-cell function leaves in `np` — in particular, for a
temperature-based initialisation function that keeps the kind it is given, with the kind of that population, and its momentum
is drawn with the mass of the same kind.  Missing: temperature-based functions that set the kind (`C51_kind_violation`). -/
theorem C51_kind_partial (P : Params K) (init_npt : ℕ → Npt K → Npt K) (hkeep : ∀ pop npt, (init_npt pop npt).kind = npt.kind)
    (pop : ℕ) (hpop : pop < P.q.length) (n : ℤ) :
    ∀ prt ∈ createPrts P n (initNpt_to_initNp init_npt pop (np0 P pop)), prt.kind = pop ∧ prt.pkind = pop := by
  intro prt h
  simp only [createPrts, List.mem_replicate] at h
  rw [h.2]
  simp [initNpt_to_initNp, np0, hkeep, hpop]

example : ∃ init : ℕ → Npt ℚ → Npt ℚ, (∀ pop npt, (init pop npt).kind = npt.kind) ∧ (init 1 ⟨1, 0, 0⟩).n = 2 :=
  ⟨fun _ npt => { npt with n := 2 }, fun _ _ => rfl, rfl⟩

/-- **C51 is violated**: a temperature-based initialisation function that sets the kind of a population (as `psc_harris_yz`
does for its four populations of two kinds) is ignored except for the mass of the momentum distribution: the ions of
population 3 are created as electrons, with ion momenta. -/
theorem C51_kind_violation : ∃ (P : Params ℚ) (init_npt : ℕ → Npt ℚ → Npt ℚ),
    (∀ npt, (init_npt 3 npt).kind = 1) ∧ P.n_populations = 4 ∧
    ∃ l pos, setupParticles P (fun _ => 0) (fun _ : Unit => initNpt_to_initNp init_npt) [()] 0 = some (l, pos) ∧
      l.map (·.kind) = [0, 1, 0, 0] ∧ l.map (·.pkind) = [0, 1, 0, 1] := by
  refine ⟨{ q := [-1, 1], prts_per_unit_density := 1, n_populations := 4 },
    fun pop npt => { npt with n := 1, kind := if pop = 0 ∨ pop = 2 then 0 else 1 }, fun _ => rfl, rfl,
    [⟨1, 0, 0, 0⟩, ⟨1, 1, 1, 0⟩, ⟨1, 0, 0, 0⟩, ⟨1, 0, 1, 0⟩], 0, ?_, rfl, rfl⟩
  have h : toInt ((3 : ℚ) / 2) = 1 := by norm_num [toInt]
  norm_num [setupParticles, op_cellwise, cellLoop, popStep, get_n_in_cell, createPrts, getWeight, initNpt_to_initNp,
    List.replicate, h, draws]

/-- **C52.** In constant-weight mode with integer charges, non-negative for all populations but the neutralising last one of
charge −1, every cell is set up exactly neutral, whatever the densities and random draws. -/
theorem C52_neutral {C : Type} (P : Params K) (hf : P.fractional = true) (rnd : ℕ → K) (init_np : C → ℕ → Np K → Np K)
    (c : C) (pos : ℕ) (z : ℕ → ℤ) (hq : ∀ k (h : k < P.q.length), P.q[k] = z k)
    (hn : P.neutralizing_population = P.n_populations - 1) (hpops : 0 < P.n_populations)
    (hk : ∀ pop, pop < P.n_populations → (requested P init_np c pop).kind < P.q.length)
    (hions : ∀ pop, pop + 1 < P.n_populations → 0 ≤ z (requested P init_np c pop).kind)
    (hlast : ∀ pop, pop + 1 = P.n_populations → z (requested P init_np c pop).kind = -1)
    (hd : ∀ pop, 0 ≤ (requested P init_np c pop).n) (hp : 0 ≤ P.prts_per_unit_density) (hr : ∀ i, 0 ≤ rnd i) :
    ∃ l pos', setupParticles P rnd init_np [c] pos = some (l, pos') ∧ charge (fun k => (z k : K)) l = 0 := by
  obtain ⟨⟨l, s⟩, h1⟩ := cellLoop_isSome P rnd (init_np c) P.n_populations 0 ⟨0, pos⟩
    (by simpa [requested] using hk) (fun _ _ _ => hn)
  have h1' := h1
  rw [show P.n_populations = (P.n_populations - 1) + 1 by omega] at h1'
  obtain ⟨h2, h3⟩ := cellLoop_charge P rnd (init_np c) z hq hions hlast hd hp hr hn _ 0 ⟨0, pos⟩ l s (by omega) (le_refl _) h1'
  refine ⟨l.flatMap fun o => createPrts P o.1 o.2, s.pos, ?_, ?_⟩
  · simp [setupParticles, op_cellwise, h1]
  · simp only [zero_add] at h2
    have : charge (fun k => (z k : K)) (l.flatMap fun o => createPrts P o.1 o.2) = (opsCharge P z l : K) := by
      clear h2 h1 h1'
      induction l with
      | nil => simp [charge, opsCharge]
      | cons o l ih =>
        have := ih (fun o ho => h3 o (by simp [ho]))
        simp only [charge, opsCharge, List.flatMap_cons, List.map_append, List.sum_append, List.map_cons, List.sum_cons] at this ⊢
        rw [this]
        push_cast
        congr 1
        have h4 := h3 o (by simp)
        have h5 : ((o.1.toNat : ℕ) : K) = (o.1 : K) := by rw [← Int.cast_natCast, Int.toNat_of_nonneg h4]
        simp only [createPrts, List.map_replicate, List.sum_replicate, getWeight, hf, if_true, nsmul_eq_mul, h5]
        ring
    rw [this, h2]; simp

/-- hypotheses of `C52_neutral` met by an ion population and a neutralising electron population -/
example : ∃ (P : Params ℚ) (init : Unit → ℕ → Np ℚ → Np ℚ) (z : ℕ → ℤ), P.fractional = true ∧
    (∀ k (h : k < P.q.length), P.q[k] = z k) ∧ P.neutralizing_population = P.n_populations - 1 ∧
    (∀ pop, pop < P.n_populations → (requested P init () pop).kind < P.q.length) ∧
    (∀ pop, pop + 1 < P.n_populations → 0 ≤ z (requested P init () pop).kind) ∧
    (∀ pop, pop + 1 = P.n_populations → z (requested P init () pop).kind = -1) ∧
    (∀ pop, 0 < (requested P init () pop).n) := by
  refine ⟨{ q := [2, -1], prts_per_unit_density := 3, n_populations := 2, neutralizing_population := 1, fractional := true },
    fun _ _ np => { np with n := 1 }, fun k => if k = 0 then 2 else -1, rfl, ?_, by norm_num, ?_, ?_, ?_, ?_⟩
  · intro k h
    simp at h
    interval_cases k <;> simp
  · intro pop h; simp [requested, np0] at h ⊢; split_ifs <;> omega
  · intro pop h
    obtain rfl : pop = 0 := by simp at h; omega
    simp [requested, np0]
  · intro pop h; simp at h; subst h; simp [requested, np0]
  · intro pop; simp [requested]

end Psc.Props
