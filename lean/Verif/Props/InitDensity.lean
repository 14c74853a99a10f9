import Verif.Lemmas.InitDensity

/-!
# C86: the output density of the initial particles is the one asked for
-/

namespace Psc.Props

open Psc Moments Domain Ddc FieldStep Spec InitDensity

/-- **C86 (in the units of the normalisation).** For every normalisation the constructor accepts (with a real plasma frequency), every
decomposition, deck, sequence of random numbers and initial momenta: setting up the particles succeeds on every patch, every
particle is inside its patch, and the cell-centred moments of these particles are defined; in every cell of every patch the
component `n_<kind>` is the density of that kind the deck asks for at that cell, and `rho_<kind>` is that times the charge of the
kind, both times `qq n0 / (eps0 e0)`. -/
theorem C86_scaled {G : Grid} {C : Code} (h : G.Ok C) (hC : C.isCC = true) (hF : Fits G C) {D : Deck} (hD : D.Sound G)
    {prm : NormParams} {N : Norm} (hN : normalization prm = some N) (hfn : G.P.fnqs = N.fnqs)
    (hwp : 0 ≤ prm.qq ^ 2 * prm.n0 / prm.eps0 / prm.mm) (R : ℕ → ℕ → Random) :
    ∃ prts, (∀ r p, G.c.D.Has r p → setupPatch G N.prts_per_unit_density D (R r p) r p = some (prts r p)) ∧ G.Holds prts ∧
      (∃ τ, item G .n C prts = some τ ∧ ∀ k (hk : k < G.kinds.length),
        (Moment.comp_names .n G.kinds)[k]? = some ("n" ++ "_" ++ G.kinds[k]) ∧
        ∀ r p, G.c.D.Has r p → ∀ n, Interior G.c n →
          τ r p (k, n) = prm.qq * prm.n0 / (prm.eps0 * prm.e0) * D.density G k (fun d => G.c.off r p d + n d)) ∧
      (∃ τ, item G .all C prts = some τ ∧ ∀ k (hk : k < G.kinds.length),
        (Moment.comp_names .all G.kinds)[13 * k]? = some ("rho" ++ "_" ++ G.kinds[k]) ∧
        ∀ r p, G.c.D.Has r p → ∀ n, Interior G.c n →
          τ r p (13 * k, n) =
            prm.qq * prm.n0 / (prm.eps0 * prm.e0) * (G.P.q k * D.density G k (fun d => G.c.off r p d + n d))) := by
  obtain ⟨h1, -, h3, h4, h5, h6, h7, -, h9, -, h11⟩ := normalization_some hN
  have hfac : G.P.fnqs * N.prts_per_unit_density = prm.qq * prm.n0 / (prm.eps0 * prm.e0) := by
    have hq : prm.qq ≠ 0 := left_ne_zero_of_mul h6
    have he : prm.e0 ≠ 0 := right_ne_zero_of_mul h6
    have hni : (prm.nicell : ℝ) ≠ 0 := by
      have : prm.nicell ≠ 0 := by omega
      exact_mod_cast this
    rw [hfn, h11, h9, h7, Real.sq_sqrt hwp]
    field_simp
  have hs := fun r p hp => setupPatch_spec h N.prts_per_unit_density hD (R r p) (r := r) (p := p) hp
  choose! prts hl hholds hsum using hs
  refine ⟨prts, hl, ?_⟩
  refine ⟨hholds, ?_, ?_⟩
  · obtain ⟨τ, hτ, hnames, hv⟩ := C60_moments h .n hholds
    refine ⟨τ, hτ, fun k hk => ?_⟩
    obtain ⟨hm, hc⟩ := comp_n G hk
    refine ⟨by rw [hnames, List.getElem?_map, List.getElem?_eq_getElem hm, hc]; rfl, fun r p hp n hn => ?_⟩
    rw [hv k hm r p hp n hn, hc, ← hfac]
    have := density_spec h hC hF N.prts_per_unit_density (D := D) (fun _ => 1) k hsum (interior_global h hp hn)
    rw [one_mul] at this
    rw [← this]
    simp only [mul_one]
    rfl
  · obtain ⟨τ, hτ, hnames, hv⟩ := C60_moments h .all hholds
    refine ⟨τ, hτ, fun k hk => ?_⟩
    obtain ⟨hm, hc⟩ := comp_all G hk
    refine ⟨by rw [hnames, List.getElem?_map, List.getElem?_eq_getElem hm, hc]; rfl, fun r p hp n hn => ?_⟩
    rw [hv _ hm r p hp n hn, hc, ← hfac]
    exact density_spec h hC hF N.prts_per_unit_density (D := D) G.P.q k hsum (interior_global h hp hn)

/-- **C86 (dimensionless units).** With `NormalizationParams::dimensionless()` and any positive number of particles per cell: the
normalisation is accepted, `eta` and `beta` are 1, and the output density of the initial particles is exactly the density the deck
asks for, in every cell, whatever the decomposition and the number of particles per cell; the output charge density is that times the charge. -/
theorem C86_density {G : Grid} {C : Code} (h : G.Ok C) (hC : C.isCC = true) (hF : Fits G C) {D : Deck} (hD : D.Sound G)
    (nicell : ℤ) (h0 : 0 < nicell) :
    ∃ N, normalization { NormParams.dimensionless with nicell := nicell } = some N ∧ N.eta = 1 ∧ N.beta = 1 ∧
      (G.P.fnqs = N.fnqs → ∀ R : ℕ → ℕ → Random,
        ∃ prts, (∀ r p, G.c.D.Has r p → setupPatch G N.prts_per_unit_density D (R r p) r p = some (prts r p)) ∧ G.Holds prts ∧
          (∃ τ, item G .n C prts = some τ ∧ ∀ k (hk : k < G.kinds.length),
            (Moment.comp_names .n G.kinds)[k]? = some ("n" ++ "_" ++ G.kinds[k]) ∧
            ∀ r p, G.c.D.Has r p → ∀ n, Interior G.c n → τ r p (k, n) = D.density G k (fun d => G.c.off r p d + n d)) ∧
          (∃ τ, item G .all C prts = some τ ∧ ∀ k (hk : k < G.kinds.length),
            (Moment.comp_names .all G.kinds)[13 * k]? = some ("rho" ++ "_" ++ G.kinds[k]) ∧
            ∀ r p, G.c.D.Has r p → ∀ n, Interior G.c n →
              τ r p (13 * k, n) = G.P.q k * D.density G k (fun d => G.c.off r p d + n d))) := by
  have hpi : (2 * Real.pi : ℝ) ≠ 0 := by positivity
  have hN : ∃ N, normalization { NormParams.dimensionless with nicell := nicell } = some N := by
    unfold normalization NormParams.dimensionless
    simp [h0, Real.pi_ne_zero]
  obtain ⟨N, hN⟩ := hN
  obtain ⟨-, -, -, -, -, -, -, -, h9, h10, -⟩ := normalization_some hN
  refine ⟨N, hN, by rw [h9]; simp [NormParams.dimensionless], by rw [h10]; simp [NormParams.dimensionless], fun hfn R => ?_⟩
  have := C86_scaled h hC hF hD hN hfn (by simp [NormParams.dimensionless]) R
  simpa [NormParams.dimensionless] using this

/-- **C86, where the code falls short (defaults).** The physical units that a default-constructed `NormalizationParams` describes are
refused whatever the number of particles per cell: the length they normalise to is not 1, which the constructor asserts. -/
theorem C86_default_violation (nicell : ℤ) : normalization { NormParams.default with nicell := nicell } = none := by
  cases h : normalization { NormParams.default with nicell := nicell } with
  | none => rfl
  | some N =>
    exfalso
    obtain ⟨-, h2, -⟩ := normalization_some h
    have h3 := Real.two_le_pi
    simp only [NormParams.default] at h2
    norm_num at h2
    linarith

/-- **C86, where the code falls short (laser intensity).** With a field strength of 0 the constructor computes the
field `e0` from the laser intensity `i0`; but `eta` is computed from the strength given, 0, so that `fnqs` is a division by zero for all
parameters and intensities. -/
theorem C86_intensity_violation (prm : NormParams) (h0 : prm.e0 = 0) : normalization prm = none := by
  cases h : normalization prm with
  | none => rfl
  | some N =>
    exfalso
    obtain ⟨-, -, -, -, -, h6, -⟩ := normalization_some h
    exact h6 (by rw [h0, mul_zero])

/-! ### Cases that meet the hypotheses -/

/-- two patches on two ranks, invariant in x, periodic in y, reflecting walls in z, 100 particles per cell -/
noncomputable def exIDGrid : Grid where
  c := ⟨⟨![1, 1, 2], ![false, true, false], .bydim, [1, 1]⟩, ![1, 4, 3], ![0, 1, 1]⟩
  P := { q := fun k => if k = 0 then -1 else 2, m := fun k => if k = 0 then 1 else 25, dx := ![1, 1/2, 1/3], dt := 1/10, eta := 1, fnqs := 1/100 }
  kinds := ["e", "i"]
  prt_lo := ![.periodic, .periodic, .reflecting]
  prt_hi := ![.periodic, .periodic, .reflecting]

/-- three populations: electrons whose density depends on the position, ions, and a second population of electrons -/
noncomputable def exIDDeck : Deck where
  n_populations := 3
  init_np x pop np := { np with n := if pop = 0 then x 1 else if pop = 1 then 1 / 2 else 1 / 1000 }
  corner := ![0, -3, 7]

theorem exID_ok : exIDGrid.Ok .cc1_yz where
  ok := ⟨⟨rfl, by decide⟩, by decide⟩
  pos := by decide
  inv := by decide
  act := by decide
  per := by decide
  dx := by intro d; fin_cases d <;> norm_num [exIDGrid]

theorem exID_fits : Fits exIDGrid .cc1_yz := by unfold InitDensity.Fits; decide

theorem exID_sound : exIDDeck.Sound exIDGrid := by
  intro x pop _
  by_cases h : pop < 2
  · obtain rfl | rfl : pop = 0 ∨ pop = 1 := by omega
    · simp [Deck.asks, exIDDeck, exIDGrid]
    · simp [Deck.asks, exIDDeck, exIDGrid]
  · simp [Deck.asks, exIDDeck, exIDGrid, h]

/-- both populations of electrons count: in the first cell, centred at y = -2.75 -/
example : exIDDeck.density exIDGrid 0 ![0, 0, 0] = -2.75 + 1 / 1000 ∧ exIDDeck.density exIDGrid 1 ![0, 0, 0] = 1 / 2 := by
  constructor
  · norm_num [Deck.density, Deck.pops, Deck.asks, exIDDeck, exIDGrid, Finset.sum_range_succ, point, Cfg.gdims]
  · norm_num [Deck.density, Deck.pops, Deck.asks, exIDDeck, exIDGrid, Finset.sum_range_succ, point, Cfg.gdims]

/-- the normalisation of the example is that of 100 particles per cell -/
example : ∃ N, normalization { NormParams.dimensionless with nicell := 100 } = some N ∧ exIDGrid.P.fnqs = N.fnqs ∧
    ∀ R : ℕ → ℕ → Random, ∃ prts : ℕ → ℕ → List Push.Prt, ∀ r p, exIDGrid.c.D.Has r p → setupPatch exIDGrid N.prts_per_unit_density exIDDeck (R r p) r p = some (prts r p) := by
  obtain ⟨N, hN, h1, h2, h3⟩ := C86_density exID_ok rfl exID_fits exID_sound 100 (by norm_num)
  have hf : exIDGrid.P.fnqs = N.fnqs := by
    obtain ⟨-, -, -, -, -, -, -, -, -, -, h⟩ := normalization_some hN
    rw [h, h1]
    norm_num [NormParams.dimensionless, exIDGrid]
  refine ⟨N, hN, hf, fun R => ?_⟩
  obtain ⟨prts, h, -⟩ := h3 hf R
  exact ⟨prts, h⟩

end Psc.Props
