import Verif.Lemmas.SetupFields
import Verif.Props.Decomp
import Verif.Props.WallPic

/-!
# C63: initial fields
-/

namespace Psc.Props

open Domain Ddc FieldStep Spec Pic SetupFields

section
variable {K : Type} [Field K]

/-- **C63.** `setupFields` gives every cell and ghost cell of every patch the user's function, at the position on the Yee
grid where the component lives (`E` and `J` on edges, `H` on faces) of the *global* cell, whatever patch it is in; the values
are added to what is there.  It stays inside the storage and touches no other cell or component. -/
theorem C63_setup (c : Cfg) (w : ℤ) (hg : Ghosts c w) (G : Geom K) (func : ℕ → R3 K → K) (σ : Glob K) :
    ∃ τ, setupFields c G func σ = some τ ∧ Sampled c G func σ τ ∧
      ∀ r p, c.D.Has r p → ∀ m n, (¬ Stored c n ∨ 9 ≤ m) → τ r p (m, n) = σ r p (m, n) := setupFields_spec c w hg G func σ

/-- **C63.** Setting up twice superposes: the result is that of setting up the sum of the two functions. -/
theorem C63_superpose (c : Cfg) (w : ℤ) (hg : Ghosts c w) (G : Geom K) (f f' : ℕ → R3 K → K) (σ : Glob K) :
    ∃ τ τ' υ, setupFields c G f σ = some τ ∧ setupFields c G f' τ = some τ' ∧
      setupFields c G (fun m x => f m x + f' m x) σ = some υ ∧
      ∀ r p, c.D.Has r p → ∀ m n, m < 9 → Stored c n → τ' r p (m, n) = υ r p (m, n) := by
  obtain ⟨τ, h1, s1, -⟩ := setupFields_spec c w hg G f σ
  obtain ⟨τ', h2, s2, -⟩ := setupFields_spec c w hg G f' τ
  obtain ⟨υ, h3, s3, -⟩ := setupFields_spec c w hg G (fun m x => f m x + f' m x) σ
  refine ⟨τ, τ', υ, h1, h2, h3, fun r p hp m n hm hn => ?_⟩
  have key : ∀ e : Fin 3, τ' r p (HX + e, n) = υ r p (HX + e, n) ∧ τ' r p (EX + e, n) = υ r p (EX + e, n) ∧
      τ' r p (JXI + e, n) = υ r p (JXI + e, n) := by
    intro e
    obtain ⟨a1, a2, a3⟩ := s1 r p hp n hn e
    obtain ⟨b1, b2, b3⟩ := s2 r p hp n hn e
    obtain ⟨c1, c2, c3⟩ := s3 r p hp n hn e
    rw [b1, b2, b3, a1, a2, a3, c1, c2, c3]
    exact ⟨by ring, by ring, by ring⟩
  by_cases h3 : m < 3
  · have := (key ⟨m, h3⟩).2.2
    simpa [JXI] using this
  · by_cases h6 : m < 6
    · have := (key ⟨m - 3, by omega⟩).2.1
      simpa [EX, show 3 + (m - 3) = m by omega] using this
    · have := (key ⟨m - 6, by omega⟩).1
      simpa [HX, show 6 + (m - 6) = m by omega] using this

/-- **C63.** `setupScalarField` with a node-centred field takes the function at the nodes. -/
theorem C63_scalar_nc (c : Cfg) (w : ℤ) (hg : Ghosts c w) (G : Geom K) (func : ℕ → R3 K → K) (σ : Glob K) :
    ∃ τ, setupScalarField c G .NC func σ = some τ ∧ ∀ r p, c.D.Has r p → ∀ n, Stored c n →
      τ r p (0, n) = σ r p (0, n) + func 0 (node G fun d => c.off r p d + n d) :=
  scalar_some c w hg G .NC (node G) (fun r p n => get_pos_NC c G r p n _) func σ

/-- **C63.** `setupScalarField` with a cell-centred field takes the function at the centres of the cells. -/
theorem C63_scalar_cc (c : Cfg) (w : ℤ) (hg : Ghosts c w) (G : Geom K) (func : ℕ → R3 K → K) (σ : Glob K) :
    ∃ τ, setupScalarField c G .CC func σ = some τ ∧ ∀ r p, c.D.Has r p → ∀ n, Stored c n →
      τ r p (0, n) = σ r p (0, n) + func 0 (centre G fun d => c.off r p d + n d) :=
  scalar_some c w hg G .CC (centre G) (fun r p n => get_pos_CC c G r p n _) func σ

/-- **C63.** A scalar has no edge or face centring: `setupScalarField` stops. -/
theorem C63_scalar_other (c : Cfg) (w : ℤ) (hg : Ghosts c w) (r p : ℕ) (hp : c.D.Has r p) (G : Geom K) (ce : Centering)
    (hce : ce = .EC ∨ ce = .FC) (func : ℕ → R3 K → K) (σ : Glob K) : setupScalarField c G ce func σ = none := by
  refine onPatches_none c _ r p hp ?_
  refine Energies.foldlM_none _ _ _ (fun _ => 0) ((hg.visited _).2 fun d => ?_) fun F => ?_
  · have := hg.ldims d
    have hn := hg.nonneg
    by_cases hd : c.gdims d = 1
    · rw [hg.inv d hd]; omega
    · rw [hg.act d hd]; omega
  · rcases hce with rfl | rfl <;> rfl

/-- **C63**, violated for storage with different numbers of ghost points in the directions that are not invariant: the set-up
takes the largest number for all directions and writes outside of the storage of every patch. -/
theorem C63_ghosts_violation (c : Cfg) (hl : ∀ d, 0 < c.ldims d) (hn : ∀ d, 0 ≤ c.ibn d) (r p : ℕ) (hp : c.D.Has r p) (d : Fin 3)
    (hd : c.gdims d ≠ 1) (e : Fin 3) (h : c.ibn d < c.ibn e) (G : Geom K) (func : ℕ → R3 K → K) (σ : Glob K) :
    setupFields c G func σ = none := by
  have hmax : c.ibn e ≤ n_ghosts c := by
    unfold n_ghosts
    fin_cases e <;> simp
  refine onPatches_none c _ r p hp (runPatch_none c G func r p (fun a => if a = d then -n_ghosts c else 0) ?_ ?_ _)
  · rw [mem_visited]
    intro a
    have := hl a
    have := hn e
    have hb : isInvar c d = false := by simp [isInvar, hd]
    by_cases ha : a = d
    · subst ha
      rw [if_pos rfl, hb]
      simp only [Bool.false_eq_true, if_false]
      omega
    · rw [if_neg ha]
      split_ifs <;> omega
  · intro hs
    have := (hs d).1
    simp only [if_true] at this
    omega

end

/-- **C63.** At the start of a periodic run (`setupFields` on freshly allocated fields, then `pre_first_step`), nothing fails
on any rank, and the patches, ghost cells included, hold exactly the initial state of the undivided simulation: the user's
function on the Yee grid of the domain, continued periodically (even if the function is not periodic), with the
particles that were set up. -/
theorem C63_start (S : Setup) (hF : Fit S 2) (w : ℤ) (hg : Ghosts S.c w) (corner : R3 ℝ) (func : ℕ → R3 ℝ → ℝ)
    (prts : ℕ → ℕ → List Push.Prt) :
    ∃ flds, start S.c ⟨S.P.dx, corner⟩ func = some flds ∧
      Represents S ⟨prts, flds⟩ (initial S.problem ⟨S.P.dx, corner⟩ func (globalPrts S prts)) ∧
      ∀ e : Fin 3, Holds S.c flds (JXI + e) fun x => func (JXI + e) (edge ⟨S.P.dx, corner⟩ e (S.problem.wrapI x)) :=
  start_spec hF (le_refl 2) hg corner func prts

/-- **C63.** From the start to any step: a run that starts with the user's functions does what the undivided simulation does
that starts with them. -/
theorem C63_serial (S : Setup) (hc : Scheme S) (hF : Fit S 2) (w : ℤ) (hg : Ghosts S.c w) (corner : R3 ℝ)
    (func : ℕ → R3 ℝ → ℝ) (prts : ℕ → ℕ → List Push.Prt) (hp : PrtsInside S prts) (l : List Pic.StepIn)
    (hl : ∀ i ∈ l, OnlySorts i) :
    ∃ flds s', start S.c ⟨S.P.dx, corner⟩ func = some flds ∧ run S l ⟨prts, flds⟩ = some s' ∧ PrtsInside S s'.prts ∧
      Represents S s' (Serial.run S.problem (l.map corrs) (initial S.problem ⟨S.P.dx, corner⟩ func (globalPrts S prts))) := by
  obtain ⟨flds, h1, h2, -⟩ := start_spec hF (le_refl 2) hg corner func prts
  obtain ⟨s', h3, h4, h5⟩ := C58_serial S hc hF l hl ⟨prts, flds⟩ hp _ h2
  exact ⟨flds, s', h1, h3, h4, h5⟩

/-- **C63.** The same initial functions and particles give the same state after any number of steps, however the domain is
cut into patches and distributed. -/
theorem C63_decomposition (S S' : Setup) (hQ : S.problem = S'.problem) (hc : Scheme S) (hc' : Scheme S') (hF : Fit S 2)
    (hF' : Fit S' 2) (w w' : ℤ) (hg : Ghosts S.c w) (hg' : Ghosts S'.c w') (corner : R3 ℝ) (func : ℕ → R3 ℝ → ℝ)
    (prts prts' : ℕ → ℕ → List Push.Prt) (hp : PrtsInside S prts) (hp' : PrtsInside S' prts')
    (hpp : (globalPrts S prts).Perm (globalPrts S' prts')) (l l' : List Pic.StepIn) (hl : ∀ i ∈ l, OnlySorts i)
    (hl' : ∀ i ∈ l', OnlySorts i) (hll : l.map corrs = l'.map corrs) :
    ∃ flds flds' t t', start S.c ⟨S.P.dx, corner⟩ func = some flds ∧ start S'.c ⟨S'.P.dx, corner⟩ func = some flds' ∧
      run S l ⟨prts, flds⟩ = some t ∧ run S' l' ⟨prts', flds'⟩ = some t' ∧ SameState S S' t t' := by
  obtain ⟨flds, h1, h2, -⟩ := start_spec hF (le_refl 2) hg corner func prts
  obtain ⟨flds', h1', h2', -⟩ := start_spec hF' (le_refl 2) hg' corner func prts'
  have hP : S.P = S'.P := congrArg Serial.Problem.P hQ
  have h3 : Represents S' ⟨prts', flds'⟩ (initial S.problem ⟨S.P.dx, corner⟩ func (globalPrts S prts)) := by
    rw [← hQ, ← hP] at h2'
    exact { h2' with prts := h2'.prts.trans hpp.symm }
  obtain ⟨t, e1, -, q1⟩ := C58_serial S hc hF l hl ⟨prts, flds⟩ hp _ h2
  obtain ⟨t', e2, -, q2⟩ := C58_serial S' hc' hF' l' hl' ⟨prts', flds'⟩ hp' _ h3
  rw [← hQ, ← hll] at q2
  exact ⟨flds, flds', t, t', h1, h1', e1, e2, q1.same hF.valid hF'.valid q2⟩

/-- **C63.** At the start of a run with conducting walls and open boundaries nothing fails either; the patches agree on all
cells of the domain, ghost cells included; the cells they own hold the user's function on the Yee grid (the electric field on
a lower boundary excepted, where it may be changed by the boundary condition); and there is no electric field along walls,
whatever the function says. -/
theorem C63_walls {K : Type} [Field K] (c : Cfg) (g : Fields.GridP K) (b : BndFields.BndP K) (h : BndFields.FitsB c g b)
    (hb : BndFields.Supported b) (w : ℤ) (hg : Ghosts c w) (corner : R3 K) (func : ℕ → R3 K → K) :
    ∃ τ, startB c g b corner func = some τ ∧
      (∀ m, EX ≤ m → m < EX + 6 → ∃ G : I3 → K, Periodic c G ∧ BndFields.HoldsIn c τ m G) ∧
      (∀ r p, c.D.Has r p → ∀ n, Interior c n → ∀ e : Fin 3,
        τ r p (HX + e, n) = func (HX + e) (face ⟨g.dx, corner⟩ e fun d => c.off r p d + n d) ∧
        ((∀ d, d ≠ e → g.inv d = false → c.D.bc d = false → c.off r p d + n d ≠ 0) →
          τ r p (EX + e, n) = func (EX + e) (edge ⟨g.dx, corner⟩ e fun d => c.off r p d + n d))) ∧
      ∀ d, (b.fld_lo d = .conducting → BndFields.NoTangentialLo c d τ) ∧
        (b.fld_hi d = .conducting → BndFields.NoTangentialHi c d τ) := startB_spec h hb hg corner func

/-- **C63.** From the start to any step with conducting walls and open boundaries: no step fails, every particle stays in its
patch, and the divergence of `B` stays that of the user's function. -/
theorem C63_walls_run (S : WallPic.Setup) (hc : WallPic.Scheme S) (hF : WallPic.Fit S) (w : ℤ) (hg : Ghosts S.c w)
    (rad : Option (BndFields.Radiation ℝ)) (corner : R3 ℝ) (func : ℕ → R3 ℝ → ℝ) (prts : ℕ → ℕ → List Push.Prt)
    (hp : WallPic.PrtsOk S prts) (l : List WallPic.StepIn) (hl : ∀ i ∈ l, WallPic.KeepsCharge i) :
    ∃ flds s', startB S.c S.g (S.bnd rad) corner func = some flds ∧ WallPic.run S l ⟨prts, flds⟩ = some s' ∧
      WallPic.PrtsOk S s'.prts ∧
      ∀ r p, S.c.D.Has r p → ∀ n, Interior S.c n → BndFields.InsideUp S.c S.g (fun d => S.c.off r p d + n d) →
        Yee.divH S.g.act S.g.dx (Hof (toFlds (s'.flds r p))) n =
          Yee.divH S.g.act S.g.dx (fun e x => func (HX + e) (face ⟨S.P.dx, corner⟩ e (S.pic.problem.wrapI x)))
            (fun d => S.c.off r p d + n d) := by
  have hB := hF.fitsB rad
  obtain ⟨flds, h1, h2, h3, -⟩ := startB_spec hB (hF.supported rad) hg corner func
  obtain ⟨s', h4, h5, -, h6⟩ := C61_run S hc hF l hl ⟨prts, flds⟩ h2 hp
  refine ⟨flds, s', h1, h4, h5, fun r p hh n hn hx => ?_⟩
  rw [h6 r p hh n hn hx]
  choose G pG hG using fun e : Fin 3 => h2 (HX + e) (by unfold HX EX; omega) (by unfold HX EX; omega)
  refine (BndFields.divH_in hB (H := G) hG hh hn hx).trans ?_
  have key : ∀ (e : Fin 3) m, Stored S.c m → InDomain S.c r p m → G e (fun d => S.c.off r p d + m d) =
      func (HX + e) (face ⟨S.P.dx, corner⟩ e (S.pic.problem.wrapI fun d => S.c.off r p d + m d)) := by
    intro e m hm hd
    refine BndFields.extend hB.ok hB.c_pos (pG e)
      (G' := fun x => func (HX + e) (face ⟨S.P.dx, corner⟩ e (S.pic.problem.wrapI x)))
      (fun x y hxy => ?_) (fun _ => True) (fun _ _ _ _ => trivial) ?_ hh hm hd trivial
    · have : S.pic.problem.wrapI x = S.pic.problem.wrapI y := hxy
      simp only [this]
    · intro r p hh n hn _
      have e1 := hG e r p hh n (interior_stored hB.ok hn) (BndFields.interior_inDomain hB.ok hh hn)
      rw [← e1, (h3 r p hh n hn e).1]
      have : S.pic.problem.wrapI (fun d => S.c.off r p d + n d) = fun d => S.c.off r p d + n d :=
        wrap_interior hF.valid hh hn
      rw [this]
      rfl
  unfold Yee.divH
  have one : ∀ e : Fin 3, Yee.dF S.g.act S.g.dx (G e) e (fun d => S.c.off r p d + n d) = Yee.dF S.g.act S.g.dx
      (fun x => func (HX + e) (face ⟨S.P.dx, corner⟩ e (S.pic.problem.wrapI x))) e (fun d => S.c.off r p d + n d) := by
    intro e
    unfold Yee.dF
    cases hd : S.g.inv e with
    | true => simp [Fields.GridP.act, hd]
    | false =>
      simp only [Fields.GridP.act, hd, Bool.not_false, if_true]
      rw [key e n (interior_stored hB.ok hn) (BndFields.interior_inDomain hB.ok hh hn), ← Fields.shift_add,
        key e _ (hB.shift_stored hn hd (by omega) (by omega)) (BndFields.up_inDomain hB.ok hh hn e (hx e hd))]
  rw [one, one, one]

/-! ### Cases that meet the hypotheses -/

example : Ghosts exPic.c 2 := ⟨by decide, by decide, ⟨1, by decide⟩, by decide, by decide⟩

example : Ghosts exPicOne.c 3 := ⟨by decide, by decide, ⟨1, by decide⟩, by decide, by decide⟩

example : Ghosts exShock.c 2 := ⟨by decide, by decide, ⟨1, by decide⟩, by decide, by decide⟩

/-- 3 ghost points in y, 2 in z -/
def exGhosts : Cfg := ⟨⟨![1, 2, 1], ![false, true, true], .bydim, [1, 1]⟩, ![1, 3, 4], ![0, 3, 2]⟩

example (func : ℕ → R3 ℚ → ℚ) : setupFields exGhosts ⟨![1, 1, 1], ![0, 0, 0]⟩ func fresh = none :=
  C63_ghosts_violation exGhosts (by decide) (by decide) 0 0 ⟨by decide, by decide⟩ 2 (by decide) 1 (by decide) _ _ _

/-- where `E_y` and `H_y` of cell (0, 2, 1) live -/
example : edge (K := ℚ) ⟨![1, 1/2, 1/3], ![0, -1, 5]⟩ 1 ![0, 2, 1] = ![0, 1/4, 16/3] ∧
    face (K := ℚ) ⟨![1, 1/2, 1/3], ![0, -1, 5]⟩ 1 ![0, 2, 1] = ![1/2, 0, 11/2] := by
  constructor <;> funext d <;> fin_cases d <;> norm_num [edge, face, posOf]

end Psc.Props
