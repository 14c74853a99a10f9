import Verif.Lemmas.Moments
import Verif.Spec.Energy

/-!
# C60: moments of the particle distribution
-/

namespace Psc.Props

open Psc Moments Domain Ddc FieldStep Spec

/-- C60: For any decomposition and any particles of charged species inside their patches, the output of a moment succeeds; its
component names are those of the specification; the value of component `m` at any cell of any patch is the density, on the
undivided domain, of the quantity the name stands for, over the particles of the species the name stands for and no others. -/
theorem C60_moments {G : Grid} {C : Code} (h : G.Ok C) (M : Moment) {prts : ℕ → ℕ → List Push.Prt} (hp : G.Holds prts) :
    ∃ τ, item G M C prts = some τ ∧ M.comp_names G.kinds = (M.components G.kinds).map (·.name) ∧
      ∀ (m : ℕ) (hm : m < (M.components G.kinds).length), ∀ r p, G.c.D.Has r p → ∀ n, Interior G.c n →
        τ r p (m, n) = density G C ((M.components G.kinds)[m].what.of G.P) ((G.global prts).filter (M.components G.kinds)[m].of)
          (fun d => G.c.off r p d + n d) := by
  obtain ⟨τ, hτ, hv⟩ := item_spec h M hp
  refine ⟨τ, hτ, comp_names_eq M G.kinds, fun m hm r p hh n hn => ?_⟩
  rw [hv m (by rw [n_comps_eq]; exact hm) r p hh n hn, ← density_filter]
  unfold density valOf
  rw [List.getElem?_eq_getElem hm]
  rfl

/-- C60: Nothing is lost and nothing counted twice: when every direction is periodic, invariant or (cell-centred moments) between
two reflecting walls, the sum of a component over all cells of all patches is the sum over the particles. -/
theorem C60_total {G : Grid} {C : Code} (h : G.Ok C) (hcl : G.Closed C) (M : Moment) {prts : ℕ → ℕ → List Push.Prt}
    (hp : G.Holds prts) :
    ∃ τ, item G M C prts = some τ ∧ ∀ (m : ℕ) (hm : m < (M.components G.kinds).length),
      sumCells G.c (fun r p n => τ r p (m, n)) =
        (((G.global prts).filter (M.components G.kinds)[m].of).map fun q =>
          G.P.fnqs * (M.components G.kinds)[m].what.of G.P q).sum := by
  obtain ⟨τ, hτ, -, hv⟩ := C60_moments h M hp
  refine ⟨τ, hτ, fun m hm => ?_⟩
  rw [sumCells_congr (hv m hm), sumCells_global h.ok h.pos
    (fun x => density G C ((M.components G.kinds)[m].what.of G.P) ((G.global prts).filter (M.components G.kinds)[m].of) x),
    density_total h hcl]
  intro q hq
  exact global_in h hp q (List.mem_of_mem_filter hq)

/-- C60, where the code falls short: the weight of a macro-particle is recovered by dividing its charge by that of its species.
With a single particle of a neutral species anywhere no moment is defined, not even that of the other species. -/
theorem C60_neutral (G : Grid) (M : Moment) (C : Code) (prts : ℕ → ℕ → List Push.Prt) (r p : ℕ) (hh : G.c.D.Has r p)
    (q : Push.Prt) (hq : q ∈ prts r p) (h0 : G.P.q q.kind = 0) : item G M C prts = none := by
  unfold item
  rw [if_neg]
  intro h
  have := h r (List.mem_range.2 hh.1) p (List.mem_range.2 hh.2)
  unfold deposited at this
  rw [neutral_none M C hq h0] at this
  simp at this

/-! ### Cases that meet the hypotheses -/

/-- two patches on two ranks, invariant in x, periodic in y, reflecting walls in z -/
noncomputable def exMomGrid : Grid where
  c := ⟨⟨![1, 1, 2], ![false, true, false], .bydim, [1, 1]⟩, ![1, 4, 3], ![0, 1, 1]⟩
  P := { q := fun k => if k = 0 then -1 else 2, m := fun k => if k = 0 then 1 else 25, dx := ![1, 1/2, 1/3], dt := 1/10, eta := 1, fnqs := 1/100 }
  kinds := ["e", "i"]
  prt_lo := ![.periodic, .periodic, .reflecting]
  prt_hi := ![.periodic, .periodic, .reflecting]

/-- an electron near the lower wall, an ion next to the patch boundary -/
noncomputable def exMomPrts : ℕ → ℕ → List Push.Prt := fun r p =>
  if r = 0 ∧ p = 0 then [⟨![0, 29/20, 1/10], ![0, 5, 0], -1, 0⟩, ⟨![0, 29/20, 9/10], ![0, 0, 1/4], 1, 1⟩] else []

theorem exMom_ok : exMomGrid.Ok .cc1_yz where
  ok := ⟨⟨rfl, by decide⟩, by decide⟩
  pos := by decide
  inv := by decide
  act := by decide
  per := by decide
  dx := by intro d; fin_cases d <;> norm_num [exMomGrid]

theorem exMom_closed : exMomGrid.Closed .cc1_yz := by
  intro d hd; revert hd; fin_cases d <;> simp [exMomGrid, Code.act, Code.isCC, yz]

theorem exMom_holds : exMomGrid.Holds exMomPrts := by
  intro r p _ q hq
  unfold exMomPrts at hq
  split_ifs at hq
  · simp only [List.mem_cons, List.not_mem_nil, or_false] at hq
    rcases hq with rfl | rfl
    · refine ⟨by simp [exMomGrid], by simp [exMomGrid], fun d => ?_⟩
      fin_cases d <;> norm_num [exMomGrid]
    · refine ⟨by simp [exMomGrid], by simp [exMomGrid], fun d => ?_⟩
      fin_cases d <;> norm_num [exMomGrid]
  · simp at hq

example := C60_moments exMom_ok .all exMom_holds
example := C60_total exMom_ok exMom_closed .all exMom_holds

/-- the specification is not vacuous: the ions' number, of the 26 components of the two species -/
example : (Moment.components ["e", "i"] .all).length = 26 ∧ ((Moment.components ["e", "i"] .n).map (·.name)) = ["n_e", "n_i"] := by
  decide

/-- a grid with a neutral species and one particle of it -/
noncomputable def exMomNeutral : Grid := { exMomGrid with P := { exMomGrid.P with q := fun k => if k = 0 then -1 else 0 } }

example : item exMomNeutral .n .cc1_yz exMomPrts = none :=
  C60_neutral _ _ _ _ 0 0 (by constructor <;> decide) ⟨![0, 29/20, 9/10], ![0, 0, 1/4], 1, 1⟩ (by simp [exMomPrts])
    (by simp [exMomNeutral])

end Psc.Props
