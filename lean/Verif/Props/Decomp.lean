import Verif.Lemmas.Serial
import Verif.Props.Pic

/-!
# C58: results do not depend on the domain decomposition
-/

namespace Psc.Props

open Domain Ddc FieldStep Fields Spec Pic Yee

/-- Every state with consistent ghost cells represents a state of the undivided simulation, that with the same particles. -/
theorem C58_represented (S : Setup) (s : State) (h : FieldsAgree S s.flds) :
    ∃ G, G.prts = globalPrts S s.prts ∧ Represents S s G := represented h

/-- **C58.** A periodic run of any number of steps on any number of ranks and patches does what the same simulation does on
one undivided periodic grid: it succeeds on all ranks, and ends up with the same particles (in some order), each in the patch
that holds it, and the same fields in every cell and every ghost cell of every patch. -/
theorem C58_serial (S : Setup) (hc : Scheme S) (hF : Fit S 2) (l : List Pic.StepIn) (hl : ∀ i ∈ l, OnlySorts i)
    (s : State) (hp : PrtsInside S s.prts) (G : Serial.State) (hR : Represents S s G) :
    ∃ s', run S l s = some s' ∧ PrtsInside S s'.prts ∧ Represents S s' (Serial.run S.problem (l.map corrs) G) :=
  run_serial hF (le_refl 2) (hc.soundG hF) l hl hp hR

/-- **C58.** Two runs of the same simulation that differ in how the domain is cut into patches, how the patches are
distributed over ranks, how many ghost points there are and when and how particles are sorted end up in the same state: the
same particles, and the same fields in every cell. -/
theorem C58_decomposition (S S' : Setup) (hQ : S.problem = S'.problem) (hc : Scheme S) (hc' : Scheme S') (hF : Fit S 2)
    (hF' : Fit S' 2) (l l' : List Pic.StepIn) (hl : ∀ i ∈ l, OnlySorts i) (hl' : ∀ i ∈ l', OnlySorts i)
    (hll : l.map corrs = l'.map corrs) (s s' : State) (hs : FieldsAgree S s.flds) (hs' : FieldsAgree S' s'.flds)
    (hp : PrtsInside S s.prts) (hp' : PrtsInside S' s'.prts) (hss : SameState S S' s s') :
    ∃ t t', run S l s = some t ∧ run S' l' s' = some t' ∧ SameState S S' t t' :=
  run_same hF hF' (le_refl 2) (le_refl 2) (hc.soundG hF) (hc'.soundG hF') hQ l l' hl hl' hll s s' hs hs' hp hp' hss

/-- **C58**, partial: the schemes that need more than the drivers guarantee to stay inside the storage of a patch
(`2 dt ≤ dx` in the invariant direction for the split 1vb current in yz; 3 ghost points for 2nd order, see
`C56_esirkepov2_violation`). -/
theorem C58_serial_partial (S : Setup) (w : ℤ) (hc : SchemeIf S w) (hM : Marder1st S) (hF : Fit S w) (l : List Pic.StepIn)
    (hl : ∀ i ∈ l, OnlySorts i) (s : State) (hp : PrtsInside S s.prts) (G : Serial.State) (hR : Represents S s G) :
    ∃ s', run S l s = some s' ∧ PrtsInside S s'.prts ∧ Represents S s' (Serial.run S.problem (l.map corrs) G) :=
  run_serial hF (hc.soundG hF hM).1 (hc.soundG hF hM).2 l hl hp hR

/-- **C58**, partial, as before, for two decompositions. -/
theorem C58_decomposition_partial (S S' : Setup) (hQ : S.problem = S'.problem) (w w' : ℤ) (hc : SchemeIf S w)
    (hc' : SchemeIf S' w') (hM : Marder1st S) (hM' : Marder1st S') (hF : Fit S w) (hF' : Fit S' w')
    (l l' : List Pic.StepIn) (hl : ∀ i ∈ l, OnlySorts i) (hl' : ∀ i ∈ l', OnlySorts i)
    (hll : l.map corrs = l'.map corrs) (s s' : State) (hs : FieldsAgree S s.flds) (hs' : FieldsAgree S' s'.flds)
    (hp : PrtsInside S s.prts) (hp' : PrtsInside S' s'.prts) (hss : SameState S S' s s') :
    ∃ t t', run S l s = some t ∧ run S' l' s' = some t' ∧ SameState S S' t t' :=
  run_same hF hF' (hc.soundG hF hM).1 (hc'.soundG hF' hM').1 (hc.soundG hF hM).2 (hc'.soundG hF' hM').2 hQ l l' hl hl' hll
    s s' hs hs' hp hp' hss

/-! ### Cases that meet the hypotheses -/

/-- `exPic` on a single patch, with more ghost points -/
noncomputable def exPicOne : Setup :=
  { exPic with c := ⟨⟨![1, 1, 1], ![false, true, true], .bydim, [1]⟩, ![1, 6, 4], ![0, 3, 3]⟩ }

example : Scheme exPicOne := .var1_yz rfl rfl rfl

example : exPic.problem = exPicOne.problem := by
  have : exPic.c.gdims = exPicOne.c.gdims := by
    funext d; fin_cases d <;> rfl
  unfold Setup.problem
  rw [this]
  rfl

example : Fit exPicOne 2 where
  valid := ⟨⟨rfl, by decide⟩, by decide⟩
  pos := by decide
  inv := by decide
  act := by
    intro d hd
    fin_cases d
    · exact absurd hd (by decide)
    · exact ⟨rfl, by decide, rfl, rfl, by norm_num [exPicOne, exPic]⟩
    · exact ⟨rfl, by decide, rfl, rfl, by norm_num [exPicOne, exPic]⟩
  gdims := by decide
  dx := by intro d; fin_cases d <;> norm_num [exPicOne, exPic]
  dt := by norm_num [exPicOne, exPic]

example : PrtsInside exPicOne exPicState.prts := by
  intro r p _ q hq d
  unfold exPicState at hq
  simp only at hq
  split_ifs at hq
  · simp only [List.mem_cons, List.not_mem_nil, or_false] at hq
    rcases hq with rfl | rfl <;> fin_cases d <;> norm_num [exPicOne, exPic]
  · simp at hq

/-- the same two particles on two patches and on one -/
example : SameState exPic exPicOne exPicState exPicState := by
  refine ⟨?_, fun _ _ _ _ _ _ _ _ _ _ _ _ _ _ => rfl⟩
  have e1 : Bndp.allPatches exPic.c.D = [(0, 0), (1, 0)] := by decide +kernel
  have e2 : Bndp.allPatches exPicOne.c.D = [(0, 0)] := by decide +kernel
  have o1 : exPic.c.off 0 0 = fun _ => 0 := by funext d; fin_cases d <;> decide +kernel
  have o2 : exPicOne.c.off 0 0 = fun _ => 0 := by funext d; fin_cases d <;> decide +kernel
  unfold globalPrts
  rw [e1, e2]
  simp [exPicState, globalPrt, o1, o2]

/-- sorting backwards in one run, not at all in the other -/
example : OnlySorts ⟨fun _ _ l => l.reverse, [⟨3/4, 2, fun _ _ _ => 5⟩]⟩ := fun _ _ l => List.reverse_perm l

example : corrs ⟨fun _ _ l => l.reverse, [⟨3/4, 2, fun _ _ _ => 5⟩]⟩ = corrs ⟨fun _ _ l => l, [⟨3/4, 2, fun _ _ _ => 0⟩]⟩ := rfl

/-- `exPic` with the split current -/
noncomputable def exPicSplit : Setup := { exPic with cfg := Push.cfgSplit_yz }

example : SchemeIf exPicSplit 2 := .split_yz rfl rfl (by norm_num [exPicSplit, exPic])

example : Marder1st exPicSplit := ⟨fun h => absurd (congrFun h 0) (by decide), fun _ => rfl⟩

end Psc.Props
