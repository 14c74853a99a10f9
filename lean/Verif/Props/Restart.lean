import Verif.Lemmas.Restart
import Verif.Props.BalancedPic

/-!
# C67: runs that are stopped and restarted from checkpoints
-/

namespace Psc.Props

open Domain Ddc FieldStep Fields Spec Pic BalPic Restart

/-- **C67.** A periodic run with load balancing, collisions and Gauss correctors: stop it after any number of steps, restart it
from the checkpoint, on as many ranks, whatever is in the memory of the new processes, stop and restart it again, any number of
times, and let the last process do `n` steps.  If at each time step the processes collide the particles in the same way,
the simulation ends at the same time step, with the same distribution of the patches, and in exactly the same state as the
one that is never stopped: the particles in the same order, and the currents and fields in all cells, ghost cells included. -/
theorem C67_life (deck : Cp.Deck ℝ) (pr : Program) (counts : List ℕ) (hc : Scheme (setup deck pr counts))
    (hF : Fit (setup deck pr counts) 2) (hb : AllBusy (setup deck pr counts)) (f : ℝ) (hf : 0 < f) (inp : ℕ → BStepIn)
    (hi : ∀ t, KeepsCharge (inp t).step) (t : ℕ) (s : State) (hs : AllAgree (setup deck pr counts) s.flds)
    (hp : PrtsInside (setup deck pr counts) s.prts) (l : List Stop)
    (hl : ∀ a ∈ l, (∀ t, SameInput (inp t) (a.inp t)) ∧ a.T.length = counts.length) (n : ℕ) (inp' : ℕ → BStepIn)
    (hi' : ∀ t, SameInput (inp t) (inp' t)) :
    ∃ y y', integrate f inp ((l.map Stop.steps).sum + n) ⟨t, setup deck pr counts, s⟩ = some y ∧
      (life pr deck.curve deck.grid f l ⟨t, setup deck pr counts, s⟩).bind (integrate f inp' n) = some y' ∧
      y'.timestep = y.timestep ∧ y'.S = y.S ∧ Identical y.S y.s y'.s := by
  obtain ⟨u, u', e, e', gu, su, -, -⟩ := life_same (le_refl 2) hf hi l (x := ⟨t, setup deck pr counts, s⟩) rfl
    ⟨hF, hc.soundG hF, hb, hp, hs⟩ (.refl _) hl
  obtain ⟨y, y', q, q', -, sy, -, -⟩ := integrate_same (le_refl 2) hf hi hi' n gu su
  exact ⟨y, y', by rw [integrate_add, e]; exact q, by rw [e']; exact q', sy.timestep, sy.S, sy.s⟩

/-- **C67**, partial: for the schemes that need more than the drivers guarantee, see `C58_serial_partial`. -/
theorem C67_life_partial (deck : Cp.Deck ℝ) (pr : Program) (counts : List ℕ) (w : ℤ) (hc : SchemeIf (setup deck pr counts) w)
    (hM : Marder1st (setup deck pr counts)) (hF : Fit (setup deck pr counts) w) (hb : AllBusy (setup deck pr counts)) (f : ℝ)
    (hf : 0 < f) (inp : ℕ → BStepIn)
    (hi : ∀ t, KeepsCharge (inp t).step) (t : ℕ) (s : State) (hs : AllAgree (setup deck pr counts) s.flds)
    (hp : PrtsInside (setup deck pr counts) s.prts) (l : List Stop)
    (hl : ∀ a ∈ l, (∀ t, SameInput (inp t) (a.inp t)) ∧ a.T.length = counts.length) (n : ℕ) (inp' : ℕ → BStepIn)
    (hi' : ∀ t, SameInput (inp t) (inp' t)) :
    ∃ y y', integrate f inp ((l.map Stop.steps).sum + n) ⟨t, setup deck pr counts, s⟩ = some y ∧
      (life pr deck.curve deck.grid f l ⟨t, setup deck pr counts, s⟩).bind (integrate f inp' n) = some y' ∧
      y'.timestep = y.timestep ∧ y'.S = y.S ∧ Identical y.S y.s y'.s := by
  obtain ⟨u, u', e, e', gu, su, -, -⟩ := life_same (hc.soundG hF hM).1 hf hi l (x := ⟨t, setup deck pr counts, s⟩) rfl
    ⟨hF, (hc.soundG hF hM).2, hb, hp, hs⟩ (.refl _) hl
  obtain ⟨y, y', q, q', -, sy, -, -⟩ := integrate_same (hc.soundG hF hM).1 hf hi hi' n gu su
  exact ⟨y, y', by rw [integrate_add, e]; exact q, by rw [e']; exact q', sy.timestep, sy.S, sy.s⟩

/-- **C67.** Stopped once: `m` steps, a checkpoint, and `n` steps by the process that reads it. -/
theorem C67_once (deck : Cp.Deck ℝ) (pr : Program) (counts : List ℕ) (hc : Scheme (setup deck pr counts))
    (hF : Fit (setup deck pr counts) 2) (hb : AllBusy (setup deck pr counts)) (f : ℝ) (hf : 0 < f) (inp : ℕ → BStepIn)
    (hi : ∀ t, KeepsCharge (inp t).step) (t : ℕ) (s : State) (hs : AllAgree (setup deck pr counts) s.flds)
    (hp : PrtsInside (setup deck pr counts) s.prts) (m n : ℕ) (T : List (Cp.Rank ℝ)) (hT : T.length = counts.length)
    (junk : Cp.Patch ℝ) (fresh : ℕ → I3 → ℝ) (inp' : ℕ → BStepIn) (hi' : ∀ t, SameInput (inp t) (inp' t)) :
    ∃ u v y y', integrate f inp m ⟨t, setup deck pr counts, s⟩ = some u ∧
      restart pr deck.curve junk fresh (Cp.write_checkpoint 9 (ranksOf (deck.grid u.S.c.D.counts u.timestep) u)) T = some v ∧
      v.timestep = t + m ∧ integrate f inp' n v = some y' ∧
      integrate f inp (m + n) ⟨t, setup deck pr counts, s⟩ = some y ∧
      y'.timestep = y.timestep ∧ y'.S = y.S ∧ Identical y.S y.s y'.s := by
  obtain ⟨u, -, e, -, gu, -, tu, ru⟩ := integrate_same (le_refl 2) hf hi (inp' := inp) (fun _ => ⟨rfl, rfl, rfl⟩) m
    (x := ⟨t, setup deck pr counts, s⟩) ⟨hF, hc.soundG hF, hb, hp, hs⟩ (.refl _)
  obtain ⟨v, ev, sv⟩ := restart_spec (le_refl 2) (setup_redistributed ru) gu (hT.trans ru.ranks.symm) junk fresh
  obtain ⟨y, y', q, q', -, sy, -, -⟩ := integrate_same (le_refl 2) hf hi hi' n gu sv
  exact ⟨u, v, y, y', e, ev, sv.timestep.trans tu, q', by rw [integrate_add, e]; exact q, sy.timestep, sy.S, sy.s⟩

/-- **C67.** The fields a run starts with (user's functions, then the exchange of ghost cells) meet the hypothesis of the
theorems. -/
theorem C67_start (S : Setup) (hF : Fit S 2) (w : ℤ) (hg : SetupFields.Ghosts S.c w) (corner : R3 ℝ) (func : ℕ → R3 ℝ → ℝ) :
    ∃ flds, SetupFields.start S.c ⟨S.P.dx, corner⟩ func = some flds ∧ AllAgree S flds := by
  obtain ⟨flds, e, hR, hJ⟩ := SetupFields.start_spec hF (le_refl 2) hg corner func fun _ _ => []
  refine ⟨flds, e, AllAgree.of ?_ hR.perE hR.perH hJ hR.E hR.H⟩
  intro d x y hxy
  have : S.problem.wrapI x = S.problem.wrapI y := hxy
  simp only [this]

/-! ### A case that meets the hypotheses -/

/-- five patches on two ranks, periodic in y and z, invariant in x -/
noncomputable def exResDeck : Cp.Deck ℝ where
  curve := .bydim
  gdims := ![1, 15, 4]
  length := ![1, 15/2, 4/3]
  corner := fun _ => 0
  np := ![1, 5, 1]
  bc := ⟨fun _ => 1, fun _ => 1, fun _ => 1, fun _ => 1⟩
  kinds := [⟨-1, 1, "e"⟩, ⟨1, 25, "i"⟩]
  norm := ⟨1, 1, 1/100, 1, 1, 1, 20, 1, 1, 1, 1, 1⟩
  dt := 1 / 10
  ibn := ![0, 2, 2]

/-- 1vb `var1` in yz -/
noncomputable def exResProg : Program := ⟨Push.cfgVar1_yz, Deposit.nc1_yz, Deposit.nc1_yz⟩

example : Scheme (setup exResDeck exResProg [3, 2]) := .var1_yz rfl rfl rfl

example : AllBusy (setup exResDeck exResProg [3, 2]) := ⟨by decide, by decide⟩

example : Fit (setup exResDeck exResProg [3, 2]) 2 where
  valid := ⟨⟨rfl, rfl⟩, by intro d; fin_cases d <;> decide⟩
  pos := by intro d; fin_cases d <;> decide
  inv := by intro d hd; fin_cases d <;> first | decide | exact absurd hd (by decide)
  act := by
    intro d hd
    fin_cases d
    · exact absurd hd (by decide)
    · exact ⟨by decide, by decide, by decide, by decide,
        by norm_num [setup, setupOf, exResDeck, Cp.Deck.grid, Cp.mkGrid, Cp.mkDomain]⟩
    · exact ⟨by decide, by decide, by decide, by decide,
        by norm_num [setup, setupOf, exResDeck, Cp.Deck.grid, Cp.mkGrid, Cp.mkDomain]⟩
  gdims := by intro d hd; fin_cases d <;> first | decide | exact absurd hd (by decide)
  dx := by intro d; fin_cases d <;> norm_num [setup, setupOf, exResDeck, Cp.Deck.grid, Cp.mkGrid, Cp.mkDomain]
  dt := by norm_num [setup, setupOf, exResDeck, Cp.Deck.grid, Cp.mkGrid]

/-- balancing at every tenth step; the uninterrupted run and the restarted ones find different memory -/
noncomputable def exResInp (junk : ℝ) (t : ℕ) : BStepIn :=
  ⟨t % 10 = 0, none, ⟨fun _ _ l => l.reverse, [⟨3/4, 2, fun _ _ _ => junk⟩]⟩⟩

example (t : ℕ) : SameInput (exResInp 5 t) (exResInp 7 t) := ⟨rfl, rfl, rfl⟩

example (t : ℕ) : KeepsCharge (exResInp 5 t).step := fun _ _ l => (List.reverse_perm l).map _

example : AllAgree (setup exResDeck exResProg [3, 2]) exPicState.flds :=
  fun _ _ => ⟨fun _ => 0, fun _ _ _ => rfl, fun _ _ _ _ _ => rfl⟩

example : PrtsInside (setup exResDeck exResProg [3, 2]) exPicState.prts := by
  intro r p _ q hq d
  unfold exPicState at hq
  simp only at hq
  split_ifs at hq
  · simp only [List.mem_cons, List.not_mem_nil, or_false] at hq
    rcases hq with rfl | rfl <;> fin_cases d <;>
      norm_num [setup, setupOf, exResDeck, Cp.Deck.grid, Cp.mkGrid, Cp.mkDomain]
  · simp at hq

/-- stopped after 12 steps and again after 25 more -/
noncomputable def exResStops : List Stop :=
  [⟨12, exResInp 7, ⟨0, 0, 0, 0⟩, fun _ _ => 3, [⟨exResDeck.grid [3, 2] 0 0, [], []⟩, ⟨exResDeck.grid [3, 2] 0 1, [], []⟩]⟩,
   ⟨25, exResInp 8, ⟨0, 0, 0, 1⟩, fun _ _ => 4, [⟨exResDeck.grid [3, 2] 0 0, [], []⟩, ⟨exResDeck.grid [3, 2] 0 1, [], []⟩]⟩]

example : ∀ a ∈ exResStops, (∀ t, SameInput (exResInp 5 t) (a.inp t)) ∧ a.T.length = [3, 2].length := by
  intro a ha
  simp only [exResStops, List.mem_cons, List.not_mem_nil, or_false] at ha
  rcases ha with rfl | rfl <;> exact ⟨fun t => ⟨rfl, rfl, rfl⟩, rfl⟩

end Psc.Props
