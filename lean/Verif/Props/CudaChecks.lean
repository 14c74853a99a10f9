import Verif.Lemmas.CudaChecks
import Verif.Props.CudaPrts

/-!
# C104: self-checks of the particles on the GPU
-/

namespace Psc.Props

open Psc.Cuda Psc.CudaPrts
open Psc.A2 (Prt)

section
variable {K : Type} [Field K] [LinearOrder K] [IsStrictOrderedRing K] [FloorRing K]

/-- **C104.**  `check_ordered` answers yes exactly for the states in which the ranges of the blocks follow each other from 0 to the
number of particles and have particles of their block only, in any state. -/
theorem C104_ordered (e : Env K) (hg : e.g.Ok) (s : State K) : checkOrdered e s = some true ↔ IsOrdered e s :=
  checkOrdered_true hg

/-- **C104.**  `check_in_patch_unordered_slow` answers yes exactly if the sizes of the patches sum up to the number of particles
and every particle in the storage is in its patch. -/
theorem C104_in_patch (e : Env K) (hg : e.g.Ok) (s : State K) (sz : List ℕ) (h : sizeByPatch e s = some sz) :
    checkInPatch e s = some true ↔ sz.sum = s.n ∧ ∀ (p k m : ℕ), sz[p]? = some m → k < m →
      ∃ q, s.storage[(sz.take p).sum + k]? = some q ∧ InPatch e q.x :=
  checkPatches_true h fun _ _ hp => inPatchOne_true hg hp

/-- **C104.**  `check_bidx_id_unordered_slow` answers yes exactly if the sizes of the patches sum up to the number of particles,
every particle in the storage is in the block it has the number of, and the indices enumerate the particles. -/
theorem C104_bidx_id (e : Env K) (hg : e.g.Ok) (s : State K) (sz : List ℕ) (h : sizeByPatch e s = some sz) :
    checkBidxId e s = some true ↔ sz.sum = s.n ∧ ∀ (p k m : ℕ), sz[p]? = some m → k < m →
      ∃ q b, s.storage[(sz.take p).sum + k]? = some q ∧ s.idx[(sz.take p).sum + k]? = some b ∧
        s.id[(sz.take p).sum + k]? = some ((sz.take p).sum + k) ∧ OfBlock e p b q.x :=
  checkPatches_true h fun _ _ _ => bidxIdOne_true hg

/-- **C104.**  After any history of operations, unless the last one that matters is a push, `check_ordered` answers yes. -/
theorem C104_ordered_history (e : Env K) (hg : e.g.Ok) (l : List (In K × Out K)) (s : State K) (hr : Run e (init e) l s)
    (ha : Allows e Abs.init (l.map Prod.fst)) (hph : (afterAll e Abs.init (l.map Prod.fst)).ph ≠ .pushed) :
    checkOrdered e s = some true :=
  (checkOrdered_true hg).2 (ordered_rel hg (run_ok hg (rel_init e) hr ha).2 hph)

/-- **C104, partial.**  After any history of operations, unless the last one that matters is an exchange,
`check_in_patch_unordered_slow` answers yes exactly if every particle is in its patch.  Missing: after an exchange
(`C104_in_patch_violation`). -/
theorem C104_in_patch_history_partial (e : Env K) (hg : e.g.Ok) (l : List (In K × Out K)) (s : State K) (hr : Run e (init e) l s)
    (ha : Allows e Abs.init (l.map Prod.fst)) (hph : (afterAll e Abs.init (l.map Prod.fst)).ph ≠ .exchanged) :
    checkInPatch e s = some true ↔
      ∀ p < e.g.nPatches, ∀ q ∈ (afterAll e Abs.init (l.map Prod.fst)).c p, InPatch e q.x :=
  inPatch_rel hg (run_ok hg (rel_init e) hr ha).2 hph

/-- **C104, partial.**  After a push, whatever the history before it, `check_after_push` answers, and it answers yes exactly if no
particle of a patch other than the first has left its patch.  The property is that it answers yes: the block numbers are
right (`C104_after_push_violation`). -/
theorem C104_after_push_partial (e : Env K) (hg : e.g.Ok) (l : List (In K × Out K)) (s : State K) (hr : Run e (init e) l s)
    (ha : Allows e Abs.init (l.map Prod.fst)) (hph : (afterAll e Abs.init (l.map Prod.fst)).ph = .pushed) :
    ∃ r, checkAfterPush e s = some r ∧ (r = true ↔
      ∀ p < e.g.nPatches, 0 < p → ∀ q ∈ (afterAll e Abs.init (l.map Prod.fst)).c p, InPatch e q.x) :=
  afterPush_rel hg (run_ok hg (rel_init e) hr ha).2 hph

end

/-! ## a particle of the second patch leaves it, another arrives in the first patch -/

/-- what the push kernel handles -/
def chkWork : List (Block × ℕ) := (kernelWork gpuTwoS1.off 512 (launches gpuTwoEnv)).getD []

/-- after the push -/
def chkS2 : State ℚ := (push gpuTwoEnv (fun b => gpuOneMv b.p) chkWork gpuTwoS1).getD gpuTwoS1

/-- in the exchange -/
def chkS3 : State ℚ × List (List (Prt ℚ)) := (prep gpuTwoEnv chkS2).getD (chkS2, [])

/-- after the exchange -/
def chkS4 : State ℚ := (post gpuTwoEnv chkS3.1 [[gpuTwoPrt], []]).getD chkS2

theorem chkOk : gpuTwoEnv.g.Ok := ⟨by decide, by decide, by decide⟩

/-- what the push kernel has handled -/
def chkL : List (Block × Sto ℚ) := (chkWork.mapM fun w => (pushed gpuTwoS1 w.2).map fun q => (w.1, q)).getD []

theorem chkIn : ∀ l ∈ [[], [gpuOnePrt]], ∀ q ∈ l, InPatch gpuTwoEnv q.x := by
  intro l hl q hq
  simp only [List.mem_cons, List.not_mem_nil, or_false] at hl
  rcases hl with rfl | rfl
  · simp at hq
  · simp only [List.mem_cons, List.not_mem_nil, or_false] at hq
    subst hq
    intro d
    simp only [gpuOnePrt, gpuTwoEnv]
    norm_num

theorem chkRecv : ∀ l ∈ [[gpuTwoPrt], []], ∀ q ∈ l, InPatch gpuTwoEnv q.x := by
  intro l hl q hq
  simp only [List.mem_cons, List.not_mem_nil, or_false] at hl
  rcases hl with rfl | rfl
  · simp only [List.mem_cons, List.not_mem_nil, or_false] at hq
    subst hq
    intro d
    simp only [gpuTwoPrt, gpuTwoEnv]
    norm_num
  · simp at hq

theorem chkRun1 : Run gpuTwoEnv (init gpuTwoEnv) [(.inject [[], [gpuOnePrt]], .unit)] gpuTwoS1 :=
  .cons (.inject (some_getD' (by decide +kernel))) (.nil _)

theorem chkPush : Step gpuTwoEnv gpuTwoS1 (.push gpuOneMv) (.work chkL) chkS2 :=
  .push (fun b => gpuOneMv b.p) chkWork ⟨_, some_getD' (by decide +kernel), List.Perm.refl _⟩ (fun _ _ _ => rfl)
    (some_getD' (by decide +kernel)) (some_getD' (by decide +kernel))

theorem chkRun2 : Run gpuTwoEnv (init gpuTwoEnv) [(.inject [[], [gpuOnePrt]], .unit), (.push gpuOneMv, .work chkL)] chkS2 :=
  .cons (.inject (some_getD' (by decide +kernel))) (.cons chkPush (.nil _))

theorem chkRun3 : Run gpuTwoEnv (init gpuTwoEnv) [(.inject [[], [gpuOnePrt]], .unit), (.push gpuOneMv, .work chkL),
    (.exchange [[gpuTwoPrt], []], .prts chkS3.2)] chkS4 :=
  .cons (.inject (some_getD' (by decide +kernel))) (.cons chkPush
    (.cons (.exchange (some_getD' (by decide +kernel)) (some_getD' (by decide +kernel))) (.nil _)))

theorem chkAllows : Allows gpuTwoEnv Abs.init [.inject [[], [gpuOnePrt]], .push gpuOneMv, .exchange [[gpuTwoPrt], []]] := by
  refine ⟨⟨rfl, chkIn, by simp [Abs.init]⟩, ⟨by simp [after], fun _ _ _ => rfl⟩, ⟨by simp [after], by simp [after], rfl, chkRecv, ?_⟩, trivial⟩
  intro h
  have := congrArg Multiset.card (h 0 (by decide))
  simp [after, stored] at this

theorem chkAllows2 : Allows gpuTwoEnv Abs.init [.inject [[], [gpuOnePrt]], .push gpuOneMv] :=
  ⟨chkAllows.1, chkAllows.2.1, trivial⟩

/-- the hypotheses of `C104_ordered_history` are met after the exchange, with a particle, and those of
`C104_in_patch_history_partial` and `C104_after_push_partial` before it -/
example : checkOrdered gpuTwoEnv chkS4 = some true ∧ chkS4.n = 1 ∧ chkS4.need = true ∧
    (checkInPatch gpuTwoEnv chkS2 = some true ↔ ∀ p < 2, ∀ q ∈
      (afterAll gpuTwoEnv Abs.init [.inject [[], [gpuOnePrt]], .push gpuOneMv]).c p, InPatch gpuTwoEnv q.x) ∧
    ∃ r, checkAfterPush gpuTwoEnv chkS2 = some r :=
  ⟨C104_ordered_history _ chkOk _ _ chkRun3 chkAllows (by simp [afterAll, after]), by decide +kernel, by decide +kernel,
    C104_in_patch_history_partial _ chkOk _ _ chkRun2 chkAllows2 (by simp [afterAll, after]),
    (C104_after_push_partial _ chkOk _ _ chkRun2 chkAllows2 (by simp [afterAll, after])).imp fun _ h => h.1⟩

/-- the checks also say no: after the push the particle is not in a block of its patch -/
example : checkOrdered gpuTwoEnv chkS2 = some false ∧ checkInPatch gpuTwoEnv chkS2 = some false ∧
    checkOrdered gpuTwoEnv gpuTwoS1 = some true ∧ checkInPatch gpuTwoEnv gpuTwoS1 = some true ∧
    checkBidxId gpuTwoEnv gpuTwoS1 = some true ∧ sizeByPatch gpuTwoEnv gpuTwoS1 = some [0, 1] := by
  decide +kernel

/-- **C104, violation.**  A particle of the second patch is pushed out of it.  The push gives it the right number, which the
exchange then uses to hand it over, but `check_after_push` answers no: it expects the number of the first patch. -/
theorem C104_after_push_violation : ∃ (e : Env ℚ) (l : List (In ℚ × Out ℚ)) (s : State ℚ), e.g.Ok ∧ Run e (init e) l s ∧
    Allows e Abs.init (l.map Prod.fst) ∧ (afterAll e Abs.init (l.map Prod.fst)).ph = .pushed ∧
    checkAfterPush e s = some false ∧ ∃ (s' : State ℚ) (sent : List (List (Prt ℚ))), prep e s = some (s', sent) ∧ sent.map List.length = [0, 1] :=
  ⟨gpuTwoEnv, _, chkS2, chkOk, chkRun2, chkAllows2, by simp [afterAll, after], by decide +kernel, chkS3.1, chkS3.2,
    some_getD' (by decide +kernel), by decide +kernel⟩

/-- **C104, violation.**  After an exchange `check_in_patch_unordered_slow` looks at a particle that has been handed over and
answers no, although every particle of the process is in its patch. -/
theorem C104_in_patch_violation : ∃ (e : Env ℚ) (l : List (In ℚ × Out ℚ)) (s : State ℚ), e.g.Ok ∧ Run e (init e) l s ∧
    Allows e Abs.init (l.map Prod.fst) ∧
    (∀ p < e.g.nPatches, ∀ q ∈ (afterAll e Abs.init (l.map Prod.fst)).c p, InPatch e q.x) ∧
    checkInPatch e s = some false := by
  refine ⟨gpuTwoEnv, _, chkS4, chkOk, chkRun3, chkAllows, ?_, by decide +kernel⟩
  intro p hp q hq
  simp only [List.map_cons, List.map_nil, afterAll, List.foldl_cons, List.foldl_nil, after, Multiset.mem_add,
    Multiset.mem_filter] at hq
  rcases hq with hq | hq
  · exact hq.2
  · have hp : p < 2 := hp
    have h0 : InPatch gpuTwoEnv gpuTwoPrt.x := chkRecv [gpuTwoPrt] (by simp) _ (by simp)
    obtain rfl | rfl : p = 0 ∨ p = 1 := by omega
    · simp [stored] at hq
      subst hq
      exact h0
    · simp [stored] at hq

/-- a state whose list of indices has one of its two particles twice and the other not at all -/
def chkLost : State ℚ :=
  { storage := [store gpuOnePrt, store gpuTwoPrt], alt := [], idx := [0, 0], id := [0, 0], off := [0, 2], n := 2, need := true }

/-- **C104, violation.**  `check_ordered` answers yes for a state in which the list of indices has one particle twice and another
not at all: putting the particles in order then loses a particle. -/
theorem C104_lost_violation : ∃ (e : Env ℚ) (s s' : State ℚ), e.g.Ok ∧ checkOrdered e s = some true ∧ reorder s = some s' ∧
    s.storage.map Sto.kind = [0, 1] ∧ s'.storage.map Sto.kind = [0, 0] :=
  ⟨gpuOneEnv, chkLost, (reorder chkLost).getD chkLost, gpuOneOk, by decide +kernel, some_getD' (by decide +kernel),
    by decide +kernel, by decide +kernel⟩

end Psc.Props
