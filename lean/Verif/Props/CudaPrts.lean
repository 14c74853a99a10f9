import Mathlib.Data.Fintype.Pi
import Mathlib.Data.Rat.Floor
import Mathlib.Tactic.FinCases
import Mathlib.Tactic.NormNum
import Verif.Lemmas.CudaPrtsExch

/-!
# C71: particles on the GPU
-/

namespace Psc.Props

open Psc.Cuda Psc.CudaPrts
open Psc.A2 (Prt)

section
variable {K : Type} [Field K] [LinearOrder K] [IsStrictOrderedRing K] [FloorRing K]

/-- **C71, full statement.**  Whatever the operations, what is observed is what the multisets of particles by patch say, and
no operation fails. -/
def C71_full (K : Type) [Field K] [LinearOrder K] [IsStrictOrderedRing K] [FloorRing K] : Prop :=
  ∀ (e : Env K), e.g.Ok → ∀ (l : List (In K × Out K)) (s : State K), Run e (init e) l s → Uses e Abs.init (l.map Prod.fst) →
    Observes e Abs.init l ∧ ∀ i, Usable e (afterAll e Abs.init (l.map Prod.fst)) i → ¬Fails e s i

/-- **C71, partial.**  After any history of injections, pushes, exchanges, reads and removals, every particle injected or
received and not yet handed over is in the storage exactly once: the push kernel handles exactly the particles of each patch,
each in the block its position is in, whatever the order of its threads; an exchange hands over exactly those that have left
their patch; what is read, and the numbers of particles, are the particles of each patch.  No assertion fails and no access is
out of bounds.  Missing from `C71_full`: a second exchange in a row, an exchange after `clear`, and an exchange that leaves the
process without particles (`C71_twice`, `C71_cleared`, `C71_emptied`). -/
theorem C71_history_partial (e : Env K) (hg : e.g.Ok) (l : List (In K × Out K)) (s : State K) (hr : Run e (init e) l s)
    (ha : Allows e Abs.init (l.map Prod.fst)) :
    Observes e Abs.init l ∧
      ∀ i, Allowed e (afterAll e Abs.init (l.map Prod.fst)) i → ¬Fails e s i ∧ ∃ o s', Step e s i o s' := by
  obtain ⟨h1, h2⟩ := run_ok hg (rel_init e) hr ha
  exact ⟨h1, fun i hi => ⟨(good hg h2 hi).2.1, (good hg h2 hi).1⟩⟩

/-- **C71.**  Every sequence of allowed operations can be carried out. -/
theorem C71_runs (e : Env K) (hg : e.g.Ok) (is : List (In K)) (ha : Allows e Abs.init is) :
    ∃ (l : List (In K × Out K)) (s : State K), l.map Prod.fst = is ∧ Run e (init e) l s := by
  have key : ∀ (is : List (In K)) (a : Abs K) (s : State K), Rel e a s → Allows e a is →
      ∃ (l : List (In K × Out K)) (s' : State K), l.map Prod.fst = is ∧ Run e s l s' := by
    intro is
    induction is with
    | nil => exact fun a s _ _ => ⟨[], s, rfl, .nil s⟩
    | cons i is ih =>
      intro a s h ha
      obtain ⟨⟨o, s₁, hs⟩, _, hgood⟩ := good hg h ha.1
      obtain ⟨l, s', h1, h2⟩ := ih _ s₁ (hgood o s₁ hs).2 ha.2
      exact ⟨(i, o) :: l, s', by rw [List.map_cons, h1], .cons hs h2⟩
  exact key is _ _ (rel_init e) ha

open Classical in
/-- **C71.**  The particles of a process are those injected and received less those handed over: their number after any
allowed operations without `clear`. -/
theorem C71_count (e : Env K) (hg : e.g.Ok) (l : List (In K × Out K)) (s : State K) (hr : Run e (init e) l s)
    (ha : Allows e Abs.init (l.map Prod.fst)) (hc : In.clear ∉ l.map Prod.fst) :
    s.n + (l.map leave).sum = ((l.map Prod.fst).map arrive).sum := by
  have hcard : ∀ (q : List (List (Prt K))), q.length = e.g.nPatches →
      q.flatten.length = ((List.range e.g.nPatches).map fun p => Multiset.card (stored (q.getD p []))).sum := by
    intro q hq
    rw [flatten_flat, flat_length, pre, hq]
    congr 1
    refine List.map_congr_left fun p _ => ?_
    simp [stored]
  have hn : ∀ (a : Abs K) (s : State K), Rel e a s →
      s.n = ((List.range e.g.nPatches).map fun p => Multiset.card (a.c p)).sum := by
    intro a s ⟨B, hb, _⟩
    rw [hb.n_patch, pre]
    congr 1
    refine List.map_congr_left fun p hp => ?_
    rw [hb.cont p (List.mem_range.1 hp), Multiset.coe_card]
  have key : ∀ (l : List (In K × Out K)) (a : Abs K) (s s' : State K), Rel e a s → Run e s l s' →
      Allows e a (l.map Prod.fst) → In.clear ∉ l.map Prod.fst →
      s'.n + (l.map leave).sum = s.n + ((l.map Prod.fst).map arrive).sum := by
    intro l
    induction l with
    | nil => intro a s s' _ hr _ _; cases hr; rfl
    | cons io l ih =>
      intro a s s' h hr ha hc
      cases hr with
      | cons hs hr =>
        rename_i s₁ i o
        obtain ⟨ho, hrel⟩ := (good hg h ha.1).2.2 _ _ hs
        rw [List.map_cons, List.mem_cons, not_or] at hc
        have hih := ih _ s₁ s' hrel hr ha.2 hc.2
        simp only [List.map_cons, List.sum_cons]
        have hstep : s₁.n + leave (i, o) = s.n + arrive i := by
          rw [hn _ _ h, hn _ _ hrel]
          cases i with
          | inject ps =>
            cases hs
            simp only [after, Multiset.card_add, leave, arrive]
            rw [hcard ps ha.1.1, List.sum_map_add]
            rfl
          | push mv =>
            cases hs
            simp [after, leave, arrive]
          | exchange recv =>
            cases hs
            rename_i h1 h2
            simp only [after, Multiset.card_add, leave, arrive]
            obtain ⟨o1, o2⟩ := ho
            rw [hcard _ ha.1.2.2.1, hcard _ o1, ← List.sum_map_add, ← List.sum_map_add]
            congr 1
            refine List.map_congr_left fun p hp => ?_
            rw [o2 p (List.mem_range.1 hp)]
            have := congrArg Multiset.card (Multiset.filter_add_not (fun q : Sto K => InPatch e q.x) (a.c p))
            rw [Multiset.card_add] at this
            omega
          | read => cases hs; rfl
          | sizes => cases hs; rfl
          | clear => exact absurd rfl hc.1
        omega
  have := key l _ _ s (rel_init e) hr ha hc
  rw [this, show (init e).n = 0 from rfl, Nat.zero_add]

/-- **C71, violation.**  The ids and tags of particles are not stored: every particle read from the GPU, and every particle
handed over for another patch, has id 0 and tag 0. -/
theorem C71_ids_lost (e : Env K) (s s' : State K) (i : In K) (l : List (List (Prt K))) (h : Step e s i (.prts l) s') :
    ∀ q ∈ l.flatten, q.id = 0 ∧ q.tag = 0 := by
  have hload : ∀ (m : List (Sto K)), ∀ q ∈ m.map load, q.id = 0 ∧ q.tag = 0 := by
    intro m q hq
    obtain ⟨a, _, rfl⟩ := List.mem_map.1 hq
    exact ⟨rfl, rfl⟩
  cases h with
  | exchange h1 h2 =>
    unfold prep at h1
    dsimp only at h1
    split_ifs at h1 with c1 c2
    rw [Option.some.injEq, Prod.mk.injEq] at h1
    intro q hq
    rw [← h1.2, List.mem_flatten] at hq
    obtain ⟨m, hm, hq⟩ := hq
    obtain ⟨p, _, rfl⟩ := List.mem_map.1 hm
    obtain ⟨a, _, rfl⟩ := List.mem_map.1 hq
    exact ⟨rfl, rfl⟩
  | read h =>
    unfold CudaPrts.read getParticles at h
    simp only [Option.bind_eq_bind] at h
    cases hr : reorder s with
    | none => rw [hr] at h; simp at h
    | some s₁ =>
      rw [hr, Option.bind_some] at h
      by_cases hl : s₁.storage.length = s₁.n
      · rw [if_pos hl, Option.bind_some] at h
        simp only at h
        cases ho : getOffsets e s₁ with
        | none => rw [ho] at h; simp at h
        | some off =>
          rw [ho, Option.bind_some] at h
          obtain ⟨out, h1, h2⟩ := Option.bind_eq_some_iff.1 h
          rw [Option.some.injEq, Prod.mk.injEq] at h2
          obtain ⟨rfl, rfl⟩ := h2
          intro q hq
          rw [List.mem_flatten] at hq
          obtain ⟨m, hm, hq⟩ := hq
          obtain ⟨p, _, hp⟩ := mapM_mem h1 m hm
          obtain ⟨a, _, hp⟩ := Option.bind_eq_some_iff.1 hp
          obtain ⟨b, _, hp⟩ := Option.bind_eq_some_iff.1 hp
          split_ifs at hp with hb
          rw [Option.some.injEq] at hp
          rw [← hp] at hq
          exact hload _ q (List.mem_of_mem_drop (List.mem_of_mem_take hq))
      · rw [if_neg hl] at h
        simp at h

end

/-! ## an exchange that leaves the process without particles -/

theorem some_getD' {α : Type} {o : Option α} {d : α} (h : o.isSome = true) : o = some (o.getD d) := by
  cases o with
  | none => simp at h
  | some a => rfl

/-- a process with one patch of one cell, in yz -/
def gpuOneEnv : Env ℚ := ⟨⟨fun _ => 1, fun _ => 1, 1, 1⟩, fun _ => 1⟩

/-- a particle in the middle of the cell -/
def gpuOnePrt : Prt ℚ := ⟨fun _ => 1 / 2, fun _ => 0, 1, 0, 7, 3⟩

/-- a push that moves particles by one cell in y -/
def gpuOneMv : ℕ → Sto ℚ → Sto ℚ := fun _ q => { q with x := ![q.x 0, q.x 1 + 1, q.x 2] }

/-- after the injection -/
def gpuOneS1 : State ℚ := (inject gpuOneEnv (init gpuOneEnv) [gpuOnePrt] [1]).getD (init gpuOneEnv)

/-- what the push kernel handles -/
def gpuOneWork : List (Block × ℕ) := (kernelWork gpuOneS1.off 512 (launches gpuOneEnv)).getD []

/-- after the push -/
def gpuOneS2 : State ℚ := (push gpuOneEnv (fun b => gpuOneMv b.p) gpuOneWork gpuOneS1).getD gpuOneS1

/-- before particles are received -/
def gpuOneS3 : State ℚ × List (List (Prt ℚ)) := (prep gpuOneEnv gpuOneS2).getD (gpuOneS2, [])

/-- after the exchange -/
def gpuOneS4 : State ℚ := (post gpuOneEnv gpuOneS3.1 [[]]).getD gpuOneS2

theorem gpuOneOk : gpuOneEnv.g.Ok := ⟨by decide, by decide, by decide⟩

/-- **C71, violation.**  A process injects a particle, pushes it, and in the exchange the particle leaves and none arrives.
The next exchange, the next read and the next injection then fail (`assert`). -/
theorem C71_emptied : ∃ (e : Env ℚ) (l : List (In ℚ × Out ℚ)) (s : State ℚ), e.g.Ok ∧ Run e (init e) l s ∧
    Uses e Abs.init (l.map Prod.fst) ∧
    (Usable e (afterAll e Abs.init (l.map Prod.fst)) (.exchange [[]]) ∧ Fails e s (.exchange [[]])) ∧
    (Usable e (afterAll e Abs.init (l.map Prod.fst)) .read ∧ Fails e s .read) ∧
    (Usable e (afterAll e Abs.init (l.map Prod.fst)) (.inject [[gpuOnePrt]]) ∧ Fails e s (.inject [[gpuOnePrt]])) := by
  have h1 : inject gpuOneEnv (init gpuOneEnv) [gpuOnePrt] [1] = some gpuOneS1 := some_getD' (by decide +kernel)
  have hw : kernelWork gpuOneS1.off 512 (launches gpuOneEnv) = some gpuOneWork := some_getD' (by decide +kernel)
  have h2 : push gpuOneEnv (fun b => gpuOneMv b.p) gpuOneWork gpuOneS1 = some gpuOneS2 := some_getD' (by decide +kernel)
  have h3 : prep gpuOneEnv gpuOneS2 = some gpuOneS3 := some_getD' (by decide +kernel)
  have h4 : post gpuOneEnv gpuOneS3.1 [[]] = some gpuOneS4 := some_getD' (by decide +kernel)
  have hl : gpuOneWork.mapM (fun w => (pushed gpuOneS1 w.2).map fun q => (w.1, q)) =
      some ((gpuOneWork.mapM fun w => (pushed gpuOneS1 w.2).map fun q => (w.1, q)).getD []) := some_getD' (by decide +kernel)
  have hin : ∀ l ∈ [[gpuOnePrt]], ∀ q ∈ l, InPatch gpuOneEnv q.x := by
    simp only [List.mem_cons, List.not_mem_nil, or_false, forall_eq]
    intro d
    simp only [gpuOnePrt, gpuOneEnv]
    norm_num
  have hre : ∀ l ∈ ([[]] : List (List (Prt ℚ))), ∀ q ∈ l, InPatch gpuOneEnv q.x := by
    simp only [List.mem_cons, List.not_mem_nil, or_false, forall_eq, false_implies, implies_true]
  refine ⟨gpuOneEnv, [(.inject [[gpuOnePrt]], .unit), (.push gpuOneMv, .work _), (.exchange [[]], .prts gpuOneS3.2)], gpuOneS4,
    gpuOneOk, .cons (.inject h1) (.cons (.push (fun b => gpuOneMv b.p) gpuOneWork ⟨_, hw, List.Perm.refl _⟩ (fun _ _ _ => rfl) h2 hl)
      (.cons (.exchange h3 h4) (.nil _))), ?_, ⟨⟨rfl, hre⟩, .prep ?_⟩, ⟨trivial, .read ?_⟩, ⟨⟨rfl, hin, ?_⟩, .inject ?_⟩⟩
  · refine ⟨⟨rfl, hin, ?_⟩, ⟨?_, ?_⟩, ⟨rfl, hre⟩, trivial⟩
    · simp [Abs.init]
    · simp [after]
    · intro _ _ _; rfl
  · rw [← Option.isNone_iff_eq_none]; decide +kernel
  · rw [← Option.isNone_iff_eq_none]; decide +kernel
  · simp [afterAll, after]
  · rw [← Option.isNone_iff_eq_none]; decide +kernel

/-! ## two exchanges in a row -/

/-- a process with two patches of one cell, in yz -/
def gpuTwoEnv : Env ℚ := ⟨⟨fun _ => 1, fun _ => 1, 1, 2⟩, fun _ => 1⟩

/-- another particle, of kind 1 -/
def gpuTwoPrt : Prt ℚ := ⟨fun _ => 1 / 4, fun _ => 0, 1, 1, 8, 3⟩

/-- after the injection of a particle in the second patch -/
def gpuTwoS1 : State ℚ := (inject gpuTwoEnv (init gpuTwoEnv) [gpuOnePrt] [0, 1]).getD (init gpuTwoEnv)

/-- in the first exchange -/
def gpuTwoS2 : State ℚ × List (List (Prt ℚ)) := (prep gpuTwoEnv gpuTwoS1).getD (gpuTwoS1, [])

/-- after the first exchange, in which another particle is received in the first patch -/
def gpuTwoS3 : State ℚ := (post gpuTwoEnv gpuTwoS2.1 [[gpuTwoPrt], []]).getD gpuTwoS1

/-- in the second exchange -/
def gpuTwoS4 : State ℚ × List (List (Prt ℚ)) := (prep gpuTwoEnv gpuTwoS3).getD (gpuTwoS1, [])

/-- after the second exchange, in which nothing is received -/
def gpuTwoS5 : State ℚ := (post gpuTwoEnv gpuTwoS4.1 [[], []]).getD gpuTwoS1

/-- what is read -/
def gpuTwoS6 : State ℚ × List (List (Prt ℚ)) := (CudaPrts.read gpuTwoEnv gpuTwoS5).getD (gpuTwoS1, [])

/-- **C71, violation.**  A particle is injected in the second patch, another is received in the first patch in an exchange;
after a second exchange in which nothing moves the particles have changed places: the one of the second patch is read in the
first patch and the other way round. -/
theorem C71_twice : ∃ (e : Env ℚ) (l : List (In ℚ × Out ℚ)) (s : State ℚ), e.g.Ok ∧ Run e (init e) l s ∧
    Uses e Abs.init (l.map Prod.fst) ∧ ¬Observes e Abs.init l := by
  have h1 : inject gpuTwoEnv (init gpuTwoEnv) [gpuOnePrt] [0, 1] = some gpuTwoS1 := some_getD' (by decide +kernel)
  have h2 : prep gpuTwoEnv gpuTwoS1 = some gpuTwoS2 := some_getD' (by decide +kernel)
  have h3 : post gpuTwoEnv gpuTwoS2.1 [[gpuTwoPrt], []] = some gpuTwoS3 := some_getD' (by decide +kernel)
  have h4 : prep gpuTwoEnv gpuTwoS3 = some gpuTwoS4 := some_getD' (by decide +kernel)
  have h5 : post gpuTwoEnv gpuTwoS4.1 [[], []] = some gpuTwoS5 := some_getD' (by decide +kernel)
  have h6 : CudaPrts.read gpuTwoEnv gpuTwoS5 = some gpuTwoS6 := some_getD' (by decide +kernel)
  have hin : ∀ q : Prt ℚ, q = gpuOnePrt ∨ q = gpuTwoPrt → InPatch gpuTwoEnv q.x := by
    rintro q (rfl | rfl) d
    · simp only [gpuOnePrt, gpuTwoEnv]; norm_num
    · simp only [gpuTwoPrt, gpuTwoEnv]; norm_num
  refine ⟨gpuTwoEnv, [(.inject [[], [gpuOnePrt]], .unit), (.exchange [[gpuTwoPrt], []], .prts gpuTwoS2.2),
    (.exchange [[], []], .prts gpuTwoS4.2), (.read, .prts gpuTwoS6.2)], gpuTwoS6.1, ⟨by decide, by decide, by decide⟩,
    .cons (.inject h1) (.cons (.exchange h2 h3) (.cons (.exchange h4 h5) (.cons (.read h6) (.nil _)))), ?_, ?_⟩
  · refine ⟨⟨rfl, ?_, ?_⟩, ⟨rfl, ?_⟩, ⟨rfl, ?_⟩, trivial, trivial⟩
    · simp only [List.mem_cons, List.not_mem_nil, or_false, forall_eq_or_imp, forall_eq, false_implies, implies_true, true_and]
      exact hin _ (Or.inl rfl)
    · simp [Abs.init]
    · simp only [List.mem_cons, List.not_mem_nil, or_false, forall_eq_or_imp, forall_eq, false_implies, implies_true, and_true]
      exact hin _ (Or.inr rfl)
    · simp only [List.mem_cons, List.not_mem_nil, or_false, forall_eq_or_imp, forall_eq, false_implies, implies_true, and_true]
  · rintro ⟨_, _, _, ⟨_, h⟩, _⟩
    have h7 := h 0 (by decide)
    have h8 : (stored (gpuTwoS6.2.getD 0 [])).map Sto.kind = {0} := by
      show ((((gpuTwoS6.2.getD 0 []).map store).map Sto.kind : List ℕ) : Multiset ℕ) = _
      rw [show ((gpuTwoS6.2.getD 0 []).map store).map Sto.kind = [0] by decide +kernel]
      rfl
    rw [h7] at h8
    simp [after, Abs.init, stored, gpuTwoPrt] at h8
    obtain ⟨a, h9, h10⟩ := h8
    have h11 : a ∈ [a] := List.mem_singleton_self a
    rw [← h9] at h11
    have h12 := List.mem_singleton.1 (List.mem_filter.1 h11).1
    rw [h12] at h10
    simp at h10

/-! ## an exchange after `clear` -/

/-- **C71, violation.**  After `clear` has removed a particle an exchange fails. -/
theorem C71_cleared : ∃ (e : Env ℚ) (l : List (In ℚ × Out ℚ)) (s : State ℚ), e.g.Ok ∧ Run e (init e) l s ∧
    Uses e Abs.init (l.map Prod.fst) ∧ Usable e (afterAll e Abs.init (l.map Prod.fst)) (.exchange [[]]) ∧
    Fails e s (.exchange [[]]) := by
  have h1 : inject gpuOneEnv (init gpuOneEnv) [gpuOnePrt] [1] = some gpuOneS1 := some_getD' (by decide +kernel)
  have hin : ∀ l ∈ [[gpuOnePrt]], ∀ q ∈ l, InPatch gpuOneEnv q.x := by
    simp only [List.mem_cons, List.not_mem_nil, or_false, forall_eq]
    intro d
    simp only [gpuOnePrt, gpuOneEnv]
    norm_num
  refine ⟨gpuOneEnv, [(.inject [[gpuOnePrt]], .unit), (.clear, .unit)], clear gpuOneS1, gpuOneOk,
    .cons (.inject h1) (.cons .clear (.nil _)), ⟨⟨rfl, hin, ?_⟩, trivial, trivial⟩, ⟨rfl, ?_⟩, .prep ?_⟩
  · simp [Abs.init]
  · simp only [List.mem_cons, List.not_mem_nil, or_false, forall_eq, false_implies, implies_true]
  · rw [← Option.isNone_iff_eq_none]; decide +kernel

/-- **C71.**  The full statement is false of the code. -/
theorem C71_not_full : ¬C71_full ℚ := by
  intro h
  obtain ⟨e, l, s, h1, h2, h3, h4⟩ := C71_twice
  exact h4 (h e h1 l s h2 h3).1

/-! ## examples -/

/-- a process with two patches of 1 × 2 × 1 cells, in blocks of one cell -/
def gpuPrtsEnv : Env ℚ := ⟨⟨fun _ => 1, ![1, 2, 1], 1, 2⟩, fun _ => 1⟩

/-- a particle in the upper cell -/
def gpuPrtsUpper : Prt ℚ := ⟨![1 / 2, 3 / 2, 1 / 2], fun _ => 0, 1, 0, 0, 0⟩

/-- inject, push and exchange with a particle that stays, one that leaves and one that arrives, then push again after reading -/
example : gpuPrtsEnv.g.Ok ∧ Allows gpuPrtsEnv Abs.init [.inject [[gpuOnePrt, gpuPrtsUpper], [gpuOnePrt]], .push gpuOneMv,
    .exchange [[], [gpuTwoPrt]], .read, .sizes, .push gpuOneMv, .exchange [[gpuOnePrt], []]] := by
  have hin : ∀ q : Prt ℚ, q = gpuOnePrt ∨ q = gpuTwoPrt ∨ q = gpuPrtsUpper → InPatch gpuPrtsEnv q.x := by
    rintro q (rfl | rfl | rfl) d <;> fin_cases d <;> simp [gpuOnePrt, gpuTwoPrt, gpuPrtsUpper, gpuPrtsEnv] <;> norm_num
  refine ⟨⟨by decide, by decide, by decide⟩, ⟨rfl, ?_, ?_⟩, ⟨?_, fun _ _ _ => rfl⟩, ⟨?_, ?_, rfl, ?_, ?_⟩, trivial, trivial,
    ⟨?_, fun _ _ _ => rfl⟩, ⟨?_, ?_, rfl, ?_, ?_⟩, trivial⟩
  · simp only [List.mem_cons, List.not_mem_nil, or_false, forall_eq_or_imp, forall_eq]
    exact ⟨⟨hin _ (Or.inl rfl), hin _ (Or.inr (Or.inr rfl))⟩, hin _ (Or.inl rfl)⟩
  · simp [Abs.init]
  · simp [after]
  · simp [after, Abs.init]
  · simp [after, Abs.init]
  · simp only [List.mem_cons, List.not_mem_nil, or_false, forall_eq_or_imp, forall_eq, false_implies, implies_true, true_and]
    exact hin _ (Or.inr (Or.inl rfl))
  · intro h
    have h1 := h 1 (by decide)
    exfalso
    have : store gpuTwoPrt ∈ (0 : Multiset (Sto ℚ)) := by
      rw [← h1]
      exact Multiset.mem_add.2 (Or.inr (by simp [stored, store]))
    simp at this
  · simp [after]
  · simp [after]
  · simp [after]
  · simp only [List.mem_cons, List.not_mem_nil, or_false, forall_eq_or_imp, forall_eq, false_implies, implies_true, and_true]
    exact hin _ (Or.inl rfl)
  · intro h
    have h1 := h 0 (by decide)
    exfalso
    have : store gpuOnePrt ∈ (0 : Multiset (Sto ℚ)) := by
      rw [← h1]
      exact Multiset.mem_add.2 (Or.inr (by simp [stored, store]))
    simp at this

end Psc.Props
