import Verif.Lemmas.Checkpoint
import Mathlib.Tactic.NormNum

/-!
# C32 (checkpoint round trip) and C33 (checkpoint schedule)
-/

namespace Psc.Props

open Psc.Cp Psc.Domain

section

variable {K : Type} [Field K]

/-- **C32 (what is stored).** Reading a checkpoint back on as many ranks as wrote it succeeds, whatever the
ranks held before and whatever the number of patches they had: every rank gets its grid (except the members not
stored: inverse cell size, three members of the normalisation, the patches' cell size), exactly its particles,
patch by patch in order, and its fields at every interior point. -/
theorem C32_stored (deck : Deck K) (counts : List ℕ) (t n_comps : ℕ) (S T : List (Rank K))
    (hok : deck.Ok counts) (hS : Holds deck counts t S) (hne : S ≠ []) (hT : T.length = S.length)
    (junk : Patch K) (fresh : ℕ → I3 → K) :
    ∃ S', read_checkpoint deck.curve n_comps junk fresh (write_checkpoint n_comps S) T = some S' ∧
      S'.length = S.length ∧
      ∀ (r : ℕ) (s s' : Rank K), S[r]? = some s → S'[r]? = some s' →
        SameStored s.grid s'.grid ∧ s'.mprts = s.mprts ∧
        List.Forall₂ (SameInterior n_comps s.grid.ldims) s'.mflds s.mflds := by
  cases S with
  | nil => exact absurd rfl hne
  | cons s0 S =>
    refine ⟨_, read_write n_comps hS T hT junk fresh, by rw [List.length_zipWith]; omega, ?_⟩
    intro r s s' hs hs'
    obtain ⟨hr', hs'⟩ := List.getElem?_eq_some_iff.1 hs'
    have hr := (List.getElem?_eq_some_iff.1 hs).1
    rw [List.length_zipWith] at hr'
    rw [List.getElem_zipWith, (List.getElem?_eq_some_iff.1 hs).2] at hs'
    subst hs'
    exact ⟨⟨rfl, rfl, rfl, rfl, rfl, restored_patches _ _ _, rfl, rfl, rfl, rfl⟩, rfl,
      restored_interior n_comps hok hS r s _ hs junk fresh⟩

/-- **C32 (restart).** If the restarted run set up its grid from the same deck with the same number of patches on
every rank, then after reading the checkpoint every rank holds exactly the grid, particles and interior fields that
were written.  (Full property: without the condition on the number of patches; see `C32_violation`.) -/
theorem C32_restart_partial (deck : Deck K) (counts : List ℕ) (t t' n_comps : ℕ) (S T : List (Rank K))
    (hok : deck.Ok counts) (hS : Holds deck counts t S) (hne : S ≠ []) (hT : Holds deck counts t' T)
    (junk : Patch K) (fresh : ℕ → I3 → K) :
    ∃ S', read_checkpoint deck.curve n_comps junk fresh (write_checkpoint n_comps S) T = some S' ∧
      List.Forall₂ (SameRank n_comps) S S' := by
  have hlen : T.length = S.length := by rw [hS.len, hT.len]
  cases S with
  | nil => exact absurd rfl hne
  | cons s0 S =>
    refine ⟨_, read_write n_comps hS T hlen junk fresh, ?_⟩
    rw [List.forall₂_iff_get]
    refine ⟨by rw [List.length_zipWith]; omega, fun r hr hr' => ?_⟩
    have hrT : r < T.length := by omega
    simp only [List.get_eq_getElem, List.getElem_zipWith]
    have hs := List.getElem?_eq_getElem hr
    refine ⟨?_, rfl, restored_interior n_comps hok hS r _ _ hs junk fresh⟩
    show restoredGrid ((s0 :: S)[r]).grid (T[r]).grid junk = _
    rw [hS.grid r _ hs, hT.grid r _ (List.getElem?_eq_getElem hrT)]
    have hpat : List.zipWith (fun p q => setPatch p q.off q.xb q.xe)
        (resizePatches (deck.grid counts t' r).patches (deck.grid counts t r).patches.length junk)
        (deck.grid counts t r).patches = (deck.grid counts t r).patches := by
      have he : (deck.grid counts t' r).patches = (deck.grid counts t r).patches := rfl
      rw [he]
      have : resizePatches (deck.grid counts t r).patches (deck.grid counts t r).patches.length junk
          = (deck.grid counts t r).patches := by simp [resizePatches]
      rw [this]
      refine List.ext_getElem (by simp) fun i h1 h2 => ?_
      simp [setPatch]
    unfold restoredGrid
    rw [hpat]
    rfl

/-- **C32 (continuation).** Hence, for any time step that is determined by the grid, the particles and the interior
fields (the ghost points are refilled before the first step), running on from the restored state gives, after any
number of steps, the same grid, particles and interior fields as running on from the state that was written. -/
theorem C32_continue_partial (deck : Deck K) (counts : List ℕ) (t t' n_comps : ℕ) (S T : List (Rank K))
    (hok : deck.Ok counts) (hS : Holds deck counts t S) (hne : S ≠ []) (hT : Holds deck counts t' T)
    (junk : Patch K) (fresh : ℕ → I3 → K) (step : List (Rank K) → List (Rank K))
    (hstep : ∀ A B, List.Forall₂ (SameRank n_comps) A B → List.Forall₂ (SameRank n_comps) (step A) (step B))
    (n : ℕ) :
    ∃ S', read_checkpoint deck.curve n_comps junk fresh (write_checkpoint n_comps S) T = some S' ∧
      List.Forall₂ (SameRank n_comps) (step^[n] S) (step^[n] S') := by
  obtain ⟨S', h1, h2⟩ := C32_restart_partial deck counts t t' n_comps S T hok hS hne hT junk fresh
  refine ⟨S', h1, ?_⟩
  clear h1 hT hS hne
  induction n generalizing S S' with
  | zero => exact h2
  | succ n ih => exact ih (step S) (step S') (hstep _ _ h2)

end

/-- four patches along `x` -/
def exDeck : Deck ℚ where
  curve := .bydim
  gdims := ![8, 1, 1]
  length := ![16, 1, 1]
  corner := fun _ => 0
  np := ![4, 1, 1]
  bc := ⟨fun _ => 1, fun _ => 1, fun _ => 1, fun _ => 1⟩
  kinds := [⟨-1, 1, "e"⟩, ⟨1, 100, "i"⟩]
  norm := ⟨1, 1, 1, 1, 1, 1, 20, 1, 1, 1, 1, 1⟩
  dt := 1 / 2
  ibn := ![2, 0, 0]

/-- two ranks with the given numbers of patches, no particles except one in the first patch of each rank, and
fields equal to the patch number -/
def exRanks (counts : List ℕ) (t : ℕ) : List (Rank ℚ) :=
  (List.range counts.length).map fun r =>
    { grid := exDeck.grid counts t r
      mprts := (List.range (counts.getD r 0)).map fun p =>
        if p = 0 then [⟨![1, 1 / 2, 1 / 2], fun _ => 1 / 3, 1, 1, 5, 0⟩] else []
      mflds := (List.range (counts.getD r 0)).map fun p _ _ => (p : ℚ) }

theorem exRanks_holds (counts : List ℕ) (t : ℕ) : Holds exDeck counts t (exRanks counts t) := by
  refine ⟨by simp [exRanks], ?_, ?_, ?_⟩
  · intro r s h
    simp only [exRanks, List.getElem?_map, Option.map_eq_some_iff] at h
    obtain ⟨a, ha, rfl⟩ := h
    rw [List.getElem?_eq_some_iff] at ha
    obtain ⟨_, rfl⟩ := ha
    simp
  all_goals
    intro s hs
    simp only [exRanks, List.mem_map] at hs
    obtain ⟨r, _, rfl⟩ := hs
    simp [deck_patches_length]

/-- the hypotheses of `C32_stored`, `C32_restart_partial` are met -/
example : exDeck.Ok [1, 3] ∧ Holds exDeck [1, 3] 7 (exRanks [1, 3] 7) ∧ exRanks [1, 3] 7 ≠ [] ∧
    Holds exDeck [1, 3] 0 (exRanks [1, 3] 0) :=
  ⟨⟨rfl, rfl⟩, exRanks_holds _ _, by simp [exRanks], exRanks_holds _ _⟩

/-- **C32 is violated** for a checkpoint written after the load balancer moved patches: the restarted run sets up
its grid with the default distribution (two patches on each of two ranks), and a rank that owns more patches in the
checkpoint (one and three) finds patches whose cell size was never set, so that the coordinates computed for those
patches are not the ones they had. -/
theorem C32_violation :
    ∃ (deck : Deck ℚ) (counts : List ℕ) (S T : List (Rank ℚ)) (junk : Patch ℚ) (fresh : ℕ → I3 → ℚ)
      (S' : List (Rank ℚ)) (s s' : Rank ℚ) (p p' : Patch ℚ),
      deck.Ok counts ∧ Holds deck counts 7 S ∧ S ≠ [] ∧
      Holds deck (uniform_counts (deck.np 0 * deck.np 1 * deck.np 2) S.length) 0 T ∧
      read_checkpoint deck.curve 9 junk fresh (write_checkpoint 9 S) T = some S' ∧
      S[1]? = some s ∧ S'[1]? = some s' ∧ s.grid.patches[2]? = some p ∧ s'.grid.patches[2]? = some p' ∧
      p'.get_cc 0 0 ≠ p.get_cc 0 0 := by
  have hT : Holds exDeck (uniform_counts (exDeck.np 0 * exDeck.np 1 * exDeck.np 2) (exRanks [1, 3] 7).length) 0
      (exRanks [2, 2] 0) := exRanks_holds _ _
  refine ⟨exDeck, [1, 3], exRanks [1, 3] 7, exRanks [2, 2] 0, ⟨0, 0, 0, 0⟩, fun _ _ => 0, _, _, _, _, _,
    ⟨rfl, rfl⟩, exRanks_holds _ _, by simp [exRanks], hT,
    read_write 9 (exRanks_holds [1, 3] 7) (exRanks [2, 2] 0) rfl ⟨0, 0, 0, 0⟩ fun _ _ => 0, rfl, rfl, rfl, rfl, ?_⟩
  simp [Patch.get_cc, setPatch, Deck.grid, mkGrid, mkDomain, exDeck, Decomp.off]

/-! ## C33 -/

/-- the timesteps from `a` (included) to `b` (excluded) -/
def stepsFrom (a b : ℕ) : List ℕ := (List.range (b - a)).map (a + ·)

/-- The timestep at which a run that starts at `t` ends: at `nmax`, or after the first step that exceeds the
wallclock limit. -/
def EndsAt (stop : ℕ → Bool) (t nmax e : ℕ) : Prop :=
  t ≤ e ∧ (∀ k, t < k → k < e → stop k = false) ∧
    (e = max t nmax ∨ t < e ∧ e < nmax ∧ stop e = true)

theorem integrate_disabled (stop : ℕ → Bool) (n t : ℕ) (cp : Checkpointing) (h : cp.interval ≤ 0) :
    integrate stop n t cp = [] := by
  induction n generalizing t with
  | zero => simp [integrate, Checkpointing.final, h]
  | succ n ih => simp [integrate, Checkpointing.final, Checkpointing.call, h, ih]

theorem integrate_running (stop : ℕ → Bool) (n t e : ℕ) (cp : Checkpointing) (h : 0 < cp.interval)
    (hf : cp.first_time = false) (he : EndsAt stop t (t + n) e) :
    integrate stop n t cp = ((stepsFrom t e).filter fun k : ℕ => (k : ℤ) % cp.interval = 0) ++ [e] := by
  induction n generalizing t with
  | zero =>
    have : e = t := by
      rcases he.2.2 with h | h <;> omega
    subst this
    simp [integrate, Checkpointing.final, stepsFrom, h.not_ge]
  | succ n ih =>
    have hte : t < e := by
      rcases he.2.2 with h | h <;> omega
    have hst : stepsFrom t e = t :: stepsFrom (t + 1) e := by
      unfold stepsFrom
      have : e - t = (e - (t + 1)) + 1 := by omega
      rw [this, List.range_succ_eq_map]
      simp [Function.comp_def, add_assoc, add_comm 1]
    have htm : (t : ℤ).tmod cp.interval = (t : ℤ) % cp.interval := Int.tmod_eq_emod_of_nonneg (by omega)
    rw [integrate, hst]
    simp only [Checkpointing.call, h.not_ge, if_false, hf, Bool.false_eq_true, htm]
    by_cases hstop : stop (t + 1) = true
    · have he1 : e = t + 1 := by
        by_contra hne
        have := he.2.1 (t + 1) (by omega) (by omega)
        rw [hstop] at this; cases this
      subst he1
      simp only [hstop, if_true, Checkpointing.final, h.not_ge, decide_false, Bool.not_false]
      simp [stepsFrom, List.filter_cons]
    · rw [if_neg hstop, ih (t + 1) ⟨by omega, fun k h1 h2 => he.2.1 k (by omega) h2, ?_⟩]
      · simp only [List.filter_cons]
        by_cases hm : (t : ℤ) % cp.interval = 0 <;> simp [hm]
      · rcases he.2.2 with h1 | ⟨_, h2, h3⟩
        · left; omega
        · right
          refine ⟨?_, by omega, h3⟩
          by_contra hne
          have : e = t + 1 := by omega
          rw [this] at h3; exact hstop h3

/-- **C33.** A run (or a restarted run) that starts at timestep `t` and ends at timestep `e`, with a positive
checkpoint interval `n`, writes a checkpoint at exactly the timesteps strictly between `t` and `e` that are multiples of
`n`, in order, and one at the end; never at its own start unless it ends right there. -/
theorem C33_schedule (stop : ℕ → Bool) (t nmax e : ℕ) (n : ℤ) (hn : 0 < n) (he : EndsAt stop t nmax e) :
    integrate stop (nmax - t) t { interval := n } =
      ((stepsFrom (t + 1) e).filter fun k : ℕ => (k : ℤ) % n = 0) ++ [e] := by
  rcases Nat.lt_or_ge t nmax with hlt | hge
  · obtain ⟨k, rfl⟩ : ∃ k, nmax = t + k + 1 := ⟨nmax - t - 1, by omega⟩
    have hte : t < e := by rcases he.2.2 with h | h <;> omega
    have : t + k + 1 - t = k + 1 := by omega
    rw [this, integrate]
    simp only [Checkpointing.call, hn.not_ge, if_false, if_true]
    by_cases hstop : stop (t + 1) = true
    · have he1 : e = t + 1 := by
        by_contra hne
        have := he.2.1 (t + 1) (by omega) (by omega)
        rw [hstop] at this; cases this
      subst he1
      simp [hstop, Checkpointing.final, hn.not_ge, stepsFrom]
    · rw [if_neg hstop]
      rw [integrate_running stop k (t + 1) e { interval := n, first_time := false } hn rfl
        ⟨by omega, fun k h1 h2 => he.2.1 k (by omega) h2, ?_⟩]
      · simp
      · rcases he.2.2 with h1 | ⟨_, h2, h3⟩
        · left; omega
        · right
          refine ⟨?_, by omega, h3⟩
          by_contra hne
          have : e = t + 1 := by omega
          rw [this] at h3; exact hstop h3
  · have h0 : nmax - t = 0 := by omega
    have : e = t := by rcases he.2.2 with h | h <;> omega
    subst this
    rw [h0]
    simp [integrate, Checkpointing.final, stepsFrom, hn.not_ge]

/-- **C33.** With a non-positive interval nothing is ever written. -/
theorem C33_disabled (stop : ℕ → Bool) (t nmax : ℕ) (n : ℤ) (hn : n ≤ 0) :
    integrate stop (nmax - t) t { interval := n } = [] :=
  integrate_disabled stop _ t _ hn

/-- **C33.** No run writes the same checkpoint file twice: the timesteps increase strictly. -/
theorem C33_distinct (stop : ℕ → Bool) (t nmax e : ℕ) (n : ℤ) (hn : 0 < n) (he : EndsAt stop t nmax e) :
    (integrate stop (nmax - t) t { interval := n }).Pairwise (· < ·) := by
  rw [C33_schedule stop t nmax e n hn he, List.pairwise_append]
  refine ⟨List.Pairwise.filter _ ?_, by simp, ?_⟩
  · unfold stepsFrom
    rw [List.pairwise_map]
    exact List.pairwise_lt_range.imp fun h => by omega
  · intro a ha b hb
    rw [List.mem_singleton] at hb
    subst hb
    have := (List.mem_filter.1 ha).1
    simp only [stepsFrom, List.mem_map, List.mem_range] at this
    obtain ⟨k, hk, rfl⟩ := this
    omega

/-- a run from 4 to 20 with interval 5, not stopped early: 5, 10, 15 and 20 -/
example : EndsAt (fun _ => false) 4 20 20 ∧
    integrate (fun _ => false) (20 - 4) 4 { interval := 5 } = [5, 10, 15, 20] :=
  ⟨⟨by decide, fun _ _ _ => rfl, Or.inl rfl⟩, by decide +kernel⟩

/-- restarted at the checkpoint of timestep 10 and stopped by the wallclock limit after step 12: only the final
checkpoint -/
example : EndsAt (fun k => decide (12 ≤ k)) 10 20 12 ∧
    integrate (fun k => decide (12 ≤ k)) (20 - 10) 10 { interval := 5 } = [12] :=
  ⟨⟨by decide, fun k _ h => by simp; omega, Or.inr ⟨by decide, by decide, rfl⟩⟩, by decide +kernel⟩

end Psc.Props
