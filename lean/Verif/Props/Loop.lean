import Verif.Lemmas.Loop

/-!
# Properties of the main loop (C45, C53)
-/

namespace Psc.Props

open Psc.Loop Psc.Spec

/-- **C45.** For all intervals, numbers of components, initial and final timesteps and all behaviours of the clock and of the memory
use, with a non-zero status interval: the run ends after `max (nmax - t0) 0` steps, or after the first step that exceeds the wall-clock limit.
What happens at each timestep is exactly what belongs there: in the first timestep the initial exchange, check and diagnostics; then, in every timestep
up to the end, the operations every step consists of, and balancing, sorting, collisions, Marder correction and checks at exactly the positive multiples
of their intervals (balancing also if there is not enough memory); and checkpoints.  Everything happens at most once and in the
fixed order. -/
theorem C45_integrate (p : Params) (memOver stop : ℤ → Bool) (t0 : ℤ) (hs : p.stats_every ≠ 0) :
    ∃ tr tend, integrate p memOver stop t0 = some (tr, tend) ∧
      -- when it ends
      t0 ≤ tend ∧ tend ≤ max t0 p.nmax ∧ (∀ s, t0 < s → s < tend → stop s = false) ∧
      (tend < p.nmax → t0 < tend ∧ stop tend = true) ∧
      -- what is done
      (∀ t o, (t, o) ∈ tr ↔
        t = t0 ∧ InStart p t0 o ∨ t0 < t ∧ t ≤ tend ∧ InStep p memOver t o ∨ o = .checkpoint ∧ CheckpointAt p t0 tend t) ∧
      -- in which order
      tr.Pairwise Earlier := by
  obtain ⟨⟨tr, tend⟩, hl⟩ := loop_some p memOver stop hs (p.nmax - t0).toNat true t0
  obtain ⟨⟨e1, e2, e3, e4⟩, hm, hp, hlo⟩ := loop_spec p memOver stop _ true t0 tr tend hs hl
  refine ⟨tag t0 (pre_first_step p t0 ++ diagnostics p ++ [.status]) ++ tr, tend, ?_, e1, by omega, e3, fun h => e4 (by omega), ?_, ?_⟩
  · unfold integrate
    rw [hl]; rfl
  · intro t o
    rw [List.mem_append, mem_tag, mem_start, hm]
    unfold CpIn CheckpointAt
    constructor
    · rintro (⟨rfl, h⟩ | h | ⟨rfl, h1, h⟩)
      · exact Or.inl ⟨rfl, h⟩
      · exact Or.inr (Or.inl h)
      · refine Or.inr (Or.inr ⟨rfl, h1, ?_⟩)
        rcases h with ⟨_, b, c, d⟩ | h
        · exact Or.inl ⟨b rfl, c, d⟩
        · exact Or.inr h
    · rintro (⟨rfl, h⟩ | h | ⟨rfl, h1, h⟩)
      · exact Or.inl ⟨rfl, h⟩
      · exact Or.inr (Or.inl h)
      · refine Or.inr (Or.inr ⟨rfl, h1, ?_⟩)
        rcases h with ⟨b, c, d⟩ | h
        · exact Or.inl ⟨le_of_lt b, fun _ => b, c, d⟩
        · exact Or.inr h
  · refine List.pairwise_append.2 ⟨tag_pairwise (blk_start p t0), hp, ?_⟩
    rintro ⟨s, o⟩ ha ⟨s', o'⟩ hb
    have hb' := hlo _ hb
    rw [mem_tag] at ha
    obtain ⟨rfl, ha⟩ := ha
    rcases hb' with h | ⟨h, h2⟩
    · exact Or.inl h
    · simp only at h h2
      subst h2
      exact Or.inr ⟨h, Or.inl ((blk_start p s).1 o ha).2⟩

/-- three steps, with sorting at every second one: sorted once, in step 2 -/
example : (integrate { nmax := 3, sort_interval := 2 } (fun _ => false) (fun _ => false) 0).map
    (fun r => (r.1.filter (fun x => x.2 = .sort ∨ x.2 = .pushP), r.2)) =
    some ([(1, .pushP), (2, .sort), (2, .pushP), (3, .pushP)], 3) := by decide +kernel

/-- the wall-clock limit ends the run after the second of ten steps; the last checkpoint is written there -/
example : (integrate { nmax := 10, write_checkpoint_every_step := 4 } (fun _ => false) (fun t => 2 ≤ t) 0).map
    (fun r => (r.1.filter (fun x => x.2 = .checkpoint), r.2)) = some ([(2, .checkpoint)], 2) := by decide +kernel

/-- a restarted run with `t0` beyond `nmax` only does the initial diagnostics -/
example : (integrate { nmax := 10, n_diags := 1 } (fun _ => false) (fun _ => false) 12).map (fun r => r.2) = some 12 := by decide +kernel

/-- **C45, violation.** A status interval of zero does not switch the status output off, as an interval of zero does for everything else, but makes
the first step divide by zero. -/
theorem C45_stats_violation (p : Params) (memOver stop : ℤ → Bool) (t0 : ℤ) (hs : p.stats_every = 0) (h : t0 < p.nmax) :
    integrate p memOver stop t0 = none := by
  obtain ⟨n, hn⟩ : ∃ n, (p.nmax - t0).toNat = n + 1 := ⟨(p.nmax - t0).toNat - 1, by omega⟩
  unfold integrate
  rw [hn, loop, if_pos hs]
  rfl

example : ({ nmax := 10, stats_every := 0 } : Params).stats_every = 0 ∧ (0 : ℤ) < ({ nmax := 10, stats_every := 0 } : Params).nmax := by
  decide

/-- **C53.** For all intervals, numbers of components and behaviours of clock and memory: whenever an operation reads the ghost cells of a field, they
are up to date, with the walls' treatment, the adding up of contributions to the currents and the exchange between patches done, in this order, since the field was last
written; and positions, `E` and `H` are at the times that operation needs (`stage`).  After the run, all are at the final timestep. -/
theorem C53_fresh (p : Params) (memOver stop : ℤ → Bool) (t0 : ℤ) (tr : List (ℤ × Op)) (tend : ℤ)
    (h : integrate p memOver stop t0 = some (tr, tend)) :
    stages ⟨2 * t0, 2 * t0, 2 * t0, .stale, .stale, .stale⟩ (tr.map Prod.snd) =
      some ⟨2 * tend, 2 * tend, 2 * tend, .fresh, .fresh, .fresh⟩ := by
  have hst : stages ⟨2 * t0, 2 * t0, 2 * t0, .stale, .stale, .stale⟩ (pre_first_step p t0 ++ diagnostics p ++ [.status]) =
      some (rest t0) := by
    unfold pre_first_step diagnostics
    simp only [stages_append]
    have h1 : stages ⟨2 * t0, 2 * t0, 2 * t0, .stale, .stale, .stale⟩ [.preBndH, .preFillH, .preFillJ, .preBndE, .preFillE] =
        some (rest t0) := by simp [stages, stage, rest]
    rw [h1]
    simp only [Option.bind_some]
    have h2 : ∀ c : Bool, stages (rest t0) (if c then [.preGauss] else []) = some (rest t0) := by
      intro c; cases c <;> simp [stages, stage, rest]
    rw [h2]
    simp only [Option.bind_some]
    rw [stages_id (rest t0) ((List.range p.n_diags).map .diag) ?_]
    · rfl
    · intro o ho
      rcases List.mem_map.1 ho with ⟨i, _, rfl⟩
      simp [stage, rest]
  have ht : ∀ s l, (tag s l).map Prod.snd = l := by
    intro s l; unfold tag; rw [List.map_map]; exact List.map_id' l
  unfold integrate at h
  generalize hl : loop p memOver stop (p.nmax - t0).toNat true t0 = r at h
  cases r with
  | none => simp at h
  | some x =>
    obtain ⟨tr', tend'⟩ := x
    change some (tag t0 (pre_first_step p t0 ++ diagnostics p ++ [.status]) ++ tr', tend') = some (tr, tend) at h
    simp only [Option.some.injEq, Prod.mk.injEq] at h
    obtain ⟨rfl, rfl⟩ := h
    rw [List.map_append, ht, stages_append, hst, Option.bind_some]
    by_cases hs : p.stats_every = 0
    · -- no step has been made
      have hn : (p.nmax - t0).toNat = 0 := by
        cases hn : (p.nmax - t0).toNat with
        | zero => rfl
        | succ n => rw [hn, loop, if_pos hs] at hl; simp at hl
      rw [hn] at hl
      simp only [loop, Option.some.injEq, Prod.mk.injEq] at hl
      obtain ⟨rfl, rfl⟩ := hl
      rw [ht]
      unfold final
      split_ifs <;> rfl
    · exact stages_loop p memOver stop _ true t0 _ _ hs hl

/-- a run with everything switched on -/
def exLoop : Params where
  nmax := 4
  write_checkpoint_every_step := 2
  balance_interval := 3
  sort_interval := 1
  marder_interval := 2
  collision_interval := 3
  continuity_interval := 1
  gauss_interval := 1
  n_injectors := 2
  n_currents := 1
  n_correctors := 1
  n_diags := 2

example : ((integrate exLoop (fun _ => true) (fun _ => false) 0).bind
    (fun r => stages ⟨0, 0, 0, .stale, .stale, .stale⟩ (r.1.map Prod.snd))) = some ⟨8, 8, 8, .fresh, .fresh, .fresh⟩ := by decide +kernel

/-- the specification does tell orders apart: pushing `E` before the currents have been exchanged is not accepted -/
example : stages ⟨0, 0, 0, .fresh, .fresh, .fresh⟩ [.pushP, .pushH1, .bndH1, .fillH1, .pushE] = none := by decide +kernel

end Psc.Props
