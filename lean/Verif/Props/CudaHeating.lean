import Mathlib.Tactic.NormNum
import Verif.Lemmas.CudaHeatingRel

/-!
# C77: heating on the GPU and its random numbers
-/

namespace Psc.Props

open Psc.Cuda Psc.CudaPrts Psc.CudaHeat
open Psc.A2 (Prt)
open Psc.Heating (Params)

/-- **C77.**  After any history of injections, pushes, exchanges, reads, removals, collisions, heatings and redistributions of the
patches: heating can be carried out; whatever the order of the threads, it makes no access out of bounds; and when the particles
are then read, each particle of each patch has been treated as the specification says, with the corner its patch has now, and
the values used are new ones. -/
theorem C77_heating (F : Foil) (hF : F.Ok) (N : ℕ → ℕ → ℝ) (bc : ℝ → ℕ → Sto ℝ → Sto ℝ → R3 ℝ × R3 ℝ) (ν : ℝ) (W : World)
    (g : Gpu) (a : Abs ℝ) (h : Hist F N bc ν W g a) (hk : ∀ p < W.e.g.nPatches, ∀ q ∈ a.c p, q.kind < F.spot.n_kinds) :
    (∃ g', Heats F N W g (some g')) ∧ ¬Heats F N W g none ∧
      ∀ g', Heats F N W g (some g') → (∃ l s'', Step W.e g'.prts .read (.prts l) s'') ∧
        ∀ l s'', Step W.e g'.prts .read (.prts l) s'' → ∃ used, g'.log = g.log ++ used ∧ g'.log.Nodup ∧
          AllHeated F N W.e.g.nPatches (fun p => W.xb.getD p 0) a.c (fun p => stored (l.getD p [])) used := by
  have hi := hist_inv hF h
  obtain ⟨h1, h2⟩ := heats_ok hF (N := N) hi hk
  refine ⟨h1, fun hc => ?_, fun g' hc => ?_⟩
  · obtain ⟨_, _, _, h3, _⟩ := h2 _ hc
    cases h3
  · obtain ⟨g₁, c', used, h3, h4, h5, h6⟩ := h2 _ hc
    rw [Option.some.injEq] at h3
    subst h3
    obtain ⟨⟨o, s'', hs⟩, _, hgood⟩ := good_read hi.ok.grid h4.prts
    refine ⟨?_, fun l s'' hs => ⟨used, h5, h4.gens.nodup, ?_⟩⟩
    · cases hs with
      | read h => exact ⟨_, _, .read h⟩
    · have ho := (hgood _ _ hs).1.2
      obtain ⟨t, ht, hu⟩ := h6
      refine ⟨t, fun p hp => ?_, hu⟩
      obtain ⟨t1, t2, t3⟩ := ht p hp
      exact ⟨t1, (ho p hp).trans t2, t3⟩

/-- **C77.**  Heating does not disturb the storage of the particles: after any history, every allowed operation can be carried
out, does not fail, and what is observed is what the particles of each patch say. -/
theorem C77_history (F : Foil) (hF : F.Ok) (N : ℕ → ℕ → ℝ) (bc : ℝ → ℕ → Sto ℝ → Sto ℝ → R3 ℝ × R3 ℝ) (ν : ℝ) (W : World)
    (g : Gpu) (a : Abs ℝ) (h : Hist F N bc ν W g a) (i : In ℝ) (ha : Allowed W.e a i) :
    ¬Fails W.e g.prts i ∧ (∃ o s', Step W.e g.prts i o s') ∧ ∀ o s', Step W.e g.prts i o s' → Observed W.e a i o := by
  have hi := hist_inv hF h
  obtain ⟨h1, h2, h3⟩ := good hi.ok.grid hi.prts ha
  exact ⟨h2, h1, fun o s' hs => (h3 o s' hs).1⟩

/-- **C77.**  On a process no random number is used twice: after any history, of the values drawn for sorting, collisions and
heating no two are the same value of the same sequence.  Collisions can always draw what they need.
Missing: different processes, for which it is false (`C77_processes_violated`). -/
theorem C77_once_partial (F : Foil) (hF : F.Ok) (N : ℕ → ℕ → ℝ) (bc : ℝ → ℕ → Sto ℝ → Sto ℝ → R3 ℝ × R3 ℝ) (ν : ℝ) (W : World)
    (g : Gpu) (a : Abs ℝ) (h : Hist F N bc ν W g a) :
    g.log.Nodup ∧ ¬Draws W.e (g.rng, g.log) none ∧ ∃ r, Draws W.e (g.rng, g.log) (some r) := by
  have hi := hist_inv hF h
  obtain ⟨h1, h2⟩ := draws_ok (e := W.e) hi.gens hi.len
  refine ⟨hi.gens.nodup, fun hc => ?_, h1⟩
  obtain ⟨_, h3, _⟩ := h2 _ hc
  cases h3

/-! ## two processes -/

/-- The full statement: no random number is used twice in a run, also not on different processes, which have different
patches. -/
def C77_full : Prop :=
  ∀ (F : Foil) (N : ℕ → ℕ → ℝ) (bc : ℝ → ℕ → Sto ℝ → Sto ℝ → R3 ℝ × R3 ℝ) (ν : ℝ) (W₁ W₂ : World) (g₁ g₂ : Gpu) (a₁ a₂ : Abs ℝ),
    F.Ok → Hist F N bc ν W₁ g₁ a₁ → Hist F N bc ν W₂ g₂ a₂ → W₁.xb.Disjoint W₂.xb → g₁.log.Disjoint g₂.log

/-- one cell on each process -/
noncomputable def gpuHeatWorld (k : ℝ) : World := ⟨⟨⟨fun _ => 1, fun _ => 1, 1, 1⟩, fun _ => 1⟩, [![0, k, 0]], 0⟩

/-- electrons are heated in `-1 < z < 1` -/
noncomputable def gpuHeatFoil : Foil := ⟨⟨-1, 1, 0, 2, 1, fun k => if k = 0 then 1 else 0, 100, 2, 10, 10⟩, true, 1⟩

/-- an electron at rest -/
noncomputable def gpuHeatPrt : Prt ℝ := ⟨fun _ => 1 / 2, fun _ => 0, -1, 0, 0, 0⟩

theorem gpuHeatFoil_ok : gpuHeatFoil.Ok := by
  refine ⟨by norm_num [gpuHeatFoil], by norm_num [gpuHeatFoil], fun k _ => ?_⟩
  unfold gpuHeatFoil
  dsimp only
  split_ifs <;> norm_num

theorem gpuHeatWorld_ok (k : ℝ) : (gpuHeatWorld k).Ok gpuHeatFoil :=
  ⟨⟨by intro d; exact Nat.one_pos, by intro d; exact dvd_rfl, fun _ => ⟨rfl, rfl⟩⟩, rfl, le_rfl, ⟨fun _ => rfl, fun _ => rfl⟩⟩

/-- the electron is injected -/
theorem gpuHeat_hist (N : ℕ → ℕ → ℝ) (bc : ℝ → ℕ → Sto ℝ → Sto ℝ → R3 ℝ × R3 ℝ) (ν k : ℝ) : ∃ s,
    Hist gpuHeatFoil N bc ν (gpuHeatWorld k) { Gpu.init (gpuHeatWorld k) with prts := s }
      (after (gpuHeatWorld k).e Abs.init (.inject [[gpuHeatPrt]])) := by
  have hin : InPatch (gpuHeatWorld k).e gpuHeatPrt.x := by
    intro d
    simp only [gpuHeatPrt, gpuHeatWorld]
    norm_num
  have ha : Allowed (gpuHeatWorld k).e Abs.init (.inject [[gpuHeatPrt]]) := by
    refine ⟨rfl, ?_, by simp [Abs.init]⟩
    simp only [List.mem_cons, List.not_mem_nil, or_false, forall_eq]
    exact hin
  obtain ⟨⟨o, s, hs⟩, _⟩ := good (gpuHeatWorld_ok k).grid (rel_init (gpuHeatWorld k).e) ha
  exact ⟨s, .step (g := Gpu.init (gpuHeatWorld k)) (.init (gpuHeatWorld_ok k)) ha hs⟩

theorem gpuHeat_content (k : ℝ) : (after (gpuHeatWorld k).e Abs.init (.inject [[gpuHeatPrt]])).c 0 =
    ([⟨fun _ => 1 / 2, fun _ => 0, -1, 0⟩] : List (Sto ℝ)) := by
  simp [after, Abs.init, stored, gpuHeatPrt]

theorem gpuHeat_blocks (k : ℝ) : (gpuHeatWorld k).e.g.bpp = 1 ∧ (gpuHeatWorld k).e.g.nBlocks = 1 := by
  simp [gpuHeatWorld, Ix.bpp, Ix.bMx, Ix.nBlocks]

theorem gpuHeat_launch (k : ℝ) : gpuHeatFoil.blocks (gpuHeatWorld k).e = [[simple2YzInit (gpuHeatWorld k).e.g 0]] := by
  unfold Foil.blocks
  rw [if_pos (show gpuHeatFoil.yz = true from rfl)]
  simp [simple2Yz, gpuHeatWorld, Ix.bMx, maxNBlocks, strided, Ix.nBlocks, Ix.bpp]

theorem gpuHeat_strided (n : ℕ) : strided 0 1 (n + 1) = [0] := by
  unfold strided
  rw [if_pos ⟨by omega, by omega⟩]
  unfold strided
  rw [if_neg (by omega)]

theorem gpuHeat_rng {n : ℕ} (hn : n ≤ 131072) : (CudaHeat.resize n Rng.init)[0]? = some ⟨0, 0⟩ := by
  have hl : Rng.init.length = 131072 := by
    unfold Rng.init CudaHeat.resize
    rw [if_pos (by simp), List.length_map, List.length_range]
  rw [resize_id hl.ge hn]
  unfold Rng.init CudaHeat.resize
  rw [if_pos (by simp), List.getElem?_map, List.getElem?_range (by norm_num)]
  rfl

seal Rng.init in
/-- heating an electron uses the first value of the first sequence, on every process -/
theorem gpuHeat_first (N : ℕ → ℕ → ℝ) (bc : ℝ → ℕ → Sto ℝ → Sto ℝ → R3 ℝ × R3 ℝ) (ν k : ℝ) : ∃ g a,
    Hist gpuHeatFoil N bc ν (gpuHeatWorld k) g a ∧ (0, 0) ∈ g.log := by
  obtain ⟨s, hs⟩ := gpuHeat_hist N bc ν k
  set a := after (gpuHeatWorld k).e Abs.init (.inject [[gpuHeatPrt]]) with ha
  set g : Gpu := { Gpu.init (gpuHeatWorld k) with prts := s } with hgdef
  have hi := hist_inv gpuHeatFoil_ok hs
  have hk : ∀ p < (gpuHeatWorld k).e.g.nPatches, ∀ q ∈ a.c p, q.kind < gpuHeatFoil.spot.n_kinds := by
    intro p hp q hq
    have : p = 0 := Nat.lt_one_iff.1 hp
    subst this
    rw [ha, gpuHeat_content] at hq
    rw [List.mem_singleton.1 (Multiset.mem_coe.1 hq)]
    exact Nat.two_pos
  obtain ⟨s₁, B, h1, hb, hst, hph⟩ := reorder_ok hi.ok.grid hi.prts
  have hB : B 0 = [⟨fun _ => 1 / 2, fun _ => 0, -1, 0⟩] := by
    have h2 := hb.cont 0 Nat.one_pos
    rw [ha, gpuHeat_content] at h2
    have h3 : patchOf (gpuHeatWorld k).e B 0 = B 0 := by
      unfold patchOf
      rw [(gpuHeat_blocks k).1]
      simp [flat]
    rw [h3, Multiset.coe_eq_coe] at h2
    exact List.perm_singleton.1 h2.symm
  have hn : s.n ≠ 0 := by
    obtain ⟨B₀, hb₀, -⟩ := hi.prts
    have h2 := hb₀.cont 0 Nat.one_pos
    rw [ha, gpuHeat_content] at h2
    have h3 : patchOf (gpuHeatWorld k).e B₀ 0 = B₀ 0 := by
      unfold patchOf
      rw [(gpuHeat_blocks k).1]
      simp [flat]
    rw [h3, Multiset.coe_eq_coe] at h2
    have h4 := List.perm_singleton.1 h2.symm
    have h5 : s.n = pre B₀ 1 := by
      have := hb₀.n
      rw [(gpuHeat_blocks k).2] at this
      exact this
    rw [h5]
    show (List.sum _) ≠ 0
    simp [h4]
  have hrun := Heats.run (F := gpuHeatFoil) (N := N) (W := gpuHeatWorld k) (g := g) hn s₁ h1 _ rfl _ (List.Perm.refl _) _ rfl
  obtain ⟨g', c', used, h2, h3, -⟩ := (heats_ok gpuHeatFoil_ok hi hk).2 _ hrun
  have hlog := h2
  rw [h2] at hrun
  obtain ⟨o, s'', hr⟩ := (good_read hi.ok.grid h3.prts).1
  cases hr with
  | read hr =>
  refine ⟨g', _, .heat hs hk hrun (.read hr), ?_⟩
  obtain ⟨r, hr1, rfl⟩ := Option.map_eq_some_iff.1 hlog
  show (0, 0) ∈ r.2.2
  unfold heatKernel at hr1
  rw [gpuHeat_launch] at hr1
  rw [show [[simple2YzInit (gpuHeatWorld k).e.g 0]].length * 128 = 127 + 1 from rfl, List.range_succ_eq_map, List.foldlM_cons,
    Option.bind_eq_bind, Option.bind_eq_some_iff] at hr1
  obtain ⟨x, hx, hr1⟩ := hr1
  refine (log_threads _ hr1).subset ?_
  have hf : firstTime gpuHeatFoil (gpuHeatWorld k) (check (gpuHeatWorld k) g) =
      ⟨s, resize ((gpuHeatFoil.blocks (gpuHeatWorld k).e).length * 128) Rng.init, false, (gpuHeatWorld k).xb, 0, []⟩ := by
    unfold CudaHeat.check firstTime
    rw [if_pos (show g.gen < (gpuHeatWorld k).gen from by norm_num [hgdef, Gpu.init, gpuHeatWorld]), if_pos rfl]
    rfl
  rw [hf] at hx
  dsimp only at hx
  have hoff : s₁.off = [0, 1] := by
    rw [hb.off, (gpuHeat_blocks k).2]
    simp [List.range_succ, pre, hB]
  have hsto : s₁.storage = [⟨fun _ => 1 / 2, fun _ => 0, -1, 0⟩] := by
    rw [hst, (gpuHeat_blocks k).2]
    simp [flat, hB]
  have hit : threadItems [0, 1] [simple2YzInit (gpuHeatWorld k).e.g 0] 0 = some [(simple2YzInit (gpuHeatWorld k).e.g 0, 0)] := by
    simp [threadItems, threadWork, simple2YzInit, inBlock, gpuHeat_strided 127]
  have hH := Heating.get_H_pos gpuHeatFoil.spot gpuHeatFoil.yz ![0, k, 0] (prt ⟨fun _ => 1 / 2, fun _ => 0, -1, 0⟩)
    gpuHeatFoil_ok.mass gpuHeatFoil_ok.layer (gpuHeatFoil_ok.temp _ Nat.two_pos) Nat.two_pos
  obtain ⟨H, hH1, hH2⟩ := hH
  have hpos : 0 < H := by
    rw [hH2]
    unfold Spec.Heated gpuHeatFoil prt
    dsimp only
    rw [show (![0, k, 0] : R3 ℝ) 2 = 0 from rfl]
    norm_num
  unfold heatThread at hx
  simp only [Option.bind_eq_bind, Option.bind_eq_some_iff] at hx
  obtain ⟨bs, hbs, st, hst0, items, hitems, y, hy, rng, hrng, hx⟩ := hx
  rw [Option.some.injEq] at hx
  subst hx
  have hbs : bs = [simple2YzInit (gpuHeatWorld k).e.g 0] := (Option.some.inj hbs).symm
  subst hbs
  rw [gpuHeat_rng (by rw [gpuHeat_launch]; norm_num), Option.some.injEq] at hst0
  subst hst0
  rw [hoff, hit, Option.some.injEq] at hitems
  subst hitems
  rw [List.foldlM_cons, Option.bind_eq_bind, Option.bind_eq_some_iff] at hy
  obtain ⟨z, hz, hy⟩ := hy
  rw [List.foldlM_nil] at hy
  have hy : z = y := Option.some.inj hy
  subst hy
  unfold heatOne at hz
  simp only [Option.bind_eq_bind, Option.bind_eq_some_iff] at hz
  obtain ⟨xb, hxb, q, hq, H', hH', hz⟩ := hz
  have hp0 : (simple2YzInit (gpuHeatWorld k).e.g 0).p = 0 := by simp [simple2YzInit]
  rw [hp0] at hxb
  have hxb : xb = ![0, k, 0] := (Option.some.inj hxb).symm
  rw [hsto] at hq
  have hq : q = ⟨fun _ => 1 / 2, fun _ => 0, -1, 0⟩ := (Option.some.inj hq).symm
  subst hxb hq
  have hHH : some H = some H' := hH1.symm.trans hH'
  rw [Option.some.injEq] at hHH
  subst hHH
  rw [if_pos hpos] at hz
  obtain ⟨st', _, hz⟩ := Option.bind_eq_some_iff.1 hz
  rw [Option.some.injEq] at hz
  subst hz
  simp

/-- **C77, violation.**  The generators are seeded in the same way on every process: two processes use the same random
numbers. -/
theorem C77_processes_violated : ¬C77_full := by
  intro hc
  obtain ⟨g₁, a₁, h1, m1⟩ := gpuHeat_first (fun _ _ => 1) (fun _ _ _ _ => (0, 0)) 1 0
  obtain ⟨g₂, a₂, h2, m2⟩ := gpuHeat_first (fun _ _ => 1) (fun _ _ _ _ => (0, 0)) 1 1
  refine hc _ _ _ _ _ _ _ _ _ _ gpuHeatFoil_ok h1 h2 ?_ m1 m2
  intro x hx hy
  have hx := List.mem_singleton.1 hx
  have hy := List.mem_singleton.1 hy
  have := congrFun (hx.symm.trans hy) 1
  norm_num at this

/-- an electron that is heated -/
example (N : ℕ → ℕ → ℝ) (bc : ℝ → ℕ → Sto ℝ → Sto ℝ → R3 ℝ × R3 ℝ) (ν : ℝ) : ∃ g a, gpuHeatFoil.Ok ∧
    Hist gpuHeatFoil N bc ν (gpuHeatWorld 0) g a ∧ g.log ≠ [] := by
  obtain ⟨g, a, h, m⟩ := gpuHeat_first N bc ν 0
  exact ⟨g, a, gpuHeatFoil_ok, h, List.ne_nil_of_mem m⟩

end Psc.Props
